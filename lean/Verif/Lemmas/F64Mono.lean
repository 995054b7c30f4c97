import Verif.Lemmas.Shortest
/-!
# Rounding is monotone and idempotent
-/
namespace F64

theorem roundEven_le_of_le {x : ℚ} {n : ℤ} (h : x ≤ n) : roundEven x ≤ n := by
  unfold roundEven
  have h1 := Int.floor_le x
  have h2 := Int.lt_floor_add_one x
  have hf : ⌊x⌋ ≤ n := by exact_mod_cast (h1.trans h)
  simp only
  by_cases he : ⌊x⌋ = n
  · have hx : x = n := le_antisymm h (by rw [← he]; exact h1)
    rw [he, hx]; norm_num
  · have : ⌊x⌋ + 1 ≤ n := by omega
    split
    · exact hf
    · split
      · exact this
      · split
        · exact hf
        · exact this

theorem le_roundEven_of_le {x : ℚ} {n : ℤ} (h : (n:ℚ) ≤ x) : n ≤ roundEven x := by
  have := roundEven_le_of_le (x := -x) (n := -n) (by push_cast; linarith)
  rw [F64.roundEven_neg] at this
  omega

theorem roundEven_mono {x y : ℚ} (h : x ≤ y) : roundEven x ≤ roundEven y := by
  rcases lt_or_ge ⌊x⌋ ⌊y⌋ with hf | hf
  · -- x < ⌊y⌋ ≤ y
    have h1 : x ≤ (⌊y⌋ : ℚ) := by
      have := Int.lt_floor_add_one x
      have : ((⌊x⌋ + 1 : ℤ) : ℚ) ≤ ⌊y⌋ := by exact_mod_cast hf
      push_cast at this
      linarith
    exact (roundEven_le_of_le h1).trans (le_roundEven_of_le (Int.floor_le y))
  · have he : ⌊x⌋ = ⌊y⌋ := le_antisymm (Int.floor_mono h) hf
    unfold roundEven
    simp only [he]
    split
    · split
      · exact le_refl _
      · split
        · omega
        · split <;> omega
    · next h1 =>
      have h2 : ¬ y - (⌊y⌋ : ℚ) < 1/2 := by intro h'; apply h1; linarith
      rw [if_neg h2]
      split
      · next h3 =>
        have h4 : 1/2 < y - (⌊y⌋ : ℚ) := by linarith
        rw [if_pos h4]
      · split
        · split
          · omega
          · exact le_refl _
        · split <;> omega

theorem rndQ_zero : rndQ 0 = 0 := by unfold rndQ; simp [roundEven]

/-- a multiple of the unit in the last place above `q` is above the rounded number. -/
theorem rndQ_le_of_le {q : ℚ} (k e : ℤ) (hq : q ≤ k * (2:ℚ) ^ e) (he : ulpExp q ≤ e) : rndQ q ≤ k * (2:ℚ) ^ e := by
  have hp := two_zpow_pos (ulpExp q)
  have h2 : (2:ℚ) ^ e = (2:ℚ) ^ (e - ulpExp q).toNat * (2:ℚ) ^ ulpExp q := by
    rw [← zpow_natCast, ← zpow_add₀ (by norm_num : (2:ℚ) ≠ 0)]
    congr 1
    omega
  have hn : q / (2:ℚ) ^ ulpExp q ≤ ((k * 2 ^ (e - ulpExp q).toNat : ℤ) : ℚ) := by
    rw [div_le_iff₀ hp]
    push_cast
    rw [mul_assoc, ← h2]
    exact hq
  have := roundEven_le_of_le hn
  unfold rndQ
  rw [h2, ← mul_assoc]
  apply mul_le_mul_of_nonneg_right _ hp.le
  exact_mod_cast this

theorem ulpExp_neg (q : ℚ) : ulpExp (-q) = ulpExp q := by unfold ulpExp; rw [abs_neg]

theorem le_rndQ_of_le {q : ℚ} (k e : ℤ) (hq : k * (2:ℚ) ^ e ≤ q) (he : ulpExp q ≤ e) : k * (2:ℚ) ^ e ≤ rndQ q := by
  have := rndQ_le_of_le (q := -q) (-k) e (by push_cast; linarith) (by rw [ulpExp_neg]; exact he)
  rw [rndQ_neg] at this
  push_cast at this
  linarith

theorem rndQ_nonneg {q : ℚ} (h : 0 ≤ q) : 0 ≤ rndQ q := by
  have := le_rndQ_of_le (q := q) 0 (ulpExp q) (by simpa using h) le_rfl
  simpa using this

theorem rndQ_mono_pos {q q' : ℚ} (h0 : 0 < q) (h : q ≤ q') : rndQ q ≤ rndQ q' := by
  have h0' : 0 < q' := lt_of_lt_of_le h0 h
  have hlog : Int.log 2 |q| ≤ Int.log 2 |q'| := by
    rw [abs_of_pos h0, abs_of_pos h0']
    exact Int.log_mono_right h0 h
  rcases lt_or_ge (ulpExp q) (ulpExp q') with hu | hu
  · have hq'e : ulpExp q' = Int.log 2 |q'| - 52 := by unfold ulpExp at hu ⊢; omega
    have hlt : Int.log 2 |q| < Int.log 2 |q'| := by unfold ulpExp at hu; omega
    have hM : q ≤ ((1:ℤ):ℚ) * (2:ℚ) ^ Int.log 2 |q'| := by
      have h1 := lt_log (q := q)
      rw [abs_of_pos h0] at h1 hlt
      have h2 : (2:ℚ) ^ (Int.log 2 q + 1) ≤ (2:ℚ) ^ Int.log 2 |q'| := zpow_le_zpow_right₀ (by norm_num) (by omega)
      push_cast
      linarith
    have h1 := rndQ_le_of_le 1 (Int.log 2 |q'|) hM (by omega)
    have h2 : ((1:ℤ):ℚ) * (2:ℚ) ^ Int.log 2 |q'| ≤ q' := by
      have := log_le h0'.ne'
      rw [abs_of_pos h0'] at this ⊢
      push_cast
      linarith
    have h3 := le_rndQ_of_le 1 (Int.log 2 |q'|) h2 (by omega)
    linarith
  · have he : ulpExp q = ulpExp q' := by unfold ulpExp at hu ⊢; omega
    unfold rndQ
    rw [he]
    have hp := two_zpow_pos (ulpExp q')
    apply mul_le_mul_of_nonneg_right _ hp.le
    exact_mod_cast roundEven_mono (div_le_div_of_nonneg_right h hp.le)

theorem rndQ_mono {q q' : ℚ} (h : q ≤ q') : rndQ q ≤ rndQ q' := by
  rcases lt_trichotomy q 0 with hq | hq | hq
  · rcases lt_or_ge q' 0 with hq' | hq'
    · have := rndQ_mono_pos (q := -q') (q' := -q) (by linarith) (by linarith)
      rw [rndQ_neg, rndQ_neg] at this
      linarith
    · have h1 := rndQ_nonneg (q := -q) (by linarith)
      rw [rndQ_neg] at h1
      have h2 := rndQ_nonneg hq'
      linarith
  · subst hq
    rw [rndQ_zero]
    exact rndQ_nonneg h
  · exact rndQ_mono_pos hq h

theorem rndQ_two_zpow {e : ℤ} (he : -1074 ≤ e) : rndQ ((2:ℚ) ^ e) = (2:ℚ) ^ e := by
  apply rndQ_exact 1 e (by simp)
  unfold ulpExp
  have : Int.log 2 |(2:ℚ) ^ e| = e := by
    rw [abs_of_pos (two_zpow_pos e)]
    have := Int.log_zpow (R := ℚ) (b := 2) (by norm_num) e
    exact_mod_cast this
  omega

theorem rndQ_idem_pos {q : ℚ} (h0 : 0 < q) : rndQ (rndQ q) = rndQ q := by
  rcases (rndQ_nonneg h0.le).eq_or_lt with hz | hpos
  · rw [← hz, rndQ_zero]
  · by_cases hsub : Int.log 2 |q| + 1 < -1074
    · -- below the smallest subnormal: the result can only be 2^-1074
      have hle : rndQ q ≤ ((1:ℤ):ℚ) * (2:ℚ) ^ (-1074:ℤ) := by
        apply rndQ_le_of_le
        · have := lt_log (q := q)
          rw [abs_of_pos h0] at this hsub
          have h2 : (2:ℚ) ^ (Int.log 2 q + 1) ≤ (2:ℚ) ^ (-1074:ℤ) := zpow_le_zpow_right₀ (by norm_num) (by omega)
          push_cast; linarith
        · unfold ulpExp; omega
      have hu : ulpExp q = -1074 := by unfold ulpExp; omega
      apply rndQ_exact (roundEven (q / (2:ℚ) ^ ulpExp q)) (ulpExp q) rfl
      show ulpExp (rndQ q) ≤ ulpExp q
      rw [hu]
      unfold ulpExp
      have hlog : Int.log 2 |rndQ q| ≤ -1074 := by
        rw [abs_of_pos hpos]
        have h1 := Int.log_mono_right (b := 2) hpos hle
        have h2 := Int.log_zpow (R := ℚ) (b := 2) (by norm_num) (-1074)
        push_cast at h1 h2
        rw [one_mul, h2] at h1
        exact h1
      omega
    · have htop : rndQ q ≤ ((1:ℤ):ℚ) * (2:ℚ) ^ (Int.log 2 |q| + 1) := by
        apply rndQ_le_of_le
        · have := lt_log (q := q)
          rw [abs_of_pos h0] at this ⊢
          push_cast; linarith
        · unfold ulpExp; omega
      push_cast at htop
      rw [one_mul] at htop
      rcases htop.eq_or_lt with he | hlt
      · rw [he]
        exact rndQ_two_zpow (by omega)
      · apply rndQ_exact (roundEven (q / (2:ℚ) ^ ulpExp q)) (ulpExp q) rfl
        have : Int.log 2 |rndQ q| < Int.log 2 |q| + 1 := by
          apply (Int.lt_zpow_iff_log_lt (b := 2) (by norm_num) (abs_pos.2 hpos.ne')).1
          rw [abs_of_pos hpos]
          exact_mod_cast hlt
        show ulpExp (rndQ q) ≤ ulpExp q
        unfold ulpExp
        omega

theorem rndQ_idem (q : ℚ) : rndQ (rndQ q) = rndQ q := by
  rcases lt_trichotomy q 0 with hq | hq | hq
  · have := rndQ_idem_pos (q := -q) (by linarith)
    rw [rndQ_neg, rndQ_neg] at this
    linarith
  · subst hq; rw [rndQ_zero, rndQ_zero]
  · exact rndQ_idem_pos hq

/-- a rounded number is a float64. -/
theorem rnd_valid (q : ℚ) : (rnd q).Valid := by
  by_cases h : |rndQ q| < (2:ℚ) ^ (1024:ℤ)
  · have h1 := rnd_fin h
    by_cases h0 : rndQ q = 0
    · have : rnd q = negZero ∨ rnd q = fin 0 := by
        unfold rnd
        simp only [h0]
        rw [if_neg (by simp)]
        split
        · exact .inl rfl
        · exact .inr rfl
      rcases this with h | h <;> rw [h]
      · trivial
      · show rnd 0 = fin 0
        unfold rnd; simp [rndQ_zero]
    · rw [rnd_eq_fin h h0]
      show rnd (rndQ q) = fin (rndQ q)
      have hi := rndQ_idem q
      rw [rnd_eq_fin (by rw [hi]; exact h) (by rw [hi]; exact h0), hi]
  · have : rnd q = inf (decide (q < 0)) := by
      unfold rnd
      simp only
      rw [if_pos (not_lt.1 h)]
    rw [this]; trivial

/-- a non-negative float64 at most `2^e`. -/
def NonnegLe (e : ℤ) (v : F64) : Prop := v.isFinite = true ∧ v.Valid ∧ v ≠ negZero ∧ 0 ≤ v.toRat ∧ v.toRat ≤ (2:ℚ) ^ e

theorem rnd_nonnegLe {q : ℚ} {e : ℤ} (h0 : 0 ≤ q) (he' : e < 1024) (h : rndQ q ≤ (2:ℚ) ^ e) : NonnegLe e (rnd q) := by
  have hn := rndQ_nonneg h0
  have hlt : |rndQ q| < (2:ℚ) ^ (1024:ℤ) := by
    rw [abs_of_nonneg hn]
    exact lt_of_le_of_lt h (zpow_lt_zpow_right₀ (by norm_num) he')
  obtain ⟨h1, h2⟩ := rnd_fin hlt
  refine ⟨h1, rnd_valid q, ?_, by rw [h2]; exact hn, by rw [h2]; exact h⟩
  intro hz
  unfold rnd at hz
  simp only at hz
  rw [if_neg (not_le.2 hlt)] at hz
  split at hz
  · next h' => linarith [h'.2]
  · cases hz

theorem rnd_nonnegLe_of_le {q : ℚ} {e : ℤ} (h0 : 0 ≤ q) (he : -1074 ≤ e) (he' : e < 1024) (h : q ≤ (2:ℚ) ^ e) : NonnegLe e (rnd q) :=
  rnd_nonnegLe h0 he' (by rw [← rndQ_two_zpow he]; exact rndQ_mono h)

/-- adding to a large number a much smaller one does not get beyond the next power of two: sums of squares never overflow. -/
theorem rndQ_absorb : rndQ ((2:ℚ) ^ (190:ℤ) + (2:ℚ) ^ (126:ℤ)) = (2:ℚ) ^ (190:ℤ) := by decide +kernel

theorem add_absorb {a b : F64} (ha : NonnegLe 190 a) (hb : NonnegLe 126 b) : NonnegLe 190 (add a b) := by
  obtain ⟨a1, _, a3, a4, a5⟩ := ha
  obtain ⟨b1, _, b3, b4, b5⟩ := hb
  have : add a b = rnd (a.toRat + b.toRat) := by
    cases a with
    | nan => simp [isFinite] at a1
    | inf s => simp [isFinite] at a1
    | negZero => exact absurd rfl a3
    | fin q =>
      cases b with
      | nan => simp [isFinite] at b1
      | inf s => simp [isFinite] at b1
      | negZero => exact absurd rfl b3
      | fin q' => rfl
  rw [this]
  apply rnd_nonnegLe (by linarith) (by norm_num)
  rw [← rndQ_absorb]
  exact rndQ_mono (by linarith)

/-- the square of an int64 as the code computes it. -/
theorem square_le {n : ℤ} (h : -2 ^ 63 ≤ n ∧ n < 2 ^ 63) : NonnegLe 126 (mul (ofInt n) (ofInt n)) := by
  have hb : |rndQ n| ≤ (2:ℚ) ^ (63:ℤ) := by
    have h2 : rndQ ((2:ℚ) ^ (63:ℤ)) = (2:ℚ) ^ (63:ℤ) := rndQ_two_zpow (by norm_num)
    rw [abs_le]
    constructor
    · rw [← h2, ← rndQ_neg]
      apply rndQ_mono
      have : ((-2 ^ 63 : ℤ) : ℚ) ≤ n := by exact_mod_cast h.1
      push_cast at this
      norm_num at this ⊢
      linarith
    · rw [← h2]
      apply rndQ_mono
      have : (n : ℚ) ≤ ((2 ^ 63 : ℤ) : ℚ) := by exact_mod_cast h.2.le
      push_cast at this
      norm_num at this ⊢
      linarith
  have hlt : |rndQ n| < (2:ℚ) ^ (1024:ℤ) := lt_of_le_of_lt hb (zpow_lt_zpow_right₀ (by norm_num) (by norm_num))
  obtain ⟨f1, f2⟩ := rnd_fin hlt
  unfold ofInt
  have hsq : mul (rnd n) (rnd n) = if rndQ n * rndQ n = 0 then fin 0 else rnd (rndQ n * rndQ n) := by
    unfold mul
    rw [← f2]
    cases hr : rnd (n:ℚ) with
    | nan => rw [hr] at f1; simp [isFinite] at f1
    | inf s => rw [hr] at f1; simp [isFinite] at f1
    | negZero => simp [toRat, isNeg, zero]
    | fin q => simp [toRat, zero]
  rw [hsq]
  have hsqle : rndQ n * rndQ n ≤ (2:ℚ) ^ (126:ℤ) := by
    have : rndQ n * rndQ n = |rndQ n| * |rndQ n| := by rw [← abs_mul, abs_of_nonneg (mul_self_nonneg _)]
    rw [this]
    calc |rndQ n| * |rndQ n| ≤ (2:ℚ) ^ (63:ℤ) * (2:ℚ) ^ (63:ℤ) := mul_le_mul hb hb (abs_nonneg _) (by positivity)
      _ = _ := by norm_num
  split
  · refine ⟨rfl, ?_, by simp, le_refl _, ?_⟩
    · show rnd 0 = fin 0
      unfold rnd; simp [rndQ_zero]
    · show (0:ℚ) ≤ _
      positivity
  · exact rnd_nonnegLe_of_le (mul_self_nonneg _) (by norm_num) (by norm_num) hsqle

theorem nonnegLe_zero {e : ℤ} : NonnegLe e (fin 0) := by
  refine ⟨rfl, ?_, by simp, le_refl _, ?_⟩
  · show rnd 0 = fin 0
    unfold rnd; simp [rndQ_zero]
  · show (0:ℚ) ≤ _
    positivity

end F64
