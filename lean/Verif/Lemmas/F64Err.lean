import Verif.Lemmas.F64Mono
import Mathlib.Tactic.Positivity
import Mathlib.Tactic.Linarith
import Mathlib.Tactic.FieldSimp
/-! Relative errors of float64 operations. -/
namespace F64

/-- the rounding unit, 2^-53. -/
def uu : ℚ := 1 / 9007199254740992

theorem uu_eq : uu = (2:ℚ) ^ (-53 : ℤ) := by unfold uu; norm_num
theorem uu_pos : 0 < uu := by unfold uu; norm_num
theorem uu_small : uu ≤ 1 / 1000000 := by unfold uu; norm_num

/-- a number in the ordinary range of magnitudes. -/
def Mid (q : ℚ) : Prop := (2:ℚ) ^ (-1022 : ℤ) ≤ |q| ∧ |q| ≤ (2:ℚ) ^ (1000 : ℤ)

theorem mid_of {q : ℚ} (h1 : 1 / 2 ^ 200 ≤ |q|) (h2 : |q| ≤ 2 ^ 250) : Mid q := by
  constructor
  · refine le_trans ?_ h1
    rw [one_div, ← zpow_natCast, ← zpow_neg]
    exact zpow_le_zpow_right₀ (by norm_num) (by norm_num)
  · refine le_trans h2 ?_
    rw [← zpow_natCast]
    exact zpow_le_zpow_right₀ (by norm_num) (by norm_num)

theorem Mid.ne {q : ℚ} (h : Mid q) : q ≠ 0 := by
  rintro rfl
  have := h.1
  rw [abs_zero] at this
  exact absurd this (not_le.2 (by positivity))

theorem rndQ_mid {q : ℚ} (h : Mid q) : |rndQ q - q| ≤ |q| * uu := by rw [uu_eq]; exact rndQ_rel h.1

theorem rndQ_pos {q : ℚ} (h : Mid q) (hq : 0 < q) : 0 < rndQ q := by
  have h1 := rndQ_mid h
  rw [abs_of_pos hq] at h1
  have h2 := (abs_le.1 h1).1
  have : q * uu < q := by nlinarith [uu_small, uu_pos]
  linarith

theorem rnd_mid {q : ℚ} (h : Mid q) : rnd q = fin (rndQ q) := by
  have h1 := rndQ_mid h
  have hne : rndQ q ≠ 0 := by
    intro h0
    rw [h0, zero_sub, abs_neg] at h1
    have : 0 < |q| := abs_pos.2 h.ne
    nlinarith [uu_small]
  refine rnd_eq_fin ?_ hne
  have h3 : |rndQ q| ≤ |q| * (1 + uu) := by
    have : |rndQ q| ≤ |rndQ q - q| + |q| := by
      have := abs_add_le (rndQ q - q) q
      rwa [sub_add_cancel] at this
    linarith [mul_add |q| 1 uu]
  have h4 : |q| * (1 + uu) ≤ (2:ℚ) ^ (1000:ℤ) * 2 := by
    have := h.2
    have : 1 + uu ≤ 2 := by linarith [uu_small]
    exact mul_le_mul h.2 this (by linarith [uu_pos]) (by positivity)
  have h5 : (2:ℚ) ^ (1000:ℤ) * 2 < (2:ℚ) ^ (1024:ℤ) := by
    have : (2:ℚ) ^ (1000:ℤ) * 2 = (2:ℚ) ^ (1001:ℤ) := by
      rw [show (1001:ℤ) = 1000 + 1 by norm_num, zpow_add₀ (by norm_num), zpow_one]
    rw [this]
    exact zpow_lt_zpow_right₀ (by norm_num) (by norm_num)
  exact lt_of_le_of_lt (le_trans h3 h4) h5

theorem mid_int {n : ℤ} (h : n ≠ 0) (h1 : -2 ^ 63 ≤ n) (h2 : n < 2 ^ 63) : Mid (n : ℚ) := by
  have ha : (1:ℚ) ≤ |(n:ℚ)| := by
    have : 1 ≤ |n| := Int.one_le_abs h
    exact_mod_cast this
  have hb : |(n:ℚ)| ≤ 2 ^ 63 := by
    have : |n| ≤ 2 ^ 63 := abs_le.2 ⟨h1, h2.le⟩
    exact_mod_cast this
  refine mid_of (le_trans ?_ ha) (le_trans hb ?_)
  · rw [div_le_one (by positivity)]; exact one_le_pow₀ (by norm_num)
  · exact pow_le_pow_right₀ (by norm_num) (by norm_num)

/-- an int64 as float64: finite, relative error at most 2^-53. -/
theorem ofInt_err {n : ℤ} (h1 : -2 ^ 63 ≤ n) (h2 : n < 2 ^ 63) : ∃ q, ofInt n = fin q ∧ |q - n| ≤ |(n:ℚ)| * uu ∧ (n = 0 → q = 0) ∧ (0 < n → 0 < q) := by
  by_cases h : n = 0
  · subst h
    refine ⟨0, ?_, by simp, fun _ => rfl, fun h => absurd h (lt_irrefl _)⟩
    unfold ofInt rnd
    simp [rndQ_zero]
  · have hm := mid_int h h1 h2
    exact ⟨_, rnd_mid hm, rndQ_mid hm, fun h' => absurd h' h, fun hp => rndQ_pos hm (by exact_mod_cast hp)⟩

/-- small integers are exact. -/
theorem ofInt_exact {n : ℤ} (h : |n| < 2 ^ 53) : ofInt n = fin n := by
  by_cases h0 : n = 0
  · subst h0; unfold ofInt rnd; simp [rndQ_zero]
  · have := abs_lt.1 h
    unfold ofInt
    rw [rnd_mid (mid_int h0 (by linarith) (by linarith)), rndQ_int h]

/-! ## Sums of squares -/

/-- `v` is `Q` up to `k` roundings. -/
def Approx (k : ℕ) (Q : ℚ) (v : F64) : Prop := ∃ s, v = fin s ∧ Q * (1 - uu) ^ k ≤ s ∧ s ≤ Q * (1 + uu) ^ k

theorem one_sub_uu : 0 < 1 - uu := by linarith [uu_small]
theorem one_sub_uu' : 1 - uu ≤ 1 := by linarith [uu_pos]
theorem one_add_uu : 1 ≤ 1 + uu := by linarith [uu_pos]

theorem Approx.mono {k k' : ℕ} {Q : ℚ} {v : F64} (hQ : 0 ≤ Q) (h : Approx k Q v) (hk : k ≤ k') : Approx k' Q v := by
  obtain ⟨s, h1, h2, h3⟩ := h
  refine ⟨s, h1, le_trans ?_ h2, le_trans h3 ?_⟩
  · exact mul_le_mul_of_nonneg_left (pow_le_pow_of_le_one one_sub_uu.le one_sub_uu' hk) hQ
  · exact mul_le_mul_of_nonneg_left (pow_le_pow_right₀ one_add_uu hk) hQ

theorem approx_zero (k : ℕ) : Approx k 0 (fin 0) := ⟨0, rfl, by simp, by simp⟩

/-- rounding once more. -/
theorem rnd_approx {k : ℕ} {Q q : ℚ} (hm : Mid q) (hq : 0 < q) (h1 : Q * (1 - uu) ^ k ≤ q) (h2 : q ≤ Q * (1 + uu) ^ k) : Approx (k + 1) Q (rnd q) := by
  have he := rndQ_mid hm
  rw [abs_of_pos hq] at he
  obtain ⟨e1, e2⟩ := abs_le.1 he
  refine ⟨rndQ q, rnd_mid hm, ?_, ?_⟩
  · rw [pow_succ, ← mul_assoc]
    have := mul_le_mul_of_nonneg_right h1 one_sub_uu.le
    linarith [mul_sub q 1 uu]
  · rw [pow_succ, ← mul_assoc]
    have := mul_le_mul_of_nonneg_right h2 (le_trans zero_le_one one_add_uu)
    linarith [mul_add q 1 uu]

theorem one_sub_pow_half {k : ℕ} (hk : k ≤ 2 ^ 40) : (1:ℚ) / 2 ≤ (1 - uu) ^ k := by
  have h := one_add_mul_le_pow (a := -uu) (by linarith [uu_small]) k
  have : (k:ℚ) ≤ 2 ^ 40 := by exact_mod_cast hk
  have h2 : (k:ℚ) * uu ≤ 1 / 2 := by
    have := mul_le_mul_of_nonneg_right this uu_pos.le
    refine le_trans this ?_
    unfold uu; norm_num
  have : 1 + -uu = 1 - uu := by ring
  rw [this] at h
  linarith

/-- (1+u)^k - 1 ≤ 2ku. -/
theorem one_add_pow_le {k : ℕ} (hk : k ≤ 2 ^ 40) : (1 + uu) ^ k ≤ 1 + 2 * k * uu := by
  induction k with
  | zero => simp
  | succ k ih =>
    have ih := ih (by omega)
    rw [pow_succ]
    have hk' : (k:ℚ) * uu ≤ 1 / 2 := by
      have h1 : (k:ℚ) ≤ 2 ^ 40 := by exact_mod_cast (by omega : k ≤ 2 ^ 40)
      refine le_trans (mul_le_mul_of_nonneg_right h1 uu_pos.le) ?_
      unfold uu; norm_num
    have := mul_le_mul_of_nonneg_right ih (le_trans zero_le_one one_add_uu)
    push_cast
    nlinarith [uu_pos, mul_nonneg (Nat.cast_nonneg k : (0:ℚ) ≤ k) uu_pos.le]

theorem one_sub_pow_ge (k : ℕ) : 1 - k * uu ≤ (1 - uu) ^ k := by
  have h := one_add_mul_le_pow (a := -uu) (by linarith [uu_small]) k
  have e : 1 + -uu = 1 - uu := by ring
  rw [e] at h
  linarith

/-- the error of an approximation. -/
theorem Approx.err {k : ℕ} {Q : ℚ} {v : F64} (hQ : 0 ≤ Q) (hk : k ≤ 2 ^ 40) (h : Approx k Q v) : ∃ s, v = fin s ∧ |s - Q| ≤ Q * (2 * k * uu) := by
  obtain ⟨s, h1, h2, h3⟩ := h
  refine ⟨s, h1, abs_le.2 ⟨?_, ?_⟩⟩
  · have := mul_le_mul_of_nonneg_left (one_sub_pow_ge k) hQ
    have : 0 ≤ Q * (k * uu) := mul_nonneg hQ (mul_nonneg (Nat.cast_nonneg k) uu_pos.le)
    nlinarith
  · have := mul_le_mul_of_nonneg_left (one_add_pow_le hk) hQ
    nlinarith

/-- the square of an int64 as `ingest` computes it: three roundings. -/
theorem square_approx {n : ℤ} (h1 : -2 ^ 63 ≤ n) (h2 : n < 2 ^ 63) : Approx 3 ((n:ℚ) * n) (mul (ofInt n) (ofInt n)) := by
  by_cases h0 : n = 0
  · subst h0
    rw [show ofInt 0 = fin 0 by unfold ofInt rnd; simp [rndQ_zero]]
    exact ⟨0, by simp [mul, toRat, zero, isNeg], by simp, by simp⟩
  have hm := mid_int h0 h1 h2
  have hr := rnd_mid hm
  have he := rndQ_mid hm
  set r := rndQ (n:ℚ) with hrdef
  have hn : 0 < |(n:ℚ)| := abs_pos.2 (by exact_mod_cast h0)
  have hn1 : (1:ℚ) ≤ |(n:ℚ)| := by
    have : 1 ≤ |n| := Int.one_le_abs h0
    exact_mod_cast this
  have hn2 : |(n:ℚ)| ≤ 2 ^ 63 := by
    have : |n| ≤ 2 ^ 63 := abs_le.2 ⟨h1, h2.le⟩
    exact_mod_cast this
  have lo : |(n:ℚ)| * (1 - uu) ≤ |r| := by
    have := abs_sub_abs_le_abs_sub (n:ℚ) r
    rw [abs_sub_comm] at this
    linarith [mul_sub |(n:ℚ)| 1 uu]
  have hi : |r| ≤ |(n:ℚ)| * (1 + uu) := by
    have := abs_sub_abs_le_abs_sub r (n:ℚ)
    linarith [mul_add |(n:ℚ)| 1 uu]
  have hrpos : 0 < |r| := lt_of_lt_of_le (mul_pos hn one_sub_uu) lo
  have hrne : r ≠ 0 := abs_pos.1 hrpos
  have hsq : r * r = |r| * |r| := (abs_mul_abs_self r).symm
  have hnsq : (n:ℚ) * n = |(n:ℚ)| * |(n:ℚ)| := (abs_mul_abs_self _).symm
  have hval : mul (ofInt n) (ofInt n) = rnd (r * r) := by
    unfold ofInt
    rw [hr]
    simp [mul, toRat, hrne]
  rw [hval]
  have l2 : (n:ℚ) * n * (1 - uu) ^ 2 ≤ r * r := by
    rw [hsq, hnsq]
    have := mul_le_mul lo lo (mul_nonneg hn.le one_sub_uu.le) hrpos.le
    linarith [show |(n:ℚ)| * |(n:ℚ)| * (1 - uu) ^ 2 = |(n:ℚ)| * (1 - uu) * (|(n:ℚ)| * (1 - uu)) by ring]
  have u2 : r * r ≤ (n:ℚ) * n * (1 + uu) ^ 2 := by
    rw [hsq, hnsq]
    have := mul_le_mul hi hi hrpos.le (mul_nonneg hn.le (le_trans zero_le_one one_add_uu))
    linarith [show |(n:ℚ)| * |(n:ℚ)| * (1 + uu) ^ 2 = |(n:ℚ)| * (1 + uu) * (|(n:ℚ)| * (1 + uu)) by ring]
  have rpos : 0 < r * r := by rw [hsq]; exact mul_pos hrpos hrpos
  have hrlo : 1 / 2 ≤ |r| := le_trans (by nlinarith [uu_small, hn1]) lo
  have hrhi : |r| ≤ 2 ^ 64 := le_trans hi (by nlinarith [uu_small, hn2, uu_pos])
  refine rnd_approx (mid_of ?_ ?_) rpos l2 u2
  · rw [abs_of_pos rpos, hsq]
    refine le_trans (?_ : (1:ℚ) / 2 ^ 200 ≤ 1 / 2 * (1 / 2)) (mul_le_mul hrlo hrlo (by norm_num) hrpos.le)
    norm_num
  · rw [abs_of_pos rpos, hsq]
    refine le_trans (mul_le_mul hrhi hrhi hrpos.le (by positivity)) ?_
    rw [← pow_add]
    exact pow_le_pow_right₀ (by norm_num) (by norm_num)

/-- adding two approximations of non-negative sizes. -/
theorem add_approx {k : ℕ} {P Q : ℚ} {a b : F64} (hk : k ≤ 2 ^ 40) (ha : Approx k P a) (hb : Approx k Q b) (hP : P = 0 ∨ 1 ≤ P) (hQ : Q = 0 ∨ 1 ≤ Q) (hP' : P ≤ 2 ^ 240) (hQ' : Q ≤ 2 ^ 240) :
    Approx (k + 1) (P + Q) (add a b) := by
  obtain ⟨s, rfl, s1, s2⟩ := ha
  obtain ⟨t, rfl, t1, t2⟩ := hb
  have hval : add (fin s) (fin t) = rnd (s + t) := rfl
  rw [hval]
  have hP0 : 0 ≤ P := by rcases hP with h | h <;> linarith
  have hQ0 : 0 ≤ Q := by rcases hQ with h | h <;> linarith
  have l : (P + Q) * (1 - uu) ^ k ≤ s + t := by linarith [add_mul P Q ((1 - uu) ^ k)]
  have u : s + t ≤ (P + Q) * (1 + uu) ^ k := by linarith [add_mul P Q ((1 + uu) ^ k)]
  by_cases h0 : P + Q = 0
  · rw [h0] at l u ⊢
    have : s + t = 0 := by linarith
    rw [this, show rnd 0 = fin 0 by unfold rnd; simp [rndQ_zero]]
    exact approx_zero _
  have h1 : 1 ≤ P + Q := by
    rcases hP with h | h <;> rcases hQ with h' | h'
    · exact absurd (by rw [h, h']; ring) h0
    · linarith
    · linarith
    · linarith
  have hlo : 1 / 2 ≤ s + t := le_trans (by nlinarith [one_sub_pow_half hk]) l
  have hhi : s + t ≤ 2 ^ 242 := by
    refine le_trans u ?_
    have h2 : (1 + uu) ^ k ≤ 2 := by
      refine le_trans (one_add_pow_le hk) ?_
      have h3 : (k:ℚ) ≤ 2 ^ 40 := by exact_mod_cast hk
      have := mul_le_mul_of_nonneg_right h3 uu_pos.le
      have h4 : (2:ℚ) ^ 40 * uu ≤ 1 / 2 := by unfold uu; norm_num
      linarith
    have := mul_le_mul (add_le_add hP' hQ') h2 (pow_nonneg (by linarith [uu_pos]) k) (by positivity)
    refine le_trans this ?_
    rw [pow_add 2 240 2]
    generalize (2:ℚ) ^ 240 = X
    linarith
  refine rnd_approx (mid_of ?_ ?_) (by linarith) l u
  · rw [abs_of_pos (by linarith)]
    exact le_trans (by norm_num) hlo
  · rw [abs_of_pos (by linarith)]
    refine le_trans hhi ?_
    exact pow_le_pow_right₀ (by norm_num) (by norm_num)

end F64
