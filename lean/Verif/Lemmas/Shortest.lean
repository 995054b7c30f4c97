import Verif.Lemmas.Format
import Verif.Lemmas.F64
/-!
# The shortest decimal of a float64 reads back as the same float64
-/
open Spec

/-- a float64 that exists: finite ones are representable. -/
def F64.Valid : F64 → Prop
  | .fin q => F64.rnd q = .fin q
  | _ => True

theorem rndQ_of_valid {q : ℚ} (h : F64.rnd q = .fin q) : F64.rndQ q = q := by
  unfold F64.rnd at h
  simp only at h
  split at h
  · cases h
  · split at h
    · cases h
    · simpa using h

theorem neg_valid {q : ℚ} (h : F64.rnd q = .fin q) (h0 : q ≠ 0) : F64.rnd |q| = .fin |q| := by
  rcases le_or_gt 0 q with hq | hq
  · rw [abs_of_nonneg hq]; exact h
  · rw [abs_of_neg hq]
    have hq' := rndQ_of_valid h
    have hu : F64.ulpExp (-q) = F64.ulpExp q := by unfold F64.ulpExp; rw [abs_neg]
    have hn : F64.rndQ (-q) = -q := by
      have hp := F64.two_zpow_pos (F64.ulpExp q)
      apply F64.rndQ_exact (-(F64.roundEven (q / (2:ℚ) ^ F64.ulpExp q))) (F64.ulpExp q)
      · push_cast
        rw [neg_mul]
        congr 1
        exact hq'.symm
      · exact hu.le
    have hlt : |F64.rndQ q| < (2:ℚ) ^ (1024:ℤ) := by
      by_contra hc
      unfold F64.rnd at h
      simp only [if_pos (not_lt.1 hc)] at h
      cases h
    rw [F64.rnd_eq_fin (by rw [hn, abs_neg, ← hq']; exact hlt) (by rw [hn]; simpa using h0), hn]

theorem shortestAux_roundtrip (q : ℚ) (hq : F64.rnd q = .fin q) (hpos : 0 < q) (fuel : Nat) (d : ℤ) (hf : 1074 ≤ fuel + d) :
    F64.rnd ((shortestAux q fuel d).1 / (10:ℚ) ^ (shortestAux q fuel d).2) = .fin q := by
  induction fuel generalizing d with
  | zero =>
    have hd : 1074 ≤ d := by simpa using hf
    have hp10 : (0:ℚ) < (10:ℚ) ^ d := by positivity
    -- q * 10^d is an integer
    obtain ⟨z, hz⟩ : ∃ z : ℤ, q * (10:ℚ) ^ d = z := by
      have he := rndQ_of_valid hq
      have hu : -1074 ≤ F64.ulpExp q := by unfold F64.ulpExp; omega
      refine ⟨F64.roundEven (q / (2:ℚ) ^ F64.ulpExp q) * 2 ^ (F64.ulpExp q + d).toNat * 5 ^ d.toNat, ?_⟩
      have e1 : (10:ℚ) ^ d = (2:ℚ) ^ d * (5:ℚ) ^ d := by rw [← mul_zpow]; norm_num
      have e2 : (2:ℚ) ^ (F64.ulpExp q + d).toNat = (2:ℚ) ^ F64.ulpExp q * (2:ℚ) ^ d := by
        rw [← zpow_natCast, ← zpow_add₀ (by norm_num : (2:ℚ) ≠ 0)]
        congr 1; omega
      have e3 : (5:ℚ) ^ d.toNat = (5:ℚ) ^ d := by rw [← zpow_natCast]; congr 1; omega
      push_cast
      rw [e2, e3, e1]
      conv_lhs => rw [← he]
      unfold F64.rndQ
      ring
    have hz0 : 0 ≤ z := by
      have : (0:ℚ) ≤ z := by rw [← hz]; positivity
      exact_mod_cast this
    have hfl : ((⌊q * (10:ℚ) ^ d⌋₊ : ℕ) : ℚ) = q * (10:ℚ) ^ d := by
      rw [hz]
      have : (z : ℚ) = ((z.toNat : ℕ) : ℚ) := by
        have := Int.toNat_of_nonneg hz0
        exact_mod_cast this.symm
      rw [this, Nat.floor_natCast]
    simp only [shortestAux]
    rw [hfl, mul_div_cancel_right₀ _ hp10.ne', hq]
  | succ fuel ih =>
    unfold shortestAux
    simp only
    split
    · next h =>
      simp only [Bool.and_eq_true, decide_eq_true_eq] at h
      have hr : (roundNat (q * (10:ℚ) ^ d) = ⌊q * (10:ℚ) ^ d⌋₊) ∨ (roundNat (q * (10:ℚ) ^ d) = ⌈q * (10:ℚ) ^ d⌉₊) := by
        set x := q * (10:ℚ) ^ d with hx
        have hx0 : 0 ≤ x := by positivity
        have hfl : ⌊x⌋ = (⌊x⌋₊ : ℤ) := (Int.natCast_floor_eq_floor hx0).symm
        by_cases hint : x = ⌊x⌋
        · left
          unfold roundNat
          conv_lhs => rw [hint, F64.roundEven_int]
          rw [hfl]; simp
        · have hce : ⌈x⌉ = ⌊x⌋ + 1 := by
            rw [Int.ceil_eq_iff]
            push_cast
            have h1 := Int.floor_le x
            have h2 := Int.lt_floor_add_one x
            refine ⟨?_, h2.le⟩
            rcases lt_or_eq_of_le h1 with h3 | h3
            · linarith
            · exact absurd h3.symm hint
          have hce' : (⌈x⌉₊ : ℤ) = ⌈x⌉ := Int.natCast_ceil_eq_ceil (by linarith)
          unfold roundNat F64.roundEven
          simp only
          split
          · left; rw [hfl]; simp
          · split
            · right; omega
            · split
              · left; rw [hfl]; simp
              · right; omega
      rcases hr with hr | hr
      · rw [hr]; exact h.1
      · rw [hr]; exact h.2
    · split
      · next h => simpa using h
      · split
        · next h => simpa using h
        · exact ih (d + 1) (by push_cast at hf ⊢; omega)

theorem shortest_roundtrip (q : ℚ) (hq : F64.rnd q = .fin q) (hpos : 0 < q) :
    F64.rnd ((shortest q).1 / (10:ℚ) ^ (shortest q).2) = .fin q := by
  unfold shortest
  simp only
  apply shortestAux_roundtrip q hq hpos
  omega

theorem decStr_parse (m : Nat) (d : ℤ) (neg : Bool) :
    parseDec (signStr neg ++ decStr m d) = some (if neg then -((m : ℚ) / (10:ℚ) ^ d) else (m : ℚ) / (10:ℚ) ^ d) := by
  unfold decStr
  split
  · next h =>
    have e : natStr (m * 10 ^ (-d).toNat) = fixedStr (m * 10 ^ (-d).toNat) 0 := by simp [fixedStr]
    rw [e, parseDec_sign]
    have : (m : ℚ) / (10:ℚ) ^ d = ((m * 10 ^ (-d).toNat : ℕ) : ℚ) / 10 ^ 0 := by
      push_cast
      have e2 : (10:ℚ) ^ (-d).toNat = (10:ℚ) ^ (-d) := by rw [← zpow_natCast]; congr 1; omega
      rw [e2, zpow_neg]; field_simp
    rw [this]
  · next h =>
    rw [parseDec_sign]
    have e2 : (10:ℚ) ^ d.toNat = (10:ℚ) ^ d := by rw [← zpow_natCast]; congr 1; omega
    rw [e2]

/-- the shortest text of a finite float64 reads back as the same number. -/
theorem fmtShortest_roundtrip (v : F64) (hv : v.isFinite = true) (hval : v.Valid) :
    ∃ x : ℚ, parseDec (fmtShortest v) = some x ∧ (F64.rnd |x|).toRat = |v.toRat| ∧ (x < 0 ↔ v.toRat < 0) := by
  cases v with
  | nan => simp [F64.isFinite] at hv
  | inf s => simp [F64.isFinite] at hv
  | negZero => exact ⟨0, by decide +kernel, by decide +kernel, by simp [F64.toRat]⟩
  | fin q =>
    by_cases h0 : q = 0
    · subst h0; exact ⟨0, by decide +kernel, by decide +kernel, by simp [F64.toRat]⟩
    · have hpos := abs_pos.2 h0
      have hr := shortest_roundtrip |q| (neg_valid hval h0) hpos
      have hx : (0:ℚ) < (shortest |q|).1 / (10:ℚ) ^ (shortest |q|).2 := by
        rcases eq_or_lt_of_le (show (0:ℚ) ≤ (shortest |q|).1 / (10:ℚ) ^ (shortest |q|).2 by positivity) with h | h
        · rw [← h] at hr
          have : F64.rnd 0 = .fin 0 := by decide +kernel
          rw [this] at hr
          simp only [F64.fin.injEq] at hr
          rw [← hr] at hpos; exact absurd hpos (lt_irrefl _)
        · exact h
      refine ⟨_, by unfold fmtShortest; simp only [h0, if_false]; exact decStr_parse _ _ _, ?_, ?_⟩
      · have : abs (if decide (q < 0) = true then -(((shortest (abs q)).1 : ℚ) / (10:ℚ) ^ (shortest (abs q)).2)
            else ((shortest (abs q)).1 : ℚ) / (10:ℚ) ^ (shortest (abs q)).2) = ((shortest (abs q)).1 : ℚ) / (10:ℚ) ^ (shortest (abs q)).2 := by
          split
          · rw [abs_neg, abs_of_pos hx]
          · rw [abs_of_pos hx]
        rw [this, hr]; rfl
      · simp only [F64.toRat]
        by_cases hq : q < 0
        · simp only [hq, decide_true, if_true, iff_true]; linarith
        · simp only [hq, decide_false, Bool.false_eq_true, if_false, iff_false]; linarith

theorem F64.roundEven_neg (q : ℚ) : F64.roundEven (-q) = -F64.roundEven q := by
  by_cases hi : q = ⌊q⌋
  · have h2 : F64.roundEven q = ⌊q⌋ := by conv_lhs => rw [hi, F64.roundEven_int]
    have h3 : -q = ((-⌊q⌋ : ℤ) : ℚ) := by push_cast; rw [← hi]
    rw [h2, h3, F64.roundEven_int]
  · have hfl : ⌊-q⌋ = -⌊q⌋ - 1 := by
      rw [Int.floor_eq_iff]
      have h1 := Int.floor_le q
      have h2 := Int.lt_floor_add_one q
      push_cast
      refine ⟨by linarith, ?_⟩
      rcases lt_or_eq_of_le h1 with h3 | h3
      · linarith
      · exact absurd h3.symm hi
    unfold F64.roundEven
    simp only [hfl]
    push_cast
    by_cases c1 : q - ⌊q⌋ < 1/2
    · rw [if_pos c1, if_neg (by linarith), if_pos (by linarith)]; ring
    · by_cases c2 : 1/2 < q - ⌊q⌋
      · rw [if_neg c1, if_pos c2, if_pos (by linarith)]; ring
      · rw [if_neg c1, if_neg c2, if_neg (by linarith), if_neg (by linarith)]
        by_cases c3 : ⌊q⌋ % 2 = 0
        · rw [if_pos c3, if_neg (by omega)]; ring
        · rw [if_neg c3, if_pos (by omega)]; ring

theorem F64.rndQ_neg (q : ℚ) : F64.rndQ (-q) = -F64.rndQ q := by
  have hu : F64.ulpExp (-q) = F64.ulpExp q := by unfold F64.ulpExp; rw [abs_neg]
  unfold F64.rndQ
  rw [hu, neg_div, F64.roundEven_neg]
  push_cast; ring

/-- rounding commutes with changing the sign of a positive number. -/
theorem F64.rnd_neg_of_fin {x q : ℚ} (h : F64.rnd x = .fin q) (h0 : q ≠ 0) : F64.rnd (-x) = .fin (-q) := by
  have hr : F64.rndQ x = q ∧ |F64.rndQ x| < (2:ℚ) ^ (1024:ℤ) := by
    unfold F64.rnd at h
    simp only at h
    split at h
    · cases h
    · next hlt =>
      split at h
      · cases h
      · simp only [F64.fin.injEq] at h; exact ⟨h, not_le.1 hlt⟩
  rw [F64.rnd_eq_fin (by rw [F64.rndQ_neg, abs_neg]; exact hr.2) (by rw [F64.rndQ_neg, hr.1]; simpa using h0), F64.rndQ_neg, hr.1]
