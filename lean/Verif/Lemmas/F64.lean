import Verif.Lemmas.Format
import Mathlib.Algebra.Order.Field.Power
/-! Rounding errors of float64 arithmetic. -/
namespace F64

theorem two_zpow_pos (e : ℤ) : (0:ℚ) < (2:ℚ) ^ e := by positivity

theorem rndQ_close (q : ℚ) : |rndQ q - q| ≤ (2:ℚ) ^ ulpExp q / 2 := by
  have hp := two_zpow_pos (ulpExp q)
  have h := roundEven_close (q / (2:ℚ) ^ ulpExp q)
  have e : rndQ q - q = ((roundEven (q / (2:ℚ) ^ ulpExp q) : ℚ) - q / (2:ℚ) ^ ulpExp q) * (2:ℚ) ^ ulpExp q := by
    unfold rndQ
    rw [sub_mul, div_mul_cancel₀ _ hp.ne']
  rw [e, abs_mul, abs_of_pos hp]
  calc _ ≤ 1 / 2 * (2:ℚ) ^ ulpExp q := mul_le_mul_of_nonneg_right h hp.le
    _ = _ := by ring

theorem log_le {q : ℚ} (hq : q ≠ 0) : (2:ℚ) ^ Int.log 2 |q| ≤ |q| := by
  have := Int.zpow_log_le_self (b := 2) (by norm_num) (abs_pos.2 hq)
  exact_mod_cast this

theorem lt_log {q : ℚ} : |q| < (2:ℚ) ^ (Int.log 2 |q| + 1) := by
  have := Int.lt_zpow_succ_log_self (b := 2) (by norm_num) |q|
  exact_mod_cast this

/-- relative error of rounding a number in the normal range. -/
theorem rndQ_rel {q : ℚ} (hq : (2:ℚ) ^ (-1022 : ℤ) ≤ |q|) : |rndQ q - q| ≤ |q| * (2:ℚ) ^ (-53 : ℤ) := by
  have hq0 : q ≠ 0 := by
    rintro rfl
    have := two_zpow_pos (-1022)
    rw [abs_zero] at hq; linarith
  have hlog : -1022 ≤ Int.log 2 |q| := by
    have := (Int.zpow_le_iff_le_log (b := 2) (by norm_num) (abs_pos.2 hq0) (x := -1022)).1 (by exact_mod_cast hq)
    exact this
  have hu : ulpExp q = Int.log 2 |q| - 52 := by unfold ulpExp; omega
  refine (rndQ_close q).trans ?_
  rw [hu, zpow_sub₀ (by norm_num : (2:ℚ) ≠ 0)]
  have h := log_le hq0
  have e : (2:ℚ) ^ (-53 : ℤ) = 1 / 2 ^ (53:ℕ) := by
    rw [zpow_neg]; norm_num
  rw [e]
  have : (2:ℚ) ^ Int.log 2 |q| / (2:ℚ) ^ (52:ℤ) / 2 = (2:ℚ) ^ Int.log 2 |q| * (1 / 2 ^ (53:ℕ)) := by
    norm_num; ring
  rw [this]
  exact mul_le_mul_of_nonneg_right h (by positivity)

theorem roundEven_int (n : ℤ) : roundEven (n : ℚ) = n := by
  unfold roundEven
  simp

/-- numbers with at most 53 significant bits are not changed. -/
theorem rndQ_exact {q : ℚ} (k e : ℤ) (hq : q = k * (2:ℚ) ^ e) (he : ulpExp q ≤ e) : rndQ q = q := by
  have hp := two_zpow_pos (ulpExp q)
  have hdiv : q / (2:ℚ) ^ ulpExp q = ((k * 2 ^ (e - ulpExp q).toNat : ℤ) : ℚ) := by
    have h2 : (2:ℚ) ^ e = (2:ℚ) ^ (e - ulpExp q).toNat * (2:ℚ) ^ ulpExp q := by
      rw [← zpow_natCast, ← zpow_add₀ (by norm_num : (2:ℚ) ≠ 0)]
      congr 1
      omega
    rw [div_eq_iff hp.ne']
    push_cast
    rw [mul_assoc, ← h2, ← hq]
  unfold rndQ
  rw [hdiv, roundEven_int, ← hdiv, div_mul_cancel₀ _ hp.ne']

theorem rndQ_int {n : ℤ} (h : |n| < 2 ^ 53) : rndQ (n : ℚ) = n := by
  by_cases h0 : n = 0
  · subst h0
    unfold rndQ
    simp [roundEven]
  · apply rndQ_exact n 0 (by simp)
    have : Int.log 2 |(n : ℚ)| < 53 := by
      have hlt : |(n : ℚ)| < ((2 : ℕ) : ℚ) ^ (53 : ℤ) := by
        have : ((|n| : ℤ) : ℚ) < ((2 ^ 53 : ℤ) : ℚ) := by exact_mod_cast h
        rw [Int.cast_abs] at this
        rw [zpow_ofNat]
        exact_mod_cast this
      exact (Int.lt_zpow_iff_log_lt (b := 2) (by norm_num) (abs_pos.2 (by exact_mod_cast h0))).1 hlt
    unfold ulpExp
    omega

theorem rnd_fin {q : ℚ} (h : |rndQ q| < (2:ℚ) ^ (1024:ℤ)) : (rnd q).isFinite = true ∧ (rnd q).toRat = rndQ q := by
  unfold rnd
  simp only
  rw [if_neg (not_le.2 h)]
  split
  · next h' => exact ⟨rfl, h'.1.symm⟩
  · exact ⟨rfl, rfl⟩

theorem rnd_eq_fin {q : ℚ} (h : |rndQ q| < (2:ℚ) ^ (1024:ℤ)) (h0 : rndQ q ≠ 0) : rnd q = fin (rndQ q) := by
  unfold rnd
  simp only
  rw [if_neg (not_le.2 h), if_neg (fun h' => h0 h'.1)]

end F64
