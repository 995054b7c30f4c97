import Verif.Lemmas.F64Err
import Mathlib.Analysis.Real.Sqrt
/-! The square root of the float64 model is accurate. -/
namespace F64

theorem sqrt_err {q : ℚ} (h1 : 1 / 2 ^ 100 ≤ q) (h2 : q ≤ 2 ^ 200) :
    ∃ r, sqrt (fin q) = fin r ∧ 0 < r ∧ |(r : ℝ) - √(q : ℝ)| ≤ √(q : ℝ) * (2 * uu) := by
  have hq : 0 < q := lt_of_lt_of_le (by positivity) h1
  have hval : sqrt (fin q) = rnd (((Nat.sqrt ⌊q * (4:ℚ) ^ (60 - Int.log 2 q / 2)⌋₊ : ℚ) +
      (if (Nat.sqrt ⌊q * (4:ℚ) ^ (60 - Int.log 2 q / 2)⌋₊ : ℚ) * Nat.sqrt ⌊q * (4:ℚ) ^ (60 - Int.log 2 q / 2)⌋₊ = q * (4:ℚ) ^ (60 - Int.log 2 q / 2) then 0 else 1/2)) /
      (2:ℚ) ^ (60 - Int.log 2 q / 2)) := by
    unfold sqrt
    simp only [not_lt.2 hq.le, hq.ne', if_false]
  set k : ℤ := 60 - Int.log 2 q / 2 with hk
  set x : ℚ := q * (4:ℚ) ^ k with hx
  set s : ℕ := Nat.sqrt ⌊x⌋₊ with hs
  set h : ℚ := if (s:ℚ) * s = x then 0 else 1 / 2 with hh
  have hxpos : 0 < x := mul_pos hq (by positivity)
  have hx120 : (2:ℚ) ^ (120:ℕ) ≤ x := by
    have hl : (2:ℚ) ^ Int.log 2 q ≤ q := by
      have := log_le hq.ne'
      rwa [abs_of_pos hq] at this
    have h4 : (4:ℚ) ^ k = (2:ℚ) ^ (2 * k) := by rw [zpow_mul]; norm_num
    rw [hx, h4]
    calc (2:ℚ) ^ (120:ℕ) = (2:ℚ) ^ (120:ℤ) := by norm_cast
      _ ≤ (2:ℚ) ^ (Int.log 2 q + 2 * k) := zpow_le_zpow_right₀ (by norm_num) (by omega)
      _ = (2:ℚ) ^ Int.log 2 q * (2:ℚ) ^ (2 * k) := zpow_add₀ (by norm_num) _ _
      _ ≤ _ := mul_le_mul_of_nonneg_right hl (by positivity)
  -- the integer square root
  have hs1 : (s:ℚ) * s ≤ x := by
    have : s * s ≤ ⌊x⌋₊ := Nat.sqrt_le _
    have h' : ((s * s : ℕ) : ℚ) ≤ ⌊x⌋₊ := by exact_mod_cast this
    push_cast at h'
    exact le_trans h' (Nat.floor_le hxpos.le)
  have hs2 : x < ((s:ℚ) + 1) * (s + 1) := by
    have : ⌊x⌋₊ < (s + 1) * (s + 1) := Nat.lt_succ_sqrt _
    have h' : (⌊x⌋₊ : ℚ) + 1 ≤ ((s:ℚ) + 1) * (s + 1) := by exact_mod_cast this
    exact lt_of_lt_of_le (Nat.lt_floor_add_one x) h'
  -- in the reals
  have hX : (0:ℝ) < (x:ℝ) := by exact_mod_cast hxpos
  have hsq : √(x:ℝ) = √(q:ℝ) * (2:ℝ) ^ k := by
    have e : (x:ℝ) = (q:ℝ) * ((2:ℝ) ^ k) ^ 2 := by
      rw [hx]
      push_cast
      congr 1
      rw [← zpow_natCast, ← zpow_mul, mul_comm k, zpow_mul]
      norm_num
    rw [e, Real.sqrt_mul (by exact_mod_cast hq.le), Real.sqrt_sq (by positivity)]
  have hle : (s:ℝ) ≤ √(x:ℝ) := by
    apply Real.le_sqrt_of_sq_le
    have : ((s * s : ℚ) : ℝ) ≤ (x:ℝ) := by exact_mod_cast hs1
    push_cast at this
    nlinarith
  have hlt : √(x:ℝ) < (s:ℝ) + 1 := by
    rw [Real.sqrt_lt' (by positivity)]
    have : (x:ℝ) < (((s:ℚ) + 1) * (s + 1) : ℚ) := by exact_mod_cast hs2
    push_cast at this
    nlinarith
  have hclose : |(s:ℝ) + (h:ℝ) - √(x:ℝ)| ≤ 1 / 2 := by
    by_cases he : (s:ℚ) * s = x
    · have e0 : h = 0 := by rw [hh, if_pos he]
      have : √(x:ℝ) = s := by
        rw [← he]; push_cast
        exact Real.sqrt_mul_self (by positivity)
      rw [e0, this]; simp
    · have e0 : h = 1 / 2 := by rw [hh, if_neg he]
      rw [e0, abs_le]
      push_cast
      constructor <;> linarith
  have hbig : (2:ℝ) ^ 60 ≤ √(x:ℝ) := by
    apply Real.le_sqrt_of_sq_le
    have : ((2 ^ 120 : ℚ) : ℝ) ≤ (x:ℝ) := by exact_mod_cast hx120
    push_cast at this
    refine le_trans (le_of_eq ?_) this
    rw [← pow_mul]
  -- before the last rounding
  set y : ℚ := ((s:ℚ) + h) / (2:ℚ) ^ k with hy
  have hS : (0:ℝ) < √(q:ℝ) := Real.sqrt_pos.2 (by exact_mod_cast hq)
  have hP : (0:ℝ) < (2:ℝ) ^ k := by positivity
  have hyclose : |(y:ℝ) - √(q:ℝ)| ≤ √(q:ℝ) * (1 / 2 ^ 61) := by
    have e : (y:ℝ) - √(q:ℝ) = ((s:ℝ) + (h:ℝ) - √(x:ℝ)) / (2:ℝ) ^ k := by
      rw [hsq, hy]
      push_cast
      field_simp
    rw [e, abs_div, abs_of_pos hP, div_le_iff₀ hP]
    rw [hsq] at hbig
    refine le_trans hclose ?_
    have : (2:ℝ) ^ 61 = 2 * 2 ^ 60 := by norm_num
    rw [this]
    have h60 : (0:ℝ) < 2 ^ 60 := by positivity
    have : √(q:ℝ) * (1 / (2 * 2 ^ 60)) * (2:ℝ) ^ k = (√(q:ℝ) * (2:ℝ) ^ k) / (2 * 2 ^ 60) := by ring
    rw [this, div_le_div_iff₀ (by norm_num) (by positivity)]
    linarith
  have h61 : (1:ℝ) / 2 ^ 61 ≤ 1 / 1000000 := by norm_num
  obtain ⟨y1, y2⟩ := abs_le.1 hyclose
  have hylo : √(q:ℝ) / 2 ≤ (y:ℝ) := by nlinarith
  have hyhi : (y:ℝ) ≤ 2 * √(q:ℝ) := by nlinarith
  have hq50 : (1:ℝ) / 2 ^ 50 ≤ √(q:ℝ) := by
    apply Real.le_sqrt_of_sq_le
    have : ((1 / 2 ^ 100 : ℚ) : ℝ) ≤ (q:ℝ) := by exact_mod_cast h1
    push_cast at this
    refine le_trans (le_of_eq ?_) this
    rw [div_pow, ← pow_mul]; norm_num
  have hq100 : √(q:ℝ) ≤ 2 ^ 100 := by
    apply Real.sqrt_le_iff.2
    refine ⟨by positivity, ?_⟩
    have : (q:ℝ) ≤ ((2 ^ 200 : ℚ) : ℝ) := by exact_mod_cast h2
    push_cast at this
    rw [← pow_mul]; exact this
  have hypos : 0 < y := by
    have : (0:ℝ) < (y:ℝ) := by linarith
    exact_mod_cast this
  have hmid : Mid y := by
    have a1 : (1:ℚ) / 2 ^ 51 ≤ y := by
      have : ((1 / 2 ^ 51 : ℚ) : ℝ) ≤ (y:ℝ) := by
        push_cast
        refine le_trans ?_ hylo
        have : (1:ℝ) / 2 ^ 51 = 1 / 2 ^ 50 / 2 := by norm_num
        rw [this]; linarith
      exact_mod_cast this
    have a2 : y ≤ 2 ^ 101 := by
      have : (y:ℝ) ≤ ((2 ^ 101 : ℚ) : ℝ) := by
        push_cast
        refine le_trans hyhi ?_
        have : (2:ℝ) ^ 101 = 2 * 2 ^ 100 := by norm_num
        rw [this]; linarith
      exact_mod_cast this
    refine mid_of ?_ ?_
    · rw [abs_of_pos hypos]; exact le_trans (by norm_num) a1
    · rw [abs_of_pos hypos]; exact le_trans a2 (by norm_num)
  refine ⟨rndQ y, by rw [hval, rnd_mid hmid], rndQ_pos hmid hypos, ?_⟩
  have hr := rndQ_mid hmid
  rw [abs_of_pos hypos] at hr
  have hr' : |((rndQ y : ℚ) : ℝ) - (y:ℝ)| ≤ (y:ℝ) * (uu:ℝ) := by exact_mod_cast hr
  have huu : ((uu:ℚ) : ℝ) = 1 / 2 ^ 53 := by unfold uu; push_cast; norm_num
  rw [huu] at hr' ⊢
  calc |((rndQ y : ℚ) : ℝ) - √(q:ℝ)| ≤ |((rndQ y : ℚ) : ℝ) - (y:ℝ)| + |(y:ℝ) - √(q:ℝ)| := abs_sub_le _ _ _
    _ ≤ (y:ℝ) * (1 / 2 ^ 53) + √(q:ℝ) * (1 / 2 ^ 61) := add_le_add hr' hyclose
    _ ≤ √(q:ℝ) * (1 + 1 / 2 ^ 61) * (1 / 2 ^ 53) + √(q:ℝ) * (1 / 2 ^ 61) := by
        have : (y:ℝ) ≤ √(q:ℝ) * (1 + 1 / 2 ^ 61) := by linarith [mul_add √(q:ℝ) 1 (1 / 2 ^ 61)]
        have := mul_le_mul_of_nonneg_right this (by positivity : (0:ℝ) ≤ 1 / 2 ^ 53)
        linarith
    _ = √(q:ℝ) * ((1 + 1 / 2 ^ 61) * (1 / 2 ^ 53) + 1 / 2 ^ 61) := by ring
    _ ≤ √(q:ℝ) * (2 * (1 / 2 ^ 53)) := mul_le_mul_of_nonneg_left (by norm_num) hS.le

end F64
