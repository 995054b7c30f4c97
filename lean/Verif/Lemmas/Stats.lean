import Verif.Spec.Stats
import Verif.Lemmas.F64Sqrt
import Verif.Lemmas.Aggregation
import Verif.Model.Api
/-! Averages and standard deviations of /jobs. -/
open Spec Api F64

theorem squares_snoc (xs : List Int) (x : Int) : squares (xs ++ [x]) = squares xs + x * x := by simp [squares]
theorem squares_append (xs ys : List Int) : squares (xs ++ ys) = squares xs + squares ys := by simp [squares]

theorem squares_nonneg (xs : List Int) : 0 ≤ squares xs := by
  unfold squares
  apply List.sum_nonneg
  intro x hx
  obtain ⟨y, _, rfl⟩ := List.mem_map.1 hx
  exact mul_self_nonneg y

theorem squares_le {xs : List Int} (h : ∀ x ∈ xs, -2 ^ 63 ≤ x ∧ x < 2 ^ 63) : squares xs ≤ xs.length * 2 ^ 126 := by
  induction xs using snocInduction with
  | nil => simp [squares]
  | snoc l a ih =>
    have ih := ih (fun x hx => h x (by simp [hx]))
    rw [squares_snoc]
    obtain ⟨h1, h2⟩ := h a (by simp)
    simp only [List.length_append, List.length_singleton]
    push_cast
    have : a * a ≤ 2 ^ 126 := by nlinarith
    linarith [add_mul (l.length : ℤ) 1 (2 ^ 126)]

theorem squares_le' {xs : List Int} (h : Sizes xs) : (squares xs : ℚ) ≤ 2 ^ 157 := by
  have h1 := squares_le h.each
  have h2 : (xs.length : ℤ) ≤ 2 ^ 31 := by have := h.length; omega
  have : squares xs ≤ 2 ^ 31 * 2 ^ 126 := le_trans h1 (by nlinarith)
  have : ((squares xs : ℤ) : ℚ) ≤ ((2 ^ 31 * 2 ^ 126 : ℤ) : ℚ) := by exact_mod_cast this
  refine le_trans this ?_
  norm_num

theorem zero_or_one {n : Int} (h : 0 ≤ n) : (n : ℚ) = 0 ∨ 1 ≤ (n : ℚ) := by
  rcases h.eq_or_lt with h | h
  · left; exact_mod_cast h.symm
  · right; exact_mod_cast h

theorem sumSquares_approx (xs : List Int) (h : ∀ x ∈ xs, -2 ^ 63 ≤ x ∧ x < 2 ^ 63) (hl : xs.length < 2 ^ 31) : Approx (xs.length + 3) (squares xs) (sumSquares xs) := by
  induction xs using snocInduction with
  | nil => exact ⟨0, rfl, by simp [squares], by simp [squares]⟩
  | snoc l a ih =>
    have hl' : l.length < 2 ^ 31 := by simp at hl; omega
    have ih := ih (fun x hx => h x (by simp [hx])) hl'
    obtain ⟨h1, h2⟩ := h a (by simp)
    have e : sumSquares (l ++ [a]) = F64.add (sumSquares l) (F64.mul (F64.ofInt a) (F64.ofInt a)) := by simp [sumSquares]
    rw [e, squares_snoc]
    have hsq := (square_approx h1 h2).mono (k' := l.length + 3) (mul_self_nonneg _) (by omega)
    have b1 : (squares l : ℚ) ≤ 2 ^ 240 := by
      have h1 := squares_le (fun x hx => h x (by simp [hx]) : ∀ x ∈ l, _)
      have h2 : (l.length : ℤ) ≤ 2 ^ 31 := by omega
      have : squares l ≤ 2 ^ 31 * 2 ^ 126 := le_trans h1 (by nlinarith)
      have : ((squares l : ℤ) : ℚ) ≤ ((2 ^ 31 * 2 ^ 126 : ℤ) : ℚ) := by exact_mod_cast this
      refine le_trans this ?_
      norm_num
    have b2 : (a : ℚ) * a ≤ 2 ^ 240 := by
      have : a * a ≤ 2 ^ 126 := by nlinarith
      have : ((a * a : ℤ) : ℚ) ≤ ((2 ^ 126 : ℤ) : ℚ) := by exact_mod_cast this
      push_cast at this
      exact le_trans this (by norm_num)
    have := add_approx (k := l.length + 3) (by omega) ih hsq (zero_or_one (squares_nonneg l)) (by exact_mod_cast zero_or_one (mul_self_nonneg a)) b1 b2
    simp only [List.length_append, List.length_singleton]
    push_cast
    rw [show l.length + 1 + 3 = l.length + 3 + 1 by omega]
    exact this

theorem measures_timerOf {xs : List Int} (h : Sizes xs) : Measures (xs.length + 3) xs (timerOf xs) := by
  have := h.length
  refine ⟨?_, ?_, ?_⟩
  · rw [timerOf_count]; exact i64_of_range (by omega) (by omega)
  · rw [timerOf_sum]; exact i64_of_range h.sum.1 h.sum.2
  · rw [timerOf_sumSquares]; exact sumSquares_approx xs h.each h.length

theorem measures_merge {k : Nat} {xs ys : List Int} {s t : TimerAgg} (hk : k ≤ 2 ^ 40) (h : Sizes (xs ++ ys)) (hs : Measures k xs s) (ht : Measures k ys t) :
    Measures (k + 1) (xs ++ ys) (s.merge t) := by
  have hl := h.length
  have hsum := h.sum
  refine ⟨?_, ?_, ?_⟩
  · simp only [TimerAgg.merge, hs.count, ht.count, List.length_append] at hl ⊢
    push_cast
    exact i64_of_range (by omega) (by omega)
  · simp only [TimerAgg.merge, hs.sum, ht.sum, List.sum_append] at hsum ⊢
    exact i64_of_range hsum.1 hsum.2
  · rw [squares_append]
    push_cast
    have hb := squares_le' h
    rw [squares_append] at hb
    push_cast at hb
    have p1 : (0:ℚ) ≤ squares xs := by exact_mod_cast squares_nonneg xs
    have p2 : (0:ℚ) ≤ squares ys := by exact_mod_cast squares_nonneg ys
    exact add_approx hk hs.squares ht.squares (zero_or_one (squares_nonneg xs)) (zero_or_one (squares_nonneg ys)) (by linarith) (by linarith)

theorem Measures.mono {k k' : Nat} {xs : List Int} {t : TimerAgg} (h : Measures k xs t) (hk : k ≤ k') : Measures k' xs t :=
  ⟨h.count, h.sum, h.squares.mono (by exact_mod_cast squares_nonneg xs) hk⟩

/-! ## The average -/

theorem div_fin {a b : ℚ} (hb : 0 < b) (h : a = 0 ∨ Mid (a / b)) : F64.div (.fin a) (.fin b) = if a = 0 then .fin 0 else .fin (rndQ (a / b)) := by
  unfold F64.div
  simp only [F64.toRat, hb.ne', if_false]
  split
  · next h0 =>
    subst h0
    simp [F64.zero, F64.isNeg, hb.not_gt]
  · next h0 =>
    rcases h with h | h
    · exact absurd h h0
    · exact (if_neg h0).trans (rnd_mid h)

theorem mid_quot {a b : ℚ} (ha : 1 / 2 ≤ |a|) (ha' : |a| ≤ 2 ^ 200) (hb : 1 / 2 ≤ b) (hb' : b ≤ 2 ^ 100) : Mid (a / b) := by
  have hbp : 0 < b := by linarith
  refine mid_of ?_ ?_
  · rw [abs_div, abs_of_pos hbp, div_le_div_iff₀ (by positivity) hbp]
    have : b ≤ 2 ^ 100 := hb'
    have h2 : (2:ℚ) ^ 101 ≤ 2 ^ 200 := pow_le_pow_right₀ (by norm_num) (by norm_num)
    have h3 : (1:ℚ) / 2 * 2 ^ 200 ≤ |a| * 2 ^ 200 := mul_le_mul_of_nonneg_right ha (by positivity)
    have h4 : (2:ℚ) ^ 101 = 2 * 2 ^ 100 := by norm_num
    linarith
  · rw [abs_div, abs_of_pos hbp, div_le_iff₀ hbp]
    have h4 : (2:ℚ) ^ 250 * (1 / 2) ≤ 2 ^ 250 * b := mul_le_mul_of_nonneg_left hb (by positivity)
    linarith

theorem average_err {n T : Int} {t : TimerAgg} (hc : t.count = n) (hs : t.nanosSum = T) (hn : 0 < n) (hn' : n < 2 ^ 63) (hT : -2 ^ 63 ≤ T ∧ T < 2 ^ 63) :
    ∃ a : ℚ, average t = .fin a ∧ |a - (T:ℚ) / n| ≤ |(T:ℚ) / n| * (4 * uu) := by
  obtain ⟨p, hp, hp1, hp2, _⟩ := ofInt_err hT.1 hT.2
  obtain ⟨c, hcf, hc1, _, hc3⟩ := ofInt_err (n := n) (by omega) hn'
  have hcpos := hc3 hn
  have hval : average t = F64.div (.fin p) (.fin c) := by
    unfold average
    rw [if_neg (by omega), hc, hs, hp, hcf]
  have hnq : (1:ℚ) ≤ n := by exact_mod_cast hn
  have hnq' : (n:ℚ) ≤ 2 ^ 63 := by exact_mod_cast hn'.le
  rw [abs_of_pos (by linarith : (0:ℚ) < n)] at hc1
  obtain ⟨c1, c2⟩ := abs_le.1 hc1
  have u1 := uu_pos
  have u2 := uu_small
  have clo : 1 / 2 ≤ c := by nlinarith
  by_cases h0 : T = 0
  · refine ⟨0, ?_, by simp [h0]⟩
    rw [hval, div_fin hcpos (.inl (hp2 h0)), if_pos (hp2 h0)]
  have hTa : (1:ℚ) ≤ |(T:ℚ)| := by
    have : 1 ≤ |T| := Int.one_le_abs h0
    exact_mod_cast this
  have hTb : |(T:ℚ)| ≤ 2 ^ 63 := by
    have : |T| ≤ 2 ^ 63 := abs_le.2 ⟨hT.1, hT.2.le⟩
    exact_mod_cast this
  have pa : |(T:ℚ)| * (1 - uu) ≤ |p| := by
    have := abs_sub_abs_le_abs_sub (T:ℚ) p
    rw [abs_sub_comm] at this
    linarith [mul_sub |(T:ℚ)| 1 uu]
  have pb : |p| ≤ |(T:ℚ)| * (1 + uu) := by
    have := abs_sub_abs_le_abs_sub p (T:ℚ)
    linarith [mul_add |(T:ℚ)| 1 uu]
  have hpne : p ≠ 0 := abs_pos.1 (lt_of_lt_of_le (by nlinarith) pa)
  have hmid : Mid (p / c) := mid_quot (by nlinarith) (le_trans pb (le_trans (by nlinarith : _ ≤ (2:ℚ) ^ 64) (pow_le_pow_right₀ (by norm_num) (by norm_num)))) clo
    (le_trans (by nlinarith : c ≤ 2 ^ 64) (pow_le_pow_right₀ (by norm_num) (by norm_num)))
  refine ⟨rndQ (p / c), by rw [hval, div_fin hcpos (.inr hmid), if_neg hpne], ?_⟩
  have hr := rndQ_mid hmid
  -- p/c against T/n
  have hq : |p / c - T / n| ≤ |(T:ℚ) / n| * (21 / 10 * uu) := by
    have e : p / c - (T:ℚ) / n = ((p - T) * n + T * (n - c)) / (c * n) := by
      have : (n:ℚ) ≠ 0 := by linarith
      field_simp
      ring
    rw [e, abs_div, abs_div, abs_of_pos (mul_pos hcpos (by linarith : (0:ℚ) < n)), abs_of_pos (by linarith : (0:ℚ) < n)]
    rw [div_le_iff₀ (mul_pos hcpos (by linarith))]
    have e2 : |(T:ℚ)| / n * (21 / 10 * uu) * (c * n) = |(T:ℚ)| * (21 / 10 * uu) * c := by field_simp
    rw [e2]
    have t1 : |(p - T) * n + T * (n - c)| ≤ |p - T| * n + |(T:ℚ)| * |n - c| := by
      refine le_trans (abs_add_le _ _) ?_
      rw [abs_mul, abs_mul, abs_of_pos (by linarith : (0:ℚ) < n)]
    have t2 : |(n:ℚ) - c| ≤ n * uu := by rw [abs_sub_comm]; exact hc1
    have t3 : |p - T| * n ≤ |(T:ℚ)| * uu * n := mul_le_mul_of_nonneg_right hp1 (by linarith)
    have t4 : |(T:ℚ)| * |n - c| ≤ |(T:ℚ)| * (n * uu) := mul_le_mul_of_nonneg_left t2 (abs_nonneg _)
    have t5 : 2 * (n:ℚ) ≤ 21 / 10 * c := by nlinarith
    have t6 : |(T:ℚ)| * uu * (2 * n) ≤ |(T:ℚ)| * uu * (21 / 10 * c) := mul_le_mul_of_nonneg_left t5 (mul_nonneg (abs_nonneg _) u1.le)
    linarith
  have hq2 : |p / c| ≤ |(T:ℚ) / n| * (11 / 10) := by
    have := abs_sub_abs_le_abs_sub (p / c) ((T:ℚ) / n)
    have h3 : |(T:ℚ) / n| * (21 / 10 * uu) ≤ |(T:ℚ) / n| * (1 / 10) := mul_le_mul_of_nonneg_left (by linarith) (abs_nonneg _)
    linarith [mul_add |(T:ℚ) / n| 1 (1 / 10)]
  have h1 := abs_sub_le (rndQ (p / c)) (p / c) ((T:ℚ) / n)
  have h2 := mul_le_mul_of_nonneg_right hq2 u1.le
  have : 0 ≤ |(T:ℚ) / n| := abs_nonneg _
  nlinarith

/-! ## The standard deviation -/

/-- rounding the numerator, the divisor and the quotient. -/
theorem quotient_err {D N θ w m d : ℚ} (hD : 1 ≤ D) (hN : 2 ≤ N) (h0 : 0 ≤ θ) (h1 : θ ≤ 1 / 2) (hw : |w - D| ≤ D * θ) (hm : |m - w| ≤ w * uu)
    (hd : |d - N| ≤ N * uu) {c : ℚ} (hc : |c - m / d| ≤ m / d * uu) :
    D / N * ((1 - θ) * (1 - 4 * uu)) ≤ c ∧ c ≤ D / N * ((1 + θ) * (1 + 4 * uu)) := by
  have u1 := uu_pos
  have u2 := uu_small
  obtain ⟨w1, w2⟩ := abs_le.1 hw
  obtain ⟨m1, m2⟩ := abs_le.1 hm
  obtain ⟨d1, d2⟩ := abs_le.1 hd
  obtain ⟨c1, c2⟩ := abs_le.1 hc
  have hwp : 0 < w := by nlinarith
  have hmp : 0 < m := by nlinarith
  have hdp : 0 < d := by nlinarith
  have hN0 : N ≠ 0 := by linarith
  have a1 : m ≤ D * (1 + θ) * (1 + uu) := by nlinarith
  have a1' : D * (1 - θ) * (1 - uu) ≤ m := by nlinarith
  constructor
  · have a2 : D * (1 - θ) * (1 - uu) / (N * (1 + uu)) ≤ m / d := by
      rw [div_le_div_iff₀ (by nlinarith) hdp]
      have b1 : m * d ≤ m * (N * (1 + uu)) := mul_le_mul_of_nonneg_left (by linarith [mul_add N 1 uu]) (by linarith)
      have b2 := mul_le_mul_of_nonneg_right a1' hdp.le
      linarith
    have a3 : D * (1 - θ) * (1 - uu) / (N * (1 + uu)) * (1 - uu) ≤ c := by
      have := mul_le_mul_of_nonneg_right a2 (by linarith : (0:ℚ) ≤ 1 - uu)
      linarith [mul_sub (m / d) 1 uu]
    refine le_trans ?_ a3
    have e : D * (1 - θ) * (1 - uu) / (N * (1 + uu)) * (1 - uu) = D / N * (1 - θ) * ((1 - uu) ^ 2 / (1 + uu)) := by
      have : 1 + uu ≠ 0 := by linarith
      field_simp
    rw [e, ← mul_assoc]
    refine mul_le_mul_of_nonneg_left ?_ (mul_nonneg (div_nonneg (by linarith) (by linarith)) (by linarith))
    rw [le_div_iff₀ (by linarith)]
    nlinarith
  · have a2 : m / d ≤ D * (1 + θ) * (1 + uu) / (N * (1 - uu)) := by
      rw [div_le_div_iff₀ hdp (by nlinarith)]
      have b1 : m * (N * (1 - uu)) ≤ m * d := mul_le_mul_of_nonneg_left (by linarith [mul_sub N 1 uu]) (by linarith)
      have b2 := mul_le_mul_of_nonneg_right a1 hdp.le
      linarith
    have a3 : c ≤ D * (1 + θ) * (1 + uu) / (N * (1 - uu)) * (1 + uu) := by
      have := mul_le_mul_of_nonneg_right a2 (by linarith : (0:ℚ) ≤ 1 + uu)
      linarith [mul_add (m / d) 1 uu]
    refine le_trans a3 ?_
    have e : D * (1 + θ) * (1 + uu) / (N * (1 - uu)) * (1 + uu) = D / N * (1 + θ) * ((1 + uu) ^ 2 / (1 - uu)) := by
      have : 1 - uu ≠ 0 := by linarith
      field_simp
    rw [e, ← mul_assoc]
    refine mul_le_mul_of_nonneg_left ?_ (mul_nonneg (div_nonneg (by linarith) (by linarith)) (by linarith))
    rw [div_le_iff₀ (by linarith)]
    nlinarith

/-- taking the root. -/
theorem root_err {V θ c r : ℚ} (hV : 0 < V) (h0 : 0 ≤ θ) (h1 : θ ≤ 1 / 2) (hlo : V * ((1 - θ) * (1 - 4 * uu)) ≤ c) (hhi : c ≤ V * ((1 + θ) * (1 + 4 * uu)))
    (hre : |(r : ℝ) - √(c : ℝ)| ≤ √(c : ℝ) * (2 * uu)) : |(r:ℝ) - √(V:ℝ)| ≤ √(V:ℝ) * (θ + 8 * uu) := by
  set R := √((V:ℚ):ℝ) with hR
  have hRpos : 0 < R := Real.sqrt_pos.2 (by exact_mod_cast hV)
  have hRR : R * R = ((V:ℚ):ℝ) := Real.mul_self_sqrt (by exact_mod_cast hV.le)
  have θ0 : (0:ℝ) ≤ (θ:ℝ) := by exact_mod_cast h0
  have θ1 : (θ:ℝ) ≤ 1 / 2 := by
    have : (θ:ℝ) ≤ ((1 / 2 : ℚ) : ℝ) := by exact_mod_cast h1
    push_cast at this; exact this
  have v1 : (0:ℝ) < (uu:ℝ) := by exact_mod_cast uu_pos
  have v2 : (uu:ℝ) ≤ 1 / 1000000 := by
    have : (uu:ℝ) ≤ ((1 / 1000000 : ℚ) : ℝ) := by exact_mod_cast uu_small
    push_cast at this; exact this
  have chiR : (c:ℝ) ≤ (V:ℝ) * ((1 + θ) * (1 + 4 * uu)) := by exact_mod_cast hhi
  have cloR : (V:ℝ) * ((1 - θ) * (1 - 4 * uu)) ≤ (c:ℝ) := by exact_mod_cast hlo
  generalize ((uu:ℚ):ℝ) = u at *
  generalize ((θ:ℚ):ℝ) = θ at *
  have sup : √(c:ℝ) ≤ R * (1 + θ + 2 * u) := by
    apply Real.sqrt_le_iff.2
    refine ⟨by positivity, le_trans chiR ?_⟩
    rw [mul_pow, sq R, hRR]
    refine mul_le_mul_of_nonneg_left ?_ (by exact_mod_cast hV.le)
    nlinarith [mul_nonneg θ0 v1.le]
  have slo : R * (1 - θ - 4 * u) ≤ √(c:ℝ) := by
    apply Real.le_sqrt_of_sq_le
    refine le_trans ?_ cloR
    rw [mul_pow, sq R, hRR]
    refine mul_le_mul_of_nonneg_left ?_ (by exact_mod_cast hV.le)
    nlinarith [mul_nonneg θ0 v1.le]
  obtain ⟨e1, e2⟩ := abs_le.1 hre
  have hs0 : 0 ≤ √(c:ℝ) := Real.sqrt_nonneg _
  rw [abs_le]
  constructor
  · have : √(c:ℝ) * (1 - 2 * u) ≤ r := by linarith [mul_sub √(c:ℝ) 1 (2 * u)]
    have h2 := mul_le_mul_of_nonneg_right slo (by linarith : (0:ℝ) ≤ 1 - 2 * u)
    have h3 : R * (1 - θ - 8 * u) ≤ R * (1 - θ - 4 * u) * (1 - 2 * u) := by
      rw [mul_assoc]
      refine mul_le_mul_of_nonneg_left ?_ hRpos.le
      nlinarith [mul_nonneg θ0 v1.le]
    have h4 : R * (1 - θ - 8 * u) = R - R * (θ + 8 * u) := by ring
    linarith
  · have : (r:ℝ) ≤ √(c:ℝ) * (1 + 2 * u) := by linarith [mul_add √(c:ℝ) 1 (2 * u)]
    have h2 := mul_le_mul_of_nonneg_right sup (by linarith : (0:ℝ) ≤ 1 + 2 * u)
    have h3 : R * (1 + θ + 2 * u) * (1 + 2 * u) ≤ R * (1 + θ + 8 * u) := by
      rw [mul_assoc]
      refine mul_le_mul_of_nonneg_left ?_ hRpos.le
      nlinarith [mul_nonneg θ0 v1.le]
    have h4 : R * (1 + θ + 8 * u) = R + R * (θ + 8 * u) := by ring
    linarith

/-- from the numerator before its rounding to the result. -/
theorem stdDev_tail {n D N : Int} {θ p1 p2 : ℚ} {t : TimerAgg} (hc : t.count = n) (hn : 2 ≤ n) (hn' : n < 2 ^ 31) (hN : N = n * (n - 1)) (hD : 1 ≤ D) (hD' : (D:ℚ) ≤ 2 ^ 188)
    (h0 : 0 ≤ θ) (h1 : θ ≤ 1 / 2) (hw : |p1 - p2 - D| ≤ D * θ)
    (hp1 : F64.mul (.ofInt n) t.nanosSumSquares = .fin p1) (hp2 : F64.mul (.ofInt t.nanosSum) (.ofInt t.nanosSum) = .fin p2) :
    ∃ r : ℚ, stdDev t = .fin r ∧ |(r:ℝ) - √((D:ℝ) / N)| ≤ √((D:ℝ) / N) * (θ + 8 * uu) := by
  have u1 := uu_pos
  have u2 := uu_small
  have hD1 : (1:ℚ) ≤ D := by exact_mod_cast hD
  have hwmid : Mid (p1 - p2) := by
    obtain ⟨w1, w2⟩ := abs_le.1 hw
    have a1 : 1 / 2 ≤ p1 - p2 := by nlinarith
    have a2 : p1 - p2 ≤ 2 ^ 189 := by nlinarith
    exact mid_of (by rw [abs_of_pos (by linarith)]; exact le_trans (by norm_num) a1) (by rw [abs_of_pos (by linarith)]; exact le_trans a2 (by norm_num))
  have hwpos : 1 / 2 ≤ p1 - p2 := by
    obtain ⟨w1, w2⟩ := abs_le.1 hw
    nlinarith
  have hwhi : p1 - p2 ≤ 2 ^ 189 := by
    obtain ⟨w1, w2⟩ := abs_le.1 hw
    nlinarith
  have hnum : F64.sub (F64.mul (.ofInt n) t.nanosSumSquares) (F64.mul (.ofInt t.nanosSum) (.ofInt t.nanosSum)) = .fin (rndQ (p1 - p2)) := by
    rw [hp1, hp2]
    unfold F64.sub F64.neg
    by_cases h0 : p2 = 0
    · simp only [h0, if_true]
      have : F64.add (.fin p1) .negZero = rnd (p1 + 0) := rfl
      rw [this, add_zero, sub_zero]
      rw [h0, sub_zero] at hwmid
      exact rnd_mid hwmid
    · simp only [h0, if_false]
      have : F64.add (.fin p1) (.fin (-p2)) = rnd (p1 + -p2) := rfl
      rw [this, ← sub_eq_add_neg, rnd_mid hwmid]
  have hwe := rndQ_mid hwmid
  rw [abs_of_pos (by linarith : 0 < p1 - p2)] at hwe
  obtain ⟨we1, we2⟩ := abs_le.1 hwe
  generalize hw0 : p1 - p2 = w at *
  generalize hm : rndQ w = m at *
  have hN2 : 2 ≤ N := by rw [hN]; nlinarith
  have hNhi : N < 2 ^ 62 := by rw [hN]; nlinarith
  have hNq : (2:ℚ) ≤ N := by exact_mod_cast hN2
  have hNq' : (N:ℚ) ≤ 2 ^ 62 := by exact_mod_cast hNhi.le
  have hi64 : i64 (t.count * i64 (t.count - 1)) = N := by
    rw [hc, i64_of_range (x := n - 1) (by omega) (by omega), ← hN]
    exact i64_of_range (by omega) (by omega)
  obtain ⟨d, hd, hde, _, hdpos⟩ := ofInt_err (n := N) (by omega) (by omega)
  have hdp := hdpos (by omega)
  rw [abs_of_pos (by linarith : (0:ℚ) < N)] at hde
  have hmlo : 1 / 3 ≤ m := by nlinarith
  have hmhi : m ≤ 2 ^ 190 := by nlinarith
  have hm0 : m ≠ 0 := by linarith
  have hcmid : Mid (m / d) := by
    obtain ⟨de1, de2⟩ := abs_le.1 hde
    have : m / d = (2 * m) / (2 * d) := by rw [mul_div_mul_left _ _ (by norm_num : (2:ℚ) ≠ 0)]
    rw [this]
    refine mid_quot ?_ ?_ (by nlinarith) ?_
    · rw [abs_of_pos (by linarith)]; linarith
    · rw [abs_of_pos (by linarith)]
      refine le_trans (by linarith : 2 * m ≤ 2 * 2 ^ 190) ?_
      norm_num
    · refine le_trans (by nlinarith : 2 * d ≤ 4 * 2 ^ 62) ?_
      norm_num
  have hquot : F64.div (.fin m) (.fin d) = .fin (rndQ (m / d)) := by rw [div_fin hdp (.inr hcmid), if_neg hm0]
  have hmd : 0 < m / d := div_pos (by linarith) hdp
  have hce := rndQ_mid hcmid
  rw [abs_of_pos hmd] at hce
  generalize rndQ (m / d) = c at *
  obtain ⟨clo, chi⟩ := quotient_err hD1 hNq h0 h1 hw hwe hde hce
  have hVpos : (0:ℚ) < D / N := div_pos (by linarith) (by linarith)
  have hVlo : (1:ℚ) / 2 ^ 62 ≤ D / N := by
    rw [div_le_div_iff₀ (by positivity) (by linarith)]
    nlinarith
  have hVhi : (D:ℚ) / N ≤ 2 ^ 188 := by
    rw [div_le_iff₀ (by linarith)]
    nlinarith
  have hf1 : 1 / 4 ≤ (1 - θ) * (1 - 4 * uu) := by nlinarith
  have hf2 : (1 + θ) * (1 + 4 * uu) ≤ 2 := by nlinarith
  obtain ⟨r, hr, hrpos, hre⟩ := sqrt_err (q := c)
    (le_trans (by
      refine le_trans (by norm_num : (1:ℚ) / 2 ^ 100 ≤ 1 / 2 ^ 62 * (1 / 4)) ?_
      exact mul_le_mul hVlo hf1 (by norm_num) hVpos.le) clo)
    (le_trans chi (le_trans (mul_le_mul hVhi hf2 (by nlinarith) (by positivity)) (by norm_num)))
  refine ⟨r, ?_, ?_⟩
  · unfold stdDev
    simp only
    rw [hi64, hc, if_neg (by omega), if_neg (by omega), hnum, hd, hquot, hr]
  · have := root_err hVpos h0 h1 clo chi hre
    push_cast at this
    exact this

/-- the heart of the matter, in terms of count, sum and sum of squares. -/
theorem stdDev_err {n T Q : Int} {k : Nat} {t : TimerAgg} (hc : t.count = n) (hs : t.nanosSum = T) (hS : Approx k Q t.nanosSumSquares)
    (hn : 2 ≤ n) (hn' : n < 2 ^ 31) (hT : -2 ^ 63 ≤ T ∧ T < 2 ^ 63) (hk : k < 2 ^ 40) (hQ' : (Q:ℚ) ≤ 2 ^ 157) (hD : 0 < n * Q - T * T) (θ : ℚ)
    (hθ : (n * Q - T * T : ℚ) * θ = n * Q * ((2 * k + 8) * uu)) (hθ' : θ ≤ 1 / 2) :
    ∃ r : ℚ, stdDev t = .fin r ∧ |(r:ℝ) - √(((n * Q - T * T : ℤ) : ℝ) / (n * (n - 1) : ℤ))| ≤ √(((n * Q - T * T : ℤ) : ℝ) / (n * (n - 1) : ℤ)) * (θ + 8 * uu) := by
  have u1 := uu_pos
  have u2 := uu_small
  have hD1 : (1:ℚ) ≤ (n * Q - T * T : ℤ) := by exact_mod_cast hD
  have hDq : ((n * Q - T * T : ℤ) : ℚ) = n * Q - T * T := by push_cast; rfl
  have hnq : (2:ℚ) ≤ n := by exact_mod_cast hn
  have hnq' : (n:ℚ) ≤ 2 ^ 31 := by exact_mod_cast hn'.le
  have hTT : (0:ℚ) ≤ T * T := mul_self_nonneg _
  have hnQ : (1:ℚ) ≤ n * Q := by linarith
  have hQ : 1 ≤ Q := by
    by_contra h
    have : Q ≤ 0 := by omega
    have : n * Q ≤ 0 := by nlinarith
    nlinarith [mul_self_nonneg T]
  have hQq : (1:ℚ) ≤ Q := by exact_mod_cast hQ
  have hθ0 : 0 ≤ θ := by
    by_contra h
    have : (n * Q - T * T : ℚ) * θ < 0 := mul_neg_of_pos_of_neg (by linarith) (not_le.1 h)
    rw [hθ] at this
    have : (0:ℚ) ≤ n * Q * ((2 * k + 8) * uu) := by positivity
    linarith
  obtain ⟨S, hSf, S1, S2⟩ := hS
  have hk2 := one_sub_pow_half (k := k) (by omega)
  have hk3 := one_add_pow_le (k := k) (by omega)
  have hk4 : (1 + uu) ^ k ≤ 2 := by
    refine le_trans hk3 ?_
    have h3 : (k:ℚ) ≤ 2 ^ 40 := by exact_mod_cast hk.le
    have := mul_le_mul_of_nonneg_right h3 uu_pos.le
    have h4 : (2:ℚ) ^ 40 * uu ≤ 1 / 2 := by unfold uu; norm_num
    linarith
  have hSlo : 1 / 2 ≤ S := by nlinarith
  have hShi : S ≤ 2 ^ 158 := by
    refine le_trans S2 ?_
    have := mul_le_mul hQ' hk4 (pow_nonneg (by linarith) k) (by positivity)
    refine le_trans this ?_
    norm_num
  have hnofI : F64.ofInt n = .fin n := ofInt_exact (by rw [abs_of_pos (by omega)]; omega)
  have hp1 : Approx (k + 1) (n * Q) (F64.mul (.ofInt n) t.nanosSumSquares) := by
    have e : F64.mul (.ofInt n) t.nanosSumSquares = rnd (n * S) := by
      rw [hnofI, hSf]
      have : (n:ℚ) * S ≠ 0 := mul_ne_zero (by linarith) (by linarith)
      simp only [F64.mul, F64.toRat, this, if_false]
    rw [e]
    have hpos : (1:ℚ) ≤ n * S := by nlinarith
    refine rnd_approx (mid_of ?_ ?_) (by linarith) ?_ ?_
    · rw [abs_of_pos (by linarith)]
      exact le_trans (by norm_num : (1:ℚ) / 2 ^ 200 ≤ 1) hpos
    · rw [abs_of_pos (by linarith)]
      refine le_trans (mul_le_mul hnq' hShi (by linarith) (by positivity)) ?_
      norm_num
    · have := mul_le_mul_of_nonneg_left S1 (by linarith : (0:ℚ) ≤ n)
      linarith [mul_assoc (n:ℚ) Q ((1 - uu) ^ k)]
    · have := mul_le_mul_of_nonneg_left S2 (by linarith : (0:ℚ) ≤ n)
      linarith [mul_assoc (n:ℚ) Q ((1 + uu) ^ k)]
  obtain ⟨p1, hp1f, hp1e⟩ := hp1.err (by linarith) (by omega)
  obtain ⟨p2, hp2f, hp2e⟩ := (square_approx hT.1 hT.2).err (mul_self_nonneg _) (by omega)
  rw [← hs] at hp2f
  refine stdDev_tail hc hn hn' rfl hD ?_ hθ0 hθ' ?_ hp1f hp2f
  · rw [hDq]
    have := mul_le_mul hnq' hQ' (by linarith) (by positivity)
    have e : (2:ℚ) ^ 31 * 2 ^ 157 = 2 ^ 188 := by norm_num
    rw [e] at this
    linarith
  · rw [hDq, hθ]
    have e : p1 - p2 - (n * Q - T * T : ℚ) = (p1 - n * Q) - (p2 - T * T) := by ring
    rw [e]
    have t1 : |(p1 - n * Q) - (p2 - T * T)| ≤ |p1 - n * Q| + |p2 - T * T| := abs_sub _ _
    have t2 : (T * T : ℚ) * (2 * (3:ℕ) * uu) ≤ n * Q * (2 * (3:ℕ) * uu) := mul_le_mul_of_nonneg_right (by linarith) (by positivity)
    have e3 : (n * Q : ℚ) * ((2 * k + 8) * uu) = n * Q * (2 * ((k + 1 : ℕ) : ℚ) * uu) + n * Q * (2 * (3:ℕ) * uu) := by push_cast; ring
    rw [e3]
    exact le_trans t1 (add_le_add hp1e (le_trans hp2e t2))
