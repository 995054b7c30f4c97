import Verif.Lemmas.Stats
import Verif.Lemmas.MergeExtremes
/-!
# C53: average and standard deviation
-/
open Spec Api F64

/-! ## The code's formula and the definition -/

theorem sum_dev (μ : ℝ) (xs : List Int) : (xs.map (fun x : Int => ((x:ℝ) - μ) ^ 2)).sum = squares xs - 2 * μ * xs.sum + xs.length * μ ^ 2 := by
  induction xs with
  | nil => simp [squares]
  | cons x t ih =>
    simp only [List.map_cons, List.sum_cons, ih, squares, List.length_cons]
    push_cast
    ring

/-- the definition by deviations from the mean, and the formula with sums of squares. -/
theorem sampleStdDev_eq {xs : List Int} (h : 2 ≤ xs.length) : sampleStdDev xs = √((spread xs : ℝ) / ((xs.length : ℤ) * ((xs.length : ℤ) - 1) : ℤ)) := by
  unfold sampleStdDev
  congr 1
  rw [sum_dev]
  have h2 : (2:ℝ) ≤ (xs.length : ℝ) := by exact_mod_cast h
  have hn : (xs.length : ℝ) ≠ 0 := by linarith
  have hn1 : (xs.length : ℝ) - 1 ≠ 0 := by linarith
  unfold mean spread
  push_cast
  field_simp
  ring

theorem spread_nonneg (xs : List Int) : 0 ≤ spread xs := by
  by_cases h : 2 ≤ xs.length
  · have e := sum_dev (mean xs) xs
    have h2 : (2:ℝ) ≤ (xs.length : ℝ) := by exact_mod_cast h
    have hn : (xs.length : ℝ) ≠ 0 := by linarith
    have : (spread xs : ℝ) = xs.length * (xs.map (fun x : Int => ((x:ℝ) - mean xs) ^ 2)).sum := by
      rw [e]
      unfold mean spread
      push_cast
      field_simp
      ring
    have h3 : (0:ℝ) ≤ (spread xs : ℝ) := by
      rw [this]
      refine mul_nonneg (by linarith) (List.sum_nonneg ?_)
      intro y hy
      obtain ⟨x, _, rfl⟩ := List.mem_map.1 hy
      positivity
    exact_mod_cast h3
  · match xs, h with
    | [], _ => simp [spread, squares]
    | [x], _ => simp [spread, squares]
    | x :: y :: t, h => simp at h

theorem rnd_zero' : rnd 0 = .fin 0 := by unfold rnd; simp [rndQ_zero]

theorem mul_fin_nonneg {a b : ℚ} (ha : 0 ≤ a) (hb : 0 ≤ b) : F64.mul (.fin a) (.fin b) = rnd (a * b) := by
  show (if a * b = 0 then _ else rnd (a * b)) = _
  by_cases h : a * b = 0
  · rw [if_pos h, h, rnd_zero']
    simp [F64.isNeg, F64.zero, not_lt.2 ha, not_lt.2 hb]
  · rw [if_neg h]

theorem mul_fin_self (a : ℚ) : F64.mul (.fin a) (.fin a) = rnd (a * a) := by
  show (if a * a = 0 then _ else rnd (a * a)) = _
  by_cases h : a * a = 0
  · rw [if_pos h, h, rnd_zero']
    simp [F64.zero]
  · rw [if_neg h]

/-! ## The theorems -/

/-- C53, the average: relative error at most 2^-51, for every summary of any durations. -/
theorem C53_average {k : Nat} {xs : List Int} {t : TimerAgg} (h : Measures k xs t) (hs : Sizes xs) (hne : xs ≠ []) :
    ∃ a : ℚ, average t = .fin a ∧ |(a:ℝ) - mean xs| ≤ |mean xs| * (1 / 2 ^ 51) := by
  have hl : 0 < xs.length := List.length_pos_iff.2 hne
  have hl' := hs.length
  obtain ⟨a, h1, h2⟩ := average_err h.count h.sum (by omega) (by omega) hs.sum
  refine ⟨a, h1, ?_⟩
  have h3 : |(a:ℝ) - (xs.sum : ℝ) / (xs.length : ℤ)| ≤ |(xs.sum : ℝ) / (xs.length : ℤ)| * ((4 * uu : ℚ) : ℝ) := by exact_mod_cast h2
  have e : ((4 * uu : ℚ) : ℝ) = 1 / 2 ^ 51 := by unfold uu; push_cast; norm_num
  rw [e] at h3
  unfold mean
  exact_mod_cast h3

/-- C53: no standard deviation for fewer than two samples, no average for none. -/
theorem C53_few {k : Nat} {xs : List Int} {t : TimerAgg} (h : Measures k xs t) : (xs.length < 2 → stdDev t = .fin 0) ∧ (xs = [] → average t = .fin 0) := by
  constructor
  · intro hl
    unfold stdDev
    rw [h.count]
    have : xs.length = 0 ∨ xs.length = 1 := by omega
    rcases this with e | e <;> simp [e]
  · rintro rfl
    unfold average
    exact if_pos h.count

/-- C53, the standard deviation.  Partial: if the durations spread enough for the rounding errors, whatever they are, to stay below half of the spread: `stdDev` is a number, and its relative
error is at most the rounding errors (k+4 times 2^-52) times the ratio of count·Σx² to the spread, plus 2^-50.  See `C53_false` for what is missing. -/
theorem C53_stddev_partial {k : Nat} {xs : List Int} {t : TimerAgg} (h : Measures k xs t) (hs : Sizes xs) (hk : k < 2 ^ 40) (h2 : 2 ≤ xs.length) (hpos : 0 < spread xs)
    (hcond : (xs.length * squares xs : ℝ) * ((k + 4) * (1 / 2 ^ 52)) ≤ spread xs * (1 / 2)) :
    ∃ r : ℚ, stdDev t = .fin r ∧
      |(r:ℝ) - sampleStdDev xs| ≤ sampleStdDev xs * ((xs.length * squares xs : ℝ) * ((k + 4) * (1 / 2 ^ 52)) / spread xs + 1 / 2 ^ 50) := by
  have hl := hs.length
  have hposq : (0:ℚ) < spread xs := by exact_mod_cast hpos
  set θ : ℚ := (xs.length : ℤ) * squares xs * ((2 * k + 8) * uu) / spread xs with hθ
  have hu : ((uu:ℚ):ℝ) = 1 / 2 ^ 53 := by unfold uu; push_cast; norm_num
  have hθR : (θ:ℝ) = (xs.length * squares xs : ℝ) * ((k + 4) * (1 / 2 ^ 52)) / spread xs := by
    rw [hθ]
    push_cast
    rw [hu]
    congr 1
    ring
  have hsp : (((xs.length : ℤ) : ℚ) * squares xs - (xs.sum : ℚ) * xs.sum) = spread xs := by unfold spread; push_cast; rfl
  have hposR : (0:ℝ) < spread xs := by exact_mod_cast hpos
  obtain ⟨r, hr, he⟩ := stdDev_err h.count h.sum h.squares (by omega) (by omega) hs.sum hk (squares_le' hs) hpos θ
    (by rw [hsp, hθ, mul_div_cancel₀ _ hposq.ne'])
    (by
      have : (θ:ℝ) ≤ ((1 / 2 : ℚ) : ℝ) := by
        rw [hθR, div_le_iff₀ hposR]
        push_cast
        linarith
      exact_mod_cast this)
  refine ⟨r, hr, ?_⟩
  rw [sampleStdDev_eq h2, ← hθR]
  have e8 : (8:ℝ) * (uu:ℚ) = 1 / 2 ^ 50 := by rw [hu]; norm_num
  rw [e8] at he
  exact he

/-- C53, the standard deviation.  Partial: as long as count·Σx² stays below 2^53 and the sum of squares is exact, the relative error is at most 2^-50, and 0 for equal durations. -/
theorem C53_stddev_exact_partial {xs : List Int} {t : TimerAgg} (h : Measures 0 xs t) (hs : Sizes xs) (h2 : 2 ≤ xs.length) (hcond : xs.length * squares xs < 2 ^ 53) :
    ∃ r : ℚ, stdDev t = .fin r ∧ |(r:ℝ) - sampleStdDev xs| ≤ sampleStdDev xs * (1 / 2 ^ 50) := by
  have hl := hs.length
  have hsq : t.nanosSumSquares = .fin (squares xs) := by
    obtain ⟨s, e, h1, h2⟩ := h.squares
    rw [e]
    have : s = squares xs := le_antisymm (by simpa using h2) (by simpa using h1)
    rw [this]
  have hQ0 := squares_nonneg xs
  have hsp0 := spread_nonneg xs
  have hspeq : spread xs = xs.length * squares xs - xs.sum * xs.sum := rfl
  have hTT : xs.sum * xs.sum < 2 ^ 53 := by linarith
  have hQb : squares xs < 2 ^ 53 := by nlinarith
  have hT : |xs.sum| < 2 ^ 53 := by
    by_contra hc
    have h1 : 2 ^ 53 ≤ |xs.sum| := not_lt.1 hc
    have h2 : |xs.sum| * |xs.sum| = xs.sum * xs.sum := abs_mul_abs_self _
    nlinarith
  have hprod : ∀ m : Int, |m| < 2 ^ 53 → rnd (m:ℚ) = .fin m := fun m hm => ofInt_exact hm
  have hp1 : F64.mul (.ofInt xs.length) t.nanosSumSquares = .fin ((xs.length * squares xs : ℤ) : ℚ) := by
    rw [hsq, ofInt_exact (by rw [abs_of_nonneg (by omega)]; omega)]
    have e : (((xs.length : ℤ) : ℚ) * (squares xs : ℚ)) = ((xs.length * squares xs : ℤ) : ℚ) := by push_cast; rfl
    rw [mul_fin_nonneg (by exact_mod_cast Nat.cast_nonneg _) (by exact_mod_cast hQ0), e]
    exact hprod _ (by rw [abs_of_nonneg (mul_nonneg (by omega) hQ0)]; exact hcond)
  have hp2 : F64.mul (.ofInt t.nanosSum) (.ofInt t.nanosSum) = .fin ((xs.sum * xs.sum : ℤ) : ℚ) := by
    rw [h.sum, ofInt_exact hT]
    have e : ((xs.sum : ℚ) * (xs.sum : ℚ)) = ((xs.sum * xs.sum : ℤ) : ℚ) := by push_cast; rfl
    rw [mul_fin_self, e]
    exact hprod _ (by rw [abs_of_nonneg (mul_self_nonneg _)]; exact hTT)
  rcases hsp0.eq_or_lt with h0 | hpos
  · -- no spread at all
    refine ⟨0, ?_, ?_⟩
    · unfold stdDev
      simp only
      rw [h.count, if_neg (by omega), if_neg (by omega), hp1, hp2]
      have e : (xs.length * squares xs : ℤ) = xs.sum * xs.sum := by omega
      rw [e]
      have hsub : ∀ q : ℚ, F64.sub (.fin q) (.fin q) = .fin 0 := by
        intro q
        unfold F64.sub F64.neg
        by_cases hq : q = 0
        · subst hq
          simp only [if_true]
          show rnd (0 + 0) = .fin 0
          unfold rnd; simp [rndQ_zero]
        · simp only [hq, if_false]
          show rnd (q + -q) = .fin 0
          unfold rnd; simp [rndQ_zero]
      rw [hsub]
      have hn1 : i64 ((xs.length : ℤ) - 1) = xs.length - 1 := i64_of_range (by omega) (by omega)
      have hN : i64 ((xs.length : ℤ) * i64 ((xs.length : ℤ) - 1)) = xs.length * (xs.length - 1) := by
        rw [hn1]
        exact i64_of_range (by nlinarith) (by nlinarith)
      rw [hN]
      obtain ⟨d, hd, _, _, hdp⟩ := ofInt_err (n := (xs.length : ℤ) * (xs.length - 1)) (by nlinarith) (by nlinarith)
      rw [hd, div_fin (hdp (by nlinarith)) (.inl rfl), if_pos rfl]
      simp [F64.sqrt]
    · rw [sampleStdDev_eq h2, ← h0]; simp
  · have hdD : ((xs.length * squares xs - xs.sum * xs.sum : ℤ) : ℚ) ≤ 2 ^ 188 := by
      have : (xs.length * squares xs - xs.sum * xs.sum : ℤ) ≤ 2 ^ 188 := by nlinarith [mul_self_nonneg xs.sum]
      exact_mod_cast this
    obtain ⟨r, hr, he⟩ := stdDev_tail (θ := 0) h.count (by omega) (by omega) rfl (D := spread xs) hpos hdD (le_refl _) (by norm_num)
      (by rw [hspeq]; push_cast; simp) hp1 hp2
    refine ⟨r, hr, ?_⟩
    rw [sampleStdDev_eq h2]
    have e8 : (8:ℝ) * (uu:ℚ) = 1 / 2 ^ 50 := by unfold uu; push_cast; norm_num
    rw [e8] at he
    simpa using he

/-! ## What is summarised -/

/-- while the sum of squares stays below 2^53 no rounding happens. -/
theorem sumSquares_exact (xs : List Int) (h : squares xs < 2 ^ 53) : sumSquares xs = .fin (squares xs) := by
  induction xs using snocInduction with
  | nil => rfl
  | snoc l a ih =>
    rw [squares_snoc] at h ⊢
    have h0 := squares_nonneg l
    have ha := mul_self_nonneg a
    have e : sumSquares (l ++ [a]) = F64.add (sumSquares l) (F64.mul (F64.ofInt a) (F64.ofInt a)) := by simp [sumSquares]
    have hab : |a| < 2 ^ 53 := by
      by_contra hc
      have h1 : 2 ^ 53 ≤ |a| := not_lt.1 hc
      have h2 : |a| * |a| = a * a := abs_mul_abs_self _
      nlinarith
    have e2 : (a:ℚ) * a = ((a * a : ℤ) : ℚ) := by push_cast; rfl
    have hx : ∀ m : Int, |m| < 2 ^ 53 → rnd (m:ℚ) = .fin m := fun m hm => ofInt_exact hm
    rw [e, ih (by linarith), ofInt_exact hab, mul_fin_self, e2, hx _ (by rw [abs_of_nonneg ha]; linarith)]
    show rnd ((squares l : ℚ) + ((a * a : ℤ) : ℚ)) = _
    have e3 : (squares l : ℚ) + ((a * a : ℤ) : ℚ) = ((squares l + a * a : ℤ) : ℚ) := by push_cast; rfl
    rw [e3]
    exact hx _ (by rw [abs_of_nonneg (by linarith)]; exact h)

theorem measures_timerOf_exact {xs : List Int} (h : Sizes xs) (hsq : squares xs < 2 ^ 53) : Measures 0 xs (timerOf xs) := by
  have hm := measures_timerOf h
  refine ⟨hm.count, hm.sum, ?_⟩
  rw [timerOf_sumSquares, sumSquares_exact xs hsq]
  exact ⟨_, rfl, by simp, by simp⟩

/-- the durations of the completions of a job. -/
def Spec.durations (j : Str) (es : List Emit) : List Int := (completions (ofJob j es)).map (·.2)

/-- C68: the summary an aggregation keeps of the durations of a job: number and sum exact, sum of squares with at most (number + 3) roundings. -/
theorem C68_emitted (s : Time) (es : List Emit) (j : Str) (hj : ofJob j es ≠ []) (h : Sizes (durations j es)) :
    ∃ ja, (aggOf s es).jobs.get? j = some ja ∧ Measures ((durations j es).length + 3) (durations j es) ja.timer := by
  refine ⟨jobAggOf (ofJob j es), ?_, ?_⟩
  · rw [aggOf_jobs, if_neg hj]
  · rw [jobAggOf_timer]; exact measures_timerOf h

/-- `Measures`, but with numbers that may have overflowed. -/
structure Measures' (k : Nat) (xs : List Int) (t : TimerAgg) : Prop where
  count : t.count = i64 xs.length
  sum : t.nanosSum = i64 xs.sum
  squares : F64.Approx k (squares xs) t.nanosSumSquares

theorem Measures'.exact {k : Nat} {xs : List Int} {t : TimerAgg} (h : Measures' k xs t) (hs : Sizes xs) : Measures k xs t := by
  have := hs.length
  exact ⟨by rw [h.count]; exact i64_of_range (by omega) (by omega), by rw [h.sum]; exact i64_of_range hs.sum.1 hs.sum.2, h.squares⟩

theorem measures'_merge {k : Nat} {xs ys : List Int} {s t : TimerAgg} (hk : k ≤ 2 ^ 40) (h : ∀ x ∈ xs ++ ys, -2 ^ 63 ≤ x ∧ x < 2 ^ 63) (hl : (xs ++ ys).length < 2 ^ 31)
    (hs : Measures' k xs s) (ht : Measures' k ys t) : Measures' (k + 1) (xs ++ ys) (s.merge t) := by
  refine ⟨?_, ?_, ?_⟩
  · simp only [TimerAgg.merge, hs.count, ht.count, List.length_append]
    push_cast
    rw [i64_add_i64_left, i64_add_i64_right]
  · simp only [TimerAgg.merge, hs.sum, ht.sum, List.sum_append]
    rw [i64_add_i64_left, i64_add_i64_right]
  · rw [squares_append]
    push_cast
    have h1 := squares_le (xs := xs) (fun x hx => h x (by simp [hx]))
    have h2 := squares_le (xs := ys) (fun x hx => h x (by simp [hx]))
    rw [List.length_append] at hl
    have b : ∀ (l : List Int), l.length < 2 ^ 31 → squares l ≤ l.length * 2 ^ 126 → (squares l : ℚ) ≤ 2 ^ 240 := by
      intro l hl h1
      have h2 : (l.length : ℤ) ≤ 2 ^ 31 := by omega
      have : squares l ≤ 2 ^ 31 * 2 ^ 126 := le_trans h1 (by nlinarith)
      have : ((squares l : ℤ) : ℚ) ≤ ((2 ^ 31 * 2 ^ 126 : ℤ) : ℚ) := by exact_mod_cast this
      exact le_trans this (by norm_num)
    exact add_approx hk hs.squares ht.squares (zero_or_one (squares_nonneg xs)) (zero_or_one (squares_nonneg ys)) (b _ (by omega) h1) (b _ (by omega) h2)

theorem measures'_merged (s : Time) (j : Str) (l : List (Time × List Emit)) (h : ∀ x ∈ l.flatMap (fun p => durations j p.2), -2 ^ 63 ≤ x ∧ x < 2 ^ 63)
    (hl : (l.flatMap (fun p => durations j p.2)).length < 2 ^ 31) (hn : l.length < 2 ^ 31) (K : Nat) (hK : K ≤ 2 ^ 32) (hle : ∀ p ∈ l, (durations j p.2).length + 3 ≤ K) :
    match (mergeAll s (l.map (fun p => aggOf p.1 p.2))).jobs.get? j with
    | none => ∀ p ∈ l, ofJob j p.2 = []
    | some ja => Measures' (K + l.length) (l.flatMap (fun p => durations j p.2)) ja.timer := by
  induction l using snocInduction with
  | nil => simp [mergeAll, IntAgg.new]
  | snoc l a ih =>
    have ih := ih (fun x hx => h x (by simp only [List.flatMap_append, List.mem_append]; exact .inl hx)) (by simp only [List.flatMap_append, List.length_append] at hl; omega)
      (by simp at hn; omega) (fun p hp => hle p (by simp [hp]))
    have hwf := aggOf_wf a.1 a.2
    have hKa := hle a (by simp)
    simp only [List.flatMap_append, List.flatMap_cons, List.flatMap_nil, List.append_nil] at h hl
    have hdn : ∀ es, ofJob j es = [] → durations j es = [] := by intro es he; simp [durations, he, completions]
    have hmeas : ofJob j a.2 ≠ [] → Measures' (K + l.length) (durations j a.2) (jobAggOf (ofJob j a.2)).timer := by
      intro _
      rw [jobAggOf_timer]
      refine ⟨timerOf_count _, timerOf_sum _, ?_⟩
      rw [timerOf_sumSquares]
      exact (sumSquares_approx _ (fun x hx => h x (List.mem_append_right _ hx)) (by rw [List.length_append] at hl; exact (Nat.le_add_left _ _).trans_lt hl)).mono
        (by exact_mod_cast squares_nonneg _) (hKa.trans (Nat.le_add_right _ _))
    have hmono : ∀ {xs t}, Measures' (K + l.length) xs t → Measures' (K + (l ++ [a]).length) xs t := by
      intro xs t hm
      exact ⟨hm.count, hm.sum, hm.squares.mono (by exact_mod_cast squares_nonneg _) (by simp)⟩
    rw [List.map_append, List.map_cons, List.map_nil, mergeAll_snoc]
    simp only [IntAgg.merge, List.flatMap_append, List.flatMap_cons, List.flatMap_nil, List.append_nil]
    rw [mergeJobs_get? _ _ hwf.jobs hwf.jobMaps, aggOf_jobs]
    by_cases ha : ofJob j a.2 = []
    · simp only [ha, if_true, hdn _ ha, List.append_nil]
      split
      · next h0 =>
        rw [h0] at ih
        intro p hp
        rcases List.mem_append.1 hp with hp | hp
        · exact ih p hp
        · rw [List.mem_singleton.1 hp]; exact ha
      · next ja h0 =>
        rw [h0] at ih
        exact hmono ih
    · simp only [ha, if_false]
      cases h0 : (mergeAll s (l.map (fun p => aggOf p.1 p.2))).jobs.get? j with
      | none =>
        rw [h0] at ih
        have : l.flatMap (fun p => durations j p.2) = [] := by
          rw [List.flatMap_eq_nil_iff]
          exact fun p hp => hdn _ (ih p hp)
        rw [this, List.nil_append]
        exact hmono (hmeas ha)
      | some ja =>
        rw [h0] at ih
        simp only [mergeOpt, JobAgg.merge]
        have := measures'_merge (k := K + l.length) (by simp at hn; omega) h hl ih (hmeas ha)
        rw [show K + (l ++ [a]).length = K + l.length + 1 by simp; omega]
        exact this

/-- C68, on the side of healthd: merging aggregations (of several hosts, or of several intervals) into one, the summary of a job again has number and sum exact, and the sum of
squares with at most one more rounding for every aggregation merged. -/
theorem C68_merged (s : Time) (j : Str) (l : List (Time × List Emit)) (hj : ∃ p ∈ l, ofJob j p.2 ≠ []) (h : Sizes (l.flatMap (fun p => durations j p.2))) (hn : l.length < 2 ^ 31)
    (K : Nat) (hK : K ≤ 2 ^ 32) (hle : ∀ p ∈ l, (durations j p.2).length + 3 ≤ K) :
    ∃ ja, (mergeAll s (l.map (fun p => aggOf p.1 p.2))).jobs.get? j = some ja ∧ Measures (K + l.length) (l.flatMap (fun p => durations j p.2)) ja.timer := by
  have := measures'_merged s j l h.each h.length hn K hK hle
  cases h0 : (mergeAll s (l.map (fun p => aggOf p.1 p.2))).jobs.get? j with
  | none =>
    rw [h0] at this
    obtain ⟨p, hp, hne⟩ := hj
    exact absurd (this p hp) hne
  | some ja =>
    rw [h0] at this
    exact ⟨ja, rfl, this.exact h⟩

/-! ## Where the property fails -/

/-- three jobs that take 1.000000008 seconds each. -/
def Spec.threeEqual : List Int := [1000000008, 1000000008, 1000000008]

/-- two jobs that take 100 seconds, one of them a nanosecond more. -/
def Spec.twoNear : List Int := [100000000000, 100000000001]

/-- C53 is false: the cancellation in the formula leaves a negative number, whose root is not a number; and it may lose all digits. -/
theorem C53_false :
    (Sizes threeEqual ∧ sampleStdDev threeEqual = 0 ∧ stdDev (timerOf threeEqual) = .nan) ∧
    (Sizes twoNear ∧ sampleStdDev twoNear = √(1 / 2) ∧ stdDev (timerOf twoNear) = .fin 0) := by
  refine ⟨⟨⟨?_, ?_, ?_⟩, ?_, by decide +kernel⟩, ⟨⟨?_, ?_, ?_⟩, ?_, by decide +kernel⟩⟩
  · decide
  · decide
  · decide
  · rw [sampleStdDev_eq (by decide)]
    have : spread threeEqual = 0 := by decide
    simp [this]
  · decide
  · decide
  · decide
  · rw [sampleStdDev_eq (by decide)]
    have : spread twoNear = 1 := by decide
    rw [this]
    norm_num [twoNear]

/-! ## Instances -/

/-- 1 ms and 3 ms and 2.5 ms: spread enough for `C53_stddev_partial`. -/
example : ∃ r : ℚ, stdDev (timerOf [1000000, 3000000, 2500000]) = .fin r ∧
    |(r:ℝ) - sampleStdDev [1000000, 3000000, 2500000]| ≤ sampleStdDev [1000000, 3000000, 2500000] * (1 / 10 ^ 10) := by
  have hs : Sizes [1000000, 3000000, 2500000] := ⟨by decide, by decide, by decide⟩
  have e : (squares [1000000, 3000000, 2500000] : ℤ) = 16250000000000 := by decide
  have e2 : (spread [1000000, 3000000, 2500000] : ℤ) = 6500000000000 := by decide
  obtain ⟨r, h1, h2⟩ := C53_stddev_partial (measures_timerOf hs) hs (by decide) (by decide) (by rw [e2]; decide) (by rw [e, e2]; norm_num)
  refine ⟨r, h1, h2.trans (mul_le_mul_of_nonneg_left ?_ (Real.sqrt_nonneg _))⟩
  rw [e, e2]
  norm_num

example : ∃ r : ℚ, stdDev (timerOf [100, 300, 250]) = .fin r ∧ |(r:ℝ) - sampleStdDev [100, 300, 250]| ≤ sampleStdDev [100, 300, 250] * (1 / 2 ^ 50) :=
  have hs : Sizes [100, 300, 250] := ⟨by decide, by decide, by decide⟩
  C53_stddev_exact_partial (measures_timerOf_exact hs (by decide)) hs (by decide) (by decide)

example : ∃ ja, (aggOf ⟨60, 0⟩ [.complete (bs "j") .success 5, .event (bs "j") (bs "e"), .complete (bs "j") .error 7]).jobs.get? (bs "j") = some ja ∧
    Measures 5 [5, 7] ja.timer :=
  C68_emitted ⟨60, 0⟩ [.complete (bs "j") .success 5, .event (bs "j") (bs "e"), .complete (bs "j") .error 7] (bs "j") (by decide) ⟨by decide, by decide, by decide⟩

example : ∃ ja, (mergeAll ⟨60, 0⟩ [aggOf ⟨60, 0⟩ [.complete (bs "j") .success 5], aggOf ⟨60, 0⟩ [.complete (bs "j") .error 7]]).jobs.get? (bs "j") = some ja ∧
    Measures 6 [5, 7] ja.timer :=
  C68_merged ⟨60, 0⟩ (bs "j") [(⟨60, 0⟩, [.complete (bs "j") .success 5]), (⟨60, 0⟩, [.complete (bs "j") .error 7])] (by decide) ⟨by decide, by decide, by decide⟩ (by decide)
    4 (by decide) (by decide)

example : ∃ a : ℚ, average (timerOf [100, 300, 250]) = .fin a ∧ |(a:ℝ) - mean [100, 300, 250]| ≤ |mean [100, 300, 250]| * (1 / 2 ^ 51) :=
  have hs : Sizes [100, 300, 250] := ⟨by decide, by decide, by decide⟩
  C53_average (measures_timerOf hs) hs (by decide)

example : stdDev (timerOf [5]) = .fin 0 := (C53_few (measures_timerOf (xs := [5]) ⟨by decide, by decide, by decide⟩)).1 (by decide)
