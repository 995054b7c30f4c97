import Verif.Lemmas.ErrorCounter
/-! Refinement: an aggregator after any history holds exactly the retained segments of the history. -/
open Spec

theorem truncate_eq {d : Int} (hd : 0 < d) (t : Time) : t.truncate d = intervalStart d t := by
  unfold Time.truncate intervalStart
  rw [if_neg (by omega)]
  have := Int.mul_ediv_add_emod t.ns d
  congr 1
  omega

section lastN
variable {α β : Type}

theorem lastN_length (n : Nat) (l : List α) : (lastN n l).length = min n l.length := by
  simp [lastN]; omega

theorem lastN_map (n : Nat) (l : List α) (f : α → β) : lastN n (l.map f) = (lastN n l).map f := by
  simp [lastN, List.map_drop]

theorem lastN_getLast? {n : Nat} (hn : 0 < n) (l : List α) : (lastN n l).getLast? = l.getLast? := by
  unfold lastN
  rw [List.getLast?_drop]
  split
  · have : l.length = 0 := by omega
    simp [List.length_eq_zero_iff.1 this]
  · rfl

theorem lastN_snoc {n : Nat} (hn : 0 < n) (l : List α) (x : α) :
    lastN n (l ++ [x]) = if (lastN n l).length = n then (lastN n l).tail ++ [x] else lastN n l ++ [x] := by
  rw [lastN_length]
  unfold lastN
  split
  · have h1 : (l ++ [x]).length - n = l.length - n + 1 := by simp; omega
    rw [h1, List.drop_append_of_le_length (by omega), List.tail_drop]
  · have h1 : (l ++ [x]).length - n = 0 := by simp; omega
    have h2 : l.length - n = 0 := by omega
    rw [h1, h2]; simp

theorem lastN_dropLast_snoc {n : Nat} (hn : 0 < n) {l : List α} (hl : l ≠ []) (x : α) :
    lastN n (l.dropLast ++ [x]) = (lastN n l).dropLast ++ [x] := by
  have hp := List.length_pos_iff.2 hl
  unfold lastN
  have h1 : (l.dropLast ++ [x]).length = l.length := by simp; omega
  rw [h1, List.drop_append_of_le_length (by simp; omega)]
  congr 1
  rw [List.dropLast_eq_take, List.dropLast_eq_take, List.drop_take, List.length_drop]
  congr 1; omega

theorem modifyLast_eq (f : IntAgg → IntAgg) (l : List IntAgg) (x : IntAgg) (h : l.getLast? = some x) :
    modifyLast f l = l.dropLast ++ [f x] := by
  induction l with
  | nil => simp at h
  | cons a t ih =>
    cases t with
    | nil => simp at h; subst h; rfl
    | cons b t => simp only [modifyLast, List.dropLast_cons_cons, List.cons_append]; rw [ih (by simpa using h)]

end lastN

/-- the segment an aggregation of the window stands for. -/
def aggOfSeg (p : Time × List Emit) : IntAgg := aggOf p.1 p.2

theorem segments_snoc (d : Int) (h : List (Time × AggOp)) (x : Time × AggOp) :
    segments d (h ++ [x]) = addToSegments d (segments d h) x := by simp [segments]

theorem run_append (a : Aggregator) (h h' : List (Time × AggOp)) :
    a.run (h ++ h') = (a.run h).bind (·.run h') := by
  induction h generalizing a with
  | nil => rfl
  | cons p t ih =>
    simp only [List.cons_append, Aggregator.run]
    cases a.step p.1 p.2 with
    | none => rfl
    | some a' => simp [ih]

theorem run_snoc (a : Aggregator) (h : List (Time × AggOp)) (x : Time × AggOp) :
    a.run (h ++ [x]) = (a.run h).bind (·.step x.1 x.2) := by
  rw [run_append]
  congr 1; funext b
  simp [Aggregator.run]

/-- the window of `a` is the last `n` segments `S`. -/
structure Holds (d : Int) (n : Nat) (a : Aggregator) (S : List (Time × List Emit)) : Prop where
  dur : a.intervalDuration = d
  max : a.maxIntervals = n
  win : a.intervals = (lastN n S).map aggOfSeg

theorem Holds.last {d : Int} {n : Nat} {a : Aggregator} {S : List (Time × List Emit)} (hn : 0 < n) (h : Holds d n a S) :
    a.intervals.getLast? = S.getLast?.map aggOfSeg := by
  rw [h.win, List.getLast?_map, lastN_getLast? hn]

theorem Holds.create {d : Int} {n : Nat} {a : Aggregator} {S : List (Time × List Emit)} (hn : 0 < n)
    (h : Holds d n a S) (s : Time) : ∃ a', a.create s = some a' ∧ Holds d n a' (S ++ [(s, [])]) ∧ a'.retain = a.retain := by
  unfold Aggregator.create
  have hlen : a.intervals.length = (lastN n S).length := by rw [h.win]; simp
  simp only [h.max, hlen]
  by_cases hc : (lastN n S).length = n
  · rw [if_pos (by omega), if_neg (by omega)]
    refine ⟨_, rfl, ⟨h.dur, rfl, ?_⟩, rfl⟩
    simp only [h.win]
    rw [lastN_snoc hn, if_pos hc]
    simp [aggOfSeg, aggOf, List.map_tail]
  · rw [if_neg (by omega)]
    refine ⟨_, rfl, ⟨h.dur, rfl, ?_⟩, rfl⟩
    simp only [h.win]
    rw [lastN_snoc hn, if_neg hc]
    simp [aggOfSeg, aggOf]

theorem Holds.slide {d : Int} {n : Nat} {a : Aggregator} {S : List (Time × List Emit)} (hd : 0 < d) (hn : 0 < n)
    (h : Holds d n a S) (t : Time) (op : AggOp) (ho : emitsOf op = []) :
    ∃ a', a.slide t = some a' ∧ Holds d n a' (addToSegments d S (t, op)) ∧ a'.retain = a.retain := by
  unfold Aggregator.slide
  rw [h.last hn, h.dur, truncate_eq hd]
  unfold addToSegments
  cases hS : S.getLast? with
  | none =>
    have : S = [] := by simpa using hS
    subst this
    simp only [Option.map_none, ho]
    exact h.create hn _
  | some p =>
    obtain ⟨s, es⟩ := p
    simp only [Option.map_some, aggOfSeg, aggOf_start, ho, List.append_nil]
    split
    · refine ⟨a, rfl, ?_, rfl⟩
      rw [List.dropLast_append_getLast? _ hS]
      exact h
    · exact h.create hn _

theorem addToSegments_tick_last (d : Int) (S : List (Time × List Emit)) (t : Time) (op : AggOp) :
    ∃ es, (addToSegments d S (t, op)).getLast? = some (intervalStart d t, es) := by
  unfold addToSegments
  cases hS : S.getLast? with
  | none => simp
  | some p =>
    simp only
    split
    · rename_i h; simp [h]
    · simp

theorem addToSegments_emit (d : Int) (S : List (Time × List Emit)) (t : Time) (e : Emit) :
    ∃ es, (addToSegments d S (t, .tick)).getLast? = some (intervalStart d t, es) ∧
      addToSegments d S (t, .emit e) = (addToSegments d S (t, .tick)).dropLast ++ [(intervalStart d t, es ++ [e])] := by
  unfold addToSegments
  cases hS : S.getLast? with
  | none => exact ⟨[], by simp [emitsOf], by simp [emitsOf]⟩
  | some p =>
    simp only
    split
    · rename_i h; exact ⟨p.2, by simp [emitsOf, h], by simp [emitsOf, h]⟩
    · exact ⟨[], by simp [emitsOf], by simp [emitsOf]⟩

theorem Holds.emit {d : Int} {n : Nat} {a : Aggregator} {S : List (Time × List Emit)} (hd : 0 < d) (hn : 0 < n)
    (h : Holds d n a S) (t : Time) (e : Emit) :
    ∃ a', a.emit t e = some a' ∧ Holds d n a' (addToSegments d S (t, .emit e)) ∧ a'.retain = a.retain := by
  obtain ⟨a1, h1, h2, h3⟩ := h.slide hd hn t .tick rfl
  obtain ⟨es, hl, hE⟩ := addToSegments_emit d S t e
  refine ⟨{ a1 with intervals := modifyLast (·.apply e) a1.intervals },
    by unfold Aggregator.emit; rw [h1]; rfl, ⟨h2.dur, h2.max, ?_⟩, h3⟩
  have hlast : a1.intervals.getLast? = some (aggOf (intervalStart d t) es) := by
    rw [h2.last hn, hl]; rfl
  simp only
  rw [modifyLast_eq _ _ _ hlast, hE, lastN_dropLast_snoc hn (by intro h0; rw [h0] at hl; simp at hl), h2.win]
  simp [aggOfSeg, aggOf_snoc, List.map_dropLast]

theorem Holds.step {d : Int} {n : Nat} {a : Aggregator} {S : List (Time × List Emit)} (hd : 0 < d) (hn : 0 < n)
    (h : Holds d n a S) (t : Time) (op : AggOp) :
    ∃ a', a.step t op = some a' ∧ Holds d n a' (addToSegments d S (t, op)) ∧ a'.retain = a.retain := by
  cases op with
  | emit e => exact h.emit hd hn t e
  | tick => exact h.slide hd hn t .tick rfl
  | read =>
    obtain ⟨a', h1, h2⟩ := h.slide hd hn t .read rfl
    refine ⟨a', ?_, h2⟩
    simp [Aggregator.step, Aggregator.memorySafeIntervals, h1]

theorem Holds.run {d : Int} {n : Nat} {a : Aggregator} (hd : 0 < d) (hn : 0 < n) (h0 : Holds d n a [])
    (h : List (Time × AggOp)) : ∃ a', a.run h = some a' ∧ Holds d n a' (segments d h) ∧ a'.retain = a.retain := by
  induction h using snocInduction with
  | nil => exact ⟨a, rfl, h0, rfl⟩
  | snoc l x ih =>
    obtain ⟨a1, h1, h2, h3⟩ := ih
    obtain ⟨a2, h4, h5, h6⟩ := h2.step hd hn x.1 x.2
    refine ⟨a2, ?_, ?_, h6.trans h3⟩
    · rw [run_snoc, h1]; exact h4
    · rw [segments_snoc]; exact h5

theorem newAggregator_ok {d r : Int} (hd : 0 < d) (hr : d ≤ r) :
    newAggregator d r = some ⟨d, r, ((r / d).toNat : Int), []⟩ ∧ 0 < (r / d).toNat := by
  have h1 : 1 ≤ r / d := by rw [Int.le_ediv_iff_mul_le hd]; omega
  have h2 : Int.tdiv r d = r / d := Int.tdiv_eq_ediv_of_nonneg (by omega)
  unfold newAggregator
  rw [if_neg (by omega)]
  simp only [h2]
  rw [if_neg (by omega)]
  refine ⟨?_, by omega⟩
  congr 2
  omega

/-- Main refinement. -/
theorem run_refines {d r : Int} (hd : 0 < d) (hr : d ≤ r) (h : List (Time × AggOp)) :
    ∃ a0 a, newAggregator d r = some a0 ∧ a0.run h = some a ∧ a.intervals = (retained d r h).map aggOfSeg ∧
      Holds d (r / d).toNat a (segments d h) := by
  obtain ⟨h1, h2⟩ := newAggregator_ok hd hr
  obtain ⟨a, h3, h4, _⟩ := Holds.run (a := ⟨d, r, ((r / d).toNat : Int), []⟩) hd h2 ⟨rfl, rfl, by simp [lastN]⟩ h
  exact ⟨_, a, h1, h3, h4.win, h4⟩
