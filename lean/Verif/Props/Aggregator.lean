import Verif.Lemmas.Exact
import Mathlib.Data.List.Chain
/-!
# Properties C08–C14, C16, C19: what the polling sink reports
All statements are about `getMetrics d r h now`: what `GetMetrics` returns at clock reading `now` from a sink created
with interval `d` and retention `r` after an arbitrary history `h` of emissions, one-second ticks and earlier
GetMetrics calls, each with its clock reading.
-/
open Spec

/-- The intervals returned correspond one to one to the retained segments, each satisfying `P`. -/
def ReportsSegments (d r : Int) (h : List (Time × AggOp)) (now : Time) (P : IntAgg → List Emit → Prop) : Prop :=
  ∃ ms, getMetrics d r h now = some ms ∧
    List.Forall₂ (fun ia g => ia.start = g.1 ∧ P ia g.2) ms (retained d r (h ++ [(now, .read)]))

/-- With a clock that does not go backwards: every interval returned satisfies `P` with respect to all emissions made
while the clock was in that interval. -/
def ReportsIntervals (d r : Int) (h : List (Time × AggOp)) (now : Time) (P : IntAgg → List Emit → Prop) : Prop :=
  ∃ ms, getMetrics d r h now = some ms ∧ ∀ ia ∈ ms, P ia (emitsIn d ia.start h)

theorem forall₂_map_left {α β : Type} {R : β → α → Prop} (f : α → β) (l : List α) (h : ∀ x ∈ l, R (f x) x) :
    List.Forall₂ R (l.map f) l := by
  induction l with
  | nil => exact .nil
  | cons a t ih => exact .cons (h a (by simp)) (ih (fun x hx => h x (by simp [hx])))

theorem reportsSegments {d r : Int} (hd : 0 < d) (hr : d ≤ r) (h : List (Time × AggOp)) (now : Time)
    {P : IntAgg → List Emit → Prop} (hP : ∀ s es, P (aggOf s es) es) : ReportsSegments d r h now P :=
  ⟨_, getMetrics_eq hd hr h now, forall₂_map_left _ _ (fun _ _ => ⟨aggOf_start _ _, hP _ _⟩)⟩

theorem reportsIntervals {d r : Int} (hd : 0 < d) (hr : d ≤ r) (h : List (Time × AggOp)) (now : Time)
    (hm : MonotoneClock (h ++ [(now, .read)]))
    {P : IntAgg → List Emit → Prop} (hP : ∀ s es, P (aggOf s es) es) : ReportsIntervals d r h now P := by
  refine ⟨_, getMetrics_eq hd hr h now, ?_⟩
  intro ia hia
  obtain ⟨g, hg, rfl⟩ := List.mem_map.1 hia
  have := ((segInv hd _ hm).exact g (mem_lastN hg)).2
  rw [emitsIn_read] at this
  unfold aggOfSeg
  rw [aggOf_start, ← this]
  exact hP _ _

/-! ## A concrete history used to show that the hypotheses below are satisfiable and the claims not trivial -/
namespace Sample
def t (n : Int) : Time := ⟨n, 1⟩
def e1 : Err := ⟨bs "boom"⟩
/-- two jobs, three intervals of length 10, a tick and an earlier GetMetrics. -/
def hist : List (Time × AggOp) :=
  [(t 100, .emit (.event (bs "j") (bs "e"))), (t 103, .emit (.event (bs "k") (bs "e"))),
   (t 104, .emit (.timing (bs "j") (bs "tm") 7)), (t 105, .read),
   (t 112, .emit (.eventErr (bs "j") (bs "e") (some e1))), (t 113, .emit (.timing (bs "k") (bs "tm") 3)),
   (t 114, .emit (.timing (bs "k") (bs "tm") 5)), (t 115, .emit (.gauge (bs "k") (bs "g") (.fin 1))),
   (t 116, .emit (.gauge (bs "j") (bs "g") (.fin 2))), (t 117, .emit (.complete (bs "k") Status.success 9)),
   (t 121, .tick)]

example : MonotoneClock (hist ++ [(t 122, .read)]) := by unfold MonotoneClock; decide
example : (getMetrics 10 30 hist (t 122)).map (·.map (fun ia => (ia.start.ns, ia.serial))) =
    some [(100, 3), (110, 6), (120, 0)] := by decide +kernel
example : (getMetrics 10 20 hist (t 122)).map (·.map (fun ia => (ia.start.ns, ia.maps.events.get? (bs "e")))) =
    some [(110, none), (120, none)] := by decide +kernel
example : (getMetrics 10 30 hist (t 122)).map (·.map (fun ia => ia.maps.events.get? (bs "e"))) =
    some [some 2, none, none] := by decide +kernel
end Sample

/-! ## C08 -/

/-- C08, any clock. -/
theorem C08_event_counts (d r : Int) (hd : 0 < d) (hr : d ≤ r) (h : List (Time × AggOp)) (now : Time) :
    ReportsSegments d r h now (Everywhere EventsExact) :=
  reportsSegments hd hr h now (aggOf_everywhere mapsOf_eventsExact)

/-- C08 for clocks that do not go backwards: counts are exactly the emissions made in the interval. -/
theorem C08_event_counts_interval (d r : Int) (hd : 0 < d) (hr : d ≤ r) (h : List (Time × AggOp)) (now : Time)
    (hm : MonotoneClock (h ++ [(now, .read)])) : ReportsIntervals d r h now (Everywhere EventsExact) :=
  reportsIntervals hd hr h now hm (aggOf_everywhere mapsOf_eventsExact)

/-! ## C09 -/

/-- interval-wide value = sum (as int64) of the per-job values. -/
def TotalOf (g : AggMaps → Int) (ia : IntAgg) : Prop :=
  g ia.maps = i64 ((ia.jobs.map (fun p => g p.2.maps)).sum)

/-- the interval-wide event counts, error counts, timer counts and timer sums are the sums over the jobs, and every job
is listed once. -/
structure TotalsAreSums (ia : IntAgg) : Prop where
  jobsOnce : (ia.jobs.map (·.1)).Nodup
  events : ∀ ev, TotalOf (fun am => (am.events.get? ev).getD 0) ia
  errors : ∀ ev, TotalOf (fun am => ((am.eventErrs.get? ev).map (·.count)).getD 0) ia
  timerCounts : ∀ ev, TotalOf (fun am => ((am.timers.get? ev).map (·.count)).getD 0) ia
  timerSums : ∀ ev, TotalOf (fun am => ((am.timers.get? ev).map (·.nanosSum)).getD 0) ia

/-- C09: in everything GetMetrics returns. -/
theorem C09_totals (d r : Int) (hd : 0 < d) (hr : d ≤ r) (h : List (Time × AggOp)) (now : Time) :
    ∃ ms, getMetrics d r h now = some ms ∧ ∀ ia ∈ ms, TotalsAreSums ia := by
  refine ⟨_, getMetrics_eq hd hr h now, ?_⟩
  intro ia hia
  obtain ⟨g, hg, rfl⟩ := List.mem_map.1 hia
  exact ⟨(aggOf_wf _ _).jobs, fun ev => (additive_events ev).total (range_events ev) _ _,
    fun ev => (additive_errs ev).total (range_errs ev) _ _,
    fun ev => (additive_timerCount ev).total (range_timerCount ev) _ _,
    fun ev => (additive_timerSum ev).total (range_timerSum ev) _ _⟩

/-! ## C10 -/

/-- C10, any clock. -/
theorem C10_timers (d r : Int) (hd : 0 < d) (hr : d ≤ r) (h : List (Time × AggOp)) (now : Time) :
    ReportsSegments d r h now (Everywhere TimersExact) :=
  reportsSegments hd hr h now (aggOf_everywhere mapsOf_timersExact)

theorem C10_timers_interval (d r : Int) (hd : 0 < d) (hr : d ≤ r) (h : List (Time × AggOp)) (now : Time)
    (hm : MonotoneClock (h ++ [(now, .read)])) : ReportsIntervals d r h now (Everywhere TimersExact) :=
  reportsIntervals hd hr h now hm (aggOf_everywhere mapsOf_timersExact)

example : (getMetrics 10 30 Sample.hist (Sample.t 122)).map (·.map (fun ia => ia.maps.timers.get? (bs "tm"))) =
    some [some ⟨1, 7, .fin 49, 7, 7⟩, some ⟨2, 8, .fin 34, 3, 5⟩, none] := by decide +kernel

/-! ## C11 -/

/-- C11, any clock. -/
theorem C11_gauges (d r : Int) (hd : 0 < d) (hr : d ≤ r) (h : List (Time × AggOp)) (now : Time) :
    ReportsSegments d r h now (Everywhere GaugesExact) :=
  reportsSegments hd hr h now (aggOf_everywhere mapsOf_gaugesExact)

theorem C11_gauges_interval (d r : Int) (hd : 0 < d) (hr : d ≤ r) (h : List (Time × AggOp)) (now : Time)
    (hm : MonotoneClock (h ++ [(now, .read)])) : ReportsIntervals d r h now (Everywhere GaugesExact) :=
  reportsIntervals hd hr h now hm (aggOf_everywhere mapsOf_gaugesExact)

example : (getMetrics 10 30 Sample.hist (Sample.t 122)).map
    (·.map (fun ia => (ia.maps.gauges.get? (bs "g"), (ia.jobs.get? (bs "k")).bind (·.maps.gauges.get? (bs "g"))))) =
    some [(none, none), (some (.fin 2), some (.fin 1)), (none, none)] := by decide +kernel

/-! ## C12 -/

/-- every job's completion counters are exact, and the total is the sum of the five counters when only the five
statuses were used. -/
def JobsComplete (ia : IntAgg) (es : List Emit) : Prop :=
  ∀ job, match ia.jobs.get? job with
    | none => ofJob job es = []
    | some ja => ofJob job es ≠ [] ∧ CompletionsExact ja (ofJob job es) ∧
        ((∀ c ∈ completions (ofJob job es), 0 ≤ c.1 ∧ c.1 ≤ 4) →
          ja.timer.count =
            i64 (ja.countSuccess + ja.countValidationError + ja.countPanic + ja.countError + ja.countJunk))

theorem int_five (x : Int) (h : 0 ≤ x ∧ x ≤ 4) : x = 0 ∨ x = 1 ∨ x = 2 ∨ x = 3 ∨ x = 4 := by omega

theorem i64_sum5 (a b c d e : Int) : i64 (i64 a + i64 b + i64 c + i64 d + i64 e) = i64 (a + b + c + d + e) := by
  have s2 : i64 (i64 a + i64 b) = i64 (a + b) := by simp
  have s3 : i64 (i64 a + i64 b + i64 c) = i64 (a + b + c) := by rw [i64_add_i64_right, i64_congr s2]
  have s4 : i64 (i64 a + i64 b + i64 c + i64 d) = i64 (a + b + c + d) := by rw [i64_add_i64_right, i64_congr s3]
  rw [i64_add_i64_right, i64_congr s4]

theorem five_statuses (cs : List (Status × Int)) (h : ∀ c ∈ cs, 0 ≤ c.1 ∧ c.1 ≤ 4) :
    cs.length = cs.countP (fun c => c.1 = 0) + cs.countP (fun c => c.1 = 1) + cs.countP (fun c => c.1 = 2) +
      cs.countP (fun c => c.1 = 3) + cs.countP (fun c => c.1 = 4) := by
  induction cs with
  | nil => rfl
  | cons c t ih =>
    have h1 := ih (fun c hc => h c (by simp [hc]))
    have h2 := h c (by simp)
    simp only [List.length_cons, List.countP_cons, decide_eq_true_eq]
    rcases int_five _ h2 with h3 | h3 | h3 | h3 | h3 <;> simp [h3] <;> omega

theorem aggOf_jobsComplete (s : Time) (es : List Emit) : JobsComplete (aggOf s es) es := by
  intro job
  rw [aggOf_jobs]
  by_cases h : ofJob job es = []
  · simp [h]
  · simp only [h, if_false]
    have hc := jobAggOf_completions (ofJob job es)
    refine ⟨h, hc, ?_⟩
    intro h5
    have := five_statuses _ h5
    rw [hc.durations.count, hc.success, hc.validationError, hc.panic, hc.error, hc.junk, List.length_map, this]
    simp only [statusCount, Status.success, Status.validationError, Status.panic, Status.error, Status.junk]
    rw [i64_sum5]
    congr 1

/-- C12, any clock. -/
theorem C12_completions (d r : Int) (hd : 0 < d) (hr : d ≤ r) (h : List (Time × AggOp)) (now : Time) :
    ReportsSegments d r h now JobsComplete :=
  reportsSegments hd hr h now aggOf_jobsComplete

theorem C12_completions_interval (d r : Int) (hd : 0 < d) (hr : d ≤ r) (h : List (Time × AggOp)) (now : Time)
    (hm : MonotoneClock (h ++ [(now, .read)])) : ReportsIntervals d r h now JobsComplete :=
  reportsIntervals hd hr h now hm aggOf_jobsComplete

example : (getMetrics 10 30 Sample.hist (Sample.t 122)).map
    (·.map (fun ia => (ia.jobs.get? (bs "k")).map (fun j => (j.countSuccess, j.timer.count, j.timer.nanosMin)))) =
    some [some (0, 0, 0), some (1, 1, 9), none] := by decide +kernel

/-! ## C13 -/

/-- C13, any clock. -/
theorem C13_errors (d r : Int) (hd : 0 < d) (hr : d ≤ r) (h : List (Time × AggOp)) (now : Time) :
    ReportsSegments d r h now (Everywhere ErrsExact) :=
  reportsSegments hd hr h now (aggOf_everywhere mapsOf_errsExact)

theorem C13_errors_interval (d r : Int) (hd : 0 < d) (hr : d ≤ r) (h : List (Time × AggOp)) (now : Time)
    (hm : MonotoneClock (h ++ [(now, .read)])) : ReportsIntervals d r h now (Everywhere ErrsExact) :=
  reportsIntervals hd hr h now hm (aggOf_everywhere mapsOf_errsExact)

/-- the reference list of samples never has two equal neighbours. -/
theorem C13_no_adjacent_repeats (xs : List Err) : (lastN 5 (collapse xs)).IsChain (· ≠ ·) := by
  have : (collapse xs).IsChain (· ≠ ·) := by
    induction xs using snocInduction with
    | nil => exact .nil
    | snoc l a ih =>
      rw [collapse_snoc]
      split
      · exact ih
      · rename_i hl
        rw [List.isChain_append]
        refine ⟨ih, .singleton _, ?_⟩
        intro x hx y hy
        simp at hy; subst hy
        intro he; subst he; exact hl hx
  exact this.drop _

/-- six different errors: the first is forgotten, the samples are a rotation of the last five; a repeated error is
stored once but counted. -/
example :
    let c := errCounterOf ([1, 2, 2, 3, 4, 5, 6].map (fun n => some ⟨[n]⟩))
    c.count = 7 ∧ c.getErrorSamples = [⟨[6]⟩, ⟨[2]⟩, ⟨[3]⟩, ⟨[4]⟩, ⟨[5]⟩] ∧
    lastN 5 (collapse ([1, 2, 2, 3, 4, 5, 6].map (fun n => (⟨[n]⟩ : Err)))) =
      [⟨[2]⟩, ⟨[3]⟩, ⟨[4]⟩, ⟨[5]⟩, ⟨[6]⟩] := by decide

/-! ## C14 -/

/-- C14, any clock: the window is exactly the last `r / d` segments, and the current interval is the last one. -/
theorem C14_window (d r : Int) (hd : 0 < d) (hr : d ≤ r) (h : List (Time × AggOp)) (now : Time) :
    ∃ ms, getMetrics d r h now = some ms ∧ (ms.length : Int) ≤ r / d ∧
      ms.map (·.start) = lastN (r / d).toNat ((segments d (h ++ [(now, .read)])).map (·.1)) ∧
      (ms.getLast?.map (·.start)) = some (intervalStart d now) := by
  refine ⟨_, getMetrics_eq hd hr h now, ?_, ?_, ?_⟩
  · have := (newAggregator_ok hd hr).2
    simp only [retained, List.length_map, lastN_length]
    omega
  · rw [lastN_map, List.map_map]
    apply List.map_congr_left
    intro g _
    exact aggOf_start _ _
  · rw [List.getLast?_map, retained, lastN_getLast? (newAggregator_ok hd hr).2, segments_snoc]
    obtain ⟨es, he⟩ := addToSegments_tick_last d (segments d h) now .read
    rw [he]
    simp [aggOfSeg, aggOf_start]

/-- C14 for clocks that do not go backwards: start times are strictly increasing multiples of the interval, and they are
the most recent intervals in which anything happened: whatever operation was made, its interval is either in the
window or older than a full window. -/
theorem C14_window_interval (d r : Int) (hd : 0 < d) (hr : d ≤ r) (h : List (Time × AggOp)) (now : Time)
    (hm : MonotoneClock (h ++ [(now, .read)])) :
    ∃ ms, getMetrics d r h now = some ms ∧
      ms.Pairwise (fun a b => a.start.ns < b.start.ns) ∧
      (∀ ia ∈ ms, d ∣ ia.start.ns ∧ ∃ p ∈ h ++ [(now, .read)], ia.start.ns ≤ p.1.ns ∧ p.1.ns < ia.start.ns + d) ∧
      (∀ p ∈ h ++ [(now, .read)], intervalStart d p.1 ∈ ms.map (·.start) ∨
        ((ms.length : Int) = r / d ∧ ∀ ia ∈ ms, (intervalStart d p.1).ns < ia.start.ns)) := by
  have hinv := segInv hd _ hm
  refine ⟨_, getMetrics_eq hd hr h now, ?_, ?_, ?_⟩
  · rw [List.pairwise_map]
    simp only [aggOfSeg, aggOf_start]
    exact hinv.sorted.drop
  · intro ia hia
    obtain ⟨g, hg, rfl⟩ := List.mem_map.1 hia
    obtain ⟨⟨p, hp, he⟩, _⟩ := hinv.exact g (mem_lastN hg)
    simp only [aggOfSeg, aggOf_start, ← he]
    refine ⟨⟨_, rfl⟩, p, hp, ?_, ?_⟩
    · exact Int.mul_ediv_self_le (by omega)
    · have := Int.lt_mul_ediv_self_add (x := p.1.ns) hd
      exact this
  · intro p hp
    obtain ⟨g, hg, he⟩ := hinv.cover p hp
    have hsort := hinv.sorted
    have hlen := (newAggregator_ok hd hr).2
    have hsplit : segments d (h ++ [(now, .read)]) =
        (segments d (h ++ [(now, .read)])).take ((segments d (h ++ [(now, .read)])).length - (r / d).toNat) ++
        retained d r (h ++ [(now, .read)]) := by
      unfold retained lastN
      rw [List.take_append_drop]
    rw [hsplit] at hg
    rcases List.mem_append.1 hg with hg | hg
    · right
      constructor
      · have : 0 < (segments d (h ++ [(now, .read)])).length - (r / d).toNat := by
          rcases Nat.eq_zero_or_pos ((segments d (h ++ [(now, .read)])).length - (r / d).toNat) with h0 | h0
          · rw [h0] at hg; simp at hg
          · exact h0
        simp only [List.length_map, retained, lastN_length]
        omega
      · intro ia hia
        obtain ⟨g', hg', rfl⟩ := List.mem_map.1 hia
        rw [hsplit, List.pairwise_append] at hsort
        simp only [aggOfSeg, aggOf_start, ← he]
        exact hsort.2.2 g hg g' hg'
    · left
      rw [List.map_map]
      refine List.mem_map.2 ⟨g, hg, ?_⟩
      simp only [Function.comp, aggOfSeg, aggOf_start]
      exact he

/-! ## C16 -/

/-- C16: the serial number is the number of emissions of the interval (as an int64). -/
theorem C16_serial_counts (d r : Int) (hd : 0 < d) (hr : d ≤ r) (h : List (Time × AggOp)) (now : Time) :
    ReportsSegments d r h now (fun ia es => ia.serial = i64 es.length) :=
  reportsSegments hd hr h now aggOf_serial

/-- reading the metrics is nothing new for the segment that an emission at the same time belongs to. -/
theorem segments_emit (d : Int) (h : List (Time × AggOp)) (now : Time) (e : Emit) :
    ∃ front es, segments d (h ++ [(now, .read)]) = front ++ [(intervalStart d now, es)] ∧
      segments d (h ++ [(now, .emit e)] ++ [(now, .read)]) = front ++ [(intervalStart d now, es ++ [e])] := by
  rw [segments_snoc, segments_snoc, segments_snoc]
  generalize segments d h = S
  unfold addToSegments
  cases hl : S.getLast? with
  | none => exact ⟨S, [], by simp_all [emitsOf]⟩
  | some g =>
    obtain ⟨s, es⟩ := g
    by_cases hs : s = intervalStart d now
    · subst hs
      exact ⟨S.dropLast, es, by simp [emitsOf]⟩
    · exact ⟨S, [], by simp [hs, emitsOf]⟩

/-- C16: an emission increments the serial number of the current interval by exactly one and leaves all others as they were: `older` is what
a `GetMetrics` at the moment of the emission shows besides the current interval, just before it and just after it. -/
theorem C16_emission (d r : Int) (hd : 0 < d) (hr : d ≤ r) (h : List (Time × AggOp)) (now : Time) (e : Emit) :
    ∃ older cur cur', getMetrics d r h now = some (older ++ [cur]) ∧
      getMetrics d r (h ++ [(now, .emit e)]) now = some (older ++ [cur']) ∧
      cur.start = intervalStart d now ∧ cur'.start = intervalStart d now ∧ cur'.serial = i64 (cur.serial + 1) := by
  obtain ⟨front, es, h1, h2⟩ := segments_emit d h now e
  have hn : 0 < (r / d).toNat := by
    have : 1 ≤ r / d := by rw [Int.le_ediv_iff_mul_le hd]; omega
    omega
  have hlast : ∀ g : Time × List Emit, lastN (r / d).toNat (front ++ [g]) = lastN ((r / d).toNat - 1) front ++ [g] := by
    intro g
    unfold lastN
    rw [List.length_append, List.length_singleton, List.drop_append]
    have : front.length + 1 - (r / d).toNat = front.length - ((r / d).toNat - 1) := by omega
    rw [this]
    congr 1
    have : front.length - ((r / d).toNat - 1) - front.length = 0 := by omega
    rw [this]; rfl
  refine ⟨(lastN ((r / d).toNat - 1) front).map aggOfSeg, aggOf (intervalStart d now) es, aggOf (intervalStart d now) (es ++ [e]), ?_, ?_, ?_, ?_, ?_⟩
  · rw [getMetrics_eq hd hr, retained, h1, hlast]; simp [aggOfSeg]
  · rw [getMetrics_eq hd hr, retained, h2, hlast]; simp [aggOfSeg]
  · exact aggOf_start _ _
  · exact aggOf_start _ _
  · rw [aggOf_serial, aggOf_serial]; simp

example : (getMetrics 10 30 Sample.hist (Sample.t 122)).map (·.map (·.serial)) = some [3, 6, 0] ∧
    (getMetrics 10 30 (Sample.hist ++ [(Sample.t 122, .emit (.event (bs "j") (bs "e")))]) (Sample.t 122)).map (·.map (·.serial)) =
      some [3, 6, 1] := by decide +kernel

theorem emitsIn_append (d : Int) (s : Time) (h h' : List (Time × AggOp)) :
    emitsIn d s (h ++ h') = emitsIn d s h ++ emitsIn d s h' := by
  simp [emitsIn]

theorem emitsIn_length_le (d : Int) (s : Time) (h : List (Time × AggOp)) : (emitsIn d s h).length ≤ h.length := by
  induction h with
  | nil => simp [emitsIn]
  | cons p t ih =>
    have : emitsIn d s (p :: t) = emitsIn d s [p] ++ emitsIn d s t := emitsIn_append d s [p] t
    rw [this, List.length_append, List.length_cons]
    have h1 : (emitsIn d s [p]).length ≤ 1 := by
      unfold emitsIn
      by_cases hp : intervalStart d p.1 = s
      · simp only [hp, decide_true, List.filter_cons_of_pos, List.filter_nil, List.flatMap_cons, List.flatMap_nil,
          List.append_nil]
        cases p.2 <;> simp [emitsOf]
      · simp [hp]
    omega

/-- C16: two reports of one interval by one process with equal serial numbers are identical (clock not going backwards,
fewer than 2^63 operations). -/
theorem C16_serial_identifies (d r : Int) (hd : 0 < d) (hr : d ≤ r) (h h' : List (Time × AggOp)) (now now' : Time)
    (hm : MonotoneClock (h ++ (now, .read) :: h' ++ [(now', .read)]))
    (hlen : (h ++ (now, .read) :: h').length < 2^63)
    (ms ms' : List IntAgg) (h1 : getMetrics d r h now = some ms)
    (h2 : getMetrics d r (h ++ (now, .read) :: h') now' = some ms')
    (ia ia' : IntAgg) (hia : ia ∈ ms) (hia' : ia' ∈ ms') (hstart : ia.start = ia'.start)
    (hserial : ia.serial = ia'.serial) : ia = ia' := by
  rw [getMetrics_eq hd hr] at h1 h2
  cases h1; cases h2
  obtain ⟨g, hg, rfl⟩ := List.mem_map.1 hia
  obtain ⟨g', hg', rfl⟩ := List.mem_map.1 hia'
  simp only [aggOfSeg, aggOf_start, aggOf_serial] at *
  have hm1 : MonotoneClock (h ++ [(now, .read)]) := by
    have : h ++ (now, .read) :: h' ++ [(now', .read)] = (h ++ [(now, .read)]) ++ (h' ++ [(now', .read)]) := by simp
    rw [this] at hm
    exact hm.prefix
  have e1 := ((segInv hd _ hm1).exact g (mem_lastN hg)).2
  have e2 := ((segInv hd _ hm).exact g' (mem_lastN hg')).2
  rw [emitsIn_read] at e1 e2
  rw [← hstart, emitsIn_append] at e2
  have hl1 := emitsIn_length_le d g.1 h
  have hl2 := emitsIn_length_le d g.1 ((now, .read) :: h')
  rw [← e1] at e2 hl1
  rw [List.length_append] at hlen
  rw [e2, i64_nat (by omega), i64_nat (by rw [List.length_append]; omega)] at hserial
  have : emitsIn d g.1 ((now, .read) :: h') = [] := by
    rw [← List.length_eq_zero_iff]
    rw [List.length_append] at hserial
    omega
  rw [e2, this, List.append_nil, hstart]

/-- Without a monotone clock the claim is false: when the clock steps back into an earlier interval, two different
reports of that interval carry the same serial number. -/
theorem C16_backwards_clock_witness :
    ∃ (h h' : List (Time × AggOp)) (now now' : Time) (ms ms' : List IntAgg) (ia ia' : IntAgg),
      getMetrics 10 30 h now = some ms ∧ getMetrics 10 30 (h ++ (now, .read) :: h') now' = some ms' ∧
      ia ∈ ms ∧ ia' ∈ ms' ∧ ia.start = ia'.start ∧ ia.serial = ia'.serial ∧ ia ≠ ia' := by
  refine ⟨[(⟨5, 0⟩, .emit (.event [] [1]))], [(⟨15, 0⟩, .tick), (⟨6, 0⟩, .emit (.event [] [2]))], ⟨5, 0⟩, ⟨7, 0⟩,
    _, _, aggOf ⟨0, 0⟩ [.event [] [1]], aggOf ⟨0, 0⟩ [.event [] [2]],
    getMetrics_eq (by decide) (by decide) _ _, getMetrics_eq (by decide) (by decide) _ _, ?_⟩
  decide +kernel

example : MonotoneClock (Sample.hist ++ (Sample.t 122, .read) :: [(Sample.t 123, .emit (.event [] []))] ++
    [(Sample.t 124, .read)]) := by unfold MonotoneClock; decide

/-! ## C19 -/

theorem create_some {a : Aggregator} (h : 1 ≤ a.maxIntervals) (s : Time) :
    ∃ a', a.create s = some a' ∧ a'.maxIntervals = a.maxIntervals := by
  unfold Aggregator.create
  simp only
  split
  · split
    · omega
    · exact ⟨_, rfl, rfl⟩
  · exact ⟨_, rfl, rfl⟩

theorem slide_some {a : Aggregator} (h : 1 ≤ a.maxIntervals) (t : Time) :
    ∃ a', a.slide t = some a' ∧ a'.maxIntervals = a.maxIntervals := by
  unfold Aggregator.slide
  simp only
  split
  · split
    · exact ⟨a, rfl, rfl⟩
    · exact create_some h _
  · exact create_some h _

theorem step_some {a : Aggregator} (h : 1 ≤ a.maxIntervals) (t : Time) (op : AggOp) :
    ∃ a', a.step t op = some a' ∧ a'.maxIntervals = a.maxIntervals := by
  obtain ⟨a', h1, h2⟩ := slide_some h t
  cases op with
  | emit e => exact ⟨{ a' with intervals := modifyLast (·.apply e) a'.intervals }, by simp [Aggregator.step, Aggregator.emit, h1], h2⟩
  | tick => exact ⟨a', h1, h2⟩
  | read => exact ⟨a', by simp [Aggregator.step, Aggregator.memorySafeIntervals, h1], h2⟩

theorem run_some {a : Aggregator} (h : 1 ≤ a.maxIntervals) (hs : List (Time × AggOp)) :
    ∃ a', a.run hs = some a' := by
  induction hs generalizing a with
  | nil => exact ⟨a, rfl⟩
  | cons p t ih =>
    obtain ⟨a', h1, h2⟩ := step_some h p.1 p.2
    obtain ⟨a'', h3⟩ := ih (a := a') (by omega)
    exact ⟨a'', by simp [Aggregator.run, h1, h3]⟩

/-- the sink's goroutine survives every history. -/
def NeverPanics (d r : Int) : Prop := ∀ h now, (getMetrics d r h now).isSome

/-- C19: exactly which configurations work: interval ≠ 0 and retain / interval (truncated) at least 1. -/
theorem C19_configurations (d r : Int) : NeverPanics d r ↔ d ≠ 0 ∧ 1 ≤ Int.tdiv r d := by
  constructor
  · intro h
    have h0 := h [] ⟨0, 0⟩
    unfold getMetrics newAggregator at h0
    by_cases hd : d = 0
    · simp [hd] at h0
    · refine ⟨hd, ?_⟩
      simp only [hd, if_false] at h0
      by_cases hneg : Int.tdiv r d < 0
      · simp [hneg] at h0
      · rcases Int.lt_or_le 0 (Int.tdiv r d) with h1 | h1
        · omega
        · have hz : Int.tdiv r d = 0 := by omega
          simp [hz, Aggregator.run, Aggregator.memorySafeIntervals, Aggregator.slide, Aggregator.create] at h0
  · rintro ⟨hd, hr⟩ h now
    unfold getMetrics newAggregator
    simp only [hd, if_false]
    rw [if_neg (by omega)]
    obtain ⟨a, ha⟩ := run_some (a := ⟨d, r, Int.tdiv r d, []⟩) hr h
    have hmax : a.maxIntervals = Int.tdiv r d := by
      clear hd
      have : ∀ (hs : List (Time × AggOp)) (b c : Aggregator), 1 ≤ b.maxIntervals → b.run hs = some c →
          c.maxIntervals = b.maxIntervals := by
        intro hs
        induction hs with
        | nil => intro b c _ hb; simp only [Aggregator.run, Option.some.injEq] at hb; rw [hb]
        | cons p t ih =>
          intro b c hb hrun
          obtain ⟨b', h1, h2⟩ := step_some hb p.1 p.2
          simp only [Aggregator.run, h1, Option.bind_some] at hrun
          rw [ih b' c (by omega) hrun, h2]
      exact this h _ a hr ha
    obtain ⟨a', h1, _⟩ := slide_some (a := a) (by omega) now
    simp [ha, Aggregator.memorySafeIntervals, h1]

/-- C19, first half: every 0 < interval ≤ retain works. -/
theorem C19_works (d r : Int) (hd : 0 < d) (hr : d ≤ r) : NeverPanics d r := by
  intro h now; rw [getMetrics_eq hd hr]; rfl

/-- C19, second half: interval 0 panics immediately; 0 ≤ retain < interval panics at the first emission or tick. -/
theorem C19_panics (r d : Int) :
    newAggregator 0 r = none ∧
    (0 ≤ r → r < d → ∃ a, newAggregator d r = some a ∧ ∀ t op, a.step t op = none) := by
  refine ⟨by simp [newAggregator], ?_⟩
  intro h0 hlt
  have hz : Int.tdiv r d = 0 := Int.tdiv_eq_zero_of_lt h0 hlt
  refine ⟨⟨d, r, 0, []⟩, ?_, ?_⟩
  · unfold newAggregator
    rw [if_neg (by omega)]
    simp [hz]
  · intro t op
    have : (⟨d, r, 0, []⟩ : Aggregator).slide t = none := by
      simp [Aggregator.slide, Aggregator.create]
    cases op <;> simp [Aggregator.step, Aggregator.emit, Aggregator.memorySafeIntervals, this]

example : NeverPanics 60 600 ∧ ¬ NeverPanics 60 59 := by
  constructor
  · exact C19_works _ _ (by decide) (by decide)
  · rw [C19_configurations]; decide
