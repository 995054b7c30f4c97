import Verif.Props.Aggregator
import Verif.Props.Librato
import Mathlib.Data.Finset.Card
/-!
# Property C117: what the polling sink and the Librato sink keep in memory
-/
namespace Spec

/-- the names under which something of each kind was emitted. -/
def eventNames (es : List Emit) : List Str := es.filterMap fun | .event _ e => some e | _ => none
def errorNames (es : List Emit) : List Str := es.filterMap fun | .eventErr _ e _ => some e | _ => none
def timingNames (es : List Emit) : List Str := es.filterMap fun | .timing _ e _ => some e | _ => none
def gaugeNames (es : List Emit) : List Str := es.filterMap fun | .gauge _ e _ => some e | _ => none

/-- how many different names there are in a list. -/
def different (l : List Str) : Nat := l.toFinset.card

/-- the number of different series of some emissions: names of events, of errors, of timers, of gauges. -/
def seriesCount (es : List Emit) : Nat :=
  different (eventNames es) + different (errorNames es) + different (timingNames es) + different (gaugeNames es)

/-- the number of objects needed for the emissions of an interval: one for each series; and for each job one, and one for each of its series. -/
def objects (es : List Emit) : Nat := seriesCount es + ∑ job ∈ (es.map jobOf).toFinset, (1 + seriesCount (ofJob job es))

end Spec

namespace SinkMem
open Spec

/-- the entries of four maps. -/
def entries (am : AggMaps) : Nat := am.events.length + am.eventErrs.length + am.timers.length + am.gauges.length
/-- the entries of all maps of an interval. -/
def allEntries (ia : IntAgg) : Nat := entries ia.maps + (ia.jobs.map (fun p => 1 + entries p.2.maps)).sum

/-- a map has as many entries as there are different names, if it has these keys. -/
theorem length_of_keys {V : Type} {m : GoMap Str V} (hw : m.Wf) {l : List Str} (h : ∀ k, m.get? k = none ↔ k ∉ l) : m.length = different l := by
  have e : l.toFinset = m.keys.toFinset := by
    ext k
    rw [List.mem_toFinset, List.mem_toFinset]
    have h1 := h k
    have h2 : m.get? k = none ↔ k ∉ m.keys := by
      constructor
      · intro hn hk
        simp only [GoMap.keys, List.mem_map] at hk
        obtain ⟨p, hp, rfl⟩ := hk
        rw [GoMap.get?_of_mem hw (k := p.1) (v := p.2) hp] at hn
        cases hn
      · intro hn
        cases hg : m.get? k with
        | none => rfl
        | some v =>
          have := (GoMap.get?_iff_mem hw).1 hg
          exact absurd (List.mem_map_of_mem (f := Prod.fst) this) hn
    tauto
  unfold different
  rw [e, List.toFinset_card_of_nodup hw]
  simp [GoMap.keys]

theorem filterMap_nil_iff {β : Type} (es : List Emit) (f : Emit → Option β) (g : Emit → Option Str) (ev : Str) (h : ∀ e, (f e).isSome = true ↔ g e = some ev) :
    es.filterMap f = [] ↔ ev ∉ es.filterMap g := by
  rw [List.filterMap_eq_nil_iff, List.mem_filterMap]
  constructor
  · rintro a ⟨e, he, h1⟩
    have := (h e).2 h1
    rw [a e he] at this
    cases this
  · intro a e he
    cases hf : f e with
    | none => rfl
    | some b => exact absurd ⟨e, he, (h e).1 (by rw [hf]; rfl)⟩ a

theorem entries_mapsOf (es : List Emit) : entries (mapsOf es) = seriesCount es := by
  have hw := mapsOf_wf es
  unfold entries seriesCount
  congr 1
  · congr 1
    · congr 1
      · refine length_of_keys hw.events (fun k => ?_)
        rw [mapsOf_events]
        have : eventCount k es = 0 ↔ k ∉ eventNames es := by
          unfold eventCount eventNames
          rw [List.countP_eq_zero, List.mem_filterMap]
          constructor
          · rintro a ⟨e, he, h1⟩
            have := a e he
            cases e <;> simp_all
          · intro a e he h1
            refine a ⟨e, he, ?_⟩
            cases e <;> simp_all
        rw [← this]
        unfold counter
        split <;> simp_all
      · refine length_of_keys hw.eventErrs (fun k => ?_)
        rw [mapsOf_errs]
        have : errs k es = [] ↔ k ∉ errorNames es := filterMap_nil_iff es _ _ k (fun e => by cases e <;> simp)
        rw [← this]
        split <;> simp_all
    · refine length_of_keys hw.timers (fun k => ?_)
      rw [mapsOf_timers]
      have : timings k es = [] ↔ k ∉ timingNames es := filterMap_nil_iff es _ _ k (fun e => by cases e <;> simp)
      rw [← this]
      split <;> simp_all
  · refine length_of_keys hw.gauges (fun k => ?_)
    rw [mapsOf_gauges]
    have : gaugeValues k es = [] ↔ k ∉ gaugeNames es := filterMap_nil_iff es _ _ k (fun e => by cases e <;> simp)
    rw [← this, List.getLast?_eq_none_iff]

theorem ofJob_nil_iff (job : Str) (es : List Emit) : ofJob job es = [] ↔ job ∉ es.map jobOf := by
  unfold ofJob
  rw [List.filter_eq_nil_iff]
  simp [List.mem_map]

theorem allEntries_aggOf (s : Time) (es : List Emit) : allEntries (aggOf s es) = objects es := by
  have hw : GoMap.Wf (aggOf s es).jobs := (aggOf_wf s es).jobs
  have hget := aggOf_jobs s es
  unfold allEntries objects
  rw [aggOf_maps, entries_mapsOf]
  congr 1
  generalize (aggOf s es).jobs = m at *
  have hk : (es.map jobOf).toFinset = m.keys.toFinset := by
    ext k
    rw [List.mem_toFinset, List.mem_toFinset]
    constructor
    · intro h
      have hne : ofJob k es ≠ [] := fun e => (ofJob_nil_iff k es).1 e h
      have := hget k
      rw [if_neg hne] at this
      exact List.mem_map_of_mem (f := Prod.fst) ((GoMap.get?_iff_mem hw).1 this)
    · intro h
      simp only [GoMap.keys, List.mem_map] at h
      obtain ⟨p, hp, rfl⟩ := h
      have := hget p.1
      rw [GoMap.get?_of_mem hw (k := p.1) (v := p.2) hp] at this
      by_contra hn
      rw [if_pos ((ofJob_nil_iff p.1 es).2 hn)] at this
      cases this
  have hnd : m.keys.Nodup := hw
  rw [hk, List.sum_toFinset _ hnd]
  unfold GoMap.keys
  rw [List.map_map]
  congr 1
  apply List.map_congr_left
  intro p hp
  have := hget p.1
  rw [GoMap.get?_of_mem hw (k := p.1) (v := p.2) hp] at this
  split at this
  · cases this
  · have e := Option.some.inj this
    show 1 + entries p.2.maps = _
    rw [e, jobAggOf_maps, entries_mapsOf]
    rfl

/-- every ring of error samples has five places. -/
def RingsOfFive (am : AggMaps) : Prop := ∀ p ∈ am.eventErrs, p.2.samples.length = 5

theorem rings_mapsOf (es : List Emit) : RingsOfFive (mapsOf es) := by
  intro p hp
  have h := GoMap.get?_of_mem (mapsOf_wf es).eventErrs (k := p.1) (v := p.2) hp
  rw [mapsOf_errs] at h
  split at h
  · cases h
  · rw [← Option.some.inj h]
    exact errCounterOf_length _

theorem rings_aggOf (s : Time) (es : List Emit) : RingsOfFive (aggOf s es).maps ∧ ∀ q ∈ (aggOf s es).jobs, RingsOfFive q.2.maps := by
  refine ⟨by rw [aggOf_maps]; exact rings_mapsOf es, fun q hq => ?_⟩
  have h := GoMap.get?_of_mem (aggOf_wf s es).jobs (k := q.1) (v := q.2) hq
  rw [aggOf_jobs] at h
  split at h
  · cases h
  · rw [← Option.some.inj h, jobAggOf_maps]
    exact rings_mapsOf _

/-- **C117**: however much was emitted, the polling sink keeps at most retention / interval intervals; for each of them one object per different series of the
emissions in it (event, error, timer or gauge name), one per job and one per different series of each job; and five places for samples per error name. -/
theorem C117_polling (d r : Int) (hd : 0 < d) (hr : d ≤ r) (h : List (Time × AggOp)) :
    ∃ a0 a, newAggregator d r = some a0 ∧ a0.run h = some a ∧ (a.intervals.length : Int) ≤ r / d ∧
      List.Forall₂ (fun ia g => ia.start = g.1 ∧ allEntries ia = objects g.2 ∧ RingsOfFive ia.maps ∧ ∀ q ∈ ia.jobs, RingsOfFive q.2.maps)
        a.intervals (retained d r h) := by
  obtain ⟨a0, a, h1, h2, h3, _⟩ := run_refines hd hr h
  refine ⟨a0, a, h1, h2, ?_, ?_⟩
  · have := (newAggregator_ok hd hr).2
    rw [h3]
    simp only [retained, List.length_map, lastN_length]
    omega
  · rw [h3]
    exact forall₂_map_left _ _ (fun x _ => ⟨aggOf_start _ _, allEntries_aggOf _ _, rings_aggOf _ _⟩)

theorem different_le {l : List Str} {N : Finset Str} (h : ∀ x ∈ l, x ∈ N) : different l ≤ N.card :=
  Finset.card_le_card (fun x hx => h x (List.mem_toFinset.1 hx))

end SinkMem

namespace Spec

/-- the event name of an emission, if it has one. -/
def nameOf : Emit → Option Str
  | .event _ e | .eventErr _ e _ | .timing _ e _ | .gauge _ e _ => some e
  | .complete _ _ _ => none

end Spec

namespace SinkMem
open Spec

theorem seriesCount_le {es : List Emit} {N : Finset Str} (h : ∀ e ∈ es, ∀ n, nameOf e = some n → n ∈ N) : seriesCount es ≤ 4 * N.card := by
  have a : different (eventNames es) ≤ N.card := different_le (fun x hx => by
    obtain ⟨e, he, h1⟩ := List.mem_filterMap.1 hx
    cases e <;> simp at h1
    exact h _ he _ (by simp [nameOf, h1]))
  have b : different (errorNames es) ≤ N.card := different_le (fun x hx => by
    obtain ⟨e, he, h1⟩ := List.mem_filterMap.1 hx
    cases e <;> simp at h1
    exact h _ he _ (by simp [nameOf, h1]))
  have c : different (timingNames es) ≤ N.card := different_le (fun x hx => by
    obtain ⟨e, he, h1⟩ := List.mem_filterMap.1 hx
    cases e <;> simp at h1
    exact h _ he _ (by simp [nameOf, h1]))
  have d : different (gaugeNames es) ≤ N.card := different_le (fun x hx => by
    obtain ⟨e, he, h1⟩ := List.mem_filterMap.1 hx
    cases e <;> simp at h1
    exact h _ he _ (by simp [nameOf, h1]))
  unfold seriesCount
  omega

theorem objects_le {es : List Emit} {N J : Finset Str} (h : ∀ e ∈ es, jobOf e ∈ J ∧ ∀ n, nameOf e = some n → n ∈ N) :
    objects es ≤ 4 * N.card + J.card * (1 + 4 * N.card) := by
  unfold objects
  refine Nat.add_le_add (seriesCount_le (fun e he => (h e he).2)) ?_
  have h1 : (es.map jobOf).toFinset.card ≤ J.card := Finset.card_le_card (fun x hx => by
    rw [List.mem_toFinset, List.mem_map] at hx
    obtain ⟨e, he, rfl⟩ := hx
    exact (h e he).1)
  refine le_trans (Finset.sum_le_card_nsmul _ _ (1 + 4 * N.card) (fun job _ => ?_)) ?_
  · have := seriesCount_le (es := ofJob job es) (N := N) (fun e he => (h e (List.mem_of_mem_filter he)).2)
    omega
  · rw [smul_eq_mul]
    exact Nat.mul_le_mul_right _ h1

theorem mem_segments {d : Int} (h : List (Time × AggOp)) : ∀ g ∈ segments d h, ∀ e ∈ g.2, ∃ t, (t, AggOp.emit e) ∈ h := by
  induction h using List.reverseRecOn with
  | nil => intro g hg; cases hg
  | append_singleton l x ih =>
    rw [segments_snoc]
    have hx : ∀ e ∈ emitsOf x.2, (x.1, AggOp.emit e) ∈ l ++ [x] := by
      intro e he
      obtain ⟨t, op⟩ := x
      cases op <;> simp [emitsOf] at he
      simp [he]
    have hl : ∀ g ∈ segments d l, ∀ e ∈ g.2, ∃ t, (t, AggOp.emit e) ∈ l ++ [x] := by
      intro g hg e he
      obtain ⟨t, ht⟩ := ih g hg e he
      exact ⟨t, List.mem_append_left _ ht⟩
    intro g hg e he
    unfold addToSegments at hg
    split at hg
    · rename_i s es hlast
      split at hg
      · rcases List.mem_append.1 hg with hg | hg
        · exact hl g (List.mem_of_mem_dropLast hg) e he
        · rw [List.mem_singleton.1 hg] at he
          rcases List.mem_append.1 he with he | he
          · exact hl _ (List.mem_of_getLast? hlast) e he
          · exact ⟨_, hx e he⟩
      · rcases List.mem_append.1 hg with hg | hg
        · exact hl g hg e he
        · rw [List.mem_singleton.1 hg] at he
          exact ⟨_, hx e he⟩
    · rw [List.mem_singleton.1 hg] at he
      exact ⟨_, hx e he⟩

/-- **C117**: so a program that uses the names of events in `N` and of jobs in `J`, however long it runs and however much it emits, makes the polling sink keep at
most so many objects. -/
theorem C117_bound (d r : Int) (hd : 0 < d) (hr : d ≤ r) (h : List (Time × AggOp)) (N J : Finset Str)
    (hn : ∀ t e, (t, AggOp.emit e) ∈ h → jobOf e ∈ J ∧ ∀ n, nameOf e = some n → n ∈ N) :
    ∃ a0 a, newAggregator d r = some a0 ∧ a0.run h = some a ∧
      (a.intervals.map allEntries).sum ≤ (r / d).toNat * (4 * N.card + J.card * (1 + 4 * N.card)) := by
  obtain ⟨a0, a, h1, h2, h3, _⟩ := run_refines hd hr h
  refine ⟨a0, a, h1, h2, ?_⟩
  rw [h3, List.map_map]
  refine le_trans (List.sum_le_card_nsmul _ (4 * N.card + J.card * (1 + 4 * N.card)) ?_) ?_
  · intro x hx
    obtain ⟨g, hg, rfl⟩ := List.mem_map.1 hx
    show allEntries (aggOf g.1 g.2) ≤ _
    rw [allEntries_aggOf]
    refine objects_le (fun e he => ?_)
    obtain ⟨t, ht⟩ := mem_segments h g (mem_lastN hg) e he
    exact hn t e ht
  · rw [smul_eq_mul]
    refine Nat.mul_le_mul_right _ ?_
    simp only [retained, List.length_map, lastN_length]
    omega

/-- a case: nine emissions in two intervals, of two jobs; 7 and 9 objects. -/
example : (((newAggregator 10 30).bind (·.run Sample.hist)).map (fun a => a.intervals.map allEntries)) = some [7, 9, 0] ∧
    (retained 10 30 Sample.hist).map (fun g => objects g.2) = [7, 9, 0] := by decide +kernel

end SinkMem

namespace Librato
open Spec.Lib

/-- the state of the worker is that of the emissions since the last flush. -/
theorem run_holds (o : Opts) (ops : List Op) : ∀ (es : List Emission) (s : State) (sent : List Sent), Holds o es s →
    Holds o (pending es ops) (ops.foldl (step o) (s, sent)).1 := by
  induction ops with
  | nil => intro es s sent h; exact h
  | cons op t ih =>
    intro es s sent h
    cases op with
    | emit job p => exact ih _ _ _ (h.process job p)
    | flush now => exact ih _ _ _ (holds_init o)

/-- **C117**: the Librato sink keeps one entry for each different name of a counter and of a measurement since the last flush, so at most two for each emission
since then; and none after a flush, whether the post succeeded or not. -/
theorem C117_librato (o : Opts) (ops : List Op) :
    (run o ops).1.counters.length = Spec.different ((pending [] ops).flatMap (countsIn o)) ∧
    (run o ops).1.timers.length = Spec.different (((pending [] ops).flatMap (measures o)).map (·.1)) ∧
    (run o ops).1.counters.length + (run o ops).1.timers.length ≤ 2 * (pending [] ops).length ∧
    ∀ now, (run o (ops ++ [.flush now])).1.counters = [] ∧ (run o (ops ++ [.flush now])).1.timers = [] := by
  obtain ⟨⟨c1, c2⟩, ⟨t1, t2⟩⟩ := run_holds o ops [] init [] (holds_init o)
  have hc : (run o ops).1.counters.length = Spec.different ((pending [] ops).flatMap (countsIn o)) := by
    refine SinkMem.length_of_keys c1 (fun k => ?_)
    rw [c2 k, ← List.count_eq_zero]
    split <;> simp_all
  have ht : (run o ops).1.timers.length = Spec.different (((pending [] ops).flatMap (measures o)).map (·.1)) := by
    refine SinkMem.length_of_keys t1 (fun k => ?_)
    rw [t2 k]
    have e : at' ((pending [] ops).flatMap (measures o)) k = [] ↔ k ∉ ((pending [] ops).flatMap (measures o)).map (·.1) := by
      unfold at'
      rw [List.map_eq_nil_iff, List.filter_eq_nil_iff, List.mem_map]
      constructor
      · rintro a ⟨p, hp, rfl⟩
        exact a p hp (by simp)
      · intro a p hp hk
        exact a ⟨p, hp, by simpa using hk⟩
    rw [← e]
    cases at' ((pending [] ops).flatMap (measures o)) k <;> simp [gaugeOf]
  refine ⟨hc, ht, ?_, fun now => ?_⟩
  · rw [hc, ht]
    have a := List.toFinset_card_le ((pending [] ops).flatMap (countsIn o))
    have b := List.toFinset_card_le (((pending [] ops).flatMap (measures o)).map (·.1))
    have c : ∀ es : List Emission, (es.flatMap (countsIn o)).length + ((es.flatMap (measures o)).map (·.1)).length ≤ 2 * es.length := by
      intro es
      induction es with
      | nil => simp
      | cons x t ih =>
        obtain ⟨job, p⟩ := x
        simp only [List.flatMap_cons, List.length_append, List.length_map, List.length_cons] at ih ⊢
        have : (countsIn o (job, p)).length + (measures o (job, p)).length ≤ 2 := by cases p <;> simp [countsIn, measures]
        omega
    have := c (pending [] ops)
    unfold Spec.different
    omega
  · unfold run
    rw [List.foldl_append]
    exact ⟨rfl, rfl⟩

/-- a case: three emissions since the last flush, of the same event of two jobs: one counter for the event and one for each of the jobs. -/
example : (run libo [.emit (bs "j") (.event (bs "x")), .flush 1, .emit (bs "j") (.event (bs "e")), .emit (bs "k") (.event (bs "e")),
    .emit (bs "j") (.event (bs "e"))]).1.counters.length = 3 := by decide +kernel

end Librato
