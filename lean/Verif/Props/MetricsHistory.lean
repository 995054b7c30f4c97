import Verif.Props.Metrics
import Verif.Props.Aggregator
/-!
# Exactly which histories break the /health endpoint (C40)
-/
open Spec

namespace Spec
/-- durations are int64, as they are in Go (`time.Duration`, `int64`); nothing is said about gauges. -/
def DurationFits : Emit → Prop
  | .timing _ _ n => InI64 n
  | .complete _ _ n => InI64 n
  | _ => True

/-- the last value of every gauge, over all jobs and for each job, is neither NaN nor infinite. -/
def GaugesFinite (es : List Emit) : Prop :=
  (∀ ev v, (gaugeValues ev es).getLast? = some v → v.isFinite = true) ∧
  ∀ job ev v, (gaugeValues ev (ofJob job es)).getLast? = some v → v.isFinite = true
end Spec

theorem sumSquares_le (xs : List Int) (h : ∀ x ∈ xs, InI64 x) : F64.NonnegLe 190 (sumSquares xs) := by
  suffices ∀ acc, F64.NonnegLe 190 acc → F64.NonnegLe 190 (xs.foldl (fun acc x => F64.add acc (F64.mul (F64.ofInt x) (F64.ofInt x))) acc) from
    this _ F64.nonnegLe_zero
  induction xs with
  | nil => intro acc ha; exact ha
  | cons x xs ih => intro acc ha; exact ih (fun y hy => h y (List.mem_cons_of_mem _ hy)) _ (F64.add_absorb ha (F64.square_le (h x (by simp))))

theorem timings_fit {es : List Emit} (h : ∀ e ∈ es, DurationFits e) (ev : Str) : ∀ x ∈ timings ev es, InI64 x := by
  intro x hx
  obtain ⟨e, he, hv⟩ := List.mem_filterMap.1 hx
  have := h e he
  cases e <;> simp only [DurationFits] at this <;> simp_all

theorem completions_fit {es : List Emit} (h : ∀ e ∈ es, DurationFits e) : ∀ x ∈ (completions es).map (·.2), InI64 x := by
  intro x hx
  obtain ⟨c, hc, rfl⟩ := List.mem_map.1 hx
  obtain ⟨e, he, hv⟩ := List.mem_filterMap.1 hc
  have := h e he
  cases e <;> simp only [DurationFits] at this <;> simp_all
  subst hv; exact this

theorem mapsFinite_iff {es : List Emit} (h : ∀ e ∈ es, DurationFits e) {am : AggMaps} (ht : TimersExact am es) (hg : GaugesExact am es) :
    MapsFinite am ↔ ∀ ev v, (gaugeValues ev es).getLast? = some v → v.isFinite = true := by
  constructor
  · intro hm ev v hv
    exact hm.2 ev v (by rw [hg ev, hv])
  · intro hv
    refine ⟨fun k t hk => ?_, fun k v hk => hv k v (by rw [← hg k, hk])⟩
    have := ht k
    rw [hk] at this
    rw [this.2.sumSquares]
    exact (sumSquares_le _ (timings_fit h k)).1

theorem aggFinite_iff {es : List Emit} (h : ∀ e ∈ es, DurationFits e) {ia : IntAgg} (ht : Everywhere TimersExact ia es) (hg : Everywhere GaugesExact ia es)
    (hc : JobsComplete ia es) : AggFinite ia ↔ GaugesFinite es := by
  have hj : ∀ job, ∀ e ∈ ofJob job es, DurationFits e := fun job e he => h e (List.mem_of_mem_filter he)
  unfold AggFinite GaugesFinite
  rw [mapsFinite_iff h ht.1 hg.1]
  refine and_congr_right (fun _ => ⟨fun hf job => ?_, fun hf k j hk => ?_⟩)
  · have h1 := ht.2 job
    have h2 := hg.2 job
    cases hk : ia.jobs.get? job with
    | none =>
      rw [hk] at h2
      rw [h2]
      intro ev v hv
      simp [gaugeValues] at hv
    | some j =>
      rw [hk] at h1 h2
      exact (mapsFinite_iff (hj job) h1.2 h2.2).1 (hf job j hk).1
  · have h1 := ht.2 k
    have h2 := hg.2 k
    have h3 := hc k
    rw [hk] at h1 h2 h3
    refine ⟨(mapsFinite_iff (hj k) h1.2 h2.2).2 (hf k), ?_⟩
    rw [h3.2.1.durations.sumSquares]
    exact (sumSquares_le _ (completions_fit (hj k))).1

/-- C40, exactly which histories break /health: after any history of emissions, ticks and readings (with clock readings of the years 1 to 9999), /health answers 200
if in each interval of the window the last value of every gauge, over all jobs and in each job, is finite; otherwise it answers 500.  So the answer comes back as soon as
a finite value is set in the same interval and job (and over all jobs), or else when the interval has left the window; no other kind of emission, and no duration, can break it. -/
theorem C40_history_iff (d r : Int) (hd : 0 < d) (hr : d ≤ r) (h : List (Time × AggOp)) (now : Time) (identifier : Str) (zone : Nat → Int → Int)
    (hz : ZonesOk zone) (hf : ∀ t e, (t, AggOp.emit e) ∈ h → DurationFits e) (ht : ∀ p ∈ h ++ [(now, .read)], FourDigits p.1.ns) :
    ∃ ms, getMetrics d r h now = some ms ∧
      ((serveHTTP (bs "/health") identifier d zone ms).code = 200 ↔ ∀ g ∈ retained d r (h ++ [(now, .read)]), GaugesFinite g.2) ∧
      ((serveHTTP (bs "/health") identifier d zone ms).code = 500 ↔ ∃ g ∈ retained d r (h ++ [(now, .read)]), ¬ GaugesFinite g.2) := by
  have e := getMetrics_eq hd hr h now
  refine ⟨_, e, ?_⟩
  have hiff := C40_iff identifier d zone ((retained d r (h ++ [(now, .read)])).map aggOfSeg)
  have key : (∀ a ∈ (retained d r (h ++ [(now, .read)])).map aggOfSeg, AggFinite a ∧ FourDigitYear a.start.ns (zone a.start.loc a.start.ns)) ↔
      ∀ g ∈ retained d r (h ++ [(now, .read)]), GaugesFinite g.2 := by
    rw [List.forall_mem_map]
    refine forall_congr' (fun g => forall_congr' (fun hg => ?_))
    obtain ⟨⟨p, hp, he⟩, h2⟩ := segments_mem _ g (mem_lastN hg)
    have h3 : ∀ e ∈ g.2, DurationFits e := by
      intro e hee
      obtain ⟨q, hq, hqe⟩ := h2 e hee
      rcases List.mem_append.1 hq with hq | hq
      · exact hf q.1 e (by rw [← hqe]; exact hq)
      · simp only [List.mem_singleton] at hq; subst hq; cases hqe
    have hfin : AggFinite (aggOfSeg g) ↔ GaugesFinite g.2 :=
      aggFinite_iff h3 (aggOf_everywhere mapsOf_timersExact _ _) (aggOf_everywhere mapsOf_gaugesExact _ _) (aggOf_jobsComplete _ _)
    rw [hfin]
    refine ⟨fun hh => hh.1, fun hh => ⟨hh, ?_⟩⟩
    have : FourDigits (aggOfSeg g).start.ns := by
      unfold aggOfSeg
      rw [aggOf_start, he]
      exact fourDigits_intervalStart hd (ht p hp)
    exact fourDigits_year this ⟨(hz _ _).1, (hz _ _).2.1⟩
  rw [key] at hiff
  refine ⟨hiff.1.symm, ⟨fun h5 => ?_, fun ⟨g, hg, hn⟩ => hiff.2 (fun h2 => hn (hiff.1.2 h2 g hg))⟩⟩
  by_contra hno
  simp only [not_exists, not_and, not_not] at hno
  have := hiff.1.1 hno
  rw [h5] at this
  simp at this

/-- a NaN that another job's finite value covers up in the totals still breaks the answer; it is fine again when the job itself sets the gauge. -/
example : let h : List (Time × AggOp) := [(⟨7, 1⟩, .emit (.gauge (bs "j") (bs "g") .nan)), (⟨8, 1⟩, .emit (.gauge (bs "k") (bs "g") (.fin 1)))]
    let h' := h ++ [(⟨9, 1⟩, .emit (.gauge (bs "j") (bs "g") (.fin 2)))]
    (∀ p ∈ h' ++ [(⟨12, 1⟩, .read)], FourDigits p.1.ns) ∧ (∀ t e, (t, AggOp.emit e) ∈ h' → DurationFits e) ∧
    (getMetrics 10 20 h ⟨12, 1⟩).map (fun ms => (serveHTTP (bs "/health") (bs "h") 10 (fun _ _ => 3600) ms).code) = some 500 ∧
    (getMetrics 10 20 h' ⟨12, 1⟩).map (fun ms => (serveHTTP (bs "/health") (bs "h") 10 (fun _ _ => 3600) ms).code) = some 200 := by
  refine ⟨by unfold FourDigits; decide +kernel, ?_, by decide +kernel, by decide +kernel⟩
  intro t e he
  simp only [List.cons_append, List.nil_append, List.mem_cons, Prod.mk.injEq, List.not_mem_nil, or_false] at he
  rcases he with ⟨_, h⟩ | ⟨_, h⟩ | ⟨_, h⟩ <;> cases h <;> trivial

#print axioms C40_history_iff
