import Verif.Model.HeapHealthd
import Verif.Lemmas.HeapAgg
/-! healthd in memory: what every operation does to the objects and to the values they stand for. -/
namespace Mem
open Spec.Memory Unmarshal

/-! ## Decoding -/

theorem allocRefs_spec {V : Type} {P : Addr → V → Assn} {q : Part} {make : V → Cmd Addr} (hm : ∀ v, Triple q emp (make v) (fun a => P a v)) (vs : GoMap Str V) :
    Triple q emp (allocRefs make vs) (fun m => refsR P m vs) := by
  induction vs with
  | nil =>
    refine (Triple.pure (Q := fun m => refsR P m []) ([] : GoMap Str Addr)).conseq (fun p hp => ?_) (fun _ => Entails.refl _)
    simpa [refsR] using hp
  | cons x t ih =>
    obtain ⟨k, v⟩ := x
    unfold allocRefs
    refine (hm v).bind (fun a => (Triple.emp ih).bind (fun m => ?_))
    refine (Triple.pure (Q := fun m => refsR P m ((k, v) :: t)) ((k, a) :: m)).conseq (fun p hp => ?_) (fun _ => Entails.refl _)
    rw [refsR]
    exact lift_sep.2 ⟨rfl, hp⟩

theorem allocMaps_spec {q : Part} (am : AggMaps) : Triple q emp (allocMaps am) (fun ms => mapsR ms am) := by
  unfold allocMaps
  refine (allocRefs_spec (P := timerR) (fun t => Triple.alloc _) am.timers).bind (fun mt => ?_)
  refine step_alloc (fun t => step_alloc (fun g => step_alloc (fun e => ?_)))
  refine (Triple.emp (allocRefs_spec (P := errsR) (fun t => Triple.alloc _) am.eventErrs)).bind (fun me => ?_)
  refine step_alloc (fun ee => ?_)
  refine (Triple.pure (Q := fun ms => mapsR ms am) (⟨t, g, e, ee⟩ : Maps)).conseq ?_ (fun _ => Entails.refl _)
  intro p hp
  have h1 : ee ↦ .refs me ∗ (e ↦ .ints am.events ∗ g ↦ .floats am.gauges ∗ t ↦ .refs mt ∗ refsR timerR mt am.timers) ∗ refsR errsR me am.eventErrs
      = (t ↦ .refs mt ∗ refsR timerR mt am.timers) ∗ g ↦ .floats am.gauges ∗ e ↦ .ints am.events ∗ (ee ↦ .refs me ∗ refsR errsR me am.eventErrs) := by
    ac_rfl
  rw [h1] at hp
  exact sep_mono (fun p hp => ⟨mt, hp⟩) (sep_mono (Entails.refl _) (sep_mono (Entails.refl _) (fun p hp => ⟨me, hp⟩))) p hp

theorem allocJob_spec {q : Part} (j : JobAgg) : Triple q emp (allocJob j) (fun a => jobR a j) := by
  unfold allocJob
  refine (allocMaps_spec j.maps).bind (fun ms => ?_)
  exact (Triple.alloc _).frame' (mapsR ms j.maps) (Entails.of_eq (emp_sep _).symm) (fun a p hp => ⟨ms, hp⟩)

theorem allocInt_spec {q : Part} (v : IntAgg) : Triple q emp (allocInt v) (fun a => intR a v) := by
  unfold allocInt
  refine (allocMaps_spec v.maps).bind (fun ms => ?_)
  refine (Triple.emp (allocRefs_spec (P := jobR) allocJob_spec v.jobs)).bind (fun m => step_alloc (fun j => ?_))
  refine (Triple.alloc _).frame' (j ↦ .refs m ∗ mapsR ms v.maps ∗ refsR jobR m v.jobs) (Entails.of_eq (emp_sep _).symm) (fun a p hp => ⟨(j, ms), ?_⟩)
  have h1 : a ↦ .int v.start v.serial j ms ∗ j ↦ .refs m ∗ mapsR ms v.maps ∗ refsR jobR m v.jobs
      = a ↦ .int v.start v.serial j ms ∗ (j ↦ .refs m ∗ refsR jobR m v.jobs) ∗ mapsR ms v.maps := by ac_rfl
  rw [h1] at hp
  exact sep_mono (Entails.refl _) (sep_mono (fun p hp => ⟨m, hp⟩) (Entails.refl _)) p hp

/-! ## The memory of the goroutine -/

/-- `q` is a part of the memory without pointers out of it, in which nothing is ever written; the array `arr` is not in it, and points to
aggregations in it that stand for `vs`. -/
structure Good (q : Part) (h : Heap) (arr : Addr) (vs : List IntAgg) : Prop where
  read : q.In h
  closed : Closed q
  apart : ¬q.dom arr
  aggs : ∃ l, h.cells[arr]? = some (.array l) ∧ List.Forall₂ (intIn q) l vs

/-- from `h` to `h'` only the array was written; `q` has grown by new objects only. -/
structure Grow (arr : Addr) (q : Part) (h : Heap) (q' : Part) (h' : Heap) : Prop where
  sub : q.Sub q'
  frame : Frame (· = arr) h h'
  fresh : ∀ x, q'.dom x → q.dom x ∨ h.cells.length ≤ x

theorem Grow.refl (arr : Addr) (q : Part) (h : Heap) : Grow arr q h q h := ⟨.refl _, .refl _ _, fun _ h => .inl h⟩
theorem Grow.trans {arr : Addr} {q q' q'' : Part} {h h' h'' : Heap} (h1 : Grow arr q h q' h') (h2 : Grow arr q' h' q'' h'') : Grow arr q h q'' h'' := by
  refine ⟨h1.sub.trans h2.sub, h1.frame.trans h2.frame (fun x hx => .inl hx), fun x hx => ?_⟩
  have := h1.frame.len
  rcases h2.fresh x hx with h | h
  · exact h1.fresh x h
  · right; omega

/-- the start and the serial number of an aggregation that can be read. -/
theorem intIn.loadEq {q : Part} {h : Heap} (hq : q.In h) {a : Addr} {v : IntAgg} (hv : intIn q a v) :
    ∃ j ms, loadInt a h = some ((v.start, v.serial, j, ms), h) := by
  obtain ⟨jobs, ms, e, _⟩ := hv
  refine ⟨jobs, ms, ?_⟩
  unfold loadInt load
  show ((h.cells[a]?).map _).bind _ = _
  rw [hq _ _ e]
  rfl

theorem loadArray_eq {h : Heap} {a : Addr} {l : List Addr} (e : h.cells[a]? = some (.array l)) : loadArray a h = some (l, h) := by
  unfold loadArray load
  show ((h.cells[a]?).map _).bind _ = _
  rw [e]
  rfl

/-- new objects, made without writing to any other: they become part of what is never written again. -/
theorem Good.absorb {q : Part} {h : Heap} {arr : Addr} {vs : List IntAgg} (hg : Good q h arr vs) {m : Cmd Addr} {v : IntAgg}
    (hm : Triple q emp m (fun a => intR a v)) :
    ∃ a h' q', m h = some (a, h') ∧ Good q' h' arr vs ∧ intIn q' a v ∧ Grow arr q h q' h' := by
  obtain ⟨a, h', p, e, hp, hi, hf, hd⟩ := hm h .empty rfl (fun _ => .inl rfl) (fun _ _ e => by cases e) hg.read
  have hnew : ∀ x, p.dom x → h.cells.length ≤ x := fun x hx => (hd x hx).resolve_left (fun hc => hc rfl)
  have hw := intR_whole _ _ _ hp
  have hf' : Frame (· = arr) h h' := hf.mono (fun x hx => absurd rfl hx)
  have hsub : q.Sub (p.union q) := by
    intro x c ex
    refine Part.union_some.2 (.inr ⟨?_, ex⟩)
    by_contra hc
    have := hnew x hc
    have := hg.read.lt (dom_of_some ex)
    omega
  have hl : arr < h.cells.length := by
    obtain ⟨l, el, _⟩ := hg.aggs
    exact (List.getElem?_eq_some_iff.1 el).1
  refine ⟨a, h', p.union q, e, ⟨hi.union (hg.read.frame hf (fun x _ hc => hc rfl)), hw.1.union hg.closed, fun hc => ?_, ?_⟩, ?_, hsub, hf', fun x hx => ?_⟩
  · rcases dom_union.1 hc with hc | hc
    · have := hnew _ hc; omega
    · exact hg.apart hc
  · obtain ⟨l, el, hl'⟩ := hg.aggs
    exact ⟨l, by rw [hf.keep arr hl (fun hc => hc rfl), el], hl'.imp (fun _ _ h => h.mono hsub)⟩
  · exact intR_in hp (fun x c ex => Part.union_some.2 (.inl ex))
  · exact (dom_union.1 hx).elim (fun h => .inr (hnew x h)) .inl

/-- storing another list of known aggregations in the array. -/
theorem Good.store {q : Part} {h : Heap} {arr : Addr} {vs ws : List IntAgg} (hg : Good q h arr vs) {l : List Addr} (hl : List.Forall₂ (intIn q) l ws) :
    ∃ h', store arr (.array l) h = some ((), h') ∧ Good q h' arr ws ∧ Grow arr q h q h' := by
  obtain ⟨l0, e0, _⟩ := hg.aggs
  have hlt := (List.getElem?_eq_some_iff.1 e0).1
  have hf : Frame (· = arr) h ⟨h.cells.set arr (.array l), arr :: h.written⟩ :=
    ⟨by simp, fun x _ hx => (by rw [List.getElem?_set_ne (fun e => hx e.symm)]), [arr], rfl, by simp⟩
  refine ⟨⟨h.cells.set arr (.array l), arr :: h.written⟩, by unfold Mem.store; rw [if_pos hlt],
    ⟨hg.read.frame hf (fun x hx e => hg.apart (e ▸ hx)), hg.closed, hg.apart, l, by simp [hlt], hl⟩, .refl _, hf, fun x hx => .inl hx⟩

/-! ## Maps of pointers to decoded aggregations -/

def ptrIn (q : Part) (p : Ptr) (r : Report) : Prop := p.hasNil = r.hasNil ∧ intIn q p.addr r.agg
theorem ptrIn.mono {q q' : Part} {p : Ptr} {r : Report} (h : ptrIn q p r) (hs : q.Sub q') : ptrIn q' p r := ⟨h.1, h.2.mono hs⟩

def entryIn (q : Part) (x : Healthd.Key × Ptr) (y : Healthd.Key × Report) : Prop := x.1 = y.1 ∧ ptrIn q x.2 y.2
theorem entryIn.mono {q q' : Part} {x : Healthd.Key × Ptr} {y : Healthd.Key × Report} (h : entryIn q x y) (hs : q.Sub q') : entryIn q' x y := ⟨h.1, h.2.mono hs⟩

theorem entries_get {q : Part} {m : GoMap Healthd.Key Ptr} {vs : GoMap Healthd.Key Report} (h : List.Forall₂ (entryIn q) m vs) (k : Healthd.Key) :
    (m.get? k = none ∧ vs.get? k = none) ∨ ∃ p r, m.get? k = some p ∧ vs.get? k = some r ∧ ptrIn q p r := by
  induction h with
  | nil => exact .inl ⟨rfl, rfl⟩
  | @cons x y m vs hx _ ih =>
    obtain ⟨k0, p⟩ := x
    obtain ⟨k1, r⟩ := y
    obtain ⟨e, hp⟩ := hx
    dsimp only at e hp
    subst e
    by_cases hk : k0 = k
    · exact .inr ⟨p, r, by simp [GoMap.get?, hk], by simp [GoMap.get?, hk], hp⟩
    · rcases ih with ⟨e1, e2⟩ | ⟨p', r', e1, e2, hp'⟩
      · exact .inl ⟨by simp [GoMap.get?, hk, e1], by simp [GoMap.get?, hk, e2]⟩
      · exact .inr ⟨p', r', by simp [GoMap.get?, hk, e1], by simp [GoMap.get?, hk, e2], hp'⟩

theorem entries_set {q : Part} {m : GoMap Healthd.Key Ptr} {vs : GoMap Healthd.Key Report} (h : List.Forall₂ (entryIn q) m vs) (k : Healthd.Key) {p : Ptr}
    {r : Report} (hp : ptrIn q p r) : List.Forall₂ (entryIn q) (GoMap.set m k p) (GoMap.set vs k r) := by
  induction h with
  | nil => exact .cons ⟨rfl, hp⟩ .nil
  | @cons x y m vs hx ht ih =>
    obtain ⟨k0, p0⟩ := x
    obtain ⟨k1, r0⟩ := y
    obtain ⟨e, hp0⟩ := hx
    dsimp only at e hp0
    subst e
    by_cases hk : k0 = k
    · simp only [GoMap.set, hk, if_true]
      exact .cons ⟨rfl, hp⟩ ht
    · simp only [GoMap.set, hk, if_false]
      exact .cons ⟨rfl, hp0⟩ ih

theorem entries_filter {q : Part} {m : GoMap Healthd.Key Ptr} {vs : GoMap Healthd.Key Report} (h : List.Forall₂ (entryIn q) m vs) (f : Healthd.Key → Bool) :
    List.Forall₂ (entryIn q) (m.filter (fun p => f p.1)) (vs.filter (fun p => f p.1)) := by
  induction h with
  | nil => exact .nil
  | @cons x y m vs hx ht ih =>
    have e := hx.1
    rw [List.filter_cons, List.filter_cons, ← e]
    split
    · exact .cons hx ih
    · exact ih

/-! ## The goroutine and the values -/

/-- the goroutine `s` stands for the state `v` of the model of values. -/
structure Repr (q : Part) (s : Hd) (v : Healthd.State) : Prop where
  duration : s.intervalDuration = v.intervalDuration
  max : s.maxIntervals = v.maxIntervals
  good : Good q s.heap s.arr v.intervalAggregations
  hosts : List.Forall₂ (entryIn q) s.hostAggs v.hostAggregations
  needing : s.needing = v.intervalsNeedingRecalculation
  status : s.hostStatus = v.hostStatus

/-- what an operation does to the goroutine and to the values: both fail, or the results stand for each other. -/
def Sim (q : Part) (s : Hd) (s' : Option Hd) (v' : Option Healthd.State) : Prop :=
  (s' = none ∧ v' = none) ∨ ∃ t w q', s' = some t ∧ v' = some w ∧ t.arr = s.arr ∧ Repr q' t w ∧ Grow s.arr q s.heap q' t.heap

theorem Sim.bind {q : Part} {s : Hd} {s' : Option Hd} {v' : Option Healthd.State} {f : Hd → Option Hd} {g : Healthd.State → Option Healthd.State}
    (h : Sim q s s' v') (hf : ∀ t w q', t.arr = s.arr → q.Sub q' → Repr q' t w → Sim q' t (f t) (g w)) : Sim q s (s'.bind f) (v'.bind g) := by
  rcases h with ⟨rfl, rfl⟩ | ⟨t, w, q', rfl, rfl, ha, hr, hg⟩
  · exact .inl ⟨rfl, rfl⟩
  · rcases hf t w q' ha hg.sub hr with ⟨e1, e2⟩ | ⟨t', w', q'', e1, e2, ha', hr', hg'⟩
    · exact .inl ⟨e1, e2⟩
    · exact .inr ⟨t', w', q'', e1, e2, ha'.trans ha, hr', hg.trans (ha ▸ hg')⟩

/-! ### Responses -/

def optIn (q : Part) : Option Ptr → Option Report → Prop
  | none, none => True
  | some p, some r => ptrIn q p r
  | _, _ => False
theorem optIn.mono {q q' : Part} {p : Option Ptr} {r : Option Report} (h : optIn q p r) (hs : q.Sub q') : optIn q' p r := by
  cases p <;> cases r <;> first | trivial | exact h | exact ptrIn.mono h hs

theorem decode_spec {q : Part} {h : Heap} {arr : Addr} {vs : List IntAgg} (hg : Good q h arr vs) (l : List (Option Report)) :
    ∃ ps h' q', decode l h = some (ps, h') ∧ Good q' h' arr vs ∧ List.Forall₂ (optIn q') ps l ∧ Grow arr q h q' h' := by
  induction l generalizing q h with
  | nil => exact ⟨[], h, q, rfl, hg, .nil, .refl _ _ _⟩
  | cons x t ih =>
    cases x with
    | none =>
      obtain ⟨ps, h', q', e, hg', hp, hgr⟩ := ih hg
      refine ⟨none :: ps, h', q', ?_, hg', .cons trivial hp, hgr⟩
      show (decode t h).bind _ = _
      rw [e]
      rfl
    | some r =>
      obtain ⟨a, h1, q1, e1, hg1, ha, hgr1⟩ := hg.absorb (allocInt_spec r.agg)
      obtain ⟨ps, h', q', e, hg', hp, hgr⟩ := ih hg1
      refine ⟨some ⟨a, r.hasNil⟩ :: ps, h', q', ?_, hg', .cons ⟨rfl, ha.mono hgr.sub⟩ hp, hgr1.trans hgr⟩
      show (allocInt r.agg h).bind _ = _
      rw [e1]
      show (decode t h1).bind _ = _
      rw [e]
      rfl

theorem storeOne_sim {q : Part} {s : Hd} {v : Healthd.State} (hr : Repr q s v) (r : Healthd.PollResponse) {p : Option Ptr} {rep : Option Report}
    (hp : optIn q p rep) : Sim q s (s.storeOne r p) (Healthd.storeOne r v rep) := by
  cases p with
  | none =>
    cases rep with
    | none => exact .inl ⟨rfl, rfl⟩
    | some _ => exact absurd hp (by simp [optIn])
  | some p =>
    cases rep with
    | none => exact absurd hp (by simp [optIn])
    | some rep =>
      have hp : ptrIn q p rep := hp
      obtain ⟨j, ms, e⟩ := hp.2.loadEq hr.good.read
      unfold Hd.storeOne Healthd.storeOne
      dsimp only
      rw [e]
      dsimp only [bind, Option.bind]
      have hstore : Repr q { s with hostAggs := s.hostAggs.set ⟨rep.agg.start, r.response.instanceId, r.hostPort⟩ p, needing := s.needing.set rep.agg.start () }
          { v with
            hostAggregations := v.hostAggregations.set ⟨rep.agg.start, r.response.instanceId, r.hostPort⟩ rep
            intervalsNeedingRecalculation := v.intervalsNeedingRecalculation.set rep.agg.start () } :=
        ⟨hr.duration, hr.max, hr.good, entries_set hr.hosts _ hp, by rw [hr.needing], hr.status⟩
      rcases entries_get hr.hosts ⟨rep.agg.start, r.response.instanceId, r.hostPort⟩ with ⟨e1, e2⟩ | ⟨p0, r0, e1, e2, hp0⟩
      · rw [e1, e2]
        exact .inr ⟨_, _, q, rfl, rfl, rfl, hstore, .refl _ _ _⟩
      · rw [e1, e2]
        obtain ⟨j0, ms0, e0⟩ := hp0.2.loadEq hr.good.read
        dsimp only
        rw [e0]
        dsimp only
        split_ifs
        · exact .inr ⟨_, _, q, rfl, rfl, rfl, hr, .refl _ _ _⟩
        · exact .inr ⟨_, _, q, rfl, rfl, rfl, hstore, .refl _ _ _⟩

theorem storeMany_sim {q0 : Part} (r : Healthd.PollResponse) {ps : List (Option Ptr)} {reps : List (Option Report)} (hp : List.Forall₂ (optIn q0) ps reps)
    {q : Part} {s : Hd} {v : Healthd.State} (hs : q0.Sub q) (hr : Repr q s v) :
    Sim q s (ps.foldlM (Hd.storeOne r) s) (reps.foldlM (Healthd.storeOne r) v) := by
  induction hp generalizing q s v with
  | nil => exact .inr ⟨s, v, q, rfl, rfl, rfl, hr, .refl _ _ _⟩
  | @cons x y ps reps hx ht ih =>
    simp only [List.foldlM_cons]
    exact (storeOne_sim hr r (hx.mono hs)).bind (fun t w q' _ hs' hr' => ih (hs.trans hs') hr')

theorem storeAll_sim {q : Part} {s : Hd} {v : Healthd.State} (hr : Repr q s v) (r : Healthd.PollResponse) :
    Sim q s (s.storeAll r) (Healthd.storeAll r v r.response.aggs) := by
  obtain ⟨ps, h', q', e, hg, hp, hgr⟩ := decode_spec hr.good r.response.aggs
  unfold Hd.storeAll Healthd.storeAll
  rw [e]
  show Sim q s (ps.foldlM (Hd.storeOne r) { s with heap := h' }) _
  have hr' : Repr q' { s with heap := h' } v :=
    ⟨hr.duration, hr.max, hg, hr.hosts.imp (fun _ _ h => h.mono hgr.sub), hr.needing, hr.status⟩
  rcases storeMany_sim r hp (.refl _) hr' with h | ⟨t, w, q'', e1, e2, ha, hr'', hg''⟩
  · exact .inl h
  · exact .inr ⟨t, w, q'', e1, e2, ha, hr'', hgr.trans hg''⟩

theorem consume_sim {q : Part} {s : Hd} {v : Healthd.State} (hr : Repr q s v) (now1 now2 : Time) (r : Healthd.PollResponse) :
    Sim q s (s.consumePollResponse now1 now2 r) (Healthd.consumePollResponse now1 now2 v r) := by
  unfold Hd.consumePollResponse Healthd.consumePollResponse
  dsimp only
  rw [hr.status]
  have key : ∀ (s' : Hd) (v' : Healthd.State), Repr q s' v' → s'.arr = s.arr → s'.heap = s.heap →
      Sim q s (if r.code = 200 ∧ r.err = none then
        if s'.intervalDuration = 0 then
          if r.response.intervalDuration = 0 then none
          else Hd.storeAll r { s' with intervalDuration := r.response.intervalDuration, maxIntervals := Int.tdiv Healthd.retain r.response.intervalDuration }
        else if s'.intervalDuration ≠ r.response.intervalDuration then some s'
        else Hd.storeAll r s' else some s')
      (if r.code = 200 ∧ r.err = none then
        if v'.intervalDuration = 0 then
          if r.response.intervalDuration = 0 then none
          else Healthd.storeAll r { v' with intervalDuration := r.response.intervalDuration, maxIntervals := Int.tdiv Healthd.retain r.response.intervalDuration }
            r.response.aggs
        else if v'.intervalDuration ≠ r.response.intervalDuration then some v'
        else Healthd.storeAll r v' r.response.aggs else some v') := by
    intro s' v' hr' ha hh
    have hsame : Sim q s (some s') (some v') := .inr ⟨s', v', q, rfl, rfl, ha, hr', by rw [hh]; exact .refl _ _ _⟩
    have hof : ∀ {s1 : Hd} {x y}, s1.arr = s.arr → s1.heap = s.heap → Sim q s1 x y → Sim q s x y := by
      rintro s1 x y ha hh (h | ⟨t, w, q', e1, e2, ha', hr', hg'⟩)
      · exact .inl h
      · exact .inr ⟨t, w, q', e1, e2, ha'.trans ha, hr', by rw [← ha, ← hh]; exact hg'⟩
    rw [hr'.duration]
    split_ifs
    · exact .inl ⟨rfl, rfl⟩
    · exact hof (s1 := { s' with intervalDuration := r.response.intervalDuration, maxIntervals := Int.tdiv Healthd.retain r.response.intervalDuration }) ha hh
        (storeAll_sim (s := { s' with intervalDuration := r.response.intervalDuration, maxIntervals := Int.tdiv Healthd.retain r.response.intervalDuration })
          (v := { v' with intervalDuration := r.response.intervalDuration, maxIntervals := Int.tdiv Healthd.retain r.response.intervalDuration })
        ⟨rfl, rfl, hr'.good, hr'.hosts, hr'.needing, hr'.status⟩ r)
    · exact hsame
    · exact hof ha hh (storeAll_sim hr' r)
    · exact hsame
  cases v.hostStatus.get? r.hostPort with
  | none => exact key s v hr rfl rfl
  | some hs =>
    refine key { s with hostStatus := v.hostStatus.set r.hostPort (Healthd.updateStatus now1 now2 r hs) }
      { v with hostStatus := v.hostStatus.set r.hostPort (Healthd.updateStatus now1 now2 r hs) } ⟨hr.duration, hr.max, hr.good, hr.hosts, hr.needing, rfl⟩ rfl rfl

/-! ### Purging -/

theorem truncate_rel {q : Part} {l : List Addr} {vs : List IntAgg} (h : List.Forall₂ (intIn q) l vs) (n : Int) :
    (truncatePtrs n l = none ∧ Healthd.truncateAggs n vs = none) ∨
    ∃ l' vs', truncatePtrs n l = some l' ∧ Healthd.truncateAggs n vs = some vs' ∧ List.Forall₂ (intIn q) l' vs' := by
  unfold truncatePtrs Healthd.truncateAggs
  rw [h.length_eq]
  split_ifs
  · exact .inl ⟨rfl, rfl⟩
  · exact .inr ⟨_, _, rfl, rfl, List.forall₂_drop _ h⟩
  · exact .inr ⟨_, _, rfl, rfl, h⟩

theorem purge_sim {q : Part} {s : Hd} {v : Healthd.State} (hr : Repr q s v) (now : Healthd.Key → Time) : Sim q s (Hd.purge now s) (Healthd.purge now v) := by
  obtain ⟨l, e, hl⟩ := hr.good.aggs
  unfold Hd.purge Healthd.purge
  show Sim q s (Option.bind (Option.bind (loadArray s.arr s.heap) _) _) (Option.bind _ _)
  rw [loadArray_eq e]
  dsimp only [Option.bind_some]
  rcases truncate_rel hl s.maxIntervals with ⟨e1, e2⟩ | ⟨l', vs', e1, e2, hl'⟩
  · rw [hr.max] at e2
    rw [e1, e2]
    exact .inl ⟨rfl, rfl⟩
  · rw [hr.max] at e2
    rw [e1, e2]
    obtain ⟨h', es, hg, hgr⟩ := hr.good.store hl'
    show Sim q s (Option.bind (store s.arr (.array l') s.heap) _) _
    rw [es]
    refine .inr ⟨_, _, q, rfl, rfl, rfl, ⟨hr.duration, hr.max, hg, ?_, hr.needing, hr.status⟩, hgr⟩
    rw [hr.duration]
    exact entries_filter hr.hosts (fun k => decide (¬ Healthd.subTime (now k) k.time > i64 (v.intervalDuration * 5)))

/-! ### Recalculating -/

theorem forEach_none {α : Type} {f : α → Cmd Unit} {l : List α} {x : α} (hx : x ∈ l) (hf : ∀ h, f x h = none) (h : Heap) : forEach l f h = none := by
  induction l generalizing h with
  | nil => simp at hx
  | cons y t ih =>
    show (f y h).bind _ = none
    rcases List.mem_cons.1 hx with rfl | hx
    · rw [hf]; rfl
    · cases hy : f y h with
      | none => rfl
      | some r => exact ih hx r.2

theorem mergeReports_none {l : List Report} {r : Report} (hm : r ∈ l) (hr : r.hasNil = true) (a : IntAgg) : l.foldlM Healthd.mergeReport a = none := by
  induction l generalizing a with
  | nil => simp at hm
  | cons y t ih =>
    rw [List.foldlM_cons]
    rcases List.mem_cons.1 hm with rfl | hm
    · unfold Healthd.mergeReport
      rw [hr]
      rfl
    · cases hy : Healthd.mergeReport a y with
      | none => rfl
      | some b => exact ih hm b

theorem mergeReports_some {l : List Report} (hl : ∀ r ∈ l, r.hasNil = false) (a : IntAgg) :
    l.foldlM Healthd.mergeReport a = some (l.foldl (fun a r => a.merge r.agg) a) := by
  induction l generalizing a with
  | nil => rfl
  | cons y t ih =>
    rw [List.foldlM_cons]
    have : Healthd.mergeReport a y = some (a.merge y.agg) := by
      unfold Healthd.mergeReport
      rw [hl y (by simp)]
      rfl
    rw [this]
    exact ih (fun r hr => hl r (by simp [hr])) _

theorem mergePtrs_spec {q : Part} {ps : List Ptr} {rs : List Report} (h : List.Forall₂ (ptrIn q) ps rs) (hl : ∀ r ∈ rs, r.hasNil = false) (b : Addr) (v : IntAgg) :
    Triple q (intR b v) (forEach ps (mergePtr b)) (fun _ => intR b (rs.foldl (fun a r => a.merge r.agg) v)) := by
  induction h generalizing v with
  | nil => exact Triple.pure (Q := fun _ => intR b v) ()
  | @cons p r ps rs hp _ ih =>
    have e : mergePtr b p = mergeInt b p.addr := by
      unfold mergePtr
      rw [hp.1, hl r (by simp)]
      rfl
    unfold forEach
    rw [e]
    exact (mergeInt_spec _ _ hp.2 b v).bind (fun _ => ih (fun r hr => hl r (by simp [hr])) _)

theorem overall_spec {q : Part} {ps : List Ptr} {rs : List Report} (h : List.Forall₂ (ptrIn q) ps rs) (hl : ∀ r ∈ rs, r.hasNil = false) (k : Time) :
    Triple q emp (do let o ← newInt k; forEach ps (mergePtr o); pure o : Cmd Addr) (fun o => intR o (rs.foldl (fun a r => a.merge r.agg) (.new k))) := by
  refine (newInt_spec k).bind (fun o => (mergePtrs_spec h hl o _).bind (fun _ => ?_))
  exact Triple.pure (Q := fun o => intR o _) o

theorem replace_rel {q : Part} {h : Heap} (hq : q.In h) {a : Addr} {v : IntAgg} (ha : intIn q a v) {l : List Addr} {vs : List IntAgg}
    (hl : List.Forall₂ (intIn q) l vs) :
    (replacePtr a v.start l h = some (none, h) ∧ Healthd.replaceAgg vs v = none) ∨
    ∃ l' vs', replacePtr a v.start l h = some (some l', h) ∧ Healthd.replaceAgg vs v = some vs' ∧ List.Forall₂ (intIn q) l' vs' := by
  induction hl with
  | nil => exact .inl ⟨rfl, rfl⟩
  | @cons x w l vs hx ht ih =>
    obtain ⟨j, ms, e⟩ := hx.loadEq hq
    have e' : replacePtr a v.start (x :: l) h = if w.start = v.start then some (some (a :: l), h) else
        (replacePtr a v.start l h).bind (fun r => some (r.1.map (x :: ·), r.2)) := by
      show (loadInt x h).bind _ = _
      rw [e]
      show (if w.start = v.start then (pure (some (a :: l)) : Cmd _) else _) h = _
      split_ifs <;> rfl
    rw [e', Healthd.replaceAgg]
    by_cases hst : w.start = v.start
    · rw [if_pos hst, if_pos hst]
      exact .inr ⟨_, _, rfl, rfl, .cons ha ht⟩
    · rw [if_neg hst, if_neg hst]
      rcases ih with ⟨e1, e2⟩ | ⟨l', vs', e1, e2, hl'⟩
      · rw [e1, e2]
        exact .inl ⟨rfl, rfl⟩
      · rw [e1, e2]
        exact .inr ⟨_, _, rfl, rfl, .cons hx hl'⟩

theorem starts_eq {q : Part} {h : Heap} (hq : q.In h) {l : List Addr} {vs : List IntAgg} (hl : List.Forall₂ (intIn q) l vs) :
    starts l h = some (vs.map (·.start.ns), h) := by
  induction hl with
  | nil => rfl
  | @cons x w l vs hx ht ih =>
    obtain ⟨j, ms, e⟩ := hx.loadEq hq
    show (loadInt x h).bind _ = _
    rw [e]
    show (starts l h).bind _ = _
    rw [ih]
    rfl

theorem forall₂_getElem? {α β : Type} {R : α → β → Prop} {l : List α} {l' : List β} (h : List.Forall₂ R l l') (i : Nat) :
    (l[i]? = none ∧ l'[i]? = none) ∨ ∃ a b, l[i]? = some a ∧ l'[i]? = some b ∧ R a b := by
  induction h generalizing i with
  | nil => exact .inl ⟨rfl, rfl⟩
  | cons hx _ ih =>
    cases i with
    | zero => exact .inr ⟨_, _, rfl, rfl, hx⟩
    | succ i => simpa using ih i

theorem sortBy_rel {α β : Type} {R : α → β → Prop} {l : List α} {l' : List β} (h : List.Forall₂ R l l') (perm : List Int → List Nat) (ks : List Int) :
    List.Forall₂ R (sortBy perm ks l) (sortBy perm ks l') := by
  unfold sortBy
  induction perm ks with
  | nil => exact .nil
  | cons i t ih =>
    rw [List.filterMap_cons, List.filterMap_cons]
    rcases forall₂_getElem? h i with ⟨e1, e2⟩ | ⟨a, b, e1, e2, hab⟩
    · rw [e1, e2]; exact ih
    · rw [e1, e2]; exact .cons hab ih

/-- `sort.Sort(ByInterval(l))` on values. -/
def sortAggs (perm : List Int → List Nat) (l : List IntAgg) : List IntAgg := sortBy perm (l.map (·.start.ns)) l

theorem set_sim {q : Part} {s : Hd} {v : Healthd.State} (hr : Repr q s v) (perm : List Int → List Nat) {a : Addr} {w : IntAgg} (ha : intIn q a w) :
    Sim q s ((setAggregation perm s.maxIntervals s.arr a s.heap).map (fun r => { s with heap := r.2 })) (Healthd.setAggregation (sortAggs perm) v w) := by
  obtain ⟨l, e, hl⟩ := hr.good.aggs
  obtain ⟨j, ms, ea⟩ := ha.loadEq hr.good.read
  unfold setAggregation Healthd.setAggregation
  show Sim q s ((Option.bind (loadArray s.arr s.heap) _).map _) _
  rw [loadArray_eq e]
  show Sim q s ((Option.bind (loadInt a s.heap) _).map _) _
  rw [ea]
  show Sim q s ((Option.bind (replacePtr a w.start l s.heap) _).map _) _
  have fin : ∀ {l' vs'}, List.Forall₂ (intIn q) l' vs' →
      Sim q s ((store s.arr (.array l') s.heap).map (fun r => { s with heap := r.2 })) (some { v with intervalAggregations := vs' }) := by
    intro l' vs' hl'
    obtain ⟨h', es, hg, hgr⟩ := hr.good.store hl'
    rw [es]
    exact .inr ⟨_, _, q, rfl, rfl, rfl, ⟨hr.duration, hr.max, hg, hr.hosts, hr.needing, hr.status⟩, hgr⟩
  rcases replace_rel hr.good.read ha hl with ⟨e1, e2⟩ | ⟨l', vs', e1, e2, hl'⟩
  · rw [e1, e2]
    have hl2 : List.Forall₂ (intIn q) (l ++ [a]) (v.intervalAggregations ++ [w]) := List.rel_append hl (.cons ha .nil)
    show Sim q s ((Option.bind (starts (l ++ [a]) s.heap) _).map _) _
    rw [starts_eq hr.good.read hl2]
    dsimp only [Option.bind_some]
    rcases truncate_rel (sortBy_rel hl2 perm ((v.intervalAggregations ++ [w]).map (·.start.ns))) s.maxIntervals with ⟨e3, e4⟩ | ⟨l', vs', e3, e4, hl'⟩
    · rw [hr.max] at e4
      unfold sortAggs
      rw [e3, e4]
      exact .inl ⟨rfl, rfl⟩
    · rw [hr.max] at e4
      unfold sortAggs
      rw [e3, e4]
      exact fin hl'
  · rw [e1, e2]
    exact fin hl'

theorem entries_at {q : Part} {es : List (Healthd.Key × Ptr)} {vs : List (Healthd.Key × Report)} (h : List.Forall₂ (entryIn q) es vs) (k : Time) :
    List.Forall₂ (ptrIn q) ((es.filter (fun p => p.1.time = k)).map (·.2)) ((vs.filter (fun p => p.1.time = k)).map (·.2)) := by
  induction h with
  | nil => exact .nil
  | @cons x y es vs hx _ ih =>
    rw [List.filter_cons, List.filter_cons, ← hx.1]
    split
    · exact .cons hx.2 ih
    · exact ih

theorem bind_run {α β : Type} (m : Cmd α) (f : α → Cmd β) (h : Heap) : (m >>= f) h = (m h).bind (fun r => f r.1 r.2) := rfl

theorem recalculateOne_sim {q : Part} {s : Hd} {v : Healthd.State} (hr : Repr q s v) (perm : List Int → List Nat) (k : Time)
    {entries : Time → List (Healthd.Key × Ptr)} {ventries : Time → List (Healthd.Key × Report)} (he : ∀ k, List.Forall₂ (entryIn q) (entries k) (ventries k)) :
    Sim q s (s.recalculateOne perm entries k) (Healthd.recalculateOne (sortAggs perm) ventries v k) := by
  have hp := entries_at (he k) k
  unfold Hd.recalculateOne Healthd.recalculateOne
  dsimp only
  generalize (((entries k).filter (fun p => p.1.time = k)).map (·.2)) = ps at hp ⊢
  generalize (((ventries k).filter (fun p => p.1.time = k)).map (·.2)) = rs at hp ⊢
  by_cases hn : ∃ r ∈ rs, r.hasNil = true
  · obtain ⟨r, hm, hnil⟩ := hn
    have hps : ∃ p ∈ ps, p.hasNil = true := by
      clear he
      induction hp with
      | nil => simp at hm
      | @cons p r' ps rs hp _ ih =>
        rcases List.mem_cons.1 hm with rfl | hm
        · exact ⟨p, by simp, by rw [hp.1, hnil]⟩
        · obtain ⟨p', hp', h⟩ := ih hm
          exact ⟨p', by simp [hp'], h⟩
    obtain ⟨p, hpm, hpn⟩ := hps
    left
    rw [mergeReports_none hm hnil]
    refine ⟨?_, rfl⟩
    show Option.bind (Option.bind (newInt k s.heap) _) _ = none
    cases newInt k s.heap with
    | none => rfl
    | some r0 =>
      dsimp only [Option.bind_some]
      rw [bind_run, forEach_none hpm (fun h => by unfold mergePtr; rw [hpn]; rfl)]
      rfl
  · have hl : ∀ r ∈ rs, r.hasNil = false := fun r hr => by
      cases hb : r.hasNil with
      | false => rfl
      | true => exact absurd ⟨r, hr, hb⟩ hn
    rw [mergeReports_some hl]
    obtain ⟨o, h', q', e, hg, ho, hgr⟩ := hr.good.absorb (overall_spec hp hl k)
    have e2 : ((do let overall ← newInt k; forEach ps (mergePtr overall); setAggregation perm s.maxIntervals s.arr overall : Cmd Unit)) s.heap
        = setAggregation perm s.maxIntervals s.arr o h' := by
      rw [bind_run] at e ⊢
      cases hn : newInt k s.heap with
      | none => rw [hn] at e; cases e
      | some r0 =>
        rw [hn] at e
        dsimp only [Option.bind_some] at e ⊢
        rw [bind_run] at e ⊢
        cases hf : forEach ps (mergePtr r0.1) r0.2 with
        | none => rw [hf] at e; cases e
        | some r1 =>
          rw [hf] at e
          cases e
          rfl
    rw [e2]
    have hr' : Repr q' { s with heap := h' } v := ⟨hr.duration, hr.max, hg, hr.hosts.imp (fun _ _ h => h.mono hgr.sub), hr.needing, hr.status⟩
    have h1 := set_sim hr' perm ho
    have e3 : (do let (_, h) ← setAggregation perm s.maxIntervals s.arr o h'; return { s with heap := h } : Option Hd)
        = ((setAggregation perm s.maxIntervals s.arr o h').map (fun r => { s with heap := r.2 })) := by
      cases setAggregation perm s.maxIntervals s.arr o h' <;> rfl
    rw [e3]
    rcases h1 with h1 | ⟨t, w, q'', e4, e5, ha', hr'', hg''⟩
    · exact .inl h1
    · exact .inr ⟨t, w, q'', e4, e5, ha', hr'', hgr.trans hg''⟩

theorem recalculateMany_sim (perm : List Int → List Nat) {q0 : Part} {entries : Time → List (Healthd.Key × Ptr)} {ventries : Time → List (Healthd.Key × Report)}
    (he : ∀ k, List.Forall₂ (entryIn q0) (entries k) (ventries k)) (ks : List Time) {q : Part} {s : Hd} {v : Healthd.State} (hs : q0.Sub q) (hr : Repr q s v) :
    Sim q s (ks.foldlM (Hd.recalculateOne perm entries) s) (ks.foldlM (Healthd.recalculateOne (sortAggs perm) ventries) v) := by
  induction ks generalizing q s v with
  | nil => exact .inr ⟨s, v, q, rfl, rfl, rfl, hr, .refl _ _ _⟩
  | cons k ks ih =>
    simp only [List.foldlM_cons]
    exact (recalculateOne_sim hr perm k (fun k => (he k).imp (fun _ _ h => h.mono hs))).bind (fun t w q' _ hs' hr' => ih (hs.trans hs') hr')

theorem recalculate_sim {q : Part} {s : Hd} {v : Healthd.State} (hr : Repr q s v) (perm : List Int → List Nat) (ks : List Time)
    {entries : Time → List (Healthd.Key × Ptr)} {ventries : Time → List (Healthd.Key × Report)} (he : ∀ k, List.Forall₂ (entryIn q) (entries k) (ventries k)) :
    Sim q s (s.recalculateIntervals perm ks entries) (Healthd.recalculateIntervals (sortAggs perm) ks ventries v) := by
  refine (recalculateMany_sim perm he ks (.refl _) hr).bind (fun t w q' _ _ hr' => ?_)
  exact .inr ⟨_, _, q', rfl, rfl, rfl, ⟨hr'.duration, hr'.max, hr'.good, hr'.hosts, rfl, hr'.status⟩, .refl _ _ _⟩

/-! ### A step -/

/-- every step in memory is a step of the model of values. -/
theorem step_sim {q : Part} {s : Hd} {v : Healthd.State} (hr : Repr q s v) (perm : List Int → List Nat) {op : HdOp} (hv : op.Valid s) :
    ∃ vop : Healthd.Op, vop.Valid v ∧ Sim q s (s.step perm op) (Healthd.step (sortAggs perm) v vop) := by
  cases op with
  | response r now1 now2 => exact ⟨.response r now1 now2, trivial, consume_sim hr now1 now2 r⟩
  | purge now => exact ⟨.purge now, trivial, purge_sim hr now⟩
  | recalculate ks entries =>
    obtain ⟨h1, h2⟩ := hv
    have : ∀ k, ∃ ve, List.Forall₂ (entryIn q) (entries k) ve ∧ ve.Perm v.hostAggregations := by
      intro k
      obtain ⟨ve, h3, h4⟩ := List.perm_comp_forall₂ (h2 k) hr.hosts
      exact ⟨ve, h3, h4⟩
    choose ve h3 h4 using this
    exact ⟨.recalculate ks ve, ⟨hr.needing ▸ h1, h4⟩, recalculate_sim hr perm ks h3⟩

end Mem
