import Verif.Lemmas.HeapRepr
import Verif.Lemmas.Clone
/-! Every operation on aggregations in memory does to what they stand for what the operation of `Model/Aggregation.lean` does to values. -/
namespace Mem

def timerR (a : Addr) (t : TimerAgg) : Assn := a ↦ .timer t
def errsR (a : Addr) (e : ErrorCounter) : Assn := a ↦ .errs e
def mapsR (ms : Maps) (am : AggMaps) : Assn :=
  ptrMapR timerR ms.timers am.timers ∗ ms.gauges ↦ .floats am.gauges ∗ ms.events ↦ .ints am.events ∗ ptrMapR errsR ms.eventErrs am.eventErrs
def jobR (a : Addr) (j : JobAgg) : Assn := ex fun ms => a ↦ .job ms j.timer (countsOf j) ∗ mapsR ms j.maps
/-- the objects of an interval aggregation that stands for `v`. -/
def intR (a : Addr) (v : IntAgg) : Assn :=
  ex fun (x : Addr × Maps) => a ↦ .int v.start v.serial x.1 x.2 ∗ ptrMapR jobR x.1 v.jobs ∗ mapsR x.2 v.maps

theorem pto_sub {a : Addr} {c : Cell} {p q : Part} (hp : (a ↦ c) p) (hs : p.Sub q) : q a = some c := by
  apply hs
  rw [hp]
  simp

/-! ## New objects -/

theorem initMaps_spec {q : Part} : Triple q emp initMaps (fun ms => mapsR ms .init) := by
  unfold initMaps
  refine step_alloc (fun t => step_alloc (fun g => step_alloc (fun e => step_alloc (fun ee => ?_))))
  refine (Triple.pure (Q := fun ms => mapsR ms .init) (⟨t, g, e, ee⟩ : Maps)).conseq ?_ (fun _ => Entails.refl _)
  intro p hp
  have h1 : ee ↦ .refs [] ∗ e ↦ .ints [] ∗ g ↦ .floats [] ∗ t ↦ .refs [] ∗ emp = t ↦ .refs [] ∗ g ↦ .floats [] ∗ e ↦ .ints [] ∗ ee ↦ .refs [] := by
    rw [sep_emp]; ac_rfl
  rw [h1] at hp
  refine sep_mono ?_ (sep_mono (Entails.refl _) (sep_mono (Entails.refl _) ?_)) p hp <;>
  · intro p hp
    refine ⟨[], ?_⟩
    show (_ ∗ emp) p
    rwa [sep_emp]

theorem newJob_spec {q : Part} : Triple q emp newJob (fun a => jobR a .init) := by
  unfold newJob
  refine initMaps_spec.bind (fun ms => ?_)
  refine (Triple.alloc _).frame' (mapsR ms .init) (Entails.of_eq (emp_sep _).symm) (fun a p hp => ⟨ms, hp⟩)

theorem newInt_spec {q : Part} (s : Time) : Triple q emp (newInt s) (fun a => intR a (.new s)) := by
  unfold newInt
  refine step_alloc (fun j => ?_)
  refine Triple.bind (Triple.emp initMaps_spec) (fun ms => ?_)
  refine (Triple.alloc _).frame' (j ↦ .refs [] ∗ mapsR ms .init) (Entails.of_eq ?_) (fun a p hp => ⟨(j, ms), ?_⟩)
  · rw [sep_emp, emp_sep]
  · refine sep_mono (Entails.refl _) (sep_mono (fun p hp => ⟨[], ?_⟩) (Entails.refl _)) p hp
    show (_ ∗ emp) p
    rwa [sep_emp]

/-! ## Emissions -/

theorem swap3 (A B C D : Assn) : C ∗ (A ∗ B ∗ D) = A ∗ B ∗ C ∗ D := by ac_rfl
theorem swap2 (A B C : Assn) : B ∗ (A ∗ C) = A ∗ B ∗ C := by ac_rfl
theorem swap4 (A B C D : Assn) : D ∗ (A ∗ B ∗ C) = A ∗ B ∗ C ∗ D := by ac_rfl

theorem emitMaps_spec {q : Part} (ms : Maps) (am : AggMaps) (e : Emit) : Triple q (mapsR ms am) (emitMaps ms e) (fun _ => mapsR ms (am.applyE e)) := by
  cases e with
  | event j ev =>
    unfold mapsR
    refine Triple.conseq (P := ms.events ↦ .ints am.events ∗ (ptrMapR timerR ms.timers am.timers ∗ ms.gauges ↦ .floats am.gauges ∗ ptrMapR errsR ms.eventErrs am.eventErrs))
      (step_loadInts end_store) (Entails.of_eq (by ac_rfl)) (fun _ => Entails.of_eq (swap3 _ _ _ _))
  | eventErr j ev er =>
    unfold mapsR
    refine (update_spec (P := errsR) (v0 := .zero) (Triple.alloc _) (f := fun a => addErr a er) (g := fun x => x.incrementAndAddError er) (fun b v => ?_)
      ms.eventErrs am.eventErrs ev).frame'
      (ptrMapR timerR ms.timers am.timers ∗ ms.gauges ↦ .floats am.gauges ∗ ms.events ↦ .ints am.events) (Entails.of_eq (by ac_rfl)) (fun _ => Entails.of_eq ?_)
    · refine Triple.conseq (P := errsR b v ∗ emp) (step_loadErrs end_store) (Entails.of_eq (sep_emp _).symm) (fun _ => Entails.of_eq (sep_emp _))
    · exact swap4 _ _ _ _
  | timing j ev n =>
    unfold mapsR
    refine (update_spec (P := timerR) (v0 := .zero) (Triple.alloc _) (f := fun a => ingestTimer a n) (g := fun x => x.ingest n) (fun b v => ?_)
      ms.timers am.timers ev).frame'
      (ms.gauges ↦ .floats am.gauges ∗ ms.events ↦ .ints am.events ∗ ptrMapR errsR ms.eventErrs am.eventErrs) (Entails.refl _) (fun _ => Entails.refl _)
    refine Triple.conseq (P := timerR b v ∗ emp) (step_loadTimer end_store) (Entails.of_eq (sep_emp _).symm) (fun _ => Entails.of_eq (sep_emp _))
  | gauge j ev v =>
    unfold mapsR
    refine Triple.conseq (P := ms.gauges ↦ .floats am.gauges ∗ (ptrMapR timerR ms.timers am.timers ∗ ms.events ↦ .ints am.events ∗ ptrMapR errsR ms.eventErrs am.eventErrs))
      (step_loadFloats end_store) (Entails.of_eq (by ac_rfl)) (fun _ => Entails.of_eq (swap2 _ _ _))
  | complete j st n => exact Triple.pure (Q := fun _ => mapsR ms am) ()

theorem ingest_parts (j : JobAgg) (st : Status) (n : Int) : (j.ingest st n).maps = j.maps ∧
    ((jobVal j.timer (countsOf j) .init).ingest st n).timer = (j.ingest st n).timer ∧
    countsOf ((jobVal j.timer (countsOf j) .init).ingest st n) = countsOf (j.ingest st n) := by
  unfold JobAgg.ingest jobVal countsOf
  dsimp only
  split_ifs <;> simp

theorem emitJob_spec {q : Part} (a : Addr) (j : JobAgg) (e : Emit) : Triple q (jobR a j) (emitJob a e) (fun _ => jobR a (j.applyE e)) := by
  have hmaps : ∀ e, Triple q (jobR a j) (do let (jms, _, _) ← loadJob a; emitMaps jms e) (fun _ => jobR a { j with maps := j.maps.applyE e }) := by
    intro e
    refine Triple.ex (fun ms => step_loadJob ?_)
    refine (emitMaps_spec ms j.maps e).frame' (a ↦ .job ms j.timer (countsOf j)) (Entails.of_eq (sep_comm _ _)) (fun _ p hp => ⟨ms, ?_⟩)
    rw [sep_comm] at hp
    exact hp
  cases e with
  | event jb ev => exact hmaps _
  | eventErr jb ev er => exact hmaps _
  | timing jb ev n => exact hmaps _
  | gauge jb ev v => exact hmaps _
  | complete jb st n =>
    refine Triple.ex (fun ms => step_loadJob (end_store.conseq (Entails.refl _) (fun _ p hp => ⟨ms, ?_⟩)))
    show (a ↦ .job ms (j.ingest st n).timer (countsOf (j.ingest st n)) ∗ mapsR ms (j.ingest st n).maps) p
    rw [(ingest_parts j st n).1, ← (ingest_parts j st n).2.1, ← (ingest_parts j st n).2.2]
    exact hp

theorem emitInt_spec {q : Part} (a : Addr) (v : IntAgg) (e : Emit) : Triple q (intR a v) (emitInt a e) (fun _ => intR a (v.apply e)) := by
  rw [IntAgg.apply_eq]
  refine Triple.ex (fun x => ?_)
  obtain ⟨jobs, ms⟩ := x
  dsimp only
  unfold emitInt
  refine step_loadInt ?_
  dsimp only
  refine Triple.bind ((emitMaps_spec ms v.maps e).frame' (a ↦ .int v.start v.serial jobs ms ∗ ptrMapR jobR jobs v.jobs) (Entails.of_eq (by ac_rfl))
    (fun _ => Entails.refl _)) (fun _ => ?_)
  have h1 : (do let j ← getJobAggregation jobs (jobOf e); emitJob j e; bump a : Cmd Unit) =
      ((do let j ← getJobAggregation jobs (jobOf e); emitJob j e : Cmd Unit) >>= fun _ => bump a) := (bind_assoc _ _ _).symm
  rw [h1]
  refine Triple.bind ((update_spec (q := q) newJob_spec (f := fun j => emitJob j e) (g := fun j => j.applyE e) (fun b v => emitJob_spec b v e) jobs v.jobs (jobOf e)).frame'
    (a ↦ .int v.start v.serial jobs ms ∗ mapsR ms (v.maps.applyE e)) (Entails.of_eq (by ac_rfl)) (fun _ => Entails.refl _)) (fun _ => ?_)
  refine Triple.conseq (P := a ↦ .int v.start v.serial jobs ms ∗ (ptrMapR jobR jobs (v.jobs.set (jobOf e) (((v.jobs.get? (jobOf e)).getD .init).applyE e)) ∗ mapsR ms (v.maps.applyE e)))
    (step_loadInt end_store) (Entails.of_eq (by ac_rfl)) (fun _ p hp => ⟨(jobs, ms), ?_⟩)
  have hj : jobOf e = Spec.jobOf e := by cases e <;> rfl
  rw [hj] at hp
  exact hp

/-! ## What a reader of a part sees -/

def timerIn (q : Part) (a : Addr) (t : TimerAgg) : Prop := q a = some (.timer t)
def errsIn (q : Part) (a : Addr) (t : ErrorCounter) : Prop := q a = some (.errs t)
def refsIn {V : Type} (q : Part) (J : Addr → V → Prop) (a : Addr) (vs : GoMap Str V) : Prop := ∃ m, q a = some (.refs m) ∧ Match J m vs
structure mapsIn (q : Part) (ms : Maps) (am : AggMaps) : Prop where
  timers : refsIn q (timerIn q) ms.timers am.timers
  gauges : q ms.gauges = some (.floats am.gauges)
  events : q ms.events = some (.ints am.events)
  eventErrs : refsIn q (errsIn q) ms.eventErrs am.eventErrs
def jobIn (q : Part) (a : Addr) (j : JobAgg) : Prop := ∃ ms, q a = some (.job ms j.timer (countsOf j)) ∧ mapsIn q ms j.maps
/-- reading the pointer `a` in `q` gives `v`. -/
def intIn (q : Part) (a : Addr) (v : IntAgg) : Prop :=
  ∃ jobs ms, q a = some (.int v.start v.serial jobs ms) ∧ refsIn q (jobIn q) jobs v.jobs ∧ mapsIn q ms v.maps

theorem refsR_in {V : Type} {P : Addr → V → Assn} {J : Addr → V → Prop} {q : Part} (hP : ∀ a v qa, P a v qa → qa.Sub q → J a v)
    {m : GoMap Str Addr} {vs : GoMap Str V} {qm : Part} (h : refsR P m vs qm) (hs : qm.Sub q) : Match J m vs := by
  induction m generalizing vs qm with
  | nil =>
    cases vs with
    | nil => exact .nil
    | cons a t => exact absurd h (by unfold refsR; simp)
  | cons x m ih =>
    obtain ⟨k0, a⟩ := x
    cases vs with
    | nil => exact absurd h (by unfold refsR; simp)
    | cons y vs =>
      obtain ⟨k', v⟩ := y
      rw [refsR, lift_sep] at h
      obtain ⟨rfl, p1, p2, h1, h2, hd, rfl⟩ := h
      exact .cons ⟨rfl, hP _ _ _ h1 hs.left⟩ (ih h2 (hs.right hd))
theorem ptrMapR_in {V : Type} {P : Addr → V → Assn} {J : Addr → V → Prop} {q : Part} (hP : ∀ a v qa, P a v qa → qa.Sub q → J a v)
    {a : Addr} {vs : GoMap Str V} {qa : Part} (h : ptrMapR P a vs qa) (hs : qa.Sub q) : refsIn q J a vs := by
  obtain ⟨m, p1, p2, h1, h2, hd, rfl⟩ := h
  exact ⟨m, pto_sub h1 hs.left, refsR_in hP h2 (hs.right hd)⟩
theorem mapsR_in {ms : Maps} {am : AggMaps} {q qa : Part} (h : mapsR ms am qa) (hs : qa.Sub q) : mapsIn q ms am := by
  obtain ⟨p1, _, h1, ⟨p2, _, h2, ⟨p3, p4, h3, h4, hd3, rfl⟩, hd2, rfl⟩, hd1, rfl⟩ := h
  have hs2 := hs.right hd1
  have hs3 := hs2.right hd2
  exact ⟨ptrMapR_in (fun _ _ _ h1 h2 => pto_sub h1 h2) h1 hs.left, pto_sub h2 hs2.left, pto_sub h3 hs3.left,
    ptrMapR_in (fun _ _ _ h1 h2 => pto_sub h1 h2) h4 (hs3.right hd3)⟩
theorem jobR_in {a : Addr} {j : JobAgg} {q qa : Part} (h : jobR a j qa) (hs : qa.Sub q) : jobIn q a j := by
  obtain ⟨ms, p1, p2, h1, h2, hd, rfl⟩ := h
  exact ⟨ms, pto_sub h1 hs.left, mapsR_in h2 (hs.right hd)⟩
theorem intR_in {a : Addr} {v : IntAgg} {q qa : Part} (h : intR a v qa) (hs : qa.Sub q) : intIn q a v := by
  obtain ⟨⟨jobs, ms⟩, p1, _, h1, ⟨p2, p3, h2, h3, hd2, rfl⟩, hd, rfl⟩ := h
  have hs2 := hs.right hd
  exact ⟨jobs, ms, pto_sub h1 hs.left, ptrMapR_in (fun _ _ _ h1 h2 => jobR_in h1 h2) h2 hs2.left, mapsR_in h3 (hs2.right hd2)⟩

theorem Match.mono {V : Type} {J J' : Addr → V → Prop} {m : GoMap Str Addr} {vs : GoMap Str V} (h : Match J m vs) (hJ : ∀ a v, J a v → J' a v) :
    Match J' m vs := List.Forall₂.imp (fun _ _ h => ⟨h.1, hJ _ _ h.2⟩) h
theorem mapsIn.mono {q q' : Part} {ms : Maps} {am : AggMaps} (h : mapsIn q ms am) (hs : q.Sub q') : mapsIn q' ms am := by
  obtain ⟨⟨m1, e1, h1⟩, h2, h3, ⟨m4, e4, h4⟩⟩ := h
  exact ⟨⟨m1, hs _ _ e1, h1.mono (fun _ _ => hs _ _)⟩, hs _ _ h2, hs _ _ h3, ⟨m4, hs _ _ e4, h4.mono (fun _ _ => hs _ _)⟩⟩
theorem jobIn.mono {q q' : Part} {a : Addr} {j : JobAgg} (h : jobIn q a j) (hs : q.Sub q') : jobIn q' a j := by
  obtain ⟨ms, e, h⟩ := h
  exact ⟨ms, hs _ _ e, h.mono hs⟩
theorem intIn.mono {q q' : Part} {a : Addr} {v : IntAgg} (h : intIn q a v) (hs : q.Sub q') : intIn q' a v := by
  obtain ⟨jobs, ms, e, ⟨m, e2, h2⟩, h3⟩ := h
  exact ⟨jobs, ms, hs _ _ e, ⟨m, hs _ _ e2, h2.mono (fun _ _ h => h.mono hs)⟩, h3.mono hs⟩

/-! ## Copies -/

theorem cloneTimer_spec {q : Part} (a : Addr) (t : TimerAgg) (ha : timerIn q a t) : Triple q emp (cloneTimer a) (fun c => timerR c t) := by
  refine read_loadTimer ha (Triple.alloc _)

theorem cloneErrs_spec {q : Part} (a : Addr) (t : ErrorCounter) (ha : errsIn q a t) : Triple q emp (cloneErrs a) (fun c => errsR c t) := by
  refine read_loadErrs ha (Triple.alloc _)

theorem cloneMaps_spec {q : Part} (ms : Maps) (am : AggMaps) (ha : mapsIn q ms am) :
    Triple q emp (cloneMaps ms) (fun dup => mapsR dup am.clone) := by
  obtain ⟨⟨mt, ht, hrt⟩, hg, he, ⟨me, hee, hre⟩⟩ := ha
  unfold cloneMaps
  refine initMaps_spec.bind (fun dup => ?_)
  refine read_loadInts he ?_
  refine Triple.bind ((forEach_spec (I := fun m => dup.events ↦ .ints m) (g := fun m (p : Str × Int) => m.set p.1 p.2) am.events (fun x _ m => ?_) []).frame'
    (ptrMapR timerR dup.timers [] ∗ dup.gauges ↦ .floats [] ∗ ptrMapR errsR dup.eventErrs []) ?_ (fun _ => Entails.refl _)) (fun _ => ?_)
  · refine Triple.conseq (P := dup.events ↦ .ints m ∗ emp) (step_loadInts end_store) (Entails.of_eq (sep_emp _).symm) (fun _ => Entails.of_eq (sep_emp _))
  · refine Entails.of_eq ?_
    show ptrMapR timerR dup.timers [] ∗ dup.gauges ↦ .floats [] ∗ dup.events ↦ .ints [] ∗ ptrMapR errsR dup.eventErrs [] = _
    ac_rfl
  refine read_loadFloats hg ?_
  refine Triple.bind ((forEach_spec (I := fun m => dup.gauges ↦ .floats m) (g := fun m (p : Str × F64) => m.set p.1 p.2) am.gauges (fun x _ m => ?_) []).frame'
    (ptrMapR timerR dup.timers [] ∗ dup.events ↦ .ints (am.events.foldl (fun m p => m.set p.1 p.2) []) ∗ ptrMapR errsR dup.eventErrs [])
    (Entails.of_eq (by ac_rfl)) (fun _ => Entails.refl _)) (fun _ => ?_)
  · refine Triple.conseq (P := dup.gauges ↦ .floats m ∗ emp) (step_loadFloats end_store) (Entails.of_eq (sep_emp _).symm) (fun _ => Entails.of_eq (sep_emp _))
  refine read_loadRefs ht ?_
  refine Triple.bind ((cloneRefs_spec (cl := id) hrt cloneTimer_spec dup.timers []).frame'
    (dup.gauges ↦ .floats (am.gauges.foldl (fun m p => m.set p.1 p.2) []) ∗ dup.events ↦ .ints (am.events.foldl (fun m p => m.set p.1 p.2) []) ∗ ptrMapR errsR dup.eventErrs [])
    (Entails.of_eq (by ac_rfl)) (fun _ => Entails.refl _)) (fun _ => ?_)
  refine read_loadRefs hee ?_
  refine Triple.bind ((cloneRefs_spec (cl := id) hre cloneErrs_spec dup.eventErrs []).frame'
    (dup.gauges ↦ .floats (am.gauges.foldl (fun m p => m.set p.1 p.2) []) ∗ dup.events ↦ .ints (am.events.foldl (fun m p => m.set p.1 p.2) []) ∗
      ptrMapR timerR dup.timers (am.timers.foldl (fun m p => m.set p.1 (id p.2)) []))
    (Entails.of_eq (by ac_rfl)) (fun _ => Entails.refl _)) (fun _ => ?_)
  refine (Triple.pure (Q := fun dup => mapsR dup am.clone) dup).conseq (Entails.of_eq ?_) (fun _ => Entails.refl _)
  unfold mapsR AggMaps.clone
  simp only [id]
  ac_rfl

theorem cloneJob_spec {q : Part} (a : Addr) (j : JobAgg) (ha : jobIn q a j) :
    Triple q emp (cloneJob a) (fun c => jobR c j.clone) := by
  obtain ⟨ms, h1, h2⟩ := ha
  unfold cloneJob
  refine read_loadJob h1 ?_
  refine (cloneMaps_spec ms j.maps h2).bind (fun dup => ?_)
  exact (Triple.alloc _).frame' (mapsR dup j.maps.clone) (Entails.of_eq (emp_sep _).symm) (fun c p hp => ⟨dup, hp⟩)

theorem cloneInt_spec {q : Part} (a : Addr) (v : IntAgg) (ha : intIn q a v) :
    Triple q emp (cloneInt a) (fun c => intR c v.clone) := by
  obtain ⟨jobs, ms, h1, ⟨m, hj, hr⟩, h3⟩ := ha
  unfold cloneInt
  refine read_loadInt h1 ?_
  refine (cloneMaps_spec ms v.maps h3).bind (fun dup => ?_)
  refine step_alloc (fun dj => ?_)
  refine read_loadRefs hj ?_
  refine Triple.bind ((cloneRefs_spec (cl := JobAgg.clone) hr cloneJob_spec dj []).frame'
    (mapsR dup v.maps.clone) (sep_mono (fun p hp => ⟨[], ?_⟩) (Entails.refl _)) (fun _ => Entails.refl _)) (fun _ => ?_)
  · show (_ ∗ emp) p
    rwa [sep_emp]
  exact (Triple.alloc _).frame' (ptrMapR jobR dj (v.jobs.foldl (fun m (p : Str × JobAgg) => m.set p.1 p.2.clone) []) ∗ mapsR dup v.maps.clone)
    (Entails.of_eq (emp_sep _).symm) (fun c p hp => ⟨(dj, dup), hp⟩)

/-! ## Merges -/

theorem mergeTimer_spec {q : Part} (a : Addr) (t : TimerAgg) (ha : timerIn q a t) (b : Addr) (u : TimerAgg) :
    Triple q (timerR b u) (mergeTimer b a) (fun _ => timerR b (u.merge t)) := by
  refine read_loadTimer ha ?_
  refine Triple.conseq (P := timerR b u ∗ emp) (step_loadTimer end_store) (Entails.of_eq (sep_emp _).symm) (fun _ => Entails.of_eq (sep_emp _))

theorem mergeErrc_spec {q : Part} (a : Addr) (t : ErrorCounter) (ha : errsIn q a t) (b : Addr) (u : ErrorCounter) :
    Triple q (errsR b u) (mergeErrc b a) (fun _ => errsR b (u.merge t)) := by
  refine read_loadErrs ha ?_
  refine Triple.conseq (P := errsR b u ∗ emp) (step_loadErrs end_store) (Entails.of_eq (sep_emp _).symm) (fun _ => Entails.of_eq (sep_emp _))

theorem mergeTimers_eq (into frm : GoMap Str TimerAgg) : frm.foldl (mergeVal TimerAgg.merge id) into = mergeTimers into frm := by
  unfold mergeTimers
  congr 1
  funext m p
  unfold mergeVal
  obtain ⟨k, v⟩ := p
  dsimp only
  cases GoMap.get? m k <;> rfl
theorem mergeErrs_eq (into frm : GoMap Str ErrorCounter) : frm.foldl (mergeVal ErrorCounter.merge id) into = mergeErrs into frm := by
  unfold mergeErrs
  congr 1
  funext m p
  unfold mergeVal
  obtain ⟨k, v⟩ := p
  dsimp only
  cases GoMap.get? m k <;> rfl
theorem mergeJobs_eq (into frm : GoMap Str JobAgg) : frm.foldl (mergeVal JobAgg.merge JobAgg.clone) into = mergeJobs into frm := by
  unfold mergeJobs
  congr 1
  funext m p
  unfold mergeVal
  obtain ⟨k, v⟩ := p
  dsimp only
  cases GoMap.get? m k <;> rfl

theorem mergeMaps_spec {q : Part} (fr : Maps) (fm : AggMaps) (ha : mapsIn q fr fm) (ms : Maps) (am : AggMaps) :
    Triple q (mapsR ms am) (mergeMaps ms fr) (fun _ => mapsR ms (am.merge fm)) := by
  obtain ⟨⟨mt, ht, hrt⟩, hg, he, ⟨me, hee, hre⟩⟩ := ha
  unfold mergeMaps
  refine read_loadInts he ?_
  refine Triple.bind ((forEach_spec (I := fun m => ms.events ↦ .ints m) (g := fun m (p : Str × Int) => m.set p.1 (i64 (m.getD p.1 0 + p.2))) fm.events
    (fun x _ m => ?_) am.events).frame'
    (ptrMapR timerR ms.timers am.timers ∗ ms.gauges ↦ .floats am.gauges ∗ ptrMapR errsR ms.eventErrs am.eventErrs) (Entails.of_eq ?_) (fun _ => Entails.refl _)) (fun _ => ?_)
  · refine Triple.conseq (P := ms.events ↦ .ints m ∗ emp) (step_loadInts end_store) (Entails.of_eq (sep_emp _).symm) (fun _ => Entails.of_eq (sep_emp _))
  · unfold mapsR
    ac_rfl
  refine read_loadFloats hg ?_
  refine Triple.bind ((forEach_spec (I := fun m => ms.gauges ↦ .floats m) (g := fun m (p : Str × F64) => m.set p.1 p.2) fm.gauges (fun x _ m => ?_) am.gauges).frame'
    (ptrMapR timerR ms.timers am.timers ∗ ms.events ↦ .ints (mergeEvents am.events fm.events) ∗ ptrMapR errsR ms.eventErrs am.eventErrs)
    (Entails.of_eq ?_) (fun _ => Entails.refl _)) (fun _ => ?_)
  · refine Triple.conseq (P := ms.gauges ↦ .floats m ∗ emp) (step_loadFloats end_store) (Entails.of_eq (sep_emp _).symm) (fun _ => Entails.of_eq (sep_emp _))
  · show ms.events ↦ .ints (mergeEvents am.events fm.events) ∗ _ = _
    ac_rfl
  refine read_loadRefs ht ?_
  refine Triple.bind ((mergeRefs_spec (cl := id) (mg := TimerAgg.merge) hrt cloneTimer_spec
    mergeTimer_spec ms.timers am.timers).frame'
    (ms.gauges ↦ .floats (mergeGauges am.gauges fm.gauges) ∗ ms.events ↦ .ints (mergeEvents am.events fm.events) ∗ ptrMapR errsR ms.eventErrs am.eventErrs)
    (Entails.of_eq ?_) (fun _ => Entails.refl _)) (fun _ => ?_)
  · show ms.gauges ↦ .floats (mergeGauges am.gauges fm.gauges) ∗ _ = _
    ac_rfl
  refine read_loadRefs hee ?_
  refine (mergeRefs_spec (cl := id) (mg := ErrorCounter.merge) hre cloneErrs_spec
    mergeErrc_spec ms.eventErrs am.eventErrs).frame'
    (ms.gauges ↦ .floats (mergeGauges am.gauges fm.gauges) ∗ ms.events ↦ .ints (mergeEvents am.events fm.events) ∗
      ptrMapR timerR ms.timers (mergeTimers am.timers fm.timers))
    (Entails.of_eq ?_) (fun _ => Entails.of_eq ?_)
  · rw [mergeTimers_eq]
    ac_rfl
  · rw [mergeErrs_eq]
    unfold mapsR AggMaps.merge
    ac_rfl

theorem mergeJob_spec {q : Part} (a : Addr) (t : JobAgg) (ha : jobIn q a t) (b : Addr) (u : JobAgg) :
    Triple q (jobR b u) (mergeJob b a) (fun _ => jobR b (u.merge t)) := by
  obtain ⟨fms, h1, h2⟩ := ha
  unfold mergeJob
  refine Triple.ex (fun ms => step_loadJob ?_)
  refine read_loadJob h1 ?_
  dsimp only
  refine Triple.bind ((mergeMaps_spec fms t.maps h2 ms u.maps).frame' (b ↦ .job ms u.timer (countsOf u)) (Entails.of_eq (sep_comm _ _))
    (fun _ => Entails.of_eq (sep_comm _ _))) (fun _ => ?_)
  exact step_loadJob (end_store.conseq (Entails.refl _) (fun _ p hp => ⟨ms, hp⟩))

theorem mergeInt_spec {q : Part} (a : Addr) (w : IntAgg) (ha : intIn q a w) (b : Addr) (v : IntAgg) :
    Triple q (intR b v) (mergeInt b a) (fun _ => intR b (v.merge w)) := by
  obtain ⟨fjobs, fms, h1, ⟨m, hj, hr⟩, h3⟩ := ha
  unfold mergeInt
  refine Triple.ex (fun x => step_loadInt ?_)
  obtain ⟨jobs, ms⟩ := x
  dsimp only
  refine read_loadInt h1 ?_
  dsimp only
  refine Triple.bind ((mergeMaps_spec fms w.maps h3 ms v.maps).frame' (b ↦ .int v.start v.serial jobs ms ∗ ptrMapR jobR jobs v.jobs)
    (Entails.of_eq (by ac_rfl)) (fun _ => Entails.refl _)) (fun _ => ?_)
  refine read_loadRefs hj ?_
  refine Triple.bind ((mergeRefs_spec (cl := JobAgg.clone) (mg := JobAgg.merge) hr cloneJob_spec
    mergeJob_spec jobs v.jobs).frame'
    (b ↦ .int v.start v.serial jobs ms ∗ mapsR ms (v.maps.merge w.maps)) (Entails.of_eq (by ac_rfl)) (fun _ => Entails.refl _)) (fun _ => ?_)
  refine Triple.conseq (P := b ↦ .int v.start v.serial jobs ms ∗ (ptrMapR jobR jobs (mergeJobs v.jobs w.jobs) ∗ mapsR ms (v.maps.merge w.maps)))
    (step_loadInt end_store) (Entails.of_eq ?_) (fun _ p hp => ⟨(jobs, ms), hp⟩)
  rw [mergeJobs_eq]
  ac_rfl

end Mem
