import Verif.Spec.System
import Verif.Props.Program
import Verif.Props.HealthdHistory
import Verif.Props.Healthtop
/-!
# The whole system: programs, processes, healthd, healthtop (C91)
-/
open Spec Spec.Top Healthd EndToEnd Api Healthtop

namespace System

/-- the history without the purges. -/
def keepAll (h : List Op) : List Op := h.filter (fun | .purge _ => false | _ => true)

theorem mem_keepAll {h : List Op} {op : Op} (hm : op ∈ keepAll h) : op ∈ h := List.mem_of_mem_filter hm

theorem keepAll_append (a b : List Op) : keepAll (a ++ b) = keepAll a ++ keepAll b := List.filter_append ..

theorem keepAll_events (d : Int) (h : List Op) : (∀ now, Ev.purge now ∉ events d (keepAll h)) ∧ ∀ k, said (events d (keepAll h)) k = said (events d h) k := by
  induction h with
  | nil => exact ⟨by simp [keepAll, events], fun _ => rfl⟩
  | cons op t ih =>
    have e : ∀ (l : List Op) (op : Op), events d (op :: l) = events d [op] ++ events d l := by intro l op; simp [events]
    cases op with
    | purge now =>
      have : keepAll (.purge now :: t) = keepAll t := rfl
      rw [this]
      refine ⟨ih.1, fun k => ?_⟩
      rw [ih.2 k, e, said_append]
      show _ = (said (events d t) k).or none
      cases said (events d t) k <;> rfl
    | response r n1 n2 =>
      have : keepAll (.response r n1 n2 :: t) = .response r n1 n2 :: keepAll t := rfl
      rw [this]
      refine ⟨fun now hm => ?_, fun k => ?_⟩
      · rw [e] at hm
        rcases List.mem_append.1 hm with hm | hm
        · simp only [events, List.flatMap_cons, List.flatMap_nil, List.append_nil] at hm
          split at hm
          · simp only [reportsIn, List.mem_filterMap] at hm
            obtain ⟨x, _, hx⟩ := hm
            cases x <;> simp at hx
          · cases hm
        · exact ih.1 now hm
      · rw [e, e t, said_append, said_append, ih.2 k]
    | recalculate ks es =>
      have : keepAll (.recalculate ks es :: t) = .recalculate ks es :: keepAll t := rfl
      rw [this]
      refine ⟨fun now hm => ?_, fun k => ?_⟩
      · rw [e] at hm
        rcases List.mem_append.1 hm with hm | hm
        · simp [events] at hm
        · exact ih.1 now hm
      · rw [e, e t, said_append, said_append, ih.2 k]

theorem fleet_keepAll {lo : Int → Int} {d : Int} {P : List Process} {h : List Op} (f : Fleet lo d P h) : Fleet lo d P (keepAll h) :=
  ⟨f.pos, f.fits, f.procs, f.nodup, fun r n1 n2 hm => f.watches r n1 n2 (mem_keepAll hm)⟩

theorem hasAll_keepAll {lo : Int → Int} {d ns : Int} {p : Process} {h : List Op} (ha : HasAll lo d ns p h) : HasAll lo d ns p (keepAll h) := by
  obtain ⟨hA, r, n1, n2, hB, rfl, h1, h2⟩ := ha
  refine ⟨keepAll hA, r, n1, n2, keepAll hB, ?_, h1, fun r' a b hm => h2 r' a b (mem_keepAll hm)⟩
  rw [keepAll_append]
  rfl

end System
open System

/-- C91: as long as healthd shows an interval and is up to date about it — however long ago it threw the processes' data away — the interval shows what the processes emitted. -/
theorem C91_interval {sort : List IntAgg → List IntAgg} (hsort : SortsByStart sort) {hosts : List Str} {h : List Op} {s : State} (hr : Runs sort (init hosts) h s)
    {lo : Int → Int} {d : Int} {P : List Process} (f : Fleet lo d P h) {a : IntAgg} (ha : a ∈ s.intervalAggregations) (hu : UpToDate lo d P h a.start) :
    let es := P.flatMap (fun p => madeIn d a.start.ns p.hist)
    (∀ c, value a c = expected c es) ∧ (es.length < 2 ^ 63 → ∀ x, (∀ j, x ≠ .job j) → ExtremesOf a x (samples es x)) := by
  have hag : agreed h = d := by
    by_cases hex : ∃ r n1 n2, Op.response r n1 n2 ∈ h ∧ Succeeded r
    · obtain ⟨r, n1, n2, h1, h2⟩ := hex
      exact f.agreed h1 h2
    · exfalso
      have hser : s.intervalAggregations = [] := by
        refine (Inv.noReports (fun k b hm => ?_) (hr.inv hsort f.decoded d (fun h0 => ?_) f.fits)).2.2
        · obtain ⟨r, n1, n2, _, h1, h2, _⟩ := events_report_mem hm
          exact hex ⟨r, n1, n2, h1, h2⟩
        · rcases hr.phase with p | p
          · exact absurd p.1 h0
          · obtain ⟨r, n1, n2, h1, h2⟩ := p.2.2.1
            exact absurd ⟨r, n1, n2, h1, h2⟩ hex
      rw [hser] at ha
      cases ha
  have htot : AllTotals (events d h) a.start a := by
    have := C87_partial hsort hr f.decoded (f.honest _) (by rw [hag]; exact f.fits) ha (by rw [hag]; exact hu.calculated) (by rw [hag]; exact hu.purged)
    rwa [hag] at this
  obtain ⟨hnp, hsaid⟩ := keepAll_events d h
  have hns : ∀ t, NeverStale d (events d (keepAll h)) t := fun t now hm => absurd hm (hnp now)
  have hl : ∀ k, latest d (events d (keepAll h)) k = said (events d h) k := fun k => by rw [latest_eq_said (hns _), hsaid]
  refine (fleet_keepAll f).of_totals (hns _) hu.zone (fun p hp hne => hasAll_keepAll (hu.all p hp hne)) ?_
  obtain ⟨ks, k1, k2, k3, k4, k5⟩ := htot
  refine ⟨ks, k1, fun k => ?_, ?_, ?_, ?_⟩
  · rw [k2, hl, said_isSome]
  · intro c; simp only [hl]; exact k3 c
  · intro x; simp only [hl]; exact k4 x
  · intro x; simp only [hl]; exact k5 x

/-- C91: so the overall aggregation counts what the processes emitted in the intervals shown. -/
theorem C91_overall {sort : List IntAgg → List IntAgg} (hsort : SortsByStart sort) {hosts : List Str} {h : List Op} {s : State} (hr : Runs sort (init hosts) h s)
    {lo : Int → Int} {d : Int} {P : List Process} (f : Fleet lo d P h) (hu : ∀ a ∈ s.intervalAggregations, UpToDate lo d P h a.start)
    {o : IntAgg} (ho : combineAggregations (memorySafeIntervals s) = some o) (c : Counter) :
    value o c = expected c ((s.intervalAggregations.map (·.start)).flatMap (fun t => P.flatMap (fun p => madeIn d t.ns p.hist))) := by
  obtain ⟨_, h2⟩ := C54_run hsort hr f.decoded
  obtain ⟨_, h3, _⟩ := h2 o ho
  rw [h3 c, ← expected_flatMap, List.map_map]
  congr 1
  apply List.map_congr_left
  intro a ha
  exact (C91_interval hsort hr f ha (hu a ha)).1 c

/-! ## Emissions and statements -/

theorem flatMap_append_perm {α β : Type} (f g : α → List β) (ts : List α) : (ts.flatMap (fun t => f t ++ g t)).Perm (ts.flatMap f ++ ts.flatMap g) := by
  induction ts with
  | nil => exact .nil
  | cons t r ih =>
    simp only [List.flatMap_cons, List.append_assoc]
    refine (List.Perm.refl _).append ?_
    refine ((List.Perm.refl _).append ih).trans ?_
    rw [← List.append_assoc, ← List.append_assoc]
    exact List.perm_append_comm.append_right _

theorem flatMap_one {α β : Type} (q : α → Prop) [DecidablePred q] (e : List β) (ts : List α) (hn : ts.countP (fun t => decide (q t)) = 1) : ts.flatMap (fun t => if q t then e else []) = e := by
  induction ts with
  | nil => simp at hn
  | cons t r iht =>
    rw [List.flatMap_cons]
    by_cases hp : q t
    · rw [if_pos hp]
      rw [List.countP_cons_of_pos (by simpa using hp)] at hn
      have hz : r.countP (fun t => decide (q t)) = 0 := by omega
      have : r.flatMap (fun t => if q t then e else []) = [] := by
        rw [List.flatMap_eq_nil_iff]
        intro u hu
        rw [List.countP_eq_zero] at hz
        rw [if_neg (by simpa using hz u hu)]
      rw [this, List.append_nil]
    · rw [if_neg hp, List.nil_append]
      rw [List.countP_cons_of_neg (by simpa using hp)] at hn
      exact iht hn

theorem madeIn_cover {d : Int} {ts : List Time} {p : Process} (hc : Covers d ts p) : (ts.flatMap (fun t => madeIn d t.ns p.hist)).Perm (p.hist.flatMap (fun x => emitsOf x.2)) := by
  obtain ⟨_, _, _, _, hist⟩ := p
  simp only [Covers] at hc ⊢
  induction hist with
  | nil => simp [madeIn]
  | cons x l ih =>
    have e : ∀ t : Time, madeIn d t.ns (x :: l) = (if t.ns ≤ x.1.ns ∧ x.1.ns < t.ns + d then emitsOf x.2 else []) ++ madeIn d t.ns l := fun t => by simp [madeIn]
    simp only [e]
    refine (flatMap_append_perm _ _ _).trans ?_
    rw [List.flatMap_cons]
    refine List.Perm.append (List.Perm.of_eq ?_) (ih (fun y hy => hc y (by simp [hy])))
    by_cases he : emitsOf x.2 = []
    · rw [he]; simp
    · exact flatMap_one _ _ _ (hc x (by simp) he)

theorem expected_perm {es es' : List Emit} (h : es.Perm es') (c : Counter) : expected c es = expected c es' := sumI_perm (h.map _)

/-- the emissions of all the processes and their statements. -/
theorem expected_programs {P : List Process} {M : List (List (Str × World.Call))} (hpm : List.Forall₂ Speaks P M) {c : Counter} (hc : Said c) :
    expected c (P.flatMap (fun p => p.hist.flatMap (fun x => emitsOf x.2))) = sumI (M.flatten.map (adds c)) := by
  have key : expected c (P.flatMap (fun p => p.hist.flatMap (fun x => emitsOf x.2))) = sumI ((M.map (fun ms => ms.map (adds c))).map sumI) := by
    rw [← expected_flatMap, List.map_map]
    congr 1
    induction hpm with
    | nil => rfl
    | @cons p ms _ _ h1 _ ih =>
      rw [List.map_cons, List.map_cons, ih]
      congr 1
      obtain ⟨deep, hs, h2, h3⟩ := h1
      rw [expected_perm h2]
      exact expected_conveys deep hc h3
  rw [key, sumI_flatten, List.map_flatten]

theorem speaks_of_runs {p : Process} {g : Program} (h : RunsProgram p g) (hg : g.Ok) : Speaks p g.statements :=
  ⟨g.deep, _, h, C89_heard g.clock g.sink g.before g.after hg.legal hg.before hg.after⟩

theorem flatMap_comm_perm {α β γ : Type} (l : List α) (m : List β) (f : α → β → List γ) : (l.flatMap (fun a => m.flatMap (f a))).Perm (m.flatMap (fun b => l.flatMap (fun a => f a b))) := by
  induction l with
  | nil => simp
  | cons a t ih =>
    simp only [List.flatMap_cons]
    refine ((List.Perm.refl _).append ih).trans ?_
    clear ih
    induction m with
    | nil => simp
    | cons b r ih =>
      simp only [List.flatMap_cons, List.append_assoc]
      refine (List.Perm.refl _).append ?_
      refine List.Perm.trans ?_ ((List.Perm.refl _).append ih)
      rw [← List.append_assoc, ← List.append_assoc]
      exact List.perm_append_comm.append_right _

/-- C91 for processes whose statements are known, however they came about (`C91_system`: by programs of one goroutine; `C92_system`: of many). -/
theorem C91_stated {sort : List IntAgg → List IntAgg} (hsort : SortsByStart sort) {hosts : List Str} {h : List Op} {s : State} (hr : Runs sort (init hosts) h s)
    {lo : Int → Int} {d : Int} {P : List Process} (f : Fleet lo d P h) (hu : ∀ a ∈ s.intervalAggregations, UpToDate lo d P h a.start)
    {M : List (List (Str × World.Call))} (hpm : List.Forall₂ Speaks P M) (hcov : ∀ p ∈ P, Covers d (s.intervalAggregations.map (·.start)) p)
    (c : Choices) (hc : c.Ok) {identifier : Str} (hi : PlainText identifier) (zone : Nat → Int → Int) (v : View) (hd : InI64 v.intervalDuration)
    (hv : v.aggregations = some (memorySafeIntervals s)) {o : IntAgg} (ho : combineAggregations (memorySafeIntervals s) = some o)
    (hp : ∀ k j, o.jobs.get? k = some j → Sound k j) (opts : Opts) (height : Int) (hh : height < 2 ^ 63) (jsonErr : Str) :
    ∃ all shown : List Row, (all.map (·.name)).Nodup ∧
      (∀ n, n ∈ all.map (·.name) ↔ ∃ m ∈ M.flatten, m.1 = n) ∧
      (∀ r ∈ all, RowSays r (M.flatten)) ∧
      (∀ k : SortKey, opts.sort = k.text → all.Pairwise (mayPrecede k)) ∧
      (opts.name = [] → shown = all.take (max (height - 2) 3).toNat) ∧
      (opts.name ≠ [] → shown.Sublist all ∧ ∀ r, r ∈ shown ↔ r ∈ all ∧ Contains r.name opts.name) ∧
      let r := respond c identifier zone v (askedSort opts height) (askedLimit opts height) .jobs
      pollJobs opts jsonErr (.answer r.code r.body none) = some (.ok ⟨identifier, v.intervalDuration, shown.map some⟩) := by
  have hfit := hr.fits hsort f.decoded
  have hmem : memorySafeIntervals s = s.intervalAggregations := by
    unfold memorySafeIntervals
    conv => rhs; rw [← List.map_id s.intervalAggregations]
    exact List.map_congr_left (fun a ha => IntAgg.clone_eq (hfit a ha).1)
  have hw : ∀ b ∈ memorySafeIntervals s, b.Wf := by rw [hmem]; exact fun b hb => (hfit b hb).1
  have hval : ∀ k, Said k → value o k = sumI ((M.flatten).map (adds k)) := by
    intro k hk
    rw [C91_overall hsort hr f hu ho k, ← expected_programs hpm hk]
    refine expected_perm ?_ k
    refine (flatMap_comm_perm _ _ _).trans ?_
    clear hpm hu f
    induction P with
    | nil => exact .nil
    | cons p t ih =>
      rw [List.flatMap_cons, List.flatMap_cons]
      exact (madeIn_cover (hcov p (by simp))).append (ih (fun p hp => hcov p (by simp [hp])))
  obtain ⟨all, shown, h1, h2, h3, h4, h5, h6⟩ := C63_shows c hc hi zone v hd hv hw ho hp opts height hh jsonErr
  have how : o.jobs.Wf := by
    cases hl : memorySafeIntervals s with
    | nil => rw [hl] at ho; simp [combineAggregations] at ho
    | cons a t =>
      rw [hl] at ho hw
      have e : o = mergeAll a.start (a :: t) := (Option.some.inj ho).symm
      rw [e]
      exact (mergeAll_wf _ _ hw).1
  refine ⟨all, shown, h1.nodup_iff.2 how, fun n => ?_, fun r hrm => ?_, h3, h4, h5, h6⟩
  · rw [h1.mem_iff]
    have e1 : n ∈ o.jobs.keys ↔ (value o (.jobCount n)).isSome := by
      rw [value, Option.isSome_map]
      exact (GoMap.get?_isSome_iff _ _).symm
    rw [e1, hval (.jobCount n) trivial]
    constructor
    · intro hsome
      by_contra hno
      push Not at hno
      have : ((M.flatten).map (adds (.jobCount n))).filterMap id = [] := by
        rw [List.filterMap_eq_nil_iff]
        intro x hx
        obtain ⟨m, hm, rfl⟩ := List.mem_map.1 hx
        simp [adds, hno m hm]
      rw [sumI, if_pos this] at hsome
      cases hsome
    · rintro ⟨m, hm, rfl⟩
      have : ((M.flatten).map (adds (.jobCount m.1))).filterMap id ≠ [] := by
        intro hnil
        rw [List.filterMap_eq_nil_iff] at hnil
        have := hnil _ (List.mem_map_of_mem hm)
        simp [adds] at this
      rw [sumI, if_neg this]
      rfl
  · obtain ⟨j, hj, hro, _⟩ := h2 r hrm
    have hv' : ∀ k x, Said k → value o k = some x → some x = sumI ((M.flatten).map (adds k)) := fun k x hk hx => by rw [← hx, hval k hk]
    exact ⟨hv' _ _ trivial (by simp [value, hj, hro.count]), hv' _ _ trivial (by simp [value, hj, hro.success]), hv' _ _ trivial (by simp [value, hj, hro.validationError]),
      hv' _ _ trivial (by simp [value, hj, hro.panic]), hv' _ _ trivial (by simp [value, hj, hro.error]), hv' _ _ trivial (by simp [value, hj, hro.junk])⟩

/-- C91: the whole chain.  Processes run programs with a polling sink each; healthd polls them, in any order and with any failures, purges and recalculations; if it is up to date about
the intervals it shows, and these cover what the programs did, then healthtop shows for every job that the programs used, and no others, how often they completed it with which
status; `all` are the rows of all jobs in the order asked for, of which healthtop shows those that fit on the screen or whose name contains the text asked for. -/
theorem C91_system {sort : List IntAgg → List IntAgg} (hsort : SortsByStart sort) {hosts : List Str} {h : List Op} {s : State} (hr : Runs sort (init hosts) h s)
    {lo : Int → Int} {d : Int} {P : List Process} (f : Fleet lo d P h) (hu : ∀ a ∈ s.intervalAggregations, UpToDate lo d P h a.start)
    {G : List Program} (hpg : List.Forall₂ RunsProgram P G) (hok : ∀ g ∈ G, g.Ok) (hcov : ∀ p ∈ P, Covers d (s.intervalAggregations.map (·.start)) p)
    (c : Choices) (hc : c.Ok) {identifier : Str} (hi : PlainText identifier) (zone : Nat → Int → Int) (v : View) (hd : InI64 v.intervalDuration)
    (hv : v.aggregations = some (memorySafeIntervals s)) {o : IntAgg} (ho : combineAggregations (memorySafeIntervals s) = some o)
    (hp : ∀ k j, o.jobs.get? k = some j → Sound k j) (opts : Opts) (height : Int) (hh : height < 2 ^ 63) (jsonErr : Str) :
    ∃ all shown : List Row, (all.map (·.name)).Nodup ∧
      (∀ n, n ∈ all.map (·.name) ↔ ∃ m ∈ G.flatMap Program.statements, m.1 = n) ∧
      (∀ r ∈ all, RowSays r (G.flatMap Program.statements)) ∧
      (∀ k : SortKey, opts.sort = k.text → all.Pairwise (mayPrecede k)) ∧
      (opts.name = [] → shown = all.take (max (height - 2) 3).toNat) ∧
      (opts.name ≠ [] → shown.Sublist all ∧ ∀ r, r ∈ shown ↔ r ∈ all ∧ Contains r.name opts.name) ∧
      let r := respond c identifier zone v (askedSort opts height) (askedLimit opts height) .jobs
      pollJobs opts jsonErr (.answer r.code r.body none) = some (.ok ⟨identifier, v.intervalDuration, shown.map some⟩) := by
  have hpm : List.Forall₂ Speaks P (G.map Program.statements) := by
    clear hcov hu f
    induction hpg with
    | nil => exact .nil
    | cons h1 _ ih => exact .cons (speaks_of_runs h1 (hok _ (by simp))) (ih (fun g hg => hok g (by simp [hg])))
  rw [List.flatMap_def]
  exact C91_stated hsort hr f hu hpm hcov c hc hi zone v hd hv ho hp opts height hh jsonErr

/-! ## The hypotheses can be met: two programs, two processes, three polls, a recalculation and a purge of all that the processes had reported -/
namespace System

def progA : Program := ⟨Sample.clk, 3, [.newJob (bs "j"), .newJob (bs "j")],
  [.emit 1 (.event (bs "e")) none, .emit 1 (.complete Status.error) none, .emit 2 (.complete Status.success) none], fun _ => none⟩
def progB : Program := ⟨Sample.clk, 3, [.addSink 1, .emit 0 (.event (bs "early")) none],
  [.newJob (bs "k"), .emit 1 (.complete Status.success) none, .newJob (bs "j"), .emit 2 (.complete Status.junk) none], fun _ => none⟩

def procA : Process := ⟨bs "h", bs "a", 120000000000, fun _ _ => 0, [(⟨1000000000, 0⟩, .emit (.event (bs "j") (bs "e"))), (⟨2000000000, 0⟩, .read),
  (⟨3000000000, 0⟩, .emit (.complete (bs "j") Status.success 20)), (⟨4000000000, 0⟩, .emit (.complete (bs "j") Status.error 20)), (⟨70000000000, 0⟩, .read)]⟩
def procB : Process := ⟨bs "i", bs "b", 60000000000, fun _ _ => 0, [(⟨1500000000, 0⟩, .emit (.complete (bs "k") Status.success 20)),
  (⟨1600000000, 0⟩, .emit (.complete (bs "j") Status.junk 20)), (⟨2500000000, 0⟩, .read)]⟩

def cmds : List Cmd := [.response (answer procA (procA.hist.take 1) ⟨2000000000, 0⟩) ⟨2000000000, 1⟩ ⟨2000000000, 1⟩,
  .response (answer procB (procB.hist.take 2) ⟨2500000000, 0⟩) ⟨2500000000, 1⟩ ⟨2500000000, 1⟩,
  .response (answer procA (procA.hist.take 4) ⟨70000000000, 0⟩) ⟨70000000000, 1⟩ ⟨70000000000, 1⟩, .recalculate, .purge (fun _ => ⟨400000000000, 0⟩)]

def history (ks : List Time) (entries : Time → List (Key × Unmarshal.Report)) : List Op :=
  [.response (answer procA (procA.hist.take 1) ⟨2000000000, 0⟩) ⟨2000000000, 1⟩ ⟨2000000000, 1⟩,
  .response (answer procB (procB.hist.take 2) ⟨2500000000, 0⟩) ⟨2500000000, 1⟩ ⟨2500000000, 1⟩,
  .response (answer procA (procA.hist.take 4) ⟨70000000000, 0⟩) ⟨70000000000, 1⟩ ⟨70000000000, 1⟩, .recalculate ks entries, .purge (fun _ => ⟨400000000000, 0⟩)]

theorem after_cons {s s' : State} {c : Cmd} {t : List Cmd} (hs : after s (c :: t) = some s') : ∃ s1, after s1 t = some s' ∧ ops s (c :: t) = c.op s :: ops s1 t := by
  unfold after at hs
  rw [List.foldlM_cons] at hs
  obtain ⟨s1, g1, g2⟩ := Option.bind_eq_some_iff.1 hs
  exact ⟨s1, g2, by rw [ops, g1]; rfl⟩

theorem cmds_history {s s' : State} (hs : after s cmds = some s') : ∃ ks es, ops s cmds = history ks es := by
  unfold cmds at hs ⊢
  obtain ⟨s1, h1, e1⟩ := after_cons hs
  obtain ⟨s2, h2, e2⟩ := after_cons h1
  obtain ⟨s3, h3, e3⟩ := after_cons h2
  obtain ⟨s4, h4, e4⟩ := after_cons h3
  obtain ⟨s5, h5, e5⟩ := after_cons h4
  rw [e1, e2, e3, e4, e5]
  exact ⟨_, _, rfl⟩

theorem procA_ok : procA.Ok 60000000000 := by
  refine ⟨by decide, by unfold MonotoneClock; decide +kernel, by decide, ?_, ⟨?_, by decide⟩, ?_, by unfold FourDigits; decide +kernel⟩
  · unfold ZonesOk; intro l n; simp [procA]
  · rw [← validUtf8_iff]; decide +kernel
  · intro t e he
    simp only [procA, List.mem_cons, Prod.mk.injEq, List.not_mem_nil, or_false] at he
    simp only [← validUtf8_iff]
    rcases he with ⟨_, h⟩ | ⟨_, h⟩ | ⟨_, h⟩ | ⟨_, h⟩ | ⟨_, h⟩ <;> cases h
    · exact ⟨trivial, by decide +kernel⟩
    · exact ⟨by unfold EmitFits InI64; norm_num, by decide +kernel⟩
    · exact ⟨by unfold EmitFits InI64; norm_num, by decide +kernel⟩

theorem procB_ok : procB.Ok 60000000000 := by
  refine ⟨by decide, by unfold MonotoneClock; decide +kernel, by decide, ?_, ⟨?_, by decide⟩, ?_, by unfold FourDigits; decide +kernel⟩
  · unfold ZonesOk; intro l n; simp [procB]
  · rw [← validUtf8_iff]; decide +kernel
  · intro t e he
    simp only [procB, List.mem_cons, Prod.mk.injEq, List.not_mem_nil, or_false] at he
    simp only [← validUtf8_iff]
    rcases he with ⟨_, h⟩ | ⟨_, h⟩ | ⟨_, h⟩ <;> cases h
    · exact ⟨by unfold EmitFits InI64; norm_num, by decide +kernel⟩
    · exact ⟨by unfold EmitFits InI64; norm_num, by decide +kernel⟩

theorem pollA1 : PolledAt (fun _ => 0) 60000000000 procA (procA.hist.take 1) ⟨2000000000, 0⟩ (procA.hist.drop 2) (answer procA (procA.hist.take 1) ⟨2000000000, 0⟩) :=
  answer_polled rfl (by decide +kernel)
theorem pollA2 : PolledAt (fun _ => 0) 60000000000 procA (procA.hist.take 4) ⟨70000000000, 0⟩ [] (answer procA (procA.hist.take 4) ⟨70000000000, 0⟩) :=
  answer_polled rfl (by decide +kernel)
theorem pollB : PolledAt (fun _ => 0) 60000000000 procB (procB.hist.take 2) ⟨2500000000, 0⟩ [] (answer procB (procB.hist.take 2) ⟨2500000000, 0⟩) :=
  answer_polled rfl (by decide +kernel)

theorem fleet_ok (ks : List Time) (entries : Time → List (Key × Unmarshal.Report)) : Fleet (fun _ => 0) 60000000000 [procA, procB] (history ks entries) := by
  refine ⟨by decide, by decide, ?_, by decide +kernel, ?_⟩
  · intro p hp
    simp only [List.mem_cons, List.not_mem_nil, or_false] at hp
    rcases hp with rfl | rfl
    · exact procA_ok
    · exact procB_ok
  · intro r n1 n2 hm _
    simp only [history, List.mem_cons, Op.response.injEq, List.not_mem_nil, or_false, reduceCtorEq] at hm
    rcases hm with ⟨rfl, _, _⟩ | ⟨rfl, _, _⟩ | ⟨rfl, _, _⟩
    · exact ⟨procA, by simp, _, _, _, pollA1⟩
    · exact ⟨procB, by simp, _, _, _, pollB⟩
    · exact ⟨procA, by simp, _, _, _, pollA2⟩

theorem upToDate (ks : List Time) (entries : Time → List (Key × Unmarshal.Report)) : UpToDate (fun _ => 0) 60000000000 [procA, procB] (history ks entries) ⟨0, 0⟩ ∧
    UpToDate (fun _ => 0) 60000000000 [procA, procB] (history ks entries) ⟨60000000000, 0⟩ := by
  have hev : events 60000000000 (history ks entries) = events 60000000000 ((history ks entries).take 3) ++ [.recalculate] ++ [.purge (fun _ => ⟨400000000000, 0⟩)] := by
    simp [history, events]
  have hnp : ∀ now, Ev.purge now ∉ events 60000000000 ((history ks entries).take 3) ++ [.recalculate] := by
    intro now hm
    simp only [history, List.take_succ_cons, List.take_zero, events, List.flatMap_cons, List.flatMap_nil, List.append_nil, List.mem_append, List.mem_singleton, reduceCtorEq, or_false] at hm
    rcases hm with hm | hm | hm <;>
    · split at hm
      · obtain ⟨o, _, ho⟩ := List.mem_filterMap.1 hm
        cases o <;> simp at ho
      · simp at hm
  have hcal : ∀ t, ¬ Pending 60000000000 (events 60000000000 (history ks entries)) t := by
    intro t
    rw [hev, pending_purge]
    exact pending_recalculate _ _ _
  have hset : ∀ t, Settled 60000000000 (events 60000000000 (history ks entries)) t := by
    intro t es1 now es2 he _
    rw [hev] at he
    have : es2 = [] ∧ es1 = events 60000000000 ((history ks entries).take 3) ++ [.recalculate] := by
      rcases List.eq_nil_or_concat es2 with rfl | ⟨l, x, rfl⟩
      · have := List.append_inj' he rfl
        exact ⟨rfl, this.1.symm⟩
      · exfalso
        rw [List.concat_eq_append, ← List.cons_append, ← List.append_assoc] at he
        exact hnp now ((List.append_inj' he rfl).1 ▸ (by simp))
    rw [this.1, this.2]
    exact ⟨pending_recalculate _ _ _, by simp⟩
  have hz : ∀ ns, ∀ p ∈ [procA, procB], ∀ x ∈ p.hist, zoneId (fun _ => 0) ns (p.zone x.1.loc ns) = some 0 := by
    intro ns p hp x _
    simp only [List.mem_cons, List.not_mem_nil, or_false] at hp
    rcases hp with rfl | rfl <;> rfl
  refine ⟨⟨hcal _, hset _, hz _, ?_⟩, hcal _, hset _, hz _, ?_⟩
  · intro p hp _
    simp only [List.mem_cons, List.not_mem_nil, or_false] at hp
    rcases hp with rfl | rfl
    · refine ⟨(history ks entries).take 2, _, _, _, (history ks entries).drop 3, rfl, ⟨_, _, _, pollA2, rfl, ?_⟩, by simp [history]⟩
      exact ⟨(⟨0, 0⟩, [.event (bs "j") (bs "e"), .complete (bs "j") Status.success 20, .complete (bs "j") Status.error 20]), by decide +kernel, rfl⟩
    · refine ⟨(history ks entries).take 1, _, _, _, (history ks entries).drop 2, rfl, ⟨_, _, _, pollB, rfl, ?_⟩, ?_⟩
      · exact ⟨(⟨0, 0⟩, [.complete (bs "k") Status.success 20, .complete (bs "j") Status.junk 20]), by decide +kernel, rfl⟩
      · intro r' n1 n2 hm hs hh
        simp only [history, List.drop_succ_cons, List.drop_zero, List.mem_cons, Op.response.injEq, List.not_mem_nil, or_false, reduceCtorEq] at hm
        rw [hm.1] at hh
        exact absurd ((polled (by decide) (by unfold InI64; decide) procA_ok pollA2).2.1.symm.trans hh) (by decide +kernel)
  · intro p hp hne
    simp only [List.mem_cons, List.not_mem_nil, or_false] at hp
    rcases hp with rfl | rfl <;> exact absurd (by decide +kernel) hne

theorem progA_ok : progA.Ok := ⟨by simp [progA, Program.ops, LegalRun, LegalOp, objId], by simp [progA], by simp [progA]⟩
theorem progB_ok : progB.Ok := ⟨by simp [progB, Program.ops, LegalRun, LegalOp], by simp [progB], by simp [progB]⟩

theorem runsA : RunsProgram procA progA := by
  have h1 : procA.hist.flatMap (fun x => emitsOf x.2) = [.event (bs "j") (bs "e"), .complete (bs "j") Status.success 20, .complete (bs "j") Status.error 20] := by decide +kernel
  have h2 : (heard progA.sink ((World.newStream progA.clock).run progA.clock progA.ops)).map (SinkCall.toEmit progA.deep) =
      [.event (bs "j") (bs "e"), .complete (bs "j") Status.error 20, .complete (bs "j") Status.success 20] := by decide +kernel
  rw [RunsProgram, h1, h2]
  exact (List.Perm.swap _ _ _).cons _

theorem runsB : RunsProgram procB progB := by
  have h1 : procB.hist.flatMap (fun x => emitsOf x.2) = [.complete (bs "k") Status.success 20, .complete (bs "j") Status.junk 20] := by decide +kernel
  have h2 : (heard progB.sink ((World.newStream progB.clock).run progB.clock progB.ops)).map (SinkCall.toEmit progB.deep) =
      [.complete (bs "k") Status.success 20, .complete (bs "j") Status.junk 20] := by decide +kernel
  rw [RunsProgram, h1, h2]

def jobsSeen (s : State) : Option (List (Str × TimerAgg × Bool × List Int)) :=
  (combineAggregations (memorySafeIntervals s)).map (fun o => o.jobs.map (fun p => (p.1, p.2.timer, (stdDev p.2.timer).isFinite,
    [p.2.countSuccess, p.2.countValidationError, p.2.countPanic, p.2.countError, p.2.countJunk])))

theorem cmds_starts : (after (init [bs "h", bs "i"]) cmds).map (fun s => (s.intervalAggregations.map (·.start), s.hostAggregations.length)) = some ([⟨0, 0⟩, ⟨60000000000, 0⟩], 0) := by decide +kernel
theorem cmds_jobs : ((after (init [bs "h", bs "i"]) cmds).map jobsSeen).getD none =
    some [(bs "j", ⟨3, 60, .fin 1200, 20, 20⟩, true, [1, 0, 0, 1, 1]), (bs "k", ⟨1, 20, .fin 400, 20, 20⟩, true, [1, 0, 0, 0, 0])] := by decide +kernel

end System

/-- healthd has thrown away all that the processes reported, and still shows it. -/
theorem System.sample : ∃ h s o, Runs sortAggs (init [bs "h", bs "i"]) h s ∧ Fleet (fun _ => 0) 60000000000 [System.procA, System.procB] h ∧
    (∀ a ∈ s.intervalAggregations, UpToDate (fun _ => 0) 60000000000 [System.procA, System.procB] h a.start) ∧ s.hostAggregations = [] ∧
    List.Forall₂ RunsProgram [System.procA, System.procB] [progA, progB] ∧ (∀ g ∈ [progA, progB], g.Ok) ∧
    (∀ p ∈ [System.procA, System.procB], Covers 60000000000 (s.intervalAggregations.map (·.start)) p) ∧
    combineAggregations (memorySafeIntervals s) = some o ∧ (∀ k j, o.jobs.get? k = some j → Sound k j) ∧
    [progA, progB].flatMap Program.statements = [(bs "j", .event (bs "e")), (bs "j", .complete Status.error), (bs "j", .complete Status.success), (bs "k", .complete Status.success),
      (bs "j", .complete Status.junk)] := by
  obtain ⟨s, hs, h1⟩ := Option.map_eq_some_iff.1 cmds_starts
  have h2 := cmds_jobs
  rw [hs, Option.map_some, Option.getD_some, jobsSeen] at h2
  obtain ⟨o, ho, hj⟩ := Option.map_eq_some_iff.1 h2
  obtain ⟨ks, es, he⟩ := cmds_history hs
  have hst : s.intervalAggregations.map (·.start) = [⟨0, 0⟩, ⟨60000000000, 0⟩] := (Prod.ext_iff.1 h1).1
  refine ⟨_, s, o, he ▸ after_runs hs, System.fleet_ok ks es, ?_, List.eq_nil_of_length_eq_zero (Prod.ext_iff.1 h1).2, .cons runsA (.cons runsB .nil), ?_, ?_, ho, ?_, by decide +kernel⟩
  · intro a ha
    have := List.mem_map_of_mem (f := (·.start)) ha
    simp only [hst, List.mem_cons, List.not_mem_nil, or_false] at this
    rcases this with h | h <;> rw [h]
    · exact (upToDate ks es).1
    · exact (upToDate ks es).2
  · intro g hg
    simp only [List.mem_cons, List.not_mem_nil, or_false] at hg
    rcases hg with rfl | rfl
    · exact progA_ok
    · exact progB_ok
  · rw [hst]
    unfold Covers
    decide +kernel
  · intro k j hk
    have hm := List.mem_map_of_mem (f := fun p : Str × JobAgg => (p.1, p.2.timer, (stdDev p.2.timer).isFinite,
      [p.2.countSuccess, p.2.countValidationError, p.2.countPanic, p.2.countError, p.2.countJunk])) (GoMap.mem_of_get? hk)
    rw [hj] at hm
    simp only [List.mem_cons, Prod.mk.injEq, List.not_mem_nil, or_false, List.cons.injEq, and_true] at hm
    rcases hm with ⟨rfl, ht, hf, c1, c2, c3, c4, c5⟩ | ⟨rfl, ht, hf, c1, c2, c3, c4, c5⟩ <;>
      refine ⟨⟨by rw [← validUtf8_iff]; decide +kernel, by decide +kernel⟩, ?_, by rw [ht]; unfold Finite64 F64.Valid; decide +kernel, hf⟩ <;>
      rw [c1, c2, c3, c4, c5, ht] <;> unfold InI64 <;> decide

#print axioms C91_interval
#print axioms C91_overall
#print axioms C91_system
