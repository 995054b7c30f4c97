import Verif.Spec.Nested
import Verif.Props.Stream
/-!
# C110, C111: runs inside runs
-/
namespace Nested
open World Spec

/-- what a run does, given what its function did. -/
theorem exec_run (clock : Nat → Int) (w : World) (j : Nat) (f : Prog) (st : Str) (tr : Trace) (rest : GoErr → Prog) (ops : List Op)
    (h : (exec clock w f).1 = w.run clock ops) :
    exec clock w (.run j f st tr rest) = match w.runJob clock j ops (exec clock w f).2 st tr with
      | (w', .returned e) => exec clock w' (rest e)
      | (w', .exited) => (w', .goexit) := by
  rw [exec]
  generalize exec clock w f = r at *
  obtain ⟨w1, o⟩ := r
  simp only at h
  subst h
  cases o with
  | ret e => cases e <;> rfl
  | panic text => rfl
  | panicNil => rfl
  | goexit => rfl

theorem alone_run (clock : Nat → Int) (w : World) (j : Nat) (f : Prog) (st : Str) (tr : Trace) (rest : GoErr → Prog) :
    exec clock w (.run j f st tr rest) = match exec clock w (alone j f st tr) with
      | (w', .ret e) => exec clock w' (rest e)
      | r => r := by
  unfold alone
  rw [exec, exec]
  generalize exec clock w f = r
  obtain ⟨w1, o⟩ := r
  cases o with
  | ret e => cases e <;> simp [exec]
  | panic text => simp [exec]
  | panicNil => simp [exec]
  | goexit => rfl

/-- the end of a run as operations. -/
def ending (w : World) (j : Nat) (st : Str) (tr : Trace) : Outcome → List Op
  | .ret .nil => [.emit j (.complete Status.success) none]
  | .ret _ => [.emit j (.complete Status.error) none]
  | .panic text => [.newMap [(bs "stack", st)], .emit j (.eventErr (bs "panic") (.other text) tr) (some w.maps.length), .emit j (.complete Status.panic) none]
  | _ => []

theorem legal_ending (clock : Nat → Int) (w : World) (j : Nat) (st : Str) (tr : Trace) (o : Outcome) : LegalRun clock w (ending w j st tr o) := by
  cases o with
  | ret e => cases e <;> simp [ending, LegalRun, LegalOp]
  | panic text => simp [ending, LegalRun, LegalOp, objId, GoMap.Wf, GoMap.keys]
  | panicNil => trivial
  | goexit => trivial

theorem alone_world (clock : Nat → Int) (w : World) (j : Nat) (f : Prog) (st : Str) (tr : Trace) :
    (exec clock w (alone j f st tr)).1 = (exec clock w f).1.run clock (ending (exec clock w f).1 j st tr (exec clock w f).2) := by
  unfold alone
  rw [exec]
  generalize exec clock w f = r
  obtain ⟨w1, o⟩ := r
  cases o with
  | ret e => cases e <;> rfl
  | panic text => rfl
  | panicNil => rfl
  | goexit => rfl

/-- a program with runs amounts to a sequence of operations. -/
theorem flat (clock : Nat → Int) (p : Prog) : ∀ w : World, LegalProg clock w p →
    ∃ ops, LegalRun clock w ops ∧ (exec clock w p).1 = w.run clock ops := by
  induction p with
  | ends o => exact fun w _ => ⟨[], trivial, rfl⟩
  | op a rest ih =>
    intro w h
    obtain ⟨ops, h1, h2⟩ := ih _ h.2
    exact ⟨a :: ops, ⟨h.1, h1⟩, h2⟩
  | newJob name rest ih =>
    intro w h
    obtain ⟨ops, h1, h2⟩ := ih _ _ h
    exact ⟨.newJob name :: ops, ⟨trivial, h1⟩, h2⟩
  | logErr j ev e t kvs rest ih =>
    intro w h
    obtain ⟨ops, h1, h2⟩ := ih _ _ h.2
    exact ⟨.emit j (.eventErr ev e t) kvs :: ops, ⟨h.1, h1⟩, h2⟩
  | run j f st tr rest ihf ih =>
    intro w h
    rw [LegalProg] at h
    obtain ⟨_, hf, hr⟩ := h
    obtain ⟨ops, h1, h2⟩ := ihf w hf
    have ha := alone_world clock w j f st tr
    rw [alone_run]
    have hl : LegalRun clock w (ops ++ ending (exec clock w f).1 j st tr (exec clock w f).2) :=
      (legalRun_append _ _ _ _).2 ⟨h1, by rw [← h2]; exact legal_ending clock _ j st tr _⟩
    have hw : (exec clock w (alone j f st tr)).1 = w.run clock (ops ++ ending (exec clock w f).1 j st tr (exec clock w f).2) := by
      rw [ha, World.run_append, ← h2]
    generalize exec clock w (alone j f st tr) = r at *
    obtain ⟨w2, o⟩ := r
    simp only at hw hr
    cases o with
    | ret e =>
      obtain ⟨ops', g1, g2⟩ := ih e w2 hr
      exact ⟨_ ++ ops', (legalRun_append _ _ _ _).2 ⟨hl, by rw [← hw]; exact g1⟩, by simp only; rw [g2, World.run_append, ← hw]⟩
    | panic text => exact ⟨_, hl, hw⟩
    | panicNil => exact ⟨_, hl, hw⟩
    | goexit => exact ⟨_, hl, hw⟩

/-- what is known about streams that occur holds after a program with runs, too. -/
theorem reachable_exec {clock : Nat → Int} {w : World} (hw : Reachable clock w) {p : Prog} (hp : LegalProg clock w p) :
    Reachable clock (exec clock w p).1 := by
  obtain ⟨ops, h1, h2⟩ := flat clock p w hp
  rw [h2]
  exact World.Reachable.run hw ops h1

/-! ## C110 -/

/-- **C110**, one run: its function, with all the runs inside, has left the stream `w1`.  If the function returned nil or an error, the job is
completed with success or error, once for each sink, and `Run` gives the error back; if it panicked, the sinks hear of the error `panic` with the
panic's text and a stack, then of one completion, and `Run` gives back an error with the panic's text.  The program goes on after that. -/
theorem C110_run (clock : Nat → Int) (w : World) (hw : Reachable clock w) (j : Nat) (job : Job) (hj : w.jobs[j]? = some job) (f : Prog)
    (hf : LegalProg clock w f) (stackText : Str) (trace : Trace) (rest : GoErr → Prog) :
    let w1 := (exec clock w f).1
    let completed st := FanOut w1.sinks job.name (fun p => ∃ n, p = .complete st n)
    ((exec clock w f).2 = .ret .nil → ∃ w2 new, w2.calls = w1.calls ++ new ∧ completed Status.success new ∧
      exec clock w (.run j f stackText trace rest) = exec clock w2 (rest .nil)) ∧
    (∀ e, (exec clock w f).2 = .ret e → e ≠ .nil → ∃ w2 new, w2.calls = w1.calls ++ new ∧ completed Status.error new ∧
      exec clock w (.run j f stackText trace rest) = exec clock w2 (rest e)) ∧
    (∀ text, (exec clock w f).2 = .panic text → ∃ w2 errs new e, w2.calls = w1.calls ++ errs ++ new ∧
      FanOut w1.sinks job.name (fun p => ∃ e, p = .eventErr (bs "panic") e ∧ e.message = some text) errs ∧
      (∀ c ∈ errs, lookup c.seen (bs "stack") = some stackText) ∧ completed Status.panic new ∧ e.message = some text ∧
      exec clock w (.run j f stackText trace rest) = exec clock w2 (rest e)) := by
  intro w1 completed
  obtain ⟨ops, h1, h2⟩ := flat clock f w hf
  have h2' : w1 = w.run clock ops := h2
  have key := C04_run clock w hw j job hj ops h1 stackText trace
  have hrun := exec_run clock w j f stackText trace rest ops h2
  simp only [← h2'] at key
  obtain ⟨k1, k2, k3⟩ := key
  refine ⟨fun ho => ?_, fun e ho hne => ?_, fun text ho => ?_⟩
  · obtain ⟨new, a1, a2, a3⟩ := k1
    rw [ho] at hrun
    generalize w.runJob clock j ops (.ret .nil) stackText trace = r at *
    obtain ⟨w2, res⟩ := r
    simp only at a1 a3
    subst a3
    exact ⟨w2, new, a1, a2, hrun⟩
  · obtain ⟨new, a1, a2, a3⟩ := k2 e hne
    rw [ho] at hrun
    generalize w.runJob clock j ops (.ret e) stackText trace = r at *
    obtain ⟨w2, res⟩ := r
    simp only at a1 a3
    subst a3
    exact ⟨w2, new, a1, a2, hrun⟩
  · obtain ⟨errs, new, a1, a2, a3, a4, e, a5, a6⟩ := k3 text
    rw [ho] at hrun
    generalize w.runJob clock j ops (.panic text) stackText trace = r at *
    obtain ⟨w2, res⟩ := r
    simp only at a1 a5
    subst a5
    exact ⟨w2, errs, new, e, a1, a2, a3, a4, a6, hrun⟩

/-- **C110**, panics: `Run` lets no panic through, however deep: a program that does not panic outside of the functions it runs does not panic. -/
theorem C110_calm (clock : Nat → Int) (p : Prog) : ∀ w : World, Calm p → ∀ text, (exec clock w p).2 ≠ .panic text ∧ (exec clock w p).2 ≠ .panicNil := by
  induction p with
  | ends o => exact fun w h => h
  | op a rest ih => exact fun w h => ih _ h
  | newJob name rest ih => exact fun w h => ih _ _ (h _)
  | logErr j ev e t kvs rest ih => exact fun w h => ih _ _ (h _)
  | run j f st tr rest _ ih =>
    intro w h text
    rw [exec]
    generalize exec clock w f = r
    obtain ⟨w1, o⟩ := r
    cases o with
    | ret e => cases e <;> exact ih _ _ (h _) text
    | panic text' => exact ih _ _ (h _) text
    | panicNil => exact ih _ _ (h _) text
    | goexit => simp

/-! ### all runs -/

theorem completions_append (a b : List SinkCall) : completions (a ++ b) = completions a ++ completions b := List.filterMap_append

theorem step_other (clock : Nat → Int) (w : World) (hw : Reachable clock w) (a : Op) (h1 : ∀ s, a ≠ .addSink s)
    (h2 : ∀ j st kvs, a ≠ .emit j (.complete st) kvs) :
    (w.step clock a).sinks = w.sinks ∧ ∃ new, (w.step clock a).calls = w.calls ++ new ∧ completions new = [] := by
  cases a with
  | addSink s => exact (h1 s rfl).elim
  | streamKv k v =>
    simp only [World.step, World.streamKv, World.mapSet]
    unfold World.ensure
    split <;> exact ⟨rfl, [], (List.append_nil _).symm, rfl⟩
  | newJob n => exact ⟨rfl, [], (List.append_nil _).symm, rfl⟩
  | jobKv j k v =>
    simp only [World.step, World.jobKv]
    split
    · exact ⟨rfl, [], (List.append_nil _).symm, rfl⟩
    · simp only [World.mapSet]
      unfold World.ensure
      split <;> exact ⟨rfl, [], (List.append_nil _).symm, rfl⟩
  | newMap m => exact ⟨rfl, [], (List.append_nil _).symm, rfl⟩
  | mapSet i k v => exact ⟨rfl, [], (List.append_nil _).symm, rfl⟩
  | emit j c kvs =>
    cases hj : w.jobs[j]? with
    | none => exact ⟨by simp [World.step, World.emit, hj], [], by simp [World.step, World.emit, hj], rfl⟩
    | some job =>
      obtain ⟨b1, b2, b3, _⟩ := C03_fan_out clock w hw j job hj c kvs
      refine ⟨b3, _, b1, List.filterMap_eq_nil_iff.2 fun x hx => ?_⟩
      have hp := (b2.2.1 x hx).2
      cases c with
      | complete st => exact (h2 j st kvs rfl).elim
      | event ev => simp only [PayloadFor] at hp; rw [hp]
      | timing ev n => simp only [PayloadFor] at hp; rw [hp]
      | gauge ev v => simp only [PayloadFor] at hp; rw [hp]
      | eventErr ev e t => simp only [PayloadFor] at hp; rw [hp]

theorem completions_fan {sinks : List Nat} {name : Str} {st : Status} {new : List SinkCall}
    (h : FanOut sinks name (fun p => ∃ n, p = .complete st n) new) : completions new = sinks.map (fun s => (s, name, st)) := by
  obtain ⟨h1, h2, h3⟩ := h
  rw [← h1, List.map_map]
  unfold completions
  clear h1 h3
  induction new with
  | nil => rfl
  | cons c l ih =>
    obtain ⟨e1, n, e2⟩ := h2 c (by simp)
    rw [List.filterMap_cons, e2]
    simp only [List.map_cons, Function.comp, e1]
    congr 1
    exact ih fun x hx => h2 x (by simp [hx])

theorem completions_errs {sinks : List Nat} {name : Str} {ok : GoErr → Prop} {new : List SinkCall} {ev : Str}
    (h : FanOut sinks name (fun p => ∃ e, p = .eventErr ev e ∧ ok e) new) : completions new = [] := by
  refine List.filterMap_eq_nil_iff.2 fun x hx => ?_
  obtain ⟨_, e, h2, _⟩ := h.2.1 x hx
  rw [h2]

/-- the name of a job. -/
def nameOf (w : World) (j : Nat) : Str := ((w.jobs[j]?).map (·.name)).getD []

/-- what the sinks must hear at the end of a run. -/
def heard (sinks : List Nat) (name : Str) (o : Outcome) : List (Nat × Str × Status) :=
  match statusFor o with
  | some st => sinks.map (fun s => (s, name, st))
  | none => []

theorem keeps_exec {clock : Nat → Int} {w : World} {p : Prog} (hp : LegalProg clock w p) (j : Nat) (hj : j < w.jobs.length) :
    j < (exec clock w p).1.jobs.length ∧ nameOf (exec clock w p).1 j = nameOf w j := by
  obtain ⟨ops, _, h2⟩ := flat clock p w hp
  obtain ⟨job, h3, h4, _⟩ := (World.run_keeps clock ops w).2 j w.jobs[j] (List.getElem?_eq_getElem hj)
  rw [h2]
  refine ⟨(List.getElem?_eq_some_iff.1 h3).1, ?_⟩
  simp [nameOf, h3, List.getElem?_eq_getElem hj, h4]

/-- a run and nothing more. -/
theorem alone_completions {clock : Nat → Int} {w : World} (hw : Reachable clock w) {j : Nat} (hj : j < w.jobs.length) {f : Prog}
    (hf : LegalProg clock w f) (st : Str) (tr : Trace) :
    ∃ new, (exec clock w (alone j f st tr)).1.calls = (exec clock w f).1.calls ++ new ∧
      completions new = heard (exec clock w f).1.sinks (nameOf w j) (exec clock w f).2 ∧
      (exec clock w (alone j f st tr)).1.sinks = (exec clock w f).1.sinks := by
  have hjob : w.jobs[j]? = some w.jobs[j] := List.getElem?_eq_getElem hj
  have hname : nameOf w j = w.jobs[j].name := by simp [nameOf, hjob]
  have hs : (exec clock w (alone j f st tr)).1.sinks = (exec clock w f).1.sinks := by
    have hr := reachable_exec hw hf
    obtain ⟨h1, _⟩ := keeps_exec hf j hj
    have hjob' := List.getElem?_eq_getElem h1
    rw [alone_world]
    have ho : ∀ w1 : World, Reachable clock w1 → ∀ job1, w1.jobs[j]? = some job1 → ∀ o, (w1.run clock (ending w1 j st tr o)).sinks = w1.sinks := by
      intro w1 hr job1 hj1 o
      have one : ∀ v : World, Reachable clock v → ∀ job', v.jobs[j]? = some job' → ∀ c kvs, (v.step clock (.emit j c kvs)).sinks = v.sinks :=
        fun v hv job' hj' c kvs => (C03_fan_out clock v hv j job' hj' c kvs).2.2.1
      cases o with
      | ret e => cases e <;> exact one _ hr _ hj1 _ _
      | panic text =>
        have l := legal_ending clock w1 j st tr (.panic text)
        have r1 : Reachable clock (w1.step clock (.newMap [(bs "stack", st)])) := World.Reachable.run hr [_] ⟨l.1, trivial⟩
        have j1 : (w1.step clock (.newMap [(bs "stack", st)])).jobs[j]? = some job1 := hj1
        have r2 := World.Reachable.run r1 [_] ⟨l.2.1, trivial⟩
        have a := C03_fan_out clock _ r1 j job1 j1 (.eventErr (bs "panic") (.other text) tr) (some w1.maps.length)
        have j2 : ((w1.step clock (.newMap [(bs "stack", st)])).step clock (.emit j (.eventErr (bs "panic") (.other text) tr) (some w1.maps.length))).jobs[j]? = some job1 := by
          show (World.emit clock _ j _ _).1.jobs[j]? = _
          rw [a.2.2.2.1]; exact j1
        exact (one _ r2 _ j2 _ _).trans (a.2.2.1.trans rfl)
      | panicNil => rfl
      | goexit => rfl
    exact ho _ hr _ hjob' _
  obtain ⟨k1, k2, k3⟩ := C110_run clock w hw j _ hjob f hf st tr (fun e => .ends (.ret e))
  rw [hname]
  cases ho : (exec clock w f).2 with
  | ret e =>
    by_cases he : e = .nil
    · subst he
      obtain ⟨w2, new, a1, a2, a3⟩ := k1 ho
      refine ⟨new, ?_, completions_fan a2, hs⟩
      unfold alone; rw [a3]; exact a1
    · obtain ⟨w2, new, a1, a2, a3⟩ := k2 e ho he
      refine ⟨new, ?_, ?_, hs⟩
      · unfold alone; rw [a3]; exact a1
      · rw [completions_fan a2]; cases e <;> first | exact (he rfl).elim | rfl
  | panic text =>
    obtain ⟨w2, errs, new, e, a1, a2, _, a4, _, a6⟩ := k3 text ho
    refine ⟨errs ++ new, ?_, ?_, hs⟩
    · unfold alone; rw [a6, ← List.append_assoc]; exact a1
    · rw [completions_append, completions_errs a2, completions_fan a4]; rfl
  | panicNil =>
    refine ⟨[], ?_, rfl, hs⟩
    rw [alone_world, ho]; exact (List.append_nil _).symm
  | goexit =>
    refine ⟨[], ?_, rfl, hs⟩
    rw [alone_world, ho]; exact (List.append_nil _).symm

theorem runs_spec (clock : Nat → Int) (p : Prog) : ∀ w : World, Reachable clock w → LegalProg clock w p → LeavesToRun p →
    (exec clock w p).1.sinks = w.sinks ∧ (∀ x ∈ runsOf clock w p, x.1 < (exec clock w p).1.jobs.length) ∧
    ∃ new, (exec clock w p).1.calls = w.calls ++ new ∧
      completions new = (runsOf clock w p).flatMap (fun x => heard w.sinks (nameOf (exec clock w p).1 x.1) x.2) := by
  induction p with
  | ends o => exact fun w _ _ _ => ⟨rfl, by simp [runsOf], [], (List.append_nil _).symm, rfl⟩
  | op a rest ih =>
    intro w hw hl hr
    have hw' : Reachable clock (w.step clock a) := World.Reachable.run hw [a] ⟨hl.1, trivial⟩
    obtain ⟨s1, n1, c1, d1⟩ := step_other clock w hw a hr.1 hr.2.1
    obtain ⟨s2, j2, n2, c2, d2⟩ := ih _ hw' hl.2 hr.2.2
    refine ⟨s2.trans s1, j2, n1 ++ n2, ?_, ?_⟩
    · rw [exec, c2, c1, List.append_assoc]
    · rw [completions_append, d1, d2, s1]; rfl
  | newJob name rest ih =>
    intro w hw hl hr
    have hw' : Reachable clock (w.newJob clock name) := World.Reachable.run hw [.newJob name] ⟨trivial, trivial⟩
    exact ih _ _ hw' hl (hr _)
  | logErr j ev e t kvs rest ih =>
    intro w hw hl hr
    have hw' : Reachable clock (w.step clock (.emit j (.eventErr ev e t) kvs)) := World.Reachable.run hw [_] ⟨hl.1, trivial⟩
    obtain ⟨s1, n1, c1, d1⟩ := step_other clock w hw (.emit j (.eventErr ev e t) kvs) (by simp) (by simp)
    obtain ⟨s2, j2, n2, c2, d2⟩ := ih _ _ hw' hl.2 (hr _)
    refine ⟨s2.trans s1, j2, n1 ++ n2, ?_, ?_⟩
    · refine c2.trans ?_
      rw [c1, List.append_assoc]
    · rw [completions_append, d1, d2, s1]; rfl
  | run j f st tr rest ihf ih =>
    intro w hw hl hr
    have hl0 := hl
    rw [LegalProg] at hl
    obtain ⟨hj, hlf, hlr⟩ := hl
    obtain ⟨s1, j1, n1, c1, d1⟩ := ihf w hw hlf hr.1
    obtain ⟨n2, c2, d2, s2⟩ := alone_completions hw hj hlf st tr
    have hal : LegalProg clock w (alone j f st tr) := by
      unfold alone; rw [LegalProg]; exact ⟨hj, hlf, by split <;> trivial⟩
    have hwa := reachable_exec hw hal
    have hrest := alone_run clock w j f st tr rest
    -- names in the later streams
    have hn1 : ∀ x, x < (exec clock w f).1.jobs.length →
        x < (exec clock w (alone j f st tr)).1.jobs.length ∧ nameOf (exec clock w (alone j f st tr)).1 x = nameOf (exec clock w f).1 x := by
      intro x hx
      rw [alone_world]
      obtain ⟨job, h3, h4, _⟩ := (World.run_keeps clock (ending (exec clock w f).1 j st tr (exec clock w f).2) (exec clock w f).1).2 x _ (List.getElem?_eq_getElem hx)
      refine ⟨(List.getElem?_eq_some_iff.1 h3).1, ?_⟩
      simp [nameOf, h3, List.getElem?_eq_getElem hx, h4]
    have hjn := keeps_exec hlf j hj
    have hrw : ∀ (W : World), (∀ x, x < (exec clock w f).1.jobs.length → nameOf W x = nameOf (exec clock w f).1 x) →
        completions (n1 ++ n2) = (runsOf clock w f ++ [(j, (exec clock w f).2)]).flatMap (fun x => heard w.sinks (nameOf W x.1) x.2) := by
      intro W hW
      rw [completions_append, d1, d2, s1, List.flatMap_append]
      congr 1
      · rw [List.flatMap_def, List.flatMap_def]
        congr 1
        exact List.map_congr_left fun x hx => by rw [hW _ (j1 x hx)]
      · simp [hW j hjn.1, hjn.2]
    rw [runsOf, hrest]
    generalize hg : exec clock w (alone j f st tr) = r at *
    obtain ⟨w2, o⟩ := r
    simp only at c2 s2 hlr hn1 hwa
    have hend : (w2, o).1.sinks = w.sinks ∧
        (∀ x ∈ runsOf clock w f ++ [(j, (exec clock w f).2)], x.1 < w2.jobs.length) ∧ ∃ new, w2.calls = w.calls ++ new ∧
        completions new = (runsOf clock w f ++ [(j, (exec clock w f).2)]).flatMap (fun x => heard w.sinks (nameOf w2 x.1) x.2) := by
      refine ⟨s2.trans s1, ?_, n1 ++ n2, by rw [c2, c1, List.append_assoc], hrw w2 fun x hx => (hn1 x hx).2⟩
      intro x hx
      rcases List.mem_append.1 hx with hx | hx
      · exact (hn1 _ (j1 x hx)).1
      · cases List.mem_singleton.1 hx
        exact (hn1 _ hjn.1).1
    cases o with
    | ret e =>
      obtain ⟨s3, j3, n3, c3, d3⟩ := ih e w2 hwa hlr (hr.2 e)
      have hk := fun x hx => keeps_exec (clock := clock) hlr x hx
      refine ⟨s3.trans (s2.trans s1), ?_, n1 ++ n2 ++ n3, ?_, ?_⟩
      · intro x hx
        rcases List.mem_append.1 hx with hx | hx
        · exact (hk _ (hn1 _ (j1 x hx)).1).1
        · rcases List.mem_cons.1 hx with hx | hx
          · subst hx
            exact (hk _ (hn1 _ hjn.1).1).1
          · exact j3 x hx
      · simp only
        rw [c3, c2, c1]; simp
      · rw [completions_append, hrw (exec clock w2 (rest e)).1 (fun x hx => (hk x (hn1 x hx).1).2.trans (hn1 x hx).2), d3, s2, s1]
        simp
    | panic text => exact hend
    | panicNil => exact hend
    | goexit => exact hend

/-- **C110**, all runs: the completions that the sinks hear of while a program runs are those of its runs, in the order in which the runs end:
each run that ends by a return or a panic is heard of once by each sink, with its job's name and the status that belongs to how its function
ended. -/
theorem C110_completions (clock : Nat → Int) (w : World) (hw : Reachable clock w) (p : Prog) (hp : LegalProg clock w p) (hl : LeavesToRun p) :
    ∃ new, (exec clock w p).1.calls = w.calls ++ new ∧
      completions new = (runsOf clock w p).flatMap (fun x => heard w.sinks (nameOf (exec clock w p).1 x.1) x.2) :=
  (runs_spec clock p w hw hp hl).2.2

/-! ### a case: an inner run that panics, whose error the outer function logs and returns; another run that is left by `Goexit` -/
namespace Case

def clk (n : Nat) : Int := 10 * n

def w : World := (newStream clk).run clk [.addSink 7, .addSink 9]

/-- the job `inner` emits an event and panics, `outer` logs what the run gives back and returns what the logging gives back. -/
def p : Prog :=
  streamRun (bs "outer") (fun outer =>
    streamRun (bs "inner") (fun inner => .op (.emit inner (.event (bs "e")) none) (.ends (.panic (bs "boom")))) (bs "st") [1]
      (fun e => .logErr outer (bs "failed") e [2] none (fun e' => .ends (.ret e')))) (bs "st2") [3]
    (fun _ => streamRun (bs "ok") (fun _ => .ends (.ret .nil)) (bs "st3") [4] (fun e => .ends (.ret e)))

/-- a run that is left by `Goexit` inside another: neither completes, and the program is left as well. -/
def q : Prog := streamRun (bs "a") (fun _ => streamRun (bs "b") (fun _ => .ends .goexit) [] [] (fun e => .ends (.ret e))) [] [] (fun e => .ends (.ret e))

example : Reachable clk w := ⟨[.addSink 7, .addSink 9], ⟨trivial, trivial, trivial⟩, rfl⟩

example : LegalProg clk w p ∧ LeavesToRun p ∧ Calm p := by
  refine ⟨?_, ?_, ?_⟩
  · simp only [p, streamRun, LegalProg, alone, exec]
    refine ⟨by decide +kernel, ⟨by decide +kernel, ⟨trivial, trivial⟩, ?_⟩, ?_⟩
    · refine ⟨fun id h => ?_, trivial⟩
      cases h
    · exact ⟨by decide +kernel, trivial, trivial⟩
  · simp [p, streamRun, LeavesToRun]
  · simp [p, streamRun, Calm]

example : runsOf clk w p = [(2, .panic (bs "boom")), (1, .ret (.unmuted 1 (.other (bs "boom")) [2])), (3, .ret .nil)] ∧
    completions (exec clk w p).1.calls = [(7, bs "inner", Status.panic), (9, bs "inner", Status.panic), (7, bs "outer", Status.error),
      (9, bs "outer", Status.error), (7, bs "ok", Status.success), (9, bs "ok", Status.success)] ∧ (exec clk w p).2 = .ret .nil := by decide +kernel

example : completions (exec clk w q).1.calls = [] ∧ (exec clk w q).2 = .goexit ∧ runsOf clk w q = [(2, .goexit), (1, .goexit)] := by decide +kernel

end Case

/-! ## C111 -/

theorem emitted_run (clock : Nat → Int) (ops : List Op) : ∀ w : World, World.Ok w → LegalRun clock w ops → ∀ id ∈ w.emitted, id ∈ (w.run clock ops).emitted := by
  induction ops with
  | nil => exact fun w _ _ id h => h
  | cons a ops ih => exact fun w h hl id hid => ih _ (h.step a hl.1) hl.2 id (reportsOf_step clock w h 0 id hid a).2

/-- the logging of a panic by `Run`, as far as Bugsnag goes. -/
theorem panic_logged {clock : Nat → Int} {w : World} (hw : Reachable clock w) {j : Nat} {job : Job} (hj : w.jobs[j]? = some job) {f : Prog}
    (hf : LegalProg clock w f) {text : Str} (hp : (exec clock w f).2 = .panic text) (st : Str) (tr : Trace) :
    ∃ e id, e = .unmuted id (.other text) tr ∧ Reachable clock (exec clock w (alone j f st tr)).1 ∧ id ∈ (exec clock w (alone j f st tr)).1.emitted ∧
      ∀ later, LegalRun clock (exec clock w (alone j f st tr)).1 later → ∀ s, ∃ kvs,
        reportsOf ((exec clock w (alone j f st tr)).1.run clock later) s id =
          List.replicate ((exec clock w f).1.sinks.count s) ⟨job.name, bs "panic", e, kvs⟩ := by
  have hal : LegalProg clock w (alone j f st tr) := by
    unfold alone; rw [LegalProg]; exact ⟨(List.getElem?_eq_some_iff.1 hj).1, hf, by split <;> trivial⟩
  have hr1 := reachable_exec hw hf
  have hra := reachable_exec hw hal
  obtain ⟨ops, _, h2⟩ := flat clock f w hf
  have ha := alone_world clock w j f st tr
  rw [hp] at ha
  obtain ⟨job1, hj1, hn1, _⟩ := (World.run_keeps clock ops w).2 j job hj
  rw [← h2] at hj1
  generalize (exec clock w f).1 = w1 at *
  generalize (exec clock w (alone j f st tr)).1 = w2 at *
  have l := legal_ending clock w1 j st tr (.panic text)
  have r1 : Reachable clock (w1.step clock (.newMap [(bs "stack", st)])) := World.Reachable.run hr1 [_] ⟨l.1, trivial⟩
  have j1 : (w1.step clock (.newMap [(bs "stack", st)])).jobs[j]? = some job1 := hj1
  have hs : (w1.step clock (.newMap [(bs "stack", st)])).sinks = w1.sinks := rfl
  have ha : w2 = ((w1.step clock (.newMap [(bs "stack", st)])).emit clock j (.eventErr (bs "panic") (.other text) tr) (some w1.maps.length)).1.run clock
    [.emit j (.complete Status.panic) none] := ha
  generalize w1.step clock (.newMap [(bs "stack", st)]) = v at *
  obtain ⟨e1, _, e3⟩ := World.emit_err clock v j job1 j1 (bs "panic") (.other text) tr (some w1.maps.length)
  refine ⟨_, v.nextErr, rfl, hra, ?_, ?_⟩
  · rw [ha]
    refine emitted_run clock [.emit j (.complete Status.panic) none] _ (World.reachable_ok (clock := clock) ?_) ⟨trivial, trivial⟩ _ (by rw [e3]; simp [World.wrapErr, objId])
    exact World.Reachable.run r1 [.emit j (.eventErr (bs "panic") (.other text) tr) (some w1.maps.length)] ⟨fun id h => (by cases h), trivial⟩
  · intro later hl s
    have hl' : LegalRun clock (v.emit clock j (.eventErr (bs "panic") (.other text) tr) (some w1.maps.length)).1
        ([.emit j (.complete Status.panic) none] ++ later) :=
      (legalRun_append _ _ _ _).2 ⟨⟨trivial, trivial⟩, by rw [← ha]; exact hl⟩
    obtain ⟨id, kvs, g1, g2⟩ := C06_reported_once clock v r1 j job1 j1 (bs "panic") (.other text) trivial tr (some w1.maps.length) _ hl' s
    rw [e1] at g1 g2
    have : v.nextErr = id := by simpa [World.wrapErr, objId] using g1
    subst this
    refine ⟨kvs, ?_⟩
    rw [World.run_append, ← ha, hs, hn1] at g2
    exact g2

/-- **C111** (partial): a panic that `Run` stops is reported to Bugsnag by each Bugsnag sink once (as often as the sink was added), under the job's
name and `panic`, and the object reported then is not reported again, whatever follows.
What is missing: the error that `Run` gives back is another object (health.go:231-232), so `C111_twice`. -/
theorem C111_panic_reported_partial (clock : Nat → Int) (w : World) (hw : Reachable clock w) (j : Nat) (job : Job) (hj : w.jobs[j]? = some job) (f : Prog)
    (hf : LegalProg clock w f) (text : Str) (hp : (exec clock w f).2 = .panic text) (st : Str) (tr : Trace) (later : List Op)
    (hl : LegalRun clock (exec clock w (alone j f st tr)).1 later) (s : Nat) :
    (exec clock w (alone j f st tr)).2 = .ret (.other text) ∧
    ∃ id kvs, reportsOf ((exec clock w (alone j f st tr)).1.run clock later) s id =
      List.replicate ((exec clock w f).1.sinks.count s) ⟨job.name, bs "panic", .unmuted id (.other text) tr, kvs⟩ := by
  refine ⟨?_, ?_⟩
  · unfold alone; rw [exec]
    generalize exec clock w f = r at *
    obtain ⟨w1, o⟩ := r
    simp only at hp
    subst hp
    rfl
  · obtain ⟨e, id, rfl, _, _, h⟩ := panic_logged hw hj hf hp st tr
    obtain ⟨kvs, h⟩ := h later hl s
    exact ⟨id, kvs, h⟩

/-- **C111** fails whenever the error given back by `Run` is logged, as the README recommends to do on every level: each Bugsnag sink reports the
panic twice, as two different errors with the same text, the second with the stack of the place where it was logged (and only twice: logging the
error given back by that logging reports nothing more). -/
theorem C111_twice (clock : Nat → Int) (w : World) (hw : Reachable clock w) (j : Nat) (job : Job) (hj : w.jobs[j]? = some job) (f : Prog)
    (hf : LegalProg clock w f) (text : Str) (hp : (exec clock w f).2 = .panic text) (st : Str) (tr : Trace) (before : List Op)
    (hb : LegalRun clock (exec clock w (alone j f st tr)).1 before) (j2 : Nat) (job2 : Job)
    (hj2 : ((exec clock w (alone j f st tr)).1.run clock before).jobs[j2]? = some job2) (ev : Str) (tr2 : Trace) (inst : MapRef) (later : List Op)
    (hl : LegalRun clock (((exec clock w (alone j f st tr)).1.run clock before).emit clock j2 (.eventErr ev (.other text) tr2) inst).1 later) (s : Nat) :
    let w2 := (exec clock w (alone j f st tr)).1.run clock before
    let w3 := (w2.emit clock j2 (.eventErr ev (.other text) tr2) inst).1.run clock later
    ∃ id id2 kvs kvs2, id ≠ id2 ∧
      reportsOf w3 s id = List.replicate ((exec clock w f).1.sinks.count s) ⟨job.name, bs "panic", .unmuted id (.other text) tr, kvs⟩ ∧
      reportsOf w3 s id2 = List.replicate (w2.sinks.count s) ⟨job2.name, ev, .unmuted id2 (.other text) tr2, kvs2⟩ := by
  intro w2 w3
  obtain ⟨e, id, rfl, hra, hid, h⟩ := panic_logged hw hj hf hp st tr
  have hr2 : Reachable clock w2 := World.Reachable.run hra before hb
  have hid2 : id ∈ w2.emitted := emitted_run clock before _ (World.reachable_ok hra) hb id hid
  obtain ⟨id2, kvs2, g1, g2⟩ := C06_reported_once clock w2 hr2 j2 job2 hj2 ev (.other text) trivial tr2 inst later hl s
  obtain ⟨e1, _, _⟩ := World.emit_err clock w2 j2 job2 hj2 ev (.other text) tr2 inst
  rw [e1] at g1 g2
  have hi : w2.nextErr = id2 := by simpa [World.wrapErr, objId] using g1
  subst hi
  obtain ⟨kvs, h⟩ := h (before ++ .emit j2 (.eventErr ev (.other text) tr2) inst :: later)
    ((legalRun_append _ _ _ _).2 ⟨hb, fun id h => (by cases h), hl⟩) s
  refine ⟨id, w2.nextErr, kvs, kvs2, ?_, ?_, g2⟩
  · have := (World.reachable_ok hr2).emitted id hid2
    omega
  · rw [World.run_append] at h
    exact h

/-- the case above: sink 7 gets `boom` twice. -/
example : (bugsnagReports (exec Case.clk Case.w Case.p).1 7).map (fun r => (r.job, r.event, r.err)) =
    [(bs "inner", bs "panic", .unmuted 0 (.other (bs "boom")) [1]), (bs "outer", bs "failed", .unmuted 1 (.other (bs "boom")) [2])] := by decide +kernel

/-- the hypotheses of the theorems on a case. -/
example : let f : Prog := .op (.emit 0 (.event (bs "e")) none) (.ends (.panic (bs "boom")))
    LegalProg Case.clk Case.w f ∧ (exec Case.clk Case.w f).2 = .panic (bs "boom") ∧
    (bugsnagReports ((exec Case.clk Case.w (alone 0 f [] [1])).1.emit Case.clk 0 (.eventErr (bs "x") (.other (bs "boom")) [2]) none).1 9).length = 2 :=
  ⟨⟨trivial, trivial⟩, by decide +kernel, by decide +kernel⟩

end Nested
