import Verif.Lemmas.StreamKvs
/-!
# Properties C01–C07, C64: streams, jobs, Run, errors, Bugsnag reports
-/
open Spec

/-- the sink calls made by an emission. -/
def newCalls (clock : Nat → Int) (w : World) (j : Nat) (c : World.Call) (inst : MapRef) : List SinkCall :=
  (w.emit clock j c inst).1.calls.drop w.calls.length

theorem newCalls_eq {clock : Nat → Int} {w : World} {j : Nat} {c : World.Call} {inst : MapRef} {new : List SinkCall}
    (h : (w.emit clock j c inst).1.calls = w.calls ++ new) : newCalls clock w j c inst = new := by
  simp [newCalls, h]

namespace Sample
open World
def clk : Nat → Int := fun n => 1000 + 10 * n
/-- a stream with two sinks, stream key/values, a job with key/values (one clashing), and a map of the caller. -/
def sops : List Op := [.addSink 7, .addSink 9, .streamKv (bs "a") (bs "1"), .newJob (bs "j"), .jobKv 1 (bs "a") (bs "2"),
  .jobKv 1 (bs "b") (bs "3"), .newMap [(bs "b", bs "4"), (bs "c", bs "5")], .mapSet 2 (bs "c") (bs "6")]
def sw : World := (newStream clk).run clk sops
example : CleanRun clk (newStream clk) sops := by
  refine ⟨⟨trivial, trivial⟩, ⟨trivial, trivial⟩, ⟨trivial, trivial⟩, ⟨trivial, trivial⟩, ⟨trivial, ?_⟩, ⟨trivial, ?_⟩,
    ⟨?_, trivial⟩, ⟨trivial, ?_⟩, trivial⟩
  · show 1 < _
    decide +kernel
  · show 1 < _
    decide +kernel
  · show (_ : List Str).Nodup
    decide +kernel
  · constructor
    · decide +kernel
    · decide +kernel
theorem sw_reachable : Reachable clk sw := by
  refine ⟨sops, ⟨trivial, trivial, trivial, trivial, trivial, trivial, ?_, trivial, trivial⟩, rfl⟩
  show (_ : List Str).Nodup
  decide +kernel
example : (newCalls clk sw 1 (.event (bs "e")) (some 2)).map (·.seen) =
    [some [(bs "a", bs "2"), (bs "b", bs "4"), (bs "c", bs "6")], some [(bs "a", bs "2"), (bs "b", bs "4"), (bs "c", bs "6")]] := by
  decide +kernel
end Sample

/-! ## C01, C02 -/

/-- C01: every sink sees, for every key, the call's value if the call has the key, else the job's, else the stream's. -/
theorem C01_precedence (clock : Nat → Int) (w : World) (h : Reachable clock w) (j : Nat) (job : Job)
    (hj : w.jobs[j]? = some job) (c : World.Call) (inst : MapRef) :
    ∀ sc ∈ newCalls clock w j c inst, ∀ k,
      lookup sc.seen k = precedence (w.deref inst) (w.deref job.kvs) (w.deref w.kvs) k := by
  obtain ⟨new, extra, kvs, em, hs, _⟩ := World.emit_spec clock w (World.reachable_ok h).maps j job hj c inst
  rw [newCalls_eq hs.calls]
  intro sc hsc k
  rw [(hs.newCalls sc hsc).2.2.2.1]
  exact hs.prec k

/-- C01 in terms of the program's history: the job's and the stream's values are those last set with `KeyValue` on that job and
on the stream (for programs that do not write into the maps inside stream and jobs themselves). -/
theorem C01_from_history (clock : Nat → Int) (ops : List World.Op) (hc : CleanRun clock (World.newStream clock) ops)
    (j : Nat) (inst : MapRef) (c : World.Call) :
    let w := (World.newStream clock).run clock ops
    ∀ sc ∈ newCalls clock w j c inst, ∀ k,
      lookup sc.seen k =
        match lookup (w.deref inst) k with
        | some v => some v
        | none =>
          match lastWrite (jobWrites j) ops k with
          | some v => some v
          | none => lastWrite streamWrites ops k := by
  intro w sc hsc k
  have hk := (World.Kvs.newStream clock).run ops hc
  rw [List.nil_append] at hk
  cases hj : w.jobs[j]? with
  | none =>
    exfalso
    simp [newCalls, World.emit, hj] at hsc
  | some job =>
    obtain ⟨new, extra, kvs, em, hs, _⟩ := World.emit_spec clock w hk.ok.maps j job hj c inst
    rw [newCalls_eq hs.calls] at hsc
    rw [(hs.newCalls sc hsc).2.2.2.1, hs.prec k]
    unfold precedence
    rw [hk.job j job hj k, hk.stream k]
    cases lookup (w.deref inst) k <;> cases lastWrite (jobWrites j) ops k <;> rfl

example : lastWrite (jobWrites 1) Sample.sops (bs "a") = some (bs "2") ∧
    lastWrite streamWrites Sample.sops (bs "a") = some (bs "1") := by decide +kernel

/-- C02: the map handed to a sink is nil exactly when call, job and stream have no pairs; otherwise it is a non-empty map. -/
theorem C02_nil_iff_no_pairs (clock : Nat → Int) (w : World) (h : Reachable clock w) (j : Nat) (job : Job)
    (hj : w.jobs[j]? = some job) (c : World.Call) (inst : MapRef) :
    ∀ sc ∈ newCalls clock w j c inst,
      (sc.seen = none ↔ NoPairs (w.deref inst) ∧ NoPairs (w.deref job.kvs) ∧ NoPairs (w.deref w.kvs)) ∧
      (sc.kvs = none ↔ sc.seen = none) ∧ sc.seen ≠ some [] := by
  obtain ⟨new, extra, kvs, em, hs, _⟩ := World.emit_spec clock w (World.reachable_ok h).maps j job hj c inst
  rw [newCalls_eq hs.calls]
  intro sc hsc
  obtain ⟨_, _, h1, h2, _⟩ := hs.newCalls sc hsc
  have hn : sc.seen = none ↔ kvs = none := by
    rw [h2]
    cases kvs with
    | none => simp [World.deref]
    | some r =>
      obtain ⟨m, hm, _⟩ := hs.someKvs r rfl
      rw [hm]; simp
  refine ⟨hn.trans hs.noKvs, by rw [h1, hn], ?_⟩
  rw [h2]
  cases kvs with
  | none => simp [World.deref]
  | some r =>
    obtain ⟨m, hm, h0⟩ := hs.someKvs r rfl
    rw [hm]
    simpa using h0

example : (newCalls Sample.clk ((World.newStream Sample.clk).addSink 3) 0 (.gauge (bs "g") (.fin 1)) none).map (·.seen) = [none] := by
  decide +kernel

/-! ## C03 -/

/-- C03: a call makes exactly one call of every sink, in the order in which they were added, with the job's name, the
caller's payload and the same key/values; nothing else about streams, jobs and sinks changes. -/
theorem C03_fan_out (clock : Nat → Int) (w : World) (h : Reachable clock w) (j : Nat) (job : Job)
    (hj : w.jobs[j]? = some job) (c : World.Call) (inst : MapRef) :
    (w.emit clock j c inst).1.calls = w.calls ++ newCalls clock w j c inst ∧
    FanOut w.sinks job.name (PayloadFor clock job.start (w.emit clock j c inst).2 c) (newCalls clock w j c inst) ∧
    (w.emit clock j c inst).1.sinks = w.sinks ∧ (w.emit clock j c inst).1.jobs = w.jobs ∧
    (w.emit clock j c inst).1.kvs = w.kvs := by
  obtain ⟨new, extra, kvs, em, hs, _⟩ := World.emit_spec clock w (World.reachable_ok h).maps j job hj c inst
  rw [newCalls_eq hs.calls]
  refine ⟨hs.calls, ⟨hs.newSinks, fun c' hc => ⟨(hs.newCalls c' hc).1, (hs.newCalls c' hc).2.1⟩, ?_⟩, hs.sinks, hs.jobs, hs.wkvs⟩
  intro c1 h1 c2 h2
  obtain ⟨_, _, h3, h4, _⟩ := hs.newCalls c1 h1
  obtain ⟨_, _, h5, h6, _⟩ := hs.newCalls c2 h2
  exact ⟨h3.trans h5.symm, h4.trans h6.symm⟩

/-- C03, sinks: the sinks called are those added with AddSink, in that order. -/
theorem C03_sinks_in_order (clock : Nat → Int) (ops : List World.Op)
    (hl : LegalRun clock (World.newStream clock) ops) :
    ((World.newStream clock).run clock ops).sinks = ops.filterMap (fun | .addSink s => some s | _ => none) := by
  induction ops using snocInduction with
  | nil => rfl
  | snoc l op ih =>
    obtain ⟨hl1, hl2⟩ := (World.legalRun_append _ _ _ _).1 hl
    rw [World.run_append, List.filterMap_append, ← ih hl1]
    have hok := (World.Ok.newStream clock).run l hl1
    generalize (World.newStream clock).run clock l = w at *
    show (w.step clock op).sinks = _
    cases op with
    | addSink s => simp [World.step, World.addSink]
    | streamKv k v => simp only [World.step, World.streamKv, World.mapSet]; unfold World.ensure; split <;> simp
    | newJob n => simp [World.step, World.newJob]
    | jobKv j k v =>
      simp only [World.step, World.jobKv]
      split
      · simp
      · simp only [World.mapSet]; unfold World.ensure; split <;> simp
    | newMap m => simp [World.step, World.newMap]
    | mapSet i k v => simp [World.step, World.mapSet]
    | emit j c kvs =>
      cases hj : w.jobs[j]? with
      | none => simp [World.step, World.emit, hj]
      | some job =>
        obtain ⟨new, extra, r, em, hs, _⟩ := World.emit_spec clock w hok.maps j job hj c kvs
        simp [World.step, hs.sinks]

example : Sample.sw.sinks = [7, 9] ∧ (newCalls Sample.clk Sample.sw 1 (.timing (bs "t") 5) none).length = 2 := by
  decide +kernel

/-- a job keeps its name and its start, and the clock is not read backwards. -/
theorem World.step_keeps (clock : Nat → Int) (w : World) (op : World.Op) :
    w.reads ≤ (w.step clock op).reads ∧ ∀ (j : Nat) (job : Job), w.jobs[j]? = some job →
      ∃ job' : Job, (w.step clock op).jobs[j]? = some job' ∧ job'.name = job.name ∧ job'.start = job.start := by
  have same : ∀ v : World, v.jobs = w.jobs → v.reads = w.reads → w.reads ≤ v.reads ∧ ∀ (j : Nat) (job : Job), w.jobs[j]? = some job →
      ∃ job' : Job, v.jobs[j]? = some job' ∧ job'.name = job.name ∧ job'.start = job.start :=
    fun v h1 h2 => ⟨by omega, fun j job hj => ⟨job, by rw [h1, hj], rfl, rfl⟩⟩
  cases op with
  | addSink s => exact same _ rfl rfl
  | streamKv k v =>
    simp only [World.step, World.streamKv, World.mapSet]
    unfold World.ensure
    split <;> exact same _ rfl rfl
  | newJob n =>
    refine ⟨by simp [World.step, World.newJob], fun j job hj => ⟨job, ?_, rfl, rfl⟩⟩
    simp only [World.step, World.newJob]
    rw [List.getElem?_append_left (List.getElem?_eq_some_iff.1 hj).1, hj]
  | jobKv j0 k v =>
    simp only [World.step, World.jobKv]
    cases h0 : w.jobs[j0]? with
    | none => exact same _ rfl rfl
    | some job0 =>
      have key : ∀ (v : World) (i : Nat), v.jobs = w.jobs → v.reads = w.reads →
          w.reads ≤ ({ v with jobs := v.jobs.set j0 { job0 with kvs := some i } } : World).reads ∧
          ∀ (j : Nat) (job : Job), w.jobs[j]? = some job → ∃ job' : Job,
            ({ v with jobs := v.jobs.set j0 { job0 with kvs := some i } } : World).jobs[j]? = some job' ∧ job'.name = job.name ∧ job'.start = job.start := by
        intro v i h1 h2
        refine ⟨by simp only; omega, fun j job hj => ?_⟩
        by_cases e : j0 = j
        · subst e
          rw [h0] at hj
          cases hj
          exact ⟨{ job0 with kvs := some i }, by simp [h1, (List.getElem?_eq_some_iff.1 h0).1], rfl, rfl⟩
        · exact ⟨job, by simp [h1, List.getElem?_set_ne e, hj], rfl, rfl⟩
      simp only [World.mapSet]
      unfold World.ensure
      split <;> exact key _ _ rfl rfl
  | newMap m => exact same _ rfl rfl
  | mapSet i k v => exact same _ rfl rfl
  | emit j0 c kvs =>
    have hc : ∀ (l : List Nat) (v : World) (n : Str) (p : Payload) (r : MapRef),
        (l.foldl (fun w s => w.callSink s n p r) v).jobs = v.jobs ∧ (l.foldl (fun w s => w.callSink s n p r) v).reads = v.reads := by
      intro l v n p r; rw [World.foldl_callSink]; exact ⟨rfl, rfl⟩
    have hm : ∀ (v : World) (b : Job) (r : MapRef), (v.mergedKeyValues b r).1.jobs = v.jobs ∧ (v.mergedKeyValues b r).1.reads = v.reads := by
      intro v b r
      unfold World.mergedKeyValues
      simp only
      repeat' split
      all_goals exact ⟨rfl, rfl⟩
    have hw : ∀ (v : World) (e : GoErr) (t : Trace), (v.wrapErr e t).1.jobs = v.jobs ∧ (v.wrapErr e t).1.reads = v.reads := by
      intro v e t; cases e <;> exact ⟨rfl, rfl⟩
    have hk : ∀ (v : World) (e : GoErr), (v.markEmitted e).jobs = v.jobs ∧ (v.markEmitted e).reads = v.reads := by
      intro v e; cases e <;> exact ⟨rfl, rfl⟩
    simp only [World.step, World.emit]
    cases h0 : w.jobs[j0]? with
    | none => exact same _ rfl rfl
    | some job0 =>
      cases c with
      | event ev => exact same _ ((hc _ _ _ _ _).1.trans (hm _ _ _).1) ((hc _ _ _ _ _).2.trans (hm _ _ _).2)
      | timing ev n => exact same _ ((hc _ _ _ _ _).1.trans (hm _ _ _).1) ((hc _ _ _ _ _).2.trans (hm _ _ _).2)
      | gauge ev v => exact same _ ((hc _ _ _ _ _).1.trans (hm _ _ _).1) ((hc _ _ _ _ _).2.trans (hm _ _ _).2)
      | eventErr ev e t =>
        exact same _ ((hk _ _).1.trans ((hc _ _ _ _ _).1.trans ((hm _ _ _).1.trans (hw _ _ _).1)))
          ((hk _ _).2.trans ((hc _ _ _ _ _).2.trans ((hm _ _ _).2.trans (hw _ _ _).2)))
      | complete st =>
        simp only [World.foldl_complete]
        refine ⟨by rw [(hm _ _ _).2]; omega, fun j job hj => ⟨job, ?_, rfl, rfl⟩⟩
        rw [(hm _ _ _).1, hj]

theorem World.run_keeps (clock : Nat → Int) (ops : List World.Op) : ∀ w : World,
    w.reads ≤ (w.run clock ops).reads ∧ ∀ (j : Nat) (job : Job), w.jobs[j]? = some job →
      ∃ job' : Job, (w.run clock ops).jobs[j]? = some job' ∧ job'.name = job.name ∧ job'.start = job.start := by
  induction ops with
  | nil => exact fun w => ⟨Nat.le_refl _, fun j job hj => ⟨job, hj, rfl, rfl⟩⟩
  | cons op ops ih =>
    intro w
    obtain ⟨a1, a2⟩ := World.step_keeps clock w op
    obtain ⟨b1, b2⟩ := ih (w.step clock op)
    refine ⟨Nat.le_trans a1 b1, fun j job hj => ?_⟩
    obtain ⟨job1, h1, h2, h3⟩ := a2 j job hj
    obtain ⟨job2, h4, h5, h6⟩ := b2 j job1 h1
    exact ⟨job2, h4, h5.trans h2, h6.trans h3⟩

/-- C03, durations: a job is made, anything happens, and the job is completed.  The sinks are given, in order, the time from the reading of the clock
when the job was made to readings that are made one by one for the sinks, after all earlier readings. -/
theorem C03_durations (clock : Nat → Int) (w : World) (name : Str) (ops : List World.Op) (st : Status) (inst : MapRef) :
    let w1 := (w.newJob clock name).run clock ops
    (w1.emit clock w.jobs.length (.complete st) inst).1.calls = w1.calls ++ newCalls clock w1 w.jobs.length (.complete st) inst ∧
    (newCalls clock w1 w.jobs.length (.complete st) inst).map (fun c => (c.sink, c.job, c.payload)) =
      w1.sinks.mapIdx (fun i s => (s, name, .complete st (elapsed (clock w.reads) (clock (w1.reads + i))))) ∧
    w.reads < w1.reads ∧ (w1.emit clock w.jobs.length (.complete st) inst).1.reads = w1.reads + w1.sinks.length := by
  intro w1
  obtain ⟨hr, hjobs⟩ := World.run_keeps clock ops (w.newJob clock name)
  obtain ⟨job, hj, hn, hs⟩ := hjobs w.jobs.length ⟨name, none, clock w.reads⟩ (by simp [World.newJob])
  have hj : w1.jobs[w.jobs.length]? = some job := hj
  have hm : ∀ (v : World) (b : Job) (r : MapRef), (v.mergedKeyValues b r).1.sinks = v.sinks ∧ (v.mergedKeyValues b r).1.reads = v.reads ∧
      (v.mergedKeyValues b r).1.calls = v.calls := by
    intro v b r
    unfold World.mergedKeyValues
    simp only
    repeat' split
    all_goals exact ⟨rfl, rfl, rfl⟩
  obtain ⟨m1, m2, m3⟩ := hm w1 job inst
  have e : (w1.emit clock w.jobs.length (.complete st) inst).1 = (w1.mergedKeyValues job inst).1.sinks.foldl (fun w s =>
      let n := World.timeSub (clock w.reads) job.start
      ({ w with reads := w.reads + 1 } : World).callSink s job.name (.complete st n) (w1.mergedKeyValues job inst).2) (w1.mergedKeyValues job inst).1 := by
    simp only [World.emit, hj]
  rw [World.foldl_complete] at e
  have ecalls := congrArg World.calls e
  have ereads := congrArg World.reads e
  simp only at ecalls ereads
  rw [m3, m2, m1] at ecalls
  rw [newCalls_eq ecalls, ecalls]
  refine ⟨rfl, ?_, ?_, by rw [ereads, m1, m2]⟩
  · apply List.ext_getElem
    · simp
    · intro i h1 h2
      simp [hn, hs, World.elapsed_eq]
  · have : (w.newJob clock name).reads = w.reads + 1 := rfl
    show w.reads < ((w.newJob clock name).run clock ops).reads
    omega

/-- a job of 30 ns, with something emitted by another job meanwhile; a sink that hears of it later. -/
example : ((newCalls Sample.clk ((Sample.sw.newJob Sample.clk (bs "k")).run Sample.clk [.emit 1 (.complete Status.error) none]) Sample.sw.jobs.length
    (.complete Status.success) none).map (fun c => (c.sink, c.job, c.payload))) =
    [(7, bs "k", .complete Status.success 30), (9, bs "k", .complete Status.success 40)] := by decide +kernel

/-- the ends of the range. -/
example : elapsed 0 (2 ^ 63) = 2 ^ 63 - 1 ∧ elapsed 7 12 = 5 ∧ elapsed 12 7 = -5 ∧ elapsed (2 ^ 64) 0 = -2 ^ 63 := by decide +kernel

/-! ## C04 -/

/-- C04: Run completes the job exactly once (once per sink) with the right status and returns the right error.  `w.run f` is the
world after the function given to Run has done its work; what Run adds to the log of sink calls comes after that. -/
theorem C04_run (clock : Nat → Int) (w : World) (hw : Reachable clock w) (j : Nat) (job : Job)
    (hj : w.jobs[j]? = some job) (f : List World.Op) (hf : LegalRun clock w f) (stackText : Str) (trace : Trace) :
    let w1 := w.run clock f
    let completed st := FanOut w1.sinks job.name (fun p => ∃ n, p = .complete st n)
    (∃ new, (w.runJob clock j f (.ret .nil) stackText trace).1.calls = w1.calls ++ new ∧ completed Status.success new ∧
      (w.runJob clock j f (.ret .nil) stackText trace).2 = .returned .nil) ∧
    (∀ e, e ≠ .nil → ∃ new, (w.runJob clock j f (.ret e) stackText trace).1.calls = w1.calls ++ new ∧
      completed Status.error new ∧ (w.runJob clock j f (.ret e) stackText trace).2 = .returned e) ∧
    (∀ text, ∃ errs new, (w.runJob clock j f (.panic text) stackText trace).1.calls = w1.calls ++ errs ++ new ∧
      FanOut w1.sinks job.name (fun p => ∃ e, p = .eventErr (bs "panic") e ∧ e.message = some text) errs ∧
      (∀ c ∈ errs, lookup c.seen (bs "stack") = some stackText) ∧
      completed Status.panic new ∧
      ∃ e, (w.runJob clock j f (.panic text) stackText trace).2 = .returned e ∧ e.message = some text) := by
  intro w1 completed
  have hr : Reachable clock w1 := World.Reachable.run hw f hf
  obtain ⟨job1, hj1, hname, hstart⟩ := World.run_jobs clock w f j job hj
  have compl : ∀ (v : World), Reachable clock v → (∃ jb, v.jobs[j]? = some jb ∧ jb.name = job.name) → ∀ st, ∃ new,
      (v.emit clock j (.complete st) none).1.calls = v.calls ++ new ∧
      FanOut v.sinks job.name (fun p => ∃ n, p = .complete st n) new := by
    rintro v hv ⟨jb, hjb, hn⟩ st
    obtain ⟨h1, h2, _⟩ := C03_fan_out clock v hv j jb hjb (.complete st) none
    refine ⟨_, h1, h2.1, ?_, h2.2.2⟩
    intro c hc
    obtain ⟨h3, h4⟩ := h2.2.1 c hc
    exact ⟨h3.trans hn, h4.elim (fun i hi => ⟨_, hi⟩)⟩
  refine ⟨?_, ?_, ?_⟩
  · obtain ⟨new, h1, h2⟩ := compl w1 hr ⟨job1, hj1, hname⟩ Status.success
    exact ⟨new, h1, h2, rfl⟩
  · intro e he
    obtain ⟨new, h1, h2⟩ := compl w1 hr ⟨job1, hj1, hname⟩ Status.error
    have hrun : w.runJob clock j f (.ret e) stackText trace =
        ((w1.emit clock j (.complete Status.error) none).1, .returned e) := by
      cases e with
      | nil => exact absurd rfl he
      | _ => rfl
    rw [hrun]
    exact ⟨new, h1, h2, rfl⟩
  · intro text
    -- the world with the map holding the stack
    let w2 := (w1.newMap [(bs "stack", stackText)]).1
    have hr2 : Reachable clock w2 := World.Reachable.run hr [.newMap [(bs "stack", stackText)]] ⟨by simp [LegalOp, GoMap.Wf, GoMap.keys], trivial⟩
    have hj2 : w2.jobs[j]? = some job1 := hj1
    have hlegal : LegalOp w2 (.emit j (.eventErr (bs "panic") (.other text) trace) (some w1.maps.length)) := by
      simp [LegalOp, objId]
    let w3 := (w2.emit clock j (.eventErr (bs "panic") (.other text) trace) (some w1.maps.length)).1
    have hr3 : Reachable clock w3 := World.Reachable.run hr2 [.emit j (.eventErr (bs "panic") (.other text) trace) (some w1.maps.length)]
      ⟨hlegal, trivial⟩
    obtain ⟨h1, h2, h3, h4, _⟩ := C03_fan_out clock w2 hr2 j job1 hj2 (.eventErr (bs "panic") (.other text) trace)
      (some w1.maps.length)
    obtain ⟨new, h5, h6⟩ := compl w3 hr3 ⟨job1, by show (World.emit _ _ _ _ _).1.jobs[j]? = _; rw [h4]; exact hj2, hname⟩ Status.panic
    refine ⟨_, new, ?_, ⟨h2.1, ?_, h2.2.2⟩, ?_, ?_, _, rfl, rfl⟩
    · show (w3.emit clock j (.complete Status.panic) none).1.calls = _
      rw [h5]
      congr 1
    · intro c hc
      obtain ⟨h7, h8⟩ := h2.2.1 c hc
      refine ⟨h7.trans hname, _, h8, ?_⟩
      rw [(World.emit_err clock w2 j job1 hj2 (bs "panic") (.other text) trace (some w1.maps.length)).1]
      rfl
    · intro c hc
      rw [C01_precedence clock w2 hr2 j job1 hj2 _ _ c hc]
      have : w2.deref (some w1.maps.length) = some [(bs "stack", stackText)] := by
        simp [w2, World.deref, World.newMap]
      rw [this]
      rfl
    · have hs3 : w3.sinks = w1.sinks := h3
      rw [hs3] at h6
      exact h6

/-- C04 for `Stream.Run`: it runs a new job of that name. -/
theorem C04_stream_run (clock : Nat → Int) (w : World) (name : Str) (f : List World.Op) (o : World.Outcome)
    (stackText : Str) (trace : Trace) :
    w.runStream clock name f o stackText trace = (w.newJob clock name).runJob clock w.jobs.length f o stackText trace ∧
    (w.newJob clock name).jobs[w.jobs.length]? = some ⟨name, none, clock w.reads⟩ := by
  refine ⟨rfl, by simp [World.newJob]⟩

/-- C04, exceptions: a function that ends with `panic(nil)` where recover yields nil, or with `runtime.Goexit`, leaves the job
without any completion (so the claim needs the three ways of ending above). -/
theorem C04_no_completion_cases (clock : Nat → Int) (w : World) (j : Nat) (f : List World.Op) (stackText : Str) (trace : Trace) :
    (w.runJob clock j f .panicNil stackText trace) = (w.run clock f, .returned .nil) ∧
    (w.runJob clock j f .goexit stackText trace) = (w.run clock f, .exited) := ⟨rfl, rfl⟩

example : ((Sample.sw.runJob Sample.clk 1 [.emit 1 (.event (bs "e")) none] (.panic (bs "boom")) (bs "st") [1]).1.calls.map (·.payload)) =
    [.event (bs "e"), .event (bs "e"), .eventErr (bs "panic") (.unmuted 0 (.other (bs "boom")) [1]),
      .eventErr (bs "panic") (.unmuted 0 (.other (bs "boom")) [1]), .complete Status.panic 10, .complete Status.panic 20] := by
  decide +kernel

/-! ## C05 -/

/-- one later logging of an error: operations before it, then the EventErr call. -/
structure Relog where
  before : List World.Op
  j : Nat
  event : Str
  trace : Trace
  kvs : MapRef

/-- log the error again and again, each time passing on the returned error. -/
def relog (clock : Nat → Int) (w : World) (e : GoErr) : List Relog → World × GoErr
  | [] => (w, e)
  | r :: rs =>
    let (w', e') := (w.run clock r.before).emit clock r.j (.eventErr r.event e r.trace) r.kvs
    relog clock w' e' rs

theorem emit_jobs_length (clock : Nat → Int) (w : World) (ops : List World.Op) (j : Nat) (h : j < w.jobs.length) :
    j < (w.run clock ops).jobs.length := by
  obtain ⟨job', h1, _⟩ := World.run_jobs clock w ops j w.jobs[j] (List.getElem?_eq_getElem h)
  exact (List.getElem?_eq_some_iff.1 h1).1

theorem relog_same (clock : Nat → Int) (e : GoErr) (he : ¬ Plain e) (rs : List Relog) :
    ∀ w : World, (∀ r ∈ rs, r.j < w.jobs.length) → (relog clock w e rs).2 = e := by
  induction rs with
  | nil => intros; rfl
  | cons r rs ih =>
    intro w hj
    have hlt := emit_jobs_length clock w r.before r.j (hj r (by simp))
    obtain ⟨h1, _⟩ := World.emit_err clock (w.run clock r.before) r.j _ (List.getElem?_eq_getElem hlt) r.event e r.trace r.kvs
    rw [World.wrapErr_notPlain _ _ he] at h1
    simp only [relog]
    rw [h1]
    apply ih
    intro r' hr'
    have := emit_jobs_length clock w (r.before ++ [.emit r.j (.eventErr r.event e r.trace) r.kvs]) r'.j (hj r' (by simp [hr']))
    rw [World.run_append] at this
    exact this

/-- C05: logging a plain error returns a new error object around it with the stack captured then; however often it is logged
again (by any jobs, with anything happening in between), the returned error is the very same object; its message is that
of the original error.  A muted error is returned untouched, and nothing is allocated for either. -/
theorem C05_wrapped_once (clock : Nat → Int) (w : World) (j : Nat) (job : Job) (hj : w.jobs[j]? = some job)
    (ev : Str) (e : GoErr) (t : Trace) (inst : MapRef) (rs : List Relog) (hrs : ∀ r ∈ rs, r.j < w.jobs.length) :
    (Plain e →
      let r := w.emit clock j (.eventErr ev e t) inst
      r.2 = .unmuted w.nextErr e t ∧ r.2.message = e.message ∧ (relog clock r.1 r.2 rs).2 = r.2) ∧
    (¬ Plain e → (relog clock w e rs).2 = e ∧
      (w.emit clock j (.eventErr ev e t) inst).1.nextErr = w.nextErr) := by
  obtain ⟨h1, h2, _⟩ := World.emit_err clock w j job hj ev e t inst
  refine ⟨?_, ?_⟩
  · intro hp
    rw [World.wrapErr_plain w e hp] at h1
    refine ⟨h1, by rw [h1]; rfl, ?_⟩
    apply relog_same
    · rw [h1]; simp [Plain]
    · intro r hr
      have := emit_jobs_length clock w [.emit j (.eventErr ev e t) inst] r.j (hrs r hr)
      exact this
  · intro hp
    rw [World.wrapErr_notPlain w e hp] at h2
    exact ⟨relog_same clock e hp rs w hrs, h2⟩

example : Plain (.other (bs "x")) ∧ ¬ Plain (mute (.other (bs "x"))) := by simp [Plain, mute]
example : (relog Sample.clk Sample.sw (.other (bs "x")) [⟨[], 0, bs "e1", [5], none⟩, ⟨[.newJob (bs "k")], 1, bs "e2", [6], none⟩]).2 =
    .unmuted 0 (.other (bs "x")) [5] := by decide +kernel

/-! ## C06 -/

/-- reports that concern the error object with the given id. -/
def reportsOf (w : World) (s id : Nat) : List BugsnagReport :=
  (bugsnagReports w s).filter (fun r => objId r.err = some id)

theorem bugsnagReports_append (w w' : World) (new : List SinkCall) (h : w'.calls = w.calls ++ new) (s : Nat) :
    bugsnagReports w' s = bugsnagReports w s ++ (new.filter (fun c => c.sink = s)).filterMap bugsnagReport := by
  simp [bugsnagReports, h, List.filter_append, List.filterMap_append]

/-- an error marked as emitted is never reported again, whatever happens. -/
theorem reportsOf_step (clock : Nat → Int) (w : World) (h : World.Ok w) (s id : Nat) (hid : id ∈ w.emitted) (op : World.Op) :
    reportsOf (w.step clock op) s id = reportsOf w s id ∧ id ∈ (w.step clock op).emitted := by
  by_cases hop : ∃ j c kvs, op = .emit j c kvs
  · obtain ⟨j, c, kvs, rfl⟩ := hop
    cases hj : w.jobs[j]? with
    | none =>
      have : w.step clock (.emit j c kvs) = w := by simp [World.step, World.emit, hj]
      rw [this]; exact ⟨rfl, hid⟩
    | some job =>
      obtain ⟨new, extra, r, em, hs, hem⟩ := World.emit_spec clock w h.maps j job hj c kvs
      constructor
      · show reportsOf (w.emit clock j c kvs).1 s id = _
        unfold reportsOf
        rw [bugsnagReports_append w _ new hs.calls, List.filter_append]
        have : ((new.filter (fun c => c.sink = s)).filterMap bugsnagReport).filter (fun r => objId r.err = some id) = [] := by
          rw [List.filter_eq_nil_iff]
          intro rep hrep
          obtain ⟨c', hc', hrep⟩ := List.mem_filterMap.1 hrep
          have hc'' := (List.mem_filter.1 hc').1
          obtain ⟨_, hpay, _, _, hse⟩ := hs.newCalls c' hc''
          intro hobj
          simp only [decide_eq_true_eq] at hobj
          unfold bugsnagReport at hrep
          split at hrep
          · next ev e hpe =>
            rw [hpe] at hpay
            split at hrep
            · next id' i st =>
              split at hrep
              · simp at hrep
              · next hse' =>
                simp only [Option.some.injEq] at hrep
                subst hrep
                simp only [objId, Option.some.injEq] at hobj
                subst hobj
                cases c with
                | eventErr ev' e' t' =>
                  have := hem ev' e' t' rfl
                  simp only [PayloadFor, Payload.eventErr.injEq] at hpay
                  rw [← hpay.2] at this
                  simp only [World.isEmitted, hid, decide_true] at this
                  rw [hse, this] at hse'
                  simp at hse'
                | event => simp [PayloadFor] at hpay
                | timing => simp [PayloadFor] at hpay
                | gauge => simp [PayloadFor] at hpay
                | complete => simp [PayloadFor] at hpay
            · simp at hrep
            · simp at hrep
          · simp at hrep
        rw [this, List.append_nil]
      · by_cases hc : ∃ ev e t, c = .eventErr ev e t
        · obtain ⟨ev, e, t, rfl⟩ := hc
          show id ∈ (w.emit clock j (.eventErr ev e t) kvs).1.emitted
          rw [(World.emit_err clock w j job hj ev e t kvs).2.2]
          exact List.mem_append_left _ hid
        · show id ∈ (w.emit clock j c kvs).1.emitted
          rw [(World.emit_noerr clock w j c kvs (fun ev e t h => hc ⟨ev, e, t, h⟩)).2]
          exact hid
  · have hem : (w.step clock op).emitted = w.emitted := by
      cases op with
      | emit j c kvs => exact absurd ⟨j, c, kvs, rfl⟩ hop
      | streamKv k v => simp only [World.step, World.streamKv, World.mapSet]; unfold World.ensure; split <;> rfl
      | jobKv j k v =>
        simp only [World.step, World.jobKv]
        split
        · rfl
        · simp only [World.mapSet]; unfold World.ensure; split <;> rfl
      | _ => rfl
    obtain ⟨new, h1, h2⟩ := World.step_calls clock w h op
    rw [h2 (fun j c kvs he => hop ⟨j, c, kvs, he⟩), List.append_nil] at h1
    refine ⟨?_, by rw [hem]; exact hid⟩
    simp [reportsOf, bugsnagReports, h1]

theorem reportsOf_run (clock : Nat → Int) (ops : List World.Op) : ∀ (w : World), World.Ok w → LegalRun clock w ops →
    ∀ (s id : Nat), id ∈ w.emitted → reportsOf (w.run clock ops) s id = reportsOf w s id := by
  induction ops with
  | nil => intros; rfl
  | cons op ops ih =>
    intro w h hl s id hid
    obtain ⟨h1, h2⟩ := reportsOf_step clock w h s id hid op
    show reportsOf ((w.step clock op).run clock ops) s id = _
    rw [ih _ (h.step op hl.1) hl.2 s id h2, h1]

/-- C06: a plain error logged at any moment is reported, by each Bugsnag sink of the stream at that moment, exactly once (as often as
the sink had been added), under the job and event of that first logging; logging the returned error again, any number of
times, through any job and event, reports nothing more. -/
theorem C06_reported_once (clock : Nat → Int) (w : World) (hw : Reachable clock w) (j : Nat) (job : Job)
    (hj : w.jobs[j]? = some job) (ev : Str) (e : GoErr) (he : Plain e) (t : Trace) (inst : MapRef)
    (later : List World.Op)
    (hl : LegalRun clock (w.emit clock j (.eventErr ev e t) inst).1 later) (s : Nat) :
    let r := w.emit clock j (.eventErr ev e t) inst
    ∃ id kvs, objId r.2 = some id ∧
      reportsOf (r.1.run clock later) s id = List.replicate (w.sinks.count s) ⟨job.name, ev, r.2, kvs⟩ := by
  intro r
  have hok := World.reachable_ok hw
  obtain ⟨h1, h2, h3⟩ := World.emit_err clock w j job hj ev e t inst
  rw [World.wrapErr_plain w e he] at h1 h2 h3
  obtain ⟨new, extra, kvs, em, hs, hem⟩ := World.emit_spec clock w hok.maps j job hj (.eventErr ev e t) inst
  have hid : objId r.2 = some w.nextErr := by show objId (World.emit _ _ _ _ _).2 = _; rw [h1]; rfl
  have hlegal : LegalOp w (.emit j (.eventErr ev e t) inst) := by
    intro id hid; rw [World.objId_plain he] at hid; simp at hid
  refine ⟨w.nextErr, kvs, hid, ?_⟩
  rw [reportsOf_run clock later r.1 (hok.emit j _ inst hlegal) hl s w.nextErr
    (by show w.nextErr ∈ (World.emit _ _ _ _ _).1.emitted; rw [h3]; simp [objId])]
  unfold reportsOf
  rw [bugsnagReports_append w r.1 new hs.calls, List.filter_append]
  have hold : (bugsnagReports w s).filter (fun r => objId r.err = some w.nextErr) = [] := by
    rw [List.filter_eq_nil_iff]
    intro rep hrep hobj
    simp only [decide_eq_true_eq] at hobj
    obtain ⟨c', hc', hrep⟩ := List.mem_filterMap.1 hrep
    have hc'' := (List.mem_filter.1 hc').1
    unfold bugsnagReport at hrep
    split at hrep
    · next ev e hpe =>
      have := hok.calls c' hc'' ev e w.nextErr hpe
      split at hrep
      · split at hrep
        · simp at hrep
        · simp only [Option.some.injEq] at hrep
          subst hrep
          have := this hobj
          omega
      · simp at hrep
      · simp at hrep
    · simp at hrep
  rw [hold, List.nil_append]
  have hemf : em = false := by
    rw [hem ev e t rfl, h1]
    simp only [World.isEmitted, decide_eq_false_iff_not]
    intro h0
    have := hok.emitted _ h0
    omega
  have hrep : ∀ c ∈ new, bugsnagReport c = some ⟨job.name, ev, r.2, kvs⟩ := by
    intro c hc
    obtain ⟨g1, g2, g3, _, g5⟩ := hs.newCalls c hc
    simp only [PayloadFor] at g2
    have h1' : r.2 = .unmuted w.nextErr e t := h1
    have g2' : c.payload = .eventErr ev (.unmuted w.nextErr e t) := by rw [g2]; exact congrArg _ h1
    simp only [bugsnagReport, g2', g5, hemf, g1, g3, h1']
    try rfl
  have hcount : w.sinks.count s = (new.filter (fun c => c.sink = s)).length := by
    rw [← hs.newSinks, List.count_eq_length_filter, List.filter_map, List.length_map]
    congr 1
  rw [hcount]
  have hall : ∀ l : List SinkCall, (∀ c ∈ l, bugsnagReport c = some ⟨job.name, ev, r.2, kvs⟩) →
      (l.filterMap bugsnagReport).filter (fun r => objId r.err = some w.nextErr) =
        List.replicate l.length ⟨job.name, ev, r.2, kvs⟩ := by
    intro l hl
    induction l with
    | nil => rfl
    | cons c l ih =>
      rw [List.filterMap_cons, hl c (by simp)]
      simp only [List.length_cons, List.replicate_succ]
      rw [List.filter_cons, if_pos (by simpa using hid), ih (fun c' hc' => hl c' (by simp [hc']))]
  exact hall _ (fun c hc => hrep c (List.mem_filter.1 hc).1)

/-- C06: muted errors are never reported. -/
theorem C06_muted_never (w : World) (s : Nat) : ∀ r ∈ bugsnagReports w s, ∃ id i st, r.err = .unmuted id i st := by
  intro r hr
  obtain ⟨c, _, hc⟩ := List.mem_filterMap.1 hr
  unfold bugsnagReport at hc
  split at hc
  · split at hc
    · split at hc
      · simp at hc
      · simp only [Option.some.injEq] at hc
        exact ⟨_, _, _, by rw [← hc]⟩
    · simp at hc
    · simp at hc
  · simp at hc

example : let r := Sample.sw.emit Sample.clk 1 (.eventErr (bs "ev") (.other (bs "x")) [5]) none
    let w := r.1.run Sample.clk [.emit 0 (.eventErr (bs "outer") r.2 [6]) none, .emit 1 (.eventErr (bs "m") (mute (.other (bs "y"))) [6]) none]
    bugsnagReports w 7 = [⟨bs "j", bs "ev", .unmuted 0 (.other (bs "x")) [5], some 3⟩] ∧ w.calls.length = 6 := by decide +kernel

/-! ## C07 -/

/-- the contents of map `r` do not change under operations that do not write to it. -/
theorem deref_step (clock : Nat → Int) (w : World) (hok : World.Ok w) (op : World.Op) (r : Nat) (hr : r < w.maps.length)
    (hk : w.kvs ≠ some r) (hjobs : ∀ job ∈ w.jobs, job.kvs ≠ some r) (hw : ¬ WritesMap r op) :
    (w.step clock op).deref (some r) = w.deref (some r) ∧ r < (w.step clock op).maps.length ∧
    (w.step clock op).kvs ≠ some r ∧ (∀ job ∈ (w.step clock op).jobs, job.kvs ≠ some r) := by
  cases op with
  | addSink s => exact ⟨rfl, hr, hk, hjobs⟩
  | newMap m =>
    refine ⟨?_, ?_, hk, hjobs⟩
    · simp [World.step, World.newMap, World.deref, List.getElem?_append_left hr]
    · simp [World.step, World.newMap]; omega
  | newJob n =>
    refine ⟨rfl, hr, hk, ?_⟩
    intro job hj
    simp only [World.step, World.newJob, List.mem_append, List.mem_singleton] at hj
    rcases hj with hj | hj
    · exact hjobs job hj
    · subst hj; simp
  | mapSet i k v =>
    have hne : i ≠ r := hw
    refine ⟨?_, by simpa [World.step, World.mapSet] using hr, hk, hjobs⟩
    show (w.mapSet i k v).deref (some r) = _
    rw [World.deref_mapSet, if_neg (by simpa using Ne.symm hne)]
  | emit j c kvs =>
    cases hj : w.jobs[j]? with
    | none =>
      have : w.step clock (.emit j c kvs) = w := by simp [World.step, World.emit, hj]
      rw [this]; exact ⟨rfl, hr, hk, hjobs⟩
    | some job =>
      obtain ⟨new, extra, q, em, hs, _⟩ := World.emit_spec clock w hok.maps j job hj c kvs
      refine ⟨World.deref_old w _ extra hs.maps _ (by intro i hi; simp at hi; omega), ?_, ?_, ?_⟩
      · show r < (w.emit clock j c kvs).1.maps.length
        rw [hs.maps, List.length_append]; omega
      · show (w.emit clock j c kvs).1.kvs ≠ some r
        rw [hs.wkvs]; exact hk
      · intro jb hjb
        change jb ∈ (w.emit clock j c kvs).1.jobs at hjb
        rw [hs.jobs] at hjb; exact hjobs jb hjb
  | streamKv k v =>
    cases hkv : w.kvs with
    | some i =>
      have hne : i ≠ r := by rintro rfl; exact hk hkv
      have e : w.step clock (.streamKv k v) = { w.mapSet i k v with kvs := some i } := by
        simp [World.step, World.streamKv, World.ensure, hkv]
      rw [e]
      refine ⟨?_, by simpa [World.mapSet] using hr, by simpa using hne, hjobs⟩
      show (w.mapSet i k v).deref (some r) = _
      rw [World.deref_mapSet, if_neg (by simpa using Ne.symm hne)]
    | none =>
      have e : w.step clock (.streamKv k v) =
          { ({ w with maps := w.maps ++ [[]] } : World).mapSet w.maps.length k v with kvs := some w.maps.length } := by
        simp [World.step, World.streamKv, World.ensure, hkv]
      rw [e]
      have hne : w.maps.length ≠ r := by omega
      refine ⟨?_, by simp [World.mapSet]; omega, by simpa using hne, hjobs⟩
      show (World.mapSet _ _ _ _).deref (some r) = _
      rw [World.deref_mapSet, if_neg (by simpa using Ne.symm hne)]
      exact World.deref_old w _ [[]] rfl _ (by intro i hi; simp at hi; omega)
  | jobKv j k v =>
    simp only [World.step, World.jobKv]
    cases hj : w.jobs[j]? with
    | none => exact ⟨rfl, hr, hk, hjobs⟩
    | some job =>
      have hjk := hjobs job (List.mem_of_getElem? hj)
      cases hkv : job.kvs with
      | some i =>
        have hne : i ≠ r := by rintro rfl; exact hjk hkv
        simp only [World.ensure, hkv]
        refine ⟨?_, by simpa [World.mapSet] using hr, hk, ?_⟩
        · show (w.mapSet i k v).deref (some r) = _
          rw [World.deref_mapSet, if_neg (by simpa using Ne.symm hne)]
        · intro jb hjb
          rcases List.mem_or_eq_of_mem_set hjb with hjb | hjb
          · exact hjobs jb hjb
          · subst hjb; simpa using hne
      | none =>
        have hne : w.maps.length ≠ r := by omega
        simp only [World.ensure, hkv]
        refine ⟨?_, by simp [World.mapSet]; omega, hk, ?_⟩
        · show (World.mapSet _ _ _ _).deref (some r) = _
          rw [World.deref_mapSet, if_neg (by simpa using Ne.symm hne)]
          exact World.deref_old w _ [[]] rfl _ (by intro i hi; simp at hi; omega)
        · intro jb hjb
          rcases List.mem_or_eq_of_mem_set hjb with hjb | hjb
          · exact hjobs jb hjb
          · subst hjb; simpa using hne

theorem deref_run (clock : Nat → Int) (ops : List World.Op) (r : Nat) : ∀ (w : World), World.Ok w → LegalRun clock w ops →
    r < w.maps.length → w.kvs ≠ some r → (∀ job ∈ w.jobs, job.kvs ≠ some r) → (∀ op ∈ ops, ¬ WritesMap r op) →
    (w.run clock ops).deref (some r) = w.deref (some r) := by
  induction ops with
  | nil => intros; rfl
  | cons op ops ih =>
    intro w hok hl hr hk hj hw
    obtain ⟨h1, h2, h3, h4⟩ := deref_step clock w hok op r hr hk hj (hw op (by simp))
    show ((w.step clock op).run clock ops).deref (some r) = _
    rw [ih _ (hok.step op hl.1) hl.2 h2 h3 h4 (fun o ho => hw o (by simp [ho])), h1]

/-- C07, partial: when at least two of call, job and stream have pairs, the map handed to the sinks keeps its contents whatever
the program does later (unless somebody writes to that very map, which only the sinks have).
Missing: the case of exactly one non-empty map, where the claim is false (`C07_snapshot_false`). -/
theorem C07_snapshot_partial (clock : Nat → Int) (w : World) (hw : Reachable clock w) (j : Nat) (job : Job)
    (hj : w.jobs[j]? = some job) (c : World.Call) (inst : MapRef) (hleg : LegalOp w (.emit j c inst))
    (h2 : ¬ NoPairs (w.deref inst) ∧ ¬ NoPairs (w.deref job.kvs) ∨
        ¬ NoPairs (w.deref inst) ∧ ¬ NoPairs (w.deref w.kvs) ∨
        ¬ NoPairs (w.deref job.kvs) ∧ ¬ NoPairs (w.deref w.kvs))
    (later : List World.Op) (hl : LegalRun clock (w.emit clock j c inst).1 later) :
    ∃ r, (∀ sc ∈ newCalls clock w j c inst, sc.kvs = some r) ∧
      ((∀ op ∈ later, ¬ WritesMap r op) →
        ∀ sc ∈ newCalls clock w j c inst, ((w.emit clock j c inst).1.run clock later).deref sc.kvs = sc.seen) := by
  have hok := World.reachable_ok hw
  obtain ⟨new, extra, kvs, em, hs, _⟩ := World.emit_spec clock w hok.maps j job hj c inst
  obtain ⟨hk, hlen⟩ := hs.fresh h2
  rw [newCalls_eq hs.calls]
  refine ⟨w.maps.length, fun sc hsc => by rw [(hs.newCalls sc hsc).2.2.1, hk], ?_⟩
  intro hwr sc hsc
  obtain ⟨_, _, g3, g4, _⟩ := hs.newCalls sc hsc
  rw [g3, g4, hk]
  apply deref_run clock later w.maps.length _ (hok.emit j c inst hleg) hl
  · omega
  · rw [hs.wkvs]; intro h0; have := hok.kvs _ h0; omega
  · intro jb hjb h0
    rw [hs.jobs] at hjb
    have := hok.jobs jb hjb _ h0; omega
  · exact hwr

/-- the situation of the partial theorem occurs. -/
example : ¬ NoPairs (Sample.sw.deref (some 2)) ∧ ¬ NoPairs (Sample.sw.deref (Sample.sw.jobs[1]?.bind (·.kvs))) := by
  have h1 : Sample.sw.deref (some 2) = some [(bs "b", bs "4"), (bs "c", bs "6")] := by decide +kernel
  have h2 : Sample.sw.deref (Sample.sw.jobs[1]?.bind (·.kvs)) = some [(bs "a", bs "2"), (bs "b", bs "3")] := by decide +kernel
  rw [h1, h2]
  simp [NoPairs]

/-- C07 is false: a job without key/values in a stream with some emits an error; afterwards the stream's key/value is changed;
the map that the sink was given now shows the new value. -/
theorem C07_snapshot_false : ∃ (clock : Nat → Int) (ops : List World.Op) (later : List World.Op) (sc : SinkCall),
    CleanRun clock (World.newStream clock) ops ∧
    (let w := (World.newStream clock).run clock ops
     newCalls clock w 0 (.eventErr (bs "e") (.other (bs "x")) []) none = [sc] ∧
     sc.seen = some [(bs "user", bs "1")] ∧
     later = [.streamKv (bs "user") (bs "2")] ∧
     ((w.emit clock 0 (.eventErr (bs "e") (.other (bs "x")) []) none).1.run clock later).deref sc.kvs = some [(bs "user", bs "2")]) := by
  refine ⟨Sample.clk, [.addSink 7, .streamKv (bs "user") (bs "1")], [.streamKv (bs "user") (bs "2")],
    ⟨7, bs "general", .eventErr (bs "e") (.unmuted 0 (.other (bs "x")) []), some 0, some [(bs "user", bs "1")], false⟩,
    ⟨⟨trivial, trivial⟩, ⟨trivial, trivial⟩, trivial⟩, ?_, rfl, rfl, ?_⟩
  · decide +kernel
  · decide +kernel

/-! ## C64 -/

/-- C64 is false as stated ("EventErr returns nil iff it was given nil"): a nil error comes back as a non-nil error, whose
`Error()` method panics. -/
theorem C64_nil_error_false (clock : Nat → Int) (w : World) (j : Nat) (job : Job) (hj : w.jobs[j]? = some job)
    (ev : Str) (t : Trace) (inst : MapRef) :
    (w.emit clock j (.eventErr ev .nil t) inst).2 ≠ .nil ∧ (w.emit clock j (.eventErr ev .nil t) inst).2.message = none := by
  rw [(World.emit_err clock w j job hj ev .nil t inst).1]
  simp [World.wrapErr, GoErr.message]

/-- C64, partial: a non-nil error comes back non-nil. Missing: nil, where the claim is false. -/
theorem C64_non_nil_partial (clock : Nat → Int) (w : World) (j : Nat) (job : Job) (hj : w.jobs[j]? = some job)
    (ev : Str) (e : GoErr) (he : e ≠ .nil) (t : Trace) (inst : MapRef) :
    (w.emit clock j (.eventErr ev e t) inst).2 ≠ .nil ∧
    (w.emit clock j (.eventErr ev e t) inst).2.message = e.message := by
  rw [(World.emit_err clock w j job hj ev e t inst).1]
  cases e with
  | nil => exact absurd rfl he
  | other m => simp [World.wrapErr, GoErr.message]
  | muted i => simp [World.wrapErr, GoErr.message]
  | unmuted id i s => simp [World.wrapErr, GoErr.message]
