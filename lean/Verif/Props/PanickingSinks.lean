import Verif.Model.PanickingSinks
import Verif.Props.Stream
import Verif.Props.Writer
/-!
# C102: sinks that panic
-/
namespace World
open Spec

theorem callSinks_spec (P : Panics) (f : World → Nat → World) (ss : List Nat) : ∀ w : World,
    ((∀ k, k < ss.length → P ((ss.take (k + 1)).foldl f w).calls = false) ∧ callSinks P f w ss = (ss.foldl f w, false)) ∨
    (∃ k, k < ss.length ∧ (∀ i, i < k → P ((ss.take (i + 1)).foldl f w).calls = false) ∧ P ((ss.take (k + 1)).foldl f w).calls = true ∧
      callSinks P f w ss = ((ss.take (k + 1)).foldl f w, true)) := by
  induction ss with
  | nil => intro w; left; exact ⟨fun k hk => absurd hk (by simp), rfl⟩
  | cons s ss ih =>
    intro w
    by_cases hp : P (f w s).calls
    · right
      exact ⟨0, by simp, fun i hi => absurd hi (by omega), by simpa using hp, by simp [callSinks, hp]⟩
    · rcases ih (f w s) with ⟨h1, h2⟩ | ⟨k, hk, h1, h2, h3⟩
      · left
        refine ⟨?_, by simp [callSinks, hp, h2]⟩
        intro k hk
        cases k with
        | zero => simpa using hp
        | succ k => simpa using h1 k (by simpa using hk)
      · right
        refine ⟨k + 1, by simpa using hk, ?_, by simpa using h2, by simp [callSinks, hp, h3]⟩
        intro i hi
        cases i with
        | zero => simpa using hp
        | succ i => simpa using h1 i (by omega)

/-- a body that makes one call, of the sink it is given and with an acceptable payload, and leaves jobs, sinks and marks alone. -/
def OneCall (ok : SinkCall → Prop) (f : World → Nat → World) : Prop :=
  ∀ w s, (∃ c, (f w s).calls = w.calls ++ [c] ∧ c.sink = s ∧ ok c) ∧ (f w s).emitted = w.emitted ∧ (f w s).jobs = w.jobs ∧ (f w s).sinks = w.sinks

/-- the same marks, jobs and sinks. -/
def Same (w v : World) : Prop := v.emitted = w.emitted ∧ v.jobs = w.jobs ∧ v.sinks = w.sinks

theorem fold_calls {ok : SinkCall → Prop} {f : World → Nat → World} (hf : OneCall ok f) (ss : List Nat) : ∀ w : World, ∃ new : List SinkCall,
    new.map (·.sink) = ss ∧ (∀ c ∈ new, ok c) ∧
    ∀ k, ((ss.take k).foldl f w).calls = w.calls ++ new.take k ∧ Same w ((ss.take k).foldl f w) := by
  induction ss with
  | nil => intro w; exact ⟨[], rfl, by simp, fun k => by simp [Same]⟩
  | cons s ss ih =>
    intro w
    obtain ⟨⟨c, hc, hs, ho⟩, he⟩ := hf w s
    obtain ⟨new, hn, hall, hk⟩ := ih (f w s)
    refine ⟨c :: new, by simp [hs, hn], ?_, ?_⟩
    · intro x hx
      rcases List.mem_cons.1 hx with h | h
      · exact h ▸ ho
      · exact hall x h
    · intro k
      cases k with
      | zero => simp [Same]
      | succ k =>
        have := hk k
        unfold Same at this ⊢
        simp [this, hc, he]

/-- what a loop over the sinks does, in terms of the calls it would make if no sink panicked. -/
theorem callSinks_calls {P : Panics} {ok : SinkCall → Prop} {f : World → Nat → World} (hf : OneCall ok f) (w : World) (ss : List Nat) :
    ∃ new : List SinkCall, new.map (·.sink) = ss ∧ (∀ c ∈ new, ok c) ∧ (ss.foldl f w).calls = w.calls ++ new ∧ Same w (ss.foldl f w) ∧
    (((∀ k, k < new.length → P (w.calls ++ new.take (k + 1)) = false) ∧ callSinks P f w ss = (ss.foldl f w, false)) ∨
     (∃ k, k < new.length ∧ (∀ i, i < k → P (w.calls ++ new.take (i + 1)) = false) ∧ P (w.calls ++ new.take (k + 1)) = true ∧
       (callSinks P f w ss).2 = true ∧ (callSinks P f w ss).1.calls = w.calls ++ new.take (k + 1) ∧
       Same w (callSinks P f w ss).1)) := by
  obtain ⟨new, hn, hall, hk⟩ := fold_calls hf ss w
  have hlen : new.length = ss.length := by rw [← hn, List.length_map]
  have hfull := hk ss.length
  rw [List.take_of_length_le (Nat.le_refl _), List.take_of_length_le (by omega)] at hfull
  refine ⟨new, hn, hall, hfull.1, hfull.2, ?_⟩
  rcases callSinks_spec P f ss w with ⟨h1, h2⟩ | ⟨k, h0, h1, h2, h3⟩
  · exact .inl ⟨fun k hk' => by rw [← (hk (k + 1)).1]; exact h1 k (by omega), h2⟩
  · refine .inr ⟨k, by omega, fun i hi => by rw [← (hk (i + 1)).1]; exact h1 i hi, by rw [← (hk (k + 1)).1]; exact h2, ?_⟩
    rw [h3]
    exact ⟨rfl, (hk (k + 1)).1, (hk (k + 1)).2⟩

theorem oneCall_const (job : Str) (p : Payload) (kvs : MapRef) : OneCall (fun c => c.job = job ∧ c.payload = p) (fun w s => w.callSink s job p kvs) :=
  fun _ _ => ⟨⟨_, rfl, rfl, rfl, rfl⟩, rfl, rfl, rfl⟩

theorem merged_same (w : World) (job : Job) (inst : MapRef) : (w.mergedKeyValues job inst).1.calls = w.calls ∧
    Same w (w.mergedKeyValues job inst).1 := by
  unfold mergedKeyValues Same
  simp only
  repeat' split
  all_goals exact ⟨rfl, rfl, rfl, rfl⟩

theorem wrapErr_same (w : World) (e : GoErr) (t : Trace) : (w.wrapErr e t).1.calls = w.calls ∧ Same w (w.wrapErr e t).1 := by
  cases e <;> exact ⟨rfl, rfl, rfl, rfl⟩

theorem Same.trans {u v w : World} (h1 : Same u v) (h2 : Same v w) : Same u w := ⟨h2.1.trans h1.1, h2.2.1.trans h1.2.1, h2.2.2.trans h1.2.2⟩

/-- everything about one emission with sinks that may panic; `new`: the calls it makes if none does. -/
structure EmitP (clock : Nat → Int) (P : Panics) (w : World) (j : Nat) (job : Job) (c : Call) (inst : MapRef) (new : List SinkCall) : Prop where
  sinks : new.map (·.sink) = w.sinks
  payloads : ∀ x ∈ new, x.job = job.name ∧ PayloadFor clock job.start (w.emit clock j c inst).2 c x.payload
  calls : (w.emit clock j c inst).1.calls = w.calls ++ new
  jobs : (w.emitP clock P j c inst).1.jobs = w.jobs ∧ (w.emitP clock P j c inst).1.sinks = w.sinks
  cases :
    ((∀ k, k < new.length → P (w.calls ++ new.take (k + 1)) = false) ∧
        w.emitP clock P j c inst = ((w.emit clock j c inst).1, some (w.emit clock j c inst).2)) ∨
     (∃ k, k < new.length ∧ (∀ i, i < k → P (w.calls ++ new.take (i + 1)) = false) ∧ P (w.calls ++ new.take (k + 1)) = true ∧
        (w.emitP clock P j c inst).2 = none ∧ (w.emitP clock P j c inst).1.calls = w.calls ++ new.take (k + 1) ∧
        (w.emitP clock P j c inst).1.emitted = w.emitted)

theorem emitP_spec (clock : Nat → Int) (P : Panics) (w : World) (j : Nat) (job : Job) (hj : w.jobs[j]? = some job) (c : Call) (inst : MapRef) :
    ∃ new, EmitP clock P w j job c inst new := by
  have plain : ∀ (f : World → Nat → World), OneCall (fun x => x.job = job.name ∧ PayloadFor clock job.start .nil c x.payload) f →
      (w.emit clock j c inst) = ((w.mergedKeyValues job inst).1.sinks.foldl f (w.mergedKeyValues job inst).1, .nil) →
      (w.emitP clock P j c inst) = ((callSinks P f (w.mergedKeyValues job inst).1 (w.mergedKeyValues job inst).1.sinks).1,
        if (callSinks P f (w.mergedKeyValues job inst).1 (w.mergedKeyValues job inst).1.sinks).2 then none else some .nil) →
      ∃ new, EmitP clock P w j job c inst new := by
    intro f hf h1 h2
    obtain ⟨m1, m2⟩ := merged_same w job inst
    obtain ⟨new, hn, hall, hc, hs, hh⟩ := callSinks_calls (P := P) hf (w.mergedKeyValues job inst).1 (w.mergedKeyValues job inst).1.sinks
    rw [m1] at hc hh
    have hjobs : Same w (w.emitP clock P j c inst).1 := by
      rw [h2]
      rcases hh with ⟨_, a2⟩ | ⟨k, _, _, _, _, _, a5⟩
      · rw [a2]; exact m2.trans hs
      · exact m2.trans a5
    refine ⟨new, by rw [hn, m2.2.2], by rw [h1]; exact hall, by rw [h1]; exact hc, ⟨hjobs.2.1, hjobs.2.2⟩, ?_⟩
    rcases hh with ⟨a1, a2⟩ | ⟨k, a0, a1, a2, a3, a4, a5⟩
    · left; exact ⟨a1, by rw [h2, h1, a2]; rfl⟩
    · right
      refine ⟨k, a0, a1, a2, ?_, ?_, hjobs.1⟩
      · rw [h2, a3]; rfl
      · rw [h2]; exact a4
  cases c with
  | event ev => exact plain _ (oneCall_const job.name (.event ev) (w.mergedKeyValues job inst).2) (by simp only [emit, hj]) (by simp only [emitP, hj])
  | timing ev n =>
    exact plain _ (oneCall_const job.name (.timing ev n) (w.mergedKeyValues job inst).2) (by simp only [emit, hj]) (by simp only [emitP, hj])
  | gauge ev v =>
    exact plain _ (oneCall_const job.name (.gauge ev v) (w.mergedKeyValues job inst).2) (by simp only [emit, hj]) (by simp only [emitP, hj])
  | complete st =>
    exact plain (fun w' s => ({ w' with reads := w'.reads + 1 }).callSink s job.name (.complete st (timeSub (clock w'.reads) job.start))
      (w.mergedKeyValues job inst).2) (fun v s => ⟨⟨_, rfl, rfl, rfl, v.reads, congrArg _ (elapsed_eq _ _)⟩, rfl, rfl, rfl⟩) (by simp only [emit, hj]) (by simp only [emitP, hj])
  | eventErr ev e t =>
    have he : w.emit clock j (.eventErr ev e t) inst = ((((w.wrapErr e t).1.mergedKeyValues job inst).1.sinks.foldl
        (fun w' s => w'.callSink s job.name (.eventErr ev (w.wrapErr e t).2) ((w.wrapErr e t).1.mergedKeyValues job inst).2)
        ((w.wrapErr e t).1.mergedKeyValues job inst).1).markEmitted (w.wrapErr e t).2, (w.wrapErr e t).2) := by simp only [emit, hj]
    have hp : w.emitP clock P j (.eventErr ev e t) inst = if (callSinks P
        (fun w' s => w'.callSink s job.name (.eventErr ev (w.wrapErr e t).2) ((w.wrapErr e t).1.mergedKeyValues job inst).2)
        ((w.wrapErr e t).1.mergedKeyValues job inst).1 ((w.wrapErr e t).1.mergedKeyValues job inst).1.sinks).2 then
        ((callSinks P
        (fun w' s => w'.callSink s job.name (.eventErr ev (w.wrapErr e t).2) ((w.wrapErr e t).1.mergedKeyValues job inst).2)
        ((w.wrapErr e t).1.mergedKeyValues job inst).1 ((w.wrapErr e t).1.mergedKeyValues job inst).1.sinks).1, none)
        else ((callSinks P
        (fun w' s => w'.callSink s job.name (.eventErr ev (w.wrapErr e t).2) ((w.wrapErr e t).1.mergedKeyValues job inst).2)
        ((w.wrapErr e t).1.mergedKeyValues job inst).1 ((w.wrapErr e t).1.mergedKeyValues job inst).1.sinks).1.markEmitted (w.wrapErr e t).2,
          some (w.wrapErr e t).2) := by simp only [emitP, hj]
    generalize (w.wrapErr e t).2 = e' at he hp
    obtain ⟨m1, m2⟩ := merged_same (w.wrapErr e t).1 job inst
    obtain ⟨n1, n2⟩ := wrapErr_same w e t
    obtain ⟨new, hn, hall, hc, hs, hh⟩ := callSinks_calls (P := P)
      (oneCall_const job.name (.eventErr ev e') ((w.wrapErr e t).1.mergedKeyValues job inst).2)
      ((w.wrapErr e t).1.mergedKeyValues job inst).1 ((w.wrapErr e t).1.mergedKeyValues job inst).1.sinks
    rw [m1, n1] at hc hh
    have hm : ∀ (v : World), (v.markEmitted e').calls = v.calls ∧ (v.markEmitted e').jobs = v.jobs ∧ (v.markEmitted e').sinks = v.sinks := by
      intro v; cases e' <;> exact ⟨rfl, rfl, rfl⟩
    refine ⟨new, by rw [hn, m2.2.2, n2.2.2], by rw [he]; exact hall, by rw [he]; exact (hm _).1.trans hc, ?_, ?_⟩
    · rw [hp]
      rcases hh with ⟨_, a2⟩ | ⟨k, _, _, _, a3, _, a5⟩
      · have h := (n2.trans m2).trans hs
        rw [a2]; exact ⟨(hm _).2.1.trans h.2.1, (hm _).2.2.trans h.2.2⟩
      · have h := (n2.trans m2).trans a5
        rw [a3]; exact ⟨h.2.1, h.2.2⟩
    · rcases hh with ⟨a1, a2⟩ | ⟨k, a0, a1, a2, a3, a4, a5⟩
      · left; exact ⟨a1, by rw [hp, he, a2]; rfl⟩
      · right
        refine ⟨k, a0, a1, a2, ?_, ?_, ?_⟩
        · rw [hp, a3]; rfl
        · rw [hp, a3]; exact a4
        · rw [hp, a3]; exact ((n2.trans m2).trans a5).1

/-- **C102** (one emission): let `new` be the calls that the emission makes if no sink panics, one for each sink in order.  If none of
them panics, all are made, as before.  Otherwise those up to and including the first that panics are made and no others: the sinks
before it hear the emission, those behind it do not; the caller gets the panic; and an error is not marked as reported. -/
theorem C102_emit (clock : Nat → Int) (P : Panics) (w : World) (j : Nat) (job : Job) (hj : w.jobs[j]? = some job) (c : Call) (inst : MapRef) :
    ∃ new : List SinkCall, new.map (·.sink) = w.sinks ∧ (w.emit clock j c inst).1.calls = w.calls ++ new ∧
    (((∀ k, k < new.length → P (w.calls ++ new.take (k + 1)) = false) ∧
        w.emitP clock P j c inst = ((w.emit clock j c inst).1, some (w.emit clock j c inst).2)) ∨
     (∃ k, k < new.length ∧ (∀ i, i < k → P (w.calls ++ new.take (i + 1)) = false) ∧ P (w.calls ++ new.take (k + 1)) = true ∧
        (w.emitP clock P j c inst).2 = none ∧ (w.emitP clock P j c inst).1.calls = w.calls ++ new.take (k + 1) ∧
        (w.emitP clock P j c inst).1.emitted = w.emitted)) := by
  obtain ⟨new, h⟩ := emitP_spec clock P w j job hj c inst
  exact ⟨new, h.sinks, h.calls, h.cases⟩

theorem runP_jobs (clock : Nat → Int) (P : Panics) (ops : List Op) : ∀ (w : World) (j : Nat) (job : Job), w.jobs[j]? = some job →
    ∃ job', (w.runP clock P ops).1.jobs[j]? = some job' ∧ job'.name = job.name ∧ job'.start = job.start := by
  induction ops with
  | nil => intro w j job hj; exact ⟨job, hj, rfl, rfl⟩
  | cons op ops ih =>
    intro w j job hj
    have hstep : ∃ job', (w.stepP clock P op).1.jobs[j]? = some job' ∧ job'.name = job.name ∧ job'.start = job.start := by
      cases op with
      | emit i c kvs =>
        refine ⟨job, ?_, rfl, rfl⟩
        simp only [stepP]
        cases hi : w.jobs[i]? with
        | none => simp only [emitP, hi]; exact hj
        | some job2 =>
          obtain ⟨new, h⟩ := emitP_spec clock P w i job2 hi c kvs
          rw [h.jobs.1]; exact hj
      | addSink x => exact World.run_jobs clock w [.addSink x] j job hj
      | streamKv k v => exact World.run_jobs clock w [.streamKv k v] j job hj
      | newJob n => exact World.run_jobs clock w [.newJob n] j job hj
      | jobKv i k v => exact World.run_jobs clock w [.jobKv i k v] j job hj
      | newMap m => exact World.run_jobs clock w [.newMap m] j job hj
      | mapSet i k v => exact World.run_jobs clock w [.mapSet i k v] j job hj
    obtain ⟨job1, h1, h2, h3⟩ := hstep
    simp only [runP]
    split
    · exact ⟨job1, h1, h2, h3⟩
    · obtain ⟨job2, h4, h5, h6⟩ := ih _ j job1 h1
      exact ⟨job2, h4, h5.trans h2, h6.trans h3⟩

theorem stepP_ok {clock : Nat → Int} {P : Panics} {w : World} {op : Op} (h : (w.stepP clock P op).2 = false) :
    (w.stepP clock P op).1 = w.step clock op := by
  cases op with
  | emit i c kvs =>
    simp only [stepP, Option.isNone_eq_false_iff] at h ⊢
    cases hi : w.jobs[i]? with
    | none => simp only [emitP, step, emit, hi]
    | some job =>
      obtain ⟨new, hn⟩ := emitP_spec clock P w i job hi c kvs
      rcases hn.cases with ⟨_, h2⟩ | ⟨k, _, _, _, h2, _⟩
      · rw [h2]; rfl
      · rw [h2] at h; simp at h
  | _ => rfl

/-- **C102** (a program, or the function given to `Run`): it does what it does with sinks that do not panic, up to the first operation that
panics; there it is left, with the calls of `C102_emit`. -/
theorem C102_program (clock : Nat → Int) (P : Panics) (ops : List Op) : ∀ w : World,
    (w.runP clock P ops = (w.run clock ops, false)) ∨
    ∃ before j c kvs after, ops = before ++ .emit j c kvs :: after ∧ w.runP clock P before = (w.run clock before, false) ∧
      ((w.run clock before).emitP clock P j c kvs).2 = none ∧
      w.runP clock P ops = (((w.run clock before).emitP clock P j c kvs).1, true) := by
  induction ops with
  | nil => intro w; exact .inl rfl
  | cons op ops ih =>
    intro w
    cases hp : (w.stepP clock P op).2 with
    | true =>
      right
      cases op with
      | emit j c kvs =>
        refine ⟨[], j, c, kvs, ops, rfl, rfl, ?_, ?_⟩
        · have h : (w.emitP clock P j c kvs).2 = none := by simpa [stepP] using hp
          exact h
        · rw [runP, if_pos hp]; rfl
      | _ => simp [stepP] at hp
    | false =>
      have hs := stepP_ok hp
      rcases ih (w.step clock op) with h | ⟨before, j, c, kvs, after, h1, h2, h3, h4⟩
      · left
        rw [runP, if_neg (by simp [hp]), hs, h]; rfl
      · right
        refine ⟨op :: before, j, c, kvs, after, by rw [h1]; rfl, ?_, h3, ?_⟩
        · rw [runP, if_neg (by simp [hp]), hs, h2]; rfl
        · rw [runP, if_neg (by simp [hp]), hs, h4]; rfl

/-- the calls `Run` makes itself: completions and the error event `panic`, with a message. -/
def OwnCall (c : SinkCall) : Prop := (∃ st n, c.payload = .complete st n) ∨ ∃ e m, c.payload = .eventErr (bs "panic") e ∧ e.message = some m

/-- no sink panics in the calls that `Run` makes itself. -/
def OwnOk (P : Panics) : Prop := ∀ l c, OwnCall c → P (l ++ [c]) = false

theorem own_emit {clock : Nat → Int} {P : Panics} (hP : OwnOk P) {w : World} {j : Nat} {job : Job} (hj : w.jobs[j]? = some job) {c : Call}
    (hc : (∃ st, c = .complete st) ∨ ∃ text t, c = .eventErr (bs "panic") (.other text) t) (inst : MapRef) :
    ∃ new : List SinkCall, w.emitP clock P j c inst = ((w.emit clock j c inst).1, some (w.emit clock j c inst).2) ∧
      (w.emit clock j c inst).1.calls = w.calls ++ new ∧ new.map (·.sink) = w.sinks ∧
      (∀ x ∈ new, x.job = job.name ∧ PayloadFor clock job.start (w.emit clock j c inst).2 c x.payload) ∧
      (w.emit clock j c inst).1.jobs = w.jobs ∧ (w.emit clock j c inst).1.sinks = w.sinks := by
  obtain ⟨new, h⟩ := emitP_spec clock P w j job hj c inst
  have key : ∀ k, k < new.length → P (w.calls ++ new.take (k + 1)) = false := by
    intro k hk
    rw [List.take_succ_eq_append_getElem hk, ← List.append_assoc]
    apply hP
    have hp := (h.payloads _ (List.getElem_mem hk)).2
    rcases hc with ⟨st, rfl⟩ | ⟨e, t, rfl⟩
    · obtain ⟨i, hi⟩ := hp; exact .inl ⟨st, _, hi⟩
    · exact .inr ⟨_, e, hp, by rw [(emit_err clock w j job hj (bs "panic") (.other e) t inst).1]; rfl⟩
  rcases h.cases with ⟨_, h2⟩ | ⟨k, hk, _, h2, _⟩
  · refine ⟨new, h2, h.calls, h.sinks, h.payloads, ?_, ?_⟩
    · have := h.jobs.1; rw [h2] at this; exact this
    · have := h.jobs.2; rw [h2] at this; exact this
  · rw [key k hk] at h2; cases h2

/-- how a job that is run ends, given whether a sink panicked in `f` and how `f` ends. -/
def statusOf (panicked : Bool) : Outcome → Option Status
  | .ret .nil => some (if panicked then Status.panic else Status.success)
  | .ret _ => some (if panicked then Status.panic else Status.error)
  | .panic _ => some Status.panic
  | _ => if panicked then some Status.panic else none

theorem recover_spec {clock : Nat → Int} {P : Panics} (hP : OwnOk P) {w : World} {j : Nat} {job : Job} (hj : w.jobs[j]? = some job)
    (text stackText : Str) (trace : Trace) :
    ∃ errs new : List SinkCall, (w.recoverP clock P j text stackText trace).1.calls = w.calls ++ errs ++ new ∧
      errs.map (·.sink) = w.sinks ∧ (∀ x ∈ errs, x.job = job.name ∧ ∃ e, x.payload = .eventErr (bs "panic") e ∧ e.message = some text) ∧
      new.map (·.sink) = w.sinks ∧ (∀ x ∈ new, x.job = job.name ∧ ∃ n, x.payload = .complete Status.panic n) ∧
      (w.recoverP clock P j text stackText trace).2 = .returned (.other text) := by
  have hj1 : (w.newMap [(bs "stack", stackText)]).1.jobs[j]? = some job := hj
  obtain ⟨errs, a1, a2, a3, a4, a5, a6⟩ := own_emit (clock := clock) hP hj1 (c := .eventErr (bs "panic") (.other text) trace)
    (.inr ⟨_, _, rfl⟩) (some (w.newMap [(bs "stack", stackText)]).2)
  have hj2 := hj1
  rw [← a5] at hj2
  obtain ⟨new, b1, b2, b3, b4, b5, b6⟩ := own_emit (clock := clock) hP hj2 (c := .complete Status.panic) (.inl ⟨_, rfl⟩) none
  have hrec : w.recoverP clock P j text stackText trace =
      ((((w.newMap [(bs "stack", stackText)]).1.emit clock j (.eventErr (bs "panic") (.other text) trace)
        (some (w.newMap [(bs "stack", stackText)]).2)).1.emit clock j (.complete Status.panic) none).1, .returned (.other text)) := by
    unfold recoverP
    simp only [a1, b1]
  rw [hrec]
  refine ⟨errs, new, ?_, a3, ?_, by rw [b3, a6]; rfl, ?_, rfl⟩
  · rw [b2, a2]; rfl
  · intro x hx
    refine ⟨(a4 x hx).1, _, (a4 x hx).2, ?_⟩
    have := (emit_err clock (w.newMap [(bs "stack", stackText)]).1 j job hj1 (bs "panic") (.other text) trace
      (some (w.newMap [(bs "stack", stackText)]).2)).1
    rw [this]; rfl
  · intro x hx
    obtain ⟨i, hi⟩ := (b4 x hx).2
    exact ⟨(b4 x hx).1, _, hi⟩

/-- **C102** (`Run`): if sinks panic only in what `f` emits, not in the calls that `Run` makes itself, then after whatever `f` did every
sink hears exactly one completion of the job: `panic` if a sink panicked in `f` (or `f` did), else as `f` returned; and `Run` returns. -/
theorem C102_run_partial (clock : Nat → Int) (P : Panics) (hP : OwnOk P) (w : World) (j : Nat) (job : Job) (hj : w.jobs[j]? = some job)
    (f : List Op) (o : Outcome) (sinkText stackText : Str) (trace : Trace) (st : Status)
    (hst : statusOf (w.runP clock P f).2 o = some st) :
    ∃ errs new : List SinkCall, (w.runJobP clock P j f o sinkText stackText trace).1.calls = (w.runP clock P f).1.calls ++ errs ++ new ∧
      (∀ x ∈ errs, x.job = job.name ∧ st = Status.panic ∧ ∃ e, x.payload = .eventErr (bs "panic") e) ∧
      new.map (·.sink) = (w.runP clock P f).1.sinks ∧ (∀ x ∈ new, x.job = job.name ∧ ∃ n, x.payload = .complete st n) ∧
      ∃ e, (w.runJobP clock P j f o sinkText stackText trace).2 = .returned e := by
  obtain ⟨job', hj', hname, _⟩ := runP_jobs clock P f w j job hj
  generalize hr : w.runP clock P f = r at *
  obtain ⟨w1, pan⟩ := r
  simp only at hj' hst ⊢
  have hrec : ∀ text, st = Status.panic → w.runJobP clock P j f o sinkText stackText trace = w1.recoverP clock P j text stackText trace →
      ∃ errs new : List SinkCall, (w.runJobP clock P j f o sinkText stackText trace).1.calls = w1.calls ++ errs ++ new ∧
      (∀ x ∈ errs, x.job = job.name ∧ st = Status.panic ∧ ∃ e, x.payload = .eventErr (bs "panic") e) ∧
      new.map (·.sink) = w1.sinks ∧ (∀ x ∈ new, x.job = job.name ∧ ∃ n, x.payload = .complete st n) ∧
      ∃ e, (w.runJobP clock P j f o sinkText stackText trace).2 = .returned e := by
    intro text hs he
    obtain ⟨errs, new, a1, _, a3, a4, a5, a6⟩ := recover_spec (clock := clock) hP hj' text stackText trace
    rw [he]
    refine ⟨errs, new, a1, ?_, a4, ?_, _, a6⟩
    · intro x hx
      obtain ⟨h1, e, h2, _⟩ := a3 x hx
      exact ⟨h1.trans hname, hs, e, h2⟩
    · intro x hx
      obtain ⟨h1, h2⟩ := a5 x hx
      exact ⟨h1.trans hname, hs ▸ h2⟩
  cases pan with
  | true =>
    refine hrec sinkText ?_ (by simp only [runJobP, hr])
    cases o with
    | ret e => cases e <;> simpa [statusOf] using hst.symm
    | _ => simpa [statusOf] using hst.symm
  | false =>
    have compl : ∀ (s : Status) (e : GoErr), st = s →
        w.runJobP clock P j f o sinkText stackText trace = (match w1.emitP clock P j (.complete s) none with
          | (w, none) => w.recoverP clock P j sinkText stackText trace
          | (w, some _) => (w, .returned e)) →
        ∃ errs new : List SinkCall, (w.runJobP clock P j f o sinkText stackText trace).1.calls = w1.calls ++ errs ++ new ∧
        (∀ x ∈ errs, x.job = job.name ∧ st = Status.panic ∧ ∃ e, x.payload = .eventErr (bs "panic") e) ∧
        new.map (·.sink) = w1.sinks ∧ (∀ x ∈ new, x.job = job.name ∧ ∃ n, x.payload = .complete st n) ∧
        ∃ e, (w.runJobP clock P j f o sinkText stackText trace).2 = .returned e := by
      intro s e hs he
      obtain ⟨new, b1, b2, b3, b4, _, _⟩ := own_emit (clock := clock) hP hj' (c := .complete s) (.inl ⟨_, rfl⟩) none
      rw [he, b1]
      refine ⟨[], new, by simpa using b2, by simp, b3, ?_, e, rfl⟩
      intro x hx
      obtain ⟨i, hi⟩ := (b4 x hx).2
      exact ⟨(b4 x hx).1.trans hname, _, hs ▸ hi⟩
    cases o with
    | ret e =>
      cases e with
      | nil => exact compl Status.success .nil (by simpa [statusOf] using hst.symm) (by simp only [runJobP, hr]; rfl)
      | other m => exact compl Status.error (.other m) (by simpa [statusOf] using hst.symm) (by simp only [runJobP, hr]; rfl)
      | muted i => exact compl Status.error (.muted i) (by simpa [statusOf] using hst.symm) (by simp only [runJobP, hr]; rfl)
      | unmuted a b c => exact compl Status.error (.unmuted a b c) (by simpa [statusOf] using hst.symm) (by simp only [runJobP, hr]; rfl)
    | panic text => exact hrec text (by simpa [statusOf] using hst.symm) (by simp only [runJobP, hr])
    | panicNil => simp [statusOf] at hst
    | goexit => simp [statusOf] at hst

theorem writersPanic_append (isWriter : Nat → Bool) (l : List SinkCall) (c : SinkCall) :
    writersPanic isWriter (l ++ [c]) = (isWriter c.sink && (WriterSink.emit 0 c.job c.payload c.seen).isNone) := by
  simp [writersPanic]

/-- writer sinks meet the condition of `C102_run_partial`. -/
theorem writers_ownOk (isWriter : Nat → Bool) : OwnOk (writersPanic isWriter) := by
  intro l c h
  rw [writersPanic_append]
  cases hn : WriterSink.emit 0 c.job c.payload c.seen with
  | some _ => simp
  | none =>
    obtain ⟨e, err, h1, h2⟩ := (C36_panics 0 c.job c.payload c.seen).1 hn
    rcases h with ⟨st, n, h⟩ | ⟨e', m, h, hm⟩
    · rw [h] at h1; cases h1
    · rw [h] at h1; cases h1; rw [hm] at h2; cases h2

/-- **C102** with the writer sink: a nil error reported to a stream with a writer sink.  The sinks registered before the first writer sink
hear it, it panics, the sinks registered behind it hear nothing; the caller gets the panic. -/
theorem C102_nil_error (clock : Nat → Int) (isWriter : Nat → Bool) (w : World) (j : Nat) (job : Job) (hj : w.jobs[j]? = some job)
    (pre post : List Nat) (s : Nat) (hs : w.sinks = pre ++ s :: post) (hw : isWriter s = true) (hpre : ∀ x ∈ pre, isWriter x = false)
    (ev : Str) (trace : Trace) (inst : MapRef) :
    ∃ new : List SinkCall, (w.emitP clock (writersPanic isWriter) j (.eventErr ev .nil trace) inst).1.calls = w.calls ++ new ∧
      new.map (·.sink) = pre ++ [s] ∧ (w.emitP clock (writersPanic isWriter) j (.eventErr ev .nil trace) inst).2 = none := by
  obtain ⟨new, h⟩ := emitP_spec clock (writersPanic isWriter) w j job hj (.eventErr ev .nil trace) inst
  have hlen : new.length = pre.length + (1 + post.length) := by
    have := congrArg List.length h.sinks
    rw [List.length_map, hs] at this; simpa [Nat.add_comm, Nat.add_left_comm] using this
  have herr := (emit_err clock w j job hj ev .nil trace inst).1
  have hat : ∀ k (hk : k < new.length), writersPanic isWriter (w.calls ++ new.take (k + 1)) = isWriter (new[k]).sink := by
    intro k hk
    rw [List.take_succ_eq_append_getElem hk, ← List.append_assoc, writersPanic_append]
    have hp := (h.payloads _ (List.getElem_mem hk)).2
    simp only [PayloadFor] at hp
    have : WriterSink.emit 0 (new[k]).job (new[k]).payload (new[k]).seen = none :=
      (C36_panics 0 _ _ _).2 ⟨ev, _, hp, by rw [herr]; rfl⟩
    rw [this]; simp
  have hsink : ∀ k (hk : k < new.length), some (new[k]).sink = (pre ++ s :: post)[k]? := by
    intro k hk
    rw [← hs, ← h.sinks, List.getElem?_map, List.getElem?_eq_getElem hk]; rfl
  have hk0 : pre.length < new.length := by omega
  have hat0 : isWriter (new[pre.length]).sink = true := by
    have := hsink pre.length hk0
    rw [List.getElem?_append_right (Nat.le_refl _), Nat.sub_self] at this
    rw [Option.some.inj this]; exact hw
  have hbefore : ∀ k (hk : k < new.length), k < pre.length → isWriter (new[k]).sink = false := by
    intro k hk hlt
    have := hsink k hk
    rw [List.getElem?_append_left hlt, List.getElem?_eq_getElem hlt] at this
    rw [Option.some.inj this]; exact hpre _ (List.getElem_mem hlt)
  rcases h.cases with ⟨h1, _⟩ | ⟨k, hk, h1, h2, h3, h4, _⟩
  · have := h1 _ hk0
    rw [hat _ hk0, hat0] at this; cases this
  · have hkeq : k = pre.length := by
      rcases Nat.lt_trichotomy k pre.length with hlt | heq | hgt
      · rw [hat k hk, hbefore k hk hlt] at h2; cases h2
      · exact heq
      · have := h1 _ hgt
        rw [hat _ hk0, hat0] at this; cases this
    subst hkeq
    refine ⟨new.take (pre.length + 1), h4, ?_, h3⟩
    rw [List.map_take, h.sinks, hs, ← List.singleton_append, ← List.append_assoc]
    rw [List.take_append_of_le_length (by simp), List.take_of_length_le (by simp)]

end World

namespace Sample
open World

/-- the second sink panics when it hears of a success. -/
def noSuccess : Panics := fun calls =>
  match calls.getLast? with
  | some c => decide (c.sink = 9) && (match c.payload with | .complete st _ => decide (st = Status.success) | _ => false)
  | none => false

/-- the second sink always panics. -/
def broken : Panics := fun calls => match calls.getLast? with | some c => decide (c.sink = 9) | none => false

/-- **C102 is false** of sinks that panic in a completion: `Run`'s deferred function takes the panic of the sink for one of `f`, and the first
sink hears that the job, which has succeeded, ended a second time, with `panic`.  If the sink panics again, then the panic leaves `Run`,
though `f` returned nil. -/
theorem C102_false :
    (((sw.runJobP clk noSuccess 1 [] (.ret .nil) (bs "boom") (bs "st") [1]).1.calls.filter (fun c => c.sink = 7)).map (·.payload) =
      [.complete Status.success 10, .eventErr (bs "panic") (.unmuted 0 (.other (bs "boom")) [1]), .complete Status.panic 30] ∧
     (sw.runJobP clk noSuccess 1 [] (.ret .nil) (bs "boom") (bs "st") [1]).2 = .returned (.other (bs "boom"))) ∧
    (((sw.runJobP clk broken 1 [] (.ret .nil) (bs "boom") (bs "st") [1]).1.calls.filter (fun c => c.sink = 7)).map (·.payload) =
      [.complete Status.success 10, .eventErr (bs "panic") (.unmuted 0 (.other (bs "boom")) [1])] ∧
     (sw.runJobP clk broken 1 [] (.ret .nil) (bs "boom") (bs "st") [1]).2 = .panicked) := by decide +kernel

/-! A job whose function reports a nil error to a stream with a writer sink (9): the job ends with `panic`, once. -/
example : ((sw.runJobP clk (writersPanic (· = 9)) 1 [.emit 1 (.eventErr (bs "e") .nil [2]) none, .emit 1 (.event (bs "x")) none] (.ret .nil)
    (bs "nil pointer") (bs "st") [1]).1.calls.map (fun c => (c.sink, c.payload))) =
    [(7, .eventErr (bs "e") (.unmuted 0 .nil [2])), (9, .eventErr (bs "e") (.unmuted 0 .nil [2])),
     (7, .eventErr (bs "panic") (.unmuted 1 (.other (bs "nil pointer")) [1])), (9, .eventErr (bs "panic") (.unmuted 1 (.other (bs "nil pointer")) [1])),
     (7, .complete Status.panic 10), (9, .complete Status.panic 20)] := by decide +kernel
example : statusOf (sw.runP clk (writersPanic (· = 9)) [.emit 1 (.eventErr (bs "e") .nil [2]) none]).2 (.ret .nil) = some Status.panic := by
  decide +kernel

end Sample
