import Verif.Lemmas.Stream
/-!
# Invariant of the stream model
-/
open Spec
namespace World

/-- invariant of all worlds that occur. -/
structure Ok (w : World) : Prop where
  maps : ∀ m ∈ w.maps, GoMap.Wf m
  kvs : ∀ i, w.kvs = some i → i < w.maps.length
  jobs : ∀ j ∈ w.jobs, ∀ i, j.kvs = some i → i < w.maps.length
  emitted : ∀ id ∈ w.emitted, id < w.nextErr
  calls : ∀ c ∈ w.calls, ∀ ev e id, c.payload = .eventErr ev e → objId e = some id → id < w.nextErr

theorem mergedKeyValues_frame (w : World) (job : Job) (inst : MapRef) :
    ∃ extra, (w.mergedKeyValues job inst).1 = { w with maps := w.maps ++ extra } := by
  by_cases h1 : 0 < w.len job.kvs <;> by_cases h2 : 0 < w.len w.kvs <;> by_cases h3 : 0 < w.len inst <;>
    first
    | (refine ⟨[], ?_⟩; simp [mergedKeyValues, h1, h2, h3]; done)
    | (refine ⟨[copyInto (copyInto (copyInto [] ((w.deref w.kvs).getD [])) ((w.deref job.kvs).getD []))
        ((w.deref inst).getD [])], ?_⟩
       simp [mergedKeyValues, h1, h2, h3, newMap]; done)

/-- the error part of an emission. -/
theorem emit_err (clock : Nat → Int) (w : World) (j : Nat) (job : Job) (hj : w.jobs[j]? = some job)
    (ev : Str) (e : GoErr) (t : Trace) (inst : MapRef) :
    (w.emit clock j (.eventErr ev e t) inst).2 = (w.wrapErr e t).2 ∧
    (w.emit clock j (.eventErr ev e t) inst).1.nextErr = (w.wrapErr e t).1.nextErr ∧
    (w.emit clock j (.eventErr ev e t) inst).1.emitted = w.emitted ++ (objId (w.wrapErr e t).2).toList := by
  generalize hx : w.wrapErr e t = r0
  obtain ⟨w0, e1⟩ := r0
  have hw0 : w0.emitted = w.emitted := by
    cases e <;> simp only [wrapErr, Prod.mk.injEq] at hx <;> obtain ⟨rfl, _⟩ := hx <;> rfl
  generalize hm : w0.mergedKeyValues job inst = r
  obtain ⟨w1, kvs⟩ := r
  have hw1 : w1.emitted = w0.emitted ∧ w1.nextErr = w0.nextErr := by
    have h : w1 = (w0.mergedKeyValues job inst).1 := by rw [hm]
    obtain ⟨extra, hf⟩ := mergedKeyValues_frame w0 job inst
    rw [h, hf]
    exact ⟨rfl, rfl⟩
  have h : w.emit clock j (.eventErr ev e t) inst =
        ((w1.sinks.foldl (fun w s => w.callSink s job.name (.eventErr ev e1) kvs) w1).markEmitted e1, e1) := by
      simp [emit, hj, hx, hm]
  rw [h, foldl_callSink]
  refine ⟨rfl, ?_, ?_⟩
  · cases e1 <;> exact hw1.2
  · cases e1 <;> simp [markEmitted, objId, hw1.1, hw0]

theorem mergedKeyValues_errs (w : World) (job : Job) (inst : MapRef) :
    (w.mergedKeyValues job inst).1.emitted = w.emitted ∧ (w.mergedKeyValues job inst).1.nextErr = w.nextErr := by
  obtain ⟨extra, hf⟩ := mergedKeyValues_frame w job inst
  rw [hf]
  exact ⟨rfl, rfl⟩

theorem emit_noerr (clock : Nat → Int) (w : World) (j : Nat) (c : World.Call) (inst : MapRef)
    (hc : ∀ ev e t, c ≠ .eventErr ev e t) :
    (w.emit clock j c inst).1.nextErr = w.nextErr ∧ (w.emit clock j c inst).1.emitted = w.emitted := by
  cases hj : w.jobs[j]? with
  | none => simp [emit, hj]
  | some job =>
    have h := mergedKeyValues_errs w job inst
    cases c with
    | eventErr ev e t => exact absurd rfl (hc ev e t)
    | event ev => simp only [emit, hj]; rw [foldl_callSink]; exact ⟨h.2, h.1⟩
    | timing ev n => simp only [emit, hj]; rw [foldl_callSink]; exact ⟨h.2, h.1⟩
    | gauge ev n => simp only [emit, hj]; rw [foldl_callSink]; exact ⟨h.2, h.1⟩
    | complete st => simp only [emit, hj]; rw [foldl_complete]; exact ⟨h.2, h.1⟩

theorem wrapErr_plain (w : World) (e : GoErr) (h : Plain e) (t : Trace) :
    w.wrapErr e t = ({ w with nextErr := w.nextErr + 1 }, .unmuted w.nextErr e t) := by
  cases e <;> simp_all [wrapErr, Plain]

theorem wrapErr_notPlain (w : World) (e : GoErr) (h : ¬ Plain e) (t : Trace) : w.wrapErr e t = (w, e) := by
  cases e <;> simp_all [wrapErr, Plain]

theorem objId_plain {e : GoErr} (h : Plain e) : objId e = none := by cases e <;> simp_all [objId, Plain]

/-- a call that is legal keeps error ids below the allocation counter. -/
theorem wrapErr_id (w : World) (e : GoErr) (t : Trace) (h : ∀ id, objId e = some id → id < w.nextErr) (id : Nat)
    (hid : objId (w.wrapErr e t).2 = some id) : id < (w.wrapErr e t).1.nextErr := by
  by_cases hp : Plain e
  · rw [wrapErr_plain w e hp] at *
    simp only [objId, Option.some.injEq] at hid
    simp [← hid]
  · rw [wrapErr_notPlain w e hp] at *
    exact h id hid

theorem wrapErr_mono (w : World) (e : GoErr) (t : Trace) : w.nextErr ≤ (w.wrapErr e t).1.nextErr := by
  by_cases hp : Plain e
  · rw [wrapErr_plain w e hp]; simp
  · rw [wrapErr_notPlain w e hp]

theorem emit_nextErr_mono (clock : Nat → Int) (w : World) (j : Nat) (c : World.Call) (inst : MapRef) :
    w.nextErr ≤ (w.emit clock j c inst).1.nextErr := by
  cases hj : w.jobs[j]? with
  | none => simp [emit, hj]
  | some job =>
    by_cases hc : ∃ ev e t, c = .eventErr ev e t
    · obtain ⟨ev, e, t, rfl⟩ := hc
      rw [(emit_err clock w j job hj ev e t inst).2.1]
      exact wrapErr_mono _ _ _
    · rw [(emit_noerr clock w j c inst (fun ev e t h => hc ⟨ev, e, t, h⟩)).1]

theorem Ok.emit {clock : Nat → Int} {w : World} (h : Ok w) (j : Nat) (c : World.Call) (inst : MapRef)
    (hl : LegalOp w (.emit j c inst)) : Ok (w.emit clock j c inst).1 := by
  cases hj : w.jobs[j]? with
  | none => simpa [World.emit, hj] using h
  | some job =>
    obtain ⟨new, extra, kvs, em, hs, _⟩ := emit_spec clock w h.maps j job hj c inst
    have hmono := emit_nextErr_mono clock w j c inst
    refine ⟨?_, ?_, ?_, ?_, ?_⟩
    · intro m hm
      rw [hs.maps] at hm
      rcases List.mem_append.1 hm with hm | hm
      · exact h.maps m hm
      · exact hs.wf m hm
    · intro i hi
      rw [hs.wkvs] at hi
      rw [hs.maps, List.length_append]
      have := h.kvs i hi
      omega
    · intro jb hjb i hi
      rw [hs.jobs] at hjb
      rw [hs.maps, List.length_append]
      have := h.jobs jb hjb i hi
      omega
    · intro id hid
      by_cases hc : ∃ ev e t, c = .eventErr ev e t
      · obtain ⟨ev, e, t, rfl⟩ := hc
        obtain ⟨_, h2, h3⟩ := emit_err clock w j job hj ev e t inst
        rw [h3] at hid
        rcases List.mem_append.1 hid with hid | hid
        · have := h.emitted id hid; omega
        · rw [h2]
          exact wrapErr_id w e t hl id (by simpa using hid)
      · obtain ⟨h1, h2⟩ := emit_noerr clock w j c inst (fun ev e t h => hc ⟨ev, e, t, h⟩)
        rw [h2] at hid
        rw [h1]
        exact h.emitted id hid
    · intro c' hc' ev e id hp hid
      rw [hs.calls] at hc'
      rcases List.mem_append.1 hc' with hc' | hc'
      · have := h.calls c' hc' ev e id hp hid; omega
      · have hpf := (hs.newCalls c' hc').2.1
        rw [hp] at hpf
        cases c with
        | eventErr ev' e' t' =>
          simp only [PayloadFor, Payload.eventErr.injEq] at hpf
          obtain ⟨h1, h2, _⟩ := emit_err clock w j job hj ev' e' t' inst
          rw [h1] at hpf
          rw [h2]
          exact wrapErr_id w e' t' hl id (hpf.2 ▸ hid)
        | event => simp [PayloadFor] at hpf
        | timing => simp [PayloadFor] at hpf
        | gauge => simp [PayloadFor] at hpf
        | complete => simp [PayloadFor] at hpf

theorem Ok.mapSet {w : World} (h : Ok w) (i : Nat) (k v : Str) : Ok (w.mapSet i k v) := by
  refine ⟨?_, ?_, ?_, h.emitted, h.calls⟩
  · intro m hm
    simp only [World.mapSet] at hm
    obtain ⟨n, hn, rfl⟩ := List.mem_iff_getElem.1 hm
    rw [List.getElem_modify]
    have hn' : n < w.maps.length := by simpa using hn
    split
    · exact (h.maps _ (List.getElem_mem hn')).set _ _
    · exact h.maps _ (List.getElem_mem hn')
  · intro i hi; simpa [World.mapSet] using h.kvs i hi
  · intro j hj i hi; simpa [World.mapSet] using h.jobs j hj i hi

theorem Ok.newMap {w : World} (h : Ok w) (m : GoMap Str Str) (hm : GoMap.Wf m) : Ok (w.newMap m).1 := by
  refine ⟨?_, ?_, ?_, h.emitted, h.calls⟩
  · intro m' hm'
    simp only [World.newMap, List.mem_append, List.mem_singleton] at hm'
    rcases hm' with h' | h'
    · exact h.maps _ h'
    · rw [h']; exact hm
  · intro i hi
    have := h.kvs i hi
    simp only [World.newMap, List.length_append]; omega
  · intro j hj i hi
    have := h.jobs j hj i hi
    simp only [World.newMap, List.length_append]; omega

theorem Ok.ensure {w : World} (h : Ok w) (r : MapRef) (hr : ∀ i, r = some i → i < w.maps.length) :
    Ok (w.ensure r).1 ∧ (w.ensure r).2 < (w.ensure r).1.maps.length ∧ (w.ensure r).1.jobs = w.jobs ∧
    (w.ensure r).1.kvs = w.kvs := by
  cases r with
  | some i => exact ⟨h, hr i rfl, rfl, rfl⟩
  | none => exact ⟨h.newMap [] GoMap.Wf.nil, by simp [World.ensure], rfl, rfl⟩

theorem Ok.step {clock : Nat → Int} {w : World} (h : Ok w) (op : Op) (hl : LegalOp w op) : Ok (w.step clock op) := by
  cases op with
  | addSink s => exact ⟨h.maps, h.kvs, h.jobs, h.emitted, h.calls⟩
  | streamKv k v =>
    obtain ⟨h1, h2, h3, h4⟩ := h.ensure w.kvs h.kvs
    have h5 := h1.mapSet (w.ensure w.kvs).2 k v
    refine ⟨h5.maps, ?_, h5.jobs, h5.emitted, h5.calls⟩
    intro i hi
    simp only [World.step, streamKv, Option.some.injEq] at hi
    subst hi
    simpa [World.step, streamKv, World.mapSet] using h2
  | newJob n =>
    refine ⟨h.maps, h.kvs, ?_, h.emitted, h.calls⟩
    intro j hj i hi
    simp only [World.step, World.newJob, List.mem_append, List.mem_singleton] at hj
    rcases hj with hj | hj
    · exact h.jobs j hj i hi
    · subst hj; simp at hi
  | jobKv j k v =>
    simp only [World.step, jobKv]
    cases hj : w.jobs[j]? with
    | none => exact h
    | some job =>
      obtain ⟨h1, h2, h3, h4⟩ := h.ensure job.kvs (h.jobs job (List.mem_of_getElem? hj))
      have h5 := h1.mapSet (w.ensure job.kvs).2 k v
      refine ⟨h5.maps, h5.kvs, ?_, h5.emitted, h5.calls⟩
      intro jb hjb i hi
      simp only at hjb
      rcases List.mem_or_eq_of_mem_set hjb with hjb | hjb
      · refine h5.jobs jb ?_ i hi
        exact hjb
      · subst hjb
        simp only [Option.some.injEq] at hi
        subst hi
        simpa [World.mapSet] using h2
  | newMap m => exact h.newMap m hl
  | mapSet i k v => exact h.mapSet i k v
  | emit j c kvs => exact h.emit j c kvs hl

theorem Ok.run {clock : Nat → Int} {w : World} (h : Ok w) (ops : List Op) (hl : LegalRun clock w ops) :
    Ok (w.run clock ops) := by
  induction ops generalizing w with
  | nil => exact h
  | cons op ops ih => exact ih (h.step op hl.1) hl.2

theorem Ok.newStream (clock : Nat → Int) : Ok (World.newStream clock) := by
  refine ⟨by simp [World.newStream, World.newJob], by simp [World.newStream, World.newJob], ?_,
    by simp [World.newStream, World.newJob], by simp [World.newStream, World.newJob]⟩
  intro j hj i hi
  simp only [World.newStream, World.newJob, List.nil_append, List.mem_singleton] at hj
  subst hj
  simp at hi

theorem reachable_ok {clock : Nat → Int} {w : World} (h : Reachable clock w) : Ok w := by
  obtain ⟨ops, h1, rfl⟩ := h
  exact (Ok.newStream clock).run ops h1

theorem run_append (clock : Nat → Int) (w : World) (a b : List Op) :
    w.run clock (a ++ b) = (w.run clock a).run clock b := by simp [World.run]

theorem legalRun_append (clock : Nat → Int) (w : World) (a b : List Op) :
    LegalRun clock w (a ++ b) ↔ LegalRun clock w a ∧ LegalRun clock (w.run clock a) b := by
  induction a generalizing w with
  | nil => simp [LegalRun, World.run]
  | cons op a ih => simp only [List.cons_append, LegalRun, ih, World.run, List.foldl_cons]; tauto

theorem Reachable.run {clock : Nat → Int} {w : World} (h : Reachable clock w) (ops : List Op)
    (hl : LegalRun clock w ops) : Reachable clock (w.run clock ops) := by
  obtain ⟨o, h1, rfl⟩ := h
  exact ⟨o ++ ops, (legalRun_append _ _ _ _).2 ⟨h1, hl⟩, (run_append _ _ _ _).symm⟩

/-- jobs keep their index, name and start time. -/
theorem step_jobs (clock : Nat → Int) (w : World) (op : Op) (j : Nat) (job : Job) (hj : w.jobs[j]? = some job) :
    ∃ job', (w.step clock op).jobs[j]? = some job' ∧ job'.name = job.name ∧ job'.start = job.start := by
  have hlt : j < w.jobs.length := by
    rw [List.getElem?_eq_some_iff] at hj; exact hj.1
  cases op with
  | addSink s => exact ⟨job, hj, rfl, rfl⟩
  | streamKv k v =>
    refine ⟨job, ?_, rfl, rfl⟩
    simp only [World.step, streamKv, World.mapSet]
    unfold World.ensure
    split <;> exact hj
  | newJob n => exact ⟨job, by simp [World.step, World.newJob, List.getElem?_append_left hlt, hj], rfl, rfl⟩
  | jobKv j' k v =>
    simp only [World.step, jobKv]
    cases hj' : w.jobs[j']? with
    | none => exact ⟨job, hj, rfl, rfl⟩
    | some job' =>
      have he : (w.ensure job'.kvs).1.jobs = w.jobs := by unfold World.ensure; split <;> rfl
      simp only [World.mapSet, he]
      by_cases hjj : j' = j
      · subst hjj
        rw [hj] at hj'
        simp only [Option.some.injEq] at hj'
        subst hj'
        exact ⟨{ job with kvs := some (w.ensure job.kvs).2 }, by rw [List.getElem?_set_self hlt], rfl, rfl⟩
      · exact ⟨job, by rw [List.getElem?_set_ne hjj]; exact hj, rfl, rfl⟩
  | newMap m => exact ⟨job, hj, rfl, rfl⟩
  | mapSet i k v => exact ⟨job, hj, rfl, rfl⟩
  | emit j' c kvs =>
    refine ⟨job, ?_, rfl, rfl⟩
    have : (w.emit clock j' c kvs).1.jobs = w.jobs := by
      cases hj' : w.jobs[j']? with
      | none => simp [World.emit, hj']
      | some jb =>
        have hm : ∀ (v : World), (v.mergedKeyValues jb kvs).1.jobs = v.jobs := by
          intro v
          obtain ⟨extra, hf⟩ := mergedKeyValues_frame v jb kvs
          rw [hf]
        cases c with
        | event ev => simp only [World.emit, hj']; rw [foldl_callSink]; exact hm w
        | timing ev n => simp only [World.emit, hj']; rw [foldl_callSink]; exact hm w
        | gauge ev n => simp only [World.emit, hj']; rw [foldl_callSink]; exact hm w
        | complete st => simp only [World.emit, hj']; rw [foldl_complete]; exact hm w
        | eventErr ev e t =>
          simp only [World.emit, hj']; rw [foldl_callSink]
          have hme : ∀ (v : World) e1, (v.markEmitted e1).jobs = v.jobs := by
            intro v e1; cases e1 <;> rfl
          rw [hme]
          simp only [hm]
          cases e <;> rfl
    show (w.emit clock j' c kvs).1.jobs[j]? = _
    rw [this]; exact hj

theorem run_jobs (clock : Nat → Int) (w : World) (ops : List Op) (j : Nat) (job : Job) (hj : w.jobs[j]? = some job) :
    ∃ job', (w.run clock ops).jobs[j]? = some job' ∧ job'.name = job.name ∧ job'.start = job.start := by
  induction ops generalizing w job with
  | nil => exact ⟨job, hj, rfl, rfl⟩
  | cons op ops ih =>
    obtain ⟨job1, h1, h2, h3⟩ := step_jobs clock w op j job hj
    obtain ⟨job2, h4, h5, h6⟩ := ih (w.step clock op) job1 h1
    exact ⟨job2, h4, h5.trans h2, h6.trans h3⟩

/-- emissions only append to the log of sink calls; nothing else touches it. -/
theorem step_calls (clock : Nat → Int) (w : World) (h : Ok w) (op : Op) :
    ∃ new, (w.step clock op).calls = w.calls ++ new ∧
      ((∀ j c kvs, op ≠ .emit j c kvs) → new = []) := by
  cases op with
  | emit j c kvs =>
    cases hj : w.jobs[j]? with
    | none => exact ⟨[], by simp [World.step, World.emit, hj], by simp⟩
    | some job =>
      obtain ⟨new, extra, r, em, hs, _⟩ := emit_spec clock w h.maps j job hj c kvs
      exact ⟨new, hs.calls, fun h => absurd rfl (h j c kvs)⟩
  | streamKv k v =>
    refine ⟨[], ?_, fun _ => rfl⟩
    simp only [World.step, streamKv, World.mapSet, List.append_nil]
    unfold World.ensure
    split <;> rfl
  | jobKv j k v =>
    refine ⟨[], ?_, fun _ => rfl⟩
    simp only [World.step, jobKv, List.append_nil]
    split
    · rfl
    · simp only [World.mapSet]
      unfold World.ensure
      split <;> rfl
  | _ => exact ⟨[], by simp [World.step, World.addSink, World.newJob, World.newMap, World.mapSet], fun _ => rfl⟩

end World
