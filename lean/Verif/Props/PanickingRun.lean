import Verif.Props.PanickingSinks
/-!
# C102: `Run` with sinks that panic at any time
-/
namespace Spec.Panicking

/-- `new`: the calls, all of the kind `ok`, that a loop over `sinks` makes after the calls `base`: up to the first that panics (`pan`), or one for each sink. -/
def Loop (P : World.Panics) (base : List SinkCall) (sinks : List Nat) (ok : SinkCall → Prop) (new : List SinkCall) (pan : Bool) : Prop :=
  (∀ x ∈ new, ok x) ∧ (∀ k, k + 1 < new.length → P (base ++ new.take (k + 1)) = false) ∧
  (if pan then new ≠ [] ∧ new.map (·.sink) <+: sinks ∧ P (base ++ new) = true
    else new.map (·.sink) = sinks ∧ (new ≠ [] → P (base ++ new) = false))

/-- a completion of the job with this status. -/
def Completes (name : Str) (st : Status) (x : SinkCall) : Prop := x.job = name ∧ ∃ n, x.payload = .complete st n

/-- the report of a panic. -/
def Reports (name text : Str) (x : SinkCall) : Prop := x.job = name ∧ ∃ e, x.payload = .eventErr (bs "panic") e ∧ e.message = some text

/-- the status `Run` gives to a job whose function returned `e`. -/
def ownStatus (e : GoErr) : Status := if e = .nil then Status.success else Status.error

end Spec.Panicking

namespace World
open Spec Spec.Panicking

theorem emit_loop (clock : Nat → Int) (P : Panics) {w : World} {j : Nat} {job : Job} (hj : w.jobs[j]? = some job) (c : Call) (inst : MapRef) :
    ∃ new : List SinkCall, (w.emitP clock P j c inst).1.calls = w.calls ++ new ∧
      Loop P w.calls w.sinks (fun x => x.job = job.name ∧ PayloadFor clock job.start (w.emit clock j c inst).2 c x.payload) new (w.emitP clock P j c inst).2.isNone ∧
      (w.emitP clock P j c inst).1.jobs = w.jobs ∧ (w.emitP clock P j c inst).1.sinks = w.sinks := by
  obtain ⟨new, h⟩ := emitP_spec clock P w j job hj c inst
  rcases h.cases with ⟨h1, h2⟩ | ⟨k, hk, h1, h2, h3, h4, _⟩
  · refine ⟨new, by rw [h2]; exact h.calls, ⟨h.payloads, fun k hk => h1 k (by omega), ?_⟩, h.jobs⟩
    rw [h2]
    refine ⟨h.sinks, fun hne => ?_⟩
    have hpos := List.length_pos_iff.2 hne
    have := h1 (new.length - 1) (by omega)
    rwa [Nat.sub_add_cancel hpos, List.take_length] at this
  · have hlen : (new.take (k + 1)).length = k + 1 := by rw [List.length_take]; omega
    refine ⟨new.take (k + 1), h4, ⟨fun x hx => h.payloads x (List.mem_of_mem_take hx), fun i hi => ?_, ?_⟩, h.jobs⟩
    · rw [hlen] at hi
      rw [List.take_take, Nat.min_eq_left (by omega)]
      exact h1 i (by omega)
    · rw [h3]
      refine ⟨?_, ?_, h2⟩
      · intro hn; rw [hn] at hlen; simp at hlen
      · rw [List.map_take, h.sinks]; exact List.take_prefix _ _

theorem Loop_imp {P : Panics} {base : List SinkCall} {sinks : List Nat} {ok ok' : SinkCall → Prop} {new : List SinkCall} {pan : Bool}
    (h : Loop P base sinks ok new pan) (hi : ∀ x, ok x → ok' x) : Loop P base sinks ok' new pan := ⟨fun x hx => hi x (h.1 x hx), h.2⟩

theorem recover_loop (clock : Nat → Int) (P : Panics) {w : World} {j : Nat} {job : Job} (hj : w.jobs[j]? = some job) (text stackText : Str) (trace : Trace) :
    ∃ errs b pe, (w.recoverP clock P j text stackText trace).1.calls = w.calls ++ errs ++ b ∧ Loop P w.calls w.sinks (Reports job.name text) errs pe ∧
      ((pe = true ∧ b = [] ∧ (w.recoverP clock P j text stackText trace).2 = .panicked) ∨
       (pe = false ∧ ∃ pb, Loop P (w.calls ++ errs) w.sinks (Completes job.name Status.panic) b pb ∧
          (w.recoverP clock P j text stackText trace).2 = if pb then .panicked else .returned (.other text))) := by
  have hj1 : (w.newMap [(bs "stack", stackText)]).1.jobs[j]? = some job := hj
  obtain ⟨errs, a1, a2, a3, a4⟩ := emit_loop clock P hj1 (.eventErr (bs "panic") (.other text) trace) (some (w.newMap [(bs "stack", stackText)]).2)
  have a2' : Loop P w.calls w.sinks (Reports job.name text) errs _ := Loop_imp a2 (by
    intro x hx
    refine ⟨hx.1, _, hx.2, ?_⟩
    have := (emit_err clock (w.newMap [(bs "stack", stackText)]).1 j job hj1 (bs "panic") (.other text) trace
      (some (w.newMap [(bs "stack", stackText)]).2)).1
    rw [this]; rfl)
  unfold recoverP
  simp only
  generalize (w.newMap [(bs "stack", stackText)]).1.emitP clock P j (.eventErr (bs "panic") (.other text) trace) (some (w.newMap [(bs "stack", stackText)]).2) = r at *
  obtain ⟨w2, q⟩ := r
  cases q with
  | none => exact ⟨errs, [], true, by rw [List.append_nil]; exact a1, a2', .inl ⟨rfl, rfl, rfl⟩⟩
  | some e =>
    simp only at a1 a3 a4 ⊢
    have hj2 : w2.jobs[j]? = some job := by rw [a3]; exact hj1
    obtain ⟨b, b1, b2, _, _⟩ := emit_loop clock P hj2 (.complete Status.panic) none
    have hw2 : w2.sinks = w.sinks := a4
    have hc2 : w2.calls = w.calls ++ errs := a1
    rw [hw2, hc2] at b2
    rw [hc2] at b1
    generalize w2.emitP clock P j (.complete Status.panic) none = r at *
    obtain ⟨w3, q⟩ := r
    have b2' : Loop P (w.calls ++ errs) w.sinks (Completes job.name Status.panic) b q.isNone := Loop_imp b2 (fun x hx => ⟨hx.1, by obtain ⟨i, hi⟩ := hx.2; exact ⟨_, hi⟩⟩)
    cases q with
    | none => exact ⟨errs, b, false, b1, a2', .inr ⟨rfl, true, b2', rfl⟩⟩
    | some e => exact ⟨errs, b, false, b1, a2', .inr ⟨rfl, false, b2', rfl⟩⟩

/-- **C102** (`Run`, whenever sinks panic).  After what `f` did there are up to three loops over the sinks: `a`, the completion with the status of what `f` returned
(not if `f` panicked or a sink did in `f`); and if a call of it panics, or `f` was left by a panic, `errs`, the report of the panic, and, unless a call of that panics,
`b`, the completion with `panic`.  Each loop ends at its first panic.  `Run` panics itself exactly if a call of the last two loops does. -/
theorem C102_run (clock : Nat → Int) (P : Panics) (w : World) (j : Nat) (job : Job) (hj : w.jobs[j]? = some job) (f : List Op) (o : Outcome) (sinkText stackText : Str)
    (trace : Trace) :
    ∃ a errs b : List SinkCall, (w.runJobP clock P j f o sinkText stackText trace).1.calls = (w.runP clock P f).1.calls ++ a ++ errs ++ b ∧
    ((∃ e, o = .ret e ∧ (w.runP clock P f).2 = false ∧ Loop P (w.runP clock P f).1.calls (w.runP clock P f).1.sinks (Completes job.name (ownStatus e)) a false ∧
        errs = [] ∧ b = [] ∧ (w.runJobP clock P j f o sinkText stackText trace).2 = .returned e) ∨
     ((w.runP clock P f).2 = false ∧ a = [] ∧ errs = [] ∧ b = [] ∧
        ((o = .panicNil ∧ (w.runJobP clock P j f o sinkText stackText trace).2 = .returned .nil) ∨
         (o = .goexit ∧ (w.runJobP clock P j f o sinkText stackText trace).2 = .exited))) ∨
     (∃ text pe, (((w.runP clock P f).2 = true ∧ a = [] ∧ text = sinkText) ∨ ((w.runP clock P f).2 = false ∧ a = [] ∧ o = .panic text) ∨
          ((w.runP clock P f).2 = false ∧ text = sinkText ∧ ∃ e, o = .ret e ∧
            Loop P (w.runP clock P f).1.calls (w.runP clock P f).1.sinks (Completes job.name (ownStatus e)) a true)) ∧
        Loop P ((w.runP clock P f).1.calls ++ a) (w.runP clock P f).1.sinks (Reports job.name text) errs pe ∧
        ((pe = true ∧ b = [] ∧ (w.runJobP clock P j f o sinkText stackText trace).2 = .panicked) ∨
         (pe = false ∧ ∃ pb, Loop P ((w.runP clock P f).1.calls ++ a ++ errs) (w.runP clock P f).1.sinks (Completes job.name Status.panic) b pb ∧
            (w.runJobP clock P j f o sinkText stackText trace).2 = if pb then .panicked else .returned (.other text))))) := by
  obtain ⟨job', hj', hname, _⟩ := runP_jobs clock P f w j job hj
  generalize hr : w.runP clock P f = r at *
  obtain ⟨w1, pan⟩ := r
  simp only at hj' ⊢
  rw [← hname]
  cases pan with
  | true =>
    have e : w.runJobP clock P j f o sinkText stackText trace = w1.recoverP clock P j sinkText stackText trace := by simp only [runJobP, hr]
    rw [e]
    obtain ⟨errs, b, pe, h1, h2, h3⟩ := recover_loop clock P hj' sinkText stackText trace
    exact ⟨[], errs, b, by simpa using h1, .inr (.inr ⟨sinkText, pe, .inl ⟨rfl, rfl, rfl⟩, by simpa using h2, by simpa using h3⟩)⟩
  | false =>
    have compl : ∀ e : GoErr, o = .ret e → w.runJobP clock P j f o sinkText stackText trace = (match w1.emitP clock P j (.complete (ownStatus e)) none with
          | (w, none) => w.recoverP clock P j sinkText stackText trace
          | (w, some _) => (w, .returned e)) := by
      intro e he
      subst he
      cases e <;> simp only [runJobP, hr] <;> rfl
    cases o with
    | ret e =>
      rw [compl e rfl]
      obtain ⟨a, a1, a2, a3, a4⟩ := emit_loop clock P hj' (.complete (ownStatus e)) none
      have a2' : Loop P w1.calls w1.sinks (Completes job'.name (ownStatus e)) a _ := Loop_imp a2 (fun x hx => ⟨hx.1, by obtain ⟨i, hi⟩ := hx.2; exact ⟨_, hi⟩⟩)
      generalize w1.emitP clock P j (.complete (ownStatus e)) none = r at *
      obtain ⟨w2, q⟩ := r
      cases q with
      | some x => exact ⟨a, [], [], by simpa using a1, .inl ⟨e, rfl, rfl, a2', rfl, rfl, rfl⟩⟩
      | none =>
        simp only at a1 a3 a4 ⊢
        have hj2 : w2.jobs[j]? = some job' := by rw [a3]; exact hj'
        obtain ⟨errs, b, pe, h1, h2, h3⟩ := recover_loop clock P hj2 sinkText stackText trace
        rw [a1] at h1 h2 h3
        rw [a4] at h2 h3
        exact ⟨a, errs, b, h1, .inr (.inr ⟨sinkText, pe, .inr (.inr ⟨trivial, rfl, e, rfl, a2'⟩), h2, h3⟩)⟩
    | panic text =>
      have e : w.runJobP clock P j f (.panic text) sinkText stackText trace = w1.recoverP clock P j text stackText trace := by simp only [runJobP, hr]
      rw [e]
      obtain ⟨errs, b, pe, h1, h2, h3⟩ := recover_loop clock P hj' text stackText trace
      exact ⟨[], errs, b, by simpa using h1, .inr (.inr ⟨text, pe, .inr (.inl ⟨rfl, rfl, rfl⟩), by simpa using h2, by simpa using h3⟩)⟩
    | panicNil =>
      have e : w.runJobP clock P j f .panicNil sinkText stackText trace = (w1, .returned .nil) := by simp only [runJobP, hr]
      rw [e]
      exact ⟨[], [], [], by simp, .inr (.inl ⟨rfl, rfl, rfl, rfl, .inl ⟨rfl, rfl⟩⟩)⟩
    | goexit =>
      have e : w.runJobP clock P j f .goexit sinkText stackText trace = (w1, .exited) := by simp only [runJobP, hr]
      rw [e]
      exact ⟨[], [], [], by simp, .inr (.inl ⟨rfl, rfl, rfl, rfl, .inr ⟨rfl, rfl⟩⟩)⟩

/-- the completions among the calls of a sink. -/
def completionsOf (s : Nat) (l : List SinkCall) : List SinkCall := l.filter (fun x => decide (x.sink = s) && (match x.payload with | .complete _ _ => true | _ => false))

theorem prefix_count {sinks : List Nat} (hn : sinks.Nodup) {l : List SinkCall} (h : l.map (·.sink) <+: sinks) (s : Nat) : (completionsOf s l).length ≤ 1 := by
  have hd : (l.map (·.sink)).Nodup := h.sublist.nodup hn
  have h1 : (completionsOf s l).length ≤ (l.filter (fun x => decide (x.sink = s))).length := by
    unfold completionsOf
    rw [← List.countP_eq_length_filter, ← List.countP_eq_length_filter]
    exact List.countP_mono_left (fun x _ hx => (Bool.and_eq_true _ _ ▸ hx).1)
  have h2 : (l.filter (fun x => decide (x.sink = s))).length = (l.map (·.sink)).count s := by
    rw [List.count, List.countP_map, List.countP_eq_length_filter]
    congr 1
  exact h1.trans (h2 ▸ List.nodup_iff_count_le_one.1 hd s)

theorem Loop_pre {P : Panics} {base : List SinkCall} {sinks : List Nat} {ok : SinkCall → Prop} {new : List SinkCall} {pan : Bool}
    (h : Loop P base sinks ok new pan) : new.map (·.sink) <+: sinks := by
  cases pan with
  | true => exact h.2.2.2.1
  | false => have := h.2.2.1; rw [this]; exact ⟨[], by simp⟩

/-- **C102** (`Run`): whatever sinks panic, no sink hears more than two completions from `Run` (each sink being registered once), and a second one only if a sink
panicked in the first loop. -/
theorem C102_at_most_two (clock : Nat → Int) (P : Panics) (w : World) (j : Nat) (job : Job) (hj : w.jobs[j]? = some job) (f : List Op) (o : Outcome) (sinkText stackText : Str)
    (trace : Trace) (hn : (w.runP clock P f).1.sinks.Nodup) (s : Nat) :
    ∃ new, (w.runJobP clock P j f o sinkText stackText trace).1.calls = (w.runP clock P f).1.calls ++ new ∧ (completionsOf s new).length ≤ 2 ∧
      (1 < (completionsOf s new).length → ∃ k, k < new.length ∧ P ((w.runP clock P f).1.calls ++ new.take (k + 1)) = true ∧
        ∃ x st n, new[k]? = some x ∧ x.payload = .complete st n ∧ st ≠ Status.panic) := by
  obtain ⟨a, errs, b, h1, h2⟩ := C102_run clock P w j job hj f o sinkText stackText trace
  refine ⟨a ++ (errs ++ b), by rw [h1]; simp, ?_⟩
  have happ : ∀ l l' : List SinkCall, completionsOf s (l ++ l') = completionsOf s l ++ completionsOf s l' := fun l l' => List.filter_append _ _
  rcases h2 with ⟨e, _, _, ha, rfl, rfl, _⟩ | ⟨_, rfl, rfl, rfl, _⟩ | ⟨text, pe, hcase, he, hb⟩
  · have := prefix_count hn (Loop_pre ha) s
    simp only [List.append_nil] at *
    exact ⟨by omega, fun h => absurd h (by omega)⟩
  · simp [completionsOf]
  · have herr : completionsOf s errs = [] := by
      unfold completionsOf
      rw [List.filter_eq_nil_iff]
      intro x hx
      obtain ⟨_, e, hp, _⟩ := he.1 x hx
      simp [hp]
    have hbc : (completionsOf s b).length ≤ 1 := by
      rcases hb with ⟨_, rfl, _⟩ | ⟨_, pb, hb, _⟩
      · simp [completionsOf]
      · exact prefix_count hn (Loop_pre hb) s
    have hac : (completionsOf s a).length ≤ 1 := by
      rcases hcase with ⟨_, rfl, _⟩ | ⟨_, rfl, _⟩ | ⟨_, _, e, _, ha⟩
      · simp [completionsOf]
      · simp [completionsOf]
      · exact prefix_count hn (Loop_pre ha) s
    rw [happ, happ, herr]
    simp only [List.nil_append, List.length_append]
    refine ⟨by omega, fun h => ?_⟩
    have hane : a ≠ [] := by
      rintro rfl
      have : (completionsOf s ([] : List SinkCall)).length = 0 := rfl
      omega
    rcases hcase with ⟨_, ha, _⟩ | ⟨_, ha, _⟩ | ⟨_, _, e, _, ha⟩
    · exact absurd ha hane
    · exact absurd ha hane
    · have hpos := List.length_pos_iff.2 hane
      refine ⟨a.length - 1, by omega, ?_, ?_⟩
      · rw [Nat.sub_add_cancel hpos, List.take_left]
        exact ha.2.2.2.2
      · have hlt : a.length - 1 < a.length := by omega
        obtain ⟨_, n, hp⟩ := ha.1 a[a.length - 1] (List.getElem_mem hlt)
        refine ⟨a[a.length - 1], _, n, ?_, hp, ?_⟩
        · rw [List.getElem?_append_left hlt, List.getElem?_eq_getElem hlt]
        · unfold ownStatus
          split <;> decide

end World

namespace Sample
open World

/-- the case of `C102_false`: sink 7 hears two completions. -/
example : (sw.runP clk noSuccess []).1.sinks.Nodup ∧ (completionsOf 7 (sw.runJobP clk noSuccess 1 [] (.ret .nil) (bs "boom") (bs "st") [1]).1.calls).length = 2 ∧
    sw.jobs[1]?.isSome = true := by decide +kernel

end Sample
