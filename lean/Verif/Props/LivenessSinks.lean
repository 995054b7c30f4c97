import Verif.Lemmas.Fairness
import Verif.Props.SinkLoop
/-!
# Property C86: what is emitted is posted eventually (Librato and Bugsnag sinks)
-/
open Spec Spec.Loop

namespace SinkLoop
variable {α : Type} {k : LoopKind}

section
variable (x : Exec (SinkLoop.step k) (SinkLoop.init : SinkLoop α))

theorem run_trace (n : Nat) : (SinkLoop.init : SinkLoop α).run k (x.trace n) = some (x.st n) := by
  induction n with
  | zero => simp [Exec.trace, SinkLoop.run, x.start]
  | succ n ih =>
    rw [Exec.trace, SinkLoop.run_append, ih]
    rcases x.cases_lab n with ⟨e, e'⟩ | ⟨l, e, e'⟩
    · simp [e, SinkLoop.run, e']
    · simp [e, SinkLoop.run, e']

/-- what the goroutine did is not undone. -/
theorem step_grows {s s' : SinkLoop α} {l : Lab α} (h : s.step k l = some s') : s.acts <+: s'.acts ∧ (l = .work → ∃ a, s'.acts = s.acts ++ [.work a]) := by
  cases l with
  | emit a =>
    simp only [step] at h
    split at h
    · cases h; exact ⟨List.prefix_rfl, by simp⟩
    · cases h
  | work =>
    simp only [step] at h
    split at h
    · cases h; exact ⟨List.prefix_append _ _, fun _ => ⟨_, rfl⟩⟩
    · cases h
  | tick now =>
    simp only [step] at h
    split at h
    · cases h; exact ⟨List.prefix_append _ _, by simp⟩
    · cases h
  | stop c => simp only [step] at h; cases h; exact ⟨List.prefix_rfl, by simp⟩
  | take c =>
    simp only [step] at h
    split at h
    · split at h <;> cases h <;> exact ⟨List.prefix_rfl, by simp⟩
    · cases h
  | answer =>
    simp only [step] at h
    split at h
    · cases h; exact ⟨List.prefix_rfl, by simp⟩
    · cases h

theorem acts_mono {n m : Nat} (h : n ≤ m) : (x.st n).acts <+: (x.st m).acts := by
  induction m, h using Nat.le_induction with
  | base => exact List.prefix_rfl
  | succ m _ ih =>
    rcases x.cases_lab m with ⟨_, e⟩ | ⟨l, _, e⟩
    · rw [e]; exact ih
    · exact ih.trans (step_grows e).1

theorem worked_prefix {a b : List (Act α)} (h : a <+: b) : worked a <+: worked b := by
  obtain ⟨t, rfl⟩ := h; exact ⟨worked t, (worked_append a t).symm⟩

/-- without calls of `Stop` the goroutine stays in its loop. -/
theorem running (hns : ∀ n c, x.lab n ≠ some (.stop c)) (n : Nat) : (x.st n).phase = .running ∧ (x.st n).stopping = [] := by
  induction n with
  | zero => rw [x.start]; exact ⟨rfl, rfl⟩
  | succ n ih =>
    obtain ⟨i1, i2⟩ := ih
    rcases x.cases_lab n with ⟨_, e⟩ | ⟨l, hl, h⟩
    · rw [e]; exact ⟨i1, i2⟩
    · generalize x.st (n + 1) = s' at h ⊢
      cases l with
      | emit a =>
        simp only [step] at h
        split at h
        · cases h; exact ⟨i1, i2⟩
        · cases h
      | work =>
        simp only [step] at h
        split at h
        · cases h; exact ⟨i1, i2⟩
        · cases h
      | tick now =>
        simp only [step] at h
        split at h
        · cases h; exact ⟨i1, i2⟩
        · cases h
      | stop c => exact absurd hl (hns n c)
      | take c => simp [step, i2] at h
      | answer => simp [step, i1] at h

theorem accepted_mono {n m : Nat} (h : n ≤ m) : accepted (x.trace n) <+: accepted (x.trace m) := by
  obtain ⟨t, ht⟩ := x.trace_prefix h
  rw [← ht, accepted_append]; exact List.prefix_append _ _

theorem all_worked (hns : ∀ n c, x.lab n ≠ some (.stop c)) (fw : x.WeakFair (fun l => l = .work)) (n : Nat) :
    ∃ m, n ≤ m ∧ ∀ j, m ≤ j → (accepted (x.trace n)).length ≤ (worked (x.st j).acts).length := by
  have hmono : ∀ {a b : Nat}, a ≤ b → (worked (x.st a).acts).length ≤ (worked (x.st b).acts).length :=
    fun h => (worked_prefix (acts_mono x h)).length_le
  refine Exec.reaches (f := fun j => (worked (x.st j).acts).length) (fun n => hmono (by omega)) ?_
  intro m hnm hlt
  refine Exec.leads_weak (x := x) (P := fun j => (worked (x.st j).acts).length = (worked (x.st m).acts).length)
    (Q := fun j => (worked (x.st m).acts).length < (worked (x.st j).acts).length) fw rfl ?_ ?_ ?_
  · intro j hj hP
    refine ⟨_, rfl, ?_⟩
    have h1 := congrArg List.length (C78_in_order k _ _ (run_trace x j)).1
    have h2 := (accepted_mono x (by omega : n ≤ j)).length_le
    rw [List.length_append] at h1
    cases hq : (x.st j).queue with
    | nil => rw [hq] at h1; simp only [List.length_nil] at h1; have hlt : (worked (x.st m).acts).length < _ := hlt; omega
    | cons a q => simp [step, (running x hns j).1, hq]
  · rintro j _ hP ⟨l, rfl, hl⟩
    obtain ⟨a, ha⟩ := (step_grows (x.next j _ hl)).2 rfl
    show _ < (worked (x.st (j + 1)).acts).length
    rw [ha, worked_append, List.length_append]
    simp only [worked, List.length_singleton]
    omega
  · intro j _ hP
    have := hmono (show j ≤ j + 1 by omega)
    omega

end
end SinkLoop

open SinkLoop in
/-- C86 (Librato and Bugsnag): every accepted emission is processed, in order: from some time on what the goroutine has processed begins with the emissions
accepted before time `n`. -/
theorem C86_sink_processed {α : Type} (k : LoopKind) (x : Exec (SinkLoop.step k) (SinkLoop.init : SinkLoop α)) (hns : ∀ n c, x.lab n ≠ some (.stop c))
    (fw : x.WeakFair (fun l => l = .work)) (n : Nat) : ∃ m, n ≤ m ∧ ∀ j, m ≤ j → accepted (x.trace n) <+: worked (x.st j).acts := by
  obtain ⟨m, hm, h⟩ := all_worked x hns fw n
  refine ⟨m, hm, fun j hj => ?_⟩
  exact List.prefix_of_prefix_length_le (accepted_mono x (by omega : n ≤ j)) ⟨_, (C78_in_order k _ _ (run_trace x j)).1⟩ (h j hj)

open SinkLoop in
/-- C86: nobody waits for ever to emit: again and again there is room in the channel. -/
theorem C86_sink_room {α : Type} (k : LoopKind) (hk : 0 < k.cap) (x : Exec (SinkLoop.step k) (SinkLoop.init : SinkLoop α))
    (hns : ∀ n c, x.lab n ≠ some (.stop c)) (fw : x.WeakFair (fun l => l = .work)) (n : Nat) (a : α) :
    ∃ m, n ≤ m ∧ ((x.st m).step k (.emit a)).isSome := by
  by_contra hc
  have hfull : ∀ m, n ≤ m → (x.st m).queue.length = k.cap := by
    intro m hm
    have h1 := (C78_in_order k _ _ (run_trace x m)).2
    by_contra hne
    exact hc ⟨m, hm, by simp [step, show (x.st m).queue.length < k.cap by omega]⟩
  obtain ⟨m, hm, l, rfl, hl⟩ := fw n (fun m hm => ⟨_, rfl, by
    have := hfull m hm
    cases hq : (x.st m).queue with
    | nil => rw [hq] at this; simp at this; omega
    | cons b q => simp [step, (running x hns m).1, hq]⟩)
  have h1 := x.next m _ hl
  have h2 := hfull m hm
  have h3 := hfull (m + 1) (by omega)
  simp only [step] at h1
  split at h1
  · next hq =>
    simp only [Option.some.injEq] at h1
    rw [← h1] at h3
    rw [hq] at h2
    simp only [List.length_cons] at h2 h3
    omega
  · cases h1

/-! ## Librato -/

theorem lib_flushes_append (a b : List Librato.Op) : ∀ es, Lib.flushes es (a ++ b) = Lib.flushes es a ++ Lib.flushes (Lib.pending es a) b := by
  induction a with
  | nil => intro es; rfl
  | cons op a ih => intro es; cases op <;> simp [Lib.flushes, Lib.pending, ih]

theorem lib_pending_flush (l : List Librato.Op) (now : Int) : ∀ es, Lib.pending es (l ++ [.flush now]) = [] := by
  induction l with
  | nil => intro es; rfl
  | cons a t ih => intro es; cases a <;> simpa [Lib.pending] using ih _

open SinkLoop in
/-- C86 (Librato): every accepted emission is in a flush: from some time on the flushes made, one after the other, begin with the emissions accepted before time
`n`.  (What a flush posts: C58, C79.) -/
theorem C86_librato_flushed (x : Exec (SinkLoop.step libratoLoop) (SinkLoop.init : SinkLoop (Str × Payload))) (hns : ∀ n c, x.lab n ≠ some (.stop c))
    (fw : x.WeakFair (fun l => l = .work)) (ft : x.WeakFair (fun l => ∃ now, l = .tick now)) (n : Nat) :
    ∃ m, n ≤ m ∧ ∀ j, m ≤ j → accepted (x.trace n) <+: (Lib.flushes [] (libratoOps (x.st j).acts)).flatMap (·.2) := by
  obtain ⟨m, hm, h⟩ := C86_sink_processed libratoLoop x hns fw n
  obtain ⟨t, ht, l, ⟨now, rfl⟩, hl⟩ := ft m (fun i _ => ⟨.tick 0, ⟨0, rfl⟩, by simp [SinkLoop.step, (running x hns i).1, libratoLoop]⟩)
  refine ⟨t + 1, by omega, fun j hj => ?_⟩
  have hs := x.next t _ hl
  have hacts : (x.st (t + 1)).acts = (x.st t).acts ++ [.tick now] := by
    simp only [SinkLoop.step] at hs
    split at hs
    · simp only [Option.some.injEq] at hs; rw [← hs]
    · cases hs
  have h1 : accepted (x.trace n) <+: (Lib.flushes [] (libratoOps (x.st (t + 1)).acts)).flatMap (·.2) := by
    have e1 := flushes_emissions (libratoOps (x.st (t + 1)).acts) []
    rw [emissions_libratoOps] at e1
    rw [hacts, show libratoOps ((x.st t).acts ++ [.tick now]) = libratoOps (x.st t).acts ++ [.flush now] by simp [libratoOps]] at e1 ⊢
    rw [lib_pending_flush, List.append_nil, List.nil_append] at e1
    rw [e1]
    refine (h t ht).trans (worked_prefix (List.prefix_append _ _))
  obtain ⟨more, hmore⟩ := acts_mono x hj
  have e2 : libratoOps (x.st j).acts = libratoOps (x.st (t + 1)).acts ++ libratoOps more := by
    rw [← hmore]; simp [libratoOps]
  rw [e2, lib_flushes_append, List.flatMap_append]
  exact h1.trans (List.prefix_append _ _)

open SinkLoop in
/-- C86: `Stop` (`ShutdownServer`) returns, when it is called once. -/
theorem C86_sink_stop {α : Type} (k : LoopKind) (x : Exec (SinkLoop.step k) (SinkLoop.init : SinkLoop α)) (n c : Nat) (h : x.lab n = some (.stop c))
    (honce : ∀ m d, x.lab m = some (.stop d) → m = n) (ft : x.WeakFair (fun l => l = .take c)) (fa : x.WeakFair (fun l => l = .answer)) :
    ∃ m, n < m ∧ c ∈ (x.st m).returned := by
  -- up to the call
  have hbefore : ∀ m, m ≤ n → (x.st m).phase = .running ∧ (x.st m).stopping = [] := by
    intro m
    induction m with
    | zero => intro _; rw [x.start]; exact ⟨rfl, rfl⟩
    | succ m ih =>
      intro hm
      obtain ⟨i1, i2⟩ := ih (by omega)
      rcases x.cases_lab m with ⟨_, e⟩ | ⟨l, hl, h⟩
      · rw [e]; exact ⟨i1, i2⟩
      · generalize x.st (m + 1) = s' at h ⊢
        cases l with
        | emit a =>
          simp only [step] at h
          split at h
          · cases h; exact ⟨i1, i2⟩
          · cases h
        | work =>
          simp only [step] at h
          split at h
          · cases h; exact ⟨i1, i2⟩
          · cases h
        | tick now =>
          simp only [step] at h
          split at h
          · cases h; exact ⟨i1, i2⟩
          · cases h
        | stop d => exact absurd (honce m d hl) (by omega)
        | take c => simp [step, i2] at h
        | answer => simp [step, i1] at h
  have hcall : (x.st (n + 1)).phase = .running ∧ (x.st (n + 1)).stopping = [c] := by
    have hs := x.next n _ h
    simp only [step, Option.some.injEq] at hs
    obtain ⟨i1, i2⟩ := hbefore n (Nat.le_refl _)
    rw [← hs]; exact ⟨i1, by simp [i2]⟩
  have taken : ∀ m d, (x.st m).phase = .running ∧ (x.st m).stopping = [c] → x.lab m = some (.take d) →
      (x.st (m + 1)).phase = .answering c ∨ c ∈ (x.st (m + 1)).returned := by
    rintro m d ⟨i1, i2⟩ hl
    have hs := x.next m _ hl
    simp only [step, i1, i2, List.mem_singleton, true_and] at hs
    split at hs
    · next hd =>
      subst hd
      split at hs
      · simp only [Option.some.injEq] at hs; rw [← hs]; exact .inl rfl
      · simp only [Option.some.injEq] at hs; rw [← hs]; right; simp
    · cases hs
  obtain ⟨m, hm, hq⟩ := Exec.leads_weak (x := x) (n := n + 1) (P := fun m => (x.st m).phase = .running ∧ (x.st m).stopping = [c])
    (Q := fun m => (x.st m).phase = .answering c ∨ c ∈ (x.st m).returned) ft hcall
    (by
      rintro m _ ⟨i1, i2⟩
      refine ⟨_, rfl, ?_⟩
      cases hk : k.acks <;> simp [step, i1, i2, hk])
    (by rintro m _ hP ⟨l, rfl, hl⟩; exact taken m c hP hl)
    (by
      rintro m hm ⟨i1, i2⟩
      rcases x.cases_lab m with ⟨_, e⟩ | ⟨l, hl, h⟩
      · left; rw [e]; exact ⟨i1, i2⟩
      · by_cases htk : ∃ d, l = .take d
        · obtain ⟨d, rfl⟩ := htk; right; exact taken m d ⟨i1, i2⟩ hl
        left
        generalize x.st (m + 1) = s' at h ⊢
        cases l with
        | emit a =>
          simp only [step] at h
          split at h
          · cases h; exact ⟨i1, i2⟩
          · cases h
        | work =>
          simp only [step] at h
          split at h
          · cases h; exact ⟨i1, i2⟩
          · cases h
        | tick now =>
          simp only [step] at h
          split at h
          · cases h; exact ⟨i1, i2⟩
          · cases h
        | stop d => exact absurd (honce m d hl) (by omega)
        | take d => exact absurd ⟨d, rfl⟩ htk
        | answer => simp [step, i1] at h)
  rcases hq with hq | hq
  · obtain ⟨m', hm', hr⟩ := Exec.leads_weak (x := x) (n := m) (P := fun m => (x.st m).phase = .answering c) (Q := fun m => c ∈ (x.st m).returned) fa hq
      (by intro j _ hP; exact ⟨_, rfl, by simp [step, hP]⟩)
      (by
        rintro j _ hP ⟨l, rfl, hl⟩
        have hs := x.next j _ hl
        simp only [step, hP, Option.some.injEq] at hs
        rw [← hs]; simp)
      (by
        intro j _ hP
        rcases x.cases_lab j with ⟨_, e⟩ | ⟨l, hl, h⟩
        · left; rw [e]; exact hP
        · generalize x.st (j + 1) = s' at h ⊢
          cases l with
          | emit a =>
            simp only [step] at h
            split at h
            · cases h; exact .inl hP
            · cases h
          | work => simp [step, hP] at h
          | tick now => simp [step, hP] at h
          | stop d => simp only [step, Option.some.injEq] at h; rw [← h]; exact .inl hP
          | take d => simp [step, hP] at h
          | answer => simp only [step, hP, Option.some.injEq] at h; rw [← h]; right; simp)
    exact ⟨m', by omega, hr⟩
  · exact ⟨m, by omega, hq⟩

/-! ## Bugsnag -/

namespace BugsnagSys
variable {clock : Nat → Int} {sink : Nat} (x : Exec (fun s l => BugsnagSys.step clock sink s l) (BugsnagSys.init clock))

theorem run_append' (s : BugsnagSys) (a b : List Lab) : s.run clock sink (a ++ b) = (s.run clock sink a).bind (fun s' => s'.run clock sink b) := by
  induction a generalizing s with
  | nil => rfl
  | cons l a ih =>
    simp only [List.cons_append, run]
    cases s.step clock sink l with
    | none => rfl
    | some s1 => simp [ih]

theorem run_trace (n : Nat) : (BugsnagSys.init clock).run clock sink (x.trace n) = some (x.st n) := by
  induction n with
  | zero => simp [Exec.trace, BugsnagSys.run, x.start]
  | succ n ih =>
    rw [Exec.trace, run_append', ih]
    rcases x.cases_lab n with ⟨e, e'⟩ | ⟨l, e, e'⟩
    · simp [e, BugsnagSys.run, e']
    · simp [e, BugsnagSys.run, e']

theorem loop_emit {l l' : SinkLoop BugsnagReport} {news : List BugsnagReport}
    (h : news.foldlM (fun (l : SinkLoop BugsnagReport) r => l.step bugsnagLoop (.emit r)) l = some l') : l'.phase = l.phase ∧ l'.stopping = l.stopping := by
  rw [emit_all h]; exact ⟨rfl, rfl⟩

/-- a step takes back nothing that was sent, only `finish` sends, only `start` and `finish` change what is being sent. -/
theorem step_sent {s s' : BugsnagSys} {l : Lab} (h : s.step clock sink l = some s') :
    s.sent <+: s'.sent ∧ (l = .finish → s'.sent.length = s.sent.length + 1) ∧ (l ≠ .finish → s'.sent = s.sent) ∧
    (l ≠ .finish → l ≠ .start → s'.sending = s.sending) := by
  cases l with
  | op o =>
    simp only [step, Option.map_eq_some_iff] at h
    obtain ⟨l1, hl1, rfl⟩ := h
    exact ⟨List.prefix_rfl, by simp, fun _ => rfl, fun _ _ => rfl⟩
  | start =>
    simp only [step] at h
    split at h
    · obtain ⟨l1, hl1, rfl⟩ := Option.map_eq_some_iff.1 h
      exact ⟨List.prefix_rfl, by simp, fun _ => rfl, by simp⟩
    · cases h
  | finish =>
    simp only [step] at h
    split at h
    · cases h; exact ⟨List.prefix_append _ _, by simp, by simp, by simp⟩
    · cases h
  | stop c =>
    simp only [step] at h
    obtain ⟨l1, hl1, rfl⟩ := Option.map_eq_some_iff.1 h
    exact ⟨List.prefix_rfl, by simp, fun _ => rfl, fun _ _ => rfl⟩
  | take c =>
    simp only [step] at h
    split at h
    · obtain ⟨l1, hl1, rfl⟩ := Option.map_eq_some_iff.1 h
      exact ⟨List.prefix_rfl, by simp, fun _ => rfl, fun _ _ => rfl⟩
    · cases h

theorem running (hns : ∀ n c, x.lab n ≠ some (.stop c)) (n : Nat) : (x.st n).loop.phase = .running ∧ (x.st n).loop.stopping = [] := by
  induction n with
  | zero => rw [x.start]; exact ⟨rfl, rfl⟩
  | succ n ih =>
    obtain ⟨i1, i2⟩ := ih
    rcases x.cases_lab n with ⟨_, e⟩ | ⟨l, hl, h⟩
    · rw [e]; exact ⟨i1, i2⟩
    · generalize x.st (n + 1) = s' at h ⊢
      cases l with
      | op o =>
        simp only [step, Option.map_eq_some_iff] at h
        obtain ⟨l1, hl1, rfl⟩ := h
        obtain ⟨e1, e2⟩ := loop_emit hl1
        exact ⟨e1.trans i1, e2.trans i2⟩
      | start =>
        simp only [step] at h
        split at h
        · obtain ⟨l1, hl1, rfl⟩ := Option.map_eq_some_iff.1 h
          simp only [SinkLoop.step] at hl1
          split at hl1
          · cases hl1; exact ⟨i1, i2⟩
          · cases hl1
        · cases h
      | finish =>
        simp only [step] at h
        split at h
        · cases h; exact ⟨i1, i2⟩
        · cases h
      | stop c => exact absurd hl (hns n c)
      | take c =>
        simp only [step] at h
        split at h
        · simp [SinkLoop.step, i2] at h
        · cases h

theorem inv_at (hl : ∀ n, LegalRun clock (World.newStream clock) (program (x.trace n))) (n : Nat) : Inv sink (x.st n) :=
  (run_inv (inv_init clock sink) (hl n) (run_trace x n)).1

theorem reports_mono (hl : ∀ n, LegalRun clock (World.newStream clock) (program (x.trace n))) {n m : Nat} (h : n ≤ m) :
    bugsnagReports (x.st n).world sink <+: bugsnagReports (x.st m).world sink := by
  induction m, h using Nat.le_induction with
  | base => exact List.prefix_rfl
  | succ m _ ih =>
    refine ih.trans ?_
    rcases x.cases_lab m with ⟨_, e⟩ | ⟨l, _, h⟩
    · rw [e]
    · have hok := (inv_at x hl m).ok
      generalize x.st (m + 1) = s' at h ⊢
      cases l with
      | op o =>
        simp only [step, Option.map_eq_some_iff] at h
        obtain ⟨l1, hl1, rfl⟩ := h
        obtain ⟨new, g1, _, _⟩ := step_seen clock (x.st m).world hok o
        rw [bugsnagReports_append _ _ _ g1]
        exact List.prefix_append _ _
      | start =>
        simp only [step] at h
        split at h
        · obtain ⟨l1, hl1, rfl⟩ := Option.map_eq_some_iff.1 h; exact List.prefix_rfl
        · cases h
      | finish =>
        simp only [step] at h
        split at h
        · cases h; exact List.prefix_rfl
        · cases h
      | stop c =>
        simp only [step] at h
        obtain ⟨l1, hl1, rfl⟩ := Option.map_eq_some_iff.1 h; exact List.prefix_rfl
      | take c =>
        simp only [step] at h
        split at h
        · obtain ⟨l1, hl1, rfl⟩ := Option.map_eq_some_iff.1 h; exact List.prefix_rfl
        · cases h

theorem sent_mono {n m : Nat} (h : n ≤ m) : (x.st n).sent <+: (x.st m).sent := by
  induction m, h using Nat.le_induction with
  | base => exact List.prefix_rfl
  | succ m _ ih =>
    rcases x.cases_lab m with ⟨_, e⟩ | ⟨l, _, e⟩
    · rw [e]; exact ih
    · exact ih.trans (step_sent e).1

/-- what is being sent gets sent. -/
theorem finishes (ff : x.WeakFair (fun l => l = .finish)) {m : Nat} (h : (x.st m).sending ≠ none) : ∃ j, m ≤ j ∧ (x.st m).sent.length < (x.st j).sent.length := by
  refine Exec.leads_weak (x := x) (P := fun j => (x.st j).sending ≠ none ∧ (x.st j).sent.length = (x.st m).sent.length) (Q := fun j => (x.st m).sent.length < (x.st j).sent.length)
    ff ⟨h, rfl⟩ ?_ ?_ ?_
  · rintro j _ ⟨h1, _⟩
    obtain ⟨r, hr⟩ := Option.ne_none_iff_exists'.1 h1
    exact ⟨_, rfl, by simp [step, hr]⟩
  · rintro j _ ⟨_, h2⟩ ⟨l, rfl, hl⟩
    have := (step_sent (x.next j _ hl)).2.1 rfl
    omega
  · rintro j _ ⟨h1, h2⟩
    rcases x.cases_lab j with ⟨_, e⟩ | ⟨l, hl, e⟩
    · left; rw [e]; exact ⟨h1, h2⟩
    · obtain ⟨_, g2, g3, g4⟩ := step_sent e
      by_cases hf : l = .finish
      · right; have := g2 hf; omega
      · left
        by_cases hst : l = .start
        · subst hst; simp only [step] at e; rw [if_neg h1] at e; cases e
        · exact ⟨by rw [g4 hf hst]; exact h1, by rw [g3 hf]; exact h2⟩

theorem all_sent (hl : ∀ n, LegalRun clock (World.newStream clock) (program (x.trace n))) (hns : ∀ n c, x.lab n ≠ some (.stop c))
    (fs : x.WeakFair (fun l => l = .start)) (ff : x.WeakFair (fun l => l = .finish)) (n : Nat) :
    ∃ m, n ≤ m ∧ ∀ j, m ≤ j → (bugsnagReports (x.st n).world sink).length ≤ (x.st j).sent.length := by
  refine Exec.reaches (f := fun j => (x.st j).sent.length) (fun j => (sent_mono x (show j ≤ j + 1 by omega)).length_le) ?_
  intro m hnm hlt
  by_cases hsend : (x.st m).sending = none
  · -- the goroutine takes the next report
    obtain ⟨j, hj, hq⟩ := Exec.leads_weak (x := x) (n := m) (P := fun j => (x.st j).sending = none ∧ (x.st j).sent.length = (x.st m).sent.length)
      (Q := fun j => (x.st j).sending ≠ none ∧ (x.st j).sent.length = (x.st m).sent.length) fs ⟨hsend, rfl⟩
      (by
        rintro j hj ⟨h1, h2⟩
        refine ⟨_, rfl, ?_⟩
        have h3 := congrArg List.length (inv_at x hl j).reports
        have h4 := (reports_mono x hl (by omega : n ≤ j)).length_le
        simp only [List.length_append, List.length_map, h1, Option.toList_none, List.length_nil] at h3
        have hlt : (x.st m).sent.length < _ := hlt
        cases hq : (x.st j).loop.queue with
        | nil => rw [hq] at h3; simp only [List.length_nil] at h3; omega
        | cons r q => simp [step, h1, SinkLoop.step, (running x hns j).1, hq])
      (by
        rintro j hj ⟨h1, h2⟩ ⟨l, rfl, hlab⟩
        have hs := x.next j _ hlab
        have h5 := (step_sent hs).2.2.1 (by simp)
        refine ⟨?_, by rw [h5]; exact h2⟩
        simp only [step, h1, if_true] at hs
        obtain ⟨l1, hl1, e⟩ := Option.map_eq_some_iff.1 hs
        simp only [SinkLoop.step] at hl1
        split at hl1
        · next hq => rw [← e]; simp [hq]
        · cases hl1)
      (by
        rintro j hj ⟨h1, h2⟩
        rcases x.cases_lab j with ⟨_, e⟩ | ⟨l, hlab, e⟩
        · left; rw [e]; exact ⟨h1, h2⟩
        · obtain ⟨_, g2, g3, g4⟩ := step_sent e
          by_cases hf : l = .finish
          · subst hf; simp [step, h1] at e
          · by_cases hst : l = .start
            · right
              subst hst
              refine ⟨?_, by rw [g3 hf]; exact h2⟩
              simp only [step, h1, if_true] at e
              obtain ⟨l1, hl1, e⟩ := Option.map_eq_some_iff.1 e
              simp only [SinkLoop.step] at hl1
              split at hl1
              · next hq => rw [← e]; simp [hq]
              · cases hl1
            · left; exact ⟨by rw [g4 hf hst]; exact h1, by rw [g3 hf]; exact h2⟩)
    obtain ⟨i, hi, hlt'⟩ := finishes x ff hq.1
    exact ⟨i, by omega, by show (x.st m).sent.length < _; omega⟩
  · exact finishes x ff hsend

end BugsnagSys

/-- C86 (Bugsnag): every error is reported: from some time on the reports sent begin with those that the errors emitted before time `n` ask for. -/
theorem C86_bugsnag_sent (clock : Nat → Int) (sink : Nat) (x : Exec (fun s l => BugsnagSys.step clock sink s l) (BugsnagSys.init clock))
    (hl : ∀ n, LegalRun clock (World.newStream clock) (program (x.trace n))) (hns : ∀ n c, x.lab n ≠ some (.stop c))
    (fs : x.WeakFair (fun l => l = .start)) (ff : x.WeakFair (fun l => l = .finish)) (n : Nat) :
    ∃ m, n ≤ m ∧ ∀ j, m ≤ j → bugsnagReports ((World.newStream clock).run clock (program (x.trace n))) sink <+: (x.st j).sent.map (·.1) := by
  obtain ⟨m, hm, h⟩ := BugsnagSys.all_sent x hl hns fs ff n
  refine ⟨m, hm, fun j hj => ?_⟩
  have hw : (x.st n).world = (World.newStream clock).run clock (program (x.trace n)) :=
    (BugsnagSys.run_inv (BugsnagSys.inv_init clock sink) (hl n) (BugsnagSys.run_trace x n)).2
  rw [← hw]
  refine List.prefix_of_prefix_length_le (BugsnagSys.reports_mono x hl (by omega : n ≤ j))
    ⟨(x.st j).sending.toList ++ (x.st j).loop.queue, by rw [← List.append_assoc]; exact (BugsnagSys.inv_at x hl j).reports⟩ ?_
  rw [List.length_map]
  exact h j hj

/-! ## Concrete cases -/

/-- an emission, then ticks for ever: the hypotheses of `C86_librato_flushed` hold. -/
def Sample.libLive (e : Str × Payload) : Exec (SinkLoop.step libratoLoop) (SinkLoop.init : SinkLoop (Str × Payload)) where
  st
    | 0 => SinkLoop.init
    | 1 => { SinkLoop.init with queue := [e] }
    | n + 2 => { SinkLoop.init with acts := .work e :: (List.range n).map (fun i => .tick (i : Int)) }
  lab
    | 0 => some (.emit e)
    | 1 => some .work
    | n + 2 => some (.tick n)
  start := rfl
  rest n h := by
    match n, h with
    | 0, h => cases h
    | 1, h => cases h
    | _ + 2, h => cases h
  next n l h := by
    match n, h with
    | 0, h => cases h; rfl
    | 1, h => cases h; rfl
    | n + 2, h =>
      cases h
      simp only [SinkLoop.step, SinkLoop.init, libratoLoop]
      simp [List.range_succ]

example (e : Str × Payload) : (∀ n c, (Sample.libLive e).lab n ≠ some (.stop c)) ∧ (Sample.libLive e).WeakFair (fun l => l = .work) ∧
    (Sample.libLive e).WeakFair (fun l => ∃ now, l = .tick now) ∧ accepted ((Sample.libLive e).trace 1) = [e] := by
  refine ⟨?_, ?_, ?_, rfl⟩
  · intro n c h
    match n, h with
    | 0, h => cases h
    | 1, h => cases h
    | _ + 2, h => cases h
  · intro n hn
    obtain ⟨l, rfl, h⟩ := hn (n + 2) (by omega)
    simp [Sample.libLive, SinkLoop.step, SinkLoop.init] at h
  · intro n _
    exact ⟨n + 2, by omega, _, ⟨n, rfl⟩, rfl⟩

theorem Sample.stop_runs : ([.emit 5, .emit 6, .stop 1, .work, .take 1, .answer].foldlM (SinkLoop.step libratoLoop) (SinkLoop.init : SinkLoop Nat)).isSome := by
  decide +kernel

/-- `C86_sink_stop`: a `Stop` between emissions. -/
example : ∃ x : Exec (SinkLoop.step libratoLoop) (SinkLoop.init : SinkLoop Nat), x.lab 2 = some (.stop 1) ∧ (∀ m d, x.lab m = some (.stop d) → m = 2) ∧
    x.WeakFair (fun l => l = .take 1) ∧ x.WeakFair (fun l => l = .answer) := by
  refine ⟨Exec.script _ Sample.stop_runs, rfl, ?_, ?_, ?_⟩
  · intro m d hm
    have hm : ([.emit 5, .emit 6, .stop 1, .work, .take 1, .answer] : List (SinkLoop.Lab Nat))[m]? = some (.stop d) := hm
    match m, hm with
    | 2, _ => rfl
    | 0, hm => simp at hm
    | 1, hm => simp at hm
    | 3, hm => simp at hm
    | 4, hm => simp at hm
    | 5, hm => simp at hm
    | _ + 6, hm => simp at hm
  · refine (Exec.script_fair _ ?_).weak; rintro l rfl; decide +kernel
  · refine (Exec.script_fair _ ?_).weak; rintro l rfl; decide +kernel

theorem legalRun_of_all {clock : Nat → Int} {ops : List World.Op} (h : ∀ o ∈ ops, ∀ w, LegalOp w o) : ∀ w, LegalRun clock w ops := by
  induction ops with
  | nil => intro _; trivial
  | cons o ops ih => exact fun w => ⟨h o (by simp) w, ih (fun o ho => h o (by simp [ho])) _⟩

theorem mem_program {o : World.Op} {ls : List BugsnagSys.Lab} (h : o ∈ program ls) : .op o ∈ ls := by
  induction ls with
  | nil => cases h
  | cons l ls ih =>
    cases l with
    | op o' =>
      rcases List.mem_cons.1 h with rfl | h
      · exact List.mem_cons_self
      · exact List.mem_cons_of_mem _ (ih h)
    | _ => exact List.mem_cons_of_mem _ (ih h)

/-- two errors, of which the second waits while the first is sent. -/
def Sample.bugsnagLive : List BugsnagSys.Lab := [.op (.addSink 7), .op (.newJob (bs "j")), .op (.emit 1 (.eventErr (bs "e") (.other (bs "x")) []) none), .start,
  .op (.emit 1 (.eventErr (bs "f") (.other (bs "y")) []) none), .finish, .start, .finish]

theorem Sample.bugsnagLive_runs : (Sample.bugsnagLive.foldlM (fun s l => BugsnagSys.step Sample.clk 7 s l) (BugsnagSys.init Sample.clk)).isSome := by decide +kernel

example : ∃ x : Exec (fun s l => BugsnagSys.step Sample.clk 7 s l) (BugsnagSys.init Sample.clk),
    (∀ n, LegalRun Sample.clk (World.newStream Sample.clk) (program (x.trace n))) ∧ (∀ n c, x.lab n ≠ some (.stop c)) ∧ x.WeakFair (fun l => l = .start) ∧
    x.WeakFair (fun l => l = .finish) ∧ (bugsnagReports ((World.newStream Sample.clk).run Sample.clk (program (x.trace 5))) 7).length = 2 := by
  refine ⟨Exec.script Sample.bugsnagLive Sample.bugsnagLive_runs, ?_, ?_, ?_, ?_, by decide +kernel⟩
  · refine fun n => legalRun_of_all (fun o ho w => ?_) _
    obtain ⟨m, _, hm⟩ := (Exec.mem_trace _).1 (mem_program ho)
    have hm : (.op o : BugsnagSys.Lab) ∈ Sample.bugsnagLive := List.mem_of_getElem? hm
    simp only [Sample.bugsnagLive, List.mem_cons, BugsnagSys.Lab.op.injEq, reduceCtorEq, List.not_mem_nil, or_false, false_or] at hm
    rcases hm with rfl | rfl | rfl | rfl <;> simp [LegalOp, objId]
  · intro n c hn
    have : (.stop c : BugsnagSys.Lab) ∈ Sample.bugsnagLive := List.mem_of_getElem? hn
    simp [Sample.bugsnagLive] at this
  · refine (Exec.script_fair _ ?_).weak; rintro l rfl; decide +kernel
  · refine (Exec.script_fair _ ?_).weak; rintro l rfl; decide +kernel
