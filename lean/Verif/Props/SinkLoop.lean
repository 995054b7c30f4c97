import Verif.Spec.SinkLoop
import Verif.Props.Stream
import Verif.Props.Librato
/-!
# The goroutines of the Librato and the Bugsnag sink
-/
open Spec Spec.Loop
namespace SinkLoop
variable {α : Type}

theorem run_append (k : LoopKind) (s : SinkLoop α) (a b : List (Lab α)) :
    s.run k (a ++ b) = (s.run k a).bind (fun s' => s'.run k b) := by
  induction a generalizing s with
  | nil => rfl
  | cons l a ih =>
    simp only [List.cons_append, run, Option.bind_assoc]
    congr 1
    funext s'
    exact ih s'

theorem worked_append (a b : List (Act α)) : worked (a ++ b) = worked a ++ worked b := by
  induction a with
  | nil => rfl
  | cons x a ih => cases x <;> simp [worked, ih]

theorem accepted_append (a b : List (Lab α)) : accepted (a ++ b) = accepted a ++ accepted b := by
  induction a with
  | nil => rfl
  | cons x a ih => cases x <;> simp [accepted, ih]

/-- the invariant: bound of the channel, and at most one call of `Stop` returned, exactly if the goroutine ended. -/
structure Inv (k : LoopKind) (s : SinkLoop α) : Prop where
  room : s.queue.length ≤ k.cap
  ended : s.phase = .ended ↔ s.returned ≠ []
  once : s.returned.length ≤ 1

theorem inv_init (k : LoopKind) : Inv k (init : SinkLoop α) := ⟨by simp [init], by simp [init], by simp [init]⟩

theorem step_fifo {k : LoopKind} {s s' : SinkLoop α} {l : Lab α} (h : s.step k l = some s') :
    worked s'.acts ++ s'.queue = worked s.acts ++ s.queue ++ accepted [l] := by
  cases l with
  | emit a =>
    simp only [step] at h
    split at h
    · cases h; simp [accepted]
    · cases h
  | work =>
    simp only [step] at h
    split at h
    · next hp hq => cases h; simp [worked_append, worked, accepted, hq]
    · cases h
  | tick now =>
    simp only [step] at h
    split at h
    · cases h; simp [worked_append, worked, accepted]
    · cases h
  | stop c => simp only [step] at h; cases h; simp [accepted]
  | take c =>
    simp only [step] at h
    split at h
    · split at h <;> cases h <;> simp [accepted]
    · cases h
  | answer =>
    simp only [step] at h
    split at h
    · cases h; simp [accepted]
    · cases h

theorem step_inv {k : LoopKind} {s s' : SinkLoop α} {l : Lab α} (hi : Inv k s) (h : s.step k l = some s') : Inv k s' := by
  obtain ⟨h1, h2, h3⟩ := hi
  have h4 : s.phase ≠ .ended → s.returned = [] := fun hp => by
    by_contra h0
    exact hp (h2.2 h0)
  cases l with
  | emit a =>
    simp only [step] at h
    split at h
    · cases h; exact ⟨by simp; omega, h2, h3⟩
    · cases h
  | work =>
    simp only [step] at h
    split at h
    · next hp hq =>
      cases h
      refine ⟨?_, h2, h3⟩
      rw [hq] at h1
      simp at h1 ⊢
      omega
    · cases h
  | tick now =>
    simp only [step] at h
    split at h
    · cases h; exact ⟨h1, h2, h3⟩
    · cases h
  | stop c => simp only [step] at h; cases h; exact ⟨h1, h2, h3⟩
  | take c =>
    simp only [step] at h
    split at h
    · next hc =>
      have h5 : s.returned = [] := h4 (by rw [hc.1]; simp)
      split at h
      · cases h; exact ⟨h1, by simp [h5], h3⟩
      · cases h; exact ⟨h1, by simp, by simp [h5]⟩
    · cases h
  | answer =>
    simp only [step] at h
    split at h
    · next c hc =>
      have h5 : s.returned = [] := h4 (by rw [hc]; simp)
      cases h
      exact ⟨h1, by simp, by simp [h5]⟩
    · cases h

theorem run_inv {k : LoopKind} {s s' : SinkLoop α} {ls : List (Lab α)} (hi : Inv k s) (h : s.run k ls = some s') : Inv k s' := by
  induction ls generalizing s with
  | nil => cases h; exact hi
  | cons l ls ih =>
    simp only [run] at h
    obtain ⟨s1, h1, h2⟩ := Option.bind_eq_some_iff.1 h
    exact ih (step_inv hi h1) h2

theorem run_fifo {k : LoopKind} {s s' : SinkLoop α} {ls : List (Lab α)} (h : s.run k ls = some s') :
    worked s'.acts ++ s'.queue = worked s.acts ++ s.queue ++ accepted ls := by
  induction ls generalizing s with
  | nil => cases h; simp [accepted]
  | cons l ls ih =>
    simp only [run] at h
    obtain ⟨s1, h1, h2⟩ := Option.bind_eq_some_iff.1 h
    rw [ih h2, step_fifo h1, show l :: ls = [l] ++ ls from rfl, accepted_append]
    simp

/-- the stopped goroutine does nothing more, and nobody takes anything out of the channel. -/
theorem step_ended {k : LoopKind} {s s' : SinkLoop α} {l : Lab α} (hp : s.phase = .ended) (h : s.step k l = some s') :
    s'.phase = .ended ∧ s'.acts = s.acts ∧ s'.returned = s.returned := by
  cases l with
  | emit a =>
    simp only [step] at h
    split at h
    · cases h; exact ⟨hp, rfl, rfl⟩
    · cases h
  | work => simp [step, hp] at h
  | tick now => simp [step, hp] at h
  | stop c => simp only [step] at h; cases h; exact ⟨hp, rfl, rfl⟩
  | take c => simp [step, hp] at h
  | answer => simp [step, hp] at h

theorem run_ended {k : LoopKind} {s s' : SinkLoop α} {ls : List (Lab α)} (hp : s.phase = .ended) (h : s.run k ls = some s') :
    s'.phase = .ended ∧ s'.acts = s.acts ∧ s'.returned = s.returned := by
  induction ls generalizing s with
  | nil => cases h; exact ⟨hp, rfl, rfl⟩
  | cons l ls ih =>
    simp only [run] at h
    obtain ⟨s1, h1, h2⟩ := Option.bind_eq_some_iff.1 h
    obtain ⟨g1, g2, g3⟩ := step_ended hp h1
    obtain ⟨e1, e2, e3⟩ := ih g1 h2
    exact ⟨e1, e2.trans g2, e3.trans g3⟩

end SinkLoop

open SinkLoop
variable {α : Type}

/-! ## C78: the queue -/

/-- C78: in every execution, what the goroutine processed and what is still in the channel are, in order, exactly the emissions that
completed: nothing is lost, doubled or overtaken; and the channel never holds more than its capacity. -/
theorem C78_in_order (k : LoopKind) (ls : List (SinkLoop.Lab α)) (s : SinkLoop α) (h : SinkLoop.init.run k ls = some s) :
    worked s.acts ++ s.queue = accepted ls ∧ s.queue.length ≤ k.cap :=
  ⟨by simpa [init, worked] using run_fifo h, (run_inv (inv_init k) h).room⟩

/-- C78: as long as the goroutine is in its loop, it can process all that is in the channel, whatever came before; then all emissions
have been processed. -/
theorem C78_catches_up (k : LoopKind) (ls : List (SinkLoop.Lab α)) (s : SinkLoop α) (h : SinkLoop.init.run k ls = some s)
    (hp : s.phase = .running) :
    ∃ s', s.run k (List.replicate s.queue.length .work) = some s' ∧ s'.queue = [] ∧ s'.phase = .running ∧ worked s'.acts = accepted ls := by
  have key : ∀ (n : Nat) (s : SinkLoop α), s.queue.length = n → s.phase = .running →
      ∃ s', s.run k (List.replicate n .work) = some s' ∧ s'.queue = [] ∧ s'.phase = .running := by
    intro n
    induction n with
    | zero => intro s hn hp; exact ⟨s, rfl, List.eq_nil_of_length_eq_zero hn, hp⟩
    | succ n ih =>
      intro s hn hp
      obtain ⟨a, q, hq⟩ := List.exists_cons_of_length_eq_add_one hn
      have e : s.step k .work = some { s with queue := q, acts := s.acts ++ [.work a] } := by simp [step, hp, hq]
      obtain ⟨s', h1, h2, h3⟩ := ih { s with queue := q, acts := s.acts ++ [.work a] } (by rw [hq] at hn; simpa using hn) hp
      exact ⟨s', by simp [List.replicate_succ, run, e, h1], h2, h3⟩
  obtain ⟨s', h1, h2, h3⟩ := key _ s rfl hp
  refine ⟨s', h1, h2, h3, ?_⟩
  have h4 := run_fifo h1
  have h5 := (C78_in_order k ls s h).1
  have h6 : ∀ n, accepted (List.replicate n (.work : SinkLoop.Lab α)) = [] := by
    intro n
    induction n with
    | zero => rfl
    | succ n ih => simpa [List.replicate_succ, accepted] using ih
  rw [h2, h5, h6] at h4
  simpa using h4

/-- C78: a call of `Stop` while the goroutine is in its loop can return at once, without a further emission being processed. -/
theorem C78_stop_returns (k : LoopKind) (ls : List (SinkLoop.Lab α)) (s : SinkLoop α) (_h : SinkLoop.init.run k ls = some s)
    (hp : s.phase = .running) (c : Nat) (hc : c ∈ s.stopping) :
    ∃ later s', s.run k later = some s' ∧ c ∈ s'.returned ∧ s'.acts = s.acts ∧ s'.queue = s.queue := by
  cases ha : k.acks with
  | true =>
    refine ⟨[.take c, .answer], { s with stopping := s.stopping.erase c, phase := .ended, returned := s.returned ++ [c] }, ?_, ?_, rfl, rfl⟩
    · simp [run, step, hp, hc, ha]
    · simp
  | false =>
    refine ⟨[.take c], { s with stopping := s.stopping.erase c, phase := .ended, returned := s.returned ++ [c] }, ?_, ?_, rfl, rfl⟩
    · simp [run, step, hp, hc, ha]
    · simp

/-- C78: once a call of `Stop` has returned the goroutine does nothing more (no processing, no flush), no other call of `Stop` ever
returns, and at most as many further emissions complete as there is room in the channel: every one after that blocks for ever. -/
theorem C78_after_stop (k : LoopKind) (ls : List (SinkLoop.Lab α)) (s : SinkLoop α) (h : SinkLoop.init.run k ls = some s)
    (hr : s.returned ≠ []) (later : List (SinkLoop.Lab α)) (s' : SinkLoop α) (h' : s.run k later = some s') :
    s'.acts = s.acts ∧ (∃ c, s.returned = [c] ∧ s'.returned = [c]) ∧ s.queue.length + (accepted later).length ≤ k.cap := by
  have hi := run_inv (inv_init k) h
  obtain ⟨e1, e2, e3⟩ := run_ended (hi.ended.2 hr) h'
  have h4 := run_fifo h'
  rw [e2, List.append_assoc, List.append_right_inj] at h4
  refine ⟨e2, ?_, ?_⟩
  · cases hret : s.returned with
    | nil => exact absurd hret hr
    | cons c t =>
      have := hi.once
      rw [hret] at this
      have ht : t = [] := List.eq_nil_of_length_eq_zero (by rw [List.length_cons] at this; omega)
      subst ht
      exact ⟨c, rfl, by rw [e3, hret]⟩
  · have := (run_inv hi h').room
    rw [h4, List.length_append] at this
    exact this

/-- The claim that a stopped sink has processed all that was emitted before is false: an emission completes, then `Stop` is called
and returns, and the emission is never processed. -/
theorem C78_all_processed_false (k : LoopKind) (hk : 0 < k.cap) (a : α) : ∃ (ls : List (SinkLoop.Lab α)) (s : SinkLoop α),
    SinkLoop.init.run k (.emit a :: .stop 0 :: ls) = some s ∧ s.returned = [0] ∧
    ∀ later s', s.run k later = some s' → worked s'.acts = [] := by
  have h0 : SinkLoop.init.run k [.emit a, .stop 0] = some ⟨[a], .running, [0], [], []⟩ := by simp [run, step, init, hk]
  obtain ⟨later, s, h1, h2, h3, _⟩ := C78_stop_returns k _ _ h0 rfl 0 (by simp)
  have h4 : SinkLoop.init.run k (.emit a :: .stop 0 :: later) = some s := by
    rw [show (.emit a :: .stop 0 :: later : List (SinkLoop.Lab α)) = [.emit a, .stop 0] ++ later from rfl, SinkLoop.run_append, h0]
    exact h1
  have hne : s.returned ≠ [] := List.ne_nil_of_mem h2
  refine ⟨later, s, h4, ?_, ?_⟩
  · obtain ⟨_, ⟨c, hc, _⟩, _⟩ := C78_after_stop k _ s h4 hne [] s rfl
    rw [hc] at h2 ⊢
    simp at h2
    rw [h2]
  · intro l2 s' h5
    rw [(C78_after_stop k _ s h4 hne l2 s' h5).1, h3]
    rfl

/-- both sinks' loops, in use. -/
example : 0 < libratoLoop.cap ∧ 0 < bugsnagLoop.cap ∧
    (SinkLoop.init.run libratoLoop [.emit 5, .emit 6, .work, .tick 9, .emit 7, .stop 1, .stop 2, .take 1, .answer, .emit 8] =
      some ⟨[6, 7, 8], .ended, [2], [1], [.work 5, .tick 9]⟩) ∧
    (SinkLoop.init.run bugsnagLoop [.emit 5, .emit 6, .work, .stop 1, .take 1] = some ⟨[6], .ended, [], [1], [.work 5]⟩) := by decide

/-! ## C79: Librato, from the emissions to the posts -/

theorem emissions_libratoOps (acts : List (Act (Str × Payload))) : Lib.emissions (libratoOps acts) = worked acts := by
  induction acts with
  | nil => rfl
  | cons a t ih =>
    cases a with
    | work e => obtain ⟨j, p⟩ := e; simpa [libratoOps, Lib.emissions, worked] using ih
    | tick now => simpa [libratoOps, Lib.emissions, worked] using ih

/-- the times at which the ticker fired. -/
def Spec.Loop.tickTimes : List (SinkLoop.Lab α) → List Int
  | [] => []
  | .tick now :: t => now :: tickTimes t
  | _ :: t => tickTimes t

def actTimes : List (Act α) → List Int
  | [] => []
  | .tick now :: t => now :: actTimes t
  | .work _ :: t => actTimes t

theorem actTimes_append (a b : List (Act α)) : actTimes (a ++ b) = actTimes a ++ actTimes b := by
  induction a with
  | nil => rfl
  | cons x a ih => cases x <;> simp [actTimes, ih]

theorem flush_times (acts : List (Act (Str × Payload))) : ∀ es, (Lib.flushes es (libratoOps acts)).map (·.1) = actTimes acts := by
  induction acts with
  | nil => intro es; rfl
  | cons a t ih =>
    intro es
    cases a with
    | work e => obtain ⟨j, p⟩ := e; simpa [libratoOps, Lib.flushes, actTimes] using ih _
    | tick now => simpa [libratoOps, Lib.flushes, actTimes] using ih _

theorem step_acts {k : LoopKind} {s s' : SinkLoop α} {l : SinkLoop.Lab α} (h : s.step k l = some s') :
    actTimes s'.acts = actTimes s.acts ++ tickTimes [l] ∧ s'.acts.length ≤ s.acts.length + 1 := by
  cases l with
  | emit a =>
    simp only [step] at h
    split at h
    · cases h; simp [tickTimes]
    · cases h
  | work =>
    simp only [step] at h
    split at h
    · cases h; simp [actTimes_append, actTimes, tickTimes]
    · cases h
  | tick now =>
    simp only [step] at h
    split at h
    · cases h; simp [actTimes_append, actTimes, tickTimes]
    · cases h
  | stop c => simp only [step] at h; cases h; simp [tickTimes]
  | take c =>
    simp only [step] at h
    split at h
    · split at h <;> cases h <;> simp [tickTimes]
    · cases h
  | answer =>
    simp only [step] at h
    split at h
    · cases h; simp [tickTimes]
    · cases h

theorem run_acts {k : LoopKind} {s s' : SinkLoop α} {ls : List (SinkLoop.Lab α)} (h : s.run k ls = some s') :
    actTimes s'.acts = actTimes s.acts ++ tickTimes ls ∧ s'.acts.length ≤ s.acts.length + ls.length := by
  induction ls generalizing s with
  | nil => cases h; simp [tickTimes]
  | cons l ls ih =>
    simp only [SinkLoop.run] at h
    obtain ⟨s1, h1, h2⟩ := Option.bind_eq_some_iff.1 h
    obtain ⟨g1, g2⟩ := step_acts h1
    obtain ⟨e1, e2⟩ := ih h2
    refine ⟨?_, by simp; omega⟩
    rw [e1, g1, List.append_assoc]
    congr 1
    cases l <;> simp [tickTimes]

/-- C79, partial: in every execution of the running sink there is one flush for every tick; each emission that completed belongs to
exactly one flush, or to none yet because it was processed after the last tick or is still in the channel, all in order; and every flush
posts a document that shows exactly its emissions (or nothing when there are none).
Missing: when a sum is not finite nothing is posted and the emissions are dropped, see `C58_false`. -/
theorem C79_posts_partial (o : Librato.Opts) (hp : IsUtf8 o.pfx) (hs : ∀ s, IsUtf8 (o.sanitize s)) (hsrc : IsUtf8 o.source)
    (ls : List (SinkLoop.Lab (Str × Payload))) (s : SinkLoop (Str × Payload)) (h : SinkLoop.init.run libratoLoop ls = some s)
    (hv : ∀ e ∈ accepted ls, PayloadValid e.2) (hl : ls.length < 2 ^ 62) :
    ∃ fs pending, fs.map (·.1) = tickTimes ls ∧ fs.flatMap (·.2) ++ pending ++ s.queue = accepted ls ∧
      List.Forall₂ (Lib.FlushOk o) fs (Librato.run o (libratoOps s.acts)).2 := by
  obtain ⟨a1, a2⟩ := run_acts h
  have hq := (C78_in_order _ _ _ h).1
  obtain ⟨h1, h2⟩ := C58_flushes_partial o hp hs hsrc (libratoOps s.acts) (by
    intro e he
    rw [emissions_libratoOps] at he
    exact hv e (by rw [← hq]; simp [he])) (by
    simp only [libratoOps, List.length_map]
    simp only [SinkLoop.init, List.length_nil, Nat.zero_add] at a2
    omega)
  refine ⟨_, Lib.pending [] (libratoOps s.acts), ?_, ?_, h1⟩
  · rw [flush_times, a1]; simp [SinkLoop.init, actTimes]
  · rw [h2, emissions_libratoOps, hq]

/-- C79: while the goroutine is in its loop, processing what is in the channel followed by a tick puts every emission that has completed
so far into a flush. -/
theorem C79_flushed (o : Librato.Opts) (ls : List (SinkLoop.Lab (Str × Payload))) (s : SinkLoop (Str × Payload))
    (h : SinkLoop.init.run libratoLoop ls = some s) (hr : s.phase = .running) (now : Int) :
    ∃ s', s.run libratoLoop (List.replicate s.queue.length .work ++ [.tick now]) = some s' ∧
      ((Lib.flushes [] (libratoOps s'.acts)).flatMap (·.2)) = accepted ls := by
  obtain ⟨s1, h1, h2, h3, h4⟩ := C78_catches_up _ _ _ h hr
  refine ⟨{ s1 with acts := s1.acts ++ [.tick now] }, ?_, ?_⟩
  · rw [SinkLoop.run_append, h1]
    simp [SinkLoop.run, step, h3, libratoLoop]
  · have e1 := flushes_emissions (libratoOps (s1.acts ++ [.tick now])) []
    have e2 : ∀ (l : List Librato.Op) es, Lib.pending es (l ++ [.flush now]) = [] := by
      intro l
      induction l with
      | nil => intro es; rfl
      | cons a t ih => intro es; cases a <;> simpa [Lib.pending] using ih _
    have e3 : libratoOps (s1.acts ++ [.tick now]) = libratoOps s1.acts ++ [.flush now] := by simp [libratoOps]
    rw [emissions_libratoOps, worked_append, h4, e3, e2] at e1
    rw [e3]
    simpa [worked] using e1

/-- C79 is not so when the sink is stopped: an emission that was processed before `Stop` was called is in no flush, now or later. -/
theorem C79_stop_flushes_false : ∃ (ls : List (SinkLoop.Lab (Str × Payload))) (s : SinkLoop (Str × Payload)),
    SinkLoop.init.run libratoLoop ls = some s ∧ s.returned = [0] ∧ worked s.acts = [(bs "j", .event (bs "e"))] ∧
    ∀ later s', s.run libratoLoop later = some s' → Lib.flushes [] (libratoOps s'.acts) = [] := by
  have h : SinkLoop.init.run libratoLoop [.emit (bs "j", Payload.event (bs "e")), .work, .stop 0, .take 0, .answer] =
      some ⟨[], .ended, [], [0], [.work (bs "j", .event (bs "e"))]⟩ := by decide
  refine ⟨_, _, h, rfl, rfl, ?_⟩
  intro later s' h'
  rw [(C78_after_stop _ _ _ h (by simp) later s' h').1]
  rfl

example : (SinkLoop.init.run libratoLoop [.emit (bs "j", Payload.event (bs "e")), .work, .tick 5, .emit (bs "j", .timing (bs "t") 7), .work,
      .emit (bs "k", .event (bs "e")), .tick 9, .stop 3, .emit (bs "k", .event (bs "e"))]).map (fun s =>
        (s.queue.length, Lib.flushes [] (libratoOps s.acts))) =
    some (2, [(5, [(bs "j", .event (bs "e"))]), (9, [(bs "j", .timing (bs "t") 7)])]) := rfl

/-! ## C80: Bugsnag, from the errors to the reports -/

namespace BugsnagSys

theorem emit_all {news : List BugsnagReport} {l l' : SinkLoop BugsnagReport}
    (h : news.foldlM (fun (l : SinkLoop BugsnagReport) r => l.step bugsnagLoop (.emit r)) l = some l') :
    l' = { l with queue := l.queue ++ news } := by
  induction news generalizing l with
  | nil => simp at h; simp [h]
  | cons r news ih =>
    rw [List.foldlM_cons] at h
    obtain ⟨l1, h1, h2⟩ := Option.bind_eq_some_iff.1 h
    simp only [SinkLoop.step] at h1
    split at h1
    · cases h1; rw [ih h2]; simp
    · cases h1

theorem program_append (a b : List Lab) : program (a ++ b) = program a ++ program b := by
  induction a with
  | nil => rfl
  | cons x a ih => cases x <;> simp [program, ih]

/-- what is known about a state that occurs. -/
structure Inv (sink : Nat) (s : BugsnagSys) : Prop where
  ok : World.Ok s.world
  reports : s.sent.map (·.1) ++ s.sending.toList ++ s.loop.queue = bugsnagReports s.world sink
  maps : ∀ c ∈ s.world.calls, ∀ i, c.kvs = some i → i < s.world.maps.length
  loop : SinkLoop.Inv bugsnagLoop s.loop
  idle : s.loop.phase = .ended → s.sending = none

theorem emit_loop_inv {news : List BugsnagReport} {l l' : SinkLoop BugsnagReport} (hi : SinkLoop.Inv bugsnagLoop l)
    (h : news.foldlM (fun (l : SinkLoop BugsnagReport) r => l.step bugsnagLoop (.emit r)) l = some l') : SinkLoop.Inv bugsnagLoop l' := by
  induction news generalizing l with
  | nil => simp at h; subst h; exact hi
  | cons r news ih =>
    rw [List.foldlM_cons] at h
    obtain ⟨l1, h1, h2⟩ := Option.bind_eq_some_iff.1 h
    exact ih (step_inv hi h1) h2

/-- one operation only appends calls to the log, and those record the contents of their maps. -/
theorem step_seen (clock : Nat → Int) (w : World) (h : World.Ok w) (op : World.Op) :
    ∃ new, (w.step clock op).calls = w.calls ++ new ∧ w.maps.length ≤ (w.step clock op).maps.length ∧
      ∀ c ∈ new, c.seen = (w.step clock op).deref c.kvs ∧ ∀ i, c.kvs = some i → i < (w.step clock op).maps.length := by
  have other : (∀ j c kvs, op ≠ .emit j c kvs) → w.maps.length ≤ (w.step clock op).maps.length →
      ∃ new, (w.step clock op).calls = w.calls ++ new ∧ w.maps.length ≤ (w.step clock op).maps.length ∧
      ∀ c ∈ new, c.seen = (w.step clock op).deref c.kvs ∧ ∀ i, c.kvs = some i → i < (w.step clock op).maps.length := by
    intro hne hlen
    obtain ⟨new, h1, h2⟩ := World.step_calls clock w h op
    have h3 := h2 hne
    subst h3
    exact ⟨[], h1, hlen, by simp⟩
  cases op with
  | emit j c kvs =>
    cases hj : w.jobs[j]? with
    | none => exact ⟨[], by simp [World.step, World.emit, hj], by simp [World.step, World.emit, hj], by simp⟩
    | some job =>
      obtain ⟨new, extra, r, em, hs, _⟩ := World.emit_spec clock w h.maps j job hj c kvs
      refine ⟨new, hs.calls, ?_, ?_⟩
      · show w.maps.length ≤ (w.emit clock j c kvs).1.maps.length
        rw [hs.maps]; simp
      · intro c' hc'
        obtain ⟨_, _, g3, g4, _⟩ := hs.newCalls c' hc'
        refine ⟨by rw [g4, g3]; rfl, ?_⟩
        intro i hi
        rw [g3] at hi
        obtain ⟨m, hm, _⟩ := hs.someKvs i hi
        simp only [World.deref, Option.bind_some] at hm
        exact (List.getElem?_eq_some_iff.1 hm).1
  | streamKv k v =>
    refine other (by simp) ?_
    simp only [World.step, World.streamKv, World.mapSet, List.length_modify]
    unfold World.ensure
    split <;> simp
  | jobKv j k v =>
    refine other (by simp) ?_
    simp only [World.step, World.jobKv]
    split
    · simp
    · simp only [World.mapSet, List.length_modify]
      unfold World.ensure
      split <;> simp
  | addSink s => exact other (by simp) (by simp [World.step, World.addSink])
  | newJob n => exact other (by simp) (by simp [World.step, World.newJob])
  | newMap m => exact other (by simp) (by simp [World.step, World.newMap])
  | mapSet i k v => exact other (by simp) (by simp [World.step, World.mapSet])

theorem newReports_eq {sink : Nat} {w w' : World} {new : List SinkCall} (h : w'.calls = w.calls ++ new) :
    newReports sink w w' = (new.filter (fun c => c.sink = sink)).filterMap bugsnagReport := by
  rw [newReports, h, List.drop_left]

theorem step_inv {clock : Nat → Int} {sink : Nat} {s s' : BugsnagSys} {l : Lab} (hi : Inv sink s)
    (hl : ∀ o, l = .op o → LegalOp s.world o) (h : s.step clock sink l = some s') : Inv sink s' := by
  obtain ⟨h1, h2, h3, h4, h5⟩ := hi
  cases l with
  | op o =>
    simp only [step, Option.map_eq_some_iff] at h
    obtain ⟨l1, hl1, rfl⟩ := h
    obtain ⟨new, g1, g2, g3⟩ := step_seen clock s.world h1 o
    have hl2 := emit_all hl1
    refine ⟨h1.step o (hl o rfl), ?_, ?_, emit_loop_inv h4 hl1, ?_⟩
    · simp only [hl2]
      rw [newReports_eq g1, bugsnagReports_append _ _ _ g1, ← h2]
      simp
    · intro c hc i hci
      simp only [g1, List.mem_append] at hc
      rcases hc with hc | hc
      · have := h3 c hc i hci
        simp only
        omega
      · exact (g3 c hc).2 i hci
    · intro hp
      simp only [hl2] at hp
      exact h5 hp
  | start =>
    simp only [step] at h
    split at h
    · next hn =>
      simp only [Option.map_eq_some_iff] at h
      obtain ⟨l1, hl1, rfl⟩ := h
      have hinv := SinkLoop.step_inv h4 hl1
      simp only [SinkLoop.step] at hl1
      split at hl1
      · next a q hp hq =>
        cases hl1
        refine ⟨h1, ?_, h3, hinv, ?_⟩
        · rw [← h2, hn, hq]; simp
        · intro hp'; simp only [hp] at hp'; cases hp'
      · cases hl1
    · cases h
  | finish =>
    simp only [step] at h
    split at h
    · next r hr =>
      cases h
      refine ⟨h1, ?_, h3, h4, fun _ => rfl⟩
      rw [← h2, hr]; simp
    · cases h
  | stop c =>
    simp only [step, SinkLoop.step, Option.map_some, Option.some.injEq] at h
    subst h
    exact ⟨h1, h2, h3, ⟨h4.1, h4.2, h4.3⟩, h5⟩
  | take c =>
    simp only [step] at h
    split at h
    · next hn =>
      simp only [Option.map_eq_some_iff] at h
      obtain ⟨l1, hl1, rfl⟩ := h
      have hinv := SinkLoop.step_inv h4 hl1
      simp only [SinkLoop.step] at hl1
      split at hl1
      · simp only [bugsnagLoop] at hl1
        cases hl1
        exact ⟨h1, h2, h3, hinv, fun _ => hn⟩
      · cases hl1
    · cases h

theorem step_world {clock : Nat → Int} {sink : Nat} {s s' : BugsnagSys} {l : Lab} (h : s.step clock sink l = some s') :
    s'.world = s.world.run clock (program [l]) := by
  cases l with
  | op o =>
    simp only [step, Option.map_eq_some_iff] at h
    obtain ⟨l1, hl1, rfl⟩ := h
    rfl
  | start =>
    simp only [step] at h
    split at h
    · simp only [Option.map_eq_some_iff] at h
      obtain ⟨l1, hl1, rfl⟩ := h
      rfl
    · cases h
  | finish =>
    simp only [step] at h
    split at h
    · cases h; rfl
    · cases h
  | stop c =>
    simp only [step, SinkLoop.step, Option.map_some, Option.some.injEq] at h
    subst h
    rfl
  | take c =>
    simp only [step] at h
    split at h
    · simp only [Option.map_eq_some_iff] at h
      obtain ⟨l1, hl1, rfl⟩ := h
      rfl
    · cases h

theorem legal_head {clock : Nat → Int} {w : World} {l : Lab} {ls : List Lab} (h : LegalRun clock w (program (l :: ls))) :
    (∀ o, l = .op o → LegalOp w o) ∧ LegalRun clock (w.run clock (program [l])) (program ls) := by
  cases l with
  | op o => exact ⟨by rintro o' ⟨⟩; exact h.1, h.2⟩
  | _ => exact ⟨by simp, h⟩

theorem run_inv {clock : Nat → Int} {sink : Nat} {ls : List Lab} : ∀ {s s' : BugsnagSys}, Inv sink s →
    LegalRun clock s.world (program ls) → s.run clock sink ls = some s' →
    Inv sink s' ∧ s'.world = s.world.run clock (program ls) := by
  induction ls with
  | nil => intro s s' hi _ h; cases h; exact ⟨hi, rfl⟩
  | cons l ls ih =>
    intro s s' hi hl h
    simp only [run] at h
    obtain ⟨s1, h1, h2⟩ := Option.bind_eq_some_iff.1 h
    obtain ⟨g1, g2⟩ := legal_head hl
    have hw := step_world h1
    obtain ⟨e1, e2⟩ := ih (step_inv hi g1 h1) (by rw [hw]; exact g2) h2
    refine ⟨e1, ?_⟩
    rw [e2, hw, ← World.run_append, ← program_append]
    rfl

theorem inv_init (clock : Nat → Int) (sink : Nat) : Inv sink (init clock) :=
  ⟨World.Ok.newStream clock, rfl, by simp [init, World.newStream, World.newJob], SinkLoop.inv_init _, fun _ => rfl⟩

theorem due_append (sink : Nat) (a b : List SinkCall) : due sink (a ++ b) = due sink a ++ due sink b := by
  simp [due, List.filterMap_append]

theorem bugsnagReport_kvs {c : SinkCall} {r : BugsnagReport} (h : bugsnagReport c = some r) : r.kvs = c.kvs := by
  unfold bugsnagReport at h
  split at h
  · split at h
    · split at h
      · cases h
      · cases h; rfl
    · cases h
    · cases h
  · cases h

theorem due_new (sink : Nat) (f : MapRef → Option (GoMap Str Str)) : ∀ new : List SinkCall, (∀ c ∈ new, c.seen = f c.kvs) →
    due sink new = ((new.filter (fun c => c.sink = sink)).filterMap bugsnagReport).map (fun r => (r, f r.kvs)) := by
  intro new
  induction new with
  | nil => intro _; rfl
  | cons c t ih =>
    intro h
    have h1 := h c (by simp)
    have h2 := ih (fun c hc => h c (by simp [hc]))
    unfold due at h2 ⊢
    by_cases hc : c.sink = sink
    · cases hb : bugsnagReport c with
      | none => simpa [List.filterMap_cons, hc, hb] using h2
      | some r => simp [List.filterMap_cons, hc, hb, h2, h1, bugsnagReport_kvs hb]
    · simpa [List.filterMap_cons, hc] using h2

/-- contents: sent and to be sent. -/
def Contents (sink : Nat) (s : BugsnagSys) : Prop :=
  s.sent ++ (s.sending.toList ++ s.loop.queue).map (fun r => (r, s.world.deref r.kvs)) = due sink s.world.calls

theorem step_contents {clock : Nat → Int} {sink : Nat} {s s' : BugsnagSys} {l : Lab} (hi : Inv sink s) (hc : Contents sink s)
    (hu : ∀ o, l = .op o → ∀ r ∈ s.sending.toList ++ s.loop.queue, (s.world.step clock o).deref r.kvs = s.world.deref r.kvs)
    (h : s.step clock sink l = some s') : Contents sink s' := by
  unfold Contents at hc ⊢
  cases l with
  | op o =>
    simp only [step, Option.map_eq_some_iff] at h
    obtain ⟨l1, hl1, rfl⟩ := h
    obtain ⟨new, g1, g2, g3⟩ := step_seen clock s.world hi.ok o
    have hl2 := emit_all hl1
    simp only [hl2]
    rw [g1, due_append, ← hc, due_new sink (s.world.step clock o).deref new (fun c hc => (g3 c hc).1), newReports_eq g1,
      ← List.append_assoc, List.map_append, ← List.append_assoc]
    congr 2
    exact List.map_congr_left (fun r hr => by rw [hu o rfl r hr])
  | start =>
    simp only [step] at h
    split at h
    · next hn =>
      simp only [Option.map_eq_some_iff] at h
      obtain ⟨l1, hl1, rfl⟩ := h
      simp only [SinkLoop.step] at hl1
      split at hl1
      · next a q hp hq =>
        cases hl1
        rw [← hc, hn, hq]; simp
      · cases hl1
    · cases h
  | finish =>
    simp only [step] at h
    split at h
    · next r hr =>
      cases h
      rw [← hc, hr]; simp
    · cases h
  | stop c =>
    simp only [step, SinkLoop.step, Option.map_some, Option.some.injEq] at h
    subst h
    exact hc
  | take c =>
    simp only [step] at h
    split at h
    · next hn =>
      simp only [Option.map_eq_some_iff] at h
      obtain ⟨l1, hl1, rfl⟩ := h
      simp only [SinkLoop.step] at hl1
      split at hl1
      · simp only [bugsnagLoop] at hl1
        cases hl1
        exact hc
      · cases hl1
    · cases h

theorem run_contents {clock : Nat → Int} {sink : Nat} {ls : List Lab} : ∀ {s s' : BugsnagSys}, Inv sink s → Contents sink s →
    LegalRun clock s.world (program ls) → Undisturbed clock sink s ls → s.run clock sink ls = some s' → Contents sink s' := by
  induction ls with
  | nil => intro s s' _ hc _ _ h; cases h; exact hc
  | cons l ls ih =>
    intro s s' hi hc hl hu h
    simp only [run] at h
    obtain ⟨s1, h1, h2⟩ := Option.bind_eq_some_iff.1 h
    obtain ⟨g1, g2⟩ := legal_head hl
    exact ih (step_inv hi g1 h1) (step_contents hi hc hu.1 h1) (by rw [step_world h1]; exact g2) (hu.2 s1 h1) h2

end BugsnagSys

open BugsnagSys

/-- C80: in every execution of a program with a stream and a Bugsnag sink, the reports sent, being sent and waiting are, in order, exactly
the reports that the calls of the sink ask for (one per error that is not muted and not yet emitted: C06). -/
theorem C80_reports (clock : Nat → Int) (sink : Nat) (ls : List BugsnagSys.Lab) (s : BugsnagSys)
    (hl : LegalRun clock (World.newStream clock) (program ls)) (h : (BugsnagSys.init clock).run clock sink ls = some s) :
    s.world = (World.newStream clock).run clock (program ls) ∧
    s.sent.map (·.1) ++ s.sending.toList ++ s.loop.queue = bugsnagReports s.world sink ∧ s.loop.queue.length ≤ 25 := by
  obtain ⟨h1, h2⟩ := BugsnagSys.run_inv (BugsnagSys.inv_init clock sink) hl h
  exact ⟨h2, h1.reports, h1.loop.room⟩

/-- C80, partial: if no operation of the program changes a map that belongs to a report not sent yet, every report is sent with the
key/values that the error was emitted with.
Missing: a report whose map changes in between, see `C80_live_map_false`. -/
theorem C80_contents_partial (clock : Nat → Int) (sink : Nat) (ls : List BugsnagSys.Lab) (s : BugsnagSys)
    (hl : LegalRun clock (World.newStream clock) (program ls)) (h : (BugsnagSys.init clock).run clock sink ls = some s)
    (hu : Undisturbed clock sink (BugsnagSys.init clock) ls) :
    s.sent = (due sink s.world.calls).take s.sent.length := by
  have hc : BugsnagSys.Contents sink (BugsnagSys.init clock) := rfl
  have := BugsnagSys.run_contents (BugsnagSys.inv_init clock sink) hc hl hu h
  unfold BugsnagSys.Contents at this
  rw [← this, List.take_left]

theorem BugsnagSys.calm_op (clock : Nat → Int) (w : World) (hok : World.Ok w) (o : World.Op) (ho : ¬ Writes o) (r : MapRef)
    (hr : ∀ i, r = some i → i < w.maps.length) : (w.step clock o).deref r = w.deref r := by
  cases o with
  | emit j c kvs =>
    cases hj : w.jobs[j]? with
    | none => simp [World.step, World.emit, hj]
    | some job =>
      obtain ⟨new, extra, q, em, hs, _⟩ := World.emit_spec clock w hok.maps j job hj c kvs
      exact World.deref_old w _ extra hs.maps _ hr
  | newMap m => exact World.deref_old w _ [m] rfl _ hr
  | addSink s => rfl
  | newJob n => rfl
  | streamKv k v => exact absurd trivial ho
  | jobKv j k v => exact absurd trivial ho
  | mapSet i k v => exact absurd trivial ho

theorem BugsnagSys.undisturbed_of_quiet {clock : Nat → Int} {sink : Nat} {ls : List BugsnagSys.Lab} : ∀ {s : BugsnagSys}, BugsnagSys.Inv sink s →
    LegalRun clock s.world (program ls) → Quiet clock sink s ls → Undisturbed clock sink s ls := by
  induction ls with
  | nil => intros; trivial
  | cons l ls ih =>
    intro s hi hl hq
    obtain ⟨g1, g2⟩ := legal_head hl
    refine ⟨?_, ?_⟩
    · rintro o rfl r hr
      by_cases ho : Writes o
      · obtain ⟨e1, e2⟩ := hq.1 o rfl ho
        rw [e1, e2] at hr
        cases hr
      · refine calm_op clock s.world hi.ok o ho r.kvs ?_
        have hm : r ∈ bugsnagReports s.world sink := by
          rw [← hi.reports, List.append_assoc]
          exact List.mem_append_right _ hr
        obtain ⟨c, hc1, hc2⟩ := List.mem_filterMap.1 hm
        rw [bugsnagReport_kvs hc2]
        exact hi.maps c (List.mem_filter.1 hc1).1
    · intro s1 h1
      exact ih (BugsnagSys.step_inv hi g1 h1) (by rw [BugsnagSys.step_world h1]; exact g2) (hq.2 s1 h1)

/-- C80, partial: in particular this is so if the program writes key/values only while no report is waiting or being sent.
Missing: as above. -/
theorem C80_quiet_partial (clock : Nat → Int) (sink : Nat) (ls : List BugsnagSys.Lab) (s : BugsnagSys)
    (hl : LegalRun clock (World.newStream clock) (program ls)) (h : (BugsnagSys.init clock).run clock sink ls = some s)
    (hq : Quiet clock sink (BugsnagSys.init clock) ls) :
    s.sent = (due sink s.world.calls).take s.sent.length :=
  C80_contents_partial clock sink ls s hl h (BugsnagSys.undisturbed_of_quiet (BugsnagSys.inv_init clock sink) hl hq)

/-- C80 is false: a job emits an error and afterwards changes one of its key/values; if the report had to wait, it shows the new value. -/
theorem C80_live_map_false : ∃ (clock : Nat → Int) (ls : List BugsnagSys.Lab) (s : BugsnagSys),
    LegalRun clock (World.newStream clock) (program ls) ∧ (BugsnagSys.init clock).run clock 7 ls = some s ∧
    due 7 s.world.calls = [(⟨bs "j", bs "e", .unmuted 0 (.other (bs "x")) [], some 0⟩, some [(bs "user", bs "1")])] ∧
    s.sent = [(⟨bs "j", bs "e", .unmuted 0 (.other (bs "x")) [], some 0⟩, some [(bs "user", bs "2")])] := by
  refine ⟨Sample.clk, [.op (.addSink 7), .op (.newJob (bs "j")), .op (.jobKv 1 (bs "user") (bs "1")),
    .op (.emit 1 (.eventErr (bs "e") (.other (bs "x")) []) none), .op (.jobKv 1 (bs "user") (bs "2")), .start, .finish], _, ?_, rfl, ?_, ?_⟩
  · exact ⟨trivial, trivial, trivial, (by intro id h; cases h), trivial, trivial⟩
  · decide +kernel
  · decide +kernel

/-- A program can even write to a map while the sink's goroutine reads it (which the Go runtime may answer by ending the process). -/
theorem C80_race_false : ∃ (clock : Nat → Int) (ls : List BugsnagSys.Lab) (s : BugsnagSys),
    LegalRun clock (World.newStream clock) (program ls) ∧ (BugsnagSys.init clock).run clock 7 ls = some s ∧ s.raced = true := by
  refine ⟨Sample.clk, [.op (.addSink 7), .op (.newJob (bs "j")), .op (.jobKv 1 (bs "user") (bs "1")),
    .op (.emit 1 (.eventErr (bs "e") (.other (bs "x")) []) none), .start, .op (.jobKv 1 (bs "user") (bs "2"))], _, ?_, rfl, ?_⟩
  · exact ⟨trivial, trivial, trivial, (by intro id h; cases h), trivial, trivial⟩
  · decide +kernel

/-- two errors of a program that meets the hypotheses of the partial theorems. -/
example : ∃ s, (BugsnagSys.init Sample.clk).run Sample.clk 7 [.op (.addSink 7), .op (.newJob (bs "j")), .op (.jobKv 1 (bs "user") (bs "1")),
      .op (.emit 1 (.eventErr (bs "e") (.other (bs "x")) []) none), .start, .op (.emit 1 (.eventErr (bs "f") (.other (bs "y")) []) none), .finish] = some s ∧
    Quiet Sample.clk 7 (BugsnagSys.init Sample.clk) [.op (.addSink 7), .op (.newJob (bs "j")), .op (.jobKv 1 (bs "user") (bs "1")),
      .op (.emit 1 (.eventErr (bs "e") (.other (bs "x")) []) none), .start, .op (.emit 1 (.eventErr (bs "f") (.other (bs "y")) []) none), .finish] ∧
    s.sent.map (·.2) = [some [(bs "user", bs "1")]] ∧ (due 7 s.world.calls).length = 2 := by
  refine ⟨_, rfl, ?_, by decide +kernel, by decide +kernel⟩
  refine ⟨(by rintro o ⟨⟩ h; exact h.elim), ?_⟩
  rintro _ ⟨⟩
  refine ⟨(by rintro o ⟨⟩ h; exact h.elim), ?_⟩
  rintro _ ⟨⟩
  refine ⟨by rintro o ⟨⟩ h; exact ⟨rfl, rfl⟩, ?_⟩
  rintro _ ⟨⟩
  refine ⟨(by rintro o ⟨⟩ h; exact h.elim), ?_⟩
  rintro _ ⟨⟩
  refine ⟨by rintro o ⟨⟩, ?_⟩
  rintro _ ⟨⟩
  refine ⟨(by rintro o ⟨⟩ h; exact h.elim), ?_⟩
  rintro _ ⟨⟩
  exact ⟨by rintro o ⟨⟩, fun _ _ => trivial⟩

/-- C80: after `ShutdownServer` has returned no report is sent any more; those waiting are lost. -/
theorem C80_after_shutdown (clock : Nat → Int) (sink : Nat) (ls : List BugsnagSys.Lab) (s : BugsnagSys)
    (hl : LegalRun clock (World.newStream clock) (program ls)) (h : (BugsnagSys.init clock).run clock sink ls = some s)
    (hr : s.loop.returned ≠ []) (later : List BugsnagSys.Lab) (s' : BugsnagSys) (h' : s.run clock sink later = some s') :
    s'.sent = s.sent := by
  have hi := (BugsnagSys.run_inv (BugsnagSys.inv_init clock sink) hl h).1
  have key : ∀ (later : List BugsnagSys.Lab) (s : BugsnagSys), s.loop.phase = .ended → s.sending = none →
      s.run clock sink later = some s' → s'.sent = s.sent := by
    clear h' hr h hi
    intro later
    induction later with
    | nil => intro s _ _ h; cases h; rfl
    | cons l ls ih =>
      intro s hp hn h
      simp only [BugsnagSys.run] at h
      obtain ⟨s1, h1, h2⟩ := Option.bind_eq_some_iff.1 h
      cases l with
      | op o =>
        simp only [BugsnagSys.step, Option.map_eq_some_iff] at h1
        obtain ⟨l1, hl1, rfl⟩ := h1
        have hl2 := emit_all hl1
        have := fun a b => ih _ a b h2
        exact this (by rw [hl2]; exact hp) hn
      | start => simp [BugsnagSys.step, hn, SinkLoop.step, hp] at h1
      | finish => simp [BugsnagSys.step, hn] at h1
      | stop c =>
        simp only [BugsnagSys.step, SinkLoop.step, Option.map_some, Option.some.injEq] at h1
        subst h1
        have := fun a b => ih _ a b h2
        exact this hp hn
      | take c => simp [BugsnagSys.step, hn, SinkLoop.step, hp] at h1
  have hp := hi.loop.ended.2 hr
  exact key later s hp (hi.idle hp) h'
