import Verif.Model.HealthdMemory
import Verif.Props.PollRounds
/-!
# healthd's goroutines share nothing that is written, except the duration of the intervals (C123)
-/
open Spec

namespace Spec
variable {G X M : Type} {E F : List (Event G X M)}

theorem Before.lt {i j : Nat} (h : Before E i j) : i < j := by
  induction h with
  | same h => exact h
  | start h => exact h
  | message h => exact h
  | trans _ _ a b => exact Nat.lt_trans a b

theorem get_left {i : Nat} {a : Event G X M} (h : E[i]? = some a) : (E ++ F)[i]? = some a := by
  rw [List.getElem?_append_left (List.getElem?_eq_some_iff.1 h).1]; exact h

theorem get_right {k : Nat} {a : Event G X M} (h : F[k]? = some a) : (E ++ F)[E.length + k]? = some a := by
  rw [List.getElem?_append_right (by omega), Nat.add_sub_cancel_left]; exact h

theorem get_cases {j : Nat} {a : Event G X M} (h : (E ++ F)[j]? = some a) : E[j]? = some a ∨ ∃ k, j = E.length + k ∧ F[k]? = some a := by
  by_cases hj : j < E.length
  · rw [List.getElem?_append_left hj] at h; exact .inl h
  · rw [List.getElem?_append_right (by omega)] at h; exact .inr ⟨j - E.length, by omega, h⟩

theorem get_lt {i : Nat} {a : Event G X M} (h : E[i]? = some a) : i < E.length := (List.getElem?_eq_some_iff.1 h).1

theorem Before.append {i j : Nat} (h : Before E i j) : Before (E ++ F) i j := by
  induction h with
  | same h a b c => exact .same h (get_left a) (get_left b) c
  | start h a b c => exact .start h (get_left a) (get_left b) c
  | message h a b c d => exact .message h (get_left a) (get_left b) c d
  | trans _ _ a b => exact .trans a b
end Spec

namespace HdMem

/-! ### Every goroutine has been started, and what was set up before comes before it -/

/-- the goroutine runs or was started. -/
def Has (E : List Event) (a : Agent) : Prop := ∃ (i : Nat) (f : Event), E[i]? = some f ∧ (f.who = a ∨ f.starts = some a)

def Born (E : List Event) : Prop := ∀ j e, E[j]? = some e → j ≠ 0 → ∃ (i : Nat) (f : Event), i < j ∧ E[i]? = some f ∧ (f.who = e.who ∨ f.starts = some e.who)

theorem Has.append {E F : List Event} {a : Agent} (h : Has E a) : Has (E ++ F) a := by
  obtain ⟨i, f, h1, h2⟩ := h
  exact ⟨i, f, get_left h1, h2⟩

theorem Has.new {E F : List Event} {e : Event} {a : Agent} (h : e ∈ F) (ha : e.who = a ∨ e.starts = some a) : Has (E ++ F) a := by
  obtain ⟨k, hk⟩ := List.mem_iff_getElem?.1 h
  exact ⟨_, e, get_right hk, ha⟩

theorem Born.append {E F : List Event} (h : Born E)
    (hF : ∀ k e, F[k]? = some e → Has E e.who ∨ ∃ (k' : Nat) (f : Event), k' < k ∧ F[k']? = some f ∧ (f.who = e.who ∨ f.starts = some e.who)) : Born (E ++ F) := by
  intro j e hj h0
  rcases get_cases hj with hj | ⟨k, rfl, hk⟩
  · obtain ⟨i, f, h1, h2, h3⟩ := h j e hj h0
    exact ⟨i, f, h1, get_left h2, h3⟩
  · rcases hF k e hk with ⟨i, f, h1, h2⟩ | ⟨k', f, h1, h2, h3⟩
    · exact ⟨i, f, by have := get_lt h1; omega, get_left h1, h2⟩
    · exact ⟨E.length + k', f, by omega, get_right h2, h3⟩

/-- what the first event did happens before everything else. -/
theorem Born.first {E : List Event} (h : Born E) (j : Nat) : ∀ e, E[j]? = some e → j ≠ 0 → Before E 0 j := by
  induction j using Nat.strong_induction_on with
  | _ j ih =>
    intro e hj h0
    obtain ⟨i, f, h1, h2, h3⟩ := h j e hj h0
    have hstep : Before E i j := by
      rcases h3 with h3 | h3
      · exact .same h1 h2 hj h3
      · exact .start h1 h2 hj h3
    by_cases hi : i = 0
    · subst hi; exact hstep
    · exact .trans (ih i h1 f h2 hi) hstep

structure Alive (s : Sys) : Prop where
  first : ∃ e, s.log[0]? = some e ∧ e.who = .start
  loop : Has s.log .loop
  born : Born s.log
  server : 1 ≤ s.boot → Has s.log .server
  round : ∀ r, r < s.loop.rounds.length → Has s.log (.round r)
  poll : ∀ r x hp, s.loop.rounds[r]? = some x → hp ∈ x.polling → Has s.log (.poll r hp)
  handler : ∀ i, s.loop.rest.req i ≠ .notCalled → Has s.log (.handler i)
  stopper : s.loop.rest.stop ≠ .notCalled → Has s.log .stopper

theorem Alive.ne {s : Sys} (h : Alive s) : s.log ≠ [] := by
  obtain ⟨e, h1, _⟩ := h.first
  intro h; rw [h] at h1; cases h1

theorem Alive.start {s : Sys} (h : Alive s) : Has s.log .start := by
  obtain ⟨e, h1, h2⟩ := h.first
  exact ⟨0, e, h1, .inl h2⟩

theorem alive_init (clock : Int) (hosts : List Str) : Alive (init clock hosts) where
  first := ⟨_, rfl, rfl⟩
  loop := ⟨1, _, rfl, .inl rfl⟩
  born := by
    intro j e hj h0
    match j, hj with
    | 0, _ => exact absurd rfl h0
    | 1, hj => cases hj; exact ⟨0, _, by omega, rfl, .inr rfl⟩
    | j + 2, hj => cases hj
  server := by intro h; simp [init] at h
  round := by
    intro r hr
    have : r = 0 := by simp [init, Rounds.init] at hr; exact hr
    subst this
    exact ⟨1, _, rfl, .inr rfl⟩
  poll := by
    intro r x hp hx hm
    simp only [init, Rounds.init, List.getElem?_singleton] at hx
    split at hx <;> cases hx
    cases hm
  handler := by intro i h; simp [init, Rounds.init, HdLoop.init] at h
  stopper := by intro h; simp [init, Rounds.init, HdLoop.init] at h

theorem Alive.grow {s s' : Sys} {es : List Event} (g : Alive s) (hE : s'.log = s.log ++ es)
    (hb : ∀ k e, es[k]? = some e → Has s.log e.who ∨ ∃ (k' : Nat) (f : Event), k' < k ∧ es[k']? = some f ∧ (f.who = e.who ∨ f.starts = some e.who))
    (h1 : 1 ≤ s'.boot → 1 ≤ s.boot ∨ ∃ e ∈ es, e.who = .server ∨ e.starts = some .server)
    (h2 : ∀ r, r < s'.loop.rounds.length → r < s.loop.rounds.length ∨ ∃ e ∈ es, e.who = .round r ∨ e.starts = some (.round r))
    (h3 : ∀ r x hp, s'.loop.rounds[r]? = some x → hp ∈ x.polling → (∃ y, s.loop.rounds[r]? = some y ∧ hp ∈ y.polling) ∨
      ∃ e ∈ es, e.who = .poll r hp ∨ e.starts = some (.poll r hp))
    (h4 : ∀ i, s'.loop.rest.req i ≠ .notCalled → s.loop.rest.req i ≠ .notCalled ∨ ∃ e ∈ es, e.who = .handler i ∨ e.starts = some (.handler i))
    (h5 : s'.loop.rest.stop ≠ .notCalled → s.loop.rest.stop ≠ .notCalled ∨ ∃ e ∈ es, e.who = .stopper ∨ e.starts = some .stopper) : Alive s' where
  first := by obtain ⟨e, a, b⟩ := g.first; exact ⟨e, by rw [hE]; exact get_left a, b⟩
  loop := by rw [hE]; exact g.loop.append
  born := by rw [hE]; exact g.born.append hb
  server h := by
    rw [hE]
    rcases h1 h with h | ⟨e, a, b⟩
    · exact (g.server h).append
    · exact .new a b
  round r h := by
    rw [hE]
    rcases h2 r h with h | ⟨e, a, b⟩
    · exact (g.round r h).append
    · exact .new a b
  poll r x hp hx hm := by
    rw [hE]
    rcases h3 r x hp hx hm with ⟨y, hy, hm⟩ | ⟨e, a, b⟩
    · exact (g.poll r y hp hy hm).append
    · exact .new a b
  handler i h := by
    rw [hE]
    rcases h4 i h with h | ⟨e, a, b⟩
    · exact (g.handler i h).append
    · exact .new a b
  stopper h := by
    rw [hE]
    rcases h5 h with h | ⟨e, a, b⟩
    · exact (g.stopper h).append
    · exact .new a b

/-! ### What the steps of the loop change -/

section
variable {s s' : Rounds.Sys} {l : Rounds.Lab}

theorem rounds_len (hs : Rounds.step s l = some s') {r : Nat} (hr : r < s'.rounds.length) : r < s.rounds.length ∨ l = .tick ∧ r = s.rounds.length := by
  cases l with
  | tick =>
    simp only [Rounds.step] at hs
    split at hs <;> cases hs
    simp only [List.length_append, List.length_singleton] at hr
    by_cases h : r < s.rounds.length
    · exact .inl h
    · exact .inr ⟨rfl, by omega⟩
  | spawn r' hp | deliver r' hp | finish r' =>
    simp only [Rounds.step] at hs
    split at hs <;> [skip; cases hs]
    split at hs <;> cases hs
    simp [Rounds.setRound] at hr
    exact .inl hr
  | consume | allIn =>
    simp only [Rounds.step] at hs
    split at hs <;> [skip; cases hs]
    split at hs <;> cases hs
    exact .inl hr
  | other l =>
    simp only [Rounds.step] at hs
    split at hs <;> [cases hs; skip]
    obtain ⟨z, hz, rfl⟩ := Option.map_eq_some_iff.1 hs
    exact .inl hr

theorem polling_step (hs : Rounds.step s l = some s') {r : Nat} {x : Rounds.Round} {hp : Str} (hx : s'.rounds[r]? = some x) (hm : hp ∈ x.polling) :
    (∃ y, s.rounds[r]? = some y ∧ hp ∈ y.polling) ∨ l = .spawn r hp := by
  cases l with
  | tick =>
    simp only [Rounds.step] at hs
    split at hs <;> cases hs
    by_cases h : r < s.rounds.length
    · rw [List.getElem?_append_left h] at hx; exact .inl ⟨x, hx, hm⟩
    · rw [List.getElem?_append_right (by omega)] at hx
      rw [List.getElem?_singleton] at hx
      split at hx <;> cases hx
      cases hm
  | spawn r' hp' =>
    simp only [Rounds.step] at hs
    split at hs <;> [skip; cases hs]
    rename_i y hy
    split at hs <;> cases hs
    rw [Rounds.get_set hy] at hx
    split at hx
    · rename_i e; subst e; cases hx
      rcases List.mem_append.1 hm with hm | hm
      · exact .inl ⟨y, hy, hm⟩
      · rw [List.mem_singleton.1 hm]; exact .inr rfl
    · exact .inl ⟨x, hx, hm⟩
  | deliver r' hp' =>
    simp only [Rounds.step] at hs
    split at hs <;> [skip; cases hs]
    rename_i y hy
    split at hs <;> cases hs
    rw [Rounds.get_set hy] at hx
    split at hx
    · rename_i e; subst e; cases hx
      exact .inl ⟨y, hy, List.mem_of_mem_erase hm⟩
    · exact .inl ⟨x, hx, hm⟩
  | finish r' =>
    simp only [Rounds.step] at hs
    split at hs <;> [skip; cases hs]
    rename_i y hy
    split at hs <;> cases hs
    rw [Rounds.get_set hy] at hx
    split at hx
    · rename_i e; subst e; cases hx
      exact .inl ⟨y, hy, hm⟩
    · exact .inl ⟨x, hx, hm⟩
  | consume | allIn =>
    simp only [Rounds.step] at hs
    split at hs <;> [skip; cases hs]
    split at hs <;> cases hs
    exact .inl ⟨x, hx, hm⟩
  | other l =>
    simp only [Rounds.step] at hs
    split at hs <;> [cases hs; skip]
    obtain ⟨z, hz, rfl⟩ := Option.map_eq_some_iff.1 hs
    exact .inl ⟨x, hx, hm⟩

/-- the steps of requests and of `Stop`. -/
theorem rest_step (hs : Rounds.step s l = some s') :
    (s'.rest.req = s.rest.req ∨ (∃ i, l = .other (.call i) ∧ s.rest.req i = .notCalled ∧ ∃ v, (v = .checked ∨ v = .refused) ∧ s'.rest.req = HdLoop.set s.rest.req i v) ∨
      (∃ i h, l = .other (.enqueue i h) ∧ s.rest.req i = .checked ∧ s'.rest.req = HdLoop.set s.rest.req i .waiting) ∨
      (∃ i, l = .other .reply ∧ s.rest.main = .replying i ∧ s'.rest.req = HdLoop.set s.rest.req i .answered)) ∧
    (s'.rest.stop = s.rest.stop ∨ l = .other .stop ∧ s.rest.stop = .notCalled ∨ l = .other .acceptStop ∧ s.rest.stop = .flagged ∧ s'.rest.stop = .waiting ∨
      l = .other .stopped ∧ s.rest.stop = .waiting ∧ s'.rest.stop = .returned) := by
  cases l with
  | tick =>
    simp only [Rounds.step] at hs
    split at hs <;> cases hs
    exact ⟨.inl rfl, .inl rfl⟩
  | spawn r' hp | deliver r' hp | finish r' | consume | allIn =>
    simp only [Rounds.step] at hs
    split at hs <;> [skip; cases hs]
    split at hs <;> cases hs
    exact ⟨.inl rfl, .inl rfl⟩
  | other l =>
    simp only [Rounds.step] at hs
    split at hs <;> [cases hs; skip]
    obtain ⟨z, hz, rfl⟩ := Option.map_eq_some_iff.1 hs
    cases l with
    | call i =>
      simp only [HdLoop.step] at hz
      split at hz <;> cases hz
      rename_i h
      refine ⟨.inr (.inl ⟨i, rfl, h, _, ?_, rfl⟩), .inl rfl⟩
      split <;> simp
    | enqueue i h =>
      simp only [HdLoop.step] at hz
      split at hz <;> cases hz
      rename_i hh
      exact ⟨.inr (.inr (.inl ⟨i, h, rfl, hh.1, rfl⟩)), .inl rfl⟩
    | reply =>
      simp only [HdLoop.step] at hz
      split at hz <;> cases hz
      rename_i i hm
      exact ⟨.inr (.inr (.inr ⟨i, rfl, hm, rfl⟩)), .inl rfl⟩
    | stop =>
      simp only [HdLoop.step] at hz
      split at hz <;> cases hz
      rename_i h
      exact ⟨.inl rfl, .inr (.inl ⟨rfl, h⟩)⟩
    | acceptStop =>
      simp only [HdLoop.step] at hz
      split at hz <;> cases hz
      rename_i h
      exact ⟨.inl rfl, .inr (.inr (.inl ⟨rfl, h.2, rfl⟩))⟩
    | stopped =>
      simp only [HdLoop.step] at hz
      split at hz <;> cases hz
      rename_i h
      exact ⟨.inl rfl, .inr (.inr (.inr ⟨rfl, h.2, rfl⟩))⟩
    | advance n => cases hz; exact ⟨.inl rfl, .inl rfl⟩
    | wake =>
      simp only [HdLoop.step] at hz
      split at hz <;> [skip; cases hz]
      split at hz <;> cases hz
      exact ⟨.inl rfl, .inl rfl⟩
    | _ =>
      simp only [HdLoop.step] at hz
      split at hz <;> cases hz
      exact ⟨.inl rfl, .inl rfl⟩

end

/-! ### Requests wait in one place -/

/-- where request `i` waits. -/
def pending (s : HdLoop.Sys) (i : Nat) : Nat := (s.queue false).count i + (s.queue true).count i + if s.main = .replying i then 1 else 0

def Waits (s : HdLoop.Sys) : Prop := ∀ i, pending s i = if s.req i = .waiting then 1 else 0

theorem waits_hd {s s' : HdLoop.Sys} {l : HdLoop.Lab} (h : Waits s) (hs : HdLoop.step s l = some s') : Waits s' := by
  intro i
  have hi := h i
  unfold pending at hi ⊢
  cases l with
  | advance n => cases hs; exact hi
  | call j =>
    simp only [HdLoop.step] at hs
    split at hs <;> cases hs
    rename_i hj
    by_cases e : i = j
    · subst e
      simp only [HdLoop.set, if_true]
      rw [hj] at hi
      simp only [reduceCtorEq, if_false] at hi
      rw [hi]; split <;> split <;> simp_all
    · simp only [HdLoop.set, if_neg e]; exact hi
  | enqueue j b =>
    simp only [HdLoop.step] at hs
    split at hs <;> cases hs
    rename_i hj
    by_cases e : i = j
    · subst e
      rw [hj.1] at hi
      cases b <;> simp [HdLoop.set] at hi ⊢ <;> simp_all
    · cases b <;> simp [HdLoop.set, if_neg e, List.count_append, Ne.symm e] at hi ⊢ <;> exact hi
  | accept b =>
    simp only [HdLoop.step] at hs
    split at hs <;> cases hs
    rename_i j q hm hq
    rw [hm] at hi
    by_cases e : j = i
    · subst e
      cases b <;> simp [HdLoop.set, hq] at hi ⊢ <;> omega
    · cases b <;> simp [HdLoop.set, hq, e] at hi ⊢ <;> omega
  | reply =>
    simp only [HdLoop.step] at hs
    split at hs <;> cases hs
    rename_i j hm
    rw [hm] at hi
    by_cases e : j = i
    · subst e
      simp [HdLoop.set] at hi ⊢
      split at hi <;> omega
    · have e' : i ≠ j := fun x => e x.symm
      simp [HdLoop.set, e, e'] at hi ⊢; exact hi
  | wake =>
    simp only [HdLoop.step] at hs
    split at hs <;> [skip; cases hs]
    split at hs <;> cases hs
    exact hi
  | tick n | consume | request | acceptStop | stopped =>
    simp only [HdLoop.step] at hs
    split at hs <;> cases hs
    rename_i hm
    simp_all
  | _ =>
    simp only [HdLoop.step] at hs
    split at hs <;> cases hs
    exact hi

theorem waits_step {s s' : Rounds.Sys} {l : Rounds.Lab} (h : Waits s.rest) (hs : Rounds.step s l = some s') : Waits s'.rest := by
  cases l with
  | tick =>
    simp only [Rounds.step] at hs
    split at hs <;> cases hs
    exact h
  | spawn r' hp | deliver r' hp | finish r' | allIn =>
    simp only [Rounds.step] at hs
    split at hs <;> [skip; cases hs]
    split at hs <;> cases hs
    exact h
  | consume =>
    simp only [Rounds.step] at hs
    split at hs <;> [skip; cases hs]
    split at hs <;> cases hs
    rename_i hm
    intro i
    have := h i
    simp [pending, hm] at this ⊢
    exact this
  | other l =>
    simp only [Rounds.step] at hs
    split at hs <;> [cases hs; skip]
    obtain ⟨z, hz, rfl⟩ := Option.map_eq_some_iff.1 hs
    exact waits_hd h hz

theorem waiting_of_replying {s : HdLoop.Sys} (h : Waits s) {i : Nat} (hm : s.main = .replying i) : s.req i = .waiting := by
  have := h i
  unfold pending at this
  rw [if_pos hm] at this
  by_contra hc
  rw [if_neg hc] at this
  omega

theorem waiting_of_queued {s : HdLoop.Sys} (h : Waits s) {i : Nat} {b : Bool} (hm : i ∈ s.queue b) : s.req i = .waiting := by
  have := h i
  unfold pending at this
  have hc := List.count_pos_iff.2 hm
  by_contra hn
  rw [if_neg hn] at this
  cases b <;> omega

/-! ### Every goroutine has been started -/

theorem alive_go {s : Sys} {z : Rounds.Sys} {l : Rounds.Lab} (g : Alive s) (hw : Waits s.loop.rest) (hl : allowed s.boot l = true) (hs : Rounds.step s.loop l = some z) :
    Alive { s with loop := z, log := s.log ++ events s.loop l } := by
  have hr := rest_step hs
  refine g.grow (es := events s.loop l) rfl ?_ (fun h => .inl h) ?_ ?_ ?_ ?_
  · intro k e hk
    cases l with
    | tick =>
      match k, hk with
      | 0, hk => cases hk; exact .inl g.loop
      | 1, hk => cases hk; exact .inl g.loop
    | spawn r hp =>
      match k, hk with
      | 0, hk =>
        cases hk
        simp only [Rounds.step] at hs
        split at hs <;> [skip; cases hs]
        rename_i y hy
        exact .inl (g.round r (List.getElem?_eq_some_iff.1 hy).1)
    | deliver r hp =>
      match k, hk with
      | 0, hk =>
        cases hk
        simp only [Rounds.step] at hs
        split at hs <;> [skip; cases hs]
        rename_i y hy
        split at hs <;> cases hs
        rename_i hh
        exact .inl (g.poll r y hp hy hh.1)
    | finish r =>
      match k, hk with
      | 0, hk =>
        cases hk
        simp only [Rounds.step] at hs
        split at hs <;> [skip; cases hs]
        rename_i y hy
        exact .inl (g.round r (List.getElem?_eq_some_iff.1 hy).1)
    | consume | allIn =>
      simp only [events] at hk
      split at hk <;> [skip; cases hk]
      match k, hk with
      | 0, hk => cases hk; exact .inl g.loop
    | other l =>
      cases l with
      | fire =>
        match k, hk with
        | 0, hk => cases hk; exact .inl g.loop
      | call i =>
        match k, hk with
        | 0, hk => cases hk; exact .inl (g.server (by simp [allowed] at hl; omega))
        | 1, hk => cases hk; exact .inr ⟨0, _, by omega, rfl, .inr rfl⟩
      | enqueue i b =>
        match k, hk with
        | 0, hk =>
          cases hk
          simp only [Rounds.step, Rounds.aboutPolls, Bool.false_eq_true, if_false, HdLoop.step] at hs
          split at hs <;> [skip; cases hs]
          rename_i hh
          exact .inl (g.handler i (by rw [hh.1]; simp))
      | accept b =>
        simp only [events] at hk
        split at hk <;> [skip; cases hk]
        match k, hk with
        | 0, hk => cases hk; exact .inl g.loop
      | reply =>
        simp only [events] at hk
        split at hk <;> [skip; cases hk]
        rename_i i hm
        match k, hk with
        | 0, hk => cases hk; exact .inl g.loop
        | 1, hk => cases hk; exact .inl (g.handler i (by rw [waiting_of_replying hw hm]; simp))
        | 2, hk => cases hk; exact .inl g.loop
      | stop =>
        match k, hk with
        | 0, hk => cases hk; exact .inl g.start
        | 1, hk => cases hk; exact .inr ⟨0, _, by omega, rfl, .inr rfl⟩
      | acceptStop =>
        have hst : s.loop.rest.stop = .flagged := by
          rcases hr.2 with h | ⟨h, _⟩ | ⟨_, h, _⟩ | ⟨h, _⟩
          · simp only [Rounds.step, Rounds.aboutPolls, Bool.false_eq_true, if_false, HdLoop.step] at hs
            split at hs <;> [skip; cases hs]
            rename_i hh
            exact hh.2
          · cases h
          · exact h
          · cases h
        match k, hk with
        | 0, hk => cases hk; exact .inl (g.stopper (by rw [hst]; simp))
        | 1, hk => cases hk; exact .inl g.loop
        | 2, hk => cases hk; exact .inl (g.stopper (by rw [hst]; simp))
      | stopped =>
        have hst : s.loop.rest.stop = .waiting := by
          simp only [Rounds.step, Rounds.aboutPolls, Bool.false_eq_true, if_false, HdLoop.step] at hs
          split at hs <;> [skip; cases hs]
          rename_i hh
          exact hh.2
        match k, hk with
        | 0, hk => cases hk; exact .inl g.loop
        | 1, hk => cases hk; exact .inl (g.stopper (by rw [hst]; simp))
      | _ => cases hk
  · intro r hlt
    rcases rounds_len hs hlt with h | ⟨rfl, rfl⟩
    · exact .inl h
    · exact .inr ⟨_, List.mem_cons_self, .inr rfl⟩
  · intro r x hp hx hm
    rcases polling_step hs hx hm with h | rfl
    · exact .inl h
    · exact .inr ⟨_, List.mem_cons_self, .inr rfl⟩
  · intro i hi
    have hi : z.rest.req i ≠ .notCalled := hi
    rcases hr.1 with h | ⟨j, rfl, _, v, _, h⟩ | ⟨j, b, _, h1, h⟩ | ⟨j, _, h1, h⟩
    · rw [h] at hi; exact .inl hi
    · by_cases e : i = j
      · subst e; exact .inr ⟨_, List.mem_cons_self, .inr rfl⟩
      · rw [h] at hi; simp only [HdLoop.set, if_neg e] at hi; exact .inl hi
    · by_cases e : i = j
      · subst e; exact .inl (by rw [h1]; simp)
      · rw [h] at hi; simp only [HdLoop.set, if_neg e] at hi; exact .inl hi
    · by_cases e : i = j
      · subst e; exact .inl (by rw [waiting_of_replying hw h1]; simp)
      · rw [h] at hi; simp only [HdLoop.set, if_neg e] at hi; exact .inl hi
  · intro h
    have h : z.rest.stop ≠ .notCalled := h
    rcases hr.2 with h1 | ⟨rfl, _⟩ | ⟨_, h1, _⟩ | ⟨_, h1, _⟩
    · rw [h1] at h; exact .inl h
    · exact .inr ⟨_, List.mem_cons_self, .inr rfl⟩
    · exact .inl (by rw [h1]; simp)
    · exact .inl (by rw [h1]; simp)

theorem alive_step {s s' : Sys} {l : Lab} (g : Alive s) (hw : Waits s.loop.rest) (hs : step s l = some s') : Alive s' := by
  have one : ∀ (e : Event) (b : Nat), Has s.log e.who → (1 ≤ b → 1 ≤ s.boot ∨ e.starts = some .server) → Alive { s with boot := b, log := s.log ++ [e] } := by
    intro e b h1 h2
    refine g.grow (es := [e]) rfl ?_ ?_ (fun _ h => .inl h) (fun _ x _ hx hm => .inl ⟨x, hx, hm⟩) (fun _ h => .inl h) (fun h => .inl h)
    · intro k f hk
      match k, hk with
      | 0, hk => cases hk; exact .inl h1
    · intro h
      rcases h2 h with h | h
      · exact .inl h
      · exact .inr ⟨e, List.mem_singleton_self e, .inr h⟩
  cases l with
  | serve =>
    simp only [step] at hs
    split at hs <;> cases hs
    exact one _ 1 g.start (fun _ => .inr rfl)
  | serving =>
    simp only [step] at hs
    split at hs <;> cases hs
    exact one _ 2 (g.server (by omega)) (fun _ => .inl (by omega))
  | started =>
    simp only [step] at hs
    split at hs <;> cases hs
    exact one _ 3 g.start (fun _ => .inl (by omega))
  | go l =>
    simp only [step] at hs
    split at hs <;> [skip; cases hs]
    rename_i ha
    obtain ⟨z, hz, rfl⟩ := Option.map_eq_some_iff.1 hs
    exact alive_go g hw ha hz
  | render i =>
    simp only [step] at hs
    split at hs <;> cases hs
    · rename_i h
      exact one _ s.boot (g.handler i (by rw [h]; simp)) (fun h => .inl h)
    · rename_i h
      exact one _ s.boot (g.handler i (by rw [h]; simp)) (fun h => .inl h)
  | closeHTTP =>
    simp only [step] at hs
    split at hs <;> cases hs
    rename_i h
    exact one _ s.boot (g.stopper (by rw [h]; simp)) (fun h => .inl h)

/-! ### Who accesses what -/

/-- who may write what, after the set-up. -/
def mayWrite : Agent → Loc → Bool
  | .loop, .hostAggregations | .loop, .needing | .loop, .intervalDuration | .loop, .maxIntervals | .loop, .series | .loop, .status _ | .loop, .copy _ => true
  | .server, .stopHTTP => true
  | .poll r hp, .response r' hp' => r = r' ∧ hp = hp'
  | .handler i, .copy j => i = j
  | _, _ => false

/-- who may read what. -/
def mayRead : Agent → Loc → Bool
  | .start, _ => false
  | _, .setup => true
  | .loop, .stopHTTP => false
  | .loop, .copy _ => false
  | .loop, _ => true
  | .poll _ _, .hostPort _ => true
  | .handler _, .intervalDuration => true
  | .handler i, .copy j => i = j
  | .stopper, .stopHTTP => true
  | _, _ => false

def Shape (e : Event) : Prop := (∀ x ∈ e.writes, mayWrite e.who x = true) ∧ ∀ x ∈ e.reads, mayRead e.who x = true

theorem shape_events (s : Rounds.Sys) (l : Rounds.Lab) : ∀ e ∈ events s l, Shape e := by
  intro e he
  cases l with
  | other l =>
    cases l with
    | accept b =>
      simp only [events] at he
      split at he <;> [skip; cases he]
      cases List.mem_singleton.1 he
      refine ⟨by simp [mayWrite], ?_⟩
      intro x hx
      simp only at hx
      split at hx
      · simp at hx
        rcases hx with rfl | ⟨_, _, rfl⟩ | ⟨_, _, rfl⟩ <;> rfl
      · simp at hx; subst hx; rfl
    | reply =>
      simp only [events] at he
      split at he <;> [skip; cases he]
      simp at he
      rcases he with rfl | rfl | rfl <;> simp [Shape]
    | _ => simp [events, recalculate] at he <;> rcases he with rfl | rfl | rfl <;> simp [Shape, mayWrite, mayRead]
  | consume | allIn =>
    simp only [events] at he
    split at he <;> [skip; cases he]
    cases List.mem_singleton.1 he
    simp [Shape, mayWrite, mayRead, recalculate]
  | _ => simp [events] at he; rcases he with rfl | rfl <;> simp [Shape, mayWrite, mayRead]

theorem events_response {s : Rounds.Sys} {l : Rounds.Lab} {e : Event} (he : e ∈ events s l) {r : Nat} {hp : Str} :
    (.response r hp ∈ e.writes → l = .deliver r hp ∧ .response r hp ∈ e.sends) ∧
    (.response r hp ∈ e.reads → l = .consume ∧ (r, some hp) ∈ s.chan ∧ .response r hp ∈ e.receives) := by
  cases l with
  | other l =>
    cases l with
    | accept b =>
      simp only [events] at he
      split at he <;> [skip; cases he]
      cases List.mem_singleton.1 he
      refine ⟨by simp, ?_⟩
      simp only
      split <;> simp
    | reply =>
      simp only [events] at he
      split at he <;> [skip; cases he]
      simp at he
      rcases he with rfl | rfl | rfl <;> simp
    | _ => simp [events, recalculate] at he <;> rcases he with rfl | rfl | rfl <;> simp
  | consume =>
    simp only [events] at he
    split at he <;> [skip; cases he]
    rename_i hc
    cases List.mem_singleton.1 he
    simp [hc]
    rintro rfl rfl; simp
  | allIn =>
    simp only [events] at he
    split at he <;> [skip; cases he]
    cases List.mem_singleton.1 he
    simp [recalculate]
  | deliver r' hp' =>
    simp [events] at he; subst he
    simp
    rintro rfl rfl; simp
  | _ => simp [events] at he; rcases he with rfl | rfl <;> simp

theorem events_copy {s : Rounds.Sys} {l : Rounds.Lab} {e : Event} (he : e ∈ events s l) {i : Nat} :
    (.copy i ∈ e.writes → e.who = .loop ∧ ∃ b, l = .other (.accept b) ∧ i ∈ s.rest.queue b) ∧ .copy i ∉ e.reads := by
  cases l with
  | other l =>
    cases l with
    | accept b =>
      simp only [events] at he
      split at he <;> [skip; cases he]
      rename_i hq
      cases List.mem_singleton.1 he
      refine ⟨?_, ?_⟩
      · simp only [List.mem_singleton, Loc.copy.injEq, true_and]
        rintro rfl
        exact ⟨b, rfl, by rw [hq]; simp⟩
      · simp only
        split <;> simp
    | reply =>
      simp only [events] at he
      split at he <;> [skip; cases he]
      simp at he
      rcases he with rfl | rfl | rfl <;> simp
    | _ => simp [events, recalculate] at he <;> rcases he with rfl | rfl | rfl <;> simp
  | consume | allIn =>
    simp only [events] at he
    split at he <;> [skip; cases he]
    cases List.mem_singleton.1 he
    simp [recalculate]
  | deliver r' hp' => simp [events] at he; subst he; simp
  | _ => simp [events] at he; rcases he with rfl | rfl <;> simp

theorem events_close {s : Rounds.Sys} {l : Rounds.Lab} {e : Event} (he : e ∈ events s l) :
    .stopHTTP ∉ e.writes ∧ (e.who = .stopper → l = .other .stop ∨ l = .other .acceptStop ∨ l = .other .stopped) := by
  cases l with
  | other l =>
    cases l with
    | accept b =>
      simp only [events] at he
      split at he <;> [skip; cases he]
      cases List.mem_singleton.1 he
      simp
    | reply =>
      simp only [events] at he
      split at he <;> [skip; cases he]
      simp at he
      rcases he with rfl | rfl | rfl <;> simp
    | _ => simp [events, recalculate] at he <;> rcases he with rfl | rfl | rfl <;> simp
  | consume | allIn =>
    simp only [events] at he
    split at he <;> [skip; cases he]
    cases List.mem_singleton.1 he
    simp [recalculate]
  | deliver r' hp' => simp [events] at he; subst he; simp
  | _ => simp [events] at he; rcases he with rfl | rfl <;> simp

/-! ### Responses -/

structure Responses (s : Sys) : Prop where
  sent : ∀ e ∈ s.log, ∀ r hp, .response r hp ∈ e.writes → (r, some hp) ∈ s.loop.log ∧ .response r hp ∈ e.sends
  seen : ∀ e ∈ s.log, ∀ r hp, .response r hp ∈ e.reads → (r, some hp) ∈ s.loop.log
  order : ∀ p q e f r hp, s.log[p]? = some e → .response r hp ∈ e.writes → s.log[q]? = some f → .response r hp ∈ f.reads → Before s.log p q

theorem log_grows {s s' : Rounds.Sys} {l : Rounds.Lab} (hs : Rounds.step s l = some s') : ∀ m ∈ s.log, m ∈ s'.log := by
  intro m hm
  simp only [Rounds.Sys.log] at hm ⊢
  cases l with
  | tick =>
    simp only [Rounds.step] at hs
    split at hs <;> cases hs
    exact hm
  | spawn r' hp | deliver r' hp | finish r' =>
    simp only [Rounds.step] at hs
    split at hs <;> [skip; cases hs]
    split at hs <;> cases hs
    simp only [List.mem_append] at hm ⊢
    tauto
  | consume | allIn =>
    simp only [Rounds.step] at hs
    split at hs <;> [skip; cases hs]
    rename_i hc
    split at hs <;> cases hs
    rw [hc] at hm
    simp only [List.mem_append, List.mem_cons, List.not_mem_nil, or_false] at hm ⊢
    tauto
  | other l =>
    simp only [Rounds.step] at hs
    split at hs <;> [cases hs; skip]
    obtain ⟨z, hz, rfl⟩ := Option.map_eq_some_iff.1 hs
    exact hm

theorem not_yet {hosts : List Str} (hh : hosts.Nodup) {s s' : Rounds.Sys} (hi : Rounds.Inv hosts s) {r : Nat} {hp : Str}
    (hs : Rounds.step s (.deliver r hp) = some s') : (r, some hp) ∉ s.log ∧ (r, some hp) ∈ s'.log := by
  simp only [Rounds.step] at hs
  split at hs <;> [skip; cases hs]
  rename_i y hy
  split at hs <;> cases hs
  rename_i hm
  refine ⟨fun hl => ?_, by simp [Rounds.Sys.log]⟩
  have hn := (hi.rounds r y hy).all.nodup_iff.2 hh
  have ha : hp ∈ Rounds.answered r s.log := List.mem_filterMap.2 ⟨(r, some hp), hl, by simp⟩
  exact (List.nodup_append.1 hn).2.2 hp (List.mem_append_right _ hm.1) hp ha rfl

theorem responses_go {hosts : List Str} (hh : hosts.Nodup) {s : Sys} {z : Rounds.Sys} {l : Rounds.Lab} (g : Responses s) (hi : Rounds.Inv hosts s.loop)
    (hs : Rounds.step s.loop l = some z) : Responses { s with loop := z, log := s.log ++ events s.loop l } where
  sent e he r hp hx := by
    rcases List.mem_append.1 he with he | he
    · exact ⟨log_grows hs _ (g.sent e he r hp hx).1, (g.sent e he r hp hx).2⟩
    · obtain ⟨rfl, h⟩ := (events_response he).1 hx
      exact ⟨(not_yet hh hi hs).2, h⟩
  seen e he r hp hx := by
    rcases List.mem_append.1 he with he | he
    · exact log_grows hs _ (g.seen e he r hp hx)
    · obtain ⟨rfl, h, _⟩ := (events_response he).2 hx
      exact log_grows hs _ (by simp [Rounds.Sys.log, h])
  order p q e f r hp hp1 hx hq hy := by
    rcases get_cases hp1 with h1 | ⟨k, rfl, h1⟩ <;> rcases get_cases hq with h2 | ⟨k', rfl, h2⟩
    · exact (g.order p q e f r hp h1 hx h2 hy).append
    · have a := (g.sent e (List.mem_of_getElem? h1) r hp hx).2
      have b := ((events_response (List.mem_of_getElem? h2)).2 hy).2.2
      exact .message (by have := get_lt h1; omega) (get_left h1) (get_right h2) a b
    · obtain ⟨rfl, _⟩ := (events_response (List.mem_of_getElem? h1)).1 hx
      exact absurd (g.seen f (List.mem_of_getElem? h2) r hp hy) (not_yet hh hi hs).1
    · have a := ((events_response (List.mem_of_getElem? h1)).1 hx).1
      have b := ((events_response (List.mem_of_getElem? h2)).2 hy).1
      rw [a] at b; cases b

theorem responses_step {hosts : List Str} (hh : hosts.Nodup) {s s' : Sys} {l : Lab} (g : Responses s) (hi : Rounds.Inv hosts s.loop) (hs : step s l = some s') : Responses s' := by
  have one : ∀ (e : Event) (b : Nat), (∀ r hp, .response r hp ∉ e.writes ∧ .response r hp ∉ e.reads) → Responses { s with boot := b, log := s.log ++ [e] } := by
    intro e b h
    constructor
    · intro f hf r hp hx
      rcases List.mem_append.1 hf with hf | hf
      · exact g.sent f hf r hp hx
      · cases List.mem_singleton.1 hf; exact absurd hx (h r hp).1
    · intro f hf r hp hx
      rcases List.mem_append.1 hf with hf | hf
      · exact g.seen f hf r hp hx
      · cases List.mem_singleton.1 hf; exact absurd hx (h r hp).2
    · intro p q f f' r hp h1 hx h2 hy
      rcases get_cases h1 with h1' | ⟨k, rfl, h1'⟩
      · rcases get_cases h2 with h2' | ⟨k, rfl, h2'⟩
        · exact (g.order p q f f' r hp h1' hx h2' hy).append
        · cases List.mem_singleton.1 (List.mem_of_getElem? h2'); exact absurd hy (h r hp).2
      · cases List.mem_singleton.1 (List.mem_of_getElem? h1'); exact absurd hx (h r hp).1
  cases l with
  | go l =>
    simp only [step] at hs
    split at hs <;> [skip; cases hs]
    obtain ⟨z, hz, rfl⟩ := Option.map_eq_some_iff.1 hs
    exact responses_go hh g hi hz
  | render i =>
    simp only [step] at hs
    split at hs <;> cases hs
    all_goals exact one _ s.boot (by simp)
  | closeHTTP =>
    simp only [step] at hs
    split at hs <;> cases hs
    exact one _ s.boot (by simp)
  | serve | serving | started =>
    simp only [step] at hs
    split at hs <;> cases hs
    exact one _ _ (by simp)

/-! ### The copies made for requests -/

structure Copies (s : Sys) : Prop where
  made : ∀ e ∈ s.log, ∀ i, e.who = .loop → .copy i ∈ e.writes → s.loop.rest.req i = .waiting ∨ s.loop.rest.req i = .answered
  used : ∀ e ∈ s.log, ∀ i, e.who = .handler i → .copy i ∈ e.reads ∨ .copy i ∈ e.writes → s.loop.rest.req i = .answered
  passed : ∀ i, s.loop.rest.req i = .answered → ∀ (p : Nat) (e : Event), s.log[p]? = some e → e.who = .loop → .copy i ∈ e.writes →
    ∃ (k : Nat) (f : Event), s.log[k]? = some f ∧ f.who = .handler i ∧ Before s.log p k
  order : ∀ (p q : Nat) (e f : Event) i, s.log[p]? = some e → e.who = .loop → .copy i ∈ e.writes → s.log[q]? = some f → f.who = .handler i →
    .copy i ∈ f.reads ∨ .copy i ∈ f.writes → Before s.log p q

theorem copies_go {s : Sys} {z : Rounds.Sys} {l : Rounds.Lab} (g : Copies s) (hw : Waits s.loop.rest) (hs : Rounds.step s.loop l = some z) :
    Copies { s with loop := z, log := s.log ++ events s.loop l } := by
  have hr := (rest_step hs).1
  have wait : ∀ i, s.loop.rest.req i = .waiting → z.rest.req i = .waiting ∨ z.rest.req i = .answered := by
    intro i hi
    rcases hr with h | ⟨j, _, h1, v, _, h⟩ | ⟨j, b, _, h1, h⟩ | ⟨j, _, h1, h⟩ <;> rw [h]
    · exact .inl hi
    · by_cases e : i = j
      · subst e; rw [h1] at hi; cases hi
      · simp only [HdLoop.set, if_neg e]; exact .inl hi
    · by_cases e : i = j
      · subst e; rw [h1] at hi; cases hi
      · simp only [HdLoop.set, if_neg e]; exact .inl hi
    · by_cases e : i = j
      · subst e; simp [HdLoop.set]
      · simp only [HdLoop.set, if_neg e]; exact .inl hi
  have answ : ∀ i, s.loop.rest.req i = .answered → z.rest.req i = .answered := by
    intro i hi
    rcases hr with h | ⟨j, _, h1, v, _, h⟩ | ⟨j, b, _, h1, h⟩ | ⟨j, _, h1, h⟩ <;> rw [h]
    · exact hi
    · by_cases e : i = j
      · subst e; rw [h1] at hi; cases hi
      · simp only [HdLoop.set, if_neg e]; exact hi
    · by_cases e : i = j
      · subst e; rw [h1] at hi; cases hi
      · simp only [HdLoop.set, if_neg e]; exact hi
    · by_cases e : i = j
      · subst e; simp [HdLoop.set]
      · simp only [HdLoop.set, if_neg e]; exact hi
  have back : ∀ i, z.rest.req i = .answered → s.loop.rest.req i = .answered ∨ l = .other .reply ∧ s.loop.rest.main = .replying i := by
    intro i hi
    rcases hr with h | ⟨j, _, h1, v, hv, h⟩ | ⟨j, b, _, h1, h⟩ | ⟨j, e1, h1, h⟩ <;> rw [h] at hi
    · exact .inl hi
    · by_cases e : i = j
      · subst e; simp [HdLoop.set] at hi; subst hi; simp at hv
      · simp only [HdLoop.set, if_neg e] at hi; exact .inl hi
    · by_cases e : i = j
      · subst e; simp [HdLoop.set] at hi
      · simp only [HdLoop.set, if_neg e] at hi; exact .inl hi
    · by_cases e : i = j
      · subst e; exact .inr ⟨e1, h1⟩
      · simp only [HdLoop.set, if_neg e] at hi; exact .inl hi
  constructor
  · intro e he i h1 h2
    rcases List.mem_append.1 he with he | he
    · rcases g.made e he i h1 h2 with h | h
      · exact wait i h
      · exact .inr (answ i h)
    · obtain ⟨_, b, _, h⟩ := (events_copy he).1 h2
      exact wait i (waiting_of_queued hw h)
  · intro e he i h1 h2
    rcases List.mem_append.1 he with he | he
    · exact answ i (g.used e he i h1 h2)
    · rcases h2 with h2 | h2
      · exact absurd h2 (events_copy he).2
      · have := ((events_copy he).1 h2).1
        rw [h1] at this; cases this
  · intro i hi p e hp h1 h2
    rcases get_cases hp with hp' | ⟨k, rfl, hp'⟩
    · rcases back i hi with hi | ⟨rfl, hm⟩
      · obtain ⟨k, f, a, b, c⟩ := g.passed i hi p e hp' h1 h2
        exact ⟨k, f, get_left a, b, c.append⟩
      · have hev : events s.loop (.other .reply) = [{ who := .loop, sends := [.answer i] }, { who := .handler i, receives := [.answer i], sends := [.taken i] },
          { who := .loop, receives := [.taken i] }] := by simp only [events, hm]
        have e0 : (events s.loop (.other .reply))[0]? = some { who := .loop, sends := [.answer i] } := by rw [hev]; rfl
        have e1 : (events s.loop (.other .reply))[1]? = some { who := .handler i, receives := [.answer i], sends := [.taken i] } := by rw [hev]; rfl
        have hlt := get_lt hp'
        refine ⟨_, _, get_right e1, rfl, .trans (j := s.log.length + 0) (.same (by omega) (get_left hp') (get_right e0) h1) ?_⟩
        exact .message (m := .answer i) (by omega) (get_right e0) (get_right e1) (by simp) (by simp)
    · obtain ⟨_, b, rfl, h⟩ := (events_copy (List.mem_of_getElem? hp')).1 h2
      have hwt := waiting_of_queued hw h
      rcases back i hi with h | ⟨h, _⟩
      · rw [hwt] at h; cases h
      · cases h
  · intro p q e f i hp h1 h2 hq h3 h4
    rcases get_cases hq with hq' | ⟨k', rfl, hq'⟩
    · rcases get_cases hp with hp' | ⟨k, rfl, hp'⟩
      · exact (g.order p q e f i hp' h1 h2 hq' h3 h4).append
      · obtain ⟨_, b, rfl, h⟩ := (events_copy (List.mem_of_getElem? hp')).1 h2
        have a := waiting_of_queued hw h
        rw [g.used f (List.mem_of_getElem? hq') i h3 h4] at a
        cases a
    · rcases h4 with h4 | h4
      · exact absurd h4 (events_copy (List.mem_of_getElem? hq')).2
      · have := ((events_copy (List.mem_of_getElem? hq')).1 h4).1
        rw [h3] at this; cases this

theorem copies_step {s s' : Sys} {l : Lab} (g : Copies s) (hw : Waits s.loop.rest) (hs : step s l = some s') : Copies s' := by
  have one : ∀ (e : Event) (b : Nat), (∀ i, e.who = .loop → .copy i ∉ e.writes) → (∀ i, e.who = .handler i → .copy i ∈ e.reads ∨ .copy i ∈ e.writes → s.loop.rest.req i = .answered) →
      Copies { s with boot := b, log := s.log ++ [e] } := by
    intro e b h h'
    constructor
    · intro f hf i h1 h2
      rcases List.mem_append.1 hf with hf | hf
      · exact g.made f hf i h1 h2
      · cases List.mem_singleton.1 hf; exact absurd h2 (h i h1)
    · intro f hf i h1 h2
      rcases List.mem_append.1 hf with hf | hf
      · exact g.used f hf i h1 h2
      · cases List.mem_singleton.1 hf; exact h' i h1 h2
    · intro i hi p f hp h1 h2
      rcases get_cases hp with hp' | ⟨k, rfl, hp'⟩
      · obtain ⟨k, f', a, b, c⟩ := g.passed i hi p f hp' h1 h2
        exact ⟨k, f', get_left a, b, c.append⟩
      · cases List.mem_singleton.1 (List.mem_of_getElem? hp'); exact absurd h2 (h i h1)
    · intro p q f f' i hp h1 h2 hq h3 h4
      rcases get_cases hp with hp' | ⟨k, rfl, hp'⟩
      · rcases get_cases hq with hq' | ⟨k, rfl, hq'⟩
        · exact (g.order p q f f' i hp' h1 h2 hq' h3 h4).append
        · cases List.mem_singleton.1 (List.mem_of_getElem? hq')
          obtain ⟨k', f', a, b, c⟩ := g.passed i (h' i h3 h4) p f hp' h1 h2
          exact .trans c.append (.same (by have := get_lt a; omega) (get_left a) hq (b.trans h3.symm))
      · cases List.mem_singleton.1 (List.mem_of_getElem? hp'); exact absurd h2 (h i h1)
  cases l with
  | go l =>
    simp only [step] at hs
    split at hs <;> [skip; cases hs]
    obtain ⟨z, hz, rfl⟩ := Option.map_eq_some_iff.1 hs
    exact copies_go g hw hz
  | render i =>
    simp only [step] at hs
    split at hs <;> cases hs
    · rename_i h
      exact one _ s.boot (by simp) (by intro j hj _; cases hj; exact h)
    · exact one _ s.boot (by simp) (by simp)
  | closeHTTP =>
    simp only [step] at hs
    split at hs <;> cases hs
    exact one _ s.boot (by simp) (by simp)
  | serve | serving | started =>
    simp only [step] at hs
    split at hs <;> cases hs
    exact one _ _ (by simp) (by simp)

/-! ### `stopHTTP` -/

/-- the server's writing of `stopHTTP`. -/
def Sets (E : List Event) (p : Nat) : Prop := ∃ e, E[p]? = some e ∧ e.who = .server ∧ .stopHTTP ∈ e.writes

structure Closing (s : Sys) : Prop where
  stopper : ∀ e ∈ s.log, e.who = .stopper → s.loop.rest.stop ≠ .notCalled
  there : s.loop.rest.stop ≠ .notCalled → s.boot = 3 ∧ ∃ (q : Nat) (f : Event), s.log[q]? = some f ∧ f.who = .stopper
  wrote : ∀ e ∈ s.log, e.who = .server → .stopHTTP ∈ e.writes → 2 ≤ s.boot ∧ .started ∈ e.sends
  back : s.boot = 3 → ∃ (b : Nat) (f : Event), s.log[b]? = some f ∧ f.who = .start ∧ ∀ p, Sets s.log p → Before s.log p b
  order : ∀ (p q : Nat) (f : Event), Sets s.log p → s.log[q]? = some f → f.who = .stopper → Before s.log p q

theorem sets_old {E F : List Event} (h : ∀ e ∈ F, .stopHTTP ∉ e.writes) {p : Nat} (hp : Sets (E ++ F) p) : Sets E p := by
  obtain ⟨e, h1, h2, h3⟩ := hp
  rcases get_cases h1 with h1 | ⟨k, rfl, h1⟩
  · exact ⟨e, h1, h2, h3⟩
  · exact absurd h3 (h e (List.mem_of_getElem? ‹F[k]? = some e›))

theorem Sets.lt {E : List Event} {p : Nat} (hp : Sets E p) : p < E.length := by
  obtain ⟨e, h1, _⟩ := hp
  exact get_lt h1

/-- steps that do not write `stopHTTP`. -/
theorem Closing.grow {s s' : Sys} {es : List Event} (g : Closing s) (hE : s'.log = s.log ++ es) (hb : s'.boot = s.boot) (h0 : ∀ e ∈ es, .stopHTTP ∉ e.writes)
    (h1 : s.loop.rest.stop ≠ .notCalled → s'.loop.rest.stop ≠ .notCalled)
    (h2 : (∀ e ∈ es, e.who ≠ .stopper) ∧ (s'.loop.rest.stop ≠ .notCalled → s.loop.rest.stop ≠ .notCalled) ∨ s.loop.rest.stop ≠ .notCalled ∨
      s.boot = 3 ∧ s'.loop.rest.stop ≠ .notCalled ∧ es = [{ who := .start, starts := some .stopper }, { who := .stopper, reads := [.setup] }]) : Closing s' where
  stopper e he hw := by
    rw [hE] at he
    rcases List.mem_append.1 he with he | he
    · exact h1 (g.stopper e he hw)
    · rcases h2 with ⟨h, _⟩ | h | ⟨_, h, _⟩
      · exact absurd hw (h e he)
      · exact h1 h
      · exact h
  there h := by
    rw [hb, hE]
    have old : s.loop.rest.stop ≠ .notCalled → s.boot = 3 ∧ ∃ (q : Nat) (f : Event), (s.log ++ es)[q]? = some f ∧ f.who = .stopper := by
      intro h
      obtain ⟨a, q, f, b, c⟩ := g.there h
      exact ⟨a, q, f, get_left b, c⟩
    rcases h2 with ⟨_, h'⟩ | h' | ⟨h', _, rfl⟩
    · exact old (h' h)
    · exact old h'
    · exact ⟨h', s.log.length + 1, _, get_right rfl, rfl⟩
  wrote e he h3 h4 := by
    rw [hE] at he
    rw [hb]
    rcases List.mem_append.1 he with he | he
    · exact g.wrote e he h3 h4
    · exact absurd h4 (h0 e he)
  back h := by
    rw [hb] at h
    obtain ⟨b, f, c, d, e⟩ := g.back h
    rw [hE]
    exact ⟨b, f, get_left c, d, fun p hp => (e p (sets_old h0 hp)).append⟩
  order p q f hp hq hw := by
    rw [hE] at hp hq ⊢
    have hp := sets_old h0 hp
    rcases get_cases hq with hq' | ⟨k, rfl, hq'⟩
    · exact (g.order p q f hp hq' hw).append
    · rcases h2 with ⟨h, _⟩ | h | ⟨h, _, he⟩
      · exact absurd hw (h f (List.mem_of_getElem? hq'))
      · obtain ⟨_, q', f', b, c⟩ := g.there h
        exact .trans (g.order p q' f' hp b c).append (.same (by have := get_lt b; omega) (get_left b) hq (c.trans hw.symm))
      · obtain ⟨b, f', c, d, e⟩ := g.back h
        have hb' := get_lt c
        have e0 : es[0]? = some { who := .start, starts := some .stopper } := by rw [he]; rfl
        have hk : k ≠ 0 := by
          rintro rfl
          rw [e0] at hq'
          cases hq'
          cases hw
        refine .trans (e p hp).append (.trans (j := s.log.length + 0) (.same (by omega) (get_left c) (get_right e0) d) ?_)
        exact .start (by omega) (get_right e0) hq (by rw [hw])

theorem closing_step {s s' : Sys} {l : Lab} (g : Closing s) (hs : step s l = some s') : Closing s' := by
  cases l with
  | serve =>
    simp only [step] at hs
    split at hs <;> cases hs
    rename_i hb
    have hn : s.loop.rest.stop = .notCalled := by
      by_contra h; have := (g.there h).1; omega
    have h0 : ∀ e ∈ [({ who := .start, starts := some .server } : Event)], .stopHTTP ∉ e.writes := by simp
    constructor
    · intro e he hw
      rcases List.mem_append.1 he with he | he
      · exact g.stopper e he hw
      · cases List.mem_singleton.1 he; cases hw
    · intro h; exact absurd hn h
    · intro e he h3 h4
      rcases List.mem_append.1 he with he | he
      · have := (g.wrote e he h3 h4).1; omega
      · cases List.mem_singleton.1 he; cases h3
    · intro h; simp at h
    · intro p q f hp hq hw
      obtain ⟨e, h1, h2, h3⟩ := sets_old h0 hp
      have := (g.wrote e (List.mem_of_getElem? h1) h2 h3).1
      omega
  | serving =>
    simp only [step] at hs
    split at hs <;> cases hs
    rename_i hb
    have hn : s.loop.rest.stop = .notCalled := by
      by_contra h; have := (g.there h).1; omega
    have hns : ∀ e ∈ s.log ++ [({ who := .server, reads := [.setup], writes := [.stopHTTP], sends := [.started] } : Event)], e.who ≠ .stopper := by
      intro e he hw
      rcases List.mem_append.1 he with he | he
      · exact g.stopper e he hw hn
      · cases List.mem_singleton.1 he; cases hw
    constructor
    · intro e he hw; exact absurd hw (hns e he)
    · intro h; exact absurd hn h
    · intro e he h3 h4
      rcases List.mem_append.1 he with he | he
      · have := (g.wrote e he h3 h4).1; omega
      · cases List.mem_singleton.1 he; simp
    · intro h; simp at h
    · intro p q f hp hq hw
      exact absurd hw (hns f (List.mem_of_getElem? hq))
  | started =>
    simp only [step] at hs
    split at hs <;> cases hs
    rename_i hb
    have hn : s.loop.rest.stop = .notCalled := by
      by_contra h; have := (g.there h).1; omega
    have h0 : ∀ e ∈ [({ who := .start, receives := [.started] } : Event)], .stopHTTP ∉ e.writes := by simp
    constructor
    · intro e he hw
      rcases List.mem_append.1 he with he | he
      · exact g.stopper e he hw
      · cases List.mem_singleton.1 he; cases hw
    · intro h; exact absurd hn h
    · intro e he h3 h4
      rcases List.mem_append.1 he with he | he
      · exact ⟨by simp, (g.wrote e he h3 h4).2⟩
      · cases List.mem_singleton.1 he; cases h3
    · intro _
      refine ⟨s.log.length + 0, _, get_right rfl, rfl, fun p hp => ?_⟩
      obtain ⟨e, h1, h2, h3⟩ := sets_old h0 hp
      exact .message (m := .started) (by have := get_lt h1; omega) (get_left h1) (get_right rfl) (g.wrote e (List.mem_of_getElem? h1) h2 h3).2 (by simp)
    · intro p q f hp hq hw
      exfalso
      rcases List.mem_append.1 (List.mem_of_getElem? hq) with he | he
      · exact g.stopper f he hw hn
      · cases List.mem_singleton.1 he; cases hw
  | go l =>
    simp only [step] at hs
    split at hs <;> [skip; cases hs]
    rename_i ha
    obtain ⟨z, hz, rfl⟩ := Option.map_eq_some_iff.1 hs
    have hr := (rest_step hz).2
    have hkeep : s.loop.rest.stop ≠ .notCalled → z.rest.stop ≠ .notCalled := by
      intro h
      rcases hr with h1 | ⟨_, h1⟩ | ⟨_, _, h1⟩ | ⟨_, _, h1⟩
      · rw [h1]; exact h
      · exact absurd h1 h
      · rw [h1]; simp
      · rw [h1]; simp
    refine g.grow (es := events s.loop l) rfl rfl (fun e he => (events_close he).1) hkeep ?_
    have st : ∀ {l' : HdLoop.Lab}, l = .other l' → l' = .acceptStop ∨ l' = .stopped → s.loop.rest.stop ≠ .notCalled := by
      rintro l' rfl (rfl | rfl)
      · simp only [Rounds.step, Rounds.aboutPolls, Bool.false_eq_true, if_false, HdLoop.step] at hz
        split at hz <;> [skip; cases hz]
        rename_i hh
        rw [hh.2]; simp
      · simp only [Rounds.step, Rounds.aboutPolls, Bool.false_eq_true, if_false, HdLoop.step] at hz
        split at hz <;> [skip; cases hz]
        rename_i hh
        rw [hh.2]; simp
    by_cases hl : l = .other .stop
    · subst hl
      simp only [allowed, decide_eq_true_eq] at ha
      refine .inr (.inr ⟨ha, ?_, rfl⟩)
      simp only [Rounds.step, Rounds.aboutPolls, Bool.false_eq_true, if_false, HdLoop.step] at hz
      split at hz <;> cases hz
      simp
    · by_cases h2 : l = .other .acceptStop
      · exact .inr (.inl (st h2 (.inl rfl)))
      · by_cases h3 : l = .other .stopped
        · exact .inr (.inl (st h3 (.inr rfl)))
        · refine .inl ⟨fun e he hw => ?_, fun h => ?_⟩
          · rcases (events_close he).2 hw with h | h | h
            · exact hl h
            · exact h2 h
            · exact h3 h
          · have h : z.rest.stop ≠ .notCalled := h
            rcases hr with h1 | ⟨h1, _⟩ | ⟨h1, _⟩ | ⟨h1, _⟩
            · rw [h1] at h; exact h
            · exact absurd h1 hl
            · exact absurd h1 h2
            · exact absurd h1 h3
  | render i =>
    simp only [step] at hs
    split at hs <;> cases hs
    all_goals exact g.grow (es := [_]) rfl rfl (by simp) id (.inl ⟨by simp, id⟩)
  | closeHTTP =>
    simp only [step] at hs
    split at hs <;> cases hs
    rename_i h
    exact g.grow (es := [_]) rfl rfl (by simp) id (.inr (.inl (by rw [h]; simp)))

/-! ### No races -/

def Shaped (E : List Event) : Prop := ∀ (j : Nat) (e : Event), E[j]? = some e → j ≠ 0 → Shape e

theorem Shaped.append {E F : List Event} (h : Shaped E) (hF : ∀ e ∈ F, Shape e) : Shaped (E ++ F) := by
  intro j e hj h0
  rcases get_cases hj with hj' | ⟨k, rfl, hj'⟩
  · exact h j e hj' h0
  · exact hF e (List.mem_of_getElem? hj')

structure Good (hosts : List Str) (s : Sys) : Prop where
  inv : Rounds.Inv hosts s.loop
  waits : Waits s.loop.rest
  alive : Alive s
  shaped : Shaped s.log
  responses : Responses s
  copies : Copies s
  closing : Closing s

theorem good_init (clock : Int) (hosts : List Str) : Good hosts (init clock hosts) where
  inv := Rounds.inv_init clock hosts
  waits := by intro i; simp [pending, init, Rounds.init, HdLoop.init]
  alive := alive_init clock hosts
  shaped := by
    intro j e hj h0
    match j, hj with
    | 0, _ => exact absurd rfl h0
    | 1, hj => cases hj; simp [Shape, mayRead]
    | j + 2, hj => cases hj
  responses := by
    constructor
    · intro e he r hp hx
      simp [init] at he
      rcases he with rfl | rfl <;> simp at hx
    · intro e he r hp hx
      simp [init] at he
      rcases he with rfl | rfl <;> simp at hx
    · intro p q e f r hp hp1 hx hq hy
      have hf := List.mem_of_getElem? hq
      simp [init] at hf
      rcases hf with rfl | rfl <;> simp at hy
  copies := by
    constructor
    · intro e he i h1 h2
      simp [init] at he
      rcases he with rfl | rfl <;> simp at h1 h2
    · intro e he i h1 h2
      simp [init] at he
      rcases he with rfl | rfl <;> simp at h1
    · intro i h
      simp [init, Rounds.init, HdLoop.init] at h
    · intro p q e f i _ _ _ hq h3
      have hf := List.mem_of_getElem? hq
      simp [init] at hf
      rcases hf with rfl | rfl <;> simp at h3
  closing := by
    constructor
    · intro e he h1
      simp [init] at he
      rcases he with rfl | rfl <;> simp at h1
    · intro h; simp [init, Rounds.init, HdLoop.init] at h
    · intro e he h1
      simp [init] at he
      rcases he with rfl | rfl <;> simp at h1
    · intro h; simp [init] at h
    · intro p q f _ hq h1
      have hf := List.mem_of_getElem? hq
      simp [init] at hf
      rcases hf with rfl | rfl <;> simp at h1

theorem good_step {hosts : List Str} (hh : hosts.Nodup) {s s' : Sys} {l : Lab} (g : Good hosts s) (hs : step s l = some s') : Good hosts s' := by
  have hl : (s'.loop = s.loop ∨ ∃ l', Rounds.step s.loop l' = some s'.loop) ∧ ∃ es, s'.log = s.log ++ es ∧ ∀ e ∈ es, Shape e := by
    cases l with
    | go l =>
      simp only [step] at hs
      split at hs <;> [skip; cases hs]
      obtain ⟨z, hz, rfl⟩ := Option.map_eq_some_iff.1 hs
      exact ⟨.inr ⟨l, hz⟩, _, rfl, shape_events _ _⟩
    | render i =>
      simp only [step] at hs
      split at hs <;> cases hs
      all_goals exact ⟨.inl rfl, _, rfl, by simp [Shape, mayRead, mayWrite]⟩
    | _ =>
      simp only [step] at hs
      split at hs <;> cases hs
      exact ⟨.inl rfl, _, rfl, by simp [Shape, mayRead, mayWrite]⟩
  obtain ⟨h1, es, h2, h3⟩ := hl
  exact {
    inv := by
      rcases h1 with h | ⟨l', h⟩
      · rw [h]; exact g.inv
      · exact Rounds.step_inv g.inv h
    waits := by
      rcases h1 with h | ⟨l', h⟩
      · rw [h]; exact g.waits
      · exact waits_step g.waits h
    alive := alive_step g.alive g.waits hs
    shaped := by rw [h2]; exact g.shaped.append h3
    responses := responses_step hh g.responses g.inv hs
    copies := copies_step g.copies g.waits hs
    closing := closing_step g.closing hs }

theorem good_run {hosts : List Str} (hh : hosts.Nodup) {clock : Int} {s : Sys} {l : List Lab} (h : run (init clock hosts) l = some s) : Good hosts s := by
  have : ∀ (l : List Lab) (s0 s : Sys), Good hosts s0 → run s0 l = some s → Good hosts s := by
    intro l
    induction l with
    | nil => intro s0 s g h; cases h; exact g
    | cons x t ih =>
      intro s0 s g h
      unfold run at h
      rw [List.foldlM_cons] at h
      obtain ⟨z, hz, h⟩ := Option.bind_eq_some_iff.1 h
      exact ih z s (good_step hh g hz) h
  exact this l _ s (good_init clock hosts) h

/-- **C123**, partial (without the duration of the intervals, for which it is false): whatever healthd's goroutines do, accesses in conflict happen one before the other, except that the handlers of requests read the duration of the
intervals while the aggregation goroutine may be writing it. -/
theorem C123_only_duration_partial {clock : Int} {hosts : List Str} (hh : hosts.Nodup) {l : List Lab} {s : Sys} (h : run (init clock hosts) l = some s) {x : Loc} {i j : Nat}
    (hr : DataRace s.log x i j) : x = .intervalDuration ∧ ∃ (a b : Event) (n : Nat), s.log[i]? = some a ∧ s.log[j]? = some b ∧
      (a.who = .loop ∧ .intervalDuration ∈ a.writes ∧ b.who = .handler n ∨ b.who = .loop ∧ .intervalDuration ∈ b.writes ∧ a.who = .handler n) := by
  have g := good_run hh h
  obtain ⟨a, b, hij, ha, hb, hc, hnb⟩ := hr
  have hi : i ≠ 0 := by
    rintro rfl
    exact hnb (g.alive.born.first j b hb (by omega))
  have hne : a.who ≠ b.who := fun e => hnb (.same hij ha hb e)
  obtain ⟨wa, ra⟩ := g.shaped i a ha hi
  obtain ⟨wb, rb⟩ := g.shaped j b hb (by omega)
  -- one of the two writes, the other reads or writes
  have key : ∀ {p q : Nat} {e f : Event}, s.log[p]? = some e → s.log[q]? = some f → Shape e → Shape f → e.who ≠ f.who → x ∈ e.writes → (x ∈ f.reads ∨ x ∈ f.writes) →
      x = .intervalDuration ∧ e.who = .loop ∧ (∃ n, f.who = .handler n) ∨ Before s.log p q ∨ Before s.log q p := by
    intro p q e f hp hq se sf hne he hf
    have hw := se.1 x he
    have hrw : mayRead f.who x = true ∨ mayWrite f.who x = true := hf.imp (sf.2 x) (sf.1 x)
    cases x with
    | setup => cases hE : e.who <;> rw [hE] at hw <;> cases hw
    | hostPort hp => cases hE : e.who <;> rw [hE] at hw <;> cases hw
    | status hp | hostAggregations | needing | maxIntervals | series =>
      cases hE : e.who <;> rw [hE] at hw hne <;> simp [mayWrite] at hw
      cases hF : f.who <;> rw [hF] at hrw hne <;> simp [mayRead, mayWrite] at hrw hne
    | intervalDuration =>
      cases hE : e.who <;> rw [hE] at hw hne <;> simp [mayWrite] at hw
      cases hF : f.who <;> rw [hF] at hrw hne <;> simp [mayRead, mayWrite] at hrw hne
      exact .inl ⟨rfl, rfl, _, rfl⟩
    | stopHTTP =>
      cases hE : e.who <;> rw [hE] at hw hne <;> simp [mayWrite] at hw
      cases hF : f.who <;> rw [hF] at hrw hne <;> simp [mayRead, mayWrite] at hrw hne
      exact .inr (.inl (g.closing.order p q f ⟨e, hp, hE, he⟩ hq hF))
    | response r hp' =>
      cases hE : e.who <;> rw [hE] at hw hne <;> simp [mayWrite] at hw
      obtain ⟨rfl, rfl⟩ := hw
      cases hF : f.who <;> rw [hF] at hrw hne <;> simp [mayRead, mayWrite] at hrw hne
      · rcases hf with hf | hf
        · exact .inr (.inl (g.responses.order p q e f _ _ hp he hq hf))
        · have := sf.1 _ hf
          rw [hF] at this; cases this
      · exact absurd hrw.2.symm (hne hrw.1.symm)
    | copy n =>
      cases hE : e.who <;> rw [hE] at hw hne <;> simp [mayWrite] at hw
      · cases hF : f.who <;> rw [hF] at hrw hne <;> simp [mayRead, mayWrite] at hrw hne
        subst hrw
        exact .inr (.inl (g.copies.order p q e f _ hp hE he hq hF hf))
      · subst hw
        cases hF : f.who <;> rw [hF] at hrw hne <;> simp [mayRead, mayWrite] at hrw hne
        · rcases hf with hf | hf
          · have := sf.2 _ hf
            rw [hF] at this; cases this
          · exact .inr (.inr (g.copies.order q p f e _ hq hF hf hp hE (.inr he)))
        · exact absurd hrw.symm hne
  have no : ∀ {p q : Nat}, p = i ∧ q = j ∨ p = j ∧ q = i → Before s.log p q → False := by
    rintro p q (⟨rfl, rfl⟩ | ⟨rfl, rfl⟩) hb
    · exact hnb hb
    · have := hb.lt; omega
  rcases hc with ⟨h1, h2⟩ | ⟨h1, h2⟩
  · rcases key ha hb ⟨wa, ra⟩ ⟨wb, rb⟩ hne h1 h2 with ⟨rfl, e1, n, e2⟩ | hbf | hbf
    · exact ⟨rfl, a, b, n, ha, hb, .inl ⟨e1, h1, e2⟩⟩
    · exact absurd hbf (fun h => no (.inl ⟨rfl, rfl⟩) h)
    · exact absurd hbf (fun h => no (.inr ⟨rfl, rfl⟩) h)
  · rcases key hb ha ⟨wb, rb⟩ ⟨wa, ra⟩ (Ne.symm hne) h1 (.inl h2) with ⟨rfl, e1, n, e2⟩ | hbf | hbf
    · exact ⟨rfl, a, b, n, ha, hb, .inr ⟨e1, h1, e2⟩⟩
    · exact absurd hbf (fun h => no (.inr ⟨rfl, rfl⟩) h)
    · exact absurd hbf (fun h => no (.inl ⟨rfl, rfl⟩) h)

/-! ### The race -/

/-- an event after which its goroutine neither starts nor sends anything happens before nothing. -/
theorem nothing_after {G X M : Type} {E : List (Spec.Event G X M)} {i : Nat} {a : Spec.Event G X M} (ha : E[i]? = some a) (h1 : a.sends = []) (h2 : a.starts = none)
    (h3 : ∀ k b, i < k → E[k]? = some b → b.who ≠ a.who) {j : Nat} : ¬ Before E i j := by
  intro h
  have : ∀ {p q : Nat}, Before E p q → p = i → False := by
    intro p q h
    induction h with
    | same hlt hp hq e => rintro rfl; rw [ha] at hp; cases hp; exact h3 _ _ hlt hq e.symm
    | start hlt hp hq e => rintro rfl; rw [ha] at hp; cases hp; rw [h2] at e; cases e
    | message hlt hp hq e => rintro rfl; rw [ha] at hp; cases hp; rw [h1] at e; cases e
    | trans _ _ h => exact h
  exact this h rfl

namespace Sample
def host : Str := bs "h"

/-- a request is answered, and its handler reads the duration; then the first response of a host comes, which sets it; later somebody stops healthd. -/
def race : List Lab := [.serve, .serving, .started, .go (.spawn 0 host), .go (.other (.call 0)), .go (.other (.enqueue 0 false)), .go (.other (.accept false)), .go (.other .reply),
  .render 0, .go (.deliver 0 host), .go .consume, .go (.other .request), .go (.other .stop), .go (.other .acceptStop), .go (.other .stopped), .closeHTTP]

def log : List Event := ((run (init 5 [host]) race).map (·.log)).getD []
end Sample

/-- **C123**: the exception is real: a handler reads the duration of the intervals, the aggregation goroutine writes it when the first response comes, and nothing
puts one before the other. -/
theorem C123_race_false : ∃ s, run (init 5 [Sample.host]) Sample.race = some s ∧ DataRace s.log .intervalDuration 13 15 := by
  obtain ⟨s, hs⟩ : ∃ s, run (init 5 [Sample.host]) Sample.race = some s := Option.isSome_iff_exists.1 (by decide +kernel)
  refine ⟨s, hs, ?_⟩
  have e : s.log = Sample.log := by unfold Sample.log; rw [hs]; rfl
  rw [e]
  obtain ⟨a, ha, a1, a2, a3, a4⟩ : ∃ a, Sample.log[13]? = some a ∧ a.who = .handler 0 ∧ .intervalDuration ∈ a.reads ∧ a.sends = [] ∧ a.starts = none := by
    have h : (Sample.log[13]?).any (fun a => a.who = .handler 0 ∧ .intervalDuration ∈ a.reads ∧ a.sends = [] ∧ a.starts = none) = true := by decide +kernel
    obtain ⟨a, h1, h2⟩ := (Option.any_eq_true _ _).1 h
    exact ⟨a, h1, of_decide_eq_true h2⟩
  obtain ⟨b, hb, b1⟩ : ∃ b, Sample.log[15]? = some b ∧ .intervalDuration ∈ b.writes := by
    have h : (Sample.log[15]?).any (fun a => .intervalDuration ∈ a.writes) = true := by decide +kernel
    obtain ⟨a, h1, h2⟩ := (Option.any_eq_true _ _).1 h
    exact ⟨a, h1, of_decide_eq_true h2⟩
  refine ⟨a, b, by omega, ha, hb, .inr ⟨b1, a2⟩, nothing_after ha a3 a4 (fun k c hk hc => ?_)⟩
  have h : (Sample.log.drop 14).all (fun c => c.who ≠ .handler 0) = true := by decide +kernel
  have hm : c ∈ Sample.log.drop 14 := List.mem_of_getElem? (i := k - 14) (by rw [List.getElem?_drop, show 14 + (k - 14) = k by omega]; exact hc)
  rw [a1]
  exact of_decide_eq_true (List.all_eq_true.1 h c hm)

/-- a case of `C123_only_duration_partial`: polls, requests and `Stop` beside each other. -/
example : [Sample.host].Nodup ∧ ∃ s, run (init 5 [Sample.host]) Sample.race = some s ∧ s.log.length = 24 ∧ s.loop.rest.stop = .returned := by
  refine ⟨by simp, ?_⟩
  have h : (run (init 5 [Sample.host]) Sample.race).any (fun s => s.log.length = 24 ∧ s.loop.rest.stop = .returned) = true := by decide +kernel
  obtain ⟨s, h1, h2⟩ := (Option.any_eq_true _ _).1 h
  exact ⟨s, h1, of_decide_eq_true h2⟩

end HdMem
