import Verif.Spec.Watch
import Verif.Props.PollRounds
import Verif.Lemmas.HealthdAll
/-!
# Lemmas: healthd watching processes
-/
namespace Watch
open Spec Healthd

theorem snoc_split {α : Type} {l u v : List α} {z w : α} (h : l ++ [z] = u ++ w :: v) :
    (v = [] ∧ u = l ∧ w = z) ∨ ∃ v', v = v' ++ [z] ∧ l = u ++ w :: v' := by
  rcases List.eq_nil_or_concat v with rfl | ⟨v', y, rfl⟩
  · obtain ⟨e1, e2⟩ := List.append_inj' h rfl
    cases e2
    exact .inl ⟨rfl, e1.symm, rfl⟩
  · rw [List.concat_eq_append, ← List.cons_append, ← List.append_assoc] at h
    obtain ⟨e1, e2⟩ := List.append_inj' h rfl
    cases e2
    exact .inr ⟨v', by simp, e1⟩

/-- two places in a list. -/
theorem two_places {α : Type} {a b c d : List α} {x y : α} (h : a ++ x :: b = c ++ y :: d) :
    (a = c ∧ x = y) ∨ (∃ e, c = a ++ x :: e ∧ y ∈ b) ∨ (∃ e, a = c ++ y :: e ∧ x ∈ d) := by
  rcases List.append_eq_append_iff.1 h with ⟨e, rfl, h2⟩ | ⟨e, rfl, h2⟩
  · cases e with
    | nil =>
      simp only [List.nil_append, List.cons.injEq] at h2
      exact .inl ⟨by simp, h2.1⟩
    | cons z e =>
      simp only [List.cons_append, List.cons.injEq] at h2
      obtain ⟨rfl, rfl⟩ := h2
      exact .inr (.inl ⟨e, rfl, by simp⟩)
  · cases e with
    | nil =>
      simp only [List.nil_append, List.cons.injEq] at h2
      exact .inl ⟨by simp, h2.1.symm⟩
    | cons z e =>
      simp only [List.cons_append, List.cons.injEq] at h2
      obtain ⟨rfl, rfl⟩ := h2
      exact .inr (.inr ⟨e, rfl, by simp⟩)

/-! ## Histories -/

theorem histOf_append (i : Nat) (a b : List Item) : histOf i (a ++ b) = histOf i a ++ histOf i b := List.filterMap_append ..
theorem ticks_append (a b : List Item) : ticks (a ++ b) = ticks a + ticks b := List.countP_append ..

theorem histOf_prefix (i : Nat) {a b : List Item} (h : a <+: b) : histOf i a <+: histOf i b := by
  obtain ⟨c, rfl⟩ := h
  rw [histOf_append]
  exact List.prefix_append ..

theorem inTime_snoc {hosts : List Str} {past : List Item} {x : Item} (h : InTime hosts (past ++ [x])) : InTime hosts past := by
  intro a b e
  exact h a (b ++ [x]) (by simp [e])

/-! ## One step of the loop -/

def news : Rounds.Lab → List Rounds.Msg
  | .deliver r hp => [(r, some hp)]
  | .finish r => [(r, none)]
  | _ => []

theorem loop_log {s s' : Rounds.Sys} {l : Rounds.Lab} (h : Rounds.step s l = some s') : s'.log = s.log ++ news l := by
  unfold Rounds.Sys.log
  cases l with
  | tick => simp only [Rounds.step] at h; split at h <;> cases h; simp [news]
  | spawn r hp => simp only [Rounds.step] at h; split at h <;> [skip; cases h]; split at h <;> cases h; simp [news]
  | deliver r hp => simp only [Rounds.step] at h; split at h <;> [skip; cases h]; split at h <;> cases h; simp [news]
  | finish r => simp only [Rounds.step] at h; split at h <;> [skip; cases h]; split at h <;> cases h; simp [news]
  | consume => simp only [Rounds.step] at h; split at h <;> [skip; cases h]; split at h <;> cases h; rename_i e _; simp [news, e]
  | allIn => simp only [Rounds.step] at h; split at h <;> [skip; cases h]; split at h <;> cases h; rename_i e _; simp [news, e]
  | other l =>
    simp only [Rounds.step] at h
    split at h <;> [cases h; skip]
    obtain ⟨z, _, rfl⟩ := Option.map_eq_some_iff.1 h
    simp [news]

theorem loop_tick {s s' : Rounds.Sys} (h : Rounds.step s .tick = some s') : s'.rounds = s.rounds ++ [⟨s.hosts, [], false⟩] := by
  simp only [Rounds.step] at h; split at h <;> cases h; rfl

/-- other steps begin no round, and polls that are done stay done. -/
theorem loop_rounds {s s' : Rounds.Sys} {l : Rounds.Lab} (h : Rounds.step s l = some s') (hl : l ≠ .tick) : s'.rounds.length = s.rounds.length ∧
    ∀ (r : Nat) (x' : Rounds.Round), s'.rounds[r]? = some x' → ∃ x : Rounds.Round, s.rounds[r]? = some x ∧ (x.unspawned = [] ∧ x.polling = [] → x'.unspawned = [] ∧ x'.polling = []) := by
  have hset : ∀ (r : Nat) (x y : Rounds.Round), s.rounds[r]? = some x → (x.unspawned = [] ∧ x.polling = [] → y.unspawned = [] ∧ y.polling = []) →
      (Rounds.setRound s.rounds r y).length = s.rounds.length ∧ ∀ (r' : Nat) (x' : Rounds.Round), (Rounds.setRound s.rounds r y)[r']? = some x' →
        ∃ x : Rounds.Round, s.rounds[r']? = some x ∧ (x.unspawned = [] ∧ x.polling = [] → x'.unspawned = [] ∧ x'.polling = []) := by
    intro r x y hx hxy
    refine ⟨by simp [Rounds.setRound], ?_⟩
    intro r' x' h'
    rw [Rounds.get_set hx] at h'
    split at h'
    · rename_i e; subst e; cases h'; exact ⟨x, hx, hxy⟩
    · exact ⟨x', h', id⟩
  cases l with
  | tick => exact absurd rfl hl
  | spawn r hp =>
    simp only [Rounds.step] at h; split at h <;> [skip; cases h]; rename_i x hx; split at h <;> cases h
    rename_i hm
    exact hset r x _ hx (fun e => by rw [e.1] at hm; cases hm)
  | deliver r hp =>
    simp only [Rounds.step] at h; split at h <;> [skip; cases h]; rename_i x hx; split at h <;> cases h
    rename_i hm
    exact hset r x _ hx (fun e => by rw [e.2] at hm; cases hm.1)
  | finish r =>
    simp only [Rounds.step] at h; split at h <;> [skip; cases h]; rename_i x hx; split at h <;> cases h
    exact hset r x _ hx id
  | consume => simp only [Rounds.step] at h; split at h <;> [skip; cases h]; split at h <;> cases h; exact ⟨rfl, fun r x' e => ⟨x', e, id⟩⟩
  | allIn => simp only [Rounds.step] at h; split at h <;> [skip; cases h]; split at h <;> cases h; exact ⟨rfl, fun r x' e => ⟨x', e, id⟩⟩
  | other l =>
    simp only [Rounds.step] at h
    split at h <;> [cases h; skip]
    obtain ⟨z, _, rfl⟩ := Option.map_eq_some_iff.1 h
    exact ⟨rfl, fun r x' e => ⟨x', e, id⟩⟩

theorem loop_deliver {s s' : Rounds.Sys} {r : Nat} {hp : Str} (h : Rounds.step s (.deliver r hp) = some s') :
    (∃ x, s.rounds[r]? = some x ∧ hp ∈ x.polling) ∧ s'.chan = s.chan ++ [(r, some hp)] ∧ s'.taken = s.taken := by
  simp only [Rounds.step] at h; split at h <;> [skip; cases h]; rename_i x hx; split at h <;> cases h
  rename_i hm
  exact ⟨⟨x, hx, hm.1⟩, rfl, rfl⟩

theorem loop_finish {s s' : Rounds.Sys} {r : Nat} (h : Rounds.step s (.finish r) = some s') : s'.chan = s.chan ++ [(r, none)] ∧ s'.taken = s.taken := by
  simp only [Rounds.step] at h; split at h <;> [skip; cases h]; split at h <;> cases h; exact ⟨rfl, rfl⟩

theorem loop_consume {s s' : Rounds.Sys} (h : Rounds.step s .consume = some s') : ∃ r hp, s.chan = (r, some hp) :: s'.chan ∧ s'.taken = s.taken ++ [(r, some hp)] := by
  simp only [Rounds.step] at h; split at h <;> [skip; cases h]; rename_i r hp q e; split at h <;> cases h; exact ⟨r, hp, e, rfl⟩

theorem loop_allIn {s s' : Rounds.Sys} (h : Rounds.step s .allIn = some s') : ∃ r, s.chan = (r, none) :: s'.chan ∧ s'.taken = s.taken ++ [(r, none)] := by
  simp only [Rounds.step] at h; split at h <;> [skip; cases h]; rename_i r q e; split at h <;> cases h; exact ⟨r, e, rfl⟩

theorem loop_quiet {s s' : Rounds.Sys} {l : Rounds.Lab} (h : Rounds.step s l = some s') (hl : quiet l = true ∨ l = .tick ∨ l = .other .fire) :
    s'.chan = s.chan ∧ s'.taken = s.taken := by
  cases l with
  | tick => simp only [Rounds.step] at h; split at h <;> cases h; exact ⟨rfl, rfl⟩
  | spawn r hp => simp only [Rounds.step] at h; split at h <;> [skip; cases h]; split at h <;> cases h; exact ⟨rfl, rfl⟩
  | other l =>
    simp only [Rounds.step] at h
    split at h <;> [cases h; skip]
    obtain ⟨z, _, rfl⟩ := Option.map_eq_some_iff.1 h
    exact ⟨rfl, rfl⟩
  | _ => simp [quiet] at hl

/-! ## The parts of an execution fit together -/

/-- what the loop's model knows of a message. -/
def key (m : Msg) : Rounds.Msg := (m.1, m.2.map (·.1.hostPort))

/-- the response in an operation. -/
def respOf : Op → Option PollResponse
  | .response x _ _ => some x
  | _ => none

structure Inv (lo : Int → Int) (d : Int) (P : List Proc) (hosts : List Str) (s : Sys) : Prop where
  rounds : Rounds.Inv hosts s.loop
  chan : s.loop.chan = s.chan.map key
  taken : s.loop.taken = s.taken.map key
  made : ∀ m ∈ s.taken ++ s.chan, ∀ x o, m.2 = some (x, o) → Makes lo d P s.past m.1 x.hostPort x o
  count : s.loop.rounds.length = ticks s.past + 1
  sent : ∀ r hp, Item.go (.deliver r hp) ∈ s.past → hp ∈ Rounds.answered r s.loop.log
  served : ∀ a r i now b, s.past = a ++ .serve r i now :: b → r ≤ ticks a
  done : s.done.filterMap respOf = s.taken.filterMap (fun m => m.2.map (·.1))

theorem Makes.more {lo : Int → Int} {d : Int} {P : List Proc} {past : List Item} {r : Nat} {hp : Str} {x : PollResponse} {o : Option Origin}
    (h : Makes lo d P past r hp x o) (l : List Item) : Makes lo d P (past ++ l) r hp x o := by
  cases o with
  | none => exact h
  | some o =>
    obtain ⟨a, b, p, ms, fresh, ts, nanos, junk, e, h1, h2⟩ := h
    exact ⟨a, b ++ l, p, ms, fresh, ts, nanos, junk, e, by simp [h1], h2⟩

theorem poll_host (lo : Int → Int) (fresh : Nat) (hp : Str) (ts : Time) (nanos : Int) (junk : Unmarshal.Response) (e : Str) (o : HttpResult) :
    (poll lo fresh hp ts nanos junk e o).hostPort = hp := by
  unfold poll
  split <;> [rfl; rfl; skip]
  split <;> rfl

theorem Makes.host {lo : Int → Int} {d : Int} {P : List Proc} {past : List Item} {r : Nat} {hp : Str} {x : PollResponse} {o : Option Origin}
    (h : Makes lo d P past r hp x o) : x.hostPort = hp := by
  cases o with
  | none => exact h.1
  | some o =>
    obtain ⟨a, b, p, ms, fresh, ts, nanos, junk, e, _, _, _, _, _, rfl⟩ := h
    exact poll_host ..

/-- steps of the loop. -/
theorem Inv.go {lo : Int → Int} {d : Int} {P : List Proc} {hosts : List Str} {s : Sys} (hi : Inv lo d P hosts s) {l : Rounds.Lab} {loop : Rounds.Sys}
    {chan taken : List Msg} {data : Healthd.State} {done : List Op} (hl : Rounds.step s.loop l = some loop)
    (hc : loop.chan = chan.map key) (ht : loop.taken = taken.map key) (hm : ∀ m ∈ taken ++ chan, ∀ x o, m.2 = some (x, o) → Makes lo d P s.past m.1 x.hostPort x o)
    (hd : done.filterMap respOf = taken.filterMap (fun m => m.2.map (·.1))) :
    Inv lo d P hosts ⟨loop, chan, taken, data, done, s.past ++ [.go l]⟩ := by
  refine ⟨Rounds.step_inv hi.rounds hl, hc, ht, fun m h x o e => (hm m h x o e).more _, ?_, ?_, ?_, hd⟩
  · show loop.rounds.length = ticks (s.past ++ [.go l]) + 1
    rw [ticks_append]
    by_cases e : l = .tick
    · subst e
      rw [loop_tick hl, List.length_append, hi.count]
      simp [ticks]
    · rw [(loop_rounds hl e).1, hi.count]
      have : ticks [Item.go l] = 0 := by
        unfold ticks
        rw [List.countP_eq_zero]
        intro z hz
        rw [List.mem_singleton.1 hz]
        cases l <;> simp_all
      omega
  · intro r hp h
    show hp ∈ Rounds.answered r loop.log
    rw [loop_log hl, Rounds.answered_append, List.mem_append]
    rcases List.mem_append.1 h with h | h
    · exact .inl (hi.sent r hp h)
    · rw [List.mem_singleton, Item.go.injEq] at h
      subst h
      right
      simp [news, Rounds.answered]
  · intro a r i now b e
    rcases snoc_split e with ⟨_, _, h⟩ | ⟨b', _, h⟩
    · cases h
    · exact hi.served a r i now b' h

theorem inv_start (lo : Int → Int) (d : Int) (P : List Proc) (clock : Int) (hostPorts : List Str) :
    Inv lo d P ((Healthd.init hostPorts).hostStatus.map (·.1)) (start clock hostPorts) := by
  refine ⟨Rounds.inv_init _ _, rfl, rfl, ?_, rfl, ?_, ?_, rfl⟩
  · intro m hm; simp [start] at hm
  · intro r hp h; simp [start] at h
  · intro a r i now b e; simp [start] at e

theorem Step.inv {sort : List IntAgg → List IntAgg} {lo : Int → Int} {d : Int} {P : List Proc} {hosts : List Str} {s s' : Sys} {x : Item}
    (hs : Step sort lo d P s x s') (hi : Inv lo d P hosts s) : Inv lo d P hosts s' := by
  cases hs with
  | act =>
    rename_i i x
    refine ⟨hi.rounds, hi.chan, hi.taken, fun m h x o e => (hi.made m h x o e).more _, ?_, ?_, ?_, hi.done⟩
    · rw [hi.count, ticks_append]; rfl
    · intro r hp h
      exact hi.sent r hp (by simpa using h)
    · intro a r i now b e
      rcases snoc_split e with ⟨_, _, h⟩ | ⟨b', _, h⟩
      · cases h
      · exact hi.served a r i now b' h
  | serve hp hr hpoll hno =>
    rename_i r i now p y
    refine ⟨hi.rounds, hi.chan, hi.taken, fun m h x o e => (hi.made m h x o e).more _, ?_, ?_, ?_, hi.done⟩
    · rw [hi.count, ticks_append]; rfl
    · intro r hp h
      exact hi.sent r hp (by simpa using h)
    · intro a r' i' now' b e
      rcases snoc_split e with ⟨_, rfl, h⟩ | ⟨b', _, h⟩
      · cases h
        have := (List.getElem?_eq_some_iff.1 hr).1
        have := hi.count
        omega
      · exact hi.served a r' i' now' b' h
  | deliver hl hm =>
    rename_i r hp x o loop
    obtain ⟨_, h1, h2⟩ := loop_deliver hl
    refine hi.go hl ?_ (h2.trans hi.taken) ?_ hi.done
    · rw [h1, hi.chan]; simp [key, hm.host]
    · intro m h x' o' e
      rw [← List.append_assoc] at h
      rcases List.mem_append.1 h with h | h
      · exact hi.made m h x' o' e
      · rw [List.mem_singleton.1 h] at e ⊢
        cases e
        rw [hm.host]; exact hm
  | finish hl =>
    obtain ⟨h1, h2⟩ := loop_finish hl
    refine hi.go hl ?_ (h2.trans hi.taken) ?_ hi.done
    · rw [h1, hi.chan]; simp [key]
    · intro m h x' o' e
      rw [← List.append_assoc] at h
      rcases List.mem_append.1 h with h | h
      · exact hi.made m h x' o' e
      · rw [List.mem_singleton.1 h] at e; cases e
  | tick hl hd =>
    obtain ⟨h1, h2⟩ := loop_quiet hl (by simp)
    refine hi.go hl (h1.trans hi.chan) (h2.trans hi.taken) hi.made ?_
    rw [List.filterMap_append, hi.done]; simp [respOf]
  | consume hc hl hd =>
    obtain ⟨r', hp, h1, h2⟩ := loop_consume hl
    have h3 := hi.chan
    rw [hc, h1, List.map_cons, List.cons.injEq] at h3
    refine hi.go hl h3.2 ?_ ?_ ?_
    · rw [h2, hi.taken, h3.1]; simp
    · intro m h
      exact hi.made m (by rw [hc]; simpa using h)
    · rw [List.filterMap_append, List.filterMap_append, hi.done]; simp [respOf]
  | recalculate hr hl hv hd =>
    cases hr with
    | allIn hc =>
      obtain ⟨r', h1, h2⟩ := loop_allIn hl
      have h3 := hi.chan
      rw [hc, h1, List.map_cons, List.cons.injEq] at h3
      refine hi.go hl h3.2 ?_ ?_ ?_
      · rw [h2, hi.taken, h3.1]; simp
      · intro m h
        exact hi.made m (by rw [hc]; simpa using h)
      · rw [List.filterMap_append, List.filterMap_append, hi.done]; simp [respOf]
    | fire =>
      obtain ⟨h1, h2⟩ := loop_quiet hl (by simp)
      refine hi.go hl (h1.trans hi.chan) (h2.trans hi.taken) hi.made ?_
      rw [List.filterMap_append, hi.done]; simp [respOf]
  | quiet hq hl =>
    obtain ⟨h1, h2⟩ := loop_quiet hl (.inl hq)
    exact hi.go hl (h1.trans hi.chan) (h2.trans hi.taken) hi.made hi.done

theorem Reach.inv {sort : List IntAgg → List IntAgg} {lo : Int → Int} {d : Int} {P : List Proc} {hostPorts : List Str} {s : Sys}
    (h : Reach sort lo d P hostPorts s) : Inv lo d P ((Healthd.init hostPorts).hostStatus.map (·.1)) s := by
  induction h with
  | start clock => exact inv_start ..
  | step _ hs ih => exact hs.inv ih

theorem Reach.runs {sort : List IntAgg → List IntAgg} {lo : Int → Int} {d : Int} {P : List Proc} {hostPorts : List Str} {s : Sys}
    (h : Reach sort lo d P hostPorts s) : Runs sort (Healthd.init hostPorts) s.done s.data := by
  induction h with
  | start clock => exact .nil
  | step _ hs ih =>
    cases hs with
    | tick hl hd => exact .snoc ih trivial hd
    | consume hc hl hd => exact .snoc ih trivial hd
    | recalculate hr hl hv hd => exact .snoc ih hv hd
    | _ => exact ih

theorem Step.past {sort : List IntAgg → List IntAgg} {lo : Int → Int} {d : Int} {P : List Proc} {s s' : Sys} {x : Item}
    (hs : Step sort lo d P s x s') : s'.past = s.past ++ [x] := by cases hs <;> rfl

/-! ## Polls in time are answered and received in order -/

/-- no goroutine of the round is left that has a response to send. -/
def Over (x : Rounds.Round) : Prop := x.unspawned = [] ∧ x.polling = []

structure Ordered (s : Sys) : Prop where
  /-- only the last round is under way -/
  over : ∀ (r : Nat) (x : Rounds.Round), s.loop.rounds[r]? = some x → r + 1 < s.loop.rounds.length → Over x
  log : ∀ u r hp v, s.loop.log = u ++ (r, some hp) :: v → ∀ r' hp', (r', some hp') ∈ v → r ≤ r'
  served : ∀ a r i now b, s.past = a ++ .serve r i now :: b → ∀ r' j now', Item.serve r' j now' ∈ b → r ≤ r'

theorem ordered_start (clock : Int) (hostPorts : List Str) : Ordered (start clock hostPorts) := by
  refine ⟨?_, ?_, ?_⟩
  · intro r x hx hr; simp [start, Rounds.init] at hr
  · intro u r hp v e; simp [start, Rounds.init, Rounds.Sys.log] at e
  · intro a r i now b e; simp [start] at e

/-- a round that is not over is the last one. -/
theorem Ordered.last {s : Sys} (ho : Ordered s) {r : Nat} {x : Rounds.Round} (hx : s.loop.rounds[r]? = some x) {hp : Str} (hm : hp ∈ x.polling) :
    r + 1 = s.loop.rounds.length := by
  have h1 := (List.getElem?_eq_some_iff.1 hx).1
  by_contra hne
  have := (ho.over r x hx (by omega)).2
  rw [this] at hm; cases hm

theorem Ordered.go {s : Sys} (ho : Ordered s) {l : Rounds.Lab} {loop : Rounds.Sys} {chan taken : List Msg} {data : Healthd.State} {done : List Op}
    (hl : Rounds.step s.loop l = some loop)
    (hover : ∀ (r : Nat) (x : Rounds.Round), loop.rounds[r]? = some x → r + 1 < loop.rounds.length → Over x)
    (hk : ∀ m ∈ s.loop.log, m.1 < s.loop.rounds.length)
    (hd : ∀ r hp, l = .deliver r hp → r + 1 = s.loop.rounds.length) : Ordered ⟨loop, chan, taken, data, done, s.past ++ [.go l]⟩ := by
  refine ⟨hover, ?_, ?_⟩
  · intro u r hp v e r' hp' hm
    have e : s.loop.log ++ news l = u ++ (r, some hp) :: v := by rw [← loop_log hl]; exact e
    cases hnew : news l with
    | nil => rw [hnew, List.append_nil] at e; exact ho.log u r hp v e r' hp' hm
    | cons z q =>
      have hq : q = [] := by cases l <;> simp [news] at hnew <;> exact hnew.2
      subst hq
      rw [hnew] at e
      rcases snoc_split e with ⟨rfl, _, _⟩ | ⟨v', rfl, h⟩
      · cases hm
      · rcases List.mem_append.1 hm with hm | hm
        · exact ho.log u r hp v' h r' hp' hm
        · rw [List.mem_singleton] at hm
          subst hm
          have hlt := hk (r, some hp) (by rw [h]; simp)
          cases l with
          | deliver r2 hp2 =>
            simp [news] at hnew
            have := hd r2 hp2 rfl
            simp only at hlt
            omega
          | _ => simp [news] at hnew
  · intro a r i now b e r' j now' hm
    rcases snoc_split e with ⟨rfl, _, _⟩ | ⟨b', rfl, h⟩
    · cases hm
    · rcases List.mem_append.1 hm with hm | hm
      · exact ho.served a r i now b' h r' j now' hm
      · simp at hm

theorem over_all {hosts : List Str} (hn : hosts.Nodup) {log : List Rounds.Msg} {r : Nat} {x : Rounds.Round} (hok : Rounds.RoundOk hosts log r x)
    (h : ∀ hp ∈ hosts, hp ∈ Rounds.answered r log) : Over x := by
  have hnd := hok.all.nodup_iff.2 hn
  rw [List.nodup_append] at hnd
  have key : ∀ z ∈ x.unspawned ++ x.polling, False := by
    intro z hz
    have h1 : z ∈ hosts := hok.all.mem_iff.1 (List.mem_append_left _ hz)
    exact hnd.2.2 z hz z (h z h1) rfl
  exact ⟨List.eq_nil_iff_forall_not_mem.2 (fun z hz => key z (by simp [hz])), List.eq_nil_iff_forall_not_mem.2 (fun z hz => key z (by simp [hz]))⟩

theorem Step.ordered {sort : List IntAgg → List IntAgg} {lo : Int → Int} {d : Int} {P : List Proc} {hosts : List Str} (hn : hosts.Nodup) {s s' : Sys} {x : Item}
    (hs : Step sort lo d P s x s') (hi : Inv lo d P hosts s) (ho : Ordered s) (hin : InTime hosts (s.past ++ [x])) : Ordered s' := by
  have other : ∀ {l : Rounds.Lab} {loop : Rounds.Sys}, Rounds.step s.loop l = some loop → l ≠ .tick → ∀ (r : Nat) (x : Rounds.Round),
      loop.rounds[r]? = some x → r + 1 < loop.rounds.length → Over x := by
    intro l loop hl hne r x hx hr
    obtain ⟨h1, h2⟩ := loop_rounds hl hne
    obtain ⟨y, h3, h4⟩ := h2 r x hx
    exact h4 (ho.over r y h3 (by omega))
  cases hs with
  | act =>
    refine ⟨ho.over, ho.log, ?_⟩
    intro a r i now b e r' j now' hm
    rcases snoc_split e with ⟨rfl, _, _⟩ | ⟨b', rfl, h⟩
    · cases hm
    · rcases List.mem_append.1 hm with hm | hm
      · exact ho.served a r i now b' h r' j now' hm
      · simp at hm
  | serve hp hr hpoll hno =>
    refine ⟨ho.over, ho.log, ?_⟩
    intro a r i now b e r' j now' hm
    rcases snoc_split e with ⟨rfl, _, _⟩ | ⟨b', rfl, h⟩
    · cases hm
    · rcases List.mem_append.1 hm with hm | hm
      · exact ho.served a r i now b' h r' j now' hm
      · simp only [List.mem_singleton, Item.serve.injEq] at hm
        obtain ⟨rfl, _, _⟩ := hm
        have h1 := ho.last hr hpoll
        have h2 := hi.served a r i now b' h
        have h3 := hi.count
        have h4 : ticks s.past = ticks a + ticks (.serve r i now :: b') := by rw [h, ticks_append]
        omega
  | deliver hl hm =>
    rename_i r hp x o loop
    obtain ⟨⟨y, h1, h2⟩, _, _⟩ := loop_deliver hl
    refine ho.go hl (other hl (by simp)) hi.rounds.known ?_
    intro r' hp' e
    cases e
    exact ho.last h1 h2
  | finish hl => exact ho.go hl (other hl (by simp)) hi.rounds.known (by simp)
  | tick hl hd =>
    refine ho.go hl ?_ hi.rounds.known (by simp)
    intro r x hx hr
    rw [loop_tick hl] at hx hr
    rw [List.length_append, List.length_singleton] at hr
    rw [List.getElem?_append_left (by omega)] at hx
    refine over_all hn (hi.rounds.rounds r x hx) ?_
    intro hp hm
    exact hi.sent r hp (hin s.past [] (by simp) r (by have := hi.count; omega) hp hm)
  | consume hc hl hd => exact ho.go hl (other hl (by simp)) hi.rounds.known (by simp)
  | recalculate hr hl hv hd =>
    cases hr with
    | allIn hc => exact ho.go hl (other hl (by simp)) hi.rounds.known (by simp)
    | fire => exact ho.go hl (other hl (by simp)) hi.rounds.known (by simp)
  | quiet hq hl =>
    refine ho.go hl (other hl ?_) hi.rounds.known ?_
    · rintro rfl; simp [Watch.quiet] at hq
    · rintro r hp rfl; simp [Watch.quiet] at hq

theorem hosts_nodup (hostPorts : List Str) : ((Healthd.init hostPorts).hostStatus.map (·.1)).Nodup :=
  Healthd.Runs.hostsWf (sort := id) (h := []) (s := Healthd.init hostPorts) .nil

theorem hosts_mem (hostPorts : List Str) (hp : Str) : hp ∈ (Healthd.init hostPorts).hostStatus.map (·.1) ↔ hp ∈ hostPorts := by
  have key : ∀ (l : List Str) (m : GoMap Str HostStatus), hp ∈ GoMap.keys (l.foldl (fun m hp => m.set hp (newHost hp)) m) ↔ hp ∈ GoMap.keys m ∨ hp ∈ l := by
    intro l
    induction l with
    | nil => simp
    | cons a l ih =>
      intro m
      rw [List.foldl_cons, ih, GoMap.mem_keys_set, List.mem_cons]
      tauto
  have := key hostPorts []
  simpa [GoMap.keys, Healthd.init] using this

theorem Reach.ordered {sort : List IntAgg → List IntAgg} {lo : Int → Int} {d : Int} {P : List Proc} {hostPorts : List Str} {s : Sys}
    (h : Reach sort lo d P hostPorts s) (hin : InTime hostPorts s.past) : Ordered s := by
  induction h with
  | start clock => exact ordered_start ..
  | step h hs ih =>
    rw [hs.past] at hin
    refine hs.ordered (hosts_nodup hostPorts) h.inv (ih (inTime_snoc hin)) ?_
    intro a b e r hr hp hm
    exact hin a b e r hr hp ((hosts_mem hostPorts hp).1 hm)

/-! ## Answers -/

theorem answered_nodup {sort : List IntAgg → List IntAgg} {lo : Int → Int} {d : Int} {P : List Proc} {hostPorts : List Str} {s : Sys}
    (h : Reach sort lo d P hostPorts s) (r : Nat) : (Rounds.answered r s.loop.log).Nodup := by
  by_cases hr : r < s.loop.rounds.length
  · have := (h.inv.rounds.rounds r _ (List.getElem?_eq_getElem hr)).all
    have := this.nodup_iff.2 (hosts_nodup hostPorts)
    exact (List.nodup_append.1 this).2.1
  · have : Rounds.answered r s.loop.log = [] := by
      unfold Rounds.answered
      rw [List.filterMap_eq_nil_iff]
      intro m hm
      have := h.inv.rounds.known m hm
      rw [if_neg (by omega)]
    rw [this]; exact List.nodup_nil

/-- messages received from the same host are of different rounds, in order. -/
theorem rounds_lt {sort : List IntAgg → List IntAgg} {lo : Int → Int} {d : Int} {P : List Proc} {hostPorts : List Str} {s : Sys}
    (h : Reach sort lo d P hostPorts s) (hin : InTime hostPorts s.past) {u v : List Msg} {r r' : Nat} {x x' : PollResponse} {o o' : Option Origin}
    (e : s.taken = u ++ (r, some (x, o)) :: v) (hm : (r', some (x', o')) ∈ v) (hx : x.hostPort = x'.hostPort) : r < r' := by
  have ho := h.ordered hin
  obtain ⟨v1, v2, rfl⟩ := List.append_of_mem hm
  have hlog : s.loop.log = u.map key ++ (r, some x.hostPort) :: (v1.map key ++ (r', some x'.hostPort) :: (v2.map key ++ s.loop.chan)) := by
    unfold Rounds.Sys.log
    rw [h.inv.taken, e]
    simp [key]
  have h1 := ho.log _ _ _ _ hlog r' x'.hostPort (by simp)
  rcases Nat.lt_or_ge r r' with h2 | h2
  · exact h2
  · obtain rfl : r = r' := by omega
    have h3 := answered_nodup h r
    rw [hlog, Rounds.answered_append] at h3
    have h4 := (List.nodup_append.1 h3).2.1
    exfalso
    simp [Rounds.answered, hx] at h4

/-- where an answer was made. -/
theorem Makes.place {lo : Int → Int} {d : Int} {P : List Proc} {past : List Item} {r : Nat} {hp : Str} {x : PollResponse} {o : Origin}
    (h : Makes lo d P past r hp x (some o)) : ∃ a b, past = a ++ .serve r o.i o.now :: b ∧ o.hist = histOf o.i a := by
  obtain ⟨a, b, p, ms, fresh, ts, nanos, junk, e, h1, h2, _⟩ := h
  exact ⟨a, b, h1, h2⟩

theorem Makes.proc {lo : Int → Int} {d : Int} {P : List Proc} {past : List Item} {r : Nat} {hp : Str} {x : PollResponse} {o : Origin}
    (h : Makes lo d P past r hp x (some o)) : ∃ p, P[o.i]? = some p ∧ p.hostPort = hp := by
  obtain ⟨a, b, p, ms, fresh, ts, nanos, junk, e, h1, h2, h3, h4, _⟩ := h
  exact ⟨p, h3, h4⟩

/-- an answer of an earlier round was made earlier. -/
theorem earlier {s : Sys} (ho : Ordered s) {lo : Int → Int} {d : Int} {P : List Proc} {r r' : Nat} {hp hp' : Str} {x x' : PollResponse} {o o' : Origin}
    (h : Makes lo d P s.past r hp x (some o)) (h' : Makes lo d P s.past r' hp' x' (some o')) (hlt : r < r') (hi : o.i = o'.i) :
    o.hist ++ [(o.now, .read)] <+: o'.hist := by
  obtain ⟨a, b, e1, e2⟩ := h.place
  obtain ⟨a', b', e1', e2'⟩ := h'.place
  rcases two_places (e1.symm.trans e1') with ⟨_, h3⟩ | ⟨c, h3, _⟩ | ⟨c, h3, h4⟩
  · rw [Item.serve.injEq] at h3; omega
  · rw [e2, e2', h3, histOf_append, ← hi]
    refine (List.prefix_append_right_inj _).2 ?_
    simp [histOf]
  · have := ho.served a' r' o'.i o'.now b' e1' r o.i o.now h4
    omega

theorem mem_answersOf {i : Nat} {taken : List Msg} {o : Origin} : o ∈ answersOf i taken ↔ ∃ r x, (r, some (x, some o)) ∈ taken ∧ o.i = i := by
  unfold answersOf
  rw [List.mem_filterMap]
  constructor
  · rintro ⟨⟨r, m⟩, hm, h⟩
    cases m with
    | none => simp at h
    | some z =>
      obtain ⟨x, o'⟩ := z
      cases o' with
      | none => simp at h
      | some o' =>
        simp only [Option.bind_some, Option.filter_eq_some_iff, Option.some.injEq, decide_eq_true_eq] at h
        obtain ⟨rfl, h⟩ := h
        exact ⟨r, x, hm, h⟩
  · rintro ⟨r, x, hm, h⟩
    exact ⟨_, hm, by simp [h]⟩

theorem answersOf_append (i : Nat) (a b : List Msg) : answersOf i (a ++ b) = answersOf i a ++ answersOf i b := List.filterMap_append ..

/-- what was done when any answer that healthd received was made, had been done when the last one was made. -/
theorem seen_all {sort : List IntAgg → List IntAgg} {lo : Int → Int} {d : Int} {P : List Proc} {hostPorts : List Str} {s : Sys}
    (h : Reach sort lo d P hostPorts s) (hin : InTime hostPorts s.past) {r : Nat} {x : PollResponse} {o : Origin} (hm : (r, some (x, some o)) ∈ s.taken) :
    o.hist ++ [(o.now, .read)] <+: seen o.i s.taken := by
  obtain ⟨u, v, e⟩ := List.append_of_mem hm
  have hmade : ∀ r x o, (r, some (x, some o)) ∈ s.taken → Makes lo d P s.past r x.hostPort x (some o) := fun r x o hm =>
    h.inv.made _ (List.mem_append_left _ hm) x (some o) rfl
  have hv : answersOf o.i s.taken = answersOf o.i u ++ o :: answersOf o.i v := by
    rw [e, answersOf_append]
    unfold answersOf
    rw [List.filterMap_cons_some (b := o) (by simp)]
  unfold seen
  rcases List.eq_nil_or_concat (answersOf o.i v) with h0 | ⟨l, o', h0⟩
  · rw [hv, h0, List.getLast?_append]; simp
  · rw [List.concat_eq_append] at h0
    have hl : (answersOf o.i s.taken).getLast? = some o' := by
      rw [hv, h0, show ∀ a : List Origin, a ++ o :: (l ++ [o']) = (a ++ o :: l) ++ [o'] by simp, List.getLast?_concat]
    rw [hl]
    obtain ⟨r', x', hm', hi'⟩ := mem_answersOf.1 (show o' ∈ answersOf o.i v by rw [h0]; simp)
    have hm'' : (r', some (x', some o')) ∈ s.taken := by rw [e]; simp [hm']
    have m1 := hmade r x o hm
    have m2 := hmade r' x' o' hm''
    obtain ⟨p, hp1, hp2⟩ := m1.proc
    obtain ⟨p', hp1', hp2'⟩ := m2.proc
    rw [hi', hp1] at hp1'
    cases hp1'
    have hlt := rounds_lt h hin e hm' (hp2.symm.trans hp2')
    exact (earlier (h.ordered hin) m1 m2 hlt hi'.symm).trans (List.prefix_append ..)

/-- of two answers of a process, the one received first was made first. -/
theorem received_in_order {sort : List IntAgg → List IntAgg} {lo : Int → Int} {d : Int} {P : List Proc} {hostPorts : List Str} {s : Sys}
    (h : Reach sort lo d P hostPorts s) (hin : InTime hostPorts s.past) {u v : List Msg} {r r' : Nat} {x x' : PollResponse} {o o' : Origin}
    (e : s.taken = u ++ (r, some (x, some o)) :: v) (hm' : (r', some (x', some o')) ∈ v) (hi : o'.i = o.i) :
    o.hist ++ [(o.now, .read)] <+: o'.hist ++ [(o'.now, .read)] := by
  have hmade : ∀ r x o, (r, some (x, some o)) ∈ s.taken → Makes lo d P s.past r x.hostPort x (some o) := fun r x o hm =>
    h.inv.made _ (List.mem_append_left _ hm) x (some o) rfl
  have m1 := hmade r x o (by rw [e]; simp)
  have m2 := hmade r' x' o' (by rw [e]; simp [hm'])
  obtain ⟨p, hp1, hp2⟩ := m1.proc
  obtain ⟨p', hp1', hp2'⟩ := m2.proc
  rw [hi, hp1] at hp1'
  cases hp1'
  have hlt := rounds_lt h hin e hm' (hp2.symm.trans hp2')
  exact (earlier (h.ordered hin) m1 m2 hlt hi.symm).trans (List.prefix_append ..)

theorem seen_past {sort : List IntAgg → List IntAgg} {lo : Int → Int} {d : Int} {P : List Proc} {hostPorts : List Str} {s : Sys}
    (h : Reach sort lo d P hostPorts s) (i : Nat) : seen i s.taken <+: histOf i s.past := by
  unfold seen
  cases hl : (answersOf i s.taken).getLast? with
  | none => simp
  | some o =>
    obtain ⟨r, x, hm, rfl⟩ := mem_answersOf.1 (List.mem_of_getLast? hl)
    obtain ⟨a, b, e1, e2⟩ := (h.inv.made _ (List.mem_append_left _ hm) x (some o) rfl).place
    simp only
    rw [e2, e1, histOf_append]
    exact (List.prefix_append_right_inj _).2 (by simp [histOf])

end Watch
