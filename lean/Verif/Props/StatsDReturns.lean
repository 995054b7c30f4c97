import Verif.Props.StatsDLoop
/-!
# Property C32, exactly: which calls of Stop and Drain return
For every state of a StatsD sink, with any number of calls of `Stop` and `Drain` under way: which of them can still return if nobody calls `Stop` or `Drain` again.
-/
open Spec StatsD SdSys

namespace Spec

/-- the first call of `Drain` or `Stop` in the queue, and what is queued after it. -/
def firstCall : List SdMsg → Option (SdMsg × List SdMsg)
  | [] => none
  | .emit _ :: q => firstCall q
  | .flush :: q => firstCall q
  | .drain j :: q => some (.drain j, q)
  | .stop j :: q => some (.stop j, q)

/-- nobody calls `Stop` or `Drain`. -/
def NoCalls (tr : List SdLab) : Prop := ∀ l ∈ tr, ∀ j, l ≠ .drain j ∧ l ≠ .stop j

/-- the message is among the 8192 oldest of the queue (or gone): whoever sent it waits for the answer, not for room. -/
def Accepted (m : SdMsg) (q : List SdMsg) : Prop := m ∉ q.drop 8192

/-- the first call in the queue is a `Stop`, and call `i` of `Stop` is waiting for the answer when the worker has received it. -/
def StopFirst (i : Nat) (q : List SdMsg) : Prop := ∃ j rest, firstCall q = some (.stop j, rest) ∧ Accepted (.stop i) rest

/-- the first call in the queue is a `Drain`. -/
def DrainFirst (q : List SdMsg) : Prop := ∃ j rest, firstCall q = some (.drain j, rest)

/-- when call `i` of `Stop` can return: not while the sink is being drained, for then its message is thrown away. -/
def CanStop (y : SdSys) (i : Nat) : Prop :=
  match y.worker with
  | .idle => StopFirst i y.q
  | .draining => False
  | .drainDone => (∃ k ∈ y.drainers, Accepted (.drain k) y.q) ∧ StopFirst i y.q
  | .stopping => Accepted (.stop i) y.q
  | .halted => False

/-- when call `i` of `Drain` can return. -/
def CanDrain (y : SdSys) (i : Nat) : Prop :=
  match y.worker with
  | .idle => DrainFirst y.q
  | .draining => True
  | .drainDone => Accepted (.drain i) y.q ∨ ((∃ k ∈ y.drainers, k ≠ i ∧ Accepted (.drain k) y.q) ∧ DrainFirst y.q)
  | .stopping => False
  | .halted => False

end Spec

namespace SdRet

/-- an emission or a flush. -/
def Quiet (m : SdMsg) : Prop := ∀ j, m ≠ .drain j ∧ m ≠ .stop j

theorem firstCall_append (q : List SdMsg) {m : SdMsg} (hm : Quiet m) : firstCall (q ++ [m]) = (firstCall q).map (fun p => (p.1, p.2 ++ [m])) := by
  induction q with
  | nil => cases m <;> first | rfl | exact absurd rfl (hm _).1 | exact absurd rfl (hm _).2
  | cons x q ih => cases x <;> simp [firstCall, ih]

theorem accepted_of_append {x m : SdMsg} {q : List SdMsg} (h : Accepted x (q ++ [m])) : Accepted x q := by
  unfold Accepted at *
  rw [List.drop_append] at h
  exact fun hx => h (List.mem_append_left _ hx)

theorem stopFirst_of_append {i : Nat} {m : SdMsg} {q : List SdMsg} (hm : Quiet m) (h : StopFirst i (q ++ [m])) : StopFirst i q := by
  obtain ⟨j, rest, h1, h2⟩ := h
  rw [firstCall_append q hm] at h1
  obtain ⟨⟨a, b⟩, h3, h4⟩ := Option.map_eq_some_iff.1 h1
  simp only [Prod.mk.injEq] at h4
  exact ⟨j, b, by rw [h3, h4.1], accepted_of_append (h4.2 ▸ h2)⟩

theorem drainFirst_of_append {m : SdMsg} {q : List SdMsg} (hm : Quiet m) (h : DrainFirst (q ++ [m])) : DrainFirst q := by
  obtain ⟨j, rest, h1⟩ := h
  rw [firstCall_append q hm] at h1
  obtain ⟨⟨a, b⟩, h3, h4⟩ := Option.map_eq_some_iff.1 h1
  simp only [Prod.mk.injEq] at h4
  exact ⟨j, b, by rw [h3, h4.1]⟩

theorem canStop_enq {y : SdSys} {i : Nat} {m : SdMsg} (hm : Quiet m) (h : CanStop { y with q := y.q ++ [m] } i) : CanStop y i := by
  unfold CanStop at *
  simp only at h
  split <;> rename_i hw <;> rw [hw] at h
  · exact stopFirst_of_append hm h
  · exact h
  · obtain ⟨⟨k, h1, h2⟩, h3⟩ := h
    exact ⟨⟨k, h1, accepted_of_append h2⟩, stopFirst_of_append hm h3⟩
  · exact accepted_of_append h
  · exact h

theorem canDrain_enq {y : SdSys} {i : Nat} {m : SdMsg} (hm : Quiet m) (h : CanDrain { y with q := y.q ++ [m] } i) : CanDrain y i := by
  unfold CanDrain at *
  simp only at h
  split <;> rename_i hw <;> rw [hw] at h
  · exact drainFirst_of_append hm h
  · trivial
  · rcases h with h | ⟨⟨k, h1, h2, h3⟩, h4⟩
    · exact .inl (accepted_of_append h)
    · exact .inr ⟨⟨k, h1, h2, accepted_of_append h3⟩, drainFirst_of_append hm h4⟩
  · exact h
  · exact h

theorem canStop_step {y y' : SdSys} {l : SdLab} {i : Nat} (hs : y.step l = some y') (hl : ∀ j, l ≠ .drain j ∧ l ≠ .stop j) :
    (CanStop y' i → CanStop y i) ∧ (l = .stopped i → CanStop y i) := by
  cases l with
  | emit c =>
    cases hs
    exact ⟨canStop_enq (by intro j; simp), by simp⟩
  | tick =>
    cases hs
    exact ⟨canStop_enq (by intro j; simp), by simp⟩
  | drain j => exact absurd rfl (hl j).1
  | stop j => exact absurd rfl (hl j).2
  | work =>
    refine ⟨?_, by simp⟩
    simp only [SdSys.step, SdSys.work] at hs
    split at hs <;> rename_i hw hq <;> cases hs <;> intro h
    · unfold CanStop at *
      rw [hw] at h ⊢
      simp only at h ⊢
      obtain ⟨j, rest, h1, h2⟩ := h
      exact ⟨j, rest, by rw [hq]; exact h1, h2⟩
    · unfold CanStop at *
      rw [hw] at h ⊢
      simp only at h ⊢
      obtain ⟨j, rest, h1, h2⟩ := h
      exact ⟨j, rest, by rw [hq]; exact h1, h2⟩
    · unfold CanStop at h; exact h.elim
    · unfold CanStop at *
      rw [hw]
      simp only at h ⊢
      exact ⟨_, _, by rw [hq]; rfl, h⟩
    · unfold CanStop at h
      simp only at h
      obtain ⟨_, j, rest, h1, _⟩ := h
      rw [hq] at h1
      cases h1
    all_goals
      unfold CanStop at h
      rw [hw] at h
      exact h.elim
  | drained k =>
    refine ⟨?_, by simp⟩
    simp only [SdSys.step] at hs
    split at hs
    · next hc =>
      cases hs
      intro h
      unfold CanStop at *
      rw [hc.1]
      exact ⟨⟨k, hc.2.1, hc.2.2⟩, h⟩
    · cases hs
  | stopped k =>
    simp only [SdSys.step] at hs
    split at hs
    · next hc =>
      cases hs
      refine ⟨fun h => ?_, fun h => ?_⟩
      · unfold CanStop at h; exact h.elim
      · cases h
        unfold CanStop
        rw [hc.1]
        exact hc.2.2
    · cases hs

theorem canDrain_step {y y' : SdSys} {l : SdLab} {i : Nat} (hs : y.step l = some y') (hl : ∀ j, l ≠ .drain j ∧ l ≠ .stop j) :
    (CanDrain y' i → l ≠ .drained i → CanDrain y i) ∧ (l = .drained i → CanDrain y i) := by
  cases l with
  | emit c =>
    cases hs
    exact ⟨fun h _ => canDrain_enq (by intro j; simp) h, by simp⟩
  | tick =>
    cases hs
    exact ⟨fun h _ => canDrain_enq (by intro j; simp) h, by simp⟩
  | drain j => exact absurd rfl (hl j).1
  | stop j => exact absurd rfl (hl j).2
  | work =>
    refine ⟨?_, by simp⟩
    simp only [SdSys.step, SdSys.work] at hs
    split at hs <;> rename_i hw hq <;> cases hs <;> intro h _
    · unfold CanDrain at *
      rw [hw] at h ⊢
      simp only at h ⊢
      obtain ⟨j, rest, h1⟩ := h
      exact ⟨j, rest, by rw [hq]; exact h1⟩
    · unfold CanDrain at *
      rw [hw] at h ⊢
      simp only at h ⊢
      obtain ⟨j, rest, h1⟩ := h
      exact ⟨j, rest, by rw [hq]; exact h1⟩
    · unfold CanDrain
      rw [hw]
      exact ⟨_, _, by rw [hq]; rfl⟩
    · unfold CanDrain at h; exact h.elim
    all_goals
      unfold CanDrain
      rw [hw]
      trivial
  | drained k =>
    simp only [SdSys.step] at hs
    split at hs
    · next hc =>
      cases hs
      refine ⟨fun h hk => ?_, fun h => ?_⟩
      · unfold CanDrain at *
        rw [hc.1]
        exact .inr ⟨⟨k, hc.2.1, fun e => hk (by rw [e]), hc.2.2⟩, h⟩
      · cases h
        unfold CanDrain
        rw [hc.1]
        exact .inl hc.2.2
    · cases hs
  | stopped k =>
    refine ⟨?_, by simp⟩
    simp only [SdSys.step] at hs
    split at hs
    · cases hs
      intro h _
      unfold CanDrain at h; exact h.elim
    · cases hs

theorem canStop_of_run {y y' : SdSys} {tr : List SdLab} {i : Nat} (h : y.run tr = some y') (hn : NoCalls tr) (hm : SdLab.stopped i ∈ tr) : CanStop y i := by
  induction tr generalizing y with
  | nil => cases hm
  | cons l tr ih =>
    simp only [SdSys.run] at h
    obtain ⟨z, h1, h2⟩ := Option.bind_eq_some_iff.1 h
    have hs := canStop_step (i := i) h1 (hn l (by simp))
    rcases List.mem_cons.1 hm with hm | hm
    · exact hs.2 hm.symm
    · exact hs.1 (ih h2 (fun l hl => hn l (by simp [hl])) hm)

theorem canDrain_of_run {y y' : SdSys} {tr : List SdLab} {i : Nat} (h : y.run tr = some y') (hn : NoCalls tr) (hm : SdLab.drained i ∈ tr) : CanDrain y i := by
  induction tr generalizing y with
  | nil => cases hm
  | cons l tr ih =>
    simp only [SdSys.run] at h
    obtain ⟨z, h1, h2⟩ := Option.bind_eq_some_iff.1 h
    have hs := canDrain_step (i := i) h1 (hn l (by simp))
    by_cases hl : l = .drained i
    · exact hs.2 hl
    · rcases List.mem_cons.1 hm with hm | hm
      · exact absurd hm.symm hl
      · exact hs.1 (ih h2 (fun l hl => hn l (by simp [hl])) hm) hl

/-- `tr` is a possible continuation without calls. -/
def Goes (y y' : SdSys) (tr : List SdLab) : Prop := y.run tr = some y' ∧ NoCalls tr

theorem Goes.cons {y z y' : SdSys} {l : SdLab} {tr : List SdLab} (h : y.step l = some z) (hl : ∀ j, l ≠ .drain j ∧ l ≠ .stop j) (h2 : Goes z y' tr) :
    Goes y y' (l :: tr) :=
  ⟨by simp only [SdSys.run, h]; exact h2.1, fun x hx => by rcases List.mem_cons.1 hx with rfl | hx; exacts [hl, h2.2 x hx]⟩

theorem Goes.trans {y z y' : SdSys} {a b : List SdLab} (h : Goes y z a) (h2 : Goes z y' b) : Goes y y' (a ++ b) :=
  ⟨by rw [SdSys.run_append, h.1]; exact h2.1, fun x hx => by rcases List.mem_append.1 hx with hx | hx; exacts [h.2 x hx, h2.2 x hx]⟩

theorem Goes.nil (y : SdSys) : Goes y y [] := ⟨rfl, by intro x hx; cases hx⟩

/-- the worker gets to the first call in the queue. -/
theorem to_first (q : List SdMsg) : ∀ {y : SdSys} {m : SdMsg} {rest : List SdMsg}, y.worker = .idle → y.q = q → firstCall q = some (m, rest) →
    ∃ y' tr, Goes y y' tr ∧ y'.worker = .idle ∧ y'.q = m :: rest ∧ y'.drainers = y.drainers ∧ y'.stoppers = y.stoppers := by
  induction q with
  | nil => intro y m rest _ _ h; cases h
  | cons x q ih =>
    intro y m rest hw hq h
    cases x with
    | emit c =>
      obtain ⟨y', tr, h1, h2, h3, h4, h5⟩ := ih (y := { y with q := q, sink := y.sink.processCmd c }) hw rfl h
      exact ⟨y', .work :: tr, Goes.cons (by simp only [SdSys.step, SdSys.work, hw, hq]) (by simp) h1, h2, h3, h4, h5⟩
    | flush =>
      obtain ⟨y', tr, h1, h2, h3, h4, h5⟩ := ih (y := { y with q := q, sink := y.sink.flush }) hw rfl h
      exact ⟨y', .work :: tr, Goes.cons (by simp only [SdSys.step, SdSys.work, hw, hq]) (by simp) h1, h2, h3, h4, h5⟩
    | drain j => cases h; exact ⟨y, [], Goes.nil y, hw, hq, rfl, rfl⟩
    | stop j => cases h; exact ⟨y, [], Goes.nil y, hw, hq, rfl, rfl⟩

/-- a drain that has begun ends. -/
theorem to_done (q : List SdMsg) : ∀ {y : SdSys}, y.worker = .draining → y.q = q →
    ∃ y' tr, Goes y y' tr ∧ y'.worker = .drainDone ∧ y'.q = [] ∧ y'.drainers = y.drainers := by
  induction q with
  | nil =>
    intro y hw hq
    exact ⟨{ y with sink := y.sink.flush, worker := .drainDone }, [.work], Goes.cons (by simp only [SdSys.step, SdSys.work, hw, hq]) (by simp) (Goes.nil _), rfl, hq, rfl⟩
  | cons x q ih =>
    intro y hw hq
    have go : ∀ z : SdSys, SdSys.step y .work = some z → z.worker = .draining → z.q = q → z.drainers = y.drainers →
        ∃ y' tr, Goes y y' tr ∧ y'.worker = .drainDone ∧ y'.q = [] ∧ y'.drainers = y.drainers := by
      intro z h1 h2 h3 h4
      obtain ⟨y', tr, g1, g2, g3, g4⟩ := ih h2 h3
      exact ⟨y', .work :: tr, Goes.cons h1 (by simp) g1, g2, g3, by rw [g4, h4]⟩
    cases x with
    | emit c => exact go { y with q := q, sink := y.sink.processCmd c } (by simp only [SdSys.step, SdSys.work, hw, hq]) hw rfl rfl
    | flush => exact go { y with q := q } (by simp only [SdSys.step, SdSys.work, hw, hq]) hw rfl rfl
    | drain j => exact go { y with q := q } (by simp only [SdSys.step, SdSys.work, hw, hq]) hw rfl rfl
    | stop j => exact go { y with q := q } (by simp only [SdSys.step, SdSys.work, hw, hq]) hw rfl rfl

theorem stop_possible {y : SdSys} {i : Nat} (hi : i ∈ y.stoppers) (h : CanStop y i) : ∃ y' tr, Goes y y' tr ∧ SdLab.stopped i ∈ tr := by
  have fin : ∀ z : SdSys, z.worker = .stopping → i ∈ z.stoppers → Accepted (.stop i) z.q → ∃ y' tr, Goes z y' tr ∧ SdLab.stopped i ∈ tr := by
    intro z h1 h2 h3
    exact ⟨{ z with worker := .halted, stoppers := z.stoppers.erase i }, [.stopped i], Goes.cons (if_pos ⟨h1, h2, h3⟩) (by simp) (Goes.nil _), by simp⟩
  have idle : ∀ z : SdSys, z.worker = .idle → i ∈ z.stoppers → StopFirst i z.q → ∃ y' tr, Goes z y' tr ∧ SdLab.stopped i ∈ tr := by
    rintro z h1 h2 ⟨j, rest, h3, h4⟩
    obtain ⟨w, tr, g1, g2, g3, g4, g5⟩ := to_first z.q h1 rfl h3
    obtain ⟨y', tr', g6, g7⟩ := fin { w with q := rest, worker := .stopping } rfl (by show i ∈ w.stoppers; rwa [g5]) h4
    exact ⟨y', tr ++ .work :: tr', g1.trans (Goes.cons (by simp only [SdSys.step, SdSys.work, g2, g3]) (by simp) g6), by simp [g7]⟩
  unfold CanStop at h
  split at h
  · next hw => exact idle y hw hi h
  · exact h.elim
  · next hw =>
    obtain ⟨⟨k, h1, h2⟩, h3⟩ := h
    obtain ⟨y', tr, g1, g2⟩ := idle { y with worker := .idle, drainers := y.drainers.erase k } rfl hi h3
    exact ⟨y', .drained k :: tr, Goes.cons (if_pos ⟨hw, h1, h2⟩) (by simp) g1, by simp [g2]⟩
  · next hw => exact fin y hw hi h
  · exact h.elim

theorem drain_possible {y : SdSys} {i : Nat} (hi : i ∈ y.drainers) (h : CanDrain y i) : ∃ y' tr, Goes y y' tr ∧ SdLab.drained i ∈ tr := by
  have fin : ∀ z : SdSys, z.worker = .drainDone → i ∈ z.drainers → Accepted (.drain i) z.q → ∃ y' tr, Goes z y' tr ∧ SdLab.drained i ∈ tr := by
    intro z h1 h2 h3
    exact ⟨{ z with worker := .idle, drainers := z.drainers.erase i }, [.drained i], Goes.cons (if_pos ⟨h1, h2, h3⟩) (by simp) (Goes.nil _), by simp⟩
  have draining : ∀ z : SdSys, z.worker = .draining → i ∈ z.drainers → ∃ y' tr, Goes z y' tr ∧ SdLab.drained i ∈ tr := by
    intro z h1 h2
    obtain ⟨w, tr, g1, g2, g3, g4⟩ := to_done z.q h1 rfl
    obtain ⟨y', tr', g5, g6⟩ := fin w g2 (by rwa [g4]) (by rw [g3]; simp [Accepted])
    exact ⟨y', tr ++ tr', g1.trans g5, by simp [g6]⟩
  have idle : ∀ z : SdSys, z.worker = .idle → i ∈ z.drainers → DrainFirst z.q → ∃ y' tr, Goes z y' tr ∧ SdLab.drained i ∈ tr := by
    rintro z h1 h2 ⟨j, rest, h3⟩
    obtain ⟨w, tr, g1, g2, g3, g4, g5⟩ := to_first z.q h1 rfl h3
    obtain ⟨y', tr', g6, g7⟩ := draining { w with q := rest, worker := .draining } rfl (by show i ∈ w.drainers; rwa [g4])
    exact ⟨y', tr ++ .work :: tr', g1.trans (Goes.cons (by simp only [SdSys.step, SdSys.work, g2, g3]) (by simp) g6), by simp [g7]⟩
  unfold CanDrain at h
  split at h
  · next hw => exact idle y hw hi h
  · next hw => exact draining y hw hi
  · next hw =>
    rcases h with h | ⟨⟨k, h1, h2, h3⟩, h4⟩
    · exact fin y hw hi h
    · obtain ⟨y', tr, g1, g2⟩ := idle { y with worker := .idle, drainers := y.drainers.erase k } rfl ((List.mem_erase_of_ne (Ne.symm h2)).2 hi) h4
      exact ⟨y', .drained k :: tr, Goes.cons (if_pos ⟨hw, h1, h3⟩) (by simp) g1, by simp [g2]⟩
  · exact h.elim
  · exact h.elim

/-- **C32**, exactly, for `Stop`: whatever calls are under way, a call of `Stop` that has not returned can do so, without further calls, if and only if the sink is not being
drained and is not stopped, and the first call in the queue is a `Stop` (and the caller is not still waiting for room in the channel when the worker receives it). -/
theorem C32_stop_iff {y : SdSys} {i : Nat} (hi : i ∈ y.stoppers) :
    (∃ tr y', y.run tr = some y' ∧ NoCalls tr ∧ SdLab.stopped i ∈ tr) ↔ CanStop y i :=
  ⟨fun ⟨_, _, h, hn, hm⟩ => canStop_of_run h hn hm, fun h => by
    obtain ⟨y', tr, ⟨h1, h2⟩, h3⟩ := stop_possible hi h
    exact ⟨tr, y', h1, h2, h3⟩⟩

/-- **C32**, exactly, for `Drain`: a call of `Drain` that has not returned can do so, without further calls, if and only if a drain is under way, or the sink is not stopped and
the first call in the queue is a `Drain`. -/
theorem C32_drain_iff {y : SdSys} {i : Nat} (hi : i ∈ y.drainers) :
    (∃ tr y', y.run tr = some y' ∧ NoCalls tr ∧ SdLab.drained i ∈ tr) ↔ CanDrain y i :=
  ⟨fun ⟨_, _, h, hn, hm⟩ => canDrain_of_run h hn hm, fun h => by
    obtain ⟨y', tr, ⟨h1, h2⟩, h3⟩ := drain_possible hi h
    exact ⟨tr, y', h1, h2, h3⟩⟩

/-- two drains and a stop: when the first drain has begun, it can give its answer to either caller, and the stop is lost. -/
example (s : StatsD) : ∃ y, (SdSys.init s).run [.drain 1, .emit (Sample.ev "a"), .stop 7, .drain 2, .work] = some y ∧ 7 ∈ y.stoppers ∧ 1 ∈ y.drainers ∧ 2 ∈ y.drainers ∧
    ¬ CanStop y 7 ∧ CanDrain y 1 ∧ CanDrain y 2 :=
  ⟨_, rfl, by simp [SdSys.init], by simp [SdSys.init], by simp [SdSys.init], fun h => h, trivial, trivial⟩

/-- before the worker has received the drain, a stop that is queued first is answered, and no drain. -/
example (s : StatsD) : ∃ y, (SdSys.init s).run [.emit (Sample.ev "a"), .stop 7, .drain 2] = some y ∧ 7 ∈ y.stoppers ∧ 2 ∈ y.drainers ∧ CanStop y 7 ∧ ¬ CanDrain y 2 := by
  refine ⟨_, rfl, by simp [SdSys.init], by simp [SdSys.init], ⟨7, [.drain 2], rfl, by simp [Accepted]⟩, ?_⟩
  rintro ⟨j, rest, h⟩
  cases h

end SdRet
