import Verif.Model.PollRounds
import Verif.Props.HealthdLoop
/-!
# Rounds of polls (C104) and what is left after `Stop` (C105)
-/
namespace Rounds
open HdLoop

/-! ## Specification -/

/-- the hosts whose responses in round `r` are among these messages, in order. -/
def answered (r : Nat) (l : List Msg) : List Str := l.filterMap (fun m => if m.1 = r then m.2 else none)

/-- goroutines of a round that have not ended: the polls, those to be started, and the one that waits for them.  Each has one message to send. -/
def Round.goroutines (x : Round) : Nat := x.unspawned.length + x.polling.length + (if x.finished then 0 else 1)
/-- the goroutines of all rounds that have not ended. -/
def Sys.goroutines (s : Sys) : Nat := (s.rounds.map Round.goroutines).sum

/-! ## Lemmas -/

theorem run_append {s s1 s2 : Sys} {l1 l2 : List Lab} (h1 : run s l1 = some s1) (h2 : run s1 l2 = some s2) : run s (l1 ++ l2) = some s2 := by
  unfold run at *
  rw [List.foldlM_append, h1]
  exact h2

theorem run_cons {s s2 : Sys} {x : Lab} {l : List Lab} (h : run s (x :: l) = some s2) : ∃ s1, step s x = some s1 ∧ run s1 l = some s2 := by
  unfold run at *
  rw [List.foldlM_cons] at h
  exact Option.bind_eq_some_iff.1 h

theorem run_one {s s1 : Sys} {x : Lab} (h : step s x = some s1) : run s [x] = some s1 := by
  unfold run
  rw [List.foldlM_cons, h]
  rfl

theorem run_inv {P : Sys → Prop} (hstep : ∀ s x s', P s → step s x = some s' → P s') {s s' : Sys} {l : List Lab} (h0 : P s) (h : run s l = some s') : P s' := by
  induction l generalizing s with
  | nil => cases h; exact h0
  | cons x t ih =>
    obtain ⟨s1, h1, h2⟩ := run_cons h
    exact ih (hstep s x s1 h0 h1) h2

theorem sum_set (f : Round → Nat) {l : List Round} {r : Nat} {x : Round} (h : l[r]? = some x) (y : Round) :
    ((setRound l r y).map f).sum + f x = (l.map f).sum + f y := by
  unfold setRound
  induction l generalizing r with
  | nil => simp at h
  | cons a t ih =>
    cases r with
    | zero => simp at h; subst h; simp; omega
    | succ r =>
      simp only [List.getElem?_cons_succ] at h
      have := ih h
      simp only [List.set_cons_succ, List.map_cons, List.sum_cons]
      omega

theorem sum_zero {f : Round → Nat} {l : List Round} (h : ∀ x ∈ l, f x = 0) : (l.map f).sum = 0 := by
  induction l with
  | nil => rfl
  | cons a t ih => simp [h a List.mem_cons_self, ih (fun x hx => h x (List.mem_cons_of_mem _ hx))]

theorem get_set {l : List Round} {r : Nat} {x : Round} (h : l[r]? = some x) (y : Round) (r' : Nat) :
    (setRound l r y)[r']? = if r' = r then some y else l[r']? := by
  unfold setRound
  rw [List.getElem?_set]
  have := (List.getElem?_eq_some_iff.1 h).1
  by_cases e : r = r'
  · subst e; simp [this]
  · rw [if_neg e, if_neg (fun x => e x.symm)]

theorem answered_append (r : Nat) (a b : List Msg) : answered r (a ++ b) = answered r a ++ answered r b := List.filterMap_append ..

/-- everything sent on the channel. -/
def Sys.log (s : Sys) : List Msg := s.taken ++ s.chan

/-- what holds of round `r` when `log` was sent. -/
structure RoundOk (hosts : List Str) (log : List Msg) (r : Nat) (x : Round) : Prop where
  all : (x.unspawned ++ x.polling ++ answered r log).Perm hosts
  fin : x.finished = true → x.unspawned = [] ∧ x.polling = []
  nil : log.count (r, none) = if x.finished then 1 else 0

structure Inv (hosts : List Str) (s : Sys) : Prop where
  same : s.hosts = hosts
  rounds : ∀ r x, s.rounds[r]? = some x → RoundOk hosts s.log r x
  known : ∀ m ∈ s.log, m.1 < s.rounds.length
  last : ∀ u r v, s.log = u ++ (r, none) :: v → ∀ m ∈ v, m.1 ≠ r
  room : s.chan.length ≤ bufferSize

theorem log_snoc_last {l : List Msg} {m0 : Msg} (hl : ∀ u r v, l = u ++ (r, none) :: v → ∀ m ∈ v, m.1 ≠ r)
    (hm : (m0.1, none) ∉ l) : ∀ u r v, l ++ [m0] = u ++ (r, none) :: v → ∀ m ∈ v, m.1 ≠ r := by
  intro u r v e m hmv
  rcases List.eq_nil_or_concat v with rfl | ⟨v', z, rfl⟩
  · simp at hmv
  · rw [List.concat_eq_append, ← List.cons_append, ← List.append_assoc] at e
    obtain ⟨e1, e2⟩ := List.append_inj' e rfl
    cases e2
    rw [List.concat_eq_append, List.mem_append, List.mem_singleton] at hmv
    rcases hmv with h | rfl
    · exact hl u r v' e1 m h
    · rintro rfl
      exact hm (by rw [e1]; simp)

theorem step_inv {hosts : List Str} {s s' : Sys} {l : Lab} (hi : Inv hosts s) (hs : step s l = some s') : Inv hosts s' := by
  obtain ⟨h0, h1, h2, h3, h4⟩ := hi
  cases l with
  | tick =>
    simp only [step] at hs
    split at hs <;> [skip; cases hs]
    cases hs
    refine ⟨h0, ?_, ?_, h3, h4⟩
    · intro r x hx
      rw [List.getElem?_append] at hx
      split at hx
      · exact h1 r x hx
      · next hr =>
        have hn : ∀ m ∈ s.log, m.1 ≠ r := fun m hm e => by have := h2 m hm; omega
        rw [List.getElem?_singleton] at hx
        split at hx <;> [skip; cases hx]
        cases hx
        have ha : answered r s.log = [] := by
          unfold answered
          rw [List.filterMap_eq_nil_iff]
          intro m hm
          rw [if_neg (hn m hm)]
        refine ⟨?_, by simp, ?_⟩
        · show ((s.hosts ++ []) ++ answered r s.log).Perm hosts
          rw [ha, h0]; simp
        · rw [if_neg (by simp)]
          exact List.count_eq_zero.2 (fun hm => hn _ hm rfl)
    · intro m hm
      have := h2 m hm
      simp only [List.length_append, List.length_cons, List.length_nil]; omega
  | spawn r hp =>
    simp only [step] at hs
    split at hs <;> [skip; cases hs]
    rename_i x hx
    split at hs <;> [skip; cases hs]
    rename_i hmem
    cases hs
    refine ⟨h0, ?_, ?_, h3, h4⟩
    · intro r' y hy
      rw [get_set hx] at hy
      split at hy
      · rename_i e; subst e
        cases hy
        have := h1 _ x hx
        refine ⟨?_, ?_, this.nil⟩
        · refine List.Perm.trans ?_ this.all
          refine List.Perm.append_right _ ?_
          have := (List.perm_cons_erase hmem).append_right x.polling
          refine List.Perm.trans ?_ this.symm
          rw [← List.append_assoc]
          exact List.perm_append_singleton hp _
        · intro hf
          have h5 := (this.fin hf).1
          rw [h5] at hmem; cases hmem
      · exact h1 r' y hy
    · intro m hm
      have := h2 m hm
      simpa [setRound] using this
  | deliver r hp =>
    simp only [step] at hs
    split at hs <;> [skip; cases hs]
    rename_i x hx
    split at hs <;> [skip; cases hs]
    rename_i hmem
    cases hs
    have hnf : x.finished = false := by
      cases hf : x.finished with
      | false => rfl
      | true => have := ((h1 _ x hx).fin hf).2; rw [this] at hmem; cases hmem.1
    have hlog : s.taken ++ (s.chan ++ [(r, some hp)]) = s.log ++ [(r, some hp)] := by simp [Sys.log]
    have hno : (r, none) ∉ s.log := by
      have := (h1 _ x hx).nil
      rw [hnf] at this
      exact List.count_eq_zero.1 this
    refine ⟨h0, ?_, ?_, ?_, ?_⟩
    · intro r' y hy
      rw [get_set hx] at hy
      show RoundOk hosts (s.taken ++ (s.chan ++ [(r, some hp)])) r' y
      rw [hlog]
      split at hy
      · rename_i e; subst e
        cases hy
        have h5 := h1 _ x hx
        refine ⟨?_, ?_, ?_⟩
        · refine List.Perm.trans ?_ h5.all
          rw [answered_append, List.append_assoc, List.append_assoc]
          refine List.Perm.append_left _ ?_
          have h6 := (List.perm_cons_erase hmem.1).append_right (answered r' s.log)
          refine List.Perm.trans ?_ h6.symm
          have : answered r' [(r', some hp)] = [hp] := by simp [answered]
          rw [this, ← List.append_assoc]
          exact List.perm_append_singleton hp _
        · intro hf
          rw [hnf] at hf; cases hf
        · rw [List.count_append, h5.nil]; simp
      · rename_i hne
        have h5 := h1 _ y hy
        refine ⟨?_, h5.fin, ?_⟩
        · rw [answered_append]
          have : answered r' [(r, some hp)] = [] := by simp [answered, Ne.symm hne]
          rw [this, List.append_nil]; exact h5.all
        · rw [List.count_append, h5.nil]; simp
    · intro m hm
      have hm : m ∈ s.taken ++ (s.chan ++ [(r, some hp)]) := hm
      rw [hlog, List.mem_append, List.mem_singleton] at hm
      show m.1 < (setRound s.rounds r _).length
      simp only [setRound, List.length_set]
      rcases hm with hm | rfl
      · exact h2 m hm
      · exact (List.getElem?_eq_some_iff.1 hx).1
    · show ∀ u r' v, s.taken ++ (s.chan ++ [(r, some hp)]) = u ++ (r', none) :: v → _
      rw [hlog]
      exact log_snoc_last h3 hno
    · have := hmem.2
      show (s.chan ++ [(r, some hp)]).length ≤ _
      simp; omega
  | finish r =>
    simp only [step] at hs
    split at hs <;> [skip; cases hs]
    rename_i x hx
    split at hs <;> [skip; cases hs]
    rename_i hc
    obtain ⟨hu, hpo, hnf, hroom⟩ := hc
    cases hs
    have hlog : s.taken ++ (s.chan ++ [(r, none)]) = s.log ++ [(r, none)] := by simp [Sys.log]
    have hno : (r, none) ∉ s.log := by
      have := (h1 _ x hx).nil
      rw [hnf] at this
      exact List.count_eq_zero.1 this
    have hans : ∀ r', answered r' (s.log ++ [(r, none)]) = answered r' s.log := by
      intro r'
      rw [answered_append]
      have : answered r' [(r, none)] = [] := by simp [answered]
      rw [this, List.append_nil]
    refine ⟨h0, ?_, ?_, ?_, ?_⟩
    · intro r' y hy
      rw [get_set hx] at hy
      show RoundOk hosts (s.taken ++ (s.chan ++ [(r, none)])) r' y
      rw [hlog]
      split at hy
      · rename_i e; subst e
        cases hy
        have h5 := h1 _ x hx
        refine ⟨by rw [hans]; exact h5.all, fun _ => ⟨hu, hpo⟩, ?_⟩
        rw [List.count_append, h5.nil, hnf]; simp
      · rename_i hne
        have h5 := h1 _ y hy
        refine ⟨by rw [hans]; exact h5.all, h5.fin, ?_⟩
        rw [List.count_append, h5.nil]; simp [Ne.symm hne]
    · intro m hm
      have hm : m ∈ s.taken ++ (s.chan ++ [(r, none)]) := hm
      rw [hlog, List.mem_append, List.mem_singleton] at hm
      show m.1 < (setRound s.rounds r _).length
      simp only [setRound, List.length_set]
      rcases hm with hm | rfl
      · exact h2 m hm
      · exact (List.getElem?_eq_some_iff.1 hx).1
    · show ∀ u r' v, s.taken ++ (s.chan ++ [(r, none)]) = u ++ (r', none) :: v → _
      rw [hlog]
      exact log_snoc_last h3 hno
    · show (s.chan ++ [(r, none)]).length ≤ _
      simp; omega
  | consume =>
    simp only [step] at hs
    split at hs <;> [skip; cases hs]
    rename_i r hp q hq
    split at hs <;> [skip; cases hs]
    cases hs
    have hlog : (s.taken ++ [(r, some hp)]) ++ q = s.log := by simp [Sys.log, hq]
    refine ⟨h0, fun r' y hy => ?_, fun m hm => ?_, ?_, ?_⟩
    · show RoundOk hosts ((s.taken ++ [(r, some hp)]) ++ q) r' y
      rw [hlog]; exact h1 r' y hy
    · have hm : m ∈ (s.taken ++ [(r, some hp)]) ++ q := hm
      rw [hlog] at hm; exact h2 m hm
    · show ∀ u r' v, (s.taken ++ [(r, some hp)]) ++ q = u ++ (r', none) :: v → _
      rw [hlog]; exact h3
    · rw [hq] at h4; simp at h4; show q.length ≤ _; omega
  | allIn =>
    simp only [step] at hs
    split at hs <;> [skip; cases hs]
    rename_i r q hq
    split at hs <;> [skip; cases hs]
    cases hs
    have hlog : (s.taken ++ [(r, none)]) ++ q = s.log := by simp [Sys.log, hq]
    refine ⟨h0, fun r' y hy => ?_, fun m hm => ?_, ?_, ?_⟩
    · show RoundOk hosts ((s.taken ++ [(r, none)]) ++ q) r' y
      rw [hlog]; exact h1 r' y hy
    · have hm : m ∈ (s.taken ++ [(r, none)]) ++ q := hm
      rw [hlog] at hm; exact h2 m hm
    · show ∀ u r' v, (s.taken ++ [(r, none)]) ++ q = u ++ (r', none) :: v → _
      rw [hlog]; exact h3
    · rw [hq] at h4; simp at h4; show q.length ≤ _; omega
  | other l =>
    simp only [step] at hs
    split at hs <;> [cases hs; skip]
    obtain ⟨z, _, rfl⟩ := Option.map_eq_some_iff.1 hs
    exact ⟨h0, h1, h2, h3, h4⟩

theorem inv_init (clock : Int) (hosts : List Str) : Inv hosts (init clock hosts) := by
  refine ⟨rfl, ?_, by simp [init, Sys.log], by simp [init, Sys.log], by simp [init]⟩
  intro r x hx
  simp only [init, List.getElem?_singleton] at hx
  split at hx <;> [skip; cases hx]
  cases hx
  exact ⟨by simp [init, Sys.log, answered], by simp, by simp [init, Sys.log]⟩

theorem inv_run {clock : Int} {hosts : List Str} {s : Sys} {l : List Lab} (h : run (init clock hosts) l = some s) : Inv hosts s :=
  run_inv (fun _ _ _ hi hs => step_inv hi hs) (inv_init clock hosts) h

/-! ## C104 -/

/-- **C104**: when the aggregation goroutine receives the nil of a round (and recalculates), it has received a response of every host in that
round, one of each; nothing of this round is received afterwards. -/
theorem C104_sentinel {clock : Int} {hosts : List Str} {s : Sys} {l : List Lab} (h : run (init clock hosts) l = some s)
    (u v : List Msg) (r : Nat) (hr : s.taken = u ++ (r, none) :: v) :
    (answered r u).Perm hosts ∧ ∀ m ∈ v ++ s.chan, m.1 ≠ r := by
  have hi := inv_run h
  have hlog : s.log = u ++ (r, none) :: (v ++ s.chan) := by simp [Sys.log, hr]
  have hlast := hi.last u r _ hlog
  refine ⟨?_, hlast⟩
  have hlt : r < s.rounds.length := hi.known (r, none) (by rw [hlog]; simp)
  have hx : s.rounds[r]? = some s.rounds[r] := List.getElem?_eq_getElem hlt
  have hok := hi.rounds r _ hx
  have hf : s.rounds[r].finished = true := by
    cases hf : s.rounds[r].finished with
    | true => rfl
    | false =>
      have := hok.nil
      rw [hf] at this
      exact absurd (List.count_eq_zero.1 this) (by rw [hlog]; simp)
  have hall := hok.all
  rw [(hok.fin hf).1, (hok.fin hf).2, hlog, answered_append] at hall
  have hz : answered r ((r, none) :: (v ++ s.chan)) = [] := by
    unfold answered
    rw [List.filterMap_eq_nil_iff]
    intro m hm
    rcases List.mem_cons.1 hm with rfl | hm
    · simp
    · rw [if_neg (hlast m hm)]
  rw [hz] at hall
  simpa using hall

/-- **C104**: in every round every host is polled exactly once: its goroutine is still to be started, or under way, or its response was
sent. -/
theorem C104_once {clock : Int} {hosts : List Str} {s : Sys} {l : List Lab} (h : run (init clock hosts) l = some s) (r : Nat) (x : Round)
    (hx : s.rounds[r]? = some x) : (x.unspawned ++ x.polling ++ answered r (s.taken ++ s.chan)).Perm hosts :=
  ((inv_run h).rounds r x hx).all

/-! ## C104: the coarser model -/

/-- what `Model/HealthdLoop.lean` sees of a state: how many polls there are, and how many responses. -/
def withCounts (z : HdLoop.Sys) (p q : Nat) : HdLoop.Sys := { z with polling := p, responses := q }
def Round.polls (x : Round) : Nat := x.unspawned.length + x.polling.length
def Sys.polls (s : Sys) : Nat := (s.rounds.map Round.polls).sum
def Sys.view (s : Sys) : HdLoop.Sys := withCounts s.rest s.polls (s.chan.countP (·.2.isSome))

/-- a step there for each step here. -/
def Lab.view (hosts : List Str) : Lab → List HdLoop.Lab
  | .tick => [.tick hosts.length]
  | .spawn _ _ => []
  | .deliver _ _ => [.deliver]
  | .finish _ => []
  | .consume => [.consume]
  | .allIn => [.allIn]
  | .other l => [l]

theorem other_step (z : HdLoop.Sys) (p q : Nat) (l : HdLoop.Lab) (h : aboutPolls l = false) :
    HdLoop.step (withCounts z p q) l = (HdLoop.step z l).map (fun z' => withCounts z' p q) := by
  unfold withCounts
  cases l with
  | wake =>
    simp only [HdLoop.step]
    cases z.deb <;> simp only [Option.map_none]
    split <;> rfl
  | accept k =>
    simp only [HdLoop.step]
    cases z.main <;> cases z.queue k <;> rfl
  | reply =>
    simp only [HdLoop.step]
    cases z.main <;> rfl
  | advance n => rfl
  | tick _ => cases h
  | deliver => cases h
  | consume => cases h
  | allIn => cases h
  | _ => simp only [HdLoop.step]; split <;> rfl

theorem view_step {s s' : Sys} {l : Lab} (hs : step s l = some s') : HdLoop.run s.view (l.view s.hosts) = some s'.view ∧ s'.hosts = s.hosts := by
  cases l with
  | tick =>
    simp only [step] at hs
    split at hs <;> [skip; cases hs]
    rename_i hm
    cases hs
    refine ⟨HdLoop.run_one ?_, rfl⟩
    simp [HdLoop.step, Sys.view, withCounts, Sys.polls, Round.polls, hm]
  | spawn r hp =>
    simp only [step] at hs
    split at hs <;> [skip; cases hs]
    rename_i x hx
    split at hs <;> [skip; cases hs]
    rename_i hmem
    cases hs
    refine ⟨?_, rfl⟩
    have h1 := sum_set Round.polls hx { x with unspawned := x.unspawned.erase hp, polling := x.polling ++ [hp] }
    have h2 := List.length_erase_of_mem hmem
    have h3 := List.length_pos_of_mem hmem
    simp only [Round.polls, List.length_append, List.length_cons, List.length_nil] at h1
    refine congrArg some (congrArg (fun p => withCounts s.rest p _) ?_)
    simp only [Sys.polls, Round.polls]
    omega
  | deliver r hp =>
    simp only [step] at hs
    split at hs <;> [skip; cases hs]
    rename_i x hx
    split at hs <;> [skip; cases hs]
    rename_i hmem
    cases hs
    refine ⟨HdLoop.run_one ?_, rfl⟩
    have h1 := sum_set Round.polls hx { x with polling := x.polling.erase hp }
    have h2 := List.length_erase_of_mem hmem.1
    have h3 := List.length_pos_of_mem hmem.1
    simp only [Round.polls] at h1
    have h4 := List.countP_le_length (p := fun m : Msg => m.2.isSome) (l := s.chan)
    have h5 : s.polls > 0 := by simp only [Sys.polls, Round.polls]; omega
    have h6 : s.chan.countP (·.2.isSome) < bufferSize := lt_of_le_of_lt h4 hmem.2
    refine (if_pos (⟨h5, h6⟩ : s.view.polling > 0 ∧ s.view.responses < bufferSize)).trans ?_
    refine congrArg some (congrArg₂ (withCounts s.rest) ?_ ?_)
    · show s.polls - 1 = ((setRound s.rounds r _).map Round.polls).sum
      simp only [Sys.polls, Round.polls] at h5 ⊢; omega
    · show s.chan.countP (·.2.isSome) + 1 = _
      simp [List.countP_append]
  | finish r =>
    simp only [step] at hs
    split at hs <;> [skip; cases hs]
    rename_i x hx
    split at hs <;> [skip; cases hs]
    cases hs
    refine ⟨?_, rfl⟩
    have h1 := sum_set Round.polls hx { x with finished := true }
    refine congrArg some (congrArg₂ (withCounts s.rest) ?_ ?_)
    · simp only [Sys.polls, Round.polls] at h1 ⊢; omega
    · simp [List.countP_append]
  | consume =>
    simp only [step] at hs
    split at hs <;> [skip; cases hs]
    rename_i r hp q hq
    split at hs <;> [skip; cases hs]
    rename_i hm
    cases hs
    refine ⟨HdLoop.run_one ?_, rfl⟩
    simp [HdLoop.step, Sys.view, withCounts, Sys.polls, hm, hq]
  | allIn =>
    simp only [step] at hs
    split at hs <;> [skip; cases hs]
    rename_i r q hq
    split at hs <;> [skip; cases hs]
    rename_i hm
    cases hs
    refine ⟨HdLoop.run_one ?_, rfl⟩
    simp [HdLoop.step, Sys.view, withCounts, Sys.polls, hm, hq]
  | other l =>
    simp only [step] at hs
    split at hs <;> [cases hs; skip]
    rename_i ha
    obtain ⟨z, hz, rfl⟩ := Option.map_eq_some_iff.1 hs
    refine ⟨HdLoop.run_one ?_, rfl⟩
    unfold Sys.view
    rw [other_step _ _ _ _ (by simpa using ha), hz]
    rfl

/-- **C104**: every execution is, seen without the contents of the channel, one of `Model/HealthdLoop.lean`: what C50, C51, C86 and C93 say of all
executions there holds here. -/
theorem C104_refines {clock : Int} {hosts : List Str} {s : Sys} {l : List Lab} (h : run (init clock hosts) l = some s) :
    HdLoop.run (HdLoop.init clock hosts.length) (l.flatMap (Lab.view hosts)) = some s.view := by
  have hgen : ∀ (l : List Lab) (s0 s : Sys), run s0 l = some s → HdLoop.run s0.view (l.flatMap (Lab.view s0.hosts)) = some s.view := by
    intro l
    induction l with
    | nil => intro s0 s h; cases h; rfl
    | cons x t ih =>
      intro s0 s h
      obtain ⟨s1, h1, h2⟩ := run_cons h
      obtain ⟨h3, h4⟩ := view_step h1
      rw [List.flatMap_cons]
      exact HdLoop.run_append h3 (h4 ▸ ih s1 s h2)
  have := hgen l _ s h
  simpa [init, Sys.view, withCounts, Sys.polls, Round.polls, HdLoop.init] using this

/-- no nil is in the channel. -/
def NoNil (s : Sys) : Prop := ∀ m ∈ s.chan, m.2.isSome = true

/-- no round begins, and no nil is received. -/
def Calm (s s' : Sys) : Prop := s'.rounds.length = s.rounds.length ∧ ((∀ m ∈ s.taken, m.2.isSome = true) → ∀ m ∈ s'.taken, m.2.isSome = true)

/-- a step of the coarser model, other than a tick and a nil, is possible here too. -/
theorem lift_step {s : Sys} {l : HdLoop.Lab} {t : HdLoop.Sys} (hn : NoNil s) (hl : l.plain = true) (ht : HdLoop.step s.view l = some t) :
    ∃ ls s', run s ls = some s' ∧ s'.view = t ∧ NoNil s' ∧ Calm s s' := by
  have hcount : s.chan.countP (·.2.isSome) = s.chan.length := List.countP_eq_length.2 hn
  by_cases ha : aboutPolls l = false
  · unfold Sys.view at ht
    rw [other_step _ _ _ _ ha] at ht
    obtain ⟨z, hz, rfl⟩ := Option.map_eq_some_iff.1 ht
    have hs : step s (.other l) = some { s with rest := z } := by simp only [step]; rw [if_neg (by rw [ha]; simp), hz]; rfl
    exact ⟨[.other l], _, run_one hs, rfl, hn, rfl, id⟩
  · have hd : ∀ (s : Sys) (r : Nat) (x : Round) (hp : Str), s.rounds[r]? = some x → hp ∈ x.polling → NoNil s → HdLoop.step s.view .deliver = some t →
        ∃ s', run s [.deliver r hp] = some s' ∧ s'.view = t ∧ NoNil s' ∧ Calm s s' := by
      intro s r x hp hx hmem hn ht
      have hcount : s.chan.countP (·.2.isSome) = s.chan.length := List.countP_eq_length.2 hn
      have hroom : s.chan.length < bufferSize := by
        simp only [HdLoop.step] at ht
        split at ht <;> [skip; cases ht]
        rename_i h; have := h.2; simp only [Sys.view, withCounts, hcount] at this; exact this
      have hs : step s (.deliver r hp) = some { s with rounds := setRound s.rounds r { x with polling := x.polling.erase hp }, chan := s.chan ++ [(r, some hp)] } := by
        simp only [step, hx]; rw [if_pos ⟨hmem, hroom⟩]
      refine ⟨_, run_one hs, ?_, ?_, by simp [setRound], id⟩
      · have h1 := (view_step hs).1
        obtain ⟨z, hz1, hz2⟩ : ∃ z, HdLoop.step s.view .deliver = some z ∧ some z = some _ := by
          unfold HdLoop.run at h1
          simp only [Lab.view, List.foldlM_cons, List.foldlM_nil] at h1
          exact Option.bind_eq_some_iff.1 h1
        rw [ht] at hz1
        cases hz1
        exact (Option.some.inj hz2).symm
      · intro m hm
        rcases List.mem_append.1 hm with hm | hm
        · exact hn m hm
        · rw [List.mem_singleton.1 hm]; rfl
    cases l with
    | tick n => cases hl
    | allIn => cases hl
    | deliver =>
      have hpos : 0 < s.polls := by
        simp only [HdLoop.step] at ht
        split at ht <;> [skip; cases ht]
        rename_i h; exact h.1
      obtain ⟨x, hxm, hx⟩ : ∃ x ∈ s.rounds, 0 < x.unspawned.length + x.polling.length := by
        by_contra hno
        push Not at hno
        have : s.polls = 0 := by
          unfold Sys.polls
          refine sum_zero (fun x hx => ?_)
          have := hno x hx
          unfold Round.polls; omega
        omega
      obtain ⟨r, hr⟩ := List.mem_iff_getElem?.1 hxm
      rcases List.eq_nil_or_concat x.polling with hpe | ⟨pre, hp, hpe⟩
      · cases hu : x.unspawned with
        | nil => rw [hpe, hu] at hx; simp at hx
        | cons hp rest =>
          have hmem : hp ∈ x.unspawned := by rw [hu]; simp
          have hs : step s (.spawn r hp) = some { s with rounds := setRound s.rounds r { x with unspawned := x.unspawned.erase hp, polling := x.polling ++ [hp] } } := by
            simp only [step, hr]; rw [if_pos hmem]
          have hv := (view_step hs).1
          simp only [Lab.view] at hv
          have hv : s.view = _ := Option.some.inj hv
          rw [hv] at ht
          obtain ⟨s', h1, h2, h3, h4, h5⟩ := hd { s with rounds := setRound s.rounds r { x with unspawned := x.unspawned.erase hp, polling := x.polling ++ [hp] } } r _ hp ((get_set hr _ r).trans (if_pos rfl)) (by simp) hn ht
          exact ⟨_, s', run_append (run_one hs) h1, h2, h3, h4.trans (by simp [setRound]), h5⟩
      · obtain ⟨s', h1, h2, h3⟩ := hd s r x hp hr (by rw [hpe]; simp) hn ht
        exact ⟨_, s', h1, h2, h3⟩
    | consume =>
      simp only [HdLoop.step] at ht
      split at ht <;> [skip; cases ht]
      rename_i hc
      obtain ⟨hm, hpos⟩ := hc
      cases hq : s.chan with
      | nil => simp [Sys.view, withCounts, hq] at hpos
      | cons m q =>
        obtain ⟨r, o⟩ := m
        have ho := hn (r, o) (by rw [hq]; simp)
        cases o with
        | none => cases ho
        | some hp =>
          have hs : step s .consume = some { s with rest := { s.rest with main := .requesting }, chan := q, taken := s.taken ++ [(r, some hp)] } := by
            simp only [step, hq]; exact if_pos hm
          refine ⟨[.consume], _, run_one hs, ?_, fun m hm => hn m (by rw [hq]; exact List.mem_cons_of_mem _ hm), rfl, fun h m hm => ?_⟩
          swap
          · rcases List.mem_append.1 hm with hm | hm
            · exact h m hm
            · rw [List.mem_singleton.1 hm]; rfl
          cases ht
          simp [Sys.view, withCounts, Sys.polls, hq]
    | _ => exact absurd rfl ha

/-- the deadlock of `C50_false` is reached in this model. -/
theorem deadlock_reached (clock : Int) (hc : 0 < clock) (hosts : List Str) (hh : 66 ≤ hosts.length) :
    ∃ l s, run (init clock hosts) l = some s ∧ HdLoop.Stuck s.view ∧ (∀ i, s.view.req i = .notCalled) ∧ s.view.stop = .notCalled ∧
      s.rounds.length = 1 ∧ ∀ m ∈ s.taken, m.2.isSome = true := by
  obtain ⟨t, ⟨l, hl, hp⟩, h1, h2, h3⟩ := HdLoop.stuck_reached clock hc hosts.length hh
  have lift : ∀ (l : List HdLoop.Lab) (s : Sys) (t : HdLoop.Sys), NoNil s → (∀ x ∈ l, x.plain = true) → HdLoop.run s.view l = some t →
      ∃ ls s', run s ls = some s' ∧ s'.view = t ∧ Calm s s' := by
    intro l
    induction l with
    | nil => intro s t _ _ h; cases h; exact ⟨[], s, rfl, rfl, rfl, id⟩
    | cons x xs ih =>
      intro s t hn hp h
      unfold HdLoop.run at h
      rw [List.foldlM_cons] at h
      obtain ⟨z, hz1, hz2⟩ := Option.bind_eq_some_iff.1 h
      obtain ⟨ls, s', a, b, c, c1, c2⟩ := lift_step hn (hp x List.mem_cons_self) hz1
      subst b
      obtain ⟨ls', s'', d, e, e1, e2⟩ := ih s' t c (fun y hy => hp y (List.mem_cons_of_mem _ hy)) hz2
      exact ⟨ls ++ ls', s'', run_append a d, e, e1.trans c1, fun h => e2 (c2 h)⟩
  have hv : (init clock hosts).view = HdLoop.init clock hosts.length := by simp [init, Sys.view, withCounts, Sys.polls, Round.polls, HdLoop.init]
  obtain ⟨ls, s, hs, rfl, e1, e2⟩ := lift l (init clock hosts) t (by intro m hm; cases hm) hp (by rw [hv]; exact hl)
  exact ⟨ls, s, hs, h1, h2, h3, e1, e2 (by intro m hm; cases hm)⟩

/-- **C50 is false in this model too**: with 66 hosts or more, the aggregation loop and the debouncer can come to wait for each other for ever in
the first round of polls. -/
theorem C104_deadlock (clock : Int) (hc : 0 < clock) (hosts : List Str) (hh : 66 ≤ hosts.length) :
    ∃ l s, run (init clock hosts) l = some s ∧ ∀ l' s', run s l' = some s' →
      s'.rest.main = .requesting ∧ s'.rest.deb = .sending ∧ (∀ i, s'.rest.req i ≠ .answered) ∧ s'.rest.stop ≠ .returned := by
  obtain ⟨ls, s, hs, h1, h2, h3, _⟩ := deadlock_reached clock hc hosts hh
  refine ⟨ls, s, hs, fun l' s' hr => ?_⟩
  have hgen : ∀ (l : List Lab) (s0 s : Sys), run s0 l = some s → HdLoop.run s0.view (l.flatMap (Lab.view s0.hosts)) = some s.view := by
    intro l
    induction l with
    | nil => intro s0 s h; cases h; rfl
    | cons x t ih =>
      intro s0 s h
      obtain ⟨s1, h1, h2⟩ := run_cons h
      obtain ⟨h3, h4⟩ := view_step h1
      rw [List.flatMap_cons]
      exact HdLoop.run_append h3 (h4 ▸ ih s1 s h2)
  obtain ⟨a, b, c⟩ := HdLoop.stuck_for_ever h1 (hgen l' s s' hr)
  exact ⟨a.1, a.2.2, fun i hi => (nomatch (h2 i).symm.trans (b i hi)), fun hi => (nomatch h3.symm.trans (c hi))⟩

/-! ## C105: what `Stop` leaves behind -/

/-- after `Stop` nothing is received any more: what is not in the channel stays to be sent. -/
theorem stopped_step {s s' : Sys} {l : Lab} (hm : s.rest.main = .stopped) (hs : step s l = some s') :
    s'.rest.main = .stopped ∧ s'.chan.length + s'.goroutines = s.chan.length + s.goroutines ∧ (s.rest.deb = .sending → s'.rest.deb = .sending) := by
  cases l with
  | tick => simp [step, hm] at hs
  | consume =>
    simp only [step, hm] at hs
    split at hs
    · simp at hs
    · cases hs
  | allIn =>
    simp only [step, hm] at hs
    split at hs
    · simp at hs
    · cases hs
  | spawn r hp =>
    simp only [step] at hs
    split at hs <;> [skip; cases hs]
    rename_i x hx
    split at hs <;> [skip; cases hs]
    rename_i hmem
    cases hs
    have h1 := sum_set Round.goroutines hx { x with unspawned := x.unspawned.erase hp, polling := x.polling ++ [hp] }
    have h2 := List.length_erase_of_mem hmem
    have h3 := List.length_pos_of_mem hmem
    refine ⟨hm, ?_, fun h => h⟩
    simp only [Round.goroutines, List.length_append, List.length_cons, List.length_nil] at h1
    simp only [Sys.goroutines]
    omega
  | deliver r hp =>
    simp only [step] at hs
    split at hs <;> [skip; cases hs]
    rename_i x hx
    split at hs <;> [skip; cases hs]
    rename_i hmem
    cases hs
    have h1 := sum_set Round.goroutines hx { x with polling := x.polling.erase hp }
    have h2 := List.length_erase_of_mem hmem.1
    have h3 := List.length_pos_of_mem hmem.1
    refine ⟨hm, ?_, fun h => h⟩
    simp only [Round.goroutines] at h1
    simp only [Sys.goroutines, List.length_append, List.length_cons, List.length_nil]
    omega
  | finish r =>
    simp only [step] at hs
    split at hs <;> [skip; cases hs]
    rename_i x hx
    split at hs <;> [skip; cases hs]
    rename_i hc
    cases hs
    have h1 := sum_set Round.goroutines hx { x with finished := true }
    refine ⟨hm, ?_, fun h => h⟩
    simp only [Round.goroutines, hc.2.2.1] at h1
    simp only [Sys.goroutines, List.length_append, List.length_cons, List.length_nil]
    simp at h1
    omega
  | other l =>
    simp only [step] at hs
    split at hs <;> [cases hs; skip]
    obtain ⟨z, hz, rfl⟩ := Option.map_eq_some_iff.1 hs
    refine ⟨?_, rfl, ?_⟩
    · show z.main = .stopped
      cases l with
      | wake =>
        simp only [HdLoop.step] at hz
        split at hz
        · split at hz <;> cases hz; exact hm
        · cases hz
      | accept k =>
        simp only [HdLoop.step, hm] at hz
        cases hz
      | reply =>
        simp only [HdLoop.step, hm] at hz
        cases hz
      | advance n => cases hz; exact hm
      | _ => simp only [HdLoop.step, hm] at hz; split at hz <;> simp_all <;> (subst hz; rfl)
    · intro hd
      show z.deb = .sending
      cases l with
      | wake => simp only [HdLoop.step, hd] at hz; cases hz
      | accept k => simp only [HdLoop.step, hm] at hz; cases hz
      | reply => simp only [HdLoop.step, hm] at hz; cases hz
      | advance n => cases hz; exact hd
      | _ => simp only [HdLoop.step, hm, hd] at hz; split at hz <;> simp_all <;> (subst hz; rfl)

theorem stopped_run {s s' : Sys} {l : List Lab} (hm : s.rest.main = .stopped) (h : run s l = some s') :
    s'.rest.main = .stopped ∧ s'.chan.length + s'.goroutines = s.chan.length + s.goroutines ∧ (s.rest.deb = .sending → s'.rest.deb = .sending) := by
  refine run_inv (P := fun s' => s'.rest.main = .stopped ∧ s'.chan.length + s'.goroutines = s.chan.length + s.goroutines ∧
    (s.rest.deb = .sending → s'.rest.deb = .sending)) ?_ ⟨hm, rfl, fun h => h⟩ h
  rintro s1 x s2 ⟨a, b, c⟩ hs
  obtain ⟨d, e, f⟩ := stopped_step a hs
  exact ⟨d, by omega, fun h => f (c h)⟩

/-- if there is room in the channel, a goroutine can end. -/
theorem one_ends {s : Sys} (hroom : s.chan.length < bufferSize) (hpos : 0 < s.goroutines) :
    ∃ l s', run s l = some s' ∧ s'.chan.length = s.chan.length + 1 ∧ s'.rest = s.rest := by
  obtain ⟨x, hxm, hx⟩ : ∃ x ∈ s.rounds, 0 < x.goroutines := by
    by_contra hno
    push Not at hno
    have : s.goroutines = 0 := sum_zero (fun x hx => by have := hno x hx; omega)
    omega
  obtain ⟨r, hr⟩ := List.mem_iff_getElem?.1 hxm
  rcases List.eq_nil_or_concat x.polling with hpe | ⟨pre, hp, hpe⟩
  · cases hu : x.unspawned with
    | nil =>
      have hf : x.finished = false := by
        cases hf : x.finished with
        | false => rfl
        | true => simp [Round.goroutines, hpe, hu, hf] at hx
      have hs : step s (.finish r) = some { s with rounds := setRound s.rounds r { x with finished := true }, chan := s.chan ++ [(r, none)] } := by
        simp only [step, hr]; rw [if_pos ⟨hu, hpe, hf, hroom⟩]
      exact ⟨_, _, run_one hs, by simp, rfl⟩
    | cons hp rest =>
      have hmem : hp ∈ x.unspawned := by rw [hu]; simp
      have hs : step s (.spawn r hp) = some { s with rounds := setRound s.rounds r { x with unspawned := x.unspawned.erase hp, polling := x.polling ++ [hp] } } := by
        simp only [step, hr]; rw [if_pos hmem]
      have hs2 : step { s with rounds := setRound s.rounds r { x with unspawned := x.unspawned.erase hp, polling := x.polling ++ [hp] } } (.deliver r hp) =
          some { s with
            rounds := setRound (setRound s.rounds r { x with unspawned := x.unspawned.erase hp, polling := x.polling ++ [hp] }) r
              { x with unspawned := x.unspawned.erase hp, polling := (x.polling ++ [hp]).erase hp }
            chan := s.chan ++ [(r, some hp)] } := by
        simp only [step, get_set hr, if_true]
        rw [if_pos ⟨by simp, hroom⟩]
      exact ⟨_, _, run_append (run_one hs) (run_one hs2), by simp, rfl⟩
  · have hs : step s (.deliver r hp) = some { s with rounds := setRound s.rounds r { x with polling := x.polling.erase hp }, chan := s.chan ++ [(r, some hp)] } := by
      simp only [step, hr]; rw [if_pos ⟨by rw [hpe]; simp, hroom⟩]
    exact ⟨_, _, run_one hs, by simp, rfl⟩

/-- **C105** (`_partial`: the full statement, that every goroutine that healthd started ends after `Stop`, is refuted by `C105_false`): once the
aggregation loop has ended, the goroutines of the polls that remain are in every continuation at least as many as do not fit in the channel any
more, and in some continuation exactly that many.  So they can all end if and only if what is in the channel and what is still to be sent are
together at most 64 messages. -/
theorem C105_polls_partial {clock : Int} {hosts : List Str} {s : Sys} {l : List Lab} (h : run (init clock hosts) l = some s) (hm : s.rest.main = .stopped) :
    (∀ l' s', run s l' = some s' → s.goroutines + s.chan.length - 64 ≤ s'.goroutines) ∧
    ∃ l' s', run s l' = some s' ∧ s'.goroutines = s.goroutines + s.chan.length - 64 := by
  constructor
  · intro l' s' hr
    have h1 := (inv_run (run_append h hr)).room
    have h2 := (stopped_run hm hr).2.1
    unfold bufferSize at h1
    omega
  · have key : ∀ (n : Nat) (s : Sys), s.goroutines = n → s.chan.length ≤ 64 → s.rest.main = .stopped →
        ∃ l' s', run s l' = some s' ∧ s'.goroutines = s.goroutines + s.chan.length - 64 := by
      intro n
      induction n with
      | zero => intro s hn hc _; exact ⟨[], s, rfl, by omega⟩
      | succ n ih =>
        intro s hn hc hm
        by_cases hroom : s.chan.length < 64
        · obtain ⟨l1, s1, h1, h2, h3⟩ := one_ends hroom (by omega)
          have h4 := (stopped_run hm h1)
          obtain ⟨l2, s2, h5, h6⟩ := ih s1 (by omega) (by omega) h4.1
          exact ⟨l1 ++ l2, s2, run_append h1 h5, by omega⟩
        · exact ⟨[], s, rfl, by omega⟩
    exact key _ s rfl (inv_run h).room hm

/-- the debouncer's own steps. -/
def debouncerSteps : List HdLoop.Lab := [.take, .sleep, .wake, .check]

/-- **C105, the debouncer**: it never ends.  If it is about to fire when the loop has ended, it waits for ever; otherwise its next step is
possible, at once or when its sleep is over. -/
theorem C105_debouncer {s : Sys} (hm : s.rest.main = .stopped) :
    (s.rest.deb = .sending → ∀ l' s', run s l' = some s' → s'.rest.deb = .sending) ∧
    (s.rest.deb ≠ .sending → ∃ n x s', x ∈ debouncerSteps ∧ run s [.other (.advance n), .other x] = some s') := by
  refine ⟨fun hd l' s' hr => (stopped_run hm hr).2.2 hd, fun hd => ?_⟩
  have two : ∀ (n : Nat) x z, x ∈ debouncerSteps → HdLoop.step { s.rest with clock := s.rest.clock + n } x = some z →
      ∃ n x s', x ∈ debouncerSteps ∧ run s [.other (.advance n), .other x] = some s' := by
    intro n x z hx hz
    refine ⟨n, x, { s with rest := z }, hx, ?_⟩
    have h1 : step s (.other (.advance n)) = some { s with rest := { s.rest with clock := s.rest.clock + n } } := rfl
    have h2 : step { s with rest := { s.rest with clock := s.rest.clock + n } } (.other x) = some { s with rest := z } := by
      have : aboutPolls x = false := by
        simp only [debouncerSteps, List.mem_cons, List.not_mem_nil, or_false] at hx
        rcases hx with rfl | rfl | rfl | rfl <;> rfl
      simp only [step]
      rw [if_neg (by rw [this]; simp), hz]; rfl
    exact run_append (run_one h1) (run_one h2)
  cases hdeb : s.rest.deb with
  | sending => exact absurd hdeb hd
  | top =>
    by_cases hr : s.rest.requests = 0
    · exact two 0 .sleep _ (by simp [debouncerSteps]) (by simp only [HdLoop.step]; rw [if_pos ⟨hdeb, hr⟩])
    · exact two 0 .take _ (by simp [debouncerSteps]) (by simp only [HdLoop.step]; rw [if_pos ⟨hdeb, by show s.rest.requests > 0; omega⟩])
  | checking => exact two 0 .check _ (by simp [debouncerSteps]) (by simp only [HdLoop.step]; rw [if_pos hdeb])
  | sleeping w =>
    refine two (w - s.rest.clock).toNat .wake { s.rest with clock := s.rest.clock + (w - s.rest.clock).toNat, deb := .checking } (by simp [debouncerSteps]) ?_
    simp only [HdLoop.step, hdeb]
    rw [if_pos (by show s.rest.clock + _ ≥ w; omega)]

/-- **C105 is false of the code**: with 64 hosts or more (at least one message more than the channel holds), a `Stop` right after the start returns and
leaves goroutines of polls that never end; the debouncer runs on in any case (`C105_debouncer`). -/
theorem C105_false (clock : Int) (hosts : List Str) (hh : 64 ≤ hosts.length) :
    ∃ l s, run (init clock hosts) l = some s ∧ s.rest.stop = .returned ∧ ∀ l' s', run s l' = some s' → 0 < s'.goroutines := by
  have hrun : run (init clock hosts) [.other .stop, .other .acceptStop, .other .stopped] =
      some { init clock hosts with rest := { HdLoop.init clock 0 with main := .stopped, stop := .returned } } := rfl
  refine ⟨_, _, hrun, rfl, fun l' s' hr => ?_⟩
  have h1 := (C105_polls_partial hrun rfl).1 l' s' hr
  have h2 : Sys.goroutines { init clock hosts with rest := { HdLoop.init clock 0 with main := .stopped, stop := .returned } } = hosts.length + 1 := by
    simp [init, Sys.goroutines, Round.goroutines]
  rw [h2] at h1
  omega

/-- a state after `Stop` as in `C105_polls_partial`, with three hosts, one of which answered: its message is never received, the other three goroutines can end. -/
example : ∃ s, run (init 5 [bs "a", bs "b", bs "c"]) [.spawn 0 (bs "b"), .deliver 0 (bs "b"), .other .stop, .other .acceptStop, .other .stopped] = some s ∧
    s.rest.main = .stopped ∧ s.goroutines = 3 ∧ s.chan = [(0, some (bs "b"))] := ⟨_, rfl, rfl, by decide +kernel, rfl⟩

/-- two rounds that overlap, received in the order c, a, b, nil of the second round before the first round is complete. -/
example : (run (init 5 [bs "a", bs "b"]) [.tick, .spawn 0 (bs "a"), .spawn 1 (bs "b"), .spawn 1 (bs "a"), .deliver 1 (bs "a"), .deliver 0 (bs "a"), .deliver 1 (bs "b"), .finish 1,
    .consume, .other .request, .consume, .other .request, .consume, .other .request, .allIn]).map (fun s => s.taken) =
  some [(1, some (bs "a")), (0, some (bs "a")), (1, some (bs "b")), (1, none)] := by decide +kernel

end Rounds
