import Verif.Model.HealthdStops
import Verif.Props.HealthdRequests
/-!
# Property C121: calls of healthd's `Stop`
-/
namespace Spec.Stops
open HdStops

/-- the state of a call: the first (`none`) or one of the others. -/
def callOf (s : Sys) : Option Nat → HdLoop.Stop
  | none => s.base.stop
  | some i => s.calls i

/-- the call has set the flag and waits for the loop to receive its message. -/
def Sending (s : Sys) (c : Option Nat) : Prop := callOf s c = .flagged
def Returned (s : Sys) (c : Option Nat) : Prop := callOf s c = .returned

/-- the loop can still come back to its `select`. -/
def LoopAlive (s : Sys) : Prop := s.base.main ≠ .stopping ∧ s.base.main ≠ .stopped ∧ ¬ HdLoop.Standstill s.base

end Spec.Stops

namespace HdStops
open HdLoop Spec.Stops

theorem srun_append {s s1 s2 : Sys} {l1 l2 : List Lab} (h1 : run s l1 = some s1) (h2 : run s1 l2 = some s2) : run s (l1 ++ l2) = some s2 := by
  unfold run at *
  rw [List.foldlM_append, h1]
  exact h2

theorem srun_cons {s s2 : Sys} {x : Lab} {l : List Lab} (h : run s (x :: l) = some s2) : ∃ s1, step s x = some s1 ∧ run s1 l = some s2 := by
  unfold run at *
  rw [List.foldlM_cons] at h
  exact Option.bind_eq_some_iff.1 h

theorem srun_one {s s1 : Sys} {x : Lab} (h : step s x = some s1) : run s [x] = some s1 := by
  unfold run
  rw [List.foldlM_cons, h]
  rfl

theorem srun_inv {P : Sys → Prop} (hstep : ∀ s x s', P s → step s x = some s' → P s') {s s' : Sys} {l : List Lab} (h0 : P s) (h : run s l = some s') : P s' := by
  induction l generalizing s with
  | nil => cases h; exact h0
  | cons x t ih =>
    obtain ⟨s1, h1, h2⟩ := srun_cons h
    exact ih (hstep s x s1 h0 h1) h2

/-- steps of the rest are possible here. -/
theorem lift_run {b b' : HdLoop.Sys} {l : List HdLoop.Lab} (c : Nat → HdLoop.Stop) (h : HdLoop.run b l = some b') : run ⟨b, c⟩ (l.map .base) = some ⟨b', c⟩ := by
  induction l generalizing b with
  | nil => cases h; rfl
  | cons x t ih =>
    unfold HdLoop.run at h
    rw [List.foldlM_cons] at h
    obtain ⟨b1, h1, h2⟩ := Option.bind_eq_some_iff.1 h
    have : step ⟨b, c⟩ (.base x) = some ⟨b1, c⟩ := by simp only [step, h1, Option.map_some]
    exact srun_append (srun_one this) (ih h2)

/-- the loop has not been told to end. -/
def Going (b : HdLoop.Sys) : Prop := b.main ≠ .stopping ∧ b.main ≠ .stopped

/-- what a step of the rest does to the loop and to the first call. -/
theorem base_step {b b' : HdLoop.Sys} {x : HdLoop.Lab} (h : HdLoop.step b x = some b') :
    (b'.stop = b.stop ∧ b'.main = b.main) ∨ (b'.stop = b.stop ∧ Going b ∧ Going b') ∨ (b.stop = .notCalled ∧ b'.stop = .flagged ∧ b'.main = b.main) ∨
    (b.main = .idle ∧ b.stop = .flagged ∧ b'.main = .stopping ∧ b'.stop = .waiting) ∨
    (b.main = .stopping ∧ b.stop = .waiting ∧ b'.main = .stopped ∧ b'.stop = .returned) := by
  cases x with
  | advance n => cases h; exact .inl ⟨rfl, rfl⟩
  | accept k =>
    simp only [HdLoop.step] at h
    split at h
    · rename_i hi _; cases h; exact .inr (.inl ⟨rfl, by simp [Going, hi], by simp [Going]⟩)
    · cases h
  | reply =>
    simp only [HdLoop.step] at h
    split at h
    · rename_i i hi; cases h; exact .inr (.inl ⟨rfl, by simp [Going, hi], by simp [Going]⟩)
    · cases h
  | wake =>
    simp only [HdLoop.step] at h
    split at h
    · split at h <;> cases h; exact .inl ⟨rfl, rfl⟩
    · cases h
  | consume => simp only [HdLoop.step] at h; split at h <;> [skip; cases h]; rename_i hc; cases h; exact .inr (.inl ⟨rfl, by simp [Going, hc.1], by simp [Going]⟩)
  | request => simp only [HdLoop.step] at h; split at h <;> [skip; cases h]; rename_i hc; cases h; exact .inr (.inl ⟨rfl, by simp [Going, hc.1], by simp [Going]⟩)
  | stop => simp only [HdLoop.step] at h; split at h <;> [skip; cases h]; rename_i hc; cases h; exact .inr (.inr (.inl ⟨hc, rfl, rfl⟩))
  | acceptStop => simp only [HdLoop.step] at h; split at h <;> [skip; cases h]; rename_i hc; cases h; exact .inr (.inr (.inr (.inl ⟨hc.1, hc.2, rfl, rfl⟩)))
  | stopped => simp only [HdLoop.step] at h; split at h <;> [skip; cases h]; rename_i hc; cases h; exact .inr (.inr (.inr (.inr ⟨hc.1, hc.2, rfl, rfl⟩)))
  | _ => simp only [HdLoop.step] at h; split at h <;> [skip; cases h]; cases h; exact .inl ⟨rfl, rfl⟩

/-- what a step does to the loop and to the calls. -/
theorem calls_step {s s' : Sys} {x : Lab} (h : step s x = some s') :
    ((∀ c, callOf s' c = callOf s c) ∧ (s'.base.main = s.base.main ∨ (Going s.base ∧ Going s'.base))) ∨
    (∃ c, callOf s c = .notCalled ∧ callOf s' c = .flagged ∧ (∀ d, d ≠ c → callOf s' d = callOf s d) ∧ s'.base.main = s.base.main) ∨
    (∃ c, callOf s c = .flagged ∧ callOf s' c = .waiting ∧ (∀ d, d ≠ c → callOf s' d = callOf s d) ∧ s.base.main = .idle ∧ s'.base.main = .stopping) ∨
    (∃ c, callOf s c = .waiting ∧ callOf s' c = .returned ∧ (∀ d, d ≠ c → callOf s' d = callOf s d) ∧ s.base.main = .stopping ∧ s'.base.main = .stopped) := by
  have other : ∀ (i : Nat) (v : HdLoop.Stop) (b : HdLoop.Sys), b.stop = s.base.stop →
      ∀ d, d ≠ some i → callOf ⟨b, set s.calls i v⟩ d = callOf s d := by
    intro i v b hb d hd
    cases d with
    | none => exact hb
    | some j => simp only [callOf, HdLoop.set]; rw [if_neg (fun e => hd (by rw [e]))]
  have self : ∀ (i : Nat) (v : HdLoop.Stop) (b : HdLoop.Sys), callOf ⟨b, set s.calls i v⟩ (some i) = v := by intro i v b; simp [callOf, HdLoop.set]
  cases x with
  | base l =>
    obtain ⟨b, hb, rfl⟩ := Option.map_eq_some_iff.1 h
    have rest : ∀ d, d ≠ none → callOf { s with base := b } d = callOf s d := by
      intro d hd; cases d with
      | none => exact absurd rfl hd
      | some j => rfl
    rcases base_step hb with ⟨e1, e2⟩ | ⟨e1, e2, e3⟩ | ⟨e1, e2, e3⟩ | ⟨e1, e2, e3, e4⟩ | ⟨e1, e2, e3, e4⟩
    · exact .inl ⟨fun c => by cases c <;> first | exact e1 | rfl, .inl e2⟩
    · exact .inl ⟨fun c => by cases c <;> first | exact e1 | rfl, .inr ⟨e2, e3⟩⟩
    · exact .inr (.inl ⟨none, e1, e2, rest, e3⟩)
    · exact .inr (.inr (.inl ⟨none, e2, e4, rest, e1, e3⟩))
    · exact .inr (.inr (.inr ⟨none, e2, e4, rest, e1, e3⟩))
  | call i =>
    simp only [step] at h
    split at h <;> [skip; cases h]
    rename_i hc; cases h
    exact .inr (.inl ⟨some i, hc.2, self i _ _, other i _ _ rfl, rfl⟩)
  | accept i =>
    simp only [step] at h
    split at h <;> [skip; cases h]
    rename_i hc; cases h
    exact .inr (.inr (.inl ⟨some i, hc.2, self i _ _, other i _ _ rfl, hc.1, rfl⟩))
  | stopped i =>
    simp only [step] at h
    split at h <;> [skip; cases h]
    rename_i hc; cases h
    exact .inr (.inr (.inr ⟨some i, hc.2, self i _ _, other i _ _ rfl, hc.1, rfl⟩))

/-- a call was received by the loop. -/
def Chosen (s : Sys) (c : Option Nat) : Prop := callOf s c = .waiting ∨ callOf s c = .returned

structure Good (s : Sys) : Prop where
  waiting : ∀ c, callOf s c = .waiting → s.base.main = .stopping
  returned : ∀ c, callOf s c = .returned → s.base.main = .stopped
  one : ∀ c d, Chosen s c → Chosen s d → c = d
  ended : s.base.main = .stopped → ∃ c, callOf s c = .returned
  ending : s.base.main = .stopping → ∃ c, callOf s c = .waiting

theorem good_step {s s' : Sys} {x : Lab} (g : Good s) (h : step s x = some s') : Good s' := by
  rcases calls_step h with ⟨hc, hm⟩ | ⟨c, h1, h2, h3, h4⟩ | ⟨c, h1, h2, h3, h4, h5⟩ | ⟨c, h1, h2, h3, h4, h5⟩
  · have none' : Going s.base → ∀ c, ¬ Chosen s c := by
      rintro ⟨a, b⟩ c (h | h)
      · exact a (g.waiting c h)
      · exact b (g.returned c h)
    refine ⟨fun c e => ?_, fun c e => ?_, fun c d e f => ?_, fun e => ?_, fun e => ?_⟩
    · rw [hc] at e
      rcases hm with hm | ⟨hm, _⟩
      · rw [hm]; exact g.waiting c e
      · exact absurd (.inl e) (none' hm c)
    · rw [hc] at e
      rcases hm with hm | ⟨hm, _⟩
      · rw [hm]; exact g.returned c e
      · exact absurd (.inr e) (none' hm c)
    · simp only [Chosen, hc] at e f
      exact g.one c d e f
    · rcases hm with hm | ⟨_, hm⟩
      · rw [hm] at e; obtain ⟨c, hr⟩ := g.ended e; exact ⟨c, by rw [hc]; exact hr⟩
      · exact absurd e hm.2
    · rcases hm with hm | ⟨_, hm⟩
      · rw [hm] at e; obtain ⟨c, hr⟩ := g.ending e; exact ⟨c, by rw [hc]; exact hr⟩
      · exact absurd e hm.1
  · have old : ∀ d v, v ≠ HdLoop.Stop.flagged → callOf s' d = v → callOf s d = v := by
      intro d v hv e
      by_cases hd : d = c
      · subst hd; rw [h2] at e; exact absurd e.symm hv
      · rw [← h3 d hd]; exact e
    have new : ∀ d v, v ≠ HdLoop.Stop.notCalled → callOf s d = v → callOf s' d = v := by
      intro d v hv e
      by_cases hd : d = c
      · subst hd; rw [h1] at e; exact absurd e.symm hv
      · rw [h3 d hd]; exact e
    refine ⟨fun d e => ?_, fun d e => ?_, fun d d' e f => ?_, fun e => ?_, fun e => ?_⟩
    · rw [h4]; exact g.waiting d (old d _ (by simp) e)
    · rw [h4]; exact g.returned d (old d _ (by simp) e)
    · exact g.one d d' (e.imp (old d _ (by simp)) (old d _ (by simp))) (f.imp (old d' _ (by simp)) (old d' _ (by simp)))
    · rw [h4] at e; obtain ⟨d, hr⟩ := g.ended e; exact ⟨d, new d _ (by simp) hr⟩
    · rw [h4] at e; obtain ⟨d, hr⟩ := g.ending e; exact ⟨d, new d _ (by simp) hr⟩
  · have none' : ∀ d, ¬ Chosen s d := by
      rintro d (h | h)
      · have := g.waiting d h; rw [h4] at this; cases this
      · have := g.returned d h; rw [h4] at this; cases this
    have only : ∀ d, Chosen s' d → d = c := by
      intro d e
      by_contra hd
      exact none' d (by simpa only [Chosen, h3 d hd] using e)
    refine ⟨fun d e => h5, fun d e => ?_, fun d d' e f => (only d e).trans (only d' f).symm, fun e => ?_, fun e => ⟨c, h2⟩⟩
    · have := only d (.inr e); subst this; rw [h2] at e; cases e
    · rw [h5] at e; cases e
  · have only : ∀ d, Chosen s' d → d = c := by
      intro d e
      by_contra hd
      exact hd (g.one d c (by simpa only [Chosen, h3 d hd] using e) (.inl h1))
    refine ⟨fun d e => ?_, fun d e => h5, fun d d' e f => (only d e).trans (only d' f).symm, fun e => ⟨c, h2⟩, fun e => ?_⟩
    · have := only d (.inl e); subst this; rw [h2] at e; cases e
    · rw [h5] at e; cases e

theorem chosen_step {s s' : Sys} {x : Lab} {d : Option Nat} (hd : Chosen s d) (h : step s x = some s') : Chosen s' d := by
  rcases calls_step h with ⟨hc, hm⟩ | ⟨c, h1, h2, h3, h4⟩ | ⟨c, h1, h2, h3, h4, h5⟩ | ⟨c, h1, h2, h3, h4, h5⟩
  · simpa only [Chosen, hc] using hd
  · by_cases e : d = c
    · subst e; rcases hd with hd | hd <;> rw [h1] at hd <;> cases hd
    · simpa only [Chosen, h3 d e] using hd
  · by_cases e : d = c
    · subst e; exact .inl h2
    · simpa only [Chosen, h3 d e] using hd
  · by_cases e : d = c
    · subst e; exact .inr h2
    · simpa only [Chosen, h3 d e] using hd

theorem called_step {s s' : Sys} {x : Lab} {d : Option Nat} (hd : callOf s d ≠ .notCalled) (h : step s x = some s') : callOf s' d ≠ .notCalled := by
  rcases calls_step h with ⟨hc, hm⟩ | ⟨c, h1, h2, h3, h4⟩ | ⟨c, h1, h2, h3, h4, h5⟩ | ⟨c, h1, h2, h3, h4, h5⟩
  · rw [hc]; exact hd
  all_goals
    by_cases e : d = c
    · subst e; rw [h2]; simp
    · rw [h3 d e]; exact hd

theorem good_run {clock : Int} {hosts : Nat} {l : List Lab} {s : Sys} (h : run (init clock hosts) l = some s) : Good s := by
  refine srun_inv (fun _ _ _ g hs => good_step g hs) ⟨?_, ?_, ?_, ?_, ?_⟩ h
  · intro c e; cases c <;> cases e
  · intro c e; cases c <;> cases e
  · rintro c d (e | e) _ <;> cases c <;> cases e
  · intro e; cases e
  · intro e; cases e

/-- **C121**: at most one call of `Stop` ever returns. -/
theorem C121_one {clock : Int} {hosts : Nat} {l : List Lab} {s : Sys} (h : run (init clock hosts) l = some s) {c d : Option Nat} (hc : Returned s c) (hd : Returned s d) :
    c = d := (good_run h).one c d (.inr hc) (.inr hd)

/-- as long as the loop has not been told to end, the rest is as if there were no further calls. -/
theorem going_run {clock : Int} {hosts : Nat} {l : List Lab} {s : Sys} (h : run (init clock hosts) l = some s) :
    Going s.base → ∃ l', HdLoop.run (HdLoop.init clock hosts) l' = some s.base := by
  refine srun_inv (P := fun s => Going s.base → ∃ l', HdLoop.run (HdLoop.init clock hosts) l' = some s.base) ?_ (fun _ => ⟨[], rfl⟩) h
  intro s x s' ih hs hg
  cases x with
  | base l =>
    obtain ⟨b, hb, rfl⟩ := Option.map_eq_some_iff.1 hs
    have : Going s.base := by
      rcases base_step hb with ⟨e1, e2⟩ | ⟨e1, e2, e3⟩ | ⟨e1, e2, e3⟩ | ⟨e1, e2, e3, e4⟩ | ⟨e1, e2, e3, e4⟩
      · exact ⟨by rw [← e2]; exact hg.1, by rw [← e2]; exact hg.2⟩
      · exact e2
      · exact ⟨by rw [← e3]; exact hg.1, by rw [← e3]; exact hg.2⟩
      · exact absurd e3 hg.1
      · exact absurd e3 hg.2
    obtain ⟨l', hl'⟩ := ih this
    refine ⟨l' ++ [l], ?_⟩
    unfold HdLoop.run at *
    rw [List.foldlM_append, hl']
    simp [hb]
  | call i =>
    simp only [step] at hs
    split at hs <;> cases hs
    exact ih hg
  | accept i =>
    simp only [step] at hs
    split at hs <;> cases hs
    exact absurd rfl hg.1
  | stopped i =>
    simp only [step] at hs
    split at hs <;> cases hs
    exact absurd rfl hg.2

theorem standstill_keeps {s s' : Sys} {l : List Lab} (hst : Standstill s.base) (h : run s l = some s') : Standstill s'.base := by
  refine srun_inv (P := fun s => Standstill s.base) ?_ hst h
  intro s x s' ih hs
  cases x with
  | base l =>
    obtain ⟨b, hb, rfl⟩ := Option.map_eq_some_iff.1 hs
    refine (standstill_for_ever (l := [l]) ih ?_).1
    unfold HdLoop.run
    simp [hb]
  | call i =>
    simp only [step] at hs
    split at hs <;> cases hs
    exact ih
  | accept i =>
    simp only [step] at hs
    split at hs <;> [skip; cases hs]
    rename_i hc
    have := ih.1
    rw [hc.1] at this; cases this
  | stopped i =>
    simp only [step] at hs
    split at hs <;> [skip; cases hs]
    rename_i hc
    have := ih.1
    rw [hc.1] at this; cases this

/-- **C121, exactly when**: a call of `Stop` that waits for the loop (the first or a later one) can return if and only if the loop has received no other call's
message and has not come to a standstill (C50). -/
theorem C121_iff {clock : Int} {hosts : Nat} {l : List Lab} {s : Sys} (h : run (init clock hosts) l = some s) {c : Option Nat} (hc : Sending s c) :
    (∃ l' s', run s l' = some s' ∧ Returned s' c) ↔ LoopAlive s := by
  have g := good_run h
  constructor
  · rintro ⟨l', s', hr, hret⟩
    have hfinal := good_run (srun_append h hr)
    refine ⟨fun hm => ?_, fun hm => ?_, fun hst => ?_⟩
    · obtain ⟨d, hd⟩ := g.ending hm
      have keep : Chosen s' d := srun_inv (P := fun s => Chosen s d) (fun s x s' ih hs => chosen_step ih hs) (.inl hd) hr
      have := hfinal.one d c keep (.inr hret)
      subst this
      rw [Sending, hd] at hc; cases hc
    · obtain ⟨d, hd⟩ := g.ended hm
      have keep : Chosen s' d := srun_inv (P := fun s => Chosen s d) (fun s x s' ih hs => chosen_step ih hs) (.inr hd) hr
      have := hfinal.one d c keep (.inr hret)
      subst this
      rw [Sending, hd] at hc; cases hc
    · have h1 := (standstill_keeps hst hr).1
      have h2 := hfinal.returned c hret
      rw [h1] at h2; cases h2
  · rintro ⟨h1, h2, h3⟩
    obtain ⟨l0, hl0⟩ := going_run h ⟨h1, h2⟩
    obtain ⟨l1, b, hr, hi⟩ := (C50_state_iff hl0 h1 h2).2 h3
    have hl := lift_run s.calls hr
    have g1 := good_run (srun_append h hl)
    have hc1 : Sending ⟨b, s.calls⟩ c := by
      have hcalled : callOf ⟨b, s.calls⟩ c ≠ .notCalled :=
        srun_inv (P := fun s => callOf s c ≠ .notCalled) (fun _ _ _ ih hs => called_step ih hs) (by rw [Sending] at hc; rw [hc]; simp) hl
      unfold Sending
      cases hv : callOf ⟨b, s.calls⟩ c with
      | notCalled => exact absurd hv hcalled
      | flagged => rfl
      | waiting => have := g1.waiting c hv; rw [hi] at this; cases this
      | returned => have := g1.returned c hv; rw [hi] at this; cases this
    cases c with
    | none =>
      have e1 : step ⟨b, s.calls⟩ (.base .acceptStop) = some ⟨{ b with main := .stopping, stop := .waiting }, s.calls⟩ := by
        simp only [step, HdLoop.step]
        rw [if_pos ⟨hi, hc1⟩]; rfl
      have e2 : step ⟨{ b with main := .stopping, stop := .waiting }, s.calls⟩ (.base .stopped) = some ⟨{ b with main := .stopped, stop := .returned }, s.calls⟩ := rfl
      exact ⟨_, _, srun_append hl (srun_append (srun_one e1) (srun_one e2)), rfl⟩
    | some i =>
      have e1 : step ⟨b, s.calls⟩ (.accept i) = some ⟨{ b with main := .stopping }, HdLoop.set s.calls i .waiting⟩ := if_pos ⟨hi, hc1⟩
      have e2 : step ⟨{ b with main := .stopping }, HdLoop.set s.calls i .waiting⟩ (.stopped i) =
          some ⟨{ b with main := .stopped }, HdLoop.set (HdLoop.set s.calls i .waiting) i .returned⟩ := if_pos ⟨rfl, by simp [HdLoop.set]⟩
      exact ⟨_, _, srun_append hl (srun_append (srun_one e1) (srun_one e2)), by simp [Returned, callOf, HdLoop.set]⟩

/-- C121 is false of the code: if `Stop` has returned and is called again, the second call never returns. -/
theorem C121_false (clock : Int) (hosts : Nat) : ∃ l s, run (init clock hosts) l = some s ∧ Returned s none ∧ Sending s (some 0) ∧
    ∀ l' s', run s l' = some s' → ¬ Returned s' (some 0) := by
  have h : run (init clock hosts) [.base .stop, .base .acceptStop, .base .stopped, .call 0] =
      some ⟨{ HdLoop.init clock hosts with main := .stopped, stop := .returned }, HdLoop.set (fun _ => .notCalled) 0 .flagged⟩ := rfl
  refine ⟨_, _, h, rfl, rfl, fun l' s' hr hret => ?_⟩
  exact ((C121_iff h (c := some 0) rfl).1 ⟨l', s', hr, hret⟩).2.1 rfl

/-- a case: two calls before the loop has seen any; the loop receives the second one's message. -/
example : (run (init 5 2) [.base .stop, .call 3, .base .deliver, .accept 3, .stopped 3]).map (fun s => (s.base.main, callOf s none, callOf s (some 3))) =
    some (.stopped, .flagged, .returned) ∧
    (run (init 5 2) [.base .stop, .call 3, .base .deliver]).map (fun s => (s.base.main, callOf s none, callOf s (some 3))) = some (.idle, .flagged, .flagged) := by decide +kernel

end HdStops
