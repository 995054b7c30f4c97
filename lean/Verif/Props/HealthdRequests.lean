import Verif.Props.HealthdLoop
/-!
# Properties C50 and C51, exactly: which API requests get an answer
In every reachable state, a request that has passed the stop flag can still be answered exactly if the loop has not accepted `Stop` and is not caught in the standstill of C50.
-/
open Healthd

namespace HdLoop

/-- the debouncer will send on `doit` before it takes another request from its channel. -/
def WillSend (s : Sys) : Prop :=
  match s.deb with
  | .top => False
  | .sleeping w => debouncerDue threshold s.oldest ⟨max s.clock w, 1⟩ = true
  | .checking => debouncerDue threshold s.oldest ⟨s.clock, 1⟩ = true
  | .sending => True

/-- the standstill: the loop wants to put a request into the full channel of a debouncer that will not take one before the loop has listened to it. -/
def Standstill (s : Sys) : Prop := s.main = .requesting ∧ s.requests = 64 ∧ WillSend s

theorem requests_at_most {clock : Int} {hosts : Nat} {l : List Lab} {s : Sys} (h : run (init clock hosts) l = some s) : s.requests ≤ 64 := by
  refine run_inv (P := fun s => s.requests ≤ 64) ?_ (by simp [init]) h
  intro s x s' h0 hs
  cases x with
  | advance n => cases hs; exact h0
  | wake =>
    simp only [step] at hs
    split at hs
    · split at hs
      · cases hs; exact h0
      · cases hs
    · cases hs
  | accept k =>
    simp only [step] at hs
    split at hs
    · cases hs; exact h0
    · cases hs
  | reply =>
    simp only [step] at hs
    split at hs
    · cases hs; exact h0
    · cases hs
  | request =>
    simp only [step] at hs
    split at hs
    · next h3 => cases hs; have h4 : s.requests < 64 := h3.2; show s.requests + 1 ≤ 64; omega
    · cases hs
  | take =>
    simp only [step] at hs
    split at hs
    · cases hs; show s.requests - 1 ≤ 64; omega
    · cases hs
  | _ =>
    simp only [step] at hs
    split at hs
    · cases hs; exact h0
    · cases hs

theorem due_mono {o : Time} {c c' : Int} (h : c ≤ c') (hd : debouncerDue threshold o ⟨c, 1⟩ = true) : debouncerDue threshold o ⟨c', 1⟩ = true := by
  unfold debouncerDue subTime at *
  simp only [Bool.and_eq_true, decide_eq_true_eq, gt_iff_lt] at hd ⊢
  refine ⟨hd.1, ?_⟩
  have := hd.2
  unfold threshold at *
  revert this
  split_ifs <;> omega

theorem willSend_advance {s : Sys} (h : WillSend s) (n : Nat) : WillSend { s with clock := s.clock + n } := by
  unfold WillSend at *
  simp only
  split <;> rename_i hd <;> rw [hd] at h
  · exact h
  · exact due_mono (by omega) h
  · exact due_mono (by omega) h
  · trivial

theorem standstill_step {s s' : Sys} {x : Lab} (h : Standstill s) (hs : step s x = some s') :
    Standstill s' ∧ (∀ i, s'.req i = .answered → s.req i = .answered) := by
  obtain ⟨h1, h2, h3⟩ := h
  have hnt : s.deb ≠ .top := by intro hd; unfold WillSend at h3; rw [hd] at h3; exact h3
  cases x with
  | advance n => cases hs; exact ⟨⟨h1, h2, willSend_advance h3 n⟩, fun _ h => h⟩
  | call i =>
    simp only [step] at hs
    split at hs
    · cases hs
      refine ⟨⟨h1, h2, h3⟩, ?_⟩
      intro j hj
      simp only [HdLoop.set] at hj
      split at hj
      · split at hj <;> cases hj
      · exact hj
    · cases hs
  | enqueue i k =>
    simp only [step] at hs
    split at hs
    · cases hs
      refine ⟨⟨h1, h2, h3⟩, ?_⟩
      intro j hj
      simp only [HdLoop.set] at hj
      split at hj
      · cases hj
      · exact hj
    · cases hs
  | stop =>
    simp only [step] at hs
    split at hs
    · cases hs; exact ⟨⟨h1, h2, h3⟩, fun _ h => h⟩
    · cases hs
  | deliver =>
    simp only [step] at hs
    split at hs
    · cases hs; exact ⟨⟨h1, h2, h3⟩, fun _ h => h⟩
    · cases hs
  | wake =>
    simp only [step] at hs
    split at hs
    · next w hd =>
      split at hs
      · next hw =>
        cases hs
        refine ⟨⟨h1, h2, ?_⟩, fun _ h => h⟩
        unfold WillSend at *
        rw [hd] at h3
        simp only at h3 ⊢
        rwa [max_eq_left hw] at h3
      · cases hs
    · cases hs
  | check =>
    simp only [step] at hs
    split at hs
    · next hd =>
      cases hs
      refine ⟨⟨h1, h2, ?_⟩, fun _ h => h⟩
      unfold WillSend at *
      rw [hd] at h3
      simp only at h3 ⊢
      rw [if_pos h3]
      trivial
    · cases hs
  | _ => simp [step, h1, h2, hnt, bufferSize] at hs

/-- from the standstill there is no way out, and no request is answered. -/
theorem standstill_for_ever {s s' : Sys} {l : List Lab} (h : Standstill s) (hr : run s l = some s') :
    Standstill s' ∧ (∀ i, s'.req i = .answered → s.req i = .answered) := by
  refine run_inv (P := fun s' => Standstill s' ∧ (∀ i, s'.req i = .answered → s.req i = .answered)) ?_ ⟨h, fun _ h => h⟩ hr
  rintro s1 x s2 ⟨a, b⟩ hs
  obtain ⟨d, e⟩ := standstill_step a hs
  exact ⟨d, fun i hi => b i (e i hi)⟩

/-- after `Stop` has been accepted no request is answered. -/
theorem ended_for_ever {s s' : Sys} {l : List Lab} (h : s.main = .stopping ∨ s.main = .stopped) (hr : run s l = some s') :
    (s'.main = .stopping ∨ s'.main = .stopped) ∧ (∀ i, s'.req i = .answered → s.req i = .answered) := by
  refine run_inv (P := fun s' => (s'.main = .stopping ∨ s'.main = .stopped) ∧ (∀ i, s'.req i = .answered → s.req i = .answered)) ?_ ⟨h, fun _ h => h⟩ hr
  rintro s x s' ⟨h1, h2⟩ hs
  cases x with
  | call i =>
    simp only [step] at hs
    split at hs
    · cases hs
      refine ⟨h1, fun j hj => h2 j ?_⟩
      simp only [HdLoop.set] at hj
      split at hj
      · split at hj <;> cases hj
      · exact hj
    · cases hs
  | enqueue i k =>
    simp only [step] at hs
    split at hs
    · cases hs
      refine ⟨h1, fun j hj => h2 j ?_⟩
      simp only [HdLoop.set] at hj
      split at hj
      · cases hj
      · exact hj
    · cases hs
  | wake =>
    simp only [step] at hs
    split at hs
    · split at hs
      · cases hs; exact ⟨h1, h2⟩
      · cases hs
    · cases hs
  | advance n => cases hs; exact ⟨h1, h2⟩
  | accept k => rcases h1 with h1 | h1 <;> simp [HdLoop.step, h1] at hs
  | reply => rcases h1 with h1 | h1 <;> simp [HdLoop.step, h1] at hs
  | stopped =>
    simp only [step] at hs
    split at hs
    · cases hs; exact ⟨.inr rfl, h2⟩
    · cases hs
  | _ =>
    simp only [HdLoop.step] at hs
    split at hs
    · next h3 =>
      cases hs
      first
      | exact ⟨h1, h2⟩
      | (exfalso; rcases h1 with h1 | h1 <;> (rw [h1] at h3; revert h3; simp))
    · cases hs

/-- a debouncer that will not send takes a request. -/
theorem debouncer_takes {s : Sys} (hq : 0 < s.requests) (h : ¬ WillSend s) :
    ∃ l s', run s l = some s' ∧ s'.requests + 1 = s.requests ∧ s'.main = s.main ∧ s'.req = s.req ∧ s'.queue = s.queue ∧ s'.stop = s.stop := by
  have top : ∀ t : Sys, t.deb = .top → 0 < t.requests → ∃ l s', run t l = some s' ∧ s'.requests + 1 = t.requests ∧ s'.main = t.main ∧ s'.req = t.req ∧
      s'.queue = t.queue ∧ s'.stop = t.stop := fun t ht hq =>
    ⟨[.take], { t with requests := t.requests - 1, oldest := debouncerTake t.oldest ⟨t.clock, 1⟩, deb := .checking }, run_one (if_pos ⟨ht, hq⟩),
      by show t.requests - 1 + 1 = t.requests; omega, rfl, rfl, rfl, rfl⟩
  have checking : ∀ t : Sys, t.deb = .checking → debouncerDue threshold t.oldest ⟨t.clock, 1⟩ = false → 0 < t.requests →
      ∃ l s', run t l = some s' ∧ s'.requests + 1 = t.requests ∧ s'.main = t.main ∧ s'.req = t.req ∧ s'.queue = t.queue ∧ s'.stop = t.stop := by
    intro t ht hd hq
    obtain ⟨l, s', h1, h2⟩ := top { t with deb := .top } rfl hq
    refine ⟨[.check] ++ l, s', run_append (run_one ?_) h1, h2⟩
    simp only [step, if_pos ht, hd]; rfl
  cases hd : s.deb with
  | top => exact top s hd hq
  | sending => exact absurd (by unfold WillSend; rw [hd]; trivial) h
  | checking => exact checking s hd (by unfold WillSend at h; rw [hd] at h; simpa using h) hq
  | sleeping w =>
    have h' : debouncerDue threshold s.oldest ⟨max s.clock w, 1⟩ = false := by unfold WillSend at h; rw [hd] at h; simpa using h
    obtain ⟨l, s', h1, h2⟩ := checking { s with clock := max s.clock w, deb := .checking } rfl h' hq
    refine ⟨[.advance (max s.clock w - s.clock).toNat, .wake] ++ l, s', run_append (l1 := [_, _]) (run_append (run_one rfl) (run_one ?_)) h1, h2⟩
    have e : s.clock + ((max s.clock w - s.clock).toNat : Int) = max s.clock w := by omega
    simp only [step, hd, e]
    rw [if_pos (le_max_right _ _)]

/-- **C51**, exactly: in every reachable state, a request that has passed the stop flag can still get an answer if and only if the loop has not yet accepted `Stop` and is
not at the standstill of C50. -/
theorem C51_iff {clock : Int} {hosts : Nat} {l : List Lab} {s : Sys} (h : run (init clock hosts) l = some s) (i : Nat)
    (hi : s.req i = .checked ∨ s.req i = .waiting) :
    (∃ l' s', run s l' = some s' ∧ s'.req i = .answered) ↔ (s.main ≠ .stopping ∧ s.main ≠ .stopped ∧ ¬ Standstill s) := by
  have hna : s.req i ≠ .answered := by rcases hi with e | e <;> rw [e] <;> simp
  constructor
  · rintro ⟨l', s', hr, ha⟩
    refine ⟨fun e => hna ((ended_for_ever (.inl e) hr).2 i ha), fun e => hna ((ended_for_ever (.inr e) hr).2 i ha), fun e => hna ((standstill_for_ever e hr).2 i ha)⟩
  · rintro ⟨h1, h2, h3⟩
    have hq := requests_at_most h
    have answer : ∀ {l1 : List Lab} {t : Sys}, run s l1 = some t → (t.requests < 64 ∨ t.main ≠ .requesting) → t.main = s.main → t.req = s.req →
        ∃ l' s', run s l' = some s' ∧ s'.req i = .answered := by
      intro l1 t hr ht hm hreq
      have hall := run_append h hr
      have hle := requests_at_most hall
      have hc : (l ++ l1).count .consume ≤ (l ++ l1).count .take + 64 := by
        rw [balance hall]
        rcases ht with ht | ht
        · split <;> omega
        · rw [if_neg ht]; omega
      obtain ⟨l2, s2, r2, a2⟩ := (((C51_partial hall i).2 hc (by rwa [hm]) (by rwa [hm])).1 (by rwa [hreq]))
      exact ⟨_, s2, run_append hr r2, a2⟩
    by_cases hm : s.main = .requesting
    · by_cases hq2 : s.requests = 64
      · obtain ⟨l1, t, r1, q1, m1, e1, _, _⟩ := debouncer_takes (by omega) (fun hw => h3 ⟨hm, hq2, hw⟩)
        exact answer r1 (.inl (by omega)) m1 e1
      · exact answer (l1 := []) rfl (.inl (by omega)) rfl rfl
    · exact answer (l1 := []) rfl (.inr hm) rfl rfl

/-- the states that the theorem distinguishes do occur: a request that waits while the loop runs, and one that waits when it has ended. -/
example (hosts : Nat) : (∃ s, run (init 5 hosts) [.call 0, .enqueue 0 false] = some s ∧ s.req 0 = .waiting ∧ s.main = .idle) ∧
    ∃ s, run (init 5 hosts) [.call 0, .stop, .acceptStop, .stopped, .enqueue 0 false] = some s ∧ s.req 0 = .waiting ∧ s.main = .stopped :=
  ⟨⟨_, rfl, rfl, rfl⟩, _, rfl, rfl, rfl⟩

/-- **C50**, exactly, state by state: from a reachable state whose loop has not accepted `Stop`, the loop can get back to its `select` if and only if it is not at the
standstill. -/
theorem C50_state_iff {clock : Int} {hosts : Nat} {l : List Lab} {s : Sys} (h : run (init clock hosts) l = some s) (h1 : s.main ≠ .stopping) (h2 : s.main ≠ .stopped) :
    (∃ l' s', run s l' = some s' ∧ s'.main = .idle) ↔ ¬ Standstill s := by
  constructor
  · rintro ⟨l', s', hr, hi⟩ hst
    have := (standstill_for_ever hst hr).1.1
    rw [hi] at this; cases this
  · intro h3
    have hq := requests_at_most h
    cases hm : s.main with
    | idle => exact ⟨[], s, rfl, hm⟩
    | replying n => exact ⟨[.reply], { s with main := .idle, req := HdLoop.set s.req n .answered }, run_one (by simp only [HdLoop.step, hm]), rfl⟩
    | stopping => exact absurd hm h1
    | stopped => exact absurd hm h2
    | requesting =>
      have go : ∀ t : Sys, t.main = .requesting → t.requests < 64 → run t [.request] = some { t with requests := t.requests + 1, main := .idle } :=
        fun t h1 h2 => run_one (if_pos ⟨h1, h2⟩)
      by_cases hq2 : s.requests = 64
      · obtain ⟨l1, t, r1, q1, m1, _⟩ := debouncer_takes (by omega) (fun hw => h3 ⟨hm, hq2, hw⟩)
        exact ⟨_, _, run_append r1 (go t (by rw [m1, hm]) (by omega)), rfl⟩
      · exact ⟨_, _, go s hm (by omega), rfl⟩

end HdLoop
