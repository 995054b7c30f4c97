import Verif.Model.HealthdLoop
import Verif.Lemmas.Healthd
/-!
# healthd's goroutines (C50, C51)
-/
open Healthd HdLoop

namespace HdLoop

theorem run_append {s s1 s2 : Sys} {l1 l2 : List Lab} (h1 : run s l1 = some s1) (h2 : run s1 l2 = some s2) : run s (l1 ++ l2) = some s2 := by
  unfold run at *
  rw [List.foldlM_append, h1]
  exact h2

theorem run_one {s s1 : Sys} {x : Lab} (h : step s x = some s1) : run s [x] = some s1 := by
  unfold run
  rw [List.foldlM_cons, h]
  rfl

theorem run_snoc {s s2 : Sys} {l : List Lab} {x : Lab} (h : run s (l ++ [x]) = some s2) : ∃ s1, run s l = some s1 ∧ step s1 x = some s2 := by
  unfold run at *
  rw [List.foldlM_append] at h
  obtain ⟨s1, h1, h2⟩ := Option.bind_eq_some_iff.1 h
  refine ⟨s1, h1, ?_⟩
  rw [List.foldlM_cons] at h2
  obtain ⟨s3, h3, h4⟩ := Option.bind_eq_some_iff.1 h2
  cases h4
  exact h3

theorem run_inv {P : Sys → Prop} (hstep : ∀ s x s', P s → step s x = some s' → P s') {s s' : Sys} {l : List Lab} (h0 : P s) (h : run s l = some s') : P s' := by
  induction l using snocInduction generalizing s' with
  | nil => cases h; exact h0
  | snoc t x ih =>
    obtain ⟨s1, h1, h2⟩ := run_snoc h
    exact hstep s1 x s' (ih h1) h2

/-- both goroutines wait for each other. -/
def Stuck (s : Sys) : Prop := s.main = .requesting ∧ s.requests = 64 ∧ s.deb = .sending

theorem stuck_step {s s' : Sys} {x : Lab} (h : Stuck s) (hs : step s x = some s') :
    Stuck s' ∧ (∀ i, s'.req i = .answered → s.req i = .answered) ∧ (s'.stop = .returned → s.stop = .returned) := by
  obtain ⟨h1, h2, h3⟩ := h
  cases x with
  | call i =>
    simp only [step] at hs
    split at hs
    · next hc =>
      cases hs
      refine ⟨⟨h1, h2, h3⟩, ?_, fun h => h⟩
      intro j hj
      simp only [HdLoop.set] at hj
      split at hj
      · split at hj <;> cases hj
      · exact hj
    · cases hs
  | enqueue i k =>
    simp only [step] at hs
    split at hs
    · cases hs
      refine ⟨⟨h1, h2, h3⟩, ?_, fun h => h⟩
      intro j hj
      simp only [HdLoop.set] at hj
      split at hj
      · cases hj
      · exact hj
    · cases hs
  | stop =>
    simp only [step] at hs
    split at hs
    · cases hs
      exact ⟨⟨h1, h2, h3⟩, fun _ h => h, fun h => by cases h⟩
    · cases hs
  | advance n => simp only [step] at hs; cases hs; exact ⟨⟨h1, h2, h3⟩, fun _ h => h, fun h => h⟩
  | deliver =>
    simp only [step] at hs
    split at hs
    · cases hs; exact ⟨⟨h1, h2, h3⟩, fun _ h => h, fun h => h⟩
    · cases hs
  | _ => simp [step, h1, h2, h3, bufferSize] at hs

theorem stuck_for_ever {s s' : Sys} {l : List Lab} (h : Stuck s) (hr : run s l = some s') :
    Stuck s' ∧ (∀ i, s'.req i = .answered → s.req i = .answered) ∧ (s'.stop = .returned → s.stop = .returned) := by
  refine run_inv (P := fun s' => Stuck s' ∧ (∀ i, s'.req i = .answered → s.req i = .answered) ∧ (s'.stop = .returned → s.stop = .returned)) ?_
    ⟨h, fun _ h => h, fun h => h⟩ hr
  rintro s1 x s2 ⟨a, b, c⟩ hs
  obtain ⟨d, e, f⟩ := stuck_step a hs
  exact ⟨d, fun i hi => b i (e i hi), fun hi => c (f hi)⟩

/-- neither the ticker nor a nil among the responses. -/
def Lab.plain : Lab → Bool
  | .tick _ => false
  | .allIn => false
  | _ => true

/-- reachable in the first round of polls. -/
def Reach (s s' : Sys) : Prop := ∃ l, run s l = some s' ∧ ∀ x ∈ l, x.plain = true

theorem Reach.refl (s : Sys) : Reach s s := ⟨[], rfl, by simp⟩
theorem Reach.trans {a b c : Sys} (h1 : Reach a b) (h2 : Reach b c) : Reach a c := by
  obtain ⟨l1, h1, p1⟩ := h1
  obtain ⟨l2, h2, p2⟩ := h2
  exact ⟨l1 ++ l2, run_append h1 h2, fun x hx => (List.mem_append.1 hx).elim (p1 x) (p2 x)⟩
theorem Reach.step {a b c : Sys} (h1 : Reach a b) (x : Lab) (h2 : HdLoop.step b x = some c) (hx : x.plain = true := by rfl) : Reach a c :=
  h1.trans ⟨[x], run_one h2, by simpa using hx⟩

section
variable {c : Int} {main : Main} {deb : Deb} {o : Time} {p q r : Nat} {stop : HdLoop.Stop} {req : Nat → Req} {queue : Bool → List Nat}

theorem st_deliver (h : q < 64) : HdLoop.step ⟨c, main, deb, o, p + 1, q, r, stop, req, queue⟩ .deliver = some ⟨c, main, deb, o, p, q + 1, r, stop, req, queue⟩ := by
  simp [HdLoop.step, bufferSize, h]
theorem st_consume : HdLoop.step ⟨c, .idle, deb, o, p, q + 1, r, stop, req, queue⟩ .consume = some ⟨c, .requesting, deb, o, p, q, r, stop, req, queue⟩ := by
  simp [HdLoop.step]
theorem st_request (h : r < 64) : HdLoop.step ⟨c, .requesting, deb, o, p, q, r, stop, req, queue⟩ .request = some ⟨c, .idle, deb, o, p, q, r + 1, stop, req, queue⟩ := by
  simp [HdLoop.step, bufferSize, h]
theorem st_take : HdLoop.step ⟨c, main, .top, o, p, q, r + 1, stop, req, queue⟩ .take =
    some ⟨c, main, .checking, debouncerTake o ⟨c, 1⟩, p, q, r, stop, req, queue⟩ := by
  simp [HdLoop.step]
theorem st_sleep : HdLoop.step ⟨c, main, .top, o, p, q, 0, stop, req, queue⟩ .sleep = some ⟨c, main, .sleeping (c + 300000000), o, p, q, 0, stop, req, queue⟩ := by
  simp [HdLoop.step, sleepTime]
theorem st_wake {w : Int} (h : c ≥ w) : HdLoop.step ⟨c, main, .sleeping w, o, p, q, r, stop, req, queue⟩ .wake = some ⟨c, main, .checking, o, p, q, r, stop, req, queue⟩ := by
  simp [HdLoop.step, h]
theorem st_advance (n : Nat) : HdLoop.step ⟨c, main, deb, o, p, q, r, stop, req, queue⟩ (.advance n) = some ⟨c + n, main, deb, o, p, q, r, stop, req, queue⟩ := rfl
theorem st_check : HdLoop.step ⟨c, main, .checking, o, p, q, r, stop, req, queue⟩ .check =
    some ⟨c, main, if debouncerDue threshold o ⟨c, 1⟩ then .sending else .top, o, p, q, r, stop, req, queue⟩ := by
  simp [HdLoop.step]

/-- `n` responses arrive and are consumed while the debouncer does nothing. -/
theorem reach_cycle (n p r : Nat) (h : r + n ≤ 64) :
    Reach ⟨c, .idle, deb, o, p + n, 0, r, stop, req, queue⟩ ⟨c, .idle, deb, o, p, 0, r + n, stop, req, queue⟩ := by
  induction n generalizing r with
  | zero => exact .refl _
  | succ n ih =>
    have h1 : Reach ⟨c, .idle, deb, o, p + (n + 1), 0, r, stop, req, queue⟩ ⟨c, .idle, deb, o, p + n, 0, r + 1, stop, req, queue⟩ :=
      (((Reach.refl _).step .deliver (st_deliver (by omega))).step .consume st_consume).step .request (st_request (by omega))
    have h2 := ih (r + 1) (by omega)
    rw [show r + 1 + n = r + (n + 1) by omega] at h2
    exact h1.trans h2
end

theorem due_iff (o c : Int) (ho : o ≠ 0) : debouncerDue threshold ⟨o, 1⟩ ⟨c, 1⟩ = true ↔ c - o > 2000000000 := by
  unfold debouncerDue
  simp only [isZero, ho, decide_false, Bool.not_false, Bool.true_and, decide_eq_true_eq]
  exact subTime_gt (by unfold threshold; omega) (by unfold threshold; omega)

end HdLoop

/-- with 66 hosts or more, the two goroutines can come to wait for each other in the first round of polls. -/
theorem HdLoop.stuck_reached (clock : Int) (hc : 0 < clock) (hosts : Nat) (hh : 66 ≤ hosts) :
    ∃ s, Reach (HdLoop.init clock hosts) s ∧ Stuck s ∧ (∀ i, s.req i = .notCalled) ∧ s.stop = .notCalled := by
  obtain ⟨k, rfl⟩ : ∃ k, hosts = k + 66 := ⟨hosts - 66, by omega⟩
  have hne : clock ≠ 0 := by omega
  let req : Nat → Req := fun _ => .notCalled
  let queue : Bool → List Nat := fun _ => []
  have h1 : Reach (HdLoop.init clock (k + 66)) ⟨clock, .idle, .top, ⟨0, 0⟩, k + 65, 0, 1, .notCalled, req, queue⟩ := reach_cycle 1 (k + 65) 0 (by omega)
  have h2 : Reach (HdLoop.init clock (k + 66)) ⟨clock, .idle, .checking, ⟨clock, 1⟩, k + 65, 0, 0, .notCalled, req, queue⟩ := h1.step .take st_take
  have h3 : Reach (HdLoop.init clock (k + 66)) ⟨clock, .idle, .top, ⟨clock, 1⟩, k + 65, 0, 0, .notCalled, req, queue⟩ := by
    refine h2.step .check ?_
    rw [st_check, if_neg (by rw [due_iff _ _ hne]; omega)]
  have h4 : Reach (HdLoop.init clock (k + 66)) ⟨clock + 1900000000, .idle, .checking, ⟨clock, 1⟩, k + 65, 0, 0, .notCalled, req, queue⟩ :=
    ((h3.step .sleep st_sleep).step (.advance 1900000000) (st_advance _)).step .wake (st_wake (by push_cast; omega))
  have h5 : Reach (HdLoop.init clock (k + 66)) ⟨clock + 1900000000, .idle, .top, ⟨clock, 1⟩, k + 65, 0, 0, .notCalled, req, queue⟩ := by
    refine h4.step .check ?_
    rw [st_check, if_neg (by rw [due_iff _ _ hne]; omega)]
  have h6 : Reach (HdLoop.init clock (k + 66)) ⟨clock + 1900000000, .idle, .sleeping (clock + 1900000000 + 300000000), ⟨clock, 1⟩, k + 1, 0, 64, .notCalled, req, queue⟩ :=
    (h5.step .sleep st_sleep).trans (reach_cycle 64 (k + 1) 0 (by omega))
  have h7 : Reach (HdLoop.init clock (k + 66)) ⟨clock + 1900000000 + 300000000, .requesting, .checking, ⟨clock, 1⟩, k, 0, 64, .notCalled, req, queue⟩ :=
    (((h6.step .deliver (st_deliver (by omega))).step .consume st_consume).step (.advance 300000000) (st_advance _)).step .wake (st_wake (by push_cast; omega))
  have h8 : Reach (HdLoop.init clock (k + 66)) ⟨clock + 1900000000 + 300000000, .requesting, .sending, ⟨clock, 1⟩, k, 0, 64, .notCalled, req, queue⟩ := by
    refine h7.step .check ?_
    rw [st_check, if_pos (by rw [due_iff _ _ hne]; omega)]
  exact ⟨_, h8, ⟨rfl, rfl, rfl⟩, fun _ => rfl, rfl⟩

/-- C50 is false: with 66 hosts or more, the aggregation loop and the debouncer can come to wait for each other for ever: no recalculation, no
answer to any API request, no return from `Stop`. (One host answers at once, the others answer at the moment the debouncer is asleep for the last time
before firing: the buffer of 64 requests fills up, the loop waits for the debouncer to take one, the debouncer for the loop to let it fire.) -/
theorem C50_false (clock : Int) (hc : 0 < clock) (hosts : Nat) (hh : 66 ≤ hosts) :
    ∃ l s, run (HdLoop.init clock hosts) l = some s ∧ ∀ l' s', run s l' = some s' →
      s'.main = .requesting ∧ s'.deb = .sending ∧ (∀ i, s'.req i ≠ .answered) ∧ s'.stop ≠ .returned := by
  obtain ⟨s, ⟨l, hl, _⟩, h1, h2, h3⟩ := HdLoop.stuck_reached clock hc hosts hh
  refine ⟨l, s, hl, ?_⟩
  intro l' s' hr
  obtain ⟨a, b, c⟩ := stuck_for_ever h1 hr
  exact ⟨a.1, a.2.2, fun i hi => (nomatch (h2 i).symm.trans (b i hi)), fun hi => (nomatch h3.symm.trans (c hi))⟩

namespace HdLoop

theorem balance {clock : Int} {hosts : Nat} {l : List Lab} {s : Sys} (h : run (init clock hosts) l = some s) :
    l.count .consume = l.count .take + s.requests + (if s.main = .requesting then 1 else 0) := by
  induction l using snocInduction generalizing s with
  | nil => cases h; simp [init]
  | snoc t x ih =>
    obtain ⟨s1, h1, h2⟩ := run_snoc h
    have ih := ih h1
    rw [List.count_append, List.count_append, ih]
    cases x with
    | wake =>
      simp only [step] at h2
      split at h2
      · split at h2
        · cases h2; simp
        · cases h2
      · cases h2
    | accept k =>
      simp only [step] at h2
      split at h2
      · next h3 _ => cases h2; simp [h3]
      · cases h2
    | reply =>
      simp only [step] at h2
      split at h2
      · next h3 => cases h2; simp [h3]
      · cases h2
    | advance n => cases h2; simp
    | _ =>
      simp only [step] at h2
      split at h2
      · next h3 => cases h2; simp_all <;> omega
      · cases h2

end HdLoop

namespace HdLoop

structure Ok (s : Sys) : Prop where
  stopping : s.main = .stopping → s.stop = .waiting
  waits : ∀ i, s.req i = .waiting → (∃ h, i ∈ s.queue h) ∨ s.main = .replying i
  queued : ∀ h i, i ∈ s.queue h → s.req i = .waiting ∨ s.req i = .answered
  replying : ∀ i, s.main = .replying i → s.req i = .waiting ∨ s.req i = .answered

theorem ok_step {s s' : Sys} {x : Lab} (h : Ok s) (hs : step s x = some s') : Ok s' := by
  obtain ⟨h1, h2, h3q, h4r⟩ := h
  cases x with
  | advance n => cases hs; exact ⟨h1, h2, h3q, h4r⟩
  | deliver =>
    simp only [step] at hs
    split at hs
    · cases hs; exact ⟨h1, h2, h3q, h4r⟩
    · cases hs
  | take =>
    simp only [step] at hs
    split at hs
    · cases hs; exact ⟨h1, h2, h3q, h4r⟩
    · cases hs
  | sleep =>
    simp only [step] at hs
    split at hs
    · cases hs; exact ⟨h1, h2, h3q, h4r⟩
    · cases hs
  | check =>
    simp only [step] at hs
    split at hs
    · cases hs; exact ⟨h1, h2, h3q, h4r⟩
    · cases hs
  | fire =>
    simp only [step] at hs
    split at hs
    · cases hs; exact ⟨h1, h2, h3q, h4r⟩
    · cases hs
  | tick n =>
    simp only [step] at hs
    split at hs
    · cases hs; exact ⟨h1, h2, h3q, h4r⟩
    · cases hs
  | allIn =>
    simp only [step] at hs
    split at hs
    · cases hs; exact ⟨h1, h2, h3q, h4r⟩
    · cases hs
  | wake =>
    simp only [step] at hs
    split at hs
    · split at hs
      · cases hs; exact ⟨h1, h2, h3q, h4r⟩
      · cases hs
    · cases hs
  | consume =>
    simp only [step] at hs
    split at hs
    · next h3 =>
      cases hs
      refine ⟨fun h => (nomatch h), fun i hi => ?_, fun h i hi => h3q h i hi, fun n hn => (nomatch hn)⟩
      rcases h2 i hi with h | h
      · exact .inl h
      · rw [h3.1] at h; cases h
    · cases hs
  | request =>
    simp only [step] at hs
    split at hs
    · next h3 =>
      cases hs
      refine ⟨fun h => (nomatch h), fun i hi => ?_, fun h i hi => h3q h i hi, fun n hn => (nomatch hn)⟩
      rcases h2 i hi with h | h
      · exact .inl h
      · rw [h3.1] at h; cases h
    · cases hs
  | call i =>
    simp only [step] at hs
    split at hs
    · next hc =>
      cases hs
      have keep : ∀ j, (s.req j = .waiting ∨ s.req j = .answered) → j ≠ i := by
        rintro j hj rfl
        rw [hc] at hj
        rcases hj with h | h <;> cases h
      refine ⟨h1, fun j hj => ?_, fun h j hj => ?_, fun j hj => ?_⟩
      · simp only [HdLoop.set] at hj
        split at hj
        · split at hj <;> cases hj
        · exact h2 j hj
      · simpa [HdLoop.set, keep j (h3q h j hj)] using h3q h j hj
      · simpa [HdLoop.set, keep j (h4r j hj)] using h4r j hj
    · cases hs
  | enqueue i k =>
    simp only [step] at hs
    split at hs
    · next hc =>
      cases hs
      refine ⟨h1, fun j hj => ?_, fun h j hj => ?_, fun j hj => ?_⟩
      · simp only [HdLoop.set] at hj ⊢
        split at hj
        · next e => exact .inl ⟨k, by simp [e]⟩
        · rcases h2 j hj with ⟨h, hm⟩ | hm
          · left
            refine ⟨h, ?_⟩
            split
            · next e => rw [← e]; simp [hm]
            · exact hm
          · exact .inr hm
      · by_cases e : j = i
        · exact .inl (by simp [HdLoop.set, e])
        · simp only [HdLoop.set, if_neg e] at hj ⊢
          split at hj
          · rcases List.mem_append.1 hj with hj | hj
            · exact h3q k j hj
            · exact absurd (List.mem_singleton.1 hj) e
          · exact h3q h j hj
      · by_cases e : j = i
        · exact .inl (by simp [HdLoop.set, e])
        · simpa [HdLoop.set, e] using h4r j hj
    · cases hs
  | accept k =>
    simp only [step] at hs
    split at hs
    · next i q h3 h4 =>
      cases hs
      refine ⟨fun h => (nomatch h), fun j hj => ?_, ?_, ?_⟩
      · simp only [HdLoop.set]
        rcases h2 j hj with ⟨h, hm⟩ | hm
        · by_cases e : h = k
          · subst e
            rw [h4] at hm
            rcases List.mem_cons.1 hm with rfl | hm
            · exact .inr rfl
            · exact .inl ⟨h, by simp [hm]⟩
          · exact .inl ⟨h, by simp [e, hm]⟩
        · rw [h3] at hm; cases hm
      · intro h j hj
        simp only [HdLoop.set] at hj
        split at hj
        · exact h3q k j (by rw [h4]; simp [hj])
        · exact h3q h j hj
      · intro j hj
        cases hj
        exact h3q k i (by rw [h4]; simp)
    · cases hs
  | reply =>
    simp only [step] at hs
    split at hs
    · next i h3 =>
      cases hs
      refine ⟨fun h => (nomatch h), fun j hj => ?_, ?_, ?_⟩
      · simp only [HdLoop.set] at hj
        split at hj
        · cases hj
        · next e =>
          rcases h2 j hj with h | h
          · exact .inl h
          · rw [h3] at h; cases h; exact absurd rfl e
      · intro h j hj
        simp only [HdLoop.set]
        split
        · exact .inr rfl
        · exact h3q h j hj
      · intro j hj
        cases hj
    · cases hs
  | stop =>
    simp only [step] at hs
    split at hs
    · next h3 =>
      cases hs
      exact ⟨fun h => (by rw [h1 h] at h3; cases h3), h2, h3q, h4r⟩
    · cases hs
  | acceptStop =>
    simp only [step] at hs
    split at hs
    · next h3 =>
      cases hs
      refine ⟨fun _ => rfl, fun i hi => ?_, fun h i hi => h3q h i hi, fun n hn => (nomatch hn)⟩
      rcases h2 i hi with h | h
      · exact .inl h
      · rw [h3.1] at h; cases h
    · cases hs
  | stopped =>
    simp only [step] at hs
    split at hs
    · next h3 =>
      cases hs
      refine ⟨fun h => (nomatch h), fun i hi => ?_, fun h i hi => h3q h i hi, fun n hn => (nomatch hn)⟩
      rcases h2 i hi with h | h
      · exact .inl h
      · rw [h3.1] at h; cases h
    · cases hs

theorem ok_run {clock : Int} {hosts : Nat} {l : List Lab} {s : Sys} (h : run (init clock hosts) l = some s) : Ok s :=
  run_inv (fun _ _ _ => ok_step) ⟨by simp [init], by simp [init], by simp [init], by simp [init]⟩ h

theorem settle {s : Sys} (h : s.main = .idle) :
    ∃ l' s', l'.length ≤ 1 ∧ (∀ x ∈ l', x = Lab.fire) ∧ run s l' = some s' ∧ s'.main = .idle ∧ s'.deb ≠ .sending ∧ s'.req = s.req ∧ s'.queue = s.queue ∧
      s'.stop = s.stop := by
  by_cases hd : s.deb = .sending
  · exact ⟨[.fire], { s with deb := .top, oldest := zeroTime }, by simp, by simp, run_one (if_pos ⟨hd, h⟩), h, by simp, rfl, rfl, rfl⟩
  · exact ⟨[], s, by simp, by simp, rfl, h, hd, rfl, rfl, rfl⟩

end HdLoop

/-- C50.  Partial: as long as the responses consumed are at most 64 more than the requests the debouncer has taken, nobody is stuck: at most two steps of
the aggregation loop and the debouncer, for which no one else is needed, bring the loop back to its `select` (or to its end) with the debouncer not waiting. -/
theorem C50_partial {clock : Int} {hosts : Nat} {l : List Lab} {s : Sys} (h : run (HdLoop.init clock hosts) l = some s)
    (hcount : l.count .consume ≤ l.count .take + 64) :
    ∃ l' s', l'.length ≤ 2 ∧ (∀ x ∈ l', x ∈ [Lab.request, .reply, .stopped, .fire]) ∧ run s l' = some s' ∧
      (s'.main = .idle ∧ s'.deb ≠ .sending ∨ s'.main = .stopped) := by
  have hbal := balance h
  have hok := ok_run h
  have one : ∀ {x : Lab} {s1 : Sys}, x ∈ [Lab.request, .reply, .stopped, .fire] → HdLoop.step s x = some s1 → s1.main = .idle →
      ∃ l' s', l'.length ≤ 2 ∧ (∀ x ∈ l', x ∈ [Lab.request, .reply, .stopped, .fire]) ∧ run s l' = some s' ∧
      (s'.main = .idle ∧ s'.deb ≠ .sending ∨ s'.main = .stopped) := by
    intro x s1 hx hs hi
    obtain ⟨l', s', g1, g2, g3, g4, g5, _⟩ := settle hi
    refine ⟨[x] ++ l', s', by simp; omega, ?_, run_append (run_one hs) g3, .inl ⟨g4, g5⟩⟩
    intro y hy
    rcases List.mem_append.1 hy with h | h
    · rw [List.mem_singleton.1 h]; exact hx
    · rw [g2 y h]; simp
  cases hm : s.main with
  | idle =>
    obtain ⟨l', s', g1, g2, g3, g4, g5, _⟩ := settle hm
    exact ⟨l', s', by omega, fun x hx => by rw [g2 x hx]; simp, g3, .inl ⟨g4, g5⟩⟩
  | requesting =>
    rw [hm, if_pos rfl] at hbal
    refine one (x := .request) (by simp) (if_pos ⟨hm, ?_⟩) rfl
    show s.requests < 64
    omega
  | replying i => exact one (x := .reply) (by simp) (by simp only [HdLoop.step, hm]; rfl) rfl
  | stopping =>
    exact ⟨[.stopped], { s with main := .stopped, stop := .returned }, by simp, by simp, run_one (if_pos ⟨hm, hok.stopping hm⟩), .inr rfl⟩
  | stopped => exact ⟨[], s, by simp, by simp, rfl, .inr hm⟩

/-- a case that meets the hypotheses: any number of hosts, three responses consumed, an API request waiting, the debouncer about to look at the clock. -/
example (hosts : Nat) (h : 3 ≤ hosts) : ∃ s, run (HdLoop.init 5 hosts) [.deliver, .consume, .request, .take, .call 0, .deliver, .consume, .enqueue 0 true, .request,
    .deliver, .consume] = some s ∧ s.main = .requesting ∧ s.deb = .checking := by
  obtain ⟨k, rfl⟩ : ∃ k, hosts = k + 3 := ⟨hosts - 3, by omega⟩
  refine ⟨_, rfl, rfl, rfl⟩

/-! ## C51 -/

/-- C51 is false: an API request that looked at the stop flag just before `Stop` set it, and sends its channel after the loop has ended, waits for ever,
although `Stop` has returned. -/
theorem C51_false (clock : Int) (hosts : Nat) : ∃ l s, run (HdLoop.init clock hosts) l = some s ∧ s.stop = .returned ∧
    ∀ l' s', run s l' = some s' → s'.req 0 = .waiting := by
  refine ⟨[.call 0, .stop, .acceptStop, .stopped, .enqueue 0 false], _, rfl, rfl, ?_⟩
  intro l' s' hr
  refine (run_inv (P := fun s => s.main = .stopped ∧ s.req 0 = .waiting) ?_ ⟨rfl, rfl⟩ hr).2
  rintro s x s' ⟨h1, h2⟩ hs
  cases x with
  | call i =>
    simp only [HdLoop.step] at hs
    split at hs
    · next h3 =>
      cases hs
      refine ⟨h1, ?_⟩
      have : i ≠ 0 := by rintro rfl; rw [h2] at h3; cases h3
      simp [HdLoop.set, Ne.symm this, h2]
    · cases hs
  | enqueue i k =>
    simp only [HdLoop.step] at hs
    split at hs
    · next h3 =>
      cases hs
      refine ⟨h1, ?_⟩
      have : i ≠ 0 := by rintro rfl; rw [h2] at h3; cases h3.1
      simp [HdLoop.set, Ne.symm this, h2]
    · cases hs
  | wake =>
    simp only [HdLoop.step] at hs
    split at hs
    · split at hs
      · cases hs; exact ⟨h1, h2⟩
      · cases hs
    · cases hs
  | advance n => cases hs; exact ⟨h1, h2⟩
  | accept k => simp [HdLoop.step, h1] at hs
  | reply => simp [HdLoop.step, h1] at hs
  | _ =>
    simp only [HdLoop.step] at hs
    split at hs
    · next h3 =>
      cases hs
      first
      | exact ⟨h1, h2⟩
      | (exfalso; rw [h1] at h3; revert h3; simp)
    · cases hs

namespace HdLoop

/-- the loop, at its `select`, can answer everything in a queue. -/
theorem drain (k : Bool) (q : List Nat) : ∀ {s : Sys}, s.main = .idle → s.queue k = q →
    ∃ l s', run s l = some s' ∧ s'.main = .idle ∧ s'.queue k = [] ∧ (∀ i ∈ q, s'.req i = .answered) ∧ (∀ i, i ∉ q → s'.req i = s.req i) ∧
      s'.stop = s.stop := by
  induction q with
  | nil => intro s h1 h2; exact ⟨[], s, rfl, h1, h2, by simp, by simp, rfl⟩
  | cons i q ih =>
    intro s h1 h2
    let s1 : Sys := { s with main := .replying i, queue := HdLoop.set s.queue k q }
    let s2 : Sys := { s1 with main := .idle, req := HdLoop.set s1.req i .answered }
    have e1 : HdLoop.step s (.accept k) = some s1 := by simp only [HdLoop.step, h1, h2]; rfl
    have e2 : HdLoop.step s1 .reply = some s2 := rfl
    obtain ⟨l, s', g1, g2, g3, g4, g5, g6⟩ := ih (s := s2) rfl (by simp [s2, s1, HdLoop.set])
    refine ⟨[.accept k, .reply] ++ l, s', run_append (l1 := [.accept k, .reply]) (run_append (run_one e1) (run_one e2)) g1, g2, g3, ?_, ?_, g6⟩
    · intro j hj
      by_cases hq : j ∈ q
      · exact g4 j hq
      · rcases List.mem_cons.1 hj with rfl | h
        · rw [g5 j hq]; simp [s2, HdLoop.set]
        · exact absurd h hq
    · intro j hj
      have hji : j ≠ i := fun e => hj (by simp [e])
      rw [g5 j (fun h => hj (by simp [h]))]
      simp [s2, s1, HdLoop.set, hji]

end HdLoop

/-- C51.  Partial: a request that starts after `Stop` was called returns at once with nothing; and as long as the loop is running (and not stuck, see C50),
every request that has passed the flag can get its answer, and a pending `Stop` can return, with steps of healthd alone. -/
theorem C51_partial {clock : Int} {hosts : Nat} {l : List Lab} {s : Sys} (h : run (HdLoop.init clock hosts) l = some s) (i : Nat) :
    (s.req i = .notCalled → s.stop ≠ .notCalled → ∃ s', HdLoop.step s (.call i) = some s' ∧ s'.req i = .refused) ∧
    (l.count .consume ≤ l.count .take + 64 → s.main ≠ .stopping → s.main ≠ .stopped →
      ((s.req i = .checked ∨ s.req i = .waiting → ∃ l' s', run s l' = some s' ∧ s'.req i = .answered) ∧
       (s.stop = .flagged → ∃ l' s', run s l' = some s' ∧ s'.stop = .returned))) := by
  refine ⟨?_, ?_⟩
  · intro h1 h2
    refine ⟨_, if_pos h1, ?_⟩
    simp [HdLoop.set, h2]
  · intro hcount hm1 hm2
    have hbal := balance h
    have hok := ok_run h
    -- back to the `select`
    have hidle : ∃ l' s', run s l' = some s' ∧ s'.main = .idle ∧ s'.stop = s.stop ∧
        (∀ j, s.req j = .checked → s'.req j = .checked) ∧ (∀ j, s.req j = .waiting → s'.req j = .answered ∨ (s'.req j = .waiting ∧ ∃ k, j ∈ s'.queue k)) := by
      cases hm : s.main with
      | idle =>
        refine ⟨[], s, rfl, hm, rfl, fun _ h => h, fun j hj => ?_⟩
        rcases hok.waits j hj with g | g
        · exact .inr ⟨hj, g⟩
        · rw [hm] at g; cases g
      | requesting =>
        rw [hm, if_pos rfl] at hbal
        refine ⟨[.request], { s with requests := s.requests + 1, main := .idle }, run_one (if_pos ⟨hm, by show s.requests < 64; omega⟩), rfl, rfl, fun _ h => h, fun j hj => ?_⟩
        rcases hok.waits j hj with g | g
        · exact .inr ⟨hj, g⟩
        · rw [hm] at g; cases g
      | replying n =>
        refine ⟨[.reply], { s with main := .idle, req := HdLoop.set s.req n .answered }, run_one (by simp only [HdLoop.step, hm]), rfl, rfl, ?_, ?_⟩
        · intro j hj
          have : j ≠ n := by
            rintro rfl
            have := hok.replying j hm
            rw [hj] at this
            rcases this with g | g <;> cases g
          simp [HdLoop.set, this, hj]
        · intro j hj
          by_cases e : j = n
          · exact .inl (by simp [HdLoop.set, e])
          · refine .inr ⟨by simp [HdLoop.set, e, hj], ?_⟩
            rcases hok.waits j hj with g | g
            · exact g
            · rw [hm] at g; cases g; exact absurd rfl e
      | stopping => exact absurd hm hm1
      | stopped => exact absurd hm hm2
    obtain ⟨l1, s1, r1, m1, st1, c1, w1⟩ := hidle
    refine ⟨?_, ?_⟩
    · rintro (hc | hw)
      · obtain ⟨l2, s2, r2, m2, q2, a2, o2, _⟩ := drain false _ m1 rfl
        have hc1 := c1 i hc
        have hni : i ∉ s1.queue false := by
          intro hm
          have := (ok_run (run_append h r1)).queued false i hm
          rw [hc1] at this
          rcases this with g | g <;> cases g
        have hc2 : s2.req i = .checked := by rw [o2 i hni]; exact hc1
        let s3 : Sys := { s2 with req := HdLoop.set s2.req i .waiting, queue := HdLoop.set s2.queue false (s2.queue false ++ [i]) }
        have r3 : HdLoop.step s2 (.enqueue i false) = some s3 := if_pos ⟨hc2, by rw [q2]; decide⟩
        obtain ⟨l4, s4, r4, _, _, a4, _, _⟩ := drain false [i] (s := s3) m2 (by simp [s3, HdLoop.set, q2])
        exact ⟨_, s4, run_append r1 (run_append r2 (run_append (run_one r3) r4)), a4 i (by simp)⟩
      · rcases w1 i hw with g | ⟨_, k, hk⟩
        · exact ⟨l1, s1, r1, g⟩
        · obtain ⟨l2, s2, r2, _, _, a2, _, _⟩ := drain k _ m1 rfl
          exact ⟨_, s2, run_append r1 r2, a2 i hk⟩
    · intro hs
      let s2 : Sys := { s1 with main := .stopping, stop := .waiting }
      let s3 : Sys := { s2 with main := .stopped, stop := .returned }
      have e1 : HdLoop.step s1 .acceptStop = some s2 := if_pos ⟨m1, by rw [st1, hs]⟩
      have e2 : HdLoop.step s2 .stopped = some s3 := rfl
      exact ⟨_, s3, run_append r1 (run_append (run_one e1) (run_one e2)), rfl⟩

/-- a case that meets the hypotheses: `Stop` has been called, request 0 waits for its answer, request 1 has looked at the flag before, request 2 not yet. -/
example (hosts : Nat) : ∃ s, run (HdLoop.init 5 hosts) [.call 0, .call 1, .enqueue 0 false, .stop] = some s ∧ s.req 0 = .waiting ∧ s.req 1 = .checked ∧
    s.req 2 = .notCalled ∧ s.stop = .flagged ∧ s.main = .idle := ⟨_, rfl, rfl, rfl, rfl, rfl, rfl⟩
