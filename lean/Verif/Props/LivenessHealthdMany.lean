import Verif.Props.LivenessHealthdFew
/-!
# C86 for healthd with many hosts: the wait of C50 is one of the fair executions, so the bound of `C86_healthd_few` is exact
-/
open Spec

/-- an execution that follows a run makes its steps. -/
theorem Spec.Exec.follow_run {S L : Type} (step : S → L → Option S) (s0 : S) (f : Nat → L) (ls : List L) {s : S} (hr : ls.foldlM step s0 = some s)
    (hf : ∀ i l, ls[i]? = some l → f i = l) :
    (follow step s0 f).st ls.length = s ∧ ∀ i l, ls[i]? = some l → (follow step s0 f).lab i = some l := by
  induction ls using snocInduction generalizing s with
  | nil =>
    cases hr
    exact ⟨(follow step s0 f).start, fun i l h => by simp at h⟩
  | snoc t x ih =>
    rw [List.foldlM_append] at hr
    cases h1 : t.foldlM step s0 with
    | none => rw [h1] at hr; cases hr
    | some s1 =>
      rw [h1] at hr
      have h2 : step s1 x = some s := by simpa using hr
      have hpre : ∀ i l, t[i]? = some l → (t ++ [x])[i]? = some l := fun i l h => by
        obtain ⟨hi, _⟩ := List.getElem?_eq_some_iff.1 h
        rw [List.getElem?_append_left hi]; exact h
      obtain ⟨e1, e2⟩ := ih h1 (fun i l h => hf i l (hpre i l h))
      have hx : f t.length = x := hf _ _ (by simp)
      obtain ⟨g1, g2⟩ := follow_step step s0 f t.length (s := s) (by rw [e1, hx]; exact h2)
      refine ⟨by rw [List.length_append]; exact g1, fun i l h => ?_⟩
      by_cases hi : i < t.length
      · rw [List.getElem?_append_left hi] at h; exact e2 i l h
      · obtain ⟨hi', _⟩ := List.getElem?_eq_some_iff.1 h
        have : i = t.length := by simp at hi'; omega
        subst this
        have : x = l := by simpa using h
        rw [g2, hx, this]

namespace HdLoop

/-- the steps of the two goroutines between `select`s, and those of the `select`s other than a tick and a nil. -/
def Lab.inner : Lab → Bool
  | .take | .sleep | .wake | .check | .request | .reply | .stopped | .consume | .fire | .accept _ | .acceptStop => true
  | _ => false

/-- a stuck system makes none of them. -/
theorem stuck_none {s : Sys} (h : Stuck s) (l : Lab) (hl : l.inner = true) : step s l = none := by
  obtain ⟨h1, h2, h3⟩ := h
  cases l <;> first | (cases hl; done) | simp [step, h1, h2, h3, bufferSize]

/-- who is in a queue has called. -/
theorem queued_called {s s' : Sys} {l : Lab} (h : step s l = some s') (hs : ∀ b, ∀ i ∈ s.queue b, s.req i ≠ .notCalled) :
    ∀ b, ∀ i ∈ s'.queue b, s'.req i ≠ .notCalled := by
  intro b i hi
  cases l with
  | call j =>
    simp only [step] at h
    split at h
    · cases h
      simp only [HdLoop.set]
      split
      · split <;> simp
      · exact hs b i hi
    · cases h
  | enqueue j k =>
    simp only [step] at h
    split at h
    · cases h
      simp only [HdLoop.set] at hi ⊢
      split
      · simp
      · next hne =>
        split at hi
        · next hb =>
          rcases List.mem_append.1 hi with hi | hi
          · exact hs k i hi
          · exact absurd (List.mem_singleton.1 hi) hne
        · exact hs b i hi
    · cases h
  | accept k =>
    simp only [step] at h
    split at h
    · next j q hm hq =>
      cases h
      simp only [HdLoop.set] at hi
      split at hi
      · exact hs k i (by rw [hq]; exact List.mem_cons_of_mem _ hi)
      · exact hs b i hi
    · cases h
  | reply =>
    simp only [step] at h
    split at h
    · cases h
      simp only [HdLoop.set]
      split
      · simp
      · exact hs b i hi
    · cases h
  | _ =>
    simp only [step] at h
    (repeat' split at h) <;> cases h <;> exact hs b i hi

theorem stop_kept {s s' : Sys} {l : Lab} (h : step s l = some s') (hs : s.stop ≠ .notCalled) : s'.stop ≠ .notCalled := by
  cases l <;> simp only [step] at h <;> (repeat' split at h) <;> cases h
  all_goals first | exact hs | simp_all

/-- `Stop` is not called before a moment at which it is not in progress. -/
theorem stop_unused {clock : Int} {hosts : Nat} (x : Exec step (init clock hosts)) (h : ∀ n, ∃ m, n ≤ m ∧ (x.st m).stop = .notCalled) (n : Nat) :
    x.lab n ≠ some .stop := by
  intro hn
  have hend : ∀ m, n + 1 ≤ m → (x.st m).stop ≠ .notCalled := by
    intro m hm
    induction m, hm using Nat.le_induction with
    | base =>
      have := x.next n _ hn
      simp only [step] at this
      split at this
      · rw [← Option.some.inj this]; simp
      · cases this
    | succ m hm ih =>
      rcases x.cases_lab m with ⟨_, e⟩ | ⟨l, _, e⟩
      · rw [e]; exact ih
      · exact stop_kept e ih
  obtain ⟨m, hm, hs⟩ := h (n + 1)
  exact hend m hm hs

/-- while the aggregation goroutine asks for a recalculation, none has been made since the last poll was consumed. -/
theorem requesting_since {clock : Int} {hosts : Nat} {l : List Lab} {s : Sys} (h : run (init clock hosts) l = some s) (hm : s.main = .requesting) :
    ∃ i : Nat, l[i]? = some Lab.consume ∧ ∀ j : Nat, i < j → l[j]? ≠ some Lab.fire := by
  induction l using snocInduction generalizing s with
  | nil => cases h; cases hm
  | snoc t x ih =>
    obtain ⟨s1, h1, h2⟩ := run_snoc h
    have hstep : x = .consume ∨ (s1.main = .requesting ∧ x ≠ .fire) := by
      cases x with
      | consume => exact .inl rfl
      | wake =>
        simp only [step] at h2
        (repeat' split at h2) <;> cases h2
        exact .inr ⟨hm, by simp⟩
      | _ =>
        refine .inr ?_
        simp only [step] at h2
        (repeat' split at h2) <;> cases h2 <;> simp_all
    rcases hstep with rfl | ⟨hm1, hx⟩
    · refine ⟨t.length, by simp, fun j hj => ?_⟩
      rw [List.getElem?_eq_none (by simp; omega)]; simp
    · obtain ⟨i, hi, hj⟩ := ih h1 hm1
      obtain ⟨hlt, _⟩ := List.getElem?_eq_some_iff.1 hi
      refine ⟨i, by rw [List.getElem?_append_left hlt]; exact hi, fun j hij => ?_⟩
      by_cases hjt : j < t.length
      · rw [List.getElem?_append_left hjt]; exact hj j hij
      · rw [List.getElem?_append_right (by omega)]
        cases hk : j - t.length with
        | zero => simpa using hx
        | succ k => simp

/-- the steps of a run, then time and the polls in turn. -/
def thenWait (ls : List Lab) (n : Nat) : Lab := ls[n]?.getD (if n % 2 = 0 then .advance 1 else .deliver)

/-- a run into a stuck state goes on without end, fairly. -/
theorem stuck_exec {clock : Int} {hosts : Nat} {ls : List Lab} {s : Sys} (hr : run (init clock hosts) ls = some s) (hs : Stuck s)
    (hp : ∀ l ∈ ls, l.plain = true) :
    ∃ x : Exec step (init clock hosts), HdFair x ∧ RoundsApart x ∧ x.st ls.length = s ∧ (∀ i l, ls[i]? = some l → x.lab i = some l) ∧
      ∀ m, ls.length ≤ m → (x.st m).req = s.req ∧ (x.st m).stop = s.stop ∧ (x.lab m = none ∨ x.lab m = some (.advance 1) ∨ x.lab m = some .deliver) := by
  let f := thenWait ls
  let x := Exec.follow step (init clock hosts) f
  have hf : ∀ i l, ls[i]? = some l → f i = l := fun i l h => by simp [f, thenWait, h]
  have hg : ∀ i, ls.length ≤ i → f i = if i % 2 = 0 then .advance 1 else .deliver := fun i h => by
    simp [f, thenWait, List.getElem?_eq_none h]
  obtain ⟨h1, h2⟩ := Exec.follow_run step (init clock hosts) f ls hr hf
  have hlab : ∀ m l, x.lab m = some l → l = f m := fun m l h => by
    have : (if (step (x.st m) (f m)).isSome then some (f m) else none) = some l := h
    split at this
    · simpa using this.symm
    · cases this
  have hlate : ∀ m, ls.length ≤ m → x.lab m = none ∨ x.lab m = some (.advance 1) ∨ x.lab m = some .deliver := fun m hm => by
    cases h : x.lab m with
    | none => exact .inl rfl
    | some l =>
      rw [hlab m l h, hg m hm]
      split
      · exact .inr (.inl rfl)
      · exact .inr (.inr rfl)
  have hinv : ∀ m, ls.length ≤ m → Stuck (x.st m) ∧ (x.st m).req = s.req ∧ (x.st m).stop = s.stop := by
    intro m hm
    induction m, hm using Nat.le_induction with
    | base => rw [show x.st ls.length = s from h1]; exact ⟨hs, rfl, rfl⟩
    | succ m hm ih =>
      obtain ⟨i1, i2, i3⟩ := ih
      rcases x.cases_lab m with ⟨_, e⟩ | ⟨l, hl, e⟩
      · rw [e]; exact ⟨i1, i2, i3⟩
      · refine ⟨(stuck_step i1 e).1, ?_⟩
        rcases hlate m hm with g | g | g
        · rw [g] at hl; cases hl
        · rw [g] at hl; cases hl
          simp only [step, Option.some.injEq] at e
          rw [← e]; exact ⟨i2, i3⟩
        · rw [g] at hl; cases hl
          simp only [step] at e
          split at e
          · rw [← Option.some.inj e]; exact ⟨i2, i3⟩
          · cases e
  have hnot : ∀ m, ls.length ≤ m → ∀ l, l.inner = true → ¬ (step (x.st m) l).isSome := fun m hm l hl => by
    rw [stuck_none (hinv m hm).1 l hl]; simp
  have weak : ∀ A : Lab → Prop, (∀ l, A l → l.inner = true) → x.WeakFair A := fun A hA n hc => by
    obtain ⟨l, hl, h⟩ := hc (max n ls.length) (le_max_left _ _)
    exact absurd h (hnot _ (le_max_right _ _) l (hA l hl))
  have strong : ∀ A : Lab → Prop, (∀ l, A l → l.inner = true) → x.StrongFair A := fun A hA hc => by
    obtain ⟨m, hm, l, hl, h⟩ := hc ls.length
    exact absurd h (hnot _ hm l (hA l hl))
  have hclock : ∀ m, ls.length ≤ m → (x.st (m + 1)).clock = (x.st m).clock + (if m % 2 = 0 then 1 else 0) := fun m hm => by
    rcases x.cases_lab m with ⟨h0, e⟩ | ⟨l, hl, e⟩
    · by_cases hm2 : m % 2 = 0
      · have := (Exec.follow_step step (init clock hosts) f m (s := { x.st m with clock := (x.st m).clock + 1 })
          (by rw [hg m hm, if_pos hm2]; rfl)).2
        rw [show x.lab m = _ from this] at h0; cases h0
      · rw [e, if_neg hm2, add_zero]
    · have := hlab m l hl
      rw [hg m hm] at this
      split at this
      · next h => subst this; simp only [step, Option.some.injEq] at e; rw [← e, if_pos h]; rfl
      · next h =>
        subst this
        simp only [step] at e
        split at e
        · rw [← Option.some.inj e, if_neg h, add_zero]
        · cases e
  refine ⟨x, ?_, ?_, h1, h2, fun m hm => ⟨(hinv m hm).2.1, (hinv m hm).2.2, hlate m hm⟩⟩
  · refine ⟨⟨?_, weak _ ?_, weak _ ?_, weak _ ?_, weak _ ?_, weak _ ?_⟩, ?_, weak _ ?_, strong _ ?_, strong _ ?_, fun b => strong _ ?_, strong _ ?_⟩
    · intro t
      have hk : ∀ k : Nat, (x.st (ls.length + 2 * k)).clock = (x.st ls.length).clock + k := by
        intro k
        induction k with
        | zero => simp
        | succ k ih =>
          rw [show ls.length + 2 * (k + 1) = ls.length + 2 * k + 1 + 1 by omega, hclock _ (by omega), hclock _ (by omega), ih]
          split <;> split <;> push_cast <;> omega
      refine ⟨ls.length + 2 * (t - (x.st ls.length).clock).toNat, ?_⟩
      rw [hk]; omega
    · rintro l (rfl | rfl) <;> rfl
    · rintro l rfl; rfl
    · rintro l rfl; rfl
    · rintro l rfl; rfl
    · rintro l rfl; rfl
    · intro n hc
      obtain ⟨m, hm1, hm2, hm3⟩ : ∃ m, n ≤ m ∧ ls.length ≤ m ∧ m % 2 ≠ 0 := ⟨2 * (n + ls.length) + 1, by omega, by omega, by omega⟩
      obtain ⟨l, rfl, h⟩ := hc m hm1
      obtain ⟨s', h⟩ := Option.isSome_iff_exists.1 h
      refine ⟨m, hm1, .deliver, rfl, ?_⟩
      have hd : f m = .deliver := by rw [hg m hm2, if_neg hm3]
      have := (Exec.follow_step step (init clock hosts) f m (s := s') (by rw [hd]; exact h)).2
      rw [hd] at this; exact this
    · rintro l rfl; rfl
    · rintro l rfl; rfl
    · rintro l rfl; rfl
    · rintro l rfl; rfl
    · rintro l rfl; rfl
  · intro n k hk
    exfalso
    by_cases hn : n < ls.length
    · have := h2 n _ (List.getElem?_eq_getElem hn)
      have hk' : (Exec.follow step (init clock hosts) f).lab n = some (.tick k) := hk
      rw [hk'] at this
      have hq := hp _ (List.getElem_mem hn)
      rw [← Option.some.inj this] at hq
      cases hq
    · rcases hlate n (by omega) with g | g | g <;> rw [g] at hk <;> cases hk

end HdLoop

open HdLoop in
/-- C86 (healthd) is false with 66 hosts or more: the scheduling is fair, the rounds do not overlap, `Stop` is not called, and an API request is never answered. -/
theorem C86_healthd_false (clock : Int) (hc : 0 < clock) (hosts : Nat) (hh : 66 ≤ hosts) :
    ∃ x : Exec HdLoop.step (HdLoop.init clock hosts), HdFair x ∧ RoundsApart x ∧ (∀ n, x.lab n ≠ some .stop) ∧
      ∃ n, x.lab n = some (.call 0) ∧ x.StrongFair (fun l => l = .enqueue 0 true) ∧ ∀ m, n < m → (x.st m).req 0 ≠ .answered := by
  obtain ⟨s, ⟨l, hl, hp⟩, h1, h2, h3⟩ := HdLoop.stuck_reached clock hc hosts hh
  have hq : s.queue true = [] := by
    have : ∀ b, ∀ i ∈ s.queue b, s.req i ≠ .notCalled :=
      run_inv (P := fun s => ∀ b, ∀ i ∈ s.queue b, s.req i ≠ .notCalled) (fun _ _ _ h1 h2 => queued_called h2 h1) (by simp [HdLoop.init]) hl
    cases e : s.queue true with
    | nil => rfl
    | cons i q => exact absurd (h2 i) (this true i (by rw [e]; simp))
  have e1 : step s (.call 0) = some { s with req := HdLoop.set s.req 0 .checked } := by simp [step, h2, h3]
  have e2 : step { s with req := HdLoop.set s.req 0 .checked } (.enqueue 0 true) = some
      { s with req := HdLoop.set (HdLoop.set s.req 0 .checked) 0 .waiting, queue := HdLoop.set s.queue true [0] } := by
    simp [step, HdLoop.set, hq, queueSize]
  have g1 := (stuck_step h1 e1).1
  obtain ⟨x, F, ht, _, hx, hlate⟩ := stuck_exec (run_append hl (run_append (run_one e1) (run_one e2))) (stuck_step g1 e2).1 (by
    intro y hy
    rcases List.mem_append.1 hy with hy | hy
    · exact hp y hy
    · simp only [List.cons_append, List.nil_append, List.mem_cons, List.not_mem_nil, or_false] at hy
      rcases hy with rfl | rfl <;> rfl)
  have hreq : ∀ m, l.length + 2 ≤ m → (x.st m).req 0 = .waiting := fun m hm => by
    rw [(hlate m (by simp; omega)).1]; simp [HdLoop.set]
  have hcall : x.lab l.length = some (.call 0) := hx _ _ (by simp)
  have henq : x.lab (l.length + 1) = some (.enqueue 0 true) := hx _ _ (by simp)
  refine ⟨x, F, ht, stop_unused x fun n => ⟨n + l.length + 2, by omega, by rw [(hlate _ (by simp)).2.1]; exact h3⟩, l.length, hcall, ?_, fun m hm => ?_⟩
  · intro hc
    obtain ⟨m, hm, y, rfl, hy⟩ := hc (l.length + 2)
    simp [step, hreq m hm] at hy
  · by_cases h : l.length + 2 ≤ m
    · rw [hreq m h]; simp
    · have : m = l.length + 1 := by omega
      subst this
      have := x.next _ _ henq
      simp only [step] at this
      split at this
      · next h => rw [h.1]; simp
      · cases this

open HdLoop in
/-- … and neither does `Stop` return. -/
theorem C86_healthd_stop_false (clock : Int) (hc : 0 < clock) (hosts : Nat) (hh : 66 ≤ hosts) :
    ∃ x : Exec HdLoop.step (HdLoop.init clock hosts), HdFair x ∧ RoundsApart x ∧ ∃ n, x.lab n = some .stop ∧ ∀ m, n < m → (x.st m).stop ≠ .returned := by
  obtain ⟨s, ⟨l, hl, hp⟩, h1, h2, h3⟩ := HdLoop.stuck_reached clock hc hosts hh
  have hs : step s .stop = some { s with stop := .flagged } := by simp [step, h3]
  obtain ⟨x, F, ht, _, hx, hlate⟩ := stuck_exec (run_append hl (run_one hs)) (stuck_step h1 hs).1 (by
    intro y hy
    rcases List.mem_append.1 hy with hy | hy
    · exact hp y hy
    · rw [List.mem_singleton.1 hy]; rfl)
  refine ⟨x, F, ht, l.length, hx _ _ (by simp), fun m hm => ?_⟩
  rw [(hlate m (by simp; omega)).2.1]
  simp

open HdLoop in
/-- the bound is exact: every API request is answered in every fair execution with rounds that do not overlap, if and only if there are at most 65 hosts. -/
theorem C86_healthd_iff (clock : Int) (hc : 0 < clock) (hosts : Nat) :
    (∀ x : Exec HdLoop.step (HdLoop.init clock hosts), HdFair x → RoundsApart x → (∀ n, x.lab n ≠ some .stop) →
      ∀ n i h, x.lab n = some (.call i) → x.StrongFair (fun l => l = .enqueue i h) → ∃ m, n < m ∧ (x.st m).req i = .answered) ↔ hosts ≤ 65 := by
  constructor
  · intro h
    by_contra hh
    obtain ⟨x, F, ht, hns, n, hcall, fe, hno⟩ := C86_healthd_false clock hc hosts (by omega)
    obtain ⟨m, hm, ha⟩ := h x F ht hns n 0 true hcall fe
    exact hno m hm ha
  · intro hh x F ht hns
    exact ((C86_healthd_few x F hh ht).1 hns).1

open HdLoop in
/-- … and so for `Stop`. -/
theorem C86_healthd_stop_iff (clock : Int) (hc : 0 < clock) (hosts : Nat) :
    (∀ x : Exec HdLoop.step (HdLoop.init clock hosts), HdFair x → RoundsApart x → ∀ n, x.lab n = some .stop → ∃ m, n < m ∧ (x.st m).stop = .returned) ↔
      hosts ≤ 65 := by
  constructor
  · intro h
    by_contra hh
    obtain ⟨x, F, ht, n, hs, hno⟩ := C86_healthd_stop_false clock hc hosts (by omega)
    obtain ⟨m, hm, ha⟩ := h x F ht n hs
    exact hno m hm ha
  · intro hh x F ht
    exact (C86_healthd_few x F hh ht).2

open HdLoop in
/-- … and for the recalculations: with more hosts a poll can be consumed after which nothing is ever recalculated. -/
theorem C86_healthd_recalculates_iff (clock : Int) (hc : 0 < clock) (hosts : Nat) :
    (∀ x : Exec HdLoop.step (HdLoop.init clock hosts), HdFair x → RoundsApart x → (∀ n, x.lab n ≠ some .stop) →
      ∀ n, x.lab n = some .consume → ∃ m, n < m ∧ x.lab m = some .fire) ↔ hosts ≤ 65 := by
  constructor
  · intro h
    by_contra hh
    obtain ⟨s, ⟨l, hl, hp⟩, h1, _, h3⟩ := HdLoop.stuck_reached clock hc hosts (by omega)
    obtain ⟨x, F, ht, _, hx, hlate⟩ := stuck_exec hl h1 hp
    obtain ⟨i, hi, hj⟩ := requesting_since hl h1.1
    obtain ⟨m, hm, hf⟩ := h x F ht (stop_unused x fun n => ⟨n + l.length, by omega, by rw [(hlate _ (by omega)).2.1]; exact h3⟩) i (hx i _ hi)
    by_cases hml : m < l.length
    · have e := List.getElem?_eq_getElem hml
      have := hx m _ e
      rw [hf] at this
      exact hj m hm (by rw [e, ← Option.some.inj this])
    · rcases (hlate m (by omega)).2.2 with g | g | g <;> rw [g] at hf <;> cases hf
  · intro hh x F ht hns
    exact ((C86_healthd_few x F hh ht).1 hns).2.2 hc

/-- a case: the epoch of 2026 and a hundred hosts. -/
example : ∃ x : Exec HdLoop.step (HdLoop.init 1767225600000000000 100), HdFair x ∧ RoundsApart x ∧ (∀ n, x.lab n ≠ some .stop) ∧
    ∃ n, x.lab n = some (.call 0) ∧ x.StrongFair (fun l => l = .enqueue 0 true) ∧ ∀ m, n < m → (x.st m).req 0 ≠ .answered :=
  C86_healthd_false _ (by decide) 100 (by decide)
