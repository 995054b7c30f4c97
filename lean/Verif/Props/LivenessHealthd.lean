import Verif.Lemmas.Fairness
import Verif.Props.HealthdLoop
/-!
# Property C86: healthd answers its API requests and processes what it polled, eventually
-/
open Spec Healthd

/-- time goes on; the debouncer proceeds when it can; so does the aggregation goroutine outside its `select`. -/
structure Spec.HdRuns {clock : Int} {hosts : Nat} (x : Exec HdLoop.step (HdLoop.init clock hosts)) : Prop where
  time : ∀ t : Int, ∃ m, t ≤ (x.st m).clock
  top : x.WeakFair (fun l => l = .take ∨ l = .sleep)
  wake : x.WeakFair (fun l => l = .wake)
  check : x.WeakFair (fun l => l = .check)
  request : x.WeakFair (fun l => l = .request)
  reply : x.WeakFair (fun l => l = .reply)

/-- the scheduling that the theorems assume of healthd's goroutines: time goes on; a goroutine that can proceed does; a `select` of the aggregation goroutine
does not pass over the same ready case for ever. -/
structure Spec.HdFair {clock : Int} {hosts : Nat} (x : Exec HdLoop.step (HdLoop.init clock hosts)) : Prop extends HdRuns x where
  deliver : x.WeakFair (fun l => l = .deliver)
  stopped : x.WeakFair (fun l => l = .stopped)
  consume : x.StrongFair (fun l => l = .consume)
  fire : x.StrongFair (fun l => l = .fire)
  accept : ∀ h, x.StrongFair (fun l => l = .accept h)
  acceptStop : x.StrongFair (fun l => l = .acceptStop)

namespace HdLoop

/-- what a step does not change. -/
theorem frame {s s' : Sys} {l : Lab} (h : step s l = some s') :
    s.clock ≤ s'.clock ∧
    (l ∉ [.take, .sleep, .wake, .check, .fire] → s'.deb = s.deb) ∧
    (l ∉ [.take, .fire] → s'.oldest = s.oldest) ∧
    (l ∉ [.consume, .request, .reply, .acceptStop, .stopped] → (∀ k, l ≠ .accept k) → s'.main = s.main) ∧
    (l ∉ [.request, .take] → s'.requests = s.requests) ∧
    ((∀ k, l ≠ .accept k) → (∀ i k, l ≠ .enqueue i k) → s'.queue = s.queue) ∧
    (l ≠ .reply → (∀ i, l ≠ .call i) → (∀ i k, l ≠ .enqueue i k) → s'.req = s.req) ∧
    (l ∉ [.stop, .acceptStop, .stopped] → s'.stop = s.stop) ∧
    (l ∉ [.deliver, .consume] → s'.responses = s.responses) ∧
    (l ≠ .deliver → (∀ k, l ≠ .tick k) → s'.polling = s.polling) := by
  cases l <;> simp only [step] at h <;> (try split at h) <;> (try split at h) <;> first
    | cases h
      done
    | (simp only [Option.some.injEq] at h; subst h; simp)

section
variable {clock : Int} {hosts : Nat} {x : Exec HdLoop.step (HdLoop.init clock hosts)}

theorem run_trace (n : Nat) : run (init clock hosts) (x.trace n) = some (x.st n) := by
  induction n with
  | zero => simp [Exec.trace, run, x.start]
  | succ n ih =>
    rw [Exec.trace]
    rcases x.cases_lab n with ⟨e, e'⟩ | ⟨l, e, e'⟩
    · rw [e, e', Option.toList_none, List.append_nil]; exact ih
    · rw [e]; exact run_append ih (run_one e')

theorem clock_mono {n m : Nat} (h : n ≤ m) : (x.st n).clock ≤ (x.st m).clock := by
  induction m, h using Nat.le_induction with
  | base => exact Int.le_refl _
  | succ m _ ih =>
    rcases x.cases_lab m with ⟨_, e⟩ | ⟨l, _, e⟩
    · rw [e]; exact ih
    · exact Int.le_trans ih (frame e).1

/-- the debouncer wakes up. -/
theorem wakes (F : HdRuns x) {n : Nat} {w : Int} (h : (x.st n).deb = .sleeping w) : ∃ m, n ≤ m ∧ (x.st m).deb = .checking := by
  obtain ⟨t, ht⟩ := F.time w
  have hstay : ∀ j, (x.st j).deb = .sleeping w → (x.st (j + 1)).deb = .sleeping w ∨ (x.st (j + 1)).deb = .checking := by
    intro j hj
    rcases x.cases_lab j with ⟨_, e⟩ | ⟨l, _, e⟩
    · left; rw [e]; exact hj
    · by_cases hl : l ∈ [Lab.take, .sleep, .wake, .check, .fire]
      · simp only [List.mem_cons, List.not_mem_nil, or_false] at hl
        rcases hl with rfl | rfl | rfl | rfl | rfl
        · simp [step, hj] at e
        · simp [step, hj] at e
        · simp only [step, hj] at e
          split at e
          · right; simp only [Option.some.injEq] at e; rw [← e]
          · cases e
        · simp [step, hj] at e
        · simp [step, hj] at e
      · left; rw [(frame e).2.1 hl]; exact hj
  -- at some time the clock shows `w`
  have h1 : ∀ k, (x.st (n + k)).deb = .sleeping w ∨ ∃ m, n ≤ m ∧ (x.st m).deb = .checking := by
    intro k
    induction k with
    | zero => exact .inl h
    | succ k ih =>
      rcases ih with ih | ih
      · rcases hstay _ ih with g | g
        · exact .inl g
        · exact .inr ⟨_, by omega, g⟩
      · exact .inr ih
  rcases h1 t with h1 | h1
  · obtain ⟨m, hm, hq⟩ := Exec.leads_weak (x := x) (n := n + t) (P := fun j => (x.st j).deb = .sleeping w) (Q := fun j => (x.st j).deb = .checking) F.wake h1
      (fun j hj hP => ⟨_, rfl, by
        have : w ≤ (x.st j).clock := Int.le_trans ht (clock_mono (by omega))
        simp [step, hP, this]⟩)
      (by
        rintro j _ hP ⟨l, rfl, hl⟩
        have e := x.next j _ hl
        simp only [step, hP] at e
        split at e
        · simp only [Option.some.injEq] at e; rw [← e]
        · cases e)
      (fun j _ hP => hstay j hP)
    exact ⟨m, by omega, hq⟩
  · exact h1

/-- what becomes of the debouncer when it decides. -/
theorem checks (F : HdRuns x) {n : Nat} (h : (x.st n).deb = .checking) :
    ∃ m, n ≤ m ∧ (x.st m).deb = .checking ∧ x.lab m = some .check := by
  by_contra hno
  have hno : ∀ m, n ≤ m → (x.st m).deb = .checking → x.lab m ≠ some .check := fun m hm h1 h2 => hno ⟨m, hm, h1, h2⟩
  have hP : ∀ k, (x.st (n + k)).deb = .checking := by
    intro k
    induction k with
    | zero => exact h
    | succ k ih =>
      rcases x.cases_lab (n + k) with ⟨_, e⟩ | ⟨l, hl, e⟩
      · rw [← Nat.add_assoc, e]; exact ih
      · by_cases hm : l ∈ [Lab.take, .sleep, .wake, .check, .fire]
        · simp only [List.mem_cons, List.not_mem_nil, or_false] at hm
          rcases hm with rfl | rfl | rfl | rfl | rfl
          · simp [step, ih] at e
          · simp [step, ih] at e
          · simp [step, ih] at e
          · exact absurd hl (hno _ (by omega) ih)
          · simp [step, ih] at e
        · rw [← Nat.add_assoc, (frame e).2.1 hm]; exact ih
  obtain ⟨m, hm, l, rfl, hl⟩ := F.check n (fun j hj => ⟨_, rfl, by
    have := hP (j - n); rw [show n + (j - n) = j by omega] at this
    simp [step, this]⟩)
  have := hP (m - n); rw [show n + (m - n) = m by omega] at this
  exact hno m hm this hl

/-- the debouncer comes back to its `select`, or wants to fire. -/
theorem deb_top (F : HdRuns x) (n : Nat) : ∃ m, n ≤ m ∧ ((x.st m).deb = .top ∨ (x.st m).deb = .sending) := by
  have hc : ∀ n, (x.st n).deb = .checking → ∃ m, n ≤ m ∧ ((x.st m).deb = .top ∨ (x.st m).deb = .sending) := by
    intro n h
    obtain ⟨m, hm, h1, h2⟩ := checks F h
    refine ⟨m + 1, by omega, ?_⟩
    have e := x.next m _ h2
    simp only [step, h1, if_true, Option.some.injEq] at e
    rw [← e]
    cases debouncerDue threshold (x.st m).oldest ⟨(x.st m).clock, 1⟩ <;> simp
  cases h : (x.st n).deb with
  | top => exact ⟨n, Nat.le_refl _, .inl h⟩
  | sending => exact ⟨n, Nat.le_refl _, .inr h⟩
  | checking => exact hc n h
  | sleeping w =>
    obtain ⟨m, hm, h1⟩ := wakes F h
    obtain ⟨m', hm', h2⟩ := hc m h1
    exact ⟨m', by omega, h2⟩

/-- how the debouncer leaves its `select`. -/
theorem top_stays {j : Nat} (h : (x.st j).deb = .top) (ht : x.lab j ≠ some .take) (hs : x.lab j ≠ some .sleep) : (x.st (j + 1)).deb = .top := by
  rcases x.cases_lab j with ⟨_, e⟩ | ⟨l, hl, e⟩
  · rw [e]; exact h
  · by_cases hm : l ∈ [Lab.take, .sleep, .wake, .check, .fire]
    · simp only [List.mem_cons, List.not_mem_nil, or_false] at hm
      rcases hm with rfl | rfl | rfl | rfl | rfl
      · exact absurd hl ht
      · exact absurd hl hs
      · simp [step, h] at e
      · simp [step, h] at e
      · simp [step, h] at e
    · rw [(frame e).2.1 hm]; exact h

/-- a debouncer at its `select` goes on. -/
theorem top_leaves (F : HdRuns x) {n : Nat} (h : (x.st n).deb = .top) :
    ∃ m, n ≤ m ∧ (x.st m).deb = .top ∧ (x.lab m = some .take ∨ x.lab m = some .sleep) := by
  by_contra hno
  have hno : ∀ m, n ≤ m → (x.st m).deb = .top → ¬ (x.lab m = some .take ∨ x.lab m = some .sleep) := fun m hm h1 h2 => hno ⟨m, hm, h1, h2⟩
  have hP : ∀ k, (x.st (n + k)).deb = .top := by
    intro k
    induction k with
    | zero => exact h
    | succ k ih =>
      have := hno (n + k) (by omega) ih
      exact top_stays ih (fun g => this (.inl g)) (fun g => this (.inr g))
  obtain ⟨m, hm, l, hl, hlab⟩ := F.top n (fun j hj => by
    have := hP (j - n); rw [show n + (j - n) = j by omega] at this
    by_cases hr : (x.st j).requests = 0
    · exact ⟨_, .inr rfl, by simp [step, this, hr]⟩
    · exact ⟨_, .inl rfl, by simp [step, this]; omega⟩)
  have := hP (m - n); rw [show n + (m - n) = m by omega] at this
  refine hno m hm this ?_
  rcases hl with rfl | rfl
  · exact .inl hlab
  · exact .inr hlab

theorem requests_le (n : Nat) : (x.st n).requests ≤ 64 := by
  refine x.invariant (P := fun s => s.requests ≤ 64) (by simp [init]) ?_ n
  intro s l s' h hs
  by_cases hl : l ∈ [Lab.request, .take]
  · simp only [List.mem_cons, List.not_mem_nil, or_false] at hl
    rcases hl with rfl | rfl
    · simp only [step] at hs
      split at hs
      · next g =>
        have g2 : s.requests < 64 := g.2
        simp only [Option.some.injEq] at hs; subst hs; show s.requests + 1 ≤ 64; omega
      · cases hs
    · simp only [step] at hs
      split at hs
      · simp only [Option.some.injEq] at hs; subst hs; show s.requests - 1 ≤ 64; omega
      · cases hs
  · rw [(frame hs).2.2.2.2.1 hl]; exact h

/-- how the aggregation goroutine leaves the send of a request. -/
theorem requesting_stays {j : Nat} (h : (x.st j).main = .requesting) : (x.st (j + 1)).main = .requesting ∨ x.lab j = some .request := by
  rcases x.cases_lab j with ⟨_, e⟩ | ⟨l, hl, e⟩
  · left; rw [e]; exact h
  · by_cases hm : l ∈ [Lab.consume, .request, .reply, .acceptStop, .stopped]
    · simp only [List.mem_cons, List.not_mem_nil, or_false] at hm
      rcases hm with rfl | rfl | rfl | rfl | rfl
      · simp [step, h] at e
      · exact .inr hl
      · simp [step, h] at e
      · simp [step, h] at e
      · simp [step, h] at e
    · by_cases ha : ∃ k, l = .accept k
      · obtain ⟨k, rfl⟩ := ha; simp [step, h] at e
      · left; rw [(frame e).2.2.2.1 hm (fun k hk => ha ⟨k, hk⟩)]; exact h

theorem request_effect {j : Nat} (h : x.lab j = some .request) :
    (x.st j).main = .requesting ∧ (x.st j).requests < 64 ∧ (x.st (j + 1)).main = .idle ∧ (x.st (j + 1)).requests = (x.st j).requests + 1 := by
  have e := x.next j _ h
  simp only [step] at e
  split at e
  · next g => simp only [Option.some.injEq] at e; rw [← e]; exact ⟨g.1, g.2, rfl, rfl⟩
  · cases e

theorem take_effect {j : Nat} (h : x.lab j = some .take) :
    (x.st j).deb = .top ∧ (x.st j).requests = (x.st (j + 1)).requests + 1 ∧ (x.st (j + 1)).deb = .checking ∧
    (x.st (j + 1)).oldest = debouncerTake (x.st j).oldest ⟨(x.st j).clock, 1⟩ := by
  have e := x.next j _ h
  simp only [step] at e
  split at e
  · next g => simp only [Option.some.injEq] at e; rw [← e]; refine ⟨g.1, ?_, rfl, rfl⟩; show _ = (x.st j).requests - 1 + 1; omega
  · cases e

theorem sleep_effect {j : Nat} (h : x.lab j = some .sleep) :
    (x.st j).deb = .top ∧ (x.st j).requests = 0 ∧ ∃ w, (x.st (j + 1)).deb = .sleeping w := by
  have e := x.next j _ h
  simp only [step] at e
  split at e
  · next g => simp only [Option.some.injEq] at e; rw [← e]; exact ⟨g.1, g.2, _, rfl⟩
  · cases e

/-- the send of a request succeeds. -/
theorem requests_sent (F : HdRuns x) (ns : ∀ n, ¬ Stuck (x.st n)) {n : Nat} (h : (x.st n).main = .requesting) : ∃ m, n ≤ m ∧ x.lab m = some .request := by
  by_contra hno
  have hno : ∀ m, n ≤ m → x.lab m ≠ some .request := fun m hm g => hno ⟨m, hm, g⟩
  have hP : ∀ m, n ≤ m → (x.st m).main = .requesting := by
    intro m hm
    induction m, hm using Nat.le_induction with
    | base => exact h
    | succ m hm ih =>
      rcases requesting_stays ih with g | g
      · exact g
      · exact absurd g (hno m hm)
  have hanti : ∀ a b, n ≤ a → a ≤ b → (x.st b).requests ≤ (x.st a).requests := by
    intro a b ha hab
    induction b, hab using Nat.le_induction with
    | base => exact Nat.le_refl _
    | succ b hb ih =>
      refine Nat.le_trans ?_ ih
      rcases x.cases_lab b with ⟨_, e⟩ | ⟨l, hl, e⟩
      · rw [e]
      · by_cases ht : l = .take
        · subst ht; have := (take_effect hl).2.1; omega
        · rw [(frame e).2.2.2.2.1 (by
            simp only [List.mem_cons, List.not_mem_nil, or_false, not_or]
            exact ⟨fun g => hno b (by omega) (g ▸ hl), ht⟩)]
  -- the channel is full at all times
  have hfull : ∀ m, n ≤ m → (x.st m).requests = 64 := by
    intro m hm
    by_contra hne
    have hlt : (x.st m).requests < 64 := by have := requests_le (x := x) m; omega
    obtain ⟨j, hj, l, rfl, hl⟩ := F.request m (fun j hj => ⟨_, rfl, by
      have := hanti m j hm hj
      have h3 := hP j (by omega)
      simp [step, h3, bufferSize]; omega⟩)
    exact hno j (by omega) hl
  obtain ⟨m, hm, hd⟩ := deb_top F n
  rcases hd with hd | hd
  · obtain ⟨j, hj, _, hl⟩ := top_leaves F hd
    rcases hl with hl | hl
    · have h1 := (take_effect hl).2.1
      have h2 := hfull j (by omega)
      have h3 := hfull (j + 1) (by omega)
      omega
    · have h1 := (sleep_effect hl).2.1
      have h2 := hfull j (by omega)
      omega
  · exact ns m ⟨hP m hm, hfull m hm, hd⟩

/-- the answer to an API request is received. -/
theorem replies (F : HdRuns x) {n i : Nat} (h : (x.st n).main = .replying i) : ∃ m, n ≤ m ∧ (x.st m).main = .replying i ∧ x.lab m = some .reply := by
  by_contra hno
  have hno : ∀ m, n ≤ m → (x.st m).main = .replying i → x.lab m ≠ some .reply := fun m hm h1 h2 => hno ⟨m, hm, h1, h2⟩
  have hP : ∀ m, n ≤ m → (x.st m).main = .replying i := by
    intro m hm
    induction m, hm using Nat.le_induction with
    | base => exact h
    | succ m hmn ih =>
      rcases x.cases_lab m with ⟨_, e⟩ | ⟨l, hl, e⟩
      · rw [e]; exact ih
      · by_cases hm : l ∈ [Lab.consume, .request, .reply, .acceptStop, .stopped]
        · simp only [List.mem_cons, List.not_mem_nil, or_false] at hm
          rcases hm with rfl | rfl | rfl | rfl | rfl
          · simp [step, ih] at e
          · simp [step, ih] at e
          · exact absurd hl (hno m hmn ih)
          · simp [step, ih] at e
          · simp [step, ih] at e
        · by_cases ha : ∃ k, l = .accept k
          · obtain ⟨k, rfl⟩ := ha; simp [step, ih] at e
          · rw [(frame e).2.2.2.1 hm (fun k hk => ha ⟨k, hk⟩)]; exact ih
  obtain ⟨m, hm, l, rfl, hl⟩ := F.reply n (fun j hj => ⟨_, rfl, by simp [step, hP j hj]⟩)
  exact hno m hm (hP m hm) hl

theorem reply_effect {j i : Nat} (h : (x.st j).main = .replying i) (hl : x.lab j = some .reply) :
    (x.st (j + 1)).main = .idle ∧ (x.st (j + 1)).req i = .answered := by
  have e := x.next j _ hl
  simp only [step, h, Option.some.injEq] at e
  rw [← e]; exact ⟨rfl, by simp [set]⟩

/-- the aggregation goroutine comes back to its `select` (or ends). -/
theorem idle_often (F : HdRuns x) (ns : ∀ n, ¬ Stuck (x.st n)) (n : Nat) :
    ∃ m, n ≤ m ∧ ((x.st m).main = .idle ∨ (x.st m).main = .stopping ∨ (x.st m).main = .stopped) := by
  cases h : (x.st n).main with
  | idle => exact ⟨n, Nat.le_refl _, .inl h⟩
  | requesting =>
    obtain ⟨m, hm, hl⟩ := requests_sent F ns h
    exact ⟨m + 1, by omega, .inl (request_effect hl).2.2.1⟩
  | replying i =>
    obtain ⟨m, hm, h1, hl⟩ := replies F h
    exact ⟨m + 1, by omega, .inl (reply_effect h1 hl).1⟩
  | stopping => exact ⟨n, Nat.le_refl _, .inr (.inl h)⟩
  | stopped => exact ⟨n, Nat.le_refl _, .inr (.inr h)⟩

/-- without a call of `Stop` the aggregation goroutine does not end. -/
theorem goes_on (hns : ∀ n, x.lab n ≠ some .stop) (n : Nat) : (x.st n).stop = .notCalled ∧ (x.st n).main ≠ .stopping ∧ (x.st n).main ≠ .stopped := by
  induction n with
  | zero => rw [x.start]; simp [init]
  | succ n ih =>
    obtain ⟨i1, i2, i3⟩ := ih
    rcases x.cases_lab n with ⟨_, e⟩ | ⟨l, hl, e⟩
    · rw [e]; exact ⟨i1, i2, i3⟩
    · have hs : (x.st (n + 1)).stop = .notCalled := by
        by_cases hm : l ∈ [Lab.stop, .acceptStop, .stopped]
        · simp only [List.mem_cons, List.not_mem_nil, or_false] at hm
          rcases hm with rfl | rfl | rfl
          · exact absurd hl (hns n)
          · simp [step, i1] at e
          · simp [step, i1] at e
        · rw [(frame e).2.2.2.2.2.2.2.1 hm]; exact i1
      refine ⟨hs, ?_⟩
      generalize x.st (n + 1) = s' at e hs ⊢
      cases l <;> simp only [step] at e <;> (try split at e) <;> (try split at e) <;> first
        | cases e
          done
        | (simp only [Option.some.injEq] at e; subst e; simp_all)

theorem idle_often' (F : HdRuns x) (ns : ∀ n, ¬ Stuck (x.st n)) (hns : ∀ n, x.lab n ≠ some .stop) (n : Nat) : ∃ m, n ≤ m ∧ (x.st m).main = .idle := by
  obtain ⟨m, hm, h | h | h⟩ := idle_often F ns n
  · exact ⟨m, hm, h⟩
  · exact absurd h (goes_on hns m).2.1
  · exact absurd h (goes_on hns m).2.2

/-! ### Polls -/

/-- the polls started by these steps. -/
def polls : List Lab → Nat
  | [] => 0
  | .tick h :: t => h + polls t
  | _ :: t => polls t

theorem polls_append (a b : List Lab) : polls (a ++ b) = polls a + polls b := by
  induction a with
  | nil => simp [polls]
  | cons l a ih => cases l <;> simp [polls, ih]; omega

theorem poll_balance (n : Nat) : hosts + polls (x.trace n) = (x.st n).polling + (x.st n).responses + (x.trace n).count .consume := by
  induction n with
  | zero => rw [x.start]; simp [Exec.trace, polls, init]
  | succ n ih =>
    rw [Exec.trace, polls_append, List.count_append]
    rcases x.cases_lab n with ⟨e, e'⟩ | ⟨l, hl, e⟩
    · rw [e, e']; simpa [polls] using ih
    · rw [hl, Option.toList_some]
      cases l with
      | tick h =>
        simp only [step] at e
        split at e
        · simp only [Option.some.injEq] at e; rw [← e]; simp [polls]; omega
        · cases e
      | deliver =>
        simp only [step] at e
        split at e
        · simp only [Option.some.injEq] at e; rw [← e]; simp [polls]; omega
        · cases e
      | consume =>
        simp only [step] at e
        split at e
        · simp only [Option.some.injEq] at e; rw [← e]; simp [polls]; omega
        · cases e
      | _ =>
        have f := frame e
        rw [f.2.2.2.2.2.2.2.2.1 (by simp), f.2.2.2.2.2.2.2.2.2 (by simp) (by simp)]
        simpa [polls] using ih

theorem consume_count {n m : Nat} (h : n ≤ m) : (x.trace n).count .consume ≤ (x.trace m).count .consume :=
  (x.trace_prefix h).sublist.count_le _

theorem consume_grows {m j : Nat} (h : m ≤ j) (hl : x.lab j = some .consume) : (x.trace m).count .consume < (x.trace (j + 1)).count .consume := by
  have := consume_count (x := x) h
  rw [Exec.trace, hl, List.count_append]
  simp
  omega

theorem responses_stay {j : Nat} (h : (x.st j).responses > 0) : (x.st (j + 1)).responses > 0 ∨ x.lab j = some .consume := by
  rcases x.cases_lab j with ⟨_, e⟩ | ⟨l, hl, e⟩
  · left; rw [e]; exact h
  · by_cases hm : l ∈ [Lab.deliver, .consume]
    · simp only [List.mem_cons, List.not_mem_nil, or_false] at hm
      rcases hm with rfl | rfl
      · left
        simp only [step] at e
        split at e
        · simp only [Option.some.injEq] at e; rw [← e]; exact Nat.succ_pos _
        · cases e
      · exact .inr hl
    · left; rw [(frame e).2.2.2.2.2.2.2.2.1 hm]; exact h

/-- a response is consumed. -/
theorem consumes (F : HdFair x) (ns : ∀ n, ¬ Stuck (x.st n)) (hns : ∀ n, x.lab n ≠ some .stop) {n : Nat} (h : (x.st n).responses > 0) :
    ∃ m, n ≤ m ∧ x.lab m = some .consume := by
  by_contra hno
  have hno : ∀ m, n ≤ m → x.lab m ≠ some .consume := fun m hm g => hno ⟨m, hm, g⟩
  have hP : ∀ m, n ≤ m → (x.st m).responses > 0 := by
    intro m hm
    induction m, hm using Nat.le_induction with
    | base => exact h
    | succ m hm ih =>
      rcases responses_stay ih with g | g
      · exact g
      · exact absurd g (hno m hm)
  obtain ⟨m, hm, l, rfl, hl⟩ := F.consume (fun k => by
    obtain ⟨j, hj, hi⟩ := idle_often' F.toHdRuns ns hns (max n k)
    exact ⟨j, by omega, _, rfl, by simp [step, hi, hP j (by omega)]⟩) n
  exact hno m hm hl

/-- a response arrives. -/
theorem delivers (F : HdFair x) {n : Nat} (h : (x.st n).polling > 0) : ∃ m, n ≤ m ∧ (x.st m).responses > 0 := by
  by_contra hno
  have hno : ∀ m, n ≤ m → (x.st m).responses = 0 := fun m hm => by
    by_contra g; exact hno ⟨m, hm, by omega⟩
  have hP : ∀ m, n ≤ m → (x.st m).polling > 0 := by
    intro m hm
    induction m, hm using Nat.le_induction with
    | base => exact h
    | succ m hm ih =>
      rcases x.cases_lab m with ⟨_, e⟩ | ⟨l, hl, e⟩
      · rw [e]; exact ih
      · have h0 := hno (m + 1) (by omega)
        cases l with
        | tick h =>
          simp only [step] at e
          split at e
          · simp only [Option.some.injEq] at e; rw [← e]; show _ + _ > 0; omega
          · cases e
        | deliver =>
          simp only [step] at e
          split at e
          · simp only [Option.some.injEq] at e; rw [← e] at h0; simp at h0
          · cases e
        | _ => rw [(frame e).2.2.2.2.2.2.2.2.2 (by simp) (by simp)]; exact ih
  obtain ⟨m, hm, l, rfl, hl⟩ := F.deliver n (fun j hj => ⟨_, rfl, by simp [step, hP j hj, hno j hj, bufferSize]⟩)
  have e := x.next m _ hl
  have h0 := hno (m + 1) (by omega)
  simp only [step] at e
  split at e
  · simp only [Option.some.injEq] at e; rw [← e] at h0; simp at h0
  · cases e

/-! ### Recalculation -/

theorem fire_effect {j : Nat} (h : x.lab j = some .fire) : (x.st j).deb = .sending := by
  have e := x.next j _ h
  simp only [step] at e
  split at e
  · next g => exact g.1
  · cases e

/-- a debouncer that wants to fire does. -/
theorem fires (F : HdFair x) (ns : ∀ n, ¬ Stuck (x.st n)) (hns : ∀ n, x.lab n ≠ some .stop) {n : Nat} (h : (x.st n).deb = .sending) :
    ∃ m, n ≤ m ∧ x.lab m = some .fire := by
  by_contra hno
  have hno : ∀ m, n ≤ m → x.lab m ≠ some .fire := fun m hm g => hno ⟨m, hm, g⟩
  have hP : ∀ m, n ≤ m → (x.st m).deb = .sending := by
    intro m hm
    induction m, hm using Nat.le_induction with
    | base => exact h
    | succ m hmn ih =>
      rcases x.cases_lab m with ⟨_, e⟩ | ⟨l, hl, e⟩
      · rw [e]; exact ih
      · by_cases hm : l ∈ [Lab.take, .sleep, .wake, .check, .fire]
        · simp only [List.mem_cons, List.not_mem_nil, or_false] at hm
          rcases hm with rfl | rfl | rfl | rfl | rfl
          · simp [step, ih] at e
          · simp [step, ih] at e
          · simp [step, ih] at e
          · simp [step, ih] at e
          · exact absurd hl (hno m hmn)
        · rw [(frame e).2.1 hm]; exact ih
  obtain ⟨m, hm, l, rfl, hl⟩ := F.fire (fun k => by
    obtain ⟨j, hj, hi⟩ := idle_often' F.toHdRuns ns hns (max n k)
    exact ⟨j, by omega, _, rfl, by simp [step, hi, hP j (by omega)]⟩) n
  exact hno m hm hl

/-- `oldestNeedItDone` is not set, or the time of a request. -/
theorem oldest_ok (hc : 0 < clock) (n : Nat) : (x.st n).oldest = zeroTime ∨ ∃ o, 0 < o ∧ (x.st n).oldest = ⟨o, 1⟩ := by
  induction n with
  | zero => rw [x.start]; exact .inl rfl
  | succ n ih =>
    rcases x.cases_lab n with ⟨_, e⟩ | ⟨l, hl, e⟩
    · rw [e]; exact ih
    · have hpos : 0 < (x.st n).clock := by
        have := clock_mono (x := x) (Nat.zero_le n)
        rw [x.start] at this
        exact Int.lt_of_lt_of_le hc this
      by_cases hm : l ∈ [Lab.take, .fire]
      · simp only [List.mem_cons, List.not_mem_nil, or_false] at hm
        rcases hm with rfl | rfl
        · rw [(take_effect hl).2.2.2]
          unfold debouncerTake
          split
          · exact .inr ⟨_, hpos, rfl⟩
          · exact ih
        · simp only [step] at e
          split at e
          · simp only [Option.some.injEq] at e; rw [← e]; exact .inl rfl
          · cases e
      · rw [(frame e).2.2.1 hm]; exact ih

theorem take_oldest (hc : 0 < clock) {n : Nat} (h : x.lab n = some .take) : ∃ o, 0 < o ∧ (x.st (n + 1)).oldest = ⟨o, 1⟩ := by
  have hpos : 0 < (x.st n).clock := by
    have := clock_mono (x := x) (Nat.zero_le n)
    rw [x.start] at this
    exact Int.lt_of_lt_of_le hc this
  rw [(take_effect h).2.2.2]
  unfold debouncerTake
  split
  · exact ⟨_, hpos, rfl⟩
  · next hz =>
    rcases oldest_ok hc n with g | g
    · rw [g] at hz; exact absurd rfl hz
    · exact g

/-- a pending request is answered by a recalculation. -/
theorem request_fires (F : HdFair x) (ns : ∀ n, ¬ Stuck (x.st n)) (hns : ∀ n, x.lab n ≠ some .stop) (hc : 0 < clock) {n : Nat}
    (h : (x.st n).requests > 0) : ∃ m, n ≤ m ∧ x.lab m = some .fire := by
  by_contra hno
  have hno : ∀ m, n ≤ m → x.lab m ≠ some .fire := fun m hm g => hno ⟨m, hm, g⟩
  have hsend : ∀ m, n ≤ m → (x.st m).deb ≠ .sending := fun m hm g => by
    obtain ⟨j, hj, hl⟩ := fires F ns hns g
    exact hno j (by omega) hl
  -- the debouncer takes a request
  obtain ⟨t, ht, hlt⟩ : ∃ t, n ≤ t ∧ x.lab t = some .take := by
    by_contra hnt
    have hnt : ∀ m, n ≤ m → x.lab m ≠ some .take := fun m hm g => hnt ⟨m, hm, g⟩
    have hP : ∀ m, n ≤ m → (x.st m).requests > 0 := by
      intro m hm
      induction m, hm using Nat.le_induction with
      | base => exact h
      | succ m hm ih =>
        rcases x.cases_lab m with ⟨_, e⟩ | ⟨l, hl, e⟩
        · rw [e]; exact ih
        · by_cases hr : l = .request
          · subst hr; have := (request_effect hl).2.2.2; omega
          · rw [(frame e).2.2.2.2.1 (by
              simp only [List.mem_cons, List.not_mem_nil, or_false, not_or]
              exact ⟨hr, fun g => hnt m hm (g ▸ hl)⟩)]
            exact ih
    obtain ⟨m, hm, hd⟩ := deb_top F.toHdRuns n
    rcases hd with hd | hd
    · obtain ⟨j, hj, _, hl⟩ := top_leaves F.toHdRuns hd
      rcases hl with hl | hl
      · exact hnt j (by omega) hl
      · have := (sleep_effect hl).2.1; have := hP j (by omega); omega
    · exact hsend m hm hd
  obtain ⟨o, ho, hto⟩ := take_oldest hc hlt
  have hold : ∀ m, t + 1 ≤ m → (x.st m).oldest = ⟨o, 1⟩ := by
    intro m hm
    induction m, hm using Nat.le_induction with
    | base => exact hto
    | succ m hm ih =>
      rcases x.cases_lab m with ⟨_, e⟩ | ⟨l, hl, e⟩
      · rw [e]; exact ih
      · by_cases htk : l = .take
        · subst htk
          rw [(take_effect hl).2.2.2, ih]
          unfold debouncerTake isZero
          rw [if_neg (by simp; omega)]
        · rw [(frame e).2.2.1 (by
            simp only [List.mem_cons, List.not_mem_nil, or_false, not_or]
            exact ⟨htk, fun g => hno m (by omega) (g ▸ hl)⟩)]
          exact ih
  obtain ⟨T, hT⟩ := F.time (o + 2000000001)
  -- the next decision after two seconds is to fire
  have hdecide : ∀ m, t + 1 + T ≤ m → (x.st m).deb = .checking → False := by
    intro m hm hd
    obtain ⟨j, hj, h1, h2⟩ := checks F.toHdRuns hd
    refine hsend (j + 1) (by omega) ?_
    have e := x.next j _ h2
    have hdue : debouncerDue threshold (x.st j).oldest ⟨(x.st j).clock, 1⟩ = true := by
      rw [hold j (by omega), due_iff _ _ (by omega)]
      have := clock_mono (x := x) (show T ≤ j by omega)
      omega
    simp only [step, h1, hdue, if_true, Option.some.injEq] at e
    rw [← e]
  obtain ⟨m, hm, hd⟩ := deb_top F.toHdRuns (t + 1 + T)
  rcases hd with hd | hd
  · obtain ⟨j, hj, _, hl⟩ := top_leaves F.toHdRuns hd
    rcases hl with hl | hl
    · exact hdecide (j + 1) (by omega) (take_effect hl).2.2.1
    · obtain ⟨w, hw⟩ := (sleep_effect hl).2.2
      obtain ⟨k, hk, hch⟩ := wakes F.toHdRuns hw
      exact hdecide k (by omega) hch
  · exact hsend m (by omega) hd

/-! ### API requests -/

theorem queue_le (h : Bool) (n : Nat) : ((x.st n).queue h).length ≤ 16 := by
  refine x.invariant (P := fun s => ∀ h, (s.queue h).length ≤ 16) (by simp [init]) ?_ n h
  intro s l s' hP hs h
  cases l with
  | enqueue i k =>
    simp only [step] at hs
    split at hs
    · next g =>
      have g2 : (s.queue k).length < 16 := g.2
      simp only [Option.some.injEq] at hs; subst hs
      by_cases hk : h = k
      · subst hk; simp [set]; omega
      · simp only [set, hk, if_false]; exact hP h
    · cases hs
  | accept k =>
    simp only [step] at hs
    split at hs
    · next i q _ hq =>
      simp only [Option.some.injEq] at hs; subst hs
      by_cases hk : h = k
      · subst hk
        have := hP h
        rw [hq] at this
        simp [set] at this ⊢; omega
      · simp only [set, hk, if_false]; exact hP h
    · cases hs
  | _ => rw [(frame hs).2.2.2.2.2.1 (by simp) (by simp)]; exact hP h

theorem accept_effect {j : Nat} {h : Bool} (hl : x.lab j = some (.accept h)) :
    (x.st j).main = .idle ∧ ∃ i q, (x.st j).queue h = i :: q ∧ (x.st (j + 1)).queue h = q ∧ (x.st (j + 1)).main = .replying i := by
  have e := x.next j _ hl
  simp only [step] at e
  split at e
  · next i q hi hq =>
    simp only [Option.some.injEq] at e
    exact ⟨hi, i, q, hq, by rw [← e]; simp [set], by rw [← e]⟩
  · cases e

/-- a request in the queue is answered. -/
theorem queued_answered (F : HdFair x) (ns : ∀ n, ¬ Stuck (x.st n)) (hns : ∀ n, x.lab n ≠ some .stop) {h : Bool} {i : Nat} (a : List Nat) :
    ∀ n, (∃ b, (x.st n).queue h = a ++ i :: b) → ∃ m, n ≤ m ∧ (x.st m).req i = .answered := by
  induction a with
  | nil =>
    intro n hq
    by_contra hno
    have hnr : ∀ m, n ≤ m → (x.st m).main ≠ .replying i := fun m hm g => by
      obtain ⟨j, hj, h1, h2⟩ := replies F.toHdRuns g
      exact hno ⟨j + 1, by omega, (reply_effect h1 h2).2⟩
    have hP : ∀ m, n ≤ m → ∃ b, (x.st m).queue h = i :: b := by
      intro m hm
      induction m, hm using Nat.le_induction with
      | base => exact hq
      | succ m hm ih =>
        obtain ⟨b, hb⟩ := ih
        rcases x.cases_lab m with ⟨_, e⟩ | ⟨l, hl, e⟩
        · rw [e]; exact ⟨b, hb⟩
        · cases l with
          | enqueue k h' =>
            simp only [step] at e
            split at e
            · simp only [Option.some.injEq] at e; rw [← e]
              by_cases hh : h = h'
              · subst hh; exact ⟨b ++ [k], by simp [set, hb]⟩
              · exact ⟨b, by simp [set, hh, hb]⟩
            · cases e
          | accept h' =>
            by_cases hh : h = h'
            · subst hh
              obtain ⟨_, i', q, h1, _, h3⟩ := accept_effect hl
              rw [hb] at h1
              cases h1
              exact absurd h3 (hnr (m + 1) (by omega))
            · simp only [step] at e
              split at e
              · simp only [Option.some.injEq] at e; rw [← e]; exact ⟨b, by simp [set, hh, hb]⟩
              · cases e
          | _ => rw [(frame e).2.2.2.2.2.1 (by simp) (by simp)]; exact ⟨b, hb⟩
    obtain ⟨m, hm, l, rfl, hl⟩ := F.accept h (fun k => by
      obtain ⟨j, hj, hi⟩ := idle_often' F.toHdRuns ns hns (max n k)
      obtain ⟨b, hb⟩ := hP j (by omega)
      exact ⟨j, by omega, _, rfl, by simp [step, hi, hb]⟩) n
    obtain ⟨_, i', q, h1, _, h3⟩ := accept_effect hl
    obtain ⟨b, hb⟩ := hP m hm
    rw [hb] at h1
    cases h1
    exact hnr (m + 1) (by omega) h3
  | cons c a ih =>
    intro n hq
    by_contra hno
    have hshort : ∀ m, n ≤ m → ¬ ∃ b, (x.st m).queue h = a ++ i :: b := fun m hm g => by
      obtain ⟨j, hj, h1⟩ := ih m g
      exact hno ⟨j, by omega, h1⟩
    have hP : ∀ m, n ≤ m → ∃ b, (x.st m).queue h = c :: a ++ i :: b := by
      intro m hm
      induction m, hm using Nat.le_induction with
      | base => exact hq
      | succ m hm ih =>
        obtain ⟨b, hb⟩ := ih
        rcases x.cases_lab m with ⟨_, e⟩ | ⟨l, hl, e⟩
        · rw [e]; exact ⟨b, hb⟩
        · cases l with
          | enqueue k h' =>
            simp only [step] at e
            split at e
            · simp only [Option.some.injEq] at e; rw [← e]
              by_cases hh : h = h'
              · subst hh; exact ⟨b ++ [k], by simp [set, hb]⟩
              · exact ⟨b, by simp [set, hh, hb]⟩
            · cases e
          | accept h' =>
            by_cases hh : h = h'
            · subst hh
              obtain ⟨_, i', q, h1, h2, _⟩ := accept_effect hl
              rw [hb] at h1
              cases h1
              exact absurd ⟨b, h2⟩ (hshort (m + 1) (by omega))
            · simp only [step] at e
              split at e
              · simp only [Option.some.injEq] at e; rw [← e]; exact ⟨b, by simp [set, hh, hb]⟩
              · cases e
          | _ => rw [(frame e).2.2.2.2.2.1 (by simp) (by simp)]; exact ⟨b, hb⟩
    obtain ⟨m, hm, l, rfl, hl⟩ := F.accept h (fun k => by
      obtain ⟨j, hj, hi⟩ := idle_often' F.toHdRuns ns hns (max n k)
      obtain ⟨b, hb⟩ := hP j (by omega)
      exact ⟨j, by omega, _, rfl, by simp [step, hi, hb]⟩) n
    obtain ⟨_, i', q, h1, h2, _⟩ := accept_effect hl
    obtain ⟨b, hb⟩ := hP m hm
    rw [hb] at h1
    cases h1
    exact hshort (m + 1) (by omega) ⟨b, h2⟩

theorem waiting_answered (F : HdFair x) (ns : ∀ n, ¬ Stuck (x.st n)) (hns : ∀ n, x.lab n ≠ some .stop) {n i : Nat} (h : (x.st n).req i = .waiting) :
    ∃ m, n ≤ m ∧ (x.st m).req i = .answered := by
  rcases (ok_run (run_trace (x := x) n)).waits i h with ⟨k, hk⟩ | hr
  · obtain ⟨a, b, hab⟩ := List.append_of_mem hk
    exact queued_answered F ns hns a n ⟨b, hab⟩
  · obtain ⟨j, hj, h1, h2⟩ := replies F.toHdRuns hr
    exact ⟨j + 1, by omega, (reply_effect h1 h2).2⟩

/-- there is room for a request again and again. -/
theorem room (F : HdFair x) (ns : ∀ n, ¬ Stuck (x.st n)) (hns : ∀ n, x.lab n ≠ some .stop) (h : Bool) (n : Nat) :
    ∃ m, n ≤ m ∧ ((x.st m).queue h).length < 16 := by
  by_contra hno
  have hno : ∀ m, n ≤ m → ((x.st m).queue h).length = 16 := fun m hm => by
    have := queue_le (x := x) h m
    by_contra g
    exact hno ⟨m, hm, by omega⟩
  obtain ⟨m, hm, l, rfl, hl⟩ := F.accept h (fun k => by
    obtain ⟨j, hj, hi⟩ := idle_often' F.toHdRuns ns hns (max n k)
    refine ⟨j, by omega, _, rfl, ?_⟩
    cases hq : (x.st j).queue h with
    | nil => have := hno j (by omega); rw [hq] at this; simp at this
    | cons => simp [step, hi, hq]) n
  obtain ⟨_, i', q, h1, h2, _⟩ := accept_effect hl
  have e1 := hno m hm
  have e2 := hno (m + 1) (by omega)
  rw [h1] at e1
  rw [h2] at e2
  simp at e1
  omega

end

end HdLoop

open HdLoop in
/-- C86 (healthd): every API request is answered (unless the aggregation goroutine and the debouncer come to wait for each other, C50, or `Stop` is called, C51). -/
theorem C86_healthd_answers {clock : Int} {hosts : Nat} (x : Exec HdLoop.step (HdLoop.init clock hosts)) (F : HdFair x) (ns : ∀ n, ¬ Stuck (x.st n))
    (hns : ∀ n, x.lab n ≠ some .stop) (n i : Nat) (h : Bool) (hcall : x.lab n = some (.call i)) (fe : x.StrongFair (fun l => l = .enqueue i h)) :
    ∃ m, n < m ∧ (x.st m).req i = .answered := by
  have hchk : (x.st (n + 1)).req i = .checked := by
    have e := x.next n _ hcall
    simp only [HdLoop.step] at e
    split at e
    · simp only [Option.some.injEq] at e; rw [← e]; simp [HdLoop.set, (goes_on hns n).1]
    · cases e
  by_contra hno
  have hnw : ∀ m, n < m → (x.st m).req i ≠ .waiting := fun m hm g => by
    obtain ⟨j, hj, h1⟩ := waiting_answered F ns hns g
    exact hno ⟨j, by omega, h1⟩
  have hnr : ∀ m, n < m → (x.st m).main ≠ .replying i := fun m hm g => by
    obtain ⟨j, hj, h1, h2⟩ := replies F.toHdRuns g
    exact hno ⟨j + 1, by omega, (reply_effect h1 h2).2⟩
  have hP : ∀ m, n + 1 ≤ m → (x.st m).req i = .checked := by
    intro m hm
    induction m, hm using Nat.le_induction with
    | base => exact hchk
    | succ m hm ih =>
      rcases x.cases_lab m with ⟨_, e⟩ | ⟨l, hl, e⟩
      · rw [e]; exact ih
      · cases l with
        | enqueue k h' =>
          by_cases hk : k = i
          · subst hk
            refine absurd ?_ (hnw (m + 1) (by omega))
            simp only [HdLoop.step] at e
            split at e
            · simp only [Option.some.injEq] at e; rw [← e]; simp [HdLoop.set]
            · cases e
          · simp only [HdLoop.step] at e
            split at e
            · simp only [Option.some.injEq] at e; rw [← e]; simp only [HdLoop.set]; rw [if_neg (Ne.symm hk)]; exact ih
            · cases e
        | call k =>
          simp only [HdLoop.step] at e
          split at e
          · next g =>
            simp only [Option.some.injEq] at e; rw [← e]; simp only [HdLoop.set]
            by_cases hk : i = k
            · subst hk; rw [ih] at g; cases g
            · rw [if_neg hk]; exact ih
          · cases e
        | reply =>
          simp only [HdLoop.step] at e
          split at e
          · next k g =>
            simp only [Option.some.injEq] at e; rw [← e]; simp only [HdLoop.set]
            by_cases hk : i = k
            · subst hk; exact absurd g (hnr m (by omega))
            · rw [if_neg hk]; exact ih
          · cases e
        | _ => rw [(frame e).2.2.2.2.2.2.1 (by simp) (by simp) (by simp)]; exact ih
  obtain ⟨m, hm, l, rfl, hl⟩ := fe (fun k => by
    obtain ⟨j, hj, hr⟩ := room F ns hns h (max (n + 1) k)
    exact ⟨j, by omega, _, rfl, by simp [HdLoop.step, hP j (by omega), queueSize, hr]⟩) (n + 1)
  refine absurd ?_ (hnw (m + 1) (by omega))
  have e := x.next m _ hl
  simp only [HdLoop.step] at e
  split at e
  · simp only [Option.some.injEq] at e; rw [← e]; simp [HdLoop.set]
  · cases e

open HdLoop in
/-- C86 (healthd): every poll that was started is consumed. -/
theorem C86_healthd_consumed {clock : Int} {hosts : Nat} (x : Exec HdLoop.step (HdLoop.init clock hosts)) (F : HdFair x) (ns : ∀ n, ¬ Stuck (x.st n))
    (hns : ∀ n, x.lab n ≠ some .stop) (n : Nat) : ∃ m, n ≤ m ∧ ∀ j, m ≤ j → hosts + polls (x.trace n) ≤ (x.trace j).count .consume := by
  refine Exec.reaches (f := fun j => (x.trace j).count .consume) (fun j => consume_count (by omega)) ?_
  intro m hm hlt
  have hb := poll_balance (x := x) m
  have hmono : polls (x.trace n) ≤ polls (x.trace m) := by
    obtain ⟨r, hr⟩ := x.trace_prefix hm
    rw [← hr, polls_append]; omega
  have key : ∃ j, m ≤ j ∧ x.lab j = some .consume := by
    by_cases hr : (x.st m).responses > 0
    · exact consumes F ns hns hr
    · have hlt : (x.trace m).count .consume < _ := hlt
      obtain ⟨k, hk, h1⟩ := delivers F (n := m) (by omega)
      obtain ⟨j, hj, h2⟩ := consumes F ns hns h1
      exact ⟨j, by omega, h2⟩
  obtain ⟨j, hj, hl⟩ := key
  exact ⟨j + 1, by omega, consume_grows hj hl⟩

open HdLoop in
/-- C86 (healthd): every response that was consumed is followed by a recalculation. -/
theorem C86_healthd_recalculates {clock : Int} {hosts : Nat} (x : Exec HdLoop.step (HdLoop.init clock hosts)) (F : HdFair x) (ns : ∀ n, ¬ Stuck (x.st n))
    (hns : ∀ n, x.lab n ≠ some .stop) (hc : 0 < clock) (n : Nat) (h : x.lab n = some .consume) : ∃ m, n < m ∧ x.lab m = some .fire := by
  have h1 : (x.st (n + 1)).main = .requesting := by
    have e := x.next n _ h
    simp only [HdLoop.step] at e
    split at e
    · simp only [Option.some.injEq] at e; rw [← e]
    · cases e
  obtain ⟨m, hm, hl⟩ := requests_sent F.toHdRuns ns h1
  have h2 := (request_effect hl).2.2.2
  obtain ⟨j, hj, hf⟩ := request_fires F ns hns hc (n := m + 1) (by omega)
  exact ⟨j, by omega, hf⟩

open HdLoop in
/-- C86 (healthd): `Stop` returns. -/
theorem C86_healthd_stop {clock : Int} {hosts : Nat} (x : Exec HdLoop.step (HdLoop.init clock hosts)) (F : HdFair x) (ns : ∀ n, ¬ Stuck (x.st n))
    (n : Nat) (h : x.lab n = some .stop) : ∃ m, n < m ∧ (x.st m).stop = .returned := by
  have h1 : (x.st (n + 1)).stop = .flagged := by
    have e := x.next n _ h
    simp only [HdLoop.step] at e
    split at e
    · simp only [Option.some.injEq] at e; rw [← e]
    · cases e
  -- the aggregation goroutine ends only with `Stop`
  have hinv : ∀ m, ((x.st m).main = .stopping → (x.st m).stop = .waiting) ∧ ((x.st m).stop = .waiting → (x.st m).main = .stopping) ∧
      ((x.st m).main = .stopped → (x.st m).stop = .returned) := by
    refine x.invariant (P := fun s => (s.main = .stopping → s.stop = .waiting) ∧ (s.stop = .waiting → s.main = .stopping) ∧ (s.main = .stopped → s.stop = .returned))
      (by simp [HdLoop.init]) ?_
    intro s l s' hP e
    cases l <;> simp only [HdLoop.step] at e <;> (try split at e) <;> (try split at e) <;> first
      | cases e
        done
      | (simp only [Option.some.injEq] at e; subst e; simp_all)
  by_contra hno
  have hno : ∀ m, n < m → (x.st m).stop ≠ .returned := fun m hm g => hno ⟨m, hm, g⟩
  have hnw : ∀ m, n < m → (x.st m).stop ≠ .waiting := by
    intro m hm g
    have hP : ∀ j, m ≤ j → (x.st j).stop = .waiting := by
      intro j hj
      induction j, hj using Nat.le_induction with
      | base => exact g
      | succ j hj ih =>
        rcases x.cases_lab j with ⟨_, e⟩ | ⟨l, hl, e⟩
        · rw [e]; exact ih
        · by_cases hs : l ∈ [Lab.stop, .acceptStop, .stopped]
          · simp only [List.mem_cons, List.not_mem_nil, or_false] at hs
            rcases hs with rfl | rfl | rfl
            · simp [HdLoop.step, ih] at e
            · simp [HdLoop.step, ih] at e
            · refine absurd ?_ (hno (j + 1) (by omega))
              simp only [HdLoop.step] at e
              split at e
              · simp only [Option.some.injEq] at e; rw [← e]
              · cases e
          · rw [(frame e).2.2.2.2.2.2.2.1 hs]; exact ih
    obtain ⟨j, hj, l, rfl, hl⟩ := F.stopped m (fun j hj => ⟨_, rfl, by simp [HdLoop.step, hP j hj, (hinv j).2.1 (hP j hj)]⟩)
    have e := x.next j _ hl
    refine absurd ?_ (hno (j + 1) (by omega))
    simp only [HdLoop.step] at e
    split at e
    · simp only [Option.some.injEq] at e; rw [← e]
    · cases e
  have hP : ∀ m, n + 1 ≤ m → (x.st m).stop = .flagged := by
    intro m hm
    induction m, hm using Nat.le_induction with
    | base => exact h1
    | succ m hm ih =>
      rcases x.cases_lab m with ⟨_, e⟩ | ⟨l, hl, e⟩
      · rw [e]; exact ih
      · by_cases hs : l ∈ [Lab.stop, .acceptStop, .stopped]
        · simp only [List.mem_cons, List.not_mem_nil, or_false] at hs
          rcases hs with rfl | rfl | rfl
          · simp [HdLoop.step, ih] at e
          · refine absurd ?_ (hnw (m + 1) (by omega))
            simp only [HdLoop.step] at e
            split at e
            · simp only [Option.some.injEq] at e; rw [← e]
            · cases e
          · simp [HdLoop.step, ih] at e
        · rw [(frame e).2.2.2.2.2.2.2.1 hs]; exact ih
  obtain ⟨m, hm, l, rfl, hl⟩ := F.acceptStop (fun k => by
    obtain ⟨j, hj, hi⟩ := idle_often F.toHdRuns ns (max (n + 1) k)
    have hf := hP j (by omega)
    rcases hi with hi | hi | hi
    · exact ⟨j, by omega, _, rfl, by simp [HdLoop.step, hi, hf]⟩
    · have := (hinv j).1 hi; rw [hf] at this; cases this
    · have := (hinv j).2.2 hi; rw [hf] at this; cases this) (n + 1)
  refine absurd ?_ (hnw (m + 1) (by omega))
  have e := x.next m _ hl
  simp only [HdLoop.step] at e
  split at e
  · simp only [Option.some.injEq] at e; rw [← e]
  · cases e

/-! ## A concrete case -/

namespace HdLoop.Sample

/-- one host is polled, its response consumed, an API request answered, the recalculation made; from then on the debouncer finds nothing to do. -/
def script : List Lab := [.deliver, .consume, .request, .take, .call 0, .enqueue 0 true, .accept true, .reply, .advance 3000000000, .check, .fire]

/-- the same with a call of `Stop` and a later API request. -/
def stopScript : List Lab := [.deliver, .consume, .request, .take, .advance 3000000000, .check, .fire, .stop, .acceptStop, .call 0, .stopped]

def labs (sc : List Lab) (n : Nat) : Lab :=
  match sc[n]? with
  | some l => l
  | none => match (n - 11) % 4 with
    | 0 => .sleep
    | 1 => .advance 300000000
    | 2 => .wake
    | _ => .check

def live (sc : List Lab) : Exec HdLoop.step (HdLoop.init 5 1) := Exec.follow _ _ (labs sc)

/-- nothing to do. -/
def Rest (s : Sys) : Prop := (s.main = .idle ∨ s.main = .stopped) ∧ s.requests = 0 ∧ s.responses = 0 ∧ s.polling = 0 ∧ s.stop ≠ .flagged ∧ (∀ h, s.queue h = []) ∧
  s.oldest = zeroTime ∧ s.req 0 ≠ .checked

theorem labs_cycle {sc : List Lab} (hsc : sc.length = 11) (k i : Nat) (h : i < 4) : labs sc (11 + 4 * k + i) = [Lab.sleep, .advance 300000000, .wake, .check][i] := by
  have h1 : sc[11 + 4 * k + i]? = none := by rw [List.getElem?_eq_none_iff]; omega
  have h2 : (11 + 4 * k + i - 11) % 4 = i := by omega
  unfold labs
  rw [h1]
  simp only [h2]
  match i, h with
  | 0, _ => rfl
  | 1, _ => rfl
  | 2, _ => rfl
  | 3, _ => rfl

/-- at rest after the script. -/
structure Good (sc : List Lab) : Prop where
  length : sc.length = 11
  rest : Rest ((live sc).st 11)
  top : ((live sc).st 11).deb = .top

/-- one round of the debouncer. -/
theorem cycle {sc : List Lab} (n : Nat) (hl : ∀ i (h : i < 4), labs sc (n + i) = [Lab.sleep, .advance 300000000, .wake, .check][i]) (hr : Rest ((live sc).st n)) (hd : ((live sc).st n).deb = .top) :
    (live sc).lab n = some .sleep ∧ (live sc).lab (n + 1) = some (.advance 300000000) ∧ (live sc).lab (n + 2) = some .wake ∧ (live sc).lab (n + 3) = some .check ∧
    (∃ w, ((live sc).st (n + 1)).deb = .sleeping w) ∧ (∃ w, ((live sc).st (n + 2)).deb = .sleeping w) ∧ ((live sc).st (n + 3)).deb = .checking ∧ ((live sc).st (n + 4)).deb = .top ∧
    Rest ((live sc).st (n + 1)) ∧ Rest ((live sc).st (n + 2)) ∧ Rest ((live sc).st (n + 3)) ∧ Rest ((live sc).st (n + 4)) ∧ ((live sc).st (n + 4)).clock = ((live sc).st n).clock + 300000000 := by
  obtain ⟨h1, h2, h3, h4, h5, h6, h7, h8⟩ := hr
  have l0 : labs sc n = .sleep := hl 0 (by omega)
  have l1 : labs sc (n + 1) = .advance 300000000 := hl 1 (by omega)
  have l2 : labs sc (n + 2) = .wake := hl 2 (by omega)
  have l3 : labs sc (n + 3) = .check := hl 3 (by omega)
  have e0 : HdLoop.step ((live sc).st n) (labs sc n) = some { (live sc).st n with deb := .sleeping (((live sc).st n).clock + sleepTime) } := by
    rw [l0]; simp [HdLoop.step, hd, h2]
  obtain ⟨s1, g0⟩ := Exec.follow_step _ _ (labs sc) n e0
  have e1 : HdLoop.step ((live sc).st (n + 1)) (labs sc (n + 1)) =
      some { (live sc).st n with deb := .sleeping (((live sc).st n).clock + sleepTime), clock := ((live sc).st n).clock + 300000000 } := by
    rw [show (live sc).st (n + 1) = _ from s1, l1]; rfl
  obtain ⟨s2, g1⟩ := Exec.follow_step _ _ (labs sc) (n + 1) e1
  have e2 : HdLoop.step ((live sc).st (n + 2)) (labs sc (n + 2)) = some { (live sc).st n with deb := .checking, clock := ((live sc).st n).clock + 300000000 } := by
    rw [show (live sc).st (n + 2) = _ from s2, l2]; simp [HdLoop.step, sleepTime]
  obtain ⟨s3, g2⟩ := Exec.follow_step _ _ (labs sc) (n + 2) e2
  have e3 : HdLoop.step ((live sc).st (n + 3)) (labs sc (n + 3)) = some { (live sc).st n with deb := .top, clock := ((live sc).st n).clock + 300000000 } := by
    rw [show (live sc).st (n + 3) = _ from s3, l3]; simp [HdLoop.step, h7, debouncerDue, isZero, zeroTime]
  obtain ⟨s4, g3⟩ := Exec.follow_step _ _ (labs sc) (n + 3) e3
  rw [l0] at g0; rw [l1] at g1; rw [l2] at g2; rw [l3] at g3
  have s1 : (live sc).st (n + 1) = _ := s1
  have s2 : (live sc).st (n + 2) = _ := s2
  have s3 : (live sc).st (n + 3) = _ := s3
  have s4 : (live sc).st (n + 4) = _ := s4
  refine ⟨g0, g1, g2, g3, ⟨_, by rw [s1]⟩, ⟨_, by rw [s2]⟩, by rw [s3], by rw [s4], ?_, ?_, ?_, ?_, by rw [s4]⟩
  · rw [s1]; exact ⟨h1, h2, h3, h4, h5, h6, h7, h8⟩
  · rw [s2]; exact ⟨h1, h2, h3, h4, h5, h6, h7, h8⟩
  · rw [s3]; exact ⟨h1, h2, h3, h4, h5, h6, h7, h8⟩
  · rw [s4]; exact ⟨h1, h2, h3, h4, h5, h6, h7, h8⟩

theorem at_cycle {sc : List Lab} (G : Good sc) (k : Nat) : Rest ((live sc).st (11 + 4 * k)) ∧ ((live sc).st (11 + 4 * k)).deb = .top ∧ (k : Int) ≤ ((live sc).st (11 + 4 * k)).clock := by
  induction k with
  | zero => exact ⟨G.rest, G.top, Int.le_trans (show (0 : Int) ≤ 5 by decide) (clock_mono (x := live sc) (Nat.zero_le 11))⟩
  | succ k ih =>
    obtain ⟨i1, i2, i3⟩ := ih
    obtain ⟨_, _, _, _, _, _, _, c8, _, _, _, c12, c13⟩ := cycle _ (labs_cycle G.length k) i1 i2
    rw [show 11 + 4 * (k + 1) = 11 + 4 * k + 4 by omega]
    exact ⟨c12, c8, by rw [c13]; push_cast; omega⟩

theorem later {sc : List Lab} (G : Good sc) (n : Nat) (h : 11 ≤ n) : Rest ((live sc).st n) ∧ ((live sc).st n).deb ≠ .sending ∧ (live sc).lab n ≠ some .stop := by
  obtain ⟨k, i, hi, rfl⟩ : ∃ k i, i < 4 ∧ n = 11 + 4 * k + i := ⟨(n - 11) / 4, (n - 11) % 4, by omega, by omega⟩
  obtain ⟨i1, i2, i3⟩ := at_cycle G k
  obtain ⟨c1, c2, c3, c4, ⟨w1, c5⟩, ⟨w2, c6⟩, c7, _, c9, c10, c11, _⟩ := cycle _ (labs_cycle G.length k) i1 i2
  match i, hi with
  | 0, _ => exact ⟨i1, by rw [show 11 + 4 * k + 0 = 11 + 4 * k from rfl, i2]; simp, by rw [show 11 + 4 * k + 0 = 11 + 4 * k from rfl, c1]; simp⟩
  | 1, _ => exact ⟨c9, by rw [c5]; simp, by rw [c2]; simp⟩
  | 2, _ => exact ⟨c10, by rw [c6]; simp, by rw [c3]; simp⟩
  | 3, _ => exact ⟨c11, by rw [c7]; simp, by rw [c4]; simp⟩

theorem never {sc : List Lab} (G : Good sc) {A : Lab → Prop} (h : ∀ l s, A l → Rest s → s.deb ≠ .sending → HdLoop.step s l = none) : (live sc).StrongFair A := by
  intro hc
  obtain ⟨m, hm, l, hl, hs⟩ := hc 11
  obtain ⟨h1, h2, _⟩ := later G m hm
  rw [h l _ hl h1 h2] at hs
  cases hs

theorem live_fair {sc : List Lab} (G : Good sc) : HdFair (live sc) where
  time t := by
    obtain ⟨_, _, h⟩ := at_cycle G t.toNat
    exact ⟨_, Int.le_trans (Int.self_le_toNat t) h⟩
  top n _ := by
    obtain ⟨i1, i2, _⟩ := at_cycle G n
    exact ⟨_, by omega, _, .inr rfl, (cycle _ (labs_cycle G.length n) i1 i2).1⟩
  wake n _ := by
    obtain ⟨i1, i2, _⟩ := at_cycle G n
    exact ⟨_, by omega, _, rfl, (cycle _ (labs_cycle G.length n) i1 i2).2.2.1⟩
  check n _ := by
    obtain ⟨i1, i2, _⟩ := at_cycle G n
    exact ⟨_, by omega, _, rfl, (cycle _ (labs_cycle G.length n) i1 i2).2.2.2.1⟩
  request := (never G (by rintro l s rfl ⟨h1 | h1, _⟩ _ <;> simp [HdLoop.step, h1])).weak
  reply := (never G (by rintro l s rfl ⟨h1 | h1, _⟩ _ <;> simp [HdLoop.step, h1])).weak
  deliver := (never G (by rintro l s rfl ⟨_, _, _, h1, _⟩ _; simp [HdLoop.step, h1])).weak
  stopped := (never G (by rintro l s rfl ⟨h1 | h1, _⟩ _ <;> simp [HdLoop.step, h1])).weak
  consume := never G (by rintro l s rfl ⟨_, _, h1, _⟩ _; simp [HdLoop.step, h1])
  fire := never G (by rintro l s rfl _ h; simp [HdLoop.step, h])
  accept k := never G (by rintro l s rfl ⟨h0 | h0, _, _, _, _, h1, _⟩ _ <;> simp [HdLoop.step, h1, h0])
  acceptStop := never G (by rintro l s rfl ⟨_, _, _, _, h1, _⟩ _; simp [HdLoop.step, h1])

theorem good_script : Good script := by
  refine ⟨rfl, ⟨?_, ?_, ?_, ?_, ?_, ?_, ?_, ?_⟩, ?_⟩
  all_goals decide +kernel

theorem good_stop : Good stopScript := by
  refine ⟨rfl, ⟨?_, ?_, ?_, ?_, ?_, ?_, ?_, ?_⟩, ?_⟩
  all_goals decide +kernel

theorem not_stuck {sc : List Lab} (G : Good sc) (h : ∀ n, n < 11 → ((live sc).st n).requests ≠ 64) (n : Nat) : ¬ Stuck ((live sc).st n) := by
  intro hs
  by_cases hn : n < 11
  · exact h n hn hs.2.1
  · exact (later G n (by omega)).2.1 hs.2.2

/-- the hypotheses of `C86_healthd_answers`, `C86_healthd_consumed` and `C86_healthd_recalculates` hold. -/
example : HdFair (live script) ∧ (∀ n, ¬ Stuck ((live script).st n)) ∧ (∀ n, (live script).lab n ≠ some .stop) ∧ (live script).lab 4 = some (.call 0) ∧
    (live script).lab 1 = some .consume ∧ (live script).StrongFair (fun l => l = .enqueue 0 true) := by
  refine ⟨live_fair good_script, not_stuck good_script (by decide +kernel), ?_, by decide +kernel, by decide +kernel, ?_⟩
  · intro n
    by_cases hn : n < 11
    · have : ∀ n, n < 11 → (live script).lab n ≠ some .stop := by decide +kernel
      exact this n hn
    · exact (later good_script n (by omega)).2.2
  · exact never good_script (by rintro l s rfl ⟨_, _, _, _, _, _, _, h1⟩ _; simp [HdLoop.step, h1])

/-- the hypotheses of `C86_healthd_stop` hold. -/
example : HdFair (live stopScript) ∧ (∀ n, ¬ Stuck ((live stopScript).st n)) ∧ (live stopScript).lab 7 = some .stop :=
  ⟨live_fair good_stop, not_stuck good_stop (by decide +kernel), by decide +kernel⟩

end HdLoop.Sample
