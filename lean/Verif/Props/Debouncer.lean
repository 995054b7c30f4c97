import Verif.Model.Debouncer
import Verif.Lemmas.Healthd
/-!
# The debouncer (C49)
-/
open Healthd

namespace Spec
/-- the clock does not go backwards. -/
def InOrder (its : List Iter) : Prop :=
  (∀ it ∈ its, it.now1.ns ≤ it.now2.ns ∧ it.now2.ns ≤ it.received.ns) ∧ its.Pairwise (fun a b => a.received.ns ≤ b.now1.ns)
end Spec

namespace Healthd

/-- `oldestNeedItDone` after some iterations. -/
def oldestAfter (th : Int) (o : Time) (its : List Iter) : Time := its.foldl (fun o it => (debouncerStep th o it).2) o

theorem debouncerFrom_snoc (th : Int) (o : Time) (its : List Iter) (it : Iter) :
    debouncerFrom th o (its ++ [it]) = debouncerFrom th o its ++ [(debouncerStep th (oldestAfter th o its) it).1] := by
  induction its generalizing o with
  | nil => rfl
  | cons x t ih =>
    rw [List.cons_append, debouncerFrom, debouncerFrom, ih]
    rfl

theorem debouncer_length (th : Int) (o : Time) (its : List Iter) : (debouncerFrom th o its).length = its.length := by
  induction its generalizing o with
  | nil => rfl
  | cons x t ih => simp [debouncerFrom, ih]

/-- request `i` is not yet served. -/
def Waits (th : Int) (its : List Iter) (i : Nat) (it : Iter) : Prop :=
  its[i]? = some it ∧ it.request = true ∧ ∀ m, i ≤ m → m < its.length → (debouncer th its)[m]? = some false

theorem waits_snoc {th : Int} {its : List Iter} {x : Iter} {i : Nat} {it : Iter} :
    Waits th (its ++ [x]) i it ↔ (debouncerStep th (oldestAfter th zeroTime its) x).1 = false ∧ (Waits th its i it ∨ (i = its.length ∧ it = x ∧ x.request = true)) := by
  have hlen : (debouncer th its).length = its.length := debouncer_length _ _ _
  have hsn : debouncer th (its ++ [x]) = debouncer th its ++ [(debouncerStep th (oldestAfter th zeroTime its) x).1] := debouncerFrom_snoc _ _ _ _
  unfold Waits
  rw [hsn]
  constructor
  · rintro ⟨h1, h2, h3⟩
    have hi : i < its.length + 1 := by
      have := (List.getElem?_eq_some_iff.1 h1).1
      simpa using this
    have h4 := h3 its.length (by omega) (by simp)
    rw [List.getElem?_append_right (by omega), hlen] at h4
    simp only [Nat.sub_self, List.getElem?_cons_zero, Option.some.injEq] at h4
    refine ⟨h4, ?_⟩
    by_cases hi2 : i = its.length
    · right
      subst hi2
      simp only [List.getElem?_append_right (le_refl _), Nat.sub_self, List.getElem?_cons_zero, Option.some.injEq] at h1
      exact ⟨rfl, h1.symm, by rw [h1]; exact h2⟩
    · left
      rw [List.getElem?_append_left (by omega)] at h1
      refine ⟨h1, h2, ?_⟩
      intro m hm1 hm2
      have := h3 m hm1 (by simp; omega)
      rwa [List.getElem?_append_left (by omega)] at this
  · rintro ⟨h4, h5⟩
    rcases h5 with ⟨h1, h2, h3⟩ | ⟨rfl, rfl, h2⟩
    · have hi : i < its.length := (List.getElem?_eq_some_iff.1 h1).1
      refine ⟨by rw [List.getElem?_append_left hi]; exact h1, h2, ?_⟩
      intro m hm1 hm2
      by_cases hm3 : m < its.length
      · rw [List.getElem?_append_left (by omega)]; exact h3 m hm1 hm3
      · have : m = its.length := by simp at hm2; omega
        subst this
        rw [List.getElem?_append_right (by omega), hlen]
        simp [h4]
    · refine ⟨by simp, h2, ?_⟩
      intro m hm1 hm2
      have : m = its.length := by simp at hm2; omega
      subst this
      rw [List.getElem?_append_right (by omega), hlen]
      simp [h4]

/-- what `oldestNeedItDone` means. -/
structure Oldest (th : Int) (its : List Iter) (o : Time) : Prop where
  none : isZero o = true → ∀ i it, ¬ Waits th its i it
  some : isZero o = false → (∃ i it, Waits th its i it ∧ o = it.now1) ∧ ∀ i it, Waits th its i it → o.ns ≤ it.now1.ns

/-- `oldestNeedItDone` after the `select`. -/
def taken (o : Time) (it : Iter) : Time := if it.request then debouncerTake o it.now1 else o

theorem step_eq (th : Int) (o : Time) (it : Iter) :
    debouncerStep th o it = if debouncerDue th (taken o it) it.now2 = true then (true, zeroTime) else (false, taken o it) := rfl

/-- requests waiting at the clock reading of iteration `x`. -/
def Pre (th : Int) (its : List Iter) (x : Iter) (i : Nat) (it : Iter) : Prop := Waits th its i it ∨ (i = its.length ∧ it = x ∧ x.request = true)

theorem oldest_pre {th : Int} {l : List Iter} {x : Iter} (ih : Oldest th l (oldestAfter th zeroTime l)) (hx : x.now1.ns ≠ 0)
    (hle : ∀ y ∈ l, y.now1.ns ≤ x.now1.ns) :
    (isZero (taken (oldestAfter th zeroTime l) x) = true → ∀ i it, ¬ Pre th l x i it) ∧
    (isZero (taken (oldestAfter th zeroTime l) x) = false →
      (∃ i it, Pre th l x i it ∧ taken (oldestAfter th zeroTime l) x = it.now1) ∧ ∀ i it, Pre th l x i it → (taken (oldestAfter th zeroTime l) x).ns ≤ it.now1.ns) := by
  generalize oldestAfter th zeroTime l = o at ih
  have hmem : ∀ i it, Waits th l i it → it ∈ l := fun i it h => List.mem_of_getElem? h.1
  unfold taken debouncerTake
  by_cases hr : x.request = true
  · rw [if_pos hr]
    cases ho : isZero o with
    | true =>
      rw [if_pos rfl]
      refine ⟨fun h => absurd (by simpa [isZero] using h) hx, fun _ => ⟨⟨l.length, x, .inr ⟨rfl, rfl, hr⟩, rfl⟩, ?_⟩⟩
      rintro i it (h | ⟨_, rfl, _⟩)
      · exact absurd h (ih.none ho i it)
      · exact le_refl _
    | false =>
      rw [if_neg (by simp)]
      refine ⟨fun h => (by rw [ho] at h; cases h), fun _ => ?_⟩
      obtain ⟨⟨i, it, h1, h2⟩, h3⟩ := ih.some ho
      refine ⟨⟨i, it, .inl h1, h2⟩, ?_⟩
      rintro i' it' (h | ⟨_, rfl, _⟩)
      · exact h3 i' it' h
      · rw [h2]; exact hle it (hmem i it h1)
  · rw [if_neg hr]
    have : ∀ i it, Pre th l x i it ↔ Waits th l i it := by
      intro i it
      unfold Pre
      exact ⟨fun h => h.resolve_right (fun h => hr h.2.2), .inl⟩
    simp only [this]
    exact ⟨ih.none, ih.some⟩

theorem inOrder_snoc {l : List Iter} {x : Iter} (ho : Spec.InOrder (l ++ [x])) : Spec.InOrder l ∧ ∀ y ∈ l, y.now1.ns ≤ x.now1.ns := by
  refine ⟨⟨fun it h => ho.1 it (by simp [h]), (List.pairwise_append.1 ho.2).1⟩, ?_⟩
  intro y hy
  have h1 := (List.pairwise_append.1 ho.2).2.2 y hy x (by simp)
  have h2 := ho.1 y (by simp [hy])
  omega

theorem oldest_ok {th : Int} {its : List Iter} (hz : ∀ it ∈ its, it.now1.ns ≠ 0) (ho : Spec.InOrder its) : Oldest th its (oldestAfter th zeroTime its) := by
  induction its using snocInduction with
  | nil => exact ⟨fun _ i it h => by simpa using h.1, fun h => by cases h⟩
  | snoc l x ih =>
    obtain ⟨ho', hle⟩ := inOrder_snoc ho
    have ih := ih (fun it h => hz it (by simp [h])) ho'
    have hp := oldest_pre ih (hz x (by simp)) hle
    have e : oldestAfter th zeroTime (l ++ [x]) = (debouncerStep th (oldestAfter th zeroTime l) x).2 := by unfold oldestAfter; rw [List.foldl_append]; rfl
    rw [e]
    by_cases hd : debouncerDue th (taken (oldestAfter th zeroTime l) x) x.now2 = true
    · have hs : debouncerStep th (oldestAfter th zeroTime l) x = (true, zeroTime) := by rw [step_eq, if_pos hd]
      rw [hs]
      refine ⟨?_, fun h => by cases h⟩
      intro _ i it hw
      rw [waits_snoc, hs] at hw
      cases hw.1
    · have hs : debouncerStep th (oldestAfter th zeroTime l) x = (false, taken (oldestAfter th zeroTime l) x) := by rw [step_eq, if_neg hd]
      have : ∀ i it, Waits th (l ++ [x]) i it ↔ Pre th l x i it := by
        intro i it
        rw [waits_snoc, hs]
        exact ⟨fun h => h.2, fun h => ⟨rfl, h⟩⟩
      rw [hs]
      refine ⟨?_, ?_⟩ <;> simp only [this]
      · exact hp.1
      · exact hp.2

theorem fires_iff {th : Int} (hth : -2 ^ 63 ≤ th ∧ th < 2 ^ 63 - 1) {l : List Iter} {x : Iter} (hz : ∀ it ∈ l ++ [x], it.now1.ns ≠ 0) (ho : Spec.InOrder (l ++ [x])) :
    (debouncerStep th (oldestAfter th zeroTime l) x).1 = true ↔ ∃ i it, Pre th l x i it ∧ x.now2.ns - it.now1.ns > th := by
  obtain ⟨ho', hle⟩ := inOrder_snoc ho
  have hp := oldest_pre (th := th) (oldest_ok (fun it h => hz it (by simp [h])) ho') (hz x (by simp)) hle
  rw [step_eq]
  generalize taken (oldestAfter th zeroTime l) x = o at hp
  have hdue : debouncerDue th o x.now2 = true ↔ isZero o = false ∧ x.now2.ns - o.ns > th := by
    unfold debouncerDue
    simp only [Bool.and_eq_true, Bool.not_eq_true', decide_eq_true_eq, subTime_gt hth.1 hth.2]
  constructor
  · intro h
    have hd : debouncerDue th o x.now2 = true := by
      by_contra h1
      rw [if_neg h1] at h
      cases h
    obtain ⟨h0, h1⟩ := hdue.1 hd
    obtain ⟨⟨i, it, h2, h3⟩, _⟩ := hp.2 h0
    exact ⟨i, it, h2, by rw [← h3]; exact h1⟩
  · rintro ⟨i, it, h1, h2⟩
    have h0 : isZero o = false := by
      cases hz : isZero o with
      | false => rfl
      | true => exact absurd h1 (hp.1 hz i it)
    have := (hp.2 h0).2 i it h1
    rw [if_pos (hdue.2 ⟨h0, by omega⟩)]

end Healthd

open Healthd in
/-- C49: an iteration of the debouncer fires if and only if some request taken up by then, and since which it has not fired, is more than the threshold
old at its reading of the clock. -/
theorem C49_fires_iff {th : Int} (hth : -2 ^ 63 ≤ th ∧ th < 2 ^ 63 - 1) {its : List Iter} (hz : ∀ it ∈ its, it.now1.ns ≠ 0) (ho : Spec.InOrder its)
    {j : Nat} {itj : Iter} (hj : its[j]? = some itj) :
    (debouncer th its)[j]? = some true ↔
      ∃ i iti, i ≤ j ∧ its[i]? = some iti ∧ iti.request = true ∧ itj.now2.ns - iti.now1.ns > th ∧
        ∀ m, i ≤ m → m < j → (debouncer th its)[m]? = some false := by
  induction its using snocInduction with
  | nil => simp at hj
  | snoc l x ih =>
    have hlen : (debouncer th l).length = l.length := debouncer_length _ _ _
    have hsn : debouncer th (l ++ [x]) = debouncer th l ++ [(debouncerStep th (oldestAfter th zeroTime l) x).1] := debouncerFrom_snoc _ _ _ _
    rw [hsn]
    by_cases hlt : j < l.length
    · rw [List.getElem?_append_left hlt] at hj
      rw [List.getElem?_append_left (by omega), ih (fun it h => hz it (by simp [h])) (inOrder_snoc ho).1 hj]
      refine exists_congr fun i => exists_congr fun iti => ?_
      constructor
      · rintro ⟨h1, h2, h3, h4, h5⟩
        exact ⟨h1, by rw [List.getElem?_append_left (by omega)]; exact h2, h3, h4, fun m a b => by rw [List.getElem?_append_left (by omega)]; exact h5 m a b⟩
      · rintro ⟨h1, h2, h3, h4, h5⟩
        rw [List.getElem?_append_left (by omega)] at h2
        exact ⟨h1, h2, h3, h4, fun m a b => by have := h5 m a b; rwa [List.getElem?_append_left (by omega)] at this⟩
    · have hj2 : j = l.length := by
        have := (List.getElem?_eq_some_iff.1 hj).1
        simp at this
        omega
      subst hj2
      have hx : x = itj := by simpa using hj
      subst hx
      rw [List.getElem?_append_right (by omega), hlen]
      simp only [Nat.sub_self, List.getElem?_cons_zero, Option.some.injEq]
      rw [fires_iff hth hz ho]
      refine exists_congr fun i => exists_congr fun iti => ?_
      constructor
      · rintro ⟨⟨h1, h2, h3⟩ | ⟨rfl, rfl, h2⟩, h4⟩
        · have hi := (List.getElem?_eq_some_iff.1 h1).1
          exact ⟨by omega, by rw [List.getElem?_append_left hi]; exact h1, h2, h4, fun m a b => by rw [List.getElem?_append_left (by omega)]; exact h3 m a b⟩
        · exact ⟨le_refl _, by simp, h2, h4, fun m a b => by omega⟩
      · rintro ⟨h1, h2, h3, h4, h5⟩
        refine ⟨?_, h4⟩
        by_cases hi : i = l.length
        · right
          subst hi
          have : iti = x := by simpa using h2.symm
          exact ⟨rfl, this, by rw [← this]; exact h3⟩
        · left
          rw [List.getElem?_append_left (by omega)] at h2
          exact ⟨h2, h3, fun m a b => by have := h5 m a b; rwa [List.getElem?_append_left (by omega)] at this⟩

open Healthd in
/-- C49: between two firings lies more than the threshold (from the moment the first was received). -/
theorem C49_rate {th : Int} (hth : -2 ^ 63 ≤ th ∧ th < 2 ^ 63 - 1) {its : List Iter} (hz : ∀ it ∈ its, it.now1.ns ≠ 0) (ho : Spec.InOrder its)
    {i j : Nat} {iti itj : Iter} (hij : i < j) (hi : its[i]? = some iti) (hj : its[j]? = some itj)
    (hfi : (debouncer th its)[i]? = some true) (hfj : (debouncer th its)[j]? = some true) : itj.now2.ns - iti.received.ns > th := by
  obtain ⟨k, itk, h1, h2, h3, h4, h5⟩ := (C49_fires_iff hth hz ho hj).1 hfj
  have hik : i < k := by
    by_contra h
    have := h5 i (by omega) hij
    rw [hfi] at this
    cases this
  have := List.pairwise_iff_getElem.1 ho.2 i k (List.getElem?_eq_some_iff.1 hi).1 (List.getElem?_eq_some_iff.1 h2).1 hik
  rw [(List.getElem?_eq_some_iff.1 hi).2, (List.getElem?_eq_some_iff.1 h2).2] at this
  omega

/-- a case that meets the hypotheses: with the threshold 2 s of healthd, the request at 1 s is served at 3.1 s, those at 3.2 s and 4 s at 5.3 s. -/
example : let its : List Iter := [⟨true, ⟨1000, 1⟩, ⟨1001, 1⟩, ⟨1001, 1⟩⟩, ⟨false, ⟨3000, 1⟩, ⟨3000, 1⟩, ⟨3000, 1⟩⟩, ⟨false, ⟨3100, 1⟩, ⟨3100, 1⟩, ⟨3150, 1⟩⟩,
      ⟨true, ⟨3200, 1⟩, ⟨3200, 1⟩, ⟨3200, 1⟩⟩, ⟨true, ⟨4000, 1⟩, ⟨4000, 1⟩, ⟨4000, 1⟩⟩, ⟨false, ⟨5300, 1⟩, ⟨5300, 1⟩, ⟨5300, 1⟩⟩]
    debouncer 2000 its = [false, false, true, false, false, true] ∧ (∀ it ∈ its, it.now1.ns ≠ 0) ∧
    (∀ it ∈ its, it.now1.ns ≤ it.now2.ns ∧ it.now2.ns ≤ it.received.ns) ∧ its.Pairwise (fun a b => a.received.ns ≤ b.now1.ns) := by
  decide +kernel
