import Verif.Lemmas.Clone
/-! Facts about the specification function `segments`. -/
open Spec

theorem emitsIn_snoc (d : Int) (s : Time) (h : List (Time × AggOp)) (x : Time × AggOp) :
    emitsIn d s (h ++ [x]) = emitsIn d s h ++ (if intervalStart d x.1 = s then emitsOf x.2 else []) := by
  unfold emitsIn
  rw [List.filter_append, List.flatMap_append]
  congr 1
  by_cases hx : intervalStart d x.1 = s <;> simp [hx]

/-- No emission is lost, duplicated or reordered by cutting the history into segments. -/
theorem segments_flatten (d : Int) (h : List (Time × AggOp)) :
    (segments d h).flatMap (·.2) = h.flatMap (fun p => emitsOf p.2) := by
  induction h using snocInduction with
  | nil => rfl
  | snoc l x ih =>
    rw [segments_snoc, List.flatMap_append, ← ih]
    unfold addToSegments
    cases hS : (segments d l).getLast? with
    | none =>
      have : segments d l = [] := by simpa using hS
      simp [this]
    | some p =>
      simp only
      split
      · have := List.dropLast_append_getLast? _ hS
        conv_rhs => rw [← this]
        simp
      · simp

structure SegInv (d : Int) (h : List (Time × AggOp)) : Prop where
  cover : ∀ p ∈ h, ∃ g ∈ segments d h, g.1 = intervalStart d p.1
  exact : ∀ g ∈ segments d h, (∃ p ∈ h, intervalStart d p.1 = g.1) ∧ g.2 = emitsIn d g.1 h
  sorted : (segments d h).Pairwise (fun a b => a.1.ns < b.1.ns)

theorem intervalStart_mono {d : Int} (hd : 0 < d) {a b : Time} (h : a.ns ≤ b.ns) :
    (intervalStart d a).ns ≤ (intervalStart d b).ns := by
  unfold intervalStart
  exact Int.mul_le_mul_of_nonneg_left (Int.ediv_le_ediv hd h) (by omega)

theorem Spec.MonotoneClock.prefix {h h' : List (Time × AggOp)} (hm : MonotoneClock (h ++ h')) : MonotoneClock h := by
  unfold MonotoneClock at *
  rw [List.pairwise_append] at hm
  exact hm.1

theorem segInv {d : Int} (hd : 0 < d) (h : List (Time × AggOp)) (hm : MonotoneClock h) : SegInv d h := by
  induction h using snocInduction with
  | nil => exact ⟨by simp, by simp [segments], by simp [segments]⟩
  | snoc l x ih =>
    have ih := ih hm.prefix
    have hx : ∀ p ∈ l, p.1.ns ≤ x.1.ns ∧ p.1.loc = x.1.loc := by
      unfold MonotoneClock at hm
      rw [List.pairwise_append] at hm
      intro p hp
      exact hm.2.2 p hp x (by simp)
    have hle : ∀ g ∈ segments d l, g.1.ns ≤ (intervalStart d x.1).ns ∧ g.1.loc = (intervalStart d x.1).loc := by
      intro g hg
      obtain ⟨p, hp, he⟩ := (ih.exact g hg).1
      rw [← he]
      exact ⟨intervalStart_mono hd (hx p hp).1, (hx p hp).2⟩
    cases hS : (segments d l).getLast? with
    | none =>
      have hnil : segments d l = [] := by simpa using hS
      have hl : l = [] := by
        cases l with
        | nil => rfl
        | cons p t =>
          obtain ⟨g, hg, _⟩ := ih.cover p (by simp)
          rw [hnil] at hg; simp at hg
      subst hl
      have : segments d ([] ++ [x]) = [(intervalStart d x.1, emitsOf x.2)] := by
        rw [segments_snoc]; simp [addToSegments, segments]
      refine ⟨?_, ?_, ?_⟩
      · intro p hp; simp at hp; subst hp; rw [this]; exact ⟨_, List.mem_singleton.2 rfl, rfl⟩
      · intro g hg; rw [this] at hg; simp at hg; subst hg
        exact ⟨⟨x, by simp, rfl⟩, by simp [emitsIn]⟩
      · rw [this]; simp
    | some q =>
      obtain ⟨s, es⟩ := q
      have hsplit := List.dropLast_append_getLast? _ hS
      have hmemlast : (s, es) ∈ segments d l := by rw [← hsplit]; simp
      have hsorted : (segments d l).dropLast.Pairwise (fun a b => a.1.ns < b.1.ns) ∧
          ∀ g ∈ (segments d l).dropLast, g.1.ns < s.ns := by
        have := ih.sorted
        rw [← hsplit, List.pairwise_append] at this
        exact ⟨this.1, fun g hg => this.2.2 g hg _ (List.mem_singleton.2 rfl)⟩
      by_cases hs : s = intervalStart d x.1
      · have heq : segments d (l ++ [x]) = (segments d l).dropLast ++ [(s, es ++ emitsOf x.2)] := by
          rw [segments_snoc]; unfold addToSegments; rw [hS]; simp [hs]
        have hdl : ∀ g ∈ (segments d l).dropLast, g ∈ segments d l := fun g hg => List.dropLast_subset _ hg
        refine ⟨?_, ?_, ?_⟩
        · intro p hp
          rw [heq]
          rcases List.mem_append.1 hp with hp | hp
          · obtain ⟨g, hg, hge⟩ := ih.cover p hp
            rw [← hsplit] at hg
            rcases List.mem_append.1 hg with hg | hg
            · exact ⟨g, by simp [hg], hge⟩
            · simp at hg; subst hg; exact ⟨(s, es ++ emitsOf x.2), by simp, hge⟩
          · simp at hp; subst hp; exact ⟨(s, es ++ emitsOf p.2), by simp, hs⟩
        · intro g hg
          rw [heq] at hg
          rw [emitsIn_snoc]
          rcases List.mem_append.1 hg with hg | hg
          · have h1 := ih.exact g (hdl g hg)
            obtain ⟨p, hp, he⟩ := h1.1
            refine ⟨⟨p, by simp [hp], he⟩, ?_⟩
            have : intervalStart d x.1 ≠ g.1 := by
              intro hh
              have := hsorted.2 g hg
              rw [← hh, hs] at this; omega
            rw [if_neg this, List.append_nil]; exact h1.2
          · simp only [List.mem_singleton] at hg; subst hg
            refine ⟨⟨x, by simp, hs.symm⟩, ?_⟩
            simp only [hs, if_true]
            rw [← hs, ← (ih.exact _ hmemlast).2]
        · rw [heq, List.pairwise_append]
          refine ⟨hsorted.1, by simp, ?_⟩
          intro a ha b hb
          simp at hb; subst hb
          exact hsorted.2 a ha
      · have heq : segments d (l ++ [x]) = segments d l ++ [(intervalStart d x.1, emitsOf x.2)] := by
          rw [segments_snoc]; unfold addToSegments; rw [hS]; simp [hs]
        have hlast : s.ns < (intervalStart d x.1).ns := by
          have h1 := hle _ hmemlast
          rcases Int.lt_or_eq_of_le h1.1 with h2 | h2
          · exact h2
          · exfalso; apply hs
            cases s; simp only [Time.mk.injEq, intervalStart] at *
            exact ⟨h2, h1.2⟩
        have hall : ∀ g ∈ segments d l, g.1.ns < (intervalStart d x.1).ns := by
          intro g hg
          rw [← hsplit] at hg
          rcases List.mem_append.1 hg with hg | hg
          · have := hsorted.2 g hg; omega
          · simp at hg; subst hg; exact hlast
        refine ⟨?_, ?_, ?_⟩
        · intro p hp
          rw [heq]
          rcases List.mem_append.1 hp with hp | hp
          · obtain ⟨g, hg, hge⟩ := ih.cover p hp
            exact ⟨g, by simp [hg], hge⟩
          · simp at hp; subst hp; exact ⟨(intervalStart d p.1, emitsOf p.2), by simp, rfl⟩
        · intro g hg
          rw [heq] at hg
          rw [emitsIn_snoc]
          rcases List.mem_append.1 hg with hg | hg
          · have h1 := ih.exact g hg
            obtain ⟨p, hp, he⟩ := h1.1
            refine ⟨⟨p, by simp [hp], he⟩, ?_⟩
            have : intervalStart d x.1 ≠ g.1 := by
              intro hh
              have := hall g hg
              rw [← hh] at this; omega
            rw [if_neg this, List.append_nil]; exact h1.2
          · simp only [List.mem_singleton] at hg; subst hg
            refine ⟨⟨x, by simp, rfl⟩, ?_⟩
            have : emitsIn d (intervalStart d x.1) l = [] := by
              unfold emitsIn
              rw [List.filter_eq_nil_iff.2]
              · rfl
              · intro p hp
                obtain ⟨g, hg, hge⟩ := ih.cover p hp
                have := hall g hg
                simp only [decide_eq_true_eq]
                intro hh; rw [hge, hh] at this; omega
            simp [this]
        · rw [heq, List.pairwise_append]
          refine ⟨ih.sorted, by simp, ?_⟩
          intro a ha b hb
          simp at hb; subst hb
          exact hall a ha

theorem emitsIn_read (d : Int) (s : Time) (h : List (Time × AggOp)) (now : Time) :
    emitsIn d s (h ++ [(now, .read)]) = emitsIn d s h := by
  rw [emitsIn_snoc]; simp [emitsOf]

theorem mem_lastN {α : Type} {n : Nat} {l : List α} {x : α} (h : x ∈ lastN n l) : x ∈ l := List.mem_of_mem_drop h
