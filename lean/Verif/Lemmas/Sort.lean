import Verif.Model.Writer
import Verif.Spec.Writer
import Verif.Lemmas.Base
/-! Sorting strings. -/
open Spec

theorem strLe_total (a b : Str) : strLe a b = true ∨ strLe b a = true := by
  induction a generalizing b with
  | nil => simp [strLe]
  | cons x s ih =>
    cases b with
    | nil => simp [strLe]
    | cons y t =>
      simp only [strLe, Bool.or_eq_true, Bool.and_eq_true, decide_eq_true_eq]
      rcases lt_trichotomy x.toNat y.toNat with h | h | h
      · exact .inl (.inl (UInt8.lt_iff_toNat_lt.2 h))
      · have : x = y := UInt8.toNat_inj.1 h
        subst this
        rcases ih t with h | h
        · exact .inl (.inr ⟨rfl, h⟩)
        · exact .inr (.inr ⟨rfl, h⟩)
      · exact .inr (.inl (UInt8.lt_iff_toNat_lt.2 h))

theorem strLe_trans {a b c : Str} (h1 : strLe a b = true) (h2 : strLe b c = true) : strLe a c = true := by
  induction a generalizing b c with
  | nil => simp [strLe]
  | cons x s ih =>
    cases b with
    | nil => simp [strLe] at h1
    | cons y t =>
      cases c with
      | nil => simp [strLe] at h2
      | cons z u =>
        simp only [strLe, Bool.or_eq_true, Bool.and_eq_true, decide_eq_true_eq] at *
        rcases h1 with h1 | ⟨rfl, h1⟩ <;> rcases h2 with h2 | ⟨rfl, h2⟩
        · exact .inl (UInt8.lt_trans h1 h2)
        · exact .inl h1
        · exact .inl h2
        · exact .inr ⟨rfl, ih h1 h2⟩

theorem strLe_antisymm {a b : Str} (h1 : strLe a b = true) (h2 : strLe b a = true) : a = b := by
  induction a generalizing b with
  | nil => cases b with
    | nil => rfl
    | cons y t => simp [strLe] at h2
  | cons x s ih =>
    cases b with
    | nil => simp [strLe] at h1
    | cons y t =>
      simp only [strLe, Bool.or_eq_true, Bool.and_eq_true, decide_eq_true_eq] at *
      rcases h1 with h1 | ⟨rfl, h1⟩
      · rcases h2 with h2 | ⟨rfl, h2⟩
        · rw [UInt8.lt_iff_toNat_lt] at h1 h2; omega
        · rw [UInt8.lt_iff_toNat_lt] at h1; omega
      · rcases h2 with h2 | ⟨_, h2⟩
        · rw [UInt8.lt_iff_toNat_lt] at h2; omega
        · rw [ih h1 h2]

theorem precedes_of_strLe {a b : Str} (h : strLe a b = true) (hne : a ≠ b) : Precedes a b := by
  induction a generalizing b with
  | nil => exact .inl ⟨b, fun e => hne e.symm, rfl⟩
  | cons x s ih =>
    cases b with
    | nil => simp [strLe] at h
    | cons y t =>
      simp only [strLe, Bool.or_eq_true, Bool.and_eq_true, decide_eq_true_eq] at h
      rcases h with h | ⟨rfl, h⟩
      · exact .inr ⟨[], x, y, s, t, rfl, rfl, h⟩
      · rcases ih h (fun e => hne (by rw [e])) with ⟨u, hu, rfl⟩ | ⟨p, a, b, s', t', rfl, rfl, hab⟩
        · exact .inl ⟨u, hu, rfl⟩
        · exact .inr ⟨x :: p, a, b, s', t', rfl, rfl, hab⟩

theorem strLe_of_precedes {a b : Str} (h : Precedes a b) : strLe a b = true ∧ a ≠ b := by
  rcases h with ⟨t, ht, rfl⟩ | ⟨p, x, y, s, t, rfl, rfl, h⟩
  · constructor
    · induction a with
      | nil => simp [strLe]
      | cons x s ih => simp [strLe, ih]
    · intro he
      have := congrArg List.length he
      simp at this
      exact ht this
  · constructor
    · induction p with
      | nil => simp [strLe, h]
      | cons c p ih => simp [strLe, ih]
    · intro he
      have := List.append_cancel_left he
      simp only [List.cons.injEq] at this
      rw [this.1, UInt8.lt_iff_toNat_lt] at h
      omega

instance : Std.Total (fun a b : Str => strLe a b = true) := ⟨strLe_total⟩
instance : IsTrans Str (fun a b => strLe a b = true) := ⟨fun _ _ _ => strLe_trans⟩

theorem sortStrs_perm (l : List Str) : (sortStrs l).Perm l := List.perm_insertionSort _ l
theorem sortStrs_sorted (l : List Str) : (sortStrs l).Pairwise (fun a b => strLe a b = true) := List.pairwise_insertionSort _ l

theorem sortStrs_strict {l : List Str} (h : l.Nodup) : (sortStrs l).Pairwise Precedes := by
  have h1 := sortStrs_sorted l
  have h2 : (sortStrs l).Nodup := (sortStrs_perm l).nodup_iff.2 h
  exact (h1.and h2).imp (fun h => precedes_of_strLe h.1 h.2)

theorem sortStrs_congr {l l' : List Str} (h : l.Perm l') : sortStrs l = sortStrs l' := by
  apply List.Perm.eq_of_pairwise (le := fun a b : Str => strLe a b = true)
  · intro a b _ _ h1 h2; exact strLe_antisymm h1 h2
  · exact sortStrs_sorted l
  · exact sortStrs_sorted l'
  · exact (sortStrs_perm l).trans (h.trans (sortStrs_perm l').symm)
