import Verif.Spec.Fairness
import Mathlib.Order.Monotone.Basic
import Mathlib.Order.Lattice
import Mathlib.Tactic.ByContra
/-!
# Rules for proving that something happens eventually
-/
namespace Spec.Exec
variable {S L : Type} {step : S → L → Option S} {s0 : S}

theorem StrongFair.weak {x : Exec step s0} {A : L → Prop} (h : x.StrongFair A) : x.WeakFair A :=
  fun n hn => h (fun k => ⟨max n k, Nat.le_max_right _ _, hn _ (Nat.le_max_left _ _)⟩) n

/-- while `P` holds, `A` can be done; doing it brings about `Q`; nothing else ends `P` without `Q`. -/
theorem leads_weak {x : Exec step s0} {A : L → Prop} {P Q : Nat → Prop} {n : Nat} (f : x.WeakFair A) (h0 : P n)
    (hen : ∀ m, n ≤ m → P m → x.Could A m) (hact : ∀ m, n ≤ m → P m → x.Does A m → Q (m + 1))
    (hstay : ∀ m, n ≤ m → P m → P (m + 1) ∨ Q (m + 1)) : ∃ m, n ≤ m ∧ Q m := by
  by_contra hq
  have hq' : ∀ m, n ≤ m → ¬ Q m := fun m hm h => hq ⟨m, hm, h⟩
  have hp : ∀ m, n ≤ m → P m := by
    intro m hm
    induction m, hm using Nat.le_induction with
    | base => exact h0
    | succ m hm ih => exact (hstay m hm ih).resolve_right (hq' _ (by omega))
  obtain ⟨m, hm, hd⟩ := f n (fun m hm => hen m hm (hp m hm))
  exact hq' (m + 1) (by omega) (hact m hm (hp m hm) hd)

/-- the same when `A` can only be done again and again. -/
theorem leads_strong {x : Exec step s0} {A : L → Prop} {P Q : Nat → Prop} {n : Nat} (f : x.StrongFair A) (h0 : P n)
    (hen : (∀ m, n ≤ m → P m) → ∀ m, n ≤ m → ∃ k, m ≤ k ∧ x.Could A k) (hact : ∀ m, n ≤ m → P m → x.Does A m → Q (m + 1))
    (hstay : ∀ m, n ≤ m → P m → P (m + 1) ∨ Q (m + 1)) : ∃ m, n ≤ m ∧ Q m := by
  by_contra hq
  have hq' : ∀ m, n ≤ m → ¬ Q m := fun m hm h => hq ⟨m, hm, h⟩
  have hp : ∀ m, n ≤ m → P m := by
    intro m hm
    induction m, hm using Nat.le_induction with
    | base => exact h0
    | succ m hm ih => exact (hstay m hm ih).resolve_right (hq' _ (by omega))
  obtain ⟨m, hm, hd⟩ := f (fun k => by
    obtain ⟨j, hj, hc⟩ := hen hp (max n k) (Nat.le_max_left _ _)
    exact ⟨j, by omega, hc⟩) n
  exact hq' (m + 1) (by omega) (hact m hm (hp m hm) hd)

/-- either nothing happens or a step. -/
theorem cases_lab (x : Exec step s0) (n : Nat) : (x.lab n = none ∧ x.st (n + 1) = x.st n) ∨ ∃ l, x.lab n = some l ∧ step (x.st n) l = some (x.st (n + 1)) := by
  cases h : x.lab n with
  | none => exact .inl ⟨rfl, x.rest n h⟩
  | some l => exact .inr ⟨l, rfl, x.next n l h⟩

/-- what every step keeps holds at all times. -/
theorem invariant (x : Exec step s0) {P : S → Prop} (h0 : P s0) (hs : ∀ s l s', P s → step s l = some s' → P s') (n : Nat) : P (x.st n) := by
  induction n with
  | zero => rw [x.start]; exact h0
  | succ n ih =>
    rcases x.cases_lab n with ⟨_, e⟩ | ⟨l, _, e⟩
    · rw [e]; exact ih
    · exact hs _ _ _ ih e

theorem trace_prefix (x : Exec step s0) {n m : Nat} (h : n ≤ m) : x.trace n <+: x.trace m := by
  induction m, h using Nat.le_induction with
  | base => exact List.prefix_rfl
  | succ m _ ih => exact ih.trans ⟨_, rfl⟩

theorem mem_trace (x : Exec step s0) {l : L} {n : Nat} : l ∈ x.trace n ↔ ∃ m, m < n ∧ x.lab m = some l := by
  induction n with
  | zero => simp [trace]
  | succ n ih =>
    simp only [trace, List.mem_append, ih, Option.mem_toList]
    constructor
    · rintro (⟨m, hm, e⟩ | e)
      · exact ⟨m, by omega, e⟩
      · exact ⟨n, by omega, e⟩
    · rintro ⟨m, hm, e⟩
      by_cases h : m = n
      · subst h; exact .inr e
      · exact .inl ⟨m, by omega, e⟩

/-- the steps made from time `n` on, before time `n + k`. -/
def between (x : Exec step s0) (n : Nat) : Nat → List L
  | 0 => []
  | k + 1 => x.between n k ++ (x.lab (n + k)).toList

theorem trace_between (x : Exec step s0) (n k : Nat) : x.trace (n + k) = x.trace n ++ x.between n k := by
  induction k with
  | zero => simp [between]
  | succ k ih => rw [← Nat.add_assoc, trace, ih, between, List.append_assoc]

theorem between_cons (x : Exec step s0) (n k : Nat) : x.between n (k + 1) = (x.lab n).toList ++ x.between (n + 1) k := by
  induction k with
  | zero => simp [between]
  | succ k ih => rw [between, ih, between, List.append_assoc, show n + (k + 1) = n + 1 + k by omega]

theorem mem_between (x : Exec step s0) {l : L} {n k : Nat} : l ∈ x.between n k ↔ ∃ m, n ≤ m ∧ m < n + k ∧ x.lab m = some l := by
  induction k with
  | zero => simp only [between, List.not_mem_nil, false_iff]; rintro ⟨m, h1, h2, _⟩; omega
  | succ k ih =>
    simp only [between, List.mem_append, ih, Option.mem_toList]
    constructor
    · rintro (⟨m, h1, h2, e⟩ | e)
      · exact ⟨m, h1, by omega, e⟩
      · exact ⟨n + k, by omega, by omega, e⟩
    · rintro ⟨m, h1, h2, e⟩
      by_cases h : m = n + k
      · subst h; exact .inr e
      · exact .inl ⟨m, h1, by omega, e⟩

/-- a function of time that grows at most finitely and keeps growing as long as it is below `N` reaches `N`. -/
theorem reaches {f : Nat → Nat} (hmono : ∀ n, f n ≤ f (n + 1)) {n N : Nat} (hgrow : ∀ m, n ≤ m → f m < N → ∃ k, m ≤ k ∧ f m < f k) :
    ∃ m, n ≤ m ∧ ∀ k, m ≤ k → N ≤ f k := by
  have hm : Monotone f := monotone_nat_of_le_succ hmono
  have key : ∀ d, ∃ m, n ≤ m ∧ (N ≤ f m ∨ d ≤ f m) := by
    intro d
    induction d with
    | zero => exact ⟨n, Nat.le_refl _, .inr (Nat.zero_le _)⟩
    | succ d ih =>
      obtain ⟨m, hnm, h | h⟩ := ih
      · exact ⟨m, hnm, .inl h⟩
      · by_cases hN : f m < N
        · obtain ⟨k, hk, hlt⟩ := hgrow m hnm hN
          exact ⟨k, by omega, .inr (by omega)⟩
        · exact ⟨m, hnm, .inl (by omega)⟩
  obtain ⟨m, hnm, h⟩ := key N
  have h : N ≤ f m := by rcases h with h | h <;> exact h
  exact ⟨m, hnm, fun k hk => le_trans h (hm hk)⟩

theorem foldlM_take (s : S) (ls : List L) (h : (ls.foldlM step s).isSome) (n : Nat) : ((ls.take n).foldlM step s).isSome := by
  rw [← List.take_append_drop n ls, List.foldlM_append] at h
  cases hc : (ls.take n).foldlM step s with
  | none => rw [hc] at h; simp at h
  | some _ => rfl

/-- the steps `ls`, then nothing more. -/
def script (ls : List L) (h : (ls.foldlM step s0).isSome) : Exec step s0 where
  st n := ((ls.take n).foldlM step s0).getD s0
  lab n := ls[n]?
  start := by simp
  rest n hn := by
    rw [List.getElem?_eq_none_iff] at hn
    rw [List.take_of_length_le hn, List.take_of_length_le (by omega)]
  next n l hl := by
    obtain ⟨s1, h1⟩ := Option.isSome_iff_exists.1 (foldlM_take s0 ls h n)
    obtain ⟨s2, h2⟩ := Option.isSome_iff_exists.1 (foldlM_take s0 ls h (n + 1))
    rw [h1, h2]
    rw [List.take_add_one, hl, List.foldlM_append, h1] at h2
    simpa using h2

/-- fair, if nothing can be done in the end. -/
theorem script_fair {ls : List L} (h : (ls.foldlM step s0).isSome) {A : L → Prop} (hA : ∀ l, A l → step ((ls.foldlM step s0).get h) l = none) :
    (script ls h).StrongFair A := by
  intro hc
  obtain ⟨m, hm, l, hl, hs⟩ := hc ls.length
  obtain ⟨s', he⟩ := Option.isSome_iff_exists.1 h
  have : (script ls h).st m = (ls.foldlM step s0).get h := by
    simp only [script]; rw [List.take_of_length_le hm]; simp [he]
  rw [this, hA l hl] at hs
  cases hs

/-- the execution that makes the steps `f`, leaving out those that cannot be made. -/
def follow (step : S → L → Option S) (s0 : S) (f : Nat → L) : Exec step s0 where
  st n := Nat.rec s0 (fun n s => (step s (f n)).getD s) n
  lab n := if (step (Nat.rec s0 (fun n s => (step s (f n)).getD s) n) (f n)).isSome then some (f n) else none
  start := rfl
  rest n hn := by
    split at hn
    · cases hn
    · next h => simp only [Option.isSome_iff_ne_none, ne_eq, not_not] at h; simp only [h, Option.getD_none]
  next n l hl := by
    split at hl
    · next h =>
      cases hl
      obtain ⟨s, hs⟩ := Option.isSome_iff_exists.1 h
      simp only [hs, Option.getD_some]
    · cases hl

theorem follow_step (step : S → L → Option S) (s0 : S) (f : Nat → L) (n : Nat) {s : S} (h : step ((follow step s0 f).st n) (f n) = some s) :
    (follow step s0 f).st (n + 1) = s ∧ (follow step s0 f).lab n = some (f n) := by
  refine ⟨?_, ?_⟩
  · show (step ((follow step s0 f).st n) (f n)).getD _ = s
    rw [h]; rfl
  · show (if (step ((follow step s0 f).st n) (f n)).isSome then some (f n) else none) = _
    rw [h]; rfl

end Spec.Exec
