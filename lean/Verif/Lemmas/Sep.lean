import Verif.Spec.Heap
/-! A separation logic for `Mem`: assertions on parts of the memory, triples with a part that is only read. -/
namespace Mem

/-- a part of the memory. -/
abbrev Part := Addr → Option Cell
/-- a statement about a part of the memory. -/
abbrev Assn := Part → Prop

def Part.empty : Part := fun _ => none
def Part.union (p q : Part) : Part := fun x => (p x).or (q x)
def Part.Disj (p q : Part) : Prop := ∀ x, p x = none ∨ q x = none
/-- the part agrees with the memory. -/
def Part.In (p : Part) (h : Heap) : Prop := ∀ x c, p x = some c → h.cells[x]? = some c
def Part.Sub (p q : Part) : Prop := ∀ x c, p x = some c → q x = some c
def Part.dom (p : Part) (x : Addr) : Prop := p x ≠ none

theorem Part.Disj.symm {p q : Part} (h : p.Disj q) : q.Disj p := fun x => (h x).symm
theorem Part.union_comm {p q : Part} (h : p.Disj q) : p.union q = q.union p := by
  funext x
  unfold Part.union
  rcases h x with e | e <;> rw [e] <;> simp
theorem Part.union_assoc (p q r : Part) : (p.union q).union r = p.union (q.union r) := by
  funext x
  unfold Part.union
  cases p x <;> simp
theorem Part.union_empty (p : Part) : p.union .empty = p := by
  funext x
  simp [Part.union, Part.empty]
theorem Part.empty_union (p : Part) : Part.empty.union p = p := by
  funext x
  simp [Part.union, Part.empty]
theorem Part.disj_union {p q r : Part} : (p.union q).Disj r ↔ p.Disj r ∧ q.Disj r := by
  unfold Part.Disj Part.union
  constructor
  · intro h
    refine ⟨fun x => ?_, fun x => ?_⟩ <;> rcases h x with e | e
    · cases hp : p x <;> simp_all
    · exact .inr e
    · cases hp : p x <;> simp_all
    · exact .inr e
  · rintro ⟨h1, h2⟩ x
    rcases h1 x with e | e
    · rcases h2 x with e' | e'
      · left; simp [e, e']
      · exact .inr e'
    · exact .inr e
theorem Part.disj_union' {p q r : Part} : r.Disj (p.union q) ↔ r.Disj p ∧ r.Disj q :=
  ⟨fun h => ⟨(disj_union.1 h.symm).1.symm, (disj_union.1 h.symm).2.symm⟩, fun h => (disj_union.2 ⟨h.1.symm, h.2.symm⟩).symm⟩
theorem Part.union_some {p q : Part} {x : Addr} {c : Cell} : p.union q x = some c ↔ p x = some c ∨ p x = none ∧ q x = some c := by
  unfold Part.union
  cases p x <;> simp
theorem Part.In.union {p q : Part} {h : Heap} (hp : p.In h) (hq : q.In h) : (p.union q).In h := by
  intro x c e
  rcases union_some.1 e with e | ⟨_, e⟩
  · exact hp x c e
  · exact hq x c e
theorem Part.In.left {p q : Part} {h : Heap} (hu : (p.union q).In h) : p.In h := fun x c e => hu x c (union_some.2 (.inl e))
theorem Part.In.right {p q : Part} {h : Heap} (hu : (p.union q).In h) (hd : p.Disj q) : q.In h := by
  intro x c e
  rcases hd x with e' | e'
  · exact hu x c (union_some.2 (.inr ⟨e', e⟩))
  · rw [e'] at e; cases e
theorem Part.In.lt {p : Part} {h : Heap} (hp : p.In h) {x : Addr} (hx : p.dom x) : x < h.cells.length := by
  unfold Part.dom at hx
  cases e : p x with
  | none => exact absurd e hx
  | some c =>
    have := hp x c e
    by_contra hn
    rw [List.getElem?_eq_none (by omega)] at this
    cases this
theorem Part.Sub.In {p q : Part} {h : Heap} (hs : p.Sub q) (hq : q.In h) : p.In h := fun x c e => hq x c (hs x c e)
theorem Part.Sub.refl (p : Part) : p.Sub p := fun _ _ e => e
theorem Part.Sub.trans {p q r : Part} (h1 : p.Sub q) (h2 : q.Sub r) : p.Sub r := fun x c e => h2 x c (h1 x c e)
theorem Part.Sub.left {p q r : Part} (h : (p.union q).Sub r) : p.Sub r := fun x c e => h x c (union_some.2 (.inl e))
theorem Part.Sub.right {p q r : Part} (h : (p.union q).Sub r) (hd : p.Disj q) : q.Sub r := by
  intro x c e
  rcases hd x with e' | e'
  · exact h x c (union_some.2 (.inr ⟨e', e⟩))
  · rw [e'] at e; cases e

/-! ## Assertions -/

def emp : Assn := fun p => p = .empty
def sep (P Q : Assn) : Assn := fun p => ∃ p1 p2, P p1 ∧ Q p2 ∧ p1.Disj p2 ∧ p = p1.union p2
infixr:67 " ∗ " => sep
def pto (a : Addr) (c : Cell) : Assn := fun p => p = fun x => if x = a then some c else none
infix:70 " ↦ " => pto
def lift (φ : Prop) : Assn := fun p => φ ∧ p = .empty
def ex {α : Type} (P : α → Assn) : Assn := fun p => ∃ x, P x p
def Entails (P Q : Assn) : Prop := ∀ p, P p → Q p
infix:50 " ⊢ₛ " => Entails

theorem sep_comm (P Q : Assn) : P ∗ Q = Q ∗ P := by
  funext p
  refine propext ⟨?_, ?_⟩ <;>
  · rintro ⟨p1, p2, h1, h2, hd, rfl⟩
    exact ⟨p2, p1, h2, h1, hd.symm, Part.union_comm hd⟩
theorem sep_assoc (P Q R : Assn) : (P ∗ Q) ∗ R = P ∗ (Q ∗ R) := by
  funext p
  refine propext ⟨?_, ?_⟩
  · rintro ⟨_, p3, ⟨p1, p2, h1, h2, hd, rfl⟩, h3, hd', rfl⟩
    obtain ⟨h13, h23⟩ := Part.disj_union.1 hd'
    exact ⟨p1, p2.union p3, h1, ⟨p2, p3, h2, h3, h23, rfl⟩, Part.disj_union'.2 ⟨hd, h13⟩, Part.union_assoc ..⟩
  · rintro ⟨p1, _, h1, ⟨p2, p3, h2, h3, hd, rfl⟩, hd', rfl⟩
    obtain ⟨h12, h13⟩ := Part.disj_union'.1 hd'
    exact ⟨p1.union p2, p3, ⟨p1, p2, h1, h2, h12, rfl⟩, h3, Part.disj_union.2 ⟨h13, hd⟩, (Part.union_assoc ..).symm⟩
theorem sep_left_comm (P Q R : Assn) : P ∗ (Q ∗ R) = Q ∗ (P ∗ R) := by
  rw [← sep_assoc, sep_comm P Q, sep_assoc]
theorem emp_sep (P : Assn) : emp ∗ P = P := by
  funext p
  refine propext ⟨?_, fun h => ⟨.empty, p, rfl, h, fun _ => .inl rfl, (Part.empty_union p).symm⟩⟩
  rintro ⟨p1, p2, rfl, h2, _, rfl⟩
  rwa [Part.empty_union]
theorem sep_emp (P : Assn) : P ∗ emp = P := by rw [sep_comm, emp_sep]
theorem lift_sep {φ : Prop} {P : Assn} {p : Part} : (lift φ ∗ P) p ↔ φ ∧ P p := by
  constructor
  · rintro ⟨p1, p2, ⟨hφ, rfl⟩, h2, _, rfl⟩
    rw [Part.empty_union]
    exact ⟨hφ, h2⟩
  · rintro ⟨hφ, h⟩
    exact ⟨.empty, p, ⟨hφ, rfl⟩, h, fun _ => .inl rfl, (Part.empty_union p).symm⟩
theorem ex_sep {α : Type} (P : α → Assn) (Q : Assn) : ex P ∗ Q = ex (fun x => P x ∗ Q) := by
  funext p
  refine propext ⟨?_, ?_⟩
  · rintro ⟨p1, p2, ⟨x, h1⟩, h2, hd, rfl⟩
    exact ⟨x, p1, p2, h1, h2, hd, rfl⟩
  · rintro ⟨x, p1, p2, h1, h2, hd, rfl⟩
    exact ⟨p1, p2, ⟨x, h1⟩, h2, hd, rfl⟩
theorem sep_mono {P P' Q Q' : Assn} (h1 : P ⊢ₛ P') (h2 : Q ⊢ₛ Q') : P ∗ Q ⊢ₛ P' ∗ Q' := by
  rintro p ⟨p1, p2, a, b, hd, rfl⟩
  exact ⟨p1, p2, h1 _ a, h2 _ b, hd, rfl⟩
instance : Std.Associative sep := ⟨sep_assoc⟩
instance : Std.Commutative sep := ⟨sep_comm⟩

/-! ## Triples -/

/-- from `h` to `h'` only new objects and objects in `F` were written. -/
structure Frame (F : Addr → Prop) (h h' : Heap) : Prop where
  len : h.cells.length ≤ h'.cells.length
  keep : ∀ x, x < h.cells.length → ¬F x → h'.cells[x]? = h.cells[x]?
  log : ∃ w, h'.written = w ++ h.written ∧ ∀ x ∈ w, F x ∨ h.cells.length ≤ x

theorem Frame.refl (F : Addr → Prop) (h : Heap) : Frame F h h := ⟨le_refl _, fun _ _ _ => rfl, [], rfl, by simp⟩
theorem Frame.trans {F F' : Addr → Prop} {h h' h'' : Heap} (h1 : Frame F h h') (h2 : Frame F' h' h'')
    (hF : ∀ x, F' x → F x ∨ h.cells.length ≤ x) : Frame F h h'' := by
  obtain ⟨w1, e1, l1⟩ := h1.log
  obtain ⟨w2, e2, l2⟩ := h2.log
  have hl := h1.len
  refine ⟨le_trans h1.len h2.len, fun x hx hn => ?_, w2 ++ w1, by rw [e2, e1, List.append_assoc], fun x hx => ?_⟩
  · rw [h2.keep x (by omega) (fun hc => (hF x hc).elim hn (by omega)), h1.keep x hx hn]
  · rcases List.mem_append.1 hx with hx | hx
    · rcases l2 x hx with h | h
      · exact hF x h
      · right; omega
    · exact l1 x hx
theorem Frame.mono {F F' : Addr → Prop} {h h' : Heap} (h1 : Frame F h h') (hF : ∀ x, F x → F' x ∨ h.cells.length ≤ x) : Frame F' h h' :=
  (Frame.refl F' h).trans h1 hF
theorem Part.In.frame {q : Part} {F : Addr → Prop} {h h' : Heap} (hq : q.In h) (hf : Frame F h h') (hd : ∀ x, q.dom x → ¬F x) : q.In h' := by
  intro x c e
  rw [hf.keep x (hq.lt (by simp [Part.dom, e])) (hd x (by simp [Part.dom, e]))]
  exact hq x c e

/-- `m`, started in a memory with a part `P` that it owns and the part `q` that it may read, ends in a memory with `Q`, has written only to what
it owned and to new objects; what it owns then it owned before, or it is new. -/
def Triple {α : Type} (q : Part) (P : Assn) (m : Cmd α) (Q : α → Assn) : Prop :=
  ∀ (h : Heap) (p : Part), P p → p.Disj q → p.In h → q.In h →
    ∃ r h' p', m h = some (r, h') ∧ Q r p' ∧ p'.In h' ∧ Frame p.dom h h' ∧ ∀ x, p'.dom x → p.dom x ∨ h.cells.length ≤ x

theorem disj_of_new {p p' q : Part} {h : Heap} (hq : q.In h) (hd : p.Disj q) (hp : ∀ x, p'.dom x → p.dom x ∨ h.cells.length ≤ x) : p'.Disj q := by
  intro x
  by_contra hc
  rw [not_or] at hc
  rcases hp x hc.1 with h1 | h1
  · exact (hd x).elim h1 hc.2
  · exact absurd (hq.lt hc.2) (by omega)

theorem Triple.conseq {α : Type} {q : Part} {P P' : Assn} {m : Cmd α} {Q Q' : α → Assn} (ht : Triple q P m Q) (hP : P' ⊢ₛ P)
    (hQ : ∀ r, Q r ⊢ₛ Q' r) : Triple q P' m Q' := by
  intro h p hp hd hi hq
  obtain ⟨r, h', p', e, hQr, hi', hf, hn⟩ := ht h p (hP p hp) hd hi hq
  exact ⟨r, h', p', e, hQ r p' hQr, hi', hf, hn⟩

theorem Triple.bind {α β : Type} {q : Part} {P : Assn} {m : Cmd α} {Q : α → Assn} {f : α → Cmd β} {R : β → Assn} (hm : Triple q P m Q)
    (hf : ∀ r, Triple q (Q r) (f r) R) : Triple q P (m >>= f) R := by
  intro h p hp hd hi hq
  obtain ⟨r, h', p', e, hQr, hi', hfr, hn⟩ := hm h p hp hd hi hq
  have hq' : q.In h' := hq.frame hfr (fun x hx hc => (hd x).elim hc hx)
  obtain ⟨r2, h2, p2, e2, hR, hi2, hf2, hn2⟩ := hf r h' p' hQr (disj_of_new hq hd hn) hi' hq'
  refine ⟨r2, h2, p2, ?_, hR, hi2, hfr.trans hf2 hn, fun x hx => ?_⟩
  · show (m h).bind _ = _
    rw [e]
    exact e2
  · rcases hn2 x hx with h1 | h1
    · exact hn x h1
    · right; have := hfr.len; omega

theorem Triple.pure {α : Type} {q : Part} {Q : α → Assn} (r : α) : Triple q (Q r) (pure r : Cmd α) Q :=
  fun h p hp _ hi _ => ⟨r, h, p, rfl, hp, hi, .refl _ _, fun _ hx => .inl hx⟩

theorem Triple.frame {α : Type} {q : Part} {P : Assn} {m : Cmd α} {Q : α → Assn} (ht : Triple q P m Q) (G : Assn) :
    Triple q (P ∗ G) m (fun r => Q r ∗ G) := by
  rintro h _ ⟨p, g, hp, hg, hdg, rfl⟩ hd hi hq
  obtain ⟨hd1, hd2⟩ := Part.disj_union.1 hd
  obtain ⟨r, h', p', e, hQr, hi', hf, hn⟩ := ht h p hp hd1 hi.left hq
  have hgi := hi.right hdg
  have hdg' : p'.Disj g := disj_of_new hgi hdg hn
  refine ⟨r, h', p'.union g, e, ⟨p', g, hQr, hg, hdg', rfl⟩, hi'.union (hgi.frame hf (fun x hx hc => (hdg x).elim hc hx)),
    hf.mono (fun x hx => .inl ?_), fun x hx => ?_⟩
  · unfold Part.dom Part.union at *
    cases hpx : p x <;> simp_all
  · unfold Part.dom Part.union at *
    by_cases hpx : p' x = none
    · left
      cases hq1 : p x <;> simp_all
    · rcases hn x hpx with h1 | h1
      · left
        cases hq1 : p x <;> simp_all
      · exact .inr h1

theorem Triple.frame' {α : Type} {q : Part} {P P' : Assn} {m : Cmd α} {Q Q' : α → Assn} (ht : Triple q P m Q) (G : Assn) (hP : P' ⊢ₛ P ∗ G)
    (hQ : ∀ r, Q r ∗ G ⊢ₛ Q' r) : Triple q P' m Q' := (ht.frame G).conseq hP hQ

/-- what is owned can be lent. -/
theorem Triple.lend {α : Type} {q : Part} (q0 : Part) {P : Assn} {m : Cmd α} {Q : α → Assn} (hqq : q0.Disj q → Triple (q0.union q) P m Q) :
    Triple q ((fun p => p = q0) ∗ P) m (fun r => (fun p => p = q0) ∗ Q r) := by
  rintro h _ ⟨q1, p, hq1, hp, hdp, rfl⟩ hd hi hq
  cases hq1
  obtain ⟨hd1, hd2⟩ := Part.disj_union.1 hd
  have hp' := hi.right hdp
  obtain ⟨r, h', p', e, hQr, hi', hf, hn⟩ := hqq hd1 h p hp (Part.disj_union'.2 ⟨hdp.symm, hd2⟩) hp' (hi.left.union hq)
  refine ⟨r, h', _, e, ⟨_, p', rfl, hQr, (disj_of_new hi.left hdp.symm hn).symm, rfl⟩,
    (hi.left.frame hf (fun x hx hc => (hdp x).elim hx hc)).union hi', hf.mono (fun x hx => .inl ?_), fun x hx => ?_⟩
  · unfold Part.dom Part.union at *
    cases h0 : q0 x <;> simp_all
  · unfold Part.dom Part.union at *
    by_cases h0 : q0 x = none
    · rw [h0] at hx
      rcases hn x (by simpa using hx) with h1 | h1
      · left; simp_all
      · exact .inr h1
    · left
      cases h1 : q0 x <;> simp_all

theorem Triple.ex {α β : Type} {q : Part} {P : β → Assn} {m : Cmd α} {Q : α → Assn} (ht : ∀ x, Triple q (P x) m Q) : Triple q (ex P) m Q := by
  rintro h p ⟨x, hp⟩
  exact ht x h p hp

theorem Triple.lift {α : Type} {q : Part} {φ : Prop} {P : Assn} {m : Cmd α} {Q : α → Assn} (ht : φ → Triple q P m Q) :
    Triple q (lift φ ∗ P) m Q := by
  intro h p hp
  obtain ⟨hφ, hp⟩ := lift_sep.1 hp
  exact ht hφ h p hp

/-! ## The primitives -/

theorem pto_in {a : Addr} {c : Cell} {p : Part} {h : Heap} (hp : (a ↦ c) p) (hi : p.In h) : h.cells[a]? = some c := by
  apply hi
  rw [hp]
  simp

theorem Triple.alloc {q : Part} (c : Cell) : Triple q emp (alloc c) (fun a => a ↦ c) := by
  rintro h p rfl _ _ hq
  refine ⟨_, _, fun x => if x = h.cells.length then some c else none, rfl, rfl, ?_, ⟨by simp, fun x hx _ => ?_, [], rfl, by simp⟩, ?_⟩
  · intro x c' e
    dsimp only at e
    split at e
    · rename_i hx
      cases e
      simp [hx]
    · cases e
  · simp [List.getElem?_append_left hx]
  · intro x hx
    unfold Part.dom at hx
    dsimp only at hx
    split at hx
    · rename_i e; right; exact le_of_eq e.symm
    · exact absurd rfl hx

theorem Triple.load {q : Part} {a : Addr} {c : Cell} : Triple q (a ↦ c) (load a) (fun r => Mem.lift (r = c) ∗ a ↦ c) := by
  intro h p hp _ hi _
  refine ⟨c, h, p, ?_, lift_sep.2 ⟨rfl, hp⟩, hi, .refl _ _, fun _ hx => .inl hx⟩
  simp [Mem.load, pto_in hp hi]

theorem Triple.read {q : Part} {a : Addr} {c : Cell} (hq : q a = some c) : Triple q emp (Mem.load a) (fun r => Mem.lift (r = c)) := by
  intro h p hp _ hi hqi
  refine ⟨c, h, p, ?_, ⟨rfl, hp⟩, hi, .refl _ _, fun _ hx => .inl hx⟩
  simp [Mem.load, hqi a c hq]

theorem Triple.store {q : Part} {a : Addr} {c c' : Cell} : Triple q (a ↦ c) (store a c') (fun _ => a ↦ c') := by
  intro h p hp _ hi _
  have hlt : a < h.cells.length := hi.lt (by rw [hp]; simp [Part.dom])
  refine ⟨(), ⟨h.cells.set a c', a :: h.written⟩, fun x => if x = a then some c' else none, by simp only [Mem.store, hlt, if_true], rfl, ?_,
    ⟨by simp, fun x hx hn => ?_, [a], rfl, ?_⟩, ?_⟩
  · intro x c'' e
    dsimp only at e
    split at e
    · rename_i hx
      cases e
      simp [hx, hlt]
    · cases e
  · have hne : a ≠ x := by
      rintro rfl
      apply hn
      rw [hp]
      simp [Part.dom]
    simp [List.getElem?_set_ne hne]
  · intro x hx
    left
    rw [List.mem_singleton] at hx
    rw [hp, hx]
    simp [Part.dom]
  · intro x hx
    left
    unfold Part.dom at hx ⊢
    dsimp only at hx
    rw [hp]
    split at hx
    · rename_i hx'
      simp [hx']
    · exact absurd rfl hx

end Mem
