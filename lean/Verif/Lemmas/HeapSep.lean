import Verif.Lemmas.HeapOps
/-! Reading, reachability and separation. -/
namespace Mem
open Spec.Memory

/-! ## Parts without pointers out of them -/

def Closed (p : Part) : Prop := ∀ x c, p x = some c → ∀ b ∈ pointers c, p.dom b

theorem dom_union {p q : Part} {x : Addr} : (p.union q).dom x ↔ p.dom x ∨ q.dom x := by
  unfold Part.dom Part.union
  cases p x <;> simp
theorem dom_of_some {p : Part} {x : Addr} {c : Cell} (h : p x = some c) : p.dom x := by
  unfold Part.dom
  rw [h]
  simp
theorem Closed.union {p q : Part} (hp : Closed p) (hq : Closed q) : Closed (p.union q) := by
  intro x c e b hb
  rcases Part.union_some.1 e with e | ⟨_, e⟩
  · exact dom_union.2 (.inl (hp x c e b hb))
  · exact dom_union.2 (.inr (hq x c e b hb))
theorem Closed.reach {p : Part} {h : Heap} (hc : Closed p) (hi : p.In h) {a x : Addr} (ha : p.dom a) (hr : Reach h a x) : p.dom x := by
  induction hr with
  | here => exact ha
  | step _ e hb ih =>
    unfold Part.dom at ih
    obtain ⟨c, hc'⟩ := Option.ne_none_iff_exists'.1 ih
    have := hi _ _ hc'
    rw [e] at this
    cases this
    exact hc _ _ hc' _ hb

theorem pto_dom {a : Addr} {c : Cell} {p : Part} (hp : (a ↦ c) p) {x : Addr} : p.dom x ↔ x = a := by
  rw [hp]
  unfold Part.dom
  by_cases h : x = a <;> simp [h]
/-- one object whose pointers are all in `q`. -/
theorem pto_closed {a : Addr} {c : Cell} {p q : Part} (hp : (a ↦ c) p) (hq : Closed q) (hc : ∀ b ∈ pointers c, q.dom b ∨ b = a) : Closed (p.union q) := by
  intro x c' e b hb
  rcases Part.union_some.1 e with e | ⟨_, e⟩
  · have hx := (pto_dom hp).1 (dom_of_some e)
    subst hx
    rw [hp] at e
    simp only [if_true, Option.some.injEq] at e
    subst e
    rcases hc b hb with h | rfl
    · exact dom_union.2 (.inr h)
    · exact dom_union.2 (.inl ((pto_dom hp).2 rfl))
  · exact dom_union.2 (.inr (hq x c' e b hb))

/-- an assertion about an object and everything that it points to. -/
def Whole {V : Type} (P : Addr → V → Assn) : Prop := ∀ a v p, P a v p → Closed p ∧ p.dom a

theorem leaf_whole {V : Type} (f : V → Cell) (hf : ∀ v, pointers (f v) = []) : Whole (fun a v => a ↦ f v) := by
  intro a v p hp
  refine ⟨?_, (pto_dom hp).2 rfl⟩
  have h := pto_closed (q := .empty) hp (fun _ _ e => by cases e) (by rw [hf]; simp)
  rwa [Part.union_empty] at h
theorem timerR_whole : Whole timerR := leaf_whole _ (fun _ => rfl)
theorem errsR_whole : Whole errsR := leaf_whole _ (fun _ => rfl)

theorem refsR_whole {V : Type} {P : Addr → V → Assn} (hP : Whole P) {m : GoMap Str Addr} {vs : GoMap Str V} {p : Part} (h : refsR P m vs p) :
    Closed p ∧ ∀ x ∈ m, p.dom x.2 := by
  induction m generalizing vs p with
  | nil =>
    cases vs with
    | nil =>
      unfold refsR at h
      cases h
      exact ⟨(fun x c e => by cases e), (by simp)⟩
    | cons a t => exact absurd h (by unfold refsR; simp)
  | cons x m ih =>
    obtain ⟨k0, a⟩ := x
    cases vs with
    | nil => exact absurd h (by unfold refsR; simp)
    | cons y vs =>
      obtain ⟨k', v⟩ := y
      rw [refsR, lift_sep] at h
      obtain ⟨rfl, p1, p2, h1, h2, hd, rfl⟩ := h
      obtain ⟨hc1, hd1⟩ := hP _ _ _ h1
      obtain ⟨hc2, hd2⟩ := ih h2
      refine ⟨hc1.union hc2, fun x hx => ?_⟩
      rcases List.mem_cons.1 hx with rfl | hx
      · exact dom_union.2 (.inl hd1)
      · exact dom_union.2 (.inr (hd2 x hx))

theorem ptrMapR_whole {V : Type} {P : Addr → V → Assn} (hP : Whole P) : Whole (ptrMapR P) := by
  rintro a vs p ⟨m, p1, p2, h1, h2, hd, rfl⟩
  obtain ⟨hc, hm⟩ := refsR_whole hP h2
  refine ⟨pto_closed h1 hc (fun b hb => .inl ?_), dom_union.2 (.inl ((pto_dom h1).2 rfl))⟩
  obtain ⟨x, hx, rfl⟩ := List.mem_map.1 hb
  exact hm x hx

theorem mapsR_whole {ms : Maps} {am : AggMaps} {p : Part} (h : mapsR ms am p) :
    Closed p ∧ p.dom ms.timers ∧ p.dom ms.gauges ∧ p.dom ms.events ∧ p.dom ms.eventErrs := by
  obtain ⟨p1, _, h1, ⟨p2, _, h2, ⟨p3, p4, h3, h4, hd3, rfl⟩, hd2, rfl⟩, hd1, rfl⟩ := h
  obtain ⟨c1, d1⟩ := ptrMapR_whole timerR_whole _ _ _ h1
  obtain ⟨c4, d4⟩ := ptrMapR_whole errsR_whole _ _ _ h4
  simp only [dom_union, pto_dom h2, pto_dom h3]
  exact ⟨c1.union (pto_closed h2 (pto_closed h3 c4 (by simp [pointers])) (by simp [pointers])), .inl d1, .inr (.inl trivial),
    .inr (.inr (.inl trivial)), .inr (.inr (.inr d4))⟩

theorem jobR_whole : Whole jobR := by
  rintro a j p ⟨ms, p1, p2, h1, h2, hd, rfl⟩
  obtain ⟨hc, d1, d2, d3, d4⟩ := mapsR_whole h2
  refine ⟨pto_closed h1 hc (fun b hb => .inl ?_), dom_union.2 (.inl ((pto_dom h1).2 rfl))⟩
  simp only [pointers, List.mem_cons, List.not_mem_nil, or_false] at hb
  rcases hb with rfl | rfl | rfl | rfl <;> assumption

theorem intR_whole : Whole intR := by
  rintro a v p ⟨⟨jobs, ms⟩, p1, _, h1, ⟨p2, p3, h2, h3, hd2, rfl⟩, hd, rfl⟩
  obtain ⟨hc, d1, d2, d3, d4⟩ := mapsR_whole h3
  obtain ⟨hcj, dj⟩ := ptrMapR_whole jobR_whole _ _ _ h2
  refine ⟨pto_closed h1 (hcj.union hc) (fun b hb => .inl ?_), dom_union.2 (.inl ((pto_dom h1).2 rfl))⟩
  simp only [pointers, List.mem_cons, List.not_mem_nil, or_false] at hb
  rw [dom_union]
  rcases hb with rfl | rfl | rfl | rfl | rfl
  · exact .inl dj
  all_goals right; assumption

/-! ## Reading -/

/-- the whole memory as a part. -/
def Heap.all (h : Heap) : Part := fun x => h.cells[x]?
theorem Heap.all_in (h : Heap) : h.all.In h := fun _ _ e => e

theorem Match.mapM {V : Type} {J : Addr → V → Prop} {read : Addr → Option V} (hJ : ∀ a v, J a v → read a = some v) {m : GoMap Str Addr}
    {vs : GoMap Str V} (h : Match J m vs) : m.mapM (fun p => (read p.2).map fun v => (p.1, v)) = some vs := by
  unfold Match at h
  induction h with
  | nil => rfl
  | @cons x y m vs hx _ ih =>
    obtain ⟨k, a⟩ := x
    obtain ⟨k', v⟩ := y
    obtain ⟨rfl, hx⟩ := hx
    rw [List.mapM_cons, hJ _ _ hx, ih]
    rfl
theorem match_of_mapM {V : Type} {J : Addr → V → Prop} {read : Addr → Option V} (hJ : ∀ a v, read a = some v → J a v) {m : GoMap Str Addr}
    {vs : GoMap Str V} (h : m.mapM (fun p => (read p.2).map fun v => (p.1, v)) = some vs) : Match J m vs := by
  unfold Match
  induction m generalizing vs with
  | nil =>
    cases h
    exact .nil
  | cons x m ih =>
    obtain ⟨k, a⟩ := x
    rw [List.mapM_cons] at h
    cases hr : read a with
    | none => rw [hr] at h; cases h
    | some v =>
      rw [hr] at h
      cases hm : m.mapM (fun p => (read p.2).map fun v => (p.1, v)) with
      | none => rw [hm] at h; cases h
      | some ws =>
        rw [hm] at h
        cases h
        exact .cons ⟨rfl, hJ _ _ hr⟩ (ih hm)

theorem refsIn.read {V : Type} {J : Addr → V → Prop} {read : Addr → Option V} {q : Part} {h : Heap} (hq : q.In h)
    (hJ : ∀ a v, J a v → read a = some v) {a : Addr} {vs : GoMap Str V} (hr : refsIn q J a vs) : readRefs h read a = some vs := by
  obtain ⟨m, e, hm⟩ := hr
  unfold readRefs
  rw [hq _ _ e]
  exact hm.mapM hJ
theorem refsIn_of_read {V : Type} {J : Addr → V → Prop} {read : Addr → Option V} {h : Heap} (hJ : ∀ a v, read a = some v → J a v) {a : Addr}
    {vs : GoMap Str V} (hr : readRefs h read a = some vs) : refsIn h.all J a vs := by
  unfold readRefs at hr
  split at hr
  · rename_i m e
    exact ⟨m, e, match_of_mapM hJ hr⟩
  · cases hr

theorem mapsIn.read {q : Part} {h : Heap} (hq : q.In h) {ms : Maps} {am : AggMaps} (hm : mapsIn q ms am) : readMaps h ms = some am := by
  obtain ⟨h1, h2, h3, h4⟩ := hm
  have e1 := h1.read (read := readTimer h) hq (fun a v hv => by unfold readTimer; rw [hq _ _ hv])
  have e4 := h4.read (read := readErrs h) hq (fun a v hv => by unfold readErrs; rw [hq _ _ hv])
  unfold readMaps readFloats readInts
  rw [e1, e4, hq _ _ h2, hq _ _ h3]
  rfl
theorem mapsIn_of_read {h : Heap} {ms : Maps} {am : AggMaps} (hm : readMaps h ms = some am) : mapsIn h.all ms am := by
  unfold readMaps at hm
  cases h1 : readRefs h (readTimer h) ms.timers with
  | none => rw [h1] at hm; cases hm
  | some a1 =>
    cases h2 : readFloats h ms.gauges with
    | none => rw [h1, h2] at hm; cases hm
    | some a2 =>
      cases h3 : readInts h ms.events with
      | none => rw [h1, h2, h3] at hm; cases hm
      | some a3 =>
        cases h4 : readRefs h (readErrs h) ms.eventErrs with
        | none => rw [h1, h2, h3, h4] at hm; cases hm
        | some a4 =>
          rw [h1, h2, h3, h4] at hm
          cases hm
          refine ⟨refsIn_of_read ?_ h1, ?_, ?_, refsIn_of_read ?_ h4⟩
          · intro a v hv
            unfold readTimer at hv
            split at hv
            · rename_i e; cases hv; exact e
            · cases hv
          · unfold readFloats at h2
            split at h2
            · rename_i e; cases h2; exact e
            · cases h2
          · unfold readInts at h3
            split at h3
            · rename_i e; cases h3; exact e
            · cases h3
          · intro a v hv
            unfold readErrs at hv
            split at hv
            · rename_i e; cases hv; exact e
            · cases hv

theorem jobIn.read {q : Part} {h : Heap} (hq : q.In h) {a : Addr} {j : JobAgg} (hj : jobIn q a j) : readJob h a = some j := by
  obtain ⟨ms, e, hm⟩ := hj
  unfold readJob
  rw [hq _ _ e]
  dsimp only
  rw [hm.read hq]
  rfl
theorem jobIn_of_read {h : Heap} {a : Addr} {j : JobAgg} (hj : readJob h a = some j) : jobIn h.all a j := by
  unfold readJob at hj
  split at hj
  · rename_i ms t c e
    cases hm : readMaps h ms with
    | none => rw [hm] at hj; cases hj
    | some am =>
      rw [hm] at hj
      cases hj
      exact ⟨ms, e, mapsIn_of_read hm⟩
  · cases hj
theorem intIn.read {q : Part} {h : Heap} (hq : q.In h) {a : Addr} {v : IntAgg} (hv : intIn q a v) : readInt h a = some v := by
  obtain ⟨jobs, ms, e, hj, hm⟩ := hv
  unfold readInt
  rw [hq _ _ e]
  dsimp only
  rw [hm.read hq, hj.read hq (fun _ _ h => h.read hq)]
  rfl
theorem intIn_of_read {h : Heap} {a : Addr} {v : IntAgg} (hv : readInt h a = some v) : intIn h.all a v := by
  unfold readInt at hv
  split at hv
  · rename_i s n jobs ms e
    cases hj : readRefs h (readJob h) jobs with
    | none => rw [hj] at hv; cases hv
    | some js =>
      cases hm : readMaps h ms with
      | none => rw [hj, hm] at hv; cases hv
      | some am =>
        rw [hj, hm] at hv
        cases hv
        exact ⟨jobs, ms, e, refsIn_of_read (J := jobIn h.all) (fun _ _ h' => jobIn_of_read h') hj, mapsIn_of_read hm⟩
  · cases hv

/-! what is read depends only on a part without pointers out of it. -/
section Restrict
variable {q q' : Part} {S : Addr → Prop} (hS : ∀ x c, S x → q x = some c → ∀ y ∈ pointers c, S y) (he : ∀ x c, S x → q x = some c → q' x = some c)
include hS he

theorem refsIn.restrict {V : Type} {J J' : Addr → V → Prop} {a : Addr} {vs : GoMap Str V} (h : refsIn q J a vs) (ha : S a)
    (hJ : ∀ b v, S b → J b v → J' b v) : refsIn q' J' a vs := by
  obtain ⟨m, e, hm⟩ := h
  refine ⟨m, he _ _ ha e, ?_⟩
  have hb : ∀ p ∈ m, S p.2 := fun p hp => hS _ _ ha e _ (List.mem_map.2 ⟨p, hp, rfl⟩)
  clear e
  unfold Match at *
  induction hm with
  | nil => exact .nil
  | cons hx _ ih => exact .cons ⟨hx.1, hJ _ _ (hb _ (by simp)) hx.2⟩ (ih (fun p hp => hb p (by simp [hp])))
theorem mapsIn.restrict {ms : Maps} {am : AggMaps} (h : mapsIn q ms am) (h1 : S ms.timers) (h2 : S ms.gauges) (h3 : S ms.events) (h4 : S ms.eventErrs) :
    mapsIn q' ms am :=
  ⟨h.timers.restrict hS he h1 (fun b _ hb => he b _ hb), he _ _ h2 h.gauges, he _ _ h3 h.events, h.eventErrs.restrict hS he h4 (fun b _ hb => he b _ hb)⟩
theorem jobIn.restrict {a : Addr} {j : JobAgg} (h : jobIn q a j) (ha : S a) : jobIn q' a j := by
  obtain ⟨ms, e, hm⟩ := h
  have hp := hS _ _ ha e
  exact ⟨ms, he _ _ ha e, hm.restrict hS he (hp _ (by simp [pointers])) (hp _ (by simp [pointers])) (hp _ (by simp [pointers])) (hp _ (by simp [pointers]))⟩
theorem intIn.restrict {a : Addr} {v : IntAgg} (h : intIn q a v) (ha : S a) : intIn q' a v := by
  obtain ⟨jobs, ms, e, hj, hm⟩ := h
  have hp := hS _ _ ha e
  exact ⟨jobs, ms, he _ _ ha e, hj.restrict hS he (hp _ (by simp [pointers])) (fun b v hb hv => hv.restrict hS he hb),
    hm.restrict hS he (hp _ (by simp [pointers])) (hp _ (by simp [pointers])) (hp _ (by simp [pointers])) (hp _ (by simp [pointers]))⟩
end Restrict

/-! ## What any code can do -/

/-- from `T` no pointer leads out of `T`. -/
def ClosedSet (h : Heap) (T : Addr → Prop) : Prop := ∀ x c, T x → h.cells[x]? = some c → ∀ b ∈ pointers c, T b

theorem Closed.set {p : Part} {h : Heap} (hc : Closed p) (hi : p.In h) : ClosedSet h p.dom := by
  intro x c hx e b hb
  obtain ⟨c', hc'⟩ := Option.ne_none_iff_exists'.1 hx
  have := hi _ _ hc'
  rw [e] at this
  cases this
  exact hc _ _ hc' _ hb

/-- Code that can only get at `T` writes only to `T` and to what it makes itself. -/
theorem _root_.Spec.Memory.Client.frame {h h' : Heap} {K K' T : Addr → Prop} (hc : Client h K h' K') (hK : ∀ x, K x → T x) (hT : ClosedSet h T) :
    Frame T h h' ∧ (∀ x, K' x → T x ∨ (h.cells.length ≤ x ∧ x < h'.cells.length)) ∧
      ClosedSet h' (fun x => T x ∨ (h.cells.length ≤ x ∧ x < h'.cells.length)) := by
  induction hc with
  | done =>
    refine ⟨.refl _ _, fun x hx => .inl (hK x hx), fun x c hx e b hb => ?_⟩
    rcases hx with hx | hx
    · exact .inl (hT x c hx e b hb)
    · omega
  | @follow h' K K' a b c _ ha e hb ih =>
    obtain ⟨h1, h2, h3⟩ := ih hK
    refine ⟨h1, fun x hx => ?_, h3⟩
    rcases hx with hx | rfl
    · exact h2 x hx
    · exact h3 a c (h2 a ha) e _ hb
  | @make h' h'' K K' c n _ hp e ih =>
    obtain ⟨h1, h2, h3⟩ := ih hK
    unfold alloc at e
    simp only [Option.some.injEq, Prod.mk.injEq] at e
    obtain ⟨rfl, rfl⟩ := e
    have hl := h1.len
    have h2' : ∀ x, (T x ∨ (h.cells.length ≤ x ∧ x < h'.cells.length)) → T x ∨ (h.cells.length ≤ x ∧ x < (h'.cells ++ [c]).length) := by
      intro x hx
      rcases hx with hx | hx
      · exact .inl hx
      · right
        simp only [List.length_append, List.length_singleton]
        omega
    refine ⟨h1.trans (F' := T) ⟨by simp, fun x hx _ => by simp [List.getElem?_append_left hx], [], rfl, by simp⟩ (fun x hx => .inl hx),
      fun x hx => ?_, fun x c' hx e b hb => ?_⟩
    · rcases hx with hx | rfl
      · exact h2' x (h2 x hx)
      · right
        simp only [List.length_append, List.length_singleton]
        omega
    · by_cases hlt : x < h'.cells.length
      · rw [List.getElem?_append_left hlt] at e
        exact h2' b (h3 x c' (hx.imp id (fun h => ⟨h.1, hlt⟩)) e b hb)
      · rw [List.getElem?_append_right (by omega)] at e
        obtain ⟨hlt', e⟩ := List.getElem?_eq_some_iff.1 e
        rw [List.getElem_singleton] at e
        subst e
        exact h2' b (h2 b (hp b hb))
  | @overwrite h' h'' K K' a c _ ha hp e ih =>
    obtain ⟨h1, h2, h3⟩ := ih hK
    unfold store at e
    split at e
    · rename_i hlt
      simp only [Option.some.injEq, Prod.mk.injEq, true_and] at e
      subst e
      simp only [List.length_set]
      refine ⟨h1.trans (F' := fun x => x = a) ⟨by simp, fun x hx hn => ?_, [a], rfl, by simp⟩ (fun x hx => hx ▸ (h2 a ha).imp id (·.1)), h2, fun x c' hx e b hb => ?_⟩
      · simp only
        rw [List.getElem?_set_ne (fun e => hn e.symm)]
      · simp only at e
        by_cases hxa : a = x
        · subst hxa
          rw [List.getElem?_set_self hlt, Option.some.injEq] at e
          subst e
          exact h2 b (hp b hb)
        · rw [List.getElem?_set_ne hxa] at e
          exact h3 x c' hx e b hb
    · cases e

theorem nodup_append_disjoint {l l' : List Addr} : (l ++ l').Nodup ↔ l.Nodup ∧ l'.Nodup ∧ l.Disjoint l' := by
  rw [List.nodup_append]
  exact ⟨fun h => ⟨h.1, h.2.1, fun x h1 h2 => h.2.2 x h1 x h2 rfl⟩, fun h => ⟨h.1, h.2.1, fun x h1 y h2 e => h.2.2 h1 (e ▸ h2)⟩⟩

/-- what is outside was not written. -/
theorem Frame.untouched {F : Addr → Prop} {h h' : Heap} (hf : Frame F h h') {x : Addr} (hx : x < h.cells.length) (hn : ¬F x) :
    h'.cells[x]? = h.cells[x]? ∧ ¬WrittenSince h h' x := by
  refine ⟨hf.keep x hx hn, fun hw => ?_⟩
  obtain ⟨w, e, hl⟩ := hf.log
  unfold WrittenSince at hw
  rw [e] at hw
  simp only [List.length_append, Nat.add_sub_cancel, List.take_left'] at hw
  rcases hl x hw with h1 | h1
  · exact hn h1
  · omega

/-- everything that can be reached from `K`. -/
def From (h : Heap) (K : Addr → Prop) (x : Addr) : Prop := ∃ k, K k ∧ Reach h k x
theorem from_closed (h : Heap) (K : Addr → Prop) : ClosedSet h (From h K) := fun x c ⟨k, hk, hr⟩ e b hb => ⟨k, hk, hr.step e hb⟩
theorem from_self {h : Heap} {K : Addr → Prop} {x : Addr} (hx : K x) : From h K x := ⟨x, hx, .here⟩
theorem closedSet_reach {h : Heap} {T : Addr → Prop} (hT : ClosedSet h T) {a x : Addr} (ha : T a) (hr : Reach h a x) : T x := by
  induction hr with
  | here => exact ha
  | step _ e hb ih => exact hT _ _ ih e _ hb

theorem _root_.Spec.Memory.Separate.symm {h : Heap} {K L : Addr → Prop} (hs : Separate h K L) : Separate h L K :=
  ⟨fun l k x hl hk h1 h2 => hs.apart k l x hk hl h2 h1, hs.right, hs.left⟩
theorem _root_.Spec.Memory.Separate.of_closed {h : Heap} {K L S T : Addr → Prop} (hS : ClosedSet h S) (hT : ClosedSet h T) (hd : ∀ x, S x → ¬T x)
    (hSl : ∀ x, S x → x < h.cells.length) (hTl : ∀ x, T x → x < h.cells.length) (hK : ∀ x, K x → S x) (hL : ∀ x, L x → T x) : Separate h K L :=
  ⟨fun k l x hk hl h1 h2 => hd x (closedSet_reach hS (hK k hk) h1) (closedSet_reach hT (hL l hl) h2),
    fun k x hk hr => hSl x (closedSet_reach hS (hK k hk) hr), fun l x hl hr => hTl x (closedSet_reach hT (hL l hl) hr)⟩

/-- one party's step. -/
theorem _root_.Spec.Memory.Separate.client {h h' : Heap} {K K' L : Addr → Prop} (hs : Separate h K L) (hc : Client h K h' K') :
    Separate h' K' L ∧ ∀ l x, L l → Reach h l x → h'.cells[x]? = h.cells[x]? ∧ ¬WrittenSince h h' x := by
  obtain ⟨hf, hk, hcl⟩ := Client.frame hc (T := From h K) (fun x hx => from_self hx) (from_closed h K)
  have hL : ∀ x, From h L x → x < h.cells.length ∧ ¬From h K x := by
    rintro x ⟨l, hl, hr⟩
    exact ⟨hs.right l x hl hr, fun ⟨k, hk, hr'⟩ => hs.apart k l x hk hl hr' hr⟩
  have hLc : ClosedSet h' (From h L) := by
    intro x c hx e b hb
    rw [hf.keep x (hL x hx).1 (hL x hx).2] at e
    exact from_closed h L x c hx e b hb
  refine ⟨?_, fun l x hl hr => hf.untouched (hs.right l x hl hr) (hL x ⟨l, hl, hr⟩).2⟩
  have hl := hf.len
  refine Separate.of_closed hcl hLc (fun x hx hx' => ?_) (fun x hx => ?_) (fun x hx => ?_) hk (fun x hx => from_self hx)
  · rcases hx with hx | hx
    · exact (hL x hx').2 hx
    · have := (hL x hx').1
      omega
  · rcases hx with ⟨k, hk, hr⟩ | hx
    · have := hs.left k x hk hr
      omega
    · exact hx.2
  · have := (hL x hx).1
    omega

theorem _root_.Spec.Memory.Separate.duo {h h' : Heap} {K K' L L' : Addr → Prop} (hs : Separate h K L) (hd : Duo h K L h' K' L') : Separate h' K' L' := by
  induction hd with
  | done => exact hs
  | left _ hc ih => exact ((ih hs).client hc).1
  | right _ hc ih => exact ((ih hs).symm.client hc).1.symm

/-! ## What is read depends only on what can be reached -/

theorem _root_.Spec.Memory.Reach.trans {h : Heap} {a b c : Addr} (h1 : Reach h a b) (h2 : Reach h b c) : Reach h a c := by
  induction h2 with
  | here => exact h1
  | step _ e hb ih => exact ih.step e hb

theorem readTimer_congr {h h' : Heap} {a : Addr} (he : ∀ x, Reach h a x → h'.cells[x]? = h.cells[x]?) : readTimer h' a = readTimer h a := by
  unfold readTimer
  rw [he a .here]
theorem readErrs_congr {h h' : Heap} {a : Addr} (he : ∀ x, Reach h a x → h'.cells[x]? = h.cells[x]?) : readErrs h' a = readErrs h a := by
  unfold readErrs
  rw [he a .here]
theorem readRefs_congr {V : Type} {h h' : Heap} {f g : Addr → Option V} {a : Addr} (he : ∀ x, Reach h a x → h'.cells[x]? = h.cells[x]?)
    (hfg : ∀ b, Reach h a b → g b = f b) : readRefs h' g a = readRefs h f a := by
  unfold readRefs
  rw [he a .here]
  cases hc : h.cells[a]? with
  | none => rfl
  | some c =>
    cases c with
    | refs m =>
      have hm : ∀ x ∈ m, g x.2 = f x.2 := fun x hx => hfg x.2 (Reach.here.step hc (List.mem_map.2 ⟨x, hx, rfl⟩))
      clear hc
      dsimp only
      induction m with
      | nil => rfl
      | cons x t ih =>
        rw [List.mapM_cons, List.mapM_cons, hm x (by simp), ih (fun y hy => hm y (by simp [hy]))]
    | _ => rfl
theorem readMaps_congr {h h' : Heap} {ms : Maps} (h1 : ∀ x, Reach h ms.timers x → h'.cells[x]? = h.cells[x]?)
    (h2 : ∀ x, Reach h ms.gauges x → h'.cells[x]? = h.cells[x]?) (h3 : ∀ x, Reach h ms.events x → h'.cells[x]? = h.cells[x]?)
    (h4 : ∀ x, Reach h ms.eventErrs x → h'.cells[x]? = h.cells[x]?) : readMaps h' ms = readMaps h ms := by
  unfold readMaps
  rw [readRefs_congr (f := readTimer h) h1 (fun b hb => readTimer_congr (fun x hx => h1 x (hb.trans hx))),
    readRefs_congr (f := readErrs h) h4 (fun b hb => readErrs_congr (fun x hx => h4 x (hb.trans hx)))]
  unfold readFloats readInts
  rw [h2 _ .here, h3 _ .here]
theorem readJob_congr {h h' : Heap} {a : Addr} (he : ∀ x, Reach h a x → h'.cells[x]? = h.cells[x]?) : readJob h' a = readJob h a := by
  unfold readJob
  rw [he a .here]
  cases hc : h.cells[a]? with
  | none => rfl
  | some c =>
    have hp : ∀ b ∈ pointers c, ∀ x, Reach h b x → h'.cells[x]? = h.cells[x]? := fun b hb x hx => he x ((Reach.here.step hc hb).trans hx)
    cases c with
    | job ms t c =>
      dsimp only
      rw [readMaps_congr (hp _ (by simp [pointers])) (hp _ (by simp [pointers])) (hp _ (by simp [pointers])) (hp _ (by simp [pointers]))]
    | _ => rfl
theorem readInt_congr {h h' : Heap} {a : Addr} (he : ∀ x, Reach h a x → h'.cells[x]? = h.cells[x]?) : readInt h' a = readInt h a := by
  unfold readInt
  rw [he a .here]
  cases hc : h.cells[a]? with
  | none => rfl
  | some c =>
    have hp : ∀ b ∈ pointers c, ∀ x, Reach h b x → h'.cells[x]? = h.cells[x]? := fun b hb x hx => he x ((Reach.here.step hc hb).trans hx)
    cases c with
    | int s n jobs ms =>
      dsimp only
      rw [readMaps_congr (hp _ (by simp [pointers])) (hp _ (by simp [pointers])) (hp _ (by simp [pointers])) (hp _ (by simp [pointers])),
        readRefs_congr (hp jobs (by simp [pointers])) (fun b hb => readJob_congr (fun x hx => hp jobs (by simp [pointers]) x (hb.trans hx)))]
    | _ => rfl
theorem readSlice_congr {h h' : Heap} {a : Addr} (he : ∀ x, Reach h a x → h'.cells[x]? = h.cells[x]?) : readSlice h' a = readSlice h a := by
  unfold readSlice
  rw [he a .here]
  cases hc : h.cells[a]? with
  | none => rfl
  | some c =>
    cases c with
    | array l =>
      have hm : ∀ x ∈ l, readInt h' x = readInt h x := fun x hx => readInt_congr (fun y hy => he y ((Reach.here.step hc hx).trans hy))
      clear hc
      dsimp only
      induction l with
      | nil => rfl
      | cons x t ih => rw [List.mapM_cons, List.mapM_cons, hm x (by simp), ih (fun y hy => hm y (by simp [hy]))]
    | _ => rfl

/-! ## The objects of an aggregation -/

/-- the part of the memory with the addresses `l`. -/
def Heap.only (h : Heap) (l : List Addr) : Part := fun x => if x ∈ l then h.cells[x]? else none

theorem only_in (h : Heap) (l : List Addr) : (h.only l).In h := by
  intro x c e
  unfold Heap.only at e
  split at e
  · exact e
  · cases e
theorem only_append (h : Heap) (l l' : List Addr) : h.only (l ++ l') = (h.only l).union (h.only l') := by
  funext x
  unfold Heap.only Part.union
  by_cases h1 : x ∈ l
  · by_cases h2 : x ∈ l' <;> simp [h1, h2]
  · by_cases h2 : x ∈ l' <;> simp [h1, h2]
theorem only_disj {h : Heap} {l l' : List Addr} (hd : l.Disjoint l') : (h.only l).Disj (h.only l') := by
  intro x
  unfold Heap.only
  by_cases h1 : x ∈ l
  · right
    rw [if_neg (fun h2 => hd h1 h2)]
  · left
    rw [if_neg h1]
theorem only_dom {h : Heap} {l : List Addr} {x : Addr} (hx : (h.only l).dom x) : x ∈ l := by
  unfold Part.dom Heap.only at hx
  by_contra hc
  rw [if_neg hc] at hx
  exact hx rfl
theorem only_pto {h : Heap} {a : Addr} {c : Cell} (e : h.cells[a]? = some c) : (a ↦ c) (h.only [a]) := by
  funext x
  unfold Heap.only
  by_cases hx : x = a
  · simp [hx, e]
  · simp [hx]
theorem only_sep {h : Heap} {P Q : Assn} {l l' : List Addr} (hn : (l ++ l').Nodup) (h1 : P (h.only l)) (h2 : Q (h.only l')) : (P ∗ Q) (h.only (l ++ l')) :=
  ⟨_, _, h1, h2, only_disj (nodup_append_disjoint.1 hn).2.2, only_append h l l'⟩

theorem refsR_only {V : Type} {P : Addr → V → Assn} {h : Heap} {J : Addr → V → Prop} {obj : Addr → List Addr}
    (hP : ∀ a v, J a v → (obj a).Nodup → P a v (h.only (obj a))) {m : GoMap Str Addr} {vs : GoMap Str V} (hm : Match J m vs)
    (hn : (m.flatMap fun p => obj p.2).Nodup) : refsR P m vs (h.only (m.flatMap fun p => obj p.2)) := by
  unfold Match at hm
  induction hm with
  | nil =>
    funext x
    simp [Heap.only, Part.empty]
  | @cons x y m vs hx _ ih =>
    obtain ⟨k, a⟩ := x
    obtain ⟨k', v⟩ := y
    obtain ⟨rfl, hx⟩ := hx
    rw [List.flatMap_cons] at hn ⊢
    rw [refsR, lift_sep]
    obtain ⟨n1, n2, _⟩ := nodup_append_disjoint.1 hn
    exact ⟨rfl, only_sep hn (hP a v hx n1) (ih n2)⟩

theorem ptrMapR_only {V : Type} {P : Addr → V → Assn} {h : Heap} {J : Addr → V → Prop} {obj : Addr → List Addr}
    (hP : ∀ a v, J a v → (obj a).Nodup → P a v (h.only (obj a))) {a : Addr} {vs : GoMap Str V} (hm : refsIn h.all J a vs)
    (hn : (objRefs h obj a).Nodup) : ptrMapR P a vs (h.only (objRefs h obj a)) := by
  obtain ⟨m, e, hm⟩ := hm
  have e' : h.cells[a]? = some (.refs m) := e
  unfold objRefs at hn ⊢
  rw [e'] at hn ⊢
  dsimp only at hn ⊢
  refine ⟨m, ?_⟩
  rw [← List.singleton_append] at hn ⊢
  exact only_sep hn (only_pto e') (refsR_only hP hm (nodup_append_disjoint.1 hn).2.1)

theorem mapsR_only {h : Heap} {ms : Maps} {am : AggMaps} (hm : mapsIn h.all ms am) (hn : (objMaps h ms).Nodup) : mapsR ms am (h.only (objMaps h ms)) := by
  obtain ⟨h1, h2, h3, h4⟩ := hm
  unfold objMaps at hn ⊢
  obtain ⟨n1, n2, _⟩ := nodup_append_disjoint.1 hn
  refine only_sep hn (ptrMapR_only (fun a v e _ => only_pto e) h1 n1) ?_
  rw [← List.singleton_append] at n2 ⊢
  obtain ⟨_, n3, _⟩ := nodup_append_disjoint.1 n2
  refine only_sep n2 (only_pto h2) ?_
  rw [← List.singleton_append] at n3 ⊢
  exact only_sep n3 (only_pto h3) (ptrMapR_only (fun a v e _ => only_pto e) h4 (nodup_append_disjoint.1 n3).2.1)

theorem jobR_only {h : Heap} (a : Addr) (j : JobAgg) (hj : jobIn h.all a j) (hn : (objJob h a).Nodup) : jobR a j (h.only (objJob h a)) := by
  obtain ⟨ms, e, hm⟩ := hj
  have e' : h.cells[a]? = some (.job ms j.timer (countsOf j)) := e
  unfold objJob at hn ⊢
  rw [e'] at hn ⊢
  dsimp only at hn ⊢
  refine ⟨ms, ?_⟩
  rw [← List.singleton_append] at hn ⊢
  exact only_sep hn (only_pto e') (mapsR_only hm (nodup_append_disjoint.1 hn).2.1)

theorem intR_only {h : Heap} {a : Addr} {v : IntAgg} (hv : intIn h.all a v) (hn : (objInt h a).Nodup) : intR a v (h.only (objInt h a)) := by
  obtain ⟨jobs, ms, e, hj, hm⟩ := hv
  have e' : h.cells[a]? = some (.int v.start v.serial jobs ms) := e
  unfold objInt at hn ⊢
  rw [e'] at hn ⊢
  dsimp only at hn ⊢
  refine ⟨(jobs, ms), ?_⟩
  rw [← List.singleton_append] at hn ⊢
  obtain ⟨_, n2, _⟩ := nodup_append_disjoint.1 hn
  obtain ⟨n3, n4, _⟩ := nodup_append_disjoint.1 n2
  exact only_sep hn (only_pto e') (only_sep n2 (ptrMapR_only (fun a v h1 h2 => jobR_only a v h1 h2) hj n3) (mapsR_only hm n4))

end Mem
