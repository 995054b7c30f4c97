import Verif.Spec.HeapHealthd
import Verif.Lemmas.HeapHealthd
import Verif.Props.Heap
/-!
# Property C85: the API of healthd works on copies
-/
namespace Mem
open Spec.Memory

/-! ## What the representation means to a reader -/

theorem Repr.reads {q : Part} {s : Hd} {v : Healthd.State} (hr : Repr q s v) : Reads s v := by
  refine ⟨hr.duration, hr.max, ?_, ?_, hr.needing, hr.status⟩
  · obtain ⟨l, e, hl⟩ := hr.good.aggs
    unfold readSlice
    rw [e]
    dsimp only
    clear e
    generalize v.intervalAggregations = vs at hl
    induction hl with
    | nil => rfl
    | cons hx _ ih =>
      rw [List.mapM_cons, hx.read hr.good.read, ih]
      rfl
  · have hh := hr.hosts
    generalize s.hostAggs = m at hh
    generalize v.hostAggregations = vs at hh
    induction hh with
    | nil => rfl
    | @cons x y m vs hx _ ih =>
      obtain ⟨k, p⟩ := x
      obtain ⟨k', r⟩ := y
      obtain ⟨e, en, hp⟩ := hx
      dsimp only at e en hp
      rw [List.mapM_cons, hp.read hr.good.read, ih, e, en]
      rfl

theorem _root_.Spec.Memory.Reads.unique {s : Hd} {v w : Healthd.State} (hv : Reads s v) (hw : Reads s w) : v = w := by
  obtain ⟨a1, a2, a3, a4, a5, a6⟩ := hv
  obtain ⟨b1, b2, b3, b4, b5, b6⟩ := hw
  rw [a1] at b1
  rw [a2] at b2
  rw [a3] at b3
  rw [a4] at b4
  rw [a5] at b5
  rw [a6] at b6
  cases v
  cases w
  simp_all

/-! ## The invariant -/

/-- everything that belongs to the goroutine. -/
def mine (q : Part) (s : Hd) (x : Addr) : Prop := q.dom x ∨ x = s.arr

theorem Repr.own_mine {q : Part} {s : Hd} {v : Healthd.State} (hr : Repr q s v) {x : Addr} (hx : own s x) : mine q s x := by
  rcases hx with rfl | ⟨p, hp, rfl⟩
  · exact .inr rfl
  · left
    have hh := hr.hosts
    generalize s.hostAggs = m at hh hp
    generalize v.hostAggregations = vs at hh
    induction hh with
    | nil => simp at hp
    | cons hx _ ih =>
      rcases List.mem_cons.1 hp with rfl | hp
      · obtain ⟨_, _, _, _, e, _⟩ := hx
        exact dom_of_some e
      · exact ih hp

theorem forall₂_dom {q : Part} {l : List Addr} {vs : List IntAgg} (h : List.Forall₂ (intIn q) l vs) : ∀ x ∈ l, q.dom x := by
  induction h with
  | nil => simp
  | cons hx _ ih =>
    intro x hm
    rcases List.mem_cons.1 hm with rfl | hm
    · obtain ⟨_, _, e, _⟩ := hx
      exact dom_of_some e
    · exact ih x hm

theorem Repr.mine_closed {q : Part} {s : Hd} {v : Healthd.State} (hr : Repr q s v) : ClosedSet s.heap (mine q s) := by
  rintro x c (hx | rfl) e b hb
  · exact .inl (hr.good.closed.set hr.good.read x c hx e b hb)
  · obtain ⟨l, e', hl⟩ := hr.good.aggs
    rw [e] at e'
    cases e'
    exact .inl (forall₂_dom hl b hb)

theorem Repr.mine_lt {q : Part} {s : Hd} {v : Healthd.State} (hr : Repr q s v) {x : Addr} (hx : mine q s x) : x < s.heap.cells.length := by
  rcases hx with hx | rfl
  · exact hr.good.read.lt hx
  · obtain ⟨l, e, _⟩ := hr.good.aggs
    exact (List.getElem?_eq_some_iff.1 e).1

structure SysInv (s : Sys) (q : Part) (v : Healthd.State) : Prop where
  repr : Repr q s.hd v
  apart : ∀ n, Separate s.hd.heap (s.held n) (mine q s.hd)
  others : ∀ m n, m ≠ n → Separate s.hd.heap (s.held m) (s.held n)

/-- reachability in a memory in which nothing reachable has changed. -/
theorem reach_back {h h' : Heap} {k x : Addr} (hc : ∀ y, Reach h k y → h'.cells[y]? = h.cells[y]?) (hr : Reach h' k x) : Reach h k x := by
  induction hr with
  | here => exact .here
  | step _ e hb ih => rw [hc _ ih] at e; exact ih.step e hb

theorem Separate.stable {h h' : Heap} {K L L' : Addr → Prop} (hs : Separate h K L) (hl : h.cells.length ≤ h'.cells.length)
    (hK : ∀ k x, K k → Reach h k x → h'.cells[x]? = h.cells[x]?)
    (hL : ∀ l x, L' l → Reach h' l x → (∃ l0, L l0 ∧ Reach h l0 x) ∨ h.cells.length ≤ x)
    (hb : ∀ l x, L' l → Reach h' l x → x < h'.cells.length) : Separate h' K L' := by
  refine ⟨fun k l x hk hl' h1 h2 => ?_, fun k x hk hr => ?_, hb⟩
  · have h1' := reach_back (fun y => hK k y hk) h1
    rcases hL l x hl' h2 with ⟨l0, hl0, h3⟩ | h3
    · exact hs.apart k l0 x hk hl0 h1' h3
    · have := hs.left k x hk h1'
      omega
  · have := hs.left k x hk (reach_back (fun y => hK k y hk) hr)
    omega

/-- both sides unchanged. -/
theorem Separate.stable' {h h' : Heap} {K L : Addr → Prop} (hs : Separate h K L) (hl : h.cells.length ≤ h'.cells.length)
    (hK : ∀ k x, K k → Reach h k x → h'.cells[x]? = h.cells[x]?) (hL : ∀ l x, L l → Reach h l x → h'.cells[x]? = h.cells[x]?) : Separate h' K L := by
  refine Separate.stable hs hl hK (fun l x h1 h2 => .inl ⟨l, h1, reach_back (fun y => hL l y h1) h2⟩) (fun l x h1 h2 => ?_)
  have := hs.right l x h1 (reach_back (fun y => hL l y h1) h2)
  omega

/-- the goroutine writes only to its own array and to new objects. -/
theorem SysInv.grow {s : Sys} {q q' : Part} {v w : Healthd.State} {t : Hd} (hI : SysInv s q v) (ha : t.arr = s.hd.arr) (hr : Repr q' t w)
    (hg : Grow s.hd.arr q s.hd.heap q' t.heap) :
    SysInv { s with hd := t } q' w ∧
      ∀ n k x, s.held n k → Reach s.hd.heap k x → t.heap.cells[x]? = s.hd.heap.cells[x]? ∧ ¬WrittenSince s.hd.heap t.heap x := by
  have hun : ∀ n k x, s.held n k → Reach s.hd.heap k x → t.heap.cells[x]? = s.hd.heap.cells[x]? ∧ ¬WrittenSince s.hd.heap t.heap x := by
    intro n k x hk hx
    exact hg.frame.untouched ((hI.apart n).left k x hk hx) (fun e => (hI.apart n).apart k s.hd.arr x hk (.inr rfl) hx (e ▸ .here))
  refine ⟨⟨hr, fun n => ?_, fun m n hne => ?_⟩, hun⟩
  · refine Separate.stable (hI.apart n) hg.frame.len (fun k x hk hx => (hun n k x hk hx).1) (fun l x hl hx => ?_) (fun l x hl hx => ?_)
    · rcases closedSet_reach hr.mine_closed hl hx with hx | hx
      · rcases hg.fresh x hx with hx | hx
        · exact .inl ⟨x, .inl hx, .here⟩
        · exact .inr hx
      · exact .inl ⟨x, .inr (hx.trans ha), .here⟩
    · exact hr.mine_lt (closedSet_reach hr.mine_closed hl hx)
  · exact Separate.stable' (hI.others m n hne) hg.frame.len (fun k x hk hx => (hun m k x hk hx).1) (fun k x hk hx => (hun n k x hk hx).1)

/-- a list of new copies. -/
theorem cloneAll_spec {q : Part} {l : List Addr} {vs : List IntAgg} (h : List.Forall₂ (intIn q) l vs) :
    Triple q emp (cloneAll l) (fun cs p => List.Forall₂ (intIn p) cs (vs.map IntAgg.clone) ∧ Closed p) := by
  induction h with
  | nil =>
    refine (Triple.pure (Q := fun (cs : List Addr) p => List.Forall₂ (intIn p) cs [] ∧ Closed p) []).conseq (fun p hp => ⟨.nil, ?_⟩) (fun _ => Entails.refl _)
    rw [hp]
    intro x c e
    cases e
  | @cons a v l vs ha _ ih =>
    unfold cloneAll
    refine (cloneInt_spec a v ha).bind (fun c => (Triple.emp ih).bind (fun cs => ?_))
    refine (Triple.pure (Q := fun (cs : List Addr) p => List.Forall₂ (intIn p) cs ((v :: vs).map IntAgg.clone) ∧ Closed p) (c :: cs)).conseq
      (fun p hp => ?_) (fun _ => Entails.refl _)
    obtain ⟨p1, p2, h1, ⟨h2, h3⟩, hd, rfl⟩ := hp
    have hs1 : p1.Sub (p1.union p2) := fun x c e => Part.union_some.2 (.inl e)
    have hs2 : p2.Sub (p1.union p2) := fun x c e => Part.union_some.2 (.inr ⟨(hd x).resolve_right (by rw [e]; simp), e⟩)
    exact ⟨.cons (intR_in h1 hs1) (h2.imp (fun _ _ h => h.mono hs2)), (intR_whole _ _ _ h1).1.union h3⟩

/-- the copies handed out. -/
theorem answer_spec {q : Part} {s : Hd} {v : Healthd.State} (hr : Repr q s v) :
    ∃ snap h' p, s.memorySafeIntervals = some (snap, { s with heap := h' }) ∧ p.In h' ∧ Closed p ∧ p.dom snap ∧
      sliceIn p snap (Healthd.memorySafeIntervals v) ∧ (∀ x, p.dom x → s.heap.cells.length ≤ x) ∧ Frame (fun _ => False) s.heap h' := by
  obtain ⟨l, e, hl⟩ := hr.good.aggs
  have ht : Triple q emp (do let out ← cloneAll l; alloc (.array out) : Cmd Addr)
      (fun r p => Closed p ∧ p.dom r ∧ sliceIn p r (Healthd.memorySafeIntervals v)) := by
    refine (cloneAll_spec hl).bind (fun cs => ?_)
    refine (Triple.alloc (.array cs)).frame' (fun p => List.Forall₂ (intIn p) cs (v.intervalAggregations.map IntAgg.clone) ∧ Closed p)
      (Entails.of_eq (emp_sep _).symm) (fun r p hp => ?_)
    obtain ⟨p1, p2, h1, ⟨h2, h3⟩, hd, rfl⟩ := hp
    have hs2 : p2.Sub (p1.union p2) := fun x c e => Part.union_some.2 (.inr ⟨(hd x).resolve_right (by rw [e]; simp), e⟩)
    refine ⟨pto_closed h1 h3 (fun b hb => .inl (forall₂_dom h2 b hb)), dom_union.2 (.inl ((pto_dom h1).2 rfl)), cs, ?_, h2.imp (fun _ _ h => h.mono hs2)⟩
    exact pto_sub h1 (fun x c e => Part.union_some.2 (.inl e))
  obtain ⟨snap, h', p, e1, ⟨hc, hd, hsl⟩, hi, hf, hn⟩ := ht s.heap .empty rfl (fun _ => .inl rfl) (fun _ _ e => by cases e) hr.good.read
  refine ⟨snap, h', p, ?_, hi, hc, hd, hsl, fun x hx => (hn x hx).resolve_left (fun hc => hc rfl), hf.mono (fun x hx => absurd rfl hx)⟩
  unfold Hd.memorySafeIntervals
  show Option.bind (Option.bind (loadArray s.arr s.heap) _) _ = _
  rw [loadArray_eq e]
  show Option.bind ((do let out ← cloneAll l; alloc (.array out) : Cmd Addr) s.heap) _ = _
  rw [e1]
  rfl

theorem Repr.heap {q : Part} {s : Hd} {v : Healthd.State} (hr : Repr q s v) {h' : Heap} (hc : ∀ x, mine q s x → h'.cells[x]? = s.heap.cells[x]?) :
    Repr q { s with heap := h' } v := by
  refine ⟨hr.duration, hr.max, ⟨fun x c e => ?_, hr.good.closed, hr.good.apart, ?_⟩, hr.hosts, hr.needing, hr.status⟩
  · show h'.cells[x]? = _
    rw [hc x (.inl (dom_of_some e))]
    exact hr.good.read x c e
  · obtain ⟨l, e, hl⟩ := hr.good.aggs
    exact ⟨l, by show h'.cells[s.arr]? = _; rw [hc s.arr (.inr rfl), e], hl⟩

theorem SysInv.answer {s : Sys} {q : Part} {v : Healthd.State} (hI : SysInv s q v) {n : Nat} {snap : Addr} {hd' : Hd}
    (ha : s.hd.memorySafeIntervals = some (snap, hd')) :
    SysInv ⟨hd', fun m x => s.held m x ∨ (m = n ∧ x = snap)⟩ q v ∧ readSlice hd'.heap snap = some (Healthd.memorySafeIntervals v) ∧
      (∀ x, Reach hd'.heap snap x → s.hd.heap.cells.length ≤ x) ∧
      ∀ x, x < s.hd.heap.cells.length → hd'.heap.cells[x]? = s.hd.heap.cells[x]? ∧ ¬WrittenSince s.hd.heap hd'.heap x := by
  obtain ⟨snap', h', p, e, hi, hc, hd, hsl, hnew, hf⟩ := answer_spec hI.repr
  rw [ha] at e
  cases e
  have hu : ∀ x, x < s.hd.heap.cells.length → h'.cells[x]? = s.hd.heap.cells[x]? ∧ ¬WrittenSince s.hd.heap h' x := fun x hx => hf.untouched hx (fun h => h)
  have hr' : Repr q { s.hd with heap := h' } v := hI.repr.heap (fun x hx => (hu x (hI.repr.mine_lt hx)).1)
  have hrp : ∀ x, Reach h' snap x → p.dom x := fun x hx => hc.reach hi hd hx
  have hheld : ∀ m k x, s.held m k → Reach s.hd.heap k x → h'.cells[x]? = s.hd.heap.cells[x]? := fun m k x hk hx => (hu x ((hI.apart m).left k x hk hx)).1
  have hlen := hf.len
  refine ⟨⟨hr', fun m => ?_, fun m k hne => ?_⟩, hsl.read hi, fun x hx => hnew x (hrp x hx), hu⟩
  · refine Spec.Memory.Separate.symm (Separate.stable (hI.apart m).symm hlen (fun k x hk hx => ?_) (fun l x hl hx => ?_) (fun l x hl hx => ?_))
    · exact (hu x ((hI.apart m).right k x hk hx)).1
    · rcases hl with hl | ⟨_, rfl⟩
      · exact .inl ⟨l, hl, reach_back (fun y hy => hheld m l y hl hy) hx⟩
      · exact .inr (hnew x (hrp x hx))
    · rcases hl with hl | ⟨_, rfl⟩
      · have := (hI.apart m).left l x hl (reach_back (fun y hy => hheld m l y hl hy) hx)
        show x < h'.cells.length
        omega
      · exact hi.lt (hrp x hx)
  · have hold : ∀ m l x, s.held m l → Reach h' l x → Reach s.hd.heap l x ∧ x < s.hd.heap.cells.length := fun m l x hl hx => by
      have h1 := reach_back (fun y hy => hheld m l y hl hy) hx
      exact ⟨h1, (hI.apart m).left l x hl h1⟩
    have hlt : ∀ (m : Nat) l x, s.held m l ∨ (m = n ∧ l = snap) → Reach h' l x → x < h'.cells.length := by
      rintro m l x (hl | ⟨_, rfl⟩) hx
      · have := (hold m l x hl hx).2
        omega
      · exact hi.lt (hrp x hx)
    refine ⟨?_, hlt m, hlt k⟩
    rintro a b x (ha' | ⟨hm, rfl⟩) (hb | ⟨hk, rfl⟩) h1 h2
    · exact (hI.others m k hne).apart a b x ha' hb (hold m a x ha' h1).1 (hold k b x hb h2).1
    · have h3 := (hold m a x ha' h1).2
      have h4 := hnew x (hrp x h2)
      omega
    · have h3 := (hold k b x hb h2).2
      have h4 := hnew x (hrp x h1)
      omega
    · exact hne (hm.trans hk.symm)

theorem Client.len {h h' : Heap} {K K' : Addr → Prop} (hc : Client h K h' K') : h.cells.length ≤ h'.cells.length :=
  (Spec.Memory.Client.frame hc (T := fun _ => True) (fun _ _ => trivial) (fun _ _ _ _ _ _ => trivial)).1.len

theorem SysInv.api {s : Sys} {q : Part} {v : Healthd.State} (hI : SysInv s q v) {n : Nat} {h' : Heap} {K' : Addr → Prop}
    (hc : Client s.hd.heap (s.held n) h' K') :
    SysInv ⟨{ s.hd with heap := h' }, fun m => if m = n then K' else s.held m⟩ q v ∧
      (∀ k x, mine q s.hd k → Reach s.hd.heap k x → h'.cells[x]? = s.hd.heap.cells[x]? ∧ ¬WrittenSince s.hd.heap h' x) ∧
      ∀ m k x, m ≠ n → s.held m k → Reach s.hd.heap k x → h'.cells[x]? = s.hd.heap.cells[x]? ∧ ¬WrittenSince s.hd.heap h' x := by
  obtain ⟨h1, h2⟩ := (hI.apart n).client hc
  have h3 : ∀ m k x, m ≠ n → s.held m k → Reach s.hd.heap k x → h'.cells[x]? = s.hd.heap.cells[x]? ∧ ¬WrittenSince s.hd.heap h' x :=
    fun m k x hm hk hx => ((hI.others n m (fun e => hm e.symm)).client hc).2 k x hk hx
  have hl := Client.len hc
  have hr' : Repr q { s.hd with heap := h' } v := hI.repr.heap (fun x hx => (h2 x x hx .here).1)
  refine ⟨⟨hr', fun m => ?_, fun m k hne => ?_⟩, h2, h3⟩
  · by_cases hm : m = n
    · simp only [hm, if_true]
      exact h1
    · simp only [hm, if_false]
      exact Separate.stable' (hI.apart m) hl (fun k x hk hx => (h3 m k x hm hk hx).1) (fun k x hk hx => (h2 k x hk hx).1)
  · dsimp only
    by_cases hm : m = n
    · subst hm
      rw [if_pos rfl, if_neg (fun e => hne e.symm)]
      exact ((hI.others m k hne).client hc).1
    · rw [if_neg hm]
      by_cases hk : k = n
      · subst hk
        rw [if_pos rfl]
        exact ((hI.others k m (fun e => hm e.symm)).client hc).1.symm
      · rw [if_neg hk]
        exact Separate.stable' (hI.others m k hne) hl (fun a x ha hx => (h3 m a x hm ha hx).1) (fun a x ha hx => (h3 k a x hk ha hx).1)

theorem init_inv (hostPorts : List Str) : SysInv ⟨Hd.init hostPorts, fun _ _ => False⟩ .empty (Healthd.init hostPorts) := by
  refine ⟨⟨rfl, rfl, ⟨fun _ _ e => (by cases e), fun _ _ e => (by cases e), fun h => h rfl, [], rfl, .nil⟩, .nil, rfl, rfl⟩, fun n => ?_, fun m n _ => ?_⟩
  · refine ⟨fun _ _ _ h => h.elim, fun _ _ h => h.elim, ?_⟩
    rintro l x (h | h) hx
    · exact absurd rfl h
    · have : x = 0 := by
        refine closedSet_reach (T := (· = 0)) (h := (Hd.init hostPorts).heap) ?_ h hx
        rintro y c rfl e b hb
        cases e
        simp [pointers] at hb
      subst this
      exact Nat.zero_lt_one
  · exact ⟨fun _ _ _ h => h.elim, fun _ _ h => h.elim, fun _ _ h => h.elim⟩

theorem SysInv.loop {s : Sys} {q : Part} {v : Healthd.State} (hI : SysInv s q v) {perm : List Int → List Nat} {op : HdOp} (hv : op.Valid s.hd) :
    ∃ vop : Healthd.Op, vop.Valid v ∧ ((s.hd.step perm op = none ∧ Healthd.step (sortAggs perm) v vop = none) ∨
      ∃ hd' v' q', s.hd.step perm op = some hd' ∧ Healthd.step (sortAggs perm) v vop = some v' ∧ SysInv { s with hd := hd' } q' v' ∧
        ∀ n k x, s.held n k → Reach s.hd.heap k x → hd'.heap.cells[x]? = s.hd.heap.cells[x]? ∧ ¬WrittenSince s.hd.heap hd'.heap x) := by
  obtain ⟨vop, h1, h2⟩ := step_sim hI.repr perm hv
  refine ⟨vop, h1, ?_⟩
  rcases h2 with h2 | ⟨t, w, q', e1, e2, ha, hr, hg⟩
  · exact .inl h2
  · obtain ⟨h3, h4⟩ := hI.grow ha hr hg
    exact .inr ⟨t, w, q', e1, e2, h3, h4⟩

theorem reachable_inv {perm : List Int → List Nat} {hostPorts : List Str} {s : Sys} (hs : Sys.Reachable perm hostPorts s) :
    ∃ ops v q, Healthd.Runs (sortAggs perm) (Healthd.init hostPorts) ops v ∧ SysInv s q v := by
  induction hs with
  | init => exact ⟨[], _, .empty, .nil, init_inv hostPorts⟩
  | step _ hst ih =>
    obtain ⟨ops, v, q, hr, hI⟩ := ih
    cases hst with
    | loop hv e =>
      obtain ⟨vop, h1, ⟨h2, _⟩ | ⟨hd', v', q', e1, e2, hI', _⟩⟩ := hI.loop hv
      · rw [e] at h2; cases h2
      · rw [e] at e1
        cases e1
        exact ⟨ops ++ [vop], v', q', .snoc hr h1 e2, hI'⟩
    | answer e => exact ⟨ops, v, q, hr, (hI.answer e).1⟩
    | api hc => exact ⟨ops, v, q, hr, (hI.api hc).1⟩

/-! ## C85 -/

/-- Property C85: whatever the requests of the API do with what they were given, the goroutine holds what it would hold without them: what a reader
of its pointers sees is a state that the model of values gets to by the work of the goroutine alone. -/
theorem C85_goroutine {perm : List Int → List Nat} {hostPorts : List Str} {s : Sys} (hs : Sys.Reachable perm hostPorts s) :
    ∃ ops v, Healthd.Runs (sortAggs perm) (Healthd.init hostPorts) ops v ∧ Reads s.hd v := by
  obtain ⟨ops, v, q, hr, hI⟩ := reachable_inv hs
  exact ⟨ops, v, hr, hI.repr.reads⟩

/-- Property C85: each piece of work does in memory what it does to the values (and panics if and only if it does there), and writes to no object
that any request can get at. -/
theorem C85_work {perm : List Int → List Nat} {hostPorts : List Str} {s : Sys} (hs : Sys.Reachable perm hostPorts s) {v : Healthd.State} (hv : Reads s.hd v)
    {op : HdOp} (ho : op.Valid s.hd) :
    (∃ vop : Healthd.Op, vop.Valid v ∧ ((s.hd.step perm op = none ∧ Healthd.step (sortAggs perm) v vop = none) ∨
      ∃ hd' v', s.hd.step perm op = some hd' ∧ Healthd.step (sortAggs perm) v vop = some v' ∧ Reads hd' v')) ∧
    ∀ hd', s.hd.step perm op = some hd' → ∀ n k x, s.held n k → Reach s.hd.heap k x →
      hd'.heap.cells[x]? = s.hd.heap.cells[x]? ∧ ¬WrittenSince s.hd.heap hd'.heap x := by
  obtain ⟨ops, w, q, hr, hI⟩ := reachable_inv hs
  obtain rfl := hv.unique hI.repr.reads
  obtain ⟨vop, h1, h2⟩ := hI.loop (perm := perm) ho
  refine ⟨⟨vop, h1, ?_⟩, fun hd' e => ?_⟩
  · rcases h2 with h2 | ⟨hd', v', q', e1, e2, hI', _⟩
    · exact .inl h2
    · exact .inr ⟨hd', v', e1, e2, hI'.repr.reads⟩
  · rcases h2 with ⟨h2, _⟩ | ⟨hd2, v', q', e1, _, _, h3⟩
    · rw [e] at h2; cases h2
    · rw [e] at e1
      cases e1
      exact h3

/-- Property C85: a request is always answered, with a slice that reads as the copies of the aggregations; every object that can be reached from it
is new; no object that was there before is written; and the goroutine holds what it held. -/
theorem C85_answer {perm : List Int → List Nat} {hostPorts : List Str} {s : Sys} (hs : Sys.Reachable perm hostPorts s) {v : Healthd.State} (hv : Reads s.hd v) :
    ∃ snap hd', s.hd.memorySafeIntervals = some (snap, hd') ∧ readSlice hd'.heap snap = some (Healthd.memorySafeIntervals v) ∧
      (∀ x, Reach hd'.heap snap x → s.hd.heap.cells.length ≤ x ∧ x < hd'.heap.cells.length) ∧
      (∀ x, x < s.hd.heap.cells.length → hd'.heap.cells[x]? = s.hd.heap.cells[x]? ∧ ¬WrittenSince s.hd.heap hd'.heap x) ∧ Reads hd' v := by
  obtain ⟨ops, w, q, hr, hI⟩ := reachable_inv hs
  obtain rfl := hv.unique hI.repr.reads
  obtain ⟨snap, h', p, e, hi, hc, hd, _, _, _⟩ := answer_spec hI.repr
  obtain ⟨h1, h2, h3, h4⟩ := hI.answer (n := 0) e
  exact ⟨snap, _, e, h2, fun x hx => ⟨h3 x hx, hi.lt (hc.reach hi hd hx)⟩, h4, h1.repr.reads⟩

/-- Property C85: whatever a request does, it writes to no object that the goroutine or another request can get at; the goroutine holds what it held. -/
theorem C85_request {perm : List Int → List Nat} {hostPorts : List Str} {s : Sys} (hs : Sys.Reachable perm hostPorts s) {n : Nat} {h' : Heap}
    {K' : Addr → Prop} (hc : Client s.hd.heap (s.held n) h' K') :
    (∀ k x, own s.hd k → Reach s.hd.heap k x → h'.cells[x]? = s.hd.heap.cells[x]? ∧ ¬WrittenSince s.hd.heap h' x) ∧
    (∀ m k x, m ≠ n → s.held m k → Reach s.hd.heap k x → h'.cells[x]? = s.hd.heap.cells[x]? ∧ ¬WrittenSince s.hd.heap h' x) ∧
    ∀ v, Reads s.hd v → Reads { s.hd with heap := h' } v := by
  obtain ⟨ops, w, q, hr, hI⟩ := reachable_inv hs
  obtain ⟨h1, h2, h3⟩ := hI.api hc
  refine ⟨fun k x hk hx => h2 k x (hI.repr.own_mine hk) hx, h3, fun v hv => ?_⟩
  obtain rfl := hv.unique hI.repr.reads
  exact h1.repr.reads

/-- Property C85: no object can be got at by both the goroutine and a request, or by two requests. -/
theorem C85_separate {perm : List Int → List Nat} {hostPorts : List Str} {s : Sys} (hs : Sys.Reachable perm hostPorts s) :
    (∀ n, Separate s.hd.heap (s.held n) (own s.hd)) ∧ ∀ m n, m ≠ n → Separate s.hd.heap (s.held m) (s.held n) := by
  obtain ⟨ops, w, q, hr, hI⟩ := reachable_inv hs
  refine ⟨fun n => ⟨fun k l x hk hl => (hI.apart n).apart k l x hk (hI.repr.own_mine hl), (hI.apart n).left,
    fun l x hl => (hI.apart n).right l x (hI.repr.own_mine hl)⟩, hI.others⟩

theorem Without.reachable {perm : List Int → List Nat} {hostPorts : List Str} {n : Nat} {s s' : Sys} (hw : Without perm n s s')
    (hs : Sys.Reachable perm hostPorts s) : Sys.Reachable perm hostPorts s' := by
  induction hw with
  | done => exact hs
  | loop _ hv e ih => exact .step ih (.loop hv e)
  | answer _ e ih => exact .step ih (.answer e)
  | api _ _ hc ih => exact .step ih (.api hc)

/-- Property C85: what a request holds stays as it is until the request changes it by itself, for however long the goroutine and the other requests
go on. -/
theorem C85_stays {perm : List Int → List Nat} {hostPorts : List Str} {n : Nat} {s s' : Sys} (hs : Sys.Reachable perm hostPorts s) (hw : Without perm n s s') {k : Addr}
    (hk : s.held n k) : s'.held n k ∧ readSlice s'.hd.heap k = readSlice s.hd.heap k ∧ readInt s'.hd.heap k = readInt s.hd.heap k ∧
      ∀ x, Reach s.hd.heap k x → Reach s'.hd.heap k x ∧ s'.hd.heap.cells[x]? = s.hd.heap.cells[x]? := by
  suffices h : s'.held n k ∧ ∀ x, Reach s.hd.heap k x → Reach s'.hd.heap k x ∧ s'.hd.heap.cells[x]? = s.hd.heap.cells[x]? from
    ⟨h.1, readSlice_congr (fun x hx => (h.2 x hx).2), readInt_congr (fun x hx => (h.2 x hx).2), h.2⟩
  have fwd : ∀ {h h' : Heap}, (∀ x, Reach h k x → h'.cells[x]? = h.cells[x]?) → ∀ x, Reach h k x → Reach h' k x := by
    intro h h' hc x hx
    induction hx with
    | here => exact .here
    | step h0 e hb ih => exact ih.step ((hc _ h0).trans e) hb
  induction hw with
  | done => exact ⟨hk, fun x hx => ⟨hx, rfl⟩⟩
  | @loop s2 op hd' hw hv e ih =>
    obtain ⟨h1, h2⟩ := ih
    obtain ⟨_, w, q, _, hI⟩ := reachable_inv (Without.reachable hw hs)
    have h3 := (C85_work (Without.reachable hw hs) hI.repr.reads hv).2 hd' e n k
    refine ⟨h1, fun x hx => ?_⟩
    obtain ⟨h4, h5⟩ := h2 x hx
    exact ⟨fwd (fun y hy => (h3 y h1 hy).1) x h4, (h3 x h1 h4).1.trans h5⟩
  | @answer s2 m snap hd' hw e ih =>
    obtain ⟨h1, h2⟩ := ih
    obtain ⟨_, w, q, _, hI⟩ := reachable_inv (Without.reachable hw hs)
    obtain ⟨_, _, _, h3⟩ := hI.answer (n := m) e
    have h3 : ∀ x, Reach s2.hd.heap k x → hd'.heap.cells[x]? = s2.hd.heap.cells[x]? := fun x hx => (h3 x ((hI.apart n).left k x h1 hx)).1
    refine ⟨.inl h1, fun x hx => ?_⟩
    obtain ⟨h4, h5⟩ := h2 x hx
    exact ⟨fwd h3 x h4, (h3 x h4).trans h5⟩
  | @api s2 m h' K' hw hne hc ih =>
    obtain ⟨h1, h2⟩ := ih
    have h3 := (C85_request (Without.reachable hw hs) hc).2.1 n k
    refine ⟨?_, fun x hx => ?_⟩
    · dsimp only
      rw [if_neg (fun e => hne e.symm)]
      exact h1
    · obtain ⟨h4, h5⟩ := h2 x hx
      exact ⟨fwd (fun y hy => (h3 y (fun e => hne e.symm) h1 hy).1) x h4, (h3 x (fun e => hne e.symm) h1 h4).1.trans h5⟩

/-! ## A case

A host reports an interval with an event, the goroutine recalculates and answers request 7, the request changes what it got: this shows in its
answer, but not in what the goroutine holds. -/
section Example

def exAgg : IntAgg := { IntAgg.new ⟨60, 0⟩ with serial := 3, maps := { AggMaps.init with events := [(bs "e", 5)] } }
def exResponse : Healthd.PollResponse := ⟨bs "h", ⟨70, 0⟩, none, 200, 1, ⟨bs "i", 60, [some ⟨exAgg, false⟩]⟩⟩
/-- two elements at most: sorted by comparing once. -/
def exPerm : List Int → List Nat
  | [a, b] => if b < a then [1, 0] else [0, 1]
  | l => List.range l.length
def exHd1 : Hd := ((Hd.init [bs "h"]).step exPerm (.response exResponse ⟨70, 0⟩ ⟨71, 0⟩)).getD (Hd.init [])
def exHd2 : Hd := (exHd1.step exPerm (.recalculate [⟨60, 0⟩] (fun _ => exHd1.hostAggs))).getD (Hd.init [])
def exHd3 : Addr × Hd := exHd2.memorySafeIntervals.getD (0, Hd.init [])
def exHeld (m : Nat) (x : Addr) : Prop := False ∨ (m = 7 ∧ x = exHd3.1)

example : (Hd.init [bs "h"]).step exPerm (.response exResponse ⟨70, 0⟩ ⟨71, 0⟩) = some exHd1 := by decide +kernel
example : exHd1.step exPerm (.recalculate [⟨60, 0⟩] (fun _ => exHd1.hostAggs)) = some exHd2 := by decide +kernel

theorem exReachable : Sys.Reachable exPerm [bs "h"] ⟨exHd3.2, exHeld⟩ := by
  refine .step (s := ⟨exHd2, fun _ _ => False⟩) (.step (s := ⟨exHd1, fun _ _ => False⟩) (.step .init (.loop (op := .response exResponse ⟨70, 0⟩ ⟨71, 0⟩) trivial ?_))
    (.loop (op := .recalculate [⟨60, 0⟩] (fun _ => exHd1.hostAggs)) ⟨?_, fun _ => .refl _⟩ ?_)) (.answer (n := 7) (snap := exHd3.1) ?_)
  · decide +kernel
  · show List.Perm [_] exHd1.needing.keys
    have : exHd1.needing.keys = [⟨60, 0⟩] := by decide +kernel
    rw [this]
  · decide +kernel
  · decide +kernel

example : (readSlice exHd3.2.heap exHd3.1).map (·.map (·.maps.events)) = some [[(bs "e", 5)]] := by decide +kernel
example : (readSlice exHd3.2.heap exHd3.2.arr).map (·.map (·.maps.events)) = some [[(bs "e", 5)]] := by decide +kernel

/-- the request overwrites the slice that it got. -/
def exHeap4 : Heap := ((store exHd3.1 (.array []) exHd3.2.heap).map (·.2)).getD ⟨[], []⟩
example : Client exHd3.2.heap (exHeld 7) exHeap4 (exHeld 7) :=
  .overwrite .done (a := exHd3.1) (c := .array []) (.inr ⟨rfl, rfl⟩) (by simp [pointers]) (by decide +kernel)
example : readSlice exHeap4 exHd3.1 = some [] ∧ (readSlice exHeap4 exHd3.2.arr).map (·.map (·.maps.events)) = some [[(bs "e", 5)]] := by decide +kernel

end Example

end Mem
