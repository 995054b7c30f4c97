import Verif.Lemmas.HeapAgg
/-!
# Properties C15, C24, C25: snapshots, copies and merges share no memory that is written
-/
namespace Mem
open Spec.Memory

/-- What a piece of code does that can only get at `K` is not seen by a piece of code that can only get at `L`. -/
theorem unseen {h h' : Heap} {K K' L : Addr → Prop} (hs : Separate h K L) (hc : Client h K h' K') :
    (∀ l, L l → readInt h' l = readInt h l ∧ readSlice h' l = readSlice h l) ∧
    ∀ l x, L l → Reach h l x → h'.cells[x]? = h.cells[x]? ∧ ¬WrittenSince h h' x := by
  have h1 := (hs.client hc).2
  exact ⟨fun l hl => ⟨readInt_congr (fun x hx => (h1 l x hl hx).1), readSlice_congr (fun x hx => (h1 l x hl hx).1)⟩, h1⟩

/-! ## C24 -/

/-- Property C24: `Clone` returns a pointer that reads the same as the original; every object that can be reached from it is new; no object that
was there before has been written. (`v.Wf`: a map has no key twice.) -/
theorem C24_clone {h : Heap} {a : Addr} {v : IntAgg} (hv : readInt h a = some v) (hw : v.Wf) :
    ∃ c h', cloneInt a h = some (c, h') ∧ readInt h' c = some v ∧ readInt h' a = some v ∧
      (∀ x, Reach h' c x → h.cells.length ≤ x ∧ x < h'.cells.length) ∧
      (∀ x, x < h.cells.length → h'.cells[x]? = h.cells[x]? ∧ ¬WrittenSince h h' x) ∧
      (NoDangling h → Separate h' (fun x => x < h.cells.length) (fun x => x = c)) := by
  obtain ⟨c, h', p', e, hp, hi, hf, hd⟩ := cloneInt_spec (q := h.all) a v (intIn_of_read hv) h .empty rfl (fun _ => .inl rfl) (fun _ _ e => by cases e) h.all_in
  rw [IntAgg.clone_eq hw] at hp
  obtain ⟨hcl, hdc⟩ := intR_whole _ _ _ hp
  have hu : ∀ x, x < h.cells.length → h'.cells[x]? = h.cells[x]? ∧ ¬WrittenSince h h' x := fun x hx => hf.untouched hx (fun hc => hc rfl)
  have hnew : ∀ x, p'.dom x → h.cells.length ≤ x ∧ x < h'.cells.length := fun x hx => ⟨(hd x hx).resolve_left (fun hc => hc rfl), hi.lt hx⟩
  have hall : h.all.In h' := h.all_in.frame hf (fun x _ hc => hc rfl)
  refine ⟨c, h', e, (intR_in hp (.refl _)).read hi, (intIn_of_read hv).read hall, fun x hx => hnew x (hcl.reach hi hdc hx), hu, fun hn => ?_⟩
  refine Separate.of_closed (S := fun x => x < h.cells.length) (T := p'.dom) (fun x cl hx e b hb => ?_) (fun x cl hx e b hb => ?_) (fun x hx hx' => ?_) (fun x hx => ?_)
    (fun x hx => hi.lt hx) (fun x hx => hx) (fun x hx => hx ▸ hdc)
  · rw [(hu x hx).1] at e
    exact hn x cl e b hb
  · exact hcl.set hi x cl hx e b hb
  · have := (hnew x hx').1
    omega
  · have := hf.len
    omega

/-- Property C24: once a clone is made, two pieces of code run in turns for ever, one with any of the pointers there were before, the other one
with the clone: neither ever sees anything that the other one does. -/
theorem C24_independent {h h' h1 h2 : Heap} {a c : Addr} {v : IntAgg} {K K1 L1 J : Addr → Prop} (hn : NoDangling h) (hv : readInt h a = some v) (hw : v.Wf)
    (hc : cloneInt a h = some (c, h')) (hK : ∀ x, K x → x < h.cells.length) (hd : Duo h' K (fun x => x = c) h1 K1 L1) :
    (Client h1 K1 h2 J → ∀ l, L1 l → readInt h2 l = readInt h1 l ∧ ∀ x, Reach h1 l x → h2.cells[x]? = h1.cells[x]? ∧ ¬WrittenSince h1 h2 x) ∧
    (Client h1 L1 h2 J → ∀ k, K1 k → readInt h2 k = readInt h1 k ∧ ∀ x, Reach h1 k x → h2.cells[x]? = h1.cells[x]? ∧ ¬WrittenSince h1 h2 x) := by
  obtain ⟨c', h'', e, _, _, _, _, hs⟩ := C24_clone hv hw
  rw [hc] at e
  cases e
  have hs : Separate h' K (fun x => x = c) := ⟨fun k l x hk => (hs hn).apart k l x (hK k hk), fun k x hk => (hs hn).left k x (hK k hk), (hs hn).right⟩
  have hs1 := hs.duo hd
  exact ⟨fun hcl l hl => ⟨((unseen hs1 hcl).1 l hl).1, fun x hx => (unseen hs1 hcl).2 l x hl hx⟩,
    fun hcl k hk => ⟨((unseen hs1.symm hcl).1 k hk).1, fun x hx => (unseen hs1.symm hcl).2 k x hk hx⟩⟩

/-- Property C24: whatever is done with the pointers there were before, the clone reads the same for ever; whatever is done with the clone, the
original does. -/
theorem C24_stays {h h' h1 : Heap} {a c : Addr} {v : IntAgg} {K K1 : Addr → Prop} (hn : NoDangling h) (hv : readInt h a = some v) (hw : v.Wf)
    (hc : cloneInt a h = some (c, h')) :
    ((∀ x, K x → x < h.cells.length) → Client h' K h1 K1 → readInt h1 c = some v) ∧
    (Client h' (fun x => x = c) h1 K1 → readInt h1 a = some v) := by
  obtain ⟨c', h'', e, hr, hra, _, _, _⟩ := C24_clone hv hw
  rw [hc] at e
  cases e
  refine ⟨fun hK hcl => ?_, fun hcl => ?_⟩
  · rw [((C24_independent hn hv hw hc hK .done).1 hcl c rfl).1, hr]
  · have ha : a < h.cells.length := by
      by_contra hlt
      unfold readInt at hv
      rw [List.getElem?_eq_none (by omega)] at hv
      cases hv
    rw [((C24_independent (K := fun x => x = a) hn hv hw hc (fun x hx => hx ▸ ha) .done).2 hcl a rfl).1, hra]

/-! ## C25 -/

theorem objects_closed_aux {V : Type} {h : Heap} {J : Addr → V → Prop} {obj : Addr → List Addr} {a : Addr} {vs : GoMap Str V} (hr : refsIn h.all J a vs)
    (hobj : ∀ b v, J b v → b ∈ obj b ∧ ∀ x ∈ obj b, ∃ c, h.cells[x]? = some c ∧ ∀ y ∈ pointers c, y ∈ obj b) :
    ∀ x ∈ objRefs h obj a, ∃ c, h.cells[x]? = some c ∧ ∀ y ∈ pointers c, y ∈ objRefs h obj a := by
  obtain ⟨m, e, hm⟩ := hr
  have e' : h.cells[a]? = some (.refs m) := e
  have hsub : ∀ p ∈ m, ∃ v, J p.2 v := by
    intro p hp
    unfold Match at hm
    clear e e'
    induction hm with
    | nil => simp at hp
    | cons hx _ ih =>
      rcases List.mem_cons.1 hp with rfl | hp
      · exact ⟨_, hx.2⟩
      · exact ih hp
  unfold objRefs
  rw [e']
  dsimp only
  intro x hx
  rcases List.mem_cons.1 hx with rfl | hx
  · refine ⟨_, e', fun y hy => List.mem_cons_of_mem _ ?_⟩
    obtain ⟨p, hp, rfl⟩ := List.mem_map.1 hy
    obtain ⟨v, hv⟩ := hsub p hp
    exact List.mem_flatMap.2 ⟨p, hp, (hobj _ _ hv).1⟩
  · obtain ⟨p, hp, hx⟩ := List.mem_flatMap.1 hx
    obtain ⟨v, hv⟩ := hsub p hp
    obtain ⟨c, hc, hc'⟩ := (hobj _ _ hv).2 x hx
    exact ⟨c, hc, fun y hy => List.mem_cons_of_mem _ (List.mem_flatMap.2 ⟨p, hp, hc' y hy⟩)⟩

theorem mem_objRefs (h : Heap) (obj : Addr → List Addr) (a : Addr) : a ∈ objRefs h obj a := by unfold objRefs; simp

theorem objMaps_closed {h : Heap} {ms : Maps} {am : AggMaps} (hm : mapsIn h.all ms am) :
    ∀ x ∈ objMaps h ms, ∃ c, h.cells[x]? = some c ∧ ∀ y ∈ pointers c, y ∈ objMaps h ms := by
  obtain ⟨h1, h2, h3, h4⟩ := hm
  have k1 := objects_closed_aux (obj := fun a => [a]) h1 (fun b v hb => ⟨by simp, fun x hx => (by obtain rfl := List.mem_singleton.1 hx; exact ⟨_, hb, by simp [pointers]⟩)⟩)
  have k4 := objects_closed_aux (obj := fun a => [a]) h4 (fun b v hb => ⟨by simp, fun x hx => (by obtain rfl := List.mem_singleton.1 hx; exact ⟨_, hb, by simp [pointers]⟩)⟩)
  unfold objMaps
  intro x hx
  simp only [List.mem_append, List.mem_cons] at hx ⊢
  rcases hx with hx | rfl | rfl | hx
  · obtain ⟨c, hc, hc'⟩ := k1 x hx
    exact ⟨c, hc, fun y hy => .inl (hc' y hy)⟩
  · exact ⟨_, h2, by simp [pointers]⟩
  · exact ⟨_, h3, by simp [pointers]⟩
  · obtain ⟨c, hc, hc'⟩ := k4 x hx
    exact ⟨c, hc, fun y hy => .inr (.inr (.inr (hc' y hy)))⟩

theorem objJob_closed {h : Heap} (a : Addr) (j : JobAgg) (hj : jobIn h.all a j) :
    a ∈ objJob h a ∧ ∀ x ∈ objJob h a, ∃ c, h.cells[x]? = some c ∧ ∀ y ∈ pointers c, y ∈ objJob h a := by
  obtain ⟨ms, e, hm⟩ := hj
  have e' : h.cells[a]? = some (.job ms j.timer (countsOf j)) := e
  unfold objJob
  rw [e']
  dsimp only
  refine ⟨by simp, fun x hx => ?_⟩
  rcases List.mem_cons.1 hx with rfl | hx
  · refine ⟨_, e', fun y hy => List.mem_cons_of_mem _ ?_⟩
    unfold objMaps
    have h1 := mem_objRefs h (fun a => [a]) ms.timers
    have h4 := mem_objRefs h (fun a => [a]) ms.eventErrs
    simp only [pointers, List.mem_cons, List.not_mem_nil, or_false] at hy
    simp only [List.mem_append, List.mem_cons]
    rcases hy with rfl | rfl | rfl | rfl
    · exact .inl h1
    · exact .inr (.inl rfl)
    · exact .inr (.inr (.inl rfl))
    · exact .inr (.inr (.inr h4))
  · obtain ⟨c, hc, hc'⟩ := objMaps_closed hm x hx
    exact ⟨c, hc, fun y hy => List.mem_cons_of_mem _ (hc' y hy)⟩

/-- everything that can be reached from an aggregation is in its list of objects. -/
theorem objInt_closed {h : Heap} {a : Addr} {v : IntAgg} (hv : readInt h a = some v) :
    ∀ x ∈ objInt h a, ∃ c, h.cells[x]? = some c ∧ ∀ y ∈ pointers c, y ∈ objInt h a := by
  obtain ⟨jobs, ms, e, hj, hm⟩ := intIn_of_read hv
  have e' : h.cells[a]? = some (.int v.start v.serial jobs ms) := e
  have hjc := objects_closed_aux hj objJob_closed
  have hmc := objMaps_closed hm
  unfold objInt
  rw [e']
  dsimp only
  intro x hx
  rcases List.mem_cons.1 hx with rfl | hx
  · refine ⟨_, e', fun y hy => List.mem_cons_of_mem _ ?_⟩
    unfold objMaps
    have h0 := mem_objRefs h (objJob h) jobs
    have h1 := mem_objRefs h (fun a => [a]) ms.timers
    have h4 := mem_objRefs h (fun a => [a]) ms.eventErrs
    simp only [pointers, List.mem_cons, List.not_mem_nil, or_false] at hy
    simp only [List.mem_append, List.mem_cons]
    rcases hy with rfl | rfl | rfl | rfl | rfl
    · exact .inl h0
    · exact .inr (.inl h1)
    · exact .inr (.inr (.inl rfl))
    · exact .inr (.inr (.inr (.inl rfl)))
    · exact .inr (.inr (.inr (.inr h4)))
  · rcases List.mem_append.1 hx with hx | hx
    · obtain ⟨c, hc, hc'⟩ := hjc x hx
      exact ⟨c, hc, fun y hy => List.mem_cons_of_mem _ (List.mem_append.2 (.inl (hc' y hy)))⟩
    · obtain ⟨c, hc, hc'⟩ := hmc x hx
      exact ⟨c, hc, fun y hy => List.mem_cons_of_mem _ (List.mem_append.2 (.inr (hc' y hy)))⟩

/-- Property C25: `a.Merge(b)`, where the objects of `a` are all different and none of them is one of `b`: `a` then reads as the merge of both,
`b` as before, only objects of `a` and new objects have been written, and from there on `a` and `b` are separate. -/
theorem C25_merge {h : Heap} {a b : Addr} {v w : IntAgg} (hv : readInt h a = some v) (hw : readInt h b = some w) (hn : (objInt h a).Nodup)
    (hd : ∀ x ∈ objInt h a, x ∉ objInt h b) :
    ∃ h', mergeInt a b h = some ((), h') ∧ readInt h' a = some (v.merge w) ∧ readInt h' b = some w ∧
      (∀ x, x < h.cells.length → x ∉ objInt h a → h'.cells[x]? = h.cells[x]? ∧ ¬WrittenSince h h' x) ∧
      (∀ x, Reach h b x → h'.cells[x]? = h.cells[x]? ∧ ¬WrittenSince h h' x) ∧
      (∀ x, Reach h' a x → x ∈ objInt h a ∨ h.cells.length ≤ x) ∧
      Separate h' (fun x => x = a) (fun x => x = b) := by
  have hcb := objInt_closed hw
  have hbl : ∀ x ∈ objInt h b, x < h.cells.length := fun x hx => by
    obtain ⟨c, hc, _⟩ := hcb x hx
    exact (List.getElem?_eq_some_iff.1 hc).1
  have hbs : ClosedSet h (· ∈ objInt h b) := by
    intro x c hx e y hy
    obtain ⟨c', hc, hc'⟩ := hcb x hx
    rw [e] at hc
    cases hc
    exact hc' y hy
  have hbb : b ∈ objInt h b := by unfold objInt; simp
  have hq : intIn (h.only (objInt h b)) b w := by
    refine (intIn_of_read hw).restrict hbs (fun x c hx e => ?_) hbb
    unfold Heap.only
    rw [if_pos hx]
    exact e
  obtain ⟨⟨⟩, h', p', e, hp, hi, hf, hdom⟩ := mergeInt_spec b w hq a v h _ (intR_only (intIn_of_read hv) hn) (only_disj hd) (only_in h _) (only_in h _)
  have hu : ∀ x, x < h.cells.length → x ∉ objInt h a → h'.cells[x]? = h.cells[x]? ∧ ¬WrittenSince h h' x :=
    fun x hx hn => hf.untouched hx (fun hc => hn (only_dom hc))
  have hub : ∀ x ∈ objInt h b, h'.cells[x]? = h.cells[x]? ∧ ¬WrittenSince h h' x := fun x hx => hu x (hbl x hx) (fun hc => hd x hc hx)
  obtain ⟨hcl, hda⟩ := intR_whole _ _ _ hp
  have hnew : ∀ x, p'.dom x → x ∈ objInt h a ∨ h.cells.length ≤ x := fun x hx => (hdom x hx).imp only_dom id
  have hrb : ∀ x, Reach h b x → x ∈ objInt h b := fun x hx => closedSet_reach hbs hbb hx
  refine ⟨h', e, (intR_in hp (.refl _)).read hi, ?_, hu, fun x hx => hub x (hrb x hx), fun x hx => hnew x (hcl.reach hi hda hx), ?_⟩
  · rw [readInt_congr (fun x hx => (hub x (hrb x hx)).1), hw]
  · refine Separate.of_closed (S := p'.dom) (T := (· ∈ objInt h b)) (hcl.set hi) (fun x c hx e y hy => ?_) (fun x hx hx' => ?_) (fun x hx => hi.lt hx) (fun x hx => ?_)
      (fun x hx => hx ▸ hda) (fun x hx => hx ▸ hbb)
    · rw [(hub x hx).1] at e
      exact hbs x c hx e y hy
    · rcases hnew x hx with h1 | h1
      · exact hd x h1 hx'
      · have := hbl x hx'
        omega
    · have := hbl x hx
      have := hf.len
      omega

/-- Property C25: after `a.Merge(b)` two pieces of code run in turns for ever, one with the pointer `a`, the other one with `b`: neither ever sees
anything that the other one does. -/
theorem C25_independent {h h' h1 h2 : Heap} {a b : Addr} {v w : IntAgg} {K1 L1 J : Addr → Prop} (hv : readInt h a = some v) (hw : readInt h b = some w)
    (hn : (objInt h a).Nodup) (hd : ∀ x ∈ objInt h a, x ∉ objInt h b) (hm : mergeInt a b h = some ((), h'))
    (hd : Duo h' (fun x => x = a) (fun x => x = b) h1 K1 L1) :
    (Client h1 K1 h2 J → ∀ l, L1 l → readInt h2 l = readInt h1 l ∧ ∀ x, Reach h1 l x → h2.cells[x]? = h1.cells[x]? ∧ ¬WrittenSince h1 h2 x) ∧
    (Client h1 L1 h2 J → ∀ k, K1 k → readInt h2 k = readInt h1 k ∧ ∀ x, Reach h1 k x → h2.cells[x]? = h1.cells[x]? ∧ ¬WrittenSince h1 h2 x) := by
  obtain ⟨h'', e, _, _, _, _, _, hs⟩ := C25_merge hv hw hn ‹_›
  rw [hm] at e
  cases e
  have hs1 := hs.duo hd
  exact ⟨fun hcl l hl => ⟨((unseen hs1 hcl).1 l hl).1, fun x hx => (unseen hs1 hcl).2 l x hl hx⟩,
    fun hcl k hk => ⟨((unseen hs1.symm hcl).1 k hk).1, fun x hx => (unseen hs1.symm hcl).2 k x hk hx⟩⟩

/-! ## C15 -/

/-- a new sink after a history. -/
def sinkAfter (d r : Int) (h : List (Time × AggOp)) : Option Sink := (start d r).bind (·.run h)

theorem sinkAfter_inv (d r : Int) (h : List (Time × AggOp)) :
    ((newAggregator d r).bind (·.run h) = none ∧ sinkAfter d r h = none) ∨ ∃ A s vss q, (newAggregator d r).bind (·.run h) = some A ∧
      sinkAfter d r h = some s ∧ Inv s A vss q := by
  unfold sinkAfter
  rcases start_inv d r with ⟨h1, h2⟩ | ⟨A, s, h1, h2, hI⟩
  · left
    rw [h1, h2]
    exact ⟨rfl, rfl⟩
  · rw [h1, h2]
    rcases run_inv hI h with h3 | ⟨A', s', q', h3, h4, _, _, hI'⟩
    · exact .inl h3
    · exact .inr ⟨A', s', _, q', h3, h4, hI'⟩

/-- In memory a sink gets through the same histories as the model of values; with sensible settings through every history. -/
theorem C15_runs (d r : Int) (h : List (Time × AggOp)) :
    (sinkAfter d r h).isSome = ((newAggregator d r).bind (·.run h)).isSome ∧ (0 < d → d ≤ r → (sinkAfter d r h).isSome = true) := by
  have h1 : (sinkAfter d r h).isSome = ((newAggregator d r).bind (·.run h)).isSome := by
    rcases sinkAfter_inv d r h with ⟨h1, h2⟩ | ⟨A, s, vss, q, h1, h2, _⟩ <;> rw [h1, h2] <;> rfl
  refine ⟨h1, fun hd hr => ?_⟩
  obtain ⟨a0, a, h2, h3, _⟩ := run_refines hd hr h
  rw [h1, h2, Option.bind_some, h3]
  rfl

/-- Property C15: whatever happens after a snapshot was handed out (emissions, ticks, other snapshots, a clock that goes anywhere), no memory that
can be reached from it is written, and a reader sees for ever what it saw at first. -/
theorem C15_untouched {d r : Int} {before after : List (Time × AggOp)} {s s' : Sink} (hs : sinkAfter d r before = some s) (hs' : s.run after = some s')
    {snap : Addr} (hsnap : snap ∈ s.snapshots) :
    (∀ x, Reach s.heap snap x → x < s.heap.cells.length ∧ s'.heap.cells[x]? = s.heap.cells[x]? ∧ ¬WrittenSince s.heap s'.heap x) ∧
    readSlice s'.heap snap = readSlice s.heap snap ∧ (readSlice s.heap snap).isSome = true ∧ snap ∈ s'.snapshots := by
  rcases sinkAfter_inv d r before with ⟨_, h2⟩ | ⟨A, s0, vss, q, _, h2, hI⟩
  · rw [hs] at h2; cases h2
  · rw [hs] at h2
    cases h2
    rcases run_inv hI after with ⟨_, h3⟩ | ⟨A', s1, q', _, h3, hsub, hf, hI'⟩
    · rw [hs'] at h3; cases h3
    · rw [hs'] at h3
      cases h3
      obtain ⟨p, ho, _⟩ := hI.owns
      obtain ⟨vs, hvs⟩ : ∃ vs, sliceIn q snap vs := by
        have hall := hI.snapshots
        clear hI hI'
        generalize s.snapshots = ss at hall hsnap
        induction hall with
        | nil => simp at hsnap
        | cons hx _ ih =>
          rcases List.mem_cons.1 hsnap with rfl | hm
          · exact ⟨_, hx⟩
          · exact ih hm
      have hdom : q.dom snap := by
        obtain ⟨l, e, _⟩ := hvs
        exact dom_of_some e
      have hreach : ∀ x, Reach s.heap snap x → q.dom x := fun x hx => ho.closed.reach ho.read hdom hx
      have hun : ∀ x, Reach s.heap snap x → s'.heap.cells[x]? = s.heap.cells[x]? ∧ ¬WrittenSince s.heap s'.heap x :=
        fun x hx => hf.untouched (ho.read.lt (hreach x hx)) (fun hc => hc (hreach x hx))
      refine ⟨fun x hx => ⟨ho.read.lt (hreach x hx), hun x hx⟩, readSlice_congr (fun x hx => (hun x hx).1), by rw [hvs.read ho.read]; rfl, ?_⟩
      have hmono : ∀ (h : List (Time × AggOp)) (s s' : Sink), s.run h = some s' → ∀ x ∈ s.snapshots, x ∈ s'.snapshots := by
        intro h
        induction h with
        | nil => intro s s' e x hx; cases e; exact hx
        | cons y h ih =>
          intro s s' e x hx
          obtain ⟨t, op⟩ := y
          simp only [Sink.run] at e
          obtain ⟨s1, e1, e2⟩ := Option.bind_eq_some_iff.1 e
          refine ih s1 s' e2 x ?_
          cases op <;>
          · unfold Sink.step at e1
            obtain ⟨⟨_, _⟩, _, rfl⟩ := Option.map_eq_some_iff.1 e1
            simp [hx]
      exact hmono after s s' hs' snap hsnap

/-- Property C15: and what a reader sees in a snapshot, at once and for ever, is what the model of values says that `GetMetrics` returns. -/
theorem C15_contents {d r : Int} {before after : List (Time × AggOp)} {t : Time} {s s' : Sink} (hs : sinkAfter d r (before ++ [(t, .read)]) = some s)
    (hs' : s.run after = some s') :
    ∃ snap, s.snapshots.head? = some snap ∧ readSlice s'.heap snap = getMetrics d r before t ∧ (getMetrics d r before t).isSome = true := by
  have hsplit : sinkAfter d r (before ++ [(t, .read)]) = (sinkAfter d r before).bind (·.step t .read) := by
    clear hs
    unfold sinkAfter
    cases start d r with
    | none => rfl
    | some s0 =>
      simp only [Option.bind_some]
      generalize s0 = s1
      induction before generalizing s1 with
      | nil =>
        simp only [List.nil_append, Sink.run, Option.bind_some]
        cases s1.step t .read <;> rfl
      | cons y h ih =>
        obtain ⟨t', op⟩ := y
        simp only [List.cons_append, Sink.run]
        cases s1.step t' op with
        | none => rfl
        | some s2 => exact ih s2
  rcases sinkAfter_inv d r before with ⟨_, h2⟩ | ⟨A, s0, vss, q, h1, h2, hI⟩
  · rw [hsplit, h2] at hs; cases hs
  · rw [hsplit, h2] at hs
    have hs : s0.step t .read = some s := hs
    cases hA : A.step t .read with
    | none =>
      rw [step_none hI hA] at hs; cases hs
    | some A' =>
      obtain ⟨s1, q', e, _, _, hI'⟩ := step_some hI hA
      rw [hs] at e
      cases e
      have hall := hI'.snapshots
      unfold snapValues at hall
      generalize hss : s.snapshots = ss at hall
      cases hall with
      | @cons snap _ ss' _ hx _ =>
        obtain ⟨p, ho, _⟩ := hI'.owns
        have hmem : snap ∈ s.snapshots := by rw [hss]; simp
        have hb : sinkAfter d r (before ++ [(t, .read)]) = some s := by rw [hsplit, h2]; exact hs
        have hg : getMetrics d r before t = some (modifyLast IntAgg.clone A'.intervals) := by
          have h0 : (A.memorySafeIntervals t).map (·.1) = some A' := hA
          unfold getMetrics
          cases hn : newAggregator d r with
          | none => rw [hn] at h1; cases h1
          | some a0 =>
            rw [hn] at h1
            have h1 : a0.run before = some A := h1
            simp only [Option.bind_some, h1]
            unfold Aggregator.memorySafeIntervals at h0 ⊢
            cases hsl : A.slide t with
            | none => rw [hsl] at h0; cases h0
            | some a1 => rw [hsl] at h0; cases h0; rfl
        refine ⟨snap, rfl, ?_, by rw [hg]; rfl⟩
        rw [(C15_untouched hb hs' hmem).2.1, hx.read ho.read, hg]

/-! ## A concrete history: two intervals, two jobs, all kinds of emissions, two snapshots -/
namespace Sample
def t (n : Int) : Time := ⟨n, 1⟩
def hist : List (Time × AggOp) :=
  [(t 100, .emit (.event (bs "j") (bs "e"))), (t 101, .emit (.timing (bs "j") (bs "tm") 7)), (t 112, .emit (.eventErr (bs "k") (bs "x") (some ⟨bs "boom"⟩))),
   (t 113, .emit (.gauge (bs "k") (bs "g") (.fin 2))), (t 114, .read), (t 115, .emit (.complete (bs "k") Status.success 9))]
def more : List (Time × AggOp) := [(t 116, .emit (.event (bs "k") (bs "e"))), (t 103, .emit (.event (bs "j") (bs "e"))), (t 150, .tick), (t 151, .read)]

/-- the sink after `hist`. -/
def sink : Sink := (sinkAfter 10 30 hist).getD ⟨⟨[], []⟩, ⟨0, 0, 0, 0⟩, []⟩

example : sinkAfter 10 30 hist = some sink := by decide +kernel
example : (sink.run more).isSome = true := by decide +kernel
example : sink.snapshots.length = 1 := by decide +kernel
/-- the snapshot before the last emission: the second interval holds two emissions; the one in the sink holds three. -/
example : (readSlice sink.heap (sink.snapshots.headD 0)).map (·.map fun ia => (ia.start.ns, ia.serial)) = some [(100, 2), (110, 2)] := by decide +kernel
example : (readSlice sink.heap sink.agg.intervals).map (·.map fun ia => (ia.start.ns, ia.serial)) = some [(100, 2), (110, 3)] := by decide +kernel
/-- the later history writes to the memory and makes new objects. -/
example : (sink.run more).map (fun s => (decide (s.heap.written.length > sink.heap.written.length), decide (s.heap.cells.length > sink.heap.cells.length))) =
    some (true, true) := by decide +kernel

/-- the two intervals of the window. -/
def first : Addr := match sink.heap.cells[sink.agg.intervals]? with
  | some (.array (a :: _)) => a
  | _ => 0
def second : Addr := match sink.heap.cells[sink.agg.intervals]? with
  | some (.array [_, b]) => b
  | _ => 0
/-- the hypotheses of C24 and C25 hold for the two intervals of the window. -/
example : (readInt sink.heap first).isSome = true ∧ (readInt sink.heap second).isSome = true ∧ first ≠ second := by decide +kernel
example : (objInt sink.heap first).Nodup ∧ ∀ x ∈ objInt sink.heap first, x ∉ objInt sink.heap second := by decide +kernel
example : ∀ c ∈ sink.heap.cells, ∀ b ∈ pointers c, b < sink.heap.cells.length := by decide +kernel
example : ((cloneInt second sink.heap).bind fun (c, h) => readInt h c) = readInt sink.heap second := by decide +kernel
example : ((mergeInt first second sink.heap).bind fun (_, h) => readInt h first).map (fun ia => (ia.serial, ia.maps.timers.length, ia.maps.gauges.length, ia.jobs.length)) =
    some (3, 1, 1, 2) := by decide +kernel
/-- the first interval with another serial number. -/
def edited : Cell := match sink.heap.cells[first]? with
  | some (.int s _ jobs ms) => .int s 99 jobs ms
  | _ => .array []
end Sample

theorem client_followAll {h h' : Heap} {K K' : Addr → Prop} {a : Addr} {c : Cell} (hc : Client h K h' K') (ha : K' a) (e : h'.cells[a]? = some c) :
    ∃ K'', Client h K h' K'' ∧ (∀ x, K' x → K'' x) ∧ ∀ b ∈ pointers c, K'' b := by
  have : ∀ l : List Addr, (∀ b ∈ l, b ∈ pointers c) → ∃ K'', Client h K h' K'' ∧ (∀ x, K' x → K'' x) ∧ ∀ b ∈ l, K'' b := by
    intro l
    induction l with
    | nil => exact fun _ => ⟨K', hc, fun x hx => hx, by simp⟩
    | cons b t ih =>
      intro hl
      obtain ⟨K'', h1, h2, h3⟩ := ih (fun x hx => hl x (by simp [hx]))
      refine ⟨_, h1.follow (h2 a ha) e (hl b (by simp)), fun x hx => .inl (h2 x hx), fun x hx => ?_⟩
      rcases List.mem_cons.1 hx with rfl | hx
      · exact .inr rfl
      · exact .inl (h3 x hx)
  exact this _ (fun _ h => h)

/-- What C15 does not say, and what is false: that a program may write to a snapshot (say `intervals[0].Merge(intervals[1])`) without changing what
the sink returns later.  The intervals before the current one are not copied.  Here the program only sets the serial number of one of them. -/
theorem C15_writers_false : ∃ (s : Sink) (snap : Addr) (h' : Heap) (K' : Addr → Prop) (t : Time),
    sinkAfter 10 30 Sample.hist = some s ∧ snap ∈ s.snapshots ∧ Client s.heap (fun x => x = snap) h' K' ∧
    (({ s with heap := h' } : Sink).step t .read).map (fun s' => readSlice s'.heap (s'.snapshots.headD 0)) ≠ some (getMetrics 10 30 Sample.hist t) := by
  obtain ⟨K1, h1, _, h3⟩ := client_followAll (c := (Sample.sink.heap.cells[Sample.sink.snapshots.headD 0]?).getD (.array []))
    (Client.done (h := Sample.sink.heap) (K := fun x => x = Sample.sink.snapshots.headD 0)) rfl (by decide +kernel)
  obtain ⟨K2, h4, h5, h6⟩ := client_followAll (a := Sample.first) (c := (Sample.sink.heap.cells[Sample.first]?).getD (.array [])) h1 (h3 _ (by decide +kernel)) (by decide +kernel)
  refine ⟨Sample.sink, Sample.sink.snapshots.headD 0, ⟨Sample.sink.heap.cells.set Sample.first Sample.edited, Sample.first :: Sample.sink.heap.written⟩, _, Sample.t 116,
    by decide +kernel, by decide +kernel, Client.overwrite (a := Sample.first) (c := Sample.edited) h4 (h5 _ (h3 _ (by decide +kernel))) (fun b hb => h6 b ?_) (by decide +kernel),
    by decide +kernel⟩
  have e : pointers Sample.edited = pointers ((Sample.sink.heap.cells[Sample.first]?).getD (.array [])) := by decide +kernel
  rwa [← e]

end Mem
