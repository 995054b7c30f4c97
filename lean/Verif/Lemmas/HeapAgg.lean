import Verif.Lemmas.HeapSep
/-! The window of the aggregator in memory: an invariant, and that every step does what it does to values. -/
namespace Mem
open Spec.Memory

theorem read_loadArray {β : Type} {q : Part} {G : Assn} {R : β → Assn} {a : Addr} {l : List Addr} {f : List Addr → Cmd β} (ha : q a = some (.array l))
    (h : Triple q G (f l) R) : Triple q G (loadArray a >>= f) R := by
  unfold loadArray; rw [bind_assoc]; exact step_read ha h

/-- the window: the intervals before the current one can only be read, the current one is owned. -/
def winR (q : Part) (arr : Addr) (init : List Addr) (ivs : List IntAgg) (c : Addr) (v : IntAgg) (p : Part) : Prop :=
  List.Forall₂ (intIn q) init ivs ∧ (arr ↦ .array (init ++ [c]) ∗ intR c v) p

structure Owns (q p : Part) (h : Heap) : Prop where
  disj : p.Disj q
  own : p.In h
  read : q.In h
  closed : Closed q

theorem createInt_spec {q : Part} (a : Agg) (t : Time) (l : List Addr) (hl : ¬((l.length : Int) = a.maxIntervals ∧ l.length = 0)) :
    Triple q (a.intervals ↦ .array l) (createInt a t)
      (fun c => a.intervals ↦ .array ((if (l.length : Int) = a.maxIntervals then l.tail else l) ++ [c]) ∗ intR c (.new t)) := by
  unfold createInt
  refine Triple.bind (Triple.emp (newInt_spec t)) (fun c => step_loadArray ?_)
  by_cases h1 : (l.length : Int) = a.maxIntervals
  · have h2 : l.length ≠ 0 := fun h => hl ⟨h1, h⟩
    simp only [if_pos h1, if_neg h2]
    exact step_store (Triple.pure (Q := fun c => a.intervals ↦ .array (l.tail ++ [c]) ∗ intR c (.new t)) c)
  · simp only [if_neg h1]
    exact step_store (Triple.pure (Q := fun c => a.intervals ↦ .array (l ++ [c]) ∗ intR c (.new t)) c)

/-- what the model of values does to the list of intervals. -/
theorem create_intervals {A A' : Aggregator} {t : Time} (h : A.create t = some A') :
    A' = { A with intervals := (if (A.intervals.length : Int) = A.maxIntervals then A.intervals.tail else A.intervals) ++ [IntAgg.new t] } ∧
    ¬((A.intervals.length : Int) = A.maxIntervals ∧ A.intervals.length = 0) := by
  unfold Aggregator.create at h
  dsimp only at h
  split_ifs at h with h1 h2
  · cases h
    refine ⟨by rw [if_pos h1], fun hc => h2 hc.2⟩
  · cases h
    refine ⟨by rw [if_neg h1], fun hc => h1 hc.1⟩

theorem Frame.of_disj {q p : Part} {h h' : Heap} (hf : Frame p.dom h h') (hd : p.Disj q) : Frame (fun x => ¬q.dom x) h h' :=
  hf.mono (fun x hx => .inl (fun hc => (hd x).elim hx hc))

/-- the window after a slide. -/
structure Slid (agg : Agg) (now : Time) (A' : Aggregator) (q : Part) (h : Heap) : Prop where
  result : ∃ cur h' q' p' init ivs v, getInt agg now h = some (cur, h') ∧ q.Sub q' ∧ Owns q' p' h' ∧ A'.intervals = ivs ++ [v] ∧
    winR q' agg.intervals init ivs cur v p' ∧ Frame (fun x => ¬q.dom x) h h'

theorem owns_after {q p p' : Part} {h h' : Heap} (ho : Owns q p h) (hi : p'.In h') (hf : Frame p.dom h h')
    (hd : ∀ x, p'.dom x → p.dom x ∨ h.cells.length ≤ x) : Owns q p' h' :=
  ⟨disj_of_new ho.read ho.disj hd, hi, ho.read.frame hf (fun x hx hc => (ho.disj x).elim hc hx), ho.closed⟩

theorem forall₂_tail {α β : Type} {R : α → β → Prop} {l : List α} {l' : List β} (h : List.Forall₂ R l l') : List.Forall₂ R l.tail l'.tail := by
  cases h with
  | nil => exact .nil
  | cons _ h => exact h

theorem getInt_first {agg : Agg} {A A' : Aggregator} {now : Time} {q p : Part} {h : Heap} (hd : agg.intervalDuration = A.intervalDuration)
    (hm : agg.maxIntervals = A.maxIntervals) (ho : Owns q p h) (he : A.intervals = []) (hp : (agg.intervals ↦ .array []) p) (hs : A.slide now = some A') :
    Slid agg now A' q h := by
  unfold Aggregator.slide at hs
  rw [he] at hs
  simp only [List.getLast?_nil] at hs
  obtain ⟨rfl, hn⟩ := create_intervals hs
  rw [he, ← hm] at hn
  have ht : Triple q (agg.intervals ↦ .array []) (getInt agg now) (fun c => agg.intervals ↦ .array [c] ∗ intR c (.new (now.truncate agg.intervalDuration))) := by
    unfold getInt
    refine Triple.conseq (P := agg.intervals ↦ .array [] ∗ emp) (step_loadArray ?_) (Entails.of_eq (sep_emp _).symm) (fun _ => Entails.refl _)
    rw [sep_emp]
    refine (createInt_spec agg _ [] hn).conseq (Entails.refl _) (fun c => Entails.of_eq ?_)
    simp
  obtain ⟨c, h', p', e, hq, hi, hf, hdom⟩ := ht h p hp ho.disj ho.own ho.read
  refine ⟨c, h', q, p', [], [], .new (now.truncate agg.intervalDuration), e, .refl _, owns_after ho hi hf hdom, ?_, ⟨.nil, hq⟩, hf.of_disj ho.disj⟩
  rw [he, hd]
  simp

theorem getInt_next {agg : Agg} {A A' : Aggregator} {now : Time} {q p : Part} {h : Heap} {init : List Addr} {ivs : List IntAgg} {c : Addr} {v : IntAgg}
    (hd : agg.intervalDuration = A.intervalDuration) (hm : agg.maxIntervals = A.maxIntervals) (ho : Owns q p h) (he : A.intervals = ivs ++ [v])
    (hp : winR q agg.intervals init ivs c v p) (hs : A.slide now = some A') : Slid agg now A' q h := by
  obtain ⟨hr, hp⟩ := hp
  unfold Aggregator.slide at hs
  rw [he] at hs
  simp only [List.getLast?_append, List.getLast?_singleton, Option.some_or] at hs
  by_cases hst : v.start = now.truncate A.intervalDuration
  · rw [if_pos hst] at hs
    cases hs
    have ht : Triple q (agg.intervals ↦ .array (init ++ [c]) ∗ intR c v) (getInt agg now)
        (fun r => lift (r = c) ∗ (agg.intervals ↦ .array (init ++ [c]) ∗ intR c v)) := by
      unfold getInt
      refine step_loadArray ?_
      simp only [List.getLast?_append, List.getLast?_singleton, Option.some_or]
      refine Triple.conseq (P := intR c v ∗ agg.intervals ↦ .array (init ++ [c])) ?_ (Entails.of_eq (sep_comm _ _)) (fun _ => Entails.refl _)
      have hex : intR c v ∗ agg.intervals ↦ .array (init ++ [c]) = ex _ := ex_sep _ _
      rw [hex]
      refine Triple.ex (fun x => ?_)
      rw [sep_assoc]
      refine step_loadInt ?_
      dsimp only
      rw [if_pos (by rw [hst, hd])]
      refine (Triple.pure (Q := fun r => lift (r = c) ∗ (agg.intervals ↦ .array (init ++ [c]) ∗ intR c v)) c).conseq ?_ (fun _ => Entails.refl _)
      intro p hp
      refine lift_sep.2 ⟨rfl, ?_⟩
      rw [← sep_assoc, sep_comm] at hp
      exact sep_mono (Entails.refl _) (fun p hp => ⟨x, hp⟩) p hp
    obtain ⟨c', h', p', e, hq, hi, hf, hdom⟩ := ht h p hp ho.disj ho.own ho.read
    obtain ⟨rfl, hq⟩ := lift_sep.1 hq
    exact ⟨c', h', q, p', init, ivs, v, e, .refl _, owns_after ho hi hf hdom, he, ⟨hr, hq⟩, hf.of_disj ho.disj⟩
  · rw [if_neg hst] at hs
    obtain ⟨rfl, _⟩ := create_intervals hs
    obtain ⟨p1, p2, h1, h2, hdp, rfl⟩ := hp
    obtain ⟨d1, d2⟩ := Part.disj_union.1 ho.disj
    have hc2 := intR_whole _ _ _ h2
    have hsub : q.Sub (p2.union q) := fun x cl e => Part.union_some.2 (.inr ⟨(d2 x).resolve_right (by rw [e]; simp), e⟩)
    have hcv : intIn (p2.union q) c v := intR_in h2 (fun x cl e => Part.union_some.2 (.inl e))
    have ho' : Owns (p2.union q) p1 h := ⟨Part.disj_union'.2 ⟨hdp, d1⟩, ho.own.left, (ho.own.right hdp).union ho.read, hc2.1.union ho.closed⟩
    have ht : Triple (p2.union q) (agg.intervals ↦ .array (init ++ [c])) (getInt agg now)
        (fun r => agg.intervals ↦ .array ((if ((init ++ [c]).length : Int) = agg.maxIntervals then (init ++ [c]).tail else init ++ [c]) ++ [r]) ∗
          intR r (.new (now.truncate agg.intervalDuration))) := by
      unfold getInt
      refine Triple.conseq (P := agg.intervals ↦ .array (init ++ [c]) ∗ emp) (step_loadArray ?_) (Entails.of_eq (sep_emp _).symm) (fun _ => Entails.refl _)
      simp only [List.getLast?_append, List.getLast?_singleton, Option.some_or]
      rw [sep_emp]
      obtain ⟨jobs, ms, ec, _⟩ := hcv
      refine read_loadInt ec ?_
      dsimp only
      rw [if_neg (by rw [hd]; exact hst)]
      exact createInt_spec agg _ _ (by simp)
    obtain ⟨c', h', p', e, hq, hi, hf, hdom⟩ := ht h p1 h1 ho'.disj ho'.own ho'.read
    have hall : List.Forall₂ (intIn (p2.union q)) (init ++ [c]) (ivs ++ [v]) :=
      List.rel_append (hr.imp (fun _ _ h => h.mono hsub)) (.cons hcv .nil)
    have hlen : (init ++ [c]).length = (ivs ++ [v]).length := hall.length_eq
    refine ⟨c', h', _, p', _, (if ((ivs ++ [v]).length : Int) = A.maxIntervals then (ivs ++ [v]).tail else ivs ++ [v]),
      .new (now.truncate agg.intervalDuration), e, hsub, owns_after ho' hi hf hdom, ?_, ⟨?_, hq⟩, (hf.of_disj d1)⟩
    · rw [hd, he]
    · rw [hlen, hm]
      split_ifs
      · exact forall₂_tail hall
      · exact hall

/-- the window of the aggregator. -/
def Window (q : Part) (arr : Addr) (vs : List IntAgg) (p : Part) : Prop :=
  (vs = [] ∧ (arr ↦ .array []) p) ∨ ∃ init ivs c v, vs = ivs ++ [v] ∧ winR q arr init ivs c v p

theorem getInt_some {agg : Agg} {A A' : Aggregator} {now : Time} {q p : Part} {h : Heap} (hd : agg.intervalDuration = A.intervalDuration)
    (hm : agg.maxIntervals = A.maxIntervals) (ho : Owns q p h) (hw : Window q agg.intervals A.intervals p) (hs : A.slide now = some A') :
    Slid agg now A' q h := by
  rcases hw with ⟨he, hp⟩ | ⟨init, ivs, c, v, he, hp⟩
  · exact getInt_first hd hm ho he hp hs
  · exact getInt_next hd hm ho he hp hs

theorem getInt_none {agg : Agg} {A : Aggregator} {now : Time} {q p : Part} {h : Heap}
    (hm : agg.maxIntervals = A.maxIntervals) (ho : Owns q p h) (hw : Window q agg.intervals A.intervals p) (hs : A.slide now = none) :
    getInt agg now h = none := by
  have hcr : ∀ t, A.create t = none → A.intervals.length = 0 ∧ A.maxIntervals = 0 := by
    intro t e
    unfold Aggregator.create at e
    dsimp only at e
    split_ifs at e with h1 h2
    exact ⟨h2, by rw [← h1, h2]; rfl⟩
  have h0 : A.intervals.length = 0 ∧ A.maxIntervals = 0 := by
    unfold Aggregator.slide at hs
    dsimp only at hs
    split at hs
    · split_ifs at hs
      exact hcr _ hs
    · exact hcr _ hs
  rcases hw with ⟨he, hp⟩ | ⟨init, ivs, c, v, he, hp⟩
  · have hc := pto_in hp ho.own
    obtain ⟨r, h', p', e, hq, hi, hf, hdom⟩ := (Triple.emp (P := agg.intervals ↦ .array []) (newInt_spec (q := q) (now.truncate agg.intervalDuration))) h p hp ho.disj ho.own ho.read
    obtain ⟨p1, p2, h1, h2, hdp, rfl⟩ := hq
    have hc' := pto_in h1 hi.left
    have hla : ∀ {h : Heap} {l : List Addr}, h.cells[agg.intervals]? = some (.array l) → loadArray agg.intervals h = some (l, h) := by
      intro h l e
      unfold loadArray load
      show ((h.cells[agg.intervals]?).map _).bind _ = _
      rw [e]
      rfl
    unfold getInt
    show (loadArray agg.intervals h).bind _ = _
    rw [hla hc]
    show createInt agg _ h = _
    unfold createInt
    show (newInt _ h).bind _ = _
    rw [e]
    show (loadArray agg.intervals h').bind _ = _
    rw [hla hc']
    simp only [Option.bind_some, List.length_nil, hm, h0.2, Nat.cast_zero, if_true]
    rfl
  · rw [he] at h0
    simp at h0

/-! ## A running sink -/

/-- `snap` is an array of aggregations that can be read as `vs`. -/
def sliceIn (q : Part) (snap : Addr) (vs : List IntAgg) : Prop := ∃ l, q snap = some (.array l) ∧ List.Forall₂ (intIn q) l vs

theorem sliceIn.mono {q q' : Part} {snap : Addr} {vs : List IntAgg} (h : sliceIn q snap vs) (hs : q.Sub q') : sliceIn q' snap vs := by
  obtain ⟨l, e, h⟩ := h
  exact ⟨l, hs _ _ e, h.imp (fun _ _ h => h.mono hs)⟩
theorem sliceIn.read {q : Part} {h : Heap} (hq : q.In h) {snap : Addr} {vs : List IntAgg} (hs : sliceIn q snap vs) : readSlice h snap = some vs := by
  obtain ⟨l, e, hl⟩ := hs
  unfold readSlice
  rw [hq _ _ e]
  dsimp only
  clear e
  induction hl with
  | nil => rfl
  | cons hx _ ih =>
    rw [List.mapM_cons, hx.read hq, ih]
    rfl

/-- the sink `s` stands for the aggregator `A` and has handed out snapshots with the values `vss`; `q` is the part of the memory that is never
written again. -/
structure Inv (s : Sink) (A : Aggregator) (vss : List (List IntAgg)) (q : Part) : Prop where
  duration : s.agg.intervalDuration = A.intervalDuration
  max : s.agg.maxIntervals = A.maxIntervals
  owns : ∃ p, Owns q p s.heap ∧ Window q s.agg.intervals A.intervals p
  snapshots : List.Forall₂ (sliceIn q) s.snapshots vss

theorem slide_params {A A' : Aggregator} {now : Time} (h : A.slide now = some A') :
    A'.intervalDuration = A.intervalDuration ∧ A'.maxIntervals = A.maxIntervals := by
  unfold Aggregator.slide at h
  dsimp only at h
  split at h
  · split_ifs at h
    · cases h; exact ⟨rfl, rfl⟩
    · obtain ⟨rfl, _⟩ := create_intervals h; exact ⟨rfl, rfl⟩
  · obtain ⟨rfl, _⟩ := create_intervals h; exact ⟨rfl, rfl⟩

theorem modifyLast_snoc (f : IntAgg → IntAgg) (l : List IntAgg) (v : IntAgg) : modifyLast f (l ++ [v]) = l ++ [f v] := by
  induction l with
  | nil => rfl
  | cons a t ih =>
    cases t with
    | nil => rfl
    | cons b t => simp only [List.cons_append, modifyLast] at ih ⊢; rw [ih]

theorem copyAll_eq {cur : Addr} {init : List Addr} (h : cur ∉ init) : copyAll cur (init ++ [cur]) = (cloneInt cur >>= fun c => pure (init ++ [c])) := by
  induction init with
  | nil =>
    funext h
    simp only [List.nil_append, copyAll, if_true]
    rfl
  | cons a t ih =>
    have ha : ¬a = cur := fun e => h (e ▸ List.mem_cons_self)
    funext h'
    simp only [List.cons_append, copyAll, if_neg ha]
    rw [ih (fun hc => h (List.mem_cons_of_mem _ hc))]
    show ((cloneInt cur h').bind _).bind _ = (cloneInt cur h').bind _
    cases cloneInt cur h' <;> rfl

/-- the values of the snapshots after a step. -/
def snapValues (A' : Aggregator) (vss : List (List IntAgg)) : AggOp → List (List IntAgg)
  | .read => modifyLast IntAgg.clone A'.intervals :: vss
  | _ => vss

theorem step_none {s : Sink} {A : Aggregator} {vss : List (List IntAgg)} {q : Part} (hI : Inv s A vss q) {now : Time} {op : AggOp} (h : A.step now op = none) :
    s.step now op = none := by
  obtain ⟨hd, hm, ⟨p, ho, hw⟩, hs⟩ := hI
  have hsl : A.slide now = none := by
    cases op <;> simpa [Aggregator.step, Aggregator.emit, Aggregator.memorySafeIntervals] using h
  have hg := getInt_none hm ho hw hsl
  cases op with
  | emit e =>
    show (Option.bind (getInt s.agg now s.heap) _).map _ = _
    rw [hg]; rfl
  | tick =>
    show (getInt s.agg now s.heap).map _ = _
    rw [hg]; rfl
  | read =>
    show (Option.bind (getInt s.agg now s.heap) _).map _ = _
    rw [hg]; rfl

theorem step_some {s : Sink} {A A' : Aggregator} {vss : List (List IntAgg)} {q : Part} (hI : Inv s A vss q) {now : Time} {op : AggOp}
    (h : A.step now op = some A') :
    ∃ s' q', s.step now op = some s' ∧ q.Sub q' ∧ Frame (fun x => ¬q.dom x) s.heap s'.heap ∧ Inv s' A' (snapValues A' vss op) q' := by
  obtain ⟨hd, hm, ⟨p, ho, hw⟩, hs⟩ := hI
  cases op with
  | tick =>
    have hsl : A.slide now = some A' := h
    obtain ⟨cur, h', q', p', init, ivs, v, e, hsub, ho', ei, hw', hf⟩ := (getInt_some hd hm ho hw hsl).result
    obtain ⟨e1, e2⟩ := slide_params hsl
    refine ⟨{ s with heap := h' }, q', ?_, hsub, hf, hd.trans e1.symm, hm.trans e2.symm, ⟨p', ho', .inr ⟨init, ivs, cur, v, ei, hw'⟩⟩, hs.imp (fun _ _ h => h.mono hsub)⟩
    show (getInt s.agg now s.heap).map _ = _
    rw [e]; rfl
  | emit em =>
    have h0 : (A.slide now).map (fun a => { a with intervals := modifyLast (·.apply em) a.intervals }) = some A' := h
    obtain ⟨A1, hsl, rfl⟩ := Option.map_eq_some_iff.1 h0
    obtain ⟨cur, h', q', p', init, ivs, v, e, hsub, ho', ei, hw', hf⟩ := (getInt_some hd hm ho hw hsl).result
    obtain ⟨e1, e2⟩ := slide_params hsl
    obtain ⟨⟨⟩, h2, p2, e3, hp2, hi2, hf2, hd2⟩ := ((emitInt_spec cur v em).frame' (s.agg.intervals ↦ .array (init ++ [cur])) (Entails.of_eq (sep_comm _ _))
      (fun _ => Entails.of_eq (sep_comm _ _))) h' p' hw'.2 ho'.disj ho'.own ho'.read
    refine ⟨{ s with heap := h2 }, q', ?_, hsub, hf.trans (hf2.of_disj ho'.disj) (fun x hx => .inl (fun hc => hx ?_)), hd.trans e1.symm, hm.trans e2.symm,
      ⟨p2, owns_after ho' hi2 hf2 hd2, .inr ⟨init, ivs, cur, v.apply em, ?_, hw'.1, hp2⟩⟩, hs.imp (fun _ _ h => h.mono hsub)⟩
    · show (Option.bind (getInt s.agg now s.heap) _).map _ = _
      rw [e]
      show (emitInt cur em h').map _ = _
      rw [e3]
      rfl
    · obtain ⟨c, hc⟩ := Option.ne_none_iff_exists'.1 hc
      exact dom_of_some (hsub _ _ hc)
    · dsimp only
      rw [ei, modifyLast_snoc]
  | read =>
    have h0 : ((A.slide now).map fun a => (a, modifyLast IntAgg.clone a.intervals)).map (·.1) = some A' := h
    have hsl : A.slide now = some A' := by
      cases hA : A.slide now with
      | none => rw [hA] at h0; cases h0
      | some A1 => rw [hA] at h0; cases h0; rfl
    obtain ⟨cur, h', q', p', init, ivs, v, e, hsub, ho', ei, hw', hf⟩ := (getInt_some hd hm ho hw hsl).result
    obtain ⟨e1, e2⟩ := slide_params hsl
    obtain ⟨p1, pc, h1, hc, hdp, rfl⟩ := hw'.2
    obtain ⟨d1, d2⟩ := Part.disj_union.1 ho'.disj
    have hcur : cur ∉ init := by
      intro hmem
      have : ∃ w, intIn q' cur w := by
        have hall := hw'.1
        clear hw' h1 ei e
        induction hall with
        | nil => simp at hmem
        | cons hx _ ih =>
          rcases List.mem_cons.1 hmem with rfl | hmem
          · exact ⟨_, hx⟩
          · exact ih hmem
      obtain ⟨w, _, _, ew, _⟩ := this
      exact (d2 cur).elim (intR_whole _ _ _ hc).2 (by rw [ew]; simp)
    have hq0 : ((p1.union pc).union q').In h' := ho'.own.union ho'.read
    have hcin : intIn ((p1.union pc).union q') cur v := by
      refine intR_in hc (fun x c e => Part.union_some.2 (.inl (Part.union_some.2 (.inr ⟨?_, e⟩))))
      exact (hdp x).resolve_right (by rw [e]; simp)
    have harr : ((p1.union pc).union q') s.agg.intervals = some (.array (init ++ [cur])) :=
      pto_sub h1 (fun x c e => Part.union_some.2 (.inl (Part.union_some.2 (.inl e))))
    have ht : Triple ((p1.union pc).union q') emp (do let out ← copyAll cur (← loadArray s.agg.intervals); alloc (.array out))
        (fun r => ex fun c2 => r ↦ .array (init ++ [c2]) ∗ intR c2 v.clone) := by
      refine read_loadArray harr ?_
      rw [copyAll_eq hcur, bind_assoc]
      refine (cloneInt_spec cur v hcin).bind (fun c2 => ?_)
      rw [pure_bind]
      exact (Triple.alloc _).frame' (intR c2 v.clone) (Entails.of_eq (emp_sep _).symm) (fun r p hp => ⟨c2, hp⟩)
    obtain ⟨snap, h2, p2, e3, ⟨c2, pa, pb, ha, hb, hdab, rfl⟩, hi2, hf2, hd2⟩ := ht h' .empty rfl (fun _ => .inl rfl) (fun _ _ e => by cases e) hq0
    have hnew : ∀ x, (pa.union pb).dom x → h'.cells.length ≤ x := fun x hx => (hd2 x hx).resolve_left (fun hc => hc rfl)
    have hold : ∀ {r : Part}, r.In h' → r.Disj (pa.union pb) := by
      intro r hr x
      by_contra hcon
      rw [not_or] at hcon
      have h3 := hr.lt hcon.1
      have h4 := hnew x hcon.2
      omega
    have hkeep : ∀ {r : Part}, r.In h' → r.In h2 := fun hr => hr.frame hf2 (fun x _ hc => hc rfl)
    have hq'd := hold ho'.read
    obtain ⟨hqa, hqb⟩ := Part.disj_union'.1 hq'd
    have hb2 := intR_whole _ _ _ hb
    have hsub2 : q'.Sub (pa.union (pb.union q')) := by
      intro x c ex
      refine Part.union_some.2 (.inr ⟨(hqa x).resolve_left (by rw [ex]; simp), Part.union_some.2 (.inr ⟨(hqb x).resolve_left (by rw [ex]; simp), ex⟩)⟩)
    have hinit : ∀ x ∈ init, q'.dom x := by
      intro x hx
      have hall := hw'.1
      clear hw' h1 ei e harr ht ha hcur
      induction hall with
      | nil => simp at hx
      | cons hy _ ih =>
        rcases List.mem_cons.1 hx with rfl | hx
        · obtain ⟨_, _, ey, _⟩ := hy
          exact dom_of_some ey
        · exact ih hx
    have hq2 : (pa.union (pb.union q')).In h2 := hi2.left.union ((hi2.right hdab).union (hkeep ho'.read))
    have hcl2 : Closed (pa.union (pb.union q')) := by
      refine pto_closed ha (hb2.1.union ho'.closed) (fun b hb' => .inl (dom_union.2 ?_))
      simp only [pointers, List.mem_append, List.mem_singleton] at hb'
      rcases hb' with hb' | rfl
      · exact .inr (hinit b hb')
      · exact .inl hb2.2
    have hsnap : sliceIn (pa.union (pb.union q')) snap (modifyLast IntAgg.clone A'.intervals) := by
      refine ⟨init ++ [c2], pto_sub ha (fun x c e => Part.union_some.2 (.inl e)), ?_⟩
      rw [ei, modifyLast_snoc]
      refine List.rel_append (hw'.1.imp (fun _ _ h => h.mono hsub2)) (.cons ?_ .nil)
      refine intR_in hb (fun x c e => Part.union_some.2 (.inr ⟨?_, Part.union_some.2 (.inl e)⟩))
      exact (hdab x).resolve_right (by rw [e]; simp)
    have hpd := hold ho'.own
    refine ⟨{ s with heap := h2, snapshots := snap :: s.snapshots }, pa.union (pb.union q'), ?_, hsub.trans hsub2,
      hf.trans hf2 (fun x hx => absurd rfl hx), hd.trans e1.symm, hm.trans e2.symm,
      ⟨p1.union pc, ⟨?_, hkeep ho'.own, hq2, hcl2⟩, .inr ⟨init, ivs, cur, v, ei, hw'.1.imp (fun _ _ h => h.mono hsub2), hw'.2⟩⟩,
      .cons hsnap (hs.imp (fun _ _ h => h.mono (hsub.trans hsub2)))⟩
    · show (Option.bind (getInt s.agg now s.heap) _).map _ = _
      rw [e]
      dsimp only [Option.bind_some]
      rw [e3]
      rfl
    · obtain ⟨ha', hb'⟩ := Part.disj_union'.1 hpd
      exact Part.disj_union'.2 ⟨ha', Part.disj_union'.2 ⟨hb', ho'.disj⟩⟩

/-- the values of all snapshots, the last one first. -/
def allValues (A : Aggregator) (vss : List (List IntAgg)) : List (Time × AggOp) → List (List IntAgg)
  | [] => vss
  | (t, op) :: h =>
    match A.step t op with
    | some A' => allValues A' (snapValues A' vss op) h
    | none => vss

theorem run_inv {s : Sink} {A : Aggregator} {vss : List (List IntAgg)} {q : Part} (hI : Inv s A vss q) (h : List (Time × AggOp)) :
    (A.run h = none ∧ s.run h = none) ∨ ∃ A' s' q', A.run h = some A' ∧ s.run h = some s' ∧ q.Sub q' ∧ Frame (fun x => ¬q.dom x) s.heap s'.heap ∧
      Inv s' A' (allValues A vss h) q' := by
  induction h generalizing s A vss q with
  | nil => exact .inr ⟨A, s, q, rfl, rfl, .refl _, .refl _ _, hI⟩
  | cons x h ih =>
    obtain ⟨t, op⟩ := x
    cases hA : A.step t op with
    | none =>
      left
      simp only [Aggregator.run, Sink.run, hA, step_none hI hA]
      exact ⟨rfl, rfl⟩
    | some A1 =>
      obtain ⟨s1, q1, e1, hsub, hf, hI1⟩ := step_some hI hA
      simp only [Aggregator.run, Sink.run, hA, e1, Option.bind_some, allValues]
      rcases ih hI1 with h1 | ⟨A', s', q', ea, es, hsub', hf', hI'⟩
      · exact .inl h1
      · refine .inr ⟨A', s', q', ea, es, hsub.trans hsub', hf.trans hf' (fun x hx => .inl (fun hc => hx ?_)), hI'⟩
        obtain ⟨c, hc⟩ := Option.ne_none_iff_exists'.1 hc
        exact dom_of_some (hsub _ _ hc)

theorem start_inv (d r : Int) : (newAggregator d r = none ∧ start d r = none) ∨
    ∃ A s, newAggregator d r = some A ∧ start d r = some s ∧ Inv s A [] .empty := by
  unfold newAggregator start newAgg
  by_cases h1 : d = 0
  · left
    rw [if_pos h1, if_pos h1]
    exact ⟨rfl, rfl⟩
  · rw [if_neg h1, if_neg h1]
    dsimp only
    by_cases h2 : Int.tdiv r d < 0
    · left
      rw [if_pos h2, if_pos h2]
      exact ⟨rfl, rfl⟩
    · right
      rw [if_neg h2, if_neg h2]
      refine ⟨_, ⟨⟨[.array []], []⟩, ⟨d, r, Int.tdiv r d, 0⟩, []⟩, rfl, rfl, rfl, rfl,
        ⟨fun x => if x = 0 then some (.array []) else none, ⟨fun _ => .inr rfl, ?_, (fun _ _ e => by cases e), (fun _ _ e => by cases e)⟩, .inl ⟨rfl, rfl⟩⟩, .nil⟩
      intro x c e
      dsimp only at e
      split at e
      · rename_i hx
        subst hx
        cases e
        rfl
      · cases e

end Mem
