import Verif.Spec.Healthd
import Verif.Lemmas.MergeExtremes
/-!
# Lemmas about healthd's bookkeeping
-/
open Spec Healthd Unmarshal

namespace Healthd

/-! ## The history -/

theorem latest_snoc (d : Int) (es : List Ev) (e : Ev) (k : Key) :
    latest d (es ++ [e]) k = match about d k e with | none => latest d es k | some x => x := by
  unfold latest
  rw [List.filterMap_append]
  cases h : about d k e with
  | none => simp [h]
  | some x => simp [h]

theorem snoc_split {α : Type} {es es1 es2 : List α} {e x : α} (h : es ++ [e] = es1 ++ x :: es2) :
    (es2 = [] ∧ es1 = es ∧ x = e) ∨ ∃ es2', es2 = es2' ++ [e] ∧ es = es1 ++ x :: es2' := by
  induction es2 using snocInduction with
  | nil =>
    have := List.append_inj' h rfl
    exact .inl ⟨rfl, this.1.symm, by simpa using this.2.symm⟩
  | snoc l y _ =>
    have h' : es ++ [e] = (es1 ++ x :: l) ++ [y] := by simpa using h
    have := List.append_inj' h' rfl
    refine .inr ⟨l, ?_, this.1⟩
    have h2 := this.2
    simp only [List.cons.injEq, and_true] at h2
    rw [h2]

theorem pending_report (d : Int) (es : List Ev) (k : Key) (a : IntAgg) (t : Time) :
    Pending d (es ++ [.report k a]) t ↔ (k.time = t ∧ (latest d es k).map (·.serial) ≠ some a.serial) ∨ Pending d es t := by
  constructor
  · rintro ⟨es1, k', a', es2, h, h1, h2, h3⟩
    rcases snoc_split h with ⟨_, rfl, he⟩ | ⟨es2', rfl, rfl⟩
    · cases he; exact .inl ⟨h1, h2⟩
    · exact .inr ⟨es1, k', a', es2', rfl, h1, h2, by simp_all⟩
  · rintro (⟨h1, h2⟩ | ⟨es1, k', a', es2, rfl, h1, h2, h3⟩)
    · exact ⟨es, k, a, [], rfl, h1, h2, by simp⟩
    · exact ⟨es1, k', a', es2 ++ [.report k a], by simp, h1, h2, by simp [h3]⟩

theorem pending_purge (d : Int) (es : List Ev) (now : Key → Time) (t : Time) :
    Pending d (es ++ [.purge now]) t ↔ Pending d es t := by
  constructor
  · rintro ⟨es1, k', a', es2, h, h1, h2, h3⟩
    rcases snoc_split h with ⟨_, rfl, he⟩ | ⟨es2', rfl, rfl⟩
    · cases he
    · exact ⟨es1, k', a', es2', rfl, h1, h2, by simp_all⟩
  · rintro ⟨es1, k', a', es2, rfl, h1, h2, h3⟩
    exact ⟨es1, k', a', es2 ++ [.purge now], by simp, h1, h2, by simp [h3]⟩

theorem pending_recalculate (d : Int) (es : List Ev) (t : Time) : ¬ Pending d (es ++ [.recalculate]) t := by
  rintro ⟨es1, k', a', es2, h, h1, h2, h3⟩
  rcases snoc_split h with ⟨_, rfl, he⟩ | ⟨es2', rfl, rfl⟩
  · cases he
  · simp at h3

theorem pending_nil (d : Int) (t : Time) : ¬ Pending d [] t := by
  rintro ⟨es1, k', a', es2, h, _⟩
  simp at h

theorem calculated_snoc (d : Int) (es : List Ev) (e : Ev) (t : Time) :
    Calculated d (es ++ [e]) t ↔ Calculated d es t ∨ (e = .recalculate ∧ Pending d es t) := by
  constructor
  · rintro ⟨es1, es2, h, h1⟩
    rcases snoc_split h with ⟨_, rfl, he⟩ | ⟨es2', rfl, rfl⟩
    · exact .inr ⟨he.symm, h1⟩
    · exact .inl ⟨es1, es2', rfl, h1⟩
  · rintro (⟨es1, es2, rfl, h1⟩ | ⟨rfl, h1⟩)
    · exact ⟨es1, es2 ++ [e], by simp, h1⟩
    · exact ⟨es, [], rfl, h1⟩

theorem latest_report (d : Int) (es : List Ev) (k' k : Key) (a : IntAgg) :
    latest d (es ++ [.report k' a]) k = if k' = k then some a else latest d es k := by
  rw [latest_snoc]
  by_cases h : k' = k <;> simp [about, h]

theorem latest_purge (d : Int) (es : List Ev) (now : Key → Time) (k : Key) :
    latest d (es ++ [.purge now]) k = if Stale d now k then none else latest d es k := by
  rw [latest_snoc]
  by_cases h : Stale d now k <;> simp [about, h]

theorem latest_recalculate (d : Int) (es : List Ev) (k : Key) : latest d (es ++ [.recalculate]) k = latest d es k := by
  rw [latest_snoc]; rfl

theorem latest_mem {d : Int} {es : List Ev} {k : Key} {a : IntAgg} (h : latest d es k = some a) : Ev.report k a ∈ es := by
  induction es using snocInduction with
  | nil => simp [latest] at h
  | snoc es e ih =>
    cases e with
    | report k' a' =>
      rw [latest_report] at h
      split at h
      · next e => cases h; simp [e]
      · exact List.mem_append_left _ (ih h)
    | purge now =>
      rw [latest_purge] at h
      split at h
      · cases h
      · exact List.mem_append_left _ (ih h)
    | recalculate => rw [latest_recalculate] at h; exact List.mem_append_left _ (ih h)

/-- readings agree. -/
def Agree (o o' : Option IntAgg) : Prop :=
  match o, o' with
  | none, none => True
  | some a, some b => SameReading a b
  | _, _ => False

theorem _root_.Spec.SameReading.refl (a : IntAgg) : SameReading a a := ⟨fun _ => rfl, fun _ => rfl, fun _ => rfl⟩

theorem Agree.refl (o : Option IntAgg) : Agree o o := by cases o <;> simp [Agree, SameReading.refl]

theorem Agree.isSome {o o' : Option IntAgg} (h : Agree o o') : o.isSome = o'.isSome := by
  cases o <;> cases o' <;> simp_all [Agree]

theorem Agree.value {o o' : Option IntAgg} (h : Agree o o') (c : Counter) : o.bind (fun b => value b c) = o'.bind (fun b => Spec.value b c) := by
  cases o <;> cases o' <;> simp_all [Agree]
  exact h.counters c

theorem Agree.min {o o' : Option IntAgg} (h : Agree o o') (x : Extreme) :
    o.bind (fun b => (summary b x).map (·.nanosMin)) = o'.bind (fun b => (summary b x).map (·.nanosMin)) := by
  cases o <;> cases o' <;> simp_all [Agree]
  exact h.mins x

theorem Agree.max {o o' : Option IntAgg} (h : Agree o o') (x : Extreme) :
    o.bind (fun b => (summary b x).map (·.nanosMax)) = o'.bind (fun b => (summary b x).map (·.nanosMax)) := by
  cases o <;> cases o' <;> simp_all [Agree]
  exact h.maxs x

theorem totals_congr {d d' : Int} {es es' : List Ev} {t : Time} {a : IntAgg}
    (h : ∀ k, k.time = t → Agree (latest d es k) (latest d' es' k)) (ht : Totals d es t a) : Totals d' es' t a := by
  obtain ⟨ks, h1, h2, h3, h4, h5⟩ := ht
  have hk : ∀ k ∈ ks, k.time = t := fun k hk => ((h2 k).1 hk).1
  refine ⟨ks, h1, ?_, ?_, ?_, ?_⟩
  · intro k
    rw [h2 k]
    constructor
    · rintro ⟨e, h0⟩; exact ⟨e, by rw [← (h k e).isSome]; exact h0⟩
    · rintro ⟨e, h0⟩; exact ⟨e, by rw [(h k e).isSome]; exact h0⟩
  · intro c
    rw [h3 c]
    congr 1
    exact List.map_congr_left (fun k hm => (h k (hk k hm)).value c)
  · intro c
    rw [h4 c]
    congr 1
    exact List.map_congr_left (fun k hm => (h k (hk k hm)).min c)
  · intro c
    rw [h5 c]
    congr 1
    exact List.map_congr_left (fun k hm => (h k (hk k hm)).max c)

/-! ## The time series -/

theorem truncateAggs_spec {m : Int} {l l' : List IntAgg} (h : truncateAggs m l = some l') :
    (l' = l ∧ (l.length : Int) ≤ m) ∨ (0 ≤ m ∧ m < l.length ∧ l' = l.drop (l.length - m.toNat) ∧ (l'.length : Int) = m) := by
  unfold truncateAggs at h
  split at h
  · split at h
    · cases h
    · next h1 h2 =>
      right
      cases h
      refine ⟨by omega, by omega, ?_, ?_⟩
      · congr 1; omega
      · rw [List.length_drop]; omega
  · cases h; exact .inl ⟨rfl, by omega⟩

/-- `t` is in the series, or the series is full of intervals at least as new. -/
def Keeps (m : Int) (l : List IntAgg) (t : Time) : Prop :=
  t ∈ l.map (·.start) ∨ ((l.length : Int) = m ∧ ∀ a ∈ l, t.ns ≤ a.start.ns)

theorem replaceAgg_none {l : List IntAgg} {a : IntAgg} : replaceAgg l a = none ↔ a.start ∉ l.map (·.start) := by
  induction l with
  | nil => simp [replaceAgg]
  | cons x t ih =>
    unfold replaceAgg
    split
    · next h => simp [h]
    · next h => simp only [Option.map_eq_none_iff, ih, List.map_cons, List.mem_cons, not_or]; exact ⟨fun h2 => ⟨fun e => h e.symm, h2⟩, fun h2 => h2.2⟩

theorem replaceAgg_some {l l' : List IntAgg} {a : IntAgg} (h : replaceAgg l a = some l') :
    l'.map (·.start) = l.map (·.start) ∧ a ∈ l' ∧ ((l.map (·.start)).Nodup → ∀ x ∈ l', x = a ∨ (x ∈ l ∧ x.start ≠ a.start)) := by
  induction l generalizing l' with
  | nil => simp [replaceAgg] at h
  | cons x t ih =>
    unfold replaceAgg at h
    split at h
    · next e =>
      cases h
      refine ⟨by simp [e], by simp, ?_⟩
      intro hn y hy
      simp only [List.mem_cons] at hy
      rcases hy with rfl | hy
      · exact .inl rfl
      · refine .inr ⟨by simp [hy], ?_⟩
        rw [List.map_cons, List.nodup_cons] at hn
        intro e2
        exact hn.1 (by rw [e, ← e2]; exact List.mem_map_of_mem hy)
    · next e =>
      obtain ⟨t', h1, rfl⟩ := Option.map_eq_some_iff.1 h
      obtain ⟨i1, i2, i3⟩ := ih h1
      refine ⟨by simp [i1], by simp [i2], ?_⟩
      intro hn y hy
      rw [List.map_cons, List.nodup_cons] at hn
      simp only [List.mem_cons] at hy
      rcases hy with rfl | hy
      · exact .inr ⟨by simp, e⟩
      · rcases i3 hn.2 y hy with h | h
        · exact .inl h
        · exact .inr ⟨by simp [h.1], h.2⟩

structure SeriesOk (m : Int) (l : List IntAgg) : Prop where
  nodup : (l.map (·.start)).Nodup
  sorted : (l.map (·.start.ns)).Pairwise (· ≤ ·)
  len : (l.length : Int) ≤ max 0 m

theorem keeps_drop {m : Int} {l : List IntAgg} {t : Time} (hs : (l.map (·.start.ns)).Pairwise (· ≤ ·)) (ht : t ∈ l.map (·.start))
    {n : Nat} (hl : ((l.drop n).length : Int) = m) : Keeps m (l.drop n) t := by
  by_cases h : t ∈ (l.drop n).map (·.start)
  · exact .inl h
  · refine .inr ⟨hl, ?_⟩
    intro b hb
    have ht2 : t ∈ (l.take n).map (·.start) := by
      rw [← List.take_append_drop n l, List.map_append, List.mem_append] at ht
      tauto
    rw [← List.take_append_drop n l, List.map_append, List.pairwise_append] at hs
    obtain ⟨x, hx, rfl⟩ := List.mem_map.1 ht2
    exact hs.2.2 _ (List.mem_map_of_mem hx) _ (List.mem_map_of_mem hb)

theorem setAggregation_spec {sort : List IntAgg → List IntAgg} (hsort : SortsByStart sort) {s s' : State} {a : IntAgg}
    (hok : SeriesOk s.maxIntervals s.intervalAggregations) (h : setAggregation sort s a = some s') :
    ∃ l, s' = { s with intervalAggregations := l } ∧ SeriesOk s.maxIntervals l ∧ (∀ x ∈ l, x = a ∨ (x ∈ s.intervalAggregations ∧ x.start ≠ a.start)) ∧
      Keeps s.maxIntervals l a.start ∧ ∀ t, Keeps s.maxIntervals s.intervalAggregations t → Keeps s.maxIntervals l t := by
  unfold setAggregation at h
  split at h
  · next l hl =>
    cases h
    obtain ⟨h1, h2, h3⟩ := replaceAgg_some hl
    have hns : l.map (·.start.ns) = s.intervalAggregations.map (·.start.ns) := by
      have := congrArg (List.map Time.ns) h1
      rw [List.map_map, List.map_map] at this
      exact this
    have hlen : l.length = s.intervalAggregations.length := by simpa using congrArg List.length h1
    refine ⟨l, rfl, ⟨by rw [h1]; exact hok.nodup, by rw [hns]; exact hok.sorted, by rw [hlen]; exact hok.len⟩, h3 hok.nodup,
      .inl (List.mem_map_of_mem h2), ?_⟩
    rintro t (ht | ⟨ht1, ht2⟩)
    · exact .inl (by rw [h1]; exact ht)
    · refine .inr ⟨by rw [hlen]; exact ht1, ?_⟩
      intro b hb
      have : b.start.ns ∈ l.map (·.start.ns) := List.mem_map_of_mem hb
      rw [hns] at this
      obtain ⟨c, hc, hcb⟩ := List.mem_map.1 this
      rw [← hcb]
      exact ht2 c hc
  · next hl =>
    obtain ⟨l, h1, rfl⟩ := Option.map_eq_some_iff.1 h
    have hnew := replaceAgg_none.1 hl
    obtain ⟨hperm, hpw⟩ := hsort (s.intervalAggregations ++ [a])
    generalize sort (s.intervalAggregations ++ [a]) = L at h1 hperm hpw
    have hLs : (L.map (·.start.ns)).Pairwise (· ≤ ·) := by
      rw [List.pairwise_map]
      exact hpw.imp (fun h => by omega)
    have hLn : (L.map (·.start)).Nodup := by
      rw [(hperm.map _).nodup_iff, List.map_append, List.nodup_append]
      refine ⟨hok.nodup, by simp, ?_⟩
      intro x hx y hy
      simp only [List.map_cons, List.map_nil, List.mem_singleton] at hy
      subst hy
      intro e; subst e; exact hnew hx
    have hmem : ∀ x ∈ L, x = a ∨ (x ∈ s.intervalAggregations ∧ x.start ≠ a.start) := by
      intro x hx
      have := hperm.mem_iff.1 hx
      simp only [List.mem_append, List.mem_singleton] at this
      rcases this with h | h
      · exact .inr ⟨h, fun e => hnew (by rw [← e]; exact List.mem_map_of_mem h)⟩
      · exact .inl h
    have hin : ∀ t, (t ∈ s.intervalAggregations.map (·.start) ∨ t = a.start) → t ∈ L.map (·.start) := by
      intro t ht
      rw [(hperm.map _).mem_iff, List.map_append, List.mem_append]
      simpa using ht
    have hLlen : L.length = s.intervalAggregations.length + 1 := by rw [hperm.length_eq]; simp
    rcases truncateAggs_spec h1 with ⟨rfl, hle⟩ | ⟨h0, hlt, rfl, hlen⟩
    · refine ⟨l, rfl, ⟨hLn, hLs, by omega⟩, hmem, .inl (hin _ (.inr rfl)), ?_⟩
      rintro t (ht | ⟨ht1, ht2⟩)
      · exact .inl (hin _ (.inl ht))
      · omega
    · refine ⟨_, rfl, ⟨?_, ?_, by omega⟩, fun x hx => hmem x (List.mem_of_mem_drop hx), keeps_drop hLs (hin _ (.inr rfl)) hlen, ?_⟩
      · rw [List.map_drop]; exact hLn.sublist (List.drop_sublist _ _)
      · rw [List.map_drop]; exact hLs.sublist (List.drop_sublist _ _)
      · rintro t (ht | ⟨ht1, ht2⟩)
        · exact keeps_drop hLs (hin _ (.inl ht)) hlen
        · refine .inr ⟨hlen, ?_⟩
          have hn : L.length - s.maxIntervals.toNat = 1 := by omega
          rw [hn]
          intro b hb
          rcases hmem b (List.mem_of_mem_drop hb) with rfl | h
          · -- the new one is kept: something older was dropped
            cases L with
            | nil => simp at hb
            | cons x L' =>
              simp only [List.drop_one, List.tail_cons] at hb
              have hx : x ≠ b := by
                rintro rfl
                rw [List.map_cons, List.nodup_cons] at hLn
                exact hLn.1 (List.mem_map_of_mem hb)
              have hxm : x ∈ s.intervalAggregations := by
                rcases hmem x (by simp) with h | h
                · exact absurd h hx
                · exact h.1
              rw [List.map_cons, List.pairwise_cons] at hLs
              have h2 := hLs.1 _ (List.mem_map_of_mem hb)
              have h3 := ht2 x hxm
              omega
          · exact ht2 b h.1

theorem truncateAggs_ok {m : Int} {l l' : List IntAgg} (hok : SeriesOk m l) (h : truncateAggs m l = some l') : l' = l := by
  rcases truncateAggs_spec h with ⟨h, _⟩ | ⟨h0, h1, h2, h3⟩
  · exact h
  · have := hok.len
    omega

/-! ## The invariant -/

/-- the stored report against the latest one. -/
def Held (es : List Ev) (k : Key) : Option Report → Option IntAgg → Prop
  | none, none => True
  | some rep, some a => rep.agg.serial = a.serial ∧ Ev.report k rep.agg ∈ es
  | _, _ => False

structure Inv (d : Int) (es : List Ev) (s : State) : Prop where
  wfHost : s.hostAggregations.Wf
  wfDirty : s.intervalsNeedingRecalculation.Wf
  held : ∀ k, Held es k (s.hostAggregations.get? k) (latest d es k)
  dirty : ∀ t, t ∈ s.intervalsNeedingRecalculation.keys ↔ Pending d es t
  series : SeriesOk s.maxIntervals s.intervalAggregations
  kept : ∀ t, Calculated d es t → Keeps s.maxIntervals s.intervalAggregations t
  only : ∀ a ∈ s.intervalAggregations, Calculated d es a.start
  totals : Honest es → ∀ a ∈ s.intervalAggregations, ¬ Pending d es a.start → NeverStale d es a.start → Totals d es a.start a

theorem Held.mono {es es' : List Ev} {k : Key} {o : Option Report} {a : Option IntAgg} (hs : es ⊆ es') (h : Held es k o a) : Held es' k o a := by
  cases o <;> cases a <;> simp_all [Held]
  exact hs h.2

theorem honest_mono {es es' : List Ev} (hs : es ⊆ es') (h : Honest es') : Honest es :=
  fun k a b ha hb => h k a b (hs ha) (hs hb)

theorem Inv.congr {d : Int} {es : List Ev} {s s' : State} (h : Inv d es s) (h1 : s'.hostAggregations = s.hostAggregations)
    (h2 : s'.intervalsNeedingRecalculation = s.intervalsNeedingRecalculation) (h3 : s'.maxIntervals = s.maxIntervals)
    (h4 : s'.intervalAggregations = s.intervalAggregations) : Inv d es s' := by
  obtain ⟨a, b, c, e, f, g, i, j⟩ := h
  rw [← h1] at a c
  rw [← h2] at b e
  rw [← h4] at i j
  rw [← h3, ← h4] at f g
  exact ⟨a, b, c, e, f, g, i, j⟩

theorem sub_snoc (es : List Ev) (e : Ev) : es ⊆ es ++ [e] := fun _ h => List.mem_append_left _ h

/-- one report. -/
theorem Inv.report {d : Int} {es : List Ev} {s s' : State} {r : PollResponse} {rep : Report} (h : Inv d es s)
    (hs : storeOne r s (some rep) = some s') :
    Inv d (es ++ [.report ⟨rep.agg.start, r.response.instanceId, r.hostPort⟩ rep.agg]) s' := by
  set key : Key := ⟨rep.agg.start, r.response.instanceId, r.hostPort⟩ with hkey
  have hheld := h.held key
  by_cases hser : (latest d es key).map (·.serial) = some rep.agg.serial
  · -- nothing new
    have hs' : s' = s := by
      unfold storeOne at hs
      simp only [← hkey] at hs
      cases hg : s.hostAggregations.get? key with
      | none =>
        rw [hg] at hheld
        cases hl : latest d es key with
        | none => rw [hl] at hser; cases hser
        | some a => rw [hl] at hheld; cases hheld
      | some e =>
        rw [hg] at hs hheld
        cases hl : latest d es key with
        | none => rw [hl] at hheld; cases hheld
        | some a =>
          rw [hl] at hheld hser
          have h1 : e.agg.serial = rep.agg.serial := by
            rw [hheld.1]; simpa using hser
          simp only [h1, if_true] at hs
          exact (Option.some.inj hs).symm
    subst hs'
    have hp : ∀ t, Pending d (es ++ [.report key rep.agg]) t ↔ Pending d es t := by
      intro t
      rw [pending_report]
      simp [hser]
    have hc : ∀ t, Calculated d (es ++ [.report key rep.agg]) t ↔ Calculated d es t := by
      intro t; rw [calculated_snoc]; simp
    refine ⟨h.wfHost, h.wfDirty, ?_, fun t => by rw [hp]; exact h.dirty t, h.series, fun t ht => h.kept t ((hc t).1 ht), fun a ha => (hc _).2 (h.only a ha), ?_⟩
    · intro k
      rw [latest_report]
      split
      · next e =>
        subst e
        cases hg : s'.hostAggregations.get? key with
        | none =>
          rw [hg] at hheld
          cases hl : latest d es key with
          | none => rw [hl] at hser; cases hser
          | some a => rw [hl] at hheld; cases hheld
        | some e =>
          rw [hg] at hheld
          cases hl : latest d es key with
          | none => rw [hl] at hheld; cases hheld
          | some a =>
            rw [hl] at hheld hser
            exact ⟨by rw [hheld.1]; simpa using hser, List.mem_append_left _ hheld.2⟩
      · exact (h.held k).mono (sub_snoc _ _)
    · intro hh a ha hnp hns
      have ht := h.totals (honest_mono (sub_snoc _ _) hh) a ha (fun x => hnp ((hp _).2 x)) (fun now hn => hns now (List.mem_append_left _ hn))
      refine totals_congr ?_ ht
      intro k hk
      rw [latest_report]
      split
      · next e =>
        subst e
        cases hl : latest d es key with
        | none => rw [hl] at hser; cases hser
        | some b =>
          rw [hl] at hser
          exact hh key b rep.agg (List.mem_append_left _ (latest_mem hl)) (by simp) (by simpa using hser)
      · exact Agree.refl _
  · -- new data
    have hs' : s' = { s with
        hostAggregations := s.hostAggregations.set key rep
        intervalsNeedingRecalculation := s.intervalsNeedingRecalculation.set rep.agg.start () } := by
      unfold storeOne at hs
      simp only [← hkey] at hs
      cases hg : s.hostAggregations.get? key with
      | none => rw [hg] at hs; exact (Option.some.inj hs).symm
      | some e =>
        rw [hg] at hs hheld
        cases hl : latest d es key with
        | none => rw [hl] at hheld; cases hheld
        | some a =>
          rw [hl] at hheld hser
          have h1 : e.agg.serial ≠ rep.agg.serial := by
            rw [hheld.1]; simpa using hser
          simp only [h1, if_false] at hs
          exact (Option.some.inj hs).symm
    subst hs'
    have hp : ∀ t, Pending d (es ++ [.report key rep.agg]) t ↔ t = rep.agg.start ∨ Pending d es t := by
      intro t
      rw [pending_report]
      simp only [hser, ne_eq, not_false_eq_true, and_true]
      constructor
      · rintro (e | e)
        · exact .inl (by rw [← e])
        · exact .inr e
      · rintro (e | e)
        · exact .inl (by rw [e])
        · exact .inr e
    have hc : ∀ t, Calculated d (es ++ [.report key rep.agg]) t ↔ Calculated d es t := by
      intro t; rw [calculated_snoc]; simp
    refine ⟨h.wfHost.set _ _, h.wfDirty.set _ _, ?_, ?_, h.series, fun t ht => h.kept t ((hc t).1 ht), fun a ha => (hc _).2 (h.only a ha), ?_⟩
    · intro k
      rw [latest_report, GoMap.get?_set]
      by_cases e : key = k
      · subst e
        simp only [if_true]
        exact ⟨rfl, by simp⟩
      · rw [if_neg e, if_neg (fun x => e x.symm)]
        exact (h.held k).mono (sub_snoc _ _)
    · intro t
      rw [hp, GoMap.mem_keys_set, h.dirty]
    · intro hh a ha hnp hns
      have hne : a.start ≠ rep.agg.start := fun e => hnp ((hp _).2 (.inl e))
      have ht := h.totals (honest_mono (sub_snoc _ _) hh) a ha (fun x => hnp ((hp _).2 (.inr x))) (fun now hn => hns now (List.mem_append_left _ hn))
      refine totals_congr ?_ ht
      intro k hk
      rw [latest_report, if_neg]
      · exact Agree.refl _
      · intro e
        subst e
        exact hne hk.symm

theorem storeOne_none (r : PollResponse) (s : State) : storeOne r s none = none := rfl

/-- all reports of a response. -/
theorem Inv.reports {d : Int} {r : PollResponse} (l : List (Option Report)) : ∀ {es : List Ev} {s s' : State}, Inv d es s → storeAll r s l = some s' →
    Inv d (es ++ l.filterMap (·.map (fun rep => .report ⟨rep.agg.start, r.response.instanceId, r.hostPort⟩ rep.agg))) s' := by
  induction l with
  | nil => intro es s s' h hs; cases hs; simpa using h
  | cons o t ih =>
    intro es s s' h hs
    unfold storeAll at hs
    rw [List.foldlM_cons] at hs
    cases o with
    | none => cases hs
    | some rep =>
      obtain ⟨s1, h1, h2⟩ := Option.bind_eq_some_iff.1 hs
      have := ih (h.report h1) h2
      simpa using this

theorem storeOne_fields {r : PollResponse} {s s' : State} {o : Option Report} (h : storeOne r s o = some s') :
    s'.intervalDuration = s.intervalDuration ∧ s'.maxIntervals = s.maxIntervals ∧ s'.hostStatus = s.hostStatus ∧
      s'.intervalAggregations = s.intervalAggregations := by
  cases o with
  | none => cases h
  | some rep =>
    unfold storeOne at h
    simp only at h
    split at h
    · rw [← Option.some.inj h]; exact ⟨rfl, rfl, rfl, rfl⟩
    · split at h
      · rw [← Option.some.inj h]; exact ⟨rfl, rfl, rfl, rfl⟩
      · rw [← Option.some.inj h]; exact ⟨rfl, rfl, rfl, rfl⟩

theorem storeAll_fields {r : PollResponse} {s s' : State} {l : List (Option Report)} (h : storeAll r s l = some s') :
    s'.intervalDuration = s.intervalDuration ∧ s'.maxIntervals = s.maxIntervals ∧ s'.hostStatus = s.hostStatus ∧
      s'.intervalAggregations = s.intervalAggregations := by
  induction l generalizing s with
  | nil => cases h; exact ⟨rfl, rfl, rfl, rfl⟩
  | cons o t ih =>
    unfold storeAll at h
    rw [List.foldlM_cons] at h
    obtain ⟨s1, h1, h2⟩ := Option.bind_eq_some_iff.1 h
    obtain ⟨a, b, c, e⟩ := storeOne_fields h1
    obtain ⟨a', b', c', e'⟩ := ih h2
    exact ⟨a'.trans a, b'.trans b, c'.trans c, e'.trans e⟩

/-! ### purge -/

theorem subTime_gt {t u : Time} {x : Int} (h1 : -2 ^ 63 ≤ x) (h2 : x < 2 ^ 63 - 1) : subTime t u > x ↔ t.ns - u.ns > x := by
  unfold subTime
  simp only
  split
  · constructor <;> intro h <;> omega
  · split
    · constructor <;> intro h <;> omega
    · exact Iff.rfl

theorem wf_filter {K V : Type} [DecidableEq K] {m : GoMap K V} (h : m.Wf) (p : K × V → Bool) : GoMap.Wf (m.filter p) := by
  unfold GoMap.Wf GoMap.keys at *
  exact h.sublist (List.filter_sublist.map _)

theorem get?_filter {K V : Type} [DecidableEq K] {m : GoMap K V} (p : K → Bool) (k : K) :
    GoMap.get? (m.filter (fun q => p q.1)) k = if p k then m.get? k else none := by
  induction m with
  | nil => simp [GoMap.get?]
  | cons x t ih =>
    rw [List.filter_cons, GoMap.get?_cons]
    by_cases hx : x.1 = k
    · subst hx
      by_cases hp : p x.1 = true
      · rw [if_pos hp, GoMap.get?_cons, if_pos rfl, if_pos hp, if_pos rfl]
      · rw [if_neg hp, ih, if_neg hp, if_neg hp]
    · by_cases hp : p x.1 = true
      · rw [if_pos hp, GoMap.get?_cons, if_neg hx, if_neg hx, ih]
      · rw [if_neg hp, if_neg hx, ih]

theorem Inv.purge {d : Int} {es : List Ev} {s s' : State} {now : Key → Time} (h : Inv d es s)
    (hd : s.intervalDuration = d ∨ s.hostAggregations = []) (hr : -2 ^ 63 ≤ 5 * d ∧ 5 * d < 2 ^ 63) (hs : Healthd.purge now s = some s') :
    Inv d (es ++ [.purge now]) s' := by
  unfold Healthd.purge at hs
  obtain ⟨l, h1, h2⟩ := Option.bind_eq_some_iff.1 hs
  have hl := truncateAggs_ok h.series h1
  subst hl
  rw [← Option.some.inj h2]
  have hp := pending_purge d es now
  have hc : ∀ t, Calculated d (es ++ [.purge now]) t ↔ Calculated d es t := by
    intro t; rw [calculated_snoc]; simp
  refine ⟨wf_filter h.wfHost _, h.wfDirty, ?_, fun t => by rw [hp]; exact h.dirty t, h.series, fun t ht => h.kept t ((hc t).1 ht), fun a ha => (hc _).2 (h.only a ha), ?_⟩
  · intro k
    rw [latest_purge]
    have hheld := h.held k
    rcases hd with hd | hd
    · have hst : (decide ¬ subTime (now k) k.time > i64 (s.intervalDuration * 5)) = decide (¬ Stale d now k) := by
        have e : i64 (s.intervalDuration * 5) = 5 * d := by rw [hd, i64_of_range (by omega) (by omega)]; omega
        rw [e]
        congr 1
        rw [subTime_gt (by omega) (by omega)]
        rfl
      have := get?_filter (m := s.hostAggregations) (fun k => decide ¬ subTime (now k) k.time > i64 (s.intervalDuration * 5)) k
      simp only at this ⊢
      rw [this, hst]
      by_cases hk : Stale d now k
      · simp [hk, Held]
      · simp only [hk, not_false_eq_true, decide_true, if_true, if_false]
        exact hheld.mono (sub_snoc _ _)
    · rw [hd] at hheld ⊢
      simp only [List.filter_nil]
      cases hl : latest d es k with
      | none => simp [GoMap.get?, Held]
      | some a => rw [hl] at hheld; cases hheld
  · intro hh a ha hnp hns
    have ht := h.totals (honest_mono (sub_snoc _ _) hh) a ha (fun x => hnp ((hp _).2 x)) (fun now hn => hns now (List.mem_append_left _ hn))
    refine totals_congr ?_ ht
    intro k hk
    rw [latest_purge, if_neg (hns now (by simp) k hk)]
    exact Agree.refl _

/-! ### recalculateIntervals -/

theorem foldlM_mergeReport {l : List Report} : ∀ {a0 a : IntAgg}, l.foldlM mergeReport a0 = some a → a = (l.map (·.agg)).foldl IntAgg.merge a0 := by
  induction l with
  | nil => intro a0 a h; cases h; rfl
  | cons r t ih =>
    intro a0 a h
    rw [List.foldlM_cons] at h
    obtain ⟨a1, h1, h2⟩ := Option.bind_eq_some_iff.1 h
    unfold mergeReport at h1
    split at h1
    · cases h1
    · cases h1; exact ih h2

/-- every report fits Go's types. -/
def ReportsOk (es : List Ev) : Prop := ∀ k a, Ev.report k a ∈ es → a.Wf ∧ ∀ c, (value a c).map i64 = value a c

theorem value_mergeAll_exact (s : Time) (l : List IntAgg) (hw : ∀ b ∈ l, b.Wf) (hr : ∀ b ∈ l, ∀ c, (value b c).map i64 = value b c) (c : Counter) :
    value (mergeAll s l) c = sumI (l.map (fun b => value b c)) := by
  rw [← value_mergeAll s l hw c]
  symm
  induction l using snocInduction with
  | nil => cases c <;> rfl
  | snoc l b ih =>
    have ih := ih (fun x hx => hw x (by simp [hx])) (fun x hx => hr x (by simp [hx]))
    rw [mergeAll_snoc, value_merge_exact _ b (hw b (by simp)) c (hr b (by simp) c)]
    have h2 := hr b (by simp) c
    cases ha : value (mergeAll s l) c <;> cases hb : value b c <;> simp_all

theorem held_agree {es : List Ev} (hh : Honest es) {k : Key} {rep : Report} {a : IntAgg} (h : Held es k (some rep) (some a)) (ha : Ev.report k a ∈ es) :
    SameReading rep.agg a := hh k _ _ h.2 ha h.1

theorem Inv.total {d : Int} {es : List Ev} {s : State} (h : Inv d es s) (hh : Honest es) (hok : ReportsOk es) {entries : List (Key × Report)}
    (hp : entries.Perm s.hostAggregations) (t : Time) :
    Totals d es t (mergeAll t (((entries.filter (fun p => p.1.time = t)).map (·.2)).map (·.agg))) := by
  set l := entries.filter (fun p => p.1.time = t) with hl
  have hw : GoMap.Wf entries := h.wfHost.perm hp.symm
  have hmem : ∀ p ∈ l, p.1.time = t ∧ ∃ a, latest d es p.1 = some a ∧ SameReading p.2.agg a ∧ p.2.agg.Wf ∧ ∀ c, (value p.2.agg c).map i64 = value p.2.agg c := by
    intro p hpm
    rw [hl, List.mem_filter] at hpm
    have hg : s.hostAggregations.get? p.1 = some p.2 := GoMap.get?_of_mem h.wfHost (hp.mem_iff.1 hpm.1)
    have hheld := h.held p.1
    rw [hg] at hheld
    refine ⟨by simpa using hpm.2, ?_⟩
    cases hla : latest d es p.1 with
    | none => rw [hla] at hheld; cases hheld
    | some a =>
      rw [hla] at hheld
      exact ⟨a, rfl, held_agree hh hheld (latest_mem hla), hok _ _ hheld.2⟩
  have hagree : ∀ p ∈ l, Agree (some p.2.agg) (latest d es p.1) := by
    intro p hpm
    obtain ⟨_, a, h1, h2, _⟩ := hmem p hpm
    rw [h1]; exact h2
  have hwf : ∀ b ∈ (l.map (·.2)).map (·.agg), b.Wf := by
    intro b hb
    simp only [List.map_map, List.mem_map] at hb
    obtain ⟨p, hp1, rfl⟩ := hb
    obtain ⟨_, a, _, _, h3, _⟩ := hmem p hp1
    exact h3
  refine ⟨l.map (·.1), ?_, ?_, ?_, ?_, ?_⟩
  · have : (GoMap.keys entries).Nodup := hw
    exact this.sublist (List.filter_sublist.map _)
  · intro k
    constructor
    · intro hk
      obtain ⟨p, hp1, rfl⟩ := List.mem_map.1 hk
      obtain ⟨h1, a, h2, _⟩ := hmem p hp1
      exact ⟨h1, by rw [h2]; rfl⟩
    · rintro ⟨h1, h2⟩
      have hheld := h.held k
      cases hla : latest d es k with
      | none => rw [hla] at h2; cases h2
      | some a =>
        rw [hla] at hheld
        cases hg : s.hostAggregations.get? k with
        | none => rw [hg] at hheld; cases hheld
        | some rep =>
          have hm : (k, rep) ∈ entries := hp.mem_iff.2 (GoMap.mem_of_get? hg)
          exact List.mem_map.2 ⟨(k, rep), by rw [hl, List.mem_filter]; exact ⟨hm, by simpa using h1⟩, rfl⟩
  · intro c
    rw [value_mergeAll_exact _ _ hwf]
    · congr 1
      simp only [List.map_map]
      exact List.map_congr_left (fun p hp1 => (hagree p hp1).value c)
    · intro b hb
      simp only [List.map_map, List.mem_map] at hb
      obtain ⟨p, hp1, rfl⟩ := hb
      obtain ⟨_, a, _, _, _, h4⟩ := hmem p hp1
      exact h4
  · intro x
    rw [min_mergeAll _ _ hwf]
    congr 1
    simp only [List.map_map]
    exact List.map_congr_left (fun p hp1 => (hagree p hp1).min x)
  · intro x
    rw [max_mergeAll _ _ hwf]
    congr 1
    simp only [List.map_map]
    exact List.map_congr_left (fun p hp1 => (hagree p hp1).max x)

/-- during a recalculation: `done` are the intervals already recalculated. -/
structure Mid (d : Int) (es : List Ev) (s0 : State) (done : List Time) (s : State) : Prop where
  fields : s = { s0 with intervalAggregations := s.intervalAggregations }
  series : SeriesOk s.maxIntervals s.intervalAggregations
  kept : ∀ t, (Calculated d es t ∨ t ∈ done) → Keeps s.maxIntervals s.intervalAggregations t
  only : ∀ a ∈ s.intervalAggregations, (a.start ∈ done ∧ (Honest es → Totals d es a.start a)) ∨ (a.start ∉ done ∧ a ∈ s0.intervalAggregations)

theorem Mid.one {sort : List IntAgg → List IntAgg} (hsort : SortsByStart sort) {d : Int} {es : List Ev} {s0 : State} (hinv : Inv d es s0) (hok : ReportsOk es)
    {entries : Time → List (Key × Report)} (hp : ∀ k, (entries k).Perm s0.hostAggregations) {done : List Time} {s s' : State} {k : Time}
    (hm : Mid d es s0 done s) (hs : recalculateOne sort entries s k = some s') : Mid d es s0 (done ++ [k]) s' := by
  unfold recalculateOne at hs
  obtain ⟨a, h1, h2⟩ := Option.bind_eq_some_iff.1 hs
  have ha : a = mergeAll k ((((entries k).filter (fun p => p.1.time = k)).map (·.2)).map (·.agg)) := foldlM_mergeReport h1
  have hst : a.start = k := by rw [ha, mergeAll_start]
  obtain ⟨l, rfl, h4, h5, h6, h7⟩ := setAggregation_spec hsort hm.series h2
  refine ⟨?_, h4, ?_, ?_⟩
  · have := hm.fields
    generalize s.intervalAggregations = q at this
    subst this
    rfl
  · rintro t (ht | ht)
    · exact h7 t (hm.kept t (.inl ht))
    · simp only [List.mem_append, List.mem_singleton] at ht
      rcases ht with ht | rfl
      · exact h7 t (hm.kept t (.inr ht))
      · rw [← hst]; exact h6
  · intro x hx
    rcases h5 x hx with rfl | ⟨h8, h9⟩
    · refine .inl ⟨by simp [hst], fun hh => ?_⟩
      rw [hst, ha]
      exact hinv.total hh hok (hp k) k
    · rcases hm.only x h8 with ⟨h10, h11⟩ | ⟨h10, h11⟩
      · exact .inl ⟨by simp [h10], h11⟩
      · exact .inr ⟨by simp [h10, ← hst, h9], h11⟩

theorem Mid.all {sort : List IntAgg → List IntAgg} (hsort : SortsByStart sort) {d : Int} {es : List Ev} {s0 : State} (hinv : Inv d es s0) (hok : ReportsOk es)
    {entries : Time → List (Key × Report)} (hp : ∀ k, (entries k).Perm s0.hostAggregations) (ks : List Time) :
    ∀ {done : List Time} {s s' : State}, Mid d es s0 done s → ks.foldlM (recalculateOne sort entries) s = some s' → Mid d es s0 (done ++ ks) s' := by
  induction ks with
  | nil => intro done s s' hm hs; cases hs; simpa using hm
  | cons k t ih =>
    intro done s s' hm hs
    rw [List.foldlM_cons] at hs
    obtain ⟨s1, h1, h2⟩ := Option.bind_eq_some_iff.1 hs
    simpa using ih (hm.one hsort hinv hok hp h1) h2

theorem Inv.recalculate {sort : List IntAgg → List IntAgg} (hsort : SortsByStart sort) {d : Int} {es : List Ev} {s s' : State} (h : Inv d es s) (hok : ReportsOk es)
    {ks : List Time} {entries : Time → List (Key × Report)} (hk : ks.Perm s.intervalsNeedingRecalculation.keys)
    (hp : ∀ k, (entries k).Perm s.hostAggregations) (hs : recalculateIntervals sort ks entries s = some s') :
    Inv d (es ++ [.recalculate]) s' ∧ (∀ t, Pending d es t → Keeps s'.maxIntervals s'.intervalAggregations t) ∧
      (∀ a ∈ s'.intervalAggregations, Pending d es a.start → Honest es → Totals d es a.start a) ∧
      (∀ a ∈ s'.intervalAggregations, ¬ Pending d es a.start → a ∈ s.intervalAggregations) ∧
      s'.intervalDuration = s.intervalDuration ∧ s'.maxIntervals = s.maxIntervals ∧ s'.hostStatus = s.hostStatus := by
  unfold recalculateIntervals at hs
  obtain ⟨s1, h1, h2⟩ := Option.bind_eq_some_iff.1 hs
  have h0 : Mid d es s [] s := ⟨rfl, h.series, fun t ht => h.kept t (by simpa using ht), fun a ha => .inr ⟨by simp, ha⟩⟩
  have hm := h0.all hsort h hok hp ks h1
  simp only [List.nil_append] at hm
  have hmem : ∀ t, t ∈ ks ↔ Pending d es t := fun t => by rw [hk.mem_iff, h.dirty]
  rw [← Option.some.inj h2]
  have hf := hm.fields
  have e1 : s1.hostAggregations = s.hostAggregations := by rw [hf]
  have e2 : s1.maxIntervals = s.maxIntervals := by rw [hf]
  have e3 : s1.intervalDuration = s.intervalDuration := by rw [hf]
  have e4 : s1.hostStatus = s.hostStatus := by rw [hf]
  refine ⟨⟨by simp only [e1]; exact h.wfHost, GoMap.Wf.nil, ?_, ?_, hm.series, ?_, ?_, ?_⟩, ?_, ?_, ?_, e3, e2, e4⟩
  · intro k
    simp only [e1, latest_recalculate]
    exact (h.held k).mono (sub_snoc _ _)
  · intro t
    simp [GoMap.keys, pending_recalculate]
  · intro t ht
    rw [calculated_snoc] at ht
    exact hm.kept t (ht.imp id (fun x => (hmem t).2 x.2))
  · intro a ha
    rw [calculated_snoc]
    rcases hm.only a ha with h3 | h3
    · exact .inr ⟨rfl, (hmem _).1 h3.1⟩
    · exact .inl (h.only a h3.2)
  · intro hh a ha _ hns
    have hh' := honest_mono (sub_snoc _ _) hh
    have hns' : NeverStale d es a.start := fun now hn => hns now (List.mem_append_left _ hn)
    have ht : Totals d es a.start a := by
      rcases hm.only a ha with h3 | h3
      · exact h3.2 hh'
      · exact h.totals hh' a h3.2 (fun x => h3.1 ((hmem _).2 x)) hns'
    exact totals_congr (fun k _ => by rw [latest_recalculate]; exact Agree.refl _) ht
  · intro t ht
    exact hm.kept t (.inr ((hmem t).2 ht))
  · intro a ha hpend hh
    rcases hm.only a ha with h3 | h3
    · exact h3.2 hh
    · exact absurd ((hmem _).2 hpend) h3.1
  · intro a ha hpend
    rcases hm.only a ha with h3 | h3
    · exact absurd ((hmem _).1 h3.1) hpend
    · exact h3.2

/-! ### consumePollResponse -/

/-- the host status part of `consumePollResponse`. -/
def noteStatus (now1 now2 : Time) (s : State) (r : PollResponse) : State :=
  match s.hostStatus.get? r.hostPort with
  | some hs => { s with hostStatus := s.hostStatus.set r.hostPort (updateStatus now1 now2 r hs) }
  | none => s

theorem noteStatus_fields (now1 now2 : Time) (s : State) (r : PollResponse) :
    (noteStatus now1 now2 s r).intervalDuration = s.intervalDuration ∧ (noteStatus now1 now2 s r).maxIntervals = s.maxIntervals ∧
    (noteStatus now1 now2 s r).hostAggregations = s.hostAggregations ∧
    (noteStatus now1 now2 s r).intervalsNeedingRecalculation = s.intervalsNeedingRecalculation ∧
    (noteStatus now1 now2 s r).intervalAggregations = s.intervalAggregations := by
  unfold noteStatus
  split <;> exact ⟨rfl, rfl, rfl, rfl, rfl⟩

theorem consume_eq (now1 now2 : Time) (s : State) (r : PollResponse) : consumePollResponse now1 now2 s r = (
    if r.code = 200 ∧ r.err = none then
      if (noteStatus now1 now2 s r).intervalDuration = 0 then
        if r.response.intervalDuration = 0 then none
        else storeAll r { noteStatus now1 now2 s r with
          intervalDuration := r.response.intervalDuration, maxIntervals := Int.tdiv retain r.response.intervalDuration } r.response.aggs
      else if (noteStatus now1 now2 s r).intervalDuration ≠ r.response.intervalDuration then some (noteStatus now1 now2 s r)
      else storeAll r (noteStatus now1 now2 s r) r.response.aggs
    else some (noteStatus now1 now2 s r)) := rfl

theorem consume_cases {now1 now2 : Time} {s s' : State} {r : PollResponse} (h : consumePollResponse now1 now2 s r = some s') :
    (¬ Succeeded r ∧ s' = noteStatus now1 now2 s r) ∨
    (Succeeded r ∧ s.intervalDuration = 0 ∧ r.response.intervalDuration ≠ 0 ∧
      storeAll r { noteStatus now1 now2 s r with
        intervalDuration := r.response.intervalDuration, maxIntervals := Int.tdiv retain r.response.intervalDuration } r.response.aggs = some s') ∨
    (Succeeded r ∧ s.intervalDuration ≠ 0 ∧ s.intervalDuration ≠ r.response.intervalDuration ∧ s' = noteStatus now1 now2 s r) ∨
    (Succeeded r ∧ s.intervalDuration ≠ 0 ∧ s.intervalDuration = r.response.intervalDuration ∧
      storeAll r (noteStatus now1 now2 s r) r.response.aggs = some s') := by
  rw [consume_eq, (noteStatus_fields now1 now2 s r).1] at h
  split at h
  · next hs =>
    split at h
    · next h0 =>
      split at h
      · cases h
      · next h1 => exact .inr (.inl ⟨hs, h0, h1, h⟩)
    · next h0 =>
      split at h
      · next h1 => exact .inr (.inr (.inl ⟨hs, h0, h1, (Option.some.inj h).symm⟩))
      · next h1 => exact .inr (.inr (.inr ⟨hs, h0, by simpa using h1, h⟩))
  · next hs => exact .inl ⟨hs, (Option.some.inj h).symm⟩

/-! ### histories -/

theorem events_snoc (d : Int) (h : List Op) (op : Op) : events d (h ++ [op]) = events d h ++ events d [op] := by
  unfold events; simp

open Classical in
theorem agreed_snoc (h : List Op) (op : Op) :
    agreed (h ++ [op]) = if (∃ r n1 n2, Op.response r n1 n2 ∈ h ∧ Succeeded r) then agreed h else agreed [op] := by
  induction h with
  | nil => simp
  | cons x t ih =>
    cases x with
    | response r n1 n2 =>
      show (if Succeeded r then _ else agreed (t ++ [op])) = if _ then (if Succeeded r then _ else agreed t) else _
      by_cases hr : Succeeded r
      · rw [if_pos hr, if_pos hr, if_pos ⟨r, n1, n2, by simp, hr⟩]
      · rw [if_neg hr, if_neg hr, ih]
        congr 1
        apply propext
        constructor
        · rintro ⟨r', a, b, h1, h2⟩; exact ⟨r', a, b, by simp [h1], h2⟩
        · rintro ⟨r', a, b, h1, h2⟩
          simp only [List.mem_cons, Op.response.injEq] at h1
          rcases h1 with ⟨rfl, _⟩ | h1
          · exact absurd h2 hr
          · exact ⟨r', a, b, h1, h2⟩
    | purge now =>
      show agreed (t ++ [op]) = if _ then agreed t else _
      rw [ih]
      congr 1
      apply propext
      simp
    | recalculate ks en =>
      show agreed (t ++ [op]) = if _ then agreed t else _
      rw [ih]
      congr 1
      apply propext
      simp

theorem setAggregation_fields {sort : List IntAgg → List IntAgg} {s s' : State} {a : IntAgg} (h : setAggregation sort s a = some s') :
    s'.intervalDuration = s.intervalDuration ∧ s'.maxIntervals = s.maxIntervals ∧ s'.hostStatus = s.hostStatus ∧ s'.hostAggregations = s.hostAggregations := by
  unfold setAggregation at h
  split at h
  · rw [← Option.some.inj h]; exact ⟨rfl, rfl, rfl, rfl⟩
  · obtain ⟨l, _, h8⟩ := Option.map_eq_some_iff.1 h
    rw [← h8]; exact ⟨rfl, rfl, rfl, rfl⟩

theorem recalculate_fields {sort : List IntAgg → List IntAgg} {en : Time → List (Key × Report)} {l : List Time} : ∀ {s s' : State},
    l.foldlM (recalculateOne sort en) s = some s' →
    s'.intervalDuration = s.intervalDuration ∧ s'.maxIntervals = s.maxIntervals ∧ s'.hostStatus = s.hostStatus ∧ s'.hostAggregations = s.hostAggregations := by
  induction l with
  | nil => intro s s' h; cases h; exact ⟨rfl, rfl, rfl, rfl⟩
  | cons k t ih =>
    intro s s' h
    rw [List.foldlM_cons] at h
    obtain ⟨s4, h3, h4⟩ := Option.bind_eq_some_iff.1 h
    obtain ⟨a, h5, h6⟩ := Option.bind_eq_some_iff.1 (show (_ : Option IntAgg).bind _ = some s4 from h3)
    obtain ⟨a1, a2, a3, a4⟩ := setAggregation_fields h6
    obtain ⟨b1, b2, b3, b4⟩ := ih h4
    exact ⟨b1.trans a1, b2.trans a2, b3.trans a3, b4.trans a4⟩

/-- which interval duration healthd has taken. -/
theorem Runs.phase {sort : List IntAgg → List IntAgg} {hps : List Str} {h : List Op} {s : State} (hr : Runs sort (init hps) h s) :
    (s.intervalDuration = 0 ∧ s.maxIntervals = 0 ∧ (∀ r n1 n2, Op.response r n1 n2 ∈ h → ¬ Succeeded r) ∧ agreed h = 0) ∨
    (s.intervalDuration ≠ 0 ∧ s.maxIntervals = Int.tdiv retain s.intervalDuration ∧ (∃ r n1 n2, Op.response r n1 n2 ∈ h ∧ Succeeded r) ∧
      agreed h = s.intervalDuration) := by
  induction hr with
  | nil => exact .inl ⟨rfl, rfl, by simp, rfl⟩
  | @snoc ops s1 s2 op hr hv hs ih =>
    have hcase : (∃ r n1 n2, Op.response r n1 n2 ∈ ops ∧ Succeeded r) ∨ ¬ (∃ r n1 n2, Op.response r n1 n2 ∈ ops ∧ Succeeded r) := em _
    have other : (s2.intervalDuration = s1.intervalDuration ∧ s2.maxIntervals = s1.maxIntervals) →
        (∀ r n1 n2, op = .response r n1 n2 → ¬ Succeeded r ∨ s1.intervalDuration ≠ 0) →
        (s2.intervalDuration = 0 ∧ s2.maxIntervals = 0 ∧ (∀ r n1 n2, Op.response r n1 n2 ∈ ops ++ [op] → ¬ Succeeded r) ∧ agreed (ops ++ [op]) = 0) ∨
        (s2.intervalDuration ≠ 0 ∧ s2.maxIntervals = Int.tdiv retain s2.intervalDuration ∧
          (∃ r n1 n2, Op.response r n1 n2 ∈ ops ++ [op] ∧ Succeeded r) ∧ agreed (ops ++ [op]) = s2.intervalDuration) := by
      rintro ⟨e1, e2⟩ hno
      rcases ih with ⟨i1, i2, i3, i4⟩ | ⟨i1, i2, ⟨r, n1, n2, i3, i3'⟩, i4⟩
      · left
        have hno' : ∀ r n1 n2, op = .response r n1 n2 → ¬ Succeeded r := fun r n1 n2 e => (hno r n1 n2 e).resolve_right (by simp [i1])
        refine ⟨by rw [e1, i1], by rw [e2, i2], ?_, ?_⟩
        · intro r n1 n2 hm
          simp only [List.mem_append, List.mem_singleton] at hm
          rcases hm with hm | hm
          · exact i3 r n1 n2 hm
          · exact hno' r n1 n2 hm.symm
        · rw [agreed_snoc, if_neg (by rintro ⟨r, n1, n2, h1, h2⟩; exact i3 r n1 n2 h1 h2)]
          cases op with
          | response r n1 n2 => rw [agreed, if_neg (hno' r n1 n2 rfl)]; rfl
          | purge now => rfl
          | recalculate ks en => rfl
      · right
        refine ⟨by rw [e1]; exact i1, by rw [e2, e1, i2], ⟨r, n1, n2, by simp [i3], i3'⟩, ?_⟩
        rw [agreed_snoc, if_pos ⟨r, n1, n2, i3, i3'⟩, e1, i4]
    cases op with
    | response r n1 n2 =>
      have hn := noteStatus_fields n1 n2 s1 r
      rcases consume_cases hs with ⟨h1, h2⟩ | ⟨h1, h2, h3, h4⟩ | ⟨h1, h2, h3, h4⟩ | ⟨h1, h2, h3, h4⟩
      · subst h2
        exact other ⟨hn.1, hn.2.1⟩ (fun r' a b e => by cases e; exact .inl h1)
      · right
        obtain ⟨f1, f2, _⟩ := storeAll_fields h4
        refine ⟨by rw [f1]; exact h3, by rw [f2, f1], ⟨r, n1, n2, by simp, h1⟩, ?_⟩
        rcases ih with ⟨i1, i2, i3, i4⟩ | ⟨i1, _⟩
        · rw [agreed_snoc, if_neg (by rintro ⟨r, n1, n2, h1, h2⟩; exact i3 r n1 n2 h1 h2), agreed, if_pos h1, f1]
        · exact absurd h2 i1
      · subst h4
        exact other ⟨hn.1, hn.2.1⟩ (fun r' a b e => .inr h2)
      · obtain ⟨f1, f2, _⟩ := storeAll_fields h4
        exact other ⟨f1.trans hn.1, f2.trans hn.2.1⟩ (fun r' a b e => .inr h2)
    | purge now =>
      obtain ⟨l, h1, h2⟩ := Option.bind_eq_some_iff.1 (show (truncateAggs _ _).bind _ = some s2 from hs)
      rw [← Option.some.inj h2]
      rw [← Option.some.inj h2] at other
      exact other ⟨rfl, rfl⟩ (fun r' a b e => by cases e)
    | recalculate ks en =>
      obtain ⟨s3, h1, h2⟩ := Option.bind_eq_some_iff.1 (show (ks.foldlM (recalculateOne sort en) s1).bind _ = some s2 from hs)
      have h3 := recalculate_fields h1
      rw [← Option.some.inj h2]
      rw [← Option.some.inj h2] at other
      exact other ⟨h3.1, h3.2.1⟩ (fun r' a b e => by cases e)

theorem events_report_mem {d : Int} {h : List Op} {k : Key} {a : IntAgg} (hm : Ev.report k a ∈ events d h) :
    ∃ r n1 n2 rep, Op.response r n1 n2 ∈ h ∧ Succeeded r ∧ r.response.intervalDuration = d ∧ some rep ∈ r.response.aggs ∧ rep.agg = a ∧
      k = ⟨a.start, r.response.instanceId, r.hostPort⟩ := by
  unfold events at hm
  rw [List.mem_flatMap] at hm
  obtain ⟨op, h1, h2⟩ := hm
  cases op with
  | response r n1 n2 =>
    simp only at h2
    split at h2
    · next h3 =>
      unfold reportsIn at h2
      rw [List.mem_filterMap] at h2
      obtain ⟨o, h4, h5⟩ := h2
      cases o with
      | none => simp at h5
      | some rep =>
        simp only [Option.map_some, Option.some.injEq, Ev.report.injEq] at h5
        exact ⟨r, n1, n2, rep, h1, h3.1, h3.2, h4, h5.2, by rw [← h5.2]; exact h5.1.symm⟩
    · simp at h2
  | purge now => simp at h2
  | recalculate ks en => simp at h2

theorem reportsOk_events {h : List Op} (hd : Decoded h) (d : Int) : ReportsOk (events d h) := by
  intro k a hm
  obtain ⟨r, n1, n2, rep, h1, hs, _, h2, rfl, _⟩ := events_report_mem hm
  exact hd r n1 n2 h1 hs rep h2

theorem latest_none {d : Int} {es : List Ev} (h : ∀ k a, Ev.report k a ∉ es) (k : Key) : latest d es k = none := by
  cases hl : latest d es k with
  | none => rfl
  | some a => exact absurd (latest_mem hl) (h k a)

theorem not_pending {d : Int} {es : List Ev} (h : ∀ k a, Ev.report k a ∉ es) (t : Time) : ¬ Pending d es t := by
  rintro ⟨es1, k, a, es2, rfl, _⟩
  exact h k a (by simp)

theorem not_calculated {d : Int} {es : List Ev} (h : ∀ k a, Ev.report k a ∉ es) (t : Time) : ¬ Calculated d es t := by
  rintro ⟨es1, es2, rfl, hp⟩
  exact not_pending (fun k a hm => h k a (by simp [hm])) t hp

/-- before the first successful poll. -/
theorem Inv.noReports {d : Int} {es : List Ev} {s : State} (h : ∀ k a, Ev.report k a ∉ es) (hi : Inv d es s) :
    s.hostAggregations = [] ∧ s.intervalsNeedingRecalculation = [] ∧ s.intervalAggregations = [] := by
  refine ⟨?_, ?_, ?_⟩
  · cases hh : s.hostAggregations with
    | nil => rfl
    | cons p t =>
      have := hi.held p.1
      rw [latest_none h, hh, GoMap.get?_cons, if_pos rfl] at this
      cases this
  · cases hh : s.intervalsNeedingRecalculation with
    | nil => rfl
    | cons p t =>
      exact absurd ((hi.dirty p.1).1 (by rw [hh]; simp [GoMap.keys])) (not_pending h _)
  · cases hh : s.intervalAggregations with
    | nil => rfl
    | cons a t => exact absurd (hi.only a (by rw [hh]; simp)) (not_calculated h _)

theorem Runs.inv {sort : List IntAgg → List IntAgg} (hsort : SortsByStart sort) {hps : List Str} {h : List Op} {s : State} (hr : Runs sort (init hps) h s) :
    Decoded h → ∀ d, (s.intervalDuration ≠ 0 → d = s.intervalDuration) → (-2 ^ 63 ≤ 5 * d ∧ 5 * d < 2 ^ 63) → Inv d (events d h) s := by
  induction hr with
  | nil =>
    intro _ d _ _
    exact ⟨GoMap.Wf.nil, GoMap.Wf.nil, fun k => trivial, fun t => by simp [init, GoMap.keys, events, pending_nil],
      ⟨by simp [init], by simp [init], by simp [init]⟩, fun t ht => absurd ht (not_calculated (by simp [events]) t), by simp [init], by simp [init]⟩
  | @snoc ops s1 s2 op hr hv hs ih =>
    intro hdec d hd hrange
    have hdec' : Decoded ops := fun r n1 n2 hm => hdec r n1 n2 (by simp [hm])
    have ih := ih hdec'
    have hph := Runs.phase hr
    rw [events_snoc]
    cases op with
    | response r n1 n2 =>
      have hn := noteStatus_fields n1 n2 s1 r
      rcases consume_cases hs with ⟨h1, h2⟩ | ⟨h1, h2, h3, h4⟩ | ⟨h1, h2, h3, h4⟩ | ⟨h1, h2, h3, h4⟩
      · subst h2
        rw [hn.1] at hd
        have : events d [.response r n1 n2] = [] := by simp [events, h1]
        rw [this, List.append_nil]
        exact (ih d hd hrange).congr hn.2.2.1 hn.2.2.2.1 hn.2.1 hn.2.2.2.2
      · obtain ⟨f1, f2, _⟩ := storeAll_fields h4
        have hdd : d = r.response.intervalDuration := by rw [hd (by rw [f1]; exact h3), f1]
        have hno : ∀ k a, Ev.report k a ∉ events d ops := by
          intro k a hm
          obtain ⟨r', a', b', rep, q1, q2, _⟩ := events_report_mem hm
          rcases hph with ⟨_, _, i3, _⟩ | ⟨i1, _⟩
          · exact i3 r' a' b' q1 q2
          · exact i1 h2
        have hi := ih d (by simp [h2]) hrange
        obtain ⟨z1, z2, z3⟩ := hi.noReports hno
        have : events d [.response r n1 n2] = reportsIn r := by simp [events, h1, hdd]
        rw [this]
        refine Inv.reports r.response.aggs ?_ h4
        refine ⟨by simp [hn.2.2.1, z1, GoMap.Wf.nil], by simp [hn.2.2.2.1, z2, GoMap.Wf.nil], ?_, ?_, ?_, fun t ht => absurd ht (not_calculated hno t), ?_, ?_⟩
        · intro k; rw [latest_none hno]; simp [hn.2.2.1, z1, GoMap.get?, Held]
        · intro t; simp [hn.2.2.2.1, z2, GoMap.keys, not_pending hno]
        · refine ⟨?_, ?_, ?_⟩ <;> simp [hn.2.2.2.2, z3]
        · simp [hn.2.2.2.2, z3]
        · simp [hn.2.2.2.2, z3]
      · subst h4
        rw [hn.1] at hd
        have hdd := hd h2
        have : events d [.response r n1 n2] = [] := by simp [events, h1, hdd, Ne.symm h3]
        rw [this, List.append_nil]
        exact (ih d hd hrange).congr hn.2.2.1 hn.2.2.2.1 hn.2.1 hn.2.2.2.2
      · obtain ⟨f1, f2, _⟩ := storeAll_fields h4
        rw [f1, hn.1] at hd
        have hdd := hd h2
        have : events d [.response r n1 n2] = reportsIn r := by simp [events, h1, hdd, h3]
        rw [this]
        exact Inv.reports r.response.aggs ((ih d hd hrange).congr hn.2.2.1 hn.2.2.2.1 hn.2.1 hn.2.2.2.2) h4
    | purge now =>
      have hdur : s2.intervalDuration = s1.intervalDuration := by
        obtain ⟨l, h1, h2⟩ := Option.bind_eq_some_iff.1 (show (truncateAggs _ _).bind _ = some s2 from hs)
        rw [← Option.some.inj h2]
      rw [hdur] at hd
      have hi := ih d hd hrange
      have he : events d [.purge now] = [.purge now] := by simp [events]
      rw [he]
      refine hi.purge ?_ hrange hs
      rcases hph with ⟨i1, _, i3, _⟩ | ⟨i1, _⟩
      · refine .inr (hi.noReports ?_).1
        intro k a hm
        obtain ⟨r', a', b', rep, q1, q2, _⟩ := events_report_mem hm
        exact i3 r' a' b' q1 q2
      · exact .inl (hd i1).symm
    | recalculate ks en =>
      have he : events d [.recalculate ks en] = [.recalculate] := by simp [events]
      rw [he]
      have hdur : s2.intervalDuration = s1.intervalDuration := by
        have hd0 : ∃ d0, (s1.intervalDuration ≠ 0 → d0 = s1.intervalDuration) := ⟨_, fun _ => rfl⟩
        rcases Runs.phase (Runs.snoc hr hv hs) with p | p <;> rcases hph with q | q
        · rw [p.1, q.1]
        · obtain ⟨r, a, b, q3, q4⟩ := q.2.2.1
          exact absurd q4 (p.2.2.1 r a b (by simp [q3]))
        · obtain ⟨r, a, b, p3, p4⟩ := p.2.2.1
          simp at p3
          exact absurd p4 (q.2.2.1 r a b p3)
        · rw [← p.2.2.2, ← q.2.2.2, agreed_snoc, if_pos q.2.2.1]
      rw [hdur] at hd
      exact ((ih d hd hrange).recalculate hsort (reportsOk_events hdec' d) hv.1 hv.2 hs).1

end Healthd
