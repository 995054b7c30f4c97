import Verif.Props.Watch
import Verif.Spec.WatchGrows
/-!
# What healthd shows for an interval only grows (C112)
-/
namespace Watch
open Spec Healthd EndToEnd

/-! ## Emissions and numbers -/

theorem sum_sublist {xs ys : List Int} (h : xs.Sublist ys) (hy : ∀ y ∈ ys, 0 ≤ y) : xs.sum ≤ ys.sum := by
  induction h with
  | slnil => exact le_refl _
  | cons a _ ih =>
    have := hy a (by simp)
    have := ih (fun y hy' => hy y (by simp [hy']))
    simp only [List.sum_cons]; omega
  | cons_cons a _ ih =>
    have := ih (fun y hy' => hy y (by simp [hy']))
    simp only [List.sum_cons]; omega

theorem sum_nonneg {xs : List Int} (h : ∀ x ∈ xs, 0 ≤ x) : 0 ≤ xs.sum := by
  induction xs with
  | nil => exact le_refl _
  | cons a xs ih =>
    have := h a (by simp)
    have := ih (fun x hx => h x (by simp [hx]))
    simp only [List.sum_cons]; omega

theorem expected_grows {c : Counter} {es es' : List Emit} (hs : es.Sublist es') (hg : OnlyGrows c es') {n : Int} (h : expected c es = some n) :
    ∃ n', expected c es' = some n' ∧ n ≤ n' := by
  have e : ∀ l : List Emit, (l.map (contrib c)).filterMap id = l.filterMap (contrib c) := fun l => by rw [List.filterMap_map]; rfl
  unfold expected sumI at *
  rw [e] at h ⊢
  have hsub := hs.filterMap (contrib c)
  have hpos : ∀ x ∈ es'.filterMap (contrib c), 0 ≤ x := by
    intro x hx
    obtain ⟨y, h1, h2⟩ := List.mem_filterMap.1 hx
    exact hg.1 y h1 x h2
  split at h
  · cases h
  · rename_i hne
    rw [if_neg (fun h0 => hne (by rw [h0] at hsub; exact List.sublist_nil.1 hsub))]
    refine ⟨_, rfl, ?_⟩
    cases h
    have h1 := sum_sublist hsub hpos
    have h2 := sum_nonneg (fun x hx => hpos x (hsub.subset hx))
    have h3 := hg.2
    rw [i64_of_range (by omega) (by omega), i64_of_range (by omega) (by omega)]
    exact h1

theorem contrib_counts {c : Counter} (hc : Counts c) {e : Emit} {n : Int} (h : contrib c e = some n) : 0 ≤ n ∧ n ≤ 1 := by
  have hst : ∀ st, 0 ≤ hasStatus st e ∧ hasStatus st e ≤ 1 := by
    intro st
    unfold hasStatus
    split
    · split <;> omega
    · omega
  cases c <;> simp only [Counts] at hc <;> cases e <;> simp only [contrib, Option.ite_none_right_eq_some, Option.some.injEq, reduceCtorEq] at h <;>
    first
    | omega
    | (obtain ⟨_, rfl⟩ := h; first | omega | exact hst _)

theorem onlyGrows_counts {c : Counter} (hc : Counts c) {es : List Emit} (hl : es.length < 2 ^ 63) : OnlyGrows c es := by
  refine ⟨fun e _ n h => (contrib_counts hc h).1, ?_⟩
  have : (es.filterMap (contrib c)).sum ≤ es.length := by
    clear hl
    induction es with
    | nil => simp
    | cons e es ih =>
      rw [List.filterMap_cons]
      cases h : contrib c e with
      | none => simp only [List.length_cons]; push_cast; omega
      | some n =>
        have := (contrib_counts hc h).2
        simp only [List.sum_cons, List.length_cons]; push_cast; omega
  omega

theorem samples_sublist {es es' : List Emit} (h : es.Sublist es') (x : Extreme) : (samples es x).Sublist (samples es' x) := by
  cases x <;> simp only [samples, timings, ofJob, completions]
  all_goals first
    | exact h.filterMap _
    | exact (h.filter _).filterMap _
    | exact ((h.filter _).filterMap _).map _

/-! ## What a process still has -/

def starts (d : Int) (h : List (Time × AggOp)) : List Int := (segments d h).map (·.1.ns)

theorem starts_append (d : Int) (h h' : List (Time × AggOp)) : starts d h <+: starts d (h ++ h') := by
  induction h' using snocInduction with
  | nil => simp
  | snoc l x ih =>
    refine ih.trans ?_
    rw [← List.append_assoc]
    generalize h ++ l = g
    unfold starts
    rw [segments_snoc]
    unfold addToSegments
    cases hl : (segments d g).getLast? with
    | none =>
      have : segments d g = [] := by simpa using hl
      simp [this]
    | some p =>
      obtain ⟨t, es⟩ := p
      simp only
      split
      · conv_lhs => rw [← List.dropLast_append_getLast? _ hl]
        simp
      · simp

/-- a process that still has an interval now still had it before. -/
theorem retained_before {d retain ns : Int} (hd : 0 < d) {h h' : List (Time × AggOp)} (hm : MonotoneClock (h ++ h'))
    (hne : madeIn d ns h ≠ []) (hr : ∃ g ∈ retained d retain (h ++ h'), g.1.ns = ns) : ∃ g ∈ retained d retain h, g.1.ns = ns := by
  have hi := segInv hd _ hm
  have hi0 := segInv hd h hm.prefix
  obtain ⟨g, hg, hgs⟩ := hr
  obtain ⟨⟨q, _, hq⟩, _⟩ := hi.exact g (mem_lastN hg)
  have hq' : ns = d * (q.1.ns / d) := by rw [← hgs, ← hq]; rfl
  have hin : ns ∈ starts d h := by
    obtain ⟨e, he⟩ := List.exists_mem_of_ne_nil _ hne
    unfold madeIn at he
    obtain ⟨x, hx, he⟩ := List.mem_flatMap.1 he
    split at he
    · rename_i hb
      obtain ⟨g', hg', hg2⟩ := hi0.cover x hx
      refine List.mem_map.2 ⟨g', hg', ?_⟩
      rw [hg2]
      show d * (x.1.ns / d) = ns
      have h1 : q.1.ns / d = x.1.ns / d := by
        apply Int.le_antisymm
        · rw [Int.le_ediv_iff_mul_le hd, Int.mul_comm]; omega
        · have : x.1.ns / d < q.1.ns / d + 1 := by
            rw [Int.ediv_lt_iff_lt_mul hd, Int.add_mul, Int.mul_comm]; omega
          omega
      rw [hq', h1]
    · simp at he
  have hr' : ns ∈ lastN (retain / d).toNat (starts d (h ++ h')) := by
    unfold starts
    rw [lastN_map]
    exact List.mem_map.2 ⟨g, hg, hgs⟩
  have hnd : (starts d (h ++ h')).Nodup := by
    unfold starts List.Nodup
    rw [List.pairwise_map]
    exact hi.sorted.imp (fun h => by omega)
  obtain ⟨w, hw⟩ := starts_append d h h'
  rw [← hw] at hr' hnd
  unfold lastN at hr'
  rw [List.drop_append, List.mem_append] at hr'
  have hbefore : ns ∈ lastN (retain / d).toNat (starts d h) := by
    rcases hr' with h1 | h1
    · unfold lastN
      refine (List.drop_sublist_drop_left _ ?_).subset h1
      simp only [List.length_append]; omega
    · exact absurd (List.mem_of_mem_drop h1) (fun h2 => (List.disjoint_of_nodup_append hnd) hin h2)
  unfold starts at hbefore
  rw [lastN_map] at hbefore
  obtain ⟨g', h1, h2⟩ := List.mem_map.1 hbefore
  exact ⟨g', h1, h2⟩

/-! ## Two moments of an execution -/

section
variable {sort : List IntAgg → List IntAgg} {lo : Int → Int} {d : Int} {P : List Proc} {hostPorts : List Str} {s s' : Sys}

theorem Step.grows {x : Item} (h : Step sort lo d P s x s') : s.past <+: s'.past ∧ s.taken <+: s'.taken ∧ s.done <+: s'.done := by
  cases h with
  | act => exact ⟨List.prefix_append .., List.prefix_rfl, List.prefix_rfl⟩
  | serve => exact ⟨List.prefix_append .., List.prefix_rfl, List.prefix_rfl⟩
  | deliver => exact ⟨List.prefix_append .., List.prefix_rfl, List.prefix_rfl⟩
  | finish => exact ⟨List.prefix_append .., List.prefix_rfl, List.prefix_rfl⟩
  | tick => exact ⟨List.prefix_append .., List.prefix_rfl, List.prefix_append ..⟩
  | consume => exact ⟨List.prefix_append .., List.prefix_append .., List.prefix_append ..⟩
  | recalculate hr =>
    refine ⟨List.prefix_append .., ?_, List.prefix_append ..⟩
    cases hr with
    | allIn => exact List.prefix_append ..
    | fire => exact List.prefix_rfl
  | quiet => exact ⟨List.prefix_append .., List.prefix_rfl, List.prefix_rfl⟩

theorem _root_.Spec.Leads.grows (h : Leads sort lo d P s s') : s.past <+: s'.past ∧ s.taken <+: s'.taken ∧ s.done <+: s'.done := by
  induction h with
  | refl => exact ⟨List.prefix_rfl, List.prefix_rfl, List.prefix_rfl⟩
  | step _ hs ih =>
    obtain ⟨a, b, c⟩ := hs.grows
    exact ⟨ih.1.trans a, ih.2.1.trans b, ih.2.2.trans c⟩

theorem _root_.Spec.Leads.reach (h0 : Reach sort lo d P hostPorts s) (h : Leads sort lo d P s s') : Reach sort lo d P hostPorts s' := by
  induction h with
  | refl => exact h0
  | step _ hs ih => exact ih.step hs

theorem inTime_prefix {hosts : List Str} {a b : List Item} (h : InTime hosts b) (hp : a <+: b) : InTime hosts a := by
  obtain ⟨c, rfl⟩ := hp
  intro u v e
  exact h u (v ++ c) (by rw [e]; simp)

theorem ordinary_prefix {a b : List Item} (h : Ordinary d P b) (hp : a <+: b) : Ordinary d P a :=
  ⟨h.pos, h.fits, fun i p hi => ok_prefix (h.procs i p hi) (histOf_prefix i hp), h.nodup⟩

theorem seen_grows (h : Reach sort lo d P hostPorts s') (hin : InTime hostPorts s'.past) (hp : s.taken <+: s'.taken) (i : Nat) : seen i s.taken <+: seen i s'.taken := by
  cases hl : (answersOf i s.taken).getLast? with
  | none =>
    have : seen i s.taken = [] := by simp [seen, hl]
    rw [this]; exact List.nil_prefix
  | some o =>
    have : seen i s.taken = o.hist ++ [(o.now, .read)] := by simp [seen, hl]
    obtain ⟨r, x, hm, rfl⟩ := mem_answersOf.1 (List.mem_of_getLast? hl)
    rw [this]
    exact seen_all h hin (hp.subset hm)

/-- what healthd holds later, it also held before (of what it had heard of then). -/
theorem held_before (h0 : Reach sort lo d P hostPorts s) (hin0 : InTime hostPorts s.past) (h : Reach sort lo d P hostPorts s') (hin : InTime hostPorts s'.past)
    (hok : Ordinary d P s'.past) (hp : s.taken <+: s'.taken) {i : Nat} {p : Proc} (hi : P[i]? = some p) {ns : Int} (hh : Held d ns p i s'.taken) :
    Held d ns p i s.taken := by
  intro hne
  obtain ⟨c, hc⟩ := seen_grows h hin hp i
  obtain ⟨o, ho, hall, hret⟩ := hh (by rw [← hc, madeIn_append]; simp [hne])
  obtain ⟨w, hw⟩ := hp
  have ho' := ho
  rw [← hw, answersOf_append, List.mem_append] at ho'
  rcases ho' with ho' | ho'
  · refine ⟨o, ho', ?_, hret⟩
    obtain ⟨r, x, hm, e⟩ := mem_answersOf.1 ho'
    have hpre := seen_all h0 hin0 hm
    rw [e] at hpre
    obtain ⟨b, hb⟩ := hpre
    have h3 := hall
    rw [← hc, ← hb, List.append_assoc] at h3
    have h4 := List.self_eq_append_right.1 (h3.trans (madeIn_append ..))
    rw [madeIn_append] at h4
    rw [← hb]
    refine Eq.symm ((madeIn_append ..).trans ?_)
    rw [(List.append_eq_nil_iff.1 h4).1, List.append_nil]
  · cases hl : (answersOf i s.taken).getLast? with
    | none => exact absurd (by simp [seen, hl, madeIn]) hne
    | some o1 =>
      have hs1 : seen i s.taken = o1.hist ++ [(o1.now, .read)] := by simp [seen, hl]
      obtain ⟨r1, x1, hm1, e1⟩ := mem_answersOf.1 (List.mem_of_getLast? hl)
      obtain ⟨r, x, hm, e⟩ := mem_answersOf.1 ho'
      obtain ⟨u, v, huv⟩ := List.append_of_mem hm1
      have huv' : s'.taken = u ++ (r1, some (x1, some o1)) :: (v ++ w) := by rw [← hw, huv]; simp
      obtain ⟨b, hb⟩ := received_in_order h hin huv' (List.mem_append_right _ hm) (e.trans e1.symm)
      refine held_last ?_ hne
      rw [hs1] at hne ⊢
      refine retained_before hok.pos (h' := b) ?_ hne (by rw [hb]; exact hret)
      rw [hb]
      obtain ⟨r', x', hm', e'⟩ := mem_answersOf.1 ho
      have h6 := seen_all h hin hm'
      rw [e'] at h6
      exact (ok_prefix (hok.procs i p hi) (h6.trans (seen_past h i))).clock

theorem neverStale_prefix {d : Int} {a b : List Op} {t : Time} (h : NeverStale d (events d b) t) (hp : a <+: b) : NeverStale d (events d a) t := by
  obtain ⟨c, rfl⟩ := hp
  intro now hm
  refine h now ?_
  unfold events at *
  rw [List.flatMap_append]
  exact List.mem_append_left _ hm

/-- **C112**: what healthd shows for an interval (that no purge has removed) at some moment, it shows or exceeds at every later moment: numbers only grow, minima
only fall, maxima only rise, and no number disappears from an interval, nor an interval from a series that is not full of later ones. Provided no poll outlasted the
time between two rounds and of every process healthd received an answer that still had the interval and all it could have heard of by then. -/
theorem C112_grows (hsort : SortsByStart sort) (h : Reach sort lo d P hostPorts s) (hl : Leads sort lo d P s s')
    (hin : InTime hostPorts s'.past) (hok : Ordinary d P s'.past)
    {ks ks' : List Time} {entries entries' : Time → List (Key × Unmarshal.Report)} {data data' : State}
    (hv : (Op.recalculate ks entries).Valid s.data) (hs : Healthd.step sort s.data (.recalculate ks entries) = some data)
    (hv' : (Op.recalculate ks' entries').Valid s'.data) (hs' : Healthd.step sort s'.data (.recalculate ks' entries') = some data')
    {t : Time} (hn : NeverStale d (events d s'.done) t)
    (hz : ∀ i p, P[i]? = some p → ∀ x ∈ histOf i s'.past, zoneId lo t.ns (p.zone x.1.loc t.ns) = some t.loc)
    (hr : ∀ i p, P[i]? = some p → Held d t.ns p i s'.taken) {a : IntAgg} (ha : a ∈ data.intervalAggregations) (hat : a.start = t) :
    let es := (List.range P.length).flatMap (fun i => madeIn d t.ns (seen i s'.taken))
    (∀ a' ∈ data'.intervalAggregations, a'.start = t →
      (∀ c n, value a c = some n → (Counts c ∧ es.length < 2 ^ 63) ∨ OnlyGrows c es → ∃ n', value a' c = some n' ∧ n ≤ n') ∧
      (es.length < 2 ^ 63 → ∀ x, (∀ j, x ≠ .job j) → ∀ m, summary a x = some m → ∃ m', summary a' x = some m' ∧ m'.nanosMin ≤ m.nanosMin ∧ m.nanosMax ≤ m'.nanosMax)) ∧
    ((∃ c n, value a c = some n) → (∃ a' ∈ data'.intervalAggregations, a'.start = t) ∨
      ((data'.intervalAggregations.length : Int) = 7200000000000 / d ∧ ∀ a' ∈ data'.intervalAggregations, t.ns ≤ a'.start.ns)) := by
  obtain ⟨g1, g2, g3⟩ := hl.grows
  have h' := hl.reach h
  have hin0 := inTime_prefix hin g1
  have hok0 := ordinary_prefix hok g1
  have k1 := C109_shown hsort h hin0 hok0 hv hs (neverStale_prefix hn g3) (fun i p hi x hx => hz i p hi x ((histOf_prefix i g1).subset hx))
    (fun i p hi => held_before h hin0 h' hin hok g2 hi (hr i p hi))
  have k2 := C109_shown hsort h' hin hok hv' hs' hn hz hr
  have hsub : ((List.range P.length).flatMap (fun i => madeIn d t.ns (seen i s.taken))).Sublist
      ((List.range P.length).flatMap (fun i => madeIn d t.ns (seen i s'.taken))) := by
    have : ∀ l : List Nat, (l.flatMap (fun i => madeIn d t.ns (seen i s.taken))).Sublist (l.flatMap (fun i => madeIn d t.ns (seen i s'.taken))) := by
      intro l
      induction l with
      | nil => simp
      | cons i l ih =>
        rw [List.flatMap_cons, List.flatMap_cons]
        refine List.Sublist.append ?_ ih
        obtain ⟨c, hc⟩ := seen_grows h' hin g2 i
        rw [← hc, madeIn_append]
        exact List.sublist_append_left ..
    exact this _
  intro es
  obtain ⟨v1, x1⟩ := k1.1 a ha hat
  refine ⟨?_, ?_⟩
  · intro a' ha' hat'
    obtain ⟨v2, x2⟩ := k2.1 a' ha' hat'
    refine ⟨?_, ?_⟩
    · intro c n hc hg
      have hg : OnlyGrows c es := by
        rcases hg with ⟨h1, h2⟩ | hg
        · exact onlyGrows_counts h1 h2
        · exact hg
      rw [v1] at hc
      rw [v2]
      exact expected_grows hsub hg hc
    · intro hlen x hx m hm
      have e1 := x1 (lt_of_le_of_lt hsub.length_le hlen) x hx
      have e2 := x2 hlen x hx
      have hss := samples_sublist hsub x
      unfold ExtremesOf at e1 e2
      rw [hm] at e1
      simp only at e1
      obtain ⟨n1, l1, gr1⟩ := e1
      cases hm' : summary a' x with
      | none =>
        rw [hm'] at e2
        simp only at e2
        rw [e2] at hss
        exact absurd (List.sublist_nil.1 hss) n1
      | some m' =>
        rw [hm'] at e2
        simp only at e2
        exact ⟨m', rfl, e2.2.1.2 _ (hss.subset l1.1), e2.2.2.2 _ (hss.subset gr1.1)⟩
  · rintro ⟨c, n, hc⟩
    refine k2.2 ?_
    intro hnil
    rw [hnil] at hsub
    rw [v1, List.sublist_nil.1 hsub] at hc
    simp [expected, sumI] at hc

end

/-! ## A case -/

namespace Late

theorem run_leads {s s' : Sys} {l : List Choice} (h : run s l = some s') : Leads sortAggs lo d [proc] s s' := by
  induction l using snocInduction generalizing s' with
  | nil => cases h; exact .refl
  | snoc l c ih =>
    obtain ⟨s1, h1, h2⟩ := run_append h
    obtain ⟨x, hx⟩ := next_step (s := s1) (s' := s') (c := c) (by simpa [run] using h2)
    exact (ih h1).step hx

/-- what a recalculation would show. -/
def would (s : Sys) : Option State :=
  Healthd.step sortAggs s.data (.recalculate s.data.intervalsNeedingRecalculation.keys (fun _ => s.data.hostAggregations))
def numbers (x : State) : List (Time × Option Int) := x.intervalAggregations.map (fun a => (a.start, value a (.event (bs "e"))))

theorem first_would : (run (start 0 [host]) (good.take 6)).map (fun s => (would s).map numbers) = some (some [(⟨0, 0⟩, some 1)]) := by decide +kernel
theorem second_would : (run (start 0 [host]) good).map (fun s => (would s).map numbers) = some (some [(⟨0, 0⟩, some 2)]) := by decide +kernel

end Late

open Late in
/-- a case of `C112_grows`: after the first answer healthd shows one event, after the second it shows two. -/
example : ∃ s s' data data', Reach sortAggs lo d [proc] [host] s ∧ Leads sortAggs lo d [proc] s s' ∧ InTime [host] s'.past ∧ Ordinary d [proc] s'.past ∧
    (Op.recalculate s.data.intervalsNeedingRecalculation.keys (fun _ => s.data.hostAggregations)).Valid s.data ∧
    Healthd.step sortAggs s.data (.recalculate s.data.intervalsNeedingRecalculation.keys (fun _ => s.data.hostAggregations)) = some data ∧
    (Op.recalculate s'.data.intervalsNeedingRecalculation.keys (fun _ => s'.data.hostAggregations)).Valid s'.data ∧
    Healthd.step sortAggs s'.data (.recalculate s'.data.intervalsNeedingRecalculation.keys (fun _ => s'.data.hostAggregations)) = some data' ∧
    NeverStale d (events d s'.done) ⟨0, 0⟩ ∧
    (∀ i p, [proc][i]? = some p → ∀ x ∈ histOf i s'.past, zoneId lo 0 (p.zone x.1.loc 0) = some 0) ∧
    (∀ i p, [proc][i]? = some p → Held d 0 p i s'.taken) ∧ numbers data = [(⟨0, 0⟩, some 1)] ∧ numbers data' = [(⟨0, 0⟩, some 2)] := by
  have hsome := second_would
  cases hg : run (start 0 [host]) good with
  | none => rw [hg] at hsome; cases hsome
  | some s' =>
    have hsplit : run (start 0 [host]) (good.take 6 ++ good.drop 6) = some s' := by rw [List.take_append_drop]; exact hg
    obtain ⟨s, hs, hl⟩ := run_append hsplit
    have hfirst := first_would
    rw [hs, Option.map_some, Option.some.injEq] at hfirst
    rw [hg, Option.map_some, Option.some.injEq] at hsome
    obtain ⟨data, hd1, hd2⟩ := Option.map_eq_some_iff.1 hfirst
    obtain ⟨data', hd1', hd2'⟩ := Option.map_eq_some_iff.1 hsome
    have hf := good_facts
    have hp := good_past
    rw [hg, Option.map_some, Option.some.injEq] at hf hp
    rw [Prod.mk.injEq, Prod.mk.injEq] at hf
    obtain ⟨f1, f2, _⟩ := hf
    obtain ⟨p1, _⟩ := of_decide_eq_true hp
    refine ⟨s, s', data, data', run_reach (.start 0) hs, run_leads hl, inTime_iff _ _ p1, ordinary f1, ⟨List.Perm.refl _, fun _ => List.Perm.refl _⟩, hd1,
      ⟨List.Perm.refl _, fun _ => List.Perm.refl _⟩, hd1', (run_purges (by intro now hm; simp [start] at hm) hg).neverStale, ?_, ?_, hd2, hd2'⟩
    · intro i p hp x _
      match i with
      | 0 => simp at hp; subst hp; rfl
      | i + 1 => simp at hp
    · intro i p hp
      match i with
      | 0 =>
        simp at hp; subst hp
        refine held_last ?_
        rw [f2]
        exact ⟨(⟨0, 0⟩, [.event (bs "j") (bs "e"), .event (bs "j") (bs "e")]), by decide +kernel, rfl⟩
      | i + 1 => simp at hp

end Watch
