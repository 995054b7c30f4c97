import Verif.Spec.EndToEnd
import Verif.Props.Aggregator
import Verif.Props.Metrics
import Verif.Props.Healthd
import Verif.Props.HealthdSafe
import Verif.Props.Merge
import Verif.Lemmas.Counters
import Verif.Lemmas.Decoded
/-!
# C57: from the emissions of a fleet to what healthd shows
-/
open Spec Healthd

namespace EndToEnd

/-! ## Lists of emissions -/

theorem interval_iff {d ns x : Int} (hd : 0 < d) (hns : d ∣ ns) : d * (x / d) = ns ↔ ns ≤ x ∧ x < ns + d := by
  obtain ⟨k, rfl⟩ := hns
  have h1 : d * (x / d) + x % d = x := Int.mul_ediv_add_emod x d
  have h2 := Int.emod_nonneg x (show d ≠ 0 by omega)
  have h3 := Int.emod_lt_of_pos x hd
  constructor
  · intro h; omega
  · rintro ⟨h4, h5⟩
    have h6 : x / d = k := by
      rw [Int.ediv_eq_iff_of_pos hd]
      constructor
      · rw [mul_comm]; exact h4
      · nlinarith
    rw [h6]

theorem madeIn_append (d ns : Int) (a b : List (Time × AggOp)) : madeIn d ns (a ++ b) = madeIn d ns a ++ madeIn d ns b := by
  simp [madeIn]

theorem madeIn_read (d ns : Int) (now : Time) (h2 : List (Time × AggOp)) : madeIn d ns ((now, .read) :: h2) = madeIn d ns h2 := by
  simp [madeIn, emitsOf]

theorem emitsIn_madeIn {d : Int} (hd : 0 < d) {s : Time} (hs : d ∣ s.ns) {h : List (Time × AggOp)} (hl : ∀ x ∈ h, x.1.loc = s.loc) :
    emitsIn d s h = madeIn d s.ns h := by
  induction h with
  | nil => rfl
  | cons x t ih =>
    have h1 := ih (fun y hy => hl y (by simp [hy]))
    have h2 := hl x (by simp)
    have h3 : intervalStart d x.1 = s ↔ s.ns ≤ x.1.ns ∧ x.1.ns < s.ns + d := by
      rw [← interval_iff hd hs]
      unfold intervalStart
      constructor
      · intro h; rw [← h]
      · intro h; rw [h, h2]
    unfold emitsIn madeIn at *
    by_cases h4 : s.ns ≤ x.1.ns ∧ x.1.ns < s.ns + d
    · rw [List.filter_cons_of_pos (by simpa using h3.2 h4), List.flatMap_cons, List.flatMap_cons, h1, if_pos h4]
    · rw [List.filter_cons_of_neg (by simpa using fun h => h4 (h3.1 h)), List.flatMap_cons, h1, if_neg h4]
      rfl

theorem madeIn_length (d ns : Int) (h : List (Time × AggOp)) : (madeIn d ns h).length ≤ h.length := by
  induction h with
  | nil => simp [madeIn]
  | cons x t ih =>
    have : madeIn d ns (x :: t) = (if ns ≤ x.1.ns ∧ x.1.ns < ns + d then emitsOf x.2 else []) ++ madeIn d ns t := rfl
    rw [this, List.length_append, List.length_cons]
    have h1 : (if ns ≤ x.1.ns ∧ x.1.ns < ns + d then emitsOf x.2 else []).length ≤ 1 := by
      split
      · cases x.2 <;> simp [emitsOf]
      · simp
    omega

/-! ## Sums -/

theorem sumI_flatten (l : List (List (Option Int))) : sumI (l.map sumI) = sumI l.flatten := by
  induction l using snocInduction with
  | nil => rfl
  | snoc l x ih =>
    rw [List.map_append, List.flatten_append, List.map_singleton, sumI_snoc, ih]
    simp only [List.flatten_cons, List.flatten_nil, List.append_nil]
    induction x using snocInduction with
    | nil =>
      rw [List.append_nil, sumI_pair]
      have := sumI_map_i64 l.flatten
      cases h : sumI l.flatten with
      | none => rfl
      | some v => rw [h] at this; exact this
    | snoc x y ihx =>
      rw [← List.append_assoc, sumI_snoc x y, sumI_snoc (l.flatten ++ x) y, ← ihx]
      simp only [sumI_pair]
      cases sumI l.flatten <;> cases sumI x <;> cases y <;> simp [add_assoc]

theorem expected_flatMap {α : Type} (c : Counter) (l : List α) (f : α → List Emit) :
    sumI (l.map (fun p => expected c (f p))) = expected c (l.flatMap f) := by
  have h := sumI_flatten (l.map (fun p => (f p).map (contrib c)))
  rw [List.map_map] at h
  have h2 : (l.map (fun p => (f p).map (contrib c))).flatten = (l.flatMap f).map (contrib c) := by
    rw [List.map_flatMap, List.flatMap_def]
  rw [h2] at h
  exact h

theorem sumI_filter_none {α : Type} (l : List α) (f : α → Option Int) (q : α → Bool) (h : ∀ x ∈ l, q x = false → f x = none) :
    sumI ((l.filter q).map f) = sumI (l.map f) := by
  have : ((l.filter q).map f).filterMap id = (l.map f).filterMap id := by
    rw [List.filterMap_map, List.filterMap_map]
    induction l with
    | nil => rfl
    | cons x t ih =>
      have ih := ih (fun y hy => h y (by simp [hy]))
      cases hq : q x with
      | true => rw [List.filter_cons_of_pos hq, List.filterMap_cons, List.filterMap_cons, ih]
      | false => rw [List.filter_cons_of_neg (by simp [hq]), List.filterMap_cons, ih]; simp [h x (by simp) hq]
  unfold sumI
  rw [this]

/-! ## What agreeing aggregations show -/

theorem value_agrees {a b : IntAgg} (h : AggAgrees a b) (c : Counter) : value b c = value a c := by
  obtain ⟨_, _, hj, hm⟩ := h
  have timer : ∀ (x y : AggMaps), MapsAgree x y → ∀ ev, (y.timers.get? ev).map (·.count) = (x.timers.get? ev).map (·.count) ∧
      (y.timers.get? ev).map (·.nanosSum) = (x.timers.get? ev).map (·.nanosSum) := by
    intro x y hxy ev
    rw [hxy.timers]
    exact ⟨rfl, rfl⟩
  have job : ∀ j {α : Type} (f : JobAgg → Option α), (∀ x y, JobAgrees x y → f y = f x) → (b.jobs.get? j).bind f = (a.jobs.get? j).bind f := by
    intro j α f hf
    rcases hj j with ⟨h1, h2⟩ | ⟨x, y, h1, h2, h3⟩
    · rw [h1, h2]
    · rw [h1, h2]; exact hf x y h3
  have job' : ∀ j {α : Type} (f : JobAgg → α), (∀ x y, JobAgrees x y → f y = f x) → (b.jobs.get? j).map f = (a.jobs.get? j).map f := by
    intro j α f hf
    rcases hj j with ⟨h1, h2⟩ | ⟨x, y, h1, h2, h3⟩
    · rw [h1, h2]
    · rw [h1, h2]; exact congrArg some (hf x y h3)
  cases c with
  | event ev => exact hm.events ev
  | error ev => exact hm.errs ev
  | timerCount ev => exact (timer _ _ hm ev).1
  | timerSum ev => exact (timer _ _ hm ev).2
  | jobEvent j ev => exact job j _ (fun x y h => h.maps.events ev)
  | jobError j ev => exact job j _ (fun x y h => h.maps.errs ev)
  | jobTimerCount j ev => exact job j _ (fun x y h => (timer _ _ h.maps ev).1)
  | jobTimerSum j ev => exact job j _ (fun x y h => (timer _ _ h.maps ev).2)
  | jobCount j => exact job' j _ (fun x y h => by rw [h.timer])
  | jobSum j => exact job' j _ (fun x y h => by rw [h.timer])
  | jobSuccess j => exact job' j _ (fun x y h => h.counts.1)
  | jobValidationError j => exact job' j _ (fun x y h => h.counts.2.1)
  | jobPanic j => exact job' j _ (fun x y h => h.counts.2.2.1)
  | jobErrors j => exact job' j _ (fun x y h => h.counts.2.2.2.1)
  | jobJunk j => exact job' j _ (fun x y h => h.counts.2.2.2.2)

theorem summary_agrees {a b : IntAgg} (h : AggAgrees a b) (x : Extreme) : summary b x = summary a x := by
  obtain ⟨_, _, hj, hm⟩ := h
  cases x with
  | timer ev => exact hm.timers ev
  | jobTimer j ev =>
    simp only [summary]
    rcases hj j with ⟨h1, h2⟩ | ⟨x, y, h1, h2, h3⟩
    · rw [h1, h2]
    · rw [h1, h2]; exact h3.maps.timers ev
  | job j =>
    simp only [summary]
    rcases hj j with ⟨h1, h2⟩ | ⟨x, y, h1, h2, h3⟩
    · rw [h1, h2]
    · rw [h1, h2]; simp [h3.timer]

theorem sameReading_of_agrees {a b b' : IntAgg} (h : AggAgrees a b) (h' : AggAgrees a b') : SameReading b b' := by
  refine ⟨fun c => by rw [value_agrees h, value_agrees h'], fun x => ?_, fun x => ?_⟩
  · rw [summary_agrees h, summary_agrees h']
  · rw [summary_agrees h, summary_agrees h']

/-! ## One poll -/

theorem polled {lo : Int → Int} {d : Int} (hd : 0 < d) (hd' : InI64 d) {p : Process} (hp : p.Ok d) {h1 h2 : List (Time × AggOp)} {now : Time} {r : PollResponse}
    (h : PolledAt lo d p h1 now h2 r) :
    Succeeded r ∧ r.hostPort = p.hostPort ∧ r.response.instanceId = p.instanceId ∧ r.response.intervalDuration = d ∧
    (∀ k a, Ev.report k a ∈ reportsIn r → k = ⟨a.start, p.instanceId, p.hostPort⟩ ∧ d ∣ a.start.ns ∧
      ∃ x ∈ p.hist, InZone lo (p.zone x.1.loc a.start.ns) a.start ∧ AggAgrees (aggOf ⟨a.start.ns, x.1.loc⟩ (madeIn d a.start.ns h1)) a) ∧
    (∀ g ∈ retained d p.retain (h1 ++ [(now, .read)]), ∃ a, Ev.report ⟨a.start, p.instanceId, p.hostPort⟩ a ∈ reportsIn r ∧ a.start.ns = g.1.ns) ∧
    Sane r := by
  obtain ⟨he, ms, fresh, ts, nanos, junk, e, hms, rfl⟩ := h
  have hsub : ∀ x ∈ h1 ++ [(now, AggOp.read)], x ∈ p.hist := by
    intro x hx
    rw [he]
    rcases List.mem_append.1 hx with hx | hx
    · simp [hx]
    · simp at hx; simp [hx]
  obtain ⟨ms', rs, g1, g2, g3⟩ := C67_emitted_partial d p.retain hd hp.retain hd' h1 now p.instanceId p.zone hp.zones hp.id.1 hp.id.2
    (fun t e hte => hp.emits t e (hsub _ (by simp [hte]))) (fun x hx => hp.years x (hsub x hx)) lo fresh
  rw [hms] at g1
  cases g1
  have hm : MonotoneClock (h1 ++ [(now, .read)]) := by
    have := hp.clock
    rw [he, show h1 ++ (now, AggOp.read) :: h2 = (h1 ++ [(now, .read)]) ++ h2 by simp] at this
    unfold MonotoneClock at this ⊢
    exact (List.pairwise_append.1 this).1
  rw [getMetrics_eq hd hp.retain] at hms
  cases hms
  have hpoll : poll lo fresh p.hostPort ts nanos junk e (.answer 200 (serveHTTP (bs "/health") p.instanceId d p.zone
      ((retained d p.retain (h1 ++ [(now, AggOp.read)])).map aggOfSeg)).body none) = ⟨p.hostPort, ts, none, 200, nanos, ⟨p.instanceId, d, rs⟩⟩ := by
    simp only [poll, g2]
  rw [hpoll]
  have hseg : ∀ g ∈ retained d p.retain (h1 ++ [(now, AggOp.read)]), d ∣ g.1.ns ∧ (∃ x ∈ p.hist, x.1.loc = g.1.loc) ∧ g.2 = madeIn d g.1.ns h1 := by
    intro g hg
    obtain ⟨⟨x, hx, hxe⟩, hex⟩ := (segInv hd _ hm).exact g (mem_lastN hg)
    rw [emitsIn_read] at hex
    have hdv : d ∣ g.1.ns := by rw [← hxe]; exact Dvd.intro _ rfl
    have hxl : x.1.loc = g.1.loc := by rw [← hxe]; rfl
    refine ⟨hdv, ⟨x, hsub x hx, hxl⟩, ?_⟩
    rw [hex]
    refine emitsIn_madeIn hd hdv ?_
    intro y hy
    rw [← hxl]
    unfold MonotoneClock at hm
    rw [List.pairwise_append] at hm
    -- all readings have the location of the last
    have hlast : y.1.loc = now.loc := (hm.2.2 y hy (now, .read) (by simp)).2
    rcases List.mem_append.1 hx with hx | hx
    · have := (hm.2.2 x hx (now, .read) (by simp)).2
      rw [hlast]; exact this.symm
    · simp at hx
      rw [hlast, hx]
  have hagree : ∀ (rs : List (Option Unmarshal.Report)) (gs : List (Time × List Emit)),
      List.Forall₂ (fun r a => ∃ b, r = some (⟨b, false⟩ : Unmarshal.Report) ∧ AggAgrees a b ∧ InZone lo (p.zone a.start.loc a.start.ns) b.start) rs (gs.map aggOfSeg) →
      (∀ o ∈ rs, ∃ rep, o = some rep ∧ rep.hasNil = false) ∧
      (∀ b, some b ∈ rs → ∃ g ∈ gs, AggAgrees (aggOfSeg g) b.agg ∧ InZone lo (p.zone g.1.loc g.1.ns) b.agg.start) ∧
      (∀ g ∈ gs, ∃ b, some b ∈ rs ∧ AggAgrees (aggOfSeg g) b.agg) := by
    intro rs gs hf
    induction gs generalizing rs with
    | nil => cases hf; exact ⟨by simp, by simp, by simp⟩
    | cons g gs ih =>
      rw [List.map_cons] at hf
      cases hf with
      | cons h1 h2 =>
        obtain ⟨b, rfl, hb, hz⟩ := h1
        obtain ⟨i0, i1, i2⟩ := ih _ h2
        refine ⟨by simpa using i0, ?_, ?_⟩
        · intro b' hb'
          rcases List.mem_cons.1 hb' with hb' | hb'
          · cases hb'
            refine ⟨g, by simp, hb, ?_⟩
            simpa [aggOfSeg, aggOf_start] using hz
          · obtain ⟨g', hg', hr⟩ := i1 b' hb'
            exact ⟨g', by simp [hg'], hr⟩
        · intro g' hg'
          rcases List.mem_cons.1 hg' with rfl | hg'
          · exact ⟨⟨b, false⟩, by simp, hb⟩
          · obtain ⟨b', hb', hr⟩ := i2 g' hg'
            exact ⟨b', by simp [hb'], hr⟩
  obtain ⟨a0, a1, a2⟩ := hagree _ _ g3
  refine ⟨⟨rfl, rfl⟩, rfl, rfl, rfl, ?_, ?_, fun _ => ⟨hd, a0⟩⟩
  · intro k a hka
    obtain ⟨o, ho, hoe⟩ := List.mem_filterMap.1 hka
    obtain ⟨b, hb, hbe⟩ := Option.map_eq_some_iff.1 hoe
    simp only at ho hbe
    cases hbe
    obtain ⟨g, hg, hag, hz⟩ := a1 b (by rw [← hb]; exact ho)
    obtain ⟨s1, ⟨x, hx, hxl⟩, s3⟩ := hseg g hg
    have hst : b.agg.start.ns = g.1.ns := by rw [hag.start]; simp [aggOfSeg, aggOf_start]
    refine ⟨rfl, by rw [hst]; exact s1, x, hx, by rw [hxl, hst]; exact hz, ?_⟩
    rw [hst, hxl, ← s3]
    exact hag
  · intro g hg
    obtain ⟨b, hb, hag⟩ := a2 g hg
    refine ⟨b.agg, List.mem_filterMap.2 ⟨some b, hb, rfl⟩, ?_⟩
    rw [hag.start]; simp [aggOfSeg, aggOf_start]

theorem locs {p : Process} (h : MonotoneClock p.hist) {x y : Time × AggOp} (hx : x ∈ p.hist) (hy : y ∈ p.hist) : x.1.loc = y.1.loc := by
  unfold MonotoneClock at h
  generalize p.hist = l at *
  induction l with
  | nil => simp at hx
  | cons z l ih =>
    rw [List.pairwise_cons] at h
    rcases List.mem_cons.1 hx with rfl | hx <;> rcases List.mem_cons.1 hy with rfl | hy
    · rfl
    · exact (h.1 y hy).2
    · exact (h.1 x (by assumption)).2.symm
    · exact ih h.2 hx hy

theorem aggs_value {s : Time} {es : List Emit} {a : IntAgg} (h : AggAgrees (aggOf s es) a) (c : Counter) : value a c = expected c es := by
  rw [value_agrees h, value_aggOf]

/-! ## All polls -/

section
variable {lo : Int → Int} {d : Int} {P : List Process} {h : List Op}

theorem _root_.Spec.Fleet.inI64 (f : Fleet lo d P h) : InI64 d := by
  have := f.pos; have := f.fits; unfold InI64; omega

theorem _root_.Spec.Fleet.same (f : Fleet lo d P h) {p q : Process} (hp : p ∈ P) (hq : q ∈ P) (h1 : p.hostPort = q.hostPort) (h2 : p.instanceId = q.instanceId) : p = q :=
  List.inj_on_of_nodup_map f.nodup hp hq (by simp [h1, h2])

theorem _root_.Spec.Fleet.report (f : Fleet lo d P h) {d' : Int} {k : Key} {a : IntAgg} (hm : Ev.report k a ∈ events d' h) :
    ∃ p ∈ P, ∃ r n1 n2 h1 now h2, Op.response r n1 n2 ∈ h ∧ Ev.report k a ∈ reportsIn r ∧ PolledAt lo d p h1 now h2 r ∧ k = ⟨a.start, p.instanceId, p.hostPort⟩ := by
  obtain ⟨r, n1, n2, rep, h1, hs, hd, h2, rfl, rfl⟩ := events_report_mem hm
  obtain ⟨p, hp, g1, now, g2, hpol⟩ := f.watches r n1 n2 h1 hs
  obtain ⟨_, e1, e2, _⟩ := polled f.pos f.inI64 (f.procs p hp) hpol
  exact ⟨p, hp, r, n1, n2, g1, now, g2, h1, List.mem_filterMap.2 ⟨_, h2, rfl⟩, hpol, by rw [e1, e2]⟩

theorem _root_.Spec.Fleet.agreed (f : Fleet lo d P h) {r : PollResponse} {n1 n2 : Time} (hm : Op.response r n1 n2 ∈ h) (hs : Succeeded r) : agreed h = d := by
  have key : ∀ h', (∀ op ∈ h', op ∈ h) → ∀ r n1 n2, Op.response r n1 n2 ∈ h' → Succeeded r → Spec.agreed h' = d := by
    intro h' hsub
    induction h' with
    | nil => simp
    | cons op t ih =>
      intro r n1 n2 hm hs
      have ih := fun r n1 n2 => ih (fun op hop => hsub op (by simp [hop])) r n1 n2
      have hrest : ∀ (hne : Op.response r n1 n2 ≠ op), Spec.agreed t = d := fun hne => ih r n1 n2 (by simpa [hne] using hm) hs
      cases op with
      | response r' n1' n2' =>
        rw [Spec.agreed]
        by_cases hs' : Succeeded r'
        · rw [if_pos hs']
          obtain ⟨p, hp, g1, now, g2, hpol⟩ := f.watches r' n1' n2' (hsub _ (by simp)) hs'
          exact (polled f.pos f.inI64 (f.procs p hp) hpol).2.2.2.1
        · rw [if_neg hs']
          exact hrest (fun e => by cases e; exact hs' hs)
      | purge now => exact hrest (by simp)
      | recalculate ks en => exact hrest (by simp)
  exact key h (fun _ h => h) r n1 n2 hm hs

theorem _root_.Spec.Fleet.sane (f : Fleet lo d P h) {r : PollResponse} {n1 n2 : Time} (hm : Op.response r n1 n2 ∈ h) : Sane r := by
  intro hs
  obtain ⟨p, hp, g1, now, g2, hpol⟩ := f.watches r n1 n2 hm hs
  exact (polled f.pos f.inI64 (f.procs p hp) hpol).2.2.2.2.2.2 hs

theorem _root_.Spec.Fleet.decoded (f : Fleet lo d P h) : Decoded h := by
  intro r n1 n2 hm hs rep hrep
  obtain ⟨p, hp, g1, now, g2, _, ms, fresh, ts, nanos, junk, e, _, hr⟩ := f.watches r n1 n2 hm hs
  refine decoded_of_polled (h := [.response r n1 n2]) ?_ r n1 n2 (by simp) hs rep hrep
  intro r' n1' n2' hm'
  simp only [List.mem_singleton, Op.response.injEq] at hm'
  rw [hm'.1, hr]
  exact ⟨_, _, _, _, _, _, _, _, rfl⟩

theorem _root_.Spec.Fleet.honest (f : Fleet lo d P h) (d' : Int) : Honest (events d' h) := by
  intro k a b ha hb hser
  obtain ⟨p, hp, r, n1, n2, g1, now, g2, _, hma, hpa, hka⟩ := f.report ha
  obtain ⟨q, hq, r', n1', n2', g1', now', g2', _, hmb, hpb, hkb⟩ := f.report hb
  have hab : a.start = b.start ∧ p.instanceId = q.instanceId ∧ p.hostPort = q.hostPort := by
    rw [hka] at hkb; simpa using hkb
  obtain rfl : p = q := f.same hp hq hab.2.2 hab.2.1
  obtain ⟨_, _, _, _, ra, _⟩ := polled f.pos f.inI64 (f.procs p hp) hpa
  obtain ⟨_, _, _, _, rb, _⟩ := polled f.pos f.inI64 (f.procs p hp) hpb
  obtain ⟨_, _, x, hx, _, aa⟩ := ra _ _ hma
  obtain ⟨_, _, y, hy, _, ab⟩ := rb _ _ hmb
  rw [← hab.1, ← locs (f.procs p hp).clock hx hy] at ab
  have hlen := (f.procs p hp).length
  have l1 : (madeIn d a.start.ns g1).length ≤ p.hist.length := by
    refine le_trans (madeIn_length _ _ _) ?_; rw [hpa.1]; simp
  have l2 : (madeIn d a.start.ns g1').length ≤ p.hist.length := by
    refine le_trans (madeIn_length _ _ _) ?_; rw [hpb.1]; simp
  have hlens : (madeIn d a.start.ns g1).length = (madeIn d a.start.ns g1').length := by
    have h1 := aa.serial
    have h2 := ab.serial
    rw [aggOf_serial] at h1 h2
    rw [h1, h2, i64_of_range (by omega) (by omega), i64_of_range (by omega) (by omega)] at hser
    exact_mod_cast hser
  have hpre : ∀ (u v : List (Time × AggOp)), u <+: v → (madeIn d a.start.ns u).length = (madeIn d a.start.ns v).length →
      madeIn d a.start.ns u = madeIn d a.start.ns v := by
    rintro u v ⟨w, rfl⟩ hl
    rw [madeIn_append] at hl ⊢
    rw [List.length_append] at hl
    rw [List.eq_nil_of_length_eq_zero (by omega : (madeIn d a.start.ns w).length = 0), List.append_nil]
  have p1 : g1 <+: p.hist := ⟨_, hpa.1.symm⟩
  have p2 : g1' <+: p.hist := ⟨_, hpb.1.symm⟩
  have heq : madeIn d a.start.ns g1 = madeIn d a.start.ns g1' := by
    rcases List.prefix_or_prefix_of_prefix p1 p2 with hw | hw
    · exact hpre _ _ hw hlens
    · exact (hpre _ _ hw hlens.symm).symm
  rw [← heq] at ab
  exact sameReading_of_agrees aa ab

/-! ## The latest report -/

theorem latest_of_mem {d : Int} {es1 es2 : List Ev} {k : Key} (hn : NeverStale d (es1 ++ es2) k.time) (hm : ∃ a, Ev.report k a ∈ es2) :
    ∃ a, latest d (es1 ++ es2) k = some a ∧ Ev.report k a ∈ es2 := by
  induction es2 using snocInduction with
  | nil => simp at hm
  | snoc es2 e ih =>
    rw [← List.append_assoc] at hn ⊢
    have hn' : NeverStale d (es1 ++ es2) k.time := fun now hmem => hn now (by simp at hmem ⊢; tauto)
    have hother : (∀ a, e ≠ Ev.report k a) → latest d (es1 ++ es2 ++ [e]) k = latest d (es1 ++ es2) k →
        ∃ a, latest d (es1 ++ es2 ++ [e]) k = some a ∧ Ev.report k a ∈ es2 ++ [e] := by
      intro hne hl
      obtain ⟨a, ha⟩ := hm
      simp only [List.mem_append, List.mem_singleton] at ha
      obtain ⟨b, hb1, hb2⟩ := ih hn' ⟨a, ha.resolve_right (fun h => hne a h.symm)⟩
      exact ⟨b, by rw [hl, hb1], by simp [hb2]⟩
    cases e with
    | report k' a' =>
      by_cases hk : k' = k
      · subst hk
        exact ⟨a', by rw [latest_report, if_pos rfl], by simp⟩
      · exact hother (by simp [hk]) (by rw [latest_report, if_neg hk])
    | purge now => exact hother (by simp) (by rw [latest_purge, if_neg (hn now (by simp) k rfl)])
    | recalculate => exact hother (by simp) (latest_recalculate _ _ _)

theorem reported_due {d : Int} {es : List Ev} {k : Key} {a : IntAgg} (hm : Ev.report k a ∈ es) : Pending d es k.time ∨ Calculated d es k.time := by
  induction es using snocInduction generalizing a with
  | nil => simp at hm
  | snoc es e ih =>
    by_cases hin : ∃ b, Ev.report k b ∈ es
    · obtain ⟨b, hb⟩ := hin
      rcases ih hb with hp | hc
      · cases e with
        | report k' a' => exact .inl ((pending_report ..).2 (.inr hp))
        | purge now => exact .inl ((pending_purge ..).2 hp)
        | recalculate => exact .inr ⟨es, [], rfl, hp⟩
      · obtain ⟨e1, e2, he, hp⟩ := hc
        exact .inr ⟨e1, e2 ++ [e], by simp [he], hp⟩
    · simp only [List.mem_append, List.mem_singleton] at hm
      rcases hm with hm | rfl
      · exact absurd ⟨a, hm⟩ hin
      · refine .inl ⟨es, k, a, [], rfl, rfl, ?_, by simp⟩
        cases hl : latest d es k with
        | none => simp
        | some b => exact absurd ⟨b, latest_mem hl⟩ hin

/-- the latest report of `p` has all its emissions in the interval. -/
theorem _root_.Spec.Fleet.complete (f : Fleet lo d P h) {t : Time} (hn : NeverStale d (events d h) t) {p : Process} (hp : p ∈ P)
    (hz : ∀ x ∈ p.hist, zoneId lo t.ns (p.zone x.1.loc t.ns) = some t.loc) (ha : HasAll lo d t.ns p h) :
    ∃ a l, latest d (events d h) ⟨t, p.instanceId, p.hostPort⟩ = some a ∧ AggAgrees (aggOf ⟨t.ns, l⟩ (madeIn d t.ns p.hist)) a := by
  obtain ⟨hA, r, n1, n2, hB, he, ⟨g1, now, g2, hpol, hall, g, hg, hgn⟩, hlater⟩ := ha
  obtain ⟨hsuc, _, _, hdur, hreps, hgs, _⟩ := polled f.pos f.inI64 (f.procs p hp) hpol
  obtain ⟨b, hb, hbn⟩ := hgs g hg
  obtain ⟨_, _, x, hx, hzb, _⟩ := hreps _ _ hb
  have hbt : b.start = t := by
    rw [hbn, hgn] at hzb
    have := hzb t.loc (by rw [hbn, hgn]; exact hz x hx)
    cases hst : b.start; cases t; simp_all
  have hev : events d h = events d hA ++ (reportsIn r ++ events d hB) := by
    rw [he]
    simp only [events, List.flatMap_append, List.flatMap_cons]
    rw [if_pos ⟨hsuc, hdur⟩]
  rw [hbt] at hb
  rw [hev] at hn ⊢
  obtain ⟨a, hla, hma⟩ := latest_of_mem (k := ⟨t, p.instanceId, p.hostPort⟩) hn ⟨b, by simp [hb]⟩
  have fin : ∀ g1 now g2 r', PolledAt lo d p g1 now g2 r' → madeIn d t.ns g2 = [] → Ev.report ⟨t, p.instanceId, p.hostPort⟩ a ∈ reportsIn r' →
      ∃ l, AggAgrees (aggOf ⟨t.ns, l⟩ (madeIn d t.ns p.hist)) a := by
    intro g1 now g2 r' hpol' hnil hm'
    obtain ⟨_, _, _, _, hreps', _⟩ := polled f.pos f.inI64 (f.procs p hp) hpol'
    obtain ⟨hk, _, y, _, _, hag⟩ := hreps' _ _ hm'
    have hat : a.start = t := by simpa using hk.symm
    rw [hat] at hag
    refine ⟨y.1.loc, ?_⟩
    rw [hpol'.1, madeIn_append, madeIn_read, hnil, List.append_nil]
    exact hag
  have : ∃ l, AggAgrees (aggOf ⟨t.ns, l⟩ (madeIn d t.ns p.hist)) a := by
    rcases List.mem_append.1 hma with hm | hm
    · exact fin _ _ _ _ hpol hall hm
    · obtain ⟨r', n1', n2', rep, m1, m2, m3, m4, rfl, m6⟩ := events_report_mem hm
      have hids : t = rep.agg.start ∧ p.instanceId = r'.response.instanceId ∧ p.hostPort = r'.hostPort := by simpa using m6
      obtain ⟨q1, qn, q2, hq, hqn⟩ := hlater r' n1' n2' m1 m2 hids.2.2.symm hids.2.1.symm
      refine fin _ _ _ _ hq hqn (List.mem_filterMap.2 ⟨_, m4, ?_⟩)
      simp only [Option.map_some, Option.some.injEq, Ev.report.injEq, and_true]
      exact m6.symm
  obtain ⟨l, hl⟩ := this
  exact ⟨a, l, hla, hl⟩

/-- what healthd knows of a process it has all of: nothing if there is nothing. -/
theorem _root_.Spec.Fleet.knows (f : Fleet lo d P h) {t : Time} (hn : NeverStale d (events d h) t) {p : Process} (hp : p ∈ P)
    (hz : ∀ x ∈ p.hist, zoneId lo t.ns (p.zone x.1.loc t.ns) = some t.loc) (ha : madeIn d t.ns p.hist ≠ [] → HasAll lo d t.ns p h) :
    (latest d (events d h) ⟨t, p.instanceId, p.hostPort⟩ = none ∧ madeIn d t.ns p.hist = []) ∨
    ∃ a l, latest d (events d h) ⟨t, p.instanceId, p.hostPort⟩ = some a ∧ AggAgrees (aggOf ⟨t.ns, l⟩ (madeIn d t.ns p.hist)) a := by
  by_cases he : madeIn d t.ns p.hist = []
  · cases hl : latest d (events d h) ⟨t, p.instanceId, p.hostPort⟩ with
    | none => exact .inl ⟨rfl, he⟩
    | some a =>
      right
      obtain ⟨q, hq, r, n1, n2, g1, now, g2, _, hma, hpa, hka⟩ := f.report (latest_mem hl)
      have hab : t = a.start ∧ p.instanceId = q.instanceId ∧ p.hostPort = q.hostPort := by simpa using hka
      obtain rfl : p = q := f.same hp hq hab.2.2 hab.2.1
      obtain ⟨_, _, _, _, ra, _⟩ := polled f.pos f.inI64 (f.procs p hp) hpa
      obtain ⟨_, _, x, hx, _, aa⟩ := ra _ _ hma
      refine ⟨a, x.1.loc, rfl, ?_⟩
      have : madeIn d t.ns g1 = [] := by
        rw [hpa.1, madeIn_append] at he
        exact (List.append_eq_nil_iff.1 he).1
      rw [← hab.1, this] at aa
      rw [he]; exact aa
  · exact .inr (f.complete hn hp hz (ha he))

/-- the processes with data in the interval, as healthd's keys. -/
theorem _root_.Spec.Fleet.keys (f : Fleet lo d P h) {t : Time} {ks : List Key} (hnd : ks.Nodup)
    (hmem : ∀ k, k ∈ ks ↔ k.time = t ∧ (latest d (events d h) k).isSome) :
    ks.Perm ((P.filter (fun p => (latest d (events d h) ⟨t, p.instanceId, p.hostPort⟩).isSome)).map (fun p => (⟨t, p.instanceId, p.hostPort⟩ : Key))) := by
  rw [List.perm_ext_iff_of_nodup hnd ?_]
  · intro k
    rw [hmem, List.mem_map]
    constructor
    · rintro ⟨ht, hs⟩
      obtain ⟨a, ha⟩ := Option.isSome_iff_exists.1 hs
      obtain ⟨p, hp, _, _, _, _, _, _, _, _, _, hk⟩ := f.report (latest_mem ha)
      have hk' : k = ⟨t, p.instanceId, p.hostPort⟩ := by rw [hk] at ht ⊢; rw [← ht]
      exact ⟨p, List.mem_filter.2 ⟨hp, by rw [← hk', ha]; rfl⟩, hk'.symm⟩
    · rintro ⟨p, hp, rfl⟩
      exact ⟨rfl, (List.mem_filter.1 hp).2⟩
  · refine List.Nodup.map_on ?_ ((List.Nodup.of_map _ f.nodup).filter _)
    intro p hp q hq e
    simp only [Key.mk.injEq] at e
    exact f.same (List.mem_filter.1 hp).1 (List.mem_filter.1 hq).1 e.2.2 e.2.1

theorem summary_start (s s' : Time) (es : List Emit) (x : Extreme) : summary (aggOf s es) x = summary (aggOf s' es) x := by
  cases x <;> simp only [summary, aggOf_maps, aggOf_jobs]

theorem minI_filter_none {α : Type} (l : List α) (f : α → Option Int) (q : α → Bool) (h : ∀ x ∈ l, q x = false → f x = none) :
    ((l.filter q).map f).filterMap id = (l.map f).filterMap id := by
  rw [List.filterMap_map, List.filterMap_map]
  induction l with
  | nil => rfl
  | cons x t ih =>
    have ih := ih (fun y hy => h y (by simp [hy]))
    cases hq : q x with
    | true => rw [List.filter_cons_of_pos hq, List.filterMap_cons, List.filterMap_cons, ih]
    | false => rw [List.filter_cons_of_neg (by simp [hq]), List.filterMap_cons, ih]; simp [h x (by simp) hq]

/-- reading something off the latest reports is reading it off the aggregations of all the processes' emissions. -/
theorem _root_.Spec.Fleet.read (f : Fleet lo d P h) {t : Time} (hn : NeverStale d (events d h) t)
    (hz : ∀ p ∈ P, ∀ x ∈ p.hist, zoneId lo t.ns (p.zone x.1.loc t.ns) = some t.loc) (ha : ∀ p ∈ P, madeIn d t.ns p.hist ≠ [] → HasAll lo d t.ns p h)
    {ks : List Key} (hnd : ks.Nodup) (hmem : ∀ k, k ∈ ks ↔ k.time = t ∧ (latest d (events d h) k).isSome)
    (F : IntAgg → Option Int) (hF : ∀ a b, AggAgrees a b → F b = F a) (hF' : ∀ s s' es, F (aggOf s es) = F (aggOf s' es)) (hF0 : F (aggOf t []) = none) :
    ∃ l, (ks.map (fun k => (latest d (events d h) k).bind F)).Perm l ∧
      l.filterMap id = (P.map (fun p => F (aggOf t (madeIn d t.ns p.hist)))).filterMap id := by
  refine ⟨_, (f.keys hnd hmem).map _, ?_⟩
  rw [List.map_map]
  have hval : ∀ p ∈ P, (latest d (events d h) ⟨t, p.instanceId, p.hostPort⟩).bind F = F (aggOf t (madeIn d t.ns p.hist)) := by
    intro p hp
    rcases f.knows hn hp (hz p hp) (ha p hp) with ⟨h1, h2⟩ | ⟨a, l, h1, h2⟩
    · rw [h1, h2, hF0]; rfl
    · rw [h1, Option.bind_some, hF _ _ h2, hF' _ t]
  have hno : ∀ p ∈ P, (latest d (events d h) ⟨t, p.instanceId, p.hostPort⟩).isSome = false →
      ((fun k => (latest d (events d h) k).bind F) ∘ fun p => (⟨t, p.instanceId, p.hostPort⟩ : Key)) p = none := by
    intro p _ hq
    simp only [Function.comp, Option.isSome_eq_false_iff, Option.isNone_iff_eq_none] at hq ⊢
    rw [hq]; rfl
  rw [minI_filter_none P _ _ hno]
  congr 1
  exact List.map_congr_left hval

end
end EndToEnd

/-! ## C57 -/

section
open EndToEnd

/-- totals over what a fleet has reported are totals over what it has emitted. -/
theorem _root_.Spec.Fleet.of_totals {lo : Int → Int} {d : Int} {P : List Process} {h : List Op} (f : Fleet lo d P h) {t : Time} (hn : NeverStale d (events d h) t)
    (hz : ∀ p ∈ P, ∀ x ∈ p.hist, zoneId lo t.ns (p.zone x.1.loc t.ns) = some t.loc) (ha : ∀ p ∈ P, madeIn d t.ns p.hist ≠ [] → HasAll lo d t.ns p h)
    {a : IntAgg} (htot : Totals d (events d h) t a) :
    let es := P.flatMap (fun p => madeIn d t.ns p.hist)
    (∀ c, value a c = expected c es) ∧ (es.length < 2 ^ 63 → ∀ x, (∀ j, x ≠ .job j) → ExtremesOf a x (samples es x)) := by
  intro es
  obtain ⟨kk, hnd, hmem, hval, hmin, hmax⟩ := htot
  constructor
  · intro c
    obtain ⟨l, hp, hl⟩ := f.read hn hz ha hnd hmem (fun b => value b c) (fun a b hab => value_agrees hab c)
      (fun s s' es => by simp only [value_aggOf]) (by simp only [value_aggOf]; rfl)
    rw [hval c, sumI_perm hp]
    have : sumI l = sumI (P.map (fun p => expected c (madeIn d t.ns p.hist))) := by
      unfold sumI
      rw [hl]
      simp only [value_aggOf]
    rw [this]
    exact expected_flatMap c P _
  · intro hlen x hx
    have hflat : es = (P.map (fun p => madeIn d t.ns p.hist)).flatten := by rw [← List.flatMap_def]
    have hempty : summary (aggOf t []) x = none := by
      have := summary_aggOf t [] x
      cases x with
      | job j => exact absurd rfl (hx j)
      | timer ev => rfl
      | jobTimer j ev => rfl
    have hext := extremes_mergeAll t (P.map (fun p => madeIn d t.ns p.hist)) x
      (by
        rw [← hflat]
        refine lt_of_le_of_lt ?_ hlen
        cases x <;> simp only [samples, timings, completions, ofJob, List.length_map]
        · exact List.length_filterMap_le _ _
        · exact le_trans (List.length_filterMap_le _ _) (List.length_filter_le _ _)
        · exact le_trans (List.length_filterMap_le _ _) (List.length_filter_le _ _))
      (by
        intro es' _ hsome
        have hsum := summary_aggOf t es' x
        obtain ⟨tm, htm⟩ := Option.isSome_iff_exists.1 hsome
        rw [htm] at hsum
        intro hnil
        obtain ⟨j, hj⟩ := hsum.2 hnil
        exact hx j hj)
    rw [← hflat] at hext
    have hw : ∀ b ∈ (P.map (fun p => madeIn d t.ns p.hist)).map (aggOf t), b.Wf := by
      intro b hb; obtain ⟨es', _, rfl⟩ := List.mem_map.1 hb; exact aggOf_wf _ _
    have e1 : (summary a x).map (·.nanosMin) = (summary (mergeAll t ((P.map (fun p => madeIn d t.ns p.hist)).map (aggOf t))) x).map (·.nanosMin) := by
      obtain ⟨l, hp, hl⟩ := f.read hn hz ha hnd hmem (fun b => (summary b x).map (·.nanosMin))
        (fun a b hab => by rw [summary_agrees hab]) (fun s s' es => by rw [summary_start s s']) (by rw [hempty]; rfl)
      rw [hmin x, minI_perm hp, min_mergeAll t _ hw x]
      unfold minI
      rw [hl]
      simp only [List.map_map]
      rfl
    have e2 : (summary a x).map (·.nanosMax) = (summary (mergeAll t ((P.map (fun p => madeIn d t.ns p.hist)).map (aggOf t))) x).map (·.nanosMax) := by
      obtain ⟨l, hp, hl⟩ := f.read hn hz ha hnd hmem (fun b => (summary b x).map (·.nanosMax))
        (fun a b hab => by rw [summary_agrees hab]) (fun s s' es => by rw [summary_start s s']) (by rw [hempty]; rfl)
      rw [hmax x, maxI_perm hp, max_mergeAll t _ hw x]
      unfold maxI
      rw [hl]
      simp only [List.map_map]
      rfl
    unfold ExtremesOf at hext ⊢
    cases hA : summary a x with
    | none =>
      cases hB : summary (mergeAll t ((P.map (fun p => madeIn d t.ns p.hist)).map (aggOf t))) x with
      | none => rw [hB] at hext; exact hext
      | some tb => rw [hA, hB] at e1; cases e1
    | some ta =>
      cases hB : summary (mergeAll t ((P.map (fun p => madeIn d t.ns p.hist)).map (aggOf t))) x with
      | none => rw [hA, hB] at e1; cases e1
      | some tb =>
        rw [hB] at hext
        rw [hA, hB] at e1 e2
        simp only [Option.map_some, Option.some.injEq] at e1 e2
        show samples es x ≠ [] ∧ Least ta.nanosMin (samples es x) ∧ Greatest ta.nanosMax (samples es x)
        rw [e1, e2]
        exact hext

/-- C57: healthd polls a fleet.  Take an interval that no purge has removed and suppose that, of every process that emitted something in it, healthd has
received a poll made after the last of these emissions while the process still had the interval.  Then, however the polls, purges and recalculations
went before, after a recalculation every counter shown for the interval counts the emissions of all the processes in the interval, the extremes of every
event's durations are those of all the processes' durations, and the interval is shown, unless the time series is full of newer ones. -/
theorem C57_end_to_end {sort : List IntAgg → List IntAgg} (hsort : SortsByStart sort) {hosts : List Str} {h : List Op} {s s' : State}
    (hr : Runs sort (init hosts) h s) {ks : List Time} {entries : Time → List (Key × Unmarshal.Report)} (hv : (Op.recalculate ks entries).Valid s)
    (hs : step sort s (.recalculate ks entries) = some s')
    {lo : Int → Int} {d : Int} {P : List Process} (f : Fleet lo d P h) {t : Time}
    (hn : NeverStale d (events d h) t)
    (hz : ∀ p ∈ P, ∀ x ∈ p.hist, zoneId lo t.ns (p.zone x.1.loc t.ns) = some t.loc)
    (ha : ∀ p ∈ P, madeIn d t.ns p.hist ≠ [] → HasAll lo d t.ns p h) :
    let es := P.flatMap (fun p => madeIn d t.ns p.hist)
    (∀ a ∈ s'.intervalAggregations, a.start = t → (∀ c, value a c = expected c es) ∧
      (es.length < 2 ^ 63 → ∀ x, (∀ j, x ≠ .job j) → ExtremesOf a x (samples es x))) ∧
    (es ≠ [] → (∃ a ∈ s'.intervalAggregations, a.start = t) ∨
      ((s'.intervalAggregations.length : Int) = 7200000000000 / d ∧ ∀ a ∈ s'.intervalAggregations, t.ns ≤ a.start.ns)) := by
  intro es
  have hcase : agreed h = d ∨ ¬ ∃ r n1 n2, Op.response r n1 n2 ∈ h ∧ Succeeded r := by
    by_cases hex : ∃ r n1 n2, Op.response r n1 n2 ∈ h ∧ Succeeded r
    · obtain ⟨r, n1, n2, h1, h2⟩ := hex
      exact .inl (f.agreed h1 h2)
    · exact .inr hex
  have hr' := hr.snoc hv hs
  have hdec' : Decoded (h ++ [.recalculate ks entries]) := by
    intro r n1 n2 hm
    simp only [List.mem_append, List.mem_singleton, reduceCtorEq, or_false] at hm
    exact f.decoded r n1 n2 hm
  have hseen : es ≠ [] → ∃ k a, k.time = t ∧ Ev.report k a ∈ events d h := by
    intro hne
    have hex : ∃ p ∈ P, madeIn d t.ns p.hist ≠ [] := by
      by_contra hcon
      push Not at hcon
      exact hne (List.flatMap_eq_nil_iff.2 hcon)
    obtain ⟨p, hp, hpe⟩ := hex
    obtain ⟨a, l, hla, _⟩ := f.complete hn hp (hz p hp) (ha p hp hpe)
    exact ⟨_, a, rfl, latest_mem hla⟩
  rcases hcase with hag | hno
  · have hrange : -2 ^ 63 ≤ 5 * agreed h ∧ 5 * agreed h < 2 ^ 63 := by rw [hag]; exact f.fits
    constructor
    · intro a hain hat
      have htot := (C41_totals hsort hr hv hs f.decoded (f.honest _) hrange).1 a hain
      rw [hag] at htot
      simp only [hat] at htot
      exact f.of_totals hn hz ha (htot (.inr hn))
    · intro hne
      obtain ⟨k, a, hkt, hla⟩ := hseen hne
      have hag' : agreed (h ++ [.recalculate ks entries]) = d := by
        rw [agreed_snoc]
        obtain ⟨r, n1, n2, _, h1, h2, _⟩ := events_report_mem hla
        rw [if_pos ⟨r, n1, n2, h1, h2⟩, hag]
      have hser := (C43_series hsort hr' hdec' (by rw [hag']; exact f.fits) (by rw [hag']; have := f.pos; omega)).2.2.2.2 t
      rw [hag'] at hser
      refine hser ?_
      rw [events_snoc, ← hkt]
      rcases reported_due (d := d) hla with hpend | ⟨e1, e2, he, hpend⟩
      · exact ⟨_, [], rfl, hpend⟩
      · exact ⟨e1, e2 ++ events d [.recalculate ks entries], by rw [he]; simp, hpend⟩
  · have hnone : ∀ d' k a, Ev.report k a ∉ events d' (h ++ [.recalculate ks entries]) := by
      intro d' k a hm
      obtain ⟨r, n1, n2, _, h1, h2, _⟩ := events_report_mem hm
      simp only [List.mem_append, List.mem_singleton, reduceCtorEq, or_false] at h1
      exact hno ⟨r, n1, n2, h1, h2⟩
    have hser : s'.intervalAggregations = [] := by
      refine (Inv.noReports (hnone d) (hr'.inv hsort hdec' d (fun h0 => ?_) f.fits)).2.2
      rcases hr'.phase with p | p
      · exact absurd p.1 h0
      · obtain ⟨r, n1, n2, h1, h2⟩ := p.2.2.1
        simp only [List.mem_append, List.mem_singleton, reduceCtorEq, or_false] at h1
        exact absurd ⟨r, n1, n2, h1, h2⟩ hno
    rw [hser]
    refine ⟨by simp, fun hne => ?_⟩
    obtain ⟨k, a, _, hm⟩ := hseen hne
    obtain ⟨r, n1, n2, _, h1, h2, _⟩ := events_report_mem hm
    exact absurd ⟨r, n1, n2, h1, h2⟩ hno

/-- C57: polling such a fleet never crashes healthd's loop, whatever polls fail, and in whatever order polls, purges and recalculations happen. -/
theorem C57_no_crash {sort : List IntAgg → List IntAgg} {hosts : List Str} {h : List Op} {s : State} (hr : Runs sort (init hosts) h s) {op : Op} (hv : op.Valid s)
    {lo : Int → Int} {d : Int} {P : List Process} (f : Fleet lo d P (h ++ [op])) : ∃ s', step sort s op = some s' :=
  C46_partial hr (fun _ _ _ hm => f.sane (List.mem_append_left _ hm)) hv (fun r n1 n2 e => f.sane (n1 := n1) (n2 := n2) (by simp [e]))

/-! a case that meets the hypotheses: a process polled before and after its second event, and another one. -/

namespace EndToEnd
def procA : Process := ⟨bs "h", bs "a", 120000000000, fun _ _ => 0, [(⟨1000000000, 0⟩, .emit (.event (bs "j") (bs "e"))), (⟨2000000000, 0⟩, .read),
  (⟨3000000000, 0⟩, .emit (.timing (bs "j") (bs "e") 7)), (⟨70000000000, 0⟩, .read)]⟩
def procB : Process := ⟨bs "i", bs "b", 60000000000, fun _ _ => 0, [(⟨1500000000, 0⟩, .emit (.event (bs "k") (bs "e"))),
  (⟨1600000000, 0⟩, .emit (.timing (bs "j") (bs "e") 5)), (⟨2500000000, 0⟩, .read)]⟩

/-- the answer of the process to a poll after `h1`. -/
def answer (p : Process) (h1 : List (Time × AggOp)) (now : Time) : PollResponse :=
  poll (fun _ => 0) 0 p.hostPort ⟨9, 1⟩ 5 ⟨[], 0, []⟩ (bs "json error")
    (.answer 200 (serveHTTP (bs "/health") p.instanceId 60000000000 p.zone ((getMetrics 60000000000 p.retain h1 now).getD [])).body none)

def polls : List Op := [.response (answer procA (procA.hist.take 1) ⟨2000000000, 0⟩) ⟨10, 1⟩ ⟨11, 1⟩,
  .response (answer procB (procB.hist.take 2) ⟨2500000000, 0⟩) ⟨12, 1⟩ ⟨13, 1⟩,
  .response (answer procA (procA.hist.take 3) ⟨70000000000, 0⟩) ⟨14, 1⟩ ⟨15, 1⟩]

theorem answer_polled {p : Process} {h1 h2 : List (Time × AggOp)} {now : Time} (he : p.hist = h1 ++ (now, .read) :: h2)
    (hm : (getMetrics 60000000000 p.retain h1 now).isSome) : PolledAt (fun _ => 0) 60000000000 p h1 now h2 (answer p h1 now) := by
  obtain ⟨ms, hms⟩ := Option.isSome_iff_exists.1 hm
  exact ⟨he, ms, 0, ⟨9, 1⟩, 5, ⟨[], 0, []⟩, bs "json error", hms, by simp only [answer, hms, Option.getD_some]⟩

attribute [irreducible] answer

theorem procA_ok : procA.Ok 60000000000 := by
  refine ⟨by decide, by unfold MonotoneClock; decide +kernel, by decide, ?_, ⟨?_, by decide⟩, ?_, by unfold FourDigits; decide +kernel⟩
  · unfold ZonesOk; intro l n; simp [procA]
  · rw [← validUtf8_iff]; decide +kernel
  · intro t e he
    simp only [procA, List.mem_cons, Prod.mk.injEq, List.not_mem_nil, or_false] at he
    simp only [← validUtf8_iff]
    rcases he with ⟨_, h⟩ | ⟨_, h⟩ | ⟨_, h⟩ | ⟨_, h⟩ <;> cases h
    · exact ⟨trivial, by decide +kernel⟩
    · exact ⟨by unfold EmitFits InI64; norm_num, by decide +kernel⟩

theorem procB_ok : procB.Ok 60000000000 := by
  refine ⟨by decide, by unfold MonotoneClock; decide +kernel, by decide, ?_, ⟨?_, by decide⟩, ?_, by unfold FourDigits; decide +kernel⟩
  · unfold ZonesOk; intro l n; simp [procB]
  · rw [← validUtf8_iff]; decide +kernel
  · intro t e he
    simp only [procB, List.mem_cons, Prod.mk.injEq, List.not_mem_nil, or_false] at he
    simp only [← validUtf8_iff]
    rcases he with ⟨_, h⟩ | ⟨_, h⟩ | ⟨_, h⟩ <;> cases h
    · exact ⟨trivial, by decide +kernel⟩
    · exact ⟨by unfold EmitFits InI64; norm_num, by decide +kernel⟩

theorem pollA1 : PolledAt (fun _ => 0) 60000000000 procA (procA.hist.take 1) ⟨2000000000, 0⟩ (procA.hist.drop 2) (answer procA (procA.hist.take 1) ⟨2000000000, 0⟩) :=
  answer_polled rfl (by decide +kernel)
theorem pollA2 : PolledAt (fun _ => 0) 60000000000 procA (procA.hist.take 3) ⟨70000000000, 0⟩ [] (answer procA (procA.hist.take 3) ⟨70000000000, 0⟩) :=
  answer_polled rfl (by decide +kernel)
theorem pollB : PolledAt (fun _ => 0) 60000000000 procB (procB.hist.take 2) ⟨2500000000, 0⟩ [] (answer procB (procB.hist.take 2) ⟨2500000000, 0⟩) :=
  answer_polled rfl (by decide +kernel)

theorem fleet_ok : Fleet (fun _ => 0) 60000000000 [procA, procB] polls := by
  refine ⟨by decide, by decide, ?_, by decide +kernel, ?_⟩
  · intro p hp
    simp only [List.mem_cons, List.not_mem_nil, or_false] at hp
    rcases hp with rfl | rfl
    · exact procA_ok
    · exact procB_ok
  · intro r n1 n2 hm _
    simp only [polls, List.mem_cons, Op.response.injEq, List.not_mem_nil, or_false] at hm
    rcases hm with ⟨rfl, _, _⟩ | ⟨rfl, _, _⟩ | ⟨rfl, _, _⟩
    · exact ⟨procA, by simp, _, _, _, pollA1⟩
    · exact ⟨procB, by simp, _, _, _, pollB⟩
    · exact ⟨procA, by simp, _, _, _, pollA2⟩
end EndToEnd

/-- … for every way to sort. -/
example {sort : List IntAgg → List IntAgg} (hsort : SortsByStart sort) : ∃ s s' ks entries, Runs sort (init [bs "h", bs "i"]) polls s ∧
    (Op.recalculate ks entries).Valid s ∧ step sort s (.recalculate ks entries) = some s' ∧
    Fleet (fun _ => 0) 60000000000 [procA, procB] polls ∧
    NeverStale 60000000000 (events 60000000000 polls) ⟨0, 0⟩ ∧
    (∀ p ∈ [procA, procB], ∀ x ∈ p.hist, zoneId (fun _ => 0) 0 (p.zone x.1.loc 0) = some 0) ∧
    (∀ p ∈ [procA, procB], madeIn 60000000000 0 p.hist ≠ [] → HasAll (fun _ => 0) 60000000000 0 p polls) ∧
    (∀ a ∈ s'.intervalAggregations, a.start = ⟨0, 0⟩ → value a (.event (bs "e")) = some 2 ∧ value a (.timerSum (bs "e")) = some 12 ∧
      (summary a (.timer (bs "e"))).map (·.nanosMax) = some 7) ∧
    [procA, procB].flatMap (fun p => madeIn 60000000000 0 p.hist) ≠ [] := by
  have steps : ∀ (s : State) (h : List Op), Runs sort (init [bs "h", bs "i"]) h s → (∀ x ∈ h, x ∈ polls) → ∀ l, (∀ x ∈ l, x ∈ polls) →
      ∃ s', Runs sort (init [bs "h", bs "i"]) (h ++ l) s' := by
    intro s h hr hsub l hl
    induction l generalizing s h with
    | nil => exact ⟨s, by simpa using hr⟩
    | cons op l ih =>
      have hop : op.Valid s := by
        have := hl op (by simp)
        simp only [polls, List.mem_cons, List.not_mem_nil, or_false] at this
        rcases this with rfl | rfl | rfl <;> trivial
      have hsub' : ∀ x ∈ h ++ [op], x ∈ polls := by
        intro x hx
        rcases List.mem_append.1 hx with hx | hx
        · exact hsub x hx
        · rw [List.mem_singleton.1 hx]; exact hl op (by simp)
      obtain ⟨s1, hs1⟩ := C57_no_crash hr hop ⟨fleet_ok.pos, fleet_ok.fits, fleet_ok.procs, fleet_ok.nodup,
        fun r n1 n2 hm => fleet_ok.watches r n1 n2 (hsub' _ hm)⟩
      obtain ⟨s', h'⟩ := ih s1 (h ++ [op]) (hr.snoc hop hs1) hsub' (fun x hx => hl x (by simp [hx]))
      exact ⟨s', by simpa using h'⟩
  obtain ⟨s, hr⟩ := steps _ [] .nil (by simp) polls (fun _ h => h)
  rw [List.nil_append] at hr
  have hv := Cmd.op_valid s .recalculate
  obtain ⟨s', hs⟩ := C57_no_crash hr hv ⟨fleet_ok.pos, fleet_ok.fits, fleet_ok.procs, fleet_ok.nodup,
    fun r n1 n2 hm => fleet_ok.watches r n1 n2 (by simpa [Cmd.op] using hm)⟩
  have hn : NeverStale 60000000000 (events 60000000000 polls) ⟨0, 0⟩ := by
    intro now hm
    exfalso
    simp only [polls, events, List.flatMap_cons, List.flatMap_nil, List.append_nil, List.mem_append] at hm
    rcases hm with hm | hm | hm <;>
    · split at hm
      · obtain ⟨o, _, ho⟩ := List.mem_filterMap.1 hm
        cases o <;> simp at ho
      · simp at hm
  have hz : ∀ p ∈ [procA, procB], ∀ x ∈ p.hist, zoneId (fun _ => 0) 0 (p.zone x.1.loc 0) = some 0 := by
    intro p hp x _
    simp only [List.mem_cons, List.not_mem_nil, or_false] at hp
    rcases hp with rfl | rfl <;> rfl
  have ha : ∀ p ∈ [procA, procB], madeIn 60000000000 0 p.hist ≠ [] → HasAll (fun _ => 0) 60000000000 0 p polls := by
    intro p hp _
    simp only [List.mem_cons, List.not_mem_nil, or_false] at hp
    rcases hp with rfl | rfl
    · refine ⟨polls.take 2, _, _, _, [], rfl, ⟨_, _, _, pollA2, rfl, ?_⟩, by simp⟩
      exact ⟨(⟨0, 0⟩, [.event (bs "j") (bs "e"), .timing (bs "j") (bs "e") 7]), by decide +kernel, rfl⟩
    · refine ⟨polls.take 1, _, _, _, polls.drop 2, rfl, ⟨_, _, _, pollB, rfl, ?_⟩, ?_⟩
      · exact ⟨(⟨0, 0⟩, [.event (bs "k") (bs "e"), .timing (bs "j") (bs "e") 5]), by decide +kernel, rfl⟩
      · intro r' n1 n2 hm hs hh
        simp only [polls, List.drop_succ_cons, List.drop_zero, List.mem_cons, Op.response.injEq, List.not_mem_nil, or_false] at hm
        rw [hm.1] at hh
        exact absurd ((polled (by decide) (by unfold InI64; decide) procA_ok pollA2).2.1.symm.trans hh) (by decide +kernel)
  have c1 := C57_end_to_end hsort hr hv hs fleet_ok (t := ⟨0, 0⟩) hn hz ha |>.1
  refine ⟨s, s', _, _, hr, hv, hs, fleet_ok, hn, hz, ha, ?_, ?_⟩
  · intro a hain hat
    obtain ⟨d1, d2⟩ := c1 a hain hat
    refine ⟨by rw [d1]; decide +kernel, by rw [d1]; decide +kernel, ?_⟩
    have d3 := d2 (by decide +kernel) (.timer (bs "e")) (by simp)
    unfold ExtremesOf at d3
    have hsam : samples ([procA, procB].flatMap fun p => madeIn 60000000000 0 p.hist) (.timer (bs "e")) = [7, 5] := by decide +kernel
    simp only [hsam] at d3
    cases hsm : summary a (.timer (bs "e")) with
    | none => rw [hsm] at d3; simp at d3
    | some tm =>
      rw [hsm] at d3
      obtain ⟨_, _, d4⟩ := d3
      have d5 := d4.1
      have d6 := d4.2 7 (by simp)
      simp only [List.mem_cons, List.not_mem_nil, or_false] at d5
      simp only [Option.map_some, Option.some.injEq]
      omega
  · decide +kernel
end
