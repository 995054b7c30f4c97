import Verif.Spec.HealthdHistory
import Verif.Lemmas.HealthdRun
import Mathlib.Data.List.Induction
/-!
# Lemmas about past intervals
-/
open Spec Unmarshal
namespace Healthd

theorem said_append (es1 es2 : List Ev) (k : Key) : said (es1 ++ es2) k = (said es2 k).or (said es1 k) := by
  induction es1 with
  | nil => simp [said]
  | cons e t ih =>
    simp only [List.cons_append, said, ih]
    cases said es2 k <;> cases said t k <;> simp

theorem said_none {es : List Ev} {k : Key} (h : ∀ a, Ev.report k a ∉ es) : said es k = none := by
  induction es with
  | nil => rfl
  | cons e t ih =>
    simp only [said, ih (fun a hm => h a (by simp [hm]))]
    cases e with
    | report k' a =>
      simp only
      rw [if_neg]
      rintro rfl
      exact h a (by simp)
    | purge now => rfl
    | recalculate => rfl

theorem said_isSome {es : List Ev} {k : Key} : (said es k).isSome ↔ ∃ b, Ev.report k b ∈ es := by
  constructor
  · intro h
    by_contra hn
    rw [said_none (fun a hm => hn ⟨a, hm⟩)] at h
    cases h
  · rintro ⟨b, hb⟩
    induction es with
    | nil => simp at hb
    | cons e t ih =>
      simp only [said]
      cases hs : said t k with
      | some a => rfl
      | none =>
        rcases List.mem_cons.1 hb with rfl | h
        · simp
        · rw [hs] at ih; exact absurd (ih h) (by simp)

/-- as long as nothing of the interval is thrown away, healthd holds what was said last. -/
theorem latest_eq_said {d : Int} {es : List Ev} {k : Key} (h : NeverStale d es k.time) : latest d es k = said es k := by
  induction es using List.reverseRecOn with
  | nil => rfl
  | append_singleton l e ih =>
    have ih := ih (fun now hn => h now (by simp [hn]))
    rw [said_append]
    cases e with
    | report k' a =>
      rw [latest_report, ih]
      by_cases hk : k' = k
      · simp [said, hk]
      · simp [said, hk]
    | purge now =>
      rw [latest_purge, ih, if_neg (h now (by simp) k rfl)]
      simp [said]
    | recalculate =>
      rw [latest_recalculate, ih]
      simp [said]

theorem _root_.Spec.Totals.all {d : Int} {es : List Ev} {t : Time} {a : IntAgg} (hn : NeverStale d es t) (h : Totals d es t a) : AllTotals es t a := by
  obtain ⟨ks, h1, h2, h3, h4, h5⟩ := h
  have e : ∀ k ∈ ks, latest d es k = said es k := fun k hk => latest_eq_said (by rw [((h2 k).1 hk).1]; exact hn)
  refine ⟨ks, h1, ?_, ?_, ?_, ?_⟩
  · intro k
    rw [h2, ← said_isSome]
    refine and_congr_right (fun hk => ?_)
    rw [latest_eq_said (by rw [hk]; exact hn)]
  · intro c
    rw [h3, List.map_congr_left (fun k hk => by rw [e k hk])]
  · intro x
    rw [h4, List.map_congr_left (fun k hk => by rw [e k hk])]
  · intro x
    rw [h5, List.map_congr_left (fun k hk => by rw [e k hk])]

/-- events that say nothing about the interval change nothing. -/
theorem _root_.Spec.AllTotals.append {es es' : List Ev} {t : Time} {a : IntAgg} (h : AllTotals es t a) (hno : ∀ k b, Ev.report k b ∈ es' → k.time ≠ t) :
    AllTotals (es ++ es') t a := by
  obtain ⟨ks, h1, h2, h3, h4, h5⟩ := h
  have e : ∀ k ∈ ks, said es k = said (es ++ es') k := by
    intro k hk
    rw [said_append, said_none (es := es') (fun b hb => hno k b hb ((h2 k).1 hk).1)]
    rfl
  refine ⟨ks, h1, ?_, ?_, ?_, ?_⟩
  · intro k
    rw [h2]
    refine and_congr_right (fun hk => ?_)
    constructor
    · rintro ⟨b, hb⟩; exact ⟨b, by simp [hb]⟩
    · rintro ⟨b, hb⟩
      rcases List.mem_append.1 hb with hb | hb
      · exact ⟨b, hb⟩
      · exact absurd hk (hno k b hb)
  · intro c
    rw [h3, List.map_congr_left (fun k hk => by rw [e k hk])]
  · intro x
    rw [h4, List.map_congr_left (fun k hk => by rw [e k hk])]
  · intro x
    rw [h5, List.map_congr_left (fun k hk => by rw [e k hk])]

theorem not_neverStale {d : Int} {es : List Ev} {t : Time} (h : ¬ NeverStale d es t) :
    ∃ es1 now es2, es = es1 ++ .purge now :: es2 ∧ ∃ k, k.time = t ∧ Stale d now k := by
  unfold NeverStale at h
  push Not at h
  obtain ⟨now, hm, k, hk, hs⟩ := h
  obtain ⟨es1, es2, e⟩ := List.append_of_mem hm
  exact ⟨es1, now, es2, e, k, hk, hs⟩

theorem _root_.Spec.Settled.not_pending {d : Int} {es : List Ev} {t : Time} (h : Settled d es t) (hn : ¬ NeverStale d es t) : ¬ Pending d es t := by
  obtain ⟨es1, now, es2, rfl, hst⟩ := not_neverStale hn
  obtain ⟨hp, hr⟩ := h es1 now es2 rfl hst
  rintro ⟨e1, k, a, e2, he, hk, hser, hrec⟩
  rcases List.append_eq_append_iff.1 he with ⟨c, h1, h2⟩ | ⟨c, h1, h2⟩
  · cases c with
    | nil => simp at h2
    | cons x c =>
      simp only [List.cons_append, List.cons.injEq] at h2
      exact hr k a (by rw [h2.2]; simp) hk
  · cases c with
    | nil => simp at h2
    | cons x c =>
      simp only [List.cons_append, List.cons.injEq] at h2
      obtain ⟨rfl, h2⟩ := h2
      exact hp ⟨e1, k, a, c, h1, hk, hser, fun hm => hrec (by rw [h2]; simp [hm])⟩

theorem _root_.Spec.Settled.prefix {d : Int} {es es' : List Ev} {t : Time} (h : Settled d (es ++ es') t) : Settled d es t := by
  intro es1 now es2 he hst
  obtain ⟨h1, h2⟩ := h es1 now (es2 ++ es') (by simp [he]) hst
  exact ⟨h1, fun k a hm => h2 k a (by simp [hm])⟩

/-- the interval of the time series is right at every moment at which no news about it wait. -/
theorem Runs.history {sort : List IntAgg → List IntAgg} (hsort : SortsByStart sort) {hps : List Str} {h : List Op} {s : State} (hr : Runs sort (init hps) h s) :
    Decoded h → ∀ d, (s.intervalDuration ≠ 0 → d = s.intervalDuration) → (-2 ^ 63 ≤ 5 * d ∧ 5 * d < 2 ^ 63) → Honest (events d h) →
    ∀ a ∈ s.intervalAggregations, ¬ Pending d (events d h) a.start → Settled d (events d h) a.start → AllTotals (events d h) a.start a := by
  induction hr with
  | nil => intro _ d _ _ _ a ha; simp [init] at ha
  | @snoc ops s1 s2 op hr hv hs ih =>
    intro hdec d hd hrange hhon a ha hpend hset
    have hinv2 := Runs.inv hsort (Runs.snoc hr hv hs) hdec d hd hrange
    by_cases hns : NeverStale d (events d (ops ++ [op])) a.start
    · exact Totals.all hns (hinv2.totals hhon a ha hpend hns)
    have hdec' : Decoded ops := fun r n1 n2 hm => hdec r n1 n2 (by simp [hm])
    have hph := Runs.phase hr
    have hd' : s1.intervalDuration ≠ 0 → d = s1.intervalDuration := by
      intro h0
      rcases hph with p | p
      · exact absurd p.1 h0
      rcases Runs.phase (Runs.snoc hr hv hs) with q | q
      · obtain ⟨r, x, y, p3, p4⟩ := p.2.2.1
        exact absurd p4 (q.2.2.1 r x y (by simp [p3]))
      · rw [hd q.1, ← p.2.2.2, ← q.2.2.2, agreed_snoc, if_pos p.2.2.1]
    have hinv1 := Runs.inv hsort hr hdec' d hd' hrange
    rw [events_snoc] at hhon hset hns hpend ⊢
    have hhon' := honest_mono (List.subset_append_left _ _) hhon
    have ih := ih hdec' d hd' hrange hhon' a
    have hset' := hset.prefix
    have hempty : ¬ NeverStale d (events d ops) a.start → a ∈ s1.intervalAggregations →
        AllTotals (events d ops ++ events d [op]) a.start a := by
      intro hn1 hm
      refine (ih hm (hset'.not_pending hn1) hset').append ?_
      obtain ⟨es1, now, es2, he, hst⟩ := not_neverStale hn1
      intro k b hb
      exact (hset es1 now (es2 ++ events d [op]) (by rw [he]; simp) hst).2 k b (by simp [hb])
    cases op with
    | response r n1 n2 =>
      have hn := noteStatus_fields n1 n2 s1 r
      have hser : s2.intervalAggregations = s1.intervalAggregations := by
        rcases consume_cases hs with ⟨h1, h2⟩ | ⟨h1, h2, h3, h4⟩ | ⟨h1, h2, h3, h4⟩ | ⟨h1, h2, h3, h4⟩
        · rw [h2, hn.2.2.2.2]
        · obtain ⟨_, _, _, f3⟩ := storeAll_fields h4
          rw [f3, hn.2.2.2.2]
        · rw [h4, hn.2.2.2.2]
        · obtain ⟨_, _, _, f3⟩ := storeAll_fields h4
          rw [f3, hn.2.2.2.2]
      refine hempty (fun hn1 => hns ?_) (hser ▸ ha)
      intro now hm
      refine hn1 now ((List.mem_append.1 hm).resolve_right ?_)
      simp only [events, List.flatMap_cons, List.flatMap_nil, List.append_nil]
      split
      · simp [reportsIn]
      · simp
    | purge now =>
      have hser : a ∈ s1.intervalAggregations := by
        obtain ⟨l, h1, h2⟩ := Option.bind_eq_some_iff.1 (show (truncateAggs _ _).bind _ = some s2 from hs)
        rw [← Option.some.inj h2] at ha
        have := truncateAggs_ok hinv1.series h1
        rw [← this]; exact ha
      by_cases hn1 : NeverStale d (events d ops) a.start
      · have he : events d [.purge now] = [.purge now] := by simp [events]
        rw [he] at hset hns ⊢
        have hst : ∃ k : Key, k.time = a.start ∧ Stale d now k := by
          by_contra hc
          push Not at hc
          refine hns (fun now' hm k hk => ?_)
          rcases List.mem_append.1 hm with hm | hm
          · exact hn1 now' hm k hk
          · simp only [List.mem_singleton, Ev.purge.injEq] at hm
            rw [hm]; exact hc k hk
        exact (ih hser (hset _ now [] rfl hst).1 hset').append (by simp)
      · exact hempty hn1 hser
    | recalculate ks en =>
      have hn1 : ¬ NeverStale d (events d ops) a.start := fun hn1 => hns (fun now hm =>
        hn1 now ((List.mem_append.1 hm).resolve_right (by simp [events])))
      obtain ⟨_, _, _, h4, _⟩ := hinv1.recalculate hsort (reportsOk_events hdec' d) hv.1 hv.2 hs
      exact hempty hn1 (h4 a ha (hset'.not_pending hn1))

theorem events_split {d : Int} {h : List Op} : ∀ {es1 es2 : List Ev} {now : Key → Time}, events d h = es1 ++ .purge now :: es2 →
    ∃ h1 h2, h = h1 ++ .purge now :: h2 ∧ events d h1 = es1 ∧ events d h2 = es2 := by
  induction h using List.reverseRecOn with
  | nil => intro es1 es2 now he; simp [events] at he
  | append_singleton l op ih =>
    intro es1 es2 now he
    rw [events_snoc] at he
    rcases List.append_eq_append_iff.1 he with ⟨c, h1, h2⟩ | ⟨c, h1, h2⟩
    · cases op with
      | response r n1 n2 =>
        exfalso
        have hm : Ev.purge now ∈ events d [.response r n1 n2] := by rw [h2]; simp
        simp only [events, List.flatMap_cons, List.flatMap_nil, List.append_nil] at hm
        split at hm
        · simp [reportsIn] at hm
        · simp at hm
      | purge now' =>
        have e : events d [.purge now'] = [.purge now'] := by simp [events]
        rw [e] at h2
        cases c with
        | nil =>
          simp only [List.nil_append, List.cons.injEq, Ev.purge.injEq] at h2
          obtain ⟨rfl, rfl⟩ := h2
          exact ⟨l, [], rfl, by simpa using h1.symm, rfl⟩
        | cons x c => simp at h2
      | recalculate ks en =>
        exfalso
        have hm : Ev.purge now ∈ events d [.recalculate ks en] := by rw [h2]; simp
        simp [events] at hm
    · cases c with
      | nil =>
        cases op with
        | response r n1 n2 =>
          exfalso
          have hm : Ev.purge now ∈ events d [.response r n1 n2] := by rw [← List.nil_append (events d _), ← h2]; simp
          simp only [events, List.flatMap_cons, List.flatMap_nil, List.append_nil] at hm
          split at hm
          · simp [reportsIn] at hm
          · simp at hm
        | purge now' =>
          have e : events d [.purge now'] = [.purge now'] := by simp [events]
          rw [e] at h2
          simp only [List.nil_append, List.cons.injEq, Ev.purge.injEq] at h2
          obtain ⟨rfl, rfl⟩ := h2
          exact ⟨l, [], rfl, by simpa using h1, rfl⟩
        | recalculate ks en =>
          exfalso
          have hm : Ev.purge now ∈ events d [.recalculate ks en] := by rw [← List.nil_append (events d _), ← h2]; simp
          simp [events] at hm
      | cons x c =>
        simp only [List.cons_append, List.cons.injEq] at h2
        obtain ⟨rfl, h2⟩ := h2
        obtain ⟨g1, g2, e1, e2, e3⟩ := ih h1
        exact ⟨g1, g2 ++ [op], by rw [e1]; simp, e2, by rw [events_snoc, e3, h2]⟩

/-- processes that report recent intervals only never report what healthd has thrown away. -/
theorem settled_of_recent {d : Int} {h : List Op} {t : Time} (hc : ClockForward h) (hr : RecentOnly d h) (hp : RecalculatedInTime d (events d h) t) :
    Settled d (events d h) t := by
  intro es1 now es2 he hst
  refine ⟨hp es1 now es2 he hst, ?_⟩
  obtain ⟨h1, h2, e1, e2, e3⟩ := events_split he
  obtain ⟨k0, hk0, hstale⟩ := hst
  intro k a hm hk
  rw [← e3] at hm
  obtain ⟨r, n1, n2, rep, q1, q2, q3, q4, q5, q6⟩ := events_report_mem hm
  have c1 := hc h1 now h2 e1 r n1 n2 q1 k0
  have c2 := hr r n1 n2 (by rw [e1]; simp [q1]) q2 rep q4
  have c3 : rep.agg.start = t := by rw [q5, ← hk, q6]
  unfold Stale at hstale
  rw [hk0] at hstale
  rw [c3] at c2
  omega

end Healthd
