import Verif.Spec.HealthdRun
import Verif.Lemmas.HealthdAll
import Verif.Lemmas.Clone
import Verif.Props.HealthdLoop
import Verif.Props.Api
/-!
# C93: answers of the API are atomic
-/
open Spec Healthd
namespace HdRun

section
variable {sort : List IntAgg → List IntAgg} {identifier : Str} {zone : Nat → Int → Int} {reqs : Nat → Request} {hps : List Str}

/-- the aggregation goroutine's own history. -/
theorem Trace.runs {past : List Sys} {s : Sys} (h : Trace sort identifier zone reqs hps past s) : Runs sort (Healthd.init hps) s.done s.data := by
  induction h with
  | start clock => exact .nil
  | step _ hs ih =>
    cases hs with
    | work _ _ hv hd => exact ih.snoc hv hd
    | other => exact ih
    | call => exact ih
    | reply => exact ih
    | finish => exact ih

/-- before the first answer of a host there are no intervals. -/
theorem runs_blank {h : List Op} {d : State} (hr : Runs sort (Healthd.init hps) h d) :
    d.intervalDuration = 0 → d.intervalAggregations = [] ∧ d.intervalsNeedingRecalculation = [] := by
  induction hr with
  | nil => exact fun _ => ⟨rfl, rfl⟩
  | @snoc ops s1 s2 op hr hv hs ih =>
    intro h0
    cases op with
    | response r n1 n2 =>
      have hn := noteStatus_fields n1 n2 s1 r
      rcases consume_cases hs with ⟨_, h2⟩ | ⟨_, _, h3, h4⟩ | ⟨_, h2, _, h4⟩ | ⟨_, h2, _, h4⟩
      · subst h2
        rw [hn.1] at h0
        rw [hn.2.2.2.1, hn.2.2.2.2]
        exact ih h0
      · rw [(storeAll_fields h4).1] at h0
        exact absurd h0 h3
      · subst h4
        rw [hn.1] at h0
        exact absurd h0 h2
      · rw [(storeAll_fields h4).1, hn.1] at h0
        exact absurd h0 h2
    | purge now =>
      obtain ⟨l, h1, h2⟩ := Option.bind_eq_some_iff.1 (show (truncateAggs _ _).bind _ = some s2 from hs)
      rw [← Option.some.inj h2] at h0 ⊢
      obtain ⟨i1, i2⟩ := ih h0
      refine ⟨?_, i2⟩
      refine List.eq_nil_iff_forall_not_mem.2 (fun x hx => ?_)
      have := truncateAggs_mem h1 x hx
      rw [i1] at this
      cases this
    | recalculate ks en =>
      obtain ⟨s3, h1, h2⟩ := Option.bind_eq_some_iff.1 (show (ks.foldlM (recalculateOne sort en) s1).bind _ = some s2 from hs)
      have h3 := recalculate_fields h1
      rw [← Option.some.inj h2] at h0 ⊢
      obtain ⟨i1, i2⟩ := ih (h3.1 ▸ h0)
      have hk : ks = [] := by
        have := hv.1
        rw [i2] at this
        exact List.Perm.eq_nil this
      subst hk
      cases h1
      exact ⟨i1, rfl⟩

/-- the duration is written once, and then the intervals stay as they are. -/
theorem step_duration {s1 s2 : State} {op : Op} (hs : Healthd.step sort s1 op = some s2) :
    s2.intervalDuration = s1.intervalDuration ∨ (s1.intervalDuration = 0 ∧ s2.intervalAggregations = s1.intervalAggregations) := by
  cases op with
  | response r n1 n2 =>
    have hn := noteStatus_fields n1 n2 s1 r
    rcases consume_cases hs with ⟨_, h2⟩ | ⟨_, h2, h3, h4⟩ | ⟨_, h2, _, h4⟩ | ⟨_, h2, _, h4⟩
    · subst h2; exact .inl hn.1
    · exact .inr ⟨h2, (storeAll_fields h4).2.2.2.trans hn.2.2.2.2⟩
    · subst h4; exact .inl hn.1
    · exact .inl ((storeAll_fields h4).1.trans hn.1)
  | purge now =>
    obtain ⟨l, h1, h2⟩ := Option.bind_eq_some_iff.1 (show (truncateAggs _ _).bind _ = some s2 from hs)
    rw [← Option.some.inj h2]
    exact .inl rfl
  | recalculate ks en =>
    obtain ⟨s3, h1, h2⟩ := Option.bind_eq_some_iff.1 (show (ks.foldlM (recalculateOne sort en) s1).bind _ = some s2 from hs)
    rw [← Option.some.inj h2]
    exact .inl (recalculate_fields h1).1

theorem step_data {s s' : Sys} (h : Step sort identifier zone reqs s s') :
    s'.data.intervalDuration = s.data.intervalDuration ∨ (s.data.intervalDuration = 0 ∧ s'.data.intervalAggregations = s.data.intervalAggregations) := by
  cases h with
  | work _ _ _ hd => exact step_duration hd
  | other => exact .inl rfl
  | call => exact .inl rfl
  | reply => exact .inl rfl
  | finish => exact .inl rfl

theorem loop_mono {a b : HdLoop.Sys} {l : HdLoop.Lab} (h : HdLoop.step a l = some b) :
    (a.stop ≠ .notCalled → b.stop ≠ .notCalled) ∧ ∀ i, a.req i ≠ .notCalled → b.req i ≠ .notCalled := by
  cases l <;> simp only [HdLoop.step] at h <;> (try split at h) <;> (try split at h) <;> (try cases h) <;>
    (refine ⟨fun g => ?_, fun i g => ?_⟩ <;> first
      | exact g
      | (intro g'; cases g')
      | (simp only [HdLoop.set]; split <;> first | exact g | (intro g'; cases g') | (split <;> (intro g'; cases g'))))

theorem step_mono {s s' : Sys} (h : Step sort identifier zone reqs s s') :
    (s.loop.stop ≠ .notCalled → s'.loop.stop ≠ .notCalled) ∧ ∀ i, s.loop.req i ≠ .notCalled → s'.loop.req i ≠ .notCalled := by
  cases h with
  | work _ hl => exact loop_mono hl
  | other _ hl => exact loop_mono hl
  | call _ hl => exact loop_mono hl
  | reply _ hl => exact loop_mono hl
  | finish => exact ⟨id, fun _ => id⟩

/-- `g` is what request `q` would be given in state `t`. -/
def Matches (q : Request) (t : Sys) (g : Given) : Prop :=
  (∃ order, order.Perm t.data.hostStatus ∧
    g = if q.asksHosts then .hosts (some (memorySafeHosts order)) else .intervals (some (memorySafeIntervals t.data))) ∨
  (t.loop.stop ≠ .notCalled ∧ g = if q.asksHosts then .hosts none else .intervals none)

/-- what a request holds it was given while it was under way, at a moment with the present duration, unless it is about hosts and the duration was not known then. -/
theorem Trace.holds {past : List Sys} {s : Sys} (h : Trace sort identifier zone reqs hps past s) (i : Nat) (g : Given) :
    s.given i = some g → s.answer i = none →
    ∃ t ∈ past ++ [s], UnderWay i t ∧ Matches (reqs i) t g ∧
      (t.data.intervalDuration = s.data.intervalDuration ∨ ((reqs i).asksHosts = true ∧ t.data.intervalDuration = 0)) := by
  induction h generalizing g with
  | start clock => exact fun hg => by cases hg
  | @step past s s' htr hs ih =>
    intro hg ha
    -- what was held before is still good
    have keep : s.given i = some g → s.answer i = none → s'.answer i = none →
        ∃ t ∈ past ++ [s] ++ [s'], UnderWay i t ∧ Matches (reqs i) t g ∧
        (t.data.intervalDuration = s'.data.intervalDuration ∨ ((reqs i).asksHosts = true ∧ t.data.intervalDuration = 0)) := by
      intro hg ha ha'
      obtain ⟨t, ht, hu, hm, hd⟩ := ih g hg ha
      by_cases hq : (reqs i).asksHosts = true
      · refine ⟨t, by simp [List.mem_append.1 ht] at ht ⊢; tauto, hu, hm, ?_⟩
        rcases hd with hd | hd
        · rcases step_data hs with e | ⟨e, _⟩
          · exact .inl (hd.trans e.symm)
          · exact .inr ⟨hq, hd.trans e⟩
        · exact .inr hd
      · have hd : t.data.intervalDuration = s.data.intervalDuration := hd.resolve_right (fun x => hq x.1)
        rcases step_data hs with e | ⟨e, e'⟩
        · exact ⟨t, by simp at ht ⊢; tauto, hu, hm, .inl (hd.trans e.symm)⟩
        · -- the duration becomes known: what was given is the empty list, which is still right
          by_cases hs0 : s'.data.intervalDuration = 0
          · exact ⟨t, by simp at ht ⊢; tauto, hu, hm, .inl (by rw [hd, e, hs0])⟩
          have hr : s'.loop.req i ≠ .notCalled := (step_mono hs).2 i (by
            have : ∀ {past : List Sys} {s : Sys}, Trace sort identifier zone reqs hps past s → ∀ t ∈ past, t.loop.req i ≠ .notCalled → s.loop.req i ≠ .notCalled := by
              intro past s h
              induction h with
              | start => simp
              | step _ hs ih =>
                intro t ht hn
                rcases List.mem_append.1 ht with ht | ht
                · exact (step_mono hs).2 i (ih t ht hn)
                · rw [List.mem_singleton.1 ht] at hn
                  exact (step_mono hs).2 i hn
            rcases List.mem_append.1 ht with ht | ht
            · exact this htr t ht hu.1
            · rw [List.mem_singleton.1 ht] at hu
              exact hu.1)
          refine ⟨s', by simp, ⟨hr, ha'⟩, ?_, .inl rfl⟩
          have hblank : t.data.intervalAggregations = [] := by
            have hall : ∀ {past : List Sys} {s : Sys}, Trace sort identifier zone reqs hps past s → ∀ t ∈ past ++ [s], t.data.intervalDuration = 0 → t.data.intervalAggregations = [] := by
              intro past s h
              induction h with
              | start => intro t ht _; rw [List.mem_singleton.1 ht]; rfl
              | step h hs ih =>
                intro t ht h0
                rcases List.mem_append.1 ht with ht | ht
                · exact ih t ht h0
                · rw [List.mem_singleton.1 ht] at h0 ⊢
                  exact (runs_blank (h.step hs).runs h0).1
            exact hall htr t ht (hd.trans e)
          have hb' : s'.data.intervalAggregations = [] := by
            rw [e']
            exact (runs_blank htr.runs e).1
          rcases hm with ⟨order, ho, rfl⟩ | ⟨hst, rfl⟩
          · left
            refine ⟨s'.data.hostStatus, .refl _, ?_⟩
            simp only [hq]
            simp [memorySafeIntervals, hblank, hb']
          · right
            refine ⟨?_, rfl⟩
            have : ∀ {past : List Sys} {s : Sys}, Trace sort identifier zone reqs hps past s → ∀ t ∈ past ++ [s], t.loop.stop ≠ .notCalled → s.loop.stop ≠ .notCalled := by
              intro past s h
              induction h with
              | start => intro t ht hn; rwa [List.mem_singleton.1 ht] at hn
              | step _ hs ih =>
                intro t ht hn
                rcases List.mem_append.1 ht with ht | ht
                · exact (step_mono hs).1 (ih t ht hn)
                · rwa [List.mem_singleton.1 ht] at hn
            exact (step_mono hs).1 (this htr t ht hst)
    cases hs with
    | work _ _ _ _ => exact keep hg ha ha
    | other _ _ => exact keep hg ha ha
    | @call j loop hnf hl =>
      simp only at hg ha
      split at hg
      · next href =>
        by_cases hji : i = j
        · subst hji
          simp only [HdLoop.set, if_true, Option.some.injEq] at hg
          refine ⟨_, List.mem_append_right _ (List.mem_singleton.2 rfl), ⟨?_, ha⟩, .inr ⟨?_, hg.symm⟩, .inl rfl⟩
          · rw [href]; intro c; cases c
          · simp only [HdLoop.step] at hl
            split at hl
            · cases hl
              simp only [HdLoop.set, if_true] at href
              split at href
              · cases href
              · assumption
            · cases hl
        · simp only [HdLoop.set, hji, if_false] at hg
          exact keep hg ha ha
      · exact keep hg ha ha
    | @reply j loop order hm hl ho =>
      simp only at hg ha
      by_cases hji : i = j
      · subst hji
        simp only [HdLoop.set, if_true, Option.some.injEq] at hg
        refine ⟨_, List.mem_append_right _ (List.mem_singleton.2 rfl), ⟨?_, ha⟩, .inl ⟨order, ho, hg.symm⟩, .inl rfl⟩
        simp only [HdLoop.step, hm] at hl
        cases hl
        simp [HdLoop.set]
      · simp only [HdLoop.set, hji, if_false] at hg
        exact keep hg ha ha
    | @finish j g' hg' ha' =>
      simp only at hg ha
      by_cases hji : i = j
      · subst hji
        simp [HdLoop.set] at ha
      · have ha2 : s.answer i = none := by simpa [HdLoop.set, hji] using ha
        exact keep hg ha2 ha

/-- the states before had a part of the history. -/
theorem Trace.before {past : List Sys} {s : Sys} (h : Trace sort identifier zone reqs hps past s) :
    ∀ t ∈ past ++ [s], Runs sort (Healthd.init hps) t.done t.data ∧ t.done ⊆ s.done := by
  induction h with
  | start clock => intro t ht; rw [List.mem_singleton.1 ht]; exact ⟨.nil, fun _ => id⟩
  | @step past s s' h hs ih =>
    intro t ht
    have hsub : s.done ⊆ s'.done := by
      cases hs with
      | work => exact fun _ hx => List.mem_append_left _ hx
      | other => exact fun _ => id
      | call => exact fun _ => id
      | reply => exact fun _ => id
      | finish => exact fun _ => id
    rcases List.mem_append.1 ht with ht | ht
    · exact ⟨(ih t ht).1, fun x hx => hsub ((ih t ht).2 hx)⟩
    · rw [List.mem_singleton.1 ht]; exact ⟨(h.step hs).runs, fun _ => id⟩

/-- an entry of the table of hosts is about the host it is filed under. -/
theorem runs_hostPort {h : List Op} {d : State} (hr : Runs sort (Healthd.init hps) h d) : ∀ hp x, d.hostStatus.get? hp = some x → x.hostPort = hp := by
  induction hr with
  | nil =>
    unfold Healthd.init
    simp only
    induction hps using snocInduction with
    | nil => intro hp x h; cases h
    | snoc l y ih =>
      intro hp x h
      rw [List.foldl_append] at h
      simp only [List.foldl_cons, List.foldl_nil] at h
      rw [GoMap.get?_set] at h
      split at h
      · next e => cases h; exact e.symm
      · exact ih hp x h
  | @snoc ops s1 s2 op hr hv hs ih =>
    cases op with
    | response r n1 n2 =>
      have hst : s2.hostStatus = (noteStatus n1 n2 s1 r).hostStatus := by
        rcases consume_cases hs with ⟨_, h2⟩ | ⟨_, _, _, h4⟩ | ⟨_, _, _, h4⟩ | ⟨_, _, _, h4⟩
        · rw [h2]
        · exact (storeAll_fields h4).2.2.1
        · rw [h4]
        · exact (storeAll_fields h4).2.2.1
      rw [hst]
      unfold noteStatus
      split
      · next hs e =>
        intro hp x h
        simp only at h
        rw [GoMap.get?_set] at h
        split at h
        · next e' =>
          cases h
          have : (updateStatus n1 n2 r hs).hostPort = hs.hostPort := by
            unfold updateStatus
            simp only
            split
            · split <;> rfl
            · rfl
          rw [this, ih _ _ e, e']
        · exact ih hp x h
      · exact ih
    | purge now =>
      obtain ⟨l, h1, h2⟩ := Option.bind_eq_some_iff.1 (show (truncateAggs _ _).bind _ = some s2 from hs)
      rw [← Option.some.inj h2]
      exact ih
    | recalculate ks en =>
      obtain ⟨s3, h1, h2⟩ := Option.bind_eq_some_iff.1 (show (ks.foldlM (recalculateOne sort en) s1).bind _ = some s2 from hs)
      rw [← Option.some.inj h2]
      simp only
      rw [(recalculate_fields h1).2.2.1]
      exact ih

/-- the order of the iteration over the hosts does not matter. -/
theorem sortHosts_order {sortH : Api.SortFn HostStatus} (hs : Api.GoSorts sortH) {h : List Op} {d : State} (hr : Runs sort (Healthd.init hps) h d)
    {order : List (Str × HostStatus)} (ho : order.Perm d.hostStatus) : Api.sortHosts sortH (memorySafeHosts order) = Api.sortHosts sortH (d.hostStatus.map (·.2)) := by
  have lt : ∀ a b : Str, Api.strLt b a = false ↔ strLe a b = true := fun a b => by simp [Api.strLt]
  have sorted : ∀ l : List HostStatus, (Api.sortHosts sortH l).Pairwise (fun a b => Api.strLt b.hostPort a.hostPort = false) := by
    intro l
    refine (hs _ l).2 (fun a _ b _ hab => ?_) (fun a _ b _ c _ h1 h2 => ?_)
    · rw [lt]
      rcases strLe_total a.hostPort b.hostPort with h | h
      · exact h
      · simp [Api.strLt, h] at hab
    · rw [lt] at *
      exact strLe_trans h1 h2
  have hp : (Api.sortHosts sortH (memorySafeHosts order)).Perm (d.hostStatus.map (·.2)) := ((hs _ _).1).trans (ho.map _)
  refine List.Perm.eq_of_pairwise ?_ (sorted _) (sorted _) (hp.trans ((hs _ _).1).symm)
  intro a b ha hb h1 h2
  rw [lt] at h1 h2
  have e := strLe_antisymm h1 h2
  obtain ⟨p, hp1, rfl⟩ := List.mem_map.1 (hp.mem_iff.1 ha)
  obtain ⟨q, hq1, rfl⟩ := List.mem_map.1 (((hs _ _).1).mem_iff.1 hb)
  have hw := hr.hostsWf
  have g1 := GoMap.get?_of_mem hw (k := p.1) (v := p.2) hp1
  have g2 := GoMap.get?_of_mem hw (k := q.1) (v := q.2) hq1
  rw [runs_hostPort hr _ _ g1, runs_hostPort hr _ _ g2] at e
  rw [e, g2] at g1
  exact (Option.some.inj g1).symm

/-- an answer made from what the request would be given in `t`. -/
theorem answerOf {past : List Sys} {s : Sys} (h : Trace sort identifier zone reqs hps past s) (hsort : SortsByStart sort) (hdec : Decoded s.done) {q : Request}
    (hq : q.choices.Ok) {t : Sys} (ht : t ∈ past ++ [s]) {g : Given} (hm : Matches q t g) :
    AnswerOf identifier zone q t (Api.respond q.choices identifier zone (g.view t.data.intervalDuration) q.sort q.limit q.endpoint) := by
  obtain ⟨hr, hsub⟩ := h.before t ht
  have hcl : memorySafeIntervals t.data = t.data.intervalAggregations := by
    have hf := hr.fits hsort (fun r n1 n2 hm => hdec r n1 n2 (hsub hm))
    unfold memorySafeIntervals
    exact (List.map_congr_left (fun a ha => IntAgg.clone_eq (hf a ha).1)).trans (List.map_id _)
  rcases hm with ⟨order, ho, rfl⟩ | ⟨hst, rfl⟩
  · left
    rw [hcl]
    cases he : q.endpoint <;> simp [Given.view, Api.respond, he, Request.asksHosts]
    rw [sortHosts_order hq.sortHosts hr ho]
  · right
    refine ⟨hst, ?_⟩
    cases he : q.endpoint <;> simp [Given.view, Api.respond, he, Request.asksHosts]

/-- where an answer comes from. -/
theorem Trace.answered {past : List Sys} {s : Sys} (h : Trace sort identifier zone reqs hps past s) {i : Nat} {r : HttpResp} : s.answer i = some r →
    ∃ past' t g, Trace sort identifier zone reqs hps past' t ∧ (∀ x ∈ past' ++ [t], x ∈ past) ∧ t.done ⊆ s.done ∧ t.given i = some g ∧ t.answer i = none ∧
      r = Api.respond (reqs i).choices identifier zone (g.view t.data.intervalDuration) (reqs i).sort (reqs i).limit (reqs i).endpoint := by
  induction h with
  | start clock => exact fun ha => by cases ha
  | @step past s s' h hs ih =>
    intro ha
    have keep : s.answer i = some r → ∃ past' t g, Trace sort identifier zone reqs hps past' t ∧ (∀ x ∈ past' ++ [t], x ∈ past ++ [s]) ∧ t.done ⊆ s'.done ∧
        t.given i = some g ∧ t.answer i = none ∧
        r = Api.respond (reqs i).choices identifier zone (g.view t.data.intervalDuration) (reqs i).sort (reqs i).limit (reqs i).endpoint := fun ha => by
      obtain ⟨past', t, g, h1, h2, h3, h4⟩ := ih ha
      refine ⟨past', t, g, h1, fun x hx => List.mem_append_left _ (h2 x hx), fun x hx => ?_, h4⟩
      exact ((Trace.step h hs).before s (by simp)).2 (h3 hx)
    cases hs with
    | work => exact keep ha
    | other => exact keep ha
    | call => exact keep ha
    | reply => exact keep ha
    | @finish j g hg ha' =>
      by_cases hji : i = j
      · subst hji
        simp only [HdLoop.set, if_true, Option.some.injEq] at ha
        exact ⟨past, s, g, h, fun x hx => hx, fun _ => id, hg, ha', ha.symm⟩
      · simp only [HdLoop.set, hji, if_false] at ha
        exact keep ha

end
end HdRun

open HdRun

/-- C93: the answers to /healthd/aggregations, /healthd/aggregations/overall and /healthd/jobs are atomic: each is the answer for the data that healthd had at one
moment while the request was under way (or nothing, after `Stop`), although the handler reads the interval duration later than the aggregations. -/
theorem C93_atomic {sort : List IntAgg → List IntAgg} (hsort : SortsByStart sort) {identifier : Str} {zone : Nat → Int → Int} {reqs : Nat → Request} {hps : List Str}
    {past : List Sys} {s : Sys} (h : Trace sort identifier zone reqs hps past s) (hdec : Decoded s.done) {i : Nat} (hq : (reqs i).choices.Ok)
    (hne : (reqs i).endpoint ≠ .hosts) {r : HttpResp} (ha : s.answer i = some r) : ∃ t ∈ past, UnderWay i t ∧ AnswerOf identifier zone (reqs i) t r := by
  obtain ⟨past', s', g, h', hsub, hdone, hg, hn, rfl⟩ := h.answered ha
  obtain ⟨t, ht, hu, hm, hd⟩ := h'.holds i g hg hn
  have hd := hd.resolve_right (fun x => by simp [Request.asksHosts, hne] at x)
  refine ⟨t, hsub t ht, hu, ?_⟩
  rw [← hd]
  exact answerOf h' hsort (fun r n1 n2 hm => hdec r n1 n2 (hdone hm)) hq ht hm

/-- C93.  Partial: the answer to /healthd/hosts is atomic if the interval duration was known when the request began. -/
theorem C93_hosts_partial {sort : List IntAgg → List IntAgg} (hsort : SortsByStart sort) {identifier : Str} {zone : Nat → Int → Int} {reqs : Nat → Request} {hps : List Str}
    {past : List Sys} {s : Sys} (h : Trace sort identifier zone reqs hps past s) (hdec : Decoded s.done) {i : Nat} (hq : (reqs i).choices.Ok)
    (hk : ∀ t ∈ past, UnderWay i t → t.data.intervalDuration ≠ 0) {r : HttpResp} (ha : s.answer i = some r) :
    ∃ t ∈ past, UnderWay i t ∧ AnswerOf identifier zone (reqs i) t r := by
  obtain ⟨past', s', g, h', hsub, hdone, hg, hn, rfl⟩ := h.answered ha
  obtain ⟨t, ht, hu, hm, hd⟩ := h'.holds i g hg hn
  have hd := hd.resolve_right (fun x => hk t (hsub t ht) hu x.2)
  refine ⟨t, hsub t ht, hu, ?_⟩
  rw [← hd]
  exact answerOf h' hsort (fun r n1 n2 hm => hdec r n1 n2 (hdone hm)) hq ht hm

/-- C93, the data race: a request can meet a write of the interval duration only if it was given its copy before any host had answered. -/
theorem C93_race_partial {sort : List IntAgg → List IntAgg} {identifier : Str} {zone : Nat → Int → Int} {reqs : Nat → Request} {hps : List Str}
    {past : List Sys} {s : Sys} (h : Trace sort identifier zone reqs hps past s) {i : Nat} (hr : DurationRace sort identifier zone reqs i s) :
    s.data.intervalDuration = 0 ∧ (∀ t ∈ past, t.data.intervalDuration = 0) ∧ ∀ r n1 n2, Op.response r n1 n2 ∈ s.done → ¬ Succeeded r := by
  obtain ⟨⟨t', hs, hne⟩, _, _⟩ := hr
  have h0 : s.data.intervalDuration = 0 := ((step_data hs).resolve_left hne).1
  refine ⟨h0, ?_, ?_⟩
  · have : ∀ {past : List Sys} {s : Sys}, Trace sort identifier zone reqs hps past s → s.data.intervalDuration = 0 → ∀ t ∈ past, t.data.intervalDuration = 0 := by
      intro past s h
      induction h with
      | start => simp
      | step h hs ih =>
        intro h0 t ht
        have h1 := (step_data hs)
        rename_i s1 s2
        have : s1.data.intervalDuration = 0 := by
          rcases h1 with e | e
          · rw [← e]; exact h0
          · exact e.1
        rcases List.mem_append.1 ht with ht | ht
        · exact ih this t ht
        · rw [List.mem_singleton.1 ht]; exact this
    exact this h h0
  · rcases h.runs.phase with h1 | h1
    · exact h1.2.2.1
    · exact absurd h0 h1.1

/-! ## A case, and what is false of /healthd/hosts -/
namespace HdRun.Sample

def choices : Api.Choices := ⟨insertionSort, insertionSort, id⟩
theorem choices_ok : choices.Ok := ⟨insertionSort_ok, insertionSort_ok, fun m => .refl m⟩

/-- request 0 asks for the endpoint. -/
def reqs (e : Api.Endpoint) : Nat → Request := fun _ => ⟨e, [], [], choices⟩

/-- the first answer of the only host, at noon of a day in 2024. -/
def response : PollResponse := ⟨bs "h", ⟨63847310400000000000, 0⟩, none, 200, 1000000, ⟨bs "a.1", 60000000000, []⟩⟩

def zone : Nat → Int → Int := fun _ _ => 0
def op : Op := .response response ⟨63847310401000000000, 0⟩ ⟨63847310401000000000, 0⟩

def s0 : Sys := HdRun.start 63847310400000000000 [bs "h"]
def l1 : HdLoop.Sys := { s0.loop with req := HdLoop.set s0.loop.req 0 .checked }
def l2 (b : Bool) : HdLoop.Sys := { l1 with req := HdLoop.set l1.req 0 .waiting, queue := HdLoop.set l1.queue b [0] }
def l3 (b : Bool) : HdLoop.Sys := { l2 b with main := .replying 0, queue := HdLoop.set (l2 b).queue b [] }
def l4 (b : Bool) : HdLoop.Sys := { l3 b with main := .idle, req := HdLoop.set (l3 b).req 0 .answered }
def l5 (b : Bool) : HdLoop.Sys := { l4 b with polling := 0, responses := 1 }
def l6 (b : Bool) : HdLoop.Sys := { l5 b with responses := 0, main := .requesting }
def data1 : State := ⟨60000000000, 120, [], [], [], [(bs "h", ⟨bs "h", ⟨63847310400000000000, 0⟩, bs "a.1", 60000000000, [], 1000000, 200, ⟨63847310401000000000, 0⟩, ⟨63847310401000000000, 0⟩⟩)]⟩

def given (e : Api.Endpoint) : Given := if e = .hosts then .hosts (some [newHost (bs "h")]) else .intervals (some [])
def s1 : Sys := { s0 with loop := l1 }
def s2 (e : Api.Endpoint) : Sys := { s1 with loop := l2 (decide (e = .hosts)) }
def s3 (e : Api.Endpoint) : Sys := { s1 with loop := l3 (decide (e = .hosts)) }
def s4 (e : Api.Endpoint) : Sys := { s1 with loop := l4 (decide (e = .hosts)), given := HdLoop.set s1.given 0 (some (given e)) }
def s5 (e : Api.Endpoint) : Sys := { s4 e with loop := l5 (decide (e = .hosts)) }
def s6 (e : Api.Endpoint) : Sys := { s5 e with loop := l6 (decide (e = .hosts)), data := data1, done := [op] }
def resp (e : Api.Endpoint) : HttpResp := Api.respond choices (bs "b.2") zone ((given e).view 60000000000) [] [] e
def s7 (e : Api.Endpoint) : Sys := { s6 e with answer := HdLoop.set s1.answer 0 (some (resp e)) }

theorem consumed : Healthd.step sortAggs (Healthd.init [bs "h"]) op = some data1 := by decide +kernel

/-- until the host's answer is about to be consumed. -/
theorem trace5 (e : Api.Endpoint) (he : e ≠ .notFound) : Trace sortAggs (bs "b.2") zone (reqs e) [bs "h"] [s0, s1, s2 e, s3 e, s4 e] (s5 e) := by
  have t0 : Trace sortAggs (bs "b.2") zone (reqs e) [bs "h"] [] s0 := .start _
  have t1 : Trace sortAggs (bs "b.2") zone (reqs e) [bs "h"] [s0] s1 := by
    have h : HdLoop.step s0.loop (.call 0) = some l1 := rfl
    have := t0.step (.call (i := 0) he h)
    rwa [if_neg (by simp [l1, HdLoop.set])] at this
  have t2 : Trace sortAggs (bs "b.2") zone (reqs e) [bs "h"] [s0, s1] (s2 e) :=
    t1.step (.other (l := .enqueue 0 (decide (e = .hosts))) rfl (by cases e <;> rfl))
  have t3 : Trace sortAggs (bs "b.2") zone (reqs e) [bs "h"] [s0, s1, s2 e] (s3 e) :=
    t2.step (.other (l := .accept (decide (e = .hosts))) trivial (by cases e <;> rfl))
  have t4 : Trace sortAggs (bs "b.2") zone (reqs e) [bs "h"] [s0, s1, s2 e, s3 e] (s4 e) := by
    have := t3.step (.reply (i := 0) (loop := l4 (decide (e = .hosts))) (order := s0.data.hostStatus) rfl (by cases e <;> rfl) (.refl _))
    cases e <;> exact this
  exact t4.step (.other (l := .deliver) trivial (by cases e <;> rfl))

theorem step6 (e : Api.Endpoint) : Step sortAggs (bs "b.2") zone (reqs e) (s5 e) (s6 e) :=
  .work (l := .consume) (op := op) trivial (by cases e <;> rfl) trivial consumed

theorem trace7 (e : Api.Endpoint) (he : e ≠ .notFound) : Trace sortAggs (bs "b.2") zone (reqs e) [bs "h"] [s0, s1, s2 e, s3 e, s4 e, s5 e, s6 e] (s7 e) :=
  ((trace5 e he).step (step6 e)).step (.finish (i := 0) (g := given e) (by cases e <;> rfl) rfl)

theorem decoded (e : Api.Endpoint) : Decoded (s7 e).done := by
  intro r n1 n2 hm _ rep hrep
  have : r = response := by
    have := List.mem_singleton.1 hm
    simp only [op, Op.response.injEq] at this
    exact this.1
  subst this
  cases hrep

/-- a case that meets the hypotheses of `C93_atomic`: the answer has the new duration, and no aggregations. -/
example : ∃ t ∈ [s0, s1, s2 .aggregations, s3 .aggregations, s4 .aggregations, s5 .aggregations, s6 .aggregations], UnderWay 0 t ∧
    AnswerOf (bs "b.2") zone (reqs .aggregations 0) t (resp .aggregations) :=
  C93_atomic sortAggs_ok (trace7 .aggregations (by decide)) (decoded _) (i := 0) choices_ok (by decide) rfl

example : resp .aggregations = ⟨200, jsonType, bs "{\n\t\"instance_id\": \"b.2\",\n\t\"interval_duration\": 60000000000,\n\t\"aggregations\": []\n}"⟩ := by decide +kernel

end HdRun.Sample

open HdRun.Sample in
/-- C93 is false of /healthd/hosts: the answer can have the interval duration of the first host that answered although it shows no host that answered; healthd was never
in such a state. -/
theorem C93_hosts_false : ∃ (reqs : Nat → Request) (past : List Sys) (s : Sys) (r : HttpResp),
    Trace sortAggs (bs "b.2") zone reqs [bs "h"] past s ∧ Decoded s.done ∧ (reqs 0).choices.Ok ∧ s.answer 0 = some r ∧
    ∀ t ∈ past ++ [s], ¬ AnswerOf (bs "b.2") zone (reqs 0) t r := by
  refine ⟨reqs .hosts, _, _, _, trace7 .hosts (by decide), decoded _, choices_ok, rfl, ?_⟩
  have h0 : ∀ t, t.data = Healthd.init [bs "h"] → t.loop.stop = .notCalled → ¬ AnswerOf (bs "b.2") zone (reqs .hosts 0) t (resp .hosts) := by
    intro t hd hs h
    rcases h with h | h
    · rw [hd] at h
      revert h
      decide +kernel
    · exact h.1 hs
  have h1 : ∀ t, t.data = data1 → t.loop.stop = .notCalled → ¬ AnswerOf (bs "b.2") zone (reqs .hosts 0) t (resp .hosts) := by
    intro t hd hs h
    rcases h with h | h
    · rw [hd] at h
      revert h
      decide +kernel
    · exact h.1 hs
  intro t ht
  simp only [List.cons_append, List.nil_append, List.mem_cons, List.not_mem_nil, or_false] at ht
  rcases ht with rfl | rfl | rfl | rfl | rfl | rfl | rfl | rfl
  · exact h0 _ rfl rfl
  · exact h0 _ rfl rfl
  · exact h0 _ rfl rfl
  · exact h0 _ rfl rfl
  · exact h0 _ rfl rfl
  · exact h0 _ rfl rfl
  · exact h1 _ rfl rfl
  · exact h1 _ rfl rfl

open HdRun.Sample in
/-- C93, the data race exists. -/
theorem C93_race_false : ∃ (reqs : Nat → Request) (past : List Sys) (s : Sys),
    Trace sortAggs (bs "b.2") zone reqs [bs "h"] past s ∧ DurationRace sortAggs (bs "b.2") zone reqs 0 s :=
  ⟨reqs .jobs, _, _, trace5 .jobs (by decide), ⟨_, step6 .jobs, by decide +kernel⟩, by simp [s5, s4, HdLoop.set], rfl⟩

namespace HdRun.Sample

/-! The host answers before the request begins. -/
def m1 : HdLoop.Sys := { s0.loop with polling := 0, responses := 1 }
def m2 : HdLoop.Sys := { s0.loop with polling := 0, responses := 0, main := .requesting }
def m3 : HdLoop.Sys := { s0.loop with polling := 0, responses := 0, requests := 1 }
def m4 : HdLoop.Sys := { m3 with req := HdLoop.set m3.req 0 .checked }
def m5 : HdLoop.Sys := { m4 with req := HdLoop.set m4.req 0 .waiting, queue := HdLoop.set m4.queue true [0] }
def m6 : HdLoop.Sys := { m5 with main := .replying 0, queue := HdLoop.set m5.queue true [] }
def m7 : HdLoop.Sys := { m6 with main := .idle, req := HdLoop.set m6.req 0 .answered }
def u (l : HdLoop.Sys) : Sys := { s0 with loop := l, data := data1, done := [op] }
def given' : Given := .hosts (some (memorySafeHosts data1.hostStatus))
def v7 : Sys := { u m7 with given := HdLoop.set s0.given 0 (some given') }
def resp' : HttpResp := Api.respond choices (bs "b.2") zone (given'.view 60000000000) [] [] .hosts
def v8 : Sys := { v7 with answer := HdLoop.set s0.answer 0 (some resp') }

theorem trace8 : Trace sortAggs (bs "b.2") zone (reqs .hosts) [bs "h"] [s0, { s0 with loop := m1 }, u m2, u m3, u m4, u m5, u m6, v7] v8 := by
  have t0 : Trace sortAggs (bs "b.2") zone (reqs .hosts) [bs "h"] [] s0 := .start _
  have t1 := t0.step (.other (l := .deliver) (loop := m1) trivial rfl)
  have t2 : Trace _ _ _ _ _ _ (u m2) := t1.step (.work (l := .consume) (op := op) (loop := m2) trivial rfl trivial consumed)
  have t3 : Trace _ _ _ _ _ _ (u m3) := t2.step (.other (l := .request) (loop := m3) trivial rfl)
  have t4 : Trace sortAggs (bs "b.2") zone (reqs .hosts) [bs "h"] [s0, { s0 with loop := m1 }, u m2, u m3] (u m4) := by
    have h : HdLoop.step (u m3).loop (.call 0) = some m4 := rfl
    have := t3.step (.call (i := 0) (by decide) h)
    rwa [if_neg (by simp [m4, HdLoop.set])] at this
  have t5 : Trace _ _ _ _ _ _ (u m5) := t4.step (.other (l := .enqueue 0 true) (loop := m5) rfl rfl)
  have t6 : Trace _ _ _ _ _ _ (u m6) := t5.step (.other (l := .accept true) (loop := m6) trivial rfl)
  have t7 : Trace _ _ _ _ _ _ v7 := t6.step (.reply (i := 0) (loop := m7) (order := data1.hostStatus) rfl rfl (.refl _))
  exact t7.step (.finish (i := 0) (g := given') rfl rfl)

/-- a case that meets the hypotheses of `C93_hosts_partial`. -/
example : ∃ t ∈ [s0, { s0 with loop := m1 }, u m2, u m3, u m4, u m5, u m6, v7], UnderWay 0 t ∧ AnswerOf (bs "b.2") zone (reqs .hosts 0) t resp' :=
  C93_hosts_partial sortAggs_ok trace8 (decoded .hosts) (i := 0) choices_ok (by
    intro t ht hu
    simp only [List.mem_cons, List.not_mem_nil, or_false] at ht
    rcases ht with rfl | rfl | rfl | rfl | rfl | rfl | rfl | rfl
    · exact absurd rfl hu.1
    · exact absurd rfl hu.1
    all_goals decide +kernel) rfl

/-- the hypothesis of `C93_race_partial` is met by `C93_race_false`. -/
example : (s5 .jobs).data.intervalDuration = 0 :=
  (C93_race_partial (trace5 .jobs (by decide)) (i := 0) ⟨⟨_, step6 .jobs, by decide +kernel⟩, by simp [s5, s4, HdLoop.set], rfl⟩).1

end HdRun.Sample
