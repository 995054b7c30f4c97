import Verif.Props.HealthdSafe
/-! What holds of all aggregations in healthd's state, and of its table of hosts. -/
open Healthd Spec Unmarshal

/-- everything stored satisfies `P`. -/
structure All (P : IntAgg → Prop) (s : State) : Prop where
  host : ∀ p ∈ s.hostAggregations, P p.2.agg
  series : ∀ a ∈ s.intervalAggregations, P a

theorem All.congr {P : IntAgg → Prop} {s s' : State} (h : All P s) (h1 : s'.hostAggregations = s.hostAggregations) (h2 : s'.intervalAggregations = s.intervalAggregations) : All P s' :=
  ⟨by rw [h1]; exact h.host, by rw [h2]; exact h.series⟩

theorem All.storeOne {P : IntAgg → Prop} {s s' : State} (h : All P s) {r : PollResponse} {o : Option Report} (hs : Healthd.storeOne r s o = some s')
    (ho : ∀ rep, o = some rep → P rep.agg) : All P s' := by
  cases o with
  | none => cases hs
  | some rep =>
    have hr := ho rep rfl
    have key : All P { s with
        hostAggregations := s.hostAggregations.set ⟨rep.agg.start, r.response.instanceId, r.hostPort⟩ rep
        intervalsNeedingRecalculation := s.intervalsNeedingRecalculation.set rep.agg.start () } := by
      refine ⟨fun p hp => ?_, h.series⟩
      rcases mem_set hp with rfl | hp
      · exact hr
      · exact h.host p hp
    unfold Healthd.storeOne at hs
    simp only at hs
    split at hs
    · rw [← Option.some.inj hs]; exact key
    · split at hs
      · rw [← Option.some.inj hs]; exact h
      · rw [← Option.some.inj hs]; exact key

theorem All.storeAll {P : IntAgg → Prop} {r : PollResponse} {l : List (Option Report)} : ∀ {s s' : State}, All P s → Healthd.storeAll r s l = some s' →
    (∀ rep, some rep ∈ l → P rep.agg) → All P s' := by
  induction l with
  | nil => intro s s' h hs _; cases hs; exact h
  | cons o t ih =>
    intro s s' h hs hl
    unfold Healthd.storeAll at hs
    rw [List.foldlM_cons] at hs
    obtain ⟨s1, h1, h2⟩ := Option.bind_eq_some_iff.1 hs
    exact ih (h.storeOne h1 (fun rep e => hl rep (by simp [e]))) h2 (fun rep hm => hl rep (by simp [hm]))

theorem replaceAgg_mem {l l' : List IntAgg} {a : IntAgg} (h : replaceAgg l a = some l') : ∀ x ∈ l', x = a ∨ x ∈ l := by
  induction l generalizing l' with
  | nil => simp [replaceAgg] at h
  | cons y t ih =>
    unfold replaceAgg at h
    split at h
    · cases h
      intro x hx
      rcases List.mem_cons.1 hx with hx | hx
      · exact .inl hx
      · exact .inr (by simp [hx])
    · obtain ⟨l1, h1, rfl⟩ := Option.map_eq_some_iff.1 h
      intro x hx
      rcases List.mem_cons.1 hx with hx | hx
      · exact .inr (by simp [hx])
      · rcases ih h1 x hx with h | h
        · exact .inl h
        · exact .inr (by simp [h])

theorem truncateAggs_mem {m : Int} {l l' : List IntAgg} (h : truncateAggs m l = some l') : ∀ x ∈ l', x ∈ l := by
  rcases truncateAggs_spec h with ⟨rfl, _⟩ | ⟨_, _, rfl, _⟩
  · exact fun x hx => hx
  · exact fun x hx => List.mem_of_mem_drop hx

theorem All.set {P : IntAgg → Prop} {sort : List IntAgg → List IntAgg} (hsort : ∀ l, (sort l).Perm l) {s s' : State} (h : All P s) {a : IntAgg} (ha : P a)
    (hs : setAggregation sort s a = some s') : All P s' := by
  have hf := (setAggregation_fields hs).2.2.2
  refine ⟨by rw [hf]; exact h.host, ?_⟩
  unfold setAggregation at hs
  split at hs
  · next l hl =>
    rw [← Option.some.inj hs]
    intro x hx
    rcases replaceAgg_mem hl x hx with rfl | hx
    · exact ha
    · exact h.series x hx
  · obtain ⟨l, h1, rfl⟩ := Option.map_eq_some_iff.1 hs
    intro x hx
    have := (hsort _).mem_iff.1 (truncateAggs_mem h1 x hx)
    rcases List.mem_append.1 this with hx | hx
    · exact h.series x hx
    · rw [List.mem_singleton.1 hx]; exact ha

theorem mergeAll_all {P : IntAgg → Prop} (hnew : ∀ t, P (IntAgg.new t)) (hmerge : ∀ a b, P a → P b → P (a.merge b)) (t : Time) (l : List IntAgg) (h : ∀ b ∈ l, P b) :
    P (mergeAll t l) := by
  induction l using snocInduction with
  | nil => exact hnew t
  | snoc l b ih => rw [mergeAll_snoc]; exact hmerge _ _ (ih (fun x hx => h x (by simp [hx]))) (h b (by simp))

theorem All.recalculateOne {P : IntAgg → Prop} (hnew : ∀ t, P (IntAgg.new t)) (hmerge : ∀ a b, P a → P b → P (a.merge b))
    {sort : List IntAgg → List IntAgg} (hsort : ∀ l, (sort l).Perm l) {entries : Time → List (Key × Report)} {s s' : State} {k : Time} (h : All P s)
    (hp : (entries k).Perm s.hostAggregations) (hs : Healthd.recalculateOne sort entries s k = some s') : All P s' := by
  unfold Healthd.recalculateOne at hs
  obtain ⟨a, h1, h2⟩ := Option.bind_eq_some_iff.1 hs
  refine h.set hsort ?_ h2
  have ha : a = mergeAll k ((((entries k).filter (fun p => p.1.time = k)).map (·.2)).map (·.agg)) := foldlM_mergeReport h1
  rw [ha]
  apply mergeAll_all hnew hmerge
  intro b hb
  simp only [List.map_map, List.mem_map] at hb
  obtain ⟨p, hp1, rfl⟩ := hb
  exact h.host p (hp.mem_iff.1 (List.mem_of_mem_filter hp1))

theorem All.recalculate {P : IntAgg → Prop} (hnew : ∀ t, P (IntAgg.new t)) (hmerge : ∀ a b, P a → P b → P (a.merge b))
    {sort : List IntAgg → List IntAgg} (hsort : ∀ l, (sort l).Perm l) {entries : Time → List (Key × Report)} {ks : List Time} : ∀ {s s' : State}, All P s →
    (∀ k, (entries k).Perm s.hostAggregations) → ks.foldlM (Healthd.recalculateOne sort entries) s = some s' → All P s' := by
  induction ks with
  | nil => intro s s' h _ hs; cases hs; exact h
  | cons k t ih =>
    intro s s' h hp hs
    rw [List.foldlM_cons] at hs
    obtain ⟨s1, h1, h2⟩ := Option.bind_eq_some_iff.1 hs
    have hf : s1.hostAggregations = s.hostAggregations := (recalculate_fields (l := [k]) (s := s) (s' := s1) (by rw [List.foldlM_cons, h1]; rfl)).2.2.2
    exact ih (h.recalculateOne hnew hmerge hsort (hp k) h1) (fun k => by rw [hf]; exact hp k) h2

/-- a property of all reports that merging preserves holds of everything stored, at any time. -/
theorem Healthd.Runs.all {P : IntAgg → Prop} (hnew : ∀ t, P (IntAgg.new t)) (hmerge : ∀ a b, P a → P b → P (a.merge b))
    {sort : List IntAgg → List IntAgg} (hsort : ∀ l, (sort l).Perm l) {hosts : List Str} {h : List Op} {s : State} (hr : Runs sort (init hosts) h s)
    (hrep : ∀ r n1 n2, Op.response r n1 n2 ∈ h → Succeeded r → ∀ rep, some rep ∈ r.response.aggs → P rep.agg) : All P s := by
  induction hr with
  | nil => exact ⟨by simp [init], by simp [init]⟩
  | @snoc ops s1 s2 op hr hv hs ih =>
    have ih := ih (fun r n1 n2 hm => hrep r n1 n2 (by simp [hm]))
    cases op with
    | response r n1 n2 =>
      obtain ⟨f1, f2, f3, f4, f5⟩ := noteStatus_fields n1 n2 s1 r
      have h0 : All P (noteStatus n1 n2 s1 r) := ih.congr f3 f5
      have hr0 := hrep r n1 n2 (by simp)
      rcases consume_cases hs with ⟨_, h2⟩ | ⟨hok, _, _, h4⟩ | ⟨_, _, _, h4⟩ | ⟨hok, _, _, h4⟩
      · rw [h2]; exact h0
      · refine All.storeAll ?_ h4 (hr0 hok)
        exact h0.congr rfl rfl
      · rw [h4]; exact h0
      · exact h0.storeAll h4 (hr0 hok)
    | purge now =>
      obtain ⟨l, h1, h2⟩ := Option.bind_eq_some_iff.1 (show (truncateAggs _ _).bind _ = some s2 from hs)
      rw [← Option.some.inj h2]
      exact ⟨fun p hp => ih.host p (List.mem_of_mem_filter hp), fun a ha => ih.series a (truncateAggs_mem h1 a ha)⟩
    | recalculate ks en =>
      obtain ⟨s3, h1, h2⟩ := Option.bind_eq_some_iff.1 (show (ks.foldlM (Healthd.recalculateOne sort en) s1).bind _ = some s2 from hs)
      rw [← Option.some.inj h2]
      exact (ih.recalculate hnew hmerge hsort hv.2 h1).congr rfl rfl

/-- what is stored fits Go's types. -/
theorem Healthd.Runs.fits {sort : List IntAgg → List IntAgg} (hsort : SortsByStart sort) {hosts : List Str} {h : List Op} {s : State} (hr : Runs sort (init hosts) h s) (hdec : Decoded h) :
    ∀ a ∈ s.intervalAggregations, a.Wf ∧ ∀ c, (value a c).map i64 = value a c := by
  have hv : ∀ (a b : IntAgg), b.Wf → (∀ c, (value a c).map i64 = value a c) → (∀ c, (value b c).map i64 = value b c) → ∀ c, (value (a.merge b) c).map i64 = value (a.merge b) c := by
    intro a b hb h1 h2 c
    have e := value_merge_exact a b hb c (h2 c)
    have h1 := h1 c
    have h2 := h2 c
    rw [e]
    cases ha : value a c <;> cases hb : value b c <;> simp only [ha, hb, Option.map_some, Option.map_none, i64_i64] at h1 h2 ⊢
    · exact h2
    · exact h1
  exact (Runs.all (P := fun a => a.Wf ∧ ∀ c, (value a c).map i64 = value a c) (fun t => ⟨.new t, fun c => by cases c <;> rfl⟩)
    (fun a b ha hb => ⟨ha.1.merge hb.1, hv a b hb.1 ha.2 hb.2⟩) (fun l => (hsort l).1) hr hdec).series

/-- the table of hosts has every host once. -/
theorem Healthd.Runs.hostsWf {sort : List IntAgg → List IntAgg} {hosts : List Str} {h : List Op} {s : State} (hr : Runs sort (init hosts) h s) : s.hostStatus.Wf := by
  induction hr with
  | nil =>
    unfold init
    simp only
    induction hosts using snocInduction with
    | nil => exact .nil
    | snoc l x ih => rw [List.foldl_append]; exact ih.set _ _
  | @snoc ops s1 s2 op hr hv hs ih =>
    cases op with
    | response r n1 n2 =>
      have hst : s2.hostStatus = (noteStatus n1 n2 s1 r).hostStatus := by
        rcases consume_cases hs with ⟨_, h2⟩ | ⟨_, _, _, h4⟩ | ⟨_, _, _, h4⟩ | ⟨_, _, _, h4⟩
        · rw [h2]
        · exact (storeAll_fields h4).2.2.1
        · rw [h4]
        · exact (storeAll_fields h4).2.2.1
      rw [hst]
      unfold noteStatus
      split
      · exact ih.set _ _
      · exact ih
    | purge now =>
      obtain ⟨l, h1, h2⟩ := Option.bind_eq_some_iff.1 (show (truncateAggs _ _).bind _ = some s2 from hs)
      rw [← Option.some.inj h2]; exact ih
    | recalculate ks en =>
      obtain ⟨s3, h1, h2⟩ := Option.bind_eq_some_iff.1 (show (ks.foldlM (Healthd.recalculateOne sort en) s1).bind _ = some s2 from hs)
      rw [← Option.some.inj h2]
      show s3.hostStatus.Wf
      rw [(recalculate_fields h1).2.2.1]; exact ih
