import Verif.Lemmas.TimeText
import Verif.Props.Merge
import Verif.Props.Stream
import Verif.Props.HealthdSafe
/-!
# Exactly when the claims C07, C21 and C47 fail
-/
open Spec

/-! ## C21 -/

namespace Spec
/-- job `j` appears in the interval, but no run of it completed. -/
def Idle (j : Str) (es : List Emit) : Prop := ofJob j es ≠ [] ∧ completions (ofJob j es) = []
end Spec

instance (j : Str) (es : List Emit) : Decidable (Idle j es) := by unfold Idle; infer_instance

/-- what process `es` adds to the durations of job `j`: its durations, or a 0 that nobody measured. -/
def shownDurations (j : Str) (es : List Emit) : List Int := if Idle j es then [0] else samples es (.job j)

theorem shown_aggOf (s : Time) (es : List Emit) (j : Str) (hlen : (samples es (.job j)).length < 2^63) :
    ExtremesOf (aggOf s es) (.job j) (shownDurations j es) := by
  unfold ExtremesOf shownDurations
  simp only [summary, aggOf_jobs]
  by_cases h : ofJob j es = []
  · simp [h, Idle, samples, completions]
  · simp only [h, if_false, Option.map_some, jobAggOf_timer]
    have hs := timerOf_summarises ((completions (ofJob j es)).map (·.2))
    by_cases h2 : completions (ofJob j es) = []
    · rw [if_pos ⟨h, h2⟩]
      obtain ⟨e1, e2⟩ := hs.empty (by rw [h2]; rfl)
      rw [e1, e2]
      exact ⟨by simp, ⟨by simp, by simp⟩, ⟨by simp, by simp⟩⟩
    · rw [if_neg (fun hi => h2 hi.2)]
      have hne : (completions (ofJob j es)).map (·.2) ≠ [] := by simpa using h2
      exact ⟨hne, hs.min hne hlen, hs.max hne hlen⟩

/-- C21 for job durations, exactly: the minimum and the maximum shown are those of the durations of all processes and of a 0 for every process that has
the job without a completion. -/
theorem C21_job_exact (s : Time) (ess : List (List Emit)) (j : Str) (hlen : (samples ess.flatten (.job j)).length < 2^63) :
    ExtremesOf (mergeAll s (ess.map (aggOf s))) (.job j) (ess.map (shownDurations j)).flatten := by
  have hw : ∀ b ∈ ess.map (aggOf s), b.Wf := by
    intro b hb; obtain ⟨es, _, rfl⟩ := List.mem_map.1 hb; exact aggOf_wf _ _
  have hmin := min_mergeAll s _ hw (.job j)
  have hmax := max_mergeAll s _ hw (.job j)
  have hone : ∀ es ∈ ess, ExtremesOf (aggOf s es) (.job j) (shownDurations j es) := by
    intro es he
    apply shown_aggOf
    rw [samples_flatten] at hlen
    have : (samples es (.job j)).length ≤ ((ess.map (fun es => samples es (.job j))).flatten).length :=
      (List.sublist_flatten_of_mem (List.mem_map.2 ⟨es, he, rfl⟩ :
        samples es (.job j) ∈ ess.map (fun es => samples es (.job j)))).length_le
    omega
  have inmin : ∀ es ∈ ess, ∀ u, summary (aggOf s es) (.job j) = some u →
      u.nanosMin ∈ ((ess.map (aggOf s)).map (fun b => (summary b (.job j)).map (·.nanosMin))).filterMap id := by
    intro es he u hu
    rw [List.mem_filterMap]
    exact ⟨some u.nanosMin, List.mem_map.2 ⟨aggOf s es, List.mem_map.2 ⟨es, he, rfl⟩, by simp [hu]⟩, rfl⟩
  have inmax : ∀ es ∈ ess, ∀ u, summary (aggOf s es) (.job j) = some u →
      u.nanosMax ∈ ((ess.map (aggOf s)).map (fun b => (summary b (.job j)).map (·.nanosMax))).filterMap id := by
    intro es he u hu
    rw [List.mem_filterMap]
    exact ⟨some u.nanosMax, List.mem_map.2 ⟨aggOf s es, List.mem_map.2 ⟨es, he, rfl⟩, by simp [hu]⟩, rfl⟩
  unfold ExtremesOf
  cases hs : summary (mergeAll s (ess.map (aggOf s))) (.job j) with
  | none =>
    rw [hs] at hmin
    simp only [Option.map_none] at hmin
    have h3 := List.min?_eq_none_iff.1 hmin.symm
    simp only
    rw [List.flatten_eq_nil_iff]
    intro l hl
    obtain ⟨es, he, rfl⟩ := List.mem_map.1 hl
    have h1 := hone es he
    unfold ExtremesOf at h1
    cases h2 : summary (aggOf s es) (.job j) with
    | none => rw [h2] at h1; exact h1
    | some t => have := inmin es he t h2; rw [h3] at this; simp at this
  | some t =>
    rw [hs] at hmin hmax
    simp only [Option.map_some] at hmin hmax
    have h1 := List.min?_eq_some_iff.1 hmin.symm
    have h2 := List.max?_eq_some_iff.1 hmax.symm
    have host : ∀ es ∈ ess, ∀ v ∈ shownDurations j es, ∃ u, summary (aggOf s es) (.job j) = some u ∧ u.nanosMin ≤ v ∧ v ≤ u.nanosMax := by
      intro es he v hv
      have h3 := hone es he
      unfold ExtremesOf at h3
      cases h4 : summary (aggOf s es) (.job j) with
      | none => rw [h4] at h3; rw [h3] at hv; simp at hv
      | some u => rw [h4] at h3; exact ⟨u, rfl, h3.2.1.2 v hv, h3.2.2.2 v hv⟩
    have hmin_mem : t.nanosMin ∈ (ess.map (shownDurations j)).flatten := by
      obtain ⟨o, ho, ho2⟩ := List.mem_filterMap.1 h1.1
      obtain ⟨b, hb, hb2⟩ := List.mem_map.1 ho
      obtain ⟨es, he, rfl⟩ := List.mem_map.1 hb
      cases h4 : summary (aggOf s es) (.job j) with
      | none => rw [h4] at hb2; rw [← hb2] at ho2; simp at ho2
      | some u =>
        rw [h4] at hb2
        rw [← hb2] at ho2
        simp only [Option.map_some, id, Option.some.injEq] at ho2
        have h3 := hone es he
        unfold ExtremesOf at h3
        rw [h4] at h3
        rw [List.mem_flatten]
        exact ⟨_, List.mem_map.2 ⟨es, he, rfl⟩, ho2 ▸ h3.2.1.1⟩
    have hmax_mem : t.nanosMax ∈ (ess.map (shownDurations j)).flatten := by
      obtain ⟨o, ho, ho2⟩ := List.mem_filterMap.1 h2.1
      obtain ⟨b, hb, hb2⟩ := List.mem_map.1 ho
      obtain ⟨es, he, rfl⟩ := List.mem_map.1 hb
      cases h4 : summary (aggOf s es) (.job j) with
      | none => rw [h4] at hb2; rw [← hb2] at ho2; simp at ho2
      | some u =>
        rw [h4] at hb2
        rw [← hb2] at ho2
        simp only [Option.map_some, id, Option.some.injEq] at ho2
        have h3 := hone es he
        unfold ExtremesOf at h3
        rw [h4] at h3
        rw [List.mem_flatten]
        exact ⟨_, List.mem_map.2 ⟨es, he, rfl⟩, ho2 ▸ h3.2.2.1⟩
    refine ⟨fun h0 => by rw [h0] at hmin_mem; simp at hmin_mem, ⟨hmin_mem, ?_⟩, ⟨hmax_mem, ?_⟩⟩
    · intro v hv
      obtain ⟨l, hl, hv⟩ := List.mem_flatten.1 hv
      obtain ⟨es, he, rfl⟩ := List.mem_map.1 hl
      obtain ⟨u, hu, hu1, _⟩ := host es he v hv
      exact Int.le_trans (h1.2 _ (inmin es he u hu)) hu1
    · intro v hv
      obtain ⟨l, hl, hv⟩ := List.mem_flatten.1 hv
      obtain ⟨es, he, rfl⟩ := List.mem_map.1 hl
      obtain ⟨u, hu, _, hu2⟩ := host es he v hv
      exact Int.le_trans hu2 (h2.2 _ (inmax es he u hu))

/-- C21 for job durations: the claim holds exactly when no process has the job without a completion, or real durations reach from 0 or below to 0 or
above anyway. -/
theorem C21_job_iff (s : Time) (ess : List (List Emit)) (j : Str) (hlen : (samples ess.flatten (.job j)).length < 2^63) :
    ExtremesOf (mergeAll s (ess.map (aggOf s))) (.job j) (samples ess.flatten (.job j)) ↔
      (∀ es ∈ ess, ¬ Idle j es) ∨
      (∃ v ∈ samples ess.flatten (.job j), v ≤ 0) ∧ (∃ v ∈ samples ess.flatten (.job j), 0 ≤ v) := by
  have h := C21_job_exact s ess j hlen
  have hmem : ∀ v, v ∈ (ess.map (shownDurations j)).flatten ↔
      v ∈ samples ess.flatten (.job j) ∨ v = 0 ∧ ∃ es ∈ ess, Idle j es := by
    intro v
    rw [samples_flatten, List.mem_flatten, List.mem_flatten]
    constructor
    · rintro ⟨l, hl, hv⟩
      obtain ⟨es, he, rfl⟩ := List.mem_map.1 hl
      unfold shownDurations at hv
      split at hv
      · next hi => exact .inr ⟨by simpa using hv, es, he, hi⟩
      · exact .inl ⟨_, List.mem_map.2 ⟨es, he, rfl⟩, hv⟩
    · rintro (⟨l, hl, hv⟩ | ⟨rfl, es, he, hi⟩)
      · obtain ⟨es, he, rfl⟩ := List.mem_map.1 hl
        refine ⟨_, List.mem_map.2 ⟨es, he, rfl⟩, ?_⟩
        unfold shownDurations
        rw [if_neg (fun hi => by simp [samples, hi.2] at hv)]
        exact hv
      · exact ⟨_, List.mem_map.2 ⟨es, he, rfl⟩, by unfold shownDurations; rw [if_pos hi]; simp⟩
  by_cases hidle : ∀ es ∈ ess, ¬ Idle j es
  · refine ⟨fun _ => .inl hidle, fun _ => C21_job_extremes_partial s ess j hlen ?_⟩
    intro es he h1 h2
    exact hidle es he ⟨h1, h2⟩
  · have hex : ∃ es ∈ ess, Idle j es := by push Not at hidle; exact hidle
    have h0 : (0 : Int) ∈ (ess.map (shownDurations j)).flatten := (hmem 0).2 (.inr ⟨rfl, hex⟩)
    unfold ExtremesOf at h ⊢
    cases hs : summary (mergeAll s (ess.map (aggOf s))) (.job j) with
    | none => rw [hs] at h; simp only at h; rw [h] at h0; simp at h0
    | some t =>
      rw [hs] at h
      simp only at h ⊢
      obtain ⟨_, ⟨m1, m2⟩, ⟨x1, x2⟩⟩ := h
      constructor
      · rintro ⟨_, ⟨n1, _⟩, ⟨n2, _⟩⟩
        exact .inr ⟨⟨_, n1, m2 0 h0⟩, ⟨_, n2, x2 0 h0⟩⟩
      · rintro (hc | ⟨⟨v, hv, hv0⟩, ⟨w, hw, hw0⟩⟩)
        · exact absurd hc hidle
        · refine ⟨fun he => by rw [he] at hv; simp at hv, ⟨?_, fun u hu => m2 u ((hmem u).2 (.inl hu))⟩,
            ⟨?_, fun u hu => x2 u ((hmem u).2 (.inl hu))⟩⟩
          · rcases (hmem _).1 m1 with hm | ⟨hm, _⟩
            · exact hm
            · have := m2 v ((hmem v).2 (.inl hv))
              have e : v = t.nanosMin := by omega
              exact e ▸ hv
          · rcases (hmem _).1 x1 with hm | ⟨hm, _⟩
            · exact hm
            · have := x2 w ((hmem w).2 (.inl hw))
              have e : w = t.nanosMax := by omega
              exact e ▸ hw

/-- the witness of `C21_job_extremes_false`, by the condition: on `p1` the job is idle, and the only real duration is 9. -/
example : Idle (bs "j") Sample.p1 ∧ samples [Sample.p1, Sample.p2].flatten (.job (bs "j")) = [9] ∧
    [Sample.p1, Sample.p2].map (shownDurations (bs "j")) = [[0], [9]] := by decide +kernel

/-! ## C47 -/

/-- C47, exactly: the text of a start time becomes the same map key in all responses if and only if its UTC offset is 0, the local one at that time, or a
whole number of hours from -12 to +14. -/
theorem C47_iff (lo : Int → Int) (text : Str) {ns off : Int} (h : readTime text = some (ns, off)) :
    (∀ fresh1 fresh2 t val, Unmarshal.decTime lo fresh1 t (.str text val) = Unmarshal.decTime lo fresh2 t (.str text val)) ↔
      off = 0 ∨ off = lo ns ∨ (3600 ∣ off ∧ -43200 ≤ off ∧ off ≤ 50400) := by
  constructor
  · intro hall
    by_contra hn
    push Not at hn
    obtain ⟨n1, n2, n3⟩ := hn
    have key : ∀ fresh, Unmarshal.decTime lo fresh ⟨0, 0⟩ (.str text []) = some ⟨ns, 29 + fresh⟩ := by
      intro fresh
      show (readTime text).map _ = _
      rw [h]
      simp only [Option.map_some, Option.some.injEq, Time.mk.injEq, true_and]
      have hZ : text.getLast? ≠ some 90 := fun e => n1 (readTime_Z h e)
      unfold Unmarshal.locOf
      rw [if_neg (by simpa using hZ), if_neg (Ne.symm n2), if_neg]
      rintro ⟨a, b, c⟩
      have := n3 (Int.dvd_of_emod_eq_zero a) b
      omega
    have := hall 0 1 ⟨0, 0⟩ []
    rw [key, key] at this
    simp at this
  · intro hz f1 f2 t val
    obtain ⟨loc, e, _⟩ := C47_partial lo text h hz
    rw [e, e]

/-- +05:30 in a program whose local zone is UTC: two readings of the same text give different keys. -/
example : readTime (bs "2011-09-09T23:36:00+05:30") = some (63451188360000000000, 19800) ∧
    ¬ (19800 = (0 : Int) ∨ (19800 : Int) = 0 ∨ ((3600 : Int) ∣ 19800 ∧ -43200 ≤ (19800 : Int) ∧ (19800 : Int) ≤ 50400)) := by
  constructor
  · decide +kernel
  · decide

/-! ## C07 -/

namespace World

theorem merged_congr {w w1 : World} (h1 : w1.maps = w.maps) (h2 : w1.kvs = w.kvs) (job : Job) (inst : MapRef) :
    (w1.mergedKeyValues job inst).2 = (w.mergedKeyValues job inst).2 := by
  have hd : ∀ r, w1.deref r = w.deref r := by intro r; unfold deref; rw [h1]
  have hl : ∀ r, w1.len r = w.len r := by intro r; unfold len; rw [hd]
  unfold mergedKeyValues
  simp only [hl, hd, h2, newMap, h1]
  by_cases a : w.len inst > 0 <;> by_cases b : w.len job.kvs > 0 <;> by_cases c : w.len w.kvs > 0 <;> simp [a, b, c]

/-- the map that the sinks are handed is the one that `mergedKeyValues` returns. -/
theorem newCalls_kvs (clock : Nat → Int) (w : World) (hw : ∀ m ∈ w.maps, GoMap.Wf m) (j : Nat) (job : Job) (hj : w.jobs[j]? = some job)
    (c : World.Call) (inst : MapRef) : ∀ sc ∈ newCalls clock w j c inst, sc.kvs = (w.mergedKeyValues job inst).2 := by
  have hcalls : ∀ w : World, (∀ m ∈ w.maps, GoMap.Wf m) → (w.mergedKeyValues job inst).1.calls = w.calls := by
    intro w hw
    obtain ⟨extra, h1, _⟩ := mergedKeyValues_spec w hw job inst
    rw [h1]
  have hmaps := hcalls w hw
  intro sc hsc
  unfold newCalls at hsc
  have fold : ∀ (w0 : World) n p kvs (l : List Nat), w0.calls = w.calls →
      sc ∈ (l.foldl (fun w s => w.callSink s n p kvs) w0).calls.drop w.calls.length → sc.kvs = kvs := by
    intro w0 n p kvs l h0 hm
    rw [foldl_callSink] at hm
    simp only [h0, List.drop_left] at hm
    obtain ⟨s, _, rfl⟩ := List.mem_map.1 hm
    rfl
  cases c with
  | event ev => exact fold _ _ _ _ _ hmaps (by simpa only [emit, hj] using hsc)
  | timing ev n => exact fold _ _ _ _ _ hmaps (by simpa only [emit, hj] using hsc)
  | gauge ev n => exact fold _ _ _ _ _ hmaps (by simpa only [emit, hj] using hsc)
  | complete st =>
    simp only [emit, hj, foldl_complete, hmaps, List.drop_left] at hsc
    obtain ⟨i, hi, rfl⟩ := List.mem_mapIdx.1 hsc
    rfl
  | eventErr ev e tr =>
    have hwrap : (w.wrapErr e tr).1.maps = w.maps ∧ (w.wrapErr e tr).1.kvs = w.kvs ∧ (w.wrapErr e tr).1.calls = w.calls := by
      cases e <;> exact ⟨rfl, rfl, rfl⟩
    have hmark : ∀ (w : World) e, (w.markEmitted e).calls = w.calls := by intro w e; cases e <;> rfl
    rw [← merged_congr hwrap.1 hwrap.2.1]
    exact fold _ _ _ _ _ (by rw [hcalls _ (by rw [hwrap.1]; exact hw), hwrap.2.2]) (by simpa only [emit, hj, hmark] using hsc)

end World

/-- C07, the rest: when exactly one of call, job and stream has pairs, every sink is handed that very map, and the next pair set on it shows in the map that
the sinks were given. -/
theorem C07_live (clock : Nat → Int) (w : World) (hw : Reachable clock w) (j : Nat) (job : Job) (hj : w.jobs[j]? = some job)
    (c : World.Call) (inst : MapRef) (k v : Str) (sc : SinkCall) (hsc : sc ∈ newCalls clock w j c inst) :
    (NoPairs (w.deref inst) → NoPairs (w.deref job.kvs) → ¬ NoPairs (w.deref w.kvs) →
      lookup (((w.emit clock j c inst).1.step clock (.streamKv k v)).deref sc.kvs) k = some v) ∧
    (NoPairs (w.deref inst) → ¬ NoPairs (w.deref job.kvs) → NoPairs (w.deref w.kvs) →
      lookup (((w.emit clock j c inst).1.step clock (.jobKv j k v)).deref sc.kvs) k = some v) ∧
    (∀ i, inst = some i → ¬ NoPairs (w.deref inst) → NoPairs (w.deref job.kvs) → NoPairs (w.deref w.kvs) →
      lookup (((w.emit clock j c inst).1.step clock (.mapSet i k v)).deref sc.kvs) k = some v) := by
  have hok := World.reachable_ok hw
  have hk := World.newCalls_kvs clock w hok.maps j job hj c inst sc hsc
  obtain ⟨new, extra, kvs, em, hs, _⟩ := World.emit_spec clock w hok.maps j job hj c inst
  have hpos := fun r => World.len_pos_iff w r
  have hset : ∀ (w' : World) i, i < w'.maps.length → lookup ((w'.mapSet i k v).deref (some i)) k = some v := by
    intro w' i hi
    simp [World.deref, World.mapSet, lookup, List.getElem?_eq_getElem hi]
  have hin : ∀ i, ¬ NoPairs (w.deref (some i)) → i < (w.emit clock j c inst).1.maps.length := by
    intro i hi
    rw [hs.maps, List.length_append]
    by_contra hc
    apply hi
    left
    simp only [World.deref, Option.bind_some]
    rw [List.getElem?_eq_none_iff]
    omega
  refine ⟨fun a b d => ?_, fun a b d => ?_, fun i e a b d => ?_⟩
  · have ha : ¬ 0 < w.len inst := by rw [hpos]; simpa using a
    have hb : ¬ 0 < w.len job.kvs := by rw [hpos]; simpa using b
    have hd : 0 < w.len w.kvs := by rw [hpos]; exact d
    have e : sc.kvs = w.kvs := by rw [hk]; simp [World.mergedKeyValues, ha, hb, hd]
    cases hr : w.kvs with
    | none => rw [hr] at d; exact absurd (.inl rfl) d
    | some r =>
      rw [e, hr]
      have : (w.emit clock j c inst).1.step clock (.streamKv k v) = { ((w.emit clock j c inst).1.mapSet r k v) with kvs := some r } := by
        simp [World.step, World.streamKv, World.ensure, hs.wkvs, hr]
      rw [this]
      rw [hr] at d
      exact hset _ r (hin r d)
  · have ha : ¬ 0 < w.len inst := by rw [hpos]; simpa using a
    have hb : 0 < w.len job.kvs := by rw [hpos]; exact b
    have hd : ¬ 0 < w.len w.kvs := by rw [hpos]; simpa using d
    have e : sc.kvs = job.kvs := by rw [hk]; simp [World.mergedKeyValues, ha, hb, hd]
    cases hr : job.kvs with
    | none => rw [hr] at b; exact absurd (.inl rfl) b
    | some r =>
      rw [e, hr]
      have hj' : (w.emit clock j c inst).1.jobs[j]? = some job := by rw [hs.jobs]; exact hj
      have : ((w.emit clock j c inst).1.step clock (.jobKv j k v)).maps = ((w.emit clock j c inst).1.mapSet r k v).maps := by
        simp [World.step, World.jobKv, World.ensure, hj', hr]
      have h2 : ((w.emit clock j c inst).1.step clock (.jobKv j k v)).deref (some r) = ((w.emit clock j c inst).1.mapSet r k v).deref (some r) := by
        unfold World.deref; rw [this]
      rw [h2]
      rw [hr] at b
      exact hset _ r (hin r b)
  · have ha : 0 < w.len inst := by rw [hpos]; exact a
    have hb : ¬ 0 < w.len job.kvs := by rw [hpos]; simpa using b
    have hd : ¬ 0 < w.len w.kvs := by rw [hpos]; simpa using d
    have e' : sc.kvs = inst := by rw [hk]; simp [World.mergedKeyValues, ha, hb, hd]
    rw [e', e]
    subst e
    exact hset _ i (hin i a)

/-- the first case occurs: only the stream has pairs. -/
example : let w := (World.newStream Sample.clk).run Sample.clk [.addSink 7, .streamKv (bs "user") (bs "1")]
    w.deref w.kvs = some [(bs "user", bs "1")] ∧ (newCalls Sample.clk w 0 (.event (bs "e")) none).length = 1 ∧
    w.jobs[0]?.map (fun j => w.deref j.kvs) = some none := by decide +kernel
