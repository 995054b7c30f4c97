import Verif.Lemmas.StreamOk
/-!
# The key/values of streams and jobs as functions of the history
-/
open Spec
namespace World

theorem lastWrite_snoc (sel : Op → Option (Str × Str)) (ops : List Op) (op : Op) (k : Str) :
    lastWrite sel (ops ++ [op]) k =
      match sel op with
      | none => lastWrite sel ops k
      | some (k', v) => if k' = k then some v else lastWrite sel ops k := by
  unfold lastWrite
  rw [List.filterMap_append]
  cases h : sel op with
  | none => simp [h]
  | some p =>
    obtain ⟨k', v⟩ := p
    by_cases hk : k' = k <;> simp [h, hk, List.filter_append]

/-- what the maps of stream and jobs are, and that no two of them are the same map. -/
structure Kvs (w : World) (ops : List Op) : Prop where
  ok : Ok w
  stream : ∀ k, lookup (w.deref w.kvs) k = lastWrite streamWrites ops k
  job : ∀ (j : Nat) (job : Job), w.jobs[j]? = some job → ∀ k, lookup (w.deref job.kvs) k = lastWrite (jobWrites j) ops k
  sj : ∀ (j : Nat) (job : Job) (i : Nat), w.jobs[j]? = some job → w.kvs = some i → job.kvs ≠ some i
  jj : ∀ (j : Nat) (job : Job) (j' : Nat) (job' : Job) (i : Nat), w.jobs[j]? = some job → w.jobs[j']? = some job' → job.kvs = some i → job'.kvs = some i → j = j'
  later : ∀ j, w.jobs.length ≤ j → ∀ k, lastWrite (jobWrites j) ops k = none

theorem deref_mapSet (w : World) (i : Nat) (k v : Str) (r : MapRef) :
    (w.mapSet i k v).deref r = if r = some i then (w.deref r).map (·.set k v) else w.deref r := by
  cases r with
  | none => simp [deref]
  | some n =>
    by_cases h : n = i
    · subst h; simp [deref, mapSet]
    · simp [deref, mapSet, h, Ne.symm h, List.getElem?_modify]

theorem lookup_map_set (m : Option (GoMap Str Str)) (k v k' : Str) (hm : m ≠ none) :
    lookup (m.map (·.set k v)) k' = if k = k' then some v else lookup m k' := by
  cases m with
  | none => exact absurd rfl hm
  | some m =>
    simp only [lookup, Option.map_some, Option.bind_some]
    rw [GoMap.get?_set]
    by_cases h : k = k'
    · subst h; simp
    · simp [h, Ne.symm h]

theorem deref_ne_none (w : World) (i : Nat) (h : i < w.maps.length) : w.deref (some i) ≠ none := by
  simp [deref, h]

theorem deref_old (w w' : World) (extra : List (GoMap Str Str)) (h : w'.maps = w.maps ++ extra) (r : MapRef)
    (hr : ∀ i, r = some i → i < w.maps.length) : w'.deref r = w.deref r := by
  cases r with
  | none => rfl
  | some i => simp [deref, h, List.getElem?_append_left (hr i rfl)]

theorem Kvs.step {clock : Nat → Int} {w : World} {ops : List Op} (h : Kvs w ops) (op : Op) (hc : CleanOp w op) :
    Kvs (w.step clock op) (ops ++ [op]) := by
  have hok := h.ok.step (clock := clock) op hc.1
  have hjl : ∀ (j : Nat) (job : Job), w.jobs[j]? = some job → ∀ i, job.kvs = some i → i < w.maps.length :=
    fun j job hj i hi => h.ok.jobs job (List.mem_of_getElem? hj) i hi
  cases op with
  | addSink s =>
    refine ⟨hok, ?_, ?_, h.sj, h.jj, ?_⟩
    · intro k; rw [lastWrite_snoc]; exact h.stream k
    · intro j job hj k; rw [lastWrite_snoc]; exact h.job j job hj k
    · intro j hj k; rw [lastWrite_snoc]; exact h.later j hj k
  | newMap m =>
    refine ⟨hok, ?_, ?_, h.sj, h.jj, ?_⟩
    · intro k; rw [lastWrite_snoc]
      have e := deref_old w (w.step clock (.newMap m)) [m] rfl w.kvs h.ok.kvs
      exact (congrArg (fun x => lookup x k) e).trans (h.stream k)
    · intro j job hj k; rw [lastWrite_snoc]
      rw [deref_old w (w.step clock (.newMap m)) [m] rfl _ (hjl j job hj)]
      exact h.job j job hj k
    · intro j hj k; rw [lastWrite_snoc]; exact h.later j hj k
  | newJob n =>
    have hjobs : (w.step clock (.newJob n)).jobs = w.jobs ++ [⟨n, none, clock w.reads⟩] := rfl
    have old : ∀ (j : Nat) (job : Job), (w.step clock (.newJob n)).jobs[j]? = some job →
        w.jobs[j]? = some job ∨ (j = w.jobs.length ∧ job.kvs = none) := by
      intro j job hj
      rw [hjobs] at hj
      by_cases hlt : j < w.jobs.length
      · rw [List.getElem?_append_left hlt] at hj; exact Or.inl hj
      · rw [List.getElem?_append_right (by omega)] at hj
        have : j - w.jobs.length = 0 := by
          by_contra h0
          obtain ⟨m, hm⟩ := Nat.exists_eq_succ_of_ne_zero h0
          rw [hm] at hj; simp at hj
        rw [this] at hj
        simp only [List.getElem?_cons_zero, Option.some.injEq] at hj
        exact Or.inr ⟨by omega, by rw [← hj]⟩
    refine ⟨hok, ?_, ?_, ?_, ?_, ?_⟩
    · intro k; rw [lastWrite_snoc]; exact h.stream k
    · intro j job hj k; rw [lastWrite_snoc]
      rcases old j job hj with hj | ⟨hj, hk⟩
      · exact h.job j job hj k
      · rw [hk]; exact (h.later j (by omega) k).symm
    · intro j job i hj hi hk
      rcases old j job hj with hj | ⟨hj, hk'⟩
      · exact h.sj j job i hj hi hk
      · rw [hk'] at hk; simp at hk
    · intro j job j' job' i hj hj' hk hk'
      rcases old j job hj with hj | ⟨hj, h0⟩ <;> rcases old j' job' hj' with hj' | ⟨hj', h0'⟩
      · exact h.jj j job j' job' i hj hj' hk hk'
      · rw [h0'] at hk'; simp at hk'
      · rw [h0] at hk; simp at hk
      · omega
    · intro j hj k; rw [lastWrite_snoc]
      rw [hjobs, List.length_append] at hj
      exact h.later j (by omega) k
  | mapSet i k v =>
    refine ⟨hok, ?_, ?_, h.sj, h.jj, ?_⟩
    · intro k'; rw [lastWrite_snoc]
      show lookup ((w.mapSet i k v).deref w.kvs) k' = _
      rw [deref_mapSet, if_neg hc.2.1]
      exact h.stream k'
    · intro j job hj k'; rw [lastWrite_snoc]
      show lookup ((w.mapSet i k v).deref job.kvs) k' = _
      rw [deref_mapSet, if_neg (hc.2.2 job (List.mem_of_getElem? hj))]
      exact h.job j job hj k'
    · intro j hj k'; rw [lastWrite_snoc]; exact h.later j hj k'
  | emit j c kvs =>
    cases hj : w.jobs[j]? with
    | none =>
      have e : w.step clock (.emit j c kvs) = w := by simp [World.step, World.emit, hj]
      rw [e]
      refine ⟨h.ok, ?_, ?_, h.sj, h.jj, ?_⟩
      · intro k; rw [lastWrite_snoc]; exact h.stream k
      · intro j job hj k; rw [lastWrite_snoc]; exact h.job j job hj k
      · intro j hj k; rw [lastWrite_snoc]; exact h.later j hj k
    | some jb =>
      obtain ⟨new, extra, r, em, hs, _⟩ := emit_spec clock w h.ok.maps j jb hj c kvs
      refine ⟨hok, ?_, ?_, ?_, ?_, ?_⟩
      · intro k; rw [lastWrite_snoc]
        show lookup ((w.emit clock j c kvs).1.deref (w.emit clock j c kvs).1.kvs) k = _
        rw [hs.wkvs, deref_old w _ extra hs.maps _ h.ok.kvs]
        exact h.stream k
      · intro j' job hj' k; rw [lastWrite_snoc]
        change (w.emit clock j c kvs).1.jobs[j']? = some job at hj'
        rw [hs.jobs] at hj'
        show lookup ((w.emit clock j c kvs).1.deref job.kvs) k = _
        rw [deref_old w _ extra hs.maps _ (hjl j' job hj')]
        exact h.job j' job hj' k
      · intro j' job i hj' hi
        change (w.emit clock j c kvs).1.jobs[j']? = some job at hj'
        change (w.emit clock j c kvs).1.kvs = some i at hi
        rw [hs.jobs] at hj'
        rw [hs.wkvs] at hi
        exact h.sj j' job i hj' hi
      · intro j1 job1 j2 job2 i hj1 hj2
        change (w.emit clock j c kvs).1.jobs[j1]? = some job1 at hj1
        change (w.emit clock j c kvs).1.jobs[j2]? = some job2 at hj2
        rw [hs.jobs] at hj1 hj2
        exact h.jj j1 job1 j2 job2 i hj1 hj2
      · intro j' hj' k; rw [lastWrite_snoc]
        change (w.emit clock j c kvs).1.jobs.length ≤ j' at hj'
        rw [hs.jobs] at hj'
        exact h.later j' hj' k
  | streamKv k v =>
    -- the map written to
    obtain ⟨i, w1, he, hlt, hj1, hmaps, hlook, hfresh⟩ : ∃ i w1, w.ensure w.kvs = (w1, i) ∧ i < w1.maps.length ∧
        w1.jobs = w.jobs ∧ (∃ extra, w1.maps = w.maps ++ extra) ∧
        (∀ k', lookup (w1.deref (some i)) k' = lookup (w.deref w.kvs) k') ∧
        (w.kvs = some i ∨ i = w.maps.length) := by
      cases hk : w.kvs with
      | some i => exact ⟨i, w, rfl, h.ok.kvs i hk, rfl, ⟨[], by simp⟩, by simp, Or.inl rfl⟩
      | none =>
        refine ⟨w.maps.length, _, rfl, by simp, rfl, ⟨[[]], rfl⟩, ?_, Or.inr rfl⟩
        intro k'
        simp [deref, lookup]
    have hnotjob : ∀ (j : Nat) (job : Job), w.jobs[j]? = some job → job.kvs ≠ some i := by
      intro j job hj hk
      rcases hfresh with hf | hf
      · exact h.sj j job i hj hf hk
      · have := hjl j job hj i hk; omega
    have e : w.step clock (.streamKv k v) = { w1.mapSet i k v with kvs := some i } := by
      simp [World.step, streamKv, he]
    have hd : ∀ r, (w.step clock (.streamKv k v)).deref r = (w1.mapSet i k v).deref r := by rw [e]; intro r; rfl
    obtain ⟨extra, hextra⟩ := hmaps
    have hjj : (w.step clock (.streamKv k v)).jobs = w.jobs := by rw [e]; exact hj1
    have hkk : (w.step clock (.streamKv k v)).kvs = some i := by rw [e]
    refine ⟨hok, ?_, ?_, ?_, ?_, ?_⟩
    · intro k'; rw [lastWrite_snoc]
      rw [hd, hkk, deref_mapSet, if_pos rfl, lookup_map_set _ _ _ _ (deref_ne_none w1 i hlt), hlook, h.stream]
      rfl
    · intro j job hj k'; rw [lastWrite_snoc]
      rw [hjj] at hj
      rw [hd, deref_mapSet, if_neg (hnotjob j job hj), deref_old w w1 extra hextra _ (hjl j job hj)]
      exact h.job j job hj k'
    · intro j job i' hj hi hk
      rw [hjj] at hj
      rw [hkk] at hi
      simp only [Option.some.injEq] at hi
      subst hi
      exact hnotjob j job hj hk
    · intro j1 job1 j2 job2 i' h1 h2
      rw [hjj] at h1 h2
      exact h.jj j1 job1 j2 job2 i' h1 h2
    · intro j hj k'; rw [lastWrite_snoc]
      rw [hjj] at hj
      exact h.later j hj k'
  | jobKv j k v =>
    have hjlt : j < w.jobs.length := hc.2
    obtain ⟨job0, hj0⟩ : ∃ job, w.jobs[j]? = some job := ⟨_, List.getElem?_eq_getElem hjlt⟩
    obtain ⟨i, w1, he, hlt, hj1, hkvs1, hmaps, hlook, hfresh⟩ : ∃ i w1, w.ensure job0.kvs = (w1, i) ∧ i < w1.maps.length ∧
        w1.jobs = w.jobs ∧ w1.kvs = w.kvs ∧ (∃ extra, w1.maps = w.maps ++ extra) ∧
        (∀ k', lookup (w1.deref (some i)) k' = lookup (w.deref job0.kvs) k') ∧
        (job0.kvs = some i ∨ i = w.maps.length) := by
      cases hk : job0.kvs with
      | some i => exact ⟨i, w, rfl, hjl j job0 hj0 i hk, rfl, rfl, ⟨[], by simp⟩, by simp, Or.inl rfl⟩
      | none =>
        refine ⟨w.maps.length, _, rfl, by simp, rfl, rfl, ⟨[[]], rfl⟩, ?_, Or.inr rfl⟩
        intro k'
        simp [deref, lookup]
    have hnotjob : ∀ (j' : Nat) (job : Job), w.jobs[j']? = some job → j' ≠ j → job.kvs ≠ some i := by
      intro j' job hj' hne hk
      rcases hfresh with hf | hf
      · exact hne (h.jj j' job j job0 i hj' hj0 hk hf)
      · have := hjl j' job hj' i hk; omega
    have hnots : w.kvs ≠ some i := by
      intro hk
      rcases hfresh with hf | hf
      · exact h.sj j job0 i hj0 hk hf
      · have := h.ok.kvs i hk; omega
    have e : w.step clock (.jobKv j k v) =
        { w1.mapSet i k v with jobs := w1.jobs.set j { job0 with kvs := some i } } := by
      simp [World.step, jobKv, hj0, he]
    have hd : ∀ r, (w.step clock (.jobKv j k v)).deref r = (w1.mapSet i k v).deref r := by rw [e]; intro r; rfl
    obtain ⟨extra, hextra⟩ := hmaps
    have hjj : (w.step clock (.jobKv j k v)).jobs = w.jobs.set j { job0 with kvs := some i } := by rw [e, ← hj1]
    have hkk : (w.step clock (.jobKv j k v)).kvs = w.kvs := by rw [e]; exact hkvs1
    have old : ∀ (j' : Nat) (job : Job), (w.step clock (.jobKv j k v)).jobs[j']? = some job →
        (j' = j ∧ job.kvs = some i) ∨ (j' ≠ j ∧ w.jobs[j']? = some job) := by
      intro j' job hj'
      rw [hjj] at hj'
      by_cases hne : j' = j
      · subst hne
        rw [List.getElem?_set_self hjlt] at hj'
        simp only [Option.some.injEq] at hj'
        exact Or.inl ⟨rfl, by rw [← hj']⟩
      · rw [List.getElem?_set_ne (Ne.symm hne)] at hj'
        exact Or.inr ⟨hne, hj'⟩
    refine ⟨hok, ?_, ?_, ?_, ?_, ?_⟩
    · intro k'; rw [lastWrite_snoc]
      rw [hd, hkk, deref_mapSet, if_neg hnots, deref_old w w1 extra hextra _ h.ok.kvs]
      exact h.stream k'
    · intro j' job hj' k'; rw [lastWrite_snoc]
      rcases old j' job hj' with ⟨rfl, hk⟩ | ⟨hne, hj'⟩
      · rw [hd, hk, deref_mapSet, if_pos rfl, lookup_map_set _ _ _ _ (deref_ne_none w1 i hlt), hlook, h.job _ job0 hj0]
        simp [jobWrites]
      · rw [hd, deref_mapSet, if_neg (hnotjob j' job hj' hne), deref_old w w1 extra hextra _ (hjl j' job hj')]
        simp only [jobWrites, if_neg (Ne.symm hne)]
        exact h.job j' job hj' k'
    · intro j' job i' hj' hi hk
      rw [hkk] at hi
      rcases old j' job hj' with ⟨rfl, hk'⟩ | ⟨hne, hj'⟩
      · rw [hk'] at hk
        simp only [Option.some.injEq] at hk
        subst hk
        exact hnots hi
      · exact h.sj j' job i' hj' hi hk
    · intro j1 job1 j2 job2 i' h1 h2 hk1 hk2
      rcases old j1 job1 h1 with ⟨rfl, hk1'⟩ | ⟨hne1, g1⟩ <;> rcases old j2 job2 h2 with ⟨rfl, hk2'⟩ | ⟨hne2, g2⟩
      · rfl
      · rw [hk1'] at hk1
        simp only [Option.some.injEq] at hk1
        subst hk1
        exact absurd hk2 (hnotjob j2 job2 g2 hne2)
      · rw [hk2'] at hk2
        simp only [Option.some.injEq] at hk2
        subst hk2
        exact absurd hk1 (hnotjob j1 job1 g1 hne1)
      · exact h.jj j1 job1 j2 job2 i' g1 g2 hk1 hk2
    · intro j' hj' k'; rw [lastWrite_snoc]
      rw [hjj, List.length_set] at hj'
      have : j' ≠ j := by omega
      simp only [jobWrites, if_neg (Ne.symm this)]
      exact h.later j' hj' k'

theorem Kvs.run {clock : Nat → Int} {w : World} {pre : List Op} (h : Kvs w pre) (ops : List Op)
    (hc : CleanRun clock w ops) : Kvs (w.run clock ops) (pre ++ ops) := by
  induction ops generalizing w pre with
  | nil => simpa [World.run] using h
  | cons op ops ih =>
    have := ih (h.step op hc.1) hc.2
    simpa [World.run] using this

theorem Kvs.newStream (clock : Nat → Int) : Kvs (World.newStream clock) [] := by
  have hk : ∀ (j : Nat) (job : Job), (World.newStream clock).jobs[j]? = some job → job.kvs = none := by
    intro j job hj
    have := List.mem_of_getElem? hj
    simp only [World.newStream, World.newJob, List.nil_append, List.mem_singleton] at this
    rw [this]
  refine ⟨Ok.newStream clock, fun k => rfl, ?_, ?_, ?_, fun j _ k => rfl⟩
  · intro j job hj k; rw [hk j job hj]; rfl
  · intro j job i hj _; rw [hk j job hj]; simp
  · intro j job j' job' i hj _ h1 _; rw [hk j job hj] at h1; simp at h1

end World
