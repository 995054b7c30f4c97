import Verif.Spec.Stream
import Verif.Lemmas.Merge
/-!
# Lemmas about streams, jobs and errors
-/
open Spec
namespace World

theorem copyInto_get? (into m : GoMap Str Str) (hw : GoMap.Wf m) (k : Str) :
    (copyInto into m).get? k = match m.get? k with | none => into.get? k | some v => some v := by
  unfold copyInto
  rw [get?_foldl_upd (fun _ v => v) _ (fun m p => by obtain ⟨a, b⟩ := p; rfl) m hw into k]
  cases m.get? k <;> rfl

theorem copyInto_wf (into m : GoMap Str Str) (hw : GoMap.Wf into) : GoMap.Wf (copyInto into m) := by
  unfold copyInto
  exact wf_foldl_set _ (fun _ p => p.2) (fun m p => by obtain ⟨a, b⟩ := p; rfl) m into hw

theorem deref_none (w : World) : w.deref none = none := rfl

theorem deref_append (w : World) (r : MapRef) (m : GoMap Str Str) (hr : ∀ i, r = some i → i < w.maps.length) :
    ({ w with maps := w.maps ++ [m] } : World).deref r = w.deref r := by
  cases r with
  | none => rfl
  | some i => simp [deref, List.getElem?_append_left (hr i rfl)]

theorem len_pos_iff (w : World) (r : MapRef) : 0 < w.len r ↔ ¬ NoPairs (w.deref r) := by
  unfold len NoPairs
  cases w.deref r with
  | none => simp
  | some m => cases m <;> simp

theorem lookup_of_noPairs {m : Option (GoMap Str Str)} (h : NoPairs m) (k : Str) : lookup m k = none := by
  rcases h with h | h <;> subst h <;> rfl

/-- what `mergedKeyValues` does: possibly allocates one map; the map returned has the right contents. -/
theorem mergedKeyValues_spec (w : World) (hw : ∀ m ∈ w.maps, GoMap.Wf m) (job : Job) (inst : MapRef) :
    ∃ extra, (w.mergedKeyValues job inst).1 = { w with maps := w.maps ++ extra } ∧ (∀ m ∈ extra, GoMap.Wf m) ∧
      (∀ k, lookup ((w.mergedKeyValues job inst).1.deref (w.mergedKeyValues job inst).2) k =
        precedence (w.deref inst) (w.deref job.kvs) (w.deref w.kvs) k) ∧
      ((w.mergedKeyValues job inst).2 = none ↔
        NoPairs (w.deref inst) ∧ NoPairs (w.deref job.kvs) ∧ NoPairs (w.deref w.kvs)) ∧
      (∀ r, (w.mergedKeyValues job inst).2 = some r →
        (∃ m, (w.mergedKeyValues job inst).1.deref (some r) = some m ∧ m ≠ [])) ∧
      ((¬ NoPairs (w.deref inst) ∧ ¬ NoPairs (w.deref job.kvs) ∨
        ¬ NoPairs (w.deref inst) ∧ ¬ NoPairs (w.deref w.kvs) ∨
        ¬ NoPairs (w.deref job.kvs) ∧ ¬ NoPairs (w.deref w.kvs)) →
          (w.mergedKeyValues job inst).2 = some w.maps.length ∧
          (w.mergedKeyValues job inst).1.maps.length = w.maps.length + 1) := by
  have wfd : ∀ r, GoMap.Wf ((w.deref r).getD []) := by
    intro r
    cases h : w.deref r with
    | none => exact GoMap.Wf.nil
    | some m =>
      refine hw m ?_
      cases r with
      | none => simp [deref] at h
      | some i => simp only [deref, Option.bind_some] at h; exact List.mem_of_getElem? h
  have hgetD : ∀ r k, GoMap.get? ((w.deref r).getD []) k = lookup (w.deref r) k := by
    intro r k; cases w.deref r <;> rfl
  have hne : ∀ r, 0 < w.len r → ∃ i m, r = some i ∧ w.deref (some i) = some m ∧ m ≠ [] := by
    intro r hr
    rw [len_pos_iff] at hr
    cases r with
    | none => exact absurd (Or.inl rfl) hr
    | some i =>
      cases h : w.deref (some i) with
      | none => exact absurd (Or.inl h) hr
      | some m => exact ⟨i, m, rfl, h, fun h0 => hr (Or.inr (by rw [h, h0]))⟩
  -- the merged map
  have big : ∀ k, GoMap.get? (copyInto (copyInto (copyInto [] ((w.deref w.kvs).getD [])) ((w.deref job.kvs).getD []))
      ((w.deref inst).getD [])) k = precedence (w.deref inst) (w.deref job.kvs) (w.deref w.kvs) k := by
    intro k
    rw [copyInto_get? _ _ (wfd inst), copyInto_get? _ _ (wfd job.kvs), copyInto_get? _ _ (wfd w.kvs), hgetD, hgetD, hgetD]
    unfold precedence
    cases lookup (w.deref inst) k <;> cases lookup (w.deref job.kvs) k <;> cases lookup (w.deref w.kvs) k <;> rfl
  have bigwf : GoMap.Wf (copyInto (copyInto (copyInto [] ((w.deref w.kvs).getD [])) ((w.deref job.kvs).getD []))
      ((w.deref inst).getD [])) := copyInto_wf _ _ (copyInto_wf _ _ (copyInto_wf _ _ GoMap.Wf.nil))
  have bigne : ∀ k v, precedence (w.deref inst) (w.deref job.kvs) (w.deref w.kvs) k = some v →
      copyInto (copyInto (copyInto [] ((w.deref w.kvs).getD [])) ((w.deref job.kvs).getD [])) ((w.deref inst).getD []) ≠ [] := by
    intro k v h h0
    rw [← big k, h0] at h
    simp at h
  have key : ∀ r, ¬ NoPairs (w.deref r) → ∃ k v, lookup (w.deref r) k = some v := by
    intro r hr
    cases h : w.deref r with
    | none => exact absurd (Or.inl h) hr
    | some m =>
      cases m with
      | nil => exact absurd (Or.inr h) hr
      | cons p t => exact ⟨p.1, p.2, by simp [lookup, GoMap.get?]⟩
  have someKey : (¬ NoPairs (w.deref inst) ∨ ¬ NoPairs (w.deref job.kvs) ∨ ¬ NoPairs (w.deref w.kvs)) →
      ∃ k v, precedence (w.deref inst) (w.deref job.kvs) (w.deref w.kvs) k = some v := by
    intro h
    have : ∃ k, lookup (w.deref inst) k ≠ none ∨ lookup (w.deref job.kvs) k ≠ none ∨ lookup (w.deref w.kvs) k ≠ none := by
      rcases h with h | h | h <;> obtain ⟨k, v, hk⟩ := key _ h <;> exact ⟨k, by simp [hk]⟩
    obtain ⟨k, hk⟩ := this
    refine ⟨k, ?_⟩
    unfold precedence
    cases h1 : lookup (w.deref inst) k <;> cases h2 : lookup (w.deref job.kvs) k <;> cases h3 : lookup (w.deref w.kvs) k <;>
      simp_all
  have hj := len_pos_iff w job.kvs
  have hs := len_pos_iff w w.kvs
  have hi := len_pos_iff w inst
  -- the allocated case
  have alloc : (¬ NoPairs (w.deref inst) ∨ ¬ NoPairs (w.deref job.kvs) ∨ ¬ NoPairs (w.deref w.kvs)) →
      ∀ res, res = (({ w with maps := w.maps ++ [copyInto (copyInto (copyInto [] ((w.deref w.kvs).getD []))
        ((w.deref job.kvs).getD [])) ((w.deref inst).getD [])] } : World), (some w.maps.length : MapRef)) →
      ∃ extra, res.1 = { w with maps := w.maps ++ extra } ∧ (∀ m ∈ extra, GoMap.Wf m) ∧
      (∀ k, lookup (res.1.deref res.2) k = precedence (w.deref inst) (w.deref job.kvs) (w.deref w.kvs) k) ∧
      (res.2 = none ↔ NoPairs (w.deref inst) ∧ NoPairs (w.deref job.kvs) ∧ NoPairs (w.deref w.kvs)) ∧
      (∀ r, res.2 = some r → ∃ m, res.1.deref (some r) = some m ∧ m ≠ []) ∧
      ((¬ NoPairs (w.deref inst) ∧ ¬ NoPairs (w.deref job.kvs) ∨
        ¬ NoPairs (w.deref inst) ∧ ¬ NoPairs (w.deref w.kvs) ∨
        ¬ NoPairs (w.deref job.kvs) ∧ ¬ NoPairs (w.deref w.kvs)) →
          res.2 = some w.maps.length ∧ res.1.maps.length = w.maps.length + 1) := by
    intro h res hres
    subst hres
    obtain ⟨k0, v0, hk0⟩ := someKey h
    have hd : ({ w with maps := w.maps ++ [copyInto (copyInto (copyInto [] ((w.deref w.kvs).getD []))
        ((w.deref job.kvs).getD [])) ((w.deref inst).getD [])] } : World).deref (some w.maps.length) =
        some (copyInto (copyInto (copyInto [] ((w.deref w.kvs).getD [])) ((w.deref job.kvs).getD [])) ((w.deref inst).getD [])) := by
      simp [deref]
    refine ⟨[_], rfl, ?_, ?_, ?_, ?_, ?_⟩
    · intro m hm; simp only [List.mem_singleton] at hm; rw [hm]; exact bigwf
    · intro k; rw [hd]; exact big k
    · constructor
      · intro h0; cases h0
      · rintro ⟨h1, h2, h3⟩
        rcases h with h | h | h
        · exact absurd h1 h
        · exact absurd h2 h
        · exact absurd h3 h
    · intro r hr
      simp only [Option.some.injEq] at hr
      subst hr
      exact ⟨_, hd, bigne k0 v0 hk0⟩
    · intro _; simp
  -- the single map case
  have single : ∀ r, 0 < w.len r → (∀ k, lookup (w.deref r) k = precedence (w.deref inst) (w.deref job.kvs) (w.deref w.kvs) k) →
      ¬ (NoPairs (w.deref inst) ∧ NoPairs (w.deref job.kvs) ∧ NoPairs (w.deref w.kvs)) →
      ¬ (¬ NoPairs (w.deref inst) ∧ ¬ NoPairs (w.deref job.kvs) ∨
        ¬ NoPairs (w.deref inst) ∧ ¬ NoPairs (w.deref w.kvs) ∨
        ¬ NoPairs (w.deref job.kvs) ∧ ¬ NoPairs (w.deref w.kvs)) →
      ∀ res, res = (w, r) →
      ∃ extra, res.1 = { w with maps := w.maps ++ extra } ∧ (∀ m ∈ extra, GoMap.Wf m) ∧
      (∀ k, lookup (res.1.deref res.2) k = precedence (w.deref inst) (w.deref job.kvs) (w.deref w.kvs) k) ∧
      (res.2 = none ↔ NoPairs (w.deref inst) ∧ NoPairs (w.deref job.kvs) ∧ NoPairs (w.deref w.kvs)) ∧
      (∀ r, res.2 = some r → ∃ m, res.1.deref (some r) = some m ∧ m ≠ []) ∧
      ((¬ NoPairs (w.deref inst) ∧ ¬ NoPairs (w.deref job.kvs) ∨
        ¬ NoPairs (w.deref inst) ∧ ¬ NoPairs (w.deref w.kvs) ∨
        ¬ NoPairs (w.deref job.kvs) ∧ ¬ NoPairs (w.deref w.kvs)) →
          res.2 = some w.maps.length ∧ res.1.maps.length = w.maps.length + 1) := by
    intro r hr hk hn ht res hres
    subst hres
    obtain ⟨i, m, rfl, hm, hm0⟩ := hne r hr
    refine ⟨[], by simp, by simp, hk, ?_, ?_, fun h => absurd h ht⟩
    · constructor
      · intro h; cases h
      · intro h; exact absurd h hn
    · intro r hr
      simp only [Option.some.injEq] at hr
      subst hr
      exact ⟨m, hm, hm0⟩
  by_cases h1 : 0 < w.len job.kvs <;> by_cases h2 : 0 < w.len w.kvs <;> by_cases h3 : 0 < w.len inst
  · refine alloc ?_ _ (by simp [mergedKeyValues, h1, h2, h3, newMap])
    simp only [hj, hs, hi] at h1 h2 h3
    tauto
  · refine alloc ?_ _ (by simp [mergedKeyValues, h1, h2, h3, newMap])
    simp only [hj, hs, hi] at h1 h2 h3
    tauto
  · refine alloc ?_ _ (by simp [mergedKeyValues, h1, h2, h3, newMap])
    simp only [hj, hs, hi] at h1 h2 h3
    tauto
  · refine single job.kvs h1 ?_ ?_ ?_ _ (by simp [mergedKeyValues, h1, h2, h3])
    · rw [hs, not_not] at h2
      rw [hi, not_not] at h3
      intro k; simp only [precedence, lookup_of_noPairs h2, lookup_of_noPairs h3]
      cases lookup (w.deref job.kvs) k <;> rfl
    · intro h; exact (hj.1 h1) h.2.1
    · rw [hs, not_not] at h2
      rw [hi, not_not] at h3
      simp [h2, h3]
  · refine alloc ?_ _ (by simp [mergedKeyValues, h1, h2, h3, newMap])
    simp only [hj, hs, hi] at h1 h2 h3
    tauto
  · refine single w.kvs h2 ?_ ?_ ?_ _ (by simp [mergedKeyValues, h1, h2, h3])
    · rw [hj, not_not] at h1
      rw [hi, not_not] at h3
      intro k; simp only [precedence, lookup_of_noPairs h1, lookup_of_noPairs h3]
    · intro h; exact (hs.1 h2) h.2.2
    · rw [hj, not_not] at h1
      rw [hi, not_not] at h3
      simp [h1, h3]
  · refine single inst h3 ?_ ?_ ?_ _ (by simp [mergedKeyValues, h1, h2, h3])
    · rw [hj, not_not] at h1
      rw [hs, not_not] at h2
      intro k; simp only [precedence, lookup_of_noPairs h1, lookup_of_noPairs h2]
      cases lookup (w.deref inst) k <;> rfl
    · intro h; exact (hi.1 h3) h.1
    · rw [hj, not_not] at h1
      rw [hs, not_not] at h2
      simp [h1, h2]
  · have e : w.mergedKeyValues job inst = (w, none) := by
      simp [mergedKeyValues, h1, h2, h3]
    rw [hj, not_not] at h1
    rw [hs, not_not] at h2
    rw [hi, not_not] at h3
    refine ⟨[], by simp [e], by simp, ?_, ?_, ?_, ?_⟩
    · intro k; simp only [e, deref_none, precedence, lookup_of_noPairs h1, lookup_of_noPairs h2, lookup_of_noPairs h3]; rfl
    · simp [e, h1, h2, h3]
    · simp [e]
    · simp [h1, h2, h3]

theorem foldl_callSink (l : List Nat) (w : World) (n : Str) (p : Payload) (kvs : MapRef) :
    l.foldl (fun w s => w.callSink s n p kvs) w =
      { w with calls := w.calls ++ l.map (fun s => ⟨s, n, p, kvs, w.deref kvs, w.isEmitted p⟩) } := by
  induction l generalizing w with
  | nil => simp
  | cons s l ih =>
    rw [List.foldl_cons, ih]
    have h : ∀ q, (w.callSink s n p kvs).isEmitted q = w.isEmitted q := by intro q; cases q <;> rfl
    rw [h]
    simp [callSink, deref]

theorem foldl_complete (clock : Nat → Int) (l : List Nat) (w : World) (n : Str) (start : Int) (st : Status) (kvs : MapRef) :
    l.foldl (fun w s =>
      let d := timeSub (clock w.reads) start
      ({ w with reads := w.reads + 1 } : World).callSink s n (.complete st d) kvs) w =
      { w with reads := w.reads + l.length,
               calls := w.calls ++ l.mapIdx (fun i s => ⟨s, n, .complete st (timeSub (clock (w.reads + i)) start), kvs,
                 w.deref kvs, false⟩) } := by
  induction l generalizing w with
  | nil => simp
  | cons s l ih =>
    rw [List.foldl_cons, ih]
    simp [callSink, deref, isEmitted, List.mapIdx_cons, Nat.add_comm, Nat.add_left_comm]

theorem elapsed_eq (start t : Int) : timeSub t start = elapsed start t := by
  unfold timeSub elapsed; split <;> [skip; split] <;> omega

/-- everything about one emission. -/
structure EmitSpec (clock : Nat → Int) (w : World) (job : Job) (c : World.Call) (inst : MapRef) (w' : World) (ret : GoErr)
    (new : List SinkCall) (extra : List (GoMap Str Str)) (kvs : MapRef) (emitted : Bool) : Prop where
  maps : w'.maps = w.maps ++ extra
  wf : ∀ m ∈ extra, GoMap.Wf m
  sinks : w'.sinks = w.sinks
  wkvs : w'.kvs = w.kvs
  jobs : w'.jobs = w.jobs
  calls : w'.calls = w.calls ++ new
  newSinks : new.map (·.sink) = w.sinks
  newCalls : ∀ c' ∈ new, c'.job = job.name ∧ PayloadFor clock job.start ret c c'.payload ∧ c'.kvs = kvs ∧
    c'.seen = w'.deref kvs ∧ c'.seenEmitted = emitted
  prec : ∀ k, lookup (w'.deref kvs) k = precedence (w.deref inst) (w.deref job.kvs) (w.deref w.kvs) k
  noKvs : kvs = none ↔ NoPairs (w.deref inst) ∧ NoPairs (w.deref job.kvs) ∧ NoPairs (w.deref w.kvs)
  someKvs : ∀ r, kvs = some r → ∃ m, w'.deref (some r) = some m ∧ m ≠ []
  fresh : (¬ NoPairs (w.deref inst) ∧ ¬ NoPairs (w.deref job.kvs) ∨
        ¬ NoPairs (w.deref inst) ∧ ¬ NoPairs (w.deref w.kvs) ∨
        ¬ NoPairs (w.deref job.kvs) ∧ ¬ NoPairs (w.deref w.kvs)) →
          kvs = some w.maps.length ∧ w'.maps.length = w.maps.length + 1

theorem emit_spec (clock : Nat → Int) (w : World) (hw : ∀ m ∈ w.maps, GoMap.Wf m) (j : Nat) (job : Job)
    (hj : w.jobs[j]? = some job) (c : World.Call) (inst : MapRef) :
    ∃ new extra kvs emitted, EmitSpec clock w job c inst (w.emit clock j c inst).1 (w.emit clock j c inst).2 new extra kvs
      emitted ∧ (∀ ev e t, c = .eventErr ev e t → emitted = w.isEmitted (.eventErr ev (w.emit clock j c inst).2)) := by
  cases c with
  | event ev =>
    obtain ⟨extra, h1, h2, h3, h4, h5, h6⟩ := mergedKeyValues_spec w hw job inst
    generalize hm : w.mergedKeyValues job inst = r at *
    obtain ⟨w1, kvs⟩ := r
    simp only at h1 h3 h4 h5 h6
    have e : w.emit clock j (.event ev) inst = (w1.sinks.foldl (fun w s => w.callSink s job.name (.event ev) kvs) w1, .nil) := by
      simp [emit, hj, hm]
    rw [e, foldl_callSink]
    subst h1
    refine ⟨_, extra, kvs, false, ⟨rfl, h2, rfl, rfl, rfl, rfl, ?_, ?_, h3, h4, h5, h6⟩, by simp⟩
    · simp [Function.comp_def]
    · intro c' hc
      obtain ⟨s, _, rfl⟩ := List.mem_map.1 hc
      exact ⟨rfl, rfl, rfl, rfl, rfl⟩
  | timing ev n =>
    obtain ⟨extra, h1, h2, h3, h4, h5, h6⟩ := mergedKeyValues_spec w hw job inst
    generalize hm : w.mergedKeyValues job inst = r at *
    obtain ⟨w1, kvs⟩ := r
    simp only at h1 h3 h4 h5 h6
    have e : w.emit clock j (.timing ev n) inst =
        (w1.sinks.foldl (fun w s => w.callSink s job.name (.timing ev n) kvs) w1, .nil) := by
      simp [emit, hj, hm]
    rw [e, foldl_callSink]
    subst h1
    refine ⟨_, extra, kvs, false, ⟨rfl, h2, rfl, rfl, rfl, rfl, ?_, ?_, h3, h4, h5, h6⟩, by simp⟩
    · simp [Function.comp_def]
    · intro c' hc
      obtain ⟨s, _, rfl⟩ := List.mem_map.1 hc
      exact ⟨rfl, rfl, rfl, rfl, rfl⟩
  | gauge ev n =>
    obtain ⟨extra, h1, h2, h3, h4, h5, h6⟩ := mergedKeyValues_spec w hw job inst
    generalize hm : w.mergedKeyValues job inst = r at *
    obtain ⟨w1, kvs⟩ := r
    simp only at h1 h3 h4 h5 h6
    have e : w.emit clock j (.gauge ev n) inst =
        (w1.sinks.foldl (fun w s => w.callSink s job.name (.gauge ev n) kvs) w1, .nil) := by
      simp [emit, hj, hm]
    rw [e, foldl_callSink]
    subst h1
    refine ⟨_, extra, kvs, false, ⟨rfl, h2, rfl, rfl, rfl, rfl, ?_, ?_, h3, h4, h5, h6⟩, by simp⟩
    · simp [Function.comp_def]
    · intro c' hc
      obtain ⟨s, _, rfl⟩ := List.mem_map.1 hc
      exact ⟨rfl, rfl, rfl, rfl, rfl⟩
  | complete st =>
    obtain ⟨extra, h1, h2, h3, h4, h5, h6⟩ := mergedKeyValues_spec w hw job inst
    generalize hm : w.mergedKeyValues job inst = r at *
    obtain ⟨w1, kvs⟩ := r
    simp only at h1 h3 h4 h5 h6
    have e : w.emit clock j (.complete st) inst = (w1.sinks.foldl (fun w s =>
        let n := timeSub (clock w.reads) job.start
        ({ w with reads := w.reads + 1 } : World).callSink s job.name (.complete st n) kvs) w1, .nil) := by
      simp [emit, hj, hm]
    rw [e, foldl_complete]
    subst h1
    refine ⟨_, extra, kvs, false, ⟨rfl, h2, rfl, rfl, rfl, rfl, ?_, ?_, h3, h4, h5, h6⟩, by simp⟩
    · apply List.ext_getElem <;> simp
    · intro c' hc
      obtain ⟨i, hi, rfl⟩ := List.mem_mapIdx.1 hc
      exact ⟨rfl, ⟨_, congrArg _ (elapsed_eq _ _)⟩, rfl, rfl, rfl⟩
  | eventErr ev e0 t =>
    generalize hx : w.wrapErr e0 t = r0
    obtain ⟨w0, e1⟩ := r0
    have hn : ∃ n, w0 = { w with nextErr := n } := by
      cases e0 <;> simp only [wrapErr, Prod.mk.injEq] at hx <;> obtain ⟨rfl, _⟩ := hx <;> exact ⟨_, rfl⟩
    obtain ⟨n, rfl⟩ := hn
    obtain ⟨extra, h1, h2, h3, h4, h5, h6⟩ := mergedKeyValues_spec { w with nextErr := n } hw job inst
    generalize hm : ({ w with nextErr := n } : World).mergedKeyValues job inst = r at *
    obtain ⟨w1, kvs⟩ := r
    simp only at h1 h3 h4 h5 h6
    have e : w.emit clock j (.eventErr ev e0 t) inst =
        ((w1.sinks.foldl (fun w s => w.callSink s job.name (.eventErr ev e1) kvs) w1).markEmitted e1, e1) := by
      simp [emit, hj, hx, hm]
    rw [e, foldl_callSink]
    subst h1
    have hme : ∀ (v : World), ∃ l, v.markEmitted e1 = { v with emitted := l } := by
      intro v; cases e1 <;> exact ⟨_, rfl⟩
    obtain ⟨l, hl⟩ := hme ({ w with maps := w.maps ++ extra, nextErr := n, calls := w.calls ++ w.sinks.map (fun s =>
      ⟨s, job.name, .eventErr ev e1, kvs, ({ w with maps := w.maps ++ extra, nextErr := n } : World).deref kvs,
        ({ w with maps := w.maps ++ extra, nextErr := n } : World).isEmitted (.eventErr ev e1)⟩) })
    have hl' := hl
    simp only at hl' ⊢
    rw [hl']
    refine ⟨_, extra, kvs, w.isEmitted (.eventErr ev e1), ⟨rfl, h2, rfl, rfl, rfl, rfl, ?_, ?_, h3, h4, h5, h6⟩, ?_⟩
    · simp [Function.comp_def]
    · intro c' hc
      obtain ⟨s, _, rfl⟩ := List.mem_map.1 hc
      refine ⟨rfl, rfl, rfl, rfl, ?_⟩
      cases e1 <;> rfl
    · intro ev' e' t' h
      simp only [Call.eventErr.injEq] at h
      rw [h.1]

end World
