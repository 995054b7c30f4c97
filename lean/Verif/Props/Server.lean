import Verif.Spec.Server
import Verif.Props.PollingSink
import Verif.Props.Metrics
import Verif.Spec.EndToEnd
/-!
# The server of a running process: C98
-/
open Spec Unmarshal

namespace SrvSys

theorem asked_append (c : Nat) (a b : List SrvLab) : asked c (a ++ b) = (asked c b).or (asked c a) := by
  induction a with
  | nil => simp [asked]
  | cons l a ih => simp only [List.cons_append, asked, ih, Option.or_assoc]

theorem processed_append (a b : List SrvLab) : processed (a ++ b) = processed a + processed b := by simp [processed]
theorem workerClock_append (a b : List SrvLab) : workerClock (a ++ b) = workerClock a ++ workerClock b := by simp [workerClock]
theorem srvEmissions_append (a b : List SrvLab) : srvEmissions (a ++ b) = srvEmissions a ++ srvEmissions b := by simp [srvEmissions]

/-- `snap` was taken, at a time when the sink had processed at least what it had when request `c` arrived. -/
def Taken (d r : Int) (tr : List SrvLab) (h : List (Time × AggOp)) (c : Nat) (snap : List IntAgg) : Prop :=
  ∃ h1 now h2, h = h1 ++ (now, .read) :: h2 ∧ getMetrics d r h1 now = some snap ∧ (emissionsIn h1).length ≤ processed tr ∧
    ∀ u1 p u2, tr = u1 ++ .arrive c p :: u2 → processed u1 ≤ (emissionsIn h1).length

theorem Taken.more {d r : Int} {tr : List SrvLab} {h : List (Time × AggOp)} {c : Nat} {snap : List IntAgg} (ht : Taken d r tr h c snap) (l : SrvLab)
    (hl : ∀ p, l ≠ .arrive c p) (h' : List (Time × AggOp)) : Taken d r (tr ++ [l]) (h ++ h') c snap := by
  obtain ⟨h1, now, h2, rfl, e1, e2, e3⟩ := ht
  refine ⟨h1, now, h2 ++ h', by simp, e1, by rw [processed_append]; omega, ?_⟩
  intro u1 p u2 e
  rcases List.eq_nil_or_concat u2 with rfl | ⟨u3, x, rfl⟩
  · have := List.append_inj_right' e rfl
    simp only [List.cons.injEq, and_true] at this
    exact absurd this (hl p)
  · rw [List.concat_eq_append, ← List.cons_append, ← List.append_assoc] at e
    exact e3 u1 p u3 (List.append_inj_left' e rfl)

/-- the invariant. -/
structure Inv (C : SrvConf) (r : Int) (a0 : Aggregator) (tr : List SrvLab) (y : SrvSys) (h : List (Time × AggOp)) : Prop where
  agg : a0.run h = some y.sink.agg
  fifo : emissionsIn h ++ y.sink.q = srvEmissions tr
  count : (emissionsIn h).length = processed tr
  times : h.map (·.1) = workerClock tr
  calls : ∀ c, (c, bs "/health") ∈ y.waiting → 2 * c ∈ y.sink.readers ∨ ∃ s, y.sink.worker = .replying (2 * c) s
  /-- requests in progress -/
  asks : ∀ c p, (c, p) ∈ y.waiting → asked c tr = some p
  ready : ∀ c s, (c, s) ∈ y.ready → asked c tr = some (bs "/health") ∧ Taken C.d r tr h c s
  reading : ∀ c, 2 * c ∈ y.sink.readers → (c, bs "/health") ∈ y.waiting
  replying : ∀ c s, y.sink.worker = .replying (2 * c) s → (c, bs "/health") ∈ y.waiting ∧ Taken C.d r tr h c s
  once : ∀ c, y.sink.readers.count (2 * c) ≤ 1 ∧ (2 * c ∈ y.sink.readers → ∀ s, y.sink.worker ≠ .replying (2 * c) s)
  answered : ∀ u c resp v, tr = u ++ .respond c resp :: v → AnswersRequest C r u h c resp

theorem AnswersRequest.more {C : SrvConf} {r : Int} {u : List SrvLab} {h : List (Time × AggOp)} {c : Nat} {resp : HttpResp}
    (hA : AnswersRequest C r u h c resp) (h' : List (Time × AggOp)) : AnswersRequest C r u (h ++ h') c resp := by
  obtain ⟨path, a1, a2, a3⟩ := hA
  refine ⟨path, a1, a2, fun e => ?_⟩
  obtain ⟨h1, now, h2, ms, rfl, b⟩ := a3 e
  exact ⟨h1, now, h2 ++ h', ms, by simp, b⟩

theorem answered_more {C : SrvConf} {r : Int} {tr : List SrvLab} {h : List (Time × AggOp)}
    (hA : ∀ u c resp v, tr = u ++ .respond c resp :: v → AnswersRequest C r u h c resp) (l : SrvLab) (h' : List (Time × AggOp))
    (hl : ∀ c resp, l = .respond c resp → AnswersRequest C r tr (h ++ h') c resp) :
    ∀ u c resp v, tr ++ [l] = u ++ .respond c resp :: v → AnswersRequest C r u (h ++ h') c resp := by
  intro u c resp v e
  rcases List.eq_nil_or_concat v with rfl | ⟨v', x, rfl⟩
  · have h1 := List.append_inj_right' e rfl
    have h2 := List.append_inj_left' e rfl
    simp only [List.cons.injEq, and_true] at h1
    subst h2
    exact hl c resp h1
  · rw [List.concat_eq_append, ← List.cons_append, ← List.append_assoc] at e
    exact AnswersRequest.more (hA u c resp v' (List.append_inj_left' e rfl)) h'

/-- what a step of the sink does to its history. -/
theorem sink_step {a0 : Aggregator} {s s' : PsSys} {h : List (Time × AggOp)} {l : PsLab} (ha : a0.run h = some s.agg) (hs : s.step l = some s') :
    ∃ h', a0.run (h ++ h') = some s'.agg ∧
      emissionsIn (h ++ h') ++ s'.q = emissionsIn h ++ s.q ++ (match l with | .emit e => [e] | _ => []) ∧
      (emissionsIn (h ++ h')).length = (emissionsIn h).length + (match l with | .recv _ => 1 | _ => 0) ∧
      h'.map (·.1) = (match l with | .recv t => [t] | .tick t => [t] | .request _ t => [t] | _ => []) ∧
      (∀ i, i ∈ s.readers ∨ (∃ snap, s.worker = .replying i snap ∧ l ≠ .got i snap) → i ∈ s'.readers ∨ ∃ snap, s'.worker = .replying i snap) ∧
      (∀ i, i ∈ s'.readers → i ∈ s.readers ∨ l = .read i) ∧ (∀ i, l ≠ .read i → s'.readers.count i ≤ s.readers.count i) ∧
      (∀ i snap, s'.worker = .replying i snap → s.worker = .replying i snap ∨
        (∃ now, h' = [(now, .read)] ∧ i ∈ s.readers ∧ s'.readers = s.readers.erase i ∧ (a0.run h).bind (fun a => (a.memorySafeIntervals now).map (·.2)) = some snap)) := by
  cases l with
  | emit e =>
    simp only [PsSys.step, Option.some.injEq] at hs; subst hs
    exact ⟨[], by simpa using ha, by simp, by simp, rfl, fun i hi => hi.imp id (fun ⟨s, hs, _⟩ => ⟨s, hs⟩), fun i hi => .inl hi, fun i _ => le_rfl, fun i snap h => .inl h⟩
  | read i =>
    simp only [PsSys.step, Option.some.injEq] at hs; subst hs
    refine ⟨[], by simpa using ha, by simp, by simp, rfl, fun i hi => hi.imp (fun hi => List.mem_append.2 (.inl hi)) (fun ⟨s, hs, _⟩ => ⟨s, hs⟩), fun j hj => ?_, fun j hj => ?_, fun i snap h => .inl h⟩
    · simp only [List.mem_append, List.mem_singleton] at hj
      rcases hj with hj | rfl
      · exact .inl hj
      · exact .inr rfl
    · have : i ≠ j := by rintro rfl; exact hj rfl
      simp [List.count_append, List.count_singleton, this]
  | shutdown i =>
    simp only [PsSys.step, Option.some.injEq] at hs; subst hs
    exact ⟨[], by simpa using ha, by simp, by simp, rfl, fun i hi => hi.imp id (fun ⟨s, hs, _⟩ => ⟨s, hs⟩), fun i hi => .inl hi, fun i _ => le_rfl, fun i snap h => .inl h⟩
  | recv t =>
    simp only [PsSys.step] at hs
    split at hs
    · next e q hw hq =>
      obtain ⟨b, hb, rfl⟩ := Option.map_eq_some_iff.1 hs
      refine ⟨[(t, .emit e)], ?_, ?_, ?_, rfl, fun i hi => hi.imp id (fun ⟨s, hs, _⟩ => ⟨s, hs⟩), fun i hi => .inl hi, fun i _ => le_rfl, fun i snap h => .inl h⟩
      · rw [Aggregator.run_append, ha]; simp [Aggregator.run, Aggregator.step, hb]
      · simp [emissionsIn, emitsOf, hq]
      · simp [emissionsIn, emitsOf]
    · cases hs
  | tick t =>
    simp only [PsSys.step] at hs
    split at hs
    · next hw =>
      obtain ⟨b, hb, rfl⟩ := Option.map_eq_some_iff.1 hs
      refine ⟨[(t, .tick)], ?_, by simp [emissionsIn, emitsOf], by simp [emissionsIn, emitsOf], rfl,
        fun i hi => hi.imp id (fun ⟨s, hs, _⟩ => ⟨s, hs⟩), fun i hi => .inl hi, fun i _ => le_rfl, fun i snap h => .inl h⟩
      rw [Aggregator.run_append, ha]; simp [Aggregator.run, Aggregator.step, hb]
    · cases hs
  | request i t =>
    simp only [PsSys.step] at hs
    split at hs
    · next hw =>
      split at hs
      · next hi =>
        obtain ⟨b, hb, rfl⟩ := Option.map_eq_some_iff.1 hs
        refine ⟨[(t, .read)], ?_, by simp [emissionsIn, emitsOf], by simp [emissionsIn, emitsOf], rfl, ?_, fun j hj => .inl (List.mem_of_mem_erase hj),
          fun j _ => List.Sublist.count_le _ List.erase_sublist, ?_⟩
        · rw [Aggregator.run_append, ha]; simp [Aggregator.run, Aggregator.step, hb]
        · intro j hj
          by_cases e : j = i
          · subst e; exact .inr ⟨_, rfl⟩
          · rcases hj with hj | ⟨snap, hj, _⟩
            · exact .inl ((List.mem_erase_of_ne e).2 hj)
            · simp [hw] at hj
        · intro j snap hr
          simp only [PsWorker.replying.injEq] at hr
          obtain ⟨rfl, rfl⟩ := hr
          exact .inr ⟨t, rfl, hi, rfl, by rw [ha]; simp [hb]⟩
      · cases hs
    · cases hs
  | got i snap =>
    simp only [PsSys.step] at hs
    split at hs
    · next hw =>
      simp only [Option.some.injEq] at hs; subst hs
      refine ⟨[], by simpa using ha, by simp, by simp, rfl, fun j hj => .inl ?_, fun i hi => .inl hi, fun i _ => le_rfl, by simp⟩
      rcases hj with hj | ⟨snap', hj, hl⟩
      · exact hj
      · rw [hw] at hj; cases hj; exact absurd rfl hl
    · cases hs
  | done i =>
    simp only [PsSys.step] at hs
    split at hs
    · next hw =>
      simp only [Option.some.injEq] at hs; subst hs
      exact ⟨[], by simpa using ha, by simp, by simp, rfl, fun j hj => .inl (hj.resolve_right (by rintro ⟨_, h, _⟩; simp [hw.1] at h)), fun i hi => .inl hi, fun i _ => le_rfl, by simp⟩
    · cases hs
  | stopped i =>
    simp only [PsSys.step] at hs
    split at hs
    · next hw =>
      simp only [Option.some.injEq] at hs; subst hs
      exact ⟨[], by simpa using ha, by simp, by simp, rfl, fun j hj => .inl (hj.resolve_right (by rintro ⟨_, h, _⟩; simp [hw.1] at h)), fun i hi => .inl hi, fun i _ => le_rfl, by simp⟩
    · cases hs

theorem asked_same {c : Nat} {tr : List SrvLab} {l : SrvLab} (hl : ∀ p, l ≠ .arrive c p) : asked c (tr ++ [l]) = asked c tr := by
  rw [asked_append]
  cases l with
  | arrive c' p =>
    simp only [asked, Option.none_or]
    rw [if_neg (fun e => hl p (by rw [e]))]; rfl
  | _ => simp [asked]

theorem Inv.step {C : SrvConf} {r : Int} {a0 : Aggregator} (h0 : newAggregator C.d r = some a0) {tr : List SrvLab} {y y' : SrvSys} {h : List (Time × AggOp)} {l : SrvLab}
    (hi : Inv C r a0 tr y h) (hs : y.step C l = some y') : ∃ h', Inv C r a0 (tr ++ [l]) y' (h ++ h') := by
  cases l with
  | sink l =>
    simp only [SrvSys.step] at hs
    split at hs
    · next ho =>
      obtain ⟨s, hs', rfl⟩ := Option.map_eq_some_iff.1 hs
      obtain ⟨h', b1, b2, b3, bt, bc, b4, b6, b5⟩ := sink_step hi.agg hs'
      have hna : ∀ c p, (SrvLab.sink l) ≠ .arrive c p := by simp
      refine ⟨h', b1, ?_, ?_, ?_, ?_, ?_, ?_, ?_, ?_, ?_, answered_more hi.answered _ _ (by simp)⟩
      · rw [srvEmissions_append, ← hi.fifo, b2]; cases l <;> simp [srvEmissions]
      · rw [processed_append, ← hi.count, b3]; cases l <;> simp [processed]
      · rw [workerClock_append, ← hi.times, List.map_append, bt]; cases l <;> simp [workerClock]
      · intro c hc
        refine bc _ ((hi.calls c hc).imp id (fun ⟨s, hs⟩ => ⟨s, hs, ?_⟩))
        rintro rfl
        simp [PsLab.ofOthers] at ho
      · intro c p hc; rw [asked_same (hna c)]; exact hi.asks c p hc
      · intro c s hc; rw [asked_same (hna c)]; exact ⟨(hi.ready c s hc).1, (hi.ready c s hc).2.more _ (hna c) _⟩
      · intro c hc
        rcases b4 _ hc with hc | rfl
        · exact hi.reading c hc
        · simp [PsLab.ofOthers] at ho
      · intro c snap hw
        rcases b5 _ _ hw with hw | ⟨now, rfl, hr, _, hm⟩
        · exact ⟨(hi.replying c snap hw).1, (hi.replying c snap hw).2.more _ (hna c) _⟩
        · refine ⟨hi.reading c hr, h, now, [], rfl, by simp [getMetrics, h0, hm], by rw [hi.count, processed_append]; omega, ?_⟩
          intro u1 p u2 e
          rw [hi.count]
          rcases List.eq_nil_or_concat u2 with rfl | ⟨u3, x, rfl⟩
          · have := List.append_inj_right' e rfl
            simp at this
          · rw [List.concat_eq_append, ← List.cons_append, ← List.append_assoc] at e
            rw [List.append_inj_left' e rfl, processed_append]; omega
      · intro c
        have hnr : l ≠ .read (2 * c) := by rintro rfl; simp [PsLab.ofOthers] at ho
        refine ⟨(b6 _ hnr).trans (hi.once c).1, fun hm snap hw => ?_⟩
        have hm' : 2 * c ∈ y.sink.readers := (b4 _ hm).resolve_right hnr
        rcases b5 _ _ hw with hw | ⟨now, _, _, he, _⟩
        · exact (hi.once c).2 hm' _ hw
        · simp only at hm
          rw [he] at hm
          have h1 := List.count_pos_iff.2 hm
          rw [List.count_erase_self] at h1
          have := (hi.once c).1
          omega
    · cases hs
  | arrive c path =>
    simp only [SrvSys.step] at hs
    split at hs
    · cases hs
    · next hnew =>
      rw [not_or] at hnew
      have hne : ∀ {c' p}, (c', p) ∈ y.waiting → ∀ p', (SrvLab.arrive c path) ≠ .arrive c' p' := by
        intro c' p hm p' e; cases e; exact hnew.1 (List.mem_map.2 ⟨_, hm, rfl⟩)
      have hne' : ∀ {c' s}, (c', s) ∈ y.ready → ∀ p', (SrvLab.arrive c path) ≠ .arrive c' p' := by
        intro c' s hm p' e; cases e; exact hnew.2 (List.mem_map.2 ⟨_, hm, rfl⟩)
      have hasks : ∀ c' p, (c', p) ∈ y.waiting ++ [(c, path)] → asked c' (tr ++ [.arrive c path]) = some p := by
        intro c' p hm
        rcases List.mem_append.1 hm with hm | hm
        · rw [asked_same (hne hm)]; exact hi.asks _ _ hm
        · simp only [List.mem_singleton, Prod.mk.injEq] at hm
          obtain ⟨rfl, rfl⟩ := hm
          rw [asked_append]; simp [asked]
      have hready : ∀ c' s, (c', s) ∈ y.ready → asked c' (tr ++ [.arrive c path]) = some (bs "/health") ∧ Taken C.d r (tr ++ [.arrive c path]) (h ++ []) c' s := by
        intro c' s hm; rw [asked_same (hne' hm)]; exact ⟨(hi.ready _ _ hm).1, (hi.ready _ _ hm).2.more _ (hne' hm) _⟩
      have hrep : ∀ c' s, y.sink.worker = .replying (2 * c') s → (c', bs "/health") ∈ y.waiting ++ [(c, path)] ∧ Taken C.d r (tr ++ [.arrive c path]) (h ++ []) c' s := by
        intro c' s hw
        have := hi.replying _ _ hw
        exact ⟨List.mem_append.2 (.inl this.1), this.2.more _ (hne this.1) _⟩
      split at hs
      · next hp =>
        simp only [PsSys.step, Option.map_some, Option.some.injEq] at hs
        subst hs
        refine ⟨[], by simpa using hi.agg, ?_, ?_, ?_, ?_, hasks, hready, ?_, hrep, ?_, answered_more hi.answered _ _ (by simp)⟩
        · rw [srvEmissions_append, ← hi.fifo]; simp [srvEmissions]
        · rw [processed_append, ← hi.count]; simp [processed]
        · rw [workerClock_append, ← hi.times]; simp [workerClock]
        · intro c' hm
          rcases List.mem_append.1 hm with hm | hm
          · exact (hi.calls _ hm).imp (fun h => List.mem_append.2 (.inl h)) id
          · simp only [List.mem_singleton, Prod.mk.injEq] at hm
            exact .inl (List.mem_append.2 (.inr (by simp [hm.1])))
        · intro c' hm
          simp only [List.mem_append, List.mem_singleton] at hm ⊢
          rcases hm with hm | hm
          · exact .inl (hi.reading _ hm)
          · exact .inr (by rw [hp, show c' = c by omega])
        · intro c'
          simp only [List.count_append, List.count_singleton, List.mem_append, List.mem_singleton]
          by_cases hc : c' = c
          · subst hc
            have hn : 2 * c' ∉ y.sink.readers := fun hm => hnew.1 (List.mem_map.2 ⟨_, hi.reading _ hm, rfl⟩)
            refine ⟨by rw [List.count_eq_zero.2 hn]; simp, fun _ s hw => hnew.1 (List.mem_map.2 ⟨_, (hi.replying _ _ hw).1, rfl⟩)⟩
          · have : ¬ 2 * c = 2 * c' := by omega
            simp only [beq_iff_eq, this, if_false, Nat.add_zero]
            exact ⟨(hi.once c').1, fun hm => (hi.once c').2 (hm.resolve_right (by omega))⟩
      · simp only [Option.some.injEq] at hs
        subst hs
        refine ⟨[], by simpa using hi.agg, ?_, ?_, ?_, ?_, hasks, hready, ?_, hrep, ?_, answered_more hi.answered _ _ (by simp)⟩
        · rw [srvEmissions_append, ← hi.fifo]; simp [srvEmissions]
        · rw [processed_append, ← hi.count]; simp [processed]
        · rw [workerClock_append, ← hi.times]; simp [workerClock]
        · intro c' hm
          rcases List.mem_append.1 hm with hm | hm
          · exact hi.calls _ hm
          · simp only [List.mem_singleton, Prod.mk.injEq] at hm
            exact absurd hm.2.symm ‹_›
        · intro c' hm; exact List.mem_append.2 (.inl (hi.reading _ hm))
        · exact hi.once
  | metrics c snap =>
    simp only [SrvSys.step] at hs
    split at hs
    · next hw =>
      obtain ⟨s, hs', rfl⟩ := Option.map_eq_some_iff.1 hs
      simp only [PsSys.step] at hs'
      split at hs'
      · next hr =>
        simp only [Option.some.injEq] at hs'
        subst hs'
        have hna : ∀ c' p, (SrvLab.metrics c snap) ≠ .arrive c' p := by simp
        have hT := (hi.replying c snap hr).2
        -- the worker was busy with this call, so no other handler's request is being served
        refine ⟨[], by simpa using hi.agg, ?_, ?_, ?_, ?_, ?_, ?_, ?_, by simp, fun c' => ⟨(hi.once c').1, by simp⟩, answered_more hi.answered _ _ (by simp)⟩
        · rw [srvEmissions_append, ← hi.fifo]; simp [srvEmissions]
        · rw [processed_append, ← hi.count]; simp [processed]
        · rw [workerClock_append, ← hi.times]; simp [workerClock]
        · intro c' hm
          have hm := List.mem_filter.1 hm
          refine .inl ((hi.calls _ hm.1).resolve_right ?_)
          rintro ⟨s, hs⟩
          rw [hr] at hs
          have : c = c' := by have := (PsWorker.replying.inj hs).1; omega
          simp [this] at hm
        · intro c' p hm
          rw [asked_same (hna c')]
          exact hi.asks _ _ (List.mem_of_mem_filter hm)
        · intro c' s hm
          rw [asked_same (hna c')]
          rcases List.mem_append.1 hm with hm | hm
          · exact ⟨(hi.ready _ _ hm).1, (hi.ready _ _ hm).2.more _ (hna c') _⟩
          · simp only [List.mem_singleton, Prod.mk.injEq] at hm
            obtain ⟨rfl, rfl⟩ := hm
            exact ⟨hi.asks _ _ hw, hT.more _ (hna _) _⟩
        · intro c' hm
          refine List.mem_filter.2 ⟨hi.reading _ hm, ?_⟩
          simp only [ne_eq, decide_eq_true_eq]
          rintro rfl
          exact (hi.once c').2 hm snap hr
      · cases hs'
    · cases hs
  | respond c resp =>
    have hna : ∀ c' p, (SrvLab.respond c resp) ≠ .arrive c' p := by simp
    simp only [SrvSys.step] at hs
    split at hs
    · next p hf =>
      split at hs
      · next he =>
        simp only [Option.some.injEq] at hs
        subst hs
        obtain ⟨c', snap⟩ := p
        have hc : c' = c := by simpa using List.find?_some hf
        subst hc
        obtain ⟨a1, h1, now, h2, e1, e2, e3, e4⟩ := hi.ready _ _ (List.mem_of_find?_eq_some hf)
        refine ⟨[], by simpa using hi.agg, ?_, ?_, ?_, hi.calls, ?_, ?_, hi.reading, ?_, hi.once, answered_more hi.answered _ _ ?_⟩
        · rw [srvEmissions_append, ← hi.fifo]; simp [srvEmissions]
        · rw [processed_append, ← hi.count]; simp [processed]
        · rw [workerClock_append, ← hi.times]; simp [workerClock]
        · intro c'' p hm; rw [asked_same (hna c'')]; exact hi.asks _ _ hm
        · intro c'' s hm
          have hm := List.mem_of_mem_filter hm
          rw [asked_same (hna c'')]; exact ⟨(hi.ready _ _ hm).1, (hi.ready _ _ hm).2.more _ (hna c'') _⟩
        · intro c'' s hm; exact ⟨(hi.replying _ _ hm).1, (hi.replying _ _ hm).2.more _ (hna c'') _⟩
        · intro c'' resp' e
          cases e
          exact ⟨_, a1, fun hne => absurd rfl hne, fun _ => ⟨h1, now, h2, snap, by simpa using e1, e2, he, e3, e4⟩⟩
      · cases hs
    · split at hs
      · next q hf =>
        split at hs
        · next he =>
          simp only [Option.some.injEq] at hs
          subst hs
          obtain ⟨c', path⟩ := q
          have hc : c' = c := by simpa using List.find?_some hf
          subst hc
          have a1 := hi.asks _ _ (List.mem_of_find?_eq_some hf)
          have hkeep : ∀ c'', (c'', bs "/health") ∈ y.waiting → (c'', bs "/health") ∈ y.waiting.filter (·.1 ≠ c') := by
            intro c'' hm
            refine List.mem_filter.2 ⟨hm, ?_⟩
            simp only [ne_eq, decide_eq_true_eq]
            rintro rfl
            have := hi.asks _ _ hm
            rw [a1] at this
            exact he.1 (Option.some.inj this)
          refine ⟨[], by simpa using hi.agg, ?_, ?_, ?_, fun c'' hm => hi.calls _ (List.mem_of_mem_filter hm), ?_, ?_, ?_, ?_, hi.once, answered_more hi.answered _ _ ?_⟩
          · rw [srvEmissions_append, ← hi.fifo]; simp [srvEmissions]
          · rw [processed_append, ← hi.count]; simp [processed]
          · rw [workerClock_append, ← hi.times]; simp [workerClock]
          · intro c'' p hm; rw [asked_same (hna c'')]; exact hi.asks _ _ (List.mem_of_mem_filter hm)
          · intro c'' s hm
            rw [asked_same (hna c'')]; exact ⟨(hi.ready _ _ hm).1, (hi.ready _ _ hm).2.more _ (hna c'') _⟩
          · intro c'' hm; exact hkeep _ (hi.reading _ hm)
          · intro c'' s hm; exact ⟨hkeep _ (hi.replying _ _ hm).1, (hi.replying _ _ hm).2.more _ (hna c'') _⟩
          · intro c'' resp' e
            cases e
            exact ⟨_, a1, fun _ => he.2, fun e => absurd e he.1⟩
        · cases hs
      · cases hs

end SrvSys
namespace SrvSys

theorem Inv.run {C : SrvConf} {r : Int} {a0 : Aggregator} (h0 : newAggregator C.d r = some a0) {tr tr' : List SrvLab} {y y' : SrvSys} {h : List (Time × AggOp)}
    (hi : Inv C r a0 tr y h) (hs : y.run C tr' = some y') : ∃ h', Inv C r a0 (tr ++ tr') y' (h ++ h') := by
  induction tr' generalizing tr y h with
  | nil => simp only [SrvSys.run, Option.some.injEq] at hs; subst hs; exact ⟨[], by simpa using hi⟩
  | cons l tr' ih =>
    simp only [SrvSys.run] at hs
    obtain ⟨z, h1, h2⟩ := Option.bind_eq_some_iff.1 hs
    obtain ⟨h', hi'⟩ := hi.step h0 h1
    obtain ⟨h'', hi''⟩ := ih hi' h2
    exact ⟨h' ++ h'', by simpa using hi''⟩

theorem Inv.init (C : SrvConf) (r : Int) (a0 : Aggregator) : Inv C r a0 [] (SrvSys.init a0) [] :=
  ⟨rfl, rfl, rfl, rfl, by simp [SrvSys.init], by simp [SrvSys.init], by simp [SrvSys.init], by simp [SrvSys.init, PsSys.init],
    by simp [SrvSys.init, PsSys.init], by simp [SrvSys.init, PsSys.init], by simp⟩

theorem run_append (C : SrvConf) (y : SrvSys) (a b : List SrvLab) : y.run C (a ++ b) = (y.run C a).bind (fun y' => y'.run C b) := by
  induction a generalizing y with
  | nil => rfl
  | cons l a ih =>
    simp only [List.cons_append, SrvSys.run]
    cases y.step C l with
    | none => rfl
    | some y' => simp [ih]

/-- C98: whatever the goroutines of a process and its HTTP clients do, there is one history of the sink (of the emissions, in the order in which they were
made, at the times that the worker saw) such that every answer of the server shows the metrics at one point of that history, between the arrival of the request and the answer. -/
theorem C98_answers (C : SrvConf) (r : Int) (a0 : Aggregator) (h0 : newAggregator C.d r = some a0) (tr : List SrvLab) (y : SrvSys)
    (h : (SrvSys.init a0).run C tr = some y) :
    ∃ hist, emissionsIn hist ++ y.sink.q = srvEmissions tr ∧ hist.map (·.1) = workerClock tr ∧
      ∀ u c resp v, tr = u ++ .respond c resp :: v → AnswersRequest C r u hist c resp := by
  obtain ⟨hist, hi⟩ := (Inv.init C r a0).run h0 h
  simp only [List.nil_append] at hi
  exact ⟨hist, hi.fifo, hi.times, hi.answered⟩

/-- C98: to healthd such a process is one as C83 and C89 speak about, and every answer that healthd gets from it is a poll of it.
Partial: names without percent signs, finite gauges, and a clock that goes forwards through the years 1 to 9999 (`C39_false`, `C40_false`). -/
theorem C98_process_partial (C : SrvConf) (r : Int) (hd : 0 < C.d) (hr : C.d ≤ r) (a0 : Aggregator) (h0 : newAggregator C.d r = some a0) (tr : List SrvLab) (y : SrvSys)
    (h : (SrvSys.init a0).run C tr = some y) (hz : ZonesOk C.zone) (hid : IsUtf8 C.identifier ∧ (37 : UInt8) ∉ C.identifier)
    (he : ∀ e ∈ srvEmissions tr, EmitFits e ∧ ∀ s ∈ emitNames e, IsUtf8 s ∧ (37 : UInt8) ∉ s)
    (hc : (workerClock tr).Pairwise (fun a b => a.ns ≤ b.ns ∧ a.loc = b.loc)) (hy : ∀ t ∈ workerClock tr, FourDigits t.ns) (hl : (workerClock tr).length < 2 ^ 63)
    (hostPort : Str) :
    ∃ p : Process, p.hostPort = hostPort ∧ p.instanceId = C.identifier ∧ p.retain = r ∧ p.zone = C.zone ∧ p.Ok C.d ∧
      emissionsIn p.hist ++ y.sink.q = srvEmissions tr ∧
      ∀ u c resp v, tr = u ++ .respond c resp :: v → asked c u = some (bs "/health") → resp.code = 200 ∧
        ∀ lo fresh ts nanos junk e, ∃ h1 now h2, PolledAt lo C.d p h1 now h2 (Healthd.poll lo fresh hostPort ts nanos junk e (.answer resp.code resp.body none)) := by
  obtain ⟨hist, hf, ht, ha⟩ := C98_answers C r a0 h0 tr y h
  have hmem : ∀ t e, (t, AggOp.emit e) ∈ hist → e ∈ srvEmissions tr := by
    intro t e hm
    rw [← hf]
    exact List.mem_append.2 (.inl (List.mem_flatMap.2 ⟨_, hm, by simp [emitsOf]⟩))
  have htimes : ∀ x ∈ hist, x.1 ∈ workerClock tr := fun x hx => by rw [← ht]; exact List.mem_map.2 ⟨x, hx, rfl⟩
  have hmono : MonotoneClock hist := by
    unfold MonotoneClock
    rw [← ht, List.pairwise_map] at hc
    exact hc
  refine ⟨⟨hostPort, C.identifier, r, C.zone, hist⟩, rfl, rfl, rfl, rfl, ⟨hr, hmono, ?_, hz, hid, fun t e hm => he e (hmem t e hm), fun x hx => hy _ (htimes x hx)⟩, hf, ?_⟩
  · rw [← ht, List.length_map] at hl; exact hl
  intro u c resp v e hask
  obtain ⟨path, a1, _, a3⟩ := ha u c resp v e
  rw [hask] at a1
  obtain ⟨h1, now, h2, ms, b1, b2, b3, _, _⟩ := a3 (Option.some.inj a1).symm
  have hcode : resp.code = 200 := by
    obtain ⟨ms', c1, c2⟩ := C40_partial C.d r hd hr h1 now C.identifier C.zone hz (fun t e hm => (he e (hmem t e (by rw [b1]; simp [hm]))).1)
      (fun p hp => by
        rcases List.mem_append.1 hp with hp | hp
        · exact hy _ (htimes p (by rw [b1]; simp [hp]))
        · simp only [List.mem_singleton] at hp; subst hp
          exact hy _ (htimes (now, .read) (by rw [b1]; simp)))
    rw [b2] at c1; cases c1
    rw [b3, c2]
  refine ⟨hcode, fun lo fresh ts nanos junk e => ⟨h1, now, h2, b1, ms, fresh, ts, nanos, junk, e, b2, ?_⟩⟩
  rw [hcode, b3]
  rfl

/-- `ShutdownServer` has returned, and request `c` to /health waits. -/
def Hangs (y : SrvSys) (c : Nat) : Prop :=
  y.sink.worker = .halted ∧ c ∉ y.ready.map (·.1) ∧ (∃ q ∈ y.waiting, q.1 = c) ∧ ∀ q ∈ y.waiting, q.1 = c → q.2 = bs "/health"

theorem halted_step {s s' : PsSys} {l : PsLab} (hw : s.worker = .halted) (h : s.step l = some s') : s'.worker = .halted :=
  (C18_after_shutdown s s' [l] hw (by simp [PsSys.run, h])).1

theorem Hangs.step {C : SrvConf} {y y' : SrvSys} {c : Nat} {l : SrvLab} (hh : Hangs y c) (hs : y.step C l = some y') : Hangs y' c ∧ ∀ resp, l ≠ .respond c resp := by
  obtain ⟨h1, h2, h3, h4⟩ := hh
  cases l with
  | sink l =>
    simp only [SrvSys.step] at hs
    split at hs
    · obtain ⟨s, hs', rfl⟩ := Option.map_eq_some_iff.1 hs
      exact ⟨⟨halted_step h1 hs', h2, h3, h4⟩, by simp⟩
    · cases hs
  | arrive c' path =>
    simp only [SrvSys.step] at hs
    split at hs
    · cases hs
    · next hnew =>
      rw [not_or] at hnew
      have hne : c' ≠ c := by
        rintro rfl
        obtain ⟨q, hq, e⟩ := h3
        exact hnew.1 (List.mem_map.2 ⟨q, hq, e⟩)
      have h4' : ∀ q ∈ y.waiting ++ [(c', path)], q.1 = c → q.2 = bs "/health" := by
        intro q hq e
        rcases List.mem_append.1 hq with hq | hq
        · exact h4 q hq e
        · simp only [List.mem_singleton] at hq; subst hq; exact absurd e hne
      have h3' : ∃ q ∈ y.waiting ++ [(c', path)], q.1 = c := by
        obtain ⟨q, hq, e⟩ := h3; exact ⟨q, List.mem_append.2 (.inl hq), e⟩
      split at hs
      · obtain ⟨s, hs', rfl⟩ := Option.map_eq_some_iff.1 hs
        exact ⟨⟨halted_step h1 hs', h2, h3', h4'⟩, by simp⟩
      · simp only [Option.some.injEq] at hs; subst hs
        exact ⟨⟨h1, h2, h3', h4'⟩, by simp⟩
  | metrics c' snap =>
    simp only [SrvSys.step] at hs
    split at hs
    · simp [PsSys.step, h1] at hs
    · cases hs
  | respond c' resp =>
    have hkeep : c' ≠ c → Hangs { y with waiting := y.waiting.filter (·.1 ≠ c') } c := by
      intro hne
      refine ⟨h1, h2, ?_, fun q hq => h4 q (List.mem_of_mem_filter hq)⟩
      obtain ⟨q, hq, e⟩ := h3
      exact ⟨q, List.mem_filter.2 ⟨hq, by simp [e, Ne.symm hne]⟩, e⟩
    simp only [SrvSys.step] at hs
    split at hs
    · next p hf =>
      have hc : p.1 = c' := by simpa using List.find?_some hf
      have hne : c' ≠ c := by
        rintro rfl
        exact h2 (List.mem_map.2 ⟨p, List.mem_of_find?_eq_some hf, hc⟩)
      split at hs
      · simp only [Option.some.injEq] at hs; subst hs
        refine ⟨⟨h1, fun hm => h2 ?_, h3, h4⟩, by intro resp' e; cases e; exact hne rfl⟩
        obtain ⟨q, hq, e⟩ := List.mem_map.1 hm
        exact List.mem_map.2 ⟨q, List.mem_of_mem_filter hq, e⟩
      · cases hs
    · split at hs
      · next q hf =>
        have hc : q.1 = c' := by simpa using List.find?_some hf
        split at hs
        · next he =>
          have hne : c' ≠ c := by
            rintro rfl
            exact he.1 (h4 q (List.mem_of_find?_eq_some hf) hc)
          simp only [Option.some.injEq] at hs; subst hs
          exact ⟨hkeep hne, by intro resp' e; cases e; exact hne rfl⟩
        · cases hs
      · cases hs

/-- C98: `ShutdownServer` does not stop the server: once it has returned, a request to /health is accepted, but never answered. -/
theorem C98_shutdown_hangs (C : SrvConf) (y y' : SrvSys) (hw : y.sink.worker = .halted) (c : Nat) (tr : List SrvLab)
    (h : y.run C (.arrive c (bs "/health") :: tr) = some y') : ∀ resp, .respond c resp ∉ tr := by
  simp only [SrvSys.run] at h
  obtain ⟨z, h1, h2⟩ := Option.bind_eq_some_iff.1 h
  have hz : Hangs z c := by
    simp only [SrvSys.step] at h1
    split at h1
    · cases h1
    · next hnew =>
      rw [not_or] at hnew
      simp only [if_true, PsSys.step, Option.map_some, Option.some.injEq] at h1
      subst h1
      refine ⟨hw, hnew.2, ⟨(c, bs "/health"), by simp, rfl⟩, fun q hq e => ?_⟩
      rcases List.mem_append.1 hq with hq | hq
      · exact absurd (List.mem_map.2 ⟨q, hq, e⟩) hnew.1
      · simp only [List.mem_singleton] at hq; subst hq; rfl
  clear h h1
  induction tr generalizing z with
  | nil => simp
  | cons l tr ih =>
    simp only [SrvSys.run] at h2
    obtain ⟨w, g1, g2⟩ := Option.bind_eq_some_iff.1 h2
    obtain ⟨k1, k2⟩ := hz.step g1
    intro resp hm
    rcases List.mem_cons.1 hm with hm | hm
    · exact k2 resp hm.symm
    · exact ih w g2 k1 resp hm

end SrvSys

namespace SrvSys

theorem maxIntervals_sink {s s' : PsSys} {l : PsLab} (h : s.step l = some s') (hm : 1 ≤ s.agg.maxIntervals) : 1 ≤ s'.agg.maxIntervals :=
  PsSys.maxIntervals_step h hm

theorem maxIntervals_run {C : SrvConf} {y y' : SrvSys} {tr : List SrvLab} (h : y.run C tr = some y') (hm : 1 ≤ y.sink.agg.maxIntervals) :
    1 ≤ y'.sink.agg.maxIntervals := by
  induction tr generalizing y with
  | nil => simp only [SrvSys.run, Option.some.injEq] at h; subst h; exact hm
  | cons l tr ih =>
    simp only [SrvSys.run] at h
    obtain ⟨z, h1, h2⟩ := Option.bind_eq_some_iff.1 h
    refine ih h2 ?_
    cases l with
    | sink l =>
      simp only [SrvSys.step] at h1
      split at h1
      · obtain ⟨s, hs', rfl⟩ := Option.map_eq_some_iff.1 h1; exact maxIntervals_sink hs' hm
      · cases h1
    | arrive c path =>
      simp only [SrvSys.step] at h1
      split at h1
      · cases h1
      · split at h1
        · obtain ⟨s, hs', rfl⟩ := Option.map_eq_some_iff.1 h1; exact maxIntervals_sink hs' hm
        · simp only [Option.some.injEq] at h1; subst h1; exact hm
    | metrics c snap =>
      simp only [SrvSys.step] at h1
      split at h1
      · obtain ⟨s, hs', rfl⟩ := Option.map_eq_some_iff.1 h1; exact maxIntervals_sink hs' hm
      · cases h1
    | respond c r =>
      simp only [SrvSys.step] at h1
      split at h1
      · split at h1
        · simp only [Option.some.injEq] at h1; subst h1; exact hm
        · cases h1
      · split at h1
        · split at h1
          · simp only [Option.some.injEq] at h1; subst h1; exact hm
          · cases h1
        · cases h1

/-- the handler that has its metrics answers. -/
theorem respond_ready (C : SrvConf) (y : SrvSys) {c : Nat} (h : c ∈ y.ready.map (·.1)) : ∃ resp, (y.step C (.respond c resp)).isSome := by
  cases hf : y.ready.find? (·.1 = c) with
  | none =>
    obtain ⟨p, hp, e⟩ := List.mem_map.1 h
    have := List.find?_eq_none.1 hf p hp
    simp [e] at this
  | some p => exact ⟨serveHTTP (bs "/health") C.identifier C.d C.zone p.2, by simp [SrvSys.step, hf]⟩

/-- C98: as long as nobody has shut the sink down, a waiting request to /health can be answered, in any state and at any time, by at most four steps of the worker
and the handlers alone. -/
theorem C98_progress (C : SrvConf) (r : Int) (hd : 0 < C.d) (hr : C.d ≤ r) (a0 : Aggregator) (h0 : newAggregator C.d r = some a0) (tr : List SrvLab) (y : SrvSys)
    (h : (SrvSys.init a0).run C tr = some y) (hw : y.sink.worker ≠ .acking ∧ y.sink.worker ≠ .halted) (c : Nat) (hc : (c, bs "/health") ∈ y.waiting) (now : Time) :
    ∃ own resp y', y.run C (own ++ [.respond c resp]) = some y' ∧ own.length ≤ 3 := by
  have hmax : 1 ≤ a0.maxIntervals := by
    unfold newAggregator at h0
    rw [if_neg (by omega)] at h0
    simp only at h0
    split at h0
    · cases h0
    · simp only [Option.some.injEq] at h0
      subst h0
      show 1 ≤ Int.tdiv r C.d
      rw [Int.tdiv_eq_ediv_of_nonneg (by omega)]
      exact Int.le_ediv_of_mul_le hd (by omega)
  have hm := maxIntervals_run h (show 1 ≤ (SrvSys.init a0).sink.agg.maxIntervals from hmax)
  obtain ⟨hist, hi⟩ := (Inv.init C r a0).run h0 h
  -- the worker hands the metrics of request `c` over
  have serve : ∀ z : SrvSys, (c, bs "/health") ∈ z.waiting → (∃ s, z.sink.worker = .replying (2 * c) s) →
      ∃ snap resp y', z.run C ([.metrics c snap] ++ [.respond c resp]) = some y' := by
    rintro z hz ⟨s, hs⟩
    have e1 : z.step C (.metrics c s) = some { sink := { z.sink with worker := .running }, waiting := z.waiting.filter (·.1 ≠ c), ready := z.ready ++ [(c, s)] } := by
      simp [SrvSys.step, hz, PsSys.step, hs]
    obtain ⟨resp, hresp⟩ := respond_ready C { sink := { z.sink with worker := .running }, waiting := z.waiting.filter (·.1 ≠ c), ready := z.ready ++ [(c, s)] } (c := c) (by simp)
    obtain ⟨y', hy'⟩ := Option.isSome_iff_exists.1 hresp
    exact ⟨s, resp, y', by simp only [List.cons_append, List.nil_append, SrvSys.run, e1, Option.bind_some, hy']⟩
  -- the worker takes the request
  have take : ∀ z : SrvSys, 1 ≤ z.sink.agg.maxIntervals → (c, bs "/health") ∈ z.waiting → z.sink.worker = .running → 2 * c ∈ z.sink.readers →
      ∃ snap resp y', z.run C ([.sink (.request (2 * c) now), .metrics c snap] ++ [.respond c resp]) = some y' := by
    intro z hzm hz hzw hzr
    obtain ⟨b, hb, _⟩ := slide_some hzm now
    have e1 : ∃ w : SrvSys, z.step C (.sink (.request (2 * c) now)) = some w ∧ w.waiting = z.waiting ∧ ∃ s, w.sink.worker = .replying (2 * c) s := by
      simp [SrvSys.step, PsSys.step, hzw, hzr, Aggregator.memorySafeIntervals, hb, PsLab.ofOthers]
    obtain ⟨w, e1, e2, e3⟩ := e1
    obtain ⟨snap, resp, y', e4⟩ := serve w (by rw [e2]; exact hz) e3
    exact ⟨snap, resp, y', by simpa [SrvSys.run, e1] using e4⟩
  cases hwk : y.sink.worker with
  | running =>
    rcases hi.calls c hc with hr' | ⟨s, hs⟩
    · obtain ⟨snap, resp, y', e⟩ := take y hm hc hwk hr'
      exact ⟨_, resp, y', e, by simp⟩
    · rw [hwk] at hs; cases hs
  | replying i snap =>
    by_cases hic : i = 2 * c
    · subst hic
      obtain ⟨snap, resp, y', e⟩ := serve y hc ⟨snap, hwk⟩
      exact ⟨_, resp, y', e, by simp⟩
    · have hr' : 2 * c ∈ y.sink.readers := by
        refine (hi.calls c hc).resolve_right ?_
        rintro ⟨s, hs⟩
        rw [hwk] at hs; cases hs; exact hic rfl
      -- the worker first hands over what it owes to another call
      have first : ∃ l z, y.step C l = some z ∧ 1 ≤ z.sink.agg.maxIntervals ∧ (c, bs "/health") ∈ z.waiting ∧ z.sink.worker = .running ∧ 2 * c ∈ z.sink.readers := by
        by_cases hodd : i % 2 = 1
        · exact ⟨.sink (.got i snap), { y with sink := { y.sink with worker := .running } }, by simp [SrvSys.step, PsLab.ofOthers, hodd, PsSys.step, hwk], hm, hc, rfl, hr'⟩
        · obtain ⟨c', rfl⟩ : ∃ c', i = 2 * c' := ⟨i / 2, by omega⟩
          have hc' := (hi.replying c' snap hwk).1
          refine ⟨.metrics c' snap, ⟨{ y.sink with worker := .running }, y.waiting.filter (·.1 ≠ c'), y.ready ++ [(c', snap)]⟩,
            by simp [SrvSys.step, hc', PsSys.step, hwk], hm, List.mem_filter.2 ⟨hc, ?_⟩, rfl, hr'⟩
          simp only [ne_eq, decide_eq_true_eq]
          rintro rfl; exact hic rfl
      obtain ⟨l, z, e1, z1, z2, z3, z4⟩ := first
      obtain ⟨snap', resp, y', e⟩ := take z z1 z2 z3 z4
      exact ⟨[l, .sink (.request (2 * c) now), .metrics c snap'], resp, y', by simpa [SrvSys.run, e1] using e, by simp⟩
  | acking => exact absurd hwk hw.1
  | halted => exact absurd hwk hw.2

namespace Sample
def conf : SrvConf := ⟨bs "h.1", 60, fun _ _ => 0⟩
def answer (n : Nat) : HttpResp :=
  serveHTTP (bs "/health") (bs "h.1") 60 (fun _ _ => 0) ((getMetrics 60 300 (List.replicate n (⟨10, 0⟩, .emit Sample.psE)) ⟨20, 0⟩).getD [])
/-- two requests at the same time; the second overtakes the first, between their snapshots an emission is processed; a third asks for another path. -/
def trace : List SrvLab :=
  [.sink (.emit _root_.Sample.psE), .sink (.emit _root_.Sample.psE), .sink (.recv ⟨10, 0⟩), .arrive 1 (bs "/health"), .arrive 2 (bs "/health"), .sink (.request 4 ⟨20, 0⟩),
   .metrics 2 ((getMetrics 60 300 [(⟨10, 0⟩, .emit _root_.Sample.psE)] ⟨20, 0⟩).getD []), .sink (.recv ⟨20, 0⟩), .arrive 3 (bs "/metrics"), .sink (.request 2 ⟨20, 0⟩),
   .metrics 1 ((getMetrics 60 300 [(⟨10, 0⟩, .emit _root_.Sample.psE), (⟨20, 0⟩, .read), (⟨20, 0⟩, .emit _root_.Sample.psE)] ⟨20, 0⟩).getD []), .respond 3 renderNotFound,
   .respond 1 (answer 2), .respond 2 (answer 1)]
end Sample

/-- a case that meets the hypotheses of `C98_answers` and `C98_process_partial`. -/
example : newAggregator 60 300 = some Sample.psAgg ∧ ((SrvSys.init Sample.psAgg).run Sample.conf Sample.trace).isSome ∧
    (workerClock Sample.trace).Pairwise (fun a b => a.ns ≤ b.ns ∧ a.loc = b.loc) ∧ (∀ t ∈ workerClock Sample.trace, FourDigits t.ns) ∧
    Sample.answer 1 ≠ Sample.answer 2 := by
  unfold FourDigits; decide +kernel

/-- and of `C98_shutdown_hangs`: after the shutdown a request arrives; another path is still answered. -/
example : ((SrvSys.init Sample.psAgg).run Sample.conf [.sink (.shutdown 1), .sink (.done 1), .sink (.stopped 1)]).map (fun y => y.sink.worker) = some .halted ∧
    ((SrvSys.init Sample.psAgg).run Sample.conf ([.sink (.shutdown 1), .sink (.done 1), .sink (.stopped 1), .arrive 1 (bs "/health"), .arrive 2 (bs "/"),
      .respond 2 renderNotFound])).isSome := by decide +kernel

end SrvSys
