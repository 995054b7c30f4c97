import Verif.Model.PollingSink
import Verif.Props.Aggregator
/-!
# Properties C17, C18: the polling sink under concurrency
`y.run tr` performs the steps `tr` of all goroutines in this order.
-/
open Spec

namespace Spec
/-- the emissions made, in the order in which they entered the channel. -/
def psEmissions (tr : List PsLab) : List Emit := tr.filterMap (fun | .emit e => some e | _ => none)
/-- the emissions contained in a history. -/
def histEmissions (h : List (Time × AggOp)) : List Emit := h.flatMap (fun p => emitsOf p.2)
end Spec

theorem PsSys.run_append (y : PsSys) (a b : List PsLab) : y.run (a ++ b) = (y.run a).bind (fun y' => y'.run b) := by
  induction a generalizing y with
  | nil => rfl
  | cons l a ih =>
    simp only [List.cons_append, PsSys.run]
    cases y.step l with
    | none => rfl
    | some y' => simp [ih]

theorem PsSys.run_snoc {y y' : PsSys} {tr : List PsLab} {l : PsLab} (h : y.run (tr ++ [l]) = some y') :
    ∃ z, y.run tr = some z ∧ z.step l = some y' := by
  rw [run_append] at h
  obtain ⟨z, h1, h2⟩ := Option.bind_eq_some_iff.1 h
  refine ⟨z, h1, ?_⟩
  simp only [PsSys.run] at h2
  cases hz : z.step l with
  | none => rw [hz] at h2; simp at h2
  | some w => rw [hz] at h2; simpa using h2

theorem Aggregator.run_append (a : Aggregator) (h h' : List (Time × AggOp)) :
    a.run (h ++ h') = (a.run h).bind (fun b => b.run h') := by
  induction h generalizing a with
  | nil => rfl
  | cons p h ih =>
    obtain ⟨t, op⟩ := p
    simp only [List.cons_append, Aggregator.run]
    cases a.step t op with
    | none => rfl
    | some b => simp [ih]

/-- invariant: the aggregator is the result of a history, whose emissions followed by the queue are the emissions made. -/
structure PsInv (a0 : Aggregator) (tr : List PsLab) (y : PsSys) (h : List (Time × AggOp)) : Prop where
  agg : a0.run h = some y.agg
  fifo : histEmissions h ++ y.q = psEmissions tr
  reply : ∀ i snap, y.worker = .replying i snap → ∃ h' t b, h = h' ++ [(t, .read)] ∧ a0.run h' = some b ∧
    b.memorySafeIntervals t = some (y.agg, snap)

theorem PsInv.step {a0 : Aggregator} {tr : List PsLab} {y y' : PsSys} {h : List (Time × AggOp)} {l : PsLab}
    (hi : PsInv a0 tr y h) (hs : y.step l = some y') : ∃ h', h <+: h' ∧ PsInv a0 (tr ++ [l]) y' h' := by
  obtain ⟨h1, h2, h3⟩ := hi
  cases l with
  | emit e =>
    simp only [PsSys.step, Option.some.injEq] at hs; subst hs
    exact ⟨h, List.prefix_rfl, h1, by simp [psEmissions] at h2 ⊢; rw [← h2]; simp, h3⟩
  | read i =>
    simp only [PsSys.step, Option.some.injEq] at hs; subst hs
    exact ⟨h, List.prefix_rfl, h1, by simpa [psEmissions] using h2, h3⟩
  | shutdown i =>
    simp only [PsSys.step, Option.some.injEq] at hs; subst hs
    exact ⟨h, List.prefix_rfl, h1, by simpa [psEmissions] using h2, h3⟩
  | recv t =>
    simp only [PsSys.step] at hs
    split at hs
    · next e q hw hq =>
      obtain ⟨b, hb, rfl⟩ := Option.map_eq_some_iff.1 hs
      refine ⟨h ++ [(t, .emit e)], List.prefix_append _ _, ?_, ?_, ?_⟩
      · rw [Aggregator.run_append, h1]; simp [Aggregator.run, Aggregator.step, hb]
      · rw [hq] at h2; simp [psEmissions, histEmissions, emitsOf] at h2 ⊢; exact h2
      · intro i snap hr; simp [hw] at hr
    · cases hs
  | tick t =>
    simp only [PsSys.step] at hs
    split at hs
    · next hw =>
      obtain ⟨b, hb, rfl⟩ := Option.map_eq_some_iff.1 hs
      refine ⟨h ++ [(t, .tick)], List.prefix_append _ _, ?_, ?_, ?_⟩
      · rw [Aggregator.run_append, h1]; simp [Aggregator.run, Aggregator.step, hb]
      · simp [psEmissions, histEmissions, emitsOf] at h2 ⊢; exact h2
      · intro i snap hr; simp [hw] at hr
    · cases hs
  | request i t =>
    simp only [PsSys.step] at hs
    split at hs
    · split at hs
      · obtain ⟨b, hb, rfl⟩ := Option.map_eq_some_iff.1 hs
        refine ⟨h ++ [(t, .read)], List.prefix_append _ _, ?_, ?_, ?_⟩
        · rw [Aggregator.run_append, h1]; simp [Aggregator.run, Aggregator.step, hb]
        · simp [psEmissions, histEmissions, emitsOf] at h2 ⊢; exact h2
        · intro j snap hr
          simp only [PsWorker.replying.injEq] at hr
          exact ⟨h, t, y.agg, rfl, h1, by rw [hb, ← hr.2]⟩
      · cases hs
    · cases hs
  | got i snap =>
    simp only [PsSys.step] at hs
    split at hs
    · simp only [Option.some.injEq] at hs; subst hs
      exact ⟨h, List.prefix_rfl, h1, by simpa [psEmissions] using h2, by simp⟩
    · cases hs
  | done i =>
    simp only [PsSys.step] at hs
    split at hs
    · simp only [Option.some.injEq] at hs; subst hs
      exact ⟨h, List.prefix_rfl, h1, by simpa [psEmissions] using h2, by simp⟩
    · cases hs
  | stopped i =>
    simp only [PsSys.step] at hs
    split at hs
    · simp only [Option.some.injEq] at hs; subst hs
      exact ⟨h, List.prefix_rfl, h1, by simpa [psEmissions] using h2, by simp⟩
    · cases hs

theorem PsInv.run {a0 : Aggregator} {tr tr' : List PsLab} {y y' : PsSys} {h : List (Time × AggOp)} (hi : PsInv a0 tr y h)
    (hs : y.run tr' = some y') : ∃ h', h <+: h' ∧ PsInv a0 (tr ++ tr') y' h' := by
  induction tr' generalizing tr y h with
  | nil => simp only [PsSys.run, Option.some.injEq] at hs; subst hs; exact ⟨h, List.prefix_rfl, by simpa using hi⟩
  | cons l tr' ih =>
    simp only [PsSys.run] at hs
    obtain ⟨z, h1, h2⟩ := Option.bind_eq_some_iff.1 hs
    obtain ⟨h', p, hi'⟩ := hi.step h1
    obtain ⟨h'', p', hi''⟩ := ih hi' h2
    exact ⟨h'', p.trans p', by simpa using hi''⟩

theorem PsInv.init (a0 : Aggregator) : PsInv a0 [] (PsSys.init a0) [] := ⟨rfl, rfl, by simp [PsSys.init]⟩

/-- what a `GetMetrics` call returns in a state. -/
theorem PsInv.got {a0 : Aggregator} {tr : List PsLab} {y y' : PsSys} {h : List (Time × AggOp)} {i : Nat} {snap : List IntAgg}
    (hi : PsInv a0 tr y h) (hs : y.step (.got i snap) = some y') :
    ∃ h' t, h = h' ++ [(t, .read)] ∧ (a0.run h').bind (fun a => (a.memorySafeIntervals t).map (·.2)) = some snap ∧
      histEmissions h' ++ y.q = psEmissions tr := by
  simp only [PsSys.step] at hs
  split at hs
  · next hc =>
    obtain ⟨h', t, b, e1, e2, e3⟩ := hi.reply i snap hc
    refine ⟨h', t, e1, by rw [e2]; simp [e3], ?_⟩
    have := hi.fifo
    rw [e1] at this
    simpa [histEmissions, emitsOf] using this
  · cases hs

/-- C17: whenever `GetMetrics` returns, the result is what a sequential sink shows after some history whose emissions are exactly the
first so many emissions made, in the order in which they were made. -/
theorem C17_prefix (d r : Int) (a0 : Aggregator) (h0 : newAggregator d r = some a0) (tr : List PsLab) (i : Nat)
    (snap : List IntAgg) (y : PsSys) (h : (PsSys.init a0).run (tr ++ [.got i snap]) = some y) :
    ∃ hist now, histEmissions hist <+: psEmissions tr ∧ getMetrics d r hist now = some snap := by
  obtain ⟨z, h1, h2⟩ := PsSys.run_snoc h
  obtain ⟨hist, _, hi⟩ := (PsInv.init a0).run h1
  obtain ⟨h', t, e1, e2, e3⟩ := hi.got h2
  exact ⟨h', t, ⟨z.q, by simpa using e3⟩, by simp [getMetrics, h0, e2]⟩

/-- C17: a later `GetMetrics` shows the result of a longer history: everything that the earlier one reflected, in the same order, and
possibly more. -/
theorem C17_monotone (d r : Int) (a0 : Aggregator) (h0 : newAggregator d r = some a0) (tr tr' : List PsLab) (i j : Nat)
    (snap snap' : List IntAgg) (y : PsSys)
    (h : (PsSys.init a0).run ((tr ++ [.got i snap]) ++ (tr' ++ [.got j snap'])) = some y) :
    ∃ hist now hist' now', getMetrics d r hist now = some snap ∧ getMetrics d r hist' now' = some snap' ∧
      hist <+: hist' ∧ histEmissions hist <+: histEmissions hist' ∧
      histEmissions hist' <+: psEmissions (tr ++ [.got i snap] ++ tr') := by
  rw [PsSys.run_append] at h
  obtain ⟨w, g1, g2⟩ := Option.bind_eq_some_iff.1 h
  obtain ⟨z, h1, h2⟩ := PsSys.run_snoc g1
  obtain ⟨z', h1', h2'⟩ := PsSys.run_snoc g2
  obtain ⟨hist, _, hi⟩ := (PsInv.init a0).run h1
  obtain ⟨p, t, e1, e2, e3⟩ := hi.got h2
  obtain ⟨hw, pw, hiw⟩ := hi.step h2
  obtain ⟨hz, pz, hiz⟩ := hiw.run h1'
  obtain ⟨p', t', e1', e2', e3'⟩ := hiz.got h2'
  have hpre : p <+: p' := by
    have a1 : p ++ [(t, AggOp.read)] <+: p' ++ [(t', .read)] := by rw [← e1, ← e1']; exact pw.trans pz
    have a2 : p <+: p' ++ [(t', .read)] := (List.prefix_append _ _).trans a1
    have hl := a1.length_le
    simp only [List.length_append, List.length_singleton] at hl
    rw [List.prefix_iff_eq_take] at a2 ⊢
    rw [List.take_append_of_le_length (by omega)] at a2
    exact a2
  refine ⟨p, t, p', t', by simp [getMetrics, h0, e2], by simp [getMetrics, h0, e2'], hpre, ?_, ⟨z'.q, by simpa using e3'⟩⟩
  obtain ⟨s, rfl⟩ := hpre
  exact ⟨histEmissions s, by simp [histEmissions]⟩

/-- C17: nothing is lost: the emissions not yet reflected are queued, in order. -/
theorem C17_nothing_lost (a0 : Aggregator) (tr : List PsLab) (y : PsSys) (h : (PsSys.init a0).run tr = some y) :
    ∃ hist, a0.run hist = some y.agg ∧ histEmissions hist ++ y.q = psEmissions tr := by
  obtain ⟨hist, _, hi⟩ := (PsInv.init a0).run h
  exact ⟨hist, hi.agg, by simpa using hi.fifo⟩

namespace Sample
def psAgg : Aggregator := ⟨60, 300, 5, []⟩
def psE : Emit := .event (bs "j") (bs "e")
def psTr : List PsLab := [.emit psE, .emit psE, .recv ⟨10, 0⟩, .read 1, .request 1 ⟨20, 0⟩]
def psSnap : List IntAgg := (getMetrics 60 300 [(⟨10, 0⟩, .emit psE)] ⟨20, 0⟩).getD []
end Sample

/-- a case that meets the hypotheses; and the result need not reflect an emission that had been accepted before `GetMetrics` was
called. -/
theorem C17_accepted_but_not_yet_visible :
    newAggregator 60 300 = some Sample.psAgg ∧ (psEmissions Sample.psTr).length = 2 ∧
    ((PsSys.init Sample.psAgg).run (Sample.psTr ++ [.got 1 Sample.psSnap])).isSome ∧
    (Sample.psSnap.map (fun ia => ia.maps.events)) = [[(bs "e", 1)]] := by decide +kernel

/-! ## C18 -/

/-- the aggregator keeps working. -/
theorem PsSys.maxIntervals_step {y y' : PsSys} {l : PsLab} (h : y.step l = some y') (hm : 1 ≤ y.agg.maxIntervals) :
    1 ≤ y'.agg.maxIntervals := by
  have slide : ∀ (a b : Aggregator) t, a.slide t = some b → 1 ≤ a.maxIntervals → 1 ≤ b.maxIntervals := by
    intro a b t hs ha
    obtain ⟨c, hc, e⟩ := slide_some ha t
    rw [hc] at hs; simp only [Option.some.injEq] at hs; subst hs; rw [e]; exact ha
  cases l with
  | emit e => simp only [PsSys.step, Option.some.injEq] at h; subst h; exact hm
  | read i => simp only [PsSys.step, Option.some.injEq] at h; subst h; exact hm
  | shutdown i => simp only [PsSys.step, Option.some.injEq] at h; subst h; exact hm
  | recv t =>
    simp only [PsSys.step] at h
    split at h
    · obtain ⟨b, hb, rfl⟩ := Option.map_eq_some_iff.1 h
      obtain ⟨c, hc, rfl⟩ := Option.map_eq_some_iff.1 hb
      have := slide _ _ _ hc hm
      exact this
    · cases h
  | tick t =>
    simp only [PsSys.step] at h
    split at h
    · obtain ⟨b, hb, rfl⟩ := Option.map_eq_some_iff.1 h
      exact slide _ _ _ hb hm
    · cases h
  | request i t =>
    simp only [PsSys.step] at h
    split at h
    · split at h
      · obtain ⟨b, hb, rfl⟩ := Option.map_eq_some_iff.1 h
        obtain ⟨c, hc, rfl⟩ := Option.map_eq_some_iff.1 hb
        exact slide _ _ _ hc hm
      · cases h
    · cases h
  | got i snap => simp only [PsSys.step] at h; split at h <;> simp at h; subst h; exact hm
  | done i => simp only [PsSys.step] at h; split at h <;> simp at h; subst h; exact hm
  | stopped i => simp only [PsSys.step] at h; split at h <;> simp at h; subst h; exact hm

theorem PsSys.maxIntervals_run {y y' : PsSys} {tr : List PsLab} (h : y.run tr = some y') (hm : 1 ≤ y.agg.maxIntervals) :
    1 ≤ y'.agg.maxIntervals := by
  induction tr generalizing y with
  | nil => simp only [PsSys.run, Option.some.injEq] at h; subst h; exact hm
  | cons l tr ih =>
    simp only [PsSys.run] at h
    obtain ⟨z, h1, h2⟩ := Option.bind_eq_some_iff.1 h
    exact ih h2 (maxIntervals_step h1 hm)

theorem PsSys.recv_isSome {y : PsSys} (hm : 1 ≤ y.agg.maxIntervals) (hw : y.worker = .running) {e : Emit} {q : List Emit}
    (hq : y.q = e :: q) (t : Time) : ∃ a, y.step (.recv t) = some { y with q := q, agg := a } ∧ 1 ≤ a.maxIntervals := by
  obtain ⟨b, hb, eb⟩ := slide_some hm t
  refine ⟨{ b with intervals := modifyLast (·.apply e) b.intervals }, by simp [PsSys.step, hw, hq, Aggregator.emit, hb], ?_⟩
  simpa [eb] using hm

/-- the worker can take every queued emission. -/
theorem PsSys.consume (n : Nat) (y : PsSys) (hm : 1 ≤ y.agg.maxIntervals) (hw : y.worker = .running) (hn : n ≤ y.q.length) (t : Time) :
    ∃ y', y.run (List.replicate n (.recv t)) = some y' ∧ y'.q = y.q.drop n ∧ y'.worker = .running := by
  induction n generalizing y with
  | zero => exact ⟨y, rfl, rfl, hw⟩
  | succ n ih =>
    cases hq : y.q with
    | nil => rw [hq] at hn; simp at hn
    | cons e q =>
      obtain ⟨a, h1, h2⟩ := recv_isSome hm hw hq t
      obtain ⟨y', g1, g2, g3⟩ := ih { y with q := q, agg := a } h2 hw (by rw [hq] at hn; simpa using hn)
      exact ⟨y', by simp [List.replicate_succ, PsSys.run, h1, g1], by simpa using g2, g3⟩

/-- C18: while `ShutdownServer` has not been called, the sink is live: whatever has happened, without any further call by anybody the
worker (after handing over a snapshot it owes, if any) can take all queued emissions, so that no `Emit…` call is left blocked; and while
it is in its `select` it can serve any waiting `GetMetrics`. -/
theorem C18_running_is_live (d r : Int) (hd : 0 < d) (hr : d ≤ r) (a0 : Aggregator) (h0 : newAggregator d r = some a0)
    (tr : List PsLab) (y : PsSys) (h : (PsSys.init a0).run tr = some y) (hns : ∀ i, PsLab.shutdown i ∉ tr) (now : Time) :
    ∃ own y', y.run (own ++ List.replicate y.q.length (.recv now)) = some y' ∧ y'.q = [] ∧ y'.blocked = [] ∧
      own.length ≤ 1 ∧ (∀ l ∈ own, ∃ i snap, l = .got i snap) ∧
      (∀ i ∈ y'.readers, (y'.step (.request i now)).isSome) := by
  have hmax : 1 ≤ a0.maxIntervals := by
    unfold newAggregator at h0
    rw [if_neg (by omega)] at h0
    simp only at h0
    split at h0
    · cases h0
    · simp only [Option.some.injEq] at h0
      subst h0
      show 1 ≤ Int.tdiv r d
      rw [Int.tdiv_eq_ediv_of_nonneg (by omega)]
      exact Int.le_ediv_of_mul_le hd (by omega)
  have hm := PsSys.maxIntervals_run h (show 1 ≤ (PsSys.init a0).agg.maxIntervals from hmax)
  have hw : y.stoppers = [] ∧ y.worker ≠ .acking ∧ y.worker ≠ .halted ∧ y.stopping = [] := by
    clear hm
    induction tr using snocInduction generalizing y with
    | nil => simp only [PsSys.run, Option.some.injEq] at h; subst h; simp [PsSys.init]
    | snoc tr l ih =>
      obtain ⟨z, h1, h2⟩ := PsSys.run_snoc h
      obtain ⟨i1, i2, i3, i4⟩ := ih z h1 (fun i hi => hns i (by simp [hi]))
      cases l with
      | emit e => simp only [PsSys.step, Option.some.injEq] at h2; subst h2; exact ⟨i1, i2, i3, i4⟩
      | read i => simp only [PsSys.step, Option.some.injEq] at h2; subst h2; exact ⟨i1, i2, i3, i4⟩
      | shutdown i => exact absurd (by simp) (hns i)
      | recv t =>
        simp only [PsSys.step] at h2
        split at h2
        · obtain ⟨b, _, rfl⟩ := Option.map_eq_some_iff.1 h2; exact ⟨i1, i2, i3, i4⟩
        · cases h2
      | tick t =>
        simp only [PsSys.step] at h2
        split at h2
        · obtain ⟨b, _, rfl⟩ := Option.map_eq_some_iff.1 h2; exact ⟨i1, i2, i3, i4⟩
        · cases h2
      | request i t =>
        simp only [PsSys.step] at h2
        split at h2
        · split at h2
          · obtain ⟨b, _, rfl⟩ := Option.map_eq_some_iff.1 h2; exact ⟨i1, by simp, by simp, i4⟩
          · cases h2
        · cases h2
      | got i snap =>
        simp only [PsSys.step] at h2; split at h2
        · simp only [Option.some.injEq] at h2; subst h2; exact ⟨i1, by simp, by simp, i4⟩
        · cases h2
      | done i => simp [PsSys.step, i1] at h2
      | stopped i => simp [PsSys.step, i4] at h2
  have serve : ∀ y' : PsSys, 1 ≤ y'.agg.maxIntervals → y'.worker = .running → ∀ i ∈ y'.readers, (y'.step (.request i now)).isSome := by
    intro y' hm' hw' i hi
    obtain ⟨b, hb, _⟩ := slide_some hm' now
    simp [PsSys.step, hw', hi, Aggregator.memorySafeIntervals, hb]
  have finish : ∀ (own : List PsLab) (z : PsSys), y.run own = some z → z.worker = .running → z.q = y.q →
      ∃ y', y.run (own ++ List.replicate y.q.length (.recv now)) = some y' ∧ y'.q = [] ∧ y'.blocked = [] ∧
        (∀ i ∈ y'.readers, (y'.step (.request i now)).isSome) := by
    intro own z hz hzw hzq
    have hmz := PsSys.maxIntervals_run hz hm
    obtain ⟨y', g1, g2, g3⟩ := PsSys.consume z.q.length z hmz hzw le_rfl now
    have g2' : y'.q = [] := by rw [g2]; simp
    refine ⟨y', ?_, g2', by simp [PsSys.blocked, g2'], serve y' (PsSys.maxIntervals_run g1 hmz) g3⟩
    rw [PsSys.run_append, hz, ← hzq]
    exact g1
  cases hwk : y.worker with
  | running =>
    obtain ⟨y', f1, f2, f3, f4⟩ := finish [] y rfl hwk rfl
    exact ⟨[], y', f1, f2, f3, by simp, by simp, f4⟩
  | replying i snap =>
    obtain ⟨y', f1, f2, f3, f4⟩ := finish [.got i snap] { y with worker := .running } (by simp [PsSys.run, PsSys.step, hwk]) rfl rfl
    exact ⟨[.got i snap], y', f1, f2, f3, by simp, by simp, f4⟩
  | acking => exact absurd hwk hw.2.1
  | halted => exact absurd hwk hw.2.2.1

/-- C18: once `ShutdownServer` has returned the sink is dead: no emission is ever taken, so every call beyond the first 4096 queued ones
blocks for ever; at most 4096 further `Emit…` calls return; no `GetMetrics` and no further `ShutdownServer` returns. -/
theorem C18_after_shutdown (y y' : PsSys) (tr : List PsLab) (hw : y.worker = .halted) (h : y.run tr = some y') :
    y'.worker = .halted ∧ y'.agg = y.agg ∧ y'.q = y.q ++ psEmissions tr ∧ y'.blocked = (y.q ++ psEmissions tr).drop 4096 ∧
    (psEmissions tr).length - (y'.blocked.length - y.blocked.length) ≤ 4096 ∧
    (∀ i snap, PsLab.got i snap ∉ tr) ∧ (∀ i, PsLab.stopped i ∉ tr) := by
  have key : y'.worker = .halted ∧ y'.agg = y.agg ∧ y'.q = y.q ++ psEmissions tr ∧
      (∀ i snap, PsLab.got i snap ∉ tr) ∧ (∀ i, PsLab.stopped i ∉ tr) := by
    induction tr generalizing y with
    | nil => simp only [PsSys.run, Option.some.injEq] at h; subst h; simp [hw, psEmissions]
    | cons l tr ih =>
      simp only [PsSys.run] at h
      obtain ⟨z, h1, h2⟩ := Option.bind_eq_some_iff.1 h
      have ih := ih z
      cases l with
      | emit e =>
        simp only [PsSys.step, Option.some.injEq] at h1; subst h1
        obtain ⟨a1, a2, a3, a4, a5⟩ := ih hw h2
        exact ⟨a1, a2, by simpa [psEmissions] using a3, by simpa using a4, by simpa using a5⟩
      | read i =>
        simp only [PsSys.step, Option.some.injEq] at h1; subst h1
        obtain ⟨a1, a2, a3, a4, a5⟩ := ih hw h2
        exact ⟨a1, a2, by simpa [psEmissions] using a3, by simpa using a4, by simpa using a5⟩
      | shutdown i =>
        simp only [PsSys.step, Option.some.injEq] at h1; subst h1
        obtain ⟨a1, a2, a3, a4, a5⟩ := ih hw h2
        exact ⟨a1, a2, by simpa [psEmissions] using a3, by simpa using a4, by simpa using a5⟩
      | recv t => simp [PsSys.step, hw] at h1
      | tick t => simp [PsSys.step, hw] at h1
      | request i t => simp [PsSys.step, hw] at h1
      | got i snap => simp [PsSys.step, hw] at h1
      | done i => simp [PsSys.step, hw] at h1
      | stopped i => simp [PsSys.step, hw] at h1
  obtain ⟨a1, a2, a3, a4, a5⟩ := key
  refine ⟨a1, a2, a3, by rw [PsSys.blocked, a3]; rfl, ?_, a4, a5⟩
  simp only [PsSys.blocked, a3, psBuffSize, List.length_drop, List.length_append]
  omega

/-- `ShutdownServer` gets there: a state as in the theorem above is reachable. -/
example : ((PsSys.init Sample.psAgg).run [.emit Sample.psE, .shutdown 1, .done 1, .stopped 1]).map (fun y => (y.worker, y.q)) =
    some (.halted, [Sample.psE]) := by decide +kernel

/-- C18: a waiting `ShutdownServer` can be served whenever the worker is in its `select`, and then returns. -/
theorem C18_shutdown_returns (y : PsSys) (i : Nat) (hw : y.worker = .running) (hi : i ∈ y.stoppers) :
    ∃ y', y.run [.done i, .stopped i] = some y' ∧ y'.worker = .halted := by
  simp [PsSys.run, PsSys.step, hw, hi]
