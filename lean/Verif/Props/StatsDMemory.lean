import Verif.Props.StatsDPeriod
import Mathlib.Data.Finset.Card
import Mathlib.Data.Finset.Dedup
/-!
# Property C116: what a StatsD sink keeps in memory
-/
open Spec StatsD

namespace Spec
/-- the series (job, event, suffix) in which an emission counts. -/
def seriesOf (o : StatsDOpts) (c : SdCmd) : List (Str × Str × Str) :=
  match c with
  | .complete job status _ => [(job, [], status.str)]
  | .event job ev => both job ev []
  | .eventErr job ev => both job ev (bs "error")
  | .timing job ev _ => both job ev []
  | .gauge job ev _ => both job ev []
where both (job ev suffix : Str) : List (Str × Str × Str) :=
  (if o.skipTop then [] else [([], ev, suffix)]) ++ (if o.skipNested then [] else [(job, ev, suffix)])
end Spec

namespace StatsD

def _root_.EventKey.triple (k : EventKey) : Str × Str × Str := (k.job, k.event, k.suffix)

theorem writeMetric_rest (t : StatsD) (b : Str) : (t.writeMetric b).opts = t.opts ∧ (t.writeMetric b).prefixBuffers = t.prefixBuffers := by
  unfold writeMetric
  dsimp only
  split
  · exact ⟨rfl, rfl⟩
  · split
    · exact ⟨rfl, rfl⟩
    · split <;> exact ⟨rfl, rfl⟩

theorem emitLine_keys (s : StatsD) (k : EventKey) (r : Str) (h : s.prefixBuffers.Wf) :
    (s.emitLine k r).opts = s.opts ∧ (s.emitLine k r).prefixBuffers.Wf ∧ ∀ x, x ∈ (s.emitLine k r).prefixBuffers.keys ↔ x = k ∨ x ∈ s.prefixBuffers.keys := by
  unfold emitLine
  have hg : (s.getPrefixBuffer k).1.opts = s.opts ∧ ∃ pb, (s.getPrefixBuffer k).1.prefixBuffers = s.prefixBuffers.set k pb := by
    unfold getPrefixBuffer
    split <;> exact ⟨rfl, _, rfl⟩
  obtain ⟨g1, pb, g2⟩ := hg
  have hw := writeMetric_rest { (s.getPrefixBuffer k).1 with prefixBuffers := (s.getPrefixBuffer k).1.prefixBuffers.set k { (s.getPrefixBuffer k).2 with bytes := (s.getPrefixBuffer k).2.bytes ++ r } }
    ((s.getPrefixBuffer k).2.bytes ++ r)
  obtain ⟨w1, w2⟩ := hw
  refine ⟨w1.trans g1, ?_, ?_⟩
  · refine (congrArg GoMap.Wf w2).mpr ?_
    simp only [g2]
    exact (h.set k _).set k _
  · intro x
    refine Iff.trans (iff_of_eq (congrArg (fun m : GoMap EventKey PrefixBuffer => x ∈ m.keys) w2)) ?_
    simp only [g2, GoMap.mem_keys_set]
    tauto

theorem emitBoth_keys (s : StatsD) (j e u r : Str) (h : s.prefixBuffers.Wf) :
    (s.emitBoth j e u r).opts = s.opts ∧ (s.emitBoth j e u r).prefixBuffers.Wf ∧
    ∀ x, x ∈ (s.emitBoth j e u r).prefixBuffers.keys ↔ x.triple ∈ seriesOf.both s.opts j e u ∨ x ∈ s.prefixBuffers.keys := by
  have hx : ∀ (x : EventKey) (a b c : Str), x = ⟨a, b, c⟩ ↔ x.triple = (a, b, c) := by
    intro x a b c; cases x; simp [EventKey.triple]
  unfold emitBoth seriesOf.both
  dsimp only
  by_cases h1 : s.opts.skipTop = true
  · rw [if_pos h1, if_pos h1]
    by_cases h2 : s.opts.skipNested = true
    · rw [if_pos h2, if_pos h2]; exact ⟨rfl, h, by simp⟩
    · rw [if_neg h2, if_neg h2]
      obtain ⟨a, b, c⟩ := emitLine_keys s ⟨j, e, u⟩ r h
      exact ⟨a, b, fun x => by rw [c, hx]; simp⟩
  · rw [if_neg h1, if_neg h1]
    obtain ⟨a, b, c⟩ := emitLine_keys s ⟨[], e, u⟩ r h
    by_cases h2 : s.opts.skipNested = true
    · rw [if_pos (by rw [a]; exact h2), if_pos h2]
      exact ⟨a, b, fun x => by rw [c, hx]; simp⟩
    · rw [if_neg (by rw [a]; exact h2), if_neg h2]
      obtain ⟨a', b', c'⟩ := emitLine_keys (s.emitLine ⟨[], e, u⟩ r) ⟨j, e, u⟩ r b
      refine ⟨a'.trans a, b', fun x => ?_⟩
      rw [c', c, hx, hx]
      rw [List.mem_append, List.mem_singleton, List.mem_singleton, or_assoc]
      exact or_left_comm

theorem processCmd_keys (s : StatsD) (c : SdCmd) (h : s.prefixBuffers.Wf) :
    (s.processCmd c).opts = s.opts ∧ (s.processCmd c).prefixBuffers.Wf ∧
    ∀ x, x ∈ (s.processCmd c).prefixBuffers.keys ↔ x.triple ∈ seriesOf s.opts c ∨ x ∈ s.prefixBuffers.keys := by
  cases c with
  | complete j st n =>
    obtain ⟨a, b, d⟩ := emitLine_keys s ⟨j, [], st.str⟩ (timingText n ++ bs "|ms\n") h
    exact ⟨a, b, fun x => by rw [show (s.processCmd (.complete j st n)) = s.emitLine ⟨j, [], st.str⟩ (timingText n ++ bs "|ms\n") from rfl, d]; cases x; simp [seriesOf, EventKey.triple]⟩
  | _ => exact emitBoth_keys _ _ _ _ _ h

theorem run_keys (o : StatsDOpts) (ops : List StatsD.Op) : ((fresh o).run ops).opts = o ∧ ((fresh o).run ops).prefixBuffers.Wf ∧
    ∀ x, x ∈ ((fresh o).run ops).prefixBuffers.keys ↔ x.triple ∈ (opCmds ops).flatMap (seriesOf o) := by
  induction ops using snocInduction with
  | nil => exact ⟨rfl, GoMap.Wf.nil, fun x => by simp [opCmds, fresh, StatsD.run, GoMap.keys]⟩
  | snoc ops op ih =>
    obtain ⟨i1, i2, i3⟩ := ih
    cases op with
    | cmd c =>
      rw [← run_snoc_cmd]
      obtain ⟨a, b, d⟩ := processCmd_keys ((fresh o).run ops) c i2
      refine ⟨a.trans i1, b, fun x => ?_⟩
      rw [d, i3, i1, opCmds_append, List.flatMap_append, List.mem_append]
      simp only [opCmds, List.filterMap_cons, List.filterMap_nil, List.flatMap_cons, List.flatMap_nil, List.append_nil]
      tauto
    | flush =>
      rw [← run_snoc_flush]
      have e : ((fresh o).run ops).flush.opts = ((fresh o).run ops).opts ∧ ((fresh o).run ops).flush.prefixBuffers = ((fresh o).run ops).prefixBuffers := by
        unfold StatsD.flush
        split <;> exact ⟨rfl, rfl⟩
      rw [e.1, e.2, opCmds_append]
      exact ⟨i1, i2, fun x => by rw [i3]; simp [opCmds]⟩

/-- **C116**: whatever was emitted and however often, a StatsD sink keeps one buffer for each different series in which something was emitted, and besides at most
one datagram: its memory depends on the number of different names, not on the number of emissions. -/
theorem C116_buffers (o : StatsDOpts) (ops : List StatsD.Op) :
    ((fresh o).run ops).prefixBuffers.length = ((opCmds ops).flatMap (seriesOf o)).toFinset.card ∧ ((fresh o).run ops).udpBuf.length ≤ 1440 := by
  obtain ⟨_, h1, h2⟩ := run_keys o ops
  constructor
  · have hinj : Function.Injective EventKey.triple := by
      rintro ⟨a, b, c⟩ ⟨a', b', c'⟩ e
      simpa [EventKey.triple] using e
    have e : ((opCmds ops).flatMap (seriesOf o)).toFinset = (((fresh o).run ops).prefixBuffers.keys.map EventKey.triple).toFinset := by
      ext x
      rw [List.mem_toFinset, List.mem_toFinset, List.mem_map]
      constructor
      · intro h
        exact ⟨⟨x.1, x.2.1, x.2.2⟩, (h2 _).2 h, rfl⟩
      · rintro ⟨k, hk, rfl⟩
        exact (h2 k).1 hk
    rw [e, List.toFinset_card_of_nodup (List.Nodup.map hinj h1), List.length_map]
    simp [GoMap.keys]
  · obtain ⟨_, _, _, _, _, h⟩ := C28_nothing_lost o ops
    exact h

/-- C116: the memory is not bounded: buffers are never given up, and a program that puts, say, user names into its event names has one for each of them. -/
theorem C116_unbounded (o : StatsDOpts) (ho : o.skipNested = false) (job : Str) (names : List Str) (hn : names.Nodup) :
    names.length ≤ ((fresh o).run (names.map (fun n => .cmd (.event job n)))).prefixBuffers.length := by
  rw [(C116_buffers _ _).1]
  have hinj : Function.Injective (fun n : Str => (job, n, ([] : Str))) := fun a b e => by simpa using e
  rw [← List.length_map (f := fun n : Str => (job, n, ([] : Str))), ← List.toFinset_card_of_nodup (List.Nodup.map hinj hn)]
  refine Finset.card_le_card ?_
  intro x hx
  rw [List.mem_toFinset, List.mem_map] at hx
  obtain ⟨n, hn, rfl⟩ := hx
  rw [List.mem_toFinset, List.mem_flatMap]
  refine ⟨.event job n, ?_, by simp [seriesOf, seriesOf.both, ho]⟩
  simp only [opCmds, List.mem_filterMap, List.mem_map]
  exact ⟨_, ⟨n, hn, rfl⟩, rfl⟩

/-- a case: eight emissions, five series. -/
example : ((fresh Sample.sdo).run [.cmd (Sample.ev "a"), .cmd (Sample.ev "b"), .flush, .cmd (Sample.ev "a"), .cmd (.complete (bs "j") .success 5), .cmd (Sample.ev "b"),
    .cmd (Sample.ev "a"), .cmd (.complete (bs "j") .success 7), .cmd (.timing (bs "j") (bs "a") 7)]).prefixBuffers.length = 5 := by decide +kernel

end StatsD
