import Verif.Spec.Librato
import Verif.Lemmas.Metrics
import Verif.Lemmas.Encode
import Verif.Lemmas.F64Mono
/-!
# Librato: the state is a function of the emissions since the last flush
-/
open Spec Spec.Lib

namespace Librato

theorem metricName_two (p a s : Str) : metricName p [a, s] = (if p ≠ [] then p ++ [46] else []) ++ a ++ [46] ++ s := by
  unfold metricName
  by_cases h : p = [] <;> simp [h, List.intercalate, List.intersperse]

theorem metricName_three (p a b s : Str) : metricName p [a, b, s] = (if p ≠ [] then p ++ [46] else []) ++ a ++ [46] ++ b ++ [46] ++ s := by
  unfold metricName
  by_cases h : p = [] <;> simp [h, List.intercalate, List.intersperse]

theorem metricName_four (p a b s t : Str) :
    metricName p [a, b, s, t] = (if p ≠ [] then p ++ [46] else []) ++ a ++ [46] ++ b ++ [46] ++ s ++ [46] ++ t := by
  unfold metricName
  by_cases h : p = [] <;> simp [h, List.intercalate, List.intersperse]

theorem millis_eq (n : Int) : millis n = inMillis n := by
  have : F64.ofInt 1000000 = .fin 1000000 := by decide +kernel
  unfold millis inMillis
  rw [this]

theorem eventKeys_eq (o : Opts) (job e s : Str) (hs : s ≠ []) :
    eventKeys o job e s = (metricName o.pfx [o.sanitize e, s], metricName o.pfx [o.sanitize job, o.sanitize e, s]) := by
  unfold eventKeys
  simp only
  rw [if_pos hs, metricName_two, metricName_three]

/-- an emission as a list of increments and measurements. -/
theorem process_eq (o : Opts) (s : State) (job : Str) (p : Payload) :
    process o s job p = (measures o (job, p)).foldl (fun s q => measure s q.1 q.2) ((countsIn o (job, p)).foldl inc s) := by
  have e1 : bs "error.count" = bs "error" ++ [46] ++ bs "count" := by decide +kernel
  have e2 : bs ".timing" = [46] ++ bs "timing" := by decide +kernel
  cases p with
  | event e =>
    simp only [process, measures, countsIn, List.foldl_nil, List.foldl_cons]
    rw [eventKeys_eq _ _ _ _ (by decide +kernel)]
  | eventErr e err =>
    simp only [process, measures, countsIn, List.foldl_nil, List.foldl_cons]
    rw [eventKeys_eq _ _ _ _ (by decide +kernel), metricName_two, metricName_three, metricName_three, metricName_four, e1]
    simp only [List.append_assoc]
  | timing e n =>
    simp only [process, measures, countsIn, List.foldl_nil, List.foldl_cons]
    rw [eventKeys_eq _ _ _ _ (by decide +kernel), millis_eq]
  | gauge e v =>
    simp only [process, measures, countsIn, List.foldl_nil, List.foldl_cons]
    rw [eventKeys_eq _ _ _ _ (by decide +kernel)]
  | complete st n =>
    simp only [process, measures, countsIn, List.foldl_nil, List.foldl_cons]
    rw [metricName_three, millis_eq, e2]
    simp only [List.append_assoc]

/-! ## counters -/

def CountersAre (m : GoMap Str Int) (ks : List Str) : Prop :=
  m.Wf ∧ ∀ k, m.get? k = if ks.count k = 0 then none else some (i64 (ks.count k))

theorem CountersAre.inc {s : State} {ks : List Str} (h : CountersAre s.counters ks) (k : Str) :
    CountersAre (Librato.inc s k).counters (ks ++ [k]) := by
  refine ⟨h.1.set _ _, fun k' => ?_⟩
  simp only [Librato.inc]
  rw [GoMap.get?_set, List.count_append]
  by_cases e : k' = k
  · subst e
    rw [if_pos rfl, List.count_singleton_self, if_neg (by omega)]
    congr 1
    unfold GoMap.getD
    rw [h.2 k']
    split
    · next h0 => rw [h0]; rfl
    · rw [Option.getD_some, i64_add_i64_left]; push_cast; rfl
  · rw [if_neg e, h.2 k']
    have : List.count k' [k] = 0 := List.count_eq_zero.2 (by simp [e])
    rw [this, Nat.add_zero]

theorem incs {ks : List Str} (ks' : List Str) : ∀ {s : State}, CountersAre s.counters ks →
    CountersAre (ks'.foldl inc s).counters (ks ++ ks') ∧ (ks'.foldl inc s).timers = s.timers := by
  induction ks' generalizing ks with
  | nil => intro s h; simpa using h
  | cons k t ih =>
    intro s h
    have := ih (h.inc k)
    rw [List.foldl_cons]
    rw [List.append_assoc] at this
    exact this

/-! ## measurements -/

/-- the measurement of a list of values. -/
def gaugeOf : List F64 → Option Gauge
  | [] => none
  | x :: xs => some (xs.foldl (fun g v => ⟨i64 (g.count + 1), g.sum.add v, if v.lt g.min then v else g.min,
      if g.max.lt v then v else g.max, g.sumSquares.add (v.mul v)⟩) ⟨1, x, x, x, x.mul x⟩)

def at' (ps : List (Str × F64)) (k : Str) : List F64 := (ps.filter (fun p => p.1 = k)).map (·.2)

def TimersAre (m : GoMap Str Gauge) (ps : List (Str × F64)) : Prop := m.Wf ∧ ∀ k, m.get? k = gaugeOf (at' ps k)

theorem gaugeOf_snoc (xs : List F64) (v : F64) : gaugeOf (xs ++ [v]) = some (match gaugeOf xs with
    | none => ⟨1, v, v, v, v.mul v⟩
    | some g => ⟨i64 (g.count + 1), g.sum.add v, if v.lt g.min then v else g.min, if g.max.lt v then v else g.max,
      g.sumSquares.add (v.mul v)⟩) := by
  cases xs with
  | nil => rfl
  | cons x xs => simp only [List.cons_append, gaugeOf, List.foldl_append, List.foldl_cons, List.foldl_nil]

theorem TimersAre.measure {s : State} {ps : List (Str × F64)} (h : TimersAre s.timers ps) (k : Str) (v : F64) :
    TimersAre (Librato.measure s k v).timers (ps ++ [(k, v)]) := by
  have hg : (Librato.measure s k v).timers = s.timers.set k ((gaugeOf (at' ps k ++ [v])).getD ⟨0, .nan, .nan, .nan, .nan⟩) := by
    rw [gaugeOf_snoc, ← h.2 k]
    unfold Librato.measure
    cases s.timers.get? k <;> rfl
  rw [hg]
  refine ⟨h.1.set _ _, fun k' => ?_⟩
  rw [GoMap.get?_set]
  by_cases e : k' = k
  · subst e
    rw [if_pos rfl]
    have : at' (ps ++ [(k', v)]) k' = at' ps k' ++ [v] := by simp [at']
    rw [this, gaugeOf_snoc]
    rfl
  · have : at' (ps ++ [(k, v)]) k' = at' ps k' := by simp [at', Ne.symm e]
    rw [if_neg e, h.2 k', this]

theorem measuress {ps : List (Str × F64)} (ps' : List (Str × F64)) : ∀ {s : State}, TimersAre s.timers ps →
    TimersAre (ps'.foldl (fun s q => measure s q.1 q.2) s).timers (ps ++ ps') ∧
    (ps'.foldl (fun s q => measure s q.1 q.2) s).counters = s.counters := by
  induction ps' generalizing ps with
  | nil => intro s h; simpa using h
  | cons p t ih =>
    intro s h
    have := ih (h.measure p.1 p.2)
    rw [List.foldl_cons]
    rw [List.append_assoc] at this
    refine ⟨this.1, this.2.trans ?_⟩
    unfold Librato.measure
    split <;> rfl

/-- the worker's maps are those of a list of emissions. -/
def Holds (o : Opts) (es : List Emission) (s : State) : Prop :=
  CountersAre s.counters (es.flatMap (countsIn o)) ∧ TimersAre s.timers (es.flatMap (measures o))

theorem holds_init (o : Opts) : Holds o [] init :=
  ⟨⟨.nil, fun k => by simp [init]⟩, ⟨.nil, fun k => by simp [init, at', gaugeOf]⟩⟩

theorem Holds.process {o : Opts} {es : List Emission} {s : State} (h : Holds o es s) (job : Str) (p : Payload) :
    Holds o (es ++ [(job, p)]) (process o s job p) := by
  rw [process_eq]
  obtain ⟨h1, h2⟩ := incs (countsIn o (job, p)) h.1
  obtain ⟨h3, h4⟩ := measuress (s := (countsIn o (job, p)).foldl inc s) (measures o (job, p)) (by rw [h2]; exact h.2)
  refine ⟨?_, ?_⟩
  · rw [h4, List.flatMap_append]; simpa using h1
  · rw [List.flatMap_append]; simpa using h3

/-! ## the map sent -/

theorem foldl_set_get {V : Type} (f : V → Entry) (m : GoMap Str V) (hw : m.Wf) : ∀ g : GoMap Str Entry, g.Wf →
    (m.foldl (fun (a : GoMap Str Entry) p => a.set p.1 (f p.2)) g).Wf ∧
    ∀ k, (m.foldl (fun (a : GoMap Str Entry) p => a.set p.1 (f p.2)) g).get? k =
      match m.get? k with
      | some v => some (f v)
      | none => g.get? k := by
  induction m with
  | nil => intro g hg; exact ⟨hg, fun k => by simp⟩
  | cons p t ih =>
    intro g hg
    have hw' : GoMap.Wf t := by
      unfold GoMap.Wf GoMap.keys at hw ⊢
      rw [List.map_cons] at hw
      exact (List.nodup_cons.1 hw).2
    have hp : GoMap.get? t p.1 = none := by
      rw [GoMap.get?_eq_none_iff]
      unfold GoMap.Wf GoMap.keys at hw
      rw [List.map_cons] at hw
      exact (List.nodup_cons.1 hw).1
    obtain ⟨h1, h2⟩ := ih hw' (g.set p.1 (f p.2)) (hg.set _ _)
    rw [List.foldl_cons]
    refine ⟨h1, fun k => ?_⟩
    rw [h2 k, GoMap.get?_cons, GoMap.get?_set]
    by_cases e : k = p.1
    · subst e
      simp [hp]
    · have e' : ¬ p.1 = k := fun x => e x.symm
      simp only [e, e', if_false]

theorem entries_get (s : State) (h1 : s.timers.Wf) (h2 : s.counters.Wf) : (entries s).Wf ∧ ∀ k, (entries s).get? k =
    match s.counters.get? k with
    | some n => some (.counter n)
    | none => (s.timers.get? k).map .gauge := by
  obtain ⟨a1, a2⟩ := foldl_set_get Entry.gauge s.timers h1 [] .nil
  obtain ⟨b1, b2⟩ := foldl_set_get Entry.counter s.counters h2 _ a1
  unfold entries
  refine ⟨b1, fun k => ?_⟩
  simp only
  rw [b2 k]
  cases s.counters.get? k with
  | some n => rfl
  | none =>
    simp only
    rw [a2 k]
    cases s.timers.get? k <;> simp

/-! ## counters and measurements have different names -/

theorem metricName_last (p : Str) (ns : List Str) (x : Str) (hx : x ≠ []) : (metricName p (ns ++ [x])).getLast? = x.getLast? := by
  unfold metricName
  rw [← List.append_assoc]
  generalize (if p = [] then [] else [p]) ++ ns = l
  have : ∃ pre, [46].intercalate (l ++ [x]) = pre ++ x := by
    induction l with
    | nil => exact ⟨[], by simp [List.intercalate]⟩
    | cons a t ih =>
      obtain ⟨pre, hpre⟩ := ih
      cases t with
      | nil => exact ⟨a ++ [46], by simp [List.intercalate, List.intersperse]⟩
      | cons b t =>
        refine ⟨a ++ [46] ++ pre, ?_⟩
        have : [46].intercalate (a :: b :: t ++ [x]) = a ++ [46] ++ [46].intercalate (b :: t ++ [x]) := by
          simp [List.intercalate, List.intersperse]
        rw [this, hpre]
        simp only [List.append_assoc]
  obtain ⟨pre, h⟩ := this
  rw [h, List.getLast?_append]
  cases hl : x.getLast? with
  | none => exact absurd (List.getLast?_eq_none_iff.1 hl) hx
  | some a => rfl

theorem countsIn_last {o : Opts} {e : Emission} {k : Str} (h : k ∈ countsIn o e) : k.getLast? = some 116 := by
  obtain ⟨job, p⟩ := e
  have hl : (bs "count").getLast? = some 116 := by decide +kernel
  have hne : bs "count" ≠ [] := by decide +kernel
  cases p with
  | event e =>
    simp only [countsIn, List.mem_cons, List.not_mem_nil, or_false] at h
    rcases h with rfl | rfl
    · exact (metricName_last _ [_] _ hne).trans hl
    · exact (metricName_last _ [_, _] _ hne).trans hl
  | eventErr e err =>
    simp only [countsIn, List.mem_cons, List.not_mem_nil, or_false] at h
    rcases h with rfl | rfl
    · exact (metricName_last _ [_, _] _ hne).trans hl
    · exact (metricName_last _ [_, _, _] _ hne).trans hl
  | _ => simp [countsIn] at h

theorem measures_last {o : Opts} {e : Emission} {q : Str × F64} (h : q ∈ measures o e) : q.1.getLast? ≠ some 116 := by
  obtain ⟨job, p⟩ := e
  have hl : (bs "timing").getLast? ≠ some 116 := by decide +kernel
  have hne : bs "timing" ≠ [] := by decide +kernel
  have hl' : (bs "gauge").getLast? ≠ some 116 := by decide +kernel
  have hne' : bs "gauge" ≠ [] := by decide +kernel
  cases p with
  | timing e n =>
    simp only [measures, List.mem_cons, List.not_mem_nil, or_false] at h
    rcases h with rfl | rfl
    · exact (metricName_last _ [_] _ hne).trans_ne hl
    · exact (metricName_last _ [_, _] _ hne).trans_ne hl
  | gauge e v =>
    simp only [measures, List.mem_cons, List.not_mem_nil, or_false] at h
    rcases h with rfl | rfl
    · exact (metricName_last _ [_] _ hne').trans_ne hl'
    · exact (metricName_last _ [_, _] _ hne').trans_ne hl'
  | complete st n =>
    simp only [measures, List.mem_cons, List.not_mem_nil, or_false] at h
    subst h
    exact (metricName_last _ [_, _] _ hne).trans_ne hl
  | _ => simp [measures] at h

theorem counted_pos {o : Opts} {es : List Emission} {k : Str} (h : 0 < counted o es k) : k.getLast? = some 116 := by
  have := List.count_pos_iff.1 h
  obtain ⟨e, _, he⟩ := List.mem_flatMap.1 this
  exact countsIn_last he

theorem valuesAt_ne {o : Opts} {es : List Emission} {k : Str} (h : valuesAt o es k ≠ []) : k.getLast? ≠ some 116 := by
  unfold valuesAt at h
  obtain ⟨v, hv⟩ := List.exists_mem_of_ne_nil _ h
  obtain ⟨q, hq, _⟩ := List.mem_map.1 hv
  obtain ⟨hq, hk⟩ := List.mem_filter.1 hq
  obtain ⟨e, _, he⟩ := List.mem_flatMap.1 hq
  have := measures_last he
  simp only [decide_eq_true_eq] at hk
  rwa [hk] at this

end Librato
