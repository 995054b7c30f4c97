import Verif.Spec.StatsD
import Verif.Lemmas.Aggregation
/-! Lemmas about the StatsD sink. -/
open Spec
namespace StatsD

/-- the key part of a line, with the colon. -/
def keyBytes (o : StatsDOpts) (k : EventKey) : Str :=
  metricKey o.sanitize [o.pfx, k.job, k.event, k.suffix] ++ [58]

theorem intercalate_snoc_ne {α : Type} (sep : List α) (l : List (List α)) (x : List α) (h : l ≠ []) :
    sep.intercalate (l ++ [x]) = sep.intercalate l ++ sep ++ x := by
  induction l with
  | nil => exact absurd rfl h
  | cons a t ih =>
    cases t with
    | nil => simp [List.intercalate]
    | cons b t => 
      have := ih (by simp)
      simp only [List.intercalate, List.cons_append, List.intersperse_cons₂, List.flatten_cons] at this ⊢
      rw [this]; simp

theorem writeKeys_eq (f : Str → Str) (ks : List Str) (done : List Str) :
    writeKeys f ks (!done.isEmpty) ([(46 : UInt8)].intercalate done) =
      [(46 : UInt8)].intercalate (done ++ (ks.filter (· ≠ [])).map f) := by
  induction ks generalizing done with
  | nil => simp [writeKeys]
  | cons k ks ih =>
    unfold writeKeys
    by_cases hk : k = []
    · simp only [hk, ne_eq, not_true_eq_false, if_false, decide_not, decide_true, Bool.not_true, List.filter_cons, Bool.false_eq_true]
      simpa using ih done
    · have h2 := ih (done ++ [f k])
      simp only [ne_eq, hk, not_false_eq_true, if_true, List.filter_cons, decide_true, List.map_cons]
      have h3 : (!(done ++ [f k]).isEmpty) = true := by cases done <;> rfl
      rw [h3] at h2
      simp only [List.append_assoc, List.cons_append, List.nil_append] at h2
      cases done with
      | nil => simpa [List.intercalate] using h2
      | cons a t =>
        rw [← h2, intercalate_snoc_ne _ _ _ (by simp)]
        simp

theorem writeKeys_start (f : Str → Str) (ks : List Str) : writeKeys f ks false [] = metricKey f ks := by
  have := writeKeys_eq f ks []
  simpa [List.intercalate, metricKey] using this

/-- every cached buffer starts with its key. -/
def CacheOk (s : StatsD) : Prop :=
  ∀ k pb, s.prefixBuffers.get? k = some pb → pb.bytes.take pb.prefixLen = keyBytes s.opts k ∧
    pb.prefixLen = (keyBytes s.opts k).length

theorem emitLine_eq (s : StatsD) (h : CacheOk s) (k : EventKey) (rest : Str) :
    (∃ c, s.emitLine k rest = ({ s with prefixBuffers := c } : StatsD).writeMetric (keyBytes s.opts k ++ rest)) ∧
    CacheOk (s.emitLine k rest) ∧ (s.emitLine k rest).opts = s.opts := by
  have hw : ∀ (t : StatsD) (b : Str), (t.writeMetric b).opts = t.opts ∧ (t.writeMetric b).prefixBuffers = t.prefixBuffers := by
    intro t b
    unfold writeMetric
    simp only
    repeat' split
    all_goals exact ⟨rfl, rfl⟩
  have main : ∃ c pb, s.getPrefixBuffer k = ({ s with prefixBuffers := c }, pb) ∧ pb.bytes = keyBytes s.opts k ∧
      pb.prefixLen = (keyBytes s.opts k).length ∧
      (∀ k' pb', c.get? k' = some pb' → pb'.bytes.take pb'.prefixLen = keyBytes s.opts k' ∧ pb'.prefixLen = (keyBytes s.opts k').length) := by
    unfold getPrefixBuffer
    cases hg : s.prefixBuffers.get? k with
    | none =>
      refine ⟨_, _, rfl, ?_, ?_, ?_⟩
      · simp only [writeKeys_start]; rfl
      · simp only [writeKeys_start]; rfl
      · intro k' pb' hk
        rw [GoMap.get?_set] at hk
        split at hk
        · next he =>
          subst he
          simp only [Option.some.injEq] at hk
          subst hk
          simp only [writeKeys_start]
          exact ⟨List.take_length, rfl⟩
        · exact h k' pb' hk
    | some pb =>
      obtain ⟨h1, h2⟩ := h k pb hg
      refine ⟨_, _, rfl, h1, h2, ?_⟩
      intro k' pb' hk
      rw [GoMap.get?_set] at hk
      split at hk
      · next he =>
        subst he
        simp only [Option.some.injEq] at hk
        subst hk
        exact ⟨by simp only [List.take_take, Nat.min_self]; exact h1, h2⟩
      · exact h k' pb' hk
  obtain ⟨c, pb, e1, e2, e3, e4⟩ := main
  have hem : s.emitLine k rest = ({ s with prefixBuffers := c.set k ⟨pb.bytes ++ rest, pb.prefixLen⟩ } : StatsD).writeMetric
      (keyBytes s.opts k ++ rest) := by
    unfold emitLine
    rw [e1]
    simp only [e2]
  refine ⟨⟨_, hem⟩, ?_, by rw [hem, (hw _ _).1]⟩
  rw [hem]
  intro k' pb' hk
  rw [(hw _ _).2] at hk
  rw [(hw _ _).1]
  simp only at hk ⊢
  rw [GoMap.get?_set] at hk
  split at hk
  · next he =>
    subst he
    simp only [Option.some.injEq] at hk
    subst hk
    simp only [e2, e3]
    exact ⟨List.take_left, trivial⟩
  · exact e4 k' pb' hk

/-- `lines` are the lines accepted so far: whole lines were put into packets, the rest is pending. -/
structure Packed (s : StatsD) (lines : List Str) : Prop where
  parts : ∃ (groups : List (List Str)) (pending : List Str), groups.flatten ++ pending = lines ∧ s.packets = groups.map List.flatten ∧
    s.udpBuf = pending.flatten ∧ (∀ g ∈ groups, g ≠ [])
  size : ∀ p ∈ s.packets, p ≠ [] ∧ p.length ≤ maxUdpBytes
  buf : s.udpBuf.length ≤ maxUdpBytes
  nonempty : ∀ l ∈ lines, l ≠ []

theorem flatten_ne_nil {l : List Str} (h : ∀ x ∈ l, x ≠ []) (hne : l ≠ []) : l.flatten ≠ [] := by
  cases l with
  | nil => exact absurd rfl hne
  | cons a t =>
    have := h a (by simp)
    simp only [List.flatten_cons, ne_eq, List.append_eq_nil_iff, not_and]
    intro h0; exact absurd h0 this

theorem Packed.flush {s : StatsD} {lines : List Str} (h : Packed s lines) :
    Packed s.flush lines ∧ s.flush.udpBuf = [] := by
  unfold StatsD.flush
  split
  · next hl =>
    obtain ⟨groups, pending, h1, h2, h3, h4⟩ := h.parts
    have hp : pending ≠ [] := by rintro rfl; rw [h3] at hl; simp at hl
    refine ⟨⟨⟨groups ++ [pending], [], by simp [h1], by simp [h2, h3], rfl, ?_⟩, ?_, by simp, h.nonempty⟩, rfl⟩
    · intro g hg
      rcases List.mem_append.1 hg with hg | hg
      · exact h4 g hg
      · simp only [List.mem_singleton] at hg; subst hg; exact hp
    · intro p hp
      rcases List.mem_append.1 hp with hp | hp
      · exact h.size p hp
      · simp only [List.mem_singleton] at hp; subst hp
        exact ⟨by intro h0; rw [h0] at hl; simp at hl, h.buf⟩
  · next hl =>
    exact ⟨h, List.eq_nil_of_length_eq_zero (by omega)⟩

theorem Packed.write {s : StatsD} {lines : List Str} (h : Packed s lines) (b : Str) (hb : b ≠ []) :
    Packed (s.writeMetric b) (lines ++ if b.length ≤ maxUdpBytes then [b] else []) := by
  have hlen : b.length ≠ 0 := by simpa using hb
  unfold writeMetric
  simp only [hlen, if_false]
  by_cases hbig : b.length > maxUdpBytes
  · rw [if_pos hbig, if_neg (show ¬ b.length ≤ maxUdpBytes by omega), List.append_nil]; exact h
  · rw [if_neg hbig, if_pos (show b.length ≤ maxUdpBytes by omega)]
    obtain ⟨groups, pending, h1, h2, h3, h4⟩ := h.parts
    have hne : ∀ l ∈ lines ++ [b], l ≠ [] := by
      intro l hl
      rcases List.mem_append.1 hl with hl | hl
      · exact h.nonempty l hl
      · simp only [List.mem_singleton] at hl; subst hl; exact hb
    by_cases hover : b.length + s.udpBuf.length > maxUdpBytes
    · rw [if_pos hover]
      have hu : s.udpBuf ≠ [] := by
        intro h0; rw [h0] at hover; simp at hover; omega
      have hp : pending ≠ [] := by rintro rfl; exact hu h3
      refine ⟨⟨groups ++ [pending], [b], by simp [← h1], by simp [h2, h3], by simp, ?_⟩, ?_, by simp; omega, hne⟩
      · intro g hg
        rcases List.mem_append.1 hg with hg | hg
        · exact h4 g hg
        · simp only [List.mem_singleton] at hg; subst hg; exact hp
      · intro p hp
        rcases List.mem_append.1 hp with hp | hp
        · exact h.size p hp
        · simp only [List.mem_singleton] at hp; subst hp
          exact ⟨hu, h.buf⟩
    · rw [if_neg hover]
      refine ⟨⟨groups, pending ++ [b], by simp [← h1], h2, by simp [h3], h4⟩, h.size, by simp; omega, hne⟩

theorem Packed.congr {s : StatsD} {lines : List Str} (h : Packed s lines) (c : GoMap EventKey PrefixBuffer) :
    Packed { s with prefixBuffers := c } lines := ⟨h.parts, h.size, h.buf, h.nonempty⟩

/-- the state of a sink with options `o` that has accepted `lines`. -/
structure Inv (o : StatsDOpts) (s : StatsD) (lines : List Str) : Prop where
  opts : s.opts = o
  cache : CacheOk s
  packed : Packed s lines

theorem Inv.emitLine {o : StatsDOpts} {s : StatsD} {lines : List Str} (h : Inv o s lines) (k : EventKey) (rest : Str) :
    Inv o (s.emitLine k rest)
      (lines ++ if (keyBytes o k ++ rest).length ≤ maxUdpBytes then [keyBytes o k ++ rest] else []) := by
  obtain ⟨⟨c, h1⟩, h2, h3⟩ := emitLine_eq s h.cache k rest
  refine ⟨h3.trans h.opts, h2, ?_⟩
  rw [h1, ← h.opts]
  apply (h.packed.congr c).write
  simp [keyBytes]

/-- a line as `keyBytes ++ rest`. -/
theorem line_eq (key value : Str) (type : Str) :
    Metric.line ⟨key, value, type⟩ = (key ++ [58]) ++ (value ++ (124 :: type) ++ [10]) := by
  have h1 : bs ":" = [58] := by decide +kernel
  have h2 : bs "|" = [124] := by decide +kernel
  have h3 : bs "\n" = [10] := by decide +kernel
  simp [Metric.line, h1, h2, h3]

theorem metricKey_skip (f : Str → Str) (p e x : Str) : metricKey f [p, [], e, x] = metricKey f [p, e, x] := by
  simp [metricKey, List.filter_cons]
theorem metricKey_skip2 (f : Str → Str) (p j x : Str) : metricKey f [p, j, [], x] = metricKey f [p, j, x] := by
  simp [metricKey, List.filter_cons]
theorem metricKey_skip3 (f : Str → Str) (p e : Str) : metricKey f [p, e, []] = metricKey f [p, e] := by
  simp [metricKey, List.filter_cons]
theorem metricKey_skip4 (f : Str → Str) (p j e : Str) : metricKey f [p, j, e, []] = metricKey f [p, j, e] := by
  simp [metricKey, List.filter_cons]

theorem Inv.metric {o : StatsDOpts} {s : StatsD} {lines : List Str} (h : Inv o s lines) (k : EventKey) (rest : Str) (m : Metric)
    (hm : m.line = keyBytes o k ++ rest) :
    Inv o (s.emitLine k rest) (lines ++ (([m].filter Metric.fits).map Metric.line)) := by
  have := h.emitLine k rest
  rw [← hm] at this
  have hf : (([m].filter Metric.fits).map Metric.line) = if m.line.length ≤ maxUdpBytes then [m.line] else [] := by
    simp only [List.filter_cons, Metric.fits, maxUdpBytes]
    by_cases hl : m.line.length ≤ 1440 <;> simp [hl]
  rw [hf]; exact this

theorem Inv.emitBoth {o : StatsDOpts} {s : StatsD} {lines : List Str} (h : Inv o s lines) (job event suffix value type rest : Str)
    (hrest : rest = value ++ (124 :: type) ++ [10]) :
    Inv o (s.emitBoth job event suffix rest) (lines ++
      (((if o.skipTop then [] else [⟨metricKey o.sanitize [o.pfx, event, suffix], value, type⟩] : List Metric) ++
        (if o.skipNested then [] else [⟨metricKey o.sanitize [o.pfx, job, event, suffix], value, type⟩] : List Metric)).filter Metric.fits).map
        Metric.line) := by
  have top : ∀ {s lines}, Inv o s lines → _ := fun {s lines} (h : Inv o s lines) =>
    h.metric ⟨[], event, suffix⟩ rest ⟨metricKey o.sanitize [o.pfx, event, suffix], value, type⟩
      (by rw [line_eq, hrest]; simp [keyBytes, metricKey_skip])
  have nested : ∀ {s lines}, Inv o s lines → _ := fun {s lines} (h : Inv o s lines) =>
    h.metric ⟨job, event, suffix⟩ rest ⟨metricKey o.sanitize [o.pfx, job, event, suffix], value, type⟩
      (by rw [line_eq, hrest]; simp [keyBytes])
  unfold StatsD.emitBoth
  rw [h.opts]
  cases h1 : o.skipTop <;> cases h2 : o.skipNested
  · have a := top h
    have b := nested a
    simp only [Bool.false_eq_true, if_false, a.opts, h2, List.filter_append, List.map_append, ← List.append_assoc]
    exact b
  · have a := top h
    simp only [Bool.false_eq_true, if_false, a.opts, h2, if_true, List.append_nil]
    exact a
  · simp only [if_true, h.opts, h2, Bool.false_eq_true, if_false, List.nil_append]
    exact nested h
  · simp only [if_true, h.opts, h2]
    simpa using h

theorem rest1 : bs "1|c\n" = bs "1" ++ (124 :: bs "c") ++ [10] := by decide +kernel
theorem restms : bs "|ms\n" = (124 :: bs "ms") ++ [10] := by decide +kernel
theorem restg : bs "|g\n" = (124 :: bs "g") ++ [10] := by decide +kernel

theorem Inv.processCmd {o : StatsDOpts} {s : StatsD} {lines : List Str} (h : Inv o s lines) (c : SdCmd) :
    Inv o (s.processCmd c) (lines ++ ((metricsOf o c).filter Metric.fits).map Metric.line) := by
  cases c with
  | event j e => exact h.emitBoth j e [] (bs "1") (bs "c") _ rest1
  | eventErr j e => exact h.emitBoth j e (bs "error") (bs "1") (bs "c") _ rest1
  | timing j e n => exact h.emitBoth j e [] (timingText n) (bs "ms") (timingText n ++ bs "|ms\n") (by rw [restms, List.append_assoc])
  | gauge j e v => exact h.emitBoth j e [] (gaugeText v) (bs "g") (gaugeText v ++ bs "|g\n") (by rw [restg, List.append_assoc])
  | complete j st n =>
    refine h.metric ⟨j, [], st.str⟩ _ ⟨metricKey o.sanitize [o.pfx, j, st.str], timingText n, bs "ms"⟩ ?_
    rw [line_eq, restms]
    simp [keyBytes, metricKey_skip2]

/-- the metrics of one operation. -/
def opMetrics (o : StatsDOpts) : Op → List Metric
  | .cmd c => metricsOf o c
  | .flush => []

theorem Inv.step {o : StatsDOpts} {s : StatsD} {lines : List Str} (h : Inv o s lines) (op : Op) :
    Inv o (s.step op) (lines ++ ((opMetrics o op).filter Metric.fits).map Metric.line) := by
  cases op with
  | cmd c => exact h.processCmd c
  | flush =>
    obtain ⟨h1, _⟩ := h.packed.flush
    simp only [opMetrics, List.filter_nil, List.map_nil, List.append_nil, StatsD.step]
    refine ⟨?_, ?_, h1⟩
    · unfold StatsD.flush; split <;> exact h.opts
    · unfold StatsD.flush; split <;> exact h.cache

theorem Inv.run {o : StatsDOpts} {s : StatsD} {lines : List Str} (h : Inv o s lines) (ops : List Op) :
    Inv o (s.run ops) (lines ++ (sent o ops).map Metric.line) := by
  induction ops generalizing s lines with
  | nil => simpa [StatsD.run, sent] using h
  | cons op ops ih =>
    have := ih (h.step op)
    have hs : sent o (op :: ops) = (opMetrics o op).filter Metric.fits ++ sent o ops := by
      simp only [sent, List.flatMap_cons, List.filter_append]
      congr 1
    rw [hs, List.map_append, ← List.append_assoc]
    exact this

/-- a sink that has just been created. -/
def fresh (o : StatsDOpts) : StatsD := ⟨o, [], [], []⟩

theorem Inv.fresh (o : StatsDOpts) : Inv o (fresh o) [] where
  opts := rfl
  cache := by intro k pb h; simp [StatsD.fresh] at h
  packed := ⟨⟨[], [], rfl, rfl, rfl, by simp⟩, by simp [StatsD.fresh], by simp [StatsD.fresh], by simp⟩

end StatsD
