import Verif.Lemmas.StatsD
import Verif.Lemmas.Shortest
import Mathlib.Data.List.Basic
/-!
# Properties C27–C30, C33–C35, C66: what the StatsD sink sends
`StatsD.run (fresh o) ops` is a sink with options `o` after the emissions and flushes `ops`.
-/
open Spec StatsD

namespace Sample
def sdo : StatsDOpts := ⟨bs "my app", sanitizeKey, false, false⟩
/-- hostile names, a flush in between, and a metric that is too long to be sent. -/
def sdops : List StatsD.Op := [.cmd (.event (bs "j:1|c\n") (bs "e")), .cmd (.timing (bs "j") (bs "e") 1234567), .flush,
  .cmd (.gauge (bs "j") (bs "g") (F64.rnd (1/100))), .cmd (.event (bs "j") (List.replicate 1500 97)),
  .cmd (.complete (bs "j") Status.success 25000000)]
example : ((fresh sdo).run sdops).packets = [bs "my$app.e:1|c\nmy$app.j$1$c$.e:1|c\nmy$app.e:1.23|ms\nmy$app.j.e:1.23|ms\n"] ∧
    ((fresh sdo).run sdops).udpBuf = bs "my$app.g:0.01|g\nmy$app.j.g:0.01|g\nmy$app.j.success:25|ms\n" := by decide +kernel
end Sample

/-- the sink's constructor yields a fresh sink. -/
theorem new_fresh (p : Str) (f : Option (Str → Str)) (nested top : Bool) :
    StatsD.new (some (p, f, nested, top)) = fresh ⟨p, f.getD sanitizeKey, nested, top⟩ ∧
    StatsD.new none = fresh ⟨[], sanitizeKey, false, false⟩ := ⟨rfl, rfl⟩

theorem map_split {α β : Type} (f : α → β) (gs : List (List β)) (p : List β) (ms : List α) (h : gs.flatten ++ p = ms.map f) :
    ∃ (gms : List (List α)) (pm : List α), gms.flatten ++ pm = ms ∧ gs = gms.map (List.map f) ∧ p = pm.map f := by
  induction gs generalizing ms with
  | nil => exact ⟨[], ms, rfl, rfl, by simpa using h⟩
  | cons g gs ih =>
    rw [List.flatten_cons, List.append_assoc] at h
    obtain ⟨a, b, h1, h2, h3⟩ := List.map_eq_append_iff.1 h.symm
    obtain ⟨gms, pm, h4, h5, h6⟩ := ih b h3.symm
    exact ⟨a :: gms, pm, by simp [h1, ← h4], by simp [← h2, ← h5], h6⟩

/-! ## C27, C28 -/

/-- C27: every packet is non-empty and has at most 1440 bytes. -/
theorem C27_packet_size (o : StatsDOpts) (ops : List StatsD.Op) :
    ∀ p ∈ ((fresh o).run ops).packets, p ≠ [] ∧ p.length ≤ 1440 :=
  ((Inv.fresh o).run ops).packed.size

/-- C28: the packets sent, followed by the pending bytes, are exactly the lines of the emitted metrics (those of at most 1440 bytes),
in order; every packet consists of whole lines; at most 1440 bytes are pending. -/
theorem C28_nothing_lost (o : StatsDOpts) (ops : List StatsD.Op) :
    ∃ (groups : List (List Metric)) (pending : List Metric),
      groups.flatten ++ pending = sent o ops ∧
      ((fresh o).run ops).packets = groups.map (fun g => (g.map Metric.line).flatten) ∧
      ((fresh o).run ops).udpBuf = (pending.map Metric.line).flatten ∧
      ((fresh o).run ops).udpBuf.length ≤ 1440 := by
  have h := ((Inv.fresh o).run ops).packed
  obtain ⟨groups, pending, h1, h2, h3, _⟩ := h.parts
  rw [List.nil_append] at h1
  obtain ⟨gms, pm, g1, g2, g3⟩ := map_split Metric.line groups pending (sent o ops) h1
  refine ⟨gms, pm, g1, ?_, by rw [h3, g3], h.buf⟩
  rw [h2, g2, List.map_map]
  rfl

/-- C28 for flush: afterwards nothing is pending, so the packets alone carry everything. -/
theorem C28_after_flush (o : StatsDOpts) (ops : List StatsD.Op) :
    ((fresh o).run (ops ++ [.flush])).udpBuf = [] ∧
    ((fresh o).run (ops ++ [.flush])).packets.flatten = ((sent o ops).map Metric.line).flatten := by
  have h := ((Inv.fresh o).run ops).packed
  obtain ⟨h1, h2⟩ := h.flush
  have e : (fresh o).run (ops ++ [.flush]) = ((fresh o).run ops).flush := by simp [StatsD.run, StatsD.step]
  rw [e]
  refine ⟨h2, ?_⟩
  obtain ⟨groups, pending, g1, g2, g3, _⟩ := h1.parts
  rw [List.nil_append] at g1
  rw [← g1, List.flatten_append, g2, ← g3, h2, List.append_nil, ← List.flatten_flatten]

example : ((sent Sample.sdo Sample.sdops).length, ((fresh Sample.sdo).run Sample.sdops).packets.length) = (7, 1) := by decide +kernel

/-! ## C30, C33 -/

/-- all bytes handed over so far. -/
def stream (s : StatsD) : Str := s.packets.flatten ++ s.udpBuf

theorem stream_eq (o : StatsDOpts) (ops : List StatsD.Op) :
    stream ((fresh o).run ops) = ((sent o ops).map Metric.line).flatten := by
  obtain ⟨groups, pending, h1, h2, h3, _⟩ := C28_nothing_lost o ops
  rw [stream, h2, h3, ← h1]
  simp only [List.map_append, List.flatten_append, List.map_flatten, List.flatten_flatten, List.map_map]
  rfl

/-- C30, C33: whatever was emitted before, an emission adds exactly the lines of its own metrics (top level, then nested, as the
options say; one for a completion) that are not oversized: they depend on the options and the emission only. -/
theorem C33_lines_of_emission (o : StatsDOpts) (ops : List StatsD.Op) (c : SdCmd) :
    stream ((fresh o).run (ops ++ [.cmd c])) =
      stream ((fresh o).run ops) ++ (((metricsOf o c).filter Metric.fits).map Metric.line).flatten := by
  rw [stream_eq, stream_eq]
  simp [sent, List.filter_append]

/-- C30: the bytes that an emission adds are the same after any two histories. -/
theorem C30_history_independent (o : StatsDOpts) (ops ops' : List StatsD.Op) (c : SdCmd) :
    ∃ bytes, stream ((fresh o).run (ops ++ [.cmd c])) = stream ((fresh o).run ops) ++ bytes ∧
      stream ((fresh o).run (ops' ++ [.cmd c])) = stream ((fresh o).run ops') ++ bytes :=
  ⟨_, C33_lines_of_emission o ops c, C33_lines_of_emission o ops' c⟩

/-- C33: numbers of lines by option, for an event. -/
example (p j e : Str) (f : Str → Str) : (metricsOf ⟨p, f, true, true⟩ (.event j e)).length = 0 ∧
    (metricsOf ⟨p, f, false, true⟩ (.event j e)).length = 1 ∧ (metricsOf ⟨p, f, false, false⟩ (.event j e)).length = 2 ∧
    (metricsOf ⟨p, f, true, true⟩ (.complete j Status.junk 1)).length = 1 := by simp [metricsOf]

/-- the characters that a StatsD key may contain. -/
def Spec.keyChars : Str := bs "ABCDEFGHIJKLMNOPQRSTUVWXYZabcdefghijklmnopqrstuvwxyz0123456789_."

/-- C33: unless a function of the user's is given, names are sanitised byte by byte: letters, digits, `_` and `.` stay, everything else becomes `$`. -/
theorem C33_sanitizer (p : Str) (skipTop skipNested : Bool) (s : Str) :
    (StatsD.new (some (p, none, skipTop, skipNested))).opts.sanitize s = s.map (fun c => if c ∈ Spec.keyChars then c else 36) ∧
    (StatsD.new none).opts.sanitize s = s.map (fun c => if c ∈ Spec.keyChars then c else 36) := by
  have all : ∀ n : Fin 256, sanitizeByte (UInt8.ofNat n) = if UInt8.ofNat n ∈ Spec.keyChars then UInt8.ofNat n else 36 := by decide +kernel
  have h : sanitizeKey s = s.map (fun c => if c ∈ Spec.keyChars then c else 36) := by
    unfold sanitizeKey
    apply List.map_congr_left
    intro c _
    have := all ⟨c.toNat, c.toNat_lt⟩
    simpa only [UInt8.ofNat_toNat] using this
  exact ⟨h, h⟩

example : (StatsD.new none).opts.sanitize (bs "api/v1 ü.x_Y") = bs "api$v1$$$.x_Y" := by decide +kernel

/-- C33: a key consists of the sanitised non-empty names, separated by dots (names without dots that stay so when sanitised). -/
theorem C33_key_segments (f : Str → Str) (names : List Str) (hd : ∀ n ∈ names, n ≠ [] → 46 ∉ f n)
    (hne : ∃ n ∈ names, n ≠ []) :
    (metricKey f names).splitOn 46 = (names.filter (· ≠ [])).map f := by
  unfold metricKey
  apply List.splitOn_intercalate
  · intro l hl
    obtain ⟨n, hn, rfl⟩ := List.mem_map.1 hl
    have := List.mem_filter.1 hn
    exact hd n this.1 (by simpa using this.2)
  · obtain ⟨n, hn, h0⟩ := hne
    intro h
    have : n ∈ names.filter (· ≠ []) := by simp [hn, h0]
    rw [List.map_eq_nil_iff] at h
    rw [h] at this
    simp at this

example : (metricKey sanitizeKey [[], bs "job", [], bs "success"]).splitOn 46 = [bs "job", bs "success"] := by decide +kernel

/-! ## C29 -/

theorem clean_append {a b : Str} (ha : Clean a) (hb : Clean b) : Clean (a ++ b) := by
  intro c hc
  rcases List.mem_append.1 hc with h | h
  · exact ha c h
  · exact hb c h

theorem parseLines_lines (ms : List Metric) (h : ∀ m ∈ ms, Clean m.key ∧ Clean m.value ∧ Clean m.type) (fuel : Nat)
    (hf : ms.length ≤ fuel) : parseLines fuel (ms.map Metric.line).flatten = some ms := by
  induction ms generalizing fuel with
  | nil => cases fuel <;> rfl
  | cons m ms ih =>
    cases fuel with
    | zero => simp at hf
    | succ fuel =>
      obtain ⟨hk, hv, ht⟩ := h m (by simp)
      have hl : m.line = (m.key ++ (58 :: (m.value ++ 124 :: m.type))) ++ [10] := by
        obtain ⟨k, v, t⟩ := m
        rw [line_eq]; simp
      have hn : (10 : UInt8) ∉ m.key ++ (58 :: (m.value ++ 124 :: m.type)) := by
        intro h10
        simp only [List.mem_append, List.mem_cons] at h10
        rcases h10 with h | h | h | h | h
        · exact (hk _ h).1 rfl
        · exact absurd h (by decide)
        · exact (hv _ h).1 rfl
        · exact absurd h (by decide)
        · exact (ht _ h).1 rfl
      rw [List.map_cons, List.flatten_cons, hl, List.append_assoc, List.singleton_append]
      have hne : ∃ c t, m.key ++ (58 :: (m.value ++ 124 :: m.type)) ++ 10 :: (ms.map Metric.line).flatten = c :: t := by
        cases hx : m.key ++ (58 :: (m.value ++ 124 :: m.type)) ++ 10 :: (ms.map Metric.line).flatten with
        | nil => simp at hx
        | cons c t => exact ⟨c, t, rfl⟩
      obtain ⟨c, t, hct⟩ := hne
      have hstep : parseLines (fuel + 1) (c :: t) = (do
          let (line, rest) ← cut 10 (c :: t)
          let (key, r) ← cut 58 line
          let (value, type) ← cut 124 r
          let ms ← parseLines fuel rest
          return ⟨key, value, type⟩ :: ms) := rfl
      rw [hct, hstep, ← hct, cut_append hn]
      simp only [Option.bind_eq_bind, Option.bind_some]
      rw [cut_append (fun h58 => (hk _ h58).2.1 rfl)]
      simp only [Option.bind_some]
      rw [cut_append (fun h124 => (hv _ h124).2.2 rfl)]
      simp only [Option.bind_some]
      rw [ih (fun m' hm' => h m' (by simp [hm'])) fuel (by simpa using hf)]
      rfl

theorem parsePacket_lines (ms : List Metric) (h : ∀ m ∈ ms, Clean m.key ∧ Clean m.value ∧ Clean m.type) :
    parsePacket (ms.map Metric.line).flatten = some ms := by
  apply parseLines_lines ms h
  have : ∀ m : Metric, 1 ≤ m.line.length := by
    intro m
    obtain ⟨k, v, t⟩ := m
    rw [line_eq]; simp; omega
  clear h
  induction ms with
  | nil => simp
  | cons m ms ih => have := this m; simp only [List.map_cons, List.flatten_cons, List.length_append, List.length_cons]; omega

theorem sanitizeByte_clean (c : UInt8) : sanitizeByte c ≠ 10 ∧ sanitizeByte c ≠ 58 ∧ sanitizeByte c ≠ 124 := by
  have : ∀ n < 256, sanitizeByte (UInt8.ofNat n) ≠ 10 ∧ sanitizeByte (UInt8.ofNat n) ≠ 58 ∧ sanitizeByte (UInt8.ofNat n) ≠ 124 := by
    decide +kernel
  have h := this c.toNat c.toNat_lt
  rwa [UInt8.ofNat_toNat] at h

theorem metricKey_clean (names : List Str) : Clean (metricKey sanitizeKey names) := by
  have key : ∀ l : List Str, (∀ x ∈ l, Clean x) → Clean ([(46 : UInt8)].intercalate l) := by
    intro l
    induction l with
    | nil => intro _ c hc; simp [List.intercalate] at hc
    | cons a t ih =>
      intro h
      cases t with
      | nil => simpa [List.intercalate] using h a (by simp)
      | cons b t =>
        have h1 := ih (fun x hx => h x (by simp [hx]))
        have : [(46 : UInt8)].intercalate (a :: b :: t) = a ++ ([46] ++ [(46 : UInt8)].intercalate (b :: t)) := by
          simp [List.intercalate]
        rw [this]
        exact clean_append (h a (by simp)) (clean_append (by decide) h1)
  apply key
  intro x hx
  obtain ⟨n, _, rfl⟩ := List.mem_map.1 hx
  intro c hc
  obtain ⟨b, _, rfl⟩ := List.mem_map.1 hc
  exact sanitizeByte_clean b

theorem timingText_clean (n : Int) : Clean (timingText n) := by
  unfold timingText
  split
  · exact intStr_clean _
  · exact fmtFixed_clean _ _

theorem gaugeText_clean (v : F64) : Clean (gaugeText v) := by
  unfold gaugeText
  split
  · exact fmtShortest_clean _
  · exact fmtFixed_clean _ _

theorem metricsOf_clean (o : StatsDOpts) (ho : o.sanitize = sanitizeKey) (c : SdCmd) :
    ∀ m ∈ metricsOf o c, Clean m.key ∧ Clean m.value ∧ Clean m.type := by
  have h1 : Clean (bs "1") := by decide +kernel
  have h2 : Clean (bs "c") := by decide +kernel
  have h3 : Clean (bs "ms") := by decide +kernel
  have h4 : Clean (bs "g") := by decide +kernel
  have both : ∀ (j e s v t : Str), Clean v → Clean t →
      ∀ m ∈ (if o.skipTop then [] else [⟨metricKey o.sanitize [o.pfx, e, s], v, t⟩] : List Metric) ++
        (if o.skipNested then [] else [⟨metricKey o.sanitize [o.pfx, j, e, s], v, t⟩]),
      Clean m.key ∧ Clean m.value ∧ Clean m.type := by
    intro j e s v t hv ht m hm
    rw [ho] at hm
    rcases List.mem_append.1 hm with hm | hm
    · simp at hm
      obtain ⟨_, rfl⟩ := hm; exact ⟨metricKey_clean _, hv, ht⟩
    · simp at hm
      obtain ⟨_, rfl⟩ := hm; exact ⟨metricKey_clean _, hv, ht⟩
  cases c with
  | event j e => exact both _ _ _ _ _ h1 h2
  | eventErr j e => exact both _ _ _ _ _ h1 h2
  | timing j e n => exact both _ _ _ _ _ (timingText_clean n) h3
  | gauge j e v => exact both _ _ _ _ _ (gaugeText_clean v) h4
  | complete j st n =>
    intro m hm
    simp only [metricsOf, List.mem_singleton] at hm
    subst hm
    rw [ho]
    exact ⟨metricKey_clean _, timingText_clean n, h3⟩

/-- C29: with the default sanitiser, whatever bytes are in prefix, job and event names, a StatsD server that cuts the packets at
newlines, ':' and '|' reads exactly the emitted metrics, in order. -/
theorem C29_datagrams_parse (o : StatsDOpts) (ho : o.sanitize = sanitizeKey) (ops : List StatsD.Op) :
    ∃ (groups : List (List Metric)) (pending : List Metric),
      groups.flatten ++ pending = sent o ops ∧
      ((fresh o).run ops).packets.map parsePacket = groups.map some ∧
      parsePacket ((fresh o).run ops).udpBuf = some pending := by
  obtain ⟨groups, pending, h1, h2, h3, _⟩ := C28_nothing_lost o ops
  have hc : ∀ m ∈ sent o ops, Clean m.key ∧ Clean m.value ∧ Clean m.type := by
    intro m hm
    have := (List.mem_filter.1 hm).1
    obtain ⟨op, _, hop⟩ := List.mem_flatMap.1 this
    cases op with
    | cmd c => exact metricsOf_clean o ho c m hop
    | flush => simp at hop
  refine ⟨groups, pending, h1, ?_, ?_⟩
  · rw [h2, List.map_map]
    apply List.map_congr_left
    intro g hg
    exact parsePacket_lines g (fun m hm => hc m (by
      rw [← h1]; exact List.mem_append_left _ (List.mem_flatten.2 ⟨g, hg, hm⟩)))
  · rw [h3]
    exact parsePacket_lines pending (fun m hm => hc m (by rw [← h1]; exact List.mem_append_right _ hm))

example : (((fresh Sample.sdo).run Sample.sdops).packets.map parsePacket) =
    [some [⟨bs "my$app.e", bs "1", bs "c"⟩, ⟨bs "my$app.j$1$c$.e", bs "1", bs "c"⟩,
      ⟨bs "my$app.e", bs "1.23", bs "ms"⟩, ⟨bs "my$app.j.e", bs "1.23", bs "ms"⟩]] := by decide +kernel

/-! ## C34, C66 -/

theorem ofInt_million : F64.ofInt 1000000 = .fin 1000000 := by decide +kernel

/-- C34: the timing text reads back as the duration in milliseconds: truncated to an integer from 10 ms up; below (including negative
durations) within half a hundredth of a millisecond, up to float rounding (relative 2^-51). -/
theorem C34_timing_text (n : Int) (hn : i64 n = n) :
    ∃ x : ℚ, parseDec (timingText n) = some x ∧
      (10000000 ≤ n → x = (n / 1000000 : ℤ)) ∧
      (n < 10000000 → |x - n / 1000000| ≤ 1 / 200 + |(n : ℚ)| / 1000000 * (2:ℚ) ^ (-51 : ℤ)) := by
  unfold timingText
  by_cases h : n ≥ 10000000
  · rw [if_pos h]
    refine ⟨_, intStr_parse _, ?_, fun h' => by omega⟩
    intro _
    rw [Int.tdiv_eq_ediv_of_nonneg (by omega)]
  · rw [if_neg h]
    have hlt : n < 10000000 := by omega
    have hrange : -2 ^ 63 ≤ n ∧ n < 2 ^ 63 := by
      rw [← hn]
      unfold i64
      have h1 := BitVec.le_toInt (BitVec.ofInt 64 n)
      have h2 := BitVec.toInt_lt (x := BitVec.ofInt 64 n)
      constructor <;> omega
    by_cases h0 : n = 0
    · subst h0
      refine ⟨0, by decide +kernel, by omega, ?_⟩
      intro _
      norm_num
    · have hq1 : (1:ℚ) ≤ |(n : ℚ)| := by
        have : (1 : ℤ) ≤ |n| := Int.one_le_abs h0
        have : ((1 : ℤ) : ℚ) ≤ ((|n| : ℤ) : ℚ) := by exact_mod_cast this
        simpa using this
      have hbig : |(n : ℚ)| ≤ (2:ℚ) ^ (63:ℕ) := by
        have : |n| ≤ 2 ^ 63 := by rw [abs_le]; omega
        have : ((|n| : ℤ) : ℚ) ≤ ((2 ^ 63 : ℤ) : ℚ) := by exact_mod_cast this
        rw [Int.cast_abs] at this
        exact_mod_cast this
      have e53 : (2:ℚ) ^ (-53 : ℤ) = 1 / 2 ^ (53:ℕ) := by rw [zpow_neg]; norm_num
      have e51 : (2:ℚ) ^ (-51 : ℤ) = 1 / 2 ^ (51:ℕ) := by rw [zpow_neg]; norm_num
      have small : (2:ℚ) ^ (-1022 : ℤ) ≤ 1 / 2 ^ (53:ℕ) := by
        rw [← e53]; exact zpow_le_zpow_right₀ (by norm_num) (by norm_num)
      have large : (2:ℚ) ^ (64:ℕ) < (2:ℚ) ^ (1024 : ℤ) := by
        rw [← zpow_natCast]; exact zpow_lt_zpow_right₀ (by norm_num) (by norm_num)
      -- the first rounding
      have r1 := F64.rndQ_rel (q := (n : ℚ)) (le_trans small (by linarith))
      rw [e53] at r1
      set a := F64.rndQ (n : ℚ) with ha
      have habs : |a| ≤ |(n : ℚ)| + |(n : ℚ)| * (1 / 2 ^ (53:ℕ)) := by
        have := abs_sub_abs_le_abs_sub a (n : ℚ); linarith
      have habs2 : |(n : ℚ)| - |(n : ℚ)| * (1 / 2 ^ (53:ℕ)) ≤ |a| := by
        have := abs_sub_abs_le_abs_sub (n : ℚ) a
        rw [abs_sub_comm] at this; linarith
      have ha0 : a ≠ 0 := by
        intro h0
        rw [h0, abs_zero] at habs2
        norm_num at habs2
        linarith
      have hafin : F64.ofInt n = .fin a := by
        unfold F64.ofInt
        apply F64.rnd_eq_fin _ ha0
        rw [← ha]
        refine lt_of_le_of_lt habs (lt_trans ?_ large)
        norm_num at hbig ⊢
        linarith
      -- the second rounding
      have hdiv : F64.div (F64.ofInt n) (F64.ofInt 1000000) = F64.rnd (a / 1000000) := by
        rw [hafin, ofInt_million]
        simp [F64.div, F64.toRat, ha0]
      have hq : |a / 1000000| = |a| / 1000000 := by rw [abs_div]; norm_num
      have r2 := F64.rndQ_rel (q := a / 1000000) (by
        refine le_trans small ?_
        rw [hq]
        norm_num at habs2 hq1 ⊢
        linarith)
      rw [e53, hq] at r2
      have hfin := F64.rnd_fin (q := a / 1000000) (by
        have := abs_sub_abs_le_abs_sub (F64.rndQ (a / 1000000)) (a / 1000000)
        rw [hq] at this
        refine lt_trans ?_ large
        norm_num at hbig habs r2 ⊢
        linarith)
      obtain ⟨x, hx1, hx2⟩ := fmtFixed_parse (F64.rnd (a / 1000000)) hfin.1 2
      rw [hfin.2] at hx2
      refine ⟨x, by rw [hdiv]; exact hx1, by omega, ?_⟩
      intro _
      have t1 : |x - n / 1000000| ≤ |x - F64.rndQ (a / 1000000)| + (|F64.rndQ (a / 1000000) - a / 1000000| + |a / 1000000 - n / 1000000|) := by
        have e : x - (n : ℚ) / 1000000 = (x - F64.rndQ (a / 1000000)) + ((F64.rndQ (a / 1000000) - a / 1000000) + (a / 1000000 - n / 1000000)) := by ring
        rw [e]
        exact (abs_add_le _ _).trans (add_le_add_right (abs_add_le _ _) _)
      have t2 : |a / 1000000 - (n : ℚ) / 1000000| = |a - n| / 1000000 := by
        rw [← sub_div, abs_div]; norm_num
      rw [t2] at t1
      rw [e51]
      norm_num at hx2 r1 r2 t1 habs ⊢
      linarith

example : i64 (-1234567) = -1234567 ∧ timingText (-1234567) = bs "-1.23" ∧ timingText 9999999 = bs "10.00" ∧
    timingText 10999999 = bs "10" := by decide +kernel

/-- C66: the gauge text reads back as the value: to within half a hundredth, and exactly (to the same float64) for values between
-0.1 and 0.1. -/
theorem C66_gauge_text (v : F64) (hv : v.isFinite = true) (hval : v.Valid) :
    ∃ x : ℚ, parseDec (gaugeText v) = some x ∧
      ((F64.lt v tenth && F64.lt negTenth v) = true → (F64.rnd |x|).toRat = |v.toRat| ∧ (x < 0 ↔ v.toRat < 0)) ∧
      ((F64.lt v tenth && F64.lt negTenth v) = false → |x - v.toRat| ≤ 1 / 200) := by
  unfold gaugeText
  cases h : (F64.lt v tenth && F64.lt negTenth v) with
  | true =>
    obtain ⟨x, h1, h2, h3⟩ := fmtShortest_roundtrip v hv hval
    exact ⟨x, by simpa using h1, fun _ => ⟨h2, h3⟩, by simp⟩
  | false =>
    obtain ⟨x, h1, h2⟩ := fmtFixed_parse v hv 2
    refine ⟨x, by simpa using h1, by simp, fun _ => ?_⟩
    norm_num at h2 ⊢
    exact h2

example : (F64.rnd (1/100)).Valid ∧ gaugeText (F64.rnd (1/100)) = bs "0.01" ∧ gaugeText (.fin (-5/4)) = bs "-1.25" ∧
    F64.lt (F64.rnd (1/100)) tenth = true := by
  refine ⟨?_, ?_, ?_, ?_⟩
  · have : F64.rnd (1/100) = .fin (5764607523034235/576460752303423488) := by decide +kernel
    rw [this]
    show F64.rnd _ = _
    decide +kernel
  · decide +kernel
  · decide +kernel
  · decide +kernel

/-! ## C35 -/

/-- C35 is false: different emissions of the same kind share their keys, because names may contain the separator and because
other characters are replaced; and events collide with errors. -/
theorem C35_keys_not_injective :
    metricsOf Sample.sdo (.event (bs "a.b") (bs "c")) ≠ [] ∧
    (metricsOf Sample.sdo (.event (bs "a.b") (bs "c"))).getLast? = (metricsOf Sample.sdo (.event (bs "a") (bs "b.c"))).getLast? ∧
    metricsOf Sample.sdo (.event (bs "x y") (bs "c")) = metricsOf Sample.sdo (.event (bs "x-y") (bs "c")) ∧
    (metricsOf Sample.sdo (.event (bs "a") (bs "b"))).getLast? = (metricsOf Sample.sdo (.event (bs "z") (bs "a.b"))).head? ∧
    metricsOf Sample.sdo (.event (bs "a") (bs "x.error")) = metricsOf Sample.sdo (.eventErr (bs "a") (bs "x")) := by
  decide +kernel

/-- names made of ASCII letters, digits and underscores. -/
def PlainName (s : Str) : Prop := s ≠ [] ∧ ∀ c ∈ s, sanitizeByte c = c ∧ c ≠ 46

theorem sanitize_plain {s : Str} (h : PlainName s) : sanitizeKey s = s := by
  unfold sanitizeKey
  conv_rhs => rw [← List.map_id s]
  exact List.map_congr_left (fun c hc => (h.2 c hc).1)

theorem key_plain (pfx : Str) (names : List Str) (hp : pfx = [] ∨ PlainName pfx) (hn : ∀ n ∈ names, n = [] ∨ PlainName n)
    (hne : ∃ n ∈ names, n ≠ []) :
    (metricKey sanitizeKey (pfx :: names)).splitOn 46 = ((pfx :: names).filter (· ≠ [])) := by
  rw [C33_key_segments]
  · conv_rhs => rw [← List.map_id ((pfx :: names).filter _)]
    apply List.map_congr_left
    intro s hs
    have h1 := List.mem_filter.1 hs
    have h2 : s ≠ [] := by simpa using h1.2
    rcases List.mem_cons.1 h1.1 with h | h
    · subst h; rcases hp with hp | hp
      · exact absurd hp h2
      · exact sanitize_plain hp
    · rcases hn s h with hn | hn
      · exact absurd hn h2
      · exact sanitize_plain hn
  · intro s hs h2
    have hpl : PlainName s := by
      rcases List.mem_cons.1 hs with h | h
      · subst h; rcases hp with hp | hp
        · exact absurd hp h2
        · exact hp
      · rcases hn s h with hn | hn
        · exact absurd hn h2
        · exact hn
    rw [sanitize_plain hpl]
    intro h46; exact (hpl.2 _ h46).2 rfl
  · obtain ⟨n, h1, h2⟩ := hne
    exact ⟨n, by simp [h1], h2⟩

/-- C35, partial: with the default sanitiser and job and event names made of letters, digits and underscores only, the nested key
determines job and event and the top-level key determines the event (also with the suffix of errors).
Missing: other names, for which it is false. -/
theorem C35_keys_injective_partial (pfx : Str) (hp : pfx = [] ∨ PlainName pfx) (suffix : Str) (hs : suffix = [] ∨ PlainName suffix)
    (j e j' e' : Str) (hj : PlainName j) (he : PlainName e) (hj' : PlainName j') (he' : PlainName e') :
    (metricKey sanitizeKey [pfx, j, e, suffix] = metricKey sanitizeKey [pfx, j', e', suffix] ↔ j = j' ∧ e = e') ∧
    (metricKey sanitizeKey [pfx, e, suffix] = metricKey sanitizeKey [pfx, e', suffix] ↔ e = e') ∧
    metricKey sanitizeKey [pfx, j, e, suffix] ≠ metricKey sanitizeKey [pfx, e', suffix] := by
  have k4 : ∀ a b, PlainName a → PlainName b → (metricKey sanitizeKey [pfx, a, b, suffix]).splitOn 46 =
      [pfx, a, b, suffix].filter (· ≠ []) := fun a b ha hb =>
    key_plain pfx [a, b, suffix] hp (by
      intro n hn
      simp only [List.mem_cons, List.not_mem_nil, or_false] at hn
      rcases hn with rfl | rfl | rfl
      · exact .inr ha
      · exact .inr hb
      · exact hs) ⟨a, by simp, ha.1⟩
  have k3 : ∀ a, PlainName a → (metricKey sanitizeKey [pfx, a, suffix]).splitOn 46 =
      [pfx, a, suffix].filter (· ≠ []) := fun a ha =>
    key_plain pfx [a, suffix] hp (by
      intro n hn
      simp only [List.mem_cons, List.not_mem_nil, or_false] at hn
      rcases hn with rfl | rfl
      · exact .inr ha
      · exact hs) ⟨a, by simp, ha.1⟩
  refine ⟨⟨?_, by rintro ⟨rfl, rfl⟩; rfl⟩, ⟨?_, by rintro rfl; rfl⟩, ?_⟩
  · intro h
    have h1 := k4 j e hj he
    rw [h, k4 j' e' hj' he'] at h1
    by_cases hpe : pfx = [] <;> by_cases hse : suffix = [] <;>
      simp [List.filter_cons, hpe, hse, hj.1, he.1, hj'.1, he'.1] at h1 <;> exact ⟨h1.1.symm, h1.2.symm⟩
  · intro h
    have h1 := k3 e he
    rw [h, k3 e' he'] at h1
    by_cases hpe : pfx = [] <;> by_cases hse : suffix = [] <;>
      simp [List.filter_cons, hpe, hse, he.1, he'.1] at h1 <;> exact h1.symm
  · intro h
    have h1 := congrArg List.length (k4 j e hj he)
    rw [h, k3 e' he'] at h1
    by_cases hpe : pfx = [] <;> by_cases hse : suffix = [] <;>
      simp [List.filter_cons, hpe, hse, hj.1, he.1, he'.1] at h1

example : PlainName (bs "job_1") ∧ ¬ PlainName (bs "a.b") := by
  constructor
  · exact ⟨by decide +kernel, by decide +kernel⟩
  · intro h; exact absurd (h.2 46 (by decide +kernel)).2 (by decide)
