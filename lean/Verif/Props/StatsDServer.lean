import Verif.Props.StatsD
import Verif.Props.Program
import Verif.Props.LibratoSeries
import Verif.Spec.StatsDServer
/-!
# C97: what a StatsD server shows
-/
open Spec Spec.Sd StatsD
namespace StatsDServer

theorem plain_iff {s : Str} (h : Sd.Plain s) : PlainName s := by
  refine ⟨h.1, fun c hc => ?_⟩
  have all : ∀ n : Fin 256, ((65 ≤ n.val ∧ n.val ≤ 90) ∨ (97 ≤ n.val ∧ n.val ≤ 122) ∨ (48 ≤ n.val ∧ n.val ≤ 57) ∨ n.val = 95) →
      sanitizeByte (UInt8.ofNat n) = UInt8.ofNat n ∧ UInt8.ofNat n ≠ 46 := by decide +kernel
  have := all ⟨c.toNat, c.toNat_lt⟩ (h.2 c hc)
  simpa only [UInt8.ofNat_toNat] using this

theorem plain_dot {s : Str} (h : Sd.Plain s) : (46 : UInt8) ∉ s := fun hc => ((plain_iff h).2 _ hc).2 rfl
theorem plain_keeps {s : Str} (h : Sd.Plain s) : sanitizeKey s = s := sanitize_plain (plain_iff h)

theorem words_plain : Sd.Plain (bs "error") ∧ ∀ st : Status, st.str ≠ [] → Sd.Plain st.str := by
  have e : ∀ s ∈ [bs "error", bs "success", bs "validation_error", bs "panic", bs "junk", bs "unknown"], s ≠ [] ∧
      ∀ c ∈ s, (65 ≤ c.toNat ∧ c.toNat ≤ 90) ∨ (97 ≤ c.toNat ∧ c.toNat ≤ 122) ∨ (48 ≤ c.toNat ∧ c.toNat ≤ 57) ∨ c.toNat = 95 := by decide +kernel
  refine ⟨e _ (by simp), fun st => ?_⟩
  unfold Status.str
  split <;> (try split) <;> (try split) <;> (try split) <;> (try split) <;> first | exact fun h => absurd rfl h | exact fun _ => e _ (by simp)

/-- the key of plain names. -/
theorem key_eq (pfx : Str) {names : List Str} (h : ∀ n ∈ names, Sd.Plain n) :
    metricKey sanitizeKey (pfx :: names) = Lib.metricName (sanitizeKey pfx) names := by
  have h1 : names.filter (· ≠ []) = names := by
    rw [List.filter_eq_self]
    intro a ha
    simpa using (h a ha).1
  have h2 : names.map sanitizeKey = names := by
    conv_rhs => rw [← List.map_id names]
    exact List.map_congr_left (fun n hn => plain_keeps (h n hn))
  unfold metricKey Lib.metricName
  by_cases hp : pfx = []
  · subst hp
    simp only [sanitizeKey, List.map_nil, if_true, List.nil_append, ne_eq, not_true_eq_false, decide_false, Bool.false_eq_true, not_false_eq_true, List.filter_cons_of_neg]
    rw [show names.filter (fun x => decide ¬x = []) = names from h1]
    exact congrArg _ h2
  · have : sanitizeKey pfx ≠ [] := by simpa [sanitizeKey] using hp
    rw [if_neg this, List.filter_cons_of_pos (by simpa using hp), h1, List.map_cons, h2]
    rfl

theorem key_inj (pfx : Str) {a b : List Str} (ha : ∀ n ∈ a, Sd.Plain n) (hb : ∀ n ∈ b, Sd.Plain n) (ha0 : a ≠ []) (hb0 : b ≠ []) :
    metricKey sanitizeKey (pfx :: a) = metricKey sanitizeKey (pfx :: b) ↔ a = b := by
  rw [key_eq pfx ha, key_eq pfx hb]
  exact Librato.metricName_inj (fun s hs => plain_dot (ha s hs)) (fun s hs => plain_dot (hb s hs)) ha0 hb0

/-- empty names do not count. -/
theorem key_nil (f : Str → Str) (a b : Str) : metricKey f [a, b, []] = metricKey f [a, b] ∧ ∀ c, metricKey f [a, b, c, []] = metricKey f [a, b, c] := by
  constructor
  · by_cases h : a = [] <;> by_cases h' : b = [] <;> simp [metricKey, h, h']
  · intro c
    by_cases h : a = [] <;> by_cases h' : b = [] <;> by_cases h'' : c = [] <;> simp [metricKey, h, h', h'']

/-! ## What arrives -/

theorem received_all (o : StatsDOpts) (ho : o.sanitize = sanitizeKey) (ops : List StatsD.Op) (hf : ∀ c, StatsD.Op.cmd c ∈ ops → ∀ m ∈ metricsOf o c, m.fits = true) :
    received ((fresh o).run (ops ++ [.flush])).packets = (cmds ops).flatMap (metricsOf o) := by
  obtain ⟨groups, pending, h1, h2, h3⟩ := C29_datagrams_parse o ho (ops ++ [.flush])
  rw [(C28_after_flush o ops).1] at h3
  have hp : pending = [] := by
    have : parsePacket [] = some [] := rfl
    rw [this] at h3
    exact (Option.some.inj h3).symm
  subst hp
  have hr : received ((fresh o).run (ops ++ [.flush])).packets = groups.flatten := by
    unfold received
    have : ((fresh o).run (ops ++ [.flush])).packets.filterMap parsePacket = groups := by
      have := congrArg (List.filterMap id) h2
      rw [List.filterMap_map] at this
      simpa using this
    rw [this]
  rw [hr]
  rw [List.append_nil] at h1
  rw [h1]
  unfold sent
  rw [List.flatMap_append]
  simp only [List.flatMap_cons, List.flatMap_nil, List.append_nil]
  clear h1 h2 h3 hr
  induction ops with
  | nil => rfl
  | cons a t ih =>
    have ih := ih (fun c hc => hf c (by simp [hc]))
    cases a with
    | flush => simpa [cmds] using ih
    | cmd c =>
      have hc := hf c (by simp)
      simp only [List.flatMap_cons, List.filter_append]
      rw [ih, List.filter_eq_self.2 hc]
      simp [cmds]

/-! ## What one emission adds to a key -/

/-- the metrics of one emission with a type and key of plain names. -/
theorem having_one {o : StatsDOpts} (ho : o.sanitize = sanitizeKey) {c : SdCmd} (hc : Sd.PlainNames c) (type : Str) {names : List Str} (hn : ∀ n ∈ names, Sd.Plain n)
    (hne : names ≠ []) : (having (metricsOf o c) type (metricKey sanitizeKey (o.pfx :: names))).map (·.value) =
      match c with
      | .event j e => (if o.skipTop = false ∧ type = bs "c" ∧ [e] = names then [bs "1"] else []) ++ (if o.skipNested = false ∧ type = bs "c" ∧ [j, e] = names then [bs "1"] else [])
      | .eventErr j e =>
        (if o.skipTop = false ∧ type = bs "c" ∧ [e, bs "error"] = names then [bs "1"] else []) ++
        (if o.skipNested = false ∧ type = bs "c" ∧ [j, e, bs "error"] = names then [bs "1"] else [])
      | .timing j e n =>
        (if o.skipTop = false ∧ type = bs "ms" ∧ [e] = names then [timingText n] else []) ++
        (if o.skipNested = false ∧ type = bs "ms" ∧ [j, e] = names then [timingText n] else [])
      | .gauge j e v =>
        (if o.skipTop = false ∧ type = bs "g" ∧ [e] = names then [gaugeText v] else []) ++
        (if o.skipNested = false ∧ type = bs "g" ∧ [j, e] = names then [gaugeText v] else [])
      | .complete j st n => if type = bs "ms" ∧ [j, st.str] = names then [timingText n] else [] := by
  have p1 : ∀ {a : Str}, Sd.Plain a → ∀ n ∈ [a], Sd.Plain n := by intro a h n hn; simp at hn; rwa [hn]
  have p2 : ∀ {a b : Str}, Sd.Plain a → Sd.Plain b → ∀ n ∈ [a, b], Sd.Plain n := by
    intro a b ha hb n hn
    simp only [List.mem_cons, List.not_mem_nil, or_false] at hn
    rcases hn with rfl | rfl <;> assumption
  have p3 : ∀ {a b c : Str}, Sd.Plain a → Sd.Plain b → Sd.Plain c → ∀ n ∈ [a, b, c], Sd.Plain n := by
    intro a b c ha hb hc n hn
    simp only [List.mem_cons, List.not_mem_nil, or_false] at hn
    rcases hn with rfl | rfl | rfl <;> assumption
  have one : ∀ (skip : Bool) (k v t : Str) (x : List Str), metricKey sanitizeKey (o.pfx :: x) = k → (∀ n ∈ x, Sd.Plain n) → x ≠ [] →
      (having (if skip then [] else [⟨k, v, t⟩]) type (metricKey sanitizeKey (o.pfx :: names))).map (·.value) =
        if skip = false ∧ type = t ∧ x = names then [v] else [] := by
    rintro skip k v t x rfl hx hx0
    cases skip
    · simp only [Bool.false_eq_true, if_false, having, List.filter_cons, List.filter_nil, key_inj o.pfx hx hn hx0 hne, true_and, decide_eq_true_eq]
      by_cases h : type = t ∧ x = names
      · rw [if_pos ⟨h.1.symm, h.2⟩, if_pos h]; rfl
      · rw [if_neg (fun h' => h ⟨h'.1.symm, h'.2⟩), if_neg h]; rfl
    · simp [having]
  have app : ∀ a b : List Metric, ∀ k, (having (a ++ b) type k).map (·.value) = (having a type k).map (·.value) ++ (having b type k).map (·.value) := by
    intro a b k; simp [having]
  cases c with
  | event j e =>
    simp only [metricsOf, ho, app]
    rw [one _ _ _ _ [e] (key_nil _ _ _).1.symm (p1 hc.2) (by simp), one _ _ _ _ [j, e] ((key_nil _ _ _).2 _).symm (p2 hc.1 hc.2) (by simp)]
  | eventErr j e =>
    simp only [metricsOf, ho, app]
    rw [one _ _ _ _ [e, bs "error"] rfl (p2 hc.2 words_plain.1) (by simp), one _ _ _ _ [j, e, bs "error"] rfl (p3 hc.1 hc.2 words_plain.1) (by simp)]
  | timing j e n =>
    simp only [metricsOf, ho, app]
    rw [one _ _ _ _ [e] (key_nil _ _ _).1.symm (p1 hc.2) (by simp), one _ _ _ _ [j, e] ((key_nil _ _ _).2 _).symm (p2 hc.1 hc.2) (by simp)]
  | gauge j e v =>
    simp only [metricsOf, ho, app]
    rw [one _ _ _ _ [e] (key_nil _ _ _).1.symm (p1 hc.2) (by simp), one _ _ _ _ [j, e] ((key_nil _ _ _).2 _).symm (p2 hc.1 hc.2) (by simp)]
  | complete j st n =>
    have := one false (metricKey sanitizeKey [o.pfx, j, st.str]) (timingText n) (bs "ms") [j, st.str] rfl (p2 hc.1 (words_plain.2 st hc.2)) (by simp)
    simp only [Bool.false_eq_true, if_false, true_and] at this
    simpa only [metricsOf, ho] using this

theorem having_flat (o : StatsDOpts) (c : SdCmd) (cs : List SdCmd) (type k : Str) : (having ((c :: cs).flatMap (metricsOf o)) type k).map (·.value) =
    (having (metricsOf o c) type k).map (·.value) ++ (having (cs.flatMap (metricsOf o)) type k).map (·.value) := by
  simp [having]

theorem counter_eq (ms : List Metric) (k : Str) : Sd.counter ms k = (((having ms (bs "c") k).map (·.value)).filterMap parseDec).sum := by
  unfold Sd.counter; rw [List.filterMap_map]; rfl
theorem times_eq (ms : List Metric) (k : Str) : times ms k = ((having ms (bs "ms") k).map (·.value)).filterMap parseDec := by
  unfold times; rw [List.filterMap_map]; rfl

theorem types_ne : bs "c" ≠ bs "ms" ∧ bs "c" ≠ bs "g" ∧ bs "ms" ≠ bs "g" := by decide +kernel
theorem one_reads : parseDec (bs "1") = some 1 := by decide +kernel

theorem ones_sum (p : Prop) [Decidable p] : (List.filterMap parseDec (if p then [bs "1"] else [])).sum = if p then 1 else 0 := by
  by_cases h : p <;> simp [h, one_reads]

theorem counters (o : StatsDOpts) (ho : o.sanitize = sanitizeKey) (job e : Str) (hj : Sd.Plain job) (he : Sd.Plain e) :
    ∀ cs : List SdCmd, (∀ c ∈ cs, Sd.PlainNames c) →
    Sd.counter (cs.flatMap (metricsOf o)) (metricKey sanitizeKey [o.pfx, e]) = (if o.skipTop then 0 else (Sd.eventsOf cs e : ℚ)) ∧
    Sd.counter (cs.flatMap (metricsOf o)) (metricKey sanitizeKey [o.pfx, job, e]) =
      (if o.skipNested then 0 else (Sd.eventsIn cs job e : ℚ)) + (if o.skipTop = false ∧ e = bs "error" then (Sd.errorsOf cs job : ℚ) else 0) ∧
    Sd.counter (cs.flatMap (metricsOf o)) (metricKey sanitizeKey [o.pfx, job, e, bs "error"]) = (if o.skipNested then 0 else (Sd.errorsIn cs job e : ℚ)) := by
  intro cs hcs
  have n1 : ∀ n ∈ [e], Sd.Plain n := by simp [he]
  have n2 : ∀ n ∈ [job, e], Sd.Plain n := by simp [he, hj]
  have n3 : ∀ n ∈ [job, e, bs "error"], Sd.Plain n := by simp [he, hj, words_plain.1]
  simp only [counter_eq]
  induction cs with
  | nil => simp [having, Sd.eventsOf, Sd.eventsIn, Sd.errorsOf, Sd.errorsIn]
  | cons c cs ih =>
    obtain ⟨i1, i2, i3⟩ := ih (fun x hx => hcs x (by simp [hx]))
    have hc := hcs c (by simp)
    simp only [having_flat, List.filterMap_append, List.sum_append, i1, i2, i3, having_one ho hc _ n1 (by simp), having_one ho hc _ n2 (by simp), having_one ho hc _ n3 (by simp)]
    cases c with
    | event j n =>
      simp only [Sd.eventsOf, Sd.eventsIn, Sd.errorsOf, Sd.errorsIn, List.countP_cons, ones_sum, List.cons.injEq, and_true, true_and, reduceCtorEq, and_false, if_false, decide_eq_true_eq,
        Bool.false_eq_true, Nat.add_zero, List.filterMap_append, List.sum_append]
      refine ⟨?_, ?_, by simp⟩
      · cases o.skipTop <;> by_cases h : n = e <;> simp [h, add_comm]
      · cases o.skipNested <;> by_cases h : j = job ∧ n = e <;> simp only [h] <;> push_cast <;> simp <;> ring
    | eventErr j n =>
      simp only [Sd.eventsOf, Sd.eventsIn, Sd.errorsOf, Sd.errorsIn, List.countP_cons, ones_sum, List.cons.injEq, and_true, true_and, reduceCtorEq, and_false, if_false, decide_eq_true_eq,
        Bool.false_eq_true, List.filterMap_append, List.sum_append, add_zero]
      refine ⟨by simp, ?_, ?_⟩
      · cases o.skipTop <;> by_cases h : n = job <;> by_cases h' : e = bs "error" <;> simp [h, h', eq_comm (a := bs "error")] <;> ring
      · cases o.skipNested <;> by_cases h : j = job ∧ n = e <;> simp [h, add_comm]
    | timing j n v => simp [types_ne, Sd.eventsOf, Sd.eventsIn, Sd.errorsOf, Sd.errorsIn]
    | gauge j n v => simp [types_ne, Sd.eventsOf, Sd.eventsIn, Sd.errorsOf, Sd.errorsIn]
    | complete j st v => simp [types_ne, Sd.eventsOf, Sd.eventsIn, Sd.errorsOf, Sd.errorsIn]

theorem time_list {n : Int} (hn : i64 n = n) (p : Prop) [Decidable p] :
    List.Forall₂ IsMillis (List.filterMap parseDec (if p then [timingText n] else [])) (if p then [n] else []) := by
  by_cases h : p
  · obtain ⟨x, h1, h2, h3⟩ := C34_timing_text n hn
    simp only [h, if_true, List.filterMap_cons, h1, List.filterMap_nil]
    exact .cons ⟨h2, h3⟩ .nil
  · simp [h]

theorem time_lists (o : StatsDOpts) (ho : o.sanitize = sanitizeKey) (job e : Str) (hj : Sd.Plain job) (he : Sd.Plain e) :
    ∀ cs : List SdCmd, (∀ c ∈ cs, Sd.PlainNames c ∧ DurationOk c) →
    List.Forall₂ IsMillis (times (cs.flatMap (metricsOf o)) (metricKey sanitizeKey [o.pfx, e])) (if o.skipTop then [] else Sd.timingsOf cs e) ∧
    List.Forall₂ IsMillis (times (cs.flatMap (metricsOf o)) (metricKey sanitizeKey [o.pfx, job, e]))
      (if o.skipNested then Sd.completionsIn cs job e else Sd.timesIn cs job e) := by
  intro cs hcs
  have n1 : ∀ n ∈ [e], Sd.Plain n := by simp [he]
  have n2 : ∀ n ∈ [job, e], Sd.Plain n := by simp [he, hj]
  simp only [times_eq]
  induction cs with
  | nil => simp [having, Sd.timingsOf, Sd.completionsIn, Sd.timesIn]
  | cons c cs ih =>
    obtain ⟨i1, i2⟩ := ih (fun x hx => hcs x (by simp [hx]))
    obtain ⟨hc, hd⟩ := hcs c (by simp)
    simp only [having_flat, List.filterMap_append, having_one ho hc _ n1 (by simp), having_one ho hc _ n2 (by simp)]
    cases c with
    | event j n => simpa [types_ne.1.symm, Sd.timingsOf, Sd.completionsIn, Sd.timesIn] using And.intro i1 i2
    | eventErr j n => simpa [types_ne.1.symm, Sd.timingsOf, Sd.completionsIn, Sd.timesIn] using And.intro i1 i2
    | gauge j n v => simpa [types_ne, Sd.timingsOf, Sd.completionsIn, Sd.timesIn] using And.intro i1 i2
    | timing j n v =>
      have e1 : (if o.skipTop then [] else Sd.timingsOf (.timing j n v :: cs) e) =
          (if o.skipTop = false ∧ True ∧ [n] = [e] then [v] else []) ++ (if o.skipTop then [] else Sd.timingsOf cs e) := by
        cases o.skipTop <;> by_cases h : n = e <;> simp [h, Sd.timingsOf]
      have e2 : (if o.skipNested then Sd.completionsIn (.timing j n v :: cs) job e else Sd.timesIn (.timing j n v :: cs) job e) =
          (if o.skipNested = false ∧ True ∧ [j, n] = [job, e] then [v] else []) ++ (if o.skipNested then Sd.completionsIn cs job e else Sd.timesIn cs job e) := by
        cases o.skipNested <;> by_cases h : j = job ∧ n = e <;> simp [h, Sd.timesIn, Sd.completionsIn]
      rw [e1, e2]
      dsimp only
      refine ⟨?_, ?_⟩
      · rw [if_neg (by simp : ¬ (o.skipNested = false ∧ True ∧ [j, n] = [e]))]
        simp only [List.append_nil]
        exact List.rel_append (time_list hd _) i1
      · rw [if_neg (by simp : ¬ (o.skipTop = false ∧ True ∧ [n] = [job, e]))]
        simp only [List.nil_append]
        exact List.rel_append (time_list hd _) i2
    | complete j st v =>
      have e1 : Sd.timingsOf (.complete j st v :: cs) e = Sd.timingsOf cs e := by simp [Sd.timingsOf]
      have e2 : (if o.skipNested then Sd.completionsIn (.complete j st v :: cs) job e else Sd.timesIn (.complete j st v :: cs) job e) =
          (if True ∧ [j, st.str] = [job, e] then [v] else []) ++ (if o.skipNested then Sd.completionsIn cs job e else Sd.timesIn cs job e) := by
        cases o.skipNested <;> by_cases h : j = job ∧ st.str = e <;> simp [h, Sd.timesIn, Sd.completionsIn]
      rw [e1, e2]
      dsimp only
      refine ⟨?_, List.rel_append (time_list hd _) i2⟩
      rw [if_neg (by simp)]
      simpa using i1

/-- setting a gauge to a value without a sign. -/
theorem gauge_set {v : F64} (hv : Unsigned v) (old : Option ℚ) (key type : Str) : ∃ q, setGauge old ⟨key, gaugeText v, type⟩ = some q ∧ IsGauge q v := by
  obtain ⟨r, rfl, h0, hr⟩ := hv
  obtain ⟨x, h1, h2, h3⟩ := C66_gauge_text (.fin r) rfl hr
  have head : ∃ c t, gaugeText (.fin r) = c :: t ∧ IsDigit c := by
    unfold gaugeText
    split
    · unfold fmtShortest
      simp only
      split
      · exact ⟨48, [], rfl, by unfold IsDigit; decide⟩
      · have : signStr (decide (r < 0)) = [] := by simp [signStr, not_lt.2 h0]
        rw [this, List.nil_append]
        unfold decStr
        split
        · have := fixedStr_head ((shortest |r|).1 * 10 ^ (-(shortest |r|).2).toNat) 0
          simpa [fixedStr] using this
        · exact fixedStr_head _ _
    · unfold fmtFixed
      have : signStr (decide (r < 0)) = [] := by simp [signStr, not_lt.2 h0]
      simp only [this, List.nil_append]
      exact fixedStr_head _ _
  obtain ⟨c, t, hc, hd⟩ := head
  refine ⟨x, ?_, ?_⟩
  · have hne := (isDigit_ne hd).2.1
    unfold setGauge
    rw [hc] at h1 ⊢
    split <;> simp_all
  · cases hb : (F64.lt (.fin r) tenth && F64.lt negTenth (.fin r)) with
    | false => exact .inl (h3 hb)
    | true =>
      right
      obtain ⟨g1, g2⟩ := h2 hb
      have hx : 0 ≤ x := by
        by_contra hlt
        have := g2.1 (not_le.1 hlt)
        exact absurd this (not_lt.2 h0)
      rw [abs_of_nonneg hx] at g1
      rw [g1]
      exact abs_of_nonneg h0

/-- the last of the values that are set counts. -/
theorem gauge_fold {key type : Str} : ∀ (vs : List F64), (∀ v ∈ vs, Unsigned v) → ∀ old : Option ℚ,
    (vs = [] → (vs.map (fun v => (⟨key, gaugeText v, type⟩ : Metric))).foldl setGauge old = old) ∧
    ∀ v, vs.getLast? = some v → ∃ q, (vs.map (fun v => (⟨key, gaugeText v, type⟩ : Metric))).foldl setGauge old = some q ∧ IsGauge q v := by
  intro vs hv old
  refine ⟨fun h => by rw [h]; rfl, fun v hl => ?_⟩
  obtain ⟨init, rfl⟩ : ∃ init, vs = init ++ [v] := by
    rw [List.getLast?_eq_some_iff] at hl
    exact hl
  rw [List.map_append, List.foldl_append]
  exact gauge_set (hv v (by simp)) _ _ _

theorem having_value {ms : List Metric} {type key : Str} {vs : List F64} (h : (having ms type key).map (·.value) = vs.map gaugeText) :
    having ms type key = vs.map (fun v => (⟨key, gaugeText v, type⟩ : Metric)) := by
  have hk : ∀ m ∈ having ms type key, m = ⟨key, m.value, type⟩ := by
    intro m hm
    have := (List.mem_filter.1 hm).2
    simp only [decide_eq_true_eq] at this
    rw [← this.1, ← this.2]
  generalize having ms type key = l at h hk
  induction l generalizing vs with
  | nil => cases vs with
    | nil => rfl
    | cons v vs => simp at h
  | cons m l ih => cases vs with
    | nil => simp at h
    | cons v vs =>
      simp only [List.map_cons, List.cons.injEq] at h ⊢
      exact ⟨by rw [hk m (by simp), h.1], ih h.2 (fun x hx => hk x (by simp [hx]))⟩

theorem gauge_is {ms : List Metric} {key : Str} {vs : List F64} (h : (having ms (bs "g") key).map (·.value) = vs.map gaugeText) (hv : ∀ v ∈ vs, Unsigned v) :
    GaugeIs (Sd.gauge ms key) vs := by
  unfold Sd.gauge GaugeIs
  rw [having_value h]
  obtain ⟨h1, h2⟩ := gauge_fold (key := key) (type := bs "g") vs hv none
  cases hl : vs.getLast? with
  | none => exact h1 (List.getLast?_eq_none_iff.1 hl)
  | some v => exact h2 v hl

theorem gauge_lists (o : StatsDOpts) (ho : o.sanitize = sanitizeKey) (job e : Str) (hj : Sd.Plain job) (he : Sd.Plain e) :
    ∀ cs : List SdCmd, (∀ c ∈ cs, Sd.PlainNames c) →
    (having (cs.flatMap (metricsOf o)) (bs "g") (metricKey sanitizeKey [o.pfx, e])).map (·.value) = (if o.skipTop then [] else Sd.gaugesOf cs e).map gaugeText ∧
    (having (cs.flatMap (metricsOf o)) (bs "g") (metricKey sanitizeKey [o.pfx, job, e])).map (·.value) =
      (if o.skipNested then [] else Sd.gaugesIn cs job e).map gaugeText := by
  intro cs hcs
  have n1 : ∀ n ∈ [e], Sd.Plain n := by simp [he]
  have n2 : ∀ n ∈ [job, e], Sd.Plain n := by simp [he, hj]
  induction cs with
  | nil => simp [having, Sd.gaugesOf, Sd.gaugesIn]
  | cons c cs ih =>
    obtain ⟨i1, i2⟩ := ih (fun x hx => hcs x (by simp [hx]))
    have hc := hcs c (by simp)
    simp only [having_flat, i1, i2, having_one ho hc _ n1 (by simp), having_one ho hc _ n2 (by simp)]
    cases c with
    | event j n => simp [types_ne.2.1.symm, Sd.gaugesOf, Sd.gaugesIn]
    | eventErr j n => simp [types_ne.2.1.symm, Sd.gaugesOf, Sd.gaugesIn]
    | timing j n v => simp [types_ne.2.2.symm, Sd.gaugesOf, Sd.gaugesIn]
    | complete j st v => simp [types_ne.2.2.symm, Sd.gaugesOf, Sd.gaugesIn]
    | gauge j n v =>
      refine ⟨?_, ?_⟩
      · cases o.skipTop <;> by_cases h : n = e <;> simp [h, Sd.gaugesOf]
      · cases o.skipNested <;> by_cases h : j = job ∧ n = e <;> simp [h, Sd.gaugesIn]

/-- C97, partial: what a StatsD server that receives all datagrams shows after a flush, for job and event names of letters, digits and underscores and any prefix,
if no line is too long: the counters are the numbers of the events and errors (of a job, or of all), the timings are those emitted, in milliseconds, and gauges show the
last value.  Missing: errors called like a job that has events called "error" (the second equation), timings called like a status (`timesIn`), gauges with a minus sign
(see `C97_false`), and other names (see `C35_keys_not_injective`). -/
theorem C97_server_partial (o : StatsDOpts) (ho : o.sanitize = sanitizeKey) (ops : List StatsD.Op) (hf : ∀ c ∈ cmds ops, ∀ m ∈ metricsOf o c, m.fits = true)
    (hn : ∀ c ∈ cmds ops, Sd.PlainNames c ∧ DurationOk c) (job e : Str) (hj : Sd.Plain job) (he : Sd.Plain e) :
    let ms := received ((fresh o).run (ops ++ [.flush])).packets
    let key (names : List Str) : Str := metricKey sanitizeKey (o.pfx :: names)
    Sd.counter ms (key [e]) = (if o.skipTop then 0 else (Sd.eventsOf (cmds ops) e : ℚ)) ∧
    Sd.counter ms (key [job, e]) = (if o.skipNested then 0 else (Sd.eventsIn (cmds ops) job e : ℚ)) +
      (if o.skipTop = false ∧ e = bs "error" then (Sd.errorsOf (cmds ops) job : ℚ) else 0) ∧
    Sd.counter ms (key [job, e, bs "error"]) = (if o.skipNested then 0 else (Sd.errorsIn (cmds ops) job e : ℚ)) ∧
    List.Forall₂ IsMillis (times ms (key [e])) (if o.skipTop then [] else Sd.timingsOf (cmds ops) e) ∧
    List.Forall₂ IsMillis (times ms (key [job, e])) (if o.skipNested then Sd.completionsIn (cmds ops) job e else Sd.timesIn (cmds ops) job e) ∧
    ((∀ v ∈ Sd.gaugesOf (cmds ops) e, Unsigned v) → GaugeIs (Sd.gauge ms (key [e])) (if o.skipTop then [] else Sd.gaugesOf (cmds ops) e)) ∧
    ((∀ v ∈ Sd.gaugesIn (cmds ops) job e, Unsigned v) → GaugeIs (Sd.gauge ms (key [job, e])) (if o.skipNested then [] else Sd.gaugesIn (cmds ops) job e)) := by
  have hr := received_all o ho ops (fun c hc => hf c (by simpa [cmds] using ⟨_, hc, rfl⟩))
  simp only
  rw [hr]
  obtain ⟨c1, c2, c3⟩ := counters o ho job e hj he (cmds ops) (fun c hc => (hn c hc).1)
  obtain ⟨t1, t2⟩ := time_lists o ho job e hj he (cmds ops) hn
  obtain ⟨g1, g2⟩ := gauge_lists o ho job e hj he (cmds ops) (fun c hc => (hn c hc).1)
  refine ⟨c1, c2, c3, t1, t2, fun h => gauge_is g1 ?_, fun h => gauge_is g2 ?_⟩
  · intro v hv
    split at hv
    · simp at hv
    · exact h v hv
  · intro v hv
    split at hv
    · simp at hv
    · exact h v hv

/-- options and a history for the examples: a flush in the middle, all kinds of emissions. -/
def exOpts : StatsDOpts := ⟨bs "my.app", sanitizeKey, false, false⟩
def exOps : List StatsD.Op :=
  [.cmd (.event (bs "j") (bs "e")), .cmd (.gauge (bs "j") (bs "g") (.fin (5/2))), .flush, .cmd (.event (bs "k") (bs "e")), .cmd (.eventErr (bs "k") (bs "e")),
   .cmd (.timing (bs "j") (bs "t") 1500000), .cmd (.complete (bs "j") Status.success 25000000), .cmd (.gauge (bs "j") (bs "g") (.fin (1/64)))]

/-- a case that meets the hypotheses of `C97_server_partial`. -/
example : exOpts.sanitize = sanitizeKey ∧ (∀ c ∈ cmds exOps, ∀ m ∈ metricsOf exOpts c, m.fits = true) ∧ (∀ c ∈ cmds exOps, Sd.PlainNames c ∧ DurationOk c) ∧
    Sd.Plain (bs "j") ∧ Sd.Plain (bs "g") ∧ (∀ v ∈ Sd.gaugesOf (cmds exOps) (bs "g"), Unsigned v) ∧ Sd.gaugesOf (cmds exOps) (bs "g") ≠ [] := by
  have p : ∀ s ∈ [bs "j", bs "k", bs "e", bs "g", bs "t"], s ≠ [] ∧
      ∀ c ∈ s, (65 ≤ c.toNat ∧ c.toNat ≤ 90) ∨ (97 ≤ c.toNat ∧ c.toNat ≤ 122) ∨ (48 ≤ c.toNat ∧ c.toNat ≤ 57) ∨ c.toNat = 95 := by decide +kernel
  have hj : Sd.Plain (bs "j") := p _ (by simp)
  have hk : Sd.Plain (bs "k") := p _ (by simp)
  have he : Sd.Plain (bs "e") := p _ (by simp)
  have hg : Sd.Plain (bs "g") := p _ (by simp)
  have ht : Sd.Plain (bs "t") := p _ (by simp)
  have r : F64.rnd (5/2) = .fin (5/2) ∧ F64.rnd (1/64) = .fin (1/64) := by decide +kernel
  have hgs : Sd.gaugesOf (cmds exOps) (bs "g") = [.fin (5/2), .fin (1/64)] := by decide +kernel
  refine ⟨rfl, by decide +kernel, ?_, hj, hg, ?_, by rw [hgs]; simp⟩
  · simp only [exOps, cmds, List.filterMap_cons, List.filterMap_nil, List.forall_mem_cons]
    have i : i64 1500000 = 1500000 ∧ i64 25000000 = 25000000 ∧ Status.success.str ≠ [] := by decide +kernel
    exact ⟨⟨⟨hj, he⟩, trivial⟩, ⟨⟨hj, hg⟩, trivial⟩, ⟨⟨hk, he⟩, trivial⟩, ⟨⟨hk, he⟩, trivial⟩, ⟨⟨hj, ht⟩, i.1⟩, ⟨⟨hj, i.2.2⟩, i.2.1⟩, ⟨⟨hj, hg⟩, trivial⟩, by simp⟩
  · rw [hgs]
    simp only [List.forall_mem_cons]
    exact ⟨⟨_, rfl, by norm_num, r.1⟩, ⟨_, rfl, by norm_num, r.2⟩, by simp⟩

/-- what the server shows in this case. -/
example : let ms := received ((fresh exOpts).run (exOps ++ [.flush])).packets
    ms.length = 13 ∧ Sd.counter ms (bs "my.app.e") = 2 ∧ Sd.counter ms (bs "my.app.k.e.error") = 1 ∧ times ms (bs "my.app.j.success") = [25] ∧
    times ms (bs "my.app.t") = [3/2] ∧ Sd.gauge ms (bs "my.app.j.g") = some (1/64) := by decide +kernel

/-- C97 without its exceptions is false.  A gauge set to -5 after 10 shows 5, because a sign makes a change of the value; a gauge set to minus zero keeps its value;
an event called "error" of the job "x" and an error called "x" are one counter; a timing called "success" is one of the times of the job's successes. -/
theorem C97_false :
    let shown (cs : List SdCmd) := received ((fresh exOpts).run (cs.map .cmd ++ [.flush])).packets
    Sd.gauge (shown [.gauge (bs "j") (bs "g") (.fin 10), .gauge (bs "j") (bs "g") (.fin (-5))]) (bs "my.app.g") = some 5 ∧
    Sd.gauge (shown [.gauge (bs "j") (bs "g") (.fin 10), .gauge (bs "j") (bs "g") .negZero]) (bs "my.app.g") = some 10 ∧
    Sd.counter (shown [.event (bs "x") (bs "error"), .eventErr (bs "j") (bs "x")]) (bs "my.app.x.error") = 2 ∧
    times (shown [.complete (bs "j") Status.success 25000000, .timing (bs "j") (bs "success") 90000000]) (bs "my.app.j.success") = [25, 90] := by decide +kernel

end StatsDServer
