import Verif.Lemmas.Librato
import Verif.Props.Writer
/-!
# C58, C59: what is posted to Librato
-/
open Spec Spec.Lib Librato

/-! ## float64 facts -/

theorem add_cases (a b : F64) : (a.isFinite = true ∧ b.isFinite = true ∧ (a.add b = .negZero ∨ a.add b = F64.rnd (a.toRat + b.toRat))) ∨
    a.add b = .nan ∨ ∃ s, a.add b = .inf s := by
  rcases a with _ | s | _ | p <;> rcases b with _ | t | _ | q
  case inf.inf =>
    have : F64.add (.inf s) (.inf t) = if s = t then .inf s else .nan := rfl
    rw [this]
    split
    · exact .inr (.inr ⟨_, rfl⟩)
    · exact .inr (.inl rfl)
  case negZero.negZero => exact .inl ⟨rfl, rfl, .inl rfl⟩
  case negZero.fin => exact .inl ⟨rfl, rfl, .inr rfl⟩
  case fin.negZero => exact .inl ⟨rfl, rfl, .inr rfl⟩
  case fin.fin => exact .inl ⟨rfl, rfl, .inr rfl⟩
  case inf.negZero => exact .inr (.inr ⟨s, rfl⟩)
  case inf.fin => exact .inr (.inr ⟨s, rfl⟩)
  case negZero.inf => exact .inr (.inr ⟨t, rfl⟩)
  case fin.inf => exact .inr (.inr ⟨t, rfl⟩)
  all_goals exact .inr (.inl rfl)

theorem add_finite {a b : F64} (h : (a.add b).isFinite = true) : a.isFinite = true ∧ b.isFinite = true := by
  rcases add_cases a b with ⟨h1, h2, _⟩ | h1 | ⟨s, h1⟩
  · exact ⟨h1, h2⟩
  · rw [h1] at h; simp [F64.isFinite] at h
  · rw [h1] at h; simp [F64.isFinite] at h

theorem add_valid {a b : F64} : (a.add b).Valid := by
  rcases add_cases a b with ⟨_, _, h1 | h1⟩ | h1 | ⟨s, h1⟩ <;> rw [h1]
  · trivial
  · exact F64.rnd_valid _
  · trivial
  · trivial

theorem zero_valid (s : Bool) : (F64.zero s).Valid := by
  cases s
  · exact (F64.nonnegLe_zero (e := 0)).2.1
  · trivial

theorem mul_valid {a b : F64} : (a.mul b).Valid := by
  have hr := F64.rnd_valid
  have key : ∀ p q : ℚ, ∀ s, (if p * q = 0 then F64.zero s else F64.rnd (p * q)).Valid := by
    intro p q s; split
    · exact zero_valid s
    · exact hr _
  cases a with
  | nan => simp [F64.mul, F64.Valid]
  | inf s => cases b <;> simp only [F64.mul] <;> first | (split <;> trivial) | trivial
  | negZero => cases b <;> simp only [F64.mul] <;> first | trivial | exact key _ _ _ | (split <;> trivial)
  | fin q => cases b <;> simp only [F64.mul] <;> first | trivial | exact key _ _ _ | (split <;> trivial) 

theorem mul_finite {a : F64} (h : (a.mul a).isFinite = true) : a.isFinite = true := by
  cases a with
  | nan => simp [F64.mul, F64.isFinite] at h
  | inf s => simp [F64.mul, F64.isFinite] at h
  | negZero => rfl
  | fin q => rfl

theorem foldl_add_finite {xs : List F64} : ∀ {x : F64}, (xs.foldl F64.add x).isFinite = true → x.isFinite = true ∧ ∀ y ∈ xs, y.isFinite = true := by
  induction xs with
  | nil => intro x h; exact ⟨h, by simp⟩
  | cons a t ih =>
    intro x h
    rw [List.foldl_cons] at h
    obtain ⟨h1, h2⟩ := ih h
    obtain ⟨h3, h4⟩ := add_finite h1
    refine ⟨h3, fun y hy => ?_⟩
    rcases List.mem_cons.1 hy with rfl | hy
    · exact h4
    · exact h2 y hy

theorem floatSum_finite {xs : List F64} (h : (floatSum xs).isFinite = true) : ∀ y ∈ xs, y.isFinite = true := by
  cases xs with
  | nil => simp
  | cons x t =>
    obtain ⟨h1, h2⟩ := foldl_add_finite (x := x) (xs := t) h
    intro y hy
    rcases List.mem_cons.1 hy with rfl | hy
    · exact h1
    · exact h2 y hy

theorem floatSum_valid {xs : List F64} (h : ∀ x ∈ xs, x.Valid) : (floatSum xs).Valid := by
  cases xs with
  | nil => exact zero_valid false
  | cons x t =>
    have hx := h x (by simp)
    clear h
    unfold floatSum
    induction t generalizing x with
    | nil => exact hx
    | cons a t ih => exact ih (x.add a) add_valid

theorem inMillis_valid (n : Int) : (inMillis n).Valid := by
  have hr := F64.rnd_valid
  unfold inMillis F64.div
  cases h : F64.ofInt n with
  | nan => trivial
  | inf s => trivial
  | negZero =>
    simp only
    split
    · split <;> trivial
    · split
      · exact zero_valid _
      · exact hr _
  | fin q =>
    simp only
    split
    · split <;> trivial
    · split
      · exact zero_valid _
      · exact hr _

theorem lt_finite {a b : F64} (ha : a.isFinite = true) (hb : b.isFinite = true) : a.lt b = decide (a.toRat < b.toRat) := by
  rcases a with _ | s | _ | p <;> rcases b with _ | t | _ | q
  case negZero.negZero => simp only [F64.lt]
  case negZero.fin => simp only [F64.lt]
  case fin.negZero => simp only [F64.lt]
  case fin.fin => simp only [F64.lt]
  all_goals first | (simp [F64.isFinite] at ha; done) | (simp [F64.isFinite] at hb; done)

/-! ## a measurement of finite values -/

theorem floatSum_snoc (x : F64) (xs : List F64) (v : F64) : floatSum (x :: xs ++ [v]) = (floatSum (x :: xs)).add v := by
  simp [floatSum, List.foldl_append]

/-- the fields of a measurement. -/
theorem gaugeOf_fields (x : F64) (xs : List F64) : ∃ g, gaugeOf (x :: xs) = some g ∧ g.count = i64 (xs.length + 1) ∧
    g.sum = floatSum (x :: xs) ∧ g.sumSquares = floatSum ((x :: xs).map (fun v => v.mul v)) ∧
    ((∀ y ∈ x :: xs, y.isFinite = true) → Least g.min (x :: xs) ∧ Greatest g.max (x :: xs)) := by
  induction xs using List.reverseRecOn with
  | nil =>
    refine ⟨_, rfl, rfl, rfl, rfl, fun hf => ?_⟩
    have hx := hf x (by simp)
    refine ⟨⟨by simp, ?_⟩, ⟨by simp, ?_⟩⟩ <;> (intro y hy; simp only [List.mem_singleton] at hy; subst hy; simp only [List.foldl_nil]; rw [lt_finite hx hx]; simp)
  | append_singleton t v ih =>
    obtain ⟨g, h1, h2, h3, h4, h5⟩ := ih
    refine ⟨(⟨i64 (g.count + 1), g.sum.add v, if v.lt g.min then v else g.min, if g.max.lt v then v else g.max,
      g.sumSquares.add (v.mul v)⟩ : Gauge), ?_, ?_⟩
    · rw [← List.cons_append, gaugeOf_snoc, h1]
    refine ⟨?_, ?_, ?_, ?_⟩
    · simp only
      rw [h2, i64_add_i64_left, List.length_append]
      simp
    · rw [← List.cons_append, floatSum_snoc, h3]
    · rw [← List.cons_append, List.map_append, List.map_cons, List.map_singleton, floatSum_snoc, h4, List.map_cons]
    · intro hf
      have hv := hf v (by simp)
      have hf' : ∀ y ∈ x :: t, y.isFinite = true := fun y hy => hf y (by
        rcases List.mem_cons.1 hy with rfl | hy
        · simp
        · simp [hy])
      obtain ⟨⟨a1, a2⟩, ⟨b1, b2⟩⟩ := h5 hf'
      have hmem : ∀ y, y ∈ x :: (t ++ [v]) ↔ y ∈ x :: t ∨ y = v := by intro y; simp [or_assoc]
      have ha := hf' _ a1
      have hb := hf' _ b1
      refine ⟨⟨?_, ?_⟩, ⟨?_, ?_⟩⟩
      · rw [hmem]; simp only; split
        · exact .inr rfl
        · exact .inl a1
      · intro y hy
        rw [hmem] at hy
        simp only
        by_cases hl : v.lt g.min = true
        · rw [if_pos hl]
          rw [lt_finite hv ha, decide_eq_true_eq] at hl
          rcases hy with hy | rfl
          · have := a2 y hy
            rw [lt_finite (hf' y hy) ha, decide_eq_false_iff_not] at this
            rw [lt_finite (hf' y hy) hv, decide_eq_false_iff_not]
            linarith
          · rw [lt_finite hv hv]; simp
        · rw [if_neg hl]
          rcases hy with hy | rfl
          · exact a2 y hy
          · simpa using hl
      · rw [hmem]; simp only; split
        · exact .inr rfl
        · exact .inl b1
      · intro y hy
        rw [hmem] at hy
        simp only
        by_cases hl : g.max.lt v = true
        · rw [if_pos hl]
          rw [lt_finite hb hv, decide_eq_true_eq] at hl
          rcases hy with hy | rfl
          · have := b2 y hy
            rw [lt_finite hb (hf' y hy), decide_eq_false_iff_not] at this
            rw [lt_finite hv (hf' y hy), decide_eq_false_iff_not]
            linarith
          · rw [lt_finite hv hv]; simp
        · rw [if_neg hl]
          rcases hy with hy | rfl
          · exact b2 y hy
          · simpa using hl

/-! ## the document -/

theorem lib_names : fixUtf8 (bs "count") = bs "count" ∧ fixUtf8 (bs "sum") = bs "sum" ∧ fixUtf8 (bs "min") = bs "min" ∧
    fixUtf8 (bs "max") = bs "max" ∧ fixUtf8 (bs "sum_squares") = bs "sum_squares" ∧ fixUtf8 (bs "attributes") = bs "attributes" ∧
    fixUtf8 (bs "value") = bs "value" ∧ fixUtf8 (bs "aggregate") = bs "aggregate" ∧ fixUtf8 (bs "display_units_long") = bs "display_units_long" ∧
    fixUtf8 (bs "measure_time") = bs "measure_time" ∧ fixUtf8 (bs "period") = bs "period" ∧ fixUtf8 (bs "source") = bs "source" ∧
    fixUtf8 (bs "gauges") = bs "gauges" ∧ fixUtf8 (bs "ms") = bs "ms" := by decide +kernel

theorem entry_encodable (e : Entry) : e.toJson.encodable = true ↔ ∀ g, e = .gauge g →
    g.sum.isFinite = true ∧ g.min.isFinite = true ∧ g.max.isFinite = true ∧ g.sumSquares.isFinite = true := by
  cases e with
  | counter n => simp [Entry.toJson, attributes, JVal.encodable, JVal.encodableMembers]
  | gauge g => simp [Entry.toJson, attributes, JVal.encodable, JVal.encodableMembers]

theorem attributes_view {unit : Str} (hu : fixUtf8 unit = unit) :
    (attributes unit).view.field (bs "aggregate") = some (.bool true) ∧ (attributes unit).view.field (bs "display_units_long") = some (.str unit) := by
  have F := lib_names
  have hn : ((([(bs "aggregate", JVal.bool true), (bs "display_units_long", JVal.str unit)]).map (fun p => (fixUtf8 p.1, p.2.view))).map (·.1)).Nodup := by
    simp only [List.map_cons, List.map_nil, F]
    decide +kernel
  unfold attributes
  refine ⟨field_view (v := .bool true) hn (by simp) (by simp only [F]), ?_⟩
  rw [field_view (k := bs "display_units_long") (v := .str unit) hn (by simp) (by simp only [F]), JVal.view, hu]

theorem showsCounter {n : Nat} : ShowsCounter (Entry.counter n).toJson.view n := by
  have F := lib_names
  have hn : ((([(bs "value", JVal.int n), (bs "attributes", attributes (bs "count"))]).map (fun p => (fixUtf8 p.1, p.2.view))).map (·.1)).Nodup := by
    simp only [List.map_cons, List.map_nil, F]
    decide +kernel
  unfold Entry.toJson
  refine ⟨?_, _, field_view (v := attributes (bs "count")) hn (by simp) (by simp only [F]), attributes_view (by simp only [F])⟩
  rw [field_view (k := bs "value") (v := .int n) hn (by simp) (by simp only [F])]
  simp [JVal.view]

theorem showsMeasurement {x : F64} {xs : List F64} {g : Gauge} (hg : gaugeOf (x :: xs) = some g) (hlen : xs.length + 1 < 2 ^ 63)
    (hv : ∀ y ∈ x :: xs, y.Valid) (h1 : (floatSum (x :: xs)).isFinite = true)
    (h2 : (floatSum ((x :: xs).map (fun v => v.mul v))).isFinite = true) :
    ShowsMeasurement (Entry.gauge g).toJson.view (x :: xs) := by
  have F := lib_names
  obtain ⟨g', e, c1, c2, c3, c4⟩ := gaugeOf_fields x xs
  rw [hg] at e
  cases e
  have hfin := floatSum_finite h1
  obtain ⟨m1, m2⟩ := c4 hfin
  have hn : ((([(bs "count", JVal.int g.count), (bs "sum", .float g.sum), (bs "min", .float g.min), (bs "max", .float g.max),
      (bs "sum_squares", .float g.sumSquares), (bs "attributes", attributes (bs "ms"))]).map (fun p => (fixUtf8 p.1, p.2.view))).map (·.1)).Nodup := by
    simp only [List.map_cons, List.map_nil, F]
    decide +kernel
  unfold Entry.toJson
  refine ⟨?_, ⟨_, field_view (v := .float g.sum) hn (by simp) (by simp only [F]), ?_⟩,
    ⟨_, field_view (v := .float g.sumSquares) hn (by simp) (by simp only [F]), ?_⟩,
    ⟨_, g.min, field_view (v := .float g.min) hn (by simp) (by simp only [F]), isFloat_view ⟨hfin _ m1.1, hv _ m1.1⟩, m1⟩,
    ⟨_, g.max, field_view (v := .float g.max) hn (by simp) (by simp only [F]), isFloat_view ⟨hfin _ m2.1, hv _ m2.1⟩, m2⟩,
    _, field_view (v := attributes (bs "ms")) hn (by simp) (by simp only [F]), attributes_view (by simp only [F])⟩
  · rw [field_view (k := bs "count") (v := .int g.count) hn (by simp) (by simp only [F]), c1, JVal.view,
      i64_of_range (by omega) (by omega)]
    simp
  · rw [← c2]; exact isFloat_view ⟨c2 ▸ h1, c2 ▸ floatSum_valid hv⟩
  · rw [← c3]
    refine isFloat_view ⟨c3 ▸ h2, c3 ▸ floatSum_valid ?_⟩
    intro y hy
    obtain ⟨z, _, rfl⟩ := List.mem_map.1 hy
    exact mul_valid

/-! ## names -/

theorem isUtf8_append {s t : Str} (hs : IsUtf8 s) (ht : IsUtf8 t) : IsUtf8 (s ++ t) := by
  obtain ⟨a, ha, rfl⟩ := hs
  obtain ⟨b, hb, rfl⟩ := ht
  refine ⟨a ++ b, fun n hn => ?_, by rw [List.flatMap_append]⟩
  rcases List.mem_append.1 hn with h | h
  · exact ha n h
  · exact hb n h

theorem isUtf8_metricName {p : Str} {ns : List Str} (hp : IsUtf8 p) (h : ∀ n ∈ ns, IsUtf8 n) : IsUtf8 (metricName p ns) := by
  have hd : IsUtf8 [46] := ⟨[46], by simp [Scalar], by decide +kernel⟩
  have h0 : IsUtf8 [] := ⟨[], by simp, rfl⟩
  have key : ∀ l : List Str, (∀ n ∈ l, IsUtf8 n) → IsUtf8 ([46].intercalate l) := by
    intro l
    induction l with
    | nil => intro _; exact h0
    | cons a t ih =>
      intro hl
      cases t with
      | nil => simpa [List.intercalate] using hl a (by simp)
      | cons b t =>
        have : [46].intercalate (a :: b :: t) = a ++ ([46] ++ [46].intercalate (b :: t)) := by
          simp [List.intercalate, List.intersperse]
        rw [this]
        exact isUtf8_append (hl a (by simp)) (isUtf8_append hd (ih (fun n hn => hl n (by simp at hn ⊢; exact .inr hn))))
  refine key _ (fun n hn => ?_)
  rcases List.mem_append.1 hn with h' | h'
  · by_cases e : p = []
    · simp [e] at h'
    · simp [e] at h'; rw [h']; exact hp
  · exact h n h'

theorem lib_literals : IsUtf8 (bs "count") ∧ IsUtf8 (bs "error") ∧ IsUtf8 (bs "timing") ∧ IsUtf8 (bs "gauge") ∧ ∀ st : Status, IsUtf8 st.str := by
  have h : validUtf8 (bs "count") = true ∧ validUtf8 (bs "error") = true ∧ validUtf8 (bs "timing") = true ∧ validUtf8 (bs "gauge") = true := by
    decide +kernel
  refine ⟨(validUtf8_iff _).1 h.1, (validUtf8_iff _).1 h.2.1, (validUtf8_iff _).1 h.2.2.1, (validUtf8_iff _).1 h.2.2.2, fun st => (validUtf8_iff _).1 ?_⟩
  unfold Status.str
  split <;> (try split) <;> (try split) <;> (try split) <;> (try split) <;> decide +kernel

theorem counts_utf8 {o : Opts} (hp : IsUtf8 o.pfx) (hs : ∀ s, IsUtf8 (o.sanitize s)) {e : Emission} {k : Str} (h : k ∈ countsIn o e) : IsUtf8 k := by
  obtain ⟨job, p⟩ := e
  obtain ⟨l1, l2, l3, l4, l5⟩ := lib_literals
  cases p with
  | event e =>
    simp only [countsIn, List.mem_cons, List.not_mem_nil, or_false] at h
    rcases h with rfl | rfl <;> (apply isUtf8_metricName hp; simp [hs, l1])
  | eventErr e err =>
    simp only [countsIn, List.mem_cons, List.not_mem_nil, or_false] at h
    rcases h with rfl | rfl <;> (apply isUtf8_metricName hp; simp [hs, l1, l2])
  | _ => simp [countsIn] at h

theorem measures_utf8 {o : Opts} (hp : IsUtf8 o.pfx) (hs : ∀ s, IsUtf8 (o.sanitize s)) {e : Emission} {q : Str × F64} (h : q ∈ measures o e) : IsUtf8 q.1 := by
  obtain ⟨job, p⟩ := e
  obtain ⟨l1, l2, l3, l4, l5⟩ := lib_literals
  cases p with
  | timing e n =>
    simp only [measures, List.mem_cons, List.not_mem_nil, or_false] at h
    rcases h with rfl | rfl <;> (apply isUtf8_metricName hp; simp [hs, l3])
  | gauge e v =>
    simp only [measures, List.mem_cons, List.not_mem_nil, or_false] at h
    rcases h with rfl | rfl <;> (apply isUtf8_metricName hp; simp [hs, l4])
  | complete st n =>
    simp only [measures, List.mem_cons, List.not_mem_nil, or_false] at h
    subst h
    apply isUtf8_metricName hp; simp [hs, l3, l5]
  | _ => simp [measures] at h

theorem measures_valid {o : Opts} {e : Emission} (he : PayloadValid e.2) {q : Str × F64} (h : q ∈ measures o e) : q.2.Valid := by
  obtain ⟨job, p⟩ := e
  cases p with
  | timing e n =>
    simp only [measures, List.mem_cons, List.not_mem_nil, or_false] at h
    rcases h with rfl | rfl <;> exact inMillis_valid n
  | gauge e v =>
    simp only [measures, List.mem_cons, List.not_mem_nil, or_false] at h
    rcases h with rfl | rfl <;> exact he
  | complete st n =>
    simp only [measures, List.mem_cons, List.not_mem_nil, or_false] at h
    subst h; exact inMillis_valid n
  | _ => simp [measures] at h

theorem emission_keys (o : Opts) (e : Emission) : countsIn o e ≠ [] ∨ measures o e ≠ [] := by
  obtain ⟨job, p⟩ := e
  cases p <;> simp [countsIn, measures]

theorem countsIn_length (o : Opts) (e : Emission) : (countsIn o e).length ≤ 2 := by
  obtain ⟨job, p⟩ := e
  cases p <;> simp [countsIn]
theorem measures_length (o : Opts) (e : Emission) : (measures o e).length ≤ 2 := by
  obtain ⟨job, p⟩ := e
  cases p <;> simp [measures]

theorem flatMap_length_le {α β : Type} (f : α → List β) (n : Nat) (h : ∀ a, (f a).length ≤ n) (l : List α) : (l.flatMap f).length ≤ n * l.length := by
  induction l with
  | nil => simp
  | cons a t ih => rw [List.flatMap_cons, List.length_append, List.length_cons]; have := h a; nlinarith

/-! ## C58 -/

/-- the values `GetMetrics` … a flush posts exactly what was emitted since the previous one. -/
theorem flush_ok {o : Opts} (hp : IsUtf8 o.pfx) (hs : ∀ s, IsUtf8 (o.sanitize s)) (hsrc : IsUtf8 o.source) {es : List Emission} {s : State}
    (h : Holds o es s) (hv : ∀ e ∈ es, PayloadValid e.2) (hlen : es.length < 2 ^ 62) (now : Int) :
    FlushOk o (now, es) (send o s now) := by
  have F := lib_names
  obtain ⟨⟨cw, cget⟩, ⟨tw, tget⟩⟩ := h
  have hcount : ∀ k, (es.flatMap (countsIn o)).count k = counted o es k := fun k => rfl
  have hvals : ∀ k, at' (es.flatMap (measures o)) k = valuesAt o es k := fun k => rfl
  simp only [hcount] at cget
  simp only [hvals] at tget
  have hcle : ∀ k, counted o es k < 2 ^ 63 := by
    intro k
    have h1 : counted o es k ≤ (es.flatMap (countsIn o)).length := List.count_le_length
    have h2 := flatMap_length_le (countsIn o) 2 (countsIn_length o) es
    omega
  have hmle : ∀ k, (valuesAt o es k).length < 2 ^ 63 := by
    intro k
    have h1 : (valuesAt o es k).length ≤ (es.flatMap (measures o)).length := by
      unfold valuesAt
      rw [List.length_map]
      exact List.length_filter_le _ _
    have h2 := flatMap_length_le (measures o) 2 (measures_length o) es
    omega
  have hvv : ∀ k, ∀ v ∈ valuesAt o es k, v.Valid ∧ IsUtf8 k := by
    intro k v hk
    unfold valuesAt at hk
    obtain ⟨q, hq, rfl⟩ := List.mem_map.1 hk
    obtain ⟨hq, hqk⟩ := List.mem_filter.1 hq
    obtain ⟨e, he, hq⟩ := List.mem_flatMap.1 hq
    simp only [decide_eq_true_eq] at hqk
    exact ⟨measures_valid (hv e he) hq, hqk ▸ measures_utf8 hp hs hq⟩
  have hcv : ∀ k, 0 < counted o es k → IsUtf8 k := by
    intro k hk
    obtain ⟨e, _, he⟩ := List.mem_flatMap.1 (List.count_pos_iff.1 hk)
    exact counts_utf8 hp hs he
  obtain ⟨ew, eget⟩ := entries_get s tw cw
  -- the map sent, name by name
  have hent : ∀ k, (counted o es k = 0 ∧ valuesAt o es k = [] ∧ (entries s).get? k = none) ∨
      (0 < counted o es k ∧ valuesAt o es k = [] ∧ (entries s).get? k = some (.counter (counted o es k))) ∨
      (counted o es k = 0 ∧ ∃ x xs g, valuesAt o es k = x :: xs ∧ gaugeOf (x :: xs) = some g ∧ (entries s).get? k = some (.gauge g)) := by
    intro k
    rw [eget k, cget k, tget k]
    by_cases hc : counted o es k = 0
    · rw [if_pos hc]
      cases hx : valuesAt o es k with
      | nil => exact .inl ⟨hc, rfl, rfl⟩
      | cons x xs => exact .inr (.inr ⟨hc, x, xs, _, rfl, rfl, rfl⟩)
    · rw [if_neg hc]
      refine .inr (.inl ⟨by omega, ?_, ?_⟩)
      · by_contra hne
        exact valuesAt_ne hne (counted_pos (by omega : 0 < counted o es k))
      · simp only
        rw [i64_nat (hcle k)]
  by_cases hes : es = []
  · refine .inl ⟨hes, ?_⟩
    subst hes
    have h1 : s.counters = [] := by
      cases hc : s.counters with
      | nil => rfl
      | cons p t =>
        have h1 := cget p.1
        rw [hc, GoMap.get?_cons, if_pos rfl] at h1
        simp [counted] at h1
    have h2 : s.timers = [] := by
      cases hc : s.timers with
      | nil => rfl
      | cons p t =>
        have h1 := tget p.1
        rw [hc, GoMap.get?_cons, if_pos rfl] at h1
        simp [valuesAt, gaugeOf] at h1
    unfold send
    rw [if_pos (by simp [h1, h2])]
  · -- something was emitted, so something is there
    have hsome : ∃ k, (entries s).get? k ≠ none := by
      cases es with
      | nil => exact absurd rfl hes
      | cons e t =>
        rcases emission_keys o e with hk | hk
        · obtain ⟨k, hk⟩ := List.exists_mem_of_ne_nil _ hk
          refine ⟨k, ?_⟩
          have : 0 < counted o (e :: t) k := List.count_pos_iff.2 (by simp [hk])
          rcases hent k with ⟨h0, _⟩ | ⟨_, _, h0⟩ | ⟨h0, _⟩
          · omega
          · rw [h0]; simp
          · omega
        · obtain ⟨q, hk⟩ := List.exists_mem_of_ne_nil _ hk
          refine ⟨q.1, ?_⟩
          have : valuesAt o (e :: t) q.1 ≠ [] := by
            unfold valuesAt
            intro hc
            have : q.2 ∈ ((List.flatMap (measures o) (e :: t)).filter (fun p => p.1 = q.1)).map (·.2) :=
              List.mem_map.2 ⟨q, List.mem_filter.2 ⟨by simp [hk], by simp⟩, rfl⟩
            rw [hc] at this
            simp at this
          rcases hent q.1 with ⟨_, h0, _⟩ | ⟨_, h0, _⟩ | ⟨_, _, _, _, _, _, h0⟩
          · exact absurd h0 this
          · exact absurd h0 this
          · rw [h0]; simp
    obtain ⟨k0, hk0⟩ := hsome
    have hne : entries s ≠ [] := by
      intro e
      rw [e] at hk0
      simp at hk0
    have hnz : ¬ (s.timers.length = 0 ∧ s.counters.length = 0) := by
      rintro ⟨a, b⟩
      rw [List.length_eq_zero_iff] at a b
      rw [eget k0, a, b] at hk0
      simp at hk0
    -- what the encoder sees
    have hencMap : (mapJson Entry.toJson (entries s)).encodable = true ↔ SumsFinite o es := by
      rw [mapJson_encodable_iff]
      constructor
      · intro he k
        cases hx : valuesAt o es k with
        | nil => exact ⟨rfl, rfl⟩
        | cons x xs =>
          rcases hent k with ⟨_, h0, _⟩ | ⟨_, h0, _⟩ | ⟨_, y, ys, g, h0, hg, h1⟩
          · rw [hx] at h0; cases h0
          · rw [hx] at h0; cases h0
          · rw [hx] at h0
            cases h0
            obtain ⟨a, _, _, b⟩ := (entry_encodable _).1 (he k _ h1) g rfl
            obtain ⟨g', e, _, c2, c3, _⟩ := gaugeOf_fields x xs
            rw [hg] at e
            cases e
            exact ⟨c2 ▸ a, c3 ▸ b⟩
      · intro hf k e he
        rw [entry_encodable]
        rintro g rfl
        rcases hent k with ⟨_, _, h0⟩ | ⟨_, _, h0⟩ | ⟨_, y, ys, g', h0, hg, h1⟩
        · rw [h0] at he; cases he
        · rw [h0] at he; simp at he
        · rw [h1] at he
          cases he
          obtain ⟨g', e, _, c2, c3, c4⟩ := gaugeOf_fields y ys
          rw [hg] at e
          cases e
          obtain ⟨f1, f2⟩ := hf k
          rw [h0] at f1 f2
          obtain ⟨m1, m2⟩ := c4 (floatSum_finite f1)
          exact ⟨c2 ▸ f1, floatSum_finite f1 _ m1.1, floatSum_finite f1 _ m2.1, c3 ▸ f2⟩
    have hbody : body o s now = .obj ([(bs "measure_time", JVal.int now), (bs "period", .int (o.flushPeriod.tdiv 1000000000))] ++
        (if o.source ≠ [] then [(bs "source", JVal.str o.source)] else []) ++ [(bs "gauges", mapJson Entry.toJson (entries s))]) := by
      unfold body
      rw [if_pos hne]
    have hencBody : (body o s now).encodable = true ↔ SumsFinite o es := by
      rw [← hencMap, hbody]
      by_cases e : o.source = [] <;> simp [e, JVal.encodable, JVal.encodableMembers]
    unfold send
    rw [if_neg hnz]
    by_cases hf : SumsFinite o es
    · refine .inr (.inl ⟨hes, hf, (body o s now).enc JVal.compact 0, (body o s now).view, ?_, JVal.readJson_enc JVal.compact_ok _ (hencBody.2 hf), ?_⟩)
      · have : (body o s now).marshal = some ((body o s now).enc JVal.compact 0) := by
          unfold JVal.marshal
          rw [if_pos (hencBody.2 hf)]
        rw [this]
      · have hn : ((([(bs "measure_time", JVal.int now), (bs "period", .int (o.flushPeriod.tdiv 1000000000))] ++
            (if o.source ≠ [] then [(bs "source", JVal.str o.source)] else []) ++ [(bs "gauges", mapJson Entry.toJson (entries s))]).map
            (fun p => (fixUtf8 p.1, p.2.view))).map (·.1)).Nodup := by
          by_cases e : o.source = []
          · simp only [e, ne_eq, not_true_eq_false, if_false, List.append_nil, List.cons_append, List.nil_append, List.map_cons, List.map_nil, F]
            decide +kernel
          · simp only [e, ne_eq, not_false_eq_true, if_true, List.append_nil, List.cons_append, List.nil_append, List.map_cons, List.map_nil, F]
            decide +kernel
        rw [hbody]
        refine ⟨?_, ⟨_, field_view (v := .int (o.flushPeriod.tdiv 1000000000)) hn (by simp) (by simp only [F]), rfl⟩, ?_, ?_⟩
        · exact field_view (v := .int now) hn (by simp) (by simp only [F])
        · by_cases e : o.source = []
          · rw [if_pos e, JVal.view, JVal.viewMembers_eq]
            apply member_none_of
            simp only [e, ne_eq, not_true_eq_false, if_false, List.append_nil, List.cons_append, List.nil_append, List.map_cons, List.map_nil, F]
            decide +kernel
          · rw [if_neg e, field_view (k := bs "source") (v := .str o.source) hn (by simp [e]) (by simp only [F]), JVal.view, fixUtf8_of_utf8 hsrc]
        · have hsh := showsMap_mapJson Entry.toJson (fun j e => j = e.toJson.view) (entries s) ew (by
            intro k e he
            refine ⟨?_, rfl⟩
            rcases hent k with ⟨_, _, h0⟩ | ⟨h0, _, _⟩ | ⟨_, y, ys, g', h0, hg, h1⟩
            · rw [h0] at he; cases he
            · exact hcv k h0
            · exact (hvv k y (by rw [h0]; simp)).2)
          obtain ⟨ms, hms, hnd, hmem⟩ := hsh
          refine ⟨ms, ?_, hnd, fun k => ?_⟩
          · rw [field_view (k := bs "gauges") (v := mapJson Entry.toJson (entries s)) hn (by simp) (by simp only [F]), hms]
          · rcases hent k with ⟨a, b, h0⟩ | ⟨a, b, h0⟩ | ⟨a, y, ys, g', b, hg, h0⟩
            · refine .inl ⟨a, b, ?_⟩
              rcases hmem k with ⟨_, h⟩ | ⟨v, x, h, _⟩
              · exact h
              · rw [h0] at h; cases h
            · refine .inr (.inl ⟨a, b, ?_⟩)
              rcases hmem k with ⟨h, _⟩ | ⟨v, x, h, hx, rfl⟩
              · rw [h0] at h; cases h
              · rw [h0] at h
                cases h
                exact ⟨_, hx, showsCounter⟩
            · refine .inr (.inr ⟨a, by rw [b]; simp, ?_⟩)
              rcases hmem k with ⟨h, _⟩ | ⟨v, x, h, hx, rfl⟩
              · rw [h0] at h; cases h
              · rw [h0] at h
                cases h
                obtain ⟨f1, f2⟩ := hf k
                have hl := hmle k
                rw [b] at f1 f2 hl ⊢
                refine ⟨_, hx, showsMeasurement hg hl (fun y' hy' => (hvv k y' (by rw [b]; exact hy')).1) f1 f2⟩
    · refine .inr (.inr ⟨hes, hf, ?_⟩)
      have : (body o s now).marshal = none := by
        unfold JVal.marshal
        rw [if_neg (by rw [hencBody]; exact hf)]
      rw [this]

/-- the emissions after the last flush of a history, `es` being those before. -/
def Spec.Lib.pending : List Emission → List Op → List Emission
  | es, [] => es
  | es, .emit job p :: t => pending (es ++ [(job, p)]) t
  | _, .flush _ :: t => pending [] t
/-- all emissions of a history. -/
def Spec.Lib.emissions : List Op → List Emission
  | [] => []
  | .emit job p :: t => (job, p) :: emissions t
  | .flush _ :: t => emissions t

/-- cutting a history at the flushes loses and doubles nothing. -/
theorem flushes_emissions (ops : List Op) : ∀ es, (flushes es ops).flatMap (·.2) ++ pending es ops = es ++ emissions ops := by
  induction ops with
  | nil => intro es; simp [flushes, pending, emissions]
  | cons op t ih =>
    intro es
    cases op with
    | emit job p => simp only [flushes, pending, emissions]; rw [ih]; simp
    | flush now =>
      have := ih []
      simp only [flushes, pending, emissions, List.flatMap_cons, List.append_assoc]
      rw [this]; simp

theorem run_from {o : Opts} (hp : IsUtf8 o.pfx) (hs : ∀ s, IsUtf8 (o.sanitize s)) (hsrc : IsUtf8 o.source) (ops : List Op) :
    ∀ (es : List Emission) (s : State) (sent : List Sent), Holds o es s → (∀ e ∈ es ++ emissions ops, PayloadValid e.2) →
      (es ++ emissions ops).length < 2 ^ 62 →
      ∃ new, (ops.foldl (step o) (s, sent)).2 = sent ++ new ∧ List.Forall₂ (FlushOk o) (flushes es ops) new ∧
        Holds o (pending es ops) (ops.foldl (step o) (s, sent)).1 := by
  induction ops with
  | nil => intro es s sent h _ _; exact ⟨[], by simp, .nil, h⟩
  | cons op t ih =>
    intro es s sent h hv hl
    cases op with
    | emit job p =>
      rw [List.foldl_cons]
      exact ih (es ++ [(job, p)]) _ sent (h.process job p) (by simpa [emissions] using hv) (by simpa [emissions] using hl)
    | flush now =>
      rw [List.foldl_cons]
      have hf := flush_ok hp hs hsrc h (fun e he => hv e (by simp [he])) (by simp only [List.length_append] at hl; omega) now
      obtain ⟨new, h1, h2, h3⟩ := ih [] init (sent ++ [send o s now]) (holds_init o) (fun e he => hv e (by
          simp only [List.nil_append] at he
          simp [emissions, he])) (by
          simp only [emissions, List.length_append, List.nil_append] at hl ⊢
          omega)
      refine ⟨send o s now :: new, ?_, .cons hf h2, h3⟩
      have : step o (s, sent) (.flush now) = (init, sent ++ [send o s now]) := rfl
      rw [this, h1]
      simp

/-- C58, partial: in every history of emissions and flushes, each emission belongs to exactly one flush (or is still pending); at a flush
nothing is sent if nothing was emitted since the previous one; otherwise a JSON document is posted that shows exactly the emissions
since then: for every name the number of increments, or the number, sum, least, greatest and sum of squares of the values measured.
Missing: if a sum or sum of squares is not finite (an infinite or NaN gauge, or an overflow), nothing at all is posted for that flush and
the data are dropped, see `C58_false`.  (Failing HTTP requests drop the data as well; they are not modelled.) -/
theorem C58_flushes_partial (o : Opts) (hp : IsUtf8 o.pfx) (hs : ∀ s, IsUtf8 (o.sanitize s)) (hsrc : IsUtf8 o.source) (ops : List Op)
    (hv : ∀ e ∈ emissions ops, PayloadValid e.2) (hl : ops.length < 2 ^ 62) :
    List.Forall₂ (FlushOk o) (flushes [] ops) (run o ops).2 ∧ (flushes [] ops).flatMap (·.2) ++ pending [] ops = emissions ops := by
  have hlen : ∀ l : List Op, (emissions l).length ≤ l.length := by
    intro l
    induction l with
    | nil => simp [emissions]
    | cons a t ih => cases a <;> simp [emissions] <;> omega
  obtain ⟨new, h1, h2, _⟩ := run_from hp hs hsrc ops [] init [] (holds_init o) (by simpa using hv) (by
    have := hlen ops
    simp only [List.nil_append]; omega)
  refine ⟨?_, by simpa using flushes_emissions ops []⟩
  unfold run
  rw [h1]
  simpa using h2

/-! ## C59: names -/

theorem runes_shape {s : Str} {r : Rune} (hr : r ∈ runes s) :
    (∃ b, r = .ascii b ∧ b < 0x80) ∨ (∃ b t, r = .multi (b :: t) ∧ ¬ b < 0x80) ∨ ∃ b, r = .bad b ∧ ¬ b < 0x80 := by
  induction s using runes.induct with
  | case1 => rw [runes] at hr; simp at hr
  | case2 b0 t hlt ih =>
    rw [runes.eq_def] at hr
    simp only [if_pos hlt] at hr
    rcases List.mem_cons.1 hr with rfl | hr
    · exact .inl ⟨_, rfl, hlt⟩
    · exact ih hr
  | case3 b0 hlt =>
    rw [runes.eq_def] at hr
    simp only [if_neg hlt, List.mem_singleton] at hr
    exact .inr (.inr ⟨_, hr, hlt⟩)
  | case4 b0 hlt b1 t1 h2 ih =>
    rw [runes.eq_def] at hr
    simp only [if_neg hlt, if_pos h2] at hr
    rcases List.mem_cons.1 hr with rfl | hr
    · exact .inr (.inl ⟨_, _, rfl, hlt⟩)
    · exact ih hr
  | case5 b0 hlt b1 h2 ih =>
    rw [runes.eq_def] at hr
    simp only [if_neg hlt, if_neg h2] at hr
    rcases List.mem_cons.1 hr with rfl | hr
    · exact .inr (.inr ⟨_, rfl, hlt⟩)
    · exact ih hr
  | case6 b0 hlt b1 h2 b2 t2 h3 ih =>
    rw [runes.eq_def] at hr
    simp only [if_neg hlt, if_neg h2, if_pos h3] at hr
    rcases List.mem_cons.1 hr with rfl | hr
    · exact .inr (.inl ⟨_, _, rfl, hlt⟩)
    · exact ih hr
  | case7 b0 hlt b1 h2 b2 h3 ih =>
    rw [runes.eq_def] at hr
    simp only [if_neg hlt, if_neg h2, if_neg h3] at hr
    rcases List.mem_cons.1 hr with rfl | hr
    · exact .inr (.inr ⟨_, rfl, hlt⟩)
    · exact ih hr
  | case8 b0 hlt b1 h2 b2 h3 b3 t3 h4 ih =>
    rw [runes.eq_def] at hr
    simp only [if_neg hlt, if_neg h2, if_neg h3, if_pos h4] at hr
    rcases List.mem_cons.1 hr with rfl | hr
    · exact .inr (.inl ⟨_, _, rfl, hlt⟩)
    · exact ih hr
  | case9 b0 hlt b1 h2 b2 h3 b3 t3 h4 ih =>
    rw [runes.eq_def] at hr
    simp only [if_neg hlt, if_neg h2, if_neg h3, if_neg h4] at hr
    rcases List.mem_cons.1 hr with rfl | hr
    · exact .inr (.inr ⟨_, rfl, hlt⟩)
    · exact ih hr

theorem keeps_ascii (b : UInt8) : shouldSanitize (.ascii b) = false ↔ ValidChar b := by
  unfold shouldSanitize ValidChar
  simp only [Bool.not_eq_false', decide_eq_true_eq, UInt8.le_iff_toNat_le, ← UInt8.toNat_inj]
  exact Iff.rfl

/-- a string without anything to replace is left as it is by the replacing loop as well. -/
theorem sanitizeKey_eq (k : Str) : Librato.sanitizeKey k = (runes k).flatMap (fun r => if shouldSanitize r then [95] else r.bytes) := by
  unfold Librato.sanitizeKey
  split
  · rfl
  · next h =>
    have h' : ∀ r ∈ runes k, shouldSanitize r = false := by simpa using h
    have hv : validUtf8 k = true := by
      unfold validUtf8
      rw [List.all_eq_true]
      intro r hr
      cases r with
      | bad b => have := h' _ hr; simp [shouldSanitize] at this
      | _ => rfl
    have e := fixUtf8_of_valid hv
    unfold fixUtf8 at e
    rw [← e]
    conv_rhs => rw [e]
    refine (List.flatMap_congr (fun r hr => ?_))
    rw [h' r hr]
    cases r with
    | bad b => have := h' _ hr; simp [shouldSanitize] at this
    | _ => rfl

/-- C59: sanitised names contain valid characters only. -/
theorem C59_valid (s : Str) : ∀ c ∈ Librato.sanitizeKey s, ValidChar c := by
  intro c hc
  rw [sanitizeKey_eq] at hc
  obtain ⟨r, _, hc⟩ := List.mem_flatMap.1 hc
  by_cases h : shouldSanitize r = true
  · rw [if_pos h] at hc
    simp only [List.mem_singleton] at hc
    subst hc
    unfold ValidChar
    decide
  · rw [if_neg h] at hc
    cases r with
    | ascii b =>
      simp only [Rune.bytes, List.mem_singleton] at hc
      subst hc
      exact (keeps_ascii _).1 (by simpa using h)
    | multi l => simp [shouldSanitize] at h
    | bad b => simp [shouldSanitize] at h

theorem runes_ascii {s : Str} (h : ∀ c ∈ s, c < 0x80) : runes s = s.map .ascii := by
  induction s with
  | nil => rw [runes]; rfl
  | cons a t ih =>
    rw [runes.eq_def]
    simp only [if_pos (h a (by simp)), List.map_cons]
    rw [ih (fun c hc => h c (by simp [hc]))]

theorem validChar_ascii {c : UInt8} (h : ValidChar c) : c < 0x80 := by
  unfold ValidChar at h
  rw [UInt8.lt_iff_toNat_lt]
  change c.toNat < 128
  omega

/-- C59: valid names are kept. -/
theorem C59_keeps (s : Str) (h : ∀ c ∈ s, ValidChar c) : Librato.sanitizeKey s = s := by
  unfold Librato.sanitizeKey
  rw [if_neg]
  rw [runes_ascii (fun c hc => validChar_ascii (h c hc))]
  simp only [List.any_map, List.any_eq_true, not_exists, not_and]
  intro c hc
  have := (keeps_ascii c).2 (h c hc)
  simp [this]

/-- C59: sanitising is idempotent. -/
theorem C59_idempotent (s : Str) : Librato.sanitizeKey (Librato.sanitizeKey s) = Librato.sanitizeKey s := C59_keeps _ (C59_valid s)

open Classical in
/-- C59: every character that is not valid becomes one underscore, the others stay, in order. -/
theorem C59_chars (cps : List Nat) (h : ∀ n ∈ cps, Scalar n) :
    Librato.sanitizeKey (cps.flatMap utf8) = cps.map (fun n => if n < 128 ∧ ValidChar (UInt8.ofNat n) then UInt8.ofNat n else 95) := by
  rw [sanitizeKey_eq]
  induction cps with
  | nil => rw [List.flatMap_nil, runes]; rfl
  | cons n t ih =>
    rw [List.flatMap_cons]
    obtain ⟨r, h1, h2, h3⟩ := runes_utf8 (h n (by simp)) (t.flatMap utf8)
    have hr : r ∈ runes (utf8 n ++ t.flatMap utf8) := by rw [h1]; simp
    suffices hh : (if shouldSanitize r then [95] else r.bytes) = [if n < 128 ∧ ValidChar (UInt8.ofNat n) then UInt8.ofNat n else 95] by
      rw [h1, List.flatMap_cons, ih (fun m hm => h m (by simp [hm])), List.map_cons, hh, List.singleton_append]
    have hu : n < 128 → utf8 n = [UInt8.ofNat n] := by
      intro hn; unfold utf8; rw [if_pos hn]
    have hlt : n < 128 → UInt8.ofNat n < 0x80 := by
      intro hn; rw [UInt8.lt_iff_toNat_lt, u8_toNat (by omega)]; exact hn
    rcases runes_shape hr with ⟨b, rfl, hb⟩ | ⟨b, tl, rfl, hb⟩ | ⟨b, rfl, _⟩
    · -- an ASCII character
      have hn : n < 128 := by
        by_contra hn
        have hlen : (utf8 n).length ≠ 1 := by
          unfold utf8
          rw [if_neg hn]
          split
          · simp
          · split <;> simp
        exact hlen (by rw [← h2]; rfl)
      rw [hu hn] at h2
      simp only [Rune.bytes, List.cons.injEq, and_true] at h2
      subst h2
      by_cases hv : ValidChar (UInt8.ofNat n)
      · rw [if_neg (by rw [(keeps_ascii _).2 hv]; simp), if_pos ⟨hn, hv⟩]; rfl
      · have hc : shouldSanitize (.ascii (UInt8.ofNat n)) = true := by
          by_contra hc
          exact hv ((keeps_ascii _).1 (by simpa using hc))
        rw [if_pos hc, if_neg (fun x => hv x.2)]
    · have hn : ¬ n < 128 := by
        intro hn
        rw [hu hn] at h2
        simp only [Rune.bytes, List.cons.injEq] at h2
        rw [h2.1] at hb
        exact hb (hlt hn)
      have hc : shouldSanitize (.multi (b :: tl)) = true := rfl
      rw [if_pos hc, if_neg (fun x => hn x.1)]
    · exact absurd rfl (h3 b)

/-- the default sanitiser makes UTF-8 text. -/
theorem sanitizeKey_utf8 (s : Str) : IsUtf8 (Librato.sanitizeKey s) := by
  refine (validUtf8_iff _).1 ?_
  unfold validUtf8
  rw [runes_ascii (fun c hc => validChar_ascii (C59_valid s c hc))]
  simp

/-- C59: whatever was emitted, no counter has the name of a measurement, so the one never replaces the other in a post. -/
theorem C59_disjoint (o : Opts) (ops : List Op) (k : Str) :
    (run o ops).1.counters.get? k = none ∨ (run o ops).1.timers.get? k = none := by
  have : ∀ (ops : List Op) (es : List Emission) (s : State) (sent : List Sent), Holds o es s →
      ∃ es', Holds o es' (ops.foldl (step o) (s, sent)).1 := by
    intro ops
    induction ops with
    | nil => intro es s sent h; exact ⟨es, h⟩
    | cons op t ih =>
      intro es s sent h
      cases op with
      | emit job p => exact ih _ _ _ (h.process job p)
      | flush now => exact ih _ _ _ (holds_init o)
  obtain ⟨es, h⟩ := this ops [] init [] (holds_init o)
  obtain ⟨⟨_, h1⟩, ⟨_, h2⟩⟩ := h
  have a := h1 k
  have b := h2 k
  by_cases hc : counted o es k = 0
  · left
    exact a.trans (if_pos hc)
  · right
    have : valuesAt o es k = [] := by
      by_contra hne
      exact valuesAt_ne hne (counted_pos (by omega : 0 < counted o es k))
    have e : at' (es.flatMap (measures o)) k = [] := this
    exact b.trans (by rw [e]; rfl)

/-! ## cases -/

/-- options for the examples. -/
def libo : Opts := ⟨bs "app", Librato.sanitizeKey, bs "host-1", 15000000000⟩
def libOps : List Op :=
  [.flush 1, .emit (bs "my job") (.event (bs "e")), .emit (bs "my job") (.timing (bs "t") 1500000), .emit (bs "j2") (.event (bs "e")),
   .emit (bs "my job") (.timing (bs "t") (-500000)), .emit (bs "j2") (.complete 0 2000000), .flush 2, .emit (bs "j2") (.gauge (bs "g") (.fin (1/2))), .flush 3]

theorem libo_hyps : IsUtf8 libo.pfx ∧ (∀ s, IsUtf8 (libo.sanitize s)) ∧ IsUtf8 libo.source := by
  have h : validUtf8 (bs "app") = true ∧ validUtf8 (bs "host-1") = true := by decide +kernel
  exact ⟨(validUtf8_iff _).1 h.1, sanitizeKey_utf8, (validUtf8_iff _).1 h.2⟩

example : (∀ e ∈ emissions libOps, PayloadValid e.2) ∧ libOps.length < 2 ^ 62 := by
  refine ⟨?_, by decide⟩
  have hv : F64.rnd (1/2) = .fin (1/2) := by decide +kernel
  simp only [libOps, emissions, List.forall_mem_cons]
  exact ⟨trivial, trivial, trivial, trivial, trivial, hv, by simp⟩

/-- nothing to post, then two posts. -/
example : (run libo libOps).2.map (fun | .nothing => 0 | .failed => 1 | .posted _ => 2) = [0, 2, 2] := by decide +kernel

example : (run { libo with source := bs "h" } [.emit (bs "j") (.event (bs "e")), .flush 3]).2 =
    [.posted (bs "{\"measure_time\":3,\"period\":15,\"source\":\"h\",\"gauges\":{\"app.e.count\":{\"value\":1,\"attributes\":{\"aggregate\":true,\"display_units_long\":\"count\"}},\"app.j.e.count\":{\"value\":1,\"attributes\":{\"aggregate\":true,\"display_units_long\":\"count\"}}}}")] := by
  decide +kernel

/-- C58 without its exception is false: a single finite gauge whose square overflows makes the whole flush fail, and the event emitted
beside it is never posted. -/
theorem C58_false : ∃ ops : List Op, (∀ e ∈ emissions ops, PayloadValid e.2) ∧ (bs "j", Payload.event (bs "e")) ∈ emissions ops ∧
    pending [] ops = [] ∧ (run libo ops).2 = [.failed, .nothing] := by
  refine ⟨[.emit (bs "j") (.event (bs "e")), .emit (bs "j") (.gauge (bs "g") (F64.rnd (10 ^ 200))), .flush 1, .flush 2], ?_, ?_, ?_, ?_⟩
  · simp only [emissions, List.forall_mem_cons]
    exact ⟨trivial, F64.rnd_valid _, by simp⟩
  · simp [emissions]
  · rfl
  · decide +kernel

example : ¬ SumsFinite libo [(bs "j", Payload.gauge (bs "g") .nan)] := by
  intro h
  have := (h (bs "app.g.gauge")).1
  revert this
  decide +kernel

example : (∀ c ∈ bs "A-z.9:_", ValidChar c) ∧ Librato.sanitizeKey (bs "é") = [95] := by
  refine ⟨?_, by decide +kernel⟩
  intro c hc
  have : (bs "A-z.9:_").all (fun c => !shouldSanitize (.ascii c)) = true := by decide +kernel
  rw [List.all_eq_true] at this
  exact (keeps_ascii c).1 (by simpa using this c hc)
