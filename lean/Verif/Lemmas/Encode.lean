import Verif.Lemmas.Metrics
import Verif.Model.Api
import Verif.Lemmas.Stats
/-!
# What can be encoded as JSON
-/
open Spec Unmarshal

theorem mapJson_encodable_iff {V : Type} (f : V → JVal) (m : GoMap Str V) :
    (mapJson f m).encodable = true ↔ ∀ k v, m.get? k = some v → (f v).encodable = true := by
  refine ⟨?_, mapJson_encodable f m⟩
  unfold mapJson
  rw [JVal.encodable, encodableMembers_iff]
  intro h k v hk
  exact h (k, f v) (List.mem_filterMap.2 ⟨k, (sortStrs_perm m.keys).mem_iff.2 (GoMap.mem_keys_of_get? hk), by simp [hk]⟩)

theorem timer_encodable_iff (t : TimerAgg) : (JVal.obj t.fields).encodable = true ↔ t.nanosSumSquares.isFinite = true := by
  simp [TimerAgg.fields, JVal.encodable, JVal.encodableMembers]

theorem mapsFields_encodable_iff (a : AggMaps) : (∀ p ∈ a.fields, p.2.encodable = true) ↔ MapsFinite a := by
  refine ⟨fun h => ⟨?_, ?_⟩, mapsFields_encodable⟩
  · have := h (bs "timers", mapJson (fun t => .obj t.fields) a.timers) (by simp [AggMaps.fields])
    rw [mapJson_encodable_iff] at this
    exact fun k t hk => (timer_encodable_iff t).1 (this k t hk)
  · have := h (bs "gauges", mapJson .float a.gauges) (by simp [AggMaps.fields])
    rw [mapJson_encodable_iff] at this
    exact fun k t hk => this k t hk

theorem job_encodable_iff (j : JobAgg) : j.toJson.encodable = true ↔ MapsFinite j.maps ∧ j.timer.nanosSumSquares.isFinite = true := by
  refine ⟨fun h => ?_, fun h => job_encodable h.1 h.2⟩
  unfold JobAgg.toJson at h
  rw [JVal.encodable, encodableMembers_iff] at h
  refine ⟨(mapsFields_encodable_iff _).1 (fun p hp => h p (by simp [hp])), (timer_encodable_iff _).1 ?_⟩
  rw [JVal.encodable, encodableMembers_iff]
  exact fun p hp => h p (by simp [hp])

theorem agg_encodable_iff (a : IntAgg) (s : Str) : (a.toJson s).encodable = true ↔ AggFinite a := by
  refine ⟨fun h => ?_, fun h => agg_encodable h s⟩
  unfold IntAgg.toJson at h
  rw [JVal.encodable, encodableMembers_iff] at h
  refine ⟨(mapsFields_encodable_iff _).1 (fun p hp => h p (by simp [hp])), fun k j hk => (job_encodable_iff j).1 ?_⟩
  exact (mapJson_encodable_iff _ _).1 (h (bs "jobs", mapJson JobAgg.toJson a.jobs) (by simp)) k j hk

/-- the start of an interval, as text. -/
def startText (zone : Nat → Int → Int) (a : IntAgg) : Str := rfc3339 a.start.ns (zone a.start.loc a.start.ns)

/-- it can be shown. -/
def Showable (zone : Nat → Int → Int) (a : IntAgg) : Prop := AggFinite a ∧ FourDigitYear a.start.ns (zone a.start.loc a.start.ns)

theorem encode_ok {zone : Nat → Int → Int} {a : IntAgg} (h : Showable zone a) : a.encode zone = .ok (a.toJson (startText zone a)) := by
  unfold IntAgg.encode
  have e : timeJSON a.start.ns (zone a.start.loc a.start.ns) = some (startText zone a) := by
    unfold timeJSON; exact if_pos h.2
  rw [e]
  simp only
  rw [(firstBad_none _).2 (agg_encodable h.1 _)]

theorem encode_error {zone : Nat → Int → Int} {a : IntAgg} (h : ¬ Showable zone a) : ∃ e, a.encode zone = .error e := by
  unfold IntAgg.encode
  by_cases hy : FourDigitYear a.start.ns (zone a.start.loc a.start.ns)
  · have e : timeJSON a.start.ns (zone a.start.loc a.start.ns) = some (startText zone a) := by
      unfold timeJSON; exact if_pos hy
    rw [e]
    simp only
    cases hb : (a.toJson (startText zone a)).firstBad with
    | none => exact absurd ⟨(agg_encodable_iff _ _).1 ((firstBad_none _).1 hb), hy⟩ h
    | some x => exact ⟨x, rfl⟩
  · have e : timeJSON a.start.ns (zone a.start.loc a.start.ns) = none := by
      unfold timeJSON; exact if_neg hy
    rw [e]
    exact ⟨_, rfl⟩

theorem encodeAggs_error {zone : Nat → Int → Int} {ms : List IntAgg} {a : IntAgg} (ha : a ∈ ms) (h : ¬ Showable zone a) : ∃ e, encodeAggs zone ms = .error e := by
  induction ms with
  | nil => simp at ha
  | cons b t ih =>
    rw [encodeAggs]
    by_cases hb : Showable zone b
    · rw [encode_ok hb]
      rcases List.mem_cons.1 ha with rfl | ha
      · exact absurd hb h
      · obtain ⟨e, he⟩ := ih ha
        rw [he]
        exact ⟨e, rfl⟩
    · obtain ⟨e, he⟩ := encode_error hb
      rw [he]
      exact ⟨e, rfl⟩

namespace Api
theorem encodeAll_ok {α : Type} {f : α → Except Str JVal} {g : α → JVal} {l : List α} (h : ∀ x ∈ l, f x = .ok (g x)) : encodeAll f l = .ok (l.map g) := by
  induction l with
  | nil => rfl
  | cons a t ih =>
    rw [encodeAll, h a (by simp), ih (fun x hx => h x (by simp [hx]))]
    rfl

theorem encodeAll_error {α : Type} {f : α → Except Str JVal} {l : List α} {x : α} (hx : x ∈ l) (h : ∃ e, f x = .error e) : ∃ e, encodeAll f l = .error e := by
  induction l with
  | nil => simp at hx
  | cons a t ih =>
    rw [encodeAll]
    cases ha : f a with
    | error e => exact ⟨e, rfl⟩
    | ok j =>
      rcases List.mem_cons.1 hx with rfl | hx
      · obtain ⟨e, he⟩ := h
        rw [he] at ha; cases ha
      · obtain ⟨e, he⟩ := ih hx
        rw [he]
        exact ⟨e, rfl⟩

/-! ## Numbers of a row -/

theorem average_finite {t : TimerAgg} (hc : InI64 t.count) (hs : InI64 t.nanosSum) : Finite64 (average t) := by
  have z : Finite64 (.fin 0) := ⟨rfl, (F64.nonnegLe_zero (e := 0)).2.1⟩
  by_cases h0 : t.count = 0
  · unfold average; rw [if_pos h0]; exact z
  · unfold average
    rw [if_neg h0]
    obtain ⟨p, hp, hp1, hp0, _⟩ := F64.ofInt_err hs.1 hs.2
    obtain ⟨c, hcf, hc1, _⟩ := F64.ofInt_err hc.1 hc.2
    have u1 := F64.uu_pos
    have u2 := F64.uu_small
    have bound : ∀ {n : Int} {q : ℚ}, n ≠ 0 → InI64 n → |q - n| ≤ |(n:ℚ)| * F64.uu → 1 / 2 ≤ |q| ∧ |q| ≤ 2 ^ 64 := by
      intro n q hn hb h
      have h1 : (1:ℚ) ≤ |(n : ℚ)| := by exact_mod_cast Int.one_le_abs hn
      have h2 : |(n : ℚ)| ≤ 2 ^ 63 := by
        rw [abs_le]
        constructor
        · exact_mod_cast hb.1
        · exact_mod_cast hb.2.le
      have h3 := abs_sub_abs_le_abs_sub q n
      have h4 := abs_sub_abs_le_abs_sub (n:ℚ) q
      rw [abs_sub_comm] at h4
      constructor <;> nlinarith
    obtain ⟨c1, c2⟩ := bound h0 hc hc1
    have hc0 : c ≠ 0 := by rintro rfl; norm_num at c1
    rw [hp, hcf]
    show Finite64 (if c = 0 then _ else if p = 0 then _ else F64.rnd (p / c))
    rw [if_neg hc0]
    split
    · unfold F64.zero
      split
      · exact ⟨rfl, by unfold F64.Valid; trivial⟩
      · exact z
    · next hp2 =>
      have hs0 : t.nanosSum ≠ 0 := fun e => hp2 (hp0 e)
      obtain ⟨p1, p2⟩ := bound hs0 hs hp1
      have hm : F64.Mid (p / c) := by
        apply F64.mid_of
        · rw [abs_div, le_div_iff₀ (by linarith)]
          have : (1:ℚ) / 2 ^ 200 * |c| ≤ 1 / 2 ^ 200 * 2 ^ 64 := mul_le_mul_of_nonneg_left c2 (by positivity)
          refine this.trans (le_trans ?_ p1)
          norm_num
        · rw [abs_div, div_le_iff₀ (by linarith)]
          have : (2:ℚ) ^ 250 * (1 / 2) ≤ 2 ^ 250 * |c| := mul_le_mul_of_nonneg_left c1 (by positivity)
          refine p2.trans (le_trans ?_ this)
          norm_num
      refine ⟨?_, F64.rnd_valid _⟩
      rw [F64.rnd_mid hm]
      rfl

theorem sqrt_valid {v : F64} (h : v.sqrt.isFinite = true) : v.sqrt.Valid := by
  cases v with
  | nan => simp [F64.sqrt, F64.isFinite] at h
  | inf s => cases s <;> simp [F64.sqrt, F64.isFinite] at h
  | negZero => unfold F64.sqrt F64.Valid; trivial
  | fin q =>
    unfold F64.sqrt
    simp only
    split
    · next hq => unfold F64.sqrt at h; simp [hq, F64.isFinite] at h
    · split
      · exact (F64.nonnegLe_zero (e := 0)).2.1
      · exact F64.rnd_valid _

theorem stdDev_finite {t : TimerAgg} (h : (stdDev t).isFinite = true) : Finite64 (stdDev t) := by
  refine ⟨h, ?_⟩
  unfold stdDev at h ⊢
  split
  · exact (F64.nonnegLe_zero (e := 0)).2.1
  · next h1 =>
    rw [if_neg h1] at h
    split
    · exact (F64.nonnegLe_zero (e := 0)).2.1
    · next h2 =>
      rw [if_neg h2] at h
      exact sqrt_valid h
end Api
