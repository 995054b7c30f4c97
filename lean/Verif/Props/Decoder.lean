import Verif.Spec.JsonVariants
import Verif.Model.Unmarshal
import Verif.Lemmas.Base
import Verif.Lemmas.RawJson
import Mathlib.Tactic
/-!
# What healthd makes of answers of other versions (C95)
-/
open Spec

namespace Unmarshal

/-! ## Names -/

theorem foldName_ascii {s : Str} (h : Ascii s) : foldName s = s.map (fun c => if 97 ≤ c ∧ c ≤ 122 then c - 32 else c) := by
  induction s with
  | nil => rfl
  | cons c t ih =>
    have hc := h c (by simp)
    have ht : Ascii t := fun c hc => h c (by simp [hc])
    rw [foldName.eq_def]
    split
    · next heq => simp only [List.cons.injEq] at heq; rw [heq.1] at hc; exact absurd hc (by decide)
    · next heq => simp only [List.cons.injEq] at heq; rw [heq.1] at hc; exact absurd hc (by decide)
    · next heq => simp only [List.cons.injEq] at heq; obtain ⟨rfl, rfl⟩ := heq; rw [ih ht]; rfl
    · next heq => cases heq

theorem upper_lower : ∀ a b : UInt8, a < 0x80 → b < 0x80 →
    ((if 97 ≤ a ∧ a ≤ 122 then a - 32 else a) = (if 97 ≤ b ∧ b ≤ 122 then b - 32 else b) ↔ lowerByte a = lowerByte b) := by
  have key : ∀ a b : Fin 128, ((if (97 : UInt8) ≤ UInt8.ofNat a ∧ UInt8.ofNat a ≤ 122 then UInt8.ofNat a - 32 else UInt8.ofNat a) =
      (if (97 : UInt8) ≤ UInt8.ofNat b ∧ UInt8.ofNat b ≤ 122 then UInt8.ofNat b - 32 else UInt8.ofNat b) ↔ lowerByte (UInt8.ofNat a) = lowerByte (UInt8.ofNat b)) := by
    decide +kernel
  intro a b ha hb
  have := key ⟨a.toNat, ha⟩ ⟨b.toNat, hb⟩
  simpa using this

theorem foldName_eq_iff {a b : Str} (ha : Ascii a) (hb : Ascii b) : foldName a = foldName b ↔ SameName a b := by
  rw [foldName_ascii ha, foldName_ascii hb]
  unfold SameName
  induction a generalizing b with
  | nil => cases b <;> simp
  | cons x t ih =>
    cases b with
    | nil => simp
    | cons y u =>
      simp only [List.map_cons, List.cons.injEq]
      rw [upper_lower x y (ha x (by simp)) (hb y (by simp)), ih (fun c hc => ha c (by simp [hc])) (fun c hc => hb c (by simp [hc]))]

/-! ## Decoders that do not notice the differences -/

def Ignores {V : Type} (s : Shape) (dec : Dec V) : Prop := ∀ x y, Differs s x y → ∀ v, dec v x = dec v y

theorem ignores_leaf {V : Type} (dec : Dec V) : Ignores .leaf dec := by
  intro x y h; cases h

theorem ignores_ptr {V : Type} {s : Shape} {dec : Dec V} (zero : V) (h : Ignores s dec) : Ignores s (decPtr dec zero) := by
  intro x y hxy v
  have : ∀ z, Differs s x z ∨ Differs s z x → ∃ f, decPtr dec zero v x = (dec f x).map some ∧ decPtr dec zero v z = (dec f z).map some := by
    intro z hz
    refine ⟨v.getD zero, ?_, ?_⟩
    · rcases hz with hz | hz <;> cases hz <;> rfl
    · rcases hz with hz | hz <;> cases hz <;> rfl
  obtain ⟨f, h1, h2⟩ := this y (.inl hxy)
  rw [h1, h2, h x y hxy]

theorem ignores_map {V : Type} {s : Shape} {dec : Dec V} (zero : V) (h : Ignores s dec) : Ignores (.map s) (decMap dec zero) := by
  intro x y hxy m
  cases hxy with
  | inMap hd =>
    simp only [decMap, List.foldlM_append, List.foldlM_cons]
    rw [h _ _ hd zero]

/-- decoding two different fields: the order does not matter. -/
def Commute {S : Type} (f g : Dec S) : Prop := ∀ s x y, (f s x).bind (fun s => g s y) = (g s y).bind (fun s => f s x)

theorem Commute.symm {S : Type} {f g : Dec S} (h : Commute f g) : Commute g f := fun s x y => (h s y x).symm

theorem commute_fields {S V W : Type} {n1 n2 : Str} {d1 : Dec V} {d2 : Dec W} {g1 : S → V} {p1 : S → V → S} {g2 : S → W} {p2 : S → W → S}
    (h1 : ∀ s v, g2 (p1 s v) = g2 s) (h2 : ∀ s v, g1 (p2 s v) = g1 s) (h3 : ∀ s v w, p2 (p1 s v) w = p1 (p2 s w) v) :
    Commute (fieldOf n1 d1 g1 p1).2 (fieldOf n2 d2 g2 p2).2 := by
  intro s x y
  simp only [fieldOf]
  cases e1 : d1 (g1 s) x with
  | none =>
    cases e2 : d2 (g2 s) y with
    | none => rfl
    | some w => simp [h2, e1]
  | some v =>
    cases e2 : d2 (g2 s) y with
    | none => simp [h1, e2]
    | some w => simp [h1, h2, e1, e2, h3]

theorem commute_embedded {S T : Type} {f g : Str × Dec T} {get : S → T} {put : S → T → S} (h : Commute f.2 g.2) (h1 : ∀ s t, get (put s t) = t)
    (h2 : ∀ s t t', put (put s t) t' = put s t') : Commute (fieldOf f.1 f.2 get put).2 (fieldOf g.1 g.2 get put).2 := by
  intro s x y
  have := h (get s) x y
  simp only [fieldOf]
  cases e1 : f.2 (get s) x with
  | none =>
    rw [e1] at this
    cases e2 : g.2 (get s) y with
    | none => rfl
    | some w => rw [e2] at this; simp at this; simp [h1, ← this]
  | some v =>
    rw [e1] at this
    cases e2 : g.2 (get s) y with
    | none => rw [e2] at this; simp at this; simp [h1, this]
    | some w =>
      rw [e2] at this
      simp only [Option.bind_some] at this
      simp only [Option.map_some, Option.bind_some, h1, this, Option.map_map]
      congr 1
      funext t
      simp [h2]

/-- the fields of a struct, and how they look from outside. -/
structure Fits {S : Type} (fields : List (Str × Dec S)) (shapes : List (Str × Shape)) : Prop where
  names : List.Forall₂ (fun f g => f.1 = g.1 ∧ Ascii f.1 ∧ Ignores g.2 f.2) fields shapes
  commute : fields.Pairwise (fun f g => Commute f.2 g.2)

theorem forall₂_mem_left {α β : Type} {R : α → β → Prop} {l : List α} {m : List β} (h : List.Forall₂ R l m) {a : α} (ha : a ∈ l) : ∃ b ∈ m, R a b := by
  induction h with
  | nil => cases ha
  | @cons a' b' l' m' h1 _ ih =>
    rcases List.mem_cons.1 ha with rfl | ha
    · exact ⟨b', by simp, h1⟩
    · obtain ⟨b, hb, hr⟩ := ih ha
      exact ⟨b, by simp [hb], hr⟩

theorem store_commute {S : Type} {fields : List (Str × Dec S)} (hc : fields.Pairwise (fun f g => Commute f.2 g.2)) {p q : Str × Raw}
    (hn : foldName p.1 ≠ foldName q.1) (s : S) : (store fields s p).bind (fun s => store fields s q) = (store fields s q).bind (fun s => store fields s p) := by
  unfold store
  cases hp : fields.find? (fun f => foldName f.1 = foldName p.1) with
  | none =>
    cases hq : fields.find? (fun f => foldName f.1 = foldName q.1) with
    | none => rfl
    | some g => simp only [Option.bind_some]; cases g.2 s q.2 <;> rfl
  | some f =>
    cases hq : fields.find? (fun f => foldName f.1 = foldName q.1) with
    | none => simp only [Option.bind_some]; cases f.2 s p.2 <;> rfl
    | some g =>
      have e1 := List.find?_some hp
      have e2 := List.find?_some hq
      simp only [decide_eq_true_eq] at e1 e2
      have hne : f ≠ g := by rintro rfl; exact hn (e1.symm.trans e2)
      haveI : Std.Symm (fun f g : Str × Dec S => Commute f.2 g.2) := ⟨fun f g h => Commute.symm h⟩
      exact hc.forall (List.mem_of_find?_eq_some hp) (List.mem_of_find?_eq_some hq) hne s p.2 q.2

theorem ignores_struct {S : Type} {fields : List (Str × Dec S)} {shapes : List (Str × Shape)} (h : Fits fields shapes) : Ignores (.struct shapes) (decStruct fields) := by
  have found : ∀ {name : Str} {f}, Ascii name → fields.find? (fun f => foldName f.1 = foldName name) = some f → ∃ g ∈ shapes, SameName name g.1 ∧ Ignores g.2 f.2 := by
    intro name f ha hf
    obtain ⟨g, hg, e1, e2, e3⟩ := forall₂_mem_left h.names (List.mem_of_find?_eq_some hf)
    have e := List.find?_some hf
    simp only [decide_eq_true_eq] at e
    exact ⟨g, hg, by rw [← e1]; exact ((foldName_eq_iff e2 ha).1 e).symm, e3⟩
  intro x y hxy s
  cases hxy with
  | @added _ l1 l2 name x ha hn =>
    simp only [decStruct, List.foldlM_append, List.foldlM_cons]
    congr 1
    funext s
    have : store fields s (name, x) = some s := by
      unfold store
      cases hf : fields.find? (fun f => foldName f.1 = foldName name) with
      | none => rfl
      | some f => obtain ⟨g, hg, e, _⟩ := found ha hf; exact absurd e (hn g hg)
    rw [this]; rfl
  | @swapped _ l1 l2 p q hp hq hn =>
    simp only [decStruct, List.foldlM_append, List.foldlM_cons]
    congr 1
    funext s
    have := store_commute h.commute (p := p) (q := q) (fun e => hn ((foldName_eq_iff hp hq).1 e)) s
    simp only [Option.bind_eq_bind]
    rw [← Option.bind_assoc, this, Option.bind_assoc]
  | @recased _ l1 l2 name name' x ha hb hn =>
    simp only [decStruct, List.foldlM_append, List.foldlM_cons]
    have : ∀ s, store fields s (name, x) = store fields s (name', x) := by
      intro s
      unfold store
      rw [(foldName_eq_iff ha hb).2 hn]
    simp only [this]
  | @inField _ l1 l2 name s' x y ha hf hd =>
    simp only [decStruct, List.foldlM_append, List.foldlM_cons]
    have : ∀ s, store fields s (name, x) = store fields s (name, y) := by
      intro s
      unfold store
      cases he : fields.find? (fun f => foldName f.1 = foldName name) with
      | none => rfl
      | some f =>
        obtain ⟨g, hg, e, hi⟩ := found ha he
        simp only
        exact hi x y (by rw [hf g hg e]; exact hd) s
    simp only [this]

theorem ignores_field {S V : Type} {s : Shape} {name : Str} {dec : Dec V} {get : S → V} {put : S → V → S} (h : Ignores s dec) : Ignores s (fieldOf name dec get put).2 := by
  intro x y hxy v
  simp only [fieldOf]
  rw [h x y hxy]

/-! ## The structs -/

theorem fits_timer : Fits timerFields timerNames := by
  refine ⟨?_, ?_⟩
  · unfold timerFields timerNames
    repeat' apply List.Forall₂.cons
    all_goals first
      | exact .nil
      | exact ⟨rfl, by unfold Ascii; decide +kernel, ignores_leaf _⟩
  · unfold timerFields
    simp only [List.pairwise_cons, List.mem_cons, List.not_mem_nil, or_false, forall_eq_or_imp, forall_eq, IsEmpty.forall_iff, implies_true, List.Pairwise.nil, and_true]
    refine ⟨⟨?_, ?_, ?_, ?_⟩, ⟨?_, ?_, ?_⟩, ⟨?_, ?_⟩, ?_⟩ <;> exact commute_fields (fun _ _ => rfl) (fun _ _ => rfl) (fun _ _ _ => rfl)

theorem fits_errorCounter : Fits errorCounterFields [(bs "count", .leaf)] := by
  refine ⟨?_, ?_⟩
  · exact .cons ⟨rfl, by unfold Ascii; decide +kernel, ignores_leaf _⟩ .nil
  · simp [errorCounterFields]

theorem fits_maps : Fits mapsFields mapsNames := by
  refine ⟨?_, ?_⟩
  · refine .cons ⟨rfl, by unfold Ascii; decide +kernel, ignores_field (ignores_map _ (ignores_ptr _ (ignores_struct fits_timer)))⟩ (.cons ⟨rfl, by unfold Ascii; decide +kernel, ignores_field (ignores_map _ (ignores_leaf _))⟩
      (.cons ⟨rfl, by unfold Ascii; decide +kernel, ignores_field (ignores_map _ (ignores_leaf _))⟩ (.cons ⟨rfl, by unfold Ascii; decide +kernel, ignores_field (ignores_map _ (ignores_ptr _ (ignores_struct fits_errorCounter)))⟩ .nil)))
  · unfold mapsFields
    simp only [List.pairwise_cons, List.mem_cons, List.not_mem_nil, or_false, forall_eq_or_imp, forall_eq, IsEmpty.forall_iff, implies_true, List.Pairwise.nil, and_true]
    refine ⟨⟨?_, ?_, ?_⟩, ⟨?_, ?_⟩, ?_⟩ <;> exact commute_fields (fun _ _ => rfl) (fun _ _ => rfl) (fun _ _ _ => rfl)

theorem Fits.embedded {S T : Type} {fields : List (Str × Dec T)} {shapes : List (Str × Shape)} (h : Fits fields shapes) (get : S → T) (put : S → T → S)
    (h1 : ∀ s t, get (put s t) = t) (h2 : ∀ s t t', put (put s t) t' = put s t') : Fits (embedded fields get put) shapes := by
  refine ⟨?_, ?_⟩
  · unfold Unmarshal.embedded
    rw [List.forall₂_map_left_iff]
    exact h.names.imp (fun f g hfg => ⟨hfg.1, hfg.2.1, ignores_field hfg.2.2⟩)
  · unfold Unmarshal.embedded
    rw [List.pairwise_map]
    exact h.commute.imp (fun hfg => commute_embedded hfg h1 h2)

theorem Fits.append {S : Type} {f1 f2 : List (Str × Dec S)} {s1 s2 : List (Str × Shape)} (h1 : Fits f1 s1) (h2 : Fits f2 s2)
    (h : ∀ a ∈ f1, ∀ b ∈ f2, Commute a.2 b.2) : Fits (f1 ++ f2) (s1 ++ s2) :=
  ⟨List.rel_append h1.names h2.names, List.pairwise_append.2 ⟨h1.commute, h2.commute, h⟩⟩

theorem fits_counts : Fits ([fieldOf (bs "count_success") decInt (·.countSuccess) (fun s v => { s with countSuccess := v }),
   fieldOf (bs "count_validation_error") decInt (·.countValidationError) (fun s v => { s with countValidationError := v }),
   fieldOf (bs "count_panic") decInt (·.countPanic) (fun s v => { s with countPanic := v }),
   fieldOf (bs "count_error") decInt (·.countError) (fun s v => { s with countError := v }),
   fieldOf (bs "count_junk") decInt (·.countJunk) (fun s v => { s with countJunk := v })] : List (Str × Dec Job))
   [(bs "count_success", .leaf), (bs "count_validation_error", .leaf), (bs "count_panic", .leaf), (bs "count_error", .leaf), (bs "count_junk", .leaf)] := by
  refine ⟨?_, ?_⟩
  · repeat' apply List.Forall₂.cons
    all_goals first
      | exact .nil
      | exact ⟨rfl, by unfold Ascii; decide +kernel, ignores_leaf _⟩
  · simp only [List.pairwise_cons, List.mem_cons, List.not_mem_nil, or_false, forall_eq_or_imp, forall_eq, IsEmpty.forall_iff, implies_true, List.Pairwise.nil, and_true]
    refine ⟨⟨?_, ?_, ?_, ?_⟩, ⟨?_, ?_, ?_⟩, ⟨?_, ?_⟩, ?_⟩ <;> exact commute_fields (fun _ _ => rfl) (fun _ _ => rfl) (fun _ _ _ => rfl)

theorem fits_job : Fits jobFields jobShape := by
  unfold jobFields jobShape
  refine Fits.append (Fits.append (fits_maps.embedded _ _ (fun _ _ => rfl) (fun _ _ _ => rfl)) (fits_timer.embedded _ _ (fun _ _ => rfl) (fun _ _ _ => rfl)) ?_) fits_counts ?_
  · intro a ha b hb
    obtain ⟨g, _, rfl⟩ := List.mem_map.1 hb
    obtain ⟨f, _, rfl⟩ := List.mem_map.1 ha
    exact commute_fields (fun _ _ => rfl) (fun _ _ => rfl) (fun _ _ _ => rfl)
  · intro a ha b hb
    simp only [List.mem_cons, List.not_mem_nil, or_false] at hb
    rcases List.mem_append.1 ha with ha | ha
    · obtain ⟨f, _, rfl⟩ := List.mem_map.1 ha
      rcases hb with rfl | rfl | rfl | rfl | rfl <;> exact commute_fields (fun _ _ => rfl) (fun _ _ => rfl) (fun _ _ _ => rfl)
    · obtain ⟨f, _, rfl⟩ := List.mem_map.1 ha
      rcases hb with rfl | rfl | rfl | rfl | rfl <;> exact commute_fields (fun _ _ => rfl) (fun _ _ => rfl) (fun _ _ _ => rfl)

theorem fits_interval (lo : Int → Int) (fresh : Nat) : Fits (intervalFields lo fresh) intervalNames := by
  unfold intervalFields intervalNames
  refine Fits.append ⟨?_, ?_⟩ (fits_maps.embedded _ _ (fun _ _ => rfl) (fun _ _ _ => rfl)) ?_
  · exact .cons ⟨rfl, by show Ascii (bs "interval_start"); unfold Ascii; decide +kernel, ignores_leaf _⟩ (.cons ⟨rfl, by unfold Ascii; decide +kernel, ignores_leaf _⟩
      (.cons ⟨rfl, by unfold Ascii; decide +kernel, ignores_field (ignores_map _ (ignores_ptr _ (ignores_struct fits_job)))⟩ .nil))
  · simp only [List.pairwise_cons, List.mem_cons, List.not_mem_nil, or_false, forall_eq_or_imp, forall_eq, IsEmpty.forall_iff, implies_true, List.Pairwise.nil, and_true]
    refine ⟨⟨?_, ?_⟩, ?_⟩ <;> exact commute_fields (fun _ _ => rfl) (fun _ _ => rfl) (fun _ _ _ => rfl)
  · intro a ha b hb
    simp only [List.mem_cons, List.not_mem_nil, or_false] at ha
    obtain ⟨f, _, rfl⟩ := List.mem_map.1 hb
    rcases ha with rfl | rfl | rfl <;> exact commute_fields (fun _ _ => rfl) (fun _ _ => rfl) (fun _ _ _ => rfl)

theorem ignores_elems (lo : Int → Int) {x y : Raw} (h : Differs (.struct intervalNames) x y) (l1 l2 : List Raw) : ∀ (fresh : Nat) (cells : List (Option Interval)),
    decElems lo fresh cells (l1 ++ x :: l2) = decElems lo fresh cells (l1 ++ y :: l2) := by
  induction l1 with
  | nil =>
    intro fresh cells
    rw [List.nil_append, List.nil_append, decElems, decElems, ignores_ptr _ (ignores_struct (fits_interval lo fresh)) _ _ h]
  | cons z t ih =>
    intro fresh cells
    rw [List.cons_append, List.cons_append, decElems, decElems]
    simp only [ih]

theorem ignores_slice (lo : Int → Int) (fresh : Nat) : Ignores (.array (.struct intervalNames)) (decSlice lo fresh) := by
  intro x y hxy s
  cases hxy with
  | @inArray _ l1 l2 x y h =>
    have e : ∀ z, decSlice lo fresh s (.arr (l1 ++ z :: l2)) = decElems lo fresh (s.elems ++ s.hidden) (l1 ++ z :: l2) := by
      intro z; cases l1 <;> rfl
    rw [e, e, ignores_elems lo h]

theorem fits_answer (lo : Int → Int) (fresh : Nat) :
    Fits (answerFields lo fresh) [(bs "instance_id", .leaf), (bs "interval_duration", .leaf), (bs "aggregations", .array (.struct intervalNames))] := by
  refine ⟨?_, ?_⟩
  · exact .cons ⟨rfl, by unfold Ascii; decide +kernel, ignores_leaf _⟩ (.cons ⟨rfl, by unfold Ascii; decide +kernel, ignores_leaf _⟩
      (.cons ⟨rfl, by show Ascii (bs "aggregations"); unfold Ascii; decide +kernel, ignores_field (ignores_slice lo fresh)⟩ .nil))
  · unfold answerFields
    simp only [List.pairwise_cons, List.mem_cons, List.not_mem_nil, or_false, forall_eq_or_imp, forall_eq, IsEmpty.forall_iff, implies_true, List.Pairwise.nil, and_true]
    refine ⟨⟨?_, ?_⟩, ?_⟩ <;> exact commute_fields (fun _ _ => rfl) (fun _ _ => rfl) (fun _ _ _ => rfl)

/-- C95: answers that differ in unknown members, in the order of members and in the case of their names, at any depth, mean the same to healthd. -/
theorem C95_same (lo : Int → Int) (fresh : Nat) {body1 body2 : Str} {r1 r2 : Raw} (h1 : Raw.parse body1 = some r1) (h2 : Raw.parse body2 = some r2)
    (h : SameFor metricsShape r1 r2) : unmarshal lo fresh body1 = unmarshal lo fresh body2 := by
  have key : ∀ a b, SameFor metricsShape a b → decStruct (answerFields lo fresh) Answer.zero a = decStruct (answerFields lo fresh) Answer.zero b := by
    intro a b hab
    induction hab with
    | rel x y hd => exact ignores_struct (fits_answer lo fresh) x y hd _
    | refl x => rfl
    | symm x y _ ih => exact ih.symm
    | trans x y z _ _ ih1 ih2 => exact ih1.trans ih2
  unfold unmarshal
  rw [h1, h2, Option.bind_some, Option.bind_some, key r1 r2 h]

/-- a case that meets the hypotheses: a field of a later version, and another order and case within an interval. -/
example : ∃ r1 r2, Raw.parse (bs "{\"instance_id\":\"a\",\"aggregations\":[{\"serial_number\":3,\"events\":{\"e\":1}}]}") = some r1 ∧
    Raw.parse (bs "{\"instance_id\":\"a\", \"version\" : 2, \"aggregations\":[ {\"Events\":{\"e\":1},\"serial_number\":3}]}") = some r2 ∧
    SameFor metricsShape r1 r2 := by
  let ev : Raw := .obj [(bs "e", .num (bs "1") 1)]
  let n3 : Raw := .num (bs "3") 3
  let id : Str × Raw := (bs "instance_id", .str (bs "a") (bs "a"))
  let v : Str × Raw := (bs "version", .num (bs "2") 2)
  let agg (l : List (Str × Raw)) : Str × Raw := (bs "aggregations", .arr [.obj l])
  refine ⟨.obj [id, agg [(bs "serial_number", n3), (bs "events", ev)]], .obj [id, v, agg [(bs "Events", ev), (bs "serial_number", n3)]],
    Raw.parse_of_eqb (by decide +kernel), Raw.parse_of_eqb (by decide +kernel), ?_⟩
  have a1 : Differs metricsShape (.obj [id, agg [(bs "serial_number", n3), (bs "events", ev)]]) (.obj [id, v, agg [(bs "serial_number", n3), (bs "events", ev)]]) :=
    Differs.added (l1 := [id]) (by unfold Ascii; decide +kernel) (by
      intro f hf
      simp only [List.mem_cons, List.not_mem_nil, or_false] at hf
      rcases hf with rfl | rfl | rfl <;> (unfold SameName; decide +kernel))
  have inner : ∀ x y, Differs (.struct intervalNames) x y → Differs metricsShape (.obj [id, v, (bs "aggregations", .arr [x])]) (.obj [id, v, (bs "aggregations", .arr [y])]) := by
    intro x y h
    refine Differs.inField (l1 := [id, v]) (l2 := []) (s := .array (.struct intervalNames)) (by unfold Ascii; decide +kernel) ?_ (Differs.inArray (l1 := []) (l2 := []) h)
    intro f hf hs
    simp only [List.mem_cons, List.not_mem_nil, or_false] at hf
    rcases hf with rfl | rfl | rfl
    · exact absurd hs (by unfold SameName; decide +kernel)
    · exact absurd hs (by unfold SameName; decide +kernel)
    · rfl
  have a2 : Differs (.struct intervalNames) (.obj [(bs "serial_number", n3), (bs "events", ev)]) (.obj [(bs "events", ev), (bs "serial_number", n3)]) :=
    Differs.swapped (l1 := []) (l2 := []) (by unfold Ascii; decide +kernel) (by unfold Ascii; decide +kernel) (by unfold SameName; decide +kernel)
  have a3 : Differs (.struct intervalNames) (.obj [(bs "events", ev), (bs "serial_number", n3)]) (.obj [(bs "Events", ev), (bs "serial_number", n3)]) :=
    Differs.recased (l1 := []) (by unfold Ascii; decide +kernel) (by unfold Ascii; decide +kernel) (by unfold SameName; decide +kernel)
  exact (Relation.EqvGen.rel _ _ a1).trans _ _ _ ((Relation.EqvGen.rel _ _ (inner _ _ a2)).trans _ _ _ (.rel _ _ (inner _ _ a3)))

/-- Names that come twice are not harmless: later numbers replace earlier ones, but maps are merged, `null` empties them, and an element of
`aggregations` is decoded into what the earlier array left at its place. -/
theorem C95_twice : unmarshal (fun _ => 0) 0 (bs "{\"aggregations\":[{\"serial_number\":1,\"events\":{\"a\":1,\"b\":1}}],\"aggregations\":[{\"events\":{\"b\":2}}]}") =
      some ⟨[], 0, [some ⟨⟨⟨0, 0⟩, 1, [], { AggMaps.init with events := [(bs "a", 1), (bs "b", 2)] }⟩, false⟩]⟩ ∧
    unmarshal (fun _ => 0) 0 (bs "{\"aggregations\":[{\"events\":{\"a\":1}}],\"aggregations\":[{\"events\":null}]}") =
      some ⟨[], 0, [some ⟨⟨⟨0, 0⟩, 0, [], AggMaps.init⟩, false⟩]⟩ := by decide +kernel

/-- A number of the wrong form anywhere (`1.0` or `1e3` for an integer, `1e999` for a float) makes healthd refuse the whole answer. -/
theorem C95_strict : unmarshal (fun _ => 0) 0 (bs "{\"instance_id\":\"a\",\"aggregations\":[{\"events\":{\"a\":1,\"b\":1.0}}]}") = none ∧
    unmarshal (fun _ => 0) 0 (bs "{\"instance_id\":\"a\",\"aggregations\":[{\"gauges\":{\"g\":1e999}}]}") = none ∧
    unmarshal (fun _ => 0) 0 (bs "{\"instance_id\":\"a\",\"aggregations\":[{\"gauges\":{\"g\":1e3}}]}") ≠ none := by decide +kernel

end Unmarshal
