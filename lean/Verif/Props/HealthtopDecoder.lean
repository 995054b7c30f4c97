import Verif.Props.Decoder
import Verif.Props.Healthtop
/-!
# What healthtop makes of the answers of other versions of healthd (C95)
-/
open Spec Unmarshal Healthd Api

namespace Healthtop

theorem fits_row : Fits rowFields rowNames := by
  refine ⟨?_, ?_⟩
  · unfold rowFields rowNames
    repeat' apply List.Forall₂.cons
    all_goals first
      | exact .nil
      | exact ⟨rfl, by unfold Ascii; decide +kernel, ignores_leaf _⟩
  · unfold rowFields
    simp only [List.pairwise_cons, List.mem_cons, List.not_mem_nil, or_false, forall_eq_or_imp, forall_eq, IsEmpty.forall_iff, implies_true, List.Pairwise.nil, and_true]
    and_intros <;> exact commute_fields (fun _ _ => rfl) (fun _ _ => rfl) (fun _ _ _ => rfl)

theorem fits_host (lo : Int → Int) (fresh : Nat) : Fits (hostFields lo fresh) hostNames := by
  have ha : ∀ n ∈ hostNames, Ascii n.1 := by unfold Ascii; simp only [hostNames, List.mem_cons, List.not_mem_nil, or_false, forall_eq_or_imp, forall_eq]; decide +kernel
  refine ⟨?_, ?_⟩
  · unfold hostFields hostNames
    repeat' apply List.Forall₂.cons
    all_goals first
      | exact .nil
      | exact ⟨rfl, ha (_, .leaf) (by simp [hostNames, fieldOf]), ignores_leaf _⟩
  · unfold hostFields
    simp only [List.pairwise_cons, List.mem_cons, List.not_mem_nil, or_false, forall_eq_or_imp, forall_eq, IsEmpty.forall_iff, implies_true, List.Pairwise.nil, and_true]
    and_intros <;> exact commute_fields (fun _ _ => rfl) (fun _ _ => rfl) (fun _ _ _ => rfl)

theorem ignores_itemsFrom {α : Type} {s : Shape} {dec : Dec (Option α)} (hd : Ignores s dec) {x y : Raw} (h : Differs s x y) (l1 l2 : List Raw) :
    ∀ cells, decItemsFrom dec cells (l1 ++ x :: l2) = decItemsFrom dec cells (l1 ++ y :: l2) := by
  induction l1 with
  | nil =>
    intro cells
    rw [List.nil_append, List.nil_append, decItemsFrom, decItemsFrom, hd _ _ h]
  | cons z t ih =>
    intro cells
    rw [List.cons_append, List.cons_append, decItemsFrom, decItemsFrom]
    simp only [ih]

theorem ignores_items {α : Type} {s : Shape} {dec : Dec (Option α)} (hd : Ignores s dec) : Ignores (.array s) (decItems dec) := by
  intro x y hxy v
  cases hxy with
  | @inArray _ l1 l2 x y h =>
    have e : ∀ z, decItems dec v (.arr (l1 ++ z :: l2)) = decItemsFrom dec (v.elems ++ v.hidden) (l1 ++ z :: l2) := by
      intro z; cases l1 <;> rfl
    rw [e, e, ignores_itemsFrom hd h]

theorem fits_api {α : Type} {name : Str} (ha : Ascii name) {fields : List (Str × Dec α)} {names : List (Str × Shape)} (h : Fits fields names) (zero : α) :
    Fits (Healthtop.answerFields name fields zero) [(bs "instance_id", .leaf), (bs "interval_duration", .leaf), (name, .array (.struct names))] := by
  refine ⟨?_, ?_⟩
  · exact .cons ⟨rfl, by show Ascii (bs "instance_id"); unfold Ascii; decide +kernel, ignores_leaf _⟩
      (.cons ⟨rfl, by show Ascii (bs "interval_duration"); unfold Ascii; decide +kernel, ignores_leaf _⟩
      (.cons ⟨rfl, ha, ignores_field (ignores_items (ignores_ptr _ (ignores_struct h)))⟩ .nil))
  · unfold Healthtop.answerFields
    simp only [List.pairwise_cons, List.mem_cons, List.not_mem_nil, or_false, forall_eq_or_imp, forall_eq, IsEmpty.forall_iff, implies_true, List.Pairwise.nil, and_true]
    and_intros <;> exact commute_fields (fun _ _ => rfl) (fun _ _ => rfl) (fun _ _ _ => rfl)

theorem unmarshal_same {α : Type} {name : Str} (ha : Ascii name) {fields : List (Str × Dec α)} {names : List (Str × Shape)} (hf : Fits fields names) (zero : α)
    {body1 body2 : Str} {r1 r2 : Raw} (h1 : Raw.parse body1 = some r1) (h2 : Raw.parse body2 = some r2) (h : SameFor (apiShape name names) r1 r2) :
    Healthtop.unmarshal name fields zero body1 = Healthtop.unmarshal name fields zero body2 := by
  have key : ∀ a b, SameFor (apiShape name names) a b →
      decStruct (Healthtop.answerFields name fields zero) Decoded.zero a = decStruct (Healthtop.answerFields name fields zero) Decoded.zero b := by
    intro a b hab
    induction hab with
    | rel x y hd => exact ignores_struct (fits_api ha hf zero) x y hd _
    | refl x => rfl
    | symm x y _ ih => exact ih.symm
    | trans x y z _ _ ih1 ih2 => exact ih1.trans ih2
  unfold Healthtop.unmarshal
  rw [h1, h2, Option.bind_some, Option.bind_some, key r1 r2 h]

/-- C95 for healthtop: answers of healthd that differ in unknown members, in the order of members and in the case of their names mean the same to healthtop (whatever
their status codes). -/
theorem _root_.C95_jobs (o : Opts) (jsonErr : Str) (c1 c2 : Int) {body1 body2 : Str} {r1 r2 : Raw} (h1 : Raw.parse body1 = some r1) (h2 : Raw.parse body2 = some r2)
    (h : SameFor (apiShape (bs "jobs") rowNames) r1 r2) : pollJobs o jsonErr (.answer c1 body1 none) = pollJobs o jsonErr (.answer c2 body2 none) := by
  unfold pollJobs
  simp only
  rw [unmarshal_same (by unfold Ascii; decide +kernel) fits_row rowZero h1 h2 h]

theorem _root_.C95_hosts (lo : Int → Int) (fresh : Nat) (jsonErr : Str) (c1 c2 : Int) {body1 body2 : Str} {r1 r2 : Raw} (h1 : Raw.parse body1 = some r1) (h2 : Raw.parse body2 = some r2)
    (h : SameFor (apiShape (bs "hosts") hostNames) r1 r2) : pollHosts lo fresh jsonErr (.answer c1 body1 none) = pollHosts lo fresh jsonErr (.answer c2 body2 none) := by
  unfold pollHosts
  simp only
  rw [unmarshal_same (by unfold Ascii; decide +kernel) (fits_host lo fresh) hostZero h1 h2 h]

/-- a case that meets the hypotheses: a later healthd that also sends a percentile. -/
example : ∃ r1 r2, Raw.parse (bs "{\"instance_id\":\"hd\",\"jobs\":[{\"name\":\"j\",\"count\":1}]}") = some r1 ∧
    Raw.parse (bs "{\"instance_id\":\"hd\",\"jobs\":[{\"name\":\"j\",\"nanos_p99\":7,\"count\":1}]}") = some r2 ∧ SameFor (apiShape (bs "jobs") rowNames) r1 r2 := by
  let id : Str × Raw := (bs "instance_id", .str (bs "hd") (bs "hd"))
  let nm : Str × Raw := (bs "name", .str (bs "j") (bs "j"))
  let ct : Str × Raw := (bs "count", .num (bs "1") 1)
  let p : Str × Raw := (bs "nanos_p99", .num (bs "7") 7)
  refine ⟨.obj [id, (bs "jobs", .arr [.obj [nm, ct]])], .obj [id, (bs "jobs", .arr [.obj [nm, p, ct]])], Raw.parse_of_eqb (by decide +kernel), Raw.parse_of_eqb (by decide +kernel), ?_⟩
  refine .rel _ _ (Differs.inField (l1 := [id]) (l2 := []) (s := .array (.struct rowNames)) (by unfold Ascii; decide +kernel) ?_ (Differs.inArray (l1 := []) (l2 := []) ?_))
  · intro f hf hs
    simp only [List.mem_cons, List.not_mem_nil, or_false] at hf
    rcases hf with rfl | rfl | rfl
    · exact absurd hs (by unfold SameName; decide +kernel)
    · exact absurd hs (by unfold SameName; decide +kernel)
    · rfl
  · refine Differs.added (l1 := [nm]) (by unfold Ascii; decide +kernel) ?_
    have key : ∀ f ∈ rowNames.map (·.1), ¬ SameName (bs "nanos_p99") f := by unfold SameName; decide +kernel
    exact fun f hf => key f.1 (List.mem_map_of_mem hf)

/-- … but not a later one that sends a count as `1.0`: healthtop then shows an error. -/
theorem _root_.C95_healthtop_strict : pollJobs ⟨[], []⟩ (bs "bad") (.answer 200 (bs "{\"instance_id\":\"hd\",\"jobs\":[{\"name\":\"j\",\"count\":1.0}]}") none) = some (.error (bs "bad")) ∧
    pollJobs ⟨[], []⟩ (bs "bad") (.answer 200 (bs "{\"instance_id\":\"hd\",\"jobs\":[{\"NAME\":\"j\",\"count\":1,\"nanos_avg\":-0}]}") none) =
      some (.ok ⟨bs "hd", 0, [some { rowZero with name := bs "j", count := 1, nanosAvg := .negZero }]⟩) := by decide +kernel

end Healthtop
