import Verif.Model.Base
/-! Lemmas about the Go map model and int64 wrap-around. -/

set_option linter.unusedSectionVars false
namespace GoMap
variable {K V W : Type} [DecidableEq K]

@[simp] theorem get?_nil (k : K) : get? ([] : GoMap K V) k = none := rfl

theorem get?_cons (p : K × V) (m : GoMap K V) (k : K) :
    get? (p :: m) k = if p.1 = k then some p.2 else get? m k := rfl

@[simp] theorem get?_set_self (m : GoMap K V) (k : K) (v : V) : get? (set m k v) k = some v := by
  induction m with
  | nil => simp [set, get?]
  | cons p m ih =>
    obtain ⟨k', v'⟩ := p
    by_cases h : k' = k <;> simp [set, get?, h, ih]

theorem get?_set_ne (m : GoMap K V) {k k' : K} (v : V) (h : k' ≠ k) :
    get? (set m k v) k' = get? m k' := by
  induction m with
  | nil => simp [set, get?, Ne.symm h]
  | cons p m ih =>
    obtain ⟨k₀, v₀⟩ := p
    by_cases h0 : k₀ = k
    · subst h0; simp [set, get?, Ne.symm h]
    · simp [set, get?, h0, ih]

theorem get?_set (m : GoMap K V) (k k' : K) (v : V) :
    get? (set m k v) k' = if k' = k then some v else get? m k' := by
  by_cases h : k' = k
  · subst h; simp
  · simp [h, get?_set_ne m v h]

theorem get?_eq_none_iff (m : GoMap K V) (k : K) : get? m k = none ↔ k ∉ keys m := by
  induction m with
  | nil => simp [keys]
  | cons p m ih =>
    simp only [get?_cons, keys, List.map_cons, List.mem_cons, not_or] at *
    by_cases h : p.1 = k
    · simp [h]
    · simp [h, ih, Ne.symm h]

theorem get?_isSome_iff (m : GoMap K V) (k : K) : (get? m k).isSome ↔ k ∈ keys m := by
  have := get?_eq_none_iff m k
  cases h : get? m k <;> simp_all

theorem mem_keys_of_get? {m : GoMap K V} {k : K} {v : V} (h : get? m k = some v) : k ∈ keys m := by
  rw [← get?_isSome_iff, h]; rfl

theorem mem_of_get? {m : GoMap K V} {k : K} {v : V} (h : get? m k = some v) : (k, v) ∈ m := by
  induction m with
  | nil => simp at h
  | cons p m ih =>
    rw [get?_cons] at h
    split at h
    · rename_i he
      cases h; subst he; simp
    · exact List.mem_cons_of_mem _ (ih h)

theorem get?_of_mem {m : GoMap K V} (hw : Wf m) {k : K} {v : V} (h : (k, v) ∈ m) : get? m k = some v := by
  induction m with
  | nil => simp at h
  | cons p m ih =>
    simp only [Wf, keys, List.map_cons, List.nodup_cons] at hw
    rw [get?_cons]
    rcases List.mem_cons.1 h with h | h
    · subst h; simp
    · have : p.1 ≠ k := by
        intro he; apply hw.1; rw [he]; exact List.mem_map.2 ⟨_, h, rfl⟩
      simp [this, ih hw.2 h]

theorem get?_iff_mem {m : GoMap K V} (hw : Wf m) {k : K} {v : V} : get? m k = some v ↔ (k, v) ∈ m :=
  ⟨mem_of_get?, get?_of_mem hw⟩

theorem keys_set (m : GoMap K V) (k : K) (v : V) :
    keys (set m k v) = if k ∈ keys m then keys m else keys m ++ [k] := by
  induction m with
  | nil => simp [set, keys]
  | cons p m ih =>
    obtain ⟨k', v'⟩ := p
    by_cases h : k' = k
    · subst h; simp [set, keys]
    · have hne : k ≠ k' := Ne.symm h
      simp only [keys] at ih
      by_cases hm : k ∈ List.map (fun x : K × V => x.fst) m <;>
        simp_all [set, keys]

theorem mem_keys_set (m : GoMap K V) (k k' : K) (v : V) :
    k' ∈ keys (set m k v) ↔ k' = k ∨ k' ∈ keys m := by
  rw [keys_set]; split
  · constructor
    · exact Or.inr
    · rintro (h | h)
      · subst h; assumption
      · exact h
  · simp [or_comm]

theorem Wf.set {m : GoMap K V} (h : Wf m) (k : K) (v : V) : Wf (set m k v) := by
  unfold Wf at *
  rw [keys_set]; split
  · exact h
  · rename_i hk
    rw [List.nodup_append]
    refine ⟨h, by simp, ?_⟩
    intro a ha b hb
    simp at hb; subst hb
    intro he; subst he; exact hk ha

theorem Wf.nil : Wf ([] : GoMap K V) := by simp [Wf, keys]

/-- Reordering a well-formed map (another iteration order) does not change lookups. -/
theorem get?_perm {m m' : GoMap K V} (hw : Wf m) (hp : List.Perm m m') (k : K) :
    get? m k = get? m' k := by
  have hw' : Wf m' := by
    unfold Wf keys at *
    exact (hp.map _).nodup_iff.1 hw
  cases h : get? m k with
  | some v => exact (get?_of_mem hw' (hp.mem_iff.1 (mem_of_get? h))).symm
  | none =>
    cases h' : get? m' k with
    | none => rfl
    | some v =>
      rw [get?_of_mem hw (hp.mem_iff.2 (mem_of_get? h'))] at h
      cases h

theorem Wf.perm {m m' : GoMap K V} (hw : Wf m) (hp : List.Perm m m') : Wf m' := by
  unfold Wf keys at *
  exact (hp.map _).nodup_iff.1 hw

theorem get?_del (m : GoMap K V) (k k' : K) :
    get? (del m k) k' = if k' = k then none else get? m k' := by
  induction m with
  | nil => simp [del]
  | cons p m ih =>
    obtain ⟨a, v⟩ := p
    simp only [del] at ih ⊢
    by_cases ha : a = k
    · subst ha
      simp only [ne_eq, not_true_eq_false, decide_false, Bool.false_eq_true, not_false_eq_true,
        List.filter_cons_of_neg, ih, get?_cons]
      by_cases h : k' = a
      · simp [h]
      · simp [h, Ne.symm h]
    · simp only [ne_eq, ha, not_false_eq_true, decide_true, List.filter_cons_of_pos, get?_cons, ih]
      by_cases h : a = k'
      · subst h; simp [ha]
      · simp [h]

theorem get?_map (m : GoMap K V) (f : V → W) (k : K) :
    get? (m.map (fun p => (p.1, f p.2))) k = (get? m k).map f := by
  induction m with
  | nil => rfl
  | cons p m ih =>
    simp only [List.map_cons, get?_cons, ih]
    split <;> rfl

theorem keys_map (m : GoMap K V) (f : V → W) :
    keys (m.map (fun p => (p.1, f p.2))) = keys m := by
  simp [keys]

end GoMap

/-! ### int64 -/

theorem i64_def (x : Int) : i64 x = Int.bmod x (2^64) := by
  unfold i64; rw [BitVec.toInt_ofInt]

@[simp] theorem i64_add_i64_left (a b : Int) : i64 (i64 a + b) = i64 (a + b) := by
  simp [i64_def]

@[simp] theorem i64_add_i64_right (a b : Int) : i64 (a + i64 b) = i64 (a + b) := by
  simp [i64_def]

@[simp] theorem i64_i64 (a : Int) : i64 (i64 a) = i64 a := by
  simp [i64_def]

@[simp] theorem i64_zero : i64 0 = 0 := by simp [i64_def]

/-- Within the int64 range the wrap-around is the identity. -/
theorem i64_of_range {x : Int} (h1 : -2^63 ≤ x) (h2 : x < 2^63) : i64 x = x := by
  rw [i64_def]; apply Int.bmod_eq_of_le <;> omega

theorem i64_nat {n : Nat} (h : n < 2^63) : i64 n = n := i64_of_range (by omega) (by omega)

theorem i64_inj_of_range {x y : Int} (hx1 : -2^63 ≤ x) (hx2 : x < 2^63) (hy1 : -2^63 ≤ y) (hy2 : y < 2^63)
    (h : i64 x = i64 y) : x = y := by
  rw [i64_of_range hx1 hx2, i64_of_range hy1 hy2] at h; exact h

theorem Time.truncate_truncate (t : Time) (d : Int) : (t.truncate d).truncate d = t.truncate d := by
  unfold Time.truncate
  split
  · rfl
  · simp only [Time.mk.injEq, and_true]
    have : (t.ns - t.ns % d) % d = 0 := by simp
    omega
