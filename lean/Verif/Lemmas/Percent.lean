import Verif.Lemmas.Metrics
/-!
# `Fprintf` of a text with percent signs changes it
-/

namespace Fprintf

/-- percent signs and stars in a text. -/
def weight (s : Str) : Nat := s.count 37 + s.count 42

theorem weight_append (s t : Str) : weight (s ++ t) = weight s + weight t := by simp [weight]; omega
theorem weight_suffix {s t : Str} (h : s <:+ t) : weight s ≤ weight t := by
  obtain ⟨p, rfl⟩ := h; rw [weight_append]; omega
theorem weight_cons37 (s : Str) : weight (37 :: s) = weight s + 1 := by simp [weight]; omega
theorem weight_cons42 (s : Str) : weight (42 :: s) = weight s + 1 := by simp [weight]; omega
theorem weight_cons_le (c : UInt8) (s : Str) : weight s ≤ weight (c :: s) := weight_suffix (List.suffix_cons _ _)

theorem parsenum_suffix (acc : Nat) (b : Bool) (s : Str) : (parsenum acc b s).2 <:+ s := by
  induction s generalizing acc b with
  | nil => simp [parsenum]
  | cons c t ih =>
    rw [parsenum]
    split
    · split
      · simp
      · exact (ih _ _).trans (List.suffix_cons _ _)
    · exact List.suffix_refl _

theorem argNumber_suffix (s : Str) : (argNumber s).2 <:+ s := by
  unfold argNumber
  split
  · next t =>
    split
    · exact List.suffix_cons _ _
    · exact ((List.drop_suffix _ _).trans (List.dropWhile_suffix _)).trans (List.suffix_cons _ _)
  · exact List.suffix_refl _

theorem verbOf_weight (c : UInt8) (t : Str) : weight (verbOf (c :: t)).1 + weight (verbOf (c :: t)).2 ≤ weight (c :: t) ∧
    (verbOf (c :: t)).2 <:+ (c :: t) := by
  have hb := runes_bytes (c :: t)
  unfold verbOf
  cases h : runes (c :: t) with
  | nil => rw [h] at hb; simp at hb
  | cons r rs =>
    rw [h, List.flatMap_cons] at hb
    cases r with
    | ascii b =>
      simp only [Rune.bytes, List.cons_append, List.nil_append, List.cons.injEq] at hb
      obtain ⟨rfl, _⟩ := hb
      exact ⟨by simp only [List.drop_one, List.tail_cons]; rw [← weight_append]; simp, List.drop_suffix _ _⟩
    | multi m =>
      simp only [Rune.bytes] at hb
      refine ⟨?_, List.drop_suffix _ _⟩
      rw [← hb]
      simp only [List.drop_left, weight_append, le_refl]
    | bad b => exact ⟨by simp only [List.drop_one, List.tail_cons]; exact (Nat.le_of_eq (by rw [show weight [0xEF, 0xBF, 0xBD] = 0 by decide]; simp)).trans (weight_cons_le _ _), List.drop_suffix _ _⟩

/-- the last part of a directive: the verb. -/
def finish (out : Str) (bad : Bool) (s : Str) : Str × Str :=
  match s with
  | [] => (out ++ bs "%!(NOVERB)", [])
  | _ =>
    let (verb, rest) := verbOf s
    if verb = [37] then (out ++ [37], rest)
    else if bad then (out ++ bs "%!" ++ verb ++ bs "(BADINDEX)", rest)
    else (out ++ bs "%!" ++ verb ++ bs "(MISSING)", rest)

/-- what is common to all ends of directives; `k` is the weight of `out`. -/
structure Ends (s : Str) (p : Str × Str) : Prop where
  suffix : p.2 <:+ s
  weight : weight p.1 + weight p.2 ≤ weight s + 1
  starts : (p.1 = [37] ∧ Fprintf.weight p.2 < Fprintf.weight s) ∨ ∃ x, p.1 = 37 :: 33 :: x

/-- the output before the verb. -/
def Before (s : Str) (out s' : Str) : Prop := s' <:+ s ∧ weight out + weight s' ≤ weight s ∧ (out = [] ∨ ∃ x, out = 37 :: 33 :: x)

theorem Before.trans_suffix {s out s' s'' : Str} (h : Before s out s') (h' : s'' <:+ s') : Before s out s'' :=
  ⟨h'.trans h.1, (Nat.add_le_add_left (weight_suffix h') _).trans h.2.1, h.2.2⟩

theorem finish_ends {s out s' : Str} (h : Before s out s') (bad : Bool) : Ends s (finish out bad s') := by
  obtain ⟨h1, h2, h3⟩ := h
  unfold finish
  split
  · refine ⟨by simp, ?_, ?_⟩
    · simp only [weight_append]
      have : weight (bs "%!(NOVERB)") = 1 := by decide +kernel
      have : weight [] = 0 := rfl
      omega
    · right
      rcases h3 with rfl | ⟨x, rfl⟩
      · exact ⟨bs "(NOVERB)", by decide +kernel⟩
      · exact ⟨_, rfl⟩
  · next hne =>
    obtain ⟨c, t, rfl⟩ := List.exists_cons_of_ne_nil hne
    have hv := verbOf_weight c t
    generalize verbOf (c :: t) = vr at hv
    obtain ⟨verb, rest⟩ := vr
    simp only at hv ⊢
    have w1 : weight (bs "%!") = 1 := by decide +kernel
    have w2 : weight (bs "(BADINDEX)") = 0 := by decide +kernel
    have w3 : weight (bs "(MISSING)") = 0 := by decide +kernel
    have e1 : bs "%!" = [37, 33] := by decide +kernel
    have w4 : weight [37] = 1 := by decide
    split
    · next e =>
      subst e
      refine ⟨hv.2.trans h1, by simp only [weight_append]; omega, ?_⟩
      rcases h3 with rfl | ⟨x, rfl⟩
      · exact .inl ⟨rfl, by have : weight [] = 0 := rfl; simp only; omega⟩
      · exact .inr ⟨_, rfl⟩
    · split
      · refine ⟨hv.2.trans h1, by simp only [weight_append]; omega, .inr ?_⟩
        rcases h3 with rfl | ⟨x, rfl⟩
        · rw [e1]; exact ⟨_, rfl⟩
        · exact ⟨_, rfl⟩
      · refine ⟨hv.2.trans h1, by simp only [weight_append]; omega, .inr ?_⟩
        rcases h3 with rfl | ⟨x, rfl⟩
        · rw [e1]; exact ⟨_, rfl⟩
        · exact ⟨_, rfl⟩

/-- a part of a directive: output, two flags and the rest. -/
def width (bad after : Bool) (s : Str) : Str × Bool × Bool × Str :=
  match s with
    | 42 :: t => (bs "%!(BADWIDTH)", bad, false, t)
    | _ => let p := parsenum 0 false s; ([], bad || (after && p.1), after, p.2)

def precision (out : Str) (bad after : Bool) (s : Str) : Str × Bool × Bool × Str :=
  match s with
    | 46 :: t =>
      let bad := bad || after
      let ((b, a), t) := argNumber t
      match t with
      | 42 :: u => (out ++ bs "%!(BADPREC)", bad || b, false, u)
      | _ => (out, bad || b, a, (parsenum 0 false t).2)
    | _ => (out, bad, after, s)

theorem width_before (bad after : Bool) (s0 s : Str) (h : s <:+ s0) : Before s0 (width bad after s).1 (width bad after s).2.2.2 := by
  unfold width
  split
  · next t =>
    refine ⟨(List.suffix_cons _ _).trans h, ?_, .inr ⟨bs "(BADWIDTH)", show bs "%!(BADWIDTH)" = _ by decide +kernel⟩⟩
    have := weight_suffix h
    rw [weight_cons42] at this
    have : weight (bs "%!(BADWIDTH)") = 1 := by decide +kernel
    simp only; omega
  · exact ⟨(parsenum_suffix _ _ _).trans h, by have := weight_suffix ((parsenum_suffix 0 false s).trans h); simpa [weight] using this, .inl rfl⟩

theorem precision_before {s0 s out : Str} (bad after : Bool) (h : Before s0 out s) :
    Before s0 (precision out bad after s).1 (precision out bad after s).2.2.2 := by
  unfold precision
  split
  · next t =>
    have ha := argNumber_suffix t
    generalize argNumber t = p at ha
    obtain ⟨⟨b, a⟩, t'⟩ := p
    simp only at ha ⊢
    have h' := h.trans_suffix (ha.trans (List.suffix_cons _ _))
    split
    · next u =>
      obtain ⟨h1, h2, h3⟩ := h'
      refine ⟨(List.suffix_cons _ _).trans h1, ?_, .inr ?_⟩
      · rw [weight_cons42] at h2
        have : weight (bs "%!(BADPREC)") = 1 := by decide +kernel
        simp only [weight_append]; omega
      · rcases h3 with rfl | ⟨x, rfl⟩
        · exact ⟨bs "(BADPREC)", show [] ++ bs "%!(BADPREC)" = _ by decide +kernel⟩
        · exact ⟨_, rfl⟩
    · exact h'.trans_suffix (parsenum_suffix _ _ _)
  · exact h

theorem directive_eq (s : Str) : directive s =
    (let s := s.dropWhile isFlag
     let p := argNumber s
     let w := width p.1.1 p.1.2 p.2
     let q := precision w.1 w.2.1 w.2.2.1 w.2.2.2
     let r := if q.2.2.1 then (q.2.1, q.2.2.2) else (q.2.1 || (argNumber q.2.2.2).1.1, (argNumber q.2.2.2).2)
     finish q.1 r.1 r.2) := rfl

theorem directive_ends (s : Str) : Ends s (directive s) := by
  rw [directive_eq]
  simp only []
  have h1 : s.dropWhile isFlag <:+ s := List.dropWhile_suffix _
  have h2 := (argNumber_suffix (s.dropWhile isFlag)).trans h1
  generalize argNumber (s.dropWhile isFlag) = p at h2
  have h3 := width_before p.1.1 p.1.2 s p.2 h2
  generalize width p.1.1 p.1.2 p.2 = w at h3
  have h4 := precision_before w.2.1 w.2.2.1 h3
  generalize precision w.1 w.2.1 w.2.2.1 w.2.2.2 = q at h4
  split
  · exact finish_ends h4 _
  · exact finish_ends (h4.trans_suffix (argNumber_suffix _)) _

theorem directive_bang (t : Str) : directive (33 :: t) = (bs "%!!(MISSING)", t) := by
  rw [directive_eq]
  have e1 : (33 :: t).dropWhile isFlag = 33 :: t := by rw [List.dropWhile_cons_of_neg]; decide
  have e2 : argNumber (33 :: t) = ((false, false), 33 :: t) := rfl
  have e3 : parsenum 0 false (33 :: t) = (false, 33 :: t) := by rw [parsenum, if_neg (by decide)]
  have e4 : width false false (33 :: t) = ([], false, false, 33 :: t) := by
    unfold width; simp [e3]
  have e5 : precision [] false false (33 :: t) = ([], false, false, 33 :: t) := rfl
  have e6 : verbOf (33 :: t) = ([33], t) := by
    unfold verbOf; rw [runes.eq_def]; rfl
  simp only [e1, e2, e4, e5]
  rw [if_neg (by decide)]
  unfold finish
  simp only [e6, Bool.or_false]
  rw [if_neg (by decide), if_neg (by decide)]
  exact Prod.ext (show [] ++ bs "%!" ++ [33] ++ bs "(MISSING)" = bs "%!!(MISSING)" by decide +kernel) rfl

theorem sprintfAux_weight (n : Nat) (s : Str) : weight (sprintfAux n s) ≤ weight s := by
  induction n generalizing s with
  | zero => simp [sprintfAux, weight]
  | succ n ih =>
    cases s with
    | nil => simp [sprintfAux]
    | cons c t =>
      rw [sprintfAux]
      split
      · next e =>
        subst e
        have := (directive_ends t).weight
        have := ih (directive t).2
        simp only [weight_append, weight_cons37]; omega
      · have : ∀ l, weight (c :: l) = weight [c] + weight l := fun l => weight_append [c] l
        rw [this, this t]; have := ih t; omega

/-- enough fuel is enough. -/
theorem sprintfAux_fuel (n m : Nat) (s : Str) (hn : s.length < n) (hm : s.length < m) : sprintfAux n s = sprintfAux m s := by
  induction n generalizing m s with
  | zero => omega
  | succ n ih =>
    cases m with
    | zero => omega
    | succ m =>
      cases s with
      | nil => rfl
      | cons c t =>
        simp only [List.length_cons] at hn hm
        rw [sprintfAux, sprintfAux]
        split
        · have := (directive_ends t).suffix.length_le
          simp only []
          rw [ih m _ (by omega) (by omega)]
        · rw [ih m _ (by omega) (by omega)]

theorem sprintf_nil : sprintf [] = [] := rfl
theorem sprintf_plain {c : UInt8} (h : c ≠ 37) (t : Str) : sprintf (c :: t) = c :: sprintf t := by
  unfold sprintf
  rw [sprintfAux, if_neg h]
  simp
theorem sprintf_directive (t : Str) : sprintf (37 :: t) = (directive t).1 ++ sprintf (directive t).2 := by
  unfold sprintf
  rw [sprintfAux, if_pos rfl]
  have := (directive_ends t).suffix.length_le
  simp only []
  rw [sprintfAux_fuel _ ((directive t).2.length + 1) _ (by simp; omega) (by omega)]
theorem sprintf_weight (s : Str) : weight (sprintf s) ≤ weight s := sprintfAux_weight _ _

/-- no text is `!(MISSING)` followed by its own expansion. -/
theorem no_missing (n : Nat) (t : Str) (hl : t.length ≤ n) : t ≠ bs "!(MISSING)" ++ sprintf t := by
  induction n generalizing t with
  | zero =>
    intro h
    have := congrArg List.length h
    simp only [List.length_append] at this
    have e : (bs "!(MISSING)").length = 10 := by decide +kernel
    omega
  | succ n ih =>
    intro h
    have e : (bs "!(MISSING)") = [33, 40, 77, 73, 83, 83, 73, 78, 71, 41] := by decide +kernel
    rw [e] at h
    generalize ht : sprintf t = u at h
    simp only [List.cons_append, List.nil_append] at h
    subst h
    rw [sprintf_plain (by decide), sprintf_plain (by decide), sprintf_plain (by decide), sprintf_plain (by decide), sprintf_plain (by decide),
      sprintf_plain (by decide), sprintf_plain (by decide), sprintf_plain (by decide), sprintf_plain (by decide), sprintf_plain (by decide)] at ht
    refine ih u (by simp at hl; omega) ?_
    rw [e]
    exact ht.symm

/-- only texts without percent signs are printed as they are. -/
theorem sprintf_eq_iff (s : Str) : sprintf s = s ↔ (37 : UInt8) ∉ s := by
  refine ⟨?_, sprintf_clean⟩
  induction s with
  | nil => simp
  | cons c t ih =>
    intro h
    by_cases hc : c = 37
    · subst hc
      exfalso
      rw [sprintf_directive] at h
      have hE := directive_ends t
      rcases hE.starts with ⟨e, hw⟩ | ⟨x, e⟩
      · rw [e] at h
        simp only [List.cons_append, List.nil_append, List.cons.injEq, true_and] at h
        have := sprintf_weight (directive t).2
        rw [h] at this
        omega
      · have h' := h
        rw [e] at h'
        simp only [List.cons_append, List.cons.injEq, true_and] at h'
        cases t with
        | nil => simp at h'
        | cons d u =>
          simp only [List.cons.injEq] at h'
          obtain ⟨rfl, _⟩ := h'
          rw [directive_bang] at h
          have e3 : bs "%!!(MISSING)" = 37 :: 33 :: bs "!(MISSING)" := by decide +kernel
          rw [e3] at h
          simp only [List.cons_append, List.cons.injEq, true_and] at h
          exact no_missing _ u le_rfl h.symm
    · rw [sprintf_plain hc] at h
      simp only [List.cons.injEq, true_and] at h
      simp only [List.mem_cons, not_or]
      exact ⟨fun e => hc e.symm, ih h⟩

end Fprintf

/-! ## Percent signs of names get into the text -/

namespace JVal

theorem runes_low (s : Str) : ∀ r ∈ runes s, (37 : UInt8) ∈ r.bytes → r = .ascii 37 := by
  have lo : ∀ {b : UInt8}, ¬ b < 0x80 → (37 : UInt8) ≠ b := by rintro b h rfl; exact h (by decide)
  have two : ∀ {a b : UInt8}, isTwo a b = true → (37 : UInt8) ≠ b := by rintro a b h rfl; simp [isTwo, isCont] at h
  have three : ∀ {a b c : UInt8}, isThree a b c = true → (37 : UInt8) ≠ b ∧ (37 : UInt8) ≠ c := by
    intro a b c h; constructor <;> (rintro rfl; simp [isThree, isCont] at h)
  have four : ∀ {a b c d : UInt8}, isFour a b c d = true → (37 : UInt8) ≠ b ∧ (37 : UInt8) ≠ c ∧ (37 : UInt8) ≠ d := by
    intro a b c d h; refine ⟨?_, ?_, ?_⟩ <;> (rintro rfl; simp [isFour, isCont] at h)
  fun_induction runes s <;> intro r hr hm
  all_goals simp only [List.mem_cons, List.not_mem_nil, or_false] at hr
  all_goals try (rcases hr with rfl | hr)
  all_goals first
    | (rename_i ih; exact ih r hr hm)
    | skip
  all_goals simp only [Rune.bytes, List.mem_cons, List.not_mem_nil, or_false] at hm
  all_goals first
    | exact absurd hm (lo ‹_›)
    | (rw [hm]; done)
    | (rcases hm with h | h; exacts [absurd h (lo ‹_›), absurd h (two ‹_›)])
    | (rcases hm with h | h | h; exacts [absurd h (lo ‹_›), absurd h (three ‹_›).1, absurd h (three ‹_›).2])
    | (rcases hm with h | h | h | h; exacts [absurd h (lo ‹_›), absurd h (four ‹_›).1, absurd h (four ‹_›).2.1, absurd h (four ‹_›).2.2])

theorem mem37_encStr {s : Str} (h : (37 : UInt8) ∈ s) : (37 : UInt8) ∈ encStr s := by
  rw [← runes_bytes s] at h
  obtain ⟨r, hr, hb⟩ := List.mem_flatMap.1 h
  have := runes_low s r hr hb
  subst this
  unfold encStr
  simp only [List.mem_append, List.mem_flatMap]
  exact .inl (.inr ⟨_, hr, by decide +kernel⟩)

mutual
theorem mem37_enc (L : Layout) (v : JVal) (d : Nat) {s : Str} (hs : s ∈ v.strs) (h : (37 : UInt8) ∈ s) : (37 : UInt8) ∈ v.enc L d := by
  match v with
  | .null => simp [strs] at hs
  | .bool b => simp [strs] at hs
  | .int n => simp [strs] at hs
  | .float v => simp [strs] at hs
  | .str s' => rw [enc]; simp only [strs, List.mem_singleton] at hs; subst hs; exact mem37_encStr h
  | .arr [] => simp [strs, strsElems] at hs
  | .arr (x :: xs) =>
    rw [strs, strsElems, List.mem_append] at hs
    rw [enc]
    simp only [List.mem_append]
    rcases hs with hs | hs
    · exact .inl (.inr (mem37_enc L x _ hs h))
    · exact .inr (mem37_elems L xs d hs h)
  | .obj [] => simp [strs, strsMembers] at hs
  | .obj ((k, v) :: ms) =>
    rw [strs, strsMembers, List.mem_append, List.mem_cons] at hs
    rw [enc]
    simp only [List.mem_append]
    rcases hs with (rfl | hs) | hs
    · exact .inl (.inl (.inl (.inr (mem37_encStr h))))
    · exact .inl (.inr (mem37_enc L v _ hs h))
    · exact .inr (mem37_members L ms d hs h)
theorem mem37_elems (L : Layout) (xs : List JVal) (d : Nat) {s : Str} (hs : s ∈ strsElems xs) (h : (37 : UInt8) ∈ s) : (37 : UInt8) ∈ encElems L d xs := by
  match xs with
  | [] => simp [strsElems] at hs
  | x :: xs =>
    rw [strsElems, List.mem_append] at hs
    rw [encElems]
    simp only [List.mem_append]
    rcases hs with hs | hs
    · exact .inl (.inr (mem37_enc L x _ hs h))
    · exact .inr (mem37_elems L xs d hs h)
theorem mem37_members (L : Layout) (ms : List (Str × JVal)) (d : Nat) {s : Str} (hs : s ∈ strsMembers ms) (h : (37 : UInt8) ∈ s) :
    (37 : UInt8) ∈ encMembers L d ms := by
  match ms with
  | [] => simp [strsMembers] at hs
  | (k, v) :: ms =>
    rw [strsMembers, List.mem_append, List.mem_cons] at hs
    rw [encMembers]
    simp only [List.mem_append]
    rcases hs with (rfl | hs) | hs
    · exact .inl (.inl (.inl (.inr (mem37_encStr h))))
    · exact .inl (.inr (mem37_enc L v _ hs h))
    · exact .inr (mem37_members L ms d hs h)
end

/-- a document is printed as it is exactly if no string in it has a percent sign. -/
theorem sprintf_enc_iff {L : Layout} (hL : L.No37) (v : JVal) (he : v.encodable = true) (d : Nat) :
    Fprintf.sprintf (v.enc L d) = v.enc L d ↔ ∀ s ∈ v.strs, (37 : UInt8) ∉ s := by
  rw [Fprintf.sprintf_eq_iff]
  exact ⟨fun h s hs hm => h (mem37_enc L v d hs hm), no37_enc hL v he d⟩

end JVal
