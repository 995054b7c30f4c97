import Verif.Model.RawJson
import Verif.Lemmas.Json
import Verif.Lemmas.Utf8
/-!
# Encoded values with the texts of their strings and numbers
-/
open Spec

theorem isUtf8_fixUtf8 (s : Str) : IsUtf8 (fixUtf8 s) := by
  rw [fixUtf8_eq]
  have h : ∀ r ∈ runes s, ∃ n, Scalar n ∧ fixRune r = utf8 n := by
    intro r hr
    cases r with
    | ascii b => obtain ⟨n, h1, h2⟩ := rune_scalar hr (by intro b; simp); exact ⟨n, h1, h2⟩
    | multi m => obtain ⟨n, h1, h2⟩ := rune_scalar hr (by intro b; simp); exact ⟨n, h1, h2⟩
    | bad b => exact ⟨0xFFFD, .inr ⟨by decide, by decide⟩, by show [0xEF, 0xBF, 0xBD] = utf8 0xFFFD; decide +kernel⟩
  generalize runes s = rs at h
  induction rs with
  | nil => exact ⟨[], by simp, rfl⟩
  | cons r t ih =>
    obtain ⟨n, h1, h2⟩ := h r (by simp)
    obtain ⟨cps, h3, h4⟩ := ih (fun r hr => h r (by simp [hr]))
    refine ⟨n :: cps, ?_, ?_⟩
    · intro m hm
      rcases List.mem_cons.1 hm with rfl | hm
      · exact h1
      · exact h3 m hm
    · rw [List.flatMap_cons, List.flatMap_cons, h2, h4]

theorem fixUtf8_fixUtf8 (s : Str) : fixUtf8 (fixUtf8 s) = fixUtf8 s := fixUtf8_of_utf8 (isUtf8_fixUtf8 s)

mutual
/-- the value with the texts that `enc` writes. -/
def JVal.raw : JVal → Raw
  | .null => .null
  | .bool b => .bool b
  | .int n => .num (intStr n) n
  | .float v => .num (JVal.floatStr v) (decVal v)
  | .str s => .str ((runes s).flatMap JVal.escRune) (fixUtf8 s)
  | .arr xs => .arr (JVal.rawElems xs)
  | .obj ms => .obj (JVal.rawMembers ms)
def JVal.rawElems : List JVal → List Raw
  | [] => []
  | x :: xs => x.raw :: JVal.rawElems xs
def JVal.rawMembers : List (Str × JVal) → List (Str × Raw)
  | [] => []
  | (k, v) :: ms => (fixUtf8 k, v.raw) :: JVal.rawMembers ms
end

theorem Raw.readString_encStr (s rest : Str) : ∃ t, JVal.encStr s ++ rest = 34 :: t ∧
    Raw.readString t = some (((runes s).flatMap JVal.escRune, fixUtf8 s), rest) := by
  obtain ⟨t, h1, h2⟩ := readStr_encStr s rest
  refine ⟨t, h1, ?_⟩
  have ht : t = (runes s).flatMap JVal.escRune ++ ([34] ++ rest) := by
    unfold JVal.encStr at h1
    simp only [List.append_assoc, List.cons_append, List.nil_append, List.cons.injEq, true_and] at h1
    rw [← h1]; simp
  unfold readStr at h2
  obtain ⟨p, h3, h4⟩ := Option.map_eq_some_iff.1 h2
  simp only [Prod.mk.injEq] at h4
  unfold Raw.readString
  rw [h3]
  simp only [Option.map_some, Option.some.injEq, Prod.mk.injEq, h4.2, and_true]
  refine ⟨?_, by rw [h4.1, fixUtf8_fixUtf8]⟩
  rw [ht, List.take_left']
  simp

namespace JVal
open Raw (readString)

theorem rawElems_eq (xs : List JVal) : rawElems xs = xs.map raw := by
  induction xs with
  | nil => rfl
  | cons x xs ih => rw [rawElems, ih]; rfl
theorem rawMembers_eq (ms : List (Str × JVal)) : rawMembers ms = ms.map (fun p => (fixUtf8 p.1, p.2.raw)) := by
  induction ms with
  | nil => rfl
  | cons m ms ih => obtain ⟨k, v⟩ := m; rw [rawMembers, ih]; rfl

theorem rawValue_ws {w : Str} (h : ∀ c ∈ w, isWs c = true) (fuel : Nat) (s : Str) : Raw.readValue fuel (w ++ s) = Raw.readValue fuel s := by
  cases fuel with
  | zero => rw [Raw.readValue, Raw.readValue]
  | succ n => rw [Raw.readValue, Raw.readValue, ws_append h]
theorem rawElems_ws {w : Str} (h : ∀ c ∈ w, isWs c = true) (fuel : Nat) (s : Str) : Raw.readElems fuel (w ++ s) = Raw.readElems fuel s := by
  cases fuel with
  | zero => rw [Raw.readElems, Raw.readElems]
  | succ n => rw [Raw.readElems, Raw.readElems, rawValue_ws h]
theorem rawMembers_ws {w : Str} (h : ∀ c ∈ w, isWs c = true) (fuel : Nat) (s : Str) : Raw.readMembers fuel (w ++ s) = Raw.readMembers fuel s := by
  cases fuel with
  | zero => rw [Raw.readMembers, Raw.readMembers]
  | succ n => rw [Raw.readMembers, Raw.readMembers, ws_append h]

theorem rawValue_num {s : Str} (hne : s ≠ []) (h : ∀ c ∈ s, isNumChar c = true) {q : ℚ} (hq : readNum s = some q) {rest : Str} (hr : Stop rest) (fuel : Nat) :
    Raw.readValue (fuel + 1) (s ++ rest) = some (.num s q, rest) := by
  obtain ⟨h1, h2⟩ := takeWhile_num h hr
  cases s with
  | nil => exact absurd rfl hne
  | cons c t =>
    obtain ⟨a1, a2, a3, a4, a5, a6, a7, _⟩ := num_not_ws (h c (by simp))
    rw [List.cons_append] at h1 h2 ⊢
    rw [Raw.readValue, ws_cons a1]
    simp only [a2, a3, a4, a5, a6, a7, if_false, h1, h2, hq, Option.map_some]

mutual
theorem raw_enc {L : Layout} (hL : L.Ok) (v : JVal) (hv : v.encodable = true) (depth fuel : Nat) (rest : Str) (hr : Stop rest)
    (hf : (v.enc L depth).length ≤ fuel) : Raw.readValue fuel (v.enc L depth ++ rest) = some (v.raw, rest) := by
  obtain ⟨c, t, hct, _⟩ := enc_head L depth v hv
  obtain ⟨n, rfl⟩ : ∃ n, fuel = n + 1 := ⟨fuel - 1, by rw [hct] at hf; simp at hf; omega⟩
  match hve : v, hv, hct, hf with
  | .null, _, _, _ =>
    have e : bs "null" = 110 :: bs "ull" := by decide +kernel
    have e3 : (bs "ull").length = 3 := by decide +kernel
    rw [enc, raw, e, List.cons_append, Raw.readValue, ws_cons (by decide)]
    simp [List.take_left' e3, List.drop_left' e3]
  | .bool true, _, _, _ =>
    have e : bs "true" = 116 :: bs "rue" := by decide +kernel
    have e3 : (bs "rue").length = 3 := by decide +kernel
    rw [enc, raw, if_pos rfl, e, List.cons_append, Raw.readValue, ws_cons (by decide)]
    simp [List.take_left' e3, List.drop_left' e3]
  | .bool false, _, _, _ =>
    have e : bs "false" = 102 :: bs "alse" := by decide +kernel
    have e3 : (bs "alse").length = 4 := by decide +kernel
    rw [enc, raw, if_neg (by decide), e, List.cons_append, Raw.readValue, ws_cons (by decide)]
    simp [List.take_left' e3, List.drop_left' e3]
  | .int k, _, hct, _ =>
    rw [enc] at hct ⊢
    rw [raw]
    exact rawValue_num (by rw [hct]; simp) (intStr_numChars k) (readNum_intStr k) hr n
  | .float x, hv, hct, _ =>
    rw [enc] at hct ⊢
    rw [raw]
    rw [encodable] at hv
    exact rawValue_num (by rw [hct]; simp) (floatStr_numChars x hv) (readNum_floatStr x hv) hr n
  | .str s, _, _, _ =>
    rw [enc, raw]
    obtain ⟨t, h1, h2⟩ := Raw.readString_encStr s rest
    rw [h1, Raw.readValue, ws_cons (by decide)]
    simp [h2]
  | .arr [], _, _, _ =>
    have e : bs "[]" = [91, 93] := by decide +kernel
    rw [enc, e, raw, rawElems, List.cons_append, Raw.readValue, ws_cons (by decide)]
    simp [ws_cons (show isWs 93 = false by decide)]
  | .arr (x :: xs), hv, _, hf =>
    rw [encodable, encodableElems, Bool.and_eq_true] at hv
    rw [enc] at hf ⊢
    rw [raw, rawElems]
    obtain ⟨c', t', h1, h2, h3, _⟩ := enc_head L (depth + 1) x hv.1
    have key : Raw.readElems n (L.nl (depth + 1) ++ (enc L (depth + 1) x ++ (encElems L depth xs ++ rest))) = some (x.raw :: rawElems xs, rest) := by
      rw [rawElems_ws (hL.nl _)]
      exact raw_elems hL x xs hv.1 hv.2 depth n rest (by simp at hf; omega)
    simp only [List.append_assoc, List.cons_append, List.nil_append]
    rw [Raw.readValue, ws_cons (by decide)]
    simp only [show (91 : UInt8) ≠ 123 by decide, if_false, if_true]
    rw [ws_append (hL.nl _), key, h1, List.cons_append, ws_cons h2]
    split
    · next heq => simp only [List.cons.injEq] at heq; exact absurd heq.1 h3
    · rfl
  | .obj [], _, _, _ =>
    have e : bs "{}" = [123, 125] := by decide +kernel
    rw [enc, e, raw, rawMembers, List.cons_append, Raw.readValue, ws_cons (by decide)]
    simp [ws_cons (show isWs 125 = false by decide)]
  | .obj ((k, x) :: ms), hv, _, hf =>
    rw [encodable, encodableMembers, Bool.and_eq_true] at hv
    rw [enc] at hf ⊢
    rw [raw, rawMembers]
    obtain ⟨t', h1⟩ := encStr_cons k
    have key : Raw.readMembers n (L.nl (depth + 1) ++ (encStr k ++ (L.colon ++ (enc L (depth + 1) x ++ (encMembers L depth ms ++ rest))))) =
        some ((fixUtf8 k, x.raw) :: rawMembers ms, rest) := by
      rw [rawMembers_ws (hL.nl _)]
      exact raw_members hL k x ms hv.1 hv.2 depth n rest (by simp at hf; omega)
    simp only [List.append_assoc, List.cons_append, List.nil_append]
    rw [Raw.readValue, ws_cons (by decide)]
    simp only [if_true]
    rw [ws_append (hL.nl _), key, h1, List.cons_append, ws_cons (by decide)]
    split
    · next heq => simp at heq
    · rfl
termination_by sizeOf v
decreasing_by all_goals (try simp [*]); all_goals omega
theorem raw_elems {L : Layout} (hL : L.Ok) (x : JVal) (xs : List JVal) (hx : x.encodable = true) (hxs : encodableElems xs = true)
    (depth fuel : Nat) (rest : Str) (hf : (x.enc L (depth + 1)).length + (encElems L depth xs).length ≤ fuel) :
    Raw.readElems fuel (x.enc L (depth + 1) ++ (encElems L depth xs ++ rest)) = some (x.raw :: rawElems xs, rest) := by
  have hp := encElems_pos L depth xs
  obtain ⟨n, rfl⟩ : ∃ n, fuel = n + 1 := ⟨fuel - 1, by omega⟩
  rw [Raw.readElems, raw_enc hL x hx (depth + 1) n _ (encElems_stop hL depth xs rest) (by omega)]
  simp only [Option.bind_some]
  match hve : xs, hxs, hf with
  | [], _, _ =>
    rw [encElems, List.append_assoc, ws_append (hL.nl _), List.singleton_append, ws_cons (by decide), rawElems]; rfl
  | y :: ys, hxs, hf =>
    rw [encodableElems, Bool.and_eq_true] at hxs
    rw [encElems] at hf ⊢
    have key : Raw.readElems n (L.nl (depth + 1) ++ (enc L (depth + 1) y ++ (encElems L depth ys ++ rest))) = some (y.raw :: rawElems ys, rest) := by
      rw [rawElems_ws (hL.nl _)]
      exact raw_elems hL y ys hxs.1 hxs.2 depth n rest (by simp at hf; omega)
    simp only [List.append_assoc, List.cons_append, List.nil_append]
    rw [ws_cons (by decide)]
    simp only [key]
    rw [rawElems]; rfl
termination_by 1 + sizeOf x + sizeOf xs
decreasing_by all_goals (try simp [*]); all_goals omega
theorem raw_members {L : Layout} (hL : L.Ok) (k : Str) (x : JVal) (ms : List (Str × JVal)) (hx : x.encodable = true) (hxs : encodableMembers ms = true)
    (depth fuel : Nat) (rest : Str) (hf : (encStr k).length + (x.enc L (depth + 1)).length + (encMembers L depth ms).length ≤ fuel) :
    Raw.readMembers fuel (encStr k ++ (L.colon ++ (x.enc L (depth + 1) ++ (encMembers L depth ms ++ rest)))) = some ((fixUtf8 k, x.raw) :: rawMembers ms, rest) := by
  have hp := encMembers_pos L depth ms
  obtain ⟨n, rfl⟩ : ∃ n, fuel = n + 1 := ⟨fuel - 1, by omega⟩
  obtain ⟨t, h1, h2⟩ := Raw.readString_encStr k (L.colon ++ (x.enc L (depth + 1) ++ (encMembers L depth ms ++ rest)))
  obtain ⟨w, hw, hws⟩ := hL.colon
  rw [Raw.readMembers, h1, ws_cons (by decide)]
  simp only [h2, Option.bind_some]
  rw [hw, List.cons_append, ws_cons (by decide)]
  simp only
  rw [rawValue_ws hws, raw_enc hL x hx (depth + 1) n _ (encMembers_stop hL depth ms rest) (by omega)]
  simp only [Option.bind_some]
  match hve : ms, hxs, hf with
  | [], _, _ =>
    rw [encMembers, List.append_assoc, ws_append (hL.nl _), List.singleton_append, ws_cons (by decide), rawMembers]; rfl
  | (k', y) :: ys, hxs, hf =>
    rw [encodableMembers, Bool.and_eq_true] at hxs
    rw [encMembers] at hf ⊢
    have key : Raw.readMembers n (L.nl (depth + 1) ++ (encStr k' ++ (L.colon ++ (enc L (depth + 1) y ++ (encMembers L depth ys ++ rest))))) =
        some ((fixUtf8 k', y.raw) :: rawMembers ys, rest) := by
      rw [rawMembers_ws (hL.nl _)]
      exact raw_members hL k' y ys hxs.1 hxs.2 depth n rest (by simp at hf; omega)
    simp only [List.append_assoc, List.cons_append, List.nil_append]
    rw [ws_cons (by decide)]
    simp only [key]
    rw [rawMembers]; rfl
termination_by 1 + sizeOf x + sizeOf ms
decreasing_by all_goals (try simp [*]); all_goals omega
end

theorem parse_enc {L : Layout} (hL : L.Ok) (v : JVal) (hv : v.encodable = true) (hd : v.raw.depth ≤ 10000) : Raw.parse (v.enc L 0) = some v.raw := by
  have := raw_enc hL v hv 0 ((v.enc L 0).length + 1) [] (by intro c hc; simp at hc) (by omega)
  rw [List.append_nil] at this
  unfold Raw.parse
  rw [this]
  exact if_pos ⟨rfl, hd⟩

end JVal

/-! ## Comparing values -/

mutual
def Raw.eqb : Raw → Raw → Bool
  | .null, .null => true
  | .bool a, .bool b => a == b
  | .num t q, .num t' q' => decide (t = t') && decide (q = q')
  | .str t v, .str t' v' => decide (t = t') && decide (v = v')
  | .arr xs, .arr ys => Raw.eqbElems xs ys
  | .obj ms, .obj ns => Raw.eqbMembers ms ns
  | _, _ => false
def Raw.eqbElems : List Raw → List Raw → Bool
  | [], [] => true
  | x :: xs, y :: ys => Raw.eqb x y && Raw.eqbElems xs ys
  | _, _ => false
def Raw.eqbMembers : List (Str × Raw) → List (Str × Raw) → Bool
  | [], [] => true
  | (k, x) :: xs, (l, y) :: ys => decide (k = l) && Raw.eqb x y && Raw.eqbMembers xs ys
  | _, _ => false
end

mutual
theorem Raw.eq_of_eqb : ∀ (x y : Raw), Raw.eqb x y = true → x = y
  | .null, y, h => by cases y <;> simp_all [Raw.eqb]
  | .bool a, y, h => by cases y <;> simp_all [Raw.eqb]
  | .num t q, y, h => by cases y <;> simp_all [Raw.eqb]
  | .str t v, y, h => by cases y <;> simp_all [Raw.eqb]
  | .arr xs, y, h => by
    cases y with
    | arr ys => rw [Raw.eqb] at h; rw [Raw.eq_of_eqbElems xs ys h]
    | _ => simp [Raw.eqb] at h
  | .obj ms, y, h => by
    cases y with
    | obj ys => rw [Raw.eqb] at h; rw [Raw.eq_of_eqbMembers ms ys h]
    | _ => simp [Raw.eqb] at h
theorem Raw.eq_of_eqbElems : ∀ (xs ys : List Raw), Raw.eqbElems xs ys = true → xs = ys
  | [], ys, h => by cases ys <;> simp_all [Raw.eqbElems]
  | x :: xs, ys, h => by
    cases ys with
    | nil => simp [Raw.eqbElems] at h
    | cons y ys =>
      rw [Raw.eqbElems, Bool.and_eq_true] at h
      rw [Raw.eq_of_eqb x y h.1, Raw.eq_of_eqbElems xs ys h.2]
theorem Raw.eq_of_eqbMembers : ∀ (xs ys : List (Str × Raw)), Raw.eqbMembers xs ys = true → xs = ys
  | [], ys, h => by cases ys <;> simp_all [Raw.eqbMembers]
  | (k, x) :: xs, ys, h => by
    cases ys with
    | nil => simp [Raw.eqbMembers] at h
    | cons y ys =>
      obtain ⟨l, y⟩ := y
      rw [Raw.eqbMembers, Bool.and_eq_true, Bool.and_eq_true, decide_eq_true_eq] at h
      rw [h.1.1, Raw.eq_of_eqb x y h.1.2, Raw.eq_of_eqbMembers xs ys h.2]
end

theorem Raw.parse_of_eqb {s : Str} {r : Raw} (h : ((Raw.parse s).map (Raw.eqb · r)) = some true) : Raw.parse s = some r := by
  obtain ⟨x, h1, h2⟩ := Option.map_eq_some_iff.1 h
  rw [h1, Raw.eq_of_eqb x r h2]
