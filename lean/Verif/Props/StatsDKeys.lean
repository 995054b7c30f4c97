import Verif.Props.StatsD
/-!
# Property C35, exactly: which names share a StatsD key
Two lists of names have the same key exactly if, written with dots between the non-empty names, they look the same once the characters that StatsD keys may not
contain are blurred.
-/
open Spec StatsD

namespace Spec

/-- the non-empty names with dots between them, as the user wrote them. -/
def dotted : List Str → Str
  | [] => []
  | n :: ns => if n = [] then dotted ns else if dotted ns = [] then n else n ++ bs "." ++ dotted ns

/-- same length, and at each place the same character or two characters that are not allowed in keys. -/
def LookAlike (a b : Str) : Prop := List.Forall₂ (fun c d => c = d ∨ (c ∉ keyChars ∧ d ∉ keyChars)) a b

instance (a b : Str) : Decidable (LookAlike a b) :=
  decidable_of_iff (a.length = b.length ∧ ∀ p ∈ a.zip b, p.1 = p.2 ∨ (p.1 ∉ keyChars ∧ p.2 ∉ keyChars)) (by
    rw [LookAlike, List.forall₂_iff_zip]
    exact and_congr_right (fun _ => ⟨fun h _ _ hm => h _ hm, fun h p hm => h hm⟩))

end Spec

namespace SdKeys

theorem sanitizeByte_eq (c : UInt8) : sanitizeByte c = if c ∈ Spec.keyChars then c else 36 := by
  have := (C33_sanitizer [] false false [c]).2
  simpa [StatsD.new, sanitizeKey] using this

theorem dollar : (36 : UInt8) ∉ Spec.keyChars := by decide +kernel

theorem byte_eq_iff (c d : UInt8) : sanitizeByte c = sanitizeByte d ↔ (c = d ∨ (c ∉ Spec.keyChars ∧ d ∉ Spec.keyChars)) := by
  rw [sanitizeByte_eq, sanitizeByte_eq]
  by_cases hc : c ∈ Spec.keyChars <;> by_cases hd : d ∈ Spec.keyChars
  · rw [if_pos hc, if_pos hd]; simp [hc]
  · rw [if_pos hc, if_neg hd]
    constructor
    · rintro rfl; exact absurd hc dollar
    · rintro (rfl | h)
      · exact absurd hc hd
      · exact absurd hc h.1
  · rw [if_neg hc, if_pos hd]
    constructor
    · intro h; rw [← h] at hd; exact absurd hd dollar
    · rintro (rfl | h)
      · exact absurd hd hc
      · exact absurd hd h.2
  · rw [if_neg hc, if_neg hd]; simp [hc, hd]

theorem sanitize_eq_iff (a b : Str) : sanitizeKey a = sanitizeKey b ↔ LookAlike a b := by
  unfold sanitizeKey LookAlike
  induction a generalizing b with
  | nil => cases b <;> simp
  | cons c t ih =>
    cases b with
    | nil => simp
    | cons d u => rw [List.map_cons, List.map_cons, List.cons_eq_cons, byte_eq_iff, ih, List.forall₂_cons]

theorem dotted_nil (ns : List Str) : dotted ns = [] ↔ ns.filter (· ≠ []) = [] := by
  induction ns with
  | nil => simp [dotted]
  | cons n ns ih =>
    rw [dotted]
    by_cases hn : n = []
    · rw [if_pos hn, ih]; simp [hn]
    · rw [if_neg hn]
      by_cases hd : dotted ns = []
      · rw [if_pos hd]; simp [hn]
      · rw [if_neg hd]; simp [hn]

theorem key_eq (ns : List Str) : metricKey sanitizeKey ns = sanitizeKey (dotted ns) := by
  unfold metricKey
  induction ns with
  | nil => rfl
  | cons n ns ih =>
    rw [dotted]
    by_cases hn : n = []
    · rw [if_pos hn, ← ih]; simp [hn]
    · rw [if_neg hn]
      have hf : (n :: ns).filter (· ≠ []) = n :: ns.filter (· ≠ []) := by simp [hn]
      rw [hf]
      by_cases hd : dotted ns = []
      · rw [if_pos hd, (dotted_nil ns).1 hd]
        simp
      · rw [if_neg hd]
        obtain ⟨x, xs, hx⟩ := List.exists_cons_of_ne_nil (mt (dotted_nil ns).2 hd)
        rw [hx] at ih ⊢
        rw [List.map_cons, List.map_cons, List.intercalate_cons_cons, ← List.map_cons, ih]
        simp [sanitizeKey, show sanitizeByte 46 = 46 from by decide +kernel, show bs "." = [46] from rfl]

/-- **C35**, exactly: two lists of names (prefix, job, event, suffix; any of them may be empty) get the same key if and only if, written with dots, they look alike:
they differ at most in characters that keys may not contain. -/
theorem C35_iff (names names' : List Str) :
    metricKey sanitizeKey names = metricKey sanitizeKey names' ↔ LookAlike (dotted names) (dotted names') := by
  rw [key_eq, key_eq, sanitize_eq_iff]

theorem lookAlike_refl (a : Str) : LookAlike a a := by
  unfold LookAlike; induction a with
  | nil => exact .nil
  | cons c t ih => exact .cons (.inl rfl) ih

theorem lookAlike_length {a b : Str} (h : LookAlike a b) : a.length = b.length := List.Forall₂.length_eq h

theorem lookAlike_left (p a b : Str) : LookAlike (p ++ a) (p ++ b) ↔ LookAlike a b := by
  induction p with
  | nil => rfl
  | cons c t ih =>
    rw [List.cons_append, List.cons_append, LookAlike, List.forall₂_cons]
    exact ⟨fun h => ih.1 h.2, fun h => ⟨.inl rfl, ih.2 h⟩⟩

theorem lookAlike_right (a b q : Str) : LookAlike (a ++ q) (b ++ q) ↔ LookAlike a b := by
  rw [← sanitize_eq_iff, ← sanitize_eq_iff]
  simp [sanitizeKey]

theorem dotted_append (ns ms : List Str) : dotted (ns ++ ms) =
    if dotted ns = [] then dotted ms else if dotted ms = [] then dotted ns else dotted ns ++ bs "." ++ dotted ms := by
  induction ns with
  | nil => simp [dotted]
  | cons n ns ih =>
    rw [List.cons_append, dotted, dotted]
    by_cases hn : n = []
    · rw [if_pos hn, if_pos hn, ih]
    · rw [if_neg hn, if_neg hn, ih]
      by_cases h1 : dotted ns = [] <;> by_cases h2 : dotted ms = [] <;> simp [h1, h2, hn, List.append_assoc]

/-- around the same prefix and the same suffix, it depends on the names between them only. -/
theorem around (pfx suffix : Str) (ns ms : List Str) :
    LookAlike (dotted ([pfx] ++ ns ++ [suffix])) (dotted ([pfx] ++ ms ++ [suffix])) ↔ LookAlike (dotted ns) (dotted ms) := by
  have e1 : ∀ s : Str, dotted [s] = s := by intro s; simp [dotted]
  have hdot : bs "." ≠ [] := by decide +kernel
  rw [dotted_append, dotted_append ([pfx] ++ ms), dotted_append [pfx], dotted_append [pfx] ms, e1, e1]
  by_cases hp : pfx = [] <;> by_cases hs : suffix = [] <;> by_cases hn : dotted ns = [] <;> by_cases hm : dotted ms = [] <;>
    simp only [hp, hs, hn, hm, if_true, if_false, List.append_eq_nil_iff, hdot, and_self, and_false, false_and, lookAlike_refl,
      lookAlike_left, lookAlike_right, List.append_assoc]
  all_goals
    constructor
    · intro h
      have := lookAlike_length h
      have h1 : 0 < (bs ".").length := by decide +kernel
      simp only [List.length_append, List.length_nil] at this
      omega
    · intro h
      have := lookAlike_length h
      have h2 : (dotted ns).length ≠ 0 ∨ (dotted ms).length ≠ 0 := by
        first
        | exact .inl (by simpa using hn)
        | exact .inr (by simpa using hm)
      simp_all

/-- **C35**, exactly, for the emissions of a sink with the default sanitiser and any prefix and skip options: two events (or two errors, with `suffix` = `error`)
share their key below the job if and only if `job.event` look alike, and their key at the top level if and only if the events look alike; and the key below a job is
that of an event at the top level if and only if `job.event` looks like that event. -/
theorem C35_emissions_iff (pfx suffix j e j' e' : Str) :
    (metricKey sanitizeKey [pfx, j, e, suffix] = metricKey sanitizeKey [pfx, j', e', suffix] ↔ LookAlike (dotted [j, e]) (dotted [j', e'])) ∧
    (metricKey sanitizeKey [pfx, e, suffix] = metricKey sanitizeKey [pfx, e', suffix] ↔ LookAlike e e') ∧
    (metricKey sanitizeKey [pfx, j, e, suffix] = metricKey sanitizeKey [pfx, e', suffix] ↔ LookAlike (dotted [j, e]) e') := by
  have e1 : ∀ s : Str, dotted [s] = s := by intro s; simp [dotted]
  refine ⟨?_, ?_, ?_⟩
  · exact (C35_iff _ _).trans (around pfx suffix [j, e] [j', e'])
  · have := (C35_iff _ _).trans (around pfx suffix [e] [e'])
    rwa [e1, e1] at this
  · have := (C35_iff _ _).trans (around pfx suffix [j, e] [e'])
    rwa [e1] at this

/-- what the server gets: the bytes that two events of jobs add to the datagrams, when only the keys below the job are sent (and fit into a datagram), are the same if
and only if `job.event` look alike. -/
theorem C35_bytes_iff (pfx : Str) (ops : List StatsD.Op) (j e j' e' : Str)
    (hf : ∀ m ∈ metricsOf ⟨pfx, sanitizeKey, false, true⟩ (.event j e), m.fits = true)
    (hf' : ∀ m ∈ metricsOf ⟨pfx, sanitizeKey, false, true⟩ (.event j' e'), m.fits = true) :
    stream ((fresh ⟨pfx, sanitizeKey, false, true⟩).run (ops ++ [.cmd (.event j e)])) =
      stream ((fresh ⟨pfx, sanitizeKey, false, true⟩).run (ops ++ [.cmd (.event j' e')])) ↔
    LookAlike (dotted [j, e]) (dotted [j', e']) := by
  rw [C33_lines_of_emission, C33_lines_of_emission, List.append_cancel_left_eq, List.filter_eq_self.2 hf, List.filter_eq_self.2 hf']
  rw [← (C35_emissions_iff pfx [] j e j' e').1]
  simp only [metricsOf, if_true, List.nil_append, List.map_cons, List.map_nil, List.flatten_cons, List.flatten_nil, List.append_nil, Metric.line,
    List.append_assoc, Bool.false_eq_true, if_false]
  exact List.append_left_inj _

example : LookAlike (dotted [bs "a.b", bs "c"]) (dotted [bs "a", bs "b.c"]) ∧ LookAlike (dotted [bs "x y", bs "c"]) (dotted [bs "x-y", bs "c"]) ∧
    ¬ LookAlike (dotted [bs "x_y", bs "c"]) (dotted [bs "x-y", bs "c"]) ∧ LookAlike (dotted [[], bs "c"]) (dotted [bs "c", []]) := by decide +kernel

example : ∀ m ∈ metricsOf ⟨bs "p", sanitizeKey, false, true⟩ (.event (bs "x y") (bs "c")), m.fits = true := by decide +kernel

end SdKeys

