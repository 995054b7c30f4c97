import Verif.Lemmas.Aggregation
/-! The error ring buffer holds the last five errors after dropping immediate repeats. -/
open Spec

def errCounterOf (xs : List (Option Err)) : ErrorCounter := xs.foldl ErrorCounter.incrementAndAddError ErrorCounter.zero

theorem errCounterOf_snoc (xs : List (Option Err)) (x : Option Err) :
    errCounterOf (xs ++ [x]) = (errCounterOf xs).incrementAndAddError x := by simp [errCounterOf]

theorem collapse_snoc (xs : List Err) (x : Err) :
    collapse (xs ++ [x]) = if (collapse xs).getLast? = some x then collapse xs else collapse xs ++ [x] := by
  rw [collapse, List.foldl_append]; rfl

theorem addError_count (ec : ErrorCounter) (e : Option Err) : (ec.addError e).count = ec.count := by
  unfold ErrorCounter.addError
  repeat' split
  all_goals rfl

theorem addError_length (ec : ErrorCounter) (e : Option Err) : (ec.addError e).samples.length = ec.samples.length := by
  unfold ErrorCounter.addError
  repeat' split
  all_goals simp

theorem incrementAndAddError_eq (ec : ErrorCounter) (e : Option Err) :
    (ec.incrementAndAddError e).samples = (ec.addError e).samples ∧
    (ec.incrementAndAddError e).idx = (ec.addError e).idx ∧
    (ec.incrementAndAddError e).count = i64 (ec.count + 1) := by
  refine ⟨?_, ?_, ?_⟩
  · unfold ErrorCounter.incrementAndAddError ErrorCounter.addError
    simp only
    split
    · rfl
    · split <;> rfl
  · unfold ErrorCounter.incrementAndAddError ErrorCounter.addError
    simp only
    split
    · rfl
    · split <;> rfl
  · unfold ErrorCounter.incrementAndAddError
    rw [addError_count]

theorem errCounterOf_count (xs : List (Option Err)) : (errCounterOf xs).count = i64 xs.length := by
  induction xs using snocInduction with
  | nil => simp [errCounterOf, ErrorCounter.zero]
  | snoc l a ih => rw [errCounterOf_snoc, (incrementAndAddError_eq _ _).2.2, ih]; simp

theorem errCounterOf_length (xs : List (Option Err)) : (errCounterOf xs).samples.length = 5 := by
  induction xs using snocInduction with
  | nil => rfl
  | snoc l a ih => rw [errCounterOf_snoc, (incrementAndAddError_eq _ _).1, addError_length, ih]

/-- `ec`'s ring holds the last five elements of `c`, element `j` of `c` at position `j % 5`. -/
structure RingOf (ec : ErrorCounter) (c : List Err) : Prop where
  len : ec.samples.length = 5
  idx : ec.idx = (c.length - 1) % 5
  recent : ∀ j, (h : j < c.length) → c.length ≤ j + 5 → ec.samples[j % 5]? = some (some c[j])
  empty : ∀ i, i < 5 → c.length ≤ i → ec.samples[i]? = some none

theorem RingOf.zero : RingOf ErrorCounter.zero [] where
  len := rfl
  idx := rfl
  recent := by intro j h; simp at h
  empty := by
    intro i hi _
    show (List.replicate 5 none)[i]? = some none
    rw [List.getElem?_replicate, if_pos hi]

theorem RingOf.add {ec : ErrorCounter} {c : List Err} (h : RingOf ec c) (x : Err) :
    RingOf (ec.addError (some x)) (if c.getLast? = some x then c else c ++ [x]) := by
  obtain ⟨hlen, hidx, hrec, hemp⟩ := h
  by_cases hc : c = []
  · subst hc
    have h0 : ec.samples[ec.idx]? = some none := by rw [hidx]; exact hemp 0 (by omega) (by simp)
    have h1 : (ec.samples[ec.idx]?).join = none := by rw [h0]; rfl
    unfold ErrorCounter.addError
    split
    · refine ⟨by simp [hlen], by simp [hidx], ?_, ?_⟩
      · intro j hj _
        simp at hj; subst hj
        have : ec.idx = 0 := by simp [hidx]
        simp [this, hlen]
      · intro i hi hc
        simp at hc
        have : ec.idx ≠ i := by simp [hidx]; omega
        simp only [List.getElem?_set]
        rw [if_neg this]
        exact hemp i hi (by simp)
    · rename_i e he; rw [h1] at he; cases he
  · have hpos : 0 < c.length := List.length_pos_iff.2 hc
    have h0 : ec.samples[ec.idx]? = some (some c[c.length - 1]) := by
      rw [hidx]; exact hrec (c.length - 1) (by omega) (by omega)
    have hlast : c.getLast? = some c[c.length - 1] := by
      rw [List.getLast?_eq_getElem?, List.getElem?_eq_getElem (by omega)]
    unfold ErrorCounter.addError
    rw [h0]
    simp only [Option.join_some, hlast]
    by_cases hx : c[c.length - 1] = x
    · have : ¬ (some c[c.length - 1] ≠ some x) := by simp [hx]
      rw [if_neg this, if_pos (by simp [hx])]
      exact ⟨hlen, hidx, hrec, hemp⟩
    · rw [if_pos (by simp [hx]), if_neg (by simp [hx])]
      have hi : (ec.idx + 1) % ec.samples.length = c.length % 5 := by rw [hidx, hlen]; omega
      refine ⟨by simp [hlen], by simp [hi], ?_, ?_⟩
      · intro j hj hj2
        simp only [List.length_append, List.length_cons, List.length_nil] at hj hj2
        simp only [hi, List.getElem?_set]
        by_cases hjc : j = c.length
        · subst hjc
          simp [hlen]
          omega
        · have hjlt : j < c.length := by omega
          rw [if_neg (by omega), hrec j hjlt (by omega)]
          simp [List.getElem_append_left hjlt]
      · intro i hi5 hci
        simp only [List.length_append, List.length_cons, List.length_nil] at hci
        simp only [hi, List.getElem?_set]
        rw [if_neg (by omega)]
        exact hemp i hi5 (by omega)

theorem errCounterOf_ring (xs : List Err) : RingOf (errCounterOf (xs.map some)) (collapse xs) := by
  induction xs using snocInduction with
  | nil => exact RingOf.zero
  | snoc l a ih =>
    rw [List.map_append, List.map_cons, List.map_nil, errCounterOf_snoc, collapse_snoc]
    obtain ⟨e1, e2, _⟩ := incrementAndAddError_eq (errCounterOf (l.map some)) (some a)
    have := ih.add a
    exact ⟨by rw [e1]; exact this.len, by rw [e2]; exact this.idx, by rw [e1]; exact this.recent,
      by rw [e1]; exact this.empty⟩

theorem filterMap_id_map_some {α : Type} (l : List α) : (l.map some).filterMap id = l := by
  induction l <;> simp_all

theorem RingOf.samplesOf {ec : ErrorCounter} {xs : List Err} (h : RingOf ec (collapse xs)) :
    SamplesOf ec.getErrorSamples xs := by
  obtain ⟨hlen, hidx, hrec, hemp⟩ := h
  suffices H : ∀ c, c = collapse xs → ec.getErrorSamples.length ≤ 5 ∧
      (∃ k, ec.getErrorSamples.rotateLeft k = lastN 5 c) ∧ (c.length ≤ 5 → ec.getErrorSamples = c) by
    obtain ⟨h1, h2, h3⟩ := H _ rfl
    exact ⟨h1, h2, h3⟩
  intro c hceq
  rw [← hceq] at hidx hemp
  have hrec : ∀ (j : Nat) (h : j < c.length), c.length ≤ j + 5 → ec.samples[j % 5]? = some (some c[j]) := by
    subst hceq; exact hrec
  clear hceq
  have hsmall : c.length ≤ 5 → ec.getErrorSamples = c := by
    intro hc
    have : ec.samples = c.map some ++ List.replicate (5 - c.length) none := by
      apply List.ext_getElem?
      intro i
      by_cases hi5 : i < 5
      · by_cases hi : i < c.length
        · have := hrec i hi (by omega)
          rw [Nat.mod_eq_of_lt (by omega)] at this
          rw [this, List.getElem?_append_left (by simpa using hi)]
          simp [hi]
        · rw [hemp i hi5 (by omega), List.getElem?_append_right (by simp; omega)]
          rw [List.getElem?_replicate, if_pos (by simp; omega)]
      · rw [List.getElem?_eq_none (by omega), List.getElem?_eq_none (by simp; omega)]
    unfold ErrorCounter.getErrorSamples
    rw [this, List.filterMap_append, filterMap_id_map_some]
    simp
  have hbig : 5 ≤ c.length → ∃ d : List Err, ec.samples = d.map some ∧ d.length = 5 ∧
      ∀ j, (h : j < c.length) → c.length ≤ j + 5 → d[j % 5]? = some c[j] := by
    intro hc
    have hall : ∀ i, i < 5 → ∃ e, ec.samples[i]? = some (some e) := by
      intro i hi
      -- the j with j % 5 = i in the last five
      have hj : ∃ j, j < c.length ∧ c.length ≤ j + 5 ∧ j % 5 = i := by
        refine ⟨c.length - 5 + (i + 5 - (c.length - 5) % 5) % 5, ?_, ?_, ?_⟩ <;> omega
      obtain ⟨j, h1, h2, h3⟩ := hj
      exact ⟨_, h3 ▸ hrec j h1 h2⟩
    have hsome : ∀ (l : List (Option Err)), (∀ x ∈ l, ∃ e, x = some e) → ∃ d : List Err, l = d.map some := by
      intro l
      induction l with
      | nil => exact fun _ => ⟨[], rfl⟩
      | cons a t ih =>
        intro hh
        obtain ⟨e, he⟩ := hh a (by simp)
        obtain ⟨d, hd⟩ := ih (fun x hx => hh x (by simp [hx]))
        exact ⟨e :: d, by simp [he, hd]⟩
    obtain ⟨d, hd⟩ := hsome ec.samples (by
      intro x hx
      obtain ⟨i, hi, he⟩ := List.mem_iff_getElem.1 hx
      obtain ⟨e, hee⟩ := hall i (by omega)
      rw [List.getElem?_eq_getElem hi] at hee
      exact ⟨e, by rw [← he]; simpa using hee⟩)
    refine ⟨d, hd, by simpa [hd] using hlen, ?_⟩
    intro j h1 h2
    have hj := hrec j h1 h2
    rw [hd, List.getElem?_map] at hj
    cases hdj : d[j % 5]? with
    | none => simp [hdj] at hj
    | some e => simp [hdj] at hj; simp [hj]
  refine ⟨?_, ?_, hsmall⟩
  · unfold ErrorCounter.getErrorSamples
    calc (ec.samples.filterMap id).length ≤ ec.samples.length := List.length_filterMap_le _ _
      _ ≤ 5 := by omega
  · by_cases hc : c.length ≤ 5
    · refine ⟨0, ?_⟩
      rw [hsmall hc]
      simp [lastN, Nat.sub_eq_zero_of_le hc]
    · obtain ⟨d, hd1, hd2, hd3⟩ := hbig (by omega)
      have hs : ec.getErrorSamples = d := by
        unfold ErrorCounter.getErrorSamples; rw [hd1, filterMap_id_map_some]
      rw [hs]
      refine ⟨c.length % 5, ?_⟩
      have hl : (lastN 5 c).length = 5 := by simp [lastN]; omega
      apply List.ext_getElem?
      intro k
      unfold List.rotateLeft
      simp only [hd2]
      rw [if_neg (by omega), Nat.mod_mod]
      by_cases hk : k < 5
      · have hR : (lastN 5 c)[k]? = some c[c.length - 5 + k] := by
          unfold lastN
          rw [List.getElem?_drop, List.getElem?_eq_getElem (by omega)]
        rw [hR]
        have := hd3 (c.length - 5 + k) (by omega) (by omega)
        rw [← this]
        by_cases hk2 : k < 5 - c.length % 5
        · rw [List.getElem?_append_left (by simp; omega), List.getElem?_drop]
          congr 1; omega
        · rw [List.getElem?_append_right (by simp; omega), List.getElem?_take]
          rw [if_pos (by simp; omega)]
          congr 1; simp; omega
      · rw [List.getElem?_eq_none (by simp; omega), List.getElem?_eq_none (by omega)]

theorem errs_snoc (ev : Str) (es : List Emit) (e : Emit) : errs ev (es ++ [e]) = errs ev es ++ errs ev [e] := by
  simp [errs, List.filterMap_append]

theorem mapsOf_errs (es : List Emit) (ev : Str) :
    (mapsOf es).eventErrs.get? ev = if errs ev es = [] then none else some (errCounterOf (errs ev es)) := by
  induction es using snocInduction with
  | nil => rfl
  | snoc l a ih =>
    rw [mapsOf_snoc, errs_snoc]
    cases a with
    | eventErr j e x =>
      simp only [AggMaps.applyE, AggMaps.addErr, GoMap.get?_set, GoMap.getD]
      by_cases h : ev = e
      · subst h
        have h1 : errs ev [Emit.eventErr j ev x] = [x] := by simp [errs]
        simp only [if_true, h1, List.append_eq_nil_iff, List.cons_ne_nil, and_false, if_false]
        rw [ih, errCounterOf_snoc]
        congr 2
        split
        · rename_i h0; rw [h0]; rfl
        · rfl
      · have h1 : errs ev [Emit.eventErr j e x] = [] := by simp [errs, Ne.symm h]
        rw [if_neg h, ih, h1, List.append_nil]
    | _ => simpa [AggMaps.applyE, AggMaps.addTiming, AggMaps.incEvent, AggMaps.setGauge, errs] using ih
