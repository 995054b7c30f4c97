import Verif.Spec.Api
import Verif.Lemmas.Stats
import Verif.Lemmas.Sort
import Verif.Lemmas.F64Mono
import Verif.Lemmas.MergeExtremes
import Verif.Lemmas.Healthd
import Verif.Lemmas.HealthdAll
import Verif.Props.Healthd
/-!
# Properties of healthd's API: C52, C54, C55, C56
-/
open Spec Api Healthd

/-! ## C52: the order -/

theorem strLt_false_iff (a b : Str) : strLt b a = false ↔ a = b ∨ Precedes a b := by
  unfold strLt
  rw [Bool.not_eq_false']
  constructor
  · intro h
    by_cases e : a = b
    · exact .inl e
    · exact .inr (precedes_of_strLe h e)
  · rintro (rfl | h)
    · rcases strLe_total a a with h | h <;> exact h
    · exact (strLe_of_precedes h).1

theorem floatGe_iff {a b : F64} (ha : a ≠ .nan) (hb : b ≠ .nan) : F64.lt a b = false ↔ floatGe a b := by
  cases a <;> cases b <;> simp_all [F64.lt, floatGe, F64.isFinite] <;> rename_i x y <;> cases x <;> cases y <;> simp

theorem floatGe_trans {a b c : F64} (h1 : floatGe a b) (h2 : floatGe b c) : floatGe a c := by
  obtain ⟨ha, hb, h1⟩ := h1
  obtain ⟨_, hc, h2⟩ := h2
  refine ⟨ha, hc, ?_⟩
  rcases h1 with h1 | h1 | ⟨f1, f2, h1⟩
  · exact .inl h1
  · subst h1
    rcases h2 with h2 | h2 | ⟨f, _, _⟩
    · simp at h2
    · exact .inr (.inl h2)
    · simp [F64.isFinite] at f
  · rcases h2 with h2 | h2 | ⟨_, f3, h2⟩
    · subst h2; simp [F64.isFinite] at f2
    · exact .inr (.inl h2)
    · exact .inr (.inr ⟨f1, f3, h2.trans h1⟩)

theorem floatGe_total {a b : F64} (ha : a ≠ .nan) (hb : b ≠ .nan) : floatGe a b ∨ floatGe b a := by
  rw [← floatGe_iff ha hb, ← floatGe_iff hb ha]
  by_contra hc
  simp only [not_or, Bool.not_eq_false] at hc
  obtain ⟨h1, h2⟩ := hc
  revert h1 h2
  cases a <;> cases b <;> simp_all [F64.lt] <;> first | (intro h1; exact h1.le) | (rename_i x y; cases x <;> cases y <;> simp)

/-- the row has the number that the key asks for. -/
def Api.Row.Comparable (key : SortKey) (j : Row) : Prop := (key = .avg → j.nanosAvg ≠ .nan) ∧ (key = .stddev → j.nanosStdDev ≠ .nan)

theorem jobSorter_text (k : SortKey) : ∃ less, jobSorter k.text = some less ∧
    ∀ a b : Row, a.Comparable k → b.Comparable k → (less b a = false ↔ mayPrecede k a b) := by
  cases k with
  | name => exact ⟨_, rfl, fun a b _ _ => strLt_false_iff _ _⟩
  | avg => exact ⟨_, rfl, fun a b ha hb => floatGe_iff (ha.1 rfl) (hb.1 rfl)⟩
  | stddev => exact ⟨_, rfl, fun a b ha hb => floatGe_iff (ha.2 rfl) (hb.2 rfl)⟩
  | _ => exact ⟨_, rfl, fun a b _ _ => by simp [mayPrecede]⟩

theorem precedes_trans {a b c : Str} (h1 : Precedes a b) (h2 : Precedes b c) : Precedes a c := by
  obtain ⟨l1, n1⟩ := strLe_of_precedes h1
  obtain ⟨l2, n2⟩ := strLe_of_precedes h2
  refine precedes_of_strLe (strLe_trans l1 l2) ?_
  rintro rfl
  exact n1 (strLe_antisymm l1 l2)

theorem mayPrecede_trans {k : SortKey} {a b c : Row} (h1 : mayPrecede k a b) (h2 : mayPrecede k b c) : mayPrecede k a c := by
  cases k with
  | name =>
    rcases h1 with h1 | h1 <;> rcases h2 with h2 | h2
    · exact .inl (h1.trans h2)
    · exact .inr (h1 ▸ h2)
    · exact .inr (h2 ▸ h1)
    · exact .inr (precedes_trans h1 h2)
  | avg => exact floatGe_trans h1 h2
  | stddev => exact floatGe_trans h1 h2
  | _ => exact le_trans h2 h1

theorem mayPrecede_total {k : SortKey} {a b : Row} (ha : a.Comparable k) (hb : b.Comparable k) : mayPrecede k a b ∨ mayPrecede k b a := by
  cases k with
  | name =>
    by_cases e : a.name = b.name
    · exact .inl (.inl e)
    · rcases strLe_total a.name b.name with h | h
      · exact .inl (.inr (precedes_of_strLe h e))
      · exact .inr (.inr (precedes_of_strLe h (Ne.symm e)))
  | avg => exact floatGe_total (ha.1 rfl) (hb.1 rfl)
  | stddev => exact floatGe_total (ha.2 rfl) (hb.2 rfl)
  | _ => exact le_total _ _

theorem sortJobs_perm {sort : SortFn Row} (hs : GoSorts sort) (jobs : List Row) (key : Str) : (sortJobs sort jobs key).Perm jobs := by
  unfold sortJobs
  cases jobSorter key with
  | none => exact List.Perm.refl _
  | some less => exact (hs less jobs).1

theorem sortJobs_sorted {sort : SortFn Row} (hs : GoSorts sort) (jobs : List Row) (k : SortKey) (hc : ∀ j ∈ jobs, j.Comparable k) :
    (sortJobs sort jobs k.text).Pairwise (mayPrecede k) := by
  obtain ⟨less, h1, h2⟩ := jobSorter_text k
  unfold sortJobs
  rw [h1]
  have hp := (hs less jobs).1
  have := (hs less jobs).2 (fun a ha b hb hab => by
      rw [h2 a b (hc a ha) (hc b hb)]
      have : ¬ mayPrecede k b a := by rw [← h2 b a (hc b hb) (hc a ha), hab]; simp
      rcases mayPrecede_total (hc a ha) (hc b hb) with h | h
      · exact h
      · exact absurd h this)
    (fun a ha b hb c hcm hba hcb => by
      rw [h2 _ _ (hc _ ‹_›) (hc _ ‹_›)] at *
      exact mayPrecede_trans hba hcb)
  refine List.Pairwise.imp_of_mem ?_ this
  intro a b ha hb hab
  exact (h2 a b (hc a (hp.mem_iff.1 ha)) (hc b (hp.mem_iff.1 hb))).1 hab

theorem average_ne_nan {t : TimerAgg} (hc : InI64 t.count) (hs : InI64 t.nanosSum) : average t ≠ .nan := by
  by_cases h0 : t.count = 0
  · unfold average; rw [if_pos h0]; simp
  · unfold average
    rw [if_neg h0]
    obtain ⟨p, hp, _⟩ := F64.ofInt_err hs.1 hs.2
    obtain ⟨c, hcf, hc1, _⟩ := F64.ofInt_err hc.1 hc.2
    have hc0 : c ≠ 0 := by
      rintro rfl
      have : (1:ℚ) ≤ |(t.count : ℚ)| := by exact_mod_cast Int.one_le_abs h0
      have u2 := F64.uu_small
      rw [zero_sub, abs_neg] at hc1
      nlinarith
    rw [hp, hcf]
    show (if c = 0 then _ else if p = 0 then _ else F64.rnd (p / c)) ≠ _
    rw [if_neg hc0]
    split
    · unfold F64.zero; split <;> simp
    · unfold F64.rnd
      simp only
      repeat' split
      all_goals simp

theorem applyLimit_split (jobs : List Row) (limit : Int) : ∃ rest, applyLimit jobs limit ++ rest = jobs ∧ (limit ≤ 0 → rest = []) ∧
    (0 < limit → (applyLimit jobs limit).length = min limit.toNat jobs.length) := by
  unfold applyLimit
  by_cases h : limit > 0
  · rw [if_pos h]
    refine ⟨_, List.take_append_drop _ _, by omega, fun _ => ?_⟩
    simp only [List.length_take]
    split <;> omega
  · rw [if_neg h]
    exact ⟨[], by simp, by simp, by omega⟩

/-- C52: /jobs shows the jobs of the aggregation, each once and with its numbers; sorted by the key, if it is one; and if they are cut off by the limit, the jobs `rest` that are
missing come after those shown.  Hypotheses: what Go's types, maps and `sort.Sort` guarantee, and that there is no NaN to sort by (see `C53_false`, `C52_false`). -/
theorem C52_jobs_partial {sort : SortFn Row} (hs : GoSorts sort) {m : GoMap Str JobAgg} (hw : m.Wf) {order : List (Str × JobAgg)} (ho : order.Perm m) (key : Str) (limit : Int)
    (hi : ∀ p ∈ m, InI64 p.2.timer.count ∧ InI64 p.2.timer.nanosSum) (hn : key = bs "stddev" → ∀ p ∈ m, stdDev p.2.timer ≠ .nan) :
    ∃ rows rest, filterJobs sort (some order) key limit = some rows ∧
      ((rows ++ rest).map (·.name)).Perm m.keys ∧
      (∀ r ∈ rows ++ rest, ∃ a, m.get? r.name = some a ∧ RowOf r a ∧ r.nanosAvg = average a.timer ∧ r.nanosStdDev = stdDev a.timer) ∧
      (limit ≤ 0 → rest = []) ∧ (0 < limit → rows.length = min limit.toNat m.length) ∧
      ∀ k : SortKey, key = k.text → (rows ++ rest).Pairwise (mayPrecede k) := by
  have hsp := sortJobs_perm hs (order.map (fun p => mkJob p.1 p.2)) key
  obtain ⟨rest, h1, h2, h3⟩ := applyLimit_split (sortJobs sort (order.map (fun p => mkJob p.1 p.2)) key) limit
  refine ⟨_, rest, rfl, ?_, ?_, h2, ?_, ?_⟩
  · rw [h1]
    have e : m.keys = m.map (fun p => (mkJob p.1 p.2).name) := rfl
    rw [e, ← Function.comp_def (f := Row.name) (g := fun p : Str × JobAgg => mkJob p.1 p.2), ← List.map_map]
    exact (hsp.trans (ho.map _)).map _
  · rw [h1]
    intro r hr
    obtain ⟨p, hp, rfl⟩ := List.mem_map.1 ((hsp.trans (ho.map _)).mem_iff.1 hr)
    exact ⟨p.2, GoMap.get?_of_mem hw hp, ⟨rfl, rfl, rfl, rfl, rfl, rfl, rfl, rfl, rfl, rfl⟩, rfl, rfl⟩
  · intro hl
    rw [h3 hl, hsp.length_eq, List.length_map, ho.length_eq]
  · rintro k rfl
    rw [h1]
    apply sortJobs_sorted hs
    intro r hr
    obtain ⟨p, hp, rfl⟩ := List.mem_map.1 hr
    have hpm := ho.mem_iff.1 hp
    exact ⟨fun _ => average_ne_nan (hi p hpm).1 (hi p hpm).2, fun e => hn (by rw [e]; rfl) p hpm⟩

/-! ### Go's sort for short slices -/

/-- sort/sort.go `insertionSort`, which `sort.Sort` uses for up to 12 elements; `t`: the sorted part, from its end. -/
def Spec.insertBack {α : Type} (less : α → α → Bool) (x : α) : List α → List α
  | [] => [x]
  | y :: t => if less x y then y :: insertBack less x t else x :: y :: t
def Spec.insertionSort {α : Type} : SortFn α := fun less l => (l.foldl (fun t x => insertBack less x t) []).reverse

theorem insertBack_perm {α : Type} (less : α → α → Bool) (x : α) (t : List α) : (insertBack less x t).Perm (x :: t) := by
  induction t with
  | nil => exact List.Perm.refl _
  | cons y t ih =>
    unfold insertBack
    split
    · exact (ih.cons y).trans (List.Perm.swap _ _ _)
    · exact List.Perm.refl _

theorem insertBack_sorted {α : Type} {less : α → α → Bool} {S : α → Prop} (hasym : ∀ a, S a → ∀ b, S b → less a b = true → less b a = false)
    (htrans : ∀ a, S a → ∀ b, S b → ∀ c, S c → less b a = false → less c b = false → less c a = false) {x : α} (hx : S x) {t : List α} (ht : ∀ y ∈ t, S y)
    (h : t.Pairwise (fun a b => less a b = false)) : (insertBack less x t).Pairwise (fun a b => less a b = false) := by
  induction t with
  | nil => simp [insertBack]
  | cons y t ih =>
    obtain ⟨h1, h2⟩ := List.pairwise_cons.1 h
    unfold insertBack
    split
    · next hl =>
      refine List.pairwise_cons.2 ⟨?_, ih (fun z hz => ht z (by simp [hz])) h2⟩
      intro z hz
      rcases List.mem_cons.1 ((insertBack_perm less x t).mem_iff.1 hz) with rfl | hz
      · exact hasym _ hx _ (ht y (by simp)) hl
      · exact h1 z hz
    · next hl =>
      refine List.pairwise_cons.2 ⟨?_, h⟩
      have hl : less x y = false := by simpa using hl
      intro z hz
      rcases List.mem_cons.1 hz with rfl | hz
      · exact hl
      · exact htrans z (ht z (by simp [hz])) y (ht y (by simp)) x hx (h1 z hz) hl

theorem insertionSort_ok {α : Type} : GoSorts (insertionSort (α := α)) := by
  intro less l
  have key : ∀ l t : List α, (l.foldl (fun t x => insertBack less x t) t).Perm (l ++ t) ∧
      ∀ S : α → Prop, (∀ a, S a → ∀ b, S b → less a b = true → less b a = false) →
        (∀ a, S a → ∀ b, S b → ∀ c, S c → less b a = false → less c b = false → less c a = false) → (∀ y ∈ l ++ t, S y) →
        t.Pairwise (fun a b => less a b = false) → (l.foldl (fun t x => insertBack less x t) t).Pairwise (fun a b => less a b = false) := by
    intro l
    induction l with
    | nil => intro t; exact ⟨List.Perm.refl _, fun S _ _ _ h => h⟩
    | cons x l ih =>
      intro t
      have hp := insertBack_perm less x t
      obtain ⟨h1, h2⟩ := ih (insertBack less x t)
      refine ⟨?_, ?_⟩
      · exact h1.trans ((hp.append_left l).trans List.perm_middle)
      · intro S ha ht hS hs
        refine h2 S ha ht (fun y hy => hS y ?_) (insertBack_sorted ha ht (hS x (by simp)) (fun y hy => hS y (by simp [hy])) hs)
        rcases List.mem_append.1 hy with hy | hy
        · simp [hy]
        · rcases List.mem_cons.1 (hp.mem_iff.1 hy) with rfl | hy
          · simp
          · simp [hy]
  obtain ⟨h1, h2⟩ := key l []
  refine ⟨(List.reverse_perm _).trans (by simpa using h1), fun ha ht => ?_⟩
  unfold insertionSort
  rw [List.pairwise_reverse]
  exact h2 (· ∈ l) ha ht (fun y hy => by simpa using hy) List.Pairwise.nil

/-! ### Cases -/

/-- a job with these durations. -/
def Spec.jobOfDurations (xs : List Int) : JobAgg := { JobAgg.init with timer := timerOf xs, countSuccess := xs.length }

def Spec.someJobs : GoMap Str JobAgg := [(bs "b", jobOfDurations [5, 7]), (bs "a", jobOfDurations [1]), (bs "c", jobOfDurations [2, 4, 90])]

theorem someJobs_ints : ∀ p ∈ someJobs, InI64 p.2.timer.count ∧ InI64 p.2.timer.nanosSum := by
  intro p hp
  simp only [someJobs, List.mem_cons, List.not_mem_nil, or_false] at hp
  unfold InI64
  rcases hp with rfl | rfl | rfl <;> decide

example : ∃ rows rest, filterJobs insertionSort (some someJobs) (bs "avg") 2 = some rows ∧ ((rows ++ rest).map (·.name)).Perm someJobs.keys ∧ rows.length = 2 ∧
    (rows ++ rest).Pairwise (mayPrecede .avg) := by
  obtain ⟨rows, rest, h1, h2, _, _, h5, h6⟩ := C52_jobs_partial insertionSort_ok (m := someJobs) (by unfold GoMap.Wf; decide) (List.Perm.refl _) (bs "avg") 2 someJobs_ints
    (by decide)
  exact ⟨rows, rest, h1, h2, h5 (by decide), h6 .avg rfl⟩

/-- the rows: `c` before `b`. -/
example : (filterJobs insertionSort (some someJobs) (bs "avg") 2).map (·.map (·.name)) = some [bs "c", bs "b"] := by decide +kernel
example : (filterJobs insertionSort (some someJobs) (bs "name") 0).map (·.map (·.name)) = some [bs "a", bs "b", bs "c"] := by decide +kernel

/-- C52 is false without the hypothesis about NaN: the NaN is cut off by the limit, the answer is rendered, and it is not the job with the greatest deviation. -/
theorem C52_false : ∃ (m : GoMap Str JobAgg) (rows : List Row), m.Wf ∧ (∀ p ∈ m, InI64 p.2.timer.count ∧ InI64 p.2.timer.nanosSum) ∧
    filterJobs insertionSort (some m) (bs "stddev") 1 = some rows ∧
    (∀ r ∈ rows, r.nanosStdDev.isFinite = true) ∧
    ∃ r ∈ rows, ∃ p ∈ m, F64.lt r.nanosStdDev (stdDev p.2.timer) = true := by
  refine ⟨[(bs "a", jobOfDurations [5, 7]), (bs "b", jobOfDurations [1000000008, 1000000008, 1000000008]), (bs "c", jobOfDurations [5, 900])], _, ?_, ?_, rfl, ?_, ?_⟩
  · unfold GoMap.Wf; decide
  · intro p hp
    simp only [List.mem_cons, List.not_mem_nil, or_false] at hp
    unfold InI64
    rcases hp with rfl | rfl | rfl <;> decide +kernel
  · decide +kernel
  · decide +kernel


/-! ## C54 -/

/-- C54: nothing for no intervals; otherwise the sums, least and greatest durations over all intervals, and gauges from the last interval that has them. -/
theorem C54_overall (l : List IntAgg) (hw : ∀ b ∈ l, b.Wf) (hr : ∀ b ∈ l, ∀ c, (value b c).map i64 = value b c) :
    (combineAggregations l = none ↔ l = []) ∧
    ∀ o, combineAggregations l = some o → l.head?.map (·.start) = some o.start ∧
      (∀ c, value o c = sumI (l.map (fun b => value b c))) ∧
      (∀ x, (summary o x).map (·.nanosMin) = minI (l.map (fun b => (summary b x).map (·.nanosMin)))) ∧
      (∀ x, (summary o x).map (·.nanosMax) = maxI (l.map (fun b => (summary b x).map (·.nanosMax)))) ∧
      (∀ g, gaugeOf o g = (l.filterMap (fun b => gaugeOf b g)).getLast?) := by
  cases l with
  | nil => simp [combineAggregations]
  | cons a t =>
    refine ⟨by simp [combineAggregations], ?_⟩
    intro o ho
    have e : o = mergeAll a.start (a :: t) := (Option.some.inj ho).symm
    rw [e]
    exact ⟨by rw [mergeAll_start]; rfl, value_mergeAll_exact _ _ hw hr, min_mergeAll _ _ hw, max_mergeAll _ _ hw, gauge_mergeAll _ _ hw⟩

/-- C54 for healthd: at any time, for the intervals of the time series (C43: in order of their start, so the last one is the latest). -/
theorem C54_run {sort : List IntAgg → List IntAgg} (hsort : SortsByStart sort) {hosts : List Str} {h : List Op} {s : State} (hr : Runs sort (init hosts) h s) (hdec : Decoded h) :
    (combineAggregations (memorySafeIntervals s) = none ↔ s.intervalAggregations = []) ∧
    ∀ o, combineAggregations (memorySafeIntervals s) = some o → s.intervalAggregations.head?.map (·.start) = some o.start ∧
      (∀ c, value o c = sumI (s.intervalAggregations.map (fun b => value b c))) ∧
      (∀ x, (summary o x).map (·.nanosMin) = minI (s.intervalAggregations.map (fun b => (summary b x).map (·.nanosMin)))) ∧
      (∀ x, (summary o x).map (·.nanosMax) = maxI (s.intervalAggregations.map (fun b => (summary b x).map (·.nanosMax)))) ∧
      (∀ g, gaugeOf o g = (s.intervalAggregations.filterMap (fun b => gaugeOf b g)).getLast?) := by
  have hf := hr.fits hsort hdec
  have e : memorySafeIntervals s = s.intervalAggregations := by
    unfold memorySafeIntervals
    conv => rhs; rw [← List.map_id s.intervalAggregations]
    exact List.map_congr_left (fun a ha => IntAgg.clone_eq (hf a ha).1)
  rw [e]
  exact C54_overall _ (fun b hb => (hf b hb).1) (fun b hb => (hf b hb).2)

/-- a case that meets the hypotheses: the story, recalculated; the two intervals have 12 and 5 events. -/
example : ∃ (h : List Op) (s : State), Runs sortAggs (init [bs "h", bs "i"]) h s ∧ Decoded h ∧
    (combineAggregations (memorySafeIntervals s)).map (fun o => value o (.event (bs "e"))) = some (some 17) := by
  have key : ((after (init [bs "h", bs "i"]) (story ++ [.recalculate])).map (fun s => (combineAggregations (memorySafeIntervals s)).map (fun o => value o (.event (bs "e"))))) =
      some (some (some 17)) := by decide +kernel
  obtain ⟨s, h1, h2⟩ := Option.map_eq_some_iff.1 key
  refine ⟨_, s, after_runs h1, ?_, h2⟩
  intro r n1 n2 hm
  have := response_mem_ops hm
  rw [List.map_append, List.mem_append] at this
  rcases this with h | h
  · exact story_decoded r n1 n2 h
  · simp [Cmd.plain] at h

/-! ## C52: the limit -/

def parseDigits (t : Str) : Option Nat := if isDigits t then some (digitsVal t) else none
def clip : Option Int → Option Int
  | some n => if -2 ^ 63 ≤ n ∧ n < 2 ^ 63 then some n else none
  | none => none

def orZero : Option Int → Int
  | none => 0
  | some n => n

theorem parseInt_eq (t : Str) : parseInt t = clip (match t with
    | 45 :: x => (parseDigits x).map (fun n : Nat => -(n : Int))
    | 43 :: x => (parseDigits x).map (fun n : Nat => (n : Int))
    | x => (parseDigits x).map (fun n : Nat => (n : Int))) := by
  have h : ∀ x : Str, (if x ≠ [] ∧ x.all (fun c => decide (48 ≤ c) && decide (c ≤ 57)) then
      some (x.foldl (fun n c => 10 * n + (c.toNat - 48)) 0) else none) = parseDigits x := by
    intro x
    unfold parseDigits
    have : (x ≠ [] ∧ x.all (fun c => decide (48 ≤ c) && decide (c ≤ 57)) = true) ↔ isDigits x = true := by
      unfold isDigits
      simp
    simp only [this]
    rfl
  unfold parseInt clip
  simp only [h]
  rfl

/-- C52: a limit is a decimal number, perhaps with a plus sign; everything else counts as no limit. -/
theorem C52_limit (t : Str) :
    (isDigits t = true → digitsVal t < 2 ^ 63 → getLimit t = digitsVal t) ∧
    (getLimit t ≤ 0 ∨ ∃ d, (t = d ∨ t = 43 :: d) ∧ isDigits d = true ∧ getLimit t = digitsVal d) := by
  have pos : ∀ d : Str, orZero (clip ((parseDigits d).map (fun n : Nat => (n : Int)))) ≤ 0 ∨
      (isDigits d = true ∧ orZero (clip ((parseDigits d).map (fun n : Nat => (n : Int)))) = (digitsVal d : Int)) := by
    intro d
    unfold parseDigits
    by_cases h : isDigits d = true
    · rw [if_pos h]
      simp only [Option.map_some, clip]
      by_cases hb : -2 ^ 63 ≤ ((digitsVal d : Nat) : Int) ∧ ((digitsVal d : Nat) : Int) < 2 ^ 63
      · rw [if_pos hb]; exact .inr ⟨h, rfl⟩
      · rw [if_neg hb]; exact .inl (le_refl _)
    · rw [if_neg h]; exact .inl (le_refl _)
  have neg : ∀ d : Str, orZero (clip ((parseDigits d).map (fun n : Nat => -(n : Int)))) ≤ 0 := by
    intro d
    unfold parseDigits
    by_cases h : isDigits d = true
    · rw [if_pos h]
      simp only [Option.map_some, clip]
      by_cases hb : -2 ^ 63 ≤ -((digitsVal d : Nat) : Int) ∧ -((digitsVal d : Nat) : Int) < 2 ^ 63
      · rw [if_pos hb]; simp [orZero]
      · rw [if_neg hb]; exact le_refl _
    · rw [if_neg h]; exact le_refl _
  have exact' : ∀ d : Str, isDigits d = true → digitsVal d < 2 ^ 63 → orZero (clip ((parseDigits d).map (fun n : Nat => (n : Int)))) = (digitsVal d : Int) := by
    intro d h hb
    unfold parseDigits
    rw [if_pos h]
    simp only [Option.map_some, clip]
    rw [if_pos ⟨by omega, by omega⟩]
    rfl
  have hg : getLimit t = if t = [] then 0 else orZero (parseInt t) := by
    unfold getLimit orZero
    rfl
  rw [hg]
  by_cases h0 : t = []
  · subst h0; simp [isDigits]
  rw [if_neg h0]
  rcases t with _ | ⟨c, x⟩
  · exact absurd rfl h0
  by_cases h45 : c = 45
  · subst h45
    rw [parseInt_eq]
    refine ⟨fun h => absurd h (by simp [isDigits]), .inl (neg x)⟩
  by_cases h43 : c = 43
  · subst h43
    rw [parseInt_eq]
    refine ⟨fun h => absurd h (by simp [isDigits]), ?_⟩
    rcases pos x with h | ⟨h1, h2⟩
    · exact .inl h
    · exact .inr ⟨x, .inr rfl, h1, h2⟩
  · have e : parseInt (c :: x) = clip ((parseDigits (c :: x)).map (fun n : Nat => (n : Int))) := by
      rw [parseInt_eq]
      split
      · next e => cases e; exact absurd rfl h45
      · next e => cases e; exact absurd rfl h43
      · rfl
    rw [e]
    refine ⟨exact' _, ?_⟩
    rcases pos (c :: x) with h | ⟨h1, h2⟩
    · exact .inl h
    · exact .inr ⟨c :: x, .inl rfl, h1, h2⟩

example : getLimit (bs "20") = 20 := (C52_limit (bs "20")).1 (by decide +kernel) (by decide +kernel)
example : getLimit (bs "+007") = 7 ∧ getLimit (bs "-3") = -3 ∧ getLimit (bs "3x") = 0 ∧ getLimit (bs "9223372036854775808") = 0 := by decide +kernel

/-! ## C55 -/

/-- C55: /hosts lists the monitored hosts, each once and in increasing order of the address, with their status (C44). `order`: the order of the iteration over the map. -/
theorem C55_hosts {sort : List IntAgg → List IntAgg} {hosts : List Str} {h : List Op} {s : State} (hr : Runs sort (init hosts) h s)
    (hz : ∀ r n1 n2, Op.response r n1 n2 ∈ h → n1.ns ≠ 0) {sortH : SortFn HostStatus} (hs : GoSorts sortH) {order : List (Str × HostStatus)} (ho : order.Perm s.hostStatus) :
    let shown := sortHosts sortH (memorySafeHosts order)
    (shown.map (·.hostPort)).Pairwise Precedes ∧ (∀ hp, hp ∈ shown.map (·.hostPort) ↔ hp ∈ hosts) ∧
    ∀ x ∈ shown, StatusOf x.hostPort (responsesFrom x.hostPort h) x := by
  obtain ⟨h1, h2⟩ := C44_status hr hz
  have hw := hr.hostsWf
  have hstat : ∀ p ∈ s.hostStatus, StatusOf p.1 (responsesFrom p.1 h) p.2 := fun p hp => h2 p.1 p.2 (GoMap.get?_of_mem hw hp)
  have hp : (memorySafeHosts order).Perm (s.hostStatus.map (·.2)) := ho.map _
  obtain ⟨g1, g2⟩ := hs (fun a b => strLt a.hostPort b.hostPort) (memorySafeHosts order)
  have hperm := g1.trans hp
  have hkeys : (s.hostStatus.map (·.2)).map (·.hostPort) = s.hostStatus.keys := by
    unfold GoMap.keys
    rw [List.map_map]
    exact List.map_congr_left (fun p hp => (hstat p hp).host)
  have hpk := hkeys ▸ hperm.map HostStatus.hostPort
  refine ⟨?_, ?_, ?_⟩
  · have hsorted := g2 (fun a _ b _ hab => by
        rw [strLt_false_iff]
        have : ¬ (b.hostPort = a.hostPort ∨ Precedes b.hostPort a.hostPort) := by rw [← strLt_false_iff, hab]; simp
        by_cases e : a.hostPort = b.hostPort
        · exact .inl e
        · rcases strLe_total a.hostPort b.hostPort with h | h
          · exact .inr (precedes_of_strLe h e)
          · exact absurd (.inr (precedes_of_strLe h (Ne.symm e))) this)
      (fun a _ b _ c _ hba hcb => by
        rw [strLt_false_iff] at *
        rcases hba with h1 | h1 <;> rcases hcb with h2 | h2
        · exact .inl (h1.trans h2)
        · exact .inr (h1 ▸ h2)
        · exact .inr (h2 ▸ h1)
        · exact .inr (precedes_trans h1 h2))
    have hnd : ((sortHosts sortH (memorySafeHosts order)).map (·.hostPort)).Nodup := hpk.nodup_iff.2 hw
    have h3 : ((sortHosts sortH (memorySafeHosts order)).map (·.hostPort)).Pairwise (fun a b => a = b ∨ Precedes a b) := by
      rw [List.pairwise_map]
      exact hsorted.imp (fun h => (strLt_false_iff _ _).1 h)
    exact (h3.and hnd).imp (fun h => h.1.resolve_left h.2)
  · intro x
    rw [show x ∈ (sortHosts sortH (memorySafeHosts order)).map (·.hostPort) ↔ x ∈ s.hostStatus.keys from hpk.mem_iff]
    exact h1 x
  · intro x hx
    obtain ⟨p, hp1, rfl⟩ := List.mem_map.1 (hperm.mem_iff.1 hx)
    have := hstat p hp1
    rw [this.host]
    exact this

/-- a case that meets the hypotheses: hosts configured out of order and twice. -/
example : ∃ s, Runs sortAggs (init [bs "i", bs "h", bs "i"]) [] s ∧
    (sortHosts insertionSort (memorySafeHosts s.hostStatus)).map (·.hostPort) = [bs "h", bs "i"] := ⟨_, .nil, by decide +kernel⟩

/-! ## C56 -/

/-- C56: the status of the request's job, by ranges of the code. -/
theorem C56_status (code : Int) :
    (code < 400 → completionStatus code = .success) ∧ (code = 422 → completionStatus code = .validationError) ∧
    (400 ≤ code → code < 500 → code ≠ 422 → completionStatus code = .junk) ∧ (500 ≤ code → completionStatus code = .error) := by
  unfold completionStatus
  refine ⟨?_, ?_, ?_, ?_⟩ <;> intros <;> split_ifs <;> first | rfl | omega

/-- C56: which codes there are, and what is emitted for a request: for a known path an event, then a completion, both of the job named after the route. -/
theorem C56_emissions (c : Choices) (identifier : Str) (zone : Nat → Int → Int) (v : View) (sort limit path : Str) (nanos : Int) (e : Endpoint) :
    let r := respond c identifier zone v sort limit e
    (e ≠ .notFound → (r.code = 200 ∧ emissions path nanos e r = [(e.path, .event (bs "starting_request"), [(bs "path", path)]),
        (e.path, .complete .success nanos, [(bs "code", bs "200"), (bs "path", path)])]) ∨
      (r.code = 500 ∧ emissions path nanos e r = [(e.path, .event (bs "starting_request"), [(bs "path", path)]),
        (e.path, .complete .error nanos, [(bs "code", bs "500"), (bs "path", path)])])) ∧
    (e = .notFound → r.code = 404 ∧ emissions path nanos e r = []) := by
  have hcode : ∀ f v', (renderJson identifier v.intervalDuration f v').code = 200 ∨ (renderJson identifier v.intervalDuration f v').code = 500 := by
    intro f v'
    unfold renderJson
    split
    · exact .inr rfl
    · exact .inl rfl
  have h200 : intStr ((200 : Nat) : Int) = bs "200" := by decide +kernel
  have h500 : intStr ((500 : Nat) : Int) = bs "500" := by decide +kernel
  refine ⟨?_, ?_⟩
  · intro hne
    have hc : (respond c identifier zone v sort limit e).code = 200 ∨ (respond c identifier zone v sort limit e).code = 500 := by
      cases e with
      | notFound => exact absurd rfl hne
      | _ => exact hcode _ _
    generalize respond c identifier zone v sort limit e = r at hc
    rcases hc with hc | hc
    · refine .inl ⟨hc, ?_⟩
      cases e <;> first | exact absurd rfl hne | (simp only [emissions, hc, h200]; rfl)
    · refine .inr ⟨hc, ?_⟩
      cases e <;> first | exact absurd rfl hne | (simp only [emissions, hc, h500]; rfl)
  · rintro rfl
    exact ⟨rfl, rfl⟩

/-- cases: a request for the jobs of a healthd that has no data yet succeeds, one for an unknown path does not. -/
example (c : Choices) : (respond c (bs "id") (fun _ _ => 0) ⟨some [], some [], 60⟩ [] [] .jobs).code = 200 ∧
    (respond c (bs "id") (fun _ _ => 0) ⟨some [], some [], 60⟩ [] [] .notFound).code = 404 := ⟨rfl, rfl⟩
