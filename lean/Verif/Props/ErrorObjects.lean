import Verif.Model.ErrorObjects
import Verif.Spec.History
import Verif.Lemmas.Base
/-!
# Property C84: which errors are kept as samples, with error objects
-/
namespace ErrObj
open Spec

/-- the same failure: the same error, muted or not, from the same place. -/
def Same (objs : List Obj) (a b : Nat) : Prop :=
  ∃ x y, objs[a]? = some x ∧ objs[b]? = some y ∧ x.muted = y.muted ∧ x.err = y.err ∧ x.trace = y.trace

/-- `kept` are the errors among `got` (in the order they were received) that are left when some immediate repeats are dropped: an error is dropped only if it
is the same failure as the one kept last, and it is always dropped if it is the same object. -/
inductive Thinned (objs : List Obj) : List Nat → List Nat → Prop where
  | nil : Thinned objs [] []
  | keep {kept got : List Nat} {o : Nat} : Thinned objs kept got → kept.getLast? ≠ some o → Thinned objs (kept ++ [o]) (got ++ [o])
  | drop {kept got : List Nat} {l o : Nat} : Thinned objs kept got → kept.getLast? = some l → Same objs l o → Thinned objs kept (got ++ [o])

/-- as `Thinned`, and every immediate repeat of a failure is dropped. -/
inductive Distinct (objs : List Obj) : List Nat → List Nat → Prop where
  | nil : Distinct objs [] []
  | keep {kept got : List Nat} {o : Nat} : Distinct objs kept got → (∀ l, kept.getLast? = some l → ¬Same objs l o) → Distinct objs (kept ++ [o]) (got ++ [o])
  | drop {kept got : List Nat} {l o : Nat} : Distinct objs kept got → kept.getLast? = some l → Same objs l o → Distinct objs kept (got ++ [o])

/-- the ring holds the last five of `c`: the youngest at `idx`, the ones before it before it, cyclically. -/
structure RingOf (r : Counter) (c : List Nat) : Prop where
  len : r.samples.length = 5
  idx : r.idx = (c.length - 1) % 5
  recent : ∀ j, (h : j < c.length) → c.length ≤ j + 5 → r.samples[j % 5]? = some (some c[j])
  empty : ∀ i, i < 5 → c.length ≤ i → r.samples[i]? = some none

theorem RingOf.add {r : Counter} {c : List Nat} (h : RingOf r c) (objs : List Obj) (x : Nat) :
    RingOf (r.add objs x) (if ∃ l, c.getLast? = some l ∧ deepEqual objs l x = true then c else c ++ [x]) ∧ (r.add objs x).count = i64 (r.count + 1) := by
  obtain ⟨hlen, hidx, hrec, hemp⟩ := h
  by_cases hc : c = []
  · subst hc
    have h0 : r.samples[r.idx]? = some none := by rw [hidx]; exact hemp 0 (by omega) (by simp)
    unfold Counter.add
    simp only [h0, Option.join_some, List.getLast?_nil, reduceCtorEq, false_and, exists_false, if_false, List.nil_append, and_true]
    refine ⟨by simp [hlen], by simp [hidx], ?_, ?_⟩
    · intro j hj _
      simp at hj; subst hj
      have : r.idx = 0 := by simp [hidx]
      simp [this, hlen]
    · intro i hi hc
      simp at hc
      have : r.idx ≠ i := by simp [hidx]; omega
      simp only [List.getElem?_set]
      rw [if_neg this]
      exact hemp i hi (by simp)
  · have hpos : 0 < c.length := List.length_pos_iff.2 hc
    have h0 : r.samples[r.idx]? = some (some c[c.length - 1]) := by
      rw [hidx]; exact hrec (c.length - 1) (by omega) (by omega)
    have hlast : c.getLast? = some c[c.length - 1] := by
      rw [List.getLast?_eq_getElem?, List.getElem?_eq_getElem (by omega)]
    unfold Counter.add
    simp only [h0, Option.join_some, hlast, Option.some.injEq, exists_eq_left']
    by_cases hx : deepEqual objs c[c.length - 1] x = true
    · simp only [hx, Bool.true_eq_false, if_false, if_true, and_true]
      exact ⟨hlen, hidx, hrec, hemp⟩
    · simp only [Bool.not_eq_true] at hx
      simp only [hx, if_true, Bool.false_eq_true, if_false, and_true]
      have hi : (r.idx + 1) % r.samples.length = c.length % 5 := by rw [hidx, hlen]; omega
      refine ⟨by simp [hlen], by simp [hi], ?_, ?_⟩
      · intro j hj hj2
        simp only [List.length_append, List.length_cons, List.length_nil] at hj hj2
        simp only [hi, List.getElem?_set]
        by_cases hjc : j = c.length
        · subst hjc
          simp [hlen]
          omega
        · have hjlt : j < c.length := by omega
          rw [if_neg (by omega), hrec j hjlt (by omega)]
          simp [List.getElem_append_left hjlt]
      · intro i hi5 hci
        simp only [List.length_append, List.length_cons, List.length_nil] at hci
        simp only [hi, List.getElem?_set]
        rw [if_neg (by omega)]
        exact hemp i hi5 (by omega)

/-- the samples, read from the ring: the last five, up to a rotation, in order if there are no more. -/
theorem RingOf.samples {r : Counter} {c : List Nat} (h : RingOf r c) (o : Nat) : some o ∈ r.samples ↔ o ∈ lastN 5 c := by
  obtain ⟨hlen, hidx, hrec, hemp⟩ := h
  unfold lastN
  constructor
  · intro hm
    obtain ⟨i, hi, he⟩ := List.mem_iff_getElem.1 hm
    have he : r.samples[i]? = some (some o) := by rw [List.getElem?_eq_getElem hi, he]
    rw [hlen] at hi
    by_cases hci : c.length ≤ i
    · rw [hemp i hi hci] at he; simp at he
    · -- the j with j % 5 = i among the last five
      obtain ⟨j, h1, h2, h3⟩ : ∃ j, j < c.length ∧ c.length ≤ j + 5 ∧ j % 5 = i := by
        by_cases h5 : c.length ≤ 5
        · exact ⟨i, by omega, by omega, by omega⟩
        · refine ⟨c.length - 5 + (i + 5 - (c.length - 5) % 5) % 5, ?_, ?_, ?_⟩ <;> omega
      have := hrec j h1 h2
      rw [h3, he] at this
      rw [List.mem_iff_getElem]
      refine ⟨j - (c.length - 5), by simp; omega, ?_⟩
      simp only [Option.some.injEq] at this
      rw [List.getElem_drop, this]
      congr 1
      omega
  · intro hm
    obtain ⟨k, hk, he⟩ := List.mem_iff_getElem.1 hm
    simp only [List.length_drop] at hk
    rw [List.getElem_drop] at he
    have := hrec (c.length - 5 + k) (by omega) (by omega)
    rw [he] at this
    exact List.mem_iff_getElem?.2 ⟨_, this⟩

/-- contents that never change. -/
def fixed (x : Obj) : Bool × Str × Trace := (x.muted, x.err, x.trace)

theorem same_iff {objs : List Obj} {a b : Nat} :
    Same objs a b ↔ ∃ v, (objs.map fixed)[a]? = some v ∧ (objs.map fixed)[b]? = some v := by
  unfold Same fixed
  simp only [List.getElem?_map, Option.map_eq_some_iff]
  constructor
  · rintro ⟨x, y, hx, hy, h1, h2, h3⟩
    exact ⟨_, ⟨x, hx, rfl⟩, ⟨y, hy, by rw [h1, h2, h3]⟩⟩
  · rintro ⟨v, ⟨x, hx, rfl⟩, ⟨y, hy, h⟩⟩
    simp only [Prod.mk.injEq] at h
    exact ⟨x, y, hx, hy, h.1.symm, h.2.1.symm, h.2.2.symm⟩

theorem fixed_modify {objs : List Obj} {o : Nat} {f : Obj → Obj} (hf : ∀ x, fixed (f x) = fixed x) : (objs.modify o f).map fixed = objs.map fixed := by
  apply List.ext_getElem?
  intro i
  simp only [List.getElem?_map, List.getElem?_modify]
  by_cases h : o = i
  · simp only [h, if_true]
    cases objs[i]? <;> simp [hf]
  · simp only [h, if_false]
    cases objs[i]? <;> simp

/-- the objects keep their fixed contents, new ones are added at the end. -/
def Extends (objs objs' : List Obj) : Prop := ∃ l, objs'.map fixed = objs.map fixed ++ l

theorem step_extends {s s' : Sys} {l : Lab} (h : step s l = some s') : Extends s.objs s'.objs := by
  cases l with
  | mute e => cases h; exact ⟨_, List.map_append⟩
  | emitNew e t => cases h; exact ⟨_, List.map_append⟩
  | emitAgain o => simp only [step] at h; split at h <;> cases h; exact ⟨[], by simp⟩
  | mark o =>
    simp only [step] at h; split at h <;> cases h
    exact ⟨[], by rw [List.append_nil]; exact fixed_modify (fun x => by unfold fixed; split <;> rfl)⟩
  | frames o => cases h; exact ⟨[], by rw [List.append_nil]; exact fixed_modify (fun x => by unfold fixed; split <;> rfl)⟩
  | process => simp only [step] at h; split at h <;> cases h; exact ⟨[], by simp⟩

theorem Extends.same {objs objs' : List Obj} (h : Extends objs objs') {a b : Nat} (hs : Same objs a b) : Same objs' a b := by
  obtain ⟨l, hl⟩ := h
  obtain ⟨v, h1, h2⟩ := same_iff.1 hs
  refine same_iff.2 ⟨v, ?_, ?_⟩ <;> rw [hl] <;> rw [List.getElem?_append_left] <;> first | assumption | exact (List.getElem?_eq_some_iff.1 ‹_›).1

theorem Extends.same_old {objs objs' : List Obj} (h : Extends objs objs') {a b : Nat} (ha : a < objs.length) (hb : b < objs.length) (hs : Same objs' a b) : Same objs a b := by
  obtain ⟨l, hl⟩ := h
  obtain ⟨v, h1, h2⟩ := same_iff.1 hs
  rw [hl, List.getElem?_append_left (by simpa)] at h1 h2
  exact same_iff.2 ⟨v, h1, h2⟩

theorem Thinned.extend {objs objs' : List Obj} (h : Extends objs objs') {k g : List Nat} (ht : Thinned objs k g) : Thinned objs' k g := by
  induction ht with
  | nil => exact .nil
  | keep _ hne ih => exact .keep ih hne
  | drop _ hl hs ih => exact .drop ih hl (h.same hs)

/-- the emissions received by the aggregator. -/
def received (s : Sys) : List Lab → List Nat
  | [] => []
  | l :: t => (match l, s.chan with
    | .process, o :: _ => [o]
    | _, _ => []) ++ ((step s l).map (fun s' => received s' t)).getD []

structure Inv (s : Sys) (kept got : List Nat) : Prop where
  ring : RingOf s.counter kept
  count : s.counter.count = i64 got.length
  thinned : Thinned s.objs kept got
  known : ∀ o, o ∈ s.chan ∨ o ∈ s.pending ∨ o ∈ kept → o < s.objs.length

theorem init_inv : Inv init [] [] := by
  refine ⟨⟨rfl, rfl, fun j h => by simp at h, fun i hi _ => ?_⟩, rfl, .nil, by simp [init]⟩
  show (List.replicate 5 none)[i]? = some none
  rw [List.getElem?_replicate, if_pos hi]

theorem deepEqual_same {objs : List Obj} {a b : Nat} (ha : a < objs.length) (h : deepEqual objs a b = true) : Same objs a b := by
  unfold deepEqual at h
  simp only [decide_eq_true_eq] at h
  rcases h with rfl | h
  · exact ⟨_, _, List.getElem?_eq_getElem ha, List.getElem?_eq_getElem ha, rfl, rfl, rfl⟩
  · rw [List.getElem?_eq_getElem ha] at h
    exact ⟨_, _, List.getElem?_eq_getElem ha, h.symm, rfl, rfl, rfl⟩

def got1 (s : Sys) (l : Lab) : List Nat := match l, s.chan with
  | .process, o :: _ => [o]
  | _, _ => []

theorem length_setEmitted (objs : List Obj) (o : Nat) : (setEmitted objs o).length = objs.length := by simp [setEmitted]
theorem length_setFramed (objs : List Obj) (o : Nat) : (setFramed objs o).length = objs.length := by simp [setFramed]

open Classical in
/-- what is kept after the next step. -/
noncomputable def keptAfter (s : Sys) (l : Lab) (kept : List Nat) : List Nat := match l, s.chan with
  | .process, o :: _ => if ∃ x, kept.getLast? = some x ∧ deepEqual s.objs x o = true then kept else kept ++ [o]
  | _, _ => kept

theorem step_inv {s s' : Sys} {kept got : List Nat} (hI : Inv s kept got) {l : Lab} (h : step s l = some s') : Inv s' (keptAfter s l kept) (got ++ got1 s l) := by
  obtain ⟨hr, hc, ht, hk⟩ := hI
  have hx := step_extends h
  cases l with
  | mute e =>
    cases h
    refine ⟨hr, by simpa [got1] using hc, ?_, fun o ho => ?_⟩
    · show Thinned _ kept (got ++ []); rw [List.append_nil]; exact ht.extend hx
    · have := hk o ho
      simp only [List.length_append]; omega
  | emitNew e t =>
    cases h
    refine ⟨hr, by simpa [got1] using hc, ?_, fun o ho => ?_⟩
    · show Thinned _ kept (got ++ []); rw [List.append_nil]; exact ht.extend hx
    · simp only [List.length_append, List.length_singleton]
      simp only [List.mem_append, List.mem_singleton] at ho
      rcases ho with (ho | rfl) | (ho | rfl) | ho
      · have := hk o (.inl ho); omega
      · omega
      · have := hk o (.inr (.inl ho)); omega
      · omega
      · have := hk o (.inr (.inr ho)); omega
  | emitAgain o =>
    simp only [step] at h
    split at h <;> cases h
    next hlt =>
    refine ⟨hr, by simpa [got1] using hc, ?_, fun x hx' => ?_⟩
    · show Thinned _ kept (got ++ []); rw [List.append_nil]; exact ht.extend hx
    · simp only [List.mem_append, List.mem_singleton] at hx'
      rcases hx' with (ho | rfl) | (ho | rfl) | ho
      · exact hk x (.inl ho)
      · exact hlt
      · exact hk x (.inr (.inl ho))
      · exact hlt
      · exact hk x (.inr (.inr ho))
  | mark o =>
    simp only [step] at h
    split at h <;> cases h
    refine ⟨hr, by simpa [got1] using hc, ?_, fun x hx' => ?_⟩
    · show Thinned _ kept (got ++ []); rw [List.append_nil]; exact ht.extend hx
    · show x < (setEmitted _ _).length
      rw [length_setEmitted]
      rcases hx' with ho | ho | ho
      · exact hk x (.inl ho)
      · exact hk x (.inr (.inl (List.mem_of_mem_erase ho)))
      · exact hk x (.inr (.inr ho))
  | frames o =>
    cases h
    refine ⟨hr, by simpa [got1] using hc, ?_, fun x hx' => ?_⟩
    · show Thinned _ kept (got ++ []); rw [List.append_nil]; exact ht.extend hx
    · show x < (setFramed _ _).length
      rw [length_setFramed]
      exact hk x hx'
  | process =>
    simp only [step] at h
    split at h
    · cases h
    next o t hch =>
    cases h
    unfold keptAfter got1
    rw [hch]
    dsimp only
    obtain ⟨h1, h2⟩ := hr.add s.objs o
    refine ⟨by convert h1, by rw [h2, hc]; simp, ?_, fun x hx' => ?_⟩
    · split
      · next he =>
        obtain ⟨l, hl, hd⟩ := he
        exact .drop ht hl (deepEqual_same (hk l (.inr (.inr (List.mem_of_getLast? hl)))) hd)
      · next hne =>
        refine .keep ht (fun hl => hne ⟨o, hl, ?_⟩)
        simp [deepEqual]
    · rcases hx' with ho | ho | ho
      · exact hk x (.inl (by rw [hch]; simp [ho]))
      · exact hk x (.inr (.inl ho))
      · split at ho
        · exact hk x (.inr (.inr ho))
        · rcases List.mem_append.1 ho with ho | ho
          · exact hk x (.inr (.inr ho))
          · simp only [List.mem_singleton] at ho
            exact hk x (.inl (by rw [hch]; simp [ho]))

theorem received_cons (s s' : Sys) (l : Lab) (t : List Lab) (h : step s l = some s') : received s (l :: t) = got1 s l ++ received s' t := by
  show _ ++ ((step s l).map _).getD [] = _
  rw [h]; rfl

theorem run_inv {s s' : Sys} {l : List Lab} {kept got : List Nat} (hI : Inv s kept got) (h : run s l = some s') :
    ∃ kept', Inv s' kept' (got ++ received s l) := by
  induction l generalizing s kept got with
  | nil => cases h; exact ⟨kept, by simpa [received] using hI⟩
  | cons x t ih =>
    simp only [run, List.foldlM_cons] at h
    obtain ⟨s1, h1, h2⟩ := Option.bind_eq_some_iff.1 h
    obtain ⟨k, hk⟩ := ih (step_inv hI h1) h2
    exact ⟨k, by rw [received_cons s s1 x t h1, ← List.append_assoc]; exact hk⟩

/-- C84, partial: in every execution the samples are the last five of the errors received, when some immediate repeats are dropped: an error is dropped only if it
is the same failure as the one kept last; the same object is never kept twice in a row; and the count is exact.
Missing: that immediate repeats of a failure are always dropped, which is false (`C84_repeats_false`). -/
theorem C84_samples_partial {l : List Lab} {s : Sys} (h : run init l = some s) :
    ∃ kept, Thinned s.objs kept (received init l) ∧ (∀ o, some o ∈ s.counter.samples ↔ o ∈ lastN 5 kept) ∧ s.counter.count = i64 (received init l).length := by
  obtain ⟨k, hk⟩ := run_inv init_inv h
  rw [List.nil_append] at hk
  exact ⟨k, hk.thinned, hk.ring.samples, hk.count⟩

/-! ## If the calls are always faster than the aggregator -/

/-- the aggregator takes an emission only when every call has set its flag; nobody asks for frames. -/
def Settled (s : Sys) : List Lab → Prop
  | [] => True
  | l :: t => (l = .process → s.pending = []) ∧ (∀ o, l ≠ .frames o) ∧ ∀ s', step s l = some s' → Settled s' t

/-- what the fields say in such an execution. -/
structure Inv2 (s : Sys) (kept : List Nat) : Prop where
  /-- an emitted error is marked, or about to be -/
  marked : ∀ (o : Nat) (x : Obj), s.objs[o]? = some x → o ∈ s.chan ∨ o ∈ kept → x.muted = false → x.emitted = true ∨ o ∈ s.pending
  mutedTrace : ∀ (o : Nat) (x : Obj), s.objs[o]? = some x → x.framed = false ∧ (x.muted = true → x.emitted = false)

theorem keptAfter_sub (s : Sys) (l : Lab) (kept : List Nat) : ∀ x ∈ keptAfter s l kept, x ∈ kept ∨ x ∈ s.chan := by
  intro x hx
  unfold keptAfter at hx
  split at hx
  · next o t hch =>
    split at hx
    · exact .inl hx
    · rcases List.mem_append.1 hx with h | h
      · exact .inl h
      · exact .inr (by rw [hch]; simp at h; simp [h])
  · exact .inl hx

theorem step_inv2 {s s' : Sys} {kept got : List Nat} (hI : Inv s kept got) (h2 : Inv2 s kept) {l : Lab} (h : step s l = some s') (hf : ∀ o, l ≠ .frames o) :
    Inv2 s' (keptAfter s l kept) := by
  obtain ⟨hm, ht⟩ := h2
  have hlt : ∀ (o : Nat) (c : Obj), (s.objs ++ [c])[o]? = if o < s.objs.length then s.objs[o]? else if o = s.objs.length then some c else none := by
    intro o c
    by_cases h1 : o < s.objs.length
    · rw [if_pos h1, List.getElem?_append_left h1]
    · rw [if_neg h1, List.getElem?_append_right (by omega)]
      by_cases h2 : o = s.objs.length
      · simp [h2]
      · rw [if_neg h2, List.getElem?_eq_none (by simp; omega)]
  cases l with
  | mute e =>
    cases h
    refine ⟨fun o x hx ho hmu => ?_, fun o x hx => ?_⟩
    · have := hI.known o (ho.elim .inl (fun h => .inr (.inr h)))
      rw [hlt, if_pos this] at hx
      exact hm o x hx ho hmu
    · rw [hlt] at hx
      split at hx
      · exact ht o x hx
      · split at hx <;> cases hx
        simp
  | emitNew e t =>
    cases h
    refine ⟨fun o x hx ho hmu => ?_, fun o x hx => ?_⟩
    · rw [hlt] at hx
      simp only [List.mem_append, List.mem_singleton] at ho ⊢
      split at hx
      · next hlt =>
        rcases ho with (ho | ho) | ho
        · exact (hm o x hx (.inl ho) hmu).imp_right .inl
        · omega
        · exact (hm o x hx (.inr ho) hmu).imp_right .inl
      · split at hx
        · next he => exact .inr (.inr he)
        · cases hx
    · rw [hlt] at hx
      split at hx
      · exact ht o x hx
      · split at hx <;> cases hx
        simp
  | emitAgain o =>
    simp only [step] at h
    split at h <;> cases h
    refine ⟨fun o' x hx ho hmu => ?_, ht⟩
    simp only [List.mem_append, List.mem_singleton] at ho ⊢
    rcases ho with (ho | ho) | ho
    · exact (hm o' x hx (.inl ho) hmu).imp_right .inl
    · exact .inr (.inr ho)
    · exact (hm o' x hx (.inr ho) hmu).imp_right .inl
  | mark o =>
    simp only [step] at h
    split at h <;> cases h
    have hget : ∀ i, (setEmitted s.objs o)[i]? = (s.objs[i]?).map (fun x => if o = i ∧ x.muted = false then { x with emitted := true } else x) := by
      intro i
      unfold setEmitted
      rw [List.getElem?_modify]
      by_cases hi : o = i
      · simp only [hi, if_true, true_and]
        cases s.objs[i]? with
        | none => rfl
        | some x => cases hx : x.muted <;> simp [hx]
      · simp only [hi, if_false, false_and]
        cases s.objs[i]? <;> simp
    refine ⟨fun o' x hx ho hmu => ?_, fun o' x hx => ?_⟩
    · simp only [hget, Option.map_eq_some_iff] at hx
      obtain ⟨y, hy, hxy⟩ := hx
      by_cases ho' : o = o'
      · left
        split at hxy
        · rw [← hxy]
        · next hne =>
          subst hxy
          exact absurd ⟨ho', hmu⟩ hne
      · rw [if_neg (by tauto)] at hxy
        subst hxy
        refine (hm o' y hy ho hmu).imp_right (fun hp => ?_)
        exact (List.mem_erase_of_ne (fun h => ho' h.symm)).2 hp
    · simp only [hget, Option.map_eq_some_iff] at hx
      obtain ⟨y, hy, hxy⟩ := hx
      have := ht o' y hy
      split at hxy
      · next he => subst hxy; exact ⟨this.1, fun hmu => by rw [show y.muted = true from hmu] at he; simp at he⟩
      · subst hxy; exact this
  | frames o => exact absurd rfl (hf o)
  | process =>
    have hsub := keptAfter_sub s .process kept
    simp only [step] at h
    split at h
    · cases h
    next o t hch =>
    cases h
    refine ⟨fun o' x hx ho hmu => hm o' x hx ?_ hmu, ht⟩
    rcases ho with ho | ho
    · exact .inl (by rw [hch]; simp [show o' ∈ t from ho])
    · exact (hsub o' ho).symm

theorem Distinct.extend {objs objs' : List Obj} (h : Extends objs objs') {k g : List Nat} (hk : ∀ o ∈ g, o < objs.length)
    (ht : Distinct objs k g) : Distinct objs' k g := by
  have : ∀ {k g}, Distinct objs k g → (∀ o ∈ g, o < objs.length) → (∀ o ∈ k, o ∈ g) ∧ Distinct objs' k g := by
    intro k g ht
    induction ht with
    | nil => exact fun _ => ⟨by simp, .nil⟩
    | @keep k g o _ hne ih =>
      intro hg
      obtain ⟨h1, h2⟩ := ih (fun o ho => hg o (by simp [ho]))
      refine ⟨fun x hx => ?_, .keep h2 (fun l hl hs => hne l hl (h.same_old (hg l ?_) (hg o (by simp)) hs))⟩
      · simp only [List.mem_append, List.mem_singleton] at hx ⊢
        exact hx.imp_left (h1 x)
      · simp [h1 l (List.mem_of_getLast? hl)]
    | drop _ hl hs ih =>
      intro hg
      obtain ⟨h1, h2⟩ := ih (fun o ho => hg o (by simp [ho]))
      exact ⟨fun x hx => by simp [h1 x hx], .drop h2 hl (h.same hs)⟩
  exact (this ht hk).2

structure Inv3 (s : Sys) (kept got : List Nat) : Prop extends Inv s kept got, Inv2 s kept where
  distinct : Distinct s.objs kept got
  gotKnown : ∀ o ∈ got, o < s.objs.length
  keptGot : ∀ o ∈ kept, o ∈ got

theorem length_le_of_extends {a b : List Obj} (h : Extends a b) : a.length ≤ b.length := by
  obtain ⟨l, hl⟩ := h
  have := congrArg List.length hl
  simp at this
  omega

theorem step_inv3 {s s' : Sys} {kept got : List Nat} (hI : Inv3 s kept got) {l : Lab} (h : step s l = some s') (hf : ∀ o, l ≠ .frames o)
    (hp : l = .process → s.pending = []) : Inv3 s' (keptAfter s l kept) (got ++ got1 s l) := by
  obtain ⟨h1, h2, h3, h4, h5⟩ := hI
  have hx := step_extends h
  have hlen := length_le_of_extends hx
  refine ⟨step_inv h1 h, step_inv2 h1 h2 h hf, ?_, fun o ho => ?_, fun o ho => ?_⟩
  · cases l with
    | process =>
      simp only [step] at h
      split at h
      · cases h
      next o t hch =>
      cases h
      unfold keptAfter got1
      rw [hch]
      dsimp only
      split
      · next he =>
        obtain ⟨l, hl, hd⟩ := he
        exact .drop h3 hl (deepEqual_same (h1.known l (.inr (.inr (List.mem_of_getLast? hl)))) hd)
      · next hne =>
        refine .keep h3 (fun l hl hs => hne ⟨l, hl, ?_⟩)
        obtain ⟨x, y, hx, hy, e1, e2, e3⟩ := hs
        have hpe := hp rfl
        have f1 := h2.mutedTrace l x hx
        have f2 := h2.mutedTrace o y hy
        have g1 := h2.marked l x hx (.inr (List.mem_of_getLast? hl))
        have g2 := h2.marked o y hy (.inl (by rw [hch]; simp))
        rw [hpe] at g1 g2
        unfold deepEqual
        simp only [decide_eq_true_eq]
        right
        rw [hx, hy, Option.some.injEq]
        have hem : x.emitted = y.emitted := by
          cases hm : x.muted
          · rw [(g1 hm).resolve_right (by simp), (g2 (by rw [← e1, hm])).resolve_right (by simp)]
          · rw [f1.2 hm, f2.2 (by rw [← e1, hm])]
        obtain ⟨a, b, c, d, e⟩ := x
        obtain ⟨a', b', c', d', e'⟩ := y
        simp only at e1 e2 e3 hem f1 f2
        rw [e1, e2, e3, hem, f1.1, f2.1]
    | mute e => simpa [keptAfter, got1] using Distinct.extend hx h4 h3
    | emitNew e t => simpa [keptAfter, got1] using Distinct.extend hx h4 h3
    | emitAgain e => simpa [keptAfter, got1] using Distinct.extend hx h4 h3
    | mark e => simpa [keptAfter, got1] using Distinct.extend hx h4 h3
    | frames e => exact absurd rfl (hf e)
  · rcases List.mem_append.1 ho with ho | ho
    · exact Nat.lt_of_lt_of_le (h4 o ho) hlen
    · refine Nat.lt_of_lt_of_le (h1.known o (.inl ?_)) hlen
      unfold got1 at ho
      split at ho
      · simp_all
      · simp at ho
  · unfold keptAfter at ho
    unfold got1
    split at ho
    · next o' t hch =>
      split at ho
      · simp [h5 o ho]
      · rcases List.mem_append.1 ho with ho | ho
        · simp [h5 o ho]
        · simp only [List.mem_singleton] at ho
          simp [ho]
    · simp [h5 o ho]

/-- C84, partial: if the aggregator is never faster than the calls of `EventErr` (each has returned before its error is looked at) and no other sink asks for
frames, then every immediate repeat of a failure is dropped, as C13 has it. -/
theorem C84_settled_partial {l : List Lab} {s : Sys} (h : run init l = some s) (hs : Settled init l) :
    ∃ kept, Distinct s.objs kept (received init l) ∧ (∀ o, some o ∈ s.counter.samples ↔ o ∈ lastN 5 kept) ∧ s.counter.count = i64 (received init l).length := by
  have : ∀ (l : List Lab) (s0 : Sys) (kept got : List Nat), Inv3 s0 kept got → run s0 l = some s → Settled s0 l →
      ∃ kept', Inv3 s kept' (got ++ received s0 l) := by
    intro l
    induction l with
    | nil => intro s0 k g hI h _; cases h; exact ⟨k, by simpa [received] using hI⟩
    | cons x t ih =>
      intro s0 k g hI h hs
      simp only [run, List.foldlM_cons] at h
      obtain ⟨s1, h1, h2⟩ := Option.bind_eq_some_iff.1 h
      obtain ⟨hs1, hs2, hs3⟩ := hs
      obtain ⟨k', hk⟩ := ih s1 _ _ (step_inv3 hI h1 hs2 hs1) h2 (hs3 s1 h1)
      exact ⟨k', by rw [received_cons s0 s1 x t h1, ← List.append_assoc]; exact hk⟩
  obtain ⟨k, hk⟩ := this l init [] [] ⟨init_inv, ⟨by simp [init], by simp [init]⟩, .nil, by simp, by simp⟩ h hs
  rw [List.nil_append] at hk
  exact ⟨k, hk.distinct, hk.ring.samples, hk.count⟩

/-- C84 is false, and the samples depend on who is faster: a program emits the same failure three times.  In the first execution the aggregator is slow and keeps one
sample; in the second one it is fast and keeps three. -/
theorem C84_repeats_false : ∃ (a b : List Lab) (s t : Sys), a.filter (· ≠ .process) = b.filter (· ≠ .process) ∧ run init a = some s ∧ run init b = some t ∧
    received init a = received init b ∧ (∀ x ∈ received init a, ∀ y ∈ received init a, Same s.objs x y) ∧ samples s = [0] ∧ samples t = [0, 1, 2] := by
  refine ⟨[.emitNew (bs "boom") [7], .mark 0, .emitNew (bs "boom") [7], .mark 1, .emitNew (bs "boom") [7], .mark 2, .process, .process, .process],
    [.emitNew (bs "boom") [7], .process, .mark 0, .emitNew (bs "boom") [7], .process, .mark 1, .emitNew (bs "boom") [7], .process, .mark 2], _, _,
    by decide +kernel, rfl, rfl, by decide +kernel, ?_, by decide +kernel, by decide +kernel⟩
  have : received init [.emitNew (bs "boom") [7], .mark 0, .emitNew (bs "boom") [7], .mark 1, .emitNew (bs "boom") [7], .mark 2, .process, .process, .process] = [0, 1, 2] := by
    decide +kernel
  rw [this]
  intro x hx y hy
  simp only [List.mem_cons, List.not_mem_nil, or_false] at hx hy
  rcases hx with rfl | rfl | rfl <;> rcases hy with rfl | rfl | rfl <;> exact ⟨_, _, rfl, rfl, rfl, rfl, rfl⟩

/-- C84: and the two goroutines race: there is an execution after which the aggregator's next step compares an error object while a call is about to write to it. -/
theorem C84_race_false : ∃ (l : List Lab) (s s' t' : Sys) (o last : Nat), run init l = some s ∧ s.chan.head? = some o ∧
    (s.counter.samples[s.counter.idx]?).join = some last ∧ last ≠ o ∧ step s .process = some s' ∧ step s (.mark o) = some t' ∧ t'.objs[o]? ≠ s.objs[o]? := by
  refine ⟨[.emitNew (bs "boom") [7], .mark 0, .process, .emitNew (bs "boom") [7]],
    ⟨[⟨false, bs "boom", [7], false, true⟩, ⟨false, bs "boom", [7], false, false⟩], [1], ⟨1, [some 0, none, none, none, none], 0⟩, [1]⟩,
    ⟨[⟨false, bs "boom", [7], false, true⟩, ⟨false, bs "boom", [7], false, false⟩], [], ⟨2, [some 0, some 1, none, none, none], 1⟩, [1]⟩,
    ⟨[⟨false, bs "boom", [7], false, true⟩, ⟨false, bs "boom", [7], false, true⟩], [1], ⟨1, [some 0, none, none, none, none], 0⟩, []⟩, 1, 0, ?_⟩
  decide +kernel

/-- a settled execution: two failures, one of them twice, one muted error twice. -/
example : let l : List Lab := [.mute (bs "m"), .emitNew (bs "boom") [7], .mark 1, .emitNew (bs "boom") [7], .mark 2, .process, .process, .emitAgain 0, .mark 0, .emitAgain 0, .mark 0, .process, .process]
    (run init l).map (fun s => (samples s, s.counter.count)) = some ([1, 0], 4) ∧ received init l = [1, 2, 0, 0] := by decide +kernel
example : Settled init [.emitNew (bs "boom") [7], .mark 0, .process] := by
  refine ⟨by simp, by simp, fun s1 h1 => ⟨by simp, by simp, fun s2 h2 => ⟨fun _ => ?_, by simp, fun s3 _ => trivial⟩⟩⟩
  cases h1
  cases h2
  rfl

end ErrObj
