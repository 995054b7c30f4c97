import Verif.Props.LivenessRounds
import Verif.Props.WatchGrows
/-!
# What a process answered is shown, eventually (C122)
-/
namespace Spec
open Healthd Watch

/-- healthd and the processes it watches, without end. -/
structure WatchExec (sort : List IntAgg → List IntAgg) (lo : Int → Int) (d : Int) (P : List Proc) (clock : Int) (hostPorts : List Str) where
  st : Nat → Watch.Sys
  lab : Nat → Option Item
  start : st 0 = Watch.start clock hostPorts
  rest : ∀ n, lab n = none → st (n + 1) = st n
  next : ∀ n x, lab n = some x → Step sort lo d P (st n) x (st (n + 1))

end Spec

namespace Watch
open Spec Healthd EndToEnd

/-- the addresses that healthd polls. -/
def keys (hostPorts : List Str) : List Str := (Healthd.init hostPorts).hostStatus.map (·.1)

section
variable {sort : List IntAgg → List IntAgg} {lo : Int → Int} {d : Int} {P : List Proc} {clock : Int} {hostPorts : List Str}

theorem Step.loop {s s' : Sys} {x : Item} (h : Step sort lo d P s x s') :
    ((∀ l, x ≠ .go l) ∧ s'.loop = s.loop) ∨ ∃ l, x = .go l ∧ Rounds.step s.loop l = some s'.loop := by
  cases h with
  | act => exact .inl ⟨by simp, rfl⟩
  | serve => exact .inl ⟨by simp, rfl⟩
  | deliver h => exact .inr ⟨_, rfl, h⟩
  | finish h => exact .inr ⟨_, rfl, h⟩
  | tick h => exact .inr ⟨_, rfl, h⟩
  | consume _ h => exact .inr ⟨_, rfl, h⟩
  | recalculate _ h => exact .inr ⟨_, rfl, h⟩
  | quiet _ h => exact .inr ⟨_, rfl, h⟩

/-- the steps of healthd's goroutines. -/
def _root_.Spec.WatchExec.loop (X : WatchExec sort lo d P clock hostPorts) : Exec Rounds.step (Rounds.init clock (keys hostPorts)) where
  st n := (X.st n).loop
  lab n := match X.lab n with
    | some (.go l) => some l
    | _ => none
  start := by rw [X.start]; rfl
  rest n hn := by
    cases hl : X.lab n with
    | none => rw [X.rest n hl]
    | some x =>
      rcases (X.next n x hl).loop with ⟨_, h⟩ | ⟨l, rfl, _⟩
      · exact h
      · rw [hl] at hn; cases hn
  next n l hn := by
    cases hl : X.lab n with
    | none => rw [hl] at hn; cases hn
    | some x =>
      rcases (X.next n x hl).loop with ⟨h, _⟩ | ⟨l', rfl, h⟩
      · rw [hl] at hn; cases x <;> simp_all
      · rw [hl] at hn; cases hn; exact h

variable {X : WatchExec sort lo d P clock hostPorts}

theorem live_reach (n : Nat) : Reach sort lo d P hostPorts (X.st n) := by
  induction n with
  | zero => rw [X.start]; exact .start clock
  | succ n ih =>
    cases hl : X.lab n with
    | none => rw [X.rest n hl]; exact ih
    | some x => exact ih.step (X.next n x hl)

theorem live_leads {n m : Nat} (h : n ≤ m) : Leads sort lo d P (X.st n) (X.st m) := by
  induction m, h using Nat.le_induction with
  | base => exact .refl
  | succ m _ ih =>
    cases hl : X.lab m with
    | none => rw [X.rest m hl]; exact ih
    | some x => exact .step ih (X.next m x hl)

/-- what was sent stays in the channel until it is received. -/
theorem Step.log {s s' : Sys} {x : Item} (h : Step sort lo d P s x s') : (s.taken ++ s.chan) <+: (s'.taken ++ s'.chan) := by
  cases h with
  | act => exact List.prefix_rfl
  | serve => exact List.prefix_rfl
  | deliver => exact ⟨_, List.append_assoc ..⟩
  | finish => exact ⟨_, List.append_assoc ..⟩
  | tick => exact List.prefix_rfl
  | consume h => simp only; rw [h]; simp
  | recalculate h =>
    cases h with
    | allIn h => simp only; rw [h]; simp
    | fire => exact List.prefix_rfl
  | quiet => exact List.prefix_rfl

theorem live_log {n m : Nat} (h : n ≤ m) : ((X.st n).taken ++ (X.st n).chan) <+: ((X.st m).taken ++ (X.st m).chan) := by
  induction m, h using Nat.le_induction with
  | base => exact List.prefix_rfl
  | succ m _ ih =>
    cases hl : X.lab m with
    | none => rw [X.rest m hl]; exact ih
    | some x => exact ih.trans (X.next m x hl).log

/-- a round in which something is still in the channel comes to its end. -/
theorem ends (F : RoundsFair X.loop) (ns : ∀ n, ¬ HdLoop.Stuck (X.st n).loop.rest) (hns : ∀ n, X.lab n ≠ some (.go (.other .stop)))
    {n r : Nat} {z : PollResponse × Option Origin} (hm : (r, some z) ∈ (X.st n).chan) :
    ∃ m, n ≤ m ∧ X.lab m = some (.go .allIn) ∧ (X.st (m + 1)).taken = (X.st m).taken ++ [(r, none)] ∧ (r, some z) ∈ (X.st m).taken := by
  have hkey : ∀ m, ((r, none) : Rounds.Msg) ∈ (X.st m).loop.taken ↔ ((r, none) : Msg) ∈ (X.st m).taken := by
    intro m
    rw [(live_reach m).inv.taken]
    constructor
    · intro h
      obtain ⟨⟨a, b⟩, h1, h2⟩ := List.mem_map.1 h
      cases b with
      | none => cases h2; exact h1
      | some b => cases h2
    · intro h; exact List.mem_map.2 ⟨_, h, rfl⟩
  -- the nil of the round comes after its responses
  have hlast : ∀ m u v, (X.st m).taken ++ (X.st m).chan = u ++ ((r, none) : Msg) :: v → (r, some z) ∉ v := by
    intro m u v e hv
    have h1 : (X.st m).loop.log = u.map key ++ ((r, none) : Rounds.Msg) :: v.map key := by
      unfold Rounds.Sys.log
      rw [(live_reach m).inv.taken, (live_reach m).inv.chan, ← List.map_append, e]; simp [key]
    exact (live_reach m).inv.rounds.last _ _ _ h1 _ (List.mem_map_of_mem hv) rfl
  have h0 : ((r, none) : Msg) ∉ (X.st n).taken := by
    intro h
    obtain ⟨u, v, e⟩ := List.append_of_mem h
    exact hlast n u (v ++ (X.st n).chan) (by rw [e]; simp) (List.mem_append_right _ hm)
  have hr : r < (X.st n).loop.rounds.length := (live_reach n).inv.rounds.known (key (r, some z)) (by
    unfold Rounds.Sys.log
    rw [(live_reach n).inv.chan]
    exact List.mem_append_right _ (List.mem_map_of_mem hm))
  obtain ⟨k, hk, h1, _⟩ := Rounds.C122_ends X.loop F ns (fun m h => hns m (by
    simp only [WatchExec.loop] at h
    split at h
    · next e => cases h; exact e
    · cases h)) n r hr
  have h1 : ((r, none) : Msg) ∈ (X.st k).taken := (hkey k).1 h1
  -- the step that receives it
  obtain ⟨m, hnm, hm0, hm1⟩ : ∃ m, n ≤ m ∧ ((r, none) : Msg) ∉ (X.st m).taken ∧ ((r, none) : Msg) ∈ (X.st (m + 1)).taken := by
    by_contra hno
    have : ∀ m, n ≤ m → ((r, none) : Msg) ∉ (X.st m).taken := by
      intro m hm
      induction m, hm using Nat.le_induction with
      | base => exact h0
      | succ m hm ih => exact fun h => hno ⟨m, hm, ih, h⟩
    exact this k hk h1
  have hlog := (live_log (X := X) hnm).subset (List.mem_append_right _ hm)
  cases hl : X.lab m with
  | none => rw [X.rest m hl] at hm1; exact absurd hm1 hm0
  | some x =>
    have hs := X.next m x hl
    generalize hs' : X.st (m + 1) = s' at hs hm1
    cases hs with
    | consume h =>
      rw [List.mem_append] at hm1
      rcases hm1 with hm1 | hm1
      · exact absurd hm1 hm0
      · simp at hm1
    | recalculate h =>
      cases h with
      | allIn h =>
        rw [List.mem_append] at hm1
        rcases hm1 with hm1 | hm1
        · exact absurd hm1 hm0
        · simp only [List.mem_singleton, Prod.mk.injEq, and_true] at hm1
          subst hm1
          refine ⟨m, hnm, hl, by rw [hs'], ?_⟩
          rcases List.mem_append.1 hlog with h2 | h2
          · exact h2
          · rw [h] at h2
            rcases List.mem_cons.1 h2 with h2 | h2
            · cases h2
            · exact absurd h2 (hlast m _ _ (by rw [h]))
      | fire => exact absurd hm1 hm0
    | _ => exact absurd hm1 hm0

end

/-- **C122**: what a process had emitted when it made an answer that got through is shown: the round comes to its end, and from then on, whenever healthd
recalculates, the numbers that it shows for an interval (that no purge has removed) count at least what the process had emitted in it (provided no poll outlasts the
time between two rounds, and of every process healthd received an answer that still had the interval and all this in it). -/
theorem C122_shown {sort : List IntAgg → List IntAgg} (hsort : SortsByStart sort) {lo : Int → Int} {d : Int} {P : List Proc} {clock : Int} {hostPorts : List Str}
    (X : WatchExec sort lo d P clock hostPorts) (F : RoundsFair X.loop) (ns : ∀ n, ¬ HdLoop.Stuck (X.st n).loop.rest)
    (hns : ∀ n, X.lab n ≠ some (.go (.other .stop))) (hin : ∀ n, InTime hostPorts (X.st n).past) (hok : ∀ n, Ordinary d P (X.st n).past)
    {n r : Nat} {x : PollResponse} {o : Origin} (hm : (r, some (x, some o)) ∈ (X.st n).chan) :
    ∃ m, n ≤ m ∧ X.lab m = some (.go .allIn) ∧ (X.st (m + 1)).taken = (X.st m).taken ++ [(r, none)] ∧
      ∀ k, m ≤ k → X.lab k = some (.go .allIn) ∨ X.lab k = some (.go (.other .fire)) → ∀ t : Time, NeverStale d (events d (X.st k).done) t →
        (∀ i p, P[i]? = some p → ∀ y ∈ histOf i (X.st k).past, zoneId lo t.ns (p.zone y.1.loc t.ns) = some t.loc) →
        (∀ i p, P[i]? = some p → Held d t.ns p i (X.st k).taken) →
        ((List.range P.length).flatMap (fun i => madeIn d t.ns (histOf i (X.st k).past))).length < 2 ^ 63 →
        madeIn d t.ns o.hist ≠ [] →
        (∀ a ∈ (X.st (k + 1)).data.intervalAggregations, a.start = t → ∀ c, Counts c → ∀ v, expected c (madeIn d t.ns o.hist) = some v →
          ∃ v', value a c = some v' ∧ v ≤ v') ∧
        ((∃ a ∈ (X.st (k + 1)).data.intervalAggregations, a.start = t) ∨
          (((X.st (k + 1)).data.intervalAggregations.length : Int) = 7200000000000 / d ∧ ∀ a ∈ (X.st (k + 1)).data.intervalAggregations, t.ns ≤ a.start.ns)) := by
  obtain ⟨m, hnm, hl, h1, h2⟩ := ends F ns hns hm
  refine ⟨m, hnm, hl, h1, ?_⟩
  intro k hk hlk t hn hz hr hlen hne
  have hmk : (r, some (x, some o)) ∈ (X.st k).taken := (live_leads (X := X) hk).grows.2.1.subset h2
  have hreach := live_reach (X := X) k
  have hpre := seen_all hreach (hin k) hmk
  have hoi : o.i < P.length := by
    obtain ⟨p, hp, _⟩ := (hreach.inv.made _ (List.mem_append_left _ hmk) x (some o) rfl).proc
    exact (List.getElem?_eq_some_iff.1 hp).1
  have hsub : (madeIn d t.ns o.hist).Sublist ((List.range P.length).flatMap (fun i => madeIn d t.ns (seen i (X.st k).taken))) := by
    refine List.Sublist.trans (l₂ := madeIn d t.ns (seen o.i (X.st k).taken)) ?_ (List.sublist_flatten_of_mem (List.mem_map.2 ⟨o.i, List.mem_range.2 hoi, rfl⟩))
    obtain ⟨c, hc⟩ := hpre
    rw [← hc, List.append_assoc, madeIn_append]
    exact List.sublist_append_left ..
  have hle : ((List.range P.length).flatMap (fun i => madeIn d t.ns (seen i (X.st k).taken))).length < 2 ^ 63 := by
    refine Nat.lt_of_le_of_lt (List.Sublist.length_le ?_) hlen
    generalize List.range P.length = l
    induction l with
    | nil => simp
    | cons i l ih =>
      rw [List.flatMap_cons, List.flatMap_cons]
      refine List.Sublist.append ?_ ih
      obtain ⟨c, hc⟩ := seen_past hreach i
      rw [← hc, madeIn_append]
      exact List.sublist_append_left ..
  have key : ∀ ks entries, (Op.recalculate ks entries).Valid (X.st k).data → Healthd.step sort (X.st k).data (.recalculate ks entries) = some (X.st (k + 1)).data → _ := fun ks entries hv hs =>
    C109_shown hsort hreach (hin k) (hok k) hv hs hn hz hr
  have hs : ∃ ks entries, (Op.recalculate ks entries).Valid (X.st k).data ∧ Healthd.step sort (X.st k).data (.recalculate ks entries) = some (X.st (k + 1)).data := by
    have : ∃ l, X.lab k = some (.go l) ∧ (l = .allIn ∨ l = .other .fire) := by
      rcases hlk with h | h
      · exact ⟨_, h, .inl rfl⟩
      · exact ⟨_, h, .inr rfl⟩
    obtain ⟨l, h, hl⟩ := this
    have hs := X.next k _ h
    generalize X.st (k + 1) = s' at hs
    cases hs with
    | recalculate _ _ hv hd => exact ⟨_, _, hv, hd⟩
    | quiet hq => rcases hl with rfl | rfl <;> cases hq
    | _ => simp at hl
  obtain ⟨ks, entries, hv, hs⟩ := hs
  obtain ⟨g1, g2⟩ := key ks entries hv hs
  refine ⟨?_, g2 (fun h => hne (List.sublist_nil.1 (h ▸ hsub)))⟩
  intro a ha hat c hc v hv'
  rw [(g1 a ha hat).1 c]
  exact expected_grows hsub (onlyGrows_counts hc hle) hv'

end Watch
