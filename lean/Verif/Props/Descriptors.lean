import Verif.Model.Descriptors
import Verif.Props.RuntimeMetrics
/-!
# Property C120: the number of file descriptors in use
-/
namespace Spec.Fds
open Descriptors

/-- the rest of the program opens and closes nothing meanwhile. -/
structure Quiet (m : Moment) : Prop where
  during : m.during = m.before
  later : ∀ n, m.later n = true ↔ n ∈ m.before

/-- the descriptor of the directory is not one of the rest of the program while it is open. -/
def Apart (m : Moment) : Prop := m.dir ∉ m.during

end Spec.Fds

namespace Descriptors
open Spec Spec.Fds

theorem lowestFree_free {used : List Nat} : lowestFree used ∉ used := by
  have hex : ∃ n ∈ List.range (used.length + 1), n ∉ used := by
    by_contra hc
    push Not at hc
    have h1 : (List.range (used.length + 1)).Subperm used := List.subperm_of_subset List.nodup_range hc
    have := h1.length_le
    simp at this
  obtain ⟨n, hn, hf⟩ := hex
  unfold lowestFree
  cases h : (List.range (used.length + 1)).find? (fun n => !used.contains n) with
  | none =>
    have := List.find?_eq_none.1 h n hn
    simp [hf] at this
  | some x =>
    have := List.find?_some h
    simpa using this

/-- open(2) gives the lowest free number. -/
theorem lowestFree_least {used : List Nat} {n : Nat} (h : n < lowestFree used) : n ∈ used := by
  by_contra hc
  unfold lowestFree at h
  cases hf : (List.range (used.length + 1)).find? (fun n => !used.contains n) with
  | none =>
    rw [hf] at h
    have := List.find?_eq_none.1 hf n (by simp at h ⊢; omega)
    simp [hc] at this
  | some x =>
    rw [hf] at h
    obtain ⟨_, as, bs', e, hall⟩ := List.find?_eq_some_iff_append.1 hf
    have hx : x < used.length + 1 := by
      have : x ∈ List.range (used.length + 1) := by rw [e]; simp
      simpa using this
    have hnx : n < x := h
    have hmem : n ∈ as := by
      have hp : (as ++ x :: bs').Pairwise (· < ·) := e ▸ List.pairwise_lt_range
      have : n ∈ as ++ x :: bs' := by rw [← e]; simp; omega
      rcases List.mem_append.1 this with h | h
      · exact h
      · rcases List.mem_cons.1 h with h | h
        · omega
        · have := (List.pairwise_cons.1 (List.pairwise_append.1 hp).2.1).1 n h
          omega
    have := hall n hmem
    simp [hc] at this

/-- **C120** (`_partial`: not the number in use but one more, and only with the older `ioutil.ReadDir`): when the rest of the program leaves its descriptors
alone and the limit is not reached, the gauge is the number of descriptors in use plus one, for the directory itself. -/
theorem C120_early_partial {m : Moment} (hq : Quiet m) (hl : m.before.length < m.limit) : getFDUsage .early m = some (m.before.length + 1) := by
  unfold getFDUsage
  rw [if_neg (by omega), hq.during, List.filter_eq_self.2]
  · simp
  · intro n hn
    rcases List.mem_append.1 hn with h | h
    · simp [(hq.later n).2 h]
    · simp [List.mem_singleton.1 h]

/-- **C120**: with the newer one nothing is ever reported when the rest of the program leaves its descriptors alone. -/
theorem C120_late_quiet {m : Moment} (hq : Quiet m) : getFDUsage .late m = none := by
  simp only [getFDUsage]
  split
  · rfl
  · rw [if_neg]
    intro h
    have := List.all_eq_true.1 h m.dir (by simp)
    exact lowestFree_free ((hq.later _).1 this)

/-- **C120**: exactly when the newer one reports: the limit was not reached, none of the descriptors listed has been closed, and the number of the directory has
been taken by someone else at once; and what is reported is one more than were in use. -/
theorem C120_late_iff {m : Moment} {n : Nat} : getFDUsage .late m = some n ↔
    m.before.length < m.limit ∧ (∀ k ∈ m.during, m.later k = true) ∧ m.later m.dir = true ∧ n = m.during.length + 1 := by
  simp only [getFDUsage]
  constructor
  · intro h
    split at h
    · cases h
    · rename_i hl
      split at h
      · rename_i ha
        have ha := List.all_eq_true.1 ha
        refine ⟨by omega, fun k hk => ha k (by simp [hk]), ha _ (by simp), ?_⟩
        have := Option.some.inj h
        simpa using this.symm
      · cases h
  · rintro ⟨a, b, c, rfl⟩
    rw [if_neg (by omega), if_pos]
    · simp
    · rw [List.all_eq_true]
      intro k hk
      rcases List.mem_append.1 hk with h | h
      · exact b k h
      · rw [List.mem_singleton.1 h]; exact c

/-- **C120**: the older one in all circumstances: the number is that of the descriptors not closed meanwhile, and the
directory's. -/
theorem C120_early_exact {m : Moment} (ha : Apart m) (hl : m.before.length < m.limit) :
    getFDUsage .early m = some ((m.during.filter m.later).length + 1) := by
  unfold getFDUsage
  rw [if_neg (by omega), List.filter_append]
  have h1 : m.during.filter (fun n => n == m.dir || m.later n) = m.during.filter m.later := by
    refine List.filter_congr fun n hn => ?_
    have : n ≠ m.dir := fun h => ha (h ▸ hn)
    simp [this]
  rw [h1]
  simp

/-- C120 is false: whatever the version, in a program that leaves its descriptors alone the number reported, if any, is not that of the descriptors in use, except 0 on
Darwin for a program without any. -/
theorem C120_false (v : Version) {m : Moment} (hq : Quiet m) (h0 : m.before ≠ []) : getFDUsage v m ≠ some m.before.length := by
  cases v with
  | darwin =>
    have := List.length_pos_iff.2 h0
    simp only [getFDUsage, ne_eq, Option.some.injEq]
    omega
  | early =>
    by_cases hl : m.before.length < m.limit
    · rw [C120_early_partial hq hl]; simp
    · simp [getFDUsage, Nat.le_of_not_lt hl]
  | late => rw [C120_late_quiet hq]; simp

/-- C120: and on Linux, just when the descriptors have run out nothing is reported. -/
theorem C120_limit {v : Version} (hv : v ≠ .darwin) {m : Moment} (hl : m.before.length = m.limit) (o : RuntimeMetrics.Options) (r : RuntimeMetrics.Readings) :
    bs "num_fds_used" ∉ (RuntimeMetrics.report o (reading r v m)).map (·.1) := by
  have h : (reading r v m).fds = none := by
    unfold reading getFDUsage
    cases v with
    | darwin => exact absurd rfl hv
    | early => simp [hl]
    | late => simp [hl]
  rw [(C62_names o _).1, h]
  intro hm
  obtain ⟨g, hg, he⟩ := List.mem_map.1 hm
  obtain ⟨g1, g2⟩ := List.mem_filter.1 hg
  have : ∀ g ∈ gaugeTable, g.2 = bs "num_fds_used" → g.1 = .fds := by decide +kernel
  rw [this g g1 he] at g2
  simp at g2

/-- a program with standard input, output and error and a socket. -/
def sample : Moment := ⟨1024, [0, 1, 2, 3], [0, 1, 2, 3], fun n => [0, 1, 2, 3].contains n⟩

example : Quiet sample ∧ Apart sample ∧ sample.dir = 4 ∧ getFDUsage .early sample = some 5 ∧ getFDUsage .late sample = none :=
  ⟨⟨rfl, fun n => by simp only [sample]; exact List.contains_iff_mem⟩, by unfold Apart; decide +kernel, by decide +kernel, by decide +kernel, by decide +kernel⟩

/-- a socket is closed meanwhile, and another one takes the number of the directory. -/
example : getFDUsage .late ⟨1024, [0, 1, 2, 3], [0, 1, 2, 3], fun n => n < 5⟩ = some 5 ∧ getFDUsage .early ⟨1024, [0, 1, 2, 3], [0, 1, 2, 3], fun n => n < 3⟩ = some 4 ∧
    getFDUsage .late ⟨4, [0, 1, 2, 3], [0, 1, 2, 3], fun n => n < 5⟩ = none := by decide +kernel

end Descriptors
