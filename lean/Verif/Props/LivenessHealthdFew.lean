import Verif.Props.LivenessRoundsFew
/-!
# C86 for healthd with few hosts: without a condition on the debouncer
-/
open Spec

/-- each tick polls all hosts, and finds the last round settled. -/
def Spec.RoundsApart {clock : Int} {hosts : Nat} (x : Exec HdLoop.step (HdLoop.init clock hosts)) : Prop :=
  ∀ n k, x.lab n = some (.tick k) → k = hosts ∧ RoundSettled (x.st n)

namespace HdLoop
variable {clock : Int} {hosts : Nat}

theorem few_at (x : Exec HdLoop.step (HdLoop.init clock hosts)) (ht : RoundsApart x) (n : Nat) : Few hosts (x.st n) := by
  induction n with
  | zero =>
    rw [x.start]
    exact ⟨by simp [inFlight, init], fun g => by simp [init, Healthd.isZero, Healthd.zeroTime] at g, fun g => by cases g⟩
  | succ n ih =>
    rcases x.cases_lab n with ⟨_, e⟩ | ⟨l, hl, e⟩
    · rw [e]; exact ih
    · exact few_step ih (fun k hk => ht n k (hk ▸ hl)) e

theorem few_not_stuck (x : Exec HdLoop.step (HdLoop.init clock hosts)) (hh : hosts ≤ 65) (ht : RoundsApart x) (n : Nat) : ¬ Stuck (x.st n) := by
  rintro ⟨h1, h2, h3⟩
  have hf := few_at x ht n
  have := hf.one (hf.send h3)
  simp only [inFlight, h1, h2, if_true] at this
  omega

end HdLoop

open HdLoop in
/-- C86 (healthd), with at most 65 hosts and rounds that do not overlap: every API request is answered, every poll consumed and followed by a recalculation (unless
`Stop` is called), and `Stop` returns; nothing has to be assumed about the debouncer. -/
theorem C86_healthd_few {clock : Int} {hosts : Nat} (x : Exec HdLoop.step (HdLoop.init clock hosts)) (F : HdFair x) (hh : hosts ≤ 65) (ht : RoundsApart x) :
    ((∀ n, x.lab n ≠ some .stop) →
      (∀ n i h, x.lab n = some (.call i) → x.StrongFair (fun l => l = .enqueue i h) → ∃ m, n < m ∧ (x.st m).req i = .answered) ∧
      (∀ n, ∃ m, n ≤ m ∧ ∀ j, m ≤ j → hosts + polls (x.trace n) ≤ (x.trace j).count .consume) ∧
      (0 < clock → ∀ n, x.lab n = some .consume → ∃ m, n < m ∧ x.lab m = some .fire)) ∧
    ∀ n, x.lab n = some .stop → ∃ m, n < m ∧ (x.st m).stop = .returned :=
  have ns := few_not_stuck x hh ht
  ⟨fun hns => ⟨fun n i h hc fe => C86_healthd_answers x F ns hns n i h hc fe, C86_healthd_consumed x F ns hns, fun hc n h => C86_healthd_recalculates x F ns hns hc n h⟩,
    C86_healthd_stop x F ns⟩

/-! ### A case: the rounds without end of `LivenessRoundsCase` -/
namespace Rounds.Sample

theorem calm (n : Nat) : (live.st n).rest.stop = .notCalled ∧ ∀ h, (live.st n).rest.queue h = [] := by
  obtain ⟨k, i, hi, rfl⟩ : ∃ k i, i < 13 ∧ n = 13 * k + i := ⟨n / 13, n % 13, by omega, by omega⟩
  have w := all k
  have : i ∈ [0, 1, 2, 3, 4, 5, 6, 7, 8, 9, 10, 11, 12] := by simp; omega
  simp only [List.mem_cons, List.not_mem_nil, or_false] at this
  rcases this with rfl | rfl | rfl | rfl | rfl | rfl | rfl | rfl | rfl | rfl | rfl | rfl | rfl
  · rw [Nat.add_zero, w.s0.rest]; simp
  · rw [w.s1.rest]; simp
  · rw [w.s2.rest]; simp
  · rw [w.s3.rest]; simp
  · rw [w.s4.rest]; simp
  · rw [w.s5.rest]; simp
  · rw [w.s6.rest]; simp
  · rw [w.s7.rest]; simp
  · rw [w.s8.rest]; simp
  · rw [w.s9.rest]; simp
  · rw [w.s10.rest]; simp
  · rw [w.s11.rest]; simp
  · rw [w.s12.rest]; simp

/-- what is done in every round is done again and again. -/
theorem often {A : HdLoop.Lab → Prop} (i : Nat) (hi : i < 13) (h0 : i ≠ 0) (h2 : i ≠ 2) (h : ∀ k, ∃ l ∈ ((((period k)[i]?).getD .tick).view [host]).head?, A l) : (coarse live).StrongFair A := by
  intro _ n
  obtain ⟨l, hl, ha⟩ := h n
  refine ⟨13 * n + i, by omega, l, ha, ?_⟩
  show (live.lab (13 * n + i)).bind (fun l => (l.view [host]).head?) = some l
  rw [(all n).labs i hi h0 h2, labs_at n i hi]
  exact hl

theorem not_done {A : HdLoop.Lab → Prop} (h : ∀ l (s : HdLoop.Sys), A l → s.stop = .notCalled → (∀ b, s.queue b = []) → HdLoop.step s l = none) : (coarse live).StrongFair A := by
  intro hc
  obtain ⟨m, _, l, hl, hs⟩ := hc 0
  have := h l ((coarse live).st m) hl (calm m).1 (calm m).2
  rw [this] at hs; cases hs

theorem coarse_fair : HdFair (coarse live) :=
  { coarse_runs fair with
    deliver := (often (A := fun l => l = .deliver) 3 (by omega) (by omega) (by omega) (fun k => ⟨_, rfl, rfl⟩)).weak
    stopped := (not_done (by rintro l s rfl h1 _; simp [HdLoop.step, h1])).weak
    consume := often 5 (by omega) (by omega) (by omega) (fun k => ⟨_, rfl, rfl⟩)
    fire := often 11 (by omega) (by omega) (by omega) (fun k => ⟨_, rfl, rfl⟩)
    accept := fun k => not_done (by rintro l s rfl _ h2; simp [HdLoop.step, h2])
    acceptStop := not_done (by rintro l s rfl h1 _; simp [HdLoop.step, h1]) }

/-- a case of `C86_healthd_few`, with a round after the other. -/
example : HdFair (coarse live) ∧ [host].length ≤ 65 ∧ RoundsApart (coarse live) ∧ (∀ k, (coarse live).lab (13 * k + 12) = some (.tick 1)) := by
  refine ⟨coarse_fair, by decide, ?_, fun k => ?_⟩
  · intro n k h
    have h : (live.lab n).bind (fun l => (l.view [host]).head?) = some (.tick k) := h
    cases hx : live.lab n with
    | none => rw [hx] at h; cases h
    | some l =>
      rw [hx, Option.bind_some] at h
      cases l with
      | tick => simp [Lab.view] at h; exact ⟨h.symm, settled n hx⟩
      | other l =>
        simp [Lab.view] at h
        subst h
        have := live.next n _ hx
        simp [step, aboutPolls] at this
      | _ => simp [Lab.view] at h
  · show (live.lab (13 * k + 12)).bind (fun l => (l.view [host]).head?) = some (.tick 1)
    rw [(all k).labs 12 (by omega) (by omega) (by omega), labs_at k 12 (by omega)]
    rfl

end Rounds.Sample
