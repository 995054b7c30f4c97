import Verif.Props.LivenessRounds
/-!
# A case of C122: rounds of polls without end
-/
namespace Rounds.Sample
open Spec

def host : Str := bs "h"

/-- a round: the host is polled, its response consumed, the debouncer asked and heard, the nil received; then the next one begins.  (`reply` cannot be
done here; it stands for a pause.) -/
def period (r : Nat) : List Lab := [.other .reply, .spawn r host, .other .reply, .deliver r host, .finish r, .consume, .other .request, .allIn, .other .take,
  .other (.advance 3000000000), .other .check, .other .fire, .tick]

def labs (n : Nat) : Lab := ((period (n / 13))[n % 13]?).getD .tick

def live : Exec Rounds.step (Rounds.init 5 [host]) := Exec.follow _ _ labs

theorem made {n : Nat} {s : Sys} (h : Rounds.step (live.st n) (labs n) = some s) : live.st (n + 1) = s ∧ live.lab n = some (labs n) :=
  Exec.follow_step _ _ labs n h

theorem live_lab (n : Nat) : live.lab n = if (Rounds.step (live.st n) (labs n)).isSome then some (labs n) else none := rfl

attribute [irreducible] live

theorem labs_at (k i : Nat) (h : i < 13) : labs (13 * k + i) = ((period k)[i]?).getD .tick := by
  unfold labs
  rw [show (13 * k + i) / 13 = k by omega, show (13 * k + i) % 13 = i by omega]

/-- a state between the steps of round `k`. -/
structure At (n k : Nat) (c : Int) (main : HdLoop.Main) (deb : HdLoop.Deb) (oldest : Time) (requests : Nat) (y : Round) (chan : List Msg) : Prop where
  hosts : (live.st n).hosts = [host]
  rest : (live.st n).rest = ⟨c, main, deb, oldest, 0, 0, requests, .notCalled, fun _ => .notCalled, fun _ => []⟩
  rounds : ∃ D : List Round, D.length = k ∧ (live.st n).rounds = D ++ [y]
  chan : (live.st n).chan = chan

theorem get_last {D : List Round} {y : Round} {k : Nat} (h : D.length = k) : (D ++ [y])[k]? = some y := by subst h; simp
theorem set_last {D : List Round} {y z : Round} {k : Nat} (h : D.length = k) : setRound (D ++ [y]) k z = D ++ [z] := by subst h; simp [setRound]

/-- the states of one round, and what happens in it. -/
structure Whole (k : Nat) (c : Int) : Prop where
  s0 : At (13 * k) k c .idle .top Healthd.zeroTime 0 ⟨[host], [], false⟩ []
  s1 : At (13 * k + 1) k c .idle .top Healthd.zeroTime 0 ⟨[host], [], false⟩ []
  s2 : At (13 * k + 2) k c .idle .top Healthd.zeroTime 0 ⟨[], [host], false⟩ []
  s3 : At (13 * k + 3) k c .idle .top Healthd.zeroTime 0 ⟨[], [host], false⟩ []
  s4 : At (13 * k + 4) k c .idle .top Healthd.zeroTime 0 ⟨[], [], false⟩ [(k, some host)]
  s5 : At (13 * k + 5) k c .idle .top Healthd.zeroTime 0 ⟨[], [], true⟩ [(k, some host), (k, none)]
  s6 : At (13 * k + 6) k c .requesting .top Healthd.zeroTime 0 ⟨[], [], true⟩ [(k, none)]
  s7 : At (13 * k + 7) k c .idle .top Healthd.zeroTime 1 ⟨[], [], true⟩ [(k, none)]
  s8 : At (13 * k + 8) k c .idle .top Healthd.zeroTime 1 ⟨[], [], true⟩ []
  s9 : At (13 * k + 9) k c .idle .checking ⟨c, 1⟩ 0 ⟨[], [], true⟩ []
  s10 : At (13 * k + 10) k (c + 3000000000) .idle .checking ⟨c, 1⟩ 0 ⟨[], [], true⟩ []
  s11 : At (13 * k + 11) k (c + 3000000000) .idle .sending ⟨c, 1⟩ 0 ⟨[], [], true⟩ []
  s12 : At (13 * k + 12) k (c + 3000000000) .idle .top Healthd.zeroTime 0 ⟨[], [], true⟩ []
  s13 : At (13 * (k + 1)) (k + 1) (c + 3000000000) .idle .top Healthd.zeroTime 0 ⟨[host], [], false⟩ []
  labs : ∀ i < 13, i ≠ 0 → i ≠ 2 → live.lab (13 * k + i) = some (Sample.labs (13 * k + i))
  pauses : live.lab (13 * k) = none ∧ live.lab (13 * k + 2) = none

theorem pause {n k : Nat} {c : Int} {deb : HdLoop.Deb} {oldest : Time} {q : Nat} {y : Round} {ch : List Msg} (h : At n k c .idle deb oldest q y ch)
    (hl : labs n = .other .reply) : At (n + 1) k c .idle deb oldest q y ch ∧ live.lab n = none := by
  have h0 : Rounds.step (live.st n) (labs n) = none := by rw [hl]; simp [step, aboutPolls, h.rest, HdLoop.step]
  have h1 : live.lab n = none := by
    rw [live_lab, h0]; rfl
  have := live.rest n h1
  exact ⟨⟨this ▸ h.hosts, this ▸ h.rest, this ▸ h.rounds, this ▸ h.chan⟩, h1⟩

theorem whole {k : Nat} {c : Int} (hc : 0 < c) (h : At (13 * k) k c .idle .top Healthd.zeroTime 0 ⟨[host], [], false⟩ []) : Whole k c := by
  have l : ∀ i < 13, labs (13 * k + i) = ((period k)[i]?).getD .tick := fun i hi => labs_at k i hi
  obtain ⟨s1, p1⟩ := pause h (by have := l 0 (by omega); simpa [period] using this)
  -- spawn
  obtain ⟨D, hD, hr⟩ := s1.rounds
  obtain ⟨e2, b1⟩ := made (n := 13 * k + 1) (s := { live.st (13 * k + 1) with rounds := D ++ [⟨[], [host], false⟩] }) (by
    rw [l 1 (by omega)]; simp [period, step, hr, get_last hD, set_last hD])
  have s2 : At (13 * k + 2) k c .idle .top Healthd.zeroTime 0 ⟨[], [host], false⟩ [] := by
    constructor <;> rw [e2]
    exacts [s1.hosts, s1.rest, ⟨D, hD, rfl⟩, s1.chan]
  obtain ⟨s3, p2⟩ := pause s2 (by rw [l 2 (by omega)]; rfl)
  -- deliver
  obtain ⟨D, hD, hr⟩ := s3.rounds
  obtain ⟨e4, b3⟩ := made (n := 13 * k + 3) (s := { live.st (13 * k + 3) with rounds := D ++ [⟨[], [], false⟩], chan := [(k, some host)] }) (by
    rw [l 3 (by omega)]; simp [period, step, hr, get_last hD, set_last hD, s3.chan, HdLoop.bufferSize])
  have s4 : At (13 * k + 4) k c .idle .top Healthd.zeroTime 0 ⟨[], [], false⟩ [(k, some host)] := by
    constructor <;> rw [e4]
    exacts [s3.hosts, s3.rest, ⟨D, hD, rfl⟩]
  -- finish
  obtain ⟨D, hD, hr⟩ := s4.rounds
  obtain ⟨e5, b4⟩ := made (n := 13 * k + 4) (s := { live.st (13 * k + 4) with rounds := D ++ [⟨[], [], true⟩], chan := [(k, some host), (k, none)] }) (by
    rw [l 4 (by omega)]; simp [period, step, hr, get_last hD, set_last hD, s4.chan, HdLoop.bufferSize])
  have s5 : At (13 * k + 5) k c .idle .top Healthd.zeroTime 0 ⟨[], [], true⟩ [(k, some host), (k, none)] := by
    constructor <;> rw [e5]
    exacts [s4.hosts, s4.rest, ⟨D, hD, rfl⟩]
  -- consume
  obtain ⟨e6, b5⟩ := made (n := 13 * k + 5) (s := { live.st (13 * k + 5) with
      rest := ⟨c, .requesting, .top, Healthd.zeroTime, 0, 0, 0, .notCalled, fun _ => .notCalled, fun _ => []⟩, chan := [(k, none)],
      taken := (live.st (13 * k + 5)).taken ++ [(k, some host)] }) (by
    rw [l 5 (by omega)]; simp [period, step, s5.chan, s5.rest])
  have s6 : At (13 * k + 6) k c .requesting .top Healthd.zeroTime 0 ⟨[], [], true⟩ [(k, none)] := by
    constructor <;> rw [e6]
    exacts [s5.hosts, s5.rounds]
  -- request
  obtain ⟨e7, b6⟩ := made (n := 13 * k + 6) (s := { live.st (13 * k + 6) with
      rest := ⟨c, .idle, .top, Healthd.zeroTime, 0, 0, 1, .notCalled, fun _ => .notCalled, fun _ => []⟩ }) (by
    rw [l 6 (by omega)]; simp [period, step, aboutPolls, HdLoop.step, s6.rest, HdLoop.bufferSize])
  have s7 : At (13 * k + 7) k c .idle .top Healthd.zeroTime 1 ⟨[], [], true⟩ [(k, none)] := by
    constructor <;> rw [e7]
    exacts [s6.hosts, s6.rounds, s6.chan]
  -- allIn
  obtain ⟨e8, b7⟩ := made (n := 13 * k + 7) (s := { live.st (13 * k + 7) with chan := [], taken := (live.st (13 * k + 7)).taken ++ [(k, none)] }) (by
    rw [l 7 (by omega)]; simp [period, step, s7.chan, s7.rest])
  have s8 : At (13 * k + 8) k c .idle .top Healthd.zeroTime 1 ⟨[], [], true⟩ [] := by
    constructor <;> rw [e8]
    exacts [s7.hosts, s7.rest, s7.rounds]
  -- take
  obtain ⟨e9, b8⟩ := made (n := 13 * k + 8) (s := { live.st (13 * k + 8) with
      rest := ⟨c, .idle, .checking, ⟨c, 1⟩, 0, 0, 0, .notCalled, fun _ => .notCalled, fun _ => []⟩ }) (by
    rw [l 8 (by omega)]; simp [period, step, aboutPolls, HdLoop.step, s8.rest, Healthd.debouncerTake, Healthd.isZero, Healthd.zeroTime])
  have s9 : At (13 * k + 9) k c .idle .checking ⟨c, 1⟩ 0 ⟨[], [], true⟩ [] := by
    constructor <;> rw [e9]
    exacts [s8.hosts, s8.rounds, s8.chan]
  -- advance
  obtain ⟨e10, b9⟩ := made (n := 13 * k + 9) (s := { live.st (13 * k + 9) with
      rest := ⟨c + 3000000000, .idle, .checking, ⟨c, 1⟩, 0, 0, 0, .notCalled, fun _ => .notCalled, fun _ => []⟩ }) (by
    rw [l 9 (by omega)]; simp [period, step, aboutPolls, HdLoop.step, s9.rest])
  have s10 : At (13 * k + 10) k (c + 3000000000) .idle .checking ⟨c, 1⟩ 0 ⟨[], [], true⟩ [] := by
    constructor <;> rw [e10]
    exacts [s9.hosts, s9.rounds, s9.chan]
  -- check
  obtain ⟨e11, b10⟩ := made (n := 13 * k + 10) (s := { live.st (13 * k + 10) with
      rest := ⟨c + 3000000000, .idle, .sending, ⟨c, 1⟩, 0, 0, 0, .notCalled, fun _ => .notCalled, fun _ => []⟩ }) (by
    have hdue : Healthd.debouncerDue HdLoop.threshold ⟨c, 1⟩ ⟨c + 3000000000, 1⟩ = true := by
      rw [HdLoop.due_iff _ _ (by omega)]; omega
    rw [l 10 (by omega)]; simp [period, step, aboutPolls, HdLoop.step, s10.rest, hdue])
  have s11 : At (13 * k + 11) k (c + 3000000000) .idle .sending ⟨c, 1⟩ 0 ⟨[], [], true⟩ [] := by
    constructor <;> rw [e11]
    exacts [s10.hosts, s10.rounds, s10.chan]
  -- fire
  obtain ⟨e12, b11⟩ := made (n := 13 * k + 11) (s := { live.st (13 * k + 11) with
      rest := ⟨c + 3000000000, .idle, .top, Healthd.zeroTime, 0, 0, 0, .notCalled, fun _ => .notCalled, fun _ => []⟩ }) (by
    rw [l 11 (by omega)]; simp [period, step, aboutPolls, HdLoop.step, s11.rest])
  have s12 : At (13 * k + 12) k (c + 3000000000) .idle .top Healthd.zeroTime 0 ⟨[], [], true⟩ [] := by
    constructor <;> rw [e12]
    exacts [s11.hosts, s11.rounds, s11.chan]
  -- tick
  obtain ⟨D, hD, hr⟩ := s12.rounds
  obtain ⟨e13, b12⟩ := made (n := 13 * k + 12) (s := { live.st (13 * k + 12) with rounds := D ++ [⟨[], [], true⟩] ++ [⟨[host], [], false⟩] }) (by
    rw [l 12 (by omega)]; simp [period, step, s12.rest, s12.hosts, hr])
  have s13 : At (13 * (k + 1)) (k + 1) (c + 3000000000) .idle .top Healthd.zeroTime 0 ⟨[host], [], false⟩ [] := by
    have e : 13 * (k + 1) = 13 * k + 12 + 1 := by omega
    rw [e]
    constructor <;> rw [e13]
    exacts [s12.hosts, s12.rest, ⟨_, by simp [hD], rfl⟩, s12.chan]
  refine ⟨h, s1, s2, s3, s4, s5, s6, s7, s8, s9, s10, s11, s12, s13, ?_, p1, p2⟩
  intro i hi h0 h2
  have : i ∈ [1, 3, 4, 5, 6, 7, 8, 9, 10, 11, 12] := by simp; omega
  simp only [List.mem_cons, List.not_mem_nil, or_false] at this
  rcases this with rfl | rfl | rfl | rfl | rfl | rfl | rfl | rfl | rfl | rfl | rfl
  exacts [b1, b3, b4, b5, b6, b7, b8, b9, b10, b11, b12]

/-- all rounds go like this. -/
theorem all (k : Nat) : Whole k (5 + 3000000000 * k) := by
  induction k with
  | zero => exact whole (by omega) (by constructor <;> rw [Nat.mul_zero, live.start] <;> first | rfl | exact ⟨[], rfl, rfl⟩)
  | succ k ih =>
    have := ih.s13
    rw [show (5 : Int) + 3000000000 * k + 3000000000 = 5 + 3000000000 * (k + 1 : Nat) by push_cast; omega] at this
    exact whole (by omega) this

/-- what is done in every round is done for ever. -/
theorem again {A : Lab → Prop} (i : Nat) (hi : i < 13) (h0 : i ≠ 0) (h2 : i ≠ 2) (hA : ∀ k, A (labs (13 * k + i))) : live.StrongFair A :=
  fun _ n => ⟨13 * n + i, by omega, _, hA n, (all n).labs i hi h0 h2⟩

theorem labs_of (k i : Nat) (h : i < 13) {l : Lab} (e : (period k)[i]? = some l) : labs (13 * k + i) = l := by rw [labs_at k i h, e]; rfl

/-- a round that is over is over for good. -/
theorem over (r m : Nat) (h : 13 * (r + 1) ≤ m) : (live.st m).rounds[r]? = some ⟨[], [], true⟩ := by
  induction m, h using Nat.le_induction with
  | base =>
    obtain ⟨D, hD, hr⟩ := (all r).s12.rounds
    rw [show 13 * (r + 1) = 13 * r + 12 + 1 by omega]
    have hl := (all r).labs 12 (by omega) (by omega) (by omega)
    rw [labs_of r 12 (by omega) rfl] at hl
    rw [Watch.loop_tick (live.next _ _ hl), hr]
    subst hD; simp
  | succ m hm ih =>
    rcases live.cases_lab m with ⟨_, e⟩ | ⟨l, _, e⟩
    · rw [e]; exact ih
    · obtain ⟨y', h1, ⟨rfl, _⟩ | h2 | ⟨rfl, _⟩⟩ := round_step e ih
      · exact h1
      · simp [Round.left] at h2
      · simp [step, ih] at e

theorem not_again {A : Lab → Prop} (r : Nat) (hA : ∀ l, A l → (∃ hp, l = .spawn r hp) ∨ (∃ hp, l = .deliver r hp) ∨ l = .finish r) : live.StrongFair A := by
  intro h
  obtain ⟨m, hm, l, hl, hs⟩ := h (13 * (r + 1))
  have := over r m hm
  rcases hA l hl with ⟨hp, rfl⟩ | ⟨hp, rfl⟩ | rfl <;> simp [step, this] at hs

theorem fair : RoundsFair live where
  time t := ⟨13 * t.toNat, by rw [(all t.toNat).s0.rest]; show t ≤ 5 + 3000000000 * (t.toNat : Int); omega⟩
  top := (again 8 (by omega) (by omega) (by omega) (fun k => .inl (labs_of k 8 (by omega) rfl))).weak
  wake := by
    intro n h
    obtain ⟨l, rfl, hs⟩ := h (13 * n) (by omega)
    simp [step, aboutPolls, HdLoop.step, (all n).s0.rest] at hs
  check := (again 10 (by omega) (by omega) (by omega) (fun k => labs_of k 10 (by omega) rfl)).weak
  request := (again 6 (by omega) (by omega) (by omega) (fun k => labs_of k 6 (by omega) rfl)).weak
  reply := by
    intro n h
    obtain ⟨l, rfl, hs⟩ := h (13 * n) (by omega)
    simp [step, aboutPolls, HdLoop.step, (all n).s0.rest] at hs
  spawn r hp := (not_again r (by rintro l rfl; exact .inl ⟨_, rfl⟩)).weak
  deliver r hp := not_again r (by rintro l rfl; exact .inr (.inl ⟨_, rfl⟩))
  finish r := not_again r (by rintro l rfl; exact .inr (.inr rfl))
  receive := again 5 (by omega) (by omega) (by omega) (fun k => .inl (labs_of k 5 (by omega) rfl))
  tick := again 12 (by omega) (by omega) (by omega) (fun k => labs_of k 12 (by omega) rfl)

/-- every state is one of a round's. -/
theorem any (n : Nat) : (live.st n).rest.requests < 64 := by
  obtain ⟨k, i, hi, rfl⟩ : ∃ k i, i < 13 ∧ n = 13 * k + i := ⟨n / 13, n % 13, by omega, by omega⟩
  have w := all k
  have : i ∈ [0, 1, 2, 3, 4, 5, 6, 7, 8, 9, 10, 11, 12] := by simp; omega
  simp only [List.mem_cons, List.not_mem_nil, or_false] at this
  rcases this with rfl | rfl | rfl | rfl | rfl | rfl | rfl | rfl | rfl | rfl | rfl | rfl | rfl
  · rw [Nat.add_zero, w.s0.rest]; exact (by decide : 0 < 64)
  · rw [w.s1.rest]; exact (by decide : 0 < 64)
  · rw [w.s2.rest]; exact (by decide : 0 < 64)
  · rw [w.s3.rest]; exact (by decide : 0 < 64)
  · rw [w.s4.rest]; exact (by decide : 0 < 64)
  · rw [w.s5.rest]; exact (by decide : 0 < 64)
  · rw [w.s6.rest]; exact (by decide : 0 < 64)
  · rw [w.s7.rest]; exact (by decide : 1 < 64)
  · rw [w.s8.rest]; exact (by decide : 1 < 64)
  · rw [w.s9.rest]; exact (by decide : 0 < 64)
  · rw [w.s10.rest]; exact (by decide : 0 < 64)
  · rw [w.s11.rest]; exact (by decide : 0 < 64)
  · rw [w.s12.rest]; exact (by decide : 0 < 64)

theorem not_stuck (n : Nat) : ¬ HdLoop.Stuck (live.st n).rest := fun h => by
  have := any n
  have := h.2.1
  omega

theorem no_stop (n : Nat) : live.lab n ≠ some (.other .stop) := by
  intro h
  rw [live_lab] at h
  split at h <;> [skip; cases h]
  have h : labs n = .other .stop := by simpa using h
  obtain ⟨k, i, hi, rfl⟩ : ∃ k i, i < 13 ∧ n = 13 * k + i := ⟨n / 13, n % 13, by omega, by omega⟩
  rw [labs_at k i hi] at h
  have : i ∈ [0, 1, 2, 3, 4, 5, 6, 7, 8, 9, 10, 11, 12] := by simp; omega
  simp only [List.mem_cons, List.not_mem_nil, or_false] at this
  rcases this with rfl | rfl | rfl | rfl | rfl | rfl | rfl | rfl | rfl | rfl | rfl | rfl | rfl <;> simp [period] at h

/-- a case of C122: one host, rounds without end. -/
example : RoundsFair live ∧ (∀ n, ¬ HdLoop.Stuck (live.st n).rest) ∧ (∀ n, live.lab n ≠ some (.other .stop)) ∧ 0 < (live.st 0).rounds.length ∧
    live.lab 12 = some .tick :=
  ⟨fair, not_stuck, no_stop, by rw [live.start]; decide, by
    have := (all 0).labs 12 (by omega) (by omega) (by omega)
    rwa [labs_of 0 12 (by omega) rfl] at this⟩

end Rounds.Sample
