import Verif.Props.WatchLive
import Verif.Props.LivenessRoundsCase
/-!
# A case of C122: an event is emitted, polled and shown, and healthd goes on for ever
The rounds are those of `Rounds.Sample`.  The process emits an event, answers in round 0 and never again.
-/
namespace Watch.Forever
open Spec Healthd EndToEnd Late
open Rounds.Sample (live)

def origin : Origin := ⟨0, [event 1000000000], ⟨2000000000, 0⟩⟩
def metrics : Option (List IntAgg) := getMetrics d proc.retain origin.hist origin.now
def answer : PollResponse := poll lo 0 host ⟨9, 1⟩ 5 ⟨[], 0, []⟩ (bs "json error")
  (.answer 200 (serveHTTP (bs "/health") proc.instanceId d proc.zone (metrics.getD [])).body none)
def failure : PollResponse := ⟨host, ⟨9, 1⟩, some (bs "connection refused"), 0, 0, ⟨[], 0, []⟩⟩

/-- the response of round `r`. -/
def resp (r : Nat) : PollResponse × Option Origin := if r = 0 then (answer, some origin) else (failure, none)

theorem resp_zero : resp 0 = (answer, some origin) := if_pos rfl
theorem resp_pos {r : Nat} (h : 0 < r) : resp r = (failure, none) := if_neg (by omega)

def t6 : Time := ⟨6000000000, 1⟩
def recalc (s : State) : Op := .recalculate s.intervalsNeedingRecalculation.keys (fun _ => s.hostAggregations)
def purge5 : Op := .purge (fun _ => ⟨5000000000, 1⟩)

/-- healthd's data: at first; with the answer; with the answer aggregated; with a failed poll. -/
def d0 : State := Healthd.init [host]
def d1 : State := (Healthd.step sortAggs d0 (.response answer t6 t6)).getD d0
def d2 : State := (Healthd.step sortAggs d1 (recalc d1)).getD d0
def d3 : State := (Healthd.step sortAggs d2 (.response failure t6 t6)).getD d0

theorem metrics_some : metrics.isSome = true := by decide +kernel
theorem step01 : Healthd.step sortAggs d0 (.response answer t6 t6) = some d1 := by decide +kernel
theorem step12 : Healthd.step sortAggs d1 (recalc d1) = some d2 := by decide +kernel
theorem step22 : Healthd.step sortAggs d2 (recalc d2) = some d2 := by decide +kernel
theorem purge22 : Healthd.step sortAggs d2 purge5 = some d2 := by decide +kernel
theorem step23 : Healthd.step sortAggs d2 (.response failure t6 t6) = some d3 := by decide +kernel
theorem step33 : Healthd.step sortAggs d3 (.response failure t6 t6) = some d3 := by decide +kernel
theorem recalc33 : Healthd.step sortAggs d3 (recalc d3) = some d3 := by decide +kernel
theorem purge33 : Healthd.step sortAggs d3 purge5 = some d3 := by decide +kernel
theorem shows : d2.intervalAggregations.map (fun a => (a.start, value a (.event (bs "e")))) = [(⟨0, 0⟩, some 1)] := by decide +kernel

theorem answer_eq {ms : List IntAgg} (h : metrics = some ms) : answer = poll lo 0 host ⟨9, 1⟩ 5 ⟨[], 0, []⟩ (bs "json error")
    (.answer 200 (serveHTTP (bs "/health") proc.instanceId d proc.zone ms).body none) := by
  unfold answer
  rw [h, Option.getD_some]

theorem d0_eq : d0 = Healthd.init [host] := rfl

attribute [irreducible] d0 d1 d2 d3 answer

def data (n : Nat) : State := if n ≤ 5 then d0 else if n ≤ 7 then d1 else if n ≤ 18 then d2 else d3

/-- what happens at time `n`. -/
def item (n : Nat) : Option Item :=
  if n = 0 then some (.act 0 (event 1000000000)) else if n = 2 then some (.serve 0 0 origin.now) else (live.lab n).map .go

/-- what the aggregation goroutine does at time `n`. -/
def op (n : Nat) : Option Op := match live.lab n with
  | some .tick => some purge5
  | some .consume => some (.response (resp (n / 13)).1 t6 t6)
  | some .allIn => some (recalc (data n))
  | some (.other .fire) => some (recalc (data n))
  | _ => none

def fill (m : Rounds.Msg) : Msg := (m.1, m.2.map (fun _ => resp m.1))

def past (n : Nat) : List Item := (List.range n).filterMap item
def done (n : Nat) : List Op := (List.range n).filterMap op

def st (n : Nat) : Sys := ⟨live.st n, (live.st n).chan.map fill, (live.st n).taken.map fill, data n, done n, past n⟩

theorem past_succ (n : Nat) : past (n + 1) = past n ++ (item n).toList := by
  unfold past; rw [List.range_succ, List.filterMap_append]; cases h : item n <;> simp [h]
theorem done_succ (n : Nat) : done (n + 1) = done n ++ (op n).toList := by
  unfold done; rw [List.range_succ, List.filterMap_append]; cases h : op n <;> simp [h]

theorem lab_at (k i : Nat) (hi : i < 13) (h0 : i ≠ 0) (h2 : i ≠ 2) {l : Rounds.Lab} (e : (Rounds.Sample.period k)[i]? = some l) : live.lab (13 * k + i) = some l := by
  rw [(Rounds.Sample.all k).labs i hi h0 h2, Rounds.Sample.labs_of k i hi e]

/-- a step of healthd's goroutines at another time than 0 and 2. -/
theorem item_go {n : Nat} {l : Rounds.Lab} (h : live.lab n = some l) : item n = some (.go l) := by
  have h0 : n ≠ 0 := by rintro rfl; rw [(Rounds.Sample.all 0).pauses.1] at h; cases h
  have h2 : n ≠ 2 := by rintro rfl; rw [(Rounds.Sample.all 0).pauses.2] at h; cases h
  unfold item
  rw [if_neg h0, if_neg h2, h]; rfl

/-- a step that has nothing to do with the data. -/
theorem quiet_step {n : Nat} {l : Rounds.Lab} (h : live.lab n = some l) (hq : quiet l = true) (hd : data (n + 1) = data n) :
    Step sortAggs lo d [proc] (st n) (.go l) (st (n + 1)) := by
  have hs := live.next n l h
  obtain ⟨h1, h2⟩ := loop_quiet hs (.inl hq)
  have ho : op n = none := by unfold op; rw [h]; cases l <;> first | rfl | cases hq | (rename_i l; cases l <;> first | rfl | cases hq)
  have : st (n + 1) = { st n with loop := live.st (n + 1), past := (st n).past ++ [.go l] } := by
    simp only [st, h1, h2, hd, past_succ, done_succ, ho, item_go h, Option.toList_none, Option.toList_some, List.append_nil]
  rw [this]
  exact .quiet hq hs

theorem pause_step {n : Nat} (h : live.lab n = none) (hd : data (n + 1) = data n) :
    st (n + 1) = { st n with past := (st n).past ++ (item n).toList } := by
  have ho : op n = none := by unfold op; rw [h]
  simp only [st, live.rest n h, hd, past_succ, done_succ, ho, Option.toList_none, List.append_nil]

theorem past_three : past 3 = [.act 0 (event 1000000000), .go (.spawn 0 host), .serve 0 0 origin.now] := by
  have h1 : item 1 = some (.go (.spawn 0 host)) := item_go (lab_at 0 1 (by omega) (by omega) (by omega) rfl)
  rw [past_succ, past_succ, past_succ, h1]; rfl

theorem data_zero {n : Nat} (h : n ≤ 5) : data n = d0 := by unfold data; rw [if_pos h]
theorem data_one {n : Nat} (h : 6 ≤ n) (h' : n ≤ 7) : data n = d1 := by unfold data; rw [if_neg (by omega), if_pos h']
theorem data_two {n : Nat} (h : 8 ≤ n) (h' : n ≤ 18) : data n = d2 := by unfold data; rw [if_neg (by omega), if_neg (by omega), if_pos h']
theorem data_three {n : Nat} (h : 19 ≤ n) : data n = d3 := by unfold data; rw [if_neg (by omega), if_neg (by omega), if_neg (by omega)]

/-- the data change only when the answer and the first failure are consumed and when the answer is aggregated. -/
theorem data_stays {n : Nat} (h5 : n ≠ 5) (h7 : n ≠ 7) (h18 : n ≠ 18) : data (n + 1) = data n := by
  unfold data
  by_cases a : n ≤ 5
  · rw [if_pos a, if_pos (by omega)]
  · rw [if_neg a, if_neg (by omega)]
    by_cases b : n ≤ 7
    · rw [if_pos b, if_pos (by omega)]
    · rw [if_neg b, if_neg (by omega)]
      by_cases c : n ≤ 18
      · rw [if_pos c, if_pos (by omega)]
      · rw [if_neg c, if_neg (by omega)]

theorem recalc_step {n : Nat} {l : Rounds.Lab} (h : live.lab n = some l) (hl : l = .allIn ∨ l = .other .fire) (hd : Healthd.step sortAggs (data n) (recalc (data n)) = some (data (n + 1))) :
    Step sortAggs lo d [proc] (st n) (.go l) (st (n + 1)) := by
  have hs := live.next n l h
  rcases hl with rfl | rfl
  · obtain ⟨r, h1, h2⟩ := loop_allIn hs
    have ho : op n = some (recalc (data n)) := by unfold op; rw [h]
    have : st (n + 1) = { st n with
        loop := live.st (n + 1), chan := (live.st (n + 1)).chan.map fill, taken := (st n).taken ++ [(r, none)], data := data (n + 1)
        done := (st n).done ++ [recalc (data n)], past := (st n).past ++ [.go .allIn] } := by
      simp only [st, h2, past_succ, done_succ, ho, item_go h, Option.toList_some, List.map_append]; rfl
    rw [this]
    exact .recalculate (.allIn (by simp only [st]; rw [h1]; rfl)) hs ⟨List.Perm.refl _, fun _ => List.Perm.refl _⟩ hd
  · obtain ⟨h1, h2⟩ := loop_quiet hs (.inr (.inr rfl))
    have ho : op n = some (recalc (data n)) := by unfold op; rw [h]
    have : st (n + 1) = { st n with
        loop := live.st (n + 1), chan := (st n).chan, taken := (st n).taken, data := data (n + 1)
        done := (st n).done ++ [recalc (data n)], past := (st n).past ++ [.go (.other .fire)] } := by
      simp only [st, h1, h2, past_succ, done_succ, ho, item_go h, Option.toList_some]
    rw [this]
    exact .recalculate .fire hs ⟨List.Perm.refl _, fun _ => List.Perm.refl _⟩ hd

theorem consume_step (k : Nat) (hd : Healthd.step sortAggs (data (13 * k + 5)) (.response (resp k).1 t6 t6) = some (data (13 * k + 6))) :
    Step sortAggs lo d [proc] (st (13 * k + 5)) (.go .consume) (st (13 * k + 6)) := by
  have h := lab_at k 5 (by omega) (by omega) (by omega) (l := .consume) rfl
  have hs := live.next _ _ h
  have hc := (Rounds.Sample.all k).s5.chan
  obtain ⟨r, hp, h1, h2⟩ := loop_consume hs
  rw [hc] at h1
  injection h1 with e1 e2
  cases e1
  have ho : op (13 * k + 5) = some (.response (resp k).1 t6 t6) := by unfold op; rw [h, show (13 * k + 5) / 13 = k by omega]
  have : st (13 * k + 6) = { st (13 * k + 5) with
      loop := live.st (13 * k + 6), chan := (live.st (13 * k + 6)).chan.map fill, taken := (st (13 * k + 5)).taken ++ [(k, some (resp k))], data := data (13 * k + 6)
      done := (st (13 * k + 5)).done ++ [.response (resp k).1 t6 t6], past := (st (13 * k + 5)).past ++ [.go .consume] } := by
    rw [show st (13 * k + 6) = st (13 * k + 5 + 1) from rfl]
    simp only [st, h2, past_succ, done_succ, ho, item_go h, Option.toList_some, List.map_append]; rfl
  rw [this]
  refine .consume (o := (resp k).2) ?_ hs hd
  simp only [st]; rw [hc, ← e2]; rfl

theorem tick_step (k : Nat) (hd : Healthd.step sortAggs (data (13 * k + 12)) purge5 = some (data (13 * k + 13))) :
    Step sortAggs lo d [proc] (st (13 * k + 12)) (.go .tick) (st (13 * k + 13)) := by
  have h := lab_at k 12 (by omega) (by omega) (by omega) (l := .tick) rfl
  have hs := live.next _ _ h
  obtain ⟨h1, h2⟩ := loop_quiet hs (.inr (.inl rfl))
  have ho : op (13 * k + 12) = some purge5 := by unfold op; rw [h]
  have : st (13 * k + 13) = { st (13 * k + 12) with
      loop := live.st (13 * k + 13), data := data (13 * k + 13), done := (st (13 * k + 12)).done ++ [purge5], past := (st (13 * k + 12)).past ++ [.go .tick] } := by
    rw [show st (13 * k + 13) = st (13 * k + 12 + 1) from rfl]
    simp only [st, h1, h2, past_succ, done_succ, ho, item_go h, Option.toList_some]
  rw [this]
  exact .tick hs hd

theorem deliver_step (k : Nat) : Step sortAggs lo d [proc] (st (13 * k + 3)) (.go (.deliver k host)) (st (13 * k + 4)) := by
  have h := lab_at k 3 (by omega) (by omega) (by omega) (l := .deliver k host) rfl
  have hs := live.next _ _ h
  obtain ⟨_, h1, h2⟩ := loop_deliver hs
  have ho : op (13 * k + 3) = none := by unfold op; rw [h]
  have : st (13 * k + 4) = { st (13 * k + 3) with
      loop := live.st (13 * k + 4), chan := (st (13 * k + 3)).chan ++ [(k, some ((resp k).1, (resp k).2))], past := (st (13 * k + 3)).past ++ [.go (.deliver k host)] } := by
    rw [show st (13 * k + 4) = st (13 * k + 3 + 1) from rfl]
    simp only [st, h1, h2, past_succ, done_succ, ho, item_go h, Option.toList_some, Option.toList_none, List.append_nil, List.map_append,
      data_stays (n := 13 * k + 3) (by omega) (by omega) (by omega)]; rfl
  rw [this]
  refine .deliver hs ?_
  unfold resp
  by_cases hk : k = 0
  · subst hk
    obtain ⟨ms, hms⟩ := Option.isSome_iff_exists.1 metrics_some
    refine ⟨[.act 0 (event 1000000000), .go (.spawn 0 host)], [], proc, ms, 0, ⟨9, 1⟩, 5, ⟨[], 0, []⟩, bs "json error", past_three, rfl, rfl, rfl, hms, ?_⟩
    rw [if_pos rfl]
    exact answer_eq hms
  · rw [if_neg hk]
    exact ⟨rfl, by simp [failure]⟩

theorem finish_step (k : Nat) : Step sortAggs lo d [proc] (st (13 * k + 4)) (.go (.finish k)) (st (13 * k + 5)) := by
  have h := lab_at k 4 (by omega) (by omega) (by omega) (l := .finish k) rfl
  have hs := live.next _ _ h
  obtain ⟨h1, h2⟩ := loop_finish hs
  have ho : op (13 * k + 4) = none := by unfold op; rw [h]
  have : st (13 * k + 5) = { st (13 * k + 4) with
      loop := live.st (13 * k + 5), chan := (st (13 * k + 4)).chan ++ [(k, none)], past := (st (13 * k + 4)).past ++ [.go (.finish k)] } := by
    rw [show st (13 * k + 5) = st (13 * k + 4 + 1) from rfl]
    simp only [st, h1, h2, past_succ, done_succ, ho, item_go h, Option.toList_some, Option.toList_none, List.append_nil, List.map_append,
      data_stays (n := 13 * k + 4) (by omega) (by omega) (by omega)]; rfl
  rw [this]
  exact .finish hs

/-- every step. -/
theorem steps (n : Nat) : (item n = none → st (n + 1) = st n) ∧ ∀ x, item n = some x → Step sortAggs lo d [proc] (st n) x (st (n + 1)) := by
  have one : ∀ {x}, item n = some x → Step sortAggs lo d [proc] (st n) x (st (n + 1)) →
      (item n = none → st (n + 1) = st n) ∧ ∀ x, item n = some x → Step sortAggs lo d [proc] (st n) x (st (n + 1)) := by
    intro x h hs
    exact ⟨fun h' => (by rw [h] at h'; cases h'), fun y hy => (by rw [h] at hy; cases hy; exact hs)⟩
  obtain ⟨k, i, hi, rfl⟩ : ∃ k i, i < 13 ∧ n = 13 * k + i := ⟨n / 13, n % 13, by omega, by omega⟩
  have w := Rounds.Sample.all k
  have q : ∀ l, i ≠ 0 → i ≠ 2 → (Rounds.Sample.period k)[i]? = some l → quiet l = true → i ≠ 5 → i ≠ 7 →
      (item (13 * k + i) = none → st (13 * k + i + 1) = st (13 * k + i)) ∧ ∀ x, item (13 * k + i) = some x → Step sortAggs lo d [proc] (st (13 * k + i)) x (st (13 * k + i + 1)) := by
    intro l h0 h2 e hq h5 h7
    have h := lab_at k i hi h0 h2 e
    exact one (item_go h) (quiet_step h hq (data_stays (by omega) (by omega) (by omega)))
  have : i ∈ [0, 1, 2, 3, 4, 5, 6, 7, 8, 9, 10, 11, 12] := by simp; omega
  simp only [List.mem_cons, List.not_mem_nil, or_false] at this
  rcases this with rfl | rfl | rfl | rfl | rfl | rfl | rfl | rfl | rfl | rfl | rfl | rfl | rfl
  · have hp := pause_step w.pauses.1 (data_stays (by omega) (by omega) (by omega))
    by_cases hk : k = 0
    · subst hk
      refine one (x := .act 0 (event 1000000000)) rfl ?_
      rw [show (13 * 0 + 0 + 1 : Nat) = 13 * 0 + 1 from rfl, hp]
      exact .act
    · have h0 : item (13 * k) = none := by unfold item; rw [if_neg (by omega), if_neg (by omega), w.pauses.1]; rfl
      refine ⟨fun _ => ?_, fun x hx => ?_⟩
      · rw [Nat.add_zero, hp, h0]; simp
      · rw [Nat.add_zero, h0] at hx; cases hx
  · exact q _ (by omega) (by omega) rfl rfl (by omega) (by omega)
  · have hp := pause_step w.pauses.2 (data_stays (by omega) (by omega) (by omega))
    by_cases hk : k = 0
    · subst hk
      refine one (x := .serve 0 0 origin.now) rfl ?_
      rw [hp]
      obtain ⟨D, hD, hr⟩ := w.s2.rounds
      refine .serve (p := proc) (y := ⟨[], [host], false⟩) rfl ?_ ?_ ?_
      · show (live.st (13 * 0 + 2)).rounds[0]? = _
        rw [hr]; exact Rounds.Sample.get_last hD
      · exact List.mem_singleton.2 rfl
      · intro j now' q hm
        exfalso
        have h1 : item 1 = some (.go (.spawn 0 host)) := item_go (lab_at 0 1 (by omega) (by omega) (by omega) rfl)
        have hm : Item.serve 0 j now' ∈ past 2 := hm
        rw [past_succ, past_succ, h1] at hm
        simp [past, item] at hm
    · have h0 : item (13 * k + 2) = none := by unfold item; rw [if_neg (by omega), if_neg (by omega), w.pauses.2]; rfl
      refine ⟨fun _ => ?_, fun x hx => ?_⟩
      · rw [hp, h0]; simp
      · rw [h0] at hx; cases hx
  · exact one (item_go (lab_at k 3 (by omega) (by omega) (by omega) rfl)) (deliver_step k)
  · exact one (item_go (lab_at k 4 (by omega) (by omega) (by omega) rfl)) (finish_step k)
  · refine one (item_go (lab_at k 5 (by omega) (by omega) (by omega) rfl)) (consume_step k ?_)
    by_cases hk : k = 0
    · subst hk
      rw [data_zero (by omega), data_one (by omega) (by omega), resp_zero]; exact step01
    · by_cases hk1 : k = 1
      · subst hk1
        rw [data_two (by omega) (by omega), data_three (by omega), resp_pos (by omega)]; exact step23
      · rw [data_three (by omega), data_three (by omega)]
        rw [resp_pos (by omega)]; exact step33
  · exact q _ (by omega) (by omega) rfl rfl (by omega) (by omega)
  · have h := lab_at k 7 (by omega) (by omega) (by omega) (l := .allIn) rfl
    refine one (item_go h) (recalc_step h (.inl rfl) ?_)
    by_cases hk : k = 0
    · subst hk; rw [data_two (n := 13 * 0 + 7 + 1) (by omega) (by omega), data_one (by omega) (by omega)]; exact step12
    · rw [data_three (by omega), data_three (by omega)]; exact recalc33
  · exact q _ (by omega) (by omega) rfl rfl (by omega) (by omega)
  · exact q _ (by omega) (by omega) rfl rfl (by omega) (by omega)
  · exact q _ (by omega) (by omega) rfl rfl (by omega) (by omega)
  · have h := lab_at k 11 (by omega) (by omega) (by omega) (l := .other .fire) rfl
    refine one (item_go h) (recalc_step h (.inr rfl) ?_)
    by_cases hk : k = 0
    · subst hk; rw [data_two (n := 13 * 0 + 11 + 1) (by omega) (by omega), data_two (by omega) (by omega)]; exact step22
    · rw [data_three (by omega), data_three (by omega)]; exact recalc33
  · refine one (item_go (lab_at k 12 (by omega) (by omega) (by omega) rfl)) (tick_step k ?_)
    by_cases hk : k = 0
    · subst hk; rw [data_two (n := 13 * 0 + 13) (by omega) (by omega), data_two (by omega) (by omega)]; exact purge22
    · rw [data_three (by omega), data_three (by omega)]; exact purge33

theorem keys_host : keys [host] = [Rounds.Sample.host] := by decide +kernel

def forever : WatchExec sortAggs lo d [proc] 5 [host] where
  st := st
  lab := item
  start := by
    unfold st Watch.start
    have hk : (Healthd.init [host]).hostStatus.map (·.1) = [Rounds.Sample.host] := keys_host
    rw [live.start, data_zero (by omega), d0_eq, hk]; rfl
  rest n h := (steps n).1 h
  next n x h := (steps n).2 x h

theorem loop_lab (n : Nat) : forever.loop.lab n = live.lab n := by
  show (match item n with | some (.go l) => some l | _ => none) = live.lab n
  cases h : live.lab n with
  | some l => rw [item_go h]
  | none =>
    have : item n = some (.act 0 (event 1000000000)) ∨ item n = some (.serve 0 0 origin.now) ∨ item n = none := by
      unfold item
      by_cases h0 : n = 0
      · rw [if_pos h0]; exact .inl rfl
      · rw [if_neg h0]
        by_cases h2 : n = 2
        · rw [if_pos h2]; exact .inr (.inl rfl)
        · rw [if_neg h2, h]; exact .inr (.inr rfl)
    rcases this with e | e | e <;> rw [e]

theorem weak {A : Rounds.Lab → Prop} (h : live.WeakFair A) : forever.loop.WeakFair A := by
  intro n hn
  obtain ⟨m, hm, l, h1, h2⟩ := h n hn
  exact ⟨m, hm, l, h1, (loop_lab m).trans h2⟩

theorem strong {A : Rounds.Lab → Prop} (h : live.StrongFair A) : forever.loop.StrongFair A := by
  intro hc n
  obtain ⟨m, hm, l, h1, h2⟩ := h hc n
  exact ⟨m, hm, l, h1, (loop_lab m).trans h2⟩

theorem fair : RoundsFair forever.loop :=
  let F := Rounds.Sample.fair
  ⟨F.time, weak F.top, weak F.wake, weak F.check, weak F.request, weak F.reply, fun r hp => weak (F.spawn r hp), fun r hp => strong (F.deliver r hp),
    fun r => strong (F.finish r), strong F.receive, strong F.tick⟩

theorem no_stop (n : Nat) : forever.lab n ≠ some (.go (.other .stop)) := by
  intro h
  refine Rounds.Sample.no_stop n ((loop_lab n).symm.trans ?_)
  show (match forever.lab n with | some (.go l) => some l | _ => none) = _
  rw [h]

/-- all polls are over when a round begins. -/
theorem in_time (n : Nat) : InTime [host] (forever.st n).past := by
  show InTime [host] (past n)
  induction n with
  | zero => intro a b e; simp [past] at e
  | succ n ih =>
    intro a b e
    rw [past_succ] at e
    cases hi : item n with
    | none => rw [hi] at e; exact ih a b (by simpa using e)
    | some x =>
      rw [hi, Option.toList_some] at e
      rcases snoc_split e with ⟨_, h1, h2⟩ | ⟨b', _, h1⟩
      · subst h1 h2
        have hl : live.lab n = some .tick := by
          rw [← loop_lab]
          show (match item n with | some (.go l) => some l | _ => none) = _
          rw [hi]
        obtain ⟨k, i, hik, rfl⟩ : ∃ k i, i < 13 ∧ n = 13 * k + i := ⟨n / 13, n % 13, by omega, by omega⟩
        have hi12 : i = 12 := by
          have w := Rounds.Sample.all k
          have : i ∈ [0, 1, 2, 3, 4, 5, 6, 7, 8, 9, 10, 11, 12] := by simp; omega
          simp only [List.mem_cons, List.not_mem_nil, or_false] at this
          rcases this with rfl | rfl | rfl | rfl | rfl | rfl | rfl | rfl | rfl | rfl | rfl | rfl | rfl
          · rw [Nat.add_zero, w.pauses.1] at hl; cases hl
          · rw [lab_at k 1 (by omega) (by omega) (by omega) rfl] at hl; cases hl
          · rw [w.pauses.2] at hl; cases hl
          · rw [lab_at k 3 (by omega) (by omega) (by omega) rfl] at hl; cases hl
          · rw [lab_at k 4 (by omega) (by omega) (by omega) rfl] at hl; cases hl
          · rw [lab_at k 5 (by omega) (by omega) (by omega) rfl] at hl; cases hl
          · rw [lab_at k 6 (by omega) (by omega) (by omega) rfl] at hl; cases hl
          · rw [lab_at k 7 (by omega) (by omega) (by omega) rfl] at hl; cases hl
          · rw [lab_at k 8 (by omega) (by omega) (by omega) rfl] at hl; cases hl
          · rw [lab_at k 9 (by omega) (by omega) (by omega) rfl] at hl; cases hl
          · rw [lab_at k 10 (by omega) (by omega) (by omega) rfl] at hl; cases hl
          · rw [lab_at k 11 (by omega) (by omega) (by omega) rfl] at hl; cases hl
          · rfl
        subst hi12
        have hc := (live_reach (X := forever) (13 * k + 12)).inv.count
        have hc : (live.st (13 * k + 12)).rounds.length = ticks (past (13 * k + 12)) + 1 := hc
        obtain ⟨D, hD, hr⟩ := (Rounds.Sample.all k).s12.rounds
        rw [hr, List.length_append, hD] at hc
        intro r hr' hp hm
        obtain rfl : hp = host := by simpa using hm
        refine List.mem_filterMap.2 ⟨13 * r + 3, List.mem_range.2 ?_, item_go (lab_at r 3 (by omega) (by omega) (by omega) rfl)⟩
        simp at hc
        omega
      · exact ih a b' h1

theorem hist (n : Nat) : histOf 0 (past (n + 3)) = [event 1000000000, (⟨2000000000, 0⟩, .read)] := by
  induction n with
  | zero => rw [past_three]; rfl
  | succ n ih =>
    rw [show n + 1 + 3 = n + 3 + 1 by omega, past_succ, histOf_append, ih]
    have : item (n + 3) = (live.lab (n + 3)).map .go := by unfold item; rw [if_neg (by omega), if_neg (by omega)]
    rw [this]
    cases live.lab (n + 3) <;> rfl

theorem past_mono (n k : Nat) : past n <+: past (n + k) := by
  induction k with
  | zero => exact List.prefix_rfl
  | succ k ih => rw [← Nat.add_assoc, past_succ]; exact ih.trans (List.prefix_append ..)

theorem ordinary_all (n : Nat) : Ordinary d [proc] (forever.st n).past := by
  refine ordinary_prefix (b := past (n + 3)) ⟨by decide, by decide, ?_, by decide +kernel⟩ (past_mono n 3)
  intro i p hp
  match i with
  | 0 =>
    simp only [List.getElem?_cons_zero, Option.some.injEq] at hp; subst hp
    rw [hist]
    exact ok_prefix proc_ok ⟨[event 3000000000, (⟨4000000000, 0⟩, .read)], rfl⟩
  | i + 1 => simp at hp

theorem purges (n : Nat) : Purges (forever.st n) := by
  intro now hm
  obtain ⟨j, _, hj⟩ := List.mem_filterMap.1 hm
  unfold op at hj
  split at hj
  · cases hj; rfl
  · cases hj
  · cases hj
  · cases hj
  · cases hj

theorem chan_four : (0, some (answer, some origin)) ∈ (forever.st 4).chan := by
  show _ ∈ (live.st (13 * 0 + 4)).chan.map fill
  rw [(Rounds.Sample.all 0).s4.chan, List.map_singleton]
  unfold fill
  rw [Option.map_some, resp_zero]
  exact List.mem_singleton.2 rfl

theorem taken_seven : (forever.st 7).taken = [(0, some (answer, some origin))] := by
  have h5 : (live.st 5).taken = [] := by
    have h : ∀ n, n < 5 → (live.st (n + 1)).taken = (live.st n).taken := by
      intro n hn
      rcases live.cases_lab n with ⟨_, e⟩ | ⟨l, hl, e⟩
      · rw [e]
      · rcases Rounds.chan_step e with ⟨h1, _⟩ | ⟨_, _, h1, _⟩
        · exfalso
          have w := Rounds.Sample.all 0
          have : n ∈ [0, 1, 2, 3, 4] := by simp; omega
          simp only [List.mem_cons, List.not_mem_nil, or_false] at this
          rcases this with rfl | rfl | rfl | rfl | rfl
          · rw [show (0 : Nat) = 13 * 0 from rfl, w.pauses.1] at hl; cases hl
          · rw [lab_at 0 1 (by omega) (by omega) (by omega) rfl] at hl; cases hl; rcases h1 with h1 | h1 <;> cases h1
          · rw [show (2 : Nat) = 13 * 0 + 2 from rfl, w.pauses.2] at hl; cases hl
          · rw [lab_at 0 3 (by omega) (by omega) (by omega) rfl] at hl; cases hl; rcases h1 with h1 | h1 <;> cases h1
          · rw [lab_at 0 4 (by omega) (by omega) (by omega) rfl] at hl; cases hl; rcases h1 with h1 | h1 <;> cases h1
        · exact h1
    rw [h 4 (by omega), h 3 (by omega), h 2 (by omega), h 1 (by omega), h 0 (by omega), live.start]; rfl
  have h6 : (live.st 6).taken = [(0, some Rounds.Sample.host)] := by
    obtain ⟨r, hp, e1, e2⟩ := loop_consume (live.next 5 _ (lab_at 0 5 (by omega) (by omega) (by omega) rfl))
    have hc := (Rounds.Sample.all 0).s5.chan
    rw [show 13 * 0 + 5 = 5 from rfl] at hc
    rw [hc] at e1
    injection e1 with e1 _
    cases e1
    rw [e2, h5]; rfl
  have h7 : (live.st 7).taken = (live.st 6).taken :=
    (loop_quiet (live.next 6 _ (lab_at 0 6 (by omega) (by omega) (by omega) rfl)) (.inl rfl)).2
  show (live.st 7).taken.map fill = _
  rw [h7, h6, List.map_singleton]
  unfold fill
  rw [Option.map_some, resp_zero]

/-- a case of `C122_shown`: the event was emitted before the answer that is in the channel at time 4; the round ends at time 7. -/
example : RoundsFair forever.loop ∧ (∀ n, ¬ HdLoop.Stuck (forever.st n).loop.rest) ∧ (∀ n, forever.lab n ≠ some (.go (.other .stop))) ∧
    (∀ n, InTime [host] (forever.st n).past) ∧ (∀ n, Ordinary d [proc] (forever.st n).past) ∧ (0, some (answer, some origin)) ∈ (forever.st 4).chan ∧
    forever.lab 7 = some (.go .allIn) ∧ NeverStale d (events d (forever.st 7).done) ⟨0, 0⟩ ∧
    (∀ i p, [proc][i]? = some p → ∀ y ∈ histOf i (forever.st 7).past, zoneId lo 0 (p.zone y.1.loc 0) = some 0) ∧
    (∀ i p, [proc][i]? = some p → Held d 0 p i (forever.st 7).taken) ∧
    ((List.range [proc].length).flatMap (fun i => madeIn d 0 (histOf i (forever.st 7).past))).length < 2 ^ 63 ∧
    madeIn d 0 origin.hist ≠ [] ∧
    (forever.st 8).data.intervalAggregations.map (fun a => (a.start, value a (.event (bs "e")))) = [(⟨0, 0⟩, some 1)] := by
  refine ⟨fair, Rounds.Sample.not_stuck, no_stop, in_time, ordinary_all, chan_four, item_go (lab_at 0 7 (by omega) (by omega) (by omega) rfl),
    (purges 7).neverStale, ?_, ?_, ?_, by decide +kernel, ?_⟩
  · intro i p hp x _
    match i with
    | 0 => simp only [List.getElem?_cons_zero, Option.some.injEq] at hp; subst hp; rfl
    | i + 1 => simp at hp
  · intro i p hp
    match i with
    | 0 =>
      simp only [List.getElem?_cons_zero, Option.some.injEq] at hp; subst hp
      refine held_last ?_
      rw [taken_seven]
      exact ⟨(⟨0, 0⟩, [.event (bs "j") (bs "e")]), by decide +kernel, rfl⟩
    | i + 1 => simp at hp
  · have : histOf 0 (forever.st 7).past = [event 1000000000, (⟨2000000000, 0⟩, .read)] := hist 4
    rw [List.length_singleton, List.range_one, List.flatMap_singleton, this]
    decide +kernel
  · show (data 8).intervalAggregations.map _ = _
    rw [data_two (by omega) (by omega)]; exact shows

end Watch.Forever
