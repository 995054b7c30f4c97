import Verif.Model.HealthdMain
import Verif.Lemmas.HealthdAll
import Verif.Lemmas.Format
import Verif.Props.Merge
import Verif.Props.Healthd
/-!
# The healthd program (C81, C83) and the names of processes (C82)
-/
open Spec Healthd Unmarshal

/-! ## C81 -/

namespace HealthdMain

/-- the address at which healthd serves its own metrics, as documented. -/
def ownAddress (env : Str → Str) : Str := if env (bs "HEALTH_HOSTPORT") = [] then bs ":5030" else env (bs "HEALTH_HOSTPORT")

theorem hosts_keys (l : List Str) (m : GoMap Str HostStatus) (hp : Str) :
    hp ∈ (l.foldl (fun m hp => GoMap.set m hp (newHost hp)) m).keys ↔ hp ∈ m.keys ∨ hp ∈ l := by
  induction l generalizing m with
  | nil => simp
  | cons x t ih => rw [List.foldl_cons, ih, GoMap.mem_keys_set]; simp only [List.mem_cons]; tauto

end HealthdMain

/-- C81: given a list of addresses separated by commas, the program monitors exactly these and itself. -/
theorem C81_monitors (env : Str → Str) (hosts : List Str) (hne : hosts ≠ []) (hne' : hosts ≠ [[]]) (hc : ∀ h ∈ hosts, (44 : UInt8) ∉ h)
    (henv : env (bs "HEALTHD_MONITORED_HOSTPORTS") = List.intercalate [44] hosts) :
    ∃ s, HealthdMain.start env = some s ∧ ∀ hp, hp ∈ s.hostStatus.keys ↔ hp ∈ hosts ∨ hp = HealthdMain.ownAddress env := by
  have hnil : List.intercalate [44] hosts ≠ ([] : Str) := by
    intro h0
    match hosts, hne, hne' with
    | [x], _, h2 => simp [List.intercalate] at h0; exact h2 (by rw [h0])
    | x :: y :: t, _, _ => simp [List.intercalate] at h0
  unfold HealthdMain.start HealthdMain.getMonitoredHostPorts
  rw [henv]
  simp only [hnil, if_false, Option.map_some]
  refine ⟨_, rfl, ?_⟩
  intro hp
  unfold HealthdMain.split
  rw [List.splitOn_intercalate (44 : UInt8) hc hne]
  show hp ∈ GoMap.keys (List.foldl _ [] _) ↔ _
  rw [HealthdMain.hosts_keys]
  simp [GoMap.keys, HealthdMain.ownAddress, HealthdMain.getHealthHostPort]

/-- C81: without addresses the program ends. -/
theorem C81_exits (env : Str → Str) : HealthdMain.start env = none ↔ env (bs "HEALTHD_MONITORED_HOSTPORTS") = [] := by
  unfold HealthdMain.start HealthdMain.getMonitoredHostPorts
  by_cases h : env (bs "HEALTHD_MONITORED_HOSTPORTS") = [] <;> simp [h]

def Sample.env : Str → Str := fun n => if n = bs "HEALTHD_MONITORED_HOSTPORTS" then bs "web31:5020,web32:5020" else []

example : (HealthdMain.start Sample.env).map (fun s => s.hostStatus.keys) = some [bs "web31:5020", bs "web32:5020", bs ":5030"] := by decide +kernel
example : Sample.env (bs "HEALTHD_MONITORED_HOSTPORTS") = List.intercalate [44] [bs "web31:5020", bs "web32:5020"] := by decide +kernel

/-! ## C83 -/

/-- what holds of all reports with the agreed interval duration, and is preserved by merging, holds of everything stored. -/
theorem Healthd.Runs.allAgreed {P : IntAgg → Prop} (hnew : ∀ t, P (IntAgg.new t)) (hmerge : ∀ a b, P a → P b → P (a.merge b))
    {sort : List IntAgg → List IntAgg} (hsort : ∀ l, (sort l).Perm l) {hosts : List Str} {h : List Op} {s : State} (hr : Runs sort (init hosts) h s)
    (D : Int) (hD : agreed h ≠ 0 → agreed h = D)
    (hrep : ∀ r n1 n2, Op.response r n1 n2 ∈ h → Succeeded r → r.response.intervalDuration = D → ∀ rep, some rep ∈ r.response.aggs → P rep.agg) :
    All P s := by
  induction hr with
  | nil => exact ⟨by simp [init], by simp [init]⟩
  | @snoc ops s1 s2 op hr hv hs ih =>
    have hph := hr.phase
    have hag : agreed ops ≠ 0 → agreed (ops ++ [op]) = agreed ops := by
      intro h0
      classical
      rw [agreed_snoc, if_pos]
      rcases hph with p | p
      · exact absurd p.2.2.2 h0
      · exact p.2.2.1
    have ih := ih (fun h0 => by rw [← hag h0]; exact hD (by rw [hag h0]; exact h0)) (fun r n1 n2 hm => hrep r n1 n2 (by simp [hm]))
    cases op with
    | response r n1 n2 =>
      obtain ⟨f1, f2, f3, f4, f5⟩ := noteStatus_fields n1 n2 s1 r
      have h0 : All P (noteStatus n1 n2 s1 r) := ih.congr f3 f5
      have hr0 := hrep r n1 n2 (by simp)
      rcases consume_cases hs with ⟨_, h2⟩ | ⟨hok, hz, hnz, h4⟩ | ⟨_, _, _, h4⟩ | ⟨hok, hnz, heq, h4⟩
      · rw [h2]; exact h0
      · refine All.storeAll ?_ h4 (hr0 hok ?_)
        · exact h0.congr rfl rfl
        · have : agreed (ops ++ [Op.response r n1 n2]) = r.response.intervalDuration := by
            classical
            rw [agreed_snoc, if_neg]
            · show (if Succeeded r then _ else _) = _
              rw [if_pos hok]
            · rcases hph with p | p
              · rintro ⟨r', a, b, hm, hsu⟩; exact p.2.2.1 r' a b hm hsu
              · exact absurd hz p.1
          rw [← this]
          exact hD (by rw [this]; exact hnz)
      · rw [h4]; exact h0
      · refine h0.storeAll h4 (hr0 hok ?_)
        rcases hph with p | p
        · exact absurd p.1 hnz
        · rw [← heq, ← p.2.2.2, ← hag (by rw [p.2.2.2]; exact p.1)]
          exact hD (by rw [hag (by rw [p.2.2.2]; exact p.1), p.2.2.2]; exact p.1)
    | purge now =>
      obtain ⟨l, h1, h2⟩ := Option.bind_eq_some_iff.1 (show (truncateAggs _ _).bind _ = some s2 from hs)
      rw [← Option.some.inj h2]
      exact ⟨fun p hp => ih.host p (List.mem_of_mem_filter hp), fun a ha => ih.series a (truncateAggs_mem h1 a ha)⟩
    | recalculate ks en =>
      obtain ⟨s3, h1, h2⟩ := Option.bind_eq_some_iff.1 (show (ks.foldlM (Healthd.recalculateOne sort en) s1).bind _ = some s2 from hs)
      rw [← Option.some.inj h2]
      exact (ih.recalculate hnew hmerge hsort hv.2 h1).congr rfl rfl

/-- C83 is false for hosts with an interval other than one minute: healthd monitors itself
(interval one minute), and if its own answer happens to be the first, then whatever the hosts report, at any time and for ever, nothing of
it is shown: no counter that healthd itself does not have. -/
theorem C83_interval_false {env : Str → Str} {s0 : State} (h0 : HealthdMain.start env = some s0) {sort : List IntAgg → List IntAgg} (hsort : SortsByStart sort)
    {h : List Op} {s : State} (hr : Runs sort s0 h s) (hdec : Decoded h) (hfirst : agreed h = 60000000000) (c : Counter)
    (hown : ∀ r n1 n2, Op.response r n1 n2 ∈ h → r.hostPort = HealthdMain.ownAddress env → ∀ rep, some rep ∈ r.response.aggs → value rep.agg c = none)
    (hother : ∀ r n1 n2, Op.response r n1 n2 ∈ h → Succeeded r → r.hostPort ≠ HealthdMain.ownAddress env → r.response.intervalDuration ≠ 60000000000) :
    ∀ a ∈ s.intervalAggregations, value a c = none := by
  obtain ⟨hps, _, rfl⟩ := Option.map_eq_some_iff.1 h0
  have := Runs.allAgreed (P := fun a => a.Wf ∧ value a c = none) (fun t => ⟨.new t, by cases c <;> rfl⟩)
    (fun a b ha hb => ⟨ha.1.merge hb.1, by
      have := (C20_merge_keys a b hb.1).1 c
      rw [ha.2, hb.2] at this
      simpa using this⟩) (fun l => (hsort l).1) hr 60000000000 (fun _ => hfirst)
    (fun r n1 n2 hm hs hd rep hrep => ⟨(hdec r n1 n2 hm hs rep hrep).1, by
      by_cases ho : r.hostPort = HealthdMain.ownAddress env
      · exact hown r n1 n2 hm ho rep hrep
      · exact absurd hd (hother r n1 n2 hm hs ho)⟩)
  exact fun a ha => (this.series a ha).2

/-- a case that meets the hypotheses: web31 has intervals of five minutes and reports the event "e"; only healthd's own interval is shown. -/
example : let s0 := HealthdMain.start Sample.env
    let own := got ":5030" 0 "{\"instance_id\":\"d\",\"interval_duration\":60000000000,\"aggregations\":[{\"interval_start\":\"0001-01-01T00:05:00Z\",\"serial_number\":1,\"events\":{\"starting\":1}}]}"
    let web := got "web31:5020" 1 "{\"instance_id\":\"a\",\"interval_duration\":300000000000,\"aggregations\":[{\"interval_start\":\"0001-01-01T00:05:00Z\",\"serial_number\":1,\"events\":{\"e\":3}}]}"
    (s0.bind (after · [own, web, .recalculate])).map (fun s => s.intervalAggregations.map (·.maps.events)) = some [[(bs "starting", 1)]] ∧
    (s0.bind (after · [web, own, .recalculate])).map (fun s => s.intervalAggregations.map (·.maps.events)) = some [[(bs "e", 3)]] ∧
    agreed ([own, web, .recalculate].map Cmd.plain) = 60000000000 := by decide +kernel

theorem agreed_of_all {h : List Op} {D : Int} (hall : ∀ r n1 n2, Op.response r n1 n2 ∈ h → Succeeded r → r.response.intervalDuration = D)
    (hex : ∃ r n1 n2, Op.response r n1 n2 ∈ h ∧ Succeeded r) : agreed h = D := by
  induction h with
  | nil => obtain ⟨r, n1, n2, h1, _⟩ := hex; cases h1
  | cons op t ih =>
    have ih := ih (fun r n1 n2 hm => hall r n1 n2 (by simp [hm]))
    cases op with
    | response r n1 n2 =>
      show (if Succeeded r then _ else _) = D
      split
      · next hs => exact hall r n1 n2 (by simp) hs
      · next hs =>
        apply ih
        obtain ⟨r', a, b, h1, h2⟩ := hex
        simp only [List.mem_cons, Op.response.injEq] at h1
        rcases h1 with ⟨rfl, _⟩ | h1
        · exact absurd h2 hs
        · exact ⟨r', a, b, h1, h2⟩
    | purge now =>
      apply ih
      obtain ⟨r', a, b, h1, h2⟩ := hex
      exact ⟨r', a, b, by simpa using h1, h2⟩
    | recalculate ks en =>
      apply ih
      obtain ⟨r', a, b, h1, h2⟩ := hex
      exact ⟨r', a, b, by simpa using h1, h2⟩

/-- C83, partial: if all processes that answer (healthd itself included) have the same interval, every interval of every successful answer counts
for the totals (`C41_totals` is about `events (agreed h) h`).  Missing: different intervals, for which it is false. -/
theorem C83_same_interval_partial {h : List Op} {D : Int}
    (hall : ∀ r n1 n2, Op.response r n1 n2 ∈ h → Succeeded r → r.response.intervalDuration = D)
    {r : PollResponse} {n1 n2 : Time} (hr : Op.response r n1 n2 ∈ h) (hs : Succeeded r) {rep : Report} (hrep : some rep ∈ r.response.aggs) :
    Ev.report ⟨rep.agg.start, r.response.instanceId, r.hostPort⟩ rep.agg ∈ events (agreed h) h := by
  rw [agreed_of_all hall ⟨r, n1, n2, hr, hs⟩]
  unfold events
  rw [List.mem_flatMap]
  refine ⟨_, hr, ?_⟩
  simp only
  rw [if_pos ⟨hs, hall r n1 n2 hr hs⟩]
  unfold reportsIn
  rw [List.mem_filterMap]
  exact ⟨_, hrep, rfl⟩

/-! ## C82 -/

theorem natStr_injective {m n : Nat} (h : natStr m = natStr n) : m = n := by
  rw [← (natStr_spec m).2.2.1, ← (natStr_spec n).2.2.1, h]

theorem natStr_no_dot (n : Nat) : (46 : UInt8) ∉ natStr n := by
  intro h
  have := (natStr_spec n).2.1 _ h
  unfold IsDigit at this
  revert this
  decide

/-- cutting at the last dot. -/
theorem cut_last {a b x y : Str} (hx : (46 : UInt8) ∉ x) (hy : (46 : UInt8) ∉ y) (h : a ++ [46] ++ x = b ++ [46] ++ y) : a = b ∧ x = y := by
  rw [List.append_assoc, List.append_assoc] at h
  rcases List.append_eq_append_iff.1 h with ⟨t, h1, h2⟩ | ⟨t, h1, h2⟩
  · cases t with
    | nil => simp at h1 h2; exact ⟨h1.symm, h2⟩
    | cons c t =>
      simp only [List.cons_append, List.nil_append, List.cons.injEq] at h2
      exact absurd (by rw [h2.2]; simp) hx
  · cases t with
    | nil => simp at h1 h2; exact ⟨h1, h2.symm⟩
    | cons c t =>
      simp only [List.cons_append, List.nil_append, List.cons.injEq] at h2
      exact absurd (by rw [h2.2]; simp) hy

/-- C82: the identifier of a process tells its host and its process id: two processes on different hosts, or on the same host, have different ones. -/
theorem C82_identifier (pid pid' : Nat) (host host' : Str) (h : HealthdMain.getIdentifier pid (some host) = HealthdMain.getIdentifier pid' (some host')) :
    host = host' ∧ pid = pid' := by
  unfold HealthdMain.getIdentifier at h
  obtain ⟨h1, h2⟩ := cut_last (natStr_no_dot pid) (natStr_no_dot pid') h
  exact ⟨h1, natStr_injective h2⟩

example : HealthdMain.getIdentifier 1207 (some (bs "web31")) = bs "web31.1207" := by decide +kernel
