import Verif.Spec.OwnHealth
import Verif.Props.Program
/-!
# healthd's own numbers (C90)
-/
open Spec OwnHealth

namespace OwnHealth

/-- key/values of the activities are proper maps. -/
theorem calls_wf (w : Work) : ∀ x ∈ w.calls, ∀ m, x.2 = some m → GoMap.Wf m := by
  intro x hx m hm
  cases w with
  | poll lo fresh je trace hp res =>
    simp only [Work.calls, pollCalls] at hx
    have : m = [(bs "host_port", hp)] := by
      split at hx
      · simp only [List.mem_cons, List.not_mem_nil, or_false] at hx
        rcases hx with rfl | rfl
        · cases hm
        · simpa using hm.symm
      · simp only [List.mem_singleton] at hx
        subst hx
        simpa using hm.symm
    subst this
    show List.Nodup [bs "host_port"]
    decide
  | recalculate =>
    simp only [Work.calls, List.mem_singleton] at hx
    subst hx; cases hm
  | request e path code =>
    simp only [Work.calls, List.mem_cons, List.not_mem_nil, or_false] at hx
    rcases hx with rfl | rfl
    · simp only [Option.some.injEq] at hm; subst hm; show List.Nodup [bs "path"]; decide
    · simp only [Option.some.injEq] at hm; subst hm; show List.Nodup [bs "code", bs "path"]; decide

/-- the errors of the activities are new ones. -/
theorem calls_plain (w : Work) : ∀ x ∈ w.calls, ∀ ev e tr, x.1 = .eventErr ev e tr → objId e = none := by
  intro x hx ev e tr he
  cases w with
  | poll lo fresh je trace hp res =>
    simp only [Work.calls, pollCalls] at hx
    split at hx
    · simp only [List.mem_cons, List.not_mem_nil, or_false] at hx
      rcases hx with rfl | rfl
      · simp only [World.Call.eventErr.injEq] at he
        rw [← he.2.1]; rfl
      · cases he
    · simp only [List.mem_singleton] at hx
      subst hx; cases he
  | recalculate =>
    simp only [Work.calls, List.mem_singleton] at hx
    subst hx; cases he
  | request e' path code =>
    simp only [Work.calls, List.mem_cons, List.not_mem_nil, or_false] at hx
    rcases hx with rfl | rfl <;> cases he

/-- the first report (cmd/healthd/main.go:42-46). -/
def startReport (env : Str → Str) (hps : Str) : Report := (bs "general", .event (bs "starting"), some [(bs "monitored_host_ports", hps),
  (bs "server_host_port", HealthdMain.getServerHostPort env), (bs "health_host_port", HealthdMain.getHealthHostPort env)])

structure Inv (clock : Nat → Int) (first : Report) (s : State) : Prop where
  reach : Reachable clock s.world
  sinks : s.world.sinks = [0, 1]
  kvs : s.world.kvs = none
  names : s.world.jobs.map (·.name) = bs "general" :: s.threads.map (·.work.job)
  jobKvs : ∀ job ∈ s.world.jobs, job.kvs = none
  log : ∀ sink, sink = 0 ∨ sink = 1 → ∃ log, List.Forall₂ TellsWith (heard sink s.world) log ∧ log.Perm (first :: reported s.threads)

/-- one emission with literal key/values. -/
theorem emit_tells (clock : Nat → Int) (w : World) (hw : Reachable clock w) (hs : w.sinks = [0, 1]) (hk : w.kvs = none) {j : Nat} {job : Job}
    (hj : w.jobs[j]? = some job) (hjk : job.kvs = none) (c : World.Call) (inst : MapRef) (sink : Nat) (hsink : sink = 0 ∨ sink = 1) :
    ∃ x, heard sink (w.emit clock j c inst).1 = heard sink w ++ [x] ∧ TellsWith x (job.name, c, w.deref inst) := by
  obtain ⟨e1, e2, _⟩ := C03_fan_out clock w hw j job hj c inst
  have hf : w.sinks.filter (· = sink) = [sink] := by rw [hs]; rcases hsink with rfl | rfl <;> rfl
  obtain ⟨x, hx, hx1, hx2⟩ := fanOut_once e2 hf
  refine ⟨x, by simp [heard, e1, List.filter_append, hx], ⟨hx1, ?_⟩, fun k => ?_⟩
  · cases c with
    | event ev => exact hx2
    | timing ev n => exact hx2
    | gauge ev v => exact hx2
    | complete st => obtain ⟨i, hi⟩ := hx2; exact ⟨_, hi⟩
    | eventErr ev e tr =>
      refine ⟨_, hx2, ?_⟩
      rw [(World.emit_err clock w j job hj ev e tr inst).1]
      cases e <;> rfl
  · have hmem : x ∈ newCalls clock w j c inst := by
      have : x ∈ (newCalls clock w j c inst).filter (fun c => c.sink = sink) := by rw [hx]; simp
      exact List.mem_of_mem_filter this
    rw [C01_precedence clock w hw j job hj c inst x hmem k, hjk, hk]
    unfold precedence
    cases lookup (w.deref inst) k <;> rfl

theorem reported_modify {ts : List Thread} {i : Nat} {t : Thread} (hi : ts[i]? = some t) {x : Say} (hx : t.work.calls[t.done]? = some x) :
    (reported (ts.modify i (fun t => { t with done := t.done + 1 }))).Perm (reported ts ++ [(t.work.job, x.1, x.2)]) := by
  induction ts generalizing i with
  | nil => simp at hi
  | cons a l ih =>
    cases i with
    | zero =>
      simp only [List.getElem?_cons_zero, Option.some.injEq] at hi
      subst hi
      simp only [List.modify_zero_cons, reported, List.flatMap_cons, List.append_assoc]
      rw [List.take_add_one, hx]
      simp only [Option.toList_some, List.map_append, List.map_cons, List.map_nil, List.append_assoc]
      exact (List.Perm.refl _).append List.perm_append_comm
    | succ i =>
      simp only [List.getElem?_cons_succ] at hi
      simp only [List.modify_succ_cons, reported, List.flatMap_cons, List.append_assoc]
      exact (List.Perm.refl _).append (ih hi)

theorem Inv.boot (clock : Nat → Int) (env : Str → Str) (hps : Str) : Inv clock (startReport env hps) (boot clock env hps) := by
  have hl : LegalRun clock (World.newStream clock) (bootOps env hps) := by
    refine ⟨trivial, trivial, ?_, trivial, trivial⟩
    show List.Nodup [bs "monitored_host_ports", bs "server_host_port", bs "health_host_port"]
    decide
  let w0 := (World.newStream clock).run clock ((bootOps env hps).take 3)
  have hw0 : Reachable clock w0 := ⟨_, ((World.legalRun_append clock _ _ [_]).1 (show LegalRun clock _ ((bootOps env hps).take 3 ++ [_]) from hl)).1, rfl⟩
  have hE : (OwnHealth.boot clock env hps).world = (w0.emit clock 0 (.event (bs "starting")) (some 0)).1 := rfl
  have hj : w0.jobs[0]? = some ⟨bs "general", none, clock 0⟩ := rfl
  obtain ⟨e1, e2, e3, e4, e5⟩ := C03_fan_out clock w0 hw0 0 _ hj (.event (bs "starting")) (some 0)
  refine ⟨⟨_, hl, rfl⟩, by rw [hE, e3]; rfl, by rw [hE, e5]; rfl, by rw [hE, e4]; rfl, by rw [hE, e4]; intro job hm; simp [w0, bootOps, World.run, World.step, World.newStream, World.newJob, World.addSink, World.newMap] at hm; rw [hm], fun sink hs => ?_⟩
  obtain ⟨x, h1, h2⟩ := emit_tells clock w0 hw0 rfl rfl hj rfl (.event (bs "starting")) (some 0) sink hs
  rw [hE, h1]
  exact ⟨[startReport env hps], .cons h2 .nil, List.Perm.refl _⟩

theorem Reachable_run {clock : Nat → Int} {w : World} (h : Reachable clock w) {ops : List World.Op} (hl : LegalRun clock w ops) : Reachable clock (w.run clock ops) := by
  obtain ⟨o, h1, rfl⟩ := h
  exact ⟨o ++ ops, (World.legalRun_append _ _ _ _).2 ⟨h1, hl⟩, by rw [World.run_append]⟩

theorem Inv.step {clock : Nat → Int} {first : Report} {s s' : State} (h : Inv clock first s) (e : Step) (hs : step clock s e = some s') : Inv clock first s' := by
  cases e with
  | start w =>
    simp only [OwnHealth.step, stepOps] at hs
    split at hs
    · simp only [Option.map_some, Option.some.injEq] at hs
      subst hs
      refine ⟨Reachable_run h.reach ⟨trivial, trivial⟩, h.sinks, h.kvs, ?_, ?_, ?_⟩
      · show (s.world.jobs ++ [(⟨w.job, none, clock s.world.reads⟩ : Job)]).map (·.name) = _
        simp [h.names]
      · intro job hm
        rcases List.mem_append.1 (show job ∈ s.world.jobs ++ [(⟨w.job, none, clock s.world.reads⟩ : Job)] from hm) with hm | hm
        · exact h.jobKvs job hm
        · simp only [List.mem_singleton] at hm; rw [hm]
      · intro sink hsink
        obtain ⟨log, h1, h2⟩ := h.log sink hsink
        refine ⟨log, h1, h2.trans ?_⟩
        simp [reported]
    · cases hs
  | proceed i =>
    simp only [OwnHealth.step, stepOps] at hs
    cases ht : s.threads[i]? with
    | none => rw [ht] at hs; cases hs
    | some t =>
      rw [ht] at hs
      simp only at hs
      cases hc : t.work.calls[t.done]? with
      | none => rw [hc] at hs; cases hs
      | some x =>
        rw [hc] at hs
        obtain ⟨c, kvs⟩ := x
        have hxm : (c, kvs) ∈ t.work.calls := List.mem_of_getElem? hc
        obtain ⟨job, hj, hjn⟩ : ∃ job, s.world.jobs[i + 1]? = some job ∧ job.name = t.work.job := by
          have := congrArg (fun l => l[i + 1]?) h.names
          simp only [List.getElem?_map, List.getElem?_cons_succ, ht, Option.map_some] at this
          obtain ⟨job, h1, h2⟩ := Option.map_eq_some_iff.1 this
          exact ⟨job, h1, h2⟩
        have hjk := h.jobKvs job (List.mem_of_getElem? hj)
        have hleg : ∀ (w : World) (r : MapRef), LegalOp w (.emit (i + 1) c r) := by
          intro w r
          cases c with
          | eventErr ev e tr =>
            intro id hid
            rw [calls_plain t.work _ hxm ev e tr rfl] at hid
            cases hid
          | _ => trivial
        have fin : ∀ (w : World), Reachable clock w → w.sinks = [0, 1] → w.kvs = none → w.jobs = s.world.jobs → w.calls = s.world.calls → ∀ r, w.deref r = kvs →
            Inv clock first ⟨(w.emit clock (i + 1) c r).1, s.threads.modify i (fun t => { t with done := t.done + 1 })⟩ := by
          intro w hw w1 w2 w3 w4 r hr
          have hj' : w.jobs[i + 1]? = some job := by rw [w3]; exact hj
          obtain ⟨e1, e2, e3, e4, e5⟩ := C03_fan_out clock w hw (i + 1) job hj' c r
          refine ⟨Reachable_run hw (ops := [.emit (i + 1) c r]) ⟨hleg w r, trivial⟩, e3.trans w1, e5.trans w2, ?_, ?_, ?_⟩
          · rw [e4, w3, h.names]
            congr 1
            apply List.ext_getElem?
            intro n
            simp only [List.getElem?_map, List.getElem?_modify]
            cases s.threads[n]? with
            | none => simp
            | some u => by_cases hn : i = n <;> simp [hn]
          · intro jb hm
            rw [e4, w3] at hm
            exact h.jobKvs jb hm
          · intro sink hsink
            obtain ⟨log, h1, h2⟩ := h.log sink hsink
            obtain ⟨x, hx1, hx2⟩ := emit_tells clock w hw w1 w2 hj' hjk c r sink hsink
            have hh : heard sink w = heard sink s.world := by unfold heard; rw [w4]
            refine ⟨log ++ [(t.work.job, c, kvs)], ?_, ?_⟩
            · rw [hx1, hh]
              rw [hr, hjn] at hx2
              exact forall₂_snoc h1 hx2
            · refine (h2.append_right _).trans ?_
              rw [List.cons_append]
              exact (reported_modify ht hc).symm.cons _
        cases kvs with
        | none =>
          simp only [Option.map_some, Option.some.injEq] at hs
          subst hs
          exact fin s.world h.reach h.sinks h.kvs rfl rfl none rfl
        | some m =>
          simp only [Option.map_some, Option.some.injEq] at hs
          subst hs
          refine fin (s.world.newMap m).1 (Reachable_run h.reach (ops := [.newMap m]) ⟨calls_wf t.work _ hxm m rfl, trivial⟩) h.sinks h.kvs rfl rfl _ ?_
          simp [World.newMap, World.deref]

theorem Inv.run {clock : Nat → Int} {first : Report} (es : List Step) : ∀ {s s' : State}, Inv clock first s → run clock s es = some s' → Inv clock first s' := by
  induction es with
  | nil => intro s s' h hs; simp only [OwnHealth.run, List.foldlM_nil] at hs; cases hs; exact h
  | cons e t ih =>
    intro s s' h hs
    simp only [OwnHealth.run, List.foldlM_cons] at hs
    obtain ⟨s1, h1, h2⟩ := Option.bind_eq_some_iff.1 hs
    exact ih (h.step e h1) h2

end OwnHealth

/-- C90: whatever polls, recalculations and requests healthd does and however they interleave, each of its two sinks (the log, the polling sink) has received exactly the reports
that these made, each once, with its key/values. -/
theorem C90_reports (clock : Nat → Int) (env : Str → Str) (hps : Str) (es : List Step) (s : State) (hr : run clock (boot clock env hps) es = some s)
    (sink : Nat) (hs : sink = 0 ∨ sink = 1) :
    ∃ log, List.Forall₂ TellsWith (heard sink s.world) log ∧ log.Perm (startReport env hps :: reported s.threads) :=
  ((Inv.boot clock env hps).run es hr).log sink hs

/-! ## Numbers -/

theorem sumI_getD (xs : List (Option Int)) : (sumI xs).getD 0 = i64 (xs.map (·.getD 0)).sum := by
  have : (xs.map (·.getD 0)).sum = (xs.filterMap id).sum := by
    induction xs with
    | nil => rfl
    | cons a t ih => cases a <;> simp [ih]
  rw [this]
  unfold sumI
  split
  · next h => rw [h]; rfl
  · rfl

/-- what an activity adds to a number. -/
def OwnHealth.Work.adds (c : Counter) (w : Work) : Int := (w.calls.map (fun x => (Spec.adds c (w.job, x.1)).getD 0)).sum

theorem reported_done {ts : List Thread} (h : AllDone ts) : reported ts = ts.flatMap (fun t => t.work.calls.map (fun x => (t.work.job, x.1, x.2))) := by
  unfold reported
  rw [List.flatMap_def, List.flatMap_def]
  congr 1
  apply List.map_congr_left
  intro t ht
  rw [List.take_of_length_le (h t ht)]

theorem sum_reported (c : Counter) {ts : List Thread} (h : AllDone ts) :
    ((reported ts).map (fun r => (Spec.adds c (r.1, r.2.1)).getD 0)).sum = (ts.map (fun t => t.work.adds c)).sum := by
  rw [reported_done h]
  clear h
  induction ts with
  | nil => rfl
  | cons t l ih =>
    simp only [List.flatMap_cons, List.map_append, List.sum_append, ih, List.map_cons, List.sum_cons, List.map_map]
    rfl

theorem sum_count (ts : List Thread) (f : Work → Int) (p : Work → Bool) (h : ∀ t ∈ ts, f t.work = if p t.work then 1 else 0) :
    (ts.map (fun t => f t.work)).sum = (ts.countP (fun t => p t.work) : Int) := by
  induction ts with
  | nil => rfl
  | cons t l ih =>
    rw [List.map_cons, List.sum_cons, List.countP_cons, ih (fun t ht => h t (by simp [ht])), h t (by simp)]
    split <;> push_cast <;> omega

theorem displayed_work (clock : Nat → Int) (env : Str → Str) (hps : Str) (es : List Step) (s : State) (hr : run clock (boot clock env hps) es = some s)
    (hdone : AllDone s.threads) (deep : GoErr → Option Err) (d r : Int) (hd : 0 < d) (hdr : d ≤ r) (h : List (Time × AggOp)) (now : Time)
    (hh : (h.flatMap (fun p => emitsOf p.2)).Perm ((heard 1 s.world).map (SinkCall.toEmit deep)))
    (hkeep : (segments d (h ++ [(now, .read)])).length ≤ (r / d).toNat) :
    ∃ ms, getMetrics d r h now = some ms ∧ ∀ c, Said c → (Spec.adds c (bs "general", .event (bs "starting"))).getD 0 = 0 → ∀ p : Work → Bool,
      (∀ t ∈ s.threads, t.work.adds c = if p t.work then 1 else 0) → displayed ms c = number s.threads p := by
  obtain ⟨log, h1, h2⟩ := C90_reports clock env hps es s hr 1 (.inr rfl)
  have hc : List.Forall₂ Conveys (heard 1 s.world) (log.map (fun r => (r.1, r.2.1))) :=
    List.forall₂_map_right_iff.2 (h1.imp fun _ _ h => h.1)
  obtain ⟨ms, h3, h4⟩ := metrics_heard hc deep d r hd hdr h now hh hkeep
  refine ⟨ms, h3, fun c hs hst p hp => ?_⟩
  unfold displayed number
  rw [h4 c hs, sumI_getD, List.map_map, List.map_map, ((h2.map _).sum_eq), ← sum_count s.threads (fun w => w.adds c) p hp, ← sum_reported c hdone]
  simp only [List.map_cons, List.sum_cons, Function.comp_def, startReport, hst, Int.zero_add]

/-- what a poll reports: its completion, and an error before it if the poll failed. -/
theorem poll_cases (lo : Int → Int) (fresh : Nat) (je : Str) (trace : Trace) (hp : Str) (res : Healthd.HttpResult) :
    ((∃ ev e, (Work.poll lo fresh je trace hp res).calls = [(.eventErr ev (.other e) trace, none), (.complete .error, some [(bs "host_port", hp)])] ∧
      (Healthd.poll lo fresh hp ⟨0, 0⟩ 0 ⟨[], 0, []⟩ je res).err = some e ∧
      (ev = bs "poll.client.get" ∧ noAnswer (.poll lo fresh je trace hp res) = true ∧ brokeOff (.poll lo fresh je trace hp res) = false ∧
          unreadable (.poll lo fresh je trace hp res) = false ∨
        ev = bs "poll.ioutil.read_all" ∧ noAnswer (.poll lo fresh je trace hp res) = false ∧ brokeOff (.poll lo fresh je trace hp res) = true ∧
          unreadable (.poll lo fresh je trace hp res) = false ∨
        ev = bs "poll.json.unmarshall" ∧ noAnswer (.poll lo fresh je trace hp res) = false ∧ brokeOff (.poll lo fresh je trace hp res) = false ∧
          unreadable (.poll lo fresh je trace hp res) = true)) ∨
     ((Work.poll lo fresh je trace hp res).calls = [(.complete .success, some [(bs "host_port", hp)])] ∧
      (Healthd.poll lo fresh hp ⟨0, 0⟩ 0 ⟨[], 0, []⟩ je res).err = none ∧ noAnswer (.poll lo fresh je trace hp res) = false ∧
      brokeOff (.poll lo fresh je trace hp res) = false ∧ unreadable (.poll lo fresh je trace hp res) = false)) := by
  cases res with
  | failed e => exact .inl ⟨_, e, rfl, rfl, .inl ⟨rfl, rfl, rfl, rfl⟩⟩
  | answer code body rerr =>
    cases rerr with
    | some e => exact .inl ⟨_, e, rfl, rfl, .inr (.inl ⟨rfl, rfl, rfl, rfl⟩)⟩
    | none =>
      cases hu : Unmarshal.unmarshal lo fresh body with
      | none =>
        refine .inl ⟨bs "poll.json.unmarshall", je, ?_, ?_, .inr (.inr ⟨rfl, rfl, rfl, ?_⟩)⟩ <;>
          simp [Work.calls, pollCalls, Healthd.poll, unreadable, hu]
      | some r =>
        refine .inr ⟨?_, ?_, rfl, rfl, ?_⟩ <;> simp [Work.calls, pollCalls, Healthd.poll, unreadable, hu]

theorem path_ne (e : Api.Endpoint) : e.path ≠ bs "poll" ∧ e.path ≠ bs "recalculate" ∧ e.path ≠ bs "general" := by cases e <;> decide

theorem path_inj {e e' : Api.Endpoint} (h : e'.path = e.path) : e' = e := by
  revert h; cases e <;> cases e' <;> decide

theorem request_success (e : Api.Endpoint) (path : Str) (code : Int) :
    (Work.request e path code).adds (.jobSuccess e.path) = if (decide (code < 400)) then 1 else 0 := by
  have h : completesWith Status.success (.complete (Api.completionStatus code)) = if code < 400 then 1 else 0 := by
    unfold completesWith Api.completionStatus
    split_ifs <;> first | rfl | (exfalso; revert ‹_ = Status.success›; decide) | omega
  simp [Work.adds, Spec.adds, Work.job, Work.calls, h]
  rfl

theorem request_error (e : Api.Endpoint) (path : Str) (code : Int) :
    (Work.request e path code).adds (.jobErrors e.path) = if (decide (500 ≤ code)) then 1 else 0 := by
  have h : completesWith Status.error (.complete (Api.completionStatus code)) = if 500 ≤ code then 1 else 0 := by
    unfold completesWith Api.completionStatus
    split_ifs <;> first | rfl | omega | (exfalso; revert ‹_ = Status.error›; decide) | (exfalso; apply ‹¬ Status.error = Status.error›; rfl)
  simp [Work.adds, Spec.adds, Work.job, Work.calls, h]
  rfl

/-- C90: when the activities have ended, the metrics at healthd's own address count, over the intervals shown: every poll, as an error exactly if healthd could not get or read the
answer (the error that healthd keeps for the host), and the failures by their stage; every recalculation; every request by endpoint and status.
Missing: "as a success exactly if healthd got data from the host"; `C90_false`. -/
theorem C90_numbers_partial (clock : Nat → Int) (env : Str → Str) (hps : Str) (es : List Step) (s : State) (hr : run clock (boot clock env hps) es = some s)
    (hdone : AllDone s.threads) (deep : GoErr → Option Err) (h : List (Time × AggOp)) (now : Time)
    (hh : (h.flatMap (fun p => emitsOf p.2)).Perm ((heard 1 s.world).map (SinkCall.toEmit deep)))
    (hkeep : (segments HealthdMain.ownInterval (h ++ [(now, .read)])).length ≤ 5) :
    ∃ ms, getMetrics HealthdMain.ownInterval HealthdMain.ownRetain h now = some ms ∧
      displayed ms (.jobCount (bs "poll")) = number s.threads (pollWith (fun _ => true)) ∧
      displayed ms (.jobErrors (bs "poll")) = number s.threads (pollWith (fun r => r.err ≠ none)) ∧
      displayed ms (.jobSuccess (bs "poll")) = number s.threads (pollWith (fun r => r.err = none)) ∧
      displayed ms (.jobError (bs "poll") (bs "poll.client.get")) = number s.threads noAnswer ∧
      displayed ms (.jobError (bs "poll") (bs "poll.ioutil.read_all")) = number s.threads brokeOff ∧
      displayed ms (.jobError (bs "poll") (bs "poll.json.unmarshall")) = number s.threads unreadable ∧
      displayed ms (.jobCount (bs "recalculate")) = number s.threads isRecalculation ∧
      displayed ms (.jobSuccess (bs "recalculate")) = number s.threads isRecalculation ∧
      ∀ e : Api.Endpoint,
        displayed ms (.jobCount e.path) = number s.threads (requestWith e (fun _ => true)) ∧
        displayed ms (.jobSuccess e.path) = number s.threads (requestWith e (fun code => code < 400)) ∧
        displayed ms (.jobErrors e.path) = number s.threads (requestWith e (fun code => 500 ≤ code)) := by
  obtain ⟨ms, h1, h2⟩ := displayed_work clock env hps es s hr hdone deep HealthdMain.ownInterval HealthdMain.ownRetain (by decide) (by decide) h now hh
    (by simpa [HealthdMain.ownInterval, HealthdMain.ownRetain] using hkeep)
  have hpoll : ∀ c, (Said c) → (Spec.adds c (bs "general", .event (bs "starting"))).getD 0 = 0 → (∀ w : Work, w.job ≠ bs "poll" → w.adds c = 0) → ∀ p : Work → Bool,
      (∀ w : Work, w.job ≠ bs "poll" → p w = false) → (∀ lo fresh je trace hp res, (Work.poll lo fresh je trace hp res).adds c = if p (.poll lo fresh je trace hp res) then 1 else 0) →
      displayed ms c = number s.threads p := by
    intro c a1 a2 a3 p a4 a5
    refine h2 c a1 a2 p (fun t _ => ?_)
    cases hw : t.work with
    | poll lo fresh je trace hp res => exact a5 ..
    | recalculate => rw [a3 _ (by simp only [Work.job]; decide), a4 _ (by simp only [Work.job]; decide)]; rfl
    | request e path code => rw [a3 (.request e path code) (path_ne e).1, a4 (.request e path code) (path_ne e).1]; rfl
  have ne1 : Status.success ≠ Status.error := by decide
  have ne2 : Status.error ≠ Status.success := by decide
  have pollFalse : ∀ q, ∀ w : Work, w.job ≠ bs "poll" → pollWith q w = false := by
    intro q w hw; cases w <;> first | rfl | exact absurd rfl hw
  refine ⟨ms, h1, ?_, ?_, ?_, ?_, ?_, ?_, ?_, ?_, ?_⟩
  · refine hpoll (.jobCount (bs "poll")) trivial (by decide) (fun w hw => ?_) _ (pollFalse _) (fun lo fresh je trace hp res => ?_)
    · simp [Work.adds, Spec.adds, hw]
    · rcases poll_cases lo fresh je trace hp res with ⟨ev, e, k1, k2, _⟩ | ⟨k1, k2, _⟩ <;> simp [Work.adds, Spec.adds, k1, k2, Work.job, pollWith, completesWith, ne1, ne2]
  · refine hpoll (.jobErrors (bs "poll")) trivial (by decide) (fun w hw => ?_) _ (pollFalse _) (fun lo fresh je trace hp res => ?_)
    · simp [Work.adds, Spec.adds, hw]
    · rcases poll_cases lo fresh je trace hp res with ⟨ev, e, k1, k2, _⟩ | ⟨k1, k2, _⟩ <;> simp [Work.adds, Spec.adds, k1, k2, Work.job, pollWith, completesWith, ne1, ne2]
  · refine hpoll (.jobSuccess (bs "poll")) trivial (by decide) (fun w hw => ?_) _ (pollFalse _) (fun lo fresh je trace hp res => ?_)
    · simp [Work.adds, Spec.adds, hw]
    · rcases poll_cases lo fresh je trace hp res with ⟨ev, e, k1, k2, _⟩ | ⟨k1, k2, _⟩ <;> simp [Work.adds, Spec.adds, k1, k2, Work.job, pollWith, completesWith, ne1, ne2]
  · refine hpoll (.jobError (bs "poll") (bs "poll.client.get")) trivial (by decide) (fun w hw => ?_) _ (fun w hw => by cases w <;> first | rfl | exact absurd rfl hw)
      (fun lo fresh je trace hp res => ?_)
    · simp only [Work.adds]
      refine List.sum_eq_zero fun x hx => ?_
      obtain ⟨y, _, rfl⟩ := List.mem_map.1 hx
      obtain ⟨c, kv⟩ := y
      cases c <;> simp [Spec.adds, hw]
    · have n1 : bs "poll.ioutil.read_all" ≠ bs "poll.client.get" := by decide
      have n2 : bs "poll.json.unmarshall" ≠ bs "poll.client.get" := by decide
      rcases poll_cases lo fresh je trace hp res with ⟨ev, e, k1, k2, ⟨rfl, k3, k4, k5⟩ | ⟨rfl, k3, k4, k5⟩ | ⟨rfl, k3, k4, k5⟩⟩ | ⟨k1, k2, k3, k4, k5⟩ <;>
        simp [Work.adds, Spec.adds, k1, k3, k4, k5, Work.job, n1, n2]
  · refine hpoll (.jobError (bs "poll") (bs "poll.ioutil.read_all")) trivial (by decide) (fun w hw => ?_) _ (fun w hw => by cases w <;> first | rfl | exact absurd rfl hw)
      (fun lo fresh je trace hp res => ?_)
    · simp only [Work.adds]
      refine List.sum_eq_zero fun x hx => ?_
      obtain ⟨y, _, rfl⟩ := List.mem_map.1 hx
      obtain ⟨c, kv⟩ := y
      cases c <;> simp [Spec.adds, hw]
    · have n1 : bs "poll.client.get" ≠ bs "poll.ioutil.read_all" := by decide
      have n2 : bs "poll.json.unmarshall" ≠ bs "poll.ioutil.read_all" := by decide
      rcases poll_cases lo fresh je trace hp res with ⟨ev, e, k1, k2, ⟨rfl, k3, k4, k5⟩ | ⟨rfl, k3, k4, k5⟩ | ⟨rfl, k3, k4, k5⟩⟩ | ⟨k1, k2, k3, k4, k5⟩ <;>
        simp [Work.adds, Spec.adds, k1, k3, k4, k5, Work.job, n1, n2]
  · refine hpoll (.jobError (bs "poll") (bs "poll.json.unmarshall")) trivial (by decide) (fun w hw => ?_) _ (fun w hw => by cases w <;> first | rfl | exact absurd rfl hw)
      (fun lo fresh je trace hp res => ?_)
    · simp only [Work.adds]
      refine List.sum_eq_zero fun x hx => ?_
      obtain ⟨y, _, rfl⟩ := List.mem_map.1 hx
      obtain ⟨c, kv⟩ := y
      cases c <;> simp [Spec.adds, hw]
    · have n1 : bs "poll.client.get" ≠ bs "poll.json.unmarshall" := by decide
      have n2 : bs "poll.ioutil.read_all" ≠ bs "poll.json.unmarshall" := by decide
      rcases poll_cases lo fresh je trace hp res with ⟨ev, e, k1, k2, ⟨rfl, k3, k4, k5⟩ | ⟨rfl, k3, k4, k5⟩ | ⟨rfl, k3, k4, k5⟩⟩ | ⟨k1, k2, k3, k4, k5⟩ <;>
        simp [Work.adds, Spec.adds, k1, k3, k4, k5, Work.job, n1, n2]
  · refine h2 (.jobCount (bs "recalculate")) trivial (by decide) _ (fun t _ => ?_)
    have n1 : bs "poll" ≠ bs "recalculate" := by decide
    cases hw : t.work with
    | poll lo fresh je trace hp res => simp [Work.adds, Spec.adds, Work.job, n1, isRecalculation]
    | recalculate => simp [Work.adds, Spec.adds, Work.job, Work.calls, isRecalculation, completesWith]
    | request e path code => simp [Work.adds, Spec.adds, Work.job, (path_ne e).2.1, isRecalculation]
  · refine h2 (.jobSuccess (bs "recalculate")) trivial (by decide) _ (fun t _ => ?_)
    have n1 : bs "poll" ≠ bs "recalculate" := by decide
    cases hw : t.work with
    | poll lo fresh je trace hp res => simp [Work.adds, Spec.adds, Work.job, n1, isRecalculation]
    | recalculate => simp [Work.adds, Spec.adds, Work.job, Work.calls, isRecalculation, completesWith]
    | request e path code => simp [Work.adds, Spec.adds, Work.job, (path_ne e).2.1, isRecalculation]
  · intro e
    have n1 := (path_ne e).1.symm
    have n2 := (path_ne e).2.1.symm
    have n3 := (path_ne e).2.2.symm
    have key : ∀ c : Counter, Said c → (Spec.adds c (bs "general", .event (bs "starting"))).getD 0 = 0 → (∀ w : Work, w.job ≠ e.path → w.adds c = 0) → ∀ p : Int → Bool,
        (∀ path code, (Work.request e path code).adds c = if p code then 1 else 0) → displayed ms c = number s.threads (requestWith e p) := by
      intro c a1 a2 a3 p a4
      refine h2 c a1 a2 _ (fun t _ => ?_)
      cases hw : t.work with
      | poll lo fresh je trace hp res => rw [a3 (.poll lo fresh je trace hp res) n1]; rfl
      | recalculate => rw [a3 .recalculate n2]; rfl
      | request e' path code =>
        by_cases he : e' = e
        · subst he; rw [a4]; simp [requestWith]
        · rw [a3 (.request e' path code) (fun h => he (path_inj h))]; simp [requestWith, he]
    refine ⟨key (.jobCount e.path) trivial (by simp [Spec.adds, n3]) (fun w hw => by simp [Work.adds, Spec.adds, hw]) _ (fun path code => ?_),
      key (.jobSuccess e.path) trivial (by simp [Spec.adds, n3]) (fun w hw => by simp [Work.adds, Spec.adds, hw]) _ (fun path code => ?_),
      key (.jobErrors e.path) trivial (by simp [Spec.adds, n3]) (fun w hw => by simp [Work.adds, Spec.adds, hw]) _ (fun path code => ?_)⟩
    · simp [Work.adds, Spec.adds, Work.job, Work.calls]
    · exact request_success e path code
    · exact request_error e path code

namespace Sample
/-- two polls, a recalculation and a request at the same time; the first host answers 404 with a JSON error, the second does not answer. -/
def ownSteps : List Step := [.start (.poll (fun _ => 0) 0 (bs "bad json") [1] (bs "h") (.answer 404 (bs "{\"error\": \"not_found\"}") none)),
  .start (.poll (fun _ => 0) 0 (bs "bad json") [2] (bs "i") (.failed (bs "refused"))), .proceed 1, .start .recalculate,
  .start (.request .jobs (bs "/healthd/jobs") 200), .proceed 3, .proceed 0, .proceed 2, .proceed 1, .proceed 3]

theorem own_runs : ∃ s, run clk (boot clk (fun _ => []) (bs "h,i")) ownSteps = some s ∧ AllDone s.threads ∧
    s.threads.map (fun t => (t.work.job, t.done)) = [(bs "poll", 1), (bs "poll", 2), (bs "recalculate", 1), (bs "/healthd/jobs", 2)] ∧
    number s.threads (pollWith (fun r => r.err = none)) = 1 ∧ number s.threads (pollWith (fun r => r.code = 200 ∧ r.err = none)) = 0 ∧
    number s.threads noAnswer = 1 ∧ number s.threads (requestWith .jobs (fun code => code < 400)) = 1 ∧ (heard 1 s.world).length = 7 ∧
    (segments HealthdMain.ownInterval (((heard 1 s.world).map (fun c => ((⟨10, 0⟩ : Time), AggOp.emit (c.toEmit (fun _ => none))))) ++ [(⟨20, 0⟩, .read)])).length ≤ 5 := by
  have hs : (run clk (boot clk (fun _ => []) (bs "h,i")) ownSteps).isSome = true := by decide +kernel
  obtain ⟨s, hs'⟩ := Option.isSome_iff_exists.1 hs
  have key : ∀ {α : Type} (f : State → α) (x : α), (run clk (boot clk (fun _ => []) (bs "h,i")) ownSteps).map f = some x → f s = x := by
    intro α f x h; rw [hs'] at h; simpa using h
  refine ⟨s, hs', ?_, key (fun s => s.threads.map (fun t => (t.work.job, t.done))) _ (by decide +kernel), key (fun s => number s.threads (pollWith (fun r => r.err = none))) _ (by decide +kernel),
    key (fun s => number s.threads (pollWith (fun r => r.code = 200 ∧ r.err = none))) _ (by decide +kernel), key (fun s => number s.threads noAnswer) _ (by decide +kernel),
    key (fun s => number s.threads (requestWith .jobs (fun code => code < 400))) _ (by decide +kernel), key (fun s => (heard 1 s.world).length) _ (by decide +kernel),
    of_decide_eq_true (key (fun s => decide ((segments HealthdMain.ownInterval (((heard 1 s.world).map (fun c => ((⟨10, 0⟩ : Time), AggOp.emit (c.toEmit (fun _ => none))))) ++
      [(⟨20, 0⟩, .read)])).length ≤ 5)) true (by decide +kernel))⟩
  have := key (fun s => s.threads.all (fun t => decide (t.work.calls.length ≤ t.done))) true (by decide +kernel)
  intro t ht
  simpa using List.all_eq_true.1 this t ht
end Sample

/-- C90 is false as it stands: an answer with an error status counts as a successful poll, if it can be read as JSON, although healthd has got no data from the host and does not
count the answer as a success of the host (healthd.go:226). -/
theorem C90_false : ∃ clock env hps es s, run clock (boot clock env hps) es = some s ∧ AllDone s.threads ∧
    ∃ h now ms, (h.flatMap (fun p => emitsOf p.2)) = (heard 1 s.world).map (SinkCall.toEmit (fun _ => none)) ∧
      getMetrics HealthdMain.ownInterval HealthdMain.ownRetain h now = some ms ∧ displayed ms (.jobSuccess (bs "poll")) = 1 ∧
      number s.threads (pollWith (fun r => r.code = 200 ∧ r.err = none)) = 0 := by
  obtain ⟨s, h1, h2, _, h3, h4, _, _, _, h5⟩ := Sample.own_runs
  have hf : (((heard 1 s.world).map (fun c => ((⟨10, 0⟩ : Time), AggOp.emit (c.toEmit (fun _ => none))))).flatMap (fun p => emitsOf p.2)) =
      (heard 1 s.world).map (SinkCall.toEmit (fun _ => none)) := by
    generalize heard 1 s.world = l
    induction l with
    | nil => rfl
    | cons a t ih => rw [List.map_cons, List.map_cons, List.flatMap_cons, ih]; rfl
  obtain ⟨ms, k1, _, _, k2, _⟩ := C90_numbers_partial _ _ _ _ s h1 h2 (fun _ => none) _ ⟨20, 0⟩ (List.Perm.of_eq hf) h5
  exact ⟨_, _, _, _, s, h1, h2, _, ⟨20, 0⟩, ms, hf, k1, by rw [k2, h3], h4⟩

#print axioms C90_reports
#print axioms C90_numbers_partial
#print axioms C90_false
