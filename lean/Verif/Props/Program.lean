import Verif.Spec.Program
import Verif.Model.SinkCommands
import Verif.Props.Stream
import Verif.Props.EndToEnd
import Verif.Props.StatsD
/-!
# From the program's calls to the numbers (C89)
-/
open Spec

namespace World

theorem run_cons (clock : Nat → Int) (w : World) (op : Op) (ops : List Op) : w.run clock (op :: ops) = (w.step clock op).run clock ops := rfl

theorem emit_nojob (clock : Nat → Int) (w : World) (j : Nat) (hj : w.jobs[j]? = none) (c : Call) (inst : MapRef) : w.emit clock j c inst = (w, .nil) := by
  unfold emit; rw [hj]

/-- what an operation does to sinks, job names and the log. -/
theorem step_frame (clock : Nat → Int) (w : World) (hok : Ok w) (op : Op) :
    (w.step clock op).sinks = w.sinks ++ (match op with | .addSink s => [s] | _ => []) ∧
    (w.step clock op).jobs.map (·.name) = w.jobs.map (·.name) ++ (match op with | .newJob n => [n] | _ => []) ∧
    ((∀ j c kvs, op ≠ .emit j c kvs) → (w.step clock op).calls = w.calls) := by
  cases op with
  | addSink s => simp [step, addSink]
  | streamKv k v =>
    simp only [step, streamKv, ensure]
    cases w.kvs <;> simp [mapSet]
  | newJob n => simp [step, newJob]
  | jobKv j k v =>
    simp only [step, jobKv]
    cases hj : w.jobs[j]? with
    | none => simp
    | some job =>
      have hset : ∀ r : MapRef, (w.jobs.set j { job with kvs := r }).map (·.name) = w.jobs.map (·.name) := by
        intro r
        apply List.ext_getElem?
        intro i
        rw [List.map_set, List.getElem?_set, List.getElem?_map]
        split
        · next h =>
          subst h
          obtain ⟨hlt, he⟩ := List.getElem?_eq_some_iff.1 hj
          simp [hlt, he]
        · rfl
      simp only [ensure]
      cases hk : job.kvs <;> simp [mapSet, hset]
  | newMap m => simp [step, newMap]
  | mapSet i k v => simp [step, mapSet]
  | emit j c kvs =>
    cases hj : w.jobs[j]? with
    | none => simp [step, emit_nojob clock w j hj]
    | some job =>
      obtain ⟨new, extra, kvs', em, hs, _⟩ := emit_spec clock w hok.maps j job hj c kvs
      simp [step, hs.sinks, hs.jobs]

end World

theorem forall₂_snoc {α β : Type} {R : α → β → Prop} {l : List α} {m : List β} {a : α} {b : β} (h : List.Forall₂ R l m) (hab : R a b) :
    List.Forall₂ R (l ++ [a]) (m ++ [b]) := by
  induction h with
  | nil => exact .cons hab .nil
  | cons h1 _ ih => exact .cons h1 ih

/-- one call of the sink per emission. -/
theorem fanOut_once {sinks : List Nat} {job : Str} {ok : Payload → Prop} {new : List SinkCall} (h : FanOut sinks job ok new) {s : Nat}
    (hs : sinks.filter (· = s) = [s]) : ∃ c, new.filter (fun c => c.sink = s) = [c] ∧ c.job = job ∧ ok c.payload := by
  have hm : (new.filter (fun c => c.sink = s)).map (·.sink) = [s] := by
    rw [← hs, ← h.1, List.filter_map]
    rfl
  match hl : new.filter (fun c => c.sink = s) with
  | [] => rw [hl] at hm; cases hm
  | [c] =>
    have hc : c ∈ new.filter (fun c => c.sink = s) := by rw [hl]; simp
    exact ⟨c, hl, h.2.1 c (List.mem_of_mem_filter hc)⟩
  | c :: c' :: t => rw [hl] at hm; simp at hm

/-- from a world in which `s` is attached once: the sink hears the statements, in order. -/
theorem heard_run (clock : Nat → Int) (s : Nat) (ops : List World.Op) : ∀ (w : World), Reachable clock w → w.sinks.filter (· = s) = [s] →
    LegalRun clock w ops → World.Op.addSink s ∉ ops →
    ∃ hs, heard s (w.run clock ops) = heard s w ++ hs ∧ List.Forall₂ Conveys hs (statements (w.jobs.map (·.name)) ops) := by
  induction ops with
  | nil => intro w _ _ _ _; exact ⟨[], by simp [World.run], .nil⟩
  | cons op t ih =>
    intro w hw hsk hl hno
    have hok := World.reachable_ok hw
    have hw' : Reachable clock (w.step clock op) := World.Reachable.run hw [op] ⟨hl.1, trivial⟩
    obtain ⟨f1, f2, f3⟩ := World.step_frame clock w hok op
    have hsk' : (w.step clock op).sinks.filter (· = s) = [s] := by
      rw [f1, List.filter_append, hsk]
      cases op with
      | addSink s' =>
        have : s' ≠ s := by rintro rfl; exact hno (by simp)
        simp [this]
      | _ => simp
    obtain ⟨hs, h1, h2⟩ := ih (w.step clock op) hw' hsk' hl.2 (fun hm => hno (by simp [hm]))
    rw [World.run_cons, h1]
    rw [f2] at h2
    cases op with
    | emit j c kvs =>
      simp only [List.append_nil] at h2
      cases hj : w.jobs[j]? with
      | none =>
        refine ⟨hs, by simp [World.step, World.emit_nojob clock w j hj], ?_⟩
        simpa [statements, hj] using h2
      | some job =>
        obtain ⟨e1, e2, _⟩ := C03_fan_out clock w hw j job hj c kvs
        obtain ⟨x, hx, hx1, hx2⟩ := fanOut_once e2 hsk
        refine ⟨x :: hs, ?_, ?_⟩
        · simp [World.step, heard, e1, List.filter_append, hx]
        · simp only [statements, List.getElem?_map, hj, Option.map_some, Option.toList_some, List.map_cons, List.map_nil, List.cons_append, List.nil_append]
          refine .cons ⟨hx1, ?_⟩ h2
          cases c with
          | event ev => exact hx2
          | timing ev n => exact hx2
          | gauge ev v => exact hx2
          | complete st => obtain ⟨i, hi⟩ := hx2; exact ⟨_, hi⟩
          | eventErr ev e tr =>
            refine ⟨_, hx2, ?_⟩
            rw [(World.emit_err clock w j job hj ev e tr kvs).1]
            cases e <;> rfl
    | addSink s' => exact ⟨hs, by rw [heard, f3 (by simp)]; rfl, by simpa [statements] using h2⟩
    | streamKv k v => exact ⟨hs, by rw [heard, f3 (by simp)]; rfl, by simpa [statements] using h2⟩
    | newJob n => exact ⟨hs, by rw [heard, f3 (by simp)]; rfl, by simpa [statements] using h2⟩
    | jobKv j k v => exact ⟨hs, by rw [heard, f3 (by simp)]; rfl, by simpa [statements] using h2⟩
    | newMap m => exact ⟨hs, by rw [heard, f3 (by simp)]; rfl, by simpa [statements] using h2⟩
    | mapSet i k v => exact ⟨hs, by rw [heard, f3 (by simp)]; rfl, by simpa [statements] using h2⟩

theorem names_run (clock : Nat → Int) (ops : List World.Op) (hl : LegalRun clock (World.newStream clock) ops) :
    ((World.newStream clock).run clock ops).jobs.map (·.name) = jobNames ops := by
  induction ops using snocInduction with
  | nil => rfl
  | snoc l op ih =>
    obtain ⟨hl1, hl2⟩ := (World.legalRun_append _ _ _ _).1 hl
    have hok := (World.Ok.newStream clock).run l hl1
    rw [World.run_append]
    show (((World.newStream clock).run clock l).step clock op).jobs.map (·.name) = _
    rw [(World.step_frame clock _ hok op).2.1, ih hl1]
    unfold jobNames
    rw [List.filterMap_append]
    cases op <;> simp

/-- the sink hears nothing before it is attached. -/
theorem heard_before (clock : Nat → Int) (ops : List World.Op) (hl : LegalRun clock (World.newStream clock) ops) {s : Nat}
    (hno : World.Op.addSink s ∉ ops) : heard s ((World.newStream clock).run clock ops) = [] ∧ s ∉ ((World.newStream clock).run clock ops).sinks := by
  induction ops using snocInduction with
  | nil => exact ⟨rfl, by simp [World.run, World.newStream, World.newJob]⟩
  | snoc l op ih =>
    obtain ⟨hl1, hl2⟩ := (World.legalRun_append _ _ _ _).1 hl
    obtain ⟨i1, i2⟩ := ih hl1 (fun hm => hno (by simp [hm]))
    have hw : Reachable clock ((World.newStream clock).run clock l) := ⟨l, hl1, rfl⟩
    have hok := World.reachable_ok hw
    rw [World.run_append]
    show heard s (((World.newStream clock).run clock l).step clock op) = [] ∧ s ∉ (((World.newStream clock).run clock l).step clock op).sinks
    obtain ⟨f1, _, f3⟩ := World.step_frame clock _ hok op
    refine ⟨?_, ?_⟩
    · by_cases he : ∃ j c kvs, op = .emit j c kvs
      · obtain ⟨j, c, kvs, rfl⟩ := he
        cases hj : ((World.newStream clock).run clock l).jobs[j]? with
        | none =>
          show heard s (World.emit clock _ j c kvs).1 = []
          rw [World.emit_nojob clock _ j hj]; exact i1
        | some job =>
          obtain ⟨e1, e2, _⟩ := C03_fan_out clock _ hw j job hj c kvs
          show heard s (World.emit clock _ j c kvs).1 = []
          unfold heard at i1 ⊢
          rw [e1, List.filter_append, i1, List.nil_append, List.filter_eq_nil_iff]
          intro x hx hxs
          simp only [decide_eq_true_eq] at hxs
          exact i2 (by rw [← e2.1, ← hxs]; exact List.mem_map_of_mem hx)
      · have : (((World.newStream clock).run clock l).step clock op).calls = _ := f3 (fun j c kvs e => he ⟨j, c, kvs, e⟩)
        unfold heard at i1 ⊢
        rw [this]; exact i1
    · rw [f1]
      intro hm
      rcases List.mem_append.1 hm with hm | hm
      · exact i2 hm
      · cases op with
        | addSink s' =>
          simp only [List.mem_singleton] at hm
          subst hm
          exact hno (by simp)
        | _ => simp at hm

/-- C89: whatever the program does with stream, jobs and key/values, a sink attached once hears exactly the statements that the program makes from then on, in the program's
order, each under the name of its job. -/
theorem C89_heard (clock : Nat → Int) (s : Nat) (before after : List World.Op) (hl : LegalRun clock (World.newStream clock) (before ++ .addSink s :: after))
    (hb : World.Op.addSink s ∉ before) (ha : World.Op.addSink s ∉ after) :
    List.Forall₂ Conveys (heard s ((World.newStream clock).run clock (before ++ .addSink s :: after))) (statements (jobNames before) after) := by
  have e : before ++ .addSink s :: after = (before ++ [.addSink s]) ++ after := by simp
  rw [e] at hl ⊢
  obtain ⟨hl1, hl2⟩ := (World.legalRun_append _ _ _ _).1 hl
  obtain ⟨hl0, _⟩ := (World.legalRun_append _ _ _ _).1 hl1
  obtain ⟨h1, h2⟩ := heard_before clock before hl0 hb
  have hw : Reachable clock ((World.newStream clock).run clock (before ++ [.addSink s])) := ⟨_, hl1, rfl⟩
  have hstep : (World.newStream clock).run clock (before ++ [.addSink s]) = ((World.newStream clock).run clock before).addSink s := by
    rw [World.run_append]; rfl
  have hsk : ((World.newStream clock).run clock (before ++ [.addSink s])).sinks.filter (· = s) = [s] := by
    rw [hstep]
    simp only [World.addSink, List.filter_append]
    rw [List.filter_eq_nil_iff.2 (by intro x hx; simp only [decide_eq_true_eq]; rintro rfl; exact h2 hx)]
    simp
  obtain ⟨hs, h3, h4⟩ := heard_run clock s after _ hw hsk hl2 ha
  rw [World.run_append, h3]
  have h5 : heard s ((World.newStream clock).run clock (before ++ [.addSink s])) = [] := by
    rw [hstep]; exact h1
  rw [h5, List.nil_append]
  have h6 : ((World.newStream clock).run clock (before ++ [.addSink s])).jobs.map (·.name) = jobNames before := by
    rw [hstep, ← names_run clock before hl0]; rfl
  rw [h6] at h4
  exact h4

namespace Sample
/-- two jobs of the same name, key/values, an error, a sink attached late. -/
def progBefore : List World.Op := [.addSink 1, .newJob (bs "web"), .emit 1 (.event (bs "early")) none]
def progAfter : List World.Op := [.streamKv (bs "host") (bs "a"), .emit 1 (.event (bs "hit")) none, .newJob (bs "web"), .jobKv 2 (bs "u") (bs "7"),
  .emit 2 (.event (bs "hit")) none, .emit 0 (.event (bs "hit")) none, .emit 2 (.eventErr (bs "db") (.other (bs "down")) [4]) none,
  .emit 2 (.timing (bs "q") 5) none, .emit 1 (.timing (bs "q") 7) none, .emit 2 (.complete Status.error) none, .emit 1 (.complete Status.success) none]
theorem prog_legal : LegalRun clk (World.newStream clk) (progBefore ++ .addSink 2 :: progAfter) := by
  simp [progBefore, progAfter, LegalRun, LegalOp, objId]
end Sample

example : LegalRun Sample.clk (World.newStream Sample.clk) (Sample.progBefore ++ .addSink 2 :: Sample.progAfter) ∧ World.Op.addSink 2 ∉ Sample.progBefore ∧
    World.Op.addSink 2 ∉ Sample.progAfter ∧ statements (jobNames Sample.progBefore) Sample.progAfter =
      [(bs "web", .event (bs "hit")), (bs "web", .event (bs "hit")), (bs "general", .event (bs "hit")), (bs "web", .eventErr (bs "db") (.other (bs "down")) [4]),
        (bs "web", .timing (bs "q") 5), (bs "web", .timing (bs "q") 7), (bs "web", .complete Status.error), (bs "web", .complete Status.success)] :=
  ⟨Sample.prog_legal, by simp [Sample.progBefore], by simp [Sample.progAfter], by decide +kernel⟩

/-! ## The polling sink -/

theorem contrib_conveys (deep : GoErr → Option Err) {c : Counter} (hc : Said c) {x : SinkCall} {m : Str × World.Call} (h : Conveys x m) :
    contrib c (x.toEmit deep) = adds c m := by
  obtain ⟨job, call⟩ := m
  obtain ⟨h1, h2⟩ := h
  simp only at h1 h2
  subst h1
  cases call with
  | event ev => simp only at h2; cases c <;> simp_all [SinkCall.toEmit, contrib, adds, jobOf, hasStatus, completesWith, Said]
  | eventErr ev e tr => simp only at h2; obtain ⟨g, h2, _⟩ := h2; cases c <;> simp_all [SinkCall.toEmit, contrib, adds, jobOf, hasStatus, completesWith, Said]
  | timing ev n => simp only at h2; cases c <;> simp_all [SinkCall.toEmit, contrib, adds, jobOf, hasStatus, completesWith, Said]
  | gauge ev v => simp only at h2; cases c <;> simp_all [SinkCall.toEmit, contrib, adds, jobOf, hasStatus, completesWith, Said]
  | complete st => simp only at h2; obtain ⟨n, h2⟩ := h2; cases c <;> simp_all [SinkCall.toEmit, contrib, adds, jobOf, hasStatus, completesWith, Said]

theorem expected_conveys (deep : GoErr → Option Err) {c : Counter} (hc : Said c) {hs : List SinkCall} {ms : List (Str × World.Call)} (h : List.Forall₂ Conveys hs ms) :
    expected c (hs.map (SinkCall.toEmit deep)) = sumI (ms.map (adds c)) := by
  unfold expected
  congr 1
  rw [List.map_map]
  induction h with
  | nil => rfl
  | cons h1 _ ih => simp only [List.map_cons, Function.comp, contrib_conveys deep hc h1]; rw [← ih]

/-- the numbers shown, from the calls of the sink. -/
theorem metrics_heard {hs : List SinkCall} {stm : List (Str × World.Call)} (hc : List.Forall₂ Conveys hs stm) (deep : GoErr → Option Err) (d r : Int) (hd : 0 < d)
    (hr : d ≤ r) (h : List (Time × AggOp)) (now : Time) (hh : (h.flatMap (fun p => emitsOf p.2)).Perm (hs.map (SinkCall.toEmit deep)))
    (hkeep : (segments d (h ++ [(now, .read)])).length ≤ (r / d).toNat) :
    ∃ ms, getMetrics d r h now = some ms ∧ ∀ c, Said c → sumI (ms.map (fun ia => value ia c)) = sumI (stm.map (adds c)) := by
  refine ⟨_, getMetrics_eq hd hr h now, fun c hsaid => ?_⟩
  have hret : retained d r (h ++ [(now, .read)]) = segments d (h ++ [(now, .read)]) := by
    unfold retained lastN
    rw [Nat.sub_eq_zero_of_le hkeep, List.drop_zero]
  rw [hret, List.map_map]
  have h1 : (segments d (h ++ [(now, .read)])).map ((fun ia => value ia c) ∘ aggOfSeg) = (segments d (h ++ [(now, .read)])).map (fun p => expected c p.2) := by
    apply List.map_congr_left
    intro p _
    exact value_aggOf _ _ c
  rw [h1, EndToEnd.expected_flatMap c, segments_flatten]
  have h2 : (h ++ [(now, AggOp.read)]).flatMap (fun p => emitsOf p.2) = h.flatMap (fun p => emitsOf p.2) := by
    simp [emitsOf]
  rw [h2, ← expected_conveys deep hsaid hc]
  exact sumI_perm (hh.map _)

/-- C89: the numbers of the metrics, added up over the intervals shown, are the program's: for every event, error, timing and job, whatever the goroutines' and the clock's
doings, as long as no interval has dropped out of retention.  `h`: what the sink's worker has done, with the clock readings; the emissions in it are those of the sink's
calls, in any order. -/
theorem C89_metrics (clock : Nat → Int) (s : Nat) (before after : List World.Op) (hl : LegalRun clock (World.newStream clock) (before ++ .addSink s :: after))
    (hb : World.Op.addSink s ∉ before) (ha : World.Op.addSink s ∉ after) (deep : GoErr → Option Err) (d r : Int) (hd : 0 < d) (hr : d ≤ r)
    (h : List (Time × AggOp)) (now : Time)
    (hh : (h.flatMap (fun p => emitsOf p.2)).Perm ((heard s ((World.newStream clock).run clock (before ++ .addSink s :: after))).map (SinkCall.toEmit deep)))
    (hkeep : (segments d (h ++ [(now, .read)])).length ≤ (r / d).toNat) :
    ∃ ms, getMetrics d r h now = some ms ∧ ∀ c, Said c →
      sumI (ms.map (fun ia => value ia c)) = sumI ((statements (jobNames before) after).map (adds c)) :=
  metrics_heard (C89_heard clock s before after hl hb ha) deep d r hd hr h now hh hkeep

/-! ## The StatsD sink -/

/-- the lines for a statement (with a measured duration for a completion). -/
def Spec.LinesFor (o : StatsDOpts) (m : Str × World.Call) (lines : List Str) : Prop :=
  ∃ cmd : SdCmd, lines = ((metricsOf o cmd).filter Metric.fits).map Metric.line ∧
    match m.2 with
    | .event ev => cmd = .event m.1 ev
    | .eventErr ev _ _ => cmd = .eventErr m.1 ev
    | .timing ev n => cmd = .timing m.1 ev n
    | .gauge ev v => cmd = .gauge m.1 ev v
    | .complete st => ∃ n, cmd = .complete m.1 st n

/-- the commands among the sink's operations. -/
def Spec.cmds (ops : List StatsD.Op) : List SdCmd := ops.filterMap (fun | .cmd c => some c | .flush => none)

/-- C89: a StatsD sink that has processed everything, with any flushes in between, has handed over the lines for the program's statements, in order, and nothing else. -/
theorem C89_statsd (clock : Nat → Int) (s : Nat) (before after : List World.Op) (hl : LegalRun clock (World.newStream clock) (before ++ .addSink s :: after))
    (hb : World.Op.addSink s ∉ before) (ha : World.Op.addSink s ∉ after) (o : StatsDOpts) (ops : List StatsD.Op)
    (hops : cmds ops =
      (heard s ((World.newStream clock).run clock (before ++ .addSink s :: after))).map SinkCall.toSd) :
    ∃ lines : List (List Str), List.Forall₂ (fun ls m => LinesFor o m ls) lines (statements (jobNames before) after) ∧
      stream ((StatsD.fresh o).run ops) = lines.flatten.flatten := by
  have key := C89_heard clock s before after hl hb ha
  generalize heard s ((World.newStream clock).run clock (before ++ .addSink s :: after)) = hs at hops key
  generalize statements (jobNames before) after = ms at key
  refine ⟨hs.map (fun c => ((metricsOf o c.toSd).filter Metric.fits).map Metric.line), ?_, ?_⟩
  · clear hops
    induction key with
    | nil => exact .nil
    | @cons x m _ _ h1 _ ih =>
      refine .cons ⟨x.toSd, rfl, ?_⟩ ih
      obtain ⟨job, call⟩ := m
      obtain ⟨e1, e2⟩ := h1
      simp only at e1 e2
      subst e1
      cases call with
      | event ev => simp only at e2 ⊢; simp [SinkCall.toSd, e2]
      | eventErr ev e tr => simp only at e2 ⊢; obtain ⟨g, e2, _⟩ := e2; simp [SinkCall.toSd, e2]
      | timing ev n => simp only at e2 ⊢; simp [SinkCall.toSd, e2]
      | gauge ev v => simp only at e2 ⊢; simp [SinkCall.toSd, e2]
      | complete st => simp only at e2 ⊢; obtain ⟨n, e2⟩ := e2; exact ⟨n, by simp [SinkCall.toSd, e2]⟩
  · rw [stream_eq]
    have : sent o ops = hs.flatMap (fun c => (metricsOf o c.toSd).filter Metric.fits) := by
      have h1 : sent o ops = ((cmds ops).flatMap (metricsOf o)).filter Metric.fits := by
        unfold sent
        congr 1
        clear hops
        induction ops with
        | nil => rfl
        | cons a t ih => cases a <;> simp [cmds, List.flatMap_cons] <;> exact ih
      rw [h1, hops, List.flatMap_map, List.filter_flatMap]
    rw [this]
    simp [List.flatMap_def, List.map_flatten, Function.comp_def]

namespace Sample
/-- what the late sink hears, and a history of its worker: half of it in one interval, the rest, reversed, in the next. -/
def progHeard : List Emit := (heard 2 ((World.newStream clk).run clk (progBefore ++ .addSink 2 :: progAfter))).map (SinkCall.toEmit (fun _ => none))
def progHist : List (Time × AggOp) := (progHeard.take 4).map (fun e => (⟨10, 0⟩, .emit e)) ++ ((progHeard.drop 4).reverse).map (fun e => (⟨70, 0⟩, .emit e))
end Sample

example : (Sample.progHist.flatMap (fun p => emitsOf p.2)).Perm Sample.progHeard ∧
    (segments 60 (Sample.progHist ++ [(⟨75, 0⟩, .read)])).length = 2 ∧ Sample.progHeard.length = 8 ∧
    (let stm := statements (jobNames Sample.progBefore) Sample.progAfter
     [Counter.event (bs "hit"), .jobEvent (bs "web") (bs "hit"), .jobEvent (bs "general") (bs "hit"), .event (bs "early")].map (fun c => sumI (stm.map (adds c))) =
      [some 3, some 2, some 1, none]) := by
  refine ⟨?_, by decide +kernel, by decide +kernel, by decide +kernel⟩
  have : Sample.progHist.flatMap (fun p => emitsOf p.2) = Sample.progHeard.take 4 ++ (Sample.progHeard.drop 4).reverse := by decide +kernel
  rw [this]
  conv => rhs; rw [← List.take_append_drop 4 Sample.progHeard]
  exact (List.Perm.refl _).append (List.reverse_perm _)

example : cmds (StatsD.Op.flush :: ((heard 2 ((World.newStream Sample.clk).run Sample.clk (Sample.progBefore ++ .addSink 2 :: Sample.progAfter))).map SinkCall.toSd).flatMap
      (fun c => [.cmd c, .flush])) =
    (heard 2 ((World.newStream Sample.clk).run Sample.clk (Sample.progBefore ++ .addSink 2 :: Sample.progAfter))).map SinkCall.toSd := by decide +kernel

#print axioms C89_heard
#print axioms C89_metrics
#print axioms C89_statsd
