import Verif.Props.Concurrent
import Verif.Props.System
import Verif.Spec.ConcurrentSystem
/-!
# C92 continued: the numbers are those of all the goroutines' programs
-/
open Spec Spec.Top Healthd EndToEnd Api Healthtop
namespace Concurrent

theorem filter_tells {k : Nat} {xs : List (Nat × Stmt)} {cs : List SinkCall} (h : List.Forall₂ TellsTo xs cs) :
    List.Forall₂ TellsTo (xs.filter (fun x => x.1 = k)) (cs.filter (fun c => c.sink = k)) := by
  induction h with
  | nil => exact .nil
  | @cons x c _ _ h1 _ ih =>
    have e : c.sink = x.1 := h1.1
    by_cases hk : x.1 = k
    · rw [List.filter_cons_of_pos (by simpa using hk), List.filter_cons_of_pos (by simpa [e] using hk)]
      exact .cons h1 ih
    · rw [List.filter_cons_of_neg (by simpa using hk), List.filter_cons_of_neg (by simpa [e] using hk)]
      exact ih

theorem toEach_filter {k : Nat} {sinks : List Nat} (h : sinks.filter (· = k) = [k]) (ms : List Stmt) : (toEach sinks ms).filter (fun x => x.1 = k) = ms.map (fun m => (k, m)) := by
  unfold toEach
  induction ms with
  | nil => rfl
  | cons m ms ih =>
    rw [List.flatMap_cons, List.filter_append, ih, List.map_cons]
    have : (sinks.map (fun s => (s, m))).filter (fun x => x.1 = k) = (sinks.filter (· = k)).map (fun s => (s, m)) := by
      rw [List.filter_map]; rfl
    rw [this, h]
    rfl

theorem conveys_of_tells {k : Nat} {ms : List Stmt} {cs : List SinkCall} (h : List.Forall₂ TellsTo (ms.map (fun m => (k, m))) cs) :
    List.Forall₂ Conveys cs (ms.map (fun m => (m.1, m.2.1))) := by
  induction ms generalizing cs with
  | nil => cases h; exact .nil
  | cons m ms ih =>
    cases h with
    | cons h1 h2 => exact .cons h1.2.1 (ih h2)

/-- a log sorted by goroutine. -/
theorem log_perm {α : Type} (n : Nat) : ∀ (l : List (Nat × α)), (∀ x ∈ l, x.1 < n) →
    ((List.range n).flatMap (fun a => (l.filter (fun x => x.1 = a)).map (·.2))).Perm (l.map (·.2))
  | [], _ => by simp
  | x :: l, h => by
    have ih := log_perm n l (fun y hy => h y (by simp [hy]))
    have e : ∀ a, (((x :: l).filter (fun x => x.1 = a)).map (·.2)) = (if x.1 = a then [x.2] else []) ++ (l.filter (fun x => x.1 = a)).map (·.2) := by
      intro a
      by_cases ha : x.1 = a
      · rw [List.filter_cons_of_pos (by simpa using ha), if_pos ha]; rfl
      · rw [List.filter_cons_of_neg (by simpa using ha), if_neg ha]; rfl
    simp only [e]
    refine (flatMap_append_perm _ _ _).trans ?_
    rw [List.map_cons]
    refine List.Perm.append (l₂ := [x.2]) (List.Perm.of_eq ?_) ih
    apply flatMap_one (fun a => x.1 = a) [x.2] (List.range n)
    rw [show (fun t => decide (x.1 = t)) = (fun t => t == x.1) by funext t; rw [Bool.eq_iff_iff, decide_eq_true_iff, beq_iff_eq]; exact eq_comm]
    show (List.range n).count x.1 = 1
    exact List.count_eq_one_of_mem List.nodup_range (List.mem_range.2 (h x (by simp)))

theorem flatMap_range_getElem {α β : Type} (f : α → List β) : ∀ (l : List α) , (List.range l.length).flatMap (fun a => (l[a]?.toList).flatMap f) = l.flatMap f
  | [] => rfl
  | x :: l => by
    rw [List.length_cons, List.range_succ_eq_map, List.flatMap_cons, List.flatMap_map]
    simp only [List.getElem?_cons_zero, Option.toList_some, List.flatMap_cons, List.flatMap_nil, List.append_nil, List.getElem?_cons_succ, Nat.succ_eq_add_one]
    rw [flatMap_range_getElem f l]

/-- C92: when all goroutines have ended, a sink added once has heard, in some order, exactly the statements of all their programs. -/
theorem C92_heard {clock : Nat → Int} {w0 : World} (h0 : Reachable clock w0) {progs : List (List Op)} (hd : ∀ p ∈ progs, Disciplined w0.jobs.length 0 p)
    {sched : List Nat} {s : State} (hr : run clock (start w0 progs) sched = some s) (hE : ∀ t ∈ s.threads, Ended t) {k : Nat} (hk : w0.sinks.filter (· = k) = [k]) :
    ∃ hs, hs.Perm (heardBy k s) ∧ List.Forall₂ Conveys hs (progs.flatMap (saidBy w0)) := by
  obtain ⟨h1, h2, h3⟩ := C92_calls h0 hd hr
  refine ⟨(List.range progs.length).flatMap (fun a => (callsOf a s).filter (fun c => c.sink = k)), ?_, ?_⟩
  · have := (log_perm progs.length s.log h1).filter (fun c => c.sink = k)
    rw [List.filter_flatMap] at this
    exact this
  · rw [← flatMap_range_getElem (saidBy w0) progs]
    have key : ∀ n, n ≤ progs.length → List.Forall₂ Conveys ((List.range n).flatMap (fun a => (callsOf a s).filter (fun c => c.sink = k)))
        ((List.range n).flatMap (fun a => (progs[a]?.toList).flatMap (saidBy w0))) := by
      intro n
      induction n with
      | zero => intro _; exact .nil
      | succ n ih =>
        intro hn
        rw [List.range_succ, List.flatMap_append, List.flatMap_append]
        refine List.rel_append (ih (by omega)) ?_
        have hlt : n < progs.length := hn
        have hlt' : n < s.threads.length := by omega
        obtain ⟨D, _, g2, g3⟩ := h3 n progs[n] s.threads[n] (by simp [hlt]) (by simp [hlt'])
        rw [g3 (hE _ (List.getElem_mem hlt'))] at g2
        have := filter_tells (k := k) g2
        rw [toEach_filter hk] at this
        simp only [List.flatMap_cons, List.flatMap_nil, List.append_nil, List.getElem?_eq_getElem hlt, Option.toList_some]
        exact conveys_of_tells this
    exact key _ (Nat.le_refl _)

theorem sink_once {clock : Nat → Int} {k : Nat} {before after : List World.Op} (hl : LegalRun clock (World.newStream clock) (before ++ .addSink k :: after))
    (hb : World.Op.addSink k ∉ before) (ha : World.Op.addSink k ∉ after) :
    ((World.newStream clock).run clock (before ++ .addSink k :: after)).sinks.filter (· = k) = [k] := by
  have key : ∀ f : World.Op → Option Nat, (∀ s, f (.addSink s) = some s) → (∀ op x, f op = some x → op = .addSink x) →
      ((before ++ .addSink k :: after).filterMap f).filter (· = k) = [k] := by
    intro f hf1 hf2
    have none : ∀ l : List World.Op, World.Op.addSink k ∉ l → (l.filterMap f).filter (· = k) = [] := by
      intro l h
      rw [List.filter_eq_nil_iff]
      intro x hx
      obtain ⟨op, hop, he⟩ := List.mem_filterMap.1 hx
      rw [hf2 op x he] at hop
      simp only [decide_eq_true_eq]
      rintro rfl
      exact h hop
    rw [List.filterMap_append, List.filterMap_cons_some (hf1 k), List.filter_append, none before hb, List.nil_append, List.filter_cons_of_pos (by simp), none after ha]
  rw [C03_sinks_in_order clock _ hl]
  refine key _ (fun s => rfl) (fun op x hx => ?_)
  cases op <;> simp at hx
  rw [hx]

/-- the process' sink has received what the program says. -/
theorem speaks_of_many {p : Process} {g : ManyProgram} (h : RunsMany p g) : Speaks p g.statements := by
  obtain ⟨s, e, hp⟩ := h
  obtain ⟨hs, h1, h2⟩ := C92_heard (w0 := g.world) ⟨_, e.legal, rfl⟩ e.disciplined e.run e.ended (sink_once e.legal e.before e.after)
  refine ⟨g.deep, heard g.sink g.world ++ hs, hp.trans (List.Perm.map _ (List.Perm.append_left _ h1.symm)), List.rel_append ?_ h2⟩
  exact C89_heard g.clock g.sink g.before g.after e.legal e.before e.after

/-- C92: the numbers of the metrics, added up over the intervals shown, are those of all the goroutines' programs, whatever the schedule. -/
theorem C92_metrics {p : Process} {g : ManyProgram} (h : RunsMany p g) (d r : Int) (hd : 0 < d) (hr : d ≤ r) (now : Time)
    (hkeep : (segments d (p.hist ++ [(now, .read)])).length ≤ (r / d).toNat) :
    ∃ ms, getMetrics d r p.hist now = some ms ∧ ∀ c, Said c → sumI (ms.map (fun ia => value ia c)) = sumI (g.statements.map (adds c)) := by
  obtain ⟨deep, hs, h1, h2⟩ := speaks_of_many h
  exact metrics_heard h2 deep d r hd hr p.hist now h1 hkeep

end Concurrent


/-- C92: the whole chain for programs with many goroutines each, cf. `C91_system`. -/
theorem C92_system {sort : List IntAgg → List IntAgg} (hsort : SortsByStart sort) {hosts : List Str} {h : List Healthd.Op} {s : Healthd.State} (hr : Runs sort (init hosts) h s)
    {lo : Int → Int} {d : Int} {P : List Process} (f : Fleet lo d P h) (hu : ∀ a ∈ s.intervalAggregations, UpToDate lo d P h a.start)
    {G : List ManyProgram} (hpg : List.Forall₂ RunsMany P G) (hcov : ∀ p ∈ P, Covers d (s.intervalAggregations.map (·.start)) p)
    (c : Choices) (hc : c.Ok) {identifier : Str} (hi : PlainText identifier) (zone : Nat → Int → Int) (v : View) (hd : InI64 v.intervalDuration)
    (hv : v.aggregations = some (memorySafeIntervals s)) {o : IntAgg} (ho : combineAggregations (memorySafeIntervals s) = some o)
    (hp : ∀ k j, o.jobs.get? k = some j → Sound k j) (opts : Opts) (height : Int) (hh : height < 2 ^ 63) (jsonErr : Str) :
    ∃ all shown : List Row, (all.map (·.name)).Nodup ∧
      (∀ n, n ∈ all.map (·.name) ↔ ∃ m ∈ G.flatMap ManyProgram.statements, m.1 = n) ∧
      (∀ r ∈ all, RowSays r (G.flatMap ManyProgram.statements)) ∧
      (∀ k : SortKey, opts.sort = k.text → all.Pairwise (mayPrecede k)) ∧
      (opts.name = [] → shown = all.take (max (height - 2) 3).toNat) ∧
      (opts.name ≠ [] → shown.Sublist all ∧ ∀ r, r ∈ shown ↔ r ∈ all ∧ Contains r.name opts.name) ∧
      let r := respond c identifier zone v (askedSort opts height) (askedLimit opts height) .jobs
      pollJobs opts jsonErr (.answer r.code r.body none) = some (.ok ⟨identifier, v.intervalDuration, shown.map some⟩) := by
  have hpm : List.Forall₂ Speaks P (G.map ManyProgram.statements) := by
    clear hcov hu f
    induction hpg with
    | nil => exact .nil
    | cons h1 _ ih => exact .cons (Concurrent.speaks_of_many h1) ih
  rw [List.flatMap_def]
  exact C91_stated hsort hr f hu hpm hcov c hc hi zone v hd hv ho hp opts height hh jsonErr

/-! ## The hypotheses can be met: the processes of the sample of C91, with goroutines -/
namespace Concurrent.Sample

/-- two goroutines with shared jobs. -/
def manyA : ManyProgram := ⟨_root_.Sample.clk, 3, [.newJob (bs "j"), .newJob (bs "j")], [],
  [[.emit (.shared 1) (.complete Status.error) none], [.emit (.shared 1) (.event (bs "e")) none, .emit (.shared 2) (.complete Status.success) none]],
  [0, 0, 1, 0, 1, 0, 1, 1, 1, 0, 1, 0, 1, 0] ++ List.replicate 7 1, fun _ => none⟩

/-- a goroutine with its own jobs. -/
def manyB : ManyProgram := ⟨_root_.Sample.clk, 3, [.addSink 1, .emit 0 (.event (bs "early")) none], [],
  [[.newJob (bs "k"), .emit (.own 0) (.complete Status.success) none, .newJob (bs "j"), .emit (.own 1) (.complete Status.junk) none]], List.replicate 18 0, fun _ => none⟩

def outcome (g : ManyProgram) (s : Concurrent.State) : List (List Op × Pc) × List Emit :=
  (s.threads.map (fun t => (t.todo, t.pc)), (heard g.sink g.world ++ heardBy g.sink s).map (SinkCall.toEmit g.deep))

theorem ended_of {s : Concurrent.State} (h : ∀ x ∈ s.threads.map (fun t => (t.todo, t.pc)), x = ([], .idle)) : ∀ t ∈ s.threads, Ended t := by
  intro t ht
  have := h _ (List.mem_map_of_mem (f := fun t : Thread => (t.todo, t.pc)) ht)
  exact ⟨(Prod.ext_iff.1 this).1, (Prod.ext_iff.1 this).2⟩

theorem runsA : RunsMany System.procA manyA := by
  have h : (run manyA.clock (start manyA.world manyA.progs) manyA.sched).map (outcome manyA) =
      some ([([], .idle), ([], .idle)], [.event (bs "j") (bs "e"), .complete (bs "j") Status.error 20, .complete (bs "j") Status.success 20]) := by decide +kernel
  obtain ⟨s, hs, h1⟩ := Option.map_eq_some_iff.1 h
  obtain ⟨h2, h3⟩ := Prod.ext_iff.1 h1
  simp only [outcome] at h2 h3
  have hl : manyA.world.jobs.length = 3 := by decide +kernel
  refine ⟨s, ⟨⟨trivial, trivial, trivial, trivial⟩, by simp [manyA], by simp [manyA], ?_, hs, ended_of (by rw [h2]; simp)⟩, ?_⟩
  · rw [hl]
    intro p hp
    simp only [manyA, List.mem_cons, List.not_mem_nil, or_false] at hp
    rcases hp with rfl | rfl
    · exact ⟨by decide, trivial, by simp, trivial⟩
    · exact ⟨by decide, trivial, by simp, by decide, trivial, by simp, trivial⟩
  · rw [h3]
    have e : System.procA.hist.flatMap (fun x => emitsOf x.2) = [.event (bs "j") (bs "e"), .complete (bs "j") Status.success 20, .complete (bs "j") Status.error 20] := by decide +kernel
    rw [e]
    exact (List.Perm.swap _ _ _).cons _

theorem runsB : RunsMany System.procB manyB := by
  have h : (run manyB.clock (start manyB.world manyB.progs) manyB.sched).map (outcome manyB) =
      some ([([], .idle)], [.complete (bs "k") Status.success 20, .complete (bs "j") Status.junk 20]) := by decide +kernel
  obtain ⟨s, hs, h1⟩ := Option.map_eq_some_iff.1 h
  obtain ⟨h2, h3⟩ := Prod.ext_iff.1 h1
  simp only [outcome] at h2 h3
  refine ⟨s, ⟨⟨trivial, trivial, trivial, trivial⟩, by simp [manyB], by simp [manyB], ?_, hs, ended_of (by rw [h2]; simp)⟩, ?_⟩
  · intro p hp
    simp only [manyB, List.mem_cons, List.not_mem_nil, or_false] at hp
    subst hp
    exact ⟨by decide, trivial, by simp, by decide, trivial, by simp, trivial⟩
  · rw [h3]
    have e : System.procB.hist.flatMap (fun x => emitsOf x.2) = [.complete (bs "k") Status.success 20, .complete (bs "j") Status.junk 20] := by decide +kernel
    rw [e]

/-- for `C92_metrics`. -/
example : ∃ ms, getMetrics 60000000000 120000000000 System.procA.hist ⟨71000000000, 0⟩ = some ms ∧
    sumI (ms.map (fun ia => value ia (.jobErrors (bs "j")))) = some 1 ∧ sumI (ms.map (fun ia => value ia (.jobCount (bs "j")))) = some 2 := by
  obtain ⟨ms, h1, h2⟩ := C92_metrics runsA 60000000000 120000000000 (by decide) (by decide) ⟨71000000000, 0⟩ (by decide +kernel)
  refine ⟨ms, h1, ?_, ?_⟩
  · rw [h2 (.jobErrors (bs "j")) trivial]; decide +kernel
  · rw [h2 (.jobCount (bs "j")) trivial]; decide +kernel

/-- for `C92_system`: the other hypotheses are those of `System.sample`. -/
example : List.Forall₂ RunsMany [System.procA, System.procB] [manyA, manyB] ∧
    [manyA, manyB].flatMap ManyProgram.statements = [(bs "j", .complete Status.error), (bs "j", .event (bs "e")), (bs "j", .complete Status.success), (bs "k", .complete Status.success),
      (bs "j", .complete Status.junk)] := ⟨.cons runsA (.cons runsB .nil), by decide +kernel⟩

end Concurrent.Sample

#print axioms Concurrent.C92_no_race
#print axioms Concurrent.C92_calls
#print axioms Concurrent.C92_progress
#print axioms Concurrent.C92_ends
#print axioms Concurrent.C92_heard
#print axioms Concurrent.C92_metrics
#print axioms C92_system
#print axioms Concurrent.Sample.C92_needs_discipline
#print axioms Concurrent.Sample.C92_lost
