import Verif.Spec.RuntimeMetrics
import Verif.Lemmas.F64Err
/-!
# C62, C72: runtime metrics
-/
open Spec RuntimeMetrics F64

/-- the names reported. -/
theorem report_names (o : Options) (r : Readings) :
    (report o r).map (·.1) = (gaugeTable.filter (fun g => g.1.enabled o && (g.1 != .fds || r.fds.isSome))).map (·.2) := by
  obtain ⟨i, m, g, q, go, c, f⟩ := o
  obtain ⟨a1, a2, a3, a4, a5, a6, a7, a8, a9, a10, fds⟩ := r
  unfold report gaugeTable
  cases m <;> cases g <;> cases q <;> cases go <;> cases c <;> cases f <;> cases fds <;> rfl

/-- C62: exactly the gauges of the enabled groups are reported, each once, in the order of the table (the number of file descriptors
only if it could be read). -/
theorem C62_names (o : Options) (r : Readings) :
    (report o r).map (·.1) = (gaugeTable.filter (fun g => g.1.enabled o && (g.1 != .fds || r.fds.isSome))).map (·.2) ∧
    ((report o r).map (·.1)).Nodup := by
  refine ⟨report_names o r, ?_⟩
  rw [report_names]
  have h : (gaugeTable.map (·.2)).Nodup := by decide +kernel
  exact h.sublist (List.Sublist.map _ List.filter_sublist)

theorem showsInt (n : Int) : ShowsInt (F64.ofInt n) n := ⟨rfl, fun h => ofInt_exact h⟩

/-- a quantile in milliseconds. -/
theorem quantile_close {q : Int} (h0 : 0 ≤ q) (h1 : q < 2 ^ 52) : ∃ v, quantile q = .fin v ∧ |v - (q : ℚ) / 1000000| ≤ 1 / 1000 := by
  have hm : q.tdiv 1000 = q / 1000 := Int.tdiv_eq_ediv_of_nonneg h0
  unfold quantile
  rw [hm]
  obtain ⟨m, hmeq⟩ : ∃ m, q / 1000 = m := ⟨_, rfl⟩
  rw [hmeq]
  have hm0 : 0 ≤ m := by omega
  have hm1 : m < 2 ^ 43 := by omega
  have hq1 : 1000 * m ≤ q := by omega
  have hq2 : q ≤ 1000 * m + 999 := by omega
  rw [ofInt_exact (n := m) (by rw [abs_of_nonneg hm0]; omega), ofInt_exact (n := 1000) (by norm_num)]
  have hq1' : (1000 : ℚ) * m ≤ q := by exact_mod_cast hq1
  have hq2' : (q : ℚ) ≤ 1000 * m + 999 := by exact_mod_cast hq2
  have hdiv : F64.div (.fin m) (.fin ((1000 : ℤ) : ℚ)) =
      if ((1000 : ℤ) : ℚ) = 0 then (if (m : ℚ) = 0 then .nan else .inf (xor (decide ((m:ℚ) < 0)) (decide (((1000 : ℤ) : ℚ) < 0))))
      else if (m : ℚ) = 0 then .zero (xor (decide ((m:ℚ) < 0)) (decide (((1000 : ℤ) : ℚ) < 0))) else rnd ((m : ℚ) / ((1000 : ℤ) : ℚ)) := rfl
  rw [hdiv, if_neg (by norm_num)]
  by_cases hz : (m : ℚ) = 0
  · rw [if_pos hz]
    refine ⟨0, ?_, ?_⟩
    · rw [hz]; simp [F64.zero]
    · rw [hz] at hq1' hq2'
      rw [abs_le]
      constructor <;> linarith
  · rw [if_neg hz]
    have hmpos : (1 : ℚ) ≤ m := by
      have : m ≠ 0 := by intro h; apply hz; rw [h]; simp
      have : 1 ≤ m := by omega
      exact_mod_cast this
    have hmle : (m : ℚ) ≤ 2 ^ 43 := by
      have : m ≤ 2 ^ 43 := hm1.le
      exact_mod_cast this
    have hx : (m : ℚ) / ((1000 : ℤ) : ℚ) = m / 1000 := by norm_num
    rw [hx]
    have hpos : (0 : ℚ) < m / 1000 := by positivity
    have hmid : Mid ((m : ℚ) / 1000) := by
      apply mid_of
      · rw [abs_of_pos hpos]
        calc (1 : ℚ) / 2 ^ 200 ≤ 1 / 1000 := by norm_num
          _ ≤ m / 1000 := by gcongr
      · rw [abs_of_pos hpos]
        calc (m : ℚ) / 1000 ≤ 2 ^ 43 / 1000 := by gcongr
          _ ≤ 2 ^ 250 := by norm_num
    refine ⟨rndQ (m / 1000), rnd_mid hmid, ?_⟩
    have herr := rndQ_mid hmid
    rw [abs_of_pos hpos] at herr
    have hsmall : (m : ℚ) / 1000 * uu ≤ 1 / 1000000 := by
      have hu : uu = 1 / 9007199254740992 := by norm_num [uu]
      have hm2 : (m : ℚ) ≤ 8796093022208 := by norm_num at hmle ⊢; exact hmle
      rw [hu]
      linarith
    rw [abs_le] at herr ⊢
    constructor <;> linarith [herr.1, herr.2]

/-- the gauges with the values the code computes. -/
def fullTable (r : Readings) : List (Group × Str × Option F64) :=
  [(.memory, bs "alloc", some (F64.ofInt r.alloc)),
   (.memory, bs "heap_objects", some (F64.ofInt r.heapObjects)),
   (.gc, bs "pause_total_ns", some (F64.ofInt r.pauseTotalNs)),
   (.gc, bs "num_gc", some (F64.ofInt r.numGC)),
   (.gc, bs "next_gc", some (F64.ofInt r.nextGC)),
   (.gc, bs "gc_cpu_fraction", some r.gcCPUFraction),
   (.gcQuantile, bs "gc_pause_quantile_50", some (quantile r.quantile50)),
   (.gcQuantile, bs "gc_pause_quantile_max", some (quantile r.quantileMax)),
   (.goroutines, bs "num_goroutines", some (F64.ofInt r.numGoroutine)),
   (.cgo, bs "num_cgo_call", some (F64.ofInt r.numCgoCall)),
   (.fds, bs "num_fds_used", r.fds.map (fun n : Nat => F64.ofInt n))]

theorem report_table (o : Options) (r : Readings) :
    report o r = (fullTable r).filterMap (fun g => if g.1.enabled o then g.2.2.map (fun v => (g.2.1, v)) else none) := by
  obtain ⟨i, m, g, q, go, c, f⟩ := o
  obtain ⟨a1, a2, a3, a4, a5, a6, a7, a8, a9, a10, fds⟩ := r
  unfold report fullTable
  cases m <;> cases g <;> cases q <;> cases go <;> cases c <;> cases f <;> cases fds <;> rfl

theorem name_facts : (gaugeTable.map (·.2)).Nodup := by decide +kernel

/-- C62: and their values are the readings. -/
theorem C62_values (o : Options) (r : Readings) (name : Str) (v : F64) (h : (name, v) ∈ report o r) : ValueIs r name v := by
  rw [report_table, List.mem_filterMap] at h
  obtain ⟨g, hg, h⟩ := h
  split at h
  · rw [Option.map_eq_some_iff] at h
    obtain ⟨w, hw, he⟩ := h
    simp only [Prod.mk.injEq] at he
    obtain ⟨rfl, rfl⟩ := he
    have nd := name_facts
    unfold ValueIs
    simp only [fullTable, List.mem_cons, List.not_mem_nil, or_false] at hg
    simp only [gaugeTable, List.map_cons, List.map_nil] at nd
    revert hg nd
    generalize bs "alloc" = n0
    generalize bs "heap_objects" = n1
    generalize bs "pause_total_ns" = n2
    generalize bs "num_gc" = n3
    generalize bs "next_gc" = n4
    generalize bs "gc_cpu_fraction" = n5
    generalize bs "gc_pause_quantile_50" = n6
    generalize bs "gc_pause_quantile_max" = n7
    generalize bs "num_goroutines" = n8
    generalize bs "num_cgo_call" = n9
    generalize bs "num_fds_used" = n10
    intro hg nd
    simp only [List.nodup_cons, List.mem_cons, List.not_mem_nil, or_false, not_or, not_false_eq_true, List.nodup_nil, and_true] at nd
    rcases hg with rfl | rfl | rfl | rfl | rfl | rfl | rfl | rfl | rfl | rfl | rfl
    · refine ⟨fun _ => Option.some.inj hw ▸ showsInt _, ?_, ?_, ?_, ?_, ?_, ?_, ?_, ?_, ?_, ?_⟩ <;> intro e <;> exfalso <;> simp only at e <;> subst e <;> simp at nd
    · refine ⟨?_, fun _ => Option.some.inj hw ▸ showsInt _, ?_, ?_, ?_, ?_, ?_, ?_, ?_, ?_, ?_⟩ <;> intro e <;> exfalso <;> simp only at e <;> subst e <;> simp at nd
    · refine ⟨?_, ?_, fun _ => Option.some.inj hw ▸ showsInt _, ?_, ?_, ?_, ?_, ?_, ?_, ?_, ?_⟩ <;> intro e <;> exfalso <;> simp only at e <;> subst e <;> simp at nd
    · refine ⟨?_, ?_, ?_, fun _ => Option.some.inj hw ▸ showsInt _, ?_, ?_, ?_, ?_, ?_, ?_, ?_⟩ <;> intro e <;> exfalso <;> simp only at e <;> subst e <;> simp at nd
    · refine ⟨?_, ?_, ?_, ?_, fun _ => Option.some.inj hw ▸ showsInt _, ?_, ?_, ?_, ?_, ?_, ?_⟩ <;> intro e <;> exfalso <;> simp only at e <;> subst e <;> simp at nd
    · refine ⟨?_, ?_, ?_, ?_, ?_, fun _ => (Option.some.inj hw).symm, ?_, ?_, ?_, ?_, ?_⟩ <;> intro e <;> exfalso <;> simp only at e <;> subst e <;> simp at nd
    · refine ⟨?_, ?_, ?_, ?_, ?_, ?_, fun _ h0 h1 => Option.some.inj hw ▸ quantile_close h0 h1, ?_, ?_, ?_, ?_⟩ <;> intro e <;> exfalso <;> simp only at e <;> subst e <;> simp at nd
    · refine ⟨?_, ?_, ?_, ?_, ?_, ?_, ?_, fun _ h0 h1 => Option.some.inj hw ▸ quantile_close h0 h1, ?_, ?_, ?_⟩ <;> intro e <;> exfalso <;> simp only at e <;> subst e <;> simp at nd
    · refine ⟨?_, ?_, ?_, ?_, ?_, ?_, ?_, ?_, fun _ => Option.some.inj hw ▸ showsInt _, ?_, ?_⟩ <;> intro e <;> exfalso <;> simp only at e <;> subst e <;> simp at nd
    · refine ⟨?_, ?_, ?_, ?_, ?_, ?_, ?_, ?_, ?_, fun _ => Option.some.inj hw ▸ showsInt _, ?_⟩ <;> intro e <;> exfalso <;> simp only at e <;> subst e <;> simp at nd
    · refine ⟨?_, ?_, ?_, ?_, ?_, ?_, ?_, ?_, ?_, ?_, fun _ => (by obtain ⟨n, h1, h2⟩ := Option.map_eq_some_iff.1 hw; exact ⟨n, h1, h2 ▸ showsInt _⟩)⟩ <;> intro e <;> exfalso <;> simp only at e <;> subst e <;> simp at nd
  · cases h

def exReadings : Readings := ⟨123456, 789, 5000, 3, 4194304, .fin (1/4), 1234567, 2345678, 12, 1, some 9⟩
example : report ⟨5, true, false, true, false, false, true⟩ exReadings =
    [(bs "alloc", .fin 123456), (bs "heap_objects", .fin 789), (bs "gc_pause_quantile_50", F64.rnd (1234/1000)),
     (bs "gc_pause_quantile_max", F64.rnd (2345/1000)), (bs "num_fds_used", .fin 9)] := by decide +kernel
example : (report (newOptions none) exReadings).length = 11 := by decide +kernel

/-! ## C72: the poller -/

def starts (ls : List Lab) : Nat := (ls.filter (fun | .start => true | _ => false)).length
def ticks (ls : List Lab) : List Readings := ls.filterMap (fun | .tick _ r => some r | _ => none)

/-- pollers and returned calls of `Stop` agree. -/
structure Ok (s : Sys) (n : Nat) : Prop where
  pollers : s.pollers.length ≤ n
  ended : s.pollers.count .ended = s.returned.length

theorem count_set {l : List Poller} {p : Nat} {a b : Poller} (h : l[p]? = some a) (c : Poller) :
    (l.set p b).count c + (if a = c then 1 else 0) = l.count c + (if b = c then 1 else 0) := by
  induction l generalizing p with
  | nil => simp at h
  | cons x t ih =>
    cases p with
    | zero =>
      simp only [List.getElem?_cons_zero, Option.some.injEq] at h
      subst h
      simp only [List.set_cons_zero, List.count_cons, beq_iff_eq]
      omega
    | succ p =>
      simp only [List.getElem?_cons_succ] at h
      have := ih h
      simp only [List.set_cons_succ, List.count_cons, beq_iff_eq]
      omega

theorem step_ok {s s' : Sys} {n : Nat} {l : Lab} (h : Ok s n) (hs : step s l = some s') : Ok s' (n + starts [l]) := by
  obtain ⟨h1, h2⟩ := h
  cases l with
  | start =>
    have hst : starts [.start] = 1 := rfl
    rw [hst]
    simp only [step] at hs
    split at hs
    · cases hs
    · split at hs
      · cases hs; exact ⟨by simp only; omega, h2⟩
      · cases hs
        refine ⟨by simp only [List.length_append, List.length_singleton]; omega, ?_⟩
        rw [List.count_append]
        simpa using h2
  | tick p r =>
    simp only [step] at hs
    split at hs
    · cases hs; exact ⟨h1, h2⟩
    · cases hs
  | stop i =>
    simp only [step] at hs
    split at hs
    · cases hs; exact ⟨h1, h2⟩
    · cases hs
  | stopRecv p i =>
    simp only [step] at hs
    split at hs
    · next hc =>
      cases hs
      refine ⟨by simp only [List.length_set]; omega, ?_⟩
      have := count_set (b := .stopping) hc.2.1 .ended
      simp only [reduceCtorEq, if_false, Nat.add_zero] at this
      rw [this]; exact h2
    · cases hs
  | stopped p i =>
    simp only [step] at hs
    split at hs
    · next hc =>
      cases hs
      refine ⟨by simp only [List.length_set]; omega, ?_⟩
      have := count_set (b := .ended) hc.2.1 .ended
      simp only [reduceCtorEq, if_false, if_true, Nat.add_zero] at this
      rw [this, List.length_append, h2]; rfl
    · cases hs

theorem starts_cons (l : Lab) (ls : List Lab) : starts (l :: ls) = starts [l] + starts ls := by
  unfold starts
  cases l <;> simp <;> omega

theorem run_ok (ls : List Lab) : ∀ {s s' : Sys} {n : Nat}, Ok s n → run s ls = some s' → Ok s' (n + starts ls) := by
  induction ls with
  | nil => intro s s' n h hs; simp only [run, Option.some.injEq] at hs; subst hs; exact h
  | cons l t ih =>
    intro s s' n h hs
    rw [run, Option.bind_eq_some_iff] at hs
    obtain ⟨s1, h1, h2⟩ := hs
    have := ih (step_ok h h1) h2
    rw [starts_cons]
    rwa [Nat.add_assoc] at this

theorem step_emitted {s s' : Sys} {l : Lab} (hs : step s l = some s') :
    s'.opts = s.opts ∧ s'.emitted = s.emitted ++ (ticks [l]).flatMap (report s.opts) := by
  cases l <;> simp only [step] at hs
  · split at hs
    · cases hs
    · split at hs <;> cases hs <;> exact ⟨rfl, by simp [ticks]⟩
  · split at hs <;> cases hs; exact ⟨rfl, by simp [ticks]⟩
  · split at hs <;> cases hs; exact ⟨rfl, by simp [ticks]⟩
  · split at hs <;> cases hs; exact ⟨rfl, by simp [ticks]⟩
  · split at hs <;> cases hs; exact ⟨rfl, by simp [ticks]⟩

theorem ticks_cons (l : Lab) (ls : List Lab) : ticks (l :: ls) = ticks [l] ++ ticks ls := by
  unfold ticks
  cases l <;> simp

theorem run_emitted (ls : List Lab) : ∀ {s s' : Sys}, run s ls = some s' →
    s'.opts = s.opts ∧ s'.emitted = s.emitted ++ (ticks ls).flatMap (report s.opts) := by
  induction ls with
  | nil => intro s s' hs; simp only [run, Option.some.injEq] at hs; subst hs; exact ⟨rfl, by simp [ticks]⟩
  | cons l t ih =>
    intro s s' hs
    rw [run, Option.bind_eq_some_iff] at hs
    obtain ⟨s1, h1, h2⟩ := hs
    obtain ⟨a1, a2⟩ := step_emitted h1
    obtain ⟨b1, b2⟩ := ih h2
    refine ⟨b1.trans a1, ?_⟩
    rw [b2, a2, a1, ticks_cons l t, List.flatMap_append, List.append_assoc]

/-- C62: in every execution, the gauges emitted are those of the reports, one report per tick, with the options given (all groups and
five seconds for nil). -/
theorem C62_run (o : Option Options) (ls : List Lab) (s : Sys) (h : run (init o) ls = some s) :
    s.emitted = (ticks ls).flatMap (report (newOptions o)) := by
  have := (run_emitted ls h).2
  simpa [init] using this

/-- C72: once as many calls of `Stop` have returned as there were calls of `Start`, nothing is reported any more, however long the
program goes on without another `Start`. -/
theorem C72_silent (o : Option Options) (ls more : List Lab) (s s' : Sys) (h : run (init o) ls = some s) (hr : starts ls ≤ s.returned.length)
    (h' : run s more = some s') (hm : starts more = 0) : s'.emitted = s.emitted := by
  have hok : Ok s (starts ls) := by simpa using run_ok ls (s := init o) (n := 0) ⟨by simp [init], by simp [init]⟩ h
  have hend : ∀ (more : List Lab) (s s' : Sys), (∀ x ∈ s.pollers, x = Poller.ended) → starts more = 0 → run s more = some s' →
      s'.emitted = s.emitted := by
    intro more
    induction more with
    | nil => intro s s' _ _ hs; simp only [run, Option.some.injEq] at hs; rw [hs]
    | cons l t ih =>
      intro s s' hp hm hs
      rw [starts_cons] at hm
      rw [run, Option.bind_eq_some_iff] at hs
      obtain ⟨s1, h1, h2⟩ := hs
      have none : ∀ p x, s.pollers[p]? = some x → x = Poller.ended := fun p x hx => hp x (List.mem_of_getElem? hx)
      have hs1 : s1.emitted = s.emitted ∧ s1.pollers = s.pollers := by
        cases l <;> simp only [step] at h1
        · have : starts [Lab.start] = 1 := rfl
          omega
        · split at h1
          · next hc => have := none _ _ hc.2; cases this
          · cases h1
        · split at h1 <;> cases h1; exact ⟨rfl, rfl⟩
        · split at h1
          · next hc => have := none _ _ hc.2.1; cases this
          · cases h1
        · split at h1
          · next hc => have := none _ _ hc.2.1; cases this
          · cases h1
      rw [ih s1 s' (by rw [hs1.2]; exact hp) (by omega) h2, hs1.1]
  refine hend more s s' ?_ hm h'
  intro x hx
  have h1 : s.pollers.count .ended = s.pollers.length := by
    have := List.count_le_length (a := Poller.ended) (l := s.pollers)
    have := hok.pollers
    have := hok.ended
    omega
  exact (List.count_eq_length.1 h1 x hx).symm

/-- C72: `Stop` returns at most as often as `Start` was called; without `Start` it never returns. -/
theorem C72_stop_needs_start (o : Option Options) (ls : List Lab) (s : Sys) (h : run (init o) ls = some s) : s.returned.length ≤ starts ls := by
  have hok : Ok s (starts ls) := by simpa using run_ok ls (s := init o) (n := 0) ⟨by simp [init], by simp [init]⟩ h
  rw [← hok.ended]
  exact List.count_le_length.trans hok.pollers

/-- C72: the program crashes at `Start` exactly when the options have an interval that is not positive (options without `Interval`). -/
theorem C72_crash (o : Option Options) : (∃ s, run (init o) [.start] = some s ∧ s.crashed = true) ↔ (newOptions o).interval ≤ 0 := by
  have : run (init o) [.start] = if (newOptions o).interval ≤ 0 then some { init o with crashed := true } else some { init o with pollers := [.polling] } := by
    show ((step (init o) .start).bind fun s' => run s' []) = _
    have e : step (init o) .start = if (newOptions o).interval ≤ 0 then some { init o with crashed := true } else some { init o with pollers := [.polling] } := by
      rfl
    rw [e]
    split <;> rfl
  rw [this]
  split
  · next h => exact ⟨fun _ => h, fun _ => ⟨_, rfl, rfl⟩⟩
  · next h =>
    constructor
    · rintro ⟨s, hs, hc⟩
      cases hs
      simp [init] at hc
    · intro hc; exact absurd hc h

/-- an execution: start, a report, stop. -/
def exLabs : List Lab := [.start, .tick 0 exReadings, .stop 7, .tick 0 exReadings, .stopRecv 0 7, .stopped 0 7]
example : ∃ s, run (init none) exLabs = some s ∧ starts exLabs ≤ s.returned.length ∧ s.emitted.length = 22 := by
  have : (run (init none) exLabs).map (fun s => (decide (starts exLabs ≤ s.returned.length), s.emitted.length)) = some (true, 22) := by decide +kernel
  rw [Option.map_eq_some_iff] at this
  obtain ⟨s, h1, h2⟩ := this
  simp only [Prod.mk.injEq, decide_eq_true_eq] at h2
  exact ⟨s, h1, h2.1, h2.2⟩
example : (newOptions (some ⟨0, true, true, true, true, true, true⟩)).interval ≤ 0 := by decide
