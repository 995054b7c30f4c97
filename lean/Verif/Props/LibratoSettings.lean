import Verif.Model.LibratoSettings
/-!
# C103: the settings of a Librato sink take effect
A program sets the exported fields of the sink after `New` has returned, then it emits.  The specification of what is sent is the sink of
Verif/Model/Librato.lean with the final settings from the start.  That holds of all that is sent (`C103_sent`), but not of when it is sent:
the goroutine may have read `FlushPeriod` before the program set it (`C103_false`), and both access it without synchronisation.
-/
namespace LibratoSetup

/-- an emission, not an assignment. -/
def Act.isEmit : Act → Bool
  | .emit _ _ => true
  | _ => false

/-- the program sets the fields first and emits afterwards. -/
def SetsFirst (prog : List Act) : Prop :=
  ∃ sets emits, prog = sets ++ emits ∧ (∀ a ∈ sets, a.isEmit = false) ∧ ∀ a ∈ emits, a.isEmit = true

/-- the values that a program gives to each field, in order. -/
def Act.sanitize? : Act → Option (Str → Str)
  | .setSanitize f => some f
  | _ => none
def Act.source? : Act → Option Str
  | .setSource s => some s
  | _ => none
def Act.flushPeriod? : Act → Option Int
  | .setFlushPeriod d => some d
  | _ => none

/-- the settings after these actions: of each field the value given last, or the one it had. -/
def settings (o : Librato.Opts) (prog : List Act) : Librato.Opts :=
  ⟨o.pfx, (prog.filterMap Act.sanitize?).getLastD o.sanitize, (prog.filterMap Act.source?).getLastD o.source,
    (prog.filterMap Act.flushPeriod?).getLastD o.flushPeriod⟩

/-- the fields after these actions, computed. -/
def final (o : Librato.Opts) (prog : List Act) : Librato.Opts := prog.foldl assign o

theorem final_eq (o : Librato.Opts) (prog : List Act) : final o prog = settings o prog := by
  induction prog generalizing o with
  | nil => rfl
  | cons a t ih =>
    show final (assign o a) t = _
    rw [ih]
    cases a <;> simp only [settings, assign, Act.sanitize?, Act.source?, Act.flushPeriod?, List.filterMap_cons, List.getLastD_cons]

/-- the emissions of a program, in order. -/
def emissions (prog : List Act) : List (Str × Payload) :=
  prog.filterMap (fun a => match a with | .emit job p => some (job, p) | _ => none)

/-- what the goroutine does in an execution, as operations of the sink: the given commands in their order, and ticks. -/
def acts : List (Str × Payload) → List Lab → List Librato.Op
  | _, [] => []
  | (job, p) :: q, .work :: ls => .emit job p :: acts q ls
  | [], .work :: ls => acts [] ls
  | q, .tick now :: ls => .flush now :: acts q ls
  | q, .prog :: ls => acts q ls
  | q, .start :: ls => acts q ls

/-- all fields are set, or nothing was emitted. -/
def Inv (o : Librato.Opts) (s : State) : Prop :=
  final s.opts s.prog = o ∧ SetsFirst s.prog ∧
  ((∀ a ∈ s.prog, a.isEmit = true) ∨ (s.queue = [] ∧ s.worker.1 = Librato.init))

theorem final_emits {o : Librato.Opts} {emits : List Act} (h : ∀ a ∈ emits, a.isEmit = true) : final o emits = o := by
  induction emits generalizing o with
  | nil => rfl
  | cons a t ih =>
    have ha := h a List.mem_cons_self
    cases a <;> simp only [Act.isEmit, Bool.false_eq_true] at ha
    exact ih (fun b hb => h b (List.mem_cons_of_mem _ hb))

theorem Inv.opts {o : Librato.Opts} {s : State} (hi : Inv o s) (h : ∀ a ∈ s.prog, a.isEmit = true) : s.opts = o := by
  rw [← hi.1, final_emits h]

/-- one step does to the maps and the posts what a sink with the final settings does. -/
theorem step_inv {o : Librato.Opts} {s s' : State} {l : Lab} (hi : Inv o s) (hs : step s l = some s') :
    Inv o s' ∧ ∃ ops, s'.worker = ops.foldl (Librato.step o) s.worker ∧
      ∀ ls, acts (s.queue ++ emissions s.prog) (l :: ls) = ops ++ acts (s'.queue ++ emissions s'.prog) ls := by
  have hi' := hi
  obtain ⟨hf, hp, hc⟩ := hi
  cases l with
  | prog =>
    have hacts : ∀ q ls, acts q (.prog :: ls) = acts q ls := by intro q ls; cases q <;> simp [acts]
    simp only [step] at hs
    split at hs
    · cases hs
    · rename_i job p rest hprog
      split at hs <;> [skip; cases hs]
      cases hs
      obtain ⟨sets, emits, he, h1, h2⟩ := hp
      cases sets with
      | cons a t =>
        rw [hprog] at he
        cases he
        exact absurd (h1 _ List.mem_cons_self) (by simp [Act.isEmit])
      | nil =>
        rw [List.nil_append, hprog] at he
        subst he
        have hr : ∀ a ∈ rest, a.isEmit = true := fun a ha => h2 a (List.mem_cons_of_mem _ ha)
        refine ⟨⟨by rw [hprog] at hf; exact hf, ⟨[], rest, rfl, by simp, hr⟩, .inl hr⟩, [], rfl, fun ls => ?_⟩
        rw [hacts, hprog]
        simp [emissions]
    · rename_i a rest hne hprog
      cases hs
      obtain ⟨sets, emits, he, h1, h2⟩ := hp
      have ha : a.isEmit = false := by
        cases a with
        | emit job p => exact absurd rfl (hne job p)
        | _ => rfl
      cases sets with
      | nil =>
        rw [List.nil_append, hprog] at he
        subst he
        rw [h2 a List.mem_cons_self] at ha
        cases ha
      | cons b t =>
        rw [hprog, List.cons_append] at he
        cases he
        have hq : emissions (a :: (t ++ emits)) = emissions (t ++ emits) := by
          cases a with
          | emit job p => cases ha
          | _ => rfl
        refine ⟨⟨by rw [hprog] at hf; exact hf, ⟨t, emits, rfl, fun b hb => h1 b (List.mem_cons_of_mem _ hb), h2⟩, ?_⟩, [], rfl, fun ls => ?_⟩
        · rcases hc with hc | hc
          · rw [hc a (by rw [hprog]; exact List.mem_cons_self)] at ha; cases ha
          · exact .inr hc
        · rw [hacts, hprog, hq]; rfl
  | start =>
    simp only [step] at hs
    split at hs <;> [skip; cases hs]
    cases hs
    refine ⟨⟨hf, hp, hc⟩, [], rfl, fun ls => ?_⟩
    cases h : s.queue ++ emissions s.prog <;> simp [acts]
  | work =>
    simp only [step] at hs
    split at hs
    · rename_i d job p q ht hq
      cases hs
      have hall : ∀ a ∈ s.prog, a.isEmit = true := by
        rcases hc with hc | hc
        · exact hc
        · rw [hq] at hc; cases hc.1
      refine ⟨⟨hf, hp, .inl hall⟩, [.emit job p], ?_, fun ls => ?_⟩
      · rw [hi'.opts hall]; rfl
      · rw [hq]; rfl
    · cases hs
  | tick now =>
    simp only [step] at hs
    split at hs
    · split at hs <;> [skip; cases hs]
      cases hs
      have hw : Librato.step s.opts s.worker (.flush now) = Librato.step o s.worker (.flush now) := by
        rcases hc with hc | ⟨_, hc⟩
        · rw [hi'.opts hc]
        · simp only [Librato.step, Librato.purge, hc]; rfl
      refine ⟨⟨hf, hp, ?_⟩, [.flush now], hw, fun ls => ?_⟩
      · rcases hc with hc | ⟨hc, _⟩
        · exact .inl hc
        · exact .inr ⟨hc, rfl⟩
      · cases h : s.queue ++ emissions s.prog <;> simp [acts]
    · cases hs

theorem run_inv {o : Librato.Opts} {s s' : State} {ls : List Lab} (hi : Inv o s) (hs : runFrom s ls = some s') :
    Inv o s' ∧ s'.worker = (acts (s.queue ++ emissions s.prog) ls).foldl (Librato.step o) s.worker := by
  induction ls generalizing s with
  | nil =>
    cases hs
    exact ⟨hi, by simp [acts]⟩
  | cons l ls ih =>
    simp only [runFrom] at hs
    cases h1 : step s l with
    | none => rw [h1] at hs; cases hs
    | some s1 =>
      rw [h1] at hs
      obtain ⟨hi1, ops, hw, ha⟩ := step_inv hi h1
      obtain ⟨hi2, hw2⟩ := ih hi1 hs
      exact ⟨hi2, by rw [hw2, ha, List.foldl_append, hw]⟩

/-- **C103, what is sent**: in every execution of a program that sets fields first and emits afterwards, however its steps and those of
the sink's goroutine interleave, the sink's maps and all posts are those of a sink that had the final settings from the start and was given
the program's emissions in their order, with the ticks where they came. -/
theorem C103_sent (pfx hostname : Str) (prog : List Act) (ls : List Lab) (s' : State)
    (hp : SetsFirst prog) (hs : runFrom (init pfx hostname prog) ls = some s') :
    s'.worker = Librato.run (settings ⟨pfx, Librato.sanitizeKey, hostname, 15000000000⟩ prog) (acts (emissions prog) ls) := by
  have h := (run_inv (s := init pfx hostname prog) ⟨rfl, hp, .inr ⟨rfl, rfl⟩⟩ hs).2
  rw [final_eq] at h
  exact h

/-- the goroutine made its ticker after some number of the program's actions. -/
theorem ticker_run {s s' : State} {ls : List Lab} (hs : runFrom s ls = some s') (d : Int) (hd : s'.ticker = some d) :
    s.ticker = some d ∨ ∃ done, done <+: s.prog ∧ d = (final s.opts done).flushPeriod := by
  induction ls generalizing s with
  | nil => cases hs; exact .inl hd
  | cons l ls ih =>
    simp only [runFrom] at hs
    cases h1 : step s l with
    | none => rw [h1] at hs; cases hs
    | some s1 =>
      rw [h1] at hs
      have h2 := ih hs
      cases l with
      | prog =>
        simp only [step] at h1
        split at h1
        · cases h1
        · rename_i job p rest hprog
          split at h1 <;> [skip; cases h1]
          cases h1
          rcases h2 with h2 | ⟨done, hpre, h2⟩
          · exact .inl h2
          · exact .inr ⟨.emit job p :: done, by rw [hprog]; exact List.cons_prefix_cons.2 ⟨rfl, hpre⟩, h2⟩
        · rename_i a rest hne hprog
          cases h1
          rcases h2 with h2 | ⟨done, hpre, h2⟩
          · exact .inl h2
          · exact .inr ⟨a :: done, by rw [hprog]; exact List.cons_prefix_cons.2 ⟨rfl, hpre⟩, h2⟩
      | start =>
        simp only [step] at h1
        split at h1 <;> [skip; cases h1]
        cases h1
        rcases h2 with h2 | h2
        · exact .inr ⟨[], List.nil_prefix, (Option.some.inj h2).symm⟩
        · exact .inr h2
      | work =>
        simp only [step] at h1
        split at h1 <;> cases h1
        exact h2
      | tick now =>
        simp only [step] at h1
        split at h1
        · split at h1 <;> cases h1
          exact h2
        · cases h1

/-- **C103, when it is sent** (`_partial`: the full statement, that the ticker has the period which the program set, is refuted by
`C103_false`): the period of the ticker is that of `FlushPeriod` after some initial part of the program, and for each initial part of the
program that can be executed there is an execution with that period. -/
theorem C103_ticker_partial (pfx hostname : Str) (prog : List Act) (d : Int) (hp : (emissions prog).length ≤ libratoLoop.cap) :
    (∃ ls s', runFrom (init pfx hostname prog) ls = some s' ∧ s'.prog = [] ∧ s'.ticker = some d) ↔
      ∃ done, done <+: prog ∧ d = (done.filterMap Act.flushPeriod?).getLastD 15000000000 := by
  have hd : ∀ done, (done.filterMap Act.flushPeriod?).getLastD 15000000000 = (final (init pfx hostname prog).opts done).flushPeriod := by
    intro done; rw [final_eq]; rfl
  simp only [hd]
  constructor
  · rintro ⟨ls, s', hs, -, hd⟩
    rcases ticker_run hs d hd with h | h
    · cases h
    · exact h
  · rintro ⟨done, ⟨rest, rfl⟩, rfl⟩
    have hrun : ∀ (a : List Act) (s : State) (b : List Act), s.prog = a ++ b → s.queue.length + (emissions a).length ≤ libratoLoop.cap →
        runFrom s (List.replicate a.length .prog) =
          some { s with opts := final s.opts a, queue := s.queue ++ emissions a, prog := b } := by
      intro a
      induction a with
      | nil => intro s b h _; cases s; simp only [List.nil_append] at h; subst h; simp [runFrom, final, emissions]
      | cons x t ih =>
        intro s b h hl
        rw [List.length_cons, List.replicate_succ]
        simp only [runFrom, step, h, List.cons_append]
        cases x with
        | emit job p =>
          have hc : s.queue.length < libratoLoop.cap := by simp [emissions] at hl; omega
          simp only [if_pos hc, Option.bind_some]
          rw [ih _ b rfl (by simp [emissions] at hl ⊢; omega)]
          simp [final, assign, emissions]
        | _ =>
          simp only [Option.bind_some]
          rw [ih _ b rfl (by simpa [emissions] using hl)]
          simp [final, assign, emissions]
    have happ : ∀ (l1 l2 : List Lab) (s : State), runFrom s (l1 ++ l2) = (runFrom s l1).bind (fun s' => runFrom s' l2) := by
      intro l1
      induction l1 with
      | nil => intro l2 s; rfl
      | cons l t ih =>
        intro l2 s
        simp only [List.cons_append, runFrom]
        cases step s l with
        | none => rfl
        | some s1 => exact ih l2 s1
    have hlen : (emissions (done ++ rest)).length = (emissions done).length + (emissions rest).length := by
      simp [emissions, List.filterMap_append]
    have hall : runFrom (init pfx hostname (done ++ rest))
        (List.replicate done.length .prog ++ .start :: List.replicate rest.length .prog) =
        some ⟨final (final (init pfx hostname (done ++ rest)).opts done) rest,
          some (final (init pfx hostname (done ++ rest)).opts done).flushPeriod, emissions done ++ emissions rest, (Librato.init, []), []⟩ := by
      rw [happ, hrun done _ rest rfl (by simp [init]; omega)]
      simp only [Option.bind_some, runFrom, step, init, if_true, List.nil_append]
      rw [hrun rest _ [] (by simp) (by simp; omega)]
    exact ⟨_, _, hall, rfl, rfl⟩

/-- **C103 is false of the code**: a program sets `FlushPeriod` to a minute right after `New` and emits an event.  In an execution the sink
posts every 15 seconds (its ticker's period) bodies that say `"period":60`; in another execution of the same program the ticker has the
period that was set. -/
theorem C103_false :
    ∃ (prog : List Act), SetsFirst prog ∧ prog.filterMap Act.flushPeriod? = [60000000000] ∧
      (∃ ls s', runFrom (init [] [] prog) ls = some s' ∧ s'.prog = [] ∧ s'.ticker = some 15000000000 ∧
        s'.worker.2 = [.posted (bs "{\"measure_time\":7,\"period\":60,\"gauges\":{\"e.count\":{\"value\":1,\"attributes\":{\"aggregate\":true,\"display_units_long\":\"count\"}},\"j.e.count\":{\"value\":1,\"attributes\":{\"aggregate\":true,\"display_units_long\":\"count\"}}}}")]) ∧
      ∃ ls s', runFrom (init [] [] prog) ls = some s' ∧ s'.prog = [] ∧ s'.ticker = some 60000000000 := by
  refine ⟨[.setFlushPeriod 60000000000, .emit (bs "j") (.event (bs "e"))], ⟨[_], [_], rfl, by simp [Act.isEmit], by simp [Act.isEmit]⟩, rfl,
    ⟨[.start, .prog, .prog, .work, .tick 7], _, rfl, rfl, rfl, ?_⟩, ⟨[.prog, .start, .prog], _, rfl, rfl, rfl⟩⟩
  decide +kernel

/-- the two accesses to `FlushPeriod` are not ordered: right after `New` both the program's assignment and the goroutine's reading can be the
next step, and the period depends on which is first. -/
theorem C103_race (pfx hostname : Str) (d : Int) (rest : List Act) :
    (runFrom (init pfx hostname (.setFlushPeriod d :: rest)) [.prog, .start]).map (·.ticker) = some (some d) ∧
    (runFrom (init pfx hostname (.setFlushPeriod d :: rest)) [.start, .prog]).map (·.ticker) = some (some 15000000000) := ⟨rfl, rfl⟩

/-- the settings are not in force for what is emitted before they are set: a name of the first emission is sanitised by the function that
is set after it, or by the default one, as the goroutine comes to it later or earlier. -/
theorem C103_late :
    ∃ (prog : List Act) (l1 l2 : List Lab) (s1 s2 : State), runFrom (init [] [] prog) l1 = some s1 ∧ runFrom (init [] [] prog) l2 = some s2 ∧
      acts (emissions prog) l1 = acts (emissions prog) l2 ∧ s1.worker.1.counters.keys ≠ s2.worker.1.counters.keys := by
  refine ⟨[.emit (bs "j") (.event (bs "a b")), .setSanitize (fun k => k)], [.start, .prog, .work, .prog], [.start, .prog, .prog, .work], _, _, rfl, rfl, ?_, ?_⟩
  · decide +kernel
  · decide +kernel

/-- a program that sets every field and emits meets the hypotheses, with ticks before, between and after its actions. -/
example : SetsFirst [.setSource (bs "web1"), .setSanitize (fun k => k), .setFlushPeriod 60000000000, .emit (bs "j") (.event (bs "a b"))] :=
  ⟨[_, _, _], [_], rfl, by simp [Act.isEmit], by simp [Act.isEmit]⟩
example : ((runFrom (init [] [] [.setSource (bs "web1"), .setFlushPeriod 60000000000, .emit (bs "j") (.event (bs "a b"))])
    [.start, .tick 1, .prog, .tick 2, .prog, .prog, .work, .tick 3]).map (fun s => s.worker.2)) =
  some [.nothing, .nothing, .posted (bs "{\"measure_time\":3,\"period\":60,\"source\":\"web1\",\"gauges\":{\"a_b.count\":{\"value\":1,\"attributes\":{\"aggregate\":true,\"display_units_long\":\"count\"}},\"j.a_b.count\":{\"value\":1,\"attributes\":{\"aggregate\":true,\"display_units_long\":\"count\"}}}}")] := by
  decide +kernel

end LibratoSetup
