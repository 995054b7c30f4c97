import Verif.Lemmas.ConcurrentStep
/-!
# C92: a stream may be used by many goroutines
`Reachable clock w0`: the stream has been set up (sinks added, key/values set, jobs made) by one goroutine; then the goroutines start, with programs that keep to
the discipline `Spec.Disciplined`.
-/
open Spec
namespace Concurrent

/-! ## The invariant -/

structure Inv (w0 : World) (progs : List (List Op)) (s : State) : Prop where
  mem : Mem w0 s.world
  emitted : ∀ id ∈ s.world.emitted, id < s.world.nextErr
  len : s.threads.length = progs.length
  thr : ∀ a t p, s.threads[a]? = some t → progs[a]? = some p → TInv w0 s.world p t (callsOf a s)
  own : ∀ (a : Nat) (t : Thread), s.threads[a]? = some t → (∀ j ∈ t.own, w0.jobs.length ≤ j ∧ j < s.world.jobs.length) ∧ t.own.Nodup
  disj : ∀ (a b : Nat) (ta tb : Thread), a ≠ b → s.threads[a]? = some ta → s.threads[b]? = some tb → ∀ j ∈ ta.own, j ∉ tb.own
  flags : ∀ (a : Nat) (t : Thread), s.threads[a]? = some t → ∀ id, pcFlag t = some id → id < s.world.nextErr
  flagd : ∀ (a b : Nat) (ta tb : Thread), a ≠ b → s.threads[a]? = some ta → s.threads[b]? = some tb → ∀ id, pcFlag ta = some id → pcFlag tb ≠ some id
  tags : ∀ x ∈ s.log, x.1 < progs.length

theorem inv_start {w0 : World} (h0 : World.Ok w0) {progs : List (List Op)} (hd : ∀ p ∈ progs, Disciplined w0.jobs.length 0 p) : Inv w0 progs (start w0 progs) := by
  have ht : ∀ {a : Nat} {t : Thread}, (start w0 progs).threads[a]? = some t → ∃ p, progs[a]? = some p ∧ t = ⟨p, .idle, []⟩ := by
    intro a t h
    simp only [start, List.getElem?_map] at h
    cases hp : progs[a]? with
    | none => rw [hp] at h; cases h
    | some p => rw [hp] at h; exact ⟨p, rfl, by simpa using h.symm⟩
  refine ⟨⟨rfl, rfl, Nat.le_refl _, fun _ _ => rfl, Nat.le_refl _, fun _ _ => rfl, h0.maps, ?_, ?_⟩, h0.emitted, by simp [start], ?_, ?_, ?_, ?_, ?_, by simp [start]⟩
  · intro j job i h1 h2
    have := (List.getElem?_eq_some_iff.1 h2).1
    simp only [start] at this
    omega
  · intro j j' job job' i h1 h2 h3
    have := (List.getElem?_eq_some_iff.1 h3).1
    simp only [start] at this
    omega
  · intro a t p h hp
    obtain ⟨p', hp', rfl⟩ := ht h
    rw [hp] at hp'; cases hp'
    exact .idle [] [] rfl .nil (hd p (List.mem_of_getElem? hp)) rfl .nil
  · intro a t h
    obtain ⟨p', hp', rfl⟩ := ht h
    exact ⟨by simp, List.nodup_nil⟩
  · intro a b ta tb _ h _
    obtain ⟨p', hp', rfl⟩ := ht h
    simp
  · intro a t h id hid
    obtain ⟨p', hp', rfl⟩ := ht h
    cases hid
  · intro a b ta tb _ h _ id hid
    obtain ⟨p', hp', rfl⟩ := ht h
    cases hid

theorem callsOf_step (s : State) (a : Nat) (w : World) (ts : List Thread) (cs : List SinkCall) :
    callsOf a ⟨w, ts, s.log ++ cs.map (fun c => (a, c))⟩ = callsOf a s ++ cs ∧ ∀ b, b ≠ a → callsOf b ⟨w, ts, s.log ++ cs.map (fun c => (a, c))⟩ = callsOf b s := by
  have h1 : (cs.map (fun c => (a, c))).filter (fun x : Nat × SinkCall => x.1 = a) = cs.map (fun c => (a, c)) := List.filter_eq_self.2 (by simp)
  constructor
  · simp only [callsOf, List.filter_append, List.map_append, h1, List.map_map]
    congr 1
    exact List.map_id cs
  · intro b hb
    have h2 : (cs.map (fun c => (a, c))).filter (fun x : Nat × SinkCall => x.1 = b) = [] := List.filter_eq_nil_iff.2 (by
      intro x hx
      obtain ⟨c, _, rfl⟩ := List.mem_map.1 hx
      simpa using Ne.symm hb)
    simp only [callsOf, List.filter_append, h2, List.append_nil]

theorem inv_step {w0 : World} (h0 : World.Ok w0) {progs : List (List Op)} {clock : Nat → Int} {s s' : State} (h : Inv w0 progs s) {a : Nat}
    (hs : step clock s a = some s') : Inv w0 progs s' := by
  unfold step at hs
  cases hta : s.threads[a]? with
  | none => rw [hta] at hs; cases hs
  | some t =>
    rw [hta] at hs
    cases hst : tstep clock s.world t with
    | none => simp [hst] at hs
    | some r =>
      obtain ⟨w', t', cs⟩ := r
      simp only [hst, Option.map_some, Option.some.injEq] at hs
      subst hs
      have hlt : a < s.threads.length := (List.getElem?_eq_some_iff.1 hta).1
      obtain ⟨p, hp⟩ : ∃ p, progs[a]? = some p := ⟨progs[a]'(h.len ▸ hlt), by simp [h.len ▸ hlt]⟩
      obtain ⟨ho, hnd⟩ := h.own a t hta
      obtain ⟨hT, hM⟩ := tstep_ok h0 h.mem (fun j hj => (ho j hj).1) (fun j hj => (ho j hj).2) hnd h.emitted (h.thr a t p hta hp) hst
      have hmem := hM.eff.mem hM.kvs hM.sinks h.mem (fun j hj => (ho j hj).1)
      obtain ⟨hc1, hc2⟩ := callsOf_step s a w' (s.threads.set a t') cs
      have hself : (s.threads.set a t')[a]? = some t' := by simp [hlt]
      have hother : ∀ b, b ≠ a → (s.threads.set a t')[b]? = s.threads[b]? := fun b hb => by simp [Ne.symm hb]
      have hle : s.world.jobs.length ≤ w'.jobs.length := by rcases hM.own with ⟨_, h2⟩ | ⟨_, h2⟩ <;> omega
      refine ⟨hmem, ?_, by simpa using h.len, ?_, ?_, ?_, ?_, ?_, ?_⟩
      · intro id hid
        rcases hM.emitted id hid with h1 | h1
        · exact Nat.lt_of_lt_of_le (h.emitted id h1) hM.next
        · exact Nat.lt_of_lt_of_le (h.flags a t hta id h1) hM.next
      · intro b tb q hb hq
        by_cases hba : b = a
        · subst hba
          rw [hself] at hb; cases hb
          rw [hp] at hq; cases hq
          rw [hc1]; exact hT
        · rw [hother b hba] at hb
          rw [hc2 b hba]
          have f := hM.eff.frame hM.kvs hM.sinks h.mem (fun j hj => (ho j hj).1) (fun j hj => ((h.own b tb hb).1 j hj).2) (h.disj a b t tb (Ne.symm hba) hta hb)
          refine (h.thr b tb q hb hq).frame f h.mem h0 (fun id hid hne hin => ?_)
          rcases hM.emitted id hin with h1 | h1
          · exact hne h1
          · exact h.flagd a b t tb (Ne.symm hba) hta hb id h1 hid
      · intro b tb hb
        by_cases hba : b = a
        · subst hba
          rw [hself] at hb; cases hb
          rcases hM.own with ⟨h1, h2⟩ | ⟨h1, h2⟩
          · rw [h1, h2]; exact ⟨ho, hnd⟩
          · rw [h1, h2]
            refine ⟨fun j hj => ?_, ?_⟩
            · rcases List.mem_append.1 hj with hj | hj
              · have := ho j hj; omega
              · have hjl := h.mem.jlen
                rw [List.mem_singleton.1 hj]; omega
            · rw [List.nodup_append]
              refine ⟨hnd, by simp, fun j hj k hk => ?_⟩
              rw [List.mem_singleton.1 hk]
              have := (ho j hj).2
              omega
        · rw [hother b hba] at hb
          obtain ⟨h1, h2⟩ := h.own b tb hb
          exact ⟨fun j hj => ⟨(h1 j hj).1, Nat.lt_of_lt_of_le (h1 j hj).2 hle⟩, h2⟩
      · intro b c tb tc hbc hb hc j hjb hjc
        have key : ∀ d td, d ≠ a → s.threads[d]? = some td → j ∈ td.own → j ∉ t'.own := by
          intro d td hda hd hj hj'
          rcases hM.own with ⟨h1, _⟩ | ⟨h1, _⟩
          · rw [h1] at hj'; exact h.disj d a td t hda hd hta j hj hj'
          · rw [h1] at hj'
            rcases List.mem_append.1 hj' with hj' | hj'
            · exact h.disj d a td t hda hd hta j hj hj'
            · have := ((h.own d td hd).1 j hj).2
              rw [List.mem_singleton.1 hj'] at this
              omega
        by_cases hba : b = a
        · subst hba
          rw [hself] at hb; cases hb
          rw [hother c (Ne.symm hbc)] at hc
          exact key c tc (Ne.symm hbc) hc hjc hjb
        · rw [hother b hba] at hb
          by_cases hca : c = a
          · subst hca
            rw [hself] at hc; cases hc
            exact key b tb hba hb hjb hjc
          · rw [hother c hca] at hc
            exact h.disj b c tb tc hbc hb hc j hjb hjc
      · intro b tb hb id hid
        by_cases hba : b = a
        · subst hba
          rw [hself] at hb; cases hb
          rcases hM.flag id hid with h1 | h1
          · exact Nat.lt_of_lt_of_le (h.flags b t hta id h1) hM.next
          · exact h1.2
        · rw [hother b hba] at hb
          exact Nat.lt_of_lt_of_le (h.flags b tb hb id hid) hM.next
      · intro b c tb tc hbc hb hc id hib hic
        have key : ∀ d td, d ≠ a → s.threads[d]? = some td → pcFlag td = some id → pcFlag t' ≠ some id := by
          intro d td hda hd hi hi'
          rcases hM.flag id hi' with h1 | h1
          · exact h.flagd d a td t hda hd hta id hi h1
          · have := h.flags d td hd id hi
            omega
        by_cases hba : b = a
        · subst hba
          rw [hself] at hb; cases hb
          rw [hother c (Ne.symm hbc)] at hc
          exact key c tc (Ne.symm hbc) hc hic hib
        · rw [hother b hba] at hb
          by_cases hca : c = a
          · subst hca
            rw [hself] at hc; cases hc
            exact key b tb hba hb hib hic
          · rw [hother c hca] at hc
            exact h.flagd b c tb tc hbc hb hc id hib hic
      · intro x hx
        rcases List.mem_append.1 hx with hx | hx
        · exact h.tags x hx
        · obtain ⟨c, _, rfl⟩ := List.mem_map.1 hx
          show a < progs.length
          rw [← h.len]; exact hlt

theorem inv_run {w0 : World} (h0 : World.Ok w0) {progs : List (List Op)} {clock : Nat → Int} : ∀ (sched : List Nat) {s s' : State}, Inv w0 progs s →
    run clock s sched = some s' → Inv w0 progs s'
  | [], s, s', h, hr => by cases hr; exact h
  | a :: r, s, s', h, hr => by
    simp only [run, List.foldlM_cons] at hr
    cases hs : step clock s a with
    | none => rw [hs] at hr; cases hr
    | some s1 => rw [hs] at hr; exact inv_run h0 r (inv_step h0 h hs) hr

/-! ## No data race -/

/-- what a goroutine may access. -/
def Allowed (w0 w : World) (t : Thread) : Loc × Bool → Prop
  | (.sinks, b) => b = false
  | (.field .stream, b) => b = false
  | (.field (.job j), false) => j < w0.jobs.length ∨ j ∈ t.own
  | (.field (.job j), true) => j ∈ t.own
  | (.map i, false) => Safe w0 w t.own (some i)
  | (.map i, true) => ∃ j ∈ t.own, ∃ job, w.jobs[j]? = some job ∧ job.kvs = some i
  | (.flag id, _) => pcFlag t = some id

theorem allowed_readMap {w0 w : World} {t : Thread} {r : MapRef} (h : Safe w0 w t.own r) : ∀ x ∈ readMap r, Allowed w0 w t x := by
  intro x hx
  cases r with
  | none => simp [readMap] at hx
  | some i =>
    simp only [readMap, Option.map_some, Option.toList_some, List.mem_singleton] at hx
    subst hx
    exact h

theorem accesses_allowed {w0 w : World} (h0 : World.Ok w0) (hm : Mem w0 w) {p : List Op} {t : Thread} {calls : List SinkCall} (h : TInv w0 w p t calls) :
    ∀ x ∈ accesses w t, Allowed w0 w t x := by
  obtain ⟨todo, pc, own⟩ := t
  cases h with
  | idle env D hpc he hd hx hc =>
    simp only at hpc hd
    subst hpc
    intro x hx
    cases todo with
    | nil => simp [accesses] at hx
    | cons o r =>
      cases o with
      | addSink s => exact hd.elim
      | _ => simp [accesses] at hx
  | kv env D i j k v hi hpc he hd hx hc =>
    simp only at hpc hi
    have hj : j ∈ own := List.mem_of_getElem? hi
    intro x hx
    rcases hpc with rfl | ⟨rfl, hg⟩ | ⟨rfl, r, hg⟩
    · simp only [accesses, List.mem_singleton] at hx
      subst hx
      exact .inr hj
    · simp only [accesses, List.mem_singleton] at hx
      subst hx
      exact hj
    · simp only [accesses, hg, Option.map_some, Option.toList_some, List.mem_cons, List.not_mem_nil, or_false] at hx
      rcases hx with rfl | rfl
      · exact .inr hj
      · cases hjj : w.jobs[j]? with
        | none => simp [getField, hjj] at hg
        | some job => exact ⟨j, hj, job, hjj, by simpa [getField, hjj] using hg⟩
  | merging env D x m job S J I hem hpc he hd hx hc =>
    simp only at hpc hem
    have hgf : getField w (.job x.job) = job.kvs := by simp [getField, hem.found]
    have hjobSafe := hm.safe_job h0 hem.found hem.vis
    have hstr := hm.safe_stream h0 own
    intro y hy
    cases pc with
    | lenJob x' =>
      have : x' = x := hpc
      subst this
      simp only [accesses, hgf, List.mem_cons] at hy
      rcases hy with rfl | hy
      · exact hem.vis
      · exact allowed_readMap hjobSafe y hy
    | lenStream x' n all =>
      simp only [accesses, List.mem_cons] at hy
      rcases hy with rfl | hy
      · rfl
      · exact allowed_readMap hstr y hy
    | lenInst x' n all =>
      obtain ⟨rfl, _⟩ := hpc
      exact allowed_readMap hem.safe y hy
    | copyStream x' =>
      simp only [accesses, List.mem_cons] at hy
      rcases hy with rfl | hy
      · rfl
      · exact allowed_readMap hstr y hy
    | copyJob x' mm =>
      obtain ⟨rfl, _⟩ := hpc
      simp only [accesses, hgf, List.mem_cons] at hy
      rcases hy with rfl | hy
      · exact hem.vis
      · exact allowed_readMap hjobSafe y hy
    | copyInst x' mm =>
      obtain ⟨rfl, _⟩ := hpc
      exact allowed_readMap hem.safe y hy
    | _ => exact hpc.elim
  | calling env D x m job S J I hem kvs called rest hpc hs hl hk he hd hx hc =>
    simp only at hpc hem hs
    intro y hy
    rcases hpc with ⟨rfl, _⟩ | rfl
    · simp only [accesses, List.mem_singleton] at hy
      subst hy
      rfl
    · have hfl : ∀ b, ∀ z ∈ ((flagOf x.call).map (fun id => (Loc.flag id, b))).toList, Allowed w0 w ⟨todo, .call x kvs rest, own⟩ z := by
        intro b z hz
        cases hf : flagOf x.call with
        | none => simp [hf] at hz
        | some id =>
          simp only [hf, Option.map_some, Option.toList_some, List.mem_singleton] at hz
          subst hz
          exact hf
      cases rest with
      | nil => exact hfl true y hy
      | cons s r =>
        simp only [accesses, List.mem_append] at hy
        rcases hy with hy | hy
        · exact allowed_readMap hs y hy
        · exact hfl false y hy

theorem no_conflict {w0 : World} {progs : List (List Op)} {s : State} (h : Inv w0 progs s) {a b : Nat} {ta tb : Thread} (hab : a ≠ b) (ha : s.threads[a]? = some ta)
    (hb : s.threads[b]? = some tb) {l : Loc} {wb : Bool} (h1 : Allowed w0 s.world ta (l, true)) (h2 : Allowed w0 s.world tb (l, wb)) : False := by
  cases l with
  | sinks => cases h1
  | field f =>
    cases f with
    | stream => cases h1
    | job j =>
      have hj : j ∈ ta.own := h1
      have hge := ((h.own a ta ha).1 j hj).1
      cases wb with
      | false =>
        have h2 : j < w0.jobs.length ∨ j ∈ tb.own := h2
        rcases h2 with h2 | h2
        · omega
        · exact h.disj a b ta tb hab ha hb j hj h2
      | true => exact h.disj a b ta tb hab ha hb j hj h2
  | map i =>
    obtain ⟨j, hj, job, e1, e2⟩ := h1
    have hge := ((h.own a ta ha).1 j hj).1
    have hnb := h.disj a b ta tb hab ha hb j hj
    cases wb with
    | false => exact (h2 i rfl).2 j job hge hnb e1 e2
    | true =>
      obtain ⟨j', hj', job', f1, f2⟩ := h2
      have := h.mem.inj j j' job job' i hge ((h.own b tb hb).1 j' hj').1 e1 f1 e2 f2
      subst this
      exact hnb hj'
  | flag id => exact h.flagd a b ta tb hab ha hb id h1 h2

/-- C92: goroutines that keep to the discipline never race, whatever the schedule. -/
theorem C92_no_race {clock : Nat → Int} {w0 : World} (h0 : Reachable clock w0) {progs : List (List Op)} (hd : ∀ p ∈ progs, Disciplined w0.jobs.length 0 p)
    {sched : List Nat} {s : State} (hr : run clock (start w0 progs) sched = some s) : ¬ Race s := by
  have hok := World.reachable_ok h0
  have h := inv_run hok sched (inv_start hok hd) hr
  rintro ⟨a, b, ta, tb, hab, ha, hb, l, wa, wb, h1, h2, h3⟩
  have allowed : ∀ {c : Nat} {tc : Thread}, s.threads[c]? = some tc → ∀ x ∈ accesses s.world tc, Allowed w0 s.world tc x := by
    intro c tc hc
    have hlt : c < progs.length := h.len ▸ (List.getElem?_eq_some_iff.1 hc).1
    exact accesses_allowed hok h.mem (h.thr c tc progs[c] hc (by simp [hlt]))
  rcases h3 with rfl | rfl
  · exact no_conflict h hab ha hb (allowed ha _ h1) (allowed hb _ h2)
  · exact no_conflict h (Ne.symm hab) hb ha (allowed hb _ h2) (allowed ha _ h1)

/-- C92: at every moment, what a goroutine has told the sinks is the beginning of what its program says, statement by statement, to each sink in order, with the
right key/values; all of it when the goroutine has ended.  Nothing else is told to the sinks. -/
theorem C92_calls {clock : Nat → Int} {w0 : World} (h0 : Reachable clock w0) {progs : List (List Op)} (hd : ∀ p ∈ progs, Disciplined w0.jobs.length 0 p)
    {sched : List Nat} {s : State} (hr : run clock (start w0 progs) sched = some s) :
    (∀ x ∈ s.log, x.1 < progs.length) ∧ s.threads.length = progs.length ∧
    ∀ a p t, progs[a]? = some p → s.threads[a]? = some t →
      ∃ D, D <+: toEach w0.sinks (toldIn w0 p) ∧ List.Forall₂ TellsTo D (callsOf a s) ∧ (Ended t → D = toEach w0.sinks (toldIn w0 p)) := by
  have hok := World.reachable_ok h0
  have h := inv_run hok sched (inv_start hok hd) hr
  refine ⟨h.tags, h.len, fun a p t hp ht => ?_⟩
  cases h.thr a t p ht hp with
  | idle env D hpc he hd hx hc =>
    refine ⟨D, ⟨_, hx⟩, hc, fun hE => ?_⟩
    rw [hE.1] at hx
    simpa [toCome, told, toEach] using hx
  | kv env D i j k v hi hpc he hd hx hc =>
    refine ⟨D, ⟨_, hx⟩, hc, fun hE => ?_⟩
    rcases hpc with h | ⟨h, _⟩ | ⟨h, _⟩ <;> rw [hE.2] at h <;> cases h
  | merging env D x m job S J I hem hpc he hd hx hc =>
    refine ⟨D, ⟨_, hx⟩, hc, fun hE => ?_⟩
    rw [hE.2] at hpc
    exact hpc.elim
  | calling env D x m job S J I hem kvs called rest hpc hs hl hk he hd hx hc =>
    refine ⟨_, ⟨rest.map (fun s => (s, m)) ++ toEach w0.sinks (toCome w0 env t.todo), ?_⟩, hc, fun hE => ?_⟩
    · rw [← hx]
      simp only [toEach, List.flatMap_cons, List.append_assoc]
      conv_rhs => rw [hk]
      simp [hk]
    · rcases hpc with ⟨h, _⟩ | h <;> rw [hE.2] at h <;> cases h

/-- C92: a goroutine that has not ended can go on: none waits for another, none panics. -/
theorem C92_progress {clock : Nat → Int} {w0 : World} (h0 : Reachable clock w0) {progs : List (List Op)} (hd : ∀ p ∈ progs, Disciplined w0.jobs.length 0 p)
    {sched : List Nat} {s : State} (hr : run clock (start w0 progs) sched = some s) {a : Nat} {t : Thread} (ht : s.threads[a]? = some t) (hne : ¬ Ended t) :
    ∃ s', step clock s a = some s' := by
  have hok := World.reachable_ok h0
  have h := inv_run hok sched (inv_start hok hd) hr
  have hlt : a < progs.length := h.len ▸ (List.getElem?_eq_some_iff.1 ht).1
  obtain ⟨r, hr⟩ := Option.isSome_iff_exists.1 (tstep_isSome clock (h.thr a t progs[a] ht (by simp [hlt])) hne)
  exact ⟨⟨r.1, s.threads.set a r.2.1, s.log ++ r.2.2.map (fun c => (a, c))⟩, by unfold step; rw [ht]; simp only [hr, Option.map_some]⟩

/-! ## The hypotheses can be met: two goroutines, a shared job, jobs of their own, two sinks -/
namespace Sample

def clk (n : Nat) : Int := 10 * n

/-- set up by one goroutine. -/
def setup : List World.Op := [.addSink 3, .streamKv (bs "env") (bs "prod"), .newJob (bs "shared"), .jobKv 1 (bs "s") (bs "1"), .addSink 4]

def w0 : World := (World.newStream clk).run clk setup

def pA : List Op := [.newJob (bs "a"), .jobKv (.own 0) (bs "u") (bs "1"), .emit (.own 0) (.event (bs "e")) (some [(bs "u", bs "2")]), .emit (.shared 1) (.complete Status.success) none]
def pB : List Op := [.emit (.shared 1) (.eventErr (bs "x") (.other (bs "no")) []) none, .newJob (bs "b"), .jobKv (.own 0) (bs "u") (bs "9"), .emit (.own 0) (.timing (bs "t") 5) none]

/-- one step each, in turn, and then the rest. -/
def sched : List Nat := (List.range 25).flatMap (fun _ => [0, 1]) ++ [1, 1, 0, 0]

theorem reachable : Reachable clk w0 := ⟨setup, ⟨trivial, trivial, trivial, trivial, trivial, trivial⟩, rfl⟩

theorem disciplined : ∀ p ∈ [pA, pB], Disciplined w0.jobs.length 0 p := by
  have e : w0.jobs.length = 2 := by decide +kernel
  rw [e]
  simp only [List.mem_cons, List.not_mem_nil, or_false]
  rintro p (rfl | rfl)
  · refine ⟨by decide, by decide, trivial, ?_, by decide, trivial, by simp, trivial⟩
    rintro m ⟨⟩
    simp [GoMap.Wf, GoMap.keys]
  · exact ⟨by decide, trivial, by simp, by decide, by decide, trivial, by simp, trivial⟩

theorem ends : ∃ s, run clk (start w0 [pA, pB]) sched = some s ∧ (∀ t ∈ s.threads, Ended t) ∧ (callsOf 0 s).length = 4 ∧ (callsOf 1 s).length = 4 := by
  have h : (run clk (start w0 [pA, pB]) sched).map (fun s => (s.threads.map (fun t => (t.todo, t.pc)), (callsOf 0 s).length, (callsOf 1 s).length)) =
      some ([([], .idle), ([], .idle)], 4, 4) := by decide +kernel
  obtain ⟨s, hs, h1⟩ := Option.map_eq_some_iff.1 h
  simp only [Prod.mk.injEq] at h1
  refine ⟨s, hs, fun t ht => ?_, h1.2.1, h1.2.2⟩
  have : (t.todo, t.pc) ∈ s.threads.map (fun t => (t.todo, t.pc)) := List.mem_map_of_mem ht
  rw [h1.1] at this
  simp only [List.mem_cons, List.not_mem_nil, or_false, or_self, Prod.mk.injEq] at this
  exact this

/-- the statements, with the key/values in force. -/
example : (toldIn w0 pA).map (fun m => (m.1, m.2.1, m.2.2 (bs "u"), m.2.2 (bs "env"), m.2.2 (bs "s"))) =
    [(bs "a", .event (bs "e"), some (bs "2"), some (bs "prod"), none), (bs "shared", .complete Status.success, none, some (bs "prod"), some (bs "1"))] := by decide +kernel

example : ∃ s, run clk (start w0 [pA, pB]) sched = some s ∧ ¬ Race s ∧ List.Forall₂ TellsTo (toEach [3, 4] (toldIn w0 pA)) (callsOf 0 s) := by
  obtain ⟨s, hs, hE, _, _⟩ := ends
  refine ⟨s, hs, C92_no_race reachable disciplined hs, ?_⟩
  obtain ⟨_, hl, h⟩ := C92_calls reachable disciplined hs
  have hlt : 0 < s.threads.length := by rw [hl]; decide
  obtain ⟨D, _, h2, h3⟩ := h 0 pA s.threads[0] rfl (by simp [hlt])
  rw [h3 (hE _ (List.getElem_mem hlt)), show w0.sinks = [3, 4] by decide +kernel] at h2
  exact h2

/-! ## Without the discipline it fails -/

/-- an error has been reported (and returned to the caller). -/
def w1 : World := w0.run clk [.emit 0 (.eventErr (bs "e") (.other (bs "no")) []) none]

/-- the accesses of the goroutines. -/
def about (s : State) : List (List (Loc × Bool)) := s.threads.map (accesses s.world)

theorem race_of_about {s : State} {x y : List (Loc × Bool)} (h : about s = [x, y]) (l : Loc) (wb : Bool) (hx : (l, true) ∈ x) (hy : (l, wb) ∈ y) : Race s := by
  cases hs : s.threads with
  | nil => simp [about, hs] at h
  | cons t r =>
    cases r with
    | nil => simp [about, hs] at h
    | cons u r =>
      simp only [about, hs, List.map_cons, List.cons.injEq, List.map_eq_nil_iff] at h
      obtain ⟨rfl, rfl, rfl⟩ := h
      exact ⟨0, 1, t, u, by decide, by simp [hs], by simp [hs], l, true, wb, hx, hy, .inl rfl⟩

/-- C92: the discipline is needed.  Two goroutines that set key/values of the same job, or one that sets the stream's while another emits, or two that add sinks, or
two that report again the same error object, race. -/
theorem C92_needs_discipline :
    (∃ sched s, run clk (start w0 [[.jobKv (.shared 1) (bs "a") (bs "1")], [.jobKv (.shared 1) (bs "b") (bs "2")]]) sched = some s ∧ Race s) ∧
    (∃ sched s, run clk (start w0 [[.streamKv (bs "a") (bs "1")], [.emit (.shared 0) (.event (bs "e")) none]]) sched = some s ∧ Race s) ∧
    (∃ sched s, run clk (start w0 [[.addSink 8], [.addSink 9]]) sched = some s ∧ Race s) ∧
    (∃ sched s, run clk (start w1 [[.emit (.shared 0) (.eventErr (bs "e") (.unmuted 0 (.other (bs "no")) []) []) none],
      [.emit (.shared 0) (.eventErr (bs "f") (.unmuted 0 (.other (bs "no")) []) []) none]]) sched = some s ∧ Race s) := by
  have key : ∀ (w : World) (ps : List (List Op)) (sched : List Nat) (x y : List (Loc × Bool)) (l : Loc) (wb : Bool),
      (run clk (start w ps) sched).map about = some [x, y] → (l, true) ∈ x → (l, wb) ∈ y → ∃ sched s, run clk (start w ps) sched = some s ∧ Race s := by
    intro w ps sched x y l wb h hx hy
    obtain ⟨s, hs, h1⟩ := Option.map_eq_some_iff.1 h
    exact ⟨sched, s, hs, race_of_about h1 l wb hx hy⟩
  refine ⟨?_, ?_, ?_, ?_⟩
  · exact key _ _ [0, 0, 1, 1] [(.field (.job 1), false), (.map 1, true)] [(.field (.job 1), false), (.map 1, true)] (.map 1) true (by decide +kernel) (by simp) (by simp)
  · exact key _ _ [0, 0, 1, 1] [(.field .stream, false), (.map 0, true)] [(.field .stream, false), (.map 0, false)] (.map 0) false (by decide +kernel) (by simp) (by simp)
  · exact key _ _ [0, 1] [(.sinks, true)] [(.sinks, true)] .sinks true (by decide +kernel) (by simp) (by simp)
  · exact key _ _ [0, 0, 0, 0, 0, 0, 0, 1, 1, 1, 1, 1] [(.flag 0, true)] [(.map 0, false), (.flag 0, false)] (.flag 0) false (by decide +kernel) (by simp) (by simp)

/-- C92: what can happen then, even if each memory access were atomic: the sink added by one goroutine is lost; a key/value of a job is lost. -/
theorem C92_lost :
    (∃ sched s, run clk (start w0 [[.addSink 8], [.addSink 9]]) sched = some s ∧ (∀ t ∈ s.threads, Ended t) ∧ 8 ∉ s.world.sinks) ∧
    (∃ sched s, run clk (start w0 [[.jobKv (.shared 0) (bs "a") (bs "1")], [.jobKv (.shared 0) (bs "b") (bs "2")]]) sched = some s ∧ (∀ t ∈ s.threads, Ended t) ∧
      ∃ job, s.world.jobs[0]? = some job ∧ lookup (s.world.deref job.kvs) (bs "a") = none) := by
  have ended : ∀ {s : State}, s.threads.map (fun t => (t.todo, t.pc)) = [([], .idle), ([], .idle)] → ∀ t ∈ s.threads, Ended t := by
    intro s h t ht
    have : (t.todo, t.pc) ∈ s.threads.map (fun t => (t.todo, t.pc)) := List.mem_map_of_mem ht
    rw [h] at this
    simpa [Ended] using this
  constructor
  · have h : (run clk (start w0 [[.addSink 8], [.addSink 9]]) [0, 1, 0, 1]).map (fun s => (s.threads.map (fun t => (t.todo, t.pc)), s.world.sinks)) =
        some ([([], .idle), ([], .idle)], [3, 4, 9]) := by decide +kernel
    obtain ⟨s, hs, h1⟩ := Option.map_eq_some_iff.1 h
    simp only [Prod.mk.injEq] at h1
    exact ⟨_, s, hs, ended h1.1, by rw [h1.2]; decide⟩
  · have h : (run clk (start w0 [[.jobKv (.shared 0) (bs "a") (bs "1")], [.jobKv (.shared 0) (bs "b") (bs "2")]]) [0, 1, 0, 1, 0, 0, 1, 1]).map
        (fun s => (s.threads.map (fun t => (t.todo, t.pc)), s.world.jobs[0]?.map (fun j => lookup (s.world.deref j.kvs) (bs "a")))) =
        some ([([], .idle), ([], .idle)], some none) := by decide +kernel
    obtain ⟨s, hs, h1⟩ := Option.map_eq_some_iff.1 h
    simp only [Prod.mk.injEq] at h1
    obtain ⟨job, hj, hn⟩ := Option.map_eq_some_iff.1 h1.2
    exact ⟨_, s, hs, ended h1.1, job, hj, hn⟩

end Sample

/-! ## The goroutines come to their end -/

/-- the steps to the end of the call, at most; `n` sinks. -/
def pcCost (n : Nat) : Pc → Nat
  | .idle => 0
  | .store _ => 1
  | .kvTest _ _ _ => 3
  | .kvMake _ _ _ => 2
  | .kvSet _ _ _ => 1
  | .lenJob _ => n + 8
  | .lenStream _ _ _ => n + 7
  | .lenInst _ _ _ => n + 6
  | .copyStream _ => n + 5
  | .copyJob _ _ => n + 4
  | .copyInst _ _ => n + 3
  | .range _ _ => n + 2
  | .call _ _ rest => rest.length + 1

def tCost (n : Nat) (t : Thread) : Nat := t.todo.length * (n + 9) + pcCost n t.pc

theorem tstep_cost {clock : Nat → Int} {w w' : World} {t t' : Thread} {cs : List SinkCall} (hs : tstep clock w t = some (w', t', cs)) :
    tCost w.sinks.length t' < tCost w.sinks.length t := by
  obtain ⟨todo, pc, own⟩ := t
  cases pc with
  | idle =>
    cases todo with
    | nil => cases hs
    | cons o r =>
      have hl : (o :: r).length * (w.sinks.length + 9) = r.length * (w.sinks.length + 9) + (w.sinks.length + 9) := by simp [Nat.add_mul]
      cases o with
      | addSink s => simp only [tstep, Option.some.injEq, Prod.mk.injEq] at hs; obtain ⟨rfl, rfl, rfl⟩ := hs; simp only [tCost, hl, pcCost]; omega
      | streamKv k v => simp only [tstep, Option.some.injEq, Prod.mk.injEq] at hs; obtain ⟨rfl, rfl, rfl⟩ := hs; simp only [tCost, hl, pcCost]; omega
      | newJob m => simp only [tstep, Option.some.injEq, Prod.mk.injEq] at hs; obtain ⟨rfl, rfl, rfl⟩ := hs; simp only [tCost, hl, pcCost]; omega
      | jobKv j k v =>
        simp only [tstep, Option.map_eq_some_iff, Prod.mk.injEq] at hs
        obtain ⟨_, _, rfl, rfl, rfl⟩ := hs; simp only [tCost, hl, pcCost]; omega
      | emit j c kvs =>
        simp only [tstep, Option.map_eq_some_iff, Prod.mk.injEq] at hs
        obtain ⟨_, _, rfl, rfl, rfl⟩ := hs; simp only [tCost, hl, pcCost]; omega
  | store l => simp only [tstep, Option.some.injEq, Prod.mk.injEq] at hs; obtain ⟨rfl, rfl, rfl⟩ := hs; simp only [tCost, pcCost]; omega
  | kvTest f k v =>
    simp only [tstep, Option.some.injEq, Prod.mk.injEq] at hs
    obtain ⟨rfl, rfl, rfl⟩ := hs
    simp only [tCost]
    split <;> simp only [pcCost] <;> omega
  | kvMake f k v => simp only [tstep, Option.some.injEq, Prod.mk.injEq] at hs; obtain ⟨rfl, rfl, rfl⟩ := hs; simp only [tCost, pcCost]; omega
  | kvSet f k v =>
    cases hg : getField w f with
    | none => simp [tstep, hg] at hs
    | some i => simp only [tstep, hg, Option.some.injEq, Prod.mk.injEq] at hs; obtain ⟨rfl, rfl, rfl⟩ := hs; simp only [tCost, pcCost]; omega
  | lenJob x =>
    simp only [tstep, Option.some.injEq, Prod.mk.injEq] at hs
    obtain ⟨rfl, rfl, rfl⟩ := hs
    simp only [tCost]
    split <;> simp only [pcCost] <;> omega
  | lenStream x n all =>
    simp only [tstep, Option.some.injEq, Prod.mk.injEq] at hs
    obtain ⟨rfl, rfl, rfl⟩ := hs
    simp only [tCost]
    split <;> simp only [pcCost] <;> omega
  | lenInst x n all =>
    simp only [tstep, Option.some.injEq, Prod.mk.injEq] at hs
    obtain ⟨rfl, rfl, rfl⟩ := hs
    simp only [tCost]
    repeat' split
    all_goals simp only [pcCost]; omega
  | copyStream x => simp only [tstep, Option.some.injEq, Prod.mk.injEq] at hs; obtain ⟨rfl, rfl, rfl⟩ := hs; simp only [tCost, pcCost]; omega
  | copyJob x m => simp only [tstep, Option.some.injEq, Prod.mk.injEq] at hs; obtain ⟨rfl, rfl, rfl⟩ := hs; simp only [tCost, pcCost]; omega
  | copyInst x m => simp only [tstep, Option.some.injEq, Prod.mk.injEq] at hs; obtain ⟨rfl, rfl, rfl⟩ := hs; simp only [tCost, pcCost]; omega
  | range x kvs => simp only [tstep, Option.some.injEq, Prod.mk.injEq] at hs; obtain ⟨rfl, rfl, rfl⟩ := hs; simp only [tCost, pcCost]; omega
  | call x kvs rest =>
    cases rest with
    | nil => simp only [tstep, Option.some.injEq, Prod.mk.injEq] at hs; obtain ⟨rfl, rfl, rfl⟩ := hs; simp only [tCost, pcCost]; omega
    | cons s r =>
      cases hj : w.jobs[x.job]? with
      | none => simp [tstep, hj] at hs
      | some job => simp only [tstep, hj, Option.some.injEq, Prod.mk.injEq] at hs; obtain ⟨rfl, rfl, rfl⟩ := hs; simp only [tCost, pcCost, List.length_cons]; omega

def cost (n : Nat) (ts : List Thread) : Nat := (ts.map (tCost n)).sum

theorem cost_set (n : Nat) : ∀ (ts : List Thread) (a : Nat) (t t' : Thread), ts[a]? = some t → tCost n t' < tCost n t → cost n (ts.set a t') < cost n ts
  | [], a, t, t', h, _ => by simp at h
  | x :: ts, 0, t, t', h, hlt => by
    simp only [List.getElem?_cons_zero, Option.some.injEq] at h
    subst h
    simp only [List.set_cons_zero, cost, List.map_cons, List.sum_cons]
    omega
  | x :: ts, a + 1, t, t', h, hlt => by
    have := cost_set n ts a t t' (by simpa using h) hlt
    simp only [List.set_cons_succ, cost, List.map_cons, List.sum_cons] at this ⊢
    omega

theorem cost_run {w0 : World} (h0 : World.Ok w0) {progs : List (List Op)} {clock : Nat → Int} : ∀ (sched : List Nat) {s s' : State}, Inv w0 progs s →
    run clock s sched = some s' → sched.length + cost w0.sinks.length s'.threads ≤ cost w0.sinks.length s.threads
  | [], s, s', h, hr => by cases hr; simp
  | a :: r, s, s', h, hr => by
    simp only [run, List.foldlM_cons] at hr
    cases hs : step clock s a with
    | none => rw [hs] at hr; cases hr
    | some s1 =>
      rw [hs] at hr
      have ih := cost_run h0 r (inv_step h0 h hs) hr
      have : cost w0.sinks.length s1.threads < cost w0.sinks.length s.threads := by
        unfold step at hs
        cases hta : s.threads[a]? with
        | none => rw [hta] at hs; cases hs
        | some t =>
          rw [hta] at hs
          cases hst : tstep clock s.world t with
          | none => simp [hst] at hs
          | some q =>
            obtain ⟨w', t', cs⟩ := q
            simp only [hst, Option.map_some, Option.some.injEq] at hs
            subst hs
            have := tstep_cost hst
            rw [h.mem.sinks] at this
            exact cost_set _ _ _ _ _ hta this
      simp only [List.length_cons]
      omega

theorem cost_start (w0 : World) (n : Nat) (progs : List (List Op)) : cost n (start w0 progs).threads = progs.flatten.length * (n + 9) := by
  simp only [start]
  induction progs with
  | nil => simp [cost]
  | cons p r ih =>
    simp only [List.map_cons, cost, List.sum_cons, List.flatten_cons, List.length_append, Nat.add_mul] at ih ⊢
    rw [ih]
    simp [tCost, pcCost, Nat.mul_add]

/-- C92: all goroutines come to their end: an execution has at most so many steps, and as long as a goroutine has not ended it can be continued (`C92_progress`). -/
theorem C92_ends {clock : Nat → Int} {w0 : World} (h0 : Reachable clock w0) {progs : List (List Op)} (hd : ∀ p ∈ progs, Disciplined w0.jobs.length 0 p)
    {sched : List Nat} {s : State} (hr : run clock (start w0 progs) sched = some s) :
    sched.length ≤ progs.flatten.length * (w0.sinks.length + 9) := by
  have hok := World.reachable_ok h0
  have h := cost_run hok sched (inv_start hok hd) hr
  rw [cost_start] at h
  omega

end Concurrent
