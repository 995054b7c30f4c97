import Verif.Props.StatsDServer
import Mathlib.Algebra.Order.BigOperators.Group.List
import Mathlib.Algebra.Order.Ring.Rat
/-!
# C108: several processes, one StatsD server, a network that loses datagrams
UDP: a datagram arrives whole or not at all, at any time.
-/
open Spec Spec.Sd StatsD
namespace Spec.Sd

/-- the datagrams that a process has sent after a history. -/
def sentBy (o : StatsDOpts) (ops : List StatsD.Op) : List Str := ((fresh o).run ops).packets
/-- some of the datagrams arrive, in any order, none twice. -/
def Arrive (arrived sent : List Str) : Prop := arrived.Subperm sent
/-- all emissions. -/
def emitted (procs : List (List StatsD.Op)) : List SdCmd := procs.flatMap cmds

end Spec.Sd

namespace StatsDNetwork
open StatsDServer

theorem subperm_flatMap {α β : Type} {a b : List α} (h : a.Subperm b) (f : α → List β) : (a.flatMap f).Subperm (b.flatMap f) := by
  obtain ⟨c, hp, hs⟩ := h
  exact ⟨c.flatMap f, hp.flatMap_right f, hs.flatMap f⟩

theorem subperm_filterMap {α β : Type} {a b : List α} (h : a.Subperm b) (f : α → Option β) : (a.filterMap f).Subperm (b.filterMap f) := by
  obtain ⟨c, hp, hs⟩ := h
  exact ⟨c.filterMap f, hp.filterMap f, hs.filterMap f⟩

theorem subperm_filter' {α : Type} {a b : List α} (h : a.Subperm b) (p : α → Bool) : (a.filter p).Subperm (b.filter p) := by
  obtain ⟨c, hp, hs⟩ := h
  exact ⟨c.filter p, hp.filter p, hs.filter p⟩

theorem received_flatMap (ps : List Str) : received ps = ps.flatMap (fun p => (parsePacket p).getD []) := by
  unfold received
  induction ps with
  | nil => rfl
  | cons p t ih =>
    rw [List.filterMap_cons, List.flatMap_cons, ← ih]
    cases parsePacket p with
    | none => rfl
    | some x => rfl

theorem sent_sublist (o : StatsDOpts) (ops : List StatsD.Op) : (sent o ops).Sublist ((cmds ops).flatMap (metricsOf o)) := by
  unfold sent
  have e : ops.flatMap (fun | .cmd c => metricsOf o c | .flush => []) = (cmds ops).flatMap (metricsOf o) := by
    induction ops with
    | nil => rfl
    | cons a t ih => cases a <;> simp [cmds] at ih ⊢ <;> exact ih
  rw [← e]
  exact List.filter_sublist

theorem received_sublist (o : StatsDOpts) (ho : o.sanitize = sanitizeKey) (ops : List StatsD.Op) :
    (received (sentBy o ops)).Sublist ((cmds ops).flatMap (metricsOf o)) := by
  obtain ⟨groups, pending, h1, h2, -⟩ := C29_datagrams_parse o ho ops
  have hr : received (sentBy o ops) = groups.flatten := by
    unfold received sentBy
    have : ((fresh o).run ops).packets.filterMap parsePacket = groups := by
      have := congrArg (List.filterMap id) h2
      rw [List.filterMap_map] at this
      simpa using this
    rw [this]
  rw [hr]
  refine List.Sublist.trans ?_ (sent_sublist o ops)
  rw [← h1]
  exact List.sublist_append_left _ _

/-- C108: whatever the network loses or delays, the server reads only metrics that some process has emitted, each at most as often as it was emitted; nothing is cut
or mixed. -/
theorem C108_lines (procs : List (StatsDOpts × List StatsD.Op)) (ho : ∀ p ∈ procs, p.1.sanitize = sanitizeKey) (arrived : List Str)
    (h : Arrive arrived (procs.flatMap (fun p => sentBy p.1 p.2))) :
    (received arrived).Subperm (procs.flatMap (fun p => (cmds p.2).flatMap (metricsOf p.1))) := by
  have h1 : (received arrived).Subperm (procs.flatMap (fun p => received (sentBy p.1 p.2))) := by
    have := subperm_flatMap h (fun p => (parsePacket p).getD [])
    rw [List.flatMap_assoc] at this
    rw [received_flatMap]
    simpa only [received_flatMap] using this
  refine h1.trans (List.Sublist.subperm ?_)
  exact List.Sublist.flatMap_right procs (fun p hp => received_sublist p.1 (ho p hp) p.2)

theorem counts_one {o : StatsDOpts} {c : SdCmd} {m : Metric} (hm : m ∈ metricsOf o c) (ht : m.type = bs "c") : m.value = bs "1" := by
  obtain ⟨t1, t2, -⟩ := types_ne
  unfold metricsOf at hm
  cases c <;> simp only [List.mem_append, List.mem_singleton] at hm
  · rcases hm with hm | hm <;> (split at hm <;> [simp at hm; (rw [List.mem_singleton] at hm; rw [hm])])
  · rcases hm with hm | hm <;> (split at hm <;> [simp at hm; (rw [List.mem_singleton] at hm; rw [hm])])
  · rcases hm with hm | hm <;> (split at hm <;> [simp at hm; (rw [List.mem_singleton] at hm; rw [hm] at ht; exact absurd ht.symm t1)])
  · rcases hm with hm | hm <;> (split at hm <;> [simp at hm; (rw [List.mem_singleton] at hm; rw [hm] at ht; exact absurd ht.symm t2)])
  · rw [hm] at ht; exact absurd ht.symm t1

theorem counter_mono {ms all : List Metric} (h : ms.Subperm all) (h1 : ∀ m ∈ all, m.type = bs "c" → m.value = bs "1") (k : Str) :
    Sd.counter ms k ≤ Sd.counter all k := by
  unfold Sd.counter having
  have hs := subperm_filterMap (subperm_filter' h (fun m => decide (m.type = bs "c" ∧ m.key = k))) (fun m => parseDec m.value)
  have hpos : ∀ x ∈ (all.filter (fun m => decide (m.type = bs "c" ∧ m.key = k))).filterMap (fun m => parseDec m.value), (0 : ℚ) ≤ x := by
    intro x hx
    obtain ⟨m, hm, hx⟩ := List.mem_filterMap.1 hx
    obtain ⟨hm1, hm2⟩ := List.mem_filter.1 hm
    simp only [decide_eq_true_eq] at hm2
    rw [h1 m hm1 hm2.1, one_reads] at hx
    rw [← Option.some.inj hx]; norm_num
  obtain ⟨c, hp, hs⟩ := hs
  rw [← hp.sum_eq]
  exact hs.sum_le_sum hpos

theorem emitted_flat (o : StatsDOpts) (procs : List (List StatsD.Op)) :
    (procs.map (fun ops => (o, ops))).flatMap (fun p => (cmds p.2).flatMap (metricsOf p.1)) = (emitted procs).flatMap (metricsOf o) := by
  unfold emitted
  rw [List.flatMap_map, List.flatMap_assoc]

theorem arrive_subperm {o : StatsDOpts} (ho : o.sanitize = sanitizeKey) {procs : List (List StatsD.Op)} {arrived : List Str}
    (h : Arrive arrived (procs.flatMap (sentBy o))) : (received arrived).Subperm ((emitted procs).flatMap (metricsOf o)) := by
  rw [← emitted_flat o procs]
  refine C108_lines (procs.map (fun ops => (o, ops))) (by simp [ho]) arrived ?_
  rw [List.flatMap_map]
  exact h

/-- C108: with processes of the same settings, counters never show more than was emitted. -/
theorem C108_counters (o : StatsDOpts) (ho : o.sanitize = sanitizeKey) (procs : List (List StatsD.Op)) (hn : ∀ c ∈ emitted procs, Sd.PlainNames c)
    (arrived : List Str) (h : Arrive arrived (procs.flatMap (sentBy o))) (job e : Str) (hj : Sd.Plain job) (he : Sd.Plain e) :
    let key (names : List Str) : Str := metricKey sanitizeKey (o.pfx :: names)
    Sd.counter (received arrived) (key [e]) ≤ Sd.eventsOf (emitted procs) e ∧
    (e ≠ bs "error" → Sd.counter (received arrived) (key [job, e]) ≤ Sd.eventsIn (emitted procs) job e) ∧
    Sd.counter (received arrived) (key [job, e, bs "error"]) ≤ Sd.errorsIn (emitted procs) job e := by
  intro key
  obtain ⟨c1, c2, c3⟩ := counters o ho job e hj he (emitted procs) hn
  have hm := counter_mono (arrive_subperm ho h) (fun m hm ht => by
    obtain ⟨c, -, hc⟩ := List.mem_flatMap.1 hm
    exact counts_one hc ht)
  refine ⟨(hm _).trans ?_, fun hne => (hm _).trans ?_, (hm _).trans ?_⟩
  · rw [c1]; split <;> simp
  · rw [c2]
    simp only [hne, and_false, if_false, add_zero]
    split <;> simp
  · rw [c3]; split <;> simp

theorem forall₂_subperm {α β : Type} {R : α → β → Prop} {l l' : List α} {r : List β} (h : List.Forall₂ R l r) (hs : l'.Subperm l) :
    ∃ r' : List β, r'.Subperm r ∧ List.Forall₂ R l' r' := by
  obtain ⟨c, hp, hsub⟩ := hs
  have h1 : ∃ rc, rc.Sublist r ∧ List.Forall₂ R c rc := by
    clear hp
    induction hsub generalizing r with
    | slnil => exact ⟨[], by simp, .nil⟩
    | cons a _ ih =>
      cases h with
      | cons h1 h2 =>
        obtain ⟨rc, k1, k2⟩ := ih h2
        exact ⟨rc, k1.cons _, k2⟩
    | cons_cons a _ ih =>
      cases h with
      | cons h1 h2 =>
        obtain ⟨rc, k1, k2⟩ := ih h2
        exact ⟨_, k1.cons_cons _, .cons h1 k2⟩
  obtain ⟨rc, k1, k2⟩ := h1
  have h2 : ∃ r', r'.Perm rc ∧ List.Forall₂ R l' r' := by
    clear k1 hsub h
    induction hp generalizing rc with
    | nil => cases k2; exact ⟨[], .nil, .nil⟩
    | cons a _ ih =>
      cases k2 with
      | cons h1 h2 =>
        obtain ⟨r', p1, p2⟩ := ih _ h2
        exact ⟨_, p1.cons _, .cons h1 p2⟩
    | swap a b l =>
      cases k2 with
      | cons h1 h2 =>
        cases h2 with
        | cons h2 h3 => exact ⟨_, List.Perm.swap _ _ _, .cons h2 (.cons h1 h3)⟩
    | trans _ _ ih1 ih2 =>
      obtain ⟨r1, p1, q1⟩ := ih1 _ k2
      obtain ⟨r2, p2, q2⟩ := ih2 _ q1
      exact ⟨r2, p2.trans p1, q2⟩
  obtain ⟨r', p1, p2⟩ := h2
  exact ⟨r', p1.subperm.trans k1.subperm, p2⟩

/-- C108: the timings that the server has are some of those emitted. -/
theorem C108_times (o : StatsDOpts) (ho : o.sanitize = sanitizeKey) (procs : List (List StatsD.Op)) (hn : ∀ c ∈ emitted procs, Sd.PlainNames c ∧ DurationOk c)
    (arrived : List Str) (h : Arrive arrived (procs.flatMap (sentBy o))) (job e : Str) (hj : Sd.Plain job) (he : Sd.Plain e) :
    let key (names : List Str) : Str := metricKey sanitizeKey (o.pfx :: names)
    (∃ ns, ns.Subperm (Sd.timingsOf (emitted procs) e) ∧ List.Forall₂ IsMillis (times (received arrived) (key [e])) ns) ∧
    (∃ ns, ns.Subperm (Sd.timesIn (emitted procs) job e) ∧ List.Forall₂ IsMillis (times (received arrived) (key [job, e])) ns) := by
  intro key
  obtain ⟨t1, t2⟩ := time_lists o ho job e hj he (emitted procs) hn
  have hs := fun k => subperm_filterMap (subperm_filter' (arrive_subperm ho h) (fun m => decide (m.type = bs "ms" ∧ m.key = k))) (fun m => parseDec m.value)
  obtain ⟨n1, a1, b1⟩ := forall₂_subperm t1 (hs _)
  obtain ⟨n2, a2, b2⟩ := forall₂_subperm t2 (hs _)
  refine ⟨⟨n1, a1.trans ?_, b1⟩, ⟨n2, a2.trans ?_, b2⟩⟩
  · split
    · exact List.nil_subperm
    · exact List.Subperm.refl _
  · split
    · refine List.Sublist.subperm ?_
      clear a1 a2 b1 b2 hs t1 t2 h hn
      generalize emitted procs = cs
      unfold Sd.completionsIn Sd.timesIn
      induction cs with
      | nil => simp
      | cons c t ih =>
        cases c with
        | timing j n v =>
          by_cases hc : j = job ∧ n = e
          · simpa [hc] using ih.cons v
          · simpa [hc] using ih
        | complete j st v =>
          by_cases hc : j = job ∧ st.str = e
          · simpa [hc] using ih
          · simpa [hc] using ih
        | event j n => simpa using ih
        | eventErr j n => simpa using ih
        | gauge j n v => simpa using ih
    · exact List.Subperm.refl _

theorem gauge_some {ms : List Metric} (vs : List F64) (hv : ∀ v ∈ vs, Unsigned v) (h : ∀ m ∈ ms, ∃ v ∈ vs, m.value = gaugeText v) (old : Option ℚ)
    (hold : old = none ∨ ∃ q, ∃ v ∈ vs, old = some q ∧ IsGauge q v) :
    let x := ms.foldl setGauge old
    x = none ∨ ∃ q, ∃ v ∈ vs, x = some q ∧ IsGauge q v := by
  induction ms generalizing old with
  | nil => exact hold
  | cons m t ih =>
    refine ih (fun m hm => h m (by simp [hm])) _ ?_
    obtain ⟨v, hv1, hv2⟩ := h m (by simp)
    obtain ⟨q, k1, k2⟩ := gauge_set (hv v hv1) old m.key m.type
    rw [← hv2] at k1
    exact .inr ⟨q, v, hv1, k1, k2⟩

/-- C108: a gauge shows a value that some process has set it to, or none. -/
theorem C108_gauge (o : StatsDOpts) (ho : o.sanitize = sanitizeKey) (procs : List (List StatsD.Op)) (hn : ∀ c ∈ emitted procs, Sd.PlainNames c)
    (arrived : List Str) (h : Arrive arrived (procs.flatMap (sentBy o))) (e : Str) (he : Sd.Plain e) (hv : ∀ v ∈ Sd.gaugesOf (emitted procs) e, Unsigned v) :
    let x := Sd.gauge (received arrived) (metricKey sanitizeKey [o.pfx, e])
    x = none ∨ ∃ q, ∃ v ∈ Sd.gaugesOf (emitted procs) e, x = some q ∧ IsGauge q v := by
  have hg := (gauge_lists o ho e e he he (emitted procs) hn).1
  refine gauge_some _ hv (fun m hm => ?_) none (.inl rfl)
  have hm2 : m ∈ having ((emitted procs).flatMap (metricsOf o)) (bs "g") (metricKey sanitizeKey [o.pfx, e]) :=
    (subperm_filter' (arrive_subperm ho h) _).subset hm
  have hm3 := List.mem_map_of_mem (f := (·.value)) hm2
  rw [hg] at hm3
  obtain ⟨v, h1, h2⟩ := List.mem_map.1 hm3
  refine ⟨v, ?_, h2.symm⟩
  split at h1
  · simp at h1
  · exact h1

/-- C108: if all datagrams arrive, in any order, the counters are the sums over the processes. -/
theorem C108_all (o : StatsDOpts) (ho : o.sanitize = sanitizeKey) (procs : List (List StatsD.Op)) (hn : ∀ c ∈ emitted procs, Sd.PlainNames c)
    (hf : ∀ c ∈ emitted procs, ∀ m ∈ metricsOf o c, m.fits = true) (arrived : List Str)
    (h : arrived.Perm (procs.flatMap (fun ops => sentBy o (ops ++ [.flush])))) (job e : Str) (hj : Sd.Plain job) (he : Sd.Plain e) :
    let key (names : List Str) : Str := metricKey sanitizeKey (o.pfx :: names)
    (o.skipTop = false → Sd.counter (received arrived) (key [e]) = (procs.map (fun ops => (Sd.eventsOf (cmds ops) e : ℚ))).sum) ∧
    (o.skipNested = false → e ≠ bs "error" → Sd.counter (received arrived) (key [job, e]) = (procs.map (fun ops => (Sd.eventsIn (cmds ops) job e : ℚ))).sum) ∧
    (o.skipNested = false → Sd.counter (received arrived) (key [job, e, bs "error"]) = (procs.map (fun ops => (Sd.errorsIn (cmds ops) job e : ℚ))).sum) := by
  intro key
  have hr : (received arrived).Perm ((emitted procs).flatMap (metricsOf o)) := by
    have h1 := h.flatMap_right (fun p => (parsePacket p).getD [])
    rw [← received_flatMap, List.flatMap_assoc] at h1
    refine h1.trans (List.Perm.of_eq ?_)
    unfold emitted
    rw [List.flatMap_assoc]
    clear h h1 hn
    induction procs with
    | nil => rfl
    | cons ops t ih =>
      rw [List.flatMap_cons, List.flatMap_cons, ih (fun c hc => hf c (by simp only [emitted, List.flatMap_cons, List.mem_append] at hc ⊢; exact .inr hc)), ← received_flatMap]
      congr 1
      refine received_all o ho ops (fun c hc => hf c ?_)
      simp only [emitted, List.flatMap_cons, List.mem_append]
      left
      simpa [cmds] using ⟨_, hc, rfl⟩
  have hc : ∀ k, Sd.counter (received arrived) k = Sd.counter ((emitted procs).flatMap (metricsOf o)) k := by
    intro k
    unfold Sd.counter having
    exact ((hr.filter _).filterMap _).sum_eq
  obtain ⟨c1, c2, c3⟩ := counters o ho job e hj he (emitted procs) hn
  have hsum : ∀ p : SdCmd → Bool, (((emitted procs).countP p : Nat) : ℚ) = (procs.map (fun ops => (((cmds ops).countP p : Nat) : ℚ))).sum := by
    intro p
    unfold emitted
    rw [List.countP_flatMap]
    clear hn hf h hr hc c1 c2 c3
    induction procs with
    | nil => simp
    | cons a t ih => rw [List.map_cons, List.map_cons, List.sum_cons, List.sum_cons, ← ih]; push_cast; rfl
  refine ⟨fun h1 => ?_, fun h1 h2 => ?_, fun h1 => ?_⟩
  · rw [hc, c1, h1]; exact hsum _
  · rw [hc, c2, h1]
    simp only [h2, and_false, if_false, add_zero]
    exact hsum _
  · rw [hc, c3, h1]; exact hsum _

/-- two processes; the first one's first datagram is lost, the others arrive in another order. -/
def exProcs : List (List StatsD.Op) := [exOps, [.cmd (.event (bs "k") (bs "e")), .cmd (.timing (bs "j") (bs "t") 2500000), .flush]]
def exArrived : List Str := (sentBy exOpts [.cmd (.event (bs "k") (bs "e")), .cmd (.timing (bs "j") (bs "t") 2500000), .flush])

example : Arrive exArrived (exProcs.flatMap (sentBy exOpts)) ∧ exArrived.length = 1 ∧ (exProcs.flatMap (sentBy exOpts)).length = 2 ∧
    Sd.counter (received exArrived) (bs "my.app.e") = 1 ∧ Sd.eventsOf (emitted exProcs) (bs "e") = 3 ∧ times (received exArrived) (bs "my.app.t") = [5/2] := by
  refine ⟨?_, by decide +kernel, by decide +kernel, by decide +kernel, by decide +kernel, by decide +kernel⟩
  unfold Arrive exProcs exArrived
  rw [List.flatMap_cons, List.flatMap_cons, List.flatMap_nil, List.append_nil]
  exact (List.sublist_append_right _ _).subperm

/-- not C108: UDP may also deliver a datagram twice; then its events count twice. -/
theorem C108_twice_false : let ps := sentBy exOpts [.cmd (.event (bs "k") (bs "e")), .flush]
    Sd.counter (received (ps ++ ps)) (bs "my.app.e") = 2 := by decide +kernel

/-- not C108: the last value of a gauge may arrive first. -/
theorem C108_order_false : let ps := sentBy exOpts [.cmd (.gauge (bs "k") (bs "g") (.fin 1)), .flush, .cmd (.gauge (bs "k") (bs "g") (.fin 2)), .flush]
    Arrive ps.reverse ps ∧ Sd.gauge (received ps) (bs "my.app.g") = some 2 ∧ Sd.gauge (received ps.reverse) (bs "my.app.g") = some 1 := by
  refine ⟨(List.reverse_perm _).subperm, by decide +kernel, by decide +kernel⟩

end StatsDNetwork
