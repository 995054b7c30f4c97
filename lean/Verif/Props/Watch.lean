import Verif.Lemmas.Watch
import Verif.Props.EndToEnd
/-!
# What healthd shows at the end of a round of polls (C109)
-/
namespace Watch
open Spec Healthd EndToEnd

theorem ok_prefix {d : Int} {p : Proc} {h h' : List (Time × AggOp)} (hok : (p.after h').Ok d) (hp : h <+: h') : (p.after h).Ok d := by
  have hsub : ∀ x ∈ h, x ∈ h' := fun x hx => hp.subset hx
  exact ⟨hok.retain, List.Pairwise.sublist hp.sublist hok.clock, lt_of_le_of_lt hp.length_le hok.length, hok.zones, hok.id,
    fun t e hm => hok.emits t e (hsub _ hm), fun x hx => hok.years x (hsub _ hx)⟩

/-- the processes as healthd knows them. -/
def known (P : List Proc) (taken : List Msg) : List Process := P.mapIdx (fun i p => p.after (seen i taken))

theorem mem_known {P : List Proc} {taken : List Msg} {q : Process} : q ∈ known P taken ↔ ∃ (i : Nat) (p : Proc), P[i]? = some p ∧ q = p.after (seen i taken) := by
  unfold known
  rw [List.mem_mapIdx]
  constructor
  · rintro ⟨i, hi, rfl⟩; exact ⟨i, P[i], List.getElem?_eq_getElem hi, rfl⟩
  · rintro ⟨i, p, hp, rfl⟩
    obtain ⟨hi, rfl⟩ := List.getElem?_eq_some_iff.1 hp
    exact ⟨i, hi, rfl⟩

section
variable {sort : List IntAgg → List IntAgg} {lo : Int → Int} {d : Int} {P : List Proc} {hostPorts : List Str} {s : Sys}

/-- a successful response was made by a process. -/
theorem successful {r : Nat} {x : PollResponse} {o : Option Origin} (h : Makes lo d P s.past r x.hostPort x o) (hs : Succeeded x) : ∃ o', o = some o' := by
  cases o with
  | none => exact absurd hs h.2
  | some o' => exact ⟨o', rfl⟩

theorem polledAt {r : Nat} {x : PollResponse} {o : Origin} {hp : Str} (h : Makes lo d P s.past r hp x (some o)) {hist : List (Time × AggOp)}
    (hpre : o.hist ++ [(o.now, .read)] <+: hist) : ∃ p, P[o.i]? = some p ∧ p.hostPort = hp ∧ ∃ h2, PolledAt lo d (p.after hist) o.hist o.now h2 x := by
  obtain ⟨a, b, p, ms, fresh, ts, nanos, junk, e, h1, h2, h3, h4, h5, h6⟩ := h
  obtain ⟨c, hc⟩ := hpre
  refine ⟨p, h3, h4, c, ?_, ms, fresh, ts, nanos, junk, e, h5, ?_⟩
  · show hist = _
    rw [← hc]; simp
  · rw [h6, ← h4]; rfl

theorem mem_done (h : Reach sort lo d P hostPorts s) {x : PollResponse} {n1 n2 : Time} (hm : Op.response x n1 n2 ∈ s.done) :
    ∃ r o, (r, some (x, o)) ∈ s.taken := by
  have h1 : x ∈ s.done.filterMap respOf := List.mem_filterMap.2 ⟨_, hm, rfl⟩
  rw [h.inv.done] at h1
  obtain ⟨⟨r, m⟩, hm', e⟩ := List.mem_filterMap.1 h1
  cases m with
  | none => simp at e
  | some z => obtain ⟨y, o⟩ := z; simp at e; subst e; exact ⟨r, o, hm'⟩

theorem fleet (h : Reach sort lo d P hostPorts s) (hin : InTime hostPorts s.past) (hok : Ordinary d P s.past) : Fleet lo d (known P s.taken) s.done := by
  refine ⟨hok.pos, hok.fits, ?_, ?_, ?_⟩
  · intro q hq
    obtain ⟨i, p, hp, rfl⟩ := mem_known.1 hq
    exact ok_prefix (hok.procs i p hp) (seen_past h i)
  · have : (known P s.taken).map (fun p => (p.hostPort, p.instanceId)) = P.map (fun p => (p.hostPort, p.instanceId)) := by
      unfold known
      exact List.ext_getElem (by simp) (by simp [Proc.after])
    rw [this]; exact hok.nodup
  · intro x n1 n2 hm hs
    obtain ⟨r, o, hm⟩ := mem_done h hm
    have hmade := h.inv.made _ (List.mem_append_left _ hm) x o rfl
    obtain ⟨o, rfl⟩ := successful hmade hs
    obtain ⟨p, hp, _, h2, hpol⟩ := polledAt hmade (seen_all h hin hm)
    exact ⟨_, mem_known.2 ⟨o.i, p, hp, rfl⟩, _, _, _, hpol⟩

/-- the history of the loop splits where the last answer of a process was received. -/
theorem done_split (h : Reach sort lo d P hostPorts s) {u v : List Msg} {r : Nat} {x : PollResponse} {o : Option Origin} (e : s.taken = u ++ (r, some (x, o)) :: v) :
    ∃ hA n1 n2 hB, s.done = hA ++ .response x n1 n2 :: hB ∧ hB.filterMap respOf = v.filterMap (fun m => m.2.map (·.1)) := by
  have h1 := h.inv.done
  rw [e, List.filterMap_append, List.filterMap_cons_some (b := x) (by rfl)] at h1
  generalize s.done = l at h1
  generalize u.filterMap (fun m => m.2.map (·.1)) = us at h1
  generalize v.filterMap (fun m => m.2.map (·.1)) = vs at h1 ⊢
  induction l generalizing us with
  | nil => simp at h1
  | cons op l ih =>
    cases op with
    | response y n1 n2 =>
      rw [List.filterMap_cons_some (b := y) (by rfl)] at h1
      cases us with
      | nil =>
        rw [List.nil_append, List.cons.injEq] at h1
        obtain ⟨rfl, h1⟩ := h1
        exact ⟨[], n1, n2, l, rfl, h1⟩
      | cons z us =>
        rw [List.cons_append, List.cons.injEq] at h1
        obtain ⟨hA, m1, m2, hB, h2, h3⟩ := ih us h1.2
        exact ⟨.response y n1 n2 :: hA, m1, m2, hB, by rw [h2]; rfl, h3⟩
    | purge now =>
      rw [List.filterMap_cons_none (by rfl)] at h1
      obtain ⟨hA, m1, m2, hB, h2, h3⟩ := ih us h1
      exact ⟨.purge now :: hA, m1, m2, hB, by rw [h2]; rfl, h3⟩
    | recalculate ks entries =>
      rw [List.filterMap_cons_none (by rfl)] at h1
      obtain ⟨hA, m1, m2, hB, h2, h3⟩ := ih us h1
      exact ⟨.recalculate ks entries :: hA, m1, m2, hB, by rw [h2]; rfl, h3⟩

theorem madeIn_append (d ns : Int) (a b : List (Time × AggOp)) : madeIn d ns (a ++ b) = madeIn d ns a ++ madeIn d ns b := by
  unfold madeIn; rw [List.flatMap_append]

theorem has_all (h : Reach sort lo d P hostPorts s) (hin : InTime hostPorts s.past) (hok : Ordinary d P s.past) {i : Nat} {p : Proc} (hp : P[i]? = some p) {ns : Int}
    (hne : madeIn d ns (seen i s.taken) ≠ []) (hret : Held d ns p i s.taken) : HasAll lo d ns (p.after (seen i s.taken)) s.done := by
  obtain ⟨o, ho, hsame, hret⟩ := hret hne
  obtain ⟨r, x, hm, hi⟩ := mem_answersOf.1 ho
  obtain ⟨u, v, e⟩ := List.append_of_mem hm
  have hmade := h.inv.made _ (List.mem_append_left _ hm) x (some o) rfl
  obtain ⟨hA, n1, n2, hB, h1, h2⟩ := done_split h e
  obtain ⟨p', hp', _, h3, hpol⟩ := polledAt (hist := seen i s.taken) hmade (by rw [← hi]; exact seen_all h hin hm)
  rw [hi, hp] at hp'
  cases hp'
  have hs3 : seen i s.taken = o.hist ++ [(o.now, .read)] ++ h3 := by
    have := hpol.1
    rw [show (p.after (seen i s.taken)).hist = seen i s.taken from rfl] at this
    rw [this]; simp
  have hnil : madeIn d ns h3 = [] := by
    rw [hs3] at hsame
    exact List.self_eq_append_right.1 (hsame.trans (madeIn_append ..))
  refine ⟨hA, x, n1, n2, hB, h1, ⟨_, _, _, hpol, hnil, hret⟩, ?_⟩
  intro x' m1 m2 hm' hs hhp hid
  have hx' : x' ∈ hB.filterMap respOf := List.mem_filterMap.2 ⟨_, hm', rfl⟩
  rw [h2] at hx'
  obtain ⟨⟨r', z⟩, hz, e'⟩ := List.mem_filterMap.1 hx'
  cases z with
  | none => simp at e'
  | some z =>
    obtain ⟨y, o'⟩ := z
    simp only [Option.map_some, Option.some.injEq] at e'
    subst e'
    have hz' : (r', some (y, o')) ∈ s.taken := by rw [e]; simp [hz]
    have hmade' := h.inv.made _ (List.mem_append_left _ hz') y o' rfl
    obtain ⟨o', rfl⟩ := successful hmade' hs
    obtain ⟨p', hp', hph, g2, hpol'⟩ := polledAt hmade' (seen_all h hin hz')
    have hf := fleet h hin hok
    have hmem : p'.after (seen o'.i s.taken) ∈ known P s.taken := mem_known.2 ⟨_, _, hp', rfl⟩
    obtain ⟨_, q1, q2, _⟩ := polled hf.pos hf.inI64 (hf.procs _ hmem) hpol'
    have hkey : (p'.hostPort, p'.instanceId) = (p.hostPort, p.instanceId) := by
      rw [Prod.mk.injEq]
      exact ⟨q1.symm.trans hhp, q2.symm.trans hid⟩
    have hii : o'.i = i := by
      have hnd := hok.nodup
      obtain ⟨l1, e1⟩ := List.getElem?_eq_some_iff.1 hp'
      obtain ⟨l2, e2⟩ := List.getElem?_eq_some_iff.1 hp
      refine (hnd.getElem_inj_iff (hi := by simpa using l1) (hj := by simpa using l2)).1 ?_
      simp only [List.getElem_map]
      rw [e1, e2]; exact hkey
    rw [hii, hp] at hp'
    cases hp'
    rw [hii] at hpol'
    refine ⟨_, _, _, hpol', ?_⟩
    obtain ⟨c, hc⟩ := received_in_order h hin e hz (hii.trans hi.symm)
    have hs4 : seen i s.taken = o'.hist ++ [(o'.now, .read)] ++ g2 := by
      have := hpol'.1
      rw [show (p.after (seen i s.taken)).hist = seen i s.taken from rfl] at this
      rw [this]; simp
    rw [hs4, ← hc, List.append_assoc] at hsame
    have := List.self_eq_append_right.1 (hsame.trans (madeIn_append ..))
    rw [madeIn_append] at this
    exact (List.append_eq_nil_iff.1 this).2

/-- if the last answer still had the interval, healthd has all of it. -/
theorem held_last {d ns : Int} {p : Proc} {i : Nat} {taken : List Msg} (hret : ∃ g ∈ retained d p.retain (seen i taken), g.1.ns = ns) : Held d ns p i taken := by
  intro hne
  cases hl : (answersOf i taken).getLast? with
  | none => exact absurd (by simp [seen, hl, madeIn]) hne
  | some o =>
    have hseen : seen i taken = o.hist ++ [(o.now, .read)] := by simp [seen, hl]
    exact ⟨o, List.mem_of_getLast? hl, by rw [hseen], by rw [← hseen]; exact hret⟩

end

/-! ## C109 -/

/-- **C109**: whenever healthd recalculates, the numbers it shows for an interval (that no purge has removed) count exactly what the processes had emitted in
it when they made the last answers that healthd received; provided no poll outlasted the time between two rounds and, of every process, healthd received an answer
that still had the interval and all this in it. -/
theorem C109_shown {sort : List IntAgg → List IntAgg} (hsort : SortsByStart sort) {lo : Int → Int} {d : Int} {P : List Proc} {hostPorts : List Str} {s : Sys}
    (h : Reach sort lo d P hostPorts s) (hin : InTime hostPorts s.past) (hok : Ordinary d P s.past)
    {ks : List Time} {entries : Time → List (Key × Unmarshal.Report)} {data : State} (hv : (Op.recalculate ks entries).Valid s.data)
    (hs : step sort s.data (.recalculate ks entries) = some data) {t : Time} (hn : NeverStale d (events d s.done) t)
    (hz : ∀ i p, P[i]? = some p → ∀ x ∈ histOf i s.past, zoneId lo t.ns (p.zone x.1.loc t.ns) = some t.loc)
    (hr : ∀ i p, P[i]? = some p → Held d t.ns p i s.taken) :
    let es := (List.range P.length).flatMap (fun i => madeIn d t.ns (seen i s.taken))
    (∀ a ∈ data.intervalAggregations, a.start = t → (∀ c, value a c = expected c es) ∧
      (es.length < 2 ^ 63 → ∀ x, (∀ j, x ≠ .job j) → ExtremesOf a x (samples es x))) ∧
    (es ≠ [] → (∃ a ∈ data.intervalAggregations, a.start = t) ∨
      ((data.intervalAggregations.length : Int) = 7200000000000 / d ∧ ∀ a ∈ data.intervalAggregations, t.ns ≤ a.start.ns)) := by
  have hes : (known P s.taken).flatMap (fun p => madeIn d t.ns p.hist) = (List.range P.length).flatMap (fun i => madeIn d t.ns (seen i s.taken)) := by
    rw [List.flatMap_def, List.flatMap_def]
    congr 1
    unfold known
    exact List.ext_getElem (by simp) (by simp [Proc.after])
  have := C57_end_to_end hsort h.runs hv hs (fleet h hin hok) (t := t) hn
    (by
      intro q hq x hx
      obtain ⟨i, p, hp, rfl⟩ := mem_known.1 hq
      exact hz i p hp x ((seen_past h i).subset hx))
    (by
      intro q hq hne
      obtain ⟨i, p, hp, rfl⟩ := mem_known.1 hq
      exact has_all h hin hok hp hne (hr i p hp))
  rw [hes] at this
  exact this

/-- **C109**: when the nil of round `r` has been received, a response of every host in that round has been; and what a process that answered then had done
when the round began is among what it had done when it made the last answer that healthd received. -/
theorem C109_round {sort : List IntAgg → List IntAgg} {lo : Int → Int} {d : Int} {P : List Proc} {hostPorts : List Str} {s : Sys}
    (h : Reach sort lo d P hostPorts s) (hin : InTime hostPorts s.past) {r : Nat} (hr : (r, none) ∈ s.taken) :
    (∀ hp ∈ hostPorts, ∃ x o, (r, some (x, o)) ∈ s.taken ∧ x.hostPort = hp) ∧
    ∀ i before, Begins r s.past before → Answered r i s.taken → histOf i before <+: seen i s.taken ∧ seen i s.taken <+: histOf i s.past := by
  refine ⟨?_, ?_⟩
  · intro hp hm
    obtain ⟨u, v, e⟩ := List.append_of_mem hr
    have htk : s.loop.taken = u.map key ++ (r, none) :: v.map key := by rw [h.inv.taken, e]; simp [key]
    have hi := h.inv.rounds
    have hlog : s.loop.log = u.map key ++ (r, none) :: (v.map key ++ s.loop.chan) := by simp [Rounds.Sys.log, htk]
    have hlast := hi.last _ r _ hlog
    have hlt : r < s.loop.rounds.length := hi.known (r, none) (by rw [hlog]; simp)
    have hok := hi.rounds r _ (List.getElem?_eq_getElem hlt)
    have hf : s.loop.rounds[r].finished = true := by
      cases hf : s.loop.rounds[r].finished with
      | true => rfl
      | false =>
        have := hok.nil
        rw [hf] at this
        exact absurd (List.count_eq_zero.1 this) (by rw [hlog]; simp)
    have hall := hok.all
    rw [(hok.fin hf).1, (hok.fin hf).2] at hall
    have hmem : hp ∈ Rounds.answered r s.loop.log := by
      have := hall.mem_iff.2 ((hosts_mem hostPorts hp).2 hm)
      simpa using this
    rw [hlog, Rounds.answered_append, List.mem_append] at hmem
    rcases hmem with hmem | hmem
    · unfold Rounds.answered at hmem
      obtain ⟨m, hm1, hm2⟩ := List.mem_filterMap.1 hmem
      obtain ⟨⟨r', z⟩, hz, rfl⟩ := List.mem_map.1 hm1
      split at hm2 <;> [skip; cases hm2]
      rename_i hrr
      cases z with
      | none => simp [key] at hm2
      | some z =>
        obtain ⟨x, o⟩ := z
        simp [key] at hm2 hrr
        subst hrr
        exact ⟨x, o, by rw [e]; simp [hz], hm2⟩
    · exfalso
      unfold Rounds.answered at hmem
      obtain ⟨m, hm1, hm2⟩ := List.mem_filterMap.1 hmem
      rcases List.mem_cons.1 hm1 with rfl | hm1
      · simp at hm2
      · rw [if_neg (hlast m hm1)] at hm2; cases hm2
  · rintro i before hb ⟨x, o, hm, rfl⟩
    refine ⟨?_, seen_past h _⟩
    refine List.IsPrefix.trans ?_ (seen_all h hin hm)
    obtain ⟨a, b, e1, e2⟩ := (h.inv.made _ (List.mem_append_left _ hm) x (some o) rfl).place
    refine List.IsPrefix.trans ?_ (List.prefix_append ..)
    rw [e2]
    refine histOf_prefix _ ?_
    rcases hb with ⟨_, rfl⟩ | ⟨after, e3, e4⟩
    · simp
    · have hle := h.inv.served a r o.i o.now b e1
      rcases two_places (e1.symm.trans e3) with ⟨_, h3⟩ | ⟨c, h3, _⟩ | ⟨c, h3, _⟩
      · cases h3
      · exfalso
        rw [h3, ticks_append] at e4
        omega
      · rw [h3]; exact List.prefix_append ..

/-- **C109**: at the end of a round of polls, an interval in which nothing has been emitted since the round began is shown complete, if every process that
emitted anything in it answered in the round, and still had the interval when it answered after its last emission in it. -/
theorem C109_complete {sort : List IntAgg → List IntAgg} (hsort : SortsByStart sort) {lo : Int → Int} {d : Int} {P : List Proc} {hostPorts : List Str} {s s' : Sys}
    (h : Reach sort lo d P hostPorts s) (hin : InTime hostPorts s.past) (hok : Ordinary d P s.past)
    (hs : Step sort lo d P s (.go .allIn) s') {r : Nat} (hr : s'.taken = s.taken ++ [(r, none)]) {before : List Item} (hb : Begins r s.past before)
    {t : Time} (hn : NeverStale d (events d s.done) t)
    (hz : ∀ i p, P[i]? = some p → ∀ x ∈ histOf i s.past, zoneId lo t.ns (p.zone x.1.loc t.ns) = some t.loc)
    (hquiet : ∀ i < P.length, madeIn d t.ns (histOf i s.past) = madeIn d t.ns (histOf i before))
    (ha : ∀ i < P.length, madeIn d t.ns (histOf i before) ≠ [] → Answered r i s.taken)
    (hret : ∀ i p, P[i]? = some p → Held d t.ns p i s.taken) :
    let es := (List.range P.length).flatMap (fun i => madeIn d t.ns (histOf i s.past))
    (∀ a ∈ s'.data.intervalAggregations, a.start = t → (∀ c, value a c = expected c es) ∧
      (es.length < 2 ^ 63 → ∀ x, (∀ j, x ≠ .job j) → ExtremesOf a x (samples es x))) ∧
    (es ≠ [] → (∃ a ∈ s'.data.intervalAggregations, a.start = t) ∨
      ((s'.data.intervalAggregations.length : Int) = 7200000000000 / d ∧ ∀ a ∈ s'.data.intervalAggregations, t.ns ≤ a.start.ns)) := by
  have hreach' : Reach sort lo d P hostPorts s' := h.step hs
  have hin' : InTime hostPorts s'.past := by
    rw [hs.past]
    intro a b e
    rcases snoc_split e with ⟨_, _, h1⟩ | ⟨b', _, h1⟩
    · cases h1
    · exact hin a b' h1
  have hmono : ∀ {a b : List (Time × AggOp)}, a <+: b → madeIn d t.ns a <+: madeIn d t.ns b := by
    rintro a _ ⟨c, rfl⟩
    unfold madeIn
    rw [List.flatMap_append]
    exact List.prefix_append ..
  have hseen' : ∀ i, seen i s'.taken = seen i s.taken := by
    intro i
    unfold seen
    rw [hr, answersOf_append]
    simp [answersOf]
  have hall : ∀ i < P.length, madeIn d t.ns (seen i s.taken) = madeIn d t.ns (histOf i s.past) := by
    intro i hi
    have hle := hmono (seen_past h i)
    by_cases hne : madeIn d t.ns (histOf i before) = []
    · rw [hquiet i hi, hne] at hle ⊢
      exact List.prefix_nil.1 hle
    · have h1 : Answered r i s'.taken := by
        obtain ⟨x, o, h2, h3⟩ := ha i hi hne
        exact ⟨x, o, by rw [hr]; exact List.mem_append_left _ h2, h3⟩
      have hb' : Begins r s'.past before := by
        rcases hb with hb | ⟨after, e1, e2⟩
        · exact .inl hb
        · exact .inr ⟨after ++ [.go .allIn], by rw [hs.past, e1]; simp, e2⟩
      have h2 := ((C109_round hreach' hin' (r := r) (by rw [hr]; simp)).2 i before hb' h1).1
      rw [hseen'] at h2
      refine hle.eq_of_length_le ?_
      rw [hquiet i hi]
      exact (hmono h2).length_le
  have hes : (List.range P.length).flatMap (fun i => madeIn d t.ns (seen i s.taken)) = (List.range P.length).flatMap (fun i => madeIn d t.ns (histOf i s.past)) := by
    rw [List.flatMap_def, List.flatMap_def]
    congr 1
    refine List.map_congr_left ?_
    intro i hi
    exact hall i (List.mem_range.1 hi)
  intro es
  cases hs with
  | recalculate hrc hl hv hd =>
    have := C109_shown hsort h hin hok hv hd hn hz hret
    rw [hes] at this
    exact this
  | quiet hq hl => simp [quiet] at hq

/-! ## Cases

One process, which emits an event, is polled in round 0, emits another one and is polled in round 1. -/
namespace Late

def host : Str := bs "h"
def proc : Proc := ⟨host, bs "a", 120000000000, fun _ _ => 0⟩
def d : Int := 60000000000
def lo : Int → Int := fun _ => 0
def event (ns : Int) : Time × AggOp := (⟨ns, 0⟩, .emit (.event (bs "j") (bs "e")))

/-- what to do next. -/
inductive Choice where
  | act (x : Time × AggOp)
  | serve (r : Nat) (now : Time)
  | deliver (r : Nat)
  | finish (r : Nat)
  | tick
  | consume
  | allIn
  | quiet (l : Rounds.Lab)

def findServe (r : Nat) : List Item → Option (List Item × Time)
  | [] => none
  | x :: t =>
    match x with
    | .serve r' 0 now => if r' = r then some ([], now) else (findServe r t).map (fun z => (x :: z.1, z.2))
    | _ => (findServe r t).map (fun z => (x :: z.1, z.2))

theorem findServe_ok {r : Nat} {l a : List Item} {now : Time} (h : findServe r l = some (a, now)) : ∃ b, l = a ++ .serve r 0 now :: b := by
  induction l generalizing a with
  | nil => cases h
  | cons x t ih =>
    have rest : (findServe r t).map (fun z => (x :: z.1, z.2)) = some (a, now) → ∃ b, x :: t = a ++ .serve r 0 now :: b := by
      intro h
      obtain ⟨⟨a', n⟩, h1, h2⟩ := Option.map_eq_some_iff.1 h
      cases h2
      obtain ⟨b, hb⟩ := ih h1
      exact ⟨b, by rw [hb]; rfl⟩
    unfold findServe at h
    split at h
    · split at h
      · rename_i e; subst e; cases h; exact ⟨t, rfl⟩
      · exact rest h
    · exact rest h

def next (s : Sys) : Choice → Option Sys
  | .act x => some { s with past := s.past ++ [.act 0 x] }
  | .serve r now => match s.loop.rounds[r]? with
    | some y => if host ∈ y.polling ∧ s.past.all (fun | .serve r' _ _ => r' ≠ r | _ => true) then
        some { s with past := s.past ++ [.serve r 0 now] } else none
    | none => none
  | .deliver r => match Rounds.step s.loop (.deliver r host), findServe r s.past with
    | some loop, some (a, now) => match getMetrics d proc.retain (histOf 0 a) now with
      | some ms => some { s with
          loop := loop
          chan := s.chan ++ [(r, some (poll lo 0 host ⟨9, 1⟩ 5 ⟨[], 0, []⟩ (bs "json error")
            (.answer 200 (serveHTTP (bs "/health") proc.instanceId d proc.zone ms).body none), some ⟨0, histOf 0 a, now⟩))]
          past := s.past ++ [.go (.deliver r host)] }
      | none => none
    | _, _ => none
  | .finish r => (Rounds.step s.loop (.finish r)).map (fun loop => { s with
      loop := loop, chan := s.chan ++ [(r, none)], past := s.past ++ [.go (.finish r)] })
  | .tick => match Rounds.step s.loop .tick, Healthd.step sortAggs s.data (.purge (fun _ => ⟨5000000000, 1⟩)) with
    | some loop, some data => some { s with loop := loop, data := data, done := s.done ++ [.purge (fun _ => ⟨5000000000, 1⟩)], past := s.past ++ [.go .tick] }
    | _, _ => none
  | .consume => match s.chan with
    | (r, some (x, o)) :: q => match Rounds.step s.loop .consume, Healthd.step sortAggs s.data (.response x ⟨6000000000, 1⟩ ⟨6000000000, 1⟩) with
      | some loop, some data => some { s with
          loop := loop, chan := q, taken := s.taken ++ [(r, some (x, o))], data := data
          done := s.done ++ [.response x ⟨6000000000, 1⟩ ⟨6000000000, 1⟩], past := s.past ++ [.go .consume] }
      | _, _ => none
    | _ => none
  | .allIn => match s.chan with
    | (r, none) :: q =>
      match Rounds.step s.loop .allIn, Healthd.step sortAggs s.data (.recalculate s.data.intervalsNeedingRecalculation.keys (fun _ => s.data.hostAggregations)) with
      | some loop, some data => some { s with
          loop := loop, chan := q, taken := s.taken ++ [(r, none)], data := data
          done := s.done ++ [.recalculate s.data.intervalsNeedingRecalculation.keys (fun _ => s.data.hostAggregations)], past := s.past ++ [.go .allIn] }
      | _, _ => none
    | _ => none
  | .quiet l => if quiet l then (Rounds.step s.loop l).map (fun loop => { s with loop := loop, past := s.past ++ [.go l] }) else none

theorem next_step {s s' : Sys} {c : Choice} (h : next s c = some s') : ∃ x, Step sortAggs lo d [proc] s x s' := by
  cases c with
  | act x => cases h; exact ⟨_, .act⟩
  | serve r now =>
    simp only [next] at h
    split at h <;> [skip; cases h]
    rename_i y hy
    split at h <;> [skip; cases h]
    rename_i hc
    cases h
    refine ⟨_, .serve (p := proc) rfl hy hc.1 ?_⟩
    intro j now' q hm
    have := List.all_eq_true.1 hc.2 _ hm
    simp at this
  | deliver r =>
    simp only [next] at h
    split at h <;> [skip; cases h]
    rename_i loop a now h1 h2
    split at h <;> [skip; cases h]
    rename_i ms hms
    cases h
    obtain ⟨b, hb⟩ := findServe_ok h2
    exact ⟨_, .deliver h1 ⟨a, b, proc, ms, 0, ⟨9, 1⟩, 5, ⟨[], 0, []⟩, bs "json error", hb, rfl, rfl, rfl, hms, rfl⟩⟩
  | finish r =>
    obtain ⟨loop, h1, rfl⟩ := Option.map_eq_some_iff.1 h
    exact ⟨_, .finish h1⟩
  | tick =>
    simp only [next] at h
    split at h <;> [skip; cases h]
    rename_i loop data h1 h2
    cases h
    exact ⟨_, .tick h1 h2⟩
  | consume =>
    simp only [next] at h
    split at h <;> [skip; cases h]
    rename_i r x o q hc
    split at h <;> [skip; cases h]
    rename_i loop data h1 h2
    cases h
    exact ⟨_, .consume hc h1 h2⟩
  | allIn =>
    simp only [next] at h
    split at h <;> [skip; cases h]
    rename_i r q hc
    split at h <;> [skip; cases h]
    rename_i loop data h1 h2
    cases h
    exact ⟨_, .recalculate (.allIn hc) h1 ⟨List.Perm.refl _, fun _ => List.Perm.refl _⟩ h2⟩
  | quiet l =>
    simp only [next] at h
    split at h <;> [skip; cases h]
    rename_i hq
    obtain ⟨loop, h1, rfl⟩ := Option.map_eq_some_iff.1 h
    exact ⟨_, .quiet hq h1⟩

def run (s : Sys) (l : List Choice) : Option Sys := l.foldlM next s

theorem run_reach {s s' : Sys} {l : List Choice} (h0 : Reach sortAggs lo d [proc] [host] s) (h : run s l = some s') : Reach sortAggs lo d [proc] [host] s' := by
  induction l generalizing s with
  | nil => cases h; exact h0
  | cons c l ih =>
    simp only [run, List.foldlM_cons, Option.bind_eq_bind, Option.bind_eq_some_iff] at h
    obtain ⟨s1, h1, h2⟩ := h
    obtain ⟨x, hx⟩ := next_step h1
    exact ih (h0.step hx) h2

/-- in time. -/
def good : List Choice := [.act (event 1000000000), .quiet (.spawn 0 host), .serve 0 ⟨2000000000, 0⟩, .deliver 0, .finish 0, .consume, .quiet (.other .request),
  .act (event 3000000000), .tick, .quiet (.spawn 1 host), .serve 1 ⟨4000000000, 0⟩, .deliver 1, .allIn, .finish 1, .consume, .quiet (.other .request)]
/-- the poll of round 0 is answered but its response comes late. -/
def late : List Choice := [.act (event 1000000000), .quiet (.spawn 0 host), .serve 0 ⟨2000000000, 0⟩,
  .act (event 3000000000), .tick, .quiet (.spawn 1 host), .serve 1 ⟨4000000000, 0⟩, .deliver 1, .finish 1, .consume, .quiet (.other .request), .allIn]
def later : List Choice := [.deliver 0, .finish 0, .consume, .quiet (.other .request), .allIn]

def shown (s : Sys) : List (Option Int) := s.data.intervalAggregations.map (fun a => value a (.event (bs "e")))

theorem good_some : (run (start 0 [host]) good).isSome := by decide +kernel
theorem good_shown : ((run (start 0 [host]) (good ++ [.allIn])).map shown) = some [some 2] := by decide +kernel
theorem late_shown : ((run (start 0 [host]) late).map shown) = some [some 2] := by decide +kernel
theorem later_shown : ((run (start 0 [host]) (late ++ later)).map shown) = some [some 1] := by decide +kernel

theorem run_append {s s' : Sys} {l1 l2 : List Choice} (h : run s (l1 ++ l2) = some s') : ∃ s1, run s l1 = some s1 ∧ run s1 l2 = some s' := by
  simpa [run, List.foldlM_append, Option.bind_eq_some_iff] using h

theorem run_past {s s' : Sys} {l : List Choice} (h : run s l = some s') : s.past <+: s'.past := by
  induction l generalizing s with
  | nil => cases h; exact List.prefix_rfl
  | cons c l ih =>
    simp only [run, List.foldlM_cons, Option.bind_eq_bind, Option.bind_eq_some_iff] at h
    obtain ⟨s1, h1, h2⟩ := h
    obtain ⟨x, hx⟩ := next_step h1
    refine List.IsPrefix.trans ?_ (ih h2)
    rw [hx.past]; exact List.prefix_append ..

/-- all purges happen at the same time. -/
def Purges (s : Sys) : Prop := ∀ now, Op.purge now ∈ s.done → now = fun _ => ⟨5000000000, 1⟩

theorem run_purges {s s' : Sys} {l : List Choice} (h0 : Purges s) (h : run s l = some s') : Purges s' := by
  induction l generalizing s with
  | nil => cases h; exact h0
  | cons c l ih =>
    simp only [run, List.foldlM_cons, Option.bind_eq_bind, Option.bind_eq_some_iff] at h
    obtain ⟨s1, h1, h2⟩ := h
    refine ih ?_ h2
    intro now hm
    cases c with
    | act x => cases h1; exact h0 now hm
    | serve r now =>
      simp only [next] at h1
      split at h1 <;> [skip; cases h1]
      split at h1 <;> cases h1
      exact h0 _ hm
    | deliver r =>
      simp only [next] at h1
      split at h1 <;> [skip; cases h1]
      split at h1 <;> cases h1
      exact h0 now hm
    | finish r => obtain ⟨loop, _, rfl⟩ := Option.map_eq_some_iff.1 h1; exact h0 now hm
    | tick =>
      simp only [next] at h1
      split at h1 <;> cases h1
      rcases List.mem_append.1 hm with hm | hm
      · exact h0 now hm
      · simpa using hm
    | consume =>
      simp only [next] at h1
      split at h1 <;> [skip; cases h1]
      split at h1 <;> cases h1
      exact h0 now (by simpa using hm)
    | allIn =>
      simp only [next] at h1
      split at h1 <;> [skip; cases h1]
      split at h1 <;> cases h1
      exact h0 now (by simpa using hm)
    | quiet l =>
      simp only [next] at h1
      split at h1 <;> [skip; cases h1]
      obtain ⟨loop, _, rfl⟩ := Option.map_eq_some_iff.1 h1; exact h0 now hm

theorem Purges.neverStale {s : Sys} (h : Purges s) : NeverStale d (events d s.done) ⟨0, 0⟩ := by
  intro now hm k hk
  have : Op.purge now ∈ s.done := by
    unfold events at hm
    obtain ⟨op, h1, h2⟩ := List.mem_flatMap.1 hm
    cases op with
    | response r _ _ =>
      simp only at h2
      split at h2
      · unfold reportsIn at h2
        obtain ⟨o, _, ho⟩ := List.mem_filterMap.1 h2
        cases o <;> simp at ho
      · simp at h2
    | purge now' => simp at h2; subst h2; exact h1
    | recalculate _ _ => simp at h2
  rw [h now this]
  unfold Stale
  rw [hk]
  show ¬ ((5000000000 : Int) - 0 > 5 * d)
  decide

theorem inTime_iff (hosts : List Str) (past : List Item) : (∀ n < past.length, past[n]? = some (.go .tick) → ∀ r < ticks (past.take n) + 1, ∀ hp ∈ hosts,
    Item.go (.deliver r hp) ∈ past.take n) → InTime hosts past := by
  intro h a b e r hr hp hm
  have := h a.length (by rw [e]; simp) (by rw [e]; simp) r (by rw [e]; simpa using Nat.lt_succ_of_le hr) hp hm
  rw [e] at this
  simpa using this

theorem proc_ok : (proc.after [event 1000000000, (⟨2000000000, 0⟩, .read), event 3000000000, (⟨4000000000, 0⟩, .read)]).Ok d := by
  refine ⟨by decide, by unfold MonotoneClock; decide +kernel, by decide, ?_, ⟨?_, by decide⟩, ?_, by unfold FourDigits; decide +kernel⟩
  · unfold ZonesOk; intro l n; simp [proc, Proc.after]
  · rw [← validUtf8_iff]; decide +kernel
  · intro t e he
    simp only [Proc.after, event, List.mem_cons, Prod.mk.injEq, List.not_mem_nil, or_false] at he
    simp only [← validUtf8_iff]
    rcases he with ⟨_, h⟩ | ⟨_, h⟩ | ⟨_, h⟩ | ⟨_, h⟩ <;> cases h
    · exact ⟨trivial, by decide +kernel⟩
    · exact ⟨trivial, by decide +kernel⟩

theorem ordinary {past : List Item} (h : histOf 0 past = [event 1000000000, (⟨2000000000, 0⟩, .read), event 3000000000, (⟨4000000000, 0⟩, .read)]) :
    Ordinary d [proc] past := by
  refine ⟨by decide, by decide, ?_, by decide +kernel⟩
  intro i p hp
  match i with
  | 0 => simp at hp; subst hp; rw [h]; exact proc_ok
  | i + 1 => simp at hp

theorem good_facts : (run (start 0 [host]) good).map (fun s => (histOf 0 s.past, seen 0 s.taken, s.taken.map (fun m => (m.1, (m.2.bind (·.2)).map (·.i))))) =
    some ([event 1000000000, (⟨2000000000, 0⟩, .read), event 3000000000, (⟨4000000000, 0⟩, .read)],
      [event 1000000000, (⟨2000000000, 0⟩, .read), event 3000000000, (⟨4000000000, 0⟩, .read)], [(0, some 0), (0, none), (1, some 0)]) := by
  decide +kernel
theorem good_past : (run (start 0 [host]) good).map (fun s => decide ((∀ n < s.past.length, s.past[n]? = some (.go .tick) → ∀ r < ticks (s.past.take n) + 1, ∀ hp ∈ [host],
    Item.go (.deliver r hp) ∈ s.past.take n) ∧ s.past = s.past.take 8 ++ .go .tick :: s.past.drop 9 ∧ ticks (s.past.take 8) = 0 ∧
    histOf 0 (s.past.take 8) = [event 1000000000, (⟨2000000000, 0⟩, .read), event 3000000000])) = some true := by
  decide +kernel

end Late

open Late in
/-- a case of `C109_complete`: the second round ends, and both events are shown. -/
example : ∃ s s' before, Reach sortAggs lo d [proc] [host] s ∧ InTime [host] s.past ∧ Ordinary d [proc] s.past ∧ Step sortAggs lo d [proc] s (.go .allIn) s' ∧
    s'.taken = s.taken ++ [(1, none)] ∧ Begins 1 s.past before ∧ NeverStale d (events d s.done) ⟨0, 0⟩ ∧
    (∀ i p, [proc][i]? = some p → ∀ x ∈ histOf i s.past, zoneId lo 0 (p.zone x.1.loc 0) = some 0) ∧
    (∀ i < [proc].length, madeIn d 0 (histOf i s.past) = madeIn d 0 (histOf i before)) ∧
    (∀ i < [proc].length, madeIn d 0 (histOf i before) ≠ [] → Answered 1 i s.taken) ∧
    (∀ i p, [proc][i]? = some p → Held d 0 p i s.taken) ∧
    madeIn d 0 (histOf 0 s.past) ≠ [] ∧ shown s' = [some 2] := by
  have h0 := good_shown
  obtain ⟨s', hs', hsh⟩ := Option.map_eq_some_iff.1 h0
  obtain ⟨s, hs, h1⟩ := run_append hs'
  have hreach := run_reach (.start 0) hs
  have hf := good_facts
  have hp := good_past
  rw [hs, Option.map_some, Option.some.injEq] at hf hp
  rw [Prod.mk.injEq, Prod.mk.injEq] at hf
  obtain ⟨f1, f2, f3⟩ := hf
  obtain ⟨p1, p2, p3, p4⟩ := of_decide_eq_true hp
  have hnext : next s .allIn = some s' := by simpa [run] using h1
  have hst : Step sortAggs lo d [proc] s (.go .allIn) s' ∧ ∃ r, s'.taken = s.taken ++ [(r, none)] := by
    simp only [next] at hnext
    split at hnext <;> [skip; cases hnext]
    rename_i r q hc
    split at hnext <;> [skip; cases hnext]
    rename_i loop data g1 g2
    cases hnext
    exact ⟨.recalculate (.allIn hc) g1 ⟨List.Perm.refl _, fun _ => List.Perm.refl _⟩ g2, r, rfl⟩
  obtain ⟨hst, r, hr⟩ := hst
  have hr1 : r = 1 := by
    have h2 : (run (start 0 [host]) (good ++ [.allIn])).map (fun s => (s.taken.map (·.1)).getLast?) = some (some 1) := by decide +kernel
    rw [hs', Option.map_some, hr] at h2
    simpa using h2
  subst hr1
  refine ⟨s, s', s.past.take 8, hreach, inTime_iff _ _ p1, ordinary f1, hst, hr, .inr ⟨_, p2, by rw [p3]⟩,
    (run_purges (by intro now hm; simp [start] at hm) hs).neverStale, ?_, ?_, ?_, ?_, by rw [f1]; decide +kernel, hsh⟩
  · intro i p hp x _
    match i with
    | 0 => simp at hp; subst hp; rfl
    | i + 1 => simp at hp
  · intro i hi
    obtain rfl : i = 0 := by simpa using hi
    rw [f1, p4]; decide +kernel
  · intro i hi _
    obtain rfl : i = 0 := by simpa using hi
    have hm : ((1 : Nat), some (0 : Nat)) ∈ s.taken.map (fun m => (m.1, (m.2.bind (·.2)).map (·.i))) := by rw [f3]; simp
    obtain ⟨⟨r, m⟩, hm, e⟩ := List.mem_map.1 hm
    cases m with
    | none => simp at e
    | some z =>
      obtain ⟨x, o⟩ := z
      cases o with
      | none => simp at e
      | some o =>
        simp at e
        obtain ⟨rfl, e⟩ := e
        exact ⟨x, o, hm, e⟩
  · intro i p hp
    match i with
    | 0 =>
      simp at hp; subst hp
      refine held_last ?_
      rw [f2]
      exact ⟨(⟨0, 0⟩, [.event (bs "j") (bs "e"), .event (bs "j") (bs "e")]), by decide +kernel, rfl⟩
    | i + 1 => simp at hp

open Late in
/-- **C109** is false without the condition: a response that was answered in round 0 but arrives after the end of round 1 replaces the newer report, and
healthd shows less than before, although nothing else happened. -/
theorem C109_late_false : ∃ s s', Reach sortAggs lo d [proc] [host] s ∧ Reach sortAggs lo d [proc] [host] s' ∧ s.past <+: s'.past ∧ Ordinary d [proc] s'.past ∧
    histOf 0 s'.past = histOf 0 s.past ∧ (1, none) ∈ s.taken ∧ Answered 1 0 s.taken ∧ NeverStale d (events d s'.done) ⟨0, 0⟩ ∧
    shown s = [some 2] ∧ shown s' = [some 1] := by
  obtain ⟨s', hs', hsh'⟩ := Option.map_eq_some_iff.1 later_shown
  obtain ⟨s, hs, h1⟩ := run_append hs'
  have hsh := late_shown
  have hf : (run (start 0 [host]) late).map (fun s => (histOf 0 s.past, s.taken.map (fun m => (m.1, (m.2.bind (·.2)).map (·.i), m.2.isSome)))) =
    some ([event 1000000000, (⟨2000000000, 0⟩, .read), event 3000000000, (⟨4000000000, 0⟩, .read)], [(1, some 0, true), (1, none, false)]) := by decide +kernel
  have hf' : (run (start 0 [host]) (late ++ later)).map (fun s => histOf 0 s.past) =
    some [event 1000000000, (⟨2000000000, 0⟩, .read), event 3000000000, (⟨4000000000, 0⟩, .read)] := by decide +kernel
  rw [hs, Option.map_some, Option.some.injEq] at hsh hf
  rw [hs', Option.map_some, Option.some.injEq] at hf'
  rw [Prod.mk.injEq] at hf
  obtain ⟨f1, f2⟩ := hf
  refine ⟨s, s', run_reach (.start 0) hs, run_reach (.start 0) hs', run_past h1, ordinary hf', by rw [hf', f1], ?_, ?_,
    (run_purges (by intro now hm; simp [start] at hm) hs').neverStale, hsh, hsh'⟩
  · have hm : ((1 : Nat), (none : Option Nat), false) ∈ s.taken.map (fun m => (m.1, (m.2.bind (·.2)).map (·.i), m.2.isSome)) := by rw [f2]; simp
    obtain ⟨⟨r, m⟩, hm, e⟩ := List.mem_map.1 hm
    cases m with
    | none => simp at e; subst e; exact hm
    | some z => simp at e
  · have hm : ((1 : Nat), some (0 : Nat), true) ∈ s.taken.map (fun m => (m.1, (m.2.bind (·.2)).map (·.i), m.2.isSome)) := by rw [f2]; simp
    obtain ⟨⟨r, m⟩, hm, e⟩ := List.mem_map.1 hm
    cases m with
    | none => simp at e
    | some z =>
      obtain ⟨x, o⟩ := z
      cases o with
      | none => simp at e
      | some o =>
        simp at e
        obtain ⟨rfl, e⟩ := e
        exact ⟨x, o, hm, e⟩

end Watch
