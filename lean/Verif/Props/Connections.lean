import Verif.Spec.Connections
/-!
# C99: requests do not leave connections behind
Of healthd, healthtop and the Bugsnag sink: true.  Of the Librato sink: false, every answer with a body leaves one.
-/
namespace Conns
open Spec

/-- answered, not read, and nobody is going to. -/
def leaked (host : Str) (r : Req) : Bool := decide (r.host = host) && decide (r.phase = .unread) && decide (r.todo = [])

/-- the requests of a state are those made; a caller that has not seen the body has still everything to do. -/
def Inv (full : List (Str × List Act)) (s : State) : Prop :=
  ∀ (i : Nat) (r : Req), s.reqs[i]? = some r → ∃ code, full[i]? = some (r.host, code) ∧ (r.phase = .start ∨ r.phase = .waiting ∨ r.phase = .unread → r.todo = code)

theorem inv_set {full : List (Str × List Act)} {s : State} {i : Nat} {r r' : Req} {idle : List Str} (hi : Inv full s)
    (hr : s.reqs[i]? = some r) (hh : r'.host = r.host)
    (ht : r'.phase = .start ∨ r'.phase = .waiting ∨ r'.phase = .unread → (r.phase = .start ∨ r.phase = .waiting ∨ r.phase = .unread) ∧ r'.todo = r.todo) :
    Inv full ⟨idle, s.reqs.set i r'⟩ := by
  intro j q hq
  simp only [List.getElem?_set] at hq
  split at hq
  · rename_i hij; subst hij
    split at hq
    · cases hq
      obtain ⟨code, h1, h2⟩ := hi i r hr
      exact ⟨code, hh ▸ h1, fun h => (ht h).2.trans (h2 (ht h).1)⟩
    · cases hq
  · exact hi j q hq

theorem leaked_set {host : Str} {reqs : List Req} {i : Nat} {r r' : Req} (hr : reqs[i]? = some r) (h1 : leaked host r = false) :
    (reqs.set i r').countP (leaked host) = reqs.countP (leaked host) + (if leaked host r' then 1 else 0) := by
  obtain ⟨hlt, he⟩ := List.getElem?_eq_some_iff.1 hr
  rw [List.countP_set hlt, he, h1]
  simp

theorem count_giveBack {idle : List Str} {h host : Str} {keep : Bool} (hc : idle.count host ≤ 2) : (giveBack idle h keep).count host ≤ 2 := by
  unfold giveBack
  split
  · rename_i hk
    rw [List.count_cons]
    by_cases he : h = host
    · subst he; simp; omega
    · simpa [he] using hc
  · exact hc

theorem count_erase_le {idle : List Str} {h host : Str} (hc : idle.count host ≤ 2) : (idle.erase h).count host ≤ 2 :=
  Nat.le_trans (List.Sublist.count_le _ List.erase_sublist) hc

theorem step_inv {full : List (Str × List Act)} {host : Str} {s s' : State} {l : Lab} (hi : Inv full s) (hc : s.idle.count host ≤ 2)
    (hl : ∀ h c, l = .call h c → full[s.reqs.length]? = some (h, c)) (hs : step s l = some s') :
    Inv full s' ∧ s'.idle.count host ≤ 2 ∧ s'.reqs.length = s.reqs.length + (calls [l]).length ∧
      s'.reqs.countP (leaked host) = s.reqs.countP (leaked host) + thrownAway host full [l] := by
  cases l with
  | call h c =>
    cases hs
    refine ⟨?_, hc, by simp [calls], by simp [List.countP_append, leaked, thrownAway]⟩
    intro i r hr
    rw [List.getElem?_append] at hr
    split at hr
    · exact hi i r hr
    · rename_i hlt
      cases hd : i - s.reqs.length with
      | zero =>
        rw [hd] at hr; cases hr
        have : i = s.reqs.length := by omega
        exact ⟨c, this ▸ hl h c rfl, fun _ => rfl⟩
      | succ n => rw [hd] at hr; cases hr
  | dial i =>
    simp only [step] at hs
    split at hs <;> [skip; cases hs]
    rename_i r hr
    split at hs <;> [skip; cases hs]
    rename_i hp
    cases hs
    refine ⟨inv_set hi hr rfl (fun _ => ⟨.inl hp, rfl⟩), hc, by simp [calls], ?_⟩
    rw [leaked_set hr (by simp [leaked, hp])]; simp [leaked, thrownAway]
  | reuse i =>
    simp only [step] at hs
    split at hs <;> [skip; cases hs]
    rename_i r hr
    split at hs <;> [skip; cases hs]
    rename_i hp
    cases hs
    refine ⟨inv_set hi hr rfl (fun _ => ⟨.inl hp.1, rfl⟩), count_erase_le hc, by simp [calls], ?_⟩
    rw [leaked_set hr (by simp [leaked, hp.1])]; simp [leaked, thrownAway]
  | refuse i =>
    simp only [step] at hs
    split at hs <;> [skip; cases hs]
    rename_i r hr
    split at hs <;> [skip; cases hs]
    rename_i hp
    cases hs
    refine ⟨inv_set hi hr rfl (by simp), hc, by simp [calls], ?_⟩
    rw [leaked_set hr (by simp [leaked, hp])]; simp [leaked, thrownAway]
  | broken i =>
    simp only [step] at hs
    split at hs <;> [skip; cases hs]
    rename_i r hr
    split at hs <;> [skip; cases hs]
    rename_i hp
    cases hs
    refine ⟨inv_set hi hr rfl (by simp), hc, by simp [calls], ?_⟩
    rw [leaked_set hr (by simp [leaked, hp])]; simp [leaked, thrownAway]
  | answer i body keep =>
    simp only [step] at hs
    split at hs <;> [skip; cases hs]
    rename_i r hr
    split at hs <;> [skip; cases hs]
    rename_i hp
    cases body with
    | false =>
      cases hs
      refine ⟨inv_set hi hr rfl (by simp), count_giveBack hc, by simp [calls], ?_⟩
      rw [leaked_set hr (by simp [leaked, hp])]; simp [leaked, thrownAway]
    | true =>
      cases hs
      refine ⟨inv_set hi hr rfl (fun _ => ⟨.inr (.inl hp), rfl⟩), hc, by simp [calls], ?_⟩
      rw [leaked_set hr (by simp [leaked, hp])]
      obtain ⟨code, h1, h2⟩ := hi i r hr
      have ht := h2 (.inr (.inl hp))
      simp only [leaked, thrownAway, h1, ht]
      by_cases ha : r.host = host <;> by_cases hb : code = [] <;> simp [ha, hb]
  | act i ok keep =>
    simp only [step] at hs
    split at hs <;> [skip; cases hs]
    rename_i r hr
    have key : ∀ a rest, r.todo = a :: rest → (r.phase = .unread ∨ r.phase = .free) →
        s' = ⟨(perform s.idle r a rest ok keep).1, s.reqs.set i (perform s.idle r a rest ok keep).2⟩ →
        Inv full s' ∧ s'.idle.count host ≤ 2 ∧ s'.reqs.length = s.reqs.length + (calls [Lab.act i ok keep]).length ∧
        s'.reqs.countP (leaked host) = s.reqs.countP (leaked host) + thrownAway host full [Lab.act i ok keep] := by
      intro a rest ht hph he
      subst he
      have hf : (perform s.idle r a rest ok keep).2 = { r with todo := rest, phase := .free } := by
        rcases hph with h | h <;> cases a <;> simp [perform, h]
        all_goals (cases r; simp_all)
      refine ⟨inv_set hi hr (by rw [hf]) (by rw [hf]; simp), ?_, by simp [calls], ?_⟩
      · rcases hph with h | h <;> cases a <;> simp only [perform, h]
        · split
          · exact count_giveBack hc
          · exact hc
        all_goals exact hc
      · rw [hf, leaked_set hr (by simp [leaked, ht])]; simp [leaked, thrownAway]
    split at hs
    · rename_i hph ht; exact key _ _ ht (.inl hph) (Option.some.inj hs).symm
    · rename_i hph ht; exact key _ _ ht (.inr hph) (Option.some.inj hs).symm
    · cases hs
  | hangUp h =>
    simp only [step] at hs
    split at hs <;> [skip; cases hs]
    cases hs
    exact ⟨hi, count_erase_le hc, by simp [calls], by simp [thrownAway]⟩
  | spare h =>
    simp only [step] at hs
    cases hs
    exact ⟨hi, count_giveBack hc, by simp [calls], by simp [thrownAway]⟩

theorem calls_cons (l : Lab) (ls : List Lab) : calls (l :: ls) = calls [l] ++ calls ls := by cases l <;> simp [calls]
theorem thrownAway_cons (host : Str) (full : List (Str × List Act)) (l : Lab) (ls : List Lab) :
    thrownAway host full (l :: ls) = thrownAway host full [l] + thrownAway host full ls := by
  cases l with
  | answer i b k => cases b <;> simp [thrownAway]
  | _ => simp [thrownAway]

theorem run_inv {host : Str} : ∀ (ls : List Lab) (done : List (Str × List Act)) {s s' : State}, Inv (done ++ calls ls) s →
    s.idle.count host ≤ 2 → s.reqs.length = done.length → runFrom s ls = some s' →
    s'.idle.count host ≤ 2 ∧ s'.reqs.countP (leaked host) = s.reqs.countP (leaked host) + thrownAway host (done ++ calls ls) ls ∧
    Inv (done ++ calls ls) s' := by
  intro ls
  induction ls with
  | nil => intro done s s' hi hc _ hr; cases hr; exact ⟨hc, by simp [thrownAway], hi⟩
  | cons l ls ih =>
    intro done s s' hi hc hlen hr
    obtain ⟨s1, h1, h2⟩ := Option.bind_eq_some_iff.1 hr
    obtain ⟨hi', hc', hlen', hk⟩ := step_inv (host := host) hi hc (by
      intro h c hl; subst hl
      rw [hlen, calls_cons]; simp [calls]) h1
    have hfull : done ++ calls (l :: ls) = (done ++ calls [l]) ++ calls ls := by rw [calls_cons, List.append_assoc]
    have := ih (done ++ calls [l]) (hfull ▸ hi') hc' (by rw [hlen', hlen, List.length_append]) h2
    rw [hfull, thrownAway_cons]
    rw [hfull] at hk
    refine ⟨this.1, ?_, this.2.2⟩
    rw [this.2.1, hk]; omega

theorem run_facts {host : Str} {ls : List Lab} {s : State} (hr : run ls = some s) :
    s.idle.count host ≤ 2 ∧ s.reqs.countP (leaked host) = thrownAway host (calls ls) ls := by
  have := run_inv (host := host) ls [] (s := init) (s' := s) (by intro i r h; simp [init] at h) (by simp [init]) rfl hr
  simpa [init] using And.intro this.1 this.2.1

theorem holds_split (host : Str) (reqs : List Req) :
    reqs.countP (holds host) ≤ reqs.countP (fun r => decide (r.host = host) && working r) + reqs.countP (leaked host) ∧
    reqs.countP (leaked host) ≤ reqs.countP (holds host) := by
  induction reqs with
  | nil => simp
  | cons r reqs ih =>
    simp only [List.countP_cons]
    have h1 : (if holds host r then 1 else 0) ≤ (if decide (r.host = host) && working r then 1 else 0) + (if leaked host r then 1 else 0) ∧
        (if leaked host r then 1 else 0) ≤ (if holds host r then 1 else 0) := by
      by_cases hh : r.host = host
      · cases hp : r.phase <;> cases ht : r.todo <;> simp [holds, working, leaked, hh, hp, ht]
      · simp [holds, leaked, hh]
    omega

/-- **C99**, for every run of any number of requests: besides at most two unused connections and those of requests whose callers are
at work, the open connections to a host are those of the answers that were thrown away; and these stay open. -/
theorem C99_exact {ls : List Lab} {s : State} (host : Str) (hr : run ls = some s) :
    openTo host s ≤ 2 + inProgress host s + thrownAway host (calls ls) ls ∧ thrownAway host (calls ls) ls ≤ openTo host s := by
  obtain ⟨h1, h2⟩ := run_facts (host := host) hr
  have := holds_split host s.reqs
  unfold openTo inProgress
  omega

theorem thrownAway_zero {host : Str} {full : List (Str × List Act)} (h : (host, []) ∉ full) (ls : List Lab) : thrownAway host full ls = 0 := by
  induction ls with
  | nil => rfl
  | cons l ls ih =>
    rw [thrownAway_cons, ih]
    cases l with
    | answer i b k =>
      cases b
      · simp [thrownAway]
      · simp only [thrownAway]
        rw [if_neg (fun he => h (List.mem_of_getElem? he))]
    | _ => simp [thrownAway]

/-- **C99**: if only healthd, healthtop and the Bugsnag sink ask this host, then at most two connections more are open than callers
are at work.  (The Librato sink is excluded, see `C99_false`.) -/
theorem C99_partial {ls : List Lab} {s : State} (host : Str) (hr : run ls = some s)
    (hc : ∀ c ∈ calls ls, c.1 = host → c.2 = healthdPoll ∨ c.2 = healthtopPoll ∨ c.2 = bugsnagNotify) :
    openTo host s ≤ 2 + inProgress host s := by
  have := (C99_exact host hr).1
  rw [thrownAway_zero (fun hm => by rcases hc _ hm rfl with h | h | h <;> cases h)] at this
  exact this

/-- a flush of the Librato sink: one request over a new connection (there is no unused one), answered with a body. -/
def flushLabs (host : Str) (i : Nat) : List Lab := [.call host libratoSend, .dial i, .answer i true true]

/-- the requests of `n` flushes, one after the other. -/
def flushes (host : Str) : Nat → Nat → List Lab
  | _, 0 => []
  | i, n + 1 => flushLabs host i ++ flushes host (i + 1) n

/-- the requests of what a Librato sink has sent. -/
def libratoLabs (host : Str) (sent : List Librato.Sent) : List Lab :=
  flushes host 0 (sent.countP (fun x => match x with | .posted _ => true | _ => false))

theorem runFrom_append (s : State) (l1 l2 : List Lab) : runFrom s (l1 ++ l2) = (runFrom s l1).bind (fun s' => runFrom s' l2) := by
  induction l1 generalizing s with
  | nil => rfl
  | cons l l1 ih =>
    simp only [List.cons_append, runFrom]
    cases step s l with
    | none => rfl
    | some s1 => exact ih s1

theorem flushes_run (host : Str) (n : Nat) : ∀ (k : Nat),
    runFrom ⟨[], List.replicate k ⟨host, [], .unread⟩⟩ (flushes host k n) = some ⟨[], List.replicate (k + n) ⟨host, [], .unread⟩⟩ := by
  induction n with
  | zero => intro k; rfl
  | succ n ih =>
    intro k
    have h1 : ∀ p : Phase, (List.replicate k (⟨host, [], .unread⟩ : Req) ++ [⟨host, [], p⟩])[k]? = some ⟨host, [], p⟩ := by
      intro p; rw [List.getElem?_append_right (by simp)]; simp
    have h2 : ∀ (p q : Phase), (List.replicate k (⟨host, [], .unread⟩ : Req) ++ [(⟨host, [], p⟩ : Req)]).set k ⟨host, [], q⟩ =
        List.replicate k (⟨host, [], .unread⟩ : Req) ++ [⟨host, [], q⟩] := by
      intro p q; rw [List.set_append_right _ _ (by simp)]; simp
    have hf : runFrom ⟨[], List.replicate k ⟨host, [], .unread⟩⟩ (flushLabs host k) = some ⟨[], List.replicate (k + 1) ⟨host, [], .unread⟩⟩ := by
      simp only [flushLabs, runFrom, step, libratoSend, Option.bind_some, h1, h2, if_true]
      rw [List.replicate_succ']
    rw [flushes, runFrom_append, hf, Option.bind_some, ih (k + 1)]
    congr 3; omega

/-- **C99 is false of the Librato sink**: if its server answers with a body, then every flush that posts something leaves one more
connection open, and nobody is at work on any of them. -/
theorem C99_false (o : Librato.Opts) (ops : List Librato.Op) (host : Str) :
    let n := (Librato.run o ops).2.countP (fun x => match x with | .posted _ => true | _ => false)
    ∃ s, run (libratoLabs host (Librato.run o ops).2) = some s ∧ openTo host s = n ∧ inProgress host s = 0 := by
  intro n
  refine ⟨_, flushes_run host n 0, ?_, ?_⟩
  · simp [openTo, holds, List.countP_replicate]
  · simp [inProgress, working, List.countP_replicate]

/-! A run with healthd's polls, a Bugsnag report whose body cannot be read, and two flushes of the Librato sink. -/
namespace Sample
def host : Str := bs "a:80"
def other : Str := bs "metrics-api.librato.com:443"
def labs : List Lab :=
  [.call host healthdPoll, .call host bugsnagNotify, .call other libratoSend, .dial 0, .dial 1, .dial 2, .answer 0 true true,
   .answer 1 true true, .answer 2 true true, .act 0 true true, .act 1 false true, .call host healthtopPoll, .reuse 3,
   .call other libratoSend, .dial 4, .answer 4 true true, .act 0 true true]
example : (run labs).map (fun s => (openTo host s, inProgress host s, openTo other s, inProgress other s)) = some (1, 1, 2, 0) := by decide +kernel
example : ∀ c ∈ calls labs, c.1 = host → c.2 = healthdPoll ∨ c.2 = healthtopPoll ∨ c.2 = bugsnagNotify := by decide +kernel
example : thrownAway other (calls labs) labs = 2 := by decide +kernel
end Sample

/-- flushes that post: a sink with an event before each of two flushes. -/
example : ((Librato.run ⟨[], Librato.sanitizeKey, bs "h", 15000000000⟩ [.emit (bs "j") (.event (bs "e")), .flush 1, .flush 2,
    .emit (bs "j") (.event (bs "e")), .flush 3]).2.countP (fun x => match x with | .posted _ => true | _ => false)) = 2 := by decide +kernel

end Conns
