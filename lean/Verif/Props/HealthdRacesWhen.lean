import Verif.Props.HealthdRaces
/-!
# Which requests can meet a write of the duration of the intervals (C123)
-/
open Spec

namespace HdMem

/-- a handler that reads the duration was given a copy, and uses it, or was refused. -/
def Reads (s : Sys) : Prop := ∀ e ∈ s.log, ∀ i, e.who = .handler i → .intervalDuration ∈ e.reads → .copy i ∈ e.reads ∨ s.loop.rest.req i = .refused

theorem events_duration {s : Rounds.Sys} {l : Rounds.Lab} {e : Event} (he : e ∈ events s l) {i : Nat} (hw : e.who = .handler i) : .intervalDuration ∉ e.reads := by
  cases l with
  | tick => simp only [events, List.mem_cons, List.not_mem_nil, or_false] at he; rcases he with rfl | rfl <;> cases hw
  | spawn r hp => simp only [events, List.mem_singleton] at he; subst he; cases hw
  | deliver r hp => simp only [events, List.mem_singleton] at he; subst he; cases hw
  | finish r => simp only [events, List.mem_singleton] at he; subst he; cases hw
  | consume =>
    simp only [events] at he
    split at he
    · rw [List.mem_singleton] at he; subst he; cases hw
    · cases he
  | allIn =>
    simp only [events] at he
    split at he
    · rw [List.mem_singleton] at he; subst he; cases hw
    · cases he
  | other l =>
    cases l with
    | fire => simp only [events, List.mem_singleton] at he; subst he; cases hw
    | call j => simp only [events, List.mem_cons, List.not_mem_nil, or_false] at he; rcases he with rfl | rfl <;> simp
    | enqueue j b => simp only [events, List.mem_singleton] at he; subst he; simp
    | accept b =>
      simp only [events] at he
      split at he
      · rw [List.mem_singleton] at he; subst he; cases hw
      · cases he
    | reply =>
      simp only [events] at he
      split at he
      · simp only [List.mem_cons, List.not_mem_nil, or_false] at he; rcases he with rfl | rfl | rfl <;> simp
      · cases he
    | stop => simp only [events, List.mem_cons, List.not_mem_nil, or_false] at he; rcases he with rfl | rfl <;> cases hw
    | acceptStop => simp only [events, List.mem_cons, List.not_mem_nil, or_false] at he; rcases he with rfl | rfl | rfl <;> cases hw
    | stopped => simp only [events, List.mem_cons, List.not_mem_nil, or_false] at he; rcases he with rfl | rfl <;> cases hw
    | _ => simp [events] at he

theorem reads_step {s s' : Sys} {l : Lab} (g : Reads s) (hw : Waits s.loop.rest) (hs : step s l = some s') : Reads s' := by
  have one : ∀ (e : Event) (b : Nat), (∀ i, e.who = .handler i → .intervalDuration ∈ e.reads → .copy i ∈ e.reads ∨ s.loop.rest.req i = .refused) →
      Reads { s with boot := b, log := s.log ++ [e] } := by
    intro e b h f hf i h1 h2
    rcases List.mem_append.1 hf with hf | hf
    · exact g f hf i h1 h2
    · cases List.mem_singleton.1 hf; exact h i h1 h2
  cases l with
  | go l =>
    simp only [step] at hs
    split at hs <;> [skip; cases hs]
    obtain ⟨z, hz, rfl⟩ := Option.map_eq_some_iff.1 hs
    have hr := (rest_step hz).1
    intro e he i h1 h2
    rcases List.mem_append.1 he with he | he
    · refine (g e he i h1 h2).imp id (fun hi => ?_)
      show z.rest.req i = .refused
      rcases hr with h | ⟨j, _, h3, v, _, h⟩ | ⟨j, b, _, h3, h⟩ | ⟨j, _, h3, h⟩ <;> rw [h]
      · exact hi
      all_goals
        by_cases e : i = j
        · subst e
          first
            | (rw [h3] at hi; cases hi)
            | (rw [waiting_of_replying hw h3] at hi; cases hi)
        · simp only [HdLoop.set, if_neg e]; exact hi
    · exact absurd h2 (events_duration he h1)
  | render i =>
    simp only [step] at hs
    split at hs <;> cases hs
    · exact one _ s.boot (by intro j hj _; cases hj; simp)
    · rename_i h
      exact one _ s.boot (by intro j hj _; cases hj; exact .inr h)
  | closeHTTP =>
    simp only [step] at hs
    split at hs <;> cases hs
    exact one _ s.boot (by simp)
  | serve | serving | started =>
    simp only [step] at hs
    split at hs <;> cases hs
    exact one _ _ (by simp)

theorem reads_run {hosts : List Str} (hh : hosts.Nodup) {clock : Int} {s : Sys} {l : List Lab} (h : run (init clock hosts) l = some s) : Reads s := by
  have : ∀ (l : List Lab) (s0 s : Sys), Good hosts s0 → Reads s0 → run s0 l = some s → Reads s := by
    intro l
    induction l with
    | nil => intro s0 s _ g h; cases h; exact g
    | cons x t ih =>
      intro s0 s g g' h
      unfold run at h
      rw [List.foldlM_cons] at h
      obtain ⟨z, hz, h⟩ := Option.bind_eq_some_iff.1 h
      exact ih z s (good_step hh g hz) (reads_step g' g.waits hz) h
  refine this l _ s (good_init clock hosts) ?_ h
  intro e he i h1
  simp [init] at he
  rcases he with rfl | rfl <;> simp at h1

/-- **C123**: a request whose copy is made after the aggregation goroutine has written something reads the duration of the intervals after it, too: once a first
response has set the duration (it is set only once, C93_race_partial), the requests that healthd answers cannot meet that write any more. -/
theorem C123_later {clock : Int} {hosts : List Str} (hh : hosts.Nodup) {l : List Lab} {s : Sys} (h : run (init clock hosts) l = some s) {p k q n : Nat} {a b c : Event}
    (ha : s.log[p]? = some a) (haw : a.who = .loop) (hc : s.log[k]? = some c) (hcw : c.who = .loop) (hcc : .copy n ∈ c.writes) (hpk : p ≤ k)
    (hb : s.log[q]? = some b) (hbw : b.who = .handler n) (hbr : .intervalDuration ∈ b.reads) : Before s.log p q := by
  have g := good_run hh h
  rcases reads_run hh h b (List.mem_of_getElem? hb) n hbw hbr with h1 | h1
  · have h2 := g.copies.order k q c b n hc hcw hcc hb hbw (.inl h1)
    rcases Nat.lt_or_eq_of_le hpk with h3 | rfl
    · exact .trans (.same h3 ha hc (haw.trans hcw.symm)) h2
    · exact h2
  · rcases g.copies.made c (List.mem_of_getElem? hc) n hcw hcc with h2 | h2 <;> rw [h1] at h2 <;> cases h2

/-- so in each of the races that there are, the copy was made before the write, or the request was refused. -/
theorem C123_when {clock : Int} {hosts : List Str} (hh : hosts.Nodup) {l : List Lab} {s : Sys} (h : run (init clock hosts) l = some s) {x : Loc} {i j : Nat}
    (hr : DataRace s.log x i j) : ∃ (p q : Nat) (a b : Event) (n : Nat), (p = i ∧ q = j ∨ p = j ∧ q = i) ∧ s.log[p]? = some a ∧ a.who = .loop ∧ .intervalDuration ∈ a.writes ∧
      s.log[q]? = some b ∧ b.who = .handler n ∧ .intervalDuration ∈ b.reads ∧ ∀ (k : Nat) (c : Event), s.log[k]? = some c → c.who = .loop → .copy n ∈ c.writes → k < p := by
  obtain ⟨rfl, a, b, n, ha, hb, hab⟩ := C123_only_duration_partial hh h hr
  have g := good_run hh h
  obtain ⟨a', b', hij, ha', hb', hcf, hnb⟩ := hr
  rw [ha] at ha'; cases ha'
  rw [hb] at hb'; cases hb'
  have hi : i ≠ 0 := by
    rintro rfl
    exact hnb (g.alive.born.first j b hb (by omega))
  have reader : ∀ {q : Nat} {f : Event}, q ≠ 0 → s.log[q]? = some f → f.who = .handler n → .intervalDuration ∈ f.reads ∨ .intervalDuration ∈ f.writes → .intervalDuration ∈ f.reads := by
    intro q f hq hf hw hx
    rcases hx with hx | hx
    · exact hx
    · have := (g.shaped q f hf hq).1 _ hx
      rw [hw] at this; cases this
  have no : ∀ {p q : Nat}, p = i ∧ q = j ∨ p = j ∧ q = i → ¬ Before s.log p q := by
    rintro p q (⟨rfl, rfl⟩ | ⟨rfl, rfl⟩) hb
    · exact hnb hb
    · have := hb.lt; omega
  have last : ∀ {p q : Nat} {e f : Event}, p = i ∧ q = j ∨ p = j ∧ q = i → s.log[p]? = some e → e.who = .loop → s.log[q]? = some f → f.who = .handler n →
      .intervalDuration ∈ f.reads → ∀ (k : Nat) (c : Event), s.log[k]? = some c → c.who = .loop → .copy n ∈ c.writes → k < p := by
    intro p q e f hpq he hew hf hfw hfr k c hc hcw hcc
    by_contra hk
    exact no hpq (C123_later hh h he hew hc hcw hcc (by omega) hf hfw hfr)
  rcases hab with ⟨h1, h2, h3⟩ | ⟨h1, h2, h3⟩
  · have hrd : .intervalDuration ∈ b.reads := reader (by omega) hb h3 (by
      rcases hcf with ⟨_, h⟩ | ⟨h, _⟩
      · exact h
      · exact .inr h)
    exact ⟨i, j, a, b, n, .inl ⟨rfl, rfl⟩, ha, h1, h2, hb, h3, hrd, last (.inl ⟨rfl, rfl⟩) ha h1 hb h3 hrd⟩
  · have hrd : .intervalDuration ∈ a.reads := reader hi ha h3 (by
      rcases hcf with ⟨h, _⟩ | ⟨_, h⟩
      · exact .inr h
      · exact .inl h)
    exact ⟨j, i, b, a, n, .inr ⟨rfl, rfl⟩, hb, h1, h2, ha, h3, hrd, last (.inr ⟨rfl, rfl⟩) hb h1 ha h3 hrd⟩

/-- the first response comes, then a request. -/
def Sample.later : List Lab := [.serve, .serving, .started, .go (.spawn 0 host), .go (.deliver 0 host), .go .consume, .go (.other .request), .go (.other (.call 0)),
  .go (.other (.enqueue 0 false)), .go (.other (.accept false)), .go (.other .reply), .render 0]

/-- a case of `C123_later`: the response is consumed (event 7), the copy made (11), the duration read (15).  (C123_race_false is a case of `C123_when`.) -/
example : ∃ s, run (init 5 [Sample.host]) Sample.later = some s ∧ (∃ a, s.log[7]? = some a ∧ a.who = .loop ∧ .intervalDuration ∈ a.writes) ∧
    (∃ c, s.log[11]? = some c ∧ c.who = .loop ∧ .copy 0 ∈ c.writes) ∧ ∃ b, s.log[15]? = some b ∧ b.who = .handler 0 ∧ .intervalDuration ∈ b.reads := by
  have h : (run (init 5 [Sample.host]) Sample.later).any (fun s => (s.log[7]?).any (fun a => a.who = .loop ∧ .intervalDuration ∈ a.writes) ∧
      (s.log[11]?).any (fun a => a.who = .loop ∧ .copy 0 ∈ a.writes) ∧ (s.log[15]?).any (fun a => a.who = .handler 0 ∧ .intervalDuration ∈ a.reads)) = true := by decide +kernel
  obtain ⟨s, h1, h2⟩ := (Option.any_eq_true _ _).1 h
  obtain ⟨h3, h4, h5⟩ := of_decide_eq_true h2
  refine ⟨s, h1, ?_, ?_, ?_⟩
  · obtain ⟨a, h1, h2⟩ := (Option.any_eq_true _ _).1 h3
    exact ⟨a, h1, of_decide_eq_true h2⟩
  · obtain ⟨a, h1, h2⟩ := (Option.any_eq_true _ _).1 h4
    exact ⟨a, h1, of_decide_eq_true h2⟩
  · obtain ⟨a, h1, h2⟩ := (Option.any_eq_true _ _).1 h5
    exact ⟨a, h1, of_decide_eq_true h2⟩

end HdMem
