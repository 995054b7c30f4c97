import Verif.Lemmas.Concurrent
import Mathlib.Data.List.Nodup
/-!
# Lemmas: each step of a goroutine keeps the invariant
-/
open Spec
namespace Concurrent

theorem EnvRel.get {w : World} {own : List Nat} {env : List JobInfo} (h : EnvRel w own env) {i j : Nat} (hi : own[i]? = some j) :
    ∃ p job, env[i]? = some p ∧ w.jobs[j]? = some job ∧ job.name = p.1 ∧ ∀ k, lookup (w.deref job.kvs) k = p.2 k := by
  unfold EnvRel at h
  induction h generalizing i with
  | nil => simp at hi
  | cons h1 _ ih =>
    cases i with
    | zero =>
      simp only [List.getElem?_cons_zero, Option.some.injEq] at hi
      subst hi
      obtain ⟨job, a, b, c⟩ := h1
      exact ⟨_, job, rfl, a, b, c⟩
    | succ i => simpa using ih (by simpa using hi)

/-- the start of an emission. -/
theorem begin_emit {w0 w : World} {own : List Nat} {env : List JobInfo} (h0 : World.Ok w0) (hm : Mem w0 w) (ho2 : ∀ j ∈ own, j < w.jobs.length)
    (hem : ∀ id ∈ w.emitted, id < w.nextErr) (he : EnvRel w own env) (j : Nat) (p : JobInfo) (job : Job) (c : World.Call) (kvs : Option (GoMap Str Str))
    (hv : j < w0.jobs.length ∨ j ∈ own) (hj : w.jobs[j]? = some job) (hnm : job.name = p.1) (hp : ∀ k, lookup (w.deref job.kvs) k = p.2 k)
    (hn : NewErr c) (hw : ∀ m, kvs = some m → GoMap.Wf m) (t : Thread) (todo : List Op) (hpc : t.pc = .idle) (hto : t.own = own) :
    Em w0 (literal (wrapCall w c).1 kvs).1 own ⟨j, (wrapCall w c).2, (literal (wrapCall w c).1 kvs).2⟩
      (p.1, c, inForce kvs p.2 (lookup (w0.deref w0.kvs))) job (w.deref w.kvs) (w.deref job.kvs) kvs ∧
    EnvRel (literal (wrapCall w c).1 kvs).1 own env ∧
    Moves w t (literal (wrapCall w c).1 kvs).1 ⟨todo, .lenJob ⟨j, (wrapCall w c).2, (literal (wrapCall w c).1 kvs).2⟩, own⟩ := by
  obtain ⟨a1, a2, a3, a4, a5, a6, a7, a8⟩ := wrapCall_spec w c hn
  obtain ⟨b1, b2, b3, b4, b5, b6, b7, b8⟩ := literal_spec (wrapCall w c).1 kvs hw
  have heff : Eff [] w (literal (wrapCall w c).1 kvs).1 := by
    cases b1 with
    | same hm hj => exact .same (hm.trans a1) (hj.trans a2)
    | alloc m wf hm hj => exact .alloc m wf (by rw [hm, a1]) (hj.trans a2)
    | job b hb hm hj => exact .job b hb (hm.trans a1) (by rw [hj, a2])
    | make j ho => cases ho
    | write j ho => cases ho
  have hk : (literal (wrapCall w c).1 kvs).1.kvs = w.kvs := b2.trans a3
  have hsk : (literal (wrapCall w c).1 kvs).1.sinks = w.sinks := b3.trans a4
  have f : Frame w0 own w (literal (wrapCall w c).1 kvs).1 := heff.frame_self hk hsk hm ho2
  have hjobs : (literal (wrapCall w c).1 kvs).1.jobs = w.jobs := b6.trans a2
  have hstream : w.deref w.kvs = w0.deref w0.kvs := by
    rw [hm.kvs]
    cases hx : w0.kvs with
    | none => rfl
    | some i => simp [World.deref, hm.maps i (h0.kvs i hx)]
  refine ⟨⟨hv, by rw [hjobs]; exact hj, hnm, ?_, ?_, b7, ?_, ?_, a7, ?_⟩, he.frame f hm h0, ⟨heff.mono, hk, hsk, .inl ⟨hto.symm, by rw [hjobs]⟩, ?_, ?_, ?_⟩⟩
  · rw [hk]; exact (f.safe _ (hm.safe_stream h0 own)).2
  · exact (f.safe _ (hm.safe_job h0 hj hv)).2
  · intro i hi
    obtain ⟨hi1, hi2⟩ := b8 i hi
    refine ⟨hi2, fun j' job' h1 _ h3 h4 => ?_⟩
    rw [hjobs] at h3
    have := hm.fresh j' job' i h1 h3 h4
    rw [hi1, a1] at this
    omega
  · intro k
    show inForce kvs p.2 (lookup (w0.deref w0.kvs)) k = _
    unfold inForce precedence
    rw [hp k, hstream]
    cases lookup kvs k with
    | some v => rfl
    | none => cases p.2 k <;> rfl
  · intro id hid
    rw [b4, a5]
    intro hin
    have := hem id hin
    have := (a8 id hid).1
    omega
  · rw [b5]; exact a6
  · rw [b4, a5]; exact fun id h => .inl h
  · intro id hid
    obtain ⟨e1, e2⟩ := a8 id hid
    right
    rw [b5]
    omega

theorem step_idle {w0 w : World} {prog : List Op} {t : Thread} {calls : List SinkCall} {clock : Nat → Int} (h0 : World.Ok w0) (hm : Mem w0 w)
    (ho2 : ∀ j ∈ t.own, j < w.jobs.length) (hem : ∀ id ∈ w.emitted, id < w.nextErr)
    (env : List JobInfo) (D : List (Nat × Stmt)) (hpc : t.pc = .idle) (he : EnvRel w t.own env) (hd : Disciplined w0.jobs.length t.own.length t.todo)
    (hx : D ++ toEach w0.sinks (toCome w0 env t.todo) = toEach w0.sinks (toldIn w0 prog)) (hc : List.Forall₂ TellsTo D calls)
    {w' : World} {t' : Thread} {cs : List SinkCall} (hs : tstep clock w t = some (w', t', cs)) : TInv w0 w' prog t' (calls ++ cs) ∧ Moves w t w' t' := by
  obtain ⟨todo, pc, own⟩ := t
  simp only at hpc he hd hx ho2
  subst hpc
  cases todo with
  | nil => cases hs
  | cons o r =>
    cases o with
    | addSink s => exact hd.elim
    | streamKv k v => exact hd.elim
    | newJob n =>
      simp only [tstep, Option.some.injEq, Prod.mk.injEq] at hs
      obtain ⟨rfl, rfl, rfl⟩ := hs
      have e : Eff [] w (w.newJob clock n) := .job ⟨n, none, clock w.reads⟩ rfl rfl rfl
      have f : Frame w0 own w (w.newJob clock n) := e.frame_self rfl rfl hm ho2
      refine ⟨.idle (env ++ [((n, fun _ => none) : JobInfo)]) D rfl ?_ ?_ hx ?_, ⟨e.mono, rfl, rfl, .inr ⟨rfl, by simp [World.newJob]⟩, Nat.le_refl _, fun _ h => .inl h, fun id h => by simp [pcFlag] at h⟩⟩
      · exact List.rel_append (he.frame f hm h0) (.cons ⟨⟨n, none, clock w.reads⟩, by simp [World.newJob], rfl, fun k => rfl⟩ .nil)
      · show Disciplined w0.jobs.length (own ++ [w.jobs.length]).length r
        rw [List.length_append]; exact hd
      · rw [List.append_nil]; exact hc
    | jobKv j k v =>
      cases j with
      | shared i => exact hd.elim
      | own i =>
        simp only [tstep, Thread.resolve] at hs
        cases hi : own[i]? with
        | none => rw [hi] at hs; cases hs
        | some j =>
          rw [hi] at hs
          simp only [Option.map_some, Option.some.injEq, Prod.mk.injEq] at hs
          obtain ⟨rfl, rfl, rfl⟩ := hs
          exact ⟨.kv env D i j k v hi (.inl rfl) he hd.2 hx (by rw [List.append_nil]; exact hc), .pure rfl (fun id h => by simp [pcFlag] at h)⟩
    | emit j c kvs =>
      obtain ⟨hd1, hd2, hd3, hd4⟩ := hd
      simp only [tstep] at hs
      cases j with
      | shared i =>
        simp only [Thread.resolve, Option.map_some, Option.some.injEq, Prod.mk.injEq] at hs
        obtain ⟨rfl, rfl, rfl⟩ := hs
        have hlt : i < w0.jobs.length := hd1
        have hj : w.jobs[i]? = some w0.jobs[i] := by rw [hm.jobs i hlt]; simp [hlt]
        have hder : w.deref (w0.jobs[i]).kvs = w0.deref (w0.jobs[i]).kvs := by
          cases hx : (w0.jobs[i]).kvs with
          | none => rfl
          | some n => simp [World.deref, hm.maps n (h0.jobs _ (List.getElem_mem hlt) n hx)]
        obtain ⟨e1, e2, e3⟩ := begin_emit h0 hm ho2 hem he i ((w0.jobs[i]).name, lookup (w0.deref (w0.jobs[i]).kvs)) w0.jobs[i] c kvs (.inl hlt) hj rfl (fun k => by rw [hder]) hd2 hd3
          ⟨_, .idle, own⟩ r rfl rfl
        refine ⟨.merging env D _ _ _ _ _ _ e1 rfl e2 hd4 ?_ (by rw [List.append_nil]; exact hc), e3⟩
        rw [← hx]
        simp [toCome, told, hlt]
      | own i =>
        cases hi : own[i]? with
        | none => simp [Thread.resolve, hi] at hs
        | some j =>
          simp only [Thread.resolve, hi, Option.map_some, Option.some.injEq, Prod.mk.injEq] at hs
          obtain ⟨rfl, rfl, rfl⟩ := hs
          obtain ⟨p, job, g1, g2, g3, g4⟩ := he.get hi
          obtain ⟨e1, e2, e3⟩ := begin_emit h0 hm ho2 hem he j p job c kvs (.inr (List.mem_of_getElem? hi)) g2 g3 g4 hd2 hd3 ⟨_, .idle, own⟩ r rfl rfl
          refine ⟨.merging env D _ _ _ _ _ _ e1 rfl e2 hd4 ?_ (by rw [List.append_nil]; exact hc), e3⟩
          rw [← hx]
          simp [toCome, told, g1]

theorem forall₂_of_get {α β : Type} {R : α → β → Prop} : ∀ (l : List α) (m : List β), l.length = m.length → (∀ (i : Nat) a b, l[i]? = some a → m[i]? = some b → R a b) →
    List.Forall₂ R l m
  | [], [], _, _ => .nil
  | a :: l, b :: m, hl, h => .cons (h 0 a b rfl rfl) (forall₂_of_get l m (by simpa using hl) (fun i x y hx hy => h (i + 1) x y (by simpa using hx) (by simpa using hy)))

theorem step_kv {w0 w : World} {prog : List Op} {t : Thread} {calls : List SinkCall} {clock : Nat → Int} (hm : Mem w0 w)
    (ho1 : ∀ j ∈ t.own, w0.jobs.length ≤ j) (hnd : t.own.Nodup)
    (env : List JobInfo) (D : List (Nat × Stmt)) (i j : Nat) (k v : Str) (hi : t.own[i]? = some j)
    (hpc : t.pc = .kvTest (.job j) k v ∨ (t.pc = .kvMake (.job j) k v ∧ getField w (.job j) = none) ∨ (t.pc = .kvSet (.job j) k v ∧ ∃ r, getField w (.job j) = some r))
    (he : EnvRel w t.own env) (hd : Disciplined w0.jobs.length t.own.length t.todo)
    (hx : D ++ toEach w0.sinks (toCome w0 (env.modify i (fun p => (p.1, fun k' => if k' = k then some v else p.2 k'))) t.todo) = toEach w0.sinks (toldIn w0 prog))
    (hc : List.Forall₂ TellsTo D calls)
    {w' : World} {t' : Thread} {cs : List SinkCall} (hs : tstep clock w t = some (w', t', cs)) : TInv w0 w' prog t' (calls ++ cs) ∧ Moves w t w' t' := by
  obtain ⟨todo, pc, own⟩ := t
  simp only at hpc he hd hx hi ho1 hnd
  have hjo : j ∈ own := List.mem_of_getElem? hi
  obtain ⟨p0, job0, g1, g2, g3, g4⟩ := he.get hi
  have hgf : getField w (.job j) = job0.kvs := by simp [getField, g2]
  have hlen : own.length = env.length := he.length_eq
  rcases hpc with rfl | ⟨rfl, hg⟩ | ⟨rfl, r, hg⟩
  · simp only [tstep, Option.some.injEq, Prod.mk.injEq] at hs
    obtain ⟨rfl, rfl, rfl⟩ := hs
    refine ⟨.kv env D i j k v hi ?_ he hd hx (by rw [List.append_nil]; exact hc), .pure rfl ?_⟩
    · cases hg : getField w (.job j) with
      | none => exact .inr (.inl ⟨by simp, rfl⟩)
      | some r => exact .inr (.inr ⟨by simp, r, rfl⟩)
    · intro id hid
      revert hid
      cases getField w (.job j) <;> simp [pcFlag]
  · simp only [tstep, Option.some.injEq, Prod.mk.injEq] at hs
    obtain ⟨rfl, rfl, rfl⟩ := hs
    have hnone : job0.kvs = none := hgf ▸ hg
    refine ⟨.kv env D i j k v hi (.inr (.inr ⟨rfl, w.maps.length, ?_⟩)) ?_ hd hx (by rw [List.append_nil]; exact hc), ⟨.make j hjo rfl rfl, rfl, rfl, .inl ⟨rfl, by simp [setField, World.newMap]⟩, Nat.le_refl _, fun _ h => .inl h, fun id h => by simp [pcFlag] at h⟩⟩
    · simp [getField, setField, World.newMap, g2]
    · refine forall₂_of_get _ _ hlen ?_
      intro a ja p ha hp
      obtain ⟨p', job, k1, k2, k3, k4⟩ := he.get ha
      rw [hp] at k1; cases k1
      by_cases hja : j = ja
      · subst hja
        rw [g2] at k2; cases k2
        refine ⟨{ job0 with kvs := some w.maps.length }, by simp [setField, World.newMap, g2], k3, fun k' => ?_⟩
        rw [← k4 k', hnone]
        simp [World.deref, setField, World.newMap, lookup, GoMap.get?]
      · refine ⟨job, by simp [setField, World.newMap, hja, k2], k3, fun k' => ?_⟩
        rw [← k4 k']
        cases hjk : job.kvs with
        | none => rfl
        | some n =>
          have hfr := hm.fresh ja job n (ho1 ja (List.mem_of_getElem? ha)) k2 hjk
          simp [World.deref, setField, World.newMap, List.getElem?_append_left hfr.2]
  · simp only [tstep, hg, Option.some.injEq, Prod.mk.injEq] at hs
    obtain ⟨rfl, rfl, rfl⟩ := hs
    have hsome : job0.kvs = some r := hgf ▸ hg
    have hfr := hm.fresh j job0 r (ho1 j hjo) g2 hsome
    refine ⟨.idle _ D rfl ?_ hd hx (by rw [List.append_nil]; exact hc), ⟨.write j hjo job0 g2 r hsome k v rfl rfl, rfl, rfl, .inl ⟨rfl, rfl⟩, Nat.le_refl _, fun _ h => .inl h, fun id h => by simp [pcFlag] at h⟩⟩
    refine forall₂_of_get _ _ (by rw [List.length_modify]; exact hlen) ?_
    intro a ja p ha hp
    obtain ⟨p', job, k1, k2, k3, k4⟩ := he.get ha
    rw [List.getElem?_modify, k1] at hp
    by_cases hja : j = ja
    · subst hja
      rw [g2] at k2; cases k2
      have hia : i = a := by
        have h1 := List.getElem?_eq_some_iff.1 hi
        have h2 := List.getElem?_eq_some_iff.1 ha
        obtain ⟨h1, h1'⟩ := h1
        obtain ⟨h2, h2'⟩ := h2
        exact (List.Nodup.getElem_inj_iff hnd).1 (h1'.trans h2'.symm)
      simp [hia] at hp
      subst hp
      refine ⟨job0, g2, k3, fun k' => ?_⟩
      simp only
      rw [← k4 k', hsome]
      have hg : (w.mapSet r k v).deref (some r) = some ((w.maps[r]'hfr.2).set k v) := by simp [World.deref, World.mapSet, hfr.2]
      have hg0 : w.deref (some r) = some (w.maps[r]'hfr.2) := by simp [World.deref, hfr.2]
      rw [hg, hg0]
      simp only [lookup, Option.bind_some]
      by_cases hk : k' = k
      · subst hk; simp
      · rw [GoMap.get?_set_ne _ _ hk]; simp [hk]
    · have hia : i ≠ a := by
        rintro rfl
        rw [hi] at ha; cases ha; exact hja rfl
      simp [hia] at hp
      subst hp
      refine ⟨job, k2, k3, fun k' => ?_⟩
      rw [← k4 k']
      cases hjk : job.kvs with
      | none => rfl
      | some n =>
        have hne : r ≠ n := by
          rintro rfl
          exact hja (hm.inj j ja job0 job r (ho1 j hjo) (ho1 ja (List.mem_of_getElem? ha)) g2 k2 hsome hjk)
        simp [World.deref, World.mapSet, List.getElem?_modify, hne]

theorem step_merging {w0 w : World} {prog : List Op} {t : Thread} {calls : List SinkCall} {clock : Nat → Int} (h0 : World.Ok w0) (hm : Mem w0 w)
    (ho2 : ∀ j ∈ t.own, j < w.jobs.length)
    (env : List JobInfo) (D : List (Nat × Stmt)) (x : Ctx) (m : Stmt) (job : Job) (S J I : Option (GoMap Str Str)) (hem : Em w0 w t.own x m job S J I)
    (hpc : Merging x job.kvs w0.kvs S J t.pc)
    (he : EnvRel w t.own env) (hd : Disciplined w0.jobs.length t.own.length t.todo)
    (hx : D ++ toEach w0.sinks (m :: toCome w0 env t.todo) = toEach w0.sinks (toldIn w0 prog)) (hc : List.Forall₂ TellsTo D calls)
    {w' : World} {t' : Thread} {cs : List SinkCall} (hs : tstep clock w t = some (w', t', cs)) : TInv w0 w' prog t' (calls ++ cs) ∧ Moves w t w' t' := by
  obtain ⟨todo, pc, own⟩ := t
  simp only at hpc hem he hd hx ho2
  have hgf : getField w (.job x.job) = job.kvs := by simp [getField, hem.found]
  have hJ : w.len job.kvs = size J := by rw [← hem.jobKv]; rfl
  have hS : w.len w.kvs = size S := by rw [← hem.stream]; rfl
  have hI : w.len x.inst = size I := by rw [← hem.inst]; rfl
  have hcs : List.Forall₂ TellsTo D (calls ++ []) := by rw [List.append_nil]; exact hc
  cases pc with
  | idle => exact hpc.elim
  | store => exact hpc.elim
  | kvTest => exact hpc.elim
  | kvMake => exact hpc.elim
  | kvSet => exact hpc.elim
  | range => exact hpc.elim
  | call => exact hpc.elim
  | lenJob x' =>
    have : x' = x := hpc
    subst this
    simp only [tstep, hgf, hJ, Option.some.injEq, Prod.mk.injEq] at hs
    obtain ⟨rfl, rfl, rfl⟩ := hs
    have hp : Merging x' job.kvs w0.kvs S J (if size J > 0 then .lenStream x' 1 job.kvs else .lenStream x' 0 none) := by
      by_cases h : size J > 0
      · rw [if_pos h]; exact ⟨rfl, by rw [if_pos h], by rw [if_pos h]⟩
      · rw [if_neg h]; exact ⟨rfl, by rw [if_neg h], by rw [if_neg h]⟩
    refine ⟨.merging env D x' m job S J I hem hp he hd hx hcs, .pure rfl (fun id hid => ?_)⟩
    rw [Merging.flag hp] at hid
    exact hid
  | lenStream x' n all =>
    obtain ⟨rfl, hn, ha⟩ := hpc
    simp only [tstep, hS, Option.some.injEq, Prod.mk.injEq] at hs
    obtain ⟨rfl, rfl, rfl⟩ := hs
    have hp : Merging x' job.kvs w0.kvs S J (if size S > 0 then .lenInst x' (n + 1) w.kvs else .lenInst x' n all) := by
      by_cases h : size S > 0
      · rw [if_pos h]; exact ⟨rfl, by rw [if_pos h, hn], by rw [if_pos h, hm.kvs]⟩
      · rw [if_neg h]; exact ⟨rfl, by rw [if_neg h, hn, Nat.add_zero], by rw [if_neg h, ha]⟩
    refine ⟨.merging env D x' m job S J I hem hp he hd hx hcs, .pure rfl (fun id hid => ?_)⟩
    rw [Merging.flag hp] at hid
    exact hid
  | lenInst x' n all =>
    obtain ⟨rfl, hn, ha⟩ := hpc
    simp only [tstep, hI, Option.some.injEq, Prod.mk.injEq] at hs
    obtain ⟨rfl, rfl, rfl⟩ := hs
    by_cases hgt : (if size I > 0 then (n + 1, x'.inst) else (n, all)).1 > 1
    · rw [if_pos hgt]
      exact ⟨.merging env D x' m job S J I hem rfl he hd hx hcs, .pure rfl (fun id hid => hid)⟩
    · rw [if_neg hgt]
      refine ⟨.calling env D x' m job S J I hem _ [] w0.sinks (.inl ⟨rfl, rfl⟩) ?_ ?_ rfl he hd hx (by simpa using hc), .pure rfl (fun id hid => hid)⟩
      · by_cases hi : size I > 0
        · simp only [if_pos hi]; exact hem.safe
        · simp only [if_neg hi]
          rw [ha]
          by_cases hs : size S > 0
          · rw [if_pos hs, ← hm.kvs]; exact hm.safe_stream h0 own
          · rw [if_neg hs]
            by_cases hj : size J > 0
            · rw [if_pos hj]; exact hm.safe_job h0 hem.found hem.vis
            · rw [if_neg hj]; intro i hi; cases hi
      · intro k
        rw [hem.prec k]
        unfold precedence
        by_cases hi : size I > 0
        · simp only [if_pos hi] at hgt ⊢
          have hj : ¬ size J > 0 := by intro h; rw [hn, if_pos h] at hgt; omega
          have hs : ¬ size S > 0 := by intro h; rw [hn, if_pos h] at hgt; omega
          rw [hem.inst, lookup_empty hj, lookup_empty hs]
          cases lookup I k <;> rfl
        · simp only [if_neg hi] at hgt ⊢
          rw [lookup_empty hi, ha]
          by_cases hs : size S > 0
          · have hj : ¬ size J > 0 := by intro h; rw [hn, if_pos h, if_pos hs] at hgt; omega
            rw [if_pos hs, ← hm.kvs, hem.stream, lookup_empty hj]
          · rw [if_neg hs, lookup_empty hs]
            by_cases hj : size J > 0
            · rw [if_pos hj, hem.jobKv]; cases lookup J k <;> rfl
            · rw [if_neg hj, lookup_empty hj]; rfl
  | copyStream x' =>
    have : x' = x := hpc
    subst this
    simp only [tstep, hem.stream, Option.some.injEq, Prod.mk.injEq] at hs
    obtain ⟨rfl, rfl, rfl⟩ := hs
    exact ⟨.merging env D x' m job S J I hem ⟨rfl, rfl⟩ he hd hx hcs, .pure rfl (fun id hid => hid)⟩
  | copyJob x' mm =>
    obtain ⟨rfl, rfl⟩ := hpc
    simp only [tstep, hgf, hem.jobKv, Option.some.injEq, Prod.mk.injEq] at hs
    obtain ⟨rfl, rfl, rfl⟩ := hs
    exact ⟨.merging env D x' m job S J I hem ⟨rfl, rfl⟩ he hd hx hcs, .pure rfl (fun id hid => hid)⟩
  | copyInst x' mm =>
    obtain ⟨rfl, rfl⟩ := hpc
    simp only [tstep, hem.inst, Option.some.injEq, Prod.mk.injEq] at hs
    obtain ⟨rfl, rfl, rfl⟩ := hs
    have hwf : GoMap.Wf (World.copyInto (World.copyInto (World.copyInto [] (S.getD [])) (J.getD [])) (I.getD [])) :=
      World.copyInto_wf _ _ (World.copyInto_wf _ _ (World.copyInto_wf _ _ GoMap.Wf.nil))
    have e : Eff [] w (w.newMap (World.copyInto (World.copyInto (World.copyInto [] (S.getD [])) (J.getD [])) (I.getD []))).1 := .alloc _ hwf rfl rfl
    have f := e.frame_self (own := own) rfl rfl hm ho2
    refine ⟨.calling env D x' m job S J I (hem.frame f hm h0 (fun _ _ h => h)) _ [] w0.sinks (.inl ⟨rfl, rfl⟩) ?_ ?_ rfl (he.frame f hm h0) hd hx (by simpa using hc),
      ⟨e.mono, rfl, rfl, .inl ⟨rfl, rfl⟩, Nat.le_refl _, fun _ h => .inl h, fun id hid => .inl hid⟩⟩
    · intro i hi
      simp only [World.newMap, Option.some.injEq] at hi
      subst hi
      refine ⟨by simp [World.newMap], fun j job' h1 _ h3 h4 => ?_⟩
      have := hm.fresh j job' _ h1 h3 h4
      omega
    · intro k
      rw [hem.prec k, ← merged_get (fun y hy => wf_deref hm _ _ (hem.stream.trans hy)) (fun y hy => wf_deref hm _ _ (hem.jobKv.trans hy)) (fun y hy => wf_deref hm _ _ (hem.inst.trans hy)) k]
      simp [World.deref, World.newMap, lookup]

theorem payload_spec (clock : Nat → Int) (w : World) (st : Int) (c c0 : World.Call) (h : Wrapped c c0) (hf : ∀ id, flagOf c = some id → id ∉ w.emitted) :
    (payload clock w st c).1.maps = w.maps ∧ (payload clock w st c).1.jobs = w.jobs ∧ (payload clock w st c).1.kvs = w.kvs ∧ (payload clock w st c).1.sinks = w.sinks ∧
    (payload clock w st c).1.emitted = w.emitted ∧ (payload clock w st c).1.nextErr = w.nextErr ∧
    (∀ sink name kvs seen b, Conveys ⟨sink, name, (payload clock w st c).2, kvs, seen, b⟩ (name, c0)) ∧ w.isEmitted (payload clock w st c).2 = false := by
  rcases h with ⟨ev, e, e0, tr, rfl, rfl, hmsg⟩ | ⟨rfl, hne⟩
  · refine ⟨rfl, rfl, rfl, rfl, rfl, rfl, fun _ _ _ _ _ => ⟨rfl, e, rfl, hmsg⟩, ?_⟩
    cases e with
    | unmuted id i s => simpa [payload, World.isEmitted] using hf id rfl
    | _ => rfl
  · cases c with
    | eventErr ev e tr => exact (hne ev e tr rfl).elim
    | event ev => exact ⟨rfl, rfl, rfl, rfl, rfl, rfl, fun _ _ _ _ _ => ⟨rfl, rfl⟩, rfl⟩
    | timing ev n => exact ⟨rfl, rfl, rfl, rfl, rfl, rfl, fun _ _ _ _ _ => ⟨rfl, rfl⟩, rfl⟩
    | gauge ev v => exact ⟨rfl, rfl, rfl, rfl, rfl, rfl, fun _ _ _ _ _ => ⟨rfl, rfl⟩, rfl⟩
    | complete s => exact ⟨rfl, rfl, rfl, rfl, rfl, rfl, fun _ _ _ _ _ => ⟨rfl, _, rfl⟩, rfl⟩

theorem mark_spec (w : World) (c : World.Call) : (mark w c).maps = w.maps ∧ (mark w c).jobs = w.jobs ∧ (mark w c).kvs = w.kvs ∧ (mark w c).sinks = w.sinks ∧
    (mark w c).nextErr = w.nextErr ∧ ∀ id ∈ (mark w c).emitted, id ∈ w.emitted ∨ flagOf c = some id := by
  cases c with
  | eventErr ev e tr =>
    cases e with
    | unmuted id i s =>
      refine ⟨rfl, rfl, rfl, rfl, rfl, fun id' h => ?_⟩
      rcases List.mem_append.1 h with h | h
      · exact .inl h
      · rw [List.mem_singleton.1 h]; exact .inr rfl
    | _ => exact ⟨rfl, rfl, rfl, rfl, rfl, fun id h => .inl h⟩
  | _ => exact ⟨rfl, rfl, rfl, rfl, rfl, fun id h => .inl h⟩

theorem step_calling {w0 w : World} {prog : List Op} {t : Thread} {calls : List SinkCall} {clock : Nat → Int} (h0 : World.Ok w0) (hm : Mem w0 w)
    (ho2 : ∀ j ∈ t.own, j < w.jobs.length)
    (env : List JobInfo) (D : List (Nat × Stmt)) (x : Ctx) (m : Stmt) (job : Job) (S J I : Option (GoMap Str Str)) (hem : Em w0 w t.own x m job S J I)
    (kvs : MapRef) (called rest : List Nat) (hpc : (t.pc = .range x kvs ∧ called = []) ∨ t.pc = .call x kvs rest) (hsafe : Safe w0 w t.own kvs)
    (hl : ∀ k, lookup (w.deref kvs) k = m.2.2 k) (hk : w0.sinks = called ++ rest)
    (he : EnvRel w t.own env) (hd : Disciplined w0.jobs.length t.own.length t.todo)
    (hx : D ++ toEach w0.sinks (m :: toCome w0 env t.todo) = toEach w0.sinks (toldIn w0 prog))
    (hc : List.Forall₂ TellsTo (D ++ called.map (fun s => (s, m))) calls)
    {w' : World} {t' : Thread} {cs : List SinkCall} (hs : tstep clock w t = some (w', t', cs)) : TInv w0 w' prog t' (calls ++ cs) ∧ Moves w t w' t' := by
  obtain ⟨todo, pc, own⟩ := t
  simp only at hpc hem he hd hx ho2 hsafe
  rcases hpc with ⟨rfl, rfl⟩ | rfl
  · simp only [tstep, Option.some.injEq, Prod.mk.injEq] at hs
    obtain ⟨rfl, rfl, rfl⟩ := hs
    refine ⟨.calling env D x m job S J I hem kvs [] w0.sinks (.inr (by rw [hm.sinks])) hsafe hl rfl he hd hx (by rw [List.append_nil]; exact hc), .pure rfl (fun id hid => hid)⟩
  · cases rest with
    | nil =>
      simp only [tstep, Option.some.injEq, Prod.mk.injEq] at hs
      obtain ⟨rfl, rfl, rfl⟩ := hs
      obtain ⟨m1, m2, m3, m4, m5, m6⟩ := mark_spec w x.call
      have e : Eff [] w (mark w x.call) := .same m1 m2
      have f := e.frame_self (own := own) m3 m4 hm ho2
      refine ⟨.idle env (D ++ called.map (fun s => (s, m))) rfl (he.frame f hm h0) hd ?_ (by rw [List.append_nil]; exact hc),
        ⟨e.mono, m3, m4, .inl ⟨rfl, by rw [m2]⟩, by rw [m5], fun id h => m6 id h, fun id h => by simp [pcFlag] at h⟩⟩
      rw [← hx]
      have : w0.sinks = called := by simpa using hk
      simp only [toEach, List.flatMap_cons, this, List.append_assoc]
    | cons s rest =>
      simp only [tstep, hem.found, Option.some.injEq, Prod.mk.injEq] at hs
      obtain ⟨rfl, rfl, rfl⟩ := hs
      obtain ⟨p1, p2, p3, p4, p5, p6, p7, p8⟩ := payload_spec clock w job.start x.call m.2.1 hem.call hem.flag
      have e : Eff [] w (payload clock w job.start x.call).1 := .same p1 p2
      have f := e.frame_self (own := own) p3 p4 hm ho2
      refine ⟨.calling env D x m job S J I (hem.frame f hm h0 (fun _ _ h => by rw [p5]; exact h)) kvs (called ++ [s]) rest (.inr rfl) (f.safe _ hsafe).1 ?_ (by rw [hk]; simp)
        (he.frame f hm h0) hd hx ?_, ⟨e.mono, p3, p4, .inl ⟨rfl, by rw [p2]⟩, by rw [p6], fun id h => .inl (by rw [← p5]; exact h), fun id h => .inl h⟩⟩
      · rw [(f.safe _ hsafe).2]; exact hl
      · rw [List.map_append, ← List.append_assoc]
        refine List.rel_append hc (.cons ⟨rfl, ?_, hl, p8⟩ .nil)
        have := p7 s job.name kvs (w.deref kvs) (w.isEmitted (payload clock w job.start x.call).2)
        rw [hem.name] at this
        rw [hem.name]
        exact this

/-- every step of a goroutine keeps its invariant. -/
theorem tstep_ok {w0 w : World} {prog : List Op} {t : Thread} {calls : List SinkCall} {clock : Nat → Int} (h0 : World.Ok w0) (hm : Mem w0 w)
    (ho1 : ∀ j ∈ t.own, w0.jobs.length ≤ j) (ho2 : ∀ j ∈ t.own, j < w.jobs.length) (hnd : t.own.Nodup) (hem : ∀ id ∈ w.emitted, id < w.nextErr)
    (h : TInv w0 w prog t calls) {w' : World} {t' : Thread} {cs : List SinkCall} (hs : tstep clock w t = some (w', t', cs)) :
    TInv w0 w' prog t' (calls ++ cs) ∧ Moves w t w' t' := by
  cases h with
  | idle env D hpc he hd hx hc => exact step_idle h0 hm ho2 hem env D hpc he hd hx hc hs
  | kv env D i j k v hi hpc he hd hx hc => exact step_kv hm ho1 hnd env D i j k v hi hpc he hd hx hc hs
  | merging env D x m job S J I he1 hpc he hd hx hc => exact step_merging h0 hm ho2 env D x m job S J I he1 hpc he hd hx hc hs
  | calling env D x m job S J I he1 kvs called rest hpc hsf hl hk he hd hx hc =>
    exact step_calling h0 hm ho2 env D x m job S J I he1 kvs called rest hpc hsf hl hk he hd hx hc hs

/-- a goroutine that has not ended can go on. -/
theorem tstep_isSome {w0 w : World} {prog : List Op} {t : Thread} {calls : List SinkCall} (clock : Nat → Int) (h : TInv w0 w prog t calls) (hne : ¬ Ended t) :
    (tstep clock w t).isSome = true := by
  obtain ⟨todo, pc, own⟩ := t
  cases h with
  | idle env D hpc he hd hx hc =>
    simp only at hpc hd he
    subst hpc
    cases todo with
    | nil => exact (hne ⟨rfl, rfl⟩).elim
    | cons o r =>
      cases o with
      | addSink s => exact hd.elim
      | streamKv k v => exact hd.elim
      | newJob n => rfl
      | jobKv j k v =>
        cases j with
        | shared i => exact hd.elim
        | own i =>
          have : i < own.length := hd.1
          simp [tstep, Thread.resolve, this]
      | emit j c kvs =>
        cases j with
        | shared i => rfl
        | own i =>
          have : i < own.length := hd.1
          simp [tstep, Thread.resolve, this]
  | kv env D i j k v hi hpc he hd hx hc =>
    simp only at hpc
    rcases hpc with rfl | ⟨rfl, hg⟩ | ⟨rfl, r, hg⟩
    · rfl
    · rfl
    · simp [tstep, hg]
  | merging env D x m job S J I he1 hpc he hd hx hc =>
    simp only at hpc
    cases pc <;> first | rfl | exact hpc.elim
  | calling env D x m job S J I he1 kvs called rest hpc hsf hl hk he hd hx hc =>
    simp only at hpc
    rcases hpc with ⟨rfl, _⟩ | rfl
    · rfl
    · cases rest with
      | nil => rfl
      | cons s r => simp [tstep, he1.found]

end Concurrent
