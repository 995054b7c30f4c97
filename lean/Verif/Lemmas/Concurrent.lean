import Verif.Spec.Concurrent
import Verif.Lemmas.StreamOk
import Mathlib.Tactic.Tauto
/-!
# Lemmas: several goroutines with one stream
-/
open Spec
namespace Concurrent

/-! ## The memory -/

/-- no goroutine but `t` writes to the map. -/
def Safe (w0 w : World) (own : List Nat) (r : MapRef) : Prop :=
  ∀ i, r = some i → i < w.maps.length ∧ ∀ (j : Nat) (job : Job), w0.jobs.length ≤ j → j ∉ own → w.jobs[j]? = some job → job.kvs ≠ some i

/-- what holds of the memory at all times. -/
structure Mem (w0 w : World) : Prop where
  kvs : w.kvs = w0.kvs
  sinks : w.sinks = w0.sinks
  mlen : w0.maps.length ≤ w.maps.length
  maps : ∀ i, i < w0.maps.length → w.maps[i]? = w0.maps[i]?
  jlen : w0.jobs.length ≤ w.jobs.length
  jobs : ∀ j, j < w0.jobs.length → w.jobs[j]? = w0.jobs[j]?
  wf : ∀ m ∈ w.maps, GoMap.Wf m
  fresh : ∀ (j : Nat) (job : Job) i, w0.jobs.length ≤ j → w.jobs[j]? = some job → job.kvs = some i → w0.maps.length ≤ i ∧ i < w.maps.length
  inj : ∀ (j j' : Nat) (job job' : Job) i, w0.jobs.length ≤ j → w0.jobs.length ≤ j' → w.jobs[j]? = some job → w.jobs[j']? = some job' →
    job.kvs = some i → job'.kvs = some i → j = j'

/-- what a step of a goroutine with the jobs `own` can do to maps and jobs. -/
inductive Eff (own : List Nat) (w w' : World) : Prop where
  | same (hm : w'.maps = w.maps) (hj : w'.jobs = w.jobs)
  | alloc (m : GoMap Str Str) (wf : GoMap.Wf m) (hm : w'.maps = w.maps ++ [m]) (hj : w'.jobs = w.jobs)
  | job (b : Job) (hb : b.kvs = none) (hm : w'.maps = w.maps) (hj : w'.jobs = w.jobs ++ [b])
  | make (j : Nat) (ho : j ∈ own) (hm : w'.maps = w.maps ++ [[]]) (hj : w'.jobs = w.jobs.modify j (fun b => { b with kvs := some w.maps.length }))
  | write (j : Nat) (ho : j ∈ own) (b : Job) (hb : w.jobs[j]? = some b) (i : Nat) (hi : b.kvs = some i) (k v : Str)
      (hm : w'.maps = w.maps.modify i (·.set k v)) (hj : w'.jobs = w.jobs)

theorem Eff.mem {w0 w w' : World} {own : List Nat} (e : Eff own w w') (hk : w'.kvs = w.kvs) (hs : w'.sinks = w.sinks) (h : Mem w0 w)
    (ho : ∀ j ∈ own, w0.jobs.length ≤ j) : Mem w0 w' := by
  have k := hk.trans h.kvs
  have s := hs.trans h.sinks
  cases e with
  | same hm hj => exact ⟨k, s, hm ▸ h.mlen, hm ▸ h.maps, hj ▸ h.jlen, hj ▸ h.jobs, hm ▸ h.wf, by rw [hm, hj]; exact h.fresh, hj ▸ h.inj⟩
  | alloc m wf hm hj =>
    refine ⟨k, s, by rw [hm]; simpa using Nat.le_succ_of_le h.mlen, fun i hi => ?_, hj ▸ h.jlen, hj ▸ h.jobs, ?_, ?_, hj ▸ h.inj⟩
    · rw [hm, List.getElem?_append_left (by have := h.mlen; omega)]; exact h.maps i hi
    · rw [hm]; intro x hx
      rcases List.mem_append.1 hx with hx | hx
      · exact h.wf x hx
      · rw [List.mem_singleton.1 hx]; exact wf
    · rw [hm, hj]; intro j job i h1 h2 h3
      have := h.fresh j job i h1 h2 h3
      simp; omega
  | job b hb hm hj =>
    have key : ∀ (j : Nat) (jb : Job) i, w'.jobs[j]? = some jb → jb.kvs = some i → w.jobs[j]? = some jb := by
      intro j jb i h2 h3
      rw [hj] at h2
      rcases Nat.lt_or_ge j w.jobs.length with hlt | hge
      · rwa [List.getElem?_append_left hlt] at h2
      · rw [List.getElem?_append_right hge] at h2
        have := List.mem_of_getElem? h2
        rw [List.mem_singleton.1 this, hb] at h3
        cases h3
    refine ⟨k, s, hm ▸ h.mlen, hm ▸ h.maps, by rw [hj]; simpa using Nat.le_succ_of_le h.jlen, fun i hi => ?_, hm ▸ h.wf, ?_, ?_⟩
    · rw [hj, List.getElem?_append_left (by have := h.jlen; omega)]; exact h.jobs i hi
    · rw [hm]; intro j jb i h1 h2 h3
      exact h.fresh j jb i h1 (key j jb i h2 h3) h3
    · intro j j' a b i h1 h2 h3 h4 h5 h6
      exact h.inj j j' a b i h1 h2 (key _ _ _ h3 h5) (key _ _ _ h4 h6) h5 h6
  | make j0 ho0 hm hj =>
    have key : ∀ (j : Nat) (jb : Job) i, w'.jobs[j]? = some jb → jb.kvs = some i → (j = j0 ∧ i = w.maps.length) ∨ (j ≠ j0 ∧ w.jobs[j]? = some jb) := by
      intro j jb i h2 h3
      rw [hj, List.getElem?_modify] at h2
      by_cases he : j0 = j
      · left
        cases hx : w.jobs[j]? with
        | none => rw [hx] at h2; simp at h2
        | some x =>
          rw [hx] at h2
          simp [he] at h2
          rw [← h2] at h3
          exact ⟨he.symm, by simpa using h3.symm⟩
      · right
        refine ⟨fun h => he h.symm, ?_⟩
        simpa [he] using h2
    refine ⟨k, s, by rw [hm]; simpa using Nat.le_succ_of_le h.mlen, fun i hi => ?_, by rw [hj]; simpa using h.jlen, fun j hjl => ?_, ?_, ?_, ?_⟩
    · rw [hm, List.getElem?_append_left (by have := h.mlen; omega)]; exact h.maps i hi
    · have := ho j0 ho0
      rw [hj, List.getElem?_modify, h.jobs j hjl]
      have hne : j0 ≠ j := by omega
      simp [hne]
    · rw [hm]; intro x hx
      rcases List.mem_append.1 hx with hx | hx
      · exact h.wf x hx
      · rw [List.mem_singleton.1 hx]; exact GoMap.Wf.nil
    · rw [hm]; intro j jb i h1 h2 h3
      rcases key j jb i h2 h3 with ⟨_, hi⟩ | ⟨_, hx⟩
      · have := h.mlen; simp; omega
      · have := h.fresh j jb i h1 hx h3
        simp; omega
    · intro j j' a b i h1 h2 h3 h4 h5 h6
      rcases key _ _ _ h3 h5 with ⟨e1, e2⟩ | ⟨e1, e2⟩ <;> rcases key _ _ _ h4 h6 with ⟨f1, f2⟩ | ⟨f1, f2⟩
      · omega
      · have := h.fresh j' b i h2 f2 h6; omega
      · have := h.fresh j a i h1 e2 h5; omega
      · exact h.inj j j' a b i h1 h2 e2 f2 h5 h6
  | write j0 ho0 b0 hb0 i0 hi0 kk vv hm hj =>
    have hfr := h.fresh j0 b0 i0 (ho j0 ho0) hb0 hi0
    refine ⟨k, s, by rw [hm]; simpa using h.mlen, fun i hi => ?_, hj ▸ h.jlen, hj ▸ h.jobs, ?_, ?_, hj ▸ h.inj⟩
    · rw [hm, List.getElem?_modify, h.maps i hi]
      have : i0 ≠ i := by omega
      simp [this]
    · rw [hm]; intro x hx
      obtain ⟨n, hn⟩ := List.mem_iff_getElem?.1 hx
      rw [List.getElem?_modify] at hn
      cases hy : w.maps[n]? with
      | none => rw [hy] at hn; simp at hn
      | some y =>
        rw [hy] at hn
        have hyw := h.wf y (List.mem_of_getElem? hy)
        by_cases he : i0 = n
        · simp [he] at hn; rw [← hn]; exact GoMap.Wf.set hyw _ _
        · simp [he] at hn; rw [← hn]; exact hyw
    · rw [hm, hj]; simpa using h.fresh

/-- what a goroutine with the jobs `own` can see does not change. -/
structure Frame (w0 : World) (own : List Nat) (w w' : World) : Prop where
  kvs : w'.kvs = w.kvs
  sinks : w'.sinks = w.sinks
  jobs : ∀ j, j < w0.jobs.length ∨ j ∈ own → w'.jobs[j]? = w.jobs[j]?
  safe : ∀ r, Safe w0 w own r → Safe w0 w' own r ∧ w'.deref r = w.deref r

theorem Eff.frame {w0 w w' : World} {own own' : List Nat} (e : Eff own w w') (hk : w'.kvs = w.kvs) (hs : w'.sinks = w.sinks) (h : Mem w0 w)
    (ho : ∀ j ∈ own, w0.jobs.length ≤ j) (ho' : ∀ j ∈ own', j < w.jobs.length) (hd : ∀ j ∈ own, j ∉ own') : Frame w0 own' w w' := by
  refine ⟨hk, hs, ?_, ?_⟩
  · intro j hjv
    have hlt : j < w.jobs.length := by
      rcases hjv with hjv | hjv
      · have := h.jlen; omega
      · exact ho' j hjv
    cases e with
    | same hm hj => rw [hj]
    | alloc m wf hm hj => rw [hj]
    | job b hb hm hj => rw [hj, List.getElem?_append_left hlt]
    | make j0 ho0 hm hj =>
      have hne : j0 ≠ j := by
        rintro rfl
        rcases hjv with hjv | hjv
        · have := ho j0 ho0; omega
        · exact hd j0 ho0 hjv
      rw [hj, List.getElem?_modify]
      simp [hne]
    | write j0 ho0 b0 hb0 i0 hi0 kk vv hm hj => rw [hj]
  · intro r hr
    cases r with
    | none => exact ⟨(by intro i hi; cases hi), rfl⟩
    | some i =>
      obtain ⟨h1, h2⟩ := hr i rfl
      cases e with
      | same hm hj => exact ⟨by rintro _ ⟨⟩; rw [hm, hj]; exact ⟨h1, h2⟩, by simp [World.deref, hm]⟩
      | alloc m wf hm hj =>
        refine ⟨by rintro _ ⟨⟩; rw [hm, hj]; exact ⟨by simp; omega, h2⟩, ?_⟩
        simp [World.deref, hm, List.getElem?_append_left h1]
      | job b hb hm hj =>
        refine ⟨?_, by simp [World.deref, hm]⟩
        rintro _ ⟨⟩
        rw [hm, hj]
        refine ⟨h1, fun j jb hj1 hj2 hj3 => ?_⟩
        rcases Nat.lt_or_ge j w.jobs.length with hlt | hge
        · rw [List.getElem?_append_left hlt] at hj3; exact h2 j jb hj1 hj2 hj3
        · rw [List.getElem?_append_right hge] at hj3
          rw [List.mem_singleton.1 (List.mem_of_getElem? hj3), hb]
          simp
      | make j0 ho0 hm hj =>
        refine ⟨?_, by simp [World.deref, hm, List.getElem?_append_left h1]⟩
        rintro _ ⟨⟩
        rw [hm, hj]
        refine ⟨by simp; omega, fun j jb hj1 hj2 hj3 => ?_⟩
        rw [List.getElem?_modify] at hj3
        by_cases he : j0 = j
        · cases hx : w.jobs[j]? with
          | none => rw [hx] at hj3; simp at hj3
          | some x => rw [hx] at hj3; simp [he] at hj3; rw [← hj3]; simp; omega
        · exact h2 j jb hj1 hj2 (by simpa [he] using hj3)
      | write j0 ho0 b0 hb0 i0 hi0 kk vv hm hj =>
        have hne : i0 ≠ i := by
          rintro rfl
          exact h2 j0 b0 (ho j0 ho0) (hd j0 ho0) hb0 hi0
        refine ⟨by rintro _ ⟨⟩; rw [hm, hj]; exact ⟨by simpa using h1, h2⟩, ?_⟩
        simp only [World.deref, hm, Option.bind_some, List.getElem?_modify]
        simp [hne]

/-- the stream's and the visible jobs' maps are safe. -/
theorem Mem.safe_stream {w0 w : World} (h : Mem w0 w) (h0 : World.Ok w0) (own : List Nat) : Safe w0 w own w.kvs := by
  intro i hi
  rw [h.kvs] at hi
  have hlt := h0.kvs i hi
  refine ⟨by have := h.mlen; omega, fun j job h1 _ h3 h4 => ?_⟩
  have := h.fresh j job i h1 h3 h4
  omega

theorem Mem.safe_job {w0 w : World} (h : Mem w0 w) (h0 : World.Ok w0) {own : List Nat} {j : Nat} {job : Job} (hj : w.jobs[j]? = some job)
    (hv : j < w0.jobs.length ∨ j ∈ own) : Safe w0 w own job.kvs := by
  intro i hi
  rcases Nat.lt_or_ge j w0.jobs.length with hlt | hge
  · rw [h.jobs j hlt] at hj
    have := h0.jobs job (List.mem_of_getElem? hj) i hi
    refine ⟨by have := h.mlen; omega, fun j' job' h1 _ h3 h4 => ?_⟩
    have := h.fresh j' job' i h1 h3 h4
    omega
  · refine ⟨(h.fresh j job i hge hj hi).2, fun j' job' h1 h2 h3 h4 => ?_⟩
    have := h.inj j j' job job' i hge h1 hj h3 hi h4
    rcases hv with hv | hv
    · omega
    · exact h2 (this ▸ hv)

theorem Eff.mono {own : List Nat} {w w' : World} (e : Eff [] w w') : Eff own w w' := by
  cases e with
  | same hm hj => exact .same hm hj
  | alloc m wf hm hj => exact .alloc m wf hm hj
  | job b hb hm hj => exact .job b hb hm hj
  | make j ho => cases ho
  | write j ho => cases ho

theorem Eff.frame_self {w0 w w' : World} {own : List Nat} (e : Eff [] w w') (hk : w'.kvs = w.kvs) (hs : w'.sinks = w.sinks) (h : Mem w0 w)
    (ho' : ∀ j ∈ own, j < w.jobs.length) : Frame w0 own w w' := e.frame hk hs h (by simp) ho' (by simp)

/-! ## A goroutine -/

/-- the goroutine's jobs are as the specification says. -/
def EnvRel (w : World) (own : List Nat) (env : List JobInfo) : Prop :=
  List.Forall₂ (fun j p => ∃ job, w.jobs[j]? = some job ∧ job.name = p.1 ∧ ∀ k, lookup (w.deref job.kvs) k = p.2 k) own env

theorem EnvRel.frame {w0 w w' : World} {own : List Nat} {env : List JobInfo} (h : EnvRel w own env) (f : Frame w0 own w w') (hm : Mem w0 w) (h0 : World.Ok w0) :
    EnvRel w' own env := by
  unfold EnvRel at *
  have key : ∀ (l : List Nat) (e : List JobInfo), (∀ j ∈ l, j ∈ own) →
      List.Forall₂ (fun j p => ∃ job, w.jobs[j]? = some job ∧ job.name = p.1 ∧ ∀ k, lookup (w.deref job.kvs) k = p.2 k) l e →
      List.Forall₂ (fun j p => ∃ job, w'.jobs[j]? = some job ∧ job.name = p.1 ∧ ∀ k, lookup (w'.deref job.kvs) k = p.2 k) l e := by
    intro l e hl h
    induction h with
    | nil => exact .nil
    | @cons j p _ _ h1 _ ih =>
      refine .cons ?_ (ih (fun x hx => hl x (by simp [hx])))
      obtain ⟨job, e1, e2, e3⟩ := h1
      have hv : j < w0.jobs.length ∨ j ∈ own := .inr (hl j (by simp))
      exact ⟨job, by rw [f.jobs j hv]; exact e1, e2, fun k => by rw [(f.safe _ (hm.safe_job h0 e1 hv)).2]; exact e3 k⟩
  exact key own env (fun _ h => h) h

/-- the call with its error wrapped. -/
def Wrapped (c c0 : World.Call) : Prop :=
  (∃ ev e e0 tr, c = .eventErr ev e tr ∧ c0 = .eventErr ev e0 tr ∧ e.message = e0.message) ∨ (c = c0 ∧ ∀ ev e tr, c ≠ .eventErr ev e tr)

/-- a call that emits is under way: statement `m`; `S`, `J`, `I`: the contents of the maps of stream, job, call. -/
structure Em (w0 w : World) (own : List Nat) (x : Ctx) (m : Stmt) (job : Job) (S J I : Option (GoMap Str Str)) : Prop where
  vis : x.job < w0.jobs.length ∨ x.job ∈ own
  found : w.jobs[x.job]? = some job
  name : job.name = m.1
  stream : w.deref w.kvs = S
  jobKv : w.deref job.kvs = J
  inst : w.deref x.inst = I
  safe : Safe w0 w own x.inst
  prec : ∀ k, m.2.2 k = precedence I J S k
  call : Wrapped x.call m.2.1
  flag : ∀ id, flagOf x.call = some id → id ∉ w.emitted

theorem Em.frame {w0 w w' : World} {own : List Nat} {x : Ctx} {m : Stmt} {job : Job} {S J I : Option (GoMap Str Str)} (h : Em w0 w own x m job S J I)
    (f : Frame w0 own w w') (hm : Mem w0 w) (h0 : World.Ok w0) (hf : ∀ id, flagOf x.call = some id → id ∉ w.emitted → id ∉ w'.emitted) : Em w0 w' own x m job S J I :=
  ⟨h.vis, by rw [f.jobs _ h.vis]; exact h.found, h.name, by rw [f.kvs, (f.safe _ (hm.safe_stream h0 own)).2]; exact h.stream,
    by rw [(f.safe _ (hm.safe_job h0 h.found h.vis)).2]; exact h.jobKv, by rw [(f.safe _ h.safe).2]; exact h.inst, (f.safe _ h.safe).1, h.prec, h.call,
    fun id hid => hf id hid (h.flag id hid)⟩

/-- `len(m)`. -/
def size (m : Option (GoMap Str Str)) : Nat := (m.map List.length).getD 0

/-- the local variables of `mergedKeyValues` are as they should be. -/
def Merging (x : Ctx) (jobKvs streamKvs : MapRef) (S J : Option (GoMap Str Str)) : Pc → Prop
  | .lenJob x' => x' = x
  | .lenStream x' n all => x' = x ∧ n = (if size J > 0 then 1 else 0) ∧ all = (if size J > 0 then jobKvs else none)
  | .lenInst x' n all => x' = x ∧ n = (if size J > 0 then 1 else 0) + (if size S > 0 then 1 else 0) ∧
      all = (if size S > 0 then streamKvs else if size J > 0 then jobKvs else none)
  | .copyStream x' => x' = x
  | .copyJob x' m => x' = x ∧ m = World.copyInto [] (S.getD [])
  | .copyInst x' m => x' = x ∧ m = World.copyInto (World.copyInto [] (S.getD [])) (J.getD [])
  | _ => False

/-- the statements of the calls to come. -/
def toCome (w0 : World) (env : List JobInfo) (todo : List Op) : List Stmt :=
  told (lookup (w0.deref w0.kvs)) (w0.jobs.map (fun j => (j.name, lookup (w0.deref j.kvs)))) env todo

/-- where the goroutine with program `prog` is, having made `calls`. -/
inductive TInv (w0 w : World) (prog : List Op) (t : Thread) (calls : List SinkCall) : Prop where
  | idle (env : List JobInfo) (D : List (Nat × Stmt)) (hpc : t.pc = .idle) (he : EnvRel w t.own env) (hd : Disciplined w0.jobs.length t.own.length t.todo)
      (hx : D ++ toEach w0.sinks (toCome w0 env t.todo) = toEach w0.sinks (toldIn w0 prog)) (hc : List.Forall₂ TellsTo D calls)
  | kv (env : List JobInfo) (D : List (Nat × Stmt)) (i j : Nat) (k v : Str) (hi : t.own[i]? = some j)
      (hpc : t.pc = .kvTest (.job j) k v ∨ (t.pc = .kvMake (.job j) k v ∧ getField w (.job j) = none) ∨ (t.pc = .kvSet (.job j) k v ∧ ∃ r, getField w (.job j) = some r))
      (he : EnvRel w t.own env) (hd : Disciplined w0.jobs.length t.own.length t.todo)
      (hx : D ++ toEach w0.sinks (toCome w0 (env.modify i (fun p => (p.1, fun k' => if k' = k then some v else p.2 k'))) t.todo) = toEach w0.sinks (toldIn w0 prog))
      (hc : List.Forall₂ TellsTo D calls)
  | merging (env : List JobInfo) (D : List (Nat × Stmt)) (x : Ctx) (m : Stmt) (job : Job) (S J I : Option (GoMap Str Str)) (hm : Em w0 w t.own x m job S J I)
      (hpc : Merging x job.kvs w0.kvs S J t.pc)
      (he : EnvRel w t.own env) (hd : Disciplined w0.jobs.length t.own.length t.todo)
      (hx : D ++ toEach w0.sinks (m :: toCome w0 env t.todo) = toEach w0.sinks (toldIn w0 prog)) (hc : List.Forall₂ TellsTo D calls)
  | calling (env : List JobInfo) (D : List (Nat × Stmt)) (x : Ctx) (m : Stmt) (job : Job) (S J I : Option (GoMap Str Str)) (hm : Em w0 w t.own x m job S J I)
      (kvs : MapRef) (called rest : List Nat) (hpc : (t.pc = .range x kvs ∧ called = []) ∨ t.pc = .call x kvs rest) (hs : Safe w0 w t.own kvs)
      (hl : ∀ k, lookup (w.deref kvs) k = m.2.2 k) (hk : w0.sinks = called ++ rest)
      (he : EnvRel w t.own env) (hd : Disciplined w0.jobs.length t.own.length t.todo)
      (hx : D ++ toEach w0.sinks (m :: toCome w0 env t.todo) = toEach w0.sinks (toldIn w0 prog))
      (hc : List.Forall₂ TellsTo (D ++ called.map (fun s => (s, m))) calls)

/-- the error that the goroutine is reporting. -/
def pcFlag (t : Thread) : Option Nat :=
  match t.pc with
  | .lenJob x | .lenStream x _ _ | .lenInst x _ _ | .copyStream x | .copyJob x _ | .copyInst x _ | .range x _ | .call x _ _ => flagOf x.call
  | _ => none

theorem Merging.flag {x : Ctx} {a b : MapRef} {S J : Option (GoMap Str Str)} {t : Thread} (h : Merging x a b S J t.pc) : pcFlag t = flagOf x.call := by
  unfold pcFlag
  cases hp : t.pc <;> rw [hp] at h <;> simp only [Merging] at h
  · rw [h]
  · rw [h.1]
  · rw [h.1]
  · rw [h]
  · rw [h.1]
  · rw [h.1]

/-- steps of other goroutines do not matter. -/
theorem TInv.frame {w0 w w' : World} {prog : List Op} {t : Thread} {calls : List SinkCall} (h : TInv w0 w prog t calls) (f : Frame w0 t.own w w') (hm : Mem w0 w)
    (h0 : World.Ok w0) (hf : ∀ id, pcFlag t = some id → id ∉ w.emitted → id ∉ w'.emitted) : TInv w0 w' prog t calls := by
  cases h with
  | idle env D hpc he hd hx hc => exact .idle env D hpc (he.frame f hm h0) hd hx hc
  | kv env D i j k v hi hpc he hd hx hc =>
    have hg : getField w' (.job j) = getField w (.job j) := by
      simp only [getField]; rw [f.jobs j (.inr (List.mem_of_getElem? hi))]
    exact .kv env D i j k v hi (by rw [hg]; exact hpc) (he.frame f hm h0) hd hx hc
  | merging env D x m job S J I hem hpc he hd hx hc =>
    exact .merging env D x m job S J I (hem.frame f hm h0 (fun id hid => hf id (by rw [hpc.flag]; exact hid))) hpc (he.frame f hm h0) hd hx hc
  | calling env D x m job S J I hem kvs called rest hpc hs hl hk he hd hx hc =>
    have hfl : pcFlag t = flagOf x.call := by
      unfold pcFlag
      rcases hpc with ⟨hpc, _⟩ | hpc <;> rw [hpc]
    refine .calling env D x m job S J I (hem.frame f hm h0 (fun id hid => hf id (by rw [hfl]; exact hid))) kvs called rest hpc (f.safe _ hs).1 ?_ hk (he.frame f hm h0) hd hx hc
    rw [(f.safe _ hs).2]; exact hl

/-! ## A step of a goroutine -/

theorem wrapCall_spec (w : World) (c : World.Call) (hn : NewErr c) :
    (wrapCall w c).1.maps = w.maps ∧ (wrapCall w c).1.jobs = w.jobs ∧ (wrapCall w c).1.kvs = w.kvs ∧ (wrapCall w c).1.sinks = w.sinks ∧
    (wrapCall w c).1.emitted = w.emitted ∧ w.nextErr ≤ (wrapCall w c).1.nextErr ∧ Wrapped (wrapCall w c).2 c ∧
    ∀ id, flagOf (wrapCall w c).2 = some id → id = w.nextErr ∧ (wrapCall w c).1.nextErr = w.nextErr + 1 := by
  cases c with
  | eventErr ev e tr =>
    cases e with
    | unmuted id i st => exact hn.elim
    | nil => exact ⟨rfl, rfl, rfl, rfl, rfl, Nat.le_succ _, .inl ⟨ev, _, _, tr, rfl, rfl, rfl⟩, fun id h => ⟨by simp [wrapCall, World.wrapErr, flagOf] at h; omega, rfl⟩⟩
    | other m => exact ⟨rfl, rfl, rfl, rfl, rfl, Nat.le_succ _, .inl ⟨ev, _, _, tr, rfl, rfl, rfl⟩, fun id h => ⟨by simp [wrapCall, World.wrapErr, flagOf] at h; omega, rfl⟩⟩
    | muted i => exact ⟨rfl, rfl, rfl, rfl, rfl, Nat.le_refl _, .inl ⟨ev, _, _, tr, rfl, rfl, rfl⟩, fun id h => by simp [wrapCall, World.wrapErr, flagOf] at h⟩
  | event ev => exact ⟨rfl, rfl, rfl, rfl, rfl, Nat.le_refl _, .inr ⟨rfl, by simp [wrapCall]⟩, fun id h => by simp [wrapCall, flagOf] at h⟩
  | timing ev n => exact ⟨rfl, rfl, rfl, rfl, rfl, Nat.le_refl _, .inr ⟨rfl, by simp [wrapCall]⟩, fun id h => by simp [wrapCall, flagOf] at h⟩
  | gauge ev v => exact ⟨rfl, rfl, rfl, rfl, rfl, Nat.le_refl _, .inr ⟨rfl, by simp [wrapCall]⟩, fun id h => by simp [wrapCall, flagOf] at h⟩
  | complete st => exact ⟨rfl, rfl, rfl, rfl, rfl, Nat.le_refl _, .inr ⟨rfl, by simp [wrapCall]⟩, fun id h => by simp [wrapCall, flagOf] at h⟩

theorem literal_spec (w : World) (kvs : Option (GoMap Str Str)) (hw : ∀ m, kvs = some m → GoMap.Wf m) :
    Eff [] w (literal w kvs).1 ∧ (literal w kvs).1.kvs = w.kvs ∧ (literal w kvs).1.sinks = w.sinks ∧ (literal w kvs).1.emitted = w.emitted ∧
    (literal w kvs).1.nextErr = w.nextErr ∧ (literal w kvs).1.jobs = w.jobs ∧ (literal w kvs).1.deref (literal w kvs).2 = kvs ∧
    ∀ i, (literal w kvs).2 = some i → i = w.maps.length ∧ i < (literal w kvs).1.maps.length := by
  cases kvs with
  | none => exact ⟨.same rfl rfl, rfl, rfl, rfl, rfl, rfl, rfl, fun i hi => by cases hi⟩
  | some m =>
    refine ⟨.alloc m (hw m rfl) rfl rfl, rfl, rfl, rfl, rfl, rfl, by simp [literal, World.newMap, World.deref], fun i hi => ?_⟩
    simp only [literal, World.newMap, Option.some.injEq] at hi
    subst hi
    exact ⟨rfl, by simp [literal, World.newMap]⟩

theorem lookup_getD (m : Option (GoMap Str Str)) (k : Str) : (m.getD []).get? k = lookup m k := by
  cases m <;> rfl

theorem lookup_empty {m : Option (GoMap Str Str)} (h : ¬ size m > 0) (k : Str) : lookup m k = none := by
  cases m with
  | none => rfl
  | some m =>
    cases m with
    | nil => rfl
    | cons => simp [size] at h

theorem merged_get {S J I : Option (GoMap Str Str)} (hS : ∀ m, S = some m → GoMap.Wf m) (hJ : ∀ m, J = some m → GoMap.Wf m) (hI : ∀ m, I = some m → GoMap.Wf m) (k : Str) :
    (World.copyInto (World.copyInto (World.copyInto [] (S.getD [])) (J.getD [])) (I.getD [])).get? k = precedence I J S k := by
  have wf : ∀ {M : Option (GoMap Str Str)}, (∀ m, M = some m → GoMap.Wf m) → GoMap.Wf (M.getD []) := by
    intro M h
    cases M with
    | none => exact GoMap.Wf.nil
    | some m => exact h m rfl
  rw [World.copyInto_get? _ _ (wf hI), World.copyInto_get? _ _ (wf hJ), World.copyInto_get? _ _ (wf hS), lookup_getD, lookup_getD, lookup_getD]
  unfold precedence
  cases lookup I k with
  | some v => rfl
  | none =>
    cases lookup J k with
    | some v => rfl
    | none =>
      cases lookup S k with
      | some v => rfl
      | none => rfl

/-- what a step of a goroutine does to the rest. -/
structure Moves (w : World) (t : Thread) (w' : World) (t' : Thread) : Prop where
  eff : Eff t.own w w'
  kvs : w'.kvs = w.kvs
  sinks : w'.sinks = w.sinks
  own : (t'.own = t.own ∧ w'.jobs.length = w.jobs.length) ∨ (t'.own = t.own ++ [w.jobs.length] ∧ w'.jobs.length = w.jobs.length + 1)
  next : w.nextErr ≤ w'.nextErr
  emitted : ∀ id ∈ w'.emitted, id ∈ w.emitted ∨ pcFlag t = some id
  flag : ∀ id, pcFlag t' = some id → pcFlag t = some id ∨ (w.nextErr ≤ id ∧ id < w'.nextErr)

theorem Moves.pure {w : World} {t t' : Thread} (ho : t'.own = t.own) (hf : ∀ id, pcFlag t' = some id → pcFlag t = some id) : Moves w t w t' :=
  ⟨.same rfl rfl, rfl, rfl, .inl ⟨ho, rfl⟩, Nat.le_refl _, fun _ h => .inl h, fun id h => .inl (hf id h)⟩

theorem wf_deref {w0 w : World} (h : Mem w0 w) (r : MapRef) (m : GoMap Str Str) (hm : w.deref r = some m) : GoMap.Wf m := by
  cases r with
  | none => cases hm
  | some i => exact h.wf m (List.mem_of_getElem? (by simpa [World.deref] using hm))

end Concurrent
