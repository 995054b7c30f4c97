import Verif.Lemmas.Sep
import Verif.Lemmas.Aggregation
/-! What the objects of an aggregation in memory stand for, and that every operation does there what it does to the values. -/
namespace Mem

theorem Entails.of_eq {P Q : Assn} (h : P = Q) : P ⊢ₛ Q := fun _ hp => h ▸ hp
theorem Entails.refl (P : Assn) : P ⊢ₛ P := fun _ hp => hp
theorem Entails.trans {P Q R : Assn} (h1 : P ⊢ₛ Q) (h2 : Q ⊢ₛ R) : P ⊢ₛ R := fun p hp => h2 p (h1 p hp)

/-- the part left over when something is forgotten. -/
def anything : Assn := fun _ => True

theorem Triple.drop {α : Type} {q : Part} {P : Assn} {m : Cmd α} {Q : α → Assn} (ht : Triple q P m (fun r => Q r ∗ anything)) :
    Triple q P m Q := by
  intro h p hp hd hi hq
  obtain ⟨r, h', _, e, ⟨p1, p2, h1, _, _, rfl⟩, hi', hf, hn⟩ := ht h p hp hd hi hq
  refine ⟨r, h', p1, e, h1, hi'.left, hf, fun x hx => hn x ?_⟩
  unfold Part.dom Part.union at *
  cases h1 : p1 x <;> simp_all

theorem Triple.emp {α : Type} {q : Part} {P : Assn} {m : Cmd α} {Q : α → Assn} (h : Triple q emp m Q) : Triple q P m (fun r => P ∗ Q r) :=
  h.frame' P (Entails.of_eq (emp_sep P).symm) (fun _ => Entails.of_eq (sep_comm _ _))

/-! ## Single steps -/
section Steps
variable {β : Type} {q : Part} {G : Assn} {R : β → Assn}

theorem step_alloc {c : Cell} {f : Addr → Cmd β} (h : ∀ a, Triple q (a ↦ c ∗ G) (f a) R) : Triple q G (alloc c >>= f) R :=
  ((Triple.alloc c).frame' G (Entails.of_eq (emp_sep G).symm) (fun _ => Entails.refl _)).bind h

theorem step_store {a : Addr} {c c' : Cell} {f : Unit → Cmd β} (h : Triple q (a ↦ c' ∗ G) (f ()) R) :
    Triple q (a ↦ c ∗ G) (store a c' >>= f) R := (Triple.store.frame G).bind (fun _ => h)

theorem end_store {a : Addr} {c c' : Cell} : Triple q (a ↦ c ∗ G) (store a c') (fun _ => a ↦ c' ∗ G) := Triple.store.frame G

theorem step_load {a : Addr} {c : Cell} {f : Cell → Cmd β} (h : Triple q (a ↦ c ∗ G) (f c) R) : Triple q (a ↦ c ∗ G) (load a >>= f) R := by
  refine (Triple.load.frame G).bind (fun r => ?_)
  rw [sep_assoc]
  exact Triple.lift (fun e => e ▸ h)

theorem step_read {a : Addr} {c : Cell} {f : Cell → Cmd β} (ha : q a = some c) (h : Triple q G (f c) R) : Triple q G (load a >>= f) R := by
  refine ((Triple.read ha).frame' G (Entails.of_eq (emp_sep G).symm) (fun _ => Entails.refl _)).bind (fun r => ?_)
  exact Triple.lift (fun e => e ▸ h)

theorem bind_assoc {α γ : Type} (m : Cmd α) (f : α → Cmd γ) (g : γ → Cmd β) : (m >>= f) >>= g = m >>= fun a => f a >>= g := by
  funext h
  show ((m h).bind _).bind _ = (m h).bind _
  cases m h <;> rfl
theorem pure_bind {α : Type} (a : α) (f : α → Cmd β) : (pure a : Cmd α) >>= f = f a := rfl

theorem step_loadRefs {a : Addr} {m : GoMap Str Addr} {f : GoMap Str Addr → Cmd β} (h : Triple q (a ↦ .refs m ∗ G) (f m) R) :
    Triple q (a ↦ .refs m ∗ G) (loadRefs a >>= f) R := by
  unfold loadRefs; rw [bind_assoc]; exact step_load h
theorem read_loadRefs {a : Addr} {m : GoMap Str Addr} {f : GoMap Str Addr → Cmd β} (ha : q a = some (.refs m)) (h : Triple q G (f m) R) :
    Triple q G (loadRefs a >>= f) R := by
  unfold loadRefs; rw [bind_assoc]; exact step_read ha h
theorem step_loadInts {a : Addr} {m : GoMap Str Int} {f : GoMap Str Int → Cmd β} (h : Triple q (a ↦ .ints m ∗ G) (f m) R) :
    Triple q (a ↦ .ints m ∗ G) (loadInts a >>= f) R := by
  unfold loadInts; rw [bind_assoc]; exact step_load h
theorem read_loadInts {a : Addr} {m : GoMap Str Int} {f : GoMap Str Int → Cmd β} (ha : q a = some (.ints m)) (h : Triple q G (f m) R) :
    Triple q G (loadInts a >>= f) R := by
  unfold loadInts; rw [bind_assoc]; exact step_read ha h
theorem step_loadFloats {a : Addr} {m : GoMap Str F64} {f : GoMap Str F64 → Cmd β} (h : Triple q (a ↦ .floats m ∗ G) (f m) R) :
    Triple q (a ↦ .floats m ∗ G) (loadFloats a >>= f) R := by
  unfold loadFloats; rw [bind_assoc]; exact step_load h
theorem read_loadFloats {a : Addr} {m : GoMap Str F64} {f : GoMap Str F64 → Cmd β} (ha : q a = some (.floats m)) (h : Triple q G (f m) R) :
    Triple q G (loadFloats a >>= f) R := by
  unfold loadFloats; rw [bind_assoc]; exact step_read ha h
theorem step_loadTimer {a : Addr} {t : TimerAgg} {f : TimerAgg → Cmd β} (h : Triple q (a ↦ .timer t ∗ G) (f t) R) :
    Triple q (a ↦ .timer t ∗ G) (loadTimer a >>= f) R := by
  unfold loadTimer; rw [bind_assoc]; exact step_load h
theorem read_loadTimer {a : Addr} {t : TimerAgg} {f : TimerAgg → Cmd β} (ha : q a = some (.timer t)) (h : Triple q G (f t) R) :
    Triple q G (loadTimer a >>= f) R := by
  unfold loadTimer; rw [bind_assoc]; exact step_read ha h
theorem step_loadErrs {a : Addr} {t : ErrorCounter} {f : ErrorCounter → Cmd β} (h : Triple q (a ↦ .errs t ∗ G) (f t) R) :
    Triple q (a ↦ .errs t ∗ G) (loadErrs a >>= f) R := by
  unfold loadErrs; rw [bind_assoc]; exact step_load h
theorem read_loadErrs {a : Addr} {t : ErrorCounter} {f : ErrorCounter → Cmd β} (ha : q a = some (.errs t)) (h : Triple q G (f t) R) :
    Triple q G (loadErrs a >>= f) R := by
  unfold loadErrs; rw [bind_assoc]; exact step_read ha h
theorem step_loadJob {a : Addr} {ms : Maps} {t : TimerAgg} {c : Counts} {f : Maps × TimerAgg × Counts → Cmd β}
    (h : Triple q (a ↦ .job ms t c ∗ G) (f (ms, t, c)) R) : Triple q (a ↦ .job ms t c ∗ G) (loadJob a >>= f) R := by
  unfold loadJob; rw [bind_assoc]; exact step_load h
theorem read_loadJob {a : Addr} {ms : Maps} {t : TimerAgg} {c : Counts} {f : Maps × TimerAgg × Counts → Cmd β}
    (ha : q a = some (.job ms t c)) (h : Triple q G (f (ms, t, c)) R) : Triple q G (loadJob a >>= f) R := by
  unfold loadJob; rw [bind_assoc]; exact step_read ha h
theorem step_loadInt {a : Addr} {s : Time} {n : Int} {j : Addr} {ms : Maps} {f : Time × Int × Addr × Maps → Cmd β}
    (h : Triple q (a ↦ .int s n j ms ∗ G) (f (s, n, j, ms)) R) : Triple q (a ↦ .int s n j ms ∗ G) (loadInt a >>= f) R := by
  unfold loadInt; rw [bind_assoc]; exact step_load h
theorem read_loadInt {a : Addr} {s : Time} {n : Int} {j : Addr} {ms : Maps} {f : Time × Int × Addr × Maps → Cmd β}
    (ha : q a = some (.int s n j ms)) (h : Triple q G (f (s, n, j, ms)) R) : Triple q G (loadInt a >>= f) R := by
  unfold loadInt; rw [bind_assoc]; exact step_read ha h
theorem step_loadArray {a : Addr} {l : List Addr} {f : List Addr → Cmd β} (h : Triple q (a ↦ .array l ∗ G) (f l) R) :
    Triple q (a ↦ .array l ∗ G) (loadArray a >>= f) R := by
  unfold loadArray; rw [bind_assoc]; exact step_load h
end Steps

/-! ## Maps of pointers -/

/-- the pointers of `m` point to objects that stand for the values of `vs`, all different. -/
def refsR {V : Type} (P : Addr → V → Assn) : GoMap Str Addr → GoMap Str V → Assn
  | [], [] => emp
  | (k, a) :: m, (k', v) :: vs => lift (k = k') ∗ P a v ∗ refsR P m vs
  | _, _ => fun _ => False

def ptrMapR {V : Type} (P : Addr → V → Assn) (a : Addr) (vs : GoMap Str V) : Assn := ex fun m => a ↦ .refs m ∗ refsR P m vs

section Refs
variable {V W : Type} {P : Addr → V → Assn}

theorem refsR_get {m : GoMap Str Addr} {vs : GoMap Str V} {p : Part} {k : Str} (h : refsR P m vs p) :
    (m.get? k = none ∧ vs.get? k = none) ∨ ∃ b v G, m.get? k = some b ∧ vs.get? k = some v ∧ (P b v ∗ G) p ∧
      ∀ v', P b v' ∗ G ⊢ₛ refsR P m (vs.set k v') := by
  induction m generalizing vs p with
  | nil =>
    cases vs with
    | nil => exact .inl ⟨rfl, rfl⟩
    | cons a t => exact absurd h (by unfold refsR; simp)
  | cons x m ih =>
    obtain ⟨k0, a⟩ := x
    cases vs with
    | nil => exact absurd h (by unfold refsR; simp)
    | cons y vs =>
      obtain ⟨k', v⟩ := y
      rw [refsR, lift_sep] at h
      obtain ⟨rfl, h⟩ := h
      by_cases hk : k0 = k
      · subst hk
        right
        refine ⟨a, v, refsR P m vs, by simp [GoMap.get?], by simp [GoMap.get?], h, fun v' p hp => ?_⟩
        simp only [GoMap.set, if_true, refsR]
        exact lift_sep.2 ⟨trivial, hp⟩
      · obtain ⟨p1, p2, h1, h2, hd, rfl⟩ := h
        rcases ih h2 with ⟨e1, e2⟩ | ⟨b, w, G, e1, e2, h3, h4⟩
        · left; simp [GoMap.get?, hk, e1, e2]
        · right
          refine ⟨b, w, P a v ∗ G, by simp [GoMap.get?, hk, e1], by simp [GoMap.get?, hk, e2], ?_, fun v' p hp => ?_⟩
          · rw [sep_left_comm]
            exact ⟨p1, p2, h1, h3, hd, rfl⟩
          · simp only [GoMap.set, if_neg hk, refsR]
            refine lift_sep.2 ⟨trivial, ?_⟩
            rw [sep_left_comm] at hp
            exact sep_mono (Entails.refl _) (h4 v') p hp

theorem refsR_set {m : GoMap Str Addr} {vs : GoMap Str V} {k : Str} {b : Addr} {v : V} :
    refsR P m vs ∗ P b v ⊢ₛ refsR P (m.set k b) (vs.set k v) ∗ anything := by
  induction m generalizing vs with
  | nil =>
    cases vs with
    | nil =>
      intro p hp
      rw [refsR, emp_sep] at hp
      refine ⟨p, .empty, ?_, trivial, fun _ => .inr rfl, (Part.union_empty p).symm⟩
      simp only [GoMap.set, refsR]
      rw [sep_emp]
      exact lift_sep.2 ⟨trivial, hp⟩
    | cons a t =>
      rintro p ⟨p1, p2, h, _⟩
      exact absurd h (by unfold refsR; simp)
  | cons x m ih =>
    obtain ⟨k0, a⟩ := x
    cases vs with
    | nil =>
      rintro p ⟨p1, p2, h, _⟩
      exact absurd h (by unfold refsR; simp)
    | cons y vs =>
      obtain ⟨k', w⟩ := y
      intro p hp
      rw [refsR, sep_assoc, lift_sep] at hp
      obtain ⟨rfl, hp⟩ := hp
      by_cases hk : k0 = k
      · subst hk
        simp only [GoMap.set, if_true, refsR]
        rw [sep_assoc]
        refine lift_sep.2 ⟨trivial, ?_⟩
        have : (P b v ∗ refsR P m vs) ∗ P a w ⊢ₛ (P b v ∗ refsR P m vs) ∗ anything := sep_mono (Entails.refl _) (fun _ _ => trivial)
        refine this p ?_
        refine Entails.of_eq ?_ p hp
        ac_rfl
      · simp only [GoMap.set, if_neg hk, refsR]
        rw [sep_assoc]
        refine lift_sep.2 ⟨trivial, ?_⟩
        have : P a w ∗ (refsR P m vs ∗ P b v) ⊢ₛ P a w ∗ (refsR P (GoMap.set m k b) (GoMap.set vs k v) ∗ anything) := sep_mono (Entails.refl _) ih
        rw [sep_assoc]
        refine this p ?_
        refine Entails.of_eq ?_ p hp
        ac_rfl

/-- storing a pointer to a new object in a map of pointers. -/
theorem put_spec {β : Type} {q : Part} {a : Addr} {m : GoMap Str Addr} {vs : GoMap Str V} {k : Str} {b : Addr} {v : V} {G : Assn} {f : Unit → Cmd β}
    {R : β → Assn} (h : Triple q (a ↦ .refs (m.set k b) ∗ refsR P (m.set k b) (vs.set k v) ∗ G) (f ()) R) :
    Triple q (a ↦ .refs m ∗ refsR P m vs ∗ P b v ∗ G) (store a (.refs (m.set k b)) >>= f) R := by
  refine Triple.bind (Triple.drop (end_store.conseq (Entails.refl _) ?_)) (fun _ => h)
  intro _ p hp
  have h1 : a ↦ .refs (m.set k b) ∗ refsR P m vs ∗ P b v ∗ G = (refsR P m vs ∗ P b v) ∗ (a ↦ .refs (m.set k b) ∗ G) := by ac_rfl
  rw [h1] at hp
  have h2 := sep_mono (refsR_set (k := k)) (Entails.refl _) p hp
  refine Entails.of_eq ?_ p h2
  ac_rfl

theorem put_end {q : Part} {a : Addr} {m : GoMap Str Addr} {vs : GoMap Str V} {k : Str} {b : Addr} {v : V} :
    Triple q (a ↦ .refs m ∗ refsR P m vs ∗ P b v) (store a (.refs (m.set k b))) (fun _ => ptrMapR P a (vs.set k v)) := by
  refine Triple.drop (end_store.conseq (Entails.refl _) ?_)
  intro _ p hp
  have h1 : a ↦ .refs (m.set k b) ∗ refsR P m vs ∗ P b v = (refsR P m vs ∗ P b v) ∗ a ↦ .refs (m.set k b) := by ac_rfl
  rw [h1] at hp
  have h2 := sep_mono (refsR_set (k := k)) (Entails.refl _) p hp
  have h3 : (refsR P (m.set k b) (vs.set k v) ∗ anything) ∗ a ↦ .refs (m.set k b) ⊢ₛ (a ↦ .refs (m.set k b) ∗ refsR P (m.set k b) (vs.set k v)) ∗ anything :=
    Entails.of_eq (by ac_rfl)
  exact sep_mono (fun p hp => ⟨_, hp⟩) (Entails.refl _) p (h3 p h2)

theorem GoMap.set_set {K V : Type} [DecidableEq K] (m : GoMap K V) (k : K) (v w : V) : (m.set k v).set k w = m.set k w := by
  induction m with
  | nil => simp [GoMap.set]
  | cons p t ih =>
    obtain ⟨a, b⟩ := p
    by_cases h : a = k
    · simp [GoMap.set, h]
    · simp [GoMap.set, h, ih]

/-- the map with a hole for the object found. -/
def Found (P : Addr → V → Assn) (a : Addr) (vs : GoMap Str V) (k : Str) (v0 : V) (b : Addr) : Assn :=
  ex fun G => lift (∀ v', P b v' ∗ G ⊢ₛ ptrMapR P a (vs.set k v')) ∗ P b ((vs.get? k).getD v0) ∗ G

theorem found_spec {q : Part} {a : Addr} {m : GoMap Str Addr} {vs : GoMap Str V} {k : Str} {v0 : V} {b : Addr} (hb : m.get? k = some b) :
    Triple q (a ↦ .refs m ∗ refsR P m vs) (pure b : Cmd Addr) (Found P a vs k v0) := by
  refine (Triple.pure (Q := Found P a vs k v0) b).conseq ?_ (fun _ => Entails.refl _)
  rintro p ⟨p1, p2, h1, h2, hd, rfl⟩
  rcases refsR_get (k := k) h2 with ⟨e, _⟩ | ⟨b', v, G, e, e', h3, h4⟩
  · rw [hb] at e; cases e
  · rw [hb] at e
    cases e
    refine ⟨a ↦ .refs m ∗ G, lift_sep.2 ⟨fun v' p hp => ⟨m, ?_⟩, ?_⟩⟩
    · rw [sep_left_comm] at hp
      exact sep_mono (Entails.refl _) (h4 v') p hp
    · rw [e', sep_left_comm]
      exact ⟨p1, p2, h1, h3, hd, rfl⟩

theorem getOrCreate_spec {q : Part} {make : Cmd Addr} {v0 : V} (hmake : Triple q emp make (fun b => P b v0)) (a : Addr) (vs : GoMap Str V) (k : Str) :
    Triple q (ptrMapR P a vs) (getOrCreate a k make) (Found P a vs k v0) := by
  refine Triple.ex (fun m => ?_)
  unfold getOrCreate
  refine step_loadRefs ?_
  cases hk : m.get? k with
  | none =>
    dsimp only
    intro h p hp hd hi hq
    have hkv : vs.get? k = none := by
      obtain ⟨p1, p2, _, h2, _⟩ := hp
      rcases refsR_get (k := k) h2 with ⟨_, e⟩ | ⟨b, v, G, e, _⟩
      · exact e
      · rw [hk] at e; cases e
    refine Triple.bind (Q := fun b => a ↦ .refs m ∗ refsR P m vs ∗ P b v0 ∗ emp) (f := fun b => do
      let m ← loadRefs a
      store a (.refs (m.set k b))
      pure b) ?_ (fun b => ?_) h p hp hd hi hq
    · refine (Triple.emp hmake).conseq (Entails.refl _) (fun b => Entails.of_eq ?_)
      rw [sep_emp, sep_assoc]
    · refine step_loadRefs (put_spec ?_)
      rw [sep_emp]
      refine (found_spec (k := k) (v0 := v0) (by rw [GoMap.get?_set]; simp)).conseq (Entails.refl _) (fun b' => Entails.of_eq ?_)
      unfold Found
      rw [GoMap.get?_set, hkv]
      simp only [if_true, Option.getD_some, Option.getD_none, GoMap.set_set]
  | some b => exact found_spec hk

/-- look up or make an object, then change it. -/
theorem update_spec {q : Part} {make : Cmd Addr} {v0 : V} {f : Addr → Cmd Unit} {g : V → V} (hmake : Triple q emp make (fun b => P b v0))
    (hf : ∀ b v, Triple q (P b v) (f b) (fun _ => P b (g v))) (a : Addr) (vs : GoMap Str V) (k : Str) :
    Triple q (ptrMapR P a vs) (getOrCreate a k make >>= f) (fun _ => ptrMapR P a (vs.set k (g ((vs.get? k).getD v0)))) := by
  refine (getOrCreate_spec hmake a vs k).bind (fun b => Triple.ex (fun G => Triple.lift (fun hG => ?_)))
  exact ((hf b _).frame G).conseq (Entails.refl _) (fun _ => hG _)

/-- `for k, v := range l`. -/
theorem forEach_spec {α β : Type} {q : Part} {f : α → Cmd Unit} {I : β → Assn} {g : β → α → β} (l : List α)
    (hf : ∀ x ∈ l, ∀ b, Triple q (I b) (f x) (fun _ => I (g b x))) (b : β) : Triple q (I b) (forEach l f) (fun _ => I (l.foldl g b)) := by
  induction l generalizing b with
  | nil => exact Triple.pure (Q := fun _ => I b) ()
  | cons x t ih => exact (hf x (by simp) b).bind (fun _ => ih (fun y hy => hf y (by simp [hy])) _)

/-- the pointers of `m` point to objects that can be read as the values of `vs`. -/
def Match (I : Addr → V → Prop) (m : GoMap Str Addr) (vs : GoMap Str V) : Prop := List.Forall₂ (fun x y => x.1 = y.1 ∧ I x.2 y.2) m vs

/-- `for k, v := range m`, where the objects of `m` can be read as `vs`. -/
theorem forEachRefs_spec {β : Type} {q : Part} {J : Addr → V → Prop} {f : Str × Addr → Cmd Unit} {I : β → Assn} {g : β → Str × V → β} {m : GoMap Str Addr}
    {vs : GoMap Str V} (hm : Match J m vs) (hf : ∀ k a v, J a v → ∀ b, Triple q (I b) (f (k, a)) (fun _ => I (g b (k, v)))) (b : β) :
    Triple q (I b) (forEach m f) (fun _ => I (vs.foldl g b)) := by
  unfold Match at hm
  induction hm generalizing b with
  | nil => exact Triple.pure (Q := fun _ => I b) ()
  | @cons x y m vs h _ ih =>
    obtain ⟨k, a⟩ := x
    obtain ⟨k', v⟩ := y
    obtain ⟨rfl, h⟩ := h
    exact (hf _ a v h b).bind (fun _ => ih _)

theorem cloneRefs_spec {V' : Type} {P' : Addr → V' → Assn} {q : Part} {J : Addr → V → Prop} {clone : Addr → Cmd Addr} {cl : V → V'} {m : GoMap Str Addr}
    {vs : GoMap Str V} (hm : Match J m vs)
    (hc : ∀ a v, J a v → Triple q emp (clone a) (fun c => P' c (cl v))) (dup : Addr) (acc : GoMap Str V') :
    Triple q (ptrMapR P' dup acc) (cloneRefs dup m clone) (fun _ => ptrMapR P' dup (vs.foldl (fun m p => m.set p.1 (cl p.2)) acc)) := by
  refine forEachRefs_spec (g := fun m p => m.set p.1 (cl p.2)) hm (fun k a v ha b => ?_) acc
  dsimp only
  refine Triple.bind (Triple.emp (hc a v ha)) (fun c => ?_)
  unfold ptrMapR
  rw [ex_sep]
  refine Triple.ex (fun d => ?_)
  rw [sep_assoc]
  refine step_loadRefs ?_
  exact put_end

/-- one step of a merge of maps. -/
def mergeVal (mg : V → V → V) (cl : V → V) (m : GoMap Str V) (p : Str × V) : GoMap Str V :=
  match m.get? p.1 with
  | some existing => m.set p.1 (mg existing p.2)
  | none => m.set p.1 (cl p.2)

theorem mergeRefs_spec {q : Part} {J : Addr → V → Prop} {merge : Addr → Addr → Cmd Unit} {clone : Addr → Cmd Addr} {mg : V → V → V} {cl : V → V}
    {m : GoMap Str Addr} {ws : GoMap Str V} (hm : Match J m ws)
    (hc : ∀ a v, J a v → Triple q emp (clone a) (fun c => P c (cl v)))
    (hmg : ∀ a v, J a v → ∀ b u, Triple q (P b u) (merge b a) (fun _ => P b (mg u v))) (into : Addr) (vs : GoMap Str V) :
    Triple q (ptrMapR P into vs) (mergeRefs into m merge clone) (fun _ => ptrMapR P into (ws.foldl (mergeVal mg cl) vs)) := by
  refine forEachRefs_spec (I := fun vs => ptrMapR P into vs) hm (fun k a v ha b => ?_) vs
  refine Triple.ex (fun d => ?_)
  dsimp only
  refine step_loadRefs ?_
  intro h p hp hd hi hq
  have hp' := hp
  obtain ⟨p1, p2, h1, h2, hd', rfl⟩ := hp'
  unfold mergeVal
  dsimp only
  rcases refsR_get (k := k) h2 with ⟨e, e'⟩ | ⟨b', u, G, e, e', h3, h4⟩
  · rw [e, e']
    dsimp only
    refine Triple.bind (f := fun c => do
      let d ← loadRefs into
      store into (.refs (d.set k c))) (Triple.emp (hc a v ha)) (fun c => ?_) h _ hp hd hi hq
    rw [sep_assoc]
    refine step_loadRefs ?_
    exact put_end
  · rw [e, e']
    dsimp only
    refine ((hmg a v ha b' u).frame (into ↦ .refs d ∗ G)).conseq (Entails.refl _) (fun _ p hp => ⟨d, ?_⟩) h _ ?_ hd hi hq
    · rw [sep_left_comm]
      exact ⟨p1, p2, h1, h3, hd', rfl⟩
    · rw [sep_left_comm] at hp
      exact sep_mono (Entails.refl _) (h4 _) p hp
end Refs

end Mem
