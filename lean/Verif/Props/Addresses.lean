import Verif.Model.Addresses
import Verif.Spec.Addresses
import Verif.Props.Healthtop
import Verif.Props.HealthdMain
/-!
# How the programs find each other (C88)
-/
open Spec Addr Healthtop Api

namespace Addr

theorem takeWhile_stop {p : UInt8 → Bool} : ∀ (a : Str) (c : UInt8) (b : Str), (∀ x ∈ a, p x = true) → p c = false → (a ++ c :: b).takeWhile p = a ∧ (a ++ c :: b).dropWhile p = c :: b := by
  intro a c b h hc
  induction a with
  | nil => simp [hc]
  | cons x t ih =>
    have := ih (fun y hy => h y (by simp [hy]))
    simp [h x (by simp), this]

theorem takeWhile_all {p : UInt8 → Bool} : ∀ (a : Str), (∀ x ∈ a, p x = true) → a.takeWhile p = a ∧ a.dropWhile p = [] := by
  intro a h
  induction a with
  | nil => simp
  | cons x t ih => simp [h x (by simp), ih (fun y hy => h y (by simp [hy]))]

/-- reading a URL made of its parts. -/
theorem request_of (source path : Str) (q : Str) (hs : PlainHost source) (hp : (63 : UInt8) ∉ path) :
    request (bs "http://" ++ source ++ (47 :: path) ++ (63 :: q)) = some ⟨source, 47 :: path, q⟩ ∧
    request (bs "http://" ++ source ++ (47 :: path)) = some ⟨source, 47 :: path, []⟩ := by
  have h7 : (bs "http://").length = 7 := by decide
  have hall : ∀ x ∈ source, (decide (x ≠ 47 ∧ x ≠ 63)) = true := by
    intro x hx
    simp only [decide_eq_true_eq]
    exact ⟨fun e => hs.1 (e ▸ hx), fun e => hs.2 (e ▸ hx)⟩
  have hpa : ∀ x ∈ (47 :: path : Str), (decide (x ≠ 63)) = true := by
    intro x hx
    simp only [decide_eq_true_eq]
    rintro rfl
    simp only [List.mem_cons] at hx
    exact hx.elim (by decide) hp
  constructor
  · have e : bs "http://" ++ source ++ (47 :: path) ++ (63 :: q) = bs "http://" ++ (source ++ 47 :: (path ++ 63 :: q)) := by simp
    unfold request
    rw [e, if_pos (by simp), List.drop_left' h7]
    obtain ⟨a1, a2⟩ := takeWhile_stop (p := fun c => decide (c ≠ 47 ∧ c ≠ 63)) source 47 (path ++ 63 :: q) hall (by decide)
    obtain ⟨b1, b2⟩ := takeWhile_stop (p := fun c => decide (c ≠ 63)) (47 :: path) 63 q hpa (by decide)
    simp only [List.cons_append] at b1 b2
    simp only [a1, a2, b1, b2, List.drop_one, List.tail_cons]
  · have e : bs "http://" ++ source ++ (47 :: path) = bs "http://" ++ (source ++ 47 :: path) := by simp
    unfold request
    rw [e, if_pos (by simp), List.drop_left' h7]
    obtain ⟨a1, a2⟩ := takeWhile_stop (p := fun c => decide (c ≠ 47 ∧ c ≠ 63)) source 47 path hall (by decide)
    obtain ⟨b1, b2⟩ := takeWhile_all (p := fun c => decide (c ≠ 63)) (47 :: path) hpa
    simp only [a1, a2, b1, b2, List.drop_one, List.tail_nil]

theorem split_last (h p : Str) (hp : (58 : UInt8) ∉ p) : cutLast (h ++ [58] ++ p) = some (h, p) := by
  unfold cutLast
  rw [if_pos (by simp)]
  have e : (h ++ [58] ++ p).reverse = p.reverse ++ 58 :: h.reverse := by simp
  obtain ⟨a1, a2⟩ := takeWhile_stop (p := fun c => decide (c ≠ 58)) p.reverse 58 h.reverse (by
    intro x hx
    simp only [decide_eq_true_eq]
    rintro rfl
    exact hp (by simpa using hx)) (by decide)
  rw [e, a1, a2]
  simp

theorem cut_exists {s : Str} (h : (58 : UInt8) ∈ s) : ∃ a b, s = a ++ [58] ++ b ∧ (58 : UInt8) ∉ b := by
  induction s with
  | nil => cases h
  | cons c t ih =>
    by_cases ht : (58 : UInt8) ∈ t
    · obtain ⟨a, b, e, hb⟩ := ih ht
      exact ⟨c :: a, b, by rw [e]; simp, hb⟩
    · have : c = 58 := by
        rcases List.mem_cons.1 h with h | h
        · exact h.symm
        · exact absurd h ht
      exact ⟨[], t, by rw [this]; simp, ht⟩

end Addr

/-! ## The requests of healthtop -/

/-- C88: the request for jobs goes to the address given by `--source`, and healthd answers it with the list of jobs, sorted as asked and limited to the rows of the
screen. -/
theorem C88_jobs (c : Choices) (identifier : Str) (zone : Nat → Int → Int) (v : View) (source : Str) (hs : PlainHost source) (o : Opts) (height : Int) (hh : height < 2 ^ 63) :
    ∃ r, request (jobsUri source o height) = some r ∧ r.authority = source ∧
      ∃ limit, getLimit limit = (if o.name = [] then max (height - 2) 3 else 0) ∧ serve c identifier zone v r = respond c identifier zone v o.sort limit .jobs := by
  have hpath : bs "/healthd/jobs" = 47 :: bs "healthd/jobs" := by decide
  have hq : (63 : UInt8) ∉ bs "healthd/jobs" := by decide
  have hend : endpoint (47 :: bs "healthd/jobs") = .jobs := by decide
  obtain ⟨h1, h2⟩ := C73_request o height hh
  unfold askedSort at h1
  unfold askedLimit at h2
  obtain ⟨r1, r2⟩ := request_of source (bs "healthd/jobs") (Query.encode (params o height)) hs hq
  by_cases hp : Query.encode (params o height) = []
  · refine ⟨⟨source, 47 :: bs "healthd/jobs", []⟩, ?_, rfl, _, h2, ?_⟩
    · unfold jobsUri queryString
      simp only [hp, if_true, List.append_nil, hpath]
      exact r2
    · unfold serve
      simp only [hend, hp] at h1 ⊢
      rw [h1]
  · refine ⟨⟨source, 47 :: bs "healthd/jobs", Query.encode (params o height)⟩, ?_, rfl, _, h2, ?_⟩
    · unfold jobsUri queryString
      simp only [hp, if_false, hpath]
      exact r1
    · unfold serve
      simp only [hend]
      rw [h1]

example : PlainHost defaultSource ∧ request (jobsUri defaultSource ⟨bs "count", []⟩ 40) = some ⟨bs "localhost:5032", bs "/healthd/jobs", bs "limit=38&sort=count"⟩ := by
  refine ⟨⟨by decide, by decide⟩, by decide +kernel⟩

/-- C88: the request for hosts goes to the same address and gets the list of hosts. -/
theorem C88_hosts (c : Choices) (identifier : Str) (zone : Nat → Int → Int) (v : View) (source : Str) (hs : PlainHost source) :
    ∃ r, request (hostsUri source) = some r ∧ r.authority = source ∧ serve c identifier zone v r = respond c identifier zone v [] [] .hosts := by
  have hpath : bs "/healthd/hosts" = 47 :: bs "healthd/hosts" := by decide
  have hend : endpoint (47 :: bs "healthd/hosts") = .hosts := by decide
  obtain ⟨_, r2⟩ := request_of source (bs "healthd/hosts") [] hs (by decide)
  refine ⟨_, by unfold hostsUri; rw [hpath]; exact r2, rfl, ?_⟩
  unfold serve
  simp only [hend]
  rfl

/-- C88: healthd asks every host it monitors for "/health", without parameters, at the address under which it lists the host. -/
theorem C88_metrics (hostPort : Str) (hs : PlainHost hostPort) : request (Healthd.metricsUrl hostPort) = some ⟨hostPort, bs "/health", []⟩ := by
  have hpath : bs "/health" = 47 :: bs "health" := by decide
  unfold Healthd.metricsUrl
  rw [hpath]
  exact (request_of hostPort (bs "health") [] hs (by decide)).2

/-- C88: the handler sees the text that healthtop was given, although the URL itself consists of harmless characters only: letters, digits and `-_.~` for themselves, and
`+ % = &`. -/
theorem C88_url (o : Opts) (height : Int) : ∀ c ∈ Query.encode (params o height), c ∈ bs "ABCDEFGHIJKLMNOPQRSTUVWXYZabcdefghijklmnopqrstuvwxyz0123456789-_.~+%=&" := by
  have hesc : ∀ s : Str, ∀ c ∈ Query.escape s, c ∈ bs "ABCDEFGHIJKLMNOPQRSTUVWXYZabcdefghijklmnopqrstuvwxyz0123456789-_.~+%=&" := by
    intro s c hc
    unfold Query.escape at hc
    rw [List.mem_flatMap] at hc
    obtain ⟨x, _, hx⟩ := hc
    have all : ∀ n : Fin 256, ∀ c ∈ (if UInt8.ofNat n = 32 then [43] else if Query.plain (UInt8.ofNat n) then [UInt8.ofNat n] else
        [37, Query.upperHex (UInt8.ofNat n / 16), Query.upperHex (UInt8.ofNat n % 16)] : Str),
        c ∈ bs "ABCDEFGHIJKLMNOPQRSTUVWXYZabcdefghijklmnopqrstuvwxyz0123456789-_.~+%=&" := by decide +kernel
    have := all ⟨x.toNat, x.toNat_lt⟩ c
    simp only [UInt8.ofNat_toNat] at this
    exact this hx
  have hpair : ∀ p, ∀ c ∈ Query.pair p, c ∈ bs "ABCDEFGHIJKLMNOPQRSTUVWXYZabcdefghijklmnopqrstuvwxyz0123456789-_.~+%=&" := by
    intro p c hc
    unfold Query.pair at hc
    rcases List.mem_append.1 hc with hc | hc
    · rcases List.mem_append.1 hc with hc | hc
      · exact hesc _ c hc
      · rw [List.mem_singleton.1 hc]; decide +kernel
    · exact hesc _ c hc
  have henc : ∀ l, ∀ c ∈ Query.encode l, c ∈ bs "ABCDEFGHIJKLMNOPQRSTUVWXYZabcdefghijklmnopqrstuvwxyz0123456789-_.~+%=&" := by
    intro l
    induction l with
    | nil => simp [Query.encode]
    | cons p t ih =>
      cases t with
      | nil => exact hpair p
      | cons q t =>
        intro c hc
        rw [Query.encode] at hc
        rcases List.mem_append.1 hc with hc | hc
        · rcases List.mem_append.1 hc with hc | hc
          · exact hpair _ c hc
          · rw [List.mem_singleton.1 hc]; decide +kernel
        · exact ih c hc
  exact henc _

/-- harmless text is sent as it is. -/
theorem C88_url_plain (s : Str) : Query.escape s = s ↔ ∀ c ∈ s, c ∈ bs "ABCDEFGHIJKLMNOPQRSTUVWXYZabcdefghijklmnopqrstuvwxyz0123456789-_.~" := by
  have all : ∀ n : Fin 256, (Query.plain (UInt8.ofNat n) = true ∧ UInt8.ofNat n ≠ 32 ↔
      UInt8.ofNat n ∈ bs "ABCDEFGHIJKLMNOPQRSTUVWXYZabcdefghijklmnopqrstuvwxyz0123456789-_.~") := by decide +kernel
  have hpl : ∀ c : UInt8, (Query.plain c = true ∧ c ≠ 32 ↔ c ∈ bs "ABCDEFGHIJKLMNOPQRSTUVWXYZabcdefghijklmnopqrstuvwxyz0123456789-_.~") := by
    intro c
    have := all ⟨c.toNat, c.toNat_lt⟩
    simpa only [UInt8.ofNat_toNat] using this
  induction s with
  | nil => simp [Query.escape]
  | cons x t ih =>
    have e : Query.escape (x :: t) = (if x = 32 then [43] else if Query.plain x then [x] else [37, Query.upperHex (x / 16), Query.upperHex (x % 16)]) ++ Query.escape t := by
      simp [Query.escape]
    have hlen : ∀ t : Str, t.length ≤ (Query.escape t).length := by
      intro t
      induction t with
      | nil => simp
      | cons y t ih =>
        have e : Query.escape (y :: t) = (if y = 32 then [43] else if Query.plain y then [y] else [37, Query.upperHex (y / 16), Query.upperHex (y % 16)]) ++ Query.escape t := by
          simp [Query.escape]
        rw [e, List.length_append, List.length_cons]
        split
        · simp; omega
        · split <;> simp <;> omega
    rw [e]
    simp only [List.mem_cons, forall_eq_or_imp, ← hpl x, ← ih]
    constructor
    · intro h
      split at h
      · next h32 =>
        simp only [List.cons_append, List.nil_append, List.cons.injEq] at h
        exact absurd (h32 ▸ h.1) (by decide)
      · next h32 =>
        split at h
        · next hx =>
          simp only [List.cons_append, List.nil_append, List.cons.injEq, true_and] at h
          exact ⟨⟨hx, h32⟩, h⟩
        · exfalso
          have := congrArg List.length h
          simp only [List.length_append, List.length_cons, List.length_nil] at this
          have := hlen t
          omega
    · rintro ⟨⟨h1, h2⟩, h3⟩
      rw [if_neg h2, if_pos h1, h3]
      rfl

example : Query.escape (bs "a b/&ü") = bs "a+b%2F%26%C3%BC" := by decide +kernel

/-! ## Whether they arrive -/

/-- C88: healthtop reaches a healthd that was told to listen at a port on all interfaces, or at the same address.  (Both addresses have to be given, or `--source`
left out and `HEALTHD_SERVER_HOSTPORT` given as the README says, `:5032`.) -/
theorem C88_configured_partial (net : Net) (env : Str → Str) (port : Str) (hp : (58 : UInt8) ∉ port) :
    (env (bs "HEALTHD_SERVER_HOSTPORT") = [58] ++ port → Reaches net (HealthdMain.getServerHostPort env) (bs "localhost" ++ [58] ++ port)) ∧
    (∀ host n, net.ip host = some n → net.own n → env (bs "HEALTHD_SERVER_HOSTPORT") = host ++ [58] ++ port →
      Reaches net (HealthdMain.getServerHostPort env) (host ++ [58] ++ port)) := by
  constructor
  · intro he
    obtain ⟨n, h1, _, h2⟩ := net.localhost
    unfold HealthdMain.getServerHostPort
    simp only [he]
    exact ⟨[], _, port, hp, by simp, rfl, n, h1, h2, .inl rfl⟩
  · intro host n h1 h2 he
    unfold HealthdMain.getServerHostPort
    simp only [he]
    rw [if_neg (by simp)]
    exact ⟨host, host, port, hp, rfl, rfl, n, h1, h2, .inr h1⟩

/-- the README's example for local development works with healthtop's default. -/
example (net : Net) (env : Str → Str) (he : env (bs "HEALTHD_SERVER_HOSTPORT") = bs ":5032") : Reaches net (HealthdMain.getServerHostPort env) defaultSource :=
  (C88_configured_partial net env (bs "5032") (by decide)).1 (by rw [he]; decide)

theorem Addr.port_unique {h h' p p' : Str} (hp : (58 : UInt8) ∉ p) (hp' : (58 : UInt8) ∉ p') (e : h ++ [58] ++ p = h' ++ [58] ++ p') : h = h' ∧ p = p' := by
  have := congrArg cutLast e
  rw [split_last h p hp, split_last h' p' hp'] at this
  simpa using this

/-- C88 is false of the defaults: started without settings, healthd listens at port 5031, where healthtop, started without `--source`, does not look for it, whatever
the machines. -/
theorem C88_default_false (net : Net) (env : Str → Str) (he : env (bs "HEALTHD_SERVER_HOSTPORT") = []) :
    ¬ Reaches net (HealthdMain.getServerHostPort env) defaultSource := by
  unfold HealthdMain.getServerHostPort
  rw [he, if_pos rfl]
  rintro ⟨lh, dh, port, hp, h1, h2, _⟩
  have e1 : bs ":5031" = [] ++ [58] ++ bs "5031" := by decide
  have e2 : defaultSource = bs "localhost" ++ [58] ++ bs "5032" := by decide
  rw [e1] at h1
  rw [e2] at h2
  have a := Addr.port_unique (by decide) hp h1
  have b := Addr.port_unique (by decide) hp h2
  rw [← a.2] at b
  exact absurd b.2 (by decide)

example : ∃ env : Str → Str, env (bs "HEALTHD_SERVER_HOSTPORT") = [] ∧ HealthdMain.start env ≠ none := ⟨Sample.env, by decide +kernel, by decide +kernel⟩
/-- reachable at all: with `--source=localhost:5031`. -/
example (net : Net) : Reaches net (HealthdMain.getServerHostPort (fun _ => [])) (bs "localhost:5031") := by
  obtain ⟨n, h1, _, h2⟩ := net.localhost
  exact ⟨[], bs "localhost", bs "5031", by decide, by decide, by decide, n, h1, h2, .inl rfl⟩

/-! ## The two servers of healthd -/

/-- C88: how an address is read: exactly as a host without colons and brackets, a colon and a port, or as a host in brackets, which may have colons, a colon and a port. -/
theorem C88_split_iff (s h p : Str) : splitHostPort s = some (h, p) ↔ IsHostPort s h p := by
  unfold splitHostPort IsHostPort
  constructor
  · intro e
    split at e
    · cases e
    · rename_i pre port hc
      have hs : (58 : UInt8) ∈ s := by
        by_contra hn
        unfold cutLast at hc
        rw [if_neg hn] at hc
        cases hc
      obtain ⟨a, b, rfl, hb⟩ := cut_exists hs
      rw [split_last a b hb] at hc
      cases hc
      split at e
      · simp only at e
        split at e <;> [skip; cases e]
        rename_i hh
        obtain ⟨h1, h2, h3, h4⟩ := hh
        cases e
        have h5 : (93 : UInt8) ∉ (pre.drop 1).takeWhile (fun x => decide (x ≠ 93)) := by
          intro hm
          have := List.all_eq_true.1 (List.all_takeWhile (p := fun x : UInt8 => decide (x ≠ 93)) (l := pre.drop 1)) _ hm
          simp at this
        exact .inr ⟨by conv_lhs => rw [h1], h2, h5, hb, h3, h4⟩
      · split at e <;> [cases e; skip]
        rename_i hh
        cases e
        push Not at hh
        exact .inl ⟨rfl, hh.1, hh.2.1, hh.2.2.1, hb, hh.2.2.2.1, hh.2.2.2.2⟩
  · rintro (⟨rfl, h1, h2, h3, h4, h5, h6⟩ | ⟨rfl, h2, h3, h4, h5, h6⟩)
    · rw [split_last h p h4]
      simp only
      rw [if_neg, if_neg]
      · simp [h1, h2, h3, h5, h6]
      · intro hc
        cases h with
        | nil => cases hc
        | cons c t => cases hc; exact h2 (by simp)
    · rw [split_last _ p h4]
      have ht : ((91 :: (h ++ [93]) : Str).drop 1).takeWhile (fun x => decide (x ≠ 93)) = h := by
        have := (takeWhile_stop (p := fun c => decide (c ≠ 93)) h 93 [] (by
          intro x hx
          simp only [decide_eq_true_eq]
          rintro rfl
          exact h3 hx) (by decide)).1
        simpa using this
      simp only
      rw [if_pos (by simp), ht, if_pos ⟨rfl, h2, h5, h6⟩]

/-- C88: healthd serves both its API and its own metrics if their ports differ. -/
theorem C88_both (a a' h h' p p' : Str) (ha : IsHostPort a h p) (ha' : IsHostPort a' h' p') (hne : p ≠ p') : listening [a, a'] = [a, a'] := by
  have hn : a ≠ [] := by rintro rfl; rcases ha with ⟨e, _⟩ | ⟨e, _⟩ <;> simp at e
  have hn' : a' ≠ [] := by rintro rfl; rcases ha' with ⟨e, _⟩ | ⟨e, _⟩ <;> simp at e
  rw [← C88_split_iff] at ha ha'
  simp [listening, clash, listenAddr, ha, ha', hne, hn, hn']

/-- C88: a server whose address is neither empty (port 80) nor of that form does not run, whatever else runs, and nothing is said about it: json_polling_sink_http.go:17 and healthd/api.go:94
ignore the error. -/
theorem C88_malformed (a : Str) (as : List Str) (h : a ∈ listening as) : a = [] ∨ ∃ host port, IsHostPort a host port := by
  induction as with
  | nil => cases h
  | cons b t ih =>
    unfold listening at h
    split at h
    · rename_i hb
      rcases List.mem_cons.1 h with h | h
      · obtain ⟨⟨x, y⟩, e⟩ := Option.isSome_iff_exists.1 hb
        subst h
        by_cases hn : a = []
        · exact .inl hn
        · rw [listenAddr, if_neg hn] at e
          exact .inr ⟨x, y, (C88_split_iff _ _ _).1 e⟩
      · exact ih (List.mem_filter.1 h).1
    · exact ih h

/-- an IPv6 address in brackets is fine; without brackets, or a port without colon, is not. -/
example : IsHostPort (bs "[::1]:5031") (bs "::1") (bs "5031") ∧ IsHostPort (bs ":5031") [] (bs "5031") ∧
    listening [bs "5030", bs "::1:5031", bs "[::1]:5031", bs ":5032"] = [bs "[::1]:5031", bs ":5032"] := by
  refine ⟨(C88_split_iff _ _ _).1 (by decide +kernel), (C88_split_iff _ _ _).1 (by decide +kernel), by decide +kernel⟩

/-- C88 is false with the settings of the README's example (README.md:309): the API is to listen at port 5030 and healthd's own metrics, by default, are at port 5030 on all
interfaces.  Whichever server starts first, the other one does not run, and nothing is said about it. -/
theorem C88_readme_false (env : Str → Str) (he : env (bs "HEALTHD_SERVER_HOSTPORT") = bs "10.18.23.132:5030") (hh : env (bs "HEALTH_HOSTPORT") = []) :
    listening [HealthdMain.getHealthHostPort env, HealthdMain.getServerHostPort env] = [HealthdMain.getHealthHostPort env] ∧
    listening [HealthdMain.getServerHostPort env, HealthdMain.getHealthHostPort env] = [HealthdMain.getServerHostPort env] := by
  unfold HealthdMain.getHealthHostPort HealthdMain.getServerHostPort
  rw [he, hh]
  decide +kernel

example : ∃ env : Str → Str, env (bs "HEALTHD_SERVER_HOSTPORT") = bs "10.18.23.132:5030" ∧ env (bs "HEALTH_HOSTPORT") = [] :=
  ⟨fun n => if n = bs "HEALTHD_SERVER_HOSTPORT" then bs "10.18.23.132:5030" else [], by decide +kernel, by decide +kernel⟩

/-- C88 is false of the paths that README.md:319-322 gives: `/jobs` and the others without `/healthd` are not found, whatever healthd holds. -/
theorem C88_paths_false (c : Choices) (identifier : Str) (zone : Nat → Int → Int) (v : View) (authority query path : Str)
    (h : path ∈ [bs "/jobs", bs "/aggregations", bs "/aggregations/overall", bs "/hosts"]) :
    (serve c identifier zone v ⟨authority, path, query⟩).code = 404 := by
  have : endpoint path = .notFound := by
    have all : ∀ p ∈ [bs "/jobs", bs "/aggregations", bs "/aggregations/overall", bs "/hosts"], endpoint p = .notFound := by decide +kernel
    exact all path h
  unfold serve
  simp only [this]
  rfl
