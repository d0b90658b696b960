import Verif.Asgi.Lemmas
/-! # The ASGI applications: properties C41, C42, C55 and C58 -/
namespace Verif.Asgi
open Verif.Markup (splitOn put get del)

variable {C A L : Type}

/-- A middleware for the examples; component constructors are named by their paths. -/
def demo : Server Str Nat where
  kind := .middleware
  pathPrefix := "/reactpy/".toList
  rootPaths := ["app.main".toList, "app.other".toList]
  importPath := id

def demoScope : Scope := ⟨.websocket, "/reactpy/app.main/".toList, []⟩

section C41
variable (parseQuery : Str → Option L) (s : Server C A) (sc : Scope)

/-- **C41.**  With the middleware, whatever its prefix, component code runs only for a websocket whose path is something
the prefix stands for, then the name of a registered component, then `/` (and perhaps a newline); and the component is
the registered one of that name. -/
theorem C41_only_registered (hk : s.kind = .middleware) {c : C} {l : L} (h : s.rendered parseQuery sc = some (c, l)) :
    sc.type = .websocket ∧ ∃ d ∈ s.rootPaths, c = s.importPath d ∧
      ∃ q, Stands s.pathPrefix q ∧ (sc.path = q ++ d ++ ['/'] ∨ sc.path = q ++ d ++ ['/', '\n']) := by
  simp only [Server.rendered] at h
  cases hr : s.route sc with
  | dispatcher =>
    rw [hr] at h
    have ht : sc.type = .websocket := by
      simp only [Server.route] at hr
      split at hr
      · rename_i h; exact h.1
      · split at hr
        · cases hr
        · split at hr
          · cases hr
          · split at hr <;> cases hr
    refine ⟨ht, ?_⟩
    simp only [Server.component, hk] at h
    cases hd : dispatcherMatch s.pathPrefix sc.path with
    | none => rw [hd] at h; cases h
    | some d =>
      rw [hd] at h
      simp only [find_root] at h
      obtain ⟨_, _, q, r, hq, hr, hp⟩ := dispatcherMatch_some hd
      by_cases hm : d ∈ s.rootPaths
      · rw [if_pos hm] at h
        cases hl : parseQuery sc.query with
        | none => rw [hl] at h; cases h
        | some l' =>
          rw [hl] at h
          cases h
          refine ⟨d, hm, rfl, q, hq, ?_⟩
          rcases atEnd_iff.1 hr with rfl | rfl
          · exact .inl hp
          · exact .inr hp
      · rw [if_neg hm] at h; cases h
  | static => rw [hr] at h; cases h
  | modules => rw [hr] at h; cases h
  | extra a => rw [hr] at h; cases h
  | app => rw [hr] at h; cases h

/-- **C41.**  For a prefix without special characters the components that run are exactly the registered ones whose name
is in the path, for connections with a well-formed query string. -/
theorem C41_served_iff (hk : s.kind = .middleware) (hp : '.' ∉ s.pathPrefix) (c : C) (l : L) :
    s.rendered parseQuery sc = some (c, l) ↔
      sc.type = .websocket ∧ parseQuery sc.query = some l ∧ ∃ d ∈ s.rootPaths, c = s.importPath d ∧ d ≠ [] ∧ (∀ c ∈ d, NameChar c) ∧
        (sc.path = s.pathPrefix ++ d ++ ['/'] ∨ sc.path = s.pathPrefix ++ d ++ ['/', '\n']) := by
  constructor
  · intro h
    obtain ⟨ht, _⟩ := C41_only_registered parseQuery s sc hk h
    simp only [Server.rendered] at h
    cases hr : s.route sc with
    | dispatcher =>
      rw [hr] at h
      simp only [Server.component, hk] at h
      cases hd : dispatcherMatch s.pathPrefix sc.path with
      | none => rw [hd] at h; cases h
      | some d =>
        rw [hd] at h
        simp only [find_root] at h
        by_cases hm : d ∈ s.rootPaths
        · rw [if_pos hm] at h
          cases hl : parseQuery sc.query with
          | none => rw [hl] at h; cases h
          | some l' =>
            rw [hl] at h
            cases h
            obtain ⟨h1, h2, h3⟩ := (dispatcherMatch_iff hp).1 hd
            exact ⟨ht, rfl, d, hm, rfl, h1, isDotted_iff.1 h2, h3⟩
        · rw [if_neg hm] at h; cases h
    | static => rw [hr] at h; cases h
    | modules => rw [hr] at h; cases h
    | extra a => rw [hr] at h; cases h
    | app => rw [hr] at h; cases h
  · rintro ⟨ht, hl, d, hm, rfl, h1, h2, h3⟩
    have hd := (dispatcherMatch_iff hp).2 ⟨h1, isDotted_iff.2 h2, h3⟩
    have hr : s.route sc = .dispatcher := by
      simp only [Server.route]
      rw [if_pos ⟨ht, by simp only [Server.matchDispatch, hk, hd]; rfl⟩]
    simp only [Server.rendered, hr, Server.component, hk, hd, find_root, if_pos hm, hl]

example : demo.rendered (fun q => some q) demoScope = some ("app.main".toList, []) := by decide +kernel
example : demo.rendered (fun q => some q) ⟨.websocket, "/reactpy/os.system/".toList, []⟩ = none := by decide +kernel

/-- **C41.**  The standalone application runs only its root component, and exactly for websockets at the prefix with a
well-formed query string. -/
theorem C41_standalone (root : C) (hk : s.kind = .standalone root) (c : C) (l : L) :
    s.rendered parseQuery sc = some (c, l) ↔
      c = root ∧ sc.type = .websocket ∧ sc.path = s.pathPrefix ∧ parseQuery sc.query = some l := by
  have hdisp : s.route sc = .dispatcher ↔ sc.type = .websocket ∧ sc.path = s.pathPrefix := by
    simp only [Server.route, Server.matchDispatch, hk, decide_eq_true_eq]
    constructor
    · intro h
      split at h
      · assumption
      · split at h
        · cases h
        · split at h
          · cases h
          · split at h <;> cases h
    · intro h; rw [if_pos h]
  constructor
  · intro h
    simp only [Server.rendered] at h
    cases hr : s.route sc with
    | dispatcher =>
      obtain ⟨h1, h2⟩ := hdisp.1 hr
      rw [hr] at h
      simp only [Server.component, hk] at h
      cases hl : parseQuery sc.query with
      | none => rw [hl] at h; cases h
      | some l' => rw [hl] at h; cases h; exact ⟨rfl, h1, h2, rfl⟩
    | static => rw [hr] at h; cases h
    | modules => rw [hr] at h; cases h
    | extra a => rw [hr] at h; cases h
    | app => rw [hr] at h; cases h
  · rintro ⟨rfl, h1, h2, hl⟩
    simp only [Server.rendered, hdisp.2 ⟨h1, h2⟩, Server.component, hk, hl]

/-- **C41.**  The client-side application never runs component code on the server. -/
theorem C41_csr (hk : s.kind = .csr) : s.rendered parseQuery sc = none := by
  have hr : s.route sc ≠ .dispatcher := by
    simp only [Server.route, Server.matchDispatch, hk]
    split
    · rename_i h; cases h.2
    · split
      · simp
      · split
        · simp
        · split <;> simp
  simp only [Server.rendered]

end C41

section C42
variable (s : Server C A) (sc : Scope)

theorem static_modules_disjoint {path : Str} (h1 : s.staticPath <+: path) (h2 : s.modulesPath <+: path) : False := by
  obtain ⟨r1, h1⟩ := h1
  obtain ⟨r2, h2⟩ := h2
  rw [← h2, Server.staticPath, Server.modulesPath, List.append_assoc, List.append_assoc] at h1
  have := List.append_cancel_left h1
  have e1 : "static/".toList = ['s', 't', 'a', 't', 'i', 'c', '/'] := by decide +kernel
  have e2 : "modules/".toList = ['m', 'o', 'd', 'u', 'l', 'e', 's', '/'] := by decide +kernel
  rw [e1, e2] at this
  simp at this

/-- **C42.**  Who handles a request: the dispatcher exactly the websockets at a dispatch path; the static files exactly
the HTTP requests under `static/`; the web modules exactly those under `modules/`; of the rest, a user's route exactly
what it is the first to match, and the user's application everything else. -/
theorem C42_routing (a : A) :
    (s.route sc = .dispatcher ↔ sc.type = .websocket ∧ s.DispatchPath sc.path) ∧
    (s.route sc = .static ↔ sc.type = .http ∧ s.pathPrefix ++ "static/".toList <+: sc.path) ∧
    (s.route sc = .modules ↔ sc.type = .http ∧ s.pathPrefix ++ "modules/".toList <+: sc.path) ∧
    (s.route sc = .extra a ↔ ¬ (sc.type = .websocket ∧ s.DispatchPath sc.path) ∧
      ¬ (sc.type = .http ∧ (s.pathPrefix ++ "static/".toList <+: sc.path ∨ s.pathPrefix ++ "modules/".toList <+: sc.path)) ∧
      s.OwnRoute sc a) ∧
    (s.route sc = .app ↔ ¬ (sc.type = .websocket ∧ s.DispatchPath sc.path) ∧
      ¬ (sc.type = .http ∧ (s.pathPrefix ++ "static/".toList <+: sc.path ∨ s.pathPrefix ++ "modules/".toList <+: sc.path)) ∧
      ∀ b, ¬ s.OwnRoute sc b) := by
  rw [← matchExtra_some, ← matchExtra_none, ← matchDispatch_iff]
  have dis := @static_modules_disjoint C A s sc.path
  have h1 := List.isPrefixOf_iff_prefix (l₁ := s.staticPath) (l₂ := sc.path)
  have h2 := List.isPrefixOf_iff_prefix (l₁ := s.modulesPath) (l₂ := sc.path)
  simp only [Server.staticPath, Server.modulesPath] at dis h1 h2
  simp only [Server.route, Server.staticPath, Server.modulesPath, h1, h2]
  by_cases hd : sc.type = .websocket ∧ s.matchDispatch sc.path = true
  · simp [hd]
  · by_cases hs : sc.type = .http ∧ s.pathPrefix ++ "static/".toList <+: sc.path
    · have hn : ¬ (s.pathPrefix ++ "modules/".toList <+: sc.path) := fun h => dis hs.2 h
      rw [if_neg hd, if_pos hs]
      simp only [hs.1, hs.2, hn, and_true, or_false, true_and]
      simp
    · by_cases hm : sc.type = .http ∧ s.pathPrefix ++ "modules/".toList <+: sc.path
      · have hn : ¬ (s.pathPrefix ++ "static/".toList <+: sc.path) := fun h => dis h hm.2
        rw [if_neg hd, if_neg hs, if_pos hm]
        simp only [hm.1, hm.2, hn]
        simp
      · rw [if_neg hd, if_neg hs, if_neg hm]
        have hsm : ¬ (sc.type = .http ∧ (s.pathPrefix ++ "static/".toList <+: sc.path ∨ s.pathPrefix ++ "modules/".toList <+: sc.path)) := by
          rintro ⟨h1, h2 | h2⟩
          · exact hs ⟨h1, h2⟩
          · exact hm ⟨h1, h2⟩
        simp only [hd, hs, hm, hsm, not_false_eq_true, true_and, iff_false]
        cases s.matchExtra sc <;> simp

example : demo.route ⟨.http, "/reactpy/static/index.js".toList, []⟩ = .static := by decide +kernel
example : demo.route ⟨.http, "/reactpy/other".toList, []⟩ = .app := by decide +kernel
example : demo.route demoScope = .dispatcher := by decide +kernel

/-- **C42.**  A request whose path does not begin with the prefix reaches a user's route or the user's application, for
prefixes without special characters. -/
theorem C42_outside_partial (hp : '.' ∉ s.pathPrefix) (h : ¬ s.pathPrefix <+: sc.path) :
    s.route sc = .app ∨ ∃ a, s.route sc = .extra a := by
  have hpre : ∀ {t}, s.pathPrefix ++ t <+: sc.path → False := by
    rintro t ⟨r, hr⟩
    exact h ⟨t ++ r, by rw [← List.append_assoc, hr]⟩
  cases hr : s.route sc with
  | app => exact .inl rfl
  | extra a => exact .inr ⟨a, rfl⟩
  | static =>
    exfalso
    simp only [Server.route] at hr
    split at hr
    · cases hr
    · split at hr
      · rename_i h; exact hpre (List.isPrefixOf_iff_prefix.1 h.2)
      · split at hr
        · cases hr
        · split at hr <;> cases hr
  | modules =>
    exfalso
    simp only [Server.route] at hr
    split at hr
    · cases hr
    · split at hr
      · cases hr
      · split at hr
        · rename_i h; exact hpre (List.isPrefixOf_iff_prefix.1 h.2)
        · split at hr <;> cases hr
  | dispatcher =>
    exfalso
    have hd : s.matchDispatch sc.path = true := by
      simp only [Server.route] at hr
      split at hr
      · rename_i h; exact h.2
      · split at hr
        · cases hr
        · split at hr
          · cases hr
          · split at hr <;> cases hr
    simp only [Server.matchDispatch] at hd
    split at hd
    · cases hm : dispatcherMatch s.pathPrefix sc.path with
      | none => rw [hm] at hd; cases hd
      | some d =>
        obtain ⟨_, _, h3⟩ := (dispatcherMatch_iff hp).1 hm
        rcases h3 with h3 | h3
        · exact hpre (t := d) ⟨['/'], h3.symm⟩
        · exact hpre (t := d) ⟨['/', '\n'], h3.symm⟩
    · simp only [decide_eq_true_eq] at hd
      exact h (hd ▸ List.prefix_refl _)
    · cases hd

example : demo.route ⟨.websocket, "/ws/app.main/".toList, []⟩ = .app := by decide +kernel

/-- **C42.**  The middleware has no routes of its own: what it does not handle reaches the application it wraps. -/
theorem C42_middleware (hk : s.kind = .middleware) (a : A) : s.route sc ≠ .extra a := by
  intro h
  have := ((C42_routing s sc a).2.2.2.1.1 h).2.2
  simp [Server.OwnRoute, hk] at this

/-- **C42, violated.**  A dot in the prefix is a pattern: a websocket outside the prefix goes to the dispatcher, and runs a
component. -/
theorem C42_prefix_violated : ∃ s : Server Str Nat, pathOk s.pathPrefix = true ∧ s.kind = .middleware ∧
    ¬ s.pathPrefix <+: "/v1x0/app.main/".toList ∧ s.route ⟨.websocket, "/v1x0/app.main/".toList, []⟩ = .dispatcher ∧
    s.rendered (fun q => some q) ⟨.websocket, "/v1x0/app.main/".toList, []⟩ = some ("app.main".toList, []) :=
  ⟨{ demo with pathPrefix := "/v1.0/".toList }, by decide +kernel, rfl, by decide +kernel, by decide +kernel, by decide +kernel⟩

end C42

section C58
variable (s : Server C A)

theorem get_put (d : List (String × A)) (k k' : String) (v : A) : get (put d k v) k' = if k = k' then some v else get d k' := by
  induction d with
  | nil =>
    by_cases h : k = k'
    · simp [put, Verif.Markup.get, h]
    · simp [put, Verif.Markup.get, h]
  | cons p d ih =>
    simp only [put]
    by_cases hp : p.1 = k
    · simp only [hp, beq_self_eq_true, if_true]
      by_cases h : k = k'
      · simp [Verif.Markup.get, h]
      · simp [Verif.Markup.get, h, hp]
    · simp only [beq_eq_false_iff_ne.2 hp, Bool.false_eq_true, if_false]
      by_cases h : p.1 = k'
      · have : k ≠ k' := fun hk => hp (h.trans hk.symm)
        simp [Verif.Markup.get, h, this]
      · have e1 : get (p :: put d k v) k' = get (put d k v) k' := by simp [Verif.Markup.get, h]
        have e2 : get (p :: d) k' = get d k' := by simp [Verif.Markup.get, h]
        rw [e1, e2, ih]

/-- Characters with a meaning in a Python pattern, other than `.`. -/
def metaChars : Str := ['^', '$', '*', '+', '?', '{', '}', '[', ']', '\\', '|', '(', ')']

/-- A pattern of ordinary characters. -/
def plain (p : Str) : Prop := ∀ c ∈ p, c ≠ '.' ∧ c ∉ metaChars

theorem reMatch_route {p path : Str} (hp : plain p) : reMatch (routePattern p) path = true ↔ path = p ∨ path = p ++ ['\n'] := by
  have hdot : '.' ∉ p := fun h => (hp _ h).1 rfl
  have hhat : p.head? ≠ some '^' := by
    intro h; exact (hp '^' (List.mem_of_mem_head? h)).2 (by decide)
  have hdol : ∀ c ∈ p, c ≠ '$' := fun c hc h => (hp c hc).2 (by rw [h]; decide)
  have hbar : '|' ∉ p := fun h => (hp '|' h).2 (by decide)
  have hlast : ('^' :: p).getLast? ≠ some '$' := by
    intro h
    have := List.mem_of_getLast? h
    simp only [List.mem_cons] at this
    rcases this with h | h
    · revert h; decide
    · exact hdol _ h rfl
  have hpat : routePattern p = '^' :: p ++ ['$'] := by
    simp only [routePattern, hhat, if_false, hlast]
  rw [hpat, reMatch, Verif.Markup.splitOn_self _ _ (by simp [hbar])]
  simp only [List.any_cons, List.any_nil, Bool.or_false, altMatch, List.cons_append, List.head?_cons, if_true,
    List.drop_succ_cons, List.drop_zero, List.getLast?_append, List.getLast?_singleton, Option.some_or, List.dropLast_concat]
  constructor
  · intro h
    cases hm : matchText p path with
    | none => rw [hm] at h; cases h
    | some r =>
      rw [hm] at h
      obtain ⟨q, rfl, hq⟩ := matchText_some hm
      rw [stands_lit hq hdot]
      rcases atEnd_iff.1 h with rfl | rfl
      · exact .inl (by simp)
      · exact .inr rfl
  · rintro (rfl | rfl)
    · have := matchText_self path [] hdot
      rw [List.append_nil] at this
      rw [this]; rfl
    · rw [matchText_self p _ hdot]; decide

/-- **C58.**  A route of ordinary characters matches its path and nothing else (but for a newline at the end). -/
theorem C58_full_partial {p path : Str} (hp : plain p) (hn : '\n' ∉ path) : reMatch (routePattern p) path = true ↔ path = p := by
  rw [reMatch_route hp]
  constructor
  · rintro (h | h)
    · exact h
    · exact absurd (h ▸ by simp) hn
  · exact .inl

/-- Registering routes in turn, each for HTTP (`true`) or websockets. -/
def register (s : Server C A) (routes : List (Bool × Str × A)) : Server C A :=
  routes.foldl (fun s r => s.addRoute r.1 r.2.1 r.2.2) s

/-- The registrations of one type. -/
def ofType (http : Bool) (routes : List (Bool × Str × A)) : List (Str × A) := (routes.filter (fun r => r.1 == http)).map (·.2)

theorem register_kind (routes : List (Bool × Str × A)) (s : Server C A) :
    (register s routes).kind = s.kind ∧ (register s routes).pathPrefix = s.pathPrefix ∧ (register s routes).lifespan = s.lifespan := by
  induction routes generalizing s with
  | nil => exact ⟨rfl, rfl, rfl⟩
  | cons r rs ih =>
    rw [register, List.foldl_cons]
    have := ih (s.addRoute r.1 r.2.1 r.2.2)
    obtain ⟨http, p, a⟩ := r
    cases http <;> exact this

theorem register_tables (routes : List (Bool × Str × A)) (s : Server C A) :
    (register s routes).httpRoutes = (ofType true routes).foldl (fun d r => put d (String.ofList (routePattern r.1)) r.2) s.httpRoutes ∧
    (register s routes).wsRoutes = (ofType false routes).foldl (fun d r => put d (String.ofList (routePattern r.1)) r.2) s.wsRoutes := by
  induction routes generalizing s with
  | nil => exact ⟨rfl, rfl⟩
  | cons r rs ih =>
    rw [register, List.foldl_cons]
    have := ih (s.addRoute r.1 r.2.1 r.2.2)
    obtain ⟨http, p, a⟩ := r
    cases http <;> exact this

theorem put_mem_keys {d : List (String × A)} {k : String} {v : A} {q : String × A} (h : q ∈ put d k v) : q ∈ d ∨ q = (k, v) := by
  induction d with
  | nil => simp [put] at h; exact .inr h
  | cons p d ih =>
    simp only [put] at h
    split at h
    · rcases List.mem_cons.1 h with h | h
      · exact .inr h
      · exact .inl (by simp [h])
    · rcases List.mem_cons.1 h with h | h
      · exact .inl (by simp [h])
      · rcases ih h with h | h
        · exact .inl (by simp [h])
        · exact .inr h

/-- The app registered last for a path. -/
def lastFor (routes : List (Str × A)) (path : Str) : Option A := (routes.reverse.find? (fun r => r.1 == path)).map (·.2)

theorem routePattern_inj {p q : Str} (hp : plain p) (hq : plain q) (h : routePattern p = routePattern q) : p = q := by
  by_cases hn : '\n' ∈ p
  · -- a newline: compare the patterns directly
    have hd : ∀ {p : Str}, plain p → routePattern p = '^' :: p ++ ['$'] := by
      intro p hp
      have hhat : p.head? ≠ some '^' := by
        intro h; exact (hp '^' (List.mem_of_mem_head? h)).2 (by decide)
      have hlast : ('^' :: p).getLast? ≠ some '$' := by
        intro h
        have := List.mem_of_getLast? h
        simp only [List.mem_cons] at this
        rcases this with h | h
        · revert h; decide
        · exact (hp _ h).2 (by decide)
      simp only [routePattern, hhat, if_false, hlast]
    rw [hd hp, hd hq] at h
    simpa using h
  · have h1 := (C58_full_partial hp hn).2 rfl
    rw [h] at h1
    exact (C58_full_partial hq hn).1 h1

/-- All patterns in the table come from plain paths. -/
theorem find_registered (path : Str) (hn : '\n' ∉ path) (routes : List (Str × A)) (hp : ∀ r ∈ routes, plain r.1)
    (d : List (String × A)) (hd : ∀ e ∈ d, ∃ p, plain p ∧ e.1 = String.ofList (routePattern p)) :
    (∀ e ∈ routes.foldl (fun d r => put d (String.ofList (routePattern r.1)) r.2) d, ∃ p, plain p ∧ e.1 = String.ofList (routePattern p)) ∧
    ((routes.foldl (fun d r => put d (String.ofList (routePattern r.1)) r.2) d).find? (fun e => reMatch e.1.toList path)).map (·.2) =
      (lastFor routes path).or ((d.find? (fun e => reMatch e.1.toList path)).map (·.2)) := by
  induction routes generalizing d with
  | nil => exact ⟨hd, by simp [lastFor]⟩
  | cons r rs ih =>
    have hr := hp r (by simp)
    have hd' : ∀ e ∈ put d (String.ofList (routePattern r.1)) r.2, ∃ p, plain p ∧ e.1 = String.ofList (routePattern p) := by
      intro e he
      rcases put_mem_keys he with h | h
      · exact hd e h
      · exact ⟨r.1, hr, by rw [h]⟩
    obtain ⟨i1, i2⟩ := ih (fun q hq => hp q (by simp [hq])) _ hd'
    refine ⟨i1, ?_⟩
    rw [List.foldl_cons, i2]
    have hlast : lastFor (r :: rs) path = (lastFor rs path).or (if r.1 = path then some r.2 else none) := by
      simp only [lastFor, List.reverse_cons, List.find?_append]
      cases (rs.reverse.find? (fun r => r.1 == path)) with
      | some x => simp
      | none => by_cases h : r.1 = path <;> simp [h]
    rw [hlast, Option.or_assoc]
    congr 1
    have key : ∀ d : List (String × A), (∀ e ∈ d, ∃ p, plain p ∧ e.1 = String.ofList (routePattern p)) →
        ((put d (String.ofList (routePattern r.1)) r.2).find? (fun e => reMatch e.1.toList path)).map (·.2) =
          (if r.1 = path then some r.2 else none).or ((d.find? (fun e => reMatch e.1.toList path)).map (·.2)) := by
      intro d
      induction d with
      | nil =>
        intro _
        simp only [put, List.find?_cons, List.find?_nil, String.toList_ofList]
        by_cases h : r.1 = path
        · rw [(C58_full_partial hr hn).2 h.symm]; simp [h]
        · have : reMatch (routePattern r.1) path = false := by
            cases hm : reMatch (routePattern r.1) path with
            | false => rfl
            | true => exact absurd ((C58_full_partial hr hn).1 hm).symm h
          rw [this]; simp [h]
      | cons e d ihd =>
        intro hd
        have ihd := ihd (fun e' he => hd e' (by simp [he]))
        obtain ⟨p, hpp, hpe⟩ := hd e (by simp)
        simp only [put]
        by_cases hk : e.1 = String.ofList (routePattern r.1)
        · have hpr : p = r.1 := routePattern_inj hpp hr (String.ofList_inj.1 (hpe.symm.trans hk))
          simp only [hk, beq_self_eq_true, if_true, List.find?_cons, String.toList_ofList]
          by_cases h : r.1 = path
          · rw [(C58_full_partial hr hn).2 h.symm]; simp [h]
          · have : reMatch (routePattern r.1) path = false := by
              cases hm : reMatch (routePattern r.1) path with
              | false => rfl
              | true => exact absurd ((C58_full_partial hr hn).1 hm).symm h
            rw [this]; simp [h]
        · simp only [beq_eq_false_iff_ne.2 hk, Bool.false_eq_true, if_false, List.find?_cons]
          cases hm : reMatch e.1.toList path with
          | false => exact ihd
          | true =>
            have hpp' : path = p := by
              rw [hpe, String.toList_ofList] at hm
              exact (C58_full_partial hpp hn).1 hm
            have : r.1 ≠ path := by
              intro h
              apply hk
              rw [hpe, ← hpp', ← h]
            simp [this]
    exact key d hd

/-- **C58.**  After any sequence of registrations with paths of ordinary characters, an HTTP or websocket request that is
not for ReactPy itself reaches the app registered last for its path and type, and otherwise ReactPy's page. -/
theorem C58_registered_partial (hk : s.kind ≠ .middleware) (hs : s.httpRoutes = []) (hs' : s.wsRoutes = [])
    (routes : List (Bool × Str × A)) (hp : ∀ r ∈ routes, plain r.2.1) (sc : Scope) (http : Bool)
    (ht : sc.type = if http then .http else .websocket) (hn : '\n' ∉ sc.path)
    (h1 : http = true → ¬ s.pathPrefix ++ "static/".toList <+: sc.path ∧ ¬ s.pathPrefix ++ "modules/".toList <+: sc.path)
    (h2 : http = false → ¬ s.DispatchPath sc.path) :
    (register s routes).route sc =
      match lastFor (ofType http routes) sc.path with
      | some a => .extra a
      | none => .app := by
  obtain ⟨k1, k2, _⟩ := register_kind routes s
  obtain ⟨t1, t2⟩ := register_tables routes s
  have hpl : ∀ r ∈ ofType http routes, plain r.1 := by
    intro r hr
    obtain ⟨x, hx, rfl⟩ := List.mem_map.1 hr
    exact hp x (List.mem_filter.1 hx).1
  have hfind := (find_registered sc.path hn (ofType http routes) hpl [] (by simp)).2
  simp only [List.find?_nil, Option.map_none, Option.or_none] at hfind
  have hex : (register s routes).matchExtra sc = lastFor (ofType http routes) sc.path := by
    simp only [Server.matchExtra]
    rw [k1]
    cases hk' : s.kind with
    | middleware => exact absurd hk' hk
    | standalone r => cases http <;> simp only [ht, t1, t2, hs, hs'] <;> exact hfind
    | csr => cases http <;> simp only [ht, t1, t2, hs, hs'] <;> exact hfind
  have hdp : (register s routes).DispatchPath sc.path ↔ s.DispatchPath sc.path := by
    simp only [Server.DispatchPath, k1, k2]
  simp only [Server.route, Server.staticPath, Server.modulesPath, k2, hex]
  rw [if_neg, if_neg, if_neg]
  · cases lastFor (ofType http routes) sc.path <;> rfl
  · rintro ⟨h, h'⟩
    cases http with
    | true => exact (h1 rfl).2 (List.isPrefixOf_iff_prefix.1 h')
    | false => rw [ht] at h; cases h
  · rintro ⟨h, h'⟩
    cases http with
    | true => exact (h1 rfl).1 (List.isPrefixOf_iff_prefix.1 h')
    | false => rw [ht] at h; cases h
  · rintro ⟨h, h'⟩
    cases http with
    | true => rw [ht] at h; cases h
    | false => exact h2 rfl (hdp.1 ((matchDispatch_iff _ _).1 h'))

example : (register { demo with kind := .standalone [] } [(true, "/a".toList, 1), (true, "/b".toList, 2), (true, "/a".toList, 3),
    (false, "/a".toList, 4)]).route ⟨.http, "/a".toList, []⟩ = .extra 3 := by decide +kernel
example : (register { demo with kind := .standalone [] } [(true, "/a".toList, 1), (true, "/b".toList, 2), (true, "/a".toList, 3),
    (false, "/a".toList, 4)]).route ⟨.websocket, "/a".toList, []⟩ = .extra 4 := by decide +kernel

/-- **C58, violated.**  The anchors are not around the whole pattern: a route `/a|/b` also takes every path beginning with
`/a`. -/
theorem C58_alternatives_violated : reMatch (routePattern "/a|/b".toList) "/admin".toList = true := by decide +kernel

/-- **C58, violated.**  A newline after the path is ignored. -/
theorem C58_newline_violated : reMatch (routePattern "/a".toList) "/a\n".toList = true := by decide +kernel

/-- **C58.**  At most one lifespan application: once one is registered, and whatever routes are, it handles the lifespan, a
second registration is refused and the first one stays in place. -/
theorem C58_lifespan (hk : s.kind ≠ .middleware) (app app' : A) (s' : Server C A) (h : s.setLifespan app = some s')
    (routes : List (Bool × Str × A)) (sc : Scope) (ht : sc.type = .lifespan) :
    (register s' routes).route sc = .extra app ∧ (register s' routes).setLifespan app' = none := by
  have hs : s'.lifespan = some app ∧ s'.kind = s.kind := by
    simp only [Server.setLifespan] at h
    split at h
    · cases h
    · cases h; exact ⟨rfl, rfl⟩
  obtain ⟨k1, k2, k3⟩ := register_kind routes s'
  refine ⟨?_, by simp [Server.setLifespan, k3, hs.1]⟩
  refine (C42_routing _ sc app).2.2.2.1.2 ⟨?_, ?_, ?_, ?_⟩
  · rintro ⟨h, _⟩; rw [ht] at h; cases h
  · rintro ⟨h, _⟩; rw [ht] at h; cases h
  · rw [k1, hs.2]
    cases hk' : s.kind with
    | middleware => exact absurd hk' hk
    | standalone r => trivial
    | csr => trivial
  · rw [ht]; exact k3.trans hs.1

/-- **C58.**  Registering a first lifespan application succeeds. -/
theorem C58_lifespan_accepted (hl : s.lifespan = none) (app : A) : s.setLifespan app ≠ none := by
  simp [Server.setLifespan, hl]

example : (demo.setLifespan 7).isSome = true := by decide +kernel

end C58

section C55
variable (p : Page) (extra : List (String × String)) (r : Request)

/-- The bytes of a string in UTF-8. -/
def bytes (s : String) : Nat := (s.toList.map Char.utf8Size).sum

/-- **C55.**  `HEAD` is answered without a body, with the headers of an unconditional `GET`. -/
theorem C55_head (h : r.method = "HEAD") : (respond p extra r).body = "" ∧ (respond p extra r).status = 200 ∧
    ∀ headers, get headers "if-none-match" = none → get headers "if-modified-since" = none →
      (respond p extra r).headers = (respond p extra ⟨"GET", headers⟩).headers := by
  simp only [respond, h, if_true]
  refine ⟨trivial, trivial, fun hs h1 h2 => ?_⟩
  rw [if_neg (by decide), if_neg (by simp [h1, h2])]

/-- **C55.**  Other requests are answered 304, without body and length, exactly when one of the client's validators is the
document's; and otherwise with the whole document. -/
theorem C55_not_modified_iff (h : r.method ≠ "HEAD") :
    ((respond p extra r).status = 304 ↔
      get r.headers "if-none-match" = some p.etag ∨ get r.headers "if-modified-since" = some p.lastModified) ∧
    ((respond p extra r).status = 304 → (respond p extra r).body = "" ∧ get (respond p extra r).headers "content-length" = none) ∧
    ((respond p extra r).status ≠ 304 → (respond p extra r).status = 200 ∧ (respond p extra r).body = p.html) := by
  simp only [respond, h, if_false]
  split
  · rename_i hv
    refine ⟨⟨fun _ => hv, fun _ => rfl⟩, fun _ => ⟨rfl, ?_⟩, fun h => absurd rfl h⟩
    exact Verif.Markup.get_eq_none (by
      intro hm
      obtain ⟨q, hq, he⟩ := List.mem_map.1 hm
      have := (List.mem_filter.1 hq).2
      simp [he] at this)
  · rename_i hv
    exact ⟨⟨fun h => by simp at h, fun h => absurd h hv⟩, fun h => by simp at h, fun _ => ⟨rfl, rfl⟩⟩

theorem get_update (d e : List (String × String)) (k : String) (h : k ∉ e.map (·.1)) : get (update d e) k = get d k := by
  induction e generalizing d with
  | nil => rfl
  | cons q e ih =>
    simp only [List.map_cons, List.mem_cons, not_or] at h
    rw [update, List.foldl_cons]
    refine (ih _ h.2).trans ?_
    rw [get_put, if_neg (Ne.symm h.1)]

theorem headers_etag (h : "etag" ∉ extra.map (·.1)) : get (responseHeaders p extra) "etag" = some p.etag := by
  rw [responseHeaders, get_update _ _ _ h]; rfl

theorem get_del (d : List (String × String)) (k k' : String) (h : k ≠ k') : get (del d k) k' = get d k' := by
  induction d with
  | nil => rfl
  | cons q d ih =>
    by_cases hq : q.1 = k
    · have h1 : del (q :: d) k = del d k := by simp [del, hq]
      have h2 : get (q :: d) k' = get d k' := by simp [Verif.Markup.get, hq, h]
      rw [h1, h2, ih]
    · have h1 : del (q :: d) k = q :: del d k := by simp [del, hq]
      rw [h1]
      by_cases hk : q.1 = k'
      · simp [Verif.Markup.get, hk]
      · have e1 : get (q :: del d k) k' = get (del d k) k' := by simp [Verif.Markup.get, hk]
        have e2 : get (q :: d) k' = get d k' := by simp [Verif.Markup.get, hk]
        rw [e1, e2, ih]

theorem respond_etag (h : "etag" ∉ extra.map (·.1)) : get (respond p extra r).headers "etag" = some p.etag := by
  simp only [respond]
  split
  · exact headers_etag p extra h
  · split
    · simp only; rw [get_del _ _ _ (by decide), headers_etag p extra h]
    · exact headers_etag p extra h

/-- **C55.**  In any history of requests to one application, a `GET` that carries the `etag` of any response is
answered 304 — when the user does not override the header. -/
theorem C55_revalidation_partial (render : String) (md5 : String → String) (hr : render ≠ "") (he : "etag" ∉ extra.map (·.1))
    (reqs : List (String × Request)) (i j : Nat) (ri rj : Response) (t : String) (req : Request) (e : String)
    (h1 : (serveAll render md5 extra none reqs)[i]? = some ri) (h2 : reqs[j]? = some (t, req))
    (h3 : (serveAll render md5 extra none reqs)[j]? = some rj) (hm : req.method ≠ "HEAD")
    (hetag : get ri.headers "etag" = some e) (hreq : get req.headers "if-none-match" = some e) : rj.status = 304 := by
  have hall : ∀ (reqs : List (String × Request)) (q : Page), q.html ≠ "" →
      serveAll render md5 extra (some q) reqs = reqs.map (fun x => respond q extra x.2) := by
    intro reqs
    induction reqs with
    | nil => intro q _; rfl
    | cons x xs ih =>
      intro q hq
      obtain ⟨now, x⟩ := x
      simp only [serveAll, page, hq, if_false, List.map_cons]
      rw [ih q hq]
  cases reqs with
  | nil => simp at h2
  | cons x xs =>
    obtain ⟨now, x⟩ := x
    have hser : serveAll render md5 extra none ((now, x) :: xs) =
        ((now, x) :: xs).map (fun y => respond ⟨render, "\"" ++ md5 render ++ "\"", now⟩ extra y.2) := by
      simp only [serveAll, page, List.map_cons]
      rw [hall xs _ hr]
    rw [hser, List.getElem?_map] at h1 h3
    rw [h2] at h3
    simp only [Option.map_some, Option.some.injEq] at h3
    cases hi : ((now, x) :: xs)[i]? with
    | none => rw [hi] at h1; cases h1
    | some y =>
      rw [hi] at h1
      simp only [Option.map_some, Option.some.injEq] at h1
      rw [← h1, respond_etag _ _ _ he] at hetag
      rw [← h3]
      refine ((C55_not_modified_iff _ extra req hm).1).2 (.inl ?_)
      rw [hreq, ← hetag]

/-- The value given last for a header. -/
def given (extra : List (String × String)) (k : String) : Option String := (extra.reverse.find? (fun q => q.1 == k)).map (·.2)

theorem get_update_given (d e : List (String × String)) (k : String) : get (update d e) k = (given e k).or (get d k) := by
  induction e generalizing d with
  | nil => rfl
  | cons q e ih =>
    rw [update, List.foldl_cons]
    refine (ih _).trans ?_
    rw [get_put]
    simp only [given, List.reverse_cons, List.find?_append]
    cases List.find? (fun q => q.1 == k) e.reverse with
    | some x => simp
    | none => by_cases h : q.1 = k <;> simp [h]

/-- **C55.**  In any history of requests to one application, an unconditional `GET` is answered with the document that was
rendered for the first request, with its digest as `etag`, the time of the first request as modification time, the usual
headers, and the user's headers in place of these. -/
theorem C55_document (render : String) (md5 : String → String) (hr : render ≠ "") (t0 : String) (r0 : Request)
    (reqs : List (String × Request)) (i : Nat) (t : String) (req : Request) (res : Response)
    (h1 : ((t0, r0) :: reqs)[i]? = some (t, req)) (h2 : (serveAll render md5 extra none ((t0, r0) :: reqs))[i]? = some res)
    (hm : req.method ≠ "HEAD") (hn : get req.headers "if-none-match" = none) (hd : get req.headers "if-modified-since" = none) :
    res.status = 200 ∧ res.body = render ∧ ∀ k, get res.headers k = (given extra k).or
      (get [("etag", "\"" ++ md5 render ++ "\""), ("last-modified", t0), ("access-control-allow-origin", "*"),
        ("cache-control", "max-age=60, public"), ("content-length", toString render.length),
        ("content-type", "text/html; charset=utf-8")] k) := by
  have hall : ∀ (reqs : List (String × Request)) (q : Page), q.html ≠ "" →
      serveAll render md5 extra (some q) reqs = reqs.map (fun x => respond q extra x.2) := by
    intro reqs
    induction reqs with
    | nil => intro q _; rfl
    | cons x xs ih =>
      intro q hq
      obtain ⟨now, x⟩ := x
      simp only [serveAll, page, hq, if_false, List.map_cons]
      rw [ih q hq]
  have hser : serveAll render md5 extra none ((t0, r0) :: reqs) =
      ((t0, r0) :: reqs).map (fun y => respond ⟨render, "\"" ++ md5 render ++ "\"", t0⟩ extra y.2) := by
    simp only [serveAll, page, List.map_cons]
    rw [hall reqs _ hr]
  rw [hser, List.getElem?_map, h1] at h2
  simp only [Option.map_some, Option.some.injEq] at h2
  have hres : res = ⟨200, responseHeaders ⟨render, "\"" ++ md5 render ++ "\"", t0⟩ extra, render⟩ := by
    rw [← h2]
    simp [respond, hm, hn, hd]
  rw [hres]
  exact ⟨rfl, rfl, fun k => get_update_given _ _ k⟩

example : (serveAll "<p>hi</p>" (fun _ => "abc") [("x-a", "1")] none [("t", ⟨"HEAD", []⟩), ("u", ⟨"GET", []⟩)])[1]?.map
    (fun r => (r.body, get r.headers "last-modified", get r.headers "x-a")) = some ("<p>hi</p>", some "t", some "1") := by decide +kernel

def demoPage : Page := ⟨"<p>hi</p>", "\"abc\"", "Mon, 16 Nov 2026 00:00:00 GMT"⟩

example : (respond demoPage [] ⟨"GET", [("if-none-match", "\"abc\"")]⟩).status = 304 ∧ (respond demoPage [] ⟨"GET", []⟩).body = "<p>hi</p>" :=
  ⟨by decide +kernel, by decide +kernel⟩

/-- **C55.**  The declared length of a full response is the number of bytes sent, for documents in ASCII. -/
theorem C55_length_partial (h : r.method ≠ "HEAD") (hx : "content-length" ∉ extra.map (·.1)) (hs : (respond p extra r).status = 200)
    (ha : ∀ c ∈ p.html.toList, c.toNat < 128) :
    get (respond p extra r).headers "content-length" = some (toString (bytes (respond p extra r).body)) := by
  have h1 := (C55_not_modified_iff p extra r h).2.2 (by rw [hs]; decide)
  have hb : bytes p.html = p.html.length := by
    rw [bytes, ← String.length_toList]
    generalize p.html.toList = l at ha
    induction l with
    | nil => rfl
    | cons c l ih =>
      have hc : c.utf8Size = 1 := by
        have : c.toNat < 128 := ha c (by simp)
        rw [Char.utf8Size_eq_one_iff]
        exact Nat.lt_succ_iff.1 this
      simp only [List.map_cons, List.sum_cons, List.length_cons, hc, ih (fun d hd => ha d (by simp [hd]))]
      omega
  rw [h1.2, hb]
  have hh : (respond p extra r).headers = responseHeaders p extra := by
    simp only [respond, h, if_false] at hs ⊢
    split
    · rename_i hv; rw [if_pos hv] at hs; simp at hs
    · rfl
  rw [hh, responseHeaders, get_update _ _ _ hx]
  rfl

example : ∀ c ∈ demoPage.html.toList, c.toNat < 128 := by decide +kernel

/-- **C55, violated.**  The length counts characters: a document with other characters declares fewer bytes than it sends. -/
theorem C55_length_violated : ∃ p : Page, get (respond p [] ⟨"GET", []⟩).headers "content-length" = some "8" ∧
    bytes (respond p [] ⟨"GET", []⟩).body = 9 :=
  ⟨⟨"<p>é</p>", "", ""⟩, by decide +kernel, by decide +kernel⟩

/-- **C55, violated.**  A client whose `etag` is that of an older document is told it has the current one if the dates are
equal (HTTP gives the `etag` precedence). -/
theorem C55_precedence_violated :
    (respond demoPage [] ⟨"GET", [("if-none-match", "\"old\""), ("if-modified-since", "Mon, 16 Nov 2026 00:00:00 GMT")]⟩).status = 304 := by
  decide +kernel

/-- **C55, violated.**  An `etag` set by the user is sent but not recognised when it comes back. -/
theorem C55_override_violated : get (respond demoPage [("etag", "\"v1\"")] ⟨"GET", []⟩).headers "etag" = some "\"v1\"" ∧
    (respond demoPage [("etag", "\"v1\"")] ⟨"GET", [("if-none-match", "\"v1\"")]⟩).status = 200 :=
  ⟨by decide +kernel, by decide +kernel⟩

end C55

/-! ### Cases that meet the hypotheses -/

example := C41_only_registered (fun q => some q) demo demoScope rfl (c := "app.main".toList) (l := []) (by decide +kernel)
example := (C41_standalone (fun q => some q) { demo with kind := .standalone "root".toList } ⟨.websocket, "/reactpy/".toList, []⟩ "root".toList rfl "root".toList []).2 (by decide +kernel)
example := C41_csr (fun q => some q) { demo with kind := .csr } demoScope rfl
example := C42_middleware demo demoScope rfl
example : "/a".toList = "/a".toList := (C58_full_partial (p := "/a".toList) (by unfold plain; decide +kernel) (by decide +kernel)).1 (by decide +kernel)
example := C58_lifespan { demo with kind := .csr } (by simp) 7 8 _ rfl [(true, "/a".toList, 1)] ⟨.lifespan, [], []⟩ rfl
example := (C55_head demoPage [("x-a", "1")] ⟨"HEAD", []⟩ rfl).2.2 [("accept", "*/*")] (by decide +kernel) (by decide +kernel)
example := (C55_not_modified_iff demoPage [] ⟨"GET", [("if-none-match", "\"abc\"")]⟩ (by decide)).1.2 (.inl (by decide +kernel))
example := C55_revalidation_partial [("x-a", "1")] "<p>hi</p>" (fun _ => "abc") (by decide) (by decide)
  [("t", ⟨"HEAD", []⟩), ("u", ⟨"GET", [("if-none-match", "\"abc\"")]⟩)] 0 1 _ _ "u" ⟨"GET", [("if-none-match", "\"abc\"")]⟩ "\"abc\"" rfl rfl rfl (by decide)
  (by decide +kernel) (by decide +kernel)

end Verif.Asgi
