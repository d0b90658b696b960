import Verif.Startup.Props
/-! # The pages of applications lead back to them: property C70 -/
namespace Verif.Startup
open Verif.Option (Tree Info Err)
open Verif.Asgi (Server Scope)
variable {C A : Type}

/-- Characters that do not end the path of a URL. -/
def UrlPlain (s : Str) : Prop := ∀ c ∈ s, c ≠ '?' ∧ c ≠ '#'

/-- Characters with a meaning in a Python pattern, other than `.`. -/
def patternChars : Str := ['^', '$', '*', '+', '?', '{', '}', '[', ']', '\\', '|', '(', ')']

theorem urlPath_plain {s : Str} (h : UrlPlain s) : urlPath s = s := by
  simp only [urlPath]
  induction s with
  | nil => rfl
  | cons c s ih =>
    have := h c (by simp)
    rw [List.takeWhile_cons]
    simp only [this.1, this.2, bne_iff_ne, ne_eq, not_false_eq_true, and_self, Bool.and_eq_true, if_true]
    rw [ih (fun d hd => h d (by simp [hd]))]

theorem plain_append {s t : Str} (h : UrlPlain s) (h' : UrlPlain t) : UrlPlain (s ++ t) := by
  intro c hc
  rcases List.mem_append.1 hc with hc | hc
  · exact h c hc
  · exact h' c hc

theorem stands_self : ∀ s : Str, Verif.Asgi.Stands s s
  | [] => trivial
  | _ :: s => ⟨.inl rfl, stands_self s⟩

/-- **The page leads to the application**: its websocket is taken by the component dispatcher, which serves `root`; its client
script is a static file; its modules are web modules. -/
def LeadsTo (s : Server C A) (page : Page) (root : C) : Prop :=
  (∀ q, s.route ⟨.websocket, page.socketPath, q⟩ = .dispatcher) ∧ s.component page.socketPath = some root ∧
  (∀ q, s.route ⟨.http, page.clientScript, q⟩ = .static) ∧
  (∀ name q, UrlPlain name → s.route ⟨.http, page.modulePath name, q⟩ = .modules)

theorem prefix_append (p s : Str) : List.isPrefixOf p (p ++ s) = true := by
  induction p with
  | nil => simp
  | cons c p ih => simpa [List.isPrefixOf] using ih

theorem static_not_modules (p s : Str) : List.isPrefixOf (p ++ "static/".toList) (p ++ ("modules/".toList ++ s)) = false := by
  induction p with
  | nil => rfl
  | cons c p ih => simpa [List.isPrefixOf] using ih

theorem route_static {s : Server C A} (p : Str) (hp : s.pathPrefix = p) (f q : Str) :
    s.route ⟨.http, p ++ "static/".toList ++ f, q⟩ = .static := by
  have : s.staticPath.isPrefixOf (p ++ "static/".toList ++ f) = true := by
    rw [Server.staticPath, hp]
    exact prefix_append _ _
  simp only [Server.route, this, reduceCtorEq, false_and, if_false, and_self, if_true]

theorem route_modules {s : Server C A} (p : Str) (hp : s.pathPrefix = p) (f q : Str) :
    s.route ⟨.http, p ++ "modules/".toList ++ f, q⟩ = .modules := by
  have h1 : s.staticPath.isPrefixOf (p ++ "modules/".toList ++ f) = false := by
    rw [Server.staticPath, hp, List.append_assoc]
    exact static_not_modules _ _
  have h2 : s.modulesPath.isPrefixOf (p ++ "modules/".toList ++ f) = true := by
    rw [Server.modulesPath, hp]
    exact prefix_append _ _
  simp only [Server.route, h1, h2, reduceCtorEq, false_and, if_false, and_self, if_true, Bool.false_eq_true, and_false]

/-- The files of a page made with the prefix of an application. -/
theorem files (s : Server C A) (path : Str) (hp : UrlPlain s.pathPrefix) :
    (∀ q, s.route ⟨.http, (pageFor s.pathPrefix path).clientScript, q⟩ = .static) ∧
    (∀ name q, UrlPlain name → s.route ⟨.http, (pageFor s.pathPrefix path).modulePath name, q⟩ = .modules) := by
  refine ⟨fun q => ?_, fun name q hn => ?_⟩
  · have := route_static (s := s) _ rfl "index.js".toList q
    have he : "static/index.js".toList = "static/".toList ++ "index.js".toList := by decide
    simpa only [pageFor, he, List.append_assoc] using this
  · have hm : UrlPlain "modules/".toList := by unfold UrlPlain; decide +kernel
    have : (pageFor s.pathPrefix path).modulePath name = s.pathPrefix ++ "modules/".toList ++ name := by
      simp only [Page.modulePath, pageFor]
      exact urlPath_plain (plain_append (plain_append hp hm) hn)
    rw [this]
    exact route_modules _ rfl _ _

/-- **C70** (partial: the page is made while the option has the application's prefix, which has no `?` or `#`).  The page of a
standalone application leads to that application and its root component. -/
theorem C70_standalone_partial (s : Server C A) (root : C) (hk : s.kind = .standalone root) (hp : UrlPlain s.pathPrefix) :
    LeadsTo s (standalonePage s.pathPrefix) root := by
  have hsock : (standalonePage s.pathPrefix).socketPath = s.pathPrefix := by
    simp [Page.socketPath, standalonePage, pageFor, urlPath_plain hp]
  refine ⟨fun q => ?_, ?_, (files s [] hp).1, (files s [] hp).2⟩
  · rw [hsock]
    simp [Server.route, Server.matchDispatch, hk]
  · simp [Server.component, hk]

/-- **C70** (partial: likewise, and the prefix has no special characters of patterns).  With the middleware, the `component` tag
with a registered dotted path leads to the application and the component of that path. -/
theorem C70_middleware_partial (s : Server C A) (hk : s.kind = .middleware) (hp : UrlPlain s.pathPrefix)
    (_hmeta : ∀ c ∈ s.pathPrefix, c ∉ patternChars) (d : Str) (hd : d ∈ s.rootPaths) (hne : d ≠ [])
    (hname : ∀ c ∈ d, Verif.Asgi.NameChar c) :
    LeadsTo s (tagPage s.pathPrefix d) (s.importPath d) := by
  have hplain : UrlPlain d := by
    intro c hc
    have := hname c hc
    constructor <;> rintro rfl <;> revert this <;> simp [Verif.Asgi.NameChar] <;> decide
  have hsock : (tagPage s.pathPrefix d).socketPath = s.pathPrefix ++ d ++ ['/'] := by
    simp only [Page.socketPath, tagPage, pageFor]
    rw [urlPath_plain (plain_append hp (plain_append hplain (by unfold UrlPlain; decide))), List.append_assoc]
  have hall := Verif.Asgi.isDotted_iff.2 hname
  have hmatch : Verif.Asgi.dispatcherMatch s.pathPrefix (s.pathPrefix ++ d ++ ['/']) = some d := by
    simp only [Verif.Asgi.dispatcherMatch, List.append_assoc]
    rw [Verif.Asgi.matchText_stands _ (stands_self _)]
    simp only [Verif.Asgi.dropWhile_dotted hall, Verif.Asgi.takeWhile_dotted hall]
    rw [if_pos ⟨hne, rfl⟩]
  refine ⟨fun q => ?_, ?_, (files s _ hp).1, (files s _ hp).2⟩
  · rw [hsock]
    simp only [Server.route, Server.matchDispatch, hk, hmatch, Option.isSome_some, and_self, if_true]
  · rw [hsock]
    simp only [Server.component, hk, hmatch, Verif.Asgi.find_root, if_pos hd]

def demoServer : Server Str Nat :=
  { kind := .middleware, pathPrefix := "/reactpy/".toList, rootPaths := ["my_app.Main".toList], importPath := id }

example : UrlPlain demoServer.pathPrefix ∧ (∀ c ∈ demoServer.pathPrefix, c ∉ patternChars) ∧
    "my_app.Main".toList ∈ demoServer.rootPaths ∧
    (tagPage demoServer.pathPrefix "my_app.Main".toList).socketPath = "/reactpy/my_app.Main/".toList := by
  unfold UrlPlain
  decide +kernel

/-! ## Several applications in one process -/

/-- The prefix option stays at `p` when no setting asks for another value. -/
theorem apply_prefix {c : Config} (hc : Options c) {p : Str} (hv : c.value prefixOption = some (.str p)) {k : Str} {v : Val}
    (hk : optionName k = prefixOption → v = .str p) : (applySetting c k v).1.value prefixOption = some (.str p) := by
  by_cases hl : ∃ path, c.locate (optionName k) = some (prefixOption, path)
  · obtain ⟨path, hl⟩ := hl
    have hroot : optionName k = prefixOption ∧ path = [] := by
      simp only [Config.locate] at hl
      split at hl
      · simp only [Option.some.injEq, Prod.mk.injEq] at hl
        exact ⟨hl.1, hl.2.symm⟩
      · exfalso
        simp only [Option.map_eq_some_iff] at hl
        obtain ⟨q, hq, he⟩ := hl
        have := List.mem_of_find?_eq_some hq
        simp only [children, List.mem_cons, List.not_mem_nil, or_false] at this
        have hd : "REACTPY_DEBUG".toList ≠ prefixOption := by decide +kernel
        rcases this with rfl | rfl <;> exact hd (congrArg Prod.fst he)
    obtain ⟨hn, rfl⟩ := hroot
    have hvp := hk hn
    rcases applySetting_get c k v with hu | ⟨root, path', t, hl', hg, he, _⟩
    · rw [hu]; exact hv
    · rw [hl] at hl'
      simp only [Option.some.injEq, Prod.mk.injEq] at hl'
      obtain ⟨rfl, rfl⟩ := hl'
      obtain ⟨i, o, s, rfl⟩ := hc _ t hg
      obtain ⟨o', s', h1, h2, _⟩ := set_root i o s v
      have hcur : v = o.getD i.default := by
        rw [value_of_get hg] at hv
        rw [hvp]
        exact (Option.some.inj hv).symm
      obtain ⟨rfl, rfl, _⟩ := h2 hcur
      rw [he, h1]
      rw [value_of_get (get_put_same c _ _ _ hg)]
      rw [value_of_get hg] at hv
      exact hv
  · have := get_apply_other (c := c) (k := k) (v := v) (m := prefixOption) (fun path h => hl ⟨path, h⟩)
    simp only [Config.value, this]
    exact hv

theorem process_prefix : ∀ (settings : List (Str × Val)) {c : Config} {p : Str}, Options c → c.value prefixOption = some (.str p) →
    (∀ k v, (k, v) ∈ settings → optionName k = prefixOption → v = .str p) →
    (processSettings c settings).1.value prefixOption = some (.str p) ∧ Options (processSettings c settings).1
  | [], _, _, hc, hv, _ => ⟨hv, hc⟩
  | (k, v) :: l, c, p, hc, hv, h => by
    have h1 := apply_prefix hc hv (h k v (by simp))
    have h2 := options_apply hc k v
    simp only [processSettings]
    generalize applySetting c k v = r at h1 h2
    obtain ⟨c', e⟩ := r
    cases e with
    | some e => exact ⟨h1, h2⟩
    | none => exact process_prefix l h2 h1 (fun a b hm => h a b (by simp [hm]))

theorem start_prefix (dirExists : Val → Bool) {c : Config} {p : Str} (settings : List (Str × Val)) (hc : Options c)
    (hv : c.value prefixOption = some (.str p)) (h : ∀ k v, (k, v) ∈ settings → optionName k = prefixOption → v = .str p) :
    (start dirExists c settings).1.value prefixOption = some (.str p) ∧ Options (start dirExists c settings).1 ∧
    (∀ q, (start dirExists c settings).2 = .ok q → q = .str p) := by
  have hp := process_prefix settings hc hv h
  simp only [start]
  split
  · exact ⟨hv, hc, fun q hq => by simp at hq⟩
  · split
    · exact ⟨hv, hc, fun q hq => by simp at hq⟩
    · generalize processSettings c settings = r at hp
      obtain ⟨c', e⟩ := r
      cases e with
      | some e => exact ⟨hp.1, hp.2, fun q hq => by simp at hq⟩
      | none =>
        refine ⟨hp.1, hp.2, fun q hq => ?_⟩
        simp only [Except.ok.injEq] at hq
        rw [← hq, hp.1]
        rfl

/-- What holds of every application of a process in which the prefix is always `p`. -/
def AppOk (p : Str) (a : App C A) : Prop :=
  a.server.pathPrefix = p ∧ (∃ root, a.server.kind = .standalone root) ∧ ∀ page, a.page = some page → page = standalonePage p

theorem mem_modify {α} (f : α → α) : ∀ (n : Nat) (l : List α) (a : α), a ∈ l.modify n f → ∃ b ∈ l, a = b ∨ a = f b
  | _, [], a, h => by simp at h
  | 0, b :: l, a, h => by
    simp only [List.modify_zero_cons, List.mem_cons] at h
    rcases h with rfl | h
    · exact ⟨b, by simp, .inr rfl⟩
    · exact ⟨a, by simp [h], .inl rfl⟩
  | n + 1, b :: l, a, h => by
    simp only [List.modify_succ_cons, List.mem_cons] at h
    rcases h with rfl | h
    · exact ⟨a, by simp, .inl rfl⟩
    · obtain ⟨c, hc, h⟩ := mem_modify f n l a h
      exact ⟨c, by simp [hc], h⟩

/-- **C70** over histories (partial: all applications of the process have the same prefix, without `?` or `#`).  Whatever
applications are created, with whatever other settings, and whenever their pages are asked for: the page of each leads to that
application and its root component. -/
theorem C70_process_partial (dirExists : Val → Bool) (importPath : Str → C) (ops : List (Op C)) (config : Config) (p : Str)
    (hc : Options config) (hv : config.value prefixOption = some (.str p)) (hp : UrlPlain p)
    (hops : ∀ root settings k v, Op.create root settings ∈ ops → (k, v) ∈ settings → optionName k = prefixOption → v = .str p) :
    ∀ a ∈ (World.run (A := A) dirExists importPath ops { config := config }).apps, ∀ page, a.page = some page →
      ∃ root, a.server.kind = .standalone root ∧ LeadsTo a.server page root := by
  suffices hs : ∀ (ops : List (Op C)) (w : World C A), Options w.config → w.config.value prefixOption = some (.str p) →
      (∀ a ∈ w.apps, AppOk p a) →
      (∀ root settings k v, Op.create root settings ∈ ops → (k, v) ∈ settings → optionName k = prefixOption → v = .str p) →
      ∀ a ∈ (World.run dirExists importPath ops w).apps, AppOk p a by
    intro a ha page hpage
    obtain ⟨h1, ⟨root, h2⟩, h3⟩ := hs ops { config := config } hc hv (by simp) hops a ha
    refine ⟨root, h2, ?_⟩
    have := C70_standalone_partial a.server root h2 (by rw [h1]; exact hp)
    rw [h1] at this
    rw [h3 page hpage]
    exact this
  intro ops
  induction ops with
  | nil => intro w _ _ ha _; exact ha
  | cons o os ih =>
    intro w hc hv ha hops
    simp only [World.run]
    cases o with
    | create root settings =>
      obtain ⟨h1, h2, h3⟩ := start_prefix dirExists settings hc hv (fun k v => hops root settings k v (by simp))
      have hops' := fun r s k v (h : Op.create r s ∈ os) => hops r s k v (by simp [h])
      simp only [World.step]
      generalize start dirExists w.config settings = r at h1 h2 h3
      obtain ⟨c', e⟩ := r
      cases e with
      | error e => exact ih _ h2 h1 ha hops'
      | ok q =>
        refine ih _ h2 h1 (fun a hm => ?_) hops'
        simp only [List.mem_append, List.mem_singleton] at hm
        rcases hm with hm | rfl
        · exact ha a hm
        · refine ⟨?_, ⟨root, rfl⟩, by simp⟩
          rw [h3 q rfl]
          rfl
    | visit n =>
      refine ih _ hc hv (fun a hm => ?_) (fun r s k v h => hops r s k v (by simp [h]))
      simp only [World.step] at hm
      obtain ⟨b, hb, rfl | rfl⟩ := mem_modify _ n _ a hm
      · exact ha _ hb
      · obtain ⟨g1, g2, g3⟩ := ha b hb
        rw [hv]
        simp only [App.visit]
        cases hpg : b.page with
        | some page => exact ⟨g1, g2, g3⟩
        | none => exact ⟨g1, g2, fun page hpage => by simpa [prefixText] using hpage.symm⟩

/-- Two applications with the default prefix. -/
example : ((World.run (A := Nat) (fun _ => true) id
    [.create "first".toList [], .create "second".toList [("debug".toList, .bool true)], .visit 0, .visit 1] { config := defaults demo }).apps.map
      (fun a => a.page.map Page.socketPath)) = [some "/reactpy/".toList, some "/reactpy/".toList] := by decide +kernel

/-- **C70 is violated** with two prefixes in one process: when the first page is asked for after the second application was
created, it names the second's prefix, and the first application does not know its websocket. -/
theorem C70_two_prefixes_violated :
    ((World.run (A := Nat) (fun _ => true) id
      [.create "first".toList [("path_prefix".toList, .str "/one/".toList)], .create "second".toList [("path_prefix".toList, .str "/two/".toList)],
        .visit 0] { config := defaults demo }).apps.map (fun a => (a.server.pathPrefix, a.page.map Page.socketPath,
          a.page.map (fun p => a.server.route ⟨.websocket, p.socketPath, []⟩)))) =
      [("/one/".toList, some "/two/".toList, some .app), ("/two/".toList, none, none)] := by decide +kernel

/-- **C70 is violated** by prefixes that are accepted but end the path of a URL: the websocket of `/a?b/` is `/a`. -/
theorem C70_query_violated : ∃ s : Server Str Nat, Verif.Asgi.pathOk s.pathPrefix = true ∧ s.kind = .standalone [] ∧
    s.route ⟨.websocket, (standalonePage s.pathPrefix).socketPath, []⟩ = .app :=
  ⟨{ kind := .standalone [], pathPrefix := "/a?b/".toList, rootPaths := [], importPath := id }, by decide +kernel, rfl, by decide +kernel⟩

/-! ## The import map -/

theorem dropWhile_head {q : Str} (h : q.head? ≠ some '/') : q.dropWhile (· == '/') = q := by
  cases q with
  | nil => rfl
  | cons c q =>
    have : (c == '/') = false := by simpa using h
    rw [List.dropWhile_cons, this]; rfl

/-- Removing the slashes around a prefix. -/
theorem strip_slashes {q : Str} (hne : q ≠ []) (h1 : q.head? ≠ some '/') (h2 : q.getLast? ≠ some '/') : strip ('/' :: q ++ ['/']) = q := by
  have e1 : ('/' :: q ++ ['/']).dropWhile (· == '/') = q ++ ['/'] := by
    rw [List.cons_append, List.dropWhile_cons]
    simp only [beq_self_eq_true, if_true]
    refine dropWhile_head ?_
    cases q with
    | nil => exact absurd rfl hne
    | cons c q => simpa using h1
  simp only [strip, e1, List.reverse_append, List.reverse_cons, List.reverse_nil, List.nil_append, List.singleton_append]
  rw [List.dropWhile_cons]
  simp only [beq_self_eq_true, if_true]
  rw [dropWhile_head, List.reverse_reverse]
  rw [List.head?_reverse]
  exact h2

/-- **C70** (partial: the prefix has one slash at each end with something other than spaces and newlines between them).  The
import map of a page names static files of the application. -/
theorem C70_import_map_partial (s : Server C A) (q : Str) (hp : s.pathPrefix = '/' :: q ++ ['/']) (hne : q ≠ [])
    (h1 : q.head? ≠ some '/') (h2 : q.getLast? ≠ some '/') (h3 : ∀ c ∈ q, c ≠ ' ' ∧ c ≠ '\n') (path : Str) :
    ∀ url ∈ (pageFor s.pathPrefix path).importMap, ∀ query, s.route ⟨.http, url, query⟩ = .static := by
  intro url hu query
  simp only [pageFor, importMap, hp, strip_slashes hne h1 h2, List.mem_map] at hu
  obtain ⟨f, hf, rfl⟩ := hu
  have hall : ∀ c ∈ '/' :: q ++ "/static/".toList ++ f.toList, (c != '\n' && c != ' ') = true := by
    have hf' : ∀ c ∈ f.toList, (c != '\n' && c != ' ') = true := by
      simp only [List.mem_cons, List.not_mem_nil, or_false] at hf
      rcases hf with rfl | rfl | rfl <;> decide +kernel
    have hs : ∀ c ∈ "/static/".toList, (c != '\n' && c != ' ') = true := by decide +kernel
    intro c hc
    rw [List.mem_append, List.mem_append, List.mem_cons] at hc
    rcases hc with ((rfl | hc) | hc) | hc
    · decide
    · have := h3 c hc
      simp [this.1, this.2]
    · exact hs c hc
    · exact hf' c hc
  rw [List.filter_eq_self.2 hall]
  have := route_static (s := s) _ hp f.toList query
  have he : "/static/".toList = ['/'] ++ "static/".toList := by decide
  rw [he]
  simpa only [List.append_assoc, List.cons_append] using this

example : (pageFor "/reactpy/".toList []).importMap = ["/reactpy/static/preact.js".toList, "/reactpy/static/preact-dom.js".toList,
    "/reactpy/static/preact-jsx-runtime.js".toList] := by decide +kernel

/-- **C70 is violated** by the prefix `/`, which is accepted: its import map names `//static/preact.js`, a file of the host `static`. -/
theorem C70_root_prefix_violated : ∃ s : Server Str Nat, Verif.Asgi.pathOk s.pathPrefix = true ∧ s.kind = .standalone [] ∧
    "//static/preact.js".toList ∈ (standalonePage s.pathPrefix).importMap ∧
    s.route ⟨.http, "//static/preact.js".toList, []⟩ = .app :=
  ⟨{ kind := .standalone [], pathPrefix := "/".toList, rootPaths := [], importPath := id }, by decide +kernel, rfl, by decide +kernel,
    by decide +kernel⟩

end Verif.Startup
