import Verif.Markup.Names
/-!
# The ASGI applications: /repo/src/reactpy/executors/asgi/middleware.py, standalone.py, pyscript.py and
/repo/src/reactpy/executors/utils.py

Strings are lists of characters.  Servers, sockets, the file servers behind the static and module paths and the user's
applications are outside: the model says which of them is called, and with what the component dispatcher starts.
-/
namespace Verif.Asgi
open Verif.Markup (splitOn put get)

/-- Strings: the paths and prefixes of middleware.py and standalone.py. -/
abbrev Str := List Char

/-! ## Patterns -/

/-- The rest of `s` after a match of the pattern `p` at its start, for patterns of literal characters and `.` (which is
any character but a newline).  Python `re.match`, as called at middleware.py 141, 217 and standalone.py 98–118. -/
def matchText : Str → Str → Option Str
  | [], s => some s
  | _ :: _, [] => none
  | p :: ps, c :: cs => if (if p = '.' then c ≠ '\n' else p = c) then matchText ps cs else none

/-- `[a-zA-Z0-9_.]` -/
def isDotted (c : Char) : Bool := c.isAlphanum || c == '_' || c == '.'

/-- `$` at the end of a pattern: the end of the string, or before a newline at the end.
Python `re`, as used at middleware.py 95. -/
def atEnd (rest : Str) : Bool := rest = [] || rest = ['\n']

/-- `re.match(dispatcher_pattern, path)["dotted_path"]` for `^{prefix}(?P<dotted_path>[a-zA-Z0-9_.]+)/$`
(middleware.py 93–95, 141, 217–220).  The prefix is not escaped.  As `/` is not in the class, the longest run is the only
one that can match. -/
def dispatcherMatch (pre path : Str) : Option Str :=
  match matchText pre path with
  | none => none
  | some rest =>
    match rest.dropWhile isDotted with
    | '/' :: rest' => if rest.takeWhile isDotted ≠ [] ∧ atEnd rest' then some (rest.takeWhile isDotted) else none
    | _ => none

/-- One alternative of a pattern of literal characters, `.`, a leading `^` and a trailing `$`, matched at the start.
Python `re.match`, as called at standalone.py 98–118. -/
def altMatch (alt path : Str) : Bool :=
  let alt := if alt.head? = some '^' then alt.drop 1 else alt
  if alt.getLast? = some '$' then
    match matchText alt.dropLast path with
    | some rest => atEnd rest
    | none => false
  else (matchText alt path).isSome

/-- `re.match(pattern, path)` for patterns of such alternatives. Standalone.py 105–117. -/
def reMatch (pattern path : Str) : Bool := (splitOn '|' pattern).any (fun alt => altMatch alt path)

/-! ## Configuration -/

/-- utils.py 28–39 `check_path`: is the prefix accepted (middleware.py 74–79)? -/
def pathOk (p : Str) : Bool := !p.isEmpty && p.head? == some '/' && p.getLast? == some '/'

/-- `ReactPyMiddleware` (`multiple`), `ReactPy` and `ReactPyCsr`.
The classes of middleware.py 53, standalone.py 42 and pyscript.py 25. -/
inductive Kind (C : Type)
  | middleware
  | standalone (root : C)
  | csr

/-- An application: `C` are component constructors, `A` ASGI applications.  `importPath` is `import_dotted_path`.
The attributes are set at middleware.py 89–113 and standalone.py 72–92. -/
structure Server (C A : Type) where
  kind : Kind C
  pathPrefix : Str
  /-- the `root_components` given to the middleware -/
  rootPaths : List Str
  importPath : Str → C
  httpRoutes : List (String × A) := []
  wsRoutes : List (String × A) := []
  lifespan : Option A := none

variable {C A : Type}

/-- `import_components` (utils.py 21–25), `self.root_components` (middleware.py 104). -/
def Server.rootComponents (s : Server C A) : List (Str × C) :=
  s.rootPaths.foldl (fun d p => (d.filter (fun q => !(q.1 == p))) ++ [(p, s.importPath p)]) []

/-- standalone.py 152–156: the pattern of a route. -/
def routePattern (path : Str) : Str :=
  let p := if path.head? = some '^' then path else '^' :: path
  if p.getLast? = some '$' then p else p ++ ['$']

/-- standalone.py 149–164 `route(path, type)(app)`. -/
def Server.addRoute (s : Server C A) (http : Bool) (path : Str) (app : A) : Server C A :=
  if http then { s with httpRoutes := put s.httpRoutes (String.ofList (routePattern path)) app }
  else { s with wsRoutes := put s.wsRoutes (String.ofList (routePattern path)) app }

/-- standalone.py 168–180 `lifespan(app)`; `none` for the `ValueError`. -/
def Server.setLifespan (s : Server C A) (app : A) : Option (Server C A) :=
  if s.lifespan.isSome then none else some { s with lifespan := some app }

/-! ## Requests -/

/-- The types of ASGI scopes told apart at middleware.py 122–138 and standalone.py 99–117. -/
inductive ScopeType
  | http
  | websocket
  | lifespan
  deriving DecidableEq

/-- An ASGI scope, as far as it is read at middleware.py 115–152, 214–240. -/
structure Scope where
  type : ScopeType
  path : Str
  query : Str

/-- Who handles a request. (the branches of middleware.py 115–138) -/
inductive Handler (A : Type)
  | dispatcher
  | static
  | modules
  | extra (a : A)
  | app
  deriving DecidableEq

/-- `match_dispatch_path`: middleware.py 140–141, standalone.py 94–96, pyscript.py 92–94. -/
def Server.matchDispatch (s : Server C A) (path : Str) : Bool :=
  match s.kind with
  | .middleware => (dispatcherMatch s.pathPrefix path).isSome
  | .standalone _ => path = s.pathPrefix
  | .csr => false

/-- middleware.py 92 `static_path` -/
def Server.staticPath (s : Server C A) : Str := s.pathPrefix ++ "static/".toList
/-- middleware.py 91 `web_modules_path` -/
def Server.modulesPath (s : Server C A) : Str := s.pathPrefix ++ "modules/".toList

/-- `match_extra_paths`: middleware.py 149–152; standalone.py 98–118. -/
def Server.matchExtra (s : Server C A) (sc : Scope) : Option A :=
  match s.kind with
  | .middleware => none
  | _ =>
    match sc.type with
    | .lifespan => s.lifespan
    | .http => (s.httpRoutes.find? (fun r => reMatch r.1.toList sc.path)).map (·.2)
    | .websocket => (s.wsRoutes.find? (fun r => reMatch r.1.toList sc.path)).map (·.2)

/-- middleware.py 115–138 `__call__`. -/
def Server.route (s : Server C A) (sc : Scope) : Handler A :=
  if sc.type = .websocket ∧ s.matchDispatch sc.path then .dispatcher
  else if sc.type = .http ∧ s.staticPath.isPrefixOf sc.path then .static
  else if sc.type = .http ∧ s.modulesPath.isPrefixOf sc.path then .modules
  else
    match s.matchExtra sc with
    | some a => .extra a
    | none => .app

/-- middleware.py 214–231: the component of a connection; `none` where a `RuntimeError` is raised and logged. -/
def Server.component (s : Server C A) (path : Str) : Option C :=
  match s.kind with
  | .middleware =>
    match dispatcherMatch s.pathPrefix path with
    | none => none
    | some d => (s.rootComponents.find? (fun r => r.1 == d)).map (·.2)
  | .standalone root => some root
  | .csr => none

/-- The component whose code runs for a request, if any: the dispatcher must be chosen, the component found, and the query
string parsed (231–238) before it is called (241–245). -/
def Server.rendered {L : Type} (parseQuery : Str → Option L) (s : Server C A) (sc : Scope) : Option (C × L) :=
  match s.route sc with
  | .dispatcher =>
    match s.component sc.path, parseQuery sc.query with
    | some c, some l => some (c, l)
    | _, _ => none
  | _ => none

/-! ## The index document -/

/-- The state of `ReactPyApp` (standalone.py 183–191). -/
structure Page where
  html : String
  etag : String
  lastModified : String

/-- An HTTP request, as far as standalone.py 193–239 reads it. -/
structure Request where
  method : String
  /-- `dict(scope["headers"])` -/
  headers : List (String × String)

/-- A response: the headers in the order of the dict, and the body, which is sent encoded as UTF-8. -/
structure Response where
  status : Nat
  headers : List (String × String)
  body : String

/-- Assigning each of some headers in turn (`**self.parent.extra_headers`). standalone.py 213–221. -/
def update (d e : List (String × String)) : List (String × String) := e.foldl (fun d p => put d p.1 p.2) d

/-- standalone.py 213–221 -/
def responseHeaders (p : Page) (extra : List (String × String)) : List (String × String) :=
  update [("etag", p.etag), ("last-modified", p.lastModified), ("access-control-allow-origin", "*"),
    ("cache-control", "max-age=60, public"), ("content-length", toString p.html.length),
    ("content-type", "text/html; charset=utf-8")] extra

/-- standalone.py 193–239 `ReactPyApp.__call__` for an `http` scope, once the document is rendered. -/
def respond (p : Page) (extra : List (String × String)) (r : Request) : Response :=
  let h := responseHeaders p extra
  if r.method = "HEAD" then ⟨200, h, ""⟩
  else if get r.headers "if-none-match" = some p.etag ∨ get r.headers "if-modified-since" = some p.lastModified then
    ⟨304, Verif.Markup.del h "content-length", ""⟩
  else ⟨200, h, p.html⟩

/-- standalone.py 207–209, 241–258: the document is rendered at the first request, with the clock `now` and the digest
`md5` of the document, and kept. -/
def page (render : String) (md5 : String → String) (now : String) : Option Page → Page
  | some p => if p.html = "" then ⟨render, "\"" ++ md5 render ++ "\"", now⟩ else p
  | none => ⟨render, "\"" ++ md5 render ++ "\"", now⟩

/-- A history of requests, each with the time it came: the responses. One call of standalone.py 193–239 after another. -/
def serveAll (render : String) (md5 : String → String) (extra : List (String × String)) :
    Option Page → List (String × Request) → List Response
  | _, [] => []
  | st, (now, r) :: rs =>
    let p := page render md5 now st
    respond p extra r :: serveAll render md5 extra (some p) rs

end Verif.Asgi
