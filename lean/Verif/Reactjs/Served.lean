import Verif.Reactjs.Cache
import Verif.Location.Model
import Verif.Asgi.Model
/-!
# From the module written to the module loaded

The files of modules are written below the directory that the option has when the module is made
(`/repo/src/reactpy/reactjs/module.py` 43–118, 256–267, and the caches of `reactjs/__init__.py`); each application keeps the
directory that the option has when the application is made, and serves it through a file server that is made at the first
request (`/repo/src/reactpy/executors/asgi/middleware.py` 88–113, 257–310); the browser asks for
`${origin}${prefix}modules/${source}` (`mount.tsx` 24, `client.ts` 93–95).

Two parts are not code of /repo: what browsers make of a URL (URL standard), and the file server (`servestatic`).  Paths are
lists of components.  Simplified: characters that are not ASCII stand for themselves, where they are UTF-8 bytes encoded by the
browser and decoded by the server; no links in the file system.
-/
namespace Verif.Reactjs.Served
open Verif.Markup (splitOn joinWith)
open Verif.Reactjs.Cache (Str Call keyOf nameSuffix moduleFile)
open Verif.Location (hexDigit hexValue)

/-- Paths of the file system, as made at module.py 264–267. -/
abbrev Path := List Str

/-! ## The browser -/

/-- URL standard, "path percent-encode set", for ASCII. (browser; for client.ts 93–95) -/
def inPathSet (c : Char) : Bool := c.toNat ≤ 0x20 || c.toNat == 0x7f || c ∈ ['"', '#', '<', '>', '?', '^', '`', '{', '}']

/-- URL standard, "percent-encode after encoding".  `%` is left as it is. (browser; for client.ts 93–95) -/
def encodeChar (c : Char) : Str :=
  if inPathSet c then ['%', hexDigit (Fin.ofNat 16 (c.toNat / 16)), hexDigit (Fin.ofNat 16 c.toNat)] else [c]

/-- URL standard, "single-dot path segment". (browser; for client.ts 93–95) -/
def singleDot (s : Str) : Bool := s.map Char.toLower ∈ [['.'], ['%', '2', 'e']]

/-- URL standard, "double-dot path segment". (browser; for client.ts 93–95) -/
def doubleDot (s : Str) : Bool :=
  s.map Char.toLower ∈ [['.', '.'], ['.', '%', '2', 'e'], ['%', '2', 'e', '.'], ['%', '2', 'e', '%', '2', 'e']]

/-- URL standard, "path state": the segments of the path, from those read and those to come. (browser; for client.ts 93–95) -/
def segments : List Str → List Str → List Str
  | acc, [] => acc
  | acc, [s] => if doubleDot s then acc.dropLast ++ [[]] else if singleDot s then acc ++ [[]] else acc ++ [s.flatMap encodeChar]
  | acc, s :: t :: l =>
    if doubleDot s then segments acc.dropLast (t :: l)
    else if singleDot s then segments acc (t :: l)
    else segments (acc ++ [s.flatMap encodeChar]) (t :: l)

/-- URL standard, "basic URL parser": spaces and control characters at the end are cut off, tabs and newlines left out; the path
ends at `?` or `#`, and `\` is `/`. (browser; for client.ts 93–95) -/
def pathText (s : Str) : Str :=
  ((((s.reverse.dropWhile (fun c => c.toNat ≤ 0x20)).reverse.filter (fun c => c ≠ '\t' ∧ c ≠ '\n' ∧ c ≠ '\r')).takeWhile
    (fun c => c != '?' && c != '#')).map (fun c => if c = '\\' then '/' else c))

/-- The path that the browser asks for, for a URL of the origin followed by `s`, which begins with `/`.
(browser; for client.ts 93–95, mount.tsx 24) -/
def requestPath (s : Str) : Str := '/' :: joinWith '/' (segments [] (splitOn '/' (pathText s).tail))

/-! ## The server -/

/-- The `path` of an ASGI scope: percent-encoding is undone. (ASGI server; read at middleware.py 146–147) -/
def decode : Str → Str
  | [] => []
  | '%' :: a :: b :: s =>
    match hexValue a, hexValue b with
    | some x, some y => Char.ofNat (16 * x.val + y.val) :: decode s
    | _, _ => '%' :: decode (a :: b :: s)
  | c :: s => c :: decode s

/-- `ServeStaticASGI(Error404App(), root, prefix, autorefresh)`: `scanned` are the files at the time it is made.
(servestatic; made at middleware.py 290–296) -/
structure FileServer (C : Type) where
  root : Path
  urlPrefix : Str
  autorefresh : Bool
  scanned : Path → Option C

/-- servestatic, `url_is_canonical`: no `\`, and nothing that `posixpath.normpath` would change.
(servestatic; called through middleware.py 298–302) -/
def canonical (url : Str) : Bool :=
  !url.contains '\\' && match url with
    | '/' :: r => (splitOn '/' (if r.getLast? = some '/' then r.dropLast else r)).all (fun p => p != [] && p != ['.'] && p != ['.', '.'])
    | _ => false

/-- servestatic, `find_file`: with `autorefresh`, the file is looked for at the time of the request; otherwise among the files
found when the server was made. (servestatic; called through middleware.py 298–302) -/
def FileServer.find {C : Type} (fs : FileServer C) (files : Path → Option C) (url : Str) : Option C :=
  if canonical url && fs.urlPrefix.isPrefixOf url then
    (if fs.autorefresh then files else fs.scanned) (fs.root ++ splitOn '/' (url.drop fs.urlPrefix.length))
  else none

/-- An application: the parts of middleware.py 88–113 and 281–284 that matter here. -/
structure App (C : Type) where
  server : Verif.Asgi.Server Unit Unit
  /-- `web_modules_dir` (middleware.py 107) -/
  modulesDir : Path
  /-- `_static_file_server` (middleware.py 284) -/
  fileServer : Option (FileServer C) := none

/-- middleware.py 290–296: the file server of the application, made when it is first needed. -/
def App.visit {C : Type} (files : Path → Option C) (a : App C) : App C :=
  match a.fileServer with
  | some _ => a
  | none => { a with fileServer := some { root := a.modulesDir, urlPrefix := a.server.modulesPath, autorefresh := true, scanned := files } }

/-- A process: `REACTPY_WEB_MODULES_DIR` (config.py 66–72), the files, the keys in the caches of modules from files and from
strings (reactjs/__init__.py 31–32), and the applications, oldest first. -/
structure World (C : Type) where
  dir : Path
  files : Path → Option C := fun _ => none
  cache : List (Bool × Str) := []
  apps : List (App C) := []

/-- What happens in a process (config.py 66–72, middleware.py 72–138, module.py 43–118). -/
inductive Op (C : Type) where
  /-- `REACTPY_WEB_MODULES_DIR.current = d` -/
  | setDir (d : Path)
  /-- an application, with the setting `web_modules_dir` if there is one (middleware.py 72–113) -/
  | app (s : Verif.Asgi.Server Unit Unit) (d : Option Path)
  /-- `string_to_module` or `file_to_module` (module.py 43–118) -/
  | make (name : Str) (content : C)
  /-- `component_from_file` or `component_from_string` (reactjs/__init__.py 271–286, 350–364) -/
  | component (fromFile : Bool) (call : Call C Unit)
  /-- an HTTP request to an application -/
  | request (app : Nat) (path : Str)

/-- module.py 53–69, 93–105: the file is written below the directory that the option has now. -/
def World.write {C : Type} (w : World C) (name : Str) (content : C) : World C :=
  { w with files := fun p => if p = moduleFile w.dir name then some content else w.files p }

/-- Is a request one for modules (middleware.py 128–130, 146–147)? -/
def App.forModules {C : Type} (a : App C) (path : Str) : Bool :=
  match a.server.route ⟨.http, path, []⟩ with
  | .modules => true
  | _ => false

/-- One step of a process: config.py 66–72, middleware.py 72–113, 128–130, module.py 43–118, reactjs/__init__.py 271–286, 350–364. -/
def World.step {C : Type} (w : World C) : Op C → World C
  | .setDir d => { w with dir := d }
  | .app s d => { w with dir := d.getD w.dir, apps := w.apps ++ [{ server := s, modulesDir := d.getD w.dir }] }
  | .make name content => w.write name content
  | .component f a => if (f, keyOf a) ∈ w.cache then w else { w.write a.name a.content with cache := (f, keyOf a) :: w.cache }
  | .request n path => { w with apps := w.apps.modify n (fun a => if a.forModules path then a.visit w.files else a) }

/-- Any history of a process (middleware.py 72–138, module.py 43–118). -/
def World.run {C : Type} (w : World C) (ops : List (Op C)) : World C := ops.foldl World.step w

/-- What a request gives: a file, the answer of `Error404App` (middleware.py 305–310), or something that is not of modules. -/
inductive Reply (C : Type) where
  | file (c : C)
  | notFound
  | other
  deriving DecidableEq

/-- middleware.py 128–130, 286–302: the reply to an HTTP request. -/
def World.reply {C : Type} (w : World C) (n : Nat) (path : Str) : Reply C :=
  match w.apps[n]? with
  | none => .other
  | some a =>
    if a.forModules path then
      match (a.visit w.files).fileServer with
      | none => .other
      | some fs =>
        match fs.find w.files path with
        | some c => .file c
        | none => .notFound
    else .other

/-- mount.tsx 24, client.ts 93–95: what a page of an application gets for `import(...)` of a module. -/
def World.load {C : Type} (w : World C) (n : Nat) (source : Str) : Reply C :=
  match w.apps[n]? with
  | none => .other
  | some a => w.reply n (decode (requestPath (a.server.pathPrefix ++ "modules/".toList ++ source)))

/-- module.py 52, 93: the `source` of the module made for a name. -/
def sourceOf (name : Str) : Str := name ++ nameSuffix name

end Verif.Reactjs.Served
