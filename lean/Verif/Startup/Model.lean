import Verif.Option.Model
import Verif.Asgi.Model
/-!
# Starting applications, and the pages they serve

`/repo/src/reactpy/config.py`, `/repo/src/reactpy/executors/utils.py` (`check_path`, `process_settings`,
`server_side_component_html`, `default_import_map`), the constructor of
`/repo/src/reactpy/executors/asgi/middleware.py` (72–93, 106), `standalone.py` (208–209, 247–256) and
`/repo/src/reactpy/templatetags/jinja.py` (`component`); on the browser's side
`/repo/src/js/packages/@reactpy/client/src/mount.tsx` (6–12, 24).

Options are the trees of `Verif.Option`.  The page is modelled by the values in it, not as text: what the `<script>` passes to
`mountReactPy`, where it imports the client from, and the import map.  (The text has them between quotes as they are, so this is
right for values without `"`, `'`, `\` and line breaks.)
-/
namespace Verif.Startup
open Verif.Option (Tree Info Err)

/-- Names of settings and texts (executors/utils.py 49–59). -/
abbrev Str := List Char

/-! ## Values and validators -/

/-- Python values: floats, paths and everything else are `other`.
The values of settings (executors/utils.py 57), told apart at config.py 18–23. -/
inductive Val where
  | bool (b : Bool)
  | int (n : Int)
  | str (s : Str)
  | other (id : Nat)
deriving DecidableEq, Repr

/-- Python's `!=`: `True == 1`, `False == 0`. -/
def pyNe : Val → Val → Bool
  | .bool a, .int n => n != (if a then 1 else 0)
  | .int n, .bool a => n != (if a then 1 else 0)
  | a, b => a != b

/-- `bool(value)`; everything else is taken to be true. config.py 21; executors/utils.py 30. -/
def truthy : Val → Bool
  | .bool b => b
  | .int n => n != 0
  | .str s => !s.isEmpty
  | .other _ => true

/-- `value.lower()` for ASCII. config.py 25, 27. -/
def lower (s : Str) : Str := s.map Char.toLower

/-- config.py 17–33 `boolean`. -/
def boolean : Val → Except Err Val
  | .bool b => .ok (.bool b)
  | .int n => .ok (.bool (n != 0))
  | .str s =>
    if lower s ∈ ["true".toList, "1".toList] then .ok (.bool true)
    else if lower s ∈ ["false".toList, "0".toList] then .ok (.bool false)
    else .error .value
  | .other _ => .error .type

/-- Python's `int`, `float`, `str` and `Path`. The validators of config.py 66–141 other than `boolean`. -/
structure Builtins where
  int : Val → Except Err Val
  float : Val → Except Err Val
  str : Val → Except Err Val
  path : Val → Except Err Val

/-! ## Configuration -/

/-- The options without a parent, by name.  A child of an option is a subscriber of it. config.py 36–141. -/
abbrev Config := List (Str × Tree Val)

/-- The options with a parent: its name, and the place among its subscribers (config.py 45–61). -/
def children : List (Str × Str × List Nat) :=
  [("REACTPY_CHECK_VDOM_SPEC".toList, "REACTPY_DEBUG".toList, [0]), ("REACTPY_CHECK_JSON_ATTRS".toList, "REACTPY_DEBUG".toList, [1])]

/-- config.py 36–152, with no variable set in the environment. -/
def defaults (b : Builtins) : Config :=
  [("REACTPY_DEBUG".toList, .opt ⟨true, boolean, .bool false⟩ none
      [.opt ⟨true, boolean, .bool false⟩ none [], .opt ⟨true, boolean, .bool false⟩ none []]),
    ("REACTPY_WEB_MODULES_DIR".toList, .opt ⟨true, b.path, .other 0⟩ none []),
    ("REACTPY_TESTS_DEFAULT_TIMEOUT".toList, .opt ⟨false, b.float, .other 15⟩ none []),
    ("REACTPY_ASYNC_RENDERING".toList, .opt ⟨true, boolean, .bool true⟩ none []),
    ("REACTPY_RECONNECT_INTERVAL".toList, .opt ⟨true, b.int, .int 750⟩ none []),
    ("REACTPY_RECONNECT_MAX_INTERVAL".toList, .opt ⟨true, b.int, .int 60000⟩ none []),
    ("REACTPY_RECONNECT_MAX_RETRIES".toList, .opt ⟨true, b.int, .int 150⟩ none []),
    ("REACTPY_RECONNECT_BACKOFF_MULTIPLIER".toList, .opt ⟨true, b.float, .other 125⟩ none []),
    ("REACTPY_PATH_PREFIX".toList, .opt ⟨true, b.str, .str "/reactpy/".toList⟩ none []),
    ("REACTPY_MAX_QUEUE_SIZE".toList, .opt ⟨true, b.int, .int 1000⟩ none [])]

/-- The option of a name. `getattr(config, name, None)`, executors/utils.py 55. -/
def Config.get (c : Config) (name : Str) : Option (Tree Val) := (c.find? (fun p => p.1 == name)).map (·.2)

/-- The option of a name in another state (auxiliary; options are objects, changed in place at executors/utils.py 57). -/
def Config.put (c : Config) (name : Str) (t : Tree Val) : Config := c.map (fun p => if p.1 == name then (name, t) else p)

/-- `getattr(config, name, None)` (utils.py 55): where the option of a name is. -/
def Config.locate (c : Config) (name : Str) : Option (Str × List Nat) :=
  if (c.get name).isSome then some (name, [])
  else (children.find? (fun p => p.1 == name)).map (·.2)

/-- The present value of the option of a name. `option.current`, _option.py 62–66. -/
def Config.value (c : Config) (name : Str) : Option Val := (c.get name).bind Tree.value

/-- executors/utils.py 57, 59; middleware.py 73–86. -/
inductive StartErr where
  | unknown
  | invalid
  | option (e : Err)
deriving DecidableEq, Repr

/-- `f"REACTPY_{setting.upper()}"` for ASCII (utils.py 54). -/
def optionName (setting : Str) : Str := "REACTPY_".toList ++ setting.map Char.toUpper

/-- utils.py 54–59: one setting. -/
def applySetting (c : Config) (k : Str) (v : Val) : Config × Option StartErr :=
  match c.locate (optionName k) with
  | none => (c, some .unknown)
  | some (root, path) =>
    match c.get root with
    | none => (c, some .unknown)
    | some t =>
      match Verif.Option.actAt pyNe (.set v) path t with
      | (t', .error e) => (c.put root t', some (.option e))
      | (t', .ok _) => (c.put root t', none)

/-- utils.py 49–59 `process_settings`. -/
def processSettings : Config → List (Str × Val) → Config × Option StartErr
  | c, [] => (c, none)
  | c, (k, v) :: l =>
    match applySetting c k v with
    | (c', some e) => (c', some e)
    | (c', none) => processSettings c' l

/-- utils.py 28–39 `check_path`: is the prefix accepted? -/
def checkPath (v : Val) : Bool :=
  truthy v && match v with
    | .str s => Verif.Asgi.pathOk s
    | _ => false

/-- The names of the settings that are checked first, and of the option of the prefix. middleware.py 73–86. -/
def prefixKey : Str := "path_prefix".toList
/-- middleware.py 73–86. -/
def modulesKey : Str := "web_modules_dir".toList
/-- config.py 126–132. -/
def prefixOption : Str := "REACTPY_PATH_PREFIX".toList

/-- `settings.get`/`in settings`, middleware.py 73–86. -/
def lookup (settings : List (Str × Val)) (k : Str) : Option Val := (settings.find? (fun p => p.1 == k)).map (·.2)

/-- middleware.py 74–79 -/
def badPrefix (settings : List (Str × Val)) : Bool :=
  match lookup settings prefixKey with
  | some v => !checkPath v
  | none => false

/-- middleware.py 80–83; `dirExists` is `Path.exists`. -/
def badDir (dirExists : Val → Bool) (settings : List (Str × Val)) : Bool :=
  match lookup settings modulesKey with
  | some v => !dirExists v
  | none => false

/-- middleware.py 72–89: the constructor, up to `self.path_prefix`. -/
def start (dirExists : Val → Bool) (c : Config) (settings : List (Str × Val)) : Config × Except StartErr Val :=
  if badPrefix settings then (c, .error .invalid)
  else if badDir dirExists settings then (c, .error .invalid)
  else match processSettings c settings with
    | (c', some e) => (c', .error e)
    | (c', none) => (c', .ok ((c'.value prefixOption).getD (.other 0)))

/-! ## Pages -/

/-- What a page says: the arguments of `mountReactPy` that name paths, the script the client is imported from, and the
import map (utils.py 62–104). -/
structure Page where
  pathPrefix : Str
  componentPath : Str
  clientScript : Str
  importMap : List Str
deriving DecidableEq, Repr

/-- Python's `s.strip("/")`. executors/utils.py 96. -/
def strip (s : Str) : Str := ((s.dropWhile (· == '/')).reverse.dropWhile (· == '/')).reverse

/-- utils.py 95–104 `default_import_map`, with the `.replace("\n", "").replace(" ", "")`. -/
def importMap (pathPrefix : Str) : List Str :=
  ["preact.js", "preact-dom.js", "preact-jsx-runtime.js"].map fun f =>
    ('/' :: strip pathPrefix ++ "/static/".toList ++ f.toList).filter (fun c => c != '\n' && c != ' ')

/-- utils.py 62–92 `server_side_component_html`, which reads the option when it is called. -/
def pageFor (globalPrefix componentPath : Str) : Page :=
  { pathPrefix := globalPrefix
    componentPath := componentPath
    clientScript := globalPrefix ++ "static/index.js".toList
    importMap := importMap globalPrefix }

/-- standalone.py 247–256: the page of a standalone application. -/
def standalonePage (globalPrefix : Str) : Page := pageFor globalPrefix []

/-- jinja.py 34–40: what the `component` tag puts into a page. -/
def tagPage (globalPrefix dottedPath : Str) : Page := pageFor globalPrefix (dottedPath ++ ['/'])

/-- The path of a URL: up to a `?` or `#`.  (Percent-encoding and its decoding by the server undo one another; `.` and `..`
segments are not resolved here.) (browser; the URLs of executors/utils.py 74, 81) -/
def urlPath (s : Str) : Str := s.takeWhile (fun c => c != '?' && c != '#')

/-- mount.tsx 8–12: the path of the websocket. -/
def Page.socketPath (p : Page) : Str := urlPath (p.pathPrefix ++ p.componentPath)

/-- mount.tsx 24, client.ts 93–95: the path of a JavaScript module. -/
def Page.modulePath (p : Page) (name : Str) : Str := urlPath (p.pathPrefix ++ "modules/".toList ++ name)

/-! ## A process with several standalone applications -/

/-- A standalone application: its server, and the page it keeps (`_index_html`, standalone.py 189, 208–209). -/
structure App (C A : Type) where
  server : Verif.Asgi.Server C A
  page : Option Page := none

/-- The global options (config.py) and the applications made (standalone.py 45–92). -/
structure World (C A : Type) where
  config : Config
  /-- oldest first -/
  apps : List (App C A) := []

/-- standalone.py 45–92, 193–239. -/
inductive Op (C : Type) where
  /-- `ReactPy(root, **settings)` -/
  | create (root : C) (settings : List (Str × Val))
  /-- a request for the page of the `n`-th application -/
  | visit (n : Nat)

/-- The text of a value of the prefix option. (auxiliary; executors/utils.py 81, 84) -/
def prefixText : Val → Str
  | .str s => s
  | _ => []

variable {C A : Type}

/-- The page of an application when it is asked for: kept from the first time, else rendered with the prefix that the option
has now (utils.py 83–86). -/
def App.visit (globalPrefix : Str) (a : App C A) : App C A :=
  match a.page with
  | some _ => a
  | none => { a with page := some (standalonePage globalPrefix) }

/-- standalone.py 45–92, 193–239. -/
def World.step (dirExists : Val → Bool) (importPath : Str → C) (w : World C A) : Op C → World C A
  | .create root settings =>
    match start dirExists w.config settings with
    | (c', .error _) => { w with config := c' }
    | (c', .ok p) =>
      { config := c'
        apps := w.apps ++ [{ server := { kind := .standalone root, pathPrefix := prefixText p, rootPaths := [], importPath := importPath } }] }
  | .visit n =>
    { w with apps := w.apps.modify n (App.visit (prefixText ((w.config.value prefixOption).getD (.other 0)))) }

/-- Any history of standalone.py 45–92, 193–239. -/
def World.run (dirExists : Val → Bool) (importPath : Str → C) : List (Op C) → World C A → World C A
  | [], w => w
  | o :: os, w => World.run dirExists importPath os (w.step dirExists importPath o)

end Verif.Startup
