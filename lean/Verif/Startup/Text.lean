import Verif.Startup.Model
/-!
# The page of a component as text, and how a browser reads it

`/repo/src/reactpy/executors/utils.py` 62–104 (`server_side_component_html`, `default_import_map`) and
`/repo/src/reactpy/templatetags/jinja.py` 13–40 (`ReactPyJinja`, `component`), whose output is not escaped (`safe_output`, 14).

Simplified: of the reading of HTML, start tags whose attributes have values in double quotes, and text up to the end tag; of
JavaScript, the difference between text in quotes and everything else.
-/
namespace Verif.Startup.Text

/-- `"` in the f-strings of executors/utils.py 66–91. -/
def dq : Str := ['"']

/-- `'` in executors/utils.py 74. -/
def sq : Str := ['\'']

/-- The settings written into the page (executors/utils.py 85–88), as Python shows the numbers. -/
structure Settings where
  pathPrefix : Str
  interval : Str
  maxInterval : Str
  maxRetries : Str
  backoff : Str

/-- executors/utils.py 95–104 `default_import_map`, without spaces and line breaks. -/
def importMapText (pathPrefix : Str) : Str :=
  let p := (strip pathPrefix).filter (fun c => c != '\n' && c != ' ')
  "{\"imports\":{\"react\":\"/".toList ++ p ++ "/static/preact.js\",\"react-dom\":\"/".toList ++ p ++
    "/static/preact-dom.js\",\"react-dom/client\":\"/".toList ++ p ++ "/static/preact-dom.js\",\"react/jsx-runtime\":\"/".toList ++ p ++
    "/static/preact-jsx-runtime.js\"}}".toList

/-- The first script (executors/utils.py 67–77). -/
def mapScript (pathPrefix : Str) : Str :=
  "if (!document.querySelector(".toList ++ dq ++ "#reactpy-importmap".toList ++ dq ++ ")) {   console.debug(     ".toList ++ dq ++
    "ReactPy did not detect a suitable JavaScript import map. Falling back to ReactPy's internal framework (Preact).".toList ++ dq ++
    "   );   const im = document.createElement(".toList ++ dq ++ "script".toList ++ dq ++ ");   im.type = ".toList ++ dq ++
    "importmap".toList ++ dq ++ ";  im.textContent = ".toList ++ sq ++ importMapText pathPrefix ++ sq ++ ";   im.id = ".toList ++ dq ++
    "reactpy-importmap".toList ++ dq ++ ";   document.head.appendChild(im);   delete im;}".toList

/-- The second script (executors/utils.py 80–90). -/
def mountScript (s : Settings) (id path : Str) : Str :=
  "import { mountReactPy } from ".toList ++ dq ++ s.pathPrefix ++ "static/index.js".toList ++ dq ++
    ";mountReactPy({  mountElement: document.getElementById(".toList ++ dq ++ id ++ dq ++ "),  pathPrefix: ".toList ++ dq ++ s.pathPrefix ++ dq ++
    ",  componentPath: ".toList ++ dq ++ path ++ dq ++ ",  reconnectInterval: ".toList ++ s.interval ++
    ",  reconnectMaxInterval: ".toList ++ s.maxInterval ++ ",  reconnectMaxRetries: ".toList ++ s.maxRetries ++
    ",  reconnectBackoffMultiplier: ".toList ++ s.backoff ++ ",});".toList

/-- executors/utils.py 62–92 `server_side_component_html`. -/
def componentHtml (s : Settings) (id class_ path : Str) : Str :=
  "<div id=".toList ++ dq ++ id ++ dq ++ " class=".toList ++ dq ++ class_ ++ dq ++ "></div>".toList ++
    "<script>".toList ++ mapScript s.pathPrefix ++ "</script>".toList ++
    "<script type=".toList ++ dq ++ "module".toList ++ dq ++ " crossorigin=".toList ++ dq ++ "anonymous".toList ++ dq ++ ">".toList ++
    mountScript s id path ++ "</script>".toList

/-- jinja.py 34–40 `component`, with the keyword arguments of the tag; the error has the names of those it does not know. -/
def component (s : Settings) (id dottedPath : Str) (kwargs : List (Str × Str)) : Except (List Str) Str :=
  let class_ := ((kwargs.find? (fun p => p.1 == "class".toList)).map (·.2)).getD []
  let others := kwargs.filter (fun p => p.1 != "class".toList)
  if others ≠ [] then .error (others.map (·.1))
  else .ok (componentHtml s id class_ (dottedPath ++ ['/']))

/-! ## The browser -/

/-- The states of reading a start tag (HTML standard, 13.2.5.32–39; for what executors/utils.py 66, 79 write). -/
inductive TagState where
  | between
  | name (n : Str)
  | equals (n : Str)
  | value (n v : Str)

/-- The attributes of a start tag, and what follows it; `none` where the model does not follow (HTML standard, 13.2.5.32–39; for
what executors/utils.py 66, 79 write).  `decode` replaces character references. -/
def readAttrs (decode : Str → Str) : TagState → Str → Option (List (Str × Str) × Str)
  | _, [] => none
  | .between, c :: s =>
    if c = ' ' then readAttrs decode .between s
    else if c = '>' then some ([], s)
    else readAttrs decode (.name [c]) s
  | .name n, c :: s =>
    if c = '=' then readAttrs decode (.equals n) s
    else if c = '>' then some ([(n, [])], s)
    else if c = ' ' then (readAttrs decode .between s).map fun r => ((n, []) :: r.1, r.2)
    else readAttrs decode (.name (n ++ [c])) s
  | .equals n, c :: s => if c = '"' then readAttrs decode (.value n []) s else none
  | .value n v, c :: s =>
    if c = '"' then (readAttrs decode .between s).map fun r => ((n, decode v) :: r.1, r.2)
    else readAttrs decode (.value n (v ++ [c])) s

/-- The text up to an end tag, and what follows it (HTML standard, 13.2.5.15–17). -/
def content (end_ : Str) : Str → Option (Str × Str)
  | [] => none
  | c :: s =>
    if end_.isPrefixOf (c :: s) then some ([], (c :: s).drop end_.length)
    else (content end_ s).map fun r => (c :: r.1, r.2)

/-- An element (HTML standard, 13.2.5): its attributes and its text, and what follows it. -/
def readElement (decode : Str → Str) (tag s : Str) : Option ((List (Str × Str) × Str) × Str) :=
  if ('<' :: tag).isPrefixOf s then do
    let (attrs, s) ← readAttrs decode .between (s.drop (tag.length + 1))
    let (text, s) ← content ("</".toList ++ tag ++ ['>']) s
    return ((attrs, text), s)
  else none

/-- A piece of JavaScript: a character of code, or a text in quotes (ECMAScript, 12.9.4). -/
inductive Tok where
  | code (c : Char)
  | str (s : Str)
deriving DecidableEq, Repr

/-- JavaScript into pieces, outside of quotes or inside, with the text so far; `none` if a text does not end on its line
(ECMAScript, 12.9.4).  `unescape` is what a character stands for after a backslash. -/
def lex (unescape : Char → Str) : Option (Char × Str) → Str → Option (List Tok)
  | none, [] => some []
  | none, c :: s =>
    if c = '"' ∨ c = '\'' then lex unescape (some (c, [])) s
    else (lex unescape none s).map (.code c :: ·)
  | some _, [] => none
  | some (q, t), c :: s =>
    if c = q then (lex unescape none s).map (.str t :: ·)
    else if c = '\n' ∨ c = '\r' then none
    else if c = '\\' then
      match s with
      | [] => none
      | d :: s => lex unescape (some (q, t ++ unescape d)) s
    else lex unescape (some (q, t ++ [c])) s

/-- What the browser makes of the page: the mount element's attributes and the two scripts, with their attributes. -/
structure Shown where
  mount : List (Str × Str)
  inside : Str
  first : List (Str × Str) × List Tok
  second : List (Str × Str) × List Tok
deriving DecidableEq, Repr

/-- Reading the page (the browser, for executors/utils.py 65–92). -/
def readPage (decode : Str → Str) (unescape : Char → Str) (s : Str) : Option Shown := do
  let ((a0, t0), s) ← readElement decode "div".toList s
  let ((a1, t1), s) ← readElement decode "script".toList s
  let ((a2, t2), _) ← readElement decode "script".toList s
  let p1 ← lex unescape none t1
  let p2 ← lex unescape none t2
  return { mount := a0, inside := t0, first := (a1, p1), second := (a2, p2) }

end Verif.Startup.Text
