import Verif.Layout.Model
import Verif.Markup.Model
/-! # PyScript: the layout handler in the browser and the code sent to it

Models `/repo/src/reactpy/executors/pyscript/layout_handler.py` and the text processing of
`/repo/src/reactpy/executors/pyscript/utils.py`. -/
namespace Verif.Pyscript
open Verif.Markup (splitOn)
open Verif.Layout (VJson Shell HEntry AVal)

/-- Python text: source files, global names (utils.py 39, layout_handler.py 128). -/
abbrev Str := List Char

/-! ## Workspaces -/

/-- `f"user_workspace_{uuid}"`, component_template.py 9 and layout_handler.py 144 -/
def workspaceName (uuid : Str) : Str := "user_workspace_".toList ++ uuid
/-- `f"task_{uuid}"`, component_template.py 25 and layout_handler.py 136 -/
def taskName (uuid : Str) : Str := "task_".toList ++ uuid

/-- The names in `globals()`, and what was done: tasks cancelled, names that could not be deleted (logged).
layout_handler.py 128–150. -/
structure Globals where
  names : List Str
  cancelled : List Str := []
  errors : List Str := []

/-- layout_handler.py 128–132: the last part of the name of each workspace. -/
def pythonUuids (names : List Str) : List Str :=
  (names.filter fun n => "user_workspace_".toList.isPrefixOf n).map fun n => (splitOn '_' n).getLastD []

/-- layout_handler.py 136–150: the body of the loop. -/
def deleteWorkspace (g : Globals) (uuid : Str) : Globals :=
  let g := if taskName uuid ∈ g.names then
      { g with names := g.names.filter (· ≠ taskName uuid), cancelled := g.cancelled ++ [taskName uuid] }
    else { g with errors := g.errors ++ [taskName uuid] }
  if workspaceName uuid ∈ g.names then { g with names := g.names.filter (· ≠ workspaceName uuid) }
  else { g with errors := g.errors ++ [workspaceName uuid] }

/-- layout_handler.py 119–150 `delete_old_workspaces`, with the set difference of line 135 enumerated in some order. -/
def deleteOldWorkspaces (names : List Str) (order : List Str) : Globals := order.foldl deleteWorkspace { names := names }

/-- `order` enumerates `python_uuids - dom_uuids`. layout_handler.py 135 (the order of a set is not specified). -/
def Enumerates (names dom order : List Str) : Prop := order.Nodup ∧ ∀ u, u ∈ order ↔ u ∈ pythonUuids names ∧ u ∉ dom

/-! ## The document -/

/-- A listener: the DOM event and the layout target. layout_handler.py 98–117. -/
structure Listener where
  event : String
  target : String
  deriving DecidableEq

/-- The page, as built by layout_handler.py 48–96. -/
inductive Dom where
  | text (s : String)
  | elem (tag : String) (attrs : List (String × AVal)) (listeners : List Listener) (children : List Dom)

/-- layout_handler.py 69–76: the DOM attribute set for each model attribute (`className` and `style` are set through
properties, which are the attributes `class` and `style`; a `style` that is not a dict raises in the code, here values are opaque). -/
def domAttr (p : String × AVal) : String × AVal := if p.1 = "className" then ("class", p.2) else p

/-- layout_handler.py 112–115: `onClick` is the DOM event `click`. -/
def domEvent (name : String) : String :=
  let l := name.toList.map Char.toLower
  String.ofList (if "on".toList.isPrefixOf l then l.drop 2 else l)

mutual
/-- layout_handler.py 48–96 `build_element_tree`: what is appended to `parent`.  Models are strings or dicts, so the
`TypeError` of 94–96 does not occur. -/
def build : VJson → List Dom
  | .text s => [.text s]
  | .obj sh children =>
    let kids := match children with
      | none => []
      | some l => buildAll l
    if sh.tag = "" then kids
    else [.elem sh.tag ((sh.attrs.getD []).map domAttr)
      ((sh.handlers.getD []).map fun h => ⟨domEvent h.event, h.target⟩) kids]
/-- layout_handler.py 58–59, 87–88. -/
def buildAll : List VJson → List Dom
  | [] => []
  | v :: l => build v ++ buildAll l
end

/-! ## Minified sources -/

section
-- the characters matched by `\s` and removed by `str.strip`
variable (isSpace : Char → Bool)

/-- `re.sub(r"#.*\n", "\n", source)` (utils.py 42): whether a line end follows. -/
def dropComments : Str → Str
  | [] => []
  | c :: l => if c = '#' ∧ '\n' ∈ l then dropComment l else c :: dropComments l
where
  /-- inside a comment -/
  dropComment : Str → Str
  | [] => []
  | c :: l => if c = '\n' then '\n' :: dropComments l else dropComment l

/-- The three quotes of the pattern, utils.py 44. -/
def quotes : Str := ['"', '"', '"']

/-- The text after the next `"""`. utils.py 44. -/
def afterQuotes : Str → Option Str
  | [] => none
  | c :: l => if quotes.isPrefixOf (c :: l) then some ((c :: l).drop 3) else afterQuotes l

/-- A match of `\n\s*""".*?"""` here: what follows it. utils.py 44. -/
def docstringAt (l : Str) : Option Str :=
  match l with
  | '\n' :: l =>
    let l := l.dropWhile isSpace
    if quotes.isPrefixOf l then afterQuotes (l.drop 3) else none
  | _ => none

/-- `re.sub(r'\n\s*""".*?"""', "", source, flags=re.DOTALL)` (utils.py 44), with fuel for the length. -/
def dropDocstrings : Nat → Str → Str
  | 0, l => l
  | _, [] => []
  | n + 1, c :: l =>
    match docstringAt isSpace (c :: l) with
    | some rest => dropDocstrings n rest
    | none => c :: dropDocstrings n l

/-- `re.sub(r"\n+", "\n", source)` (utils.py 46) -/
def joinNewlines : Bool → Str → Str
  | _, [] => []
  | after, c :: l => if c = '\n' then (if after then joinNewlines true l else '\n' :: joinNewlines true l) else c :: joinNewlines false l

/-- A run of white space under `re.sub(r"\s+\n", "\n", source)`: up to its last line end it becomes one. utils.py 48. -/
def squeeze (run : Str) : Str := if '\n' ∈ run then '\n' :: (run.reverse.takeWhile (· ≠ '\n')).reverse else run

/-- `re.sub(r"\s+\n", "\n", source)` (utils.py 48), with the white space read so far. -/
def dropBlank : Str → Str → Str
  | run, [] => squeeze run
  | run, c :: l => if isSpace c then dropBlank (run ++ [c]) l else squeeze run ++ c :: dropBlank [] l

/-- `str.strip` utils.py 50. -/
def strip (s : Str) : Str := ((s.dropWhile isSpace).reverse.dropWhile isSpace).reverse

/-- utils.py 39–50 `minify_python` -/
def minify (s : Str) : Str :=
  let s := dropComments s
  strip isSpace (dropBlank isSpace [] (joinNewlines false (dropDocstrings isSpace s.length s)))

/-- utils.py 456–459 `fetch_cached_python_file` on the contents of a file. -/
def fetchFile (s : Str) : Str := minify isSpace (strip isSpace s)
end

end Verif.Pyscript
