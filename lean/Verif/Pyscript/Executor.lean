import Verif.Console.Lines
/-! # The page's Python code

Models `pyscript_executor_html`, `pyscript_component_html`, `pyscript_setup_html` and `extend_pyscript_config` of
`/repo/src/reactpy/executors/pyscript/utils.py` 53–160.  The contents of the files as fetched (`fetch_cached_python_file`, modelled in
`Verif.Pyscript.Model`), the id (`uuid4().hex`), the initial HTML, the address of ReactPy's wheel and `json.dumps` are parameters. -/
namespace Verif.Pyscript.Exec
open Verif.Console.Lines (joinNl indent)

/-- Text (utils.py 61). -/
abbrev Str := List Char

/-- `str.replace(p, r)` for a pattern that is not empty; the number counts characters to skip after a match
(utils.py 69–70, 79, 89). -/
def replaceAll (p r : Str) : Nat → Str → Str
  | _, [] => []
  | k + 1, _ :: l => replaceAll p r k l
  | 0, c :: l => if p.isPrefixOf (c :: l) then r ++ replaceAll p r (p.length - 1) l else c :: replaceAll p r 0 l

/-- `p in s` (utils.py 83). -/
def contains (p : Str) : Str → Bool
  | [] => p.isPrefixOf []
  | c :: l => p.isPrefixOf (c :: l) || contains p l

/-- component_template.py 3–24 after `minify_python` (utils.py 53–55), up to the first `UUID`. -/
def t1 : Str :=
  "import asyncio\nfrom reactpy.executors.pyscript.layout_handler import ReactPyLayoutHandler\ndef user_workspace_".toList
/-- component_template.py 9–20. -/
def t2 : Str := "():\n".toList
/-- The place of the user's code, component_template.py 19 and utils.py 89. -/
def hole : Str := "    def root(): ...".toList
/-- component_template.py 21. -/
def t3 : Str := "\n    ".toList
/-- component_template.py 21 and utils.py 70. -/
def callRoot : Str := "return root()".toList
/-- component_template.py 25. -/
def t4 : Str := "\ntask_".toList
/-- component_template.py 25. -/
def t5 : Str := " = asyncio.create_task(ReactPyLayoutHandler(\"".toList
/-- component_template.py 25. -/
def t6 : Str := "\").run(user_workspace_".toList
/-- component_template.py 25. -/
def t7 : Str := "))".toList
/-- The word replaced at utils.py 69. -/
def uuidWord : Str := "UUID".toList

/-- `PYSCRIPT_COMPONENT_TEMPLATE` (utils.py 53–55). -/
def template : Str :=
  t1 ++ uuidWord ++ t2 ++ hole ++ t3 ++ callRoot ++ t4 ++ uuidWord ++ t5 ++ uuidWord ++ t6 ++ uuidWord ++ t7

/-- The user's code, utils.py 73–80; `sp` tells what is white space. -/
def userCode (sp : Char → Bool) (contents : List Str) : Str :=
  indent sp 4 (replaceAll ['\t'] (List.replicate 4 ' ') 0 (joinNl contents))

/-- utils.py 61–89 `pyscript_executor_html`; `none`: `ValueError`. -/
def executor (sp : Char → Bool) (contents : List Str) (uuid root : Str) : Option Str :=
  let e := replaceAll uuidWord uuid 0 template
  let e := replaceAll callRoot ("return ".toList ++ root ++ "()".toList) 0 e
  let code := userCode sp contents
  if contains ("def ".toList ++ root ++ "():".toList) code then some (replaceAll hole code 0 e) else none

/-- utils.py 92–105 `pyscript_component_html`. -/
def componentHtml (sp : Char → Bool) (contents : List Str) (uuid initial root : Str) : Option Str :=
  (executor sp contents uuid root).map fun code =>
    "<div id=\"pyscript-".toList ++ uuid ++ "\" class=\"pyscript\" data-uuid=\"".toList ++ uuid ++ "\">".toList ++ initial ++
      "</div>".toList ++ "<script type='py'>".toList ++ code ++ "</script>".toList

/-! ## Configuration -/

/-- The JSON values of the configuration that are told apart (utils.py 134–160). -/
inductive J where
  | strs (l : List Str)
  | str (s : Str)
  | modules (l : List (Str × List (Str × Str)))
  | other (n : Nat)

/-- `d[k] = v` (Python dicts keep the place of a key; utils.py 147, 151–159). -/
def put {V : Type} : List (Str × V) → Str → V → List (Str × V)
  | [], k, v => [(k, v)]
  | (k', v') :: l, k, v => if k' = k then (k, v) :: l else (k', v') :: put l k v

/-- `d.update(e)` (utils.py 151–159). -/
def update {V : Type} (d e : List (Str × V)) : List (Str × V) := e.foldl (fun d p => put d p.1 p.2) d

/-- `pkg.endswith(".whl")` (utils.py 146). -/
def isWheel (s : Str) : Bool := ".whl".toList.isSuffixOf s

/-- utils.py 126–160 `extend_pyscript_config`, before `json.dumps`. `wheel` and `morphdom` are the addresses of lines 135 and 139
(`modules`, 140, is not given by the callers in /repo). Strings given for `extra_js` and `config` are parsed by the caller here; an
empty dict changes nothing. -/
def config (wheel morphdom : Str) (extraPy : List Str) (extraJs : List (Str × Str)) (user : List (Str × J)) : List (Str × J) :=
  let packages := [wheel, "jsonpointer==3.*".toList] ++ extraPy
  let main := update [(morphdom, "morphdom".toList)] extraJs
  let d := [("packages".toList, J.strs packages), ("js_modules".toList, J.modules [("main".toList, main)])]
  let d := if packages.any isWheel then put d "packages_cache".toList (J.str "never".toList) else d
  update d user

/-- utils.py 108–125 `pyscript_setup_html`: the last element, with the configuration (the links and scripts before it hold only the
path prefix). -/
def setupScript (dumps : List (Str × J) → Str) (handler : Str) (cfg : List (Str × J)) : Str :=
  "<script type='py' config='".toList ++ dumps cfg ++ "'>".toList ++ handler ++ "</script>".toList

end Verif.Pyscript.Exec
