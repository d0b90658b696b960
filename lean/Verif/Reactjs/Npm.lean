import Verif.Reactjs.Url
/-!
# Components from NPM packages and the import map of React

`/repo/src/reactpy/reactjs/__init__.py` 136–202, `/repo/src/reactpy/reactjs/module.py` 181–253, `/repo/src/reactpy/executors/utils.py` 95–104.
-/
namespace Verif.Reactjs.Npm

/-- `needle in hay` for texts (called at reactjs/__init__.py 187). -/
def inText (needle : Str) : Str → Bool
  | [] => needle.isEmpty
  | c :: r => needle.isPrefixOf (c :: r) || inText needle r

/-- The names that the package takes from the page (reactjs/__init__.py 189). -/
def externals : List Str := ["react".toList, "react-dom".toList, "react/jsx-runtime".toList]

/-- The URL of `component_from_npm` (reactjs/__init__.py 185–192). -/
def npmUrl (package version cdn : Str) (bundle : Bool) : Str :=
  let url := cdn ++ '/' :: package ++ '@' :: version
  if inText "esm.sh".toList cdn then
    let url := url ++ (if '?' ∈ url then ['&'] else ['?'])
    let url := url ++ "external=".toList ++ Markup.joinWith ',' externals
    let url := if bundle then url ++ "&bundle".toList else url
    url ++ "&target=es2020".toList
  else url

/-- An import map: names and the URLs they stand for.  Simplified: the map is the list of entries instead of its JSON; a quotation mark or a
backslash in the version or in the path prefix, which are written without escapes, is not represented. (module.py 229–236, 245–252) -/
abbrev ImportMap := List (Str × Str)

/-- `.replace("\n", "").replace(" ", "")` (module.py 236, 252; executors/utils.py 104), which also applies to the URLs. -/
def squeeze (s : Str) : Str := s.filter fun c => c != '\n' && c != ' '

/-- `s.strip("/")` (executors/utils.py 96). -/
def stripSlashes (s : Str) : Str := ((s.dropWhile (· == '/')).reverse.dropWhile (· == '/')).reverse

/-- `default_import_map` (executors/utils.py 95–104). -/
def defaultImportMap (pathPrefix : Str) : ImportMap :=
  let p := '/' :: stripSlashes pathPrefix
  [ ("react".toList, squeeze (p ++ "/static/preact.js".toList)),
    ("react-dom".toList, squeeze (p ++ "/static/preact-dom.js".toList)),
    ("react-dom/client".toList, squeeze (p ++ "/static/preact-dom.js".toList)),
    ("react/jsx-runtime".toList, squeeze (p ++ "/static/preact-jsx-runtime.js".toList)) ]

/-- What `import_reactjs` can refuse (module.py 210, 214). -/
inductive Refusal where
  | localWithOther
  | framework
deriving DecidableEq, Repr

/-- `x or y` for texts that may be missing (module.py 212, 225, 241). -/
def orText (x : Option Str) (y : Str) : Str := match x with
  | none => y
  | some [] => y
  | some s => s

/-- Whether a text that may be missing counts as true (module.py 209). -/
def truthy (x : Option Str) : Bool := match x with
  | none => false
  | some s => !s.isEmpty

/-- `import_reactjs` (module.py 181–253): the entries of the script. -/
def importReactjs (debug : Bool) (pathPrefix : Str) (framework version : Option Str) (useLocal : Bool) : Except Refusal ImportMap :=
  if useLocal && (truthy framework || truthy version) then .error .localWithOther
  else
    let framework := orText framework "preact".toList
    if framework ≠ "preact".toList ∧ framework ≠ "react".toList then .error .framework
    else if useLocal then .ok (defaultImportMap pathPrefix)
    else
      let cdn := "https://esm.sh/v135/".toList
      let post := if debug then "?dev".toList else []
      if framework = "react".toList then
        let v := orText version "19".toList
        .ok [ ("react".toList, squeeze (cdn ++ "react".toList ++ '@' :: v ++ post)),
              ("react-dom".toList, squeeze (cdn ++ "react-dom".toList ++ '@' :: v ++ post)),
              ("react-dom/client".toList, squeeze (cdn ++ "react-dom".toList ++ '@' :: v ++ "/client".toList ++ post)),
              ("react/jsx-runtime".toList, squeeze (cdn ++ "react".toList ++ '@' :: v ++ "/jsx-runtime".toList ++ post)) ]
      else
        let v := orText version "10".toList
        .ok [ ("react".toList, squeeze (cdn ++ "preact".toList ++ '@' :: v ++ "/compat".toList ++ post)),
              ("react-dom".toList, squeeze (cdn ++ "preact".toList ++ '@' :: v ++ "/compat".toList ++ post)),
              ("react-dom/client".toList, squeeze (cdn ++ "preact".toList ++ '@' :: v ++ "/compat/client".toList ++ post)),
              ("react/jsx-runtime".toList, squeeze (cdn ++ "preact".toList ++ '@' :: v ++ "/compat/jsx-runtime".toList ++ post)) ]

end Verif.Reactjs.Npm
