import Verif.Markup.Names
/-! # Importing components (src/reactpy/reactjs/__init__.py `component_from_string`, `component_from_file`,
`component_from_url`; src/reactpy/reactjs/module.py `module_to_vdom`, `make_module`, `module_name_suffix`, `get_module_path`)

The three functions have the same form; `C` is what the module is made from: the text, or the file with its text.  For URLs
the table of files plays no part. -/
namespace Verif.Reactjs.Cache
open Verif.Markup (splitOn)

/-- Names, sources and file names (module.py 43–118). -/
abbrev Str := List Char

/-- The arguments of a call.  Simplified: `name` is the name after `name or sha256(...)[:10]` (__init__.py 271, 350), and a
fallback that is given is true in the sense of Python. -/
structure Call (C V : Type) where
  name : Str
  content : C
  resolve : Bool := false
  depth : Nat := 5
  unmount : Bool := false
  fallback : Option V := none
  imports : List Str
  allowChildren : Bool := true

/-- types.py `JavaScriptModule`. Made at module.py 29–40, 71–82, 107–118. -/
structure Module (V : Type) where
  source : Str
  fallback : Option V
  names : Option (List Str)
  unmount : Bool
  deriving DecidableEq

/-- A constructor of elements (module.py 163–178 `make_module`). -/
structure Ctor (V : Type) where
  tag : Str
  allowChildren : Bool
  source : Str
  fallback : Option V
  unmount : Bool
  deriving DecidableEq

/-- `str(b)`. (Python; part of the cache keys of reactjs/__init__.py) -/
def pyBool : Bool → Str
  | true => ['T', 'r', 'u', 'e']
  | false => ['F', 'a', 'l', 's', 'e']

/-- __init__.py 91, 272, 351: `f"{name}{resolve_imports}{resolve_imports_depth}{unmount_before_update}"`. -/
def keyOf {C V : Type} (a : Call C V) : Str := a.name ++ pyBool a.resolve ++ (Nat.repr a.depth).toList ++ pyBool a.unmount

/-- `e.split(".")[0]`. -/
def rootName (s : Str) : Str := s.takeWhile (· != '.')

/-- module.py 121–160 `module_to_vdom`; `none` stands for `ValueError`. -/
def moduleToVdom {V : Type} (m : Module V) (imports : List Str) (fallback : Option V) (allowChildren : Bool) : Option (List (Ctor V)) :=
  match m.names with
  | some names => if imports.all (fun i => names.contains (rootName i)) then some (imports.map make) else none
  | none => some (imports.map make)
where
  /-- module.py 163–178 `make_module`: `fallback or web_module.default_fallback`. -/
  make (name : Str) : Ctor V := ⟨name, allowChildren, m.source, fallback.or m.fallback, m.unmount⟩

/-- The cache of modules and the files that are served.
The caches of reactjs/__init__.py 30–32, and the files written by module.py 57–69, 97–105. -/
structure St (C V : Type) where
  cache : Str → Option (Module V) := fun _ => none
  files : Str → Option C := fun _ => none

section
variable {C V : Type} (namesOf : C → Nat → List Str)

/-- module.py 85–118 `string_to_module`, 43–82 `file_to_module`: the module made for a call. -/
def build (a : Call C V) : Module V := ⟨a.name, a.fallback, if a.resolve then some (namesOf a.content a.depth) else none, a.unmount⟩

/-- __init__.py 350–364 `component_from_string` (and 271–286, 91–103). -/
def call (s : St C V) (a : Call C V) : St C V × Option (List (Ctor V)) :=
  match s.cache (keyOf a) with
  | some m => (s, moduleToVdom m a.imports a.fallback a.allowChildren)
  | none =>
    let m := build namesOf a
    ({ cache := fun k => if k = keyOf a then some m else s.cache k, files := fun n => if n = a.name then some a.content else s.files n },
      moduleToVdom m a.imports a.fallback a.allowChildren)

/-- Any sequence of calls of the functions of reactjs/__init__.py. -/
def calls (s : St C V) (l : List (Call C V)) : St C V := l.foldl (fun s a => (call namesOf s a).1) s
end

/-! ## Names of module files -/

/-- `PurePosixPath(s).suffix`: the last component from its last dot, unless that is its first or last character.
(Python; used by `module_name_suffix`, module.py 256–261) -/
def pathSuffix (s : Str) : Str :=
  let last := ((splitOn '/' s).filter (fun c => c ≠ [] ∧ c ≠ ['.'])).getLast?.getD []
  let ext := last.reverse.takeWhile (· != '.')
  if '.' ∈ last ∧ ext ≠ [] ∧ ext.length + 1 < last.length then '.' :: ext.reverse else []

/-- module.py 256–261 `module_name_suffix`. -/
def nameSuffix (name : Str) : Str :=
  let name := match name with
    | '@' :: n => n
    | n => n
  let head := name.takeWhile (· != '@')
  let tail := (name.dropWhile (· != '@')).tail
  let tail := (tail.dropWhile (· != '/')).tail
  let suffix := pathSuffix (if tail ≠ [] then tail else head)
  if suffix ≠ [] then suffix else ['.', 'j', 's']

/-- module.py 264–267 `get_module_path`: the components below the modules directory.  `..` is left to the file system. -/
def modulePath (name : Str) : List Str := (splitOn '/' name).filter (fun c => c ≠ [] ∧ c ≠ ['.'])

/-- Where the file system finds a path: `..` goes up. (file system; the path made by `get_module_path`, module.py 264–267) -/
def locate : List Str → List Str → List Str
  | dir, [] => dir
  | dir, c :: path => if c = ['.', '.'] then locate dir.dropLast path else locate (dir ++ [c]) path

/-- The file of a module: `name += module_name_suffix(name)`, then its path (module.py 52–55, 93–95). -/
def moduleFile (dir : List Str) (name : Str) : List Str := locate dir (modulePath (name ++ nameSuffix name))

end Verif.Reactjs.Cache
