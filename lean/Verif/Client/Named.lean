import Verif.Markup.Names
/-! # Names of imported components

Models `/repo/src/reactpy/core/vdom.py` 128–159 (`Vdom.__init__`, `Vdom.__getattr__`: nested components) and
`/repo/src/js/packages/@reactpy/client/src/vdom.tsx` 119–153 (`getComponentFromModule`).

Objects of the page are numbers; a property is an own one or one inherited from a prototype, and its value an object (anything that is
true in the sense of JavaScript) or nothing (anything else). -/
namespace Verif.Client.Named
open Verif.Markup (splitOn joinWith)

/-- Texts (vdom.py 133). -/
abbrev Str := List Char

/-- A constructor of elements (vdom.py 128–148). -/
structure Ctor where
  name : Str
  allowChildren : Bool
  /-- `import_source`; `none` for elements of the page itself. -/
  source : Option Nat
deriving DecidableEq, Repr

/-- Attributes that every constructor has itself (vdom.py 139–148: set by `__init__`, found before `__getattr__` is asked).  Simplified: the other names
with double underscores that every Python object has are left out. -/
def ownAttributes : List Str :=
  ["allow_children".toList, "custom_constructor".toList, "import_source".toList, "__name__".toList, "__module__".toList,
   "__qualname__".toList]

/-- What the access of an attribute of a constructor gives. -/
inductive Attr where
  | ctor (c : Ctor)
  /-- A value that is no constructor. -/
  | other
  /-- `AttributeError` (vdom.py 152–154). -/
  | error
deriving DecidableEq, Repr

/-- `constructor.attr` (vdom.py 150–159). -/
def getattr (c : Ctor) (attr : Str) : Attr :=
  if attr ∈ ownAttributes then .other
  else match c.source with
    | none => .error
    | some s => .ctor { name := c.name ++ '.' :: attr, allowChildren := c.allowChildren, source := some s }

/-- `constructor.a.b.c` (vdom.py 150–159). -/
def getattrs (c : Ctor) : List Str → Attr
  | [] => .ctor c
  | a :: l =>
    match getattr c a with
    | .ctor c' => getattrs c' l
    | r => r

/-- The objects of the page (vdom.tsx 133). -/
structure Heap where
  own : Nat → Str → Option Nat
  inherited : Nat → Str → Option Nat

/-- `object[name]` (vdom.tsx 133). -/
def Heap.get (h : Heap) (o : Nat) (name : Str) : Option Nat := (h.own o name).or (h.inherited o name)

/-- What is written to the console (vdom.tsx 135–147). -/
inductive Log where
  /-- "Module from source … does not export …". -/
  | noExport (name : Str)
  /-- "Component … from source … does not have subcomponent …". -/
  | noSub (component name : Str)
deriving DecidableEq, Repr

/-- The loop of `getComponentFromModule` (vdom.tsx 131–151): `done` are the parts before, `cur` what was found for them. -/
def walk (h : Heap) (done : List Str) (cur : Nat) : List Str → Option Nat × List Log
  | [] => (some cur, [])
  | p :: l =>
    match h.get cur p with
    | some c => walk h (done ++ [p]) c l
    | none => (none, [if done = [] then .noExport p else .noSub (joinWith '.' done) p])

/-- `getComponentFromModule` (vdom.tsx 119–153): what was found, if it is true in the sense of JavaScript, and the messages. -/
def getComponent (h : Heap) (module : Nat) (name : Str) : Option Nat × List Log := walk h [] module (splitOn '.' name)

end Verif.Client.Named
