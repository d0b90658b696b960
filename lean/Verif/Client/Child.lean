import Verif.Client.Binding
/-!
# Imported components inside imported components

The custom element `reactpy-child` of `/repo/src/js/packages/@reactpy/client/src/vdom.tsx` 313–394, which shows a component of
another module inside one of this, and the reference through which it is given models (84–92).
-/
namespace Verif.Client.Child
open Verif.Client

/-- A model given to the element: its import source (source and type, 155–163) and the model itself. -/
structure M where
  src : Nat
  id : Nat
deriving DecidableEq, Repr

/-- The element (313–324): whether it is connected, `_model`, `binding`, `currentImportSource`, calls of `update` that are
waiting for a module, and the calls made so far.  `next` numbers loads and bindings. -/
structure State where
  conn : Bool := false
  model : Option M := none
  binding : Option Nat := none
  cur : Option Nat := none
  waiting : List (Nat × Nat) := []
  next : Nat := 0
  ops : List Op := []
deriving DecidableEq, Repr

/-- How waiting ends (362–379): the module binds properly, gives an improper binding, raises while binding, or cannot be
loaded. -/
inductive Loaded where
  | proper
  | improper
  | raises
  | failed
deriving DecidableEq, Repr

/-- What happens (vdom.tsx 326–394): the browser connects or disconnects the element; a model is given; a load ends. -/
inductive Act where
  | connect
  | disconnect
  | give (m : M)
  | load (id : Nat) (o : Loaded)
deriving DecidableEq, Repr

/-- The binding is unmounted, if there is one (354–357). -/
def drop (s : State) : State :=
  match s.binding with
  | some b => { s with binding := none, ops := s.ops ++ [.unmount b] }
  | none => s

/-- `client`, `model` and `requestUpdate` (86–91, 330–362): up to the point where the module is waited for. -/
def give (m : M) (s : State) : State :=
  let s := { s with model := some m }
  match s.binding with
  | some b =>
    if s.cur = some m.src then { s with ops := s.ops ++ [.render b m.id] }
    else { drop s with cur := some m.src, waiting := s.waiting ++ [(s.next, m.src)], next := s.next + 1 }
  | none => { s with cur := some m.src, waiting := s.waiting ++ [(s.next, m.src)], next := s.next + 1 }

/-- The rest of `update` (363–379) for a load of the source `src`. -/
def loaded (src : Nat) (o : Loaded) (s : State) : State :=
  if s.conn = true ∧ s.cur = some src then
    match o with
    | .failed => s
    | .raises =>
      -- 368–371: unmounted, but kept as `binding`
      match s.binding with
      | some b => { s with ops := s.ops ++ [.unmount b] }
      | none => s
    | .improper => drop s
    | .proper =>
      let s := drop s
      match s.model with
      | some m => { s with binding := some s.next, next := s.next + 1, ops := s.ops ++ [.bind s.next, .render s.next m.id] }
      | none => s
  else s

/-- One event (313–394). -/
def step (s : State) : Act → State
  | .connect => { s with conn := true }
  | .disconnect =>
    -- 387–393
    match s.binding with
    | some b => { s with conn := false, binding := none, cur := none, ops := s.ops ++ [.unmount b] }
    | none => { s with conn := false }
  | .give m => give m s
  | .load id o =>
    match s.waiting.find? (·.1 == id) with
    | some w => loaded w.2 o { s with waiting := s.waiting.filter (·.1 ≠ id) }
    | none => s

/-- Any number of events of vdom.tsx 313–394. -/
def run (acts : List Act) : State := acts.foldl step {}

end Verif.Client.Child
