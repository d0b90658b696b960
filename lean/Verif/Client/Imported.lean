import Verif.Client.Binding
/-!
# Imported components

`useImportSource` of `/repo/src/js/packages/@reactpy/client/src/components.tsx` 481–530, with the order in which Preact runs
effects: those of a render run later, all clean-ups before all effects, and at the latest before the next render of the same
component; when a component is removed, its clean-ups run and effects still waiting are dropped.

An import source is a number (its JSON text), `ubu` tells which have `unmountBeforeUpdate`.  The client never changes.
-/
namespace Verif.Client.Imp
open Verif.Client

/-- The variables of a run of the first effect (components.tsx 489–513): its number, its import source, and `currentBinding`.
That the variable `unmounted` is set means that the record is no longer the current one. -/
structure Gen where
  id : Nat
  src : Nat
  bnd : Option Nat := none
deriving DecidableEq, Repr

/-- What the effects of a render have captured (489–527): props, state, and whether the dependencies of the first changed. -/
structure Cap where
  src : Nat
  model : Nat
  binding : Option Nat
  changed : Bool
deriving DecidableEq, Repr

/-- The hook (481–530): newest props, whether `mountPoint.current` is set, effects still to run, dependencies of the first
effect, its current run, loads not yet finished, state, `bindingSource`, the clean-up of the second effect, whether a render
was asked for by `setBinding`, whether the component was removed; numbers of runs and bindings; the calls made. -/
structure State where
  props : Option (Nat × Nat) := none
  refSet : Bool := false
  cap : Option Cap := none
  deps : Option (Nat × Bool) := none
  gen : Option Gen := none
  loads : List Nat := []
  binding : Option Nat := none
  bindingSource : Option Nat := none
  clean2 : Option Nat := none
  dirty : Bool := false
  gone : Bool := false
  next : Nat := 0
  ops : List Op := []
deriving DecidableEq, Repr

/-- The clean-up of the first effect (503–512). -/
def cleanup1 (ubu : Nat → Bool) (s : State) : State :=
  match s.gen with
  | some g =>
    match g.bnd with
    | some b => if ubu g.src then { s with gen := none } else { s with gen := none, ops := s.ops ++ [.unmount b] }
    | none => { s with gen := none }
  | none => s

/-- The clean-up of the second effect (524–526). -/
def cleanup2 (s : State) : State :=
  match s.clean2 with
  | some b => { s with clean2 := none, ops := s.ops ++ [.unmount b] }
  | none => s

/-- The first effect (489–501). -/
def effect1 (c : Cap) (s : State) : State :=
  { s with gen := some ⟨s.next, c.src, none⟩, loads := s.loads ++ [s.next], next := s.next + 1 }

/-- The second effect (516–527). -/
def effect2 (ubu : Nat → Bool) (c : Cap) (s : State) : State :=
  match c.binding with
  | some b =>
    if s.bindingSource = some c.src then
      { s with ops := s.ops ++ [.render b c.model], clean2 := if ubu c.src then some b else none }
    else s
  | none => s

/-- The effects of the last render run (489–527). -/
def flush (ubu : Nat → Bool) (s : State) : State :=
  match s.cap with
  | some c =>
    let s := { s with cap := none }
    let s := if c.changed then cleanup1 ubu s else s
    let s := cleanup2 s
    let s := if c.changed then effect1 c s else s
    effect2 ubu c s
  | none => s

/-- A render (481–530): waiting effects first; the dependencies are compared; after it the element exists (472). -/
def render (ubu : Nat → Bool) (p : Nat × Nat) (s : State) : State :=
  let s := flush ubu s
  { s with props := some p, cap := some ⟨p.1, p.2, s.binding, decide (s.deps ≠ some (p.1, s.refSet))⟩,
           deps := some (p.1, s.refSet), refSet := true, dirty := false }

/-- How loading a module ends (vdom.tsx 24–70): with a proper binding, an improper one, or a failure. -/
inductive Loaded where
  | proper
  | improper
  | failed
deriving DecidableEq, Repr

/-- What happens (components.tsx 481–530): the parent renders the component with an import source and a model; a render asked for by `setBinding` takes
place; effects run; a load ends; the component is removed. -/
inductive Act where
  | give (p : Nat × Nat)
  | rerender
  | flush
  | load (id : Nat) (o : Loaded)
  | remove
deriving DecidableEq, Repr

/-- The load of a run ends (494–500). -/
def load (id : Nat) (o : Loaded) (s : State) : State :=
  let s := { s with loads := s.loads.filter (· ≠ id) }
  match s.gen with
  | some g =>
    if g.id = id ∧ s.refSet = true then
      match o with
      | .proper => { s with gen := some { g with bnd := some s.next }, bindingSource := some g.src, binding := some s.next,
                            dirty := true, next := s.next + 1, ops := s.ops ++ [.bind s.next] }
      | .improper => { s with bindingSource := some g.src, binding := none, dirty := s.dirty || s.binding.isSome }
      | .failed => s
    else s
  | none => s

/-- One event (components.tsx 481–530). -/
def step (ubu : Nat → Bool) (s : State) (a : Act) : State :=
  if s.gone then s
  else
    match a with
    | .give p => render ubu p s
    | .rerender =>
      match s.props with
      | some p => if s.dirty then render ubu p s else s
      | none => s
    | .flush => flush ubu s
    | .load id o => if id ∈ s.loads then load id o s else s
    | .remove => { cleanup2 (cleanup1 ubu s) with gone := true, cap := none, loads := [] }

/-- Any number of events of components.tsx 481–530. -/
def run (ubu : Nat → Bool) (acts : List Act) : State := acts.foldl (step ubu) {}

end Verif.Client.Imp
