/-!
# What bindings show

`/repo/src/js/packages/@reactpy/client/src/bind.tsx`: what the calls of `bind`, `render` and `unmount` for one DOM node make it
show, with the two bindings the client provides.  Bindings are numbered in the order of their creation; a model is a number.
-/
namespace Verif.Client

/-- A call made by the client: a new binding of the node, a render through a binding, its unmounting (types.ts 74–100). -/
inductive Op where
  | bind (b : Nat)
  | render (b m : Nat)
  | unmount (b : Nat)
deriving DecidableEq, Repr

/-- `local_preact_bind` (bind.tsx 18–27): every binding acts on the node itself. -/
def Op.preact : Option Nat → Op → Option Nat
  | s, .bind _ => s
  | _, .render _ m => some m
  | _, .unmount _ => none

/-- What the node shows after the calls, with `local_preact_bind` (bind.tsx 18–27). -/
def preact (ops : List Op) : Option Nat := ops.foldl Op.preact none

/-- The state of a node with `reactjs_bind` (bind.tsx 29–58): whether there is a root for it and what it shows, the bindings
that have the root as their `root`, those whose `root` was unmounted through another binding, and whether React raised because
something was rendered into an unmounted root. -/
structure Node where
  shown : Option Nat := none
  users : List Nat := []
  stale : List Nat := []
  raised : Bool := false
deriving DecidableEq, Repr

/-- `render` and `unmount` of `reactjs_bind` (bind.tsx 36–56).  A binding has a `root` if it is among the users or the stale
ones.  React raises when an unmounted root is asked to render; unmounting it again does nothing. -/
def Op.react (s : Node) : Op → Node
  | .bind _ => s
  | .render b m =>
    if b ∈ s.stale then { s with raised := true }
    else { s with shown := some m, users := b :: s.users.filter (· ≠ b) }
  | .unmount b =>
    if b ∈ s.stale then { s with stale := s.stale.filter (· ≠ b) }
    else if b ∈ s.users then
      { s with shown := none, users := [], stale := s.stale ++ s.users.filter (· ≠ b) }
    else s

/-- The node after the calls, with `reactjs_bind` (bind.tsx 29–58). -/
def react (ops : List Op) : Node := ops.foldl Op.react {}

end Verif.Client
