import Verif.Layout.Spec
import Verif.Location.Model
/-!
# The connection that components see

`/repo/src/reactpy/executors/asgi/middleware.py` 232–246 (the dispatcher makes a `Connection` and puts the root component into
a `ConnectionContext` with it) and `/repo/src/reactpy/core/hooks.py` 345–386 (`use_context`, `use_connection`, `use_scope`,
`use_location`).  Components and their contexts are those of `Verif.Layout`; there the values of providers are numbers, here
`table` tells which value a number stands for.
-/
namespace Verif.Location
open Verif.Layout (Ctx User Comp)

/-- types.py 1088–1102 `Connection`; the scope and the carrier are opaque. -/
structure Connection where
  scope : Nat
  location : Location
  carrier : Nat
deriving DecidableEq, Repr

/-- middleware.py 232–238: the connection of a websocket with this scope and query string; `none` if reading the query string
raises, in which case no layout is made. -/
def connectionOf (scope : Nat) (qs : Str) (carrier : Nat) : Option Connection :=
  (locationOf qs).map (fun l => ⟨scope, l, carrier⟩)

/-- hooks.py 345–363 `use_context(ConnectionContext)`, with the default of 367: the value of the provider, or `None` (`none`)
if there is none. -/
def useContext (table : Nat → Option Connection) (context : Nat) (seen : Ctx) : Option Connection :=
  match seen context with
  | some v => table v
  | none => none

/-- hooks.py 370–376 `use_connection`. -/
def useConnection (table : Nat → Option Connection) (context : Nat) (seen : Ctx) : Except String Connection :=
  match useContext table context seen with
  | none => .error "RuntimeError: No backend established a connection."
  | some c => .ok c

/-- hooks.py 379–381 `use_scope`. -/
def useScope (table : Nat → Option Connection) (context : Nat) (seen : Ctx) : Except String Nat :=
  match useConnection table context seen with
  | .error e => .error e
  | .ok c => .ok c.scope

/-- hooks.py 384–386 `use_location`. -/
def useLocation (table : Nat → Option Connection) (context : Nat) (seen : Ctx) : Except String Location :=
  match useConnection table context seen with
  | .error e => .error e
  | .ok c => .ok c.location

/-- middleware.py 241–245: the root of the layout, `ConnectionContext(component(), value=connection)`; `props` stands for the
provider's children and value. -/
def servedRoot (context props : Nat) : Comp := { type := .ctx context, props := props }

end Verif.Location
