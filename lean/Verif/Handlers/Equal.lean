import Verif.Handlers.Callable
/-!
# Comparing event handlers

Models `EventHandler.__eq__` (`/repo/src/reactpy/core/events.py` 149–162) together with what makes the functions of handlers:
`EventHandler.__init__` (111–145), `to_event_handler_function` (177–212), and the handlers of attributes (`vdom.py` 241) and of
`StaticEventHandler.use` (`testing/common.py` 208–221).  Functions are objects and are compared by identity, so they are numbers here; those
from `fresh` on do not exist yet.  Whether a function of the user is a coroutine function is told by `coro`; the wrappers that
`to_event_handler_function` makes all are.
-/
namespace Verif.Handlers.Equal
open Verif.Handlers (Settings Fn mkHandler inspect)

/-- An `EventHandler`: the values that 122–127 and 139–145 of events.py assign. -/
structure Obj where
  function : Nat
  settings : Settings
deriving DecidableEq, Repr

/-- A value of an attribute (events.py 122–127).  `other` stands for everything that is equal to none of these. -/
inductive Val where
  | none
  | bool (b : Bool)
  | int (i : Int)
  | str (s : String)
  | func (f : Nat)
  | other (n : Nat)
deriving DecidableEq, Repr

/-- `==` (Python, used in events.py 153): `True` is equal to 1 and `False` to 0. -/
def Val.eq : Val → Val → Bool
  | .bool a, .int i => decide ((if a then 1 else 0) = i)
  | .int i, .bool a => decide (i = (if a then 1 else 0))
  | a, b => decide (a = b)

/-- `getattr(self, attr)` (events.py 153) for the names of 155–160. -/
def Obj.attr (o : Obj) (name : String) : Option Val :=
  if name = "function" then some (.func o.function)
  else if name = "prevent_default" then some (.bool o.settings.prevent)
  else if name = "stop_propagation" then some (.bool o.settings.stop)
  else if name = "debounce" then some ((o.settings.debounce.map .int).getD .none)
  else if name = "target" then some ((o.settings.target.map .str).getD .none)
  else if name = "throttle" then some ((o.settings.throttle.map .int).getD .none)
  else none

/-- The names of events.py 155–160. -/
def names : List String := ["function", "prevent_default", "stop_propagation", "debounce", "target", "throttle"]

/-- `EventHandler.__eq__` (events.py 149–162); the other object is given by its attributes.  A missing one is a new object (150), which is equal to
nothing. -/
def eq (self : Obj) (other : String → Option Val) : Bool :=
  !(names.any fun a => !(a.startsWith "_") && !(match other a, self.attr a with
    | some x, some y => x.eq y
    | _, _ => false))

/-- `to_event_handler_function` (events.py 177–212): the function, and the number of functions there are. -/
def toFunction (coro : Nat → Bool) (fresh f : Nat) (positional : Bool) : Nat × Nat :=
  if positional then (fresh, fresh + 1)
  else if coro f then (f, fresh)
  else (fresh, fresh + 1)

/-- How a handler is made: of a function, with its code; directly by `EventHandler(…)`, or (`positional`) by `event`, an attribute of an element
or `StaticEventHandler.use`. (events.py 78–88, 111–119; vdom.py 241; testing/common.py 208–221) -/
structure Make where
  fn : Nat
  code : Fn
  positional : Bool
  settings : Settings
deriving Repr

/-- events.py 78–88 and 111–145; vdom.py 241; testing/common.py 208–221. -/
def construct (coro : Nat → Bool) (fresh : Nat) (m : Make) : Obj × Nat :=
  let r := if m.positional then toFunction coro fresh m.fn true else (m.fn, fresh)
  -- the wrapper made there is a coroutine function
  let q := toFunction (fun f => if f < fresh then coro f else true) r.2 r.1 false
  ({ function := q.1, settings := (mkHandler (.user 0) m.settings (inspect m.code)).settings }, q.2)

/-- Handlers made one after another, each by events.py 111–145. -/
def constructAll (coro : Nat → Bool) : Nat → List Make → List Obj
  | _, [] => []
  | fresh, m :: ms => (construct coro fresh m).1 :: constructAll coro (construct coro fresh m).2 ms

end Verif.Handlers.Equal
