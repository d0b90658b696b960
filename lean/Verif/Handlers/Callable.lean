import Verif.Handlers.Model
/-!
# Model of what becomes of a callable given as an event handler
(core/events.py 35–88, 111–145, 177–212; core/vdom.py 239–245)

The callables are functions, functions decorated with `functools.wraps`, `functools.partial` objects (a partial of a partial is
flattened by functools), bound methods, and callables that have no byte code (built-in functions and methods, classes, objects with
`__call__`).
-/
namespace Verif.Handlers

/-- What a callable is called with (events.py 191, 198, 205). -/
inductive Arg where
  | val (n : Nat)
  | list (l : List Nat)
deriving DecidableEq, Repr

/-- A callable.
* `fn`: a function of the user, coroutine function or not, with its code;
* `deco`: a wrapper made with `functools.wraps` (it has `__wrapped__`), with its own code, that hands its arguments on;
* `part`: `functools.partial(inner, *args)`;
* `bound`: a bound method;
* `codeless`: a callable without `__code__`. events.py 127–133. -/
inductive Py where
  | fn (id : Nat) (isAsync : Bool) (code : Fn)
  | deco (isAsync : Bool) (code : Fn) (inner : Py)
  | part (args : List Arg) (inner : Py)
  | bound (self : Arg) (inner : Py)
  | codeless (id : Nat)
deriving Repr

/-- What a call does at once, and what the coroutine it returned, if any, does when it is awaited: the functions of the user that run,
with their arguments. (Python, as at events.py 191, 198, 205) -/
structure Ran where
  now : List (Nat × List Arg)
  coro : Option (List (Nat × List Arg)) := none
deriving DecidableEq, Repr

/-- A call. A decorator that is a coroutine function awaits what it wraps. (Python, as at events.py 191, 198, 205) -/
def Py.call : Py → List Arg → Ran
  | .fn id false _, a => { now := [(id, a)] }
  | .fn id true _, a => { now := [], coro := some [(id, a)] }
  | .deco false _ i, a => i.call a
  | .deco true _ i, a => { now := [], coro := some ((i.call a).now ++ (i.call a).coro.getD []) }
  | .part b i, a => i.call (b ++ a)
  | .bound s i, a => i.call (s :: a)
  | .codeless id, a => { now := [(id, a)] }

/-- `inspect.iscoroutinefunction` (events.py 188, 204): looks into partials and methods, not into `__wrapped__`. -/
def Py.isCoro : Py → Bool
  | .fn _ b _ => b
  | .deco b _ _ => b
  | .part _ i => i.isCoro
  | .bound _ i => i.isCoro
  | .codeless _ => false

/-- The function that `to_event_handler_function` makes (events.py 177–212), called with the data of an event and awaited: the functions
of the user that run. `positional`: the data are passed as arguments, else as one list. -/
def runs (positional : Bool) (c : Py) (data : List Nat) : List (Nat × List Arg) :=
  let r := c.call (if positional then data.map .val else [.list data])
  if c.isCoro then r.now ++ r.coro.getD [] else r.now

/-- `while hasattr(f, "__wrapped__"): f = f.__wrapped__` (events.py 128–129); a bound method has the attributes of its function. -/
def Py.strip : Py → Py
  | .deco _ _ i => i.strip
  | .bound s i => match i with
    | .deco _ _ j => j.strip
    | _ => .bound s i
  | c => c

/-- `if isinstance(f, partial): f = f.func` (events.py 131–132). -/
def Py.unpart : Py → Py
  | .part _ i => i
  | c => c

/-- `f.__code__` (`_event_inspect.py` 45); `none`: `AttributeError`. -/
def Py.code : Py → Option Fn
  | .fn _ _ f => some f
  | .deco _ f _ => some f
  | .bound _ i => i.code
  | .part _ _ => none
  | .codeless _ => none

/-- A handler made from a callable (events.py 120–145). -/
structure Made where
  positional : Bool
  callable : Py
  settings : Settings
deriving Repr

/-- `EventHandler(...)` for a callable (events.py 111–145), directly (`positional = false`) or through `event` (78–88) or an attribute of
an element (vdom.py 241); `none`: `AttributeError`. -/
def makeHandler (positional : Bool) (c : Py) (s : Settings) : Option Made :=
  match c.strip.unpart.code with
  | none => none
  | some f => some { positional, callable := c, settings := (mkHandler (.user 0) s (inspect f)).settings }

/-- The settings of an attribute that is a callable (vdom.py 241). -/
def plainSettings : Settings := { stop := false, prevent := false, target := none, debounce := none, throttle := none }

end Verif.Handlers
