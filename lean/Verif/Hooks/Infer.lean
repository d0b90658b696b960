import Verif.Hooks.Model
/-!
# Dependencies that are found by the hook

`/repo/src/reactpy/core/hooks.py` 121–178, 195–290, 439–463, 486–539, 575–588: what `use_memo`, `use_callback` and `use_effect` do when no
dependencies are given.  The contents of the cells of the function's closure are compared; the function is one of those that
the component makes anew in every render.
-/
namespace Verif.Hooks.Infer

/-- A callable that a component gives to a hook.  `code`: which function of the source it is; `isFunction`: `isinstance(func, FunctionType)`
(hooks.py 581), which is false for methods, partials and other callable objects; `hooked`: the contents of its closure's cells when the hook is
called, `none` for a variable that is not assigned yet; `later`: the contents when the render is over; `defaults`: the values of its
parameters' defaults. -/
structure Fn (V : Type) where
  code : Nat
  isFunction : Bool := true
  hooked : List (Option V) := []
  later : List (Option V) := []
  defaults : List V := []
deriving DecidableEq

/-- The argument `dependencies` (hooks.py 123, 441, 488): left out (`...`), `None`, or a sequence. -/
inductive Given (V : Type) where
  | auto
  | none
  | list (l : List V)

/-- The contents of all cells; an empty cell raises `ValueError` (hooks.py 583). -/
def contents {V} : List (Option V) → Except Unit (List V)
  | [] => .ok []
  | .none :: _ => .error ()
  | some v :: r => match contents r with
    | .ok l => .ok (v :: l)
    | .error e => .error e

/-- `_try_to_infer_closure_values` (hooks.py 575–588). -/
def infer {V} (func : Option (Fn V)) (values : Given V) : Except Unit (Option (List V)) :=
  match values with
  | .none => .ok .none
  | .list l => .ok (some l)
  | .auto => match func with
    | some f =>
      if f.isFunction then
        match contents f.hooked with
        | .ok l => .ok (some l)
        | .error e => .error e
      else .ok .none
    | .none => .ok .none

/-- One call of a hook: the callable, the dependencies, and whether the callable is given by decorating it (hooks.py 151, 460–463, 528–539). -/
structure Call (V : Type) where
  fn : Fn V
  given : Given V := .auto
  decorator : Bool := false

/-- The dependencies of a call (hooks.py 146, 228, 457, 504): the hook does not see a function that is decorated with its result. -/
def Call.deps {V} (c : Call V) : Except Unit (Option (List V)) :=
  infer (if c.decorator then .none else some c.fn) c.given

/-- What the source means: the result of function `code` with these variables, defaults and everything else (`G`). -/
abbrev Sem (V G R : Type) := Nat → List (Option V) → List V → G → Except Unit R

/-- `use_memo` (hooks.py 486–539): the function is called at once, if it is called. -/
def useMemo {V G R} (sem : Sem V G R) (eq : V → V → Bool) (m : Memo V R) (c : Call V) (g : G) :
    Memo V R × Except Unit (Option R) × Bool :=
  match c.deps with
  | .error e => (m, .error e, false)
  | .ok d => m.use eq d (sem c.fn.code c.fn.hooked c.fn.defaults g)

/-- The memo after some renders (hooks.py 486–539). -/
def memoAfter {V G R} (sem : Sem V G R) (eq : V → V → Bool) (cs : List (Call V × G)) : Memo V R :=
  cs.foldl (fun m c => (useMemo sem eq m c.1 c.2).1) {}

/-- `use_callback` (hooks.py 439–463). -/
def useCallback {V} (eq : V → V → Bool) (m : Memo V (Fn V)) (c : Call V) : Memo V (Fn V) × Except Unit (Option (Fn V)) × Bool :=
  match c.deps with
  | .error e => (m, .error e, false)
  | .ok d => m.use eq d (.ok c.fn)

/-- The memo of `use_callback` after some renders (hooks.py 439–463). -/
def callbackAfter {V} (eq : V → V → Bool) (cs : List (Call V)) : Memo V (Fn V) :=
  cs.foldl (fun m c => (useCallback eq m c).1) {}

/-- `use_effect` (hooks.py 121–178) and `use_async_effect` (195–290): whether the effect is added in this render. -/
def useEffect {V} (eq : V → V → Bool) (m : Memo V Unit) (c : Call V) : Memo V Unit × Except Unit Bool :=
  match c.deps with
  | .error e => (m, .error e)
  | .ok d => let r := m.use eq d (.ok ()); (r.1, .ok r.2.2)

/-- The memo of `use_effect` after some renders (hooks.py 121–178). -/
def effectAfter {V} (eq : V → V → Bool) (cs : List (Call V)) : Memo V Unit :=
  cs.foldl (fun m c => (useEffect eq m c).1) {}

end Verif.Hooks.Infer
