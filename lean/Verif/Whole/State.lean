import Verif.Whole.Parallel
/-!
# Applications whose components keep their state with `use_state`

`Whole/Parallel.lean` lets user code be anything.  Here a component's body is a function of its arguments, of the values that `use_state` gives it
and of the contexts it sees, and what changes between renders is changed by setters (`hooks.py` 90–94), which event handlers or other code call.
Bodies can call setters too, and so can other code while a render is in progress: its calls are those of the body that was run last.  Left out: the other hooks.
-/
namespace Verif.Whole
open Verif.Layout (User Comp Ctx Raw handlerFor)
open Verif.Parallel (put)

/-- An application.  `body id c st seen`: what the component `c` returns (or the exception it raises), where `st k` is the value of its `k`-th
`use_state` and `seen` are the contexts it sees; closures in it know the instance `id`.  `first`: the initial values (hooks.py 87).
`during`: the setters, of any instance, that the body calls, or other code before the next body is run; they may
differ from one run to the next, and the first argument is the number of bodies run so far.  `same`: `strictly_equal` (hooks.py 591–641).  `act fn`: the
setters that the handler function `fn` calls, one after another, each with the function of the present value that it is given (hooks.py 91).  The other
fields as in `Layout.User`. -/
structure App where
  Val : Type
  same : Val → Val → Bool
  first : Nat → Comp → Ctx → Nat → Val
  body : Nat → Comp → (Nat → Val) → Ctx → Except String Raw
  during : Nat → Nat → Comp → (Nat → Val) → Ctx → List (Nat × Nat × (Val → Val)) := fun _ _ _ _ _ => []
  act : Nat → List (Nat × Nat × (Val → Val))
  provValue : Nat → Nat
  provChildren : Nat → List Raw
  debug : Bool := true

/-- The values of `use_state` for each instance that has been rendered (`LifeCycleHook._state`, _life_cycle_hook.py 160, and hooks.py 87). -/
abbrev App.State (A : App) : Type := Nat → Option (Nat → A.Val)

/-- The values, for each instance the instances whose setters its body has called (with a new value) since the render task was started, and the number of
bodies run so far.
(`called` is a record for `callsOf`; hooks.py 81–94) -/
structure App.Mem (A : App) where
  vals : A.State
  called : Nat → List Nat
  count : Nat

/-- `dispatch` (hooks.py 90–94), called by the body of `y`. -/
def App.dispatch (A : App) (y : Nat) (m : A.Mem) (p : Nat × Nat × (A.Val → A.Val)) : A.Mem :=
  match m.vals p.1 with
  | none => m
  | some v =>
    if A.same (p.2.2 (v p.2.1)) (v p.2.1) then m
    else { m with vals := put m.vals p.1 (some (put v p.2.1 (p.2.2 (v p.2.1)))), called := put m.called y (m.called y ++ [p.1]) }

/-- The user code of the application: the first render of an instance makes its values (hooks.py 68–77, _life_cycle_hook.py 177–192), later ones
read them; unmounting does not change them. -/
def App.user (A : App) : User where
  World := A.Mem
  render m id c seen := match m.vals id with
    | some v => ((A.during m.count id c v seen).foldl (A.dispatch id) { m with count := m.count + 1 }, A.body id c v seen)
    | none => ((A.during m.count id c (A.first id c seen) seen).foldl (A.dispatch id)
          { m with vals := put m.vals id (some (A.first id c seen)), count := m.count + 1 },
        A.body id c (A.first id c seen) seen)
  unmount m _ := m
  didRender m _ := m
  provValue := A.provValue
  provChildren := A.provChildren
  debug := A.debug

variable {A : App}

/-- The values of all instances (hooks.py 81). -/
def PWeb.state (s : PWeb A.user) : A.State := s.sys.lay.st.world.vals

/-- `dispatch` of the `k`-th state of instance `x` (hooks.py 90–94). -/
def setState (s : PWeb A.user) (x k : Nat) (g : A.Val → A.Val) : PWeb A.user :=
  match s.state x with
  | none => s
  | some v =>
    if A.same (g (v k)) (v k) then s
    else stepPWeb (stepPWeb s (.user fun m => { m with vals := put m.vals x (some (put v k (g (v k)))) })) (.call x)

/-- What can happen: a setter is called (by an effect, a timer, a thread, or a handler that waited for something), an event arrives and its handler is run, a
render task is run, `render()` returns. (layout.py 130–227) -/
inductive Do (A : App) where
  | set (x k : Nat) (g : A.Val → A.Val)
  | event (target : String) (seq : Option Nat)
  | task (fuel i : Nat)
  | deliver (k : Nat)

/-- The instances whose setters are called at an event of a render: those that the body calls. (layout.py 333) -/
def bodyCalls (called : Nat → List Nat) : Layout.Ev → List Nat
  | .entered y => called y
  | _ => []

/-- The setter calls at the events of the render that a task does. (layout.py 229–272) -/
def callsOf (p : Parallel.Sys A.user) (fuel i : Nat) : List (List Nat) :=
  match p.ctl.tasks[i]? with
  | none => []
  | some t =>
    match Layout.renderOp fuel t.id p.lay with
    | (l, .update _) => (Parallel.events p.lay.st.log l.st.log).map (bodyCalls l.st.world.called)
    | _ => []

/-- The record of calls is emptied. (auxiliary, no code of /repo) -/
def clear (s : PWeb A.user) : PWeb A.user := stepPWeb s (.user fun m => { m with called := fun _ => [] })

/-- layout.py 151–195: the handler registered for the target, if any, is run; 212–227, 229–272. -/
def stepDo (s : PWeb A.user) : Do A → PWeb A.user
  | .set x k g => setState s x k g
  | .event target seq =>
    let s := stepPWeb s (.event target seq)
    match handlerFor s.sys.lay target with
    | none => s
    | some fn => (A.act fn).foldl (fun s p => setState s p.1 p.2.1 p.2.2) s
  | .task fuel i => stepPWeb (clear s) (.run fuel i (callsOf (clear s).sys fuel i))
  | .deliver k => stepPWeb s (.deliver k)

/-- Any history (layout.py 130–227). -/
def runDo (A : App) (root : Comp) (ops : List (Do A)) : PWeb A.user := ops.foldl stepDo (initPWeb A.user { vals := fun _ => none, called := fun _ => [], count := 0 } root)

end Verif.Whole
