import Verif.Whole.State
/-!
# Applications whose components keep their state with `use_state`, with serial rendering

As `Whole/State.lean`, with `REACTPY_ASYNC_RENDERING` off: setters put the instance in a queue (`layout.py` 580–583), and each `render()` takes one out
of it and renders it (198–210).  The queue holds a value once (845–848); since the order in which `get` returns values is a matter of its own (C15), it is left
open here: a render takes any of the values.  While a render is in progress no other is.
-/
namespace Verif.Whole
open Verif.Layout (Comp handlerFor)
open Verif.Parallel (put)
variable {A : App}

/-- A layout with its page; `_scheduled_render` of each hook (`_life_cycle_hook.py` 157); the values in the queue (`_pending`, layout.py 842).
`stray` as in `Layout.Sys`: a component was rendered that a failed render had left behind, mounted but not displayed. -/
structure SWeb (A : App) where
  web : Web A.user
  flag : Nat → Bool
  pending : List Nat
  stray : Bool

/-- `LifeCycleHook.schedule_render` (`_life_cycle_hook.py` 166–175), which puts the instance in the queue (layout.py 580–583, 845–848). -/
def request (q : (Nat → Bool) × List Nat) (x : Nat) : (Nat → Bool) × List Nat :=
  if q.1 x then q else (put q.1 x true, if x ∈ q.2 then q.2 else q.2 ++ [x])

/-- `affect_component_will_render` clears the flag (`_life_cycle_hook.py` 223); then the body is run, which calls setters. -/
def heed (called : Nat → List Nat) (q : (Nat → Bool) × List Nat) : Layout.Ev → (Nat → Bool) × List Nat
  | .entered y => (called y).foldl request (put q.1 y false, q.2)
  | _ => q

/-- The values of all instances (hooks.py 81). -/
def SWeb.state (s : SWeb A) : A.State := s.web.layout.st.world.vals

/-- `dispatch` of the `k`-th state of instance `x` (hooks.py 90–94). -/
def setSerial (s : SWeb A) (x k : Nat) (g : A.Val → A.Val) : SWeb A :=
  match s.state x with
  | none => s
  | some v =>
    if A.same (g (v k)) (v k) then s
    else
      { web := stepWeb s.web (.user fun m => { m with vals := put m.vals x (some (put v k (g (v k)))) })
        flag := (request (s.flag, s.pending) x).1, pending := (request (s.flag, s.pending) x).2, stray := s.stray }

/-- What can happen: a setter is called, an event arrives and its handler is run, `render()` takes the `k`-th value of the queue. (layout.py 130–210) -/
inductive DoS (A : App) where
  | set (x k : Nat) (g : A.Val → A.Val)
  | event (target : String) (seq : Option Nat)
  | render (fuel k : Nat)

/-- One iteration of `_serial_render` (layout.py 200–210).  A render that does not end is not a step. -/
def renderSerial (s : SWeb A) (fuel k : Nat) : SWeb A :=
  match s.pending[k]? with
  | none => s
  | some id =>
    -- the record of calls is emptied first
    let w := stepWeb s.web (.user fun m => { m with called := fun _ => [] })
    match Layout.renderOp fuel id w.layout with
    | (_, .diverged) => s
    | (l, _) =>
      let q := (Parallel.events w.layout.st.log l.st.log).foldl (heed l.st.world.called) (s.flag, s.pending.eraseIdx k)
      { web := stepWeb w (.render fuel id), flag := q.1, pending := q.2, stray := s.stray || Layout.isStray w.layout (.render fuel id) }

/-- layout.py 151–195: the handler registered for the target, if any, is run; 198–210. -/
def stepS (s : SWeb A) : DoS A → SWeb A
  | .set x k g => setSerial s x k g
  | .event target seq =>
    let s := { s with web := stepWeb s.web (.event target seq) }
    match handlerFor s.web.layout target with
    | none => s
    | some fn => (A.act fn).foldl (fun s p => setSerial s p.1 p.2.1 p.2.2) s
  | .render fuel k => renderSerial s fuel k

/-- layout.py 67–98: the root is put in the queue (96). -/
def initS (A : App) (root : Comp) : SWeb A :=
  { web := initWeb A.user (⟨fun _ => none, fun _ => [], 0⟩ : A.Mem) root, flag := fun _ => false, pending := [0], stray := false }

/-- Any history (layout.py 130–210). -/
def runS (A : App) (root : Comp) (ops : List (DoS A)) : SWeb A := ops.foldl stepS (initS A root)

end Verif.Whole
