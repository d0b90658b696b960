/-!
# Switching parallel rendering on and off while a layout is open

`/repo/src/reactpy/core/layout.py` 192–232 and 580–595, `REACTPY_ASYNC_RENDERING` (config.py 83–89).  Components stay displayed; what a render computes is the
number of the state that it saw.  The queue of the serial mode is the one of C15 without backpressure, the pool of tasks that of C13 without
cancelled tasks.
-/
namespace Verif.Sched.Switch

/-- An open layout: the option; the number of the newest state of each component; the serial queue (layout.py 87); the tasks, each with its component
and the state it saw, if it has run (76–80); the mode of the call of `render()` in progress, if there is one (192–196); and the newest state of each
component that was handed out. -/
structure St where
  async : Bool
  ver : Nat → Nat := fun _ => 0
  queue : List Nat := []
  tasks : List (Nat × Option Nat) := []
  waiting : Option Bool := none
  got : Nat → Nat := fun _ => 0

/-- What can happen: the option is assigned; a component changes its state and schedules a render (580–595); a task runs; `render()` is called (192–196);
the call in progress takes a task that has run, or the first of the queue, and returns (198–232). -/
inductive Ev where
  | assign (async : Bool)
  | set (x : Nat)
  | run (i : Nat)
  | call
  | take (i : Nat)
deriving DecidableEq, Repr

/-- Assignment of one entry of a map (auxiliary, no code of /repo). -/
def upd (f : Nat → Nat) (x v : Nat) : Nat → Nat := fun y => if y = x then v else f y

/-- `_schedule_render_task` (layout.py 580–595); `put` ignores what is pending (844–847). -/
def schedule (s : St) (x : Nat) : St :=
  if s.async then { s with tasks := s.tasks ++ [(x, none)] }
  else if x ∈ s.queue then s
  else { s with queue := s.queue ++ [x] }

/-- An update of `x` that saw state `v` is returned by `render()` (layout.py 212, 229). -/
def handOut (s : St) (x v : Nat) : St := { s with waiting := none, got := upd s.got x (max (s.got x) v) }

/-- One event (layout.py 192–232, 580–595). -/
def step (s : St) : Ev → St
  | .assign b => { s with async := b }
  | .set x => schedule { s with ver := upd s.ver x (s.ver x + 1) } x
  | .run i => match s.tasks[i]? with
    | some (x, none) => { s with tasks := s.tasks.set i (x, some (s.ver x)) }
    | _ => s
  -- 192–196
  | .call => if s.waiting = none then { s with waiting := some s.async } else s
  | .take i => match s.waiting with
    -- 198–212
    | some false => match s.queue with
      | x :: q => handOut { s with queue := q } x (s.ver x)
      | [] => s
    -- 214–232
    | some true => match s.tasks[i]? with
      | some (x, some v) => handOut { s with tasks := s.tasks.eraseIdx i } x v
      | _ => s
    | none => s

/-- A history (layout.py 192–232, 580–595). -/
def exec (s : St) (es : List Ev) : St := es.foldl step s

/-- A layout that was just entered with the root scheduled (layout.py 67–98). -/
def start (async : Bool) (root : Nat) : St := step { async } (.set root)

end Verif.Sched.Switch
