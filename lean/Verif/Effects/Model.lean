/-!
# Model of the tasks behind `use_effect` and `use_async_effect` (`core/hooks.py`)

One call position of one component instance.  Each time the memo decides that the effect runs
(C26), `hook.add_effect(effect)` registers a coroutine function, and after the layout's render
`affect_layout_did_render` (_life_cycle_hook.py 235–240) creates a task for it with a stop event.
`affect_component_will_unmount` (242–253) sets all stop events and awaits the tasks.  The tasks of one
call position are numbered in order of creation (generations).

Concurrency: a step runs one task from one suspension point to the next (asyncio is cooperative).
Any task whose wait is over may run next; asyncio's own order is one of those.
-/
namespace Verif.Effects

/-! ## `use_effect` -/
namespace Sync

/-- What the function of a generation does: raise, return `None`, or return a clean-up function, which
raises or not.  (`if cleanup_func.current:` — a clean-up that is a falsy object is not modelled.) hooks.py 161. -/
inductive Body where
  | raises
  | nothing
  | cleanup (raises : Bool)
deriving DecidableEq, Repr

/-- The state of a generation's task: not yet created, created but not begun, suspended in
`stop.wait()` (164), finished. -/
inductive Pc where
  | absent
  | created
  | waiting
  | finished
deriving DecidableEq, Repr

/-- Observable events: the effect function of `g` ran (`gave`: it returned a clean-up), the clean-up of
`g` was called. (hooks.py 161, 647–650) -/
inductive Ev where
  | body (g : Nat) (gave : Bool)
  | clean (g : Nat)
deriving DecidableEq, Repr

/-- The references of `use_effect` (hooks.py 148) and the tasks of its generations (_life_cycle_hook.py 235–253). -/
structure St where
  n : Nat := 0
  pc : Nat → Pc := fun _ => .absent
  /-- `cleanup_func.current`: the clean-up of which generation. -/
  cur : Option Nat := none
  unmounted : Bool := false
  log : List Ev := []

/-- A render adds an effect (hooks.py 170), a task goes on (157–168), the component is unmounted (_life_cycle_hook.py 242–253). -/
inductive Act where
  | schedule
  | run (g : Nat)
  | unmount
deriving DecidableEq, Repr

/-- Assignment of one entry of a map (auxiliary, no code of /repo). -/
def upd {α} (f : Nat → α) (g : Nat) (a : α) : Nat → α := fun h => if h = g then a else f h

/-- `run_effect_cleanup` (647–650).  `true`: no exception. -/
def cleanup (body : Nat → Body) (s : St) : St × Bool :=
  match s.cur with
  | none => (s, true)
  | some g =>
    if body g = .cleanup true then ({ s with log := .clean g :: s.log }, false)
    else ({ s with log := .clean g :: s.log, cur := none }, true)

/-- After `stop.wait()` returned (166–168). -/
def finish (body : Nat → Body) (g : Nat) (s : St) : St :=
  let s' := (cleanup body s).1
  { s' with pc := upd s'.pc g .finished }

/-- The beginning of `effect` (157–164).  `stop.wait()` of an event that is set does not suspend. -/
def start (body : Nat → Body) (g : Nat) (s : St) : St :=
  match cleanup body s with
  | (s', false) => { s' with pc := upd s'.pc g .finished }
  | (s', true) =>
    match body g with
    | .raises => { s' with log := .body g false :: s'.log, pc := upd s'.pc g .finished }
    | b =>
      let gave := b != .nothing
      let s'' := { s' with log := .body g gave :: s'.log, cur := if gave then some g else none }
      if s''.unmounted then finish body g s'' else { s'' with pc := upd s''.pc g .waiting }

/-- One step.  No task is created for an unmounted component (`C03`: the layout's renders of an
instance, and with them `affect_layout_did_render`, end with its unmount). -/
def step (body : Nat → Body) (s : St) : Act → St
  | .schedule => if s.unmounted then s else { s with n := s.n + 1, pc := upd s.pc s.n .created }
  | .unmount => { s with unmounted := true }
  | .run g => match s.pc g with
    | .created => start body g s
    | .waiting => if s.unmounted then finish body g s else s
    | _ => s

/-- Any schedule of hooks.py 157–170. -/
def run (body : Nat → Body) (acts : List Act) (s : St := {}) : St := acts.foldl (step body) s

end Sync

/-! ## `use_async_effect` -/
namespace Async

/-- How an effect coroutine ends: it returns (`some`: a clean-up function, which does not raise; `C25`
treats raising ones), is cancelled, or raises. -/
inductive Out where
  | returned (gave : Bool)
  | cancelled
  | raised
deriving DecidableEq, Repr

/-- The task created by `asyncio.create_task(func())` (250). -/
inductive Task where
  | none
  | running (cancelRequested : Bool)
  | done (out : Out)
deriving DecidableEq, Repr

/-- Where the `effect` coroutine of a generation is suspended: not begun; in `await previous_task`
(241); in `asyncio.wait` (255); in the final `stop.wait()` (270); in `await task` (277); finished.
The suspension in `await stop_task` (268) is merged with the following `stop.wait()`. -/
inductive Pc where
  | absent
  | created
  | awaitPrev (p : Nat)
  | waiting
  | stopWait
  | awaitTask
  | finished
deriving DecidableEq, Repr

/-- Observable events: the coroutine of a generation begins or ends (hooks.py 250), its clean-up is called (647–650). -/
inductive Ev where
  | began (g : Nat)
  | ended (g : Nat) (out : Out)
  | clean (g : Nat)
deriving DecidableEq, Repr

/-- The references of `use_async_effect` (hooks.py 230–231), the tasks of its generations and of their coroutines (250). -/
structure St where
  n : Nat := 0
  pc : Nat → Pc := fun _ => .absent
  task : Nat → Task := fun _ => .none
  cur : Option Nat := none
  pending : Option Nat := none
  unmounted : Bool := false
  log : List Ev := []

/-- A render adds an effect (hooks.py 285), a task goes on (234–283), a coroutine ends (250), the component is unmounted (_life_cycle_hook.py 242–253). -/
inductive Act where
  | schedule
  | run (g : Nat)
  | finish (g : Nat) (out : Out)
  | unmount
deriving DecidableEq, Repr

/-- Assignment of one entry of a map (auxiliary, no code of /repo). -/
def upd {α} (f : Nat → α) (g : Nat) (a : α) : Nat → α := fun h => if h = g then a else f h

/-- The effect coroutine of hooks.py 234–283 is now at `p`. -/
def St.at (s : St) (g : Nat) (p : Pc) : St := { s with pc := upd s.pc g p }

/-- `run_effect_cleanup` (647–650). -/
def cleanup (s : St) : St :=
  match s.cur with
  | none => s
  | some g => { s with log := .clean g :: s.log, cur := none }

/-- `task.cancel()`: a request; the coroutine decides how it ends. (hooks.py 239, 275) -/
def cancel (s : St) (g : Nat) : St :=
  match s.task g with
  | .running _ => { s with task := upd s.task g (.running true) }
  | _ => s

/-- 246–258: clean up, create the task, wait. -/
def launch (g : Nat) (s : St) : St :=
  let s := cleanup s
  { s with task := upd s.task g (.running false), pending := some g, log := .began g :: s.log }.at g .waiting

/-- After `await previous_task` (241–244): its exception propagates, its result is ignored. -/
def afterPrev (g p : Nat) (out : Out) (s : St) : St :=
  match out with
  | .raised => s.at g .finished
  | _ => launch g (if s.pending = some p then { s with pending := none } else s)

/-- `cleanup_func.current = …` for a task that ended (263–264, 276–277). -/
def store (g : Nat) (out : Out) (s : St) : St :=
  match out with
  | .returned gave => { s with cur := if gave then some g else none }
  | _ => s

/-- Resume the `effect` coroutine of generation `g` (232–284). -/
def resume (shield : Bool) (g : Nat) (s : St) : St :=
  match s.pc g with
  | .created => match s.pending with
    | none => launch g s
    | some p =>
      let s := if shield then s else cancel s p
      match s.task p with
      | .done out => afterPrev g p out s
      | _ => s.at g (.awaitPrev p)
  | .awaitPrev p => match s.task p with
    | .done out => afterPrev g p out s
    | _ => s
  | .waiting => match s.task g with
    | .done .raised => { s with pending := none }.at g .finished
    | .done out => (store g out { s with pending := none }).at g .stopWait
    | _ =>
      if s.unmounted then (if shield then s else cancel s g).at g .awaitTask
      else s
  | .stopWait => if s.unmounted then (cleanup s).at g .finished else s
  | .awaitTask => match s.task g with
    | .done .raised => s.at g .finished
    | .done out =>
      let s := store g out s
      let s := if s.pending = some g then { s with pending := none } else s
      (cleanup s).at g .finished
    | _ => s
  | _ => s

/-- One step; `finish`: the user's coroutine ends (`cancelled` only after a request). (hooks.py 234–285) -/
def step (shield : Bool) (s : St) : Act → St
  | .schedule => if s.unmounted then s else { s with n := s.n + 1 }.at s.n .created
  | .unmount => { s with unmounted := true }
  | .run g => resume shield g s
  | .finish g out => match s.task g with
    | .running req =>
      if out = .cancelled ∧ req = false then s
      else { s with task := upd s.task g (.done out), log := .ended g out :: s.log }
    | _ => s

/-- Any schedule of hooks.py 234–285. -/
def run (shield : Bool) (acts : List Act) (s : St := {}) : St := acts.foldl (step shield) s

end Async
end Verif.Effects
