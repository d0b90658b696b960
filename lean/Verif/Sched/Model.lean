/-!
# Model of the scheduling of renders with `REACTPY_ASYNC_RENDERING` (the default)

Line numbers refer to `/repo/src/reactpy/core/layout.py` unless another file is named.

A step is what happens between two points where another task of the event loop can run: the `await`s of
`Semaphore.acquire` (of anyio; it always gives up control once), of the effects of unmounted components and
of `asyncio.wait`.  Which task runs next is arbitrary.

Simplifications:
* A component is a number.  Its parent component never changes (an old child state is only looked up among
  the children of the same parent, 540–544), so the parents are a fixed forest of possible instances, of
  which any may or may not be mounted.  Elements between components are left out.
* A component's state is one value.  What its body returns is an arbitrary list of child components.
* Unmounting does not fail.  (In the code, a task that is cancelled after it unmounted a component leaves that
  component in the old tree, and the next unmounting raises `KeyError`; see `Verif.Sched.Heap`.)
* The task of a component in the tree finds its parent (see `Verif.Sched.Heap`, C106).  That of another component may not,
  and ends with `RuntimeError` (`crash`).
* Unmounting the dropped children of a component, with everything below them, is part of the step that runs
  the body.
* The layout is not closed.
-/
namespace Verif.Sched

/-- The possible component instances.
The parents of the model states (layout.py 716–786); a component keeps its parent as long as it exists. -/
structure Tree where
  par : Nat → Option Nat
  par_root : par 0 = none
  depth : Nat → Nat
  depth_par : ∀ x p, par x = some p → depth x = depth p + 1

/-- Is `b` the component `x` or one of its ancestors (searched up to the given height)?
(auxiliary, no code of /repo). -/
def Tree.above (T : Tree) (b : Nat) : Nat → Nat → Bool
  | 0, x => x == b
  | n + 1, x => x == b || match T.par x with
    | none => false
    | some p => T.above b n p

/-- `b` is `x` or one of its ancestors. (auxiliary, no code of /repo) -/
def Tree.le (T : Tree) (b x : Nat) : Bool := T.above b (T.depth x) x

/-- `f[x] = v`. (auxiliary, no code of /repo) -/
def upd {α : Type} (f : Nat → α) (x : Nat) (v : α) : Nat → α := fun y => if y = x then v else f y

/-- Where a call of `_render_component` (274–352) is: `waiting` in `affect_component_will_render` (329) for the
component's `_render_access` semaphore; `granted`: has it but was not resumed yet; `kids`: the body was run
(333) and these child components are still to be rendered. -/
inductive Phase where
  | waiting
  | granted
  | kids (todo : List Nat)
deriving DecidableEq, Repr

/-- A call of `_render_component`, layout.py 274–352. -/
structure Frame where
  id : Nat
  phase : Phase
deriving DecidableEq, Repr

/-- A task made by `create_task(self._create_layout_update(...))` (592): not begun; begun; `cancel()` was
called on it and it did not end yet; ended with an update; ended with `CancelledError`; ended with the `RuntimeError`
of line 785. -/
inductive TStat where
  | created
  | running
  | cancelled
  | done
  | dead
  | crashed
deriving DecidableEq, Repr

/-- A render task: the component it was made for and the calls of `_render_component` in progress, innermost
first. Made in `_schedule_render_task`, layout.py 580–596. -/
structure Task where
  owner : Nat
  stat : TStat
  stack : List Frame
deriving DecidableEq, Repr

/-- What happened: a setter changed the state of a component; a task was created for a component; a task ran
the body of a component, which saw the state numbered `ver`; `render()` returned the update of a task;
`render()` took out a cancelled task; `render()` raised the exception of a task. A record of what layout.py does, for the statements; not read by the steps. -/
inductive Ev where
  | changed (x : Nat)
  | created (t x : Nat)
  | read (t x ver : Nat)
  | delivered (t : Nat)
  | skipped (t : Nat)
  | raised (t : Nat)
deriving DecidableEq, Repr

/-- `_parallel_render` (211–226): no call in progress; at `acquire`; at `wait`, which took a copy of the set of
tasks (`asyncio.wait`: `fs = set(fs)`). -/
inductive Consumer where
  | idle
  | wanting
  | waiting (snap : List Nat)
deriving DecidableEq, Repr

/-- `val`, `ver`: the state of a component and the number of changes made to it.  `flag`: `_scheduled_render`
of its hook.  `seen`: the number of changes its newest render saw.  `kids`: the child components that its newest
run returned, none if it failed (a record, read by nothing in the code).  `mounted`: registered in
`_model_states_by_life_cycle_state_id`, and not left behind by a render that failed above it; `left`: registered and left
behind.  `access`: the task that holds `_render_access`.  `byId`:
`_render_tasks_by_id`.  `tasks`, `next`: all tasks ever created.  `pool`: `_render_tasks`.  `tokens`: the value
of `_render_tasks_ready`.  `res t x`: the number of changes that the render of `x` by task `t` saw (part of the
update of `t`).  `shown x`: the number of changes seen by the render of `x` that the client displays, if
any. layout.py 72–97, _life_cycle_hook.py 151–175. -/
structure St where
  val : Nat → Nat := fun _ => 0
  ver : Nat → Nat := fun _ => 0
  flag : Nat → Bool := fun _ => false
  seen : Nat → Option Nat := fun _ => none
  kids : Nat → List Nat := fun _ => []
  mounted : Nat → Bool
  left : Nat → Bool := fun _ => false
  access : Nat → Option Nat := fun _ => none
  byId : Nat → Option Nat
  tasks : Nat → Task
  next : Nat
  pool : List Nat
  tokens : Nat
  consumer : Consumer := .idle
  res : Nat → Nat → Option Nat := fun _ _ => none
  shown : Nat → Option Nat := fun _ => none
  log : List Ev

/-- `__aenter__` (67–98): the root component 0 is registered and its render scheduled. -/
def init : St where
  mounted x := x == 0
  byId := upd (fun _ => none) 0 (some 0)
  tasks := fun _ => { owner := 0, stat := .created, stack := [] }
  next := 1
  pool := [0]
  tokens := 1
  log := [.created 0 0]

/-- `_schedule_render_task` (580–597) from `LifeCycleHook.schedule_render` (`_life_cycle_hook.py` 155–164). -/
def schedule (s : St) (x : Nat) : St :=
  if s.flag x then s
  else if s.mounted x || s.left x then
    { s with
      flag := upd s.flag x true
      tasks := upd s.tasks s.next { owner := x, stat := .created, stack := [] }
      byId := upd s.byId x (some s.next)
      pool := s.next :: s.pool
      tokens := s.tokens + 1
      next := s.next + 1
      log := .created s.next x :: s.log }
  else { s with flag := upd s.flag x true }

/-- `task.cancel()`: nothing if the task has ended. (asyncio) -/
def cancelTask (k : Task) : Task :=
  match k.stat with
  | .created => { k with stat := .cancelled }
  | .running => { k with stat := .cancelled }
  | _ => k

/-- Task `t` begins `_render_component` for `y` (313–329): registers it, cancels its scheduled task unless that is
`t` itself, and comes to wait for its semaphore. -/
def enter (s : St) (t y : Nat) : St :=
  let s := { s with mounted := upd s.mounted y true, left := upd s.left y false }
  let s := match s.byId y with
    | some t' => if t' = t then s
      else { s with byId := upd s.byId y none, tasks := upd s.tasks t' (cancelTask (s.tasks t')) }
    | none => s
  { s with tasks := upd s.tasks t { s.tasks t with stack := { id := y, phase := .waiting } :: (s.tasks t).stack } }

/-- The atomic steps, between the `await`s of layout.py 192–352 and _life_cycle_hook.py 177–213. -/
inductive Act where
  | set (x v : Nat)
  | foreign (x v : Nat)
  | start (t : Nat)
  | grant (t : Nat)
  | body (t : Nat) (kids : List Nat)
  | fail (t : Nat)
  | next (t : Nat)
  | finish (t : Nat)
  | die (t : Nat)
  | crash (t : Nat)
  | lose (x : Nat)
  | call
  | acquire
  | pick (t : Nat)
  | abort
deriving DecidableEq, Repr

/-- Replace task `t`. (auxiliary, no code of /repo) -/
def St.put (s : St) (t : Nat) (k : Task) : St := { s with tasks := upd s.tasks t k }

/-- The components below `y` are left behind when its render fails: they stay registered (341–348). -/
def leave (T : Tree) (s : St) (y : Nat) : St :=
  { s with
    kids := upd s.kids y []
    mounted := fun z => s.mounted z && (z == y || !T.le y z)
    left := fun z => s.left z || (s.mounted z && z != y && T.le y z) }

/-- The body of the innermost call of `t` raises, or, after it, the rendering of an element between its components (333–348): the component is
replaced by an error. -/
def failCall (T : Tree) (s : St) (t : Nat) : St :=
  match s.tasks t with
  | ⟨o, .running, ⟨y, .granted⟩ :: fs⟩ =>
    leave T { s.put t ⟨o, .running, ⟨y, .kids []⟩ :: fs⟩ with
      flag := upd s.flag y false
      seen := upd s.seen y (some (s.ver y))
      res := upd s.res t (upd (s.res t) y (some (s.ver y)))
      log := .read t y (s.ver y) :: s.log } y
  | ⟨o, .running, ⟨y, .kids _⟩ :: fs⟩ => leave T (s.put t ⟨o, .running, ⟨y, .kids []⟩ :: fs⟩) y
  | _ => s

/-- A call of `_render_component` returns (350–352). -/
def finishCall (s : St) (t : Nat) : St :=
  match s.tasks t with
  | ⟨o, .running, ⟨y, .kids []⟩ :: fs⟩ =>
    { s.put t ⟨o, if fs.isEmpty then .done else .running, fs⟩ with access := upd s.access y none }
  | _ => s

/-- * `set`: a setter called in the thread of the event loop (`hooks.py` 84–88); there is none before the first
  render of the component.
* `foreign`: a setter called in another thread: `create_task` raises `RuntimeError`, which
  `schedule_render` logs (`_life_cycle_hook.py` 158–162).
* `start`: a task begins (231–249).
* `grant`: the semaphore is given to a waiting call.
* `body`: the call is resumed, clears the flag and runs the body (`_life_cycle_hook.py` 216–221, 333), whose
  children are `kids`; the mounted components below other children are unmounted (531–535).
* `fail`: the body, or the rendering of its elements, raises; the call returns an error in place of the component.
* `next`: the next child is rendered (549–553).
* `finish`: a call of `_render_component` returns (350–352), at the end with the task's update.
* `die`: the `CancelledError` is raised in a cancelled task; its calls release their semaphores (350).
* `crash`: a task begins for a component that was unmounted or left behind, and whose parent is gone (782–786).
* `lose`: a component that was left behind is unmounted after all, because what is above it is.
* `call`, `acquire`, `pick`: `render()` is called; `acquire` succeeds (214–219); `wait` returned a set of ended
  tasks of which one is taken (219–226); its update is returned and applied by the client to what it shows of
  this component and everything below it; the exception of a task is raised.
* `abort`: the call of `render()` is cancelled. -/
def step (T : Tree) (s : St) : Act → St
  | .set x v =>
    if s.seen x = none ∨ s.val x = v then s
    else schedule { s with val := upd s.val x v, ver := upd s.ver x (s.ver x + 1), log := .changed x :: s.log } x
  | .foreign x v =>
    if s.seen x = none ∨ s.val x = v then s
    else { s with
      val := upd s.val x v
      ver := upd s.ver x (s.ver x + 1)
      flag := if s.mounted x || s.left x then s.flag else upd s.flag x true
      log := .changed x :: s.log }
  | .start t =>
    if t < s.next ∧ (s.tasks t).stat = .created then
      enter (s.put t { s.tasks t with stat := .running }) t (s.tasks t).owner
    else s
  | .grant t =>
    match s.tasks t with
    | ⟨o, .running, ⟨y, .waiting⟩ :: fs⟩ =>
      if s.access y = none then
        { s.put t ⟨o, .running, ⟨y, .granted⟩ :: fs⟩ with access := upd s.access y (some t) }
      else s
    | _ => s
  | .body t kids =>
    match s.tasks t with
    | ⟨o, .running, ⟨y, .granted⟩ :: fs⟩ =>
      let kids := kids.filter (fun c => T.par c == some y)
      { s.put t ⟨o, .running, ⟨y, .kids kids⟩ :: fs⟩ with
        flag := upd s.flag y false
        seen := upd s.seen y (some (s.ver y))
        kids := upd s.kids y kids
        mounted := fun z => s.mounted z && (z == y || !T.le y z || kids.any (fun c => T.le c z))
        res := upd s.res t (upd (s.res t) y (some (s.ver y)))
        log := .read t y (s.ver y) :: s.log }
    | _ => s
  | .next t =>
    match s.tasks t with
    | ⟨o, .running, ⟨y, .kids (c :: cs)⟩ :: fs⟩ => enter (s.put t ⟨o, .running, ⟨y, .kids cs⟩ :: fs⟩) t c
    | _ => s
  | .fail t => finishCall (failCall T s t) t
  | .finish t => finishCall s t
  | .die t =>
    if t < s.next ∧ (s.tasks t).stat = .cancelled then
      { s.put t { s.tasks t with stat := .dead, stack := [] } with
        access := fun y => if s.access y = some t then none else s.access y }
    else s
  | .crash t =>
    if t < s.next ∧ (s.tasks t).stat = .created ∧ s.mounted (s.tasks t).owner = false then s.put t { s.tasks t with stat := .crashed }
    else s
  | .lose x => { s with left := upd s.left x false }
  | .call => match s.consumer with
    | .idle => { s with consumer := .wanting }
    | _ => s
  | .acquire =>
    match s.consumer with
    | .wanting =>
      if s.tokens = 0 then s
      else if s.pool.isEmpty then { s with tokens := s.tokens - 1 }
      else { s with tokens := s.tokens - 1, consumer := .waiting s.pool }
    | _ => s
  | .pick t =>
    match s.consumer with
    | .waiting snap =>
      if t ∈ snap then
        match (s.tasks t).stat with
        | .done => { s with
            pool := s.pool.erase t
            consumer := .idle
            shown := fun x => if T.le (s.tasks t).owner x then s.res t x else s.shown x
            log := .delivered t :: s.log }
        | .dead => { s with pool := s.pool.erase t, consumer := .wanting, log := .skipped t :: s.log }
        | .crashed => { s with pool := s.pool.erase t, consumer := .idle, log := .raised t :: s.log }
        | _ => s
      else s
    | _ => s
  | .abort => { s with consumer := .idle }

/-- Any schedule of the steps (layout.py 69–352). -/
def run (T : Tree) (s : St) (acts : List Act) : St := acts.foldl (step T) s

end Verif.Sched
