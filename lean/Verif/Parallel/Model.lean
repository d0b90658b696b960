import Verif.Layout.Props
/-!
# The renderer under parallel scheduling

With `REACTPY_ASYNC_RENDERING` on (the default, `config.py`), setters create render tasks (`layout.py` 580–596), each of which renders the
model state it was created with (592), and `render()` hands out what finished tasks return (212–227).  This file puts that scheduling on
top of the renderer of `Layout/Model.lean`, for executions in which no other render task starts between the start and the end of one
(a render gives way to others only while it waits for the effects of a component that it unmounts, `_life_cycle_hook.py` 241–252).
Setters can be called at any time, also in the middle of a render.  The interleavings that are left out here are in `Sched/`.

A model state is a mutable object; every render of an instance makes a new one (287–310) and registers it (315), and renders of the components
inside it change it in place (243–256).  An object is therefore named by its instance and by how many renders of the instance came before.
-/
namespace Verif.Parallel
open Verif.Layout

/-- A task that has not started, was cancelled before it started, or is through. (asyncio) -/
inductive Stat where
  | waiting
  | cancelled
  | finished
deriving DecidableEq, Repr

/-- `create_task(self._create_layout_update(model_state))` (layout.py 592): the instance, and which of its model states it is. -/
structure Task where
  id : Nat
  obj : Nat
  stat : Stat
deriving DecidableEq, Repr

/-- The hook of an instance is not known to user code yet; the instance is registered; it was unmounted.
(layout.py 315, 573–576: the registry; a body is the first user code that has the hook.) -/
inductive Life where
  | unborn
  | here
  | gone
deriving DecidableEq, Repr

/-- What the scheduling reads and writes (layout.py 72–82, `_life_cycle_hook.py` 157): for each instance how many renders it had, `_scheduled_render`
of its hook, whether it is registered; all tasks in the order of creation; `_render_tasks_by_id`.
`owed` is for the statements: its setter was called since its body was last called. -/
structure Ctl where
  ver : Nat → Nat
  flag : Nat → Bool
  life : Nat → Life
  tasks : List Task
  byId : Nat → Option Nat
  owed : Nat → Bool

/-- `f[x] := v`, assignment to an entry of a `dict`. (layout.py 315, 595) -/
def put {α : Type} (f : Nat → α) (x : Nat) (v : α) : Nat → α := fun y => if y = x then v else f y

/-- `_schedule_render_task` (layout.py 580–596) for a registered instance. -/
def create (x : Nat) (c : Ctl) : Ctl :=
  { c with tasks := c.tasks ++ [⟨x, c.ver x, .waiting⟩], byId := put c.byId x (some c.tasks.length) }

/-- `LifeCycleHook.schedule_render` (`_life_cycle_hook.py` 166–175) with `_schedule_render_task` (layout.py 580–596): nothing is created for an
instance that is not registered, but the flag is set. -/
def schedule (c : Ctl) (x : Nat) : Ctl :=
  match c.life x with
  | .unborn => c
  | .here =>
    if c.flag x then { c with owed := put c.owed x true }
    else { create x c with flag := put c.flag x true, owed := put c.owed x true }
  | .gone => { c with flag := put c.flag x true, owed := put c.owed x true }

/-- `task.cancel()`: nothing happens to a task that is through. (asyncio) -/
def cancel (t : Task) : Task := if t.stat = .waiting then { t with stat := .cancelled } else t

/-- What an event of a render by task `cur` means for the scheduling.  `entered`: registered (layout.py 315), the task for the instance cancelled
unless it is this one (323–328), the flag cleared (`_life_cycle_hook.py` 223); `unmounted`: 573–576. -/
def observe (cur : Nat) (e : Ev) (c : Ctl) : Ctl :=
  match e with
  | .entered x =>
    let c := { c with ver := put c.ver x (c.ver x + 1), flag := put c.flag x false, life := put c.life x .here, owed := put c.owed x false }
    match c.byId x with
    | none => c
    | some t => if t = cur then c else { c with tasks := c.tasks.modify t cancel, byId := put c.byId x none }
  | .unmounted x => { c with life := put c.life x .gone }
  | _ => c

/-- The events of a render one after another, after each of them the setters that user code calls there. (layout.py 274–352) -/
def follow (cur : Nat) : List Ev → List (List Nat) → Ctl → Ctl
  | [], _, c => c
  | e :: es, calls, c => follow cur es calls.tail ((calls.headD []).foldl schedule (observe cur e c))

/-- The task is through, or is being run: it cannot be cancelled before its start any more. (asyncio) -/
def start (i : Nat) (c : Ctl) : Ctl := { c with tasks := c.tasks.modify i (fun t => { t with stat := .finished }) }

/-- The events by which the second history is longer than the first, oldest first. (specification, no code of /repo) -/
def events (old new : List Ev) : List Ev := (new.take (new.length - old.length)).reverse

/-- A layout, its scheduling, the updates of finished tasks in the order in which they finished, and the client.
`stray` as in `Layout.Sys`; `lost`: a task was run whose instance was unmounted before; `disordered`: an update was handed out before an
earlier one that concerns the same place, a place inside, or a place around it. (layout.py 67–98, 212–227) -/
structure Sys (U : User) where
  lay : Layout U
  ctl : Ctl
  queue : List Update
  client : Client
  stray : Bool
  lost : Bool
  disordered : Bool

/-- One of the places is inside the other, or they are the same. (specification, no code of /repo) -/
def comparable (p q : List Nat) : Bool := p.isPrefixOf q || q.isPrefixOf p

/-- `__aenter__` (layout.py 67–98): a task for the root. -/
def init (U : User) (w : U.World) (root : Comp) : Sys U :=
  { lay := initLayout U w root
    ctl := create 0 { ver := fun _ => 0, flag := fun _ => false, life := fun _ => .unborn, tasks := [], byId := fun _ => none, owed := fun _ => false }
    queue := [], client := .empty, stray := false, lost := false, disordered := false }

/-- What can happen: a task that waits is run (`calls`: the setters called after each of its events), a setter is called outside a render, user
code changes the world, an event arrives, `render()` returns what the `k`-th of the finished tasks returned. (layout.py 130–227) -/
inductive Op (U : User) where
  | run (fuel : Nat) (i : Nat) (calls : List (List Nat))
  | call (x : Nat)
  | user (f : U.World → U.World)
  | event (target : String) (seq : Option Nat)
  | deliver (k : Nat)

/-- The task is run from start to end.  It renders the model state that it was created with; where that is not the registered one any more
(`lost`), what it does is not modelled here but in `Sched/Heap.lean`.  A render that does not end is not a step. (layout.py 229–272) -/
def run {U : User} (fuel : Nat) (i : Nat) (calls : List (List Nat)) (p : Sys U) : Sys U :=
  match p.ctl.tasks[i]? with
  | some ⟨id, obj, .waiting⟩ =>
    if id ∈ p.lay.st.reg ∧ obj = p.ctl.ver id then
      match renderOp fuel id p.lay with
      | (l, .update u) =>
        { p with lay := l, ctl := follow i (events p.lay.st.log l.st.log) calls (start i p.ctl), queue := p.queue ++ [u]
                 stray := p.stray || (findComp id p.lay.tree).isNone }
      | (_, .diverged) => p
      | (l, _) => { p with lay := l, ctl := start i p.ctl, stray := true }
    else { p with ctl := start i p.ctl, lost := true }
  | _ => p

/-- layout.py 212–227 with layout_handler.py 158–160: the client applies the update; a task that was cancelled is skipped (226). -/
def deliver {U : User} (k : Nat) (p : Sys U) : Sys U :=
  match p.queue[k]? with
  | none => p
  | some u =>
    { p with client := applyUpdate u p.client, queue := p.queue.eraseIdx k
             disordered := p.disordered || (p.queue.take k).any (fun v => comparable u.path v.path) }

/-- layout.py 130–227. -/
def step {U : User} (p : Sys U) : Op U → Sys U
  | .run fuel i calls => run fuel i calls p
  | .call x => { p with ctl := schedule p.ctl x }
  | .user f => { p with lay := (stepOp p.lay (.user f)).1 }
  | .event t seq => { p with lay := (stepOp p.lay (.event t seq)).1 }
  | .deliver k => deliver k p

/-- Any history (layout.py 130–227). -/
def runs {U : User} (p : Sys U) (ops : List (Op U)) : Sys U := ops.foldl step p

end Verif.Parallel
