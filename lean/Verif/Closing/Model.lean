/-!
# Leaving a layout

`/repo/src/reactpy/core/layout.py` 100–117 (`Layout.__aexit__`), 565–578 (`_unmount_model_states`),
`/repo/src/reactpy/core/_life_cycle_hook.py` 242–252 (`affect_component_will_unmount`), and, for a render that is cut short by
leaving, layout.py 274–352, 509–563 (`_render_component`, `_render_model_children`).

The code that leaves is one task; render tasks, event tasks and effect tasks are others.  A step of the leaving task goes from
one suspension point to the next.  Whatever the other tasks do in between shows here only as: a task ends, a render is
scheduled, an event arrives.  asyncio, as assumed: `await` of a task that has ended does not suspend; iterating over a set or
dict whose size has changed since the iteration began raises; `gather` raises what the first of its tasks to fail raised, and
a cancelled task counts as failed.
Not modelled: event handlers in the tree (see `Verif.Layout`), the queue of the serial renderer (closed last, 117).
-/
namespace Verif.Closing

/-- A component's model state with those of the components it shows (layout.py 716–764, `children_by_key`; elements are left
out, their component descendants belong to the component around them). -/
inductive Node where
  | mk (id : Nat) (kids : List Node)

mutual
/-- The components of a tree (auxiliary, no code of /repo). -/
def Node.ids : Node → List Nat
  | .mk id kids => id :: idsL kids
/-- As `Node.ids`, for a list (auxiliary, no code of /repo). -/
def idsL : List Node → List Nat
  | [] => []
  | k :: ks => k.ids ++ idsL ks
end

/-- How a task ended (asyncio; layout.py 106–114): it returned, raised an `Exception`, or was cancelled. -/
inductive Outcome where
  | ok
  | error
  | cancelled
deriving DecidableEq, Repr

/-- A task (asyncio; layout.py 69–96). -/
inductive TStat where
  | pending
  | ended (o : Outcome)
deriving DecidableEq, Repr

/-- Where the leaving task is: about to take the next of `_render_tasks` (106) or waiting for one (109); the same for the
event tasks (111, 114); about to unmount the top of `to_unmount` (567–575) or waiting for the effects of a component (576);
done; or an exception has left `__aexit__`.  `n` is the size of the collection when the iteration began. -/
inductive Pc where
  | renders (i n : Nat)
  | renderWait (i n : Nat)
  | events (i n : Nat)
  | eventWait (i n : Nat)
  | unmount (stack : List Node)
  | effectWait (id : Nat) (kids stack : List Node)
  | closed
  | raised

/-- `tree`: the registered state of the root and what is below it.  `reg`: `_model_states_by_life_cycle_state_id`.
`renders`, `events`: `_render_tasks` and `_event_processing_tasks` in the order of iteration (newcomers last).  `effects`:
`_effect_tasks` of a component's hook.  `stopped`: the components whose `_effect_stops` were set, oldest first.  `asked`: the
tasks that were cancelled by the leaving task. (layout.py 69–96, _life_cycle_hook.py 160–163) -/
structure St where
  tree : Node
  reg : List Nat
  renders : List Nat
  events : List Nat
  effects : Nat → List Nat
  task : Nat → TStat
  stopped : List Nat := []
  asked : List Nat := []
  pc : Pc

/-- What may happen: the leaving task goes on (`pick`: which failed task `gather` reports, if several have failed); a task
ends; a render is scheduled (layout.py 592–596); an event comes for a new target (137–144). -/
inductive Act where
  | close (pick : Nat)
  | finish (t : Nat) (o : Outcome)
  | schedule (t : Nat)
  | deliver (t : Nat)

/-- One turn of `for t in tasks: t.cancel(); with suppress(CancelledError): await t` (layout.py 106–114) for task `t`:
`wait`, `next` and `Pc.raised` are where it leads. -/
def askOne (s : St) (t : Nat) (wait next : Pc) : St :=
  match s.task t with
  | .pending => { s with asked := s.asked ++ [t], pc := wait }
  | .ended .error => { s with pc := .raised }
  | .ended _ => { s with pc := next }

/-- The end of `await t` (layout.py 108–109, 113–114). -/
def waitOne (s : St) (t : Nat) (next : Pc) : St :=
  match s.task t with
  | .pending => s
  | .ended .error => { s with pc := .raised }
  | .ended _ => { s with pc := next }

/-- `await gather(*self._effect_tasks)` (_life_cycle_hook.py 247–252): a failure is logged, unless it is a cancellation; then
the children (layout.py 578). -/
def gather (s : St) (pick : Nat) (id : Nat) (kids stack : List Node) : St :=
  let next := { s with pc := .unmount (kids.reverse ++ stack) }
  if pick ∈ s.effects id then
    match s.task pick with
    | .ended .error => next
    | .ended .cancelled => { s with pc := .raised }
    | _ => if (s.effects id).all (fun t => s.task t == .ended .ok) then next else s
  else if (s.effects id).all (fun t => s.task t == .ended .ok) then next else s

/-- `__aexit__` from one suspension point to the next or to the next round of its loop (layout.py 106–117; 565–578;
_life_cycle_hook.py 242–252). -/
def closeStep (s : St) (pick : Nat) : St :=
  match s.pc with
  | .renders i n =>
    if s.renders.length = n then
      match s.renders[i]? with
      | some t => askOne s t (.renderWait i n) (.renders (i + 1) n)
      | none => { s with pc := .events 0 s.events.length }
    else { s with pc := .raised }
  | .renderWait i n => waitOne s (s.renders.getD i 0) (.renders (i + 1) n)
  | .events i n =>
    if s.events.length = n then
      match s.events[i]? with
      | some t => askOne s t (.eventWait i n) (.events (i + 1) n)
      | none => { s with pc := .unmount [s.tree] }
    else { s with pc := .raised }
  | .eventWait i n => waitOne s (s.events.getD i 0) (.events (i + 1) n)
  | .unmount [] => { s with pc := .closed }
  | .unmount (.mk id kids :: stack) =>
    if id ∈ s.reg then { s with reg := s.reg.erase id, stopped := s.stopped ++ [id], pc := .effectWait id kids stack }
    else { s with pc := .raised }
  | .effectWait id kids stack => gather s pick id kids stack
  | .closed => s
  | .raised => s

/-- layout.py 100–117 (`close`), 580–596 (`schedule`), 136–144 (`deliver`), and the ends of other tasks. -/
def step (s : St) : Act → St
  | .close pick => closeStep s pick
  | .finish t o => if s.task t = .pending then { s with task := fun u => if u = t then .ended o else s.task u } else s
  | .schedule t => { s with renders := s.renders ++ [t] }
  | .deliver t => { s with events := s.events ++ [t] }

/-- Any schedule of layout.py 100–117. -/
def run (s : St) (acts : List Act) : St := acts.foldl step s

/-! ## A render cut short

What is in the tree when a render is cancelled at a suspension point (layout.py 106–109 does so to every render in
progress). -/

/-- The registry, and the number of suspension points the render may still pass before it is cancelled (`none`: it is not
cancelled). -/
structure Cut where
  reg : List Nat
  left : Option Nat

/-- How a call of the renderer ends: with a model state, or cancelled, with the state made so far (layout.py 274–352). -/
inductive Res where
  | ok (n : Node)
  | cut (n : Node)

/-- A suspension point: `true` if the cancellation comes here (asyncio; layout.py 274–352). -/
def suspend (c : Cut) : Cut × Bool :=
  match c.left with
  | none => (c, false)
  | some 0 => (c, true)
  | some (n + 1) => ({ c with left := some n }, false)

mutual
/-- `_unmount_model_states` (layout.py 565–578) on one state. -/
def unmount : Node → Cut → Cut × Bool
  | .mk id kids, c =>
    if id ∈ c.reg then
      match suspend { c with reg := c.reg.erase id } with
      | (c, true) => (c, true)
      | (c, false) => unmountL kids c
    else (c, true)
/-- … and on a list (565–578): the last first. -/
def unmountL : List Node → Cut → Cut × Bool
  | [], c => (c, false)
  | k :: ks, c =>
    match unmountL ks c with
    | (c, true) => (c, true)
    | (c, false) => unmount k c
end

/-- The id of a state (layout.py 794–804; auxiliary). -/
def Node.id : Node → Nat
  | .mk id _ => id

/-- `old_state.children_by_key` (layout.py 540–544; auxiliary). -/
def Node.kids : Node → List Node
  | .mk _ kids => kids

/-- The loop over the children (layout.py 539–563); `rend` renders one of them, `done` are those already in the new state. -/
def renderKids (rend : Option Node → Nat → Cut → Cut × Res) (oldKids : List Node) (id : Nat) :
    List Node → List Nat → Cut → Cut × Res
  | done, [], c => (c, .ok (.mk id done))
  | done, k :: ks, c =>
    match rend (oldKids.find? (fun o => o.id == k)) k c with
    | (c, .ok n) => renderKids rend oldKids id (done ++ [n]) ks c
    | (c, .cut _) => (c, .cut (.mk id done))

/-- `_render_component` (layout.py 274–352) for the component `id`, whose previous state is `old`; `body id` are the components
it returns (a component with the id of an old child is that child, kept; others are new). `fuel` bounds the depth. -/
def render (body : Nat → List Nat) : Nat → Option Node → Nat → Cut → Cut × Res
  | 0, _, id, c => (c, .cut (.mk id []))
  | fuel + 1, old, id, c =>
    -- 315
    let c := if id ∈ c.reg then c else { c with reg := c.reg ++ [id] }
    -- 330
    match suspend c with
    | (c, true) => (c, .cut (.mk id []))
    | (c, false) =>
      let oldKids := match old with
        | some o => o.kids
        | none => []
      -- 530–535
      match unmountL (oldKids.filter (fun k => k.id ∉ body id)) c with
      | (c, true) => (c, .cut (.mk id []))
      | (c, false) => renderKids (render body fuel) oldKids id [] (body id) c

end Verif.Closing
