/-!
# Model of `_ThreadSafeQueue` (core/layout.py 838–875)

The queue between the state setters and `Layout.render()` in serial mode.  A step is what happens
between two points where another thread or task can run.  `V` is the type of values (component ids).

asyncio parts, as assumed here: callbacks given to `call_soon_threadsafe` run in the order given; a
task created by `create_task` begins after the tasks created before it have begun (the loop's ready
list is first-in-first-out); `Queue.put` adds at once when there is room and otherwise suspends the
task; a suspended task is resumed at some time when there is room, *not necessarily in order* (in
asyncio a task that begins between the `get` that made room and the resumption of the woken task
takes the room).  `Queue(maxsize)` with `maxsize <= 0` is unbounded.

`close` (867–875), called when the layout exits, is not modelled.
-/
namespace Verif.Queue

variable {V : Type} [DecidableEq V]

/-- Observable effects: a completed call of `put`, a value returned by `get`, a `KeyError` from
`self._pending.remove(value)` in `get`. layout.py 845–848, 862–865. -/
inductive Obs (V : Type) where
  | put (v : V)
  | got (v : V)
  | keyError (v : V)
deriving DecidableEq, Repr

/-- `_pending`, and where values are: given to `call_soon_threadsafe`, in a task that has not begun, in
a task suspended in `self._queue.put`, in `_queue`.  `calls t`: thread `t` is inside `put(v)`, past the
test `value not in self._pending`. layout.py 839–843. -/
structure St (V : Type) where
  pending : List V := []
  soon : List V := []
  created : List V := []
  blocked : List V := []
  queue : List V := []
  calls : Nat → Option V := fun _ => none
  log : List (Obs V) := []

/-- The atomic steps of layout.py 845–865: the test (846), the rest of `put` (847–848), the callback of the loop (850–851), the begin of the task and its end (853–860), `get` (862–865). -/
inductive Act (V : Type) where
  | test (t : Nat) (v : V)
  | add (t : Nat)
  | callback
  | start
  | resume (v : V)
  | get
deriving DecidableEq, Repr

/-- `Queue.full()` of `Queue(cap)`. (asyncio; layout.py 841) -/
def full (cap : Nat) (q : List V) : Bool := cap != 0 && decide (cap ≤ q.length)

/-- * `test`, `add`: `put` (845–848); the test and the insertion are separate for a thread other than the
  loop's, which can be interrupted between them.
* `callback`: `_schedule_put` (850–851).
* `start`, `resume`: `_put_with_backpressure` (853–860), up to `put` returning or suspending.
* `get` (862–865), when the inner queue is not empty.  The caller of `get` is one task (`Layout.render`);
  `self._pending` is a set, so `remove` deletes the only occurrence. -/
def step (cap : Nat) (s : St V) : Act V → St V
  | .test t v =>
    match s.calls t with
    | some _ => s
    | none =>
      if v ∈ s.pending then { s with log := .put v :: s.log }
      else { s with calls := fun x => if x = t then some v else s.calls x }
  | .add t =>
    match s.calls t with
    | none => s
    | some v =>
      { s with
        pending := if v ∈ s.pending then s.pending else s.pending ++ [v]
        soon := s.soon ++ [v]
        calls := fun x => if x = t then none else s.calls x
        log := .put v :: s.log }
  | .callback =>
    match s.soon with
    | [] => s
    | v :: r => { s with soon := r, created := s.created ++ [v] }
  | .start =>
    match s.created with
    | [] => s
    | v :: r =>
      if full cap s.queue then { s with created := r, blocked := s.blocked ++ [v] }
      else { s with created := r, queue := s.queue ++ [v] }
  | .resume v =>
    if v ∈ s.blocked ∧ full cap s.queue = false then
      { s with blocked := s.blocked.erase v, queue := s.queue ++ [v] }
    else s
  | .get =>
    match s.queue with
    | [] => s
    | v :: r =>
      if v ∈ s.pending then { s with queue := r, pending := s.pending.erase v, log := .got v :: s.log }
      else { s with queue := r, log := .keyError v :: s.log }

/-- Any schedule of layout.py 845–865. -/
def run (cap : Nat) (acts : List (Act V)) (s : St V := {}) : St V := acts.foldl (step cap) s

/-- Schedules in which a call of `put` is not interrupted: what happens when all callers run in the
event loop's thread. layout.py 845–865. -/
inductive Call (V : Type) where
  | put (t : Nat) (v : V)
  | callback
  | start
  | resume (v : V)
  | get
deriving DecidableEq, Repr

/-- layout.py 845–848: the two steps of `put` together. -/
def Call.acts : Call V → List (Act V)
  | .put t v => [.test t v, .add t]
  | .callback => [.callback]
  | .start => [.start]
  | .resume v => [.resume v]
  | .get => [.get]

/-- Any schedule of layout.py 845–865 in one thread. -/
def runCalls (cap : Nat) (cs : List (Call V)) : St V := run cap (cs.flatMap Call.acts)

end Verif.Queue
