/-!
# A websocket connection

`/repo/src/reactpy/executors/asgi/middleware.py` 155–258 (`ComponentDispatchApp`, `ReactPyWebsocket`) and
`/repo/src/reactpy/core/serve.py` 28–45, 61–71 (`serve_layout` and its incoming loop).

Two tasks: the handler of the connection, which the web server awaits, reads the socket and puts events on a bounded queue;
the dispatcher task renders the component and takes events from the queue.  A step runs one of them to its next suspension
point.  The layout itself is outside (see `Verif.Layout`, `Verif.Events`): here it is opened, given events, and closed.
asyncio, as assumed: `Queue.put` adds at once when there is room and otherwise suspends; `Task.cancel()` makes the task end
at its next step, running `__aexit__` of what it has entered, and a task that has not begun never begins.
Not modelled: sending (a failure to send is `fail`), the closing handshake, and `websocket.connect`.
-/
namespace Verif.Connection

variable {M : Type}

/-- What the web server hands over: a `layout-event` message, a JSON object of another type, text that is not a JSON object
(`orjson.loads` or `.get` raises), the end of the connection. (middleware.py 167–185) -/
inductive Input (M : Type) where
  | event (m : M)
  | unknown
  | malformed
  | disconnect

/-- The handler: waiting for the socket, suspended in `put`, or it has returned (or raised). (middleware.py 159–185) -/
inductive Loop (M : Type) where
  | receiving
  | putting (m : M)
  | ended
deriving DecidableEq, Repr

/-- The dispatcher task. (middleware.py 203–249) -/
inductive Disp where
  | created
  | serving
  | ended
deriving DecidableEq, Repr

structure St (M : Type) where
  loop : Loop M := .receiving
  disp : Disp := .created
  /-- `self.dispatcher.cancel()` was called -/
  cancelled : Bool := false
  queue : List M := []
  /-- the layout events read from the socket, oldest first -/
  received : List M := []
  /-- the events handed to the layout (serve.py 71), oldest first -/
  delivered : List M := []
  /-- how often the layout was entered and left (serve.py 37) -/
  opened : Nat := 0
  closed : Nat := 0

/-- What can happen next (middleware.py 155–254); the code of each is cited at `step`. -/
inductive Act (M : Type) where
  | input (i : Input M)
  | resume
  | begin (found : Bool)
  | take
  | fail
  | stop

/-- `Queue(REACTPY_MAX_QUEUE_SIZE.current)` (200–202) is full; `0` (and below) is no limit. -/
def full (cap : Nat) (q : List M) : Bool := cap != 0 && decide (cap ≤ q.length)

/-- The end of the handler: `__aexit__` (209–212). -/
def finish (s : St M) : St M := { s with loop := .ended, cancelled := true }

/-- * `input`: 167–185, from one `ws.receive` to the next or to a suspended `put`.
* `resume`: a suspended `put` goes on when there is room.
* `begin`: `run_dispatcher` (214–249) up to the first suspension in `serve_layout`; `found` says whether a component and a
  location were found (otherwise an exception is logged).
* `take`: the incoming loop of the layout.
* `fail`: an exception in the render loop; `async with layout` closes the layout, the exception is logged (251–253).
* `stop`: the cancelled task ends. -/
def step (cap : Nat) (s : St M) : Act M → St M
  | .input i =>
    match s.loop with
    | .receiving =>
      match i with
      | .event m =>
        if full cap s.queue then { s with loop := .putting m, received := s.received ++ [m] }
        else { s with queue := s.queue ++ [m], received := s.received ++ [m] }
      | .unknown => s
      | .malformed => finish s
      | .disconnect => finish s
    | _ => s
  | .resume =>
    match s.loop with
    | .putting m => if full cap s.queue then s else { s with loop := .receiving, queue := s.queue ++ [m] }
    | _ => s
  | .begin found =>
    if s.disp = .created then
      if s.cancelled then { s with disp := .ended }
      else if found then { s with disp := .serving, opened := s.opened + 1 }
      else { s with disp := .ended }
    else s
  | .take =>
    if s.disp = .serving ∧ s.cancelled = false then
      match s.queue with
      | [] => s
      | m :: q => { s with queue := q, delivered := s.delivered ++ [m] }
    else s
  | .fail => if s.disp = .serving then { s with disp := .ended, closed := s.closed + 1 } else s
  | .stop =>
    if s.cancelled then
      match s.disp with
      | .created => { s with disp := .ended }
      | .serving => { s with disp := .ended, closed := s.closed + 1 }
      | .ended => s
    else s

/-- Any sequence of such steps (middleware.py 159–249). -/
def run (cap : Nat) : List (Act M) → St M → St M
  | [], s => s
  | a :: as, s => run cap as (step cap s a)

end Verif.Connection
