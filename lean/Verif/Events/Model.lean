/-!
# Model of event delivery (core/layout.py 130–190, 434–466; core/serve.py 61–71)

The server side of client events.  The incoming loop of a connection starts one `Layout.deliver` task
per message; `deliver` puts the message on the queue of its target, creating the queue and its
processing task on first use; the processing task of a target takes messages and awaits the handler.

A step runs one task from one suspension point to the next.  asyncio parts, as assumed here: tasks
begin in the order of their creation; `Queue.put` adds at once when there is room and otherwise
suspends; a suspended `put` is resumed at some time when there is room, not necessarily in order;
`Queue(maxsize)` with `maxsize <= 0` is unbounded.
Messages without a `target` (a `KeyError` in `deliver`) and the `sleep(0)` of debug mode are left out.
-/
namespace Verif.Events

variable {T : Type} [DecidableEq T]

/-- A client message: its target, its client-assigned sequence number if it is a non-negative integer
(162–163), and an identity that stands for the rest. -/
structure Msg (T : Type) where
  target : T
  seq : Option Nat
  id : Nat
deriving DecidableEq, Repr

/-- How a handler call ends: normally, with an `Exception`, or with a `BaseException` that is not an
`Exception` (such as the `CancelledError` of a task the handler awaits). (layout.py 178–190) -/
inductive Out where
  | returned
  | raised
  | cancelled
deriving DecidableEq, Repr

/-- The processing task of a target: not created, in `queue.get()`, between two look-ups of the handler
with `k` look-ups left (172–176), awaiting the handler, dead. -/
inductive Proc (T : Type) where
  | absent
  | idle
  | retry (m : Msg T) (k : Nat)
  | running (m : Msg T)
  | dead
deriving DecidableEq, Repr

/-- Observable events: a message was received, taken from its queue, handled by the handler `h`, the
handler call ended, the message was ignored. (layout.py 130–190) -/
inductive Obs (T : Type) where
  | received (m : Msg T)
  | took (m : Msg T)
  | called (m : Msg T) (h : Nat)
  | ended (m : Msg T) (out : Out)
  | ignored (m : Msg T)
deriving DecidableEq, Repr

/-- `_event_handlers`, `_event_queues`, `_event_processing_tasks`, `_last_event_seq_by_target`; the
`deliver` tasks that have not begun, or are suspended in `put`. (layout.py 67–98, where the layout is entered) -/
structure St (T : Type) where
  handlers : T → Option Nat
  created : List (Msg T) := []
  blocked : List (Msg T) := []
  queue : T → List (Msg T) := fun _ => []
  proc : T → Proc T := fun _ => .absent
  seqs : T → Option Nat := fun _ => none
  /-- oldest first -/
  log : List (Obs T) := []

/-- What can happen next; the code of each is cited at `step`. -/
inductive Act (T : Type) where
  | recv (m : Msg T)
  | start
  | resume (m : Msg T)
  | take (t : T)
  | retry (t : T)
  | finish (t : T) (out : Out)
  | setHandler (t : T) (h : Option Nat)
deriving DecidableEq, Repr

/-- Assignment of one entry of a map (auxiliary, no code of /repo). -/
def upd {α} (f : T → α) (t : T) (a : α) : T → α := fun x => if x = t then a else f x

/-- `Queue.full` of asyncio, for the queues made at layout.py 137–141. -/
def full (cap : Nat) (q : List (Msg T)) : Bool := cap != 0 && decide (cap ≤ q.length)

/-- 162–166. -/
def record (seqs : T → Option Nat) (m : Msg T) : T → Option Nat :=
  match m.seq with
  | none => seqs
  | some n => match seqs m.target with
    | none => upd seqs m.target (some n)
    | some p => if p < n then upd seqs m.target (some n) else seqs

/-- 170–190: look up the handler; call it if there is one; else sleep (`k` more look-ups) or give up. -/
def lookup (s : St T) (t : T) (m : Msg T) (k : Nat) : St T :=
  match s.handlers t with
  | some h => { s with proc := upd s.proc t (.running m), log := s.log ++ [.called m h] }
  | none => match k with
    | 0 => { s with proc := upd s.proc t .idle, log := s.log ++ [.ignored m] }
    | k + 1 => { s with proc := upd s.proc t (.retry m k) }

/-- * `recv`: serve.py 71.
* `start`, `resume`: `deliver` (130–150), up to `put` returning or suspending.
* `take`: 156–190 up to the call of the handler or the first `sleep`.
* `retry`: one turn of the loop 172–176.
* `finish`: the handler call ends (183–185); `except Exception` does not catch a `CancelledError`, which
  ends the task.
* `setHandler`: renders and unmounts change `_event_handlers` at any time. -/
def step (cap : Nat) (s : St T) : Act T → St T
  | .recv m => { s with created := s.created ++ [m], log := s.log ++ [.received m] }
  | .start =>
    match s.created with
    | [] => s
    | m :: r =>
      let proc := if s.proc m.target = .absent then upd s.proc m.target .idle else s.proc
      if full cap (s.queue m.target) then { s with created := r, blocked := s.blocked ++ [m], proc := proc }
      else { s with created := r, queue := upd s.queue m.target (s.queue m.target ++ [m]), proc := proc }
  | .resume m =>
    if m ∈ s.blocked ∧ full cap (s.queue m.target) = false then
      { s with blocked := s.blocked.erase m, queue := upd s.queue m.target (s.queue m.target ++ [m]) }
    else s
  | .take t =>
    match s.proc t, s.queue t with
    | .idle, m :: r =>
      lookup { s with queue := upd s.queue t r, seqs := record s.seqs m, log := s.log ++ [.took m] } t m 3
    | _, _ => s
  | .retry t =>
    match s.proc t with
    | .retry m k => lookup s t m k
    | _ => s
  | .finish t out =>
    match s.proc t with
    | .running m =>
      { s with proc := upd s.proc t (if out = .cancelled then .dead else .idle), log := s.log ++ [.ended m out] }
    | _ => s
  | .setHandler t h => { s with handlers := upd s.handlers t h }

/-- Any schedule of layout.py 130–190. -/
def run (cap : Nat) (acts : List (Act T)) (s : St T) : St T := acts.foldl (step cap) s

/-- The start: any handlers may be registered already. (layout.py 67–98) -/
def init (handlers : T → Option Nat) : St T := { handlers := handlers }

/-- `_inject_event_ack_seq` (448–466): the number attached to an input element whose handlers have the
targets `ts` (an element with attributes and without an attribute `_reactpy_ack_seq` of its own). -/
def ackSeq (seqs : T → Option Nat) : List T → Option Nat
  | ts => ts.foldl (fun acc t => match seqs t with
    | none => acc
    | some a => match acc with
      | none => some a
      | some b => if b < a then some a else some b) none

end Verif.Events
