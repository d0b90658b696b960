/-!
# User input elements: /repo/src/js/packages/@reactpy/client/src/components.tsx 219–412 `UserInputElement`,
and the sequence numbers of vdom.tsx 214–282 `createEventHandler`

The element, the browser and the server act in any order.  `createAttributes` makes new handlers at each render,
each with its own counter: a handler here is any number, and events may use any of them.  A handler wrapped in
`throttleHandler` or `debounceHandler` may send later: the event arms it, and `fire` sends.  The wrappers' timing is
in `Verif.Client.Timing`; here timers are on time, so a handler with a pending timer is not called at once (see
`C47_late_violated` for what may happen otherwise).
-/
namespace Verif.Client.Input

/-- What is observed: messages to the server, with the text at the time, and server values put in the field.
(components.tsx 310, 331–412) -/
inductive Ev
  | sent (seq : Nat) (text : String)
  | applied (value : String) (ack : Int)
  deriving DecidableEq, Repr

inductive Act
  /-- the user edits: the browser changes the text of the field -/
  | type (text : String)
  /-- an event on the element calls handler `h`; `now` when the handler is called at once: it is neither throttled nor
  debounced, or this is a leading call -/
  | event (h : Nat) (now : Bool)
  /-- the wrapper of handler `h` calls it -/
  | fire (h : Nat)
  /-- the server sends a model: its `value` (if a string) and `_reactpy_ack_seq` (−1 if absent), and the element
  renders -/
  | update (value : Option String) (ack : Int)
  deriving DecidableEq, Repr

structure St where
  /-- `inputRef.current.value` -/
  text : String := ""
  /-- `sharedOutgoingSeq` (246) -/
  counter : Nat := 0
  /-- `lastSentSeq` (251) -/
  lastSent : Int := -1
  /-- each handler's `outgoingSeq` (vdom.tsx 232) -/
  outgoing : Nat → Nat := fun _ => 0
  armed : Nat → Bool := fun _ => false
  /-- the dependencies with which the effect last ran (311) -/
  deps : Option (Option String × Int) := none
  log : List Ev := []

/-- Assignment of one entry of a map (auxiliary, no code of /repo). -/
def upd {α : Type} (f : Nat → α) (k : Nat) (v : α) : Nat → α := fun x => if x = k then v else f x

/-- vdom.tsx 233–252: send with the handler's sequence number, and increment it.  (The data is the text.) -/
def send (s : St) (h : Nat) : St :=
  { s with log := s.log ++ [.sent (s.outgoing h) s.text], outgoing := upd s.outgoing h (s.outgoing h + 1) }

/-- components.tsx 345–384: the wrapper on each handler. -/
def onEvent (s : St) (h : Nat) (now : Bool) : St :=
  let seq := s.counter
  let s := { s with counter := s.counter + 1 }
  let s := if (seq : Int) > s.lastSent then { s with lastSent := seq } else s
  let s := { s with outgoing := upd s.outgoing h (seq + 1) }
  if now && !s.armed h then send s h else { s with armed := upd s.armed h true }

/-- components.tsx 254–311: the effect, which runs when its dependencies change. -/
def effect (s : St) (value : Option String) (ack : Int) : St :=
  if s.deps = some (value, ack) then s
  else
    let s := { s with deps := some (value, ack) }
    if ack < s.lastSent then s
    else
      match value with
      | some v => { s with text := v, log := s.log ++ [.applied v ack] }
      | none => s

/-- One event of components.tsx 219–412. -/
def step (s : St) : Act → St
  | .type t => { s with text := t }
  | .event h now => onEvent s h now
  | .fire h => if s.armed h then send { s with armed := upd s.armed h false } h else s
  | .update v a => effect s v a

/-- Any sequence of events of components.tsx 219–412, from the first render. -/
def run (acts : List Act) : St := acts.foldl step {}

/-! ## Specification -/

/-- Events on the element. Specification, not code of /repo. -/
def events (acts : List Act) : Nat := (acts.filter (fun a => match a with | .event .. => true | _ => false)).length

/-- The last model the server sent. Specification, not code of /repo. -/
def lastUpdate (acts : List Act) : Option (Option String × Int) :=
  acts.foldl (fun u a => match a with | .update v k => some (v, k) | _ => u) none

end Verif.Client.Input
