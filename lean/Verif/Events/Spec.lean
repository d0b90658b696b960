import Verif.Events.Model
/-! # Specification of event delivery, on the list of observations (oldest first) -/
namespace Verif.Events
variable {T : Type} [DecidableEq T]

/-- The messages received for a target, in order. -/
def received (t : T) (l : List (Obs T)) : List (Msg T) :=
  l.filterMap fun o => match o with
    | .received m => if m.target = t then some m else none
    | _ => none

/-- The messages of a target whose processing has begun, in order. -/
def taken (t : T) (l : List (Obs T)) : List (Msg T) :=
  l.filterMap fun o => match o with
    | .took m => if m.target = t then some m else none
    | _ => none

/-- What a target is doing. -/
inductive Phase (T : Type) where
  | idle
  | taken (m : Msg T)
  | handling (m : Msg T)
  | dead
deriving DecidableEq, Repr

/-- One message of the target at a time: it is taken, then ignored or given to a handler once; the next
is taken only when that call has ended, and nothing follows a call that ended by cancellation. -/
def oneAtATime (t : T) : Phase T → List (Obs T) → Option (Phase T)
  | p, [] => some p
  | p, .received _ :: l => oneAtATime t p l
  | p, .took m :: l =>
    if m.target = t then (if p = .idle then oneAtATime t (.taken m) l else none) else oneAtATime t p l
  | p, .called m _ :: l =>
    if m.target = t then (if p = .taken m then oneAtATime t (.handling m) l else none) else oneAtATime t p l
  | p, .ended m out :: l =>
    if m.target = t then
      (if p = .handling m then oneAtATime t (if out = .cancelled then .dead else .idle) l else none)
    else oneAtATime t p l
  | p, .ignored m :: l =>
    if m.target = t then (if p = .taken m then oneAtATime t .idle l else none) else oneAtATime t p l

/-- The processing of the message is over: its handler call ended, or it was ignored. -/
def Done (l : List (Obs T)) (m : Msg T) : Prop := (∃ out, .ended m out ∈ l) ∨ .ignored m ∈ l

/-- The handler registered for a target after some actions: the last one set, or the one at the start. -/
def registered (start : Option Nat) (t : T) : List (Act T) → Option Nat
  | [] => start
  | .setHandler u h :: l => registered (if u = t then h else start) t l
  | _ :: l => registered start t l

/-- How many messages of the target have been ignored. -/
def ignoredOf (t : T) (l : List (Obs T)) : Nat :=
  l.countP fun o => match o with
    | .ignored m => m.target = t
    | _ => false

end Verif.Events
