/-!
# Model of throttling and debouncing (client/src/components.tsx 37–84, 102–137)

The wrappers around an event handler that limit how often it runs.  Time is in milliseconds and never
goes back.  A timer callback runs at some time not before it is due: the browser may run it late, and may
dispatch events first.  Invalid intervals (for which the handler is not wrapped), markers on functions,
and exceptions in the handler are left out.
-/
namespace Verif.Client.Timing

/-- What an observer sees: the wrapper is called with an event; the handler is called. (components.tsx 48, 54, 68, 112, 122) -/
inductive Ev (A : Type) where
  | call (t : Int) (a : A)
  | fire (t : Int) (a : A)
deriving DecidableEq, Repr

/-- A wrapper: its variables; a call; when its timer is due, if there is one; the timer callback.  A call or
callback yields the arguments with which the handler is called at once, if it is.
What the two functions have in common: components.tsx 44–74, 109–125. -/
structure Wrapper (W A : Type) where
  init : W
  call : Int → A → W → W × Option A
  due : W → Option Int
  timer : Int → W → W × Option A

/-- The variables of `throttleHandler` (44–46).  `timer` is the time at which the pending timer is due. -/
structure Throttle (A : Type) where
  pending : Option A := none
  timer : Option Int := none
  last : Int := 0
deriving DecidableEq, Repr

/-- `throttleHandler` (37–84). -/
def throttle (A : Type) (interval : Int) : Wrapper (Throttle A) A where
  init := {}
  call := fun now a w =>
    let elapsed := now - w.last
    if elapsed ≥ interval then ({ w with last := now }, some a)
    else
      let w := { w with pending := some a }
      match w.timer with
      | none => ({ w with timer := some (now + max 0 (interval - elapsed)) }, none)
      | some _ => (w, none)
  due := (·.timer)
  timer := fun now w =>
    let w := { w with timer := none }
    match w.pending with
    | none => (w, none)
    | some a => ({ w with pending := none, last := now }, some a)

/-- The variables of `debounceHandler` (109–110). -/
structure Debounce (A : Type) where
  pending : Option A := none
  timer : Option Int := none
deriving DecidableEq, Repr

/-- `debounceHandler` (102–137). -/
def debounce (A : Type) (delay : Int) : Wrapper (Debounce A) A where
  init := {}
  call := fun now a _ => ({ pending := some a, timer := some (now + delay) }, none)
  due := (·.timer)
  timer := fun _ w =>
    match w.pending with
    | none => ({ w with timer := none }, none)
    | some a => ({ pending := none, timer := none }, some a)

/-- The wrappers that the renders of an element have made (components.tsx 203–205, 331–345), and the clock. -/
structure St (W A : Type) where
  cur : W
  /-- wrappers of earlier renders, whose timers may be pending -/
  old : List W := []
  now : Int := 0
  log : List (Ev A) := []

inductive Act (A : Type) where
  /-- an event is dispatched -/
  | call (t : Int) (a : A)
  /-- the timer callback runs -/
  | timer (t : Int)
  /-- the element renders again: `StandardElement` and `UserInputElement` make new wrappers (199, 346–351) -/
  | rerender
  /-- the timer callback of an earlier wrapper runs -/
  | oldTimer (i : Nat) (t : Int)
deriving DecidableEq, Repr

variable {W A : Type}

/-- A call of the handler, if there is one (components.tsx 54, 68, 122). -/
def fired (t : Int) : Option A → List (Ev A)
  | none => []
  | some a => [.fire t a]

/-- An event, a timer or a new render: components.tsx 48–74, 112–125, 203–205. -/
def step (w : Wrapper W A) (s : St W A) : Act A → St W A
  | .call t a =>
    if s.now ≤ t then
      let r := w.call t a s.cur
      { s with cur := r.1, now := t, log := s.log ++ [.call t a] ++ fired t r.2 }
    else s
  | .timer t =>
    match w.due s.cur with
    | none => s
    | some d =>
      if s.now ≤ t ∧ d ≤ t then
        let r := w.timer t s.cur
        { s with cur := r.1, now := t, log := s.log ++ fired t r.2 }
      else s
  | .rerender => { s with cur := w.init, old := s.old ++ [s.cur] }
  | .oldTimer i t =>
    match s.old[i]? with
    | none => s
    | some o => match w.due o with
      | none => s
      | some d =>
        if s.now ≤ t ∧ d ≤ t then
          let r := w.timer t o
          { s with old := s.old.set i r.1, now := t, log := s.log ++ fired t r.2 }
        else s

/-- Any sequence of them (vdom.tsx 214–282). -/
def run (w : Wrapper W A) (acts : List (Act A)) : St W A := acts.foldl (step w) { cur := w.init }

/-! ## Specification -/

/-- Calls and timers of a single wrapper. Specification, not code of /repo. -/
def Single (acts : List (Act A)) : Prop := ∀ x ∈ acts, (∃ t a, x = .call t a) ∨ ∃ t, x = .timer t

/-- Timers are on time: no event is dispatched while a timer that is due has not run. Specification, not code of /repo. -/
def OnTime (w : Wrapper W A) (acts : List (Act A)) : Prop :=
  ∀ p t a q, acts = p ++ .call t a :: q → ∀ d, w.due (run w p).cur = some d → t < d

/-- The times at which the handler was called. Specification, not code of /repo. -/
def fireTimes (l : List (Ev A)) : List Int := l.filterMap fun e => match e with
  | .fire t _ => some t
  | .call _ _ => none
/-- The events with which the handler was called. Specification, not code of /repo. -/
def firesOf (l : List (Ev A)) : List A := l.filterMap fun e => match e with
  | .fire _ a => some a
  | .call _ _ => none
/-- The events dispatched. Specification, not code of /repo. -/
def callsOf (l : List (Ev A)) : List A := l.filterMap fun e => match e with
  | .call _ a => some a
  | .fire _ _ => none

/-- The last event dispatched, unless the handler has been called with it since. Specification, not code of /repo. -/
def undelivered [DecidableEq A] : Option A → List (Ev A) → Option A
  | u, [] => u
  | _, .call _ a :: l => undelivered (some a) l
  | u, .fire _ a :: l => undelivered (if u = some a then none else u) l

end Verif.Client.Timing
