/-!
# Model of event handler construction, inspection and merging
(core/events.py 111–145, 215–279; core/_event_inspect.py)
-/
namespace Verif.Handlers

/-! ## Inspection of bytecode (_event_inspect.py) -/

/-- The instructions that the inspection distinguishes; every other one is `other`.
`LOAD_FAST` and `LOAD_FAST_BORROW` are `loadFast`; the two-name superinstructions are `loadPair`;
`LOAD_METHOD` and `LOAD_ATTR` are `loadAttr`; `LOAD_CONST` and `LOAD_SMALL_INT` are `loadConst`, with the
constant if it is an `int` that is not a `bool`. _event_inspect.py 75–132, 223–265. -/
inductive Instr where
  | loadFast (n : String)
  | loadPair (a b : String)
  | loadAttr (n : String)
  | storeAttr (n : String)
  | loadConst (v : Option Int)
  | loadDeref (n : String)
  | other (k : Nat)
deriving DecidableEq, Repr

/-- A function object: code attributes, instructions, positional and keyword-only defaults and the
contents of closure cells.  A default or cell that is not an `int` (or is a `bool`, or is an empty cell)
is `none`. _event_inspect.py 45–66, 142–186. -/
structure Fn where
  argcount : Nat
  names : List String
  varnames : List String
  instrs : List Instr
  defaults : List (Option Int) := []
  kwdefaults : List (String × Option Int) := []
  freevars : List String := []
  closure : List (Option Int) := []
deriving Repr

/-- `dict.get` on a dict given by its insertions: the last one for the key counts.
(Python, as at _event_inspect.py 228, 260, 263) -/
def get (d : List (String × Int)) (n : String) : Option Int := d.reverse.lookup n

/-- `_function_arg_defaults` (142–168). -/
def argDefaults (f : Fn) : List (String × Int) :=
  ((f.varnames.drop (f.argcount - f.defaults.length)).zip f.defaults).filterMap (fun p => p.2.map (fun v => (p.1, v))) ++
  f.kwdefaults.filterMap (fun p => p.2.map (fun v => (p.1, v)))

/-- `_closure_lookup` (171–187). -/
def closureLookup (f : Fn) : List (String × Int) :=
  (f.freevars.zip f.closure).filterMap (fun p => p.2.map (fun v => (p.1, v)))

/-- `_resolve_debounce_value` (201–265); `before` are the instructions before the store, nearest first.
`constant_ints_by_name` is always empty and unused. -/
def resolve (ev : String) (defaults closure : List (String × Int)) (before : List Instr) : Option Int :=
  match before with
  | [] => none
  | .loadPair a b :: _ => if b = ev then get defaults a else none
  | _ :: [] => none
  | .loadFast n :: val :: _ =>
    if n ≠ ev then none
    else match val with
      | .loadConst v => v
      | .loadFast x => get defaults x
      | .loadDeref x => get closure x
      | _ => none
  | _ :: _ :: _ => none

/-- The variables of the loop, _event_inspect.py 47–73. -/
structure Loop where
  lastWasEvent : Bool := false
  checkPrevent : Bool
  checkStop : Bool
  checkDebounce : Bool
  prevent : Bool := false
  stop : Bool := false
  debounce : Option Int := none
  tainted : Bool := false
deriving DecidableEq, Repr

/-- Whether the instruction is taken for a load of the event (75–97). -/
def isEventLoad (ev : String) : Instr → Bool
  | .loadFast n => n == ev
  | .loadPair _ b => b == ev
  | _ => false

/-- The part of the loop body after the two tests for a load of the event (99–135), except `break`. -/
def body (ev : String) (defaults closure : List (String × Int)) (before : List Instr) (s : Loop) (i : Instr) : Loop :=
  match i with
  | .loadAttr n =>
    if s.checkPrevent && n == "preventDefault" then { s with prevent := true, checkPrevent := false }
    else if s.checkStop && n == "stopPropagation" then { s with stop := true, checkStop := false }
    else s
  | .storeAttr n =>
    if s.checkDebounce && n == "debounce" then
      match resolve ev defaults closure before with
      | some v => if s.tainted then s else { s with debounce := some v, checkDebounce := false }
      | none => { s with tainted := true, debounce := none, checkDebounce := false }
    else s
  | _ => s

/-- The loop (74–137). -/
def loop (ev : String) (defaults closure : List (String × Int)) (before : List Instr) (s : Loop) : List Instr → Loop
  | [] => s
  | i :: rest =>
    if isEventLoad ev i then loop ev defaults closure (i :: before) { s with lastWasEvent := true } rest
    else if !s.lastWasEvent then loop ev defaults closure (i :: before) s rest
    else
      let s := body ev defaults closure before s i
      if !(s.checkPrevent || s.checkStop || s.checkDebounce) then s
      else loop ev defaults closure (i :: before) { s with lastWasEvent := false } rest

/-- What the inspection reports: `(prevent_default, stop_propagation, debounce)`. _event_inspect.py 139. -/
structure Found where
  prevent : Bool := false
  stop : Bool := false
  debounce : Option Int := none
deriving DecidableEq, Repr

/-- `inspect_event_handler` (22–139). -/
def inspect (f : Fn) : Found :=
  if f.argcount = 0 then {}
  else
    let cp := f.names.contains "preventDefault"
    let cs := f.names.contains "stopPropagation"
    let cd := f.names.contains "debounce"
    if !(cp || cs || cd) then {}
    else
      let ev := (f.varnames[0]?).getD ""
      let s := loop ev (argDefaults f) (closureLookup f) [] { checkPrevent := cp, checkStop := cs, checkDebounce := cd } f.instrs
      { prevent := s.prevent, stop := s.stop, debounce := s.debounce }

/-! ## Handlers and merging (events.py) -/

/-- The settings of a handler. events.py 120–125. -/
structure Settings where
  stop : Bool
  prevent : Bool
  target : Option String
  debounce : Option Int
  throttle : Option Int
deriving DecidableEq, Repr

/-- An event handler function: one given by the user, or the `await_all_event_handlers` of
`merge_event_handler_funcs`, which starts each of several functions in a task group. events.py 274–279. -/
inductive Func where
  | user (id : Nat)
  | all (fs : List Func)
deriving Repr

/-- events.py 91–125. -/
structure Handler where
  func : Func
  settings : Settings
deriving Repr

/-- `EventHandler.__init__` (111–145), given what the inspection of the function reports. -/
def mkHandler (func : Func) (s : Settings) (found : Found) : Handler :=
  { func := func
    settings := { s with
      prevent := if found.prevent then true else s.prevent
      stop := if found.stop then true else s.stop
      debounce := match found.debounce with
        | some d => some d
        | none => s.debounce } }

/-- events.py 228, 252, 270. -/
inductive Err where
  | valueError
deriving DecidableEq, Repr

/-- `merge_event_handler_funcs` (263–279). -/
def mergeFuncs : List Func → Except Err Func
  | [] => .error .valueError
  | [f] => .ok f
  | fs => .ok (.all fs)

/-- The function object of `await_all_event_handlers` (274–277): one parameter, `data`; the names its code
uses are those of the task group. -/
def awaitAll (instrs : List Instr) : Fn :=
  { argcount := 1, names := ["create_task_group", "start_soon"], varnames := ["data", "group", "func"],
    instrs := instrs, freevars := ["functions"] }

/-- `merge_event_handlers` (215–260).  `instrs` is the code of `await_all_event_handlers`. -/
def merge (instrs : List Instr) : List Handler → Except Err Handler
  | [] => .error .valueError
  | [h] => .ok h
  | h :: hs =>
    let s := h.settings
    if (h :: hs).any (fun x => x.settings.stop != s.stop || x.settings.prevent != s.prevent ||
        x.settings.debounce != s.debounce || x.settings.throttle != s.throttle || x.settings.target != s.target) then
      .error .valueError
    else match mergeFuncs ((h :: hs).map (·.func)) with
      | .error e => .error e
      | .ok f => .ok (mkHandler f s (inspect (awaitAll instrs)))

/-! ## Running a merged function: the task group (273–279)

Each function is a task.  A function runs `pauses` times up to an `await` and then ends, returning or
raising.  anyio, as assumed here: `start_soon` makes a task for every function; when one raises, the
group is cancelled; a task that has begun is cancelled where it is suspended, a task that has not begun
still runs up to its first `await`.  Functions do not catch the cancellation. -/

/-- The state of a task of the task group (events.py 275–277). -/
inductive Status where
  | created
  | suspended (left : Nat)
  | returned
  | raised
  | cancelled
deriving DecidableEq, Repr

/-- What a function does when it is called: so many `await`s, then it returns or raises. User code, called at events.py 277. -/
structure Prog where
  pauses : Nat
  raises : Bool
deriving DecidableEq, Repr

/-- The task group of events.py 275. -/
structure Group where
  status : Nat → Status := fun _ => .created
  /-- how often each function has been called -/
  calls : Nat → Nat := fun _ => 0
  cancelling : Bool := false

/-- Assignment of one entry of a map (auxiliary, no code of /repo). -/
def set {α} (f : Nat → α) (i : Nat) (a : α) : Nat → α := fun x => if x = i then a else f x

/-- Run from here to the next `await` (`left` of them remain) or to the end.
A function called at events.py 277; if it raises, anyio cancels the group. -/
def advance (p : Prog) (g : Group) (i left : Nat) : Group :=
  match left with
  | n + 1 => { g with status := set g.status i (.suspended n) }
  | 0 => if p.raises then { g with status := set g.status i .raised, cancelling := true }
    else { g with status := set g.status i .returned }

/-- The loop runs task `i` of the group.
events.py 275–277 (anyio: a task that has begun and is waiting is cancelled once the group is). -/
def groupStep (ps : List Prog) (g : Group) (i : Nat) : Group :=
  match ps[i]? with
  | none => g
  | some p => match g.status i with
    | .created => advance p { g with calls := set g.calls i (g.calls i + 1) } i p.pauses
    | .suspended n => if g.cancelling then { g with status := set g.status i .cancelled } else advance p g i n
    | _ => g

/-- Any schedule of the tasks of events.py 275–277. -/
def groupRun (ps : List Prog) (sched : List Nat) : Group := sched.foldl (groupStep ps) {}

/-- The group has ended: so has every task. The end of `async with`, events.py 275. -/
def Ended (ps : List Prog) (g : Group) : Prop :=
  ∀ i, i < ps.length → g.status i = .returned ∨ g.status i = .raised ∨ g.status i = .cancelled

end Verif.Handlers
