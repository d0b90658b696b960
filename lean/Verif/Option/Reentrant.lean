/-! # Options whose subscribers assign them

Models `/repo/src/reactpy/_option.py` 68–135 for one mutable option without environment variable and parent, whose validator accepts
everything, and whose subscribers may assign or unset the option while they are told of a change.  Exceptions are those of C34; here the only
one is the `RecursionError` of assignments that never end (`none`). -/
namespace Verif.Option.Reentrant

/-- What is done to an option: `option.current = v` (68–70), `del option.current` (72–74). -/
inductive Cmd (V : Type) where
  | set (v : V)
  | unset

/-- A subscriber: what it does to the option when it is called with a value, and the calls so far. _option.py 76–83, 109–110 -/
structure Sub (V : Type) where
  react : V → List (Cmd V)
  got : List V

/-- The option. _option.py 18–42 -/
structure Cell (V : Type) where
  default : V
  current : Option V
  subs : List (Sub V)

/-- `Option.current` (62–66). -/
def Cell.value {V : Type} (c : Cell V) : V := c.current.getD c.default

section
variable {V : Type} [DecidableEq V]

/-- Commands one after the other, each as `perform` does it; `none` if one does not end. (what a callback does, _option.py 110) -/
def doAll (perform : Cmd V → Cell V → Option (Cell V)) : List (Cmd V) → Cell V → Option (Cell V)
  | [], c => some c
  | a :: as, c => match perform a c with
    | some c => doAll perform as c
    | none => none

/-- Call the `i`-th subscriber with `v` (82, 110, 135). -/
def tell (perform : Cmd V → Cell V → Option (Cell V)) (v : V) (i : Nat) (c : Cell V) : Option (Cell V) :=
  match c.subs[i]? with
  | none => some c
  | some s => doAll perform (s.react v) { c with subs := c.subs.set i { s with got := s.got ++ [v] } }

/-- The loops: 109–110, where every subscriber gets the value that was assigned (`some new`), and 134–135, where it gets the value of the
moment (`none`). -/
def tellAll (perform : Cmd V → Cell V → Option (Cell V)) (new : Option V) : List Nat → Cell V → Option (Cell V)
  | [], c => some c
  | i :: is, c => match tell perform (new.getD c.value) i c with
    | some c => tellAll perform new is c
    | none => none

/-- `set_current` (89–110) and `unset` (125–135), with a bound on how deeply they are nested. -/
def perform : Nat → Cmd V → Cell V → Option (Cell V)
  | 0, _, _ => none
  | depth + 1, .set new, c =>
    if new = c.value then some c
    else tellAll (perform depth) (some new) (List.range c.subs.length) { c with current := some new }
  | depth + 1, .unset, c =>
    if c.default = c.value then some { c with current := none }
    else tellAll (perform depth) none (List.range c.subs.length) { c with current := none }

/-- What the user does: a command, or `subscribe` (76–83). -/
inductive Act (V : Type) where
  | cmd (a : Cmd V)
  | subscribe (react : V → List (Cmd V))

/-- _option.py 76–83, 89–110, 125–135 -/
def act (depth : Nat) : Act V → Cell V → Option (Cell V)
  | .cmd a, c => perform depth a c
  | .subscribe react, c => tell (perform depth) c.value c.subs.length { c with subs := c.subs ++ [⟨react, []⟩] }

/-- Any history of _option.py 76–135. -/
def run (depth : Nat) : List (Act V) → Cell V → Option (Cell V)
  | [], c => some c
  | a :: as, c => match act depth a c with
    | some c => run depth as c
    | none => none
end
end Verif.Option.Reentrant
