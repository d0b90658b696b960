/-!
# Model of calls of a state setter that overlap (core/hooks.py 80–96, 392–419)

One piece of state and calls of its setter that may be in progress at the same time: a call made by the
updater function (or reducer) given to another call, or by another thread.  A step is what happens between two
points at which other code can run: the updater function, or a switch of threads.

Simplified: `strictly_equal` is the parameter `eq` (its own calls of `__eq__` make no calls of the setter); an
updater is a function of the value it is given that may raise instead; `hook.schedule_render` is one step, whose
effect on the layout is the subject of C12.
-/
namespace Verif.Hooks.Overlap

variable {V : Type}

/-- Where a call of `dispatch` is: `new` runs with the value read before; it has returned; the result was found
to differ from `self.value`; the result is assigned. hooks.py 90–94. -/
inductive Stage (V : Type) where
  | computing (read : V)
  | computed (next : V)
  | differs (next : V)
  | assigned
deriving DecidableEq, Repr

/-- What callers observe: calls begin, return or raise; calls are numbered. hooks.py 90–94. -/
inductive Obs where
  | called (i : Nat)
  | returned (i : Nat)
  | raised (i : Nat)
deriving DecidableEq, Repr

/-- `value`: `self.value`; `updates`: what was given to the calls made so far (`fun _ => v` for a value `v`);
`calls`: the calls in progress; `asked`: the value when `schedule_render` was last called, at first the one the
component renders with. hooks.py 83–94. -/
structure St (V : Type) where
  value : V
  updates : List (V → V) := []
  calls : Nat → Option (Stage V) := fun _ => none
  asked : V
  log : List Obs := []

/-- The component has rendered for the first time. hooks.py 83–88. -/
def init (v : V) : St V := { value := v, asked := v }

/-- The steps of hooks.py 90–94. -/
inductive Act (V : Type) where
  | call (f : V → V)
  | compute (i : Nat)
  | fail (i : Nat)
  | compare (i : Nat)
  | assign (i : Nat)
  | ask (i : Nat)

/-- The call is now there. hooks.py 90–94. -/
def at_ (s : St V) (i : Nat) (c : Option (Stage V)) : Nat → Option (Stage V) := fun j => if j = i then c else s.calls j

/-- * `call`: `dispatch(new)` reads `self.value` (91).
* `compute`, `fail`: `new` returns or raises (91).
* `compare`: `if not strictly_equal(next_value, self.value)` (92), with the value of the moment.
* `assign`: `self.value = next_value` (93).
* `ask`: `hook.schedule_render()` (94).
A step of a call that is elsewhere does nothing. -/
def step (eq : V → V → Bool) (s : St V) : Act V → St V
  | .call f => { s with updates := s.updates ++ [f], calls := at_ s s.updates.length (some (.computing s.value)),
                        log := s.log ++ [.called s.updates.length] }
  | .compute i => match s.calls i, s.updates[i]? with
    | some (.computing v), some f => { s with calls := at_ s i (some (.computed (f v))) }
    | _, _ => s
  | .fail i => match s.calls i with
    | some (.computing _) => { s with calls := at_ s i none, log := s.log ++ [.raised i] }
    | _ => s
  | .compare i => match s.calls i with
    | some (.computed n) =>
      if eq n s.value then { s with calls := at_ s i none, log := s.log ++ [.returned i] }
      else { s with calls := at_ s i (some (.differs n)) }
    | _ => s
  | .assign i => match s.calls i with
    | some (.differs n) => { s with value := n, calls := at_ s i (some .assigned) }
    | _ => s
  | .ask i => match s.calls i with
    | some .assigned => { s with asked := s.value, calls := at_ s i none, log := s.log ++ [.returned i] }
    | _ => s

/-- An execution. hooks.py 90–94. -/
def run (eq : V → V → Bool) (v : V) (acts : List (Act V)) : St V := acts.foldl (step eq) (init v)

end Verif.Hooks.Overlap
