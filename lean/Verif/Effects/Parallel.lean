import Verif.Sched.Model
/-!
# The effects of one component when updates are made in parallel

`/repo/src/reactpy/core/_life_cycle_hook.py` 187–196, 235–253 and the calls in `core/layout.py` 250–262, 329–330, 531–578.  A component
may be part of several updates at the same time: its own, and those of the components above it.  An update that has run the body
of the component starts its effects when the update is complete (or was cancelled); in the meantime other updates may run the body
again, or remove the component.

The effects of the component are numbered in the order in which its bodies add them.
-/
namespace Verif.Effects.Parallel

/-- The lists of a `LifeCycleHook` (`_life_cycle_hook.py` 147–149): `funcs` are the effects that were added and not started,
`stops` the events that can still be set, `tasks` the tasks of effects that are awaited at the end.  Besides: `due` are the updates
whose exit stack holds `affect_layout_did_render` of this component (layout.py 330), `stopOf` is the event given to an effect,
`isSet` the events that are set, `started` the effects in the order in which they were started. -/
structure St where
  funcs : List Nat := []
  stops : List Nat := []
  tasks : List Nat := []
  due : List Nat := []
  nextFunc : Nat := 0
  nextStop : Nat := 0
  stopOf : Nat → Option Nat := fun _ => none
  isSet : Nat → Bool := fun _ => false
  started : List Nat := []

/-- What happens to the component: update `t` runs its body, which adds `n` effects (layout.py 329–333); update `t` is complete,
or ends because it was cancelled (250–262: the exit stack is left in both cases); the component is removed (574–576); the effects
that were told to stop have ended (`_life_cycle_hook.py` 248–253). -/
inductive Act where
  | body (t n : Nat)
  | leave (t : Nat)
  | unmount
  | gathered
deriving DecidableEq, Repr

/-- `affect_layout_did_render` (`_life_cycle_hook.py` 235–240). -/
def didRender (s : St) : St :=
  { s with
    stops := s.stops ++ [s.nextStop]
    nextStop := s.nextStop + 1
    tasks := s.tasks ++ s.funcs
    stopOf := fun g => if g ∈ s.funcs then some s.nextStop else s.stopOf g
    started := s.started ++ s.funcs
    funcs := [] }

/-- All callbacks for this component that are on the exit stack (layout.py 330; more than one if the update ran the body more than once). -/
def didRenders : Nat → St → St
  | 0, s => s
  | n + 1, s => didRenders n (didRender s)

/-- One step.  `add_effect` appends (`_life_cycle_hook.py` 187–196); `affect_component_will_unmount` sets the events and forgets them
(244–246); it forgets the tasks when it has waited for them (247–253). -/
def step (s : St) : Act → St
  | .body t n =>
    { s with
      funcs := s.funcs ++ (List.range n).map (s.nextFunc + ·)
      nextFunc := s.nextFunc + n
      due := s.due ++ [t] }
  | .leave t => { didRenders (s.due.count t) s with due := s.due.filter (· ≠ t) }
  | .unmount => { s with isSet := fun e => s.isSet e || s.stops.contains e, stops := [] }
  | .gathered => { s with tasks := [] }

/-- Any number of steps (layout.py 228–352, 563–578). -/
def run (acts : List Act) (s : St := {}) : St := acts.foldl step s

/-- An effect is told to stop: the event it was given is set (`_life_cycle_hook.py` 244–245). -/
def St.stopped (s : St) (g : Nat) : Bool :=
  match s.stopOf g with
  | some e => s.isSet e
  | none => false

/-! ### The component in the scheduler -/

/-- What one step of the scheduler does to component `x` (layout.py 228–352, 531–578): `adds` says how many effects the body adds in the
update.  A body that fails may have added effects before it did (341–352); a component that such a failure left behind may be unmounted later. -/
def seen (T : Sched.Tree) (adds : Nat → Nat) (x : Nat) (s : Sched.St) (a : Sched.Act) : List Act :=
  let s' := Sched.step T s a
  match a with
  | .body t _ =>
    match s.tasks t with
    | ⟨_, .running, ⟨y, .granted⟩ :: _⟩ =>
      if y = x then [.body t (adds t)]
      else if s.mounted x && !s'.mounted x then [.unmount] else []
    | _ => []
  | .fail t =>
    (match s.tasks t with
    | ⟨_, .running, ⟨y, .granted⟩ :: _⟩ => if y = x then [.body t (adds t)] else []
    | _ => []) ++ (if (s.tasks t).stat ≠ .done ∧ (s'.tasks t).stat = .done then [.leave t] else [])
  | .lose y => if y = x ∧ s.left x then [.unmount] else []
  | .finish t => if (s.tasks t).stat ≠ .done ∧ (s'.tasks t).stat = .done then [.leave t] else []
  | .die t => if (s.tasks t).stat ≠ .dead ∧ (s'.tasks t).stat = .dead then [.leave t] else []
  | _ => []

/-- What a schedule does to component `x` (layout.py 228–352, 531–578). -/
def project (T : Sched.Tree) (adds : Nat → Nat) (x : Nat) : Sched.St → List Sched.Act → List Act
  | _, [] => []
  | s, a :: as => seen T adds x s a ++ project T adds x (Sched.step T s a) as

end Verif.Effects.Parallel
