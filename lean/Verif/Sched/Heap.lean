import Verif.Sched.Model
/-!
# Model of the model states that parallel renders share

Line numbers refer to `/repo/src/reactpy/core/layout.py` unless another file is named.

`Verif.Sched` names each component by a number that it keeps.  Here a component is found as the code finds it:
every render makes a new `_ModelState` (716–790), which refers to its children, and only weakly to its parent; a
render reads the state that was made by an earlier one, chosen when the render was scheduled (585, 592) or when the
parent was rendered (540–544).  A component that the earlier state does not have as a child is made anew.

A step is what happens between two points where another task can run, as in `Verif.Sched`.

Simplifications:
* A place is a number: the chain of keys from the root (the keys are those of the components; the elements between
  two components are left out).  All components at a place have the same type.
* Bodies do not raise.  What a body returns is an arbitrary list of places below its own.
* Unmounting the dropped children, with everything below them, is part of the step that runs the body
  (`_unmount_model_states`, 565–578); the task can be suspended after it, as by the effects of the last of them
  (`_life_cycle_hook.py` 242–252).
* Setters are called in the thread of the event loop, with another value.
* The layout is not closed.
-/
namespace Verif.Sched.Heap
open Verif.Sched (Tree upd)

/-- `_ModelState` of a component, 716–790: its place, its instance (`life_cycle_state.id`), its parent (a weak
reference) and `children_by_key`. -/
structure MS where
  pos : Nat
  inst : Nat
  parent : Option Nat
  kids : List (Nat × Nat)
deriving DecidableEq, Repr

/-- Where a call of `_render_component` (274–352) is: `waiting` for the semaphore of the instance (330); `granted`: has
it but was not resumed yet; `kids`: the body was run and these children are still to be rendered. -/
inductive Phase where
  | waiting
  | granted
  | kids (todo : List Nat)
deriving DecidableEq, Repr

/-- A call of `_render_component`, 274–352: `new_state`, `old_state`. -/
structure Frame where
  st : Nat
  old : Option Nat
  phase : Phase
deriving DecidableEq, Repr

/-- A task of `create_task(self._create_layout_update(model_state))` (592): not begun; begun; `cancel()` was called on
it; ended with an update; ended with `CancelledError`; ended with the `RuntimeError` of line 785. -/
inductive TStat where
  | created
  | running
  | cancelled
  | done
  | dead
  | crashed
deriving DecidableEq, Repr

/-- A render task: the instance it was made for, the argument `model_state` (585, 592), the calls in progress, innermost first
(of a task that was cancelled: those in the traceback), and whether `render()` took it out (220–221). -/
structure Task where
  owner : Nat
  old : Nat
  stat : TStat
  stack : List Frame
  picked : Bool
deriving DecidableEq, Repr

/-- What happened (a record for the statements, not read by the steps): a new instance was made for a place; the body
of an instance at a place was run; a component was replaced by an error although its body did not raise (341–348). -/
inductive Ev where
  | made (x i : Nat)
  | read (t x i : Nat)
  | failed (t x i : Nat)
deriving DecidableEq, Repr

/-- `heap`, `nextS`: the model states made so far; `freed`: those that were garbage.  `nextI`: the instances made so far.
`reg`: `_model_states_by_life_cycle_state_id`.  `rendered`, `flag`, `access`: of the hook of an instance, `_rendered_atleast_once`,
`_scheduled_render` and the task that holds `_render_access`.  `byId`: `_render_tasks_by_id`.
layout.py 72–97, _life_cycle_hook.py 152–164. -/
structure St where
  heap : Nat → MS
  nextS : Nat
  freed : Nat → Bool := fun _ => false
  nextI : Nat
  reg : Nat → Option Nat
  rendered : Nat → Bool := fun _ => false
  flag : Nat → Bool := fun _ => false
  access : Nat → Option Nat := fun _ => none
  byId : Nat → Option Nat
  tasks : Nat → Task
  nextT : Nat
  log : List Ev

/-- `__aenter__` (67–98). -/
def init : St where
  heap _ := { pos := 0, inst := 0, parent := none, kids := [] }
  nextS := 1
  nextI := 1
  reg := upd (fun _ => none) 0 (some 0)
  byId := upd (fun _ => none) 0 (some 0)
  tasks _ := { owner := 0, old := 0, stat := .created, stack := [], picked := false }
  nextT := 1
  log := [.made 0 0]

/-- `children_by_key.get(key)`, 541. -/
def kid (s : St) (σ x : Nat) : Option Nat := (s.heap σ).kids.lookup x

/-- `children_by_key[key] = state`, 251, 561. -/
def setKid (m : MS) (x σ : Nat) : MS := { m with kids := (x, σ) :: m.kids.filter (fun e => e.1 != x) }

/-- `task.cancel()`: nothing if the task has ended. (asyncio) -/
def cancelTask (k : Task) : Task :=
  match k.stat with
  | .created => { k with stat := .cancelled }
  | .running => { k with stat := .cancelled }
  | _ => k

/-- Task `t` comes to wait for the semaphore of `i` in `_render_component` (283–330): a new state for the place `x` with
parent `par` is made and registered, and a scheduled task for `i` other than `t` is cancelled. -/
def enter (s : St) (t x i : Nat) (par old : Option Nat) : St :=
  let s := { s with
    heap := upd s.heap s.nextS { pos := x, inst := i, parent := par, kids := [] }
    nextS := s.nextS + 1
    reg := upd s.reg i (some s.nextS)
    tasks := upd s.tasks t { s.tasks t with stack := { st := s.nextS, old := old, phase := .waiting } :: (s.tasks t).stack } }
  match s.byId i with
  | some t' => if t' = t then s
    else { s with byId := upd s.byId i none, tasks := upd s.tasks t' (cancelTask (s.tasks t')) }
  | none => s

/-- The states that `_unmount_model_states` (565–578) comes to from a state: it and its children, and so on. (In the code
they come in another order.)  A child is made after its parent, so that the number of states is enough fuel. -/
def subs (s : St) : Nat → Nat → List Nat
  | 0, σ => [σ]
  | n + 1, σ => σ :: (s.heap σ).kids.flatMap (fun e => subs s n e.2)

/-- The instance of the state is registered. (auxiliary) -/
def known (s : St) (σ : Nat) : Bool := (s.reg (s.heap σ).inst).isSome

/-- `del self._model_states_by_life_cycle_state_id[...]` (575) for all these states. -/
def forget (s : St) (l : List Nat) : Nat → Option Nat :=
  fun i => if l.any (fun σ => (s.heap σ).inst == i) then none else s.reg i

/-- The places of the children that are dropped: in `old_state.children_by_key` but not in `new_keys` (531–535). -/
def dropped (s : St) (old : Option Nat) (kids : List Nat) : List Nat :=
  match old with
  | none => []
  | some o => ((s.heap o).kids.filter (fun e => !kids.contains e.1)).map (·.2)

/-- The model states that the coroutine of a task refers to, or the traceback of the `CancelledError` that it ended with:
`old_state`, `parent`, `new_state` (229–261, 274–352). -/
def refs (s : St) (k : Task) : List Nat :=
  if k.picked || k.stat = .done then []
  else k.old :: (if k.stack.isEmpty then [] else (s.heap k.old).parent.toList) ++
    k.stack.flatMap (fun f => f.st :: f.old.toList)

/-- Nothing refers to the state (but weakly). (Python) -/
def garbage (s : St) (σ : Nat) : Bool :=
  (List.range s.nextI).all (fun i => s.reg i != some σ) &&
  (List.range s.nextT).all (fun t => !(refs s (s.tasks t)).contains σ) &&
  (List.range s.nextS).all (fun ρ => s.freed ρ || (s.heap ρ).kids.all (fun e => e.2 != σ))

/-- The atomic steps, between the `await`s of layout.py 192–352. -/
inductive Act where
  | set (i : Nat)
  | start (t : Nat)
  | grant (t : Nat)
  | body (t : Nat) (kids : List Nat)
  | next (t : Nat)
  | finish (t : Nat)
  | die (t : Nat)
  | pick (t : Nat)
  | free (σ : Nat)
deriving DecidableEq, Repr

/-- Replace task `t`. (auxiliary, no code of /repo) -/
def St.put (s : St) (t : Nat) (k : Task) : St := { s with tasks := upd s.tasks t k }

/-- `_schedule_render_task` (580–596) from `LifeCycleHook.schedule_render` (`_life_cycle_hook.py` 166–175). -/
def schedule (s : St) (i : Nat) : St :=
  if s.flag i then s
  else
    let s := { s with flag := upd s.flag i true }
    match s.reg i with
    | none => s
    | some σ => { s with
        tasks := upd s.tasks s.nextT { owner := i, old := σ, stat := .created, stack := [], picked := false }
        byId := upd s.byId i (some s.nextT)
        nextT := s.nextT + 1 }

/-- The state that the state `y` becomes a child of: that of the caller (559–561), or its own parent (250–251). -/
def above (s : St) (y : Nat) : List Frame → Option Nat
  | [] => (s.heap y).parent
  | f :: _ => some f.st

/-- The state `y` becomes a child of another state (251, 561). -/
def attach (s : St) (y : Nat) : Option Nat → Nat → MS
  | none => s.heap
  | some ρ => upd s.heap ρ (setKid (s.heap ρ) (s.heap y).pos y)

/-- * `set`: a setter of the instance is called with another value; there is none before the body was run once.
* `start`: a task begins (229–248): `old_state.parent` raises `RuntimeError` if the parent is garbage (782–786), else
  `_render_component` begins.
* `grant`: the semaphore is given to a waiting call.
* `body`: the call is resumed, clears the flag and runs the body (`_life_cycle_hook.py` 220–225, 333), whose children are
  `kids`, with different keys; the dropped ones are unmounted (531–535); if one of the components was unmounted before, this
  raises `KeyError` (575), and the component is replaced by an error (341–348).
* `next`: the next child is rendered (537–553).
* `finish`: a call returns (349–352), and its state becomes a child of the state of the caller (559–561), or, at the end of the task, of its
  parent (250–251).
* `die`: the `CancelledError` is raised in a cancelled task; its calls release their semaphores (349–350).
* `pick`: `render()` takes out an ended task (219–226).
* `free`: Python frees a model state. -/
def step (T : Tree) (s : St) : Act → St
  | .set i => if s.rendered i then schedule s i else s
  | .start t =>
    if t < s.nextT ∧ (s.tasks t).stat = .created then
      let k := s.tasks t
      let m := s.heap k.old
      if m.parent.any s.freed then s.put t { k with stat := .crashed }
      else enter (s.put t { k with stat := .running }) t m.pos m.inst m.parent (some k.old)
    else s
  | .grant t =>
    match s.tasks t with
    | ⟨o, d, .running, ⟨y, p, .waiting⟩ :: fs, b⟩ =>
      if s.access (s.heap y).inst = none then
        { s.put t ⟨o, d, .running, ⟨y, p, .granted⟩ :: fs, b⟩ with access := upd s.access (s.heap y).inst (some t) }
      else s
    | _ => s
  | .body t kids =>
    match s.tasks t with
    | ⟨o, d, .running, ⟨y, p, .granted⟩ :: fs, b⟩ =>
      if kids.Nodup ∧ ∀ c ∈ kids, T.par c = some (s.heap y).pos then
        let i := (s.heap y).inst
        let l := (dropped s p kids).flatMap (subs s s.nextS)
        if l.all (known s) then
          { s.put t ⟨o, d, .running, ⟨y, p, .kids kids⟩ :: fs, b⟩ with
            flag := upd s.flag i false
            rendered := upd s.rendered i true
            reg := forget s l
            log := .read t (s.heap y).pos i :: s.log }
        else
          { s.put t ⟨o, d, .running, ⟨y, p, .kids []⟩ :: fs, b⟩ with
            flag := upd s.flag i false
            rendered := upd s.rendered i true
            reg := forget s (l.takeWhile (known s))
            log := .failed t (s.heap y).pos i :: .read t (s.heap y).pos i :: s.log }
      else s
    | _ => s
  | .next t =>
    match s.tasks t with
    | ⟨o, d, .running, ⟨y, p, .kids (c :: cs)⟩ :: fs, b⟩ =>
      let s := s.put t ⟨o, d, .running, ⟨y, p, .kids cs⟩ :: fs, b⟩
      match p.bind (fun ρ => kid s ρ c) with
      | some σ => enter s t c (s.heap σ).inst (some y) (some σ)
      | none =>
        enter { s with nextI := s.nextI + 1, log := .made c s.nextI :: s.log } t c s.nextI (some y) none
    | _ => s
  | .finish t =>
    match s.tasks t with
    | ⟨o, d, .running, ⟨y, _, .kids []⟩ :: fs, b⟩ =>
      { s.put t ⟨o, d, if fs.isEmpty then .done else .running, fs, b⟩ with
        access := upd s.access (s.heap y).inst none
        heap := attach s y (above s y fs) }
    | _ => s
  | .die t =>
    if t < s.nextT ∧ (s.tasks t).stat = .cancelled then
      { s.put t { s.tasks t with stat := .dead } with
        access := fun i => if s.access i = some t then none else s.access i }
    else s
  | .pick t =>
    match (s.tasks t).stat with
    | .done => s.put t { s.tasks t with picked := true }
    | .dead => s.put t { s.tasks t with picked := true }
    | .crashed => s.put t { s.tasks t with picked := true }
    | _ => s
  | .free σ => if σ < s.nextS ∧ garbage s σ = true then { s with freed := upd s.freed σ true } else s

/-- Any schedule of the steps (layout.py 69–352). -/
def run (T : Tree) (s : St) (acts : List Act) : St := acts.foldl (step T) s

end Verif.Sched.Heap
