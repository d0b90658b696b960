import Verif.Sched.Model
/-!
# Specification vocabulary for the scheduling properties

Functions of the observable history (`Ev`, newest event first) and of what tasks there are.
-/
namespace Verif.Sched

/-- The newest event about component `x` (a change of its state or a run of its body) is a run of its body. -/
def upToDate : List Ev → Nat → Bool
  | [], _ => false
  | .changed y :: l, x => if y = x then false else upToDate l x
  | .read _ y _ :: l, x => if y = x then true else upToDate l x
  | _ :: l, x => upToDate l x

/-- A render task was created for `x` after the last time its body was run. -/
def pending : List Ev → Nat → Bool
  | [], _ => false
  | .created _ y :: l, x => if y = x then true else pending l x
  | .read _ y _ :: l, x => if y = x then false else pending l x
  | _ :: l, x => pending l x

/-- No render task was created for a component for which one was pending. -/
def Merged : List Ev → Prop
  | [] => True
  | .created _ y :: l => pending l y = false ∧ Merged l
  | _ :: l => Merged l

/-- The tasks that were taken out by `render()`: returned, skipped because they were cancelled, or raised. -/
def consumed : List Ev → List Nat
  | [] => []
  | .delivered t :: l => t :: consumed l
  | .skipped t :: l => t :: consumed l
  | .raised t :: l => t :: consumed l
  | _ :: l => consumed l

/-- The tasks whose update was returned by `render()`. -/
def returned : List Ev → List Nat
  | [] => []
  | .delivered t :: l => t :: returned l
  | _ :: l => returned l

/-- The version of the state of `x` that the newest run of its body saw. -/
def newestRead : List Ev → Nat → Option Nat
  | [], _ => none
  | .read _ y v :: l, x => if y = x then some v else newestRead l x
  | _ :: l, x => newestRead l x

/-- The components in the tree that the user sees: the root, and what the newest runs of the bodies returned as children. -/
inductive Present (kids : Nat → List Nat) : Nat → Prop
  | root : Present kids 0
  | child {p c : Nat} : Present kids p → c ∈ kids p → Present kids c

/-- The task has ended: with an update, cancelled, or with an exception. -/
def Task.ended (k : Task) : Prop := k.stat = .done ∨ k.stat = .dead ∨ k.stat = .crashed

/-- The steps of render tasks. -/
def Act.internal : Act → Bool
  | .start _ => true
  | .grant _ => true
  | .body _ _ => true
  | .fail _ => true
  | .next _ => true
  | .finish _ => true
  | .die _ => true
  | .crash _ => true
  | _ => false

/-- A setter called in another thread. -/
def Act.isForeign : Act → Bool
  | .foreign _ _ => true
  | _ => false

/-- Each of the actions changes the state. -/
def Effective (T : Tree) (s : St) : List Act → Prop
  | [] => True
  | a :: as => step T s a ≠ s ∧ Effective T (step T s a) as

/-- No body returns more than `W` children. -/
def Narrow (W : Nat) : Act → Prop
  | .body _ kids => kids.length ≤ W
  | _ => True

/-- `render()` was cancelled. -/
def Act.isAbort : Act → Bool
  | .abort => true
  | _ => false

/-- A task that has begun, was not cancelled, and whose update was not returned by `render()` yet. -/
def Active (s : St) (t : Nat) : Prop :=
  t < s.next ∧ t ∉ consumed s.log ∧ ((s.tasks t).stat = .running ∨ (s.tasks t).stat = .done)

/-- When a task begins, its component is still mounted, and no other task is active for a component above it,
below it or for the same one. -/
def Orderly (T : Tree) (s : St) : Act → Prop
  | .start t => s.mounted (s.tasks t).owner = true ∧ ∀ u, Active s u → u ≠ t →
      T.le (s.tasks t).owner (s.tasks u).owner = false ∧ T.le (s.tasks u).owner (s.tasks t).owner = false
  | _ => True

/-- Every step of the execution is orderly. -/
def OrderlyRun (T : Tree) (s : St) : List Act → Prop
  | [] => True
  | a :: as => Orderly T s a ∧ OrderlyRun T (step T s a) as

end Verif.Sched
