import Verif.Sched.Heap
/-!
# Specification vocabulary for the model states shared by renders
-/
namespace Verif.Sched.Heap
open Verif.Sched (Tree)

/-- An instance is mounted at a place: it is registered, and rendered there. -/
def MountedAt (s : St) (x i : Nat) : Prop := ∃ σ, s.reg i = some σ ∧ (s.heap σ).pos = x

/-- The place a task was made for. -/
def place (s : St) (t : Nat) : Nat := (s.heap (s.tasks t).old).pos

/-- The task has begun and has not ended. -/
def Running (s : St) (t : Nat) : Prop := t < s.nextT ∧ (s.tasks t).stat = .running

/-- A running task has come to this call. -/
def Fr (s : St) (t : Nat) (f : Frame) : Prop := t < s.nextT ∧ (s.tasks t).stat = .running ∧ f ∈ (s.tasks t).stack

/-- The step does not interfere with a render in progress: a task begins only while its component is mounted and no task runs for a
component above it, below it or for the same one; no setter is called between the time a render comes to its component and
the time it runs the body. -/
def Calm (T : Tree) (s : St) : Act → Prop
  | .start t => (s.tasks t).stat = .created → s.reg (s.tasks t).owner ≠ none ∧
      ∀ u, Running s u → T.le (place s u) (place s t) = false ∧ T.le (place s t) (place s u) = false
  | .set i => ∀ u f, Fr s u f → (s.heap f.st).inst = i → ∃ l, f.phase = .kids l
  | _ => True

/-- No step of the execution interferes with a render in progress. -/
def CalmRun (T : Tree) (s : St) : List Act → Prop
  | [] => True
  | a :: as => Calm T s a ∧ CalmRun T (step T s a) as

/-- Task `t`, about to run the body of a component, drops the place `x` if the body returns the children `kids`: `x` is, or is below, a child of
the component that is not among them. -/
def Drops (T : Tree) (s : St) (t : Nat) (kids : List Nat) (x : Nat) : Prop :=
  ∃ f fs z, (s.tasks t).stat = .running ∧ (s.tasks t).stack = f :: fs ∧ f.phase = .granted ∧
    (kids.Nodup ∧ ∀ c ∈ kids, T.par c = some (s.heap f.st).pos) ∧
    T.par z = some (s.heap f.st).pos ∧ z ∉ kids ∧ T.le z x = true

/-- The task that the step belongs to. -/
def Act.task : Act → Option Nat
  | .start t => some t
  | .grant t => some t
  | .body t _ => some t
  | .next t => some t
  | .finish t => some t
  | _ => none

/-- The task waits: for a semaphore that another one holds, or to be resumed with it; or it does not run. -/
def paused (s : St) (t : Nat) : Bool :=
  match (s.tasks t).stat, (s.tasks t).stack with
  | .running, f :: _ => match f.phase with
    | .granted => true
    | .waiting => (s.access (s.heap f.st).inst).isSome
    | .kids _ => false
  | _, _ => true

/-- The step unmounts some component (and waits for its effects to end). -/
def unmounts (T : Tree) (s : St) (a : Act) : Bool :=
  (List.range s.nextI).any (fun i => (s.reg i).isSome && ((step T s a).reg i).isNone)

/-- Each task goes on until it waits for a semaphore or for the effects of components it has unmounted; `cur` is the task
that made the last step. -/
def prompt (T : Tree) (s : St) (cur : Option Nat) : List Act → Bool
  | [] => true
  | a :: as => (match cur with
      | some t => paused s t || a.task == some t
      | none => true) && prompt T (step T s a) (if unmounts T s a then none else a.task) as

/-- `Calm` as a check, for the examples. -/
def calmB (T : Tree) (s : St) : Act → Bool
  | .start t => (s.tasks t).stat != .created || ((s.reg (s.tasks t).owner).isSome &&
      (List.range s.nextT).all (fun u => (s.tasks u).stat != .running ||
        (!T.le (place s u) (place s t) && !T.le (place s t) (place s u))))
  | .set i => (List.range s.nextT).all (fun u => (s.tasks u).stat != .running || (s.tasks u).stack.all (fun f =>
      (s.heap f.st).inst != i || match f.phase with | .kids _ => true | _ => false))
  | _ => true

/-- `CalmRun` as a check, for the examples. -/
def calmRunB (T : Tree) (s : St) : List Act → Bool
  | [] => true
  | a :: as => calmB T s a && calmRunB T (step T s a) as

theorem calm_check {T : Tree} {s : St} {a : Act} (h : calmB T s a = true) : Calm T s a := by
  cases a with
  | start t =>
    intro hst
    simp only [calmB, Bool.or_eq_true, bne_iff_ne, Bool.and_eq_true, List.all_eq_true, List.mem_range, Bool.not_eq_true'] at h
    rcases h with h | ⟨h1, h2⟩
    · exact absurd hst h
    · refine ⟨fun hn => by rw [hn] at h1; simp at h1, fun u hu => ?_⟩
      rcases h2 u hu.1 with h3 | h3
      · exact absurd hu.2 h3
      · exact h3
  | set i =>
    intro u f hf hi
    simp only [calmB, Bool.or_eq_true, bne_iff_ne, List.all_eq_true, List.mem_range] at h
    rcases h u hf.1 with h | h
    · exact absurd hf.2.1 h
    · rcases h f hf.2.2 with h | h
      · exact absurd hi h
      · cases hp : f.phase with
        | kids l => exact ⟨l, rfl⟩
        | waiting => rw [hp] at h; cases h
        | granted => rw [hp] at h; cases h
  | _ => trivial

theorem calmRun_check {T : Tree} : ∀ {as : List Act} {s : St}, calmRunB T s as = true → CalmRun T s as
  | [], _, _ => trivial
  | a :: as, s, h => by
    simp only [calmRunB, Bool.and_eq_true] at h
    exact ⟨calm_check h.1, calmRun_check h.2⟩

end Verif.Sched.Heap
