import Verif.Sched.HeapSteps
/-! # Properties of the model states shared by parallel renders -/
namespace Verif.Sched.Heap
open Verif.Sched (Tree)

/-! ## Executions for the examples -/

/-- The places 0 – 7: 1 is below 0; 2, 3 and 5 are below 1; 4 is below 3; 6 and 7 are below 2. -/
def bush : Tree where
  par x := match x with
    | 1 => some 0
    | 2 => some 1
    | 3 => some 1
    | 4 => some 3
    | 5 => some 1
    | 6 => some 2
    | 7 => some 2
    | _ => none
  par_root := rfl
  depth x := match x with
    | 1 => 1
    | 2 => 2
    | 3 => 2
    | 4 => 3
    | 5 => 2
    | 6 => 3
    | 7 => 3
    | _ => 0
  depth_par x p h := by
    split at h <;> cases h <;> rfl

/-- Task `t` comes to a component, which has no children. -/
def leaf (t : Nat) : List Act := [.next t, .grant t, .body t [], .finish t]
/-- The first render, of the places 0 – 5. -/
def wide : List Act := [.start 0, .grant 0, .body 0 [1], .next 0, .grant 0, .body 0 [2, 3, 5]] ++ leaf 0 ++
  [.next 0, .grant 0, .body 0 [4]] ++ leaf 0 ++ [.finish 0] ++ leaf 0 ++ [.finish 0, .finish 0, .pick 0]
/-- The first render, of the places 0, 1, 2, 6 and 7. -/
def deep : List Act := [.start 0, .grant 0, .body 0 [1], .next 0, .grant 0, .body 0 [2], .next 0, .grant 0, .body 0 [6, 7]] ++ leaf 0 ++ leaf 0 ++
  [.finish 0, .finish 0, .finish 0, .pick 0]

/-- Two components, not above or below each other, are rendered by interleaved tasks; one drops a child; then the root is
rendered, and a scheduled task of a component below it is cancelled. -/
def quiet : List Act := wide ++ [.set 2, .set 3, .start 1, .grant 1, .start 2, .grant 2, .body 2 [], .body 1 [6], .next 1, .grant 1, .finish 2, .body 1 [],
    .finish 1, .finish 1, .pick 2, .pick 1, .set 0, .set 5, .start 3, .grant 3, .body 3 [1], .next 3, .grant 3, .body 3 [5, 2], .next 3, .grant 3, .die 4, .pick 4, .body 3 [],
    .finish 3, .next 3, .grant 3, .body 3 [6], .next 3, .grant 3, .body 3 [], .finish 3, .finish 3, .finish 3, .finish 3, .pick 3]

/-- Task 1 renders 1 and 2 and, below 3, unmounts 4, whose effects it waits for.  Task 2 renders the root, comes to 1 and cancels task 1;
in 1 it unmounts 5, whose effects it waits for.  The state of 1 that task 1 had made is freed.  Then a setter of 2 is called. -/
def crash : List Act := wide ++ [.set 1, .start 1, .grant 1, .body 1 [2, 3, 5]] ++ leaf 1 ++ [.next 1, .grant 1, .body 1 [],
    .set 0, .start 2, .grant 2, .body 2 [1], .next 2, .die 1, .pick 1, .grant 2, .body 2 [2, 3], .free 7, .set 2, .start 3]

/-- Task 1 renders 1 and unmounts 5, whose effects it waits for.  Task 2 renders the root, comes to 1, and cancels task 1. -/
def twice (kids : List Nat) : List Act := wide ++ [.set 1, .start 1, .grant 1, .body 1 [2, 3],
    .set 0, .start 2, .grant 2, .body 2 [1], .next 2, .die 1, .grant 2, .body 2 kids]

/-- The same; task 2 goes on to render 2, 3 and 5. -/
def back : List Act := twice [2, 3, 5] ++ leaf 2 ++ leaf 2 ++ [.next 2, .grant 2, .body 2 []]

/-- Task 1 renders 1 and 2 and unmounts 7, whose effects it waits for.  Task 2 is to render 2 and waits for task 1.  Task 3 renders
the root, comes to 1 and cancels task 1; task 2 goes on. -/
def lost : List Act := deep ++ [.set 1, .start 1, .grant 1, .body 1 [2], .next 1, .grant 1, .body 1 [6], .set 2, .start 2,
    .set 0, .start 3, .grant 3, .body 3 [1], .next 3, .die 1, .grant 2, .body 2 [6]]

/-! ## C106: rendering in parallel adds no errors -/

/-- **C106 (partial).** In every execution in which a render task begins only while its component is mounted and no task runs for a component above
it, below it or for the same one, and no setter is called between the time a render comes to a component and the time it runs its
body: no render task ends with an exception of `render()`, and no component whose body does not raise is replaced by an error.
Partial: without the restriction to calm executions it is false (`C106_detached_violated`, `C106_key_error_violated`). -/
theorem C106_calm_partial (T : Tree) (acts : List Act) (hc : CalmRun T init acts) :
    (∀ t, ((run T init acts).tasks t).stat ≠ .crashed) ∧ ∀ t x i, Ev.failed t x i ∉ (run T init acts).log :=
  ⟨(inv_run (inv_init T) hc).ok, (inv_run (inv_init T) hc).clean⟩

/-- Tasks that overlap, a component that is dropped, one that comes back, a task that is cancelled. -/
example : CalmRun bush init quiet ∧ prompt bush init none quiet = true ∧
    (List.range 5).map (fun t => ((run bush init quiet).tasks t).stat) = [.done, .done, .done, .done, .dead] :=
  ⟨calmRun_check (by decide +kernel), by decide +kernel, by decide +kernel⟩

/-- **C106 is violated** in parallel rendering: a task is scheduled for a component whose state was made by a render that was cancelled; the state
of its parent is gone, and `render()` raises `RuntimeError`.  In this execution each task goes on until it has to wait, and no
body raises. -/
theorem C106_detached_violated : prompt bush init none crash = true ∧ MountedAt (run bush init crash) 2 2 ∧
    ((run bush init crash).tasks 3).owner = 2 ∧ ((run bush init crash).tasks 3).stat = .crashed :=
  ⟨by decide +kernel, ⟨8, by decide +kernel, by decide +kernel⟩, by decide +kernel, by decide +kernel⟩

/-- **C106 is violated** in parallel rendering: a render that was cancelled had unmounted a child; the render that cancelled it finds the child in
the older state and unmounts it again, which raises `KeyError`, and the component is replaced by an error, although its body did
not raise and returned the same both times. -/
theorem C106_key_error_violated : prompt bush init none (twice [2, 3]) = true ∧
    Ev.failed 2 1 1 ∈ (run bush init (twice [2, 3])).log := ⟨by decide +kernel, by decide +kernel⟩

/-! ## C107: a component that stays keeps its state -/

/-- **C107 (partial).** In calm executions (see C106), at every step: at most one instance is mounted at a place; a new instance, with
new state, is made for a place only if none is mounted there; the body that is run is that of the mounted instance; and an instance
is unmounted exactly if the body of a component above it is run and returns children without it.
Partial: without the restriction to calm executions it is false (`C107_lost_violated`). -/
theorem C107_kept_partial (T : Tree) (acts : List Act) (a : Act) (hc : CalmRun T init (acts ++ [a])) :
    let s := run T init acts
    let s' := step T s a
    (∀ x i j, MountedAt s x i → MountedAt s x j → i = j) ∧
    (∀ x i, s'.log = .made x i :: s.log → ∀ j, ¬ MountedAt s x j) ∧
    (∀ t x i, s'.log = .read t x i :: s.log → MountedAt s x i) ∧
    (∀ x i, MountedAt s x i → (¬ MountedAt s' x i ↔ ∃ t kids, a = .body t kids ∧ Drops T s t kids x)) := by
  obtain ⟨h1, h2⟩ := calmRun_append.1 hc
  have h := inv_run (inv_init T) h1
  refine ⟨?_, fun x i hl => (made_step h hl).1, fun t x i hl => (read_step h hl).1, fun x i hm => ⟨fun hn => ?_, ?_⟩⟩
  · rintro x i j ⟨σ, a1, a2⟩ ⟨τ, b1, b2⟩
    exact h.uniq i j σ τ a1 b1 (by unfold pos; rw [a2, b2])
  · rcases kept_step h h2.1 hm with hk | hk
    · exact absurd hk hn
    · exact hk
  · rintro ⟨t, kids, rfl, hd⟩
    exact drop_step h hd

/-- The places 0, 1, 2 and 5 keep their instances; the one made for 6 is kept by the render of the root; the places 3 and 4 are dropped. -/
example : CalmRun bush init quiet ∧ MountedAt (run bush init quiet) 0 0 ∧ MountedAt (run bush init quiet) 1 1 ∧ MountedAt (run bush init quiet) 2 2 ∧
    MountedAt (run bush init quiet) 5 5 ∧ MountedAt (run bush init quiet) 6 6 ∧ (run bush init quiet).reg 3 = none ∧ (run bush init quiet).reg 4 = none ∧
    (run bush init quiet).nextI = 7 :=
  ⟨calmRun_check (by decide +kernel), ⟨10, by decide +kernel, by decide +kernel⟩, ⟨11, by decide +kernel, by decide +kernel⟩, ⟨13, by decide +kernel, by decide +kernel⟩,
    ⟨12, by decide +kernel, by decide +kernel⟩, ⟨14, by decide +kernel, by decide +kernel⟩, by decide +kernel, by decide +kernel, by decide +kernel⟩

/-- **C107 is violated** in parallel rendering: component 6 is in the tree from the first render on, every body returns it, and it is mounted; but a
render of component 2 starts from a state that a cancelled render has left without children, and makes a new instance for place 6: the state of the
component is lost in that update, and two instances are mounted there. -/
theorem C107_lost_violated : prompt bush init none (lost ++ [.next 2]) = true ∧ MountedAt (run bush init lost) 6 3 ∧
    (step bush (run bush init lost) (.next 2)).log = .made 6 5 :: (run bush init lost).log ∧
    MountedAt (step bush (run bush init lost) (.next 2)) 6 3 ∧ MountedAt (step bush (run bush init lost) (.next 2)) 6 5 :=
  ⟨by decide +kernel, ⟨4, by decide +kernel, by decide +kernel⟩, by decide +kernel, ⟨4, by decide +kernel, by decide +kernel⟩, ⟨11, by decide +kernel, by decide +kernel⟩⟩

/-! ## C108: a component that was removed does not come back -/

/-- **C108 (partial).** In calm executions (see C106), an instance that was made and is no longer mounted (its effects were told to stop) is never
mounted again, and its body is never run again.
Partial: without the restriction to calm executions it is false (`C108_back_violated`). -/
theorem C108_gone_partial (T : Tree) (acts more : List Act) (a : Act) (z i : Nat) (hc : CalmRun T init (acts ++ more ++ [a]))
    (hm : Ev.made z i ∈ (run T init acts).log) (hg : ∀ x, ¬ MountedAt (run T init acts) x i) :
    (∀ x, ¬ MountedAt (run T init (acts ++ more)) x i) ∧
    ∀ t x, (step T (run T init (acts ++ more)) a).log ≠ .read t x i :: (run T init (acts ++ more)).log := by
  obtain ⟨h1, h2⟩ := calmRun_append.1 hc
  obtain ⟨h3, h4⟩ := calmRun_append.1 h1
  have hr : (run T init acts).reg i = none := by
    cases hr : (run T init acts).reg i with
    | none => rfl
    | some σ => exact absurd ⟨σ, hr, rfl⟩ (hg _)
  have h5 := gone_run (inv_run (inv_init T) h3) h4 (made_lt T acts z i hm) hr
  have h6 : ∀ x, ¬ MountedAt (run T init (acts ++ more)) x i := by
    rintro x ⟨σ, hσ, _⟩
    have : run T init (acts ++ more) = run T (run T init acts) more := by simp [run]
    rw [this, h5] at hσ
    cases hσ
  exact ⟨h6, fun t x hl => h6 x (read_step (inv_run (inv_init T) h1) hl).1⟩

/-- Instance 4 was dropped by task 2; afterwards the root is rendered. -/
example : CalmRun bush init quiet ∧ quiet.take 32 ++ quiet.drop 32 = quiet ∧ Ev.made 4 4 ∈ (run bush init (quiet.take 32)).log ∧
    (run bush init (quiet.take 31)).reg 4 = some 5 ∧ (run bush init (quiet.take 32)).reg 4 = none :=
  ⟨calmRun_check (by decide +kernel), List.take_append_drop _ _, by decide +kernel, by decide +kernel, by decide +kernel⟩

/-- **C108 is violated** in parallel rendering: a render that was cancelled had unmounted component 5; the render that cancelled it finds the component in
the older state, mounts the same instance again and runs its body, although its effects were stopped. -/
theorem C108_back_violated : prompt bush init none back = true ∧
    (∃ k, Ev.made 5 5 ∈ (run bush init (back.take k)).log ∧ (run bush init (back.take k)).reg 5 = none) ∧
    Ev.read 2 5 5 ∈ (run bush init back).log :=
  ⟨by decide +kernel, ⟨37, by decide +kernel, by decide +kernel⟩, by decide +kernel⟩

end Verif.Sched.Heap
