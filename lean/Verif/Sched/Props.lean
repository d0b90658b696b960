import Verif.Sched.Deliver
import Verif.Sched.Shape
import Verif.Sched.Serial
/-!
# C12, C13, C14: scheduling with asynchronous rendering

`run T init acts` is the state after any execution: `acts` is any list of actions (setter calls, steps of
render tasks, steps of `render()`), `T` any forest of possible component instances.  Actions that are not
possible in a state do nothing.  The predicates on the history (`s.log`) are in `Verif/Sched/Spec.lean`.
-/
namespace Verif.Sched
variable (T : Tree)

/-! ## Small executions used below -/

/-- The root 0 with children 1 and 2. -/
def T2 : Tree where
  par x := if x = 1 ∨ x = 2 then some 0 else none
  par_root := by decide
  depth x := if x = 1 ∨ x = 2 then 1 else 0
  depth_par x p h := by
    split at h
    · rename_i hx; cases h; simp [hx]
    · cases h

/-- Task `t` renders the root with the children 1 and 2. -/
def renderRoot (t : Nat) : List Act := [.start t, .grant t, .body t [1, 2], .next t, .grant t, .body t [], .finish t,
  .next t, .grant t, .body t [], .finish t, .finish t]
/-- Task `t` renders a component without children. -/
def renderLeaf (t : Nat) : List Act := [.start t, .grant t, .body t [], .finish t]
/-- `render()` returns the update of task `t`. -/
def deliver (t : Nat) : List Act := [.call, .acquire, .pick t]

/-! ## C12: no change is lost -/

/-- **C12 (partial).** In every execution, if no setter of a component was called in another thread: when all render tasks
have ended and the component is in the tree, its body was run after the last change of its state.  Bodies may fail, of this component or of
others; what was below a component whose body failed is not in the tree.
Partial: setters of it called in other threads are excluded (see `C12_other_thread_violated`); unmounting does
not fail; the layout is not closed. -/
theorem C12_no_change_lost_partial (acts : List Act) (x : Nat) (hloop : ∀ v, Act.foreign x v ∉ acts)
    (hend : ∀ t, t < (run T init acts).next → ((run T init acts).tasks t).ended)
    (hx : Present (run T init acts).kids x) : upToDate (run T init acts).log x = true := by
  have hx := present_mounted hend hx
  have hg := good_run (good_init T (· = x)) acts (fun a ha y v e hy => hloop v (by subst e; subst hy; exact ha))
  refine ((hist_run hist_init acts).seen x).2 ?_
  refine Classical.byContradiction fun h => ?_
  exact ended_no_will hend x (hg.kept x hx (.inr ⟨rfl, h⟩))

/-- **C12 (partial).** What a setter called in another thread missed is made up for by the next change: after a change of the component
in the thread of the event loop and no further one in another thread, when all render tasks have ended and the component is in
the tree, its body was run after the last change of its state. -/
theorem C12_made_up_partial (before after : List Act) (x v : Nat) (hs : (run T init before).seen x ≠ none)
    (hv : (run T init before).val x ≠ v) (hloop : ∀ w, Act.foreign x w ∉ after) :
    let acts := before ++ .set x v :: after
    (∀ t, t < (run T init acts).next → ((run T init acts).tasks t).ended) → Present (run T init acts).kids x →
      upToDate (run T init acts).log x = true := by
  intro acts hend hx
  have hx := present_mounted hend hx
  have hr : run T init acts = run T (step T (run T init before) (.set x v)) after := by simp [acts, run]
  have h0 := good_set (good_any (T := T) before) hs hv
  have hg := good_run h0 after (fun a ha y w e hy => by
    rcases hy with hy | rfl
    · exact hy
    · subst e; exact hloop w ha)
  rw [← hr] at hg
  refine ((hist_run hist_init acts).seen x).2 ?_
  refine Classical.byContradiction fun h => ?_
  exact ended_no_will hend x (hg.kept x hx (.inr ⟨.inr rfl, h⟩))

/-- A setter in another thread changes component 1 without a render; then one in the thread of the loop. -/
example : let before := renderRoot 0 ++ deliver 0 ++ [.foreign 1 5]
    let acts := before ++ .set 1 6 :: renderLeaf 1
    (run T2 init before).seen 1 ≠ none ∧ (run T2 init before).val 1 = 5 ∧ (∀ w, Act.foreign 1 w ∉ renderLeaf 1) ∧
    (∀ t, t < (run T2 init acts).next → ((run T2 init acts).tasks t).ended) ∧ Present (run T2 init acts).kids 1 := by
  refine ⟨by decide +kernel, by decide +kernel, by simp [renderLeaf], ?_, .child .root (by decide +kernel)⟩
  have h : ∀ t, t < 2 → ((run T2 init (renderRoot 0 ++ deliver 0 ++ [.foreign 1 5] ++ .set 1 6 :: renderLeaf 1)).tasks t).stat = .done := by
    decide +kernel
  intro t ht
  exact .inl (h t ht)

/-- A change during the render of the component, one before it and one in a child. -/
example : let acts := renderRoot 0 ++ deliver 0 ++ [.set 1 5, .start 1, .grant 1, .body 1 [], .set 1 6, .set 2 7, .finish 1] ++
      renderLeaf 2 ++ renderLeaf 3
    (∀ a ∈ acts, a.isForeign = false) ∧ (∀ t, t < (run T2 init acts).next → ((run T2 init acts).tasks t).ended) ∧
    Present (run T2 init acts).kids 1 ∧ (run T2 init acts).next = 4 := by
  refine ⟨by decide, ?_, .child .root (by decide +kernel), by decide +kernel⟩
  have h : ∀ t, t < 4 → ((run T2 init (renderRoot 0 ++ deliver 0 ++ [.set 1 5, .start 1, .grant 1, .body 1 [], .set 1 6, .set 2 7, .finish 1] ++
      renderLeaf 2 ++ renderLeaf 3)).tasks t).stat = .done := by decide +kernel
  intro t ht
  exact .inl (h t ht)

/-- A component 1 whose body fails is changed and rendered again; the body of the root fails after component 1 was rendered, which leaves 1 and 2 behind;
the root is rendered again, and task 4, of the component 2 left behind, ends with an exception. -/
def failActs : List Act := renderRoot 0 ++ deliver 0 ++ [.set 1 5, .start 1, .grant 1, .fail 1, .set 1 6] ++ renderLeaf 2 ++
  [.set 0 1, .start 3, .grant 3, .body 3 [1, 2], .next 3, .grant 3, .body 3 [], .finish 3, .fail 3, .set 2 7, .crash 4, .set 0 2, .start 5, .grant 5, .body 5 [1],
    .next 5, .grant 5, .fail 5, .finish 5]

example : (∀ a ∈ failActs, a.isForeign = false) ∧ (∀ t, t < (run T2 init failActs).next → ((run T2 init failActs).tasks t).ended) ∧
    Present (run T2 init failActs).kids 1 ∧ (run T2 init failActs).next = 6 ∧ ((run T2 init failActs).tasks 4).stat = .crashed ∧
    (run T2 init failActs).left 2 = true ∧ (run T2 init failActs).mounted 2 = false := by
  refine ⟨by decide, ?_, .child .root (by decide +kernel), by decide +kernel, by decide +kernel, by decide +kernel, by decide +kernel⟩
  have h : ∀ t, t < 6 → ((run T2 init failActs).tasks t).stat = .done ∨ ((run T2 init failActs).tasks t).stat = .dead ∨
      ((run T2 init failActs).tasks t).stat = .crashed := by decide +kernel
  intro t ht
  rw [show (run T2 init failActs).next = 6 by decide +kernel] at ht
  exact h t ht

/-- After the failure of the root nothing is in the tree but the root. -/
example : ∀ c, c ∉ (run T2 init (failActs.take 33)).kids 0 := by
  have : (run T2 init (failActs.take 33)).kids 0 = [] := by decide +kernel
  simp [this]

/-- **C12 (partial): render tasks never block each other.** As long as a render task has not ended, some render
task can go on.  In every execution, setters in other threads included.  Partial: the awaited effects of unmounted components come to an end. -/
theorem C12_no_deadlock_partial (acts : List Act) (t : Nat)
    (ht : t < (run T init acts).next) (hn : ¬ ((run T init acts).tasks t).ended) :
    ∃ a : Act, a.internal = true ∧ step T (run T init acts) a ≠ run T init acts := by
  obtain ⟨a, h1, _, h2⟩ := progress (good_any acts) ht hn
  exact ⟨a, h1, h2⟩

/-- Task 1 (of component 1) holds its semaphore while task 2 (of the root) waits for it. -/
example : let s := run T2 init (renderRoot 0 ++ [.set 1 5, .start 1, .grant 1, .set 0 1, .start 2, .grant 2, .body 2 [1], .next 2])
    (s.tasks 2).stat = .running ∧ (s.tasks 2).stack.head? = some ⟨1, .waiting⟩ ∧ s.access 1 = some 1 ∧ step T2 s (.grant 2) = s := by
  refine ⟨by decide +kernel, by decide +kernel, by decide +kernel, ?_⟩
  simp only [step]
  split
  · rename_i o y fs he
    have h1 : (run T2 init (renderRoot 0 ++ [.set 1 5, .start 1, .grant 1, .set 0 1, .start 2, .grant 2, .body 2 [1], .next 2])).tasks 2 =
        ⟨0, .running, [⟨1, .waiting⟩, ⟨0, .kids []⟩]⟩ := by decide +kernel
    rw [h1] at he
    cases he
    rw [if_neg]
    decide +kernel
  · rfl

/-- **C12 (partial): rendering comes to an end.** If components are nested at most `H` deep and return at most
`W` children, then after any execution the render tasks can make only a bounded number of steps before another
setter is called; after a maximal number of steps the body of every component of the tree was run after the last change
of its state, if no setter of it was called in another thread.  Partial: as above. -/
theorem C12_changes_are_rendered_partial (H W : Nat) (hH : ∀ x, T.depth x ≤ H) (acts : List Act) :
    (∃ N, ∀ more : List Act, (∀ a ∈ more, a.internal = true ∧ Narrow W a) → Effective T (run T init acts) more → more.length ≤ N) ∧
    ∀ more : List Act, (∀ a ∈ more, a.internal = true) →
      (∀ a : Act, a.internal = true → Narrow W a → step T (run T init (acts ++ more)) a = run T init (acts ++ more)) →
      ∀ x, (∀ v, Act.foreign x v ∉ acts) → Present (run T init (acts ++ more)).kids x →
        upToDate (run T init (acts ++ more)).log x = true := by
  refine ⟨⟨total T W H (run T init acts), fun more hm he => effective_bound hH (good_any acts) more hm he⟩, ?_⟩
  intro more hm hstuck x hloop hx
  refine C12_no_change_lost_partial T (acts ++ more) x (fun v hv => ?_) ?_ hx
  · rcases List.mem_append.1 hv with hv | hv
    · exact hloop v hv
    · have := hm _ hv
      simp [Act.internal] at this
  intro t ht
  refine Classical.byContradiction fun hn => ?_
  obtain ⟨a, h1, h2, h3⟩ := progress (good_any (acts ++ more)) ht hn
  refine h3 (hstuck a h1 ?_)
  cases a <;> simp_all [Narrow]

example : ∀ x, T2.depth x ≤ 1 := by
  intro x
  simp only [T2]
  split <;> omega

/-- Twelve effective steps of the first render. -/
example : Effective T2 init (renderRoot 0) ∧ ∀ a ∈ renderRoot 0, a.internal = true ∧ Narrow 2 a := by
  constructor
  · refine ⟨?_, ?_, ?_, ?_, ?_, ?_, ?_, ?_, ?_, ?_, ?_, ?_, trivial⟩ <;> refine tasks_ne 0 ?_ <;> decide +kernel
  · intro a ha
    simp only [renderRoot, List.mem_cons, List.not_mem_nil, or_false] at ha
    rcases ha with h | h | h | h | h | h | h | h | h | h | h | h <;> subst h <;> simp [Act.internal, Narrow]

/-- **C12.** Several changes before the render starts cause only one render: no render task is created for a
component while one is pending that was created after the last run of its body.  In every execution, setters in
other threads included. -/
theorem C12_merged (acts : List Act) : Merged (run T init acts).log := (hist_run hist_init acts).merged

example : ((run T2 init (renderRoot 0 ++ [.set 1 5, .set 1 6, .set 1 7] ++ renderLeaf 1)).log.filter (fun e => e matches .created _ _)) =
    [.created 1 1, .created 0 0] ∧
    ((run T2 init (renderRoot 0 ++ [.set 1 5, .set 1 6, .set 1 7] ++ renderLeaf 1)).log.head? = some (.read 1 1 3)) := by
  decide +kernel

/-- **C12.** A setter call that does not change the value does nothing. -/
theorem C12_same_value (s : St) (x : Nat) : step T s (.set x (s.val x)) = s := by simp [step]

/-- A setter call that does change it (of a mounted component with nothing scheduled) creates one task for
it. -/
theorem C12_changed_value (s : St) (x v : Nat) (hv : s.val x ≠ v) (hs : s.seen x ≠ none) (hm : s.mounted x = true) (hf : s.flag x = false) :
    (step T s (.set x v)).val x = v ∧ (step T s (.set x v)).log = .created s.next x :: .changed x :: s.log ∧
    ((step T s (.set x v)).tasks s.next).stat = .created ∧ ((step T s (.set x v)).tasks s.next).owner = x := by
  simp only [step]
  rw [if_neg (by simp [hv, hs])]
  simp [schedule, hf, hm]

example : let s := run T2 init (renderRoot 0)
    s.val 1 ≠ 5 ∧ s.seen 1 ≠ none ∧ s.mounted 1 = true ∧ s.flag 1 = false := by decide +kernel

/-- The value that a setter call gives a component, if the step is one. -/
def Act.given (x : Nat) : Act → Option Nat
  | .set y v => if y = x then some v else none
  | .foreign y v => if y = x then some v else none
  | _ => none

theorem values_step (s : St) (a : Act) (x : Nat) :
    (step T s a).val x = (if s.seen x = none then s.val x else (a.given x).getD (s.val x)) ∧
    (step T s a).ver x = (if (step T s a).val x = s.val x then s.ver x else s.ver x + 1) := by
  have henter : ∀ (s : St) t y, (enter s t y).val = s.val ∧ (enter s t y).ver = s.ver := by
    intro s t y
    simp only [enter]
    split
    · split <;> exact ⟨rfl, rfl⟩
    · exact ⟨rfl, rfl⟩
  have hsched : ∀ (s : St) y, (schedule s y).val = s.val ∧ (schedule s y).ver = s.ver := by
    intro s y
    simp only [schedule]
    split
    · exact ⟨rfl, rfl⟩
    · split <;> exact ⟨rfl, rfl⟩
  -- steps that are no setter calls
  have other : (∀ x, a.given x = none) → (step T s a).val = s.val ∧ (step T s a).ver = s.ver := by
    intro ha
    cases a with
    | set y v => have := ha y; simp [Act.given] at this
    | foreign y v => have := ha y; simp [Act.given] at this
    | start t =>
      simp only [step]
      split
      · exact henter _ _ _
      · exact ⟨rfl, rfl⟩
    | next t =>
      simp only [step]
      split
      · exact henter _ _ _
      · exact ⟨rfl, rfl⟩
    | grant t =>
      simp only [step]
      split
      · split <;> exact ⟨rfl, rfl⟩
      · exact ⟨rfl, rfl⟩
    | body t kids => simp only [step]; split <;> exact ⟨rfl, rfl⟩
    | finish t => simp only [step, finishCall]; split <;> exact ⟨rfl, rfl⟩
    | fail t =>
      have hf : ∀ s : St, (finishCall s t).val = s.val ∧ (finishCall s t).ver = s.ver := by
        intro s; simp only [finishCall]; split <;> exact ⟨rfl, rfl⟩
      have h1 : (failCall T s t).val = s.val ∧ (failCall T s t).ver = s.ver := by
        simp only [failCall]; split <;> exact ⟨rfl, rfl⟩
      simp only [step]
      exact ⟨(hf _).1.trans h1.1, (hf _).2.trans h1.2⟩
    | crash t => simp only [step]; split <;> exact ⟨rfl, rfl⟩
    | lose x => exact ⟨rfl, rfl⟩
    | die t => simp only [step]; split <;> exact ⟨rfl, rfl⟩
    | call => simp only [step]; split <;> exact ⟨rfl, rfl⟩
    | acquire =>
      simp only [step]
      split
      · split
        · exact ⟨rfl, rfl⟩
        · split <;> exact ⟨rfl, rfl⟩
      · exact ⟨rfl, rfl⟩
    | pick t =>
      simp only [step]
      split
      · split
        · split <;> exact ⟨rfl, rfl⟩
        · exact ⟨rfl, rfl⟩
      · exact ⟨rfl, rfl⟩
    | abort => exact ⟨rfl, rfl⟩
  -- setter calls
  have setter : ∀ y v, (step T s a).val = (if s.seen y = none ∨ s.val y = v then s.val else upd s.val y v) →
      (step T s a).ver = (if s.seen y = none ∨ s.val y = v then s.ver else upd s.ver y (s.ver y + 1)) →
      (∀ x, a.given x = if y = x then some v else none) →
      (step T s a).val x = (if s.seen x = none then s.val x else (a.given x).getD (s.val x)) ∧
      (step T s a).ver x = (if (step T s a).val x = s.val x then s.ver x else s.ver x + 1) := by
    intro y v h1 h2 h3
    rw [h1, h2, h3 x]
    by_cases hy : y = x
    · subst hy
      by_cases hs : s.seen y = none
      · simp [hs]
      · by_cases hv : s.val y = v
        · simp [hv]
        · have hv' : ¬v = s.val y := fun h => hv h.symm
          simp [hs, hv, hv']
    · by_cases hc : s.seen y = none ∨ s.val y = v
      · simp [hc, hy]
      · have hx : x ≠ y := fun h => hy h.symm
        simp [hc, hy, upd_ne _ _ hx]
  cases a with
  | set y v =>
    refine setter y v ?_ ?_ fun x => rfl
    · simp only [step]; split
      · rfl
      · exact (hsched _ _).1
    · simp only [step]; split
      · rfl
      · exact (hsched _ _).2
  | foreign y v =>
    refine setter y v ?_ ?_ fun x => rfl
    · simp only [step]; split <;> rfl
    · simp only [step]; split <;> rfl
  | _ =>
    obtain ⟨h1, h2⟩ := other fun _ => rfl
    rw [h1, h2]
    simp [Act.given]

/-- **C12.** The value of a component that has been rendered is the one its setter was last called with, in whatever thread; nothing else
changes it, and the change is counted exactly if the value is another one. -/
theorem C12_values (acts : List Act) (a : Act) (x : Nat) : let s := run T init acts; let s' := run T init (acts ++ [a])
    s'.val x = (if s.seen x = none then s.val x else (a.given x).getD (s.val x)) ∧
    s'.ver x = (if s'.val x = s.val x then s.ver x else s.ver x + 1) := by
  simp only [run, List.foldl_append, List.foldl_cons, List.foldl_nil]
  exact values_step T _ a x

example : (run T2 init (renderRoot 0 ++ [.set 1 5, .foreign 1 6, .set 1 6])).val 1 = 6 ∧
    (run T2 init (renderRoot 0 ++ [.set 1 5, .foreign 1 6, .set 1 6])).ver 1 = 2 ∧ (run T2 init [.set 1 5]).val 1 = 0 := by decide +kernel

/-- **C12 is violated** by a setter called in another thread: the change of component 1 is never rendered, although
it is in the tree and all tasks have ended. -/
theorem C12_other_thread_violated : ∃ acts : List Act, (∀ t, t < (run T2 init acts).next → ((run T2 init acts).tasks t).ended) ∧
    Present (run T2 init acts).kids 1 ∧ (run T2 init acts).val 1 = 5 ∧ upToDate (run T2 init acts).log 1 = false := by
  refine ⟨renderRoot 0 ++ deliver 0 ++ [.foreign 1 5], ?_, .child .root (by decide +kernel), by decide +kernel, by decide +kernel⟩
  have h : ∀ t, t < 1 → ((run T2 init (renderRoot 0 ++ deliver 0 ++ [.foreign 1 5])).tasks t).stat = .done := by decide +kernel
  have hn : (run T2 init (renderRoot 0 ++ deliver 0 ++ [.foreign 1 5])).next = 1 := by decide +kernel
  intro t ht
  rw [hn] at ht
  exact .inl (h t ht)

/-! ## C13: every finished update is handed out once -/

/-- **C13.** In every execution, each task that was created is taken out by `render()` at most once, exactly those
not taken out yet are in its set of tasks, only ended tasks are taken out, and those taken out are returned as
updates if and only if they ended with an update (so cancelled ones are skipped, and the exceptions of others raised), at most once. -/
theorem C13_exactly_once (acts : List Act) : let s := run T init acts
    (∀ t, (consumed s.log).count t ≤ 1) ∧ (∀ t, t ∈ s.pool ↔ t < s.next ∧ t ∉ consumed s.log) ∧
    (∀ t, t ∈ consumed s.log → (s.tasks t).ended) ∧
    (∀ t, t ∈ returned s.log ↔ t ∈ consumed s.log ∧ (s.tasks t).stat = .done) ∧ ∀ t, (returned s.log).count t ≤ 1 := by
  have h := (base_run T acts).2.2
  have h1 : ∀ t, (consumed (run T init acts).log).count t ≤ 1 := by
    intro t
    have := h.once t
    split at this <;> omega
  exact ⟨h1, h.mem, h.ended, h.sub, fun t => Nat.le_trans (h.count t) (h1 t)⟩

/-- Two updates returned, a cancelled task skipped. -/
example : let s := run T2 init (renderRoot 0 ++ deliver 0 ++ [.set 1 5, .set 0 1, .start 2, .grant 2, .body 2 [1], .next 2, .grant 2, .body 2 [],
      .finish 2, .finish 2, .die 1, .call, .acquire, .pick 1, .acquire, .pick 2])
    returned s.log = [2, 0] ∧ consumed s.log = [2, 1, 0] ∧ s.pool = [] ∧ s.next = 3 := by decide +kernel

/-- **C13 (partial): `render()` does not block while a finished task exists.** If `render()` was called and is not yet
waiting for tasks, and a task that ended was not taken out yet, then `render()` goes on to wait for a set of tasks
that contains it, and can take it out.  Partial: executions in which a call of `render()` is cancelled are excluded
(`C13_cancelled_render_violated`), and a task created while `render()` waits is not noticed
(`C13_later_task_violated`). -/
theorem C13_never_blocks_partial (acts : List Act) (hab : ∀ a ∈ acts, a.isAbort = false) (t : Nat)
    (hc : (run T init acts).consumer = .wanting) (ht : t < (run T init acts).next) (he : ((run T init acts).tasks t).ended)
    (hnew : t ∉ consumed (run T init acts).log) :
    consumed (run T init (acts ++ [.acquire, .pick t])).log = t :: consumed (run T init acts).log ∧
    (((run T init acts).tasks t).stat = .done → returned (run T init (acts ++ [.acquire, .pick t])).log = t :: returned (run T init acts).log) := by
  have hp := (base_run T acts).2.2
  have hb := balanced_run T acts hab
  have hmem := (hp.mem t).2 ⟨ht, hnew⟩
  have hpos : 0 < (run T init acts).pool.length := List.length_pos_of_mem hmem
  have htok : (run T init acts).tokens ≠ 0 := by
    unfold Balanced at hb
    simp only [hc] at hb
    omega
  have hne : (run T init acts).pool.isEmpty = false := by
    cases h : (run T init acts).pool with
    | nil => rw [h] at hpos; simp at hpos
    | cons _ _ => rfl
  have h1 : step T (run T init acts) .acquire =
      { run T init acts with tokens := (run T init acts).tokens - 1, consumer := .waiting (run T init acts).pool } := by
    simp [step, hc, htok, hne]
  have h2 : run T init (acts ++ [.acquire, .pick t]) = step T (step T (run T init acts) .acquire) (.pick t) := by
    simp [run]
  rw [h2, h1]
  rcases he with he | he | he
  · simp [step, hmem, he, consumed, returned]
  · simp [step, hmem, he, consumed]
  · simp [step, hmem, he, consumed]

example : let acts := renderRoot 0 ++ deliver 0 ++ [.set 1 5, .set 2 6] ++ renderLeaf 2 ++ [.call]
    (∀ a ∈ acts, a.isAbort = false) ∧ (run T2 init acts).consumer = .wanting ∧ 2 < (run T2 init acts).next ∧
    ((run T2 init acts).tasks 2).stat = .done ∧ 2 ∉ consumed (run T2 init acts).log := by
  refine ⟨by decide, by decide +kernel, by decide +kernel, by decide +kernel, by decide +kernel⟩

/-- **C13 (partial).** While `render()` waits for a set of tasks, it can take out any of them that has ended; all of
them are tasks not taken out before. -/
theorem C13_takes_finished_partial (acts : List Act) (l : List Nat) (hc : (run T init acts).consumer = .waiting l) :
    l ≠ [] ∧ ∀ t ∈ l, t ∉ consumed (run T init acts).log ∧ (((run T init acts).tasks t).ended →
      consumed (run T init (acts ++ [.pick t])).log = t :: consumed (run T init acts).log) := by
  have hp := (base_run T acts).2.2
  refine ⟨(hp.snap l hc).1, fun t ht => ⟨((hp.mem t).1 ((hp.snap l hc).2 t ht)).2, fun he => ?_⟩⟩
  have h2 : run T init (acts ++ [.pick t]) = step T (run T init acts) (.pick t) := by simp [run]
  rw [h2]
  rcases he with he | he | he <;> simp [step, hc, ht, he, consumed]

example : (run T2 init (renderRoot 0 ++ deliver 0 ++ [.set 1 5, .set 2 6, .call, .acquire])).consumer = .waiting [2, 1] := by decide +kernel

/-- **C13 is violated**: `render()` waits for task 1 (of component 1), which has not ended; task 2, scheduled
since, has ended with an update, but no step of `render()` is possible. -/
theorem C13_later_task_violated : ∃ acts : List Act, (∀ a ∈ acts, a.isAbort = false) ∧
    2 < (run T2 init acts).next ∧ ((run T2 init acts).tasks 2).stat = .done ∧ 2 ∉ consumed (run T2 init acts).log ∧
    ∀ a ∈ [Act.call, .acquire, .pick 0, .pick 1, .pick 2], (step T2 (run T2 init acts) a).log = (run T2 init acts).log ∧
      (step T2 (run T2 init acts) a).consumer = (run T2 init acts).consumer ∧ (step T2 (run T2 init acts) a).pool = (run T2 init acts).pool := by
  refine ⟨renderRoot 0 ++ deliver 0 ++ [.set 1 5, .call, .acquire, .set 2 6] ++ renderLeaf 2, by decide, by decide +kernel, by decide +kernel, by decide +kernel, ?_⟩
  decide +kernel

/-- **C13 is violated** when a call of `render()` is cancelled while it waits for tasks: the next call blocks although
task 1 has ended with an update. -/
theorem C13_cancelled_render_violated : ∃ acts : List Act, (run T2 init acts).consumer = .wanting ∧
    1 < (run T2 init acts).next ∧ ((run T2 init acts).tasks 1).stat = .done ∧ 1 ∉ consumed (run T2 init acts).log ∧
    (∀ t, t < (run T2 init acts).next → ((run T2 init acts).tasks t).ended) ∧
    ∀ a ∈ [Act.call, .acquire, .pick 0, .pick 1], (step T2 (run T2 init acts) a).log = (run T2 init acts).log ∧
      (step T2 (run T2 init acts) a).consumer = (run T2 init acts).consumer := by
  refine ⟨renderRoot 0 ++ deliver 0 ++ [.set 1 5, .call, .acquire, .abort] ++ renderLeaf 1 ++ [.call], by decide +kernel, by decide +kernel,
    by decide +kernel, by decide +kernel, ?_, by decide +kernel⟩
  have hn : (run T2 init (renderRoot 0 ++ deliver 0 ++ [.set 1 5, .call, .acquire, .abort] ++ renderLeaf 1 ++ [.call])).next = 2 := by decide +kernel
  have h : ∀ t, t < 2 → ((run T2 init (renderRoot 0 ++ deliver 0 ++ [.set 1 5, .call, .acquire, .abort] ++ renderLeaf 1 ++ [.call])).tasks t).stat = .done := by
    decide +kernel
  intro t ht
  rw [hn] at ht
  exact .inl (h t ht)

/-! ## C14: the client shows the newest render -/

/-- **C14 (partial).** If no two render tasks of components above or below each other overlap (a task begins only when
the updates of all others for such components were returned by `render()`, and when its component is still mounted),
then, when all tasks have ended and all were taken out by `render()`, the client shows for every component of the tree the
result of the newest run of its body, which saw the last change of its state if no setter of it was called in another thread.  Partial: without the restriction to
orderly executions it is false (`C14_order_violated`). -/
theorem C14_newest_shown_partial (acts : List Act) (ho : OrderlyRun T init acts)
    (hend : ∀ t, t < (run T init acts).next → ((run T init acts).tasks t).ended)
    (hall : ∀ t, t < (run T init acts).next → t ∈ consumed (run T init acts).log) (x : Nat) (hx : Present (run T init acts).kids x) :
    (run T init acts).shown x = newestRead (run T init acts).log x ∧
      ((∀ v, Act.foreign x v ∉ acts) → (run T init acts).shown x = some ((run T init acts).ver x)) := by
  have hs := shown_run T acts ho
  have hh : Hist (run T init acts) := hist_run hist_init acts
  have hsx : (run T init acts).shown x = (run T init acts).seen x := by
    refine hs.clear x (present_mounted hend hx) ?_
    intro u hu
    exact absurd (hall u hu.1) hu.2.1
  refine ⟨by rw [hsx, hh.newest], fun hloop => ?_⟩
  rw [hsx]
  exact (hh.seen x).1 (C12_no_change_lost_partial T acts x hloop hend hx)

/-- Renders of two siblings overlap, then one of the root. -/
def orderlyActs : List Act := renderRoot 0 ++ deliver 0 ++ [.set 1 5, .set 2 6, .start 1, .start 2, .grant 2, .body 2 [], .finish 2,
  .grant 1, .body 1 [], .finish 1] ++ deliver 1 ++ deliver 2 ++ [.set 0 1, .set 1 7] ++ renderRoot 3 ++ [.die 4] ++ [.call, .acquire, .pick 4, .acquire, .pick 3]

example : OrderlyRun T2 init orderlyActs ∧ (∀ a ∈ orderlyActs, a.isForeign = false) ∧
    (∀ t, t < (run T2 init orderlyActs).next → ((run T2 init orderlyActs).tasks t).ended ∧ t ∈ consumed (run T2 init orderlyActs).log) ∧
    Present (run T2 init orderlyActs).kids 1 ∧ (run T2 init orderlyActs).shown 1 = some 2 := by
  refine ⟨?_, by decide, ?_, .child .root (by decide +kernel), by decide +kernel⟩
  · apply orderly_check
    decide +kernel
  · have hn : (run T2 init orderlyActs).next = 5 := by decide +kernel
    have h : ∀ t, t < 5 → (((run T2 init orderlyActs).tasks t).stat = .done ∨ ((run T2 init orderlyActs).tasks t).stat = .dead ∨
      ((run T2 init orderlyActs).tasks t).stat = .crashed) ∧
      t ∈ consumed (run T2 init orderlyActs).log := by decide +kernel
    intro t ht
    rw [hn] at ht
    exact h t ht

/-- **C14 is violated.** Task 1 rendered component 1 and its update waits to be returned; task 2 then renders the root and
component 1 in its newer state.  Both have ended, and `render()` may return the update of task 2 first.  When all
is done and delivered, the client shows the older state of component 1. -/
theorem C14_order_violated : ∃ acts : List Act, (∀ a ∈ acts, a.isForeign = false ∧ a.isAbort = false) ∧
    (∀ t, t < (run T2 init acts).next → ((run T2 init acts).tasks t).ended ∧ t ∈ consumed (run T2 init acts).log) ∧
    Present (run T2 init acts).kids 1 ∧ newestRead (run T2 init acts).log 1 = some 2 ∧ (run T2 init acts).shown 1 = some 1 := by
  refine ⟨renderRoot 0 ++ deliver 0 ++ [.set 1 5] ++ renderLeaf 1 ++ [.set 0 1, .set 1 6] ++ renderRoot 2 ++ [.die 3] ++
    deliver 2 ++ deliver 1 ++ [.call, .acquire, .pick 3], by decide, ?_, .child .root (by decide +kernel), by decide +kernel, by decide +kernel⟩
  have hn : (run T2 init (renderRoot 0 ++ deliver 0 ++ [.set 1 5] ++ renderLeaf 1 ++ [.set 0 1, .set 1 6] ++ renderRoot 2 ++ [.die 3] ++
    deliver 2 ++ deliver 1 ++ [.call, .acquire, .pick 3])).next = 4 := by decide +kernel
  have h : ∀ t, t < 4 → (((run T2 init (renderRoot 0 ++ deliver 0 ++ [.set 1 5] ++ renderLeaf 1 ++ [.set 0 1, .set 1 6] ++ renderRoot 2 ++ [.die 3] ++
    deliver 2 ++ deliver 1 ++ [.call, .acquire, .pick 3])).tasks t).stat = .done ∨ ((run T2 init (renderRoot 0 ++ deliver 0 ++ [.set 1 5] ++ renderLeaf 1 ++ [.set 0 1, .set 1 6] ++ renderRoot 2 ++ [.die 3] ++
    deliver 2 ++ deliver 1 ++ [.call, .acquire, .pick 3])).tasks t).stat = .dead ∨ ((run T2 init (renderRoot 0 ++ deliver 0 ++ [.set 1 5] ++ renderLeaf 1 ++ [.set 0 1, .set 1 6] ++ renderRoot 2 ++ [.die 3] ++
    deliver 2 ++ deliver 1 ++ [.call, .acquire, .pick 3])).tasks t).stat = .crashed) ∧ t ∈ consumed (run T2 init (renderRoot 0 ++ deliver 0 ++ [.set 1 5] ++ renderLeaf 1 ++ [.set 0 1, .set 1 6] ++ renderRoot 2 ++ [.die 3] ++
    deliver 2 ++ deliver 1 ++ [.call, .acquire, .pick 3])).log := by decide +kernel
  intro t ht
  rw [hn] at ht
  exact h t ht

end Verif.Sched

/-! ## C12 without asynchronous rendering -/
namespace Verif.Sched.Serial
variable (T : Tree)

/-- **C12 (partial), asynchronous rendering off.** In every execution in which setters are called in the thread of the
event loop: when nothing is queued and no render is in progress, the body of every component of the tree was run after the
last change of its state.  Partial: setters in other threads are excluded (`C12_serial_thread_violated`). -/
theorem C12_serial_no_change_lost_partial (acts : List Act) (hloop : ∀ a ∈ acts, a.inLoop = true)
    (hq : (run T init acts).pend = []) (hr : (run T init acts).todo = []) (x : Nat) (hx : Present (run T init acts).kids x) :
    upToDate (run T init acts).log x = true := by
  have hx := present_mounted hr hx
  obtain ⟨-, h1, h2, -⟩ := kept_run (kept_init T) acts hloop
  refine (h2 x).2 (Classical.byContradiction fun h => ?_)
  rcases h1 x hx (.inr h) with h | ⟨b, hb, _⟩
  · rw [hq] at h; simp at h
  · rw [hr] at hb; simp at hb

/-- The value that a setter call gives a component, if the step is one. -/
def Act.given (x : Nat) : Act → Option Nat
  | .set y v => if y = x then some v else none
  | .tset y v => if y = x then some v else none
  | _ => none

/-- **C12, asynchronous rendering off.** The value of a component is the one its setter was last called with, in whatever thread; nothing
else changes it, and the change is counted exactly if the value is another one. -/
theorem C12_serial_values (acts : List Act) (a : Act) (x : Nat) : let s := run T init acts; let s' := run T init (acts ++ [a])
    s'.val x = (a.given x).getD (s.val x) ∧ s'.ver x = (if s'.val x = s.val x then s.ver x else s.ver x + 1) := by
  simp only [run, List.foldl_append, List.foldl_cons, List.foldl_nil]
  generalize acts.foldl (step T) init = s
  have setter : ∀ y v, (step T s a).val = (if s.val y = v then s.val else upd s.val y v) →
      (step T s a).ver = (if s.val y = v then s.ver else upd s.ver y (s.ver y + 1)) →
      (∀ x, a.given x = if y = x then some v else none) →
      (step T s a).val x = (a.given x).getD (s.val x) ∧ (step T s a).ver x = (if (step T s a).val x = s.val x then s.ver x else s.ver x + 1) := by
    intro y v h1 h2 h3
    rw [h1, h2, h3 x]
    by_cases hy : y = x
    · subst hy
      by_cases hv : s.val y = v
      · simp [hv]
      · have hv' : ¬v = s.val y := fun h => hv h.symm
        simp [hv, hv']
    · by_cases hc : s.val y = v
      · simp [hc, hy]
      · have hx : x ≠ y := fun h => hy h.symm
        simp [hc, hy, upd_ne _ _ hx]
  cases a with
  | set y v =>
    refine setter y v ?_ ?_ fun x => rfl
    all_goals
      simp only [step]
      split
      · rfl
      · split <;> rfl
  | tset y v =>
    refine setter y v ?_ ?_ fun x => rfl
    all_goals
      simp only [step]
      split
      · rfl
      · split <;> rfl
  | tput y => simp only [step, Act.given]; split <;> simp
  | tmark y => simp only [step, Act.given]; split <;> simp
  | pop =>
    have h : (step T s (.pop)).val = s.val ∧ (step T s (.pop)).ver = s.ver := by
      simp only [step]; split <;> exact ⟨rfl, rfl⟩
    rw [h.1, h.2]
    simp [Act.given]
  | body kids =>
    have h : (step T s (.body kids)).val = s.val ∧ (step T s (.body kids)).ver = s.ver := by
      simp only [step]; split <;> exact ⟨rfl, rfl⟩
    rw [h.1, h.2]
    simp [Act.given]

example : (run T2 init [.pop, .body [1, 2], .body [], .body [], .tset 1 5, .set 1 6, .set 1 6]).val 1 = 6 ∧
    (run T2 init [.pop, .body [1, 2], .body [], .body [], .tset 1 5, .set 1 6, .set 1 6]).ver 1 = 2 := by decide +kernel

/-- While something is queued or a render is in progress, `render()` can go on. -/
theorem C12_serial_progress (s : St) (h : s.pend ≠ [] ∨ s.todo ≠ []) :
    (step T s .pop).pend.length < s.pend.length ∨ (step T s (.body [])).todo.length < s.todo.length := by
  obtain ⟨val, ver, flag, seen, kids, mounted, pend, todo, threads, log⟩ := s
  cases todo with
  | nil =>
    cases pend with
    | nil => simp at h
    | cons x l => left; simp [step]
  | cons y r => right; simp [step]

example : let acts := [.pop, .body [1, 2], .body [], .set 1 4, .body [], .set 2 5, .set 1 6, .pop, .body [], .pop, .body []]
    (∀ a ∈ acts, a.inLoop = true) ∧ (run T2 init acts).pend = [] ∧ (run T2 init acts).todo = [] ∧ Present (run T2 init acts).kids 1 ∧
    (run T2 init acts).ver 1 = 2 :=
  ⟨by decide +kernel, by decide +kernel, by decide +kernel, .child .root (by decide +kernel), by decide +kernel⟩

/-- **C12 is violated** by setters in another thread: the event loop renders the component between the queueing and the
setting of the flag, which then stays set although nothing is queued, so that the next change is ignored for ever. -/
theorem C12_serial_thread_violated : ∃ acts : List Act, (run T2 init acts).pend = [] ∧ (run T2 init acts).todo = [] ∧
    (run T2 init acts).threads = [] ∧ Present (run T2 init acts).kids 1 ∧ (run T2 init acts).val 1 = 6 ∧ (run T2 init acts).flag 1 = true ∧
    upToDate (run T2 init acts).log 1 = false :=
  ⟨[.pop, .body [1, 2], .body [], .body [], .tset 1 5, .tput 1, .pop, .body [], .tmark 1, .set 1 6], by decide +kernel, by decide +kernel, by decide +kernel,
    .child .root (by decide +kernel), by decide +kernel⟩

end Verif.Sched.Serial
