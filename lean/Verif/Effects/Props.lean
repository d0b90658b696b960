import Verif.Effects.Early
/-!
# Effects: C25 (`use_effect`) and C27 (`use_async_effect`)

The specifications are `Sync.Proper`, `Async.Sound` and `Async.Proper` (Spec.lean): plain
predicates on the list of observable events, newest first.
-/
namespace Verif.Effects

namespace Sync

/-- Every task that was created has finished. -/
def Quiescent (s : St) : Prop := ∀ g, g < s.n → s.pc g = .finished

/-- C25 (partial: clean-up functions that do not raise).  However renders, effect tasks and the unmount
interleave: each generation's function runs at most once and only when the clean-ups of all earlier
generations have been called, and a clean-up is called at most once and only if the function returned
it (`Proper`); at most one generation is active (its clean-up not yet called); and once the component
is unmounted and the tasks have finished, every generation's function has run and every clean-up
returned has been called.  Missing: clean-ups that raise, see `C25_violated`. -/
theorem C25_once_partial (body : Nat → Body) (hb : ∀ g, body g ≠ .cleanup true) (acts : List Act) :
    let s := run body acts
    Proper s.log ∧
    (∀ g h, Ev.body g true ∈ s.log → Ev.clean g ∉ s.log → Ev.body h true ∈ s.log → Ev.clean h ∉ s.log → g = h) ∧
    (s.unmounted = true → Quiescent s →
      (∀ g, g < s.n → ∃ b, Ev.body g b ∈ s.log) ∧
      (∀ g, Ev.body g true ∈ s.log → Ev.clean g ∈ s.log)) := by
  intro s
  have h : Inv s := run_inv hb acts inv_init
  refine ⟨h.proper, ?_, ?_⟩
  · intro g g' h1 h2 h3 h4
    have a := (h.open_ g h1).resolve_left h2
    have b := (h.open_ g' h3).resolve_left h4
    rw [a] at b; exact Option.some.inj b
  · intro _ hq
    refine ⟨fun g hg => (h.ran g).2 (.inr (hq g hg)), fun g hg => ?_⟩
    rcases h.open_ g hg with h1 | h1
    · exact h1
    · obtain ⟨_, _, hw⟩ := h.cur g h1
      by_cases hn : g < s.n
      · rw [hq g hn] at hw; cases hw
      · rw [h.absent g (Nat.le_of_not_lt hn)] at hw; cases hw

theorem runAll_finished (body : Nat → Body) (gs : List Nat) (s : St) (hu : s.unmounted = true) :
    (∀ g, s.pc g = .finished → (run body (gs.map .run) s).pc g = .finished) ∧
    (∀ g ∈ gs, s.pc g ≠ .absent → (run body (gs.map .run) s).pc g = .finished) ∧ (run body (gs.map .run) s).n = s.n ∧
    (run body (gs.map .run) s).unmounted = true := by
  induction gs generalizing s with
  | nil => simp [run, hu]
  | cons g gs ih =>
    obtain ⟨h1, h2, h3⟩ := step_unmounted body g s hu
    obtain ⟨i1, i2, i3, i4⟩ := ih (step body s (.run g)) h3
    have hkeep : ∀ x, s.pc x = .finished → (step body s (.run g)).pc x = .finished := by
      intro x hx
      rw [h1]; split
      · exact hx
      · by_cases hxg : x = g
        · subst hxg; exact upd_self _ _ _
        · rw [upd_ne _ _ hxg]; exact hx
    have hmade : ∀ x, s.pc x ≠ .absent → (step body s (.run g)).pc x ≠ .absent := by
      intro x hx
      rw [h1]; split
      · exact hx
      · by_cases hxg : x = g
        · subst hxg; rw [upd_self]; simp
        · rw [upd_ne _ _ hxg]; exact hx
    refine ⟨fun x hx => i1 x (hkeep x hx), ?_, by rw [← h2]; exact i3, i4⟩
    intro x hx ha
    rcases List.mem_cons.1 hx with rfl | hx
    · refine i1 x ?_
      rw [h1, if_neg ha]; exact upd_self _ _ _
    · exact i2 x hx (hmade x ha)

theorem step_made (body : Nat → Body) (s : St) (a : Act) (h : ∀ g, g < s.n → s.pc g ≠ .absent) :
    ∀ g, g < (step body s a).n → (step body s a).pc g ≠ .absent := by
  have key : ∀ (f : Nat → Pc) (g : Nat) (p : Pc), p ≠ .absent → (∀ x, x < s.n → f x ≠ .absent) →
      ∀ x, x < s.n → upd f g p x ≠ .absent := by
    intro f g p hp hf x hx
    by_cases hxg : x = g
    · subst hxg; rw [upd_self]; exact hp
    · rw [upd_ne _ _ hxg]; exact hf x hx
  cases a with
  | unmount => exact h
  | schedule =>
    simp only [step]; split
    · exact h
    · intro g hg
      show upd s.pc s.n .created g ≠ _
      by_cases hgn : g = s.n
      · subst hgn; rw [upd_self]; simp
      · rw [upd_ne _ _ hgn]; exact h g (by simp only at hg; omega)
  | run g =>
    simp only [step]
    cases hp : s.pc g with
    | absent => exact h
    | finished => exact h
    | waiting =>
      simp only
      split
      · rw [(finish_frame body g s).1, (finish_frame body g s).2.1]
        exact key _ _ _ (by simp) h
      · exact h
    | created =>
      simp only [start]
      obtain ⟨h1, h2, h3⟩ := cleanup_frame body s
      generalize cleanup body s = r at *
      obtain ⟨s', ok⟩ := r
      simp only at h1 h2 h3
      have k : ∀ p : Pc, p ≠ .absent → ∀ x, x < s'.n → upd s'.pc g p x ≠ .absent := by
        intro p hp; rw [h1, h2]; exact key _ _ _ hp h
      cases ok with
      | false => exact k _ (by simp)
      | true =>
        simp only
        cases body g with
        | raises => exact k _ (by simp)
        | nothing =>
          simp only; split
          · rw [(finish_frame body g _).1, (finish_frame body g _).2.1]; exact k _ (by simp)
          · exact k _ (by simp)
        | cleanup r =>
          simp only; split
          · rw [(finish_frame body g _).1, (finish_frame body g _).2.1]; exact k _ (by simp)
          · exact k _ (by simp)

theorem run_made (body : Nat → Body) (acts : List Act) (s : St) (h : ∀ g, g < s.n → s.pc g ≠ .absent) :
    ∀ g, g < (run body acts s).n → (run body acts s).pc g ≠ .absent := by
  induction acts generalizing s with
  | nil => exact h
  | cons a acts ih => exact ih _ (step_made body s a h)

/-- C25, the unmount does not wait for ever: after the unmount it suffices that every task gets to run
once, in any order, for all of them to be finished, whatever the functions and clean-ups do. -/
theorem C25_terminates (body : Nat → Body) (acts : List Act) (gs : List Nat)
    (hgs : ∀ g, g < (run body acts).n → g ∈ gs) :
    Quiescent (run body (acts ++ .unmount :: gs.map .run)) := by
  have : run body (acts ++ .unmount :: gs.map .run) = run body (gs.map .run) (step body (run body acts) .unmount) := by
    simp [run, List.foldl_append]
  rw [this]
  obtain ⟨_, h2, h3, _⟩ := runAll_finished body gs (step body (run body acts) .unmount) rfl
  intro g hg
  rw [h3] at hg
  exact h2 g (hgs g hg) (run_made body acts {} (by simp) g hg)

example : Quiescent (run (fun _ => .cleanup true) ([.schedule, .run 0, .schedule] ++ .unmount :: [1, 0].map .run)) :=
  C25_terminates _ _ _ (by
    have : (run (fun _ => .cleanup true) [.schedule, .run 0, .schedule]).n = 2 := by decide +kernel
    rw [this]; intro g hg
    match g, hg with
    | 0, _ => simp
    | 1, _ => simp)

/-- C25, not early: while the component is mounted, a clean-up is only called directly before the function of another
generation runs.  (The log is newest first; every moment of every history is the end of a list of actions.) -/
theorem C25_not_early (body : Nat → Body) (hb : ∀ g, body g ≠ .cleanup true) (acts : List Act)
    (hu : (run body acts).unmounted = false) (g : Nat) (l1 l2 : List Ev) (hl : (run body acts).log = l1 ++ .clean g :: l2) :
    ∃ l h b, l1 = l ++ [.body h b] ∧ h ≠ g := by
  obtain ⟨l, y, h1, hy⟩ := run_followed hb acts (s := {}) (fun _ => .nil) hu l1 _ l2 hl trivial
  match y, hy with
  | .body h b, _ =>
    refine ⟨l, h, b, h1, ?_⟩
    rintro rfl
    have hp := (run_inv hb acts inv_init).proper
    rw [hl, h1] at hp
    have drop : ∀ (a : List Ev) (c : List Ev), Proper (a ++ c) → Proper c := by
      intro a c
      induction a with
      | nil => exact id
      | cons e a ih => intro hq; cases e <;> exact ih hq.2.2
    have := drop l _ (by simpa using hp)
    exact this.1 true (List.mem_cons_of_mem _ this.2.2.1)

example : let s := run (fun _ => .cleanup false) [.schedule, .run 0, .schedule, .run 1]
    s.unmounted = false ∧ s.log = [.body 1 true] ++ .clean 0 :: [.body 0 true] := by decide +kernel

/-- An effect that ran three times: two re-renders, the second before the task of the first has begun;
then the unmount. -/
example : let s := run (fun g => if g = 1 then .nothing else .cleanup false) (
      [.schedule, .run 0, .schedule, .schedule, .run 1, .run 2, .unmount, .run 0, .run 1, .run 2])
    s.log = [.clean 2, .body 2 true, .body 1 false, .clean 0, .body 0 true] ∧ s.unmounted = true ∧ s.n = 3 ∧
    s.pc 0 = .finished ∧ s.pc 1 = .finished ∧ s.pc 2 = .finished := by decide +kernel

/-- The unmount before the second task has begun: it runs, and its clean-up too. -/
example : (run (fun _ => .cleanup false) [.schedule, .run 0, .schedule, .unmount, .run 0, .run 1]).log =
    [.clean 1, .body 1 true, .clean 0, .body 0 true] := by decide +kernel

/-- C25 is false of the code when a clean-up raises: it stays in the reference (647–650 clear it only
afterwards), so it is called again, and the next generation's function never runs. -/
theorem C25_violated : ∃ (body : Nat → Body) (acts : List Act),
    let s := run body acts
    s.unmounted = true ∧ Quiescent s ∧ ¬ Proper s.log ∧ s.log.count (.clean 0) = 2 ∧ 1 < s.n ∧
    ∀ b, Ev.body 1 b ∉ s.log := by
  refine ⟨fun _ => .cleanup true, [.schedule, .run 0, .schedule, .run 1, .unmount, .run 0], ?_⟩
  have hl : (run (fun _ => .cleanup true) [.schedule, .run 0, .schedule, .run 1, .unmount, .run 0]).log =
      [.clean 0, .clean 0, .body 0 true] := by decide +kernel
  refine ⟨by decide +kernel, ?_, ?_, ?_, by decide +kernel, ?_⟩
  · intro g hg
    have hn : (run (fun _ => .cleanup true) [.schedule, .run 0, .schedule, .run 1, .unmount, .run 0]).n = 2 := by decide +kernel
    rw [hn] at hg
    match g, hg with
    | 0, _ => decide +kernel
    | 1, _ => decide +kernel
  · rw [hl]; simp [Proper]
  · rw [hl]; decide
  · intro b; rw [hl]; simp

end Sync

namespace Async

def Quiescent (s : St) : Prop := ∀ g, g < s.n → s.pc g = .finished

/-- C27 (partial: "at most once").  However the tasks interleave, shielded or not: a generation's
coroutine begins at most once, ends at most once, its clean-up is called at most once and only after
the coroutine returned it.  Missing: see `C27_orderly_partial` and `C27_violated`. -/
theorem C27_at_most_once_partial (shield : Bool) (acts : List Act) : Sound (run shield acts).log :=
  (run_b shield acts b_init).sound

/-- C27 (partial: schedules in which an effect task only begins when no earlier generation is still
waiting for its coroutine).  Then coroutines never overlap, a coroutine begins only when all clean-ups
of earlier generations have been called, and when the component is unmounted and all tasks have
finished every clean-up returned has been called.  Missing: re-renders while the coroutine of the
previous generation is running, where it is false (`C27_violated`). -/
theorem C27_orderly_partial (shield : Bool) (acts : List Act) (ho : Orderly shield {} acts) :
    let s := run shield acts
    Proper s.log ∧
    (s.unmounted = true → Quiescent s → ∀ g, Ev.ended g (.returned true) ∈ s.log → Ev.clean g ∈ s.log) := by
  intro s
  have h : O s := run_o shield acts o_init ho
  refine ⟨h.proper, fun _ hq g hg => ?_⟩
  have ht := (h.b.ended g _).1 hg
  have hfin : s.pc g = .finished ∨ s.pc g = .absent := by
    by_cases hn : g < s.n
    · exact .inl (hq g hn)
    · exact .inr (h.b.absent g (Nat.le_of_not_lt hn))
  rcases h.open_ g ht with h1 | h1 | h1
  · exact h1
  · have := (h.b.cur g h1).1
    rcases hfin with hf | hf <;> · rw [hf] at this; cases this
  · rcases hfin with hf | hf <;> · rw [hf] at h1; exact h1.elim

/-- A case of `C27_orderly_partial`: two generations, both completed, then the unmount; and one that is
cancelled by the unmount. -/
example : let acts : List Act := [.schedule, .run 0, .finish 0 (.returned true), .run 0, .schedule, .run 1,
      .finish 1 (.returned true), .run 1, .unmount, .run 0, .run 1]
    Orderly false {} acts ∧ (run false acts).log =
      [.clean 1, .ended 1 (.returned true), .began 1, .clean 0, .ended 0 (.returned true), .began 0] := by
  refine ⟨?_, by decide +kernel⟩
  simp [Orderly, step, resume, launch, cleanup, St.at, upd, store, Active]
  refine ⟨fun h => ?_, fun h => ?_⟩
  · by_cases h0 : h = 0 <;> simp [h0]
  · by_cases h0 : h = 0 <;> by_cases h1 : h = 1 <;> simp [h0, h1]

example : (run false [.schedule, .run 0, .unmount, .run 0, .finish 0 .cancelled, .run 0]).log =
    [.ended 0 .cancelled, .began 0] ∧
    (run false [.schedule, .run 0, .unmount, .run 0, .finish 0 .cancelled, .run 0]).pc 0 = .finished := by decide +kernel

/-- The schedule of `C27_violated`: the effect is re-scheduled while its coroutine runs; the coroutine
completes; the new effect task is resumed before the old one.  With asyncio this is the usual order
when the new task is already waiting in `await previous_task`: the completion of a task wakes a task
that awaits it directly, and it wakes the older one through the waiter of `asyncio.wait` (255), one
turn of the event loop later. -/
def lostSchedule : List Act :=
  [.schedule, .run 0, .schedule, .finish 0 (.returned true), .run 1, .run 0,
    .finish 1 (.returned true), .run 1, .unmount, .run 0, .run 1]

/-- As above with the new effect already waiting when the coroutine completes. -/
def lostSchedule' : List Act :=
  [.schedule, .run 0, .schedule, .run 1, .finish 0 (.returned true), .run 1, .run 0,
    .finish 1 (.returned true), .run 1, .unmount, .run 0, .run 1]

/-- C27 is false of the code, shielded or not: the clean-up that generation 0 returned is overwritten
and never called, although the component is unmounted and every task has finished; and it had not been
called when the coroutine of generation 1 began. -/
theorem C27_violated (shield : Bool) : ∀ acts ∈ [lostSchedule, lostSchedule'],
    let s := run shield acts
    s.unmounted = true ∧ Quiescent s ∧ Ev.ended 0 (.returned true) ∈ s.log ∧ Ev.clean 0 ∉ s.log ∧
    ¬ Proper s.log := by
  intro acts ha
  have hn : (run shield acts).n = 2 := by
    simp only [List.mem_cons, List.not_mem_nil, or_false] at ha
    rcases ha with rfl | rfl <;> revert shield <;> decide +kernel
  have hl : (run shield acts).log = [.clean 1, .ended 1 (.returned true), .began 1, .ended 0 (.returned true), .began 0] := by
    simp only [List.mem_cons, List.not_mem_nil, or_false] at ha
    rcases ha with rfl | rfl <;> revert shield <;> decide +kernel
  have hf : (run shield acts).pc 0 = .finished ∧ (run shield acts).pc 1 = .finished ∧ (run shield acts).unmounted = true := by
    simp only [List.mem_cons, List.not_mem_nil, or_false] at ha
    rcases ha with rfl | rfl <;> revert shield <;> decide +kernel
  refine ⟨hf.2.2, ?_, by rw [hl]; simp, by rw [hl]; simp, by rw [hl]; simp [Proper]⟩
  intro g hg
  rw [hn] at hg
  match g, hg with
  | 0, _ => exact hf.1
  | 1, _ => exact hf.2.1

/-- The second part of C27 is false too, shielded or not: when generation 0 is resumed it clears
`pending_task` (262), which by then holds generation 1's task; the next effect task then neither
cancels nor awaits generation 1's coroutine: two coroutines run at the same time. -/
theorem C27_overlap_violated (shield : Bool) : ∃ acts,
    let s := run shield acts
    Ev.began 1 ∈ s.log ∧ Ev.began 2 ∈ s.log ∧ (∀ o, Ev.ended 1 o ∉ s.log) ∧ (∀ o, Ev.ended 2 o ∉ s.log) := by
  refine ⟨[.schedule, .run 0, .schedule, .run 1, .finish 0 (.returned true), .run 1, .run 0, .schedule, .run 2], ?_⟩
  have hl : (run shield [.schedule, .run 0, .schedule, .run 1, .finish 0 (.returned true), .run 1, .run 0, .schedule, .run 2]).log =
      [.began 2, .clean 0, .began 1, .ended 0 (.returned true), .began 0] := by
    revert shield; decide +kernel
  intro s
  have hl' : s.log = _ := hl
  rw [hl']; simp

/-- C27, not early: while the component is mounted, a clean-up is only called directly before the coroutine of
another generation begins. -/
theorem C27_not_early (shield : Bool) (acts : List Act) (hu : (run shield acts).unmounted = false) (g : Nat)
    (l1 l2 : List Ev) (hl : (run shield acts).log = l1 ++ .clean g :: l2) : ∃ l h, l1 = l ++ [.began h] ∧ h ≠ g := by
  obtain ⟨l, y, h1, hy⟩ := (run_e shield acts e_init).followed hu l1 _ l2 hl trivial
  match y, hy with
  | .began h, _ =>
    refine ⟨l, h, h1, ?_⟩
    rintro rfl
    have hp := C27_at_most_once_partial shield acts
    rw [hl, h1] at hp
    have drop : ∀ (a : List Ev) (c : List Ev), Sound (a ++ c) → Sound c := by
      intro a c
      induction a with
      | nil => exact id
      | cons e a ih =>
        intro hq
        cases e with
        | began => exact ih hq.2
        | ended => exact ih hq.2.2
        | clean => exact ih hq.2.2
    have hs := drop l _ (by simpa using hp)
    have : ∀ c : List Ev, Sound c → Ev.ended h (.returned true) ∈ c → Ev.began h ∈ c := by
      intro c
      induction c with
      | nil => simp
      | cons e c ih =>
        intro hc hm
        rcases List.mem_cons.1 hm with rfl | hm
        · exact List.mem_cons_of_mem _ hc.1
        · refine List.mem_cons_of_mem _ (ih ?_ hm)
          cases e with
          | began => exact hc.2
          | ended => exact hc.2.2
          | clean => exact hc.2.2
    exact hs.1 (List.mem_cons_of_mem _ (this l2 hs.2.2.2 hs.2.1))

example (shield : Bool) : let s := run shield [.schedule, .run 0, .finish 0 (.returned true), .run 0, .schedule, .run 1]
    s.unmounted = false ∧ s.log = [.began 1] ++ .clean 0 :: [.ended 0 (.returned true), .began 0] := by
  revert shield; decide +kernel

/-- C27, the effect's task does not end before its coroutine: after the unmount has awaited the tasks, no coroutine is
left running. -/
theorem C27_waits (shield : Bool) (acts : List Act) (g : Nat) (hp : (run shield acts).pc g = .finished)
    (hb : Ev.began g ∈ (run shield acts).log) : ∃ out, Ev.ended g out ∈ (run shield acts).log := by
  have h := run_b shield acts b_init
  have hf := h.fits g
  rw [hp] at hf
  have hf' : _ ∨ _ := hf
  rcases hf' with hf' | ⟨o, hf'⟩
  · exact absurd hf' ((h.began g).1 hb)
  · exact ⟨o, (h.ended g o).2 hf'⟩

example (shield : Bool) : let s := run shield [.schedule, .run 0, .unmount, .run 0, .finish 0 (.returned true), .run 0]
    s.pc 0 = .finished ∧ Ev.began 0 ∈ s.log := by revert shield; decide +kernel

/-! ## C65: cancellation of effect coroutines -/

/-- C65, shielded: the coroutine of a shielded effect is never asked to stop, and never ends cancelled. -/
theorem C65_shielded (acts : List Act) (g : Nat) :
    (run true acts).task g ≠ .running true ∧ Ev.ended g .cancelled ∉ (run true acts).log := by
  have h := run_k true acts b_init (k_init true)
  refine ⟨fun ht => (by cases (h.req g ht).1), fun hm => ?_⟩
  cases h.cancelled g (((run_b true acts b_init).ended g _).1 hm)

/-- C65, not shielded: once the effect of another generation has begun to wait for a coroutine, or the unmount has
been noticed by the effect's own task, the coroutine has ended or has been asked to stop. -/
theorem C65_cancelled (acts : List Act) (g : Nat) :
    ((∃ h, (run false acts).pc h = .awaitPrev g) ∨ (run false acts).pc g = .awaitTask) →
    (run false acts).task g = .running true ∨ ∃ out, Ev.ended g out ∈ (run false acts).log := by
  have h := run_k false acts b_init (k_init false)
  have hb := run_b false acts b_init
  intro hp
  have hn : (run false acts).task g ≠ .none ∧ (run false acts).task g ≠ .running false := by
    rcases hp with ⟨k, hk⟩ | hk
    · exact ⟨(h.prev k g hk).1, (h.prev k g hk).2 rfl⟩
    · have := hb.fits g; rw [hk] at this; exact ⟨this, h.wait rfl g hk⟩
  cases ht : (run false acts).task g with
  | none => exact absurd ht hn.1
  | running r => cases r with
    | true => exact .inl rfl
    | false => exact absurd ht hn.2
  | done o => exact .inr ⟨o, (hb.ended g o).2 ht⟩

/-- C65, not early: a coroutine is only asked to stop when the component has been unmounted or the task of another
generation has begun. -/
theorem C65_not_early (shield : Bool) (acts : List Act) (g : Nat) (ht : (run shield acts).task g = .running true) :
    (run shield acts).unmounted = true ∨
      ∃ h, h ≠ g ∧ (run shield acts).pc h ≠ .absent ∧ (run shield acts).pc h ≠ .created :=
  ((run_k shield acts b_init (k_init shield)).req g ht).2

example : let s := run false [.schedule, .run 0, .schedule, .run 1]
    s.task 0 = .running true ∧ s.pc 1 = .awaitPrev 0 := by decide +kernel
example : let s := run false [.schedule, .run 0, .unmount, .run 0]
    s.task 0 = .running true ∧ s.pc 0 = .awaitTask := by decide +kernel
example : let s := run true [.schedule, .run 0, .schedule, .run 1]
    s.task 0 = .running false ∧ s.pc 1 = .awaitPrev 0 := by decide +kernel

end Async
end Verif.Effects
