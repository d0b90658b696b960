import Verif.Sched.Lemmas
import Verif.Sched.Shape
/-!
# Scheduling without asynchronous rendering (`REACTPY_ASYNC_RENDERING` off)

`Layout._serial_render` (`/repo/src/reactpy/core/layout.py` 198–210) renders one component at a time, taken from
`_rendering_queue` (a `_ThreadSafeQueue`, 838–866: an identifier already pending is not queued again).  Setters may be
called in other threads; there a setter is three steps between which the event loop can go on.

Simplifications: as in `Verif/Sched/Model.lean`; the queue hands over a pending identifier at any time, in order.
-/
namespace Verif.Sched.Serial

/-- Where a setter called in another thread is: it has changed the value and found `_scheduled_render` false
(`_life_cycle_hook.py` 156); it has queued the component (159). -/
inductive Stage where
  | checked (x : Nat)
  | queued (x : Nat)
deriving DecidableEq, Repr

/-- As in `Verif.Sched.St`; `pend`: the pending identifiers, oldest first; `todo`: the components that the render
in progress has still to begin, innermost first; `threads`: the setters in other threads that have not returned.
layout.py 84–97, _life_cycle_hook.py 151–175. -/
structure St where
  val : Nat → Nat := fun _ => 0
  ver : Nat → Nat := fun _ => 0
  flag : Nat → Bool := fun _ => false
  seen : Nat → Option Nat := fun _ => none
  kids : Nat → List Nat := fun _ => []
  mounted : Nat → Bool
  pend : List Nat
  todo : List Nat := []
  threads : List Stage := []
  log : List Ev

/-- `__aenter__` (67–98). -/
def init : St where
  mounted x := x == 0
  pend := [0]
  log := []

/-- The atomic steps of layout.py 198–210, 274–352, 580–583 with the option off, and of setters in other threads. -/
inductive Act where
  | set (x v : Nat)
  | tset (x v : Nat)
  | tput (x : Nat)
  | tmark (x : Nat)
  | pop
  | body (kids : List Nat)
deriving DecidableEq, Repr

/-- `_ThreadSafeQueue.put` (845–848). -/
def put (l : List Nat) (x : Nat) : List Nat := if x ∈ l then l else l ++ [x]

/-- * `set`: a setter called in the thread of the event loop (`hooks.py` 84–88, `_life_cycle_hook.py` 155–164).
* `tset`, `tput`, `tmark`: one called in another thread: changes the value and reads the flag, queues the component
  (159, layout 581–583), sets the flag (164).
* `pop`: `render()` takes the next identifier; a component that is not mounted is ignored (200–210).
* `body`: the next body is run; the flag is cleared first (`_life_cycle_hook.py` 216–221); `kids` are its children; the
  mounted components below other children are unmounted. -/
def step (T : Tree) (s : St) : Act → St
  | .set x v =>
    if s.val x = v then s
    else
      let s := { s with val := upd s.val x v, ver := upd s.ver x (s.ver x + 1), log := .changed x :: s.log }
      if s.flag x then s else { s with pend := put s.pend x, flag := upd s.flag x true }
  | .tset x v =>
    if s.val x = v then s
    else
      let s := { s with val := upd s.val x v, ver := upd s.ver x (s.ver x + 1), log := .changed x :: s.log }
      if s.flag x then s else { s with threads := .checked x :: s.threads }
  | .tput x =>
    if .checked x ∈ s.threads then
      { s with threads := .queued x :: s.threads.erase (.checked x), pend := put s.pend x }
    else s
  | .tmark x =>
    if .queued x ∈ s.threads then { s with threads := s.threads.erase (.queued x), flag := upd s.flag x true } else s
  | .pop =>
    match s.todo, s.pend with
    | [], x :: l => { s with pend := l, todo := if s.mounted x then [x] else [] }
    | _, _ => s
  | .body kids =>
    match s.todo with
    | [] => s
    | y :: r =>
      let kids := kids.filter (fun c => T.par c == some y)
      { s with
        flag := upd s.flag y false
        seen := upd s.seen y (some (s.ver y))
        kids := upd s.kids y kids
        mounted := fun z => (s.mounted z && (z == y || !T.le y z || kids.any (fun c => T.le c z))) || kids.contains z
        todo := kids ++ r
        log := .read 0 y (s.ver y) :: s.log }

/-- Any schedule of the steps (layout.py 69–352). -/
def run (T : Tree) (s : St) (acts : List Act) : St := acts.foldl (step T) s

/-- Steps of the event loop's own thread (specification, no code of /repo). -/
def Act.inLoop : Act → Bool
  | .tset _ _ => false
  | .tput _ => false
  | .tmark _ => false
  | _ => true

/-- A component that is marked or stale is pending, or the render in progress will come to it. (invariant, no code of /repo) -/
def Kept (T : Tree) (s : St) : Prop :=
  s.threads = [] ∧
  (∀ x, s.mounted x = true → s.flag x = true ∨ s.seen x ≠ some (s.ver x) → x ∈ s.pend ∨ ∃ b ∈ s.todo, T.le b x = true) ∧
  (∀ x, upToDate s.log x = true ↔ s.seen x = some (s.ver x)) ∧ ∀ x v, s.seen x = some v → v ≤ s.ver x

theorem mem_put {l : List Nat} {x y : Nat} : y ∈ put l x ↔ y ∈ l ∨ y = x := by
  unfold put
  split
  · constructor
    · exact .inl
    · rintro (h | rfl)
      · exact h
      · assumption
  · simp

theorem kept_init (T : Tree) : Kept T init := by
  refine ⟨rfl, ?_, ?_, ?_⟩
  · intro x hx _; left; simpa [init] using hx
  · intro x; simp [init, upToDate]
  · intro x v h; simp [init] at h

theorem kept_step {T : Tree} {s : St} {a : Act} (h : Kept T s) (ha : a.inLoop = true) : Kept T (step T s a) := by
  obtain ⟨h0, h1, h2, h3⟩ := h
  cases a with
  | tset => simp [Act.inLoop] at ha
  | tput => simp [Act.inLoop] at ha
  | tmark => simp [Act.inLoop] at ha
  | set x v =>
    simp only [step]
    split
    · exact ⟨h0, h1, h2, h3⟩
    · have hseen : ∀ y, upToDate (.changed x :: s.log) y = true ↔ s.seen y = some (upd s.ver x (s.ver x + 1) y) := by
        intro y
        simp only [upToDate, upd_apply]
        by_cases hy : x = y
        · subst hy
          simp only [if_true]
          constructor
          · intro h; cases h
          · intro h; have := h3 x _ h; omega
        · rw [if_neg hy, if_neg (Ne.symm hy)]; exact h2 y
      have hle : ∀ y w, s.seen y = some w → w ≤ upd s.ver x (s.ver x + 1) y := by
        intro y w hw
        have := h3 y w hw
        simp only [upd_apply]
        split
        · subst y; omega
        · exact this
      split
      · rename_i hf
        refine ⟨h0, ?_, hseen, hle⟩
        intro y hm hd
        refine h1 y hm ?_
        simp only at hd hf
        by_cases hy : y = x
        · subst hy; exact .inl hf
        · rw [upd_ne _ _ hy] at hd; exact hd
      · refine ⟨h0, ?_, hseen, hle⟩
        intro y hm hd
        simp only [mem_put]
        by_cases hy : y = x
        · exact .inl (.inr hy)
        · simp only [upd_ne _ _ hy] at hd
          rcases h1 y hm hd with h | h
          · exact .inl (.inl h)
          · exact .inr h
  | pop =>
    simp only [step]
    split
    · rename_i x l htodo hpend
      refine ⟨h0, ?_, h2, h3⟩
      intro y hm hd
      rcases h1 y hm hd with h | ⟨b, hb, _⟩
      · rw [hpend] at h
        rcases List.mem_cons.1 h with rfl | h
        · right
          have : s.mounted y = true := hm
          simp [this, le_refl]
        · exact .inl h
      · rw [htodo] at hb; simp at hb
    · exact ⟨h0, h1, h2, h3⟩
  | body kids =>
    simp only [step]
    split
    · exact ⟨h0, h1, h2, h3⟩
    · rename_i y r htodo
      refine ⟨h0, ?_, ?_, ?_⟩
      · intro x hm hd
        by_cases hxy : x = y
        · subst hxy; simp at hd
        · simp only [upd_ne _ _ hxy] at hd
          simp only [Bool.or_eq_true, Bool.and_eq_true, List.contains_iff_mem] at hm
          rcases hm with ⟨hm, hm2⟩ | hm
          · rcases h1 x hm hd with h | ⟨b, hb, hbx⟩
            · exact .inl h
            · right
              rw [htodo] at hb
              rcases List.mem_cons.1 hb with rfl | hb
              · simp only [beq_iff_eq, List.any_eq_true, Bool.not_eq_true'] at hm2
                rcases hm2 with (hm2 | hm2) | ⟨c, hc, hcx⟩
                · exact absurd hm2 hxy
                · rw [hbx] at hm2; cases hm2
                · exact ⟨c, List.mem_append_left _ hc, hcx⟩
              · exact ⟨b, List.mem_append_right _ hb, hbx⟩
          · exact .inr ⟨x, List.mem_append_left _ hm, le_refl x⟩
      · intro x
        simp only [upToDate, upd_apply]
        by_cases hx : y = x
        · subst hx; simp
        · rw [if_neg hx, if_neg (Ne.symm hx)]; exact h2 x
      · intro x v
        simp only [upd_apply]
        split
        · subst x; intro hv; cases hv; exact Nat.le_refl _
        · exact h3 x v

theorem kept_run {T : Tree} {s : St} (h : Kept T s) (acts : List Act) (ha : ∀ a ∈ acts, a.inLoop = true) : Kept T (run T s acts) := by
  induction acts generalizing s with
  | nil => exact h
  | cons a as ih => exact ih (kept_step h (ha a (by simp))) (fun b hb => ha b (by simp [hb]))

/-- What is in the tree is mounted, or the render in progress will come to a component above it. (invariant, no code of /repo) -/
structure Shape (T : Tree) (s : St) : Prop where
  root : s.mounted 0 = true
  par : ∀ p c, c ∈ s.kids p → T.par c = some p
  held : ∀ p c, s.mounted p = true → c ∈ s.kids p → s.mounted c = true ∨ ∃ b ∈ s.todo, T.le b p = true

theorem shape_init (T : Tree) : Shape T init := ⟨rfl, by simp [init], by simp [init]⟩

theorem shape_step {T : Tree} {s : St} (a : Act) (h : Shape T s) : Shape T (step T s a) := by
  obtain ⟨h1, h2, h3⟩ := h
  cases a with
  | set x v =>
    simp only [step]
    split
    · exact ⟨h1, h2, h3⟩
    · split <;> exact ⟨h1, h2, h3⟩
  | tset x v =>
    simp only [step]
    split
    · exact ⟨h1, h2, h3⟩
    · split <;> exact ⟨h1, h2, h3⟩
  | tput x => simp only [step]; split <;> exact ⟨h1, h2, h3⟩
  | tmark x => simp only [step]; split <;> exact ⟨h1, h2, h3⟩
  | pop =>
    simp only [step]
    split
    · rename_i x l htodo hpend
      refine ⟨h1, h2, fun p c hp hc => ?_⟩
      rcases h3 p c hp hc with h | ⟨b, hb, _⟩
      · exact .inl h
      · rw [htodo] at hb; simp at hb
    · exact ⟨h1, h2, h3⟩
  | body kids =>
    simp only [step]
    split
    · exact ⟨h1, h2, h3⟩
    · rename_i y r htodo
      refine ⟨?_, ?_, ?_⟩
      · simp only [h1, Bool.true_and, Bool.or_eq_true, beq_iff_eq, Bool.not_eq_true']
        by_cases h : T.le y 0 = true
        · exact .inl (.inl (.inl (le_root h).symm))
        · exact .inl (.inl (.inr (by simpa using h)))
      · intro p c
        simp only [upd_apply]
        split
        · subst p; intro hc; simpa using (List.mem_filter.1 hc).2
        · exact h2 p c
      · intro p c hp hc
        by_cases hpy : p = y
        · subst hpy
          simp only [upd_same] at hc
          left
          simp only [Bool.or_eq_true, List.contains_iff_mem]
          exact .inr hc
        · simp only [upd_ne _ _ hpy] at hc
          have hpc := h2 p c hc
          simp only [Bool.or_eq_true, Bool.and_eq_true, List.contains_iff_mem, beq_iff_eq, Bool.not_eq_true', List.any_eq_true] at hp ⊢
          rcases hp with ⟨hm, hk⟩ | hk
          · rcases h3 p c hm hc with h | ⟨b, hb, hbp⟩
            · left; left
              refine ⟨h, ?_⟩
              rcases hk with (hk | hk) | ⟨k, hk, hkp⟩
              · exact absurd hk hpy
              · by_cases hyc : T.le y c = true
                · rcases le_iff.1 hyc with rfl | ⟨q, hq, hyq⟩
                  · exact .inl (.inl rfl)
                  · rw [hpc] at hq; cases hq; rw [hk] at hyq; cases hyq
                · exact .inl (.inr (by simpa using hyc))
              · exact .inr ⟨k, hk, le_iff.2 (.inr ⟨p, hpc, hkp⟩)⟩
            · right
              rw [htodo] at hb
              rcases List.mem_cons.1 hb with rfl | hb
              · rcases hk with (hk | hk) | ⟨k, hk, hkp⟩
                · exact absurd hk hpy
                · rw [hbp] at hk; cases hk
                · exact ⟨k, List.mem_append_left _ hk, hkp⟩
              · exact ⟨b, List.mem_append_right _ hb, hbp⟩
          · exact .inr ⟨p, List.mem_append_left _ hk, le_refl p⟩

theorem shape_run {T : Tree} (acts : List Act) {s : St} (h : Shape T s) : Shape T (run T s acts) := by
  induction acts generalizing s with
  | nil => exact h
  | cons a as ih => exact ih (shape_step a h)

theorem present_mounted {T : Tree} {acts : List Act} (hr : (run T init acts).todo = []) {x : Nat}
    (hx : Present (run T init acts).kids x) : (run T init acts).mounted x = true := by
  have hs := shape_run acts (shape_init T)
  induction hx with
  | root => exact hs.root
  | child _ hc ih =>
    rcases hs.held _ _ ih hc with h | ⟨b, hb, _⟩
    · exact h
    · rw [hr] at hb; simp at hb

end Verif.Sched.Serial
