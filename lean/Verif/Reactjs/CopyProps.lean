import Verif.Reactjs.Copy
/-! # Writing module files: property C46 -/
namespace Verif.Reactjs.Copy

variable {B : Type} [DecidableEq B] {kind : Nat → Kind} {src : Nat → List B}

/-- Inside the lock. -/
def crit : Pc → Bool
  | .locked | .opening | .writing _ | .copied | .retry | .fallback | .moving | .unlinking | .linking | .unlocking _ => true
  | _ => false

/-- What the temporary file and the target hold while a process is at a point. -/
def Local (src : Nat → List B) (s : St B) (p : Nat) : Pc → Prop
  | .writing n => s.temp = some ((src p).take n) ∧ n ≤ (src p).length
  | .copied | .retry => s.temp = some (src p)
  | .unlocking true => s.target = some (src p)
  | .fallback | .moving | .unlinking | .linking | .removing | .truncating | .writingTarget _ => False
  | _ => True

structure Inv (src : Nat → List B) (init : Option (List B)) (s : St B) : Prop where
  one : ∀ p q, crit (s.pc p) = true → crit (s.pc q) = true → p = q
  lock : ∀ p, crit (s.pc p) = true → s.lock = true
  loc : ∀ p, Local src s p (s.pc p)
  target : s.target = init ∨ ∃ p, s.target = some (src p)

omit [DecidableEq B] in
/-- A step that moves one process in the lock, and changes the files as its new place requires. -/
theorem inv_move {init : Option (List B)} {s : St B} (h : Inv src init s) {p : Nat} (hp : crit (s.pc p) = true) (pc : Pc)
    (temp target : Option (List B)) (hl : Local src { s with temp := temp, target := target } p pc)
    (ht : target = init ∨ ∃ p, target = some (src p)) :
    Inv src init { s.set p pc with temp := temp, target := target } := by
  have hno : ∀ q, q ≠ p → crit (s.pc q) = false := by
    intro q hq
    cases hc : crit (s.pc q) with
    | false => rfl
    | true => exact absurd (h.one q p hc hp) hq
  have hpc : ∀ q, ({ s.set p pc with temp := temp, target := target } : St B).pc q = if q = p then pc else s.pc q := fun _ => rfl
  constructor
  · intro q r hq hr
    rw [hpc] at hq hr
    by_cases e : q = p <;> by_cases e' : r = p
    · rw [e, e']
    · rw [if_neg e', hno r e'] at hr; cases hr
    · rw [if_neg e, hno q e] at hq; cases hq
    · rw [if_neg e, hno q e] at hq; cases hq
  · intro q _; exact h.lock p hp
  · intro q
    rw [hpc]
    by_cases e : q = p
    · rw [if_pos e, e]; revert hl; cases pc <;> first | exact id | (rename_i b; cases b <;> exact id)
    · rw [if_neg e]
      have := hno q e
      have hloc := h.loc q
      revert this hloc
      cases s.pc q <;> simp [crit, Local]
  · exact ht

omit [DecidableEq B] in
theorem local_out {s s' : St B} {p : Nat} {pc : Pc} (hc : crit pc = false) (h : Local src s p pc) : Local src s' p pc := by
  revert hc h
  cases pc <;> simp [crit, Local]

theorem inv_next {init : Option (List B)} {s : St B} (h : Inv src init s) (hk : ∀ p, kind p = .copy) (p : Nat) (ok : Bool)
    (hok : s.pc p = .retry → ok = true) : Inv src init (next kind src s p ok) := by
  have hloc := h.loc p
  have mv := fun (hp : crit (s.pc p) = true) (pc : Pc) (hl : Local src s p pc) => inv_move h hp pc s.temp s.target hl h.target
  simp only [next]
  cases hpc : s.pc p with
  | start =>
    simp only [hk]
    by_cases hlk : s.lock = true
    · rw [if_pos hlk]; exact h
    · rw [if_neg hlk]
      have hno : ∀ q, crit (s.pc q) = false := by
        intro q
        cases hc : crit (s.pc q) with
        | false => rfl
        | true => exact absurd (h.lock q hc) hlk
      have hpc' : ∀ q, ({ s.set p .locked with lock := true } : St B).pc q = if q = p then .locked else s.pc q := fun _ => rfl
      refine ⟨?_, fun _ _ => rfl, ?_, h.target⟩
      · intro q r hq hr
        rw [hpc'] at hq hr
        by_cases e : q = p <;> by_cases e' : r = p
        · rw [e, e']
        · rw [if_neg e', hno r] at hr; cases hr
        · rw [if_neg e, hno q] at hq; cases hq
        · rw [if_neg e, hno q] at hq; cases hq
      · intro q
        rw [hpc']
        split
        · trivial
        · exact local_out (hno q) (h.loc q)
  | locked =>
    have hp : crit (s.pc p) = true := by rw [hpc]; rfl
    simp only [hk]
    split
    · exact mv hp _ trivial
    · split
      · rename_i ht; exact mv hp _ ht
      · exact mv hp _ trivial
  | opening =>
    have hp : crit (s.pc p) = true := by rw [hpc]; rfl
    simp only []
    split
    · exact inv_move h hp (.writing 0) (some []) s.target ⟨by simp, by omega⟩ h.target
    · exact mv hp _ trivial
  | writing n =>
    have hp : crit (s.pc p) = true := by rw [hpc]; rfl
    rw [hpc] at hloc
    obtain ⟨h1, h2⟩ := hloc
    simp only []
    split
    · exact mv hp _ trivial
    · split
      · rename_i hn
        exact inv_move h hp (.writing (n + 1)) (some ((src p).take (n + 1))) s.target ⟨rfl, hn⟩ h.target
      · rename_i hn
        refine mv hp .copied ?_
        show s.temp = _
        rw [h1, List.take_of_length_le (by omega)]
  | copied =>
    have hp : crit (s.pc p) = true := by rw [hpc]; rfl
    rw [hpc] at hloc
    simp only []
    split
    · exact inv_move h hp (.unlocking true) none s.temp hloc (.inr ⟨p, hloc⟩)
    · exact mv hp _ hloc
  | retry =>
    have hp : crit (s.pc p) = true := by rw [hpc]; rfl
    rw [hpc] at hloc
    simp only [hok hpc, if_true]
    exact inv_move h hp (.unlocking true) none s.temp hloc (.inr ⟨p, hloc⟩)
  | fallback => rw [hpc] at hloc; exact absurd hloc id
  | moving => rw [hpc] at hloc; exact absurd hloc id
  | unlinking => rw [hpc] at hloc; exact absurd hloc id
  | linking => rw [hpc] at hloc; exact absurd hloc id
  | removing => rw [hpc] at hloc; exact absurd hloc id
  | truncating => rw [hpc] at hloc; exact absurd hloc id
  | writingTarget n => rw [hpc] at hloc; exact absurd hloc id
  | unlocking r =>
    have hp : crit (s.pc p) = true := by rw [hpc]; rfl
    have hno : ∀ q, crit (if q = p then .done r else s.pc q) = false := by
      intro q
      by_cases e : q = p
      · rw [if_pos e]; rfl
      · rw [if_neg e]
        cases hc : crit (s.pc q) with
        | false => rfl
        | true => exact absurd (h.one q p hc hp) e
    refine ⟨fun q _ hq => ?_, fun q hq => ?_, fun q => ?_, h.target⟩
    · have hq' : crit (if q = p then .done r else s.pc q) = true := hq
      rw [hno q] at hq'; cases hq'
    · have hq' : crit (if q = p then .done r else s.pc q) = true := hq
      rw [hno q] at hq'; cases hq'
    · show Local src _ q (if q = p then .done r else s.pc q)
      by_cases e : q = p
      · rw [if_pos e]; trivial
      · rw [if_neg e]
        have := hno q
        rw [if_neg e] at this
        exact local_out this (h.loc q)
  | done r =>
    refine ⟨fun q r hq hr => ?_, fun q hq => ?_, fun q => ?_, h.target⟩
    · have hq' : crit (if q = p then .start else s.pc q) = true := hq
      have hr' : crit (if r = p then .start else s.pc r) = true := hr
      by_cases e : q = p
      · rw [if_pos e] at hq'; cases hq'
      · by_cases e' : r = p
        · rw [if_pos e'] at hr'; cases hr'
        · rw [if_neg e] at hq'; rw [if_neg e'] at hr'; exact h.one q r hq' hr'
    · have hq' : crit (if q = p then .start else s.pc q) = true := hq
      by_cases e : q = p
      · rw [if_pos e] at hq'; cases hq'
      · rw [if_neg e] at hq'; exact h.lock q hq'
    · show Local src _ q (if q = p then .start else s.pc q)
      by_cases e : q = p
      · rw [if_pos e]; trivial
      · rw [if_neg e]; have := h.loc q; revert this; cases s.pc q <;> exact id
  | crashed => exact h

omit [DecidableEq B] in
theorem inv_crash {init : Option (List B)} {s : St B} (h : Inv src init s) (p : Nat) : Inv src init (s.set p .crashed) := by
  refine ⟨fun q r hq hr => ?_, fun q hq => ?_, fun q => ?_, h.target⟩
  · have hq' : crit (if q = p then .crashed else s.pc q) = true := hq
    have hr' : crit (if r = p then .crashed else s.pc r) = true := hr
    by_cases e : q = p
    · rw [if_pos e] at hq'; cases hq'
    · by_cases e' : r = p
      · rw [if_pos e'] at hr'; cases hr'
      · rw [if_neg e] at hq'; rw [if_neg e'] at hr'; exact h.one q r hq' hr'
  · have hq' : crit (if q = p then .crashed else s.pc q) = true := hq
    by_cases e : q = p
    · rw [if_pos e] at hq'; cases hq'
    · rw [if_neg e] at hq'; exact h.lock q hq'
  · show Local src _ q (if q = p then .crashed else s.pc q)
    by_cases e : q = p
    · rw [if_pos e]; trivial
    · rw [if_neg e]; have := h.loc q; revert this; cases s.pc q <;> exact id

/-- Specification: no second attempt to replace the file fails (it does not where files can be replaced while they are open,
that is everywhere but on Windows). -/
def Replaces (kind : Nat → Kind) (src : Nat → List B) : St B → List Op → Prop
  | _, [] => True
  | s, op :: ops => (∀ p, op = .next p false → s.pc p ≠ .retry) ∧ Replaces kind src (step kind src s op) ops

theorem inv_run {init : Option (List B)} (hk : ∀ p, kind p = .copy) : ∀ (ops : List Op) (s : St B), Inv src init s →
    Replaces kind src s ops → Inv src init (run kind src s ops)
  | [], _, h, _ => h
  | op :: ops, s, h, hr => by
    refine inv_run hk ops _ ?_ hr.2
    cases op with
    | next p ok =>
      refine inv_next h hk p ok ?_
      intro hpc
      cases ok with
      | true => rfl
      | false => exact absurd hpc (hr.1 p rfl)
    | crash p => exact inv_crash h p

omit [DecidableEq B] in
theorem inv_init (init : Option (List B)) : Inv src init { target := init } := by
  refine ⟨?_, ?_, ?_, .inl rfl⟩
  · intro p q h; cases h
  · intro p h; cases h
  · intro p; trivial

/-- **C46** (partial: files that are copied, on systems that can replace open files).  At every moment of every interleaving
of any number of processes that install files of the same name, whichever of them fail or are killed at whatever point: the
module file is as it was at first or has the complete contents of one of the sources; in particular it is not missing
unless it was. -/
theorem C46_atomic_partial (hk : ∀ p, kind p = .copy) (init : Option (List B)) (ops : List Op)
    (hr : Replaces kind src { target := init } ops) :
    let s := run kind src { target := init } ops
    (s.target = init ∨ ∃ p, s.target = some (src p)) ∧ (init ≠ none → s.target ≠ none) := by
  have h := (inv_run (src := src) hk ops _ (inv_init init) hr).target
  refine ⟨h, ?_⟩
  intro hi hn
  rcases h with h | ⟨p, h⟩
  · rw [hn] at h; exact hi h.symm
  · rw [show St.target _ = none from hn] at h; cases h

/-- **C46** (partial likewise).  When a process has installed its file and is about to give back the lock, the module file
has its contents. -/
theorem C46_installed_partial (hk : ∀ p, kind p = .copy) (init : Option (List B)) (ops : List Op)
    (hr : Replaces kind src { target := init } ops) (p : Nat) (hp : (run kind src { target := init } ops).pc p = .unlocking true) :
    (run kind src { target := init } ops).target = some (src p) := by
  have h := (inv_run (src := src) hk ops _ (inv_init init) hr).loc p
  rw [hp] at h; exact h

/-- Two processes with two contents. -/
def demoSrc (p : Nat) : List Nat := if p = 0 then [1, 2] else [3]

/-- One process is killed while it writes; the other one waits. -/
example : let s := run (fun _ => .copy) demoSrc { target := some [9] } [.next 0 true, .next 0 true, .next 0 true, .next 1 true, .next 0 true, .crash 0]
    s.target = some [9] ∧ s.temp = some [1] ∧ s.pc 1 = .start := by decide +kernel

/-- One process installs its file. -/
example : let s := run (fun _ => .copy) demoSrc { target := some [9] } [.next 1 true, .next 1 true, .next 1 true, .next 1 true, .next 1 true, .next 1 true]
    s.target = some [3] ∧ s.pc 1 = .unlocking true := by decide +kernel

/-- **C46, violated.**  A file that is replaced by a link is missing for a while; a process killed then leaves it missing. -/
theorem C46_symlink_violated :
    (run (fun _ => .symlink) demoSrc { target := some [9] } [.next 0 true, .next 0 true, .next 0 true, .crash 0]).target = none := by decide +kernel

/-- **C46, violated.**  A module made from a string is removed, then truncated, then written, without a lock: readers see it
missing, empty and incomplete. -/
theorem C46_string_violated :
    (run (fun _ => .string) demoSrc { target := some [9] } [.next 0 true, .next 0 true]).target = none ∧
    (run (fun _ => .string) demoSrc { target := some [9] } [.next 0 true, .next 0 true, .next 0 true]).target = some [] ∧
    (run (fun _ => .string) demoSrc { target := some [9] } [.next 0 true, .next 0 true, .next 0 true, .next 0 true]).target = some [1] := by
  decide +kernel

/-- **C46, violated.**  Two processes that make different modules of the same name from strings can leave neither: both have
finished, and the file has the contents of one cut short by the other. -/
theorem C46_same_string_violated :
    let s := run (fun _ => .string) demoSrc { target := none }
      [.next 0 true, .next 1 true, .next 0 true, .next 0 true, .next 0 true, .next 1 true, .next 0 true, .crash 1]
    s.pc 0 = .done true ∧ s.target = some [] := by decide +kernel

/-- **C46, violated.**  Where an open file cannot be replaced (Windows), the file is removed first. -/
theorem C46_fallback_violated :
    (run (fun _ => .copy) demoSrc { target := some [9] }
      [.next 1 true, .next 1 true, .next 1 true, .next 1 true, .next 1 true, .next 1 false, .next 1 false, .next 1 true, .crash 1]).target = none := by
  decide +kernel

/-! ## Progress -/

/-- Specification: no process is killed and every lock that is given back is given back. -/
def Returns (kind : Nat → Kind) (src : Nat → List B) : St B → List Op → Prop
  | _, [] => True
  | s, op :: ops => (∀ p, op ≠ .crash p) ∧ (∀ p r, op = .next p false → s.pc p ≠ .unlocking r) ∧ Returns kind src (step kind src s op) ops

/-- The lock is held by a process inside it. -/
def Held (s : St B) : Prop := s.lock = true → ∃ p, crit (s.pc p) = true

omit [DecidableEq B] in
/-- A step of a process that stays inside or outside the lock. -/
theorem held_move {s : St B} (h : Held s) {p : Nat} (pc : Pc) (temp target : Option (List B)) (hc : crit pc = crit (s.pc p)) :
    Held { s.set p pc with temp := temp, target := target } := by
  intro hl
  obtain ⟨q, hq⟩ := h hl
  refine ⟨q, ?_⟩
  show crit (if q = p then pc else s.pc q) = true
  split
  · rename_i e; rw [hc, ← e]; exact hq
  · exact hq

theorem held_next {s : St B} (h : Held s) (p : Nat) (ok : Bool) (hok : ∀ r, s.pc p = .unlocking r → ok = true) :
    Held (next kind src s p ok) := by
  have mv := fun (pc : Pc) (temp target : Option (List B)) (hc : crit pc = crit (s.pc p)) => held_move h pc temp target hc
  simp only [next]
  cases hpc : s.pc p with
  | unlocking r =>
    rw [hok r hpc]
    intro hl; cases hl
  | start =>
    rw [hpc] at mv
    simp only []
    split
    · split <;> exact mv _ _ _ rfl
    · split
      · exact h
      · intro _
        exact ⟨p, by show crit (if p = p then Pc.locked else _) = true; rw [if_pos rfl]; rfl⟩
  | locked =>
    rw [hpc] at mv
    simp only []
    split
    · exact mv _ _ _ rfl
    · split
      · exact mv _ _ _ rfl
      · split
        · split <;> exact mv _ _ _ rfl
        · exact mv _ _ _ rfl
  | crashed => exact h
  | done r => rw [hpc] at mv; exact mv _ _ _ rfl
  | writing n =>
    rw [hpc] at mv
    simp only []
    split
    · exact mv _ _ _ rfl
    · split <;> exact mv _ _ _ rfl
  | writingTarget n =>
    rw [hpc] at mv
    simp only []
    split
    · exact mv _ _ _ rfl
    · split <;> exact mv _ _ _ rfl
  | _ => rw [hpc] at mv; simp only []; split <;> exact mv _ _ _ rfl

theorem held_run : ∀ (ops : List Op) (s : St B), Held s → Returns kind src s ops → Held (run kind src s ops)
  | [], _, h, _ => h
  | op :: ops, s, h, hr => by
    refine held_run ops _ ?_ hr.2.2
    cases op with
    | crash p => exact absurd rfl (hr.1 p)
    | next p ok =>
      refine held_next h p ok ?_
      intro r hpc
      cases ok with
      | true => rfl
      | false => exact absurd hpc (hr.2.1 p r rfl)

/-- **C46.**  In every interleaving in which no process is killed and no removal of the lock fails, whichever other calls
fail and however the files are installed: once every process has finished or not begun, the lock is free. -/
theorem C46_lock_returned (init : Option (List B)) (ops : List Op) (hr : Returns kind src { target := init } ops)
    (hp : ∀ p, (run kind src { target := init } ops).pc p = .start ∨ ∃ r, (run kind src { target := init } ops).pc p = .done r) :
    (run kind src { target := init } ops).lock = false := by
  have h := held_run (kind := kind) (src := src) ops { target := init } (fun h => by cases h) hr
  cases hl : (run kind src { target := init } ops).lock with
  | false => rfl
  | true =>
    obtain ⟨p, hc⟩ := h hl
    rcases hp p with e | ⟨r, e⟩ <;> (rw [e] at hc; cases hc)

/-- Two processes that take turns; the first one fails to replace the file once, the second one cannot open its temporary file. -/
example : let ops : List Op := [.next 1 true, .next 0 true, .next 1 true, .next 1 true, .next 1 true, .next 1 true, .next 1 false, .next 1 true, .next 1 true,
      .next 0 true, .next 0 true, .next 0 false, .next 0 true]
    let s := run (fun _ => .copy) demoSrc { target := some [9] } ops
    s.pc 0 = .done false ∧ s.pc 1 = .done true ∧ s.target = some [3] ∧ s.lock = false := by decide +kernel

/-- The calls of one process, all of which succeed, lead from one state to another. -/
def Alone (kind : Nat → Kind) (src : Nat → List B) (p : Nat) (s t : St B) : Prop :=
  ∃ n, run kind src s (List.replicate n (.next p true)) = t

theorem alone_step {p : Nat} {s t u : St B} (h : next kind src s p true = t) (h' : Alone kind src p t u) : Alone kind src p s u := by
  obtain ⟨n, hn⟩ := h'
  refine ⟨n + 1, ?_⟩
  rw [List.replicate_succ]
  show run kind src (next kind src s p true) _ = u
  rw [h]; exact hn

/-- What a process that is through leaves. -/
def Finished (src : Nat → List B) (p : Nat) (s : St B) : Prop := s.pc p = .done true ∧ s.target = some (src p) ∧ s.lock = false

theorem finish_unlocking {p : Nat} {s : St B} (hpc : s.pc p = .unlocking true) (ht : s.target = some (src p)) :
    ∃ t, Alone kind src p s t ∧ Finished src p t := by
  refine ⟨{ s.set p (.done true) with lock := false }, ⟨1, ?_⟩, ?_, ht, rfl⟩
  · show next kind src s p true = _
    simp only [next, hpc, if_true]
  · show (if p = p then _ else _) = _
    rw [if_pos rfl]

theorem finish_step {p : Nat} {s t : St B} (h : next kind src s p true = t) (h' : ∃ u, Alone kind src p t u ∧ Finished src p u) :
    ∃ u, Alone kind src p s u ∧ Finished src p u :=
  h'.elim fun u hu => ⟨u, alone_step h hu.1, hu.2⟩

omit [DecidableEq B] in
theorem set_pc (s : St B) (p : Nat) (pc : Pc) (l : Bool) (t u : Option (List B)) :
    ({ s.set p pc with lock := l, target := t, temp := u } : St B).pc p = pc := if_pos rfl

theorem finish_copied {p : Nat} {s : St B} (hpc : s.pc p = .copied) (ht : s.temp = some (src p)) :
    ∃ u, Alone kind src p s u ∧ Finished src p u := by
  refine finish_step (t := { s.set p (.unlocking true) with target := s.temp, temp := none }) ?_ ?_
  · simp only [next, hpc, if_true]
  · exact finish_unlocking (if_pos rfl) ht

theorem finish_writing {p : Nat} : ∀ (k n : Nat) {s : St B}, s.pc p = .writing n → n + k = (src p).length →
    s.temp = some ((src p).take n) → ∃ u, Alone kind src p s u ∧ Finished src p u
  | 0, n, s, hpc, hk, ht => by
    refine finish_step (t := s.set p .copied) ?_ ?_
    · simp only [next, hpc]
      rw [if_neg (by simp), if_neg (by omega)]
    · refine finish_copied (if_pos rfl) ?_
      show s.temp = _
      rw [ht, List.take_of_length_le (by omega)]
  | k + 1, n, s, hpc, hk, ht => by
    refine finish_step (t := { s.set p (.writing (n + 1)) with temp := some ((src p).take (n + 1)) }) ?_ ?_
    · simp only [next, hpc]
      rw [if_neg (by simp), if_pos (by omega)]
    · exact finish_writing k (n + 1) (if_pos rfl) (by omega) rfl

theorem finish_writingTarget {p : Nat} : ∀ (k n : Nat) {s : St B}, s.pc p = .writingTarget n → n + k = (src p).length →
    s.target = some ((src p).take n) → s.lock = false → ∃ u, Alone kind src p s u ∧ Finished src p u
  | 0, n, s, hpc, hk, ht, hl => by
    refine ⟨s.set p (.done true), ⟨1, ?_⟩, if_pos rfl, ?_, hl⟩
    · show next kind src s p true = _
      simp only [next, hpc]
      rw [if_neg (by simp), if_neg (by omega)]
    · show s.target = _
      rw [ht, List.take_of_length_le (by omega)]
  | k + 1, n, s, hpc, hk, ht, hl => by
    refine finish_step (t := { s.set p (.writingTarget (n + 1)) with target := some ((src p).take (n + 1)) }) ?_ ?_
    · simp only [next, hpc]
      rw [if_neg (by simp), if_pos (by omega)]
    · exact finish_writingTarget k (n + 1) (if_pos rfl) (by omega) rfl hl

theorem finish_truncating {p : Nat} {s : St B} (hpc : s.pc p = .truncating) (hl : s.lock = false) :
    ∃ u, Alone kind src p s u ∧ Finished src p u := by
  refine finish_step (t := { s.set p (.writingTarget 0) with target := some [] }) ?_ ?_
  · simp only [next, hpc, if_true]
  · exact finish_writingTarget (src p).length 0 (if_pos rfl) (by omega) rfl hl

theorem finish_linking {p : Nat} {s : St B} (hpc : s.pc p = .linking) : ∃ u, Alone kind src p s u ∧ Finished src p u := by
  refine finish_step (t := { s.set p (.unlocking true) with target := some (src p) }) ?_ ?_
  · simp only [next, hpc, if_true]
  · exact finish_unlocking (if_pos rfl) rfl

/-- **C46.**  Whatever the files are and however the file is installed: a process that begins while the lock is free, runs
without interruption and meets no error installs its contents and leaves the lock free. -/
theorem C46_installs (p : Nat) (s : St B) (hpc : s.pc p = .start) (hl : s.lock = false) :
    ∃ n, let t := run kind src s (List.replicate n (.next p true))
      t.pc p = .done true ∧ t.target = some (src p) ∧ t.lock = false := by
  suffices h : ∃ u, Alone kind src p s u ∧ Finished src p u by
    obtain ⟨u, ⟨n, hn⟩, hu⟩ := h
    exact ⟨n, by rw [hn]; exact hu⟩
  have locked : kind p ≠ .string → ∃ u, Alone kind src p s u ∧ Finished src p u := by
    intro hk
    refine finish_step (t := { s.set p .locked with lock := true }) ?_ ?_
    · simp only [next, hpc, hl]
      cases hkp : kind p with
      | string => exact absurd hkp hk
      | copy => rfl
      | symlink => rfl
    · by_cases ht : s.target = some (src p)
      · refine finish_step (t := { s.set p (.unlocking true) with lock := true, pc := fun q => if q = p then .unlocking true else if q = p then .locked else s.pc q }) ?_ ?_
        · simp only [next, St.set, if_true]
          rw [if_neg (by simp)]; exact if_pos ht
        · exact finish_unlocking (if_pos rfl) ht
      · cases hkp : kind p with
        | string => exact absurd hkp hk
        | copy =>
          refine finish_step (t := { s.set p .locked with lock := true, pc := fun q => if q = p then .opening else if q = p then .locked else s.pc q }) ?_ ?_
          · simp only [next, St.set, if_true]
            rw [if_neg (by simp)]; refine (if_neg ht).trans ?_; simp only [hkp]
          · refine finish_step rfl ?_
            simp only [next, if_true]
            exact finish_writing (src p).length 0 (if_pos rfl) (by omega) rfl
        | symlink =>
          by_cases hn : s.target = none
          · refine finish_step (t := { s.set p .locked with lock := true, pc := fun q => if q = p then .linking else if q = p then .locked else s.pc q }) ?_ ?_
            · simp only [next, St.set, if_true]
              rw [if_neg (by simp)]; refine (if_neg ht).trans ?_; simp only [hkp, hn, if_true]
            · exact finish_linking (if_pos rfl)
          · refine finish_step (t := { s.set p .locked with lock := true, pc := fun q => if q = p then .unlinking else if q = p then .locked else s.pc q }) ?_ ?_
            · simp only [next, St.set, if_true]
              rw [if_neg (by simp)]; refine (if_neg ht).trans ?_; simp only [hkp]; exact if_neg hn
            · refine finish_step rfl ?_
              simp only [next, if_true]
              exact finish_linking (if_pos rfl)
  cases hk : kind p with
  | copy => exact locked (by rw [hk]; simp)
  | symlink => exact locked (by rw [hk]; simp)
  | string =>
    by_cases ht : s.target ≠ none ∧ s.target ≠ some (src p)
    · refine finish_step (t := s.set p .removing) ?_ ?_
      · simp only [next, hpc, hk]; rw [if_pos ht]
      · refine finish_step (t := { s.set p .truncating with target := none }) ?_ ?_
        · simp only [next, St.set, if_true, St.mk.injEq, true_and]
          funext q; by_cases e : q = p <;> simp [e]
        · exact finish_truncating (if_pos rfl) hl
    · refine finish_step (t := s.set p .truncating) ?_ ?_
      · simp only [next, hpc, hk]; rw [if_neg ht]
      · exact finish_truncating (if_pos rfl) hl

/-- Such a state, after another process was killed while it copied and its lock was removed. -/
example : let s : St Nat := { run (fun _ => .copy) demoSrc { target := some [9] } [.next 0 true, .next 0 true, .next 0 true, .next 0 true, .crash 0] with lock := false }
    s.pc 1 = .start ∧ s.lock = false ∧ s.temp = some [1] := by decide +kernel

end Verif.Reactjs.Copy
