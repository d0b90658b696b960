import Verif.Reactjs.Lock
/-! # The lock of module files: property C45 -/
namespace Verif.Reactjs.Lock

theorem set_phase (s : St) (p q : Nat) (ph : Phase) : (s.set p ph).phase q = if q = p then ph else s.phase q := rfl

/-- The invariant: the process inside is one, and the file is there. -/
def Inv (s : St) : Prop := (∀ p, s.phase p = .inside → s.file = true) ∧ ∀ p q, s.phase p = .inside → s.phase q = .inside → p = q

theorem inv_set {s : St} (h : Inv s) (p : Nat) {ph : Phase} (hp : ph ≠ .inside) : Inv (s.set p ph) := by
  constructor
  · intro q hq
    rw [set_phase] at hq
    by_cases e : q = p
    · rw [if_pos e] at hq; exact absurd hq hp
    · rw [if_neg e] at hq; exact h.1 q hq
  · intro q r hq hr
    rw [set_phase] at hq hr
    by_cases e : q = p
    · rw [if_pos e] at hq; exact absurd hq hp
    · rw [if_neg e] at hq
      by_cases e' : r = p
      · rw [if_pos e'] at hr; exact absurd hr hp
      · rw [if_neg e'] at hr; exact h.2 q r hq hr

theorem inv_step {s : St} (h : Inv s) (op : Op) : Inv (step s op) := by
  cases op with
  | enter p =>
    simp only [step]
    split <;> first | exact inv_set h p (by decide) | exact h
  | attempt p t =>
    simp only [step]
    split
    · rename_i hw
      by_cases hc : (s.dir && !s.file) = true
      · rw [if_pos hc]
        have hf : s.file = false := by revert hc; cases s.dir <;> cases s.file <;> simp
        have hno : ∀ q, s.phase q ≠ .inside := fun q hq => by rw [h.1 q hq] at hf; cases hf
        refine ⟨fun _ _ => rfl, ?_⟩
        intro q r hq hr
        have hq' : (if q = p then Phase.inside else s.phase q) = .inside := hq
        have hr' : (if r = p then Phase.inside else s.phase r) = .inside := hr
        by_cases e : q = p
        · by_cases e' : r = p
          · rw [e, e']
          · rw [if_neg e'] at hr'; exact absurd hr' (hno r)
        · rw [if_neg e] at hq'; exact absurd hq' (hno q)
      · rw [if_neg hc]
        split
        · exact inv_set h p (by decide)
        · exact h
    · exact h
  | leave p r =>
    simp only [step]
    split
    · rename_i hp
      have hno : ∀ q, (if q = p then Phase.out else s.phase q) ≠ .inside := by
        intro q hq
        by_cases e : q = p
        · rw [if_pos e] at hq; cases hq
        · rw [if_neg e] at hq; exact e (h.2 q p hq hp)
      exact ⟨fun q hq => absurd hq (hno q), fun q r hq => absurd hq (hno q)⟩
    · exact h
  | crash p => exact inv_set h p (by decide)
  | mkdir => exact h

theorem inv_run {s : St} (h : Inv s) (ops : List Op) : Inv (run s ops) := by
  induction ops generalizing s with
  | nil => exact h
  | cons op ops ih => exact ih (inv_step h op)

theorem inv_init (dir : Bool) : Inv { dir := dir } := by
  constructor
  · intro p h; cases h
  · intro p q h; cases h

/-- **C45.**  Whatever any number of processes do, and whichever of them are killed at whatever point: at most one is inside
the lock. -/
theorem C45_exclusive (dir : Bool) (ops : List Op) (p q : Nat) (hp : (run { dir := dir } ops).phase p = .inside)
    (hq : (run { dir := dir } ops).phase q = .inside) : p = q := (inv_run (inv_init dir) ops).2 p q hp hq

/-- Specification: no process is killed, and every lock file that is left is removed. -/
def Orderly (op : Op) : Prop := (∀ p, op ≠ .crash p) ∧ ∀ p, op ≠ .leave p false

/-- In orderly runs the file is there only while a process is inside. -/
theorem held_step {s : St} (h : Inv s) (h' : s.file = true → ∃ p, s.phase p = .inside) (op : Op) (ho : Orderly op) :
    (step s op).file = true → ∃ p, (step s op).phase p = .inside := by
  have keep : ∀ (p : Nat) (ph : Phase), s.phase p ≠ .inside → s.file = true → ∃ q, (s.set p ph).phase q = .inside := by
    intro p ph hp hf
    obtain ⟨q, hq⟩ := h' hf
    refine ⟨q, ?_⟩
    have hne : q ≠ p := by rintro rfl; exact hp hq
    rw [set_phase, if_neg hne]; exact hq
  cases op with
  | enter p =>
    simp only [step]
    split
    · rename_i hp; exact keep p _ (by rw [hp]; decide)
    · rename_i hp; exact keep p _ (by rw [hp]; decide)
    · exact h'
  | attempt p t =>
    simp only [step]
    split
    · rename_i hw
      split
      · intro _; exact ⟨p, by show (if p = p then Phase.inside else _) = _; rw [if_pos rfl]⟩
      · split
        · exact keep p _ (by rw [hw]; decide)
        · exact h'
    · exact h'
  | leave p r =>
    simp only [step]
    split
    · cases r with
      | true => intro hf; cases hf
      | false => exact absurd rfl (ho.2 p)
    · exact h'
  | crash p => exact absurd rfl (ho.1 p)
  | mkdir => exact h'

/-- **C45.**  In every state a process that waits gives up exactly if its time is over and the lock is not free: the directory is missing or the
file is there. -/
theorem C45_timeout (dir : Bool) (ops : List Op) (q : Nat) (hq : (run { dir := dir } ops).phase q = .waiting) (timedOut : Bool) :
    let s := run { dir := dir } ops
    let after := (step s (.attempt q timedOut)).phase q
    (after = .failed ↔ timedOut = true ∧ (s.dir = false ∨ s.file = true)) ∧
    (after = .waiting ↔ timedOut = false ∧ (s.dir = false ∨ s.file = true)) ∧
    (after = .inside ↔ s.dir = true ∧ s.file = false) := by
  intro s after
  have e : after = (step s (.attempt q timedOut)).phase q := rfl
  have hq' : s.phase q = .waiting := hq
  have h : after = if s.dir = true ∧ s.file = false then .inside else if timedOut then .failed else .waiting := by
    rw [e]
    simp only [step, hq']
    cases s.dir <;> cases s.file <;> cases timedOut <;> simp [St.set, hq']
  rw [h]
  cases s.dir <;> cases s.file <;> cases timedOut <;> simp

example : (run { dir := false } [.enter 0, .attempt 0 false, .attempt 0 true]).phase 0 = .failed ∧
    (run { dir := false } [.enter 0, .attempt 0 false, .mkdir, .attempt 0 true]).phase 0 = .inside := by decide +kernel

/-- **C45** (partial: no process is killed).  A process that waits in an existing directory waits for another that is inside;
once that one has left, normally or by an exception, the next attempt succeeds. -/
theorem C45_release_partial (ops : List Op) (ho : ∀ op ∈ ops, Orderly op) (q : Nat)
    (hq : (run { dir := true } ops).phase q = .waiting) (t : Bool) :
    let s := run { dir := true } ops
    (step s (.attempt q t)).phase q = .inside ∨
    ∃ p, s.phase p = .inside ∧ (step (step s (.leave p true)) (.attempt q t)).phase q = .inside := by
  have hdir : ∀ (ops : List Op) (s : St), s.dir = true → (run s ops).dir = true := by
    intro ops
    induction ops with
    | nil => exact fun _ h => h
    | cons op ops ih =>
      intro s h
      refine ih _ ?_
      cases op <;> simp only [step] <;> (try split) <;> (try split) <;> (try split) <;> first | exact h | rfl
  have hheld : ∀ (ops : List Op) (s : St), Inv s → (s.file = true → ∃ p, s.phase p = .inside) → (∀ op ∈ ops, Orderly op) →
      (run s ops).file = true → ∃ p, (run s ops).phase p = .inside := by
    intro ops
    induction ops with
    | nil => exact fun _ _ h _ => h
    | cons op ops ih =>
      intro s hi h ho
      exact ih _ (inv_step hi op) (held_step hi h op (ho op (by simp))) (fun o h => ho o (by simp [h]))
  have hd := hdir ops { dir := true } rfl
  have hf := hheld ops { dir := true } (inv_init true) (by intro h; cases h) ho
  generalize run { dir := true } ops = s at *
  intro s'
  show (step s (.attempt q t)).phase q = .inside ∨
    ∃ p, s.phase p = .inside ∧ (step (step s (.leave p true)) (.attempt q t)).phase q = .inside
  by_cases hfile : s.file = true
  · obtain ⟨p, hp⟩ := hf hfile
    have hne : q ≠ p := by rintro rfl; rw [hq] at hp; cases hp
    refine .inr ⟨p, hp, ?_⟩
    simp [step, hp, St.set, hne, hq, hd]
  · refine .inl ?_
    have hfile : s.file = false := (Bool.not_eq_true _).mp hfile
    simp [step, hq, hd, hfile, St.set]

example : let s := run { dir := true } [.enter 0, .enter 1, .attempt 0 false, .attempt 1 false]
    s.phase 0 = .inside ∧ s.phase 1 = .waiting ∧ (run s [.leave 0 true, .attempt 1 false]).phase 1 = .inside := by decide +kernel

theorem stuck_step {s : St} (hf : s.file = true) (hn : ∀ p, s.phase p ≠ .inside) (op : Op) :
    (step s op).file = true ∧ ∀ p, (step s op).phase p ≠ .inside := by
  have keep : ∀ (p : Nat) (ph : Phase), ph ≠ .inside → (s.set p ph).file = true ∧ ∀ q, (s.set p ph).phase q ≠ .inside := by
    intro p ph hph
    refine ⟨hf, fun q => ?_⟩
    rw [set_phase]
    split
    · exact hph
    · exact hn q
  cases op with
  | enter p => simp only [step]; split <;> first | exact keep p _ (by decide) | exact ⟨hf, hn⟩
  | attempt p t =>
    simp only [step, hf]
    split
    · simp only [Bool.not_true, Bool.and_false, Bool.false_eq_true, if_false]
      split
      · exact keep p _ (by decide)
      · exact ⟨hf, hn⟩
    · exact ⟨hf, hn⟩
  | leave p r =>
    simp only [step]
    split
    · rename_i hp; exact absurd hp (hn p)
    · exact ⟨hf, hn⟩
  | crash p => exact keep p _ (by decide)
  | mkdir => exact ⟨hf, hn⟩

/-- **C45, violated.**  Once a process has been killed inside the lock no process ever enters again, however long it waits and
however often it tries: all later uses of the module fail after ten seconds, until somebody removes the file by hand. -/
theorem C45_crash_violated (dir : Bool) (ops ops' : List Op) (p q : Nat) (hp : (run { dir := dir } ops).phase p = .inside) :
    (run { dir := dir } (ops ++ .crash p :: ops')).phase q ≠ .inside := by
  have hi := inv_run (inv_init dir) ops
  have e : run { dir := dir } (ops ++ .crash p :: ops') = run (step (run { dir := dir } ops) (.crash p)) ops' := by
    simp [run, List.foldl_append]
  rw [e]
  have h0 : (step (run { dir := dir } ops) (.crash p)).file = true ∧ ∀ q, (step (run { dir := dir } ops) (.crash p)).phase q ≠ .inside := by
    refine ⟨hi.1 p hp, fun q => ?_⟩
    simp only [step, set_phase]
    split
    · decide
    · rename_i hne; intro h; exact hne (hi.2 q p h hp)
  have key : ∀ (ops' : List Op) (s : St), s.file = true → (∀ q, s.phase q ≠ .inside) → ∀ q, (run s ops').phase q ≠ .inside := by
    intro ops'
    induction ops' with
    | nil => exact fun _ _ h => h
    | cons op ops' ih => exact fun s h1 h2 => ih _ (stuck_step h1 h2 op).1 (stuck_step h1 h2 op).2
  exact key ops' _ h0.1 h0.2 q

example : (run { dir := true } [.enter 0, .attempt 0 false]).phase 0 = .inside := by decide +kernel

/-- **C45, violated.**  The lock file lies beside the module file, whose directory is created only inside the lock
(`copy_file`): for a module name with a new directory in it the lock is free, and yet nobody ever gets it. -/
theorem C45_directory_violated (ops : List Op) (h : Op.mkdir ∉ ops) (q : Nat) : (run { dir := false } ops).phase q ≠ .inside := by
  have key : ∀ (ops : List Op) (s : St), Op.mkdir ∉ ops → s.dir = false → (∀ q, s.phase q ≠ .inside) → ∀ q, (run s ops).phase q ≠ .inside := by
    intro ops
    induction ops with
    | nil => exact fun _ _ _ h => h
    | cons op ops ih =>
      intro s hm hd hn
      simp only [List.mem_cons, not_or] at hm
      have keep : ∀ (p : Nat) (ph : Phase), ph ≠ .inside → (s.set p ph).dir = false ∧ ∀ q, (s.set p ph).phase q ≠ .inside := by
        intro p ph hph
        refine ⟨hd, fun q => ?_⟩
        rw [set_phase]
        split
        · exact hph
        · exact hn q
      have hs : (step s op).dir = false ∧ ∀ q, (step s op).phase q ≠ .inside := by
        cases op with
        | enter p => simp only [step]; split <;> first | exact keep p _ (by decide) | exact ⟨hd, hn⟩
        | attempt p t =>
          simp only [step, hd]
          split
          · simp only [Bool.false_and, Bool.false_eq_true, if_false]
            split
            · exact keep p _ (by decide)
            · exact ⟨hd, hn⟩
          · exact ⟨hd, hn⟩
        | leave p r =>
          simp only [step]
          split
          · rename_i hp; exact absurd hp (hn p)
          · exact ⟨hd, hn⟩
        | crash p => exact keep p _ (by decide)
        | mkdir => exact absurd rfl hm.1
      exact ih _ hm.2 hs.1 hs.2
  exact key ops _ h rfl (by intro q h; cases h) q

example : (run { dir := false } [.enter 0, .attempt 0 false, .attempt 0 true]).phase 0 = .failed := by decide +kernel

end Verif.Reactjs.Lock
