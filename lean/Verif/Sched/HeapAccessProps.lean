import Verif.Sched.HeapAccess
import Verif.Sched.HeapProps
/-!
# C109: renders of one component do not overlap, and do not wait for each other for ever
-/
namespace Verif.Sched.Heap
open Verif.Sched (Tree upd upd_same upd_ne upd_apply)
variable {T : Tree}

/-! ## Specification -/

/-- The calls of the task that are between the beginning of the body of the instance and the end of its render. -/
def inside (s : St) (t i : Nat) : List Frame :=
  (s.tasks t).stack.filter (fun f => f.phase != .waiting && (s.heap f.st).inst == i)

/-- The task has begun and was not ended, though `cancel()` may have been called on it. -/
def Unended (s : St) (t : Nat) : Prop := (s.tasks t).stat = .running ∨ (s.tasks t).stat = .cancelled

/-- The task waits to render an instance that another task is inside of. -/
def WaitsFor (s : St) (t u : Nat) : Prop :=
  ∃ f fs, (s.tasks t).stat = .running ∧ (s.tasks t).stack = f :: fs ∧ f.phase = .waiting ∧ u ≠ t ∧ Unended s u ∧
    inside s u (s.heap f.st).inst ≠ []

/-- One waits for another, that one for a third, and so on. -/
inductive Leads (s : St) : Nat → Nat → Prop where
  | here (t : Nat) : Leads s t t
  | more {t u v : Nat} : WaitsFor s t u → Leads s u v → Leads s t v

/-- The task can go on, whatever the body that it is to run next returns: there is a step of it that is not void. -/
def CanGoOn (T : Tree) (s : St) (t : Nat) : Prop :=
  (step T s (.die t)).tasks t ≠ s.tasks t ∨ (step T s (.grant t)).tasks t ≠ s.tasks t ∨
  (step T s (.next t)).tasks t ≠ s.tasks t ∨ (step T s (.finish t)).tasks t ≠ s.tasks t ∨
  ∃ f fs, (s.tasks t).stack = f :: fs ∧ ∀ kids : List Nat, kids.Nodup → (∀ c ∈ kids, T.par c = some (s.heap f.st).pos) →
    (step T s (.body t kids)).tasks t ≠ s.tasks t

/-! ## Theorems -/

theorem inside_mem {s : St} {t i : Nat} {f : Frame} : f ∈ inside s t i ↔ f ∈ (s.tasks t).stack ∧ f.phase ≠ .waiting ∧ inst s f.st = i := by
  simp [inside, inst]

/-- The instances of the calls of a task are different. -/
theorem inside_le_one {s : St} (h : Base T s) (t i : Nat) : (inside s t i).length ≤ 1 := by
  have key : ∀ l : List Frame, Links T s l → (∀ f ∈ l, f.st < s.nextS) →
      (l.filter (fun f => f.phase != .waiting && (s.heap f.st).inst == i)).length ≤ 1 := by
    intro l
    induction l with
    | nil => intro _ _; simp
    | cons f r ih =>
      intro hl hlt
      have := ih hl.tail (fun g hg => hlt g (by simp [hg]))
      by_cases hf : (f.phase != .waiting && (s.heap f.st).inst == i) = true
      · have : r.filter (fun f => f.phase != .waiting && (s.heap f.st).inst == i) = [] := by
          rw [List.filter_eq_nil_iff]
          intro g hg e
          simp only [Bool.and_eq_true, beq_iff_eq] at e hf
          have h1 := hl.depth g hg
          rw [h.instPos g.st f.st (hlt g (by simp [hg])) (hlt f (by simp)) (e.2.trans hf.2.symm)] at h1
          exact absurd h1 (Nat.lt_irrefl _)
        rw [List.filter_cons_of_pos (p := fun f : Frame => f.phase != .waiting && (s.heap f.st).inst == i) hf, this]; simp
      · rw [List.filter_cons_of_neg (p := fun f : Frame => f.phase != .waiting && (s.heap f.st).inst == i) hf]; exact this
  exact key _ (h.links t) fun f hf => (h.frOk t f hf).st

/-- **C109.**  In every execution, at every time: at most one task is inside a component instance, and it is so only once. -/
theorem C109_exclusive (T : Tree) (acts : List Act) (i : Nat) :
    let s := run T init acts
    (∀ t u, Unended s t → Unended s u → inside s t i ≠ [] → inside s u i ≠ [] → t = u) ∧ ∀ t, (inside s t i).length ≤ 1 := by
  have h := base_run (base_init T) acts
  refine ⟨fun t u ht hu h1 h2 => ?_, fun t => inside_le_one h t i⟩
  obtain ⟨f, hf⟩ := List.exists_mem_of_ne_nil _ h1
  obtain ⟨g, hg⟩ := List.exists_mem_of_ne_nil _ h2
  rw [inside_mem] at hf hg
  have e1 := h.holds t ht f hf.1 hf.2.1
  have e2 := h.holds u hu g hg.1 hg.2.1
  rw [hf.2.2] at e1
  rw [hg.2.2, e1] at e2
  exact Option.some.inj e2

/-- A running task can go on, or waits for another one, which is inside a component. -/
theorem go_or_wait {s : St} (h : Base T s) (t : Nat) (ht : (s.tasks t).stat = .running) :
    CanGoOn T s t ∨ ∃ u f fs, WaitsFor s t u ∧ (s.tasks t).stack = f :: fs ∧ ∃ g ∈ (s.tasks u).stack, g.phase ≠ .waiting ∧ inst s g.st = inst s f.st := by
  obtain ⟨o, d, st, stack, b, hk⟩ : ∃ o d st stack b, s.tasks t = ⟨o, d, st, stack, b⟩ := ⟨_, _, _, _, _, rfl⟩
  rw [hk] at ht
  simp only at ht
  subst ht
  have hne := h.busy t (by rw [hk])
  rw [hk] at hne
  cases stack with
  | nil => exact absurd rfl hne
  | cons f fs =>
    obtain ⟨y, p, q⟩ := f
    cases q with
    | waiting =>
      cases ha : s.access (s.heap y).inst with
      | none =>
        left; right; left
        simp only [step, hk, ha, if_true, St.put, upd_same]
        intro e; simp at e
      | some u =>
        right
        obtain ⟨hl, g, hg, hp, hi⟩ := h.held _ u ha
        refine ⟨u, _, fs, ⟨_, fs, by rw [hk], by rw [hk], rfl, ?_, hl, ?_⟩, by rw [hk], g, hg, hp, hi⟩
        · rintro rfl
          rw [hk] at hg
          rcases List.mem_cons.1 hg with rfl | hg
          · exact hp rfl
          · have hlk := h.links u; rw [hk] at hlk
            have hfr := h.frOk u; rw [hk] at hfr
            have h1 := hlk.depth g hg
            rw [h.instPos g.st y (hfr g (by simp [hg])).st (hfr ⟨y, p, .waiting⟩ (by simp)).st hi] at h1
            exact absurd h1 (Nat.lt_irrefl _)
        · exact List.ne_nil_of_mem (inside_mem.2 ⟨hg, hp, hi⟩)
    | granted =>
      left; right; right; right; right
      refine ⟨_, _, by rw [hk], fun kids hn hc => ?_⟩
      simp only [step, hk]
      rw [if_pos ⟨hn, hc⟩]
      split <;> simp only [St.put, upd_same] <;> intro e <;> simp at e
    | kids l =>
      cases l with
      | nil =>
        left; right; right; right; left
        simp only [step, hk, St.put, upd_same]
        intro e
        have := congrArg (fun k => k.stack.length) e
        simp at this
      | cons c cs =>
        left; right; right; left
        intro e
        have := congrArg (fun k => k.stack.length) e
        simp only [step, hk] at this
        have key : ∀ s' x i par old, (s'.tasks t).stack.length = fs.length + 1 → ((enter s' t x i par old).tasks t).stack.length = fs.length + 2 := by
          intro s' x i par old hs'
          have hp : ((push s' t x i par old).tasks t).stack.length = fs.length + 2 := by simp [push, upd_same, hs']
          rw [enter_eq]
          split
          · split
            · exact hp
            · rename_i hne
              simp only [upd_ne _ _ (Ne.symm hne)]; exact hp
          · exact hp
        split at this
        · rw [key _ _ _ _ _ (by simp [St.put, upd_same])] at this; simp at this
        · rw [key _ _ _ _ _ (by simp [St.put, upd_same])] at this; simp at this

/-- **C109.**  In every execution, at every time: a render task that has begun and has not ended can go on, or it waits for a task that can, or
for one that waits for such a task, and so on: the tasks do not all wait for each other. -/
theorem C109_no_deadlock (T : Tree) (acts : List Act) (t : Nat) :
    let s := run T init acts
    Unended s t → ∃ u, Leads s t u ∧ CanGoOn T s u := by
  have h := base_run (base_init T) acts
  generalize run T init acts = s at h
  show Unended s t → _
  intro ht
  -- the number of tasks bounds the depth of the places that are waited for
  obtain ⟨D, hD⟩ : ∃ D, ∀ u, u < s.nextT → ∀ f ∈ (s.tasks u).stack, T.depth (pos s f.st) < D := by
    have key : ∀ n, ∃ D, ∀ u, u < n → ∀ f ∈ (s.tasks u).stack, T.depth (pos s f.st) < D := by
      intro n
      induction n with
      | zero => exact ⟨0, fun u hu => absurd hu (Nat.not_lt_zero _)⟩
      | succ n ih =>
        obtain ⟨D, hD⟩ := ih
        have hl : ∀ l : List Frame, ∃ E, ∀ f ∈ l, T.depth (pos s f.st) < E := by
          intro l
          induction l with
          | nil => exact ⟨0, fun f hf => by cases hf⟩
          | cons a r ih =>
            obtain ⟨E, hE⟩ := ih
            refine ⟨E + T.depth (pos s a.st) + 1, fun f hf => ?_⟩
            rcases List.mem_cons.1 hf with rfl | hf
            · omega
            · have := hE f hf; omega
        obtain ⟨E, hE⟩ := hl (s.tasks n).stack
        refine ⟨D + E, fun u hu f hf => ?_⟩
        by_cases e : u = n
        · subst e; have := hE f hf; omega
        · have := hD u (by omega) f hf; omega
    exact key s.nextT
  have hlt : ∀ u, Unended s u → u < s.nextT := by
    intro u hu
    refine Nat.lt_of_not_le fun e => ?_
    have := (h.fresh u (.inl e)).1
    rcases hu with hu | hu <;> rw [hu] at this <;> cases this
  -- a task that is waited for is deeper in the tree
  have main : ∀ n u, Unended s u → (∀ f fs, (s.tasks u).stack = f :: fs → D ≤ T.depth (pos s f.st) + n) → ∃ v, Leads s u v ∧ CanGoOn T s v := by
    intro n
    induction n with
    | zero =>
      intro u hu hd
      rcases hu with hr | hc
      · exfalso
        cases hs : (s.tasks u).stack with
        | nil => exact h.busy u hr hs
        | cons f fs =>
          have h1 := hd f fs hs
          have h2 := hD u (hlt u (.inl hr)) f (by rw [hs]; simp)
          omega
      · refine ⟨u, .here u, .inl ?_⟩
        simp only [step, if_pos (And.intro (hlt u (.inr hc)) hc), St.put, upd_same]
        intro e
        have := congrArg Task.stat e
        rw [hc] at this; cases this
    | succ n ih =>
      intro u hu hd
      rcases hu with hr | hc
      · rcases go_or_wait h u hr with hg | ⟨v, f, fs, hw, hs, g, hg, hgp, hgi⟩
        · exact ⟨u, .here u, hg⟩
        · have hv : Unended s v := by obtain ⟨_, _, _, _, _, _, hv, _⟩ := hw; exact hv
          have hfl := (h.frOk u f (by rw [hs]; simp)).st
          have hgl := (h.frOk v g hg).st
          have hpos := h.instPos g.st f.st hgl hfl hgi
          rcases hv with hvr | hvc
          · -- `v` can go on, or its first call is deeper
            rcases go_or_wait h v hvr with hgo | ⟨w, f', fs', hw', hs', _⟩
            · exact ⟨v, .more hw (.here v), hgo⟩
            · have hlk := h.links v
              rw [hs'] at hlk hg
              have hne : g ∈ fs' := by
                rcases List.mem_cons.1 hg with rfl | hg
                · obtain ⟨f2, fs2, _, e2, hph, _⟩ := hw'
                  rw [hs'] at e2; cases e2
                  exact absurd hph hgp
                · exact hg
              have hdep := hlk.depth g hne
              obtain ⟨x, hx, hx2⟩ := ih v (.inl hvr) (fun a as e => by
                rw [hs'] at e; cases e
                have := hd f fs hs
                rw [← hpos] at this
                omega)
              exact ⟨x, .more hw hx, hx2⟩
          · refine ⟨v, .more hw (.here v), .inl ?_⟩
            simp only [step, if_pos (And.intro (hlt v (.inr hvc)) hvc), St.put, upd_same]
            intro e
            have := congrArg Task.stat e
            rw [hvc] at this; cases this
      · refine ⟨u, .here u, .inl ?_⟩
        simp only [step, if_pos (And.intro (hlt u (.inr hc)) hc), St.put, upd_same]
        intro e
        have := congrArg Task.stat e
        rw [hc] at this; cases this
  exact main D t ht fun f fs _ => by omega

/-- In the execution `lost`, tasks 2 and 3 wait for task 1, which is inside of the instances 1 and 2 and was told to end. -/
example : let s := run bush init (lost.take 35)
    Unended s 1 ∧ Unended s 2 ∧ Unended s 3 ∧ inside s 1 1 ≠ [] ∧ inside s 1 2 ≠ [] ∧ WaitsFor s 2 1 ∧ WaitsFor s 3 1 := by
  refine ⟨.inr (by decide +kernel), .inl (by decide +kernel), .inl (by decide +kernel), by decide +kernel, by decide +kernel,
    ⟨((run bush init (lost.take 35)).tasks 2).stack.head (by decide +kernel), ((run bush init (lost.take 35)).tasks 2).stack.tail,
      by decide +kernel, by decide +kernel, by decide +kernel, by decide, .inr (by decide +kernel), by decide +kernel⟩,
    ⟨((run bush init (lost.take 35)).tasks 3).stack.head (by decide +kernel), ((run bush init (lost.take 35)).tasks 3).stack.tail,
      by decide +kernel, by decide +kernel, by decide +kernel, by decide, .inr (by decide +kernel), by decide +kernel⟩⟩

end Verif.Sched.Heap
