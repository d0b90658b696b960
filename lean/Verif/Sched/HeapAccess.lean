import Verif.Sched.HeapLemmas
/-! # Who is inside a component (helper lemmas for C109)

These invariants hold in every execution, calm or not. -/
namespace Verif.Sched.Heap
open Verif.Sched (Tree upd upd_same upd_ne upd_apply)
variable {T : Tree}

/-- Each call was made by the one after it, for a child of its component. -/
def Links (T : Tree) (s : St) : List Frame → Prop
  | [] => True
  | [_] => True
  | f :: g :: r => T.par (pos s f.st) = some (pos s g.st) ∧ (∃ l, g.phase = .kids l) ∧ Links T s (g :: r)

structure FrOk (T : Tree) (s : St) (f : Frame) : Prop where
  st : f.st < s.nextS
  old : ∀ o, f.old = some o → o < s.nextS
  kids : ∀ l, f.phase = .kids l → ∀ c ∈ l, T.par c = some (pos s f.st)

/-- The task has begun and has not ended, though `cancel()` may have been called on it. -/
def Live (k : Task) : Prop := k.stat = .running ∨ k.stat = .cancelled

structure Base (T : Tree) (s : St) : Prop where
  instLt : ∀ σ, σ < s.nextS → inst s σ < s.nextI
  instPos : ∀ σ τ, σ < s.nextS → τ < s.nextS → inst s σ = inst s τ → pos s σ = pos s τ
  kidOk : ∀ σ e, e ∈ (s.heap σ).kids → e.2 < s.nextS ∧ pos s e.2 = e.1
  regLt : ∀ i σ, s.reg i = some σ → σ < s.nextS
  byIdLt : ∀ i t, s.byId i = some t → t < s.nextT
  oldLt : ∀ t, (s.tasks t).old < s.nextS
  frOk : ∀ t, ∀ f ∈ (s.tasks t).stack, FrOk T s f
  links : ∀ t, Links T s (s.tasks t).stack
  fresh : ∀ t, s.nextT ≤ t ∨ (s.tasks t).stat = .created → (s.tasks t).stat = .created ∧ (s.tasks t).stack = []
  busy : ∀ t, (s.tasks t).stat = .running → (s.tasks t).stack ≠ []
  holds : ∀ t, Live (s.tasks t) → ∀ f ∈ (s.tasks t).stack, f.phase ≠ .waiting → s.access (inst s f.st) = some t
  held : ∀ i t, s.access i = some t → Live (s.tasks t) ∧ ∃ f ∈ (s.tasks t).stack, f.phase ≠ .waiting ∧ inst s f.st = i

/-- The states there were have the same place and instance. -/
structure Same (s s' : St) : Prop where
  le : s.nextS ≤ s'.nextS
  pos : ∀ σ, σ < s.nextS → pos s' σ = pos s σ
  inst : ∀ σ, σ < s.nextS → inst s' σ = inst s σ

theorem Links.mono {s s' : St} (h : Same s s') : ∀ {l : List Frame}, (∀ f ∈ l, f.st < s.nextS) → Links T s l → Links T s' l
  | [], _, _ => trivial
  | [_], _, _ => trivial
  | f :: g :: r, hl, hk => by
    refine ⟨?_, hk.2.1, Links.mono h (fun e he => hl e (by simp [he])) hk.2.2⟩
    rw [h.pos _ (hl f (by simp)), h.pos _ (hl g (by simp))]; exact hk.1

theorem FrOk.mono {s s' : St} (h : Same s s') {f : Frame} (hf : FrOk T s f) : FrOk T s' f :=
  ⟨Nat.lt_of_lt_of_le hf.st h.le, fun o ho => Nat.lt_of_lt_of_le (hf.old o ho) h.le,
    fun l hl c hc => by rw [h.pos _ hf.st]; exact hf.kids l hl c hc⟩

theorem Links.depth {s : St} : ∀ {f : Frame} {r : List Frame}, Links T s (f :: r) → ∀ g ∈ r, T.depth (pos s g.st) < T.depth (pos s f.st)
  | _, [], _, _, h => by simp at h
  | f, g :: r, h, e, he => by
    have h1 := T.depth_par _ _ h.1
    rcases List.mem_cons.1 he with rfl | he
    · omega
    · have := Links.depth h.2.2 e he
      omega

theorem Links.tail {s : St} {f : Frame} : ∀ {r : List Frame}, Links T s (f :: r) → Links T s r
  | [], _ => trivial
  | _ :: _, h => h.2.2

theorem Links.outer {s : St} : ∀ {f : Frame} {r : List Frame}, Links T s (f :: r) → ∀ g ∈ r, ∃ l, g.phase = .kids l
  | _, [], _, _, h => by simp at h
  | _, g :: r, h, e, he => by
    rcases List.mem_cons.1 he with rfl | he
    · exact h.2.1
    · exact Links.outer h.2.2 e he

/-- Only the first call of the list is in another phase. -/
theorem Links.phase {s : St} {f : Frame} {r : List Frame} (p : Phase) (h : Links T s (f :: r)) : Links T s ({ f with phase := p } :: r) := by
  cases r with
  | nil => trivial
  | cons g r => exact h

theorem base_init (T : Tree) : Base T init := by
  refine ⟨?_, ?_, ?_, ?_, ?_, ?_, ?_, ?_, ?_, ?_, ?_, ?_⟩ <;> simp [init, Links, Live, upd_apply] <;> omega

/-- The first four parts of `Base`. -/
structure Cells (s : St) : Prop where
  instLt : ∀ σ, σ < s.nextS → inst s σ < s.nextI
  instPos : ∀ σ τ, σ < s.nextS → τ < s.nextS → inst s σ = inst s τ → pos s σ = pos s τ
  kidOk : ∀ σ e, e ∈ (s.heap σ).kids → e.2 < s.nextS ∧ pos s e.2 = e.1
  regLt : ∀ i σ, s.reg i = some σ → σ < s.nextS

theorem Base.cells {s : St} (h : Base T s) : Cells s := ⟨h.instLt, h.instPos, h.kidOk, h.regLt⟩

/-- A step of task `t`. -/
theorem base_task {s s' : St} {t : Nat} (h : Base T s) (hs : Same s s') (hc : Cells s') (hn : s'.nextT = s.nextT)
    (hb : ∀ i u, s'.byId i = some u → s.byId i = some u) (ho : ∀ u, u ≠ t → s'.tasks u = s.tasks u) (h1 : (s'.tasks t).old < s'.nextS)
    (h2 : ∀ f ∈ (s'.tasks t).stack, FrOk T s' f) (h3 : Links T s' (s'.tasks t).stack)
    (h4 : s.nextT ≤ t ∨ (s'.tasks t).stat = .created → (s'.tasks t).stat = .created ∧ (s'.tasks t).stack = [])
    (h5 : (s'.tasks t).stat = .running → (s'.tasks t).stack ≠ [])
    (h6 : Live (s'.tasks t) → ∀ f ∈ (s'.tasks t).stack, f.phase ≠ .waiting → s'.access (inst s' f.st) = some t)
    (h7 : ∀ i u, u ≠ t → (s'.access i = some u ↔ s.access i = some u))
    (h8 : ∀ i, s'.access i = some t → Live (s'.tasks t) ∧ ∃ f ∈ (s'.tasks t).stack, f.phase ≠ .waiting ∧ inst s' f.st = i) : Base T s' := by
  refine ⟨hc.instLt, hc.instPos, hc.kidOk, hc.regLt, fun i u e => hn ▸ h.byIdLt i u (hb i u e), fun u => ?_, fun u => ?_, fun u => ?_, fun u => ?_, fun u => ?_, fun u => ?_, fun i u => ?_⟩
  · by_cases hu : u = t
    · rw [hu]; exact h1
    · rw [ho u hu]; exact Nat.lt_of_lt_of_le (h.oldLt u) hs.le
  · by_cases hu : u = t
    · rw [hu]; exact h2
    · rw [ho u hu]; exact fun f hf => (h.frOk u f hf).mono hs
  · by_cases hu : u = t
    · rw [hu]; exact h3
    · rw [ho u hu]; exact (h.links u).mono hs fun f hf => (h.frOk u f hf).st
  · by_cases hu : u = t
    · rw [hu, hn]; exact h4
    · rw [ho u hu, hn]; exact h.fresh u
  · by_cases hu : u = t
    · rw [hu]; exact h5
    · rw [ho u hu]; exact h.busy u
  · by_cases hu : u = t
    · rw [hu]; exact h6
    · rw [ho u hu]
      intro hl f hf hp
      rw [h7 _ u hu, hs.inst _ (h.frOk u f hf).st]
      exact h.holds u hl f hf hp
  · by_cases hu : u = t
    · rw [hu]; exact h8 i
    · rw [ho u hu, h7 i u hu]
      intro ha
      obtain ⟨hl, f, hf, hp, hi⟩ := h.held i u ha
      exact ⟨hl, f, hf, hp, by rw [hs.inst _ (h.frOk u f hf).st]; exact hi⟩

theorem Same.of_eq {s s' : St} (h : s'.heap = s.heap) (hn : s'.nextS = s.nextS) : Same s s' :=
  ⟨Nat.le_of_eq hn.symm, fun σ _ => by show (s'.heap σ).pos = _; rw [h], fun σ _ => by show (s'.heap σ).inst = _; rw [h]⟩

/-- Steps that change neither model states nor tasks. -/
theorem base_same {s s' : St} (h : Base T s) (h1 : s'.heap = s.heap) (h2 : s'.nextS = s.nextS) (h3 : s'.nextI = s.nextI) (h4 : s'.reg = s.reg)
    (h5 : s'.byId = s.byId) (h6 : s'.nextT = s.nextT) (h7 : s'.tasks = s.tasks) (h8 : s'.access = s.access) : Base T s' := by
  have hs : Same s s' := .of_eq h1 h2
  obtain ⟨a1, a2, a3, a4, a5, a6, a7, a8, a9, a10, a11, a12⟩ := h
  refine ⟨?_, ?_, ?_, ?_, ?_, ?_, ?_, ?_, ?_, ?_, ?_, ?_⟩
  all_goals simp only [inst, pos, h1, h2, h3, h4, h5, h6, h7, h8]
  any_goals assumption
  · exact fun t f hf => (a7 t f hf).mono hs
  · exact fun t => (a8 t).mono hs fun f hf => (a7 t f hf).st

theorem Cells.of_eq {s s' : St} (hc : Cells s) (h : s'.heap = s.heap) (hn : s'.nextS = s.nextS) (hi : s'.nextI = s.nextI)
    (hr : ∀ i σ, s'.reg i = some σ → s.reg i = some σ) : Cells s' := by
  obtain ⟨h1, h2, h3, h4⟩ := hc
  unfold inst at h1 h2
  unfold pos at h2 h3
  refine ⟨?_, ?_, ?_, ?_⟩
  · unfold inst; rw [h, hn, hi]; exact h1
  · unfold inst pos; rw [h, hn]; exact h2
  · unfold pos; rw [h, hn]; exact h3
  · rw [hn]; exact fun i σ e => h4 i σ (hr i σ e)

/-- `enter` before it cancels anything. -/
def push (s : St) (t x i : Nat) (par old : Option Nat) : St := { s with
    heap := upd s.heap s.nextS { pos := x, inst := i, parent := par, kids := [] }
    nextS := s.nextS + 1
    reg := upd s.reg i (some s.nextS)
    tasks := upd s.tasks t { s.tasks t with stack := { st := s.nextS, old := old, phase := .waiting } :: (s.tasks t).stack } }

theorem enter_eq (s : St) (t x i : Nat) (par old : Option Nat) : enter s t x i par old =
    match (push s t x i par old).byId i with
    | some t' => if t' = t then push s t x i par old
      else { push s t x i par old with byId := upd (push s t x i par old).byId i none, tasks := upd (push s t x i par old).tasks t' (cancelTask ((push s t x i par old).tasks t')) }
    | none => push s t x i par old := rfl

theorem base_cancel {s : St} {b : Nat → Option Nat} (h : Base T s) (t : Nat) (hft : t < s.nextT)
    (hb : ∀ i u, b i = some u → s.byId i = some u) : Base T { s with byId := b, tasks := upd s.tasks t (cancelTask (s.tasks t)) } := by
  have hk : (cancelTask (s.tasks t)).old = (s.tasks t).old ∧ (cancelTask (s.tasks t)).stack = (s.tasks t).stack := by
    unfold cancelTask; split <;> exact ⟨rfl, rfl⟩
  have hlive : Live (s.tasks t) → Live (cancelTask (s.tasks t)) := by
    rintro (e | e) <;> unfold cancelTask <;> rw [e] <;> exact .inr (by first | rfl | exact e)
  have hlive' : Live (cancelTask (s.tasks t)) → Live (s.tasks t) ∨ (s.tasks t).stack = [] := by
    intro hl
    unfold cancelTask at hl
    split at hl
    · rename_i e; exact .inr (h.fresh t (.inr e)).2
    · rename_i e; exact .inl (.inl e)
    · exact .inl hl
  have hs : Same s { s with byId := b, tasks := upd s.tasks t (cancelTask (s.tasks t)) } := .of_eq rfl rfl
  refine base_task (t := t) h hs (h.cells.of_eq rfl rfl rfl fun _ _ e => e) rfl hb (fun u hu => upd_ne _ _ hu) ?_ ?_ ?_ ?_ ?_ ?_ (fun _ _ _ => Iff.rfl) ?_
  all_goals simp only [upd_same, hk.1, hk.2]
  · exact h.oldLt t
  · exact fun f hf => (h.frOk t f hf).mono hs
  · exact (h.links t).mono hs fun f hf => (h.frOk t f hf).st
  · rintro (e | e)
    · exact absurd hft (Nat.not_lt.2 e)
    · unfold cancelTask at e
      split at e
      · cases e
      · cases e
      · exact absurd e (by assumption)
  · intro e
    unfold cancelTask at e
    split at e
    · cases e
    · cases e
    · exact h.busy t e
  · intro hl f hf hp
    rcases hlive' hl with hl | hl
    · exact h.holds t hl f hf hp
    · rw [hl] at hf; cases hf
  · intro i ha
    obtain ⟨hl, hf⟩ := h.held i t ha
    exact ⟨hlive hl, hf⟩

/-- The step up to `enter`, and `enter`. -/
theorem base_enter {s : St} {t x i : Nat} {par old : Option Nat} (h : Base T (push s t x i par old)) : Base T (enter s t x i par old) := by
  rw [enter_eq]
  split
  · rename_i t' e
    split
    · exact h
    · refine base_cancel h t' (h.byIdLt i t' e) fun j u hj => ?_
      rw [upd_apply] at hj
      split at hj
      · cases hj
      · exact hj
  · exact h

/-- `s` is the state before the step; `s1` is that with another stack for task `t`, which is put back when `enter` begins. -/
theorem base_push {s : St} {t x i : Nat} {par old : Option Nat} (h : Base T s) (k : Task) (n : Nat) (lg : List Ev)
    (hk : k.stat = .running) (ht : t < s.nextT) (hold : k.old < s.nextS) (hst : (s.tasks t).stat = .created ∨ (s.tasks t).stat = .running)
    (hfr : ∀ f ∈ k.stack, FrOk T s f) (hl : Links T s k.stack)
    (hin : s.nextI ≤ n) (hi : i < n) (hpos : ∀ σ, σ < s.nextS → inst s σ = i → pos s σ = x)
    (ho : ∀ o, old = some o → o < s.nextS)
    (hpar : ∀ f r, k.stack = f :: r → T.par x = some (pos s f.st) ∧ ∃ l, f.phase = .kids l)
    (hsame : k.stack.map (·.st) = (s.tasks t).stack.map (·.st))
    (hph : ∀ f ∈ k.stack, f.phase ≠ .waiting) (hph' : ∀ f ∈ (s.tasks t).stack, f.phase ≠ .waiting) :
    Base T (push { s with tasks := upd s.tasks t k, nextI := n, log := lg } t x i par old) := by
  have hh : ∀ σ, σ ≠ s.nextS → (push { s with tasks := upd s.tasks t k, nextI := n, log := lg } t x i par old).heap σ = s.heap σ :=
    fun σ hσ => upd_ne _ _ hσ
  have hnew : (push { s with tasks := upd s.tasks t k, nextI := n, log := lg } t x i par old).heap s.nextS = ⟨x, i, par, []⟩ := upd_same ..
  have hnS : (push { s with tasks := upd s.tasks t k, nextI := n, log := lg } t x i par old).nextS = s.nextS + 1 := rfl
  have htask : (push { s with tasks := upd s.tasks t k, nextI := n, log := lg } t x i par old).tasks t =
      { k with stack := { st := s.nextS, old := old, phase := .waiting } :: k.stack } := by simp [push, upd_same]
  have hother : ∀ u, u ≠ t → (push { s with tasks := upd s.tasks t k, nextI := n, log := lg } t x i par old).tasks u = s.tasks u := by
    intro u hu; simp [push, upd_ne _ _ hu]
  have hreg : ∀ j σ, (push { s with tasks := upd s.tasks t k, nextI := n, log := lg } t x i par old).reg j = some σ → σ < s.nextS + 1 := by
    intro j σ e
    simp only [push, upd_apply] at e
    split at e
    · cases e; omega
    · have := h.regLt j σ e; omega
  have hacc : (push { s with tasks := upd s.tasks t k, nextI := n, log := lg } t x i par old).access = s.access := rfl
  have hnI : (push { s with tasks := upd s.tasks t k, nextI := n, log := lg } t x i par old).nextI = n := rfl
  have hnT : (push { s with tasks := upd s.tasks t k, nextI := n, log := lg } t x i par old).nextT = s.nextT := rfl
  have hby : (push { s with tasks := upd s.tasks t k, nextI := n, log := lg } t x i par old).byId = s.byId := rfl
  generalize push { s with tasks := upd s.tasks t k, nextI := n, log := lg } t x i par old = s' at *
  have hp : ∀ σ, σ < s.nextS → pos s' σ = pos s σ := fun σ hσ => by unfold pos; rw [hh σ (Nat.ne_of_lt hσ)]
  have hi' : ∀ σ, σ < s.nextS → inst s' σ = inst s σ := fun σ hσ => by unfold inst; rw [hh σ (Nat.ne_of_lt hσ)]
  have hs : Same s s' := ⟨by omega, hp, hi'⟩
  have hc : Cells s' := by
    refine ⟨fun σ hσ => ?_, fun σ τ hσ hτ e => ?_, fun σ e he => ?_, fun j σ e => hnS ▸ hreg j σ e⟩
    · rw [hnI]
      by_cases e : σ = s.nextS
      · unfold inst; rw [e, hnew]; exact hi
      · rw [hi' σ (by omega)]; have := h.instLt σ (by omega); omega
    · by_cases e1 : σ = s.nextS <;> by_cases e2 : τ = s.nextS
      · rw [e1, e2]
      · have : inst s' σ = i := by unfold inst; rw [e1, hnew]
        rw [this, hi' τ (by omega)] at e
        have h1 := hpos τ (by omega) e.symm
        rw [hp τ (by omega), h1]; unfold pos; rw [e1, hnew]
      · have : inst s' τ = i := by unfold inst; rw [e2, hnew]
        rw [this, hi' σ (by omega)] at e
        have h1 := hpos σ (by omega) e
        rw [hp σ (by omega), h1]; unfold pos; rw [e2, hnew]
      · rw [hi' σ (by omega), hi' τ (by omega)] at e
        rw [hp σ (by omega), hp τ (by omega)]
        exact h.instPos σ τ (by omega) (by omega) e
    · by_cases e1 : σ = s.nextS
      · rw [e1, hnew] at he; cases he
      · rw [hh σ e1] at he
        have := h.kidOk σ e he
        exact ⟨by omega, by rw [hp _ this.1]; exact this.2⟩
  refine base_task (t := t) h hs hc hnT (fun i u e => by rw [hby] at e; exact e) hother ?_ ?_ ?_ ?_ ?_ ?_ (fun _ _ _ => by rw [hacc]) ?_
  all_goals simp only [htask]
  · rw [hnS]; omega
  · intro f hf
    rcases List.mem_cons.1 hf with rfl | hf
    · exact ⟨by rw [hnS]; exact Nat.lt_succ_self _, fun o e => by rw [hnS]; exact Nat.lt_succ_of_lt (ho o e), fun l e => by cases e⟩
    · exact (hfr f hf).mono hs
  · cases hstk : k.stack with
    | nil => trivial
    | cons f r =>
      have hf := hfr f (by rw [hstk]; simp)
      refine ⟨?_, (hpar f r hstk).2, ?_⟩
      · rw [hp _ hf.st, ← (hpar f r hstk).1]; unfold pos; rw [hnew]
      · rw [← hstk]; exact hl.mono hs fun f hf => (hfr f hf).st
  · rintro (e | e)
    · omega
    · rw [hk] at e; cases e
  · simp
  · intro _ f hf hpf
    rcases List.mem_cons.1 hf with rfl | hf
    · exact absurd rfl hpf
    · rw [hacc, hi' _ (hfr f hf).st]
      have : f.st ∈ k.stack.map (·.st) := List.mem_map_of_mem hf
      rw [hsame] at this
      obtain ⟨g, hg, e⟩ := List.mem_map.1 this
      rw [← e]
      refine h.holds t ?_ g hg (hph' g hg)
      rcases hst with e | e
      · rw [(h.fresh t (.inr e)).2] at hg; cases hg
      · exact .inl e
  · intro j e
    rw [hacc] at e
    obtain ⟨_, g, hg, hgp, e⟩ := h.held j t e
    have : g.st ∈ (s.tasks t).stack.map (·.st) := List.mem_map_of_mem hg
    rw [← hsame] at this
    obtain ⟨f, hf, e2⟩ := List.mem_map.1 this
    refine ⟨.inl hk, f, by simp [hf], hph f hf, ?_⟩
    rw [hi' _ (hfr f hf).st, e2]; exact e

/-- A step that changes only the first call of task `t`, and the access. -/
theorem base_top {s s' : St} {t : Nat} {o d y : Nat} {p : Option Nat} {q q' : Phase} {fs : List Frame} {b : Bool} (h : Base T s)
    (hk : s.tasks t = ⟨o, d, .running, ⟨y, p, q⟩ :: fs, b⟩) (hh : s'.heap = s.heap) (hn : s'.nextS = s.nextS) (hi : s'.nextI = s.nextI)
    (hr : ∀ i σ, s'.reg i = some σ → s.reg i = some σ) (hnT : s'.nextT = s.nextT) (hb : s'.byId = s.byId)
    (ht : s'.tasks = upd s.tasks t ⟨o, d, .running, ⟨y, p, q'⟩ :: fs, b⟩)
    (hkids : ∀ l, q' = .kids l → ∀ c ∈ l, T.par c = some (pos s y)) (hq' : q' ≠ .waiting)
    (ha : s'.access (inst s y) = some t) (ha' : ∀ i, i ≠ inst s y → s'.access i = s.access i)
    (hold : q = .waiting → s.access (inst s y) = none) : Base T s' := by
  have hs : Same s s' := .of_eq hh hn
  have hti : s'.tasks t = ⟨o, d, .running, ⟨y, p, q'⟩ :: fs, b⟩ := by rw [ht, upd_same]
  have hi' : ∀ σ, inst s' σ = inst s σ := fun σ => by unfold inst; rw [hh]
  have hp' : ∀ σ, pos s' σ = pos s σ := fun σ => by unfold pos; rw [hh]
  have hfr : ∀ f ∈ (⟨y, p, q⟩ : Frame) :: fs, FrOk T s f := by have := h.frOk t; rw [hk] at this; exact this
  have hlk : Links T s (⟨y, p, q⟩ :: fs) := by have := h.links t; rw [hk] at this; exact this
  have hho : ∀ f ∈ (⟨y, p, q⟩ : Frame) :: fs, f.phase ≠ .waiting → s.access (inst s f.st) = some t := by
    have := h.holds t (.inl (by rw [hk])); rw [hk] at this; exact this
  have hy : y < s.nextS := (hfr ⟨y, p, q⟩ (by simp)).st
  have hlt : t < s.nextT := by
    refine Nat.lt_of_not_le fun e => ?_
    have := (h.fresh t (.inl e)).2; rw [hk] at this; cases this
  -- before the step nobody else was inside
  have hbefore : ∀ u, s.access (inst s y) = some u → u = t := by
    intro u e
    by_cases hw : q = .waiting
    · rw [hold hw] at e; cases e
    · have := hho ⟨y, p, q⟩ (by simp) hw
      rw [this] at e; exact (Option.some.inj e).symm
  refine base_task (t := t) h hs (h.cells.of_eq hh hn hi hr) hnT (fun i u e => by rw [hb] at e; exact e)
    (fun u hu => by rw [ht, upd_ne _ _ hu]) ?_ ?_ ?_ ?_ ?_ ?_ (fun i u hu => ?_) ?_
  all_goals try simp only [hti]
  · have := h.oldLt t; rw [hk] at this; rw [hn]; exact this
  · intro f hf
    rcases List.mem_cons.1 hf with rfl | hf
    · refine ⟨by rw [hn]; exact hy, fun e he => by rw [hn]; exact (hfr ⟨y, p, q⟩ (by simp)).old e he, fun l hl c hc => ?_⟩
      rw [hp']; exact hkids l hl c hc
    · exact (hfr f (by simp [hf])).mono hs
  · exact (hlk.phase q').mono hs fun f hf => by
      rcases List.mem_cons.1 hf with rfl | hf
      · exact hy
      · exact (hfr f (by simp [hf])).st
  · rintro (e | e)
    · omega
    · cases e
  · simp
  · intro _ f hf hpf
    rw [hi']
    rcases List.mem_cons.1 hf with rfl | hf
    · exact ha
    · by_cases e : inst s f.st = inst s y
      · rw [e]; exact ha
      · rw [ha' _ e]; exact hho f (by simp [hf]) hpf
  · by_cases e : i = inst s y
    · rw [e, ha]
      exact ⟨fun hx => absurd (Option.some.inj hx).symm hu, fun hx => absurd (hbefore u hx) hu⟩
    · rw [ha' i e]
  · intro i e
    refine ⟨.inl rfl, ?_⟩
    by_cases hiy : i = inst s y
    · exact ⟨⟨y, p, q'⟩, by simp, hq', by rw [hi']; exact hiy.symm⟩
    · rw [ha' i hiy] at e
      obtain ⟨_, f, hf, hpf, hfi⟩ := h.held i t e
      rw [hk] at hf
      rcases List.mem_cons.1 hf with rfl | hf
      · exact absurd hfi.symm hiy
      · exact ⟨f, by simp [hf], hpf, by rw [hi']; exact hfi⟩

theorem forget_some {s : St} {l : List Nat} {i σ : Nat} (h : forget s l i = some σ) : s.reg i = some σ := by
  unfold forget at h
  split at h
  · cases h
  · exact h

theorem base_step {s : St} (h : Base T s) (a : Act) : Base T (step T s a) := by
  cases a with
  | set i =>
    simp only [step]
    split
    case isFalse => exact h
    unfold schedule
    split
    · exact h
    · have h' : Base T { s with flag := upd s.flag i true } :=
        base_same h rfl rfl rfl rfl rfl rfl rfl rfl
      simp only
      split
      · exact h'
      · rename_i σ hσ
        have hst := h.fresh s.nextT (.inl (Nat.le_refl _))
        have hs : Same s { s with flag := upd s.flag i true, tasks := upd s.tasks s.nextT ⟨i, σ, .created, [], false⟩, byId := upd s.byId i (some s.nextT), nextT := s.nextT + 1 } := .of_eq rfl rfl
        have key : ∀ t, (upd s.tasks s.nextT ⟨i, σ, .created, [], false⟩ t).stack = (s.tasks t).stack ∧
            (upd s.tasks s.nextT ⟨i, σ, .created, [], false⟩ t).stat = (s.tasks t).stat := by
          intro t
          rw [upd_apply]
          split
          · rename_i e; rw [e, hst.1, hst.2]; exact ⟨rfl, rfl⟩
          · exact ⟨rfl, rfl⟩
        refine ⟨h.instLt, h.instPos, h.kidOk, h.regLt, fun j t e => ?_, fun t => ?_, fun t f hf => ?_, fun t => ?_, fun t e => ?_, fun t e => ?_, fun t e f hf => ?_, fun j t e => ?_⟩
        · simp only [upd_apply] at e
          split at e
          · cases e; exact Nat.lt_succ_self _
          · exact Nat.lt_succ_of_lt (h.byIdLt j t e)
        · simp only [upd_apply]
          split
          · exact h.regLt i σ hσ
          · exact h.oldLt t
        · rw [(key t).1] at hf
          exact (h.frOk t f hf).mono hs
        · rw [(key t).1]; exact (h.links t).mono hs fun f hf => (h.frOk t f hf).st
        · simp only [(key t).1, (key t).2] at e ⊢
          refine h.fresh t (e.imp (fun e => ?_) id)
          omega
        · simp only [(key t).1, (key t).2] at e ⊢
          exact h.busy t e
        · rw [(key t).1] at hf
          unfold Live at e; rw [(key t).2] at e
          exact h.holds t e f hf
        · obtain ⟨h1, h2⟩ := h.held j t e
          simp only [Live, (key t).1, (key t).2]
          exact ⟨h1, h2⟩
  | start t =>
    simp only [step]
    split
    case isFalse => exact h
    rename_i hc
    have hst := h.fresh t (.inr hc.2)
    split
    · refine base_task (t := t) h (.of_eq rfl rfl) (h.cells.of_eq rfl rfl rfl fun _ _ e => e) rfl (fun _ _ e => e) (fun u hu => upd_ne _ _ hu) ?_ ?_ ?_ ?_ ?_ ?_ (fun _ _ _ => Iff.rfl) ?_
      all_goals simp only [St.put, upd_same]
      · exact h.oldLt t
      · rw [hst.2]; intro f hf; cases hf
      · rw [hst.2]; trivial
      · rintro (e | e)
        · omega
        · cases e
      · intro e; cases e
      · rw [hst.2]; intro _ f hf; cases hf
      · intro i e
        have := (h.held i t e).1
        simp [Live, hc.2] at this
    · refine base_enter ?_
      refine base_push (s := s) h { s.tasks t with stat := .running } s.nextI s.log rfl hc.1 (h.oldLt t) (.inl hc.2) ?_ ?_ (Nat.le_refl _)
        (h.instLt _ (h.oldLt t)) (fun σ hσ e => h.instPos σ _ hσ (h.oldLt t) e) (fun o e => ?_) ?_ rfl ?_ ?_
      · show ∀ f ∈ (s.tasks t).stack, _
        rw [hst.2]; intro f hf; cases hf
      · show Links T s (s.tasks t).stack
        rw [hst.2]; trivial
      · cases e; exact h.oldLt t
      · show ∀ f r, (s.tasks t).stack = _ → _
        rw [hst.2]; intro f r e; cases e
      · show ∀ f ∈ (s.tasks t).stack, _
        rw [hst.2]; intro f hf; cases hf
      · rw [hst.2]; intro f hf; cases hf
  | grant t =>
    simp only [step]
    split
    case h_2 => exact h
    rename_i o d y p fs b hk
    split
    case isFalse => exact h
    rename_i hn
    exact base_top h hk rfl rfl rfl (fun _ _ e => e) rfl rfl rfl (by intro l e; cases e) (by simp) (upd_same ..)
      (fun i hi => upd_ne _ _ hi) (fun _ => hn)
  | body t kids =>
    simp only [step]
    split
    case h_2 => exact h
    rename_i o d y p fs b hk
    have hacc : s.access (inst s y) = some t := by
      have := h.holds t (.inl (by rw [hk])) ⟨y, p, .granted⟩ (by rw [hk]; simp) (by simp)
      exact this
    split
    case isFalse => exact h
    rename_i hkid
    split
    · exact base_top h hk rfl rfl rfl (fun _ _ e => forget_some e) rfl rfl rfl
        (by intro l e; cases e; exact hkid.2) (by simp) hacc (fun _ _ => rfl) (by intro e; cases e)
    · exact base_top h hk rfl rfl rfl (fun _ _ e => forget_some e) rfl rfl rfl
        (by intro l e; cases e; intro c hc; cases hc) (by simp) hacc (fun _ _ => rfl) (by intro e; cases e)
  | next t =>
    simp only [step]
    split
    case h_2 => exact h
    rename_i o d y p c cs fs b hk
    have hlt : t < s.nextT := by
      refine Nat.lt_of_not_le fun e => ?_
      have := (h.fresh t (.inl e)).2; rw [hk] at this; cases this
    have hfr : ∀ f ∈ (⟨y, p, .kids (c :: cs)⟩ : Frame) :: fs, FrOk T s f := by have := h.frOk t; rw [hk] at this; exact this
    have hlk : Links T s (⟨y, p, .kids (c :: cs)⟩ :: fs) := by have := h.links t; rw [hk] at this; exact this
    have hy := hfr ⟨y, p, .kids (c :: cs)⟩ (by simp)
    have hpar : T.par c = some (pos s y) := hy.kids _ rfl c (by simp)
    have hout : ∀ f ∈ fs, f.phase ≠ .waiting := fun f hf e => by
      obtain ⟨l, hl⟩ := hlk.outer f hf
      rw [hl] at e; cases e
    have hfr' : ∀ f ∈ (⟨y, p, .kids cs⟩ : Frame) :: fs, FrOk T s f := by
      intro f hf
      rcases List.mem_cons.1 hf with rfl | hf
      · exact ⟨hy.st, hy.old, fun l e c' hc' => by cases e; exact hy.kids _ rfl c' (by simp [hc'])⟩
      · exact hfr f (by simp [hf])
    have hlk' : Links T s (⟨y, p, .kids cs⟩ :: fs) := hlk.phase (.kids cs)
    have hdl : d < s.nextS := by have := h.oldLt t; rw [hk] at this; exact this
    have hrun : (s.tasks t).stat = .running := by rw [hk]
    split
    · rename_i σ hσ
      have hb : ∃ ρ, p = some ρ ∧ (c, σ) ∈ (s.heap ρ).kids := by
        cases p with
        | none => cases hσ
        | some ρ =>
          refine ⟨ρ, rfl, ?_⟩
          have : (s.heap ρ).kids.lookup c = some σ := hσ
          exact (lookup_mem this)
      obtain ⟨ρ, rfl, hm⟩ := hb
      have hσ2 := h.kidOk ρ _ hm
      refine base_enter ?_
      refine base_push (s := s) h ⟨o, d, .running, ⟨y, some ρ, .kids cs⟩ :: fs, b⟩ s.nextI s.log rfl hlt hdl (.inr hrun) hfr' hlk' (Nat.le_refl _) (h.instLt σ hσ2.1)
        (fun τ hτ e => (h.instPos τ σ hτ hσ2.1 e).trans hσ2.2) (fun o e => by cases e; exact hσ2.1) ?_ (by rw [hk]; rfl) ?_ ?_
      · intro f r e; cases e; exact ⟨hpar, _, rfl⟩
      · intro f hf
        rcases List.mem_cons.1 hf with rfl | hf
        · simp
        · exact hout f hf
      · rw [hk]; intro f hf
        rcases List.mem_cons.1 hf with rfl | hf
        · simp
        · exact hout f hf
    · refine base_enter ?_
      refine base_push (s := s) h ⟨o, d, .running, ⟨y, p, .kids cs⟩ :: fs, b⟩ (s.nextI + 1) (.made c s.nextI :: s.log) rfl hlt hdl (.inr hrun) hfr' hlk' (Nat.le_succ _) (Nat.lt_succ_self _)
        (fun τ hτ e => ?_) (fun o e => by cases e) ?_ (by rw [hk]; rfl) ?_ ?_
      · have := h.instLt τ hτ; rw [e] at this; exact absurd this (Nat.lt_irrefl _)
      · intro f r e; cases e; exact ⟨hpar, _, rfl⟩
      · intro f hf
        rcases List.mem_cons.1 hf with rfl | hf
        · simp
        · exact hout f hf
      · rw [hk]; intro f hf
        rcases List.mem_cons.1 hf with rfl | hf
        · simp
        · exact hout f hf
  | finish t =>
    simp only [step]
    split
    case h_2 => exact h
    rename_i o d y p fs b hk
    have hlt : t < s.nextT := by
      refine Nat.lt_of_not_le fun e => ?_
      have := (h.fresh t (.inl e)).2; rw [hk] at this; cases this
    have hfr : ∀ f ∈ (⟨y, p, .kids []⟩ : Frame) :: fs, FrOk T s f := by have := h.frOk t; rw [hk] at this; exact this
    have hlk : Links T s (⟨y, p, .kids []⟩ :: fs) := by have := h.links t; rw [hk] at this; exact this
    have hho : ∀ f ∈ (⟨y, p, .kids []⟩ : Frame) :: fs, f.phase ≠ .waiting → s.access (inst s f.st) = some t := by
      have := h.holds t (.inl (by rw [hk])); rw [hk] at this; exact this
    have hy := hfr ⟨y, p, .kids []⟩ (by simp)
    -- the calls around are of other instances
    have hdiff : ∀ f ∈ fs, inst s f.st ≠ inst s y := by
      intro f hf e
      have h1 := hlk.depth f hf
      have h2 := h.instPos _ _ (hfr f (by simp [hf])).st hy.st e
      simp only at h1
      rw [h2] at h1
      exact absurd h1 (Nat.lt_irrefl _)
    have hatt : ∀ σ, (attach s y (above s y fs) σ).pos = pos s σ ∧ (attach s y (above s y fs) σ).inst = inst s σ ∧
        ∀ e ∈ (attach s y (above s y fs) σ).kids, e ∈ (s.heap σ).kids ∨ e = (pos s y, y) := by
      intro σ
      generalize above s y fs = ρ
      cases ρ with
      | none => exact ⟨rfl, rfl, fun e he => .inl he⟩
      | some ρ =>
        simp only [attach, upd_apply]
        split
        · rename_i e; rw [e]
          refine ⟨rfl, rfl, fun e he => ?_⟩
          simp only [setKid] at he
          rcases List.mem_cons.1 he with rfl | he
          · exact .inr rfl
          · exact .inl (List.mem_filter.1 he).1
        · exact ⟨rfl, rfl, fun e he => .inl he⟩
    have hs : Same s { s.put t ⟨o, d, if fs.isEmpty then .done else .running, fs, b⟩ with
        access := upd s.access (s.heap y).inst none, heap := attach s y (above s y fs) } :=
      ⟨Nat.le_refl _, fun σ _ => (hatt σ).1, fun σ _ => (hatt σ).2.1⟩
    have hstat : ∀ st, (if fs.isEmpty then TStat.done else .running) = st → (st = .done ∧ fs = []) ∨ (st = .running ∧ fs ≠ []) := by
      intro st e
      cases fs with
      | nil => exact .inl ⟨e.symm, rfl⟩
      | cons => exact .inr ⟨e.symm, by simp⟩
    refine base_task (t := t) h hs ⟨fun σ hσ => ?_, fun σ τ hσ hτ e => ?_, fun σ e he => ?_, h.regLt⟩ rfl (fun _ _ e => e) (fun u hu => upd_ne _ _ hu) ?_ ?_ ?_ ?_ ?_ ?_ (fun i u hu => ?_) ?_
    · show (attach s y (above s y fs) σ).inst < s.nextI
      rw [(hatt σ).2.1]; exact h.instLt σ hσ
    · have e' : inst s σ = inst s τ := by rw [← (hatt σ).2.1, ← (hatt τ).2.1]; exact e
      exact (hatt σ).1.trans ((h.instPos σ τ hσ hτ e').trans (hatt τ).1.symm)
    · rcases (hatt σ).2.2 e he with he | rfl
      · exact ⟨(h.kidOk σ e he).1, (hatt e.2).1.trans (h.kidOk σ e he).2⟩
      · exact ⟨hy.st, (hatt y).1⟩
    all_goals try simp only [St.put, upd_same]
    · have := h.oldLt t; rw [hk] at this; exact this
    · exact fun f hf => (hfr f (by simp [hf])).mono hs
    · exact hlk.tail.mono hs fun f hf => (hfr f (by simp [hf])).st
    · rintro (e | e)
      · omega
      · rcases hstat _ e with ⟨e, _⟩ | ⟨e, _⟩ <;> cases e
    · intro e
      rcases hstat _ e with ⟨e, _⟩ | ⟨_, e⟩
      · cases e
      · exact e
    · intro _ f hf hp
      show upd s.access (s.heap y).inst none (attach s y (above s y fs) f.st).inst = some t
      rw [(hatt f.st).2.1, upd_ne _ _ (hdiff f hf)]
      exact hho f (by simp [hf]) hp
    · by_cases e : i = (s.heap y).inst
      · rw [e, upd_same]
        have := hho ⟨y, p, .kids []⟩ (by simp) (by simp)
        simp only [inst] at this
        rw [this]
        exact ⟨(fun e => by cases e), fun e => absurd (Option.some.inj e).symm hu⟩
      · rw [upd_ne _ _ e]
    · intro i e
      rw [upd_apply] at e
      split at e
      · cases e
      · rename_i hi
        obtain ⟨_, f, hf, hp, hfi⟩ := h.held i t e
        rw [hk] at hf
        rcases List.mem_cons.1 hf with rfl | hf
        · exact absurd hfi.symm hi
        · refine ⟨.inl ?_, f, hf, hp, (hatt f.st).2.1.trans hfi⟩
          cases fs with
          | nil => cases hf
          | cons => rfl
  | die t =>
    simp only [step]
    split
    case isFalse => exact h
    rename_i hc
    have hs : Same s { s.put t { s.tasks t with stat := .dead } with access := fun i => if s.access i = some t then none else s.access i } := .of_eq rfl rfl
    refine base_task (t := t) h hs (h.cells.of_eq rfl rfl rfl fun _ _ e => e) rfl (fun _ _ e => e) (fun u hu => upd_ne _ _ hu) ?_ ?_ ?_ ?_ ?_ ?_ (fun i u hu => ?_) ?_
    all_goals try simp only [St.put, upd_same]
    · exact h.oldLt t
    · exact fun f hf => (h.frOk t f hf).mono hs
    · exact (h.links t).mono hs fun f hf => (h.frOk t f hf).st
    · rintro (e | e)
      · omega
      · cases e
    · intro e; cases e
    · rintro (e | e) <;> cases e
    · split
      · rename_i e; rw [e]; exact ⟨(fun e => by cases e), fun e => absurd (Option.some.inj e).symm hu⟩
      · exact Iff.rfl
    · intro i e
      split at e
      · cases e
      · exact absurd e (by assumption)
  | pick t =>
    have key : ∀ st, (s.tasks t).stat = st → st ≠ .created → st ≠ .running → Base T (s.put t { s.tasks t with picked := true }) := by
      intro st e h1 h2
      have hlt : t < s.nextT := by
        refine Nat.lt_of_not_le fun e' => h1 ?_
        rw [← e]; exact (h.fresh t (.inl e')).1
      have hs : Same s (s.put t { s.tasks t with picked := true }) := .of_eq rfl rfl
      refine base_task (t := t) h hs (h.cells.of_eq rfl rfl rfl fun _ _ e => e) rfl (fun _ _ e => e) (fun u hu => upd_ne _ _ hu) ?_ ?_ ?_ ?_ ?_ ?_ (fun _ _ _ => Iff.rfl) ?_
      all_goals simp only [St.put, upd_same]
      · exact h.oldLt t
      · exact fun f hf => (h.frOk t f hf).mono hs
      · exact (h.links t).mono hs fun f hf => (h.frOk t f hf).st
      · rintro (e' | e')
        · omega
        · rw [e] at e'; exact absurd e' h1
      · intro e'; rw [e] at e'; exact absurd e' h2
      · exact h.holds t
      · exact fun i e => h.held i t e
    simp only [step]
    split
    · rename_i e; exact key _ e (by simp) (by simp)
    · rename_i e; exact key _ e (by simp) (by simp)
    · rename_i e; exact key _ e (by simp) (by simp)
    · exact h
  | free σ =>
    simp only [step]
    split
    · exact base_same h rfl rfl rfl rfl rfl rfl rfl rfl
    · exact h

theorem base_run {s : St} (h : Base T s) (acts : List Act) : Base T (run T s acts) := by
  induction acts generalizing s with
  | nil => exact h
  | cons a as ih => exact ih (base_step h a)

end Verif.Sched.Heap
