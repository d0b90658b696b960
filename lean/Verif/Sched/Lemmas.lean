import Verif.Sched.Spec
/-! # Invariants of the scheduler (helper lemmas) -/
namespace Verif.Sched
variable {T : Tree} {P : Nat → Prop}

/-! ### Ancestors -/

theorem le_iff {b x : Nat} : T.le b x = true ↔ b = x ∨ ∃ p, T.par x = some p ∧ T.le b p = true := by
  unfold Tree.le
  cases hp : T.par x with
  | none =>
    cases hd : T.depth x with
    | zero => simp only [Tree.above]; constructor <;> intro h <;> simp_all
    | succ n => simp only [Tree.above, hp]; constructor <;> intro h <;> simp_all
  | some p =>
    rw [T.depth_par x p hp]
    simp only [Tree.above, hp]
    constructor
    · intro h
      simp only [Bool.or_eq_true, beq_iff_eq] at h
      rcases h with h | h
      · exact .inl h.symm
      · exact .inr ⟨p, rfl, h⟩
    · rintro (h | ⟨q, hq, h⟩)
      · simp [h]
      · cases hq; simp [h]

theorem le_refl (x : Nat) : T.le x x = true := le_iff.2 (.inl rfl)

theorem le_trans {a b c : Nat} (h1 : T.le a b = true) (h2 : T.le b c = true) : T.le a c = true := by
  generalize hn : T.depth c = n
  induction n using Nat.strongRecOn generalizing c with
  | ind n ih =>
    rcases le_iff.1 h2 with rfl | ⟨p, hp, h⟩
    · exact h1
    · have := T.depth_par c p hp
      exact le_iff.2 (.inr ⟨p, hp, ih (T.depth p) (by omega) h rfl⟩)

theorem le_par {p c : Nat} (h : T.par c = some p) : T.le p c = true := le_iff.2 (.inr ⟨p, h, le_refl p⟩)

theorem le_depth {a b : Nat} (h : T.le a b = true) : T.depth a ≤ T.depth b ∧ (T.depth a = T.depth b → a = b) := by
  generalize hn : T.depth b = n
  induction n using Nat.strongRecOn generalizing b with
  | ind n ih =>
    rcases le_iff.1 h with rfl | ⟨p, hp, h⟩
    · omega
    · have := T.depth_par b p hp
      have := ih (T.depth p) (by omega) h rfl
      omega

/-! ### Tasks -/

@[simp] theorem upd_same {α} (f : Nat → α) (x : Nat) (v : α) : upd f x v x = v := by simp [upd]
theorem upd_ne {α} (f : Nat → α) {x y : Nat} (v : α) (h : y ≠ x) : upd f x v y = f y := by simp [upd, h]
theorem upd_apply {α} (f : Nat → α) (x y : Nat) (v : α) : upd f x v y = if y = x then v else f y := rfl

/-- The components a call has still to begin with (its own body included). -/
def Frame.work (f : Frame) : List Nat :=
  match f.phase with
  | .waiting => [f.id]
  | .granted => [f.id]
  | .kids l => l

def stackWork (fs : List Frame) : List Nat := fs.flatMap Frame.work

/-- The components whose bodies a task will run, with those below them. -/
def Task.work (k : Task) : List Nat :=
  match k.stat with
  | .created => [k.owner]
  | .running => stackWork k.stack
  | _ => []

def Frame.kidsOk (T : Tree) (f : Frame) : Prop := ∀ l, f.phase = .kids l → ∀ c ∈ l, T.par c = some f.id

/-- The calls of a task: each inside the one of the parent, which has run its body. -/
def Chain (T : Tree) (o : Nat) : List Frame → Prop
  | [] => True
  | [f] => f.id = o ∧ f.kidsOk T
  | f :: g :: r => T.par f.id = some g.id ∧ f.kidsOk T ∧ (∃ l, g.phase = .kids l) ∧ Chain T o (g :: r)

theorem Chain.le {o : Nat} : ∀ {fs : List Frame}, Chain T o fs → ∀ f ∈ fs, T.le o f.id = true
  | [], _, _, h => by simp at h
  | [f], h, g, hg => by
    simp at hg; subst hg; rw [h.1]; exact le_refl o
  | f :: g :: r, h, e, he => by
    rcases List.mem_cons.1 he with rfl | he
    · exact le_trans (Chain.le h.2.2.2 g (by simp)) (le_par h.1)
    · exact Chain.le h.2.2.2 e he

theorem Chain.kidsOk {o : Nat} : ∀ {fs : List Frame}, Chain T o fs → ∀ f ∈ fs, f.kidsOk T
  | [], _, _, h => by simp at h
  | [f], h, g, hg => by simp at hg; subst hg; exact h.2
  | f :: g :: r, h, e, he => by
    rcases List.mem_cons.1 he with rfl | he
    · exact h.2.1
    · exact Chain.kidsOk h.2.2.2 e he

theorem work_le {f : Frame} (h : f.kidsOk T) : ∀ b ∈ f.work, T.le f.id b = true := by
  intro b hb
  unfold Frame.work at hb
  split at hb
  · simp at hb; subst hb; exact le_refl _
  · simp at hb; subst hb; exact le_refl _
  · rename_i l hl; exact le_par (h l hl b hb)

theorem Chain.work_le {o : Nat} {fs : List Frame} (h : Chain T o fs) : ∀ b ∈ stackWork fs, T.le o b = true := by
  intro b hb
  obtain ⟨f, hf, hbf⟩ := List.mem_flatMap.1 hb
  exact le_trans (h.le f hf) (Sched.work_le (h.kidsOk f hf) b hbf)

/-- Replace the innermost call. -/
theorem Chain.head {o : Nat} {f g : Frame} {r : List Frame} (h : Chain T o (f :: r)) (hid : g.id = f.id) (hk : g.kidsOk T) :
    Chain T o (g :: r) := by
  cases r with
  | nil => exact ⟨hid.trans h.1, hk⟩
  | cons e r => exact ⟨by rw [hid]; exact h.1, hk, h.2.2⟩

theorem Chain.tail {o : Nat} {f : Frame} {r : List Frame} (h : Chain T o (f :: r)) : Chain T o r := by
  cases r with
  | nil => trivial
  | cons e r => exact h.2.2.2

/-- The calls further out have run their bodies. -/
theorem Chain.outer {o : Nat} : ∀ {f : Frame} {r : List Frame}, Chain T o (f :: r) → ∀ g ∈ r, ∃ l, g.phase = .kids l
  | _, [], _, _, h => by simp at h
  | f, g :: r, h, e, he => by
    rcases List.mem_cons.1 he with rfl | he
    · exact h.2.2.1
    · exact Chain.outer h.2.2.2 e he

/-- The calls are at different depths. -/
theorem Chain.depth {o : Nat} : ∀ {f : Frame} {r : List Frame}, Chain T o (f :: r) → ∀ g ∈ r, T.depth g.id < T.depth f.id
  | _, [], _, _, h => by simp at h
  | f, g :: r, h, e, he => by
    have h1 := T.depth_par _ _ h.1
    rcases List.mem_cons.1 he with rfl | he
    · omega
    · have := Chain.depth h.2.2.2 e he
      omega

/-- A task as it may be. -/
def TaskOk (T : Tree) (k : Task) : Prop :=
  Chain T k.owner k.stack ∧ (k.stat = .running → k.stack ≠ []) ∧
  (k.stat = .created ∨ k.stat = .done ∨ k.stat = .dead ∨ k.stat = .crashed → k.stack = [])

theorem TaskOk.work_le {k : Task} (h : TaskOk T k) : ∀ b ∈ k.work, T.le k.owner b = true := by
  intro b hb
  unfold Task.work at hb
  split at hb
  · simp at hb; subst hb; exact le_refl _
  · exact h.1.work_le b hb
  · simp at hb

theorem TaskOk.cancel {k : Task} (h : TaskOk T k) : TaskOk T (cancelTask k) := by
  unfold cancelTask
  split
  · exact ⟨h.1, by simp, by simp⟩
  · exact ⟨h.1, by simp, by simp⟩
  · exact h

@[simp] theorem cancel_owner (k : Task) : (cancelTask k).owner = k.owner := by unfold cancelTask; split <;> rfl
@[simp] theorem cancel_stack (k : Task) : (cancelTask k).stack = k.stack := by unfold cancelTask; split <;> rfl
theorem cancel_work (k : Task) : (cancelTask k).work = [] := by
  obtain ⟨o, st, fs⟩ := k
  cases st <;> rfl

/-- `x` will be rendered: some task will run the body of `x` or, if it has begun, of a component above it. -/
def Will (T : Tree) (s : St) (x : Nat) : Prop :=
  ∃ t, t < s.next ∧ ∃ b ∈ (s.tasks t).work, T.le b x = true ∧ ((s.tasks t).stat = .created → b = x)

/-- The task has a call that holds the semaphore of `y`. -/
def Holds (k : Task) (y : Nat) : Prop := ∃ f ∈ k.stack, f.id = y ∧ f.phase ≠ .waiting

structure Inv (T : Tree) (s : St) : Prop where
  byId : ∀ y t, s.byId y = some t → t < s.next ∧ (s.tasks t).owner = y
  ok : ∀ t, t < s.next → TaskOk T (s.tasks t)
  access : ∀ y t, s.access y = some t ↔ t < s.next ∧ Holds (s.tasks t) y

/-- No change of the components `P` is forgotten. -/
def Kept (T : Tree) (P : Nat → Prop) (s : St) : Prop :=
  ∀ x, s.mounted x = true → s.flag x = true ∨ P x ∧ s.seen x ≠ some (s.ver x) → Will T s x

theorem inv_init (T : Tree) (P : Nat → Prop) : Inv T init ∧ Kept T P init := by
  refine ⟨⟨?_, ?_, ?_⟩, ?_⟩
  · intro y t h
    simp only [init, upd_apply] at h
    split at h
    · cases h; subst y; simp [init]
    · cases h
  · intro t _
    exact ⟨trivial, by simp [init], by simp [init]⟩
  · intro y t
    simp [init, Holds]
  · intro x hx _
    simp [init] at hx
    subst hx
    exact ⟨0, by simp [init], 0, by simp [init, Task.work], le_refl 0, fun _ => rfl⟩

/-! ### The fields after `enter` -/

theorem enter_tasks (s : St) (t y u : Nat) : (enter s t y).tasks u =
    if u = t then { s.tasks t with stack := { id := y, phase := .waiting } :: (s.tasks t).stack }
    else if s.byId y = some u then cancelTask (s.tasks u) else s.tasks u := by
  unfold enter
  simp only
  split
  · rename_i t' ht'
    by_cases h : t' = t
    · subst h
      rw [if_pos rfl]
      simp only [upd_apply]
      split
      · rfl
      · rename_i hu
        rw [if_neg]
        rw [ht']; intro h; cases h; exact hu rfl
    · rw [if_neg h]
      simp only [upd_apply]
      by_cases hu : u = t
      · subst hu
        simp [Ne.symm h]
      · simp only [if_neg hu]
        by_cases hu' : u = t'
        · subst hu'; simp [ht']
        · rw [if_neg hu', if_neg]
          rw [ht']; intro h; cases h; exact hu' rfl
  · rename_i ht'
    simp only [upd_apply]
    split
    · rfl
    · simp [ht']

theorem enter_byId (s : St) (t y : Nat) (z u : Nat) (h : (enter s t y).byId z = some u) : s.byId z = some u := by
  unfold enter at h
  simp only at h
  split at h
  · split at h
    · exact h
    · simp only [upd_apply] at h
      split at h
      · cases h
      · exact h
  · exact h

theorem enter_fields (s : St) (t y : Nat) : (enter s t y).next = s.next ∧ (enter s t y).flag = s.flag ∧ (enter s t y).ver = s.ver ∧
    (enter s t y).val = s.val ∧
    (enter s t y).seen = s.seen ∧ (enter s t y).mounted = upd s.mounted y true ∧ (enter s t y).access = s.access ∧
    (enter s t y).pool = s.pool ∧ (enter s t y).tokens = s.tokens ∧ (enter s t y).consumer = s.consumer ∧
    (enter s t y).res = s.res ∧ (enter s t y).shown = s.shown ∧ (enter s t y).log = s.log := by
  unfold enter
  simp only
  split
  · split <;> simp
  · simp

theorem enter_put (s : St) (t y u : Nat) (k : Task) : (enter (s.put t k) t y).tasks u =
    if u = t then { k with stack := { id := y, phase := .waiting } :: k.stack }
    else if s.byId y = some u then cancelTask (s.tasks u) else s.tasks u := by
  rw [enter_tasks]
  by_cases hu : u = t
  · rw [if_pos hu, if_pos hu]; simp [St.put]
  · rw [if_neg hu, if_neg hu]
    by_cases hb : s.byId y = some u
    · rw [if_pos (show (s.put t k).byId y = some u from hb), if_pos hb]; simp [St.put, upd_ne _ _ hu]
    · rw [if_neg (show ¬ (s.put t k).byId y = some u from hb), if_neg hb]; simp [St.put, upd_ne _ _ hu]

/-- A task enters `y`, which it had to do. -/
theorem enter_inv {s : St} {t y : Nat} {k : Task} (h : Inv T s) (hk : k.owner = (s.tasks t).owner)
    (hr : k.stat = .running) (hc : Chain T k.owner ({ id := y, phase := .waiting } :: k.stack))
    (hh : ∀ z, Holds k z ↔ Holds (s.tasks t) z) :
    Inv T (enter (s.put t k) t y) := by
  obtain ⟨f1, f2, f3, f4, f5, f6, f7, -⟩ := enter_fields (s.put t k) t y
  have htasks := fun u => enter_put s t y u k
  refine ⟨?_, ?_, ?_⟩
  · intro z u hz
    have hz := h.byId z u (enter_byId (s.put t k) _ _ _ _ hz)
    rw [f1, htasks]
    refine ⟨hz.1, ?_⟩
    split
    · subst u; simp [hk, hz.2]
    · rename_i hu
      split <;> simp [hz.2]
  · intro u hu
    rw [f1] at hu
    rw [htasks]
    split
    · exact ⟨hc, by simp, by simp [hr]⟩
    · rename_i hu'
      split
      · exact (h.ok u hu).cancel
      · exact h.ok u hu
  · intro z u
    rw [f7, f1, htasks]
    show s.access z = some u ↔ u < s.next ∧ _
    rw [h.access]
    constructor
    · rintro ⟨h1, h2⟩
      refine ⟨h1, ?_⟩
      split
      · subst u
        obtain ⟨f, hf, hf'⟩ := (hh z).2 h2
        exact ⟨f, by simp [hf], hf'⟩
      · split
        · simpa [Holds] using h2
        · exact h2
    · rintro ⟨h1, h2⟩
      refine ⟨h1, ?_⟩
      split at h2
      · subst u
        obtain ⟨f, hf, hf1, hf2⟩ := h2
        rcases List.mem_cons.1 hf with rfl | hf
        · simp at hf2
        · exact (hh z).1 ⟨f, hf, hf1, hf2⟩
      · rename_i hu
        split at h2
        · simpa [Holds] using h2
        · exact h2

theorem enter_kept {s : St} {t y : Nat} {k : Task} (h : Inv T s) (hw : Kept T P s) (ht : t < s.next)
    (hr : k.stat = .running) (hwork : ∀ b ∈ (s.tasks t).work, b = y ∨ b ∈ k.work) :
    Kept T P (enter (s.put t k) t y) := by
  obtain ⟨f1, f2, f3, f4, f5, f6, f7, -⟩ := enter_fields (s.put t k) t y
  have htasks := fun u => enter_put s t y u k
  have hy : y ∈ ((enter (s.put t k) t y).tasks t).work := by
    rw [htasks]; simp [Task.work, hr, stackWork, Frame.work]
  have hrun : ((enter (s.put t k) t y).tasks t).stat ≠ .created := by
    rw [htasks]; simp [hr]
  have hself : Will T (enter (s.put t k) t y) y := ⟨t, by rw [f1]; exact ht, y, hy, le_refl y, fun _ => rfl⟩
  intro x hm hd
  rw [f6] at hm
  rw [f2, f5, f3] at hd
  simp only [St.put] at hm hd
  by_cases hxy : x = y
  · subst hxy; exact hself
  · rw [upd_ne _ _ hxy] at hm
    obtain ⟨u, hu, b, hb, hbx⟩ := hw x hm hd
    by_cases hut : u = t
    · subst u
      rcases hwork b hb with rfl | hb
      · exact ⟨t, by rw [f1]; exact ht, b, hy, hbx.1, fun h => absurd h hrun⟩
      · refine ⟨t, by rw [f1]; exact ht, b, ?_, hbx.1, fun h => absurd h hrun⟩
        rw [htasks]
        simp only [Task.work, hr] at hb
        simp only [if_true, Task.work, hr, stackWork, List.flatMap_cons, List.mem_append]
        exact .inr hb
    · by_cases hby : s.byId y = some u
      · have := h.byId y u hby
        have h2 := (h.ok u hu).work_le b hb
        rw [this.2] at h2
        exact ⟨t, by rw [f1]; exact ht, y, hy, le_trans h2 hbx.1, fun h => absurd h hrun⟩
      · refine ⟨u, by rw [f1]; exact hu, b, ?_, hbx.1, ?_⟩
        · rw [htasks, if_neg hut, if_neg hby]
          exact hb
        · rw [htasks, if_neg hut, if_neg hby]
          exact hbx.2

/-! ### Steps -/

/-- A step that changes one task only. -/
theorem put_inv {s s' : St} {t : Nat} {k : Task} (h : Inv T s) (ht : t < s.next) (htasks : s'.tasks = upd s.tasks t k)
    (hnext : s'.next = s.next) (hby : s'.byId = s.byId) (ho : k.owner = (s.tasks t).owner) (hk : TaskOk T k)
    (hacc : ∀ y u, s'.access y = some u ↔ (u = t ∧ Holds k y) ∨ (u ≠ t ∧ s.access y = some u)) : Inv T s' := by
  refine ⟨?_, ?_, ?_⟩
  · intro y u hu
    rw [hby] at hu
    have := h.byId y u hu
    rw [hnext, htasks]
    refine ⟨this.1, ?_⟩
    simp only [upd_apply]
    split
    · subst u; rw [ho]; exact this.2
    · exact this.2
  · intro u hu
    rw [hnext] at hu
    rw [htasks]
    simp only [upd_apply]
    split
    · exact hk
    · exact h.ok u hu
  · intro y u
    rw [hacc, hnext, htasks, h.access]
    by_cases hu : u = t
    · subst hu; simp [ht]
    · simp [hu, upd_ne]

theorem will_congr {s s' : St} (h : s'.next = s.next) (h2 : s'.tasks = s.tasks) (x : Nat) : Will T s' x ↔ Will T s x := by
  unfold Will; rw [h, h2]

theorem schedule_inv {s : St} (x : Nat) (h : Inv T s) : Inv T (schedule s x) := by
  unfold schedule
  split
  · exact h
  · split
    · refine ⟨?_, ?_, ?_⟩
      · intro y t hy
        simp only [upd_apply] at hy ⊢
        split at hy
        · cases hy; subst y; simp
        · have := h.byId y t hy
          rw [if_neg (by omega)]; exact ⟨by omega, this.2⟩
      · intro t ht
        simp only [upd_apply] at ht ⊢
        split
        · exact ⟨trivial, by simp, by simp⟩
        · exact h.ok t (by omega)
      · intro y t
        simp only [upd_apply]
        rw [h.access]
        by_cases ht : t = s.next
        · subst ht; simp [Holds]
        · rw [if_neg ht]
          constructor
          · rintro ⟨h1, h2⟩; exact ⟨by omega, h2⟩
          · rintro ⟨h1, h2⟩; exact ⟨by omega, h2⟩
    · exact ⟨h.byId, h.ok, h.access⟩

/-- A change followed by `schedule`. -/
theorem schedule_kept {s s0 : St} {x : Nat} (hw : Kept T P s0) (hm : s.mounted = s0.mounted) (hf : s.flag = s0.flag) (hs : s.seen = s0.seen)
    (hv : ∀ y, y ≠ x → s.ver y = s0.ver y) (hn : s.next = s0.next) (ht : s.tasks = s0.tasks) : Kept T (fun y => P y ∨ y = x) (schedule s x) := by
  have hkeep : ∀ y, Will T s0 y → Will T (schedule s x) y := by
    rintro y ⟨u, hu, b, hb, hbx⟩
    unfold schedule
    split
    · exact ⟨u, by omega, b, by rw [ht]; exact hb, by rw [ht]; exact hbx⟩
    · split
      · have hu' : (upd s.tasks s.next { owner := x, stat := .created, stack := [] }) u = s0.tasks u := by
          rw [upd_ne _ _ (by omega), ht]
        exact ⟨u, by simp; omega, b, by simp only [hu']; exact hb, by simp only [hu']; exact hbx⟩
      · exact ⟨u, by simp; omega, b, by simp [ht]; exact hb, by simp only [ht]; exact hbx⟩
  intro y hmy hd
  by_cases hyx : y = x
  · subst hyx
    by_cases hfl : s0.flag y = true
    · apply hkeep
      refine hw y ?_ (.inl hfl)
      unfold schedule at hmy
      rw [← hm]
      split at hmy
      · exact hmy
      · split at hmy <;> exact hmy
    · unfold schedule at hmy ⊢
      rw [if_neg (by rw [hf]; exact hfl)] at hmy ⊢
      by_cases hmm : s.mounted y = true
      · rw [if_pos (by rw [hmm]; rfl)]
        exact ⟨s.next, by simp, y, by simp [Task.work], le_refl y, fun _ => rfl⟩
      · refine absurd ?_ hmm
        split at hmy <;> exact hmy
  · apply hkeep
    have hmm : s0.mounted y = true := by
      rw [← hm]
      unfold schedule at hmy
      split at hmy
      · exact hmy
      · split at hmy <;> exact hmy
    refine hw y hmm ?_
    have h1 : (schedule s x).flag y = s0.flag y := by
      unfold schedule
      split
      · rw [hf]
      · split <;> simp [upd_ne _ _ hyx, hf]
    have h2 : (schedule s x).seen y = s0.seen y ∧ (schedule s x).ver y = s0.ver y := by
      unfold schedule
      split
      · rw [hs, hv y hyx]; simp
      · split <;> simp [hs, hv y hyx]
    rw [h1, h2.1, h2.2] at hd
    simpa [hyx] using hd

theorem Kept.weaken {Q : Nat → Prop} {s : St} (h : Kept T P s) (hq : ∀ x, Q x → P x) : Kept T Q s :=
  fun x hm hd => h x hm (hd.imp_right fun ⟨h1, h2⟩ => ⟨hq x h1, h2⟩)

theorem tasks_lt {s : St} (h : ∀ u, s.next ≤ u → (s.tasks u).stat = .created) {t o st fs} (he : s.tasks t = ⟨o, st, fs⟩) (hs : st ≠ .created) :
    t < s.next := by
  rcases Nat.lt_or_ge t s.next with h1 | h1
  · exact h1
  · have := h t h1
    rw [he] at this
    exact absurd this hs

/-- Tasks that do not exist yet. -/
def Fresh (s : St) : Prop := ∀ t, s.next ≤ t → (s.tasks t).stat = .created ∧ (s.tasks t).stack = []

theorem schedule_fresh {s : St} (x : Nat) (h : Fresh s) : Fresh (schedule s x) := by
  unfold schedule
  split
  · exact h
  · split
    · intro t ht
      simp only [upd_apply] at ht ⊢
      rw [if_neg (by omega)]
      exact h t (by omega)
    · exact h

theorem enter_fresh {s : St} {t y : Nat} {k : Task} (h : Inv T s) (hf : Fresh s) (ht : t < s.next) : Fresh (enter (s.put t k) t y) := by
  intro u hu
  rw [(enter_fields _ _ _).1] at hu
  have hu : s.next ≤ u := hu
  rw [enter_put]
  rw [if_neg (by omega), if_neg]
  · exact hf u hu
  · intro hb
    have := (h.byId y u hb).1
    omega

theorem put_fresh {s s' : St} {t : Nat} {k : Task} (hf : Fresh s) (ht : t < s.next) (htasks : s'.tasks = upd s.tasks t k) (hn : s'.next = s.next) :
    Fresh s' := by
  intro u hu
  rw [hn] at hu
  rw [htasks, upd_ne _ _ (by omega)]
  exact hf u hu

structure Good (T : Tree) (P : Nat → Prop) (s : St) : Prop where
  inv : Inv T s
  kept : Kept T P s
  fresh : Fresh s

theorem good_init (T : Tree) (P : Nat → Prop) : Good T P init := ⟨(inv_init T P).1, (inv_init T P).2, fun t _ => ⟨rfl, rfl⟩⟩

/-- Steps that change nothing the invariant speaks about. -/
theorem Good.congr {s s' : St} (h : Good T P s) (h1 : s'.next = s.next) (h2 : s'.tasks = s.tasks) (h3 : s'.byId = s.byId) (h4 : s'.access = s.access)
    (h5 : s'.mounted = s.mounted) (h6 : s'.flag = s.flag) (h7 : s'.seen = s.seen) (h8 : s'.ver = s.ver) : Good T P s' := by
  refine ⟨⟨?_, ?_, ?_⟩, ?_, ?_⟩
  · rw [h3, h1, h2]; exact h.inv.byId
  · rw [h1, h2]; exact h.inv.ok
  · rw [h4, h1, h2]; exact h.inv.access
  · intro x
    rw [h5, h6, h7, h8, will_congr h1 h2]; exact h.kept x
  · intro t; rw [h1, h2]; exact h.fresh t

theorem running_shape {k : Task} {y : Nat} {p : Phase} {fs : List Frame} {o : Nat} (hk : k = ⟨o, .running, ⟨y, p⟩ :: fs⟩) (h : TaskOk T k) :
    Chain T o (⟨y, p⟩ :: fs) := by subst hk; exact h.1

theorem good_body {s : St} {t : Nat} {kids : List Nat} (h : Good T P s) : Good T P (step T s (.body t kids)) := by
    simp only [step]
    split
    · rename_i o y fs he
      have hlt : t < s.next := tasks_lt (fun t ht => (h.fresh t ht).1) he (by simp)
      have hch := running_shape he (h.inv.ok t hlt)
      refine ⟨put_inv h.inv hlt rfl rfl rfl (by rw [he]) ⟨hch.head rfl ?_, by simp, by simp⟩ ?_, ?_, put_fresh h.fresh hlt rfl rfl⟩
      · intro l hl c hc
        simp at hl; subst hl
        simpa using (List.mem_filter.1 hc).2
      · intro z u
        have hcases : ∀ z, Holds (⟨o, .running, ⟨y, .kids (kids.filter fun c => T.par c == some y)⟩ :: fs⟩ : Task) z ↔ Holds (s.tasks t) z := by
          intro z
          rw [he]
          simp [Holds]
        rw [hcases]
        by_cases hut : u = t
        · subst hut; simp [St.put, h.inv.access, hlt]
        · simp [St.put, hut]
      · intro x hm hd
        simp only [Bool.and_eq_true, Bool.or_eq_true, beq_iff_eq, List.any_eq_true, Bool.not_eq_true'] at hm
        obtain ⟨hm, hm2⟩ := hm
        by_cases hxy : x = y
        · subst hxy
          simp [St.put] at hd
        · simp only [upd_ne _ _ hxy] at hd
          obtain ⟨u, hu, b, hb, hbx⟩ := h.kept x hm hd
          by_cases hut : u = t
          · subst hut
            rw [he] at hb
            simp only [Task.work, stackWork, List.flatMap_cons, List.mem_append] at hb
            rcases hb with hb | hb
            · simp [Frame.work] at hb
              subst hb
              rcases hm2 with (hm2 | hm2) | ⟨c, hc, hcx⟩
              · exact absurd hm2 hxy
              · rw [hbx.1] at hm2; cases hm2
              · refine ⟨u, hlt, c, ?_, hcx, by simp [St.put]⟩
                simp only [St.put, upd_same, Task.work, stackWork, List.flatMap_cons, List.mem_append]
                exact .inl hc
            · refine ⟨u, hlt, b, ?_, hbx.1, by simp [St.put]⟩
              simp only [St.put, upd_same, Task.work, stackWork, List.flatMap_cons, List.mem_append]
              exact .inr hb
          · refine ⟨u, hu, b, ?_, hbx.1, ?_⟩ <;> simp only [St.put, upd_ne _ _ hut]
            · exact hb
            · exact hbx.2
    · exact h

theorem good_finish {s : St} {t : Nat} (h : Good T P s) : Good T P (finishCall s t) := by
    simp only [finishCall]
    split
    · rename_i o y fs he
      have hlt : t < s.next := tasks_lt (fun t ht => (h.fresh t ht).1) he (by simp)
      have hch := running_shape he (h.inv.ok t hlt)
      refine ⟨put_inv h.inv hlt rfl rfl rfl (by rw [he]) ⟨hch.tail, ?_, ?_⟩ ?_, ?_, put_fresh h.fresh hlt rfl rfl⟩
      · intro hs
        simp only at hs ⊢
        split at hs
        · cases hs
        · rename_i hne; intro h0; simp [h0] at hne
      · intro hs
        simp only at hs ⊢
        split at hs
        · rename_i he'; simpa using he'
        · simp at hs
      · intro z u
        simp only [upd_apply]
        by_cases hz : z = y
        · subst hz
          simp only [if_true]
          constructor
          · intro h; cases h
          · rintro (⟨rfl, f, hf, hf1, hf2⟩ | ⟨hut, h2⟩)
            · have := hch.depth f hf
              rw [hf1] at this
              simp at this
            · have h3 : s.access z = some t := by
                rw [h.inv.access, he]
                exact ⟨hlt, _, List.mem_cons_self .., rfl, by simp⟩
              rw [h3] at h2; cases h2; exact absurd rfl hut
        · rw [if_neg hz, h.inv.access]
          by_cases hut : u = t
          · subst hut
            simp only [hlt, true_and, ne_eq, not_true_eq_false, false_and, or_false]
            rw [he]
            constructor
            · rintro ⟨f, hf, hf1, hf2⟩
              rcases List.mem_cons.1 hf with rfl | hf
              · exact absurd hf1.symm hz
              · exact ⟨f, hf, hf1, hf2⟩
            · rintro ⟨f, hf, hf1, hf2⟩
              exact ⟨f, by simp [hf], hf1, hf2⟩
          · simp [hut, h.inv.access]
      · intro x hm hd
        obtain ⟨u, hu, b, hb, hbx⟩ := h.kept x hm hd
        by_cases hut : u = t
        · subst u
          rw [he] at hb
          simp only [Task.work, stackWork, List.flatMap_cons, List.mem_append, Frame.work, List.not_mem_nil, false_or] at hb
          have hne : fs.isEmpty = false := by
            cases fs with
            | nil => simp at hb
            | cons _ _ => rfl
          refine ⟨t, hu, b, ?_, hbx.1, ?_⟩
          · simp only [St.put, upd_same, hne, Task.work, stackWork]
            exact hb
          · simp [St.put, hne]
        · refine ⟨u, hu, b, ?_, hbx.1, ?_⟩ <;> simp only [St.put, upd_ne _ _ hut]
          · exact hb
          · exact hbx.2
    · exact h

/-- A body that fails is one without children, but for what is left behind. -/
theorem fail_granted {s : St} {t o y : Nat} {fs : List Frame} (he : s.tasks t = ⟨o, .running, ⟨y, .granted⟩ :: fs⟩) :
    failCall T s t = { step T s (.body t []) with left := (failCall T s t).left } := by
  simp only [failCall, step, he, leave, List.filter_nil, List.any_nil, Bool.or_false]
  rfl

/-- A failure before the body, after it, or none. -/
theorem fail_cases {C : St → Prop} {s : St} {t : Nat} (h : C s)
    (h1 : ∀ o y fs, s.tasks t = ⟨o, .running, ⟨y, .granted⟩ :: fs⟩ → ∀ l, C { step T s (.body t []) with left := l })
    (h2 : ∀ o y l fs, s.tasks t = ⟨o, .running, ⟨y, .kids l⟩ :: fs⟩ → C (leave T (s.put t ⟨o, .running, ⟨y, .kids []⟩ :: fs⟩) y)) :
    C (failCall T s t) := by
  obtain ⟨o, st, fs, he⟩ : ∃ o st fs, s.tasks t = ⟨o, st, fs⟩ := ⟨_, _, _, rfl⟩
  by_cases hst : st = .running
  · subst hst
    cases fs with
    | nil => simp only [failCall, he]; exact h
    | cons f fs =>
      obtain ⟨y, ph⟩ := f
      cases ph with
      | waiting => simp only [failCall, he]; exact h
      | granted => rw [fail_granted he]; exact h1 o y fs he _
      | kids l => simp only [failCall, he]; exact h2 o y l fs he
  · cases st <;> first | exact absurd rfl hst | (simp only [failCall, he]; exact h)

theorem good_fail {s : St} {t : Nat} (h : Good T P s) : Good T P (failCall T s t) := by
  refine fail_cases h (fun o y fs he l => (good_body h).congr rfl rfl rfl rfl rfl rfl rfl rfl) ?_
  intro o y l fs he
  have hlt : t < s.next := tasks_lt (fun t ht => (h.fresh t ht).1) he (by simp)
  have hch := running_shape he (h.inv.ok t hlt)
  refine ⟨put_inv h.inv hlt rfl rfl rfl (by rw [he]) ⟨hch.head rfl (by intro l hl c hc; simp at hl; subst hl; simp at hc), by simp, by simp⟩ ?_, ?_,
    put_fresh h.fresh hlt rfl rfl⟩
  · intro z u
    have hcases : Holds (⟨o, .running, ⟨y, .kids []⟩ :: fs⟩ : Task) z ↔ Holds (s.tasks t) z := by
      rw [he]
      simp [Holds]
    rw [hcases]
    show s.access z = some u ↔ _
    by_cases hut : u = t
    · subst hut; simp [h.inv.access, hlt]
    · simp [hut]
  · intro x hm hd
    simp only [leave, Bool.and_eq_true, Bool.or_eq_true, beq_iff_eq, Bool.not_eq_true'] at hm
    obtain ⟨u, hu, b, hb, hbx⟩ := h.kept x hm.1 hd
    by_cases hut : u = t
    · subst hut
      rw [he] at hb
      simp only [Task.work, stackWork, List.flatMap_cons, List.mem_append] at hb
      rcases hb with hb | hb
      · have hby := hch.kidsOk _ (List.mem_cons_self ..) l rfl b hb
        have hyx := le_trans (le_par hby) hbx.1
        rcases hm.2 with rfl | h3
        · have h4 := T.depth_par _ _ hby
          have h5 := (le_depth hbx.1).1
          simp only at h4
          omega
        · simp only [hyx] at h3; cases h3
      · refine ⟨u, hlt, b, ?_, hbx.1, by simp [leave, St.put]⟩
        simp only [leave, St.put, upd_same, Task.work, stackWork, List.flatMap_cons, List.mem_append]
        exact .inr hb
    · refine ⟨u, hu, b, ?_, hbx.1, ?_⟩ <;> simp only [leave, St.put, upd_ne _ _ hut]
      · exact hb
      · exact hbx.2

theorem good_step {s : St} {a : Act} (h : Good T P s) (ha : ∀ x v, a = .foreign x v → ¬ P x) : Good T P (step T s a) := by
  cases a with
  | foreign x v =>
    simp only [step]
    split
    · exact h
    · refine ⟨⟨h.inv.byId, h.inv.ok, h.inv.access⟩, ?_, h.fresh⟩
      intro y hm hd
      refine h.kept y hm ?_
      simp only at hm hd
      by_cases hyx : y = x
      · subst hyx
        rw [if_pos (by rw [hm]; rfl)] at hd
        exact hd.imp_right fun ⟨h1, _⟩ => absurd h1 (ha y v rfl)
      · rw [upd_ne _ _ hyx] at hd
        refine hd.imp_left fun hf => ?_
        split at hf
        · exact hf
        · rwa [upd_ne _ _ hyx] at hf
  | set x v =>
    simp only [step]
    split
    · exact h
    · refine ⟨schedule_inv x ⟨h.inv.byId, h.inv.ok, h.inv.access⟩, ?_, schedule_fresh x h.fresh⟩
      refine Kept.weaken (P := fun y => P y ∨ y = x) ?_ fun y hy => .inl hy
      exact schedule_kept h.kept rfl rfl rfl (fun y hy => by simp [upd_ne _ _ hy]) rfl rfl
  | start t =>
    simp only [step]
    split
    · rename_i hc
      have hst := (h.inv.ok t hc.1).2.2 (.inl hc.2)
      refine ⟨enter_inv h.inv rfl rfl ?_ (fun z => Iff.rfl), enter_kept h.inv h.kept hc.1 rfl ?_, enter_fresh h.inv h.fresh hc.1⟩
      · simp only [hst]
        exact ⟨rfl, by intro l hl; simp at hl⟩
      · intro b hb
        simp [Task.work, hc.2] at hb
        exact .inl hb
    · exact h
  | grant t =>
    simp only [step]
    split
    · rename_i o y fs he
      split
      · rename_i hacc
        have hlt : t < s.next := tasks_lt (fun t ht => (h.fresh t ht).1) he (by simp)
        have hch := running_shape he (h.inv.ok t hlt)
        refine ⟨put_inv h.inv hlt rfl rfl rfl (by rw [he]) ⟨hch.head rfl (by intro l hl; simp at hl), by simp, by simp⟩ ?_, ?_,
          put_fresh h.fresh hlt rfl rfl⟩
        · intro z u
          simp only [upd_apply]
          by_cases hz : z = y
          · subst hz
            simp only [if_true, Option.some.injEq]
            constructor
            · rintro rfl; exact .inl ⟨rfl, ⟨_, List.mem_cons_self .., rfl, by simp⟩⟩
            · rintro (⟨rfl, _⟩ | ⟨_, h2⟩)
              · rfl
              · rw [hacc] at h2; cases h2
          · rw [if_neg hz]
            constructor
            · intro hu
              by_cases hut : u = t
              · subst hut
                refine .inl ⟨rfl, ?_⟩
                have := ((h.inv.access z u).1 hu).2
                rw [he] at this
                obtain ⟨f, hf, hf1, hf2⟩ := this
                rcases List.mem_cons.1 hf with rfl | hf
                · simp at hf2
                · exact ⟨f, by simp [hf], hf1, hf2⟩
              · exact .inr ⟨hut, hu⟩
            · rintro (⟨rfl, h2⟩ | ⟨_, h2⟩)
              · rw [h.inv.access]
                refine ⟨hlt, ?_⟩
                rw [he]
                obtain ⟨f, hf, hf1, hf2⟩ := h2
                rcases List.mem_cons.1 hf with rfl | hf
                · exact absurd hf1.symm hz
                · exact ⟨f, by simp [hf], hf1, hf2⟩
              · exact h2
        · intro x hm hd
          obtain ⟨u, hu, b, hb, hbx⟩ := h.kept x hm hd
          by_cases hut : u = t
          · subst hut
            rw [he] at hb
            refine ⟨u, hu, b, ?_, hbx.1, ?_⟩
            · simpa [St.put, Task.work, stackWork, Frame.work] using hb
            · simp [St.put]
          · refine ⟨u, hu, b, ?_, hbx.1, ?_⟩ <;> simp only [St.put, upd_ne _ _ hut]
            · exact hb
            · exact hbx.2
      · exact h
    · exact h
  | body t kids => exact good_body h
  | next t =>
    simp only [step]
    split
    · rename_i o y c cs fs he
      have hlt : t < s.next := tasks_lt (fun t ht => (h.fresh t ht).1) he (by simp)
      have hch := running_shape he (h.inv.ok t hlt)
      have hk := hch.kidsOk _ (List.mem_cons_self ..)
      refine ⟨enter_inv h.inv (by rw [he]) rfl ?_ (fun z => by rw [he]; simp [Holds]), enter_kept h.inv h.kept hlt rfl ?_,
        enter_fresh h.inv h.fresh hlt⟩
      · refine ⟨hk _ rfl c (by simp), by intro l hl; simp at hl, ⟨cs, rfl⟩, hch.head rfl ?_⟩
        intro l hl d hd
        simp at hl; subst hl
        exact hk _ rfl d (by simp [hd])
      · intro b hb
        rw [he] at hb
        simp only [Task.work, stackWork, List.flatMap_cons, List.mem_append, Frame.work, List.mem_cons] at hb ⊢
        rcases hb with (hb | hb) | hb
        · exact .inl hb
        · exact .inr (.inl hb)
        · exact .inr (.inr hb)
    · exact h
  | finish t => exact good_finish h
  | die t =>
    simp only [step]
    split
    · rename_i hc
      refine ⟨put_inv h.inv hc.1 rfl rfl rfl rfl ⟨trivial, by simp, by simp⟩ ?_, ?_, put_fresh h.fresh hc.1 rfl rfl⟩
      · intro z u
        simp only [Holds, List.not_mem_nil, false_and, exists_false, and_false, false_or]
        split
        · rename_i hz
          rw [hz]
          constructor
          · intro h; cases h
          · rintro ⟨hu, h⟩; cases h; exact absurd rfl hu
        · rename_i hz
          constructor
          · intro hu
            refine ⟨?_, hu⟩
            rintro rfl; exact hz hu
          · exact fun h => h.2
      · intro x hm hd
        obtain ⟨u, hu, b, hb, hbx⟩ := h.kept x hm hd
        by_cases hut : u = t
        · subst u; simp [Task.work, hc.2] at hb
        · refine ⟨u, hu, b, ?_, hbx.1, ?_⟩ <;> simp only [St.put, upd_ne _ _ hut]
          · exact hb
          · exact hbx.2
    · exact h
  | fail t =>
    simp only [step]
    exact good_finish (good_fail h)
  | crash t =>
    simp only [step]
    split
    · rename_i hc
      have hst := (h.inv.ok t hc.1).2.2 (.inl hc.2.1)
      refine ⟨put_inv h.inv hc.1 rfl rfl rfl rfl ⟨by simp only [hst]; trivial, by simp, fun _ => hst⟩ ?_, ?_, put_fresh h.fresh hc.1 rfl rfl⟩
      · intro z u
        simp only [Holds, hst, List.not_mem_nil, false_and, exists_false, and_false, false_or]
        show s.access z = some u ↔ _
        constructor
        · intro hu
          refine ⟨?_, hu⟩
          rintro rfl
          obtain ⟨_, f, hf, _⟩ := (h.inv.access z u).1 hu
          rw [hst] at hf; simp at hf
        · exact fun h => h.2
      · intro x hm hd
        obtain ⟨u, hu, b, hb, hbx⟩ := h.kept x hm hd
        by_cases hut : u = t
        · subst u
          have hbx' := hbx.2 hc.2.1
          simp [Task.work, hc.2.1] at hb
          subst hb; subst hbx'
          have hm : s.mounted (s.tasks t).owner = true := hm
          rw [hc.2.2] at hm; cases hm
        · refine ⟨u, hu, b, ?_, hbx.1, ?_⟩ <;> simp only [St.put, upd_ne _ _ hut]
          · exact hb
          · exact hbx.2
    · exact h
  | lose x => exact h.congr rfl rfl rfl rfl rfl rfl rfl rfl
  | call => simp only [step]; split <;> first | exact h | exact h.congr rfl rfl rfl rfl rfl rfl rfl rfl
  | acquire =>
    simp only [step]
    split
    · split
      · exact h
      · split <;> exact h.congr rfl rfl rfl rfl rfl rfl rfl rfl
    · exact h
  | pick t =>
    simp only [step]
    split
    · split
      · split <;> first | exact h | exact h.congr rfl rfl rfl rfl rfl rfl rfl rfl
      · exact h
    · exact h
  | abort => exact h.congr rfl rfl rfl rfl rfl rfl rfl rfl

theorem good_run {s : St} (h : Good T P s) (acts : List Act) (ha : ∀ a ∈ acts, ∀ x v, a = .foreign x v → ¬ P x) : Good T P (run T s acts) := by
  induction acts generalizing s with
  | nil => exact h
  | cons a as ih =>
    simp only [run, List.foldl_cons]
    exact ih (good_step h (ha a (by simp))) (fun b hb => ha b (by simp [hb]))

/-- Every execution. -/
theorem good_any (acts : List Act) : Good T (fun _ => False) (run T init acts) :=
  good_run (good_init T _) acts fun _ _ _ _ _ h => h

/-- After a change in the thread of the loop. -/
theorem good_set {s : St} {x v : Nat} (h : Good T P s) (hs : s.seen x ≠ none) (hv : s.val x ≠ v) :
    Good T (fun y => P y ∨ y = x) (step T s (.set x v)) := by
  simp only [step]
  rw [if_neg (by simp [hs, hv])]
  refine ⟨schedule_inv x ⟨h.inv.byId, h.inv.ok, h.inv.access⟩, ?_, schedule_fresh x h.fresh⟩
  exact schedule_kept h.kept rfl rfl rfl (fun y hy => by simp [upd_ne _ _ hy]) rfl rfl

end Verif.Sched
