import Verif.Hooks.Spec
namespace Verif.Hooks
variable {V : Type}

/-! ### Cells -/

structure CInv (w : World V) : Prop where
  idx : ∀ i, (w.hooks i).rendered = false → (w.hooks i).index = (w.hooks i).state.length
  lt : ∀ i r, r ∈ (w.hooks i).state → r < w.heap.length
  got : ∀ i k r, .got i k r ∈ w.log → (w.hooks i).state[k]? = some r
  made : ∀ i k r v, .made i k r v ∈ w.log → (w.hooks i).state[k]? = some r
  has : ∀ (i k r : Nat), (w.hooks i).state[k]? = some r → ∃ v, .made i k r v ∈ w.log
  inj : ∀ (i j k l r : Nat), (w.hooks i).state[k]? = some r → (w.hooks j).state[l]? = some r → i = j ∧ k = l
  val : ∀ i k r v v', .made i k r v ∈ w.log → .made i k r v' ∈ w.log → v = v'
  did : ∀ i, .did i ∈ w.log → (w.hooks i).rendered = true
  first : ∀ l1 l2 i k r v, w.log = l1 ++ .made i k r v :: l2 → .did i ∉ l2

theorem cinv_init : CInv ({} : World V) := by
  constructor <;> simp

theorem split_cons {α} {a : α} {l l1 l2 : List α} {b : α} (h : a :: l = l1 ++ b :: l2) :
    (l1 = [] ∧ a = b ∧ l = l2) ∨ ∃ l1', l1 = a :: l1' ∧ l = l1' ++ b :: l2 := by
  cases l1 with
  | nil => simp at h; exact .inl ⟨rfl, h.1, h.2⟩
  | cons x l1 => simp at h; obtain ⟨rfl, h⟩ := h; exact .inr ⟨l1, rfl, h⟩

theorem set_self (w : World V) (i : Nat) (h : Hook) : w.set i h i = h := by simp [World.set]
theorem set_ne (w : World V) {i j : Nat} (h : Hook) (hj : j ≠ i) : w.set i h j = w.hooks j := by simp [World.set, hj]

/-- Changing only `index`/`rendered` of a hook and adding a harmless event preserves the invariant. -/
theorem cinv_touch {w : World V} (hw : CInv w) (i : Nat) (h : Hook) (e : Ev V)
    (hs : h.state = (w.hooks i).state) (hi : h.rendered = false → h.index = h.state.length)
    (hr : (w.hooks i).rendered = true → h.rendered = true)
    (he : (∃ k r, e = .got i k r ∧ h.state[k]? = some r) ∨ (e = .did i ∧ h.rendered = true)) :
    CInv { w with hooks := w.set i h, log := e :: w.log } := by
  have st : ∀ j, (w.set i h j).state = (w.hooks j).state := by
    intro j; by_cases hj : j = i
    · subst hj; rw [set_self, hs]
    · rw [set_ne _ _ hj]
  constructor
  · intro j hj
    by_cases hji : j = i
    · subst hji; simp only [set_self] at hj ⊢; exact hi hj
    · simp only [set_ne _ _ hji] at hj ⊢; exact hw.idx j hj
  · intro j r hr'; simp only [st] at hr'; exact hw.lt j r hr'
  · intro j k r hg
    simp only [List.mem_cons] at hg
    simp only [st]
    rcases hg with hg | hg
    · rcases he with ⟨k', r', rfl, h2⟩ | ⟨rfl, _⟩
      · cases hg; rw [← hs]; exact h2
      · simp at hg
    · exact hw.got j k r hg
  · intro j k r v hm
    simp only [List.mem_cons] at hm
    simp only [st]
    rcases hm with hm | hm
    · rcases he with ⟨k', r', rfl, h2⟩ | ⟨rfl, _⟩ <;> simp at hm
    · exact hw.made j k r v hm
  · intro j k r hk
    simp only [st] at hk
    obtain ⟨v, hv⟩ := hw.has j k r hk
    exact ⟨v, by simp [hv]⟩
  · intro j j' k l r h1 h2
    simp only [st] at h1 h2
    exact hw.inj j j' k l r h1 h2
  · intro j k r v v' h1 h2
    simp only [List.mem_cons] at h1 h2
    have hx : ∀ v, e ≠ .made j k r v := by rcases he with ⟨k', r', rfl, _⟩ | ⟨rfl, _⟩ <;> simp
    rcases h1 with h1 | h1
    · exact absurd h1.symm (hx v)
    · rcases h2 with h2 | h2
      · exact absurd h2.symm (hx v')
      · exact hw.val j k r v v' h1 h2
  · intro j hd
    simp only [List.mem_cons] at hd
    by_cases hji : j = i
    · subst hji
      simp only [set_self]
      rcases hd with hd | hd
      · rcases he with ⟨k', r', rfl, _⟩ | ⟨rfl, h2⟩
        · simp at hd
        · exact h2
      · exact hr (hw.did j hd)
    · simp only [set_ne _ _ hji]
      rcases hd with hd | hd
      · rcases he with ⟨k', r', rfl, _⟩ | ⟨rfl, _⟩
        · simp at hd
        · simp at hd; exact absurd hd hji
      · exact hw.did j hd
  · intro l1 l2 j k r v hl
    rcases split_cons hl with ⟨_, h2, _⟩ | ⟨l1', _, h2⟩
    · rcases he with ⟨k', r', rfl, _⟩ | ⟨rfl, _⟩ <;> simp at h2
    · exact hw.first l1' l2 j k r v h2

theorem cinv_log {w : World V} (hw : CInv w) (e : Ev V) (heap : List V) (hh : heap.length = w.heap.length)
    (he : (∃ i k, e = .raised i k) ∨ ∃ r v, e = .wrote r v) :
    CInv { w with heap := heap, log := e :: w.log } := by
  have n1 : ∀ i k r, e ≠ .got i k r := by rcases he with ⟨_, _, rfl⟩ | ⟨_, _, rfl⟩ <;> simp
  have n2 : ∀ i k r v, e ≠ .made i k r v := by rcases he with ⟨_, _, rfl⟩ | ⟨_, _, rfl⟩ <;> simp
  have n3 : ∀ i, e ≠ .did i := by rcases he with ⟨_, _, rfl⟩ | ⟨_, _, rfl⟩ <;> simp
  constructor
  · exact hw.idx
  · intro i r hr; show r < heap.length; rw [hh]; exact hw.lt i r hr
  · intro i k r h; simp only [List.mem_cons] at h
    rcases h with h | h
    · exact absurd h.symm (n1 i k r)
    · exact hw.got i k r h
  · intro i k r v h; simp only [List.mem_cons] at h
    rcases h with h | h
    · exact absurd h.symm (n2 i k r v)
    · exact hw.made i k r v h
  · intro i k r h
    obtain ⟨v, hv⟩ := hw.has i k r h
    exact ⟨v, by simp [hv]⟩
  · exact hw.inj
  · intro i k r v v' h1 h2; simp only [List.mem_cons] at h1 h2
    rcases h1 with h1 | h1
    · exact absurd h1.symm (n2 i k r v)
    · rcases h2 with h2 | h2
      · exact absurd h2.symm (n2 i k r v')
      · exact hw.val i k r v v' h1 h2
  · intro i h; simp only [List.mem_cons] at h
    rcases h with h | h
    · exact absurd h.symm (n3 i)
    · exact hw.did i h
  · intro l1 l2 i k r v hl
    rcases split_cons hl with ⟨_, h2, _⟩ | ⟨l1', _, h2⟩
    · exact absurd h2 (n2 i k r v)
    · exact hw.first l1' l2 i k r v h2

theorem cinv_step {w : World V} (hw : CInv w) (op : Op V) : CInv (w.step op) := by
  cases op with
  | did i =>
    exact cinv_touch hw i _ _ rfl (by simp) (by simp) (.inr ⟨rfl, rfl⟩)
  | write r v => exact cinv_log hw _ _ (by simp) (.inr ⟨_, _, rfl⟩)
  | use i init =>
    simp only [World.step]
    by_cases hr : (w.hooks i).rendered = false
    · rw [if_pos hr]
      cases init with
      | error e => exact cinv_log hw _ _ rfl (.inl ⟨_, _, rfl⟩)
      | ok v =>
        have hidx := hw.idx i hr
        have hlt : ∀ (j k r : Nat), (w.hooks j).state[k]? = some r → r < w.heap.length := by
          intro j k r h; exact hw.lt j r (List.mem_of_getElem? h)
        have hnd : Ev.did i ∉ w.log := fun h => by rw [hw.did i h] at hr; simp at hr
        have hget : ∀ (k r : Nat), ((w.hooks i).state ++ [w.heap.length])[k]? = some r →
            (w.hooks i).state[k]? = some r ∨ (k = (w.hooks i).state.length ∧ r = w.heap.length) := by
          intro k r h
          rw [List.getElem?_append] at h
          split at h
          · exact .inl h
          · rename_i hk
            cases hd : k - (w.hooks i).state.length with
            | zero => rw [hd] at h; simp at h; exact .inr ⟨by omega, h.symm⟩
            | succ n => rw [hd] at h; simp at h
        have hgetI : ∀ (k r : Nat), (w.hooks i).state[k]? = some r → ((w.hooks i).state ++ [w.heap.length])[k]? = some r := by
          intro k r h
          rw [List.getElem?_append_left (by
            rcases Nat.lt_or_ge k (w.hooks i).state.length with h' | h'
            · exact h'
            · rw [List.getElem?_eq_none h'] at h; simp at h)]
          exact h
        have stI : ∀ (j k r : Nat), (w.hooks j).state[k]? = some r →
            ((w.set i { (w.hooks i) with state := (w.hooks i).state ++ [w.heap.length], index := (w.hooks i).index + 1 }) j).state[k]? = some r := by
          intro j k r h
          by_cases hj : j = i
          · subst hj; rw [set_self]; exact hgetI k r h
          · rw [set_ne _ _ hj]; exact h
        have st : ∀ (j k r : Nat),
            ((w.set i { (w.hooks i) with state := (w.hooks i).state ++ [w.heap.length], index := (w.hooks i).index + 1 }) j).state[k]? = some r →
            (w.hooks j).state[k]? = some r ∨ (j = i ∧ k = (w.hooks i).state.length ∧ r = w.heap.length) := by
          intro j k r h
          by_cases hj : j = i
          · subst hj; rw [set_self] at h
            rcases hget k r h with h | h
            · exact .inl h
            · exact .inr ⟨rfl, h⟩
          · rw [set_ne _ _ hj] at h; exact .inl h
        constructor
        · intro j hj
          by_cases hji : j = i
          · subst hji; simp only [set_self]; simp; exact hidx
          · simp only [set_ne _ _ hji] at hj ⊢; exact hw.idx j hj
        · intro j r hr'
          simp only [List.length_append, List.length_singleton]
          obtain ⟨k, hk⟩ := List.mem_iff_getElem?.1 hr'
          rcases st j k r hk with h | ⟨_, _, rfl⟩
          · have := hlt j k r h; omega
          · omega
        · intro j k r hg
          simp only [List.mem_cons, Ev.got.injEq] at hg
          rcases hg with ⟨rfl, rfl, rfl⟩ | hg | hg
          · simp only [set_self, hidx]; simp
          · simp at hg
          · exact stI j k r (hw.got j k r hg)
        · intro j k r v' hg
          simp only [List.mem_cons, Ev.made.injEq] at hg
          rcases hg with hg | ⟨rfl, rfl, rfl, rfl⟩ | hg
          · simp at hg
          · simp only [set_self, hidx]; simp
          · exact stI j k r (hw.made j k r v' hg)
        · intro j k r hk
          rcases st j k r hk with h | ⟨rfl, rfl, rfl⟩
          · obtain ⟨v', hv⟩ := hw.has j k r h
            exact ⟨v', by simp [hv]⟩
          · exact ⟨v, by simp [hidx]⟩
        · intro j j' k l r h1 h2
          rcases st j k r h1 with h3 | ⟨rfl, rfl, rfl⟩
          · rcases st j' l r h2 with h4 | ⟨rfl, rfl, rfl⟩
            · exact hw.inj j j' k l r h3 h4
            · exact absurd (hlt _ _ _ h3) (Nat.lt_irrefl _)
          · rcases st j' l _ h2 with h4 | ⟨rfl, rfl, _⟩
            · exact absurd (hlt _ _ _ h4) (Nat.lt_irrefl _)
            · exact ⟨rfl, rfl⟩
        · intro j k r v1 v2 h1 h2
          simp only [List.mem_cons, Ev.made.injEq] at h1 h2
          rcases h1 with h1 | ⟨rfl, rfl, rfl, rfl⟩ | h1
          · simp at h1
          · rcases h2 with h2 | ⟨_, _, _, rfl⟩ | h2
            · simp at h2
            · rfl
            · exact absurd (hlt _ _ _ (hw.made _ _ _ _ h2)) (by omega)
          · rcases h2 with h2 | ⟨rfl, rfl, rfl, rfl⟩ | h2
            · simp at h2
            · exact absurd (hlt _ _ _ (hw.made _ _ _ _ h1)) (by omega)
            · exact hw.val j k r v1 v2 h1 h2
        · intro j hd
          simp only [List.mem_cons] at hd
          rcases hd with hd | hd | hd
          · simp at hd
          · simp at hd
          · by_cases hji : j = i
            · subst hji; exact absurd hd hnd
            · simp only [set_ne _ _ hji]; exact hw.did j hd
        · intro l1 l2 j k r v' hl
          rcases split_cons hl with ⟨_, h2, _⟩ | ⟨l1', _, h2⟩
          · simp at h2
          · rcases split_cons h2 with ⟨_, h3, rfl⟩ | ⟨l1'', _, h3⟩
            · simp only [Ev.made.injEq] at h3
              rw [← h3.1]; exact hnd
            · exact hw.first l1'' l2 j k r v' h3
    · rw [if_neg hr]
      split
      · exact cinv_log hw _ _ rfl (.inl ⟨_, _, rfl⟩)
      · rename_i ref hk
        refine cinv_touch hw i _ _ rfl ?_ (fun h => h) (.inl ⟨_, _, rfl, hk⟩)
        intro h; exact absurd h hr

theorem run_append (w : World V) (a b : List (Op V)) : w.run (a ++ b) = (w.run a).run b := by
  simp [World.run, List.foldl_append]

theorem cinv_run (ops : List (Op V)) {w : World V} (hw : CInv w) : CInv (w.run ops) := by
  induction ops generalizing w with
  | nil => exact hw
  | cons o ops ih => exact ih (cinv_step hw o)

theorem latest_step (w : World V) (h : ∀ r, latest r w.log = w.heap[r]?) (op : Op V) :
    ∀ r, latest r (w.step op).log = (w.step op).heap[r]? := by
  intro r
  cases op with
  | did i => exact h r
  | write r' v =>
    simp only [World.step, latest, List.getElem?_set, h r]
    by_cases hr : r' = r
    · subst hr
      by_cases hl : r' < w.heap.length
      · simp [hl]
      · simp [hl]
    · simp [hr]
  | use i init =>
    simp only [World.step]
    split
    · split
      · exact h r
      · simp only [latest, h r, List.getElem?_append]
        by_cases hr : w.heap.length = r
        · subst hr; simp
        · simp only [hr, if_false]
          split
          · rfl
          · rename_i h1
            have : r - w.heap.length ≠ 0 := by omega
            cases hd : r - w.heap.length with
            | zero => exact absurd hd this
            | succ n => rw [List.getElem?_eq_none (by omega)]; simp
    · split <;> exact h r

theorem latest_run (ops : List (Op V)) (w : World V) (h : ∀ r, latest r w.log = w.heap[r]?) :
    ∀ r, latest r (w.run ops).log = (w.run ops).heap[r]? := by
  induction ops generalizing w with
  | nil => exact h
  | cons o ops ih => exact ih (w.step o) (latest_step w h o)

/-! ### Renders -/

/-- `calls` hook calls on an already rendered hook, none raising. -/
theorem uses_ok (i : Nat) (inits : List (Except Unit V)) (w : World V)
    (hr : (w.hooks i).rendered = true) (hn : (w.hooks i).index + inits.length ≤ (w.hooks i).state.length) :
    let w' := w.run (inits.map (.use i))
    (w'.hooks i).rendered = true ∧ (w'.hooks i).index = (w.hooks i).index + inits.length ∧
    (w'.hooks i).state = (w.hooks i).state ∧ (∀ k, .raised i k ∈ w'.log → .raised i k ∈ w.log) := by
  induction inits generalizing w with
  | nil => exact ⟨hr, by simp [World.run], rfl, fun k h => h⟩
  | cons a inits ih =>
    simp only [List.length_cons] at hn
    have hlt : (w.hooks i).index < (w.hooks i).state.length := by omega
    have hstep : w.step (.use i a) = { w with
        hooks := w.set i { (w.hooks i) with index := (w.hooks i).index + 1 }
        log := .got i (w.hooks i).index ((w.hooks i).state[(w.hooks i).index]) :: w.log } := by
      simp only [World.step, hr, Bool.true_eq_false, if_false]
      rw [List.getElem?_eq_getElem hlt]
    have := ih (w.step (.use i a)) (by rw [hstep]; simp [set_self, hr]) (by rw [hstep]; simp [set_self]; omega)
    simp only [List.map_cons, World.run, List.foldl_cons] at this ⊢
    obtain ⟨h1, h2, h3, h4⟩ := this
    refine ⟨h1, ?_, ?_, ?_⟩
    · rw [h2, hstep]; simp [set_self]; omega
    · rw [h3, hstep]; simp [set_self]
    · intro k hk
      have := h4 k hk
      rw [hstep] at this
      simpa using this

/-- The first render: every call creates an object. -/
theorem uses_first (i : Nat) (vs : List V) (w : World V) (hr : (w.hooks i).rendered = false) :
    let w' := w.run (vs.map (fun v => .use i (.ok v)))
    (w'.hooks i).rendered = false ∧ (w'.hooks i).state.length = (w.hooks i).state.length + vs.length ∧
    (∀ k, .raised i k ∈ w'.log → .raised i k ∈ w.log) := by
  induction vs generalizing w with
  | nil => exact ⟨hr, by simp [World.run], fun k h => h⟩
  | cons a vs ih =>
    have hstep : w.step (.use i (.ok a)) = {
        heap := w.heap ++ [a]
        hooks := w.set i { (w.hooks i) with state := (w.hooks i).state ++ [w.heap.length], index := (w.hooks i).index + 1 }
        log := .got i (w.hooks i).index w.heap.length :: .made i (w.hooks i).index w.heap.length a :: w.log } := by
      simp only [World.step, hr, if_true]
    have := ih (w.step (.use i (.ok a))) (by rw [hstep]; simp [set_self, hr])
    simp only [List.map_cons, World.run, List.foldl_cons] at this ⊢
    obtain ⟨h1, h2, h3⟩ := this
    refine ⟨h1, ?_, ?_⟩
    · rw [h2, hstep]; simp [set_self]; omega
    · intro k hk
      have := h3 k hk
      rw [hstep] at this
      simpa using this

/-! ### Memo -/

theorem check_deps_of_same {D} {eq : D → D → Bool} {m : Memo D V} {d : Option (List D)}
    (h : (m.check eq d).2 = false) : ∃ d', d = some d' ∧ sameDeps eq m.deps d' = true ∧ (m.check eq d).1 = m ∧ m.value.isSome := by
  simp only [Memo.check] at h ⊢
  split at h
  · simp at h
  · rename_i v hv
    split at h
    · simp at h
    · split at h
      · rename_i d' hd
        exact ⟨d', rfl, hd, by simp [hd], by simp [hv]⟩
      · simp at h


theorem check_changed {D} {eq : D → D → Bool} {m : Memo D V} {d : Option (List D)}
    (h : (m.check eq d).2 = true) :
    (m.check eq d).1 = { m with deps := d.getD [] } ∧
      (m.value = none ∨ d = none ∨ ∃ d', d = some d' ∧ sameDeps eq m.deps d' = false) := by
  simp only [Memo.check] at h ⊢
  split
  · rename_i hv; exact ⟨rfl, .inl hv⟩
  · rename_i v hv
    rw [hv] at h
    cases d with
    | none => exact ⟨rfl, .inr (.inl rfl)⟩
    | some d' =>
      by_cases hd : sameDeps eq m.deps d' = true
      · simp [hd] at h
      · simp [hd]

theorem use_ok_eq {D} (eq : D → D → Bool) (m : Memo D V) (d : Option (List D)) (v : V) :
    m.use eq d (.ok v) = if (m.check eq d).2 = true
      then ({ value := some v, deps := d.getD [] }, .ok (some v), true)
      else (m, .ok m.value, false) := by
  by_cases h : (m.check eq d).2 = true
  · rw [if_pos h]
    have h1 := (check_changed h).1
    simp only [Memo.use]
    rw [show m.check eq d = ((m.check eq d).1, (m.check eq d).2) from rfl, h, h1]
  · rw [if_neg h]
    simp only [Bool.not_eq_true] at h
    obtain ⟨d', _, _, h1, _⟩ := check_deps_of_same h
    simp only [Memo.use]
    rw [show m.check eq d = ((m.check eq d).1, (m.check eq d).2) from rfl, h, h1]

theorem use_called {D} (eq : D → D → Bool) (m : Memo D V) (d : Option (List D)) (v : V) :
    (m.use eq d (.ok v)).2.2 = (m.check eq d).2 := by
  rw [use_ok_eq]
  by_cases hc : (m.check eq d).2 = true
  · rw [if_pos hc, hc]
  · rw [if_neg hc]; simpa using hc

theorem run_snoc {D} (eq : D → D → Bool) (rs : List (Option (List D) × Except Unit V)) (r) :
    Memo.run eq (rs ++ [r]) = ((Memo.run eq rs).use eq r.1 r.2).1 := by
  simp [Memo.run]

/-- With functions that never raise: the memo holds the value and dependencies of the last render that
called its function, and all later renders passed equal dependencies. -/
def Holds {D} (eq : D → D → Bool) (rs : List (Option (List D) × Except Unit V)) (m : Memo D V) : Prop :=
  (rs = [] ∧ m = {}) ∨ ∃ pre d v post, rs = pre ++ (d, .ok v) :: post ∧ m = { value := some v, deps := d.getD [] } ∧
    ∀ q ∈ post, ∃ d', q.1 = some d' ∧ sameDeps eq (d.getD []) d' = true

theorem holds_use {D} (eq : D → D → Bool) {rs : List (Option (List D) × Except Unit V)} {m : Memo D V}
    (h : Holds eq rs m) (d v) : Holds eq (rs ++ [(d, .ok v)]) (m.use eq d (.ok v)).1 := by
  rw [use_ok_eq]
  by_cases hc : (m.check eq d).2 = true
  · rw [if_pos hc]
    exact .inr ⟨rs, d, v, [], rfl, rfl, by simp⟩
  · rw [if_neg hc]
    simp only [Bool.not_eq_true] at hc
    obtain ⟨d', rfl, hd, h1, h2⟩ := check_deps_of_same hc
    rcases h with ⟨_, rfl⟩ | ⟨pre, d0, v0, post, rfl, rfl, hp⟩
    · simp at h2
    · refine .inr ⟨pre, d0, v0, post ++ [(some d', .ok v)], by simp, rfl, ?_⟩
      intro q hq
      simp only [List.mem_append, List.mem_singleton] at hq
      rcases hq with hq | rfl
      · exact hp q hq
      · exact ⟨d', rfl, hd⟩

theorem snocInd {α} {P : List α → Prop} (h0 : P []) (h1 : ∀ l a, P l → P (l ++ [a])) (l : List α) : P l := by
  have : ∀ l : List α, P l.reverse := by
    intro l
    induction l with
    | nil => exact h0
    | cons a l ih => rw [List.reverse_cons]; exact h1 _ _ ih
  simpa using this l.reverse

theorem holds_run {D} (eq : D → D → Bool) (rs : List (Option (List D) × Except Unit V))
    (hok : ∀ r ∈ rs, ∃ v, r.2 = .ok v) : Holds eq rs (Memo.run eq rs) := by
  revert hok
  refine snocInd (P := fun rs => (∀ r ∈ rs, ∃ v, r.2 = .ok v) → Holds eq rs (Memo.run eq rs)) ?_ ?_ rs
  · intro _; exact .inl ⟨rfl, rfl⟩
  · intro rs r ih hok
    obtain ⟨v, hv⟩ := hok r (by simp)
    rw [run_snoc, hv]
    obtain ⟨d, o⟩ := r
    simp only at hv
    subst hv
    exact holds_use eq (ih (fun r hr => hok r (by simp [hr]))) d v

theorem sameDeps_iff {D} (eq : D → D → Bool) (a b : List D) :
    sameDeps eq a b = true ↔ a.length = b.length ∧ ∀ (i : Nat) (x y : D), a[i]? = some x → b[i]? = some y → eq x y = true := by
  simp only [sameDeps, Bool.and_eq_true, beq_iff_eq, List.all_eq_true]
  constructor
  · rintro ⟨h1, h2⟩
    refine ⟨h1, fun i x y hx hy => h2 (x, y) ?_⟩
    apply List.mem_of_getElem? (i := i)
    rw [List.getElem?_zip_eq_some]
    exact ⟨hx, hy⟩
  · rintro ⟨h1, h2⟩
    refine ⟨h1, fun p hp => ?_⟩
    obtain ⟨i, hi⟩ := List.mem_iff_getElem?.1 hp
    rw [List.getElem?_zip_eq_some] at hi
    exact h2 i p.1 p.2 hi.1 hi.2

/-- `eq` is an equivalence relation. -/
structure Equiv {D : Type} (eq : D → D → Bool) : Prop where
  refl : ∀ x, eq x x = true
  symm : ∀ x y, eq x y = true → eq y x = true
  trans : ∀ x y z, eq x y = true → eq y z = true → eq x z = true

theorem sameDeps_spec {D} (eq : D → D → Bool) (a b : List D) : sameDeps eq a b = true ↔ EqualDeps eq a b := by
  induction a generalizing b with
  | nil => cases b <;> simp [sameDeps, EqualDeps]
  | cons x a ih =>
    cases b with
    | nil => simp [sameDeps, EqualDeps]
    | cons y b =>
      rw [EqualDeps, ← ih]
      simp only [sameDeps, List.length_cons, List.zip_cons_cons, List.all_cons, Bool.and_eq_true, beq_iff_eq]
      constructor
      · rintro ⟨h1, h2, h3⟩; exact ⟨h2, by omega, h3⟩
      · rintro ⟨h2, h1, h3⟩; exact ⟨by omega, h2, h3⟩

/-! ### What a call answers -/

structure PInv (w : World V) : Prop where
  pos : ∀ i, (w.hooks i).index = position i w.log
  len : ∀ i, (w.hooks i).state.length = madeFor i w.log
  did : ∀ i, (w.hooks i).rendered = true ↔ .did i ∈ w.log

theorem pinv_step {w : World V} (hw : PInv w) (op : Op V) : PInv (w.step op) := by
  cases op with
  | write r v => exact ⟨hw.pos, hw.len, fun i => by rw [show ((w.step (.write r v)).hooks i) = w.hooks i from rfl, hw.did i]; simp [World.step]⟩
  | did i =>
    refine ⟨fun j => ?_, fun j => ?_, fun j => ?_⟩ <;> by_cases hj : j = i
    · subst hj; simp [World.step, set_self, position]
    · simp [World.step, set_ne _ _ hj, position, hw.pos j, Ne.symm hj]
    · subst hj; simp [World.step, set_self, madeFor, hw.len j]
    · simp [World.step, set_ne _ _ hj, madeFor, hw.len j]
    · subst hj; simp [World.step, set_self]
    · simp [World.step, set_ne _ _ hj, hw.did j, hj]
  | use i init =>
    simp only [World.step]
    split
    · split
      · exact ⟨hw.pos, hw.len, fun j => by simp [hw.did j]⟩
      · refine ⟨fun j => ?_, fun j => ?_, fun j => ?_⟩ <;> by_cases hj : j = i
        · subst hj; simp [set_self, position, hw.pos j]
        · simp [set_ne _ _ hj, position, hw.pos j, Ne.symm hj]
        · subst hj; simp [set_self, madeFor, hw.len j]
        · simp [set_ne _ _ hj, madeFor, hw.len j, Ne.symm hj]
        · subst hj; simp [set_self, hw.did j]
        · simp [set_ne _ _ hj, hw.did j]
    · split
      · exact ⟨hw.pos, hw.len, fun j => by simp [hw.did j]⟩
      · refine ⟨fun j => ?_, fun j => ?_, fun j => ?_⟩ <;> by_cases hj : j = i
        · subst hj; simp [set_self, position, hw.pos j]
        · simp [set_ne _ _ hj, position, hw.pos j, Ne.symm hj]
        · subst hj; simp [set_self, madeFor, hw.len j]
        · simp [set_ne _ _ hj, madeFor, hw.len j]
        · subst hj; simp [set_self, hw.did j]
        · simp [set_ne _ _ hj, hw.did j]

theorem pinv_run (ops : List (Op V)) {w : World V} (hw : PInv w) : PInv (w.run ops) := by
  induction ops generalizing w with
  | nil => exact hw
  | cons o ops ih => exact ih (pinv_step hw o)

theorem pinv_init : PInv ({} : World V) := by
  constructor <;> simp [position, madeFor]

theorem sameDeps_symm {D} {eq : D → D → Bool} (h : Equiv eq) {a b : List D} (hab : sameDeps eq a b = true) :
    sameDeps eq b a = true := by
  rw [sameDeps_iff] at *
  exact ⟨hab.1.symm, fun i x y hx hy => h.symm _ _ (hab.2 i y x hy hx)⟩

theorem sameDeps_refl {D} {eq : D → D → Bool} (h : Equiv eq) (a : List D) : sameDeps eq a a = true := by
  rw [sameDeps_iff]
  refine ⟨rfl, fun i x y hx hy => ?_⟩
  rw [hx] at hy; cases hy; exact h.refl x

theorem sameDeps_trans {D} {eq : D → D → Bool} (h : Equiv eq) {a b c : List D} (hab : sameDeps eq a b = true)
    (hbc : sameDeps eq b c = true) : sameDeps eq a c = true := by
  rw [sameDeps_iff] at *
  refine ⟨hab.1.trans hbc.1, fun i x z hx hz => ?_⟩
  have hi : i < b.length := by
    rcases Nat.lt_or_ge i b.length with h' | h'
    · exact h'
    · rw [List.getElem?_eq_none (by omega)] at hx; simp at hx
  exact h.trans _ _ _ (hab.2 i x b[i] hx (List.getElem?_eq_getElem hi)) (hbc.2 i b[i] z (List.getElem?_eq_getElem hi) hz)

/-- With an equivalence, the recorded dependencies are equal to those of the last render. -/
theorem holds_last {D} {eq : D → D → Bool} (he : Equiv eq) {rs : List (Option (List D) × Except Unit V)} {m : Memo D V}
    {p : Option (List D) × Except Unit V} (h : Holds eq (rs ++ [p]) m) :
    m.value.isSome ∧ sameDeps eq m.deps (p.1.getD []) = true := by
  rcases h with ⟨h, _⟩ | ⟨pre, d, v, post, h, rfl, hp⟩
  · simp at h
  · refine ⟨rfl, ?_⟩
    rcases List.eq_nil_or_concat post with rfl | ⟨post', q, rfl⟩
    · have := List.append_inj' h (by simp)
      simp at this
      rw [this.2]
      exact sameDeps_refl he _
    · obtain ⟨d', h1, h2⟩ := hp q (by simp)
      have : rs ++ [p] = (pre ++ (d, .ok v) :: post') ++ [q] := by rw [h]; simp
      have := List.append_inj' this (by simp)
      simp at this
      rw [this.2, h1]
      exact h2

theorem sameDeps_left {D} {eq : D → D → Bool} (he : Equiv eq) {a b c : List D} (hab : sameDeps eq a b = true) :
    sameDeps eq a c = sameDeps eq b c := by
  rw [Bool.eq_iff_iff]
  exact ⟨fun h => sameDeps_trans he (sameDeps_symm he hab) h, fun h => sameDeps_trans he hab h⟩

theorem check_snd {D} (eq : D → D → Bool) (m : Memo D V) (d : Option (List D)) :
    (m.check eq d).2 = true ↔ m.value = none ∨ d = none ∨ ∃ d', d = some d' ∧ sameDeps eq m.deps d' = false := by
  simp only [Memo.check]
  cases hv : m.value with
  | none => simp
  | some v =>
    cases d with
    | none => simp
    | some d' => by_cases hd : sameDeps eq m.deps d' = true <;> simp [hd]

theorem substr_iff (p s : List Char) : substr p s = true ↔ ∃ a b, s = a ++ p ++ b := by
  induction s with
  | nil =>
    cases p <;> simp [substr]
  | cons c s ih =>
    simp only [substr, Bool.or_eq_true, ih, List.isPrefixOf_iff_prefix]
    constructor
    · rintro (⟨b, h⟩ | ⟨a, b, h⟩)
      · exact ⟨[], b, by simpa using h.symm⟩
      · exact ⟨c :: a, b, by simp [h]⟩
    · rintro ⟨a, b, h⟩
      cases a with
      | nil => exact .inl ⟨b, by simpa using h.symm⟩
      | cons x a => simp at h; exact .inr ⟨a, b, by simp [h.2]⟩

theorem isLocalName_iff {q : String} : isLocalName q = true ↔ LocalName q := by
  rw [isLocalName, Bool.or_eq_true, substr_iff, substr_iff]
  constructor
  · rintro (⟨a, b, h⟩ | ⟨a, b, h⟩)
    · exact ⟨a, b, .inl h⟩
    · exact ⟨a, b, .inr h⟩
  · rintro ⟨a, b, h | h⟩
    · exact .inl ⟨a, b, h⟩
    · exact .inr ⟨a, b, h⟩

end Verif.Hooks
