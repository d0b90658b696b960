import Verif.Hooks.Overlap
/-! # C120: calls of a setter that overlap -/
namespace Verif.Hooks.Overlap
variable {V : Type}

/-! ## Specification -/

/-- The call has begun and has neither returned nor raised. -/
def Going (log : List Obs) (i : Nat) : Prop := .called i ∈ log ∧ .returned i ∉ log ∧ .raised i ∉ log

/-- At some moment of the execution both calls were in progress. -/
def Together (eq : V → V → Bool) (v : V) (acts : List (Act V)) (i j : Nat) : Prop :=
  ∃ pre, pre <+: acts ∧ Going (run eq v pre).log i ∧ Going (run eq v pre).log j

/-- At some moment of the execution the first call had returned and the second had not begun. -/
def Earlier (eq : V → V → Bool) (v : V) (acts : List (Act V)) (i j : Nat) : Prop :=
  ∃ pre, pre <+: acts ∧ .returned i ∈ (run eq v pre).log ∧ .called j ∉ (run eq v pre).log

/-- The updates of these calls, one after the other. -/
def inOrder (updates : List (V → V)) (v : V) (l : List Nat) : V := l.foldl (fun v i => (updates[i]?.getD id) v) v

/-- A value given to the setter, or a function whose result does not depend on the state. -/
def Constant (f : V → V) : Prop := ∀ a b, f a = f b

/-- The equality is one, and the updates cannot tell equal values apart. -/
structure Lawful (eq : V → V → Bool) (updates : List (V → V)) : Prop where
  refl : ∀ a, eq a a = true
  symm : ∀ a b, eq a b = true → eq b a = true
  trans : ∀ a b c, eq a b = true → eq b c = true → eq a c = true
  respects : ∀ f ∈ updates, ∀ a b, eq a b = true → eq (f a) (f b) = true

/-- All returned calls took effect, one after the other, in an order in which a call that had returned before another began
comes before it; calls that raised had none; a call in progress may have taken effect. -/
def OneByOne (eq : V → V → Bool) (v : V) (acts : List (Act V)) : Prop :=
  ∃ order : List Nat, order.Nodup ∧
    (∀ i, .returned i ∈ (run eq v acts).log → i ∈ order) ∧
    (∀ i ∈ order, .called i ∈ (run eq v acts).log ∧ .raised i ∉ (run eq v acts).log) ∧
    order.Pairwise (fun i j => ¬ Earlier eq v acts j i) ∧
    eq (run eq v acts).value (inOrder (run eq v acts).updates v order) = true

/-! ## Proofs -/

theorem snoc_induction {α : Type} {P : List α → Prop} (h0 : P []) (h1 : ∀ l a, P l → P (l ++ [a])) (l : List α) : P l := by
  rw [← List.reverse_reverse l]
  induction l.reverse with
  | nil => exact h0
  | cons a t ih => rw [List.reverse_cons]; exact h1 _ _ ih

theorem run_snoc (eq : V → V → Bool) (v : V) (acts : List (Act V)) (a : Act V) :
    run eq v (acts ++ [a]) = step eq (run eq v acts) a := by simp [run]

/-- The log and the calls in progress agree. -/
structure Logged (s : St V) : Prop where
  called : ∀ i, .called i ∈ s.log ↔ i < s.updates.length
  going : ∀ i, s.calls i ≠ none ↔ Going s.log i
  ended : ∀ i, .returned i ∈ s.log ∨ .raised i ∈ s.log → i < s.updates.length
  once : ∀ i, .returned i ∈ s.log → .raised i ∉ s.log

/-- A call that moved on but did not end. -/
theorem Logged.moved {s : St V} (h : Logged s) {i : Nat} {c : Stage V} (hi : s.calls i ≠ none) (val : V) :
    Logged { s with value := val, calls := at_ s i (some c) } := by
  refine ⟨h.called, fun j => ?_, h.ended, h.once⟩
  rw [← h.going j]
  by_cases e : j = i
  · subst e; simp [at_, hi]
  · simp [at_, e]

theorem Logged.returned {s : St V} (h : Logged s) {i : Nat} (hi : s.calls i ≠ none) (asked : V) :
    Logged { s with asked := asked, calls := at_ s i none, log := s.log ++ [.returned i] } := by
  have hg := (h.going i).1 hi
  refine ⟨fun j => ?_, fun j => ?_, fun j => ?_, fun j => ?_⟩
  · simp [h.called j]
  · by_cases e : j = i
    · subst e; simp [at_, Going]
    · have := h.going j
      simp only [Going] at this
      simp [at_, Going, e, this]
  · simp only [List.mem_append, List.mem_singleton, Obs.returned.injEq, reduceCtorEq, or_false]
    rintro ((hj | rfl) | hj)
    · exact h.ended j (.inl hj)
    · exact (h.called _).1 hg.1
    · exact h.ended j (.inr hj)
  · simp only [List.mem_append, List.mem_singleton, Obs.returned.injEq, reduceCtorEq, or_false]
    rintro (hj | rfl)
    · exact h.once j hj
    · exact hg.2.2

theorem Logged.raised {s : St V} (h : Logged s) {i : Nat} (hi : s.calls i ≠ none) :
    Logged { s with calls := at_ s i none, log := s.log ++ [.raised i] } := by
  have hg := (h.going i).1 hi
  refine ⟨fun j => ?_, fun j => ?_, fun j => ?_, fun j => ?_⟩
  · simp [h.called j]
  · by_cases e : j = i
    · subst e; simp [at_, Going]
    · have := h.going j
      simp only [Going] at this
      simp [at_, Going, e, this]
  · simp only [List.mem_append, List.mem_singleton, Obs.raised.injEq, reduceCtorEq, or_false]
    rintro (hj | hj | rfl)
    · exact h.ended j (.inl hj)
    · exact h.ended j (.inr hj)
    · exact (h.called _).1 hg.1
  · simp only [List.mem_append, List.mem_singleton, Obs.raised.injEq, reduceCtorEq, or_false]
    rintro hj (hj' | rfl)
    · exact h.once j hj hj'
    · exact hg.2.1 hj

theorem Logged.step {s : St V} (h : Logged s) (eq : V → V → Bool) (a : Act V) : Logged (step eq s a) := by
  cases a with
  | call f =>
    simp only [Overlap.step]
    have hn := (h.called s.updates.length)
    refine ⟨fun j => ?_, fun j => ?_, fun j => ?_, fun j => ?_⟩
    · simp only [List.mem_append, h.called j, List.mem_singleton, Obs.called.injEq, List.length_append, List.length_singleton]
      omega
    · have hg := h.going j
      have he := h.ended j
      simp only [Going] at hg
      by_cases e : j = s.updates.length
      · subst e
        simp only [at_, Going, List.mem_append, List.mem_singleton, reduceCtorEq, or_false, if_true, ne_eq, not_false_eq_true, true_iff, or_true, true_and]
        exact ⟨fun hr => absurd (he (.inl hr)) (Nat.lt_irrefl _), fun hr => absurd (he (.inr hr)) (Nat.lt_irrefl _)⟩
      · simp [at_, Going, e, hg]
    · have he := h.ended j
      simp only [List.mem_append, List.mem_singleton, reduceCtorEq, or_false, List.length_append, List.length_singleton]
      intro hj; have := he hj; omega
    · simpa using h.once j
  | compute i =>
    simp only [Overlap.step]
    split
    · rename_i hc _; exact h.moved (by simp [hc]) s.value
    · exact h
  | fail i =>
    simp only [Overlap.step]
    split
    · rename_i hc; exact h.raised (by simp [hc])
    · exact h
  | compare i =>
    simp only [Overlap.step]
    split
    · rename_i hc
      split
      · exact h.returned (by simp [hc]) s.asked
      · exact h.moved (by simp [hc]) s.value
    · exact h
  | assign i =>
    simp only [Overlap.step]
    split
    · rename_i hc; exact h.moved (by simp [hc]) _
    · exact h
  | ask i =>
    simp only [Overlap.step]
    split
    · rename_i hc; exact h.returned (by simp [hc]) s.value
    · exact h

theorem logged (eq : V → V → Bool) (v : V) (acts : List (Act V)) : Logged (run eq v acts) := by
  induction acts using snoc_induction with
  | h0 => exact ⟨by simp [run, init], by simp [run, init, Going], by simp [run, init], by simp [run, init]⟩
  | h1 l a ih => rw [run_snoc]; exact ih.step eq a

/-- What a call in progress will assign is what its update makes of the present value. -/
def Good (f : V → V) (value : V) : Stage V → Prop
  | .computing r => f r = f value
  | .computed n => n = f value
  | .differs n => n = f value
  | .assigned => True

theorem log_step (eq : V → V → Bool) (s : St V) (a : Act V) {x : Obs} (h : x ∈ s.log) : x ∈ (step eq s a).log := by
  cases a <;> simp only [step] <;> (repeat' split) <;> simp [h]

theorem updates_step (eq : V → V → Bool) (s : St V) (a : Act V) : s.updates <+: (step eq s a).updates := by
  cases a <;> simp only [step] <;> (repeat' split) <;> simp

theorem prefix_snoc {α : Type} {pre l : List α} {a : α} (h : pre <+: l ++ [a]) : pre = l ++ [a] ∨ pre <+: l := by
  obtain ⟨t, ht⟩ := h
  rcases List.eq_nil_or_concat t with rfl | ⟨t', x, rfl⟩
  · left; simpa using ht
  · right
    rw [List.concat_eq_append, ← List.append_assoc] at ht
    exact ⟨t', (List.append_inj' ht rfl).1⟩

theorem log_prefix (eq : V → V → Bool) (v : V) (acts : List (Act V)) {x : Obs} : ∀ pre, pre <+: acts → x ∈ (run eq v pre).log →
    x ∈ (run eq v acts).log := by
  induction acts using snoc_induction with
  | h0 => intro pre hp hx; rwa [List.prefix_nil.1 hp] at hx
  | h1 l a ih =>
    intro pre hp hx
    rcases prefix_snoc hp with rfl | hp
    · exact hx
    · rw [run_snoc]; exact log_step eq _ a (ih pre hp hx)

theorem earlier_snoc {eq : V → V → Bool} {v : V} {acts : List (Act V)} {a : Act V} {i j : Nat}
    (hi : .called i ∈ (run eq v acts).log) (h : Earlier eq v (acts ++ [a]) j i) : Earlier eq v acts j i := by
  obtain ⟨pre, hp, hr, hc⟩ := h
  rcases prefix_snoc hp with rfl | hp
  · exact absurd (log_prefix eq v _ _ (List.prefix_append acts [a]) hi) hc
  · exact ⟨pre, hp, hr, hc⟩

theorem inOrder_more (us more : List (V → V)) : ∀ (l : List Nat) (v : V), (∀ i ∈ l, i < us.length) →
    inOrder (us ++ more) v l = inOrder us v l
  | [], _, _ => rfl
  | i :: l, v, h => by
    have hi := h i (by simp)
    show inOrder (us ++ more) ((us ++ more)[i]?.getD id v) l = inOrder us (us[i]?.getD id v) l
    rw [List.getElem?_append_left hi]
    exact inOrder_more us more l _ fun j hj => h j (by simp [hj])

theorem inOrder_snoc (us : List (V → V)) (v : V) (l : List Nat) (i : Nat) (f : V → V) (hf : us[i]? = some f) :
    inOrder us v (l ++ [i]) = f (inOrder us v l) := by
  simp [inOrder, hf]

/-- Only constant updates overlap others. -/
def Apart (eq : V → V → Bool) (v : V) (acts : List (Act V)) : Prop :=
  ∀ i j f, (run eq v acts).updates[i]? = some f → i ≠ j → Together eq v acts i j → Constant f

theorem getElem?_prefix {α : Type} {a b : List α} (h : a <+: b) {i : Nat} {x : α} (hx : a[i]? = some x) : b[i]? = some x := by
  obtain ⟨t, rfl⟩ := h
  have : i < a.length := (List.getElem?_eq_some_iff.1 hx).1
  rwa [List.getElem?_append_left this]

theorem Apart.snoc {eq : V → V → Bool} {v : V} {acts : List (Act V)} {a : Act V} (h : Apart eq v (acts ++ [a])) : Apart eq v acts := by
  intro i j f hf hij ⟨pre, hp, ht⟩
  refine h i j f ?_ hij ⟨pre, hp.trans (List.prefix_append _ _), ht⟩
  rw [run_snoc]
  exact getElem?_prefix (updates_step eq _ a) hf

theorem Lawful.mono {eq : V → V → Bool} {us us' : List (V → V)} (h : Lawful eq us') (hp : us <+: us') : Lawful eq us :=
  ⟨h.refl, h.symm, h.trans, fun f hf => h.respects f (hp.subset hf)⟩

/-- The invariant. -/
structure Inv (eq : V → V → Bool) (v : V) (acts : List (Act V)) (order : List Nat) : Prop where
  nodup : order.Nodup
  mem : ∀ i, i ∈ order ↔ .returned i ∈ (run eq v acts).log ∨ (run eq v acts).calls i = some .assigned
  pairwise : order.Pairwise (fun i j => ¬ Earlier eq v acts j i)
  value : eq (run eq v acts).value (inOrder (run eq v acts).updates v order) = true
  good : ∀ i c f, (run eq v acts).calls i = some c → (run eq v acts).updates[i]? = some f → Good f (run eq v acts).value c

theorem Inv.called {eq : V → V → Bool} {v : V} {acts : List (Act V)} {order : List Nat} (h : Inv eq v acts order) {i : Nat}
    (hi : i ∈ order) : .called i ∈ (run eq v acts).log := by
  have hl := logged eq v acts
  rcases (h.mem i).1 hi with hr | ha
  · exact (hl.called i).2 (hl.ended i (.inl hr))
  · exact ((hl.going i).1 (by simp [ha])).1

/-- The order stays. -/
theorem Inv.same {eq : V → V → Bool} {v : V} {acts : List (Act V)} {order : List Nat} (h : Inv eq v acts order) (a : Act V)
    (mem : ∀ i, (.returned i ∈ (run eq v (acts ++ [a])).log ∨ (run eq v (acts ++ [a])).calls i = some .assigned) ↔
      (.returned i ∈ (run eq v acts).log ∨ (run eq v acts).calls i = some .assigned))
    (value : (run eq v (acts ++ [a])).value = (run eq v acts).value)
    (good : ∀ i c f, (run eq v (acts ++ [a])).calls i = some c → (run eq v (acts ++ [a])).updates[i]? = some f →
      Good f (run eq v acts).value c) : Inv eq v (acts ++ [a]) order := by
  have hu := updates_step eq (run eq v acts) a
  rw [← run_snoc] at hu
  obtain ⟨more, hm⟩ := hu
  refine ⟨h.nodup, fun i => by rw [h.mem, mem], h.pairwise.imp_of_mem fun hi _ hn he => hn (earlier_snoc (h.called hi) he), ?_, ?_⟩
  · rw [value, ← hm, inOrder_more]
    · exact h.value
    · exact fun i hi => ((logged eq v acts).called i).1 (h.called hi)
  · intro i c f hc hf; rw [value]; exact good i c f hc hf

/-- A call takes effect. -/
theorem Inv.take {eq : V → V → Bool} {v : V} {acts : List (Act V)} {order : List Nat} (h : Inv eq v acts order) (a : Act V) (k : Nat)
    (hk : (run eq v acts).calls k ≠ none) (hk' : (run eq v acts).calls k ≠ some .assigned)
    (mem : ∀ i, (.returned i ∈ (run eq v (acts ++ [a])).log ∨ (run eq v (acts ++ [a])).calls i = some .assigned) ↔
      (.returned i ∈ (run eq v acts).log ∨ (run eq v acts).calls i = some .assigned) ∨ i = k)
    (updates : (run eq v (acts ++ [a])).updates = (run eq v acts).updates)
    (value : eq (run eq v (acts ++ [a])).value (inOrder (run eq v acts).updates v (order ++ [k])) = true)
    (good : ∀ i c f, (run eq v (acts ++ [a])).calls i = some c → (run eq v acts).updates[i]? = some f →
      Good f (run eq v (acts ++ [a])).value c) : Inv eq v (acts ++ [a]) (order ++ [k]) := by
  have hg := ((logged eq v acts).going k).1 hk
  have hko : k ∉ order := by
    rw [h.mem]; rintro (hr | ha)
    · exact hg.2.1 hr
    · exact hk' ha
  refine ⟨?_, fun i => ?_, ?_, by rw [updates]; exact value, by rw [updates]; exact good⟩
  · rw [List.nodup_append]
    refine ⟨h.nodup, by simp, ?_⟩
    intro x hx y hy e
    rw [List.mem_singleton.1 hy] at e
    exact hko (e ▸ hx)
  · rw [mem, List.mem_append, h.mem, List.mem_singleton]
  · rw [List.pairwise_append]
    refine ⟨h.pairwise.imp_of_mem fun hi _ hn he => hn (earlier_snoc (h.called hi) he), by simp, ?_⟩
    intro i hi j hj he
    rw [List.mem_singleton.1 hj] at he
    obtain ⟨pre, hp, hr, _⟩ := earlier_snoc (h.called hi) he
    exact hg.2.1 (log_prefix eq v acts pre hp hr)

theorem inv_step {eq : V → V → Bool} {v : V} {acts : List (Act V)} {order : List Nat} (h : Inv eq v acts order) (a : Act V)
    (hw : Lawful eq (run eq v (acts ++ [a])).updates) (ha : Apart eq v (acts ++ [a])) : ∃ order', Inv eq v (acts ++ [a]) order' := by
  have hl := logged eq v acts
  have hup := run_snoc eq v acts a ▸ updates_step eq (run eq v acts) a
  have hap := ha.snoc
  -- the update of a call in progress
  have hsome : ∀ i, (run eq v acts).calls i ≠ none → ∃ f, (run eq v acts).updates[i]? = some f := by
    intro i hi
    have := (hl.called i).1 ((hl.going i).1 hi).1
    exact ⟨_, List.getElem?_eq_getElem this⟩
  cases a with
  | call f =>
    have e := run_snoc eq v acts (.call f)
    simp only [step] at e
    refine ⟨order, h.same _ (fun i => ?_) (by rw [e]) ?_⟩
    · rw [e]
      by_cases hi : i = (run eq v acts).updates.length
      · have : (run eq v acts).calls i = none := by
          apply Classical.byContradiction; intro hne
          have := (hl.called i).1 ((hl.going i).1 hne).1
          omega
        simp [at_, hi ▸ this, hi]
      · simp [at_, hi]
    · intro i c g hc hg
      rw [e] at hc hg
      simp only [at_] at hc
      split at hc
      · cases hc; rfl
      · rename_i hi
        have hlt := (hl.called i).1 ((hl.going i).1 (by simp [hc])).1
        simp only [List.getElem?_append_left hlt] at hg
        exact h.good i c g hc hg
  | compute i =>
    have e := run_snoc eq v acts (.compute i)
    simp only [step] at e
    split at e
    · rename_i r f hc hf
      refine ⟨order, h.same _ (fun j => ?_) (by rw [e]) ?_⟩
      · rw [e]; by_cases hj : j = i
        · subst hj; simp [at_, hc]
        · simp [at_, hj]
      · intro j c g hc' hg
        rw [e] at hc' hg
        simp only [at_] at hc'
        split at hc'
        · rename_i hj; subst hj; cases hc'
          have he : f = g := Option.some.inj (hf.symm.trans hg)
          subst he
          exact h.good j (.computing r) f hc hf
        · exact h.good j c g hc' hg
    · refine ⟨order, h.same _ (fun j => by rw [e]) (by rw [e]) ?_⟩
      rw [e]; exact h.good
  | fail i =>
    have e := run_snoc eq v acts (.fail i)
    simp only [step] at e
    split at e
    · rename_i r hc
      refine ⟨order, h.same _ (fun j => ?_) (by rw [e]) ?_⟩
      · rw [e]; by_cases hj : j = i
        · subst hj; simp [at_, hc]
        · simp [at_, hj]
      · intro j c g hc' hg
        rw [e] at hc' hg
        simp only [at_] at hc'
        split at hc'
        · cases hc'
        · exact h.good j c g hc' hg
    · refine ⟨order, h.same _ (fun j => by rw [e]) (by rw [e]) ?_⟩
      rw [e]; exact h.good
  | compare i =>
    have e := run_snoc eq v acts (.compare i)
    simp only [step] at e
    split at e
    · rename_i n hc
      obtain ⟨f, hf⟩ := hsome i (by simp [hc])
      have hn : n = f (run eq v acts).value := h.good i _ f hc hf
      split at e
      · rename_i heq
        refine ⟨order ++ [i], h.take _ i (by simp [hc]) (by simp [hc]) (fun j => ?_) (by rw [e]) ?_ ?_⟩
        · rw [e]; by_cases hj : j = i
          · subst hj; simp [at_]
          · simp [at_, hj]
        · rw [e, inOrder_snoc _ _ _ _ f hf]
          have hr := hw.respects f (hup.subset (List.mem_of_getElem? hf)) _ _ h.value
          rw [← hn] at hr
          exact hw.trans _ _ _ (hw.symm _ _ heq) hr
        · intro j c g hc' hg
          rw [e] at hc' ⊢
          simp only [at_] at hc'
          split at hc'
          · cases hc'
          · exact h.good j c g hc' hg
      · refine ⟨order, h.same _ (fun j => ?_) (by rw [e]) ?_⟩
        · rw [e]; by_cases hj : j = i
          · subst hj; simp [at_, hc]
          · simp [at_, hj]
        · intro j c g hc' hg
          rw [e] at hc' hg
          simp only [at_] at hc'
          split at hc'
          · rename_i hj; subst hj; cases hc'
            exact h.good j (.computed n) g hc hg
          · exact h.good j c g hc' hg
    · refine ⟨order, h.same _ (fun j => by rw [e]) (by rw [e]) ?_⟩
      rw [e]; exact h.good
  | assign i =>
    have e := run_snoc eq v acts (.assign i)
    simp only [step] at e
    split at e
    · rename_i n hc
      obtain ⟨f, hf⟩ := hsome i (by simp [hc])
      have hn : n = f (run eq v acts).value := h.good i _ f hc hf
      refine ⟨order ++ [i], h.take _ i (by simp [hc]) (by simp [hc]) (fun j => ?_) (by rw [e]) ?_ ?_⟩
      · rw [e]; by_cases hj : j = i
        · subst hj; simp [at_]
        · simp [at_, hj]
      · rw [e, inOrder_snoc _ _ _ _ f hf]
        have hr := hw.respects f (hup.subset (List.mem_of_getElem? hf)) _ _ h.value
        rw [← hn] at hr
        exact hr
      · intro j c g hc' hg
        rw [e] at hc' ⊢
        simp only [at_] at hc'
        split at hc'
        · cases hc'; trivial
        · rename_i hj
          have hk : Constant g := hap j i g hg hj
            ⟨acts, List.prefix_rfl, (hl.going j).1 (by simp [hc']), (hl.going i).1 (by simp [hc])⟩
          have hg' := h.good j c g hc' hg
          cases c with
          | computing r => exact hk _ _
          | computed m => simp only [Good] at hg' ⊢; rw [hg']; exact hk _ _
          | differs m => simp only [Good] at hg' ⊢; rw [hg']; exact hk _ _
          | assigned => trivial
    · refine ⟨order, h.same _ (fun j => by rw [e]) (by rw [e]) ?_⟩
      rw [e]; exact h.good
  | ask i =>
    have e := run_snoc eq v acts (.ask i)
    simp only [step] at e
    split at e
    · rename_i hc
      refine ⟨order, h.same _ (fun j => ?_) (by rw [e]) ?_⟩
      · rw [e]; by_cases hj : j = i
        · subst hj; simp [at_, hc]
        · simp [at_, hj]
      · intro j c g hc' hg
        rw [e] at hc' hg
        simp only [at_] at hc'
        split at hc'
        · cases hc'
        · exact h.good j c g hc' hg
    · refine ⟨order, h.same _ (fun j => by rw [e]) (by rw [e]) ?_⟩
      rw [e]; exact h.good

/-! ## Theorems -/

/-- **C120 (partial).** In every execution in which no call that is given an updater function overlaps another call, all updates take
effect, one after the other, in the order of the calls where they do not overlap.  Partial: values may be set at the same time, from
any thread or in an updater function of other state; updater functions during which the same state is updated are excluded
(`C120_nested_violated`, `C120_threads_violated`). -/
theorem C120_partial (eq : V → V → Bool) (v : V) (acts : List (Act V)) (hw : Lawful eq (run eq v acts).updates)
    (ha : ∀ i j f, (run eq v acts).updates[i]? = some f → i ≠ j → Together eq v acts i j → Constant f) : OneByOne eq v acts := by
  have : ∃ order, Inv eq v acts order := by
    revert hw ha
    induction acts using snoc_induction with
    | h0 =>
      intro hw _
      refine ⟨[], by simp, by simp [run, init], by simp, hw.refl _, by simp [run, init]⟩
    | h1 l a ih =>
      intro hw ha
      obtain ⟨order, h⟩ := ih (hw.mono (run_snoc eq v l a ▸ updates_step eq _ a)) (Apart.snoc ha)
      exact inv_step h a hw ha
  obtain ⟨order, h⟩ := this
  have hl := logged eq v acts
  refine ⟨order, h.nodup, fun i hi => (h.mem i).2 (.inl hi), fun i hi => ⟨h.called hi, ?_⟩, h.pairwise, h.value⟩
  rcases (h.mem i).1 hi with hr | hr
  · exact hl.once i hr
  · exact ((hl.going i).1 (by simp [hr])).2.2

/-- **C120.** In every execution, overlapping updater functions included: when no call is in progress a render has been asked
for since the state last changed. -/
theorem C120_asked (eq : V → V → Bool) (v : V) (acts : List (Act V)) (hq : ∀ i, ¬ Going (run eq v acts).log i) :
    (run eq v acts).asked = (run eq v acts).value := by
  have key : (run eq v acts).asked = (run eq v acts).value ∨ ∃ i, (run eq v acts).calls i = some .assigned := by
    clear hq
    induction acts using snoc_induction with
    | h0 => exact .inl rfl
    | h1 l a ih =>
      rw [run_snoc]
      have hl := logged eq v l
      generalize run eq v l = s at ih hl
      have other : ∀ i c, s.calls i ≠ some .assigned → (∃ k, s.calls k = some .assigned) →
          ∃ k, at_ s i c k = some .assigned := by
        rintro i c hi ⟨k, hk⟩
        refine ⟨k, ?_⟩
        have : k ≠ i := by rintro rfl; exact hi hk
        simp [at_, this, hk]
      cases a <;> simp only [step]
      · refine ih.imp id (other _ _ ?_)
        intro hc
        have := (hl.called _).1 ((hl.going s.updates.length).1 (by simp [hc])).1
        omega
      · split
        · rename_i hc _; exact ih.imp id (other _ _ (by simp [hc]))
        · exact ih
      · split
        · rename_i hc; exact ih.imp id (other _ _ (by simp [hc]))
        · exact ih
      · split
        · rename_i hc
          split
          · exact ih.imp id (other _ _ (by simp [hc]))
          · exact ih.imp id (other _ _ (by simp [hc]))
        · exact ih
      · split
        · rename_i i _ _ _; exact .inr ⟨i, by simp [at_]⟩
        · exact ih
      · split
        · exact .inl rfl
        · exact ih
  rcases key with h | ⟨i, hi⟩
  · exact h
  · exact absurd (((logged eq v acts).going i).1 (by simp [hi])) (hq i)

/-- **C120.** In every execution in which the setter is called with values only, from however many threads, all of them take effect, one
after the other. -/
theorem C120_values (eq : V → V → Bool) (v : V) (acts : List (Act V)) (hw : Lawful eq (run eq v acts).updates)
    (hc : ∀ f ∈ (run eq v acts).updates, Constant f) : OneByOne eq v acts :=
  C120_partial eq v acts hw fun _ _ f hf _ _ => hc f (List.mem_of_getElem? hf)

/-! ## Cases -/

theorem lawful_nat (us : List (Nat → Nat)) : Lawful (fun a b => decide (a = b)) us :=
  ⟨by simp, by simp, by simp, by simp⟩

/-- Two values set at the same time, then an increment. -/
def good : List (Act Nat) := [.call (fun _ => 5), .call (fun _ => 7), .compute 1, .compute 0, .compare 0, .compare 1, .assign 1, .assign 0,
  .ask 1, .ask 0, .call (· + 1), .compute 2, .compare 2, .assign 2, .ask 2]

/-- The increment overlaps no other call. -/
theorem good_apart : ∀ i j f, (run (fun a b => decide (a = b)) 0 good).updates[i]? = some f → i ≠ j →
    Together (fun a b => decide (a = b)) 0 good i j → Constant f := by
  rintro i j f hf hij ⟨pre, hp, hi, hj⟩
  have e : (run (fun a b => decide (a = b)) 0 good).updates = [(fun _ => 5), (fun _ => 7), (· + 1)] := rfl
  rw [e] at hf
  match i with
  | 0 => cases hf; exact fun _ _ => rfl
  | 1 => cases hf; exact fun _ _ => rfl
  | 2 =>
    exfalso
    have hj3 : j < 3 := ((logged _ 0 good).called j).1 (log_prefix _ 0 good pre hp hj.1)
    have hn : pre.length < 16 := Nat.lt_succ_of_le hp.length_le
    have hpre := List.prefix_iff_eq_take.1 hp
    have all : ∀ n ∈ List.range 16, ∀ j ∈ [0, 1], ¬ ((Obs.called 2 ∈ (run (fun a b => decide (a = b)) 0 (good.take n)).log ∧
        Obs.returned 2 ∉ (run (fun a b => decide (a = b)) 0 (good.take n)).log) ∧
        (Obs.called j ∈ (run (fun a b => decide (a = b)) 0 (good.take n)).log ∧
        Obs.returned j ∉ (run (fun a b => decide (a = b)) 0 (good.take n)).log)) := by decide +kernel
    rw [hpre] at hi hj
    exact all _ (List.mem_range.2 hn) j (by simp; omega) ⟨⟨hi.1, hi.2.1⟩, ⟨hj.1, hj.2.1⟩⟩
  | n + 3 => simp at hf

example : OneByOne (fun a b => decide (a = b)) 0 good := C120_partial _ 0 good (lawful_nat _) good_apart
example : (run (fun a b => decide (a = b)) 0 good).value = 6 := by decide +kernel

example : OneByOne (fun a b => decide (a = b)) 0 (good.take 10) := C120_values _ 0 _ (lawful_nat _) (by
  have e : (run (fun a b => decide (a = b)) 0 (good.take 10)).updates = [(fun _ => 5), (fun _ => 7)] := rfl
  rw [e]; intro f hf
  rcases List.mem_cons.1 hf with rfl | hf
  · exact fun _ _ => rfl
  · rw [List.mem_singleton.1 hf]; exact fun _ _ => rfl)

example : (run (fun a b => decide (a = b)) 0 good).asked = 6 :=
  (C120_asked _ 0 good fun i h => by
    have hi : i < 3 := ((logged _ 0 good).called i).1 h.1
    have : ∀ i < 3, Obs.returned i ∈ (run (fun a b => decide (a = b)) 0 good).log := by decide +kernel
    exact h.2.1 (this i hi)).trans (by decide +kernel)

theorem two (l : List Nat) (hn : l.Nodup) (h0 : 0 ∈ l) (h1 : 1 ∈ l) (h : ∀ i ∈ l, i < 2) : l = [0, 1] ∨ l = [1, 0] := by
  match l with
  | [] => simp at h0
  | [a] => simp at h0 h1; omega
  | [a, b] => simp at h0 h1 hn h ⊢; omega
  | a :: b :: c :: l => simp at hn h; omega

/-- Both calls have returned and neither order of them yields the value. -/
theorem not_oneByOne (v : Nat) (acts : List (Act Nat)) (f g : Nat → Nat)
    (hu : (run (fun a b => decide (a = b)) v acts).updates = [f, g])
    (h0 : .returned 0 ∈ (run (fun a b => decide (a = b)) v acts).log) (h1 : .returned 1 ∈ (run (fun a b => decide (a = b)) v acts).log)
    (hfg : (run (fun a b => decide (a = b)) v acts).value ≠ g (f v)) (hgf : (run (fun a b => decide (a = b)) v acts).value ≠ f (g v)) :
    ¬ OneByOne (fun a b => decide (a = b)) v acts := by
  rintro ⟨order, hn, hr, hc, _, hv⟩
  rw [hu] at hv
  have hlt : ∀ i ∈ order, i < 2 := fun i hi => by
    have := ((logged _ v acts).called i).1 (hc i hi).1
    rwa [hu] at this
  rcases two order hn (hr 0 h0) (hr 1 h1) hlt with rfl | rfl
  · exact hfg (by simpa [inOrder] using hv)
  · exact hgf (by simpa [inOrder] using hv)

/-- An updater function that itself calls the setter: the outer call's function runs from the first step to the last but one. -/
def nested (f g : Nat → Nat) : List (Act Nat) := [.call f, .call g, .compute 1, .compare 1, .assign 1, .ask 1,
  .compute 0, .compare 0, .assign 0, .ask 0]

/-- **C120 is violated** by an updater function that calls the setter of the same state: of two increments, one inside the other, one is lost;
and an updater function that sets 5 and returns what it was given undoes it. -/
theorem C120_nested_violated :
    ((run (fun a b => decide (a = b)) 0 (nested (· + 1) (· + 1))).value = 1 ∧
      ¬ OneByOne (fun a b => decide (a = b)) 0 (nested (· + 1) (· + 1))) ∧
    (run (fun a b => decide (a = b)) 0 (nested id (fun _ => 5))).value = 0 ∧
      ¬ OneByOne (fun a b => decide (a = b)) 0 (nested id (fun _ => 5)) :=
  ⟨⟨by decide +kernel, not_oneByOne 0 _ (· + 1) (· + 1) rfl (by decide +kernel) (by decide +kernel) (by decide +kernel) (by decide +kernel)⟩,
    by decide +kernel, not_oneByOne 0 _ id (fun _ => 5) rfl (by decide +kernel) (by decide +kernel) (by decide +kernel) (by decide +kernel)⟩

/-- **C120 is violated** by two threads that increment the state at the same time: one increment is lost. -/
theorem C120_threads_violated : ∃ acts : List (Act Nat), (run (fun a b => decide (a = b)) 0 acts).updates = [(· + 1), (· + 1)] ∧
    (run (fun a b => decide (a = b)) 0 acts).value = 1 ∧ ¬ OneByOne (fun a b => decide (a = b)) 0 acts :=
  ⟨[.call (· + 1), .call (· + 1), .compute 0, .compute 1, .compare 0, .compare 1, .assign 0, .assign 1, .ask 0, .ask 1], rfl,
    by decide +kernel, not_oneByOne 0 _ (· + 1) (· + 1) rfl (by decide +kernel) (by decide +kernel) (by decide +kernel) (by decide +kernel)⟩

end Verif.Hooks.Overlap
