import Verif.Testing.Catcher
/-!
# `HookCatcher`: property C117
-/
namespace Verif.Testing.Catcher

/-! ## Specification -/

/-- The call gives the argument `name` as a keyword, with the value `v` (of several, Python takes none: they cannot be written). -/
def Gives (a : Call) (name : String) (v : Val) : Prop := ∃ l r, a.kwargs = l ++ (name, v) :: r ∧ ∀ p ∈ l, p.1 ≠ name

/-- The call is caught: the catcher exists, a component is being rendered, and the argument by which it indexes is given as a keyword and can be a key. -/
def Caught (name : Option String) (a : Call) (h : Nat) : Prop :=
  a.exists_ = true ∧ a.hook = some h ∧ ∀ n, name = some n → ∃ v, Gives a n v ∧ v.hashable = true

/-- The last call of the list for which `P` holds. -/
def IsLast (P : Call → Prop) (l : List Call) (a : Call) : Prop := ∃ l1 l2, l = l1 ++ a :: l2 ∧ P a ∧ ∀ b ∈ l2, ¬ P b

/-! ## Lemmas -/

theorem lookup_iff {l : List (String × Val)} {n : String} {v : Val} : l.lookup n = some v ↔ ∃ a r, l = a ++ (n, v) :: r ∧ ∀ p ∈ a, p.1 ≠ n := by
  induction l with
  | nil => simp
  | cons p l ih =>
    obtain ⟨m, w⟩ := p
    rw [List.lookup_cons]
    by_cases h : n = m
    · subst h
      simp only [beq_self_eq_true]
      constructor
      · rintro ⟨⟩
        exact ⟨[], l, rfl, by simp⟩
      · rintro ⟨a, r, e, ha⟩
        cases a with
        | nil => simp at e; rw [e.1]
        | cons q a =>
          simp at e
          exact absurd (by rw [← e.1]) (ha q (by simp))
    · have hb : (n == m) = false := by simpa using h
      rw [hb]
      simp only
      rw [ih]
      constructor
      · rintro ⟨a, r, e, ha⟩
        refine ⟨(m, w) :: a, r, by rw [e]; rfl, ?_⟩
        intro p hp
        rcases List.mem_cons.1 hp with rfl | hp
        · exact fun e => h e.symm
        · exact ha p hp
      · rintro ⟨a, r, e, ha⟩
        cases a with
        | nil => simp at e; exact absurd e.1.1.symm h
        | cons q a =>
          simp at e
          exact ⟨a, r, e.2, fun p hp => ha p (by simp [hp])⟩

theorem gives_iff {a : Call} {n : String} {v : Val} : Gives a n v ↔ a.kwargs.lookup n = some v := lookup_iff.symm

theorem put_get (k h k' : Nat) (l : List (Nat × Nat)) : (put k h l).lookup k' = if k' = k then some h else l.lookup k' := by
  induction l with
  | nil =>
    simp only [put, List.lookup_cons, List.lookup_nil]
    by_cases e : k' = k
    · simp [e]
    · have : (k' == k) = false := by simpa using e
      simp [this, e]
  | cons p l ih =>
    obtain ⟨x, y⟩ := p
    simp only [put]
    split
    · rename_i e
      subst e
      simp only [List.lookup_cons]
      by_cases e : k' = x
      · simp [e]
      · have : (k' == x) = false := by simpa using e
        simp [this, e]
    · rename_i e
      simp only [List.lookup_cons]
      by_cases e' : k' = x
      · subst e'
        simp [e]
      · have : (k' == x) = false := by simpa using e'
        simp only [this]
        exact ih

theorem wrapper_name (c : Catcher) (a : Call) : (wrapper c a).1.byKwarg = c.byKwarg := by
  unfold wrapper
  split
  · rfl
  · split
    · rfl
    · split
      · rfl
      · split
        · rfl
        · split <;> rfl

/-! ## Theorems -/

/-- **C117.**  A decorated function is called with the arguments it was given, exactly if the call is caught.  Otherwise it is not called, and the catcher stays
as it is: `RuntimeError` if the catcher does not exist any more or no component is being rendered, `KeyError` if the argument by which it indexes is not given
as a keyword, `TypeError` if it has no hash. -/
theorem C117_called (c : Catcher) (a : Call) :
    ((∃ h, Caught c.byKwarg a h) → (wrapper c a).2 = .ok (a.args, a.kwargs)) ∧
    ((¬ ∃ h, Caught c.byKwarg a h) → (wrapper c a).1 = c ∧ ∃ e, (wrapper c a).2 = .error e ∧
      (e = .collected ↔ a.exists_ = false) ∧ (e = .noHook ↔ a.exists_ = true ∧ a.hook = none) ∧
      (e = .key ↔ a.exists_ = true ∧ a.hook ≠ none ∧ ∃ n, c.byKwarg = some n ∧ ∀ v, ¬ Gives a n v) ∧
      (e = .unhashable ↔ a.exists_ = true ∧ a.hook ≠ none ∧ ∃ n v, c.byKwarg = some n ∧ Gives a n v ∧ v.hashable = false)) := by
  simp only [Caught, gives_iff]
  unfold wrapper
  cases he : a.exists_
  · simp
  · cases hh : a.hook with
    | none => simp
    | some h =>
      cases hb : c.byKwarg with
      | none => simp
      | some n =>
        cases hk : a.kwargs.lookup n with
        | none => simp [hk]
        | some v =>
          cases hv : v.hashable <;> simp [hk, hv]

theorem isLast_append {P : Call → Prop} {l : List Call} {a b : Call} : IsLast P (l ++ [a]) b ↔ (P a ∧ b = a) ∨ (¬ P a ∧ IsLast P l b) := by
  constructor
  · rintro ⟨l1, l2, e, hb, hn⟩
    rcases List.eq_nil_or_concat l2 with rfl | ⟨l3, c, rfl⟩
    · have := List.append_inj' e rfl
      simp at this
      exact .inl ⟨this.2 ▸ hb, this.2.symm⟩
    · rw [List.concat_eq_append, ← List.cons_append, ← List.append_assoc] at e
      have := List.append_inj' e rfl
      simp at this
      obtain ⟨e1, rfl⟩ := this
      exact .inr ⟨hn a (by simp), l1, l3, e1, hb, fun x hx => hn x (by simp [hx])⟩
  · rintro (⟨h, rfl⟩ | ⟨h, l1, l2, rfl, hb, hn⟩)
    · exact ⟨l, [], rfl, h, by simp⟩
    · refine ⟨l1, l2 ++ [a], by simp, hb, fun x hx => ?_⟩
      rcases List.mem_append.1 hx with hx | hx
      · exact hn x hx
      · simp at hx
        exact hx ▸ h

theorem calls_append (c : Catcher) (l : List Call) (a : Call) : calls c (l ++ [a]) = (wrapper (calls c l) a).1 := by
  simp [calls]

theorem calls_name (c : Catcher) (l : List Call) : (calls c l).byKwarg = c.byKwarg := by
  induction l generalizing c with
  | nil => rfl
  | cons a l ih => exact (ih (wrapper c a).1).trans (wrapper_name c a)

open Classical in
theorem wrapper_caught {c : Catcher} {a : Call} {h : Nat} (hc : Caught c.byKwarg a h) : (wrapper c a).1.latest = some h ∧
    ∀ k, (wrapper c a).1.get k = if ∃ n v, c.byKwarg = some n ∧ Gives a n v ∧ v.val = k then some h else c.get k := by
  obtain ⟨h1, h2, h3⟩ := hc
  unfold wrapper
  rw [if_neg (by simp [h1]), h2]
  simp only
  cases hb : c.byKwarg with
  | none => simp [Catcher.get]
  | some n =>
    obtain ⟨v, hv, hh⟩ := h3 n hb
    simp only [gives_iff] at hv ⊢
    rw [hv]
    simp only [hh, if_true, Catcher.get, true_and, put_get]
    intro k
    by_cases e : k = v.val
    · subst e
      rw [if_pos rfl, if_pos ⟨n, v, rfl, hv, rfl⟩]
    · rw [if_neg e, if_neg]
      rintro ⟨_, w, h4, h5, h6⟩
      cases h4
      rw [hv] at h5
      cases h5
      exact e h6.symm

theorem caught_hook {name : Option String} {a : Call} {h h' : Nat} (x : Caught name a h) (y : Caught name a h') : h = h' := by
  have := x.2.1.symm.trans y.2.1
  exact Option.some.inj this

/-- **C117.**  After any calls, `latest` is the hook of the last call that was caught, and does not exist if there was none. -/
theorem C117_latest (name : Option String) (l : List Call) (h : Nat) :
    (calls (make name) l).latest = some h ↔ ∃ a, IsLast (fun a => ∃ h, Caught name a h) l a ∧ a.hook = some h := by
  obtain ⟨r, rfl⟩ : ∃ r, l = r.reverse := ⟨l.reverse, by simp⟩
  induction r with
  | nil => simp [calls, make, IsLast]
  | cons a r ih =>
    rw [List.reverse_cons, calls_append]
    simp only [isLast_append]
    have hn : (calls (make name) r.reverse).byKwarg = name := calls_name _ _
    by_cases hc : ∃ h, Caught name a h
    · obtain ⟨h', hc'⟩ := hc
      rw [(wrapper_caught (by rw [hn]; exact hc')).1]
      constructor
      · rintro ⟨⟩
        exact ⟨a, .inl ⟨⟨h, hc'⟩, rfl⟩, hc'.2.1⟩
      · rintro ⟨b, ⟨_, rfl⟩ | ⟨h1, _⟩, h2⟩
        · rw [← hc'.2.1, h2]
        · exact absurd ⟨h', hc'⟩ h1
    · rw [((C117_called _ a).2 (by rw [hn]; exact hc)).1, ih]
      constructor
      · rintro ⟨b, h1, h2⟩
        exact ⟨b, .inr ⟨hc, h1⟩, h2⟩
      · rintro ⟨b, ⟨h1, _⟩ | ⟨_, h1⟩, h2⟩
        · exact absurd h1 hc
        · exact ⟨b, h1, h2⟩

/-- **C117.**  After any calls, `index[k]` is the hook of the last call that was caught and whose keyword argument was `k`; there is no such entry if there was
no such call. -/
theorem C117_index (name : String) (l : List Call) (k h : Nat) :
    (calls (make (some name)) l).get k = some h ↔
      ∃ a, IsLast (fun a => (∃ h, Caught (some name) a h) ∧ ∃ v, Gives a name v ∧ v.val = k) l a ∧ a.hook = some h := by
  obtain ⟨r, rfl⟩ : ∃ r, l = r.reverse := ⟨l.reverse, by simp⟩
  induction r with
  | nil => simp [calls, make, IsLast, Catcher.get]
  | cons a r ih =>
    rw [List.reverse_cons, calls_append]
    simp only [isLast_append]
    have hn : (calls (make (some name)) r.reverse).byKwarg = some name := calls_name _ _
    by_cases hc : ∃ h, Caught (some name) a h
    · obtain ⟨h', hc'⟩ := hc
      rw [(wrapper_caught (by rw [hn]; exact hc')).2 k, hn]
      by_cases hk : ∃ v, Gives a name v ∧ v.val = k
      · rw [if_pos (by obtain ⟨v, hv⟩ := hk; exact ⟨name, v, rfl, hv⟩)]
        constructor
        · rintro ⟨⟩
          exact ⟨a, .inl ⟨⟨⟨h, hc'⟩, hk⟩, rfl⟩, hc'.2.1⟩
        · rintro ⟨b, ⟨_, rfl⟩ | ⟨h1, _⟩, h2⟩
          · rw [← hc'.2.1, h2]
          · exact absurd ⟨⟨h', hc'⟩, hk⟩ h1
      · rw [if_neg (by rintro ⟨n, v, e, hv⟩; cases e; exact hk ⟨v, hv⟩), ih]
        constructor
        · rintro ⟨b, h1, h2⟩
          exact ⟨b, .inr ⟨fun h => hk h.2, h1⟩, h2⟩
        · rintro ⟨b, ⟨h1, _⟩ | ⟨_, h1⟩, h2⟩
          · exact absurd h1.2 hk
          · exact ⟨b, h1, h2⟩
    · rw [((C117_called _ a).2 (by rw [hn]; exact hc)).1, ih]
      constructor
      · rintro ⟨b, h1, h2⟩
        exact ⟨b, .inr ⟨fun h => hc h.1, h1⟩, h2⟩
      · rintro ⟨b, ⟨h1, _⟩ | ⟨_, h1⟩, h2⟩
        · exact absurd h1.1 hc
        · exact ⟨b, h1, h2⟩

/-- Renders of `MyComponent(thing=7)`, of `MyComponent(thing=8)`, of the first again, and a call that is no render. -/
def exCalls : List Call :=
  [⟨[], [("thing", ⟨7, true⟩)], some 1, true⟩, ⟨[], [("thing", ⟨8, true⟩)], some 2, true⟩, ⟨[], [("x", ⟨8, true⟩), ("thing", ⟨7, true⟩)], some 3, true⟩,
   ⟨[], [("thing", ⟨8, true⟩)], none, true⟩]

example : (calls (make (some "thing")) exCalls).latest = some 3 ∧ (calls (make (some "thing")) exCalls).get 7 = some 3 ∧
    (calls (make (some "thing")) exCalls).get 8 = some 2 ∧ (calls (make (some "thing")) exCalls).get 9 = none := by decide +kernel

/-- **C117 is violated** when the argument by which a catcher indexes is given by its position: such a call works without the catcher; with it the component
fails with `KeyError`, and nothing is caught. -/
theorem C117_positional_violated (name : String) (v : Val) (h : Nat) (c : Catcher) (hc : c.byKwarg = some name) :
    wrapper c { args := [v], kwargs := [], hook := some h } = (c, .error .key) ∧
    (wrapper { c with byKwarg := none } { args := [v], kwargs := [], hook := some h }).2 = .ok ([v], []) := by
  constructor
  · simp [wrapper, hc]
  · rfl

end Verif.Testing.Catcher
