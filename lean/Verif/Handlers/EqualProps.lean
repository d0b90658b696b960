import Verif.Handlers.Equal
import Verif.Handlers.CallableProps
/-!
# Comparing event handlers: property C116
-/
namespace Verif.Handlers.Equal
open Verif.Handlers (Settings Fn inspect plainSettings)

/-! ## Specification -/

/-- Python's `==` of attribute values. -/
inductive Same : Val → Val → Prop
  | refl (a) : Same a a
  | true : Same (.bool true) (.int 1)
  | false : Same (.bool false) (.int 0)
  | true' : Same (.int 1) (.bool true)
  | false' : Same (.int 0) (.bool false)

/-- An optional number as a value. -/
def num : Option Int → Val
  | none => .none
  | some n => .int n

/-- An optional text as a value. -/
def text : Option String → Val
  | none => .none
  | some s => .str s

/-- The options of a handler after the code of its function was looked through. -/
def options (m : Make) : Settings :=
  { stop := m.settings.stop || (inspect m.code).stop, prevent := m.settings.prevent || (inspect m.code).prevent, target := m.settings.target,
    debounce := (inspect m.code).debounce.or m.settings.debounce, throttle := m.settings.throttle }

/-! ## Lemmas -/

theorem eq_same (a b : Val) : a.eq b = true ↔ Same a b := by
  constructor
  · intro h
    cases a <;> cases b <;> simp only [Val.eq, decide_eq_true_eq, reduceCtorEq] at h <;> try (cases h; exact .refl _)
    · rename_i b i
      subst h
      cases b <;> constructor
    · rename_i i b
      subst h
      cases b <;> constructor
  · intro h
    cases h
    · cases a <;> simp [Val.eq]
    all_goals rfl

theorem eq_iff (o : Obj) (other : String → Option Val) : eq o other = true ↔ ∀ a ∈ names, ∃ x y, other a = some x ∧ o.attr a = some y ∧ Same x y := by
  unfold eq
  rw [Bool.not_eq_true', List.any_eq_false]
  refine forall_congr' fun a => forall_congr' fun ha => ?_
  have hs : a.startsWith "_" = false := by
    simp only [names, List.mem_cons, List.not_mem_nil, or_false] at ha
    rcases ha with rfl | rfl | rfl | rfl | rfl | rfl <;> decide +kernel
  rw [hs]
  cases other a with
  | none => simp
  | some x =>
    cases o.attr a with
    | none => simp
    | some y => simp [eq_same]

theorem num_eq (o : Option Int) : (o.map Val.int).getD .none = num o := by cases o <;> rfl
theorem text_eq (o : Option String) : (o.map Val.str).getD .none = text o := by cases o <;> rfl

theorem same_num {a b : Option Int} (h : Same (num a) (num b)) : a = b := by
  cases a <;> cases b <;> simp only [num] at h <;> cases h <;> rfl

theorem same_text {a b : Option String} (h : Same (text a) (text b)) : a = b := by
  cases a <;> cases b <;> simp only [text] at h <;> cases h <;> rfl

/-! ## Theorems -/

/-- **C116.**  A handler is equal to any object that has the six attributes with equal values, and to nothing else. -/
theorem C116_equal (o : Obj) (other : String → Option Val) : eq o other = true ↔
    (∃ x, other "function" = some x ∧ Same x (.func o.function)) ∧
    (∃ x, other "prevent_default" = some x ∧ Same x (.bool o.settings.prevent)) ∧
    (∃ x, other "stop_propagation" = some x ∧ Same x (.bool o.settings.stop)) ∧
    (∃ x, other "debounce" = some x ∧ Same x (num o.settings.debounce)) ∧
    (∃ x, other "target" = some x ∧ Same x (text o.settings.target)) ∧
    (∃ x, other "throttle" = some x ∧ Same x (num o.settings.throttle)) := by
  rw [eq_iff]
  simp [names, Obj.attr, num_eq, text_eq]

example : ∃ other : String → Option Val, eq ⟨3, { stop := true, prevent := false, target := none, debounce := some 200, throttle := none }⟩ other = true ∧
    other "stop_propagation" = some (.int 1) :=
  ⟨fun a => if a = "function" then some (.func 3) else if a = "stop_propagation" then some (.int 1) else if a = "prevent_default" then some (.bool false)
    else if a = "debounce" then some (.int 200) else some .none, by decide +kernel, rfl⟩

/-- **C116.**  Two handlers are equal exactly if they have the same function object and the same options; so equality of handlers is reflexive, symmetric and
transitive. -/
theorem C116_handlers (a b : Obj) : eq a b.attr = true ↔ a.function = b.function ∧ a.settings = b.settings := by
  rw [C116_equal]
  constructor
  · rintro ⟨⟨x1, h1, s1⟩, ⟨x2, h2, s2⟩, ⟨x3, h3, s3⟩, ⟨x4, h4, s4⟩, ⟨x5, h5, s5⟩, ⟨x6, h6, s6⟩⟩
    simp [Obj.attr, num_eq, text_eq] at h1 h2 h3 h4 h5 h6
    subst h1 h2 h3 h4 h5 h6
    have e4 := same_num s4
    have e5 := same_text s5
    have e6 := same_num s6
    refine ⟨?_, ?_⟩
    · generalize ha : a.function = x at s1
      generalize hb : b.function = y at s1
      cases s1
      rfl
    · obtain ⟨fa, ⟨st, pr, ta, de, th⟩⟩ := a
      obtain ⟨fb, ⟨st', pr', ta', de', th'⟩⟩ := b
      simp only at s2 s3 e4 e5 e6
      subst e4 e5 e6
      cases s2
      cases s3
      rfl
  · rintro ⟨h1, h2⟩
    obtain ⟨fa, sa⟩ := a
    obtain ⟨fb, sb⟩ := b
    simp only at h1 h2
    subst h1 h2
    simp [Obj.attr, num_eq, text_eq, Same.refl]

theorem construct_eq (coro : Nat → Bool) (fresh : Nat) (m : Make) (hm : m.fn < fresh) : construct coro fresh m =
    if m.positional = false ∧ coro m.fn = true then ({ function := m.fn, settings := options m }, fresh)
    else ({ function := fresh, settings := options m }, fresh + 1) := by
  have hs : (mkHandler (.user 0) m.settings (inspect m.code)).settings = options m := by
    simp only [mkHandler, options]
    cases (inspect m.code).prevent <;> cases (inspect m.code).stop <;> cases (inspect m.code).debounce <;> simp
  unfold construct
  rw [hs]
  cases hp : m.positional
  · cases hc : coro m.fn <;> simp [toFunction, hm, hc]
  · simp [toFunction]

/-- The functions of handlers made one after another: the user's own, or a new one. -/
theorem all_functions (coro : Nat → Bool) (fresh : Nat) (ms : List Make) (hms : ∀ m ∈ ms, m.fn < fresh) :
    (constructAll coro fresh ms).length = ms.length ∧
    (∀ (i : Nat) o m, (constructAll coro fresh ms)[i]? = some o → ms[i]? = some m → o.settings = options m ∧
      (m.positional = false ∧ coro m.fn = true → o.function = m.fn) ∧ (¬ (m.positional = false ∧ coro m.fn = true) → fresh ≤ o.function)) ∧
    (∀ (i j : Nat) o o' m m', (constructAll coro fresh ms)[i]? = some o → (constructAll coro fresh ms)[j]? = some o' → ms[i]? = some m → ms[j]? = some m' → i < j →
      ¬ (m.positional = false ∧ coro m.fn = true) → ¬ (m'.positional = false ∧ coro m'.fn = true) → o.function < o'.function) := by
  induction ms generalizing fresh with
  | nil => simp [constructAll]
  | cons m ms ih =>
    have hm := hms m (by simp)
    have hc := construct_eq coro fresh m hm
    have hle : fresh ≤ (construct coro fresh m).2 := by rw [hc]; split <;> simp
    obtain ⟨h1, h2, h3⟩ := ih (construct coro fresh m).2 (fun m' h' => Nat.lt_of_lt_of_le (hms m' (by simp [h'])) hle)
    have hold : ∀ m' ∈ ms, m'.fn < fresh := fun m' h' => hms m' (by simp [h'])
    refine ⟨by simp [constructAll, h1], ?_, ?_⟩
    · intro i o n ho hn
      cases i with
      | zero =>
        simp only [constructAll, List.getElem?_cons_zero, Option.some.injEq] at ho hn
        subst ho hn
        rw [hc]
        split <;> simp_all
      | succ i =>
        simp only [constructAll, List.getElem?_cons_succ] at ho hn
        obtain ⟨a, b, c⟩ := h2 i o n ho hn
        exact ⟨a, b, fun h => Nat.le_trans hle (c h)⟩
    · intro i j o o' n n' ho ho' hn hn' hij hx hy
      cases j with
      | zero => omega
      | succ j =>
        simp only [constructAll, List.getElem?_cons_succ] at ho' hn'
        cases i with
        | succ i =>
          simp only [constructAll, List.getElem?_cons_succ] at ho hn
          exact h3 i j o o' n n' ho ho' hn hn' (by omega) hx hy
        | zero =>
          simp only [constructAll, List.getElem?_cons_zero, Option.some.injEq] at ho hn
          subst ho hn
          have := (h2 j o' n' ho' hn').2.2 hy
          rw [hc, if_neg hx] at this ⊢
          exact this

/-- **C116, exact.**  Of handlers made one after another of functions that existed before, two different ones are equal exactly if both were made
directly (`EventHandler(…)`) of the same coroutine function, and their options are the same. -/
theorem C116_exact (coro : Nat → Bool) (fresh : Nat) (ms : List Make) (hms : ∀ m ∈ ms, m.fn < fresh) (i j : Nat) (hij : i ≠ j) (a b : Obj) (m m' : Make)
    (ha : (constructAll coro fresh ms)[i]? = some a) (hb : (constructAll coro fresh ms)[j]? = some b) (hm : ms[i]? = some m) (hm' : ms[j]? = some m') :
    eq a b.attr = true ↔ m.positional = false ∧ m'.positional = false ∧ coro m.fn = true ∧ m.fn = m'.fn ∧ options m = options m' := by
  obtain ⟨-, h2, h3⟩ := all_functions coro fresh ms hms
  obtain ⟨sa, pa, qa⟩ := h2 i a m ha hm
  obtain ⟨sb, pb, qb⟩ := h2 j b m' hb hm'
  have lm := hms m (List.mem_of_getElem? hm)
  have lm' := hms m' (List.mem_of_getElem? hm')
  rw [C116_handlers, sa, sb]
  by_cases x : m.positional = false ∧ coro m.fn = true
  · have fa := pa x
    by_cases y : m'.positional = false ∧ coro m'.fn = true
    · have fb := pb y
      rw [fa, fb]
      constructor
      · rintro ⟨e, o⟩
        exact ⟨x.1, y.1, x.2, e, o⟩
      · rintro ⟨-, -, -, e, o⟩
        exact ⟨e, o⟩
    · have fb := qb y
      constructor
      · rintro ⟨e, -⟩
        omega
      · rintro ⟨-, p, q, e, -⟩
        exact absurd ⟨p, e ▸ q⟩ y
  · have fa := qa x
    by_cases y : m'.positional = false ∧ coro m'.fn = true
    · have fb := pb y
      constructor
      · rintro ⟨e, -⟩
        omega
      · rintro ⟨p, -, q, -⟩
        exact absurd ⟨p, q⟩ x
    · constructor
      · rintro ⟨e, -⟩
        rcases Nat.lt_or_gt_of_ne hij with h | h
        · have := h3 i j a b m m' ha hb hm hm' h x y
          omega
        · have := h3 j i b a m' m hb ha hm' hm h y x
          omega
      · rintro ⟨p, -, q, -⟩
        exact absurd ⟨p, q⟩ x

/-- Four handlers of a coroutine function and of an ordinary one. -/
def exMakes : List Make :=
  [⟨3, exFn, false, plainSettings⟩, ⟨3, exFn, false, { plainSettings with prevent := true }⟩, ⟨3, exFn, true, plainSettings⟩, ⟨4, exFn, false, plainSettings⟩]

/-- The first two are equal, since the function prevents the default itself. -/
example : (∀ m ∈ exMakes, m.fn < 10) ∧ options ⟨3, exFn, false, plainSettings⟩ = options ⟨3, exFn, false, { plainSettings with prevent := true }⟩ ∧
    (constructAll (· == 3) 10 exMakes).map (fun a => (constructAll (· == 3) 10 exMakes).map fun b => eq a b.attr) =
      [[true, true, false, false], [true, true, false, false], [false, false, true, false], [false, false, false, true]] := by decide +kernel

/-- **C116 is violated** for ordinary functions, and for every function given as an attribute of an element: handlers made in the same way of the same function,
with the same options, are never equal; so elements with handlers are not either, and setting a state to an equal element renders again. -/
theorem C116_function_violated (coro : Nat → Bool) (fresh : Nat) (m : Make) (hf : m.fn < fresh) (h : m.positional = true ∨ coro m.fn = false) (a b : Obj)
    (hab : constructAll coro fresh [m, m] = [a, b]) : a.settings = b.settings ∧ eq a b.attr = false := by
  have hms : ∀ n ∈ [m, m], n.fn < fresh := by
    intro n hn
    simp at hn
    exact hn ▸ hf
  obtain ⟨-, h2, -⟩ := all_functions coro fresh [m, m] hms
  have ha : (constructAll coro fresh [m, m])[0]? = some a := by rw [hab]; rfl
  have hb : (constructAll coro fresh [m, m])[1]? = some b := by rw [hab]; rfl
  refine ⟨(h2 0 a m ha rfl).1.trans (h2 1 b m hb rfl).1.symm, ?_⟩
  cases he : eq a b.attr with
  | false => rfl
  | true =>
    obtain ⟨p, -, q, -⟩ := (C116_exact coro fresh [m, m] hms 0 1 (by simp) a b m m ha hb rfl rfl).1 he
    rcases h with h | h
    · rw [h] at p; cases p
    · rw [h] at q; cases q

end Verif.Handlers.Equal
