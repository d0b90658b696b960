import Verif.Client.Named
/-! # The component named in Python is the one of the module -/
namespace Verif.Client.Named
open Verif.Markup (splitOn joinWith)

/-! ## Specification -/

/-- From object `o`, the properties `path` lead, one after the other, to `c`. -/
inductive Leads (h : Heap) : Nat → List Str → Nat → Prop where
  | here (o) : Leads h o [] o
  | next {o p o' l c} : h.get o p = some o' → Leads h o' l c → Leads h o (p :: l) c

/-- A name, and the attributes below it, that were written in Python. -/
def written (name : Str) (attrs : List Str) : List Str := splitOn '.' name ++ attrs

/-! ## Auxiliary -/

theorem split_append (s : Char) (a b : Str) : splitOn s (a ++ s :: b) = splitOn s a ++ splitOn s b := by
  induction a with
  | nil => show splitOn s (s :: b) = _; simp [splitOn]
  | cons c a ih =>
    by_cases hc : c = s
    · subst hc
      have h1 : splitOn c (c :: (a ++ c :: b)) = [] :: splitOn c (a ++ c :: b) := by simp [splitOn]
      have h2 : splitOn c (c :: a) = [] :: splitOn c a := by simp [splitOn]
      rw [List.cons_append, h1, h2, ih]; rfl
    · rw [List.cons_append]
      simp only [splitOn, hc, if_false]
      rw [ih]
      cases hs : splitOn s a with
      | nil => exact absurd hs (Verif.Markup.splitOn_ne_nil s a)
      | cons x l => simp

theorem walk_some (h : Heap) : ∀ (l : List Str) (done : List Str) (cur c : Nat), (walk h done cur l).1 = some c ↔ Leads h cur l c := by
  intro l
  induction l with
  | nil =>
    intro done cur c
    simp only [walk, Option.some.injEq]
    constructor
    · intro e; subst e; exact .here _
    · intro e; cases e; rfl
  | cons p l ih =>
    intro done cur c
    simp only [walk]
    cases hg : h.get cur p with
    | some o =>
      simp only [ih]
      constructor
      · exact fun e => .next hg e
      · intro e; cases e with | next h1 h2 => rw [hg] at h1; injection h1 with h1; subst h1; exact h2
    | none =>
      simp only [reduceCtorEq, false_iff]
      intro e; cases e with | next h1 h2 => rw [hg] at h1; cases h1

/-- What is missing: the first property on the way that is not there. -/
theorem walk_log (h : Heap) : ∀ (l : List Str) (done : List Str) (cur : Nat),
    ((walk h done cur l).1.isSome ∧ (walk h done cur l).2 = []) ∨
    ∃ pre p post o, l = pre ++ p :: post ∧ Leads h cur pre o ∧ h.get o p = none ∧ (walk h done cur l).1 = none ∧
      (walk h done cur l).2 = [if done ++ pre = [] then .noExport p else .noSub (joinWith '.' (done ++ pre)) p] := by
  intro l
  induction l with
  | nil => intro done cur; exact Or.inl ⟨rfl, rfl⟩
  | cons p l ih =>
    intro done cur
    simp only [walk]
    cases hg : h.get cur p with
    | none =>
      refine Or.inr ⟨[], p, l, cur, rfl, .here _, hg, rfl, ?_⟩
      rw [List.append_nil]
    | some o =>
      rcases ih (done ++ [p]) o with h1 | ⟨pre, q, post, o', e, h1, h2, h3, h4⟩
      · exact Or.inl h1
      · refine Or.inr ⟨p :: pre, q, post, o', by rw [e]; rfl, .next hg h1, h2, h3, ?_⟩
        simp only at h4 ⊢
        rw [h4, List.append_assoc]; rfl

/-! ## Properties -/

/-- The page shows the component exactly if the parts of the name lead to one, and it is that one. -/
theorem C85_found (h : Heap) (m : Nat) (name : Str) (c : Nat) : (getComponent h m name).1 = some c ↔ Leads h m (splitOn '.' name) c :=
  walk_some h _ _ _ _

/-- Otherwise nothing is shown, and one message names the first part that is missing and what was found before it. -/
theorem C85_missing (h : Heap) (m : Nat) (name : Str) :
    ((getComponent h m name).1.isSome ∧ (getComponent h m name).2 = []) ∨
    ∃ pre p post o, splitOn '.' name = pre ++ p :: post ∧ Leads h m pre o ∧ h.get o p = none ∧ (getComponent h m name).1 = none ∧
      (getComponent h m name).2 = [if pre = [] then .noExport p else .noSub (joinWith '.' pre) p] :=
  walk_log h _ [] m

/-- The names that constructors have themselves. -/
def constructorNames : List Str :=
  ["allow_children".toList, "custom_constructor".toList, "import_source".toList, "__name__".toList, "__module__".toList,
   "__qualname__".toList]

/-- A component `Name.a.b` of a module, written as attributes of the constructor for `Name`, has the module and the setting for children
of that one, and the page looks it up under the parts of `Name`, then `a`, then `b`. -/
theorem C85_nested_partial (h : Heap) (m : Nat) (c : Ctor) (s : Nat) (hs : c.source = some s) :
    ∀ attrs : List Str, (∀ a ∈ attrs, a ∉ constructorNames ∧ '.' ∉ a) →
      ∃ c', getattrs c attrs = .ctor c' ∧ c'.source = some s ∧ c'.allowChildren = c.allowChildren ∧
        ∀ o, (getComponent h m c'.name).1 = some o ↔ Leads h m (written c.name attrs) o := by
  intro attrs
  induction attrs generalizing c with
  | nil =>
    intro _
    refine ⟨c, rfl, hs, rfl, fun o => ?_⟩
    rw [C85_found, written, List.append_nil]
  | cons a l ih =>
    intro ha
    obtain ⟨h1, h2⟩ := ha a (List.mem_cons_self ..)
    have h1 : a ∉ ownAttributes := h1
    obtain ⟨c', e1, e2, e3, e4⟩ := ih { name := c.name ++ '.' :: a, allowChildren := c.allowChildren, source := some s } rfl
      (fun x hx => ha x (List.mem_cons_of_mem _ hx))
    refine ⟨c', ?_, e2, e3, fun o => ?_⟩
    · simp only [getattrs, getattr, h1, if_false, hs]; exact e1
    · rw [e4 o, written, written, split_append, Verif.Markup.splitOn_self _ _ h2]
      rw [List.append_assoc]; rfl

/-- The module 0 exports `A` (1), which has `B` (2), which has `C` (3). -/
def sampleHeap : Heap :=
  { own := fun o n => if o = 0 ∧ n = ['A'] then some 1 else if o = 1 ∧ n = ['B'] then some 2 else if o = 2 ∧ n = ['C'] then some 3 else none,
    inherited := fun o n => if o ≠ 0 ∧ n = "toString".toList then some 99 else none }

example : getattrs ⟨['A'], true, some 5⟩ [['B'], ['C']] = .ctor ⟨"A.B.C".toList, true, some 5⟩ ∧
    getComponent sampleHeap 0 "A.B.C".toList = (some 3, []) ∧ getComponent sampleHeap 0 "A.X.C".toList = (none, [.noSub ['A'] ['X']]) ∧
    getComponent sampleHeap 0 "X".toList = (none, [.noExport ['X']]) := by decide +kernel

/-- Elements that are not imported have no components below them. -/
theorem C85_plain (c : Ctor) (hs : c.source = none) (a : Str) (ha : a ∉ constructorNames) : getattr c a = .error := by
  have ha : a ∉ ownAttributes := ha
  simp only [getattr, ha, if_false, hs]

/-- C85 is violated for nested components with a name that constructors have themselves: the attribute is that of the constructor. -/
theorem C85_shadow_violated (c : Ctor) : ∀ a ∈ constructorNames, getattr c a = .other := by
  intro a ha
  have ha : a ∈ ownAttributes := ha
  simp only [getattr, ha, if_true]

/-- C85 is violated for names that a component does not have but inherits from its prototype: nothing is reported as missing, and what is
inherited is taken for the component. -/
theorem C85_inherited_violated : ∃ (h : Heap) (m : Nat) (name : Str), (∀ o, h.own o "toString".toList = none) ∧
    name = "A.toString".toList ∧ getComponent h m name = (some 99, []) := by
  refine ⟨sampleHeap, 0, _, fun o => ?_, rfl, by decide +kernel⟩
  have h1 : ¬ "toString".toList = ['A'] := by decide +kernel
  have h2 : ¬ "toString".toList = ['B'] := by decide +kernel
  have h3 : ¬ "toString".toList = ['C'] := by decide +kernel
  simp only [sampleHeap, h1, h2, h3, and_false, if_false]

/-! ### A case that meets the hypotheses -/

example := C85_plain ⟨"div".toList, true, none⟩ rfl "Button".toList (by decide +kernel)

end Verif.Client.Named
