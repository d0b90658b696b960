import Verif.Vdom.Warn
/-!
# C92: warnings about children without keys
-/
namespace Verif.Vdom.Warn

/-! ### Specification -/

/-- `Holds cs c s`: among the children `cs`, or in the sequences and generators among them, at any depth, is the sequence (or generator) `s`. -/
inductive Holds : List Child → Child → Prop
  | here {cs c} : c ∈ cs → Holds cs c
  | seq {cs items c} : .seq items ∈ cs → Holds items c → Holds cs c
  | gen {cs items c} : .gen items ∈ cs → Holds items c → Holds cs c

/-- Neither a sequence nor a generator. -/
def single : Child → Bool
  | .seq _ => false
  | .gen _ => false
  | _ => true

/-- A component or an element without a key. -/
def Keyless : Child → Prop
  | .component _ k => k = .absent ∨ k = .none
  | .element _ k => k = .absent
  | _ => False

/-! ### What is reported -/

theorem mem_checkItems (items : List Child) (w : Warning) :
    w ∈ checkItems items ↔ ∃ c ∈ items, Keyless c ∧ w = .keyless c := by
  induction items with
  | nil => simp [checkItems]
  | cons c r ih =>
    have key : (∃ x ∈ c :: r, Keyless x ∧ w = .keyless x) ↔ (Keyless c ∧ w = .keyless c) ∨ ∃ x ∈ r, Keyless x ∧ w = .keyless x := by
      simp
    rw [key, ← ih]
    cases c with
    | component i k => cases k <;> simp [checkItems, Keyless]
    | element i k => cases k <;> simp [checkItems, Keyless]
    | _ => simp [checkItems, Keyless]

/-- The warnings of a sequence or generator itself. -/
def Own (c : Child) (w : Warning) : Prop :=
  match c with
  | .seq items => ∃ x ∈ items, Keyless x ∧ w = .keyless x
  | .gen items => w = .unverified items
  | _ => False

theorem validate_own (c : Child) (w : Warning) : w ∈ validate c ↔ Own c w := by
  cases c with
  | seq items => exact mem_checkItems items w
  | gen items => simp [validate, Own]
  | _ => simp [validate, Own]

mutual
theorem one_warn : ∀ (c : Child) (w : Warning), w ∈ (flattenOne true c).2 ↔ ∃ s, Holds [c] s ∧ Own s w
  | .seq items, w => by
    have ih := flat_warn items w
    simp only [flattenOne, if_true, List.mem_append, ih, validate_own]
    constructor
    · rintro (h | ⟨s, h1, h2⟩)
      · exact ⟨_, .here (by simp), h⟩
      · exact ⟨s, .seq (by simp) h1, h2⟩
    · rintro ⟨s, h1, h2⟩
      cases h1 with
      | here h => simp only [List.mem_singleton] at h; subst h; exact .inl h2
      | seq h h' => simp only [List.mem_singleton] at h; injection h with h; subst h; exact .inr ⟨s, h', h2⟩
      | gen h h' => simp at h
  | .gen items, w => by
    have ih := flat_warn items w
    simp only [flattenOne, if_true, List.mem_append, ih, validate_own]
    constructor
    · rintro (h | ⟨s, h1, h2⟩)
      · exact ⟨_, .here (by simp), h⟩
      · exact ⟨s, .gen (by simp) h1, h2⟩
    · rintro ⟨s, h1, h2⟩
      cases h1 with
      | here h => simp only [List.mem_singleton] at h; subst h; exact .inl h2
      | gen h h' => simp only [List.mem_singleton] at h; injection h with h; subst h; exact .inr ⟨s, h', h2⟩
      | seq h h' => simp at h
  | .text n, w => by
    simp only [flattenOne, List.not_mem_nil, false_iff]
    rintro ⟨s, h1, h2⟩
    cases h1 with
    | here h => simp only [List.mem_singleton] at h; subst h; exact h2
    | seq h h' => simp at h
    | gen h h' => simp at h
  | .component i k, w => by
    simp only [flattenOne, List.not_mem_nil, false_iff]
    rintro ⟨s, h1, h2⟩
    cases h1 with
    | here h => simp only [List.mem_singleton] at h; subst h; exact h2
    | seq h h' => simp at h
    | gen h h' => simp at h
  | .element i k, w => by
    simp only [flattenOne, List.not_mem_nil, false_iff]
    rintro ⟨s, h1, h2⟩
    cases h1 with
    | here h => simp only [List.mem_singleton] at h; subst h; exact h2
    | seq h h' => simp at h
    | gen h h' => simp at h

theorem flat_warn : ∀ (cs : List Child) (w : Warning), w ∈ (flatten true cs).2 ↔ ∃ s, Holds cs s ∧ Own s w
  | [], w => by
    simp only [flatten, List.not_mem_nil, false_iff]
    rintro ⟨s, h1, _⟩
    cases h1 with
    | here h => cases h
    | seq h h' => cases h
    | gen h h' => cases h
  | c :: r, w => by
    have h1 := one_warn c w
    have h2 := flat_warn r w
    simp only [flatten, List.mem_append, h1, h2]
    constructor
    · rintro (⟨s, h, ho⟩ | ⟨s, h, ho⟩)
      · refine ⟨s, ?_, ho⟩
        cases h with
        | here h => exact .here (by simp at h; simp [h])
        | seq h h' => exact .seq (by simp at h; simp [h]) h'
        | gen h h' => exact .gen (by simp at h; simp [h]) h'
      · refine ⟨s, ?_, ho⟩
        cases h with
        | here h => exact .here (List.mem_cons_of_mem _ h)
        | seq h h' => exact .seq (List.mem_cons_of_mem _ h) h'
        | gen h h' => exact .gen (List.mem_cons_of_mem _ h) h'
    · rintro ⟨s, h, ho⟩
      cases h with
      | here h =>
        rcases List.mem_cons.1 h with h | h
        · exact .inl ⟨s, .here (by simp [h]), ho⟩
        · exact .inr ⟨s, .here h, ho⟩
      | seq h h' =>
        rcases List.mem_cons.1 h with h | h
        · exact .inl ⟨s, .seq (by simp [h]) h', ho⟩
        · exact .inr ⟨s, .seq h h', ho⟩
      | gen h h' =>
        rcases List.mem_cons.1 h with h | h
        · exact .inl ⟨s, .gen (by simp [h]) h', ho⟩
        · exact .inr ⟨s, .gen h h', ho⟩
end

/-- **C92**, what is reported: in debug mode, whatever children an element is given, a child is reported exactly if it is a component or an element
without a key, directly in a sequence (at any depth); and there is a notice for every generator. -/
theorem C92_reported (cs : List Child) :
    (∀ c, .keyless c ∈ (flatten true cs).2 ↔ Keyless c ∧ ∃ items, Holds cs (.seq items) ∧ c ∈ items) ∧
    (∀ items, .unverified items ∈ (flatten true cs).2 ↔ Holds cs (.gen items)) := by
  constructor
  · intro c
    rw [flat_warn]
    constructor
    · rintro ⟨s, h, ho⟩
      cases s with
      | seq items =>
        obtain ⟨x, hx, hk, he⟩ := ho
        injection he with he; subst he
        exact ⟨hk, items, h, hx⟩
      | gen items => cases ho
      | _ => exact ho.elim
    · rintro ⟨hk, items, h, hx⟩
      exact ⟨_, h, c, hx, hk, rfl⟩
  · intro items
    rw [flat_warn]
    constructor
    · rintro ⟨s, h, ho⟩
      cases s with
      | seq items' =>
        obtain ⟨x, hx, hk, he⟩ := ho
        cases he
      | gen items' => cases ho; exact h
      | _ => exact ho.elim
    · intro h
      exact ⟨_, h, rfl⟩

example : Keyless (.element 1 .absent) ∧ Holds [.text 0, .seq [.element 1 .absent, .element 2 (.some 5)]] (.seq [.element 1 .absent, .element 2 (.some 5)]) :=
  ⟨rfl, .here (by simp)⟩

mutual
theorem one_children : ∀ (c : Child) (d : Bool), (flattenOne d c).1 = (flattenOne true c).1 ∧ ∀ x, x ∈ (flattenOne true c).1 ↔ single x = true ∧ Holds [c] x
  | .seq items, d => by
    have ih := flat_children items d
    refine ⟨ih.1, fun x => ?_⟩
    show x ∈ (flatten true items).1 ↔ _
    rw [ih.2]
    constructor
    · rintro ⟨h1, h2⟩; exact ⟨h1, .seq (by simp) h2⟩
    · rintro ⟨h1, h2⟩
      refine ⟨h1, ?_⟩
      cases h2 with
      | here h => simp only [List.mem_singleton] at h; subst h; cases h1
      | seq h h' => simp only [List.mem_singleton] at h; injection h with h; subst h; exact h'
      | gen h h' => simp at h
  | .gen items, d => by
    have ih := flat_children items d
    refine ⟨ih.1, fun x => ?_⟩
    show x ∈ (flatten true items).1 ↔ _
    rw [ih.2]
    constructor
    · rintro ⟨h1, h2⟩; exact ⟨h1, .gen (by simp) h2⟩
    · rintro ⟨h1, h2⟩
      refine ⟨h1, ?_⟩
      cases h2 with
      | here h => simp only [List.mem_singleton] at h; subst h; cases h1
      | gen h h' => simp only [List.mem_singleton] at h; injection h with h; subst h; exact h'
      | seq h h' => simp at h
  | .text n, d => ⟨rfl, fun x => by
    simp only [flattenOne, List.mem_singleton]
    constructor
    · rintro rfl; exact ⟨rfl, .here (by simp)⟩
    · rintro ⟨_, h⟩
      cases h with
      | here h => simpa using h
      | seq h h' => simp at h
      | gen h h' => simp at h⟩
  | .component i k, d => ⟨rfl, fun x => by
    simp only [flattenOne, List.mem_singleton]
    constructor
    · rintro rfl; exact ⟨rfl, .here (by simp)⟩
    · rintro ⟨_, h⟩
      cases h with
      | here h => simpa using h
      | seq h h' => simp at h
      | gen h h' => simp at h⟩
  | .element i k, d => ⟨rfl, fun x => by
    simp only [flattenOne, List.mem_singleton]
    constructor
    · rintro rfl; exact ⟨rfl, .here (by simp)⟩
    · rintro ⟨_, h⟩
      cases h with
      | here h => simpa using h
      | seq h h' => simp at h
      | gen h h' => simp at h⟩

theorem flat_children : ∀ (cs : List Child) (d : Bool), (flatten d cs).1 = (flatten true cs).1 ∧ ∀ x, x ∈ (flatten true cs).1 ↔ single x = true ∧ Holds cs x
  | [], d => ⟨rfl, fun x => by
    simp only [flatten, List.not_mem_nil, false_iff]
    rintro ⟨_, h⟩
    cases h with
    | here h => cases h
    | seq h h' => cases h
    | gen h h' => cases h⟩
  | c :: r, d => by
    have h1 := one_children c d
    have h2 := flat_children r d
    refine ⟨by simp only [flatten, h1.1, h2.1], fun x => ?_⟩
    simp only [flatten, List.mem_append, h1.2, h2.2]
    constructor
    · rintro (⟨hs, h⟩ | ⟨hs, h⟩)
      · refine ⟨hs, ?_⟩
        cases h with
        | here h => exact .here (by simp at h; simp [h])
        | seq h h' => exact .seq (by simp at h; simp [h]) h'
        | gen h h' => exact .gen (by simp at h; simp [h]) h'
      · refine ⟨hs, ?_⟩
        cases h with
        | here h => exact .here (List.mem_cons_of_mem _ h)
        | seq h h' => exact .seq (List.mem_cons_of_mem _ h) h'
        | gen h h' => exact .gen (List.mem_cons_of_mem _ h) h'
    · rintro ⟨hs, h⟩
      cases h with
      | here h =>
        rcases List.mem_cons.1 h with h | h
        · exact .inl ⟨hs, .here (by simp [h])⟩
        · exact .inr ⟨hs, .here h⟩
      | seq h h' =>
        rcases List.mem_cons.1 h with h | h
        · exact .inl ⟨hs, .seq (by simp [h]) h'⟩
        · exact .inr ⟨hs, .seq h h'⟩
      | gen h h' =>
        rcases List.mem_cons.1 h with h | h
        · exact .inl ⟨hs, .gen (by simp [h]) h'⟩
        · exact .inr ⟨hs, .gen h h'⟩
end

mutual
theorem one_quiet : ∀ c : Child, (flattenOne false c).2 = []
  | .seq items => by have := flat_quiet items; simp [flattenOne, this]
  | .gen items => by have := flat_quiet items; simp [flattenOne, this]
  | .text _ => rfl
  | .component _ _ => rfl
  | .element _ _ => rfl

theorem flat_quiet : ∀ cs : List Child, (flatten false cs).2 = []
  | [] => rfl
  | c :: r => by have h1 := one_quiet c; have h2 := flat_quiet r; simp [flatten, h1, h2]
end

/-- **C92**, debug mode only reports: without it nothing is reported, and the children of the element are the same. -/
theorem C92_debug (cs : List Child) :
    (flatten false cs).2 = [] ∧ (flatten false cs).1 = (flatten true cs).1 ∧
    ∀ x, x ∈ (flatten true cs).1 ↔ single x = true ∧ Holds cs x :=
  ⟨flat_quiet cs, (flat_children cs false).1, (flat_children cs false).2⟩

/-- C92 is violated: an element in a list whose key is `None`, which has the same effect as no key, is not reported. -/
theorem C92_none_violated (i : Nat) : (flatten true [.seq [.element i .none]]).2 = [] := by
  simp [flatten, flattenOne, validate, checkItems]

/-- C92 is violated: children without keys that come from a generator are not reported; there is one notice, also when all have keys. -/
theorem C92_generator_violated (items : List Child) (h : ∀ c ∈ items, single c = true) :
    (flatten true [.gen items]).2 = [.unverified items] := by
  have : (flatten true items).2 = [] := by
    induction items with
    | nil => rfl
    | cons c r ih =>
      have hc := h c List.mem_cons_self
      have : (flattenOne true c).2 = [] := by cases c <;> first | rfl | cases hc
      simp [flatten, this, ih (fun c hc => h c (List.mem_cons_of_mem _ hc))]
  simp [flatten, flattenOne, validate, this]

example : ∀ c ∈ [Child.element 1 (.some 3), .element 2 .absent], single c = true := by simp [single]

/-! ### Where it is reported -/

/-- A module of ReactPy. -/
def ofReactpy (f : Frame) : Prop :=
  ∃ n, f.module = some n ∧ (n = "reactpy" ∨ ∃ r, n.toList = "reactpy.".toList ++ r)

theorem inPackage_iff (f : Frame) : inPackage f = true ↔ ∃ n r, f.module = some n ∧ n.toList = "reactpy.".toList ++ r := by
  unfold inPackage
  generalize "reactpy.".toList = p
  cases f.module with
  | none => simp
  | some n =>
    simp only [List.isPrefixOf_iff_prefix, Option.some.injEq]
    constructor
    · rintro ⟨r, h⟩; exact ⟨n, r, rfl, h.symm⟩
    · rintro ⟨m, r, h, h'⟩; subst h; exact ⟨r, h'.symm⟩

theorem depth_append (rs : List Frame) (h : ∀ f ∈ rs, inPackage f = true) (rest : List Frame)
    (h' : ∀ f, rest.head? = some f → inPackage f = false) : depth (rs ++ rest) = rs.length := by
  induction rs with
  | nil =>
    cases rest with
    | nil => rfl
    | cons f r => simp [depth, h' f rfl]
  | cons f r ih =>
    simp [depth, h f List.mem_cons_self, ih (fun f hf => h f (List.mem_cons_of_mem _ hf))]

theorem external_append (f : Frame) (rs : List Frame) (h : ∀ f ∈ rs, f.internal = false) (rest : List Frame) :
    external (rs.length + 1) (f :: (rs ++ rest)) = (rest.dropWhile (·.internal)).head? := by
  induction rs generalizing f with
  | nil => simp [external]
  | cons g r ih =>
    have hg := h g List.mem_cons_self
    show external (r.length + 1) ((g :: (r ++ rest)).dropWhile (·.internal)) = _
    rw [List.dropWhile_cons_of_neg (by simp [hg])]
    exact ih g (fun f hf => h f (List.mem_cons_of_mem _ hf))

/-- The frame of `warn` itself is in the package. -/
theorem own_in : inPackage { module := some "reactpy._warnings" } = true := by decide +kernel

/-- **C92**, where it is reported (partial: the functions of ReactPy that are being executed belong to its submodules, and none of these is being
imported by another one): a warning names the innermost frame outside of ReactPy, Python's import system not counted. -/
theorem C92_located_partial (rs rest : List Frame) (hr : ∀ f ∈ rs, inPackage f = true ∧ f.internal = false)
    (h : ∀ f, rest.head? = some f → ¬ ofReactpy f) :
    warn (rs ++ rest) = (rest.dropWhile (·.internal)).head? := by
  have h' : ∀ f, rest.head? = some f → inPackage f = false := by
    intro f hf
    cases hp : inPackage f with
    | false => rfl
    | true =>
      obtain ⟨n, r, h1, h2⟩ := (inPackage_iff f).1 hp
      exact absurd ⟨n, h1, .inr ⟨r, h2⟩⟩ (h f hf)
  unfold warn
  simp only
  rw [← List.cons_append, depth_append _ (by
    intro f hf
    rcases List.mem_cons.1 hf with rfl | hf
    · exact own_in
    · exact (hr f hf).1) rest h']
  unfold located
  simp only [List.cons_append, List.length_cons]
  rw [if_neg (by simp)]
  exact external_append _ rs (fun f hf => (hr f hf).2) rest

/-- Modules of other packages, also those that are called `reactpy_something`, are not modules of ReactPy. -/
example : ¬ ofReactpy { module := some "reactpy_django.components" } ∧ ¬ ofReactpy { module := some "app" } ∧ ¬ ofReactpy { module := none } := by
  refine ⟨?_, ?_, ?_⟩
  · rintro ⟨n, h, h' | ⟨r, h'⟩⟩
    · injection h with h; subst h; revert h'; decide +kernel
    · injection h with h
      have : inPackage { module := some n } = true := (inPackage_iff _).2 ⟨n, r, rfl, h'⟩
      subst h; revert this; decide +kernel
  · rintro ⟨n, h, h' | ⟨r, h'⟩⟩
    · injection h with h; subst h; revert h'; decide +kernel
    · injection h with h
      have : inPackage { module := some n } = true := (inPackage_iff _).2 ⟨n, r, rfl, h'⟩
      subst h; revert this; decide +kernel
  · rintro ⟨n, h, _⟩; cases h

/-- The application's line, with two functions of ReactPy in between. -/
example : warn [{ module := some "reactpy.core.vdom" }, { module := some "reactpy.core.vdom" }, { module := some "app", at_ := 7 }] =
    some { module := some "app", at_ := 7 } := by decide +kernel

/-- C92 is violated: the module `reactpy` itself is not taken for a part of ReactPy; a warning that it causes names its line. -/
theorem C92_root_violated (rest : List Frame) :
    warn ({ module := some "reactpy.config" } :: { module := some "reactpy" } :: rest) = some { module := some "reactpy" } := by
  have h1 : inPackage { module := some "reactpy.config" } = true := by decide +kernel
  have h2 : inPackage { module := some "reactpy" } = false := by decide +kernel
  simp [warn, depth, own_in, h1, h2, located, external]

/-- C92 is violated: when a module of ReactPy is imported by another one, a warning that it causes names the line of the import. -/
theorem C92_import_violated (rest : List Frame) :
    warn ({ module := some "reactpy.config" } :: { module := some "importlib._bootstrap", internal := true } :: { module := some "reactpy.core.layout" } :: rest) =
      some { module := some "reactpy.core.layout" } := by
  have h1 : inPackage { module := some "reactpy.config" } = true := by decide +kernel
  have h2 : inPackage { module := some "importlib._bootstrap", internal := true } = false := by decide +kernel
  simp [warn, depth, own_in, h1, h2, located, external]

end Verif.Vdom.Warn
