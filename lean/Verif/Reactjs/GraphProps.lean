import Verif.Reactjs.Graph
/-! # Names exported by JavaScript modules: property C44 -/
namespace Verif.Reactjs

section
variable {U F R : Type}

/-- Specification: a module is a URL or a file. -/
inductive Mod (U F : Type) where
  | url (u : U)
  | file (f : F)

variable (fetch : U → Fetch R) (norm : U → R → U) (read : F → Fetch R) (isUrl : R → Option U) (join : F → R → F)

/-- Specification: the contents of a module. -/
def contents : Mod U F → Fetch R
  | .url u => fetch u
  | .file f => read f

/-- Specification: the module that a reference of a module means. -/
def target : Mod U F → R → Mod U F
  | .url u, r => .url (norm u r)
  | .file f, r => match isUrl r with
    | some u => .url u
    | none => .file (join f r)

/-- Specification: a module exports a name itself. -/
def Exports (m : Mod U F) (n : String) : Prop := ∃ names refs, contents fetch read m = .text names refs ∧ n ∈ names

/-- Specification: `Within d m m'`: from `m` one gets to `m'` by fewer than `d` re-exports. -/
inductive Within : Nat → Mod U F → Mod U F → Prop
  | here (d : Nat) (m : Mod U F) : Within (d + 1) m m
  | step {d : Nat} {m m' : Mod U F} {names : List String} {refs : List R} {r : R} (h : contents fetch read m = .text names refs)
      (hr : r ∈ refs) (hw : Within d (target norm isUrl join m r) m') : Within (d + 1) m m'

/-- Specification: the names that importing from a module gives: its own, and those of the modules it re-exports, except
their default exports. -/
def Found (d : Nat) (ex : Bool) (m : Mod U F) (n : String) : Prop :=
  (n ≠ "default" ∧ ∃ m', Within fetch norm read isUrl join d m m' ∧ Exports fetch read m' n) ∨
  (n = "default" ∧ ex = false ∧ 0 < d ∧ Exports fetch read m n)

/-- Specification: a reference of the module means the same wherever it is looked up from, or it is the only one. -/
def Plain : Prop := ∀ u names refs, fetch u = .text names refs → refs.length ≤ 1 ∨ ∀ r ∈ refs, ∀ b, norm b r = norm u r

variable {fetch norm read isUrl join}

theorem mem_clean {ex : Bool} {names : List String} {n : String} : n ∈ clean ex names ↔ n ∈ names ∧ (n = "default" → ex = false) := by
  cases ex <;> simp [clean]

/-- The loop visits the modules that the references mean. -/
theorem loopUrl_plain (rec : U → Option (List String)) (u : U) (refs : List R)
    (h : refs.length ≤ 1 ∨ ∀ r ∈ refs, ∀ b, norm b r = norm u r) :
    (loopUrl norm rec u refs = none ↔ ∃ r ∈ refs, rec (norm u r) = none) ∧
    ∀ out, loopUrl norm rec u refs = some out → ∀ n, n ∈ out ↔ ∃ r ∈ refs, ∃ l, rec (norm u r) = some l ∧ n ∈ l := by
  have gen : ∀ (refs : List R) (b : U), (∀ r ∈ refs, ∀ b, norm b r = norm u r) →
      (loopUrl norm rec b refs = none ↔ ∃ r ∈ refs, rec (norm u r) = none) ∧
      ∀ out, loopUrl norm rec b refs = some out → ∀ n, n ∈ out ↔ ∃ r ∈ refs, ∃ l, rec (norm u r) = some l ∧ n ∈ l := by
    intro refs
    induction refs with
    | nil =>
      intro b _
      refine ⟨by simp [loopUrl], ?_⟩
      intro out h n
      simp only [loopUrl, Option.some.injEq] at h
      subst h; simp
    | cons r rs ih =>
      intro b hh
      obtain ⟨i1, i2⟩ := ih (norm b r) (fun r' hr' => hh r' (by simp [hr']))
      have e := hh r (by simp) b
      constructor
      · simp only [loopUrl, Option.bind_eq_bind]
        rw [e] at i1 ⊢
        cases h1 : rec (norm u r) with
        | none => simp [h1]
        | some a =>
          cases h2 : loopUrl norm rec (norm u r) rs with
          | none =>
            have := i1.1 h2
            simp only [Option.bind_some, Option.bind_none, true_iff]
            obtain ⟨r', hr', hn⟩ := this
            exact ⟨r', by simp [hr'], hn⟩
          | some c =>
            simp only [Option.bind_some, reduceCtorEq, false_iff]
            rintro ⟨r', hr', hn⟩
            rcases List.mem_cons.1 hr' with rfl | hr'
            · rw [h1] at hn; cases hn
            · rw [i1.2 ⟨r', hr', hn⟩] at h2; cases h2
      · intro out ho n
        simp only [loopUrl, Option.bind_eq_bind] at ho
        rw [e] at ho i2
        cases h1 : rec (norm u r) with
        | none => rw [h1] at ho; simp at ho
        | some a =>
          rw [h1] at ho
          cases h2 : loopUrl norm rec (norm u r) rs with
          | none => rw [h2] at ho; simp at ho
          | some c =>
            rw [h2] at ho
            simp only [Option.bind_some, Option.some.injEq] at ho
            subst ho
            rw [List.mem_append, i2 c h2 n]
            constructor
            · rintro (h | ⟨r', hr', l, hl, hn⟩)
              · exact ⟨r, by simp, a, h1, h⟩
              · exact ⟨r', by simp [hr'], l, hl, hn⟩
            · rintro ⟨r', hr', l, hl, hn⟩
              rcases List.mem_cons.1 hr' with rfl | hr'
              · rw [h1] at hl; cases hl; exact .inl hn
              · exact .inr ⟨r', hr', l, hl, hn⟩
  rcases h with h | h
  · match refs, h with
    | [], _ => exact gen [] u (by simp)
    | [r], _ =>
      constructor
      · simp only [loopUrl, Option.bind_eq_bind]
        cases h1 : rec (norm u r) <;> simp [h1]
      · intro out ho n
        simp only [loopUrl, Option.bind_eq_bind] at ho
        cases h1 : rec (norm u r) with
        | none => rw [h1] at ho; simp at ho
        | some a => rw [h1] at ho; simp at ho; subst ho; simp [h1]
  · exact gen refs u h

theorem loopFile_spec (recUrl : U → Option (List String)) (recFile : F → Option (List String)) (rec : Mod U F → Option (List String))
    (hu : ∀ u, rec (.url u) = recUrl u) (hf : ∀ f, rec (.file f) = recFile f) (f : F) (refs : List R) :
    (loopFile isUrl join recUrl recFile f refs = none ↔ ∃ r ∈ refs, rec (target norm isUrl join (.file f) r) = none) ∧
    ∀ out, loopFile isUrl join recUrl recFile f refs = some out →
      ∀ n, n ∈ out ↔ ∃ r ∈ refs, ∃ l, rec (target norm isUrl join (.file f) r) = some l ∧ n ∈ l := by
  have step : ∀ r : R, (match isUrl r with | some u => recUrl u | none => recFile (join f r)) = rec (target norm isUrl join (.file f) r) := by
    intro r
    simp only [target]
    cases isUrl r with
    | none => exact (hf _).symm
    | some u => exact (hu u).symm
  induction refs with
  | nil =>
    refine ⟨by simp [loopFile], ?_⟩
    intro out h n
    simp only [loopFile, Option.some.injEq] at h
    subst h; simp
  | cons r rs ih =>
    have e : loopFile isUrl join recUrl recFile f (r :: rs) =
        (rec (target norm isUrl join (.file f) r)).bind fun a => (loopFile isUrl join recUrl recFile f rs).bind fun b => some (a ++ b) := by
      rw [loopFile, ← step]
      cases isUrl r <;> rfl
    rw [e]
    cases h1 : rec (target norm isUrl join (.file f) r) with
    | none => simp [h1]
    | some a =>
      cases h2 : loopFile isUrl join recUrl recFile f rs with
      | none =>
        obtain ⟨r', hr', hn⟩ := ih.1.1 h2
        simp only [Option.bind_some, Option.bind_none, true_iff]
        exact ⟨⟨r', by simp [hr'], hn⟩, by intro out h; cases h⟩
      | some c =>
        constructor
        · simp only [Option.bind_some, reduceCtorEq, false_iff]
          rintro ⟨r', hr', hn⟩
          rcases List.mem_cons.1 hr' with rfl | hr'
          · rw [h1] at hn; cases hn
          · rw [ih.1.2 ⟨r', hr', hn⟩] at h2; cases h2
        · intro out ho n
          simp only [Option.bind_some, Option.some.injEq] at ho
          subst ho
          rw [List.mem_append, ih.2 c h2 n]
          constructor
          · rintro (h | ⟨r', hr', l, hl, hn⟩)
            · exact ⟨r, by simp, a, h1, h⟩
            · exact ⟨r', by simp [hr'], l, hl, hn⟩
          · rintro ⟨r', hr', l, hl, hn⟩
            rcases List.mem_cons.1 hr' with rfl | hr'
            · rw [h1] at hl; cases hl; exact .inl hn
            · exact .inr ⟨r', hr', l, hl, hn⟩

/-- The names of a module and those found through its references. -/
theorem found_step {d : Nat} {ex : Bool} {m : Mod U F} {names : List String} {refs : List R} (h : contents fetch read m = .text names refs) (n : String) :
    Found fetch norm read isUrl join (d + 1) ex m n ↔
      n ∈ clean ex names ∨ ∃ r ∈ refs, Found fetch norm read isUrl join d true (target norm isUrl join m r) n := by
  rw [mem_clean]
  have hexp : Exports fetch read m n ↔ n ∈ names := by
    constructor
    · rintro ⟨_, _, e, hn⟩; rw [h] at e; cases e; exact hn
    · exact fun hn => ⟨names, refs, h, hn⟩
  constructor
  · rintro (⟨hn, m', hw, he⟩ | ⟨hn, hex, _, he⟩)
    · cases hw with
      | here => exact .inl ⟨hexp.1 he, fun h => absurd h hn⟩
      | step h' hr hw =>
        rw [h] at h'; cases h'
        exact .inr ⟨_, hr, .inl ⟨hn, m', hw, he⟩⟩
    · exact .inl ⟨hexp.1 he, fun _ => hex⟩
  · rintro (⟨hn, hd⟩ | ⟨r, hr, ⟨hn, m', hw, he⟩ | ⟨_, h, _⟩⟩)
    · by_cases hdef : n = "default"
      · exact .inr ⟨hdef, hd hdef, by omega, hexp.2 hn⟩
      · exact .inl ⟨hdef, m, .here d m, hexp.2 hn⟩
    · exact .inl ⟨hn, m', .step h hr hw, he⟩
    · cases h

theorem not_found_missing {d : Nat} {ex : Bool} {m : Mod U F} (h : contents fetch read m = .missing) (n : String) :
    ¬ Found fetch norm read isUrl join d ex m n := by
  rintro (⟨_, m', hw, he⟩ | ⟨_, _, _, _, _, e, _⟩)
  · cases hw with
    | here => obtain ⟨_, _, e, _⟩ := he; rw [h] at e; cases e
    | step h' => rw [h] at h'; cases h'
  · rw [h] at e; cases e

/-- Specification: a failure that is not an unreachable host lies within reach. -/
def Fails (fetch : U → Fetch R) (norm : U → R → U) (read : F → Fetch R) (isUrl : R → Option U) (join : F → R → F) (d : Nat) (m : Mod U F) : Prop :=
  ∃ m', Within fetch norm read isUrl join d m m' ∧ contents fetch read m' = .raises

theorem fails_step {d : Nat} {m : Mod U F} {names : List String} {refs : List R} (h : contents fetch read m = .text names refs) :
    Fails fetch norm read isUrl join (d + 1) m ↔ ∃ r ∈ refs, Fails fetch norm read isUrl join d (target norm isUrl join m r) := by
  constructor
  · rintro ⟨m', hw, he⟩
    cases hw with
    | here => rw [h] at he; cases he
    | step h' hr hw => rw [h] at h'; cases h'; exact ⟨_, hr, m', hw, he⟩
  · rintro ⟨r, hr, m', hw, he⟩
    exact ⟨m', .step h hr hw, he⟩

theorem not_fails_missing {d : Nat} {m : Mod U F} (h : contents fetch read m = .missing) : ¬ Fails fetch norm read isUrl join d m := by
  rintro ⟨m', hw, he⟩
  cases hw with
  | here => rw [h] at he; cases he
  | step h' => rw [h] at h'; cases h'

/-- What a resolver has to do: find exactly the names, and fail exactly if a module within reach fails. -/
def Right (fetch : U → Fetch R) (norm : U → R → U) (read : F → Fetch R) (isUrl : R → Option U) (join : F → R → F) (d : Nat) (ex : Bool)
    (m : Mod U F) (out : Option (List String)) : Prop :=
  (out = none ↔ Fails fetch norm read isUrl join d m) ∧ ∀ l, out = some l → ∀ n, n ∈ l ↔ Found fetch norm read isUrl join d ex m n

theorem right_text {d : Nat} {ex : Bool} {m : Mod U F} {names : List String} {refs : List R} (h : contents fetch read m = .text names refs)
    (rec : Mod U F → Option (List String)) (hrec : ∀ m', Right fetch norm read isUrl join d true m' (rec m')) (more : Option (List String))
    (h1 : more = none ↔ ∃ r ∈ refs, rec (target norm isUrl join m r) = none)
    (h2 : ∀ out, more = some out → ∀ n, n ∈ out ↔ ∃ r ∈ refs, ∃ l, rec (target norm isUrl join m r) = some l ∧ n ∈ l) :
    Right fetch norm read isUrl join (d + 1) ex m (more.bind fun more => some (clean ex names ++ more)) := by
  constructor
  · rw [fails_step h]
    constructor
    · intro hn
      cases hm : more with
      | none =>
        obtain ⟨r, hr, hh⟩ := h1.1 hm
        exact ⟨r, hr, (hrec _).1.1 hh⟩
      | some l => rw [hm] at hn; cases hn
    · rintro ⟨r, hr, hf⟩
      rw [h1.2 ⟨r, hr, (hrec _).1.2 hf⟩]; rfl
  · intro l hl n
    cases hm : more with
    | none => rw [hm] at hl; cases hl
    | some c =>
      rw [hm] at hl
      simp only [Option.bind_some, Option.some.injEq] at hl
      subst hl
      rw [found_step h, List.mem_append, h2 c hm n]
      refine or_congr Iff.rfl ⟨?_, ?_⟩
      · rintro ⟨r, hr, l, hl, hn⟩
        exact ⟨r, hr, ((hrec _).2 l hl n).1 hn⟩
      · rintro ⟨r, hr, hf⟩
        cases hrr : rec (target norm isUrl join m r) with
        | none => rw [h1.2 ⟨r, hr, hrr⟩] at hm; cases hm
        | some l => exact ⟨r, hr, l, hrr, ((hrec _).2 l hrr n).2 hf⟩

/-- The resolver on either kind of module. -/
def resolve (fetch : U → Fetch R) (norm : U → R → U) (read : F → Fetch R) (isUrl : R → Option U) (join : F → R → F) (d : Nat) (ex : Bool) :
    Mod U F → Option (List String)
  | .url u => resolveUrl fetch norm d ex u
  | .file f => resolveFile fetch norm read isUrl join d ex f

theorem resolve_right (hp : Plain fetch norm) : ∀ (d : Nat) (ex : Bool) (m : Mod U F),
    Right fetch norm read isUrl join d ex m (resolve fetch norm read isUrl join d ex m) := by
  intro d
  induction d with
  | zero =>
    intro ex m
    have hr : resolve fetch norm read isUrl join 0 ex m = some [] := by cases m <;> rfl
    rw [hr]
    constructor
    · simp only [reduceCtorEq, false_iff]
      rintro ⟨m', hw, _⟩; cases hw
    · intro l hl n
      cases hl
      simp only [List.not_mem_nil, false_iff]
      rintro (⟨_, m', hw, _⟩ | ⟨_, _, h, _⟩)
      · cases hw
      · omega
  | succ d ih =>
    intro ex m
    cases hc : contents fetch read m with
    | missing =>
      have hr : resolve fetch norm read isUrl join (d + 1) ex m = some [] := by
        cases m with
        | url u => simp only [contents] at hc; simp [resolve, resolveUrl, hc]
        | file f => simp only [contents] at hc; simp [resolve, resolveFile, hc]
      rw [hr]
      refine ⟨by simp only [reduceCtorEq, false_iff]; exact not_fails_missing hc, ?_⟩
      intro l hl n
      cases hl
      simp only [List.not_mem_nil, false_iff]
      exact not_found_missing hc n
    | raises =>
      have hr : resolve fetch norm read isUrl join (d + 1) ex m = none := by
        cases m with
        | url u => simp only [contents] at hc; simp [resolve, resolveUrl, hc]
        | file f => simp only [contents] at hc; simp [resolve, resolveFile, hc]
      rw [hr]
      exact ⟨by simp only [true_iff]; exact ⟨m, .here d m, hc⟩, by intro l hl; cases hl⟩
    | text names refs =>
      cases m with
      | url u =>
        have hl := loopUrl_plain (norm := norm) (resolveUrl fetch norm d true) u refs (hp u names refs hc)
        have hr : resolve fetch norm read isUrl join (d + 1) ex (.url u) =
            (loopUrl norm (resolveUrl fetch norm d true) u refs).bind fun more => some (clean ex names ++ more) := by
          simp only [contents] at hc; simp only [resolve, resolveUrl, hc]; rfl
        rw [hr]
        exact right_text hc (resolve fetch norm read isUrl join d true) (ih true) _ hl.1 hl.2
      | file f =>
        have hl := loopFile_spec (norm := norm) (isUrl := isUrl) (join := join) (resolveUrl fetch norm d true)
          (resolveFile fetch norm read isUrl join d true) (resolve fetch norm read isUrl join d true) (fun _ => rfl) (fun _ => rfl) f refs
        have hr : resolve fetch norm read isUrl join (d + 1) ex (.file f) =
            (loopFile isUrl join (resolveUrl fetch norm d true) (resolveFile fetch norm read isUrl join d true) f refs).bind
              fun more => some (clean ex names ++ more) := by
          simp only [contents] at hc; simp only [resolve, resolveFile, hc]; rfl
        rw [hr]
        exact right_text hc (resolve fetch norm read isUrl join d true) (ih true) _ hl.1 hl.2

/-- **C44** (partial: modules at URLs have one reference or absolute ones).  For every graph of modules, cyclic or not, and
every depth: the names found are exactly those exported by modules that fewer than `depth` re-exports lead to, default
exports only of the module itself. -/
theorem C44_names_partial (hp : Plain fetch norm) (d : Nat) (m : Mod U F) (l : List String)
    (h : resolve fetch norm read isUrl join d false m = some l) (n : String) : n ∈ l ↔ Found fetch norm read isUrl join d false m n :=
  (resolve_right hp d false m).2 l h n

/-- **C44** (partial likewise).  The search fails exactly if a module within reach fails other than by an unreachable host or
a missing file. -/
theorem C44_fails_partial (hp : Plain fetch norm) (d : Nat) (m : Mod U F) :
    resolve fetch norm read isUrl join d false m = none ↔ Fails fetch norm read isUrl join d m := (resolve_right hp d false m).1

/-- **C44** (partial likewise).  The order in which the references of a file are visited does not matter. -/
theorem C44_order_partial (hp : Plain fetch norm) {read' : F → Fetch R}
    (hr : ∀ f, read' f = read f ∨ ∃ names refs refs', read f = .text names refs ∧ read' f = .text names refs' ∧ ∀ r, r ∈ refs ↔ r ∈ refs')
    (d : Nat) (f : F) (l l' : List String) (h : resolveFile fetch norm read isUrl join d false f = some l)
    (h' : resolveFile fetch norm read' isUrl join d false f = some l') (n : String) : n ∈ l ↔ n ∈ l' := by
  have e := (resolve_right (read := read) (isUrl := isUrl) (join := join) hp d false (.file f)).2 l h n
  have e' := (resolve_right (read := read') (isUrl := isUrl) (join := join) hp d false (.file f)).2 l' h' n
  rw [e, e']
  have hc : ∀ m : Mod U F, contents fetch read' m = contents fetch read m ∨ ∃ names refs refs', contents fetch read m = .text names refs ∧
      contents fetch read' m = .text names refs' ∧ ∀ r, r ∈ refs ↔ r ∈ refs' := by
    intro m
    cases m with
    | url u => exact .inl rfl
    | file f => exact hr f
  have hexp : ∀ m, Exports fetch read m n ↔ Exports fetch read' m n := by
    intro m
    rcases hc m with h | ⟨names, refs, refs', h1, h2, _⟩
    · simp only [Exports, h]
    · constructor
      · rintro ⟨_, _, e, hn⟩; rw [h1] at e; cases e; exact ⟨_, _, h2, hn⟩
      · rintro ⟨_, _, e, hn⟩; rw [h2] at e; cases e; exact ⟨_, _, h1, hn⟩
  have hw : ∀ {d m m'}, Within fetch norm read isUrl join d m m' → Within fetch norm read' isUrl join d m m' := by
    intro d m m' hw
    induction hw with
    | here d m => exact .here d m
    | step h hr _ ih =>
      rcases hc _ with h' | ⟨names, refs, refs', h1, h2, h3⟩
      · exact .step (h'.trans h) hr ih
      · rw [h] at h1; cases h1; exact .step h2 ((h3 _).1 hr) ih
  have hw' : ∀ {d m m'}, Within fetch norm read' isUrl join d m m' → Within fetch norm read isUrl join d m m' := by
    intro d m m' hw
    induction hw with
    | here d m => exact .here d m
    | step h hr _ ih =>
      rcases hc _ with h' | ⟨names, refs, refs', h1, h2, h3⟩
      · exact .step (h'.symm.trans h) hr ih
      · rw [h] at h2; cases h2; exact .step h1 ((h3 _).2 hr) ih
  constructor
  · rintro (⟨h1, m', h2, h3⟩ | ⟨h1, h2, h3, h4⟩)
    · exact .inl ⟨h1, m', hw h2, (hexp m').1 h3⟩
    · exact .inr ⟨h1, h2, h3, (hexp _).1 h4⟩
  · rintro (⟨h1, m', h2, h3⟩ | ⟨h1, h2, h3, h4⟩)
    · exact .inl ⟨h1, m', hw' h2, (hexp m').2 h3⟩
    · exact .inr ⟨h1, h2, h3, (hexp _).2 h4⟩

end

/-- Two files that re-export each other. -/
def demoRead (f : Nat) : Fetch Nat := if f = 0 then .text ["A", "default"] [1] else if f = 1 then .text ["B", "default"] [0] else .missing

example : resolveFile (U := Nat) (fun _ => .missing) (fun _ r => r) demoRead (fun _ => none) (fun _ r => r) 5 false 0 =
    some ["A", "default", "B", "A", "B", "A"] := by decide +kernel

example : Plain (U := Nat) (R := Nat) (fun _ => .missing) (fun _ r => r) := fun _ _ _ h => by cases h

/-- A module with two references. -/
def demoFetch (refs : List Str) (u : Str) : Fetch Str :=
  if u = "https://h.io/m.js".toList then .text ["M"] refs
  else if u = "https://h.io/lib/a.js".toList then .text ["A"] []
  else if u = "https://h.io/b.js".toList then .text ["B"] []
  else .missing

/-- **C44, violated.**  The order in which the references of a URL are visited (that of a Python set of strings, different
in each process) decides what is found: a reference is looked up from the module of the reference before it. -/
theorem C44_order_violated :
    resolveUrl (demoFetch ["./b.js".toList, "./lib/a.js".toList]) (normalize fun _ => true) 5 false "https://h.io/m.js".toList = some ["M", "B", "A"] ∧
    resolveUrl (demoFetch ["./lib/a.js".toList, "./b.js".toList]) (normalize fun _ => true) 5 false "https://h.io/m.js".toList = some ["M", "A"] := by
  decide +kernel

/-- **C44, violated.**  A reference to a package (`export * from "react"`) is fetched as if it were a URL, which raises an
exception that nothing catches. -/
theorem C44_package_violated :
    resolveUrl (fun u => if u = "https://h.io/m.js".toList then .text ["M"] ["react".toList] else .raises) (normalize fun _ => true) 5 false
      "https://h.io/m.js".toList = none := by decide +kernel

end Verif.Reactjs
