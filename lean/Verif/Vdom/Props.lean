import Verif.Vdom.Lemmas
/-!
# Properties of element constructors and of `VdomDict`
-/
namespace Verif.Vdom

/-! ### C29 -/

/-- **C29**: flattening lists exactly the leaves of the nested iterables, in left-to-right order: there
is a strictly increasing (lexicographic) list of all index paths that lead to a leaf, and the result
lists the leaves at these paths.  `leafAt` never goes into a string or a mapping. -/
theorem C29_flatten (vs : List Val) : ∃ ps : List (List Nat), ps.Pairwise (· < ·) ∧
    (∀ p, p ∈ ps ↔ (leafAt vs p).isSome) ∧ ps.map (leafAt vs) = (flatten vs).map some := by
  have hm : (paths 0 vs).map (leafAt vs) = (flatten vs).map some := by
    rw [← paths_leaf vs 0]
    exact List.map_congr_left (fun q _ => (leafFrom_zero vs q).symm)
  refine ⟨paths 0 vs, paths_sorted vs 0, fun p => ⟨fun h => ?_, fun h => ?_⟩, hm⟩
  · have : leafAt vs p ∈ (flatten vs).map some := by rw [← hm]; exact List.mem_map_of_mem h
    obtain ⟨v, _, hv⟩ := List.mem_map.1 this
    rw [← hv]; rfl
  · exact leaf_paths vs 0 p (by rw [leafFrom_zero]; exact h)

example : leafAt [.str "ab", .iter [.iter [.mapping 1], .other 2]] [1, 0, 0] = some (.mapping 1) ∧
    flatten [.str "ab", .iter [.iter [.mapping 1], .other 2]] = [.str "ab", .mapping 1, .other 2] := ⟨rfl, rfl⟩

/-- **C29**: whatever the constructor, the children of the element are the flattened arguments after a
leading plain dict, and attributes come from that dict only. -/
theorem C29_children (word : Char → Bool) (isNone : Val → Bool) (jsonOk : List (String × Val) → Bool)
    (m : Maker) (values : List Val) (e : Elem) (h : m.call word isNone jsonOk values = .ok e) :
    e.children.getD [] = match values with
      | .dict _ :: rest => flatten rest
      | _ => flatten values := by
  have hs : (separate values).2 = match values with
      | .dict _ :: rest => flatten rest
      | _ => flatten values := by
    unfold separate
    split <;> simp_all [flatten]
  have hne : ∀ l : List Val, (nonEmpty l).getD [] = l := by
    intro l; cases l <;> rfl
  rw [← hs]
  simp only [Maker.call] at h
  split at h
  · simp at h
  · revert h
    generalize (separate values).2 = cs
    generalize separateAttrs word (separate values).1 = p
    intro h
    split at h
    · simp at h
    · rename_i e' he
      split at h
      · simp at h
      · simp only [Except.ok.injEq] at h
        subst h
        show e'.children.getD [] = cs
        cases hc : m.custom <;> simp only [hc] at he
        · simp only [Except.ok.injEq] at he; subst he; exact hne cs
        · simp only [fragment] at he
          split at he
          · simp at he
          · simp only [Except.ok.injEq] at he; subst he; exact hne cs
        · simp only [script] at he
          split at he
          · simp at he
          · split at he
            · simp only [Except.ok.injEq] at he; subst he; rfl
            · simp only [Except.ok.injEq] at he; subst he; rfl
            · simp only [Except.ok.injEq] at he; subst he; rfl
            · simp at he

/-- Without a leading plain dict an element (or fragment) has no attributes, handlers or JavaScript. -/
theorem C29_no_attributes (word : Char → Bool) (isNone : Val → Bool) (jsonOk : List (String × Val) → Bool)
    (m : Maker) (hm : m.custom ≠ .script) (values : List Val) (hv : ∀ a rest, values ≠ .dict a :: rest) (e : Elem)
    (h : m.call word isNone jsonOk values = .ok e) :
    e.attributes = none ∧ e.handlers = none ∧ e.inlineJs = none := by
  have hs : (separate values).1 = [] := by
    unfold separate
    split
    · rfl
    · rename_i a rest; exact absurd rfl (hv a rest)
    · rfl
  simp only [Maker.call, hs] at h
  split at h
  · simp at h
  · split at h
    · simp at h
    · rename_i e' he
      split at h
      · simp at h
      · simp only [Except.ok.injEq] at h
        subst h
        cases hc : m.custom <;> simp only [hc] at he
        · simp only [Except.ok.injEq] at he; subst he; exact ⟨rfl, rfl, rfl⟩
        · simp only [fragment] at he
          split at he
          · simp at he
          · simp only [Except.ok.injEq] at he; subst he; exact ⟨rfl, rfl, rfl⟩
        · exact absurd hc hm

/-- An element constructor raises only `TypeError`, and exactly if the attributes cannot be written as JSON
or children are given to an element that has none; the element has the tag and the import source of its
constructor. -/
theorem C29_accepts (word : Char → Bool) (isNone : Val → Bool) (jsonOk : List (String × Val) → Bool)
    (m : Maker) (hm : m.custom = .default) (values : List Val) :
    (jsonOk (separateAttrs word (separate values).1).attributes = true ∧ (m.allowChildren = true ∨ (separate values).2 = []) ∧
      ∃ e, m.call word isNone jsonOk values = .ok e ∧ e.tag = m.tag ∧ e.importSource = m.importSource) ∨
    ((jsonOk (separateAttrs word (separate values).1).attributes = false ∨ (m.allowChildren = false ∧ (separate values).2 ≠ [])) ∧
      m.call word isNone jsonOk values = .error .type) := by
  simp only [Maker.call, hm]
  cases hj : jsonOk (separateAttrs word (separate values).1).attributes with
  | false => simp
  | true =>
    cases ha : m.allowChildren <;> cases hc : (separate values).2 <;> simp

example : (match Maker.call (fun _ => true) (fun _ => false) (fun _ => true) { tag := "br", allowChildren := false } [.str "x"] with
    | .error .type => true | _ => false) = true ∧
    (match Maker.call (fun _ => true) (fun _ => false) (fun _ => true) { tag := "p", importSource := some 3 } [.str "x"] with
    | .ok e => e.tag == "p" && e.importSource == some 3 | _ => false) = true := ⟨rfl, rfl⟩

/-- A constructed element of any kind has the tag of its constructor. -/
theorem C29_tag (word : Char → Bool) (isNone : Val → Bool) (jsonOk : List (String × Val) → Bool)
    (m : Maker) (values : List Val) (e : Elem) (h : m.call word isNone jsonOk values = .ok e) : e.tag = m.tag := by
  simp only [Maker.call] at h
  split at h
  · simp at h
  · split at h
    · simp at h
    · split at h
      · simp at h
      · simp only [Except.ok.injEq] at h; subst h; rfl

/-! ### C30 -/

/-- The names of event attributes: `on`, an upper case ASCII letter and a word character, then anything. -/
def EventName (word : Char → Bool) (k : String) : Prop :=
  ∃ c d rest, k.toList = 'o' :: 'n' :: c :: d :: rest ∧ 'A' ≤ c ∧ c ≤ 'Z' ∧ word d = true

/-- … are the names under which a plain string is JavaScript. -/
theorem C30_event_name (word : Char → Bool) (k : String) : isEventName word k = true ↔ EventName word k := by
  unfold isEventName EventName
  constructor
  · intro h
    split at h
    · rename_i c d r heq
      simp at h
      exact ⟨c, d, r, heq, h.1.1, h.1.2, h.2⟩
    · simp at h
  · rintro ⟨c, d, r, h, h1, h2, h3⟩
    rw [h]; simp [h1, h2, h3]

/-- The three places an attribute can go to. -/
inductive Place where
  | attribute
  | handler
  | inlineJs
deriving DecidableEq, Repr

/-- Where an attribute belongs, by the kind of its value: callables and handlers are event handlers,
`InlineJavaScript` and plain strings under an event name are JavaScript, the rest attributes. -/
def place (word : Char → Bool) (k : String) : Val → Place
  | .fn _ => .handler
  | .handler _ => .handler
  | .js _ => .inlineJs
  | .str _ => if isEventName word k then .inlineJs else .attribute
  | _ => .attribute

def asHandler : Val → Option HVal
  | .fn n => some (.wrapped n)
  | .handler n => some (.given n)
  | _ => none

def asJs : Val → Option String
  | .js s => some s
  | .str s => some s
  | _ => none

/-- The attributes that belong to a place, in order. -/
def belong (word : Char → Bool) (x : Place) (a : List (String × Val)) : List (String × Val) :=
  a.filter (fun kv => place word kv.1 kv.2 = x)

/-- The separated dicts hold exactly the attributes that belong there, unchanged and in order. -/
theorem C30_separate (word : Char → Bool) (a : List (String × Val)) :
    (separateAttrs word a).attributes = belong word .attribute a ∧
    (separateAttrs word a).handlers.map (fun p => (p.1, some p.2)) =
      (belong word .handler a).map (fun p => (p.1, asHandler p.2)) ∧
    (separateAttrs word a).inlineJs.map (fun p => (p.1, some p.2)) =
      (belong word .inlineJs a).map (fun p => (p.1, asJs p.2)) := by
  induction a with
  | nil => exact ⟨rfl, rfl, rfl⟩
  | cons kv a ih =>
    obtain ⟨k, v⟩ := kv
    obtain ⟨h1, h2, h3⟩ := ih
    simp only [separateAttrs, List.foldl_cons] at h1 h2 h3 ⊢
    rw [foldl_parts]
    simp only [belong] at h1 h2 h3 ⊢
    cases v with
    | str t =>
      by_cases he : isEventName word k = true
      · have hp : place word k (.str t) = .inlineJs := by simp [place, he]
        simp [Parts.add, hp, h1, h2, h3, he]; rfl
      · have hp : place word k (.str t) = .attribute := by simp [place, he]
        simp [Parts.add, hp, h1, h2, h3, he]
    | js t =>
      have hp : place word k (.js t) = .inlineJs := rfl
      simp [Parts.add, hp, h1, h2, h3]; rfl
    | fn t =>
      have hp : place word k (.fn t) = .handler := rfl
      simp [Parts.add, hp, h1, h2, h3]; rfl
    | handler t =>
      have hp : place word k (.handler t) = .handler := rfl
      simp [Parts.add, hp, h1, h2, h3]; rfl
    | dict t =>
      have hp : place word k (.dict t) = .attribute := rfl
      simp [Parts.add, hp, h1, h2, h3]
    | mapping t =>
      have hp : place word k (.mapping t) = .attribute := rfl
      simp [Parts.add, hp, h1, h2, h3]
    | iter t =>
      have hp : place word k (.iter t) = .attribute := rfl
      simp [Parts.add, hp, h1, h2, h3]
    | other t =>
      have hp : place word k (.other t) = .attribute := rfl
      simp [Parts.add, hp, h1, h2, h3]

/-- **C30** (partial: the default constructor, i.e. all elements but `fragment` and `script`).  Each
attribute given in a leading plain dict ends up in exactly one place, unchanged and in order. -/
theorem C30_attributes_partial (word : Char → Bool) (isNone : Val → Bool) (jsonOk : List (String × Val) → Bool)
    (m : Maker) (hm : m.custom = .default) (a : List (String × Val)) (rest : List Val) (e : Elem)
    (h : m.call word isNone jsonOk (.dict a :: rest) = .ok e) :
    e.attributes.getD [] = belong word .attribute a ∧
    (e.handlers.getD []).map (fun p => (p.1, some p.2)) = (belong word .handler a).map (fun p => (p.1, asHandler p.2)) ∧
    (e.inlineJs.getD []).map (fun p => (p.1, some p.2)) = (belong word .inlineJs a).map (fun p => (p.1, asJs p.2)) := by
  obtain ⟨h1, h2, h3⟩ := C30_separate word a
  have hne : ∀ {α : Type} (l : List α), (nonEmpty l).getD [] = l := by
    intro α l; cases l <;> rfl
  unfold Maker.call at h
  rw [show separate (.dict a :: rest) = (a, flatten rest) from rfl] at h
  simp only [hm] at h
  by_cases hj : (!jsonOk (separateAttrs word a).attributes) = true
  · rw [if_pos hj] at h; cases h
  · rw [if_neg hj] at h
    by_cases hc : (!(flatten rest).isEmpty && !m.allowChildren) = true
    · rw [if_pos hc] at h; cases h
    · rw [if_neg hc] at h
      cases h
      simp only [hne]
      exact ⟨h1, h2, h3⟩

/-- Nothing is lost or duplicated by the partition. -/
theorem C30_complete (word : Char → Bool) (a : List (String × Val)) :
    (belong word .attribute a).length + (belong word .handler a).length + (belong word .inlineJs a).length = a.length ∧
    ∀ kv ∈ a, ∃ x, kv ∈ belong word x a ∧ ∀ y, kv ∈ belong word y a → y = x := by
  constructor
  · induction a with
    | nil => rfl
    | cons kv a ih =>
      simp only [belong, List.filter_cons] at ih ⊢
      cases place word kv.1 kv.2 <;> simp <;> omega
  · intro kv hkv
    refine ⟨place word kv.1 kv.2, by simp [belong, hkv], ?_⟩
    intro y hy
    simp [belong] at hy
    exact hy.2.symm

/-- A word character for the examples. -/
def exWord (c : Char) : Bool := c.isAlphanum || c == '_'

example : ∃ e, Maker.call exWord (fun _ => false) (fun _ => true) { tag := "p" }
    [.dict [("id", .str "x"), ("onClick", .fn 3), ("onBlur", .str "f()")], .str "t"] = .ok e ∧
    e.attributes = some [("id", .str "x")] ∧ e.handlers = some [("onClick", .wrapped 3)] ∧
    e.inlineJs = some [("onBlur", "f()")] := ⟨_, rfl, rfl, rfl, rfl⟩

/-- **C30 is violated** by `html.fragment` and `html.script`: inline JavaScript disappears silently. -/
theorem C30_attributes_violated : ∃ (m : Maker) (values : List Val) (e : Elem),
    m.call exWord (fun _ => false) (fun _ => true) values = .ok e ∧
    ∃ a rest, values = .dict a :: rest ∧ belong exWord .inlineJs a ≠ [] ∧
      e.attributes.getD [] = [] ∧ e.handlers.getD [] = [] ∧ e.inlineJs.getD [] = [] :=
  ⟨{ tag := "", custom := .fragment }, [.dict [("onClick", .str "f()")]], _, rfl, _, _, rfl, by simp [belong, place, isEventName, exWord],
    rfl, rfl, rfl⟩

/-- A fragment with anything but a key or inline JavaScript is refused. -/
theorem C30_fragment (word : Char → Bool) (isNone : Val → Bool) (jsonOk : List (String × Val) → Bool)
    (m : Maker) (hm : m.custom = .fragment) (a : List (String × Val)) (rest : List Val) (e : Elem)
    (h : m.call word isNone jsonOk (.dict a :: rest) = .ok e) :
    belong word .handler a = [] ∧ (∀ kv ∈ belong word .attribute a, kv.1 = "key") ∧
    e.attributes.getD [] = belong word .attribute a ∧ e.handlers = none ∧ e.inlineJs = none := by
  obtain ⟨h1, h2, h3⟩ := C30_separate word a
  have hne : ∀ {α : Type} (l : List α), (nonEmpty l).getD [] = l := by
    intro α l; cases l <;> rfl
  unfold Maker.call at h
  rw [show separate (.dict a :: rest) = (a, flatten rest) from rfl] at h
  simp only [hm, fragment] at h
  by_cases hj : (!jsonOk (separateAttrs word a).attributes) = true
  · rw [if_pos hj] at h; cases h
  · rw [if_neg hj] at h
    by_cases hc : (((separateAttrs word a).attributes.any fun kv => kv.fst != "key") || !(separateAttrs word a).handlers.isEmpty) = true
    · rw [if_pos hc] at h; cases h
    · rw [if_neg hc] at h
      by_cases hd : (!(flatten rest).isEmpty && !m.allowChildren) = true
      · simp only at h; rw [if_pos hd] at h; cases h
      · simp only at h; rw [if_neg hd] at h
        cases h
        simp only [Bool.or_eq_true, not_or, Bool.not_eq_true, List.any_eq_false, Bool.not_eq_false',
          List.isEmpty_iff] at hc
        obtain ⟨hc1, hc2⟩ := hc
        refine ⟨?_, ?_, ?_, rfl, rfl⟩
        · rw [hc2] at h2
          simpa using h2.symm
        · intro kv hkv
          rw [← h1] at hkv
          simpa using hc1 kv hkv
        · simp only [hne]; exact h1

example : ∃ e, Maker.call exWord (fun _ => false) (fun _ => true) { tag := "", custom := .fragment }
    [.dict [("key", .str "x")], .str "t"] = .ok e := ⟨_, rfl⟩

/-- What `html.script` does with the leading dict: handlers are refused; every other attribute is kept, in order;
a key that is given is kept, and else made from the text or the `src`. -/
theorem C30_script (word : Char → Bool) (isNone : Val → Bool) (jsonOk : List (String × Val) → Bool)
    (m : Maker) (hm : m.custom = .script) (a : List (String × Val)) (rest : List Val) (e : Elem)
    (h : m.call word isNone jsonOk (.dict a :: rest) = .ok e) :
    belong word .handler a = [] ∧ e.handlers = none ∧ e.inlineJs = none ∧
    (e.attributes.getD []).filter (fun p => p.1 ≠ "key") = (belong word .attribute a).filter (fun p => p.1 ≠ "key") ∧
    (∀ k, get (belong word .attribute a) "key" = some k → isNone k = false → e.attributes = some (belong word .attribute a)) ∧
    ((get (belong word .attribute a) "key").isNone → ∀ t, (rest = [.str t] ∨ rest = [.js t]) →
      ∃ k, get (e.attributes.getD []) "key" = some k ∧ (k = .str t ∨ k = .js t)) ∧
    ((get (belong word .attribute a) "key").isNone → rest = [] → ∀ src, get (belong word .attribute a) "src" = some src →
      isNone src = false → get (e.attributes.getD []) "key" = some src) := by
  obtain ⟨h1, h2, h3⟩ := C30_separate word a
  unfold Maker.call at h
  rw [show separate (.dict a :: rest) = (a, flatten rest) from rfl] at h
  simp only [hm, script] at h
  by_cases hj : (!jsonOk (separateAttrs word a).attributes) = true
  · rw [if_pos hj] at h; cases h
  · rw [if_neg hj] at h
    by_cases hh : (!(separateAttrs word a).handlers.isEmpty) = true
    · rw [if_pos hh] at h; cases h
    · rw [if_neg hh] at h
      have hb : belong word .handler a = [] := by
        simp at hh; rw [hh] at h2; simpa using h2.symm
      rw [h1] at h
      generalize belong word .attribute a = at' at *
      have key : ∀ (kk : Option Val) (cs : List Val), (∀ k, get at' "key" = some k → isNone k = false → kk = some k) →
          (e = { tag := m.tag, children := nonEmpty cs, attributes := match kk with
            | none => nonEmpty at'
            | some k => some (put at' "key" k) }) →
          e.handlers = none ∧ e.inlineJs = none ∧
          (e.attributes.getD []).filter (fun p => p.1 ≠ "key") = at'.filter (fun p => p.1 ≠ "key") ∧
          (∀ k, get at' "key" = some k → isNone k = false → e.attributes = some at') ∧
          (∀ k, kk = some k → get (e.attributes.getD []) "key" = some k) := by
        intro kk cs hk he
        subst he
        refine ⟨rfl, rfl, ?_, ?_, ?_⟩
        · cases kk with
          | none => cases at' <;> rfl
          | some k => exact filter_put at' "key" k
        · intro k hg hn
          rw [hk k hg hn]
          simp only [Option.some.injEq]
          exact put_same hg
        · rintro k rfl
          exact get_put at' "key" k
      refine ⟨hb, ?_⟩
      have kn : ∀ k, get at' "key" = some k → isNone k = false → known isNone (get at' "key") = some k := by
        intro k hg hn; simp [known, hg, hn]
      have kn0 : (get at' "key").isNone → known isNone (get at' "key") = none := by
        intro hg; cases hk : get at' "key" with
        | none => rfl
        | some k => rw [hk] at hg; simp at hg
      have single : ∀ v, flatten rest = [v] → e = { tag := m.tag, children := some [v], attributes := match (known isNone (get at' "key")).or (some v) with
            | none => nonEmpty at'
            | some k => some (put at' "key" k) } →
          e.handlers = none ∧ e.inlineJs = none ∧
          (e.attributes.getD []).filter (fun p => p.1 ≠ "key") = at'.filter (fun p => p.1 ≠ "key") ∧
          (∀ k, get at' "key" = some k → isNone k = false → e.attributes = some at') ∧
          ((get at' "key").isNone → ∀ t, (rest = [.str t] ∨ rest = [.js t]) →
            ∃ k, get (e.attributes.getD []) "key" = some k ∧ (k = .str t ∨ k = .js t)) ∧
          ((get at' "key").isNone → rest = [] → ∀ src, get at' "src" = some src →
            isNone src = false → get (e.attributes.getD []) "key" = some src) := by
        intro v hf he
        obtain ⟨r1, r2, r3, r4, r5⟩ := key _ [v] (fun k hg hn => by rw [kn k hg hn]; rfl) he
        refine ⟨r1, r2, r3, r4, ?_, ?_⟩
        · intro hg t hr
          refine ⟨v, r5 v (by rw [kn0 hg]; rfl), ?_⟩
          rcases hr with rfl | rfl <;> simp [flatten, flattenOne] at hf <;> simp [hf]
        · rintro _ rfl; simp [flatten] at hf
      cases hf : flatten rest with
      | nil =>
        rw [hf] at h
        simp only [List.isEmpty_nil, Bool.not_true, Bool.false_and, Bool.false_eq_true, if_false, Except.ok.injEq] at h
        obtain ⟨r1, r2, r3, r4, r5⟩ := key _ [] (fun k hg hn => by
          show (if _ then _ else _) = _
          rw [kn k hg hn]; rfl) h.symm
        refine ⟨r1, r2, r3, r4, ?_, ?_⟩
        · rintro _ t (rfl | rfl) <;> simp [flatten, flattenOne] at hf
        · intro hg _ src hs hn
          apply r5
          rw [kn0 hg]
          have : at'.isEmpty = false := by cases at' <;> simp_all [get]
          simp [this, known, hs, hn]
      | cons v vs =>
        cases vs with
        | nil =>
          rw [hf] at h
          cases v with
          | str t =>
            simp only at h
            split at h
            · cases h
            · simp only [Except.ok.injEq] at h
              refine single _ hf ?_
              rw [← h]; simp [nonEmpty]
          | js t =>
            simp only at h
            split at h
            · cases h
            · simp only [Except.ok.injEq] at h
              refine single _ hf ?_
              rw [← h]; simp [nonEmpty]
          | _ => cases h
        | cons w ws =>
          rw [hf] at h
          cases v <;> cases h

example : (match Maker.call exWord (fun _ => false) (fun _ => true) { tag := "script", custom := .script }
    [.dict [("src", .str "x.js"), ("async", .other 1)]] with
    | .ok e => (e.attributes.getD []).map (·.1) | _ => []) = ["src", "async", "key"] := rfl

/-! ### C52 -/

theorem dput_keys {d : VDict} {k : String} {v : Nat} {x : String} (h : x ∈ (dput d k v).map (·.1)) :
    x = k ∨ x ∈ d.map (·.1) := by
  induction d with
  | nil => simp [dput] at h; exact .inl h
  | cons p r ih =>
    obtain ⟨k', v'⟩ := p
    simp only [dput] at h
    split at h
    · simp at h ⊢; rcases h with h | h
      · exact .inl h
      · exact .inr (.inr h)
    · simp only [List.map_cons, List.mem_cons] at h ⊢
      rcases h with h | h
      · exact .inr (.inl h)
      · rcases ih h with h | h
        · exact .inl h
        · exact .inr (.inr h)

/-- The value stored under a key. -/
def lookup (k : String) : VDict → Option Nat
  | [] => none
  | (k', v) :: r => if k' = k then some v else lookup k r

/-- Methods that `VdomDict` overrides or that only remove. -/
def DOp.Checked : DOp → Prop
  | .setitem _ _ => True
  | .delitem _ => True
  | .clear => True
  | _ => False

/-- **C52** (partial: mutations by `d[k] = v`, `del`/`pop` and `clear`).  A `VdomDict` only ever has
VDOM keys. -/
theorem C52_keys_partial (kwargs d : VDict) (h : newDict kwargs = some d) (ops : List DOp)
    (hops : ∀ o ∈ ops, o.Checked) :
    ∀ k ∈ (ops.foldl DOp.run d).map (·.1), k ∈ ["tagName", "children", "attributes", "eventHandlers", "inlineJavaScript", "importSource"] := by
  have h0 : ∀ k ∈ d.map (·.1), k ∈ allowedKeys := by
    simp only [newDict] at h
    split at h
    · rename_i hc
      simp only [Option.some.injEq] at h; subst h
      simp only [Bool.and_eq_true, List.all_eq_true, List.contains_iff_mem] at hc
      intro k hk
      obtain ⟨p, hp, rfl⟩ := List.mem_map.1 hk
      exact hc.2 p hp
    · simp at h
  clear h
  show ∀ k ∈ (ops.foldl DOp.run d).map (·.1), k ∈ allowedKeys
  induction ops generalizing d with
  | nil => exact h0
  | cons o ops ih =>
    simp only [List.foldl_cons]
    apply ih _ (fun o ho => hops o (by simp [ho]))
    have ho := hops o (by simp)
    intro k hk
    cases o <;> simp only [DOp.Checked] at ho
    case setitem k' v =>
      simp only [DOp.run] at hk
      split at hk
      · rename_i hc
        rcases dput_keys hk with rfl | h
        · simpa [List.contains_iff_mem] using hc
        · exact h0 k h
      · exact h0 k hk
    case delitem k' =>
      simp only [DOp.run] at hk
      obtain ⟨p, hp, rfl⟩ := List.mem_map.1 hk
      exact h0 _ (List.mem_map_of_mem (List.mem_filter.1 hp).1)
    case clear => simp [DOp.run] at hk

example : newDict [("tagName", 0), ("children", 1)] = some [("tagName", 0), ("children", 1)] ∧
    ([DOp.setitem "bogus" 3, .setitem "attributes" 2, .delitem "children"].foldl DOp.run [("tagName", 0), ("children", 1)]) =
      [("tagName", 0), ("attributes", 2)] := ⟨by decide, by decide⟩

/-- Construction refuses other keys, and a missing tag name. -/
theorem C52_construct (kwargs : VDict) : newDict kwargs = some kwargs ↔
    "tagName" ∈ kwargs.map (·.1) ∧ ∀ k ∈ kwargs.map (·.1), k ∈ allowedKeys := by
  simp [newDict]

/-- `d[k] = v` with a VDOM key stores the value and changes no other entry; with another key it changes nothing
(and raises); `del` removes the entry. -/
theorem C52_setitem (d : VDict) (k k' : String) (v : Nat) :
    (k ∈ allowedKeys → lookup k ((DOp.setitem k v).run d) = some v ∧
      (k' ≠ k → lookup k' ((DOp.setitem k v).run d) = lookup k' d)) ∧
    (k ∉ allowedKeys → (DOp.setitem k v).run d = d) ∧
    lookup k ((DOp.delitem k).run d) = none ∧ (k' ≠ k → lookup k' ((DOp.delitem k).run d) = lookup k' d) := by
  have h1 : ∀ x, lookup x (dput d k v) = if x = k then some v else lookup x d := by
    intro x
    induction d with
    | nil =>
      by_cases hx : x = k
      · subst hx; simp [dput, lookup]
      · simp [dput, lookup, hx, Ne.symm hx]
    | cons p r ih =>
      obtain ⟨a, b⟩ := p
      simp only [dput]
      by_cases ha : a = k
      · rw [if_pos ha]; subst ha
        by_cases hx : x = a
        · subst hx; simp [lookup]
        · simp [lookup, hx, Ne.symm hx]
      · rw [if_neg ha]
        by_cases hx : a = x
        · subst hx; simp [lookup, ha]
        · simp only [lookup, if_neg hx] at ih ⊢; exact ih
  refine ⟨fun hk => ?_, fun hk => ?_, ?_, ?_⟩
  · have hc : allowedKeys.contains k = true := by simpa using hk
    simp only [DOp.run, hc, if_true, h1]
    exact ⟨by simp, fun h => by simp [h]⟩
  · have hc : allowedKeys.contains k = false := by simpa using hk
    simp only [DOp.run, hc]; rfl
  · simp only [DOp.run]
    clear h1
    induction d with
    | nil => rfl
    | cons p r ih =>
      obtain ⟨a, b⟩ := p
      by_cases ha : a = k
      · subst ha; simpa [lookup] using ih
      · simp only [List.filter_cons]
        simp only [ha, lookup, bne_iff_ne, ne_eq, not_false_eq_true, if_true]
        exact ih
  · intro hkk
    simp only [DOp.run]
    clear h1
    induction d with
    | nil => rfl
    | cons p r ih =>
      obtain ⟨a, b⟩ := p
      by_cases ha : a = k
      · subst ha; simp [lookup, Ne.symm hkk]; simpa using ih
      · simp only [List.filter_cons]
        simp only [ha, lookup, bne_iff_ne, ne_eq, not_false_eq_true, if_true]
        by_cases hx : a = k'
        · simp [hx]
        · simp only [hx, if_false]; exact ih

/-- **C52 is violated** through `update`, `setdefault` and `|=`, which `VdomDict` inherits unchecked. -/
theorem C52_keys_violated : ∃ (d : VDict), newDict d = some d ∧ "bogus" ∉ allowedKeys ∧
    "bogus" ∈ ((DOp.update [("bogus", 1)]).run d).map (·.1) ∧ "bogus" ∈ ((DOp.setdefault "bogus" 1).run d).map (·.1) ∧
    "bogus" ∈ ((DOp.ior [("bogus", 1)]).run d).map (·.1) :=
  ⟨[("tagName", 0)], by decide, by decide, by decide, by decide, by decide⟩

/-- **C29**, one child: everything but an iterable is one child, passed on as it is, and an iterable is replaced by the children in it. -/
theorem C29_single (v : Val) :
    (isSingle v = true ∧ flattenOne v = [v]) ∨ ∃ l, v = .iter l ∧ isSingle v = false ∧ flattenOne v = flatten l := by
  cases v <;> simp [isSingle, flattenOne]

example : isSingle (.str "a") = true ∧ isSingle (.iter [.str "a"]) = false := by decide

end Verif.Vdom
