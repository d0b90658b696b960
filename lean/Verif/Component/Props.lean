import Verif.Component.Model
/-!
# C94: a component takes the arguments of its function, and a key

"Whatever function is made a component and whatever it is called with, each render calls the function with exactly these arguments. The keyword
`key` is the component's key and never reaches the function; so functions are refused exactly if a call could pass their parameter
`key` by keyword. Arguments that do not fit raise when the component is rendered."
-/
namespace Verif.Component

section
variable {V R : Type}

/-! ### Specification -/

/-- The keywords of a call without `key`. -/
def withoutKey (kw : List (String × V)) : List (String × V) := kw.filter fun a => !(a.1 == "key")

/-- The dictionary of `**kwargs`, which is left out if it is empty. -/
def rest (x : String) (l : List (String × V)) : List (String × Arg V) := if l = [] then [] else [(x, .dict l)]

/-- A call fits a signature: no arguments too many; a positional-only parameter without an argument has a default; no other parameter is given by position and by
keyword, and if it is given by neither, it has a default; and each keyword is the name of a parameter, or there is `**kwargs`. -/
structure Fits (s : Sig) (args : List V) (kw : List (String × V)) : Prop where
  positions : args.length ≤ s.posOnly.length + s.posOrKw.length ∨ s.varPos ≠ none
  first : ∀ i p, s.posOnly[i]? = some p → args.length ≤ i → p.required = false
  once : ∀ i p, s.posOrKw[i]? = some p → s.posOnly.length + i < args.length → ∀ a ∈ kw, a.1 ≠ p.name
  given : ∀ i p, s.posOrKw[i]? = some p → args.length ≤ s.posOnly.length + i → p.required = true → ∃ a ∈ kw, a.1 = p.name
  keyword : ∀ p ∈ s.kwOnly, p.required = true → ∃ a ∈ kw, a.1 = p.name
  known : ∀ a ∈ kw, (∃ p ∈ s.posOrKw ++ s.kwOnly, p.name = a.1) ∨ s.varKw ≠ none

/-! ### Lemmas -/

theorem lookup_none {x : String} : ∀ {l : List (String × V)}, (∀ a ∈ l, a.1 ≠ x) → l.lookup x = none
  | [], _ => rfl
  | (y, v) :: l, h => by
    have hy : (x == y) = false := by simpa using fun e => h (y, v) (by simp) e.symm
    rw [List.lookup_cons, hy]
    exact lookup_none fun a ha => h a (by simp [ha])

theorem lookup_append {x : String} {v : V} : ∀ {l r : List (String × V)}, (∀ a ∈ l, a.1 ≠ x) → (l ++ (x, v) :: r).lookup x = some v
  | [], r, _ => by simp [List.lookup_cons]
  | (y, w) :: l, r, h => by
    have hy : (x == y) = false := by simpa using fun e => h (y, w) (by simp) e.symm
    rw [List.cons_append, List.lookup_cons, hy]
    exact lookup_append fun a ha => h a (by simp [ha])

theorem withoutKey_id {l : List (String × V)} (h : ∀ a ∈ l, a.1 ≠ "key") : withoutKey l = l := by
  unfold withoutKey
  rw [List.filter_eq_self]
  intro a ha
  simpa using h a ha

theorem lookup_withoutKey {x : String} (hx : x ≠ "key") : ∀ l : List (String × V), (withoutKey l).lookup x = l.lookup x
  | [] => rfl
  | (y, v) :: l => by
    have ih := lookup_withoutKey hx l
    unfold withoutKey at ih ⊢
    by_cases hy : y = "key"
    · subst hy
      have : (x == "key") = false := by simpa using hx
      rw [List.filter_cons_of_neg (by simp), List.lookup_cons, this]
      exact ih
    · rw [List.filter_cons_of_pos (by simpa using hy), List.lookup_cons, List.lookup_cons, ih]

theorem named_withoutKey (kw : List (String × V)) : ∀ {ps : List Param}, (∀ p ∈ ps, p.name ≠ "key") → named (withoutKey kw) ps = named kw ps
  | [], _ => rfl
  | p :: ps, h => by
    have ih := named_withoutKey kw (ps := ps) fun q hq => h q (by simp [hq])
    simp only [named, lookup_withoutKey (h p (by simp)), ih]

theorem named_mem {kw : List (String × V)} {x : String} {a : Arg V} : ∀ {ps : List Param} {n : List (String × Arg V)}, named kw ps = some n →
    (x, a) ∈ n → ∃ v, a = .one v ∧ kw.lookup x = some v ∧ ∃ p ∈ ps, p.name = x
  | [], n, h, hm => by
    cases h; cases hm
  | p :: ps, n, h, hm => by
    simp only [named] at h
    split at h
    · rename_i v hv
      cases hn : named kw ps with
      | none => simp [hn] at h
      | some n' =>
        simp only [hn, Option.map_some, Option.some.injEq] at h
        subst h
        rcases List.mem_cons.1 hm with hm | hm
        · cases hm
          exact ⟨v, rfl, hv, p, by simp, rfl⟩
        · obtain ⟨w, h1, h2, q, h3, h4⟩ := named_mem hn hm
          exact ⟨w, h1, h2, q, by simp [h3], h4⟩
    · split at h
      · cases h
      · obtain ⟨w, h1, h2, q, h3, h4⟩ := named_mem h hm
        exact ⟨w, h1, h2, q, by simp [h3], h4⟩

/-- A call with all parameters by keyword that can be. -/
theorem named_all {kw : List (String × V)} {v : V} : ∀ {ps : List Param}, (∀ p ∈ ps, kw.lookup p.name = some v) →
    named kw ps = some (ps.map fun p => (p.name, .one v))
  | [], _ => rfl
  | p :: ps, h => by
    have ih := named_all (kw := kw) (v := v) (ps := ps) fun q hq => h q (by simp [hq])
    simp only [named, h p (by simp), ih]
    rfl

theorem lookup_const {v : V} {x : String} : ∀ {ps : List Param}, (∃ p ∈ ps, p.name = x) → (ps.map fun p => (p.name, v)).lookup x = some v
  | [], h => by obtain ⟨p, hp, _⟩ := h; cases hp
  | p :: ps, h => by
    rw [List.map_cons, List.lookup_cons]
    by_cases he : (x == p.name) = true
    · rw [he]
    · have he' : (x == p.name) = false := by simpa using he
      rw [he']
      apply lookup_const
      obtain ⟨q, hq, e⟩ := h
      rcases List.mem_cons.1 hq with rfl | hq
      · simp [e] at he
      · exact ⟨q, hq, e⟩

theorem later_key {s : Sig} (h : refused s = false) (n : Nat) : ∀ p ∈ s.posOrKw.drop n ++ s.kwOnly, p.name ≠ "key" := by
  simp only [refused, Bool.or_eq_false_iff, List.any_eq_false, beq_iff_eq] at h
  intro p hp
  rcases List.mem_append.1 hp with hp | hp
  · exact h.1 p (List.mem_of_mem_drop hp)
  · exact h.2 p hp

theorem lookup_isSome {x : String} : ∀ {l : List (String × V)}, (l.lookup x).isSome = true ↔ ∃ a ∈ l, a.1 = x
  | [] => by simp
  | (y, v) :: l => by
    rw [List.lookup_cons]
    by_cases h : x = y
    · subst h; simp
    · have : (x == y) = false := by simpa using h
      rw [this, lookup_isSome]
      simp [Ne.symm h]

theorem named_isSome {kw : List (String × V)} : ∀ {ps : List Param},
    (named kw ps).isSome = true ↔ ∀ p ∈ ps, p.required = true → ∃ a ∈ kw, a.1 = p.name
  | [] => by simp [named]
  | p :: ps => by
    have ih := named_isSome (kw := kw) (ps := ps)
    have hl := lookup_isSome (l := kw) (x := p.name)
    simp only [named, List.forall_mem_cons]
    split
    · rename_i v hv
      rw [hv] at hl
      rw [Option.isSome_map, ih]
      exact ⟨fun h => ⟨fun _ => hl.1 rfl, h⟩, fun h => h.2⟩
    · rename_i hv
      rw [hv] at hl
      split
      · rename_i hr
        simp only [Option.isSome_none, Bool.false_eq_true, false_iff]
        exact fun h => by simpa using hl.2 (h.1 hr)
      · rename_i hr
        rw [ih]
        exact ⟨fun h => ⟨fun h' => absurd h' hr, h⟩, fun h => h.2⟩

/-! ### Properties -/

/-- **C94.**  Rendering calls the function, and does not raise for the arguments, exactly if they fit the signature. -/
theorem C94_fits (f : Func V R) (args : List V) (kw : List (String × V)) : (f.call args kw).isSome = true ↔ Fits f.sig args kw := by
  rw [Func.call, Option.isSome_map]
  generalize f.sig = s
  obtain ⟨po, pk, vp, ko, vk⟩ := s
  have hlater : ∀ p, p ∈ pk.drop (args.length - po.length) ++ ko ↔ (∃ i, pk[i]? = some p ∧ args.length ≤ po.length + i) ∨ p ∈ ko := by
    intro p
    rw [List.mem_append, List.mem_iff_getElem?]
    refine or_congr ⟨fun ⟨i, hi⟩ => ?_, fun ⟨i, hi, hle⟩ => ?_⟩ Iff.rfl
    · rw [List.getElem?_drop] at hi
      exact ⟨_, hi, by omega⟩
    · refine ⟨i - (args.length - po.length), ?_⟩
      rw [List.getElem?_drop, show args.length - po.length + (i - (args.length - po.length)) = i by omega]
      exact hi
  have hearly : ∀ p, p ∈ pk.take (args.length - po.length) ↔ ∃ i, pk[i]? = some p ∧ po.length + i < args.length := by
    intro p
    rw [List.mem_iff_getElem?]
    constructor
    · rintro ⟨i, hi⟩
      rw [List.getElem?_take] at hi
      split at hi
      · exact ⟨i, hi, by omega⟩
      · cases hi
    · rintro ⟨i, hi, hlt⟩
      refine ⟨i, ?_⟩
      rw [List.getElem?_take, if_pos (by omega)]
      exact hi
  have h1 : ¬ (args.drop (po ++ pk).length ≠ [] ∧ vp = none) ↔ (args.length ≤ po.length + pk.length ∨ vp ≠ none) := by
    rw [ne_eq, List.drop_eq_nil_iff, List.length_append]
    by_cases h : args.length ≤ po.length + pk.length <;> simp [h]
  have h2 : ¬ ((po.drop args.length).any (·.required) = true) ↔ ∀ i p, po[i]? = some p → args.length ≤ i → p.required = false := by
    rw [List.any_eq_true]
    constructor
    · intro h i p hp hle
      refine Classical.byContradiction fun hr => h ⟨p, ?_, by simpa using hr⟩
      rw [List.mem_iff_getElem?]
      exact ⟨i - args.length, by rw [List.getElem?_drop, show args.length + (i - args.length) = i by omega]; exact hp⟩
    · rintro h ⟨p, hp, hr⟩
      rw [List.mem_iff_getElem?] at hp
      obtain ⟨i, hi⟩ := hp
      rw [List.getElem?_drop] at hi
      rw [h _ p hi (by omega)] at hr
      cases hr
  have h3 : ¬ ((pk.take (args.length - po.length)).any (fun p => (kw.lookup p.name).isSome) = true) ↔
      ∀ i p, pk[i]? = some p → po.length + i < args.length → ∀ a ∈ kw, a.1 ≠ p.name := by
    rw [List.any_eq_true]
    constructor
    · intro h i p hp hlt a ha e
      exact h ⟨p, (hearly p).2 ⟨i, hp, hlt⟩, lookup_isSome.2 ⟨a, ha, e⟩⟩
    · rintro h ⟨p, hp, hs⟩
      obtain ⟨i, hi, hlt⟩ := (hearly p).1 hp
      obtain ⟨a, ha, e⟩ := lookup_isSome.1 hs
      exact h i p hi hlt a ha e
  have h4 : (named kw (pk.drop (args.length - po.length) ++ ko)).isSome = true ↔
      (∀ i p, pk[i]? = some p → args.length ≤ po.length + i → p.required = true → ∃ a ∈ kw, a.1 = p.name) ∧
      ∀ p ∈ ko, p.required = true → ∃ a ∈ kw, a.1 = p.name := by
    rw [named_isSome]
    constructor
    · exact fun h => ⟨fun i p hi hle => h p ((hlater p).2 (.inl ⟨i, hi, hle⟩)), fun p hp => h p ((hlater p).2 (.inr hp))⟩
    · rintro ⟨a, b⟩ p hp
      rcases (hlater p).1 hp with ⟨i, hi, hle⟩ | hp
      · exact a i p hi hle
      · exact b p hp
  have h5 : kw.filter (fun a => !(pk.drop (args.length - po.length) ++ ko).any (·.name == a.1)) = [] ↔
      ∀ a ∈ kw, ∃ p ∈ pk.drop (args.length - po.length) ++ ko, p.name = a.1 := by
    rw [List.filter_eq_nil_iff]
    simp only [Bool.not_eq_true, Bool.not_eq_false', List.any_eq_true, beq_iff_eq]
  have fits : Fits ⟨po, pk, vp, ko, vk⟩ args kw ↔ (args.length ≤ po.length + pk.length ∨ vp ≠ none) ∧
      (∀ i p, po[i]? = some p → args.length ≤ i → p.required = false) ∧
      (∀ i p, pk[i]? = some p → po.length + i < args.length → ∀ a ∈ kw, a.1 ≠ p.name) ∧
      ((∀ i p, pk[i]? = some p → args.length ≤ po.length + i → p.required = true → ∃ a ∈ kw, a.1 = p.name) ∧
      ∀ p ∈ ko, p.required = true → ∃ a ∈ kw, a.1 = p.name) ∧
      ((∀ a ∈ kw, ∃ p ∈ pk.drop (args.length - po.length) ++ ko, p.name = a.1) ∨ vk ≠ none) := by
    constructor
    · rintro ⟨a, b, c, d, e, f⟩
      refine ⟨a, b, c, ⟨d, e⟩, ?_⟩
      cases vk with
      | some x => exact .inr (by simp)
      | none =>
        refine .inl fun a ha => ?_
        rcases f a ha with ⟨p, hp, e⟩ | h
        · refine ⟨p, (hlater p).2 ?_, e⟩
          rcases List.mem_append.1 hp with hp | hp
          · obtain ⟨i, hi⟩ := List.mem_iff_getElem?.1 hp
            by_cases hle : args.length ≤ po.length + i
            · exact .inl ⟨i, hi, hle⟩
            · exact absurd e.symm (c i p hi (show po.length + i < args.length by omega) a ha)
          · exact .inr hp
        · exact absurd rfl h
    · rintro ⟨a, b, c, ⟨d, e⟩, f⟩
      refine ⟨a, b, c, d, e, fun x hx => ?_⟩
      rcases f with f | f
      · obtain ⟨p, hp, e⟩ := f x hx
        refine .inl ⟨p, ?_, e⟩
        rcases List.mem_append.1 hp with hp | hp
        · exact List.mem_append.2 (.inl (List.mem_of_mem_drop hp))
        · exact List.mem_append.2 (.inr hp)
      · exact .inr f
  rw [fits, ← h1, ← h2, ← h3, ← h4, ← h5]
  simp only [bind]
  split
  · rename_i h; exact ⟨fun h' => by simp at h', fun h' => absurd h h'.1⟩
  · rename_i n1
    split
    · rename_i h; exact ⟨fun h' => by simp at h', fun h' => absurd h h'.2.1⟩
    · rename_i n2
      split
      · rename_i h; exact ⟨fun h' => by simp at h', fun h' => absurd h h'.2.2.1⟩
      · rename_i n3
        split
        · rename_i h; exact ⟨fun h' => by simp at h', fun h' => by rw [h] at h'; simp at h'⟩
        · rename_i n hn
          rw [hn]
          cases vk with
          | some x => simp only [Option.isSome_some, true_iff]; exact ⟨n1, n2, n3, trivial, .inr (by simp)⟩
          | none =>
            simp only
            split
            · rename_i h5; simp only [Option.isSome_some, true_iff]; exact ⟨n1, n2, n3, trivial, .inl h5⟩
            · rename_i h5; exact ⟨fun h' => by simp at h', fun h' => absurd (h'.2.2.2.2.resolve_right (by simp)) h5⟩

/-- A call `f(1, b=2)` of `def f(a=…, /, b, *, c=…)`, and one without `b`. -/
example : Fits (V := Nat) ⟨[⟨"a", false⟩], [⟨"b", true⟩], none, [⟨"c", false⟩], none⟩ [1] [("b", 2)] ∧
    Fits (V := Nat) ⟨[⟨"a", false⟩], [⟨"b", true⟩], none, [⟨"c", false⟩], none⟩ [] [("b", 2)] ∧
    ¬ Fits (V := Nat) ⟨[⟨"a", false⟩], [⟨"b", true⟩], none, [⟨"c", false⟩], none⟩ [1] [("c", 2)] := by
  have h := fun args kw => C94_fits (V := Nat) (R := Unit) ⟨none, ⟨[⟨"a", false⟩], [⟨"b", true⟩], none, [⟨"c", false⟩], none⟩, fun _ => ()⟩ args kw
  refine ⟨(h _ _).1 (by decide +kernel), (h _ _).1 (by decide +kernel), fun hf => ?_⟩
  have := (h _ _).2 hf
  revert this
  decide +kernel

/-- **C94.**  A component calls its function with the arguments and keywords it was called with, apart from the keyword `key`, which may
stand anywhere among them and is the component's key. -/
theorem C94_called (f : Func V R) (make : List V → List (String × V) → Comp V R) (h : component f = some make) (args : List V)
    (kw kw' : List (String × V)) (hk : ∀ a ∈ kw ++ kw', a.1 ≠ "key") :
    ((make args (kw ++ kw')).key = none ∧ (make args (kw ++ kw')).render = f.call args (kw ++ kw')) ∧
    ∀ k, (make args (kw ++ ("key", k) :: kw')).key = some k ∧ (make args (kw ++ ("key", k) :: kw')).render = f.call args (kw ++ kw') := by
  unfold component at h
  split at h
  · cases h
  · cases h
    have h1 : ∀ a ∈ kw, a.1 ≠ "key" := fun a ha => hk a (by simp [ha])
    have h2 : ∀ a ∈ kw', a.1 ≠ "key" := fun a ha => hk a (by simp [ha])
    refine ⟨⟨lookup_none hk, ?_⟩, fun k => ⟨lookup_append h1, ?_⟩⟩
    · show f.call args (withoutKey (kw ++ kw')) = _
      rw [withoutKey_id hk]
    · show f.call args (withoutKey (kw ++ ("key", k) :: kw')) = _
      have : withoutKey (kw ++ ("key", k) :: kw') = withoutKey kw ++ withoutKey kw' := by
        simp [withoutKey]
      rw [this, withoutKey_id h1, withoutKey_id h2]

/-- **C94, exact.**  A function is refused exactly if some call of it could give its parameter `key` a value by keyword. -/
theorem C94_refused (f : Func Nat R) (hd : ((f.sig.posOrKw ++ f.sig.kwOnly).map (·.name)).Nodup) :
    component f = none ↔ ∃ (args : List Nat) (kw : List (String × Nat)) (v : Nat) (b : List (String × Arg Nat)), ("key", v) ∈ kw ∧
      (kw.map (·.1)).Nodup ∧ v ∉ args ∧ bind f.sig args kw = some b ∧ ("key", .one v) ∈ b := by
  have hc : component f = none ↔ refused f.sig = true := by
    unfold component
    split <;> simp_all
  rw [hc]
  obtain ⟨name, ⟨po, pk, vp, ko, vk⟩, body⟩ := f
  simp only at hd ⊢
  constructor
  · intro h
    have hkey : ∃ p ∈ pk ++ ko, p.name = "key" := by
      simp only [refused, Bool.or_eq_true, List.any_eq_true, beq_iff_eq] at h
      rcases h with ⟨p, hp, e⟩ | ⟨p, hp, e⟩
      · exact ⟨p, by simp [hp], e⟩
      · exact ⟨p, by simp [hp], e⟩
    refine ⟨po.map fun _ => 0, (pk ++ ko).map fun p => (p.name, 1), 1, (po.map (·.name)).zip (po.map fun _ => .one 0) ++ (pk ++ ko).map fun p => (p.name, .one 1),
      ?_, ?_, ?_, ?_, ?_⟩
    · obtain ⟨p, hp, e⟩ := hkey
      exact List.mem_map.2 ⟨p, hp, by rw [e]⟩
    · simpa [List.map_map, Function.comp_def] using hd
    · simp
    · have hn : named ((pk ++ ko).map fun p => (p.name, 1)) (pk ++ ko) = some ((pk ++ ko).map fun p => (p.name, .one 1)) :=
        named_all fun p hp => lookup_const ⟨p, hp, rfl⟩
      have hl : ((pk ++ ko).map fun p => (p.name, 1)).filter (fun a => !(pk ++ ko).any (·.name == a.1)) = [] := by
        rw [List.filter_eq_nil_iff]
        intro a ha
        obtain ⟨p, hp, rfl⟩ := List.mem_map.1 ha
        simp only [Bool.not_eq_true, Bool.not_eq_false', List.any_eq_true, beq_iff_eq]
        exact ⟨p, hp, rfl⟩
      have hz : ((po ++ pk).map (·.name)).zip ((po.map fun _ => (0 : Nat)).map Arg.one) =
          (po.map (·.name)).zip (po.map fun _ => Arg.one 0) := by
        rw [List.map_append, List.map_map]
        conv => lhs; rw [← List.append_nil (List.map (Arg.one ∘ fun _ => 0) po)]
        rw [List.zip_append (by simp)]
        simp [Function.comp_def]
      have he : (po.map fun _ => (0 : Nat)).drop (po ++ pk).length = [] := by
        rw [List.drop_eq_nil_iff]; simp
      have hdr : po.drop (po.map fun _ => (0 : Nat)).length = [] := by simp
      have hlen : (po.map fun _ => (0 : Nat)).length - po.length = 0 := by simp
      simp only [bind, he, hdr, hlen, List.drop_zero, List.take_zero, hn, hl, hz]
      cases vk <;> cases vp <;> simp
    · obtain ⟨p, hp, e⟩ := hkey
      exact List.mem_append.2 (.inr (List.mem_map.2 ⟨p, hp, by rw [e]⟩))
  · rintro ⟨args, kw, v, b, -, -, hv, hb, hm⟩
    refine Classical.byContradiction fun hr => ?_
    have hr : refused ⟨po, pk, vp, ko, vk⟩ = false := by simpa using hr
    have hl := later_key hr (args.length - po.length)
    simp only [bind] at hb
    split at hb
    · cases hb
    · split at hb
      · cases hb
      · split at hb
        · cases hb
        · split at hb
          · cases hb
          · rename_i n hn
            have key : ("key", Arg.one v) ∈ ((po ++ pk).map (·.name)).zip (args.map Arg.one) ∨ ("key", Arg.one v) ∈ n := by
              split at hb
              · cases hb
                rcases List.mem_append.1 hm with hm | hm
                · rcases List.mem_append.1 hm with hm | hm
                  · rcases List.mem_append.1 hm with hm | hm
                    · exact .inl hm
                    · cases vp with
                      | none => cases hm
                      | some x => simp only at hm; split at hm <;> simp at hm
                  · exact .inr hm
                · split at hm <;> simp at hm
              · split at hb
                · cases hb
                  rcases List.mem_append.1 hm with hm | hm
                  · rcases List.mem_append.1 hm with hm | hm
                    · exact .inl hm
                    · cases vp with
                      | none => cases hm
                      | some x => simp only at hm; split at hm <;> simp at hm
                  · exact .inr hm
                · cases hb
            rcases key with h | h
            · obtain ⟨w, hw, e⟩ := List.mem_map.1 (List.of_mem_zip h).2
              cases e
              exact hv hw
            · obtain ⟨w, -, -, p, hp, e⟩ := named_mem hn h
              exact hl p hp e

/-- **C94.**  For a function that is not refused, leaving out the keyword `key` loses nothing but its entry in the dictionary of
`**kwargs`: where a direct call with `key` binds the parameters, the function has `**kwargs`, the entry is there, and the component binds
all else alike. -/
theorem C94_reserved (f : Func V R) (make : List V → List (String × V) → Comp V R) (h : component f = some make) (args : List V)
    (kw : List (String × V)) (v : V) (hk : ("key", v) ∈ kw) (b : List (String × Arg V)) (hb : bind f.sig args kw = some b) :
    ∃ x others l, f.sig.varKw = some x ∧ b = others ++ [(x, .dict l)] ∧ ("key", v) ∈ l ∧
      bind f.sig args (withoutKey kw) = some (others ++ rest x (withoutKey l)) := by
  have hr : refused f.sig = false := by
    unfold component at h
    split at h
    · cases h
    · simp_all
  have hl := later_key hr (args.length - f.sig.posOnly.length)
  have hpk : ∀ p ∈ f.sig.posOrKw.take (args.length - f.sig.posOnly.length), p.name ≠ "key" := by
    simp only [refused, Bool.or_eq_false_iff, List.any_eq_false, beq_iff_eq] at hr
    exact fun p hp => hr.1 p (List.mem_of_mem_take hp)
  have hany : (f.sig.posOrKw.take (args.length - f.sig.posOnly.length)).any (fun p => ((withoutKey kw).lookup p.name).isSome) =
      (f.sig.posOrKw.take (args.length - f.sig.posOnly.length)).any (fun p => (kw.lookup p.name).isSome) := by
    rw [Bool.eq_iff_iff]
    simp only [List.any_eq_true]
    constructor
    · rintro ⟨p, hp, e⟩; exact ⟨p, hp, by rwa [lookup_withoutKey (hpk p hp)] at e⟩
    · rintro ⟨p, hp, e⟩; exact ⟨p, hp, by rwa [lookup_withoutKey (hpk p hp)]⟩
  have hleft : (withoutKey kw).filter (fun a => !(f.sig.posOrKw.drop (args.length - f.sig.posOnly.length) ++ f.sig.kwOnly).any (·.name == a.1)) =
      withoutKey (kw.filter (fun a => !(f.sig.posOrKw.drop (args.length - f.sig.posOnly.length) ++ f.sig.kwOnly).any (·.name == a.1))) := by
    simp only [withoutKey, List.filter_filter]
    congr 1
    funext a
    exact Bool.and_comm _ _
  have hmem : ("key", v) ∈ kw.filter (fun a => !(f.sig.posOrKw.drop (args.length - f.sig.posOnly.length) ++ f.sig.kwOnly).any (·.name == a.1)) := by
    refine List.mem_filter.2 ⟨hk, ?_⟩
    rw [Bool.not_eq_true', List.any_eq_false]
    intro p hp
    simpa using hl p hp
  simp only [bind] at hb ⊢
  rw [hany, named_withoutKey kw hl, hleft]
  generalize kw.filter (fun a => !(f.sig.posOrKw.drop (args.length - f.sig.posOnly.length) ++ f.sig.kwOnly).any (·.name == a.1)) = left at hb hmem ⊢
  have hne : left ≠ [] := List.ne_nil_of_mem hmem
  split at hb
  · cases hb
  · rename_i h1
    split at hb
    · cases hb
    · rename_i h2
      split at hb
      · cases hb
      · rename_i h3
        rw [if_neg h1, if_neg h2, if_neg h3]
        split at hb
        · cases hb
        · rename_i n hn
          split at hb
          · rename_i x hx
            cases hb
            exact ⟨x, _, left, hx, rfl, hmem, rfl⟩
          · cases hb

end

/-- `def f(x, /, *names, size=1, **attributes)`. -/
def exSig : Sig :=
  { posOnly := [⟨"x", true⟩], varPos := some "names", kwOnly := [⟨"size", false⟩], varKw := some "attributes" }

/-- It is accepted; a positional-only parameter `key` is; `def f(key)` and `def f(*, key=None)` are not. -/
example : (component (V := Nat) (R := Unit) ⟨some "f", exSig, fun _ => ()⟩).isSome = true ∧
    (component (V := Nat) (R := Unit) ⟨some "f", { posOnly := [⟨"key", true⟩] }, fun _ => ()⟩).isSome = true ∧
    (component (V := Nat) (R := Unit) ⟨some "f", { posOrKw := [⟨"key", true⟩] }, fun _ => ()⟩).isSome = false ∧
    (component (V := Nat) (R := Unit) ⟨some "f", { kwOnly := [⟨"key", false⟩] }, fun _ => ()⟩).isSome = false := by decide +kernel

/-- `f(1, 2, 3, id=4, key=5)`, directly and as a component. -/
example : bind exSig [1, 2, 3] [("id", 4), ("key", 5)] = some [("x", .one 1), ("names", .tuple [2, 3]), ("attributes", .dict [("id", 4), ("key", 5)])] ∧
    bind exSig [1, 2, 3] (withoutKey [("id", 4), ("key", 5)]) = some [("x", .one 1), ("names", .tuple [2, 3]), ("attributes", .dict [("id", 4)])] := by
  decide +kernel

/-- Arguments that do not fit: no call, and no error before the render. -/
example : (construct (R := Unit) ⟨some "f", exSig, fun _ => ()⟩ ([] : List Nat) [("x", 1)]).render = none := by decide +kernel

/-! ### Cases that meet the hypotheses -/

example := C94_called (V := Nat) (R := Unit) ⟨some "f", exSig, fun _ => ()⟩ _ rfl [1] [("a", 2)] [("b", 3)] (by decide)
example := (C94_refused (R := Unit) ⟨some "f", { kwOnly := [⟨"key", false⟩] }, fun _ => ()⟩ (by decide)).1 rfl

end Verif.Component
