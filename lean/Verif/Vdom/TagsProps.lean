import Verif.Vdom.Tags
import Verif.Vdom.Props
/-!
# C89: `html.<name>` is the constructor of the element with that name
-/
namespace Verif.Vdom.Tags

open Verif.Vdom

/-! ### Specification -/

/-- The elements without content of the HTML standard, with the old ones (`command`, `keygen`, `param`), and those whose content is
never shown (`iframe`, `portal`). -/
def IsVoid (tag : String) : Prop :=
  tag ∈ ["area", "base", "br", "col", "embed", "hr", "img", "input", "link", "meta", "source", "track", "wbr"] ∨
  tag ∈ ["command", "keygen", "param"] ∨ tag ∈ ["iframe", "portal"]

/-- SVG elements whose content is what they show, or that do nothing without content: text, titles, gradients and so on. -/
def needContent : List String :=
  ["text", "tspan", "textPath", "title", "desc", "metadata", "style", "script", "linearGradient", "radialGradient", "filter",
   "feMerge", "feComponentTransfer", "feDiffuseLighting", "feSpecularLighting", "foreignObject"]

/-- How a name with dashes is written in Python. -/
def written (tag : String) : String := String.ofList (tag.toList.map fun c => if c = '-' then '_' else c)

/-! ### Names -/

theorem rstrip_none (l : List Char) (h : '_' ∉ l) : rstrip l = l := by
  unfold rstrip
  have : l.reverse.dropWhile (· = '_') = l.reverse := by
    cases hr : l.reverse with
    | nil => rfl
    | cons a r =>
      rw [List.dropWhile_cons_of_neg]
      have : a ∈ l := by rw [← List.mem_reverse, hr]; exact List.mem_cons_self
      intro ha
      exact h (by simpa using (of_decide_eq_true ha) ▸ this)
  rw [this, List.reverse_reverse]

theorem rstrip_underscores (l : List Char) (n : Nat) : rstrip (l ++ List.replicate n '_') = rstrip l := by
  unfold rstrip
  rw [List.reverse_append, List.reverse_replicate]
  congr 1
  induction n with
  | zero => rfl
  | succ n ih => rw [List.replicate_succ, List.cons_append, List.dropWhile_cons_of_pos (by rfl)]; exact ih

theorem rstrip_last (l : List Char) (c : Char) (h : c ≠ '_') : rstrip (l ++ [c]) = l ++ [c] := by
  unfold rstrip
  rw [List.reverse_append, List.reverse_singleton, List.singleton_append, List.dropWhile_cons_of_neg (by simpa using h)]
  simp

/-- **C89**, names: a name without underscores is the element's name; underscores at the end are ignored, so that every name can be
written; and an element with dashes in its name is written with underscores instead. -/
theorem C89_names (tag : String) (n : Nat) (h : '_' ∉ tag.toList) :
    tagOf (tag ++ String.ofList (List.replicate n '_')) = tag ∧
    (tag.toList.getLast? ≠ some '-' → tagOf (written tag ++ String.ofList (List.replicate n '_')) = tag) := by
  constructor
  · unfold tagOf
    rw [String.toList_append, String.toList_ofList, rstrip_underscores, rstrip_none _ h]
    have : tag.toList.map (fun c => if c = '_' then '-' else c) = tag.toList := by
      conv => rhs; rw [← List.map_id tag.toList]
      apply List.map_congr_left
      intro c hc
      exact if_neg fun e : c = '_' => h (e ▸ hc)
    rw [this, String.ofList_toList]
  · intro hl
    unfold tagOf written
    rw [String.toList_append, String.toList_ofList, String.toList_ofList, rstrip_underscores]
    have hr : rstrip (tag.toList.map fun c => if c = '-' then '_' else c) =
        tag.toList.map fun c => if c = '-' then '_' else c := by
      generalize tag.toList = l at h hl
      rcases List.eq_nil_or_concat l with rfl | ⟨l', c, rfl⟩
      · rfl
      · rw [List.concat_eq_append] at *
        rw [List.map_append, List.map_singleton]
        apply rstrip_last
        have h1 : c ≠ '-' := by intro e; subst e; simp at hl
        have h2 : c ≠ '_' := by intro e; subst e; simp at h
        rw [if_neg h1]; exact h2
    rw [hr, List.map_map]
    have : tag.toList.map ((fun c => if c = '_' then '-' else c) ∘ fun c => if c = '-' then '_' else c) = tag.toList := by
      conv => rhs; rw [← List.map_id tag.toList]
      apply List.map_congr_left
      intro c hc
      by_cases hd : c = '-'
      · subst hd; rfl
      · have : c ≠ '_' := fun e => h (e ▸ hc)
        simp [hd, this]
    rw [this, String.ofList_toList]

example : '_' ∉ "data-table".toList ∧ "data-table".toList.getLast? ≠ some '-' ∧ written "data-table" = "data_table" ∧
    tagOf "data_table" = "data-table" ∧ tagOf "del_" = "del" := by decide +kernel

/-! ### The cache -/

/-- What the cache holds for a tag when it has not been changed. -/
def fresh (init : Cache) (without : List String) (tag : String) : Entry :=
  match init.entries.find? (fun p => p.1 = tag) with
  | some p => p.2.entry
  | none => .vdom { tag, allowChildren := !without.contains tag }

structure Good (init : Cache) (without : List String) (c : Cache) : Prop where
  entry : ∀ p ∈ c.entries, c.entries.find? (fun q => q.1 = p.1) = some p → p.2.entry = fresh init without p.1
  first : ∀ t p, init.entries.find? (fun q => q.1 = t) = some p → c.entries.find? (fun q => q.1 = t) = some p
  below : ∀ p ∈ c.entries, p.2.id < c.next
  ids : (c.entries.map (·.2.id)).Nodup

theorem find_append_ne (l : List (String × Obj)) (x : String × Obj) (t : String) (h : x.1 ≠ t) :
    (l ++ [x]).find? (fun q => q.1 = t) = l.find? (fun q => q.1 = t) := by
  rw [List.find?_append]
  simp [List.find?_cons, h]

theorem good_getattr {init : Cache} {without : List String} {c : Cache} (g : Good init without c) (name : String) :
    Good init without (c.getattr without name).2 ∧
    (c.getattr without name).2.entries.find? (fun q => q.1 = tagOf name) =
      some (tagOf name, (c.getattr without name).1) ∧
    (∀ t p, c.entries.find? (fun q => q.1 = t) = some p →
      (c.getattr without name).2.entries.find? (fun q => q.1 = t) = some p) := by
  unfold Cache.getattr
  cases hf : c.entries.find? (fun p => p.1 = tagOf name) with
  | some p =>
    simp only [hf]
    have : p.1 = tagOf name := by simpa using List.find?_some hf
    exact ⟨g, by rw [← this], fun _ _ h => h⟩
  | none =>
    simp only [hf]
    have hnone : ∀ q ∈ c.entries, q.1 ≠ tagOf name := by simpa using hf
    have hkeep : ∀ (o : Obj) t p, c.entries.find? (fun q => q.1 = t) = some p →
        (c.entries ++ [(tagOf name, o)]).find? (fun q => q.1 = t) = some p := by
      intro o t p h
      rw [List.find?_append, h]; rfl
    refine ⟨⟨?_, ?_, ?_, ?_⟩, ?_, ?_⟩
    · intro p hp hfp
      rcases List.mem_append.1 hp with hp | hp
      · rw [find_append_ne _ _ _ (Ne.symm (hnone p hp))] at hfp
        exact g.entry p hp hfp
      · simp only [List.mem_singleton] at hp
        subst hp
        show Entry.vdom _ = fresh init without (tagOf name)
        unfold fresh
        cases hi : init.entries.find? (fun p => p.1 = tagOf name) with
        | none => rfl
        | some q => rw [g.first _ _ hi] at hf; cases hf
    · intro t p h
      exact hkeep _ t p (g.first t p h)
    · intro p hp
      rcases List.mem_append.1 hp with hp | hp
      · exact Nat.lt_succ_of_lt (g.below p hp)
      · simp only [List.mem_singleton] at hp
        subst hp
        exact Nat.lt_succ_self _
    · rw [List.map_append]
      refine List.nodup_append.2 ⟨g.ids, by simp, ?_⟩
      intro a ha b hb e
      simp only [List.map_cons, List.map_nil, List.mem_singleton] at hb
      obtain ⟨p, hp, rfl⟩ := List.mem_map.1 ha
      have := g.below p hp
      rw [e, hb] at this
      exact Nat.lt_irrefl _ this
    · rw [List.find?_append, hf]
      simp
    · exact fun t p h => hkeep _ t p h

theorem good_after {init : Cache} {without : List String} (names : List String) (c : Cache) (g : Good init without c) :
    Good init without (c.after without names) ∧
    (∀ t p, c.entries.find? (fun q => q.1 = t) = some p →
      (c.after without names).entries.find? (fun q => q.1 = t) = some p) := by
  induction names generalizing c with
  | nil => exact ⟨g, fun _ _ h => h⟩
  | cons n ns ih =>
    obtain ⟨h1, _, h3⟩ := good_getattr g n
    obtain ⟨i1, i2⟩ := ih _ h1
    exact ⟨i1, fun t p h => i2 t p (h3 t p h)⟩

theorem good_html : Good htmlInit noChildrenHtml htmlInit := by
  refine ⟨?_, fun _ _ h => h, ?_, ?_⟩
  · intro p hp h
    show _ = fresh htmlInit noChildrenHtml p.1
    unfold fresh; rw [h]
  · intro p hp
    simp only [htmlInit, List.mem_cons, List.not_mem_nil, or_false] at hp
    rcases hp with rfl | rfl | rfl <;> decide
  · decide

theorem good_svg : Good svgInit noChildrenSvg svgInit :=
  ⟨(by intro p hp; cases hp), fun _ _ h => h, (by intro p hp; cases hp), List.Pairwise.nil⟩

theorem getattr_entry {init : Cache} {without : List String} {c : Cache} (g : Good init without c) (name : String) :
    (c.getattr without name).1.entry = fresh init without (tagOf name) := by
  obtain ⟨h1, h2, _⟩ := good_getattr g name
  exact h1.entry _ (List.mem_of_find?_eq_some h2) h2

/-- **C89**, the constructor: whatever names were used before, `html.<name>` is the constructor of the element with that name, and
`html.svg.<name>` of the SVG element; `script`, `fragment` and `svg` have constructors of their own. -/
theorem C89_constructor (before : List String) (name : String) :
    (html before name).entry =
      (if tagOf name = "script" then .vdom { tag := "script", custom := .script }
       else if tagOf name = "fragment" then .vdom { tag := "", custom := .fragment }
       else if tagOf name = "svg" then .svg
       else .vdom { tag := tagOf name, allowChildren := !noChildrenHtml.contains (tagOf name) }) ∧
    (svg before name).entry = .vdom { tag := tagOf name, allowChildren := !noChildrenSvg.contains (tagOf name) } := by
  constructor
  · unfold html
    rw [getattr_entry (good_after before _ good_html).1]
    generalize tagOf name = t
    unfold fresh htmlInit
    by_cases h1 : t = "script"
    · subst h1; rfl
    · by_cases h2 : t = "fragment"
      · subst h2; rfl
      · by_cases h3 : t = "svg"
        · subst h3; rfl
        · simp [List.find?_cons, h1, h2, h3, Ne.symm h1, Ne.symm h2, Ne.symm h3]
  · unfold svg
    rw [getattr_entry (good_after before _ good_svg).1]
    rfl

/-- **C89**, identity: two names give the same object exactly if they stand for the same element, at whatever times they are used. -/
theorem C89_same (before between : List String) (a b : String) :
    (html before a).id = (html (before ++ a :: between) b).id ↔ tagOf a = tagOf b := by
  unfold html
  have g0 := (good_after before _ good_html).1
  obtain ⟨g1, f1, k1⟩ := good_getattr g0 a
  obtain ⟨g2, k2⟩ := good_after between _ g1
  have hsplit : htmlInit.after noChildrenHtml (before ++ a :: between) =
      (((htmlInit.after noChildrenHtml before).getattr noChildrenHtml a).2).after noChildrenHtml between := by
    simp [Cache.after, List.foldl_append]
  rw [hsplit]
  obtain ⟨g3, f3, k3⟩ := good_getattr g2 b
  have fa := k3 _ _ (k2 _ _ f1)
  constructor
  · intro h
    have ma := List.mem_of_find?_eq_some fa
    have mb := List.mem_of_find?_eq_some f3
    have hn := g3.ids
    have inj : ∀ (l : List (String × Obj)) (p q : String × Obj), (l.map (·.2.id)).Nodup → p ∈ l → q ∈ l →
        p.2.id = q.2.id → p = q := by
      intro l p q hl hp hq e
      induction l with
      | nil => cases hp
      | cons x xs ih =>
        rw [List.map_cons, List.nodup_cons] at hl
        rcases List.mem_cons.1 hp with h1 | h1 <;> rcases List.mem_cons.1 hq with h2 | h2
        · rw [h1, h2]
        · exact absurd (h1 ▸ e ▸ List.mem_map_of_mem (f := fun x : String × Obj => x.2.id) h2) hl.1
        · exact absurd (h2 ▸ e ▸ List.mem_map_of_mem (f := fun x : String × Obj => x.2.id) h1) hl.1
        · exact ih hl.2 h1 h2
    exact congrArg Prod.fst (inj _ _ _ hn ma mb h)
  · intro h
    rw [h, f3] at fa
    have := congrArg (fun o => o.map (fun p : String × Obj => p.2.id)) fa
    simpa using this.symm

example : (html ["div", "del_", "data_table"] "del").id = (html ["div"] "del_").id ∧
    (html ["div", "del_"] "del").id ≠ (html ["div", "del_"] "div").id := by decide +kernel

/-! ### Children -/

theorem call_children (word : Char → Bool) (isNone : Val → Bool) (jsonOk : List (String × Val) → Bool) (tag : String)
    (allow : Bool) (values : List Val) (hj : jsonOk (separateAttrs word (separate values).1).attributes = true) :
    (Maker.call word isNone jsonOk { tag, allowChildren := allow } values = .error .type ↔
      (separate values).2 ≠ [] ∧ allow = false) ∧
    ∀ e, Maker.call word isNone jsonOk { tag, allowChildren := allow } values = .ok e →
      e.tag = tag ∧ e.children.getD [] = (separate values).2 := by
  unfold Maker.call
  simp only [hj, Bool.not_true, Bool.false_eq_true, if_false]
  cases hc : (separate values).2 with
  | nil =>
    refine ⟨by simp, ?_⟩
    intro e he
    simp at he; subst he
    exact ⟨rfl, by simp [nonEmpty]⟩
  | cons x xs =>
    cases allow with
    | false => exact ⟨by simp, by intro e he; simp at he⟩
    | true =>
      refine ⟨by simp, ?_⟩
      intro e he
      simp at he; subst he
      exact ⟨rfl, by simp [nonEmpty]⟩

theorem isVoid_iff (tag : String) : IsVoid tag ↔ tag ∈ noChildrenHtml := by
  unfold IsVoid noChildrenHtml
  simp only [List.mem_cons, List.not_mem_nil, or_false]
  constructor
  · intro h
    rcases h with (h | h | h | h | h | h | h | h | h | h | h | h | h) | (h | h | h) | (h | h) <;> simp [h]
  · intro h
    rcases h with h | h | h | h | h | h | h | h | h | h | h | h | h | h | h | h | h | h <;> simp [h]

/-- **C89**, content: an HTML element refuses children exactly if HTML gives it no content; otherwise it gets all the children, with
nothing lost and nothing added. -/
theorem C89_children (before : List String) (name : String) (word : Char → Bool) (isNone : Val → Bool)
    (jsonOk : List (String × Val) → Bool) (values : List Val)
    (hj : jsonOk (separateAttrs word (separate values).1).attributes = true)
    (hn : tagOf name ≠ "script" ∧ tagOf name ≠ "fragment" ∧ tagOf name ≠ "svg") :
    ∃ m, (html before name).entry = .vdom m ∧
      (m.call word isNone jsonOk values = .error .type ↔ (separate values).2 ≠ [] ∧ IsVoid (tagOf name)) ∧
      ∀ e, m.call word isNone jsonOk values = .ok e →
        e.tag = tagOf name ∧ e.children.getD [] = (separate values).2 := by
  refine ⟨{ tag := tagOf name, allowChildren := !noChildrenHtml.contains (tagOf name) }, ?_, ?_⟩
  · have := (C89_constructor before name).1
    rw [if_neg hn.1, if_neg hn.2.1, if_neg hn.2.2] at this
    exact this
  · have := call_children word isNone jsonOk (tagOf name) (!noChildrenHtml.contains (tagOf name)) values hj
    refine ⟨this.1.trans ?_, this.2⟩
    rw [isVoid_iff]
    simp

example : (tagOf "data_table" ≠ "script" ∧ tagOf "data_table" ≠ "fragment" ∧ tagOf "data_table" ≠ "svg") ∧
    ¬ IsVoid (tagOf "data_table") ∧ IsVoid (tagOf "br") := by
  refine ⟨by decide +kernel, ?_, ?_⟩
  · rw [isVoid_iff]; decide +kernel
  · rw [isVoid_iff]; decide +kernel

/-- The SVG elements that are made to contain others. -/
def containers : List String :=
  ["svg", "g", "defs", "symbol", "marker", "mask", "pattern", "clipPath", "switch", "a"]

/-- **C89**, SVG (partial: only the containers, see `C89_svg_content_violated`): they accept every child. -/
theorem C89_svg_children_partial (before : List String) (tag : String) (ht : tag ∈ containers) (word : Char → Bool)
    (isNone : Val → Bool) (jsonOk : List (String × Val) → Bool) (values : List Val)
    (hj : jsonOk (separateAttrs word (separate values).1).attributes = true) :
    ∃ m e, (svg before tag).entry = .vdom m ∧ m.call word isNone jsonOk values = .ok e ∧
      e.tag = tag ∧ e.children.getD [] = (separate values).2 := by
  have hall : ∀ t ∈ containers, tagOf t = t ∧ noChildrenSvg.contains t = false := by decide +kernel
  obtain ⟨h1, h2⟩ := hall tag ht
  have hc := call_children word isNone jsonOk tag true values hj
  cases hm : Maker.call word isNone jsonOk { tag, allowChildren := true } values with
  | error x =>
    cases x with
    | type => exact absurd (hc.1.1 hm).2 (by decide)
    | value =>
      unfold Maker.call at hm
      simp only [hj, Bool.not_true, Bool.false_eq_true, if_false, Bool.and_false] at hm
      cases hm
  | ok e =>
    refine ⟨{ tag, allowChildren := true }, e, ?_, hm, hc.2 e hm⟩
    have := (C89_constructor before tag).2
    rw [h1, h2] at this
    exact this

/-! ### Where it goes wrong -/

/-- C89 is violated: the constructors of the SVG elements for text, titles, gradients, filters and so on refuse every child, so that
nothing can be written with `html.svg.text`, and a gradient can have no stops. -/
theorem C89_svg_content_violated (before : List String) (tag : String) (ht : tag ∈ needContent) (word : Char → Bool)
    (isNone : Val → Bool) (jsonOk : List (String × Val) → Bool) (values : List Val)
    (hj : jsonOk (separateAttrs word (separate values).1).attributes = true) (hc : (separate values).2 ≠ []) :
    ∃ m, (svg before tag).entry = .vdom m ∧ m.call word isNone jsonOk values = .error .type := by
  refine ⟨_, (C89_constructor before tag).2, ?_⟩
  apply (call_children word isNone jsonOk _ _ values hj).1.2
  refine ⟨hc, ?_⟩
  have : ∀ t ∈ needContent, (!noChildrenSvg.contains (tagOf t)) = false := by decide +kernel
  exact this tag ht

/-- C89 is violated: an element with an underscore in its name, which HTML allows, cannot be made. -/
theorem C89_underscore_violated (before : List String) (name tag : String) (h : '_' ∈ tag.toList) :
    ∀ m, (html before name).entry = .vdom m → m.tag ≠ tag := by
  have hnot : '_' ∉ (tagOf name).toList := by
    unfold tagOf
    rw [String.toList_ofList, List.mem_map]
    rintro ⟨c, _, hc⟩
    by_cases h : c = '_'
    · rw [if_pos h] at hc; exact absurd hc (by decide)
    · rw [if_neg h] at hc; exact h hc
  intro m hm e
  rw [(C89_constructor before name).1] at hm
  split at hm
  · cases hm; subst e; exact absurd h (by decide)
  · split at hm
    · cases hm; subst e; exact absurd h (by decide)
    · split at hm
      · cases hm
      · cases hm; subst e; exact hnot h

/-- **C89**, `html.svg(…)`: it makes an element of the name `svg`, as `html.svg.svg(…)` does, whatever names were used before. -/
theorem C89_svg_call (before : List String) :
    (svgCall before).entry = .vdom { tag := "svg" } ∧ (svgCall before).id = (svg before "svg").id := by
  have h : tagOf "svg" = "svg" := by decide +kernel
  have h' : noChildrenSvg.contains "svg" = false := by decide +kernel
  refine ⟨?_, rfl⟩
  have := (C89_constructor before "svg").2
  rw [h, h'] at this
  exact this

example : (svgCall ["circle", "svg"]).entry = .vdom { tag := "svg" } := (C89_svg_call _).1

end Verif.Vdom.Tags
