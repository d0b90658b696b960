import Verif.Markup.Parse
/-! # HTML text and models: properties C37–C40 and C57 -/
namespace Verif.Markup

/-- To evaluate concrete conversions. -/
def okIs {α : Type} [DecidableEq α] (r : Except Err α) (a : α) : Bool :=
  match r with
  | .ok b => b = a
  | .error _ => false

theorem of_okIs {α : Type} [DecidableEq α] {r : Except Err α} {a : α} (h : okIs r a = true) : r = .ok a := by
  cases r with
  | error e => cases h
  | ok b => exact congrArg _ (by simpa [okIs] using h)

/-- A writer for the examples. -/
def demo : Writer where
  esc := fun _ c => if c = '<' then "&lt;".toList else if c = '&' then "&amp;".toList else [c]
  escAttr := fun c => if c = '"' then "&quot;".toList else [c]
  void := fun t => t = "br" || t = "img"
  void_temp := by decide

/-- `<p class="a">x<br>y<b>z</b>w</p>`, with the `b` in a component that renders a fragment. -/
def demoModel : V :=
  .elem "p" [("className", .str "a")] [] []
    [.text "x", .elem "br" [] [] [] [], .value "7", .comp (.comp (.elem "" [] [] [] [.elem "b" [] [] [] [.text "<z"], .text "w"])), .comp .none]

section C37
variable (w : Writer)

/-- **C37.**  `reactpy_to_string(root)` of a model or component is the HTML written directly from the model — tags,
texts and children in document order, fragments and components in their places — when nothing in it is a function or
a dict that is no model.  Missing from the full claim: `None` among children and components that render a string or
another value (see the violations). -/
theorem C37_html_partial (root : V) (hroot : (∃ r, root = .comp r) ∨ ∃ t a j h k, root = .elem t a j h k)
    (hb : broken root = false) (hp : plainText root = true) (hm : modelResults root = true) :
    toString w root = .ok (html w "__temp__" root) := by
  obtain ⟨e, he⟩ := (addChild_total (.mk "__temp__" [] "" []) root).1 hb
  have hx := addChild_html w root _ e hp hm he
  have ht : toString w root = .ok (((w.write e).drop 10).take (((w.write e).drop 10).length - 11)) := by
    rcases hroot with ⟨r, rfl⟩ | ⟨t, a, j, h, k, rfl⟩
    · simp only [toString, he]; rfl
    · simp only [toString, he]; rfl
  rw [ht, write_eq, hx.1, hx.2.1, hx.2.2]
  simp only [El.tag, El.attrs, w.void_temp, inner, Writer.writeKids, Writer.startTag, Writer.endTag]
  have h1 : (['<'] ++ "__temp__".toList ++ List.flatMap
      (fun p : String × String => [' '] ++ p.1.toList ++ ['=', '"'] ++ List.flatMap w.escAttr p.2.toList ++ ['"']) [] ++ ['>']).length = 10 := by
    simp
  have h2 : (['<', '/'] ++ "__temp__".toList ++ ['>']).length = 11 := by decide +kernel
  generalize hA : (['<'] ++ "__temp__".toList ++ List.flatMap
      (fun p : String × String => [' '] ++ p.1.toList ++ ['=', '"'] ++ List.flatMap w.escAttr p.2.toList ++ ['"']) [] ++ ['>']) = A at h1 ⊢
  generalize hB : (['<', '/'] ++ "__temp__".toList ++ ['>']) = B at h2 ⊢
  have : "".toList = [] := by decide +kernel
  simp [this, h1, h2]

example : toString demo demoModel = .ok "<p classname=\"a\">x<br>7<b>&lt;z</b>w</p>".toList := by
  rw [C37_html_partial demo demoModel (.inr ⟨_, _, _, _, _, rfl⟩) (by decide) (by decide) (by decide)]
  exact congrArg _ (by decide +kernel)

/-- **C37.**  The text written, in document order, is the text the layout would display: `None` as a child and
components that render something other than a model, a string, a component or `None` excepted. -/
theorem C37_text_partial (root : V) (e : El) (hp : plainText root = true) (he : addChild (.mk "__temp__" [] "" []) root = .ok e) :
    textOf e = displayed root := by
  have := addChild_text root _ e hp he
  simpa [textOf, textOfL] using this

example : ∃ e, addChild (.mk "__temp__" [] "" []) (.comp (.text "hi")) = .ok e ∧ textOf e = "hi".toList :=
  ⟨_, rfl, by decide +kernel⟩

/-- **C37.**  The conversion fails exactly when a function is an attribute or a dict is no model, wherever it is. -/
theorem C37_fails_iff (root : V) (hroot : root = .bad ∨ (∃ r, root = .comp r) ∨ ∃ t a j h k, root = .elem t a j h k) :
    (∃ s, toString w root = .ok s) ↔ broken root = false := by
  have ht : toString w root = (addChild (.mk "__temp__" [] "" []) root >>= fun e =>
      .ok (((w.write e).drop 10).take (((w.write e).drop 10).length - 11))) := by
    rcases hroot with rfl | ⟨r, rfl⟩ | ⟨t, a, j, h, k, rfl⟩ <;> rfl
  rw [ht]
  constructor
  · rintro ⟨s, hs⟩
    cases hb : broken root with
    | false => rfl
    | true => rw [(addChild_total _ root).2 hb] at hs; cases hs
  · intro hb
    obtain ⟨e, he⟩ := (addChild_total (.mk "__temp__" [] "" []) root).1 hb
    exact ⟨_, by rw [he]; rfl⟩

example : broken (.elem "p" [] [] [] [.elem "b" [("x", .fn)] [] [] []]) = true := by decide
example : broken demoModel = false := by decide

/-- **C37, violated.**  A layout shows nothing for a child `None`; the conversion writes `None`. -/
theorem C37_none_violated :
    toString demo (.elem "p" [] [] [] [.text "a", .none]) = .ok "<p>aNone</p>".toList ∧ displayed (.elem "p" [] [] [] [.text "a", .none]) = ['a'] :=
  ⟨of_okIs (by decide +kernel), by decide +kernel⟩

/-- **C37, violated.**  A component that renders a number is shown as an empty `div`. -/
theorem C37_number_violated :
    toString demo (.elem "p" [] [] [] [.comp (.value "7")]) = .ok "<p><div></div></p>".toList ∧ displayed (.elem "p" [] [] [] [.comp (.value "7")]) = ['7'] :=
  ⟨of_okIs (by decide +kernel), by decide +kernel⟩

/-- **C37, violated.**  A component that renders a string gets a `div` the model does not have. -/
theorem C37_string_violated :
    toString demo (.elem "p" [] [] [] [.comp (.text "hi")]) = .ok "<p><div>hi</div></p>".toList ∧
      html demo "__temp__" (.elem "p" [] [] [] [.comp (.text "hi")]) = "<p>hi</p>".toList :=
  ⟨of_okIs (by decide +kernel), by decide +kernel⟩

end C37

section C38
variable (intercept : Bool)

/-- **C38.**  The model read from an element tree has its tags and texts in document order.  Missing from the full
claim: trees with a `textarea`, whose text becomes an attribute. -/
theorem C38_order_partial (e : El) (v : V) (ht : allTags (· ≠ "textarea") e) (h : toVdom intercept e = .ok v) : tokV v = tokE e := by
  rw [← tokV_erase, toVdom_plain intercept e v ht h, tokV_plain]

/-- **C38.**  Converting the result back gives the element tree again, up to attributes, after what was in `p`. -/
theorem C38_back_partial (e p : El) (v : V) (ht : allTags (fun t => t ≠ "textarea" ∧ t ≠ "") e) (h : toVdom intercept e = .ok v) :
    ∃ p', addChild p v = .ok p' ∧ shape p' = append (shape p) (shape e) := by
  have hall : (∀ e, allTags (fun t => t ≠ "textarea" ∧ t ≠ "") e → allTags (· ≠ "textarea") e ∧ allTags (· ≠ "") e) := by
    intro e
    refine El.rec (motive_1 := fun e => allTags (fun t => t ≠ "textarea" ∧ t ≠ "") e → allTags (· ≠ "textarea") e ∧ allTags (· ≠ "") e)
      (motive_2 := fun ks => allTagsL (fun t => t ≠ "textarea" ∧ t ≠ "") ks → allTagsL (· ≠ "textarea") ks ∧ allTagsL (· ≠ "") ks)
      (motive_3 := fun k => allTags (fun t => t ≠ "textarea" ∧ t ≠ "") k.1 → allTags (· ≠ "textarea") k.1 ∧ allTags (· ≠ "") k.1)
      ?_ ?_ ?_ ?_ e
    · intro tag a x ks ih h
      exact ⟨⟨h.1.1, (ih h.2).1⟩, h.1.2, (ih h.2).2⟩
    · intro _; exact ⟨trivial, trivial⟩
    · intro k ks ih1 ih2 h
      exact ⟨⟨(ih1 h.1).1, (ih2 h.2).1⟩, (ih1 h.1).2, (ih2 h.2).2⟩
    · intro e s ih; exact ih
  obtain ⟨p', hp⟩ := (addChild_total p v).1 (toVdom_broken intercept e v h)
  refine ⟨p', hp, ?_⟩
  have h1 := addChild_erase v p p' hp
  rw [toVdom_plain intercept e v (hall e ht).1 h, addChild_plain e (shape p) (hall e ht).2] at h1
  exact (Except.ok.inj h1).symm

/-- **C38.**  Reading succeeds on every element tree whose scripts hold only text, whose elements without content are
empty and whose options are not empty. -/
theorem C38_reads_partial (e : El) (h : readable e) : ∃ v, toVdom intercept e = .ok v :=
  let ⟨v, hv, _⟩ := toVdom_full intercept e h
  ⟨v, hv⟩

/-- `<div>a<p class="x">b</p>c<select><option value="1" selected="">d</option></select></div>` -/
def demoTree : El :=
  .mk "div" [] "a" [(.mk "p" [("class", "x")] "b" [], "c"), (.mk "select" [] "" [(.mk "option" [("value", "1"), ("selected", "")] "d" [], "")], "")]

example : readable demoTree ∧ allTags (fun t => t ≠ "textarea" ∧ t ≠ "") demoTree := by
  simp [demoTree, readable, readableL, allTags, allTagsL, noChildren]

/-- **C38, violated.**  The text of a `textarea` becomes its `defaultValue`, and converting back loses it. -/
theorem C38_textarea_violated : ∃ v, toVdom true (.mk "textarea" [] "hi" []) = .ok v ∧ tokV v = [.open_ "textarea", .close] ∧
    ∃ p', addChild (.mk "__temp__" [] "" []) v = .ok p' ∧ textOf p' = [] :=
  ⟨.elem "textarea" [("defaultValue", .str "hi")] [] [] [], by rfl, by decide,
    (addChild_total _ _).1 (by decide) |>.imp fun p' h => ⟨h, addChild_text _ _ p' (by decide) h⟩⟩

/-- **C38, violated.**  An option without text raises `KeyError`, though it has a value. -/
theorem C38_option_violated :
    toVdom true (.mk "select" [] "" [(.mk "option" [("value", "x")] "" [], "")]) = .error .key := by rfl

/-- **C38, violated.**  An `iframe` with content, which HTML allows, raises. -/
theorem C38_iframe_violated : toVdom true (.mk "iframe" [] "old browser" []) = .error .type := by rfl

end C38

section C39

/-- **C39.**  Among names without capitals, those that survive conversion to camel case and back are exactly those
that do not begin with a dash and in which every dash is followed by a letter. -/
theorem C39_names_exact {k : List Char} (hk : ∀ c ∈ k, isUpper c = false) :
    styleToHtml (kebabToCamel k) = k ↔
      ∃ p ps, k = p ++ (ps.map ('-' :: ·)).flatten ∧ (p = [] → ps = []) ∧ '-' ∉ p ∧ ∀ q ∈ ps, '-' ∉ q ∧ q.head?.any isLetter = true :=
  style_round_trip_iff hk

example : ∃ p ps, "grid-template-rows".toList = p ++ (ps.map ('-' :: ·)).flatten ∧ (p = [] → ps = []) ∧ '-' ∉ p ∧
    ∀ q ∈ ps, '-' ∉ q ∧ q.head?.any isLetter = true :=
  ⟨"grid".toList, ["template".toList, "rows".toList], by decide +kernel, by decide +kernel, by decide +kernel, by decide +kernel⟩

/-- **C39.**  A name becomes its parts between dashes, all but the first capitalised. -/
theorem C39_camel (p : List Char) (ps : List (List Char)) (hp : '-' ∉ p) (hps : ∀ q ∈ ps, '-' ∉ q) :
    kebabToCamel (p ++ (ps.map ('-' :: ·)).flatten) =
      p ++ (ps.map (fun q => match q with | [] => [] | c :: cs => c.toUpper :: cs.map Char.toLower)).flatten := by
  rw [← joinWith_eq_flatten, kebabToCamel, splitOn_joinWith '-' (p :: ps) (by simp) (by
    intro q hq
    rcases List.mem_cons.1 hq with rfl | hq
    · exact hp
    · exact hps q hq)]
  have : ps.map capitalize = ps.map (fun q => match q with | [] => [] | c :: cs => c.toUpper :: cs.map Char.toLower) := by
    apply List.map_congr_left
    intro q _
    cases q <;> rfl
  simp only [this]

example : kebabToCamel "grid-template-rows".toList = "gridTemplateRows".toList := by decide +kernel

/-- **C39.**  A style string written as `name:value;…`, with names that survive and are distinct, becomes a dict with
those declarations and comes back as the same string. -/
theorem C39_style_partial {ds : List (List Char × List Char)} (hne : ds ≠ [])
    (hname : ∀ d ∈ ds, (∀ c ∈ d.1, isUpper c = false) ∧
      ∃ p ps, d.1 = p ++ (ps.map ('-' :: ·)).flatten ∧ (p = [] → ps = []) ∧ '-' ∉ p ∧ ∀ q ∈ ps, '-' ∉ q ∧ q.head?.any isLetter = true)
    (hd : (ds.map (·.1)).Nodup)
    (hn : ∀ d ∈ ds, strip d.1 = d.1 ∧ ':' ∉ d.1 ∧ ';' ∉ d.1) (hv : ∀ d ∈ ds, strip d.2 = d.2 ∧ ';' ∉ d.2) :
    parseStyle (styleText ds) = ds.map (fun d => (String.ofList (kebabToCamel d.1), String.ofList d.2)) ∧
    attrToHtml "style" (.style (parseStyle (styleText ds))) = .ok ("style", String.ofList (styleText ds)) := by
  have hname' : ∀ d ∈ ds, styleToHtml (kebabToCamel d.1) = d.1 := fun d hd => (C39_names_exact (hname d hd).1).2 (hname d hd).2
  refine ⟨parseStyle_styleText hne hname' hd hn hv, ?_⟩
  rw [parseStyle_styleText hne hname' hd hn hv]
  simp only [attrToHtml, if_true, List.map_map]
  have : ds.map ((fun p : String × String => String.ofList (styleToHtml p.1.toList) ++ ":" ++ p.2) ∘
      fun d => (String.ofList (kebabToCamel d.1), String.ofList d.2)) = (ds.map (fun d => d.1 ++ ':' :: d.2)).map String.ofList := by
    rw [List.map_map]
    apply List.map_congr_left
    intro d hd
    simp only [Function.comp_apply, String.toList_ofList, hname' d hd]
    apply String.toList_inj.1
    simp [String.toList_append]
  rw [this]
  have := intercalate_joinWith ';' (ds.map (fun d => d.1 ++ ':' :: d.2))
  exact congrArg (fun s => Except.ok ("style", s)) this

example : attrToHtml "style" (.style (parseStyle "font-size:2em;color:red".toList)) = .ok ("style", "font-size:2em;color:red") :=
  congrArg Except.ok (Prod.ext rfl (by decide +kernel))

/-- **C39.**  The parts of a style string that have no colon, as the empty one after a last semicolon, are passed over. -/
theorem C39_style_parts (parts : List (List Char)) (h : ∀ p ∈ parts, ';' ∉ p) :
    parseStyle (joinWith ';' parts) = (if parts.any (·.contains ':') then parseStyle (joinWith ';' (parts.filter (·.contains ':'))) else []) := by
  have hf : parts.filterMap cut = (parts.filter (·.contains ':')).filterMap cut := by
    clear h
    induction parts with
    | nil => rfl
    | cons p ps ih =>
      by_cases hp : p.contains ':' = true
      · rw [List.filter_cons_of_pos (p := fun x : List Char => x.contains ':') hp, List.filterMap_cons, List.filterMap_cons, ih]
      · rw [List.filter_cons_of_neg (p := fun x : List Char => x.contains ':') hp, List.filterMap_cons, ← ih]
        simp only [cut, if_neg hp]
  by_cases hne : parts = []
  · subst hne; rfl
  split
  · rename_i ha
    obtain ⟨p, hp, hc⟩ := List.any_eq_true.1 ha
    rw [parseStyle, parseStyle, splitOn_joinWith _ _ hne h, splitOn_joinWith _ _ (List.ne_nil_of_mem (List.mem_filter.2 ⟨hp, hc⟩))
      (fun q hq => h q (List.mem_filter.1 hq).1), hf]
  · rename_i ha
    have : parts.filter (·.contains ':') = [] := List.filter_eq_nil_iff.2 fun p hp hc => ha (List.any_eq_true.2 ⟨p, hp, hc⟩)
    rw [parseStyle, splitOn_joinWith _ _ hne h, hf, this]; rfl

example : parseStyle "color:red;;x ;margin-top: 2px; ".toList = [("color", "red"), ("marginTop", "2px")] := by decide +kernel

/-- **C39, violated.**  Vendor prefixes lose their first dash. -/
theorem C39_vendor_violated : styleToHtml (kebabToCamel "-webkit-transition".toList) = "webkit-transition".toList := by decide +kernel

/-- **C39, violated.**  Custom properties lose both. -/
theorem C39_custom_violated : styleToHtml (kebabToCamel "--main-color".toList) = "main-color".toList := by decide +kernel

end C39

section C40
variable {α : Type}

/-- **C40.**  Normalising a name again changes nothing. -/
theorem C40_name_idempotent (k : String) : reactName (reactName k) = reactName k := reactName_idem k

theorem put_keys (d : List (String × α)) (k : String) (v : α) (x : String) : x ∈ (put d k v).map (·.1) ↔ x ∈ d.map (·.1) ∨ x = k := by
  induction d with
  | nil => simp [put]
  | cons p d ih =>
    simp only [put]
    split
    · rename_i h
      simp only [beq_iff_eq] at h
      simp only [List.map_cons, List.mem_cons, h]
      constructor
      · rintro (h | h)
        · exact .inr h
        · exact .inl (.inr h)
      · rintro ((h | h) | h)
        · exact .inl h
        · exact .inr h
        · exact .inl h
    · simp only [List.map_cons, List.mem_cons, ih, or_assoc]

theorem put_nodup (d : List (String × α)) (k : String) (v : α) (h : (d.map (·.1)).Nodup) : ((put d k v).map (·.1)).Nodup := by
  induction d with
  | nil => simp [put]
  | cons p d ih =>
    simp only [List.map_cons, List.nodup_cons] at h
    simp only [put]
    split
    · rename_i hk
      simp only [beq_iff_eq] at hk
      simp only [List.map_cons, List.nodup_cons]
      rw [← hk]; exact h
    · rename_i hk
      simp only [beq_iff_eq] at hk
      simp only [List.map_cons, List.nodup_cons]
      refine ⟨?_, ih h.2⟩
      rw [put_keys]
      rintro (hm | hm)
      · exact h.1 hm
      · exact hk hm

theorem foldl_put_spec (ps d : List (String × α)) (h : (d.map (·.1)).Nodup) :
    ((ps.foldl (fun d p => put d p.1 p.2) d).map (·.1)).Nodup ∧
      ∀ x, x ∈ (ps.foldl (fun d p => put d p.1 p.2) d).map (·.1) ↔ x ∈ d.map (·.1) ∨ x ∈ ps.map (·.1) := by
  induction ps generalizing d with
  | nil => exact ⟨h, by simp⟩
  | cons p ps ih =>
    rw [List.foldl_cons]
    obtain ⟨h1, h2⟩ := ih (put d p.1 p.2) (put_nodup d p.1 p.2 h)
    refine ⟨h1, fun x => ?_⟩
    rw [h2, put_keys]
    simp only [List.map_cons, List.mem_cons, or_assoc]

/-- **C40.**  Normalising the names of any attribute dict again changes nothing. -/
theorem C40_idempotent (attrs : List (String × α)) :
    attributesToReact (attributesToReact attrs) = attributesToReact attrs := by
  obtain ⟨h1, h2⟩ := foldl_put_spec (attrs.map (fun p => (reactName p.1, p.2))) [] (by simp)
  have hid : (attributesToReact attrs).map (fun p => (reactName p.1, p.2)) = attributesToReact attrs := by
    conv => rhs; rw [← List.map_id (attributesToReact attrs)]
    apply List.map_congr_left
    intro p hp
    have hk := (h2 p.1).1 (List.mem_map.2 ⟨p, hp, rfl⟩)
    simp only [List.map_nil, List.not_mem_nil, false_or, List.map_map] at hk
    obtain ⟨q, _, hq⟩ := List.mem_map.1 hk
    simp only [Function.comp_apply] at hq
    rw [← hq, reactName_idem, hq]; rfl
  conv => lhs; rw [attributesToReact, hid]
  exact ofPairs_nodup h1

/-- **C40.**  No attribute is dropped and distinct names become distinct props, for names without capitals, as HTML
parsers give them, other than `classname`, `htmlfor`, `defaultchecked` and `httpequiv`. -/
theorem C40_kept_partial (attrs : List (String × α)) (hd : (attrs.map (·.1)).Nodup)
    (hl : ∀ p ∈ attrs, (∀ c ∈ p.1.toList, isUpper c = false) ∧ p.1 ∉ ["classname", "htmlfor", "defaultchecked", "httpequiv"]) :
    attributesToReact attrs = attrs.map (fun p => (reactName p.1, p.2)) ∧ ((attributesToReact attrs).map (·.1)).Nodup := by
  have hn : ((attrs.map (fun p => (reactName p.1, p.2))).map (·.1)).Nodup := by
    induction attrs with
    | nil => simp
    | cons p ps ih =>
      simp only [List.map_cons, List.nodup_cons] at hd ⊢
      refine ⟨?_, ih hd.2 (fun q hq => hl q (by simp [hq]))⟩
      intro hm
      rw [List.map_map] at hm
      obtain ⟨q, hq, he⟩ := List.mem_map.1 hm
      simp only [Function.comp_apply] at he
      refine hd.1 (List.mem_map.2 ⟨q, hq, ?_⟩)
      have h1 := htmlName_reactName (hl p (by simp)).1 (hl p (by simp)).2
      have h2 := htmlName_reactName (hl q (by simp [hq])).1 (hl q (by simp [hq])).2
      rw [← h2, he, h1]
  have he : attributesToReact attrs = attrs.map (fun p => (reactName p.1, p.2)) := ofPairs_nodup hn
  exact ⟨he, by rw [he]; exact hn⟩

example : attributesToReact [("class", 1), ("for", 2), ("tabindex", 3), ("data-x", 4)] =
    [("className", 1), ("htmlFor", 2), ("tabIndex", 3), ("data-x", 4)] := by decide +kernel

/-- **C40, violated.**  `class` and `classname` become one prop, and one value is lost. -/
theorem C40_violated : attributesToReact [("class", 1), ("classname", 2)] = [("className", 2)] := by decide +kernel

end C40

section C57

theorem known_plain : ∀ q ∈ knownReactProps, (q.startsWith "data-" || q.startsWith "aria-") = false := by decide +kernel

theorem style_known : ∀ q ∈ knownReactProps, q = "style" → String.ofList (lower q.toList) = "style" := by
  rintro q _ rfl; decide +kernel

/-- **C57.**  The HTML name of an attribute, and its text, come back when it is converted to a prop and back, for names without
capitals other than `class`, `for`, `checked` and `httpequiv`. -/
theorem C57_name_partial (k : String) (v : AVal) (hl : ∀ c ∈ k.toList, isUpper c = false)
    (hk : k ∉ ["class", "for", "checked", "httpequiv"]) (hv : v.notFn = true) :
    ∃ s, attrToHtml (reactName k) v = .ok (k, s) ∧ ∀ t, v = .str t → s = t := by
  have hname : ∀ p, attrToHtml p v = .ok ((if p = "style" then p else if p ∈ dashedHtmlAttrs then String.ofList (lower (dashCapitals p.toList))
      else if p.startsWith "data-" || p.startsWith "aria-" then p else String.ofList (lower p.toList)),
      match attrToHtml p v with | .ok r => r.2 | .error _ => "") := by
    intro p
    obtain ⟨r, hr⟩ := attrToHtml_ok (k := p) hv
    rw [hr]
    cases v with
    | fn => cases hv
    | _ =>
      simp only [attrToHtml] at hr
      split at hr
      · rename_i h; cases hr; simp [h]
      · rename_i h
        split at hr
        · rename_i h'; cases hr; simp [h, h']
        · rename_i h'
          split at hr
          · rename_i h''; cases hr; simp only [h, h', if_false]; rw [if_pos h'']
          · rename_i h''; cases hr; simp only [h, h', if_false]; rw [if_neg h'']
  have hval : ∀ p t, v = .str t → (match attrToHtml p v with | .ok r => r.2 | .error _ => "") = t := by
    rintro p t rfl
    simp only [attrToHtml]
    repeat' split
    all_goals first | rfl | (rename_i heq; cases heq; rfl) | (rename_i heq; revert heq; repeat' split) <;> (intro heq; cases heq; try rfl)
  refine ⟨_, (hname (reactName k)).trans (congrArg (fun n => Except.ok (n, _)) ?_), hval _⟩
  cases h : get substitutions k with
  | none =>
    rw [show reactName k = k by rw [reactName, h]; rfl]
    split
    · rfl
    · split
      · rename_i hd
        simp only [dashedHtmlAttrs, List.mem_cons, List.not_mem_nil, or_false] at hd
        rcases hd with rfl | rfl
        · have := hl 'C' (by decide +kernel); revert this; decide
        · have := hl 'E' (by decide +kernel); revert this; decide
      · split
        · rfl
        · rw [lower_id hl, String.ofList_toList]
  | some p =>
    rw [show reactName k = p by rw [reactName, h]; rfl]
    have hm := get_mem h
    rw [substitutions, List.mem_append] at hm
    rcases hm with hm | hm
    · simp only [List.mem_cons, Prod.mk.injEq, List.not_mem_nil, or_false] at hm
      simp only [List.mem_cons, List.not_mem_nil, or_false, not_or] at hk
      rcases hm with ⟨rfl, rfl⟩ | ⟨rfl, rfl⟩ | ⟨rfl, rfl⟩ | ⟨rfl, rfl⟩ | ⟨rfl, rfl⟩
      · exact absurd rfl hk.2.1
      · exact absurd rfl hk.1
      · exact absurd rfl hk.2.2.1
      · decide +kernel
      · decide +kernel
    · obtain ⟨q, hq, he⟩ := List.mem_map.1 hm
      obtain ⟨rfl, rfl⟩ := Prod.mk.inj he
      split
      · rename_i hs; rw [style_known q hq hs, hs]
      · split
        · rename_i hd
          simp only [dashedHtmlAttrs, List.mem_cons, List.not_mem_nil, or_false] at hd
          rcases hd with rfl | rfl
          · revert hq; decide +kernel
          · revert hk; decide +kernel
        · rw [known_plain q hq]; rfl

example : attrToHtml (reactName "accept-charset") (.str "utf-8") = .ok ("accept-charset", "utf-8") := by
  obtain ⟨s, h, hs⟩ := C57_name_partial "accept-charset" (.str "utf-8") (by decide +kernel) (by decide +kernel) rfl
  rw [h, hs _ rfl]

/-- **C57.**  The attributes of an element are written in order, one for each prop, unless two have the same HTML name. -/
theorem C57_each_partial (attrs : List (String × AVal)) (names : List String) (texts : List String)
    (h : attrs.map (fun p => attrToHtml p.1 p.2) = (names.zip texts).map .ok) (hl : names.length = texts.length) (hd : names.Nodup) :
    attrsToHtml attrs = .ok (names.zip texts) := by
  have : attrs.mapM (fun p => attrToHtml p.1 p.2) = .ok (names.zip texts) := by
    clear hl hd
    generalize names.zip texts = r at h
    induction attrs generalizing r with
    | nil =>
      cases r with
      | nil => rfl
      | cons => cases h
    | cons p attrs ih =>
      cases r with
      | nil => cases h
      | cons q r =>
        rw [List.map_cons, List.map_cons, List.cons.injEq] at h
        rw [List.mapM_cons, h.1, ih r h.2]
        rfl
  have hn : ((names.zip texts).map (·.1)).Nodup := by
    rw [show (names.zip texts).map (·.1) = names from List.map_fst_zip (by omega)]
    exact hd
  rw [attrsToHtml, this, ← ofPairs_nodup hn]
  exact congrArg Except.ok (by rw [ofPairs_nodup hn, ofPairs_nodup hn])

example : attrsToHtml [("id", .str "a"), ("tabIndex", .other "1")] = .ok [("id", "a"), ("tabindex", "1")] :=
  C57_each_partial _ ["id", "tabindex"] ["a", "1"] (by
    simp only [List.map_cons, List.map_nil, List.zip_cons_cons, List.zip_nil_right, List.cons.injEq, and_true]
    exact ⟨of_okIs (by decide +kernel), of_okIs (by decide +kernel)⟩) rfl (by decide)

/-- **C57, violated.**  `class` and `for` come back under names HTML does not know. -/
theorem C57_violated : attrToHtml (reactName "class") (.str "x") = .ok ("classname", "x") ∧
    attrToHtml (reactName "for") (.str "x") = .ok ("htmlfor", "x") :=
  ⟨of_okIs (by decide +kernel), of_okIs (by decide +kernel)⟩

/-- **C57, violated.**  A whole document: `<p class="a"></p>` becomes `<p classname="a"></p>`. -/
theorem C57_document_violated :
    (toVdom true (.mk "p" [("class", "a")] "" []) >>= toString demo) = .ok "<p classname=\"a\"></p>".toList := by
  have : toVdom true (.mk "p" [("class", "a")] "" []) = .ok (.elem "p" [("className", .str "a")] [] [] []) := by rfl
  rw [this]
  exact of_okIs (by decide +kernel)

end C57

end Verif.Markup
