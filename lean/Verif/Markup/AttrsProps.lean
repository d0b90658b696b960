import Verif.Markup.Attrs
/-! # HTML attributes survive being read: property C67 -/
namespace Verif.Markup

variable {i : Bool} {tag : String} {attrs : List (String × String)} {text : String} {kids : List (El × String)} {v : V}

theorem event_key : isEventName "key" = false := by decide +kernel
theorem event_id : isEventName "id" = false := by decide +kernel
theorem event_name : isEventName "name" = false := by decide +kernel
theorem event_style : isEventName "style" = false := by decide +kernel
theorem event_value : isEventName "value" = false := by decide +kernel
theorem event_default : isEventName "defaultValue" = false := by decide +kernel
theorem event_multiple : isEventName "multiple" = false := by decide +kernel

/-- `on`, a capital, and a further letter, digit or `_`: the names of event handlers (`onClick`). -/
def EventName (n : String) : Prop :=
  ∃ c d rest, n.toList = 'o' :: 'n' :: c :: d :: rest ∧ ('A' ≤ c ∧ c ≤ 'Z') ∧ (d.isAlphanum = true ∨ d = '_')

theorem isEventName_iff (n : String) : isEventName n = true ↔ EventName n := by
  unfold isEventName EventName
  split
  · rename_i c d rest e
    simp only [e, isUpper, Bool.and_eq_true, Bool.or_eq_true, decide_eq_true_eq, beq_iff_eq]
    constructor
    · exact fun ⟨a, b⟩ => ⟨c, d, rest, rfl, a, b⟩
    · rintro ⟨c', d', rest', e', a, b⟩
      cases e'
      exact ⟨a, b⟩
  · rename_i h
    simp only [Bool.false_eq_true, false_iff]
    rintro ⟨c, d, rest, e, _⟩
    exact h c d rest e

/-- A form to try the properties on. -/
def demoSelect : El :=
  .mk "select" [("name", "pet"), ("multiple", ""), ("class", "wide"), ("onchange", "go()")] ""
    [(.mk "option" [("value", "c")] "Cat" [], ""),
     (.mk "optgroup" [] "" [(.mk "option" [("selected", "")] "Dog" [], ""), (.mk "option" [("selected", ""), ("value", "e")] "Emu" [], "")], "")]

def demoSelectModel : V :=
  .elem "select" [("name", .str "pet"), ("multiple", .true), ("className", .str "wide"), ("key", .str "pet"),
      ("defaultValue", .many [.str "Dog", .str "e"])] [("onChange", "go()")] []
    [.elem "option" [("value", .str "c")] [] [] [.text "Cat"],
     .elem "optgroup" [] [] [] [.elem "option" [("value", .str "Dog")] [] [] [.text "Dog"], .elem "option" [("value", .str "e")] [] [] [.text "Emu"]]]

theorem demoSelect_read : toVdom true demoSelect = .ok demoSelectModel := by rfl

/-- **C67.**  Reading an element gives a model of the same tag in which every attribute is the prop React knows it by, with the
same text, and there are no other props; attributes that are event handlers become inline JavaScript.  The props in
`transformed` are described by the theorems below. -/
theorem C67_attributes (h : toVdom i (.mk tag attrs text kids) = .ok v) :
    ∃ as js hs ks, v = .elem tag as js hs ks ∧
      (∀ n, n ∉ transformed tag → ¬ EventName n → get as n = (prop attrs n).map .str) ∧
      (∀ n, EventName n → get as n = none ∧ get js n = prop attrs n) ∧
      (∀ n, ¬ EventName n → get js n = none) := by
  simp only [← isEventName_iff, Bool.not_eq_true]
  obtain ⟨cs, as0, as, ks, _, _, hg, _, hs, rfl⟩ := toVdom_steps h
  have hall : ∀ n, n ∉ transformed tag → get (textarea tag as ks).1 n = if isEventName n then none else (prop attrs n).map .str := by
    intro n hn
    simp only [transformed, List.mem_append, not_or] at hn
    have hk : n ≠ "key" := fun h => hn.1.1.1 (by simp [h])
    have hst : n ≠ "style" := fun h => hn.1.1.1 (by simp [h])
    rw [textarea_get, select_get hs n, normalizeStyle_get _ _ hst, inputValue_get, inferKey_get _ _ _ hk, hg n hk]
    · intro ht; have := hn.1.1.2; rw [if_pos ht] at this; simpa using this
    · intro ht; have := hn.1.2; rw [if_pos ht] at this; simpa using this
    · intro ht; have := hn.2; rw [if_pos ht] at this; simpa using this
  have hjs : ∀ (d : List (String × String)) n, get (d.filter (fun p => isEventName p.1)) n = if isEventName n then get d n else none := by
    intro d n
    induction d with
    | nil => simp [get_nil]
    | cons p d ih =>
      rw [List.filter_cons]
      by_cases hp : isEventName p.1 = true
      · rw [if_pos hp, get_cons, get_cons, ih]
        by_cases hn : p.1 = n
        · subst hn; simp [hp]
        · simp [hn]
      · rw [if_neg hp, get_cons, ih]
        by_cases hn : p.1 = n
        · subst hn; simp [hp]
        · simp [hn]
  refine ⟨_, _, _, _, rfl, fun n hn he => ?_, fun n he => ⟨?_, ?_⟩, fun n he => ?_⟩
  · rw [hall n hn, he]; rfl
  · rw [hall n, he]; · rfl
    · intro hc
      have : n = "key" ∨ n = "style" ∨ n = "value" ∨ n = "defaultValue" ∨ n = "multiple" := by
        simp only [transformed, List.mem_append] at hc
        rcases hc with ((hc | hc) | hc) | hc
        · simp at hc; grind
        · split at hc <;> simp at hc; grind
        · split at hc <;> simp at hc; grind
        · split at hc <;> simp at hc; grind
      rcases this with rfl | rfl | rfl | rfl | rfl
      · rw [event_key] at he; cases he
      · rw [event_style] at he; cases he
      · rw [event_value] at he; cases he
      · rw [event_default] at he; cases he
      · rw [event_multiple] at he; cases he
  · rw [hjs, he, get_react]; rfl
  · rw [hjs, he]; rfl

example : prop [("name", "pet"), ("multiple", ""), ("class", "wide"), ("onchange", "go()")] "className" = some "wide" ∧
    "className" ∉ transformed "select" ∧ ¬ EventName "className" ∧ EventName "onChange" := by
  simp only [← isEventName_iff]
  decide +kernel

/-- **C67.**  The key of the model: the attribute `key`, or for a script its address or text; failing that the `id`, or the
`name` of a form field, unless empty. -/
theorem C67_key (h : toVdom i (.mk tag attrs text kids) = .ok v) :
    ∃ as js hs ks, v = .elem tag as js hs ks ∧
      ((∀ k, prop attrs "key" = some k → get as "key" = some (.str k)) ∧
       (prop attrs "key" = none → tag ≠ "script" → ∀ k, prop attrs "id" = some k → get as "key" = if k = "" then none else some (.str k)) ∧
       (prop attrs "key" = none → tag ≠ "script" → prop attrs "id" = none → isField tag →
         ∀ k, prop attrs "name" = some k → get as "key" = if k = "" then none else some (.str k)) ∧
       (prop attrs "key" = none → tag ≠ "script" → prop attrs "id" = none → (isField tag → prop attrs "name" = none) → get as "key" = none) ∧
       (prop attrs "key" = none → tag = "script" → kids = [] → text ≠ "" → get as "key" = some (.str text)) ∧
       (prop attrs "key" = none → tag = "script" → kids = [] → text = "" → ∀ k, prop attrs "src" = some k → get as "key" = some (.str k))) := by
  obtain ⟨cs, as0, as, ks, hcs, _, hg, hk, hs, rfl⟩ := toVdom_steps h
  refine ⟨_, _, _, _, rfl, ?_⟩
  have e : get (textarea tag as ks).1 "key" = get (inferKey tag as0) "key" := by
    rw [textarea_get _ _ _ _ (by intro _; decide), select_get hs _ (by intro _; decide), normalizeStyle_get _ _ (by decide),
      inputValue_get _ _ _ (by intro _; decide)]
  have hid := hg "id" (by decide)
  have hname := hg "name" (by decide)
  rw [event_id, if_neg (by simp)] at hid
  rw [event_name, if_neg (by simp)] at hname
  have hfield : (tag ∈ ["input", "select", "textarea"]) ↔ isField tag := by simp [isField]
  have hkeep : ∀ k, get as0 "key" = some (.str k) → get (inferKey tag as0) "key" = some (.str k) := by
    intro k h1
    simp only [inferKey, h1, Option.some_or, Option.isNone_some, Bool.false_eq_true, if_false]
    split <;> exact h1
  rw [e]
  refine ⟨fun k h1 => hkeep k (by rw [hk, h1]; rfl), fun h1 ht k h2 => ?_, fun h1 ht h2 hf k h3 => ?_, fun h1 ht h2 h3 => ?_,
    fun h1 ht hks htx => hkeep text ?_, fun h1 ht hks htx k h2 => hkeep k ?_⟩
  · rw [h1, if_neg ht] at hk
    simp only [Option.or_none, Option.map_none] at hk
    rw [h2] at hid
    simp only [inferKey, hk, hid, Option.map_some, Option.none_or, Option.some_or, Option.isNone_none, if_true]
    by_cases hx : k = ""
    · subst hx; simp [hk]
    · rw [if_neg hx]
      split
      · rename_i heq; cases heq; exact absurd rfl hx
      · rename_i heq; cases heq; rw [get_put, if_pos rfl]
      · rename_i heq; cases heq
  · rw [h1, if_neg ht] at hk
    simp only [Option.or_none, Option.map_none] at hk
    rw [h2] at hid
    rw [h3] at hname
    simp only [inferKey, hk, hid, hname, hfield.2 hf, Option.map_some, Option.map_none, Option.none_or, Option.isNone_none, if_true]
    by_cases hx : k = ""
    · subst hx; simp [hk]
    · rw [if_neg hx]
      split
      · rename_i heq; cases heq; exact absurd rfl hx
      · rename_i heq; cases heq; rw [get_put, if_pos rfl]
      · rename_i heq; cases heq
  · rw [h1, if_neg ht] at hk
    simp only [Option.or_none, Option.map_none] at hk
    rw [h2] at hid
    have : (if tag ∈ ["input", "select", "textarea"] then get as0 "name" else none) = none := by
      split
      · rename_i hf; rw [hname, h3 (hfield.1 hf)]; rfl
      · rfl
    simp only [inferKey, hk, hid, this, Option.map_none, Option.none_or]
  · subst hks
    cases hcs
    rw [hk, h1, if_pos ht, if_pos htx]
    rfl
  · subst hks
    cases hcs
    rw [hk, h1, if_pos ht, if_neg (by simp [htx]), List.append_nil, scriptKey, h2]
    rfl

example : prop [("name", "pet"), ("multiple", "")] "key" = none ∧ prop [("name", "pet"), ("multiple", "")] "name" = some "pet" ∧ isField "select" := by
  refine ⟨by decide +kernel, by decide +kernel, .inr (.inl rfl)⟩

/-- **C67.**  A `style` becomes a dict; what is in it is property C39. -/
theorem C67_style (h : toVdom i (.mk tag attrs text kids) = .ok v) :
    ∃ as js hs ks, v = .elem tag as js hs ks ∧ get as "style" = (prop attrs "style").map (fun s => .style (parseStyle s.toList)) := by
  obtain ⟨cs, as0, as, ks, _, _, hg, _, hs, rfl⟩ := toVdom_steps h
  refine ⟨_, _, _, _, rfl, ?_⟩
  rw [textarea_get _ _ _ _ (by intro _; decide), select_get hs _ (by intro _; decide)]
  have e : get (inputValue tag (inferKey tag as0)) "style" = (prop attrs "style").map .str := by
    rw [inputValue_get _ _ _ (by intro _; decide), inferKey_get _ _ _ (by decide), hg _ (by decide), event_style]; rfl
  cases hp : prop attrs "style" with
  | none =>
    rw [hp] at e
    simp only [normalizeStyle, e, Option.map_none]
  | some s =>
    rw [hp] at e
    simp only [normalizeStyle, e, Option.map_some, get_put, if_true]

example : toVdom true (.mk "p" [("style", "font-size: 2px; color:red")] "" []) =
    .ok (.elem "p" [("style", .style [("fontSize", "2px"), ("color", "red")])] [] [] []) := by rfl

/-- **C67.**  What an input holds becomes its initial value, so that React lets the user change it. -/
theorem C67_input (h : toVdom i (.mk "input" attrs text kids) = .ok v) :
    ∃ as js hs ks, v = .elem "input" as js hs ks ∧ get as "value" = none ∧
      get as "defaultValue" = ((prop attrs "value").or (prop attrs "defaultValue")).map .str := by
  obtain ⟨cs, as0, as, ks, _, _, hg, _, hs, rfl⟩ := toVdom_steps h
  refine ⟨_, _, _, _, rfl, ?_⟩
  have e1 : get (inferKey "input" as0) "value" = (prop attrs "value").map .str := by
    rw [inferKey_get _ _ _ (by decide), hg _ (by decide), event_value]; rfl
  have e2 : get (inferKey "input" as0) "defaultValue" = (prop attrs "defaultValue").map .str := by
    rw [inferKey_get _ _ _ (by decide), hg _ (by decide), event_default]; rfl
  have e : ∀ n, n ≠ "style" → get (textarea "input" as ks).1 n = get (inputValue "input" (inferKey "input" as0)) n := by
    intro n hn
    rw [textarea_get _ _ _ _ (by intro h; simp at h), select_get hs _ (by intro h; simp at h), normalizeStyle_get _ _ hn]
  rw [e _ (by decide), e _ (by decide)]
  simp only [inputValue, if_true, e1]
  cases hp : prop attrs "value" with
  | none => simp only [Option.map_none, Option.none_or]; exact ⟨by rw [e1, hp]; rfl, e2⟩
  | some s =>
    simp only [Option.map_some, Option.some_or, get_put, get_del]
    exact ⟨by simp, by simp⟩

example : toVdom true (.mk "input" [("value", "a"), ("type", "text"), ("checked", "")] "" []) =
    .ok (.elem "input" [("type", .str "text"), ("defaultChecked", .str ""), ("defaultValue", .str "a")] [] [] []) := by rfl

theorem toVdomL_texts : ∀ (kids : List (El × String)) (cs : List V), toVdomL i kids = .ok cs →
    String.join (cs.filterMap (fun k => match k with | .text s => some s | _ => none)) = String.join (kids.map (·.2)) := by
  intro kids
  induction kids with
  | nil => intro cs h; cases h; rfl
  | cons p ks ih =>
    intro cs h
    obtain ⟨e, tail⟩ := p
    simp only [toVdomL] at h
    obtain ⟨v, h1, h⟩ := bind_eq_ok h
    obtain ⟨ws, h2, h⟩ := bind_eq_ok h
    obtain ⟨t, a, j, hh, k, rfl⟩ := toVdom_elem h1
    cases h
    by_cases ht : tail = ""
    · subst ht; simp [ih ws h2]
    · simp [ih ws h2, ht]

/-- **C67.**  What a text area holds becomes its initial value, in place of children. -/
theorem C67_textarea (h : toVdom i (.mk "textarea" attrs text kids) = .ok v) :
    ∃ as js hs, v = .elem "textarea" as js hs [] ∧
      (ownText text kids ≠ "" → get as "defaultValue" = some (.str (ownText text kids))) ∧
      (ownText text kids = "" → kids = [] → get as "defaultValue" = (prop attrs "defaultValue").map .str) := by
  obtain ⟨cs, as0, as, ks, hcs, _, hg, _, hs, rfl⟩ := toVdom_steps h
  have hsk : ks = (if text ≠ "" then [.text text] else []) ++ cs ∧ as = normalizeStyle (inputValue "textarea" (inferKey "textarea" as0)) := by
    simp only [selectElement, ne_eq, String.reduceEq, not_false_eq_true, true_or, if_true] at hs
    cases hs; exact ⟨rfl, rfl⟩
  obtain ⟨hks, has⟩ := hsk
  have hd : get as "defaultValue" = (prop attrs "defaultValue").map .str := by
    rw [has, normalizeStyle_get _ _ (by decide), inputValue_get _ _ _ (by intro h; simp at h), inferKey_get _ _ _ (by decide), hg _ (by decide), event_default]
    rfl
  have hjoin : String.join (ks.filterMap (fun k => match k with | .text s => some s | _ => none)) = ownText text kids := by
    rw [hks, List.filterMap_append, ownText, ← toVdomL_texts kids cs hcs]
    by_cases ht : text = ""
    · subst ht; simp
    · simp [ht]
  by_cases hne : ks = []
  · have : textarea "textarea" as ks = (as, []) := by simp [textarea, hne]
    rw [this]
    refine ⟨_, _, _, rfl, fun h0 => ?_, fun _ _ => hd⟩
    rw [hne] at hjoin
    exact absurd hjoin.symm h0
  · have : textarea "textarea" as ks = (put (del as "defaultValue") "defaultValue"
        (if ownText text kids = "" then (get as "defaultValue").getD (.str "") else .str (ownText text kids)), []) := by
      simp only [textarea, hne, ne_eq, not_false_eq_true, and_self, if_true]
      exact congrArg (fun t => (put (del as "defaultValue") "defaultValue" (if t = "" then (get as "defaultValue").getD (.str "") else .str t), ([] : List V))) hjoin
    rw [this]
    refine ⟨_, _, _, rfl, fun h0 => ?_, fun h0 hk0 => ?_⟩
    · rw [get_put, if_pos rfl, if_neg h0]
    · subst hk0
      cases hcs
      have : text = "" := by simpa [ownText] using h0
      exact absurd (by rw [hks, this]; rfl) hne

example : toVdom true (.mk "textarea" [("name", "t")] "hi" []) = .ok (.elem "textarea" [("name", .str "t"), ("key", .str "t"), ("defaultValue", .str "hi")] [] [] []) := by rfl

theorem toVdomL_content : ∀ (kids : List (El × String)) (cs : List V) (text : String), toVdomL i kids = .ok cs →
    Content i text kids ((if text ≠ "" then [.text text] else []) ++ cs) := by
  intro kids
  induction kids with
  | nil =>
    intro cs text h
    cases h
    rw [show (if text ≠ "" then [V.text text] else []) = shownText text by by_cases ht : text = "" <;> simp [shownText, ht], List.append_nil]
    exact .nil text
  | cons p ks ih =>
    intro cs text h
    obtain ⟨e, tail⟩ := p
    simp only [toVdomL] at h
    obtain ⟨v, h1, h⟩ := bind_eq_ok h
    obtain ⟨ws, h2, h⟩ := bind_eq_ok h
    cases h
    rw [show (if text ≠ "" then [V.text text] else []) = shownText text by by_cases ht : text = "" <;> simp [shownText, ht]]
    exact .cons _ _ _ _ _ _ h1 (ih ws tail h2)

/-- **C67.**  The children of the model are the text and the models of the children of the element, in order, so that the
theorems apply to each of them in turn. -/
theorem C67_children (h1 : tag ≠ "select") (h2 : tag ≠ "textarea") (h : toVdom i (.mk tag attrs text kids) = .ok v) :
    ∃ as js hs ks, v = .elem tag as js hs ks ∧ Content i text kids ks := by
  obtain ⟨cs, as, js, hs, hcs, rfl, _⟩ := tag_steps h1 h2 h
  exact ⟨_, _, _, _, rfl, toVdomL_content kids cs text hcs⟩

example : toVdom true (.mk "p" [] "a" [(.mk "b" [("id", "k")] "x" [], "c")]) =
    .ok (.elem "p" [] [] [] [.text "a", .elem "b" [("id", .str "k"), ("key", .str "k")] [] [] [.text "x"], .text "c"]) := by rfl

/-- **C67.**  The options that are selected in the HTML are the initial value of the `select`: all of them, in document order, if
it takes several, and otherwise the first; and options are identified by a value.  The options inside are as read, but not
marked as selected. -/
theorem C67_select_partial (h : toVdom i (.mk "select" attrs text kids) = .ok v) :
    ∃ as js hs ks ks0, v = .elem "select" as js hs ks ∧ Content i text kids ks0 ∧ SettledL ks0 ks ∧
      (ks ≠ [] → get as "multiple" = (prop attrs "multiple").map (fun _ => AVal.true)) ∧
      get as "defaultValue" = match chosenL kids with
        | [] => (prop attrs "defaultValue").map .str
        | s :: ss => some (if prop attrs "multiple" = none then s else .many (s :: ss)) := by
  obtain ⟨cs, as0, as, ks, hcs, _, hg, _, hs, rfl⟩ := toVdom_steps h
  have ht : textarea "select" as ks = (as, ks) := by simp [textarea]
  rw [ht]
  have e : ∀ n, n ≠ "key" → n ≠ "style" → get (normalizeStyle (inputValue "select" (inferKey "select" as0))) n = get as0 n := by
    intro n hn1 hn2
    rw [normalizeStyle_get _ _ hn2, inputValue_get _ _ _ (by intro h; simp at h), inferKey_get _ _ _ hn1]
  have em : get (normalizeStyle (inputValue "select" (inferKey "select" as0))) "multiple" = (prop attrs "multiple").map .str := by
    rw [e _ (by decide) (by decide), hg _ (by decide), event_multiple]; rfl
  have ed : get (normalizeStyle (inputValue "select" (inferKey "select" as0))) "defaultValue" = (prop attrs "defaultValue").map .str := by
    rw [e _ (by decide) (by decide), hg _ (by decide), event_default]; rfl
  refine ⟨_, _, _, _, _, rfl, toVdomL_content kids cs text hcs, ?_⟩
  rcases select_spec hs with ⟨h0, rfl, rfl⟩ | ⟨h0, sel, hp, hm, hd⟩
  · rw [h0]
    have hk : kids = [] := by
      cases kids with
      | nil => rfl
      | cons p r =>
        obtain ⟨e, tl⟩ := p
        simp only [toVdomL] at hcs
        obtain ⟨v, h1, hcs⟩ := bind_eq_ok hcs
        obtain ⟨ws, h2, hcs⟩ := bind_eq_ok hcs
        cases hcs
        have := (List.append_eq_nil_iff.1 h0).2
        cases this
    subst hk
    exact ⟨rfl, fun h => absurd rfl h, ed⟩
  · obtain ⟨ra, sa, rb, sb, ha, hb, rfl⟩ := parseOptionsL_append _ _ _ _ hp
    have hs' := parseOptionsL_textV _ _ _ ha
    subst hs'
    have := toVdomL_chosen i kids cs rb sb hcs hb
    subst this
    refine ⟨parseOptionsL_settled _ _ _ hp, fun _ => ?_, ?_⟩
    · rw [hm, em, Option.map_map]; rfl
    · rw [hd, ed, em]
      simp only [List.nil_append]
      cases chosenL kids with
      | nil => rfl
      | cons s ss =>
        cases prop attrs "multiple" with
        | none => simp
        | some x => simp

example : chosen (.mk "div" [] "" [(demoSelect, "")]) = [] ∧
    chosenL [(.mk "optgroup" [] "" [(.mk "option" [("selected", "")] "Dog" [], ""), (.mk "option" [("selected", ""), ("value", "e")] "Emu" [], "")], "")] =
      [.str "Dog", .str "e"] := ⟨by rfl, by rfl⟩

/-- **C67, violated.**  Of several selected options of a `select` that takes one, a browser shows the last; the model shows the
first. -/
theorem C67_last_violated :
    (toVdom true (.mk "select" [] "" [(.mk "option" [("selected", ""), ("value", "a")] "A" [], ""), (.mk "option" [("selected", ""), ("value", "b")] "B" [], "")])) =
      .ok (.elem "select" [("defaultValue", .str "a")] [] []
        [.elem "option" [("value", .str "a")] [] [] [.text "A"], .elem "option" [("value", .str "b")] [] [] [.text "B"]]) := by rfl

/-- **C67.**  Clicks on links are handled by the server if asked for, and no other handler is added. -/
theorem C67_links (h : toVdom i (.mk tag attrs text kids) = .ok v) :
    ∃ as js ks, v = .elem tag as js (if tag = "a" ∧ i = true then ["onClick"] else []) ks := by
  obtain ⟨cs, as0, as, ks, _, _, _, _, _, rfl⟩ := toVdom_steps h
  refine ⟨_, _, _, congrArg (fun hs => V.elem tag (textarea tag as ks).1 _ hs (textarea tag as ks).2) ?_⟩
  by_cases ht : tag = "a"
  · subst ht; cases i <;> rfl
  · simp [ht]

end Verif.Markup
