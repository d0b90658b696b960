import Verif.Client.Element
/-!
# C76: the browser builds what the model describes
-/
namespace Verif.Client.Elem

/-! ## Specification -/

/-- The property an element should have under a name, when its handlers are treated by `wrap`: inline JavaScript first, then
the event handler, then the attribute. -/
def wanted (wrap : Handler → PropVal) (attrs : List (String × J)) (handlers : List (String × Handler))
    (inline : List (String × String)) (name : String) : Option PropVal :=
  match get inline name with
  | some code => some (.js code)
  | none =>
    match get handlers name with
    | some h => some (wrap h)
    | none => (get attrs name).map .attr

mutual
/-- The texts a model shows, in order: its texts and the messages of failed components. -/
def Model.texts : Model → List String
  | .text s => [s]
  | .el _ error _ _ _ _ kids =>
    match error with
    | some e => if e = "" then [] else [e]
    | none => textsL kids
/-- As `Model.texts`, for a list. -/
def textsL : List Model → List String
  | [] => []
  | m :: ms => m.texts ++ textsL ms
end

mutual
/-- The texts of what was built, in order. -/
def Out.texts : Out → List String
  | .text s => [s]
  | .error s => [s]
  | .elem _ _ kids => outTexts kids
  | .input _ _ kids => outTexts kids
  | .comp _ _ kids => outTexts kids
  | _ => []
/-- As `Out.texts`, for a list. -/
def outTexts : List Out → List String
  | [] => []
  | o :: os => o.texts ++ outTexts os
end

/-- The node of a model at a path of child positions. -/
def Model.at : Model → List Nat → Option Model
  | m, [] => some m
  | .text _, _ :: _ => none
  | .el _ _ _ _ _ _ kids, i :: p =>
    match kids[i]? with
    | some k => k.at p
    | none => none

/-- The node of what was built at a path of child positions. -/
def Out.at : Out → List Nat → Option Out
  | o, [] => some o
  | .elem _ _ kids, i :: p =>
    match kids[i]? with
    | some k => k.at p
    | none => none
  | .input _ _ kids, i :: p =>
    match kids[i]? with
    | some k => k.at p
    | none => none
  | .comp _ _ kids, i :: p =>
    match kids[i]? with
    | some k => k.at p
    | none => none
  | _, _ :: _ => none

/-- The members of `Object.prototype`. -/
def objectMembers : List String :=
  ["constructor", "hasOwnProperty", "isPrototypeOf", "propertyIsEnumerable", "toLocaleString", "toString", "valueOf",
   "__proto__", "__defineGetter__", "__defineSetter__", "__lookupGetter__", "__lookupSetter__"]

theorem objectMembers_eq : inherited = objectMembers := rfl

mutual
/-- HTML without scripts: no imported components, no tag that `Object.prototype` knows. -/
def Html : Model → Prop
  | .text _ => True
  | .el tag _ _ _ _ src kids => tag ≠ "script" ∧ tag ∉ objectMembers ∧ src = none ∧ HtmlL kids
/-- As `Html`, for a list. -/
def HtmlL : List Model → Prop
  | [] => True
  | m :: ms => Html m ∧ HtmlL ms
end

mutual
/-- No failed component in the model. -/
def NoError : Model → Prop
  | .text _ => True
  | .el _ error _ _ _ _ kids => error = none ∧ NoErrorL kids
/-- As `NoError`, for a list. -/
def NoErrorL : List Model → Prop
  | [] => True
  | m :: ms => NoError m ∧ NoErrorL ms
end

mutual
/-- Every component in the model is one the module has. -/
def Has (mod : Module) (cur : Nat) : Model → Prop
  | .text _ => True
  | .el tag _ _ _ _ src kids => (∀ s, src = some s → s.source = cur ∧ mod tag = true) ∧ HasL mod cur kids
/-- As `Has`, for a list. -/
def HasL (mod : Module) (cur : Nat) : List Model → Prop
  | [] => True
  | m :: ms => Has mod cur m ∧ HasL mod cur ms
end

/-! ## Properties -/

theorem get_append {V : Type} (a b : List (String × V)) (k : String) :
    get (a ++ b) k = match get b k with
      | some v => some v
      | none => get a k := by
  unfold get
  rw [List.reverse_append, List.find?_append]
  cases b.reverse.find? (fun p => p.1 == k) <;> simp

theorem get_map {V W : Type} (f : V → W) (a : List (String × V)) (k : String) :
    get (a.map (fun p => (p.1, f p.2))) k = (get a k).map f := by
  unfold get
  rw [← List.map_reverse, List.find?_map]
  cases h : a.reverse.find? ((fun p : String × W => p.1 == k) ∘ fun p => (p.1, f p.2)) <;>
    (have h' : a.reverse.find? (fun p => p.1 == k) = _ := h; simp [h, h'])

theorem get_filter {V : Type} (q : String → Bool) (a : List (String × V)) (k : String) (hk : q k = true) :
    get (a.filter (fun p => q p.1)) k = get a k := by
  unfold get
  rw [← List.filter_reverse, List.find?_filter]
  congr 1
  congr 1
  funext p
  by_cases h : p.1 = k <;> simp [h, hk]

theorem get_filter_none {V : Type} (q : String → Bool) (a : List (String × V)) (k : String) (hk : q k = false) :
    get (a.filter (fun p => q p.1)) k = none := by
  unfold get
  rw [← List.filter_reverse, List.find?_filter]
  rw [Option.map_eq_none_iff, List.find?_eq_none]
  intro p _
  by_cases h : p.1 = k <;> simp [h, hk]

/-- How the wrappers of a standard element treat a property. -/
def std : PropVal → PropVal
  | .handler h _ d s => .handler h (valid h.throttle) d s
  | v => v

/-- How those of an input treat it. -/
def inp : PropVal → PropVal
  | .handler h _ _ _ => .handler h (valid h.throttle) (valid h.debounce) true
  | v => v

theorem throttleAll_eq (props : List (String × PropVal)) : throttleAll props = props.map (fun p => (p.1, std p.2)) := by
  unfold throttleAll
  apply List.map_congr_left
  intro p _
  cases h : p.2 <;> simp [std]

theorem inputProps_eq (props : List (String × PropVal)) :
    inputProps props = (props.filter (fun p => p.1 ≠ "_reactpy_ack_seq" ∧ p.1 ≠ "value")).map (fun p => (p.1, inp p.2)) := by
  unfold inputProps
  apply List.map_congr_left
  intro p _
  cases h : p.2 <;> simp [inp]

theorem get_attributes (attrs : List (String × J)) (handlers : List (String × Handler)) (inline : List (String × String))
    (f : PropVal → PropVal) (hf : ∀ v, f (.attr v) = .attr v) (hj : ∀ c, f (.js c) = .js c) (name : String) :
    (get (createAttributes attrs handlers inline) name).map f =
      wanted (fun h => f (.handler h none none false)) attrs handlers inline name := by
  have e : handlers.map makeHandler = handlers.map (fun p => (p.1, PropVal.handler p.2 none none false)) := rfl
  unfold createAttributes wanted
  rw [get_append, get_append, e, get_map PropVal.js, get_map PropVal.attr,
    get_map (fun h => PropVal.handler h none none false)]
  cases get inline name with
  | some c => simp [hj]
  | none =>
    cases get handlers name with
    | some h => simp
    | none => cases get attrs name <;> simp [hf]

theorem get_standard (attrs : List (String × J)) (handlers : List (String × Handler)) (inline : List (String × String))
    (name : String) :
    get (throttleAll (createAttributes attrs handlers inline)) name =
      wanted (fun h => .handler h (valid h.throttle) none false) attrs handlers inline name := by
  rw [throttleAll_eq, get_map]
  exact get_attributes attrs handlers inline std (fun _ => rfl) (fun _ => rfl) name

theorem get_input (attrs : List (String × J)) (handlers : List (String × Handler)) (inline : List (String × String))
    (name : String) :
    get (inputProps (createAttributes attrs handlers inline)) name =
      if name = "_reactpy_ack_seq" ∨ name = "value" then none
      else wanted (fun h => .handler h (valid h.throttle) (valid h.debounce) true) attrs handlers inline name := by
  rw [inputProps_eq, get_map]
  have e : ∀ l : List (String × PropVal), l.filter (fun p => decide (p.1 ≠ "_reactpy_ack_seq" ∧ p.1 ≠ "value")) =
      l.filter (fun p => (fun n => decide (n ≠ "_reactpy_ack_seq" ∧ n ≠ "value")) p.1) := fun _ => rfl
  split
  next h =>
    rw [e, get_filter_none (fun n => decide (n ≠ "_reactpy_ack_seq" ∧ n ≠ "value"))]
    · rfl
    · rcases h with h | h <;> simp [h]
  next h =>
    rw [e, get_filter (fun n => decide (n ≠ "_reactpy_ack_seq" ∧ n ≠ "value"))]
    · exact get_attributes attrs handlers inline inp (fun _ => rfl) (fun _ => rfl) name
    · simpa using h

/-- C76: an element that has neither failed nor a special tag is built with its own tag, and has, under every name, what the
model wants there: inline JavaScript before an event handler before an attribute; a handler is throttled exactly if the model
gives a valid interval; and no other property. -/
theorem C76_props (tag : String) (attrs : List (String × J)) (handlers : List (String × Handler)) (inline : List (String × String))
    (kids : List Model) (h1 : tag ≠ "script") (h2 : tag ∉ objectMembers)
    (h3 : ¬ (tag = "input" ∨ tag = "select" ∨ tag = "textarea")) :
    ∃ props ks, element (.el tag none attrs handlers inline none kids) = .elem tag props ks ∧
      ∀ name, get props name = wanted (fun h => .handler h (valid h.throttle) none false) attrs handlers inline name := by
  refine ⟨_, elements kids, ?_, fun name => get_standard attrs handlers inline name⟩
  simp [element, objectMembers_eq, h1, h2, h3]

/-- C76: the same for an input element, whose handlers share one counter and may be debounced as well; it has neither `value`
nor the acknowledged sequence number, which are the client's to deal with. -/
theorem C76_input_props (tag : String) (attrs : List (String × J)) (handlers : List (String × Handler))
    (inline : List (String × String)) (kids : List Model) (h3 : tag = "input" ∨ tag = "select" ∨ tag = "textarea") :
    ∃ props ks, element (.el tag none attrs handlers inline none kids) = .input tag props ks ∧
      ∀ name, get props name = if name = "_reactpy_ack_seq" ∨ name = "value" then none
        else wanted (fun h => .handler h (valid h.throttle) (valid h.debounce) true) attrs handlers inline name := by
  refine ⟨_, elements kids, ?_, fun name => get_input attrs handlers inline name⟩
  simp [element, h3]

/-- C76: the same for what is inside an imported component, both elements and components of the module, where handlers have no
wrappers (see `C76_imported_throttle_violated`). -/
theorem C76_imported_props (mod : Module) (cur : Nat) (tag : String) (attrs : List (String × J))
    (handlers : List (String × Handler)) (inline : List (String × String)) (kids : List Model) :
    (∃ props ks, imported mod cur (.el tag none attrs handlers inline none kids) = .elem tag props ks ∧
      ∀ name, get props name = wanted (fun h => .handler h none none false) attrs handlers inline name) ∧
    (∀ s : Source, s.source = cur → mod tag = true →
      ∃ props ks, imported mod cur (.el tag none attrs handlers inline (some s) kids) = .comp tag props ks ∧
      ∀ name, get props name = wanted (fun h => .handler h none none false) attrs handlers inline name) := by
  have e : ∀ name, get (createAttributes attrs handlers inline) name =
      wanted (fun h => .handler h none none false) attrs handlers inline name := fun name => by
    simpa using get_attributes attrs handlers inline id (fun _ => rfl) (fun _ => rfl) name
  refine ⟨⟨_, _, rfl, e⟩, fun s hs hm => ⟨_, importeds mod cur kids, ?_, e⟩⟩
  simp [imported, hs, hm]

/-- C76: an interval counts exactly if it is a non-negative integer. -/
theorem C76_interval (j : Option J) (n : Nat) : valid j = some n ↔ j = some (.num n) := by
  match j with
  | none => simp [valid]
  | some (.other k) => simp [valid]
  | some (.num k) =>
    simp only [valid]
    split
    · simp; omega
    · simp; omega

/-- A name with all three: inline JavaScript wins; a throttled click; an attribute; an invalid throttle. -/
example :
    let a := [("onClick", J.other 1), ("id", J.other 2)]
    let h := [("onClick", { target := "7" }), ("onBlur", { target := "8", throttle := some (.num 50) }),
      ("onFocus", { target := "9", throttle := some (.num (-5)) })]
    let i := [("onClick", "alert()")]
    get (throttleAll (createAttributes a h i)) "onClick" = some (.js "alert()") ∧
    get (throttleAll (createAttributes a h i)) "onBlur" = some (.handler { target := "8", throttle := some (.num 50) } (some 50) none false) ∧
    get (throttleAll (createAttributes a h i)) "onFocus" =
      some (.handler { target := "9", throttle := some (.num (-5)) } none none false) ∧
    get (throttleAll (createAttributes a h i)) "id" = some (.attr (.other 2)) := by
  decide

/-! ## Texts and places -/

mutual
theorem texts_element : ∀ m, Html m → (element m).texts = m.texts
  | .text s, _ => by simp [element, Out.texts, Model.texts]
  | .el tag error attrs handlers inline src kids, h => by
    obtain ⟨h1, h2, h3, h4⟩ := h
    have hk := texts_elements kids h4
    subst h3
    unfold element Model.texts
    cases error with
    | some e => by_cases he : e = "" <;> simp [he, Out.texts]
    | none =>
      simp only [objectMembers_eq, h1, h2, if_false]
      split
      · simpa [Out.texts] using hk
      · simpa [Out.texts] using hk
theorem texts_elements : ∀ ms, HtmlL ms → outTexts (elements ms) = textsL ms
  | [], _ => by simp [elements, outTexts, textsL]
  | m :: ms, h => by simp [elements, outTexts, textsL, texts_element m h.1, texts_elements ms h.2]
end

/-- C76, for HTML without scripts and imported components: the page shows exactly the texts of the model, in its order, among
them the message of each failed component in place of it.

Missing: imported components (`C76_imported_texts_partial`) and tags inherited from `Object.prototype`
(`C76_inherited_violated`). -/
theorem C76_texts_partial (m : Model) (h : Html m) : (element m).texts = m.texts := texts_element m h

/-- C76, for scripts: the script of the page has the attributes of the model, and its code is the first text among the children. -/
theorem C76_script (attrs : List (String × J)) (hs : List (String × Handler)) (js : List (String × String)) (src : Option Source) (before after : List Model) (code : String)
    (hb : ∀ m ∈ before, ∀ s, m ≠ .text s) :
    element (.el "script" none attrs hs js src (before ++ .text code :: after)) = .script attrs (some code) ∧
    element (.el "script" none attrs hs js src before) = .script attrs none := by
  have h : before.filterMap textOf = [] := by
    rw [List.filterMap_eq_nil_iff]
    intro m hm
    cases m with
    | text s => exact absurd rfl (hb _ hm s)
    | el => rfl
  constructor <;> simp [element, h, textOf]

theorem elements_getElem? (ms : List Model) (i : Nat) : (elements ms)[i]? = (ms[i]?).map element := by
  induction ms generalizing i with
  | nil => simp [elements]
  | cons m ms ih => cases i with
    | zero => simp [elements]
    | succ i => simpa [elements] using ih i

theorem HtmlL.get {ms : List Model} (h : HtmlL ms) {i : Nat} {m : Model} (hi : ms[i]? = some m) : Html m := by
  induction ms generalizing i with
  | nil => simp at hi
  | cons k ks ih =>
    cases i with
    | zero => simp at hi; exact hi ▸ h.1
    | succ i => exact ih h.2 (by simpa using hi)

theorem NoErrorL.get {ms : List Model} (h : NoErrorL ms) {i : Nat} {m : Model} (hi : ms[i]? = some m) : NoError m := by
  induction ms generalizing i with
  | nil => simp at hi
  | cons k ks ih =>
    cases i with
    | zero => simp at hi; exact hi ▸ h.1
    | succ i => exact ih h.2 (by simpa using hi)

/-- C76, for HTML without scripts, imported components and failed components: the node at any place of the page is the one
built from the model's node at the same place, and there are no others. -/
theorem C76_places_partial (m : Model) (h : Html m) (he : NoError m) (p : List Nat) :
    (element m).at p = (m.at p).map element := by
  induction p generalizing m with
  | nil => cases m <;> simp [Model.at, Out.at]
  | cons i p ih =>
    cases m with
    | text s => simp [element, Model.at, Out.at]
    | el tag error attrs handlers inline src kids =>
      obtain ⟨h1, h2, h3, h4⟩ := h
      obtain ⟨e1, e2⟩ := he
      subst h3 e1
      unfold element Model.at
      simp only [objectMembers_eq, h1, h2, if_false]
      split
      all_goals
        simp only [Out.at, elements_getElem?]
        cases hk : kids[i]? with
        | none => simp
        | some k => simpa using ih k (h4.get hk) (e2.get hk)

/-- A page with a failed component, an input and nested elements. -/
def page : Model :=
  .el "div" none [] [] [] none
    [.text "a", .el "" (some "boom") [] [] [] none [], .el "p" none [] [] [] none [.text "b", .el "input" none [] [] [] none []],
     .text "c"]

example : Html page ∧ (element page).texts = ["a", "boom", "b", "c"] := by
  refine ⟨?_, ?_⟩
  · simp [page, Html, HtmlL, objectMembers]
  · rw [C76_texts_partial page (by simp [page, Html, HtmlL, objectMembers])]
    simp [page, Model.texts, textsL]

/-! ## Inside imported components -/

mutual
theorem texts_imported (mod : Module) (cur : Nat) :
    ∀ m, NoError m → Has mod cur m → (imported mod cur m).texts = m.texts
  | .text s, _, _ => by simp [imported, Out.texts, Model.texts]
  | .el tag error attrs handlers inline src kids, he, h => by
    obtain ⟨h1, h2⟩ := h
    obtain ⟨e1, e2⟩ := he
    have hk := texts_importeds mod cur kids e2 h2
    subst e1
    unfold imported Model.texts
    cases src with
    | none => simpa [Out.texts] using hk
    | some s => simpa [Out.texts, (h1 s rfl).1, (h1 s rfl).2] using hk
theorem texts_importeds (mod : Module) (cur : Nat) :
    ∀ ms, NoErrorL ms → HasL mod cur ms → outTexts (importeds mod cur ms) = textsL ms
  | [], _, _ => by simp [importeds, outTexts, textsL]
  | m :: ms, he, h => by
    simp [importeds, outTexts, textsL, texts_imported mod cur m he.1 h.1, texts_importeds mod cur ms he.2 h.2]
end

/-- C76, for what is inside an imported component, if no component there failed and all imported ones are of its module and
exist there: the texts are those of the model, in its order.

Missing: failed components (`C76_imported_error_violated`). -/
theorem C76_imported_texts_partial (mod : Module) (cur : Nat) (m : Model) (he : NoError m) (h : Has mod cur m) :
    (imported mod cur m).texts = m.texts :=
  texts_imported mod cur m he h

/-- C76: what belongs to another module is left to an element of its own, with the whole model. -/
theorem C76_foreign (mod : Module) (cur : Nat) (tag : String) (error : Option String) (attrs : List (String × J))
    (handlers : List (String × Handler)) (inline : List (String × String)) (s : Source) (kids : List Model)
    (h : s.source ≠ cur) :
    imported mod cur (.el tag error attrs handlers inline (some s) kids) =
      .foreign (.el tag error attrs handlers inline (some s) kids) := by
  simp [imported, h]

/-- An imported card with a paragraph and a nested card. -/
example : NoError (.el "Card" none [] [] [] (some ⟨1, none⟩) [.text "a", .el "p" none [] [] [] none [.text "b"]]) ∧
    Has (fun n => n == "Card") 1 (.el "Card" none [] [] [] (some ⟨1, none⟩) [.text "a", .el "p" none [] [] [] none [.text "b"]]) ∧
    (imported (fun n => n == "Card") 1
      (.el "Card" none [] [] [] (some ⟨1, none⟩) [.text "a", .el "p" none [] [] [] none [.text "b"]])).texts = ["a", "b"] := by
  refine ⟨by simp [NoError, NoErrorL], by simp [Has, HasL], ?_⟩
  simp [imported, importeds, Out.texts, outTexts]

/-- C76 is violated inside imported components: the message of a failed component is not shown. -/
theorem C76_imported_error_violated (mod : Module) (cur : Nat) (e : String) (he : e ≠ "") :
    (imported mod cur (.el "" (some e) [] [] [] none [])).texts = [] ∧
    (Model.el "" (some e) [] [] [] none []).texts = [e] ∧ (element (.el "" (some e) [] [] [] none [])).texts = [e] := by
  simp [imported, importeds, Out.texts, outTexts, Model.texts, element, he]

/-- C76 is violated inside imported components: a handler's throttle is ignored there, though the same element is throttled
elsewhere. -/
theorem C76_imported_throttle_violated (mod : Module) (cur : Nat) (h : Handler) (n : Nat) (hn : valid h.throttle = some n) :
    (∃ props, imported mod cur (.el "button" none [] [("onClick", h)] [] none []) = .elem "button" props [] ∧
      get props "onClick" = some (.handler h none none false)) ∧
    (∃ props, element (.el "button" none [] [("onClick", h)] [] none []) = .elem "button" props [] ∧
      get props "onClick" = some (.handler h (some n) none false)) := by
  refine ⟨⟨_, rfl, rfl⟩, ?_⟩
  have e : element (.el "button" none [] [("onClick", h)] [] none []) =
      .elem "button" (throttleAll (createAttributes [] [("onClick", h)] [])) [] := by
    simp [element, elements, inherited]
  refine ⟨_, e, ?_⟩
  rw [get_standard]
  simp [wanted, get, hn]

/-- C76 is violated for imported components: the fallback given for the time of loading is never shown. -/
theorem C76_fallback_violated (tag : String) (h1 : tag ≠ "input") (h2 : tag ≠ "select") (h3 : tag ≠ "textarea")
    (h4 : tag ≠ "script") (h5 : tag ∉ objectMembers) (n : Nat) (text : String) (kids : List Model) :
    element (.el tag none [] [] [] (some ⟨n, some text⟩) kids) = .mount (.el tag none [] [] [] (some ⟨n, some text⟩) kids) ∧
    text ∉ (element (.el tag none [] [] [] (some ⟨n, some text⟩) kids)).texts := by
  simp [element, objectMembers_eq, h1, h2, h3, h4, h5, Out.texts]

/-- C76 is violated for an imported component whose name is that of an input: the HTML element is shown instead. -/
theorem C76_imported_input_violated (s : Source) (kids : List Model) :
    ∃ props ks, element (.el "select" none [] [] [] (some s) kids) = .input "select" props ks := by
  exact ⟨_, _, by simp [element]; exact ⟨rfl, rfl⟩⟩

/-- C76 is violated for a tag that `Object.prototype` has a member for: nothing of the element is shown. -/
theorem C76_inherited_violated (text : String) : ∀ tag ∈ objectMembers,
    element (.el tag none [] [] [] none [.text text]) = .broken ∧
    (element (.el tag none [] [] [] none [.text text])).texts ≠ (Model.el tag none [] [] [] none [.text text]).texts := by
  intro tag ht
  have h1 : tag ≠ "input" ∧ tag ≠ "select" ∧ tag ≠ "textarea" ∧ tag ≠ "script" := by
    refine ⟨?_, ?_, ?_, ?_⟩ <;> (rintro rfl; revert ht; decide +kernel)
  simp [element, objectMembers_eq, ht, h1, Out.texts, Model.texts, textsL]

/-! ## Calling a handler -/

theorem calls_eq (h : Handler) (n : Nat) (as : List (List Arg))
    (ha : h.preventDefault = false ∧ h.stopPropagation = false ∨ ∀ a ∈ as, ∀ x ∈ a, x.isEvent = true) :
    calls h n as = as.mapIdx (fun i a => ⟨h.target, a.map Arg.data, n + i⟩) := by
  induction as generalizing n with
  | nil => simp [calls]
  | cons a as ih =>
    have hc : call h n a = (some ⟨h.target, a.map Arg.data, n⟩, n + 1) := by
      unfold call
      rcases ha with ⟨h1, h2⟩ | ha
      · simp [h1, h2]
      · have : a.any (fun x => !x.isEvent) = false := by
          rw [List.any_eq_false]
          intro x hx
          simp [ha a (by simp) x hx]
        simp [this]
    unfold calls
    rw [hc]
    simp only [List.mapIdx_cons, Nat.add_zero]
    rw [ih (n + 1) (ha.imp id fun h b hb => h b (by simp [hb]))]
    congr 1
    apply List.ext_getElem?
    intro i
    simp only [List.getElem?_mapIdx]
    cases as[i]? with
    | none => rfl
    | some b => simp; omega

/-- The data of an argument: those made of an event or of another object, and a primitive value itself. -/
def Arg.sent (a : Arg) : Nat := match a with | .event d | .object d | .prim d => d

/-- C76, for a handler that prevents nothing, or is called with events only: every call sends one message, to the handler's
target, with the data of all its arguments in order, numbered 0, 1, 2, … in the order of the calls.

Missing: other arguments for a handler that prevents something (`C76_prevented_violated`). -/
theorem C76_sent_partial (h : Handler) (as : List (List Arg))
    (ha : h.preventDefault = false ∧ h.stopPropagation = false ∨ ∀ a ∈ as, ∀ x ∈ a, x.isEvent = true) :
    calls h 0 as = as.mapIdx (fun i a => ⟨h.target, a.map Arg.sent, i⟩) := by
  have hs : Arg.sent = Arg.data := by funext a; cases a <;> rfl
  rw [hs]
  simpa using calls_eq h 0 as ha

example : calls { target := "3", preventDefault := true } 0 [[.event 5], [.event 6]] = [⟨"3", [5], 0⟩, ⟨"3", [6], 1⟩] ∧
    calls { target := "3" } 0 [[.event 5, .prim 9], []] = [⟨"3", [5, 9], 0⟩, ⟨"3", [], 1⟩] := by decide

/-- C76 is violated by a handler that prevents the default or stops propagation, when a component calls it with anything that
is not an event (many call `onChange(event, value)`): it raises, and nothing is sent. -/
theorem C76_prevented_violated (h : Handler) (hp : h.preventDefault = true ∨ h.stopPropagation = true) (e v n : Nat) :
    calls h n [[.event e, .prim v]] = [] := by
  rcases hp with hp | hp <;> simp [calls, call, hp, Arg.isEvent]

/-! ### Cases that meet the hypotheses -/

example := C76_props "button" [("id", .other 2)] [("onBlur", { target := "8", throttle := some (.num 50) })] [("onClick", "alert()")] [.text "a"] (by decide)
  (by decide +kernel) (by decide)
example := C76_input_props "select" [("id", .other 2)] [("onChange", { target := "8", debounce := some (.num 50) })] [] [.el "option" none [] [] [] none []] (.inr (.inl rfl))
example := C76_script [("type", .other 1)] [] [] none [.el "p" none [] [] [] none []] [.text "b"] "alert()" (fun m h s => by simp at h; subst h; simp)

end Verif.Client.Elem
