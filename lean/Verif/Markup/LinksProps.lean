import Verif.Markup.Links
import Verif.Markup.AttrsProps
import Verif.Markup.Props
import Verif.Markup.Transforms
import Verif.Client.ElementProps
/-! # C121: clicks on links in HTML that was read -/
namespace Verif.Markup
open Verif.Client

/-! ## Specification -/

/-- What a click on a link does: nothing but a message to the server; it runs JavaScript, and then the browser follows the link (unless
the code prevents it); the browser follows the link. -/
inductive Click where
  | stays
  | runs (code : String)
  | follows
deriving DecidableEq, Repr

mutual
/-- The attributes of the links in the HTML, in document order. -/
def anchors : El → List (List (String × String))
  | .mk tag attrs _ kids => (if tag = "a" then [attrs] else []) ++ anchorsL kids
/-- The same for children. -/
def anchorsL : List (El × String) → List (List (String × String))
  | [] => []
  | (e, _) :: ks => anchors e ++ anchorsL ks
end

/-- What a click does to an element with these properties. -/
def click (props : List (String × Elem.PropVal)) : Click :=
  match Elem.get props "onClick" with
  | some (.handler h _ _ _) => if h.preventDefault then .stays else .follows
  | some (.js code) => .runs code
  | _ => .follows

mutual
/-- What clicks on the links of the page do, in document order. -/
def clicks : Elem.Out → List Click
  | .elem tag props kids => (if tag = "a" then [click props] else []) ++ clicksL kids
  | .input _ _ kids => clicksL kids
  | _ => []
/-- The same for several. -/
def clicksL : List Elem.Out → List Click
  | [] => []
  | o :: os => clicks o ++ clicksL os
end

/-- Elements whose children are not elements of the page. -/
def opaqueTags : List String := ["textarea", "script"] ++ Elem.objectMembers

/-- What a click on a link of the HTML should do. -/
def expected (intercept : Bool) (attrs : List (String × String)) : Click :=
  match prop attrs "onClick" with
  | some code => .runs code
  | none => if intercept then .stays else .follows

/-! ## Proofs -/

mutual
/-- The links of a model: their JavaScript, and their handlers. -/
def anchorsV : V → List (Option String × Bool × List String)
  | .elem tag attrs js hs kids => (if tag = "a" then [(Elem.get js "onClick", (get attrs "onClick").isSome, hs)] else []) ++ anchorsVL kids
  | .comp r => anchorsV r
  | _ => []
def anchorsVL : List V → List (Option String × Bool × List String)
  | [] => []
  | v :: vs => anchorsV v ++ anchorsVL vs
end

theorem anchorsVL_append : ∀ a b, anchorsVL (a ++ b) = anchorsVL a ++ anchorsVL b
  | [], _ => rfl
  | v :: a, b => by simp only [List.cons_append, anchorsVL, anchorsVL_append a b, List.append_assoc]

mutual
theorem settled_anchors : ∀ v v', Settled v v' → anchorsV v' = anchorsV v
  | .elem tag attrs js hs kids, v', h => by
    cases v' with
    | elem tag' attrs' js' hs' kids' =>
      simp only [Settled] at h
      obtain ⟨rfl, rfl, rfl, h1, h2⟩ := h
      simp only [anchorsV, settled_anchorsL kids kids' h1]
      by_cases ht : tag' = "a"
      · subst ht
        simp only [String.reduceEq, false_and, if_false] at h2
        rw [h2]
      · simp [ht]
    | _ => simp [Settled] at h
  | .text s, v', h => by simp only [Settled] at h; rw [h]
  | .none, v', h => by simp only [Settled] at h; rw [h]
  | .value s, v', h => by simp only [Settled] at h; rw [h]
  | .comp r, v', h => by simp only [Settled] at h; rw [h]
  | .bad, v', h => by simp only [Settled] at h; rw [h]
theorem settled_anchorsL : ∀ vs vs', SettledL vs vs' → anchorsVL vs' = anchorsVL vs
  | [], vs', h => by simp only [SettledL] at h; rw [h]
  | v :: vs, vs', h => by
    cases vs' with
    | nil => simp [SettledL] at h
    | cons v' vs' =>
      simp only [SettledL] at h
      simp only [anchorsVL, settled_anchors v v' h.1, settled_anchorsL vs vs' h.2]
end

/-- In a dict the first entry is the last. -/
theorem get_eq_last : ∀ (d : List (String × String)) (k : String), (d.map (·.1)).Nodup → Elem.get d k = get d k
  | [], _, _ => rfl
  | p :: d, k, h => by
    simp only [List.map_cons, List.nodup_cons] at h
    have ih := get_eq_last d k h.2
    rw [get_cons]
    simp only [Elem.get, List.reverse_cons, List.find?_append] at ih ⊢
    by_cases hp : p.1 = k
    · subst hp
      have : List.find? (fun q => q.1 == p.1) d.reverse = none := by
        rw [List.find?_eq_none]
        intro q hq
        simp only [beq_iff_eq]
        intro e
        exact h.1 (e ▸ List.mem_map_of_mem (List.mem_reverse.1 hq))
      simp [this]
    · have hp' : (p.1 == k) = false := by simpa using hp
      simp only [List.find?_cons, hp', List.find?_nil, Option.or_none, hp, if_false]
      exact ih

theorem react_nodup (attrs : List (String × String)) : (((attributesToReact attrs).filter (fun p => isEventName p.1)).map (·.1)).Nodup := by
  have h : ((attributesToReact attrs).map (·.1)).Nodup := (foldl_put_spec _ [] (by simp)).1
  exact h.sublist (List.filter_sublist.map _)

theorem event_onClick : isEventName "onClick" = true := by decide +kernel

mutual
theorem anchors_toVdom {i : Bool} : ∀ (e : El) (v : V), e.avoids opaqueTags → toVdom i e = .ok v →
    anchorsV v = (anchors e).map fun a => (prop a "onClick", false, if i then ["onClick"] else [])
  | .mk tag attrs text kids, v, ha, h => by
    have hat := C67_attributes h
    obtain ⟨cs, as0, as, ks, hcs, hcon, hg, hk, hs, rfl⟩ := toVdom_steps h
    obtain ⟨as', js', hs', ks', e, _, hjs, _⟩ := hat
    have he := hjs "onClick" ((isEventName_iff _).1 event_onClick)
    injection e with _ e1 e2 _ _
    rw [← e1, ← e2] at he
    have ht : tag ≠ "textarea" := by rintro rfl; exact ha.1 (by simp [opaqueTags])
    have htx : textarea tag as ks = (as, ks) := by simp [textarea, ht]
    rw [htx] at he ⊢
    have hkids : anchorsVL ks = anchorsVL cs := by
      have e0 : anchorsVL ((if text ≠ "" then [.text text] else []) ++ cs) = anchorsVL cs := by
        rw [anchorsVL_append]; split <;> rfl
      generalize ((if text ≠ "" then [V.text text] else []) ++ cs) = all at hs e0
      simp only [selectElement] at hs
      split at hs
      · cases hs; exact e0
      · obtain ⟨⟨kids', sel⟩, hp, hs⟩ := bind_eq_ok hs
        have := settled_anchorsL _ _ (parseOptionsL_settled _ _ _ hp)
        rw [← e0, ← this]
        simp only at hs
        split at hs <;> (cases hs; rfl)
    simp only [anchorsV, anchors, hkids, List.map_append, anchorsL_toVdom kids cs ha.2 hcs]
    congr 1
    by_cases hta : tag = "a"
    · subst hta
      rw [get_eq_last _ _ (react_nodup attrs), he.2, he.1]
      cases i <;> simp
    · simp [hta]
theorem anchorsL_toVdom {i : Bool} : ∀ (ks : List (El × String)) (vs : List V), avoidsL opaqueTags ks → toVdomL i ks = .ok vs →
    anchorsVL vs = (anchorsL ks).map fun a => (prop a "onClick", false, if i then ["onClick"] else [])
  | [], vs, _, h => by cases h; rfl
  | (e, tail) :: ks, vs, ha, h => by
    simp only [toVdomL] at h
    obtain ⟨v, h1, h⟩ := bind_eq_ok h
    obtain ⟨ws, h2, h⟩ := bind_eq_ok h
    cases h
    have e0 : anchorsVL ((if tail ≠ "" then [.text tail] else []) ++ ws) = anchorsVL ws := by
      rw [anchorsVL_append]; split <;> rfl
    simp only [anchorsVL, e0, anchorsL, List.map_append, anchors_toVdom e v ha.1 h1, anchorsL_toVdom ks ws ha.2 h2]
end

mutual
/-- No element of the model has one of the tags. -/
def avoidsV : V → Prop
  | .elem tag _ _ _ kids => tag ∉ opaqueTags ∧ avoidsVL kids
  | .comp r => avoidsV r
  | _ => True
def avoidsVL : List V → Prop
  | [] => True
  | v :: vs => avoidsV v ∧ avoidsVL vs
end

theorem avoidsVL_append : ∀ a b, avoidsVL a → avoidsVL b → avoidsVL (a ++ b)
  | [], _, _, h => h
  | _ :: a, b, h, h' => ⟨h.1, avoidsVL_append a b h.2 h'⟩

mutual
theorem settled_avoids : ∀ v v', Settled v v' → avoidsV v → avoidsV v'
  | .elem tag attrs js hs kids, v', h, ha => by
    cases v' with
    | elem tag' attrs' js' hs' kids' =>
      simp only [Settled] at h
      obtain ⟨rfl, rfl, rfl, h1, h2⟩ := h
      exact ⟨ha.1, settled_avoidsL kids kids' h1 ha.2⟩
    | _ => simp [Settled] at h
  | .text s, v', h, ha => by simp only [Settled] at h; rw [h]; exact ha
  | .none, v', h, ha => by simp only [Settled] at h; rw [h]; exact ha
  | .value s, v', h, ha => by simp only [Settled] at h; rw [h]; exact ha
  | .comp r, v', h, ha => by simp only [Settled] at h; rw [h]; exact ha
  | .bad, v', h, ha => by simp only [Settled] at h; rw [h]; exact ha
theorem settled_avoidsL : ∀ vs vs', SettledL vs vs' → avoidsVL vs → avoidsVL vs'
  | [], vs', h, ha => by simp only [SettledL] at h; rw [h]; exact ha
  | v :: vs, vs', h, ha => by
    cases vs' with
    | nil => simp [SettledL] at h
    | cons v' vs' =>
      simp only [SettledL] at h
      exact ⟨settled_avoids v v' h.1 ha.1, settled_avoidsL vs vs' h.2 ha.2⟩
end

mutual
theorem avoids_toVdom {i : Bool} : ∀ (e : El) (v : V), e.avoids opaqueTags → toVdom i e = .ok v → avoidsV v
  | .mk tag attrs text kids, v, ha, h => by
    obtain ⟨cs, as0, as, ks, hcs, hcon, hg, hk, hs, rfl⟩ := toVdom_steps h
    have ht : tag ≠ "textarea" := by rintro rfl; exact ha.1 (by simp [opaqueTags])
    have htx : textarea tag as ks = (as, ks) := by simp [textarea, ht]
    rw [htx]
    refine ⟨ha.1, ?_⟩
    have e0 : avoidsVL ((if text ≠ "" then [V.text text] else []) ++ cs) :=
      avoidsVL_append _ _ (by split <;> simp [avoidsVL, avoidsV]) (avoidsL_toVdom kids cs ha.2 hcs)
    generalize ((if text ≠ "" then [V.text text] else []) ++ cs) = all at hs e0
    simp only [selectElement] at hs
    split at hs
    · cases hs; exact e0
    · obtain ⟨⟨kids', sel⟩, hp, hs⟩ := bind_eq_ok hs
      have := settled_avoidsL _ _ (parseOptionsL_settled _ _ _ hp) e0
      simp only at hs
      split at hs <;> (cases hs; exact this)
theorem avoidsL_toVdom {i : Bool} : ∀ (ks : List (El × String)) (vs : List V), avoidsL opaqueTags ks → toVdomL i ks = .ok vs → avoidsVL vs
  | [], vs, _, h => by cases h; trivial
  | (e, tail) :: ks, vs, ha, h => by
    simp only [toVdomL] at h
    obtain ⟨v, h1, h⟩ := bind_eq_ok h
    obtain ⟨ws, h2, h⟩ := bind_eq_ok h
    cases h
    exact ⟨avoids_toVdom e v ha.1 h1, avoidsVL_append _ _ (by split <;> simp [avoidsVL, avoidsV]) (avoidsL_toVdom ks ws ha.2 h2)⟩
end

theorem elements_append : ∀ a b, Elem.elements (a ++ b) = Elem.elements a ++ Elem.elements b
  | [], _ => by simp [Elem.elements]
  | m :: a, b => by simp only [List.cons_append, Elem.elements, elements_append a b]

theorem clicksL_append : ∀ a b, clicksL (a ++ b) = clicksL a ++ clicksL b
  | [], _ => rfl
  | o :: a, b => by simp only [List.cons_append, clicksL, clicksL_append a b, List.append_assoc]

/-- What the browser makes of a link. -/
def made : Option String × Bool × List String → Click
  | (some code, _, _) => .runs code
  | (none, _, hs) => if "onClick" ∈ hs then .stays else .follows

theorem click_made (attrs : List (String × AVal)) (js : List (String × String)) (hs : List String) :
    click (Elem.throttleAll (Elem.createAttributes (attrs.map fun p => (p.1, .other 0))
      (hs.map fun n => (n, { target := "target", preventDefault := true })) js)) =
      made (Elem.get js "onClick", (get attrs "onClick").isSome, hs) := by
  simp only [click, Elem.get_standard, Elem.wanted]
  cases hj : Elem.get js "onClick" with
  | some code => rfl
  | none =>
    simp only [made]
    have hh : Elem.get (hs.map fun n => (n, ({ target := "target", preventDefault := true } : Elem.Handler))) "onClick" =
        if "onClick" ∈ hs then some { target := "target", preventDefault := true } else none := by
      simp only [Elem.get, ← List.map_reverse]
      split
      · rename_i hm
        have hm := List.mem_reverse.2 hm
        generalize hs.reverse = l at hm
        induction l with
        | nil => cases hm
        | cons x l ih =>
          by_cases hx : x = "onClick"
          · subst hx; simp
          · have : (x == "onClick") = false := by simpa using hx
            simp only [List.map_cons, List.find?_cons, this]
            exact ih ((List.mem_cons.1 hm).resolve_left (Ne.symm hx))
      · rename_i hm
        have : List.find? (fun p : String × Elem.Handler => p.1 == "onClick")
            (List.map (fun n => (n, ({ target := "target", preventDefault := true } : Elem.Handler))) hs.reverse) = none := by
          rw [List.find?_eq_none]
          rintro ⟨n, h⟩ hq
          simp only [List.mem_map, List.mem_reverse, Prod.mk.injEq] at hq
          obtain ⟨n', hn, rfl, _⟩ := hq
          simp only [beq_iff_eq]
          rintro rfl; exact hm hn
        rw [this]; rfl
    rw [hh]
    by_cases hm : "onClick" ∈ hs
    · simp only [if_pos hm]; rfl
    · simp only [if_neg hm]
      cases Elem.get (attrs.map fun p => (p.1, Elem.J.other 0)) "onClick" <;> rfl

mutual
theorem clicks_wire : ∀ v : V, avoidsV v → clicksL (Elem.elements (wire v)) = (anchorsV v).map made
  | .elem tag attrs js hs kids, ha => by
    have h1 : tag ≠ "script" := by rintro rfl; exact ha.1 (by simp [opaqueTags])
    have h2 : tag ∉ Elem.objectMembers := fun h => ha.1 (by simp [opaqueTags, h])
    simp only [wire, Elem.elements, clicksL, List.append_nil, anchorsV, List.map_append, ← clicksL_wire kids ha.2]
    by_cases h3 : tag = "input" ∨ tag = "select" ∨ tag = "textarea"
    · have hna : tag ≠ "a" := by rcases h3 with rfl | rfl | rfl <;> decide
      simp [Elem.element, h3, clicks, hna]
    · simp only [Elem.element, Elem.objectMembers_eq, h1, h2, h3, if_false, clicks, click_made]
      split <;> simp
  | .text s, _ => by simp [wire, Elem.elements, Elem.element, clicksL, clicks, anchorsV]
  | .none, _ => by simp [wire, Elem.elements, clicksL, anchorsV]
  | .value s, _ => by simp [wire, Elem.elements, Elem.element, clicksL, clicks, anchorsV]
  | .comp r, ha => by simp only [wire, anchorsV]; exact clicks_wire r ha
  | .bad, _ => by simp [wire, Elem.elements, clicksL, anchorsV]
theorem clicksL_wire : ∀ vs : List V, avoidsVL vs → clicksL (Elem.elements (wireL vs)) = (anchorsVL vs).map made
  | [], _ => by simp [wireL, Elem.elements, clicksL, anchorsVL]
  | v :: vs, ha => by
    simp only [wireL, elements_append, clicksL_append, anchorsVL, List.map_append, clicks_wire v ha.1, clicksL_wire vs ha.2]
end

/-! ## Theorems -/

/-- **C121.** What clicks on the links of the page do, link by link: the JavaScript of the link's `onclick` attribute runs; without one, a
click stays on the page if links are intercepted and follows the link otherwise. -/
theorem C121_clicks (i : Bool) (e : El) (os : List Elem.Out) (ha : e.avoids opaqueTags) (h : shownPage i e = .ok os) :
    clicksL os = (anchors e).map (expected i) := by
  simp only [shownPage] at h
  cases hv : toVdom i e with
  | error er => rw [hv] at h; cases h
  | ok v =>
    rw [hv] at h
    cases h
    rw [clicks_wire v (avoids_toVdom e v ha hv), anchors_toVdom e v ha hv, List.map_map]
    apply List.map_congr_left
    intro a _
    simp only [Function.comp, expected]
    cases prop a "onClick" with
    | some c => rfl
    | none => cases i <;> rfl

/-- **C121 (partial).** When links are intercepted, no click on a link leaves the page: as many clicks stay as there are links.  Partial: links with
an `onclick` attribute are excluded (`C121_onclick_violated`). -/
theorem C121_stays_partial (e : El) (os : List Elem.Out) (ha : e.avoids opaqueTags) (h : shownPage true e = .ok os)
    (hn : ∀ a ∈ anchors e, ∀ p ∈ a, reactName p.1 ≠ "onClick") : clicksL os = List.replicate (anchors e).length .stays := by
  rw [C121_clicks true e os ha h, List.eq_replicate_iff]
  refine ⟨by simp, fun c hc => ?_⟩
  obtain ⟨a, hm, rfl⟩ := List.mem_map.1 hc
  have : prop a "onClick" = none := by
    simp only [prop, Option.map_eq_none_iff, List.find?_eq_none]
    intro p hp
    simpa using hn a hm p (List.mem_reverse.1 hp)
  simp [expected, this]

/-- Two links in a paragraph. -/
def linksDoc (second : List (String × String)) : El := .mk "p" [] "see " [(.mk "a" [("href", "/x")] "here" [], " or "),
  (.mk "b" [] "" [(.mk "a" second "there" [], "")], ".")]

theorem linksDoc_avoids (a : List (String × String)) : (linksDoc a).avoids opaqueTags := by
  simp [linksDoc, El.avoids, avoidsL, opaqueTags, Elem.objectMembers]

example : ∃ os, shownPage true (linksDoc [("href", "/y")]) = .ok os ∧ clicksL os = [.stays, .stays] :=
  ⟨_, rfl, C121_stays_partial _ _ (linksDoc_avoids _) rfl (by decide +kernel)⟩

example : ∃ os, shownPage false (linksDoc [("href", "/y"), ("onclick", "track()")]) = .ok os ∧ clicksL os = [.follows, .runs "track()"] :=
  ⟨_, rfl, (C121_clicks false _ _ (linksDoc_avoids _) rfl).trans (by decide +kernel)⟩

/-- **C121 is violated** by a link with an `onclick` attribute: the inline JavaScript takes the place of the handler that keeps the browser on
the page. -/
theorem C121_onclick_violated : ∃ os, shownPage true (linksDoc [("href", "/y"), ("onclick", "track()")]) = .ok os ∧
    clicksL os = [.stays, .runs "track()"] :=
  ⟨_, rfl, (C121_clicks true _ _ (linksDoc_avoids _) rfl).trans (by decide +kernel)⟩

end Verif.Markup
