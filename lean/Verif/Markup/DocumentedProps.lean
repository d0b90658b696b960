import Verif.Markup.DocumentedTables
import Verif.Markup.AttrsProps
import Verif.Markup.Props
/-! # Documented attributes written in HTML: property C123 -/
namespace Verif.Markup

variable {i : Bool} {tag : String} {attrs : List (String × String)} {text : String} {kids : List (El × String)} {v : V}

theorem lowered_id {n : String} (h : n.toList.any isUpper = false) : String.ofList (n.toList.map Char.toLower) = n := by
  have : lower n.toList = n.toList := lower_id (fun c hc => by
    rw [List.any_eq_false] at h
    simpa using h c hc)
  rw [show n.toList.map Char.toLower = n.toList from this, String.ofList_toList]

/-- The attribute names of HTML that become a documented prop are those in the specification. -/
theorem react_iff {n k : String} (hn : n ∈ documented ++ alsoKnown) (hk : ∀ c ∈ k.toList, isUpper c = false) :
    reactName k = n ↔ k ∈ htmlNames n := by
  refine ⟨fun h => ?_, htmlNames_react n hn k⟩
  by_cases hc : n = "checked"
  · subst hc
    cases hg : get substitutions k with
    | none =>
      rw [reactName, hg] at h
      simp only [Option.getD_none] at h
      subst h
      rw [checked_react] at hg
      cases hg
    | some p =>
      rw [reactName, hg] at h
      simp only [Option.getD_some] at h
      subst h
      have hm := get_mem hg
      have := checked_only _ hm rfl
      simp only at this
      subst this
      rw [checked_react] at hg
      revert hg; decide +kernel
  · cases hg : get substitutions k with
    | none =>
      rw [reactName, hg] at h
      simp only [Option.getD_none] at h
      subst h
      have hl : k.toList.any isUpper = false := by
        rw [List.any_eq_false]; intro c hc; simp [hk c hc]
      rw [documented_own k hn hc hl, lowered_id hl]
      simp
    | some p =>
      rw [reactName, hg] at h
      simp only [Option.getD_some] at h
      subst h
      exact substitutions_html _ (get_mem hg) hc

/-- The value of the only attribute written under one of the names of a prop. -/
theorem prop_of {n k t : String} (hn : n ∈ documented ++ alsoKnown) (hl : ∀ p ∈ attrs, ∀ c ∈ p.1.toList, isUpper c = false)
    (hm : (k, t) ∈ attrs) (hk : k ∈ htmlNames n) (ho : ∀ p ∈ attrs, p.1 ∈ htmlNames n → p = (k, t)) : prop attrs n = some t := by
  unfold prop
  have hr : reactName k = n := htmlNames_react n hn k hk
  cases hf : attrs.reverse.find? (fun p => reactName p.1 == n) with
  | none =>
    rw [List.find?_eq_none] at hf
    exact absurd (hf (k, t) (List.mem_reverse.2 hm)) (by simp [hr])
  | some q =>
    have hq := List.mem_reverse.1 (List.mem_of_find?_eq_some hf)
    have hp := List.find?_some hf
    simp only [beq_iff_eq] at hp
    rw [ho q hq ((react_iff hn (hl q hq)).1 hp)]
    rfl

/-- **C123.**  An attribute that reactpy documents can be written in HTML: an element with the attribute under one of its HTML
names (and not under another one as well) is read as a model with the documented prop, and the same text.  An event handler becomes
inline JavaScript of the documented name.  Excepted are the props that transforms change, which C67 describes, and `checked`,
which cannot be written (`C123_checked_violated`). -/
theorem C123_documented_partial {n k t : String} (hn : n ∈ documented ++ alsoKnown)
    (hl : ∀ p ∈ attrs, ∀ c ∈ p.1.toList, ¬ ('A' ≤ c ∧ c ≤ 'Z')) (hm : (k, t) ∈ attrs) (hk : k ∈ htmlNames n)
    (ho : ∀ p ∈ attrs, p.1 ∈ htmlNames n → p = (k, t)) (h : toVdom i (.mk tag attrs text kids) = .ok v) :
    ∃ as js hs ks, v = .elem tag as js hs ks ∧
      (EventName n → get js n = some t ∧ get as n = none) ∧
      (¬ EventName n → get js n = none ∧ (n ∉ transformed tag → get as n = some (.str t))) := by
  have hl' : ∀ p ∈ attrs, ∀ c ∈ p.1.toList, isUpper c = false := fun p hp c hc => by
    have := hl p hp c hc
    simpa [isUpper] using this
  have hp := prop_of hn hl' hm hk ho
  obtain ⟨as, js, hs, ks, rfl, h1, h2, h3⟩ := C67_attributes h
  refine ⟨as, js, hs, ks, rfl, fun he => ?_, fun he => ⟨h3 n he, fun ht => ?_⟩⟩
  · exact ⟨(h2 n he).2.trans hp, (h2 n he).1⟩
  · rw [h1 n ht he, hp]; rfl

/-- A button to try the properties on. -/
def demoButton : El :=
  .mk "button" [("class", "wide"), ("onclick", "go()"), ("ondblclick", "stop()"), ("onmouseover", "look()"), ("tabindex", "1"),
    ("formaction", "/x")] "Go" []

theorem demoButton_read : toVdom true demoButton = .ok (.elem "button" [("className", .str "wide"), ("ondblclick", .str "stop()"),
    ("onmouseover", .str "look()"), ("tabIndex", .str "1"), ("formAction", .str "/x")] [("onClick", "go()")] [] [.text "Go"]) := by rfl

example : ∃ as js hs ks, (V.elem "button" [("className", .str "wide"), ("ondblclick", .str "stop()"),
    ("onmouseover", .str "look()"), ("tabIndex", .str "1"), ("formAction", .str "/x")] [("onClick", "go()")] [] [.text "Go"]) =
      .elem "button" as js hs ks ∧
      (EventName "formAction" → get js "formAction" = some "/x" ∧ get as "formAction" = none) ∧
      (¬ EventName "formAction" → get js "formAction" = none ∧ ("formAction" ∉ transformed "button" → get as "formAction" = some (.str "/x"))) :=
  C123_documented_partial (n := "formAction") (k := "formaction") (t := "/x") (by decide +kernel) (by decide +kernel) (by decide +kernel)
    (by decide +kernel) (by decide +kernel) demoButton_read

theorem event_upper {n : String} (h : isEventName n = true) : ∃ c ∈ n.toList, isUpper c = true := by
  obtain ⟨c, d, rest, e, ⟨h1, h2⟩, _⟩ := (isEventName_iff n).1 h
  exact ⟨c, by rw [e]; simp, by simp [isUpper, h1, h2]⟩

/-- **C123.**  No other attribute of HTML becomes inline JavaScript: whatever inline JavaScript a model has, it is that of a
documented event handler, and comes from an attribute of the element that is its name but for capitals. -/
theorem C123_only (hl : ∀ p ∈ attrs, ∀ c ∈ p.1.toList, ¬ ('A' ≤ c ∧ c ≤ 'Z')) (h : toVdom i (.mk tag attrs text kids) = .ok v) :
    ∃ as js hs ks, v = .elem tag as js hs ks ∧
      ∀ n t, get js n = some t → n ∈ documented ∧ EventName n ∧ ∃ k, (k, t) ∈ attrs ∧ k ∈ htmlNames n := by
  have hl' : ∀ p ∈ attrs, ∀ c ∈ p.1.toList, isUpper c = false := fun p hp c hc => by
    have := hl p hp c hc
    simpa [isUpper] using this
  obtain ⟨as, js, hs, ks, rfl, _, h2, h3⟩ := C67_attributes h
  refine ⟨as, js, hs, ks, rfl, fun n t hg => ?_⟩
  by_cases he : EventName n
  · rw [(h2 n he).2, prop] at hg
    obtain ⟨q, hq, rfl⟩ := Option.map_eq_some_iff.1 hg
    have hm := List.mem_reverse.1 (List.mem_of_find?_eq_some hq)
    have hr := List.find?_some hq
    simp only [beq_iff_eq] at hr
    have hev := (isEventName_iff n).2 he
    have hd : n ∈ documented := by
      cases hs : get substitutions q.1 with
      | none =>
        rw [reactName, hs] at hr
        simp only [Option.getD_none] at hr
        subst hr
        obtain ⟨c, hc, hu⟩ := event_upper hev
        rw [hl' q hm c hc] at hu
        cases hu
      | some p =>
        rw [reactName, hs] at hr
        simp only [Option.getD_some] at hr
        subst hr
        exact table_events _ (get_mem hs) hev
    exact ⟨hd, he, q.1, hm, (react_iff (List.mem_append_left _ hd) (hl' q hm)).1 hr⟩
  · rw [h3 n he] at hg
    cases hg

example : ∃ as js hs ks, (V.elem "button" [("className", .str "wide"), ("ondblclick", .str "stop()"),
    ("onmouseover", .str "look()"), ("tabIndex", .str "1"), ("formAction", .str "/x")] [("onClick", "go()")] [] [.text "Go"]) =
      .elem "button" as js hs ks ∧
      ∀ n t, get js n = some t → n ∈ documented ∧ EventName n ∧ ∃ k, (k, t) ∈ [("class", "wide"), ("onclick", "go()"), ("ondblclick", "stop()"),
        ("onmouseover", "look()"), ("tabindex", "1"), ("formaction", "/x")] ∧ k ∈ htmlNames n :=
  C123_only (by decide +kernel) demoButton_read

/-- **C123.**  The event handlers of HTML that can be written are all but those in `unknownHandlers`. -/
theorem C123_handlers (k : String) (hk : k ∈ standardHandlers) :
    k ∉ unknownHandlers ↔ ∃ n ∈ documented, EventName n ∧ k ∈ htmlNames n := by
  simp only [← isEventName_iff]
  constructor
  · intro hu
    rcases standard_facts k hk with h | ⟨h1, h2, h3⟩
    · exact absurd h hu
    · exact ⟨_, h2, h1, h3⟩
  · rintro ⟨n, hn, he, hm⟩ hu
    have h2 := htmlNames_react n (List.mem_append_left _ hn) k hm
    rw [(unknown_facts k hu).2.1] at h2
    subst h2
    rw [(unknown_facts k hu).2.2.1] at he
    cases he

/-- **C123 is violated** by event handlers of HTML that React names differently or reactpy's list leaves out, like `ondblclick` and
`onmouseover`: they are sent as attributes, whatever the element, and not as inline JavaScript, so no event runs them. -/
theorem C123_handlers_violated {k t : String} (hk : k ∈ unknownHandlers)
    (hm : (k, t) ∈ attrs) (ho : ∀ p ∈ attrs, p.1 = k → p = (k, t)) (h : toVdom i (.mk tag attrs text kids) = .ok v) :
    k ∈ standardHandlers ∧ ∃ as js hs ks, v = .elem tag as js hs ks ∧ get as k = some (.str t) ∧ get js k = none := by
  obtain ⟨h1, h2, h3, h4⟩ := unknown_facts k hk
  have he : ¬ EventName k := by rw [← isEventName_iff, h3]; simp
  have hp : prop attrs k = some t := by
    unfold prop
    cases hf : attrs.reverse.find? (fun p => reactName p.1 == k) with
    | none =>
      rw [List.find?_eq_none] at hf
      exact absurd (hf (k, t) (List.mem_reverse.2 hm)) (by simp [h2])
    | some q =>
      have hq := List.mem_reverse.1 (List.mem_of_find?_eq_some hf)
      have hr := List.find?_some hf
      simp only [beq_iff_eq] at hr
      have : q.1 = k := by
        cases hs : get substitutions q.1 with
        | none => rw [reactName, hs] at hr; exact hr
        | some p =>
          rw [reactName, hs] at hr
          simp only [Option.getD_some] at hr
          subst hr
          exact absurd hk (unknown_values _ (get_mem hs))
      rw [ho q hq this]
      rfl
  obtain ⟨as, js, hs, ks, rfl, g1, _, g3⟩ := C67_attributes h
  refine ⟨h1, as, js, hs, ks, rfl, ?_, g3 k he⟩
  rw [g1 k ?_ he, hp]
  · rfl
  · simp only [transformed, List.mem_append, not_or]
    have hne : ∀ n ∈ ["key", "style", "value", "defaultValue", "multiple"], k ≠ n := h4
    refine ⟨⟨⟨?_, ?_⟩, ?_⟩, ?_⟩
    · simp [hne "key", hne "style"]
    · split <;> simp [hne "value", hne "defaultValue"]
    · split <;> simp [hne "multiple", hne "defaultValue"]
    · split <;> simp [hne "defaultValue"]

example : "ondblclick" ∈ standardHandlers ∧ ∃ as js hs ks, (V.elem "button" [("className", .str "wide"), ("ondblclick", .str "stop()"),
    ("onmouseover", .str "look()"), ("tabIndex", .str "1"), ("formAction", .str "/x")] [("onClick", "go()")] [] [.text "Go"]) =
      .elem "button" as js hs ks ∧ get as "ondblclick" = some (.str "stop()") ∧ get js "ondblclick" = none :=
  C123_handlers_violated (by decide +kernel) (by decide +kernel) (by decide +kernel) demoButton_read

/-- **C123 is violated** by `checked`: no attribute of HTML becomes that prop. -/
theorem C123_checked_violated : "checked" ∈ documented ∧ (∀ k : String, (∀ c ∈ k.toList, ¬ ('A' ≤ c ∧ c ≤ 'Z')) → reactName k ≠ "checked") ∧
    toVdom true (.mk "input" [("checked", "")] "" []) = .ok (.elem "input" [("defaultChecked", .str "")] [] [] []) := by
  refine ⟨by decide +kernel, fun k hk he => ?_, by rfl⟩
  have := (react_iff (n := "checked") (by decide +kernel) (fun c hc => by simpa [isUpper] using hk c hc)).1 he
  revert this
  simp [htmlNames]

end Verif.Markup
