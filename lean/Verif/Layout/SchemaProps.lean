import Verif.Layout.SchemaLemmas
import Verif.Layout.Props
/-! # C31: every emitted model satisfies the VDOM JSON schema -/
namespace Verif.Layout
variable {U : User}

/-- **C31** (partial: tag names, attributes and `inlineJavaScript` have their types by construction of the
model; `debounce`/`throttle` must not be negative and import sources must be as in the schema, for neither
is checked).  The model of every layout update satisfies `VDOM_JSON_SCHEMA`. -/
theorem C31_schema_partial (O : Opaque) (hU : ∀ id c seen raw, Returned U id c seen raw → raw.Conforms O)
    (w : U.World) (root : Comp) (ops : List (Op U)) (op : Op U) (u : Update)
    (hu : (stepOp (runSys (initSys U w root) ops).layout op).2 = .update u) :
    Valid vdomDefs vdomSchema (u.model.json O) := by
  have hs := step_cases (runSys (initSys U w root) ops).layout op
  rw [hu] at hs
  generalize (stepOp (runSys (initSys U w root) ops).layout op).1 = l' at hs
  cases hs with
  | tree hf hr => exact renderAt_valid hU hr
  | orphan _ hf hr => exact renderAt_valid hU hr

/-- An object that satisfies the schema and has an `error` has an empty tag name. -/
theorem C31_error_tag (l : List (String × Json)) (h : Valid vdomDefs vdomSchema (.obj l)) (e : Json) (t : String)
    (he : ("error", e) ∈ l) (ht : ("tagName", .str t) ∈ l) : t = "" := by
  obtain ⟨⟩ := h
  rename_i s hs h
  cases hs
  obtain ⟨⟩ := h
  rename_i h
  have h1 := h (.dependent "error" (.properties [("tagName", .maxLength 0)])) (by simp)
  obtain ⟨⟩ := h1
  rename_i h1
  have h2 := h1 l e rfl he
  obtain ⟨⟩ := h2
  rename_i h2
  have h3 := h2 l rfl ("tagName", .maxLength 0) (by simp) (.str t) ht
  obtain ⟨⟩ := h3
  rename_i h3
  have := h3 t rfl
  simpa using this

/-- `exApp` conforms, and renders with an update that has event handlers and children. -/
example (O : Opaque) : (∀ id c seen raw, Returned exApp id c seen raw → raw.Conforms O) ∧
    ∃ u, (stepOp (initSys exApp (5 : Nat) { type := .fn 0 }).layout (.render 20 0)).2 = .update u := by
  constructor
  · intro id c seen raw h
    unfold Returned at h
    split at h
    · obtain ⟨w, h⟩ := h
      simp only [exApp] at h
      split at h <;> (simp at h; subst h; simp [Raw.Conforms, conformsL])
    · subst h; simp [Raw.Conforms, conformsL, exApp]
  · exact ⟨_, rfl⟩

theorem valid_ref {n : String} {s : Schema} {j : Json} (hn : vdomDefs n = some s) (h : Valid vdomDefs (.ref n) j) :
    Valid vdomDefs s j := by
  obtain ⟨⟩ := h
  rename_i t h1 h2
  rw [hn] at h1; cases h1; exact h2

theorem valid_all {l : List Schema} {j : Json} (h : Valid vdomDefs (.all l) j) {s : Schema} (hs : s ∈ l) : Valid vdomDefs s j := by
  obtain ⟨⟩ := h
  rename_i h; exact h s hs

theorem valid_prop {ps : List (String × Schema)} {l : List (String × Json)} (h : Valid vdomDefs (.properties ps) (.obj l))
    {k : String} {s : Schema} {v : Json} (hp : (k, s) ∈ ps) (hv : (k, v) ∈ l) : Valid vdomDefs s v := by
  obtain ⟨⟩ := h
  rename_i h; exact h l rfl (k, s) hp v hv

theorem valid_items {s : Schema} {l : List Json} (h : Valid vdomDefs (.items s) (.arr l)) {v : Json} (hv : v ∈ l) : Valid vdomDefs s v := by
  obtain ⟨⟩ := h
  rename_i h; exact h l rfl v hv

theorem valid_every {s : Schema} {l : List (String × Json)} (h : Valid vdomDefs (.every s) (.obj l)) {p : String × Json} (hv : p ∈ l) :
    Valid vdomDefs s p.2 := by
  obtain ⟨⟩ := h
  rename_i h; exact h l rfl p hv

/-- The `ImportSourceDict` that `make_module` gives to a constructor (reactjs/module.py 172–177), as JSON. -/
def importSourceJson (source sourceType : String) (fallback : Json) (unmountBeforeUpdate : Bool) : Json :=
  .obj [("source", .str source), ("fallback", fallback), ("sourceType", .str sourceType), ("unmountBeforeUpdate", .bool unmountBeforeUpdate)]

/-- **C31**: the import source of a component from a JavaScript module is as in the schema exactly if its type is one of the two that there
are and its fallback is nothing, a text, or an element as in the schema. -/
theorem C31_import_source (source sourceType : String) (fallback : Json) (ubu : Bool) :
    Valid vdomDefs (.ref "importSource") (importSourceJson source sourceType fallback ubu) ↔
      (sourceType = "URL" ∨ sourceType = "NAME") ∧
      (fallback = .null ∨ (∃ s, fallback = .str s) ∨ ∃ l, fallback = .obj l ∧ Valid vdomDefs (.ref "element") fallback) := by
  constructor
  · intro h
    have hp := valid_all (valid_ref rfl h) (s := .properties _) (List.mem_cons_of_mem _ (List.mem_cons_self ..))
    have h1 := valid_prop hp (k := "sourceType") (s := .enum ["URL", "NAME"]) (v := .str sourceType) (by simp) (by simp)
    have h2 := valid_prop hp (k := "fallback") (s := .all [.type [.object, .string, .null], .ifType [.null] true (.ref "elementOrString")])
      (v := fallback) (by simp) (by simp)
    refine ⟨?_, ?_⟩
    · obtain ⟨⟩ := h1
      rename_i h1; simpa using h1
    · have h3 := valid_all h2 (s := .type _) (by simp; rfl)
      have h4 := valid_all h2 (s := .ifType [.null] true (.ref "elementOrString")) (by simp)
      cases fallback with
      | null => exact .inl rfl
      | str s => exact .inr (.inl ⟨s, rfl⟩)
      | obj l =>
        refine .inr (.inr ⟨l, rfl, ?_⟩)
        obtain ⟨⟩ := h4
        rename_i h4
        have h5 := valid_all (valid_ref rfl (h4 rfl)) (s := .ifType [.object] false (.ref "element")) (by simp)
        obtain ⟨⟩ := h5
        rename_i h5
        exact h5 rfl
      | _ => obtain ⟨⟩ := h3; rename_i h3; simp [Json.type] at h3
  · rintro ⟨h1, h2⟩
    refine .ref rfl (.all fun s hs => ?_)
    simp only [List.mem_cons, List.not_mem_nil, or_false] at hs
    rcases hs with rfl | rfl | rfl
    · exact .type (by simp [importSourceJson, Json.type])
    · refine .properties fun l hl p hp v hv => ?_
      cases hl
      simp only [List.mem_cons, List.not_mem_nil, or_false] at hp
      rcases hp with rfl | rfl | rfl | rfl
      · simp at hv; subst hv; exact .type (by simp [Json.type])
      · simp at hv; subst hv; exact .enum (by simpa using h1)
      · simp at hv; subst hv
        refine .all fun s hs => ?_
        simp only [List.mem_cons, List.not_mem_nil, or_false] at hs
        rcases hs with rfl | rfl
        · rcases h2 with rfl | ⟨s, rfl⟩ | ⟨l, rfl, _⟩ <;> exact .type (by simp [Json.type])
        · refine .ifType fun hn => ?_
          rcases h2 with rfl | ⟨s, rfl⟩ | ⟨l, rfl, h⟩
          · simp [Json.type] at hn
          · exact orString_text s
          · exact orString_obj h
      · simp at hv; subst hv; exact .type (by simp [Json.type])
    · exact .required fun l hl k hk => by cases hl; simp at hk; subst hk; exact ⟨.str source, by simp⟩

/-- A module without a fallback, and one whose fallback is an element that has a child. -/
example : Valid vdomDefs (.ref "importSource") (importSourceJson "https://x.org/a.js" "URL" .null false) ∧
    Valid vdomDefs (.ref "importSource") (importSourceJson "a" "NAME" (.obj [("tagName", .str "p"), ("children", .arr [.str "…"])]) true) := by
  refine ⟨(C31_import_source ..).2 ⟨.inl rfl, .inl rfl⟩, (C31_import_source ..).2 ⟨.inr rfl, .inr (.inr ⟨_, rfl, ?_⟩)⟩⟩
  refine .ref rfl (.all fun s hs => ?_)
  simp only [List.mem_cons, List.not_mem_nil, or_false] at hs
  rcases hs with rfl | rfl | rfl | rfl
  · exact .type (by simp [Json.type])
  · refine .properties fun l hl p hp v hv => ?_
    cases hl
    simp only [List.mem_cons, List.not_mem_nil, or_false] at hp
    rcases hp with rfl | rfl | rfl | rfl | rfl | rfl | rfl <;> simp at hv
    · subst hv; exact .type (by simp [Json.type])
    · subst hv
      refine .ref rfl (.all fun s hs => ?_)
      simp only [List.mem_cons, List.not_mem_nil, or_false] at hs
      rcases hs with rfl | rfl
      · exact .type (by simp [Json.type])
      · exact .items fun l hl v hv => by cases hl; simp at hv; subst hv; exact orString_text _
  · exact .required fun l hl k hk => by cases hl; simp at hk; subst hk; exact ⟨.str "p", by simp⟩
  · exact .dependent fun l v hl hv => by cases hl; simp at hv

/-- A component whose element has an event handler with a negative debounce time. -/
def negApp : User where
  World := Unit
  render w _ _ _ := (w, .ok (.elem { tag := some "input", handlers := [("onChange", { fn := 0, debounce := some (-5) })] } []))
  unmount w _ := w
  didRender w _ := w
  provValue n := n
  provChildren _ := []

/-- **C31 is violated** by a negative `debounce`: the event handler accepts it, and the update contains it. -/
theorem C31_schema_violated : ∃ (U : User) (w : U.World) (root : Comp) (op : Op U) (u : Update),
    (stepOp (initSys U w root).layout op).2 = .update u ∧ ∀ O, ¬ Valid vdomDefs vdomSchema (u.model.json O) := by
  refine ⟨negApp, (), { type := .fn 0 }, .render 20 0, _, rfl, fun O h => ?_⟩
  have h : Valid vdomDefs (.ref "element") (.obj [("tagName", .str ""), ("children", .arr [.obj [("tagName", .str "input"),
      ("eventHandlers", .obj [("onChange", HEntry.json ⟨"onChange", "/0:onChange", false, false, some (-5), none⟩)])]])]) := h
  have h1 := valid_prop (valid_all (valid_ref rfl h) (List.mem_cons_of_mem _ (List.mem_cons_self ..)))
    (k := "children") (s := .ref "elementChildren") (by simp) (by simp; rfl)
  have h2 := valid_items (valid_all (valid_ref rfl h1) (s := .items (.ref "elementOrString")) (by simp)) (List.mem_cons_self ..)
  have h3 := valid_all (valid_ref rfl h2) (s := .ifType [.object] false (.ref "element")) (by simp)
  obtain ⟨⟩ := h3
  rename_i h3
  have h4 := valid_prop (valid_all (valid_ref rfl (h3 rfl)) (List.mem_cons_of_mem _ (List.mem_cons_self ..)))
    (k := "eventHandlers") (s := .ref "elementEventHandlers") (by simp) (by simp; rfl)
  have h5 := valid_every (valid_all (valid_ref rfl h4) (s := .every (.ref "eventHandler")) (by simp)) (List.mem_cons_self ..)
  have h6 := valid_prop (valid_all (valid_ref rfl h5) (List.mem_cons_of_mem _ (List.mem_cons_self ..)))
    (k := "debounce") (s := .all [.type [.integer], .minimum 0]) (v := .int (-5)) (by simp) (by simp)
  have h7 := valid_all h6 (s := .minimum 0) (by simp)
  obtain ⟨⟩ := h7
  rename_i h7
  have := h7 (-5) rfl
  omega

end Verif.Layout
