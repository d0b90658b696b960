import Verif.Client.Root
/-! # C11: root updates -/
namespace Verif.Client.Root
variable {J : Type}

theorem get_append (m m' : Model J) (k : String) : get (m ++ m') k = (get m k).or (get m' k) := by
  simp only [get, List.find?_append]
  cases m.find? (fun p => p.1 == k) <;> simp

theorem get_cons (p : String × J) (m : Model J) (k : String) : get (p :: m) k = if p.1 = k then some p.2 else get m k := by
  simp only [get, List.find?_cons]
  by_cases h : p.1 = k
  · simp [h]
  · simp [h, beq_eq_false_iff_ne.2 h]

theorem get_none {m : Model J} {k : String} (h : m.any (fun p => p.1 == k) = false) : get m k = none := by
  simp only [get, Option.map_eq_none_iff, List.find?_eq_none]
  intro p hp hk
  have := List.any_eq_false.1 h p hp
  exact this hk

theorem get_isSome (m : Model J) (k : String) : (get m k).isSome = m.any (fun p => p.1 == k) := by
  induction m with
  | nil => rfl
  | cons p m ih =>
    rw [get_cons]
    by_cases h : p.1 = k
    · simp [h]
    · simp [h, ih, beq_eq_false_iff_ne.2 h]

theorem get_set (m : Model J) (k : String) (v : J) (k' : String) : get (set m k v) k' = if k = k' then some v else get m k' := by
  unfold set
  by_cases h : m.any (fun p => p.1 == k) = true
  · rw [if_pos h]
    induction m with
    | nil => simp at h
    | cons p m ih =>
      simp only [List.map_cons, get_cons]
      by_cases hp : p.1 = k
      · simp only [hp, beq_self_eq_true, if_true]
        by_cases hk : k = k'
        · simp [hk]
        · simp only [hk, if_false]
          by_cases hm : m.any (fun p => p.1 == k) = true
          · rw [ih hm, if_neg hk]
          · have : m.map (fun p => if p.1 == k then (k, v) else p) = m := by
              conv => rhs; rw [← List.map_id m]
              apply List.map_congr_left
              intro q hq
              have := List.any_eq_false.1 ((Bool.not_eq_true _).mp hm) q hq
              simp at this
              simp [this]
            rw [this]
      · have hm : m.any (fun p => p.1 == k) = true := by
          simpa [beq_eq_false_iff_ne.2 hp] using h
        simp only [beq_eq_false_iff_ne.2 hp, Bool.false_eq_true, if_false]
        rw [ih hm]
        by_cases hk : k = k'
        · subst hk; simp [hp]
        · simp [hk]
  · rw [if_neg h, get_append, get_cons]
    have := get_none ((Bool.not_eq_true _).mp h)
    by_cases hk : k = k'
    · subst hk; simp [this]
    · simp only [hk, if_false]
      cases get m k' <;> simp [get]

/-- An update has one entry for each key. -/
def Keyed (m : Model J) : Prop := (m.map (·.1)).Nodup

theorem get_foldl (u : Model J) (hu : Keyed u) : ∀ (m : Model J) (k : String),
    get (u.foldl (fun m p => set m p.1 p.2) m) k = (get u k).or (get m k) := by
  induction u with
  | nil => intro m k; simp [get]
  | cons p u ih =>
    intro m k
    simp only [Keyed, List.map_cons, List.nodup_cons] at hu
    rw [List.foldl_cons, ih hu.2, get_cons, get_set]
    by_cases hk : p.1 = k
    · subst hk
      have : get u p.1 = none := get_none (by
        rw [List.any_eq_false]
        intro q hq hqe
        exact hu.1 (List.mem_map.2 ⟨q, hq, by simpa using hqe⟩))
      simp [this]
    · simp [hk]

/-- C11 for the PyScript client: after a root update every key has the value received, and no other key remains. -/
theorem C11_pyscript_exact (current u : Model J) (hu : Keyed u) (k : String) : get (pyRoot current u) k = get u k := by
  rw [pyRoot, get_foldl u hu]
  cases get u k <;> simp [get]

/-- C11 for the JavaScript client (partial): every key received is set; a key not received keeps its value.  So the
model becomes the one received exactly when no key of the old model is missing from the new one. -/
theorem C11_js_partial (current u : Model J) (hu : Keyed u) :
    (∀ k, get (jsRoot current u) k = (get u k).or (get current k)) ∧
    ((∀ k, get (jsRoot current u) k = get u k) ↔ ∀ k, (get current k).isSome → (get u k).isSome) := by
  have h := get_foldl u hu current
  refine ⟨h, ?_, ?_⟩
  · intro he k hk
    have h1 := h k
    have h1 : get u k = _ := (he k).symm.trans h1
    cases hg : get u k with
    | some v => rfl
    | none =>
      rw [hg] at h1
      simp at h1
      rw [← h1] at hk
      simp at hk
  · intro he k
    show get (jsRoot current u) k = _
    rw [jsRoot, h k]
    cases hg : get u k with
    | some v => rfl
    | none =>
      cases hc : get current k with
      | none => rfl
      | some w =>
        have := he k (by rw [hc]; rfl)
        rw [hg] at this; cases this

example : Keyed [("tagName", "div"), ("children", "x")] := by unfold Keyed; decide
example : jsRoot [("tagName", "p")] [("tagName", "div"), ("children", "x")] = [("tagName", "div"), ("children", "x")] := by decide +kernel

/-- C11, what the JavaScript client has instead: under each key the last value received for it; before any update an element whose tag is the empty string. -/
theorem C11_newest (empty : J) (us : List (Model J)) (hus : ∀ u ∈ us, Keyed u) (k : String) :
    get (jsAll empty us) k = (us.reverse.findSome? (fun u => get u k)).or (if k = "tagName" then some empty else none) := by
  have gen : ∀ (us : List (Model J)) (m : Model J), (∀ u ∈ us, Keyed u) →
      get (us.foldl jsRoot m) k = (us.reverse.findSome? (fun u => get u k)).or (get m k) := by
    intro us
    induction us with
    | nil => intro m _; rfl
    | cons u us ih =>
      intro m h
      rw [List.foldl_cons, ih _ (fun v hv => h v (by simp [hv])), List.reverse_cons, List.findSome?_append, jsRoot, get_foldl u (h u (by simp))]
      cases us.reverse.findSome? (fun u => get u k) <;> simp
  rw [jsAll, gen us _ hus]
  have : get (initial empty) k = if k = "tagName" then some empty else none := by
    rw [initial, get_cons]
    by_cases h : k = "tagName"
    · subst h; simp
    · simp [h, Ne.symm h, get]
  rw [this]

example : get (jsAll "" [[("tagName", "div"), ("children", "x")], [("tagName", "p")]]) "children" = some "x" ∧
    get (jsAll "" [] : Model String) "tagName" = some "" := by decide +kernel

/-- C11 fails: once the root has rendered with an error, no later root update without an error removes it: the
JavaScript client shows the error for ever. -/
theorem C11_error_violated (current : Model J) (e : J) (he : get current "error" = some e) (us : List (Model J))
    (hus : ∀ u ∈ us, Keyed u ∧ get u "error" = none) :
    shown (us.foldl jsRoot current) = .error e ∧ ∀ u ∈ us, shown u = .element := by
  refine ⟨?_, fun u hu => by simp [shown, (hus u hu).2]⟩
  have : get (us.foldl jsRoot current) "error" = some e := by
    induction us generalizing current with
    | nil => exact he
    | cons u us ih =>
      refine ih (jsRoot current u) ?_ (fun v hv => hus v (by simp [hv]))
      rw [jsRoot, get_foldl u (hus u (by simp)).1, (hus u (by simp)).2, he]; rfl
  simp [shown, this]

/-- Such a history: the root component raises once, then renders. -/
theorem C11_violated : ∃ us : List (Model String), (∀ u ∈ us, Keyed u) ∧
    us.getLast? = some [("tagName", ""), ("children", "[ok]")] ∧ shown (jsAll "" us) = .error "boom" :=
  ⟨[[("tagName", ""), ("error", "boom")], [("tagName", ""), ("children", "[ok]")]],
    by unfold Keyed; decide, by decide +kernel, by decide +kernel⟩

/-! ### A case that meets the hypotheses -/

example := C11_pyscript_exact [("tagName", "p")] [("tagName", "div"), ("children", "x")] (by unfold Keyed; decide) "children"

end Verif.Client.Root
