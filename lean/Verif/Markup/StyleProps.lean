import Verif.Markup.Names
/-! # Styles written in a component survive being shown and read: property C39 -/
namespace Verif.Markup

theorem upper_lower {c : Char} (h : isUpper c = true) : c.toLower.toUpper = c ∧ c.toLower ≠ '-' := by
  have key : ∀ n : Fin 26, (Char.ofNat (65 + n)).toLower.toUpper = Char.ofNat (65 + n) ∧ (Char.ofNat (65 + n)).toLower ≠ '-' := by decide
  simp only [isUpper, Bool.and_eq_true, decide_eq_true_eq] at h
  have h1 : 65 ≤ c.toNat := h.1
  have h2 : c.toNat ≤ 90 := h.2
  have := key ⟨c.toNat - 65, by omega⟩
  simp only [show 65 + (c.toNat - 65) = c.toNat by omega, Char.ofNat_toNat] at this
  exact this

theorem toUpper_dash {c : Char} (h : c.toUpper = '-') : c = '-' := by
  by_cases hl : isLetter c = true
  · have hu := (letter_upper hl).1
    rw [h] at hu
    exact absurd hu (by decide)
  · rw [toUpper_of_not_letter (by simpa using hl)] at h
    exact h

theorem toLower_dash {c : Char} (h : c.toLower = '-') : c = '-' := by
  by_cases hu : isUpper c = true
  · exact absurd h (upper_lower hu).2
  · rw [toLower_of_not_upper (by simpa using hu)] at h
    exact h

theorem lower_lower (cs : List Char) : lower (lower cs) = lower cs :=
  lower_id (fun c hc => by
    have := lower_not_upper cs
    rw [List.any_eq_false] at this
    simpa using this c hc)

theorem expand_back {cs : List Char} (h : '-' ∉ cs) :
    ∃ q qs, splitOn '-' (expand cs) = q :: qs ∧ lower q = q ∧ q ++ (qs.map capitalize).flatten = cs := by
  induction cs with
  | nil => exact ⟨[], [], rfl, rfl, rfl⟩
  | cons d cs ih =>
    obtain ⟨q, qs, h1, h2, h3⟩ := ih (fun hc => h (by simp [hc]))
    have hd : d ≠ '-' := fun e => h (by simp [e])
    by_cases hu : isUpper d = true
    · have he : expand (d :: cs) = '-' :: d.toLower :: expand cs := by
        rw [show d :: cs = [d] ++ cs from rfl, expand_append]
        simp [expand, lower, hu]
      refine ⟨[], (d.toLower :: q) :: qs, ?_, rfl, ?_⟩
      · rw [he, splitOn, if_pos rfl, splitOn, if_neg (upper_lower hu).2, h1]
      · simp only [List.nil_append, List.map_cons, List.flatten_cons, capitalize, (upper_lower hu).1, List.cons_append, h2, h3]
    · have hu' : isUpper d = false := by simpa using hu
      have he : expand (d :: cs) = d :: expand cs := by
        rw [show d :: cs = [d] ++ cs from rfl, expand_append]
        simp [expand, lower, hu', toLower_of_not_upper hu']
      refine ⟨d :: q, qs, ?_, ?_, ?_⟩
      · rw [he, splitOn, if_neg hd, h1]
      · rw [lower, List.map_cons, toLower_of_not_upper hu']
        exact congrArg _ h2
      · rw [List.cons_append, h3]

theorem camel_no_dash (k : List Char) : '-' ∉ kebabToCamel k := by
  unfold kebabToCamel
  have hs := splitOn_no_sep '-' k
  split
  · simp
  · rename_i p ps e
    rw [e] at hs
    simp only [List.mem_append, List.mem_flatten, List.mem_map, not_or]
    refine ⟨hs p (by simp), ?_⟩
    rintro ⟨l, ⟨q, hq, rfl⟩, hm⟩
    have := hs q (by simp [hq])
    cases q with
    | nil => simp [capitalize] at hm
    | cons c cs =>
      simp only [capitalize, List.mem_cons, lower, List.mem_map] at hm
      rcases hm with hm | ⟨c', hc', hm⟩
      · exact this (by simp [toUpper_dash hm.symm])
      · exact this (by simp [toLower_dash hm ▸ hc'])

/-- **C39.**  The names of styles in a component that are the same again after they were written to HTML and read are exactly those
in camel case: without a dash, and not beginning with a capital. -/
theorem C39_camel_exact (n : List Char) :
    kebabToCamel (styleToHtml n) = n ↔ '-' ∉ n ∧ ∀ c, n.head? = some c → ¬ ('A' ≤ c ∧ c ≤ 'Z') := by
  constructor
  · intro h
    refine ⟨h ▸ camel_no_dash _, ?_⟩
    cases n with
    | nil => simp
    | cons c cs =>
      intro d hd hu
      simp only [List.head?_cons, Option.some.injEq] at hd
      subst hd
      have hup : isUpper c = true := by simp [isUpper, hu]
      have hs : styleToHtml (c :: cs) = c.toLower :: expand cs := rfl
      rw [hs, kebabToCamel, splitOn, if_neg (upper_lower hup).2] at h
      have hl := toLower_not_upper c
      cases hsp : splitOn '-' (expand cs) with
      | nil => exact splitOn_ne_nil _ _ hsp
      | cons q qs =>
        rw [hsp] at h
        simp only [List.cons_append, List.cons.injEq] at h
        rw [h.1, hup] at hl
        cases hl
  · rintro ⟨hd, hh⟩
    cases n with
    | nil => rfl
    | cons c cs =>
      have hu : isUpper c = false := by simpa [isUpper] using hh c rfl
      obtain ⟨q, qs, h1, h2, h3⟩ := expand_back (fun hc => hd (List.mem_cons_of_mem c hc))
      have hs : styleToHtml (c :: cs) = c :: expand cs := by
        show c.toLower :: expand cs = _
        rw [toLower_of_not_upper hu]
      rw [hs, kebabToCamel, splitOn, if_neg (fun e => hd (by simp [e])), h1]
      simp only [List.cons_append, h3]

example : '-' ∉ "gridTemplateRows".toList ∧ ∀ c, "gridTemplateRows".toList.head? = some c → ¬ ('A' ≤ c ∧ c ≤ 'Z') := by
  refine ⟨by decide +kernel, fun c hc => ?_⟩
  have : c = 'g' := by simpa using hc.symm
  subst this
  decide

/-- **C39 is violated** by the names React has for styles with a vendor's prefix: they come back without the capital. -/
theorem C39_vendor_camel_violated : kebabToCamel (styleToHtml "WebkitTransition".toList) = "webkitTransition".toList := by decide +kernel

end Verif.Markup
