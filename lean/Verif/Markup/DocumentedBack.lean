import Verif.Markup.DocumentedTables
import Verif.Markup.Props
/-! # Documented attributes survive being written to HTML and read again: property C57 -/
namespace Verif.Markup

/-- The name under which an attribute is written. -/
def writtenName (n : String) : String :=
  if n = "style" then n
  else if n ∈ dashedHtmlAttrs then String.ofList (lower (dashCapitals n.toList))
  else if n.startsWith "data-" || n.startsWith "aria-" then n
  else String.ofList (lower n.toList)

theorem written_react : ∀ n ∈ documented ++ alsoKnown, n ≠ "checked" → writtenName n ∈ htmlNames n := by decide +kernel

theorem attrToHtml_written {n k s : String} {v : AVal} (h : attrToHtml n v = .ok (k, s)) :
    k = writtenName n ∧ ∀ t, v = .str t → s = t := by
  unfold attrToHtml at h
  split at h
  · cases h
  · unfold writtenName
    split at h
    · rename_i hs
      rw [if_pos hs]
      split at h
      · cases h
        exact ⟨rfl, fun t e => by cases e⟩
      · cases h
        exact ⟨rfl, fun t e => by subst e; rfl⟩
    · rename_i hs
      rw [if_neg hs]
      split at h
      · rename_i hd
        rw [if_pos hd]
        cases h
        exact ⟨rfl, fun t e => by subst e; rfl⟩
      · rename_i hd
        rw [if_neg hd]
        split at h
        · rename_i hp
          rw [if_pos hp]
          cases h
          exact ⟨rfl, fun t e => by subst e; rfl⟩
        · rename_i hp
          rw [if_neg hp]
          cases h
          exact ⟨rfl, fun t e => by subst e; rfl⟩

theorem mapM_written : ∀ {attrs : List (String × AVal)} {ps : List (String × String)},
    attrs.mapM (fun p => attrToHtml p.1 p.2) = .ok ps →
    (∀ p ∈ attrs, p.1 ∈ documented ++ alsoKnown ∧ p.1 ≠ "checked") →
    ps.map (fun p => reactName p.1) = attrs.map (·.1) ∧ (∀ n t, (n, .str t) ∈ attrs → (n, t) ∈ ps.map (fun p => (reactName p.1, p.2)))
  | [], ps, h, _ => by
    simp only [List.mapM_nil] at h
    cases h
    simp
  | p :: attrs, ps, h, hd => by
    rw [List.mapM_cons] at h
    cases h1 : attrToHtml p.1 p.2 with
    | error e => rw [h1] at h; cases h
    | ok r =>
      rw [h1] at h
      cases h2 : attrs.mapM (fun p => attrToHtml p.1 p.2) with
      | error e => rw [h2] at h; cases h
      | ok rs =>
        rw [h2] at h
        cases h
        obtain ⟨ih1, ih2⟩ := mapM_written h2 (fun q hq => hd q (by simp [hq]))
        obtain ⟨hk, ht⟩ := attrToHtml_written (k := r.1) (s := r.2) h1
        have hp := hd p (by simp)
        have hr : reactName r.1 = p.1 := htmlNames_react p.1 hp.1 r.1 (hk ▸ written_react p.1 hp.1 hp.2)
        refine ⟨by simp [hr, ih1], fun n t hm => ?_⟩
        rcases List.mem_cons.1 hm with hm | hm
        · have := ht t (by rw [← hm])
          rw [List.map_cons, hr, this, ← hm]
          simp
        · exact List.mem_cons_of_mem _ (ih2 n t hm)

/-- **C57.**  Documented attributes of a component survive being written to HTML and read again: they have the same names, in the
same order, and those that are text the same text.  `checked` is the exception. -/
theorem C57_documented_partial (attrs : List (String × AVal)) (html : List (String × String))
    (hd : ∀ p ∈ attrs, p.1 ∈ documented ++ alsoKnown ∧ p.1 ≠ "checked") (hn : (attrs.map (·.1)).Nodup) (h : attrsToHtml attrs = .ok html) :
    (attributesToReact html).map (·.1) = attrs.map (·.1) ∧ ∀ n t, (n, .str t) ∈ attrs → (n, t) ∈ attributesToReact html := by
  unfold attrsToHtml at h
  cases h1 : attrs.mapM (fun p => attrToHtml p.1 p.2) with
  | error e => rw [h1] at h; cases h
  | ok ps =>
    rw [h1] at h
    simp only [Except.map, Except.ok.injEq] at h
    obtain ⟨h2, h3⟩ := mapM_written h1 hd
    have hnp : (ps.map (·.1)).Nodup := by
      have : ((ps.map (·.1)).map reactName).Nodup := by rw [List.map_map]; exact h2 ▸ hn
      exact (List.pairwise_map.1 this).imp (fun h e => h (congrArg _ e))
    rw [ofPairs_nodup hnp] at h
    subst h
    have hnr : ((ps.map (fun p => (reactName p.1, p.2))).map (·.1)).Nodup := by
      rw [List.map_map]
      exact h2 ▸ hn
    unfold attributesToReact
    rw [ofPairs_nodup hnr]
    exact ⟨by rw [List.map_map]; exact h2, h3⟩

example : (attributesToReact [("classname", "a"), ("tabindex", "1"), ("accept-charset", "x")]).map (·.1) =
    [("className", AVal.str "a"), ("tabIndex", .other "1"), ("acceptCharset", .str "x")].map (·.1) ∧ ∀ n t, (n, AVal.str t) ∈
      [("className", AVal.str "a"), ("tabIndex", .other "1"), ("acceptCharset", .str "x")] →
        (n, t) ∈ attributesToReact [("classname", "a"), ("tabindex", "1"), ("accept-charset", "x")] :=
  C57_documented_partial _ _ (by decide +kernel) (by decide) (of_okIs (by decide +kernel))

/-- **C57 is violated** by `checked`: read again, it is the initial state only. -/
theorem C57_checked_violated : ∃ html, attrsToHtml [("checked", .true)] = .ok html ∧ attributesToReact html = [("defaultChecked", "True")] :=
  ⟨[("checked", "True")], of_okIs (by decide +kernel), by decide +kernel⟩

end Verif.Markup
