import Verif.Markup.Props
/-! # What reading HTML and writing it again loses: property C57 -/
namespace Verif.Markup

/-- **C57 is violated** by `multiple`, whose text does not come back: `<select multiple="">…</select>` becomes
`<select multiple="True">…</select>`. -/
theorem C57_multiple_violated :
    (toVdom true (.mk "select" [("multiple", "")] "" [(.mk "option" [("value", "a")] "A" [], "")]) >>= toString demo) =
      .ok "<select multiple=\"True\"><option value=\"a\">A</option></select>".toList := by
  have : toVdom true (.mk "select" [("multiple", "")] "" [(.mk "option" [("value", "a")] "A" [], "")]) =
      .ok (.elem "select" [("multiple", .true)] [] [] [.elem "option" [("value", .str "a")] [] [] [.text "A"]]) := by rfl
  rw [this]
  exact of_okIs (by decide +kernel)

/-- **C57 is violated** by event handlers: inline JavaScript is not written, whatever the element, so that
`<p onclick="go()"></p>` becomes `<p></p>`. -/
theorem C57_handlers_violated :
    (∀ (e : El) (tag : String) (attrs : List (String × AVal)) (js : List (String × String)) (hs : List String) (kids : List V),
      addChild e (.elem tag attrs js hs kids) = addChild e (.elem tag attrs [] [] kids)) ∧
    (toVdom true (.mk "p" [("onclick", "go()")] "" []) >>= toString demo) = .ok "<p></p>".toList := by
  refine ⟨fun e tag attrs js hs kids => by simp only [addChild], ?_⟩
  have : toVdom true (.mk "p" [("onclick", "go()")] "" []) = .ok (.elem "p" [] [("onClick", "go()")] [] []) := by rfl
  rw [this]
  exact of_okIs (by decide +kernel)

end Verif.Markup
