import Verif.Markup.Documented
import Verif.Markup.Names
/-! # The table of props against the documented attributes -/
namespace Verif.Markup

theorem htmlNames_react : ∀ n ∈ documented ++ alsoKnown, ∀ k ∈ htmlNames n, reactName k = n := by decide +kernel

/-- The entries of the table are the names in HTML; `checked` is covered by the entry written out for it. -/
theorem substitutions_html : ∀ q ∈ substitutions, q.2 ≠ "checked" → q.1 ∈ htmlNames q.2 := by decide +kernel

theorem checked_react : get substitutions "checked" = some "defaultChecked" := by decide +kernel

theorem documented_own : ∀ n ∈ documented ++ alsoKnown, n ≠ "checked" → n.toList.any isUpper = false →
    htmlNames n = [String.ofList (n.toList.map Char.toLower)] := by decide +kernel

theorem table_events : ∀ q ∈ substitutions, isEventName q.2 = true → q.2 ∈ documented := by decide +kernel

theorem checked_only : ∀ q ∈ substitutions, q.2 = "checked" → q.1 = "checked" := by decide +kernel

theorem standard_facts : ∀ k ∈ standardHandlers, k ∈ unknownHandlers ∨ (isEventName (reactName k) = true ∧ reactName k ∈ documented ∧
    k ∈ htmlNames (reactName k)) := by decide +kernel

theorem unknown_facts : ∀ k ∈ unknownHandlers, k ∈ standardHandlers ∧ reactName k = k ∧ isEventName k = false ∧
    ∀ n ∈ ["key", "style", "value", "defaultValue", "multiple"], k ≠ n := by decide +kernel

theorem unknown_values : ∀ q ∈ substitutions, q.2 ∉ unknownHandlers := by decide +kernel

end Verif.Markup
