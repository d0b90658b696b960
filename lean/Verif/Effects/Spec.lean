import Verif.Effects.Model
/-! # Specification: histories of effects

Plain predicates on the list of observable events, newest first. -/
namespace Verif.Effects

namespace Sync

/-- A proper history of one effect, newest event first: each generation's function runs at most once,
and only when the clean-ups of all generations before it have been called; each clean-up is called at
most once, and only if the function returned it. -/
def Proper : List Ev → Prop
  | [] => True
  | .body g _ :: l => (∀ b, .body g b ∉ l) ∧ (∀ g', .body g' true ∈ l → .clean g' ∈ l) ∧ Proper l
  | .clean g :: l => .body g true ∈ l ∧ .clean g ∉ l ∧ Proper l

end Sync

namespace Async

/-- What holds of every history (newest first), however the tasks interleave: a coroutine begins at
most once and ends at most once, a clean-up is called at most once, and only after the coroutine
returned it. -/
def Sound : List Ev → Prop
  | [] => True
  | .began g :: l => .began g ∉ l ∧ Sound l
  | .ended g _ :: l => .began g ∈ l ∧ (∀ o, .ended g o ∉ l) ∧ Sound l
  | .clean g :: l => .ended g (.returned true) ∈ l ∧ .clean g ∉ l ∧ Sound l

/-- A proper history: in addition, a coroutine begins only when all earlier ones have ended and their
clean-ups have been called. -/
def Proper : List Ev → Prop
  | [] => True
  | .began g :: l => .began g ∉ l ∧ (∀ h, .began h ∈ l → ∃ o, .ended h o ∈ l) ∧
      (∀ h, .ended h (.returned true) ∈ l → .clean h ∈ l) ∧ Proper l
  | .ended g _ :: l => .began g ∈ l ∧ (∀ o, .ended g o ∉ l) ∧ Proper l
  | .clean g :: l => .ended g (.returned true) ∈ l ∧ .clean g ∉ l ∧ Proper l

end Async
end Verif.Effects
