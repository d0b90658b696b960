import Verif.Hooks.Model
/-!
# Specification vocabulary for the hook properties

Only the observable history (`Ev`, newest first) and lists of dependencies are mentioned here.
-/
namespace Verif.Hooks
variable {V : Type}

/-- The latest value stored in an object according to the log (newest first). -/
def latest (r : Nat) : List (Ev V) → Option V
  | [] => none
  | .wrote r' v :: l => if r' = r ∧ (latest r l).isSome then some v else latest r l
  | .made _ _ r' v :: l => if r' = r then some v else latest r l
  | .got _ _ _ :: l => latest r l
  | .raised _ _ :: l => latest r l
  | .did _ :: l => latest r l

/-- The number of hook calls instance `i` got an answer to in its current render, that is since its last
finished render. -/
def position (i : Nat) : List (Ev V) → Nat
  | [] => 0
  | .did j :: l => if j = i then 0 else position i l
  | .got j _ _ :: l => if j = i then position i l + 1 else position i l
  | .made _ _ _ _ :: l => position i l
  | .raised _ _ :: l => position i l
  | .wrote _ _ :: l => position i l

/-- The number of objects made for instance `i`. -/
def madeFor (i : Nat) : List (Ev V) → Nat
  | [] => 0
  | .made j _ _ _ :: l => if j = i then madeFor i l + 1 else madeFor i l
  | .did _ :: l => madeFor i l
  | .got _ _ _ :: l => madeFor i l
  | .raised _ _ :: l => madeFor i l
  | .wrote _ _ :: l => madeFor i l

/-- Two sequences of dependencies are equal: as long, and equal one by one. -/
def EqualDeps {D : Type} (eq : D → D → Bool) : List D → List D → Prop
  | [], [] => True
  | a :: as, b :: bs => eq a b = true ∧ EqualDeps eq as bs
  | _, _ => False

/-- The qualified name of a function that was defined in a function. -/
def LocalName (q : String) : Prop :=
  ∃ a b, q.toList = a ++ "<lambda>".toList ++ b ∨ q.toList = a ++ "<locals>".toList ++ b

end Verif.Hooks
