import Verif.Queue.Model
/-! # Specification of the render queue: an ordered set of pending values -/
namespace Verif.Queue
variable {V : Type} [DecidableEq V]

/-- The values pending after the observations (oldest first), if they are those of a queue without
duplicates: a put of a pending value is merged with the pending one, a get returns the value that has
been pending for longest. -/
def fifo : List V → List (Obs V) → Option (List V)
  | p, [] => some p
  | p, .put v :: os => fifo (if v ∈ p then p else p ++ [v]) os
  | p, .got v :: os => match p with
    | [] => none
    | x :: r => if x = v then fifo r os else none
  | _, .keyError _ :: _ => none

/-- The same with a get that may return any pending value. -/
def bag : List V → List (Obs V) → Option (List V)
  | p, [] => some p
  | p, .put v :: os => bag (if v ∈ p then p else p ++ [v]) os
  | p, .got v :: os => if v ∈ p then bag (p.erase v) os else none
  | _, .keyError _ :: _ => none

/-- Whether the value was put after it was last obtained, from the observations, newest first. -/
def awaited (v : V) : List (Obs V) → Bool
  | [] => false
  | .put w :: r => if w = v then true else awaited v r
  | .got w :: r => if w = v then false else awaited v r
  | .keyError _ :: r => awaited v r

end Verif.Queue
