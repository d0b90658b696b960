import Verif.Markup.Model
/-!
# The transforms that a user gives to `string_to_reactpy`

/repo/src/reactpy/utils.py 84–171, 218–237 with `transforms`.  A transform may do anything: it has a state `σ` of its own, may raise,
and may return any child of a model; returning a list is left out.  Text is not passed to transforms.
-/
namespace Verif.Markup
variable {σ : Type}

/-- `_ModelTransform`: a call, with the state before and after. (utils.py 86, 168–169) -/
abbrev Transform (σ : Type) := σ → V → σ × Except Err V

/-- utils.py 168–169. -/
def applyAll : List (Transform σ) → σ → V → σ × Except Err V
  | [], s, v => (s, .ok v)
  | t :: ts, s, v => match t s v with
    | (s, .ok v) => applyAll ts s v
    | (s, .error e) => (s, .error e)

mutual
/-- utils.py 145–171 `_etree_to_vdom`. -/
def toVdomT (intercept : Bool) (ts : List (Transform σ)) : σ → El → σ × Except Err V
  | s, .mk tag attrs text kids =>
    match toVdomTL intercept ts s kids with
    | (s, .error e) => (s, .error e)
    | (s, .ok children) =>
      match construct tag (attributesToReact attrs) ((if text ≠ "" then [.text text] else []) ++ children) with
      | .error e => (s, .error e)
      | .ok el =>
        match requiredTransforms intercept el with
        | .error e => (s, .error e)
        | .ok el => applyAll ts s el
/-- utils.py 218–237 `_generate_vdom_children`, the children and their tails. -/
def toVdomTL (intercept : Bool) (ts : List (Transform σ)) : σ → List (El × String) → σ × Except Err (List V)
  | s, [] => (s, .ok [])
  | s, (e, tail) :: ks =>
    match toVdomT intercept ts s e with
    | (s, .error e) => (s, .error e)
    | (s, .ok v) =>
      match toVdomTL intercept ts s ks with
      | (s, .error e) => (s, .error e)
      | (s, .ok vs) => (s, .ok (v :: ((if tail ≠ "" then [.text tail] else []) ++ vs)))
end

/-! ## Specification -/

/-- A call of a transform: which one, its argument, its result. -/
structure Call where
  which : Nat
  arg : V
  res : Except Err V

/-- The transform number `k`, which also notes its calls. -/
def logged (k : Nat) (t : Transform σ) : Transform (σ × List Call) := fun s v =>
  (((t s.1 v).1, s.2 ++ [⟨k, v, (t s.1 v).2⟩]), (t s.1 v).2)

/-- `Block k n arg out b`: calls of the transforms `k`, …, `k + n - 1`, one after the other, each with what the one before returned; the
first gets `arg`, the last returns `out`. -/
inductive Block : Nat → Nat → V → V → List Call → Prop
  | nil {k v} : Block k 0 v v []
  | cons {k n v v' out b} : Block (k + 1) n v' out b → Block k (n + 1) v out (⟨k, v, .ok v'⟩ :: b)

mutual
/-- `Converted i n e b v`: the element `e` becomes `v`, with the calls `b` of `n` transforms.  First the children are converted, in order.  Then
the transforms are called for the element itself.  Except for `select`, `textarea` and `script`, they get what the element is without
transforms, with the children as they have become. -/
inductive Converted (i : Bool) (n : Nat) : El → List Call → V → Prop
  | mk {tag attrs text kids b b' cs as js hs ks out} : ConvertedL i n kids b cs → Block 0 n (.elem tag as js hs ks) out b' →
      (tag ≠ "select" → tag ≠ "textarea" → tag ≠ "script" → ks = (if text ≠ "" then [.text text] else []) ++ cs ∧
        toVdom i (.mk tag attrs "" []) = .ok (.elem tag as js hs [])) →
      Converted i n (.mk tag attrs text kids) (b ++ b') out
/-- The children and the text between them. -/
inductive ConvertedL (i : Bool) (n : Nat) : List (El × String) → List Call → List V → Prop
  | nil : ConvertedL i n [] [] []
  | cons {e tail ks b b' v vs} : Converted i n e b v → ConvertedL i n ks b' vs →
      ConvertedL i n ((e, tail) :: ks) (b ++ b') (v :: ((if tail ≠ "" then [.text tail] else []) ++ vs))
end

mutual
/-- `f` for every element, children first. -/
def V.mapUp (f : V → V) : V → V
  | .elem tag as js hs ks => f (.elem tag as js hs (mapUpL f ks))
  | v => v
/-- The same for children. -/
def mapUpL (f : V → V) : List V → List V
  | [] => []
  | v :: vs => v.mapUp f :: mapUpL f vs
end

mutual
/-- No element has one of the tags. -/
def El.avoids (tags : List String) : El → Prop
  | .mk tag _ _ kids => tag ∉ tags ∧ avoidsL tags kids
/-- The same for children. -/
def avoidsL (tags : List String) : List (El × String) → Prop
  | [] => True
  | (e, _) :: ks => e.avoids tags ∧ avoidsL tags ks
end

end Verif.Markup
