import Verif.Client.Convert
/-! # Specification: what the data made of an event show -/
namespace Verif.Client.Convert

/-- Relatives, markup and sizes of a node. -/
def ignoredOfNodes : List String :=
  ["parentNode", "parentElement", "ownerDocument", "getRootNode", "childNodes", "children", "firstChild", "lastChild",
   "previousSibling", "nextSibling", "previousElementSibling", "nextElementSibling", "innerHTML", "outerHTML",
   "offsetParent", "offsetWidth", "offsetHeight", "offsetLeft", "offsetTop", "clientTop", "clientLeft", "clientWidth",
   "clientHeight", "scrollWidth", "scrollHeight", "scrollTop", "scrollLeft"]

/-- Not everything is data.  Left out: functions, `null` and `undefined`; windows, documents and style sheets; names
that begin with two underscores, constants (`BUBBLING_PHASE`), `view`, `size` and `length`; of a node, the names in
the list; of a style declaration, empty strings.  The event itself is not asked whether it is a node (`none`). -/
def Relevant (h : Heap) (parent : Option Obj) (k : String) (v : Val) : Prop :=
  ((∃ p, v = .prim p) ∨ ∃ i, v = .obj i ∧ (h i).isStyleSheet = false ∧ (h i).isWindow = false ∧ (h i).isDocument = false) ∧
  k.startsWith "__" = false ∧
  (k = "" ∨ ∃ c ∈ k.toList, ¬ ('A' ≤ c ∧ c ≤ 'Z') ∧ c ≠ '_') ∧
  k ≠ "view" ∧ k ≠ "size" ∧ k ≠ "length" ∧
  (∀ x, parent = some x → (x.isStyleDecl = true → v ≠ .prim (.str "")) ∧ (x.isNode = true → k ∉ ignoredOfNodes))

/-- `k` names `v` in the object: a property, or an element of a form with that name. -/
def Member (h : Heap) (i : Nat) (k : String) (v : Val) : Prop :=
  (∃ f ∈ (h i).fields ++ (h i).hidden, f.key = k ∧ f.val = some v) ∨
  ∃ es e, (h i).form = some es ∧ e ∈ es ∧ v = .obj e ∧ (h e).get "name" = some (some (.prim (.str k)))

/-- Properties that are looked at: those a `for … in` loop visits, and a few by name. -/
def Listed (h : Heap) (i : Nat) (k : String) (v : Val) : Prop :=
  (∃ f ∈ (h i).fields, f.key = k ∧ f.val = some v) ∨
  (k ∈ ["dataset", "value", "checked", "files", "type", "name"] ∧ (h i).get k = some (some v))

/-- No property raises when it is read. -/
def Calm (h : Heap) : Prop :=
  ∀ i, (∀ f ∈ (h i).fields ++ (h i).hidden, f.val ≠ none) ∧ none ∉ (h i).items ∧ (h i).hasLength ≠ none

/-- Inside the objects `anc`, with `d` levels to go, this value is not cut off. -/
def Within (h : Heap) (d : Int) (anc : List Nat) : Val → Prop
  | .prim _ => True
  | .obj j => 1 < d ∧ j ∉ anc ∧ Calm h
  | _ => False

mutual
/-- The data show the value, which is inside the objects `anc`, with `d` levels to go: the primitive itself; of an
array its members, in order; of an object its members, under their names, once each. -/
inductive Shows (h : Heap) : Int → List Nat → Val → Tree → Prop
  | leaf (d : Int) (anc : List Nat) (p : Prim) : Shows h d anc (.prim p) (.leaf (.prim p))
  | arr (d : Int) (anc : List Nat) (i : Nat) (xs : List Tree) :
      arrayLike (h i) = some true → 1 < d → i ∉ anc →
      ShowsItems h (d - 1) (i :: anc) (h i).items xs → Shows h d anc (.obj i) (.arr xs)
  /-- `src` says for each entry of the data which member it shows, and with how many levels to go. -/
  | obj (d : Int) (anc : List Nat) (i : Nat) (fs : List (String × Tree)) (src : String × Tree → Val × Int) :
      arrayLike (h i) = some false → 1 < d → i ∉ anc →
      -- nothing else
      (∀ p ∈ fs, Member h i p.1 (src p).1 ∧ ((src p).2 = d - 1 ∨ p.1 = "files" ∧ (src p).2 = max (d - 1) 3)) →
      (∀ p ∈ fs, Shows h (src p).2 (i :: anc) (src p).1 p.2) →
      -- each once
      (((h i).fields.map (·.key)).Nodup → (fs.map (·.1)).Nodup) →
      -- nothing missing
      (∀ k v, Listed h i k v → Relevant h (some (h i)) k v → Within h (if k = "files" then 3 else d - 1) (i :: anc) v →
        (((h i).fields ++ (h i).hidden).map (·.key)).Nodup → ∃ t, (k, t) ∈ fs ∧ ∀ q, v = .prim q → t = .leaf v) →
      (∀ es e n, (h i).form = some es → e ∈ es → (h e).get "name" = some (some (.prim (.str n))) → n ≠ "" →
        Relevant h (some (h i)) n (.obj e) → Within h (d - 1) (i :: anc) (.obj e) → ∃ t, (n, t) ∈ fs) →
      Shows h d anc (.obj i) (.obj fs)
/-- Members may be left out only if they are not data, or cut off. -/
inductive ShowsItems (h : Heap) : Int → List Nat → List (Option Val) → List Tree → Prop
  | nil (d : Int) (anc : List Nat) : ShowsItems h d anc [] []
  | skip (d : Int) (anc : List Nat) (v : Val) (l : List (Option Val)) (xs : List Tree) :
      ¬ (Relevant h none "" v ∧ Within h d anc v) → ShowsItems h d anc l xs → ShowsItems h d anc (some v :: l) xs
  | take (d : Int) (anc : List Nat) (v : Val) (t : Tree) (l : List (Option Val)) (xs : List Tree) :
      Shows h d anc v t → ShowsItems h d anc l xs → ShowsItems h d anc (some v :: l) (t :: xs)
end

end Verif.Client.Convert
