import Verif.Console.Model
/-! # Specification vocabulary for the code-rewriting command -/
namespace Verif.Console

/-- Changing the case makes no underscores. -/
def Casing.Ok (cs : Casing) : Prop := ∀ c, c ≠ '_' → '_' ∉ cs.upper c ∧ '_' ∉ cs.lower c

mutual
/-- No attribute name in the program other than `style` is rewritten to `style`. -/
def NoAlias (cs : Casing) : Expr → Prop
  | .str _ => True
  | .const _ => True
  | .joined l => NoAliasArgs cs l
  | .name _ => True
  | .attr v _ => NoAlias cs v
  | .call f args kws => NoAlias cs f ∧ NoAliasArgs cs args ∧ NoAliasKws cs kws
  | .dict items => NoAliasItems cs items
  | .other l => NoAliasArgs cs l
def NoAliasArgs (cs : Casing) : Args → Prop
  | .nil => True
  | .cons e l => NoAlias cs e ∧ NoAliasArgs cs l
def NoAliasKws (cs : Casing) : Kws → Prop
  | .nil => True
  | .cons k v l => (∀ s, k = some s → conv cs s = "style".toList → s = "style".toList) ∧ NoAlias cs v ∧ NoAliasKws cs l
def NoAliasItems (cs : Casing) : Items → Prop
  | .nil => True
  | .cons k v l => (∀ s, k = .str s → conv cs s = "style".toList → s = "style".toList) ∧ NoAlias cs k ∧ NoAlias cs v ∧ NoAliasItems cs l
  | .spread v l => NoAlias cs v ∧ NoAliasItems cs l
end

mutual
/-- A program without its attribute names: the string keys of its dicts and the names of keyword arguments are blanked. -/
def erase : Expr → Expr
  | .str s => .str s
  | .const n => .const n
  | .joined l => .joined (eraseArgs l)
  | .name id => .name id
  | .attr v a => .attr (erase v) a
  | .call f args kws => .call (erase f) (eraseArgs args) (eraseKws kws)
  | .dict items => .dict (eraseItems items)
  | .other l => .other (eraseArgs l)
def eraseArgs : Args → Args
  | .nil => .nil
  | .cons e l => .cons (erase e) (eraseArgs l)
def eraseKws : Kws → Kws
  | .nil => .nil
  | .cons k v l => .cons (k.map fun _ => []) (erase v) (eraseKws l)
def eraseItems : Items → Items
  | .nil => .nil
  | .cons (.str _) v l => .cons (.str []) (erase v) (eraseItems l)
  | .cons k v l => .cons (erase k) (erase v) (eraseItems l)
  | .spread v l => .spread (erase v) (eraseItems l)
end

/-! ## The attributes of a program -/

/-- The names of keyword arguments. -/
def kwKeys : Kws → List Str
  | .nil => []
  | .cons none _ l => kwKeys l
  | .cons (some k) _ l => k :: kwKeys l
/-- The string keys of a dict display. -/
def itemKeys : Items → List Str
  | .nil => []
  | .cons (.str k) _ l => k :: itemKeys l
  | .cons _ _ l => itemKeys l
  | .spread _ l => itemKeys l
/-- The names in `{…}` or `dict(…)`. -/
def directKeys : Expr → List Str
  | .dict items => itemKeys items
  | .call (.name d) _ kws => if d = "dict".toList then kwKeys kws else []
  | _ => []
/-- Attribute names, each `style` followed by the CSS names in its `{…}` or `dict(…)`. -/
def kwNames : Kws → List Str
  | .nil => []
  | .cons none _ l => kwNames l
  | .cons (some k) v l => (k :: if k = "style".toList then directKeys v else []) ++ kwNames l
def itemNames : Items → List Str
  | .nil => []
  | .cons (.str k) v l => (k :: if k = "style".toList then directKeys v else []) ++ itemNames l
  | .cons _ _ l => itemNames l
  | .spread _ l => itemNames l
/-- The attribute and CSS names in the attribute argument `{…}` or `dict(…)` of an element. -/
def ownNames : Expr → List Str
  | .dict items => itemNames items
  | .call (.name d) _ kws => if d = "dict".toList then kwNames kws else []
  | _ => []

/-- What a call constructs, if it may construct an element: `html.tag(…)`, `….html.tag(…)` or `tag(…)`. -/
def elementName : Expr → Option Str
  | .attr (.name h) a => if h = "html".toList then some a else none
  | .attr (.attr _ h) a => if h = "html".toList then some a else none
  | .name id => some id
  | _ => none

/-- The attribute names of one element: in its first argument, for `vdom(tag, …)` in the second. -/
def elementNames (f : Expr) (args : Args) : List Str :=
  match elementName f with
  | none => []
  | some name =>
    match args.get (if name = "vdom".toList then 1 else 0) with
    | none => []
    | some e => ownNames e

mutual
/-- The attribute names of all elements in a program, in document order. -/
def attrNames : Expr → List Str
  | .str _ => []
  | .const _ => []
  | .joined l => attrNamesArgs l
  | .name _ => []
  | .attr v _ => attrNames v
  | .call f args kws => elementNames f args ++ attrNames f ++ attrNamesArgs args ++ attrNamesKws kws
  | .dict items => attrNamesItems items
  | .other l => attrNamesArgs l
def attrNamesArgs : Args → List Str
  | .nil => []
  | .cons e l => attrNames e ++ attrNamesArgs l
def attrNamesKws : Kws → List Str
  | .nil => []
  | .cons _ v l => attrNames v ++ attrNamesKws l
def attrNamesItems : Items → List Str
  | .nil => []
  | .cons k v l => attrNames k ++ attrNames v ++ attrNamesItems l
  | .spread v l => attrNames v ++ attrNamesItems l
end

/-! ## Everything else -/

/-- What the names in a dict are: attributes of an element, CSS names in its `style`, or something else. -/
inductive Place where
  | attributes | css | elsewhere
  deriving DecidableEq

/-- `{…}` or `dict(…)`. -/
def isAttrs : Expr → Bool
  | .dict _ => true
  | .call (.name d) _ _ => d == "dict".toList
  | _ => false

/-- What the names in the value of a name are.  The arguments of any call in `style` count as CSS names, as the command sees
it (`C53_others_violated`). -/
def below (p : Place) (k : Str) (v : Expr) : Place :=
  match p, v with
  | .attributes, .dict _ => if k = "style".toList then .css else .elsewhere
  | .attributes, .call .. => if k = "style".toList then .css else .elsewhere
  | _, _ => .elsewhere

/-- The attribute argument of a call is the `n`-th. -/
def attrsAt (f : Expr) : Option Nat := (elementName f).map fun name => if name = "vdom".toList then 1 else 0

mutual
/-- A program with the names of its attributes (and CSS names) blanked, and nothing else. -/
def blank (p : Place) : Expr → Expr
  | .str s => .str s
  | .const n => .const n
  | .joined l => .joined (blankArgs none l)
  | .name id => .name id
  | .attr v a => .attr (blank .elsewhere v) a
  | .call f args kws => .call (blank .elsewhere f) (blankArgs (attrsAt f) args) (blankKws p kws)
  | .dict items => .dict (blankItems p items)
  | .other l => .other (blankArgs none l)
/-- The attribute argument is the `n`-th, if there is one. -/
def blankArgs (n : Option Nat) : Args → Args
  | .nil => .nil
  | .cons e l =>
    .cons (blank (if n = some 0 ∧ isAttrs e = true then .attributes else .elsewhere) e)
      (blankArgs (n.bind fun n => if n = 0 then none else some (n - 1)) l)
def blankKws (p : Place) : Kws → Kws
  | .nil => .nil
  | .cons none v l => .cons none (blank .elsewhere v) (blankKws p l)
  | .cons (some k) v l => .cons (some (if p = .elsewhere then k else [])) (blank (below p k v) v) (blankKws p l)
def blankItems (p : Place) : Items → Items
  | .nil => .nil
  | .cons (.str k) v l => .cons (.str (if p = .elsewhere then k else [])) (blank (below p k v) v) (blankItems p l)
  | .cons k v l => .cons (blank .elsewhere k) (blank .elsewhere v) (blankItems p l)
  | .spread v l => .spread (blank .elsewhere v) (blankItems p l)
end

end Verif.Console
