import Verif.Console.Model
/-! # The code-rewriting command `reactpy rewrite-keys`

Models `find_nodes_to_change` of `/repo/src/reactpy/_console/rewrite_keys.py` 69–87 and `find_element_constructor_usages` of
`/repo/src/reactpy/_console/ast_utils.py` 97–162 with `add_props=True`, on the syntax trees of `Verif.Console.Model`. -/
namespace Verif.Console

/-- `"key"` (rewrite_keys.py 73, 79). -/
def keyStr : Str := "key".toList

/-- The first keyword argument `key` (rewrite_keys.py 72–76). -/
def findKey : Kws → Option Expr
  | .nil => none
  | .cons k v l => if k = some keyStr then some v else findKey l

/-- `keywords.remove(kw)` (84). -/
def dropKey : Kws → Kws
  | .nil => .nil
  | .cons k v l => if k = some keyStr then l else .cons k v (dropKey l)

/-- `keywords.append(ast.keyword(arg="key", value=v))` (82). -/
def Kws.addKey : Kws → Expr → Kws
  | .nil, v => .cons (some keyStr) v .nil
  | .cons k w l, v => .cons k w (l.addKey v)

/-- The key appended to a dict display (79–80). -/
def Items.addKey : Items → Expr → Items
  | .nil, v => .cons (.str keyStr) v .nil
  | .cons k w l, v => .cons k w (l.addKey v)
  | .spread w l, v => .spread w (l.addKey v)

/-- `node.args.insert(i, e)`, or `append` at the end (ast_utils.py 124, 130, 139, 145). -/
def Args.insert : Args → Nat → Expr → Args
  | .nil, _, e => .cons e .nil
  | .cons a l, 0, e => .cons e (.cons a l)
  | .cons a l, i + 1, e => .cons a (l.insert i e)

/-- What is done about the attribute argument (ast_utils.py 116–160): nothing; an empty dict is inserted at a place; there is an
argument at the place, which may be a dict or not. -/
inductive Spot where
  | skip
  | add (i : Nat)
  | found (i : Nat) (props : Bool)
deriving DecidableEq

/-- ast_utils.py 105–160. `hasattr(html, name)` (135) is true of every name (see `propsArg`). -/
def spot (f : Expr) (args : Args) : Spot :=
  match constructorName f with
  | none => .skip
  | some name =>
    if name = "vdom".toList then
      match args.get 0 with
      | none => .skip
      | some _ =>
        match args.get 1 with
        | none => .add 1
        | some e => if isLiteral e then .add 1 else .found 1 (isProps e)
    else
      match args.get 0 with
      | none => .add 0
      | some e => if isLiteral e then .add 0 else .found 0 (isProps e)

/-- Keyword arguments with the key that was moved to a `dict(…)` call (rewrite_keys.py 82). -/
def withKey (x : Option Expr) (kws : Kws) : Kws :=
  match x with
  | some v => kws.addKey v
  | none => kws

/-- The key as the only entry of a new dict (rewrite_keys.py 78–80, ast_utils.py 122, 128, 137, 143). -/
def newDict : Option Expr → Expr
  | some v => .dict (.cons (.str keyStr) v .nil)
  | none => .dict .nil

mutual
/-- rewrite_keys.py 69–87 as a function on trees: the walk (ast_utils.py 101, 181–187) visits each node after those above it
were changed, so one descent gives the tree the mutations leave; `x` is the key moved to this node from above. -/
def keys (x : Option Expr) : Expr → Expr
  | .str s => .str s
  | .const n => .const n
  | .joined l => .joined (keysArgs none none l)
  | .name id => .name id
  | .attr v a => .attr (keys none v) a
  | .call f args kws =>
    match spot f args with
    | .skip => .call (keys none f) (keysArgs none none args) (withKey x (keysKws kws))
    | .add i =>
      .call (keys none f) ((keysArgs none none args).insert i (newDict (findKey (withKey x (keysKws kws)))))
        (dropKey (withKey x (keysKws kws)))
    | .found i props =>
      if props then
        .call (keys none f) (keysArgs (some i) (findKey (withKey x (keysKws kws))) args) (dropKey (withKey x (keysKws kws)))
      else .call (keys none f) (keysArgs none none args) (withKey x (keysKws kws))
  | .dict items =>
    match x with
    | some v => .dict ((keysItems items).addKey v)
    | none => .dict (keysItems items)
  | .other l => .other (keysArgs none none l)
/-- The walk over arguments (ast_utils.py 181–187), of which one may be given the key (rewrite_keys.py 78–82). -/
def keysArgs (i : Option Nat) (x : Option Expr) : Args → Args
  | .nil => .nil
  | .cons e l => .cons (keys (if i = some 0 then x else none) e) (keysArgs (i.bind fun n => if n = 0 then none else some (n - 1)) x l)
/-- The walk over keyword arguments (ast_utils.py 181–187). -/
def keysKws : Kws → Kws
  | .nil => .nil
  | .cons k v l => .cons k (keys none v) (keysKws l)
/-- The walk over a dict display (ast_utils.py 181–187). -/
def keysItems : Items → Items
  | .nil => .nil
  | .cons k v l => .cons (keys none k) (keys none v) (keysItems l)
  | .spread v l => .spread (keys none v) (keysItems l)
end

end Verif.Console
