import Verif.Markup.Lemmas
/-! # The code-rewriting command `reactpy rewrite-props`

Models `/repo/src/reactpy/_console/rewrite_props.py` and the part of `/repo/src/reactpy/_console/ast_utils.py` that finds
the element constructors.  The program is its syntax tree; parsing, unparsing and comments (ast_utils.py 19–88) are not
modelled. -/
namespace Verif.Console
open Verif.Markup (splitOn)

/-- Names (rewrite_props.py 55). -/
abbrev Str := List Char

/-- How Python changes the case of a character: `isCased`, and the title and lower case of `c`, which may be several
characters (Unicode). Used by `str.title`, rewrite_props.py 70. -/
structure Casing where
  cased : Char → Bool
  upper : Char → Str
  lower : Char → Str

/-- The casing of ASCII. (Unicode tables, as used by `str.title`, rewrite_props.py 70) -/
def ascii : Casing where
  cased := fun c => c.isAlpha
  upper := fun c => [c.toUpper]
  lower := fun c => [c.toLower]

/-- Python's `str.title`: a character after a cased one is lowered, any other raised. rewrite_props.py 70. -/
def titleFrom (cs : Casing) : Bool → Str → Str
  | _, [] => []
  | prev, c :: l => (if prev then cs.lower c else cs.upper c) ++ titleFrom cs (cs.cased c) l

/-- `x.title()`, rewrite_props.py 70. -/
def title (cs : Casing) (s : Str) : Str := titleFrom cs false s

/-- `keyword.kwlist` (Python's `keyword` module, imported at rewrite_props.py 6, used at 58) -/
def kwlist : List Str := ["False", "None", "True", "and", "as", "assert", "async", "await", "break", "class", "continue", "def",
  "del", "elif", "else", "except", "finally", "for", "from", "global", "if", "import", "in", "is", "lambda", "nonlocal", "not",
  "or", "pass", "raise", "return", "try", "while", "with", "yield"].map String.toList

/-- rewrite_props.py 55–70 `conv_attr_name` -/
def conv (cs : Casing) (name : Str) : Str :=
  if name ∈ kwlist then name
  else if '_' ∉ name then name
  else match splitOn '_' name with
    | [] => []
    | c :: rest => c ++ (rest.map (title cs)).flatten

mutual
/-- Syntax trees (`ast`): the nodes the command looks at, and `other` for the rest (statements too). rewrite_props.py 32. -/
inductive Expr where
  /-- `ast.Constant` with a string -/
  | str (s : Str)
  /-- any other `ast.Constant` -/
  | const (n : Nat)
  /-- `ast.JoinedStr` -/
  | joined (l : Args)
  | name (id : Str)
  | attr (value : Expr) (a : Str)
  | call (f : Expr) (args : Args) (kws : Kws)
  | dict (items : Items)
  | other (l : Args)
/-- Lists of nodes: `node.args` (ast_utils.py 119–149), the children walked at ast_utils.py 181–187. -/
inductive Args where
  | nil
  | cons (e : Expr) (l : Args)
/-- Keyword arguments; no name for `**e`. (rewrite_props.py 123–129) -/
inductive Kws where
  | nil
  | cons (k : Option Str) (v : Expr) (l : Kws)
/-- The items of a dict display; `spread` for `**v`. (rewrite_props.py 105–114) -/
inductive Items where
  | nil
  | cons (k : Expr) (v : Expr) (l : Items)
  | spread (v : Expr) (l : Items)
end

/-- `node.args[i]` (ast_utils.py 127–149). -/
def Args.get : Args → Nat → Option Expr
  | .nil, _ => none
  | .cons e _, 0 => some e
  | .cons _ l, n + 1 => l.get n

/-- `isinstance(value, (ast.Dict, ast.Call))`, rewrite_props.py 75. -/
def isDictOrCall : Expr → Bool
  | .dict _ => true
  | .call .. => true
  | _ => false

/-- `isinstance(e, (ast.Constant, ast.JoinedStr))`, ast_utils.py 127, 142. -/
def isLiteral : Expr → Bool
  | .str _ => true
  | .const _ => true
  | .joined _ => true
  | _ => false

/-- ast_utils.py 154–160: what may be an attribute dict. -/
def isProps : Expr → Bool
  | .dict _ => true
  | .call (.name d) _ _ => d == "dict".toList
  | _ => false

/-- ast_utils.py 105–114: the name of the constructor. -/
def constructorName : Expr → Option Str
  | .attr (.name h) a => if h = "html".toList then some a else none
  | .attr (.attr _ h) a => if h = "html".toList then some a else none
  | .name id => some id
  | _ => none

/-- ast_utils.py 116–152 (with `add_props=False`): the place of the attribute argument.  `hasattr(html, name)` (135) is true
of every name: `HtmlConstructor.__getattr__` (_html.py 292–302) makes a constructor for any. -/
def propsArg (f : Expr) (args : Args) : Option Nat :=
  match constructorName f with
  | none => none
  | some name =>
    let i := if name = "vdom".toList then 1 else 0
    match args.get i with
    | none => none
    | some e => if isLiteral e then none else some i

/-- What is being done to a node by the nodes above it: nothing, its keys are attributes, its keys are CSS names.
(rewrite_props.py 47–49, 78–86) -/
inductive Mode where
  | plain | props | style
  deriving DecidableEq

/-- rewrite_props.py 73–92 `_construct_prop_item` (for `props`) and the function given in 80–85 (for `style`): the new name,
and what is done to the value. -/
def item (cs : Casing) (m : Mode) (k : Str) (v : Expr) : Str × Mode :=
  match m with
  | .plain => (k, .plain)
  | .props => if k = "style".toList ∧ isDictOrCall v = true then (k, .style) else (conv cs k, .plain)
  | .style => if k = "style".toList then (k, .plain) else (conv cs k, .plain)

/-- The mode of an argument: attributes if it is the attribute argument and a dict (154–160). -/
def argMode (i : Option Nat) (e : Expr) : Mode := if i = some 0 ∧ isProps e = true then .props else .plain

mutual
/-- rewrite_props.py 44–53 `find_nodes_to_change` with 95–137 `_rewrite_props`, as a function on trees: the walk
(ast_utils.py 101, 181–187) visits each node after those above it have been changed, so one descent with a mode gives the tree the
mutations leave. -/
def rewrite (cs : Casing) (m : Mode) : Expr → Expr
  | .str s => .str s
  | .const n => .const n
  | .joined l => .joined (rewriteArgs cs none l)
  | .name id => .name id
  | .attr v a => .attr (rewrite cs .plain v) a
  | .call f args kws => .call (rewrite cs .plain f) (rewriteArgs cs (propsArg f args) args) (rewriteKws cs m kws)
  | .dict items => .dict (rewriteItems cs m items)
  | .other l => .other (rewriteArgs cs none l)
/-- The walk over arguments, ast_utils.py 181–187, of which one may be the attributes (160). -/
def rewriteArgs (cs : Casing) (i : Option Nat) : Args → Args
  | .nil => .nil
  | .cons e l => .cons (rewrite cs (argMode i e) e) (rewriteArgs cs (i.bind fun n => if n = 0 then none else some (n - 1)) l)
/-- rewrite_props.py 119–133, and the walk over the values. -/
def rewriteKws (cs : Casing) (m : Mode) : Kws → Kws
  | .nil => .nil
  | .cons none v l => .cons none (rewrite cs .plain v) (rewriteKws cs m l)
  | .cons (some k) v l => .cons (some (item cs m k v).1) (rewrite cs (item cs m k v).2 v) (rewriteKws cs m l)
/-- rewrite_props.py 101–118, and the walk over keys and values. -/
def rewriteItems (cs : Casing) (m : Mode) : Items → Items
  | .nil => .nil
  | .cons (.str k) v l => .cons (.str (item cs m k v).1) (rewrite cs (item cs m k v).2 v) (rewriteItems cs m l)
  | .cons k v l => .cons (rewrite cs .plain k) (rewrite cs .plain v) (rewriteItems cs m l)
  | .spread v l => .spread (rewrite cs .plain v) (rewriteItems cs m l)
end

mutual
/-- rewrite_props.py 95–137: whether `_rewrite_props` changes the node (`did_change`). -/
def touched (cs : Casing) (m : Mode) : Expr → Bool
  | .call _ _ kws => touchedKws cs m kws
  | .dict items => touchedItems cs m items
  | _ => false
/-- `did_change` of rewrite_props.py 120–132. -/
def touchedKws (cs : Casing) (m : Mode) : Kws → Bool
  | .nil => false
  | .cons none _ l => touchedKws cs m l
  | .cons (some k) v l =>
    (item cs m k v).1 != k || ((item cs m k v).2 == .style && touched cs .style v) || touchedKws cs m l
/-- `did_change` of rewrite_props.py 100–116. -/
def touchedItems (cs : Casing) (m : Mode) : Items → Bool
  | .nil => false
  | .cons (.str k) v l =>
    (item cs m k v).1 != k || ((item cs m k v).2 == .style && touched cs .style v) || touchedItems cs m l
  | .cons _ _ l => touchedItems cs m l
  | .spread _ l => touchedItems cs m l
end

/-- Whether the attribute argument of a call is changed. rewrite_props.py 47–51. -/
def touchedArg (cs : Casing) (f : Expr) (args : Args) : Bool :=
  match propsArg f args with
  | none => false
  | some i =>
    match args.get i with
    | none => false
    | some e => isProps e && touched cs .props e

mutual
/-- rewrite_props.py 44–53: the number of nodes in `changed`. -/
def changes (cs : Casing) : Expr → Nat
  | .str _ => 0
  | .const _ => 0
  | .joined l => changesArgs cs l
  | .name _ => 0
  | .attr v _ => changes cs v
  | .call f args kws =>
    (if touchedArg cs f args then 1 else 0) + changes cs f + changesArgs cs args + changesKws cs kws
  | .dict items => changesItems cs items
  | .other l => changesArgs cs l
/-- The entries of `changed` (rewrite_props.py 46–52) below arguments. -/
def changesArgs (cs : Casing) : Args → Nat
  | .nil => 0
  | .cons e l => changes cs e + changesArgs cs l
/-- The entries of `changed` (rewrite_props.py 46–52) below keyword arguments. -/
def changesKws (cs : Casing) : Kws → Nat
  | .nil => 0
  | .cons _ v l => changes cs v + changesKws cs l
/-- The entries of `changed` (rewrite_props.py 46–52) below a dict display. -/
def changesItems (cs : Casing) : Items → Nat
  | .nil => 0
  | .cons k v l => changes cs k + changes cs v + changesItems cs l
  | .spread v l => changes cs v + changesItems cs l
end

/-- rewrite_props.py 30–41 `generate_rewrite`: the new program, or `none` when there is nothing to change. -/
def generateRewrite (cs : Casing) (e : Expr) : Option Expr :=
  if changes cs e = 0 then none else some (rewrite cs .plain e)

end Verif.Console
