import Verif.Console.Model
/-! # Writing changed nodes back into the source

Models `rewrite_changed_nodes` of `/repo/src/reactpy/_console/ast_utils.py` 18–88, which both rewriting commands use.  Printing a
syntax tree (`ast.unparse`), finding the comments among lines (`_find_comments`, 172–178; here it never raises) and which
characters are white space are parameters.  The messages about moved comments (58, 82–86) are left out. -/
namespace Verif.Console.Lines

/-- Where a node is: first and last line counting from 1, and the *byte* offsets of its beginning in the first line and of its end
in the last one (Python's `ast`; used at ast_utils.py 36, 47–83). -/
structure Span where
  line : Nat
  endLine : Nat
  col : Nat
  endCol : Nat
deriving DecidableEq, Repr

/-- A node: its place, if it has one (35), whether it is a `ClassDef` or `FunctionDef` (37), and its text when printed (75). -/
structure Node where
  span : Option Span
  isDef : Bool := false
  text : Str
deriving DecidableEq, Repr

/-- A node that has a place (ast_utils.py 46–83 use no other). -/
structure Placed where
  span : Span
  text : Str
deriving DecidableEq, Repr

/-- The node with its place, if it has one (auxiliary; ast_utils.py 35). -/
def Node.placed (n : Node) : Option Placed := n.span.map (fun s => ⟨s, n.text⟩)

/-- ast_utils.py 34–38: the node above is not to be rewritten with this one; `line` is where the changed node begins. -/
def stops (line : Nat) (n : Node) : Bool :=
  match n.span with
  | none => true
  | some s => decide (s.line < line) || n.isDef

/-- The loop of ast_utils.py 32–43 from node `cur` on, with the nodes above; `none`: `RuntimeError`. -/
def climb (line : Nat) (cur : Node) : List Node → Option Node
  | [] => none
  | next :: rest => if stops line next then some cur else climb line next rest

/-- One change (91–94): the node, which is a call and so has a place, and the nodes above it, from the nearest on. -/
structure Change where
  node : Placed
  parents : List Node

/-- ast_utils.py 30–43 for one change. A node chosen has a place: it is the changed one or one that did not stop the climb. -/
def closest (c : Change) : Option Placed :=
  (climb c.node.span.line ⟨some c.node.span, false, c.node.text⟩ c.parents).bind Node.placed

/-- ast_utils.py 30–43 for all changes. -/
def allClosest : List Change → Option (List Placed)
  | [] => some []
  | c :: cs =>
    match closest c, allClosest cs with
    | some n, some ns => some (n :: ns)
    | _, _ => none

/-- One step of the stable sort by line (46–48): before the first that begins later. -/
def insertByLine (n : Placed) : List Placed → List Placed
  | [] => [n]
  | m :: l => if n.span.line ≤ m.span.line then n :: m :: l else m :: insertByLine n l

/-- `sorted(…, key=lambda n: n.lineno)` (46–48): stable. -/
def sortByLine : List Placed → List Placed
  | [] => []
  | n :: l => insertByLine n (sortByLine l)

/-- The loop of ast_utils.py 50–56; `cur` is the current outermost node. -/
def outer (cur : Placed) : List Placed → List Placed
  | [] => []
  | n :: l => if cur.span.endLine < n.span.line then n :: outer n l else outer cur l

/-- ast_utils.py 45–56; for no nodes the assignment at 46 raises `ValueError`, but the commands do not call it then
(rewrite_props.py 35–36, rewrite_keys.py 59–61). -/
def outermost (ns : List Placed) : List Placed :=
  match sortByLine ns with
  | [] => []
  | n :: l => n :: outer n l

/-- `str.lstrip` (65). -/
def lstrip (sp : Char → Bool) (s : Str) : Str := s.dropWhile sp

/-- `str.strip` (68). -/
def strip (sp : Char → Bool) (s : Str) : Str := ((s.dropWhile sp).reverse.dropWhile sp).reverse

/-- The lines of a text (`splitlines(True)` inside `textwrap.indent`, 73; only "\n" is taken to end a line). -/
def splitNl : Str → List Str
  | [] => [[]]
  | c :: l => if c = '\n' then [] :: splitNl l else
    match splitNl l with
    | [] => [[c]]
    | w :: ws => (c :: w) :: ws

/-- `"\n".join(…)` (75, 88). -/
def joinNl : List Str → Str
  | [] => []
  | [l] => l
  | l :: ls => l ++ '\n' :: joinNl ls

/-- `textwrap.indent(text, " " * k)` (73–78): lines of white space only stay. -/
def indent (sp : Char → Bool) (k : Nat) (s : Str) : Str :=
  joinNl ((splitNl s).map fun l => if l.all sp then l else List.replicate k ' ' ++ l)

/-- ast_utils.py 65. -/
def before (sp : Char → Bool) (lines : List Str) (n : Placed) : Str :=
  lstrip sp ((lines.getD (n.span.line - 1) []).take n.span.col)

/-- ast_utils.py 67–71. -/
def after (sp : Char → Bool) (lines : List Str) (n : Placed) : Str :=
  strip sp ((lines.getD (n.span.endLine - 1) []).drop n.span.endCol)

/-- ast_utils.py 61–78. -/
def replacement (sp : Char → Bool) (comments : List Str → List Str) (lines : List Str) (n : Placed) : Str :=
  indent sp (n.span.col - (before sp lines n).length)
    (before sp lines n ++ joinNl (comments ((lines.take n.span.endLine).drop (n.span.line - 1)) ++ [n.text]) ++ after sp lines n)

/-- ast_utils.py 61–80: one node written into the lines. -/
def writeNode (sp : Char → Bool) (comments : List Str → List Str) (lines : List Str) (n : Placed) : List Str :=
  lines.take (n.span.line - 1) ++ [replacement sp comments lines n] ++ lines.drop n.span.endLine

/-- ast_utils.py 60: from the last node to the first. -/
def writeAll (sp : Char → Bool) (comments : List Str → List Str) (lines : List Str) (ns : List Placed) : List Str :=
  ns.reverse.foldl (writeNode sp comments) lines

/-- ast_utils.py 18–88: the new lines, joined at 88. -/
def rewrite (sp : Char → Bool) (comments : List Str → List Str) (lines : List Str) (cs : List Change) : Option (List Str) :=
  (allClosest cs).map fun ns => writeAll sp comments lines (outermost ns)

end Verif.Console.Lines
