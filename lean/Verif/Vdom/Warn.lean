/-!
# Warnings: children without keys, and the line that a warning names

`/repo/src/reactpy/core/vdom.py` 250–283, `/repo/src/reactpy/_warnings.py` 1–36, and what Python's `warnings.warn` does with `stacklevel`.
-/
namespace Verif.Vdom.Warn

/-! ### Children without keys -/

/-- The `key` of a child: left out, `None`, or something else.  For a component the first two are the same (component.py 29). -/
inductive Key where
  | absent
  | none
  | some (k : Nat)
deriving DecidableEq, Repr

/-- What is passed as a child of an element (vdom.py 250–265): a value that is not iterable or a text, a component, an element (or another mapping),
a sequence with a length, or an iterable without one (a generator). -/
inductive Child where
  | text (n : Nat)
  | component (id : Nat) (key : Key)
  | element (id : Nat) (key : Key)
  | seq (items : List Child)
  | gen (items : List Child)

/-- A warning (vdom.py 270–283). -/
inductive Warning where
  | unverified (items : List Child)
  | keyless (c : Child)

/-- The loop of `_validate_child_key_integrity` over a sequence (vdom.py 274–283). -/
def checkItems : List Child → List Warning
  | [] => []
  | c :: r => match c with
    | .component _ .absent => .keyless c :: checkItems r
    | .component _ .none => .keyless c :: checkItems r
    | .element _ .absent => .keyless c :: checkItems r
    | _ => checkItems r

/-- `_validate_child_key_integrity` (vdom.py 268–283), for iterables. -/
def validate : Child → List Warning
  | .gen items => [.unverified items]
  | .seq items => checkItems items
  | _ => []

mutual
/-- One child in `_flatten_children` (vdom.py 252–256) with `_is_single_child` (260–265): the children that are kept, and the warnings. -/
def flattenOne (debug : Bool) : Child → List Child × List Warning
  | .seq items =>
    let w := if debug then validate (.seq items) else []
    let r := flatten debug items
    (r.1, w ++ r.2)
  | .gen items =>
    let w := if debug then validate (.gen items) else []
    let r := flatten debug items
    (r.1, w ++ r.2)
  | c => ([c], [])

/-- `_flatten_children` (vdom.py 250–257). -/
def flatten (debug : Bool) : List Child → List Child × List Warning
  | [] => ([], [])
  | c :: r =>
    let a := flattenOne debug c
    let b := flatten debug r
    (a.1 ++ b.1, a.2 ++ b.2)
end

/-! ### The line of a warning -/

/-- A stack frame: the name of its module, if it has one, and whether it belongs to Python's import system
(`is_internal_frame` of `warnings`).  `at_` tells the frames apart. -/
structure Frame where
  module : Option String
  internal : Bool := false
  at_ : Nat := 0
deriving DecidableEq, Repr

/-- `not module_name or not module_name.startswith("reactpy.")` (_warnings.py 23), negated. -/
def inPackage (f : Frame) : Bool :=
  match f.module with
  | some n => "reactpy.".toList.isPrefixOf n.toList
  | none => false

/-- `_frame_depth_in_module` (_warnings.py 19–26); `stack` begins with the frame of `_warnings.warn`, which `_iter_frames(2)` (29–36) yields first. -/
def depth : List Frame → Nat
  | [] => 0
  | f :: r => if inPackage f then depth r + 1 else 0

/-- `next_external_frame` of `warnings`, `n` times from the first frame of the stack. -/
def external : Nat → List Frame → Option Frame
  | 0, s => s.head?
  | n + 1, s => external n (s.tail.dropWhile (·.internal))

/-- The same without leaving out frames of the import system. -/
def plain (n : Nat) (s : List Frame) : Option Frame := s[n]?

/-- `warnings.warn(..., stacklevel=level)` called in the first frame of the stack: the frame that the warning names, none if there are
not so many. -/
def located (level : Nat) (s : List Frame) : Option Frame :=
  match s with
  | [] => none
  | f :: _ => if level ≤ 1 ∨ f.internal then plain (level - 1) s else external (level - 1) s

/-- `reactpy._warnings.warn` (_warnings.py 9–12), called by the frames `callers` (innermost first): its own frame is the first one. -/
def warn (callers : List Frame) : Option Frame :=
  let s := { module := some "reactpy._warnings" } :: callers
  located (depth s + 1) s

end Verif.Vdom.Warn
