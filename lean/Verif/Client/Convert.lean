/-!
# Converting an event to plain data: /repo/src/js/packages/event-to-object/src/index.ts

JavaScript objects live in a heap, a function from identities to objects; it may be infinite, since a getter
may make a new object at each step.  A read of a property may raise.  Reading a property twice gives the same
value (a simplification).  The model runs in a browser: `window`, `Node`, `CSSStyleSheet` and so on exist.

`clone` takes fuel, and `Res.diverge` is the result of running out of it; the theorems show how much fuel
suffices, that is, that the program terminates.
-/
namespace Verif.Client.Convert

/-- A JavaScript value that is neither `null`, `undefined`, a function nor an object. Input of index.ts 6. -/
inductive Prim
  | str (s : String)
  | num (n : Int)
  | bool (b : Bool)
  deriving DecidableEq, Repr

/-- A JavaScript value; an object is an identity in the heap. Input of index.ts 6. -/
inductive Val
  | undef
  | null
  | func
  | prim (p : Prim)
  | obj (id : Nat)
  deriving DecidableEq, Repr

/-- A property of an object; `none` if reading it raises. Read at index.ts 26, 174. -/
structure Field where
  key : String
  val : Option Val
  deriving DecidableEq, Repr

/-- An object, with what the program asks of it (the `instanceof` tests, `Symbol.iterator`, the string tag). -/
structure Obj where
  /-- properties a `for … in` loop visits, inherited ones included -/
  fields : List Field := []
  /-- other properties, for which `in` holds -/
  hidden : List Field := []
  isArray : Bool := false
  /-- `typeof x.length === "number"`; `none` if reading it raises -/
  hasLength : Option Bool := some false
  iterable : Bool := false
  mapTag : Bool := false
  /-- `x[0]`, …, `x[x.length - 1]` -/
  items : List (Option Val) := []
  /-- the members of `x.elements`, if `x` is an `HTMLFormElement` -/
  form : Option (List Nat) := none
  isStyleSheet : Bool := false
  isWindow : Bool := false
  isDocument : Bool := false
  isNode : Bool := false
  isStyleDecl : Bool := false
  deriving DecidableEq, Repr

/-- The objects that index.ts 6 may be given and what they refer to. -/
abbrev Heap := Nat → Obj

/-- `prop in x` and `x[prop]`: `none` when the property is absent, `some none` when reading it raises.
(JavaScript, as at index.ts 193–261) -/
def Obj.get (x : Obj) (k : String) : Option (Option Val) :=
  ((x.fields ++ x.hidden).find? (fun f => f.key == k)).map (·.val)

/-- The data made.  A leaf carries the source value as it is: that no leaf is an object or a function is a
theorem, not a fact about this type. The result of index.ts 6–55. -/
inductive Tree
  | leaf (v : Val)
  | arr (xs : List Tree)
  | obj (fs : List (String × Tree))

/-- index.ts 1: `maxDepthSignal`, as a value. -/
def signalTree : Tree := .obj [("__stop__", .leaf (.prim (.bool true)))]

/-- How a call ends. (`signal`: index.ts 1, 99, 108; `throws`: caught at 40, 189) -/
inductive Res (α : Type)
  | ok (a : α)
  | signal
  | throws
  | diverge

/-- Out of fuel. (Auxiliary: the code has no fuel.) -/
@[simp] def Res.stuck {α : Type} : Res α → Bool
  | .diverge => true
  | _ => false

/-- index.ts 293–321: the names ignored on nodes. -/
def nodeBlacklist : List String :=
  ["parentNode", "parentElement", "ownerDocument", "getRootNode", "childNodes", "children", "firstChild", "lastChild",
   "previousSibling", "nextSibling", "previousElementSibling", "nextElementSibling", "innerHTML", "outerHTML",
   "offsetParent", "offsetWidth", "offsetHeight", "offsetLeft", "offsetTop", "clientTop", "clientLeft", "clientWidth",
   "clientHeight", "scrollWidth", "scrollHeight", "scrollTop", "scrollLeft"]

/-- index.ts 269–323 `shouldIgnoreValue`. -/
def shouldIgnore (h : Heap) (v : Val) (key : String := "") (parent : Option Obj := none) : Bool :=
  v == .null || v == .undef || key.startsWith "__" ||
  (key.length > 0 && key.toList.all (fun c => ('A' ≤ c && c ≤ 'Z') || c == '_')) ||
  v == .func ||
  (match v with
    | .obj i => (h i).isStyleSheet || (h i).isWindow || (h i).isDocument
    | _ => false) ||
  key == "view" || key == "size" || key == "length" ||
  (match parent with
    | some p => (p.isStyleDecl && v == .prim (.str "")) || (p.isNode && nodeBlacklist.contains key)
    | none => false)

/-- `typeof v === "object"`. index.ts 30, 98, 103. -/
def isObject : Val → Bool
  | .null => true
  | .obj _ => true
  | _ => false

/-- `prop in convertedObj`, index.ts 209–261. -/
def hasKey (r : List (String × Tree)) (k : String) : Bool := r.any (fun p => p.1 == k)

/-- index.ts 134–160 `classToArray`.  `rec` is `deepCloneClass` at this depth. -/
def toArray (h : Heap) (rec : Val → Res Tree) : List (Option Val) → List Tree → Res (List Tree)
  | [], acc => .ok acc
  | none :: _, _ => .throws
  | some v :: rest, acc =>
    if shouldIgnore h v then toArray h rec rest acc
    else if isObject v then
      match rec v with
      | .ok t => toArray h rec rest (acc ++ [t])
      | .signal => toArray h rec rest acc
      | .throws => .throws
      | .diverge => .diverge
    else toArray h rec rest (acc ++ [.leaf v])

/-- The loop of index.ts 171–191 (and 23–43): each key in a `try`, so an exception only skips the key. -/
def forIn (h : Heap) (rec : Val → Res Tree) (parent : Option Obj) : List Field → List (String × Tree) → Res (List (String × Tree))
  | [], acc => .ok acc
  | f :: rest, acc =>
    match f.val with
    | none => forIn h rec parent rest acc
    | some v =>
      if shouldIgnore h v f.key parent then forIn h rec parent rest acc
      else if isObject v then
        match rec v with
        | .ok t => forIn h rec parent rest (acc ++ [(f.key, t)])
        | .signal => forIn h rec parent rest acc
        | .throws => forIn h rec parent rest acc
        | .diverge => .diverge
      else forIn h rec parent rest (acc ++ [(f.key, .leaf v)])

/-- index.ts 193–207: `dataset`, which is cloned whatever its type. -/
def addDataset (h : Heap) (rec : Val → Res Tree) (x : Obj) (acc : List (String × Tree)) : Res (List (String × Tree)) :=
  match x.get "dataset" with
  | none => .ok acc
  | some r =>
    if hasKey acc "dataset" then .ok acc
    else
      match r with
      | none => .throws
      | some v =>
        if shouldIgnore h v "dataset" (some x) then .ok acc
        else
          match rec v with
          | .ok t => .ok (acc ++ [("dataset", t)])
          | .signal => .ok acc
          | .throws => .throws
          | .diverge => .diverge

/-- index.ts 209–233: the extra properties; `recFiles` is `deepCloneClass` at depth `max(maxDepth, 3)`. -/
def addExtras (h : Heap) (rec recFiles : Val → Res Tree) (x : Obj) : List String → List (String × Tree) → Res (List (String × Tree))
  | [], acc => .ok acc
  | p :: rest, acc =>
    match x.get p with
    | none => addExtras h rec recFiles x rest acc
    | some r =>
      if hasKey acc p then addExtras h rec recFiles x rest acc
      else
        match r with
        | none => .throws
        | some v =>
          if shouldIgnore h v p (some x) then addExtras h rec recFiles x rest acc
          else if isObject v then
            match (if p == "files" then recFiles v else rec v) with
            | .ok t => addExtras h rec recFiles x rest (acc ++ [(p, t)])
            | .signal => addExtras h rec recFiles x rest acc
            | .throws => .throws
            | .diverge => .diverge
          else addExtras h rec recFiles x rest (acc ++ [(p, .leaf v)])

/-- index.ts 209–233. -/
def extraProps : List String := ["value", "checked", "files", "type", "name"]

/-- index.ts 235–261: form elements by name.  `element.name` is a string (it reflects an attribute). -/
def addForm (h : Heap) (rec : Val → Res Tree) (x : Obj) : List Nat → List (String × Tree) → Res (List (String × Tree))
  | [], acc => .ok acc
  | e :: rest, acc =>
    match (h e).get "name" with
    | some (some (.prim (.str n))) =>
      if n ≠ "" ∧ hasKey acc n = false ∧ shouldIgnore h (.obj e) n (some x) = false then
        match rec (.obj e) with
        | .ok t => addForm h rec x rest (acc ++ [(n, t)])
        | .signal => addForm h rec x rest acc
        | .throws => .throws
        | .diverge => .diverge
      else addForm h rec x rest acc
    | some none => .throws
    | _ => addForm h rec x rest acc

/-- Exceptions propagate (JavaScript). -/
def Res.bind {α β : Type} (r : Res α) (k : α → Res β) : Res β :=
  match r with
  | .ok a => k a
  | .signal => .signal
  | .throws => .throws
  | .diverge => .diverge

/-- index.ts 165–264 `classToObject`. -/
def toObject (h : Heap) (rec recFiles : Val → Res Tree) (x : Obj) : Res (List (String × Tree)) :=
  (forIn h rec (some x) x.fields []).bind fun r1 =>
  (addDataset h rec x r1).bind fun r2 =>
  (addExtras h rec recFiles x extraProps r2).bind fun r3 =>
  match x.form with
  | none => .ok r3
  | some es => addForm h rec x es r3

/-- index.ts 114–121: is `x` array-like?  `none` if the test raises. -/
def arrayLike (x : Obj) : Option Bool :=
  if x.isArray then some true
  else
    match x.hasLength with
    | none => none
    | some l => some (l && x.iterable && !x.mapTag && !x.isStyleDecl)

/-- index.ts 90–131 `deepCloneClass`.  `visited` is the set of objects being cloned (`finally` removes `x`). -/
def clone (h : Heap) : Nat → Int → List Nat → Val → Res Tree
  | 0, _, _, _ => .diverge
  | fuel + 1, depth, visited, v =>
    let maxDepth := depth - 1
    if maxDepth ≤ 0 ∧ isObject v = true then .signal
    else
      match v with
      | .obj i =>
        if visited.contains i then .signal
        else
          match arrayLike (h i) with
          | none => .throws
          | some true => (toArray h (clone h fuel maxDepth (i :: visited)) (h i).items []).bind (fun xs => .ok (.arr xs))
          | some false =>
            (toObject h (clone h fuel maxDepth (i :: visited)) (clone h fuel (max maxDepth 3) (i :: visited)) (h i)).bind
              (fun fs => .ok (.obj fs))
      | v => .ok (.leaf v)

/-- What `window.getSelection()` holds: the nodes (`null` is `none`), and the rest as leaves. index.ts 67–84. -/
structure Selection where
  anchor : Option Nat
  focus : Option Nat
  rest : List (String × Prim) := []
  deriving Repr

/-- A selection node: a clone, in which the depth signal stays as it is. index.ts 73–79. -/
def selNode (h : Heap) (fuel : Nat) (depth : Int) (visited : List Nat) : Option Nat → Res Tree
  | none => .ok (.leaf .null)
  | some i =>
    match clone h fuel depth visited (.obj i) with
    | .signal => .ok signalTree
    | r => r

/-- index.ts 60–84 `serializeSelection`; the selection is a parameter. -/
def selectionTree (h : Heap) (fuel : Nat) (depth : Int) (visited : List Nat) (sel : Option Selection) : Res Tree :=
  match sel with
  | none => .ok (.leaf .null)
  | some s =>
    (selNode h fuel depth visited s.anchor).bind fun a =>
    (selNode h fuel depth visited s.focus).bind fun f =>
    .ok (.obj (("anchorNode", a) :: ("focusNode", f) :: s.rest.map (fun p => (p.1, .leaf (.prim p.2)))))

/-- index.ts 6–55 `convert`.  `sel` is `some` selection state when the object is an `Event`.
A `selection` property of the object itself is replaced (its place among the keys is not modelled). -/
def convert (h : Heap) (fuel : Nat) (depth : Int) (sel : Option (Option Selection)) (v : Val) : Res Tree :=
  match v with
  | .obj i =>
    (forIn h (clone h fuel depth [i]) none (h i).fields []).bind fun r =>
    match sel with
    | none => .ok (.obj r)
    | some s => (selectionTree h fuel depth [i] s).bind fun t => .ok (.obj (r.filter (fun p => !(p.1 == "selection")) ++ [("selection", t)]))
  | v => .ok (.leaf v)

/-! ## Specification -/

/-- Nesting depth: plain values 0, an object or array one more than its members. -/
def Tree.depth : Tree → Nat
  | .leaf _ => 0
  | .arr xs => 1 + depthL xs
  | .obj fs => 1 + depthF fs
where
  depthL : List Tree → Nat
    | [] => 0
    | t :: ts => max t.depth (depthL ts)
  depthF : List (String × Tree) → Nat
    | [] => 0
    | (_, t) :: ts => max t.depth (depthF ts)

/-- Every leaf satisfies `P`. Specification, not code of /repo. -/
def Tree.leaves (P : Val → Prop) : Tree → Prop
  | .leaf v => P v
  | .arr xs => leavesL P xs
  | .obj fs => leavesF P fs
where
  leavesL (P : Val → Prop) : List Tree → Prop
    | [] => True
    | t :: ts => t.leaves P ∧ leavesL P ts
  leavesF (P : Val → Prop) : List (String × Tree) → Prop
    | [] => True
    | (_, t) :: ts => t.leaves P ∧ leavesF P ts

/-- The values an object leads to. Specification, not code of /repo. -/
def Obj.refs (x : Obj) : List Val :=
  (x.fields ++ x.hidden).filterMap (·.val) ++ x.items.filterMap id ++ (x.form.getD []).map .obj

/-- The heap is finite: from objects below `n` only objects below `n` are reached. Specification, not code of /repo. -/
def Finite (h : Heap) (n : Nat) : Prop := ∀ i, i < n → ∀ j, Val.obj j ∈ (h i).refs → j < n

/-- No object has an object under `files`. Specification, not code of /repo. -/
def NoFiles (h : Heap) : Prop := ∀ i j, (h i).get "files" ≠ some (some (.obj j))

end Verif.Client.Convert
