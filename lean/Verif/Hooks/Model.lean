/-!
# Model of hook state: `LifeCycleHook.use_state` (`core/_life_cycle_hook.py`) and `use_state`,
`use_reducer`, `use_memo`, `use_callback`, `use_ref`, `use_effect` (scheduling only) and
`strictly_equal` of `core/hooks.py`
-/
namespace Verif.Hooks

/-! ## Cells: `LifeCycleHook.use_state`

Everything that hooks keep between renders is an object created by the function passed to
`use_state` (`_use_const`, hooks.py 571–572).  Objects are references into a heap; `V` is what an
object holds.  A history is a sequence of the following atomic events of any number of component
instances, in any order: a call of `use_state` in a render of instance `i` (with the outcome of
`function()`, should it be called), the end of a render of `i`, and an assignment to an object. -/

/-- `use_state` and the end of a render of component `i` (_life_cycle_hook.py 177–192, 227–233), and user code that writes to a state it holds. -/
inductive Op (V : Type) where
  | use (i : Nat) (init : Except Unit V)
  | did (i : Nat)
  | write (ref : Nat) (v : V)

/-- The fields of a `LifeCycleHook` that `use_state` uses (_life_cycle_hook.py 158–160). -/
structure Hook where
  rendered : Bool := false
  index : Nat := 0
  state : List Nat := []

/-- What happened: instance `i` got object `ref` at call position `k`; the object was `made` there with
value `v`; the call raised (`IndexError` of 190, or the exception of `function()`); end of a render. -/
inductive Ev (V : Type) where
  | made (i k ref : Nat) (v : V)
  | got (i k ref : Nat)
  | raised (i k : Nat)
  | did (i : Nat)
  | wrote (ref : Nat) (v : V)

/-- The states of all hooks (_life_cycle_hook.py 160), as a heap of references. -/
structure World (V : Type) where
  heap : List V := []
  hooks : Nat → Hook := fun _ => {}
  log : List (Ev V) := []

/-- Assignment of one entry of a map (auxiliary, no code of /repo). -/
def World.set {V} (w : World V) (i : Nat) (h : Hook) : Nat → Hook := fun j => if j = i then h else w.hooks j

/-- One event: `LifeCycleHook.use_state` (177–192), the bookkeeping of `affect_component_did_render`
(230–231), an assignment.  The log is newest first. -/
def World.step {V} (w : World V) : Op V → World V
  | .use i init =>
    let h := w.hooks i
    if h.rendered = false then
      match init with
      | .error _ => { w with log := .raised i h.index :: w.log }
      | .ok v =>
        let ref := w.heap.length
        { heap := w.heap ++ [v]
          hooks := w.set i { h with state := h.state ++ [ref], index := h.index + 1 }
          log := .got i h.index ref :: .made i h.index ref v :: w.log }
    else
      match h.state[h.index]? with
      | none => { w with log := .raised i h.index :: w.log }
      | some ref =>
        { w with
          hooks := w.set i { h with index := h.index + 1 }
          log := .got i h.index ref :: w.log }
  | .did i => { w with hooks := w.set i { w.hooks i with rendered := true, index := 0 }, log := .did i :: w.log }
  | .write ref v => { w with heap := w.heap.set ref v, log := .wrote ref v :: w.log }

/-- Any sequence of operations (_life_cycle_hook.py 177–233). -/
def World.run {V} (w : World V) (ops : List (Op V)) : World V := ops.foldl World.step w

/-! ## One state cell: `use_state` / `use_reducer` -/

/-- An argument of a setter: a value, or a callable applied to the current value (hooks.py 91), which
may raise. -/
inductive Upd (S : Type) where
  | val (s : S)
  | fn (f : S → Except Unit S)

/-- `next_value = new(self.value) if callable(new) else new` (hooks.py 91). -/
def Upd.next {S} (s : S) : Upd S → Except Unit S
  | .val v => .ok v
  | .fn f => f s

/-- `dispatch` (hooks.py 90–94).  Result: the new value and whether a render was scheduled. -/
def dispatch {S} (eq : S → S → Bool) (s : S) (u : Upd S) : S × Bool :=
  match u.next s with
  | .error _ => (s, false)
  | .ok next => if eq next s then (s, false) else (next, true)

/-- A history of a state cell: setter calls, and renders, which read the value (77). -/
inductive SOp (S : Type) where
  | set (u : Upd S)
  | render

/-- The values read by the renders, and the final value. Any history of hooks.py 62–103. -/
def runState {S} (eq : S → S → Bool) (s : S) : List (SOp S) → List S × S
  | [] => ([], s)
  | .set u :: ops => runState eq (dispatch eq s u).1 ops
  | .render :: ops => let r := runState eq s ops; (s :: r.1, r.2)

/-- A history of `use_reducer` (392–419): renders pass a reducer, `dispatch` an action. -/
inductive ROp (S A : Type) where
  | render (reducer : S → A → S)
  | dispatch (a : A)

/-- The cell of `_use_const(lambda: _create_dispatcher(reducer, set_state))` (409) keeps the reducer of
the first render; before the first render there is no dispatcher. -/
def runReducer {S A} (eq : S → S → Bool) (s : S) (kept : Option (S → A → S)) : List (ROp S A) → S
  | [] => s
  | .render r :: ops => runReducer eq s (kept.or (some r)) ops
  | .dispatch a :: ops => match kept with
    | none => runReducer eq s kept ops
    | some r => runReducer eq (dispatch eq s (.fn (fun x => .ok (r x a)))).1 kept ops

/-! ## `use_memo` -/

/-- `_Memo` (542–556): `value = none` is `empty()`. -/
structure Memo (D V : Type) where
  value : Option V := none
  deps : List D := []

/-- `len(memo.deps) != len(dependencies) or not all(strictly_equal(...))` (516–521), negated. -/
def sameDeps {D} (eq : D → D → Bool) (a b : List D) : Bool :=
  a.length == b.length && (a.zip b).all (fun p => eq p.1 p.2)

/-- The decision part of `use_memo` (506–526): the updated memo and `changed`.  `dependencies = none`
is `None`. -/
def Memo.check {D V} (eq : D → D → Bool) (m : Memo D V) (dependencies : Option (List D)) : Memo D V × Bool :=
  match m.value with
  | none => ({ m with deps := dependencies.getD [] }, true)
  | some _ => match dependencies with
    | none => ({ m with deps := [] }, true)
    | some d => if sameDeps eq m.deps d then (m, false) else ({ m with deps := d }, true)

/-- `use_memo(function, dependencies)` (486–539).  `out`: what `function()` does, should it be called;
an exception propagates to the component.  Result: memo, result, whether the function was called. -/
def Memo.use {D V} (eq : D → D → Bool) (m : Memo D V) (dependencies : Option (List D)) (out : Except Unit V) :
    Memo D V × Except Unit (Option V) × Bool :=
  match m.check eq dependencies with
  | (m', true) => match out with
    | .ok v => ({ m' with value := some v }, .ok (some v), true)
    | .error e => (m', .error e, true)
  | (m', false) => (m', .ok m'.value, false)

/-- The memo after the renders `rs`, oldest first. Any history of renders of hooks.py 486–547. -/
def Memo.run {D V} (eq : D → D → Bool) (rs : List (Option (List D) × Except Unit V)) : Memo D V :=
  rs.foldl (fun m r => (m.use eq r.1 r.2).1) {}

/-! ## Scheduling of effects -/

/-- `memoize(lambda: hook.add_effect(effect))` (170, 285) in each render, and
`affect_layout_did_render` after it (_life_cycle_hook.py 235–240), for one `use_effect`: the list of
renders (numbered from `n`) whose effect function was started. -/
def startedEffects {D} (eq : D → D → Bool) (m : Memo D Unit) (n : Nat) : List (Option (List D)) → List Nat
  | [] => []
  | d :: ds =>
    let r := m.use eq d (.ok ())
    (if r.2.2 then [n] else []) ++ startedEffects eq r.1 (n + 1) ds

/-! ## `strictly_equal` -/

/-- What `strictly_equal` (591–644) looks at in a Python object, and (last field) something it does
not look at.  `code` are the compared `co_*` attributes. -/
structure Obj where
  identity : Nat
  type : Nat
  qualname : String := ""
  code : Option Nat := none
  closure : List Nat := []
deriving DecidableEq, Repr

/-- `p in s` for strings. (Python, as used by `strictly_equal`) -/
def substr (p : List Char) : List Char → Bool
  | [] => p.isEmpty
  | c :: s => p.isPrefixOf (c :: s) || substr p s

/-- `"<lambda>" in q or "<locals>" in q` (hooks.py 612–613). -/
def isLocalName (q : String) : Bool := substr "<lambda>".toList q.toList || substr "<locals>".toList q.toList

/-- `strictly_equal` (591–644); `pyEq x y = none`: `x == y` raises. -/
def strictlyEqual (local? : String → Bool) (pyEq : Obj → Obj → Option Bool) (x y : Obj) : Bool :=
  if x.type ≠ y.type then false
  else if x.qualname ≠ "" ∧ y.qualname ≠ "" ∧ local? x.qualname ∧ local? y.qualname ∧ x.code.isSome ∧ y.code.isSome then
    x.qualname == y.qualname && x.code == y.code
  else match pyEq x y with
    | some b => b
    | none => x.identity == y.identity

end Verif.Hooks
