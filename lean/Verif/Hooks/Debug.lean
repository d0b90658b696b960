import Verif.Hooks.Infer
/-!
# `use_debug_value`

`/repo/src/reactpy/core/hooks.py` 294–322, with `use_memo` as in `Verif.Hooks.Infer`.
-/
namespace Verif.Hooks.Infer

/-- The state of the hook (hooks.py 316, 318): what was logged last (`none` is the initial `object()`) and the memo. -/
structure Debug (V R : Type) where
  old : Option R := none
  memo : Memo V R := {}

/-- The argument `message` (hooks.py 295): a callable or another value. -/
inductive Message (V : Type) where
  | value (v : V)
  | func (f : Fn V)

/-- `message if callable(message) else lambda: message` (hooks.py 317); the variable of the new function is `message`.  `const` is the number of this
function of the source. -/
def Message.fn {V} (const : Nat) : Message V → Fn V
  | .value v => { code := const, hooked := [some v], later := [some v] }
  | .func f => f

/-- `old.current != new` (hooks.py 320); an `object()` is taken to be unequal to everything. -/
def differs {G R} (ne : G → R → R → Bool) (g : G) : Option R → R → Bool
  | none, _ => true
  | some old, new => ne g old new

/-- What the function `lambda: message` of hooks.py 317 does. -/
def constant {V G} : Sem V G V := fun _ vars _ _ => match vars with
  | [some v] => .ok v
  | _ => .error ()

/-- `use_debug_value(message, dependencies)` (hooks.py 294–322).  `ne` is `!=` (320); it, and the text of a value (`text`, 322), may depend on the state of
mutable objects, which is in `G`.  Result: the state, and the line that is logged, if
no exception is raised. -/
def useDebugValue {V G R} (sem : Sem V G R) (eq : V → V → Bool) (ne : G → R → R → Bool) (text : G → R → String) (const : Nat) (debug : Bool)
    (s : Debug V R) (message : Message V) (dependencies : Given V) (g : G) : Debug V R × Except Unit (Option String) :=
  match useMemo sem eq s.memo { fn := message.fn const, given := dependencies } g with
  | (memo, .error e, _) => ({ s with memo }, .error e)
  | (memo, .ok none, _) => ({ s with memo }, .ok none)
  | (memo, .ok (some new), _) =>
    if debug && differs ne g s.old new then ({ old := some new, memo }, .ok (some (text g new)))
    else ({ s with memo }, .ok none)

/-- One render: whether debug mode is on, the message, the dependencies and everything else (hooks.py 294–322). -/
structure DebugRender (V G : Type) where
  debug : Bool
  message : Message V
  dependencies : Given V := .auto
  world : G

/-- The lines logged in a sequence of renders, one entry for each render (hooks.py 294–322). -/
def debugLog {V G R} (sem : Sem V G R) (eq : V → V → Bool) (ne : G → R → R → Bool) (text : G → R → String) (const : Nat) :
    Debug V R → List (DebugRender V G) → List (Except Unit (Option String))
  | _, [] => []
  | s, r :: rs =>
    let o := useDebugValue sem eq ne text const r.debug s r.message r.dependencies r.world
    o.2 :: debugLog sem eq ne text const o.1 rs

end Verif.Hooks.Infer
