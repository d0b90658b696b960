import Verif.Hooks.Model
/-!
# Dependencies in a list that the component keeps

`/repo/src/reactpy/core/hooks.py` 486–547: `use_memo` keeps the sequence it is given, not a copy.  Here sequences are objects with
contents that may change between renders.
-/
namespace Verif.Hooks

/-- `_Memo` (hooks.py 542–556), with `deps` as a reference; `none` is the `()` of 511 and 514. -/
structure MemoRef (V : Type) where
  value : Option V := none
  deps : Option Nat := none

/-- `use_memo(function, dependencies)` (hooks.py 486–539): `heap` has the contents of the sequences at this time, `dependencies` is a reference or
`None`. -/
def MemoRef.use {D V} (eq : D → D → Bool) (heap : Nat → List D) (m : MemoRef V) (dependencies : Option Nat) (out : Except Unit V) :
    MemoRef V × Except Unit (Option V) × Bool :=
  let r : MemoRef V × Bool := match m.value with
    | none => ({ m with deps := dependencies }, true)
    | some _ => match dependencies with
      | none => ({ m with deps := none }, true)
      | some d =>
        if sameDeps eq ((m.deps.map heap).getD []) (heap d) then (m, false) else ({ m with deps := some d }, true)
  if r.2 then
    match out with
    | .ok v => ({ r.1 with value := some v }, .ok (some v), true)
    | .error e => (r.1, .error e, true)
  else (r.1, .ok r.1.value, false)

/-- The memo after renders, oldest first (hooks.py 486–547); each has its own contents of the sequences. -/
def MemoRef.run {D V} (eq : D → D → Bool) (rs : List ((Nat → List D) × Option Nat × Except Unit V)) : MemoRef V :=
  rs.foldl (fun m r => (m.use eq r.1 r.2.1 r.2.2).1) {}

end Verif.Hooks
