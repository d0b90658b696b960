import Verif.Hooks.Model
/-!
# Swapping what a page shows: `_hotswap`

`/repo/src/reactpy/testing/backend.py` 167–246.  Views of the root component are numbered; what the layout does with them are events in any order.  A
constructor is a value of `K`.  The hooks are those of C20 (`dispatch`), C21 and C25: the setter is made once for each view, and the effect runs once,
some time after the first render.
-/
namespace Verif.Testing
open Verif.Hooks

/-- What can happen: the first render of a view, its effect running (backend.py 212–216), a swap (220–224, 232–233), a further render, and unmounting
(cleanup, 214). -/
inductive SwapEv (K : Type) where
  | mount (v : Nat)
  | listen (v : Nat)
  | swap (c : Option K)
  | render (v : Nat)
  | unmount (v : Nat)

/-- A view: its state (backend.py 209), the constructor that the last render called (218), and whether a render is scheduled. -/
structure View (K : Type) where
  value : K
  shown : K
  scheduled : Bool

/-- `constructor_ref.current` (backend.py 201), the views, and those whose setter is in `set_constructor_callbacks` (204). -/
structure SwapState (K : Type) where
  current : K
  views : Nat → Option (View K)
  callbacks : Nat → Bool

/-- Changing one entry. (Python's dict and set; the views of the layout) -/
def upd {A : Type} (f : Nat → A) (v : Nat) (a : A) : Nat → A := fun w => if w = v then a else f w

/-- `set_constructor(constructor)` (backend.py 210): the argument of the setter is a function, so that the constructor is not called. -/
def View.set {K : Type} (eq : K → K → Bool) (c : K) (w : View K) : View K :=
  let r := dispatch eq w.value (.fn fun _ => .ok c)
  { w with value := r.1, scheduled := w.scheduled || r.2 }

/-- One event, with `update_on_change=True` (backend.py 203–224); `none'` is `lambda: None` (221). -/
def swapStep {K : Type} (eq : K → K → Bool) (none' : K) (s : SwapState K) : SwapEv K → SwapState K
  | .mount v => match s.views v with
    | none => { s with views := upd s.views v (some ⟨s.current, s.current, false⟩) }
    | some _ => s
  | .listen v => match s.views v with
    | some _ => { s with callbacks := upd s.callbacks v true }
    | none => s
  -- 220–224
  | .swap c =>
    let c := c.getD none'
    { s with current := c, views := fun v => if s.callbacks v then (s.views v).map (View.set eq c) else s.views v }
  | .render v => { s with views := upd s.views v ((s.views v).map fun w => { w with shown := w.value, scheduled := false }) }
  | .unmount v => { s with views := upd s.views v none, callbacks := upd s.callbacks v false }

/-- `_hotswap(update_on_change=True)` and any events after it (backend.py 201–224). -/
def swaps {K : Type} (eq : K → K → Bool) (none' init : K) (es : List (SwapEv K)) : SwapState K :=
  es.foldl (swapStep eq none') ⟨init, fun _ => none, fun _ => false⟩

/-- One event, without it (backend.py 226–233), for what each view shows: every render calls the constructor of that moment. -/
def plainStep {K : Type} (none' : K) (s : K × (Nat → Option K)) : SwapEv K → K × (Nat → Option K)
  | .mount v => match s.2 v with
    | none => (s.1, upd s.2 v (some s.1))
    | some _ => s
  | .listen _ => s
  | .swap c => (c.getD none', s.2)
  | .render v => (s.1, upd s.2 v ((s.2 v).map fun _ => s.1))
  | .unmount v => (s.1, upd s.2 v none)

/-- `_hotswap()` and any events after it (backend.py 201, 226–235). -/
def plainSwaps {K : Type} (none' init : K) (es : List (SwapEv K)) : K × (Nat → Option K) :=
  es.foldl (plainStep none') (init, fun _ => none)

end Verif.Testing
