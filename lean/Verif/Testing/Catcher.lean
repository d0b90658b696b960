/-!
# `HookCatcher`

Models `HookCatcher` (`/repo/src/reactpy/testing/common.py` 108–160): what a component decorated with `capture` does when it is called, and what
the catcher then holds.  A call is made in some task; the hook that is current there (`_life_cycle_hook.py` 49–54) is part of the call, see C83 for which it
is.  Positional and keyword arguments are values; a value has a hash or not, and values that are equal are the same here.
-/
namespace Verif.Testing.Catcher

/-- An argument: a value and whether it can be a key of a dictionary (common.py 156). -/
structure Val where
  val : Nat
  hashable : Bool
deriving DecidableEq, Repr

/-- A call of a decorated function (common.py 147): arguments, the current hook if there is one (154), whether the catcher still exists (150). -/
structure Call where
  args : List Val
  kwargs : List (String × Val)
  hook : Option Nat
  exists_ : Bool := true
deriving DecidableEq, Repr

/-- Exceptions: common.py 152; `_life_cycle_hook.py` 53; `kwargs[…]` and a key without a hash in common.py 156. -/
inductive Err where
  | collected
  | noHook
  | key
  | unhashable
deriving DecidableEq, Repr

/-- The attributes `index_by_kwarg`, `index` and `latest`, which does not exist at first (common.py 131–135). -/
structure Catcher where
  byKwarg : Option String
  index : List (Nat × Nat)
  latest : Option Nat
deriving DecidableEq, Repr

/-- `HookCatcher(index_by_kwarg)` (common.py 133–135). -/
def make (byKwarg : Option String) : Catcher := ⟨byKwarg, [], none⟩

/-- `self.index[k] = hook` (common.py 156): in place, or at the end. -/
def put (k h : Nat) : List (Nat × Nat) → List (Nat × Nat)
  | [] => [(k, h)]
  | p :: l => if p.1 = k then (k, h) :: l else p :: put k h l

/-- The `wrapper` of `capture` (common.py 147–158): the catcher, and the arguments with which the function is called. -/
def wrapper (c : Catcher) (a : Call) : Catcher × Except Err (List Val × List (String × Val)) :=
  if a.exists_ = false then (c, .error .collected)
  else match a.hook with
    | none => (c, .error .noHook)
    | some h =>
      match c.byKwarg with
      | none => ({ c with latest := some h }, .ok (a.args, a.kwargs))
      | some name =>
        match a.kwargs.lookup name with
        | none => (c, .error .key)
        | some v =>
          if v.hashable then ({ c with index := put v.val h c.index, latest := some h }, .ok (a.args, a.kwargs))
          else (c, .error .unhashable)

/-- Any calls of the functions decorated with one catcher (common.py 147–158). -/
def calls (c : Catcher) (l : List Call) : Catcher := l.foldl (fun c a => (wrapper c a).1) c

/-- `hooks.index.get(k)` (common.py 135). -/
def Catcher.get (c : Catcher) (k : Nat) : Option Nat := c.index.lookup k

end Verif.Testing.Catcher
