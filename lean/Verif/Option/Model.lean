/-!
# Model of `src/reactpy/_option.py`

`V` is the type of Python objects that can be option values; equality of `V` is object identity
(`is`), and `ne` is Python's `!=` on them (arbitrary: `__ne__` is user code).  The subscribers of an
option are kept in its list of children: a plain callback (`user`, with everything it was called
with) or the `set_current` method of a child option (line 38), which is why options with parents
form a tree.  Not modelled: logging, names and messages, `DeprecatedOption` (it only warns).
-/
namespace Verif.Option

/-- The exceptions: `TypeError` (36, 80, 100, 129), `ValueError` of a validator (104–105), any other
exception of a validator or a subscriber, and the `AttributeError` of 119. -/
inductive Err where
  | type
  | value
  | other
  | attribute
deriving DecidableEq, Repr

/-- The fixed fields of an `Option` (18–42). -/
structure Info (V : Type) where
  mutable : Bool
  validator : V → Except Err V
  default : V

/-- A subscriber: a callback (`raises v`: it raises when called with `v`; `got`: the calls so far),
or a child option. _option.py 29, 38, 81. -/
inductive Tree (V : Type) where
  | user (raises : V → Bool) (got : List V)
  | opt (info : Info V) (current : Option V) (subs : List (Tree V))

/-- `Option.current` (62–66): `_current` if the attribute exists, else the default. -/
def Tree.value {V} : Tree V → Option V
  | .user _ _ => none
  | .opt i c _ => some (c.getD i.default)

section
variable {V : Type} [DecidableEq V] (ne : V → V → Bool)

mutual
/-- Calling a subscriber with a value; for an option this is `set_current` (89–110). -/
def call (new : V) : Tree V → Tree V × Option Err
  | .user raises got => (.user raises (got ++ [new]), if raises new then some .other else none)
  | .opt i c subs =>
    let old := c.getD i.default
    if new = old then (.opt i c subs, none)
    else if i.mutable = false then (.opt i c subs, some .type)
    else match i.validator new with
      | .error e => (.opt i c subs, some e)
      | .ok new' =>
        if ne new' old then
          let r := callAll new' subs
          (.opt i (some new') r.1, r.2)
        else (.opt i (some new') subs, none)
/-- The loop 109–110 (and 134–135): the first exception ends it. -/
def callAll (new : V) : List (Tree V) → List (Tree V) × Option Err
  | [] => ([], none)
  | s :: ss =>
    match call new s with
    | (s', some e) => (s' :: ss, some e)
    | (s', none) => let r := callAll new ss; (s' :: r.1, r.2)
end

/-- What a caller can do with one option.  `reload`'s argument is the environment variable (123).
`child` constructs a new option with this one as its parent; its argument `env` is the new option's
own environment variable. -/
inductive Act (V : Type) where
  | set (v : V)
  | unset
  | reload (env : Option V)
  | setDefault (v : V)
  | subscribe (raises : V → Bool)
  | child (mutable : Bool) (validator : V → Except Err V) (env : Option V)

/-- `unset` (125–135). -/
def unset (i : Info V) (c : Option V) (subs : List (Tree V)) : Tree V × Except Err (Option V) :=
  if i.mutable = false then (.opt i c subs, .error .type)
  else
    let old := c.getD i.default
    if ne i.default old then
      let r := callAll ne i.default subs
      (.opt i none r.1, match r.2 with | some e => .error e | none => .ok none)
    else (.opt i none subs, .ok none)

/-- `set_current` as a method call by the user. _option.py 89–110. -/
def setTo (v : V) (t : Tree V) : Tree V × Except Err (Option V) :=
  let r := call ne v t
  (r.1, match r.2 with | some e => .error e | none => .ok none)

/-- `return self._current` (119). -/
def current! : Tree V → Except Err (Option V)
  | .opt _ (some v) _ => .ok (some v)
  | _ => .error .attribute

/-- `set_default` (112–119). -/
def setDefault (v : V) (i : Info V) (c : Option V) (subs : List (Tree V)) : Tree V × Except Err (Option V) :=
  match c with
  | some w => (.opt i (some w) subs, .ok (some w))
  | none =>
    match call ne v (.opt i none subs) with
    | (t, some e) => (t, .error e)
    | (t, none) => (t, current! t)

/-- Append a subscriber and call it (76–83). -/
def subscribe (s : Tree V) (i : Info V) (c : Option V) (subs : List (Tree V)) : Tree V × Except Err (Option V) :=
  if i.mutable = false then (.opt i c subs, .error .type)
  else
    let r := call ne (c.getD i.default) s
    (.opt i c (subs ++ [r.1]), match r.2 with | some e => .error e | none => .ok none)

/-- `Option.__init__` (18–44) for an option without parent. -/
def create (mutable : Bool) (validator : V → Except Err V) (default : V) (env : Option V) : Except Err (Tree V) :=
  match env with
  | none => .ok (.opt ⟨mutable, validator, default⟩ none [])
  | some s => match validator s with
    | .error e => .error e
    | .ok v => .ok (.opt ⟨mutable, validator, default⟩ (some v) [])

/-- `Option.__init__` (18–44) with `parent` the option `i c subs`. -/
def createChild (mutable : Bool) (validator : V → Except Err V) (env : Option V)
    (i : Info V) (c : Option V) (subs : List (Tree V)) : Tree V × Except Err (Option V) :=
  match create mutable validator i.default env with
  | .error e => (.opt i c subs, .error e)
  | .ok t =>
    if i.mutable && mutable then subscribe ne t i c subs
    else (.opt i c subs, .error .type)

/-- One action on the option at the root of a tree. _option.py 18–135. -/
def act : Act V → Tree V → Tree V × Except Err (Option V)
  | _, .user raises got => (.user raises got, .ok none)
  | .set v, t => setTo ne v t
  | .unset, .opt i c subs => unset ne i c subs
  | .reload env, .opt i c subs => setTo ne (env.getD i.default) (.opt i c subs)
  | .setDefault v, .opt i c subs => setDefault ne v i c subs
  | .subscribe raises, .opt i c subs => subscribe ne (.user raises []) i c subs
  | .child m f env, .opt i c subs => createChild ne m f env i c subs

mutual
/-- An action on the option reached by a path of subscriber indices.
The option is any of those connected by `parent=` (_option.py 34–38). -/
def actAt (a : Act V) : List Nat → Tree V → Tree V × Except Err (Option V)
  | [], t => act ne a t
  | _ :: _, .user raises got => (.user raises got, .ok none)
  | n :: p, .opt i c subs => let r := actAtL a p n subs; (.opt i c r.1, r.2)
/-- As `actAt`, for a list of subscribers (_option.py 29). -/
def actAtL (a : Act V) (p : List Nat) : Nat → List (Tree V) → List (Tree V) × Except Err (Option V)
  | _, [] => ([], .ok none)
  | 0, s :: ss => let r := actAt a p s; (r.1 :: ss, r.2)
  | n + 1, s :: ss => let r := actAtL a p n ss; (s :: r.1, r.2)
end

/-- A sequence of actions; whether each one raised is recorded (newest first). Any history of _option.py 18–135. -/
def run (t : Tree V) : List (List Nat × Act V) → Tree V × List (Except Err (Option V))
  | [] => (t, [])
  | (p, a) :: ops => let r := actAt ne a p t; let q := run r.1 ops; (q.1, r.2 :: q.2)
end
end Verif.Option
