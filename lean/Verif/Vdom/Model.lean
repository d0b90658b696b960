/-!
# Model of `src/reactpy/core/vdom.py` (element constructors), the custom constructors of
`src/reactpy/_html.py`, and `VdomDict` of `src/reactpy/types.py`
-/
namespace Verif.Vdom

/-- Python objects by the distinctions the constructors make.  `str`: plain strings; `js`: instances of
`InlineJavaScript` (types.py 927, a subclass of `str`); `dict`: objects whose type is exactly `dict`;
`mapping`: other `Mapping`s (a `VdomDict`); `iter`: other objects with `__iter__`, with what they
yield (assumed finite and without exceptions); `fn`: callables; `handler`: `BaseEventHandler`s;
`other`: anything else (numbers, `None`, components).  Simplification: a callable or a handler has no
`__iter__`. -/
inductive Val where
  | str (s : String)
  | js (s : String)
  | dict (entries : List (String × Val))
  | mapping (n : Nat)
  | iter (items : List Val)
  | fn (n : Nat)
  | handler (n : Nat)
  | other (n : Nat)
deriving Repr, Inhabited

/-- `_is_single_child` (vdom.py 260–265; the warnings of 263–264 have no effect on the result). -/
def isSingle : Val → Bool
  | .iter _ => false
  | _ => true

mutual
/-- `_flatten_children` (250–257), for one child. -/
def flattenOne : Val → List Val
  | .iter l => flatten l
  | .str s => [.str s]
  | .js s => [.js s]
  | .dict e => [.dict e]
  | .mapping n => [.mapping n]
  | .fn n => [.fn n]
  | .handler n => [.handler n]
  | .other n => [.other n]
/-- `_flatten_children` (250–257). -/
def flatten : List Val → List Val
  | [] => []
  | v :: vs => flattenOne v ++ flatten vs
end

/-- `separate_attributes_and_children` (209–225). -/
def separate (values : List Val) : List (String × Val) × List Val :=
  match values with
  | [] => ([], [])
  | .dict a :: rest => (a, flatten rest)
  | values => ([], flatten values)

/-- What an event handler dict holds: a given handler, or `EventHandler(to_event_handler_function(v))`
of a callable (237). -/
inductive HVal where
  | wrapped (n : Nat)
  | given (n : Nat)
deriving DecidableEq, Repr

/-- `EVENT_ATTRIBUTE_PATTERN.match` (34, 240): `^on[A-Z]\w+`; `word` is the class `\w`. -/
def isEventName (word : Char → Bool) (k : String) : Bool :=
  match k.toList with
  | 'o' :: 'n' :: c :: d :: _ => ('A' ≤ c && c ≤ 'Z') && word d
  | _ => false

/-- The three dicts of `separate_attributes_handlers_and_inline_javascript` (231–233). -/
structure Parts where
  attributes : List (String × Val) := []
  handlers : List (String × HVal) := []
  inlineJs : List (String × String) := []
deriving Inhabited

/-- One iteration of the loop 235–245.  The keys of a dict are distinct, so every assignment appends. -/
def Parts.add (word : Char → Bool) (p : Parts) (kv : String × Val) : Parts :=
  match kv.2 with
  | .fn n => { p with handlers := p.handlers ++ [(kv.1, .wrapped n)] }
  | .handler n => { p with handlers := p.handlers ++ [(kv.1, .given n)] }
  | .str s =>
    if isEventName word kv.1 then { p with inlineJs := p.inlineJs ++ [(kv.1, s)] }
    else { p with attributes := p.attributes ++ [kv] }
  | .js s => { p with inlineJs := p.inlineJs ++ [(kv.1, s)] }
  | _ => { p with attributes := p.attributes ++ [kv] }

/-- `separate_attributes_handlers_and_inline_javascript` (228–247). -/
def separateAttrs (word : Char → Bool) (attributes : List (String × Val)) : Parts :=
  attributes.foldl (Parts.add word) {}

/-- The constructed `VdomDict`; `none` is an absent key. types.py 828–840, vdom.py 190–206. -/
structure Elem where
  tag : String
  children : Option (List Val) := none
  attributes : Option (List (String × Val)) := none
  handlers : Option (List (String × HVal)) := none
  inlineJs : Option (List (String × String)) := none
  importSource : Option Nat := none

/-- vdom.py 204; types.py 834, 838. -/
inductive Err where
  | type
  | value
deriving DecidableEq, Repr

/-- `{**({key: value} if value else {})}` (191–196). -/
def nonEmpty {α} (l : List α) : Option (List α) := if l.isEmpty then none else some l

/-- `_fragment` (_html.py 99–116). -/
def fragment (p : Parts) (children : List Val) : Except Err Elem :=
  if p.attributes.any (fun kv => kv.1 != "key") || !p.handlers.isEmpty then .error .type
  else .ok { tag := "", children := nonEmpty children, attributes := nonEmpty p.attributes }

/-- `d[k] = v` on an insertion-ordered dict. (Python; vdom.py 231–245) -/
def put (d : List (String × Val)) (k : String) (v : Val) : List (String × Val) :=
  match d with
  | [] => [(k, v)]
  | (k', v') :: r => if k' = k then (k, v) :: r else (k', v') :: put r k v

/-- `dict.get` (Python; _html.py). -/
def get (d : List (String × Val)) (k : String) : Option Val := (d.find? (fun p => p.1 = k)).map (·.2)

/-- `key is not None` for `attributes.get("key")` (147, 157): `isNone` says which object is `None`. -/
def known (isNone : Val → Bool) (v : Option Val) : Option Val :=
  match v with
  | some v => if isNone v then none else some v
  | none => none

/-- `_script` (_html.py 119–170). -/
def script (isNone : Val → Bool) (p : Parts) (children : List Val) : Except Err Elem :=
  if !p.handlers.isEmpty then .error .value
  else
    let key := known isNone (get p.attributes "key")
    let finish (key : Option Val) : Elem :=
      let key := if key.isNone && children.isEmpty && !p.attributes.isEmpty
        then known isNone (get p.attributes "src") else key
      { tag := "script", children := nonEmpty children,
        attributes := match key with
          | none => nonEmpty p.attributes
          | some k => some (put p.attributes "key" k) }
    match children with
    | [] => .ok (finish key)
    | [.str s] => .ok (finish (key.or (some (.str s))))
    | [.js s] => .ok (finish (key.or (some (.js s))))
    | _ => .error .value

/-- Which constructor function a `Vdom` object has (`custom_constructor`, _html.py 286–287). -/
inductive Custom where
  | default
  | fragment
  | script
deriving DecidableEq, Repr

/-- A `Vdom` object (vdom.py 130–148). -/
structure Maker where
  tag : String
  allowChildren : Bool := true
  custom : Custom := .default
  importSource : Option Nat := none

/-- `Vdom.__call__` (169–206).  `jsonOk`: whether `json.dumps(attributes)` succeeds, or the check (177)
is off.  The final `VdomDict(**result)` cannot fail: all keys are VDOM keys (see C52). -/
def Maker.call (word : Char → Bool) (isNone : Val → Bool) (jsonOk : List (String × Val) → Bool)
    (m : Maker) (values : List Val) : Except Err Elem :=
  let s := separate values
  let p := separateAttrs word s.1
  if !jsonOk p.attributes then .error .type
  else
    let result := match m.custom with
      | .fragment => fragment p s.2
      | .script => script isNone p s.2
      | .default => .ok {
          tag := m.tag
          children := nonEmpty s.2
          attributes := nonEmpty p.attributes
          handlers := nonEmpty p.handlers
          inlineJs := nonEmpty p.inlineJs
          importSource := m.importSource }
    match result with
    | .error e => .error e
    | .ok e => if !s.2.isEmpty && !m.allowChildren then .error .type else .ok { e with tag := m.tag }

/-! ### `VdomDict` (types.py 807–884) -/

/-- `ALLOWED_VDOM_KEYS` (807–814). -/
def allowedKeys : List String :=
  ["tagName", "children", "attributes", "eventHandlers", "inlineJavaScript", "importSource"]

/-- A `VdomDict` as a dict of opaque values (types.py 828). -/
abbrev VDict := List (String × Nat)

/-- `VdomDict.__init__` (831–840): `none` is `ValueError`. -/
def newDict (kwargs : VDict) : Option VDict :=
  if kwargs.any (fun p => p.1 == "tagName") && kwargs.all (fun p => allowedKeys.contains p.1) then some kwargs else none

/-- The mutating methods of a `VdomDict`.  `setitem` is overridden (881–884); `update`, `setdefault`,
`|=`, `pop`, `clear` are inherited from `dict`, whose C code does not call `__setitem__`. -/
inductive DOp where
  | setitem (k : String) (v : Nat)
  | delitem (k : String)
  | clear
  | update (entries : VDict)
  | setdefault (k : String) (v : Nat)
  | ior (entries : VDict)

/-- `d[k] = v` (Python; types.py 884). -/
def dput (d : VDict) (k : String) (v : Nat) : VDict :=
  match d with
  | [] => [(k, v)]
  | (k', v') :: r => if k' = k then (k, v) :: r else (k', v') :: dput r k v

/-- The dict after a method call (a call that raises leaves it unchanged).
types.py 828–884: only `__init__` and `__setitem__` check the keys; the other methods are those of `dict`. -/
def DOp.run (d : VDict) : DOp → VDict
  | .setitem k v => if allowedKeys.contains k then dput d k v else d
  | .delitem k => d.filter (fun p => p.1 != k)
  | .clear => []
  | .update es => es.foldl (fun d p => dput d p.1 p.2) d
  | .setdefault k v => if d.any (fun p => p.1 == k) then d else dput d k v
  | .ior es => es.foldl (fun d p => dput d p.1 p.2) d

end Verif.Vdom
