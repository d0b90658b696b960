/-!
# Model of the data of events (types.py 1157–1172, core/layout.py 180–182)

`Event` is a `dict` whose entries can be read as attributes.  The data come from JSON.  Values are compared as Python's `==` does it: an
`Event` equals the `dict` with the same entries.  Changing entries is left out.
-/
namespace Verif.Handlers.EventData

/-- JSON data; `atom` are texts, numbers and booleans, `null` is `None` (layout.py 181). -/
inductive Data where
  | null
  | atom (n : Nat)
  | list (l : List Data)
  | dict (l : List (String × Data))
deriving Repr

/-- A Python value a handler may have in hand: data, with dictionaries as plain `dict`; an `Event`, with its entries and the attributes
assigned to it; a bound method. (types.py 1157–1172) -/
inductive PVal where
  | data (d : Data)
  | event (entries : List (String × Data)) (attrs : List (String × Data))
  | method (name : String)

/-- Exceptions of item and attribute access. (Python) -/
inductive Err where
  | key
  | index
  | type
  | attribute
deriving DecidableEq, Repr

/-- The methods of `dict`. (Python) -/
def dictMethods : List String :=
  ["clear", "copy", "fromkeys", "get", "items", "keys", "pop", "popitem", "setdefault", "update", "values"]

/-- The methods of `Event` (types.py 1157–1172, and those of `dict`). -/
def methods : List String := ["preventDefault", "stopPropagation"] ++ dictMethods

/-- `Event(d) if isinstance(d, dict) else d` (layout.py 181, types.py 1166). -/
def wrap : Data → PVal
  | .dict l => .event l []
  | d => .data d

/-- `data = [...]` (layout.py 180–182). -/
def received (l : List Data) : List PVal := l.map wrap

/-- `value[name]` (Python). -/
def item (name : String) : PVal → Except Err PVal
  | .data (.dict l) =>
    match l.lookup name with
    | some d => .ok (.data d)
    | none => .error .key
  | .event l _ =>
    match l.lookup name with
    | some d => .ok (.data d)
    | none => .error .key
  | _ => .error .type

/-- `value[i]` for `i ≥ 0` (Python); characters of texts are left out. -/
def index (i : Nat) : PVal → Except Err PVal
  | .data (.list l) =>
    match l[i]? with
    | some d => .ok (.data d)
    | none => .error .index
  | _ => .error .type

/-- `value.name` (Python; types.py 1164–1166): attributes of the object, methods of the class, `__getattr__`.  `special`: the names that
every object has, such as `__class__`.  Methods of texts, numbers and lists are left out. -/
def attr (special : String → Bool) (name : String) : PVal → Except Err PVal
  | .event l attrs =>
    match attrs.lookup name with
    | some d => .ok (.data d)
    | none =>
      if special name || methods.contains name then .ok (.method name)
      else match l.lookup name with
        | some d => .ok (wrap d)
        | none => .ok (.data .null)
  | .data (.dict _) => if special name || dictMethods.contains name then .ok (.method name) else .error .attribute
  | _ => .error .attribute

/-- `value.name = d` for an event, as for `event.debounce = 100` (Python; types.py 1162). -/
def setAttr (name : String) (d : Data) : PVal → Except Err PVal
  | .event l attrs => .ok (.event l ((name, d) :: attrs))
  | _ => .error .attribute

end Verif.Handlers.EventData
