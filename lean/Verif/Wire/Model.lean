/-!
# Attributes on the wire

`core/vdom.py` 177–178 (the check of attributes with `json.dumps`), `executors/asgi/middleware.py` 251–254 (`orjson.dumps`),
`core/serve.py` 43–61 (the loop that sends updates), and the browser's `JSON.parse`
(`/repo/src/js/packages/@reactpy/client/src/client.ts` 78).

`json.dumps` and `orjson.dumps` (without options) and `JSON.parse` are external; what is assumed of them is cited from their documentation:
* `json.dumps` takes `None`, booleans, numbers of any size, strings with lone surrogates, lists, tuples, and dicts whose keys are strings, numbers,
  booleans or `None`; anything else is a `TypeError`.
* `orjson.dumps` takes the same, but only integers of 64 bits, no lone surrogates, and dicts whose keys are strings; it writes `null` for not-a-number and the
  infinities; besides it takes dates, UUIDs, enumerations and dataclasses.
* `JSON.parse` reads a number as a double.
Simplified: an object is its entries in order (JavaScript moves keys that are integers to the front); a float is its bits; depth of nesting is not limited.
-/
namespace Verif.Wire

/-- A key of a Python dict: a string, one with a lone surrogate, an integer, another key `json.dumps` takes (`None`, booleans, floats), or any other.
(core/vdom.py 177–178) -/
inductive Key where
  | str (s : String)
  | lone
  | int (n : Int)
  | atom
  | other
deriving DecidableEq, Repr

/-- A Python value in the attributes of an element: `special` is not-a-number or an infinity, `lone` a string with a lone surrogate, `native` what only orjson
takes (with what it writes for it). (core/vdom.py 177–178; executors/asgi/middleware.py 251–254) -/
inductive Py where
  | none
  | bool (b : Bool)
  | int (n : Int)
  | float (bits : Nat)
  | special
  | str (s : String)
  | lone
  | list (l : List Py)
  | tuple (l : List Py)
  | dict (d : List (Key × Py))
  | native (written : String)
  | other

/-- A JSON value, and a JavaScript value. (executors/asgi/middleware.py 251–254) -/
inductive Js where
  | null
  | bool (b : Bool)
  | int (n : Int)
  | float (bits : Nat)
  | str (s : String)
  | arr (l : List Js)
  | obj (o : List (String × Js))

/-- Whether `json.dumps` takes the key. (core/vdom.py 178) -/
def Key.checked : Key → Bool
  | .other => false
  | _ => true

mutual
/-- `json.dumps(attributes)` does not raise. (core/vdom.py 177–178) -/
def checked : Py → Bool
  | .list l => checkedL l
  | .tuple l => checkedL l
  | .dict d => checkedD d
  | .native _ => false
  | .other => false
  | _ => true
/-- The elements. (core/vdom.py 178) -/
def checkedL : List Py → Bool
  | [] => true
  | v :: vs => checked v && checkedL vs
/-- The items. (core/vdom.py 178) -/
def checkedD : List (Key × Py) → Bool
  | [] => true
  | (k, v) :: d => k.checked && checked v && checkedD d
end

/-- The integers that orjson takes. (executors/asgi/middleware.py 253) -/
def fits (n : Int) : Bool := -2 ^ 63 ≤ n && n < 2 ^ 64

mutual
/-- `orjson.dumps(data)`; `none`: it raises. (executors/asgi/middleware.py 251–254) -/
def dumps : Py → Option Js
  | .none => some .null
  | .bool b => some (.bool b)
  | .int n => if fits n then some (.int n) else none
  | .float x => some (.float x)
  | .special => some .null
  | .str s => some (.str s)
  | .lone => none
  | .list l => (dumpsL l).map .arr
  | .tuple l => (dumpsL l).map .arr
  | .dict d => (dumpsD d).map .obj
  | .native w => some (.str w)
  | .other => none
/-- The elements. (executors/asgi/middleware.py 253) -/
def dumpsL : List Py → Option (List Js)
  | [] => some []
  | v :: vs => match dumps v, dumpsL vs with
    | some j, some js => some (j :: js)
    | _, _ => none
/-- The items. (executors/asgi/middleware.py 253) -/
def dumpsD : List (Key × Py) → Option (List (String × Js))
  | [] => some []
  | (k, v) :: d => match k, dumps v, dumpsD d with
    | .str s, some j, some o => some ((s, j) :: o)
    | _, _, _ => none
end

/-- The double nearest to a natural number, ties to the one whose last bit is 0. (JavaScript; client.ts 78) -/
def roundNat (n : Nat) : Nat :=
  let unit := 2 ^ (n.log2 - 52)
  let q := n / unit
  let r := n % unit
  if 2 * r < unit then q * unit
  else if unit < 2 * r then (q + 1) * unit
  else if q % 2 = 0 then q * unit else (q + 1) * unit

/-- The same with a sign. (JavaScript; client.ts 78) -/
def toDouble (n : Int) : Int := if n < 0 then -(roundNat n.natAbs : Int) else roundNat n.natAbs

mutual
/-- `JSON.parse`. (JavaScript; client.ts 78) -/
def parse : Js → Js
  | .int n => .int (toDouble n)
  | .arr l => .arr (parseL l)
  | .obj o => .obj (parseO o)
  | j => j
/-- The elements. (JavaScript; client.ts 78) -/
def parseL : List Js → List Js
  | [] => []
  | j :: js => parse j :: parseL js
/-- The entries. (JavaScript; client.ts 78) -/
def parseO : List (String × Js) → List (String × Js)
  | [] => []
  | (k, j) :: o => (k, parse j) :: parseO o
end

/-- What the browser gets. (executors/asgi/middleware.py 251–254) -/
def arrives (v : Py) : Option Js := (dumps v).map parse

/-- What an element constructor does with attributes when they are checked: `none` is the `TypeError`. (core/vdom.py 177–178) -/
def construct (check : Bool) (attrs : Py) : Option Py := if check && !checked attrs then none else some attrs

/-- The loop that sends the updates of a layout, one after the other: what the browser gets, and whether the loop goes on; an exception leaves it and with it the
layout (`raise`, and the task group of `serve_layout`). (core/serve.py 28–61) -/
def outgoing : List Py → List Js × Bool
  | [] => ([], true)
  | u :: us => match arrives u with
    | some j => let r := outgoing us; (j :: r.1, r.2)
    | none => ([], false)

end Verif.Wire
