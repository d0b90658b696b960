import Verif.Markup.Model
/-! # Widgets

Models `/repo/src/reactpy/widgets.py`. -/
namespace Verif.Widgets
open Verif.Markup (put)

/-- widgets.py 25. -/
abbrev Byte := Fin 256
/-- An attributes dict in insertion order (widgets.py 28, 71). -/
abbrev Attrs (V : Type) := List (String × V)

/-! ## Images -/

/-- The characters of base 64 (RFC 4648, table 1). -/
def alphabet : List Char := "ABCDEFGHIJKLMNOPQRSTUVWXYZabcdefghijklmnopqrstuvwxyz0123456789+/".toList

/-- (base64; widgets.py 25) -/
def digit (n : Nat) : Char := alphabet.getD n '='

/-- Python's `base64.b64encode` (called at widgets.py 25), after RFC 4648 section 4. -/
def b64encode : List Byte → List Char
  | [] => []
  | [a] => [digit (a.val / 4), digit (a.val % 4 * 16), '=', '=']
  | [a, b] => [digit (a.val / 4), digit (a.val % 4 * 16 + b.val / 16), digit (b.val % 16 * 4), '=']
  | a :: b :: c :: l =>
    digit (a.val / 4) :: digit (a.val % 4 * 16 + b.val / 16) :: digit (b.val % 16 * 4 + c.val / 64) :: digit (c.val % 64) :: b64encode l

/-- `str | bytes`, widgets.py 14 -/
inductive Source where
  | text (s : String)
  | bytes (b : List Byte)

/-- (auxiliary, no code of /repo) -/
def ofUInt8 (b : UInt8) : Byte := ⟨b.toNat, b.toNat_lt⟩

/-- widgets.py 24: `str.encode` is UTF-8 (Lean strings have no lone surrogates, on which Python would fail). -/
def Source.toBytes : Source → List Byte
  | .text s => s.toUTF8.data.toList.map ofUInt8
  | .bytes b => b

/-- Attribute values: strings or anything else. widgets.py 28. -/
inductive Val where
  | str (s : String)
  | other (n : Nat)
  deriving DecidableEq

/-- Dict displays `{**d, …}`: assign in turn. widgets.py 28, 71. -/
def update {V : Type} (d e : Attrs V) : Attrs V := e.foldl (fun d p => put d p.1 p.2) d

/-- widgets.py 12–28 `image`: the attributes of the `img` element. -/
def image (format : String) (value : Source) (attributes : Option (Attrs Val)) : Attrs Val :=
  let format := if format = "svg" then "svg+xml" else format
  let src := "data:image/" ++ format ++ ";base64," ++ String.ofList (b64encode value.toBytes)
  update [("src", .str src)] (attributes.getD [])

/-! ## Linked inputs -/

/-- The attributes of a linked input: a user's value, the shared value, or the shared change handler. widgets.py 71. -/
inductive LVal (V : Type) where
  | user (v : V)
  | value (s : String)
  | sync
  deriving DecidableEq

/-- The hook's state (widgets.py 60) and the calls of `on_change` so far; `none` for a call that did not happen because `cast`
raised. -/
structure Linked (W : Type) where
  value : String
  calls : List W

/-- widgets.py 69–73: the inputs of a render. -/
def inputs {V W : Type} (attributes : List (Attrs V)) (st : Linked W) : List (Attrs (LVal V)) :=
  attributes.map fun attrs => put (put (attrs.map fun p => (p.1, .user p.2)) "onChange" .sync) "value" (.value st.value)

/-- widgets.py 62–67 `sync_inputs`: a change of any input to `new`.  `cast` may raise, after the value is set. -/
def sync {W : Type} (cast : String → Option W) (ignoreEmpty : Bool) (st : Linked W) (new : String) : Linked W :=
  if new = "" ∧ ignoreEmpty = true then { st with value := new }
  else match cast new with
    | none => { st with value := new }
    | some w => ⟨new, st.calls ++ [w]⟩

/-- A history of changes, from the first render. Any history of widgets.py 62–67. -/
def syncAll {W : Type} (cast : String → Option W) (ignoreEmpty : Bool) (initial : String) (history : List String) : Linked W :=
  history.foldl (sync cast ignoreEmpty) ⟨initial, []⟩

end Verif.Widgets
