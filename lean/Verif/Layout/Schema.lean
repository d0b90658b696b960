import Verif.Layout.Spec
/-!
# `VDOM_JSON_SCHEMA` and the JSON of serialised VDOM

The schema (`/repo/src/reactpy/core/vdom.py` 36–106) as data, the meaning of the JSON Schema keywords it
uses, and the JSON values that the model's `VJson` stands for.
-/
namespace Verif.Layout

/-- JSON values (vdom.py 114–117). -/
inductive Json where
  | null
  | bool (b : Bool)
  | int (n : Int)
  | str (s : String)
  | arr (l : List Json)
  | obj (l : List (String × Json))
deriving Inhabited

/-- The JSON types named in the schema. core/vdom.py 36–106. -/
inductive JType where
  | null | boolean | integer | string | array | object
deriving DecidableEq

/-- (JSON Schema) -/
def Json.type : Json → JType
  | .null => .null
  | .bool _ => .boolean
  | .int _ => .integer
  | .str _ => .string
  | .arr _ => .array
  | .obj _ => .object

/-- The keywords used by the schema.  `all` is a schema object with several keywords; `every` is
`patternProperties` with the pattern `.*`; `ifType ts neg s` is `if`/`then` with the condition that the type
is one of `ts` (`neg`: is not); `dependent` is `dependentSchemas`; `anything` is the entry `"str"` (84) that
is no schema (the compiled validator tests keywords with `in`, and none occurs in `"str"`). -/
inductive Schema where
  | all (l : List Schema)
  | anything
  | type (ts : List JType)
  | enum (vs : List String)
  | properties (ps : List (String × Schema))
  | required (ks : List String)
  | dependent (k : String) (s : Schema)
  | items (s : Schema)
  | every (s : Schema)
  | minimum (n : Int)
  | maxLength (n : Nat)
  | ref (name : String)
  | ifType (ts : List JType) (neg : Bool) (s : Schema)

/-- JSON Schema: the value satisfies the schema, with the given `definitions`. (JSON Schema; vdom.py 111–117) -/
inductive Valid (defs : String → Option Schema) : Schema → Json → Prop
  | all {l j} : (∀ s ∈ l, Valid defs s j) → Valid defs (.all l) j
  | anything {j} : Valid defs .anything j
  | type {ts j} : j.type ∈ ts → Valid defs (.type ts) j
  | enum {vs s} : s ∈ vs → Valid defs (.enum vs) (.str s)
  | properties {ps j} : (∀ l, j = .obj l → ∀ p ∈ ps, ∀ v, (p.1, v) ∈ l → Valid defs p.2 v) →
      Valid defs (.properties ps) j
  | required {ks j} : (∀ l, j = .obj l → ∀ k ∈ ks, ∃ v, (k, v) ∈ l) → Valid defs (.required ks) j
  | dependent {k s j} : (∀ l v, j = .obj l → (k, v) ∈ l → Valid defs s j) → Valid defs (.dependent k s) j
  | items {s j} : (∀ l, j = .arr l → ∀ v ∈ l, Valid defs s v) → Valid defs (.items s) j
  | every {s j} : (∀ l, j = .obj l → ∀ p ∈ l, Valid defs s p.2) → Valid defs (.every s) j
  | minimum {n j} : (∀ i, j = .int i → n ≤ i) → Valid defs (.minimum n) j
  | maxLength {n j} : (∀ s, j = .str s → s.length ≤ n) → Valid defs (.maxLength n) j
  | ref {name s j} : defs name = some s → Valid defs s j → Valid defs (.ref name) j
  | ifType {ts neg s j} : ((decide (j.type ∈ ts)) = !neg → Valid defs s j) → Valid defs (.ifType ts neg s) j

/-- `VDOM_JSON_SCHEMA["definitions"]` (39–105). -/
def vdomDefs : String → Option Schema
  | "element" => some (.all [
      .type [.object],
      .properties [
        ("tagName", .type [.string]),
        ("error", .type [.string]),
        ("children", .ref "elementChildren"),
        ("attributes", .type [.object]),
        ("eventHandlers", .ref "elementEventHandlers"),
        ("inlineJavaScript", .ref "elementInlineJavaScripts"),
        ("importSource", .ref "importSource")],
      .required ["tagName"],
      .dependent "error" (.properties [("tagName", .maxLength 0)])])
  | "elementChildren" => some (.all [.type [.array], .items (.ref "elementOrString")])
  | "elementEventHandlers" => some (.all [.type [.object], .every (.ref "eventHandler")])
  | "eventHandler" => some (.all [
      .type [.object],
      .properties [
        ("target", .type [.string]),
        ("preventDefault", .type [.boolean]),
        ("stopPropagation", .type [.boolean]),
        ("debounce", .all [.type [.integer], .minimum 0]),
        ("throttle", .all [.type [.integer], .minimum 0])],
      .required ["target"]])
  | "elementInlineJavaScripts" => some (.all [.type [.object], .every .anything])
  | "importSource" => some (.all [
      .type [.object],
      .properties [
        ("source", .type [.string]),
        ("sourceType", .enum ["URL", "NAME"]),
        ("fallback", .all [
          .type [.object, .string, .null],
          .ifType [.null] true (.ref "elementOrString")]),
        ("unmountBeforeUpdate", .type [.boolean])],
      .required ["source"]])
  | "elementOrString" => some (.all [.type [.object, .string], .ifType [.object] false (.ref "element")])
  | _ => none

/-- `VDOM_JSON_SCHEMA` itself is `{"$ref": "#/definitions/element"}` (38). -/
def vdomSchema : Schema := .ref "element"

/-- What the opaque parts of the model stand for: attribute values, the `inlineJavaScript` dict (a
`dict` copied by 402) and the `importSource` value. -/
structure Opaque where
  attr : Nat → Json
  inlineJs : Nat → List (String × Json)
  importSource : Nat → Json

/-- (JSON; layout.py 266–270) -/
def AVal.json (O : Opaque) : AVal → Json
  | .none => .null
  | .key (.int n) => .int n
  | .key (.str s) => .str s
  | .other n => O.attr n
  | .ack n => .int n

/-- `_serialize_event_handler` (`layout.py` 490–507): `debounce` and `throttle` only if given. -/
def HEntry.json (e : HEntry) : Json :=
  .obj ([("target", .str e.target), ("preventDefault", .bool e.preventDefault),
      ("stopPropagation", .bool e.stopPropagation)]
    ++ (match e.debounce with
      | some n => [("debounce", .int n)]
      | none => [])
    ++ (match e.throttle with
      | some n => [("throttle", .int n)]
      | none => []))

/-- The members of the JSON object of an element other than its children. layout.py 343–348, 373–431 as JSON. -/
def Shell.members (O : Opaque) (sh : Shell) : List (String × Json) :=
  [("tagName", .str sh.tag)]
    ++ (match sh.error with
      | some e => [("error", .str e)]
      | none => [])
    ++ (match sh.attrs with
      | some a => [("attributes", .obj (a.map fun p => (p.1, p.2.json O)))]
      | none => [])
    ++ (match sh.handlers with
      | some h => [("eventHandlers", .obj (h.map fun e => (e.event, e.json)))]
      | none => [])
    ++ (match sh.inlineJs with
      | some n => [("inlineJavaScript", .obj (O.inlineJs n))]
      | none => [])
    ++ (match sh.importSource with
      | some n => [("importSource", O.importSource n)]
      | none => [])

mutual
/-- The JSON value of serialised VDOM. layout.py 266–270 as JSON. -/
def VJson.json (O : Opaque) : VJson → Json
  | .text s => .str s
  | .obj sh none => .obj (sh.members O)
  | .obj sh (some ks) => .obj (sh.members O ++ [("children", .arr (jsonL O ks))])
/-- As `VJson.json`, for a list. -/
def jsonL (O : Opaque) : List VJson → List Json
  | [] => []
  | v :: vs => v.json O :: jsonL O vs
end

mutual
/-- What the schema asks of the values that components pass through unchanged: `debounce` and `throttle`
are not negative, and an import source is as the schema says. (specification, from vdom.py 36–106) -/
def Raw.Conforms (O : Opaque) : Raw → Prop
  | .none => True
  | .text _ => True
  | .comp _ => True
  | .elem i cs =>
      (∀ p ∈ i.handlers, (∀ n, p.2.debounce = some n → 0 ≤ n) ∧ (∀ n, p.2.throttle = some n → 0 ≤ n)) ∧
      (∀ n, i.importSource = some n → Valid vdomDefs (.ref "importSource") (O.importSource n)) ∧ conformsL O cs
/-- As `Raw.Conforms`, for a list. -/
def conformsL (O : Opaque) : List Raw → Prop
  | [] => True
  | r :: rs => r.Conforms O ∧ conformsL O rs
end

end Verif.Layout
