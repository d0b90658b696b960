/-!
# From the model to elements

`/repo/src/js/packages/@reactpy/client/src/components.tsx` 163–217, 390–474, 532–537 (`Element`, `StandardElement`, what
`UserInputElement` returns, `ImportedElement`) and `vdom.tsx` 72–282 (`createImportSourceElement`, `createAttributes`,
`createChildren`, `createEventHandler`).  What React does with the elements is not modelled (for scripts see `Client/Script`).
An object is a list of entries; a later entry for a name replaces an earlier one.
-/
namespace Verif.Client.Elem

/-- A JSON value of an attribute (types.ts 49–57; only numbers and the rest are told apart). -/
inductive J where
  | num (n : Int)
  | other (n : Nat)
deriving DecidableEq, Repr

/-- An event handler of the model (types.ts 59–65): target, flags, and what came over the wire as `debounce` and `throttle`
(`none`: absent; the value is an integer or something else). -/
structure Handler where
  target : String
  preventDefault : Bool := false
  stopPropagation : Bool := false
  debounce : Option J := none
  throttle : Option J := none
deriving DecidableEq, Repr

/-- An import source (types.ts 67–72): `source` and `sourceType` as one number, and the fallback text, if any. -/
structure Source where
  source : Nat
  fallback : Option String := none
deriving DecidableEq, Repr

/-- A model as the server sends it (types.ts 49–57). -/
inductive Model where
  | text (s : String)
  | el (tag : String) (error : Option String) (attrs : List (String × J)) (handlers : List (String × Handler))
      (inline : List (String × String)) (src : Option Source) (kids : List Model)

/-- A property given to an element (vdom.tsx 190–282): an attribute, an event handler with the wrappers around it, or inline JavaScript. -/
inductive PropVal where
  | attr (v : J)
  | handler (h : Handler) (throttle debounce : Option Nat) (shared : Bool)
  | js (code : String)
deriving DecidableEq, Repr

/-- What is built (components.tsx 163–217).  `elem` with tag "" is a fragment.  `input` is a controlled input with its own counter.  `mount` is the place
of an imported component, `foreign` a `reactpy-child` for a component of another module, `comp` a component of the module at
hand (by name), `broken` an attempt to render what `Object.prototype` has under the tag's name. -/
inductive Out where
  | text (s : String)
  | null
  | error (s : String)
  | elem (tag : String) (props : List (String × PropVal)) (kids : List Out)
  | input (tag : String) (props : List (String × PropVal)) (kids : List Out)
  | script (attrs : List (String × J)) (code : Option String)
  | mount (m : Model)
  | foreign (m : Model)
  | comp (name : String) (props : List (String × PropVal)) (kids : List Out)
  | broken

/-- The value of a name in an object: the last entry counts (JavaScript). -/
def get {V : Type} (o : List (String × V)) (k : String) : Option V :=
  (o.reverse.find? (fun p => p.1 == k)).map (·.2)

/-- `isValidDebounce` (handler.ts 24–31). -/
def valid : Option J → Option Nat
  | some (.num n) => if 0 ≤ n then some n.toNat else none
  | _ => none

/-- `createEventHandler` as far as the property goes (vdom.tsx 214–282): invalid values are ignored. The wrappers come later. -/
def makeHandler (p : String × Handler) : String × PropVal := (p.1, .handler p.2 none none false)

/-- `createAttributes` (vdom.tsx 190–212). -/
def createAttributes (attrs : List (String × J)) (handlers : List (String × Handler)) (inline : List (String × String)) :
    List (String × PropVal) :=
  attrs.map (fun p => (p.1, .attr p.2)) ++ handlers.map makeHandler ++ inline.map (fun p => (p.1, .js p.2))

/-- The loop of `StandardElement` (components.tsx 194–206). -/
def throttleAll (props : List (String × PropVal)) : List (String × PropVal) :=
  props.map fun p => match p.2 with
    | .handler h _ d s => (p.1, .handler h (valid h.throttle) d s)
    | v => (p.1, v)

/-- What `UserInputElement` passes on (components.tsx 221–231, 315–342, 402–410): wrapped handlers, neither the acknowledged
sequence number nor the value. -/
def inputProps (props : List (String × PropVal)) : List (String × PropVal) :=
  (props.filter (fun p => p.1 ≠ "_reactpy_ack_seq" ∧ p.1 ≠ "value")).map fun p => match p.2 with
    | .handler h _ _ _ => (p.1, .handler h (valid h.throttle) (valid h.debounce) true)
    | v => (p.1, v)

/-- `SPECIAL_ELEMENTS` and what every object inherits (components.tsx 173, 532–537: `in` looks at the prototype too). -/
def inherited : List String :=
  ["constructor", "hasOwnProperty", "isPrototypeOf", "propertyIsEnumerable", "toLocaleString", "toString", "valueOf",
   "__proto__", "__defineGetter__", "__defineSetter__", "__lookupGetter__", "__lookupSetter__"]

/-- The text of a child, if it is text (auxiliary; components.tsx 433–435). -/
def textOf : Model → Option String
  | .text s => some s
  | .el .. => none

mutual
/-- `Element` (components.tsx 163–183) with what it leads to: `StandardElement` (185–217), `UserInputElement` (219–415),
`ScriptElement` (417–450), `ImportedElement` (452–474). -/
def element : Model → Out
  | .text s => .text s
  | .el tag error attrs handlers inline src kids =>
    match error with
    | some e => if e = "" then .null else .error e
    | none =>
      if tag = "input" ∨ tag = "select" ∨ tag = "textarea" then
        .input tag (inputProps (createAttributes attrs handlers inline)) (elements kids)
      else if tag = "script" then .script attrs (kids.filterMap textOf).head?
      else if tag ∈ inherited then .broken
      else
        match src with
        -- 452–474: the fallback would be shown only without an import source
        | some s => .mount (.el tag none attrs handlers inline (some s) kids)
        | none => .elem tag (throttleAll (createAttributes attrs handlers inline)) (elements kids)
/-- `createChildren` (vdom.tsx 172–188). -/
def elements : List Model → List Out
  | [] => []
  | m :: ms => element m :: elements ms
end

/-- `getComponentFromModule` (vdom.tsx 119–153) is a parameter: `has name` tells whether the module has the component (with dotted
parts). -/
abbrev Module := String → Bool

mutual
/-- `createImportSourceElement` (vdom.tsx 72–117), in the module `mod` of the source `cur`. -/
def imported (mod : Module) (cur : Nat) : Model → Out
  | .text s => .text s
  | .el tag error attrs handlers inline src kids =>
    match src with
    | some s =>
      if s.source = cur then
        if mod tag then .comp tag (createAttributes attrs handlers inline) (importeds mod cur kids) else .null
      else .foreign (.el tag error attrs handlers inline (some s) kids)
    | none => .elem tag (createAttributes attrs handlers inline) (importeds mod cur kids)
/-- Its `createChildren` (vdom.tsx 110–115, 172–188). -/
def importeds (mod : Module) (cur : Nat) : List Model → List Out
  | [] => []
  | m :: ms => imported mod cur m :: importeds mod cur ms
end

/-! ## The handler called -/

/-- An argument of a call (vdom.tsx 233–249): an event (has `preventDefault` and `stopPropagation`), another object, or a
primitive value; each with what `eventToObject` makes of it, or itself. -/
inductive Arg where
  | event (d : Nat)
  | object (d : Nat)
  | prim (d : Nat)
deriving DecidableEq, Repr

/-- What goes over the wire for it (243–248). -/
def Arg.data : Arg → Nat
  | .event d => d
  | .object d => d
  | .prim d => d

/-- Whether the methods exist (236–241). -/
def Arg.isEvent : Arg → Bool
  | .event _ => true
  | _ => false

/-- A message (vdom.tsx 251). -/
structure Msg where
  target : String
  data : List Nat
  seq : Nat
deriving DecidableEq, Repr

/-- One call of the handler (vdom.tsx 233–252): `none` if it raises (a method is missing), else the message; and the counter. -/
def call (h : Handler) (seq : Nat) (args : List Arg) : Option Msg × Nat :=
  if (h.preventDefault || h.stopPropagation) && args.any (fun a => !a.isEvent) then (none, seq)
  else (some ⟨h.target, args.map Arg.data, seq⟩, seq + 1)

/-- A series of calls of one handler: the messages sent (auxiliary; vdom.tsx 232–252). -/
def calls (h : Handler) : Nat → List (List Arg) → List Msg
  | _, [] => []
  | seq, a :: as =>
    match call h seq a with
    | (some m, n) => m :: calls h n as
    | (none, n) => calls h n as

end Verif.Client.Elem
