import Verif.Layout.Model
/-!
# Specification vocabulary for the layout properties

Nothing in this file mentions model states, the registry, fuel or any renderer function: only the
VDOM values components return (`Raw`), what the client holds (`VJson`) and the observable history
(`Ev`, newest first).
-/
namespace Verif.Layout

/-- Context values visible at a place of the tree. -/
abbrev Ctx := Nat → Option Nat

/-- What is visible below component `c` when `env` is visible to it: a provider adds its value. -/
def below (U : User) (c : Comp) (env : Ctx) : Ctx :=
  match c.type with
  | .ctx x => fun y => if y = x then some (U.provValue c.props) else env y
  | .fn _ => env

/-- The most recent completed call of an instance: as which component, the contexts it saw, what it
returned (or the error that replaced its output). -/
def lastRender : List Ev → Nat → Option (Comp × Ctx × Except String Raw)
  | [], _ => none
  | .rendered id c ctx out :: l, x => if id = x then some (c, ctx, out) else lastRender l x
  | .mounted _ :: l, x => lastRender l x
  | .entered _ :: l, x => lastRender l x
  | .unmounted _ :: l, x => lastRender l x
  | .effects _ :: l, x => lastRender l x

/-- The instances whose bodies were called, newest first. -/
def bodiesOf : List Ev → List Nat
  | [] => []
  | .entered id :: l => id :: bodiesOf l
  | _ :: l => bodiesOf l

/-- The instances whose calls completed (children rendered), newest first. -/
def completedOf : List Ev → List Nat
  | [] => []
  | .rendered id _ _ _ :: l => id :: completedOf l
  | _ :: l => completedOf l

/-- The instances whose effects were started, newest first. -/
def effectsOf : List Ev → List Nat
  | [] => []
  | .effects id :: l => id :: effectsOf l
  | _ :: l => effectsOf l

/-- The instances created, newest first. -/
def mountsOf : List Ev → List Nat
  | [] => []
  | .mounted id :: l => id :: mountsOf l
  | _ :: l => mountsOf l

/-- The instances unmounted (effects stopped), newest first. -/
def unmountsOf : List Ev → List Nat
  | [] => []
  | .unmounted id :: l => id :: unmountsOf l
  | _ :: l => unmountsOf l

/-- Some component's render failed. -/
def Failed (log : List Ev) : Prop := ∃ id c ctx e, .rendered id c ctx (.error e) ∈ log

/-- The JSON attributes shown for given VDOM attributes: a copy, to which an input element may add
one `_reactpy_ack_seq` number. -/
def AttrsShown (tag : String) (a a' : Option Attrs) : Prop :=
  a' = a ∨ (tag ∈ ["input", "select", "textarea"] ∧
    ∃ l n, a = some l ∧ a' = some (l ++ [("_reactpy_ack_seq", .ack n)]))

/-- The wire entry of one event handler; `R` relates the target on the wire to the handler.  A target chosen by the
user is the one on the wire. -/
structure EntryShown (R : String → Handler → Prop) (p : String × Handler) (e : HEntry) : Prop where
  event : e.event = p.1
  preventDefault : e.preventDefault = p.2.preventDefault
  stopPropagation : e.stopPropagation = p.2.stopPropagation
  debounce : e.debounce = p.2.debounce
  throttle : e.throttle = p.2.throttle
  chosen : ∀ t, p.2.target = some t → e.target = t
  routed : R e.target p.2

/-- The wire entries of all handlers, in order. -/
def EntriesShown (R : String → Handler → Prop) : List (String × Handler) → List HEntry → Prop
  | [], [] => True
  | p :: ps, e :: es => EntryShown R p e ∧ EntriesShown R ps es
  | _, _ => False

/-- The JSON object shown for an element, children apart. -/
structure ElemShown (R : String → Handler → Prop) (i : ElemInfo) (sh : Shell) : Prop where
  tag : i.tag = some sh.tag
  noError : sh.error = none
  attrs : AttrsShown sh.tag i.attrs sh.attrs
  handlers : (i.handlers = [] ∧ sh.handlers = none) ∨
    (i.handlers ≠ [] ∧ ∃ es, sh.handlers = some es ∧ EntriesShown R i.handlers es)
  inlineJs : sh.inlineJs = i.inlineJs
  importSource : sh.importSource = i.importSource

/-- The key given explicitly to a child. -/
def Raw.explicitKey : Raw → Option Key
  | .comp c => c.key
  | .elem i _ => match (i.attrs.getD []).find? (fun p => p.1 = "key") with
    | some (_, .key k) => some k
    | _ => Option.none
  | _ => Option.none

/-- The effective key of the child at a given index: the explicit key, else the index. -/
def Raw.effKey (r : Raw) (index : Nat) : Key := r.explicitKey.getD (.int index)

def Raw.isNone : Raw → Bool
  | .none => true
  | _ => false

/-- The children that are displayed (all but `None`), each with its effective key. -/
def keyed (cs : List Raw) : List (Raw × Option Key) :=
  (cs.zipIdx.filter (fun p => !p.1.isNone)).map (fun p => (p.1, some (p.1.effKey p.2)))

/-- Keys that are recognisable inside a path of keys: integers, and strings that contain neither `/`
nor `:` and are not the decimal text of an integer. -/
def Key.Plain : Key → Prop
  | .int _ => True
  | .str s => '/' ∉ s.toList ∧ ':' ∉ s.toList ∧ ∀ n : Int, s ≠ toString n

mutual
/-- Explicit keys are plain, event handlers are a dict (distinct event names) and have no
user-chosen `target`. -/
def Raw.Plain : Raw → Prop
  | .none => True
  | .text _ => True
  | .comp c => ∀ k, c.key = some k → k.Plain
  | .elem i cs => (∀ k, (Raw.elem i cs).explicitKey = some k → k.Plain) ∧
      (i.handlers.map (·.1)).Nodup ∧ (∀ p ∈ i.handlers, p.2.target = Option.none) ∧ plainL cs
def plainL : List Raw → Prop
  | [] => True
  | r :: rs => r.Plain ∧ plainL rs
end

/-- An application all of whose components return plain VDOM. -/
structure User.Plain (U : User) : Prop where
  render : ∀ w id c seen raw, (U.render w id c seen).2 = .ok raw → raw.Plain
  provided : ∀ p, plainL (U.provChildren p)

mutual
/-- The VDOM value cannot be displayed: somewhere in it (not inside components) an element has no
`tagName`, or two displayed siblings have the same effective key. -/
def Raw.Malformed : Raw → Prop
  | .none => False
  | .text _ => False
  | .comp _ => False
  | .elem i cs => i.tag = Option.none ∨ ¬ ((keyed cs).map (·.2)).Nodup ∨ malformedL cs
def malformedL : List Raw → Prop
  | [] => False
  | r :: rs => r.Malformed ∨ malformedL rs
end

/-- `Returned U id c seen raw`: a call of the body of instance `id` as component `c`, seeing the
contexts `seen`, returned `raw` (a provider returns its children in a fragment). -/
def Returned (U : User) (id : Nat) (c : Comp) (seen : Ctx) (raw : Raw) : Prop :=
  match c.type with
  | .fn _ => ∃ w, (U.render w id c seen).2 = .ok raw
  | .ctx _ => raw = .elem { tag := some "" } (U.provChildren c.props)

/-- ... raised `e`. -/
def RaisedIn (U : User) (id : Nat) (c : Comp) (seen : Ctx) (e : String) : Prop :=
  match c.type with
  | .fn _ => ∃ w, (U.render w id c seen).2 = .error e
  | .ctx _ => False

/-- A component occurs in a VDOM value (not inside other components). -/
inductive Raw.Has : Raw → Comp → Prop
  | comp {c} : Raw.Has (.comp c) c
  | elem {i cs r c} : r ∈ cs → Raw.Has r c → Raw.Has (.elem i cs) c

/-- Component `d` occurs in something that component `c` may return. -/
def Contains (U : User) (d c : Comp) : Prop := ∃ id seen raw, Returned U id c seen raw ∧ raw.Has d

/-- What the server keeps for a displayed VDOM tree, as far as component state is concerned: the
elements and component instances with their keys. -/
inductive Inst where
  | elem (key : Option Key) (kids : List Inst)
  | comp (key : Option Key) (id : Nat) (c : Comp) (kids : List Inst)
deriving Inhabited

mutual
/-- The instances of a forest in document order. -/
def Inst.ids : Inst → List Nat
  | .elem _ ks => instIds ks
  | .comp _ id _ ks => id :: instIds ks
def instIds : List Inst → List Nat
  | [] => []
  | i :: is => i.ids ++ instIds is
end

/-- `Shows U hist R raws vs F`: the VDOM values `raws` (with their keys) are displayed as the JSON
list `vs`, using the elements and component instances `F`.  Text is displayed as itself; an element
as an object with the displays of its children; a component by an instance whose most recent call
was for exactly this component, as the fragment around the display of what that call returned, or
as an error node if that call failed. -/
inductive Shows (U : User) (hist : Nat → Option (Comp × Ctx × Except String Raw))
    (R : String → Handler → Prop) : List (Raw × Option Key) → List VJson → List Inst → Prop
  | nil : Shows U hist R [] [] []
  | text {t k rs vs F} : Shows U hist R rs vs F →
      Shows U hist R ((.text t, k) :: rs) (.text t :: vs) F
  | elem {i cs k sh ws G rs vs F} : ElemShown R i sh →
      Shows U hist R (keyed cs) ws G → Shows U hist R rs vs F →
      Shows U hist R ((.elem i cs, k) :: rs)
        (.obj sh (if cs = [] then none else some ws) :: vs) (.elem k G :: F)
  | comp {c k id seen raw ws G rs vs F} : hist id = some (c, seen, .ok raw) →
      Shows U hist R (keyed [raw]) ws G → Shows U hist R rs vs F →
      Shows U hist R ((.comp c, k) :: rs) (.obj { tag := "" } (some ws) :: vs) (.comp k id c G :: F)
  | fail {c k id seen e rs vs F} : hist id = some (c, seen, .error e) →
      Shows U hist R rs vs F →
      Shows U hist R ((.comp c, k) :: rs)
        (.obj { tag := "", error := some (if U.debug then e else "") } none :: vs) (.comp k id c [] :: F)

def Inst.key : Inst → Option Key
  | .elem k _ => k
  | .comp k _ _ _ => k

mutual
/-- `Inst.Kept known old new`: `new` may take the place of `old` (nothing, if there was nothing with this
key at this place).  A component has the instance of the old component if that had the same type, otherwise
an instance that was not `known` before; the children are compared with the old children, which an element
has only if there was an element before, and a component only if it has the old instance. -/
def Inst.Kept (known : Nat → Prop) (old : Option Inst) : Inst → Prop
  | .elem _ new => keptL known (match old with
    | some (.elem _ os) => os
    | _ => []) new
  | .comp _ id c new => match old with
    | some (.comp _ oid oc os) =>
      if oc.type = c.type then id = oid ∧ keptL known os new else ¬ known id ∧ keptL known [] new
    | _ => ¬ known id ∧ keptL known [] new
/-- The same for lists of siblings: each is compared with the old sibling that had its key. -/
def keptL (known : Nat → Prop) (old : List Inst) : List Inst → Prop
  | [] => True
  | n :: ns => n.Kept known (old.find? (fun o => decide (o.key = n.key))) ∧ keptL known old ns
end

/-- `Under chain F id c`: instance `id` of component `c` occurs in the forest, inside the components
`chain` (innermost first). -/
inductive Under : List Comp → List Inst → Nat → Comp → Prop
  | here {k id c G F} : .comp k id c G ∈ F → Under [] F id c
  | elem {k G F chain id c} : .elem k G ∈ F → Under chain G id c → Under chain F id c
  | comp {k i d G F chain id c} : .comp k i d G ∈ F → Under chain G id c →
      Under (chain ++ [d]) F id c

/-- The value provided for context `x` by the nearest provider in a chain of components. -/
def nearest (U : User) (x : Nat) : List Comp → Option Nat
  | [] => none
  | c :: r => if c.type = .ctx x then some (U.provValue c.props) else nearest U x r

mutual
/-- The targets of all event handler entries of displayed JSON, in document order. -/
def VJson.targets : VJson → List String
  | .text _ => []
  | .obj sh none => (sh.handlers.getD []).map (·.target)
  | .obj sh (some ks) => (sh.handlers.getD []).map (·.target) ++ targetsL ks
def targetsL : List VJson → List String
  | [] => []
  | v :: vs => v.targets ++ targetsL vs
end

/-- An object occurs in displayed JSON. -/
inductive VJson.Has : VJson → Shell → Prop
  | here {sh ks} : VJson.Has (.obj sh ks) sh
  | inside {sh ks v sh'} : v ∈ ks → VJson.Has v sh' → VJson.Has (.obj sh (some ks)) sh'

mutual
/-- No element uses the attribute name reserved for acknowledgement numbers. -/
def Raw.NoAck : Raw → Prop
  | .none => True
  | .text _ => True
  | .comp _ => True
  | .elem i cs => (∀ l, i.attrs = some l → "_reactpy_ack_seq" ∉ l.map (·.1)) ∧ noAckL cs
def noAckL : List Raw → Prop
  | [] => True
  | r :: rs => r.NoAck ∧ noAckL rs
end

/-- The sequence numbers of the events processed for some targets, oldest first. -/
def received {U : User} (targets : List String) : List (Op U) → List Nat
  | [] => []
  | .event t (some n) :: ops => if t ∈ targets then n :: received targets ops else received targets ops
  | .event _ none :: ops => received targets ops
  | .render _ _ :: ops => received targets ops
  | .user _ :: ops => received targets ops

/-- The targets of an object's event handlers. -/
def Shell.targets (sh : Shell) : List String := (sh.handlers.getD []).map (·.target)

/-- The acknowledgement number of a displayed object is as it should be, `best` being the number for a list of targets. -/
def AckRight (best : List String → Option Nat) (sh : Shell) : Prop :=
  ∀ l, sh.attrs = some l → dictGet l "_reactpy_ack_seq" =
    if sh.tag ∈ ["input", "select", "textarea"] then (best sh.targets).map .ack else none

end Verif.Layout
