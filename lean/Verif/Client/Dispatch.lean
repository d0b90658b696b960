/-! # Messages of the server and those who listen to them

Models `/repo/src/js/packages/@reactpy/client/src/client.ts` 10–53 (`BaseReactPyClient`), 64–91 (its use by `ReactPyClient`) and
`/repo/src/js/packages/@reactpy/client/src/vdom.tsx` 40–44 (what imported modules are given of it).

Listeners are functions, named by numbers (two are `===` when they have the same number).  What a listener does when it is called is a
parameter: the subscriptions that it makes and ends, in order, and whether it throws.  A message is its `type` and the rest, a number; the
`type` is the text that a property access makes of it.  The array of the listeners of a type is only ever extended at its end or replaced
by another one, and `forEach` visits the places that were there at its start: the model takes the list at the start. -/
namespace Verif.Client.Dispatch

/-- Texts (client.ts 11). -/
abbrev Str := List Char

/-- The client's listeners (client.ts 11–13). -/
structure Client where
  /-- Own properties of `handlers`. -/
  handlers : List (Str × List Nat)
  /-- `resolveReady` was called. -/
  ready : Bool
  /-- What the functions returned by `onMessage` refer to, in the order they were made (client.ts 23–25). -/
  made : List (Str × Nat)
deriving DecidableEq, Repr

/-- A new client (client.ts 15–18). -/
def init : Client := { handlers := [], ready := false, made := [] }

/-- Names that every object has from `Object.prototype` (client.ts 11: `handlers` is `{}`). -/
def inherited : List Str :=
  ["constructor".toList, "toString".toList, "toLocaleString".toList, "valueOf".toList, "hasOwnProperty".toList, "isPrototypeOf".toList,
   "propertyIsEnumerable".toList, "__proto__".toList, "__defineGetter__".toList, "__defineSetter__".toList, "__lookupGetter__".toList,
   "__lookupSetter__".toList]

/-- `this.handlers[type]` (client.ts 21, 24, 46). -/
inductive Slot where
  | missing
  | list (l : List Nat)
  /-- Something truthy that is no array. -/
  | other
deriving DecidableEq, Repr

/-- `this.handlers[type]` (client.ts 21, 24, 46): own properties first. -/
def get (c : Client) (type : Str) : Slot :=
  match c.handlers.find? (fun p => p.1 = type) with
  | some p => .list p.2
  | none => if type ∈ inherited then .other else .missing

/-- `this.handlers[type] = l` (client.ts 21, 24). -/
def set (c : Client) (type : Str) (l : List Nat) : Client :=
  { c with handlers := (type, l) :: c.handlers.filter (fun p => p.1 ≠ type) }

/-- What others do with the client. -/
inductive Act where
  /-- `onMessage(type, handler)` (client.ts 20). -/
  | subscribe (type : Str) (h : Nat)
  /-- A call of the `k`-th function that `onMessage` has returned (client.ts 23–25). -/
  | unsubscribe (k : Nat)
deriving DecidableEq, Repr

/-- `onMessage` (client.ts 20–26); `false`: it throws (`push` is not a function). -/
def onMessage (c : Client) (type : Str) (h : Nat) : Client × Bool :=
  match get c type with
  | .other => (c, false)
  | .missing => ({ set c type [h] with ready := true, made := c.made ++ [(type, h)] }, true)
  | .list l => ({ set c type (l ++ [h]) with ready := true, made := c.made ++ [(type, h)] }, true)

/-- The function that `onMessage` returns (client.ts 23–25). -/
def offMessage (c : Client) (k : Nat) : Client :=
  match c.made[k]? with
  | none => c
  | some (type, h) =>
    match get c type with
    | .list l => set c type (l.filter (fun g => g ≠ h))
    | _ => c

/-- One act (client.ts 20–26). -/
def act (c : Client) : Act → Client × Bool
  | .subscribe type h => onMessage c type h
  | .unsubscribe k => (offMessage c k, true)

/-- Acts in order, until one throws (client.ts 20–26). -/
def acts (c : Client) : List Act → Client × Bool
  | [] => (c, true)
  | a :: l =>
    match act c a with
    | (c', true) => acts c' l
    | (c', false) => (c', false)

/-- A message after `JSON.parse` (client.ts 78). -/
inductive Msg where
  /-- `null`. -/
  | null
  /-- No `type`, or a falsy one. -/
  | untyped (body : Nat)
  | typed (type : Str) (body : Nat)
deriving DecidableEq, Repr

/-- What a listener does with a message: its acts, and whether it throws afterwards (client.ts 52). -/
abbrev Behaviour := Nat → Msg → List Act × Bool

/-- `messageHandlers.forEach((h) => h(message))` (client.ts 52): who was called, and `false` if something was thrown. -/
def forEach (b : Behaviour) (m : Msg) (c : Client) : List Nat → Client × List Nat × Bool
  | [] => (c, [], true)
  | h :: l =>
    match acts c (b h m).1 with
    | (c', false) => (c', [h], false)
    | (c', true) =>
      if (b h m).2 then (c', [h], false)
      else
        match forEach b m c' l with
        | (c'', calls, ok) => (c'', h :: calls, ok)

/-- What is to be seen of a message: the listeners that were called, warnings, exceptions. -/
structure Seen where
  calls : List Nat
  /-- "Received message without …" (client.ts 41, 49). -/
  warned : Bool
  /-- Something was thrown. -/
  threw : Bool
deriving DecidableEq, Repr

/-- `handleIncoming` (client.ts 39–53). -/
def handleIncoming (b : Behaviour) (c : Client) (m : Msg) : Client × Seen :=
  match m with
  | .null => (c, { calls := [], warned := false, threw := true })
  | .untyped _ => (c, { calls := [], warned := true, threw := false })
  | .typed type _ =>
    match get c type with
    | .missing => (c, { calls := [], warned := true, threw := false })
    | .other => (c, { calls := [], warned := false, threw := true })
    | .list l => ((forEach b m c l).1, { calls := (forEach b m c l).2.1, warned := false, threw := !(forEach b m c l).2.2 })

/-- What happens to a client (client.ts 20, 78). -/
inductive Event where
  | message (m : Msg)
  | act (a : Act)
deriving DecidableEq, Repr

/-- One event (client.ts 20–53). -/
def step (b : Behaviour) (c : Client) : Event → Client × Seen
  | .message m => handleIncoming b c m
  | .act a => ((act c a).1, { calls := [], warned := false, threw := !(act c a).2 })

/-- A history of events (client.ts 20–53). -/
def run (b : Behaviour) (c : Client) : List Event → Client × List Seen
  | [] => (c, [])
  | e :: l => ((run b (step b c e).1 l).1, (step b c e).2 :: (run b (step b c e).1 l).2)

/-! ## What imported modules are given -/

/-- `this` of a method call: the client, or another object, which has neither `handlers` nor `socket` (vdom.tsx 41–44: the methods are put
into a new object, without being bound to the client). -/
inductive This where
  | client (c : Client)
  | context
deriving DecidableEq, Repr

/-- `onMessage` as a method (client.ts 21: `this.handlers[type]`); `none`: `TypeError`. -/
def onMessageOf (this : This) (type : Str) (h : Nat) : Option (Client × Bool) :=
  match this with
  | .client c => some (onMessage c type h)
  | .context => none

/-- `sendMessage` as a method (client.ts 82–91: `this.socket.current`); `none`: `TypeError`.  `send` is what it does otherwise. -/
def sendMessageOf {α : Type} (this : This) (send : Client → α) : Option α :=
  match this with
  | .client c => some (send c)
  | .context => none

/-- `this` in `context.sendMessage(…)` and `context.onMessage(…)` called by the `bind` function of a module (vdom.tsx 41–44). -/
def givenToModule (_c : Client) : This := .context

end Verif.Client.Dispatch
