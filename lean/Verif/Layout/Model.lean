/-!
# Model of the serial renderer of `reactpy.core.layout`

All line numbers refer to `/repo/src/reactpy/core/layout.py` unless another file is named.

The Python renderer builds a fresh tree of `_ModelState` objects for every re-rendered
component and re-attaches it in place of the old one.  Here a model state is a value of the
inductive type `Node`; the registry `_model_states_by_life_cycle_state_id` is the list
`St.reg` of registered instance ids, and the node an id stands for is found in the tree (or
among the orphans, see `St.orphans`).

Simplifications that hold for the whole file:
* one render at a time (`_serial_render`, 198–210): the `await`s inside a render let other
  tasks run, but those can only change user state (the `World`) and schedule further renders;
  both are covered because user code is an arbitrary function of an arbitrary world and because
  the sequence of rendered ids is arbitrary.  Parallel mode is modelled in `Verif.Sched`.
* keys are `str | int` (`types.py`: `Key`), attribute values, inline JavaScript and import
  sources are opaque.
* `model.current` of a node is not stored but computed (`Node.view`); lines 250–261 patch the
  stored copy inside the parent, which is never read again except to be patched.
-/
namespace Verif.Layout

/-- `types.py` `Key = str | int`. (types.py; layout.py 377–379, 522) -/
inductive Key where
  | int (n : Int)
  | str (s : String)
deriving DecidableEq, Repr, Inhabited

/-- f-string formatting of a key, as used in 634, 678, 695, 712. -/
def Key.fmt : Key → String
  | .int n => toString n
  | .str s => s

/-- An attribute value.  Only `None`, `str` and `int` are ever interpreted by the renderer (as
the value of `"key"`, 377 and 889); all others are opaque.  `ack` is the number that 466 stores. -/
inductive AVal where
  | none
  | key (k : Key)
  | other (n : Nat)
  | ack (n : Nat)
deriving DecidableEq, Repr, Inhabited

/-- types.py `VdomAttributes` (layout.py 397–399). -/
abbrev Attrs := List (String × AVal)

/-- A Python dict with string keys in insertion order. `d.get(k)` (Python; layout.py 164, 377, 453). -/
def dictGet {α} (d : List (String × α)) (k : String) : Option α :=
  (d.find? (fun p => p.1 == k)).map (·.2)

/-- `d[k] = v`. (Python; layout.py 166, 427–428) -/
def dictSet {α} (d : List (String × α)) (k : String) (v : α) : List (String × α) :=
  match d with
  | [] => [(k, v)]
  | (k', v') :: r => if k' = k then (k, v) :: r else (k', v') :: dictSet r k v

/-- `del d[k]`; `none` is `KeyError`. (Python; layout.py 414, 571) -/
def dictDel {α} (d : List (String × α)) (k : String) : Option (List (String × α)) :=
  match d with
  | [] => none
  | (k', v') :: r => if k' = k then some r else (dictDel r k).map ((k', v') :: ·)

/-- `core/events.py` `EventHandler`: `fn` stands for the Python function. core/events.py 91–125. -/
structure Handler where
  fn : Nat
  target : Option String := none
  preventDefault : Bool := false
  stopPropagation : Bool := false
  debounce : Option Int := none
  throttle : Option Int := none
deriving DecidableEq, Repr, Inhabited

/-- `component.type`: the decorated function, or the context of a `ContextProvider`
(`hooks.py` 333–338 passes `type=context`). -/
inductive CType where
  | fn (n : Nat)
  | ctx (n : Nat)
deriving DecidableEq, Repr, Inhabited

/-- A `Component` object (`types.py`): type, key and its arguments. types.py 42–62. -/
structure Comp where
  type : CType
  key : Option Key := none
  props : Nat := 0
deriving DecidableEq, Repr, Inhabited

/-- The parts of a VDOM dict other than its children.  `tag = none`: the dict has no `tagName`. layout.py 373–403. -/
structure ElemInfo where
  tag : Option String
  attrs : Option Attrs := none
  handlers : List (String × Handler) := []
  inlineJs : Option Nat := none
  importSource : Option Nat := none
deriving DecidableEq, Repr, Inhabited

/-- What a component may return and what a VDOM dict may hold as a child.  `text s` is any value
that is neither `None`, a dict nor a component, already formatted by 894. A `children` value that
is not a list is normalised by 516–520 to a list, which is what `elem` holds. -/
inductive Raw where
  | none
  | text (s : String)
  | elem (i : ElemInfo) (children : List Raw)
  | comp (c : Comp)
deriving Repr, Inhabited

/-- On-the-wire event handler entry (`_serialize_event_handler`, 490–507). -/
structure HEntry where
  event : String
  target : String
  preventDefault : Bool
  stopPropagation : Bool
  debounce : Option Int
  throttle : Option Int
deriving DecidableEq, Repr, Inhabited

/-- A JSON object of `VdomJson` without its children. layout.py 343–348, 373–431. -/
structure Shell where
  tag : String
  error : Option String := none
  attrs : Option Attrs := none
  handlers : Option (List HEntry) := none
  inlineJs : Option Nat := none
  importSource : Option Nat := none
deriving DecidableEq, Repr, Inhabited

/-- Serialised VDOM (`VdomJson`): what is sent to the client. layout.py 266–270. -/
inductive VJson where
  | text (s : String)
  | obj (sh : Shell) (children : Option (List VJson))
deriving Repr, Inhabited

/-- The position fields of a `_ModelState` (745–764).  `path` lists the child indices of
`patch_path` (`/children/i/children/j`, 630, 670, 692, 709), `kpath` the keys of `key_path`
(634, 678, 695, 712).  They are set by `_new_root_model_state` (602–615), `_make_component_model_state`
(618–635), `_copy_component_model_state` (638–655), `_update_component_model_state` (658–679),
`_make_element_model_state` (682–696) and `_update_element_model_state` (699–713), which differ in whether
the life cycle state is a new one; see `prepareComp`. -/
structure Pos where
  key : Option Key
  path : List Nat
  kpath : List Key
deriving DecidableEq, Repr, Inhabited

/-- `_ModelState` (716–792).  `kids` interleaves `children_by_key` with the text children, in the
order of `model.current["children"]`.  `text` is a child that is a plain string (557).  `targets` is
`targets_by_event`: event name and target, together with the handler that was registered (recorded
for the specification only, the renderer never reads it). -/
inductive Node where
  | text (s : String)
  | elem (pos : Pos) (sh : Shell) (targets : List (String × String × Handler)) (kids : Option (List Node))
  | comp (pos : Pos) (id : Nat) (c : Comp) (err : Option String) (kids : List Node)
deriving Repr, Inhabited

/-- `state.key`, layout.py 748. -/
def Node.key? : Node → Option Key
  | .text _ => none
  | .elem p _ _ _ => p.key
  | .comp p _ _ _ _ => p.key

/-- Text has no model state, layout.py 554–563. -/
def Node.isText : Node → Bool
  | .text _ => true
  | _ => false

/-- `{"tagName": ""}` (337). -/
def fragShell : Shell := { tag := "" }
/-- `{"tagName": "", "error": ...}` (343–348). -/
def errShell (e : String) : Shell := { tag := "", error := some e }

mutual
/-- `model_state.model.current` after its render. -/
def Node.view : Node → VJson
  | .text s => .text s
  | .elem _ sh _ none => .obj sh none
  | .elem _ sh _ (some kids) => .obj sh (some (viewL kids))
  | .comp _ _ _ (some e) _ => .obj (errShell e) none
  | .comp _ _ _ none kids => .obj fragShell (some (viewL kids))
/-- `model.current["children"]`: the list built by `append_child` (559–563). -/
def viewL : List Node → List VJson
  | [] => []
  | n :: ns => n.view :: viewL ns
end

/-- User code.  `render` is a component's body: given the instance, the component (type and
arguments) and the context values visible to it, it returns a VDOM value or raises; it may change
the world arbitrarily.  `unmount` and `didRender` are the effects run by
`affect_component_will_unmount` and `affect_layout_did_render` (`_life_cycle_hook.py` 235–252;
`gather` failures are logged and ignored there, so they do not raise).
`provValue`/`provChildren` are the fields of a `ContextProvider` (`types.py`) with the given
`props`.  `debug` is `REACTPY_DEBUG`. -/
structure User where
  World : Type
  render : World → Nat → Comp → (Nat → Option Nat) → World × Except String Raw
  unmount : World → Nat → World
  didRender : World → Nat → World
  provValue : Nat → Nat
  provChildren : Nat → List Raw
  debug : Bool := true

/-- Observable history.  `rendered id c ctx out`: the body of instance `id` was called as component
`c`, saw the context values `ctx`, and (after its children were rendered) the outcome was `out`:
the returned value, or the exception that replaced it by an error.
A record of layout.py 291, 330–350, 576, for the statements; not read by the renderer. -/
inductive Ev where
  | mounted (id : Nat)
  | entered (id : Nat)
  | rendered (id : Nat) (c : Comp) (ctx : Nat → Option Nat) (out : Except String Raw)
  | unmounted (id : Nat)
  | effects (id : Nat)

/-- The mutable state of a `Layout` (67–98) and of its hooks that the renderer touches.
`ctx id` is the hook's `_context_providers` (provider values by context).  `exit` is the
`AsyncExitStack` of the running update, most recently pushed first.  `orphans` are the component
model states that are still registered but no longer reachable from the root (they arise when a
render fails, see `renderComponent`). -/
structure St (U : User) where
  world : U.World
  nextId : Nat
  handlers : List (String × Handler)
  reg : List Nat
  ctx : Nat → Nat → Option Nat
  seqs : List (String × Nat)
  exit : List Nat
  orphans : List Node
  log : List Ev

/-- Result of a renderer function: the new model states; an exception together with the model
states that are thereby dropped (no longer reachable, but not unmounted); or fuel exhausted.
layout.py 283–386 return a state or raise. -/
inductive Res where
  | ok (ns : List Node)
  | err (e : String) (lost : List Node)
  | diverge
deriving Repr, Inhabited

/-- The effective key of a child, `_get_children_info` 884–905: `None` children are skipped; the
default key is the index in the *original* list. Result: children with their keys. -/
def childrenInfo (idx : Nat) : List Raw → List (Raw × Key)
  | [] => []
  | .none :: r => childrenInfo (idx + 1) r
  | .text s :: r => (.text s, .int idx) :: childrenInfo (idx + 1) r
  | .elem i cs :: r =>
      (.elem i cs, match dictGet (i.attrs.getD []) "key" with
        | some (.key k) => k
        | _ => .int idx) :: childrenInfo (idx + 1) r
  | .comp c :: r => (.comp c, c.key.getD (.int idx)) :: childrenInfo (idx + 1) r

/-- 901–907: `new_keys is None` iff some key repeats. -/
def hasDupKeys (infos : List (Raw × Key)) : Bool := !(decide (infos.map (·.2)).Nodup)

/-- `children_by_key.get(key)`. layout.py 540–544. -/
def lookupKid (kids : List Node) (k : Key) : Option Node :=
  kids.find? (fun n => !n.isText && decide (n.key? = some k))

/-- Delete the given targets from `_event_handlers`, one after the other (570–571); `none`: a
`KeyError` (the handlers deleted before it stay deleted). -/
def delTargets (h : List (String × Handler)) : List (String × String × Handler) →
    List (String × Handler) × Bool
  | [] => (h, true)
  | (_, t, _) :: r => match dictDel h t with
    | some h' => delTargets h' r
    | none => (h, false)

variable {U : User}

mutual
/-- `_unmount_model_states` (565–578) for one state popped from the stack: its handlers are
deleted, its instance is unregistered and its effects stopped, then its children follow, last
child first.  Result: the states *not* unmounted because of a `KeyError` (empty: success). -/
def unmountNode : Node → St U → St U × List Node
  | .text _, s => (s, [])
  | .elem p sh ts kids, s =>
    match delTargets s.handlers ts with
    | (h, false) => ({ s with handlers := h }, [.elem p sh ts kids])
    | (h, true) => match kids with
      | none => ({ s with handlers := h }, [])
      | some ks => unmountKids ks { s with handlers := h }
  | .comp p id c e ks, s =>
    if id ∈ s.reg then
      unmountKids ks { s with
        reg := s.reg.erase id
        world := U.unmount s.world id
        log := .unmounted id :: s.log }
    else (s, [.comp p id c e ks])
/-- The children of an unmounted state: pushed in order, popped from the end. layout.py 578. -/
def unmountKids : List Node → St U → St U × List Node
  | [], s => (s, [])
  | k :: ks, s =>
    match unmountKids ks s with
    | (s', []) => unmountNode k s'
    | (s', rest) => (s', k :: rest)
end

/-- `_unmount_model_states(old_states)`: the states are popped in the given order. layout.py 565–578. -/
def unmountAll : List Node → St U → St U × List Node
  | [], s => (s, [])
  | k :: ks, s =>
    match unmountNode k s with
    | (s', []) => unmountAll ks s'
    | (s', rest) => (s', rest ++ ks)

/-- f"{new_state.key_path}:{event}" (425, 481) with key_path f"{parent.key_path}/{key}". -/
def autoTarget (kpath : List Key) (ev : String) : String :=
  (kpath.foldl (fun acc k => acc ++ "/" ++ k.fmt) "") ++ ":" ++ ev

/-- layout.py 422–425, 478–481. -/
def targetOf (kpath : List Key) (ev : String) (h : Handler) : String :=
  h.target.getD (autoTarget kpath ev)

/-- `_serialize_event_handler` (490–507). -/
def serialize (ev : String) (h : Handler) (t : String) : HEntry :=
  { event := ev, target := t, preventDefault := h.preventDefault,
    stopPropagation := h.stopPropagation, debounce := h.debounce, throttle := h.throttle }

/-- The loop over `handlers_by_event` (421–429, 477–485). -/
def addHandlers (kpath : List Key) : List (String × Handler) → List (String × Handler) →
    List (String × Handler)
  | [], h => h
  | (ev, hd) :: r, h => addHandlers kpath r (dictSet h (targetOf kpath ev hd) hd)

/-- `_inject_event_ack_seq` (434–466): the largest recorded sequence number of the targets. -/
def maxAck (seqs : List (String × Nat)) : List String → Option Nat
  | [] => none
  | t :: r => match dictGet seqs t, maxAck seqs r with
    | none, m => m
    | some a, none => some a
    | some a, some m => some (max a m)

/-- layout.py 446. -/
def inputTags : List String := ["input", "select", "textarea"]

/-- layout.py 434–466. -/
def injectAck (tag : String) (targets : List (String × String × Handler)) (seqs : List (String × Nat))
    (attrs : Option Attrs) : Option Attrs :=
  if tag ∈ inputTags then
    match maxAck seqs (targets.map (·.2.1)), attrs with
    | some a, some at' =>
      if (dictGet at' "_reactpy_ack_seq").isSome then some at'
      else some (at' ++ [("_reactpy_ack_seq", .ack a)])
    | _, _ => attrs
  else attrs

/-- `_render_model_attributes` (388–432) after `model.current` was created (373, 380–381): the
shell of the element and its `targets_by_event`. -/
def mkTargets (kpath : List Key) (i : ElemInfo) : List (String × String × Handler) :=
  i.handlers.map (fun p => (p.1, targetOf kpath p.1 p.2, p.2))

/-- layout.py 373–431. -/
def mkShell (kpath : List Key) (i : ElemInfo) (tag : String) (seqs : List (String × Nat)) : Shell :=
  { tag := tag
    attrs := injectAck tag (mkTargets kpath i) seqs i.attrs
    handlers := if i.handlers.isEmpty then none
      else some (i.handlers.map (fun p => serialize p.1 p.2 (targetOf kpath p.1 p.2)))
    inlineJs := i.inlineJs
    importSource := i.importSource }

/-- 412–414: targets of events the element no longer handles. -/
def droppedTargets (old : List (String × String × Handler)) (i : ElemInfo) :
    List (String × String × Handler) :=
  old.filter (fun p => !(i.handlers.any (fun q => q.1 == p.1)))

mutual
/-- Component states that stay registered when the given state becomes unreachable: the children
of an element die with it, a component state is kept alive by the registry.
Python's garbage collection, with the references of layout.py 769–771 (weak) and 315 (the registry). -/
def compRootsN : Node → List Node
  | .text _ => []
  | .elem _ _ _ none => []
  | .elem _ _ _ (some ks) => compRoots ks
  | .comp p id c e ks => [.comp p id c e ks]
/-- As `compRootsN`, for a list. -/
def compRoots : List Node → List Node
  | [] => []
  | n :: r => compRootsN n ++ compRoots r
end

/-- `LifeCycleHook.set_current` (`_life_cycle_hook.py` 254–264): providers of the hook on top of
the stack override the hook's own entries. -/
def inheritCtx (ctx : Nat → Nat → Option Nat) (top : Option Nat) (id : Nat) : Nat → Nat → Option Nat :=
  match top with
  | none => ctx
  | some p => fun i x => if i = id then (ctx p x).or (ctx id x) else ctx i x

/-- Body of a component: a `ContextProvider` registers itself and returns its children in a
fragment (`types.py` `ContextProvider.render`); any other component runs user code. layout.py 333. -/
def runBody (s : St U) (id : Nat) (c : Comp) : St U × Except String Raw :=
  match c.type with
  | .ctx x =>
    ({ s with ctx := fun i y => if i = id ∧ y = x then some (U.provValue c.props) else s.ctx i y },
      .ok (.elem { tag := some "" } (U.provChildren c.props)))
  | .fn _ =>
    let r := U.render s.world id c (s.ctx id)
    ({ s with world := r.1 }, r.2)

/-- Allocation of a life cycle state (`_make_life_cycle_state`, 795–804; ids are uuids). -/
def allocate (s : St U) : St U × Nat :=
  ({ s with nextId := s.nextId + 1, log := .mounted s.nextId :: s.log }, s.nextId)

/-- 283–310: decide whether the old state is kept (`_update_component_model_state` 658–679 with
`_update_life_cycle_state` 807–816: the instance and its hook remain, the component is the new one; or
`_copy_component_model_state` 638–655 when it is rendered again by itself) or a new one is made
(`_make_component_model_state` 618–635).  `Except.error rest`: unmounting raised. -/
def prepareComp (old : Option Node) (c : Comp) (s : St U) :
    St U × Except (List Node) (Nat × List Node) :=
  match old with
  | none => let a := allocate s; (a.1, .ok (a.2, []))
  | some (.comp p id oc e ks) =>
    if oc.type ≠ c.type then
      match unmountAll [.comp p id oc e ks] s with
      | (s', []) => let a := allocate s'; (a.1, .ok (a.2, []))
      | (s', rest) => (s', .error rest)
    else (s, .ok (id, ks))
  | some n =>
    match unmountAll [n] s with
    | (s', []) => let a := allocate s'; (a.1, .ok (a.2, []))
    | (s', rest) => (s', .error rest)

/-- 315–331: register, `affect_component_will_render`, push the exit callback. -/
def enterComp (s : St U) (top : Option Nat) (id : Nat) : St U :=
  { s with
    reg := if id ∈ s.reg then s.reg else id :: s.reg
    ctx := inheritCtx s.ctx top id
    exit := id :: s.exit
    log := .entered id :: s.log }

/-- 341–348: the error text shown. -/
def errText (U : User) (e : String) : String := if U.debug then e else ""

/-- The first half of `_render_model` (363–382): unmount a component state in the same place, read
`tagName`, and delete the targets of events that are no longer handled (412–414).  Result: the tag
and the old children to compare with, or an exception and the dropped states. -/
def prepareModel (old : Option Node) (i : ElemInfo) (s : St U) :
    St U × Except (String × List Node) (String × List Node) :=
  match old with
  | none => match i.tag with
    | none => (s, .error ("ValueError", []))
    | some tag => (s, .ok (tag, []))
  | some (.elem _ _ ts oks) => match i.tag with
    | none => (s, .error ("ValueError", oks.getD []))
    | some tag => match delTargets s.handlers (droppedTargets ts i) with
      | (h, false) => ({ s with handlers := h }, .error ("KeyError", oks.getD []))
      | (h, true) => ({ s with handlers := h }, .ok (tag, oks.getD []))
  | some o => match unmountAll [o] s with
    | (s, []) => match i.tag with
      | none => (s, .error ("ValueError", []))
      | some tag => (s, .ok (tag, []))
    | (s, rest) => (s, .error ("KeyError", rest))

/-- The children of the old state whose keys do not / do occur again (531–535). -/
def removedKids (oldKids : List Node) (infos : List (Raw × Key)) : List Node :=
  oldKids.filter (fun k => !k.isText && !(infos.any (fun i => decide (k.key? = some i.2))))
/-- The children that are not unmounted at layout.py 530–535. -/
def keptKids (oldKids : List Node) (infos : List (Raw × Key)) : List Node :=
  oldKids.filter (fun k => !k.isText && infos.any (fun i => decide (k.key? = some i.2)))

mutual
/-- `_render_component` (274–352).  `top` is the hook on top of the hook stack. -/
def renderComponent : Nat → Option Nat → Option Node → Pos → Comp → St U → St U × Res
  | 0, _, _, _, _, s => (s, .diverge)
  | n + 1, top, old, pos, c, s =>
    match prepareComp old c s with
    | (s, .error rest) => (s, .err "KeyError" rest)
    | (s, .ok (id, oldKids)) =>
      let s := enterComp s top id
      let seen := s.ctx id
      match runBody s id c with
      | (s, .error e) =>
        ({ s with
            orphans := s.orphans ++ compRoots oldKids
            log := .rendered id c seen (.error e) :: s.log },
          .ok [.comp pos id c (some (errText U e)) []])
      | (s, .ok raw) =>
        match renderChildren n (some id) oldKids pos.path pos.kpath [raw] s with
        | (s, .ok kids) =>
          ({ s with log := .rendered id c seen (.ok raw) :: s.log }, .ok [.comp pos id c none kids])
        | (s, .err e lost) =>
          ({ s with
              orphans := s.orphans ++ compRoots lost
              log := .rendered id c seen (.error e) :: s.log },
            .ok [.comp pos id c (some (errText U e)) []])
        | (s, .diverge) => (s, .diverge)
/-- `_render_model` (354–386) with `_render_model_attributes` (388–432). -/
def renderModel : Nat → Option Nat → Option Node → Pos → ElemInfo → List Raw → St U → St U × Res
  | 0, _, _, _, _, _, s => (s, .diverge)
  | n + 1, top, old, pos, i, cs, s =>
    match prepareModel old i s with
    | (s, .error (e, lost)) => (s, .err e lost)
    | (s, .ok (tag, oldKids)) =>
      let sh := mkShell pos.kpath i tag s.seqs
      let s := { s with handlers := addHandlers pos.kpath i.handlers s.handlers }
      match renderChildren n top oldKids pos.path pos.kpath cs s with
      | (s, .ok kids) =>
        (s, .ok [.elem pos sh (mkTargets pos.kpath i) (if cs.isEmpty then none else some kids)])
      | (s, .err e lost) => (s, .err e lost)
      | (s, .diverge) => (s, .diverge)
/-- `_render_model_children` (509–563) up to the loop. -/
def renderChildren : Nat → Option Nat → List Node → List Nat → List Key → List Raw → St U →
    St U × Res
  | 0, _, _, _, _, _, s => (s, .diverge)
  | n + 1, top, oldKids, path, kpath, raws, s =>
    let infos := childrenInfo 0 raws
    if hasDupKeys infos then (s, .err "ValueError" oldKids)
    else
      match unmountAll (removedKids oldKids infos) s with
      | (s, []) => renderLoop n top (keptKids oldKids infos) path kpath 0 infos s
      | (s, rest) => (s, .err "KeyError" (rest ++ keptKids oldKids infos))
/-- The loop of `_render_model_children` (539–563) from child `idx` on; the position of a child is that of
618–635, 658–679 (components), 682–696 and 699–713 (elements).  `oldKids` are the old
children whose keys occur among the remaining `infos`. -/
def renderLoop : Nat → Option Nat → List Node → List Nat → List Key → Nat → List (Raw × Key) →
    St U → St U × Res
  | 0, _, _, _, _, _, _, s => (s, .diverge)
  | _ + 1, _, _, _, _, _, [], s => (s, .ok [])
  | n + 1, top, oldKids, path, kpath, idx, (raw, key) :: infos, s =>
    let others := oldKids.filter (fun k => !decide (k.key? = some key))
    let pos : Pos := { key := some key, path := path ++ [idx], kpath := kpath ++ [key] }
    match renderChild n top (lookupKid oldKids key) pos raw s with
    | (s, .diverge) => (s, .diverge)
    | (s, .err e lost) => (s, .err e (lost ++ others))
    | (s, .ok new) =>
      match renderLoop n top others path kpath (idx + 1) infos s with
      | (s, .ok news) => (s, .ok (new ++ news))
      | (s, .err e lost) => (s, .err e (new ++ lost))
      | (s, .diverge) => (s, .diverge)
/-- The body of that loop (540–557). `None` children were removed by `_get_children_info`. -/
def renderChild : Nat → Option Nat → Option Node → Pos → Raw → St U → St U × Res
  | 0, _, _, _, _, s => (s, .diverge)
  | n + 1, top, old, pos, raw, s =>
    match raw with
    | .elem i cs => renderModel n top old pos i cs s
    | .comp c => renderComponent n top old pos c s
    | .text t => match old with
      | none => (s, .ok [.text t])
      | some o => match unmountAll [o] s with
        | (s, []) => (s, .ok [.text t])
        | (s, rest) => (s, .err "KeyError" rest)
    | .none => (s, .err "unreachable" old.toList)
end

/-! ### The layout object -/

mutual
/-- The registered model state of an instance inside a tree. layout.py 203, 585. -/
def findComp (id : Nat) : Node → Option Node
  | .text _ => none
  | .elem _ _ _ none => none
  | .elem _ _ _ (some ks) => findCompL id ks
  | .comp p i c e ks => if i = id then some (.comp p i c e ks) else findCompL id ks
/-- As `findComp`, for a list (layout.py 203, 585). -/
def findCompL (id : Nat) : List Node → Option Node
  | [] => none
  | k :: ks => (findComp id k).or (findCompL id ks)
end

mutual
/-- Line 251: put the new model state of instance `id` into its parent's children. -/
def replaceComp (id : Nat) (new : Node) : Node → Node
  | .text t => .text t
  | .elem p sh ts none => .elem p sh ts none
  | .elem p sh ts (some ks) => .elem p sh ts (some (replaceCompL id new ks))
  | .comp p i c e ks => if i = id then new else .comp p i c e (replaceCompL id new ks)
/-- As `replaceComp`, for a list (layout.py 250–261). -/
def replaceCompL (id : Nat) (new : Node) : List Node → List Node
  | [] => []
  | k :: ks => replaceComp id new k :: replaceCompL id new ks
end

/-- `Layout` between two operations. layout.py 69–96. -/
structure Layout (U : User) where
  tree : Node
  st : St U

/-- `{"type": "layout-update", "path": ..., "model": ...}` (266–270). -/
structure Update where
  path : List Nat
  model : VJson

/-- What `render()` does: returns an update, keeps waiting (id not registered: 204–208), raises, or
never returns. -/
inductive Out where
  | update (u : Update)
  | skipped
  | raised (e : String)
  | diverged

/-- Leaving the `AsyncExitStack` (240): callbacks run last-pushed first. -/
def runExit (s : St U) : St U :=
  { s.exit.foldl (fun s id => { s with world := U.didRender s.world id, log := .effects id :: s.log }) s
    with exit := [] }

/-- `_create_layout_update` (229–272) for a component state `old` that has a parent or is the root.
The position (key, path, key path) of the re-rendered component does not change: it is recomputed
from the same parent (630/634, 650/654, 670/678) and the same index and key (245–246). -/
def renderAt (fuel : Nat) (old : Node) (s : St U) : Option (St U × Node) :=
  match old with
  | .comp pos _ c _ _ =>
    match renderComponent fuel none (some old) pos c s with
    | (s, .ok [n]) => some (runExit s, n)
    | _ => none
  | _ => none

/-- layout.py 745–764. -/
def Node.pos : Node → Pos
  | .text _ => { key := none, path := [], kpath := [] }
  | .elem p _ _ _ => p
  | .comp p _ _ _ _ => p

/-- Render an instance that lives strictly inside one of the orphans; `none` if it is not there.
layout.py 203–210 for a state that is registered but not displayed. -/
def orphanPart (id : Nat) : Node → Option Node
  | .comp _ i _ _ ks => if i = id then none else findCompL id ks
  | _ => none

/-- One iteration of `_serial_render` (200–210) with `id` taken from the queue. -/
def renderOp (fuel : Nat) (id : Nat) (l : Layout U) : Layout U × Out :=
  if id ∈ l.st.reg then
    match findComp id l.tree with
    | some old =>
      match renderAt fuel old l.st with
      | some (s, new) =>
        ({ tree := replaceComp id new l.tree, st := s }, .update ⟨new.pos.path, new.view⟩)
      | none => (l, .diverged)
    | none =>
      -- unreachable from the root: its parent is alive only if it is inside another orphan (785)
      match l.st.orphans.findSome? (orphanPart id) with
      | some old =>
        match renderAt fuel old l.st with
        | some (s, new) =>
          ({ l with st := { s with orphans := s.orphans.map (replaceComp id new) } },
            .update ⟨new.pos.path, new.view⟩)
        | none => (l, .diverged)
      | none => (l, .raised "RuntimeError: detached model state")
  else (l, .skipped)

/-- `__aenter__` (67–98) with `_new_root_model_state` (602–615): the root state is registered but not rendered. -/
def initLayout (U : User) (w : U.World) (root : Comp) : Layout U :=
  { tree := .comp { key := none, path := [], kpath := [] } 0 root none []
    st := { world := w, nextId := 1, handlers := [], reg := [0], ctx := fun _ _ => none, seqs := [],
            exit := [], orphans := [], log := [.mounted 0] } }

/-- `__aexit__` (116). -/
def exitOp (l : Layout U) : Layout U := { l with st := (unmountAll [l.tree] l.st).1 }

/-- 162–166: record an event's sequence number. -/
def recordSeq (seqs : List (String × Nat)) (target : String) (seq : Nat) : List (String × Nat) :=
  match dictGet seqs target with
  | none => dictSet seqs target seq
  | some p => if seq > p then dictSet seqs target seq else seqs

/-- 170–183: the function run for an event to `target`, if any. -/
def handlerFor (l : Layout U) (target : String) : Option Nat :=
  (dictGet l.st.handlers target).map (·.fn)

/-- What can happen to a layout between entering and leaving it: a scheduled render is performed,
user code running elsewhere (event handlers, effects, timers, threads) changes the world, an event
arrives. layout.py 130–210. -/
inductive Op (U : User) where
  | render (fuel : Nat) (id : Nat)
  | user (f : U.World → U.World)
  | event (target : String) (seq : Option Nat)

/-- layout.py 162–166 (`event`), 198–210 (`render`). -/
def stepOp (l : Layout U) : Op U → Layout U × Out
  | .render fuel id => renderOp fuel id l
  | .user f => ({ l with st := { l.st with world := f l.st.world } }, .skipped)
  | .event t seq =>
    ({ l with st := { l.st with seqs := match seq with
                                  | none => l.st.seqs
                                  | some n => recordSeq l.st.seqs t n } }, .skipped)

/-- The client: `ReactPyLayoutHandler.update_model` (`executors/pyscript/layout_handler.py`): an
update with empty path replaces the whole model, any other path is a JSON pointer assignment.
`none`: the pointer does not resolve (the client raises). layout_handler.py 26–33. -/
def setAt : List Nat → VJson → VJson → Option VJson
  | [], new, _ => some new
  | i :: r, new, .obj sh (some ks) =>
    match ks[i]? with
    | some k => (setAt r new k).map (fun k' => .obj sh (some (ks.set i k')))
    | none => none
  | _ :: _, _, .obj _ none => none
  | _ :: _, _, .text _ => none

/-- Client state: no model yet, a model, or broken by an update it could not apply. layout_handler.py 155–160. -/
inductive Client where
  | empty
  | model (v : VJson)
  | broken

/-- layout_handler.py 26–33. -/
def applyUpdate (u : Update) : Client → Client
  | .empty => if u.path = [] then .model u.model else .broken
  | .model v => match setAt u.path u.model v with
    | some v' => .model v'
    | none => .broken
  | .broken => .broken

/-- A layout together with a client that receives every update in order.
layout_handler.py 157–160: the loop that passes updates on. -/
structure Sys (U : User) where
  layout : Layout U
  client : Client
  /-- Ghost: `render()` was performed for an instance that is registered but not displayed (this
  needs an earlier failing render, see `St.orphans`). -/
  stray : Bool

/-- layout_handler.py 155–157, layout.py 67–98. -/
def initSys (U : User) (w : U.World) (root : Comp) : Sys U :=
  { layout := initLayout U w root, client := .empty, stray := false }

/-- The operation re-renders a registered instance that is not part of the displayed tree. (specification, no code of /repo) -/
def isStray (l : Layout U) : Op U → Bool
  | .render _ id => decide (id ∈ l.st.reg) && (findComp id l.tree).isNone
  | _ => false

/-- layout_handler.py 158–160. -/
def stepSys (s : Sys U) (op : Op U) : Sys U :=
  let s := { s with stray := s.stray || isStray s.layout op }
  match stepOp s.layout op with
  | (l, .update u) => { s with layout := l, client := applyUpdate u s.client }
  | (l, .skipped) => { s with layout := l }
  | (l, .raised _) => { s with layout := l }
  | (l, .diverged) => { s with layout := l }

/-- Any history of layout_handler.py 158–160. -/
def runSys (s : Sys U) (ops : List (Op U)) : Sys U := ops.foldl stepSys s

end Verif.Layout
