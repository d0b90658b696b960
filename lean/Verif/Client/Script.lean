import Verif.Vdom.Model
/-!
# Scripts in the page

`/repo/src/js/packages/@reactpy/client/src/components.tsx` 417–450 (`ScriptElement`) with what Preact does around it: the children
of an element are matched by their key (185–217, 408–414), the effect of a component runs some time after the component was
rendered, at the latest before its next render, and the effect of a component that is gone does not run.  What the browser does
with a script that is put into the page is not modelled.
-/
namespace Verif.Client.Script

open Verif.Vdom (Val Elem)

/-- The value of an attribute as it comes over the wire (types.ts 49–57); arrays and objects are left out. -/
inductive JV where
  | str (s : String)
  | num (n : Int)
  | bool (b : Bool)
  | null
deriving DecidableEq, Repr

/-- `String(v)`, which `setAttribute` uses (JavaScript; components.tsx 429). -/
def JV.text : JV → String
  | .str s => s
  | .num n => toString n
  | .bool b => if b then "true" else "false"
  | .null => "null"

/-- The model of a script (types.ts 49–57): its attributes, and its children, of which only the text is of interest. -/
structure Script where
  attrs : List (String × JV) := []
  kids : List (Option String) := []
deriving DecidableEq, Repr

/-- `model.attributes?.key` (components.tsx 214, 412, 446). -/
def Script.key (m : Script) : Option JV := (m.attrs.find? (fun p => p.1 = "key")).map (·.2)

/-- A script element of the page (components.tsx 427–439). -/
structure Node where
  attrs : List (String × String)
  text : Option String
deriving DecidableEq, Repr

/-- The script element that the effect creates (427–439).  Simplifications: `setAttribute` makes the name lower case, and it
raises an error if the name is none. -/
def Script.node (m : Script) : Node :=
  { attrs := m.attrs.map fun p => (p.1, p.2.text)
    text := (m.kids.filterMap id).head?.filter (· ≠ "") }

/-- Preact's `==` of keys, where `null` and `undefined` are the same (Preact's `diffChildren`).  Simplification: a number and a
string are equal if the number is written like the string. -/
def sameKey : Option JV → Option JV → Bool
  | none, none => true
  | none, some .null => true
  | some .null, none => true
  | some .null, some .null => true
  | none, some _ => false
  | some _, none => false
  | some .null, some _ => false
  | some _, some .null => false
  | some a, some b => a.text = b.text

/-- An instance of `ScriptElement`: the key of the element, the dependency with which the effect was last set up (446), the model
of the effect that has still to run, and what is in the `<div>` (449). -/
structure Inst where
  key : Option JV
  dep : Option JV
  pending : Option Script
  nodes : List Node
deriving DecidableEq, Repr

/-- The scripts of one parent (components.tsx 417–450), and all script elements that were put into the page, in their order. -/
structure Page where
  insts : List Inst := []
  log : List Node := []
deriving DecidableEq, Repr

/-- The effect of an instance runs, if it has still to: the script element of the run before is removed (443–445), the new one is
created and put into the `<div>` (427–442). -/
def Inst.flush (i : Inst) : Inst × List Node :=
  match i.pending with
  | none => (i, [])
  | some m => ({ i with pending := none, nodes := i.nodes.dropLast ++ [m.node] }, [m.node])

/-- A first render: the effect has still to run (420, 446). -/
def mount (m : Script) : Inst := { key := m.key, dep := m.key, pending := some m, nodes := [] }

/-- A later render: an effect that has still to run runs before (Preact's `options._render`); then the dependency is compared
(446). -/
def Inst.update (i : Inst) (m : Script) : Inst × List Node :=
  let r := i.flush
  (if r.1.dep = m.key then { r.1 with key := m.key }
   else { r.1 with key := m.key, dep := m.key, pending := some m }, r.2)

/-- The first of the old instances with the key, and the others (Preact's `diffChildren`). -/
def take (k : Option JV) : List Inst → Option (Inst × List Inst)
  | [] => none
  | i :: r => if sameKey i.key k then some (i, r) else (take k r).map fun p => (p.1, i :: p.2)

/-- The children are matched with the old instances, and rendered (components.tsx 210–216). -/
def reconcile (old : List Inst) : List Script → List Inst × List Node
  | [] => ([], [])
  | m :: ms =>
    match take m.key old with
    | none => let r := reconcile old ms; (mount m :: r.1, r.2)
    | some (i, rest) =>
      let u := i.update m
      let r := reconcile rest ms
      (u.1 :: r.1, u.2 ++ r.2)

/-- What happens to the page: the parent is rendered with these scripts, or the pending effects run (417–450). -/
inductive Ev where
  | render (scripts : List Script)
  | flush
deriving DecidableEq, Repr

/-- One event.  An instance that is not matched is removed together with its `<div>` (443–445: the reference is `null` by then). -/
def Page.step (p : Page) : Ev → Page
  | .render ms => let r := reconcile p.insts ms; { insts := r.1, log := p.log ++ r.2 }
  | .flush =>
    { insts := p.insts.map fun i => i.flush.1
      log := p.log ++ p.insts.flatMap fun i => i.flush.2 }

/-- Any number of events (components.tsx 417–450). -/
def Page.run (p : Page) (evs : List Ev) : Page := evs.foldl Page.step p

/-- The script elements that are in the page (442, 449). -/
def Page.nodes (p : Page) : List Node := p.insts.flatMap (·.nodes)

/-- The model that is sent for what `html.script` returned (layout.py 358–420, _html.py 119–170): `json` is what becomes of a
value on the way. -/
def sent (json : Val → JV) (e : Elem) : Script :=
  { attrs := (e.attributes.getD []).map fun p => (p.1, json p.2)
    kids := (e.children.getD []).map fun
      | .str s => some s
      | .js s => some s
      | _ => none }

end Verif.Client.Script
