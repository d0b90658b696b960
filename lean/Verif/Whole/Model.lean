import Verif.Layout.Model
import Verif.Client.Element
/-!
# From components to the page

The layout (`Layout/Model`), the model that the JavaScript client keeps, and the elements it builds from it (`Client/Element`).
Updates arrive in order (see `Client/Conn` and C72 for what a lost connection does; a new session starts anew).
Encoding to JSON and back is taken to give the same values.
-/
namespace Verif.Whole
open Verif.Layout (VJson Shell HEntry AVal Update Layout User Comp)
open Verif.Client

/-- How the values that `Layout` leaves open look in the browser: attribute values, inline JavaScript, import sources.
(layout.py 397–403, types.ts 49–72) -/
structure Values where
  attr : AVal → Elem.J
  inline : Nat → List (String × String)
  source : Nat → Elem.Source

/-- A handler as it arrives (layout.py 490–507, types.ts 59–65). -/
def entry (e : HEntry) : String × Elem.Handler :=
  (e.event, { target := e.target, preventDefault := e.preventDefault, stopPropagation := e.stopPropagation,
              debounce := e.debounce.map .num, throttle := e.throttle.map .num })

mutual
/-- A model as it arrives (types.ts 49–57): what is absent is empty for the client (vdom.tsx 172–212). -/
def toModel (V : Values) : VJson → Elem.Model
  | .text s => .text s
  | .obj sh none => .el sh.tag sh.error ((sh.attrs.getD []).map (fun p => (p.1, V.attr p.2))) ((sh.handlers.getD []).map entry)
      ((sh.inlineJs.map V.inline).getD []) (sh.importSource.map V.source) []
  | .obj sh (some ks) => .el sh.tag sh.error ((sh.attrs.getD []).map (fun p => (p.1, V.attr p.2))) ((sh.handlers.getD []).map entry)
      ((sh.inlineJs.map V.inline).getD []) (sh.importSource.map V.source) (toModelL V ks)
/-- types.ts 49–57. -/
def toModelL (V : Values) : List VJson → List Elem.Model
  | [] => []
  | v :: vs => toModel V v :: toModelL V vs
end

/-- `Object.assign(currentModel, model)` (components.tsx 147): a field that the new model does not have stays. -/
def assign : VJson → VJson → VJson
  | .obj a cs, .obj b ds => .obj { tag := b.tag, error := b.error.or a.error, attrs := b.attrs.or a.attrs, handlers := b.handlers.or a.handlers,
                                   inlineJs := b.inlineJs.or a.inlineJs, importSource := b.importSource.or a.importSource } (ds.or cs)
  | cur, _ => cur

/-- components.tsx 145–152.  `none`: the pointer leads nowhere (what `json-pointer` does then is not modelled). -/
def jsApply (u : Update) (cur : VJson) : Option VJson :=
  if u.path = [] then some (assign cur u.model) else Layout.setAt u.path u.model cur

variable {U : User}

/-- A layout and the `currentModel` of its page. (layout.py 67–98, components.tsx 140) -/
structure Web (U : User) where
  layout : Layout U
  current : Option VJson

/-- components.tsx 140, layout.py 67–98. -/
def initWeb (U : User) (w : U.World) (root : Comp) : Web U :=
  { layout := Layout.initLayout U w root, current := some (.obj { tag := "" } none) }

/-- serve.py 40–59 sends every update, components.tsx 145–152 applies it. -/
def stepWeb (s : Web U) (op : Layout.Op U) : Web U :=
  match Layout.stepOp s.layout op with
  | (l, .update u) => { layout := l, current := s.current.bind (jsApply u) }
  | (l, _) => { s with layout := l }

/-- Any history (serve.py 40–59). -/
def runWeb (w : U.World) (root : Comp) (ops : List (Layout.Op U)) : Web U := ops.foldl stepWeb (initWeb U w root)

/-- What the page shows (components.tsx 156–160). -/
def Web.page (V : Values) (s : Web U) : Option Elem.Out := s.current.map (fun v => Elem.element (toModel V v))

end Verif.Whole
