import Verif.Pyscript.Model
/-! # PyScript: how the page follows the model

Models `/repo/src/reactpy/executors/pyscript/layout_handler.py` 35–46 and 152–160.  `morphdom` (imported in line 8, version `^2.7.7` in
src/js/package.json 10) is not part of `/repo`; what it does without options is written down here for documents in which no element has
an `id`, the attribute it takes for a key.  Its special treatment of form fields (it also sets their properties, and of a `textarea`
only the text) is left out, and tags are compared as they are written. -/
namespace Verif.Pyscript
open Verif.Layout (VJson Op Sys User Client stepOp stepSys initSys)

mutual
/-- No element below (and including) the node has an `id`; layout_handler.py 43 (external `morphdom`, its keys). -/
def Dom.noId : Dom → Bool
  | .text _ => true
  | .elem _ attrs _ kids => !(attrs.map (·.1)).contains "id" && noIds kids
/-- layout_handler.py 43 (external `morphdom`, its keys). -/
def noIds : List Dom → Bool
  | [] => true
  | d :: ds => d.noId && noIds ds
end

/-- Whether a node may be turned into another one: both are texts, or elements of the same tag.
layout_handler.py 43 (external `morphdom`, `compareNodeNames`). -/
def compatible : Dom → Dom → Bool
  | .text _, .text _ => true
  | .elem t _ _ _, .elem t' _ _ _ => t == t'
  | _, _ => false

/-- The first of the remaining nodes of the page that may become the new node, and those after it; the nodes before it are removed.
layout_handler.py 43 (external `morphdom`, the inner loop of `morphChildren`). -/
def reuse (n : Dom) : List Dom → Option (Dom × List Dom)
  | [] => none
  | o :: os => if compatible o n then some (o, os) else reuse n os

mutual
/-- A node of the page becomes like a new one: an element gets its attributes and children, a text its characters.  The listeners of an
element are those it has.  layout_handler.py 43 (external `morphdom`, `morphEl`). -/
def morphNode : Dom → Dom → Dom
  | .elem _ _ ls kids, .elem tag attrs _ kids' => .elem tag attrs ls (morphAll kids kids')
  | _, n => n
termination_by structural _ n => n
/-- The children of an element: for each new node the next node that may become like it, or else, at the end, the new node itself.
layout_handler.py 43 (external `morphdom`, the outer loop of `morphChildren`). -/
def morphAll : List Dom → List Dom → List Dom
  | _, [] => []
  | old, n :: ns => match reuse n old with
    | some (o, rest) => morphNode o n :: morphAll rest ns
    | none => n :: morphAll [] ns
termination_by structural _ ns => ns
end

/-- layout_handler.py 35–46 `render_html`: the content of the container after it, `none` if an element has an `id` (see above). -/
def renderHtml (page : List Dom) (model : VJson) : Option (List Dom) :=
  if noIds page && noIds (build model) then some (morphAll page (build model)) else none

/-- A layout that runs in the browser, with the page. layout_handler.py 152–160 -/
structure Tab (U : User) where
  sys : Sys U
  page : Option (List Dom)

/-- layout_handler.py 158–160: after each update the page follows the model. An update that does not fit the model raises, and the page
remains as it is. -/
def Tab.step {U : User} (t : Tab U) (op : Op U) : Tab U :=
  match stepOp t.sys.layout op, (stepSys t.sys op).client with
  | (_, .update _), .model v => { sys := stepSys t.sys op, page := t.page.bind (renderHtml · v) }
  | _, _ => { t with sys := stepSys t.sys op }

/-- layout_handler.py 152–157: the container holds the initial content (utils.py 101–103). -/
def Tab.init (U : User) (w : U.World) (root : Verif.Layout.Comp) (initial : List Dom) : Tab U :=
  { sys := initSys U w root, page := some initial }

/-- Any history of layout_handler.py 158–160. -/
def Tab.run {U : User} (t : Tab U) (ops : List (Op U)) : Tab U := ops.foldl Tab.step t

/-- The targets an event of this name goes to when it happens on the `i`-th node of a place, where the place is given by the positions of
the elements it is in. layout_handler.py 102–110 (events that go up from inner elements are not followed). -/
def fired (event : String) : List Dom → List Nat → List String
  | _, [] => []
  | ds, [i] => match ds[i]? with
    | some (.elem _ _ ls _) => (ls.filter (·.event = event)).map (·.target)
    | _ => []
  | ds, i :: r => match ds[i]? with
    | some (.elem _ _ _ kids) => fired event kids r
    | _ => []

end Verif.Pyscript
