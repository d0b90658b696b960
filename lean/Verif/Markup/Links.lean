import Verif.Markup.Model
import Verif.Client.Element
/-!
# HTML that is read, sent and shown

What `string_to_reactpy` returns (utils.py 66–171) as the layout sends it (core/layout.py 354–470) and as the browser gets it
(types.ts 49–57).

Simplified: values of attributes are not told apart; `target` is the one the layout gives the handler, the same for all here.
-/
namespace Verif.Markup
open Verif.Client

mutual
/-- The model that is sent for what was read: an element with its attributes, the handlers that `intercept_link_clicks` has given it
(transforms.py 119–130, `prevent_default=True`; core/layout.py 397–447), and its inline JavaScript. -/
def wire : V → List Elem.Model
  | .text s => [.text s]
  | .none => []
  | .value s => [.text s]
  | .elem tag attrs js hs kids =>
    [.el tag none (attrs.map fun p => (p.1, .other 0)) (hs.map fun n => (n, { target := "target", preventDefault := true })) js none (wireL kids)]
  | .comp result => wire result
  | .bad => []
/-- The children (core/layout.py 448–470). -/
def wireL : List V → List Elem.Model
  | [] => []
  | v :: vs => wire v ++ wireL vs
end

/-- What the browser shows for the HTML (utils.py 66–171, components.tsx 163–217). -/
def shownPage (intercept : Bool) (e : El) : Except Err (List Elem.Out) := (toVdom intercept e).map fun v => Elem.elements (wire v)

end Verif.Markup
