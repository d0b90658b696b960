import Verif.Vdom.Model
/-!
# `reactpy.html`: from a name to a constructor

`/repo/src/reactpy/_html.py` 18–96 (the elements without children), 173–202 (`SvgConstructor`) and 270–305 (`HtmlConstructor`).
-/
namespace Verif.Vdom.Tags

open Verif.Vdom

/-- `str.rstrip("_")` (Python; 195, 292). -/
def rstrip (l : List Char) : List Char := (l.reverse.dropWhile (· = '_')).reverse

/-- `value.rstrip("_").replace("_", "-")` (195, 292). -/
def tagOf (name : String) : String :=
  String.ofList ((rstrip name.toList).map fun c => if c = '_' then '-' else c)

/-- `NO_CHILDREN_ALLOWED_HTML_BODY` (18–37). -/
def noChildrenHtml : List String :=
  ["area", "base", "br", "col", "command", "embed", "hr", "img", "input", "iframe", "keygen", "link", "meta", "param",
   "portal", "source", "track", "wbr"]

/-- `NO_CHILDREN_ALLOWED_SVG` (39–96). -/
def noChildrenSvg : List String :=
  ["animate", "animateMotion", "animateTransform", "circle", "desc", "discard", "ellipse", "feBlend", "feColorMatrix",
   "feComponentTransfer", "feComposite", "feConvolveMatrix", "feDiffuseLighting", "feDisplacementMap", "feDistantLight",
   "feDropShadow", "feFlood", "feFuncA", "feFuncB", "feFuncG", "feFuncR", "feGaussianBlur", "feImage", "feMerge",
   "feMergeNode", "feMorphology", "feOffset", "fePointLight", "feSpecularLighting", "feSpotLight", "feTile", "feTurbulence",
   "filter", "foreignObject", "hatch", "hatchpath", "image", "line", "linearGradient", "metadata", "mpath", "path",
   "polygon", "polyline", "radialGradient", "rect", "script", "set", "stop", "style", "text", "textPath", "title", "tspan",
   "use", "view"]

/-- What is in a cache: a `Vdom` object, or the `SvgConstructor` (284–288). -/
inductive Entry where
  | vdom (m : Maker)
  | svg

/-- An object, with its identity (_html.py 284–288). -/
structure Obj where
  id : Nat
  entry : Entry

/-- A class-level `__cache__` (176, 284–288), and the number of objects that exist. -/
structure Cache where
  entries : List (String × Obj)
  next : Nat

/-- The cache of `HtmlConstructor` when the class is made (284–288). -/
def htmlInit : Cache :=
  { entries :=
      [("script", ⟨0, .vdom { tag := "script", custom := .script }⟩),
       ("fragment", ⟨1, .vdom { tag := "", custom := .fragment }⟩),
       ("svg", ⟨2, .svg⟩)]
    next := 3 }

/-- The cache of `SvgConstructor` when the class is made (176). -/
def svgInit : Cache := { entries := [], next := 0 }

/-- `__getattr__` (194–204, 291–301), which Python calls for a name that is no attribute of the object or its class; `without`
lists the elements without children. -/
def Cache.getattr (without : List String) (c : Cache) (name : String) : Obj × Cache :=
  let value := tagOf name
  match c.entries.find? (fun p => p.1 = value) with
  | some p => (p.2, c)
  | none =>
    let o : Obj := ⟨c.next, .vdom { tag := value, allowChildren := !without.contains value }⟩
    (o, { entries := c.entries ++ [(value, o)], next := c.next + 1 })

/-- Any number of accesses (194–204, 291–301). -/
def Cache.after (without : List String) (c : Cache) (names : List String) : Cache :=
  names.foldl (fun c n => (c.getattr without n).2) c

/-- `html.<name>` after other names were used (291–301). -/
def html (before : List String) (name : String) : Obj :=
  ((htmlInit.after noChildrenHtml before).getattr noChildrenHtml name).1

/-- `html.svg.<name>` after other names were used (194–204). -/
def svg (before : List String) (name : String) : Obj :=
  ((svgInit.after noChildrenSvg before).getattr noChildrenSvg name).1

/-- `html.svg(…)` (191–192): the constructor of `html.svg.svg`. -/
def svgCall (before : List String) : Obj := svg before "svg"

end Verif.Vdom.Tags
