import Verif.Whole.Model
import Verif.Parallel.Model
/-!
# From components to the page, with parallel rendering

As `Whole/Model.lean`, for a layout under the scheduling of `Parallel/Model.lean` (the default): the page is sent what `render()` hands out.
-/
namespace Verif.Whole
open Verif.Layout (VJson User Comp)
open Verif.Client
variable {U : User}

/-- A layout under parallel scheduling and the `currentModel` of its page. (layout.py 67–98, components.tsx 140) -/
structure PWeb (U : User) where
  sys : Parallel.Sys U
  current : Option VJson

/-- components.tsx 140, layout.py 67–98. -/
def initPWeb (U : User) (w : U.World) (root : Comp) : PWeb U :=
  { sys := Parallel.init U w root, current := some (.obj { tag := "" } none) }

/-- serve.py 40–59 sends each update that `render()` returns, components.tsx 145–152 applies it. -/
def stepPWeb (s : PWeb U) (op : Parallel.Op U) : PWeb U :=
  { sys := Parallel.step s.sys op
    current := match op with
      | .deliver k => match s.sys.queue[k]? with
        | some u => s.current.bind (jsApply u)
        | none => s.current
      | _ => s.current }

/-- Any history (serve.py 40–59, layout.py 130–227). -/
def runPWeb (w : U.World) (root : Comp) (ops : List (Parallel.Op U)) : PWeb U := ops.foldl stepPWeb (initPWeb U w root)

/-- What the page shows (components.tsx 156–160). -/
def PWeb.page (V : Values) (s : PWeb U) : Option Elem.Out := s.current.map (fun v => Elem.element (toModel V v))

end Verif.Whole
