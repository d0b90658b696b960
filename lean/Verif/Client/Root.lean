/-!
# Updates of the whole document

components.tsx 139–161 `Layout` (JavaScript) and /repo/src/reactpy/executors/pyscript/layout_handler.py 25–33
`update_model` (PyScript), for the empty path; and what components.tsx 163–183 `Element` shows of a model.

A model here is its top-level dictionary; the values are of any type `J`.
-/
namespace Verif.Client.Root
variable {J : Type}

/-- The model of an element (client/src/types.ts `ReactPyVdom`): its fields in order. -/
abbrev Model (J : Type) := List (String × J)

/-- `model[key]`. (JavaScript, as at components.tsx 164) -/
def get (m : Model J) (k : String) : Option J := (m.find? (fun p => p.1 == k)).map (·.2)

/-- `model[key] = v`: in place, or at the end. (JavaScript `Object.assign`, as at components.tsx 147) -/
def set (m : Model J) (k : String) (v : J) : Model J :=
  if m.any (fun p => p.1 == k) then m.map (fun p => if p.1 == k then (k, v) else p) else m ++ [(k, v)]

/-- `Object.assign(currentModel, model)` (components.tsx 147). -/
def jsRoot (current model : Model J) : Model J := model.foldl (fun m p => set m p.1 p.2) current

/-- `root_model.clear(); root_model.update(model)` (layout_handler.py 32–33). -/
def pyRoot (_current model : Model J) : Model J := model.foldl (fun m p => set m p.1 p.2) []

/-- What `Element` does with a model: show an error (which may be empty), or go on to its tag and children.
components.tsx 163–182. -/
inductive Shown (J : Type)
  | error (e : J)
  | element
  deriving DecidableEq

/-- components.tsx 164–182. -/
def shown (m : Model J) : Shown J :=
  match get m "error" with
  | some e => .error e
  | none => .element

/-- components.tsx 140: the model before the first update. -/
def initial (empty : J) : Model J := [("tagName", empty)]

/-- The model after a list of root updates. (components.tsx 140, 146–147) -/
def jsAll (empty : J) (us : List (Model J)) : Model J := us.foldl jsRoot (initial empty)

end Verif.Client.Root
