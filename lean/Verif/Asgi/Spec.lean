import Verif.Asgi.Model
/-! # Specification vocabulary for the ASGI applications -/
namespace Verif.Asgi
variable {C A : Type}

/-- The strings a prefix pattern stands for. -/
def Stands : Str → Str → Prop
  | [], [] => True
  | p :: ps, c :: cs => (p = c ∨ p = '.' ∧ c ≠ '\n') ∧ Stands ps cs
  | _, _ => False

/-- A character of a dotted path. -/
def NameChar (c : Char) : Prop := c.isAlphanum = true ∨ c = '_' ∨ c = '.'

/-- The websocket paths that belong to ReactPy: with the middleware, the prefix, a dotted path and `/`; with a standalone
application, the prefix; with a client-side application none. -/
def Server.DispatchPath (s : Server C A) (path : Str) : Prop :=
  match s.kind with
  | .middleware => ∃ q d, Stands s.pathPrefix q ∧ d ≠ [] ∧ (∀ c ∈ d, NameChar c) ∧
      (path = q ++ d ++ ['/'] ∨ path = q ++ d ++ ['/', '\n'])
  | .standalone _ => path = s.pathPrefix
  | .csr => False

/-- The first route of a table whose pattern matches the path leads to the app. -/
def FirstRoute (table : List (String × A)) (path : Str) (a : A) : Prop :=
  ∃ pre p post, table = pre ++ (p, a) :: post ∧ reMatch p.toList path = true ∧ ∀ r ∈ pre, reMatch r.1.toList path = false

/-- An app the user registered for a request, by its type and path; the middleware has no registrations. -/
def Server.OwnRoute (s : Server C A) (sc : Scope) (a : A) : Prop :=
  (match s.kind with
    | .middleware => False
    | _ => True) ∧
  match sc.type with
  | .lifespan => s.lifespan = some a
  | .http => FirstRoute s.httpRoutes sc.path a
  | .websocket => FirstRoute s.wsRoutes sc.path a

end Verif.Asgi
