/-!
# Model of components made from functions, and of reporting that one failed
(core/component.py 11–35, types.py 42–74, core/layout.py 331–352)

`V` are the values passed as arguments.  How Python binds the arguments of a call to the parameters of a function is modelled as
`inspect.Signature.bind` does it, which `Component.__repr__` uses (types.py 66) and which gives the same answer as the call itself.
-/
namespace Verif.Component

/-- A parameter that takes one argument; `required`: it has no default. (inspect; component.py 19) -/
structure Param where
  name : String
  required : Bool
deriving DecidableEq, Repr

/-- A signature: positional-only parameters, those passed by position or keyword, `*args`, keyword-only ones, `**kwargs`.
(inspect; component.py 19) -/
structure Sig where
  posOnly : List Param := []
  posOrKw : List Param := []
  varPos : Option String := none
  kwOnly : List Param := []
  varKw : Option String := none
deriving DecidableEq, Repr

/-- What a parameter is bound to: an argument, the tuple of `*args`, the dictionary of `**kwargs`. (inspect; types.py 66) -/
inductive Arg (V : Type) where
  | one (v : V)
  | tuple (l : List V)
  | dict (l : List (String × V))
deriving DecidableEq, Repr

section
variable {V : Type}

/-- The arguments for parameters that may be passed by keyword; `none`: one is missing. (inspect; types.py 66) -/
def named (kw : List (String × V)) : List Param → Option (List (String × Arg V))
  | [] => some []
  | p :: r =>
    match kw.lookup p.name with
    | some v => (named kw r).map ((p.name, .one v) :: ·)
    | none => if p.required then none else named kw r

/-- `Signature.bind(*args, **kw).arguments`; `none`: `TypeError`. (inspect; types.py 66, and the call at types.py 62) -/
def bind (s : Sig) (args : List V) (kw : List (String × V)) : Option (List (String × Arg V)) :=
  let params := s.posOnly ++ s.posOrKw
  let extra := args.drop params.length
  let later := s.posOrKw.drop (args.length - s.posOnly.length) ++ s.kwOnly
  let left := kw.filter fun a => !later.any (·.name == a.1)
  if extra ≠ [] ∧ s.varPos = none then none
  else if (s.posOnly.drop args.length).any (·.required) then none
  else if (s.posOrKw.take (args.length - s.posOnly.length)).any (fun p => (kw.lookup p.name).isSome) then none
  else
    match named kw later with
    | none => none
    | some n =>
      let star := match s.varPos with
        | some x => if extra = [] then [] else [(x, .tuple extra)]
        | none => []
      match s.varKw with
      | some x => some ((params.map (·.name)).zip (args.map .one) ++ star ++ n ++ if left = [] then [] else [(x, .dict left)])
      | none => if left = [] then some ((params.map (·.name)).zip (args.map .one) ++ star ++ n) else none

/-- A function: its `__name__`, which partials and objects with `__call__` do not have, its signature, and what it does with its
arguments. (Python; component.py 11–13) -/
structure Func (V R : Type) where
  name : Option String
  sig : Sig
  body : List (String × Arg V) → R

/-- A call; `none`: the arguments do not fit, `TypeError`. (Python; types.py 62) -/
def Func.call {R : Type} (f : Func V R) (args : List V) (kw : List (String × V)) : Option R := (bind f.sig args kw).map f.body

/-- A component (types.py 45–59); `key = none`: `None`. -/
structure Comp (V R : Type) where
  type : Func V R
  key : Option V
  args : List V
  kwargs : List (String × V)

/-- Whether `component` refuses the function with `TypeError` (component.py 21–26). -/
def refused (s : Sig) : Bool := s.posOrKw.any (·.name == "key") || s.kwOnly.any (·.name == "key")

/-- `constructor(*args, key=None, **kwargs)` (component.py 28–30): Python takes the keyword `key` out of the keywords. -/
def construct {R : Type} (f : Func V R) (args : List V) (kw : List (String × V)) : Comp V R :=
  { type := f, key := kw.lookup "key", args, kwargs := kw.filter (fun a => !(a.1 == "key")) }

/-- `component` (component.py 11–32): the constructor, or `none` if the function is refused. -/
def component {R : Type} (f : Func V R) : Option (List V → List (String × V) → Comp V R) :=
  if refused f.sig then none else some (construct f)

/-- `Component.render` (types.py 61–62). -/
def Comp.render {R : Type} (c : Comp V R) : Option R := c.type.call c.args c.kwargs

/-- An exception: whether it is no subclass of `Exception`, the name of its class, and its text — or the exception that making
the text raises. (Python; layout.py 341–347) -/
inductive Err where
  | mk (base : Bool) (type text : String)
  | textless (base : Bool) (type : String) (inner : Err)
deriving DecidableEq, Repr

/-- Not a subclass of `Exception`. (Python; layout.py 341) -/
def Err.base : Err → Bool
  | .mk b _ _ => b
  | .textless b _ _ => b

/-- `type(error).__name__` (layout.py 346). -/
def Err.type : Err → String
  | .mk _ t _ => t
  | .textless _ t _ => t

/-- `str(error)` (layout.py 346). -/
def Err.text : Err → Except Err String
  | .mk _ _ s => .ok s
  | .textless _ _ e => .error e

/-- `", ".join(...)`, where making a part may raise. (types.py 70) -/
def joined : List (Except Err String) → Except Err String
  | [] => .ok ""
  | [x] => x
  | x :: r => do
    let a ← x
    let b ← joined r
    .ok (a ++ ", " ++ b)

/-- `repr` of what a parameter is bound to: of a tuple or a dictionary, the parts. (Python; types.py 70) -/
def Arg.repr (repr : V → Except Err String) : Arg V → Except Err String
  | .one v => repr v
  | .tuple l => do
    let t ← joined (l.map repr)
    .ok ("(" ++ t ++ (if l.length = 1 then ",)" else ")"))
  | .dict l => do
    let t ← joined (l.map fun a => do .ok ("'" ++ a.1 ++ "': " ++ (← repr a.2)))
    .ok ("{" ++ t ++ "}")

/-- `AttributeError` because the function has no `__name__`. (Python; types.py 68, 72, 74) -/
def noName : Err := .mk false "AttributeError" "__name__"

/-- `Component.__repr__` (types.py 64–74); `ident` is `f"{id(self):02x}"`. -/
def Comp.describe {R : Type} (repr : V → Except Err String) (ident : String) (c : Comp V R) : Except Err String :=
  match bind c.type.sig c.args c.kwargs with
  | none =>
    match c.type.name with
    | some n => .ok (n ++ "(...)")
    | none => .error noName
  | some b => do
    let items ← joined (b.map fun a => do .ok (a.1 ++ "=" ++ (← a.2.repr repr)))
    match c.type.name with
    | none => .error noName
    | some n => if items ≠ "" then .ok (n ++ "(" ++ ident ++ ", " ++ items ++ ")") else .ok (n ++ "(" ++ ident ++ ")")
end

/-- What the layout has to render: a component with the outcome of its description (`Comp.describe`) and what calling it does: raise, or
return children, components themselves (layout.py 274–352).  Elements around them are left out. -/
inductive Node where
  | raises (described : Except Err String) (e : Err)
  | returns (described : Except Err String) (children : List Node)

/-- What is displayed for a component: its children, or an error with a message (layout.py 337, 343–348). -/
inductive View where
  | shown (children : List View)
  | error (message : String)
deriving Repr

/-- `except Exception as error` (layout.py 341–348). -/
def report (debug : Bool) (described : Except Err String) (e : Err) : Except Err View :=
  if e.base then .error e
  else
    match described with
    | .error e' => .error e'
    | .ok _ =>
      if debug then
        match e.text with
        | .ok t => .ok (.error (e.type ++ ": " ++ t))
        | .error e' => .error e'
      else .ok (.error "")

mutual
/-- `_render_component` (layout.py 332–352). -/
def render (debug : Bool) : Node → Except Err View
  | .raises d e => report debug d e
  | .returns d l =>
    match renderAll debug l with
    | .ok vs => .ok (.shown vs)
    | .error e => report debug d e
/-- `_render_model_children` (layout.py 509–563): one child after another. -/
def renderAll (debug : Bool) : List Node → Except Err (List View)
  | [] => .ok []
  | n :: r =>
    match render debug n with
    | .error e => .error e
    | .ok v =>
      match renderAll debug r with
      | .error e => .error e
      | .ok vs => .ok (v :: vs)
end

end Verif.Component
