/-!
# Inline JavaScript (`createInlineJavaScript`, vdom.tsx 284–310)

A string given for an event attribute (`html.button({"onClick": "this.value = 1"})`), or read from the HTML of `string_to_reactpy`, becomes
a function that evaluates it with `eval`.  JavaScript itself is represented by a small language: literals, names, `this`, properties, assignments,
arrow functions, calls, `+`, and several expressions one after another; a code may end with `return`.  Left out: `function` expressions,
declarations, assignments to parameters (they are taken to have no effect), control structures, and functions of the page that call functions they
are given.  Evaluation is bounded by a number of steps, so that it always ends; `none` means that it was not enough.
-/
namespace Verif.Client.Inline

/-- Expressions of JavaScript, as far as they are represented here (vdom.tsx 292). -/
inductive Expr where
  | num (n : Int)
  | str (s : String)
  | bool (b : Bool)
  | this
  | name (x : String)
  | get (o : Expr) (p : String)
  | setName (x : String) (e : Expr)
  | setProp (o : Expr) (p : String) (e : Expr)
  | arrow (xs : List String) (body : Expr)
  | call (f a : Expr)
  | plus (a b : Expr)
  | seq (a b : Expr)
deriving DecidableEq, Repr

/-- The code: expressions (`a; b` is `seq a b`), or with a `return` before the last one (vdom.tsx 292). -/
inductive Code where
  | run (e : Expr)
  | ret (e : Expr)
deriving DecidableEq, Repr

/-- Values.  `clo`: an arrow function with the variables around it, `this` among them; `ext`: a function of the page (vdom.tsx 293). -/
inductive Val where
  | undef
  | num (n : Int)
  | str (s : String)
  | bool (b : Bool)
  | obj (i : Nat)
  | clo (xs : List String) (body : Expr) (env : List (String × Val))
  | ext (n : Nat)

/-- `typeof … == "function"` (vdom.tsx 293). -/
def Val.isFn : Val → Bool
  | .clo .. => true
  | .ext _ => true
  | _ => false

/-- Exceptions of JavaScript (vdom.tsx 292: they leave the handler). -/
inductive Err where
  | reference
  | type
  | syntax
  | other
deriving DecidableEq, Repr

/-- The objects of the page and their properties, the global variables, and whether the browser's own reaction to the event was prevented. -/
structure World where
  props : Nat → String → Option Val
  globals : String → Option Val
  prevented : Bool := false

/-- An assignment to a property (vdom.tsx 292: the code may do so). -/
def World.setProp (w : World) (i : Nat) (p : String) (v : Val) : World :=
  { w with props := fun j q => if j = i ∧ q = p then some v else w.props j q }

/-- An assignment to a global variable (vdom.tsx 292). -/
def World.setGlobal (w : World) (x : String) (v : Val) : World :=
  { w with globals := fun y => if y = x then some v else w.globals y }

/-- What a name means that is not a parameter of an arrow function around it, and what an assignment to it does. (vdom.tsx 292) -/
structure Scope where
  read : String → World → Except Err Val
  write : String → Val → World → Except Err World

/-- The functions of the page: the `this` and the arguments they are given. (vdom.tsx 294) -/
abbrev Lib := Nat → Val → List Val → World → World × Except Err Val

/-- The parameters of an arrow function; those without an argument are `undefined`. (vdom.tsx 294) -/
def params : List String → List Val → List (String × Val)
  | [], _ => []
  | x :: xs, [] => (x, .undef) :: params xs []
  | x :: xs, a :: as => (x, a) :: params xs as

/-- How evaluations follow each other: an exception ends them. (JavaScript) -/
def andThen (r : Option (World × Except Err Val)) (f : World → Val → Option (World × Except Err Val)) : Option (World × Except Err Val) :=
  match r with
  | none => none
  | some (w, .error e) => some (w, .error e)
  | some (w, .ok v) => f w v

/-- A property of a value. (JavaScript) -/
def Val.prop (w : World) (p : String) : Val → Except Err Val
  | .obj i => .ok ((w.props i p).getD .undef)
  | .undef => .error .type
  | _ => .ok .undef

/-- `+` (numbers and strings; JavaScript). -/
def add : Val → Val → Val
  | .num a, .num b => .num (a + b)
  | .str a, .str b => .str (a ++ b)
  | .str a, .num b => .str (a ++ toString b)
  | .num a, .str b => .str (toString a ++ b)
  | _, _ => .undef

mutual
/-- Evaluation of an expression; `env` are the parameters of the arrow functions around it and `this`. (vdom.tsx 292) -/
def eval (lib : Lib) (S : Scope) : Nat → List (String × Val) → Expr → World → Option (World × Except Err Val)
  | 0, _, _, _ => none
  | n + 1, env, e, w =>
    match e with
    | .num k => some (w, .ok (.num k))
    | .str s => some (w, .ok (.str s))
    | .bool b => some (w, .ok (.bool b))
    | .this => some (w, .ok ((env.lookup "this").getD .undef))
    | .name x => some (w, match env.lookup x with
        | some v => .ok v
        | none => S.read x w)
    | .get o p => andThen (eval lib S n env o w) fun w v => some (w, v.prop w p)
    | .setName x e => andThen (eval lib S n env e w) fun w v =>
        match env.lookup x with
        | some _ => some (w, .ok v)
        | none => match S.write x v w with
          | .ok w' => some (w', .ok v)
          | .error e => some (w, .error e)
    | .setProp o p e => andThen (eval lib S n env o w) fun w u => andThen (eval lib S n env e w) fun w v =>
        match u with
        | .obj i => some (w.setProp i p v, .ok v)
        | .undef => some (w, .error .type)
        | _ => some (w, .ok v)
    | .arrow xs b => some (w, .ok (.clo xs b env))
    | .call f a =>
      match f with
      | .get o p => andThen (eval lib S n env o w) fun w u => match u.prop w p with
          | .error e => some (w, .error e)
          | .ok g => andThen (eval lib S n env a w) fun w v => apply lib S n g u [v] w
      | f => andThen (eval lib S n env f w) fun w g => andThen (eval lib S n env a w) fun w v => apply lib S n g .undef [v] w
    | .plus a b => andThen (eval lib S n env a w) fun w u => andThen (eval lib S n env b w) fun w v => some (w, .ok (add u v))
    | .seq a b => andThen (eval lib S n env a w) fun w _ => eval lib S n env b w
/-- A call (vdom.tsx 294). -/
def apply (lib : Lib) (S : Scope) : Nat → Val → Val → List Val → World → Option (World × Except Err Val)
  | 0, _, _, _, _ => none
  | n + 1, .clo xs b env, _, args, w => eval lib S n (params xs args ++ env) b w
  | _ + 1, .ext k, this, args, w => some (lib k this args w)
  | _ + 1, _, _, _, w => some (w, .error .type)
end

/-- The names in the functions and the module around the `eval` (vdom.tsx 1–23, 284–310).  `none`: not usable yet (`evalResult`, 292).
The functions and arrays among them are represented by `undefined`. -/
def ownNames (attr code : String) : List (String × Option Val) :=
  [("evalResult", none), ("args", some .undef), ("arguments", some .undef), ("handleExecution", some .undef), ("wrappedExecutable", some .undef),
   ("name", some (.str attr)), ("inlineJavaScript", some (.str code)), ("createInlineJavaScript", some .undef),
   ("createEventHandler", some .undef), ("createAttributes", some .undef), ("createChildren", some .undef), ("loadImportSource", some .undef),
   ("createImportSourceElement", some .undef), ("getComponentFromModule", some .undef), ("isImportSourceEqual", some .undef),
   ("stringifyImportSource", some .undef), ("ReactPyChild", some .undef), ("eventToObject", some .undef), ("Fragment", some .undef), ("log", some .undef),
   ("HANDLER_DEBOUNCE", some .undef), ("HANDLER_MARKER", some .undef), ("HANDLER_THROTTLE", some .undef), ("isValidDebounce", some .undef),
   ("isValidThrottle", some .undef), ("infer_bind_from_environment", some .undef)]

/-- Names as the `eval` sees them (vdom.tsx 291–292): the names around it, then global variables.  Modules are strict code, so that assigning to
a variable that does not exist is an error.  Simplification: assignments to the names around it have no effect. -/
def ownScope (attr code : String) : Scope where
  read x w := match (ownNames attr code).lookup x with
    | some (some v) => .ok v
    | some none => .error .reference
    | none => match w.globals x with
      | some v => .ok v
      | none => .error .reference
  write x v w := match (ownNames attr code).lookup x with
    | some _ => .ok w
    | none => match w.globals x with
      | some _ => .ok (w.setGlobal x v)
      | none => .error .reference

/-- `this` (vdom.tsx 297–307): the `currentTarget` of an event, else nothing. `isEvent`: `instanceof Event`. -/
def thisFor (isEvent : Nat → Bool) (args : List Val) (w : World) : Val :=
  match args with
  | .obj i :: _ => if isEvent i then (w.props i "currentTarget").getD .undef else .undef
  | _ => .undef

/-- `wrappedExecutable` (vdom.tsx 290–308) called with `args`.  A code with `return` cannot be
evaluated (292: `eval` takes a script).  If the value is a function, it is called with the arguments (293–295). -/
def inlineCall (lib : Lib) (isEvent : Nat → Bool) (fuel : Nat) (attr text : String) (code : Code) (args : List Val) (w : World) :
    Option (World × Except Err Val) :=
  match code with
  | .ret _ => some (w, .error .syntax)
  | .run e => andThen (eval lib (ownScope attr text) fuel [("this", thisFor isEvent args w)] e w) fun w v =>
      if v.isFn then apply lib (ownScope attr text) fuel v .undef args w
      else some (w, .ok .undef)

end Verif.Client.Inline
