import Verif.Handlers.Model
/-!
# Specification: the source of a handler

A small source language, what CPython makes of it, and what running it does.  The properties of the
inspection are stated about sources; the compiler is the usual scheme, where any two loads of variables that
follow one another may be fused (`Fused`), without other superinstructions, and without loops, comprehensions, `try`, `with`, `del`, unpacking and nested functions.
-/
namespace Verif.Handlers

inductive Expr where
  | const (v : Int)
  | var (n : String)
  | free (n : String)
  | attr (e : Expr) (n : String)
  | call (f : Expr)
  | add (a b : Expr)
  | ifExp (c a b : Expr)
  | orElse (a b : Expr)
deriving DecidableEq, Repr

inductive Stmt where
  | skip
  | expr (e : Expr)
  | assign (x : String) (e : Expr)
  | setAttr (o : Expr) (n : String) (v : Expr)
  | seq (a b : Stmt)
  | ite (c : Expr) (a b : Stmt)
deriving DecidableEq, Repr

/-- CPython's code for an expression; jumps, calls, operators and stack shuffling are `other`. -/
def Expr.code : Expr → List Instr
  | .const v => [.loadConst (some v)]
  | .var n => [.loadFast n]
  | .free n => [.loadDeref n]
  | .attr e n => e.code ++ [.loadAttr n]
  | .call f => f.code ++ [.other 0]
  | .add a b => a.code ++ b.code ++ [.other 1]
  | .ifExp c a b => c.code ++ [.other 2] ++ a.code ++ [.other 3] ++ b.code
  | .orElse a b => a.code ++ [.other 4, .other 2, .other 5] ++ b.code

/-- CPython's code for a statement. -/
def Stmt.code : Stmt → List Instr
  | .skip => []
  | .expr e => e.code ++ [.other 5]
  | .assign _ e => e.code ++ [.other 6]
  | .setAttr o n v => v.code ++ o.code ++ [.storeAttr n]
  | .seq a b => a.code ++ b.code
  | .ite c a b => c.code ++ [.other 2] ++ a.code ++ [.other 3] ++ b.code

/-- The source contains the expression `ev.n`. -/
def Expr.Accesses (ev n : String) : Expr → Prop
  | .const _ => False
  | .var _ => False
  | .free _ => False
  | .attr e m => (e = .var ev ∧ m = n) ∨ e.Accesses ev n
  | .call f => f.Accesses ev n
  | .add a b => a.Accesses ev n ∨ b.Accesses ev n
  | .ifExp c a b => c.Accesses ev n ∨ a.Accesses ev n ∨ b.Accesses ev n
  | .orElse a b => a.Accesses ev n ∨ b.Accesses ev n

def Stmt.Accesses (ev n : String) : Stmt → Prop
  | .skip => False
  | .expr e => e.Accesses ev n
  | .assign _ e => e.Accesses ev n
  | .setAttr o _ v => o.Accesses ev n ∨ v.Accesses ev n
  | .seq a b => a.Accesses ev n ∨ b.Accesses ev n
  | .ite c a b => c.Accesses ev n ∨ a.Accesses ev n ∨ b.Accesses ev n

/-- No attribute is taken of, or set on, a conditional expression. -/
def Expr.conditional : Expr → Bool
  | .ifExp _ _ _ => true
  | .orElse _ _ => true
  | _ => false

def Expr.Plain : Expr → Prop
  | .const _ => True
  | .var _ => True
  | .free _ => True
  | .attr e _ => e.conditional = false ∧ e.Plain
  | .call f => f.Plain
  | .add a b => a.Plain ∧ b.Plain
  | .ifExp c a b => c.Plain ∧ a.Plain ∧ b.Plain
  | .orElse a b => a.Plain ∧ b.Plain

def Stmt.Plain : Stmt → Prop
  | .skip => True
  | .expr e => e.Plain
  | .assign _ e => e.Plain
  | .setAttr o _ v => o.conditional = false ∧ o.Plain ∧ v.Plain
  | .seq a b => a.Plain ∧ b.Plain
  | .ite c a b => c.Plain ∧ a.Plain ∧ b.Plain

/-- The values assigned to `ev.debounce`, in source order. -/
def Stmt.assignments (ev : String) : Stmt → List Expr
  | .setAttr o n v => if o = .var ev ∧ n = "debounce" then [v] else []
  | .seq a b => a.assignments ev ++ b.assignments ev
  | .ite _ a b => a.assignments ev ++ b.assignments ev
  | _ => []

/-- The objects of which the attribute `debounce` is assigned. -/
def Stmt.objects : Stmt → List Expr
  | .setAttr o n _ => if n = "debounce" then [o] else []
  | .seq a b => a.objects ++ b.objects
  | .ite _ a b => a.objects ++ b.objects
  | _ => []

/-- The variables assigned. -/
def Stmt.assigned : Stmt → List String
  | .assign x _ => [x]
  | .seq a b => a.assigned ++ b.assigned
  | .ite _ a b => a.assigned ++ b.assigned
  | _ => []

/-! Running a handler -/

inductive Val where
  | int (v : Int)
  | event
  | opaque (k : Nat)
deriving DecidableEq, Repr

def Val.truthy : Val → Bool
  | .int v => v != 0
  | .event => true
  | .opaque k => k != 0

/-- What an attribute, a call or an addition yields is any function of the expression. -/
def Expr.eval (oracle : Expr → Val) (free vars : String → Val) : Expr → Val
  | .const v => .int v
  | .var n => vars n
  | .free n => free n
  | .ifExp c a b => if (c.eval oracle free vars).truthy then a.eval oracle free vars else b.eval oracle free vars
  | .orElse a b => if (a.eval oracle free vars).truthy then a.eval oracle free vars else b.eval oracle free vars
  | e => oracle e

/-- Running a statement: the variables afterwards, and the values given to `debounce` of the event. -/
def Stmt.exec (oracle : Expr → Val) (free : String → Val) : Stmt → (String → Val) → (String → Val) × List Val
  | .skip, vars => (vars, [])
  | .expr _, vars => (vars, [])
  | .assign x e, vars => ((fun y => if y = x then e.eval oracle free vars else vars y), [])
  | .setAttr o n v, vars =>
    (vars, if o.eval oracle free vars = .event ∧ n = "debounce" then [v.eval oracle free vars] else [])
  | .seq a b, vars =>
    let r := a.exec oracle free vars
    let r' := b.exec oracle free r.1
    (r'.1, r.2 ++ r'.2)
  | .ite c a b, vars => if (c.eval oracle free vars).truthy then a.exec oracle free vars else b.exec oracle free vars

/-- The parameter `x` of the function has the integer default `d`. -/
def DefaultOf (f : Fn) (x : String) (d : Int) : Prop :=
  (∃ j : Nat, f.defaults[j]? = some (some d) ∧ f.varnames[f.argcount - f.defaults.length + j]? = some x) ∨
  (x, some d) ∈ f.kwdefaults

/-- The function has captured the variable `x`, and its value is `d`. -/
def Captured (f : Fn) (x : String) (d : Int) : Prop :=
  ∃ j : Nat, f.freevars[j]? = some x ∧ f.closure[j]? = some (some d)

/-- The second code is the first with some loads of two variables fused into one instruction
(`LOAD_FAST_LOAD_FAST`, CPython 3.13; which ones are fused depends on the version and on line breaks). -/
inductive Fused : List Instr → List Instr → Prop
  | nil : Fused [] []
  | keep (i : Instr) {l l' : List Instr} : Fused l l' → Fused (i :: l) (i :: l')
  | pair (a b : String) {l l' : List Instr} : Fused l l' → Fused (.loadFast a :: .loadFast b :: l) (.loadPair a b :: l')

/-- `f` is the function compiled from the source, with first parameter `ev`. -/
structure Compiled (f : Fn) (ev : String) (src : Stmt) : Prop where
  args : f.argcount ≠ 0
  first : f.varnames[0]? = some ev
  code : Fused src.code f.instrs
  /-- the names of the code include the attributes it uses -/
  names : ∀ n, .loadAttr n ∈ f.instrs ∨ .storeAttr n ∈ f.instrs → n ∈ f.names

/-! Merged functions -/

mutual
/-- The functions of the user that a call of the function calls. -/
def Func.calls : Func → List Nat
  | .user id => [id]
  | .all fs => callsAll fs
def callsAll : List Func → List Nat
  | [] => []
  | f :: fs => f.calls ++ callsAll fs
end

end Verif.Handlers
