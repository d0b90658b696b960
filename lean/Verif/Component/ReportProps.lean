import Verif.Component.Model
/-!
# C95: the error of a component is reported in its place

"Whatever components raise, wherever they are in the page: what fails is displayed as an error, everything else as without it; outside
debug mode the page tells nothing about the error."

This is false of the code where reporting fails itself: the report names the component with its arguments, and in debug mode the error
with its text, and making these may raise.  `C95_exact_partial` says exactly when the page is as it should be.
-/
namespace Verif.Component

/-! ### Specification -/

mutual
/-- The display a page should have: a component that raised shows an error, with the type and the text of what it raised in debug mode
and without a message otherwise; any other shows its children. -/
inductive Displays (debug : Bool) : Node → View → Prop
  | failed (d : Except Err String) (e : Err) (message : String) :
    (debug = true → ∃ text, e.text = .ok text ∧ message = e.type ++ ": " ++ text) → (debug = false → message = "") →
    Displays debug (.raises d e) (.error message)
  | shown (d : Except Err String) (l : List Node) (vs : List View) : DisplaysAll debug l vs → Displays debug (.returns d l) (.shown vs)
/-- One after another. -/
inductive DisplaysAll (debug : Bool) : List Node → List View → Prop
  | nil : DisplaysAll debug [] []
  | cons (n : Node) (l : List Node) (v : View) (vs : List View) : Displays debug n v → DisplaysAll debug l vs →
    DisplaysAll debug (n :: l) (v :: vs)
end

mutual
/-- Whatever component of the page raises: it is an `Exception`, the component can be described, and, in debug mode, so can the
exception. -/
inductive Reportable (debug : Bool) : Node → Prop
  | raises (description : String) (e : Err) : e.base = false → (debug = true → ∃ text, e.text = .ok text) →
    Reportable debug (.raises (.ok description) e)
  | returns (d : Except Err String) (l : List Node) : ReportableAll debug l → Reportable debug (.returns d l)
/-- All of them. -/
inductive ReportableAll (debug : Bool) : List Node → Prop
  | nil : ReportableAll debug []
  | cons (n : Node) (l : List Node) : Reportable debug n → ReportableAll debug l → ReportableAll debug (n :: l)
end

mutual
/-- The error messages in a display. -/
def View.messages : View → List String
  | .shown vs => messagesAll vs
  | .error m => [m]
/-- Of several. -/
def messagesAll : List View → List String
  | [] => []
  | v :: vs => v.messages ++ messagesAll vs
end

/-! ### Lemmas -/

theorem report_ok {debug : Bool} {d : Except Err String} {e : Err} {v : View} (h : report debug d e = .ok v) :
    e.base = false ∧ (∃ s, d = .ok s) ∧
      ((debug = true ∧ ∃ text, e.text = .ok text ∧ v = .error (e.type ++ ": " ++ text)) ∨ (debug = false ∧ v = .error "")) := by
  unfold report at h
  split at h
  · cases h
  · rename_i hb
    split at h
    · cases h
    · rename_i s
      refine ⟨by simpa using hb, ⟨s, rfl⟩, ?_⟩
      split at h
      · rename_i hd
        split at h
        · rename_i t ht
          cases h
          exact .inl ⟨hd, t, ht, rfl⟩
        · cases h
      · rename_i hd
        cases h
        exact .inr ⟨by simpa using hd, rfl⟩

mutual
theorem render_of (debug : Bool) : ∀ n, Reportable debug n → ∃ v, render debug n = .ok v ∧ Displays debug n v
  | .raises d e, h => by
    cases h with
    | raises s _ hb ht =>
      simp only [render, report, hb]
      cases debug with
      | false => exact ⟨_, rfl, .failed _ _ _ (fun h => by cases h) fun _ => rfl⟩
      | true =>
        obtain ⟨t, ht⟩ := ht rfl
        simp only [ht]
        exact ⟨_, rfl, .failed _ _ _ (fun _ => ⟨t, ht, rfl⟩) (fun h => by cases h)⟩
  | .returns d l, h => by
    cases h with
    | returns _ _ hl =>
      obtain ⟨vs, h1, h2⟩ := renderAll_of debug l hl
      simp only [render, h1]
      exact ⟨_, rfl, .shown _ _ _ h2⟩
theorem renderAll_of (debug : Bool) : ∀ l, ReportableAll debug l → ∃ vs, renderAll debug l = .ok vs ∧ DisplaysAll debug l vs
  | [], _ => ⟨[], rfl, .nil⟩
  | n :: r, h => by
    cases h with
    | cons _ _ hn hr =>
      obtain ⟨v, h1, h2⟩ := render_of debug n hn
      obtain ⟨vs, h3, h4⟩ := renderAll_of debug r hr
      simp only [renderAll, h1, h3]
      exact ⟨_, rfl, .cons _ _ _ _ h2 h4⟩
end

mutual
theorem reportable_of (debug : Bool) : ∀ n v, render debug n = .ok v → Displays debug n v → Reportable debug n
  | .raises d e, v, h, _ => by
    simp only [render] at h
    obtain ⟨hb, ⟨s, rfl⟩, hv⟩ := report_ok h
    refine .raises s e hb fun hd => ?_
    rcases hv with ⟨_, t, ht, _⟩ | ⟨hd', _⟩
    · exact ⟨t, ht⟩
    · rw [hd] at hd'; cases hd'
  | .returns d l, v, h, hv => by
    cases hv with
    | shown _ _ vs hvs =>
      simp only [render] at h
      split at h
      · rename_i vs' hl
        cases h
        exact .returns _ _ (reportableAll_of debug l vs hl hvs)
      · obtain ⟨_, _, ⟨_, _, _, hv⟩ | ⟨_, hv⟩⟩ := report_ok h <;> cases hv
theorem reportableAll_of (debug : Bool) : ∀ l vs, renderAll debug l = .ok vs → DisplaysAll debug l vs → ReportableAll debug l
  | [], _, _, _ => .nil
  | n :: r, vs, h, hv => by
    cases hv with
    | cons _ _ v vs h1 h2 =>
      simp only [renderAll] at h
      split at h
      · cases h
      · rename_i v' hn
        split at h
        · cases h
        · rename_i vs' hr
          cases h
          exact .cons _ _ (reportable_of debug n v hn h1) (reportableAll_of debug r vs hr h2)
end

mutual
theorem quiet : ∀ n v, render false n = .ok v → ∀ m ∈ v.messages, m = ""
  | .raises d e, v, h => by
    simp only [render] at h
    obtain ⟨_, _, ⟨hd, _⟩ | ⟨_, rfl⟩⟩ := report_ok h
    · cases hd
    · intro m hm; simpa [View.messages] using hm
  | .returns d l, v, h => by
    simp only [render] at h
    split at h
    · rename_i vs hl
      cases h
      exact quietAll l vs hl
    · obtain ⟨_, _, ⟨hd, _⟩ | ⟨_, rfl⟩⟩ := report_ok h
      · cases hd
      · intro m hm; simpa [View.messages] using hm
theorem quietAll : ∀ l vs, renderAll false l = .ok vs → ∀ m ∈ messagesAll vs, m = ""
  | [], vs, h => by
    cases h; intro m hm; cases hm
  | n :: r, vs, h => by
    simp only [renderAll] at h
    split at h
    · cases h
    · rename_i v hn
      split at h
      · cases h
      · rename_i vs' hr
        cases h
        intro m hm
        rcases List.mem_append.1 hm with hm | hm
        · exact quiet n v hn m hm
        · exact quietAll r vs' hr m hm
end

/-! ### Properties -/

/-- **C95, exact (partial).**  The page is rendered and displays an error in the place of each component that raised, and everything
else, exactly if all components that raise, raise exceptions that can be reported.  Missing: the page when reporting fails, see
`C95_argument_violated`, `C95_name_violated` and `C95_debug_violated`. -/
theorem C95_exact_partial (debug : Bool) (page : Node) :
    (∃ v, render debug page = .ok v ∧ Displays debug page v) ↔ Reportable debug page :=
  ⟨fun ⟨v, h1, h2⟩ => reportable_of debug page v h1 h2, render_of debug page⟩

/-- **C95.**  Outside debug mode no error message is displayed, whatever raises. -/
theorem C95_hidden (page : Node) (v : View) (h : render false page = .ok v) : ∀ m ∈ v.messages, m = "" := quiet page v h

/-- A page with a component that raises beside one that does not. -/
def exPage : Node :=
  .returns (.ok "page(7f, )") [.returns (.ok "head(80)") [], .raises (.ok "body(81, n=1)") (.mk false "ValueError" "no body")]

example : Reportable true exPage ∧ Reportable false exPage := by
  have h : ∀ b, Reportable b exPage := fun b =>
    .returns _ _ (.cons _ _ (.returns _ _ .nil) (.cons _ _ (.raises _ _ rfl fun _ => ⟨_, rfl⟩) .nil))
  exact ⟨h true, h false⟩

example : render true exPage = .ok (.shown [.shown [], .error "ValueError: no body"]) ∧
    render false exPage = .ok (.shown [.shown [], .error ""]) := ⟨rfl, rfl⟩

/-- How an argument is written, if `show` is how values are: a tuple in parentheses, with a comma after a single part, and a dictionary in braces. -/
def Arg.written {V : Type} (show' : V → String) : Arg V → String
  | .one v => show' v
  | .tuple [v] => "(" ++ show' v ++ ",)"
  | .tuple l => "(" ++ ", ".intercalate (l.map show') ++ ")"
  | .dict l => "{" ++ ", ".intercalate (l.map fun a => "'" ++ a.1 ++ "': " ++ show' a.2) ++ "}"

theorem joined_ok : ∀ l : List String, joined (l.map .ok) = .ok (", ".intercalate l)
  | [] => rfl
  | [x] => by simp [joined]
  | x :: y :: l => by
    have ih := joined_ok (y :: l)
    simp only [List.map_cons] at ih
    simp only [List.map_cons, joined, ih]
    rw [String.intercalate_cons_cons]
    rfl

theorem repr_ok {V : Type} (show' : V → String) (a : Arg V) : a.repr (fun v => .ok (show' v)) = .ok (a.written show') := by
  cases a with
  | one v => rfl
  | tuple l =>
    have h : joined (l.map fun v => (.ok (show' v) : Except Err String)) = .ok (", ".intercalate (l.map show')) := by
      rw [← joined_ok, List.map_map]; rfl
    simp only [Arg.repr, h]
    match l with
    | [] => rfl
    | [v] => simp [Arg.written]; rfl
    | v :: w :: l => simp [Arg.written]; rfl
  | dict l =>
    have h : joined (l.map fun a => (.ok ("'" ++ a.1 ++ "': " ++ show' a.2) : Except Err String)) =
        .ok (", ".intercalate (l.map fun a => "'" ++ a.1 ++ "': " ++ show' a.2)) := by
      rw [← joined_ok, List.map_map]; rfl
    exact congrArg (fun x : Except Err String => x >>= fun t => .ok ("{" ++ t ++ "}")) h

/-- **C95.**  The description of a component, where values can be described: its name, the number that tells it from others, and each parameter that is given with
its argument; or three dots if the arguments do not fit. -/
theorem C95_described {V R : Type} (show' : V → String) (ident name : String) (c : Comp V R) (hn : c.type.name = some name) :
    c.describe (fun v => .ok (show' v)) ident = .ok (match bind c.type.sig c.args c.kwargs with
      | none => name ++ "(...)"
      | some b => name ++ "(" ++ ", ".intercalate (ident :: b.map fun a => a.1 ++ "=" ++ a.2.written show') ++ ")") := by
  unfold Comp.describe
  split
  · rename_i hb
    rw [hn, hb]
  · rename_i b hb
    rw [hb]
    have h : joined (b.map fun a => do .ok (a.1 ++ "=" ++ (← a.2.repr fun v => .ok (show' v)))) =
        .ok (", ".intercalate (b.map fun a => a.1 ++ "=" ++ a.2.written show')) := by
      rw [← joined_ok, List.map_map]
      congr 1
      refine List.map_congr_left fun a _ => ?_
      rw [repr_ok]
      rfl
    rw [h, hn]
    cases b with
    | nil => simp; rfl
    | cons a b =>
      have hne : ", ".intercalate ((a :: b).map fun a => a.1 ++ "=" ++ a.2.written show') ≠ "" := by
        intro h0
        have h1 := congrArg String.length h0
        cases b with
        | nil => simp at h1
        | cons x b => simp [String.intercalate_cons_cons] at h1
      have he := String.intercalate_cons_of_ne_nil (s := ", ") (t := ident) (l := (a :: b).map fun a => a.1 ++ "=" ++ a.2.written show') (by simp)
      simp only [he]
      change (if _ then _ else _) = _
      rw [if_pos hne]
      simp only [String.append_assoc]

example : (construct (R := Unit) ⟨some "f", { posOrKw := [⟨"a", true⟩], varPos := some "rest", varKw := some "more" }, fun _ => ()⟩ [1, 2] [("x", 3)]).describe
    (fun v : Nat => .ok (toString v)) "7f" = .ok "f(7f, a=1, rest=(2,), more={'x': 3})" := rfl

/-! ### Violations -/

/-- `def body(n)`. -/
def exBody : Func Nat Unit := { name := some "body", sig := { posOrKw := [⟨"n", true⟩] }, body := fun _ => () }

/-- `repr` of arguments: that of `0` raises. -/
def exRepr : Nat → Except Err String
  | 0 => .error (.mk false "RuntimeError" "no repr")
  | _ => .ok "1"

/-- A page of `head()` and `body(v)`, where `body` raises. -/
def exWith (body : Comp Nat Unit) (e : Err) : Node :=
  .returns (.ok "page(7f)") [.returns (.ok "head(80)") [], .raises (body.describe exRepr "81") e]

/-- C95 is violated if an argument of the component that raises has a `repr` that raises: the page is displayed as an error as a whole,
with the wrong message, and if the component is the root, `Layout.render()` raises.  With another argument all is well. -/
theorem C95_argument_violated :
    let e : Err := .mk false "ValueError" "no body"
    render true (exWith (construct exBody [0] []) e) = .ok (.error "RuntimeError: no repr") ∧
    render false (exWith (construct exBody [0] []) e) = .ok (.error "") ∧
    render false (.raises ((construct exBody [0] []).describe exRepr "81") e) = .error (.mk false "RuntimeError" "no repr") ∧
    render true (exWith (construct exBody [1] []) e) = .ok (.shown [.shown [], .error "ValueError: no body"]) := ⟨rfl, rfl, rfl, rfl⟩

/-- C95 is violated if the component was made from a callable without `__name__`, such as a `functools.partial`: the page is displayed
as an error as a whole, and if the component is the root, `Layout.render()` raises. -/
theorem C95_name_violated :
    let e : Err := .mk false "ValueError" "no body"
    let body := construct { exBody with name := none } [1] []
    render true (exWith body e) = .ok (.error "AttributeError: __name__") ∧
    render false (.raises (body.describe exRepr "81") e) = .error noName := ⟨rfl, rfl⟩

/-- C95 is violated in debug mode if the text of the exception cannot be made: the page is displayed as an error as a whole.  Outside
debug mode all is well. -/
theorem C95_debug_violated :
    let e : Err := .textless false "ValueError" (.mk false "KeyError" "text")
    render true (exWith (construct exBody [1] []) e) = .ok (.error "KeyError: text") ∧
    render false (exWith (construct exBody [1] []) e) = .ok (.shown [.shown [], .error ""]) := ⟨rfl, rfl⟩

/-- A component whose call failed because its arguments do not fit can be described. -/
example : (construct exBody [1, 2] []).describe exRepr "81" = .ok "body(...)" := rfl

/-- The descriptions of two components. -/
example : (construct exBody [1] []).describe exRepr "81" = .ok "body(81, n=1)" ∧
    (construct { exBody with sig := {} } [] []).describe exRepr "81" = .ok "body(81)" := ⟨rfl, rfl⟩

end Verif.Component
