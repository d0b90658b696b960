import Verif.Markup.Spec
/-! # What should become of attributes when HTML is read -/
namespace Verif.Markup

/-- The value of the attribute that becomes the prop `n`: the last one, should there be several. -/
def prop (attrs : List (String × String)) (n : String) : Option String :=
  (attrs.reverse.find? (fun p => reactName p.1 == n)).map (·.2)

/-- The props that a transform may set, by tag. -/
def transformed (tag : String) : List String :=
  ["key", "style"] ++ (if tag = "input" then ["value", "defaultValue"] else []) ++
  (if tag = "select" then ["multiple", "defaultValue"] else []) ++ (if tag = "textarea" then ["defaultValue"] else [])

/-- The key a script gets: its address, or its text. -/
def scriptKey (src : Option String) : List V → Option String
  | [] => src
  | [.text s] => some s
  | _ => none

/-- The tags whose `name` identifies them. -/
def isField (tag : String) : Prop := tag = "input" ∨ tag = "select" ∨ tag = "textarea"

/-- The texts of an element itself, without those in its children. -/
def ownText (text : String) (kids : List (El × String)) : String := text ++ String.join (kids.map (·.2))

/-- What identifies an option: its `value`, or its text. -/
def optionValue (attrs : List (String × String)) (text : String) : AVal :=
  match prop attrs "value" with
  | some s => .str s
  | none => if text = "" then .other "child" else .str text

mutual
/-- The values of the selected options in an element, in document order.  Options in a nested `select` are its own. -/
def chosen : El → List AVal
  | .mk tag attrs text kids =>
    if tag = "select" ∨ tag = "textarea" then []
    else (if tag = "option" ∧ prop attrs "selected" ≠ none then [optionValue attrs text] else []) ++ chosenL kids
def chosenL : List (El × String) → List AVal
  | [] => []
  | (e, _) :: ks => chosen e ++ chosenL ks
end

mutual
/-- The second model is the first with its options prepared for a `select` of React: none is marked as selected, and each has
a value (unless it has no attributes), its own or its first child. -/
def Settled : V → V → Prop
  | .elem tag attrs js hs kids, v' =>
    match v' with
    | .elem tag' attrs' js' hs' kids' =>
      tag' = tag ∧ js' = js ∧ hs' = hs ∧ SettledL kids kids' ∧
        if tag = "option" ∧ attrs ≠ [] then
          get attrs' "selected" = Option.none ∧
          get attrs' "value" = some ((get attrs "value").getD (match kids with | .text s :: _ => .str s | _ => .other "child")) ∧
          ∀ n, n ≠ "value" → n ≠ "selected" → get attrs' n = get attrs n
        else attrs' = attrs
    | _ => False
  | v, v' => v' = v
def SettledL : List V → List V → Prop
  | [], vs' => vs' = []
  | v :: vs, vs' =>
    match vs' with
    | [] => False
    | v' :: vs' => Settled v v' ∧ SettledL vs vs'
end

/-- A text among the children of a model, left out if empty. -/
def shownText (s : String) : List V := if s = "" then [] else [.text s]

/-- The children of a model read from an element with this text and these children: the text, the models of the children, and
after each its tail. -/
inductive Content (intercept : Bool) : String → List (El × String) → List V → Prop
  | nil (text : String) : Content intercept text [] (shownText text)
  | cons (text : String) (e : El) (tail : String) (ks : List (El × String)) (v : V) (r : List V) :
      toVdom intercept e = .ok v → Content intercept tail ks r → Content intercept text ((e, tail) :: ks) (shownText text ++ v :: r)

end Verif.Markup
