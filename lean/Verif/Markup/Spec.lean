import Verif.Markup.Model
/-! # What the conversions should do -/
namespace Verif.Markup

mutual
/-- The text a layout displays for a child: nothing for `None`, the text of strings and other values, and the result
of a component in its place. -/
def displayed : V → List Char
  | .text s => s.toList
  | .none => []
  | .value s => s.toList
  | .elem _ _ _ _ kids => displayedL kids
  | .comp r => displayed r
  | .bad => []
def displayedL : List V → List Char
  | [] => []
  | v :: vs => displayed v ++ displayedL vs
end

variable (w : Writer)

mutual
/-- HTML written directly from a model: fragments and components in place, elements with their tags.  `ctx` is the
tag of the element around. -/
def html (ctx : String) : V → List Char
  | .text s => s.toList.flatMap (w.esc ctx)
  | .none => []
  | .value s => s.toList.flatMap (w.esc ctx)
  | .elem tag attrs _ _ kids =>
    if tag = "" then htmlL ctx kids
    else
      w.startTag tag (match attrsToHtml attrs with | .ok a => a | .error _ => []) ++
        if w.void tag then [] else htmlL tag kids ++ Writer.endTag tag
  | .comp r => html ctx r
  | .bad => []
def htmlL (ctx : String) : List V → List Char
  | [] => []
  | v :: vs => html ctx v ++ htmlL ctx vs
end

/-- The value is not a function. -/
def AVal.notFn : AVal → Bool
  | .fn => false
  | _ => Bool.true

/-- No attribute is a function. -/
def noFn (attrs : List (String × AVal)) : Bool := attrs.all (fun p => p.2.notFn)

mutual
/-- A dict that is no model, or a function as an attribute, somewhere in the tree. -/
def broken : V → Bool
  | .elem tag attrs _ _ kids => (tag ≠ "" && !noFn attrs) || brokenL kids
  | .comp r => broken r
  | .bad => true
  | _ => false
def brokenL : List V → Bool
  | [] => false
  | v :: vs => broken v || brokenL vs
end

mutual
/-- No child is `None` and no component renders something other than a model, a component, `None` or a string. -/
def plainText : V → Bool
  | .none => false
  | .elem _ _ _ _ kids => plainTextL kids
  | .comp r => plainResult r
  | _ => Bool.true
def plainTextL : List V → Bool
  | [] => true
  | v :: vs => plainText v && plainTextL vs
def plainResult : V → Bool
  | .value _ => false
  | .elem _ _ _ _ kids => plainTextL kids
  | .comp r => plainResult r
  | _ => Bool.true
end

mutual
/-- No component renders a string or another value. -/
def modelResults : V → Bool
  | .elem _ _ _ _ kids => modelResultsL kids
  | .comp r => modelResult r
  | _ => Bool.true
def modelResultsL : List V → Bool
  | [] => true
  | v :: vs => modelResults v && modelResultsL vs
def modelResult : V → Bool
  | .value _ => false
  | .text _ => false
  | .elem _ _ _ _ kids => modelResultsL kids
  | .comp r => modelResult r
  | _ => Bool.true
end

mutual
/-- The text in an element tree, in document order. -/
def textOf : El → List Char
  | .mk _ _ text kids => text.toList ++ textOfL kids
def textOfL : List (El × String) → List Char
  | [] => []
  | (e, tail) :: ks => textOf e ++ tail.toList ++ textOfL ks
end

/-- A document as the sequence of its tags and texts. -/
inductive Tok
  | open_ (tag : String)
  | text (s : String)
  | close
  deriving DecidableEq, Repr

def textTok (s : String) : List Tok := if s = "" then [] else [.text s]

mutual
def tokE : El → List Tok
  | .mk tag _ text kids => .open_ tag :: textTok text ++ tokEL kids ++ [.close]
def tokEL : List (El × String) → List Tok
  | [] => []
  | (e, tail) :: ks => tokE e ++ textTok tail ++ tokEL ks
end

mutual
def tokV : V → List Tok
  | .elem tag _ _ _ kids => .open_ tag :: tokVL kids ++ [.close]
  | .text s => [.text s]
  | _ => []
def tokVL : List V → List Tok
  | [] => []
  | v :: vs => tokV v ++ tokVL vs
end

mutual
/-- An element tree without its attributes. -/
def shape : El → El
  | .mk tag _ text kids => .mk tag [] text (shapeL kids)
def shapeL : List (El × String) → List (El × String)
  | [] => []
  | (e, tail) :: ks => (shape e, tail) :: shapeL ks
end

mutual
/-- Every tag in the tree satisfies `P`. -/
def allTags (P : String → Prop) : El → Prop
  | .mk tag _ _ kids => P tag ∧ allTagsL P kids
def allTagsL (P : String → Prop) : List (El × String) → Prop
  | [] => True
  | (e, _) :: ks => allTags P e ∧ allTagsL P ks
end

end Verif.Markup
