import Verif.Console.Lemmas
/-! # The code-rewriting command: property C53 -/
namespace Verif.Console
open Verif.Markup (splitOn joinWith isLetter isUpper)

/-- **C53.**  A name that is the result of a renaming is left alone. -/
theorem C53_name_idempotent {cs : Casing} (hcs : cs.Ok) (name : Str) : conv cs (conv cs name) = conv cs name := conv_conv hcs name

/-- **C53.**  So is every name without an underscore. -/
theorem C53_name_kept (cs : Casing) {name : Str} (h : '_' ∉ name) : conv cs name = name := conv_of_clean h

/-- A word with its first letter in upper case. -/
def cap : Str → Str
  | [] => []
  | c :: l => c.toUpper :: l

/-- The camel-case spelling of words. -/
def camel : List Str → Str
  | [] => []
  | w :: ws => w ++ (ws.map cap).flatten

theorem titleFrom_letters : ∀ (w : Str), (∀ c ∈ w, isLetter c = true) → titleFrom ascii true w = w
  | [], _ => rfl
  | c :: w, h => by
    have hc := h c (by simp)
    have hcased : ascii.cased c = true := by
      simp only [isLetter, Bool.and_eq_true, decide_eq_true_eq] at hc
      simp only [ascii, Char.isAlpha, Char.isLower, Bool.or_eq_true, Bool.and_eq_true, decide_eq_true_eq]
      exact .inr hc
    have hlow : ascii.lower c = [c] := by
      simp only [ascii]
      rw [Verif.Markup.toLower_of_not_upper]
      cases hu : isUpper c with
      | false => rfl
      | true =>
        simp only [isLetter, isUpper, Bool.and_eq_true, decide_eq_true_eq] at hc hu
        have h1 : 97 ≤ c.toNat := hc.1
        have h2 : c.toNat ≤ 90 := hu.2
        omega
    simp only [titleFrom, if_true, hlow, hcased, titleFrom_letters w (fun d hd => h d (by simp [hd])), List.singleton_append]

theorem title_letters (w : Str) (h : ∀ c ∈ w, isLetter c = true) : title ascii w = cap w := by
  cases w with
  | nil => rfl
  | cons c w =>
    have hc := h c (by simp)
    have hcased : ascii.cased c = true := by
      simp only [isLetter, Bool.and_eq_true, decide_eq_true_eq] at hc
      simp only [ascii, Char.isAlpha, Char.isLower, Bool.or_eq_true, Bool.and_eq_true, decide_eq_true_eq]
      exact .inr hc
    simp only [title, titleFrom, Bool.false_eq_true, if_false, hcased, titleFrom_letters w (fun d hd => h d (by simp [hd]))]
    rfl

/-- **C53.**  A snake-case name of any number of words becomes the camel-case name of the same words. -/
theorem C53_words (ws : List Str) (hws : 2 ≤ ws.length) (h : ∀ w ∈ ws, ∀ c ∈ w, isLetter c = true) :
    conv ascii (joinWith '_' ws) = camel ws := by
  have hsep : ∀ w ∈ ws, '_' ∉ w := fun w hw hm => by have := h w hw _ hm; revert this; decide
  have hne : ws ≠ [] := by intro h; rw [h] at hws; simp at hws
  have hsp := Verif.Markup.splitOn_joinWith '_' ws hne hsep
  have hmem : '_' ∈ joinWith '_' ws := by
    match ws, hws with
    | a :: b :: l, _ =>
      rw [Verif.Markup.joinWith_cons _ _ (by simp)]
      simp
  have hkw : joinWith '_' ws ∉ kwlist := fun hk => kwlist_clean _ hk hmem
  simp only [conv, hkw, if_false, hmem, not_true_eq_false, hsp]
  cases ws with
  | nil => exact absurd rfl hne
  | cons w ws =>
    simp only [camel]
    congr 2
    refine List.map_congr_left fun v hv => title_letters v (h v (by simp [hv]))

example : conv ascii "on_mouse_down".toList = "onMouseDown".toList := by decide +kernel

/-- **C53.**  The command changes nothing of a program but the names of attributes (string keys of dicts, names of keyword
arguments). -/
theorem C53_only_names (cs : Casing) (e e' : Expr) (h : generateRewrite cs e = some e') : erase e' = erase e := by
  simp only [generateRewrite] at h
  split at h
  · cases h
  · cases h; exact erase_rewrite .plain e

/-- **C53.**  Every attribute of every element is renamed, and renamed by the same function: after the command the attribute
names are those before, each converted — for programs in which no other name is rewritten to `style`. -/
theorem C53_attributes_partial (cs : Casing) (e : Expr) (hs : NoAlias cs e) :
    attrNames ((generateRewrite cs e).getD e) = (attrNames e).map (conv cs) := by
  have h := attrNames_rewrite (cs := cs) .plain e hs
  simp only [generateRewrite]
  split
  · rename_i h0
    have : rewrite cs .plain e = e := (rewrite_eq_iff .plain e).2 ⟨touched_plain e, h0⟩
    rw [this] at h
    exact h
  · exact h

/-- **C53.**  The command changes nothing but these names: with the attribute and CSS names of elements blanked, the program
is the same after the command — for programs in which no other name is rewritten to `style`. -/
theorem C53_elsewhere_partial (cs : Casing) (e : Expr) (hs : NoAlias cs e) :
    blank .elsewhere ((generateRewrite cs e).getD e) = blank .elsewhere e := by
  simp only [generateRewrite]
  split
  · rfl
  · exact blank_rewrite .plain e hs

/-- **C53.**  The command reports a program as needing no change exactly when rewriting would leave it as it is. -/
theorem C53_reported (cs : Casing) (e : Expr) : generateRewrite cs e = none ↔ rewrite cs .plain e = e := by
  rw [rewrite_eq_iff, touched_plain]
  simp only [generateRewrite, true_and]
  split <;> simp_all

/-- **C53.**  A second run of the command finds nothing to do, for programs in which no other name is rewritten to
`style`. -/
theorem C53_second_run_partial {cs : Casing} (hcs : cs.Ok) (e e' : Expr) (hs : NoAlias cs e) (h : generateRewrite cs e = some e') :
    generateRewrite cs e' = none := by
  rw [C53_reported]
  simp only [generateRewrite] at h
  split at h
  · cases h
  · cases h; exact rewrite_rewrite hcs .plain e hs

/-- `html.<tag>(<items>)` -/
def elem (tag : String) (items : Items) : Expr := .call (.attr (.name "html".toList) tag.toList) (.cons (.dict items) .nil) .nil
/-- `html.<tag>(dict(<kws>))` -/
def elemKw (tag : String) (kws : Kws) : Expr :=
  .call (.attr (.name "html".toList) tag.toList) (.cons (.call (.name "dict".toList) .nil kws) .nil) .nil

/-- `html.div({"on_click": f, "style": {"font_size": 3}})` -/
def demoProgram : Expr := elem "div" (.cons (.str "on_click".toList) (.name "f".toList) (.cons (.str "style".toList)
  (.dict (.cons (.str "font_size".toList) (.const 3) .nil)) .nil))

def demoRewritten : Expr := elem "div" (.cons (.str "onClick".toList) (.name "f".toList) (.cons (.str "style".toList)
  (.dict (.cons (.str "fontSize".toList) (.const 3) .nil)) .nil))

example : rewrite ascii .plain demoProgram = demoRewritten := by
  have h1 : conv ascii "on_click".toList = "onClick".toList := by decide +kernel
  have h2 : conv ascii "font_size".toList = "fontSize".toList := by decide +kernel
  have h3 : "on_click".toList ≠ "style".toList := by decide +kernel
  have h4 : "font_size".toList ≠ "style".toList := by decide +kernel
  have h5 : ¬ ("div".toList = "vdom".toList) := by decide +kernel
  simp [demoProgram, demoRewritten, elem, rewrite, rewriteArgs, rewriteItems, rewriteKws, propsArg, constructorName, argMode, isProps, isLiteral, Args.get,
    item, isDictOrCall, -String.reduceToList, h1, h2, h3, h4, h5]

example : NoAlias ascii demoProgram := by
  have h1 : conv ascii "on_click".toList ≠ "style".toList := by decide +kernel
  have h2 : conv ascii "font_size".toList ≠ "style".toList := by decide +kernel
  simp only [demoProgram, elem, NoAlias, NoAliasArgs, NoAliasKws, NoAliasItems, true_and, and_true]
  refine ⟨?_, ?_, ?_⟩
  · intro s hs h; cases hs; exact absurd h h1
  · intro s hs _; cases hs; rfl
  · intro s hs h; cases hs; exact absurd h h2

example : attrNames demoProgram = ["on_click".toList, "style".toList, "font_size".toList] := by decide +kernel

/-- A computable equality of trees, to evaluate the examples below. -/
def keysOf : Expr → List Str
  | .call (.attr _ _) (.cons (.dict (.cons (.str k) (.dict (.cons (.str k') _ _)) _)) _) _ => [k, k']
  | .call (.attr _ _) (.cons (.dict (.cons (.str k) (.call _ _ (.cons (some k') _ _)) _)) _) _ => [k, k']
  | .call (.name _) (.cons (.dict (.cons (.str k) _ _)) _) _ => [k]
  | .call (.attr _ _) (.cons (.call _ _ (.cons (some k) _ (.cons (some k') _ _))) _) _ => [k, k']
  | .call (.attr _ _) (.cons (.call _ _ (.cons (some k) _ _)) _) _ => [k]
  | _ => []

/-- **C53, violated.**  `style_` is renamed to `style`, whose contents are renamed only by a second run. -/
theorem C53_style_violated :
    let p := elem "div" (.cons (.str "style_".toList) (.dict (.cons (.str "font_size".toList) (.const 3) .nil)) .nil)
    keysOf (rewrite ascii .plain p) = ["style".toList, "font_size".toList] ∧
    keysOf (rewrite ascii .plain (rewrite ascii .plain p)) = ["style".toList, "fontSize".toList] := by decide +kernel

/-- **C53, violated.**  A name may be renamed to a reserved word: `dict(class_=…)` becomes `dict(class=…)`, which Python
cannot parse. -/
theorem C53_keyword_violated : keysOf (rewrite ascii .plain (elemKw "div" (.cons (some "class_".toList) (.const 0) .nil))) = ["class".toList] ∧
    "class".toList ∈ kwlist := by decide +kernel

/-- **C53, violated.**  Two names may become one: `dict(tab_index=…, tabIndex=…)` becomes a call with a repeated
argument. -/
theorem C53_repeated_violated :
    keysOf (rewrite ascii .plain (elemKw "div" (.cons (some "tab_index".toList) (.const 0) (.cons (some "tabIndex".toList) (.const 1) .nil)))) =
      ["tabIndex".toList, "tabIndex".toList] := by decide +kernel

/-- **C53, violated.**  Not only attributes are renamed: any function called by its name with a dict is taken for an element
constructor (`save({"user_id": 1})`), and the arguments of any call in `style` for CSS names
(`html.div({"style": theme(base_size=1)})`). -/
theorem C53_others_violated :
    keysOf (rewrite ascii .plain (.call (.name "save".toList) (.cons (.dict (.cons (.str "user_id".toList) (.const 1) .nil)) .nil) .nil)) =
      ["userId".toList] ∧
    keysOf (rewrite ascii .plain (elem "div" (.cons (.str "style".toList) (.call (.name "theme".toList) .nil (.cons (some "base_size".toList) (.const 1) .nil)) .nil))) =
      ["style".toList, "baseSize".toList] := by decide +kernel

/-! ### Cases that meet the hypotheses -/

example := C53_name_kept ascii (name := "onClick".toList) (by decide +kernel)

end Verif.Console
