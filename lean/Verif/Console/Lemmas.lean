import Verif.Console.Spec
import Verif.Markup.Names
/-! # Lemmas about the rewriting of attribute names -/
namespace Verif.Console
open Verif.Markup (splitOn joinWith isLetter isUpper)

theorem ascii_ok : ascii.Ok := by
  intro c hc
  simp only [ascii, List.mem_singleton]
  constructor
  · intro h
    cases hl : isLetter c with
    | true => have := (Verif.Markup.letter_upper hl).1; rw [← h] at this; revert this; decide
    | false => rw [Verif.Markup.toUpper_of_not_letter hl] at h; exact hc h.symm
  · intro h
    cases hl : isUpper c with
    | true =>
      have key : ∀ n : Fin 26, (Char.ofNat (65 + n)).toLower ≠ '_' := by decide
      simp only [isUpper, Bool.and_eq_true, decide_eq_true_eq] at hl
      have h1 : 65 ≤ c.toNat := hl.1
      have h2 : c.toNat ≤ 90 := hl.2
      have := key ⟨c.toNat - 65, by omega⟩
      simp only [show 65 + (c.toNat - 65) = c.toNat by omega, Char.ofNat_toNat] at this
      exact this h.symm
    | false => rw [Verif.Markup.toLower_of_not_upper hl] at h; exact hc h.symm

variable {cs : Casing}

theorem titleFrom_clean (hcs : cs.Ok) : ∀ (b : Bool) (s : Str), '_' ∉ s → '_' ∉ titleFrom cs b s
  | _, [], _ => by simp [titleFrom]
  | b, c :: s, h => by
    simp only [List.mem_cons, not_or] at h
    have h1 := hcs c (Ne.symm h.1)
    simp only [titleFrom, List.mem_append, not_or]
    refine ⟨?_, titleFrom_clean hcs _ s h.2⟩
    cases b
    · exact h1.1
    · exact h1.2

theorem kwlist_clean : ∀ k ∈ kwlist, '_' ∉ k := by decide +kernel

/-- A rewritten name has no underscore. -/
theorem conv_clean (hcs : cs.Ok) (name : Str) : '_' ∉ conv cs name := by
  simp only [conv]
  split
  · rename_i h; exact kwlist_clean _ h
  · split
    · assumption
    · have hs := Verif.Markup.splitOn_no_sep '_' name
      cases hsp : splitOn '_' name with
      | nil => simp
      | cons c rest =>
        rw [hsp] at hs
        simp only [List.mem_append, List.mem_flatten, List.mem_map, not_or, not_exists, not_and]
        refine ⟨hs c (by simp), ?_⟩
        rintro l ⟨w, hw, rfl⟩
        exact titleFrom_clean hcs false w (hs w (by simp [hw]))

theorem conv_of_clean {name : Str} (h : '_' ∉ name) : conv cs name = name := by
  simp only [conv, h, not_false_eq_true, if_true, ite_self]

theorem conv_conv (hcs : cs.Ok) (name : Str) : conv cs (conv cs name) = conv cs name := conv_of_clean (conv_clean hcs name)

/-! ## Trees -/

theorem rewrite_isDictOrCall (m : Mode) (e : Expr) : isDictOrCall (rewrite cs m e) = isDictOrCall e := by
  cases e <;> simp [rewrite, isDictOrCall]

theorem rewrite_isLiteral (m : Mode) (e : Expr) : isLiteral (rewrite cs m e) = isLiteral e := by
  cases e <;> simp [rewrite, isLiteral]

theorem rewrite_isProps (m : Mode) (e : Expr) : isProps (rewrite cs m e) = isProps e := by
  cases e with
  | call f a k => cases f <;> simp [rewrite, isProps]
  | _ => simp [rewrite, isProps]

theorem rewrite_constructorName (e : Expr) : constructorName (rewrite cs .plain e) = constructorName e := by
  cases e with
  | attr v a => cases v <;> simp [rewrite, constructorName]
  | _ => simp [rewrite, constructorName]

theorem get_rewriteArgs : ∀ (args : Args) (i : Option Nat) (n : Nat),
    ((rewriteArgs cs i args).get n).map isLiteral = (args.get n).map isLiteral ∧
    ((rewriteArgs cs i args).get n).map isProps = (args.get n).map isProps
  | .nil, _, _ => by simp [rewriteArgs, Args.get]
  | .cons e l, i, 0 => by simp [rewriteArgs, Args.get, rewrite_isLiteral, rewrite_isProps]
  | .cons e l, i, n + 1 => by
    simp only [rewriteArgs, Args.get]
    exact get_rewriteArgs l _ n

theorem propsArg_rewrite (f : Expr) (args : Args) (i : Option Nat) :
    propsArg (rewrite cs .plain f) (rewriteArgs cs i args) = propsArg f args := by
  simp only [propsArg, rewrite_constructorName]
  cases constructorName f with
  | none => rfl
  | some name =>
    simp only
    have h := (get_rewriteArgs (cs := cs) args i (if name = "vdom".toList then 1 else 0)).1
    generalize (if name = "vdom".toList then 1 else 0) = n at h
    cases h1 : args.get n <;> cases h2 : (rewriteArgs cs i args).get n <;> simp_all

theorem item_item (hcs : cs.Ok) (m : Mode) (k : Str) (v v' : Expr) (hv : isDictOrCall v' = isDictOrCall v)
    (hk : conv cs k = "style".toList → k = "style".toList) :
    item cs m (item cs m k v).1 v' = item cs m k v := by
  cases m with
  | plain => rfl
  | props =>
    by_cases h : k = "style".toList ∧ isDictOrCall v = true
    · have h' : k = "style".toList ∧ isDictOrCall v' = true := ⟨h.1, by rw [hv, h.2]⟩
      simp only [item, if_pos h, if_pos h']
    · have h' : ¬ (conv cs k = "style".toList ∧ isDictOrCall v' = true) := fun hh => h ⟨hk hh.1, by rw [← hv, hh.2]⟩
      simp only [item, if_neg h, if_neg h', conv_conv hcs]
  | style =>
    by_cases h : k = "style".toList
    · simp only [item, if_pos h]
    · have h' : ¬ (conv cs k = "style".toList) := fun hh => h (hk hh)
      simp only [item, if_neg h, if_neg h', conv_conv hcs]

theorem argMode_rewrite (i : Option Nat) (m : Mode) (e : Expr) : argMode i (rewrite cs m e) = argMode i e := by
  simp only [argMode, rewrite_isProps]

mutual
theorem rewrite_rewrite (hcs : cs.Ok) (m : Mode) : ∀ e : Expr, NoAlias cs e → rewrite cs m (rewrite cs m e) = rewrite cs m e
  | .str _, _ => rfl
  | .const _, _ => rfl
  | .joined l, h => by simp only [rewrite, rewriteArgs_rewriteArgs hcs none l h]
  | .name _, _ => rfl
  | .attr v _, h => by simp only [rewrite, rewrite_rewrite hcs .plain v h]
  | .call f args kws, h => by
    simp only [rewrite, propsArg_rewrite, rewrite_rewrite hcs .plain f h.1, rewriteArgs_rewriteArgs hcs _ args h.2.1,
      rewriteKws_rewriteKws hcs m kws h.2.2]
  | .dict items, h => by simp only [rewrite, rewriteItems_rewriteItems hcs m items h]
  | .other l, h => by simp only [rewrite, rewriteArgs_rewriteArgs hcs none l h]
theorem rewriteArgs_rewriteArgs (hcs : cs.Ok) (i : Option Nat) : ∀ l : Args, NoAliasArgs cs l →
    rewriteArgs cs i (rewriteArgs cs i l) = rewriteArgs cs i l
  | .nil, _ => rfl
  | .cons e l, h => by
    simp only [rewriteArgs, argMode_rewrite, rewrite_rewrite hcs _ e h.1, rewriteArgs_rewriteArgs hcs _ l h.2]
theorem rewriteKws_rewriteKws (hcs : cs.Ok) (m : Mode) : ∀ l : Kws, NoAliasKws cs l → rewriteKws cs m (rewriteKws cs m l) = rewriteKws cs m l
  | .nil, _ => rfl
  | .cons none v l, h => by
    simp only [rewriteKws, rewrite_rewrite hcs _ v h.2.1, rewriteKws_rewriteKws hcs m l h.2.2]
  | .cons (some k) v l, h => by
    simp only [rewriteKws, item_item hcs m k v _ (rewrite_isDictOrCall _ v) (h.1 k rfl), rewrite_rewrite hcs _ v h.2.1,
      rewriteKws_rewriteKws hcs m l h.2.2]
theorem rewriteItems_rewriteItems (hcs : cs.Ok) (m : Mode) : ∀ l : Items, NoAliasItems cs l →
    rewriteItems cs m (rewriteItems cs m l) = rewriteItems cs m l
  | .nil, _ => rfl
  | .spread v l, h => by
    simp only [rewriteItems, rewrite_rewrite hcs _ v h.1, rewriteItems_rewriteItems hcs m l h.2]
  | .cons (.str k) v l, h => by
    simp only [rewriteItems, item_item hcs m k v _ (rewrite_isDictOrCall _ v) (h.1 k rfl), rewrite_rewrite hcs _ v h.2.2.1,
      rewriteItems_rewriteItems hcs m l h.2.2.2]
  | .cons (.const n) v l, h => by
    simp only [rewriteItems, rewrite, rewrite_rewrite hcs _ v h.2.2.1, rewriteItems_rewriteItems hcs m l h.2.2.2]
  | .cons (.name n) v l, h => by
    simp only [rewriteItems, rewrite, rewrite_rewrite hcs _ v h.2.2.1, rewriteItems_rewriteItems hcs m l h.2.2.2]
  | .cons (.joined a) v l, h => by
    have := rewriteArgs_rewriteArgs hcs none a h.2.1
    simp only [rewriteItems, rewrite, this, rewrite_rewrite hcs _ v h.2.2.1, rewriteItems_rewriteItems hcs m l h.2.2.2]
  | .cons (.other a) v l, h => by
    have := rewriteArgs_rewriteArgs hcs none a h.2.1
    simp only [rewriteItems, rewrite, this, rewrite_rewrite hcs _ v h.2.2.1, rewriteItems_rewriteItems hcs m l h.2.2.2]
  | .cons (.attr a n) v l, h => by
    have := rewrite_rewrite hcs .plain a h.2.1
    simp only [rewriteItems, rewrite, this, rewrite_rewrite hcs _ v h.2.2.1, rewriteItems_rewriteItems hcs m l h.2.2.2]
  | .cons (.dict a) v l, h => by
    have := rewriteItems_rewriteItems hcs .plain a h.2.1
    simp only [rewriteItems, rewrite, this, rewrite_rewrite hcs _ v h.2.2.1, rewriteItems_rewriteItems hcs m l h.2.2.2]
  | .cons (.call f a k) v l, h => by
    have h1 := rewrite_rewrite hcs .plain f h.2.1.1
    have h2 := rewriteArgs_rewriteArgs hcs (propsArg f a) a h.2.1.2.1
    have h3 := rewriteKws_rewriteKws hcs .plain k h.2.1.2.2
    simp only [rewriteItems, rewrite, propsArg_rewrite, h1, h2, h3, rewrite_rewrite hcs _ v h.2.2.1, rewriteItems_rewriteItems hcs m l h.2.2.2]
end

/-! ## What is reported as changed -/

theorem touched_plain_kws : ∀ l : Kws, touchedKws cs .plain l = false
  | .nil => rfl
  | .cons none v l => by simp only [touchedKws, touched_plain_kws l]
  | .cons (some k) v l => by simp [touchedKws, touched_plain_kws l, item]

theorem touched_plain_items : ∀ l : Items, touchedItems cs .plain l = false
  | .nil => rfl
  | .spread v l => by simp only [touchedItems, touched_plain_items l]
  | .cons k v l => by cases k <;> simp [touchedItems, touched_plain_items l, item]

theorem touched_plain (e : Expr) : touched cs .plain e = false := by
  cases e <;> simp [touched, touched_plain_kws, touched_plain_items]

/-- The attribute argument of a list of arguments, if its place is `i`, is changed. -/
def touchedAt (cs : Casing) (i : Option Nat) (args : Args) : Bool :=
  match i with
  | none => false
  | some i =>
    match args.get i with
    | none => false
    | some e => isProps e && touched cs .props e

theorem touchedArg_eq (f : Expr) (args : Args) : touchedArg cs f args = touchedAt cs (propsArg f args) args := by
  simp only [touchedArg, touchedAt]
  cases propsArg f args <;> rfl

theorem item_mode (m : Mode) (k : Str) (v : Expr) : (item cs m k v).2 = .plain ∨ (item cs m k v).2 = .style := by
  cases m with
  | plain => exact .inl rfl
  | props => simp only [item]; split <;> simp
  | style => simp only [item]; split <;> simp

theorem touched_item (m : Mode) (k : Str) (v : Expr) :
    ((item cs m k v).2 == .style && touched cs .style v) = touched cs (item cs m k v).2 v := by
  rcases item_mode (cs := cs) m k v with h | h
  · rw [h, touched_plain]; rfl
  · rw [h]; rfl

mutual
theorem rewrite_eq_iff (m : Mode) : ∀ e : Expr, rewrite cs m e = e ↔ touched cs m e = false ∧ changes cs e = 0
  | .str _ => by simp [rewrite, touched, changes]
  | .const _ => by simp [rewrite, touched, changes]
  | .joined l => by
    have := rewriteArgs_eq_iff none l
    simp only [rewrite, touched, changes, Expr.joined.injEq, this, touchedAt]
  | .name _ => by simp [rewrite, touched, changes]
  | .attr v _ => by
    have := rewrite_eq_iff .plain v
    simp only [rewrite, touched, changes, Expr.attr.injEq, this, touched_plain, and_true]
  | .call f args kws => by
    have h1 := rewrite_eq_iff .plain f
    have h2 := rewriteArgs_eq_iff (propsArg f args) args
    have h3 := rewriteKws_eq_iff m kws
    simp only [rewrite, touched, changes, Expr.call.injEq, h1, h2, h3, touched_plain, touchedArg_eq, true_and]
    cases touchedAt cs (propsArg f args) args
    · simp only [Bool.false_eq_true, if_false, true_and]
      constructor
      · rintro ⟨a, b, c, d⟩; exact ⟨c, by omega⟩
      · rintro ⟨a, b⟩; exact ⟨by omega, by omega, a, by omega⟩
    · simp
  | .dict items => by
    have := rewriteItems_eq_iff m items
    simp only [rewrite, touched, changes, Expr.dict.injEq, this]
  | .other l => by
    have := rewriteArgs_eq_iff none l
    simp only [rewrite, touched, changes, Expr.other.injEq, this, touchedAt]
theorem rewriteArgs_eq_iff : ∀ (i : Option Nat) (l : Args), rewriteArgs cs i l = l ↔ touchedAt cs i l = false ∧ changesArgs cs l = 0
  | i, .nil => by cases i <;> simp [rewriteArgs, touchedAt, Args.get, changesArgs]
  | i, .cons e l => by
    have h1 := rewrite_eq_iff (argMode i e) e
    simp only [rewriteArgs, Args.cons.injEq, h1, changesArgs, Nat.add_eq_zero_iff]
    match i with
    | none =>
      have h2 := rewriteArgs_eq_iff none l
      simp only [Option.bind_none, h2, touchedAt]
      simp [argMode, touched_plain]
    | some 0 =>
      have h2 := rewriteArgs_eq_iff none l
      simp only [Option.bind_some, if_true, h2, touchedAt, Args.get]
      cases hp : isProps e
      · simp [argMode, touched_plain, hp]
      · simp only [argMode, hp, and_self, if_true, Bool.true_and]
        simp only [and_assoc, true_and]
    | some (n + 1) =>
      have h2 := rewriteArgs_eq_iff (some n) l
      have e1 : (some (n + 1)).bind (fun n => if n = 0 then none else some (n - 1)) = some n := by simp
      rw [e1, h2]
      have e2 : argMode (some (n + 1)) e = .plain := by simp [argMode]
      rw [e2, touched_plain]
      have e3 : touchedAt cs (some (n + 1)) (.cons e l) = touchedAt cs (some n) l := rfl
      rw [e3]
      constructor
      · rintro ⟨⟨_, a⟩, b, c⟩; exact ⟨b, a, c⟩
      · rintro ⟨b, a, c⟩; exact ⟨⟨rfl, a⟩, b, c⟩
theorem rewriteKws_eq_iff (m : Mode) : ∀ l : Kws, rewriteKws cs m l = l ↔ touchedKws cs m l = false ∧ changesKws cs l = 0
  | .nil => by simp [rewriteKws, touchedKws, changesKws]
  | .cons none v l => by
    have h1 := rewrite_eq_iff .plain v
    have h2 := rewriteKws_eq_iff m l
    simp only [rewriteKws, Kws.cons.injEq, h1, h2, touched_plain, true_and, touchedKws, changesKws, Nat.add_eq_zero_iff]
    constructor
    · rintro ⟨a, b, c⟩; exact ⟨b, a, c⟩
    · rintro ⟨b, a, c⟩; exact ⟨a, b, c⟩
  | .cons (some k) v l => by
    have h1 := rewrite_eq_iff (item cs m k v).2 v
    have h2 := rewriteKws_eq_iff m l
    simp only [rewriteKws, Kws.cons.injEq, Option.some.injEq, h1, h2, touchedKws, changesKws, Nat.add_eq_zero_iff, touched_item,
      Bool.or_eq_false_iff, bne_eq_false_iff_eq]
    constructor
    · rintro ⟨a, ⟨b, c⟩, d, e⟩; exact ⟨⟨⟨a, b⟩, d⟩, c, e⟩
    · rintro ⟨⟨⟨a, b⟩, d⟩, c, e⟩; exact ⟨a, ⟨b, c⟩, d, e⟩
theorem rewriteItems_eq_iff (m : Mode) : ∀ l : Items, rewriteItems cs m l = l ↔ touchedItems cs m l = false ∧ changesItems cs l = 0
  | .nil => by simp [rewriteItems, touchedItems, changesItems]
  | .spread v l => by
    have h1 := rewrite_eq_iff .plain v
    have h2 := rewriteItems_eq_iff m l
    simp only [rewriteItems, Items.spread.injEq, h1, h2, touched_plain, true_and, touchedItems, changesItems, Nat.add_eq_zero_iff]
    constructor
    · rintro ⟨a, b, c⟩; exact ⟨b, a, c⟩
    · rintro ⟨b, a, c⟩; exact ⟨a, b, c⟩
  | .cons k v l => by
    have h2 := rewriteItems_eq_iff m l
    have h0 := rewrite_eq_iff .plain k
    have hv := rewrite_eq_iff .plain v
    cases k with
    | str k =>
      have h1 := rewrite_eq_iff (item cs m k v).2 v
      simp only [rewriteItems, Items.cons.injEq, Expr.str.injEq, h1, h2, touchedItems, changesItems, changes, Nat.add_eq_zero_iff, touched_item,
        Bool.or_eq_false_iff, bne_eq_false_iff_eq]
      constructor
      · rintro ⟨a, ⟨b, c⟩, d, e⟩; exact ⟨⟨⟨a, b⟩, d⟩, ⟨trivial, c⟩, e⟩
      · rintro ⟨⟨⟨a, b⟩, d⟩, ⟨_, c⟩, e⟩; exact ⟨a, ⟨b, c⟩, d, e⟩
    | _ =>
      simp only [rewriteItems, Items.cons.injEq, h0, h2, hv, touched_plain, true_and, touchedItems, changesItems, Nat.add_eq_zero_iff]
      constructor
      · rintro ⟨a, b, c, d⟩; exact ⟨c, ⟨a, b⟩, d⟩
      · rintro ⟨c, ⟨a, b⟩, d⟩; exact ⟨a, b, c, d⟩
end

/-! ## What stays -/

mutual
theorem erase_rewrite (m : Mode) : ∀ e : Expr, erase (rewrite cs m e) = erase e
  | .str _ => rfl
  | .const _ => rfl
  | .joined l => by simp only [rewrite, erase, erase_rewriteArgs none l]
  | .name _ => rfl
  | .attr v _ => by simp only [rewrite, erase, erase_rewrite .plain v]
  | .call f args kws => by
    simp only [rewrite, erase, erase_rewrite .plain f, erase_rewriteArgs _ args, erase_rewriteKws m kws]
  | .dict items => by simp only [rewrite, erase, erase_rewriteItems m items]
  | .other l => by simp only [rewrite, erase, erase_rewriteArgs none l]
theorem erase_rewriteArgs (i : Option Nat) : ∀ l : Args, eraseArgs (rewriteArgs cs i l) = eraseArgs l
  | .nil => rfl
  | .cons e l => by simp only [rewriteArgs, eraseArgs, erase_rewrite _ e, erase_rewriteArgs _ l]
theorem erase_rewriteKws (m : Mode) : ∀ l : Kws, eraseKws (rewriteKws cs m l) = eraseKws l
  | .nil => rfl
  | .cons none v l => by simp only [rewriteKws, eraseKws, erase_rewrite _ v, erase_rewriteKws m l]
  | .cons (some k) v l => by simp only [rewriteKws, eraseKws, erase_rewrite _ v, erase_rewriteKws m l, Option.map_some]
theorem erase_rewriteItems (m : Mode) : ∀ l : Items, eraseItems (rewriteItems cs m l) = eraseItems l
  | .nil => rfl
  | .spread v l => by simp only [rewriteItems, eraseItems, erase_rewrite _ v, erase_rewriteItems m l]
  | .cons k v l => by
    have hk := erase_rewrite .plain k
    have hv := erase_rewrite .plain v
    have hl := erase_rewriteItems m l
    cases k with
    | str k => simp only [rewriteItems, eraseItems, erase_rewrite _ v, hl]
    | _ => simp only [rewriteItems, rewrite, eraseItems, hv, hl] at hk ⊢; try simp only [hk]
end

/-! ## The names of attributes -/

theorem conv_style : conv cs "style".toList = "style".toList := conv_of_clean (by decide +kernel)

theorem kwKeys_style : ∀ l : Kws, kwKeys (rewriteKws cs .style l) = (kwKeys l).map (conv cs)
  | .nil => rfl
  | .cons none v l => by simp only [rewriteKws, kwKeys, kwKeys_style l]
  | .cons (some k) v l => by
    simp only [rewriteKws, kwKeys, kwKeys_style l, item, List.map_cons]
    by_cases h : k = "style".toList
    · rw [if_pos h, h, conv_style]
    · rw [if_neg h]

theorem itemKeys_style : ∀ l : Items, itemKeys (rewriteItems cs .style l) = (itemKeys l).map (conv cs)
  | .nil => rfl
  | .spread v l => by simp only [rewriteItems, itemKeys, itemKeys_style l]
  | .cons k v l => by
    cases k with
    | str k =>
      simp only [rewriteItems, itemKeys, itemKeys_style l, item, List.map_cons]
      by_cases h : k = "style".toList
      · rw [if_pos h, h, conv_style]
      · rw [if_neg h]
    | _ => simp only [rewriteItems, rewrite, itemKeys, itemKeys_style l]

theorem directKeys_style (e : Expr) : directKeys (rewrite cs .style e) = (directKeys e).map (conv cs) := by
  cases e with
  | dict l => simp only [rewrite, directKeys, itemKeys_style]
  | call f a k =>
    cases f with
    | name d =>
      simp only [rewrite, directKeys, kwKeys_style]
      split <;> rfl
    | _ => simp only [rewrite, directKeys, List.map_nil]
  | _ => simp [rewrite, directKeys]

theorem directKeys_none {e : Expr} (m : Mode) (h : isDictOrCall e = false) : directKeys (rewrite cs m e) = [] ∧ directKeys e = [] := by
  cases e <;> simp_all [rewrite, directKeys, isDictOrCall]

/-- One attribute and the CSS names in it. -/
theorem item_names {k : Str} {v : Expr} (hk : conv cs k = "style".toList → k = "style".toList) :
    (item cs .props k v).1 :: (if (item cs .props k v).1 = "style".toList then directKeys (rewrite cs (item cs .props k v).2 v) else []) =
      (k :: (if k = "style".toList then directKeys v else [])).map (conv cs) := by
  by_cases hs : k = "style".toList
  · subst hs
    by_cases hv : isDictOrCall v = true
    · simp only [item, hv, and_self, if_true, List.map_cons, directKeys_style, conv_style]
    · have hv : isDictOrCall v = false := by simpa using hv
      obtain ⟨h1, h2⟩ := directKeys_none (cs := cs) .plain hv
      simp only [item, hv, Bool.false_eq_true, and_false, if_false, conv_style, if_true, h1, h2, List.map_cons, List.map_nil]
  · have : ¬ conv cs k = "style".toList := fun h => hs (hk h)
    simp only [item, hs, false_and, if_false, this, List.map_cons, List.map_nil]

theorem kwNames_props : ∀ l : Kws, NoAliasKws cs l → kwNames (rewriteKws cs .props l) = (kwNames l).map (conv cs)
  | .nil, _ => rfl
  | .cons none v l, h => by simp only [rewriteKws, kwNames, kwNames_props l h.2.2]
  | .cons (some k) v l, h => by
    simp only [rewriteKws, kwNames, kwNames_props l h.2.2, item_names (v := v) (h.1 k rfl), List.map_append]

theorem itemNames_props : ∀ l : Items, NoAliasItems cs l → itemNames (rewriteItems cs .props l) = (itemNames l).map (conv cs)
  | .nil, _ => rfl
  | .spread v l, h => by simp only [rewriteItems, itemNames, itemNames_props l h.2]
  | .cons k v l, h => by
    have ih := itemNames_props l h.2.2.2
    cases k with
    | str k => simp only [rewriteItems, itemNames, ih, item_names (v := v) (h.1 k rfl), List.map_append]
    | _ => simp only [rewriteItems, rewrite, itemNames, ih]

theorem ownNames_props {e : Expr} (h : NoAlias cs e) (hp : isProps e = true) :
    ownNames (rewrite cs .props e) = (ownNames e).map (conv cs) := by
  cases e with
  | dict l => simp only [rewrite, ownNames]; exact itemNames_props l h
  | call f a k =>
    cases f with
    | name d =>
      simp only [rewrite, ownNames]
      split
      · exact kwNames_props k h.2.2
      · rfl
    | _ => simp [isProps] at hp
  | _ => simp [isProps] at hp

theorem ownNames_none {e : Expr} (m : Mode) (hp : isProps e = false) : ownNames (rewrite cs m e) = [] ∧ ownNames e = [] := by
  cases e with
  | dict l => simp [isProps] at hp
  | call f a k =>
    cases f with
    | name d =>
      simp only [isProps, beq_eq_false_iff_ne] at hp
      simp only [rewrite, ownNames, if_neg hp, and_self]
    | _ => simp [rewrite, ownNames]
  | _ => simp [rewrite, ownNames]

theorem get_noAlias : ∀ {args : Args} {n : Nat} {e : Expr}, NoAliasArgs cs args → args.get n = some e → NoAlias cs e
  | .cons _ _, 0, _, h, he => by simp only [Args.get, Option.some.injEq] at he; subst he; exact h.1
  | .cons _ l, n + 1, _, h, he => get_noAlias (args := l) h.2 he

theorem get_rewrite_at : ∀ (args : Args) (n : Nat),
    (rewriteArgs cs (some n) args).get n = (args.get n).map (fun e => rewrite cs (argMode (some 0) e) e)
  | .nil, _ => rfl
  | .cons e l, 0 => rfl
  | .cons e l, n + 1 => by
    simp only [rewriteArgs, Args.get]
    have e1 : (some (n + 1)).bind (fun n => if n = 0 then none else some (n - 1)) = some n := by simp
    rw [e1]; exact get_rewrite_at l n

theorem get_rewrite_none : ∀ (args : Args) (n : Nat),
    (rewriteArgs cs none args).get n = (args.get n).map (fun e => rewrite cs .plain e)
  | .nil, _ => rfl
  | .cons e l, 0 => by simp [rewriteArgs, Args.get, argMode]
  | .cons e l, n + 1 => by
    simp only [rewriteArgs, Args.get, Option.bind_none]
    exact get_rewrite_none l n

/-- The names of one element's attributes. -/
theorem elementNames_rewrite {f : Expr} {args : Args} (h : NoAliasArgs cs args) :
    elementNames (rewrite cs .plain f) (rewriteArgs cs (propsArg f args) args) = (elementNames f args).map (conv cs) := by
  have hc : ∀ f, constructorName f = elementName f := by
    intro f
    cases f with
    | attr v a => cases v <;> rfl
    | _ => rfl
  simp only [elementNames, ← hc, rewrite_constructorName]
  simp only [propsArg]
  cases constructorName f with
  | none => rfl
  | some name =>
    simp only
    generalize (if name = "vdom".toList then 1 else 0) = n
    cases he : args.get n with
    | none => simp [get_rewrite_none, he]
    | some e =>
      simp only
      cases hl : isLiteral e with
      | true =>
        have hp : isProps e = false := by cases e <;> simp_all [isLiteral, isProps]
        obtain ⟨h1, h2⟩ := ownNames_none (cs := cs) .plain hp
        simp [get_rewrite_none, he, h1, h2]
      | false =>
        simp only [Bool.false_eq_true, if_false, get_rewrite_at, he, Option.map_some]
        cases hp : isProps e with
        | true =>
          simp only [argMode, hp, and_self, if_true]
          exact ownNames_props (get_noAlias h he) hp
        | false =>
          obtain ⟨h1, h2⟩ := ownNames_none (cs := cs) (argMode (some 0) e) hp
          rw [h1, h2]; rfl

mutual
theorem attrNames_rewrite : ∀ (m : Mode) (e : Expr), NoAlias cs e → attrNames (rewrite cs m e) = (attrNames e).map (conv cs)
  | _, .str _, _ => rfl
  | _, .const _, _ => rfl
  | _, .joined l, h => by simp only [rewrite, attrNames, attrNamesArgs_rewrite none l h]
  | _, .name _, _ => rfl
  | _, .attr v _, h => by simp only [rewrite, attrNames, attrNames_rewrite .plain v h]
  | m, .call f args kws, h => by
    simp only [rewrite, attrNames, elementNames_rewrite h.2.1, attrNames_rewrite .plain f h.1, attrNamesArgs_rewrite _ args h.2.1,
      attrNamesKws_rewrite m kws h.2.2, List.map_append]
  | m, .dict items, h => by simp only [rewrite, attrNames, attrNamesItems_rewrite m items h]
  | _, .other l, h => by simp only [rewrite, attrNames, attrNamesArgs_rewrite none l h]
theorem attrNamesArgs_rewrite : ∀ (i : Option Nat) (l : Args), NoAliasArgs cs l → attrNamesArgs (rewriteArgs cs i l) = (attrNamesArgs l).map (conv cs)
  | _, .nil, _ => rfl
  | i, .cons e l, h => by
    simp only [rewriteArgs, attrNamesArgs, attrNames_rewrite _ e h.1, attrNamesArgs_rewrite _ l h.2, List.map_append]
theorem attrNamesKws_rewrite : ∀ (m : Mode) (l : Kws), NoAliasKws cs l → attrNamesKws (rewriteKws cs m l) = (attrNamesKws l).map (conv cs)
  | _, .nil, _ => rfl
  | m, .cons none v l, h => by
    simp only [rewriteKws, attrNamesKws, attrNames_rewrite _ v h.2.1, attrNamesKws_rewrite m l h.2.2, List.map_append]
  | m, .cons (some k) v l, h => by
    simp only [rewriteKws, attrNamesKws, attrNames_rewrite _ v h.2.1, attrNamesKws_rewrite m l h.2.2, List.map_append]
theorem attrNamesItems_rewrite : ∀ (m : Mode) (l : Items), NoAliasItems cs l → attrNamesItems (rewriteItems cs m l) = (attrNamesItems l).map (conv cs)
  | _, .nil, _ => rfl
  | m, .spread v l, h => by
    simp only [rewriteItems, attrNamesItems, attrNames_rewrite _ v h.1, attrNamesItems_rewrite m l h.2, List.map_append]
  | m, .cons k v l, h => by
    have hk := attrNames_rewrite .plain k h.2.1
    have hv := fun m => attrNames_rewrite m v h.2.2.1
    have hl := attrNamesItems_rewrite m l h.2.2.2
    cases k with
    | str k => simp only [rewriteItems, attrNamesItems, attrNames, hv, hl, List.map_append, List.map_nil]
    | _ => simp only [rewriteItems, attrNamesItems, hk, hv, hl, List.map_append]
end

/-! ## Everything but the names of attributes -/

/-- The specification's place for a mode of the command. -/
def placeOf : Mode → Place
  | .plain => .elsewhere
  | .props => .attributes
  | .style => .css

theorem isAttrs_eq (e : Expr) : isAttrs e = isProps e := by cases e <;> rfl

theorem isAttrs_rewrite (m : Mode) (e : Expr) : isAttrs (rewrite cs m e) = isAttrs e := by
  rw [isAttrs_eq, isAttrs_eq, rewrite_isProps]

theorem elementName_eq (f : Expr) : elementName f = constructorName f := by
  cases f with
  | attr v a => cases v <;> rfl
  | _ => rfl

theorem attrsAt_rewrite (f : Expr) : attrsAt (rewrite cs .plain f) = attrsAt f := by
  simp only [attrsAt, elementName_eq, rewrite_constructorName]

theorem below_eq (m : Mode) (k : Str) (v : Expr) : below (placeOf m) k v = placeOf (item cs m k v).2 := by
  cases m with
  | plain => cases v <;> rfl
  | props => cases v <;> simp only [placeOf, below, item, isDictOrCall, and_true, and_false, Bool.false_eq_true, if_false] <;> split <;> rfl
  | style =>
    have : (item cs .style k v).2 = .plain := by simp only [item]; split <;> rfl
    rw [this]
    cases v <;> rfl

theorem below_rewrite (m m' : Mode) (k : Str) (v : Expr) (hk : conv cs k = "style".toList → k = "style".toList) :
    below (placeOf m) (item cs m k v).1 (rewrite cs m' v) = below (placeOf m) k v := by
  by_cases hs : k = "style".toList
  · have : (item cs m k v).1 = k := by
      cases m <;> simp only [item, hs, true_and, if_true]
      split
      · rfl
      · exact conv_style (cs := cs)
    rw [this]
    cases m <;> cases v <;> simp only [below, placeOf, rewrite]
  · have hs' : ¬ conv cs k = "style".toList := fun h => hs (hk h)
    cases m with
    | plain => cases v <;> simp only [placeOf, below, rewrite]
    | props => cases v <;> simp only [placeOf, below, item, rewrite, hs, hs', false_and, if_false]
    | style => cases v <;> simp only [placeOf, below, rewrite]

theorem name_blank (m : Mode) (k : Str) (v : Expr) :
    (if placeOf m = .elsewhere then (item cs m k v).1 else []) = (if placeOf m = .elsewhere then k else []) := by
  cases m <;> simp [placeOf, item]

/-- Where the command looks for attributes agrees with the specification. -/
theorem argMode_place : ∀ (f : Expr) (args : Args), blankArgs (propsArg f args) args = blankArgs (attrsAt f) args := by
  have key : ∀ (n : Nat) (args : Args) (e : Expr), args.get n = some e → isLiteral e = true →
      blankArgs none args = blankArgs (some n) args := by
    intro n
    induction n with
    | zero =>
      intro args e he hl
      cases args with
      | nil => simp [Args.get] at he
      | cons a l =>
        simp only [Args.get, Option.some.injEq] at he
        subst he
        have : isAttrs a = false := by cases a <;> simp_all [isLiteral, isAttrs]
        simp [blankArgs, this]
    | succ n ih =>
      intro args e he hl
      cases args with
      | nil => simp [Args.get] at he
      | cons a l =>
        have := ih l e he hl
        simp [blankArgs, this]
  have miss : ∀ (n : Nat) (args : Args), args.get n = none → blankArgs none args = blankArgs (some n) args := by
    intro n
    induction n with
    | zero =>
      intro args he
      cases args with
      | nil => rfl
      | cons a l => simp [Args.get] at he
    | succ n ih =>
      intro args he
      cases args with
      | nil => rfl
      | cons a l =>
        have := ih l he
        simp [blankArgs, this]
  intro f args
  simp only [propsArg, attrsAt, elementName_eq]
  cases constructorName f with
  | none => rfl
  | some name =>
    simp only [Option.map_some]
    cases he : args.get (if name = "vdom".toList then 1 else 0) with
    | none => exact miss _ _ he
    | some e =>
      simp only
      cases hl : isLiteral e with
      | true => exact key _ _ e he hl
      | false => rfl

mutual
theorem blank_rewrite : ∀ (m : Mode) (e : Expr), NoAlias cs e → blank (placeOf m) (rewrite cs m e) = blank (placeOf m) e
  | _, .str _, _ => rfl
  | _, .const _, _ => rfl
  | _, .joined l, h => by simp only [rewrite, blank, blankArgs_rewrite none l h]
  | _, .name _, _ => rfl
  | _, .attr v _, h => by
    have := blank_rewrite .plain v h
    simp only [placeOf] at this
    simp only [rewrite, blank, this]
  | m, .call f args kws, h => by
    have h1 := blank_rewrite .plain f h.1
    simp only [placeOf] at h1
    have h2 := blankArgs_rewrite (propsArg f args) args h.2.1
    have h3 := argMode_place (rewrite cs .plain f) (rewriteArgs cs (propsArg f args) args)
    rw [propsArg_rewrite, attrsAt_rewrite] at h3
    simp only [rewrite, blank, h1, attrsAt_rewrite, ← h3, h2, argMode_place f args, blankKws_rewrite m kws h.2.2]
  | m, .dict items, h => by simp only [rewrite, blank, blankItems_rewrite m items h]
  | _, .other l, h => by simp only [rewrite, blank, blankArgs_rewrite none l h]
theorem blankArgs_rewrite : ∀ (i : Option Nat) (l : Args), NoAliasArgs cs l → blankArgs i (rewriteArgs cs i l) = blankArgs i l
  | _, .nil, _ => rfl
  | i, .cons e l, h => by
    have he := blank_rewrite (argMode i e) e h.1
    have hp : placeOf (argMode i e) = if i = some 0 ∧ isAttrs e = true then .attributes else .elsewhere := by
      simp only [argMode, isAttrs_eq]
      split <;> rfl
    rw [hp] at he
    simp only [rewriteArgs, blankArgs, isAttrs_rewrite, he, blankArgs_rewrite _ l h.2]
theorem blankKws_rewrite : ∀ (m : Mode) (l : Kws), NoAliasKws cs l → blankKws (placeOf m) (rewriteKws cs m l) = blankKws (placeOf m) l
  | _, .nil, _ => rfl
  | m, .cons none v l, h => by
    have := blank_rewrite .plain v h.2.1
    simp only [placeOf] at this
    simp only [rewriteKws, blankKws, this, blankKws_rewrite m l h.2.2]
  | m, .cons (some k) v l, h => by
    have := blank_rewrite (item cs m k v).2 v h.2.1
    rw [← below_eq] at this
    simp only [rewriteKws, blankKws, below_rewrite m _ k v (h.1 k rfl), this, name_blank, blankKws_rewrite m l h.2.2]
theorem blankItems_rewrite : ∀ (m : Mode) (l : Items), NoAliasItems cs l → blankItems (placeOf m) (rewriteItems cs m l) = blankItems (placeOf m) l
  | _, .nil, _ => rfl
  | m, .spread v l, h => by
    have := blank_rewrite .plain v h.1
    simp only [placeOf] at this
    simp only [rewriteItems, blankItems, this, blankItems_rewrite m l h.2]
  | m, .cons k v l, h => by
    have hk := blank_rewrite .plain k h.2.1
    have hv := fun m => blank_rewrite m v h.2.2.1
    have hl := blankItems_rewrite m l h.2.2.2
    have hv' := hv .plain
    simp only [placeOf] at hk hv'
    cases k with
    | str k =>
      have := hv (item cs m k v).2
      rw [← below_eq] at this
      simp only [rewriteItems, blankItems, below_rewrite m _ k v (h.1 k rfl), this, name_blank, hl]
    | _ =>
      simp only [rewrite] at hk
      simp only [rewriteItems, rewrite, blankItems, hk, hv', hl]
end

end Verif.Console
