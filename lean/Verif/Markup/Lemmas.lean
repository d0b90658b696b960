import Verif.Markup.Spec
/-! # Lemmas about writing models as HTML -/
namespace Verif.Markup

theorem bind_error {α β : Type} (e : Err) (k : α → Except Err β) : ((Except.error e : Except Err α) >>= k) = .error e := rfl
theorem bind_ok {α β : Type} (a : α) (k : α → Except Err β) : ((Except.ok a : Except Err α) >>= k) = k a := rfl

theorem addResult_eq (e : El) : ∀ r, addResult e r = addChild e (componentToVdom r)
  | .none => by simp [addResult, componentToVdom, addChild, addKids]
  | .elem t a j h k => by simp [addResult, componentToVdom, addChild]
  | .bad => by simp [addResult, componentToVdom, addChild]
  | .comp r => by rw [addResult, componentToVdom]; exact addResult_eq e r
  | .text s => by
    simp [addResult, componentToVdom, addChild, addKids, attrsToHtml, addText]
    rfl
  | .value s => by
    simp [addResult, componentToVdom, addChild, addKids, attrsToHtml]
    rfl

def El.tag : El → String
  | .mk t _ _ _ => t
def El.attrs : El → List (String × String)
  | .mk _ a _ _ => a

variable (w : Writer)

/-- What is written between the tags of an element. -/
def inner : El → List Char
  | .mk tag _ text kids => text.toList.flatMap (w.esc tag) ++ w.writeKids tag kids

theorem writeKids_append (tag : String) (ks ks' : List (El × String)) :
    w.writeKids tag (ks ++ ks') = w.writeKids tag ks ++ w.writeKids tag ks' := by
  induction ks with
  | nil => simp [Writer.writeKids]
  | cons k ks ih => obtain ⟨e, t⟩ := k; simp [Writer.writeKids, ih]

theorem write_eq (e : El) : w.write e = w.startTag e.tag e.attrs ++ if w.void e.tag then [] else inner w e ++ Writer.endTag e.tag := by
  cases e with
  | mk t a x k => simp [Writer.write, El.tag, El.attrs, inner]

theorem addText_head (e : El) (s : String) : (addText e s).tag = e.tag ∧ (addText e s).attrs = e.attrs := by
  cases e with
  | mk t a x k => cases k <;> simp [addText, El.tag, El.attrs]

theorem append_head (e c : El) : (append e c).tag = e.tag ∧ (append e c).attrs = e.attrs := by
  cases e with
  | mk t a x k => simp [append, El.tag, El.attrs]

theorem inner_addText (e : El) (s : String) : inner w (addText e s) = inner w e ++ s.toList.flatMap (w.esc e.tag) := by
  cases e with
  | mk t a x k =>
    cases k with
    | nil => simp [addText, inner, El.tag, Writer.writeKids]
    | cons k ks =>
      have hl := List.dropLast_concat_getLast (l := k :: ks) (by simp)
      simp only [addText, inner, El.tag]
      rw [writeKids_append]
      conv => rhs; rw [← hl]
      rw [writeKids_append]
      simp [Writer.writeKids]

theorem inner_append (e c : El) : inner w (append e c) = inner w e ++ w.write c := by
  cases e with
  | mk t a x k => simp [append, inner, writeKids_append, Writer.writeKids]

theorem attrToHtml_ok {k : String} {v : AVal} (h : v.notFn = true) :
    ∃ p, attrToHtml k v = .ok p := by
  cases v with
  | fn => cases h
  | style d => by_cases hk : k = "style"
               · exact ⟨_, by simp only [attrToHtml]; rw [if_pos hk]⟩
               · by_cases hd : k ∈ dashedHtmlAttrs
                 · exact ⟨_, by simp only [attrToHtml]; rw [if_neg hk, if_pos hd]⟩
                 · by_cases hs : (k.startsWith "data-" || k.startsWith "aria-") = true
                   · exact ⟨_, by simp only [attrToHtml]; rw [if_neg hk, if_neg hd, if_pos hs]⟩
                   · exact ⟨_, by simp only [attrToHtml]; rw [if_neg hk, if_neg hd, if_neg hs]⟩
  | _ => by_cases hk : k = "style"
         · exact ⟨_, by simp only [attrToHtml]; rw [if_pos hk]⟩
         · by_cases hd : k ∈ dashedHtmlAttrs
           · exact ⟨_, by simp only [attrToHtml]; rw [if_neg hk, if_pos hd]⟩
           · by_cases hs : (k.startsWith "data-" || k.startsWith "aria-") = true
             · exact ⟨_, by simp only [attrToHtml]; rw [if_neg hk, if_neg hd, if_pos hs]⟩
             · exact ⟨_, by simp only [attrToHtml]; rw [if_neg hk, if_neg hd, if_neg hs]⟩

theorem attrToHtml_err {k : String} {v : AVal} (h : v.notFn = false) :
    attrToHtml k v = .error .type := by
  cases v <;> simp [AVal.notFn] at h
  simp [attrToHtml]

theorem mapM_attrs (attrs : List (String × AVal)) :
    (noFn attrs = true → ∃ l, attrs.mapM (fun p => attrToHtml p.1 p.2) = .ok l) ∧
    (noFn attrs = false → attrs.mapM (fun p => attrToHtml p.1 p.2) = .error Err.type) := by
  induction attrs with
  | nil => exact ⟨fun _ => ⟨[], rfl⟩, fun h => by simp [noFn] at h⟩
  | cons p ps ih =>
    rw [List.mapM_cons]
    have hc : noFn (p :: ps) = (p.2.notFn && noFn ps) := by simp [noFn]
    rw [hc]
    cases hp : p.2.notFn with
    | false =>
      refine ⟨by simp, fun _ => ?_⟩
      rw [attrToHtml_err hp]; rfl
    | true =>
      obtain ⟨q, hq⟩ := attrToHtml_ok (k := p.1) hp
      rw [hq]
      refine ⟨fun h => ?_, fun h => ?_⟩
      · obtain ⟨l, hl⟩ := ih.1 (by simpa using h)
        exact ⟨q :: l, by rw [hl]; rfl⟩
      · rw [ih.2 (by simpa using h)]; rfl

theorem attrsToHtml_ok {attrs : List (String × AVal)} (h : noFn attrs = true) : ∃ a, attrsToHtml attrs = .ok a := by
  obtain ⟨l, hl⟩ := (mapM_attrs attrs).1 h
  exact ⟨ofPairs l, by rw [attrsToHtml, hl]; rfl⟩

theorem attrsToHtml_err {attrs : List (String × AVal)} (h : noFn attrs = false) : attrsToHtml attrs = .error .type := by
  rw [attrsToHtml, (mapM_attrs attrs).2 h]; rfl

mutual
/-- A child that is not broken is added; one that is raises `TypeError`. -/
theorem addChild_total (e : El) : ∀ v, (broken v = false → ∃ e', addChild e v = .ok e') ∧ (broken v = true → addChild e v = .error .type)
  | .text s => ⟨fun _ => ⟨_, rfl⟩, fun h => by simp [broken] at h⟩
  | .none => ⟨fun _ => ⟨_, rfl⟩, fun h => by simp [broken] at h⟩
  | .value s => ⟨fun _ => ⟨_, rfl⟩, fun h => by simp [broken] at h⟩
  | .elem tag attrs js hs kids => by
    by_cases ht : tag = ""
    · subst ht
      have := addKids_total e kids
      simpa [broken, addChild] using this
    · cases hn : noFn attrs with
      | false =>
        refine ⟨fun h => by simp [broken, ht, hn] at h, fun _ => ?_⟩
        simp only [addChild, ht, ne_eq, not_false_eq_true, if_true]
        rw [attrsToHtml_err hn]; rfl
      | true =>
        obtain ⟨a, ha⟩ := attrsToHtml_ok hn
        have := addKids_total (.mk tag a "" []) kids
        simp only [broken, hn, addChild, ht, ne_eq, not_false_eq_true, if_true, ha]
        simp only [Bool.not_true, Bool.and_false, Bool.false_or]
        refine ⟨fun h => ?_, fun h => ?_⟩
        · obtain ⟨c, hc⟩ := this.1 h
          exact ⟨append e c, by simp only [bind_ok, hc]; rfl⟩
        · simp only [bind_ok, this.2 h]; rfl
  | .comp r => by
    have := addResult_total e r
    simpa [broken, addChild] using this
  | .bad => ⟨fun h => by simp [broken] at h, fun _ => rfl⟩
theorem addKids_total (e : El) : ∀ vs, (brokenL vs = false → ∃ e', addKids e vs = .ok e') ∧ (brokenL vs = true → addKids e vs = .error .type)
  | [] => ⟨fun _ => ⟨e, rfl⟩, fun h => by simp [brokenL] at h⟩
  | v :: vs => by
    cases hb : broken v with
    | true =>
      refine ⟨fun h => by simp [brokenL, hb] at h, fun _ => ?_⟩
      simp only [addKids, (addChild_total e v).2 hb]; rfl
    | false =>
      obtain ⟨e', he⟩ := (addChild_total e v).1 hb
      have := addKids_total e' vs
      simp only [addKids, he, bind_ok, brokenL, hb, Bool.false_or]
      exact this
theorem addResult_total (e : El) : ∀ v, (broken v = false → ∃ e', addResult e v = .ok e') ∧ (broken v = true → addResult e v = .error .type)
  | .text s => ⟨fun _ => ⟨_, rfl⟩, fun h => by simp [broken] at h⟩
  | .none => ⟨fun _ => ⟨_, rfl⟩, fun h => by simp [broken] at h⟩
  | .value s => ⟨fun _ => ⟨_, rfl⟩, fun h => by simp [broken] at h⟩
  | .elem tag attrs js hs kids => by
    by_cases ht : tag = ""
    · subst ht
      have := addKids_total e kids
      simpa [broken, addResult] using this
    · cases hn : noFn attrs with
      | false =>
        refine ⟨fun h => by simp [broken, ht, hn] at h, fun _ => ?_⟩
        simp only [addResult, ht, ne_eq, not_false_eq_true, if_true]
        rw [attrsToHtml_err hn]; rfl
      | true =>
        obtain ⟨a, ha⟩ := attrsToHtml_ok hn
        have := addKids_total (.mk tag a "" []) kids
        simp only [broken, hn, addResult, ht, ne_eq, not_false_eq_true, if_true, ha]
        simp only [Bool.not_true, Bool.and_false, Bool.false_or]
        refine ⟨fun h => ?_, fun h => ?_⟩
        · obtain ⟨c, hc⟩ := this.1 h
          exact ⟨append e c, by simp only [bind_ok, hc]; rfl⟩
        · simp only [bind_ok, this.2 h]; rfl
  | .comp r => by
    have := addResult_total e r
    simpa [broken, addResult] using this
  | .bad => ⟨fun h => by simp [broken] at h, fun _ => rfl⟩
end

/-- `e'` is `e` with `cs` written after its content. -/
def Extends (e e' : El) (cs : List Char) : Prop := e'.tag = e.tag ∧ e'.attrs = e.attrs ∧ inner w e' = inner w e ++ cs

theorem Extends.trans {e e' e'' : El} {cs cs' : List Char} (h : Extends w e e' cs) (h' : Extends w e' e'' cs') :
    Extends w e e'' (cs ++ cs') :=
  ⟨h'.1.trans h.1, h'.2.1.trans h.2.1, by rw [h'.2.2, h.2.2, List.append_assoc]⟩

theorem extends_text (e : El) (s : String) : Extends w e (addText e s) (s.toList.flatMap (w.esc e.tag)) :=
  ⟨(addText_head e s).1, (addText_head e s).2, inner_addText w e s⟩

theorem extends_elem {e c : El} {tag : String} {a : List (String × String)} {cs : List Char}
    (hc : Extends w (.mk tag a "" []) c cs) :
    Extends w e (append e c) (w.startTag tag a ++ if w.void tag then [] else cs ++ Writer.endTag tag) := by
  refine ⟨(append_head e c).1, (append_head e c).2, ?_⟩
  have h1 : c.tag = tag := hc.1
  have h2 : c.attrs = a := hc.2.1
  have h3 : inner w c = cs := by rw [hc.2.2]; simp [inner, Writer.writeKids]
  rw [inner_append, write_eq, h1, h2, h3]

theorem bind_eq_ok {α β : Type} {r : Except Err α} {k : α → Except Err β} {b : β} (h : (r >>= k) = .ok b) :
    ∃ a, r = .ok a ∧ k a = .ok b := by
  cases r with
  | error e => cases h
  | ok a => exact ⟨a, rfl, h⟩

mutual
theorem addChild_html : ∀ (v : V) (e e' : El), plainText v = true → modelResults v = true → addChild e v = .ok e' →
    Extends w e e' (html w e.tag v)
  | .text s, e, e', _, _, h => by cases h; exact extends_text w e s
  | .none, e, e', hp, _, _ => by simp [plainText] at hp
  | .value s, e, e', _, _, h => by cases h; exact extends_text w e s
  | .elem tag attrs js hs kids, e, e', hp, hm, h => by
    simp only [plainText] at hp
    simp only [modelResults] at hm
    simp only [addChild] at h
    by_cases ht : tag = ""
    · simp only [ht, ne_eq, not_true_eq_false, if_false] at h
      simp only [html, ht, if_true]
      exact addKids_html kids e e' hp hm h
    · simp only [ht, ne_eq, not_false_eq_true, if_true] at h
      obtain ⟨a, ha, h⟩ := bind_eq_ok h
      obtain ⟨c, hc, h⟩ := bind_eq_ok h
      cases h
      simp only [html, ht, if_false, ha]
      exact extends_elem w (addKids_html kids _ c hp hm hc)
  | .comp r, e, e', hp, hm, h => by
    simp only [plainText] at hp
    simp only [modelResults] at hm
    simp only [html]
    exact addResult_html r e e' hp hm h
  | .bad, e, e', _, _, h => by cases h
theorem addKids_html : ∀ (vs : List V) (e e' : El), plainTextL vs = true → modelResultsL vs = true → addKids e vs = .ok e' →
    Extends w e e' (htmlL w e.tag vs)
  | [], e, e', _, _, h => by cases h; exact ⟨rfl, rfl, by simp [htmlL]⟩
  | v :: vs, e, e', hp, hm, h => by
    simp only [plainTextL, Bool.and_eq_true] at hp
    simp only [modelResultsL, Bool.and_eq_true] at hm
    simp only [addKids] at h
    obtain ⟨e1, h1, h⟩ := bind_eq_ok h
    have x1 := addChild_html v e e1 hp.1 hm.1 h1
    have x2 := addKids_html vs e1 e' hp.2 hm.2 h
    rw [x1.1] at x2
    simp only [htmlL]
    exact x1.trans w x2
theorem addResult_html : ∀ (v : V) (e e' : El), plainResult v = true → modelResult v = true → addResult e v = .ok e' →
    Extends w e e' (html w e.tag v)
  | .text s, e, e', _, hm, h => by simp [modelResult] at hm
  | .none, e, e', hp, _, h => by cases h; exact ⟨rfl, rfl, by simp [html]⟩
  | .value s, e, e', _, hm, h => by simp [modelResult] at hm
  | .elem tag attrs js hs kids, e, e', hp, hm, h => by
    simp only [plainResult] at hp
    simp only [modelResult] at hm
    simp only [addResult] at h
    by_cases ht : tag = ""
    · simp only [ht, ne_eq, not_true_eq_false, if_false] at h
      simp only [html, ht, if_true]
      exact addKids_html kids e e' hp hm h
    · simp only [ht, ne_eq, not_false_eq_true, if_true] at h
      obtain ⟨a, ha, h⟩ := bind_eq_ok h
      obtain ⟨c, hc, h⟩ := bind_eq_ok h
      cases h
      simp only [html, ht, if_false, ha]
      exact extends_elem w (addKids_html kids _ c hp hm hc)
  | .comp r, e, e', hp, hm, h => by
    simp only [plainResult] at hp
    simp only [modelResult] at hm
    simp only [html]
    exact addResult_html r e e' hp hm h
  | .bad, e, e', _, _, h => by cases h
end

/-! ## Text -/

theorem textOfL_append (ks ks' : List (El × String)) : textOfL (ks ++ ks') = textOfL ks ++ textOfL ks' := by
  induction ks with
  | nil => simp [textOfL]
  | cons k ks ih => obtain ⟨e, t⟩ := k; simp [textOfL, ih]

theorem textOf_addText (e : El) (s : String) : textOf (addText e s) = textOf e ++ s.toList := by
  cases e with
  | mk t a x k =>
    cases k with
    | nil => simp [addText, textOf, textOfL]
    | cons k ks =>
      have hl := List.dropLast_concat_getLast (l := k :: ks) (by simp)
      simp only [addText, textOf]
      rw [textOfL_append]
      conv => rhs; rw [← hl]
      rw [textOfL_append]
      simp [textOfL]

theorem textOf_append (e c : El) : textOf (append e c) = textOf e ++ textOf c := by
  cases e with
  | mk t a x k => simp [append, textOf, textOfL_append, textOfL]

mutual
theorem addChild_text : ∀ (v : V) (e e' : El), plainText v = true → addChild e v = .ok e' → textOf e' = textOf e ++ displayed v
  | .text s, e, e', _, h => by cases h; exact textOf_addText e s
  | .none, e, e', hp, _ => by simp [plainText] at hp
  | .value s, e, e', _, h => by cases h; exact textOf_addText e s
  | .elem tag attrs js hs kids, e, e', hp, h => by
    simp only [plainText] at hp
    simp only [addChild] at h
    simp only [displayed]
    by_cases ht : tag = ""
    · simp only [ht, ne_eq, not_true_eq_false, if_false] at h
      exact addKids_text kids e e' hp h
    · simp only [ht, ne_eq, not_false_eq_true, if_true] at h
      obtain ⟨a, ha, h⟩ := bind_eq_ok h
      obtain ⟨c, hc, h⟩ := bind_eq_ok h
      cases h
      rw [textOf_append, addKids_text kids _ c hp hc]
      simp [textOf, textOfL]
  | .comp r, e, e', hp, h => by
    simp only [plainText] at hp
    simp only [displayed]
    exact addResult_text r e e' hp h
  | .bad, e, e', _, h => by cases h
theorem addKids_text : ∀ (vs : List V) (e e' : El), plainTextL vs = true → addKids e vs = .ok e' → textOf e' = textOf e ++ displayedL vs
  | [], e, e', _, h => by cases h; simp [displayedL]
  | v :: vs, e, e', hp, h => by
    simp only [plainTextL, Bool.and_eq_true] at hp
    simp only [addKids] at h
    obtain ⟨e1, h1, h⟩ := bind_eq_ok h
    rw [addKids_text vs e1 e' hp.2 h, addChild_text v e e1 hp.1 h1]
    simp [displayedL]
theorem addResult_text : ∀ (v : V) (e e' : El), plainResult v = true → addResult e v = .ok e' → textOf e' = textOf e ++ displayed v
  | .text s, e, e', _, h => by cases h; rw [textOf_append]; simp [textOf, textOfL, displayed]
  | .none, e, e', _, h => by cases h; simp [displayed]
  | .value s, e, e', hp, h => by simp [plainResult] at hp
  | .elem tag attrs js hs kids, e, e', hp, h => by
    simp only [plainResult] at hp
    simp only [addResult] at h
    simp only [displayed]
    by_cases ht : tag = ""
    · simp only [ht, ne_eq, not_true_eq_false, if_false] at h
      exact addKids_text kids e e' hp h
    · simp only [ht, ne_eq, not_false_eq_true, if_true] at h
      obtain ⟨a, ha, h⟩ := bind_eq_ok h
      obtain ⟨c, hc, h⟩ := bind_eq_ok h
      cases h
      rw [textOf_append, addKids_text kids _ c hp hc]
      simp [textOf, textOfL]
  | .comp r, e, e', hp, h => by
    simp only [plainResult] at hp
    simp only [displayed]
    exact addResult_text r e e' hp h
  | .bad, e, e', _, h => by cases h
end

end Verif.Markup
