import Verif.Markup.Lemmas
import Verif.Markup.Names
/-! # Lemmas about reading an element tree -/
namespace Verif.Markup

mutual
/-- A model without its attributes. -/
def erase : V → V
  | .elem tag _ _ _ kids => .elem tag [] [] [] (eraseL kids)
  | .comp r => .comp (erase r)
  | v => v
def eraseL : List V → List V
  | [] => []
  | v :: vs => erase v :: eraseL vs
end

def textV (s : String) : List V := if s ≠ "" then [.text s] else []

mutual
/-- The model of an element tree, without attributes. -/
def plain : El → V
  | .mk tag _ text kids => .elem tag [] [] [] (textV text ++ plainL kids)
def plainL : List (El × String) → List V
  | [] => []
  | (e, tail) :: ks => plain e :: (textV tail ++ plainL ks)
end

theorem eraseL_append (a b : List V) : eraseL (a ++ b) = eraseL a ++ eraseL b := by
  induction a with
  | nil => rfl
  | cons v vs ih => simp [eraseL, ih]

theorem eraseL_textV (s : String) : eraseL (textV s) = textV s := by
  simp only [textV]; split <;> simp [eraseL, erase]

mutual
theorem parseOptions_erase : ∀ (v v' : V) (s : List AVal), parseOptions v = .ok (v', s) → erase v' = erase v
  | .elem tag attrs js hs kids, v', s, h => by
    rw [parseOptions.eq_def] at h
    simp only at h
    split at h
    · cases kids with
      | nil => cases h
      | cons k ks =>
        simp only at h
        obtain ⟨⟨k', s1⟩, h1, h⟩ := bind_eq_ok h
        obtain ⟨⟨ks', s2⟩, h2, h⟩ := bind_eq_ok h
        cases h
        simp only [erase, eraseL]
        rw [parseOptions_erase k k' s1 h1, parseOptionsL_erase ks ks' s2 h2]
    · obtain ⟨⟨ks', s2⟩, h2, h⟩ := bind_eq_ok h
      cases h
      simp only [erase]
      rw [parseOptionsL_erase kids ks' s2 h2]
  | .text _, v', s, h => by cases h; rfl
  | .none, v', s, h => by cases h; rfl
  | .value _, v', s, h => by cases h; rfl
  | .comp _, v', s, h => by cases h; rfl
  | .bad, v', s, h => by cases h; rfl
theorem parseOptionsL_erase : ∀ (vs vs' : List V) (s : List AVal), parseOptionsL vs = .ok (vs', s) → eraseL vs' = eraseL vs
  | [], vs', s, h => by cases h; rfl
  | v :: vs, vs', s, h => by
    simp only [parseOptionsL] at h
    obtain ⟨⟨k', s1⟩, h1, h⟩ := bind_eq_ok h
    obtain ⟨⟨ks', s2⟩, h2, h⟩ := bind_eq_ok h
    cases h
    simp only [eraseL]
    rw [parseOptions_erase v k' s1 h1, parseOptionsL_erase vs ks' s2 h2]
end

theorem construct_elem {tag : String} {attrs : List (String × String)} {kids : List V} {v : V}
    (h : construct tag attrs kids = .ok v) : ∃ at_ js hs, v = .elem tag at_ js hs kids := by
  simp only [construct] at h
  split at h
  · split at h
    · split at h <;> (cases h; exact ⟨_, _, _, rfl⟩)
    · cases h; exact ⟨_, _, _, rfl⟩
    · cases h
  · split at h
    · cases h
    · cases h; exact ⟨_, _, _, rfl⟩

theorem selectElement_erase {tag : String} {attrs attrs' : List (String × AVal)} {kids kids' : List V}
    (h : selectElement tag attrs kids = .ok (attrs', kids')) : eraseL kids' = eraseL kids := by
  simp only [selectElement] at h
  split at h
  · cases h; rfl
  · obtain ⟨⟨ks, sel⟩, h1, h⟩ := bind_eq_ok h
    have := parseOptionsL_erase _ _ _ h1
    cases sel with
    | nil => cases h; exact this
    | cons s ss => cases h; exact this

theorem transforms_erase {i : Bool} {tag : String} {attrs : List (String × AVal)} {js : List (String × String)} {hs : List String}
    {kids : List V} {v : V} (ht : tag ≠ "textarea") (h : requiredTransforms i (.elem tag attrs js hs kids) = .ok v) :
    erase v = .elem tag [] [] [] (eraseL kids) := by
  simp only [requiredTransforms] at h
  obtain ⟨⟨a, ks⟩, h1, h⟩ := bind_eq_ok h
  simp only [textarea, ht, false_and, if_false] at h
  cases h
  simp only [erase]
  rw [selectElement_erase h1]

mutual
theorem toVdom_plain (i : Bool) : ∀ (e : El) (v : V), allTags (· ≠ "textarea") e → toVdom i e = .ok v → erase v = plain e
  | .mk tag attrs text kids, v, ht, h => by
    simp only [toVdom] at h
    obtain ⟨vs, h1, h⟩ := bind_eq_ok h
    obtain ⟨el, h2, h⟩ := bind_eq_ok h
    obtain ⟨a, js, hs, rfl⟩ := construct_elem h2
    rw [transforms_erase ht.1 h, eraseL_append, toVdomL_plain i kids vs ht.2 h1]
    simp only [plain]
    rw [← eraseL_textV]; rfl
theorem toVdomL_plain (i : Bool) : ∀ (ks : List (El × String)) (vs : List V), allTagsL (· ≠ "textarea") ks → toVdomL i ks = .ok vs →
    eraseL vs = plainL ks
  | [], vs, _, h => by cases h; rfl
  | (e, tail) :: ks, vs, ht, h => by
    simp only [toVdomL] at h
    obtain ⟨v, h1, h⟩ := bind_eq_ok h
    obtain ⟨vs', h2, h⟩ := bind_eq_ok h
    cases h
    simp only [eraseL, plainL]
    rw [eraseL_append, toVdom_plain i e v ht.1 h1, toVdomL_plain i ks vs' ht.2 h2]
    rw [← eraseL_textV]; rfl
end

/-! ## Tokens -/

mutual
theorem tokV_erase : ∀ v, tokV (erase v) = tokV v
  | .elem tag _ _ _ kids => by simp only [erase, tokV]; rw [tokVL_erase kids]
  | .text _ => rfl
  | .none => rfl
  | .value _ => rfl
  | .comp _ => by simp [erase, tokV]
  | .bad => rfl
theorem tokVL_erase : ∀ vs, tokVL (eraseL vs) = tokVL vs
  | [] => rfl
  | v :: vs => by simp only [eraseL, tokVL]; rw [tokV_erase v, tokVL_erase vs]
end

theorem tokVL_append (a b : List V) : tokVL (a ++ b) = tokVL a ++ tokVL b := by
  induction a with
  | nil => rfl
  | cons v vs ih => simp [tokVL, ih]

theorem tokVL_textV (s : String) : tokVL (textV s) = textTok s := by
  simp only [textV, textTok]
  by_cases h : s = "" <;> simp [h, tokVL, tokV]

mutual
theorem tokV_plain : ∀ e, tokV (plain e) = tokE e
  | .mk tag _ text kids => by simp only [plain, tokV, tokE]; rw [tokVL_append, tokVL_textV, tokVL_plain kids]; simp
theorem tokVL_plain : ∀ ks, tokVL (plainL ks) = tokEL ks
  | [] => rfl
  | (e, tail) :: ks => by
    simp only [plainL, tokVL, tokEL]
    rw [tokVL_append, tokVL_textV, tokV_plain e, tokVL_plain ks]
    simp
end

/-! ## Back to an element tree -/

theorem shapeL_append (a b : List (El × String)) : shapeL (a ++ b) = shapeL a ++ shapeL b := by
  induction a with
  | nil => rfl
  | cons v vs ih => obtain ⟨e, t⟩ := v; simp [shapeL, ih]

theorem shape_addText (p : El) (s : String) : shape (addText p s) = addText (shape p) s := by
  cases p with
  | mk t a x ks =>
    cases hks : ks.reverse with
    | nil => simp at hks; subst hks; simp [addText, shape, shapeL]
    | cons l r =>
      have hl : ks = r.reverse ++ [l] := by rw [← List.reverse_reverse (as := ks), hks]; simp
      obtain ⟨e, tl⟩ := l
      have key : ∀ (t : String) (a : List (String × String)) (x : String) (ks : List (El × String)) (e : El) (tl s : String),
          addText (.mk t a x (ks ++ [(e, tl)])) s = .mk t a x (ks ++ [(e, tl ++ s)]) := by
        intro t a x ks e tl s
        cases h : ks ++ [(e, tl)] with
        | nil => simp at h
        | cons k ks' => simp only [addText, ← h]; simp
      rw [hl, key]
      simp only [shape]
      rw [shapeL_append, shapeL_append]
      simp only [shapeL]
      rw [key]

theorem shape_append (p c : El) : shape (append p c) = append (shape p) (shape c) := by
  cases p with
  | mk t a x ks => simp [append, shape, shapeL_append, shapeL]

mutual
theorem addChild_erase : ∀ (v : V) (p p' : El), addChild p v = .ok p' → addChild (shape p) (erase v) = .ok (shape p')
  | .text s, p, p', h => by cases h; simp only [erase, addChild]; rw [shape_addText]
  | .none, p, p', h => by cases h; simp only [erase, addChild]; rw [shape_addText]
  | .value s, p, p', h => by cases h; simp only [erase, addChild]; rw [shape_addText]
  | .elem tag attrs js hs kids, p, p', h => by
    simp only [addChild] at h
    simp only [erase, addChild]
    by_cases ht : tag = ""
    · simp only [ht, ne_eq, not_true_eq_false, if_false] at h ⊢
      exact addKids_erase kids p p' h
    · simp only [ht, ne_eq, not_false_eq_true, if_true] at h ⊢
      obtain ⟨a, ha, h⟩ := bind_eq_ok h
      obtain ⟨c, hc, h⟩ := bind_eq_ok h
      cases h
      have := addKids_erase kids _ c hc
      simp only [shape, shapeL] at this
      rw [show attrsToHtml [] = .ok [] from rfl]
      simp only [bind_ok, this, shape_append]
      rfl
  | .comp r, p, p', h => by
    simp only [erase, addChild] at h ⊢
    exact addResult_erase r p p' h
  | .bad, p, p', h => by cases h
theorem addKids_erase : ∀ (vs : List V) (p p' : El), addKids p vs = .ok p' → addKids (shape p) (eraseL vs) = .ok (shape p')
  | [], p, p', h => by cases h; rfl
  | v :: vs, p, p', h => by
    simp only [addKids] at h
    obtain ⟨p1, h1, h⟩ := bind_eq_ok h
    simp only [eraseL, addKids]
    rw [addChild_erase v p p1 h1]
    exact addKids_erase vs p1 p' h
theorem addResult_erase : ∀ (v : V) (p p' : El), addResult p v = .ok p' → addResult (shape p) (erase v) = .ok (shape p')
  | .text s, p, p', h => by cases h; simp only [erase, addResult]; rw [shape_append]; rfl
  | .none, p, p', h => by cases h; rfl
  | .value s, p, p', h => by cases h; simp only [erase, addResult]; rw [shape_append]; rfl
  | .elem tag attrs js hs kids, p, p', h => by
    simp only [addResult] at h
    simp only [erase, addResult]
    by_cases ht : tag = ""
    · simp only [ht, ne_eq, not_true_eq_false, if_false] at h ⊢
      exact addKids_erase kids p p' h
    · simp only [ht, ne_eq, not_false_eq_true, if_true] at h ⊢
      obtain ⟨a, ha, h⟩ := bind_eq_ok h
      obtain ⟨c, hc, h⟩ := bind_eq_ok h
      cases h
      have := addKids_erase kids _ c hc
      simp only [shape, shapeL] at this
      rw [show attrsToHtml [] = .ok [] from rfl]
      simp only [bind_ok, this, shape_append]
      rfl
  | .comp r, p, p', h => by
    simp only [erase, addResult] at h ⊢
    exact addResult_erase r p p' h
  | .bad, p, p', h => by cases h
end

theorem addText_snoc (t : String) (a : List (String × String)) (x : String) (ks : List (El × String)) (e : El) (tl s : String) :
    addText (.mk t a x (ks ++ [(e, tl)])) s = .mk t a x (ks ++ [(e, tl ++ s)]) := by
  cases h : ks ++ [(e, tl)] with
  | nil => simp at h
  | cons k ks' => simp only [addText, ← h]; simp

theorem addKids_append (p : El) (a b : List V) : addKids p (a ++ b) = (addKids p a >>= fun p => addKids p b) := by
  induction a generalizing p with
  | nil => rfl
  | cons v vs ih =>
    simp only [List.cons_append, addKids]
    cases addChild p v with
    | error e => rfl
    | ok p' => exact ih p'

mutual
theorem addChild_plain : ∀ (e p : El), allTags (· ≠ "") e → addChild p (plain e) = .ok (append p (shape e))
  | .mk tag attrs text kids, p, ht => by
    have h0 : tag ≠ "" := ht.1
    simp only [plain, addChild, h0, ne_eq, not_false_eq_true, if_true]
    rw [show attrsToHtml [] = .ok [] from rfl]
    simp only [bind_ok]
    rw [addKids_append]
    have : addKids (.mk tag [] "" []) (textV text) = .ok (.mk tag [] text []) := by
      simp only [textV]
      by_cases h : text = ""
      · simp [h, addKids]
      · simp [h, addKids, addChild, addText, bind_ok]
    rw [this]
    simp only [bind_ok]
    rw [addKids_plain kids tag [] text [] ht.2]
    simp only [bind_ok, shape]
    rfl
theorem addKids_plain : ∀ (ks : List (El × String)) (t : String) (a : List (String × String)) (x : String) (ks0 : List (El × String)),
    allTagsL (· ≠ "") ks → addKids (.mk t a x ks0) (plainL ks) = .ok (.mk t a x (ks0 ++ shapeL ks))
  | [], t, a, x, ks0, _ => by simp [plainL, addKids, shapeL]
  | (e, tail) :: ks, t, a, x, ks0, ht => by
    simp only [plainL, addKids]
    rw [addChild_plain e _ ht.1]
    simp only [bind_ok, append]
    rw [addKids_append]
    have : addKids (.mk t a x (ks0 ++ [(shape e, "")])) (textV tail) = .ok (.mk t a x (ks0 ++ [(shape e, tail)])) := by
      simp only [textV]
      by_cases h : tail = ""
      · simp [h, addKids]
      · simp [h, addKids, addChild, addText_snoc, bind_ok]
    rw [this]
    simp only [bind_ok]
    rw [addKids_plain ks t a x _ ht.2]
    simp [shapeL]
end

/-! ## No attribute is a function -/

theorem noFn_put {d : List (String × AVal)} {k : String} {v : AVal} (h : noFn d = true) (hv : v.notFn = true) : noFn (put d k v) = true := by
  induction d with
  | nil => simp [put, noFn, hv]
  | cons p d ih =>
    simp only [noFn, List.all_cons, Bool.and_eq_true] at h
    simp only [put]
    split
    · simp only [noFn, List.all_cons, hv, Bool.true_and]; exact h.2
    · simp only [noFn, List.all_cons, h.1, Bool.true_and]; exact ih h.2

theorem noFn_del {d : List (String × AVal)} {k : String} (h : noFn d = true) : noFn (del d k) = true := by
  simp only [noFn, del, List.all_eq_true] at h ⊢
  intro p hp
  exact h p (List.mem_filter.1 hp).1

theorem noFn_get {d : List (String × AVal)} {k : String} {v : AVal} (h : noFn d = true) (hv : get d k = some v) : v.notFn = true := by
  simp only [noFn, List.all_eq_true] at h
  exact h _ (get_mem hv)

theorem noFn_str (l : List (String × String)) : noFn (l.map (fun p => (p.1, AVal.str p.2))) = true := by
  simp [noFn, AVal.notFn]

theorem construct_noFn {tag : String} {attrs : List (String × String)} {kids : List V} {a : List (String × AVal)}
    {js : List (String × String)} {hs : List String} {kids' : List V} (h : construct tag attrs kids = .ok (.elem tag a js hs kids')) :
    noFn a = true := by
  simp only [construct] at h
  have h0 := noFn_str (attrs.filter (fun p => !isEventName p.1))
  split at h
  · split at h
    · split at h
      · rename_i k hk
        cases h
        refine noFn_put h0 ?_
        rcases Option.or_eq_some_iff.1 hk with hk | hk
        · exact noFn_get h0 hk
        · exact noFn_get h0 hk.2
      · cases h; exact h0
    · cases h
      refine noFn_put h0 ?_
      cases hk : get (List.map (fun p => (p.fst, AVal.str p.snd)) (List.filter (fun p => !isEventName p.fst) attrs)) "key" with
      | none => rfl
      | some v => exact noFn_get h0 hk
    · cases h
  · split at h
    · cases h
    · cases h; exact h0

theorem inferKey_noFn {tag : String} {a : List (String × AVal)} (h : noFn a = true) : noFn (inferKey tag a) = true := by
  simp only [inferKey]
  split
  · exact h
  · rename_i k _ hk
    split
    · refine noFn_put h ?_
      rcases Option.or_eq_some_iff.1 hk with hk | ⟨_, hk⟩
      · rcases Option.or_eq_some_iff.1 hk with hk | ⟨_, hk⟩
        · exact noFn_get h hk
        · exact noFn_get h hk
      · split at hk
        · exact noFn_get h hk
        · cases hk
    · exact h
  · exact h

theorem inputValue_noFn {tag : String} {a : List (String × AVal)} (h : noFn a = true) : noFn (inputValue tag a) = true := by
  simp only [inputValue]
  split
  · split
    · rename_i v hv
      exact noFn_put (noFn_del h) (noFn_get h hv)
    · exact h
  · exact h

theorem normalizeStyle_noFn {a : List (String × AVal)} (h : noFn a = true) : noFn (normalizeStyle a) = true := by
  simp only [normalizeStyle]
  split
  · exact noFn_put h rfl
  · exact h

theorem textarea_noFn {tag : String} {a : List (String × AVal)} {kids : List V} (h : noFn a = true) :
    noFn (textarea tag a kids).1 = true := by
  simp only [textarea]
  split
  · refine noFn_put (noFn_del h) ?_
    split
    · cases hk : get a "defaultValue" with
      | none => rfl
      | some v => exact noFn_get h hk
    · rfl
  · exact h

theorem asValue_notFn (v : V) : v.asValue.notFn = true := by cases v <;> rfl

mutual
theorem parseOptions_broken : ∀ (v v' : V) (s : List AVal), broken v = false → parseOptions v = .ok (v', s) →
    broken v' = false ∧ ∀ x ∈ s, AVal.notFn x = true
  | .elem tag attrs js hs kids, v', s, hb, h => by
    simp only [broken, Bool.or_eq_false_iff] at hb
    rw [parseOptions.eq_def] at h
    simp only at h
    split at h
    · rename_i htag
      have hn : noFn attrs = true := by
        have := hb.1
        rw [htag.1] at this
        simpa using this
      cases kids with
      | nil => cases h
      | cons k ks =>
        simp only [brokenL, Bool.or_eq_false_iff] at hb
        simp only at h
        obtain ⟨⟨k', s1⟩, h1, h⟩ := bind_eq_ok h
        obtain ⟨⟨ks', s2⟩, h2, h⟩ := bind_eq_ok h
        have i1 := parseOptions_broken k k' s1 hb.2.1 h1
        have i2 := parseOptionsL_broken ks ks' s2 hb.2.2 h2
        have hval : ((get attrs "value").getD k.asValue).notFn = true := by
          cases hv : get attrs "value" with
          | none => exact asValue_notFn k
          | some v => exact noFn_get hn hv
        have ha : noFn (if (get attrs "value").isNone = true then put attrs "value" ((get attrs "value").getD k.asValue) else attrs) = true := by
          split
          · exact noFn_put hn hval
          · exact hn
        generalize hav : (if (get attrs "value").isNone = true then put attrs "value" ((get attrs "value").getD k.asValue) else attrs) = av at ha h
        cases h
        refine ⟨?_, ?_⟩
        · simp only [broken, brokenL, Bool.or_eq_false_iff]
          refine ⟨?_, i1.1, i2.1⟩
          simp only [Bool.and_eq_false_iff, Bool.not_eq_false']
          right
          split
          · exact noFn_del ha
          · exact ha
        · intro x hx
          simp only [List.mem_append] at hx
          rcases hx with (hx | hx) | hx
          · by_cases hsel : (get av "selected").isSome = true
            · rw [if_pos hsel] at hx; simp at hx; rw [hx]; exact hval
            · rw [if_neg hsel] at hx; simp at hx
          · exact i1.2 x hx
          · exact i2.2 x hx
    · obtain ⟨⟨ks', s2⟩, h2, h⟩ := bind_eq_ok h
      cases h
      have i2 := parseOptionsL_broken kids ks' s2 hb.2 h2
      refine ⟨?_, i2.2⟩
      simp only [broken, Bool.or_eq_false_iff]
      exact ⟨hb.1, i2.1⟩
  | .text _, v', s, hb, h => by cases h; exact ⟨hb, by simp⟩
  | .none, v', s, hb, h => by cases h; exact ⟨hb, by simp⟩
  | .value _, v', s, hb, h => by cases h; exact ⟨hb, by simp⟩
  | .comp _, v', s, hb, h => by cases h; exact ⟨hb, by simp⟩
  | .bad, v', s, hb, h => by cases h; exact ⟨hb, by simp⟩
theorem parseOptionsL_broken : ∀ (vs vs' : List V) (s : List AVal), brokenL vs = false → parseOptionsL vs = .ok (vs', s) →
    brokenL vs' = false ∧ ∀ x ∈ s, AVal.notFn x = true
  | [], vs', s, hb, h => by cases h; exact ⟨rfl, by simp⟩
  | v :: vs, vs', s, hb, h => by
    simp only [brokenL, Bool.or_eq_false_iff] at hb
    simp only [parseOptionsL] at h
    obtain ⟨⟨k', s1⟩, h1, h⟩ := bind_eq_ok h
    obtain ⟨⟨ks', s2⟩, h2, h⟩ := bind_eq_ok h
    have i1 := parseOptions_broken v k' s1 hb.1 h1
    have i2 := parseOptionsL_broken vs ks' s2 hb.2 h2
    cases h
    refine ⟨by simp [brokenL, i1.1, i2.1], ?_⟩
    intro x hx
    simp only [List.mem_append] at hx
    exact hx.elim (i1.2 x) (i2.2 x)
end

theorem selectElement_broken {tag : String} {a a' : List (String × AVal)} {kids kids' : List V} (ha : noFn a = true) (hk : brokenL kids = false)
    (h : selectElement tag a kids = .ok (a', kids')) : noFn a' = true ∧ brokenL kids' = false := by
  simp only [selectElement] at h
  split at h
  · cases h; exact ⟨ha, hk⟩
  · obtain ⟨⟨ks, sel⟩, h1, h⟩ := bind_eq_ok h
    have i1 := parseOptionsL_broken _ _ _ hk h1
    have ha' : noFn (if (get a "multiple").isSome = true then put a "multiple" AVal.true else a) = true := by
      split
      · exact noFn_put ha rfl
      · exact ha
    cases sel with
    | nil => cases h; exact ⟨ha', i1.1⟩
    | cons s ss =>
      cases h
      refine ⟨noFn_put ha' ?_, i1.1⟩
      split
      · rfl
      · exact i1.2 s (by simp)

theorem transforms_broken {i : Bool} {tag : String} {a : List (String × AVal)} {js : List (String × String)} {hs : List String}
    {kids : List V} {v : V} (ha : noFn a = true) (hk : brokenL kids = false)
    (h : requiredTransforms i (.elem tag a js hs kids) = .ok v) : broken v = false := by
  simp only [requiredTransforms] at h
  obtain ⟨⟨a', ks⟩, h1, h⟩ := bind_eq_ok h
  have := selectElement_broken (normalizeStyle_noFn (inputValue_noFn (inferKey_noFn ha))) hk h1
  cases h
  simp only [broken, Bool.or_eq_false_iff]
  refine ⟨by rw [textarea_noFn this.1]; simp, ?_⟩
  simp only [textarea]
  split
  · rfl
  · exact this.2

theorem brokenL_append (a b : List V) : brokenL (a ++ b) = (brokenL a || brokenL b) := by
  induction a with
  | nil => simp [brokenL]
  | cons v vs ih => simp [brokenL, ih, Bool.or_assoc]

theorem brokenL_text (s : String) : brokenL (if s ≠ "" then [.text s] else []) = false := by
  split <;> simp [brokenL, broken]

mutual
theorem toVdom_broken (i : Bool) : ∀ (e : El) (v : V), toVdom i e = .ok v → broken v = false
  | .mk tag attrs text kids, v, h => by
    simp only [toVdom] at h
    obtain ⟨vs, h1, h⟩ := bind_eq_ok h
    obtain ⟨el, h2, h⟩ := bind_eq_ok h
    obtain ⟨a, js, hs, rfl⟩ := construct_elem h2
    refine transforms_broken (construct_noFn h2) ?_ h
    rw [brokenL_append, brokenL_text, toVdomL_broken i kids vs h1]; rfl
theorem toVdomL_broken (i : Bool) : ∀ (ks : List (El × String)) (vs : List V), toVdomL i ks = .ok vs → brokenL vs = false
  | [], vs, h => by cases h; rfl
  | (e, tail) :: ks, vs, h => by
    simp only [toVdomL] at h
    obtain ⟨v, h1, h⟩ := bind_eq_ok h
    obtain ⟨vs', h2, h⟩ := bind_eq_ok h
    cases h
    simp only [brokenL]
    rw [toVdom_broken i e v h1, brokenL_append, brokenL_text, toVdomL_broken i ks vs' h2]; rfl
end

/-! ## Which trees can be read -/

mutual
/-- Scripts hold only text, elements without content are empty, and options are not empty. -/
def readable : El → Prop
  | .mk tag _ text kids =>
    (tag = "script" → kids = []) ∧ (tag ∈ noChildren → text = "" ∧ kids = []) ∧
      (tag = "option" → text ≠ "" ∨ kids ≠ []) ∧ readableL kids
def readableL : List (El × String) → Prop
  | [] => True
  | (e, _) :: ks => readable e ∧ readableL ks
end

mutual
/-- Every option has a child. -/
def full : V → Prop
  | .elem tag _ _ _ kids => (tag = "option" → kids ≠ []) ∧ fullL kids
  | _ => True
def fullL : List V → Prop
  | [] => True
  | v :: vs => full v ∧ fullL vs
end

mutual
theorem parseOptions_full : ∀ v, full v → ∃ r, parseOptions v = .ok r ∧ full r.1
  | .elem tag attrs js hs kids, h => by
    rw [parseOptions.eq_def]
    simp only
    split
    · rename_i htag
      cases kids with
      | nil => exact absurd rfl (h.1 htag.1)
      | cons k ks =>
        obtain ⟨r1, h1, f1⟩ := parseOptions_full k h.2.1
        obtain ⟨r2, h2, f2⟩ := parseOptionsL_full ks h.2.2
        refine ⟨_, by simp only [h1, h2, bind_ok]; rfl, ?_⟩
        exact ⟨by simp, f1, f2⟩
    · obtain ⟨r2, h2, f2⟩ := parseOptionsL_full kids h.2
      refine ⟨_, by simp only [h2, bind_ok]; rfl, ?_⟩
      refine ⟨fun ht => ?_, f2⟩
      have := parseOptionsL_erase _ _ _ h2
      intro he
      rw [he] at this
      cases kids with
      | nil => exact h.1 ht rfl
      | cons k ks => simp [eraseL] at this
  | .text _, _ => ⟨_, rfl, trivial⟩
  | .none, _ => ⟨_, rfl, trivial⟩
  | .value _, _ => ⟨_, rfl, trivial⟩
  | .comp _, _ => ⟨_, rfl, trivial⟩
  | .bad, _ => ⟨_, rfl, trivial⟩
theorem parseOptionsL_full : ∀ vs, fullL vs → ∃ r, parseOptionsL vs = .ok r ∧ fullL r.1
  | [], _ => ⟨_, rfl, trivial⟩
  | v :: vs, h => by
    obtain ⟨r1, h1, f1⟩ := parseOptions_full v h.1
    obtain ⟨r2, h2, f2⟩ := parseOptionsL_full vs h.2
    exact ⟨(r1.1 :: r2.1, r1.2 ++ r2.2), by simp only [parseOptionsL, h1, h2, bind_ok]; rfl, f1, f2⟩
end

theorem fullL_append {a b : List V} (ha : fullL a) (hb : fullL b) : fullL (a ++ b) := by
  induction a with
  | nil => exact hb
  | cons v vs ih => exact ⟨ha.1, ih ha.2⟩

theorem fullL_text (s : String) : fullL (if s ≠ "" then [.text s] else []) := by
  split <;> simp [fullL, full]

theorem construct_ok {tag : String} {attrs : List (String × String)} {kids : List V}
    (h1 : tag = "script" → kids = [] ∨ ∃ s, kids = [.text s]) (h2 : tag ∈ noChildren → kids = []) :
    ∃ a js hs, construct tag attrs kids = .ok (.elem tag a js hs kids) := by
  simp only [construct]
  by_cases hs : tag = "script"
  · rw [if_pos hs]
    rcases h1 hs with rfl | ⟨s, rfl⟩
    · simp only
      split <;> exact ⟨_, _, _, rfl⟩
    · exact ⟨_, _, _, rfl⟩
  · rw [if_neg hs]
    have : (noChildren.contains tag && !kids.isEmpty) = false := by
      cases hc : noChildren.contains tag with
      | false => rfl
      | true => rw [h2 (by simpa using hc)]; rfl
    rw [this]
    exact ⟨_, _, _, rfl⟩

theorem select_full {tag : String} {a : List (String × AVal)} {kids : List V} (hf : fullL kids) :
    ∃ a' kids', selectElement tag a kids = .ok (a', kids') ∧ fullL kids' ∧ (kids ≠ [] → kids' ≠ []) := by
  simp only [selectElement]
  split
  · exact ⟨_, _, rfl, hf, id⟩
  · obtain ⟨⟨ks, sel⟩, h1, f1⟩ := parseOptionsL_full kids hf
    have hne : kids ≠ [] → ks ≠ [] := by
      have := parseOptionsL_erase _ _ _ h1
      intro hk he
      rw [he] at this
      cases kids with
      | nil => exact hk rfl
      | cons k ks => simp [eraseL] at this
    rw [h1]
    cases sel with
    | nil => exact ⟨_, _, rfl, f1, hne⟩
    | cons s ss => exact ⟨_, _, rfl, f1, hne⟩

theorem transforms_full {i : Bool} {tag : String} {a : List (String × AVal)} {js : List (String × String)} {hs : List String}
    {kids : List V} (ho : tag = "option" → kids ≠ []) (hf : fullL kids) :
    ∃ v, requiredTransforms i (.elem tag a js hs kids) = .ok v ∧ full v := by
  simp only [requiredTransforms]
  obtain ⟨a', ks, h1, f1, hne⟩ := select_full (tag := tag) (a := normalizeStyle (inputValue tag (inferKey tag a))) hf
  refine ⟨_, by rw [h1]; rfl, ?_⟩
  simp only [textarea]
  split
  · rename_i ht
    refine ⟨fun h => ?_, trivial⟩
    rw [h] at ht; exact absurd ht.1 (by decide)
  · exact ⟨fun h => hne (ho h), f1⟩

mutual
theorem toVdom_full (i : Bool) : ∀ e, readable e → ∃ v, toVdom i e = .ok v ∧ full v
  | .mk tag attrs text kids, h => by
    obtain ⟨hs, hn, ho, hk⟩ := h
    obtain ⟨vs, h1, f1, l1⟩ := toVdomL_full i kids hk
    simp only [toVdom, h1, bind_ok]
    obtain ⟨a, js, hs', h2⟩ := construct_ok (tag := tag) (attrs := attributesToReact attrs)
      (kids := (if text ≠ "" then [.text text] else []) ++ vs)
      (fun ht => by
        rw [l1.2 (hs ht)]
        split
        · exact .inr ⟨_, rfl⟩
        · exact .inl rfl)
      (fun ht => by rw [l1.2 (hn ht).2, (hn ht).1]; rfl)
    rw [h2]
    refine transforms_full (fun ht => ?_) (fullL_append (fullL_text text) f1)
    rcases ho ht with ht | ht
    · rw [if_pos ht]; simp
    · simp [l1.1 ht]
theorem toVdomL_full (i : Bool) : ∀ ks, readableL ks → ∃ vs, toVdomL i ks = .ok vs ∧ fullL vs ∧ ((ks ≠ [] → vs ≠ []) ∧ (ks = [] → vs = []))
  | [], _ => ⟨[], rfl, trivial, by simp, by simp⟩
  | (e, tail) :: ks, h => by
    obtain ⟨v, h1, f1⟩ := toVdom_full i e h.1
    obtain ⟨vs, h2, f2, _⟩ := toVdomL_full i ks h.2
    exact ⟨v :: ((if tail ≠ "" then [.text tail] else []) ++ vs), by simp only [toVdomL, h1, h2, bind_ok]; rfl,
      ⟨f1, fullL_append (fullL_text tail) f2⟩, by simp, by simp⟩
end

/-! ## Style strings -/

theorem cut_eq {n v : List Char} (h : ':' ∉ n) : cut (n ++ ':' :: v) = some (n, v) := by
  have h1 : (n ++ ':' :: v).contains ':' = true := by simp
  have h2 : (n ++ ':' :: v).takeWhile (· ≠ ':') = n := by
    rw [List.takeWhile_append_of_pos (by intro c hc; simp; rintro rfl; exact h hc)]
    simp
  have h3 : (n ++ ':' :: v).dropWhile (· ≠ ':') = ':' :: v := by
    rw [List.dropWhile_append_of_pos (by intro c hc; simp; rintro rfl; exact h hc)]
    simp
  simp only [cut, h1, if_true, h2, h3]
  rfl

theorem intercalate_joinWith (c : Char) (l : List (List Char)) :
    String.intercalate (String.singleton c) (l.map String.ofList) = String.ofList (joinWith c l) := by
  induction l with
  | nil => rfl
  | cons p ps ih =>
    cases ps with
    | nil => simp [joinWith]
    | cons q qs =>
      rw [List.map_cons, String.intercalate_cons_of_ne_nil (by simp), ih, joinWith_cons c p (ps := q :: qs) (by simp)]
      apply String.toList_inj.1
      simp [String.toList_append]

/-- Style declarations as they are written: `name:value;…`. -/
def styleText (ds : List (List Char × List Char)) : List Char := joinWith ';' (ds.map (fun d => d.1 ++ ':' :: d.2))

theorem parseStyle_styleText {ds : List (List Char × List Char)} (hne : ds ≠ [])
    (hname : ∀ d ∈ ds, styleToHtml (kebabToCamel d.1) = d.1) (hd : (ds.map (·.1)).Nodup)
    (hn : ∀ d ∈ ds, strip d.1 = d.1 ∧ ':' ∉ d.1 ∧ ';' ∉ d.1) (hv : ∀ d ∈ ds, strip d.2 = d.2 ∧ ';' ∉ d.2) :
    parseStyle (styleText ds) = ds.map (fun d => (String.ofList (kebabToCamel d.1), String.ofList d.2)) := by
  have hs : splitOn ';' (styleText ds) = ds.map (fun d => d.1 ++ ':' :: d.2) := by
    refine splitOn_joinWith _ _ (by simpa using hne) ?_
    intro p hp
    obtain ⟨d, hd, rfl⟩ := List.mem_map.1 hp
    simp [(hn d hd).2.2, (hv d hd).2]
  have hc : (ds.map (fun d => d.1 ++ ':' :: d.2)).filterMap cut = ds := by
    clear hs hne hname hd
    induction ds with
    | nil => rfl
    | cons d ds ih =>
      rw [List.map_cons, List.filterMap_cons, cut_eq (hn d (by simp)).2.1]
      simp only
      rw [ih (fun x hx => hn x (by simp [hx])) (fun x hx => hv x (by simp [hx]))]
  have hm : ds.map (fun p => (String.ofList (kebabToCamel (strip p.1)), String.ofList (strip p.2))) =
      ds.map (fun d => (String.ofList (kebabToCamel d.1), String.ofList d.2)) := by
    apply List.map_congr_left
    intro d hd
    rw [(hn d hd).1, (hv d hd).1]
  rw [parseStyle, hs, hc, hm, ofPairs_nodup]
  rw [List.map_map]
  have : ∀ (ds : List (List Char × List Char)), (∀ d ∈ ds, styleToHtml (kebabToCamel d.1) = d.1) → (ds.map (·.1)).Nodup →
      (ds.map ((fun x : String × String => x.1) ∘ fun d => (String.ofList (kebabToCamel d.1), String.ofList d.2))).Nodup := by
    intro ds
    induction ds with
    | nil => simp
    | cons d ds ih =>
      intro hname hd
      simp only [List.map_cons, List.nodup_cons] at hd ⊢
      refine ⟨?_, ih (fun x hx => hname x (by simp [hx])) hd.2⟩
      intro hm
      obtain ⟨e, he, hk⟩ := List.mem_map.1 hm
      simp only [Function.comp_apply, String.ofList_inj] at hk
      refine hd.1 (List.mem_map.2 ⟨e, he, ?_⟩)
      rw [← hname e (by simp [he]), hk, hname d (by simp)]
  exact this ds hname hd

end Verif.Markup
