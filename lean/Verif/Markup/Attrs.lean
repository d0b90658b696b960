import Verif.Markup.Lemmas
import Verif.Markup.AttrsSpec
/-! # What becomes of attributes when HTML is read -/
namespace Verif.Markup

section dict
variable {α : Type}

theorem get_nil (k : String) : get ([] : List (String × α)) k = none := rfl

theorem get_cons (p : String × α) (d : List (String × α)) (k : String) : get (p :: d) k = if p.1 = k then some p.2 else get d k := by
  by_cases h : p.1 = k
  · simp [get, h]
  · simp [get, h]

theorem get_put (d : List (String × α)) (k : String) (v : α) (n : String) : get (put d k v) n = if k = n then some v else get d n := by
  induction d with
  | nil => simp [put, get_cons, get_nil]
  | cons p d ih =>
    simp only [put]
    by_cases h : p.1 = k
    · simp only [h, beq_self_eq_true, if_true, get_cons]
      split <;> rfl
    · simp only [beq_eq_false_iff_ne.2 h]
      by_cases hn : k = n
      · subst hn; simp [h, get_cons, ih]
      · simp [hn, get_cons, ih]

theorem get_del (d : List (String × α)) (k n : String) : get (del d k) n = if k = n then none else get d n := by
  induction d with
  | nil => simp [del, get_nil]
  | cons p d ih =>
    simp only [del] at ih ⊢
    by_cases h : p.1 = k
    · simp only [List.filter_cons, h, beq_self_eq_true, Bool.not_true, Bool.false_eq_true, if_false, ih, get_cons]
      split <;> rfl
    · simp only [List.filter_cons, beq_eq_false_iff_ne.2 h, Bool.not_false, if_true, get_cons, ih]
      by_cases hn : k = n
      · subst hn; simp [h]
      · simp [hn]

theorem get_strs (d : List (String × String)) (n : String) :
    get ((d.filter (fun p => !isEventName p.1)).map (fun p => (p.1, AVal.str p.2))) n =
      if isEventName n then none else (get d n).map .str := by
  induction d with
  | nil => simp [get_nil]
  | cons p d ih =>
    by_cases h : isEventName p.1 = true
    · simp only [List.filter_cons, h, Bool.not_true, Bool.false_eq_true, if_false, ih, get_cons]
      by_cases hn : p.1 = n
      · subst hn; simp [h]
      · simp [hn]
    · have h : isEventName p.1 = false := by simpa using h
      simp only [List.filter_cons, h, Bool.not_false, if_true, List.map_cons, get_cons, ih]
      by_cases hn : p.1 = n
      · subst hn; simp [h]
      · simp [hn]

theorem get_ofPairs_foldl (ps d : List (String × α)) (n : String) :
    get (ps.foldl (fun d p => put d p.1 p.2) d) n = (get ps.reverse n).or (get d n) := by
  induction ps generalizing d with
  | nil => simp [get_nil]
  | cons p ps ih =>
    rw [List.foldl_cons, ih, get_put, List.reverse_cons]
    have : get (ps.reverse ++ [p]) n = (get ps.reverse n).or (if p.1 = n then some p.2 else none) := by
      generalize ps.reverse = l
      induction l with
      | nil => simp [get_cons, get_nil]
      | cons q l ih => simp only [List.cons_append, get_cons, ih]; split <;> simp
    rw [this, Option.or_assoc]
    split <;> simp

end dict

theorem get_react (attrs : List (String × String)) (n : String) : get (attributesToReact attrs) n = prop attrs n := by
  rw [attributesToReact, ofPairs, get_ofPairs_foldl, get_nil, Option.or_none, ← List.map_reverse]
  simp only [prop, get]
  generalize attrs.reverse = l
  induction l with
  | nil => rfl
  | cons p l ih =>
    simp only [List.map_cons, List.find?_cons]
    split
    · rfl
    · exact ih

theorem construct_get {tag : String} {attrs : List (String × String)} {kids : List V} {v : V} (h : construct tag attrs kids = .ok v) :
    ∃ as, v = .elem tag as (attrs.filter (fun p => isEventName p.1)) [] kids ∧
      (∀ n, n ≠ "key" → get as n = if isEventName n then none else (get attrs n).map .str) ∧
      get as "key" = (((get attrs "key").or (if tag = "script" then scriptKey (get attrs "src") kids else none)).map .str) := by
  have hk : isEventName "key" = false := by decide +kernel
  have hs : isEventName "src" = false := by decide +kernel
  simp only [construct] at h
  split at h
  · rename_i htag
    split at h
    · split at h
      · rename_i k hkey
        cases h
        refine ⟨_, rfl, fun n hn => ?_, ?_⟩
        · rw [get_put, if_neg (Ne.symm hn), get_strs]
        · rw [get_put, if_pos rfl, ← hkey]
          simp only [get_strs, hk, hs, htag, if_true, Bool.false_eq_true, if_false]
          cases get attrs "key" <;> simp [scriptKey]
      · rename_i hkey
        cases h
        refine ⟨_, rfl, fun n hn => get_strs _ _, ?_⟩
        simp only [get_strs, hk, hs, Bool.false_eq_true, if_false] at hkey
        simp only [get_strs, hk, htag, if_true, Bool.false_eq_true, if_false]
        cases h1 : get attrs "key" <;> simp [h1] at hkey ⊢
        simp [scriptKey, hkey]
    · rename_i s
      cases h
      refine ⟨_, rfl, fun n hn => ?_, ?_⟩
      · rw [get_put, if_neg (Ne.symm hn), get_strs]
      · rw [get_put, if_pos rfl]
        simp only [get_strs, hk, htag, if_true, Bool.false_eq_true, if_false]
        cases get attrs "key" <;> simp [scriptKey]
    · cases h
  · rename_i htag
    split at h
    · cases h
    · cases h
      refine ⟨_, rfl, fun n _ => get_strs _ _, ?_⟩
      simp [get_strs, hk, htag]

theorem inferKey_get (tag : String) (as : List (String × AVal)) (n : String) (hn : n ≠ "key") : get (inferKey tag as) n = get as n := by
  simp only [inferKey]
  split
  · rfl
  · split
    · rw [get_put, if_neg (Ne.symm hn)]
    · rfl
  · rfl

theorem inputValue_get (tag : String) (as : List (String × AVal)) (n : String)
    (hn : tag = "input" → n ≠ "value" ∧ n ≠ "defaultValue") : get (inputValue tag as) n = get as n := by
  simp only [inputValue]
  split
  · rename_i ht
    split
    · rw [get_put, if_neg (Ne.symm (hn ht).2), get_del, if_neg (Ne.symm (hn ht).1)]
    · rfl
  · rfl

theorem normalizeStyle_get (as : List (String × AVal)) (n : String) (hn : n ≠ "style") : get (normalizeStyle as) n = get as n := by
  simp only [normalizeStyle]
  split
  · rw [get_put, if_neg (Ne.symm hn)]
  · rfl

theorem select_get {tag : String} {as as' : List (String × AVal)} {kids kids' : List V} (h : selectElement tag as kids = .ok (as', kids'))
    (n : String) (hn : tag = "select" → n ≠ "multiple" ∧ n ≠ "defaultValue") : get as' n = get as n := by
  simp only [selectElement] at h
  split at h
  · cases h; rfl
  · rename_i hc
    have ht : tag = "select" := Classical.byContradiction fun h0 => hc (.inl h0)
    obtain ⟨r, hr, h⟩ := bind_eq_ok h
    have hn := hn ht
    have key : ∀ b : Bool, get (if b = true then put as "multiple" AVal.true else as) n = get as n := by
      intro b; cases b
      · rfl
      · rw [if_pos rfl, get_put, if_neg (Ne.symm hn.1)]
    split at h
    · cases h; exact key _
    · cases h
      rw [get_put, if_neg (Ne.symm hn.2)]; exact key _

theorem textarea_get (tag : String) (as : List (String × AVal)) (kids : List V) (n : String)
    (hn : tag = "textarea" → n ≠ "defaultValue") : get (textarea tag as kids).1 n = get as n := by
  simp only [textarea]
  split
  · rename_i h
    simp only [get_put, if_neg (Ne.symm (hn h.1)), get_del]
  · rfl

/-- What `toVdom` does, step by step. -/
theorem toVdom_steps {i : Bool} {tag : String} {attrs : List (String × String)} {text : String} {kids : List (El × String)} {v : V}
    (h : toVdom i (.mk tag attrs text kids) = .ok v) :
    ∃ cs as0 as ks, toVdomL i kids = .ok cs ∧
      construct tag (attributesToReact attrs) ((if text ≠ "" then [.text text] else []) ++ cs) =
        .ok (.elem tag as0 ((attributesToReact attrs).filter (fun p => isEventName p.1)) [] ((if text ≠ "" then [.text text] else []) ++ cs)) ∧
      (∀ n, n ≠ "key" → get as0 n = if isEventName n then none else (prop attrs n).map .str) ∧
      get as0 "key" = (((prop attrs "key").or (if tag = "script" then scriptKey (prop attrs "src")
        ((if text ≠ "" then [V.text text] else []) ++ cs) else none)).map .str) ∧
      selectElement tag (normalizeStyle (inputValue tag (inferKey tag as0))) ((if text ≠ "" then [.text text] else []) ++ cs) = .ok (as, ks) ∧
      v = .elem tag (textarea tag as ks).1 ((attributesToReact attrs).filter (fun p => isEventName p.1))
        (if tag = "a" && i then ["onClick"] else []) (textarea tag as ks).2 := by
  rw [toVdom] at h
  obtain ⟨cs, hcs, h⟩ := bind_eq_ok h
  obtain ⟨el, hel, h⟩ := bind_eq_ok h
  obtain ⟨as0, rfl, h1, h2⟩ := construct_get hel
  simp only [get_react] at h1 h2
  simp only [requiredTransforms] at h
  obtain ⟨⟨as, ks⟩, hs, h⟩ := bind_eq_ok h
  refine ⟨cs, as0, as, ks, hcs, hel, h1, h2, hs, ?_⟩
  simp only [List.nil_append] at h
  cases h
  rfl

/-! ## Options -/

theorem select_spec {as as' : List (String × AVal)} {kids kids' : List V} (h : selectElement "select" as kids = .ok (as', kids')) :
    (kids = [] ∧ kids' = [] ∧ as' = as) ∨
    (kids ≠ [] ∧ ∃ sel, parseOptionsL kids = .ok (kids', sel) ∧ get as' "multiple" = (get as "multiple").map (fun _ => AVal.true) ∧
      get as' "defaultValue" = match sel with
        | [] => get as "defaultValue"
        | s :: _ => some (if (get as "multiple").isSome then .many sel else s)) := by
  by_cases hk : kids = []
  · subst hk
    simp only [selectElement, or_true, if_true] at h
    cases h
    exact .inl ⟨rfl, rfl, rfl⟩
  · simp only [selectElement, ne_eq, not_true_eq_false, hk, or_self, if_false] at h
    obtain ⟨⟨ks, sel⟩, h1, h⟩ := bind_eq_ok h
    have hm : get (if (get as "multiple").isSome = true then put as "multiple" AVal.true else as) "multiple" =
        (get as "multiple").map (fun _ => AVal.true) := by
      cases hx : get as "multiple" with
      | none => simpa using hx
      | some x => simp [get_put]
    have hd : get (if (get as "multiple").isSome = true then put as "multiple" AVal.true else as) "defaultValue" = get as "defaultValue" := by
      split
      · rw [get_put, if_neg (by decide)]
      · rfl
    refine .inr ⟨hk, sel, ?_⟩
    cases sel with
    | nil =>
      cases h
      exact ⟨h1, hm, hd⟩
    | cons s ss =>
      cases h
      refine ⟨h1, ?_, ?_⟩
      · rw [get_put, if_neg (by decide), hm]
      · rw [get_put, if_pos rfl]

theorem first_asValue (k : V) : k.asValue = match k with | .text s => AVal.str s | _ => AVal.other "child" := by
  cases k <;> rfl

mutual
theorem parseOptions_settled : ∀ (v v' : V) (s : List AVal), parseOptions v = .ok (v', s) → Settled v v'
  | .elem tag attrs js hs kids, v', s, h => by
    rw [parseOptions.eq_def] at h
    simp only at h
    split at h
    · rename_i hc
      cases kids with
      | nil => cases h
      | cons k ks =>
        simp only at h
        obtain ⟨⟨k', s1⟩, h1, h⟩ := bind_eq_ok h
        obtain ⟨⟨ks', s2⟩, h2, h⟩ := bind_eq_ok h
        have hk := parseOptions_settled k k' s1 h1
        have hks := parseOptionsL_settled ks ks' s2 h2
        cases h
        simp only [Settled, SettledL]
        refine ⟨trivial, trivial, trivial, ⟨hk, hks⟩, ?_⟩
        rw [if_pos hc]
        have e1 : ∀ n, get (if (get attrs "value").isNone = true then put attrs "value" ((get attrs "value").getD k.asValue) else attrs) n =
            if n = "value" then some ((get attrs "value").getD k.asValue) else get attrs n := by
          intro n
          cases hv : get attrs "value" with
          | none =>
            simp only [Option.isNone_none, if_true, Option.getD_none, get_put]
            by_cases hn : n = "value"
            · simp [hn]
            · simp [hn, Ne.symm hn]
          | some x =>
            by_cases hn : n = "value"
            · subst hn; simp [hv]
            · simp [hn]
        have e2 : ∀ d : List (String × AVal), ∀ n, n ≠ "selected" → get (if (get d "selected").isSome = true then
            (del d "selected", [(get attrs "value").getD k.asValue]) else (d, [])).1 n = get d n := by
          intro d n hn; split
          · rw [get_del, if_neg (Ne.symm hn)]
          · rfl
        have e3 : ∀ d : List (String × AVal), get (if (get d "selected").isSome = true then
            (del d "selected", [(get attrs "value").getD k.asValue]) else (d, [])).1 "selected" = none := by
          intro d; split
          · rw [get_del, if_pos rfl]
          · rename_i h0; simpa using h0
        refine ⟨?_, ?_, fun n hn1 hn2 => ?_⟩
        · exact e3 _
        · rw [e2 _ _ (by decide), e1, if_pos rfl, first_asValue]
          cases k <;> rfl
        · rw [e2 _ _ hn2, e1, if_neg hn1]
    · rename_i hc
      obtain ⟨⟨ks', s2⟩, h2, h⟩ := bind_eq_ok h
      have hks := parseOptionsL_settled kids ks' s2 h2
      cases h
      simp only [Settled]
      exact ⟨trivial, trivial, trivial, hks, by rw [if_neg hc]; trivial⟩
  | .text _, v', s, h => by cases h; rfl
  | .none, v', s, h => by cases h; rfl
  | .value _, v', s, h => by cases h; rfl
  | .comp _, v', s, h => by cases h; rfl
  | .bad, v', s, h => by cases h; rfl
theorem parseOptionsL_settled : ∀ (vs vs' : List V) (s : List AVal), parseOptionsL vs = .ok (vs', s) → SettledL vs vs'
  | [], vs', s, h => by cases h; trivial
  | v :: vs, vs', s, h => by
    simp only [parseOptionsL] at h
    obtain ⟨⟨k', s1⟩, h1, h⟩ := bind_eq_ok h
    obtain ⟨⟨ks', s2⟩, h2, h⟩ := bind_eq_ok h
    have a := parseOptions_settled v k' s1 h1
    have b := parseOptionsL_settled vs ks' s2 h2
    cases h
    exact ⟨a, b⟩
end

mutual
/-- No option in the model is selected. -/
def Unselected : V → Prop
  | .elem tag attrs _ _ kids => (tag = "option" → get attrs "selected" = Option.none) ∧ UnselectedL kids
  | _ => True
def UnselectedL : List V → Prop
  | [] => True
  | v :: vs => Unselected v ∧ UnselectedL vs
end

mutual
theorem settled_unselected : ∀ (v v' : V), Settled v v' → Unselected v'
  | .elem tag attrs js hs kids, v', h => by
    cases v' with
    | elem tag' attrs' js' hs' kids' =>
      simp only [Settled] at h
      obtain ⟨rfl, rfl, rfl, h1, h2⟩ := h
      refine ⟨fun ht => ?_, settled_unselectedL kids kids' h1⟩
      by_cases hc : attrs = []
      · rw [if_neg (by simp [hc])] at h2; rw [h2, hc]; rfl
      · rw [if_pos ⟨ht, hc⟩] at h2; exact h2.1
    | _ => simp [Settled] at h
  | .text _, v', h => by simp only [Settled] at h; subst h; trivial
  | .none, v', h => by simp only [Settled] at h; subst h; trivial
  | .value _, v', h => by simp only [Settled] at h; subst h; trivial
  | .comp _, v', h => by simp only [Settled] at h; subst h; trivial
  | .bad, v', h => by simp only [Settled] at h; subst h; trivial
theorem settled_unselectedL : ∀ (vs vs' : List V), SettledL vs vs' → UnselectedL vs'
  | [], vs', h => by
    cases vs' with
    | nil => trivial
    | cons => simp [SettledL] at h
  | v :: vs, vs', h => by
    cases vs' with
    | nil => simp [SettledL] at h
    | cons v' vs' => exact ⟨settled_unselected v v' h.1, settled_unselectedL vs vs' h.2⟩
end

mutual
theorem unselected_none : ∀ (v v' : V) (s : List AVal), Unselected v → parseOptions v = .ok (v', s) → s = []
  | .elem tag attrs js hs kids, v', s, hu, h => by
    rw [parseOptions.eq_def] at h
    simp only at h
    split at h
    · rename_i hc
      cases kids with
      | nil => cases h
      | cons k ks =>
        simp only at h
        obtain ⟨⟨k', s1⟩, h1, h⟩ := bind_eq_ok h
        obtain ⟨⟨ks', s2⟩, h2, h⟩ := bind_eq_ok h
        have a := unselected_none k k' s1 hu.2.1 h1
        have b := unselectedL_none ks ks' s2 hu.2.2 h2
        subst a b
        have hsel : get (if (get attrs "value").isNone = true then put attrs "value" ((get attrs "value").getD k.asValue) else attrs) "selected" = none := by
          split
          · rw [get_put, if_neg (by decide)]; exact hu.1 hc.1
          · exact hu.1 hc.1
        rw [hsel] at h
        cases h
        rfl
    · obtain ⟨⟨ks', s2⟩, h2, h⟩ := bind_eq_ok h
      cases h
      exact unselectedL_none kids ks' s2 hu.2 h2
  | .text _, v', s, _, h => by cases h; rfl
  | .none, v', s, _, h => by cases h; rfl
  | .value _, v', s, _, h => by cases h; rfl
  | .comp _, v', s, _, h => by cases h; rfl
  | .bad, v', s, _, h => by cases h; rfl
theorem unselectedL_none : ∀ (vs vs' : List V) (s : List AVal), UnselectedL vs → parseOptionsL vs = .ok (vs', s) → s = []
  | [], vs', s, _, h => by cases h; rfl
  | v :: vs, vs', s, hu, h => by
    simp only [parseOptionsL] at h
    obtain ⟨⟨k', s1⟩, h1, h⟩ := bind_eq_ok h
    obtain ⟨⟨ks', s2⟩, h2, h⟩ := bind_eq_ok h
    cases h
    rw [unselected_none v k' s1 hu.1 h1, unselectedL_none vs ks' s2 hu.2 h2]
    rfl
end

theorem parseOptionsL_append (a b : List V) (r : List V) (s : List AVal) (h : parseOptionsL (a ++ b) = .ok (r, s)) :
    ∃ ra sa rb sb, parseOptionsL a = .ok (ra, sa) ∧ parseOptionsL b = .ok (rb, sb) ∧ s = sa ++ sb := by
  induction a generalizing r s with
  | nil => exact ⟨[], [], r, s, rfl, h, rfl⟩
  | cons v a ih =>
    simp only [List.cons_append, parseOptionsL] at h
    obtain ⟨⟨k', s1⟩, h1, h⟩ := bind_eq_ok h
    obtain ⟨⟨ks', s2⟩, h2, h⟩ := bind_eq_ok h
    obtain ⟨ra, sa, rb, sb, ha, hb, rfl⟩ := ih _ _ h2
    cases h
    refine ⟨k' :: ra, s1 ++ sa, rb, sb, ?_, hb, by simp⟩
    simp only [parseOptionsL, h1, ha]
    rfl

theorem parseOptionsL_textV (t : String) (r : List V) (s : List AVal) (h : parseOptionsL (if t ≠ "" then [.text t] else []) = .ok (r, s)) : s = [] := by
  split at h <;> (cases h; rfl)

theorem tag_steps {i : Bool} {tag : String} {attrs : List (String × String)} {text : String} {kids : List (El × String)} {v : V}
    (h1 : tag ≠ "select") (h2 : tag ≠ "textarea") (h : toVdom i (.mk tag attrs text kids) = .ok v) :
    ∃ cs as js hs, toVdomL i kids = .ok cs ∧ v = .elem tag as js hs ((if text ≠ "" then [.text text] else []) ++ cs) ∧
      ∀ n, n ∉ transformed tag → get as n = if isEventName n then none else (prop attrs n).map .str := by
  obtain ⟨cs, as0, as, ks, hcs, _, hg, _, hs, rfl⟩ := toVdom_steps h
  have ht : ∀ as ks, textarea tag as ks = (as, ks) := by intro as ks; simp [textarea, h2]
  rw [ht]
  have hsk : ks = (if text ≠ "" then [.text text] else []) ++ cs := by
    simp only [selectElement, h1, ne_eq, not_false_eq_true, true_or, if_true] at hs
    cases hs; rfl
  refine ⟨cs, as, _, _, hcs, by rw [hsk], fun n hn => ?_⟩
  · simp only [transformed, List.mem_append, not_or] at hn
    have hk : n ≠ "key" := fun h => hn.1.1.1 (by simp [h])
    have hst : n ≠ "style" := fun h => hn.1.1.1 (by simp [h])
    rw [select_get hs n (fun h => absurd h h1), normalizeStyle_get _ _ hst, inputValue_get, inferKey_get _ _ _ hk, hg n hk]
    intro hi
    have := hn.1.1.2
    rw [if_pos hi] at this
    simpa using this

theorem toVdom_elem {i : Bool} {e : El} {v : V} (h : toVdom i e = .ok v) : ∃ t a j hh k, v = .elem t a j hh k := by
  cases e with
  | mk tag attrs text kids =>
    obtain ⟨_, _, _, _, _, _, _, _, _, rfl⟩ := toVdom_steps h
    exact ⟨_, _, _, _, _, rfl⟩

theorem toVdomL_head (i : Bool) {kids : List (El × String)} {cs : List V} {k : V} {ks : List V} (h : toVdomL i kids = .ok cs) (hc : cs = k :: ks) :
    ∃ t a j hh kk, k = .elem t a j hh kk := by
  cases kids with
  | nil => cases h; cases hc
  | cons p r =>
    obtain ⟨e, tail⟩ := p
    simp only [toVdomL] at h
    obtain ⟨v, h1, h⟩ := bind_eq_ok h
    obtain ⟨ws, h2, h⟩ := bind_eq_ok h
    cases h
    cases hc
    exact toVdom_elem h1

mutual
theorem toVdom_chosen (i : Bool) : ∀ (e : El) (v v' : V) (s : List AVal), toVdom i e = .ok v → parseOptions v = .ok (v', s) → s = chosen e
  | .mk tag attrs text kids, v, v', s, h, hp => by
    by_cases h1 : tag = "select"
    · subst h1
      obtain ⟨cs, as0, as, ks, hcs, _, hg, _, hs, rfl⟩ := toVdom_steps h
      have ht : textarea "select" as ks = (as, ks) := by simp [textarea]
      rw [ht] at hp
      simp only [chosen, true_or, if_true]
      apply unselected_none _ _ _ _ hp
      refine ⟨fun h => by simp at h, ?_⟩
      rcases select_spec hs with ⟨_, rfl, _⟩ | ⟨_, sel, h1, _⟩
      · trivial
      · exact settled_unselectedL _ _ (parseOptionsL_settled _ _ _ h1)
    · by_cases h2 : tag = "textarea"
      · subst h2
        obtain ⟨cs, as0, as, ks, hcs, _, hg, _, hs, rfl⟩ := toVdom_steps h
        simp only [chosen, or_true, if_true]
        apply unselected_none _ _ _ _ hp
        refine ⟨fun h => by simp at h, ?_⟩
        simp only [textarea]
        split
        · trivial
        · rename_i hc
          have : ks = [] := by simpa using hc
          rw [this]; trivial
      · obtain ⟨cs, as, js, hs, hcs, rfl, hg⟩ := tag_steps h1 h2 h
        simp only [chosen, h1, h2, or_self, if_false]
        rw [parseOptions.eq_def] at hp
        simp only at hp
        split at hp
        · rename_i hc
          obtain ⟨rfl, hne⟩ := hc
          have hg1 := hg "selected" (by decide)
          have hg2 := hg "value" (by decide)
          rw [show isEventName "selected" = false by decide +kernel] at hg1
          rw [show isEventName "value" = false by decide +kernel] at hg2
          simp only [Bool.false_eq_true, if_false] at hg1 hg2
          cases hks : ((if text ≠ "" then [V.text text] else []) ++ cs) with
          | nil => rw [hks] at hp; cases hp
          | cons k ks =>
            rw [hks] at hp
            simp only at hp
            obtain ⟨⟨k', s1⟩, hp1, hp⟩ := bind_eq_ok hp
            obtain ⟨⟨ks', s2⟩, hp2, hp⟩ := bind_eq_ok hp
            have hall : parseOptionsL (k :: ks) = .ok (k' :: ks', s1 ++ s2) := by
              simp only [parseOptionsL, hp1, hp2]; rfl
            rw [← hks] at hall
            obtain ⟨ra, sa, rb, sb, ha, hb, he⟩ := parseOptionsL_append _ _ _ _ hall
            have := parseOptionsL_textV _ _ _ ha
            subst this
            rw [toVdomL_chosen i kids cs rb sb hcs hb, List.nil_append] at he
            have hsel : get (if (get as "value").isNone = true then put as "value" ((get as "value").getD k.asValue) else as) "selected" =
                (prop attrs "selected").map .str := by
              rw [← hg1]
              split
              · rw [get_put, if_neg (by decide)]
              · rfl
            have hval : (get as "value").getD k.asValue = optionValue attrs text := by
              simp only [optionValue, hg2]
              cases prop attrs "value" with
              | some x => rfl
              | none =>
                simp only [Option.map_none, Option.getD_none]
                by_cases htext : text = ""
                · subst htext
                  simp only [ne_eq, not_true_eq_false, if_false, List.nil_append] at hks
                  obtain ⟨t, a, j, hh, kk, rfl⟩ := toVdomL_head i hcs hks
                  rfl
                · rw [if_pos htext] at hks
                  cases hks
                  rw [if_neg htext]; rfl
            rw [hsel, hval] at hp
            cases hps : prop attrs "selected" with
            | none =>
              rw [hps] at hp
              cases hp
              simp [he]
            | some x =>
              rw [hps] at hp
              cases hp
              simp [he]
        · rename_i hc
          obtain ⟨⟨ks', s2⟩, hp2, hp⟩ := bind_eq_ok hp
          cases hp
          obtain ⟨ra, sa, rb, sb, ha, hb, he⟩ := parseOptionsL_append _ _ _ _ hp2
          have := parseOptionsL_textV _ _ _ ha
          subst this
          rw [toVdomL_chosen i kids cs rb sb hcs hb, List.nil_append] at he
          rw [he, if_neg, List.nil_append]
          rintro ⟨rfl, hs⟩
          have hne : as = [] := Classical.byContradiction fun h0 => hc ⟨rfl, h0⟩
          have hg1 := hg "selected" (by decide)
          rw [show isEventName "selected" = false by decide +kernel, hne] at hg1
          simp only [Bool.false_eq_true, if_false] at hg1
          apply hs
          cases hx : prop attrs "selected" with
          | none => rfl
          | some x => rw [hx] at hg1; cases hg1
theorem toVdomL_chosen (i : Bool) : ∀ (ks : List (El × String)) (vs vs' : List V) (s : List AVal), toVdomL i ks = .ok vs →
    parseOptionsL vs = .ok (vs', s) → s = chosenL ks
  | [], vs, vs', s, h, hp => by cases h; cases hp; rfl
  | (e, tail) :: ks, vs, vs', s, h, hp => by
    simp only [toVdomL] at h
    obtain ⟨v, h1, h⟩ := bind_eq_ok h
    obtain ⟨ws, h2, h⟩ := bind_eq_ok h
    cases h
    simp only [parseOptionsL] at hp
    obtain ⟨⟨k', s1⟩, hp1, hp⟩ := bind_eq_ok hp
    obtain ⟨⟨ks', s2⟩, hp2, hp⟩ := bind_eq_ok hp
    obtain ⟨ra, sa, rb, sb, ha, hb, he⟩ := parseOptionsL_append _ _ _ _ hp2
    have := parseOptionsL_textV _ _ _ ha
    subst this
    cases hp
    rw [he, toVdom_chosen i e v k' s1 h1 hp1, toVdomL_chosen i ks ws rb sb h2 hb]
    rfl
end

end Verif.Markup
