import Verif.Markup.Transforms
import Verif.Markup.AttrsProps
/-! # C99: transforms given to `string_to_reactpy` -/
namespace Verif.Markup
variable {σ : Type}

mutual
/-- C99: without transforms the conversion is that of C38 and C67. -/
theorem C99_without (i : Bool) (s : σ) (e : El) : toVdomT i [] s e = (s, toVdom i e) := by
  match e with
  | .mk tag attrs text kids =>
    rw [toVdomT, toVdom, withoutL i s kids]
    cases toVdomL i kids with
    | error e => rfl
    | ok cs =>
      simp only [Bind.bind, Except.bind]
      cases construct tag (attributesToReact attrs) ((if text ≠ "" then [.text text] else []) ++ cs) with
      | error e => rfl
      | ok el =>
        simp only
        cases requiredTransforms i el <;> rfl
theorem withoutL (i : Bool) (s : σ) (ks : List (El × String)) : toVdomTL i [] s ks = (s, toVdomL i ks) := by
  match ks with
  | [] => rfl
  | (e, tail) :: ks =>
    rw [toVdomTL, toVdomL, C99_without i s e]
    cases toVdom i e with
    | error e => rfl
    | ok v =>
      simp only [Bind.bind, Except.bind]
      rw [withoutL i s ks]
      cases toVdomL i ks <;> rfl
end

/-- The shell of an element does not depend on its children. -/
theorem elemShell {i : Bool} {tag : String} {attrs : List (String × String)} {kids : List V} {el el' : V}
    (h1 : tag ≠ "select") (h2 : tag ≠ "textarea") (h3 : tag ≠ "script")
    (hc : construct tag (attributesToReact attrs) kids = .ok el) (hr : requiredTransforms i el = .ok el') :
    ∃ as js hs, el' = .elem tag as js hs kids ∧ toVdom i (.mk tag attrs "" []) = .ok (.elem tag as js hs []) := by
  have hn : construct tag (attributesToReact attrs) [] = .ok (.elem tag
      (((attributesToReact attrs).filter (fun p => !isEventName p.1)).map (fun p => (p.1, AVal.str p.2)))
      ((attributesToReact attrs).filter (fun p => isEventName p.1)) [] []) := by
    simp [construct, h3]
  have hk : el = .elem tag (((attributesToReact attrs).filter (fun p => !isEventName p.1)).map (fun p => (p.1, AVal.str p.2)))
      ((attributesToReact attrs).filter (fun p => isEventName p.1)) [] kids := by
    simp only [construct, h3, if_false] at hc
    split at hc
    · simp at hc
    · simpa using hc.symm
  subst hk
  generalize ((attributesToReact attrs).filter (fun p => !isEventName p.1)).map (fun p => (p.1, AVal.str p.2)) = A at hn hr
  generalize (attributesToReact attrs).filter (fun p => isEventName p.1) = J at hn hr
  have hreq : ∀ ks : List V, requiredTransforms i (.elem tag A J [] ks) =
      .ok (.elem tag (normalizeStyle (inputValue tag (inferKey tag A))) J (if tag = "a" && i then [] ++ ["onClick"] else []) ks) := by
    intro ks
    simp only [requiredTransforms, selectElement, textarea, h1, h2, ne_eq, not_false_eq_true, true_or, if_true, false_and, if_false,
      Bind.bind, Except.bind, pure, Except.pure]
  rw [hreq] at hr
  simp only [Except.ok.injEq] at hr
  refine ⟨_, _, _, hr.symm, ?_⟩
  rw [toVdom, toVdomL]
  simp only [Bind.bind, Except.bind, ne_eq, not_true_eq_false, if_false, List.append_nil]
  rw [hn]
  simp only
  rw [hreq]

theorem required_elem {i : Bool} {tag : String} {as : List (String × AVal)} {js : List (String × String)} {hs : List String} {ks : List V} {el : V}
    (h : requiredTransforms i (.elem tag as js hs ks) = .ok el) : ∃ as' js' hs' ks', el = .elem tag as' js' hs' ks' := by
  simp only [requiredTransforms, Bind.bind, Except.bind, pure, Except.pure] at h
  split at h
  · simp at h
  · simp only [Except.ok.injEq] at h
    exact ⟨_, _, _, _, h.symm⟩

theorem construct_isElem {tag : String} {attrs : List (String × String)} {kids : List V} {el : V} (h : construct tag attrs kids = .ok el) :
    ∃ as js hs ks, el = .elem tag as js hs ks := by
  obtain ⟨as, h, _⟩ := construct_get h
  exact ⟨_, _, _, _, h⟩

theorem applyAll_block (ts : List (Transform σ)) (k : Nat) (s : σ) (l : List Call) (v : V) :
    ∃ l', (applyAll (ts.mapIdx (fun j t => logged (k + j) t)) (s, l) v).1.2 = l ++ l' ∧
      (∀ out, (applyAll (ts.mapIdx (fun j t => logged (k + j) t)) (s, l) v).2 = .ok out → Block k ts.length v out l') ∧
      (∀ c ∈ l', c.res.toOption.isNone → ∃ e pre, l' = pre ++ [c] ∧ (∀ d ∈ pre, ¬ d.res.toOption.isNone) ∧ c.res = .error e ∧
        (applyAll (ts.mapIdx (fun j t => logged (k + j) t)) (s, l) v).2 = .error e) := by
  induction ts generalizing k s l v with
  | nil => exact ⟨[], by simp [applyAll], fun out h => by simp only [List.mapIdx_nil, applyAll, Except.ok.injEq] at h; subst h; exact .nil, by simp⟩
  | cons t ts ih =>
    rw [List.mapIdx_cons]
    simp only [applyAll, logged, Nat.add_zero]
    have he : (ts.mapIdx fun j t => logged (k + (j + 1)) t) = ts.mapIdx (fun j t => logged (k + 1 + j) t) := by
      congr 1; funext j t; rw [Nat.add_assoc, Nat.add_comm 1 j]
    cases hr : (t s v).2 with
    | error e =>
      simp only [hr]
      refine ⟨[⟨k, v, .error e⟩], rfl, by simp, ?_⟩
      intro c hc _
      simp only [List.mem_singleton] at hc
      subst hc
      exact ⟨e, [], rfl, by simp, rfl, rfl⟩
    | ok v' =>
      simp only [hr]
      obtain ⟨l', h1, h2, h3⟩ := ih (k + 1) (t s v).1 (l ++ [⟨k, v, .ok v'⟩]) v'
      refine ⟨⟨k, v, .ok v'⟩ :: l', ?_, ?_, ?_⟩
      · rw [he, h1]; simp
      · intro out ho
        rw [he] at ho
        exact .cons (h2 out ho)
      · intro c hc hn
        rcases List.mem_cons.1 hc with rfl | hc
        · simp [Except.toOption] at hn
        · obtain ⟨e, pre, h4, h7, h5, h6⟩ := h3 c hc hn
          refine ⟨e, ⟨k, v, .ok v'⟩ :: pre, by rw [h4]; rfl, ?_, h5, by rw [he]; exact h6⟩
          intro d hd
          rcases List.mem_cons.1 hd with rfl | hd
          · simp [Except.toOption]
          · exact h7 d hd

mutual
theorem calls_of (i : Bool) (ts : List (Transform σ)) (s : σ) (l : List Call) (e : El) :
    ∃ l', (toVdomT i (ts.mapIdx logged) (s, l) e).1.2 = l ++ l' ∧
      (∀ v, (toVdomT i (ts.mapIdx logged) (s, l) e).2 = .ok v → Converted i ts.length e l' v) ∧
      (∀ c ∈ l', c.res.toOption.isNone → ∃ er pre, l' = pre ++ [c] ∧ (∀ d ∈ pre, ¬ d.res.toOption.isNone) ∧ c.res = .error er ∧
        (toVdomT i (ts.mapIdx logged) (s, l) e).2 = .error er) := by
  match e with
  | .mk tag attrs text kids =>
    obtain ⟨l1, h1, h2, h3⟩ := calls_ofL i ts s l kids
    rw [toVdomT]
    rcases hk : toVdomTL i (ts.mapIdx logged) (s, l) kids with ⟨s1, r⟩
    rw [hk] at h1 h2 h3
    cases r with
    | error e => exact ⟨l1, h1, by simp, by simpa using h3⟩
    | ok cs =>
      have hb : ∀ c ∈ l1, ¬ c.res.toOption.isNone := fun c hc hn => by
        obtain ⟨_, _, _, _, _, h⟩ := h3 c hc hn
        simp at h
      have h2 := h2 cs rfl
      simp only
      cases hcon : construct tag (attributesToReact attrs) ((if text ≠ "" then [.text text] else []) ++ cs) with
      | error e => exact ⟨l1, h1, by simp, fun c hc hn => absurd hn (hb c hc)⟩
      | ok el =>
        simp only
        cases hreq : requiredTransforms i el with
        | error e => exact ⟨l1, h1, by simp, fun c hc hn => absurd hn (hb c hc)⟩
        | ok el' =>
          simp only
          obtain ⟨a1, a2, a3, a4, ha⟩ := construct_isElem hcon
          obtain ⟨as, js, hs, ks, hel⟩ := required_elem (ha ▸ hreq)
          obtain ⟨l2, g1, g2, g3⟩ := applyAll_block ts 0 s1.1 s1.2 el'
          simp only [Nat.zero_add] at g1 g2 g3
          refine ⟨l1 ++ l2, ?_, ?_, ?_⟩
          · rw [show (s1.1, s1.2) = s1 from rfl] at g1
            rw [g1, show s1.2 = l ++ l1 from h1, List.append_assoc]
          · intro v hv
            have g2 := g2 v hv
            rw [hel] at g2
            refine .mk h2 g2 (fun t1 t2 t3 => ?_)
            obtain ⟨as', js', hs', e1, e2⟩ := elemShell t1 t2 t3 hcon hreq
            rw [hel] at e1
            simp only [V.elem.injEq, true_and] at e1
            obtain ⟨rfl, rfl, rfl, rfl⟩ := e1
            exact ⟨rfl, e2⟩
          · intro c hc hn
            rcases List.mem_append.1 hc with hc | hc
            · exact absurd hn (hb c hc)
            · obtain ⟨er, pre, e1, e4, e2, e3⟩ := g3 c hc hn
              exact ⟨er, l1 ++ pre, by rw [e1, List.append_assoc], fun d hd => (List.mem_append.1 hd).elim (hb d) (e4 d), e2, e3⟩
theorem calls_ofL (i : Bool) (ts : List (Transform σ)) (s : σ) (l : List Call) (ks : List (El × String)) :
    ∃ l', (toVdomTL i (ts.mapIdx logged) (s, l) ks).1.2 = l ++ l' ∧
      (∀ vs, (toVdomTL i (ts.mapIdx logged) (s, l) ks).2 = .ok vs → ConvertedL i ts.length ks l' vs) ∧
      (∀ c ∈ l', c.res.toOption.isNone → ∃ er pre, l' = pre ++ [c] ∧ (∀ d ∈ pre, ¬ d.res.toOption.isNone) ∧ c.res = .error er ∧
        (toVdomTL i (ts.mapIdx logged) (s, l) ks).2 = .error er) := by
  match ks with
  | [] => exact ⟨[], by simp [toVdomTL], fun vs h => by simp only [toVdomTL, Except.ok.injEq] at h; subst h; exact .nil, by simp⟩
  | (e, tail) :: ks =>
    obtain ⟨l1, h1, h2, h3⟩ := calls_of i ts s l e
    rw [toVdomTL]
    rcases hk : toVdomT i (ts.mapIdx logged) (s, l) e with ⟨s1, r⟩
    rw [hk] at h1 h2 h3
    cases r with
    | error e => exact ⟨l1, h1, by simp, by simpa using h3⟩
    | ok v =>
      have hb : ∀ c ∈ l1, ¬ c.res.toOption.isNone := fun c hc hn => by
        obtain ⟨_, _, _, _, _, h⟩ := h3 c hc hn
        simp at h
      obtain ⟨l2, g1, g2, g3⟩ := calls_ofL i ts s1.1 s1.2 ks
      simp only
      rw [show (s1.1, s1.2) = s1 from rfl] at g1 g2 g3
      have e1 : s1.2 = l ++ l1 := h1
      rcases hks : toVdomTL i (ts.mapIdx logged) s1 ks with ⟨s2, r2⟩
      rw [hks] at g1 g2 g3
      cases r2 with
      | error er =>
        refine ⟨l1 ++ l2, by simp only at g1 ⊢; rw [g1, e1, List.append_assoc], by simp, ?_⟩
        intro c hc hn
        rcases List.mem_append.1 hc with hc | hc
        · exact absurd hn (hb c hc)
        · obtain ⟨er, pre, e1, e4, e2, e3⟩ := g3 c hc hn
          exact ⟨er, l1 ++ pre, by rw [e1, List.append_assoc], fun d hd => (List.mem_append.1 hd).elim (hb d) (e4 d), e2, e3⟩
      | ok vs =>
        refine ⟨l1 ++ l2, by simp only at g1 ⊢; rw [g1, e1, List.append_assoc], ?_, ?_⟩
        · intro out ho
          simp only [Except.ok.injEq] at ho
          subst ho
          exact .cons (h2 v rfl) (g2 vs rfl)
        · intro c hc hn
          rcases List.mem_append.1 hc with hc | hc
          · exact absurd hn (hb c hc)
          · obtain ⟨_, _, _, _, _, h⟩ := g3 c hc hn
            simp at h
end

/-- **C99**: the transforms are called for every element of the document exactly once, after its children, in the order given, each with
what the one before returned; what the last returns takes the place of the element. -/
theorem C99_calls (i : Bool) (ts : List (Transform σ)) (s : σ) (e : El) (s' : σ) (calls : List Call) (v : V)
    (h : toVdomT i (ts.mapIdx logged) (s, []) e = ((s', calls), .ok v)) : Converted i ts.length e calls v := by
  obtain ⟨l', h1, h2, _⟩ := calls_of i ts s [] e
  rw [h] at h1 h2
  simp only [List.nil_append] at h1
  rw [h1]
  exact h2 v rfl

/-- **C99**: if a call raises, no transform is called any more, and the conversion raises the same. -/
theorem C99_raises (i : Bool) (ts : List (Transform σ)) (s : σ) (e : El) (s' : σ) (before after : List Call) (c : Call) (er : Err) (r : Except Err V)
    (h : toVdomT i (ts.mapIdx logged) (s, []) e = ((s', before ++ c :: after), r)) (hc : c.res = .error er) : after = [] ∧ r = .error er := by
  obtain ⟨l', h1, _, h3⟩ := calls_of i ts s [] e
  rw [h] at h1 h3
  simp only [List.nil_append] at h1
  subst h1
  obtain ⟨er', pre, e1, e4, e2, e3⟩ := h3 c (by simp) (by rw [hc]; rfl)
  rw [hc] at e2
  cases e2
  refine ⟨?_, e3⟩
  rcases List.eq_nil_or_concat after with h0 | ⟨a, x, h0⟩
  · exact h0
  · subst h0
    have h5 : (before ++ c :: a) ++ [x] = pre ++ [c] := by simpa using e1
    have h6 := (List.append_inj' h5 rfl).1
    exact absurd (by rw [hc]; rfl) (e4 c (by rw [← h6]; simp))

/-- The two steps for an element that is none of the three. -/
theorem plainElem (i : Bool) {tag : String} (attrs : List (String × String)) (h1 : tag ≠ "select") (h2 : tag ≠ "textarea") (h3 : tag ≠ "script") :
    ∃ A J B H, ∀ kids : List V, (construct tag (attributesToReact attrs) kids =
        if noChildren.contains tag && !kids.isEmpty then .error .type else .ok (.elem tag A J [] kids)) ∧
      requiredTransforms i (.elem tag A J [] kids) = .ok (.elem tag B J H kids) := by
  refine ⟨((attributesToReact attrs).filter (fun p => !isEventName p.1)).map (fun p => (p.1, AVal.str p.2)),
    (attributesToReact attrs).filter (fun p => isEventName p.1), ?_⟩
  generalize hA : ((attributesToReact attrs).filter (fun p => !isEventName p.1)).map (fun p => (p.1, AVal.str p.2)) = A
  generalize hJ : (attributesToReact attrs).filter (fun p => isEventName p.1) = J
  refine ⟨normalizeStyle (inputValue tag (inferKey tag A)), if tag = "a" && i then [] ++ ["onClick"] else [], fun kids => ⟨?_, ?_⟩⟩
  · simp only [construct, h3, if_false, hA, hJ]
  · simp only [requiredTransforms, selectElement, textarea, h1, h2, ne_eq, not_false_eq_true, true_or, if_true, false_and, if_false,
      Bind.bind, Except.bind, pure, Except.pure]

theorem mapUpL_append (f : V → V) (a b : List V) : mapUpL f (a ++ b) = mapUpL f a ++ mapUpL f b := by
  induction a with
  | nil => rfl
  | cons v a ih => rw [List.cons_append, mapUpL, mapUpL, ih]; rfl

theorem mapUpL_text (f : V → V) (t : String) : mapUpL f (if t ≠ "" then [.text t] else []) = if t ≠ "" then [V.text t] else [] := by
  split
  · rw [mapUpL, mapUpL, V.mapUp]; simp
  · rfl

theorem mapUpL_empty (f : V → V) (l : List V) : (mapUpL f l).isEmpty = l.isEmpty := by cases l <;> rfl

mutual
theorem mapUp_ok (i : Bool) (f : V → V) (s : σ) (e : El) (ha : e.avoids ["select", "textarea", "script"]) :
    toVdomT i [fun s v => (s, .ok (f v))] s e = (s, (toVdom i e).map (V.mapUp f)) := by
  match e with
  | .mk tag attrs text kids =>
    rw [El.avoids] at ha
    obtain ⟨ht, hk⟩ := ha
    simp only [List.mem_cons, List.not_mem_nil, or_false, not_or] at ht
    obtain ⟨t1, t2, t3⟩ := ht
    rw [toVdom, toVdomT, mapUp_okL i f s kids hk]
    cases hl : toVdomL i kids with
    | error e0 => rfl
    | ok cs =>
      obtain ⟨A, J, B, H, hp⟩ := plainElem i attrs t1 t2 t3
      simp only [Bind.bind, Except.bind, Except.map]
      have hm : (if text ≠ "" then [V.text text] else []) ++ mapUpL f cs = mapUpL f ((if text ≠ "" then [V.text text] else []) ++ cs) := by
        rw [mapUpL_append, mapUpL_text]
      rw [hm, (hp _).1, (hp _).1, mapUpL_empty]
      generalize (if text ≠ "" then [V.text text] else []) ++ cs = K
      cases noChildren.contains tag && !K.isEmpty
      · simp only [Bool.false_eq_true, if_false, (hp _).2, applyAll, V.mapUp]
      · rfl
theorem mapUp_okL (i : Bool) (f : V → V) (s : σ) (ks : List (El × String)) (ha : avoidsL ["select", "textarea", "script"] ks) :
    toVdomTL i [fun s v => (s, .ok (f v))] s ks = (s, (toVdomL i ks).map (mapUpL f)) := by
  match ks with
  | [] => rfl
  | (e, tail) :: ks =>
    rw [avoidsL] at ha
    rw [toVdomTL, toVdomL, mapUp_ok i f s e ha.1]
    cases toVdom i e with
    | error e => rfl
    | ok v =>
      simp only [Bind.bind, Except.bind, Except.map]
      rw [mapUp_okL i f s ks ha.2]
      cases toVdomL i ks with
      | error e => rfl
      | ok vs => simp only [Except.map, pure, Except.pure, mapUpL, mapUpL_append, mapUpL_text]
end

/-- **C99**: a transform that only computes gives the model of the document with the function applied to every element, children first. -/
theorem C99_maps (i : Bool) (f : V → V) (s : σ) (e : El) (ha : e.avoids ["select", "textarea", "script"]) :
    toVdomT i [fun s v => (s, .ok (f v))] s e = (s, (toVdom i e).map (V.mapUp f)) := mapUp_ok i f s e ha

/-! ## Examples -/

/-- A transform that renames `b` to `strong`. -/
def toStrong : V → V
  | .elem "b" as js hs ks => .elem "strong" as js hs ks
  | v => v

/-- A transform that numbers the elements it sees and drops the third. -/
def dropThird : Transform Nat := fun n v => (n + 1, .ok (if n = 2 then .none else v))

/-- A transform that raises for `i`. -/
def noItalic : Transform Nat := fun n v => match v with
  | .elem "i" .. => (n, .error .value)
  | v => (n, .ok v)

/-- `<p>x<b>y</b><i>z</i>!</p>` -/
def marked : El := .mk "p" [] "x" [(.mk "b" [] "y" [], ""), (.mk "i" [] "z" [], "!")]

example : marked.avoids ["select", "textarea", "script"] := by simp [marked, El.avoids, avoidsL]
example : (toVdomT false [fun s v => (s, .ok (toStrong v)), dropThird] 0 marked).2.toOption = some .none := rfl
example : ((toVdomT false [fun s v => (s, .ok (toStrong v))] () marked).2.toOption =
    some (.elem "p" [] [] [] [.text "x", .elem "strong" [] [] [] [.text "y"], .elem "i" [] [] [] [.text "z"], .text "!"])) := rfl
example : (toVdomT false ([dropThird, dropThird].mapIdx logged) (0, []) marked).1.2.map (fun c => (c.which, c.res.toOption)) =
    [(0, some (.elem "b" [] [] [] [.text "y"])), (1, some (.elem "b" [] [] [] [.text "y"])), (0, some .none), (1, some .none),
     (0, some (.elem "p" [] [] [] [.text "x", .elem "b" [] [] [] [.text "y"], .none, .text "!"])),
     (1, some (.elem "p" [] [] [] [.text "x", .elem "b" [] [] [] [.text "y"], .none, .text "!"]))] := rfl
example : (toVdomT false ([noItalic, dropThird].mapIdx logged) (0, []) marked).1.2.map (fun c => (c.which, c.res.toOption)) =
    [(0, some (.elem "b" [] [] [] [.text "y"])), (1, some (.elem "b" [] [] [] [.text "y"])), (0, none)] := rfl

end Verif.Markup
