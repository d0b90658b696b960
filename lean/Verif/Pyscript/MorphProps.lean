import Verif.Pyscript.Morph
import Verif.Pyscript.Props
/-! # C118: the page of a component that runs in the browser follows the model -/
namespace Verif.Pyscript
open Verif.Layout (VJson Shell Op Sys User Client Comp stepOp stepSys initSys)

/-! ## Specification -/

mutual
/-- What is to be seen of a model: elements with their attributes, texts and children, without fragments.  Nothing is said of listeners. -/
inductive LooksDom : VJson → Dom → Prop
  | text (s : String) : LooksDom (.text s) (.text s)
  | elem {sh : Shell} {c : Option (List VJson)} {attrs : List (String × Verif.Layout.AVal)} {ls : List Listener} {kids : List Dom}
      (m : List VJson) (htag : sh.tag ≠ "")
      (hattrs : attrs = (sh.attrs.getD []).map fun p => (if p.1 = "className" then "class" else p.1, p.2))
      (hflat : Flat (c.getD []) m) (hkids : LooksAll m kids) : LooksDom (.obj sh c) (.elem sh.tag attrs ls kids)
/-- Nodes of the document look like models one by one. -/
inductive LooksAll : List VJson → List Dom → Prop
  | nil : LooksAll [] []
  | cons {v : VJson} {d : Dom} {l : List VJson} {ds : List Dom} (h : LooksDom v d) (hs : LooksAll l ds) : LooksAll (v :: l) (d :: ds)
end

/-- The page looks like the model. -/
def Looks (v : VJson) (page : List Dom) : Prop := ∃ m, Flat [v] m ∧ LooksAll m page

/-- The page looks like the model, and each element listens to exactly the events the model has handlers for, with their targets. -/
def Shown (v : VJson) (page : List Dom) : Prop := ∃ m, Flat [v] m ∧ ShowsAll m page

/-- Two texts, or two elements of the same tag. -/
def SameKind : VJson → VJson → Prop
  | .text _, .text _ => True
  | .obj sh _, .obj sh' _ => sh.tag = sh'.tag
  | _, _ => False

/-- The events that an element handles, with their targets. -/
def handled (sh : Shell) : List (String × String) := (sh.handlers.getD []).map fun h => (eventOf h.event, h.target)

/-- From one model to the next (both without fragments), every element in the place of an earlier one of the same tag handles the same
events with the same targets.  Places are counted without the elements and texts that the new ones do not continue. -/
inductive Keeps : List VJson → List VJson → Prop
  | added (m : List VJson) : Keeps [] m
  | removed (l : List VJson) : Keeps l []
  | text (s t : String) {l m : List VJson} : Keeps l m → Keeps (.text s :: l) (.text t :: m)
  | elem {sh sh' : Shell} {c c' : Option (List VJson)} {k k' l m : List VJson} (htag : sh.tag = sh'.tag)
      (hh : handled sh = handled sh') (hk : Flat (c.getD []) k) (hk' : Flat (c'.getD []) k') :
      Keeps k k' → Keeps l m → Keeps (.obj sh c :: l) (.obj sh' c' :: m)
  | gone {v w : VJson} {l m : List VJson} : ¬ SameKind v w → Keeps l (w :: m) → Keeps (v :: l) (w :: m)

/-! ## Proofs -/

theorem Flat.unique {l m : List VJson} (h : Flat l m) : ∀ {m' : List VJson}, Flat l m' → m' = m := by
  induction h with
  | nil => intro m' h'; cases h'; rfl
  | text s _ ih => intro m' h'; cases h' with | text _ h' => rw [ih h']
  | elem ht _ ih =>
    intro m' h'
    cases h' with
    | elem _ h' => rw [ih h']
    | fragment ht' _ => exact absurd ht' ht
  | fragment ht _ ih =>
    intro m' h'
    cases h' with
    | elem ht' _ => exact absurd ht ht'
    | fragment _ h' => exact ih h'

mutual
theorem ShowsDom.looks : ∀ {v : VJson} {d : Dom}, ShowsDom v d → LooksDom v d
  | _, _, .text s => .text s
  | _, _, .elem m htag hattrs _ hflat hkids => .elem m htag hattrs hflat hkids.looks
theorem ShowsAll.looks : ∀ {l : List VJson} {ds : List Dom}, ShowsAll l ds → LooksAll l ds
  | _, _, .nil => .nil
  | _, _, .cons h hs => .cons h.looks hs.looks
end

mutual
theorem morphNode_looks : ∀ (n o : Dom) {v : VJson}, LooksDom v n → LooksDom v (morphNode o n)
  | .text s, o, v, h => by cases o <;> exact h
  | .elem tag attrs ls kids, .text s, v, h => h
  | .elem tag attrs ls kids, .elem tag' attrs' ls' kids', v, h => by
    cases h with
    | elem m htag hattrs hflat hkids =>
      rw [morphNode]
      exact .elem m htag hattrs hflat (morphAll_looks kids kids' hkids)
theorem morphAll_looks : ∀ (ns os : List Dom) {l : List VJson}, LooksAll l ns → LooksAll l (morphAll os ns)
  | [], os, l, h => by cases h; rw [morphAll]; exact .nil
  | n :: ns, os, l, h => by
    cases h with
    | cons h hs =>
      rw [morphAll]
      split
      · exact .cons (morphNode_looks n _ h) (morphAll_looks ns _ hs)
      · exact .cons h (morphAll_looks ns _ hs)
end

theorem morphAll_nil : ∀ ns : List Dom, morphAll [] ns = ns
  | [] => by rw [morphAll]
  | n :: ns => by rw [morphAll]; simp only [reuse]; rw [morphAll_nil ns]

theorem compatible_iff {v w : VJson} {o n : Dom} (h : ShowsDom v o) (h' : ShowsDom w n) : compatible o n = true ↔ SameKind v w := by
  cases h <;> cases h' <;> simp [compatible, SameKind]

theorem listeners_eq (sh : Shell) : ((sh.handlers.getD []).map fun h => (⟨eventOf h.event, h.target⟩ : Listener)) =
    (handled sh).map fun p => ⟨p.1, p.2⟩ := by
  rw [handled, List.map_map]
  rfl

theorem listeners_inj {a b : List (String × String)} (h : (a.map fun p => (⟨p.1, p.2⟩ : Listener)) = b.map fun p => ⟨p.1, p.2⟩) : a = b := by
  induction a generalizing b with
  | nil => cases b with
    | nil => rfl
    | cons _ _ => cases h
  | cons x a ih => cases b with
    | nil => cases h
    | cons y b =>
      obtain ⟨x1, x2⟩ := x
      obtain ⟨y1, y2⟩ := y
      simp only [List.map_cons, List.cons.injEq, Listener.mk.injEq] at h
      rw [ih h.2, h.1.1, h.1.2]

/-- What `Keeps` says of an element and the one in its place. -/
def KeepsOne : VJson → VJson → Prop
  | .obj sh c, .obj sh' c' => handled sh = handled sh' ∧ ∃ k k', Flat (c.getD []) k ∧ Flat (c'.getD []) k' ∧ Keeps k k'
  | _, _ => True

mutual
theorem node_iff : ∀ (n o : Dom) {v w : VJson}, ShowsDom v o → ShowsDom w n → SameKind v w →
    (ShowsDom w (morphNode o n) ↔ KeepsOne v w)
  | .text s, o, v, w, ho, hn, hk => by
    cases hn
    cases ho with
    | text _ => simp only [morphNode, KeepsOne, iff_true]; exact .text s
    | elem => exact hk.elim
  | .elem tag attrs ls kids, .text s, v, w, ho, hn, hk => by
    cases hn; cases ho; exact hk.elim
  | .elem tag attrs ls kids, .elem tag' attrs' ls' kids', v, w, ho, hn, hk => by
    cases hn with
    | elem m htag hattrs hls hflat hkids =>
      cases ho with
      | elem m' htag' hattrs' hls' hflat' hkids' =>
        rw [morphNode]
        have ih := all_iff kids kids' hkids' hkids
        constructor
        · intro h
          cases h with
          | elem m2 _ _ hls2 hflat2 hkids2 =>
            cases hflat.unique hflat2
            refine ⟨?_, m', m, hflat', hflat, ih.1 hkids2⟩
            rw [hls', listeners_eq, listeners_eq] at hls2
            exact listeners_inj hls2
        · rintro ⟨hh, k, k', hk1, hk2, hk3⟩
          cases hflat'.unique hk1
          cases hflat.unique hk2
          refine .elem m htag hattrs ?_ hflat (ih.2 hk3)
          rw [hls', listeners_eq, listeners_eq, hh]
theorem all_iff : ∀ (ns os : List Dom) {l m : List VJson}, ShowsAll l os → ShowsAll m ns →
    (ShowsAll m (morphAll os ns) ↔ Keeps l m)
  | [], os, l, m, ho, hn => by
    cases hn
    rw [morphAll]
    exact ⟨fun _ => .removed l, fun _ => .nil⟩
  | n :: ns, os, l, m, ho, hn => by
    cases hn with
    | @cons w _ m _ hw hs =>
      rw [morphAll]
      induction os generalizing l with
      | nil =>
        cases ho
        simp only [reuse, morphAll_nil]
        exact ⟨fun _ => .added _, fun _ => .cons hw hs⟩
      | cons o os ih =>
        cases ho with
        | @cons v _ l _ hv hvs =>
          by_cases hc : compatible o n = true
          · have hk := (compatible_iff hv hw).1 hc
            have h1 := node_iff n o hv hw hk
            have h2 := all_iff ns os hvs hs
            simp only [reuse, hc, if_true]
            constructor
            · intro h
              cases h with
              | cons h hrest =>
                have h1 := h1.1 h
                have h2 := h2.1 hrest
                revert h1 hk
                cases v with
                | text s => cases w with
                  | text t => exact fun _ _ => .text s t h2
                  | obj sh c => exact fun hk => hk.elim
                | obj sh c => cases w with
                  | text t => exact fun hk => hk.elim
                  | obj sh' c' => exact fun hk ⟨hh, k, k', a, b, d⟩ => .elem hk hh a b d h2
            · intro h
              cases h with
              | text s t h => exact .cons (h1.2 trivial) (h2.2 h)
              | elem htag hh a b d h => exact .cons (h1.2 ⟨hh, _, _, a, b, d⟩) (h2.2 h)
              | gone hne _ => exact absurd hk hne
          · have hk : ¬ SameKind v w := fun h => hc ((compatible_iff hv hw).2 h)
            have hc : compatible o n = false := by simpa using hc
            simp only [reuse, hc, Bool.false_eq_true, if_false]
            rw [ih _ hvs]
            constructor
            · exact fun h => .gone hk h
            · intro h
              cases h with
              | text s t h => exact absurd trivial hk
              | elem htag hh a b d h => exact absurd htag hk
              | gone _ h => exact h
end

theorem build_shown (v : VJson) : Shown v (build v) := build_shows v

/-- **C118, one update.**  If the page showed the last model, then after the next update it looks like the new one, and it shows it, with
the right listeners, exactly if every element in the place of an earlier one handles the same events. -/
theorem C118_update (page page' : List Dom) (v w : VJson) (hv : Shown v page) (h : renderHtml page w = some page') :
    Looks w page' ∧ (Shown w page' ↔ ∃ l m, Flat [v] l ∧ Flat [w] m ∧ Keeps l m) := by
  obtain ⟨l, hl, hs⟩ := hv
  obtain ⟨m, hm, ht⟩ := build_shown w
  simp only [renderHtml] at h
  split at h
  · injection h with h
    subst h
    refine ⟨⟨m, hm, morphAll_looks _ _ ht.looks⟩, ?_⟩
    constructor
    · rintro ⟨m', hm', hs'⟩
      cases hm.unique hm'
      exact ⟨l, m, hl, hm, (all_iff _ _ hs ht).1 hs'⟩
    · rintro ⟨l', m', hl', hm', hk⟩
      cases hl.unique hl'
      cases hm.unique hm'
      exact ⟨m, hm, (all_iff _ _ hs ht).2 hk⟩
  · cases h

section
variable {U : User}

theorem Tab.step_sys (t : Tab U) (op : Op U) : (t.step op).sys = stepSys t.sys op := by
  rw [Tab.step]
  split <;> rfl

theorem Tab.run_sys (t : Tab U) (ops : List (Op U)) : (t.run ops).sys = Verif.Layout.runSys t.sys ops := by
  induction ops generalizing t with
  | nil => rfl
  | cons op ops ih =>
    have := ih (t.step op)
    rw [Tab.step_sys] at this
    exact this

theorem Tab.run_snoc (t : Tab U) (ops : List (Op U)) (op : Op U) : t.run (ops ++ [op]) = (t.run ops).step op := by
  rw [Tab.run, List.foldl_append]
  rfl

/-- An operation either leaves model and page as they are, or the page follows a new model, or there is no model any more. -/
theorem Tab.step_cases (t : Tab U) (op : Op U) :
    ((t.step op).sys.client = t.sys.client ∧ (t.step op).page = t.page) ∨
    (∃ v, (t.step op).sys.client = .model v ∧ t.sys.client ≠ .broken ∧ (t.step op).page = t.page.bind (renderHtml · v)) ∨
    (t.step op).sys.client = .broken := by
  rcases hc : stepOp t.sys.layout op with ⟨l, out⟩
  cases out with
  | update u =>
    have hs : (stepSys t.sys op).client = Verif.Layout.applyUpdate u t.sys.client := by simp only [stepSys, hc]
    rcases hcl2 : (stepSys t.sys op).client with _ | v | _
    · exfalso
      rw [hcl2] at hs
      revert hs
      rw [Verif.Layout.applyUpdate.eq_def]
      repeat' split
      all_goals nofun
    · refine .inr (.inl ⟨v, by rw [Tab.step_sys, hcl2], fun hb => ?_, ?_⟩)
      · rw [hb, hcl2] at hs
        cases hs
      · simp only [Tab.step, hc, hcl2]
    · exact .inr (.inr (by rw [Tab.step_sys, hcl2]))
  | _ =>
    refine .inl ⟨by rw [Tab.step_sys]; simp only [stepSys, hc], ?_⟩
    simp only [Tab.step, hc]

theorem snoc_induction {α : Type} {P : List α → Prop} (h0 : P []) (h1 : ∀ l a, P l → P (l ++ [a])) (l : List α) : P l := by
  rw [← l.reverse_reverse]
  induction l.reverse with
  | nil => exact h0
  | cons a r ih => rw [List.reverse_cons]; exact h1 _ _ ih

/-- **C118, what is to be seen.**  Whatever the container held before and whatever the updates were, the page looks like the current
model: its elements with their attributes, texts and order.  Partial: it may not react like it (`C118_added_violated`,
`C118_row_violated`, `C118_initial_violated`), and pages in which an element has an `id` are not modelled. -/
theorem C118_looks_partial (w : U.World) (root : Comp) (initial : List Dom) (ops : List (Op U)) (page : List Dom) (v : VJson)
    (hp : ((Tab.init U w root initial).run ops).page = some page) (hv : ((Tab.init U w root initial).run ops).sys.client = .model v) :
    Looks v page := by
  induction ops using snoc_induction generalizing page v with
  | h0 => cases hv
  | h1 ops op ih =>
    rw [Tab.run_snoc] at hp hv
    rcases Tab.step_cases ((Tab.init U w root initial).run ops) op with ⟨h1, h2⟩ | ⟨v', h1, _, h2⟩ | h
    · exact ih page v (h2 ▸ hp) (h1 ▸ hv)
    · rw [h1] at hv
      injection hv with hv
      subst hv
      rw [h2] at hp
      obtain ⟨p0, _, hp⟩ := Option.bind_eq_some_iff.1 hp
      simp only [renderHtml] at hp
      split at hp
      · injection hp with hp
        subst hp
        obtain ⟨m, hm, ht⟩ := build_shown v'
        exact ⟨m, hm, morphAll_looks _ _ ht.looks⟩
      · cases hp
    · rw [h] at hv; cases hv

/-- Nothing but texts: no element of the page can be taken for one of the model. -/
theorem texts_shown : ∀ {ds : List Dom}, (∀ d ∈ ds, ∃ s, d = .text s) → ∃ l, ShowsAll l ds ∧ ∀ v ∈ l, ∃ s, v = .text s
  | [], _ => ⟨[], .nil, nofun⟩
  | d :: ds, h => by
    obtain ⟨s, rfl⟩ := h d (by simp)
    obtain ⟨l, h1, h2⟩ := texts_shown (ds := ds) fun d hd => h d (by simp [hd])
    refine ⟨.text s :: l, .cons (.text s) h1, fun v hv => ?_⟩
    rcases List.mem_cons.1 hv with rfl | hv
    · exact ⟨s, rfl⟩
    · exact h2 v hv

theorem texts_keep : ∀ (l m : List VJson), (∀ v ∈ l, ∃ s, v = .text s) → Keeps l m
  | [], m, _ => .added m
  | v :: l, [], _ => .removed _
  | v :: l, .text t :: m, h => by
    obtain ⟨s, rfl⟩ := h v (by simp)
    exact .text s t (texts_keep l m fun v hv => h v (by simp [hv]))
  | v :: l, .obj sh c :: m, h => by
    obtain ⟨s, rfl⟩ := h v (by simp)
    exact .gone id (texts_keep l (.obj sh c :: m) fun v hv => h v (by simp [hv]))

/-- **C118, how it reacts.**  If the container held no elements at first, and from each model to the next every element in the place of an
earlier one of the same tag handles the same events with the same targets, then at every moment the page shows the model, each element
with the listeners for the current handlers.  Partial: see `C118_looks_partial`. -/
theorem C118_listeners_partial (w : U.World) (root : Comp) (initial : List Dom) (ops : List (Op U)) (page : List Dom) (v : VJson)
    (hi : ∀ d ∈ initial, ∃ s, d = .text s)
    (hk : ∀ before op after, ops = before ++ op :: after → ∀ v v',
      (Verif.Layout.runSys (initSys U w root) before).client = .model v →
      (Verif.Layout.runSys (initSys U w root) (before ++ [op])).client = .model v' →
      ∃ l m, Flat [v] l ∧ Flat [v'] m ∧ Keeps l m)
    (hp : ((Tab.init U w root initial).run ops).page = some page) (hv : ((Tab.init U w root initial).run ops).sys.client = .model v) :
    Shown v page := by
  have key : ∀ page, ((Tab.init U w root initial).run ops).page = some page →
      (∀ v, ((Tab.init U w root initial).run ops).sys.client = .model v → Shown v page) ∧
      (((Tab.init U w root initial).run ops).sys.client = .empty → page = initial) := by
    clear hp hv
    induction ops using snoc_induction with
    | h0 =>
      intro page hp
      exact ⟨fun v hv => (by cases hv), fun _ => (by injection hp with hp; exact hp.symm)⟩
    | h1 ops op ih =>
      intro page hp
      have ih := ih fun before op' after he => hk before op' (after ++ [op]) (by rw [he]; simp)
      have hsnoc := Tab.run_snoc (Tab.init U w root initial) ops op
      have hsys := Tab.run_sys (Tab.init U w root initial) (ops ++ [op])
      rw [hsnoc] at hp hsys ⊢
      rcases Tab.step_cases ((Tab.init U w root initial).run ops) op with ⟨h1, h2⟩ | ⟨v', h1, hb, h2⟩ | h
      · rw [h1]
        exact ih page (h2 ▸ hp)
      · refine ⟨fun v hv => ?_, fun he => (by rw [h1] at he; cases he)⟩
        rw [h1] at hv
        injection hv with hv
        subst hv
        rw [h2] at hp
        obtain ⟨p0, hp0, hq⟩ := Option.bind_eq_some_iff.1 hp
        obtain ⟨ih1, ih2⟩ := ih p0 hp0
        rcases hc : ((Tab.init U w root initial).run ops).sys.client with _ | v0 | _
        · have := ih2 hc
          subst this
          obtain ⟨l, hl1, hl2⟩ := texts_shown hi
          obtain ⟨m, hm, ht⟩ := build_shown v'
          simp only [renderHtml] at hq
          split at hq
          · injection hq with hq
            subst hq
            exact ⟨m, hm, (all_iff _ _ hl1 ht).2 (texts_keep l m hl2)⟩
          · cases hq
        · refine (C118_update p0 page v0 v' (ih1 v0 hc) hq).2.2 (hk ops op [] rfl v0 v' ?_ ?_)
          · rw [Tab.run_sys] at hc; exact hc
          · rw [hsys] at h1; exact h1
        · exact absurd hc hb
      · exact ⟨fun v hv => (by rw [h] at hv; cases hv), fun he => (by rw [h] at he; cases he)⟩
  exact (key page hp).1 v hv
end

/-- The element at a place of a model (without fragments), given by positions. -/
inductive At : List VJson → List Nat → Shell → Prop
  | here {l : List VJson} {i : Nat} {sh : Shell} {c : Option (List VJson)} : l[i]? = some (.obj sh c) → At l [i] sh
  | inside {l k : List VJson} {i j : Nat} {r : List Nat} {sh sh' : Shell} {c : Option (List VJson)} : l[i]? = some (.obj sh c) →
      Flat (c.getD []) k → At k (j :: r) sh' → At l (i :: j :: r) sh'

theorem ShowsAll.get : ∀ {l : List VJson} {ds : List Dom} {i : Nat} {v : VJson}, ShowsAll l ds → l[i]? = some v →
    ∃ d, ds[i]? = some d ∧ ShowsDom v d
  | _, _, _, _, .nil, h => by cases h
  | _, _, 0, _, .cons hd _, h => by
    simp only [List.getElem?_cons_zero, Option.some.injEq] at h
    subst h
    exact ⟨_, rfl, hd⟩
  | _, _, i + 1, _, .cons _ hs, h => hs.get (i := i) h

/-- **C118, events.**  On a page that shows the model, an event that happens on an element goes to the targets of the handlers the model
has for it there, and to no others. -/
theorem C118_event (v : VJson) (m : List VJson) (page : List Dom) (path : List Nat) (sh : Shell) (event : String) (hs : Shown v page)
    (hm : Flat [v] m) (hat : At m path sh) : fired event page path = ((handled sh).filter (·.1 = event)).map (·.2) := by
  obtain ⟨m', hm', hs⟩ := hs
  cases hm.unique hm'
  clear hm hm'
  induction hat generalizing page with
  | @here l i sh c h =>
    obtain ⟨d, hd, hsd⟩ := hs.get h
    cases hsd with
    | elem _ _ _ hls _ _ =>
      simp only [fired, hd]
      rw [hls, listeners_eq]
      induction handled sh with
      | nil => rfl
      | cons p l ih =>
        simp only [List.map_cons, List.filter_cons]
        split <;> simp_all
  | @inside l k i j r sh sh' c h hk _ ih =>
    obtain ⟨d, hd, hsd⟩ := hs.get h
    cases hsd with
    | elem _ _ _ _ hflat hkids =>
      cases hflat.unique hk
      simp only [fired, hd]
      exact ih _ hkids

/-! ## Cases -/

/-- A button that counts. -/
def countApp : User where
  World := Nat
  render w _ _ _ := (w, .ok (.elem { tag := some "button", handlers := [("onClick", { fn := 0 })] } [.text (if w = 0 then "0" else "1")]))
  unmount w _ := w
  didRender w _ := w
  provValue n := n
  provChildren _ := []

/-- What the button is in the model. -/
def countModel (s : String) : VJson := .obj { tag := "" } (some [.obj
  { tag := "button", handlers := some [⟨"onClick", "/0:onClick", false, false, none, none⟩] } (some [.text s])])

def countOps : List (Op countApp) := [.render 20 0, .user (fun _ => (1 : Nat)), .render 20 0]

theorem count_keeps (s t : String) : ∃ l m, Flat [countModel s] l ∧ Flat [countModel t] m ∧ Keeps l m :=
  ⟨_, _, .fragment rfl (.elem (by decide) .nil), .fragment rfl (.elem (by decide) .nil),
    .elem rfl rfl (.text s .nil) (.text t .nil) (.text s t (.added [])) (.added [])⟩

/-- The counting button meets the hypotheses of `C118_listeners_partial`: it was shown, counted, and still reacts. -/
example : Shown (countModel "1") [.elem "button" [] [⟨"click", "/0:onClick"⟩] [.text "1"]] := by
  refine C118_listeners_partial (U := countApp) (0 : Nat) { type := .fn 0 } [.text "Loading"] countOps _ _ ?_ ?_ (by rfl) (by rfl)
  · intro d hd
    exact ⟨"Loading", by simpa using hd⟩
  · intro before op after he v v' hv hv'
    rcases before with _ | ⟨b1, _ | ⟨b2, _ | ⟨b3, before⟩⟩⟩
    · cases hv
    · injection he with h1 he
      injection he with h2 he
      subst h1 h2
      have e1 : v = countModel "0" := by injection hv with hv; exact hv.symm
      have e2 : v' = countModel "0" := by injection hv' with hv'; exact hv'.symm
      rw [e1, e2]
      exact count_keeps _ _
    · injection he with h1 he
      injection he with h2 he
      injection he with h3 he
      subst h1 h2 h3
      have e1 : v = countModel "0" := by injection hv with hv; exact hv.symm
      have e2 : v' = countModel "1" := by injection hv' with hv'; exact hv'.symm
      rw [e1, e2]
      exact count_keeps _ _
    · have := congrArg List.length he
      simp [countOps] at this

/-- A page that shows one model, and the next. -/
example : Looks (countModel "1") [.elem "button" [] [⟨"click", "/0:onClick"⟩] [.text "1"]] ∧
    (Shown (countModel "1") [.elem "button" [] [⟨"click", "/0:onClick"⟩] [.text "1"]] ↔
      ∃ l m, Flat [countModel "0"] l ∧ Flat [countModel "1"] m ∧ Keeps l m) :=
  C118_update (build (countModel "0")) _ (countModel "0") (countModel "1") (build_shown _) (by rfl)

/-- A form with a field that handles two events. -/
def fieldShell : Shell :=
  { tag := "input", handlers := some [⟨"onInput", "i", false, false, none, none⟩, ⟨"onBlur", "b", false, false, none, none⟩] }

def formModel : VJson := .obj { tag := "form" } (some [.obj fieldShell none])

example : fired "blur" (.text "x" :: build formModel) [1, 0] = ["b"] :=
  (C118_event (.obj { tag := "" } (some [.text "x", formModel])) [.text "x", formModel] (build (.obj { tag := "" } (some [.text "x", formModel])))
    [1, 0] fieldShell "blur" (build_shown _) (.fragment rfl (.text _ (.elem (by decide) .nil)))
    (.inside (c := some [.obj fieldShell none]) (k := [.obj fieldShell none]) (by rfl) (.elem (by decide) .nil)
      (.here (c := none) (by rfl)))).trans (by decide +kernel)

/-- A button that can be clicked from some time on. -/
def lateApp : User where
  World := Nat
  render w _ _ _ := (w, .ok (.elem { tag := some "button", handlers := match w with
    | 0 => []
    | _ => [("onClick", { fn := 0 })] } []))
  unmount w _ := w
  didRender w _ := w
  provValue n := n
  provChildren _ := []

/-- The model of the button that can be clicked. -/
def lateModel : VJson := .obj { tag := "" } (some [.obj
  { tag := "button", handlers := some [⟨"onClick", "/0:onClick", false, false, none, none⟩] } none])

theorem late_not_shown : ¬ Shown lateModel [.elem "button" [] [] []] := by
  rintro ⟨m, hm, hs⟩
  cases hm with
  | elem ht _ => exact ht rfl
  | fragment _ hm =>
    cases hm with
    | fragment ht _ => exact absurd ht (by decide)
    | elem _ hm =>
      cases hs with
      | cons h _ =>
        cases h with
        | elem _ _ _ hls _ _ => cases hls

/-- The page still looks right (`C118_looks_partial`). -/
example : Looks lateModel [.elem "button" [] [] []] :=
  C118_looks_partial (U := lateApp) (0 : Nat) { type := .fn 0 } [] [.render 20 0, .user (fun _ => (1 : Nat)), .render 20 0] _ _
    (by rfl) (by rfl)

/-- **C118 is violated** by a handler that is added to an element on the page: the page does not listen to its event. -/
theorem C118_added_violated :
    let t := (Tab.init lateApp (0 : Nat) { type := .fn 0 } []).run [.render 20 0, .user (fun _ => (1 : Nat)), .render 20 0]
    t.sys.client = .model lateModel ∧ t.page = some [.elem "button" [] [] []] ∧ ¬ Shown lateModel [.elem "button" [] [] []] :=
  ⟨by rfl, by rfl, late_not_shown⟩

/-- **C118 is violated** by initial content of the same tag: the button shown while the code was loaded becomes the component's button,
which no click ever reaches, although it has a handler from the start. -/
theorem C118_initial_violated :
    let t := (Tab.init lateApp (1 : Nat) { type := .fn 0 } [.elem "button" [] [] [.text "Loading"]]).run [.render 20 0]
    t.sys.client = .model lateModel ∧ t.page = some [.elem "button" [] [] []] ∧ ¬ Shown lateModel [.elem "button" [] [] []] :=
  ⟨by rfl, by rfl, late_not_shown⟩

/-- The text at a place of the page, given by positions. -/
def textAt : List Dom → List Nat → Option String
  | _, [] => none
  | ds, i :: r => match ds[i]? with
    | some (.text s) => if r.isEmpty then some s else none
    | some (.elem _ _ _ kids) => textAt kids r
    | none => none

/-- Two rows with keys, of which the first is removed. -/
def rowApp : User where
  World := Nat
  render w _ _ _ := (w, .ok (.elem { tag := some "div" } ((match w with | 0 => ["a", "b"] | _ => ["b"]).map fun k =>
    .elem { tag := some "button", attrs := some [("key", .key (.str k))], handlers := [("onClick", { fn := 0 })] } [.text k])))
  unmount w _ := w
  didRender w _ := w
  provValue n := n
  provChildren _ := []

/-- **C118 is violated** by rows that move up: when the first row is removed, the page shows the second in its place, but a click on it
goes to the handler of the removed row, which is gone, and not to the row's own, which is there. -/
theorem C118_row_violated :
    let t := (Tab.init rowApp (0 : Nat) { type := .fn 0 } []).run [.render 20 0, .user (fun _ => (1 : Nat)), .render 20 0]
    t.page.map (textAt · [0, 0, 0]) = some (some "b") ∧
    t.page.map (fired "click" · [0, 0]) = some ["/0/a:onClick"] ∧
    t.sys.layout.st.handlers.map (·.1) = ["/0/b:onClick"] :=
  ⟨by decide +kernel, by decide +kernel, by decide +kernel⟩

end Verif.Pyscript
