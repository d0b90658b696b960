import Verif.Whole.Model
import Verif.Layout.Props
import Verif.Client.ElementProps
/-! # C98: the page shows what the components rendered last -/
namespace Verif.Whole
open Verif.Layout (VJson Shell HEntry AVal Update Layout User Comp Raw ElemInfo Ctx lastRender handlerFor runSys initSys Shows Failed)
open Verif.Client.Elem (Out PropVal inherited)
variable {U : User}

/-! ## Specification -/

/-- An interval in milliseconds that the client accepts. -/
def interval : Option Int → Option Nat
  | some n => if 0 ≤ n then some n.toNat else none
  | none => none

/-- Elements that keep what the user types. -/
def isInput (tag : String) : Bool := tag = "input" || tag = "select" || tag = "textarea"

/-- The properties of the page's element for a VDOM element: under every name the inline JavaScript, the event handler or the attribute
that the element was given, in this order.  `R` relates the target that the handler sends to the handler of the component.  An input
keeps its own value. -/
def PropsShown (V : Values) (R : String → Layout.Handler → Prop) (tag : String) (i : ElemInfo) (props : List (String × PropVal)) : Prop :=
  ∀ name, if isInput tag ∧ (name = "_reactpy_ack_seq" ∨ name = "value") then Client.Elem.get props name = none
    else match Client.Elem.get ((i.inlineJs.map V.inline).getD []) name with
      | some code => Client.Elem.get props name = some (.js code)
      | none => match Client.Elem.get i.handlers name with
        | some h => ∃ hc, Client.Elem.get props name = some (.handler hc (interval h.throttle) (if isInput tag then interval h.debounce else none) (isInput tag)) ∧
            R hc.target h ∧ hc.preventDefault = h.preventDefault ∧ hc.stopPropagation = h.stopPropagation
        | none => Client.Elem.get props name = ((Client.Elem.get (i.attrs.getD []) name).map V.attr).map .attr

/-- Elements of HTML other than scripts.  (Scripts: C88; imported components: C76 to C78.) -/
def Html (i : ElemInfo) : Prop := ∃ tag, i.tag = some tag ∧ tag ≠ "script" ∧ tag ∉ Client.Elem.objectMembers ∧ i.importSource = none

/-- `Displays V U hist R raws outs`: what components return (`raws`) is shown in the page as `outs`.  Nothing is shown for `None`; text as
itself; an element as itself with its children; a component as what its most recent call returned, or as the message of its error, which
is shown in debug mode only.  Of elements other than HTML nothing is said. -/
inductive Displays (V : Values) (U : User) (hist : Nat → Option (Comp × Ctx × Except String Raw)) (R : String → Layout.Handler → Prop) :
    List Raw → List Out → Prop
  | nil : Displays V U hist R [] []
  | none {rs os} : Displays V U hist R rs os → Displays V U hist R (.none :: rs) os
  | text {t rs os} : Displays V U hist R rs os → Displays V U hist R (.text t :: rs) (.text t :: os)
  | elem {tag i cs props ks rs os} : i.tag = some tag → isInput tag = false → PropsShown V R tag i props →
      Displays V U hist R cs ks → Displays V U hist R rs os → Displays V U hist R (.elem i cs :: rs) (.elem tag props ks :: os)
  | input {tag i cs props ks rs os} : i.tag = some tag → isInput tag = true → PropsShown V R tag i props →
      Displays V U hist R cs ks → Displays V U hist R rs os → Displays V U hist R (.elem i cs :: rs) (.input tag props ks :: os)
  | other {i cs o rs os} : ¬ Html i → Displays V U hist R rs os → Displays V U hist R (.elem i cs :: rs) (o :: os)
  | comp {c id seen raw ks rs os} : hist id = some (c, seen, .ok raw) → Displays V U hist R [raw] ks → Displays V U hist R rs os →
      Displays V U hist R (.comp c :: rs) (.elem "" [] ks :: os)
  | fail {c id seen e rs os} : hist id = some (c, seen, .error e) → Displays V U hist R rs os →
      Displays V U hist R (.comp c :: rs) ((if U.debug = true ∧ e ≠ "" then .error e else .null) :: os)

/-- The root component has failed at some time. -/
def RootFailed (log : List Layout.Ev) : Prop := ∃ c seen e, .rendered 0 c seen (.error e) ∈ log

/-! ## The client's model -/

theorem web_layout (w : U.World) (root : Comp) (ops : List (Layout.Op U)) :
    (runWeb w root ops).layout = (runSys (initSys U w root) ops).layout := by
  obtain ⟨l, rfl⟩ : ∃ l, ops = List.reverse l := ⟨ops.reverse, by simp⟩
  induction l with
  | nil => rfl
  | cons op l ih =>
    rw [List.reverse_cons]
    generalize l.reverse = ops at ih ⊢
    have h1 : runWeb w root (ops ++ [op]) = stepWeb (runWeb w root ops) op := by simp [runWeb]
    have h2 : runSys (initSys U w root) (ops ++ [op]) = Layout.stepSys (runSys (initSys U w root) ops) op := by simp [runSys]
    rw [h1, h2, Layout.stepSys_layout, ← ih]
    unfold stepWeb
    split <;> simp_all

theorem shows_root {hist R root v F} (h : Shows U hist R [(.comp root, none)] [v] F) :
    (∃ ws, v = .obj { tag := "" } (some ws)) ∨ ∃ id seen e, hist id = some (root, seen, .error e) ∧ F = [.comp none id root []] := by
  cases h with
  | comp _ _ h3 => exact .inl ⟨_, rfl⟩
  | fail h1 h2 => cases h2; exact .inr ⟨_, _, _, h1, rfl⟩

/-- The model of the JavaScript client is the one of `Sys`, unless the root component fails. -/
theorem web_current (w : U.World) (root : Comp) (ops : List (Layout.Op U)) (hs : (runSys (initSys U w root) ops).stray = false)
    (hf : ¬ RootFailed (runSys (initSys U w root) ops).layout.st.log) :
    ((runSys (initSys U w root) ops).client = .empty ∧ (runWeb w root ops).current = some (.obj { tag := "" } none)) ∨
    ∃ ws, (runSys (initSys U w root) ops).client = .model (.obj { tag := "" } (some ws)) ∧
      (runWeb w root ops).current = some (.obj { tag := "" } (some ws)) := by
  obtain ⟨l, rfl⟩ : ∃ l, ops = List.reverse l := ⟨ops.reverse, by simp⟩
  induction l with
  | nil => exact .inl ⟨rfl, rfl⟩
  | cons op l ih =>
    rw [List.reverse_cons] at hs hf ⊢
    generalize l.reverse = ops at ih hs hf ⊢
    have h1 : runWeb w root (ops ++ [op]) = stepWeb (runWeb w root ops) op := by simp [runWeb]
    have h2 : runSys (initSys U w root) (ops ++ [op]) = Layout.stepSys (runSys (initSys U w root) ops) op := by simp [runSys]
    have hr := Layout.rinv_run w root ops
    obtain ⟨_, t, hg⟩ := Layout.ginv_step (Layout.step_cases (runSys (initSys U w root) ops).layout op) hr.lay hr.g
    have hs' : (runSys (initSys U w root) ops).stray = false := by
      rw [h2, Layout.stepSys_stray] at hs
      simp only [Bool.or_eq_false_iff] at hs
      exact hs.1
    have hf' : ¬ RootFailed (runSys (initSys U w root) ops).layout.st.log := by
      rintro ⟨c, x, e, he⟩
      refine hf ⟨c, x, e, ?_⟩
      rw [h2, Layout.stepSys_layout, hg]
      exact List.mem_append_right _ he
    have ih := ih hs' hf'
    have hroot : ∀ v, (runSys (initSys U w root) (ops ++ [op])).client = .model v → ∃ ws, v = .obj { tag := "" } (some ws) := by
      intro v hv
      rcases (Layout.rinv_run w root (ops ++ [op])).client hs with ⟨a, _⟩ | ⟨a, b⟩
      · rw [hv] at a; simp at a
      · rw [hv] at a
        cases a
        obtain ⟨e, ks, ht⟩ := (Layout.rinv_run w root (ops ++ [op])).lay.isRoot
        have sh := b.shows (fun _ _ => True) (fun _ _ => trivial)
        rw [ht] at sh ⊢
        simp only [Layout.viewL, Layout.instsL, Layout.Node.insts, List.append_nil] at sh
        rcases shows_root sh with h | ⟨id, seen, er, h, hi⟩
        · exact h
        · simp only [List.cons.injEq, Layout.Inst.comp.injEq] at hi
          rw [← hi.1.2.1] at h
          exact absurd ⟨_, _, _, Layout.lastRender_mem h⟩ hf
    have hstep : ∀ u, (Layout.stepOp (runSys (initSys U w root) ops).layout op).2 = .update u →
        (runSys (initSys U w root) (ops ++ [op])).client = Layout.applyUpdate u (runSys (initSys U w root) ops).client ∧
        (runWeb w root (ops ++ [op])).current = (runWeb w root ops).current.bind (jsApply u) := by
      intro u hu
      rw [h1, h2]
      unfold stepWeb Layout.stepSys
      rw [web_layout]
      simp only
      split <;> simp_all
    by_cases hu : ∃ u, (Layout.stepOp (runSys (initSys U w root) ops).layout op).2 = .update u
    · obtain ⟨u, hu⟩ := hu
      obtain ⟨e1, e2⟩ := hstep u hu
      rcases (Layout.rinv_run w root (ops ++ [op])).client hs with ⟨a, _⟩ | ⟨a, _⟩
      · rw [a] at e1
        rcases ih with ⟨c, _⟩ | ⟨ws, c, _⟩
        · rw [c] at e1; simp only [Layout.applyUpdate] at e1; split at e1 <;> simp at e1
        · rw [c] at e1; simp only [Layout.applyUpdate] at e1; split at e1 <;> simp at e1
      · obtain ⟨ws, hw⟩ := hroot _ a
        rw [hw] at a
        refine .inr ⟨ws, a, ?_⟩
        rw [a] at e1
        rw [e2]
        rcases ih with ⟨c, d⟩ | ⟨ws', c, d⟩
        · rw [c] at e1
          simp only [Layout.applyUpdate] at e1
          split at e1
          · rename_i hp
            simp only [Layout.Client.model.injEq] at e1
            simp [d, jsApply, hp, ← e1, assign]
          · simp at e1
        · rw [c] at e1
          simp only [Layout.applyUpdate] at e1
          split at e1
          · rename_i v' hv'
            cases e1
            rw [d]
            simp only [Option.bind_some, jsApply]
            split
            · rename_i hp
              rw [hp] at hv'
              simp only [Layout.setAt, Option.some.injEq] at hv'
              rw [hv']
              simp [assign]
            · exact hv'
          · simp at e1
    · have h3 : (runSys (initSys U w root) (ops ++ [op])).client = (runSys (initSys U w root) ops).client := by
        rw [h2]; unfold Layout.stepSys; simp only
        split <;> simp_all
      have h4 : (runWeb w root (ops ++ [op])).current = (runWeb w root ops).current := by
        rw [h1]; unfold stepWeb
        rw [web_layout]
        split <;> simp_all
      rw [h3, h4]
      exact ih

/-! ## From the model to the page -/

theorem get_cons {α : Type} (p : String × α) (l : List (String × α)) (k : String) :
    Client.Elem.get (p :: l) k = match Client.Elem.get l k with
      | some v => some v
      | none => if p.1 = k then some p.2 else none := by
  have := Client.Elem.get_append [p] l k
  simp only [List.cons_append, List.nil_append] at this
  have hp : Client.Elem.get [p] k = if p.1 = k then some p.2 else none := by
    simp only [Client.Elem.get, List.reverse_cons, List.reverse_nil, List.nil_append, List.find?_cons, List.find?_nil]
    by_cases h : p.1 = k
    · simp [h]
    · have : (p.1 == k) = false := by simp [h]
      simp [h, this]
  rw [this, hp]
  cases Client.Elem.get l k <;> rfl

theorem get_entries {R : String → Layout.Handler → Prop} {hs : List (String × Layout.Handler)} {es : List HEntry}
    (h : Layout.EntriesShown R hs es) (name : String) :
    match Client.Elem.get hs name with
    | some hd => ∃ e, Layout.EntryShown R (name, hd) e ∧ Client.Elem.get (es.map entry) name = some (entry e).2
    | none => Client.Elem.get (es.map entry) name = none := by
  induction hs generalizing es with
  | nil =>
    cases es with
    | nil => simp [Client.Elem.get]
    | cons e es => simp [Layout.EntriesShown] at h
  | cons p hs ih =>
    cases es with
    | nil => simp [Layout.EntriesShown] at h
    | cons e es =>
      obtain ⟨h1, h2⟩ := h
      have := ih h2
      rw [get_cons, List.map_cons, get_cons]
      cases hg : Client.Elem.get hs name with
      | some hd =>
        rw [hg] at this
        obtain ⟨e', a, b⟩ := this
        exact ⟨e', a, by rw [b]⟩
      | none =>
        rw [hg] at this
        simp only at this ⊢
        rw [this]
        have he : (entry e).1 = p.1 := h1.event
        by_cases hp : p.1 = name
        · subst hp
          simp only [if_true, he]
          exact ⟨e, h1, rfl⟩
        · simp [hp, he]

theorem get_mapv {α β : Type} (f : α → β) (l : List (String × α)) (k : String) :
    Client.Elem.get (l.map fun p => (p.1, f p.2)) k = (Client.Elem.get l k).map f := by
  induction l with
  | nil => simp [Client.Elem.get]
  | cons p l ih =>
    rw [List.map_cons, get_cons, get_cons, ih]
    cases Client.Elem.get l k with
    | some v => simp
    | none => by_cases h : p.1 = k <;> simp [h]

theorem valid_interval (x : Option Int) : Client.Elem.valid (x.map .num) = interval x := by
  cases x <;> simp [Client.Elem.valid, interval]

theorem isInput_iff (tag : String) : (tag = "input" ∨ tag = "select" ∨ tag = "textarea") ↔ isInput tag = true := by
  simp [isInput, or_assoc]

theorem attrs_get {V : Values} {tag : String} {a a' : Option Layout.Attrs} (h : Layout.AttrsShown tag a a') (name : String)
    (hn : isInput tag = true → name ≠ "_reactpy_ack_seq") :
    Client.Elem.get ((a'.getD []).map (fun p => (p.1, V.attr p.2))) name = (Client.Elem.get (a.getD []) name).map V.attr := by
  rw [get_mapv]
  rcases h with rfl | ⟨ht, l, n, rfl, rfl⟩
  · rfl
  · have ht : isInput tag = true := by rw [← isInput_iff]; simpa using ht
    have hn := hn ht
    simp only [Option.getD_some]
    rw [Client.Elem.get_append]
    have : Client.Elem.get [("_reactpy_ack_seq", AVal.ack n)] name = none := by
      simp [Client.Elem.get, Ne.symm hn]
    rw [this]

theorem props_shown {V : Values} {R : String → Layout.Handler → Prop} {i : ElemInfo} {sh : Shell} (h : Layout.ElemShown R i sh)
    {props : List (String × PropVal)}
    (hp : ∀ name, Client.Elem.get props name = if isInput sh.tag ∧ (name = "_reactpy_ack_seq" ∨ name = "value") then none
      else Client.Elem.wanted (fun h => .handler h (Client.Elem.valid h.throttle) (if isInput sh.tag then Client.Elem.valid h.debounce else none) (isInput sh.tag))
        ((sh.attrs.getD []).map (fun p => (p.1, V.attr p.2))) ((sh.handlers.getD []).map entry) ((sh.inlineJs.map V.inline).getD []) name) :
    PropsShown V R sh.tag i props := by
  intro name
  rw [hp name]
  split
  · rfl
  · rename_i hc
    have hh : Layout.EntriesShown R i.handlers (sh.handlers.getD []) := by
      rcases h.handlers with ⟨a, b⟩ | ⟨_, es, b, c⟩
      · rw [a, b]; trivial
      · rw [b]; exact c
    have hg := get_entries hh name
    rw [h.inlineJs]
    unfold Client.Elem.wanted
    cases Client.Elem.get ((i.inlineJs.map V.inline).getD []) name with
    | some code => rfl
    | none =>
      simp only
      cases hi : Client.Elem.get i.handlers name with
      | some hd =>
        rw [hi] at hg
        obtain ⟨e, a, b⟩ := hg
        rw [b]
        refine ⟨(entry e).2, ?_, a.routed, a.preventDefault, a.stopPropagation⟩
        simp only [entry, valid_interval, a.throttle, a.debounce]
      | none =>
        rw [hi] at hg
        simp only at hg
        rw [hg]
        simp only
        rw [attrs_get h.attrs name (fun hin he => hc ⟨hin, .inl he⟩)]

theorem displays_filter {V : Values} {hist R} {cs : List Raw} {os : List Out} (h : Displays V U hist R (cs.filter (fun r => !r.isNone)) os) :
    Displays V U hist R cs os := by
  induction cs generalizing os with
  | nil => exact h
  | cons c cs ih =>
    cases c with
    | none => exact .none (ih (by simpa [Raw.isNone] using h))
    | text t =>
      simp only [Raw.isNone, List.filter_cons, Bool.not_false, if_true] at h
      cases h with
      | text h => exact .text (ih h)
    | elem i ks =>
      simp only [Raw.isNone, List.filter_cons, Bool.not_false, if_true] at h
      cases h with
      | elem a b c d h => exact .elem a b c d (ih h)
      | input a b c d h => exact .input a b c d (ih h)
      | other a h => exact .other a (ih h)
    | comp c =>
      simp only [Raw.isNone, List.filter_cons, Bool.not_false, if_true] at h
      cases h with
      | comp a b h => exact .comp a b (ih h)
      | fail a h => exact .fail a (ih h)

theorem keyed_raws (cs : List Raw) : (Layout.keyed cs).map (·.1) = cs.filter (fun r => !r.isNone) := by
  unfold Layout.keyed
  rw [List.map_map]
  have : ∀ (l : List Raw) (n : Nat), ((l.zipIdx n).filter (fun p => !p.1.isNone)).map (fun p => p.1) = l.filter (fun r => !r.isNone) := by
    intro l
    induction l with
    | nil => intro n; rfl
    | cons r l ih =>
      intro n
      simp only [List.zipIdx_cons, List.filter_cons]
      split
      · rw [List.map_cons, ih]
      · exact ih _
  exact this cs 0

theorem displays {V : Values} {hist R rs vs F} (h : Shows U hist R rs vs F) :
    Displays V U hist R (rs.map (·.1)) (Client.Elem.elements (toModelL V vs)) := by
  induction h with
  | nil => exact .nil
  | text _ ih => simp only [toModelL, toModel, Client.Elem.elements, Client.Elem.element, List.map_cons]; exact .text ih
  | @elem i cs k sh ws G rs vs F hs h1 h2 ih1 ih2 =>
    simp only [toModelL, Client.Elem.elements, List.map_cons]
    by_cases hh : Html i
    · obtain ⟨tag, e1, e2, e3, e4⟩ := hh
      have ht : sh.tag = tag := by rw [hs.tag] at e1; simpa using e1
      subst ht
      rw [keyed_raws] at ih1
      have ih1 := displays_filter ih1
      have hk : toModel V (.obj sh (if cs = [] then none else some ws)) = .el sh.tag none ((sh.attrs.getD []).map (fun p => (p.1, V.attr p.2)))
          ((sh.handlers.getD []).map entry) ((sh.inlineJs.map V.inline).getD []) none (toModelL V ws) := by
        have h0 : sh.importSource = none := by rw [hs.importSource]; exact e4
        split
        · rename_i hc
          subst hc
          cases h1
          simp only [toModel, toModelL, hs.noError, h0, Option.map_none]
        · simp only [toModel, hs.noError, h0, Option.map_none]
      rw [hk]
      cases hin : isInput sh.tag with
      | true =>
        have h3 := (isInput_iff sh.tag).2 hin
        simp only [Client.Elem.element, h3, if_true]
        refine .input e1 hin (props_shown hs fun name => ?_) ih1 ih2
        rw [Client.Elem.get_input]
        simp [hin]
      | false =>
        have h3 : ¬ (sh.tag = "input" ∨ sh.tag = "select" ∨ sh.tag = "textarea") := by rw [isInput_iff, hin]; simp
        simp only [Client.Elem.element, Client.Elem.objectMembers_eq, h3, e2, e3, if_false]
        refine .elem e1 hin (props_shown hs fun name => ?_) ih1 ih2
        rw [Client.Elem.get_standard]
        simp [hin]
    · exact .other hh ih2
  | @comp c k id seen raw ws G rs vs F h0 h1 h2 ih1 ih2 =>
    simp only [toModelL, Client.Elem.elements, List.map_cons]
    have : Client.Elem.element (toModel V (.obj { tag := "" } (some ws))) = .elem "" [] (Client.Elem.elements (toModelL V ws)) := by
      simp [toModel, Client.Elem.element, inherited, Client.Elem.createAttributes, Client.Elem.throttleAll]
    rw [this]
    rw [keyed_raws] at ih1
    exact .comp h0 (displays_filter ih1) ih2
  | @fail c k id seen e rs vs F h0 h1 ih =>
    simp only [toModelL, Client.Elem.elements, List.map_cons]
    have : Client.Elem.element (toModel V (.obj { tag := "", error := some (if U.debug then e else "") } none)) =
        if U.debug = true ∧ e ≠ "" then .error e else .null := by
      cases U.debug <;> by_cases he : e = "" <;> simp [toModel, Client.Elem.element, he]
    rw [this]
    exact .fail h0 ih

/-- **C98** (partial: the root component has not failed, `stray = false`).  The page shows what the root component displays: each
component by its most recent render, at every moment; before the first render it is empty. -/
theorem C98_content_partial (V : Values) (w : U.World) (root : Comp) (ops : List (Layout.Op U))
    (hs : (runSys (initSys U w root) ops).stray = false) (hf : ¬ RootFailed (runWeb w root ops).layout.st.log) :
    let s := runWeb w root ops
    (s.page V = some (.elem "" [] []) ∧ lastRender s.layout.st.log 0 = none) ∨
    ∃ o, s.page V = some o ∧ Displays V U (lastRender s.layout.st.log) (fun _ _ => True) [.comp root] [o] := by
  intro s
  have hl : s.layout = _ := web_layout w root ops
  rw [web_layout] at hf
  rw [hl]
  rcases web_current w root ops hs hf with ⟨h1, h2⟩ | ⟨ws, h1, h2⟩
  · refine .inl ⟨?_, ?_⟩
    · unfold Web.page; rw [show s.current = _ from h2]; rfl
    · rcases Layout.C01_client_view_partial w root ops hs with ⟨_, h⟩ | ⟨v, F, h, _⟩
      · exact h
      · rw [h1] at h; simp at h
  · refine .inr ⟨_, by unfold Web.page; rw [show s.current = _ from h2]; rfl, ?_⟩
    rcases Layout.C01_client_view_partial w root ops hs with ⟨h, _⟩ | ⟨v, F, h, _, h3⟩
    · rw [h1] at h; simp at h
    · rw [h1] at h
      cases h
      exact displays h3

/-- **C98** (partial: plain applications, the root component has not failed, `stray = false`).  Moreover, when the user acts on an element,
the message that its handler sends makes the server run the function that the most recent render attached to the element. -/
theorem C98_page_partial (hU : U.Plain) (V : Values) (w : U.World) (root : Comp) (ops : List (Layout.Op U))
    (hs : (runSys (initSys U w root) ops).stray = false) (hf : ¬ RootFailed (runWeb w root ops).layout.st.log) :
    let s := runWeb w root ops
    (s.page V = some (.elem "" [] []) ∧ lastRender s.layout.st.log 0 = none) ∨
    ∃ o, s.page V = some o ∧ Displays V U (lastRender s.layout.st.log) (fun target h => handlerFor s.layout target = some h.fn) [.comp root] [o] := by
  intro s
  have hc := C98_content_partial V w root ops hs hf
  have hl : s.layout = _ := web_layout w root ops
  rw [web_layout] at hf
  rcases web_current w root ops hs hf with ⟨h1, h2⟩ | ⟨ws, h1, h2⟩
  · rcases hc with hc | ⟨o, h, _⟩
    · exact .inl hc
    · rcases Layout.C01_client_view_partial w root ops hs with ⟨_, h⟩ | ⟨v, F, h, _⟩
      · refine .inl ⟨?_, by rw [hl]; exact h⟩
        unfold Web.page; rw [show s.current = _ from h2]; rfl
      · rw [h1] at h; simp at h
  · refine .inr ⟨_, by unfold Web.page; rw [show s.current = _ from h2]; rfl, ?_⟩
    obtain ⟨F, h⟩ := Layout.C04_routing_partial hU w root ops hs _ h1
    rw [hl]
    exact displays h

/-- Values for the examples. -/
def exValues : Values where
  attr a := match a with
    | .ack n => .num n
    | _ => .other 0
  inline _ := []
  source n := { source := n }

/-- The page of `exApp` after a change: the paragraph shows the new value and sends its clicks to the new handler. -/
example : Layout.exApp.Plain ∧
    (let ops : List (Layout.Op Layout.exApp) := [.render 20 0, .user (fun _ => (7 : Nat)), .render 20 1]
    (runSys (initSys Layout.exApp (5 : Nat) { type := .fn 0 }) ops).stray = false ∧
    ¬ RootFailed (runWeb (U := Layout.exApp) (5 : Nat) { type := .fn 0 } ops).layout.st.log ∧
    (runWeb (U := Layout.exApp) (5 : Nat) { type := .fn 0 } ops).page exValues = some (.elem "" [] [.elem "div" [] [.elem "" [] [.elem "p"
      [("onClick", .handler { target := "/0/a/0:onClick" } none none false)] [.text "7"]], .text "x"]]) ∧
    handlerFor (runWeb (U := Layout.exApp) (5 : Nat) { type := .fn 0 } ops).layout "/0/a/0:onClick" = some 7) :=
  ⟨Layout.exApp_plain, by decide +kernel, fun ⟨c, x, e, h⟩ => (show ¬ Failed _ by rw [Layout.failedB_iff]; decide +kernel) ⟨0, c, x, e, h⟩,
    by rfl, by decide +kernel⟩

/-- `failApp`: everything is rendered, the root fails, and is rendered without error again. -/
def recoverOps : List (Layout.Op Layout.failApp) :=
  [.render 20 0, .user (fun _ => (1 : Nat)), .render 20 0, .user (fun _ => (0 : Nat)), .render 20 0]

/-- What the root displays in the end. -/
def recovered : List VJson :=
  [.obj { tag := "" } (some [.obj { tag := "" } (some [.obj { tag := "p", handlers := some [⟨"onClick", "/0/0/0:onClick", false, false, none, none⟩] } none])])]

theorem recover_current : (runWeb (U := Layout.failApp) (0 : Nat) { type := .fn 0 } recoverOps).current =
    some (.obj { tag := "", error := some "boom" } (some recovered)) := by
  have h : ((runWeb (U := Layout.failApp) (0 : Nat) { type := .fn 0 } recoverOps).current.any
    (fun v => v.same (.obj { tag := "", error := some "boom" } (some recovered)))) = true := by decide +kernel
  revert h
  generalize (runWeb (U := Layout.failApp) (0 : Nat) { type := .fn 0 } recoverOps).current = c
  cases c with
  | none => simp
  | some v => exact fun h => congrArg some (Layout.VJson.same_eq v _ (by simpa using h))

/-- **C98 is violated** after the root component has failed once: it is rendered without error again, and the page still shows the error. -/
theorem C98_error_violated : ∃ (U : User) (w : U.World) (root : Comp) (ops : List (Layout.Op U)) (seen : Ctx) (raw : Raw) (v : VJson),
    U.Plain ∧ (runSys (initSys U w root) ops).stray = false ∧ (runSys (initSys U w root) ops).client = .model v ∧
    v.targets = ["/0/0/0:onClick"] ∧ lastRender (runWeb w root ops).layout.st.log 0 = some (root, seen, .ok raw) ∧
    ∀ V, (runWeb w root ops).page V = some (.error "boom") := by
  have hc : (runSys (initSys Layout.failApp (0 : Nat) { type := .fn 0 }) recoverOps).client = .model (.obj { tag := "" } (some recovered)) :=
    Layout.Client.holds_iff (by decide +kernel)
  have hs : (runSys (initSys Layout.failApp (0 : Nat) { type := .fn 0 }) recoverOps).stray = false := by decide +kernel
  rcases Layout.C01_client_view_partial (U := Layout.failApp) (0 : Nat) { type := .fn 0 } recoverOps hs with ⟨h, _⟩ | ⟨v, F, h, _, sh⟩
  · rw [hc] at h; simp at h
  · rw [hc] at h
    cases h
    refine ⟨Layout.failApp, (0 : Nat), { type := .fn 0 }, recoverOps, ?_⟩
    have hr : (lastRender (runWeb (U := Layout.failApp) (0 : Nat) { type := .fn 0 } recoverOps).layout.st.log 0).any
        (fun p => decide (p.1 = { type := .fn 0 }) && p.2.2.toOption.isSome) = true := by decide +kernel
    revert hr
    cases hx : lastRender (runWeb (U := Layout.failApp) (0 : Nat) { type := .fn 0 } recoverOps).layout.st.log 0 with
    | none => simp
    | some p =>
      obtain ⟨c, seen, out⟩ := p
      cases out with
      | error e => simp [Except.toOption]
      | ok raw =>
        intro hr
        simp only [Option.any_some, Except.toOption, Option.isSome_some, Bool.and_true, decide_eq_true_eq] at hr
        refine ⟨seen, raw, _, Layout.failApp_plain, hs, hc, by decide +kernel, by rw [hr], fun V => ?_⟩
        unfold Web.page
        rw [recover_current]
        rfl

end Verif.Whole
