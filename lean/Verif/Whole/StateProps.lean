import Verif.Whole.State
import Verif.Whole.ParallelProps
import Verif.Layout.FuelProps
/-! # C113: at rest the page is a function of the state -/
namespace Verif.Whole
open Verif.Layout (VJson Shell HEntry AVal Update Layout User Comp Raw ElemInfo Ctx lastRender handlerFor Shows Failed St Ev Run Node bodiesOf
  unmountNode unmountKids unmountAll prepareComp prepareModel enterComp runBody runExit renderOp renderAt)
open Verif.Parallel (put put_same put_ne Ctl observe schedule follow start events)
open Verif.Client.Elem (Out PropVal inherited)
variable {A : App}

/-! ## Specification -/

/-- `View V A st R seen raws outs ids`: the page shows `outs` where components return `raws`, if the state of the application is `st` and the contexts are
`seen`; `ids` are the component instances in it, from left to right, outer ones first.  A component is shown as what its body returns for its present state and
for the contexts it sees; a context provider as its children, which see its value.  If the body raises an exception or returns something that cannot be displayed,
its message is shown, in debug mode only.  Text, elements and `None` as in `Displays`; of elements other than HTML nothing is said. -/
inductive View (V : Values) (A : App) (st : A.State) (R : String → Layout.Handler → Prop) : Ctx → List Raw → List Out → List Nat → Prop
  | nil {seen} : View V A st R seen [] [] []
  | none {seen rs os ids} : View V A st R seen rs os ids → View V A st R seen (.none :: rs) os ids
  | text {seen t rs os ids} : View V A st R seen rs os ids → View V A st R seen (.text t :: rs) (.text t :: os) ids
  | elem {seen tag i cs props ks rs os ids ids'} : i.tag = some tag → isInput tag = false → PropsShown V R tag i props →
      View V A st R seen cs ks ids → View V A st R seen rs os ids' → View V A st R seen (.elem i cs :: rs) (.elem tag props ks :: os) (ids ++ ids')
  | input {seen tag i cs props ks rs os ids ids'} : i.tag = some tag → isInput tag = true → PropsShown V R tag i props →
      View V A st R seen cs ks ids → View V A st R seen rs os ids' → View V A st R seen (.elem i cs :: rs) (.input tag props ks :: os) (ids ++ ids')
  | other {seen i cs o rs os ids} : ¬ Html i → View V A st R seen rs os ids → View V A st R seen (.elem i cs :: rs) (o :: os) ids
  | comp {seen c n id v raw ks rs os ids ids'} : c.type = .fn n → st id = some v → A.body id c v seen = .ok raw → ¬ raw.Malformed →
      View V A st R seen [raw] ks ids → View V A st R seen rs os ids' → View V A st R seen (.comp c :: rs) (.elem "" [] ks :: os) (id :: ids ++ ids')
  | prov {seen c x id ks rs os ids ids'} : c.type = .ctx x → ¬ (Raw.elem { tag := some "" } (A.provChildren c.props)).Malformed →
      View V A st R (fun y => if y = x then some (A.provValue c.props) else seen y) [.elem { tag := some "" } (A.provChildren c.props)] ks ids →
      View V A st R seen rs os ids' → View V A st R seen (.comp c :: rs) (.elem "" [] ks :: os) (id :: ids ++ ids')
  | fail {seen c n id v e rs os ids} : c.type = .fn n → st id = some v →
      (A.body id c v seen = .error e ∨ ∃ raw, A.body id c v seen = .ok raw ∧ raw.Malformed ∧ e = "ValueError") →
      View V A st R seen rs os ids → View V A st R seen (.comp c :: rs) ((if A.debug = true ∧ e ≠ "" then .error e else .null) :: os) (id :: ids)
  | provFail {seen c x id rs os ids} : c.type = .ctx x → (Raw.elem { tag := some "" } (A.provChildren c.props)).Malformed →
      View V A st R seen rs os ids → View V A st R seen (.comp c :: rs) ((if A.debug then .error "ValueError" else .null) :: os) (id :: ids)

/-- Keys do not look like numbers, event names of an element differ, and handlers have no targets of their own. -/
structure App.Plain (A : App) : Prop where
  body : ∀ id c v seen raw, A.body id c v seen = .ok raw → raw.Plain
  provided : ∀ p, Layout.plainL (A.provChildren p)

/-! ## What a render does to the state -/

/-- The body did what the state asks for. -/
def Body (A : App) (st : A.State) (x : Nat) (c : Comp) (seen : Ctx) (out : Except String Raw) : Prop :=
  match c.type with
  | .ctx _ => out = .ok (.elem { tag := some "" } (A.provChildren c.props))
  | .fn _ => ∃ v, st x = some v ∧ A.body x c v seen = out

/-- The render is the one that the state asks for; output that was rejected meets `Q`. -/
def Fine (Q : Raw → String → Prop) (A : App) (st : A.State) (x : Nat) (c : Comp) (seen : Ctx) (out : Except String Raw) : Prop :=
  Body A st x c seen out ∨ ∃ raw e, Body A st x c seen (.ok raw) ∧ out = .error e ∧ Q raw e

variable {Q : Raw → String → Prop}

theorem lastRender_append (a b : List Ev) (x : Nat) : lastRender (a ++ b) x = (lastRender a x).or (lastRender b x) := by
  induction a with
  | nil => simp [lastRender]
  | cons e a ih =>
    cases e with
    | rendered id c ctx out =>
      simp only [List.cons_append, lastRender]
      split
      · simp
      · exact ih
    | mounted => exact ih
    | entered => exact ih
    | unmounted => exact ih
    | effects => exact ih

theorem Body.later {st st' : A.State} {x c seen out} {P : Prop} (h : Body A st x c seen out) (hs : ∀ v, st x = some v → st' x = some v ∨ P) :
    Body A st' x c seen out ∨ P := by
  revert h
  unfold Body
  split
  · exact .inl
  · rintro ⟨v, a, b⟩
    exact (hs v a).imp (fun h => ⟨v, h, b⟩) id

/-- A render remains the one that the state asks for, unless `P`. -/
theorem Fine.later {st st' : A.State} {x c seen out} {P : Prop} (h : Fine Q A st x c seen out) (hs : ∀ v, st x = some v → st' x = some v ∨ P) :
    Fine Q A st' x c seen out ∨ P := by
  rcases h with h | ⟨raw, e, h, he, hq⟩
  · exact (h.later hs).imp .inl id
  · exact (h.later hs).imp (fun h => .inr ⟨raw, e, h, he, hq⟩) id

theorem Fine.mono {st st' : A.State} {x c seen out} (h : Fine Q A st x c seen out) (hs : ∀ v, st x = some v → st' x = some v) : Fine Q A st' x c seen out :=
  (h.later (P := False) (fun v hv => .inl (hs v hv))).resolve_right id

theorem Fine.weaken {Q' : Raw → String → Prop} {st : A.State} {x c seen out} (h : Fine Q A st x c seen out) (hq : ∀ raw e, Q raw e → Q' raw e) :
    Fine Q' A st x c seen out :=
  h.imp id (fun ⟨raw, e, a, b, c⟩ => ⟨raw, e, a, b, hq raw e c⟩)

abbrev values (s : St A.user) : A.State := s.world.vals

/-- No setters are called while a render is in progress. -/
def App.Quiet (A : App) : Prop := ∀ n id c v seen, A.during n id c v seen = []

/-- Among the events `t` (the last one first) from `s` to `s'` there is a body that has called a setter of `x`, and the body of `x` has not been entered since then. -/
def Due (s s' : St A.user) (t : List Ev) (x : Nat) : Prop :=
  ∃ a y b, t = a ++ .entered y :: b ∧ x ∈ s'.world.called y ∧ .entered x ∉ a ∧ (values s x ≠ none ∨ .entered x ∈ Ev.entered y :: b)

theorem mem_bodiesOf {l : List Ev} {x : Nat} : x ∈ bodiesOf l ↔ .entered x ∈ l := by
  induction l with
  | nil => simp [bodiesOf]
  | cons e l ih => cases e <;> simp [bodiesOf, ih]

/-- From `s` to `s'` the events `t` happened; `pend` are the instances whose renders are in progress. -/
structure Steps (Q : Raw → String → Prop) (pend : List Nat) (s s' : St A.user) (t : List Ev) : Prop where
  log : s'.log = t ++ s.log
  kept : ∀ x, values s x ≠ none → values s' x ≠ none
  calls : ∀ x y, x ∈ s.world.called y → x ∈ s'.world.called y
  world : ∀ x v, values s x = some v → values s' x = some v ∨ Due s s' t x ∨ .entered x ∈ t
  fine : (bodiesOf t).Nodup → ∀ x c seen out, lastRender t x = some (c, seen, out) → Fine Q A (values s') x c seen out ∨ Due s s' t x ∨ x ∈ pend
  done : ∀ x ∈ bodiesOf t, x ∈ pend ∨ lastRender t x ≠ none
  fresh : ∀ x, values s' x ≠ none → values s x ≠ none ∨ x ∈ bodiesOf t
  still : A.Quiet → (∀ x v, values s x = some v → values s' x = some v) ∧
    (∀ x v, values s' x = some v → values s x = some v ∨ ∃ c seen, v = A.first x c seen) ∧ s'.world.called = s.world.called

theorem Due.after {pend : List Nat} {s s' s'' : St A.user} {t t' : List Ev} {x : Nat} (h : Steps Q pend s s' t) (d : Due s' s'' t' x) :
    Due s s'' (t' ++ t) x := by
  obtain ⟨a, y, b, rfl, h1, h2, h3⟩ := d
  refine ⟨a, y, b ++ t, by simp, h1, h2, ?_⟩
  rcases h3 with h3 | h3
  · rcases h.fresh x h3 with h4 | h4
    · exact .inl h4
    · rw [mem_bodiesOf] at h4
      exact .inr (by simp [h4])
  · right
    simp only [List.mem_cons, List.mem_append] at h3 ⊢
    rcases h3 with h3 | h3
    · exact .inl h3
    · exact .inr (.inl h3)

theorem Due.before {pend : List Nat} {s s' s'' : St A.user} {t t' : List Ev} {x : Nat} (h : Steps Q pend s' s'' t') (d : Due s s' t x) (hx : .entered x ∉ t') :
    Due s s'' (t' ++ t) x := by
  obtain ⟨a, y, b, rfl, h1, h2, h3⟩ := d
  exact ⟨t' ++ a, y, b, by simp, h.calls x y h1, by simp [hx, h2], h3⟩

theorem Steps.refl (pend : List Nat) (s : St A.user) : Steps Q pend s s [] :=
  ⟨rfl, fun _ h => h, fun _ _ h => h, fun _ _ h => .inl h, fun _ _ _ _ _ h => by simp [lastRender] at h, fun _ h => by simp [bodiesOf] at h, fun _ h => .inl h,
    fun _ => ⟨fun _ _ h => h, fun _ _ h => .inl h, rfl⟩⟩

theorem Steps.trans {pend : List Nat} {s s' s'' : St A.user} {t t' : List Ev} (h : Steps Q pend s s' t) (h' : Steps Q pend s' s'' t') :
    Steps Q pend s s'' (t' ++ t) where
  log := by rw [h'.log, h.log, List.append_assoc]
  kept x hx := h'.kept x (h.kept x hx)
  calls x y hx := h'.calls x y (h.calls x y hx)
  world x v hx := by
    by_cases he : .entered x ∈ t' ++ t
    · exact .inr (.inr he)
    · rw [List.mem_append, not_or] at he
      rcases h.world x v hx with h1 | h1 | h1
      · rcases h'.world x v h1 with h2 | h2 | h2
        · exact .inl h2
        · exact .inr (.inl (h2.after h))
        · exact absurd h2 he.1
      · exact .inr (.inl (h1.before h' he.1))
      · exact absurd h1 he.2
  fine hn x c seen raw hx := by
    rw [Layout.bodiesOf_append, List.nodup_append] at hn
    rw [lastRender_append] at hx
    cases hl : lastRender t' x with
    | some r =>
      rw [hl] at hx
      rcases h'.fine hn.1 x c seen raw (hl.trans hx) with h1 | h1 | h1
      · exact .inl h1
      · exact .inr (.inl (h1.after h))
      · exact .inr (.inr h1)
    | none =>
      rw [hl] at hx
      by_cases he : .entered x ∈ t'
      · rcases h'.done x (mem_bodiesOf.2 he) with h1 | h1
        · exact .inr (.inr h1)
        · exact absurd hl h1
      · rcases h.fine hn.2.1 x c seen raw hx with h1 | h1 | h1
        · refine h1.later fun v hv => ?_
          rcases h'.world x v hv with h2 | h2 | h2
          · exact .inl h2
          · exact .inr (.inl (h2.after h))
          · exact absurd h2 he
        · exact .inr (.inl (h1.before h' he))
        · exact .inr (.inr h1)
  done x hx := by
    rw [Layout.bodiesOf_append, List.mem_append] at hx
    rw [lastRender_append]
    rcases hx with hx | hx
    · rcases h'.done x hx with h | h
      · exact .inl h
      · right; cases hl : lastRender t' x <;> simp_all
    · rcases h.done x hx with h | h
      · exact .inl h
      · right; cases hl : lastRender t' x <;> simp_all
  fresh x hx := by
    rw [Layout.bodiesOf_append, List.mem_append]
    rcases h'.fresh x hx with h1 | h1
    · rcases h.fresh x h1 with h2 | h2
      · exact .inl h2
      · exact .inr (.inr h2)
    · exact .inr (.inl h1)
  still hq := by
    obtain ⟨a, b, c⟩ := h.still hq
    obtain ⟨a', b', c'⟩ := h'.still hq
    refine ⟨fun x v hv => a' x v (a x v hv), fun x v hv => ?_, c'.trans c⟩
    rcases b' x v hv with h1 | h1
    · exact b x v h1
    · exact .inr h1

theorem Steps.mono {p q : List Nat} {s s' : St A.user} {t : List Ev} (h : Steps Q p s s' t) (hp : ∀ x ∈ p, x ∈ q) : Steps Q q s s' t :=
  ⟨h.log, h.kept, h.calls, h.world, fun hn x c seen raw hx => (h.fine hn x c seen raw hx).imp id (Or.imp id (hp x)), fun x hx => (h.done x hx).imp (hp x) id,
    h.fresh, h.still⟩

/-- Nothing but mounts, unmounts and effects. -/
theorem Steps.quiet {s s' : St A.user} {t : List Ev} (pend : List Nat) (hw : s'.world = s.world) (hl : s'.log = t ++ s.log) (hb : bodiesOf t = [])
    (hr : ∀ x, lastRender t x = none) : Steps Q pend s s' t :=
  ⟨hl, (fun x h => by unfold values; rw [hw]; exact h), (fun x y h => by rw [hw]; exact h), (fun x v h => .inl (by unfold values; rw [hw]; exact h)),
    (fun _ x c seen raw h => by rw [hr] at h; cases h), (fun x h => by simp [hb] at h), (fun x h => .inl (by unfold values at h; rw [hw] at h; exact h)),
    fun _ => ⟨(fun x v h => by unfold values; rw [hw]; exact h), (fun x v h => .inl (by unfold values at h; rw [hw] at h; exact h)), (by rw [hw])⟩⟩

theorem Due.cons {s s' s'' : St A.user} {t : List Ev} {x id c seen out} (hw : s''.world = s'.world) (d : Due s s' t x) :
    Due s s'' (.rendered id c seen out :: t) x := by
  obtain ⟨a, y, b, rfl, h1, h2, h3⟩ := d
  exact ⟨.rendered id c seen out :: a, y, b, rfl, by rw [hw]; exact h1, by simp [h2], h3⟩

/-- The render of `id` ends. -/
theorem Steps.close {s s' s'' : St A.user} {t : List Ev} {id : Nat} {c seen out} (h : Steps Q [id] s s' t) (hw : s''.world = s'.world)
    (hl : s''.log = .rendered id c seen out :: s'.log)
    (hf : (bodiesOf t).Nodup → Fine Q A (values s') id c seen out ∨ Due s s' t id) :
    Steps Q [] s s'' (.rendered id c seen out :: t) where
  log := by rw [hl, h.log]; rfl
  kept x hx := by unfold values; rw [hw]; exact h.kept x hx
  calls x y hx := by rw [hw]; exact h.calls x y hx
  world x v hx := by
    unfold values
    rw [hw]
    rcases h.world x v hx with h1 | h1 | h1
    · exact .inl h1
    · exact .inr (.inl (h1.cons hw))
    · exact .inr (.inr (by simp [h1]))
  fine hn x c' seen' raw hx := by
    unfold values
    rw [hw]
    simp only [lastRender] at hx
    split at hx
    · rename_i e
      subst e
      simp only [Option.some.injEq, Prod.mk.injEq] at hx
      obtain ⟨rfl, rfl, rfl⟩ := hx
      exact (hf hn).imp _root_.id (fun d => .inl (d.cons hw))
    · rename_i hne
      rcases h.fine hn x c' seen' raw hx with h1 | h1 | h1
      · exact .inl h1
      · exact .inr (.inl (h1.cons hw))
      · simp only [List.mem_singleton] at h1; exact absurd h1.symm hne
  done x hx := by
    right
    simp only [lastRender]
    split
    · simp
    · rename_i hne
      rcases h.done x hx with h | h
      · simp only [List.mem_singleton] at h; exact absurd h.symm hne
      · exact h
  fresh x hx := by unfold values at hx; rw [hw] at hx; exact h.fresh x hx
  still hq := by unfold values; rw [hw]; exact h.still hq

def Steps' (Q : Raw → String → Prop) (s s' : St A.user) : Prop := ∃ t, Steps Q [] s s' t

theorem Steps'.refl (s : St A.user) : Steps' Q s s := ⟨[], .refl [] s⟩

theorem Steps'.trans {s s' s'' : St A.user} (h : Steps' Q s s') (h' : Steps' Q s' s'') : Steps' Q s s'' :=
  let ⟨_, a⟩ := h
  let ⟨_, b⟩ := h'
  ⟨_, a.trans b⟩

/-- Handlers and the other parts do not matter. -/
theorem Steps'.same {s s' : St A.user} (hw : s'.world = s.world) (hl : s'.log = s.log) : Steps' Q s s' :=
  ⟨[], .quiet [] hw hl rfl (fun _ => rfl)⟩

mutual
theorem unmountNode_steps : ∀ (n : Node) (s : St A.user), Steps' Q s (unmountNode n s).1
  | .text _, s => .refl s
  | .elem p sh ts kids, s => by
    unfold unmountNode
    split
    · exact .same rfl rfl
    · cases kids with
      | none => exact .same rfl rfl
      | some ks =>
        rename_i h _
        exact Steps'.trans (s' := { s with handlers := h }) (.same rfl rfl) (unmountKids_steps ks _)
  | .comp p id c e ks, s => by
    unfold unmountNode
    split
    · refine Steps'.trans ⟨[.unmounted id], .quiet [] ?_ ?_ rfl (fun _ => rfl)⟩ (unmountKids_steps ks _)
      · rfl
      · rfl
    · exact .refl s
theorem unmountKids_steps : ∀ (ns : List Node) (s : St A.user), Steps' Q s (unmountKids ns s).1
  | [], s => .refl s
  | k :: ks, s => by
    have h := unmountKids_steps ks s
    unfold unmountKids
    split
    · rename_i s' e
      rw [e] at h
      exact h.trans (unmountNode_steps k s')
    · rename_i s' rest _ e
      rw [e] at h
      exact h
end

theorem unmountAll_steps : ∀ (ns : List Node) (s : St A.user), Steps' Q s (unmountAll ns s).1
  | [], s => .refl s
  | k :: ks, s => by
    have h := unmountNode_steps (Q := Q) k s
    unfold unmountAll
    split
    · rename_i s' e
      rw [e] at h
      exact h.trans (unmountAll_steps ks s')
    · rename_i s' rest _ e
      rw [e] at h
      exact h

theorem allocate_steps (s : St A.user) : Steps' Q s (Layout.allocate s).1 := ⟨[.mounted s.nextId], .quiet [] rfl rfl rfl (fun _ => rfl)⟩

theorem prepareComp_steps (old : Option Node) (c : Comp) (s : St A.user) : Steps' Q s (prepareComp old c s).1 := by
  unfold prepareComp
  split
  · exact allocate_steps s
  · rename_i p id oc e ks
    have h := unmountAll_steps (Q := Q) [.comp p id oc e ks] s
    split
    · split
      · rename_i s' e
        rw [e] at h
        exact h.trans (allocate_steps s')
      · rename_i s' rest _ e
        rw [e] at h
        exact h
    · exact .refl s
  · rename_i n _
    have h := unmountAll_steps (Q := Q) [n] s
    split
    · rename_i s' e
      rw [e] at h
      exact h.trans (allocate_steps s')
    · rename_i s' rest _ e
      rw [e] at h
      exact h

theorem prepareModel_steps (old : Option Node) (i : ElemInfo) (s : St A.user) : Steps' Q s (prepareModel old i s).1 := by
  unfold prepareModel
  split
  · split <;> exact .refl s
  · split
    · exact .refl s
    · split <;> exact .same rfl rfl
  · rename_i o _
    have h := unmountAll_steps (Q := Q) [o] s
    split
    · rename_i s' e
      rw [e] at h
      split <;> exact h
    · rename_i s' rest _ e
      rw [e] at h
      exact h

/-- The setter calls of a body. -/
theorem dispatch_fold (y : Nat) (l : List (Nat × Nat × (A.Val → A.Val))) (m : A.Mem) :
    let m' := l.foldl (A.dispatch y) m
    (∀ x z, x ∈ m.called z → x ∈ m'.called z) ∧ (∀ x v, m.vals x = some v → m'.vals x = some v ∨ x ∈ m'.called y) ∧
    ∀ x, m'.vals x ≠ none ↔ m.vals x ≠ none := by
  induction l generalizing m with
  | nil => exact ⟨fun _ _ h => h, fun _ _ h => .inl h, fun _ => Iff.rfl⟩
  | cons p l ih =>
    obtain ⟨a, b, c⟩ := ih (A.dispatch y m p)
    have one : (∀ x z, x ∈ m.called z → x ∈ (A.dispatch y m p).called z) ∧
        (∀ x v, m.vals x = some v → (A.dispatch y m p).vals x = some v ∨ x ∈ (A.dispatch y m p).called y) ∧
        ∀ x, (A.dispatch y m p).vals x ≠ none ↔ m.vals x ≠ none := by
      unfold App.dispatch
      split
      · exact ⟨fun _ _ h => h, fun _ _ h => .inl h, fun _ => Iff.rfl⟩
      · rename_i v hv
        split
        · exact ⟨fun _ _ h => h, fun _ _ h => .inl h, fun _ => Iff.rfl⟩
        · refine ⟨fun x z h => ?_, fun x w h => ?_, fun x => ?_⟩
          · by_cases hz : z = y
            · subst hz; simp [h]
            · simp only [put_ne _ _ hz]; exact h
          · by_cases hx : x = p.1
            · exact .inr (by simp [hx])
            · exact .inl (by simp only [put_ne _ _ hx]; exact h)
          · by_cases hx : x = p.1
            · subst hx; simp [hv]
            · simp only [put_ne _ _ hx]
    refine ⟨fun x z h => a x z (one.1 x z h), fun x v h => ?_, fun x => (c x).trans (one.2.2 x)⟩
    rcases one.2.1 x v h with h1 | h1
    · exact b x v h1
    · exact .inr (a x y h1)

theorem body_steps (s : St A.user) (top : Option Nat) (id : Nat) (c : Comp) :
    Steps Q [id] s (runBody (enterComp s top id) id c).1 [.entered id] ∧
    (Body A (values (runBody (enterComp s top id) id c).1) id c ((enterComp s top id).ctx id) (runBody (enterComp s top id) id c).2 ∨
      Due s (runBody (enterComp s top id) id c).1 [.entered id] id) := by
  unfold runBody Body
  have hd : ∀ x ∈ bodiesOf [Ev.entered id], x ∈ [id] ∨ lastRender [Ev.entered id] x ≠ none := fun x h => .inl (by simpa [bodiesOf] using h)
  cases hc : c.type with
  | ctx y =>
    refine ⟨⟨rfl, fun _ h => h, fun _ _ h => h, fun _ _ h => .inl h, (fun _ x c' seen raw h => by simp [lastRender] at h), hd, fun _ h => .inl h,
      fun _ => ⟨fun _ _ h => h, fun _ _ h => .inl h, rfl⟩⟩, ?_⟩
    exact .inl rfl
  | fn n =>
    have hw : (enterComp s top id).world = s.world := rfl
    rw [hw]
    simp only [App.user]
    split
    · rename_i v hv
      obtain ⟨a, b, d⟩ := dispatch_fold id (A.during s.world.count id c v ((enterComp s top id).ctx id)) { s.world with count := s.world.count + 1 }
      refine ⟨⟨rfl, fun x h => (d x).2 h, fun x y h => a x y h, fun x v h => (b x v h).imp _root_.id (fun h1 => .inl ⟨[], id, [], rfl, h1, by simp, .inl ?_⟩),
        (fun _ x c' seen raw h => by simp [lastRender] at h), hd, fun x h => .inl ((d x).1 h), fun hq => ?_⟩, ?_⟩
      · exact fun e => by have := h.symm.trans e; cases this
      · rw [hq]; exact ⟨fun _ _ h => h, fun _ _ h => .inl h, rfl⟩
      · exact (b id v hv).imp (fun h1 => ⟨v, h1, rfl⟩) (fun h1 => ⟨[], id, [], rfl, h1, by simp, .inr (by simp)⟩)
    · rename_i hv
      obtain ⟨a, b, d⟩ := dispatch_fold id (A.during s.world.count id c (A.first id c ((enterComp s top id).ctx id)) ((enterComp s top id).ctx id))
        { s.world with vals := put s.world.vals id (some (A.first id c ((enterComp s top id).ctx id))), count := s.world.count + 1 }
      have hold : ∀ x v, values s x = some v → put s.world.vals id (some (A.first id c ((enterComp s top id).ctx id))) x = some v := by
        intro x v h
        have : x ≠ id := by
          intro e
          subst e
          have := h.symm.trans hv
          cases this
        exact (put_ne _ _ this).trans h
      refine ⟨⟨rfl, fun x h => (d x).2 ?_, fun x y h => a x y h,
        fun x v h => (b x v (hold x v h)).imp _root_.id (fun h1 => .inl ⟨[], id, [], rfl, h1, by simp, .inl ?_⟩),
        (fun _ x c' seen raw h => by simp [lastRender] at h), hd, fun x h => ?_, fun hq => ?_⟩, ?_⟩
      · obtain ⟨v, hx⟩ := Option.ne_none_iff_exists'.1 h
        simp only [hold x v hx]
        simp
      · exact fun e => by have := h.symm.trans e; cases this
      · by_cases e : x = id
        · exact .inr (by simp [bodiesOf, e])
        · have := (d x).1 h
          simp only [put_ne _ _ e] at this
          exact .inl this
      · rw [hq]
        refine ⟨hold, fun x v h => ?_, rfl⟩
        by_cases e : x = id
        · subst e
          exact .inr ⟨_, _, (Option.some.inj ((put_same _ _ _).symm.trans h)).symm⟩
        · exact .inl (by rw [← put_ne (values s) (some (A.first id c ((enterComp s top id).ctx id))) e]; exact h)
      · exact (b id _ (put_same _ _ _)).imp (fun h1 => ⟨_, h1, rfl⟩) (fun h1 => ⟨[], id, [], rfl, h1, by simp, .inr (by simp)⟩)

/-- The children are rendered after the body. -/
theorem body_later {s1 s2 s3 : St A.user} {id : Nat} {c : Comp} {seen : Ctx} {out : Except String Raw} {t : List Ev} (h1 : Steps Q [id] s1 s2 [.entered id])
    (h3 : Steps Q [] s2 s3 t) (hn : (bodiesOf (t ++ [.entered id])).Nodup) (h : Body A (values s2) id c seen out ∨ Due s1 s2 [.entered id] id) :
    Body A (values s3) id c seen out ∨ Due s1 s3 (t ++ [.entered id]) id := by
  have hid : .entered id ∉ t := by
    rw [Layout.bodiesOf_append, List.nodup_append] at hn
    exact fun he => hn.2.2 id (mem_bodiesOf.2 he) id (by simp [bodiesOf]) rfl
  rcases h with h4 | h4
  · refine h4.later fun v hv => ?_
    rcases h3.world id v hv with h5 | h5 | h5
    · exact .inl h5
    · exact .inr (h5.after h1)
    · exact absurd h5 hid
  · exact .inr (h4.before h3 hid)

theorem run_steps {call : Layout.Call} {s s' : St A.user} {r : Layout.Res} (h : Layout.RunQ Q call s s' r) : Steps' Q s s' := by
  induction h with
  | @compUnm top old pos c s s1 rest hp => have := prepareComp_steps (Q := Q) old c s; rw [hp] at this; exact this
  | @compRaise top old pos c s s1 id ks s2 e hp hb =>
    have h1 := prepareComp_steps (Q := Q) old c s
    rw [hp] at h1
    have h2 := body_steps (Q := Q) s1 top id c
    rw [hb] at h2
    exact h1.trans ⟨_, h2.1.close rfl rfl (fun _ => h2.2.imp .inl _root_.id)⟩
  | @compOk top old pos c s s1 id ks s2 raw s3 kids hp hb _ ih =>
    have h1 := prepareComp_steps (Q := Q) old c s
    rw [hp] at h1
    have h2 := body_steps (Q := Q) s1 top id c
    rw [hb] at h2
    obtain ⟨t, h3⟩ := ih
    refine h1.trans ⟨_, (h2.1.trans (h3.mono (fun x h => by cases h))).close rfl rfl (fun hn => (body_later h2.1 h3 hn h2.2).imp .inl _root_.id)⟩
  | @compErr top old pos c s s1 id ks s2 raw s3 e lost hp hb _ hq ih =>
    have h1 := prepareComp_steps (Q := Q) old c s
    rw [hp] at h1
    have h2 := body_steps (Q := Q) s1 top id c
    rw [hb] at h2
    obtain ⟨t, h3⟩ := ih
    exact h1.trans ⟨_, (h2.1.trans (h3.mono (fun x h => by cases h))).close rfl rfl
      (fun hn => (body_later h2.1 h3 hn h2.2).imp (fun h => .inr ⟨raw, e, h, rfl, hq⟩) _root_.id)⟩
  | @modelPrep top old pos i cs s s1 e lost hp => have := prepareModel_steps (Q := Q) old i s; rw [hp] at this; exact this
  | @modelOk top old pos i cs s s1 tag ks s2 kids hp _ ih =>
    have := prepareModel_steps (Q := Q) old i s
    rw [hp] at this
    exact this.trans (Steps'.trans (s' := { s1 with handlers := Layout.addHandlers pos.kpath i.handlers s1.handlers }) (.same rfl rfl) ih)
  | @modelErr top old pos i cs s s1 tag ks s2 e lost hp _ ih =>
    have := prepareModel_steps (Q := Q) old i s
    rw [hp] at this
    exact this.trans (Steps'.trans (s' := { s1 with handlers := Layout.addHandlers pos.kpath i.handlers s1.handlers }) (.same rfl rfl) ih)
  | kidsDup => exact .refl _
  | @kidsUnm top old path kpath raws s s1 r rest _ hu =>
    have := unmountAll_steps (Q := Q) (Layout.removedKids old (Layout.childrenInfo 0 raws)) s
    rw [hu] at this
    exact this
  | @kidsLoop top old path kpath raws s s1 s2 r _ hu _ ih =>
    have := unmountAll_steps (Q := Q) (Layout.removedKids old (Layout.childrenInfo 0 raws)) s
    rw [hu] at this
    exact this.trans ih
  | loopNil => exact .refl _
  | loopFirst _ ih => exact ih
  | loopRest _ _ ih1 ih2 => exact ih1.trans ih2
  | loopOk _ _ ih1 ih2 => exact ih1.trans ih2
  | childElem _ ih => exact ih
  | childComp _ ih => exact ih
  | childText => exact .refl _
  | @childTextOld top o pos t s s1 hu => have := unmountAll_steps (Q := Q) [o] s; rw [hu] at this; exact this
  | @childTextErr top o pos t s s1 r rest hu => have := unmountAll_steps (Q := Q) [o] s; rw [hu] at this; exact this
  | childNone => exact .refl _

theorem runExit_steps (s : St A.user) : Steps' Q s (runExit s) := by
  refine ⟨s.exit.reverse.map Ev.effects, .quiet [] ?_ (Layout.runExit_log s) (Layout.effects_quiet _).1 ?_⟩
  · have : ∀ (l : List Nat) (s : St A.user),
        (l.foldl (fun (s : St A.user) id => { s with world := A.user.didRender s.world id, log := .effects id :: s.log }) s).world = s.world := by
      intro l
      induction l with
      | nil => exact fun _ => rfl
      | cons x l ih => exact fun s => ih _
    exact this s.exit s
  · intro x
    induction s.exit.reverse with
    | nil => rfl
    | cons y l ih => exact ih

/-- Output is rejected only for being malformed, provided that `P`. -/
def Rejected (P : Prop) (raw : Raw) (e : String) : Prop := P → raw.Malformed ∧ e = "ValueError"

theorem App.Plain.user (hA : A.Plain) : A.user.Plain where
  render w id c seen raw h := by
    simp only [App.user] at h
    split at h
    · exact hA.body _ _ _ _ _ h
    · exact hA.body _ _ _ _ _ h
  provided := hA.provided

theorem renderOp_rejects {P : Prop} {fuel id : Nat} {l l' : Layout A.user} {u : Update} (h : renderOp fuel id l = (l', .update u))
    (hP : P → A.Plain ∧ (∃ root, Layout.LInv root l) ∧ Layout.LHand l ∧ (Layout.findComp id l.tree).isNone = false) : Steps' (Rejected P) l.st l'.st := by
  have main : ∀ {old s new}, renderAt fuel old l.st = some (s, new) → (P → Layout.findComp id l.tree = some old) → Steps' (Rejected P) l.st s := by
    intro old s new h hold
    obtain ⟨p, id', c, e, ks, e', ks', s1, rfl, _, rfl, hr⟩ := Layout.renderAt_run h
    refine Steps'.trans ?_ (runExit_steps s1)
    by_cases hp : P
    · obtain ⟨h1, ⟨root, h2⟩, h3, _⟩ := hP hp
      exact run_steps ((Layout.clean_tree h1.user h2 h3 (hold hp) hr).mono (fun _ _ h _ => h))
    · exact run_steps (hr.any.mono (fun _ _ _ h => absurd h hp))
  unfold renderOp at h
  split at h
  · split at h
    · split at h
      · rename_i hf _ _ _ hr
        cases h
        exact main hr (fun _ => hf)
      · cases h
    · rename_i hf
      split at h
      · split at h
        · rename_i hr
          cases h
          exact (main hr (fun hp => by have := (hP hp).2.2.2; rw [hf] at this; cases this)).trans (.same rfl rfl)
        · cases h
      · cases h
  · cases h

theorem renderOp_steps {fuel id : Nat} {l l' : Layout A.user} {u : Update} (h : renderOp fuel id l = (l', .update u)) : Steps' (Rejected False) l.st l'.st :=
  renderOp_rejects h False.elim

/-! ## The page -/

theorem view_filter {V : Values} {st : A.State} {R seen} {cs : List Raw} {os : List Out} {ids : List Nat}
    (h : View V A st R seen (cs.filter (fun r => !r.isNone)) os ids) : View V A st R seen cs os ids := by
  induction cs generalizing os ids with
  | nil => exact h
  | cons c cs ih =>
    cases c with
    | none => exact .none (ih (by simpa [Raw.isNone] using h))
    | text t =>
      simp only [Raw.isNone, List.filter_cons, Bool.not_false, if_true] at h
      cases h with
      | text h => exact .text (ih h)
    | elem i ks =>
      simp only [Raw.isNone, List.filter_cons, Bool.not_false, if_true] at h
      cases h with
      | elem a b c d h => exact .elem a b c d (ih h)
      | input a b c d h => exact .input a b c d (ih h)
      | other a h => exact .other a (ih h)
    | comp c =>
      simp only [Raw.isNone, List.filter_cons, Bool.not_false, if_true] at h
      cases h with
      | comp a b c d e h => exact .comp a b c d e (ih h)
      | prov a b c h => exact .prov a b c (ih h)
      | fail a b c h => exact .fail a b c (ih h)
      | provFail a b h => exact .provFail a b (ih h)

theorem element_html {V : Values} {R : String → Layout.Handler → Prop} {i : ElemInfo} {sh : Shell} (hs : Layout.ElemShown R i sh) (hh : Html i)
    (ws : Option (List VJson)) : i.tag = some sh.tag ∧ ∃ props, PropsShown V R sh.tag i props ∧ Client.Elem.element (toModel V (.obj sh ws)) =
      if isInput sh.tag then .input sh.tag props (Client.Elem.elements (toModelL V (ws.getD [])))
      else .elem sh.tag props (Client.Elem.elements (toModelL V (ws.getD []))) := by
  obtain ⟨tag, e1, e2, e3, e4⟩ := hh
  have ht : sh.tag = tag := by rw [hs.tag] at e1; simpa using e1
  subst ht
  have hk : toModel V (.obj sh ws) = .el sh.tag none ((sh.attrs.getD []).map (fun p => (p.1, V.attr p.2)))
      ((sh.handlers.getD []).map entry) ((sh.inlineJs.map V.inline).getD []) none (toModelL V (ws.getD [])) := by
    have h0 : sh.importSource = none := by rw [hs.importSource]; exact e4
    cases ws <;> simp only [toModel, hs.noError, h0, Option.map_none, Option.getD_none, Option.getD_some, toModelL]
  rw [hk]
  refine ⟨e1, ?_⟩
  cases hin : isInput sh.tag with
  | true =>
    have h3 := (isInput_iff sh.tag).2 hin
    simp only [Client.Elem.element, h3, if_true]
    refine ⟨_, props_shown hs fun name => ?_, rfl⟩
    rw [Client.Elem.get_input]
    simp [hin]
  | false =>
    have h3 : ¬ (sh.tag = "input" ∨ sh.tag = "select" ∨ sh.tag = "textarea") := by rw [isInput_iff, hin]; simp
    simp only [Client.Elem.element, Client.Elem.objectMembers_eq, h3, e2, e3, if_false]
    refine ⟨_, props_shown hs fun name => ?_, rfl⟩
    rw [Client.Elem.get_standard]
    simp [hin]

theorem view_of {V : Values} {st : A.State} {H : Layout.Hist} {T env rs ns} (h : Layout.KidsOK A.user H T env rs ns) (R : String → Layout.Handler → Prop)
    (hR : ∀ p ∈ Layout.tgtsL ns, R p.1 p.2)
    (hH : ∀ id ∈ Layout.idsL ns, ∀ c seen out, H id = some (c, seen, out) → Fine (fun raw e => raw.Malformed ∧ e = "ValueError") A st id c seen out)
    (hM : ∀ id c seen raw, H id = some (c, seen, .ok raw) → ¬ raw.Malformed) :
    ∃ ids, View V A st R env (rs.map (·.1)) (Client.Elem.elements (toModelL V (Layout.viewL ns))) ids ∧ ids.Sublist (Layout.idsL ns) := by
  induction h with
  | nil => exact ⟨[], .nil, .slnil⟩
  | text _ ih =>
    obtain ⟨ids, a, b⟩ := ih (by simpa [Layout.tgtsL, Node.tgts] using hR) (by simpa [Node.ids] using hH)
    exact ⟨ids, .text a, by simpa [Node.ids] using b⟩
  | @elem env i sh cs pos ts ks rs ns hs hk _ ih1 ih2 =>
    obtain ⟨ids2, a2, b2⟩ := ih2 (fun p hp => hR p (by simp [Layout.tgtsL, hp])) (fun id hid => hH id (by simp [hid]))
    have hs' : Layout.ElemShown R i sh := hs.shown.mono (fun t hd ⟨ev, h⟩ =>
      hR (t, hd) (by simp only [Layout.tgtsL, Layout.tgts_elem, List.mem_append, List.mem_map]
                     exact .inl (.inl ⟨(ev, t, hd), h, rfl⟩)))
    simp only [Layout.viewL, toModelL, Client.Elem.elements, List.map_cons]
    by_cases hh : Html i
    · have hkids : ∃ ids1, View V A st R env cs (Client.Elem.elements (toModelL V (Layout.viewL (if cs.isEmpty then [] else ks)))) ids1 ∧
          ids1.Sublist (Node.elem pos sh ts (if cs.isEmpty then none else some ks)).ids := by
        cases cs with
        | nil => exact ⟨[], .nil, List.nil_sublist _⟩
        | cons r cs =>
          have hif : (if (r :: cs).isEmpty then none else some ks) = some ks := rfl
          rw [hif] at hR hH ⊢
          obtain ⟨ids1, a1, b1⟩ := ih1 (fun p hp => hR p (by simp [Layout.tgtsL, Node.tgts, hp])) (fun id hid => hH id (by simp [Node.ids, hid]))
          rw [keyed_raws] at a1
          exact ⟨ids1, view_filter a1, by simpa [Node.ids] using b1⟩
      obtain ⟨ids1, a1, b1⟩ := hkids
      have hv : ∃ ws, Node.view (.elem pos sh ts (if cs.isEmpty then none else some ks)) = .obj sh ws ∧
          ws.getD [] = Layout.viewL (if cs.isEmpty then [] else ks) := by
        cases cs.isEmpty
        · exact ⟨some (Layout.viewL ks), rfl, rfl⟩
        · exact ⟨none, rfl, rfl⟩
      obtain ⟨ws, v1, v2⟩ := hv
      obtain ⟨e1, props, p1, p2⟩ := element_html (V := V) hs' hh ws
      rw [v1, p2, v2]
      refine ⟨ids1 ++ ids2, ?_, by rw [Layout.idsL_cons]; exact b1.append b2⟩
      cases hin : isInput sh.tag with
      | true => exact .input e1 hin p1 a1 a2
      | false => exact .elem e1 hin p1 a1 a2
    · exact ⟨ids2, .other hh a2, by rw [Layout.idsL_cons]; exact b2.trans (List.sublist_append_right _ _)⟩
  | @comp env c pos id seen raw ks rs ns h0 h1 h2 _ _ ih1 ih2 =>
    obtain ⟨ids1, a1, b1⟩ := ih1 (fun p hp => hR p (by simp [Layout.tgtsL, Node.tgts, hp])) (fun x hid => hH x (by simp [Node.ids, hid]))
    obtain ⟨ids2, a2, b2⟩ := ih2 (fun p hp => hR p (by simp [Layout.tgtsL, hp])) (fun x hid => hH x (by simp [hid]))
    rw [keyed_raws] at a1
    have a1 := view_filter a1
    have hf : Body A st id c seen (.ok raw) := (hH id (by simp [Node.ids]) c seen (.ok raw) h0).resolve_right (fun ⟨_, _, _, h, _⟩ => by cases h)
    have hm := hM id c seen raw h0
    have he : Client.Elem.element (toModel V (Node.view (.comp pos id c none ks))) = .elem "" [] (Client.Elem.elements (toModelL V (Layout.viewL ks))) := by
      simp [Node.view, Layout.fragShell, toModel, Client.Elem.element, inherited, Client.Elem.createAttributes, Client.Elem.throttleAll]
    simp only [Layout.viewL, toModelL, Client.Elem.elements, List.map_cons, he]
    refine ⟨id :: ids1 ++ ids2, ?_, by
      rw [Layout.idsL_cons]
      exact (List.Sublist.append (by simpa [Node.ids] using b1) b2)⟩
    unfold Body at hf
    cases hc : c.type with
    | fn n =>
      rw [hc] at hf
      obtain ⟨v, f1, f2⟩ := hf
      have : Layout.below A.user c env = env := by unfold Layout.below; rw [hc]
      rw [this] at a1
      rw [h1 n hc] at f2
      exact .comp hc f1 f2 hm a1 a2
    | ctx x =>
      rw [hc] at hf
      simp only [Except.ok.injEq] at hf
      subst hf
      have : Layout.below A.user c env = fun y => if y = x then some (A.provValue c.props) else env y := by unfold Layout.below; rw [hc]; rfl
      rw [this] at a1
      exact .prov hc hm a1 a2
  | @fail env c pos id seen e rs ns h0 h1 _ _ ih =>
    obtain ⟨ids, a, b⟩ := ih (fun p hp => hR p (by simp [Layout.tgtsL, hp])) (fun x hid => hH x (by simp [hid]))
    have he : Client.Elem.element (toModel V (Node.view (.comp pos id c (some (Layout.errText A.user e)) []))) =
        if A.debug = true ∧ e ≠ "" then .error e else .null := by
      have : A.user.debug = A.debug := rfl
      simp only [Node.view, Layout.errText, this]
      cases A.debug <;> by_cases he : e = "" <;> simp [toModel, Client.Elem.element, Layout.errShell, he]
    simp only [Layout.viewL, toModelL, Client.Elem.elements, List.map_cons, he]
    refine ⟨id :: ids, ?_, by rw [Layout.idsL_cons]; simpa [Node.ids] using b⟩
    have hf := hH id (by simp [Node.ids]) c seen _ h0
    unfold Fine Body at hf
    cases hc : c.type with
    | fn n =>
      rw [hc, h1 n hc] at hf
      rcases hf with ⟨v, f1, f2⟩ | ⟨raw, e', ⟨v, f1, f2⟩, f3, f4, f5⟩
      · exact .fail hc f1 (.inl f2) a
      · cases f3; exact .fail hc f1 (.inr ⟨raw, f2, f4, f5⟩) a
    | ctx x =>
      rw [hc] at hf
      rcases hf with f | ⟨raw, e', f1, f2, f3, f4⟩
      · cases f
      · cases f1; cases f2; subst f4
        have := View.provFail (V := V) (A := A) (st := st) (R := R) (id := id) hc f3 a
        simpa using this

/-! ## The scheduling -/

/-- `follow`, with the calls that the events make. -/
theorem follow_map (cur : Nat) (f : Ev → List Nat) (es : List Ev) : ∀ c : Ctl,
    follow cur es (es.map f) c = es.foldl (fun c e => (f e).foldl schedule (observe cur e c)) c := by
  induction es with
  | nil => exact fun _ => rfl
  | cons e es ih => exact fun c => ih _

theorem schedules_owed (l : List Nat) (x : Nat) : ∀ c : Ctl, c.owed x = true → (l.foldl schedule c).owed x = true := by
  induction l with
  | nil => exact fun _ h => h
  | cons y l ih =>
    refine fun c h => ih _ ?_
    by_cases hxy : x = y
    · subst hxy
      by_cases hl : c.life x = .unborn
      · have : schedule c x = c := by unfold schedule; rw [hl]
        rw [this]; exact h
      · exact (Parallel.C112_owed_meaning c x x 0 (.mounted 0)).1 hl
    · rw [(Parallel.C112_owed_meaning c y x 0 (.mounted 0)).2.1 hxy]; exact h

theorem schedules_life (l : List Nat) : ∀ c : Ctl, (l.foldl schedule c).life = c.life := by
  induction l with
  | nil => exact fun _ => rfl
  | cons y l ih => exact fun c => (ih _).trans (Parallel.schedule_ver c y).2

theorem schedules_call (l : List Nat) (x : Nat) (hx : x ∈ l) : ∀ c : Ctl, c.life x ≠ .unborn → (l.foldl schedule c).owed x = true := by
  induction l with
  | nil => cases hx
  | cons y l ih =>
    intro c h
    by_cases hxy : x = y
    · subst hxy
      exact schedules_owed l x _ ((Parallel.C112_owed_meaning c x x 0 (.mounted 0)).1 h)
    · refine ih (by simpa [hxy] using hx) _ ?_
      rw [(Parallel.schedule_ver c y).2]; exact h

theorem follow_keeps (cur : Nat) (f : Ev → List Nat) (es : List Ev) (x : Nat) (hx : .entered x ∉ es) : ∀ c : Ctl, c.owed x = true →
    (es.foldl (fun c e => (f e).foldl schedule (observe cur e c)) c).owed x = true := by
  induction es with
  | nil => exact fun _ h => h
  | cons e es ih =>
    intro c h
    simp only [List.mem_cons, not_or] at hx
    refine ih hx.2 _ (schedules_owed _ x _ ?_)
    rw [(Parallel.C112_owed_meaning c x x cur e).2.2.2 (Ne.symm hx.1)]; exact h

theorem follow_owed (cur : Nat) (f : Ev → List Nat) (es : List Ev) (c : Ctl) (x : Nat) (h : (follow cur es (es.map f) c).owed x = false) :
    c.owed x = false ∨ .entered x ∈ es := by
  by_cases hx : .entered x ∈ es
  · exact .inr hx
  · left
    cases ho : c.owed x with
    | false => rfl
    | true =>
      rw [follow_map, follow_keeps cur f es x hx c ho] at h
      cases h

theorem observe_unborn (cur : Nat) (e : Ev) (c : Ctl) (x : Nat) (h1 : (observe cur e c).life x = .unborn) : c.life x = .unborn ∧ e ≠ .entered x := by
  cases e with
  | entered y =>
    have hl : (observe cur (.entered y) c).life = put c.life y .here := by
      simp only [observe]
      split
      · rfl
      · split <;> rfl
    rw [hl] at h1
    by_cases hxy : x = y
    · subst hxy; simp at h1
    · rw [put_ne _ _ hxy] at h1
      exact ⟨h1, by simp [Ne.symm hxy]⟩
  | unmounted y =>
    by_cases hxy : x = y
    · subst hxy; simp [observe] at h1
    · exact ⟨by simpa [observe, put_ne _ _ hxy] using h1, by simp⟩
  | mounted y => exact ⟨h1, by simp⟩
  | rendered a b d f => exact ⟨h1, by simp⟩
  | effects y => exact ⟨h1, by simp⟩

theorem follow_unborn (cur : Nat) (f : Ev → List Nat) (es : List Ev) (x : Nat) : ∀ c : Ctl,
    (es.foldl (fun c e => (f e).foldl schedule (observe cur e c)) c).life x = .unborn → c.life x = .unborn ∧ .entered x ∉ es := by
  induction es with
  | nil => exact fun _ h => ⟨h, by simp⟩
  | cons e es ih =>
    intro c h
    obtain ⟨h1, h2⟩ := ih _ h
    rw [schedules_life] at h1
    obtain ⟨h3, h4⟩ := observe_unborn cur e c x h1
    exact ⟨h3, by simp [Ne.symm h4, h2]⟩

/-- A setter that a body has called is owed a render. -/
theorem follow_due (cur : Nat) {s s' : St A.user} {t : List Ev} {x : Nat} {c : Ctl} (hc : values s x ≠ none → c.life x ≠ .unborn) (d : Due s s' t x) :
    (follow cur t.reverse (t.reverse.map (bodyCalls s'.world.called)) c).owed x = true := by
  obtain ⟨a, y, b, rfl, h1, h2, h3⟩ := d
  rw [follow_map]
  simp only [List.reverse_append, List.reverse_cons, List.foldl_append, List.foldl_cons, List.foldl_nil]
  refine follow_keeps cur _ _ x (by simpa using h2) _ (schedules_call _ x h1 _ ?_)
  intro h
  obtain ⟨h4, h5⟩ := observe_unborn cur _ _ x h
  obtain ⟨h6, h7⟩ := follow_unborn cur _ _ x _ h4
  rcases h3 with h3 | h3
  · exact hc h3 h6
  · simp only [List.mem_cons, Ev.entered.injEq] at h3
    rcases h3 with h3 | h3
    · exact h5 (by rw [h3])
    · exact h7 (by simpa using h3)

/-- Components without a pending setter call show the present state; setters exist for instances that were rendered. -/
structure Sound (p : Parallel.Sys A.user) : Prop where
  known : ∀ x, values p.lay.st x ≠ none → p.ctl.life x ≠ .unborn
  fine : ∀ x c seen out, lastRender p.lay.st.log x = some (c, seen, out) → p.ctl.owed x = false →
    Fine (Rejected (A.Plain ∧ p.stray = false)) A (values p.lay.st) x c seen out
  started : p.lost = true ∨ p.stray = true ∨ lastRender p.lay.st.log 0 ≠ none ∨ p.ctl.tasks = [⟨0, 0, .waiting⟩] ∧ ∀ x, p.ctl.life x = .unborn

/-- Before the first render there are no values. -/
def App.Mem.empty (A : App) : A.user.World := (⟨fun _ => none, fun _ => [], 0⟩ : A.Mem)

theorem sound_init (root : Comp) : Sound (Parallel.init A.user (App.Mem.empty A) root) where
  known x h := absurd rfl h
  fine x c seen raw h := by simp [Parallel.init, Layout.initLayout, lastRender] at h
  started := .inr (.inr (.inr ⟨rfl, fun _ => rfl⟩))

theorem render_completes {U : User} {fuel id : Nat} {l l' : Layout U} {u : Update} (h : renderOp fuel id l = (l', .update u)) (hd : (Layout.findComp id l.tree).isNone = false) :
    lastRender l'.st.log id ≠ none := by
  unfold renderOp at h
  split at h
  · split at h
    · rename_i old hf
      obtain ⟨p0, c0, e0, ks0, rfl⟩ := (Layout.findComp_mem _ _ _ hf).2
      split at h
      · rename_i hr
        cases h
        obtain ⟨p, id', c, e, ks, e', ks', s1, h1, _, rfl, hrun⟩ := Layout.renderAt_run hr
        cases h1
        rw [(Layout.runExit_spec s1).2.2.2.2.2.2.1]
        cases hrun with
        | compRaise hp _ => simp [prepareComp] at hp; obtain ⟨_, rfl, _⟩ := hp; simp [lastRender]
        | compOk hp _ _ => simp [prepareComp] at hp; obtain ⟨_, rfl, _⟩ := hp; simp [lastRender]
        | compErr hp _ _ => simp [prepareComp] at hp; obtain ⟨_, rfl, _⟩ := hp; simp [lastRender]
      · cases h
    · rename_i hn
      rw [hn] at hd
      cases hd
  · cases h

theorem Sound.run {p : Parallel.Sys A.user} (h : Sound p) {root : Comp} (hl : Layout.LInv root p.lay) (hh : A.Plain → p.stray = false → Layout.LHand p.lay) (fuel i : Nat) :
    Sound (Parallel.run fuel i (callsOf p fuel i) p) := by
  unfold Parallel.run
  split
  · rename_i id obj ht
    split
    · have hcalls : callsOf p fuel i = match renderOp fuel id p.lay with
          | (l, .update _) => (events p.lay.st.log l.st.log).map (bodyCalls l.st.world.called)
          | _ => [] := by
        unfold callsOf
        rw [ht]
        rfl
      split
      · rename_i l u he
        rw [he] at hcalls
        obtain ⟨t, hs⟩ := renderOp_rejects (P := A.Plain ∧ (p.stray || (Layout.findComp id p.lay.tree).isNone) = false) he (fun ⟨h1, h2⟩ => by
          rw [Bool.or_eq_false_iff] at h2
          exact ⟨h1, ⟨root, hl⟩, hh h1 h2.1, h2.2⟩)
        have hn : (bodiesOf t).Nodup := by
          obtain ⟨t', h1, _, h2⟩ := Parallel.render_bodies hl he
          rw [hs.log, List.append_cancel_right_eq] at h1
          rw [h1]; exact h2
        have hev : events p.lay.st.log l.st.log = t.reverse := by rw [hs.log, Parallel.events_eq]
        simp only [hev] at hcalls ⊢
        rw [hcalls]
        have hlife : ∀ x, (start i p.ctl).life x = p.ctl.life x := fun _ => rfl
        have hdue : ∀ x, Due p.lay.st l.st t x → (follow i t.reverse (t.reverse.map (bodyCalls l.st.world.called)) (start i p.ctl)).owed x = true :=
          fun x d => follow_due i (h.known x) d
        refine ⟨fun x hx hl => ?_, fun x c seen raw hx ho => ?_, ?_⟩
        · simp only [follow_map] at hl
          obtain ⟨h1, h2⟩ := follow_unborn i _ _ x _ hl
          rcases hs.fresh x hx with h3 | h3
          · exact h.known x h3 h1
          · rw [mem_bodiesOf] at h3
            exact h2 (by simpa using h3)
        · have hnd : ¬ Due p.lay.st l.st t x := fun d => by
            rw [hdue x d] at ho
            cases ho
          simp only [hs.log, lastRender_append] at hx
          cases hl : lastRender t x with
          | some r =>
            rw [hl] at hx
            rcases hs.fine hn x c seen raw (hl.trans hx) with h1 | h1 | h1
            · exact h1
            · exact absurd h1 hnd
            · cases h1
          | none =>
            rw [hl] at hx
            have hne : .entered x ∉ t := fun h1 => by
              rcases hs.done x (mem_bodiesOf.2 h1) with h2 | h2
              · cases h2
              · exact absurd hl h2
            refine ((h.fine x c seen raw hx ?_).weaken (fun _ _ hq hp => hq ⟨hp.1, (Bool.or_eq_false_iff.1 hp.2).1⟩)).mono fun v hv => ?_
            · rcases follow_owed i _ _ _ x ho with h1 | h1
              · exact h1
              · exact absurd (by simpa using h1) hne
            · rcases hs.world x v hv with h1 | h1 | h1
              · exact h1
              · exact absurd h1 hnd
              · exact absurd h1 hne
        · rcases h.started with h1 | h1 | h1 | ⟨h1, h2⟩
          · exact .inl h1
          · exact .inr (.inl (by simp [h1]))
          · refine .inr (.inr (.inl ?_))
            simp only [hs.log, lastRender_append]
            cases hl : lastRender t 0 <;> simp [h1]
          · rw [h1] at ht
            cases i with
            | succ i => simp at ht
            | zero =>
              simp at ht
              obtain ⟨rfl, rfl⟩ := ht
              cases hd : (Layout.findComp 0 p.lay.tree).isNone with
              | true => exact .inr (.inl (by simp))
              | false => exact .inr (.inr (.inl (render_completes he hd)))
      · exact h
      · rename_i l o h1 h2 he
        have hl : l = p.lay := by
          unfold renderOp at he
          split at he
          · split at he
            · split at he
              · cases he; exact (h1 _ rfl).elim
              · cases he; exact (h2 rfl).elim
            · split at he
              · split at he
                · cases he; exact (h1 _ rfl).elim
                · cases he; exact (h2 rfl).elim
              · cases he; rfl
          · cases he; rfl
        subst hl
        exact ⟨h.known, fun x c seen out hx ho => (h.fine x c seen out hx ho).weaken (fun _ _ _ hp => by cases hp.2), .inr (.inl rfl)⟩
    · exact ⟨h.known, h.fine, .inl rfl⟩
  · exact h

theorem Sound.set {s : PWeb A.user} (h : Sound s.sys) (x k : Nat) (g : A.Val → A.Val) : Sound (setState s x k g).sys := by
  unfold setState
  split
  · exact h
  · rename_i v hv
    split
    · exact h
    · have hx : s.sys.ctl.life x ≠ .unborn := h.known x (by
        intro e
        have := hv.symm.trans e
        cases this)
      have ho := fun y => Parallel.C112_owed_meaning s.sys.ctl x y 0 (.mounted 0)
      refine ⟨fun y hy => ?_, fun y c seen raw hr hy => ?_, ?_⟩
      · change (schedule s.sys.ctl x).life y ≠ .unborn
        rw [(Parallel.schedule_ver _ _).2]
        by_cases hyx : y = x
        · subst hyx; exact hx
        · refine h.known y ?_
          rw [← put_ne (values s.sys.lay.st) _ hyx]
          exact hy
      · change (schedule s.sys.ctl x).owed y = false at hy
        by_cases hyx : y = x
        · subst hyx
          rw [(ho y).1 hx] at hy
          cases hy
        · rw [(ho y).2.1 hyx] at hy
          exact (h.fine y c seen raw hr hy).mono (fun v' hv' => (put_ne (values s.sys.lay.st) _ hyx).trans hv')
      · rcases h.started with h1 | h1 | h1 | ⟨h1, h2⟩
        · exact .inl h1
        · exact .inr (.inl h1)
        · exact .inr (.inr (.inl h1))
        · exact absurd (h2 x) hx

theorem Sound.sets {s : PWeb A.user} (l : List (Nat × Nat × (A.Val → A.Val))) (h : Sound s.sys) :
    Sound (l.foldl (fun s p => setState s p.1 p.2.1 p.2.2) s).sys := by
  induction l generalizing s with
  | nil => exact h
  | cons p l ih => exact ih (h.set p.1 p.2.1 p.2.2)

/-! ## The application is one of `Whole/Parallel.lean` -/

theorem setState_ops (s : PWeb A.user) (x k : Nat) (g : A.Val → A.Val) : ∃ ops : List (Parallel.Op A.user), setState s x k g = ops.foldl stepPWeb s := by
  unfold setState
  split
  · exact ⟨[], rfl⟩
  · split
    · exact ⟨[], rfl⟩
    · exact ⟨[_, _], rfl⟩

theorem sets_ops (s : PWeb A.user) (l : List (Nat × Nat × (A.Val → A.Val))) :
    ∃ ops : List (Parallel.Op A.user), l.foldl (fun s p => setState s p.1 p.2.1 p.2.2) s = ops.foldl stepPWeb s := by
  induction l generalizing s with
  | nil => exact ⟨[], rfl⟩
  | cons p l ih =>
    obtain ⟨a, ha⟩ := setState_ops s p.1 p.2.1 p.2.2
    obtain ⟨b, hb⟩ := ih (setState s p.1 p.2.1 p.2.2)
    exact ⟨a ++ b, by rw [List.foldl_append, ← ha, ← hb]; rfl⟩

theorem stepDo_ops (s : PWeb A.user) (op : Do A) : ∃ ops : List (Parallel.Op A.user), stepDo s op = ops.foldl stepPWeb s := by
  cases op with
  | set x k g => exact setState_ops s x k g
  | task fuel i => exact ⟨[_, _], rfl⟩
  | deliver k => exact ⟨[_], rfl⟩
  | event target seq =>
    simp only [stepDo]
    split
    · exact ⟨[_], rfl⟩
    · rename_i fn _
      obtain ⟨b, hb⟩ := sets_ops (stepPWeb s (.event target seq)) (A.act fn)
      exact ⟨.event target seq :: b, hb⟩

theorem runDo_ops (A : App) (root : Comp) (ops : List (Do A)) : ∃ ops', runDo A root ops = runPWeb (U := A.user) (App.Mem.empty A) root ops' := by
  have gen : ∀ (ops : List (Do A)) (s : PWeb A.user), ∃ ops' : List (Parallel.Op A.user), ops.foldl stepDo s = ops'.foldl stepPWeb s := by
    intro ops
    induction ops with
    | nil => exact fun _ => ⟨[], rfl⟩
    | cons op ops ih =>
      intro s
      obtain ⟨a, ha⟩ := stepDo_ops s op
      obtain ⟨b, hb⟩ := ih (stepDo s op)
      exact ⟨a ++ b, by rw [List.foldl_cons, List.foldl_append, ← ha, ← hb]⟩
  exact gen ops _

theorem linv_run (root : Comp) (ops : List (Parallel.Op A.user)) : Layout.LInv root (runPWeb (App.Mem.empty A) root ops).sys.lay := by
  rw [pweb_sys]
  obtain ⟨_, sops, hs⟩ := Parallel.main (U := A.user) (App.Mem.empty A) root ops
  rw [← hs.lay]
  exact (Layout.rinv_run (U := A.user) (App.Mem.empty A) root sops).lay

theorem Sound.clear {s : PWeb A.user} (h : Sound s.sys) : Sound (clear s).sys := ⟨h.known, h.fine, h.started⟩

theorem Sound.step {root : Comp} {s : PWeb A.user} (h : Sound s.sys) (hr : ∃ ops, s = runPWeb (App.Mem.empty A) root ops) (op : Do A) :
    Sound (stepDo s op).sys := by
  cases op with
  | set x k g => exact h.set x k g
  | task fuel i =>
    obtain ⟨ops, rfl⟩ := hr
    have hl := linv_run root (ops ++ [.user fun m => { m with called := fun _ => [] }])
    have he : runPWeb (App.Mem.empty A) root (ops ++ [.user fun m => { m with called := fun _ => [] }]) = Whole.clear (runPWeb (App.Mem.empty A) root ops) := by
      simp [runPWeb, Whole.clear]
    rw [he] at hl
    refine h.clear.run hl (fun hA hst => ?_) fuel i
    rw [← he, pweb_sys] at hst ⊢
    obtain ⟨_, sops, hs⟩ := Parallel.main (U := A.user) (App.Mem.empty A) root (ops ++ [.user fun m => { m with called := fun _ => [] }])
    rw [← hs.lay]
    exact Layout.lhand_run hA.user (App.Mem.empty A) root sops (hs.stray.trans hst)
  | deliver k =>
    simp only [stepDo, stepPWeb, Parallel.step, Parallel.deliver]
    split
    · exact h
    · exact ⟨h.known, h.fine, h.started⟩
  | event target seq =>
    have h1 : Sound (stepPWeb s (.event target seq)).sys := ⟨h.known, h.fine, h.started⟩
    simp only [stepDo]
    split
    · exact h1
    · exact h1.sets _

theorem sound_run (A : App) (root : Comp) (ops : List (Do A)) : Sound (runDo A root ops).sys := by
  have gen : ∀ (ops : List (Do A)) (s : PWeb A.user), (∃ ops', s = runPWeb (App.Mem.empty A) root ops') → Sound s.sys → Sound (ops.foldl stepDo s).sys := by
    intro ops
    induction ops with
    | nil => exact fun _ _ h => h
    | cons op ops ih =>
      intro s hr h
      refine ih _ ?_ (h.step hr op)
      obtain ⟨a, rfl⟩ := hr
      obtain ⟨b, hb⟩ := stepDo_ops (runPWeb (App.Mem.empty A) root a) op
      exact ⟨a ++ b, by rw [hb]; simp [runPWeb]⟩
  exact gen ops _ ⟨[], rfl⟩ (sound_init root)

/-! ## The theorem -/

/-- **C113** (partial: renders do not overlap, nothing `lost`, `disordered` or `stray`, the root component has not failed, other hooks are left out).  Whatever was
clicked and set, in whatever order the renders were run, and whatever components failed: when nothing is left to do, the page is what the components return for
the present state (or the messages of the exceptions that they raise in it), each instance occurs in it once, and the handlers in it are the ones that the components attach in this state. -/
theorem C113_view_partial (V : Values) (A : App) (hA : A.Plain) (root : Comp) (ops : List (Do A)) :
    let s := runDo A root ops
    s.sys.lost = false → s.sys.disordered = false → s.sys.stray = false → ¬ RootFailed s.sys.lay.st.log → s.sys.queue = [] → (∀ t ∈ s.sys.ctl.tasks, t.stat ≠ .waiting) →
    ∃ o ids, s.page V = some o ∧ ids.Nodup ∧
      View V A s.state (fun target h => handlerFor s.sys.lay target = some h.fn) (fun _ => none) [.comp root] [o] ids := by
  intro s hl hd hst hf hq hw
  have hsd : Sound s.sys := sound_run A root ops
  obtain ⟨ops', he⟩ := runDo_ops A root ops
  have hs : s = runPWeb (U := A.user) (App.Mem.empty A) root ops' := he
  have hp := page_inv (U := A.user) (App.Mem.empty A) root ops'
  rw [← hs] at hp
  have e : s.sys = Parallel.runs (Parallel.init A.user (App.Mem.empty A) root) ops' := by rw [hs]; exact pweb_sys _ root ops'
  obtain ⟨_, sops, hser⟩ := Parallel.main (U := A.user) (App.Mem.empty A) root ops'
  rw [← e] at hser
  have hst' := hser.stray.trans hst
  have hr := Layout.rinv_run (U := A.user) (App.Mem.empty A) root sops
  have hh := Layout.lhand_run hA.user (App.Mem.empty A) root sops hst'
  rw [hser.lay] at hh
  have hlog : lastRender s.sys.lay.st.log 0 ≠ none := by
    rcases hsd.started with h | h | h | ⟨h, _⟩
    · rw [hl] at h; cases h
    · rw [hst] at h; cases h
    · exact h
    · exact absurd rfl (hw ⟨0, 0, .waiting⟩ (by rw [h]; simp))
  have hc := hser.client hd
  rw [hq] at hc
  have hc : (Layout.runSys (Layout.initSys A.user (App.Mem.empty A) root) sops).client = s.sys.client := hc
  rcases hr.client hst' with ⟨_, _, h1⟩ | ⟨h1, h2⟩
  · rw [hser.lay] at h1; exact absurd h1 hlog
  · rw [hc] at h1
    rw [hser.lay] at h1 h2
    have ha := hp.agree hst hf
    have hcur : s.current = some s.sys.lay.tree.view := by
      rcases ha with ⟨h3, _⟩ | ⟨ws, h3, h4⟩ | h3
      · rw [h1] at h3; cases h3
      · rw [h1] at h3
        rw [h4, Layout.Client.model.inj h3]
      · rw [h1] at h3; cases h3
    have hlay := hr.lay
    rw [hser.lay] at hlay
    obtain ⟨ids, a, b⟩ := view_of (V := V) (st := s.state) h2 (fun target h => handlerFor s.sys.lay target = some h.fn)
      (fun q hq => by unfold handlerFor; rw [hh.hok q hq]; rfl)
      (fun x hx c seen out hx' => (hsd.fine x c seen out hx' (by
        have hreg : x ∈ s.sys.lay.st.reg := (hlay.reg x).2 (by simp at hx; simp [hx])
        cases ho : s.sys.ctl.owed x with
        | false => rfl
        | true =>
          have := Parallel.C112_owed_partial (U := A.user) (App.Mem.empty A) root ops' x
          rw [← e] at this
          obtain ⟨t, ht, _, h2⟩ := this hl hst hreg ho
          exact absurd h2 (hw t ht))).weaken (fun _ _ hq => hq ⟨hA, hst⟩))
      (fun x c seen raw hx => (hh.log x c seen (.ok raw) (Layout.lastRender_mem hx)).2)
    refine ⟨_, ids, by unfold PWeb.page; rw [hcur]; rfl, ?_, a⟩
    have : (Layout.idsL [s.sys.lay.tree]).Nodup := by
      have := hlay.nodup
      rw [List.nodup_append] at this
      simpa using this.1
    exact this.sublist b

/-! ## Events -/

theorem set_state {A : App} (hsame : ∀ a b, A.same a b = true → a = b) (s : PWeb A.user) (x k : Nat) (g : A.Val → A.Val) (y : Nat) :
    (setState s x k g).state y = (s.state y).map (fun v j => if x = y ∧ k = j then g (v j) else v j) := by
  have hother : x ≠ y → s.state y = (s.state y).map (fun v j => if x = y ∧ k = j then g (v j) else v j) := by
    intro h
    cases s.state y <;> simp [h]
  unfold setState
  split
  · rename_i hv
    by_cases h : x = y
    · subst h; rw [hv]; rfl
    · exact hother h
  · rename_i v hv
    split
    · rename_i he
      by_cases h : x = y
      · subst h
        rw [hv]
        simp only [Option.map_some, true_and, Option.some.injEq]
        funext j
        split
        · rename_i e; subst e; exact (hsame _ _ he).symm
        · rfl
      · exact hother h
    · by_cases h : x = y
      · subst h
        rw [hv]
        change put s.state x (some (put v k (g (v k)))) x = _
        rw [put_same]
        simp only [Option.map_some, true_and, Option.some.injEq]
        funext j
        by_cases e : k = j
        · subst e; simp
        · simp [e, put_ne _ _ (Ne.symm e)]
      · change put s.state x (some (put v k (g (v k)))) y = _
        rw [put_ne _ _ (Ne.symm h)]
        exact hother h

/-- The value of a cell after setter calls: those that address it, one after another. -/
def cellAfter {A : App} (calls : List (Nat × Nat × (A.Val → A.Val))) (x k : Nat) (a : A.Val) : A.Val :=
  calls.foldl (fun a p => if p.1 = x ∧ p.2.1 = k then p.2.2 a else a) a

theorem sets_state {A : App} (hsame : ∀ a b, A.same a b = true → a = b) (l : List (Nat × Nat × (A.Val → A.Val))) (s : PWeb A.user) (y : Nat) :
    (l.foldl (fun s p => setState s p.1 p.2.1 p.2.2) s).state y = (s.state y).map (fun v j => cellAfter l y j (v j)) := by
  induction l generalizing s with
  | nil => simp [cellAfter]
  | cons p l ih =>
    rw [List.foldl_cons, ih, set_state hsame, Option.map_map]
    rfl

theorem dispatch_state {A : App} (hsame : ∀ a b, A.same a b = true → a = b) (x : Nat) (l : List (Nat × Nat × (A.Val → A.Val))) (m : A.Mem) (y : Nat) :
    (l.foldl (A.dispatch x) m).vals y = (m.vals y).map (fun v j => cellAfter l y j (v j)) := by
  induction l generalizing m with
  | nil => simp [cellAfter]
  | cons p l ih =>
    have one : (A.dispatch x m p).vals y = (m.vals y).map (fun v j => if p.1 = y ∧ p.2.1 = j then p.2.2 (v j) else v j) := by
      have hother : p.1 ≠ y → m.vals y = (m.vals y).map (fun v j => if p.1 = y ∧ p.2.1 = j then p.2.2 (v j) else v j) := by
        intro h
        cases m.vals y <;> simp [h]
      unfold App.dispatch
      split
      · rename_i hv
        by_cases h : p.1 = y
        · subst h; rw [hv]; rfl
        · exact hother h
      · rename_i v hv
        split
        · rename_i he
          by_cases h : p.1 = y
          · subst h
            rw [hv]
            simp only [Option.map_some, true_and, Option.some.injEq]
            funext j
            split
            · rename_i e; subst e; exact (hsame _ _ he).symm
            · rfl
          · exact hother h
        · by_cases h : p.1 = y
          · subst h
            rw [hv]
            simp only [put_same, Option.map_some, true_and, Option.some.injEq]
            funext j
            by_cases e : p.2.1 = j
            · subst e; simp
            · simp [e, put_ne _ _ (Ne.symm e)]
          · simp only [put_ne _ _ (Ne.symm h)]
            exact hother h
    rw [List.foldl_cons, ih, one, Option.map_map]
    rfl

/-- **C113.**  What a render of a component does to the values: its own are read, or made if it is rendered for the first time, and its result is for these;
then exactly the cells that the setters called by it address are changed, one call after another. -/
theorem C113_body (A : App) (hsame : ∀ a b, A.same a b = true → a = b) (m : A.Mem) (id : Nat) (c : Comp) (seen : Ctx) :
    let own := (m.vals id).getD (A.first id c seen)
    let r := A.user.render m id c seen
    r.2 = A.body id c own seen ∧
    ∀ y, App.Mem.vals r.1 y = (if y = id then some own else m.vals y).map (fun v k => cellAfter (A.during m.count id c own seen) y k (v k)) := by
  intro own r
  simp only [r, own, App.user]
  split
  · rename_i v hv
    rw [hv]
    refine ⟨rfl, fun y => ?_⟩
    rw [dispatch_state hsame]
    by_cases h : y = id
    · subst h; simp [hv]
    · simp [h]
  · rename_i hv
    rw [hv]
    refine ⟨rfl, fun y => ?_⟩
    rw [dispatch_state hsame]
    by_cases h : y = id
    · subst h; simp
    · simp [h, put_ne _ _ h]

/-- The operation is a render task or the return of `render()`. -/
def Do.render : Do A → Bool
  | .task _ _ => true
  | .deliver _ => true
  | _ => false

theorem task_steps (s : PWeb A.user) (fuel i : Nat) : Steps' (Rejected False) (clear s).sys.lay.st (stepDo s (.task fuel i)).sys.lay.st := by
  simp only [stepDo]
  generalize clear s = s
  generalize callsOf s.sys fuel i = calls
  simp only [stepPWeb, Parallel.step, Parallel.run]
  split
  · split
    · split
      · rename_i he; exact renderOp_steps he
      · exact .refl _
      · rename_i l o h1 h2 he
        rw [show l = s.sys.lay by
          unfold renderOp at he
          split at he
          · split at he
            · split at he
              · cases he; exact (h1 _ rfl).elim
              · cases he; exact (h2 rfl).elim
            · split at he
              · split at he
                · cases he; exact (h1 _ rfl).elim
                · cases he; exact (h2 rfl).elim
              · cases he; rfl
          · cases he; rfl]
        exact .refl _
    · exact .refl _
  · exact .refl _

theorem renders_state (hquiet : A.Quiet) (ops : List (Do A)) (h : ∀ op ∈ ops, op.render = true) (s : PWeb A.user) :
    (∀ x v, s.state x = some v → (ops.foldl stepDo s).state x = some v) ∧
    ∀ x v, (ops.foldl stepDo s).state x = some v → s.state x = some v ∨ ∃ c seen, v = A.first x c seen := by
  induction ops generalizing s with
  | nil => exact ⟨fun _ _ h => h, fun _ _ h => .inl h⟩
  | cons op ops ih =>
    obtain ⟨a, b⟩ := ih (fun op ho => h op (by simp [ho])) (stepDo s op)
    have hop := h op (by simp)
    have step : (∀ x v, s.state x = some v → (stepDo s op).state x = some v) ∧
        ∀ x v, (stepDo s op).state x = some v → s.state x = some v ∨ ∃ c seen, v = A.first x c seen := by
      cases op with
      | set x k g => cases hop
      | event target seq => cases hop
      | deliver k =>
        have : (stepDo s (.deliver k)).state = s.state := by
          simp only [stepDo, stepPWeb, Parallel.step, Parallel.deliver, PWeb.state]
          split <;> rfl
        rw [this]
        exact ⟨fun _ _ h => h, fun _ _ h => .inl h⟩
      | task fuel i =>
        obtain ⟨t, ht⟩ := task_steps s fuel i
        obtain ⟨a, b, _⟩ := ht.still hquiet
        exact ⟨a, b⟩
    refine ⟨fun x v hv => a x v (step.1 x v hv), fun x v hv => ?_⟩
    rcases b x v hv with h1 | h1
    · exact step.2 x v h1
    · exact .inr h1

/-- **C113** (partial as before; values that count as equal are equal, and no setters are called during renders).  After an event at a handler of the page, and whatever renders follow: when nothing is left to do,
the page shows the state in which exactly the cells that the handler's setters address have changed, one setter call after another, and
instances that are new have their initial state. -/
theorem C113_event_partial (V : Values) (A : App) (hA : A.Plain) (hquiet : A.Quiet) (hsame : ∀ a b, A.same a b = true → a = b) (root : Comp) (ops ops' : List (Do A))
    (target : String) (seq : Option Nat) (fn : Nat) (hrender : ∀ op ∈ ops', op.render = true) :
    let s := runDo A root ops
    let s' := runDo A root (ops ++ .event target seq :: ops')
    handlerFor s.sys.lay target = some fn →
    s'.sys.lost = false → s'.sys.disordered = false → s'.sys.stray = false → ¬ RootFailed s'.sys.lay.st.log → s'.sys.queue = [] → (∀ t ∈ s'.sys.ctl.tasks, t.stat ≠ .waiting) →
    ∃ o ids, s'.page V = some o ∧ ids.Nodup ∧
      View V A s'.state (fun target h => handlerFor s'.sys.lay target = some h.fn) (fun _ => none) [.comp root] [o] ids ∧
      (∀ x v, s.state x = some v → s'.state x = some (fun k => cellAfter (A.act fn) x k (v k))) ∧
      (∀ x v, s.state x = none → s'.state x = some v → ∃ c seen, v = A.first x c seen) := by
  intro s s' hh hl hd hst hf hq hw
  obtain ⟨o, ids, h1, h2, h3⟩ := C113_view_partial V A hA root (ops ++ .event target seq :: ops') hl hd hst hf hq hw
  refine ⟨o, ids, h1, h2, h3, ?_⟩
  have he : s' = ops'.foldl stepDo (stepDo s (.event target seq)) := by
    simp only [s', s, runDo, List.foldl_append, List.foldl_cons]
  have hst : (stepDo s (.event target seq)).state = fun y => (s.state y).map (fun v j => cellAfter (A.act fn) y j (v j)) := by
    funext y
    simp only [stepDo]
    have : handlerFor (stepPWeb s (.event target seq)).sys.lay target = some fn := hh
    rw [this]
    exact sets_state hsame _ _ y
  obtain ⟨a, b⟩ := renders_state hquiet ops' hrender (stepDo s (.event target seq))
  rw [← he] at a b
  rw [hst] at a b
  refine ⟨fun x v hv => a x _ (by simp [hv]), fun x v hn hv => ?_⟩
  rcases b x v hv with h | h
  · simp [hn] at h
  · exact h

/-! ## Nothing is left to do, sooner or later -/

/-- The number of render tasks that wait. -/
def PWeb.waiting {U : User} (s : PWeb U) : Nat := s.sys.ctl.tasks.countP (fun t => decide (t.stat = .waiting))

theorem countP_modify {α : Type} (p : α → Bool) (f : α → α) (hf : ∀ a, p (f a) = true → p a = true) : ∀ (l : List α) (i : Nat), (l.modify i f).countP p ≤ l.countP p
  | [], i => by simp
  | a :: l, 0 => by
    rw [List.modify_zero_cons, List.countP_cons, List.countP_cons]
    have := hf a
    cases h : p (f a) <;> cases h' : p a <;> simp_all
  | a :: l, i + 1 => by
    rw [List.modify_succ_cons, List.countP_cons, List.countP_cons]
    have := countP_modify p f hf l i
    omega

theorem countP_modify_lt {α : Type} (p : α → Bool) (f : α → α) {a : α} (ha : p a = true) (hf : p (f a) = false) :
    ∀ (l : List α) (i : Nat), l[i]? = some a → (l.modify i f).countP p < l.countP p
  | [], i, h => by simp at h
  | b :: l, 0, h => by
    simp at h
    subst h
    rw [List.modify_zero_cons, List.countP_cons, List.countP_cons, ha, hf]
    simp
  | b :: l, i + 1, h => by
    rw [List.modify_succ_cons, List.countP_cons, List.countP_cons]
    have := countP_modify_lt p f ha hf l i (by simpa using h)
    omega

theorem follow_waiting (cur : Nat) (es : List Ev) : ∀ (calls : List (List Nat)) (c : Ctl), (∀ l ∈ calls, l = []) →
    (follow cur es calls c).tasks.countP (fun t => decide (t.stat = .waiting)) ≤ c.tasks.countP (fun t => decide (t.stat = .waiting)) := by
  induction es with
  | nil => exact fun _ _ _ => Nat.le_refl _
  | cons e es ih =>
    intro calls c hc
    have hd : calls.headD [] = [] := by
      cases calls with
      | nil => rfl
      | cons l calls => exact hc l (by simp)
    refine Nat.le_trans (ih calls.tail _ (fun l hl => hc l (List.mem_of_mem_tail hl))) ?_
    rw [hd]
    change (observe cur e c).tasks.countP _ ≤ _
    cases e with
    | entered x =>
      simp only [observe]
      split
      · exact Nat.le_refl _
      · split
        · exact Nat.le_refl _
        · refine countP_modify _ _ (fun t ht => ?_) _ _
          unfold Parallel.cancel at ht
          split at ht
          · simp at ht
          · exact ht
    | unmounted => exact Nat.le_refl _
    | mounted => exact Nat.le_refl _
    | rendered => exact Nat.le_refl _
    | effects => exact Nat.le_refl _

/-- A render of components that are nested finitely deep ends. -/
theorem renderOp_ends {U : User} (hfin : WellFounded (Layout.Contains U)) (id : Nat) (lay : Layout U) :
    ∃ n, ∀ fuel, n ≤ fuel → ∀ l, renderOp fuel id lay ≠ (l, .diverged) := by
  have end1 : ∀ old, (∃ p c e ks, old = .comp p id c e ks) → ∃ n, ∀ fuel, n ≤ fuel → renderAt fuel old lay.st ≠ none := by
    rintro _ ⟨p, c, e, ks, rfl⟩
    obtain ⟨n, s', new, hn⟩ := Layout.renderAt_ends (p := p) (id := id) (e := e) (ks := ks) (s := lay.st) (hfin.apply c)
    exact ⟨n, fun fuel hf => by rw [hn fuel hf]; simp⟩
  unfold renderOp
  by_cases hreg : id ∈ lay.st.reg
  · simp only [if_pos hreg]
    cases hf : Layout.findComp id lay.tree with
    | some old =>
      obtain ⟨n, hn⟩ := end1 old (Layout.findComp_mem _ _ _ hf).2
      refine ⟨n, fun fuel hfu l => ?_⟩
      have := hn fuel hfu
      simp only
      split
      · simp
      · rename_i hr; exact absurd hr this
    | none =>
      cases ho : lay.st.orphans.findSome? (Layout.orphanPart id) with
      | none => exact ⟨0, fun fuel _ l => by simp⟩
      | some old =>
        have hold : ∃ p c e ks, old = .comp p id c e ks := by
          obtain ⟨o, _, ho⟩ := List.exists_of_findSome?_eq_some ho
          unfold Layout.orphanPart at ho
          split at ho
          · split at ho
            · cases ho
            · exact (Layout.findCompL_mem _ _ _ ho).2
          · cases ho
        obtain ⟨n, hn⟩ := end1 old hold
        refine ⟨n, fun fuel hfu l => ?_⟩
        have := hn fuel hfu
        simp only
        split
        · simp
        · rename_i hr; exact absurd hr this
  · simp only [if_neg hreg]
    exact ⟨0, fun fuel _ l => by simp⟩

theorem task_progress {U : User} (hfin : WellFounded (Layout.Contains U)) (s : PWeb U) (i : Nat) (t : Parallel.Task) (ht : s.sys.ctl.tasks[i]? = some t)
    (hw : t.stat = .waiting) (calls : Nat → List (List Nat)) (hcalls : ∀ fuel, ∀ l ∈ calls fuel, l = []) :
    ∃ n, ∀ fuel, n ≤ fuel → (stepPWeb s (.run fuel i (calls fuel))).waiting < s.waiting := by
  obtain ⟨id, obj, stat⟩ := t
  simp only at hw
  subst hw
  have hstart : (start i s.sys.ctl).tasks.countP (fun t => decide (t.stat = .waiting)) < s.waiting :=
    countP_modify_lt _ _ (by simp) (by simp) _ _ ht
  have hall := renderOp_ends hfin id s.sys.lay
  obtain ⟨n, hn⟩ := hall
  refine ⟨n, fun fuel hfu => ?_⟩
  have := hn fuel hfu
  simp only [stepPWeb, Parallel.step, Parallel.run, PWeb.waiting, ht]
  split
  · split
    · exact Nat.lt_of_le_of_lt (follow_waiting i _ _ _ (hcalls fuel)) hstart
    · rename_i he; exact absurd he (this _)
    · exact hstart
  · exact hstart

theorem callsOf_quiet (hquiet : A.Quiet) (s : PWeb A.user) (fuel i : Nat) : ∀ l ∈ callsOf (clear s).sys fuel i, l = [] := by
  unfold callsOf
  split
  · simp
  · split
    · rename_i l u he
      obtain ⟨t, ht⟩ := renderOp_steps he
      intro x hx
      rw [List.mem_map] at hx
      obtain ⟨e, _, rfl⟩ := hx
      cases e with
      | entered y =>
        simp only [bodyCalls]
        rw [(ht.still hquiet).2.2]
        rfl
      | unmounted => rfl
      | mounted => rfl
      | rendered => rfl
      | effects => rfl
    · simp

/-- **C113.**  The work comes to an end: if no setters are called during renders and components are nested finitely deep, then whenever a render task waits, running it ends, and fewer wait afterwards; whenever an
update waits, delivering it leaves fewer; and so from any state a state is reached in which nothing is left to do. -/
theorem C113_settles (A : App) (hquiet : A.Quiet) (hfin : WellFounded (Layout.Contains A.user)) (root : Comp) (ops : List (Do A)) :
    let s := runDo A root ops
    (∀ i t, s.sys.ctl.tasks[i]? = some t → t.stat = .waiting → ∃ n, ∀ fuel, n ≤ fuel → (stepDo s (.task fuel i)).waiting < s.waiting) ∧
    (∀ k, k < s.sys.queue.length → (stepDo s (.deliver k)).sys.queue.length + 1 = s.sys.queue.length ∧ (stepDo s (.deliver k)).waiting = s.waiting) ∧
    ∃ ops', (∀ op ∈ ops', op.render = true) ∧
      let s' := runDo A root (ops ++ ops')
      s'.sys.queue = [] ∧ ∀ t ∈ s'.sys.ctl.tasks, t.stat ≠ .waiting := by
  intro s
  have hdel : ∀ (s : PWeb A.user) k, k < s.sys.queue.length → (stepDo s (.deliver k)).sys.queue.length + 1 = s.sys.queue.length ∧ (stepDo s (.deliver k)).waiting = s.waiting := by
    intro s k hk
    simp only [stepDo, stepPWeb, Parallel.step, Parallel.deliver, PWeb.waiting]
    rw [List.getElem?_eq_getElem hk]
    simp only [List.length_eraseIdx, hk, if_true]
    exact ⟨by omega, trivial⟩
  have hrun : ∀ (s : PWeb A.user) i t, s.sys.ctl.tasks[i]? = some t → t.stat = .waiting →
      ∃ n, ∀ fuel, n ≤ fuel → (stepDo s (.task fuel i)).waiting < s.waiting :=
    fun s i t ht hw => task_progress hfin (clear s) i t ht hw _ (fun fuel => callsOf_quiet hquiet s fuel i)
  refine ⟨hrun s, hdel s, ?_⟩
  have h2 : ∀ n (s : PWeb A.user), s.sys.queue.length = n → s.waiting = 0 → ∃ ops' : List (Do A), (∀ op ∈ ops', op.render = true) ∧
      (ops'.foldl stepDo s).sys.queue = [] ∧ (ops'.foldl stepDo s).waiting = 0 := by
    intro n
    induction n with
    | zero => exact fun s hs hw => ⟨[], by simp, List.length_eq_zero_iff.1 hs, hw⟩
    | succ n ih =>
      intro s hs hw
      obtain ⟨d1, d2⟩ := hdel s 0 (by omega)
      obtain ⟨ops', a, b, c⟩ := ih (stepDo s (.deliver 0)) (by omega) (d2.trans hw)
      exact ⟨.deliver 0 :: ops', by simpa [Do.render] using a, b, c⟩
  have h1 : ∀ n (s : PWeb A.user), s.waiting ≤ n → ∃ ops' : List (Do A), (∀ op ∈ ops', op.render = true) ∧
      (ops'.foldl stepDo s).sys.queue = [] ∧ (ops'.foldl stepDo s).waiting = 0 := by
    intro n
    induction n with
    | zero => exact fun s hw => h2 _ s rfl (by omega)
    | succ n ih =>
      intro s hw
      by_cases h0 : s.waiting = 0
      · exact h2 _ s rfl h0
      · have hpos : 0 < s.waiting := by omega
        unfold PWeb.waiting at hpos
        rw [List.countP_pos_iff] at hpos
        obtain ⟨t, ht, hwt⟩ := hpos
        obtain ⟨i, hi⟩ := List.getElem?_of_mem ht
        obtain ⟨m, hm⟩ := hrun s i t hi (by simpa using hwt)
        have := hm m (Nat.le_refl m)
        obtain ⟨ops', a, b, c⟩ := ih (stepDo s (.task m i)) (by omega)
        exact ⟨.task m i :: ops', by simpa [Do.render] using a, b, c⟩
  obtain ⟨ops', a, b, c⟩ := h1 _ s (Nat.le_refl _)
  refine ⟨ops', a, ?_⟩
  have he : runDo A root (ops ++ ops') = ops'.foldl stepDo s := by simp only [s, runDo, List.foldl_append]
  rw [he]
  refine ⟨b, fun t ht hw => ?_⟩
  unfold PWeb.waiting at c
  rw [List.countP_eq_zero] at c
  exact c t ht (by simp [hw])

/-! ## An example -/

/-- A `div` with a provider of context 3, in which there are two counters; each shows its count and the context, and counts clicks. -/
def counters : App where
  Val := Nat
  same a b := decide (a = b)
  first _ c _ _ := c.props
  body id c v seen := match c.type with
    | .fn 0 => .ok (.elem { tag := some "div" } [.comp { type := .ctx 3, props := 70 }, .none, .text "x"])
    | _ => .ok (.elem { tag := some "p", handlers := [("onClick", { fn := id })] } [.text (toString (v 0)), .text (toString ((seen 3).getD 0))])
  act fn := [(fn, 0, (· + 1)), (fn, 0, (· + 1)), (fn, 1, id)]
  provValue p := p
  provChildren _ := [.comp { type := .fn 1, key := some (.str "a"), props := 5 }, .comp { type := .fn 1, props := 8 }]

theorem counters_plain : counters.Plain where
  body := by
    intro id c v seen raw h
    simp only [counters] at h
    split at h
    · simp only [Except.ok.injEq] at h
      subst h
      exact ⟨by simp [Raw.explicitKey], by simp, by simp, (fun k hk => by simp at hk), trivial, trivial, trivial⟩
    · simp only [Except.ok.injEq] at h
      subst h
      exact ⟨by simp [Raw.explicitKey], by simp, by simp, trivial, trivial, trivial⟩
  provided p := by
    refine ⟨fun k hk => ?_, (fun k hk => by simp at hk), trivial⟩
    simp at hk
    subst hk
    exact ⟨by decide, by decide, Layout.str_a_ne⟩

/-- How deep components can be nested in a component of `counters`. -/
def exRank (c : Comp) : Nat := match c.type with
  | .fn 0 => 2
  | .fn _ => 0
  | .ctx _ => 1

theorem counters_finite : WellFounded (Layout.Contains counters.user) := by
  refine Subrelation.wf (r := InvImage (· < ·) exRank) ?_ (InvImage.wf exRank Nat.lt_wfRel.wf)
  rintro d c ⟨id, seen, raw, hr, hd⟩
  have hbody : ∀ v, counters.body id c v seen = .ok raw → exRank d < exRank c ∨ ∃ x, c.type = .ctx x := by
    intro v h
    simp only [counters] at h
    split at h
    · rename_i ht
      simp only [Except.ok.injEq] at h
      subst h
      cases hd with
      | elem hm hd =>
        simp at hm
        rcases hm with rfl | rfl | rfl <;> cases hd
        left
        simp [exRank, ht]
    · simp only [Except.ok.injEq] at h
      subst h
      cases hd with
      | elem hm hd =>
        simp at hm
        rcases hm with rfl | rfl <;> cases hd
  unfold Layout.Returned at hr
  change exRank d < exRank c
  cases ht : c.type with
  | ctx x =>
    rw [ht] at hr
    simp only at hr
    subst hr
    cases hd with
    | elem hm hd =>
      simp [App.user, counters] at hm
      rcases hm with rfl | rfl <;> cases hd <;> simp [exRank, ht]
  | fn n =>
    rw [ht] at hr
    obtain ⟨w, hw⟩ := hr
    simp only [App.user] at hw
    split at hw
    · rcases hbody _ hw with h | ⟨x, h⟩
      · exact h
      · rw [ht] at h; cases h
    · rcases hbody _ hw with h | ⟨x, h⟩
      · exact h
      · rw [ht] at h; cases h

theorem counters_same : ∀ a b, counters.same a b = true → a = b := by
  intro (a : Nat) (b : Nat) h
  exact of_decide_eq_true (p := a = b) h

def exDo0 : List (Do counters) := [.task 50 0, .deliver 0, .set 2 0 (Nat.add 10), .set 3 1 (fun a => a), .task 50 1]

/-- The second counter is clicked before the update of the first one has arrived, and that update is overtaken. -/
def exDo1 : List (Do counters) := [.task 50 2, .deliver 1, .deliver 0]

def exTarget : String := "/0/0/0/1/0:onClick"

def exDoWeb : PWeb counters.user := runDo counters { type := .fn 0 } (exDo0 ++ .event exTarget none :: exDo1)

theorem exDoWeb_current : exDoWeb.current = some (.obj { tag := "" } (some [.obj { tag := "div" } (some [.obj { tag := "" } (some [.obj { tag := "" } (some
    [.obj { tag := "" } (some [.obj { tag := "p", handlers := some [⟨"onClick", "/0/0/0/a/0:onClick", false, false, none, none⟩] } (some [.text "15", .text "70"])]),
     .obj { tag := "" } (some [.obj { tag := "p", handlers := some [⟨"onClick", exTarget, false, false, none, none⟩] } (some [.text "10", .text "70"])])])]),
    .text "x"])])) := by
  have h : (exDoWeb.current.any (fun v => v.same (.obj { tag := "" } (some [.obj { tag := "div" } (some [.obj { tag := "" } (some [.obj { tag := "" } (some
    [.obj { tag := "" } (some [.obj { tag := "p", handlers := some [⟨"onClick", "/0/0/0/a/0:onClick", false, false, none, none⟩] } (some [.text "15", .text "70"])]),
     .obj { tag := "" } (some [.obj { tag := "p", handlers := some [⟨"onClick", exTarget, false, false, none, none⟩] } (some [.text "10", .text "70"])])])]),
    .text "x"])])))) = true := by decide +kernel
  revert h
  cases exDoWeb.current with
  | none => simp
  | some v => exact fun h => congrArg some (Layout.VJson.same_eq v _ (by simpa using h))

example : counters.Plain ∧ counters.Quiet ∧ WellFounded (Layout.Contains counters.user) ∧ (∀ a b, counters.same a b = true → a = b) ∧ (∀ op ∈ exDo1, op.render = true) ∧
    handlerFor (runDo counters { type := .fn 0 } exDo0).sys.lay exTarget = some 3 ∧
    exDoWeb.sys.lost = false ∧ exDoWeb.sys.disordered = false ∧ exDoWeb.sys.stray = false ∧ ¬ Failed exDoWeb.sys.lay.st.log ∧ exDoWeb.sys.queue.length = 0 ∧
    (∀ t ∈ exDoWeb.sys.ctl.tasks, t.stat ≠ .waiting) ∧
    (∃ p q, exDoWeb.page exValues = some (.elem "" [] [.elem "div" [] [.elem "" [] [.elem "" [] [
      .elem "" [] [.elem "p" p [.text "15", .text "70"]], .elem "" [] [.elem "p" q [.text "10", .text "70"]]]], .text "x"]])) ∧
    cellAfter (A := counters) (counters.act 3) 3 0 (8 : Nat) = (10 : Nat) :=
  ⟨counters_plain, fun _ _ _ _ _ => rfl, counters_finite, counters_same, by decide, by decide +kernel, by decide +kernel, by decide +kernel, by decide +kernel,
    by rw [Layout.failedB_iff]; decide +kernel, by decide +kernel, by decide +kernel,
    ⟨_, _, by unfold PWeb.page; rw [exDoWeb_current]; rfl⟩, rfl⟩

/-- A `div` that shows its total and a field; the body of the field reduces its own value to 9, and sets the total to 7 less than it. -/
def limited : App where
  Val := Nat
  same a b := decide (a = b)
  first _ c _ _ := c.props
  body _ c v _ := match c.type with
    | .fn 0 => .ok (.elem { tag := some "div" } [.text (toString (v 0)), .comp { type := .fn 1, props := 20 }])
    | _ => .ok (.elem { tag := some "p" } [.text (toString (v 0))])
  during _ id c v _ := match c.type with
    | .fn 0 => []
    | _ => (if 9 < v 0 then [(id, 0, fun _ => 9)] else []) ++ [(0, 0, fun _ => v 0 - 7)]
  act _ := []
  provValue p := p
  provChildren _ := []

example : (∀ a b, limited.same a b = true → a = b) ∧
    (let m : limited.Mem := { vals := fun _ => none, called := fun _ => [], count := 0 }
     let m := (limited.user.render m 0 { type := .fn 0 } (fun _ => none)).1
     ((limited.user.render m 1 { type := .fn 1, props := 20 } (fun _ => none)).1 : limited.Mem).vals 0 |>.map (· 0)) = some (13 : Nat) :=
  ⟨fun (a : Nat) (b : Nat) h => of_decide_eq_true (p := a = b) h, rfl⟩

theorem limited_plain : limited.Plain where
  body := by
    intro id c v seen raw h
    simp only [limited] at h
    split at h
    · simp only [Except.ok.injEq] at h
      subst h
      exact ⟨by simp [Raw.explicitKey], by simp, by simp, trivial, (fun k hk => by simp at hk), trivial⟩
    · simp only [Except.ok.injEq] at h
      subst h
      exact ⟨by simp [Raw.explicitKey], by simp, by simp, trivial, trivial⟩
  provided p := trivial

/-- The first render shows 20 and asks for two more; the render of the `div` includes the field, whose task ends when it is run. -/
def exLimited (n : Nat) : PWeb limited.user :=
  runDo limited { type := .fn 0 } ([.task 50 0, .deliver 0, .task 50 1, .deliver 0, .task 50 2, .deliver 0, .task 50 3, .deliver 0].take n)

theorem exLimited_current : (exLimited 2).current.any (fun v => v.same (.obj { tag := "" } (some [.obj { tag := "div" } (some [.text "0",
      .obj { tag := "" } (some [.obj { tag := "p" } (some [.text "20"])])])]))) = true ∧
    (exLimited 8).current.any (fun v => v.same (.obj { tag := "" } (some [.obj { tag := "div" } (some [.text "2",
      .obj { tag := "" } (some [.obj { tag := "p" } (some [.text "9"])])])]))) = true := by decide +kernel

example : limited.Plain ∧ (exLimited 2).waiting = 2 ∧
    (exLimited 8).sys.lost = false ∧ (exLimited 8).sys.disordered = false ∧ ¬ Failed (exLimited 8).sys.lay.st.log ∧ (exLimited 8).sys.queue.length = 0 ∧
    (∀ t ∈ (exLimited 8).sys.ctl.tasks, t.stat ≠ .waiting) :=
  ⟨limited_plain, by decide +kernel, by decide +kernel, by decide +kernel, by rw [Layout.failedB_iff]; decide +kernel, by decide +kernel, by decide +kernel⟩

theorem not_rootFailed {log : List Ev} (h : log.any (fun e => match e with | .rendered id _ _ (.error _) => id == 0 | _ => false) = false) : ¬ RootFailed log := by
  rintro ⟨c, seen, e, hm⟩
  rw [List.any_eq_false] at h
  exact h _ hm rfl

/-- A `div` with a component that raises an exception, one that returns two children with the same key, and a context provider with such children; the first
two return text as soon as their states are not zero, and nothing mends the third. -/
def faulty : App where
  Val := Nat
  same a b := decide (a = b)
  first _ _ _ _ := (0 : Nat)
  body _ c v _ := match c.type with
    | .fn 0 => .ok (.elem { tag := some "div" } [.comp { type := .fn 1 }, .comp { type := .fn 2 }, .comp { type := .ctx 0 }])
    | .fn 1 => if v 0 = (0 : Nat) then .error "boom" else .ok (.text "a")
    | _ => if v 0 = (0 : Nat) then .ok (.elem { tag := some "ul" } [.comp { type := .fn 3, key := some (.int 1) }, .comp { type := .fn 3, key := some (.int 1) }]) else .ok (.text "b")
  act _ := []
  provValue p := p
  provChildren _ := [.comp { type := .fn 3, key := some (.int 1) }, .comp { type := .fn 3, key := some (.int 1) }]

theorem faulty_plain : faulty.Plain where
  body := by
    intro id c v seen raw h
    simp only [faulty] at h
    split at h
    · simp only [Except.ok.injEq] at h
      subst h
      exact ⟨by simp [Raw.explicitKey], by simp, by simp, (fun k hk => by simp at hk), (fun k hk => by simp at hk), (fun k hk => by simp at hk), trivial⟩
    · split at h
      · cases h
      · simp only [Except.ok.injEq] at h
        subst h; trivial
    · split at h
      · simp only [Except.ok.injEq] at h
        subst h
        exact ⟨by simp [Raw.explicitKey], by simp, by simp, (fun k hk => by simp at hk; subst hk; trivial), (fun k hk => by simp at hk; subst hk; trivial), trivial⟩
      · simp only [Except.ok.injEq] at h
        subst h; trivial
  provided p := ⟨fun k hk => by simp at hk; subst hk; trivial, fun k hk => by simp at hk; subst hk; trivial, trivial⟩

def exFaulty (n : Nat) : PWeb faulty.user :=
  runDo faulty { type := .fn 0 } ([.task 50 0, .deliver 0, .set 1 0 (fun _ => (1 : Nat)), .set 2 0 (fun _ => (1 : Nat)), .task 50 1, .task 50 2, .deliver 1, .deliver 0].take n)

theorem exFaulty_current : (exFaulty 2).current.any (fun v => v.same (.obj { tag := "" } (some [.obj { tag := "div" } (some [
      .obj { tag := "", error := some "boom" } none, .obj { tag := "", error := some "ValueError" } none, .obj { tag := "", error := some "ValueError" } none])]))) = true ∧
    (exFaulty 8).current.any (fun v => v.same (.obj { tag := "" } (some [.obj { tag := "div" } (some [
      .obj { tag := "" } (some [.text "a"]), .obj { tag := "" } (some [.text "b"]), .obj { tag := "", error := some "ValueError" } none])]))) = true := by decide +kernel

example : ∀ n ∈ [2, 8], faulty.Plain ∧ (exFaulty n).sys.lost = false ∧ (exFaulty n).sys.disordered = false ∧ (exFaulty n).sys.stray = false ∧
    ¬ RootFailed (exFaulty n).sys.lay.st.log ∧ Failed (exFaulty n).sys.lay.st.log ∧ (exFaulty n).sys.queue.length = 0 ∧ (∀ t ∈ (exFaulty n).sys.ctl.tasks, t.stat ≠ .waiting) := by
  intro n hn
  simp only [List.mem_cons, List.not_mem_nil, or_false] at hn
  rcases hn with rfl | rfl <;>
  exact ⟨faulty_plain, by decide +kernel, by decide +kernel, by decide +kernel, not_rootFailed (by decide +kernel),
    by rw [Layout.failedB_iff]; decide +kernel, by decide +kernel, by decide +kernel⟩

/-- The first counter is set twice and rendered after each time; then the two updates are handed out in this or the other order. -/
def exTwice (newestFirst : Bool) : List (Do counters) :=
  [.task 50 0, .deliver 0, .set 2 0 (Nat.add 10), .task 50 1, .set 2 0 (Nat.add 10), .task 50 2, .deliver (if newestFirst then 1 else 0), .deliver 0]

/-- **C113 is violated** when an update overtakes an earlier one of the same component: two histories that differ in nothing but the order in which the two
last updates are handed out, after both of which no component has failed, nothing is left to do and all values are the same; the pages show different values, one of them an old one. -/
theorem C113_disordered_violated :
    let s := runDo counters { type := .fn 0 } (exTwice false)
    let s' := runDo counters { type := .fn 0 } (exTwice true)
    (¬ Failed s.sys.lay.st.log ∧ s.sys.queue.length = 0 ∧ (∀ t ∈ s.sys.ctl.tasks, t.stat ≠ .waiting) ∧ s.sys.lost = false) ∧
    (¬ Failed s'.sys.lay.st.log ∧ s'.sys.queue.length = 0 ∧ (∀ t ∈ s'.sys.ctl.tasks, t.stat ≠ .waiting) ∧ s'.sys.lost = false) ∧
    s.state = s'.state ∧ (s.state 2).map (fun v => (v 0 : Nat)) = some 25 ∧
    s.current.any (fun v => v.same (.obj { tag := "" } (some [.obj { tag := "div" } (some [.obj { tag := "" } (some [.obj { tag := "" } (some
      [.obj { tag := "" } (some [.obj { tag := "p", handlers := some [⟨"onClick", "/0/0/0/a/0:onClick", false, false, none, none⟩] } (some [.text "25", .text "70"])]),
       .obj { tag := "" } (some [.obj { tag := "p", handlers := some [⟨"onClick", exTarget, false, false, none, none⟩] } (some [.text "8", .text "70"])])])]),
      .text "x"])]))) = true ∧
    s'.current.any (fun v => v.same (.obj { tag := "" } (some [.obj { tag := "div" } (some [.obj { tag := "" } (some [.obj { tag := "" } (some
      [.obj { tag := "" } (some [.obj { tag := "p", handlers := some [⟨"onClick", "/0/0/0/a/0:onClick", false, false, none, none⟩] } (some [.text "15", .text "70"])]),
       .obj { tag := "" } (some [.obj { tag := "p", handlers := some [⟨"onClick", exTarget, false, false, none, none⟩] } (some [.text "8", .text "70"])])])]),
      .text "x"])]))) = true := by
  have hd : ∀ (s : PWeb counters.user) k, (stepDo s (.deliver k)).state = s.state := by
    intro s k
    simp only [stepDo, stepPWeb, Parallel.step, Parallel.deliver, PWeb.state]
    split <;> rfl
  refine ⟨⟨by rw [Layout.failedB_iff]; decide +kernel, by decide +kernel, by decide +kernel, by decide +kernel⟩,
    ⟨by rw [Layout.failedB_iff]; decide +kernel, by decide +kernel, by decide +kernel, by decide +kernel⟩, ?_, by decide +kernel, by decide +kernel, by decide +kernel⟩
  simp only [runDo, exTwice, List.foldl_cons, List.foldl_nil, hd]

end Verif.Whole
