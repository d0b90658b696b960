import Verif.Hooks.Stack
/-! # Hook calls reach the component whose body makes them -/
namespace Verif.Hooks.Stack

/-! ## Specification

Every task has a call stack of its own: the components that it is inside of, innermost first, each with the number of hook calls that
its present run has made.  Nothing is shared between tasks but what components keep. -/

/-- What a reader of the program has in mind. -/
structure Plain where
  /-- The components that the task is inside of, and how many hook calls each run has made. -/
  inside : Nat → List (Nat × Nat)
  /-- The component has been rendered. -/
  made : Nat → Bool
  /-- The values of the component's first run, in order. -/
  values : Nat → List Nat
  /-- The values that contexts have for the component. -/
  context : Nat → Nat → Option Nat
  /-- The task was started by a component's body, or by such a task. -/
  stray : Nat → Bool

/-- Nothing done. -/
def Plain.init : Plain :=
  { inside := fun _ => [], made := fun _ => false, values := fun _ => [], context := fun _ _ => none, stray := fun _ => false }

/-- What is to happen. -/
def Plain.next (p : Plain) : Op → Plain × Out
  | .spawn t u => ({ p with stray := put p.stray u (p.stray t || !(p.inside t).isEmpty) }, .done)
  | .start _ => (p, .done)
  | .enter t h =>
    match p.inside t with
    | [] => ({ p with inside := put p.inside t [(h, 0)] }, .done)
    | (g, n) :: l =>
      ({ p with inside := put p.inside t ((h, 0) :: (g, n) :: l),
                context := put p.context h (fun c => match p.context g c with | some v => some v | none => p.context h c) }, .done)
  | .use t v =>
    match p.inside t with
    | [] => (p, .noHook)
    | (h, n) :: l =>
      if p.made h then
        match (p.values h)[n]? with
        | some w => ({ p with inside := put p.inside t ((h, n + 1) :: l) }, .value w)
        | none => (p, .indexError)
      else ({ p with inside := put p.inside t ((h, n + 1) :: l), values := put p.values h (p.values h ++ [v]) }, .value v)
  | .provide t c v =>
    match p.inside t with
    | [] => (p, .noHook)
    | (h, _) :: _ => ({ p with context := put p.context h (put (p.context h) c (some v)) }, .done)
  | .read t c =>
    match p.inside t with
    | [] => (p, .noHook)
    | (h, _) :: _ => (p, .context (p.context h c))
  | .leave t =>
    match p.inside t with
    | [] => (p, .done)
    | (h, _) :: l => ({ p with inside := put p.inside t l, made := put p.made h true }, .done)
  | .finish _ => (p, .done)

/-- A whole history, and what is to come out. -/
def Plain.run (p : Plain) : List Op → Plain × List Out
  | [] => (p, [])
  | o :: l => ((Plain.run (p.next o).1 l).1, (p.next o).2 :: (Plain.run (p.next o).1 l).2)

/-- The rule for hooks: a task that a component's body has started makes no hook calls, unless it renders components itself. -/
def Plain.Allowed (p : Plain) : Op → Prop
  | .use t _ => p.inside t ≠ [] ∨ p.stray t = false
  | .provide t _ _ => p.inside t ≠ [] ∨ p.stray t = false
  | .read t _ => p.inside t ≠ [] ∨ p.stray t = false
  | _ => True

/-- The rule was kept in a whole history. -/
def Plain.Kept (p : Plain) : List Op → Prop
  | [] => True
  | o :: l => p.Allowed o ∧ Plain.Kept (p.next o).1 l

/-! ## Auxiliary -/

theorem put_same {α} (f : Nat → α) (a : Nat) (b : α) : put f a b a = b := by simp [put]
theorem put_other {α} (f : Nat → α) {a x : Nat} (b : α) (h : x ≠ a) : put f a b x = f x := by simp [put, h]

/-- No task can put anything into the list any more. -/
def Dead (s : St) (l : Nat) : Prop :=
  l < s.fresh ∧ s.lists l = [] ∧ ∀ u U, s.upd u = some U → U.list = l → U.opened = true

structure Inv (s : St) (p : Plain) : Prop where
  var : ∀ t U, s.upd t = some U → s.var t = some U.list
  lists : ∀ t U, s.upd t = some U → s.lists U.list = U.frames
  lt : ∀ t U, s.upd t = some U → U.list < s.fresh
  frames : ∀ t U, s.upd t = some U → (p.inside t).map Prod.fst = U.frames
  opened : ∀ t U, s.upd t = some U → U.frames ≠ [] → U.opened = true
  idle : ∀ t, s.upd t = none → p.inside t = []
  inj : ∀ t U u W, s.upd t = some U → s.upd u = some W → U.list = W.list → t = u
  alive : ∀ t, s.alive t = false → s.upd t = none
  dead : ∀ t l, s.upd t = none → p.stray t = false → s.var t = some l → Dead s l
  token : ∀ t U l, s.upd t = some U → p.stray t = false → U.token = some l → Dead s l
  held : ∀ h, s.held h = true ↔ ∃ t, h ∈ (p.inside t).map Prod.fst
  nodup : ∀ t, ((p.inside t).map Prod.fst).Nodup
  apart : ∀ t u h, h ∈ (p.inside t).map Prod.fst → h ∈ (p.inside u).map Prod.fst → t = u
  index : ∀ t h n, (h, n) ∈ p.inside t → (s.hook h).index = n
  zero : ∀ h, s.held h = false → (s.hook h).index = 0
  rendered : ∀ h, (s.hook h).rendered = p.made h
  state : ∀ h, (s.hook h).state = p.values h
  providers : ∀ h, (s.hook h).providers = p.context h

theorem inv_init : Inv init Plain.init := by
  constructor <;> simp [init, Plain.init]

theorem stack_upd {s p} (I : Inv s p) {t U} (h : s.upd t = some U) : stack s t = U.frames := by
  unfold stack; rw [I.var t U h]; exact I.lists t U h

theorem current_inside {s p} (I : Inv s p) {t g n l} (h : p.inside t = (g, n) :: l) : current s t = some g := by
  cases hu : s.upd t with
  | none => have := I.idle t hu; rw [h] at this; cases this
  | some U =>
    have hf := I.frames t U hu
    unfold current; rw [stack_upd I hu, ← hf, h]; rfl

theorem current_outside {s p} (I : Inv s p) {t} (h : p.inside t = []) (hs : p.stray t = false) : current s t = none := by
  cases hu : s.upd t with
  | none =>
    unfold current stack
    cases hv : s.var t with
    | none => rfl
    | some l => simp only []; rw [(I.dead t l hu hs hv).2.1]; rfl
  | some U =>
    have hf := I.frames t U hu
    unfold current; rw [stack_upd I hu, ← hf, h]; rfl

theorem inside_upd {s p} (I : Inv s p) {t x l} (h : p.inside t = x :: l) : ∃ U, s.upd t = some U ∧ U.frames = x.1 :: l.map Prod.fst := by
  cases hu : s.upd t with
  | none => have := I.idle t hu; rw [h] at this; cases this
  | some U => exact ⟨U, rfl, by rw [← I.frames t U hu, h]; rfl⟩

theorem fst_put {p : Plain} {t h n m l} (hi : p.inside t = (h, n) :: l) (u : Nat) :
    ((put p.inside t ((h, m) :: l)) u).map Prod.fst = (p.inside u).map Prod.fst := by
  by_cases hu : u = t
  · subst hu; rw [put_same, hi]; rfl
  · rw [put_other _ _ hu]

/-- A change of the hook of the component that the task is inside of. -/
theorem inv_hook {s p} (I : Inv s p) {t h n l} (hi : p.inside t = (h, n) :: l) (k : Hook) (m : Nat) (vs : List Nat) (ctx : Nat → Option Nat)
    (hr : k.rendered = (s.hook h).rendered) (hm : k.index = m) (hs : k.state = vs) (hp : k.providers = ctx) :
    Inv { s with hook := put s.hook h k }
      { p with inside := put p.inside t ((h, m) :: l), values := put p.values h vs, context := put p.context h ctx } := by
  have hheld : s.held h = true := (I.held h).2 ⟨t, by rw [hi]; simp⟩
  have hnd : h ∉ l.map Prod.fst := by
    have := I.nodup t; rw [hi] at this; exact (List.nodup_cons.1 this).1
  constructor
  · exact I.var
  · exact I.lists
  · exact I.lt
  · intro u U hu; simp only [fst_put hi]; exact I.frames u U hu
  · exact I.opened
  · intro u hu
    have : u ≠ t := by
      intro he; subst he; have := I.idle u hu; rw [hi] at this; cases this
    simp only [put_other _ _ this]; exact I.idle u hu
  · exact I.inj
  · exact I.alive
  · exact I.dead
  · exact I.token
  · intro g; simp only [fst_put hi]; exact I.held g
  · intro u; simp only [fst_put hi]; exact I.nodup u
  · intro u w g; simp only [fst_put hi]; exact I.apart u w g
  · intro u g x hx
    by_cases hu : u = t
    · subst hu
      simp only [put_same] at hx
      rcases List.mem_cons.1 hx with he | hl
      · injection he with h1 h2; subst h1; subst h2; simp only [put_same]; exact hm
      · have : g ≠ h := by
          intro he; subst he; exact hnd (List.mem_map.2 ⟨_, hl, rfl⟩)
        simp only [put_other _ _ this]
        exact I.index u g x (by rw [hi]; exact List.mem_cons_of_mem _ hl)
    · simp only [put_other _ _ hu] at hx
      have : g ≠ h := by
        intro he; subst he
        exact hu (I.apart u t g (List.mem_map.2 ⟨_, hx, rfl⟩) (by rw [hi]; simp))
      simp only [put_other _ _ this]
      exact I.index u g x hx
  · intro g hg
    have : g ≠ h := by
      intro he; subst he; simp only at hg; rw [hheld] at hg; cases hg
    simp only [put_other _ _ this]; exact I.zero g hg
  · intro g
    by_cases he : g = h
    · subst he; simp only [put_same]; rw [hr]; exact I.rendered g
    · simp only [put_other _ _ he]; exact I.rendered g
  · intro g
    by_cases he : g = h
    · subst he; simp only [put_same]; exact hs
    · simp only [put_other _ _ he]; exact I.state g
  · intro g
    by_cases he : g = h
    · subst he; simp only [put_same]; exact hp
    · simp only [put_other _ _ he]; exact I.providers g

theorem put_self {α} (f : Nat → α) (a : Nat) (b : α) (h : f a = b) : put f a b = f := by
  funext x; by_cases hx : x = a
  · subst hx; rw [put_same, h]
  · rw [put_other _ _ hx]

/-- The same for a step that changes only some of it. -/
theorem Plain.ext' {p q : Plain} (h1 : p.inside = q.inside) (h2 : p.made = q.made) (h3 : p.values = q.values) (h4 : p.context = q.context)
    (h5 : p.stray = q.stray) : p = q := by
  cases p; cases q; simp only at *; subst h1; subst h2; subst h3; subst h4; subst h5; rfl

theorem step_use {s p} (I : Inv s p) {t v} (ha : p.inside t ≠ [] ∨ p.stray t = false) :
    Inv (use s t v).1 (p.next (.use t v)).1 ∧ (use s t v).2 = (p.next (.use t v)).2 := by
  cases hi : p.inside t with
  | nil =>
    have hs : p.stray t = false := by rcases ha with h | h; exact absurd hi h; exact h
    simp only [use, Plain.next, current_outside I hi hs, hi]
    exact ⟨I, trivial⟩
  | cons x l =>
    obtain ⟨h, n⟩ := x
    have hx : (s.hook h).index = n := I.index t h n (by rw [hi]; exact List.mem_cons_self ..)
    have hk : s.hook h = { rendered := p.made h, index := n, state := p.values h, providers := p.context h } := by
      rw [← I.rendered h, ← I.state h, ← I.providers h, ← hx]
    simp only [use, current_inside I hi, Plain.next, hi, useState, hk]
    cases hm : p.made h with
    | false =>
      simp only [if_true, Bool.false_eq_true, if_false]
      refine ⟨?_, trivial⟩
      have := inv_hook I hi { rendered := false, state := p.values h ++ [v], index := n + 1, providers := p.context h } (n + 1)
        (p.values h ++ [v]) (p.context h) (by rw [I.rendered h, hm]) rfl rfl rfl
      rw [put_self p.context h _ rfl] at this
      exact this
    | true =>
      simp only [Bool.true_eq_false, if_false, if_true]
      cases hv : (p.values h)[n]? with
      | some w =>
        refine ⟨?_, rfl⟩
        have := inv_hook I hi { rendered := true, state := p.values h, index := n + 1, providers := p.context h } (n + 1)
          (p.values h) (p.context h) (by rw [I.rendered h, hm]) rfl rfl rfl
        rw [put_self p.context h _ rfl, put_self p.values h _ rfl] at this
        exact this
      | none =>
        refine ⟨?_, rfl⟩
        simp only []
        rw [put_self s.hook h _ (by rw [hk, hm])]
        exact I

theorem step_provide {s p} (I : Inv s p) {t c v} (ha : p.inside t ≠ [] ∨ p.stray t = false) :
    Inv (provide s t c v).1 (p.next (.provide t c v)).1 ∧ (provide s t c v).2 = (p.next (.provide t c v)).2 := by
  cases hi : p.inside t with
  | nil =>
    have hs : p.stray t = false := by rcases ha with h | h; exact absurd hi h; exact h
    simp only [provide, Plain.next, current_outside I hi hs, hi]
    exact ⟨I, trivial⟩
  | cons x l =>
    obtain ⟨h, n⟩ := x
    simp only [provide, current_inside I hi, Plain.next, hi]
    refine ⟨?_, trivial⟩
    have := inv_hook I hi { s.hook h with providers := put (s.hook h).providers c (some v) } n (p.values h) (put (p.context h) c (some v))
      rfl (I.index t h n (by rw [hi]; exact List.mem_cons_self ..)) (I.state h) (by simp only [I.providers h])
    rw [put_self p.values h _ rfl, put_self p.inside t _ hi] at this
    exact this

theorem step_read {s p} (I : Inv s p) {t c} (ha : p.inside t ≠ [] ∨ p.stray t = false) :
    (p.next (.read t c)).1 = p ∧ read s t c = (p.next (.read t c)).2 := by
  cases hi : p.inside t with
  | nil =>
    have hs : p.stray t = false := by rcases ha with h | h; exact absurd hi h; exact h
    simp only [read, Plain.next, current_outside I hi hs, hi, and_self]
  | cons x l =>
    obtain ⟨h, n⟩ := x
    simp only [read, current_inside I hi, Plain.next, hi, I.providers h, and_self]

/-- Lists that are dead stay so when nothing about updates and lists changes. -/
theorem Dead.mono {s s' : St} {l} (h : Dead s l) (hf : s.fresh ≤ s'.fresh) (hl : s'.lists l = s.lists l)
    (hu : ∀ u W, s'.upd u = some W → W.list = l → ∃ W', s.upd u = some W' ∧ W'.list = l ∧ (W'.opened = true → W.opened = true)) :
    Dead s' l := by
  refine ⟨Nat.lt_of_lt_of_le h.1 hf, hl.trans h.2.1, fun u W h1 h2 => ?_⟩
  obtain ⟨W', a, b, c⟩ := hu u W h1 h2
  exact c (h.2.2 u W' a b)

theorem step_spawn {s s' p o t u} (I : Inv s p) (h : spawn s t u = some (s', o)) :
    Inv s' (p.next (.spawn t u)).1 ∧ o = (p.next (.spawn t u)).2 := by
  unfold spawn at h
  split at h
  · rename_i hc
    simp only [Bool.and_eq_true, Bool.not_eq_true'] at hc
    obtain ⟨⟨ht, hu⟩, hm⟩ := hc
    injection h with h; injection h with h1 h2; subst h1; subst h2
    simp only [Plain.next, and_true]
    have hun : s.upd u = none := I.alive u hu
    have hne : t ≠ u := by intro he; subst he; rw [ht] at hu; cases hu
    constructor
    · intro w W hw
      have : w ≠ u := by intro he; subst he; rw [hun] at hw; cases hw
      simp only [put_other _ _ this]; exact I.var w W hw
    · exact I.lists
    · exact I.lt
    · exact I.frames
    · exact I.opened
    · exact I.idle
    · exact I.inj
    · intro w hw
      by_cases he : w = u
      · subst he; exact hun
      · simp only [put_other _ _ he] at hw; exact I.alive w hw
    · intro w l hw hs hv
      by_cases he : w = u
      · subst he
        simp only [put_same, Bool.or_eq_false_iff, Bool.not_eq_false', List.isEmpty_iff] at hs hv
        cases htu : s.upd t with
        | none => exact I.dead t l htu hs.1 hv
        | some U =>
          rw [I.var t U htu] at hv
          injection hv with hv; subst hv
          simp only [mayCreate, htu] at hm
          refine ⟨I.lt t U htu, ?_, fun u' W hW hl => ?_⟩
          · show s.lists U.list = []
            rw [I.lists t U htu, ← I.frames t U htu, hs.2]; rfl
          · have hW' : s.upd u' = some W := hW
            have := I.inj u' W t U hW' htu hl
            subst this; rw [htu] at hW'; injection hW' with hW'; subst hW'; exact hm
      · simp only [put_other _ _ he] at hs hv
        exact I.dead w l hw hs hv
    · intro w W l hw hs hv
      have : w ≠ u := by intro he; subst he; simp only at hw; rw [hun] at hw; cases hw
      simp only [put_other _ _ this] at hs
      exact I.token w W l hw hs hv
    · exact I.held
    · exact I.nodup
    · exact I.apart
    · exact I.index
    · exact I.zero
    · exact I.rendered
    · exact I.state
    · exact I.providers
  · cases h

theorem step_start {s s' p o t} (I : Inv s p) (h : start s t = some (s', o)) :
    Inv s' (p.next (.start t)).1 ∧ o = (p.next (.start t)).2 := by
  unfold start at h
  split at h
  · cases h
  · rename_i hn
    split at h
    · rename_i ha
      injection h with h; injection h with h1 h2; subst h1; subst h2
      simp only [Plain.next, and_true]
      have old : ∀ w W, put s.upd t (some { list := s.fresh, token := s.var t, frames := [], opened := false : Update }) w = some W →
          (w = t ∧ W = { list := s.fresh, token := s.var t, frames := [], opened := false }) ∨ (w ≠ t ∧ s.upd w = some W) := by
        intro w W hw
        by_cases he : w = t
        · subst he; rw [put_same] at hw; injection hw with hw; exact Or.inl ⟨rfl, hw.symm⟩
        · rw [put_other _ _ he] at hw; exact Or.inr ⟨he, hw⟩
      have dead : ∀ l, Dead s l → Dead { s with lists := put s.lists s.fresh [], fresh := s.fresh + 1, var := put s.var t (some s.fresh), upd := put s.upd t (some { list := s.fresh, token := s.var t, frames := [], opened := false }) } l := by
        intro l hl
        refine hl.mono (Nat.le_succ _) (put_other _ _ (Nat.ne_of_lt hl.1)) fun w W hw he => ?_
        rcases old w W hw with ⟨_, h⟩ | ⟨_, h⟩
        · subst h; exact absurd he.symm (Nat.ne_of_lt hl.1)
        · exact ⟨W, h, he, id⟩
      constructor
      · intro w W hw
        rcases old w W hw with ⟨he, h⟩ | ⟨he, h⟩
        · subst he; subst h; exact put_same _ _ _
        · simp only [put_other _ _ he]; exact I.var w W h
      · intro w W hw
        rcases old w W hw with ⟨he, h⟩ | ⟨he, h⟩
        · subst h; exact put_same _ _ _
        · exact (put_other _ _ (Nat.ne_of_lt (I.lt w W h))).trans (I.lists w W h)
      · intro w W hw
        rcases old w W hw with ⟨he, h⟩ | ⟨he, h⟩
        · subst h; exact Nat.lt_succ_self _
        · exact Nat.lt_succ_of_lt (I.lt w W h)
      · intro w W hw
        rcases old w W hw with ⟨he, h⟩ | ⟨he, h⟩
        · subst he; subst h; rw [I.idle w hn]; rfl
        · exact I.frames w W h
      · intro w W hw hf
        rcases old w W hw with ⟨he, h⟩ | ⟨he, h⟩
        · subst h; exact absurd rfl hf
        · exact I.opened w W h hf
      · intro w hw
        by_cases he : w = t
        · subst he; exact I.idle w hn
        · simp only [put_other _ _ he] at hw; exact I.idle w hw
      · intro w W x X hw hx hl
        rcases old w W hw with ⟨he, h⟩ | ⟨he, h⟩ <;> rcases old x X hx with ⟨he', h'⟩ | ⟨he', h'⟩
        · exact he.trans he'.symm
        · subst h; exact absurd hl.symm (Nat.ne_of_lt (I.lt x X h'))
        · subst h'; exact absurd hl (Nat.ne_of_lt (I.lt w W h))
        · exact I.inj w W x X h h' hl
      · intro w hw
        have : w ≠ t := by intro he; subst he; simp only at hw; rw [ha] at hw; cases hw
        simp only [put_other _ _ this]; exact I.alive w hw
      · intro w l hw hs hv
        have : w ≠ t := by intro he; subst he; simp only [put_same] at hw; cases hw
        simp only [put_other _ _ this] at hw hv
        exact dead l (I.dead w l hw hs hv)
      · intro w W l hw hs hv
        rcases old w W hw with ⟨he, h⟩ | ⟨he, h⟩
        · subst he; subst h; exact dead l (I.dead w l hn hs hv)
        · exact dead l (I.token w W l h hs hv)
      · exact I.held
      · exact I.nodup
      · exact I.apart
      · exact I.index
      · exact I.zero
      · exact I.rendered
      · exact I.state
      · exact I.providers
    · cases h

theorem step_finish {s s' p o t} (I : Inv s p) (h : finish s t = some (s', o)) :
    Inv s' (p.next (.finish t)).1 ∧ o = (p.next (.finish t)).2 := by
  unfold finish at h
  split at h
  · cases h
  · rename_i U hU
    split at h
    · rename_i hf
      injection h with h; injection h with h1 h2; subst h1; subst h2
      simp only [Plain.next, and_true]
      have hi : p.inside t = [] := by
        have := I.frames t U hU
        rw [List.isEmpty_iff.1 hf] at this
        exact List.map_eq_nil_iff.1 this
      have old : ∀ w W, put s.upd t none w = some W → w ≠ t ∧ s.upd w = some W := by
        intro w W hw
        have he : w ≠ t := by intro he; subst he; rw [put_same] at hw; cases hw
        rw [put_other _ _ he] at hw; exact ⟨he, hw⟩
      have dead : ∀ l, Dead s l → Dead { s with var := put s.var t U.token, upd := put s.upd t none } l := fun l hl =>
        hl.mono (Nat.le_refl _) rfl fun w W hw he => ⟨W, (old w W hw).2, he, id⟩
      constructor
      · intro w W hw
        obtain ⟨he, h⟩ := old w W hw
        simp only [put_other _ _ he]; exact I.var w W h
      · exact fun w W hw => I.lists w W (old w W hw).2
      · exact fun w W hw => I.lt w W (old w W hw).2
      · exact fun w W hw => I.frames w W (old w W hw).2
      · exact fun w W hw => I.opened w W (old w W hw).2
      · intro w hw
        by_cases he : w = t
        · subst he; exact hi
        · simp only [put_other _ _ he] at hw; exact I.idle w hw
      · exact fun w W x X hw hx => I.inj w W x X (old w W hw).2 (old x X hx).2
      · intro w hw
        by_cases he : w = t
        · subst he; exact put_same _ _ _
        · simp only [put_other _ _ he]; exact I.alive w hw
      · intro w l hw hs hv
        by_cases he : w = t
        · subst he
          simp only [put_same] at hv
          exact dead l (I.token w U l hU hs hv)
        · simp only [put_other _ _ he] at hw hv; exact dead l (I.dead w l hw hs hv)
      · exact fun w W l hw hs hv => dead l (I.token w W l (old w W hw).2 hs hv)
      · exact I.held
      · exact I.nodup
      · exact I.apart
      · exact I.index
      · exact I.zero
      · exact I.rendered
      · exact I.state
      · exact I.providers
    · cases h

/-- What entering a component does to the specification, in one piece. -/
theorem next_enter {s p t h U} (I : Inv s p) (hU : s.upd t = some U) :
    p.next (.enter t h) = ({ p with inside := put p.inside t ((h, 0) :: p.inside t),
                                    context := put p.context h (inherited s t h).providers }, .done) := by
  unfold inherited
  cases hi : p.inside t with
  | nil =>
    have hc : current s t = none := by
      unfold current; rw [stack_upd I hU, ← I.frames t U hU, hi]; rfl
    simp only [Plain.next, hi, hc, I.providers h, put_self p.context h _ rfl]
  | cons x l =>
    obtain ⟨g, n⟩ := x
    simp only [Plain.next, hi, current_inside I hi, I.providers]
    congr 3
    funext c
    simp only [overlay]
    cases p.context g c <;> rfl

theorem inherited_same (s : St) (t h : Nat) :
    (inherited s t h).rendered = (s.hook h).rendered ∧ (inherited s t h).index = (s.hook h).index ∧
    (inherited s t h).state = (s.hook h).state := by
  unfold inherited; split <;> exact ⟨rfl, rfl, rfl⟩

theorem setStack_upd {s p} (I : Inv s p) {t U} (h : s.upd t = some U) (l : List Nat) : setStack s t l = put s.lists U.list l := by
  unfold setStack; rw [I.var t U h]

theorem step_enter {s s' p o t h} (I : Inv s p) (hs : enter s t h = some (s', o)) :
    Inv s' (p.next (.enter t h)).1 ∧ o = (p.next (.enter t h)).2 := by
  unfold enter at hs
  split at hs
  · cases hs
  · rename_i U hU
    rw [next_enter I hU]
    split at hs
    · cases hs
    · rename_i hc
      injection hs with hs; injection hs with h1 h2; subst h1; subst h2
      simp only [and_true]
      have hh : s.held h = false := by
        cases hx : s.held h with
        | false => rfl
        | true => exact absurd (by rw [hx, Bool.or_true]) hc
      have hfree : ∀ u, h ∉ (p.inside u).map Prod.fst := by
        intro u hu
        have := (I.held h).2 ⟨u, hu⟩
        rw [hh] at this; cases this
      obtain ⟨ir, ii, is⟩ := inherited_same s t h
      rw [stack_upd I hU, setStack_upd I hU]
      have old : ∀ w W, put s.upd t (some { U with frames := h :: U.frames, opened := true }) w = some W →
          (w = t ∧ W = { U with frames := h :: U.frames, opened := true }) ∨ (w ≠ t ∧ s.upd w = some W) := by
        intro w W hw
        by_cases he : w = t
        · subst he; rw [put_same] at hw; injection hw with hw; exact Or.inl ⟨rfl, hw.symm⟩
        · rw [put_other _ _ he] at hw; exact Or.inr ⟨he, hw⟩
      have fst : ∀ u g, g ∈ ((put p.inside t ((h, 0) :: p.inside t)) u).map Prod.fst ↔ (u = t ∧ g = h) ∨ g ∈ (p.inside u).map Prod.fst := by
        intro u g
        by_cases he : u = t
        · subst he; rw [put_same]; simp only [List.map_cons, List.mem_cons]
          constructor
          · rintro (a | b); exact Or.inl ⟨trivial, a⟩; exact Or.inr b
          · rintro (⟨_, a⟩ | b); exact Or.inl a; exact Or.inr b
        · rw [put_other _ _ he]
          constructor
          · exact Or.inr
          · rintro (⟨a, _⟩ | b); exact absurd a he; exact b
      have dead : ∀ l, Dead s l → Dead { s with held := put s.held h true, hook := put s.hook h (inherited s t h), lists := put s.lists U.list (h :: U.frames), upd := put s.upd t (some { U with frames := h :: U.frames, opened := true }) } l := by
        intro l hl
        have hne : l ≠ U.list := by
          intro he; subst he
          have ho := hl.2.2 t U hU rfl
          have hf := (I.lists t U hU).symm.trans hl.2.1
          exact hc (by rw [ho, hf]; rfl)
        refine hl.mono (Nat.le_refl _) (put_other _ _ hne) fun w W hw he => ?_
        rcases old w W hw with ⟨h1, h2⟩ | ⟨h1, h2⟩
        · subst h1; subst h2; exact ⟨U, hU, he, fun _ => rfl⟩
        · exact ⟨W, h2, he, id⟩
      constructor
      · intro w W hw
        rcases old w W hw with ⟨h1, h2⟩ | ⟨h1, h2⟩
        · subst h1; subst h2; exact I.var w U hU
        · exact I.var w W h2
      · intro w W hw
        rcases old w W hw with ⟨h1, h2⟩ | ⟨h1, h2⟩
        · subst h1; subst h2; exact put_same _ _ _
        · have : W.list ≠ U.list := fun he => h1 (I.inj w W t U h2 hU he)
          exact (put_other _ _ this).trans (I.lists w W h2)
      · intro w W hw
        rcases old w W hw with ⟨h1, h2⟩ | ⟨h1, h2⟩
        · subst h2; exact I.lt t U hU
        · exact I.lt w W h2
      · intro w W hw
        rcases old w W hw with ⟨h1, h2⟩ | ⟨h1, h2⟩
        · subst h1; subst h2; simp only [put_same, List.map_cons, I.frames w U hU]
        · simp only [put_other _ _ h1]; exact I.frames w W h2
      · intro w W hw hf
        rcases old w W hw with ⟨h1, h2⟩ | ⟨h1, h2⟩
        · subst h2; rfl
        · exact I.opened w W h2 hf
      · intro w hw
        have he : w ≠ t := by intro he; subst he; simp only [put_same] at hw; cases hw
        simp only [put_other _ _ he] at hw ⊢; exact I.idle w hw
      · intro w W x X hw hx hl
        rcases old w W hw with ⟨he, h⟩ | ⟨he, h⟩ <;> rcases old x X hx with ⟨he', h'⟩ | ⟨he', h'⟩
        · exact he.trans he'.symm
        · subst h; exact absurd (I.inj x X t U h' hU hl.symm) he'
        · subst h'; exact absurd (I.inj w W t U h hU hl) he
        · exact I.inj w W x X h h' hl
      · intro w hw
        have he : w ≠ t := by
          intro he; subst he; have := I.alive w hw; rw [hU] at this; cases this
        simp only [put_other _ _ he]; exact I.alive w hw
      · intro w l hw hs hv
        have he : w ≠ t := by intro he; subst he; simp only [put_same] at hw; cases hw
        simp only [put_other _ _ he] at hw
        exact dead l (I.dead w l hw hs hv)
      · intro w W l hw hs hv
        rcases old w W hw with ⟨h1, h2⟩ | ⟨h1, h2⟩
        · subst h1; subst h2; exact dead l (I.token w U l hU hs hv)
        · exact dead l (I.token w W l h2 hs hv)
      · intro g
        by_cases he : g = h
        · subst he; simp only [put_same, true_iff]
          exact ⟨t, (fst t g).2 (Or.inl ⟨rfl, rfl⟩)⟩
        · simp only [put_other _ _ he]
          rw [I.held g]
          constructor
          · rintro ⟨u, hu⟩; exact ⟨u, (fst u g).2 (Or.inr hu)⟩
          · rintro ⟨u, hu⟩
            rcases (fst u g).1 hu with ⟨_, a⟩ | b
            · exact absurd a he
            · exact ⟨u, b⟩
      · intro u
        by_cases he : u = t
        · subst he; simp only [put_same, List.map_cons]
          exact List.nodup_cons.2 ⟨hfree u, I.nodup u⟩
        · simp only [put_other _ _ he]; exact I.nodup u
      · intro u w g hu hw
        rcases (fst u g).1 hu with ⟨a, b⟩ | b <;> rcases (fst w g).1 hw with ⟨a', b'⟩ | b'
        · exact a.trans a'.symm
        · subst b; exact absurd b' (hfree w)
        · subst b'; exact absurd b (hfree u)
        · exact I.apart u w g b b'
      · intro u g n hm
        have key : (h, 0) = (g, n) ∨ (g, n) ∈ p.inside u := by
          by_cases he : u = t
          · subst he; simp only [put_same] at hm
            rcases List.mem_cons.1 hm with a | a
            · exact Or.inl a.symm
            · exact Or.inr a
          · simp only [put_other _ _ he] at hm; exact Or.inr hm
        rcases key with a | a
        · injection a with a b; subst a; subst b; simp only [put_same]; rw [ii]; exact I.zero h hh
        · have he : g ≠ h := by
            intro he; subst he; exact hfree u (List.mem_map.2 ⟨_, a, rfl⟩)
          simp only [put_other _ _ he]; exact I.index u g n a
      · intro g hg
        have he : g ≠ h := by intro he; subst he; simp only [put_same] at hg; cases hg
        simp only [put_other _ _ he] at hg ⊢; exact I.zero g hg
      · intro g
        by_cases he : g = h
        · subst he; simp only [put_same]; rw [ir]; exact I.rendered g
        · simp only [put_other _ _ he]; exact I.rendered g
      · intro g
        by_cases he : g = h
        · subst he; simp only [put_same]; rw [is]; exact I.state g
        · simp only [put_other _ _ he]; exact I.state g
      · intro g
        by_cases he : g = h
        · subst he; simp only [put_same]
        · simp only [put_other _ _ he]; exact I.providers g

theorem step_leave {s s' p o t} (I : Inv s p) (hs : leave s t = some (s', o)) :
    Inv s' (p.next (.leave t)).1 ∧ o = (p.next (.leave t)).2 := by
  unfold leave at hs
  split at hs
  · cases hs
  · rename_i U hU
    split at hs
    · cases hs
    · rename_i h rest hf
      rw [stack_upd I hU, hf] at hs
      simp only [if_true] at hs
      rw [setStack_upd I hU] at hs
      injection hs with hs; injection hs with h1 h2; subst h1; subst h2
      have hin : ∃ n l, p.inside t = (h, n) :: l ∧ l.map Prod.fst = rest := by
        have := I.frames t U hU
        rw [hf] at this
        cases hi : p.inside t with
        | nil => rw [hi] at this; cases this
        | cons x l => rw [hi] at this; injection this with a b; exact ⟨x.2, l, by rw [← a], b⟩
      obtain ⟨n, l, hi, hl⟩ := hin
      simp only [Plain.next, hi, and_true]
      have hnd : h ∉ l.map Prod.fst := by
        have := I.nodup t; rw [hi] at this; exact (List.nodup_cons.1 this).1
      have hopen : U.opened = true := I.opened t U hU (by rw [hf]; exact List.cons_ne_nil _ _)
      have old : ∀ w W, put s.upd t (some { U with frames := rest }) w = some W →
          (w = t ∧ W = { U with frames := rest }) ∨ (w ≠ t ∧ s.upd w = some W) := by
        intro w W hw
        by_cases he : w = t
        · subst he; rw [put_same] at hw; injection hw with hw; exact Or.inl ⟨rfl, hw.symm⟩
        · rw [put_other _ _ he] at hw; exact Or.inr ⟨he, hw⟩
      have fst : ∀ u g, g ∈ ((put p.inside t l) u).map Prod.fst ↔ g ≠ h ∧ g ∈ (p.inside u).map Prod.fst := by
        intro u g
        by_cases he : u = t
        · subst he; rw [put_same, hi]; simp only [List.map_cons, List.mem_cons]
          constructor
          · intro a; exact ⟨fun e => hnd (e ▸ a), Or.inr a⟩
          · rintro ⟨a, b | b⟩; exact absurd b a; exact b
        · rw [put_other _ _ he]
          constructor
          · intro a; exact ⟨fun e => he (I.apart u t g a (by rw [hi, e]; simp)), a⟩
          · exact And.right
      have dead : ∀ l', Dead s l' → Dead { s with upd := put s.upd t (some { U with frames := rest }), lists := put s.lists U.list rest, held := put s.held h false, hook := put s.hook h { s.hook h with rendered := true, index := 0 } } l' := by
        intro l' hl'
        have hne : l' ≠ U.list := by
          intro he; subst he
          have := (I.lists t U hU).symm.trans hl'.2.1
          rw [hf] at this; cases this
        refine hl'.mono (Nat.le_refl _) (put_other _ _ hne) fun w W hw he => ?_
        rcases old w W hw with ⟨h1, h2⟩ | ⟨h1, h2⟩
        · subst h1; subst h2; exact ⟨U, hU, he, id⟩
        · exact ⟨W, h2, he, id⟩
      constructor
      · intro w W hw
        rcases old w W hw with ⟨h1, h2⟩ | ⟨h1, h2⟩
        · subst h1; subst h2; exact I.var w U hU
        · exact I.var w W h2
      · intro w W hw
        rcases old w W hw with ⟨h1, h2⟩ | ⟨h1, h2⟩
        · subst h1; subst h2; exact put_same _ _ _
        · have : W.list ≠ U.list := fun he => h1 (I.inj w W t U h2 hU he)
          exact (put_other _ _ this).trans (I.lists w W h2)
      · intro w W hw
        rcases old w W hw with ⟨h1, h2⟩ | ⟨h1, h2⟩
        · subst h2; exact I.lt t U hU
        · exact I.lt w W h2
      · intro w W hw
        rcases old w W hw with ⟨h1, h2⟩ | ⟨h1, h2⟩
        · subst h1; subst h2; simp only [put_same]; exact hl
        · simp only [put_other _ _ h1]; exact I.frames w W h2
      · intro w W hw hf'
        rcases old w W hw with ⟨h1, h2⟩ | ⟨h1, h2⟩
        · subst h2; exact hopen
        · exact I.opened w W h2 hf'
      · intro w hw
        have he : w ≠ t := by intro he; subst he; simp only [put_same] at hw; cases hw
        simp only [put_other _ _ he] at hw ⊢; exact I.idle w hw
      · intro w W x X hw hx hl
        rcases old w W hw with ⟨he, h⟩ | ⟨he, h⟩ <;> rcases old x X hx with ⟨he', h'⟩ | ⟨he', h'⟩
        · exact he.trans he'.symm
        · subst h; exact absurd (I.inj x X t U h' hU hl.symm) he'
        · subst h'; exact absurd (I.inj w W t U h hU hl) he
        · exact I.inj w W x X h h' hl
      · intro w hw
        have he : w ≠ t := by
          intro he; subst he; have := I.alive w hw; rw [hU] at this; cases this
        simp only [put_other _ _ he]; exact I.alive w hw
      · intro w l hw hs hv
        have he : w ≠ t := by intro he; subst he; simp only [put_same] at hw; cases hw
        simp only [put_other _ _ he] at hw
        exact dead l (I.dead w l hw hs hv)
      · intro w W l hw hs hv
        rcases old w W hw with ⟨h1, h2⟩ | ⟨h1, h2⟩
        · subst h1; subst h2; exact dead l (I.token w U l hU hs hv)
        · exact dead l (I.token w W l h2 hs hv)
      · intro g
        by_cases he : g = h
        · subst he; simp only [put_same, Bool.false_eq_true, false_iff]
          rintro ⟨u, hu⟩; exact ((fst u g).1 hu).1 rfl
        · simp only [put_other _ _ he]
          rw [I.held g]
          constructor
          · rintro ⟨u, hu⟩; exact ⟨u, (fst u g).2 ⟨he, hu⟩⟩
          · rintro ⟨u, hu⟩; exact ⟨u, ((fst u g).1 hu).2⟩
      · intro u
        by_cases he : u = t
        · subst he; simp only [put_same]
          have := I.nodup u; rw [hi] at this; exact (List.nodup_cons.1 this).2
        · simp only [put_other _ _ he]; exact I.nodup u
      · intro u w g hu hw
        exact I.apart u w g ((fst u g).1 hu).2 ((fst w g).1 hw).2
      · intro u g m hm
        have he : g ≠ h := ((fst u g).1 (List.mem_map.2 ⟨_, hm, rfl⟩)).1
        simp only [put_other _ _ he]
        by_cases hu : u = t
        · subst hu; simp only [put_same] at hm
          exact I.index u g m (by rw [hi]; exact List.mem_cons_of_mem _ hm)
        · simp only [put_other _ _ hu] at hm; exact I.index u g m hm
      · intro g hg
        by_cases he : g = h
        · subst he; simp only [put_same]
        · simp only [put_other _ _ he] at hg ⊢; exact I.zero g hg
      · intro g
        by_cases he : g = h
        · subst he; simp only [put_same]
        · simp only [put_other _ _ he]; exact I.rendered g
      · intro g
        by_cases he : g = h
        · subst he; simp only [put_same]; exact I.state g
        · simp only [put_other _ _ he]; exact I.state g
      · intro g
        by_cases he : g = h
        · subst he; simp only [put_same]; exact I.providers g
        · simp only [put_other _ _ he]; exact I.providers g

theorem step_inv {s s' p o r} (I : Inv s p) (ha : p.Allowed o) (hs : step s o = some (s', r)) :
    Inv s' (p.next o).1 ∧ r = (p.next o).2 := by
  cases o with
  | spawn t u => exact step_spawn I hs
  | start t => exact step_start I hs
  | enter t h => exact step_enter I hs
  | use t v =>
    simp only [step] at hs; injection hs with hs
    have := step_use I (v := v) ha; rw [hs] at this; exact this
  | provide t c v =>
    simp only [step] at hs; injection hs with hs
    have := step_provide I (c := c) (v := v) ha; rw [hs] at this; exact this
  | read t c =>
    simp only [step] at hs; injection hs with hs; injection hs with h1 h2; subst h1; subst h2
    have := step_read I (c := c) ha; rw [this.1]; exact ⟨I, this.2⟩
  | leave t => exact step_leave I hs
  | finish t => exact step_finish I hs

theorem exec_inv {s p} (I : Inv s p) : ∀ {ops s' outs}, exec s ops = some (s', outs) → p.Kept ops →
    Inv s' (p.run ops).1 ∧ outs = (p.run ops).2 := by
  intro ops
  induction ops generalizing s p with
  | nil => intro s' outs h _; simp only [exec] at h; injection h with h; injection h with h1 h2; subst h1; subst h2; exact ⟨I, rfl⟩
  | cons o l ih =>
    intro s' outs h hk
    simp only [exec] at h
    split at h
    · cases h
    · rename_i s1 r h1
      obtain ⟨I1, e1⟩ := step_inv I hk.1 h1
      split at h
      · cases h
      · rename_i s2 rs h2
        injection h with h; injection h with ha hb; subst ha; subst hb
        obtain ⟨I2, e2⟩ := ih I1 h2 hk.2
        exact ⟨I2, by rw [e1, e2]; rfl⟩

/-- While a component is rendered for the first time its hooks have as many values as calls were made. -/
def Fresh (s : St) : Prop := ∀ h, (s.hook h).rendered = false → (s.hook h).state.length = (s.hook h).index

theorem fresh_put {s : St} (F : Fresh s) {h k} (hk : k.rendered = false → k.state.length = k.index) :
    ∀ g, (put s.hook h k g).rendered = false → (put s.hook h k g).state.length = (put s.hook h k g).index := by
  intro g hg
  by_cases he : g = h
  · subst he; rw [put_same] at hg ⊢; exact hk hg
  · rw [put_other _ _ he] at hg ⊢; exact F g hg

theorem step_fresh {s s' o r} (F : Fresh s) (hs : step s o = some (s', r)) : Fresh s' := by
  cases o with
  | spawn t u =>
    simp only [step, spawn] at hs
    split at hs
    · injection hs with hs; injection hs with h1 _; subst h1; exact F
    · cases hs
  | start t =>
    simp only [step, start] at hs
    split at hs
    · cases hs
    · split at hs
      · injection hs with hs; injection hs with h1 _; subst h1; exact F
      · cases hs
  | enter t h =>
    simp only [step, enter] at hs
    split at hs
    · cases hs
    · split at hs
      · cases hs
      · injection hs with hs; injection hs with h1 _; subst h1
        refine fresh_put F ?_
        obtain ⟨a, b, c⟩ := inherited_same s t h
        rw [a, b, c]; exact F h
  | use t v =>
    simp only [step, use] at hs
    split at hs
    · injection hs with hs; injection hs with h1 _; subst h1; exact F
    · rename_i h _
      injection hs with hs; injection hs with h1 _; subst h1
      refine fresh_put F ?_
      unfold useState
      split
      · intro _; rename_i hr; simp only [List.length_append, List.length_singleton]; rw [F h hr]
      · rename_i hr
        split
        · intro hx; exact absurd hx hr
        · exact F h
  | provide t c v =>
    simp only [step, provide] at hs
    split at hs
    · injection hs with hs; injection hs with h1 _; subst h1; exact F
    · rename_i h _
      injection hs with hs; injection hs with h1 _; subst h1
      exact fresh_put F (F h)
  | read t c => simp only [step] at hs; injection hs with hs; injection hs with h1 _; subst h1; exact F
  | leave t =>
    simp only [step, leave] at hs
    split at hs
    · cases hs
    · split at hs
      · cases hs
      · split at hs
        · injection hs with hs; injection hs with h1 _; subst h1; exact F
        · split at hs
          · injection hs with hs; injection hs with h1 _; subst h1
            exact fresh_put F (fun h => by cases h)
          · injection hs with hs; injection hs with h1 _; subst h1; exact F
  | finish t =>
    simp only [step, finish] at hs
    split at hs
    · cases hs
    · split at hs
      · injection hs with hs; injection hs with h1 _; subst h1; exact F
      · cases hs

theorem exec_fresh {s} (F : Fresh s) : ∀ {ops s' outs}, exec s ops = some (s', outs) → Fresh s' := by
  intro ops
  induction ops generalizing s with
  | nil => intro s' outs h; simp only [exec] at h; injection h with h; injection h with h1 h2; subst h1; exact F
  | cons o l ih =>
    intro s' outs h
    simp only [exec] at h
    split at h
    · cases h
    · rename_i s1 r h1
      split at h
      · cases h
      · rename_i s2 rs h2
        injection h with h; injection h with ha hb; subst ha
        exact ih (step_fresh F h1) h2

theorem next_values (p : Plain) (o : Op) (h : Nat) : (p.values h) <+: ((p.next o).1.values h) := by
  cases o <;> simp only [Plain.next] <;> (try exact List.prefix_refl _)
  · split <;> exact List.prefix_refl _
  · split
    · exact List.prefix_refl _
    · rename_i g n l _
      split
      · split <;> exact List.prefix_refl _
      · by_cases he : h = g
        · subst he; simp only [put_same]; exact List.prefix_append _ _
        · simp only [put_other _ _ he]; exact List.prefix_refl _
  · split <;> exact List.prefix_refl _
  · split <;> exact List.prefix_refl _
  · split <;> exact List.prefix_refl _

theorem run_values (p : Plain) (ops : List Op) (h : Nat) : (p.values h) <+: ((p.run ops).1.values h) := by
  induction ops generalizing p with
  | nil => exact List.prefix_refl _
  | cons o l ih => exact (next_values p o h).trans (ih (p.next o).1)

theorem Plain.next_not_broken (p : Plain) (o : Op) : (p.next o).2 ≠ .broken := by
  cases o <;> simp only [Plain.next] <;> (try exact Out.noConfusion)
  all_goals (repeat' split) <;> exact Out.noConfusion

/-! ## Properties -/

/-- The history of a small program: task 0 renders component 5 with child 6, starts an effect (task 1) when it is done; meanwhile task 2
renders component 6 again, and task 3 waits. -/
def sample : List Op :=
  [.spawn 0 2, .start 0, .enter 0 5, .use 0 10, .provide 0 7 70, .use 0 11, .start 2, .enter 0 6, .use 0 20, .read 0 7, .leave 0, .leave 0,
   .spawn 0 1, .enter 2 6, .use 2 99, .read 2 7, .finish 0, .leave 2, .finish 2, .use 1 0]

/-- Every hook call, in every interleaving of tasks, gives what it would give if each task had its own call stack: it belongs to the
component in whose body it is made, its state is that of the call's place in the body, and contexts come from the component being
rendered around it. -/
theorem C83_own_stack {ops s outs} (h : exec init ops = some (s, outs)) (hk : Plain.init.Kept ops) :
    outs = (Plain.init.run ops).2 :=
  (exec_inv inv_init h hk).2

example : ∃ s, exec init sample = some (s, [.done, .done, .done, .value 10, .done, .value 11, .done, .done, .value 20, .context (some 70),
    .done, .done, .done, .done, .value 20, .context (some 70), .done, .done, .done, .noHook]) := ⟨_, rfl⟩
example : Plain.init.Kept sample := by
  simp [sample, Plain.Kept, Plain.Allowed, Plain.next, Plain.init, put]

/-- The `n+1`-th hook call of a component's body is answered from that component's own states: with the given value in the first run
(which is kept in place `n`), and with the value in place `n` from then on. -/
theorem C83_body {ops s outs t h n l} (hx : exec init ops = some (s, outs)) (hk : Plain.init.Kept ops)
    (hin : (Plain.init.run ops).1.inside t = (h, n) :: l) (v : Nat) :
    ∃ s' r, step s (.use t v) = some (s', r) ∧
      ((s.hook h).rendered = false → r = .value v ∧ (s.hook h).state.length = n ∧ (s'.hook h).state = (s.hook h).state ++ [v]) ∧
      ((s.hook h).rendered = true → (s'.hook h).state = (s.hook h).state ∧
        (∀ w, (s.hook h).state[n]? = some w → r = .value w) ∧ ((s.hook h).state[n]? = none → r = .indexError)) ∧
      ∀ g, g ≠ h → s'.hook g = s.hook g := by
  have I := (exec_inv inv_init hx hk).1
  have F := exec_fresh (s := init) (fun _ _ => rfl) hx
  have hi : (s.hook h).index = n := I.index t h n (by rw [hin]; exact List.mem_cons_self ..)
  refine ⟨_, _, rfl, ?_⟩
  simp only [use, current_inside I hin, put_same]
  refine ⟨fun hr => ?_, fun hr => ?_, fun g hg => put_other _ _ hg⟩
  · simp only [useState, hr, if_true]
    exact ⟨trivial, hi ▸ F h hr, trivial⟩
  · simp only [useState, hr, hi]
    cases hv : (s.hook h).state[n]? with
    | none => simp
    | some w => simp

/-- Hook calls in the same place of a component's body have the same value, whichever tasks make them. -/
theorem C83_same {ops more s outs s1 s2 outs2 s3 t u h n l l' v w x r} (hx : exec init ops = some (s, outs)) (hk : Plain.init.Kept ops)
    (hin : (Plain.init.run ops).1.inside t = (h, n) :: l) (h1 : step s (.use t v) = some (s1, .value x))
    (hm : exec s1 more = some (s2, outs2)) (hk2 : ((Plain.init.run ops).1.next (.use t v)).1.Kept more)
    (hin2 : (((Plain.init.run ops).1.next (.use t v)).1.run more).1.inside u = (h, n) :: l')
    (h3 : step s2 (.use u w) = some (s3, r)) : r = .value x := by
  have I := (exec_inv inv_init hx hk).1
  have F := exec_fresh (s := init) (fun _ _ => rfl) hx
  have ha : (Plain.init.run ops).1.Allowed (.use t v) := Or.inl (by rw [hin]; exact List.cons_ne_nil _ _)
  obtain ⟨I1, e1⟩ := step_inv I ha h1
  have F1 := step_fresh F h1
  have hi : (s.hook h).index = n := I.index t h n (by rw [hin]; exact List.mem_cons_self ..)
  have got : (((Plain.init.run ops).1.next (.use t v)).1.values h)[n]? = some x := by
    rw [← I1.state h]
    simp only [step, use, current_inside I hin] at h1
    injection h1 with h1; injection h1 with h1 h1'
    rw [← h1]; simp only [put_same]
    unfold useState at h1' ⊢
    split at h1'
    · rename_i hr
      simp only [Out.value.injEq] at h1'; subst h1'
      rw [if_pos hr]
      have := F h hr
      rw [hi] at this
      simp only []
      rw [← this, List.getElem?_append_right (Nat.le_refl _), Nat.sub_self]; rfl
    · rename_i hr
      rw [if_neg hr]
      rw [hi] at h1' ⊢
      cases hv : (s.hook h).state[n]? with
      | none => rw [hv] at h1'; cases h1'
      | some y => rw [hv] at h1'; simp only [Out.value.injEq] at h1'; subst h1'; exact hv
  obtain ⟨I2, e2⟩ := exec_inv I1 hm hk2
  have F2 := exec_fresh F1 hm
  have got2 : (s2.hook h).state[n]? = some x := by
    rw [I2.state h]
    obtain ⟨z, hz⟩ := run_values ((Plain.init.run ops).1.next (.use t v)).1 more h
    rw [← hz, List.getElem?_append_left]
    · exact got
    · exact (List.getElem?_eq_some_iff.1 got).1
  have hi2 : (s2.hook h).index = n := I2.index u h n (by rw [hin2]; exact List.mem_cons_self ..)
  simp only [step, use, current_inside I2 hin2] at h3
  injection h3 with h3; injection h3 with _ h3
  rw [← h3]
  unfold useState
  split
  · rename_i hr
    have := F2 h hr
    rw [hi2] at this
    have := (List.getElem?_eq_some_iff.1 got2).1
    omega
  · rw [hi2, got2]

example : ∃ s s1 s2 s3 o o2, exec init (sample.take 8) = some (s, o) ∧ (Plain.init.run (sample.take 8)).1.inside 0 = [(6, 0), (5, 2)] ∧
    step s (.use 0 20) = some (s1, .value 20) ∧ exec s1 ((sample.drop 9).take 5) = some (s2, o2) ∧
    (((Plain.init.run (sample.take 8)).1.next (.use 0 20)).1.run ((sample.drop 9).take 5)).1.inside 2 = [(6, 0)] ∧
    step s2 (.use 2 99) = some (s3, .value 20) := ⟨_, _, _, _, _, _, rfl, rfl, rfl, rfl, rfl, rfl⟩

/-- A hook call outside of every component's body is refused with the error that says so: in effects, in event handlers, and in whatever
was not started by a body. -/
theorem C83_outside {ops s outs t} (hx : exec init ops = some (s, outs)) (hk : Plain.init.Kept ops)
    (hin : (Plain.init.run ops).1.inside t = []) (hs : (Plain.init.run ops).1.stray t = false) (v c : Nat) :
    step s (.use t v) = some (s, .noHook) ∧ step s (.provide t c v) = some (s, .noHook) ∧ step s (.read t c) = some (s, .noHook) := by
  have I := (exec_inv inv_init hx hk).1
  simp only [step, use, provide, read, current_outside I hin hs, and_self]

example : (Plain.init.run (sample.take 15)).1.inside 1 = [] ∧ (Plain.init.run (sample.take 15)).1.stray 1 = false ∧
    (Plain.init.run (sample.take 15)).1.inside 2 = [(6, 1)] := ⟨rfl, rfl, rfl⟩

/-- The errors about a hook stack in an invalid state never occur. -/
theorem C83_never_broken {ops s outs} (hx : exec init ops = some (s, outs)) (hk : Plain.init.Kept ops) : Out.broken ∉ outs := by
  rw [C83_own_stack hx hk]
  clear hx hk
  generalize Plain.init = p
  induction ops generalizing p with
  | nil => exact List.not_mem_nil
  | cons o l ih =>
    intro hm
    rcases List.mem_cons.1 hm with h | h
    · exact p.next_not_broken o h.symm
    · exact ih (p.next o).1 h

/-- A component is inside of one render at a time, and once. -/
theorem C83_one_at_a_time {ops s outs} (hx : exec init ops = some (s, outs)) (hk : Plain.init.Kept ops) :
    (∀ t u h, h ∈ ((Plain.init.run ops).1.inside t).map Prod.fst → h ∈ ((Plain.init.run ops).1.inside u).map Prod.fst → t = u) ∧
    ∀ t, (((Plain.init.run ops).1.inside t).map Prod.fst).Nodup :=
  let I := (exec_inv inv_init hx hk).1
  ⟨I.apart, I.nodup⟩

/-- A task that is inside of a component can go on to render a component below it exactly when no task is inside of that one; the component
that it leaves is free again. -/
theorem C83_waits {ops s outs t h} (hx : exec init ops = some (s, outs)) (hk : Plain.init.Kept ops)
    (hin : (Plain.init.run ops).1.inside t ≠ []) :
    ((step s (.enter t h)).isSome ↔ ∀ u, h ∉ ((Plain.init.run ops).1.inside u).map Prod.fst) ∧ (step s (.leave t)).isSome := by
  have I := (exec_inv inv_init hx hk).1
  obtain ⟨x, l, hl⟩ : ∃ x l, (Plain.init.run ops).1.inside t = x :: l := by
    cases hi : (Plain.init.run ops).1.inside t with
    | nil => exact absurd hi hin
    | cons x l => exact ⟨x, l, rfl⟩
  obtain ⟨U, hU, hf⟩ := inside_upd I hl
  constructor
  · simp only [step, enter, hU, hf, List.isEmpty_cons, Bool.false_and, Bool.false_or]
    cases hh : s.held h with
    | true =>
      simp only [if_true, Option.isSome_none, Bool.false_eq_true, false_iff]
      intro ha
      obtain ⟨u, hu⟩ := (I.held h).1 hh
      exact ha u hu
    | false =>
      simp only [Bool.false_eq_true, if_false, Option.isSome_some, true_iff]
      intro u hu
      have := (I.held h).2 ⟨u, hu⟩
      rw [hh] at this; cases this
  · simp only [step, leave, hU, hf, stack_upd I hU]
    simp

example : ∃ s o, exec init (sample.take 9) = some (s, o) ∧ step s (.enter 2 6) = none := ⟨_, _, rfl, rfl⟩

/-- A component sees the values of contexts that the component around it sees when its render begins. -/
theorem C83_context {ops s outs t h s1 r c v} (hx : exec init ops = some (s, outs)) (hk : Plain.init.Kept ops)
    (hr : read s t c = .context (some v)) (hin : (Plain.init.run ops).1.inside t ≠ []) (h1 : step s (.enter t h) = some (s1, r)) :
    read s1 t c = .context (some v) := by
  have I := (exec_inv inv_init hx hk).1
  obtain ⟨⟨g, n⟩, l, hl⟩ : ∃ x l, (Plain.init.run ops).1.inside t = x :: l := by
    cases hi : (Plain.init.run ops).1.inside t with
    | nil => exact absurd hi hin
    | cons x l => exact ⟨x, l, rfl⟩
  obtain ⟨I1, _⟩ := step_inv I (o := .enter t h) trivial h1
  have hg : ((Plain.init.run ops).1.context g) c = some v := by
    simp only [read, current_inside I hl, Out.context.injEq] at hr
    rw [← I.providers g]; exact hr
  have hin1 : ((Plain.init.run ops).1.next (.enter t h)).1.inside t = (h, 0) :: (g, n) :: l := by
    simp only [Plain.next, hl, put_same]
  simp only [read, current_inside I1 hin1, I1.providers h, Plain.next, hl, put_same, hg]

example : ∃ s o, exec init (sample.take 7) = some (s, o) ∧ read s 0 7 = .context (some 70) := ⟨_, _, rfl, rfl⟩

/-- C83 is violated by tasks that a component's body starts: a hook call there is not refused, but answered from the component that the
render happens to be inside of at that moment.  Here task 1, started by the body of component 5, takes the place of the first hook call of
component 6: it gets the state of that component, and the body of component 6 gets nothing in its own place. -/
theorem C83_background_violated : ∃ ops s outs, exec init ops = some (s, outs) ∧ (Plain.init.run ops).1.inside 1 = [] ∧
    (Plain.init.run ops).1.inside 0 = [(6, 0), (5, 0)] ∧ (s.hook 6).state = [40] ∧
    ∃ s1 s2, step s (.use 1 99) = some (s1, .value 40) ∧ step s1 (.use 0 41) = some (s2, .indexError) :=
  ⟨[.start 0, .enter 0 5, .enter 0 6, .use 0 40, .leave 0, .leave 0, .finish 0, .start 0, .enter 0 5, .spawn 0 1, .enter 0 6],
   _, _, rfl, rfl, rfl, rfl, _, _, rfl, rfl⟩

end Verif.Hooks.Stack
