import Verif.Client.Inline
/-! # C114: inline JavaScript runs as in an event attribute of HTML -/
namespace Verif.Client.Inline

/-! ## Specification: event attributes of HTML

`<button onclick="code">` (HTML standard, "event handler content attributes"): the code is the body of a function with the parameter `event`,
which is called with the element as `this`; names that are not variables of the code are looked up in the element, in the document, and in the global
object; it is not strict.  A returned `false` prevents the browser's own reaction.  (Left out: the form of a form field, which is looked up after the element.) -/

/-- What names mean in an event attribute of the element `el` in the document `doc`, for the event `ev`. -/
def pageScope (ev el doc : Nat) : Scope where
  read x w :=
    if x = "event" then .ok (.obj ev)
    else match w.props el x with
      | some v => .ok v
      | none => match w.props doc x with
        | some v => .ok v
        | none => match w.globals x with
          | some v => .ok v
          | none => .error .reference
  write x v w :=
    if x = "event" then .ok w
    else match w.props el x with
      | some _ => .ok (w.setProp el x v)
      | none => match w.props doc x with
        | some _ => .ok (w.setProp doc x v)
        | none => .ok (w.setGlobal x v)

/-- What the event attribute does. -/
def htmlAttribute (lib : Lib) (fuel : Nat) (ev el doc : Nat) (code : Code) (w : World) : Option (World × Except Err Val) :=
  match code with
  | .run e => andThen (eval lib (pageScope ev el doc) fuel [("this", .obj el)] e w) fun w _ => some (w, .ok .undef)
  | .ret e => andThen (eval lib (pageScope ev el doc) fuel [("this", .obj el)] e w) fun w v =>
      some (match v with
        | .bool false => { w with prevented := true }
        | _ => w, .ok v)

/-- The names of a code that are not parameters of its arrow functions. -/
def free : Expr → List String
  | .num _ | .str _ | .bool _ | .this => []
  | .name x => [x]
  | .get o _ => free o
  | .setName x e => x :: free e
  | .setProp o _ e => free o ++ free e
  | .arrow xs b => (free b).filter (· ∉ xs)
  | .call f a => free f ++ free a
  | .plus a b => free a ++ free b
  | .seq a b => free a ++ free b

/-- Those of them that it assigns to. -/
def writes : Expr → List String
  | .num _ | .str _ | .bool _ | .this | .name _ => []
  | .get o _ => writes o
  | .setName x e => x :: writes e
  | .setProp o _ e => writes o ++ writes e
  | .arrow xs b => (writes b).filter (· ∉ xs)
  | .call f a => writes f ++ writes a
  | .plus a b => writes a ++ writes b
  | .seq a b => writes a ++ writes b

/-- The names of the properties that it assigns to. -/
def sets : Expr → List String
  | .num _ | .str _ | .bool _ | .this | .name _ => []
  | .get o _ => sets o
  | .setName _ e => sets e
  | .setProp o p e => p :: (sets o ++ sets e)
  | .arrow _ b => sets b
  | .call f a => sets f ++ sets a
  | .plus a b => sets a ++ sets b
  | .seq a b => sets a ++ sets b

/-- The value is somewhere in the page. -/
def Stored (w : World) (v : Val) : Prop := (∃ i p, w.props i p = some v) ∨ ∃ x, w.globals x = some v

/-- An arrow function of a code (functions of the page itself are `ext`). -/
def Val.isArrow : Val → Bool
  | .clo .. => true
  | _ => false

/-- The functions of the page store and return only what they are given, what was stored, and values of their own; they do not make the names in `names`
properties of the element or the document, remove no global variables, and do not change `event`. -/
structure Tame (lib : Lib) (el doc : Nat) (names : List String) : Prop where
  stored : ∀ k this args w v, Stored (lib k this args w).1 v → Stored w v ∨ v ∈ args ∨ v = this ∨ v.isArrow = false
  returned : ∀ k this args w v, (lib k this args w).2 = .ok v → Stored w v ∨ v ∈ args ∨ v = this ∨ v.isArrow = false
  element : ∀ k this args w x, x ∈ names → w.props el x = none → (lib k this args w).1.props el x = none
  document : ∀ k this args w x, x ∈ names → w.props doc x = none → (lib k this args w).1.props doc x = none
  kept : ∀ k this args w x, (w.globals x).isSome → ((lib k this args w).1.globals x).isSome
  event : ∀ k this args w, (lib k this args w).1.globals "event" = w.globals "event"

/-! ## Evaluation in two scopes -/

section
variable (N Wr : String → Prop)

inductive Good : Val → Prop
  | undef : Good .undef
  | num n : Good (.num n)
  | str s : Good (.str s)
  | bool b : Good (.bool b)
  | obj i : Good (.obj i)
  | ext n : Good (.ext n)
  | clo {xs b env} : (∀ x ∈ free b, x ∉ xs → env.lookup x = none → N x) → (∀ x ∈ writes b, x ∉ xs → env.lookup x = none → Wr x) →
      (∀ p ∈ sets b, ¬ N p) → (∀ p ∈ env, Good p.2) → Good (.clo xs b env)

theorem good_of_not_arrow {v : Val} (h : v.isArrow = false) : Good N Wr v := by
  cases v <;> first | cases h; done | constructor

structure Inv (ev el doc : Nat) (w : World) : Prop where
  props : ∀ i p v, w.props i p = some v → Good N Wr v
  globals : ∀ x v, w.globals x = some v → Good N Wr v
  plain : ∀ x, N x → x ≠ "event" → w.props el x = none ∧ w.props doc x = none
  there : ∀ x, Wr x → (w.globals x).isSome
  event : w.globals "event" = some (.obj ev)

def Agree (ev el doc : Nat) (a b : Option (World × Except Err Val)) : Prop :=
  a = b ∧ ∀ w r, a = some (w, r) → Inv N Wr ev el doc w ∧ ∀ v, r = .ok v → Good N Wr v
end

variable {N Wr : String → Prop} {ev el doc : Nat}

theorem Agree.done {w : World} {r : Except Err Val} (hw : Inv N Wr ev el doc w) (hr : ∀ v, r = .ok v → Good N Wr v) :
    Agree N Wr ev el doc (some (w, r)) (some (w, r)) := by
  refine ⟨rfl, ?_⟩
  intro w' r' h
  cases h
  exact ⟨hw, hr⟩

theorem Agree.ok {w : World} {v : Val} (hw : Inv N Wr ev el doc w) (hv : Good N Wr v) :
    Agree N Wr ev el doc (some (w, .ok v)) (some (w, .ok v)) :=
  .done hw (fun _ h => by cases h; exact hv)

theorem Agree.err {w : World} {e : Err} (hw : Inv N Wr ev el doc w) : Agree N Wr ev el doc (some (w, .error e)) (some (w, .error e)) :=
  .done hw (fun _ h => by cases h)

theorem Agree.bind {a b : Option (World × Except Err Val)} {f g : World → Val → Option (World × Except Err Val)}
    (h : Agree N Wr ev el doc a b) (hf : ∀ w v, Inv N Wr ev el doc w → Good N Wr v → Agree N Wr ev el doc (f w v) (g w v)) :
    Agree N Wr ev el doc (andThen a f) (andThen b g) := by
  obtain ⟨rfl, h⟩ := h
  match a, h with
  | none, _ => exact ⟨rfl, fun _ _ h => by cases h⟩
  | some (w, .error e), h => exact .err (h _ _ rfl).1
  | some (w, .ok v), h => exact hf w v (h _ _ rfl).1 ((h _ _ rfl).2 v rfl)

theorem lookup_mem {env : List (String × Val)} {x : String} {v : Val} (h : env.lookup x = some v) : (x, v) ∈ env := by
  induction env with
  | nil => cases h
  | cons p env ih =>
    obtain ⟨y, u⟩ := p
    rw [List.lookup_cons] at h
    split at h
    · rename_i e
      cases h
      have : x = y := by simpa using e
      subst this
      exact List.mem_cons_self ..
    · exact List.mem_cons_of_mem _ (ih h)

theorem lookup_append_none {a b : List (String × Val)} {x : String} (h : (a ++ b).lookup x = none) : a.lookup x = none ∧ b.lookup x = none := by
  induction a with
  | nil => exact ⟨rfl, h⟩
  | cons p a ih =>
    obtain ⟨y, u⟩ := p
    rw [List.cons_append, List.lookup_cons] at h
    rw [List.lookup_cons]
    split at h
    · cases h
    · exact ih h

theorem params_lookup {xs : List String} {args : List Val} {x : String} (h : (params xs args).lookup x = none) : x ∉ xs := by
  induction xs generalizing args with
  | nil => simp
  | cons y xs ih =>
    have key : ∀ (a : Val) (r : List (String × Val)) , ((y, a) :: r).lookup x = none → x ≠ y ∧ r.lookup x = none := by
      intro a r h
      rw [List.lookup_cons] at h
      split at h
      · cases h
      · rename_i e
        exact ⟨by simpa using e, h⟩
    cases args with
    | nil =>
      obtain ⟨a, b⟩ := key _ _ h
      simp only [List.mem_cons, not_or]
      exact ⟨a, ih b⟩
    | cons c args =>
      obtain ⟨a, b⟩ := key _ _ h
      simp only [List.mem_cons, not_or]
      exact ⟨a, ih b⟩

theorem params_good {xs : List String} {args : List Val} (h : ∀ a ∈ args, Good N Wr a) : ∀ p ∈ params xs args, Good N Wr p.2 := by
  induction xs generalizing args with
  | nil => simp [params]
  | cons y xs ih =>
    cases args with
    | nil =>
      intro p hp
      rcases List.mem_cons.1 hp with rfl | hp
      · exact .undef
      · exact ih (by simp) p hp
    | cons c args =>
      intro p hp
      rcases List.mem_cons.1 hp with rfl | hp
      · exact h _ (by simp)
      · exact ih (fun a ha => h a (by simp [ha])) p hp

theorem Good.prop {w : World} {v : Val} {p : String} (hw : Inv N Wr ev el doc w) : ∀ u, v.prop w p = .ok u → Good N Wr u := by
  intro u h
  cases v <;> simp only [Val.prop, Except.ok.injEq, reduceCtorEq] at h
  case obj i =>
    subst h
    cases hp : w.props i p with
    | none => exact .undef
    | some v => exact hw.props i p v hp
  all_goals (subst h; exact .undef)

theorem good_add {u v : Val} : Good N Wr (add u v) := by
  unfold add
  split <;> constructor

theorem Inv.setProp {w : World} {i : Nat} {p : String} {v : Val} (hw : Inv N Wr ev el doc w) (hp : ¬ N p) (hv : Good N Wr v) :
    Inv N Wr ev el doc (w.setProp i p v) := by
  constructor
  · intro j q u h
    simp only [World.setProp] at h
    split at h
    · cases h; exact hv
    · exact hw.props j q u h
  · exact hw.globals
  · intro x hx hne
    have hne' : x ≠ p := fun e => hp (e ▸ hx)
    simp only [World.setProp, hne', and_false, if_false]
    exact hw.plain x hx hne
  · exact hw.there
  · exact hw.event

theorem Inv.setGlobal {w : World} {x : String} {v : Val} (hw : Inv N Wr ev el doc w) (hx : x ≠ "event") (hv : Good N Wr v) :
    Inv N Wr ev el doc (w.setGlobal x v) := by
  constructor
  · exact hw.props
  · intro y u h
    simp only [World.setGlobal] at h
    split at h
    · cases h; exact hv
    · exact hw.globals y u h
  · exact hw.plain
  · intro y hy
    simp only [World.setGlobal]
    split
    · rfl
    · exact hw.there y hy
  · simp only [World.setGlobal]
    rw [if_neg (Ne.symm hx)]
    exact hw.event

section
variable (attr text : String) (hN : ∀ x, N x → (ownNames attr text).lookup x = none) (hW : ∀ x, Wr x → N x ∧ x ≠ "event")
include hN

theorem read_same {w : World} {x : String} (hw : Inv N Wr ev el doc w) (hx : N x) :
    (ownScope attr text).read x w = (pageScope ev el doc).read x w := by
  simp only [ownScope, pageScope, hN x hx]
  by_cases he : x = "event"
  · subst he; simp [hw.event]
  · cases hg : w.globals x <;> simp [he, hw.plain x hx he, hg]

theorem read_good {w : World} {x : String} (hw : Inv N Wr ev el doc w) (hx : N x) :
    ∀ v, (ownScope attr text).read x w = .ok v → Good N Wr v := by
  intro v h
  simp only [ownScope, hN x hx] at h
  cases hg : w.globals x with
  | none => simp [hg] at h
  | some u => simp only [hg, Except.ok.injEq] at h; subst h; exact hw.globals x u hg

include hW
theorem write_same {w : World} {x : String} {v : Val} (hw : Inv N Wr ev el doc w) (hx : Wr x) :
    (ownScope attr text).write x v w = .ok (w.setGlobal x v) ∧ (pageScope ev el doc).write x v w = .ok (w.setGlobal x v) := by
  obtain ⟨hn, he⟩ := hW x hx
  have hg := hw.there x hx
  cases hs : w.globals x with
  | none => rw [hs] at hg; cases hg
  | some u => simp [ownScope, pageScope, hN x hn, hs, he, hw.plain x hn he]

theorem eval_agree {lib : Lib}
    (hlib : ∀ k this args w, Inv N Wr ev el doc w → Good N Wr this → (∀ a ∈ args, Good N Wr a) →
      Inv N Wr ev el doc (lib k this args w).1 ∧ ∀ v, (lib k this args w).2 = .ok v → Good N Wr v) (n : Nat) :
    (∀ env e w, Inv N Wr ev el doc w → (∀ p ∈ env, Good N Wr p.2) → (∀ x ∈ free e, env.lookup x = none → N x) →
      (∀ x ∈ writes e, env.lookup x = none → Wr x) → (∀ p ∈ sets e, ¬ N p) →
      Agree N Wr ev el doc (eval lib (ownScope attr text) n env e w) (eval lib (pageScope ev el doc) n env e w)) ∧
    (∀ f this args w, Inv N Wr ev el doc w → Good N Wr f → Good N Wr this → (∀ a ∈ args, Good N Wr a) →
      Agree N Wr ev el doc (apply lib (ownScope attr text) n f this args w) (apply lib (pageScope ev el doc) n f this args w)) := by
  induction n with
  | zero =>
    refine ⟨fun env e w _ _ _ _ _ => ?_, fun f this args w _ _ _ _ => ?_⟩
    · simp only [eval]; exact ⟨rfl, fun _ _ h => by cases h⟩
    · simp only [apply]; exact ⟨rfl, fun _ _ h => by cases h⟩
  | succ n ih =>
    obtain ⟨ihe, iha⟩ := ih
    refine ⟨fun env e w hw henv hf hwr hs => ?_, fun f this args w hw hg hthis hargs => ?_⟩
    · cases e with
      | num k => simp only [eval]; exact .ok hw (.num k)
      | str s => simp only [eval]; exact .ok hw (.str s)
      | bool b => simp only [eval]; exact .ok hw (.bool b)
      | this =>
        simp only [eval]
        refine .ok hw ?_
        cases h : env.lookup "this" with
        | none => exact .undef
        | some v => exact henv _ (lookup_mem h)
      | name x =>
        simp only [eval]
        cases h : env.lookup x with
        | some v => exact .ok hw (henv _ (lookup_mem h))
        | none =>
          have hx := hf x (by simp [free]) h
          simp only
          rw [← read_same attr text hN hw hx]
          exact .done hw (read_good attr text hN hw hx)
      | get o p =>
        simp only [eval]
        exact (ihe env o w hw henv hf hwr hs).bind fun w v hw hv => .done hw (Good.prop hw)
      | setName x e =>
        simp only [eval]
        refine (ihe env e w hw henv (fun y hy => hf y (by simp [free, hy])) (fun y hy => hwr y (by simp [writes, hy])) hs).bind ?_
        intro w v hw hv
        cases h : env.lookup x with
        | some _ => exact .ok hw hv
        | none =>
          have hx := hwr x (by simp [writes]) h
          obtain ⟨e1, e2⟩ := write_same attr text hN hW (v := v) hw hx
          simp only [e1, e2]
          exact .ok (hw.setGlobal (hW x hx).2 hv) hv
      | setProp o p e =>
        simp only [eval]
        refine (ihe env o w hw henv (fun y hy => hf y (by simp [free, hy])) (fun y hy => hwr y (by simp [writes, hy]))
          (fun y hy => hs y (by simp [sets, hy]))).bind ?_
        intro w u hw hu
        refine (ihe env e w hw henv (fun y hy => hf y (by simp [free, hy])) (fun y hy => hwr y (by simp [writes, hy]))
          (fun y hy => hs y (by simp [sets, hy]))).bind ?_
        intro w v hw hv
        cases u with
        | obj i => exact .ok (hw.setProp (hs p (by simp [sets])) hv) hv
        | undef => exact .err hw
        | _ => exact .ok hw hv
      | arrow xs b =>
        simp only [eval]
        refine .ok hw (.clo ?_ ?_ hs henv)
        · exact fun x hx hn => hf x (by simp [free, hx, hn])
        · exact fun x hx hn => hwr x (by simp [writes, hx, hn])
      | call f a =>
        have hf1 : ∀ x ∈ free f, env.lookup x = none → N x := fun y hy => hf y (by simp [free, hy])
        have hf2 : ∀ x ∈ free a, env.lookup x = none → N x := fun y hy => hf y (by simp [free, hy])
        have hw1 : ∀ x ∈ writes f, env.lookup x = none → Wr x := fun y hy => hwr y (by simp [writes, hy])
        have hw2 : ∀ x ∈ writes a, env.lookup x = none → Wr x := fun y hy => hwr y (by simp [writes, hy])
        have hs1 : ∀ p ∈ sets f, ¬ N p := fun y hy => hs y (by simp [sets, hy])
        have hs2 : ∀ p ∈ sets a, ¬ N p := fun y hy => hs y (by simp [sets, hy])
        have plain : Agree N Wr ev el doc
            (andThen (eval lib (ownScope attr text) n env f w) fun w g => andThen (eval lib (ownScope attr text) n env a w) fun w v =>
              apply lib (ownScope attr text) n g .undef [v] w)
            (andThen (eval lib (pageScope ev el doc) n env f w) fun w g => andThen (eval lib (pageScope ev el doc) n env a w) fun w v =>
              apply lib (pageScope ev el doc) n g .undef [v] w) := by
          refine (ihe env f w hw henv hf1 hw1 hs1).bind fun w g hw hg => ?_
          refine (ihe env a w hw henv hf2 hw2 hs2).bind fun w v hw hv => ?_
          exact iha g .undef [v] w hw hg .undef (by simpa using hv)
        cases f with
        | get o p =>
          simp only [eval]
          refine (ihe env o w hw henv hf1 hw1 hs1).bind fun w u hw hu => ?_
          cases hp : u.prop w p with
          | error e => exact .err hw
          | ok g =>
            have hg := Good.prop hw g hp
            refine (ihe env a w hw henv hf2 hw2 hs2).bind fun w v hw hv => ?_
            exact iha g u [v] w hw hg hu (by simpa using hv)
        | _ => simp only [eval]; exact plain
      | plus a b =>
        simp only [eval]
        refine (ihe env a w hw henv (fun y hy => hf y (by simp [free, hy])) (fun y hy => hwr y (by simp [writes, hy]))
          (fun y hy => hs y (by simp [sets, hy]))).bind ?_
        intro w u hw hu
        refine (ihe env b w hw henv (fun y hy => hf y (by simp [free, hy])) (fun y hy => hwr y (by simp [writes, hy]))
          (fun y hy => hs y (by simp [sets, hy]))).bind ?_
        intro w v hw hv
        exact .ok hw good_add
      | seq a b =>
        simp only [eval]
        refine (ihe env a w hw henv (fun y hy => hf y (by simp [free, hy])) (fun y hy => hwr y (by simp [writes, hy]))
          (fun y hy => hs y (by simp [sets, hy]))).bind ?_
        intro w u hw hu
        exact ihe env b w hw henv (fun y hy => hf y (by simp [free, hy])) (fun y hy => hwr y (by simp [writes, hy]))
          (fun y hy => hs y (by simp [sets, hy]))
    · cases hg with
      | clo h1 h2 h3 h4 =>
        rename_i xs b env
        simp only [apply]
        refine ihe _ b w hw ?_ ?_ ?_ h3
        · intro p hp
          rcases List.mem_append.1 hp with hp | hp
          · exact params_good hargs p hp
          · exact h4 p hp
        · intro x hx hn
          obtain ⟨a, b⟩ := lookup_append_none hn
          exact h1 x hx (params_lookup a) b
        · intro x hx hn
          obtain ⟨a, b⟩ := lookup_append_none hn
          exact h2 x hx (params_lookup a) b
      | ext k =>
        simp only [apply]
        obtain ⟨a, b⟩ := hlib k this args w hw hthis hargs
        exact .done a b
      | _ => simp only [apply]; exact .err hw
end

theorem Tame.inv {lib : Lib} {e : Expr} (h : Tame lib el doc (free e)) (hWr : ∀ x, Wr x → x ∈ free e) (hNf : ∀ x, N x → x ∈ free e) :
    ∀ k this args w, Inv N Wr ev el doc w → Good N Wr this → (∀ a ∈ args, Good N Wr a) →
      Inv N Wr ev el doc (lib k this args w).1 ∧ ∀ v, (lib k this args w).2 = .ok v → Good N Wr v := by
  intro k this args w hw ht ha
  have cl : ∀ v, Stored w v ∨ v ∈ args ∨ v = this ∨ v.isArrow = false → Good N Wr v := by
    rintro v ((⟨i, p, h⟩ | ⟨x, h⟩) | h | rfl | h)
    · exact hw.props i p v h
    · exact hw.globals x v h
    · exact ha v h
    · exact ht
    · exact good_of_not_arrow N Wr h
  refine ⟨⟨?_, ?_, ?_, ?_, ?_⟩, fun v hv => cl v (h.returned k this args w v hv)⟩
  · exact fun i p v hv => cl v (h.stored k this args w v (.inl ⟨i, p, hv⟩))
  · exact fun x v hv => cl v (h.stored k this args w v (.inr ⟨x, hv⟩))
  · intro x hx hne
    obtain ⟨a, b⟩ := hw.plain x hx hne
    exact ⟨h.element k this args w x (hNf x hx) a, h.document k this args w x (hNf x hx) b⟩
  · exact fun x hx => h.kept k this args w x (hw.there x hx)
  · rw [h.event]; exact hw.event

/-! ## C114 -/

/-- **C114.**  Inline JavaScript does to the page what the same code in an event attribute of HTML does, and fails where it fails: `this` is the element, names mean
what they mean on the page.  Partial: the code has no `return`; its value is no function; its names are not those that ReactPy's own code uses, nor properties of the
element or the document; variables that it assigns to exist. -/
theorem C114_same_partial (lib : Lib) (isEvent : Nat → Bool) (fuel : Nat) (attr text : String) (e : Expr) (ev el doc : Nat) (w : World)
    (hev : isEvent ev = true) (htarget : w.props ev "currentTarget" = some (.obj el)) (hevent : w.globals "event" = some (.obj ev))
    (hvalues : ∀ v, Stored w v → v.isArrow = false) (hlib : Tame lib el doc (free e))
    (hown : ∀ x ∈ free e, x ∉ (ownNames attr text).map Prod.fst)
    (hprops : ∀ x ∈ free e, x ≠ "event" → w.props el x = none ∧ w.props doc x = none)
    (hsets : ∀ p ∈ sets e, p ∉ free e)
    (hwrites : ∀ x ∈ writes e, x ≠ "event" ∧ (w.globals x).isSome)
    (hvalue : ∀ w' v, eval lib (pageScope ev el doc) fuel [("this", .obj el)] e w = some (w', .ok v) → v.isFn = false) :
    inlineCall lib isEvent fuel attr text (.run e) [.obj ev] w = htmlAttribute lib fuel ev el doc (.run e) w := by
  have hwf : ∀ (e : Expr) x, x ∈ writes e → x ∈ free e := by
    intro e
    induction e with
    | num | str | bool | this | name => simp [writes]
    | get o p ih => exact ih
    | setName x e ih => simp only [writes, free, List.mem_cons]; exact fun y h => h.imp id (ih y)
    | setProp o p e ih1 ih2 => simp only [writes, free, List.mem_append]; exact fun y h => h.imp (ih1 y) (ih2 y)
    | arrow xs b ih => simp only [writes, free, List.mem_filter]; exact fun y h => ⟨ih y h.1, h.2⟩
    | call a b ih1 ih2 | plus a b ih1 ih2 | seq a b ih1 ih2 =>
      simp only [writes, free, List.mem_append]; exact fun y h => h.imp (ih1 y) (ih2 y)
  have hlook : ∀ (l : List (String × Option Val)) x, x ∉ l.map Prod.fst → l.lookup x = none := by
    intro l x
    induction l with
    | nil => simp
    | cons p l ih =>
      obtain ⟨y, u⟩ := p
      intro h
      simp only [List.map_cons, List.mem_cons, not_or] at h
      rw [List.lookup_cons, show (x == y) = false by simpa using h.1]
      exact ih h.2
  let N : String → Prop := fun x => x ∈ free e
  let Wr : String → Prop := fun x => x ∈ writes e
  have hinv : Inv N Wr ev el doc w :=
    ⟨fun i p v h => good_of_not_arrow N Wr (hvalues v (.inl ⟨i, p, h⟩)), fun x v h => good_of_not_arrow N Wr (hvalues v (.inr ⟨x, h⟩)),
      hprops, fun x h => (hwrites x h).2, hevent⟩
  have key := (eval_agree (N := N) (Wr := Wr) (ev := ev) (el := el) (doc := doc) attr text (fun x h => hlook _ x (hown x h))
    (fun x h => ⟨hwf e x h, (hwrites x h).1⟩) (Tame.inv hlib (hwf e) (fun _ h => h)) fuel).1
      [("this", .obj el)] e w hinv (by simpa using Good.obj el) (fun x h _ => h) (fun x h _ => h) hsets
  have hthis : thisFor isEvent [.obj ev] w = .obj el := by simp [thisFor, hev, htarget]
  unfold inlineCall htmlAttribute
  simp only [hthis, key.1]
  cases hr : eval lib (pageScope ev el doc) fuel [("this", .obj el)] e w with
  | none => rfl
  | some r =>
    obtain ⟨w', r⟩ := r
    cases r with
    | error e => rfl
    | ok v => simp [andThen, hvalue w' v hr]

/-- **C114.**  A code that is an arrow function is called once, with all the arguments; `this` in it is the element (with an event), and its result is
returned. -/
theorem C114_function (lib : Lib) (isEvent : Nat → Bool) (fuel : Nat) (attr text : String) (xs : List String) (b : Expr) (args : List Val) (w : World) :
    inlineCall lib isEvent (fuel + 1) attr text (.run (.arrow xs b)) args w =
      eval lib (ownScope attr text) fuel (params xs args ++ [("this", thisFor isEvent args w)]) b w ∧
    (∀ i rest, args = .obj i :: rest → isEvent i = true → thisFor isEvent args w = (w.props i "currentTarget").getD .undef) := by
  refine ⟨?_, fun i rest h hi => by subst h; simp [thisFor, hi]⟩
  simp only [inlineCall, eval, andThen, Val.isFn, if_true, apply]

/-- … and so is a function of the page that is named. -/
theorem C114_function_name (lib : Lib) (isEvent : Nat → Bool) (fuel : Nat) (attr text f : String) (k : Nat) (args : List Val) (w : World)
    (hf : f ∉ (ownNames attr text).map Prod.fst) (hthis : f ≠ "this") (hg : w.globals f = some (.ext k)) :
    inlineCall lib isEvent (fuel + 1) attr text (.run (.name f)) args w = some (lib k .undef args w) := by
  have hl : (ownNames attr text).lookup f = none := by
    revert hf
    generalize ownNames attr text = l
    induction l with
    | nil => simp
    | cons p l ih =>
      obtain ⟨y, u⟩ := p
      intro h
      simp only [List.map_cons, List.mem_cons, not_or] at h
      rw [List.lookup_cons, show (f == y) = false by simpa using h.1]
      exact ih h.2
  have he : (f == "this") = false := by simpa using hthis
  simp [inlineCall, eval, List.lookup_cons, he, ownScope, hl, hg, andThen, Val.isFn, apply]

/-! ### A page -/

/-- A button (object 1) of a document (0) with the property `title` that is clicked (event 2); the page has a function `save`, which stores what it is given in
the document's property `saved`, and a variable `count`. -/
def demo : World where
  props := fun i p => match i, p with
    | 1, "value" => some (.str "go")
    | 0, "title" => some (.str "Page")
    | 2, "currentTarget" => some (.obj 1)
    | _, _ => none
  globals := fun x => match x with
    | "event" => some (.obj 2)
    | "save" => some (.ext 0)
    | "count" => some (.num 1)
    | "name" => some (.str "main")
    | _ => none

def demoLib : Lib := fun _ _ args w => (w.setProp 0 "saved" (args.headD .undef), .ok .undef)

def demoEvent : Nat → Bool := fun i => i == 2

/-- `count = count + 1; this.value = count; save(event)`. -/
def demoCode : Expr := .seq (.setName "count" (.plus (.name "count") (.num 1))) (.seq (.setProp .this "value" (.name "count")) (.call (.name "save") (.name "event")))

theorem demo_values : ∀ v, Stored demo v → v.isArrow = false := by
  rintro v (⟨i, p, h⟩ | ⟨x, h⟩)
  · simp only [demo] at h
    split at h <;> cases h <;> rfl
  · simp only [demo] at h
    split at h <;> cases h <;> rfl

theorem demo_tame : Tame demoLib 1 0 (free demoCode) := by
  have stored : ∀ (this : Val) args w v, Stored (demoLib 0 this args w).1 v → Stored w v ∨ v ∈ args ∨ v = this ∨ v.isArrow = false := by
    rintro this args w v (⟨i, p, h⟩ | ⟨x, h⟩)
    · simp only [demoLib, World.setProp] at h
      split at h
      · cases args with
        | nil => cases h; exact .inr (.inr (.inr rfl))
        | cons a l => cases h; exact .inr (.inl (by simp))
      · exact .inl (.inl ⟨i, p, h⟩)
    · exact .inl (.inr ⟨x, h⟩)
  constructor
  · exact fun _ => stored
  · intro k this args w v h
    cases h
    exact .inr (.inr (.inr rfl))
  · intro k this args w x hx h
    simpa [demoLib, World.setProp] using h
  · intro k this args w x hx h
    have : x ≠ "saved" := by rintro rfl; revert hx; decide
    simpa [demoLib, World.setProp, this] using h
  · exact fun _ _ _ _ _ h => h
  · exact fun _ _ _ _ => rfl

/-- The hypotheses of `C114_same_partial` hold for this code: the value of the button becomes 2. -/
example : demoEvent 2 = true ∧ demo.props 2 "currentTarget" = some (.obj 1) ∧ demo.globals "event" = some (.obj 2) ∧
    (∀ v, Stored demo v → v.isArrow = false) ∧ Tame demoLib 1 0 (free demoCode) ∧
    (∀ x ∈ free demoCode, x ∉ (ownNames "onClick" "…").map Prod.fst) ∧
    (∀ x ∈ free demoCode, x ≠ "event" → demo.props 1 x = none ∧ demo.props 0 x = none) ∧ (∀ p ∈ sets demoCode, p ∉ free demoCode) ∧
    (∀ x ∈ writes demoCode, x ≠ "event" ∧ (demo.globals x).isSome) ∧
    (∀ w' v, eval demoLib (pageScope 2 1 0) 9 [("this", .obj 1)] demoCode demo = some (w', .ok v) → v.isFn = false) ∧
    ∃ w', inlineCall demoLib demoEvent 9 "onClick" "…" (.run demoCode) [.obj 2] demo = some (w', .ok .undef) ∧
      w'.props 1 "value" = some (.num 2) ∧ w'.props 0 "saved" = some (.obj 2) := by
  refine ⟨rfl, rfl, rfl, demo_values, demo_tame, by decide, ?_, by decide, by decide, ?_, _, rfl, rfl, rfl⟩
  · intro x hx
    simp only [demoCode, free, List.mem_cons, List.mem_append, List.not_mem_nil, or_false, false_or] at hx
    rcases hx with (rfl | rfl) | rfl | rfl | rfl <;> first | exact fun _ => ⟨rfl, rfl⟩ | exact fun h => absurd rfl h
  · intro w' v h
    cases h
    rfl

/-- `(text) => text + "!"` is called with what a component of an imported module passes. -/
example : (inlineCall demoLib demoEvent 5 "setText" "…" (.run (.arrow ["text"] (.plus (.name "text") (.str "!")))) [.str "Hi"] demo).map (·.2) =
    some (.ok (.str "Hi!")) := rfl

example : "save" ∉ (ownNames "onClick" "save").map Prod.fst ∧ "save" ≠ "this" ∧ demo.globals "save" = some (.ext 0) := ⟨by decide, by decide, rfl⟩

/-- C114 is violated by every code with `return` (`onsubmit="return check()"` in HTML that was read): nothing of it is run. -/
theorem C114_return_violated :
    (∀ lib isEvent fuel attr text e args w, inlineCall lib isEvent fuel attr text (.ret e) args w = some (w, .error .syntax)) ∧
    ∃ w', htmlAttribute demoLib 9 2 1 0 (.ret (.seq (.call (.name "save") (.num 3)) (.bool false))) demo = some (w', .ok (.bool false)) ∧
      w'.props 0 "saved" = some (.num 3) ∧ w'.prevented = true :=
  ⟨fun _ _ _ _ _ _ _ _ => rfl, _, rfl, rfl, rfl⟩

/-- C114 is violated for names of ReactPy's own code: the page's variable `name` cannot be read, the code gets the name of the attribute. -/
theorem C114_names_violated : ∃ w1 w2,
    htmlAttribute demoLib 9 2 1 0 (.run (.setProp .this "value" (.name "name"))) demo = some (w1, .ok .undef) ∧ w1.props 1 "value" = some (.str "main") ∧
    inlineCall demoLib demoEvent 9 "onClick" "…" (.run (.setProp .this "value" (.name "name"))) [.obj 2] demo = some (w2, .ok .undef) ∧
      w2.props 1 "value" = some (.str "onClick") :=
  ⟨_, _, rfl, rfl, rfl, rfl⟩

/-- C114 is violated for names of properties of the element and the document: `value = title` fails. -/
theorem C114_element_violated : ∃ w1,
    htmlAttribute demoLib 9 2 1 0 (.run (.setName "value" (.name "title"))) demo = some (w1, .ok .undef) ∧ w1.props 1 "value" = some (.str "Page") ∧
    inlineCall demoLib demoEvent 9 "onClick" "…" (.run (.setName "value" (.name "title"))) [.obj 2] demo = some (demo, .error .reference) :=
  ⟨_, rfl, rfl, rfl⟩

/-- C114 is violated for assignments to variables that do not exist yet: `clicked = 1` fails. -/
theorem C114_new_violated : ∃ w1,
    htmlAttribute demoLib 9 2 1 0 (.run (.setName "clicked" (.num 1))) demo = some (w1, .ok .undef) ∧ w1.globals "clicked" = some (.num 1) ∧
    inlineCall demoLib demoEvent 9 "onClick" "…" (.run (.setName "clicked" (.num 1))) [.obj 2] demo = some (demo, .error .reference) :=
  ⟨_, rfl, rfl, rfl⟩

/-- C114 is violated when the value of the code happens to be a function: `this.undo = () => save(4)` calls at once what it should only keep. -/
theorem C114_called_violated : ∃ w1 w2,
    htmlAttribute demoLib 9 2 1 0 (.run (.setProp .this "undo" (.arrow [] (.call (.name "save") (.num 4))))) demo = some (w1, .ok .undef) ∧
      w1.props 0 "saved" = none ∧
    inlineCall demoLib demoEvent 9 "onClick" "…" (.run (.setProp .this "undo" (.arrow [] (.call (.name "save") (.num 4))))) [.obj 2] demo =
      some (w2, .ok .undef) ∧ w2.props 0 "saved" = some (.num 4) :=
  ⟨_, _, rfl, rfl, rfl, rfl⟩

end Verif.Client.Inline
