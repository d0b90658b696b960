import Verif.Client.Imported
/-!
# C77: imported components show the newest model
-/
namespace Verif.Client.Imp
open Verif.Client

/-! ## Specification -/

/-- Nothing more will happen on the client's own account: no effects are waiting, no render was asked for, and the module of
the current run of the effect was loaded and gave a proper binding; the component is still there. -/
def Settled (s : State) : Prop :=
  s.cap = none ∧ s.dirty = false ∧ s.gone = false ∧ ∃ g b, s.gen = some g ∧ g.bnd = some b

/-- The events that are not the parent's doing. -/
def internal : Act → Bool
  | .rerender => true
  | .flush => true
  | .load _ _ => true
  | _ => false

/-- Events none of which is a failed or improper load. -/
def allProper (acts : List Act) : Prop := ∀ id o, Act.load id o ∈ acts → o = .proper

/-- What was given last, after one more event. -/
def nowGiven (o : Option (Nat × Nat)) : Act → Option (Nat × Nat)
  | .give p => some p
  | _ => o

/-- What the parent gave last: an import source and a model. -/
def lastGiven (acts : List Act) : Option (Nat × Nat) := acts.foldl nowGiven none

/-- A sequence of events that are not the parent's doing and of which each changes something. -/
def Busy (ubu : Nat → Bool) : State → List Act → Prop
  | _, [] => True
  | s, a :: as => internal a = true ∧ step ubu s a ≠ s ∧ Busy ubu (step ubu s a) as

/-! ## Invariants -/

variable (ubu : Nat → Bool)

/-- What holds as long as the component is there. -/
structure Inv (s : State) : Prop where
  props : ∀ p, s.props = some p → ∃ r, s.deps = some (p.1, r)
  deps : ∀ d, s.deps = some d → s.refSet = true ∧ s.props ≠ none
  cap : ∀ c, s.cap = some c → s.props = some (c.src, c.model)
  capb : ∀ c, s.cap = some c → s.dirty = false → c.binding = s.binding
  gsrc : ∀ g, s.gen = some g → (∀ c, s.cap = some c → c.changed = false) → ∃ r, s.deps = some (g.src, r)
  bound : ∀ g b, s.gen = some g → g.bnd = some b → s.binding = some b ∧ s.bindingSource = some g.src ∧ g.id ∉ s.loads
  gid : ∀ g, s.gen = some g → g.id < s.next
  lid : ∀ i ∈ s.loads, i < s.next
  some : s.deps ≠ none → (∀ c, s.cap = some c → c.changed = false) → s.gen ≠ none

/-- The bindings that may still be rendered, apart from new ones. -/
def Later (s : State) (x : Nat) : Prop := s.binding = some x ∨ ∃ c, s.cap = some c ∧ c.binding = some x

/-- The node is in order as far as renderings through the bindings `X` and those from `n` on go. -/
structure Ok (N : Node) (X : Nat → Prop) (n : Nat) : Prop where
  nraised : N.raised = false
  ult : ∀ u ∈ N.users, u < n
  slt : ∀ u ∈ N.stale, u < n
  users : ∀ u ∈ N.users, ∀ x, X x → u ≤ x
  stale : ∀ u ∈ N.stale, ∀ x, X x → u < x

/-- The same as `Inv` for the bindings and what is shown. -/
structure RInv (s : State) : Prop where
  ok : Ok (react s.ops) (Later s) s.next
  cleanu : ∀ b, s.clean2 = some b → ∀ u ∈ (react s.ops).users, u ≤ b
  cleanx : ∀ b, s.clean2 = some b → ∀ x, Later s x → b ≤ x
  cleann : ∀ b, s.clean2 = some b → b < s.next
  laterlt : ∀ x, Later s x → x < s.next
  capb : ∀ c x y, s.cap = some c → c.binding = some x → s.binding = some y → x ≤ y

/-- What a settled component shows. -/
def Shows (s : State) : Prop :=
  ∀ g b p, s.cap = none → s.dirty = false → s.gen = some g → g.bnd = some b → s.props = some p →
    preact s.ops = some p.2 ∧ (react s.ops).shown = some p.2 ∧ b ∈ (react s.ops).users ∧ b ∉ (react s.ops).stale ∧
    (ubu g.src = true → s.clean2 = some b)

theorem react_snoc (ops : List Op) (o : Op) : react (ops ++ [o]) = Op.react (react ops) o := by
  simp [react, List.foldl_append]

theorem preact_snoc (ops : List Op) (o : Op) : preact (ops ++ [o]) = Op.preact (preact ops) o := by
  simp [preact, List.foldl_append]

/-- The calls of the first clean-up. -/
def first (s : State) : List Op :=
  match s.gen with
  | some g => match g.bnd with
    | some b => if ubu g.src then [] else [.unmount b]
    | none => []
  | none => []

/-- Those of the second. -/
def second (s : State) : List Op :=
  match s.clean2 with
  | some b => [.unmount b]
  | none => []

/-- Whether the second effect renders, and through which binding. -/
def through (c : Cap) (s : State) : Option Nat := if s.bindingSource = some c.src then c.binding else none

/-- Its call. -/
def third (c : Cap) (s : State) : List Op :=
  match through c s with
  | some b => [.render b c.model]
  | none => []

/-- Its clean-up. -/
def clean (c : Cap) (s : State) : Option Nat := if ubu c.src then through c s else none

theorem cleanup1_eq (s : State) : cleanup1 ubu s = { s with gen := none, ops := s.ops ++ first ubu s } := by
  unfold cleanup1 first
  cases hg : s.gen with
  | none => cases s; simp_all
  | some g =>
    cases hb : g.bnd with
    | none => simp [hb]
    | some b => by_cases hu : ubu g.src = true <;> simp [hb, hu]

theorem cleanup2_eq (s : State) : cleanup2 s = { s with clean2 := none, ops := s.ops ++ second s } := by
  unfold cleanup2 second
  cases hg : s.clean2 with
  | none => cases s; simp_all
  | some g => rfl

theorem effect2_eq (c : Cap) (s : State) (h : s.clean2 = none) :
    effect2 ubu c s = { s with clean2 := clean ubu c s, ops := s.ops ++ third c s } := by
  unfold effect2 clean third through
  cases hb : c.binding with
  | none => cases s; simp_all
  | some b =>
    by_cases hs : s.bindingSource = some c.src
    · simp [hs]
    · simp only [hs, if_false]
      cases s; simp_all

theorem flush_same (s : State) (c : Cap) (hc : s.cap = some c) (hch : c.changed = false) :
    flush ubu s = { s with cap := none, clean2 := clean ubu c s, ops := s.ops ++ second s ++ third c s } := by
  unfold flush
  simp only [hc, hch, Bool.false_eq_true, if_false, cleanup2_eq]
  rw [effect2_eq ubu c _ rfl]
  rfl

theorem flush_changed (s : State) (c : Cap) (hc : s.cap = some c) (hch : c.changed = true) :
    flush ubu s = { s with cap := none, clean2 := clean ubu c s, ops := s.ops ++ first ubu s ++ second s ++ third c s,
                           gen := some ⟨s.next, c.src, none⟩, loads := s.loads ++ [s.next], next := s.next + 1 } := by
  unfold flush
  simp only [hc, hch, if_true, cleanup2_eq, cleanup1_eq, effect1]
  rw [effect2_eq ubu c _ rfl]
  rfl

theorem inv_flush (s : State) (h : Inv s) : Inv (flush ubu s) := by
  cases hc : s.cap with
  | none => simpa [flush, hc] using h
  | some c =>
    have hp := h.cap c hc
    obtain ⟨r, hd⟩ := h.props _ hp
    have hd2 := h.deps _ hd
    cases hch : c.changed with
    | false =>
      rw [flush_same ubu s c hc hch]
      exact ⟨h.props, h.deps, by simp, by simp, fun g hg _ => h.gsrc g hg (by simp [hc, hch]), h.bound, h.gid, h.lid,
          fun a _ => h.some a (by simp [hc, hch])⟩
    | true =>
      rw [flush_changed ubu s c hc hch]
      refine ⟨h.props, h.deps, by simp, by simp, ?_, ?_, ?_, ?_, by simp⟩
      · intro g hg _
        simp at hg
        exact ⟨r, by simp [← hg, hd]⟩
      · intro g b hg hb
        simp at hg
        simp [← hg] at hb
      · intro g hg
        simp at hg
        simp [← hg]
      · intro i hi
        simp at hi
        rcases hi with hi | hi
        · have := h.lid i hi; simp; omega
        · simp [hi]

theorem flush_cap (s : State) : (flush ubu s).cap = none := by
  cases hc : s.cap with
  | none => simpa [flush, hc] using hc
  | some c =>
    cases hch : c.changed with
    | false => rw [flush_same ubu s c hc hch]
    | true => rw [flush_changed ubu s c hc hch]

/-- What a flush leaves alone. -/
theorem flush_keeps (s : State) : (flush ubu s).props = s.props ∧ (flush ubu s).deps = s.deps ∧
    (flush ubu s).refSet = s.refSet ∧ (flush ubu s).binding = s.binding ∧ (flush ubu s).dirty = s.dirty ∧
    (flush ubu s).gone = s.gone ∧ s.next ≤ (flush ubu s).next := by
  cases hc : s.cap with
  | none => simp [flush, hc]
  | some c =>
    cases hch : c.changed with
    | false => rw [flush_same ubu s c hc hch]; simp
    | true => rw [flush_changed ubu s c hc hch]; simp

theorem inv_render (p : Nat × Nat) (s : State) (h : Inv s) (hr : s.deps = none → s.refSet = false) :
    Inv (render ubu p s) := by
  have hf := inv_flush ubu s h
  have hk := flush_keeps ubu s
  have hcap := flush_cap ubu s
  unfold render
  generalize flush ubu s = t at *
  refine ⟨?_, by simp, ?_, by simp, ?_, hf.bound, hf.gid, hf.lid, ?_⟩
  · intro q hq
    simp at hq
    exact ⟨_, by rw [hq]⟩
  · intro c hc
    simp at hc
    simp [← hc]
  · intro g hg hcc
    have := hcc _ rfl
    simp at this
    obtain ⟨r, hr⟩ := hf.gsrc g hg (by simp [hcap])
    simp [hr] at this
    exact ⟨t.refSet, by simp [this.1]⟩
  · intro _ hcc
    have := hcc _ rfl
    simp at this
    exact hf.some (by simp [this]) (by simp [hcap])

theorem inv_load (id : Nat) (o : Loaded) (s : State) (h : Inv s) (hi : id ∈ s.loads) : Inv (load id o s) := by
  unfold load
  have hl : ∀ i, i ∈ s.loads.filter (· ≠ id) → i ∈ s.loads := fun i hi => (List.mem_filter.1 hi).1
  have hb : Inv { s with loads := s.loads.filter (· ≠ id) } := by
    refine ⟨h.props, h.deps, h.cap, h.capb, h.gsrc, ?_, h.gid, fun i hi => h.lid i (hl i hi), h.some⟩
    intro g b hg hb
    have := h.bound g b hg hb
    exact ⟨this.1, this.2.1, fun hi => this.2.2 (hl _ hi)⟩
  cases hg : s.gen with
  | none => simpa [hg] using hb
  | some g =>
    simp only [hg]
    split
    next hid =>
      cases o with
      | proper =>
        refine ⟨hb.props, hb.deps, hb.cap, by simp, ?_, ?_, ?_, ?_, by simp⟩
        · intro g' hg' hcc
          simp at hg'
          subst hg'
          exact hb.gsrc g hg hcc
        · intro g' b hg' hbb
          simp at hg'
          subst hg'
          simp at hbb
          simp [hbb, hid.1]
        · intro g' hg'
          simp at hg'
          subst hg'
          have := h.gid g hg
          simp; omega
        · intro i hi
          have := hb.lid i hi
          simp at this ⊢; omega
      | improper =>
        have hn : ∀ b, g.bnd ≠ some b := fun b hbb => (h.bound g b hg hbb).2.2 (hid.1 ▸ hi)
        refine ⟨hb.props, hb.deps, hb.cap, ?_, ?_, ?_, ?_, hb.lid, by simp⟩
        · intro c hc hd
          simp at hd
          have := h.capb c hc hd.1
          simp [this, hd.2]
        · intro g' hg' hcc
          exact hb.gsrc g' (hg.trans hg') hcc
        · intro g' b hg' hbb
          simp at hg'
          subst hg'
          exact absurd hbb (hn b)
        · intro g' hg'
          exact h.gid g' (hg.trans hg')
      | failed => rw [hg] at hb; exact hb
    · rw [hg] at hb; exact hb

theorem Ok.mono {N : Node} {X Y : Nat → Prop} {n k : Nat} (h : Ok N X n) (hk : n ≤ k)
    (hy : ∀ y, Y y → X y ∨ n ≤ y) : Ok N Y k := by
  refine ⟨h.nraised, fun u hu => Nat.lt_of_lt_of_le (h.ult u hu) hk, fun u hu => Nat.lt_of_lt_of_le (h.slt u hu) hk, ?_, ?_⟩
  · intro u hu y hY
    rcases hy y hY with hx | hx
    · exact h.users u hu y hx
    · have := h.ult u hu; omega
  · intro u hu y hY
    rcases hy y hY with hx | hx
    · exact h.stale u hu y hx
    · have := h.slt u hu; omega

theorem Ok.unmount {N : Node} {X : Nat → Prop} {n : Nat} (h : Ok N X n) (b : Nat) (hb : b ∈ N.users → ∀ u ∈ N.users, u ≤ b) :
    Ok (Op.react N (.unmount b)) X n ∧ (∀ u ∈ (Op.react N (.unmount b)).users, u ∈ N.users) := by
  unfold Op.react
  simp only
  split
  next hs =>
    refine ⟨⟨h.nraised, h.ult, ?_, h.users, ?_⟩, fun _ h => h⟩
    · intro u hu; exact h.slt u (List.mem_filter.1 hu).1
    · intro u hu; exact h.stale u (List.mem_filter.1 hu).1
  next hs =>
    split
    next hu =>
      refine ⟨⟨h.nraised, by simp, ?_, by simp, ?_⟩, by simp⟩
      · intro u huu
        simp at huu
        rcases huu with huu | huu
        · exact h.slt u huu
        · exact h.ult u huu.1
      · intro u huu x hx
        simp at huu
        rcases huu with huu | huu
        · exact h.stale u huu x hx
        · have h1 := hb hu u huu.1
          have h2 := h.users b hu x hx
          have h3 := huu.2
          omega
    · exact ⟨h, fun _ h => h⟩

theorem Ok.render {N : Node} {X : Nat → Prop} {n : Nat} (h : Ok N X n) (b m : Nat) (hb : X b) (hn : b < n) :
    b ∉ N.stale ∧ Ok (Op.react N (.render b m)) (fun x => X x ∧ b ≤ x) n ∧ (Op.react N (.render b m)).shown = some m ∧
    b ∈ (Op.react N (.render b m)).users ∧ b ∉ (Op.react N (.render b m)).stale ∧
    (∀ u ∈ (Op.react N (.render b m)).users, u ≤ b) := by
  have hs : b ∉ N.stale := fun hs => Nat.lt_irrefl b (h.stale b hs b hb)
  unfold Op.react
  simp only [hs, if_false]
  refine ⟨not_false, ⟨h.nraised, ?_, h.slt, ?_, ?_⟩, trivial, by simp, not_false, ?_⟩
  · intro u hu
    simp at hu
    rcases hu with rfl | hu
    · exact hn
    · exact h.ult u hu.1
  · intro u hu x hx
    simp at hu
    rcases hu with rfl | hu
    · exact hx.2
    · exact h.users u hu.1 x hx.1
  · exact fun u hu x hx => h.stale u hu x hx.1
  · intro u hu
    simp at hu
    rcases hu with rfl | hu
    · exact Nat.le_refl _
    · exact h.users u hu.1 b hb

theorem ok_first (s : State) (h : Inv s) (hr : RInv s) :
    Ok (react (s.ops ++ first ubu s)) (Later s) s.next ∧ (∀ u ∈ (react (s.ops ++ first ubu s)).users, u ∈ (react s.ops).users) := by
  unfold first
  cases hg : s.gen with
  | none => simpa using hr.ok
  | some g =>
    cases hb : g.bnd with
    | none => simpa [hb] using hr.ok
    | some b =>
      by_cases hu : ubu g.src = true
      · simpa [hb, hu] using hr.ok
      · simp only [hb, hu, Bool.false_eq_true, if_false, react_snoc]
        have := (h.bound g b hg hb).1
        exact hr.ok.unmount b (fun _ u hu => hr.ok.users u hu b (Or.inl this))

theorem ok_second (s : State) (ops : List Op) (hr : RInv s) (ho : Ok (react ops) (Later s) s.next)
    (hs : ∀ u ∈ (react ops).users, u ∈ (react s.ops).users) :
    Ok (react (ops ++ second s)) (Later s) s.next := by
  unfold second
  cases hc : s.clean2 with
  | none => simpa using ho
  | some b =>
    simp only [react_snoc]
    exact (ho.unmount b (fun _ u hu => hr.cleanu b hc u (hs u hu))).1

theorem rinv_flush (s : State) (h : Inv s) (hr : RInv s) : RInv (flush ubu s) := by
  cases hc : s.cap with
  | none => simpa [flush, hc] using hr
  | some c =>
    have key : ∀ (ops : List Op) (t : State), Ok (react ops) (Later s) s.next → t.cap = none → t.binding = s.binding →
        t.clean2 = clean ubu c s → t.ops = ops ++ third c s → s.next ≤ t.next → RInv t := by
      intro ops t ho hcap hbi hcl hops hn
      have hl : ∀ x, Later t x → s.binding = some x := by
        intro x hx
        rcases hx with hx | ⟨c', hc', _⟩
        · rw [← hbi]; exact hx
        · simp [hcap] at hc'
      cases hth : through c s with
      | none =>
        have e1 : t.clean2 = none := by rw [hcl]; unfold clean; split <;> simp [hth]
        have e2 : t.ops = ops := by rw [hops]; unfold third; simp [hth]
        refine ⟨?_, by simp [e1], by simp [e1], by simp [e1], ?_, by simp [hcap]⟩
        · rw [e2]
          exact ho.mono hn (fun y hy => Or.inl (Or.inl (hl y hy)))
        · exact fun x hx => Nat.lt_of_lt_of_le (hr.laterlt x (Or.inl (hl x hx))) hn
      | some b =>
        have hcb : c.binding = some b := by
          unfold through at hth
          split at hth
          · exact hth
          · cases hth
        have hlb : Later s b := Or.inr ⟨c, hc, hcb⟩
        have e2 : t.ops = ops ++ [.render b c.model] := by rw [hops]; unfold third; simp [hth]
        obtain ⟨h1, h2, h3, h4, h5, h6⟩ := ho.render b c.model hlb (hr.laterlt b hlb)
        have e1 : ∀ b', t.clean2 = some b' → b' = b := by
          intro b' hb'
          rw [hcl] at hb'
          unfold clean at hb'
          split at hb'
          · rw [hth] at hb'; exact (Option.some.inj hb').symm
          · cases hb'
        have hle : ∀ x, Later t x → b ≤ x := fun x hx => hr.capb c b x hc hcb (hl x hx)
        refine ⟨?_, ?_, ?_, ?_, ?_, by simp [hcap]⟩
        · rw [e2, react_snoc]
          exact h2.mono hn (fun y hy => Or.inl ⟨Or.inl (hl y hy), hle y hy⟩)
        · intro b' hb' u hu
          rw [e1 b' hb']
          rw [e2, react_snoc] at hu
          exact h6 u hu
        · intro b' hb' x hx
          rw [e1 b' hb']
          exact hle x hx
        · intro b' hb'
          rw [e1 b' hb']
          exact Nat.lt_of_lt_of_le (hr.laterlt b hlb) hn
        · exact fun x hx => Nat.lt_of_lt_of_le (hr.laterlt x (Or.inl (hl x hx))) hn
    cases hch : c.changed with
    | false =>
      rw [flush_same ubu s c hc hch]
      exact key _ _ (ok_second s s.ops hr hr.ok (fun _ h => h)) rfl rfl rfl rfl (Nat.le_refl _)
    | true =>
      rw [flush_changed ubu s c hc hch]
      have hf := ok_first ubu s h hr
      exact key _ _ (ok_second s _ hr hf.1 hf.2) rfl rfl rfl rfl (Nat.le_succ _)

theorem rinv_render (p : Nat × Nat) (s : State) (h : Inv s) (hr : RInv s) : RInv (render ubu p s) := by
  have hf := rinv_flush ubu s h hr
  unfold render
  generalize flush ubu s = t at *
  have hl : ∀ x, (t.binding = some x ∨ ∃ c, some (Cap.mk p.1 p.2 t.binding (decide (t.deps ≠ some (p.1, t.refSet)))) = some c ∧
      c.binding = some x) → Later t x := by
    rintro x (hx | ⟨c, hc, hx⟩)
    · exact Or.inl hx
    · simp at hc
      subst hc
      exact Or.inl hx
  refine ⟨hf.ok.mono (Nat.le_refl _) (fun y hy => Or.inl (hl y hy)), hf.cleanu, fun b hb x hx => hf.cleanx b hb x (hl x hx), hf.cleann,
    fun x hx => hf.laterlt x (hl x hx), ?_⟩
  intro c x y hc hx hy
  simp at hc
  subst hc
  simp at hx hy
  simp [hx] at hy
  omega

theorem rinv_load (id : Nat) (o : Loaded) (s : State) (hr : RInv s) : RInv (load id o s) := by
  unfold load
  have hb : RInv { s with loads := s.loads.filter (· ≠ id) } := ⟨hr.ok, hr.cleanu, hr.cleanx, hr.cleann, hr.laterlt, hr.capb⟩
  cases hg : s.gen with
  | none => rw [hg] at hb; exact hb
  | some g =>
    simp only
    split
    next hid =>
      cases o with
      | proper =>
        have hl : ∀ x, (some s.next = some x ∨ ∃ c, s.cap = some c ∧ c.binding = some x) → Later s x ∨ x = s.next := by
          rintro x (hx | hx)
          · exact Or.inr (Option.some.inj hx).symm
          · exact Or.inl (Or.inr hx)
        have hop : react (s.ops ++ [.bind s.next]) = react s.ops := by rw [react_snoc]; rfl
        refine ⟨?_, ?_, ?_, ?_, ?_, ?_⟩
        · simp only [hop]
          refine hr.ok.mono (Nat.le_succ _) (fun y hy => ?_)
          rcases hl y hy with hx | hx
          · exact Or.inl hx
          · exact Or.inr (by omega)
        · simp only [hop]
          exact hr.cleanu
        · intro b hb' x hx
          rcases hl x hx with hx | hx
          · exact hr.cleanx b hb' x hx
          · have := hr.cleann b hb'; omega
        · intro b hb'
          have := hr.cleann b hb'
          simp; omega
        · intro x hx
          rcases hl x hx with hx | hx
          · have := hr.laterlt x hx
            simp; omega
          · simp [hx]
        · intro c x y hc hx hy
          simp at hy
          have := hr.laterlt x (Or.inr ⟨c, hc, hx⟩)
          omega
      | improper =>
        have hl : ∀ x, ((none : Option Nat) = some x ∨ ∃ c, s.cap = some c ∧ c.binding = some x) → Later s x := by
          rintro x (hx | hx)
          · cases hx
          · exact Or.inr hx
        exact ⟨hr.ok.mono (Nat.le_refl _) (fun y hy => Or.inl (hl y hy)), hr.cleanu, fun b hb x hx => hr.cleanx b hb x (hl x hx),
          hr.cleann, fun x hx => hr.laterlt x (hl x hx), by simp⟩
      | failed => rw [hg] at hb; exact hb
    · rw [hg] at hb; exact hb

/-- After a flush, a settled component shows the newest model. -/
theorem shows_flush (s : State) (h : Inv s) (hr : RInv s) (hs : Shows ubu s) : Shows ubu (flush ubu s) := by
  cases hc : s.cap with
  | none => simpa [flush, hc] using hs
  | some c =>
    cases hch : c.changed with
    | true =>
      rw [flush_changed ubu s c hc hch]
      intro g b p _ _ hg hb
      simp at hg
      simp [← hg] at hb
    | false =>
      rw [flush_same ubu s c hc hch]
      intro g b p _ hd hg hb hp
      simp only at hd hg hp
      have hbo := h.bound g b hg hb
      have hcb : c.binding = some b := by rw [h.capb c hc hd]; exact hbo.1
      have hcp := h.cap c hc
      rw [hp] at hcp
      obtain ⟨r, hr1⟩ := h.props p hp
      obtain ⟨r', hr2⟩ := h.gsrc g hg (by simp [hc, hch])
      have hsrc : g.src = c.src := by
        rw [hr1] at hr2
        simp at hr2 hcp
        rw [← hr2.1, hcp]
      have hth : through c s = some b := by
        unfold through
        rw [hbo.2.1, hsrc]
        simp [hcb]
      have e2 : third c s = [.render b c.model] := by unfold third; simp [hth]
      have hlb : Later s b := Or.inr ⟨c, hc, hcb⟩
      obtain ⟨h1, h2, h3, h4, h5, h6⟩ := (ok_second s s.ops hr hr.ok (fun _ h => h)).render b c.model hlb (hr.laterlt b hlb)
      simp only [e2]
      rw [react_snoc, preact_snoc]
      simp at hcp
      refine ⟨?_, ?_, h4, h5, ?_⟩
      · simp [Op.preact, hcp]
      · rw [h3]; simp [hcp]
      · intro hu
        simp [clean, ← hsrc, hu, hth]

theorem shows_load (id : Nat) (o : Loaded) (s : State) (h : Inv s) (hi : id ∈ s.loads) (hs : Shows ubu s) :
    Shows ubu (load id o s) := by
  unfold load
  have hb : Shows ubu { s with loads := s.loads.filter (· ≠ id) } := hs
  cases hg : s.gen with
  | none => rw [hg] at hb; exact hb
  | some g =>
    simp only
    split
    next hid =>
      cases o with
      | proper => intro _ _ _ _ hd; simp at hd
      | improper =>
        intro g' b p _ hd hg' hbb
        simp at hg'
        subst hg'
        exact absurd (hid.1 ▸ hi) (h.bound g b hg hbb).2.2
      | failed => rw [hg] at hb; exact hb
    · rw [hg] at hb; exact hb

/-- Everything that holds as long as the component is there. -/
structure All (s : State) (given : Option (Nat × Nat)) : Prop where
  inv : Inv s
  ref : s.deps = none → s.refSet = false
  rinv : RInv s
  shows : Shows ubu s
  given : s.props = given

theorem load_keeps (id : Nat) (o : Loaded) (s : State) :
    (load id o s).deps = s.deps ∧ (load id o s).refSet = s.refSet ∧ (load id o s).props = s.props ∧ (load id o s).cap = s.cap ∧
    (load id o s).gone = s.gone := by
  unfold load
  cases s.gen with
  | none => simp
  | some g =>
    simp only
    split
    · cases o <;> simp
    · simp

theorem all_step (s : State) (given : Option (Nat × Nat)) (a : Act) (hgo : s.gone = false) (h : All ubu s given)
    (ha : a ≠ .remove) :
    (step ubu s a).gone = false ∧ All ubu (step ubu s a) (nowGiven given a) := by
  have hren : ∀ p, (render ubu p s).gone = false ∧ All ubu (render ubu p s) (some p) := fun p =>
    ⟨by simp [render, flush_keeps, hgo], inv_render ubu p s h.inv h.ref, by simp [render], rinv_render ubu p s h.inv h.rinv,
      by intro _ _ _ hc; simp [render] at hc, rfl⟩
  unfold step
  simp only [hgo, Bool.false_eq_true, if_false]
  cases a with
  | give p => exact hren p
  | rerender =>
    simp only
    split
    next p hp =>
      split
      · rw [← h.given, hp]; exact hren p
      · exact ⟨hgo, h⟩
    · exact ⟨hgo, h⟩
  | flush =>
    have hk := flush_keeps ubu s
    exact ⟨by simp [hk, hgo], inv_flush ubu s h.inv, by simpa [hk.2.1, hk.2.2.1] using h.ref, rinv_flush ubu s h.inv h.rinv,
      shows_flush ubu s h.inv h.rinv h.shows, by simp [hk, h.given, nowGiven]⟩
  | load id o =>
    simp only
    split
    next hi =>
      have hk := load_keeps id o s
      exact ⟨by simp [hk, hgo], inv_load id o s h.inv hi, by simpa [hk.1, hk.2.1] using h.ref, rinv_load id o s h.rinv,
        shows_load ubu id o s h.inv hi h.shows, by simp [hk, h.given, nowGiven]⟩
    · exact ⟨hgo, h⟩
  | remove => exact absurd rfl ha

theorem step_gone (s : State) (a : Act) (h : s.gone = true) : step ubu s a = s := by simp [step, h]

theorem foldl_gone (acts : List Act) (s : State) (h : s.gone = true) : acts.foldl (step ubu) s = s := by
  induction acts with
  | nil => rfl
  | cons a as ih => simp [step_gone ubu s a h, ih]

/-- Nothing has raised and, as long as the component is there, all of the above. -/
theorem all_run (acts : List Act) : (react (run ubu acts).ops).raised = false ∧
    ((run ubu acts).gone = false → All ubu (run ubu acts) (lastGiven acts)) := by
  have key : ∀ (acts : List Act) (s : State) (given : Option (Nat × Nat)), s.gone = false → All ubu s given →
      (react (acts.foldl (step ubu) s).ops).raised = false ∧ ((acts.foldl (step ubu) s).gone = false →
        All ubu (acts.foldl (step ubu) s) (acts.foldl nowGiven given)) := by
    intro acts
    induction acts with
    | nil => exact fun s g _ h => ⟨h.rinv.ok.nraised, fun _ => h⟩
    | cons a as ih =>
      intro s given hgo h
      by_cases ha : a = .remove
      · subst ha
        have e : step ubu s .remove = { cleanup2 (cleanup1 ubu s) with gone := true, cap := none, loads := [] } := by
          simp [step, hgo]
        have hg : (step ubu s .remove).gone = true := by rw [e]
        have e2 : (step ubu s .remove).ops = s.ops ++ first ubu s ++ second s := by
          rw [e, cleanup1_eq, cleanup2_eq]; rfl
        simp only [List.foldl_cons]
        rw [foldl_gone ubu as _ hg]
        refine ⟨?_, fun h => by simp [hg] at h⟩
        rw [e2]
        have hf := ok_first ubu s h.inv h.rinv
        exact (ok_second s _ h.rinv hf.1 hf.2).nraised
      · obtain ⟨h1, h2⟩ := all_step ubu s given a hgo h ha
        exact ih _ _ h1 h2
  refine key acts {} none rfl ⟨⟨by simp, by simp, by simp, by simp, by simp, by simp, by simp, by simp, by simp⟩, by simp, ?_,
    by intro _ _ _ _ _ h; simp at h, rfl⟩
  refine ⟨⟨rfl, by simp [react], by simp [react], by simp [react], by simp [react]⟩, by simp, by simp, by simp, ?_, by simp⟩
  rintro x (h | ⟨c, h, _⟩) <;> simp at h

/-! ## Properties -/

/-- C77, for every sequence of events after which nothing more is due and the module has been loaded: the node shows the model
given last, whichever binding is used.

Missing: this says nothing about the node before (`C77_twice_violated`) and after (`C77_left_violated`). -/
theorem C77_newest_partial (acts : List Act) (p : Nat × Nat) (hp : lastGiven acts = some p) (h : Settled (run ubu acts)) :
    preact (run ubu acts).ops = some p.2 ∧ (react (run ubu acts).ops).shown = some p.2 := by
  obtain ⟨h1, h2, h3, g, b, hg, hb⟩ := h
  have ha := (all_run ubu acts).2 h3
  have := ha.shows g b p h1 h2 hg hb (by rw [ha.given, hp])
  exact ⟨this.1, this.2.1⟩

/-- Once React has raised, it has raised. -/
theorem raised_foldl : ∀ (ops : List Op) (N : Node), N.raised = true → (ops.foldl Op.react N).raised = true
  | [], _, h => h
  | o :: ops, N, h => by
    refine raised_foldl ops _ ?_
    cases o with
    | bind b => exact h
    | render b m => simp only [Op.react]; split <;> simp [h]
    | unmount b =>
      simp only [Op.react]
      split
      · exact h
      · split <;> exact h

/-- C77: React never raises because an unmounted root is used, though bindings of one node share a root: no binding renders while its
root has been unmounted through another. -/
theorem C77_no_dead_root (acts : List Act) : (react (run ubu acts).ops).raised = false ∧
    ∀ before b m after, (run ubu acts).ops = before ++ .render b m :: after → b ∉ (react before).stale := by
  have h := (all_run ubu acts).1
  refine ⟨h, fun before b m after ho hb => ?_⟩
  rw [ho] at h
  have : (react (before ++ .render b m :: after)).raised = true := by
    simp only [react, List.foldl_append, List.foldl_cons]
    refine raised_foldl after _ ?_
    have hb' : b ∈ (before.foldl Op.react {}).stale := hb
    simp only [Op.react, if_pos hb']
  rw [this] at h
  cases h

/-- Runs of the first effect wait for a load or have a binding, if all loads are proper. -/
def Waits (s : State) : Prop :=
  (s.cap ≠ none → s.refSet = true) ∧ (∀ g, s.gen = some g → s.refSet = true ∧ (g.bnd = none → g.id ∈ s.loads))

theorem waits_flush (s : State) (h : Waits s) : Waits (flush ubu s) := by
  cases hc : s.cap with
  | none => simpa [flush, hc] using h
  | some c =>
    have hr := h.1 (by simp [hc])
    cases hch : c.changed with
    | false =>
      rw [flush_same ubu s c hc hch]
      exact ⟨by simp, h.2⟩
    | true =>
      rw [flush_changed ubu s c hc hch]
      refine ⟨by simp, fun g hg => ⟨hr, fun _ => ?_⟩⟩
      simp at hg
      simp [← hg]

theorem waits_step (s : State) (a : Act) (ha : ∀ id o, a = .load id o → o = .proper) (h : Waits s) :
    Waits (step ubu s a) := by
  have hren : ∀ p, Waits (render ubu p s) := by
    intro p
    have := waits_flush ubu s h
    exact ⟨by simp [render], fun g hg => ⟨by simp [render], (this.2 g hg).2⟩⟩
  unfold step
  split
  · exact h
  · cases a with
    | give p => exact hren p
    | rerender =>
      simp only
      split
      · split
        · exact hren _
        · exact h
      · exact h
    | flush => exact waits_flush ubu s h
    | load id o =>
      simp only
      split
      next hi =>
        have := ha id o rfl
        subst this
        have hk := load_keeps id .proper s
        refine ⟨by simpa [hk.2.2.2.1, hk.2.1] using h.1, fun g hg => ?_⟩
        unfold load at hg ⊢
        cases hgs : s.gen with
        | none => simp [hgs] at hg
        | some g' =>
          have h2 := h.2 g' hgs
          simp only [hgs] at hg ⊢
          split at hg
          next hid =>
            rw [if_pos hid]
            simp at hg
            subst hg
            exact ⟨h2.1, by simp⟩
          next hid =>
            simp at hg
            subst hg
            simp only [hid, if_false]
            refine ⟨h2.1, fun hb => ?_⟩
            have hne : g'.id ≠ id := fun e => hid ⟨e, h2.1⟩
            simp [h2.2 hb, hne]
      · exact h
    | remove =>
      simp only [cleanup1_eq, cleanup2_eq]
      exact ⟨by simp, by simp⟩

/-- C77: when no effects wait, no render was asked for and nothing is loading, and all modules loaded properly, then the
component is settled. -/
theorem C77_loaded (acts : List Act) (hp : lastGiven acts ≠ none) (hok : allProper acts) (h1 : (run ubu acts).cap = none)
    (h2 : (run ubu acts).dirty = false) (h3 : (run ubu acts).gone = false) (h4 : (run ubu acts).loads = []) :
    Settled (run ubu acts) := by
  have key : ∀ (acts : List Act) (s : State), allProper acts → Waits s → Waits (acts.foldl (step ubu) s) := by
    intro acts
    induction acts with
    | nil => exact fun _ _ h => h
    | cons a as ih =>
      intro s hok h
      exact ih _ (fun id o hm => hok id o (by simp [hm])) (waits_step ubu s a (fun id o e => hok id o (by simp [e])) h)
  have hw : Waits (run ubu acts) := key acts {} hok ⟨by simp, by simp⟩
  have ha := (all_run ubu acts).2 h3
  refine ⟨h1, h2, h3, ?_⟩
  rw [← ha.given] at hp
  obtain ⟨p, hp⟩ := Option.ne_none_iff_exists'.1 hp
  obtain ⟨r, hd⟩ := ha.inv.props p hp
  obtain ⟨g, hg⟩ := Option.ne_none_iff_exists'.1 (ha.inv.some (by simp [hd]) (by simp [h1]))
  cases hb : g.bnd with
  | none =>
    have := (hw.2 g hg).2 hb
    simp [h4] at this
  | some b => exact ⟨g, b, hg, hb⟩

/-- How much may still happen on the client's own account. -/
def left (s : State) : Nat :=
  (match s.deps with
   | some (_, true) => 0
   | _ => 20) +
  (match s.cap with
   | some c => if c.changed then 6 else 1
   | none => 0) + 3 * s.loads.length + (if s.dirty then 2 else 0)

theorem left_flush (s : State) : flush ubu s = s ∨ left (flush ubu s) < left s := by
  cases hc : s.cap with
  | none => exact Or.inl (by simp [flush, hc])
  | some c =>
    refine Or.inr ?_
    cases hch : c.changed with
    | false => rw [flush_same ubu s c hc hch]; simp [left, hc, hch]
    | true => rw [flush_changed ubu s c hc hch]; simp [left, hc, hch]; omega

theorem left_render (s : State) (h : Inv s) (p : Nat × Nat) (hp : s.props = some p) (hd : s.dirty = true) :
    left (render ubu p s) < left s := by
  have hf := left_flush ubu s
  have hk := flush_keeps ubu s
  have hcap := flush_cap ubu s
  have hle : left (flush ubu s) ≤ left s := by
    rcases hf with hf | hf
    · rw [hf]; exact Nat.le_refl _
    · exact Nat.le_of_lt hf
  have hlt : left (render ubu p s) < left (flush ubu s) := by
    unfold render
    obtain ⟨r, hdep⟩ := h.props p hp
    have hrs := (h.deps _ hdep).1
    generalize flush ubu s = t at *
    have e1 : t.deps = some (p.1, r) := by rw [hk.2.1, hdep]
    have e2 : t.refSet = true := by rw [hk.2.2.1, hrs]
    have e3 : t.dirty = true := by rw [hk.2.2.2.2.1, hd]
    cases r <;> simp [left, e1, e2, e3, hcap] <;> omega
  omega

theorem left_step (s : State) (given : Option (Nat × Nat)) (a : Act) (hgo : s.gone = false) (h : All ubu s given)
    (hi : internal a = true) (hn : step ubu s a ≠ s) : left (step ubu s a) < left s := by
  unfold step at hn ⊢
  simp only [hgo, Bool.false_eq_true, if_false] at hn ⊢
  cases a with
  | give p => simp [internal] at hi
  | remove => simp [internal] at hi
  | rerender =>
    simp only at hn ⊢
    split at hn
    next p hp =>
      split at hn
      next hd => simp only [hd, if_true]; exact left_render ubu s h.inv p hp hd
      · exact absurd rfl hn
    · exact absurd rfl hn
  | flush => exact (left_flush ubu s).resolve_left hn
  | load id o =>
    simp only at hn ⊢
    split at hn
    next hm =>
      simp only [hm, if_true]
      have hlen : (s.loads.filter (· ≠ id)).length < s.loads.length := by
        apply List.length_filter_lt_length_iff_exists.2
        exact ⟨id, hm, by simp⟩
      have e : (load id o s).loads = s.loads.filter (· ≠ id) := by
        unfold load
        cases s.gen with
        | none => rfl
        | some g => simp only; split <;> cases o <;> rfl
      have hk := load_keeps id o s
      unfold left
      rw [e, hk.1, hk.2.2.2.1]
      generalize (match s.deps with
        | some (_, true) => 0
        | _ => 20) = x
      generalize (match s.cap with
        | some c => if c.changed then 6 else 1
        | none => 0) = y
      split <;> split <;> omega
    · exact absurd rfl hn

/-- C77: left to itself, the component comes to rest: from every state that can be reached, at most 28 events, and three for
each module that is loading, change anything before the parent does something. -/
theorem C77_comes_to_rest (acts more : List Act) (h : Busy ubu (run ubu acts) more) :
    more.length ≤ 28 + 3 * (run ubu acts).loads.length := by
  have key : ∀ (more : List Act) (s : State) (given : Option (Nat × Nat)), s.gone = false → All ubu s given → Busy ubu s more →
      more.length ≤ left s := by
    intro more
    induction more with
    | nil => simp
    | cons a as ih =>
      intro s given hgo ha hb
      obtain ⟨h1, h2, h3⟩ := hb
      have hl := left_step ubu s given a hgo ha h1 h2
      obtain ⟨h4, h5⟩ := all_step ubu s given a hgo ha (by intro e; simp [e, internal] at h1)
      have := ih _ _ h4 h5 h3
      simp; omega
  have hl : left (run ubu acts) ≤ 28 + 3 * (run ubu acts).loads.length := by
    unfold left
    repeat' split
    all_goals omega
  cases hgo : (run ubu acts).gone with
  | false => exact Nat.le_trans (key more _ _ hgo ((all_run ubu acts).2 hgo) h) hl
  | true =>
    cases more with
    | nil => simp
    | cons a as => exact absurd (step_gone ubu _ a hgo) h.2.1

/-- C77, for a settled component: removing it leaves nothing shown.

Missing: components that are not settled (`C77_left_violated`). -/
theorem C77_removed_partial (acts : List Act) (hp : lastGiven acts ≠ none) (h : Settled (run ubu acts)) :
    preact (run ubu (acts ++ [.remove])).ops = none ∧ (react (run ubu (acts ++ [.remove])).ops).shown = none := by
  obtain ⟨h1, h2, h3, g, b, hg, hb⟩ := h
  have ha := (all_run ubu acts).2 h3
  obtain ⟨p, hp⟩ := Option.ne_none_iff_exists'.1 hp
  obtain ⟨s1, s2, s3, s4, s5⟩ := ha.shows g b p h1 h2 hg hb (by rw [ha.given, hp])
  have e : run ubu (acts ++ [.remove]) = step ubu (run ubu acts) .remove := by simp [run, List.foldl_append]
  have e2 : (run ubu (acts ++ [.remove])).ops = (run ubu acts).ops ++ first ubu (run ubu acts) ++ second (run ubu acts) := by
    rw [e]; simp only [step, h3, Bool.false_eq_true, if_false, cleanup1_eq, cleanup2_eq]; rfl
  rw [e2]
  generalize run ubu acts = s at *
  have none_react : ∀ (N : Node) (b : Nat), N.shown = none → (Op.react N (.unmount b)).shown = none := by
    intro N b hN
    unfold Op.react
    simp only
    split
    · exact hN
    · split
      · rfl
      · exact hN
  by_cases hu : ubu g.src = true
  · have e3 : first ubu s = [] := by simp [first, hg, hb, hu]
    have e4 : second s = [.unmount b] := by simp [second, s5 hu]
    rw [e3, e4, List.append_nil, react_snoc, preact_snoc]
    refine ⟨rfl, ?_⟩
    simp [Op.react, s4, s3]
  · have e3 : first ubu s = [.unmount b] := by simp [first, hg, hb, hu]
    have hr : (react (s.ops ++ [.unmount b])).shown = none := by
      rw [react_snoc]; simp [Op.react, s4, s3]
    have hq : preact (s.ops ++ [.unmount b]) = none := by rw [preact_snoc]; rfl
    rw [e3]
    unfold second
    split
    · rw [react_snoc, preact_snoc]
      exact ⟨rfl, none_react _ _ hr⟩
    · simpa using ⟨hq, hr⟩

/-- A component given twice, with its loads, and settled; then another model. -/
def twice : List Act :=
  [.give (1, 10), .flush, .load 0 .proper, .rerender, .flush, .load 2 .proper, .rerender, .flush]

example : lastGiven twice = some (1, 10) ∧ allProper twice ∧ Settled (run (fun _ => false) twice) ∧
    preact (run (fun _ => false) twice).ops = some 10 ∧
    preact (run (fun _ => false) (twice ++ [.give (1, 11), .flush])).ops = some 11 ∧
    preact (run (fun _ => true) (twice ++ [.give (1, 11), .flush])).ops = some 11 ∧
    (run (fun _ => true) (twice ++ [.give (1, 11), .flush])).ops =
      [.bind 1, .render 1 10, .bind 3, .unmount 1, .render 3 10, .unmount 3, .render 3 11] := by
  refine ⟨rfl, ?_, ⟨rfl, rfl, rfl, ⟨2, 1, some 3⟩, 3, rfl, rfl⟩, by decide, by decide, by decide, by decide⟩
  intro id o h
  simp [twice] at h
  rcases h with h | h <;> exact h.2

/-- C77 is violated while a component appears: as the element does not exist yet when the dependencies are first looked at, the
module is loaded and bound twice; the first binding is unmounted and then rendered, and never unmounted again. -/
theorem C77_twice_violated (p : Nat × Nat) :
    (run (fun _ => false) [.give p, .flush, .load 0 .proper, .rerender, .flush, .load 2 .proper, .rerender, .flush]).ops =
      [.bind 1, .unmount 1, .render 1 p.2, .bind 3, .render 3 p.2] := by
  simp [run, step, render, flush, load, effect1, effect2, cleanup1, cleanup2]

/-- C77 is violated for a component removed while its module is loaded for the second time: what it shows stays mounted, with
every binding. -/
theorem C77_left_violated (p : Nat × Nat) :
    let s := run (fun _ => false) [.give p, .flush, .load 0 .proper, .rerender, .flush, .remove]
    s.gone = true ∧ preact s.ops = some p.2 ∧ (react s.ops).shown = some p.2 := by
  simp [run, step, render, flush, load, effect1, effect2, cleanup1, cleanup2, preact, react, Op.preact, Op.react]

end Verif.Client.Imp
