import Verif.Sched.HeapSpec
import Verif.Sched.Deliver
/-! # Invariants of the model states (helper lemmas) -/
namespace Verif.Sched.Heap
open Verif.Sched (Tree upd upd_same upd_ne upd_apply le_refl le_trans le_par le_iff le_depth le_comparable)
variable {T : Tree}

abbrev pos (s : St) (σ : Nat) : Nat := (s.heap σ).pos
abbrev inst (s : St) (σ : Nat) : Nat := (s.heap σ).inst

/-- The children that the state made by the call does not have yet. -/
def pend (f : Frame) (x : Nat) : Prop := match f.phase with
  | .kids l => x ∈ l
  | _ => True

/-- The state that has the child at `x` of the component whose registered state is `ρ`. -/
def Holder (s : St) (ρ x : Nat) (h : Option Nat) : Prop :=
  (∃ t f, Fr s t f ∧ f.st = ρ ∧ pend f x ∧ h = f.old) ∨ ((∀ t f, Fr s t f → f.st = ρ → ¬ pend f x) ∧ h = some ρ)

/-- A call is in progress for the component at `x`. -/
def Busy (s : St) (x : Nat) : Prop := ∃ t f, Fr s t f ∧ pos s f.st = x

/-- The calls of a task. -/
def Chain (T : Tree) (s : St) (o : Nat) : List Frame → Prop
  | [] => True
  | [f] => pos s f.st = pos s o ∧ ∀ ρ, (s.heap f.st).parent = some ρ → ρ < s.nextS ∧ s.reg (inst s ρ) = some ρ
  | f :: g :: r => (s.heap f.st).parent = some g.st ∧ T.par (pos s f.st) = some (pos s g.st) ∧
      (∃ l, g.phase = .kids l ∧ pos s f.st ∉ l) ∧ Chain T s o (g :: r)

theorem Chain.le {s : St} {o : Nat} : ∀ {fs : List Frame}, Chain T s o fs → ∀ f ∈ fs, T.le (pos s o) (pos s f.st) = true
  | [], _, _, h => by simp at h
  | [f], h, g, hg => by simp at hg; subst hg; rw [h.1]; exact le_refl _
  | f :: g :: r, h, e, he => by
    rcases List.mem_cons.1 he with rfl | he
    · exact le_trans (Chain.le h.2.2.2 g (by simp)) (le_par h.2.1)
    · exact Chain.le h.2.2.2 e he

theorem Chain.outer {s : St} {o : Nat} : ∀ {f : Frame} {r : List Frame}, Chain T s o (f :: r) → ∀ g ∈ r, ∃ l, g.phase = .kids l
  | _, [], _, _, h => by simp at h
  | f, g :: r, h, e, he => by
    rcases List.mem_cons.1 he with rfl | he
    · exact ⟨_, h.2.2.1.choose_spec.1⟩
    · exact Chain.outer h.2.2.2 e he

theorem Chain.depth {s : St} {o : Nat} : ∀ {f : Frame} {r : List Frame}, Chain T s o (f :: r) → ∀ g ∈ r,
    T.depth (pos s g.st) < T.depth (pos s f.st)
  | _, [], _, _, h => by simp at h
  | f, g :: r, h, e, he => by
    have h1 := T.depth_par _ _ h.2.1
    rcases List.mem_cons.1 he with rfl | he
    · omega
    · have := Chain.depth h.2.2.2 e he
      omega

theorem Chain.tail {s : St} {o : Nat} {f g : Frame} {r : List Frame} (h : Chain T s o (f :: g :: r)) : Chain T s o (g :: r) := h.2.2.2

/-- The chain in another state: the states of the calls have the same place and parent, and those above the outermost call are still registered. -/
theorem Chain.mono {s s' : St} {o : Nat} : ∀ {fs : List Frame}, Chain T s o fs → pos s' o = pos s o → s.nextS ≤ s'.nextS →
    (∀ f ∈ fs, pos s' f.st = pos s f.st ∧ (s'.heap f.st).parent = (s.heap f.st).parent) →
    (∀ f ∈ fs, ∀ ρ, (s.heap f.st).parent = some ρ → T.le (pos s o) (pos s ρ) = false ∨ pos s f.st = pos s o → ρ < s.nextS → s.reg (inst s ρ) = some ρ → s'.reg (inst s' ρ) = some ρ) →
    Chain T s' o fs
  | [], _, _, _, _, _ => trivial
  | [f], h, ho, hn, hp, hr => by
    have hf := hp f (by simp)
    refine ⟨by rw [hf.1, ho]; exact h.1, fun ρ hρ => ?_⟩
    rw [hf.2] at hρ
    exact ⟨Nat.lt_of_lt_of_le (h.2 ρ hρ).1 hn, hr f (by simp) ρ hρ (.inr h.1) (h.2 ρ hρ).1 (h.2 ρ hρ).2⟩
  | f :: g :: r, h, ho, hn, hp, hr => by
    have hf := hp f (by simp)
    have hg := hp g (by simp)
    refine ⟨by rw [hf.2]; exact h.1, by rw [hf.1, hg.1]; exact h.2.1, by rw [hf.1]; exact h.2.2.1, ?_⟩
    exact Chain.mono h.2.2.2 ho hn (fun e he => hp e (by simp [he])) (fun e he => hr e (by simp [he]))

structure Inv (T : Tree) (s : St) : Prop where
  regOk : ∀ i σ, s.reg i = some σ → σ < s.nextS ∧ inst s σ = i ∧ s.freed σ = false
  instLt : ∀ σ, σ < s.nextS → inst s σ < s.nextI
  uniq : ∀ i j σ τ, s.reg i = some σ → s.reg j = some τ → pos s σ = pos s τ → i = j
  kidOk : ∀ σ, σ < s.nextS → ∀ e ∈ (s.heap σ).kids, pos s e.2 = e.1 ∧ σ < e.2 ∧ e.2 < s.nextS ∧ T.par e.1 = some (pos s σ)
  parOk : ∀ σ ρ, σ < s.nextS → (s.heap σ).parent = some ρ → T.par (pos s σ) = some (pos s ρ)
  up : ∀ i σ p, s.reg i = some σ → T.par (pos s σ) = some p → ∃ j ρ, s.reg j = some ρ ∧ pos s ρ = p
  stale : ∀ t, s.nextT ≤ t → (s.tasks t).stat = .created ∧ (s.tasks t).stack = []
  oldOk : ∀ t, t < s.nextT → (s.tasks t).old < s.nextS ∧ inst s (s.tasks t).old = (s.tasks t).owner
  byIdOk : ∀ i t, s.byId i = some t → t < s.nextT ∧ (s.tasks t).owner = i
  chain : ∀ t, Running s t → (s.tasks t).stack ≠ [] ∧ Chain T s (s.tasks t).old (s.tasks t).stack
  frReg : ∀ t f, Fr s t f → s.reg (inst s f.st) = some f.st
  frOld : ∀ t f, Fr s t f → ∀ o, f.old = some o → o < s.nextS ∧ pos s o = pos s f.st ∧ s.freed o = false
  frNew : ∀ t f, Fr s t f → (∀ l, f.phase ≠ .kids l) → (s.heap f.st).kids = []
  frKids : ∀ t f, Fr s t f → ∀ l, f.phase = .kids l → l.Nodup ∧ ∀ c ∈ l, T.par c = some (pos s f.st)
  apart : ∀ t u, Running s t → Running s u → t ≠ u → T.le (place s t) (place s u) = false
  live : ∀ t, (s.tasks t).stat = .running → (s.tasks t).picked = false
  edge : ∀ j ρ x h, s.reg j = some ρ → T.par x = some (pos s ρ) → ¬ Busy s x → Holder s ρ x h →
    (∀ i σ, s.reg i = some σ → pos s σ = x → ∃ o, h = some o ∧ (x, σ) ∈ (s.heap o).kids ∧ (s.heap σ).parent = some o) ∧
    (∀ o σ, h = some o → (x, σ) ∈ (s.heap o).kids → s.reg (inst s σ) = some σ)
  created : ∀ t, t < s.nextT → (s.tasks t).stat = .created → s.byId (s.tasks t).owner = some t ∧
    (s.flag (s.tasks t).owner = true ∨ s.rendered (s.tasks t).owner = false) ∧
    (s.tasks t).stack = [] ∧ (s.tasks t).picked = false ∧
    ∀ σ, s.reg (s.tasks t).owner = some σ → σ = (s.tasks t).old
  window : ∀ t f, Fr s t f → (∀ l, f.phase ≠ .kids l) → ∀ u, u < s.nextT → (s.tasks u).stat = .created → (s.tasks u).owner ≠ inst s f.st
  ok : ∀ t, (s.tasks t).stat ≠ .crashed
  clean : ∀ t x i, Ev.failed t x i ∉ s.log
  parLt : ∀ σ ρ, σ < s.nextS → (s.heap σ).parent = some ρ → ρ < σ
  freeLt : ∀ σ, s.freed σ = true → σ < s.nextS
  parNone : ∀ σ, σ < s.nextS → (s.heap σ).parent = none → T.par (pos s σ) = none
  instPos : ∀ σ τ, σ < s.nextS → τ < s.nextS → inst s σ = inst s τ → pos s σ = pos s τ

theorem inv_init (T : Tree) : Inv T init := by
  have nofr : ∀ t f, ¬ Fr init t f := by intro t f ⟨_, h, _⟩; simp [init] at h
  have norun : ∀ t, ¬ Running init t := by intro t ⟨_, h⟩; simp [init] at h
  have hreg : ∀ i σ, init.reg i = some σ → i = 0 ∧ σ = 0 := by
    intro i σ h
    simp only [init, upd_apply] at h
    split at h
    · cases h; exact ⟨‹_›, rfl⟩
    · cases h
  refine ⟨?_, ?_, ?_, ?_, ?_, ?_, ?_, ?_, ?_, ?_, ?_, ?_, ?_, ?_, ?_, ?_, ?_, ?_, ?_, ?_, ?_, ?_, ?_, ?_, ?_⟩
  · intro i σ h; obtain ⟨rfl, rfl⟩ := hreg i σ h; simp [init]
  · intro σ h; simp [init]
  · intro i j σ τ h1 h2 _; rw [(hreg i σ h1).1, (hreg j τ h2).1]
  · intro σ _ e he; simp [init] at he
  · intro σ ρ _ h; simp [init] at h
  · intro i σ p h1 h2
    simp [init, T.par_root] at h2
  · intro t _; simp [init]
  · intro t _; simp [init]
  · intro i t h
    simp only [init, upd_apply] at h
    split at h
    · cases h; subst i; simp [init]
    · cases h
  · intro t h; exact absurd h (norun t)
  · intro t f h; exact absurd h (nofr t f)
  · intro t f h; exact absurd h (nofr t f)
  · intro t f h; exact absurd h (nofr t f)
  · intro t f h; exact absurd h (nofr t f)
  · intro t u h; exact absurd h (norun t)
  · intro t h; simp [init]
  · intro j ρ x h h1 h2 _ h3
    obtain ⟨rfl, rfl⟩ := hreg j ρ h1
    rcases h3 with ⟨t, f, hf, _⟩ | ⟨_, rfl⟩
    · exact absurd hf (nofr t f)
    · refine ⟨?_, by intro o σ ho hk; simp [init] at hk⟩
      intro i σ hi hx
      have := (hreg i σ hi).2
      subst this
      simp only [init, pos] at hx h2
      rw [← hx, T.par_root] at h2
      cases h2
  · intro t ht _
    have : t = 0 := by simp [init] at ht; omega
    subst this
    exact ⟨rfl, .inr rfl, rfl, rfl, fun σ hσ => (hreg _ _ hσ).2⟩
  · intro t f h; exact absurd h (nofr t f)
  · intro t; simp [init]
  · intro t x i; simp [init]
  · intro σ ρ _ h; simp [init] at h
  · intro σ h; simp [init] at h
  · intro σ _ _; simp [init, T.par_root]
  · intro σ τ _ _ _; simp [init]

/-! ### Calls in progress -/

theorem Fr.running {s : St} {t : Nat} {f : Frame} (h : Fr s t f) : Running s t := ⟨h.1, h.2.1⟩

theorem place_le {s : St} (h : Inv T s) {t : Nat} {f : Frame} (hf : Fr s t f) : T.le (place s t) (pos s f.st) = true :=
  (h.chain t hf.running).2.le f hf.2.2

/-- Calls for places one above the other belong to one task. -/
theorem fr_same {s : St} (h : Inv T s) {t u : Nat} {f g : Frame} (hf : Fr s t f) (hg : Fr s u g)
    (hle : T.le (pos s f.st) (pos s g.st) = true) : t = u := by
  refine Classical.byContradiction fun hne => ?_
  rcases le_comparable (le_trans (place_le h hf) hle) (place_le h hg) with hc | hc
  · rw [h.apart t u hf.running hg.running hne] at hc; cases hc
  · rw [h.apart u t hg.running hf.running (Ne.symm hne)] at hc; cases hc

/-- No call is in progress below the innermost call of a task. -/
theorem top_free {s : St} (h : Inv T s) {t x : Nat} {f : Frame} {fs : List Frame} (hr : Running s t) (hs : (s.tasks t).stack = f :: fs)
    (hle : T.le (pos s f.st) x = true) (hne : x ≠ pos s f.st) : ¬ Busy s x := by
  rintro ⟨u, g, hg, rfl⟩
  have hf : Fr s t f := ⟨hr.1, hr.2, by simp [hs]⟩
  have := fr_same h hf hg hle
  subst this
  have hd := le_depth hle
  have hg' := hg.2.2
  rw [hs] at hg'
  rcases List.mem_cons.1 hg' with rfl | hg'
  · exact hne rfl
  · have hch := (h.chain t hr).2
    rw [hs] at hch
    have := hch.depth g hg'
    omega

/-- A call is in progress for the innermost state only in its own task. -/
theorem top_only {s : St} (h : Inv T s) {t u : Nat} {f g : Frame} {fs : List Frame} (hr : Running s t) (hs : (s.tasks t).stack = f :: fs)
    (hg : Fr s u g) (hpos : pos s g.st = pos s f.st) : u = t ∧ g = f := by
  have hf : Fr s t f := ⟨hr.1, hr.2, by simp [hs]⟩
  have := fr_same h hf hg (by rw [hpos]; exact le_refl _)
  subst this
  refine ⟨rfl, ?_⟩
  have hg' := hg.2.2
  rw [hs] at hg'
  rcases List.mem_cons.1 hg' with rfl | hg'
  · rfl
  · have hch := (h.chain t hr).2
    rw [hs] at hch
    have := hch.depth g hg'
    rw [hpos] at this
    omega

/-- Where no task runs above or below, no call is in progress. -/
theorem calm_free {s : St} (h : Inv T s) {p x : Nat} (hc : ∀ u, Running s u → T.le (place s u) p = false ∧ T.le p (place s u) = false)
    (hx : T.le x p = true ∨ T.le p x = true) : ¬ Busy s x := by
  rintro ⟨u, g, hg, rfl⟩
  have h1 := place_le h hg
  have h2 := hc u hg.running
  rcases hx with hx | hx
  · rw [le_trans h1 hx] at h2; exact absurd h2.1 (by simp)
  · rcases le_comparable h1 hx with hh | hh
    · rw [hh] at h2; exact absurd h2.1 (by simp)
    · rw [hh] at h2; exact absurd h2.2 (by simp)

theorem holder_self {s : St} {ρ x : Nat} (h : ¬ Busy s (pos s ρ)) : Holder s ρ x (some ρ) :=
  .inr ⟨fun t f hf he _ => h ⟨t, f, hf, by rw [he]⟩, rfl⟩

/-- The registered child of a component for which no call is in progress, at a place where none is in progress. -/
theorem child_of {s : St} (h : Inv T s) {i j σ ρ : Nat} (hi : s.reg i = some σ) (hj : s.reg j = some ρ) (hp : T.par (pos s σ) = some (pos s ρ))
    (hb : ¬ Busy s (pos s σ)) (hb' : ¬ Busy s (pos s ρ)) : (pos s σ, σ) ∈ (s.heap ρ).kids ∧ (s.heap σ).parent = some ρ := by
  obtain ⟨o, ho, h1, h2⟩ := (h.edge j ρ _ _ hj hp hb (holder_self hb')).1 i σ hi rfl
  cases ho
  exact ⟨h1, h2⟩

/-! ### Steps that change neither states nor calls -/

theorem Inv.congr {s s' : St} (h : Inv T s) (h1 : s'.heap = s.heap) (h2 : s'.nextS = s.nextS) (h3 : s'.nextI = s.nextI) (h4 : s'.reg = s.reg)
    (hfree : ∀ σ, s'.freed σ = true → s.freed σ = true ∨ (∀ i, s.reg i ≠ some σ) ∧ (∀ t f, Fr s t f → f.old ≠ some σ) ∧ σ < s.nextS)
    (hrun : ∀ t, s'.nextT ≤ t ∨ (s'.tasks t).stat ≠ .running → s.nextT ≤ t ∨ (s.tasks t).stat ≠ .running)
    (hsame : ∀ t, Running s' t → Running s t ∧ (s'.tasks t).stack = (s.tasks t).stack ∧ (s'.tasks t).old = (s.tasks t).old)
    (stale : ∀ t, s'.nextT ≤ t → (s'.tasks t).stat = .created ∧ (s'.tasks t).stack = [])
    (oldOk : ∀ t, t < s'.nextT → (s'.tasks t).old < s'.nextS ∧ inst s' (s'.tasks t).old = (s'.tasks t).owner)
    (byIdOk : ∀ i t, s'.byId i = some t → t < s'.nextT ∧ (s'.tasks t).owner = i)
    (live : ∀ t, (s'.tasks t).stat = .running → (s'.tasks t).picked = false)
    (created : ∀ t, t < s'.nextT → (s'.tasks t).stat = .created → s'.byId (s'.tasks t).owner = some t ∧
      (s'.flag (s'.tasks t).owner = true ∨ s'.rendered (s'.tasks t).owner = false) ∧
      (s'.tasks t).stack = [] ∧ (s'.tasks t).picked = false ∧ ∀ σ, s'.reg (s'.tasks t).owner = some σ → σ = (s'.tasks t).old)
    (window : ∀ t f, Fr s t f → (∀ l, f.phase ≠ .kids l) → ∀ u, u < s'.nextT → (s'.tasks u).stat = .created → (s'.tasks u).owner ≠ inst s' f.st)
    (ok : ∀ t, (s'.tasks t).stat ≠ .crashed) (clean : s'.log = s.log) : Inv T s' := by
  have hR : ∀ t, Running s' t ↔ Running s t := by
    intro t
    refine ⟨fun hr => (hsame t hr).1, fun hr => Classical.byContradiction fun hn => ?_⟩
    have := hrun t (by
      rcases Nat.lt_or_ge t s'.nextT with hlt | hge
      · exact .inr fun hst => hn ⟨hlt, hst⟩
      · exact .inl hge)
    rcases this with h0 | h0
    · exact absurd hr.1 (by omega)
    · exact h0 hr.2
  have hF : ∀ t f, Fr s' t f ↔ Fr s t f := by
    intro t f
    constructor
    · rintro ⟨a, b, c⟩
      obtain ⟨r, e, _⟩ := hsame t ⟨a, b⟩
      exact ⟨r.1, r.2, by rw [← e]; exact c⟩
    · rintro ⟨a, b, c⟩
      have r := (hR t).2 ⟨a, b⟩
      obtain ⟨_, e, _⟩ := hsame t r
      exact ⟨r.1, r.2, by rw [e]; exact c⟩
  have hB : ∀ x, Busy s' x ↔ Busy s x := by
    intro x
    unfold Busy pos
    simp only [hF, h1]
  have hH : ∀ ρ x hh, Holder s' ρ x hh ↔ Holder s ρ x hh := by
    intro ρ x hh
    unfold Holder
    simp only [hF]
  have hpl : ∀ t, Running s t → place s' t = place s t := by
    intro t hr
    obtain ⟨_, _, e⟩ := hsame t ((hR t).2 hr)
    unfold place
    rw [e, h1]
  refine ⟨?_, ?_, ?_, ?_, ?_, ?_, stale, oldOk, byIdOk, ?_, ?_, ?_, ?_, ?_, ?_, live, ?_, created, ?_, ok, ?_, ?_, ?_, ?_, ?_⟩
  · intro i σ hi
    rw [h4] at hi
    obtain ⟨a, b, c⟩ := h.regOk i σ hi
    refine ⟨by rw [h2]; exact a, by unfold inst; rw [h1]; exact b, ?_⟩
    cases hf : s'.freed σ with
    | false => rfl
    | true =>
      rcases hfree σ hf with hh | hh
      · rw [c] at hh; cases hh
      · exact absurd hi (hh.1 i)
  · unfold inst; rw [h1, h2, h3]; exact h.instLt
  · unfold pos; rw [h1, h4]; exact h.uniq
  · unfold pos; rw [h1, h2]; exact h.kidOk
  · unfold pos; rw [h1, h2]; exact h.parOk
  · unfold pos; rw [h1, h4]; exact h.up
  · intro t hr
    obtain ⟨r, e1, e2⟩ := hsame t hr
    obtain ⟨a, b⟩ := h.chain t r
    rw [e1, e2]
    refine ⟨a, b.mono (by unfold pos; rw [h1]) (by omega) (fun f _ => by unfold pos; rw [h1]; exact ⟨rfl, rfl⟩) ?_⟩
    intro f _ ρ _ _ _ hρ
    unfold inst
    rw [h4, h1]; exact hρ
  · intro t f hf
    unfold inst
    rw [h1, h4]; exact h.frReg t f ((hF t f).1 hf)
  · intro t f hf o ho
    unfold pos
    rw [h1, h2]
    obtain ⟨a, b, c⟩ := h.frOld t f ((hF t f).1 hf) o ho
    refine ⟨a, b, ?_⟩
    cases hf' : s'.freed o with
    | false => rfl
    | true =>
      rcases hfree o hf' with hh | hh
      · rw [c] at hh; cases hh
      · exact absurd ho (hh.2.1 t f ((hF t f).1 hf))
  · intro t f hf; rw [h1]; exact h.frNew t f ((hF t f).1 hf)
  · intro t f hf; unfold pos; rw [h1]; exact h.frKids t f ((hF t f).1 hf)
  · intro t u ht hu hne
    have ht := (hR t).1 ht
    have hu := (hR u).1 hu
    rw [hpl t ht, hpl u hu]
    exact h.apart t u ht hu hne
  · intro j ρ x hh hj hp hb hhold
    unfold pos at *
    rw [h1] at hp ⊢
    rw [h4] at hj ⊢
    unfold inst
    rw [h1]
    exact h.edge j ρ x hh hj hp (fun hb' => hb ((hB x).2 hb')) ((hH ρ x hh).1 hhold)
  · intro t f hf; exact window t f ((hF t f).1 hf)
  · rw [clean]; exact h.clean
  · rw [h1, h2]; exact h.parLt
  · intro σ hσ
    rw [h2]
    rcases hfree σ hσ with hh | hh
    · exact h.freeLt σ hh
    · exact hh.2.2
  · unfold pos; rw [h1, h2]; exact h.parNone
  · unfold pos inst; rw [h1, h2]; exact h.instPos

theorem inv_set {s : St} {i : Nat} (h : Inv T s) (hc : Calm T s (.set i)) : Inv T (step T s (.set i)) := by
  simp only [step]
  split
  · rename_i hren
    unfold schedule
    split
    · exact h
    · rename_i hfl
      simp only
      split
      · refine h.congr rfl rfl rfl rfl (fun σ hσ => .inl hσ) (fun t ht => ht) (fun t ht => ⟨ht, rfl, rfl⟩) h.stale h.oldOk h.byIdOk h.live ?_ ?_ h.ok rfl
        · intro t ht hst
          obtain ⟨a, b, c, d, e⟩ := h.created t ht hst
          refine ⟨a, b.imp_left fun hb => ?_, c, d, e⟩
          simp only [upd_apply]; split <;> simp [hb]
        · intro t f hf hp u hu hst
          exact h.window t f hf hp u hu hst
      · rename_i σ hσ
        have hnone : ∀ t, t < s.nextT → (s.tasks t).stat = .created → (s.tasks t).owner ≠ i := by
          rintro t ht hst rfl
          rcases (h.created t ht hst).2.1 with hb | hb
          · exact hfl hb
          · rw [hren] at hb; cases hb
        refine h.congr rfl rfl rfl rfl (fun σ hσ => .inl hσ) ?_ ?_ ?_ ?_ ?_ ?_ ?_ ?_ ?_ rfl
        · intro t ht
          simp only [upd_apply] at ht
          rcases ht with ht | ht
          · exact .inl (by omega)
          · split at ht
            · exact .inl (by omega)
            · exact .inr ht
        · rintro t ⟨ht, hst⟩
          simp only [upd_apply] at ht hst ⊢
          split at hst
          · cases hst
          · rename_i hne
            rw [if_neg hne]
            exact ⟨⟨by omega, hst⟩, rfl, rfl⟩
        · intro t ht
          simp only [upd_apply] at ht ⊢
          rw [if_neg (by omega)]
          exact h.stale t (by omega)
        · intro t ht
          simp only [upd_apply] at ht ⊢
          split
          · exact ⟨(h.regOk i σ hσ).1, (h.regOk i σ hσ).2.1⟩
          · exact h.oldOk t (by omega)
        · intro j t hj
          simp only [upd_apply] at hj ⊢
          split at hj
          · cases hj; subst j; simp
          · have := h.byIdOk j t hj
            rw [if_neg (by omega)]; exact ⟨by omega, this.2⟩
        · intro t hst
          simp only [upd_apply] at hst ⊢
          split at hst
          · cases hst
          · rename_i hne; rw [if_neg hne]; exact h.live t hst
        · intro t ht hst
          simp only [upd_apply] at ht hst ⊢
          by_cases hn : t = s.nextT
          · subst hn
            simp only [if_true]
            exact ⟨trivial, .inl trivial, trivial, trivial, fun τ hτ => by rw [hσ] at hτ; cases hτ; rfl⟩
          · simp only [if_neg hn] at hst ⊢
            have hlt : t < s.nextT := by omega
            have ho := hnone t hlt hst
            simp only [if_neg ho]
            exact h.created t hlt hst
        · intro t f hf hp u hu hst
          simp only [upd_apply] at hu hst ⊢
          by_cases hn : u = s.nextT
          · rw [if_pos hn]
            intro he
            obtain ⟨l, hl⟩ := hc t f hf he.symm
            exact hp l hl
          · rw [if_neg hn] at hst ⊢
            exact h.window t f hf hp u (by omega) hst
        · intro t
          simp only [upd_apply]
          split
          · simp
          · exact h.ok t
  · exact h

theorem inv_die {s : St} {t : Nat} (h : Inv T s) : Inv T (step T s (.die t)) := by
  simp only [step]
  split
  · rename_i hd
    have key : ∀ u, (upd s.tasks t { s.tasks t with stat := .dead } u).old = (s.tasks u).old ∧
        (upd s.tasks t { s.tasks t with stat := .dead } u).owner = (s.tasks u).owner ∧
        (upd s.tasks t { s.tasks t with stat := .dead } u).stack = (s.tasks u).stack ∧
        (upd s.tasks t { s.tasks t with stat := .dead } u).picked = (s.tasks u).picked := by
      intro u; simp only [upd_apply]; split
      · subst u; simp
      · simp
    have kst : ∀ u, (upd s.tasks t { s.tasks t with stat := .dead } u).stat = (s.tasks u).stat ∨ u = t ∧ (upd s.tasks t { s.tasks t with stat := .dead } u).stat = .dead := by
      intro u; simp only [upd_apply]; split
      · subst u; simp
      · simp
    have kst' : ∀ u, (s.tasks u).stat = .running → (upd s.tasks t { s.tasks t with stat := .dead } u).stat = .running := by
      intro u hu; simp only [upd_apply]; split
      · subst u; rw [hd.2] at hu; cases hu
      · exact hu
    refine h.congr rfl rfl rfl rfl (fun σ hσ => .inl hσ) ?_ ?_ ?_ ?_ ?_ ?_ ?_ ?_ ?_ rfl
    · intro u hu
      refine hu.imp_right fun hu hr => hu (kst' u hr)
    · rintro u ⟨h1, h2⟩
      simp only [St.put] at h2
      refine ⟨⟨h1, ?_⟩, (key u).2.2.1, (key u).1⟩
      rcases kst u with hk | ⟨_, hk⟩
      · rw [← hk]; exact h2
      · rw [hk] at h2; cases h2
    · intro u hu
      have : u ≠ t := by simp only [St.put] at hu; omega
      simp only [St.put, upd_ne _ _ this]
      exact h.stale u hu
    · intro u hu
      simp only [St.put] at hu ⊢
      rw [(key u).1, (key u).2.1]; exact h.oldOk u hu
    · intro i u hu
      simp only [St.put] at hu ⊢
      rw [(key u).2.1]; exact h.byIdOk i u hu
    · intro u hu
      simp only [St.put] at hu ⊢
      rw [(key u).2.2.2]
      rcases kst u with hk | ⟨_, hk⟩
      · rw [hk] at hu; exact h.live u hu
      · rw [hk] at hu; cases hu
    · intro u hu hst
      simp only [St.put] at hu hst ⊢
      rw [(key u).1, (key u).2.1, (key u).2.2.1, (key u).2.2.2]
      rcases kst u with hk | ⟨_, hk⟩
      · rw [hk] at hst; exact h.created u hu hst
      · rw [hk] at hst; cases hst
    · intro v f hf hp u hu hst
      simp only [St.put] at hu hst ⊢
      rw [(key u).2.1]
      rcases kst u with hk | ⟨_, hk⟩
      · rw [hk] at hst; exact h.window v f hf hp u hu hst
      · rw [hk] at hst; cases hst
    · intro u
      simp only [St.put]
      rcases kst u with hk | ⟨_, hk⟩
      · rw [hk]; exact h.ok u
      · rw [hk]; simp
  · exact h

theorem picked_inv {s : St} {t : Nat} (h : Inv T s) (hst : (s.tasks t).stat ≠ .created ∧ (s.tasks t).stat ≠ .running) :
    Inv T (s.put t { s.tasks t with picked := true }) := by
  have key : ∀ u, (upd s.tasks t { s.tasks t with picked := true } u).old = (s.tasks u).old ∧
      (upd s.tasks t { s.tasks t with picked := true } u).owner = (s.tasks u).owner ∧
      (upd s.tasks t { s.tasks t with picked := true } u).stack = (s.tasks u).stack ∧
      (upd s.tasks t { s.tasks t with picked := true } u).stat = (s.tasks u).stat ∧
      (u ≠ t → (upd s.tasks t { s.tasks t with picked := true } u).picked = (s.tasks u).picked) := by
    intro u; simp only [upd_apply]; split
    · subst u; simp
    · simp
  refine h.congr rfl rfl rfl rfl (fun σ hσ => .inl hσ) ?_ ?_ ?_ ?_ ?_ ?_ ?_ ?_ ?_ rfl
  · intro u hu
    simpa only [St.put, (key u).2.2.2.1] using hu
  · rintro u ⟨h1, h2⟩
    simp only [St.put, (key u).2.2.2.1] at h1 h2
    exact ⟨⟨h1, h2⟩, (key u).2.2.1, (key u).1⟩
  · intro u hu
    simp only [St.put, (key u).2.2.2.1, (key u).2.2.1]
    exact h.stale u hu
  · intro u hu
    simp only [St.put, (key u).1, (key u).2.1] at hu ⊢
    exact h.oldOk u hu
  · intro i u hu
    simp only [St.put, (key u).2.1] at hu ⊢
    exact h.byIdOk i u hu
  · intro u hu
    simp only [St.put, (key u).2.2.2.1] at hu ⊢
    have : u ≠ t := by rintro rfl; exact hst.2 hu
    rw [(key u).2.2.2.2 this]; exact h.live u hu
  · intro u hu hs
    simp only [St.put, (key u).1, (key u).2.1, (key u).2.2.1, (key u).2.2.2.1] at hu hs ⊢
    have : u ≠ t := by rintro rfl; exact hst.1 hs
    rw [(key u).2.2.2.2 this]
    exact h.created u hu hs
  · intro v f hf hp u hu hs
    simp only [St.put, (key u).2.1, (key u).2.2.2.1] at hu hs ⊢
    exact h.window v f hf hp u hu hs
  · intro u
    simp only [St.put, (key u).2.2.2.1]
    exact h.ok u

theorem inv_pick {s : St} {t : Nat} (h : Inv T s) : Inv T (step T s (.pick t)) := by
  simp only [step]
  split
  · rename_i he; exact picked_inv h (by rw [he]; simp)
  · rename_i he; exact picked_inv h (by rw [he]; simp)
  · rename_i he; exact picked_inv h (by rw [he]; simp)
  · exact h

theorem inv_free {s : St} {σ : Nat} (h : Inv T s) : Inv T (step T s (.free σ)) := by
  simp only [step]
  split
  · rename_i hg
    refine h.congr rfl rfl rfl rfl ?_ (fun t ht => ht) (fun t ht => ⟨ht, rfl, rfl⟩) h.stale h.oldOk h.byIdOk h.live h.created h.window h.ok rfl
    intro τ hτ
    simp only [upd_apply] at hτ
    split at hτ
    · rename_i he
      subst he
      right
      have hlt := hg.1
      have hg := hg.2
      simp only [garbage, Bool.and_eq_true, List.all_eq_true, List.mem_range] at hg
      refine ⟨?_, ?_, hlt⟩
      · intro i hi
        obtain ⟨a, b, _⟩ := h.regOk i τ hi
        have hlt := h.instLt τ a
        rw [b] at hlt
        have := hg.1.1 i hlt
        rw [hi] at this
        simp at this
      · intro t f hf ho
        have := hg.1.2 t hf.1
        have hrefs : τ ∈ refs s (s.tasks t) := by
          unfold refs
          rw [if_neg (by rw [h.live t hf.2.1, hf.2.1]; simp)]
          refine List.mem_append.2 (.inr (List.mem_flatMap.2 ⟨f, hf.2.2, ?_⟩))
          rw [ho]; simp
        simp [hrefs] at this
    · exact .inl hτ
  · exact h

/-! ### Steps that change the innermost call -/

theorem fr_put {s s' : St} {t : Nat} {k : Task} (htasks : s'.tasks = upd s.tasks t k) (hn : s'.nextT = s.nextT) (hlt : t < s.nextT)
    (hr : k.stat = .running) (u : Nat) (g : Frame) : Fr s' u g ↔ (u = t ∧ g ∈ k.stack) ∨ (u ≠ t ∧ Fr s u g) := by
  unfold Fr
  rw [htasks, hn]
  by_cases hu : u = t
  · subst hu; simp [hr, hlt]
  · simp [upd_ne _ _ hu, hu]

theorem running_lt {s : St} (h : Inv T s) {t : Nat} (hr : (s.tasks t).stat = .running) : t < s.nextT := by
  rcases Nat.lt_or_ge t s.nextT with hlt | hge
  · exact hlt
  · rw [(h.stale t hge).1] at hr; cases hr

theorem retop {s s' : St} {t o d : Nat} {f f' : Frame} {fs : List Frame} {b : Bool} (h : Inv T s)
    (he : s.tasks t = ⟨o, d, .running, f :: fs, b⟩) (htasks : s'.tasks = upd s.tasks t ⟨o, d, .running, f' :: fs, b⟩)
    (hst : f'.st = f.st) (hold : f'.old = f.old)
    (h1 : s'.heap = s.heap) (h2 : s'.nextS = s.nextS) (h3 : s'.nextI = s.nextI) (hfr : s'.freed = s.freed) (hn : s'.nextT = s.nextT)
    (hby : s'.byId = s.byId)
    (hsub : ∀ i σ, s'.reg i = some σ → s.reg i = some σ)
    (hframe : ∀ u g, Fr s u g → s'.reg (inst s g.st) = some g.st)
    (hlink : ∀ u g ρ, Fr s u g → (s.heap g.st).parent = some ρ → s.reg (inst s ρ) = some ρ → s'.reg (inst s ρ) = some ρ)
    (hup : ∀ i σ p, s'.reg i = some σ → T.par (pos s σ) = some p → ∃ j ρ, s'.reg j = some ρ ∧ pos s ρ = p)
    (hkids : ∀ l, f'.phase = .kids l → l.Nodup ∧ ∀ c ∈ l, T.par c = some (pos s f.st))
    (hph : (∀ l, f'.phase ≠ .kids l) → ∀ l, f.phase ≠ .kids l)
    (hedge : ∀ j ρ x hh, s'.reg j = some ρ → T.par x = some (pos s ρ) → ¬ Busy s x → Holder s' ρ x hh →
      (∀ i σ, s'.reg i = some σ → pos s σ = x → ∃ o, hh = some o ∧ (x, σ) ∈ (s.heap o).kids ∧ (s.heap σ).parent = some o) ∧
      (∀ o σ, hh = some o → (x, σ) ∈ (s.heap o).kids → s'.reg (inst s σ) = some σ))
    (hflag : ∀ u, u < s.nextT → (s.tasks u).stat = .created → s'.flag (s.tasks u).owner = s.flag (s.tasks u).owner ∧
      s'.rendered (s.tasks u).owner = s.rendered (s.tasks u).owner)
    (hlog : ∀ t x i, Ev.failed t x i ∉ s'.log) : Inv T s' := by
  have hlt : t < s.nextT := running_lt h (by rw [he])
  have hfr' := fr_put htasks hn hlt rfl
  have hft : Fr s t f := ⟨hlt, by rw [he], by rw [he]; simp⟩
  have hfst : ∀ g ∈ fs, Fr s t g := fun g hg => ⟨hlt, by rw [he], by rw [he]; simp [hg]⟩
  have htold : ∀ u, (s'.tasks u).old = (s.tasks u).old ∧ (s'.tasks u).owner = (s.tasks u).owner ∧ (s'.tasks u).stat = (s.tasks u).stat ∧
      (s'.tasks u).picked = (s.tasks u).picked ∧ (u ≠ t → (s'.tasks u).stack = (s.tasks u).stack) := by
    intro u
    rw [htasks]
    by_cases hu : u = t
    · subst hu; rw [he]; simp
    · simp [upd_ne _ _ hu]
  have hR : ∀ u, Running s' u ↔ Running s u := by intro u; unfold Running; rw [hn, (htold u).2.2.1]
  -- a call of the new state comes from one of the old
  have hback : ∀ u g', Fr s' u g' → ∃ g, Fr s u g ∧ g.st = g'.st ∧ g.old = g'.old ∧ (g' = f' ∧ g = f ∨ g' = g) := by
    intro u g' hg'
    rcases (hfr' u g').1 hg' with ⟨rfl, hm⟩ | ⟨_, hm⟩
    · rcases List.mem_cons.1 hm with rfl | hm
      · exact ⟨f, hft, hst.symm, hold.symm, .inl ⟨rfl, rfl⟩⟩
      · exact ⟨g', hfst g' hm, rfl, rfl, .inr rfl⟩
    · exact ⟨g', hm, rfl, rfl, .inr rfl⟩
  have hforth : ∀ u g, Fr s u g → ∃ g', Fr s' u g' ∧ g'.st = g.st := by
    intro u g hg
    by_cases hu : u = t
    · subst hu
      have := hg.2.2
      rw [he] at this
      rcases List.mem_cons.1 this with rfl | hm
      · exact ⟨f', (hfr' u f').2 (.inl ⟨rfl, by simp⟩), hst⟩
      · exact ⟨g, (hfr' u g).2 (.inl ⟨rfl, by simp [hm]⟩), rfl⟩
    · exact ⟨g, (hfr' u g).2 (.inr ⟨hu, hg⟩), rfl⟩
  have hB : ∀ x, Busy s x → Busy s' x := by
    rintro x ⟨u, g, hg, rfl⟩
    obtain ⟨g', hg', e⟩ := hforth u g hg
    exact ⟨u, g', hg', by unfold pos; rw [h1, e]⟩
  refine ⟨?_, ?_, ?_, ?_, ?_, ?_, ?_, ?_, ?_, ?_, ?_, ?_, ?_, ?_, ?_, ?_, ?_, ?_, ?_, ?_, hlog, by rw [h1, h2]; exact h.parLt, by rw [h2, hfr]; exact h.freeLt,
    by unfold pos; rw [h1, h2]; exact h.parNone, by unfold pos inst; rw [h1, h2]; exact h.instPos⟩
  · intro i σ hi
    unfold inst
    rw [h1, h2, hfr]
    exact h.regOk i σ (hsub i σ hi)
  · unfold inst; rw [h1, h2, h3]; exact h.instLt
  · unfold pos
    rw [h1]
    intro i j σ τ hi hj
    exact h.uniq i j σ τ (hsub i σ hi) (hsub j τ hj)
  · unfold pos; rw [h1, h2]; exact h.kidOk
  · unfold pos; rw [h1, h2]; exact h.parOk
  · intro i σ p hi hp
    unfold pos at hp ⊢
    rw [h1] at hp ⊢
    exact hup i σ p hi hp
  · intro u hu
    rw [hn] at hu
    have : u ≠ t := by omega
    rw [(htold u).2.2.1, (htold u).2.2.2.2 this]; exact h.stale u hu
  · intro u hu
    rw [hn] at hu
    unfold inst
    rw [(htold u).1, (htold u).2.1, h1, h2]; exact h.oldOk u hu
  · intro i u hu
    rw [hby] at hu
    rw [hn, (htold u).2.1]; exact h.byIdOk i u hu
  · intro u hu
    have hu' := (hR u).1 hu
    obtain ⟨a, c⟩ := h.chain u hu'
    have hmono : ∀ {l : List Frame}, (∀ g ∈ l, Fr s u g) → Chain T s (s.tasks u).old l → Chain T s' (s.tasks u).old l := by
      intro l hl hc
      refine hc.mono (by unfold pos; rw [h1]) (by omega) (fun g _ => by unfold pos; rw [h1]; exact ⟨rfl, rfl⟩) ?_
      intro g hg ρ hρ _ _ hreg
      unfold inst
      rw [h1]
      exact hlink u g ρ (hl g hg) hρ hreg
    by_cases hut : u = t
    · subst hut
      rw [(htold u).1, htasks, upd_same]
      refine ⟨by simp, ?_⟩
      rw [he] at c
      simp only at c
      rw [he]
      simp only
      have c' : Chain T s d (f' :: fs) := by
        cases fs with
        | nil => exact ⟨by rw [hst]; exact c.1, by rw [hst]; exact c.2⟩
        | cons g r => exact ⟨by rw [hst]; exact c.1, by rw [hst]; exact c.2.1, by rw [hst]; exact c.2.2.1, c.2.2.2⟩
      refine c'.mono (by unfold pos; rw [h1]) (by omega) (fun g _ => by unfold pos; rw [h1]; exact ⟨rfl, rfl⟩) ?_
      intro g hg ρ hρ _ _ hreg
      unfold inst
      rw [h1]
      rcases List.mem_cons.1 hg with rfl | hg
      · rw [hst] at hρ; exact hlink u f ρ hft hρ hreg
      · exact hlink u g ρ (hfst g hg) hρ hreg
    · rw [(htold u).2.2.2.2 hut, (htold u).1]
      exact ⟨a, hmono (fun g hg => ⟨hu'.1, hu'.2, hg⟩) c⟩
  · intro u g' hg'
    obtain ⟨g, hg, e, _⟩ := hback u g' hg'
    unfold inst
    rw [h1, ← e]; exact hframe u g hg
  · intro u g' hg' o ho
    obtain ⟨g, hg, e, e2, _⟩ := hback u g' hg'
    unfold pos
    rw [h1, h2, hfr, ← e]
    exact h.frOld u g hg o (by rw [e2]; exact ho)
  · intro u g' hg' hp
    obtain ⟨g, hg, e, e2, e3⟩ := hback u g' hg'
    rw [h1, ← e]
    refine h.frNew u g hg ?_
    rcases e3 with ⟨rfl, rfl⟩ | rfl
    · exact hph hp
    · exact hp
  · intro u g' hg' l hl
    obtain ⟨g, hg, e, e2, e3⟩ := hback u g' hg'
    unfold pos
    rw [h1]
    rcases e3 with ⟨rfl, rfl⟩ | rfl
    · rw [hst]; exact hkids l hl
    · exact h.frKids u g' hg l hl
  · intro u v hu hv hne
    have := h.apart u v ((hR u).1 hu) ((hR v).1 hv) hne
    unfold place at this ⊢
    rw [(htold u).1, (htold v).1, h1]; exact this
  · intro u hu
    rw [(htold u).2.2.1] at hu
    rw [(htold u).2.2.2.1]; exact h.live u hu
  · intro j ρ x hh hj hp hb hhold
    have := hedge j ρ x hh hj (by unfold pos at hp; rw [h1] at hp; exact hp) (fun hb' => hb (hB x hb')) hhold
    unfold pos inst
    rw [h1]
    exact this
  · intro u hu hst'
    rw [hn] at hu
    rw [(htold u).2.2.1] at hst'
    obtain ⟨a, c, e, g, k⟩ := h.created u hu hst'
    have hut : u ≠ t := by rintro rfl; rw [he] at hst'; cases hst'
    rw [(htold u).1, (htold u).2.1, (htold u).2.2.2.1, (htold u).2.2.2.2 hut, hby, (hflag u hu hst').1, (hflag u hu hst').2]
    exact ⟨a, c, e, g, fun σ hσ => k σ (hsub _ _ hσ)⟩
  · intro v g' hg' hp u hu hst'
    obtain ⟨g, hg, e, e2, e3⟩ := hback v g' hg'
    rw [hn] at hu
    rw [(htold u).2.2.1] at hst'
    rw [(htold u).2.1]
    unfold inst
    rw [h1, ← e]
    refine h.window v g hg ?_ u hu hst'
    rcases e3 with ⟨rfl, rfl⟩ | rfl
    · exact hph hp
    · exact hp
  · intro u
    rw [(htold u).2.2.1]; exact h.ok u

theorem inv_grant {s : St} {t : Nat} (h : Inv T s) : Inv T (step T s (.grant t)) := by
  simp only [step]
  split
  · rename_i o d y p fs b he
    split
    · have hlt : t < s.nextT := running_lt h (by rw [he])
      have hfr' := fr_put (s := s) (s' := { s.put t ⟨o, d, .running, ⟨y, p, .granted⟩ :: fs, b⟩ with access := upd s.access (s.heap y).inst (some t) })
        (k := ⟨o, d, .running, ⟨y, p, .granted⟩ :: fs, b⟩) rfl rfl hlt rfl
      refine retop h he rfl rfl rfl rfl rfl rfl rfl rfl rfl (fun i σ hi => hi) h.frReg (fun u g ρ _ _ hr => hr) h.up (by simp) (by simp) ?_
        (fun u _ _ => ⟨rfl, rfl⟩) h.clean
      intro j ρ x hh hj hp hb hhold
      refine h.edge j ρ x hh hj hp hb ?_
      rcases hhold with ⟨u, g, hg, e1, e2, e3⟩ | ⟨hno, e⟩
      · rcases (hfr' u g).1 hg with ⟨rfl, hm⟩ | ⟨_, hm⟩
        · rcases List.mem_cons.1 hm with rfl | hm
          · exact .inl ⟨u, ⟨y, p, .waiting⟩, ⟨hlt, by rw [he], by rw [he]; simp⟩, e1, trivial, e3⟩
          · exact .inl ⟨u, g, ⟨hlt, by rw [he], by rw [he]; simp [hm]⟩, e1, e2, e3⟩
        · exact .inl ⟨u, g, hm, e1, e2, e3⟩
      · refine .inr ⟨?_, e⟩
        intro u g hg e1 e2
        by_cases hut : u = t
        · subst hut
          have := hg.2.2
          rw [he] at this
          rcases List.mem_cons.1 this with rfl | hm
          · exact hno u ⟨y, p, .granted⟩ ((hfr' u _).2 (.inl ⟨rfl, by simp⟩)) e1 trivial
          · exact hno u g ((hfr' u _).2 (.inl ⟨rfl, by simp [hm]⟩)) e1 e2
        · exact hno u g ((hfr' u _).2 (.inr ⟨hut, hg⟩)) e1 e2
    · exact h
  · exact h

/-! ### Running a body -/

theorem subs_self (s : St) (n σ : Nat) : σ ∈ subs s n σ := by cases n <;> simp [subs]

theorem subs_reg {s : St} (h : Inv T s) (y : Nat) (hfree : ∀ x, T.le y x = true → x ≠ y → ¬ Busy s x) : ∀ n σ, s.reg (inst s σ) = some σ →
    T.le y (pos s σ) = true → pos s σ ≠ y → ∀ τ ∈ subs s n σ, s.reg (inst s τ) = some τ ∧ T.le (pos s σ) (pos s τ) = true
  | 0, σ, hr, _, _, τ, hτ => by simp [subs] at hτ; subst hτ; exact ⟨hr, le_refl _⟩
  | n + 1, σ, hr, hy, hne, τ, hτ => by
    simp only [subs, List.mem_cons, List.mem_flatMap] at hτ
    rcases hτ with rfl | ⟨e, he, hτ⟩
    · exact ⟨hr, le_refl _⟩
    · obtain ⟨k1, k2, k3, k4⟩ := h.kidOk σ (h.regOk _ _ hr).1 e he
      have hle : T.le (pos s σ) (pos s e.2) = true := by rw [k1]; exact le_par k4
      have hne' : pos s e.2 ≠ y := by
        intro hh
        have := (le_depth hy).1
        have h4 := T.depth_par _ _ k4
        rw [← k1, hh] at h4
        omega
      have hb := hfree _ (le_trans hy hle) hne'
      rw [k1] at hb
      have hreg := (h.edge _ σ e.1 (some σ) hr k4 hb (holder_self (hfree _ hy hne))).2 σ e.2 rfl he
      obtain ⟨a, b⟩ := subs_reg h y hfree n e.2 hreg (le_trans hy hle) hne' τ hτ
      exact ⟨a, le_trans hle b⟩

theorem subs_closed {s : St} (h : Inv T s) : ∀ n σ, σ < s.nextS → s.nextS ≤ n + σ → ∀ τ ∈ subs s n σ, ∀ e ∈ (s.heap τ).kids, e.2 ∈ subs s n σ
  | 0, σ, h1, h2, τ, hτ, e, he => by omega
  | n + 1, σ, h1, h2, τ, hτ, e, he => by
    simp only [subs, List.mem_cons, List.mem_flatMap] at hτ ⊢
    rcases hτ with rfl | ⟨e', he', hτ⟩
    · exact .inr ⟨e, he, subs_self s n e.2⟩
    · obtain ⟨_, k2, k3, _⟩ := h.kidOk σ h1 e' he'
      exact .inr ⟨e', he', subs_closed h n e'.2 k3 (by omega) τ hτ e he⟩

theorem subs_par {s : St} (h : Inv T s) : ∀ n σ, σ < s.nextS → ∀ τ ∈ subs s n σ, τ = σ ∨ ∃ τ' ∈ subs s n σ, T.par (pos s τ) = some (pos s τ')
  | 0, σ, _, τ, hτ => by simp [subs] at hτ; exact .inl hτ
  | n + 1, σ, hlt, τ, hτ => by
    simp only [subs, List.mem_cons, List.mem_flatMap] at hτ ⊢
    rcases hτ with rfl | ⟨e, he, hτ⟩
    · exact .inl rfl
    · obtain ⟨k1, _, k3, k4⟩ := h.kidOk σ hlt e he
      rcases subs_par h n e.2 k3 τ hτ with rfl | ⟨τ', h1, h2⟩
      · exact .inr ⟨σ, .inl rfl, by rw [k1]; exact k4⟩
      · exact .inr ⟨τ', .inr ⟨e, he, h1⟩, h2⟩

theorem inv_body {s : St} {t : Nat} {kids : List Nat} (h : Inv T s) : Inv T (step T s (.body t kids)) := by
  simp only [step]
  split
  · rename_i o d y p fs b he
    split
    · rename_i hk
      obtain ⟨hnd, hpar⟩ := hk
      have hlt : t < s.nextT := running_lt h (by rw [he])
      have hrun : Running s t := ⟨hlt, by rw [he]⟩
      have hft : Fr s t ⟨y, p, .granted⟩ := ⟨hlt, by rw [he], by rw [he]; simp⟩
      have hfree : ∀ x, T.le (pos s y) x = true → x ≠ pos s y → ¬ Busy s x := fun x h1 h2 =>
        top_free h (f := ⟨y, p, .granted⟩) (fs := fs) hrun (by rw [he]) h1 h2
      have hyreg : s.reg (inst s y) = some y := h.frReg t _ hft
      have hhold : ∀ x, Holder s y x p := fun x => .inl ⟨t, _, hft, rfl, trivial, rfl⟩
      -- the dropped children
      have hdrop : ∀ σ ∈ dropped s p kids, s.reg (inst s σ) = some σ ∧ T.par (pos s σ) = some (pos s y) ∧ pos s σ ∉ kids := by
        intro σ hσ
        unfold dropped at hσ
        split at hσ
        · simp at hσ
        · rename_i q
          simp only [List.mem_map, List.mem_filter] at hσ
          obtain ⟨e, ⟨he1, he2⟩, rfl⟩ := hσ
          obtain ⟨q1, q2, _⟩ := h.frOld t _ hft q rfl
          obtain ⟨k1, _, _, k4⟩ := h.kidOk q q1 e he1
          have hpar' : T.par e.1 = some (pos s y) := by rw [k4, q2]
          have hb := hfree e.1 (le_par hpar') (by
            intro hh
            have := T.depth_par _ _ hpar'
            rw [hh] at this
            omega)
          refine ⟨(h.edge _ y e.1 (some q) hyreg hpar' hb (hhold e.1)).2 q e.2 rfl he1, by rw [k1]; exact hpar', ?_⟩
          rw [k1]
          simpa using he2
      have hstrict : ∀ x, T.par x = some (pos s y) → T.le (pos s y) x = true ∧ x ≠ pos s y := by
        intro x hx
        refine ⟨le_par hx, ?_⟩
        intro hh
        have := T.depth_par _ _ hx
        rw [hh] at this
        omega
      generalize hl : (dropped s p kids).flatMap (subs s s.nextS) = l
      have hin : ∀ τ ∈ l, s.reg (inst s τ) = some τ ∧ T.le (pos s y) (pos s τ) = true ∧ pos s τ ≠ pos s y ∧
          ∃ σ ∈ dropped s p kids, T.le (pos s σ) (pos s τ) = true := by
        intro τ hτ
        rw [← hl] at hτ
        obtain ⟨σ, hσ, hτ⟩ := List.mem_flatMap.1 hτ
        obtain ⟨a, b, _⟩ := hdrop σ hσ
        obtain ⟨c, e⟩ := hstrict _ b
        obtain ⟨r1, r2⟩ := subs_reg h (pos s y) hfree s.nextS σ a c e τ hτ
        refine ⟨r1, le_trans c r2, ?_, σ, hσ, r2⟩
        intro hh
        have h1 := (le_depth r2).1
        have h2 := T.depth_par _ _ b
        rw [hh] at h1
        omega
      have hclosed : ∀ τ ∈ l, ∀ e ∈ (s.heap τ).kids, e.2 ∈ l := by
        intro τ hτ e hee
        rw [← hl] at hτ ⊢
        obtain ⟨σ, hσ, hτ⟩ := List.mem_flatMap.1 hτ
        exact List.mem_flatMap.2 ⟨σ, hσ, subs_closed h _ σ (h.regOk _ _ (hdrop σ hσ).1).1 (by omega) τ hτ e hee⟩
      have hparl : ∀ τ ∈ l, τ ∈ dropped s p kids ∨ ∃ τ' ∈ l, T.par (pos s τ) = some (pos s τ') := by
        intro τ hτ
        rw [← hl] at hτ ⊢
        obtain ⟨σ, hσ, hτ⟩ := List.mem_flatMap.1 hτ
        rcases subs_par h _ σ (h.regOk _ _ (hdrop σ hσ).1).1 τ hτ with rfl | ⟨τ', h1, h2⟩
        · exact .inl hσ
        · exact .inr ⟨τ', List.mem_flatMap.2 ⟨σ, hσ, h1⟩, h2⟩
      have hdl : ∀ σ ∈ dropped s p kids, σ ∈ l := by
        intro σ hσ
        rw [← hl]
        exact List.mem_flatMap.2 ⟨σ, hσ, subs_self _ _ _⟩
      have hall : l.all (known s) = true := by
        rw [List.all_eq_true]
        intro τ hτ
        have := (hin τ hτ).1
        unfold inst at this
        simp [known, this]
      rw [if_pos hall]
      have hreg : ∀ i σ, forget s l i = some σ ↔ s.reg i = some σ ∧ σ ∉ l := by
        intro i σ
        unfold forget
        constructor
        · intro hh
          split at hh
          · cases hh
          · rename_i hn
            refine ⟨hh, fun hm => hn ?_⟩
            rw [List.any_eq_true]
            exact ⟨σ, hm, by simpa using (h.regOk i σ hh).2.1⟩
        · rintro ⟨h1, h2⟩
          rw [if_neg]
          · exact h1
          · intro hh
            rw [List.any_eq_true] at hh
            obtain ⟨τ, hτ, hi⟩ := hh
            have hi : inst s τ = i := by simpa using hi
            have := (hin τ hτ).1
            rw [hi, h1] at this
            cases this
            exact h2 hτ
      have hfr' := fr_put (s := s) (s' := { s.put t ⟨o, d, .running, ⟨y, p, .kids kids⟩ :: fs, b⟩ with
            flag := upd s.flag (s.heap y).inst false
            rendered := upd s.rendered (s.heap y).inst true
            reg := forget s l
            log := .read t (s.heap y).pos (s.heap y).inst :: s.log })
        (k := ⟨o, d, .running, ⟨y, p, .kids kids⟩ :: fs, b⟩) rfl rfl hlt rfl
      refine retop h he rfl rfl rfl rfl rfl rfl rfl rfl rfl (fun i σ hi => ((hreg i σ).1 hi).1) ?_ ?_ ?_ ?_ ?_ ?_ ?_ ?_
      · intro u g hg
        refine (hreg _ _).2 ⟨h.frReg u g hg, fun hm => ?_⟩
        obtain ⟨_, a, c, _⟩ := hin _ hm
        exact hfree _ a c ⟨u, g, hg, rfl⟩
      · intro u g ρ hg hρ hr
        refine (hreg _ _).2 ⟨hr, fun hm => ?_⟩
        obtain ⟨_, a, c, _⟩ := hin _ hm
        have hp := h.parOk g.st ρ (h.regOk _ _ (h.frReg u g hg)).1 hρ
        refine hfree (pos s g.st) (le_trans a (le_par hp)) ?_ ⟨u, g, hg, rfl⟩
        intro hh
        have h1 := (le_depth a).1
        have h2 := T.depth_par _ _ hp
        rw [hh] at h2
        omega
      · intro i σ q hi hq
        obtain ⟨hi, hm⟩ := (hreg i σ).1 hi
        obtain ⟨j, ρ, hj, hρ⟩ := h.up i σ q hi hq
        refine ⟨j, ρ, (hreg j ρ).2 ⟨hj, fun hρl => hm ?_⟩, hρ⟩
        obtain ⟨_, a, c, _⟩ := hin _ hρl
        subst hρ
        have a' := le_trans a (le_par hq)
        have c' : pos s σ ≠ pos s y := by
          intro hh
          have h1 := (le_depth a).1
          have h2 := T.depth_par _ _ hq
          rw [hh] at h2
          omega
        exact hclosed ρ hρl _ (child_of h hi hj hq (hfree _ a' c') (hfree _ a c)).1
      · intro l' hl'
        cases hl'
        exact ⟨hnd, hpar⟩
      · intro hh; exact absurd rfl (hh kids)
      · intro j ρ x hh hj hp hb hhold'
        obtain ⟨hjr, hρl⟩ := (hreg j ρ).1 hj
        clear hj
        by_cases hρy : ρ = y
        · subst hρy
          have hjy : j = inst s ρ := (h.regOk j ρ hjr).2.1.symm
          by_cases hx : x ∈ kids
          · have : hh = p := by
              rcases hhold' with ⟨u, g, hg, e1, e2, e3⟩ | ⟨hno, _⟩
              · rcases (hfr' u g).1 hg with ⟨rfl, hm⟩ | ⟨hut, hm⟩
                · rcases List.mem_cons.1 hm with rfl | hm
                  · exact e3
                  · have hg' : Fr s u g := ⟨hlt, by rw [he], by rw [he]; simp [hm]⟩
                    have := (top_only h (f := ⟨ρ, p, .granted⟩) (fs := fs) hrun (by rw [he]) hg' (by rw [e1])).2
                    rw [e3, this]
                · exact absurd (top_only h (f := ⟨ρ, p, .granted⟩) (fs := fs) hrun (by rw [he]) hm (by rw [e1])).1 hut
              · exact absurd hx (hno t ⟨ρ, p, .kids kids⟩ ((hfr' _ _).2 (.inl ⟨rfl, by simp⟩)) rfl)
            subst this
            obtain ⟨e1, e2⟩ := h.edge j ρ x _ hjr hp hb (hhold x)
            refine ⟨fun i σ hi hσ => e1 i σ ((hreg i σ).1 hi).1 hσ, fun q σ hq hm => (hreg _ _).2 ⟨e2 q σ hq hm, fun hσl => ?_⟩⟩
            obtain ⟨_, _, _, σ', hσ', hle⟩ := hin σ hσl
            obtain ⟨_, hpσ', hnk⟩ := hdrop σ' hσ'
            have hpσ : pos s σ = x := by
              obtain ⟨q1, _, _⟩ := h.frOld t _ hft q hq
              exact (h.kidOk q q1 _ hm).1
            rw [hpσ] at hle
            have d1 := T.depth_par _ _ hpσ'
            have d2 := T.depth_par _ _ hp
            have := (le_depth hle).2 (by omega)
            rw [this] at hnk
            exact hnk hx
          · have : hh = some ρ := by
              rcases hhold' with ⟨u, g, hg, e1, e2, e3⟩ | ⟨_, e⟩
              · exfalso
                rcases (hfr' u g).1 hg with ⟨rfl, hm⟩ | ⟨hut, hm⟩
                · rcases List.mem_cons.1 hm with rfl | hm
                  · exact hx e2
                  · have hg' : Fr s u g := ⟨hlt, by rw [he], by rw [he]; simp [hm]⟩
                    have hch := (h.chain u hrun).2
                    rw [he] at hch
                    have := hch.depth g hm
                    rw [e1] at this
                    exact absurd this (Nat.lt_irrefl _)
                · exact absurd (top_only h (f := ⟨ρ, p, .granted⟩) (fs := fs) hrun (by rw [he]) hm (by rw [e1])).1 hut
              · exact e
            subst this
            refine ⟨fun i σ hi hσ => ?_, fun q σ hq hm => ?_⟩
            · obtain ⟨hi, hσl⟩ := (hreg i σ).1 hi
              obtain ⟨q, hq, hm, _⟩ := (h.edge j ρ x p hjr hp hb (hhold x)).1 i σ hi hσ
              exfalso
              refine hσl (hdl σ ?_)
              subst hq
              simp only [dropped, List.mem_map, List.mem_filter]
              exact ⟨(x, σ), ⟨hm, by simpa using hx⟩, rfl⟩
            · cases hq
              rw [h.frNew t _ hft (by simp)] at hm
              simp at hm
        · have hsame : Holder s ρ x hh := by
            rcases hhold' with ⟨u, g, hg, e1, e2, e3⟩ | ⟨hno, e⟩
            · rcases (hfr' u g).1 hg with ⟨rfl, hm⟩ | ⟨_, hm⟩
              · rcases List.mem_cons.1 hm with rfl | hm
                · exact absurd e1.symm hρy
                · exact .inl ⟨u, g, ⟨hlt, by rw [he], by rw [he]; simp [hm]⟩, e1, e2, e3⟩
              · exact .inl ⟨u, g, hm, e1, e2, e3⟩
            · refine .inr ⟨?_, e⟩
              intro u g hg e1 e2
              by_cases hut : u = t
              · subst hut
                have := hg.2.2
                rw [he] at this
                rcases List.mem_cons.1 this with rfl | hm
                · exact hρy e1.symm
                · exact hno u g ((hfr' u _).2 (.inl ⟨rfl, by simp [hm]⟩)) e1 e2
              · exact hno u g ((hfr' u _).2 (.inr ⟨hut, hg⟩)) e1 e2
          obtain ⟨e1, e2⟩ := h.edge j ρ x hh hjr hp hb hsame
          refine ⟨fun i σ hi hσ => e1 i σ ((hreg i σ).1 hi).1 hσ, fun q σ hq hm => (hreg _ _).2 ⟨e2 q σ hq hm, fun hσl => ?_⟩⟩
          have hqlt : q < s.nextS := by
            rcases hsame with ⟨u, g, hg, _, _, e3⟩ | ⟨_, e⟩
            · exact (h.frOld u g hg q (by rw [← e3]; exact hq)).1
            · rw [e] at hq; cases hq; exact (h.regOk _ _ hjr).1
          have hpσ : pos s σ = x := (h.kidOk q hqlt _ hm).1
          have hrσ : T.par (pos s σ) = some (pos s ρ) := by rw [hpσ]; exact hp
          rcases hparl σ hσl with hd | ⟨τ', hτ', hpt⟩
          · have := (hdrop σ hd).2.1
            rw [hrσ] at this
            injection this with this
            have hi := h.uniq j _ ρ y hjr hyreg this
            rw [hi, hyreg] at hjr
            cases hjr
            exact hρy rfl
          · rw [hrσ] at hpt
            injection hpt with hpt
            have hi := h.uniq j _ ρ τ' hjr (hin τ' hτ').1 hpt
            rw [hi, (hin τ' hτ').1] at hjr
            cases hjr
            exact hρl hτ'
      · intro u hu hst
        have := h.window t _ hft (by simp) u hu hst
        simp only [upd_ne _ _ this, and_self]
      · intro t' x i hm
        rcases List.mem_cons.1 hm with hm | hm
        · cases hm
        · exact h.clean t' x i hm
    · exact h
  · exact h

/-! ### A call begins -/

theorem enter_fields (s : St) (t x i : Nat) (p old : Option Nat) :
    (enter s t x i p old).heap = upd s.heap s.nextS { pos := x, inst := i, parent := p, kids := [] } ∧
    (enter s t x i p old).nextS = s.nextS + 1 ∧ (enter s t x i p old).reg = upd s.reg i (some s.nextS) ∧
    (enter s t x i p old).freed = s.freed ∧ (enter s t x i p old).nextI = s.nextI ∧ (enter s t x i p old).nextT = s.nextT ∧
    (enter s t x i p old).flag = s.flag ∧ (enter s t x i p old).rendered = s.rendered ∧ (enter s t x i p old).log = s.log := by
  unfold enter
  simp only
  split
  · split <;> simp
  · simp

theorem enter_tasks (s : St) (t x i : Nat) (p old : Option Nat) (u : Nat) : (enter s t x i p old).tasks u =
    if u = t then { s.tasks t with stack := { st := s.nextS, old := old, phase := .waiting } :: (s.tasks t).stack }
    else if s.byId i = some u then cancelTask (s.tasks u) else s.tasks u := by
  unfold enter
  simp only
  split
  · rename_i t' ht'
    by_cases h : t' = t
    · subst h
      rw [if_pos rfl]
      simp only [upd_apply]
      split
      · rfl
      · rename_i hu
        rw [if_neg]
        rw [ht']; intro h; cases h; exact hu rfl
    · rw [if_neg h]
      simp only [upd_apply]
      by_cases hu : u = t
      · subst hu
        simp [Ne.symm h]
      · simp only [if_neg hu, if_neg h]
        by_cases hu' : u = t'
        · subst hu'; simp [ht']
        · rw [if_neg hu', if_neg]
          rw [ht']; intro h; cases h; exact hu' rfl
  · rename_i ht'
    simp only [upd_apply]
    split
    · rfl
    · simp [ht']

theorem enter_byId (s : St) (t x i : Nat) (p old : Option Nat) :
    (∀ j u, (enter s t x i p old).byId j = some u → s.byId j = some u) ∧
    (∀ j u, s.byId j = some u → j ≠ i → (enter s t x i p old).byId j = some u) := by
  unfold enter
  simp only
  split
  · split
    · exact ⟨fun _ _ h => h, fun _ _ h _ => h⟩
    · refine ⟨fun j u h => ?_, fun j u h hj => ?_⟩
      · simp only [upd_apply] at h
        split at h
        · cases h
        · exact h
      · simp only [upd_ne _ _ hj]; exact h
  · exact ⟨fun _ _ h => h, fun _ _ h _ => h⟩

@[simp] theorem cancel_owner (k : Task) : (cancelTask k).owner = k.owner := by unfold cancelTask; split <;> rfl
@[simp] theorem cancel_old (k : Task) : (cancelTask k).old = k.old := by unfold cancelTask; split <;> rfl
@[simp] theorem cancel_stack (k : Task) : (cancelTask k).stack = k.stack := by unfold cancelTask; split <;> rfl
@[simp] theorem cancel_picked (k : Task) : (cancelTask k).picked = k.picked := by unfold cancelTask; split <;> rfl
theorem cancel_stat (k : Task) : (cancelTask k).stat ≠ .created ∧ (cancelTask k).stat ≠ .running ∧ (k.stat ≠ .crashed → (cancelTask k).stat ≠ .crashed) := by
  obtain ⟨_, _, st, _, _⟩ := k
  cases st <;> simp [cancelTask]

theorem enter_inv {s s1 : St} {t x i : Nat} {p old : Option Nat} {k : Task} (h : Inv T s)
    (htasks : s1.tasks = upd s.tasks t k) (hlt : t < s.nextT) (hkr : k.stat = .running) (hko : k.old = (s.tasks t).old)
    (hkw : k.owner = (s.tasks t).owner) (hkp : k.picked = false)
    (h1 : s1.heap = s.heap) (h2 : s1.nextS = s.nextS) (h3 : s.nextI ≤ s1.nextI) (h4 : s1.reg = s.reg) (h5 : s1.freed = s.freed)
    (h6 : s1.byId = s.byId) (h7 : s1.nextT = s.nextT) (h8 : s1.flag = s.flag) (h9 : s1.rendered = s.rendered)
    (hlog : ∀ t x i, Ev.failed t x i ∉ s1.log)
    (hb : ¬ Busy s x) (hi : i < s1.nextI)
    (hpar : ∀ ρ, p = some ρ → ρ < s.nextS ∧ T.par x = some (pos s ρ) ∧ s.reg (inst s ρ) = some ρ)
    (hparn : p = none → T.par x = none)
    (hup : ∀ q, T.par x = some q → ∃ j ρ, s.reg j = some ρ ∧ pos s ρ = q)
    (hold : match old with
      | some o => s.reg i = some o ∧ pos s o = x
      | none => s.nextI ≤ i ∧ ∀ j σ, s.reg j = some σ → pos s σ ≠ x)
    -- the other tasks
    (hother : ∀ u, Running s u → u ≠ t → (s.tasks u).owner ≠ i)
    (hapart : ∀ u, Running s u → u ≠ t → T.le (place s t) (place s u) = false ∧ T.le (place s u) (place s t) = false)
    -- the calls of the task itself
    (hsim : ∀ g' ∈ k.stack, ∃ g, Fr s t g ∧ g.st = g'.st ∧ g.old = g'.old ∧ ∀ z, z ≠ x → (pend g z ↔ pend g' z))
    (hsim' : ∀ g, Fr s t g → ∃ g' ∈ k.stack, g'.st = g.st ∧ g'.old = g.old ∧ ∀ z, z ≠ x → (pend g z ↔ pend g' z))
    (hkk : ∀ g' ∈ k.stack, ∀ l, g'.phase = .kids l → l.Nodup ∧ ∀ c ∈ l, T.par c = some (pos s g'.st))
    (hch : ∀ {s' : St}, s'.heap = upd s.heap s.nextS ⟨x, i, p, []⟩ → s'.nextS = s.nextS + 1 →
      (∀ ρ, ρ < s.nextS → pos s ρ ≠ x → s.reg (inst s ρ) = some ρ → s'.reg (inst s ρ) = some ρ) →
      Chain T s' k.old ({ st := s.nextS, old := old, phase := .waiting } :: k.stack)) :
    Inv T (enter s1 t x i p old) := by
  have hnew : s.freed s.nextS = false := by
    cases hf : s.freed s.nextS with
    | false => rfl
    | true => exact absurd (h.freeLt _ hf) (Nat.lt_irrefl _)
  obtain ⟨e1, e2, e3, e4, e5, e6, e7, e8, e9⟩ := enter_fields s1 t x i p old
  have et := enter_tasks s1 t x i p old
  obtain ⟨eb, eb'⟩ := enter_byId s1 t x i p old
  generalize enter s1 t x i p old = s' at *
  rw [h1, h2] at e1
  rw [h2] at e2
  rw [h4, h2] at e3
  rw [h5] at e4
  rw [h7] at e6
  rw [h8] at e7
  rw [h9] at e8
  rw [h6] at eb eb'
  have et : ∀ u, s'.tasks u = if u = t then { k with stack := { st := s.nextS, old := old, phase := .waiting } :: k.stack }
      else if s.byId i = some u then cancelTask (s.tasks u) else s.tasks u := by
    intro u
    rw [et u, htasks, h2, h6]
    by_cases hu : u = t
    · rw [if_pos hu, if_pos hu, upd_same]
    · rw [if_neg hu, if_neg hu, upd_ne _ _ hu]
  -- states
  have hh : ∀ σ, σ < s.nextS → s'.heap σ = s.heap σ := by
    intro σ hσ; rw [e1, upd_ne _ _ (by omega)]
  have hn : s'.heap s.nextS = ⟨x, i, p, []⟩ := by rw [e1, upd_same]
  have hreg : ∀ j σ, s'.reg j = some σ → (j = i ∧ σ = s.nextS) ∨ (j ≠ i ∧ s.reg j = some σ ∧ σ < s.nextS ∧ pos s σ ≠ x) := by
    intro j σ hj
    rw [e3] at hj
    by_cases hji : j = i
    · subst hji; rw [upd_same] at hj; cases hj; exact .inl ⟨rfl, rfl⟩
    · rw [upd_ne _ _ hji] at hj
      refine .inr ⟨hji, hj, (h.regOk j σ hj).1, fun hx => ?_⟩
      cases old with
      | none => exact hold.2 j σ hj hx
      | some o => exact hji (h.uniq j i σ o hj hold.1 (by rw [hx, hold.2]))
  have hregi : ∀ j σ, s.reg j = some σ → pos s σ ≠ x → s'.reg j = some σ := by
    intro j σ hj hx
    rw [e3, upd_ne]
    · exact hj
    · rintro rfl
      cases old with
      | none =>
        have a := h.regOk j σ hj
        have b := h.instLt σ a.1
        rw [a.2.1] at b
        have := hold.1
        omega
      | some o => rw [hold.1] at hj; cases hj; exact hx hold.2
  have hnt : ∀ u, (s'.tasks u).old = (s.tasks u).old ∧ (s'.tasks u).owner = (s.tasks u).owner := by
    intro u
    rw [et u]
    by_cases hu : u = t
    · subst hu; rw [if_pos rfl]; exact ⟨hko, hkw⟩
    · rw [if_neg hu]; split <;> simp
  -- no running task is cancelled
  have hrunu : ∀ u, u ≠ t → Running s u → s'.tasks u = s.tasks u := by
    intro u hu hr
    rw [et u, if_neg hu, if_neg]
    intro hbi
    exact hother u hr hu (h.byIdOk i u hbi).2
  have hR : ∀ u, Running s' u → u = t ∨ (u ≠ t ∧ Running s u ∧ s'.tasks u = s.tasks u) := by
    intro u hu
    by_cases hut : u = t
    · exact .inl hut
    · right
      have hu2 := hu.2
      rw [et u, if_neg hut] at hu2
      split at hu2
      · exact absurd hu2 (cancel_stat _).2.1
      · have hr : Running s u := ⟨by rw [← e6]; exact hu.1, hu2⟩
        exact ⟨hut, hr, hrunu u hut hr⟩
  have hrt : Running s' t := ⟨by rw [e6]; exact hlt, by rw [et t, if_pos rfl]; exact hkr⟩
  have hF : ∀ u g, Fr s' u g ↔ (u = t ∧ (g = ⟨s.nextS, old, .waiting⟩ ∨ g ∈ k.stack)) ∨ (u ≠ t ∧ Fr s u g) := by
    intro u g
    constructor
    · intro hg
      rcases hR u hg.running with rfl | ⟨hut, hr, he⟩
      · have := hg.2.2
        rw [et u, if_pos rfl] at this
        exact .inl ⟨rfl, by simpa using this⟩
      · exact .inr ⟨hut, hr.1, hr.2, by rw [← he]; exact hg.2.2⟩
    · rintro (⟨rfl, hg⟩ | ⟨hut, hg⟩)
      · exact ⟨hrt.1, hrt.2, by rw [et u, if_pos rfl]; simpa using hg⟩
      · have he := hrunu u hut hg.running
        exact ⟨by rw [e6]; exact hg.1, by rw [he]; exact hg.2.1, by rw [he]; exact hg.2.2⟩
  have hfst : ∀ u g, Fr s u g → g.st < s.nextS := fun u g hg => (h.regOk _ _ (h.frReg u g hg)).1
  -- calls of the new state other than the new one
  have hback : ∀ u g', Fr s' u g' → g' = ⟨s.nextS, old, .waiting⟩ ∨ ∃ g, Fr s u g ∧ g.st = g'.st ∧ g.old = g'.old ∧
      (∀ z, z ≠ x → (pend g z ↔ pend g' z)) ∧ (g' = g ∨ g' ∈ k.stack) := by
    intro u g' hg'
    rcases (hF u g').1 hg' with ⟨rfl, hg' | hg'⟩ | ⟨_, hg'⟩
    · exact .inl hg'
    · obtain ⟨g, a, b, c, d⟩ := hsim g' hg'
      exact .inr ⟨g, a, b, c, d, .inr hg'⟩
    · exact .inr ⟨g', hg', rfl, rfl, fun _ _ => Iff.rfl, .inl rfl⟩
  have hforth : ∀ u g, Fr s u g → ∃ g', Fr s' u g' ∧ g'.st = g.st ∧ g'.old = g.old ∧ ∀ z, z ≠ x → (pend g z ↔ pend g' z) := by
    intro u g hg
    by_cases hut : u = t
    · subst hut
      obtain ⟨g', a, b, c, d⟩ := hsim' g hg
      exact ⟨g', (hF u g').2 (.inl ⟨rfl, .inr a⟩), b, c, d⟩
    · exact ⟨g, (hF u g).2 (.inr ⟨hut, hg⟩), rfl, rfl, fun _ _ => Iff.rfl⟩
  have hB : ∀ z, Busy s z → Busy s' z := by
    rintro z ⟨u, g, hg, rfl⟩
    obtain ⟨g', hg', e, _⟩ := hforth u g hg
    exact ⟨u, g', hg', by unfold pos; rw [e, hh _ (hfst u g hg)]⟩
  have hBx : Busy s' x := ⟨t, _, (hF t _).2 (.inl ⟨rfl, .inl rfl⟩), by unfold pos; rw [hn]⟩
  have hpx : ∀ u g, Fr s u g → pos s g.st ≠ x := fun u g hg he => hb ⟨u, g, hg, he⟩
  have hchain := hch (s' := s') e1 e2 (fun ρ _ hp hr => hregi _ _ hr hp)
  refine ⟨?_, ?_, ?_, ?_, ?_, ?_, ?_, ?_, ?_, ?_, ?_, ?_, ?_, ?_, ?_, ?_, ?_, ?_, ?_, ?_, ?_, ?_, ?_, ?_, ?_⟩
  · intro j σ hj
    rcases hreg j σ hj with ⟨rfl, rfl⟩ | ⟨_, hj, hσ, _⟩
    · refine ⟨by omega, by unfold inst; rw [hn], by rw [e4]; exact hnew⟩
    · obtain ⟨a, b, c⟩ := h.regOk j σ hj
      exact ⟨by omega, by unfold inst; rw [hh σ hσ]; exact b, by rw [e4]; exact c⟩
  · intro σ hσ
    rw [e2] at hσ
    rw [e5]
    unfold inst
    by_cases hs : σ = s.nextS
    · subst hs; rw [hn]; exact hi
    · rw [hh σ (by omega)]
      exact Nat.lt_of_lt_of_le (h.instLt σ (by omega)) h3
  · intro j j' σ τ hj hj' hp
    unfold pos at hp
    rcases hreg j σ hj with ⟨rfl, rfl⟩ | ⟨hji, hj, hσ, hx⟩ <;> rcases hreg j' τ hj' with ⟨rfl, rfl⟩ | ⟨hji', hj', hτ, hx'⟩
    · rfl
    · rw [hn, hh τ hτ] at hp; exact absurd hp.symm hx'
    · rw [hn, hh σ hσ] at hp; exact absurd hp hx
    · rw [hh σ hσ, hh τ hτ] at hp; exact h.uniq j j' σ τ hj hj' hp
  · intro σ hσ e he
    rw [e2] at hσ
    by_cases hs : σ = s.nextS
    · subst hs; rw [hn] at he; simp at he
    · rw [hh σ (by omega)] at he
      obtain ⟨a, b, c, d⟩ := h.kidOk σ (by omega) e he
      unfold pos
      rw [hh e.2 c, hh σ (by omega)]
      exact ⟨a, b, by omega, d⟩
  · intro σ ρ hσ hρ
    rw [e2] at hσ
    unfold pos
    by_cases hs : σ = s.nextS
    · subst hs
      rw [hn] at hρ ⊢
      obtain ⟨a, b, _⟩ := hpar ρ hρ
      rw [hh ρ a]; exact b
    · rw [hh σ (by omega)] at hρ ⊢
      have := h.parOk σ ρ (by omega) hρ
      have hρlt : (s.heap ρ).pos = (s'.heap ρ).pos := by
        rcases Nat.lt_or_ge ρ s.nextS with hl | hl
        · rw [hh ρ hl]
        · exact absurd hl (by have := h.parLt σ ρ (by omega) hρ; omega)
      rw [← hρlt]; exact this
  · intro j σ q hj hq
    have hgo : T.par (pos s σ) = some q ∧ s.reg j = some σ ∨ T.par x = some q := by
      rcases hreg j σ hj with ⟨rfl, rfl⟩ | ⟨_, hj, hσ, _⟩
      · unfold pos at hq; rw [hn] at hq; exact .inr hq
      · unfold pos at hq; rw [hh σ hσ] at hq; exact .inl ⟨hq, hj⟩
    have : ∃ j ρ, s.reg j = some ρ ∧ pos s ρ = q := by
      rcases hgo with ⟨hq, hj⟩ | hq
      · exact h.up j σ q hj hq
      · exact hup q hq
    obtain ⟨j', ρ, hj', hρ⟩ := this
    by_cases hx : q = x
    · exact ⟨i, s.nextS, by rw [e3, upd_same], by unfold pos; rw [hn]; exact hx.symm⟩
    · exact ⟨j', ρ, hregi j' ρ hj' (by rw [hρ]; exact hx), by unfold pos; rw [hh ρ (h.regOk _ _ hj').1]; exact hρ⟩
  · intro u hu
    rw [e6] at hu
    rw [et u, if_neg (by omega), if_neg]
    · exact h.stale u hu
    · intro hbi
      have := (h.byIdOk i u hbi).1
      omega
  · intro u hu
    rw [e6] at hu
    obtain ⟨a, b⟩ := h.oldOk u hu
    rw [(hnt u).1, (hnt u).2, e2]
    unfold inst
    rw [hh _ a]
    exact ⟨by omega, b⟩
  · intro j u hj
    rw [e6, (hnt u).2]
    exact h.byIdOk j u (eb j u hj)
  · intro u hu
    rcases hR u hu with rfl | ⟨hut, hr, he⟩
    · rw [et u, if_pos rfl]
      exact ⟨by simp, hchain⟩
    · obtain ⟨a, c⟩ := h.chain u hr
      rw [he]
      refine ⟨a, c.mono ?_ (by omega) ?_ ?_⟩
      · unfold pos; rw [hh _ (h.oldOk u hr.1).1]
      · intro g hg
        unfold pos
        rw [hh _ (hfst u g ⟨hr.1, hr.2, hg⟩)]; exact ⟨rfl, rfl⟩
      · intro g hg ρ hρ hor hρlt hρreg
        unfold inst
        rw [hh ρ hρlt]
        refine hregi _ _ hρreg ?_
        intro hx
        have hgf : Fr s u g := ⟨hr.1, hr.2, hg⟩
        have hp := h.parOk g.st ρ (hfst u g hgf) hρ
        rw [hx] at hp
        -- the place entered is above the owner of another task
        have hle : T.le x (place s u) = true := by
          rcases hor with hor | hor
          · refine Classical.byContradiction fun hnn => ?_
            have hpl := place_le h hgf
            rcases le_comparable hpl (le_par hp) with hc | hc
            · rw [hx] at hor; rw [show place s u = (s.heap (s.tasks u).old).pos from rfl] at hc; rw [hc] at hor; cases hor
            · exact hnn hc
          · rw [show place s u = pos s (s.tasks u).old from rfl, ← hor]; exact le_par hp
        have hpt : T.le (place s t) x = true := by
          have := hchain.le ⟨s.nextS, old, .waiting⟩ (by simp)
          unfold pos at this
          rw [hn, hko, hh _ (h.oldOk t hlt).1] at this
          exact this
        have := (hapart u hr hut).1
        rw [le_trans hpt hle] at this
        cases this
  · intro u g' hg'
    rcases hback u g' hg' with rfl | ⟨g, hg, e, _⟩
    · unfold inst; rw [hn, e3, upd_same]
    · unfold inst
      rw [← e, hh _ (hfst u g hg)]
      exact hregi _ _ (h.frReg u g hg) (hpx u g hg)
  · intro u g' hg' o ho
    rcases hback u g' hg' with rfl | ⟨g, hg, e, e', _⟩
    · simp only at ho
      subst ho
      obtain ⟨a, b, c⟩ := h.regOk _ _ hold.1
      unfold pos
      rw [hn, hh o a, e2, e4]
      exact ⟨by omega, hold.2, c⟩
    · obtain ⟨a, b, c⟩ := h.frOld u g hg o (by rw [e']; exact ho)
      unfold pos
      rw [hh o a, ← e, hh _ (hfst u g hg), e2, e4]
      exact ⟨by omega, b, c⟩
  · intro u g' hg' hp
    rcases hback u g' hg' with rfl | ⟨g, hg, e, e', _, e''⟩
    · rw [hn]
    · rcases e'' with rfl | hm
      · rw [hh _ (hfst u g' hg)]; exact h.frNew u g' hg hp
      · obtain ⟨l, hl⟩ := hchain.outer g' hm
        exact absurd hl (hp l)
  · intro u g' hg' l hl
    rcases hback u g' hg' with rfl | ⟨g, hg, e, e', _, e''⟩
    · cases hl
    · rcases e'' with rfl | hm
      · unfold pos; rw [hh _ (hfst u g' hg)]; exact h.frKids u g' hg l hl
      · unfold pos; rw [← e, hh _ (hfst u g hg), e]; exact hkk g' hm l hl
  · intro u v hu hv hne
    have hpl : ∀ w, Running s' w → place s' w = place s w := by
      intro w hw
      unfold place
      rw [(hnt w).1, hh]
      exact (h.oldOk w (by rw [← e6]; exact hw.1)).1
    rw [hpl u hu, hpl v hv]
    rcases hR u hu with rfl | ⟨hut, hru, _⟩ <;> rcases hR v hv with rfl | ⟨hvt, hrv, _⟩
    · exact absurd rfl hne
    · exact (hapart v hrv hvt).1
    · exact (hapart u hru hut).2
    · exact h.apart u v hru hrv hne
  · intro u hu
    by_cases hut : u = t
    · subst hut; rw [et u, if_pos rfl]; exact hkp
    · rw [et u, if_neg hut] at hu ⊢
      split at hu
      · exact absurd hu (cancel_stat _).2.1
      · rename_i hbi; rw [if_neg hbi]; exact h.live u hu
  · intro j ρ z hz hj hp hbz hhold
    rcases hreg j ρ hj with ⟨rfl, rfl⟩ | ⟨hji, hj, hρ, hρx⟩
    · unfold pos at hp
      rw [hn] at hp
      simp only at hp
      have hzx : z ≠ x := by
        rintro rfl
        have := T.depth_par _ _ hp
        omega
      have : hz = old := by
        rcases hhold with ⟨u, g', hg', a, b, c⟩ | ⟨hno, _⟩
        · rcases hback u g' hg' with rfl | ⟨g, hg, e, _⟩
          · exact c
          · exfalso
            have := hfst u g hg
            rw [e, a] at this
            omega
        · exact absurd trivial (hno t ⟨s.nextS, old, .waiting⟩ ((hF t _).2 (.inl ⟨rfl, .inl rfl⟩)) rfl)
      subst this
      cases hz with
      | none =>
        refine ⟨fun i' σ hi' hσ => ?_, fun o σ ho => by cases ho⟩
        rcases hreg i' σ hi' with ⟨rfl, rfl⟩ | ⟨_, hi', hσlt, _⟩
        · unfold pos at hσ; rw [hn] at hσ; exact absurd hσ.symm hzx
        · unfold pos at hσ
          rw [hh σ hσlt] at hσ
          obtain ⟨j', ρ', hj', hρ'⟩ := h.up i' σ x hi' (by unfold pos; rw [hσ]; exact hp)
          exact absurd hρ' (hold.2 j' ρ' hj')
      | some o =>
        obtain ⟨ho, hox⟩ := hold
        have holt := (h.regOk _ _ ho).1
        obtain ⟨a, b⟩ := h.edge _ o z (some o) ho (by rw [hox]; exact hp) (fun hbz' => hbz (hB z hbz')) (holder_self (by rw [hox]; exact hb))
        refine ⟨fun i' σ hi' hσ => ?_, fun o' σ ho' hm => ?_⟩
        · rcases hreg i' σ hi' with ⟨rfl, rfl⟩ | ⟨_, hi', hσlt, _⟩
          · unfold pos at hσ; rw [hn] at hσ; exact absurd hσ.symm hzx
          · unfold pos at hσ
            rw [hh σ hσlt] at hσ ⊢
            obtain ⟨o', ho', c, d⟩ := a i' σ hi' hσ
            refine ⟨o', ho', ?_, d⟩
            cases ho'
            rw [hh o holt]; exact c
        · cases ho'
          rw [hh o holt] at hm
          obtain ⟨k1, _, k3, _⟩ := h.kidOk o holt _ hm
          unfold inst
          rw [hh σ k3]
          exact hregi _ _ (b o σ rfl hm) (by rw [k1]; exact hzx)
    · unfold pos at hp
      rw [hh ρ hρ] at hp
      have hzx : z ≠ x := by rintro rfl; exact hbz hBx
      have hsame : Holder s ρ z hz := by
        rcases hhold with ⟨u, g', hg', a, b, c⟩ | ⟨hno, e⟩
        · rcases hback u g' hg' with rfl | ⟨g, hg, e, e', e'', _⟩
          · simp only at a; omega
          · exact .inl ⟨u, g, hg, by rw [e, a], (e'' z hzx).2 b, by rw [c, e']⟩
        · refine .inr ⟨fun u g hg a b => ?_, e⟩
          obtain ⟨g', hg', c, _, d⟩ := hforth u g hg
          exact hno u g' hg' (by rw [c, a]) ((d z hzx).1 b)
      obtain ⟨a, b⟩ := h.edge j ρ z hz hj hp (fun hbz' => hbz (hB z hbz')) hsame
      have holt : ∀ o, hz = some o → o < s.nextS := by
        intro o ho
        rcases hsame with ⟨u, g, hg, _, _, e3⟩ | ⟨_, e⟩
        · exact (h.frOld u g hg o (by rw [← e3]; exact ho)).1
        · rw [e] at ho; cases ho; exact hρ
      refine ⟨fun i' σ hi' hσ => ?_, fun o σ ho hm => ?_⟩
      · rcases hreg i' σ hi' with ⟨rfl, rfl⟩ | ⟨_, hi', hσlt, _⟩
        · unfold pos at hσ; rw [hn] at hσ; exact absurd hσ.symm hzx
        · unfold pos at hσ
          rw [hh σ hσlt] at hσ ⊢
          obtain ⟨o, ho, c, d⟩ := a i' σ hi' hσ
          exact ⟨o, ho, by rw [hh o (holt o ho)]; exact c, d⟩
      · rw [hh o (holt o ho)] at hm
        obtain ⟨k1, _, k3, _⟩ := h.kidOk o (holt o ho) _ hm
        unfold inst
        rw [hh σ k3]
        exact hregi _ _ (b o σ ho hm) (by rw [k1]; exact hzx)
  · intro u hu hst
    rw [e6] at hu
    have hut : u ≠ t := by
      rintro rfl
      rw [hrt.2] at hst; cases hst
    rw [et u, if_neg hut] at hst ⊢
    by_cases hbi : s.byId i = some u
    · rw [if_pos hbi] at hst; exact absurd hst (cancel_stat _).1
    · rw [if_neg hbi] at hst ⊢
      obtain ⟨a, b, c, d, e⟩ := h.created u hu hst
      have hoi : (s.tasks u).owner ≠ i := by rintro rfl; exact hbi a
      refine ⟨eb' _ _ a hoi, by rw [e7, e8]; exact b, c, d, fun σ hσ => ?_⟩
      rw [e3, upd_ne _ _ hoi] at hσ
      exact e σ hσ
  · intro v g' hg' hp u hu hst
    rw [e6] at hu
    have hut : u ≠ t := by
      rintro rfl
      rw [hrt.2] at hst; cases hst
    rw [et u, if_neg hut] at hst
    rw [(hnt u).2]
    by_cases hbi : s.byId i = some u
    · rw [if_pos hbi] at hst; exact absurd hst (cancel_stat _).1
    · rw [if_neg hbi] at hst
      rcases hback v g' hg' with rfl | ⟨g, hg, e, e', _, e''⟩
      · unfold inst
        rw [hn]
        intro ho
        have := (h.created u hu hst).1
        rw [ho] at this
        exact hbi this
      · rcases e'' with rfl | hm
        · unfold inst; rw [hh _ (hfst v g' hg)]; exact h.window v g' hg hp u hu hst
        · obtain ⟨l, hl⟩ := hchain.outer g' hm
          exact absurd hl (hp l)
  · intro u
    by_cases hut : u = t
    · subst hut; rw [hrt.2]; simp
    · rw [et u, if_neg hut]
      split
      · exact (cancel_stat _).2.2 (h.ok u)
      · exact h.ok u
  · rw [e9]; exact hlog
  · intro σ ρ hσ hρ
    rw [e2] at hσ
    by_cases hs : σ = s.nextS
    · subst hs
      rw [hn] at hρ
      exact (hpar ρ hρ).1
    · rw [hh σ (by omega)] at hρ
      exact h.parLt σ ρ (by omega) hρ
  · intro σ hσ
    rw [e4] at hσ
    rw [e2]
    have := h.freeLt σ hσ
    omega
  · intro σ hσ hp
    rw [e2] at hσ
    unfold pos
    by_cases hs : σ = s.nextS
    · subst hs
      rw [hn] at hp ⊢
      exact hparn hp
    · rw [hh σ (by omega)] at hp ⊢
      exact h.parNone σ (by omega) hp
  · have key : ∀ σ, σ < s.nextS → inst s σ = i → pos s σ = x := by
      intro σ hσ hi'
      cases old with
      | none =>
        have := h.instLt σ hσ
        have := hold.1
        omega
      | some o =>
        obtain ⟨a, b, _⟩ := h.regOk _ _ hold.1
        rw [h.instPos σ o hσ a (by rw [hi', b])]
        exact hold.2
    intro σ τ hσ hτ hi'
    rw [e2] at hσ hτ
    unfold inst at hi'
    unfold pos
    by_cases hs : σ = s.nextS <;> by_cases ht : τ = s.nextS
    · rw [hs, ht]
    · subst hs
      rw [hn, hh τ (by omega)] at hi' ⊢
      exact (key τ (by omega) hi'.symm).symm
    · subst ht
      rw [hn, hh σ (by omega)] at hi' ⊢
      exact key σ (by omega) hi'
    · rw [hh σ (by omega), hh τ (by omega)] at hi' ⊢
      exact h.instPos σ τ (by omega) (by omega) hi'

theorem inv_start {s : St} {t : Nat} (h : Inv T s) (hc : Calm T s (.start t)) : Inv T (step T s (.start t)) := by
  simp only [step]
  split
  · rename_i hk
    obtain ⟨hlt, hst⟩ := hk
    obtain ⟨hreg, hcalm⟩ := hc hst
    obtain ⟨hby, _, hstack, hpick, hcur⟩ := h.created t hlt hst
    obtain ⟨hol, hoi⟩ := h.oldOk t hlt
    have hreg : s.reg (s.tasks t).owner = some (s.tasks t).old := by
      cases hr : s.reg (s.tasks t).owner with
      | none => exact absurd hr hreg
      | some σ => rw [hcur σ hr]
    have hfree : ∀ x, T.le x (place s t) = true ∨ T.le (place s t) x = true → ¬ Busy s x := fun x hx => calm_free h hcalm hx
    have hpar : ∀ ρ, (s.heap (s.tasks t).old).parent = some ρ →
        ρ < s.nextS ∧ T.par (place s t) = some (pos s ρ) ∧ s.reg (inst s ρ) = some ρ := by
      intro ρ hρ
      have hp := h.parOk _ _ hol hρ
      obtain ⟨j, ρ', hj, hρ'⟩ := h.up _ _ _ hreg hp
      have := (child_of h hreg hj (by rw [hρ']; exact hp) (hfree _ (.inl (le_refl _))) (hfree _ (.inl (by rw [hρ']; exact le_par hp)))).2
      rw [hρ] at this
      cases this
      obtain ⟨a, b, _⟩ := h.regOk _ _ hj
      exact ⟨a, hp, by rw [b]; exact hj⟩
    have hnf : ((s.heap (s.tasks t).old).parent.any s.freed) = false := by
      cases hp : (s.heap (s.tasks t).old).parent with
      | none => rfl
      | some ρ => exact (h.regOk _ _ (hpar ρ hp).2.2).2.2
    rw [if_neg (by rw [hnf]; simp)]
    refine enter_inv h (k := { s.tasks t with stat := .running }) rfl hlt rfl rfl rfl hpick rfl rfl (Nat.le_refl _) rfl rfl rfl rfl rfl rfl
      h.clean (hfree _ (.inl (le_refl _))) (h.instLt _ hol) hpar (h.parNone _ hol) (fun q hq => h.up _ _ q hreg hq)
      ⟨by rw [show (s.heap (s.tasks t).old).inst = _ from hoi]; exact hreg, rfl⟩ ?_ (fun u hu _ => ⟨(hcalm u hu).2, (hcalm u hu).1⟩) ?_ ?_ ?_ ?_
    · intro u hu hut ho
      obtain ⟨a, b⟩ := h.oldOk u hu.1
      have := h.instPos _ _ a hol (by rw [b]; exact ho)
      have := (hcalm u hu).1
      rw [show place s u = place s t from ‹_›, le_refl] at this
      cases this
    · intro g' hg'
      simp only [hstack] at hg'
      simp at hg'
    · intro g hg
      have := hg.2.1
      rw [hst] at this; cases this
    · intro g' hg'
      simp only [hstack] at hg'
      simp at hg'
    · intro s' e1 e2 hr
      simp only [hstack]
      have hn : s'.heap s.nextS = ⟨(s.heap (s.tasks t).old).pos, (s.heap (s.tasks t).old).inst, (s.heap (s.tasks t).old).parent, []⟩ := by
        rw [e1, upd_same]
      refine ⟨?_, fun ρ hρ => ?_⟩
      · unfold pos
        simp only [hn]
        rw [e1, upd_ne _ _ (by omega)]
      · simp only [hn] at hρ
        obtain ⟨a, b, c⟩ := hpar ρ hρ
        refine ⟨by omega, ?_⟩
        unfold inst
        rw [e1, upd_ne _ _ (by omega)]
        refine hr ρ a ?_ c
        intro hx
        have := T.depth_par _ _ b
        rw [hx] at this
        exact absurd this (by unfold place; omega)
  · exact h

theorem lookup_mem {x σ : Nat} : ∀ {l : List (Nat × Nat)}, l.lookup x = some σ → (x, σ) ∈ l
  | [], h => by simp at h
  | (a, b) :: r, h => by
    rw [List.lookup_cons] at h
    split at h
    · rename_i he
      cases h
      have : x = a := by simpa using he
      subst this; simp
    · exact List.mem_cons_of_mem _ (lookup_mem h)

theorem lookup_none {x σ : Nat} : ∀ {l : List (Nat × Nat)}, l.lookup x = none → (x, σ) ∉ l
  | [], _ => by simp
  | (a, b) :: r, h => by
    rw [List.lookup_cons] at h
    split at h
    · cases h
    · rename_i he
      intro hm
      rcases List.mem_cons.1 hm with hm | hm
      · cases hm; simp at he
      · exact lookup_none h hm

theorem inv_next {s : St} {t : Nat} (h : Inv T s) : Inv T (step T s (.next t)) := by
  simp only [step]
  split
  · rename_i o d y p c cs fs b he
    have hlt : t < s.nextT := running_lt h (by rw [he])
    have hrun : Running s t := ⟨hlt, by rw [he]⟩
    have hft : Fr s t ⟨y, p, .kids (c :: cs)⟩ := ⟨hlt, by rw [he], by rw [he]; simp⟩
    have hyreg : s.reg (inst s y) = some y := h.frReg t _ hft
    have hylt := (h.regOk _ _ hyreg).1
    obtain ⟨hnd, hkp⟩ := h.frKids t _ hft _ rfl
    have hcp : T.par c = some (pos s y) := hkp c (by simp)
    have hcy : c ≠ pos s y := by
      intro hh
      have := T.depth_par _ _ hcp
      rw [hh] at this
      omega
    have hb : ¬ Busy s c := top_free h (f := ⟨y, p, .kids (c :: cs)⟩) (fs := fs) hrun (by rw [he]) (le_par hcp) hcy
    have hle : T.le (place s t) c = true := le_trans (place_le h hft) (le_par hcp)
    have hhold : Holder s y c p := .inl ⟨t, _, hft, rfl, by simp [pend], rfl⟩
    obtain ⟨ed1, ed2⟩ := h.edge _ y c p hyreg hcp hb hhold
    have hch0 := (h.chain t hrun).2
    have hpick := h.live t hrun.2
    rw [he] at hch0 hpick
    have hfs : ∀ g ∈ fs, Fr s t g := fun g hg => ⟨hlt, by rw [he], by rw [he]; simp [hg]⟩
    have hap : ∀ u, Running s u → u ≠ t → T.le (place s t) (place s u) = false ∧ T.le (place s u) (place s t) = false :=
      fun u hu hut => ⟨h.apart t u hrun hu (Ne.symm hut), h.apart u t hu hrun hut⟩
    have hpar : ∀ ρ, some y = some ρ → ρ < s.nextS ∧ T.par c = some (pos s ρ) ∧ s.reg (inst s ρ) = some ρ := by
      intro ρ hρ; cases hρ; exact ⟨hylt, hcp, hyreg⟩
    have hup : ∀ q, T.par c = some q → ∃ j ρ, s.reg j = some ρ ∧ pos s ρ = q := by
      intro q hq; rw [hcp] at hq; cases hq; exact ⟨_, y, hyreg, rfl⟩
    have hsim : ∀ g' ∈ (⟨y, p, .kids cs⟩ :: fs : List Frame), ∃ g, Fr s t g ∧ g.st = g'.st ∧ g.old = g'.old ∧ ∀ z, z ≠ c → (pend g z ↔ pend g' z) := by
      intro g' hg'
      rcases List.mem_cons.1 hg' with rfl | hg'
      · exact ⟨_, hft, rfl, rfl, fun z hz => by simp [pend, hz]⟩
      · exact ⟨g', hfs g' hg', rfl, rfl, fun _ _ => Iff.rfl⟩
    have hsim' : ∀ g, Fr s t g → ∃ g' ∈ (⟨y, p, .kids cs⟩ :: fs : List Frame), g'.st = g.st ∧ g'.old = g.old ∧ ∀ z, z ≠ c → (pend g z ↔ pend g' z) := by
      intro g hg
      have := hg.2.2
      rw [he] at this
      rcases List.mem_cons.1 this with rfl | hm
      · exact ⟨⟨y, p, .kids cs⟩, by simp, rfl, rfl, fun z hz => by simp [pend, hz]⟩
      · exact ⟨g, by simp [hm], rfl, rfl, fun _ _ => Iff.rfl⟩
    have hkk : ∀ g' ∈ (⟨y, p, .kids cs⟩ :: fs : List Frame), ∀ l, g'.phase = .kids l → l.Nodup ∧ ∀ c ∈ l, T.par c = some (pos s g'.st) := by
      intro g' hg' l hl
      rcases List.mem_cons.1 hg' with rfl | hg'
      · cases hl
        exact ⟨(List.nodup_cons.1 hnd).2, fun z hz => hkp z (by simp [hz])⟩
      · exact h.frKids t g' (hfs g' hg') l hl
    have hch : ∀ {i : Nat} {q : Option Nat} {s' : St}, s'.heap = upd s.heap s.nextS ⟨c, i, some y, []⟩ → s'.nextS = s.nextS + 1 →
        (∀ ρ, ρ < s.nextS → pos s ρ ≠ c → s.reg (inst s ρ) = some ρ → s'.reg (inst s ρ) = some ρ) →
        Chain T s' d (⟨s.nextS, q, .waiting⟩ :: ⟨y, p, .kids cs⟩ :: fs) := by
      intro i q s' e1 e2 hr
      have hn : s'.heap s.nextS = ⟨c, i, some y, []⟩ := by rw [e1, upd_same]
      have hh : ∀ σ, σ < s.nextS → s'.heap σ = s.heap σ := by
        intro σ hσ; rw [e1, upd_ne _ _ (by omega)]
      have hdl : d < s.nextS := by have := (h.oldOk t hlt).1; rw [he] at this; exact this
      have hdp : place s t = pos s d := by unfold place; rw [he]
      refine ⟨congrArg MS.parent hn, by unfold pos; simp only [hn]; rw [hh y hylt]; exact hcp, ⟨cs, rfl, by unfold pos; simp only [hn]; exact (List.nodup_cons.1 hnd).1⟩, ?_⟩
      have c' : Chain T s d (⟨y, p, .kids cs⟩ :: fs) := by
        cases fs with
        | nil => exact hch0
        | cons g r => exact hch0
      have hfr : ∀ g ∈ (⟨y, p, .kids cs⟩ :: fs : List Frame), g.st < s.nextS ∧ T.le (pos s d) (pos s g.st) = true := by
        intro g hg
        obtain ⟨g0, a, b', _⟩ := hsim g hg
        rw [← b', ← hdp]
        exact ⟨(h.regOk _ _ (h.frReg t g0 a)).1, place_le h a⟩
      refine c'.mono (by unfold pos; rw [hh d hdl]) (by omega) (fun g hg => by unfold pos; rw [hh _ (hfr g hg).1]; exact ⟨rfl, rfl⟩) ?_
      intro g hg ρ hρ hor hρlt hρreg
      unfold inst
      rw [hh ρ hρlt]
      refine hr ρ hρlt ?_ hρreg
      intro hx
      rw [hdp] at hle
      rcases hor with hor | hor
      · rw [hx, hle] at hor; cases hor
      · have h1 := T.depth_par _ _ (h.parOk g.st ρ (hfr g hg).1 hρ)
        have h2 := (le_depth hle).1
        rw [hor, hx] at h1
        omega
    split
    · rename_i σ hσ
      obtain ⟨ρ, hρ, hk⟩ : ∃ ρ, p = some ρ ∧ kid s ρ c = some σ := by
        cases p with
        | none => cases hσ
        | some ρ => exact ⟨ρ, rfl, hσ⟩
      have hm : (c, σ) ∈ (s.heap ρ).kids := lookup_mem hk
      have hσreg := ed2 ρ σ hρ hm
      have hσlt := (h.regOk _ _ hσreg).1
      have hσpos : pos s σ = c := (h.kidOk ρ (h.frOld t _ hft ρ hρ).1 _ hm).1
      refine enter_inv h (k := ⟨o, d, .running, ⟨y, p, .kids cs⟩ :: fs, b⟩) rfl hlt rfl (by rw [he]) (by rw [he]) hpick rfl rfl (Nat.le_refl _)
        rfl rfl rfl rfl rfl rfl h.clean hb (h.instLt σ hσlt) hpar (by simp) hup ⟨hσreg, hσpos⟩ ?_ hap hsim hsim' hkk hch
      intro u hu hut ho
      obtain ⟨a, b'⟩ := h.oldOk u hu.1
      have hpl := h.instPos _ _ a hσlt (by rw [b']; exact ho)
      have := (hap u hu hut).1
      rw [show place s u = c from hpl.trans hσpos, hle] at this
      cases this
    · rename_i hσ
      have hno : ∀ j σ, s.reg j = some σ → pos s σ ≠ c := by
        intro j σ hj hx
        obtain ⟨ρ, hρ, hm, _⟩ := ed1 j σ hj hx
        subst hρ
        exact lookup_none hσ hm
      refine enter_inv h (k := ⟨o, d, .running, ⟨y, p, .kids cs⟩ :: fs, b⟩) rfl hlt rfl (by rw [he]) (by rw [he]) hpick rfl rfl (Nat.le_succ _)
        rfl rfl rfl rfl rfl rfl ?_ hb (Nat.lt_succ_self _) hpar (by simp) hup ⟨Nat.le_refl _, hno⟩ ?_ hap hsim hsim' hkk hch
      · intro t' x i hm
        rcases List.mem_cons.1 hm with hm | hm
        · cases hm
        · exact h.clean t' x i hm
      · intro u hu hut ho
        obtain ⟨a, b'⟩ := h.oldOk u hu.1
        have := h.instLt _ a
        rw [b', ho] at this
        exact absurd this (Nat.lt_irrefl _)
  · exact h

/-! ### A call returns -/

theorem Chain.uniq {s : St} {o : Nat} : ∀ {fs : List Frame}, Chain T s o fs → ∀ f ∈ fs, ∀ g ∈ fs, pos s f.st = pos s g.st → f = g
  | [], _, _, h, _, _, _ => by simp at h
  | a :: r, h, f, hf, g, hg, e => by
    rcases List.mem_cons.1 hf with hf | hf <;> rcases List.mem_cons.1 hg with hg | hg
    · rw [hf, hg]
    · have := Chain.depth h g hg
      rw [hf] at e
      rw [e] at this
      exact absurd this (Nat.lt_irrefl _)
    · have := Chain.depth h f hf
      rw [hg] at e
      rw [e] at this
      exact absurd this (Nat.lt_irrefl _)
    · cases r with
      | nil => simp at hf
      | cons b r => exact Chain.uniq h.tail f hf g hg e

theorem fr_uniq {s : St} (h : Inv T s) {t u : Nat} {f g : Frame} (hf : Fr s t f) (hg : Fr s u g) (e : pos s f.st = pos s g.st) : t = u ∧ f = g := by
  have := fr_same h hf hg (by rw [e]; exact le_refl _)
  subst this
  exact ⟨rfl, (h.chain t hf.running).2.uniq f hf.2.2 g hg.2.2 e⟩

theorem inv_finish {s : St} {t : Nat} (h : Inv T s) : Inv T (step T s (.finish t)) := by
  simp only [step]
  split
  · rename_i o d y p fs b he
    have hlt : t < s.nextT := running_lt h (by rw [he])
    have hrun : Running s t := ⟨hlt, by rw [he]⟩
    have hft : Fr s t ⟨y, p, .kids []⟩ := ⟨hlt, by rw [he], by rw [he]; simp⟩
    have hyreg : s.reg (inst s y) = some y := h.frReg t _ hft
    have hylt := (h.regOk _ _ hyreg).1
    have hch := (h.chain t hrun).2
    have hpick := h.live t hrun.2
    rw [he] at hch hpick
    have hfs : ∀ g ∈ fs, Fr s t g := fun g hg => ⟨hlt, by rw [he], by rw [he]; simp [hg]⟩
    have habove : above s y fs = (s.heap y).parent := by
      cases fs with
      | nil => rfl
      | cons g r => exact hch.1.symm
    -- the parent is registered, and no call of its own waits for the child
    have hpr : ∀ ρ, (s.heap y).parent = some ρ → s.reg (inst s ρ) = some ρ ∧ ρ < s.nextS ∧ T.par (pos s y) = some (pos s ρ) ∧
        ∀ u g, Fr s u g → pos s g.st = pos s ρ → g ∈ fs ∧ ∃ l, g.phase = .kids l ∧ pos s y ∉ l := by
      intro ρ hρ
      have hlt' := h.parLt y ρ hylt hρ
      have hp := h.parOk y ρ hylt hρ
      refine ⟨?_, by omega, hp, ?_⟩
      · cases fs with
        | nil => exact (hch.2 ρ hρ).2
        | cons g r =>
          have := hch.1
          rw [hρ] at this
          cases this
          exact h.frReg t g (hfs g (by simp))
      · intro u g hg hgp
        have hut := fr_same h hg hft (by rw [hgp]; exact le_par hp)
        subst hut
        have hm := hg.2.2
        rw [he] at hm
        rcases List.mem_cons.1 hm with rfl | hm
        · exfalso
          have := T.depth_par _ _ hp
          rw [← hgp] at this
          simp only at this
          omega
        · refine ⟨hm, ?_⟩
          cases fs with
          | nil => simp at hm
          | cons f r =>
            have h1 := hch.1
            rw [hρ] at h1
            cases h1
            have := (fr_uniq h hg (hfs f (by simp)) hgp).2
            subst this
            exact hch.2.2.1
    generalize hnew : attach s y (above s y fs) = hp'
    rw [habove] at hnew
    generalize hs' : ({ s.put t ⟨o, d, if fs.isEmpty then .done else .running, fs, b⟩ with
        access := upd s.access (s.heap y).inst none, heap := hp' } : St) = s'
    have q1 : s'.heap = hp' := by rw [← hs']
    have q2 : s'.nextS = s.nextS := by rw [← hs']; rfl
    have q3 : s'.nextI = s.nextI := by rw [← hs']; rfl
    have q4 : s'.reg = s.reg := by rw [← hs']; rfl
    have q5 : s'.freed = s.freed := by rw [← hs']; rfl
    have q6 : s'.byId = s.byId := by rw [← hs']; rfl
    have q7 : s'.nextT = s.nextT := by rw [← hs']; rfl
    have q8 : s'.flag = s.flag := by rw [← hs']; rfl
    have q9 : s'.rendered = s.rendered := by rw [← hs']; rfl
    have q10 : s'.log = s.log := by rw [← hs']; rfl
    have qt : s'.tasks = upd s.tasks t ⟨o, d, if fs.isEmpty then .done else .running, fs, b⟩ := by rw [← hs']; rfl
    clear hs'
    -- only the children of the parent change
    have hk : ∀ σ, (s'.heap σ).pos = (s.heap σ).pos ∧ (s'.heap σ).inst = (s.heap σ).inst ∧ (s'.heap σ).parent = (s.heap σ).parent ∧
        ((s.heap y).parent ≠ some σ → (s'.heap σ).kids = (s.heap σ).kids) ∧
        ((s.heap y).parent = some σ → ∀ x τ, (x, τ) ∈ (s'.heap σ).kids ↔ (x = pos s y ∧ τ = y) ∨ (x ≠ pos s y ∧ (x, τ) ∈ (s.heap σ).kids)) := by
      intro σ
      rw [q1, ← hnew]
      cases hpy : (s.heap y).parent with
      | none => simp [attach]
      | some ρ =>
        simp only [attach, upd_apply]
        split
        · rename_i hσ
          subst hσ
          refine ⟨rfl, rfl, rfl, fun hh => absurd rfl hh, fun _ x τ => ?_⟩
          simp only [setKid, List.mem_cons, List.mem_filter, Prod.mk.injEq, bne_iff_ne, ne_eq]
          constructor
          · rintro (⟨a, b⟩ | ⟨a, b⟩)
            · exact .inl ⟨a, b⟩
            · exact .inr ⟨b, a⟩
          · rintro (⟨a, b⟩ | ⟨a, b⟩)
            · exact .inl ⟨a, b⟩
            · exact .inr ⟨b, a⟩
        · rename_i hσ
          refine ⟨rfl, rfl, rfl, fun _ => rfl, fun hh => ?_⟩
          cases hh
          exact absurd rfl hσ
    have kp : ∀ σ, pos s' σ = pos s σ := fun σ => (hk σ).1
    have ki : ∀ σ, inst s' σ = inst s σ := fun σ => (hk σ).2.1
    have kr : ∀ σ, (s'.heap σ).parent = (s.heap σ).parent := fun σ => (hk σ).2.2.1
    have hnt : ∀ u, (s'.tasks u).old = (s.tasks u).old ∧ (s'.tasks u).owner = (s.tasks u).owner ∧ (s'.tasks u).picked = (s.tasks u).picked := by
      intro u
      rw [qt]
      by_cases hu : u = t
      · subst hu; rw [he]; simp
      · simp [upd_ne _ _ hu]
    have hother : ∀ u, u ≠ t → s'.tasks u = s.tasks u := by
      intro u hu; rw [qt, upd_ne _ _ hu]
    have hself : s'.tasks t = ⟨o, d, if fs.isEmpty then .done else .running, fs, b⟩ := by rw [qt, upd_same]
    have hR : ∀ u, Running s' u → Running s u := by
      intro u hu
      by_cases hut : u = t
      · rw [hut]; exact hrun
      · exact ⟨by rw [← q7]; exact hu.1, by rw [← hother u hut]; exact hu.2⟩
    have hF : ∀ u g, Fr s' u g ↔ (u = t ∧ g ∈ fs) ∨ (u ≠ t ∧ Fr s u g) := by
      intro u g
      by_cases hut : u = t
      · subst hut
        unfold Fr
        rw [hself, q7]
        simp only [hlt, true_and, ne_eq, not_true, false_and, or_false]
        constructor
        · exact fun hh => hh.2
        · intro hm
          cases fs with
          | nil => simp at hm
          | cons f r => exact ⟨by simp, hm⟩
      · unfold Fr
        rw [hother u hut, q7]
        simp [hut]
    have hback : ∀ u g, Fr s' u g → Fr s u g := by
      intro u g hg
      rcases (hF u g).1 hg with ⟨rfl, hm⟩ | ⟨_, hm⟩
      · exact hfs g hm
      · exact hm
    have hforth : ∀ u g, Fr s u g → g.st ≠ y → Fr s' u g := by
      intro u g hg hgy
      by_cases hut : u = t
      · subst hut
        have hm := hg.2.2
        rw [he] at hm
        rcases List.mem_cons.1 hm with rfl | hm
        · exact absurd rfl hgy
        · exact (hF u g).2 (.inl ⟨rfl, hm⟩)
      · exact (hF u g).2 (.inr ⟨hut, hg⟩)
    have htop : ∀ u g, Fr s u g → g.st = y → g = ⟨y, p, .kids []⟩ := fun u g hg e => (fr_uniq h hg hft (by rw [e])).2
    have hst : ∀ u, u ≠ t → (s'.tasks u).stat = (s.tasks u).stat := fun u hu => by rw [hother u hu]
    have hcr : ∀ u, (s'.tasks u).stat = .created → u ≠ t := by
      rintro u hu rfl
      rw [hself] at hu
      simp only at hu
      split at hu <;> cases hu
    refine ⟨?_, ?_, ?_, ?_, ?_, ?_, ?_, ?_, ?_, ?_, ?_, ?_, ?_, ?_, ?_, ?_, ?_, ?_, ?_, ?_, ?_, ?_, ?_, ?_, ?_⟩
    · intro i σ hi
      rw [q4] at hi
      rw [q2, ki, q5]; exact h.regOk i σ hi
    · intro σ hσ
      rw [q2] at hσ
      rw [ki, q3]; exact h.instLt σ hσ
    · intro i j σ τ hi hj e
      rw [q4] at hi hj
      rw [kp, kp] at e
      exact h.uniq i j σ τ hi hj e
    · intro σ hσ e hm
      rw [q2] at hσ ⊢
      rw [kp, kp]
      by_cases hps : (s.heap y).parent = some σ
      · rcases ((hk σ).2.2.2.2 hps e.1 e.2).1 hm with ⟨a, c⟩ | ⟨_, hm⟩
        · rw [a, c]
          exact ⟨rfl, h.parLt y σ hylt hps, hylt, (hpr σ hps).2.2.1⟩
        · exact h.kidOk σ hσ e hm
      · rw [(hk σ).2.2.2.1 hps] at hm
        exact h.kidOk σ hσ e hm
    · intro σ ρ hσ hρ
      rw [q2] at hσ
      rw [kr] at hρ
      rw [kp, kp]; exact h.parOk σ ρ hσ hρ
    · intro i σ q hi hq
      rw [q4] at hi ⊢
      rw [kp] at hq
      obtain ⟨j, ρ, hj, hρ⟩ := h.up i σ q hi hq
      exact ⟨j, ρ, hj, by rw [kp]; exact hρ⟩
    · intro u hu
      rw [q7] at hu
      rw [hother u (by omega)]; exact h.stale u hu
    · intro u hu
      rw [q7] at hu
      rw [(hnt u).1, (hnt u).2.1, ki, q2]; exact h.oldOk u hu
    · intro i u hu
      rw [q6] at hu
      rw [q7, (hnt u).2.1]; exact h.byIdOk i u hu
    · intro u hu
      have hc := (h.chain u (hR u hu))
      have hmono : ∀ {l : List Frame}, Chain T s (s.tasks u).old l → Chain T s' (s.tasks u).old l := by
        intro l hc
        refine hc.mono (kp _) (by omega) (fun g _ => ⟨kp _, kr _⟩) ?_
        intro g _ ρ _ _ _ hr
        rw [ki, q4]; exact hr
      rw [(hnt u).1]
      by_cases hut : u = t
      · subst hut
        rw [hself]
        have hu2 := hu.2
        rw [hself] at hu2
        cases fs with
        | nil => simp at hu2
        | cons f r =>
          refine ⟨by simp, hmono ?_⟩
          rw [he]
          exact hch.tail
      · rw [hother u hut]
        exact ⟨hc.1, hmono hc.2⟩
    · intro u g hg
      rw [ki, q4]; exact h.frReg u g (hback u g hg)
    · intro u g hg q hq
      rw [kp, kp, q2, q5]; exact h.frOld u g (hback u g hg) q hq
    · intro u g hg hph
      have hg' := hback u g hg
      rw [(hk g.st).2.2.2.1]
      · exact h.frNew u g hg' hph
      · intro hps
        obtain ⟨_, l, hl, _⟩ := (hpr g.st hps).2.2.2 u g hg' rfl
        exact hph l hl
    · intro u g hg l hl
      rw [kp]; exact h.frKids u g (hback u g hg) l hl
    · intro u v hu hv hne
      have := h.apart u v (hR u hu) (hR v hv) hne
      unfold place at this ⊢
      rw [(hnt u).1, (hnt v).1]
      rw [show (s'.heap (s.tasks u).old).pos = (s.heap (s.tasks u).old).pos from kp _,
        show (s'.heap (s.tasks v).old).pos = (s.heap (s.tasks v).old).pos from kp _]
      exact this
    · intro u hu
      rw [(hnt u).2.2]
      by_cases hut : u = t
      · rw [hut, he]; exact hpick
      · rw [hst u hut] at hu; exact h.live u hu
    · intro j ρ x hh hj hp hb hhold
      rw [q4] at hj
      rw [kp] at hp
      by_cases hx : x = pos s y
      · subst hx
        have hρ : (s.heap y).parent = some ρ := by
          cases hpy : (s.heap y).parent with
          | none => rw [h.parNone y hylt hpy] at hp; cases hp
          | some ρ' =>
            obtain ⟨a, c, e, _⟩ := hpr ρ' hpy
            rw [hp] at e
            injection e with e
            have := h.uniq j _ ρ ρ' hj a e
            rw [this, a] at hj
            exact hj
        have hhs : hh = some ρ := by
          rcases hhold with ⟨u, g, hg, e1, e2, _⟩ | ⟨_, e⟩
          · exfalso
            obtain ⟨_, l, hl, hn⟩ := (hpr ρ hρ).2.2.2 u g (hback u g hg) (by rw [e1])
            unfold pend at e2
            rw [hl] at e2
            exact hn e2
          · exact e
        subst hhs
        refine ⟨fun i σ hi hσ => ?_, fun q σ hq hm => ?_⟩
        · rw [q4] at hi
          rw [kp] at hσ
          have := h.uniq i _ σ y hi hyreg hσ
          rw [this, hyreg] at hi
          cases hi
          exact ⟨ρ, rfl, ((hk ρ).2.2.2.2 hρ _ _).2 (.inl ⟨rfl, rfl⟩), by rw [kr]; exact hρ⟩
        · cases hq
          rcases ((hk ρ).2.2.2.2 hρ _ _).1 hm with ⟨_, e⟩ | ⟨e, _⟩
          · rw [e, ki, q4]; exact hyreg
          · exact absurd rfl e
      · have hb' : ¬ Busy s x := by
          rintro ⟨u, g, hg, e⟩
          refine hb ⟨u, g, hforth u g hg ?_, by rw [kp]; exact e⟩
          intro hy
          rw [hy] at e
          exact hx e.symm
        have hsame : Holder s ρ x hh := by
          rcases hhold with ⟨u, g, hg, e1, e2, e3⟩ | ⟨hno, e⟩
          · exact .inl ⟨u, g, hback u g hg, e1, e2, e3⟩
          · refine .inr ⟨fun u g hg e1 e2 => ?_, e⟩
            by_cases hgy : g.st = y
            · rw [htop u g hg hgy] at e2
              simp [pend] at e2
            · exact hno u g (hforth u g hg hgy) e1 e2
        obtain ⟨a, c⟩ := h.edge j ρ x hh hj hp hb' hsame
        have hmem : ∀ q σ, (x, σ) ∈ (s'.heap q).kids ↔ (x, σ) ∈ (s.heap q).kids := by
          intro q σ
          by_cases hps : (s.heap y).parent = some q
          · rw [(hk q).2.2.2.2 hps]
            simp [hx]
          · rw [(hk q).2.2.2.1 hps]
        refine ⟨fun i σ hi hσ => ?_, fun q σ hq hm => ?_⟩
        · rw [q4] at hi
          rw [kp] at hσ
          obtain ⟨q, hq, hm, hpq⟩ := a i σ hi hσ
          exact ⟨q, hq, (hmem q σ).2 hm, by rw [kr]; exact hpq⟩
        · rw [ki, q4]; exact c q σ hq ((hmem q σ).1 hm)
    · intro u hu hc
      have hut := hcr u hc
      rw [q7] at hu
      rw [hother u hut] at hc ⊢
      rw [q4, q6, q8, q9]; exact h.created u hu hc
    · intro v g hg hph u hu hc
      have hut := hcr u hc
      rw [q7] at hu
      rw [hother u hut] at hc ⊢
      rw [ki]; exact h.window v g (hback v g hg) hph u hu hc
    · intro u
      by_cases hut : u = t
      · subst hut
        rw [hself]
        simp only
        split <;> simp
      · rw [hother u hut]; exact h.ok u
    · rw [q10]; exact h.clean
    · intro σ ρ hσ hρ
      rw [q2] at hσ
      rw [kr] at hρ
      exact h.parLt σ ρ hσ hρ
    · rw [q2, q5]; exact h.freeLt
    · intro σ hσ hρ
      rw [q2] at hσ
      rw [kr] at hρ
      rw [kp]; exact h.parNone σ hσ hρ
    · intro σ τ hσ hτ e
      rw [q2] at hσ hτ
      rw [ki, ki] at e
      rw [kp, kp]; exact h.instPos σ τ hσ hτ e
  · exact h

/-! ### Executions -/

theorem inv_step {s : St} {a : Act} (h : Inv T s) (hc : Calm T s a) : Inv T (step T s a) := by
  cases a with
  | set i => exact inv_set h hc
  | start t => exact inv_start h hc
  | grant t => exact inv_grant h
  | body t kids => exact inv_body h
  | next t => exact inv_next h
  | finish t => exact inv_finish h
  | die t => exact inv_die h
  | pick t => exact inv_pick h
  | free σ => exact inv_free h

theorem inv_run {acts : List Act} : ∀ {s : St}, Inv T s → CalmRun T s acts → Inv T (run T s acts) := by
  induction acts with
  | nil => exact fun h _ => h
  | cons a as ih => exact fun h hc => ih (inv_step h hc.1) hc.2

end Verif.Sched.Heap
