import Verif.Closing.Model
/-!
# C73: leaving a layout ends everything it started
-/
namespace Verif.Closing

/-! ## Specification -/

/-- A task has ended. -/
def Ended (s : St) (t : Nat) : Prop := ∃ o, s.task t = .ended o

/-- Leaving has just begun (layout.py 106): the components of the tree are the registered ones, each once. -/
def Begins (s : St) : Prop :=
  s.pc = .renders 0 s.renders.length ∧ s.stopped = [] ∧ s.tree.ids.Nodup ∧ List.Perm s.reg s.tree.ids

/-- Leaving has returned. -/
def Closed (s : St) : Prop := s.pc = .closed

/-- An exception has left `__aexit__`. -/
def Raised (s : St) : Prop := s.pc = .raised

/-- No render and no event handler's task has failed, and no effect of a displayed component was cancelled by others. -/
def Sound (s : St) : Prop :=
  (∀ t ∈ s.renders ++ s.events, s.task t ≠ .ended .error) ∧
  (∀ x ∈ s.tree.ids, ∀ t ∈ s.effects x, s.task t ≠ .ended .cancelled)

/-- What may happen while leaving: nothing new is started, no render or event task fails, no effect is cancelled by others. -/
def Orderly (s : St) : Act → Prop
  | .close _ => True
  | .finish t o => (o = .error → t ∉ s.renders ++ s.events) ∧
      (o = .cancelled → ∀ x ∈ s.tree.ids, t ∉ s.effects x)
  | .schedule _ => False
  | .deliver _ => False

/-- The effects of a component have ended, or one of them failed (the failure was logged and the others were left alone). -/
def EffectsOver (s : St) (x : Nat) : Prop :=
  (∀ t ∈ s.effects x, Ended s t) ∨ ∃ t ∈ s.effects x, s.task t = .ended .error

/-- The task the leaving task waits for. -/
def Awaits (s : St) (t : Nat) : Prop :=
  (∃ i n, s.pc = .renderWait i n ∧ s.renders[i]? = some t) ∨ (∃ i n, s.pc = .eventWait i n ∧ s.events[i]? = some t) ∨
    ∃ x ks st, s.pc = .effectWait x ks st ∧ t ∈ s.effects x

/-! ## Auxiliary facts -/

theorem idsL_append (a b : List Node) : idsL (a ++ b) = idsL a ++ idsL b := by
  induction a with
  | nil => simp [idsL]
  | cons x a ih => simp [idsL, ih]

theorem idsL_reverse (a : List Node) : List.Perm (idsL a.reverse) (idsL a) := by
  induction a with
  | nil => simp
  | cons x a ih =>
    rw [List.reverse_cons, idsL_append]
    simp only [idsL, List.append_nil]
    exact List.perm_append_comm.trans (List.Perm.append_left _ ih)

/-- The parts of the state that only other tasks change. -/
structure Same (s u : St) : Prop where
  tree : u.tree = s.tree
  renders : u.renders = s.renders
  events : u.events = s.events
  effects : u.effects = s.effects
  task : u.task = s.task

theorem askOne_same (s : St) (t w n) : Same s (askOne s t w n) := by
  unfold askOne; split <;> constructor <;> rfl

theorem waitOne_same (s : St) (t n) : Same s (waitOne s t n) := by
  unfold waitOne; split <;> constructor <;> rfl

theorem gather_same (s : St) (p i k st) : Same s (gather s p i k st) := by
  unfold gather
  simp only
  split
  · split
    · constructor <;> rfl
    · constructor <;> rfl
    · split <;> constructor <;> rfl
  · split <;> constructor <;> rfl

theorem close_same (s : St) (p) : Same s (closeStep s p) := by
  unfold closeStep
  split
  · split
    · split
      · exact askOne_same ..
      · constructor <;> rfl
    · constructor <;> rfl
  · exact waitOne_same ..
  · split
    · split
      · exact askOne_same ..
      · constructor <;> rfl
    · constructor <;> rfl
  · exact waitOne_same ..
  · constructor <;> rfl
  · split <;> constructor <;> rfl
  · exact gather_same ..
  · constructor <;> rfl
  · constructor <;> rfl

/-- What waiting for the effects leads to. -/
theorem gather_cases (s : St) (p x : Nat) (ks st : List Node) :
    gather s p x ks st = s ∨
    (gather s p x ks st = { s with pc := .unmount (ks.reverse ++ st) } ∧
      (s.effects x).all (fun t => s.task t == .ended .ok) = true) ∨
    (gather s p x ks st = { s with pc := .unmount (ks.reverse ++ st) } ∧ ∃ t ∈ s.effects x, s.task t = .ended .error) ∨
    (gather s p x ks st = { s with pc := .raised } ∧ p ∈ s.effects x ∧ s.task p = .ended .cancelled) := by
  unfold gather
  simp only
  split
  next hp =>
    split
    next he => exact Or.inr (Or.inr (Or.inl ⟨rfl, p, hp, he⟩))
    next he => exact Or.inr (Or.inr (Or.inr ⟨rfl, hp, he⟩))
    next =>
      split
      next ha => exact Or.inr (Or.inl ⟨rfl, ha⟩)
      next => exact Or.inl rfl
  next =>
    split
    next ha => exact Or.inr (Or.inl ⟨rfl, ha⟩)
    next => exact Or.inl rfl

/-- The invariant of orderly leaving. -/
def Inv (s : St) : Prop :=
  s.tree.ids.Nodup ∧ Sound s ∧
  match s.pc with
  | .renders i n => n = s.renders.length ∧ i ≤ n ∧ (∀ t ∈ s.renders.take i, Ended s t) ∧ s.stopped = [] ∧ s.reg.Perm s.tree.ids
  | .renderWait i n => n = s.renders.length ∧ i < n ∧ (∀ t ∈ s.renders.take i, Ended s t) ∧ s.stopped = [] ∧
      s.reg.Perm s.tree.ids ∧ s.renders.getD i 0 ∈ s.asked
  | .events i n => (∀ t ∈ s.renders, Ended s t) ∧ n = s.events.length ∧ i ≤ n ∧ (∀ t ∈ s.events.take i, Ended s t) ∧
      s.stopped = [] ∧ s.reg.Perm s.tree.ids
  | .eventWait i n => (∀ t ∈ s.renders, Ended s t) ∧ n = s.events.length ∧ i < n ∧ (∀ t ∈ s.events.take i, Ended s t) ∧
      s.stopped = [] ∧ s.reg.Perm s.tree.ids ∧ s.events.getD i 0 ∈ s.asked
  | .unmount st => (∀ t ∈ s.renders ++ s.events, Ended s t) ∧ (s.stopped ++ idsL st).Perm s.tree.ids ∧ s.reg.Perm (idsL st) ∧
      ∀ x ∈ s.stopped, EffectsOver s x
  | .effectWait x ks st => (∀ t ∈ s.renders ++ s.events, Ended s t) ∧ (s.stopped ++ (idsL ks ++ idsL st)).Perm s.tree.ids ∧
      s.reg.Perm (idsL ks ++ idsL st) ∧ x ∈ s.stopped ∧ ∀ y ∈ s.stopped, y ≠ x → EffectsOver s y
  | .closed => (∀ t ∈ s.renders ++ s.events, Ended s t) ∧ s.stopped.Perm s.tree.ids ∧ s.reg = [] ∧
      ∀ x ∈ s.stopped, EffectsOver s x
  | .raised => False

theorem getD_mem {l : List Nat} {i : Nat} (h : i < l.length) : l.getD i 0 ∈ l := by
  simp [h, List.getD_eq_getElem?_getD]

theorem take_succ_ended {s : St} {l : List Nat} {i : Nat} (h : i < l.length) (h1 : ∀ t ∈ l.take i, Ended s t)
    (h2 : Ended s (l.getD i 0)) : ∀ t ∈ l.take (i + 1), Ended s t := by
  intro t ht
  rw [List.take_succ] at ht
  rcases List.mem_append.1 ht with h' | h'
  · exact h1 t h'
  · have : t = l.getD i 0 := by
      simp [h, List.getD_eq_getElem?_getD] at h' ⊢
      exact h'
    rw [this]; exact h2

theorem Begins.inv {s : St} (h : Begins s) (hs : Sound s) : Inv s := by
  obtain ⟨h1, h2, h3, h4⟩ := h
  refine ⟨h3, hs, ?_⟩
  rw [h1]
  exact ⟨rfl, Nat.zero_le _, by simp, h2, h4⟩

theorem inv_close (s : St) (p : Nat) (h : Inv s) : Inv (closeStep s p) := by
  obtain ⟨hn, hs, h⟩ := h
  have hsame := close_same s p
  refine ⟨by rw [hsame.tree]; exact hn, ?_, ?_⟩
  · unfold Sound
    rw [hsame.tree, hsame.renders, hsame.events, hsame.effects, hsame.task]; exact hs
  · unfold closeStep
    cases hpc : s.pc with
    | renders i n =>
      rw [hpc] at h
      obtain ⟨h1, h2, h3, h4, h5⟩ := h
      simp only
      rw [if_pos h1.symm]
      cases hi : s.renders[i]? with
      | none =>
        have : s.renders.length ≤ i := by simpa using hi
        simp only
        refine ⟨?_, by trivial, Nat.zero_le _, by simp, h4, h5⟩
        intro t ht
        have e : s.renders.take i = s.renders := List.take_of_length_le this
        rw [e] at h3
        exact h3 t ht
      | some t =>
        simp only
        have hlt : i < s.renders.length := (List.getElem?_eq_some_iff.1 hi).1
        have hget : s.renders.getD i 0 = t := by simp [List.getD_eq_getElem?_getD, hi]
        have hmem : t ∈ s.renders := hget ▸ getD_mem hlt
        unfold askOne
        cases ht : s.task t with
        | pending => exact ⟨h1, h1 ▸ hlt, h3, h4, h5, by simp only [hget]; simp⟩
        | ended o =>
          cases o with
          | error => exact absurd ht (hs.1 t (by simp [hmem]))
          | ok =>
            have hE : Ended s (s.renders.getD i 0) := by rw [hget]; exact ⟨_, ht⟩
            exact ⟨h1, h1 ▸ hlt, take_succ_ended hlt h3 hE, h4, h5⟩
          | cancelled =>
            have hE : Ended s (s.renders.getD i 0) := by rw [hget]; exact ⟨_, ht⟩
            exact ⟨h1, h1 ▸ hlt, take_succ_ended hlt h3 hE, h4, h5⟩
    | renderWait i n =>
      rw [hpc] at h
      obtain ⟨h1, h2, h3, h4, h5, h6⟩ := h
      have hlt : i < s.renders.length := h1 ▸ h2
      simp only
      unfold waitOne
      cases ht : s.task (s.renders.getD i 0) with
      | pending => simp only [hpc]; exact ⟨h1, h2, h3, h4, h5, h6⟩
      | ended o =>
        cases o with
        | error => exact absurd ht (hs.1 _ (List.mem_append_left _ (getD_mem hlt)))
        | ok => exact ⟨h1, h2, take_succ_ended hlt h3 ⟨_, ht⟩, h4, h5⟩
        | cancelled => exact ⟨h1, h2, take_succ_ended hlt h3 ⟨_, ht⟩, h4, h5⟩
    | events i n =>
      rw [hpc] at h
      obtain ⟨h0, h1, h2, h3, h4, h5⟩ := h
      simp only
      rw [if_pos h1.symm]
      cases hi : s.events[i]? with
      | none =>
        have : s.events.length ≤ i := by simpa using hi
        simp only
        have e : s.events.take i = s.events := List.take_of_length_le this
        rw [e] at h3
        refine ⟨?_, ?_, ?_, ?_⟩
        · intro t ht
          rcases List.mem_append.1 ht with h' | h'
          · exact h0 t h'
          · exact h3 t h'
        · simp [h4, idsL]
        · simpa [idsL] using h5
        · simp [h4]
      | some t =>
        simp only
        have hlt : i < s.events.length := (List.getElem?_eq_some_iff.1 hi).1
        have hget : s.events.getD i 0 = t := by simp [List.getD_eq_getElem?_getD, hi]
        have hmem : t ∈ s.events := hget ▸ getD_mem hlt
        unfold askOne
        cases ht : s.task t with
        | pending => exact ⟨h0, h1, h1 ▸ hlt, h3, h4, h5, by simp only [hget]; simp⟩
        | ended o =>
          cases o with
          | error => exact absurd ht (hs.1 t (by simp [hmem]))
          | ok =>
            have hE : Ended s (s.events.getD i 0) := by rw [hget]; exact ⟨_, ht⟩
            exact ⟨h0, h1, h1 ▸ hlt, take_succ_ended hlt h3 hE, h4, h5⟩
          | cancelled =>
            have hE : Ended s (s.events.getD i 0) := by rw [hget]; exact ⟨_, ht⟩
            exact ⟨h0, h1, h1 ▸ hlt, take_succ_ended hlt h3 hE, h4, h5⟩
    | eventWait i n =>
      rw [hpc] at h
      obtain ⟨h0, h1, h2, h3, h4, h5, h6⟩ := h
      have hlt : i < s.events.length := h1 ▸ h2
      simp only
      unfold waitOne
      cases ht : s.task (s.events.getD i 0) with
      | pending => simp only [hpc]; exact ⟨h0, h1, h2, h3, h4, h5, h6⟩
      | ended o =>
        cases o with
        | error => exact absurd ht (hs.1 _ (List.mem_append_right _ (getD_mem hlt)))
        | ok => exact ⟨h0, h1, h2, take_succ_ended hlt h3 ⟨_, ht⟩, h4, h5⟩
        | cancelled => exact ⟨h0, h1, h2, take_succ_ended hlt h3 ⟨_, ht⟩, h4, h5⟩
    | unmount st =>
      rw [hpc] at h
      obtain ⟨h0, h1, h2, h3⟩ := h
      cases st with
      | nil =>
        simp only
        refine ⟨h0, ?_, ?_, h3⟩
        · simpa [idsL] using h1
        · simpa [idsL] using h2
      | cons nd st =>
        obtain ⟨x, ks⟩ := nd
        simp only
        have hreg : s.reg.Perm (x :: (idsL ks ++ idsL st)) := by simpa [idsL, Node.ids] using h2
        have hx : x ∈ s.reg := hreg.symm.subset (by simp)
        rw [if_pos hx]
        refine ⟨h0, ?_, ?_, by simp, ?_⟩
        · simpa [idsL, Node.ids] using h1
        · have := hreg.erase x
          simpa using this
        · intro y hy hne
          have : y ∈ s.stopped := by simpa [hne] using hy
          exact h3 y this
    | effectWait x ks st =>
      rw [hpc] at h
      obtain ⟨h0, h1, h2, h3, h4⟩ := h
      have hxt : x ∈ s.tree.ids := h1.subset (by simp [h3])
      have hnext : ∀ (_ : EffectsOver s x), (∀ t ∈ s.renders ++ s.events, Ended s t) ∧
          (s.stopped ++ idsL (ks.reverse ++ st)).Perm s.tree.ids ∧ s.reg.Perm (idsL (ks.reverse ++ st)) ∧
          ∀ y ∈ s.stopped, EffectsOver s y := by
        intro ho
        have hp : (idsL (ks.reverse ++ st)).Perm (idsL ks ++ idsL st) := by
          rw [idsL_append]; exact List.Perm.append_right _ (idsL_reverse ks)
        refine ⟨h0, (List.Perm.append_left _ hp).trans h1, h2.trans hp.symm, ?_⟩
        intro y hy
        by_cases e : y = x
        · exact e ▸ ho
        · exact h4 y hy e
      have hall : (s.effects x).all (fun t => s.task t == .ended .ok) = true → EffectsOver s x := by
        intro ha
        left
        intro t ht
        exact ⟨.ok, by simpa using List.all_eq_true.1 ha t ht⟩
      simp only
      rcases gather_cases s p x ks st with e | ⟨e, ha⟩ | ⟨e, ha⟩ | ⟨e, hp, he⟩
      · rw [e, hpc]; exact ⟨h0, h1, h2, h3, h4⟩
      · rw [e]; exact hnext (hall ha)
      · rw [e]; exact hnext (Or.inr ha)
      · exact absurd he (hs.2 x hxt p hp)
    | closed => rw [hpc] at h; simp only [hpc]; exact h
    | raised => rw [hpc] at h; exact h.elim

theorem inv_finish (s : St) (t : Nat) (o : Outcome) (h : Inv s) (ha : Orderly s (.finish t o)) :
    Inv (step s (.finish t o)) := by
  simp only [step]
  split
  next hp =>
    obtain ⟨hn, hs, h⟩ := h
    have he : ∀ u, Ended s u → Ended { s with task := fun u => if u = t then .ended o else s.task u } u := by
      intro u hu
      obtain ⟨q, hq⟩ := hu
      by_cases e : u = t
      · subst e; rw [hp] at hq; simp at hq
      · exact ⟨q, by simp [e, hq]⟩
    have ho : ∀ x, EffectsOver s x → EffectsOver { s with task := fun u => if u = t then .ended o else s.task u } x := by
      intro x hx
      rcases hx with hx | ⟨u, hu, hq⟩
      · exact Or.inl fun u hu => he u (hx u hu)
      · right
        refine ⟨u, hu, ?_⟩
        by_cases e : u = t
        · subst e; rw [hp] at hq; simp at hq
        · simp [e, hq]
    refine ⟨hn, ⟨?_, ?_⟩, ?_⟩
    · intro u hu
      by_cases e : u = t
      · subst e
        simp only [if_pos]
        intro hq
        exact ha.1 (by simpa using hq) hu
      · simp only [if_neg e]; exact hs.1 u hu
    · intro x hx u hu
      by_cases e : u = t
      · subst e
        simp only [if_pos]
        intro hq
        exact ha.2 (by simpa using hq) x hx hu
      · simp only [if_neg e]; exact hs.2 x hx u hu
    · simp only
      cases hpc : s.pc with
      | renders i n =>
        rw [hpc] at h; obtain ⟨h1, h2, h3, h4⟩ := h
        exact ⟨h1, h2, fun u hu => he u (h3 u hu), h4⟩
      | renderWait i n =>
        rw [hpc] at h; obtain ⟨h1, h2, h3, h4⟩ := h
        exact ⟨h1, h2, fun u hu => he u (h3 u hu), h4⟩
      | events i n =>
        rw [hpc] at h; obtain ⟨h0, h1, h2, h3, h4⟩ := h
        exact ⟨fun u hu => he u (h0 u hu), h1, h2, fun u hu => he u (h3 u hu), h4⟩
      | eventWait i n =>
        rw [hpc] at h; obtain ⟨h0, h1, h2, h3, h4⟩ := h
        exact ⟨fun u hu => he u (h0 u hu), h1, h2, fun u hu => he u (h3 u hu), h4⟩
      | unmount st =>
        rw [hpc] at h; obtain ⟨h0, h1, h2, h3⟩ := h
        exact ⟨fun u hu => he u (h0 u hu), h1, h2, fun x hx => ho x (h3 x hx)⟩
      | effectWait x ks st =>
        rw [hpc] at h; obtain ⟨h0, h1, h2, h3, h4⟩ := h
        exact ⟨fun u hu => he u (h0 u hu), h1, h2, h3, fun x hx hne => ho x (h4 x hx hne)⟩
      | closed =>
        rw [hpc] at h; obtain ⟨h0, h1, h2, h3⟩ := h
        exact ⟨fun u hu => he u (h0 u hu), h1, h2, fun x hx => ho x (h3 x hx)⟩
      | raised => rw [hpc] at h; exact h.elim
  next => exact h

/-- The tasks, effects and tree an orderly step leaves alone. -/
theorem step_frame (s : St) (a : Act) (ha : Orderly s a) :
    (step s a).tree = s.tree ∧ (step s a).renders = s.renders ∧ (step s a).events = s.events ∧ (step s a).effects = s.effects := by
  cases a with
  | close p => have h := close_same s p; exact ⟨h.tree, h.renders, h.events, h.effects⟩
  | finish t o => simp only [step]; split <;> simp
  | schedule t => exact ha.elim
  | deliver t => exact ha.elim

theorem Orderly.mono {s u : St} {a : Act} (h : Orderly s a) (h1 : u.tree = s.tree) (h2 : u.renders = s.renders)
    (h3 : u.events = s.events) (h4 : u.effects = s.effects) : Orderly u a := by
  cases a with
  | finish t o => simp only [Orderly, h1, h2, h3, h4]; exact h
  | _ => exact h

theorem inv_run (s : St) (acts : List Act) (h : Inv s) (ha : ∀ a ∈ acts, Orderly s a) :
    Inv (run s acts) ∧ (run s acts).tree = s.tree ∧ (run s acts).renders = s.renders ∧ (run s acts).events = s.events ∧
      (run s acts).effects = s.effects := by
  induction acts generalizing s with
  | nil => exact ⟨h, rfl, rfl, rfl, rfl⟩
  | cons a as ih =>
    have ha0 := ha a (by simp)
    obtain ⟨f1, f2, f3, f4⟩ := step_frame s a ha0
    have hi : Inv (step s a) := by
      cases a with
      | close p => exact inv_close s p h
      | finish t o => exact inv_finish s t o h ha0
      | schedule t => exact ha0.elim
      | deliver t => exact ha0.elim
    obtain ⟨g, g1, g2, g3, g4⟩ := ih (step s a) hi (fun b hb => (ha b (by simp [hb])).mono f1 f2 f3 f4)
    exact ⟨g, g1.trans f1, g2.trans f2, g3.trans f3, g4.trans f4⟩

/-! ## Theorems -/

/-- C73, for a layout in which no render is in progress, has failed or is scheduled during leaving, no event handler's task
fails, no event comes during leaving, and no effect is cancelled by others: whatever the order in which things happen, leaving
never raises; and when it returns, every render and event task has ended, every displayed component was told to stop exactly
once and nothing else was, none is left in the registry, and the effects of each have ended (or one failed, which was logged).

Missing: see the `_violated` theorems below. -/
theorem C73_leaving_partial (s : St) (h : Begins s) (hs : Sound s) (acts : List Act) (ha : ∀ a ∈ acts, Orderly s a) :
    ¬ Raised (run s acts) ∧
    (Closed (run s acts) →
      (∀ t ∈ s.renders ++ s.events, Ended (run s acts) t) ∧
      List.Perm (run s acts).stopped s.tree.ids ∧ (run s acts).reg = [] ∧
      ∀ x ∈ s.tree.ids, EffectsOver (run s acts) x) := by
  obtain ⟨⟨_, _, hi⟩, g1, g2, g3, g4⟩ := inv_run s acts (h.inv hs) ha
  refine ⟨?_, ?_⟩
  · intro hr
    unfold Raised at hr
    rw [hr] at hi
    exact hi
  · intro hc
    unfold Closed at hc
    rw [hc] at hi
    obtain ⟨h0, h1, h2, h3⟩ := hi
    rw [g2, g3] at h0
    rw [g1] at h1
    exact ⟨h0, h1, h2, fun x hx => h3 x (h1.symm.subset hx)⟩

/-- A layout of three components, two of them with effects, with an ended render, a pending render and a busy handler. -/
def sample : St where
  tree := .mk 0 [.mk 1 [], .mk 2 []]
  reg := [2, 0, 1]
  renders := [10, 11]
  events := [20]
  effects := fun x => if x = 1 then [31] else if x = 2 then [32, 33] else []
  task := fun t => if t = 10 then .ended .ok else .pending
  pc := .renders 0 2

theorem sample_begins : Begins sample := by
  refine ⟨rfl, rfl, ?_, ?_⟩ <;> decide

theorem sample_sound : Sound sample := by
  unfold Sound; decide

/-- A schedule for the sample in which an effect fails. -/
def sampleActs : List Act :=
  [.close 0, .close 0, .close 0, .finish 11 .cancelled, .close 0, .close 0, .close 0, .finish 20 .cancelled, .close 0, .close 0,
   .close 0, .close 0, .close 0, .finish 33 .error, .close 33, .close 0, .finish 31 .ok, .close 0, .close 0]

theorem sample_orderly : ∀ a ∈ sampleActs, Orderly sample a := by
  intro a ha
  simp only [sampleActs, List.mem_cons, List.not_mem_nil, or_false] at ha
  rcases ha with h | h | h | h | h | h | h | h | h | h | h | h | h | h | h | h | h | h | h <;> subst h <;>
    simp [Orderly, sample, Node.ids, idsL]

/-- The hypotheses are met by a schedule that reaches the end. -/
example : Begins sample ∧ Sound sample ∧ (∀ a ∈ sampleActs, Orderly sample a) ∧ Closed (run sample sampleActs) ∧
    (run sample sampleActs).stopped = [0, 2, 1] :=
  ⟨sample_begins, sample_sound, sample_orderly, rfl, rfl⟩

/-! ### Leaving waits for nothing but tasks it asked to stop -/

theorem waitOne_pending (s : St) (t : Nat) (next : Pc) (hn : next ≠ s.pc) (h : waitOne s t next = s) (hr : s.pc ≠ .raised) :
    s.task t = .pending := by
  unfold waitOne at h
  cases ht : s.task t with
  | pending => rfl
  | ended o =>
    rw [ht] at h
    cases o <;> simp only at h
    · exact absurd (congrArg St.pc h) hn
    · exact absurd (congrArg St.pc h).symm hr
    · exact absurd (congrArg St.pc h) hn

/-- C73, again for orderly leaving: whenever the leaving task cannot go on, it has returned, or it waits for a task that is
still running and that was cancelled by it or is an effect that was told to stop. -/
theorem C73_waits_only_for_asked_partial (s : St) (h : Begins s) (hs : Sound s) (acts : List Act)
    (ha : ∀ a ∈ acts, Orderly s a) (hb : ∀ p, step (run s acts) (.close p) = run s acts) :
    Closed (run s acts) ∨
    ∃ t, Awaits (run s acts) t ∧ (run s acts).task t = .pending ∧
      (t ∈ (run s acts).asked ∨ ∃ x ∈ (run s acts).stopped, t ∈ s.effects x) := by
  obtain ⟨⟨_, hs', hi⟩, g1, g2, g3, g4⟩ := inv_run s acts (h.inv hs) ha
  generalize run s acts = u at *
  have hb0 : ∀ p, closeStep u p = u := hb
  cases hpc : u.pc with
  | renders i n =>
    rw [hpc] at hi
    have hc := hb0 0
    unfold closeStep at hc
    rw [hpc] at hc
    simp only [hi.1, if_true] at hc
    cases hg : u.renders[i]? with
    | none => rw [hg] at hc; have := congrArg St.pc hc; simp [hpc] at this
    | some t =>
      rw [hg] at hc
      simp only [askOne] at hc
      split at hc <;> (have := congrArg St.pc hc; simp [hpc] at this)
  | renderWait i n =>
    rw [hpc] at hi
    obtain ⟨h1, h2, h3, h4, h5, h6⟩ := hi
    have hc := hb0 0
    unfold closeStep at hc
    rw [hpc] at hc
    simp only at hc
    have hlt : i < u.renders.length := h1 ▸ h2
    refine Or.inr ⟨u.renders.getD i 0, Or.inl ⟨i, n, hpc, ?_⟩, ?_, Or.inl h6⟩
    · simp [List.getD_eq_getElem?_getD, hlt]
    · exact waitOne_pending u _ _ (by simp [hpc]) hc (by simp [hpc])
  | events i n =>
    rw [hpc] at hi
    have hc := hb0 0
    unfold closeStep at hc
    rw [hpc] at hc
    simp only [hi.2.1, if_true] at hc
    cases hg : u.events[i]? with
    | none => rw [hg] at hc; have := congrArg St.pc hc; simp [hpc] at this
    | some t =>
      rw [hg] at hc
      simp only [askOne] at hc
      split at hc <;> (have := congrArg St.pc hc; simp [hpc] at this)
  | eventWait i n =>
    rw [hpc] at hi
    obtain ⟨h0, h1, h2, h3, h4, h5, h6⟩ := hi
    have hc := hb0 0
    unfold closeStep at hc
    rw [hpc] at hc
    simp only at hc
    have hlt : i < u.events.length := h1 ▸ h2
    refine Or.inr ⟨u.events.getD i 0, Or.inr (Or.inl ⟨i, n, hpc, ?_⟩), ?_, Or.inl h6⟩
    · simp [List.getD_eq_getElem?_getD, hlt]
    · exact waitOne_pending u _ _ (by simp [hpc]) hc (by simp [hpc])
  | unmount st =>
    have hc := hb0 0
    unfold closeStep at hc
    rw [hpc] at hc
    cases st with
    | nil => have := congrArg St.pc hc; simp [hpc] at this
    | cons nd st =>
      obtain ⟨x, ks⟩ := nd
      simp only at hc
      split at hc <;> (have := congrArg St.pc hc; simp [hpc] at this)
  | effectWait x ks st =>
    rw [hpc] at hi
    obtain ⟨h0, h1, h2, h3, h4⟩ := hi
    have hxt : x ∈ u.tree.ids := h1.subset (by simp [h3])
    right
    have hc : ∀ p, gather u p x ks st = u := by
      intro p
      have := hb0 p
      unfold closeStep at this
      rw [hpc] at this
      exact this
    by_cases hall : (u.effects x).all (fun t => u.task t == .ended .ok) = true
    · exfalso
      have hg := hc 0
      unfold gather at hg
      simp only [hall, if_true] at hg
      split at hg
      · split at hg
        · have := congrArg St.pc hg; simp [hpc] at this
        · have := congrArg St.pc hg; simp [hpc] at this
        · have := congrArg St.pc hg; simp [hpc] at this
      · have := congrArg St.pc hg; simp [hpc] at this
    · have hex : ∃ t ∈ u.effects x, u.task t ≠ .ended .ok := by
        rw [Bool.not_eq_true, List.all_eq_false] at hall
        obtain ⟨t, ht, hne⟩ := hall
        exact ⟨t, ht, by simpa using hne⟩
      obtain ⟨t, ht, hne⟩ := hex
      refine ⟨t, Or.inr (Or.inr ⟨x, ks, st, hpc, ht⟩), ?_, Or.inr ⟨x, h3, g4 ▸ ht⟩⟩
      cases hq : u.task t with
      | pending => rfl
      | ended o =>
        cases o with
        | ok => exact absurd hq hne
        | cancelled => exact absurd hq (hs'.2 x hxt t ht)
        | error =>
          exfalso
          have hg := hc t
          unfold gather at hg
          simp only [ht, hq, if_true] at hg
          have := congrArg St.pc hg
          simp [hpc] at this
  | closed => exact Or.inl hpc
  | raised => rw [hpc] at hi; exact hi.elim

/-- In the sample, leaving waits for the pending render and, later, for the event handler. -/
example : (∀ p, step (run sample [.close 0, .close 0]) (.close p) = run sample [.close 0, .close 0]) ∧
    Awaits (run sample [.close 0, .close 0]) 11 :=
  ⟨fun _ => rfl, Or.inl ⟨1, 2, rfl, rfl⟩⟩

/-! ### If the tasks end, leaving ends -/

/-- How much is left to do. -/
def todo (s : St) : Nat :=
  match s.pc with
  | .renders i _ => 2 * s.tree.ids.length + 2 + (2 * s.events.length + 1) + (2 * (s.renders.length - i) + 1)
  | .renderWait i _ => 2 * s.tree.ids.length + 2 + (2 * s.events.length + 1) + 2 * (s.renders.length - i)
  | .events i _ => 2 * s.tree.ids.length + 2 + (2 * (s.events.length - i) + 1)
  | .eventWait i _ => 2 * s.tree.ids.length + 2 + 2 * (s.events.length - i)
  | .unmount st => 2 * (idsL st).length + 1
  | .effectWait _ ks st => 2 * ((idsL ks).length + (idsL st).length) + 2
  | .closed => 0
  | .raised => 0

/-- All tasks of the layout have ended. -/
def AllEnded (s : St) : Prop :=
  (∀ t ∈ s.renders ++ s.events, Ended s t) ∧ ∀ x ∈ s.tree.ids, ∀ t ∈ s.effects x, Ended s t

theorem idsL_reverse_length (ks : List Node) : (idsL ks.reverse).length = (idsL ks).length :=
  (idsL_reverse ks).length_eq

theorem todo_lt (s : St) (h : Inv s) (he : AllEnded s) (hc : ¬ Closed s) : ∃ p, todo (closeStep s p) < todo s := by
  obtain ⟨hn, hs, h⟩ := h
  cases hpc : s.pc with
  | renders i n =>
    rw [hpc] at h
    obtain ⟨h1, h2, h3, h4, h5⟩ := h
    refine ⟨0, ?_⟩
    unfold closeStep
    rw [hpc]
    simp only [h1, if_true]
    cases hi : s.renders[i]? with
    | none => simp [todo, hpc]
    | some t =>
      have hlt : i < s.renders.length := (List.getElem?_eq_some_iff.1 hi).1
      simp only [askOne]
      have hm : t ∈ s.renders := List.mem_of_getElem? hi
      obtain ⟨o, ho⟩ := he.1 t (by simp [hm])
      rw [ho]
      cases o
      · simp [todo, hpc]; omega
      · exact absurd ho (hs.1 t (by simp [hm]))
      · simp [todo, hpc]; omega
  | renderWait i n =>
    rw [hpc] at h
    obtain ⟨h1, h2, h3, h4, h5, h6⟩ := h
    have hlt : i < s.renders.length := h1 ▸ h2
    refine ⟨0, ?_⟩
    unfold closeStep
    rw [hpc]
    simp only [waitOne]
    have hm := getD_mem hlt
    obtain ⟨o, ho⟩ := he.1 _ (List.mem_append_left _ hm)
    rw [ho]
    cases o
    · simp [todo, hpc]; omega
    · exact absurd ho (hs.1 _ (List.mem_append_left _ hm))
    · simp [todo, hpc]; omega
  | events i n =>
    rw [hpc] at h
    obtain ⟨h0, h1, h2, h3, h4, h5⟩ := h
    refine ⟨0, ?_⟩
    unfold closeStep
    rw [hpc]
    simp only [h1, if_true]
    cases hi : s.events[i]? with
    | none => simp [todo, hpc, idsL]; omega
    | some t =>
      have hlt : i < s.events.length := (List.getElem?_eq_some_iff.1 hi).1
      simp only [askOne]
      have hm : t ∈ s.events := List.mem_of_getElem? hi
      obtain ⟨o, ho⟩ := he.1 t (by simp [hm])
      rw [ho]
      cases o
      · simp [todo, hpc]; omega
      · exact absurd ho (hs.1 t (by simp [hm]))
      · simp [todo, hpc]; omega
  | eventWait i n =>
    rw [hpc] at h
    obtain ⟨h0, h1, h2, h3, h4, h5, h6⟩ := h
    have hlt : i < s.events.length := h1 ▸ h2
    refine ⟨0, ?_⟩
    unfold closeStep
    rw [hpc]
    simp only [waitOne]
    have hm := getD_mem hlt
    obtain ⟨o, ho⟩ := he.1 _ (List.mem_append_right _ hm)
    rw [ho]
    cases o
    · simp [todo, hpc]; omega
    · exact absurd ho (hs.1 _ (List.mem_append_right _ hm))
    · simp [todo, hpc]; omega
  | unmount st =>
    rw [hpc] at h
    obtain ⟨h0, h1, h2, h3⟩ := h
    refine ⟨0, ?_⟩
    unfold closeStep
    rw [hpc]
    cases st with
    | nil => simp [todo, hpc, idsL]
    | cons nd st =>
      obtain ⟨x, ks⟩ := nd
      simp only
      have hx : x ∈ s.reg := h2.symm.subset (by simp [idsL, Node.ids])
      rw [if_pos hx]
      simp [todo, hpc, idsL, Node.ids]; omega
  | effectWait x ks st =>
    rw [hpc] at h
    obtain ⟨h0, h1, h2, h3, h4⟩ := h
    have hxt : x ∈ s.tree.ids := h1.subset (by simp [h3])
    have key : ∃ p, gather s p x ks st = { s with pc := .unmount (ks.reverse ++ st) } := by
      by_cases hall : (s.effects x).all (fun t => s.task t == .ended .ok) = true
      · by_cases hex : ∃ p, p ∈ s.effects x
        · obtain ⟨p, hp⟩ := hex
          have hq : s.task p = .ended .ok := by simpa using List.all_eq_true.1 hall p hp
          exact ⟨p, by unfold gather; simp only [hp, hq, hall, if_true]⟩
        · refine ⟨0, ?_⟩
          have h0 : 0 ∉ s.effects x := fun h => hex ⟨0, h⟩
          unfold gather
          simp only [h0, hall, if_true, if_false]
      · rw [Bool.not_eq_true, List.all_eq_false] at hall
        obtain ⟨t, ht, hne⟩ := hall
        obtain ⟨o, ho⟩ := he.2 x hxt t ht
        cases o with
        | ok => simp [ho] at hne
        | cancelled => exact absurd ho (hs.2 x hxt t ht)
        | error => exact ⟨t, by unfold gather; simp only [ht, ho, if_true]⟩
    obtain ⟨p, hp⟩ := key
    refine ⟨p, ?_⟩
    unfold closeStep
    rw [hpc]
    simp only [hp]
    simp [todo, hpc, idsL_append, idsL_reverse_length]
    
  | closed => exact absurd hpc hc
  | raised => rw [hpc] at h; exact h.elim

theorem closes (n : Nat) (s : St) (hn : todo s = n) (h : Inv s) (he : AllEnded s) :
    ∃ acts, (∀ a ∈ acts, ∃ p, a = .close p) ∧ Closed (run s acts) := by
  induction n using Nat.strongRecOn generalizing s with
  | ind n ih =>
    by_cases hc : Closed s
    · exact ⟨[], by simp, hc⟩
    · obtain ⟨p, hp⟩ := todo_lt s h he hc
      have hsame := close_same s p
      have he' : AllEnded (closeStep s p) := by
        unfold AllEnded Ended
        rw [hsame.tree, hsame.renders, hsame.events, hsame.effects, hsame.task]
        exact he
      obtain ⟨acts, h1, h2⟩ := ih _ (hn ▸ hp) (closeStep s p) rfl (inv_close s p h) he'
      refine ⟨.close p :: acts, ?_, h2⟩
      intro a ha
      rcases List.mem_cons.1 ha with e | ha
      · exact ⟨p, e⟩
      · exact h1 a ha

/-- C73, again for orderly leaving: once every render, event and effect task has ended, leaving returns after finitely many
steps of its own, wherever it was.

Missing: the tasks need not end (`C73_swallowed_cancellation_violated`). -/
theorem C73_leaving_ends_partial (s : St) (h : Begins s) (hs : Sound s) (acts : List Act) (ha : ∀ a ∈ acts, Orderly s a)
    (he : ∀ t, t ∈ s.renders ∨ t ∈ s.events ∨ (∃ x ∈ s.tree.ids, t ∈ s.effects x) → Ended (run s acts) t) :
    ∃ more, (∀ a ∈ more, ∃ p, a = .close p) ∧ Closed (run (run s acts) more) := by
  obtain ⟨hi, g1, g2, g3, g4⟩ := inv_run s acts (h.inv hs) ha
  refine closes _ _ rfl hi ⟨?_, ?_⟩
  · intro t ht
    rw [g2, g3] at ht
    rcases List.mem_append.1 ht with h' | h'
    · exact he t (Or.inl h')
    · exact he t (Or.inr (Or.inl h'))
  · intro x hx t ht
    rw [g1] at hx
    rw [g4] at ht
    exact he t (Or.inr (Or.inr ⟨x, hx, ht⟩))

/-- In the sample all tasks may end at once. -/
example : ∃ acts, (∀ a ∈ acts, Orderly sample a) ∧
    ∀ t, t ∈ sample.renders ∨ t ∈ sample.events ∨ (∃ x ∈ sample.tree.ids, t ∈ sample.effects x) → Ended (run sample acts) t := by
  refine ⟨[.finish 11 .cancelled, .finish 20 .cancelled, .finish 31 .ok, .finish 32 .ok, .finish 33 .error], ?_, ?_⟩
  · intro a ha
    simp only [List.mem_cons, List.not_mem_nil, or_false] at ha
    rcases ha with h | h | h | h | h <;> subst h <;> simp [Orderly, sample, Node.ids, idsL]
  · intro t ht
    have : t = 10 ∨ t = 11 ∨ t = 20 ∨ t = 31 ∨ t = 32 ∨ t = 33 := by
      simpa [sample, Node.ids, idsL, or_assoc] using ht
    rcases this with h | h | h | h | h | h <;> subst h <;> exact ⟨_, rfl⟩

/-! ### What goes wrong -/

theorem step_ended (s : St) (a : Act) (t : Nat) (o : Outcome) (h : s.task t = .ended o) : (step s a).task t = .ended o := by
  cases a with
  | close p => show (closeStep s p).task t = _; rw [(close_same s p).task]; exact h
  | finish u q =>
    simp only [step]
    split
    next hp =>
      by_cases e : t = u
      · subst e; rw [hp] at h; simp at h
      · simp [e, h]
    next => exact h
  | schedule u => exact h
  | deliver u => exact h

/-- Leaving has not got past render task number `k`, or has failed. -/
def Stuck (k : Nat) (s : St) : Prop :=
  s.stopped = [] ∧ ((∃ i n, s.pc = .renders i n ∧ i ≤ k) ∨ (∃ i n, s.pc = .renderWait i n ∧ i ≤ k) ∨ s.pc = .raised)

theorem stuck_step (s : St) (a : Act) (k t : Nat) (hk : s.renders[k]? = some t) (ht : s.task t = .ended .error)
    (h : Stuck k s) : Stuck k (step s a) ∧ (step s a).renders[k]? = some t := by
  obtain ⟨h0, h⟩ := h
  have hlt : k < s.renders.length := (List.getElem?_eq_some_iff.1 hk).1
  cases a with
  | close p =>
    refine ⟨?_, by show (closeStep s p).renders[k]? = _; rw [(close_same s p).renders]; exact hk⟩
    show Stuck k (closeStep s p)
    unfold closeStep
    rcases h with ⟨i, n, hp, hi⟩ | ⟨i, n, hp, hi⟩ | hp
    · rw [hp]
      simp only
      split
      next hn =>
        cases hg : s.renders[i]? with
        | none => have := List.getElem?_eq_none_iff.1 hg; omega
        | some u =>
          simp only [askOne]
          by_cases e : i = k
          · subst e
            rw [hk] at hg
            have : t = u := by simpa using hg
            subst this
            rw [ht]
            exact ⟨h0, Or.inr (Or.inr rfl)⟩
          · split
            · exact ⟨h0, Or.inr (Or.inl ⟨i, n, rfl, hi⟩)⟩
            · exact ⟨h0, Or.inr (Or.inr rfl)⟩
            · exact ⟨h0, Or.inl ⟨i + 1, n, rfl, by omega⟩⟩
      next => exact ⟨h0, Or.inr (Or.inr rfl)⟩
    · rw [hp]
      simp only [waitOne]
      by_cases e : i = k
      · subst e
        have : s.renders.getD i 0 = t := by simp [List.getD_eq_getElem?_getD, hk]
        rw [this, ht]
        exact ⟨h0, Or.inr (Or.inr rfl)⟩
      · split
        · exact ⟨h0, Or.inr (Or.inl ⟨i, n, hp, hi⟩)⟩
        · exact ⟨h0, Or.inr (Or.inr rfl)⟩
        · exact ⟨h0, Or.inl ⟨i + 1, n, rfl, by omega⟩⟩
    · rw [hp]; exact ⟨h0, Or.inr (Or.inr hp)⟩
  | finish u q =>
    simp only [step]
    split
    · exact ⟨⟨h0, h⟩, hk⟩
    · exact ⟨⟨h0, h⟩, hk⟩
  | schedule u => exact ⟨⟨h0, h⟩, by
      show (s.renders ++ [u])[k]? = _
      rw [List.getElem?_append_left hlt]; exact hk⟩
  | deliver u => exact ⟨⟨h0, h⟩, hk⟩

theorem stuck_run (s : St) (acts : List Act) (k t : Nat) (hk : s.renders[k]? = some t) (ht : s.task t = .ended .error)
    (h : Stuck k s) : Stuck k (run s acts) := by
  induction acts generalizing s with
  | nil => exact h
  | cons a as ih =>
    obtain ⟨h1, h2⟩ := stuck_step s a k t hk ht h
    exact ih _ h2 (step_ended s a t _ ht) h1

/-- C73 is violated when a render task has failed (a component's render raised something the renderer does not catch) and its
failure was not collected before leaving: the exception comes out of `__aexit__`; whatever happens, leaving never completes
and no component is ever told to stop, so no effect is cleaned up. -/
theorem C73_failed_render_violated (s : St) (h : Begins s) (t : Nat) (ht : t ∈ s.renders) (he : s.task t = .ended .error)
    (acts : List Act) : ¬ Closed (run s acts) ∧ (run s acts).stopped = [] := by
  obtain ⟨k, hk⟩ := List.mem_iff_getElem?.1 ht
  have := stuck_run s acts k t hk he ⟨h.2.1, Or.inl ⟨0, _, h.1, Nat.zero_le _⟩⟩
  refine ⟨?_, this.1⟩
  unfold Closed
  rcases this.2 with ⟨i, n, hp, _⟩ | ⟨i, n, hp, _⟩ | hp <;> rw [hp] <;> simp

/-- The sample with its first render failed: leaving raises. -/
example : Begins { sample with task := fun t => if t = 10 then .ended .error else .pending } ∧
    Raised (run { sample with task := fun t => if t = 10 then .ended .error else .pending } [.close 0]) :=
  ⟨sample_begins, rfl⟩

/-- C73 is violated when a render is scheduled while leaving waits for another (a handler or effect that sets state on its
way out): the loop over the set raises, and nothing is unmounted. -/
theorem C73_render_scheduled_violated : ∃ s acts, Begins s ∧ Sound s ∧ (∀ a ∈ acts, Orderly s a ∨ a = .schedule 12) ∧
    Raised (run s acts) ∧ (run s acts).stopped = [] := by
  refine ⟨sample, [.close 0, .close 0, .schedule 12, .finish 11 .cancelled, .close 0, .close 0], sample_begins, sample_sound,
    ?_, rfl, rfl⟩
  intro a ha
  simp only [List.mem_cons, List.not_mem_nil, or_false] at ha
  rcases ha with h | h | h | h | h | h <;> subst h <;> simp [Orderly, sample, Node.ids, idsL]

/-- C73 is violated when an effect task was cancelled by others (the event loop shuts down, or the effect raises
`CancelledError`): the cancellation comes out of `__aexit__`, and the remaining components are never told to stop. -/
theorem C73_cancelled_effect_violated : ∃ s acts, Begins s ∧ (∀ t ∈ s.renders ++ s.events, s.task t ≠ .ended .error) ∧
    (∀ a ∈ acts, ∃ p, a = .close p) ∧ Raised (run s acts) ∧ 2 ∈ s.tree.ids ∧ 2 ∉ (run s acts).stopped ∧
    2 ∈ (run s acts).reg := by
  refine ⟨⟨.mk 0 [.mk 2 []], [0, 2], [], [], fun x => if x = 0 then [30] else [], fun _ => .ended .cancelled, [], [],
    .renders 0 0⟩, [.close 0, .close 0, .close 0, .close 30], ⟨rfl, rfl, by decide, by decide⟩, by simp, ?_, rfl, by decide,
    by decide, by decide⟩
  intro a ha
  simp only [List.mem_cons, List.not_mem_nil, or_false] at ha
  rcases ha with h | h | h | h <;> exact ⟨_, h⟩

/-- Leaving has not got past event task number `k`, or has failed. -/
def Hung (k : Nat) (s : St) : Prop :=
  s.stopped = [] ∧ ((∃ i n, s.pc = .renders i n) ∨ (∃ i n, s.pc = .renderWait i n) ∨
    (∃ i n, s.pc = .events i n ∧ i ≤ k) ∨ (∃ i n, s.pc = .eventWait i n ∧ i ≤ k) ∨ s.pc = .raised)

theorem hung_step (s : St) (a : Act) (k t : Nat) (hk : s.events[k]? = some t) (ht : s.task t = .pending)
    (ha : ∀ o, a ≠ .finish t o) (h : Hung k s) :
    Hung k (step s a) ∧ (step s a).events[k]? = some t ∧ (step s a).task t = .pending := by
  obtain ⟨h0, h⟩ := h
  have hlt : k < s.events.length := (List.getElem?_eq_some_iff.1 hk).1
  cases a with
  | close p =>
    refine ⟨?_, by show (closeStep s p).events[k]? = _; rw [(close_same s p).events]; exact hk,
      by show (closeStep s p).task t = _; rw [(close_same s p).task]; exact ht⟩
    show Hung k (closeStep s p)
    unfold closeStep
    rcases h with ⟨i, n, hp⟩ | ⟨i, n, hp⟩ | ⟨i, n, hp, hi⟩ | ⟨i, n, hp, hi⟩ | hp
    · rw [hp]
      simp only
      split
      · split
        · simp only [askOne]
          split
          · exact ⟨h0, Or.inr (Or.inl ⟨_, _, rfl⟩)⟩
          · exact ⟨h0, Or.inr (Or.inr (Or.inr (Or.inr rfl)))⟩
          · exact ⟨h0, Or.inl ⟨_, _, rfl⟩⟩
        · exact ⟨h0, Or.inr (Or.inr (Or.inl ⟨0, _, rfl, Nat.zero_le _⟩))⟩
      · exact ⟨h0, Or.inr (Or.inr (Or.inr (Or.inr rfl)))⟩
    · rw [hp]
      simp only [waitOne]
      split
      · exact ⟨h0, Or.inr (Or.inl ⟨_, _, hp⟩)⟩
      · exact ⟨h0, Or.inr (Or.inr (Or.inr (Or.inr rfl)))⟩
      · exact ⟨h0, Or.inl ⟨_, _, rfl⟩⟩
    · rw [hp]
      simp only
      split
      · cases hg : s.events[i]? with
        | none => have := List.getElem?_eq_none_iff.1 hg; omega
        | some u =>
          simp only [askOne]
          by_cases e : i = k
          · subst e
            rw [hk] at hg
            have : t = u := by simpa using hg
            subst this
            rw [ht]
            exact ⟨h0, Or.inr (Or.inr (Or.inr (Or.inl ⟨i, n, rfl, hi⟩)))⟩
          · split
            · exact ⟨h0, Or.inr (Or.inr (Or.inr (Or.inl ⟨i, n, rfl, hi⟩)))⟩
            · exact ⟨h0, Or.inr (Or.inr (Or.inr (Or.inr rfl)))⟩
            · exact ⟨h0, Or.inr (Or.inr (Or.inl ⟨i + 1, n, rfl, by omega⟩))⟩
      · exact ⟨h0, Or.inr (Or.inr (Or.inr (Or.inr rfl)))⟩
    · rw [hp]
      simp only [waitOne]
      by_cases e : i = k
      · subst e
        have : s.events.getD i 0 = t := by simp [List.getD_eq_getElem?_getD, hk]
        rw [this, ht]
        exact ⟨h0, Or.inr (Or.inr (Or.inr (Or.inl ⟨i, n, hp, hi⟩)))⟩
      · split
        · exact ⟨h0, Or.inr (Or.inr (Or.inr (Or.inl ⟨i, n, hp, hi⟩)))⟩
        · exact ⟨h0, Or.inr (Or.inr (Or.inr (Or.inr rfl)))⟩
        · exact ⟨h0, Or.inr (Or.inr (Or.inl ⟨i + 1, n, rfl, by omega⟩))⟩
    · rw [hp]; exact ⟨h0, Or.inr (Or.inr (Or.inr (Or.inr hp)))⟩
  | finish u q =>
    have hne : t ≠ u := fun e => ha q (by rw [e])
    simp only [step]
    split
    · exact ⟨⟨h0, h⟩, hk, by simp [hne, ht]⟩
    · exact ⟨⟨h0, h⟩, hk, ht⟩
  | schedule u => exact ⟨⟨h0, h⟩, hk, ht⟩
  | deliver u => exact ⟨⟨h0, h⟩, by
      show (s.events ++ [u])[k]? = _
      rw [List.getElem?_append_left hlt]; exact hk, ht⟩

/-- C73 is violated when an event handler swallows its cancellation (the loop around it takes the next event and the task goes
on): as long as that task does not end, leaving does not return, and no component is told to stop. -/
theorem C73_swallowed_cancellation_violated (s : St) (h : Begins s) (t : Nat) (ht : t ∈ s.events) (hp : s.task t = .pending)
    (acts : List Act) (ha : ∀ a ∈ acts, ∀ o, a ≠ .finish t o) :
    ¬ Closed (run s acts) ∧ (run s acts).stopped = [] := by
  obtain ⟨k, hk⟩ := List.mem_iff_getElem?.1 ht
  have key : ∀ (acts : List Act) (s : St), s.events[k]? = some t → s.task t = .pending → Hung k s →
      (∀ a ∈ acts, ∀ o, a ≠ .finish t o) → Hung k (run s acts) := by
    intro acts
    induction acts with
    | nil => intro s _ _ h _; exact h
    | cons a as ih =>
      intro s h1 h2 h3 h4
      obtain ⟨g1, g2, g3⟩ := hung_step s a k t h1 h2 (h4 a (by simp)) h3
      exact ih _ g2 g3 g1 (fun b hb => h4 b (by simp [hb]))
  have := key acts s hk hp ⟨h.2.1, Or.inl ⟨_, _, h.1⟩⟩ ha
  refine ⟨?_, this.1⟩
  unfold Closed
  rcases this.2 with ⟨i, n, hp⟩ | ⟨i, n, hp⟩ | ⟨i, n, hp, _⟩ | ⟨i, n, hp, _⟩ | hp <;> rw [hp] <;> simp

/-- The sample's handler is such a task. -/
example : Begins sample ∧ 20 ∈ sample.events ∧ sample.task 20 = .pending := ⟨sample_begins, by decide, rfl⟩

/-- The layout after its only render task was cancelled: the registered state of the root is `root`, the registry `reg`; no
component has effects that go on. -/
def afterCut (root : Node) (reg : List Nat) : St where
  tree := root
  reg := reg
  renders := [10]
  events := []
  effects := fun _ => []
  task := fun _ => .ended .cancelled
  pc := .renders 0 1

/-- C73 is violated when leaving comes while the root is being rendered again: cancelled at its first suspension point, the
new state of the root, which is the one registered, has no children yet, so that leaving stops the root alone and returns; all
that was displayed below it stays registered and is never told to stop, so its effects are never cleaned up. -/
theorem C73_interrupted_render_violated (body : Nat → List Nat) (fuel x : Nat) (kids : List Node) :
    ∃ reg root, render body (fuel + 1) (some (.mk x kids)) x ⟨(Node.mk x kids).ids, some 0⟩ = (⟨reg, some 0⟩, .cut root) ∧
      Closed (run (afterCut root reg) (List.replicate 6 (.close 0))) ∧
      (run (afterCut root reg) (List.replicate 6 (.close 0))).stopped = [x] ∧
      (run (afterCut root reg) (List.replicate 6 (.close 0))).reg = idsL kids := by
  refine ⟨(Node.mk x kids).ids, .mk x [], ?_, ?_⟩
  · simp [render, suspend, Node.ids]
  · simp [run, List.replicate, step, closeStep, afterCut, askOne, gather, Node.ids, Closed]

/-- … and with some children rendered, at a later point: the components not yet reached (2 and 3) and the one being rendered
(1) are left. -/
example : ∃ reg root, render (fun x => if x = 0 then [4, 1, 2] else if x = 2 then [3] else []) 5
      (some (.mk 0 [.mk 4 [], .mk 1 [], .mk 2 [.mk 3 []]])) 0 ⟨[0, 4, 1, 2, 3], some 2⟩ = (⟨reg, some 0⟩, .cut root) ∧
    Closed (run (afterCut root reg) (List.replicate 8 (.close 0))) ∧
    (run (afterCut root reg) (List.replicate 8 (.close 0))).reg = [1, 2, 3] :=
  ⟨[0, 4, 1, 2, 3], .mk 0 [.mk 4 []], by rfl, rfl, rfl⟩

theorem unmountL_cut (pre : List Node) {k : Node} {c c' : Cut} (h : unmount k c = (c', true)) : unmountL (pre ++ [k]) c = (c', true) := by
  induction pre with
  | nil => simpa [unmountL] using h
  | cons p pre ih => rw [List.cons_append, unmountL, ih]

/-- … and when leaving comes while a component that is no longer displayed is being unmounted: it is out of the registry, but
the wait for its effects is cancelled, and what was displayed below it, and the components before it that are no longer displayed either, stay registered
and are never told to stop. -/
theorem C73_interrupted_unmount_violated (body : Nat → List Nat) (fuel x y : Nat) (pre kids : List Node) (hb : body x = [])
    (hxy : x ≠ y) (hpre : y ∉ idsL pre) :
    ∃ reg root, render body (fuel + 1) (some (.mk x (pre ++ [.mk y kids]))) x ⟨(Node.mk x (pre ++ [.mk y kids])).ids, some 1⟩ =
        (⟨reg, some 0⟩, .cut root) ∧
      Closed (run (afterCut root reg) (List.replicate 6 (.close 0))) ∧
      (run (afterCut root reg) (List.replicate 6 (.close 0))).stopped = [x] ∧
      (run (afterCut root reg) (List.replicate 6 (.close 0))).reg = idsL pre ++ idsL kids := by
  refine ⟨x :: (idsL pre ++ idsL kids), .mk x [], ?_, ?_⟩
  · have h : (x :: (idsL pre ++ y :: idsL kids)).erase y = x :: (idsL pre ++ idsL kids) := by
      rw [List.erase_cons_tail (by simpa using hxy), List.erase_append_right _ hpre, List.erase_cons_head]
    have hu : unmountL (pre ++ [.mk y kids]) ⟨x :: (idsL pre ++ y :: idsL kids), some 0⟩ = (⟨x :: (idsL pre ++ idsL kids), some 0⟩, true) := by
      refine unmountL_cut pre ?_
      simp [unmount, suspend, h]
    have hf : (pre ++ [Node.mk y kids]).filter (fun k => decide (k.id ∉ body x)) = pre ++ [.mk y kids] := by simp [hb]
    simp only [render, Node.ids, idsL_append, idsL, List.append_nil, List.mem_cons, true_or, if_true, suspend, Node.kids, hf, hu]
  · simp [run, List.replicate, step, closeStep, afterCut, askOne, gather, Node.ids, Closed]

/-- Such a case: the root 0 no longer returns 4 and 1, below which 2 and 3 were displayed. -/
example : (fun _ => [] : Nat → List Nat) 0 = [] ∧ (0 : Nat) ≠ 1 ∧ 1 ∉ idsL [.mk 4 []] ∧
    (render (fun _ => []) 5 (some (.mk 0 [.mk 4 [], .mk 1 [.mk 2 [.mk 3 []]]])) 0 ⟨[0, 4, 1, 2, 3], some 1⟩).1.reg = [0, 4, 2, 3] :=
  ⟨rfl, by decide, by decide, rfl⟩

/-! ### A render that is not cut short -/

mutual
/-- A tree of states agrees with the places of the components: the children of each are below it, and different. -/
def Placed (place : Nat → List Nat) : Node → Prop
  | .mk x kids => (kids.map Node.id).Nodup ∧ (∀ k ∈ kids, ∃ i, place k.id = place x ++ [i]) ∧ PlacedL place kids
/-- As `Placed`, for a list. -/
def PlacedL (place : Nat → List Nat) : List Node → Prop
  | [] => True
  | k :: ks => Placed place k ∧ PlacedL place ks
end

/-- Each component has a place of its own, below the component that returns it. -/
structure Places (body : Nat → List Nat) (place : Nat → List Nat) : Prop where
  inj : ∀ x y, place x = place y → x = y
  nodup : ∀ x, (body x).Nodup
  below : ∀ x, ∀ y ∈ body x, ∃ i, place y = place x ++ [i]

theorem placedL_mem {place : Nat → List Nat} : ∀ {l : List Node}, PlacedL place l → ∀ n ∈ l, Placed place n
  | [], _, n, h => by cases h
  | k :: ks, h, n, hn => by
    rcases List.mem_cons.1 hn with rfl | hn
    · exact h.1
    · exact placedL_mem h.2 n hn

theorem placedL_of {place : Nat → List Nat} : ∀ {l : List Node}, (∀ n ∈ l, Placed place n) → PlacedL place l
  | [], _ => trivial
  | k :: ks, h => ⟨h k (by simp), placedL_of (fun n hn => h n (by simp [hn]))⟩

mutual
theorem placed_below {place : Nat → List Nat} : ∀ (n : Node), Placed place n → ∀ y ∈ n.ids, place n.id <+: place y
  | .mk x kids, h, y, hy => by
    rw [Node.ids] at hy
    rcases List.mem_cons.1 hy with rfl | hy
    · exact List.prefix_refl _
    · exact placedL_below kids h.2.2 x h.2.1 y hy
theorem placedL_below {place : Nat → List Nat} : ∀ (l : List Node), PlacedL place l → ∀ x, (∀ k ∈ l, ∃ i, place k.id = place x ++ [i]) →
    ∀ y ∈ idsL l, place x <+: place y
  | [], _, _, _, y, hy => by simp [idsL] at hy
  | k :: ks, h, x, hx, y, hy => by
    rw [idsL] at hy
    rcases List.mem_append.1 hy with hy | hy
    · obtain ⟨i, hi⟩ := hx k (by simp)
      have := placed_below k h.1 y hy
      rw [hi] at this
      exact (List.prefix_append _ _).trans this
    · exact placedL_below ks h.2 x (fun n hn => hx n (by simp [hn])) y hy
end

mutual
theorem unmount_ok : ∀ (n : Node) (reg rest : List Nat), reg.Perm (n.ids ++ rest) →
    ∃ reg', unmount n ⟨reg, none⟩ = (⟨reg', none⟩, false) ∧ reg'.Perm rest
  | .mk x kids, reg, rest, h => by
    rw [Node.ids] at h
    have hx : x ∈ reg := h.mem_iff.2 (by simp)
    rw [unmount, if_pos hx]
    simp only [suspend]
    have := h.erase x
    rw [List.cons_append, List.erase_cons_head] at this
    exact unmountL_ok kids _ rest this
theorem unmountL_ok : ∀ (l : List Node) (reg rest : List Nat), reg.Perm (idsL l ++ rest) →
    ∃ reg', unmountL l ⟨reg, none⟩ = (⟨reg', none⟩, false) ∧ reg'.Perm rest
  | [], reg, rest, h => ⟨reg, rfl, by simpa [idsL] using h⟩
  | k :: ks, reg, rest, h => by
    rw [idsL, List.append_assoc] at h
    have h' : reg.Perm (idsL ks ++ (k.ids ++ rest)) := h.trans (List.perm_append_comm_assoc ..)
    obtain ⟨r1, e1, p1⟩ := unmountL_ok ks reg _ h'
    obtain ⟨r2, e2, p2⟩ := unmount_ok k r1 _ p1
    refine ⟨r2, ?_, p2⟩
    rw [unmountL, e1]
    exact e2
end

theorem idsL_perm {a b : List Node} (h : a.Perm b) : (idsL a).Perm (idsL b) := by
  induction h with
  | nil => exact .refl _
  | cons x _ ih => simp only [idsL]; exact ih.append_left _
  | swap x y l => simp only [idsL]; exact List.perm_append_comm_assoc ..
  | trans _ _ h1 h2 => exact h1.trans h2

/-- The components of the state that a component had, if it had one. -/
def oldIds : Option Node → List Nat
  | none => []
  | some o => o.ids

theorem filter_step {l : List Node} (hn : (l.map Node.id).Nodup) (k : Nat) (ks : List Nat) (hk : k ∉ ks) :
    (l.filter (fun n => decide (n.id ∈ k :: ks))).Perm
      ((l.find? (fun o => o.id == k)).toList ++ l.filter (fun n => decide (n.id ∈ ks))) := by
  induction l with
  | nil => exact .refl _
  | cons n l ih =>
    simp only [List.map_cons, List.nodup_cons] at hn
    have ih := ih hn.2
    by_cases h : n.id = k
    · have h1 : ∀ m ∈ l, m.id ≠ k := fun m hm e => hn.1 (h ▸ e ▸ List.mem_map_of_mem hm)
      have e1 : l.filter (fun n => decide (n.id ∈ k :: ks)) = l.filter (fun n => decide (n.id ∈ ks)) := by
        apply List.filter_congr
        intro m hm
        simp [h1 m hm]
      rw [List.find?_cons_of_pos (by simp [h]), List.filter_cons_of_pos (by simp [h]), List.filter_cons_of_neg (by simp [h, hk]), e1]
      simp
    · rw [List.find?_cons_of_neg (by simp [h])]
      by_cases h2 : n.id ∈ ks
      · rw [List.filter_cons_of_pos (by simp [h2]), List.filter_cons_of_pos (by simp [h2])]
        exact (ih.cons n).trans List.perm_middle.symm
      · rw [List.filter_cons_of_neg (by simp [h, h2]), List.filter_cons_of_neg (by simp [h2])]
        exact ih

theorem siblings {place : Nat → List Nat} (hi : ∀ x y, place x = place y → x = y) {x a b y : Nat} {i j : Nat}
    (ha : place a = place x ++ [i]) (hb : place b = place x ++ [j]) (h1 : place a <+: place y) (h2 : place b <+: place y) : a = b := by
  apply hi
  have hl : (place a).length = (place b).length := by rw [ha, hb]; simp
  exact (List.prefix_of_prefix_length_le h1 h2 (by omega)).eq_of_length hl

theorem kids_ok (body : Nat → List Nat) (place : Nat → List Nat) (hp : Places body place) (x : Nat)
    (rend : Option Node → Nat → Cut → Cut × Res) (oldKids : List Node) (hold : (oldKids.map Node.id).Nodup)
    (holdP : ∀ o ∈ oldKids, Placed place o) (rest : List Nat) (hrest : ∀ y ∈ rest, ¬ place x <+: place y)
    (hrend : ∀ (old : Option Node) (k : Nat) (reg rest : List Nat) (c' : Cut) (n : Node),
      (∀ o, old = some o → o.id = k ∧ Placed place o) → reg.Perm (oldIds old ++ rest) → (∀ y ∈ rest, ¬ place k <+: place y) →
      rend old k ⟨reg, none⟩ = (c', .ok n) → c'.left = none ∧ c'.reg.Perm (n.ids ++ rest) ∧ n.id = k ∧ Placed place n) :
    ∀ (ks : List Nat) (done : List Node) (reg : List Nat) (c' : Cut) (n : Node),
      done.map Node.id ++ ks = body x → (∀ d ∈ done, Placed place d) →
      reg.Perm (idsL done ++ (idsL (oldKids.filter (fun n => decide (n.id ∈ ks))) ++ (x :: rest))) →
      renderKids rend oldKids x done ks ⟨reg, none⟩ = (c', .ok n) →
      c'.left = none ∧ c'.reg.Perm (n.ids ++ rest) ∧ n.id = x ∧ Placed place n := by
  intro ks
  induction ks with
  | nil =>
    intro done reg c' n hb hd hr h
    simp only [renderKids, Prod.mk.injEq, Res.ok.injEq] at h
    obtain ⟨rfl, rfl⟩ := h
    refine ⟨rfl, ?_, rfl, ?_, ?_, placedL_of hd⟩
    · have e : oldKids.filter (fun n => decide (n.id ∈ ([] : List Nat))) = [] := by simp
      rw [e] at hr
      simp only [idsL, List.nil_append] at hr
      rw [Node.ids]
      exact hr.trans List.perm_middle
    · rw [List.append_nil] at hb
      rw [hb]; exact hp.nodup x
    · intro k hk
      refine hp.below x k.id ?_
      rw [← hb]
      simp only [List.append_nil]
      exact List.mem_map_of_mem hk
  | cons k ks ih =>
    intro done reg c' n hb hd hr h
    have hnd : (done.map Node.id ++ k :: ks).Nodup := by rw [hb]; exact hp.nodup x
    have hkk : k ∉ ks := ((List.nodup_append.1 hnd).2.1 |> List.nodup_cons.1).1
    obtain ⟨i, hi⟩ := hp.below x k (by rw [← hb]; simp)
    have hperm := filter_step hold k ks hkk
    rw [renderKids] at h
    generalize hf : oldKids.find? (fun o => o.id == k) = fo at h hperm
    have hfo : ∀ o, fo = some o → o.id = k ∧ Placed place o := by
      intro o ho
      rw [ho] at hf
      exact ⟨by simpa using List.find?_some hf, holdP o (List.mem_of_find?_eq_some hf)⟩
    have hids : (idsL (oldKids.filter (fun n => decide (n.id ∈ k :: ks)))).Perm
        (oldIds fo ++ idsL (oldKids.filter (fun n => decide (n.id ∈ ks)))) := by
      refine (idsL_perm hperm).trans ?_
      rw [idsL_append]
      cases fo <;> simp [oldIds, idsL]
    have hr' : reg.Perm (oldIds fo ++ (idsL done ++ (idsL (oldKids.filter (fun n => decide (n.id ∈ ks))) ++ (x :: rest)))) := by
      refine hr.trans (((hids.append_right _).append_left _).trans ?_)
      rw [List.append_assoc]
      exact List.perm_append_comm_assoc ..
    have hbelow : ∀ y ∈ idsL done ++ (idsL (oldKids.filter (fun n => decide (n.id ∈ ks))) ++ (x :: rest)), ¬ place k <+: place y := by
      have sib : ∀ (l : List Node), (∀ d ∈ l, Placed place d ∧ d.id ∈ body x ∧ d.id ≠ k) → ∀ y ∈ idsL l, ¬ place k <+: place y := by
        intro l
        induction l with
        | nil => intro _ y hy; simp [idsL] at hy
        | cons d l ihl =>
          intro hl y hy
          rw [idsL] at hy
          rcases List.mem_append.1 hy with hy | hy
          · obtain ⟨h1, h2, h3⟩ := hl d (by simp)
            obtain ⟨j, hj⟩ := hp.below x d.id h2
            exact fun hky => h3 (siblings hp.inj hj hi (placed_below d h1 y hy) hky)
          · exact ihl (fun e he => hl e (by simp [he])) y hy
      intro y hy
      rcases List.mem_append.1 hy with hy | hy
      · refine sib done (fun d hdm => ⟨hd d hdm, ?_, ?_⟩) y hy
        · rw [← hb]; exact List.mem_append_left _ (List.mem_map_of_mem hdm)
        · intro e
          exact (List.nodup_append.1 hnd).2.2 _ (List.mem_map_of_mem hdm) _ (List.mem_cons_self) e
      · rcases List.mem_append.1 hy with hy | hy
        · refine sib _ (fun d hdm => ?_) y hy
          obtain ⟨g1, g2⟩ := List.mem_filter.1 hdm
          have g2 : d.id ∈ ks := by simpa using g2
          exact ⟨holdP d g1, by rw [← hb]; simp [g2], fun e => hkk (e ▸ g2)⟩
        · rcases List.mem_cons.1 hy with rfl | hy
          · intro hpre
            have := hpre.length_le
            rw [hi, List.length_append, List.length_singleton] at this
            omega
          · intro hpre
            refine hrest y hy (List.IsPrefix.trans ?_ hpre)
            rw [hi]
            exact List.prefix_append _ _
    cases hc : rend fo k ⟨reg, none⟩ with
    | mk c1 r1 =>
      rw [hc] at h
      cases r1 with
      | cut m => simp at h
      | ok m =>
        obtain ⟨g1, g2, g3, g4⟩ := hrend fo k reg _ c1 m hfo hr' hbelow hc
        obtain ⟨reg1, left1⟩ := c1
        simp only at g1 g2
        subst g1
        refine ih (done ++ [m]) reg1 c' n (by simp [← hb, g3]) ?_ ?_ h
        · intro d hdm
          rcases List.mem_append.1 hdm with hdm | hdm
          · exact hd d hdm
          · rw [List.mem_singleton.1 hdm]; exact g4
        · rw [idsL_append]
          simp only [idsL, List.append_nil]
          refine g2.trans ?_
          rw [List.append_assoc]
          exact List.perm_append_comm_assoc ..

theorem filter_split (l : List Node) (p : Node → Bool) : (idsL l).Perm (idsL (l.filter (fun n => !p n)) ++ idsL (l.filter p)) := by
  induction l with
  | nil => exact .refl _
  | cons n l ih =>
    rw [idsL]
    by_cases h : p n
    · rw [List.filter_cons_of_neg (by simp [h]), List.filter_cons_of_pos (by simp [h]), idsL]
      exact (ih.append_left _).trans (List.perm_append_comm_assoc ..)
    · rw [List.filter_cons_of_pos (by simp [h]), List.filter_cons_of_neg (by simp [h]), idsL, List.append_assoc]
      exact ih.append_left _

theorem render_ok (body : Nat → List Nat) (place : Nat → List Nat) (hp : Places body place) :
    ∀ (fuel : Nat) (old : Option Node) (x : Nat) (reg rest : List Nat) (c' : Cut) (n : Node),
      (∀ o, old = some o → o.id = x ∧ Placed place o) → reg.Perm (oldIds old ++ rest) → (∀ y ∈ rest, ¬ place x <+: place y) →
      render body fuel old x ⟨reg, none⟩ = (c', .ok n) → c'.left = none ∧ c'.reg.Perm (n.ids ++ rest) ∧ n.id = x ∧ Placed place n := by
  intro fuel
  induction fuel with
  | zero => intro old x reg rest c' n _ _ _ h; simp [render] at h
  | succ fuel ih =>
    intro old x reg rest c' n hold hr hrest h
    simp only [render] at h
    have hx : x ∉ rest := fun hm => hrest x hm (List.prefix_refl _)
    obtain ⟨reg1, e1, oldKids, ek, p1, hk1, hk2⟩ : ∃ reg1, (if x ∈ (⟨reg, none⟩ : Cut).reg then (⟨reg, none⟩ : Cut)
        else { (⟨reg, none⟩ : Cut) with reg := (⟨reg, none⟩ : Cut).reg ++ [x] }) = ⟨reg1, none⟩ ∧
        ∃ oldKids, oldKids = ((old.map Node.kids).getD []) ∧ reg1.Perm (x :: (idsL oldKids ++ rest)) ∧
          (oldKids.map Node.id).Nodup ∧ ∀ o ∈ oldKids, Placed place o := by
      cases old with
      | none =>
        have : x ∉ reg := fun hm => hx (by simpa [oldIds] using hr.mem_iff.1 hm)
        refine ⟨reg ++ [x], by rw [if_neg this], [], rfl, ?_, by simp, by simp⟩
        simp only [idsL, List.nil_append]
        simp only [oldIds, List.nil_append] at hr
        exact (hr.append_right [x]).trans (List.perm_append_comm)
      | some o =>
        obtain ⟨y, kids⟩ := o
        obtain ⟨h1, h2⟩ := hold _ rfl
        simp only [Node.id] at h1
        subst h1
        simp only [oldIds, Node.ids, List.cons_append] at hr
        refine ⟨reg, by rw [if_pos (hr.mem_iff.2 (by simp))], kids, rfl, hr, h2.1, placedL_mem h2.2.2⟩
    have h : (match unmountL (oldKids.filter (fun k => decide (k.id ∉ body x))) ⟨reg1, none⟩ with
        | (c, true) => (c, Res.cut (.mk x []))
        | (c, false) => renderKids (render body fuel) oldKids x [] (body x) c) = (c', .ok n) := by
      simp only [e1, suspend] at h
      cases old <;> (subst ek; exact h)
    have p2 : reg1.Perm (idsL (oldKids.filter (fun k => decide (k.id ∉ body x))) ++
        (idsL (oldKids.filter (fun k => decide (k.id ∈ body x))) ++ (x :: rest))) := by
      have e : oldKids.filter (fun k => decide (k.id ∉ body x)) = oldKids.filter (fun k => !decide (k.id ∈ body x)) :=
        List.filter_congr (fun k _ => by simp)
      rw [e, ← List.append_assoc]
      refine p1.trans (List.perm_middle.symm.trans ?_)
      exact (filter_split oldKids (fun k => decide (k.id ∈ body x))).append_right _
    obtain ⟨reg2, e2, p3⟩ := unmountL_ok _ reg1 _ p2
    rw [e2] at h
    exact kids_ok body place hp x (render body fuel) oldKids hk1 hk2 rest hrest ih (body x) [] reg2 c' n rfl (by simp)
      (by simpa [idsL] using p3) h

/-- **C73, a render that is not cut short.**  Whatever the components return now — children kept, in any order, new ones, and others gone,
at any depth: after the render the registered components are exactly those of the new tree, each once, and the next render and leaving
(`C73_leaving_partial`) begin from there. -/
theorem C73_uninterrupted (body : Nat → List Nat) (place : Nat → List Nat) (hp : Places body place) (fuel x : Nat) (kids : List Node)
    (h : Placed place (.mk x kids)) (reg : List Nat) (hr : reg.Perm (Node.mk x kids).ids) (c' : Cut) (root : Node)
    (hd : render body fuel (some (.mk x kids)) x ⟨reg, none⟩ = (c', .ok root)) :
    c'.reg.Perm root.ids ∧ Placed place root := by
  obtain ⟨-, h2, -, h4⟩ := render_ok body place hp fuel _ x reg [] c' root
    (fun o ho => by cases ho; exact ⟨rfl, h⟩) (by simpa [oldIds] using hr) (by simp) hd
  exact ⟨by simpa using h2, h4⟩

/-- The places of the example below. -/
def exPlace (n : Nat) : List Nat := if n = 0 then [] else if n = 3 then [2, 0] else if n = 4 then [0] else if n = 7 then [3] else [n]

/-- What the components of the example return. -/
def exBody (n : Nat) : List Nat := if n = 0 then [2, 1, 7] else []

/-- A child is gone, one is kept but without its own child, one is new. -/
example : Places exBody exPlace ∧ Placed exPlace (.mk 0 [.mk 4 [], .mk 1 [], .mk 2 [.mk 3 []]]) ∧
    render exBody 5 (some (.mk 0 [.mk 4 [], .mk 1 [], .mk 2 [.mk 3 []]])) 0 ⟨[0, 4, 1, 2, 3], none⟩ =
      (⟨[0, 1, 2, 7], none⟩, .ok (.mk 0 [.mk 2 [], .mk 1 [], .mk 7 []])) := by
  refine ⟨⟨fun x y h => ?_, fun x => ?_, fun x y hy => ?_⟩, ?_, by rfl⟩
  · unfold exPlace at h
    by_cases x0 : x = 0 <;> by_cases x3 : x = 3 <;> by_cases x4 : x = 4 <;> by_cases x7 : x = 7 <;>
      by_cases y0 : y = 0 <;> by_cases y3 : y = 3 <;> by_cases y4 : y = 4 <;> by_cases y7 : y = 7 <;>
      simp_all <;> omega
  · unfold exBody; split <;> decide
  · unfold exBody at hy
    split at hy
    · rename_i h0
      subst h0
      simp only [List.mem_cons, List.not_mem_nil, or_false] at hy
      rcases hy with rfl | rfl | rfl <;> exact ⟨_, rfl⟩
    · cases hy
  · simp [Placed, PlacedL, exPlace, Node.id]

/-- A render that is not cut short leaves nothing. -/
example : ∃ reg root, render (fun x => if x = 0 then [4, 1, 2] else if x = 2 then [3] else []) 5
      (some (.mk 0 [.mk 4 [], .mk 1 [], .mk 7 [.mk 3 []]])) 0 ⟨[0, 4, 1, 7, 3], none⟩ = (⟨reg, none⟩, .ok root) ∧
    Closed (run (afterCut root reg) (List.replicate 14 (.close 0))) ∧
    (run (afterCut root reg) (List.replicate 14 (.close 0))).reg = [] :=
  ⟨[0, 4, 1, 2, 3], .mk 0 [.mk 4 [], .mk 1 [], .mk 2 [.mk 3 []]], by rfl, rfl, rfl⟩

end Verif.Closing
