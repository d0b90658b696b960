import Verif.Sched.HeapLemmas
/-! # Single steps of the model states shared by parallel renders (helper lemmas) -/
namespace Verif.Sched.Heap
open Verif.Sched (Tree upd upd_same upd_ne upd_apply le_refl le_trans le_par le_iff le_depth)
variable {T : Tree}

/-- What the body drops. -/
theorem body_drop {s : St} (h : Inv T s) {t o d y : Nat} {p : Option Nat} {fs : List Frame} {b : Bool} {kids : List Nat}
    (he : s.tasks t = ⟨o, d, .running, ⟨y, p, .granted⟩ :: fs, b⟩) :
    ((dropped s p kids).flatMap (subs s s.nextS)).all (known s) = true ∧
    ∀ τ ∈ (dropped s p kids).flatMap (subs s s.nextS), s.reg (inst s τ) = some τ ∧
      ∃ z, T.par z = some (pos s y) ∧ z ∉ kids ∧ T.le z (pos s τ) = true := by
  have hlt : t < s.nextT := running_lt h (by rw [he])
  have hrun : Running s t := ⟨hlt, by rw [he]⟩
  have hft : Fr s t ⟨y, p, .granted⟩ := ⟨hlt, by rw [he], by rw [he]; simp⟩
  have hfree : ∀ x, T.le (pos s y) x = true → x ≠ pos s y → ¬ Busy s x := fun x h1 h2 =>
    top_free h (f := ⟨y, p, .granted⟩) (fs := fs) hrun (by rw [he]) h1 h2
  have hyreg : s.reg (inst s y) = some y := h.frReg t _ hft
  have hstrict : ∀ x, T.par x = some (pos s y) → T.le (pos s y) x = true ∧ x ≠ pos s y := by
    intro x hx
    refine ⟨le_par hx, ?_⟩
    intro hh
    have := T.depth_par _ _ hx
    rw [hh] at this
    omega
  have hdrop : ∀ σ ∈ dropped s p kids, s.reg (inst s σ) = some σ ∧ T.par (pos s σ) = some (pos s y) ∧ pos s σ ∉ kids := by
    intro σ hσ
    unfold dropped at hσ
    split at hσ
    · simp at hσ
    · rename_i q
      simp only [List.mem_map, List.mem_filter] at hσ
      obtain ⟨e, ⟨he1, he2⟩, rfl⟩ := hσ
      obtain ⟨q1, q2, _⟩ := h.frOld t _ hft q rfl
      obtain ⟨k1, _, _, k4⟩ := h.kidOk q q1 e he1
      have hpar' : T.par e.1 = some (pos s y) := by rw [k4, q2]
      obtain ⟨c1, c2⟩ := hstrict _ hpar'
      refine ⟨(h.edge _ y e.1 (some q) hyreg hpar' (hfree _ c1 c2) (.inl ⟨t, _, hft, rfl, trivial, rfl⟩)).2 q e.2 rfl he1, by rw [k1]; exact hpar', ?_⟩
      rw [k1]
      simpa using he2
  have key : ∀ τ ∈ (dropped s p kids).flatMap (subs s s.nextS), s.reg (inst s τ) = some τ ∧
      ∃ z, T.par z = some (pos s y) ∧ z ∉ kids ∧ T.le z (pos s τ) = true := by
    intro τ hτ
    obtain ⟨σ, hσ, hτ⟩ := List.mem_flatMap.1 hτ
    obtain ⟨a, b, c⟩ := hdrop σ hσ
    obtain ⟨c1, c2⟩ := hstrict _ b
    obtain ⟨r1, r2⟩ := subs_reg h (pos s y) hfree s.nextS σ a c1 c2 τ hτ
    exact ⟨r1, pos s σ, b, c, r2⟩
  refine ⟨?_, key⟩
  rw [List.all_eq_true]
  intro τ hτ
  have := (key τ hτ).1
  unfold inst at this
  simp [known, this]

/-- Above a mounted component all components are mounted. -/
theorem up_le {s : St} (h : Inv T s) : ∀ (n : Nat) (x z i σ : Nat), T.depth x ≤ n → s.reg i = some σ → pos s σ = x → T.le z x = true →
    ∃ j ρ, s.reg j = some ρ ∧ pos s ρ = z := by
  intro n
  induction n with
  | zero =>
    intro x z i σ hd hi hx hz
    rcases le_iff.1 hz with rfl | ⟨p, hp, _⟩
    · exact ⟨i, σ, hi, hx⟩
    · have := T.depth_par _ _ hp
      omega
  | succ n ih =>
    intro x z i σ hd hi hx hz
    rcases le_iff.1 hz with rfl | ⟨p, hp, hz⟩
    · exact ⟨i, σ, hi, hx⟩
    · obtain ⟨j, ρ, hj, hρ⟩ := h.up i σ p hi (by rw [hx]; exact hp)
      have := T.depth_par _ _ hp
      exact ih p z j ρ (by omega) hj hρ hz

theorem enter_mounted {s0 s : St} {t x i : Nat} {p old : Option Nat} (h : Inv T s0) (h1 : s.heap = s0.heap) (h2 : s.nextS = s0.nextS)
    (h3 : s.reg = s0.reg) (hx : ∀ σ, s0.reg i = some σ → pos s0 σ = x) {z j : Nat} (hm : MountedAt s0 z j) :
    MountedAt (enter s t x i p old) z j := by
  obtain ⟨e1, _, e3, _⟩ := enter_fields s t x i p old
  obtain ⟨σ, hσ, hp⟩ := hm
  unfold MountedAt
  rw [e1, e3, h1, h2, h3]
  by_cases hji : j = i
  · subst hji
    exact ⟨s0.nextS, by rw [upd_same], by rw [upd_same]; rw [← hp]; exact (hx σ hσ).symm⟩
  · have := (h.regOk j σ hσ).1
    exact ⟨σ, by rw [upd_ne _ _ hji]; exact hσ, by rw [upd_ne _ _ (by omega)]; exact hp⟩

/-- What `next` does. -/
theorem next_case {s : St} (h : Inv T s) {t o d y : Nat} {p : Option Nat} {c : Nat} {cs : List Nat} {fs : List Frame} {b : Bool}
    (he : s.tasks t = ⟨o, d, .running, ⟨y, p, .kids (c :: cs)⟩ :: fs, b⟩) :
    match p.bind (fun ρ => kid s ρ c) with
    | some σ => s.reg (inst s σ) = some σ ∧ pos s σ = c
    | none => ∀ j σ, s.reg j = some σ → pos s σ ≠ c := by
  have hlt : t < s.nextT := running_lt h (by rw [he])
  have hrun : Running s t := ⟨hlt, by rw [he]⟩
  have hft : Fr s t ⟨y, p, .kids (c :: cs)⟩ := ⟨hlt, by rw [he], by rw [he]; simp⟩
  have hyreg : s.reg (inst s y) = some y := h.frReg t _ hft
  obtain ⟨hnd, hkp⟩ := h.frKids t _ hft _ rfl
  have hcp : T.par c = some (pos s y) := hkp c (by simp)
  have hcy : c ≠ pos s y := by
    intro hh
    have := T.depth_par _ _ hcp
    rw [hh] at this
    omega
  have hb : ¬ Busy s c := top_free h (f := ⟨y, p, .kids (c :: cs)⟩) (fs := fs) hrun (by rw [he]) (le_par hcp) hcy
  obtain ⟨ed1, ed2⟩ := h.edge _ y c p hyreg hcp hb (.inl ⟨t, _, hft, rfl, by simp [pend], rfl⟩)
  split
  · rename_i σ hσ
    cases p with
    | none => cases hσ
    | some ρ =>
      have hm : (c, σ) ∈ (s.heap ρ).kids := lookup_mem hσ
      exact ⟨ed2 ρ σ rfl hm, (h.kidOk ρ (h.frOld t _ hft ρ rfl).1 _ hm).1⟩
  · rename_i hσ
    intro j σ hj hx
    obtain ⟨ρ, hρ, hm, _⟩ := ed1 j σ hj hx
    subst hρ
    exact lookup_none hσ hm

theorem attach_pos (s : St) (y : Nat) (q : Option Nat) (σ : Nat) : (attach s y q σ).pos = (s.heap σ).pos := by
  cases q with
  | none => rfl
  | some ρ => simp only [attach, upd_apply]; split <;> simp [setKid, *]

theorem schedule_same (s : St) (i : Nat) : (schedule s i).reg = s.reg ∧ (schedule s i).heap = s.heap ∧ (schedule s i).log = s.log ∧
    (schedule s i).nextI = s.nextI := by
  unfold schedule
  split
  · simp
  · simp only
    split <;> simp

theorem forget_some {s : St} {l : List Nat} {i σ : Nat} (h : forget s l i = some σ) : s.reg i = some σ := by
  unfold forget at h
  split at h
  · cases h
  · exact h

/-- A component stays mounted unless the body of one above it drops it. -/
theorem kept_step {s : St} {a : Act} (h : Inv T s) (hc : Calm T s a) {x i : Nat} (hm : MountedAt s x i) :
    MountedAt (step T s a) x i ∨ ∃ t kids, a = .body t kids ∧ Drops T s t kids x := by
  cases a with
  | set j =>
    left
    simp only [step]
    split
    · obtain ⟨e1, e2, _⟩ := schedule_same s j
      unfold MountedAt; rw [e1, e2]; exact hm
    · exact hm
  | start t =>
    left
    simp only [step]
    split
    · rename_i hk
      split
      · exact hm
      · refine enter_mounted (s0 := s) h (by rfl) (by rfl) (by rfl) ?_ hm
        intro σ hσ
        obtain ⟨a, b, _⟩ := h.regOk _ _ hσ
        exact h.instPos σ _ a (h.oldOk t hk.1).1 b
    · exact hm
  | grant t =>
    left
    simp only [step]
    split
    · split <;> exact hm
    · exact hm
  | next t =>
    left
    simp only [step]
    split
    · rename_i o d y p c cs fs b he
      have hn := next_case h he
      split
      · rename_i σ hσ
        simp only [St.put, kid] at hσ
        unfold kid at hn
        simp only [hσ] at hn
        refine enter_mounted (s0 := s) h (by rfl) (by rfl) (by rfl) ?_ hm
        intro τ hτ
        change s.reg (s.heap σ).inst = some τ at hτ
        rw [show (s.heap σ).inst = inst s σ from rfl, hn.1] at hτ
        cases hτ
        exact hn.2
      · refine enter_mounted (s0 := s) h (by rfl) (by rfl) (by rfl) ?_ hm
        intro τ hτ
        obtain ⟨a, b', _⟩ := h.regOk _ _ hτ
        have := h.instLt τ a
        rw [b'] at this
        exact absurd this (Nat.lt_irrefl _)
    · exact hm
  | finish t =>
    left
    simp only [step]
    split
    · obtain ⟨σ, h1, h2⟩ := hm
      exact ⟨σ, h1, by simp only [attach_pos]; exact h2⟩
    · exact hm
  | die t =>
    left
    simp only [step]
    split <;> exact hm
  | pick t =>
    left
    simp only [step]
    split <;> exact hm
  | free σ =>
    left
    simp only [step]
    split <;> exact hm
  | body t kids =>
    simp only [step]
    split
    · rename_i o d y p fs b he
      split
      · rename_i hk
        obtain ⟨hall, hin⟩ := body_drop (kids := kids) h he
        rw [if_pos hall]
        obtain ⟨σ, h1, h2⟩ := hm
        by_cases hl : σ ∈ (dropped s p kids).flatMap (subs s s.nextS)
        · right
          obtain ⟨_, z, z1, z2, z3⟩ := hin σ hl
          refine ⟨t, kids, rfl, ⟨y, p, .granted⟩, fs, z, by rw [he], by rw [he], rfl, hk, z1, z2, ?_⟩
          rw [← h2]; exact z3
        · left
          refine ⟨σ, ?_, h2⟩
          simp only [forget]
          rw [if_neg]
          · exact h1
          · intro hh
            rw [List.any_eq_true] at hh
            obtain ⟨τ, hτ, hi⟩ := hh
            have hi : inst s τ = i := by simpa using hi
            have := (hin τ hτ).1
            rw [hi, h1] at this
            cases this
            exact hl hτ
      · exact .inl hm
    · exact .inl hm

/-- What is dropped is no longer mounted. -/
theorem drop_step {s : St} {t : Nat} {kids : List Nat} (h : Inv T s) {x i : Nat} (hd : Drops T s t kids x) :
    ¬ MountedAt (step T s (.body t kids)) x i := by
  have h' := inv_body (kids := kids) (t := t) h
  obtain ⟨f, fs, z, hst, hsk, hph, hk, hz, hzk, hzx⟩ := hd
  obtain ⟨y, p, ph⟩ := f
  simp only at hph
  subst hph
  obtain ⟨o, d, st, sk, b, he⟩ : ∃ o d st sk b, s.tasks t = ⟨o, d, st, sk, b⟩ := ⟨_, _, _, _, _, rfl⟩
  rw [he] at hst hsk
  simp only at hst hsk
  subst hst hsk
  have hlt : t < s.nextT := running_lt h (by rw [he])
  have hft : Fr s t ⟨y, p, .granted⟩ := ⟨hlt, by rw [he], by rw [he]; simp⟩
  obtain ⟨hall, hin⟩ := body_drop (kids := kids) h he
  have hs' : step T s (.body t kids) = { s.put t ⟨o, d, .running, ⟨y, p, .kids kids⟩ :: fs, b⟩ with
            flag := upd s.flag (s.heap y).inst false
            rendered := upd s.rendered (s.heap y).inst true
            reg := forget s ((dropped s p kids).flatMap (subs s s.nextS))
            log := .read t (s.heap y).pos (s.heap y).inst :: s.log } := by
    simp only [step, he]
    rw [if_pos hk, if_pos hall]
  rw [hs'] at h' ⊢
  generalize hg : ({ s.put t ⟨o, d, .running, ⟨y, p, .kids kids⟩ :: fs, b⟩ with
            flag := upd s.flag (s.heap y).inst false
            rendered := upd s.rendered (s.heap y).inst true
            reg := forget s ((dropped s p kids).flatMap (subs s s.nextS))
            log := .read t (s.heap y).pos (s.heap y).inst :: s.log } : St) = s' at h' ⊢
  have htk : s'.tasks t = ⟨o, d, .running, ⟨y, p, .kids kids⟩ :: fs, b⟩ := by
    rw [← hg]; simp [St.put, upd_same]
  have hheap : s'.heap = s.heap := by rw [← hg]; rfl
  have hrun : Running s' t := ⟨running_lt h' (by rw [htk]), by rw [htk]⟩
  have hft' : Fr s' t ⟨y, p, .kids kids⟩ := ⟨hrun.1, hrun.2, by rw [htk]; simp⟩
  have hyreg := h'.frReg t _ hft'
  rintro ⟨σ, h1, h2⟩
  have hz' : T.par z = some (pos s' y) := by unfold pos; rw [hheap]; exact hz
  obtain ⟨j, ρ, hj, hρ⟩ := up_le h' _ x z i σ (Nat.le_refl _) h1 h2 hzx
  have hne : z ≠ pos s' y := by
    intro hh
    have := T.depth_par _ _ hz'
    rw [hh] at this
    omega
  have hb : ¬ Busy s' z := top_free h' (f := ⟨y, p, .kids kids⟩) (fs := fs) hrun (by rw [htk]) (le_par hz') hne
  have hhold : Holder s' y z (some y) := by
    refine .inr ⟨fun u g hg e => ?_, rfl⟩
    have := (fr_uniq h' hg hft' (by rw [e])).2
    rw [this]
    exact hzk
  obtain ⟨q, hq, hmem, _⟩ := (h'.edge _ y z (some y) hyreg hz' hb hhold).1 j ρ hj hρ
  cases hq
  rw [hheap, h.frNew t _ hft (by simp)] at hmem
  simp at hmem

/-- A new instance is made only for a place without one. -/
theorem made_step {s : St} {a : Act} (h : Inv T s) {x i : Nat} (hl : (step T s a).log = .made x i :: s.log) :
    (∀ j, ¬ MountedAt s x j) ∧ i = s.nextI := by
  have nope : ∀ {l : List Ev} {e : Ev}, l = e :: l → False := fun hh => by have := congrArg List.length hh; simp at this
  cases a with
  | set j =>
    simp only [step] at hl
    split at hl
    · rw [(schedule_same s j).2.2.1] at hl; exact (nope hl).elim
    · exact (nope hl).elim
  | start t =>
    simp only [step] at hl
    split at hl
    · split at hl
      · exact (nope hl).elim
      · rw [(enter_fields _ _ _ _ _ _).2.2.2.2.2.2.2.2] at hl; exact (nope hl).elim
    · exact (nope hl).elim
  | grant t =>
    simp only [step] at hl
    split at hl
    · split at hl <;> exact (nope hl).elim
    · exact (nope hl).elim
  | next t =>
    simp only [step] at hl
    split at hl
    · rename_i o d y p c cs fs b he
      have hn := next_case h he
      split at hl
      · rw [(enter_fields _ _ _ _ _ _).2.2.2.2.2.2.2.2] at hl; exact (nope hl).elim
      · rename_i hσ
        simp only [St.put, kid] at hσ
        unfold kid at hn
        simp only [hσ] at hn
        rw [(enter_fields _ _ _ _ _ _).2.2.2.2.2.2.2.2] at hl
        simp only [St.put, List.cons.injEq, Ev.made.injEq, and_true] at hl
        obtain ⟨rfl, rfl⟩ := hl
        exact ⟨fun j ⟨σ, h1, h2⟩ => hn j σ h1 h2, rfl⟩
    · exact (nope hl).elim
  | finish t =>
    simp only [step] at hl
    split at hl <;> exact (nope hl).elim
  | die t =>
    simp only [step] at hl
    split at hl <;> exact (nope hl).elim
  | pick t =>
    simp only [step] at hl
    split at hl <;> exact (nope hl).elim
  | free σ =>
    simp only [step] at hl
    split at hl <;> exact (nope hl).elim
  | body t kids =>
    simp only [step] at hl
    split at hl
    · split at hl
      · split at hl
        · simp at hl
        · have := congrArg List.length hl; simp at this
      · exact (nope hl).elim
    · exact (nope hl).elim

/-- The body that is run is that of the mounted instance. -/
theorem read_step {s : St} {a : Act} (h : Inv T s) {t x i : Nat} (hl : (step T s a).log = .read t x i :: s.log) :
    MountedAt s x i ∧ a.task = some t := by
  have nope : ∀ {l : List Ev} {e : Ev}, l = e :: l → False := fun hh => by have := congrArg List.length hh; simp at this
  cases a with
  | set j =>
    simp only [step] at hl
    split at hl
    · rw [(schedule_same s j).2.2.1] at hl; exact (nope hl).elim
    · exact (nope hl).elim
  | start t =>
    simp only [step] at hl
    split at hl
    · split at hl
      · exact (nope hl).elim
      · rw [(enter_fields _ _ _ _ _ _).2.2.2.2.2.2.2.2] at hl; exact (nope hl).elim
    · exact (nope hl).elim
  | grant t =>
    simp only [step] at hl
    split at hl
    · split at hl <;> exact (nope hl).elim
    · exact (nope hl).elim
  | next t =>
    simp only [step] at hl
    split at hl
    · split at hl
      · rw [(enter_fields _ _ _ _ _ _).2.2.2.2.2.2.2.2] at hl; exact (nope hl).elim
      · rw [(enter_fields _ _ _ _ _ _).2.2.2.2.2.2.2.2] at hl
        simp [St.put] at hl
    · exact (nope hl).elim
  | finish t =>
    simp only [step] at hl
    split at hl <;> exact (nope hl).elim
  | die t =>
    simp only [step] at hl
    split at hl <;> exact (nope hl).elim
  | pick t =>
    simp only [step] at hl
    split at hl <;> exact (nope hl).elim
  | free σ =>
    simp only [step] at hl
    split at hl <;> exact (nope hl).elim
  | body t' kids =>
    simp only [step] at hl
    split at hl
    · rename_i o d y p fs b he
      have hlt : t' < s.nextT := running_lt h (by rw [he])
      have hft : Fr s t' ⟨y, p, .granted⟩ := ⟨hlt, by rw [he], by rw [he]; simp⟩
      split at hl
      · split at hl
        · simp only [List.cons.injEq, Ev.read.injEq, and_true] at hl
          obtain ⟨rfl, rfl, rfl⟩ := hl
          exact ⟨⟨y, h.frReg _ _ hft, rfl⟩, rfl⟩
        · have := congrArg List.length hl; simp at this
      · exact (nope hl).elim
    · exact (nope hl).elim

/-- An instance that is mounted nowhere is not mounted by a step, if it was made before. -/
theorem gone_step {s : St} {a : Act} (h : Inv T s) (hc : Calm T s a) {i : Nat} (hi : i < s.nextI) (hr : s.reg i = none) :
    (step T s a).reg i = none ∧ s.nextI ≤ (step T s a).nextI := by
  have henter : ∀ {s1 : St} {t x j : Nat} {p old : Option Nat}, s1.reg = s.reg → j ≠ i → (enter s1 t x j p old).reg i = none := by
    intro s1 t x j p old h1 h2
    rw [(enter_fields _ _ _ _ _ _).2.2.1, upd_ne _ _ (Ne.symm h2), h1]; exact hr
  cases a with
  | set j =>
    simp only [step]
    split
    · rw [(schedule_same s j).1, (schedule_same s j).2.2.2]; exact ⟨hr, Nat.le_refl _⟩
    · exact ⟨hr, Nat.le_refl _⟩
  | start t =>
    simp only [step]
    split
    · rename_i hk
      split
      · exact ⟨hr, Nat.le_refl _⟩
      · refine ⟨henter rfl ?_, by rw [(enter_fields _ _ _ _ _ _).2.2.2.2.1]; exact Nat.le_refl _⟩
        intro hh
        rw [show (s.heap (s.tasks t).old).inst = _ from (h.oldOk t hk.1).2] at hh
        exact (hc hk.2).1 (by rw [hh]; exact hr)
    · exact ⟨hr, Nat.le_refl _⟩
  | grant t =>
    simp only [step]
    split
    · split <;> exact ⟨hr, Nat.le_refl _⟩
    · exact ⟨hr, Nat.le_refl _⟩
  | next t =>
    simp only [step]
    split
    · rename_i o d y p c cs fs b he
      have hn := next_case h he
      split
      · rename_i σ hσ
        simp only [St.put, kid] at hσ
        unfold kid at hn
        simp only [hσ] at hn
        refine ⟨henter rfl ?_, by rw [(enter_fields _ _ _ _ _ _).2.2.2.2.1]; exact Nat.le_refl _⟩
        intro hh
        change inst s σ = i at hh
        rw [hh, hr] at hn
        cases hn.1
      · refine ⟨henter rfl ?_, by rw [(enter_fields _ _ _ _ _ _).2.2.2.2.1]; exact Nat.le_succ _⟩
        intro hh
        change s.nextI = i at hh
        omega
    · exact ⟨hr, Nat.le_refl _⟩
  | finish t =>
    simp only [step]
    split <;> exact ⟨hr, Nat.le_refl _⟩
  | die t =>
    simp only [step]
    split <;> exact ⟨hr, Nat.le_refl _⟩
  | pick t =>
    simp only [step]
    split <;> exact ⟨hr, Nat.le_refl _⟩
  | free σ =>
    simp only [step]
    split <;> exact ⟨hr, Nat.le_refl _⟩
  | body t kids =>
    have hf : ∀ l, forget s l i = none := by
      intro l
      unfold forget
      split
      · rfl
      · exact hr
    simp only [step]
    split
    · split
      · split
        · exact ⟨hf _, Nat.le_refl _⟩
        · exact ⟨hf _, Nat.le_refl _⟩
      · exact ⟨hr, Nat.le_refl _⟩
    · exact ⟨hr, Nat.le_refl _⟩

theorem calmRun_append {acts more : List Act} : ∀ {s : St}, CalmRun T s (acts ++ more) ↔ CalmRun T s acts ∧ CalmRun T (run T s acts) more := by
  induction acts with
  | nil => intro s; simp [CalmRun, run]
  | cons a as ih =>
    intro s
    simp only [List.cons_append, CalmRun, run, List.foldl_cons]
    rw [ih]
    simp only [run, and_assoc]

theorem gone_run {i : Nat} : ∀ {more : List Act} {s : St}, Inv T s → CalmRun T s more → i < s.nextI → s.reg i = none →
    (run T s more).reg i = none
  | [], _, _, _, _, hr => hr
  | a :: as, s, h, hc, hi, hr => by
    obtain ⟨h1, h2⟩ := gone_step h hc.1 hi hr
    exact gone_run (more := as) (inv_step h hc.1) hc.2 (Nat.lt_of_lt_of_le hi h2) h1

/-- The instances made so far. -/
theorem made_lt (T : Tree) (acts : List Act) : ∀ x i, Ev.made x i ∈ (run T init acts).log → i < (run T init acts).nextI := by
  have step1 : ∀ (s : St) (a : Act), (∀ x i, Ev.made x i ∈ s.log → i < s.nextI) → ∀ x i, Ev.made x i ∈ (step T s a).log → i < (step T s a).nextI := by
    intro s a h x i hm
    cases a with
    | set j =>
      simp only [step] at hm ⊢
      split at hm
      · rename_i hr
        rw [if_pos hr]
        rw [(schedule_same s j).2.2.1] at hm
        rw [(schedule_same s j).2.2.2]
        exact h x i hm
      · rename_i hr
        rw [if_neg hr]; exact h x i hm
    | start t =>
      simp only [step] at hm ⊢
      split
      · rename_i h1
        rw [if_pos h1] at hm
        split
        · rename_i h2
          rw [if_pos h2] at hm
          exact h x i hm
        · rename_i h2
          rw [if_neg h2] at hm
          rw [(enter_fields _ _ _ _ _ _).2.2.2.2.2.2.2.2] at hm
          rw [(enter_fields _ _ _ _ _ _).2.2.2.2.1]
          exact h x i hm
      · rename_i h1
        rw [if_neg h1] at hm
        exact h x i hm
    | grant t =>
      simp only [step] at hm ⊢
      split
      · split
        · rename_i heq hh; simp only [heq, if_pos hh] at hm; exact h x i hm
        · rename_i heq hh; simp only [heq, if_neg hh] at hm; exact h x i hm
      · rename_i hno
        split at hm
        · rename_i heq; exact absurd heq (hno _ _ _ _ _ _)
        · exact h x i hm
    | next t =>
      simp only [step] at hm ⊢
      split
      · rename_i heq
        simp only [heq] at hm
        split
        · rename_i hk
          simp only [hk] at hm
          rw [(enter_fields _ _ _ _ _ _).2.2.2.2.2.2.2.2] at hm
          rw [(enter_fields _ _ _ _ _ _).2.2.2.2.1]
          exact h x i hm
        · rename_i hk
          simp only [hk] at hm
          rw [(enter_fields _ _ _ _ _ _).2.2.2.2.2.2.2.2] at hm
          rw [(enter_fields _ _ _ _ _ _).2.2.2.2.1]
          simp only [St.put] at hm ⊢
          rcases List.mem_cons.1 hm with hm | hm
          · cases hm; exact Nat.lt_succ_self _
          · exact Nat.lt_succ_of_lt (h x i hm)
      · rename_i hno
        split at hm
        · rename_i heq; exact absurd heq (hno _ _ _ _ _ _ _ _)
        · exact h x i hm
    | finish t =>
      simp only [step] at hm ⊢
      split
      · rename_i heq; simp only [heq] at hm; exact h x i hm
      · rename_i hno
        split at hm
        · rename_i heq; exact absurd heq (hno _ _ _ _ _ _)
        · exact h x i hm
    | die t =>
      simp only [step] at hm ⊢
      split
      · rename_i h1; rw [if_pos h1] at hm; exact h x i hm
      · rename_i h1; rw [if_neg h1] at hm; exact h x i hm
    | pick t =>
      simp only [step] at hm ⊢
      cases hs : (s.tasks t).stat <;> simp only [hs] at hm ⊢ <;> exact h x i hm
    | free σ =>
      simp only [step] at hm ⊢
      split
      · rename_i h1; rw [if_pos h1] at hm; exact h x i hm
      · rename_i h1; rw [if_neg h1] at hm; exact h x i hm
    | body t kids =>
      simp only [step] at hm ⊢
      split
      · rename_i heq
        simp only [heq] at hm
        split
        · rename_i h1
          rw [if_pos h1] at hm
          split
          · rename_i h2
            rw [if_pos h2] at hm
            rcases List.mem_cons.1 hm with hm | hm
            · cases hm
            · exact h x i hm
          · rename_i h2
            rw [if_neg h2] at hm
            simp only [List.mem_cons, reduceCtorEq, false_or] at hm
            exact h x i hm
        · rename_i h1
          rw [if_neg h1] at hm
          exact h x i hm
      · rename_i hno
        split at hm
        · rename_i heq; exact absurd heq (hno _ _ _ _ _ _)
        · exact h x i hm
  have : ∀ (as : List Act) (s : St), (∀ x i, Ev.made x i ∈ s.log → i < s.nextI) →
      ∀ x i, Ev.made x i ∈ (run T s as).log → i < (run T s as).nextI := by
    intro as
    induction as with
    | nil => exact fun s h => h
    | cons a as ih => exact fun s h => ih (step T s a) (step1 s a h)
  refine this acts init ?_
  intro x i hm
  simp [init] at hm ⊢
  omega

end Verif.Sched.Heap
