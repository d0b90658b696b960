import Verif.Sched.Progress
/-! # Delivery of updates (helper lemmas) -/
namespace Verif.Sched
variable {T : Tree} {P : Nat → Prop}

/-! ### The set of tasks and what was taken out -/

structure Pool (s : St) : Prop where
  once : ∀ t, s.pool.count t + (consumed s.log).count t = if t < s.next then 1 else 0
  snap : ∀ l, s.consumer = .waiting l → l ≠ [] ∧ ∀ t ∈ l, t ∈ s.pool
  ended : ∀ t, t ∈ consumed s.log → (s.tasks t).ended
  done : ∀ t, t ∈ returned s.log → (s.tasks t).stat = .done
  sub : ∀ t, t ∈ returned s.log ↔ t ∈ consumed s.log ∧ (s.tasks t).stat = .done
  count : ∀ t, (returned s.log).count t ≤ (consumed s.log).count t

/-- The counter agrees with the set. -/
def Balanced (s : St) : Prop := s.tokens + (match s.consumer with
  | .waiting _ => 1
  | _ => 0) = s.pool.length

theorem Pool.mem {s : St} (h : Pool s) (t : Nat) : t ∈ s.pool ↔ t < s.next ∧ t ∉ consumed s.log := by
  have := h.once t
  rw [← List.count_pos_iff, ← List.count_eq_zero]
  split at this <;> omega

theorem Pool.nodup {s : St} (h : Pool s) : s.pool.Nodup := by
  rw [List.nodup_iff_count]
  intro t
  have := h.once t
  split at this <;> omega

theorem Pool.lt {s : St} (h : Pool s) {t : Nat} (ht : t ∈ consumed s.log) : t < s.next := by
  have := h.once t
  have h2 := List.count_pos_iff.2 ht
  split at this <;> omega

theorem pool_init : Pool init := by
  refine ⟨?_, ?_, ?_, ?_, ?_, ?_⟩
  · intro t
    show [0].count t + ([] : List Nat).count t = if t < 1 then 1 else 0
    by_cases h : t = 0
    · subst h; simp
    · have : ¬ t < 1 := by omega
      have h' : 0 ≠ t := fun e => h e.symm
      simp [this, h']
  · intro l h; simp [init] at h
  · intro t h; simp [init, consumed] at h
  · intro t h; simp [init, returned] at h
  · intro t; simp [init, consumed, returned]
  · intro t; simp [init, consumed, returned]

theorem balanced_init : Balanced init := rfl

/-- A step that leaves the pool alone. -/
theorem Pool.keep {s s' : St} (h : Pool s) (h1 : s'.pool = s.pool) (h2 : consumed s'.log = consumed s.log) (h2' : returned s'.log = returned s.log)
    (h3 : s'.next = s.next) (h4 : s'.consumer = s.consumer) (h5 : ∀ t, (s.tasks t).ended → (s'.tasks t).stat = (s.tasks t).stat) : Pool s' := by
  refine ⟨?_, ?_, ?_, ?_, ?_, ?_⟩
  · rw [h1, h2, h3]; exact h.once
  · rw [h4, h1]; exact h.snap
  · intro t ht
    rw [h2] at ht
    have := h.ended t ht
    unfold Task.ended at this ⊢
    rw [h5 t this]; exact this
  · intro t ht
    rw [h2'] at ht
    have := h.done t ht
    rw [h5 t (.inl this)]; exact this
  · intro t
    rw [h2, h2', h.sub t]
    constructor
    · rintro ⟨a, b⟩; exact ⟨a, by rw [h5 t (.inl b)]; exact b⟩
    · rintro ⟨a, b⟩; exact ⟨a, by rw [← h5 t (h.ended t a)]; exact b⟩
  · rw [h2, h2']; exact h.count

theorem enter_ended {s : St} {t y : Nat} {k : Task} (hn : ¬ (s.tasks t).ended) (u : Nat) (hu : (s.tasks u).ended) :
    ((enter (s.put t k) t y).tasks u).stat = (s.tasks u).stat := by
  rw [enter_put]
  split
  · subst u; exact absurd hu hn
  · split
    · unfold cancelTask
      rcases hu with hu | hu | hu <;> simp [hu]
    · rfl

theorem enter_pool {s : St} {t y : Nat} {k : Task} (h : Pool s) (hn : ¬ (s.tasks t).ended) : Pool (enter (s.put t k) t y) := by
  obtain ⟨f1, f2, f3, f4, f5, f6, f7, f8, f9, f10, f11, f12, f13⟩ := enter_fields (s.put t k) t y
  exact h.keep f8 (by rw [f13]; rfl) (by rw [f13]; rfl) f1 f10 (enter_ended hn)

theorem put_ended {s : St} {t : Nat} {k : Task} (hn : ¬ (s.tasks t).ended) (u : Nat) (hu : (s.tasks u).ended) :
    (upd s.tasks t k u).stat = (s.tasks u).stat := by
  simp only [upd_apply]
  split
  · subst u; exact absurd hu hn
  · rfl

theorem not_ended {k : Task} (h : k.stat = .created ∨ k.stat = .running ∨ k.stat = .cancelled) : ¬ k.ended := by
  rintro (h' | h' | h') <;> simp [h'] at h

theorem schedule_pool {s : St} {x : Nat} (h : Pool s) (hf : Fresh s) : Pool (schedule s x) := by
  unfold schedule
  split
  · exact h
  · split
    · refine ⟨?_, ?_, ?_, ?_, ?_, ?_⟩
      · intro t
        have := h.once t
        simp only [consumed, List.count_cons]
        by_cases ht : s.next = t
        · subst ht
          rw [if_neg (by omega)] at this
          simp; omega
        · simp only [beq_iff_eq, ht, if_false]
          by_cases hl : t < s.next
          · rw [if_pos hl] at this; rw [if_pos (by omega)]; omega
          · rw [if_neg hl] at this; rw [if_neg (by omega)]; omega
      · intro l hl
        have := h.snap l hl
        exact ⟨this.1, fun t ht => by simp [this.2 t ht]⟩
      · intro t ht
        have h1 := h.lt ht
        have := h.ended t ht
        simp only [upd_apply]; rw [if_neg (by omega)]; exact this
      · intro t ht
        have h1 := h.lt ((h.sub t).1 ht).1
        have := h.done t ht
        simp only [upd_apply]; rw [if_neg (by omega)]; exact this
      · intro t
        simp only [consumed, returned, upd_apply]
        by_cases ht : t = s.next
        · subst ht
          rw [if_pos rfl, h.sub]
          have h1 := (hf s.next (Nat.le_refl _)).1
          simp [h1]
        · rw [if_neg ht]; exact h.sub t
      · exact h.count
    · exact h.keep rfl rfl rfl rfl rfl (fun _ _ => rfl)

theorem pool_finish {s : St} {t : Nat} (h : Pool s) : Pool (finishCall s t) := by
  simp only [finishCall]
  split
  · rename_i o y fs he
    exact h.keep rfl rfl rfl rfl rfl (put_ended (not_ended (by simp [he])))
  · exact h

theorem pool_step {s : St} (a : Act) (h : Pool s) (hf : Fresh s) : Pool (step T s a) := by
  cases a with
  | set x v =>
    simp only [step]
    split
    · exact h
    · exact schedule_pool (h.keep rfl rfl rfl rfl rfl (fun _ _ => rfl)) hf
  | foreign x v =>
    simp only [step]
    split
    · exact h
    · exact h.keep rfl rfl rfl rfl rfl (fun _ _ => rfl)
  | start t =>
    simp only [step]
    split
    · rename_i hc
      exact enter_pool h (not_ended (by simp [hc.2]))
    · exact h
  | grant t =>
    simp only [step]
    split
    · rename_i o y fs he
      split
      · exact h.keep rfl rfl rfl rfl rfl (put_ended (not_ended (by simp [he])))
      · exact h
    · exact h
  | body t kids =>
    simp only [step]
    split
    · rename_i o y fs he
      exact h.keep rfl rfl rfl rfl rfl (put_ended (not_ended (by simp [he])))
    · exact h
  | next t =>
    simp only [step]
    split
    · rename_i o y c cs fs he
      exact enter_pool h (not_ended (by simp [he]))
    · exact h
  | finish t => exact pool_finish h
  | fail t =>
    simp only [step]
    refine pool_finish (fail_cases h (fun o y fs he l => ?_) ?_)
    · simp only [step, he]
      exact h.keep rfl rfl rfl rfl rfl (put_ended (not_ended (by simp [he])))
    · intro o y l fs he
      exact h.keep rfl rfl rfl rfl rfl (put_ended (not_ended (by simp [he])))
  | crash t =>
    simp only [step]
    split
    · rename_i hc
      exact h.keep rfl rfl rfl rfl rfl (put_ended (not_ended (by simp [hc.2.1])))
    · exact h
  | lose x => exact h.keep rfl rfl rfl rfl rfl (fun _ _ => rfl)
  | die t =>
    simp only [step]
    split
    · rename_i hc
      exact h.keep rfl rfl rfl rfl rfl (put_ended (not_ended (by simp [hc.2])))
    · exact h
  | call =>
    simp only [step]
    split
    · exact ⟨h.once, by simp, h.ended, h.done, h.sub, h.count⟩
    · exact h
  | acquire =>
    simp only [step]
    split
    · split
      · exact h
      · split
        · exact h.keep rfl rfl rfl rfl rfl (fun _ _ => rfl)
        · rename_i hp
          refine ⟨h.once, ?_, h.ended, h.done, h.sub, h.count⟩
          intro l hl
          simp only [Consumer.waiting.injEq] at hl
          subst hl
          exact ⟨by simpa using hp, fun t ht => ht⟩
    · exact h
  | pick t =>
    simp only [step]
    split
    · rename_i snap hsnap
      split
      · rename_i ht
        have htp := (h.snap snap hsnap).2 t ht
        have hnot := ((h.mem t).1 htp).2
        have honce : ∀ u, (s.pool.erase t).count u + ((consumed s.log).count u + if t = u then 1 else 0) = if u < s.next then 1 else 0 := by
          intro u
          have := h.once u
          by_cases hu : t = u
          · subst hu
            have hc : 0 < s.pool.count t := List.count_pos_iff.2 htp
            rw [List.count_erase_self]; simp only [if_true]; omega
          · rw [List.count_erase_of_ne (fun h => hu h.symm), if_neg hu]; omega
        split
        · rename_i hst
          refine ⟨?_, by simp, ?_, ?_, ?_, ?_⟩
          · intro u
            have := honce u
            simpa only [consumed, List.count_cons, beq_iff_eq] using this
          · intro u hu
            rcases List.mem_cons.1 hu with rfl | hu
            · exact .inl hst
            · exact h.ended u hu
          · intro u hu
            rcases List.mem_cons.1 hu with rfl | hu
            · exact hst
            · exact h.done u hu
          · intro u
            simp only [returned, consumed, List.mem_cons, h.sub u]
            constructor
            · rintro (rfl | hu)
              · exact ⟨.inl rfl, hst⟩
              · exact ⟨.inr hu.1, hu.2⟩
            · rintro ⟨rfl | hu, h2⟩
              · exact .inl rfl
              · exact .inr ⟨hu, h2⟩
          · intro u
            have := h.count u
            simp only [returned, consumed, List.count_cons]; omega
        · rename_i hst
          refine ⟨?_, by simp, ?_, ?_, ?_, ?_⟩
          · intro u
            have := honce u
            simpa only [consumed, List.count_cons, beq_iff_eq] using this
          · intro u hu
            rcases List.mem_cons.1 hu with rfl | hu
            · exact .inr (.inl hst)
            · exact h.ended u hu
          · exact h.done
          · intro u
            simp only [returned, consumed, List.mem_cons, h.sub u]
            constructor
            · rintro ⟨h1, h2⟩; exact ⟨.inr h1, h2⟩
            · rintro ⟨rfl | hu, h2⟩
              · rw [hst] at h2; cases h2
              · exact ⟨hu, h2⟩
          · intro u
            have := h.count u
            simp only [returned, consumed, List.count_cons]; omega
        · rename_i hst
          refine ⟨?_, by simp, ?_, ?_, ?_, ?_⟩
          · intro u
            have := honce u
            simpa only [consumed, List.count_cons, beq_iff_eq] using this
          · intro u hu
            rcases List.mem_cons.1 hu with rfl | hu
            · exact .inr (.inr hst)
            · exact h.ended u hu
          · exact h.done
          · intro u
            simp only [returned, consumed, List.mem_cons, h.sub u]
            constructor
            · rintro ⟨h1, h2⟩; exact ⟨.inr h1, h2⟩
            · rintro ⟨rfl | hu, h2⟩
              · rw [hst] at h2; cases h2
              · exact ⟨hu, h2⟩
          · intro u
            have := h.count u
            simp only [returned, consumed, List.count_cons]; omega
        · exact h
      · exact h
    · exact h
  | abort => exact ⟨h.once, by simp [step], h.ended, h.done, h.sub, h.count⟩

theorem Balanced.keep {s s' : St} (h : Balanced s) (h1 : s'.pool = s.pool) (h2 : s'.tokens = s.tokens) (h3 : s'.consumer = s.consumer) :
    Balanced s' := by
  unfold Balanced; rw [h1, h2, h3]; exact h

theorem balanced_finish {s : St} {t : Nat} (h : Balanced s) : Balanced (finishCall s t) := by
  simp only [finishCall]
  split <;> exact h

theorem balanced_step {s : St} (a : Act) (hp : Pool s) (h : Balanced s) (ha : a.isAbort = false) : Balanced (step T s a) := by
  cases a with
  | set x v =>
    simp only [step]
    split
    · exact h
    · unfold schedule
      split
      · exact h
      · split
        · unfold Balanced at h ⊢
          simp only [List.length_cons] at h ⊢
          omega
        · exact h
  | foreign x v =>
    simp only [step]
    split
    · exact h
    · exact h
  | start t =>
    simp only [step]
    split
    · obtain ⟨f1, f2, f3, f4, f5, f6, f7, f8, f9, f10, -⟩ := enter_fields (s.put t { s.tasks t with stat := .running }) t (s.tasks t).owner
      exact h.keep f8 f9 f10
    · exact h
  | grant t =>
    simp only [step]
    split
    · split <;> exact h
    · exact h
  | body t kids =>
    simp only [step]
    split <;> exact h
  | next t =>
    simp only [step]
    split
    · rename_i o y c cs fs he
      obtain ⟨f1, f2, f3, f4, f5, f6, f7, f8, f9, f10, -⟩ := enter_fields (s.put t ⟨o, .running, ⟨y, .kids cs⟩ :: fs⟩) t c
      exact h.keep f8 f9 f10
    · exact h
  | finish t => exact balanced_finish h
  | fail t =>
    simp only [step]
    refine balanced_finish (fail_cases h (fun o y fs he l => ?_) ?_)
    · simp only [step, he]
      exact h
    · intro o y l fs he
      exact h
  | crash t =>
    simp only [step]
    split <;> exact h
  | lose x => exact h
  | die t =>
    simp only [step]
    split <;> exact h
  | call =>
    simp only [step]
    split
    · rename_i hc
      unfold Balanced at h ⊢
      simp only [hc] at h
      exact h
    · exact h
  | acquire =>
    simp only [step]
    split
    · rename_i hc
      unfold Balanced at h
      simp only [hc] at h
      split
      · unfold Balanced; simp only [hc]; exact h
      · rename_i ht
        split
        · rename_i he
          have : s.pool = [] := by simpa using he
          rw [this] at h
          simp at h; exact absurd h ht
        · unfold Balanced
          simp only
          omega
    · exact h
  | pick t =>
    simp only [step]
    split
    · rename_i snap hc
      split
      · rename_i ht
        have htp := (hp.snap snap hc).2 t ht
        have hlen := List.length_erase_of_mem htp
        have hpos : 0 < s.pool.length := List.length_pos_of_mem htp
        have h' := h
        unfold Balanced at h'
        simp only [hc] at h'
        split
        · unfold Balanced; simp only [hlen]; omega
        · unfold Balanced; simp only [hlen]; omega
        · unfold Balanced; simp only [hlen]; omega
        · exact h
      · exact h
    · exact h
  | abort => simp [Act.isAbort] at ha

/-! ### What the client shows -/

theorem le_comparable {a b x : Nat} (ha : T.le a x = true) (hb : T.le b x = true) : T.le a b = true ∨ T.le b a = true := by
  generalize hn : T.depth x = n
  induction n using Nat.strongRecOn generalizing x with
  | ind n ih =>
    rcases le_iff.1 ha with rfl | ⟨p, hp, ha'⟩
    · exact .inr hb
    · rcases le_iff.1 hb with rfl | ⟨q, hq, hb'⟩
      · exact .inl ha
      · rw [hp] at hq; cases hq
        have := T.depth_par x p hp
        exact ih _ (by omega) ha' hb' rfl

structure Shown (T : Tree) (s : St) : Prop where
  apart : ∀ u w, Active s u → Active s w → u ≠ w → T.le (s.tasks u).owner (s.tasks w).owner = false
  clear : ∀ x, s.mounted x = true → (∀ u, Active s u → T.le (s.tasks u).owner x = false) → s.shown x = s.seen x
  cover : ∀ u x, Active s u → s.mounted x = true → T.le (s.tasks u).owner x = true →
    s.res u x = s.seen x ∨ ∃ b ∈ (s.tasks u).work, T.le b x = true

theorem Shown.other {s : St} (h : Shown T s) {u w x : Nat} (hu : Active s u) (hw : Active s w) (hne : u ≠ w)
    (h1 : T.le (s.tasks u).owner x = true) : T.le (s.tasks w).owner x = false := by
  cases h2 : T.le (s.tasks w).owner x with
  | false => rfl
  | true =>
    rcases le_comparable h1 h2 with h3 | h3
    · rw [h.apart u w hu hw hne] at h3; cases h3
    · rw [h.apart w u hw hu (Ne.symm hne)] at h3; cases h3

theorem shown_init (T : Tree) : Shown T init := by
  refine ⟨?_, ?_, ?_⟩
  · rintro u w ⟨_, _, h | h⟩ <;> simp [init] at h
  · intro x _ _; rfl
  · rintro u x ⟨_, _, h | h⟩ <;> simp [init] at h

/-- A step that changes nothing the invariant speaks about, except work. -/
theorem Shown.keep {s s' : St} (h : Shown T s) (h1 : ∀ u, Active s' u ↔ Active s u) (h2 : ∀ u, Active s u → (s'.tasks u).owner = (s.tasks u).owner)
    (h3 : s'.mounted = s.mounted) (h4 : s'.shown = s.shown) (h5 : s'.seen = s.seen) (h6 : s'.res = s.res)
    (h7 : ∀ u, Active s u → ∀ b ∈ (s.tasks u).work, b ∈ (s'.tasks u).work) : Shown T s' := by
  refine ⟨?_, ?_, ?_⟩
  · intro u w hu hw
    rw [h2 u ((h1 u).1 hu), h2 w ((h1 w).1 hw)]
    exact h.apart u w ((h1 u).1 hu) ((h1 w).1 hw)
  · intro x
    rw [h3, h4, h5]
    intro hm hc
    apply h.clear x hm
    intro u hu
    have := hc u ((h1 u).2 hu)
    rw [h2 u hu] at this
    exact this
  · intro u x hu
    have hu := (h1 u).1 hu
    rw [h2 u hu, h3, h5, h6]
    intro hm hle
    rcases h.cover u x hu hm hle with h' | ⟨b, hb, hbx⟩
    · exact .inl h'
    · exact .inr ⟨b, h7 u hu b hb, hbx⟩

theorem active_upd {s s' : St} {t : Nat} {k : Task} (hn : s'.next = s.next) (hl : consumed s'.log = consumed s.log)
    (ht : s'.tasks = upd s.tasks t k) (hk : k.stat = .running ∨ k.stat = .done ↔ (s.tasks t).stat = .running ∨ (s.tasks t).stat = .done) (u : Nat) :
    Active s' u ↔ Active s u := by
  unfold Active
  rw [hn, hl, ht]
  simp only [upd_apply]
  by_cases hu : u = t
  · subst hu; rw [if_pos rfl, hk]
  · rw [if_neg hu]

/-- A running task enters the component `y` that it had to render. -/
theorem enter_shown {s : St} {t y : Nat} {k : Task} (hi : Inv T s) (h : Shown T s) (ht : Active s t)
    (hrun : (s.tasks t).stat = .running) (hr : k.stat = .running)
    (hk : k.owner = (s.tasks t).owner) (hy : T.le k.owner y = true)
    (hwork : ∀ b ∈ (s.tasks t).work, b = y ∨ b ∈ k.work) : Shown T (enter (s.put t k) t y) := by
  obtain ⟨f1, f2, f3, f4, f5, f6, f7, f8, f9, f10, f11, f12, f13⟩ := enter_fields (s.put t k) t y
  have hact : ∀ u, Active (enter (s.put t k) t y) u ↔ Active s u := by
    intro u
    unfold Active
    rw [f1, f13, enter_put]
    show u < s.next ∧ u ∉ consumed s.log ∧ _ ↔ _
    by_cases hu : u = t
    · subst hu; simp [hr, hrun]
    · rw [if_neg hu]
      by_cases hb : s.byId y = some u
      · rw [if_pos hb]
        constructor
        · rintro ⟨a, b, c⟩
          refine ⟨a, b, ?_⟩
          revert c
          obtain ⟨o, st, fs⟩ := s.tasks u
          cases st <;> simp [cancelTask]
        · rintro ⟨a, b, c⟩
          refine ⟨a, b, ?_⟩
          rcases c with c | c
          · have h1 := (hi.byId y u hb).2
            have h2 := h.apart t u ht ⟨a, b, .inl c⟩ (Ne.symm hu)
            rw [h1, ← hk, hy] at h2
            cases h2
          · right
            revert c
            obtain ⟨o, st, fs⟩ := s.tasks u
            cases st <;> simp [cancelTask]
      · rw [if_neg hb]
  have hown : ∀ u, ((enter (s.put t k) t y).tasks u).owner = (s.tasks u).owner := by
    intro u
    rw [enter_put]
    split
    · subst u; exact hk
    · split <;> simp
  have hyw : y ∈ ((enter (s.put t k) t y).tasks t).work := by
    rw [enter_put]; simp [Task.work, hr, stackWork, Frame.work]
  refine ⟨?_, ?_, ?_⟩
  · intro u w hu hw
    rw [hown, hown]; exact h.apart u w ((hact u).1 hu) ((hact w).1 hw)
  · intro x hm hc
    rw [f12, f5]
    show s.shown x = s.seen x
    have h1 : T.le (s.tasks t).owner x = false := by
      have := hc t ((hact t).2 ht)
      rw [hown] at this; exact this
    have hxy : x ≠ y := by
      rintro rfl
      rw [← hk, hy] at h1; cases h1
    rw [f6, upd_ne _ _ hxy] at hm
    refine h.clear x hm ?_
    intro u hu
    have := hc u ((hact u).2 hu)
    rw [hown] at this; exact this
  · intro u x hu hm hle
    rw [hown] at hle
    rw [f11, f5]
    show s.res u x = s.seen x ∨ _
    have hu' := (hact u).1 hu
    by_cases hut : u = t
    · subst hut
      by_cases hxy : x = y
      · subst hxy; exact .inr ⟨x, hyw, le_refl x⟩
      · rw [f6, upd_ne _ _ hxy] at hm
        rcases h.cover u x hu' hm hle with h1 | ⟨b, hb, hbx⟩
        · exact .inl h1
        · rcases hwork b hb with rfl | hb
          · exact .inr ⟨b, hyw, hbx⟩
          · refine .inr ⟨b, ?_, hbx⟩
            simp only [Task.work, hr] at hb
            rw [enter_put]
            simp only [if_true, Task.work, hr, stackWork, List.flatMap_cons, List.mem_append]
            exact .inr hb
    · have hxy : x ≠ y := by
        rintro rfl
        rw [hk] at hy
        rw [h.other ht hu' (Ne.symm hut) hy] at hle
        cases hle
      rw [f6, upd_ne _ _ hxy] at hm
      rcases h.cover u x hu' hm hle with h1 | ⟨b, hb, hbx⟩
      · exact .inl h1
      · refine .inr ⟨b, ?_, hbx⟩
        rw [enter_put, if_neg hut]
        split
        · -- it is not cancelled, being active
          rename_i hbid
          have := (hi.byId y u hbid).2
          have h2 := h.apart t u ht hu' (Ne.symm hut)
          rw [this, ← hk, hy] at h2
          cases h2
        · exact hb

theorem schedule_shown {s : St} {x : Nat} (h : Shown T s) : Shown T (schedule s x) := by
  unfold schedule
  split
  · exact h
  · split
    · have hact : ∀ u, Active s u → u ≠ s.next := fun u hu he => by have := hu.1; omega
      refine h.keep ?_ ?_ rfl rfl rfl rfl ?_
      · intro u
        unfold Active
        simp only [upd_apply, consumed]
        by_cases hu : u = s.next
        · subst hu; simp
        · rw [if_neg hu]
          constructor
          · rintro ⟨a, b⟩; exact ⟨by omega, b⟩
          · rintro ⟨a, b⟩; exact ⟨by omega, b⟩
      · intro u hu; simp only [upd_ne _ _ (hact u hu)]
      · intro u hu b hb; simp only [upd_ne _ _ (hact u hu)]; exact hb
    · exact h.keep (fun _ => Iff.rfl) (fun _ _ => rfl) rfl rfl rfl rfl (fun _ _ _ h => h)

theorem shown_body {s : St} {t : Nat} {kids : List Nat} (hg : Good T P s) (hp : Pool s) (h : Shown T s) : Shown T (step T s (.body t kids)) := by
    have hrunact : ∀ {t o fs}, s.tasks t = ⟨o, .running, fs⟩ → Active s t := by
      intro t o fs he
      refine ⟨tasks_lt (fun t ht => (hg.fresh t ht).1) he (by simp), ?_, .inl (by rw [he])⟩
      intro hc
      rcases hp.ended t hc with h1 | h1 | h1 <;> simp [he] at h1
    simp only [step]
    split
    · rename_i o y fs he
      have hat := hrunact he
      have hch := running_shape he (hg.inv.ok t hat.1)
      have hoy : T.le (s.tasks t).owner y = true := by
        rw [he]; exact hch.le ⟨y, .granted⟩ (by simp)
      have hact := active_upd (s := s) (t := t) (k := ⟨o, .running, ⟨y, .kids (kids.filter fun c => T.par c == some y)⟩ :: fs⟩)
        (s' := { s.put t ⟨o, .running, ⟨y, .kids (kids.filter fun c => T.par c == some y)⟩ :: fs⟩ with
          flag := upd s.flag y false
          seen := upd s.seen y (some (s.ver y))
          mounted := fun z => s.mounted z && (z == y || !T.le y z || (kids.filter fun c => T.par c == some y).any (fun c => T.le c z))
          res := upd s.res t (upd (s.res t) y (some (s.ver y)))
          log := .read t y (s.ver y) :: s.log }) rfl rfl rfl (by simp [he])
      have hown : ∀ u, ((s.put t ⟨o, .running, ⟨y, .kids (kids.filter fun c => T.par c == some y)⟩ :: fs⟩).tasks u).owner = (s.tasks u).owner := by
        intro u
        simp only [St.put, upd_apply]
        split
        · subst u; rw [he]
        · rfl
      refine ⟨?_, ?_, ?_⟩
      · intro u w hu hw hne
        have := h.apart u w ((hact u).1 hu) ((hact w).1 hw) hne
        rw [← hown u, ← hown w] at this
        exact this
      · intro x hm hc
        simp only [Bool.and_eq_true] at hm
        have h1 : T.le (s.tasks t).owner x = false := by
          have := hc t ((hact t).2 hat)
          rw [← hown t]; exact this
        have hxy : x ≠ y := by
          rintro rfl; rw [hoy] at h1; cases h1
        simp only [upd_ne _ _ hxy]
        refine h.clear x hm.1 ?_
        intro u hu
        have := hc u ((hact u).2 hu)
        rw [← hown u]; exact this
      · intro u x hu hm hle
        have hu' := (hact u).1 hu
        replace hle : T.le (s.tasks u).owner x = true := by rw [← hown u]; exact hle
        simp only [Bool.and_eq_true, Bool.or_eq_true, beq_iff_eq, List.any_eq_true, Bool.not_eq_true'] at hm
        obtain ⟨hm, hm2⟩ := hm
        by_cases hut : u = t
        · subst hut
          by_cases hxy : x = y
          · subst hxy; left; simp
          · simp only [upd_same, upd_ne _ _ hxy]
            rcases h.cover u x hu' hm hle with h1 | ⟨b, hb, hbx⟩
            · exact .inl h1
            · right
              rw [he] at hb
              simp only [Task.work, stackWork, List.flatMap_cons, List.mem_append] at hb
              simp only [St.put, upd_same, Task.work, stackWork, List.flatMap_cons, List.mem_append]
              rcases hb with hb | hb
              · simp [Frame.work] at hb
                subst hb
                rcases hm2 with (hm2 | hm2) | ⟨c, hc, hcx⟩
                · exact absurd hm2 hxy
                · rw [hbx] at hm2; cases hm2
                · exact ⟨c, .inl hc, hcx⟩
              · exact ⟨b, .inr hb, hbx⟩
        · have hxy : x ≠ y := by
            rintro rfl
            rw [h.other hat hu' (Ne.symm hut) hoy] at hle; cases hle
          simp only [St.put, upd_ne _ _ hut, upd_ne _ _ hxy]
          exact h.cover u x hu' hm hle
    · exact h

theorem shown_finish {s : St} {t : Nat} (h : Shown T s) : Shown T (finishCall s t) := by
    simp only [finishCall]
    split
    · rename_i o y fs he
      refine h.keep (active_upd rfl rfl rfl ?_) ?_ rfl rfl rfl rfl ?_
      · simp only [he]
        cases fs <;> simp
      · intro u _
        simp only [St.put, upd_apply]
        split
        · subst u; rw [he]
        · rfl
      · intro u _ b hb
        simp only [St.put, upd_apply]
        split
        · subst u
          rw [he] at hb
          simp only [Task.work, stackWork, List.flatMap_cons, List.mem_append, Frame.work, List.not_mem_nil, false_or] at hb
          have hne : fs.isEmpty = false := by
            cases fs with
            | nil => simp at hb
            | cons _ _ => rfl
          simp only [hne, Task.work, stackWork]
          exact hb
        · exact hb
    · exact h

theorem Shown.left {s : St} (h : Shown T s) (l : Nat → Bool) : Shown T { s with left := l } :=
  h.keep (fun _ => Iff.rfl) (fun _ _ => rfl) rfl rfl rfl rfl (fun _ _ _ h => h)

theorem shown_fail {s : St} {t : Nat} (hg : Good T P s) (hp : Pool s) (h : Shown T s) : Shown T (failCall T s t) := by
  refine fail_cases h (fun o y fs he l => (shown_body hg hp h).left l) ?_
  intro o y l fs he
  have hlt : t < s.next := tasks_lt (fun t ht => (hg.fresh t ht).1) he (by simp)
  have hch := running_shape he (hg.inv.ok t hlt)
  have hact := active_upd (s := s) (t := t) (k := ⟨o, .running, ⟨y, .kids []⟩ :: fs⟩)
    (s' := leave T (s.put t ⟨o, .running, ⟨y, .kids []⟩ :: fs⟩) y) rfl rfl rfl (by simp [he])
  have hown : ∀ u, ((leave T (s.put t ⟨o, .running, ⟨y, .kids []⟩ :: fs⟩) y).tasks u).owner = (s.tasks u).owner := by
    intro u
    simp only [leave, St.put, upd_apply]
    split
    · subst u; rw [he]
    · rfl
  refine ⟨?_, ?_, ?_⟩
  · intro u w hu hw hne
    rw [hown, hown]
    exact h.apart u w ((hact u).1 hu) ((hact w).1 hw) hne
  · intro x hm hc
    simp only [leave, St.put, Bool.and_eq_true] at hm
    refine h.clear x hm.1 ?_
    intro u hu
    have := hc u ((hact u).2 hu)
    rw [hown] at this; exact this
  · intro u x hu hm hle
    rw [hown] at hle
    simp only [leave, St.put, Bool.and_eq_true, Bool.or_eq_true, beq_iff_eq, Bool.not_eq_true'] at hm
    rcases h.cover u x ((hact u).1 hu) hm.1 hle with h1 | ⟨b, hb, hbx⟩
    · exact .inl h1
    · right
      by_cases hut : u = t
      · subst hut
        rw [he] at hb
        simp only [Task.work, stackWork, List.flatMap_cons, List.mem_append] at hb
        rcases hb with hb | hb
        · have hby := hch.kidsOk _ (List.mem_cons_self ..) l rfl b hb
          have hyx := le_trans (le_par hby) hbx
          rcases hm.2 with rfl | h3
          · have h4 := T.depth_par _ _ hby
            have h5 := (le_depth hbx).1
            simp only at h4
            omega
          · simp only [hyx] at h3; cases h3
        · refine ⟨b, ?_, hbx⟩
          simp only [leave, St.put, upd_same, Task.work, stackWork, List.flatMap_cons, List.mem_append]
          exact .inr hb
      · refine ⟨b, ?_, hbx⟩
        simp only [leave, St.put, upd_ne _ _ hut]
        exact hb

theorem shown_step {s : St} (a : Act) (hg : Good T P s) (hp : Pool s) (h : Shown T s) (ho : Orderly T s a) : Shown T (step T s a) := by
  have hkeep : ∀ s', s'.next = s.next → s'.tasks = s.tasks → consumed s'.log = consumed s.log → s'.mounted = s.mounted → s'.shown = s.shown →
      s'.seen = s.seen → s'.res = s.res → Shown T s' := by
    intro s' h1 h2 h3 h4 h5 h6 h7
    refine h.keep ?_ ?_ h4 h5 h6 h7 ?_
    · intro u; unfold Active; rw [h1, h2, h3]
    · intro u _; rw [h2]
    · intro u _ b hb; rw [h2]; exact hb
  have hrunact : ∀ {t o fs}, s.tasks t = ⟨o, .running, fs⟩ → Active s t := by
    intro t o fs he
    refine ⟨tasks_lt (fun t ht => (hg.fresh t ht).1) he (by simp), ?_, .inl (by rw [he])⟩
    intro hc
    rcases hp.ended t hc with h1 | h1 | h1 <;> simp [he] at h1
  cases a with
  | set x v =>
    simp only [step]
    split
    · exact h
    · exact schedule_shown (hkeep _ rfl rfl rfl rfl rfl rfl rfl)
  | foreign x v =>
    simp only [step]
    split
    · exact h
    · exact hkeep _ rfl rfl rfl rfl rfl rfl rfl
  | start t =>
    simp only [step]
    split
    · rename_i hc
      have hncons : t ∉ consumed s.log := by
        intro h1
        rcases hp.ended t h1 with h2 | h2 | h2 <;> simp [hc.2] at h2
      -- first make it active
      have h1 : Shown T (s.put t { s.tasks t with stat := .running, stack := [⟨(s.tasks t).owner, .waiting⟩] }) := by
        have hact : ∀ u, Active (s.put t { s.tasks t with stat := .running, stack := [⟨(s.tasks t).owner, .waiting⟩] }) u ↔ u = t ∨ Active s u := by
          intro u
          unfold Active
          simp only [St.put, upd_apply]
          by_cases hu : u = t
          · subst hu; simp [hc.1, hncons]
          · simp [hu]
        have hnt : ∀ u, Active s u → u ≠ t := by
          rintro u ⟨_, _, hu⟩ rfl
          rcases hu with hu | hu <;> simp [hc.2] at hu
        have hown : ∀ u, ((s.put t { s.tasks t with stat := .running, stack := [⟨(s.tasks t).owner, .waiting⟩] }).tasks u).owner = (s.tasks u).owner := by
          intro u
          simp only [St.put, upd_apply]
          split
          · subst u; rfl
          · rfl
        refine ⟨?_, ?_, ?_⟩
        · intro u w hu hw hne
          rw [hown, hown]
          have hu' := (hact u).1 hu
          have hw' := (hact w).1 hw
          by_cases h1 : u = t
          · by_cases h2 : w = t
            · exact absurd (h1.trans h2.symm) hne
            · rw [h1]; exact (ho.2 w (hw'.resolve_left h2) h2).1
          · by_cases h2 : w = t
            · rw [h2]; exact (ho.2 u (hu'.resolve_left h1) h1).2
            · exact h.apart u w (hu'.resolve_left h1) (hw'.resolve_left h2) hne
        · intro x hm hcl
          refine h.clear x hm ?_
          intro u hu
          have := hcl u ((hact u).2 (.inr hu))
          rw [hown] at this; exact this
        · intro u x hu hm hle
          rw [hown] at hle
          rcases (hact u).1 hu with rfl | hu
          · exact .inr ⟨(s.tasks u).owner, by simp [St.put, Task.work, stackWork, Frame.work], hle⟩
          · rcases h.cover u x hu hm hle with h1 | ⟨b, hb, hbx⟩
            · exact .inl h1
            · refine .inr ⟨b, ?_, hbx⟩
              simp only [St.put, upd_ne _ _ (hnt u hu)]; exact hb
      have hst := (hg.inv.ok t hc.1).2.2 (.inl hc.2)
      have hinv : Inv T (s.put t { s.tasks t with stat := .running, stack := [⟨(s.tasks t).owner, .waiting⟩] }) := by
        refine put_inv hg.inv hc.1 rfl rfl rfl rfl ⟨⟨rfl, by intro l hl; simp at hl⟩, by simp, by simp⟩ ?_
        intro z u
        simp only [Holds, List.mem_singleton]
        constructor
        · intro hu
          refine .inr ⟨?_, hu⟩
          rintro rfl
          obtain ⟨_, f, hf, _⟩ := (hg.inv.access z u).1 hu
          rw [hst] at hf; simp at hf
        · rintro (⟨rfl, f, rfl, _, h2⟩ | ⟨_, h2⟩)
          · simp at h2
          · exact h2
      have := enter_shown (k := { s.tasks t with stat := .running }) (y := (s.tasks t).owner) hinv h1
        ⟨hc.1, hncons, .inl (by simp [St.put])⟩ (by simp [St.put]) rfl (by simp [St.put]) (le_refl _)
        (by intro b hb; simp [St.put, Task.work, stackWork, Frame.work] at hb; exact .inl hb)
      have heq : (s.put t { s.tasks t with stat := .running, stack := [⟨(s.tasks t).owner, .waiting⟩] }).put t { s.tasks t with stat := .running } =
          s.put t { s.tasks t with stat := .running } := by
        unfold St.put
        simp only [St.mk.injEq, true_and, and_true]
        funext u
        simp only [upd_apply]
        split <;> rfl
      rw [heq] at this
      exact this
    · exact h
  | grant t =>
    simp only [step]
    split
    · rename_i o y fs he
      split
      · refine h.keep (active_upd rfl rfl rfl (by simp [he])) ?_ rfl rfl rfl rfl ?_
        · intro u _
          simp only [St.put, upd_apply]
          split
          · subst u; rw [he]
          · rfl
        · intro u _ b hb
          simp only [St.put, upd_apply]
          split
          · subst u
            rw [he] at hb
            simpa [Task.work, stackWork, Frame.work] using hb
          · exact hb
      · exact h
    · exact h
  | body t kids => exact shown_body hg hp h
  | next t =>
    simp only [step]
    split
    · rename_i o y c cs fs he
      have hat := hrunact he
      have hch := running_shape he (hg.inv.ok t hat.1)
      have hk := hch.kidsOk _ (List.mem_cons_self ..)
      refine enter_shown hg.inv h hat (by rw [he]) rfl (by rw [he]) ?_ ?_
      · exact le_trans (hch.le ⟨y, .kids (c :: cs)⟩ (by simp)) (le_par (hk _ rfl c (by simp)))
      · intro b hb
        rw [he] at hb
        simp only [Task.work, stackWork, List.flatMap_cons, List.mem_append, Frame.work, List.mem_cons] at hb ⊢
        rcases hb with (hb | hb) | hb
        · exact .inl hb
        · exact .inr (.inl hb)
        · exact .inr (.inr hb)
    · exact h
  | finish t => exact shown_finish h
  | die t =>
    simp only [step]
    split
    · rename_i hc
      have hnt : ∀ u, Active s u → u ≠ t := by
        rintro u ⟨_, _, hu⟩ rfl
        rcases hu with hu | hu <;> simp [hc.2] at hu
      refine h.keep (active_upd rfl rfl rfl (by simp [hc.2])) ?_ rfl rfl rfl rfl ?_
      · intro u hu
        simp only [St.put, upd_ne _ _ (hnt u hu)]
      · intro u hu b hb
        simp only [St.put, upd_ne _ _ (hnt u hu)]; exact hb
    · exact h
  | fail t =>
    simp only [step]
    exact shown_finish (shown_fail hg hp h)
  | crash t =>
    simp only [step]
    split
    · rename_i hc
      have hnt : ∀ u, Active s u → u ≠ t := by
        rintro u ⟨_, _, hu⟩ rfl
        rcases hu with hu | hu <;> simp [hc.2.1] at hu
      refine h.keep (active_upd rfl rfl rfl (by simp [hc.2.1])) ?_ rfl rfl rfl rfl ?_
      · intro u hu
        simp only [St.put, upd_ne _ _ (hnt u hu)]
      · intro u hu b hb
        simp only [St.put, upd_ne _ _ (hnt u hu)]; exact hb
    · exact h
  | lose x => exact hkeep _ rfl rfl rfl rfl rfl rfl rfl
  | call => simp only [step]; split <;> first | exact h | exact hkeep _ rfl rfl rfl rfl rfl rfl rfl
  | acquire =>
    simp only [step]
    split
    · split
      · exact h
      · split <;> exact hkeep _ rfl rfl rfl rfl rfl rfl rfl
    · exact h
  | pick t =>
    simp only [step]
    split
    · rename_i snap hsnap
      split
      · rename_i ht
        have htp := (hp.mem t).1 ((hp.snap snap hsnap).2 t ht)
        split
        · rename_i hst
          have hat : Active s t := ⟨htp.1, htp.2, .inr hst⟩
          have hact : ∀ {u : Nat} {co : Consumer} {po : List Nat} {sh : Nat → Option Nat},
              Active { s with pool := po, consumer := co, shown := sh, log := .delivered t :: s.log } u ↔ u ≠ t ∧ Active s u := by
            intro u co po sh
            unfold Active
            simp only [consumed, List.mem_cons, not_or]
            constructor
            · rintro ⟨a, ⟨b, c⟩, d⟩; exact ⟨b, a, c, d⟩
            · rintro ⟨a, b, c, d⟩; exact ⟨b, ⟨a, c⟩, d⟩
          refine ⟨?_, ?_, ?_⟩
          · intro u w hu hw hne
            exact h.apart u w (hact.1 hu).2 (hact.1 hw).2 hne
          · intro x hm hc
            simp only
            by_cases hle : T.le (s.tasks t).owner x = true
            · rw [if_pos hle]
              rcases h.cover t x hat hm hle with h1 | ⟨b, hb, _⟩
              · exact h1
              · simp [Task.work, hst] at hb
            · rw [if_neg hle]
              refine h.clear x hm ?_
              intro u hu
              by_cases hut : u = t
              · subst hut; simpa using hle
              · exact hc u (hact.2 ⟨hut, hu⟩)
          · intro u x hu hm hle
            exact h.cover u x (hact.1 hu).2 hm hle
        · rename_i hst
          refine h.keep ?_ (fun _ _ => rfl) rfl rfl rfl rfl (fun _ _ _ h => h)
          intro u
          unfold Active
          simp only [consumed, List.mem_cons, not_or]
          constructor
          · rintro ⟨a, ⟨b, c⟩, d⟩; exact ⟨a, c, d⟩
          · rintro ⟨a, c, d⟩
            refine ⟨a, ⟨?_, c⟩, d⟩
            rintro rfl
            rcases d with d | d <;> simp [hst] at d
        · rename_i hst
          refine h.keep ?_ (fun _ _ => rfl) rfl rfl rfl rfl (fun _ _ _ h => h)
          intro u
          unfold Active
          simp only [consumed, List.mem_cons, not_or]
          constructor
          · rintro ⟨a, ⟨b, c⟩, d⟩; exact ⟨a, c, d⟩
          · rintro ⟨a, c, d⟩
            refine ⟨a, ⟨?_, c⟩, d⟩
            rintro rfl
            rcases d with d | d <;> simp [hst] at d
        · exact h
      · exact h
    · exact h
  | abort => exact hkeep _ rfl rfl rfl rfl rfl rfl rfl

/-! ### Executions -/

/-- What all executions keep, setters in other threads included. -/
def ByIdLt (s : St) : Prop := ∀ y t, s.byId y = some t → t < s.next

theorem enter_base {s : St} {t y : Nat} {k : Task} (h : ByIdLt s) (hf : Fresh s) (ht : t < s.next) :
    ByIdLt (enter (s.put t k) t y) ∧ Fresh (enter (s.put t k) t y) := by
  constructor
  · intro z u hz
    rw [(enter_fields _ _ _).1]
    exact h z u (enter_byId (s.put t k) _ _ _ _ hz)
  · intro u hu
    rw [(enter_fields _ _ _).1] at hu
    have hu : s.next ≤ u := hu
    rw [enter_put, if_neg (by omega), if_neg]
    · exact hf u hu
    · intro hb
      have := h y u hb
      omega

theorem base_finish {s : St} {t : Nat} (h : ByIdLt s) (hf : Fresh s) : ByIdLt (finishCall s t) ∧ Fresh (finishCall s t) := by
  simp only [finishCall]
  split
  · rename_i o y fs he
    have hlt : t < s.next := tasks_lt (fun t ht => (hf t ht).1) he (by simp)
    exact ⟨h, put_fresh hf hlt rfl rfl⟩
  · exact ⟨h, hf⟩

theorem base_step {s : St} (a : Act) (h : ByIdLt s) (hf : Fresh s) : ByIdLt (step T s a) ∧ Fresh (step T s a) := by
  cases a with
  | set x v =>
    simp only [step]
    split
    · exact ⟨h, hf⟩
    · refine ⟨?_, schedule_fresh x hf⟩
      unfold schedule
      split
      · exact h
      · split
        · intro y t hy
          simp only [upd_apply] at hy ⊢
          split at hy
          · cases hy; omega
          · have := h y t hy; omega
        · exact h
  | foreign x v => simp only [step]; split <;> exact ⟨h, hf⟩
  | start t =>
    simp only [step]
    split
    · rename_i hc; exact enter_base h hf hc.1
    · exact ⟨h, hf⟩
  | grant t =>
    simp only [step]
    split
    · rename_i o y fs he
      have hlt : t < s.next := tasks_lt (fun t ht => (hf t ht).1) he (by simp)
      split
      · exact ⟨h, put_fresh hf hlt rfl rfl⟩
      · exact ⟨h, hf⟩
    · exact ⟨h, hf⟩
  | body t kids =>
    simp only [step]
    split
    · rename_i o y fs he
      have hlt : t < s.next := tasks_lt (fun t ht => (hf t ht).1) he (by simp)
      exact ⟨h, put_fresh hf hlt rfl rfl⟩
    · exact ⟨h, hf⟩
  | next t =>
    simp only [step]
    split
    · rename_i o y c cs fs he
      have hlt : t < s.next := tasks_lt (fun t ht => (hf t ht).1) he (by simp)
      exact enter_base h hf hlt
    · exact ⟨h, hf⟩
  | finish t => exact base_finish h hf
  | fail t =>
    simp only [step]
    have := fail_cases (C := fun s => ByIdLt s ∧ Fresh s) (T := T) (s := s) (t := t) ⟨h, hf⟩ (fun o y fs he l => ?_) ?_
    · exact base_finish this.1 this.2
    · have hlt : t < s.next := tasks_lt (fun t ht => (hf t ht).1) he (by simp)
      simp only [step, he]
      exact ⟨h, put_fresh hf hlt rfl rfl⟩
    · intro o y l fs he
      have hlt : t < s.next := tasks_lt (fun t ht => (hf t ht).1) he (by simp)
      exact ⟨h, put_fresh hf hlt rfl rfl⟩
  | crash t =>
    simp only [step]
    split
    · rename_i hc; exact ⟨h, put_fresh hf hc.1 rfl rfl⟩
    · exact ⟨h, hf⟩
  | lose x => exact ⟨h, hf⟩
  | die t =>
    simp only [step]
    split
    · rename_i hc; exact ⟨h, put_fresh hf hc.1 rfl rfl⟩
    · exact ⟨h, hf⟩
  | call => simp only [step]; split <;> exact ⟨h, hf⟩
  | acquire =>
    simp only [step]
    split
    · split
      · exact ⟨h, hf⟩
      · split <;> exact ⟨h, hf⟩
    · exact ⟨h, hf⟩
  | pick t =>
    simp only [step]
    split
    · split
      · split <;> exact ⟨h, hf⟩
      · exact ⟨h, hf⟩
    · exact ⟨h, hf⟩
  | abort => exact ⟨h, hf⟩

theorem run_snoc (s : St) (as : List Act) (a : Act) : run T s (as ++ [a]) = step T (run T s as) a := by simp [run]

theorem snoc_cases {α : Type} (P : List α → Prop) (h0 : P []) (h1 : ∀ as a, P as → P (as ++ [a])) (l : List α) : P l := by
  rw [← List.reverse_reverse l]
  induction l.reverse with
  | nil => exact h0
  | cons a as ih => rw [List.reverse_cons]; exact h1 _ _ ih

theorem base_run (T : Tree) (acts : List Act) : ByIdLt (run T init acts) ∧ Fresh (run T init acts) ∧ Pool (run T init acts) := by
  refine snoc_cases (fun acts => ByIdLt (run T init acts) ∧ Fresh (run T init acts) ∧ Pool (run T init acts)) ?_ ?_ acts
  · refine ⟨?_, (good_init T (fun _ => False)).fresh, pool_init⟩
    intro y t h
    exact ((good_init T (fun _ => False)).inv.byId y t h).1
  · intro as a ih
    rw [run_snoc]
    exact ⟨(base_step a ih.1 ih.2.1).1, (base_step a ih.1 ih.2.1).2, pool_step a ih.2.2 ih.2.1⟩

theorem balanced_run (T : Tree) (acts : List Act) (h : ∀ a ∈ acts, a.isAbort = false) : Balanced (run T init acts) := by
  revert h
  refine snoc_cases (fun acts => (∀ a ∈ acts, a.isAbort = false) → Balanced (run T init acts)) ?_ ?_ acts
  · intro _; exact balanced_init
  · intro as a ih h
    rw [run_snoc]
    exact balanced_step a (base_run T as).2.2 (ih (fun b hb => h b (by simp [hb]))) (h a (by simp))

theorem shown_run_from {s : St} (acts : List Act) (hg : Good T (fun _ => False) s) (hp : Pool s) (h : Shown T s)
    (ho : OrderlyRun T s acts) : Shown T (run T s acts) := by
  induction acts generalizing s with
  | nil => exact h
  | cons a as ih =>
    exact ih (good_step hg fun _ _ _ h => h) (pool_step a hp hg.fresh) (shown_step a hg hp h ho.1) ho.2

theorem shown_run (T : Tree) (acts : List Act) (ho : OrderlyRun T init acts) :
    Shown T (run T init acts) := shown_run_from acts (good_init T _) pool_init (shown_init T) ho

/-- Checking that a step is orderly. -/
def orderlyB (T : Tree) (s : St) : Act → Bool
  | .start t => s.mounted (s.tasks t).owner && (List.range s.next).all fun u =>
      u == t || (consumed s.log).contains u || !((s.tasks u).stat = .running || (s.tasks u).stat = .done) ||
      (!T.le (s.tasks t).owner (s.tasks u).owner && !T.le (s.tasks u).owner (s.tasks t).owner)
  | _ => true

def orderlyRunB (T : Tree) (s : St) : List Act → Bool
  | [] => true
  | a :: as => orderlyB T s a && orderlyRunB T (step T s a) as

theorem orderly_check {s : St} {acts : List Act} (h : orderlyRunB T s acts = true) : OrderlyRun T s acts := by
  induction acts generalizing s with
  | nil => trivial
  | cons a as ih =>
    simp only [orderlyRunB, Bool.and_eq_true] at h
    refine ⟨?_, ih h.2⟩
    cases a with
    | start t =>
      simp only [orderlyB, Bool.and_eq_true, List.all_eq_true, List.mem_range] at h
      refine ⟨h.1.1, ?_⟩
      intro u hu hne
      have := h.1.2 u hu.1
      simp only [Bool.or_eq_true, beq_iff_eq, List.contains_iff_mem, Bool.not_eq_true', Bool.and_eq_true, decide_eq_true_eq,
        decide_eq_false_iff_not, Bool.or_eq_false_iff] at this
      rcases this with ((h1 | h1) | h1) | h1
      · exact absurd h1 hne
      · exact absurd h1 hu.2.1
      · rcases hu.2.2 with h2 | h2
        · exact absurd h2 h1.1
        · exact absurd h2 h1.2
      · exact h1
    | _ => trivial

end Verif.Sched
