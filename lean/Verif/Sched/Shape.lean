import Verif.Sched.Lemmas
import Verif.Sched.Spec
/-! # What is in the tree is mounted, or a render will come to it -/
namespace Verif.Sched
variable {T : Tree} {P : Nat → Prop}

/-- The components a task has still to begin with. -/
def Frame.due (f : Frame) : List Nat :=
  match f.phase with
  | .kids l => l
  | _ => []

def Task.due (k : Task) : List Nat :=
  match k.stat with
  | .created => [k.owner]
  | .running => k.stack.flatMap Frame.due
  | _ => []

/-- Some task that has begun will begin with `c`, or run the body of a component above it. -/
def Reach (T : Tree) (s : St) (c : Nat) : Prop :=
  ∃ t, t < s.next ∧ (s.tasks t).stat = .running ∧ ∃ b ∈ (s.tasks t).work, T.le b c = true ∧ (b ≠ c ∨ c ∈ (s.tasks t).due)

structure Shape (T : Tree) (s : St) : Prop where
  root : s.mounted 0 = true
  par : ∀ p c, c ∈ s.kids p → T.par c = some p
  held : ∀ p c, s.mounted p = true → c ∈ s.kids p → s.mounted c = true ∨ Reach T s c

theorem par_ne {p c : Nat} (h : T.par c = some p) : p ≠ c := by
  rintro rfl
  have := T.depth_par _ _ h
  omega

theorem le_root {b : Nat} (h : T.le b 0 = true) : b = 0 := by
  rcases le_iff.1 h with rfl | ⟨p, hp, _⟩
  · rfl
  · rw [T.par_root] at hp; cases hp

theorem shape_init (T : Tree) : Shape T init := ⟨rfl, by simp [init], by simp [init]⟩

theorem enter_kids (s : St) (t y : Nat) : (enter s t y).kids = s.kids := by
  unfold enter
  simp only
  split
  · split <;> rfl
  · rfl

theorem enter_shape {s : St} {t y : Nat} {k : Task} (h : Inv T s) (hs : Shape T s) (ht : t < s.next) (hr : k.stat = .running)
    (hwork : ∀ b ∈ (s.tasks t).work, b = y ∨ b ∈ k.work) (hdue : ∀ c ∈ (s.tasks t).due, c = y ∨ c ∈ k.due) :
    Shape T (enter (s.put t k) t y) := by
  obtain ⟨f1, f2, f3, f4, f5, f6, f7, -⟩ := enter_fields (s.put t k) t y
  have htasks := fun u => enter_put s t y u k
  have hy : y ∈ ((enter (s.put t k) t y).tasks t).work := by
    rw [htasks]; simp [Task.work, hr, stackWork, Frame.work]
  have hself : ∀ c, T.le y c = true → c ≠ y → Reach T (enter (s.put t k) t y) c :=
    fun c h1 h2 => ⟨t, by rw [f1]; exact ht, by rw [htasks]; simp [hr], y, hy, h1, .inl (Ne.symm h2)⟩
  refine ⟨?_, ?_, ?_⟩
  · rw [f6, upd_apply]; split
    · rfl
    · exact hs.root
  · rw [enter_kids]; exact hs.par
  · intro p c hm hc
    rw [enter_kids] at hc
    rw [f6] at hm ⊢
    rw [show (s.put t k).mounted = s.mounted from rfl] at hm ⊢
    rw [show (s.put t k).kids = s.kids from rfl] at hc
    by_cases hcy : c = y
    · left; rw [hcy, upd_same]
    · rw [upd_ne _ _ hcy]
      by_cases hpy : p = y
      · subst hpy
        exact .inr (hself c (le_par (hs.par p c hc)) hcy)
      · rw [upd_ne _ _ hpy] at hm
        rcases hs.held p c hm hc with h1 | ⟨u, hu, hru, b, hb, hbc, hd⟩
        · exact .inl h1
        · right
          by_cases hut : u = t
          · subst hut
            rcases hwork b hb with rfl | hb'
            · exact hself c hbc hcy
            · refine ⟨u, by rw [f1]; exact hu, by rw [htasks]; simp [hr], b, ?_, hbc, ?_⟩
              · rw [htasks]
                simp only [Task.work, hr] at hb'
                simp only [if_true, Task.work, hr, stackWork, List.flatMap_cons, List.mem_append]
                exact .inr hb'
              · rcases hd with hd | hd
                · exact .inl hd
                · rcases hdue c hd with hd | hd
                  · exact absurd hd hcy
                  · right
                    rw [htasks]
                    simp only [Task.due, hr] at hd
                    simp only [if_true, Task.due, hr, List.flatMap_cons, List.mem_append]
                    exact .inr hd
          · by_cases hby : s.byId y = some u
            · have := h.byId y u hby
              have h2 := (h.ok u hu).work_le b hb
              rw [this.2] at h2
              exact hself c (le_trans h2 hbc) hcy
            · refine ⟨u, by rw [f1]; exact hu, by rw [htasks, if_neg hut, if_neg hby]; exact hru, b, ?_, hbc, ?_⟩
              · rw [htasks, if_neg hut, if_neg hby]; exact hb
              · rw [htasks, if_neg hut, if_neg hby]; exact hd

/-- A step of one task that keeps all its work. -/
theorem put_shape {s s' : St} {t : Nat} {k : Task} (h : Shape T s) (hk' : k.stat ≠ .created) (htasks : s'.tasks = upd s.tasks t k) (hnext : s'.next = s.next)
    (hm : s'.mounted = s.mounted) (hk : s'.kids = s.kids) (hwork : ∀ b ∈ (s.tasks t).work, (s.tasks t).stat = .running → b ∈ k.work) (hdue : ∀ c ∈ (s.tasks t).due, (s.tasks t).stat = .running → c ∈ k.due) :
    Shape T s' := by
  refine ⟨by rw [hm]; exact h.root, by rw [hk]; exact h.par, ?_⟩
  intro p c hp hc
  rw [hm] at hp ⊢
  rw [hk] at hc
  rcases h.held p c hp hc with h1 | ⟨u, hu, hru, b, hb, hbc, hd⟩
  · exact .inl h1
  · refine .inr ⟨u, by rw [hnext]; exact hu, ?_, b, ?_, hbc, ?_⟩
    · rw [htasks, upd_apply]; split
      · subst u
        have hbk := hwork b hb hru
        obtain ⟨o, st, fs⟩ := k
        cases st <;> simp_all [Task.work]
      · exact hru
    · rw [htasks, upd_apply]; split
      · subst u; exact hwork b hb hru
      · exact hb
    · rcases hd with hd | hd
      · exact .inl hd
      · right
        rw [htasks, upd_apply]; split
        · subst u; exact hdue c hd hru
        · exact hd

theorem Shape.congr {s s' : St} (h : Shape T s) (h1 : s'.next = s.next) (h2 : s'.tasks = s.tasks) (h3 : s'.mounted = s.mounted) (h4 : s'.kids = s.kids) :
    Shape T s' := by
  refine ⟨by rw [h3]; exact h.root, by rw [h4]; exact h.par, ?_⟩
  intro p c hp hc
  rw [h3] at hp ⊢
  rw [h4] at hc
  unfold Reach
  rw [h1, h2]
  exact h.held p c hp hc

theorem schedule_shape {s : St} (x : Nat) (h : Shape T s) : Shape T (schedule s x) := by
  unfold schedule
  split
  · exact h
  · split
    · refine ⟨h.root, h.par, ?_⟩
      intro p c hp hc
      rcases h.held p c hp hc with h1 | ⟨u, hu, hru, b, hb, hbc, hd⟩
      · exact .inl h1
      · refine .inr ⟨u, by simp; omega, ?_, b, ?_, hbc, ?_⟩
        · simp only [upd_apply]; rw [if_neg (by omega)]; exact hru
        · simp only [upd_apply]; rw [if_neg (by omega)]; exact hb
        · simp only [upd_apply]; rw [if_neg (by omega)]; exact hd
    · exact h.congr rfl rfl rfl rfl

theorem shape_body {s : St} {t : Nat} {kids : List Nat} (hg : Good T P s) (h : Shape T s) : Shape T (step T s (.body t kids)) := by
    simp only [step]
    split
    · rename_i o y fs he
      have hlt : t < s.next := tasks_lt (fun t ht => (hg.fresh t ht).1) he (by simp)
      refine ⟨?_, ?_, ?_⟩
      · simp only [h.root, Bool.true_and, Bool.or_eq_true, beq_iff_eq, Bool.not_eq_true']
        cases hle : T.le y 0 with
        | true => exact .inl (.inl (le_root hle).symm)
        | false => exact .inl (.inr rfl)
      · intro p c hc
        simp only [upd_apply] at hc
        split at hc
        · subst p; simpa using (List.mem_filter.1 hc).2
        · exact h.par p c hc
      · intro p c hp hc
        simp only [Bool.and_eq_true, Bool.or_eq_true, beq_iff_eq, List.any_eq_true, Bool.not_eq_true'] at hp ⊢
        obtain ⟨hp, hp2⟩ := hp
        have hnew : ∀ b ∈ kids.filter (fun c => T.par c == some y), T.le b c = true →
            Reach T { s.put t ⟨o, .running, ⟨y, .kids (kids.filter (fun c => T.par c == some y))⟩ :: fs⟩ with
              flag := upd s.flag y false
              seen := upd s.seen y (some (s.ver y))
              kids := upd s.kids y (kids.filter (fun c => T.par c == some y))
              mounted := fun z => s.mounted z && (z == y || !T.le y z || (kids.filter (fun c => T.par c == some y)).any (fun c => T.le c z))
              res := upd s.res t (upd (s.res t) y (some (s.ver y)))
              log := .read t y (s.ver y) :: s.log } c := by
          intro b hb hbc
          refine ⟨t, hlt, by simp [St.put], b, ?_, hbc, ?_⟩
          · simp only [St.put, upd_same, Task.work, stackWork, List.flatMap_cons, List.mem_append]
            exact .inl hb
          · by_cases hbc' : b = c
            · right
              subst hbc'
              simp only [St.put, upd_same, Task.due, List.flatMap_cons, List.mem_append]
              exact .inl hb
            · exact .inl hbc'
        simp only [upd_apply] at hc
        split at hc
        · exact .inr (hnew c hc (le_refl c))
        · rename_i hpy
          have hle := le_par (h.par p c hc)
          rcases h.held p c hp hc with h1 | ⟨u, hu, hru, b, hb, hbc, hd⟩
          · left
            refine ⟨h1, ?_⟩
            by_cases hcy : c = y
            · exact .inl (.inl hcy)
            · cases hyc : T.le y c with
              | false => exact .inl (.inr rfl)
              | true =>
                right
                have hyp : T.le y p = true := by
                  rcases le_iff.1 hyc with h0 | ⟨q, hq, hl⟩
                  · exact absurd h0.symm hcy
                  · rw [h.par p c hc] at hq; cases hq; exact hl
                rcases hp2 with (hp2 | hp2) | ⟨k, hk, hkp⟩
                · exact absurd hp2 hpy
                · rw [hyp] at hp2; cases hp2
                · exact ⟨k, hk, le_trans hkp hle⟩
          · right
            by_cases hut : u = t
            · subst hut
              rw [he] at hb hd
              simp only [Task.work, stackWork, List.flatMap_cons, List.mem_append] at hb
              simp only [Task.due, List.flatMap_cons, List.mem_append] at hd
              have hd' : b ≠ c ∨ c ∈ fs.flatMap Frame.due := by
                rcases hd with hd | hd | hd
                · exact .inl hd
                · simp [Frame.due] at hd
                · exact .inr hd
              rcases hb with hb | hb
              · simp [Frame.work] at hb
                subst hb
                by_cases hbc' : b = c
                · rcases hd' with hd' | hd'
                  · exact absurd hbc' hd'
                  · subst hbc'
                    refine ⟨u, hlt, by simp [St.put], b, ?_, le_refl b, .inr ?_⟩
                    · simp only [St.put, upd_same, Task.work, stackWork, List.flatMap_cons, List.mem_append]
                      right
                      obtain ⟨f, hf, hbf⟩ := List.mem_flatMap.1 hd'
                      refine List.mem_flatMap.2 ⟨f, hf, ?_⟩
                      unfold Frame.due at hbf
                      unfold Frame.work
                      split at hbf
                      · rename_i l hl; rw [hl]; exact hbf
                      · simp at hbf
                    · simp only [St.put, upd_same, Task.due, List.flatMap_cons, List.mem_append]
                      exact .inr hd'
                · have hyp : T.le b p = true := by
                    rcases le_iff.1 hbc with h0 | ⟨q, hq, hl⟩
                    · exact absurd h0 hbc'
                    · rw [h.par p c hc] at hq; cases hq; exact hl
                  rcases hp2 with (hp2 | hp2) | ⟨k, hk, hkp⟩
                  · exact absurd hp2 hpy
                  · rw [hyp] at hp2; cases hp2
                  · exact hnew k hk (le_trans hkp hle)
              · refine ⟨u, hlt, by simp [St.put], b, ?_, hbc, ?_⟩
                · simp only [St.put, upd_same, Task.work, stackWork, List.flatMap_cons, List.mem_append]
                  exact .inr hb
                · rcases hd' with hd' | hd'
                  · exact .inl hd'
                  · right
                    simp only [St.put, upd_same, Task.due, List.flatMap_cons, List.mem_append]
                    exact .inr hd'
            · refine ⟨u, hu, by simp only [St.put, upd_ne _ _ hut]; exact hru, b, ?_, hbc, ?_⟩
              · simp only [St.put, upd_ne _ _ hut]; exact hb
              · simp only [St.put, upd_ne _ _ hut]; exact hd
    · exact h

theorem shape_finish {s : St} {t : Nat} (h : Shape T s) : Shape T (finishCall s t) := by
    simp only [finishCall]
    split
    · rename_i o y fs he
      refine put_shape h (by simp only; split <;> simp) rfl rfl rfl rfl ?_ ?_
      · intro b hb _
        rw [he] at hb
        simp only [Task.work, stackWork, List.flatMap_cons, Frame.work, List.nil_append] at hb ⊢
        cases fs with
        | nil => simp at hb
        | cons f fs => exact hb
      · intro b hb _
        rw [he] at hb
        simp only [Task.due, List.flatMap_cons, Frame.due, List.nil_append] at hb ⊢
        cases fs with
        | nil => simp at hb
        | cons f fs => exact hb
    · exact h

theorem shape_fail {s : St} {t : Nat} (hg : Good T P s) (h : Shape T s) : Shape T (failCall T s t) := by
  refine fail_cases h (fun o y fs he l => (shape_body hg h).congr rfl rfl rfl rfl) ?_
  intro o y l fs he
  have hlt : t < s.next := tasks_lt (fun t ht => (hg.fresh t ht).1) he (by simp)
  have hch := running_shape he (hg.inv.ok t hlt)
  refine ⟨?_, ?_, ?_⟩
  · simp only [leave, St.put, h.root, Bool.true_and, Bool.or_eq_true, beq_iff_eq, Bool.not_eq_true']
    cases hle : T.le y 0 with
    | true => exact .inl (le_root hle).symm
    | false => exact .inr rfl
  · intro p c hc
    simp only [leave, St.put, upd_apply] at hc
    split at hc
    · simp at hc
    · exact h.par p c hc
  · intro p c hp hc
    simp only [leave, St.put, Bool.and_eq_true, Bool.or_eq_true, beq_iff_eq, Bool.not_eq_true'] at hp ⊢
    simp only [leave, St.put, upd_apply] at hc
    split at hc
    · simp at hc
    · rename_i hpy
      have hyp : T.le y p = false := hp.2.resolve_left hpy
      have hpc := h.par p c hc
      have hyc : T.le y c = true → c = y := by
        intro hyc
        rcases le_iff.1 hyc with h0 | ⟨q, hq, hl⟩
        · exact h0.symm
        · rw [hpc] at hq; cases hq; rw [hyp] at hl; cases hl
      rcases h.held p c hp.1 hc with h1 | ⟨u, hu, hru, b, hb, hbc, hd⟩
      · refine .inl ⟨h1, ?_⟩
        cases hle : T.le y c with
        | true => exact .inl (hyc hle)
        | false => exact .inr rfl
      · right
        by_cases hut : u = t
        · subst hut
          rw [he] at hb hd
          simp only [Task.work, stackWork, List.flatMap_cons, List.mem_append] at hb
          simp only [Task.due, List.flatMap_cons, List.mem_append] at hd
          have hnot : ∀ d ∈ l, T.le d c = true → False := by
            intro d hd hdc
            have hdy := hch.kidsOk _ (List.mem_cons_self ..) l rfl d hd
            have := hyc (le_trans (le_par hdy) hdc)
            subst this
            have h4 := T.depth_par _ _ hdy
            have h5 := (le_depth hdc).1
            simp only at h4
            omega
          have hb' : b ∈ fs.flatMap Frame.work := hb.resolve_left fun hb => hnot b hb hbc
          have hd' : b ≠ c ∨ c ∈ fs.flatMap Frame.due := by
            rcases hd with hd | hd | hd
            · exact .inl hd
            · exact absurd (le_refl c) (fun hl => hnot c hd hl)
            · exact .inr hd
          refine ⟨u, hlt, by simp, b, ?_, hbc, hd'.imp_right fun hd' => ?_⟩
          · simp only [upd_same, Task.work, stackWork, List.flatMap_cons, List.mem_append]
            exact .inr hb'
          · simp only [upd_same, Task.due, List.flatMap_cons, List.mem_append]
            exact .inr hd'
        · refine ⟨u, hu, ?_, b, ?_, hbc, ?_⟩ <;> simp only [upd_ne _ _ hut]
          · exact hru
          · exact hb
          · exact hd

theorem shape_step {s : St} {a : Act} (hg : Good T P s) (h : Shape T s) : Shape T (step T s a) := by
  cases a with
  | foreign x v =>
    simp only [step]
    split
    · exact h
    · exact h.congr rfl rfl rfl rfl
  | set x v =>
    simp only [step]
    split
    · exact h
    · exact schedule_shape x (h.congr rfl rfl rfl rfl)
  | start t =>
    simp only [step]
    split
    · rename_i hc
      refine enter_shape hg.inv h hc.1 rfl ?_ ?_
      · intro b hb; simp [Task.work, hc.2] at hb; exact .inl hb
      · intro b hb; simp [Task.due, hc.2] at hb; exact .inl hb
    · exact h
  | grant t =>
    simp only [step]
    split
    · rename_i o y fs he
      split
      · refine put_shape h (by simp) rfl rfl rfl rfl ?_ ?_
        · intro b hb _; rw [he] at hb; simpa [Task.work, stackWork, Frame.work] using hb
        · intro b hb _; rw [he] at hb; simpa [Task.due, Frame.due] using hb
      · exact h
    · exact h
  | body t kids => exact shape_body hg h
  | next t =>
    simp only [step]
    split
    · rename_i o y c cs fs he
      have hlt : t < s.next := tasks_lt (fun t ht => (hg.fresh t ht).1) he (by simp)
      refine enter_shape hg.inv h hlt rfl ?_ ?_
      · intro b hb
        rw [he] at hb
        simp only [Task.work, stackWork, List.flatMap_cons, List.mem_append, Frame.work, List.mem_cons] at hb ⊢
        grind
      · intro b hb
        rw [he] at hb
        simp only [Task.due, List.flatMap_cons, List.mem_append, Frame.due, List.mem_cons] at hb ⊢
        grind
    · exact h
  | finish t => exact shape_finish h
  | die t =>
    simp only [step]
    split
    · rename_i hc
      refine put_shape h (by simp) rfl rfl rfl rfl ?_ ?_
      · intro b hb; simp [Task.work, hc.2] at hb
      · intro b hb; simp [Task.due, hc.2] at hb
    · exact h
  | fail t =>
    simp only [step]
    exact shape_finish (shape_fail hg h)
  | crash t =>
    simp only [step]
    split
    · rename_i hc
      refine put_shape h (by simp) rfl rfl rfl rfl ?_ ?_
      · intro b _ hb; simp [hc.2.1] at hb
      · intro b _ hb; simp [hc.2.1] at hb
    · exact h
  | lose x => exact h.congr rfl rfl rfl rfl
  | call =>
    simp only [step]
    split
    · exact h.congr rfl rfl rfl rfl
    · exact h
  | acquire =>
    simp only [step]
    split
    · split
      · exact h
      · split <;> exact h.congr rfl rfl rfl rfl
    · exact h
  | pick t =>
    simp only [step]
    split
    · split
      · split
        · exact h.congr rfl rfl rfl rfl
        · exact h.congr rfl rfl rfl rfl
        · exact h.congr rfl rfl rfl rfl
        · exact h
      · exact h
    · exact h
  | abort => exact h.congr rfl rfl rfl rfl

theorem shape_run (T : Tree) (acts : List Act) : Shape T (run T init acts) := by
  suffices ∀ s, Good T (fun _ => False) s → Shape T s → Shape T (run T s acts) from this init (good_init T _) (shape_init T)
  induction acts with
  | nil => intro s _ h; exact h
  | cons a as ih =>
    intro s hg h
    simp only [run, List.foldl_cons]
    exact ih _ (good_step hg fun _ _ _ h => h) (shape_step hg h)

/-- When all tasks have ended, everything in the tree is mounted. -/
theorem present_mounted {acts : List Act}
    (hend : ∀ t, t < (run T init acts).next → ((run T init acts).tasks t).ended) {x : Nat} (hx : Present (run T init acts).kids x) :
    (run T init acts).mounted x = true := by
  have h := shape_run T acts
  induction hx with
  | root => exact h.root
  | child _ hc ih =>
    rcases h.held _ _ ih hc with h1 | ⟨t, ht, _, b, hb, _⟩
    · exact h1
    · rcases hend t ht with h2 | h2 | h2 <;> simp [Task.work, h2] at hb

end Verif.Sched
