import Verif.Sched.Lemmas
/-! # Progress and termination of render tasks, history invariants (helper lemmas) -/
namespace Verif.Sched
variable {T : Tree} {P : Nat → Prop}

/-! ### Sums over tasks -/

def sumTo : Nat → (Nat → Nat) → Nat
  | 0, _ => 0
  | n + 1, f => sumTo n f + f n

theorem le_sumTo {n : Nat} {f : Nat → Nat} {t : Nat} (h : t < n) : f t ≤ sumTo n f := by
  induction n with
  | zero => omega
  | succ n ih =>
    simp only [sumTo]
    by_cases ht : t = n
    · subst ht; omega
    · have := ih (by omega); omega

theorem sumTo_le {n : Nat} {f g : Nat → Nat} (h : ∀ t, t < n → f t ≤ g t) : sumTo n f ≤ sumTo n g := by
  induction n with
  | zero => simp [sumTo]
  | succ n ih =>
    simp only [sumTo]
    have := ih (fun t ht => h t (by omega))
    have := h n (by omega)
    omega

theorem sumTo_lt {n : Nat} {f g : Nat → Nat} {t : Nat} (ht : t < n) (h : ∀ u, u < n → f u ≤ g u) (hlt : f t < g t) : sumTo n f < sumTo n g := by
  induction n with
  | zero => omega
  | succ n ih =>
    simp only [sumTo]
    by_cases he : t = n
    · subst he
      have := sumTo_le (n := t) (f := f) (g := g) (fun u hu => h u (by omega))
      omega
    · have := ih (by omega) (fun u hu => h u (by omega))
      have := h n (by omega)
      omega

/-! ### Some task can go on -/

/-- The depth of the innermost call. -/
def headDepth (T : Tree) (k : Task) : Nat := match k.stack with
  | [] => 0
  | f :: _ => T.depth f.id

theorem tasks_ne {s s' : St} (t : Nat) (h : s'.tasks t ≠ s.tasks t) : s' ≠ s := fun he => h (by rw [he])

theorem enter_ne {s : St} {t y : Nat} {k : Task} (h : k.stack.length + 1 ≠ (s.tasks t).stack.length) :
    enter (s.put t k) t y ≠ s := by
  apply tasks_ne t
  rw [enter_put, if_pos rfl]
  intro he
  apply h
  rw [← he]; simp

theorem progress {s : St} (hg : Good T P s) {t : Nat} (ht : t < s.next) (hn : ¬ (s.tasks t).ended) :
    ∃ a : Act, a.internal = true ∧ Narrow 0 a ∧ step T s a ≠ s := by
  generalize hD : sumTo s.next (fun u => headDepth T (s.tasks u)) - headDepth T (s.tasks t) = D
  induction D using Nat.strongRecOn generalizing t with
  | ind D ih =>
    have hok := hg.inv.ok t ht
    obtain ⟨o, st, fs, he⟩ : ∃ o st fs, s.tasks t = ⟨o, st, fs⟩ := ⟨_, _, _, rfl⟩
    cases st with
    | created =>
      refine ⟨.start t, rfl, trivial, ?_⟩
      simp only [step]
      rw [if_pos ⟨ht, by rw [he]⟩]
      apply enter_ne
      simp
    | done => exact absurd (.inl (by rw [he])) hn
    | dead => exact absurd (.inr (.inl (by rw [he]))) hn
    | crashed => exact absurd (.inr (.inr (by rw [he]))) hn
    | cancelled =>
      refine ⟨.die t, rfl, trivial, ?_⟩
      simp only [step]
      rw [if_pos ⟨ht, by rw [he]⟩]
      apply tasks_ne t
      simp [St.put, he]
    | running =>
      cases fs with
      | nil => rw [he] at hok; exact absurd rfl (hok.2.1 rfl)
      | cons f fs =>
        obtain ⟨y, ph⟩ := f
        cases ph with
        | granted =>
          refine ⟨.body t [], rfl, by simp [Narrow], ?_⟩
          simp only [step, he]
          apply tasks_ne t
          simp [St.put, he]
        | kids l =>
          cases l with
          | nil =>
            refine ⟨.finish t, rfl, trivial, ?_⟩
            simp only [step, finishCall, he]
            apply tasks_ne t
            simp only [St.put, upd_same, he]
            intro h
            have := congrArg (fun k => k.stack.length) h
            simp at this
          | cons c cs =>
            refine ⟨.next t, rfl, trivial, ?_⟩
            simp only [step, he]
            apply enter_ne
            simp [he]
        | waiting =>
          cases hacc : s.access y with
          | none =>
            refine ⟨.grant t, rfl, trivial, ?_⟩
            simp only [step, he, hacc, if_true]
            apply tasks_ne t
            simp [St.put, he]
          | some u =>
            obtain ⟨hu, f, hf, hfy, hfw⟩ := (hg.inv.access y u).1 hacc
            have huok := hg.inv.ok u hu
            obtain ⟨uo, ust, ufs, hue⟩ : ∃ o st fs, s.tasks u = ⟨o, st, fs⟩ := ⟨_, _, _, rfl⟩
            have hne : ufs ≠ [] := by
              rintro rfl; rw [hue] at hf; simp at hf
            have hunended : ¬ (s.tasks u).ended := by
              intro h
              have := huok.2.2 (.inr h)
              rw [hue] at this
              exact hne this
            by_cases hdeep : headDepth T (s.tasks t) < headDepth T (s.tasks u)
            · have h1 := le_sumTo (f := fun u => headDepth T (s.tasks u)) hu
              exact ih _ (by omega) hu hunended rfl
            · -- the holder is not waiting deeper: it can go on itself
              cases ust with
              | created => exact absurd (huok.2.2 (.inl (by rw [hue]))) (by rw [hue]; exact hne)
              | done => exact absurd (.inl (by rw [hue])) hunended
              | dead => exact absurd (.inr (.inl (by rw [hue]))) hunended
              | crashed => exact absurd (.inr (.inr (by rw [hue]))) hunended
              | cancelled =>
                refine ⟨.die u, rfl, trivial, ?_⟩
                simp only [step]
                rw [if_pos ⟨hu, by rw [hue]⟩]
                apply tasks_ne u
                simp [St.put, hue]
              | running =>
                cases ufs with
                | nil => exact absurd rfl hne
                | cons g gs =>
                  rw [hue] at hf huok
                  have hfg : f = g := by
                    rcases List.mem_cons.1 hf with h | h
                    · exact h
                    · have := huok.1.depth f h
                      simp only [headDepth, he, hue] at hdeep
                      rw [hfy] at this
                      omega
                  subst hfg
                  obtain ⟨z, ph⟩ := f
                  cases ph with
                  | waiting => exact absurd rfl hfw
                  | granted =>
                    refine ⟨.body u [], rfl, by simp [Narrow], ?_⟩
                    simp only [step, hue]
                    apply tasks_ne u
                    simp [St.put, hue]
                  | kids l =>
                    cases l with
                    | nil =>
                      refine ⟨.finish u, rfl, trivial, ?_⟩
                      simp only [step, finishCall, hue]
                      apply tasks_ne u
                      simp only [St.put, upd_same, hue]
                      intro h
                      have := congrArg (fun k => k.stack.length) h
                      simp at this
                    | cons c cs =>
                      refine ⟨.next u, rfl, trivial, ?_⟩
                      simp only [step, hue]
                      apply enter_ne
                      simp [hue]

/-! ### Termination -/

/-- Upper bound of the number of steps of the call for a component with the given height below it. -/
def size (W : Nat) : Nat → Nat
  | 0 => 3
  | n + 1 => 3 + W * (size W n + 1)

theorem size_ge (W n : Nat) : 3 ≤ size W n := by cases n <;> simp [size]

def kidsCost (T : Tree) (W H : Nat) : List Nat → Nat
  | [] => 0
  | c :: cs => size W (H - T.depth c) + 1 + kidsCost T W H cs

def Frame.cost (T : Tree) (W H : Nat) (f : Frame) : Nat := match f.phase with
  | .waiting => size W (H - T.depth f.id)
  | .granted => size W (H - T.depth f.id) - 1
  | .kids l => 1 + kidsCost T W H l

def stackCost (T : Tree) (W H : Nat) : List Frame → Nat
  | [] => 0
  | f :: fs => f.cost T W H + stackCost T W H fs

def Task.cost (T : Tree) (W H : Nat) (k : Task) : Nat := match k.stat with
  | .created => size W (H - T.depth k.owner) + 1
  | .running => stackCost T W H k.stack
  | .cancelled => 1
  | .done => 0
  | .dead => 0
  | .crashed => 0

theorem frame_cost_pos (T : Tree) (W H : Nat) (f : Frame) : 1 ≤ f.cost T W H := by
  unfold Frame.cost
  have := size_ge W (H - T.depth f.id)
  split <;> omega

theorem cancel_cost {W H : Nat} {k : Task} (h : TaskOk T k) : (cancelTask k).cost T W H ≤ k.cost T W H := by
  obtain ⟨o, st, fs⟩ := k
  cases st with
  | running =>
    cases fs with
    | nil => exact absurd rfl (h.2.1 rfl)
    | cons f fs =>
      have := frame_cost_pos T W H f
      simp [cancelTask, Task.cost, stackCost]; omega
  | created => simp [cancelTask, Task.cost]
  | _ => simp [cancelTask]

def total (T : Tree) (W H : Nat) (s : St) : Nat := sumTo s.next (fun t => (s.tasks t).cost T W H)

theorem put_total {W H : Nat} {s s' : St} {t : Nat} {k : Task} (ht : t < s.next) (hn : s'.next = s.next)
    (htasks : s'.tasks = upd s.tasks t k) (hc : k.cost T W H < (s.tasks t).cost T W H) : total T W H s' < total T W H s := by
  unfold total
  rw [hn, htasks]
  refine sumTo_lt ht ?_ (by simpa using hc)
  intro u _
  simp only [upd_apply]
  split
  · subst u; omega
  · exact Nat.le_refl _

theorem enter_total {W H : Nat} {s : St} {t y : Nat} {k : Task} (h : Inv T s) (ht : t < s.next) (hr : k.stat = .running)
    (hc : size W (H - T.depth y) + stackCost T W H k.stack < (s.tasks t).cost T W H) :
    total T W H (enter (s.put t k) t y) < total T W H s := by
  unfold total
  rw [(enter_fields _ _ _).1]
  refine sumTo_lt (show t < s.next from ht) ?_ ?_
  · intro u hu
    simp only [enter_put]
    split
    · subst u
      have hk : Task.cost T W H { k with stack := { id := y, phase := .waiting } :: k.stack } =
          size W (H - T.depth y) + stackCost T W H k.stack := by
        simp only [Task.cost, hr, stackCost, Frame.cost]
      omega
    · split
      · exact cancel_cost (h.ok u hu)
      · exact Nat.le_refl _
  · simp only [enter_put, if_true, Task.cost, hr, stackCost, Frame.cost]
    exact hc

theorem kidsCost_le {W H d : Nat} {l : List Nat} (h : ∀ c ∈ l, T.depth c = d) : kidsCost T W H l = l.length * (size W (H - d) + 1) := by
  induction l with
  | nil => simp [kidsCost]
  | cons c cs ih =>
    simp only [kidsCost, List.length_cons, Nat.succ_mul, h c (by simp), ih (fun c hc => h c (by simp [hc]))]
    omega

theorem total_step {W H : Nat} (hH : ∀ x, T.depth x ≤ H) {s : St} (hg : Good T P s) {a : Act} (hi : a.internal = true) (hW : Narrow W a)
    (hne : step T s a ≠ s) : total T W H (step T s a) < total T W H s := by
  cases a with
  | set => simp [Act.internal] at hi
  | foreign => simp [Act.internal] at hi
  | call => simp [Act.internal] at hi
  | acquire => simp [Act.internal] at hi
  | pick => simp [Act.internal] at hi
  | abort => simp [Act.internal] at hi
  | lose => simp [Act.internal] at hi
  | crash t =>
    simp only [step] at hne ⊢
    split at hne
    · rename_i hc
      rw [if_pos hc]
      refine put_total hc.1 rfl rfl ?_
      simp [Task.cost, hc.2.1]
    · exact absurd rfl hne
  | fail t =>
    simp only [step] at hne ⊢
    have key : ∀ o y ph fs, s.tasks t = ⟨o, .running, ⟨y, ph⟩ :: fs⟩ → (failCall T s t).tasks = upd s.tasks t ⟨o, .running, ⟨y, .kids []⟩ :: fs⟩ →
        (failCall T s t).next = s.next → total T W H (finishCall (failCall T s t) t) < total T W H s := by
      intro o y ph fs he h1 h2
      have hlt : t < s.next := tasks_lt (fun t ht => (hg.fresh t ht).1) he (by simp)
      have hf : finishCall (failCall T s t) t =
          { (failCall T s t).put t ⟨o, if fs.isEmpty then .done else .running, fs⟩ with access := upd (failCall T s t).access y none } := by
        simp only [finishCall, h1, upd_same]
      rw [hf]
      refine put_total (k := ⟨o, if fs.isEmpty then .done else .running, fs⟩) hlt h2 ?_ ?_
      · simp only [St.put, h1]
        funext u
        simp only [upd_apply]
        split <;> rfl
      · have := frame_cost_pos T W H ⟨y, ph⟩
        cases fs with
        | nil => simp [he, Task.cost, stackCost]; omega
        | cons f fs => simp [he, Task.cost, stackCost]; omega
    obtain ⟨o, st, fs, he⟩ : ∃ o st fs, s.tasks t = ⟨o, st, fs⟩ := ⟨_, _, _, rfl⟩
    by_cases hst : st = .running
    · subst hst
      cases fs with
      | nil => exact absurd (by simp [failCall, finishCall, he]) hne
      | cons f fs =>
        obtain ⟨y, ph⟩ := f
        cases ph with
        | waiting => exact absurd (by simp [failCall, finishCall, he]) hne
        | granted => exact key o y _ fs he (by simp [failCall, he, leave, St.put]) (by simp [failCall, he, leave, St.put])
        | kids l => exact key o y _ fs he (by simp [failCall, he, leave, St.put]) (by simp [failCall, he, leave, St.put])
    · refine absurd ?_ hne
      cases st <;> first | exact absurd rfl hst | simp [failCall, finishCall, he]
  | start t =>
    simp only [step] at hne ⊢
    split at hne
    · rename_i hc
      rw [if_pos hc]
      refine enter_total hg.inv hc.1 rfl ?_
      have := (hg.inv.ok t hc.1).2.2 (.inl hc.2)
      simp [Task.cost, hc.2, this, stackCost]
    · exact absurd rfl hne
  | die t =>
    simp only [step] at hne ⊢
    split at hne
    · rename_i hc
      rw [if_pos hc]
      refine put_total hc.1 rfl rfl ?_
      simp [Task.cost, hc.2]
    · exact absurd rfl hne
  | grant t =>
    simp only [step] at hne ⊢
    split at hne
    · rename_i o y fs he
      have hlt : t < s.next := tasks_lt (fun t ht => (hg.fresh t ht).1) he (by simp)
      by_cases hacc : s.access y = none
      · rw [if_pos hacc]
        refine put_total hlt rfl rfl ?_
        have := size_ge W (H - T.depth y)
        simp [he, Task.cost, stackCost, Frame.cost]; omega
      · rw [if_neg hacc] at hne
        exact absurd rfl hne
    · exact absurd rfl hne
  | body t kids =>
    simp only [step] at hne ⊢
    split at hne
    · rename_i o y fs he
      have hlt : t < s.next := tasks_lt (fun t ht => (hg.fresh t ht).1) he (by simp)
      refine put_total hlt rfl rfl ?_
      have hlen : (kids.filter fun c => T.par c == some y).length ≤ W :=
        Nat.le_trans (List.length_filter_le _ _) hW
      have hd : ∀ c ∈ kids.filter fun c => T.par c == some y, T.depth c = T.depth y + 1 := by
        intro c hc
        exact T.depth_par c y (by simpa using (List.mem_filter.1 hc).2)
      have hcost := kidsCost_le (W := W) (H := H) hd
      simp only [he, Task.cost, stackCost, Frame.cost, hcost]
      have hy := hH y
      rcases Nat.lt_or_ge (T.depth y) H with h | h
      · have h1 : H - T.depth y = (H - (T.depth y + 1)) + 1 := by omega
        rw [h1]
        have h2 := Nat.mul_le_mul_right (size W (H - (T.depth y + 1)) + 1) hlen
        simp only [size]
        omega
      · have h0 : (kids.filter fun c => T.par c == some y) = [] := by
          rw [List.eq_nil_iff_forall_not_mem]
          intro c hc
          have := hd c hc
          have := hH c
          omega
        rw [h0]
        have := size_ge W (H - T.depth y)
        simp; omega
    · exact absurd rfl hne
  | next t =>
    simp only [step] at hne ⊢
    split at hne
    · rename_i o y c cs fs he
      have hlt : t < s.next := tasks_lt (fun t ht => (hg.fresh t ht).1) he (by simp)
      refine enter_total hg.inv hlt rfl ?_
      simp [he, Task.cost, stackCost, Frame.cost, kidsCost]; omega
    · exact absurd rfl hne
  | finish t =>
    simp only [step, finishCall] at hne ⊢
    split at hne
    · rename_i o y fs he
      have hlt : t < s.next := tasks_lt (fun t ht => (hg.fresh t ht).1) he (by simp)
      refine put_total hlt rfl rfl ?_
      cases fs with
      | nil => simp [he, Task.cost, stackCost, Frame.cost, kidsCost]
      | cons f fs => simp [he, Task.cost, stackCost, Frame.cost, kidsCost]
    · exact absurd rfl hne

theorem internal_foreign {a : Act} (h : a.internal = true) : a.isForeign = false := by
  cases a <;> simp_all [Act.internal, Act.isForeign]

theorem effective_bound {W H : Nat} (hH : ∀ x, T.depth x ≤ H) {s : St} (hg : Good T P s) (acts : List Act)
    (hi : ∀ a ∈ acts, a.internal = true ∧ Narrow W a) (he : Effective T s acts) : acts.length ≤ total T W H s := by
  induction acts generalizing s with
  | nil => simp
  | cons a as ih =>
    have ha := hi a (by simp)
    have h1 := total_step hH hg ha.1 ha.2 he.1
    have h2 := ih (good_step hg fun x v e => absurd (internal_foreign ha.1) (by subst e; simp [Act.isForeign])) (fun b hb => hi b (by simp [hb])) he.2
    simp only [List.length_cons]; omega

/-- When all tasks have ended nothing will be rendered. -/
theorem ended_no_will {s : St} (h : ∀ t, t < s.next → (s.tasks t).ended) (x : Nat) : ¬ Will T s x := by
  rintro ⟨t, ht, b, hb, _⟩
  rcases h t ht with h | h | h <;> simp [Task.work, h] at hb

/-! ### The history -/

/-- What the history says of the flags. -/
structure Hist (s : St) : Prop where
  seen : ∀ x, upToDate s.log x = true ↔ s.seen x = some (s.ver x)
  newest : ∀ x, newestRead s.log x = s.seen x
  pending : ∀ x, pending s.log x = true → s.flag x = true ∨ s.seen x = none
  merged : Merged s.log
  le : ∀ x v, s.seen x = some v → v ≤ s.ver x

theorem hist_init : Hist init := by
  refine ⟨?_, ?_, ?_, ?_, ?_⟩
  · intro x; simp [init, upToDate]
  · intro x; simp [init, newestRead]
  · intro x _; simp [init]
  · exact ⟨rfl, trivial⟩
  · intro x v h; simp [init] at h

theorem Hist.congr {s s' : St} (h : Hist s) (h1 : s'.log = s.log) (h2 : s'.seen = s.seen) (h3 : s'.ver = s.ver)
    (h4 : ∀ x, s.flag x = true → s'.flag x = true) : Hist s' := by
  refine ⟨?_, ?_, ?_, ?_, ?_⟩
  · rw [h1, h2, h3]; exact h.seen
  · rw [h1, h2]; exact h.newest
  · intro x hx
    rw [h1] at hx; rw [h2]
    exact (h.pending x hx).imp_left (h4 x)
  · rw [h1]; exact h.merged
  · rw [h2, h3]; exact h.le

theorem hist_change {s : St} {x v : Nat} (h : Hist s) :
    Hist { s with val := upd s.val x v, ver := upd s.ver x (s.ver x + 1), log := .changed x :: s.log } := by
  refine ⟨?_, ?_, ?_, ?_, ?_⟩
  · intro y
    simp only [upToDate, upd_apply]
    by_cases hy : x = y
    · subst hy
      simp only [if_true]
      constructor
      · intro h; cases h
      · intro h2; have := h.le x _ h2; omega
    · rw [if_neg hy, if_neg (Ne.symm hy)]; exact h.seen y
  · exact h.newest
  · exact h.pending
  · exact h.merged
  · intro y w hw
    have := h.le y w hw
    simp only [upd_apply]
    split
    · subst y; omega
    · exact this

theorem hist_schedule {s : St} {x : Nat} (h : Hist s) (hs : s.seen x ≠ none) : Hist (schedule s x) := by
  unfold schedule
  split
  · exact h
  · rename_i hf
    split
    · refine ⟨?_, ?_, ?_, ?_, ?_⟩
      · exact h.seen
      · exact h.newest
      · intro y hy
        simp only [Sched.pending] at hy
        simp only [upd_apply]
        by_cases hxy : x = y
        · subst hxy; simp
        · rw [if_neg hxy] at hy
          rw [if_neg (Ne.symm hxy)]
          exact h.pending y hy
      · refine ⟨?_, h.merged⟩
        cases hp : Sched.pending s.log x with
        | false => rfl
        | true =>
          rcases h.pending x hp with h1 | h1
          · exact absurd h1 hf
          · exact absurd h1 hs
      · exact h.le
    · refine h.congr rfl rfl rfl ?_
      intro y hy
      simp only [upd_apply]
      split <;> simp [hy]

theorem hist_enter {s : St} {t y : Nat} (h : Hist s) : Hist (enter s t y) := by
  obtain ⟨f1, f2, f3, f4, f5, f6, f7, f8, f9, f10, f11, f12, f13⟩ := enter_fields s t y
  exact h.congr f13 f5 f3 (fun x hx => by rw [f2]; exact hx)

theorem hist_body {s : St} {t : Nat} {kids : List Nat} (h : Hist s) : Hist (step T s (.body t kids)) := by
    simp only [step]
    split
    · rename_i o y fs he
      refine ⟨?_, ?_, ?_, h.merged, ?_⟩
      · intro x
        simp only [upToDate, upd_apply, St.put]
        by_cases hx : y = x
        · subst hx; simp
        · rw [if_neg hx, if_neg (Ne.symm hx)]; exact h.seen x
      · intro x
        simp only [newestRead, upd_apply]
        by_cases hx : y = x
        · subst hx; simp
        · rw [if_neg hx, if_neg (Ne.symm hx)]; exact h.newest x
      · intro x hx
        simp only [Sched.pending] at hx
        simp only [upd_apply]
        by_cases hxy : y = x
        · subst hxy; simp at hx
        · rw [if_neg hxy] at hx
          rw [if_neg (Ne.symm hxy), if_neg (Ne.symm hxy)]; exact h.pending x hx
      · intro x v
        simp only [upd_apply, St.put]
        split
        · subst x; intro hv; cases hv; exact Nat.le_refl _
        · exact h.le x v
    · exact h

theorem hist_finish {s : St} {t : Nat} (h : Hist s) : Hist (finishCall s t) := by
  simp only [finishCall]
  split
  · exact h.congr rfl rfl rfl (fun _ h => h)
  · exact h

theorem hist_step {s : St} (a : Act) (h : Hist s) : Hist (step T s a) := by
  cases a with
  | set x v =>
    simp only [step]
    split
    · exact h
    · rename_i hc
      exact hist_schedule (hist_change h) (fun h0 => hc (.inl h0))
  | foreign x v =>
    simp only [step]
    split
    · exact h
    · refine (hist_change (x := x) (v := v) h).congr rfl rfl rfl ?_
      intro y hy
      simp only
      split
      · exact hy
      · simp only [upd_apply]; split <;> simp [show s.flag y = true from hy]
  | start t =>
    simp only [step]
    split
    · exact hist_enter (h.congr rfl rfl rfl (fun _ h => h))
    · exact h
  | grant t =>
    simp only [step]
    split
    · split
      · exact h.congr rfl rfl rfl (fun _ h => h)
      · exact h
    · exact h
  | body t kids => exact hist_body h
  | next t =>
    simp only [step]
    split
    · exact hist_enter (h.congr rfl rfl rfl (fun _ h => h))
    · exact h
  | finish t => exact hist_finish h
  | fail t =>
    simp only [step]
    refine hist_finish (fail_cases h (fun o y fs he l => (hist_body (T := T) (t := t) (kids := []) h).congr rfl rfl rfl (fun _ h => h)) ?_)
    intro o y l fs he
    exact h.congr rfl rfl rfl (fun _ h => h)
  | crash t =>
    simp only [step]
    split
    · exact h.congr rfl rfl rfl (fun _ h => h)
    · exact h
  | lose x => exact h.congr rfl rfl rfl (fun _ h => h)
  | die t =>
    simp only [step]
    split
    · exact h.congr rfl rfl rfl (fun _ h => h)
    · exact h
  | call =>
    simp only [step]
    split
    · exact h.congr rfl rfl rfl (fun _ h => h)
    · exact h
  | acquire =>
    simp only [step]
    split
    · split
      · exact h
      · split <;> exact h.congr rfl rfl rfl (fun _ h => h)
    · exact h
  | pick t =>
    simp only [step]
    split
    · split
      · split
        · exact ⟨h.seen, h.newest, h.pending, h.merged, h.le⟩
        · exact ⟨h.seen, h.newest, h.pending, h.merged, h.le⟩
        · exact ⟨h.seen, h.newest, h.pending, h.merged, h.le⟩
        · exact h
      · exact h
    · exact h
  | abort => exact h.congr rfl rfl rfl (fun _ h => h)

theorem hist_run {s : St} (h : Hist s) (acts : List Act) : Hist (run T s acts) := by
  induction acts generalizing s with
  | nil => exact h
  | cons a as ih => exact ih (hist_step a h)

end Verif.Sched
