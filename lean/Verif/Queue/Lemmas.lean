import Verif.Queue.Spec
namespace Verif.Queue
variable {V : Type} [DecidableEq V]

theorem bag_append (os os' : List (Obs V)) (p : List V) : bag p (os ++ os') = (bag p os).bind (fun q => bag q os') := by
  induction os generalizing p with
  | nil => rfl
  | cons o os ih =>
    cases o with
    | put v => simp only [List.cons_append, bag, ih]
    | got v => simp only [List.cons_append, bag, ih]; split <;> simp
    | keyError v => simp [bag]

theorem fifo_append (os os' : List (Obs V)) (p : List V) : fifo p (os ++ os') = (fifo p os).bind (fun q => fifo q os') := by
  induction os generalizing p with
  | nil => rfl
  | cons o os ih =>
    cases o with
    | put v => simp only [List.cons_append, fifo, ih]
    | got v =>
      simp only [List.cons_append, fifo, ih]
      cases p with
      | nil => rfl
      | cons x r => simp only; split <;> simp
    | keyError v => simp [fifo]

structure Inv (s : St V) : Prop where
  calls : s.calls = fun _ => none
  nodup : s.pending.Nodup
  perm : s.pending.Perm (s.queue ++ s.blocked ++ s.created ++ s.soon)
  obs : bag [] s.log.reverse = some s.pending

theorem inv_init : Inv ({} : St V) := by constructor <;> simp [bag]

theorem put_step (cap : Nat) (s : St V) (t : Nat) (v : V) (hc : s.calls = fun _ => none) :
    run cap [.test t v, .add t] s =
      if v ∈ s.pending then { s with log := .put v :: s.log }
      else { s with pending := s.pending ++ [v], soon := s.soon ++ [v], log := .put v :: s.log } := by
  obtain ⟨p, so, cr, bl, q, ca, l⟩ := s
  simp only at hc
  subst hc
  by_cases h : v ∈ p
  · simp [run, step, h]
  · simp only [run, List.foldl, step, h, if_false, if_true]
    congr 1
    funext x; split <;> rfl

theorem step_inv {cap : Nat} {s : St V} (h : Inv s) (c : Call V) : Inv (run cap c.acts s) := by
  cases c with
  | put t v =>
    show Inv (run cap [.test t v, .add t] s)
    rw [put_step cap s t v h.calls]
    split
    · rename_i hv
      refine ⟨h.calls, h.nodup, h.perm, ?_⟩
      simp only [List.reverse_cons, bag_append, h.obs, Option.bind_some, bag, hv, if_true]
    · rename_i hv
      refine ⟨h.calls, ?_, ?_, ?_⟩
      · simp only [List.nodup_append, h.nodup, true_and]
        refine ⟨by simp, ?_⟩
        rintro a ha b hb rfl
        simp at hb; subst hb; exact hv ha
      · simp only [← List.append_assoc]
        exact h.perm.append_right _
      · simp only [List.reverse_cons, bag_append, h.obs, Option.bind_some, bag, hv, if_false]
  | callback =>
    show Inv (step cap s .callback)
    simp only [step]
    split
    · exact h
    · rename_i v r hs
      refine ⟨h.calls, h.nodup, ?_, h.obs⟩
      have := h.perm
      rw [hs] at this
      simpa using this
  | start =>
    show Inv (step cap s .start)
    simp only [step]
    split
    · exact h
    · rename_i v r hs
      have hp := h.perm
      rw [hs] at hp
      split
      · refine ⟨h.calls, h.nodup, ?_, h.obs⟩
        simpa using hp
      · refine ⟨h.calls, h.nodup, hp.trans ?_, h.obs⟩
        simp only [List.perm_iff_count, List.count_append, List.count_cons, List.count_nil]
        intro a; omega
  | resume v =>
    show Inv (step cap s (.resume v))
    simp only [step]
    split
    · rename_i hv
      refine ⟨h.calls, h.nodup, h.perm.trans ?_, h.obs⟩
      have := (List.perm_cons_erase hv.1)
      simp only [List.perm_iff_count, List.count_append, List.count_cons, List.count_nil] at this ⊢
      intro a
      have := this a
      omega
    · exact h
  | get =>
    show Inv (step cap s .get)
    simp only [step]
    split
    · exact h
    · rename_i v r hs
      have hp := h.perm
      rw [hs] at hp
      have hv : v ∈ s.pending := hp.mem_iff.2 (by simp)
      rw [if_pos hv]
      refine ⟨h.calls, h.nodup.erase v, ?_, ?_⟩
      · have := List.perm_cons_erase hv
        have h2 : (v :: s.pending.erase v).Perm (v :: (r ++ s.blocked ++ s.created ++ s.soon)) := by
          refine this.symm.trans ?_; simpa using hp
        exact h2.cons_inv
      · simp only [List.reverse_cons, bag_append, h.obs, Option.bind_some, bag, hv, if_true]

theorem run_append (cap : Nat) (a b : List (Act V)) (s : St V) : run cap (a ++ b) s = run cap b (run cap a s) := by
  simp [run, List.foldl_append]

theorem runCalls_inv_from {cap : Nat} (cs : List (Call V)) {s : St V} (h : Inv s) :
    Inv (run cap (cs.flatMap Call.acts) s) := by
  induction cs generalizing s with
  | nil => exact h
  | cons c cs ih =>
    rw [List.flatMap_cons, run_append]
    exact ih (step_inv h c)

theorem runCalls_inv (cap : Nat) (cs : List (Call V)) : Inv (runCalls cap cs) := runCalls_inv_from cs inv_init

/-! Without backpressure -/

structure Ord (s : St V) : Prop where
  inv : Inv s
  order : s.pending = s.queue ++ s.created ++ s.soon
  unblocked : s.blocked = []
  obs : fifo [] s.log.reverse = some s.pending

theorem ord_init : Ord ({} : St V) := by
  refine ⟨inv_init, ?_, ?_, ?_⟩ <;> simp [fifo]

theorem step_ord {cap : Nat} {s : St V} (h : Ord s) (c : Call V)
    (hroom : cap = 0 ∨ s.pending.length ≤ cap) :
    Ord (run cap c.acts s) := by
  have hi := step_inv (cap := cap) h.inv c
  have ho := h.order
  have hb := h.unblocked
  cases c with
  | put t v =>
    have e : run cap (Call.put t v).acts s = _ := put_step cap s t v h.inv.calls
    refine ⟨hi, ?_, ?_, ?_⟩ <;> rw [e] <;> split
    · exact ho
    · simp [ho]
    · exact hb
    · exact hb
    · rename_i hv
      simp only [List.reverse_cons, fifo_append, h.obs, Option.bind_some, fifo, hv, if_true]
    · rename_i hv
      simp only [List.reverse_cons, fifo_append, h.obs, Option.bind_some, fifo, hv, if_false]
  | callback =>
    have e : run cap (Call.callback (V := V)).acts s = step cap s .callback := rfl
    refine ⟨hi, ?_, ?_, ?_⟩ <;> rw [e] <;> simp only [step] <;> split
    · exact ho
    · rename_i v r hs; simp [ho, hs]
    · exact hb
    · exact hb
    · exact h.obs
    · exact h.obs
  | start =>
    have e : run cap (Call.start (V := V)).acts s = step cap s .start := rfl
    have hfull : ∀ v r, s.created = v :: r → full cap s.queue = false := by
      intro v r hs
      simp only [full]
      rcases hroom with h0 | h0
      · simp [h0]
      · have : s.queue.length < cap := by
          have := congrArg List.length ho
          simp only [List.length_append, hs, List.length_cons] at this
          omega
        simp only [Bool.and_eq_false_iff, decide_eq_false_iff_not]
        right; omega
    refine ⟨hi, ?_, ?_, ?_⟩ <;> rw [e] <;> simp only [step] <;> split
    · exact ho
    · rename_i v r hs
      rw [hfull v r hs]
      simp [ho, hs]
    · exact hb
    · rename_i v r hs
      rw [hfull v r hs]
      exact hb
    · exact h.obs
    · rename_i v r hs
      rw [hfull v r hs]
      exact h.obs
  | resume v =>
    have e : run cap (Call.resume v).acts s = s := by
      show step cap s (.resume v) = s
      simp [step, hb]
    rw [e]; exact h
  | get =>
    have e : run cap (Call.get (V := V)).acts s = step cap s .get := rfl
    refine ⟨hi, ?_, ?_, ?_⟩ <;> rw [e] <;> simp only [step] <;> split
    · exact ho
    · rename_i v r hs
      have hv : v ∈ s.pending := by rw [ho, hs]; simp
      rw [if_pos hv]
      simp [ho, hs]
    · exact hb
    · rename_i v r hs
      have hv : v ∈ s.pending := by rw [ho, hs]; simp
      rw [if_pos hv]
      exact hb
    · exact h.obs
    · rename_i v r hs
      have hv : v ∈ s.pending := by rw [ho, hs]; simp
      rw [if_pos hv]
      simp only [List.reverse_cons, fifo_append, h.obs, Option.bind_some]
      rw [show s.pending = v :: (r ++ s.created ++ s.soon) by rw [ho, hs]; simp]
      simp [fifo]

/-- Pending values were put. -/
def puts (cs : List (Call V)) : List V := cs.filterMap fun | .put _ v => some v | _ => none

theorem step_pending_sub {cap : Nat} {s : St V} (h : Inv s) (c : Call V) :
    ∀ v ∈ (run cap c.acts s).pending, v ∈ s.pending ∨ ∃ t, c = .put t v := by
  intro v hv
  cases c with
  | put t w =>
    rw [show (Call.put t w).acts = [.test t w, .add t] from rfl, put_step cap s t w h.calls] at hv
    split at hv
    · exact .inl hv
    · simp only [List.mem_append, List.mem_singleton] at hv
      rcases hv with hv | rfl
      · exact .inl hv
      · exact .inr ⟨t, rfl⟩
  | callback =>
    left
    have hv' : v ∈ (step cap s .callback).pending := hv
    simp only [step] at hv'; split at hv' <;> exact hv'
  | start =>
    left
    have hv' : v ∈ (step cap s .start).pending := hv
    simp only [step] at hv'; split at hv'
    · exact hv'
    · split at hv' <;> exact hv'
  | resume w =>
    left
    have hv' : v ∈ (step cap s (.resume w)).pending := hv
    simp only [step] at hv'; split at hv' <;> exact hv'
  | get =>
    left
    have hv' : v ∈ (step cap s .get).pending := hv
    simp only [step] at hv'; split at hv'
    · exact hv'
    · split at hv'
      · exact List.mem_of_mem_erase hv'
      · exact hv'

theorem nodup_length_le : ∀ (a b : List V), a.Nodup → (∀ x ∈ a, x ∈ b) → a.length ≤ b.length
  | [], _, _, _ => Nat.zero_le _
  | x :: a, b, hn, hs => by
    have hx : x ∈ b := hs x (by simp)
    have hn' := List.nodup_cons.1 hn
    have := nodup_length_le a (b.erase x) hn'.2 (fun y hy => by
      have hne : y ≠ x := by rintro rfl; exact hn'.1 hy
      exact (List.mem_erase_of_ne hne).2 (hs y (by simp [hy])))
    have hl := List.length_erase_of_mem hx
    have hpos : 0 < b.length := List.length_pos_of_mem hx
    simp only [List.length_cons]; omega

theorem runCalls_ord_from {cap : Nat} (vs : List V) (hcap : cap = 0 ∨ vs.length ≤ cap) (cs : List (Call V)) {s : St V}
    (h : Ord s) (hs : ∀ v ∈ s.pending, v ∈ vs) (hc : ∀ v ∈ puts cs, v ∈ vs) : Ord (run cap (cs.flatMap Call.acts) s) := by
  induction cs generalizing s with
  | nil => exact h
  | cons c cs ih =>
    rw [List.flatMap_cons, run_append]
    refine ih (step_ord h c ?_) ?_ ?_
    · rcases hcap with h0 | h0
      · exact .inl h0
      · exact .inr (Nat.le_trans (nodup_length_le _ vs h.inv.nodup hs) h0)
    · intro v hv
      rcases step_pending_sub h.inv c v hv with h1 | ⟨t, rfl⟩
      · exact hs v h1
      · exact hc v (by simp [puts])
    · intro v hv
      refine hc v ?_
      simp only [puts, List.filterMap_cons] at hv ⊢
      split
      · exact hv
      · exact List.mem_cons_of_mem _ hv

structure Thr (v : V) (s : St V) : Prop where
  nodup : s.pending.Nodup
  waits : awaited v s.log = true → v ∈ s.pending
  held : v ∈ s.pending → v ∈ s.queue ++ s.blocked ++ s.created ++ s.soon
  num : s.log.count (.got v) + s.log.count (.keyError v) + (s.queue ++ s.blocked ++ s.created ++ s.soon).count v ≤
    s.log.count (.put v)

theorem thr_step (cap : Nat) (v : V) (s : St V) (a : Act V) (h : Thr v s) : Thr v (step cap s a) := by
  obtain ⟨hn, hw, hh, hc⟩ := h
  simp only [List.count_append, List.mem_append] at hc hh
  cases a with
  | test t w =>
    simp only [step]
    split
    · exact ⟨hn, hw, by simpa only [List.mem_append] using hh, by simpa only [List.count_append] using hc⟩
    · split
      · rename_i hp
        refine ⟨hn, ?_, by simpa only [List.mem_append] using hh, ?_⟩
        · simp only [awaited]
          by_cases e : w = v
          · exact fun _ => e ▸ hp
          · simpa [e] using hw
        · simp only [List.count_cons, List.count_append]
          simp
          omega
      · exact ⟨hn, hw, by simpa only [List.mem_append] using hh, by simpa only [List.count_append] using hc⟩
  | add t =>
    simp only [step]
    split
    · exact ⟨hn, hw, by simpa only [List.mem_append] using hh, by simpa only [List.count_append] using hc⟩
    · rename_i w _
      refine ⟨?_, ?_, ?_, ?_⟩
      · show (if w ∈ s.pending then s.pending else s.pending ++ [w]).Nodup
        split
        · exact hn
        · rename_i hp
          rw [List.nodup_append]
          exact ⟨hn, by simp, fun a ha b hb => by simp at hb; subst hb; exact fun e => hp (e ▸ ha)⟩
      · simp only [awaited]
        by_cases e : w = v
        · subst e
          intro _
          split
          · assumption
          · simp
        · intro hx
          have := hw (by simpa [e] using hx)
          split
          · exact this
          · simp [this]
      · simp only [List.mem_append, List.mem_singleton]
        by_cases e : w = v
        · subst e; simp
        · intro hx
          have : v ∈ s.pending := by
            split at hx
            · exact hx
            · simpa [Ne.symm e] using hx
          have := hh this
          grind
      · simp only [List.count_cons, List.count_append, List.count_nil]
        by_cases e : w = v
        · subst e; simp; omega
        · simp [e]; omega
  | callback =>
    simp only [step]
    split
    · exact ⟨hn, hw, by simpa only [List.mem_append] using hh, by simpa only [List.count_append] using hc⟩
    · rename_i w r hs
      rw [hs] at hh hc
      refine ⟨hn, hw, ?_, ?_⟩
      · intro hx; have := hh hx; simp at this ⊢; grind
      · simp only [List.count_cons, List.count_append, List.count_nil] at hc ⊢; omega
  | start =>
    simp only [step]
    split
    · exact ⟨hn, hw, by simpa only [List.mem_append] using hh, by simpa only [List.count_append] using hc⟩
    · rename_i w r hs
      rw [hs] at hh hc
      split
      · refine ⟨hn, hw, ?_, ?_⟩
        · intro hx; have := hh hx; simp at this ⊢; grind
        · simp only [List.count_cons, List.count_append, List.count_nil] at hc ⊢; omega
      · refine ⟨hn, hw, ?_, ?_⟩
        · intro hx; have := hh hx; simp at this ⊢; grind
        · simp only [List.count_cons, List.count_append, List.count_nil] at hc ⊢; omega
  | resume w =>
    simp only [step]
    split
    · rename_i hb
      have hp := List.perm_cons_erase hb.1
      refine ⟨hn, hw, ?_, ?_⟩
      · intro hx
        have := hh hx
        rw [hp.mem_iff] at this
        simp at this ⊢; grind
      · rw [hp.count_eq] at hc
        simp only [List.count_cons, List.count_append, List.count_nil] at hc ⊢; omega
    · exact ⟨hn, hw, by simpa only [List.mem_append] using hh, by simpa only [List.count_append] using hc⟩
  | get =>
    simp only [step]
    split
    · exact ⟨hn, hw, by simpa only [List.mem_append] using hh, by simpa only [List.count_append] using hc⟩
    · rename_i w r hs
      rw [hs] at hh hc
      split
      · refine ⟨hn.erase _, ?_, ?_, ?_⟩
        · simp only [awaited]
          by_cases e : w = v
          · simp [e]
          · intro hx
            have := hw (by simpa [e] using hx)
            exact (List.mem_erase_of_ne (Ne.symm e)).2 this
        · intro hx
          have hne : v ≠ w := fun e => by subst e; exact absurd hx hn.not_mem_erase
          have := hh (List.mem_of_mem_erase hx)
          simp at this ⊢; grind
        · simp only [List.count_cons, List.count_append, List.count_nil] at hc ⊢
          by_cases e : w = v
          · subst e; simp at hc ⊢; omega
          · simp [e] at hc ⊢; omega
      · rename_i hnp
        refine ⟨hn, by simpa [awaited] using hw, ?_, ?_⟩
        · intro hx
          have hne : v ≠ w := fun e => by subst e; exact hnp hx
          have := hh hx
          simp at this ⊢; grind
        · simp only [List.count_cons, List.count_append, List.count_nil] at hc ⊢
          by_cases e : w = v
          · subst e; simp at hc ⊢; omega
          · simp [e] at hc ⊢; omega

theorem run_thr (cap : Nat) (acts : List (Act V)) (v : V) : Thr v (run cap acts) := by
  have : ∀ (acts : List (Act V)) s, Thr v s → Thr v (run cap acts s) := by
    intro acts
    induction acts with
    | nil => exact fun s h => h
    | cons a r ih => exact fun s h => ih _ (thr_step cap v s a h)
  exact this acts {} ⟨by simp, by simp [awaited], by simp, by simp⟩

end Verif.Queue
