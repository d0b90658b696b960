import Verif.Events.Spec
namespace Verif.Events
variable {T : Type} [DecidableEq T]

theorem upd_self {α} (f : T → α) (t : T) (a : α) : upd f t a t = a := by simp [upd]
theorem upd_ne {α} (f : T → α) {t u : T} (a : α) (h : u ≠ t) : upd f t a u = f u := by simp [upd, h]

@[simp] theorem received_append (t : T) (l l') : received t (l ++ l') = received t l ++ received t l' := by
  simp [received, List.filterMap_append]
@[simp] theorem taken_append (t : T) (l l') : taken t (l ++ l') = taken t l ++ taken t l' := by
  simp [taken, List.filterMap_append]

theorem oneAtATime_append (t : T) (l l' : List (Obs T)) (p : Phase T) :
    oneAtATime t p (l ++ l') = (oneAtATime t p l).bind (fun q => oneAtATime t q l') := by
  induction l generalizing p with
  | nil => rfl
  | cons o l ih =>
    cases o <;> simp only [List.cons_append, oneAtATime, ih]
    all_goals (split <;> try rfl)
    all_goals (split <;> simp)

def phase : Proc T → Phase T
  | .absent => .idle
  | .idle => .idle
  | .retry m _ => .taken m
  | .running m => .handling m
  | .dead => .dead

def ofTarget (t : T) (l : List (Msg T)) : List (Msg T) := l.filter (fun m => m.target = t)

@[simp] theorem ofTarget_append (t : T) (l l' : List (Msg T)) : ofTarget t (l ++ l') = ofTarget t l ++ ofTarget t l' := by
  simp [ofTarget]
@[simp] theorem ofTarget_nil (t : T) : ofTarget t ([] : List (Msg T)) = [] := rfl
theorem ofTarget_self (m : Msg T) (l) : ofTarget m.target (m :: l) = m :: ofTarget m.target l := by simp [ofTarget]
theorem ofTarget_ne {t : T} {m : Msg T} (h : m.target ≠ t) (l) : ofTarget t (m :: l) = ofTarget t l := by simp [ofTarget, h]

structure Inv (s : St T) : Prop where
  perm : ∀ t, (received t s.log).Perm (taken t s.log ++ s.queue t ++ ofTarget t s.blocked ++ ofTarget t s.created)
  qt : ∀ t, ∀ m ∈ s.queue t, m.target = t
  pt : ∀ t m, phase (s.proc t) = .taken m ∨ phase (s.proc t) = .handling m → m.target = t
  one : ∀ t, oneAtATime t .idle s.log = some (phase (s.proc t))

theorem inv_init (h : T → Option Nat) : Inv (init h) := by
  constructor <;> simp [init, received, taken, oneAtATime, phase]

theorem count_ofTarget_erase {t : T} {m x : Msg T} {l : List (Msg T)} (h : m ∈ l) :
    (ofTarget t l).count x = (ofTarget t (l.erase m)).count x + (ofTarget t [m]).count x := by
  have hp := (List.perm_cons_erase h).filter (fun m => decide (m.target = t))
  have := hp.count_eq x
  rw [show ofTarget t l = l.filter (fun m => decide (m.target = t)) from rfl, this]
  rw [show (m :: l.erase m) = [m] ++ l.erase m from rfl, List.filter_append, List.count_append]
  simp only [ofTarget]; omega

/-- `lookup` on a message just taken or retried. -/
theorem lookup_inv {s : St T} {t : T} {m : Msg T} (k : Nat) (hm : m.target = t)
    (perm : ∀ t, (received t s.log).Perm (taken t s.log ++ s.queue t ++ ofTarget t s.blocked ++ ofTarget t s.created))
    (qt : ∀ t, ∀ m ∈ s.queue t, m.target = t)
    (pt : ∀ u m, u ≠ t → phase (s.proc u) = .taken m ∨ phase (s.proc u) = .handling m → m.target = u)
    (one : ∀ u, u ≠ t → oneAtATime u .idle s.log = some (phase (s.proc u)))
    (here : oneAtATime t .idle s.log = some (.taken m)) : Inv (lookup s t m k) := by
  have hne : ∀ u, u ≠ t → m.target ≠ u := by intro u hu h; exact hu (h ▸ hm)
  simp only [lookup]
  split
  · refine ⟨?_, qt, ?_, ?_⟩
    · intro u; simpa [received, taken] using perm u
    · intro u m' h
      by_cases hu : u = t
      · subst hu; simp only [upd_self, phase] at h
        rcases h with h | h
        · cases h
        · cases h; exact hm
      · simp only [upd_ne _ _ hu] at h; exact pt u m' hu h
    · intro u
      simp only [oneAtATime_append]
      by_cases hu : u = t
      · subst hu; simp [here, upd_self, phase, oneAtATime, hm]
      · simp [one u hu, upd_ne _ _ hu, oneAtATime, hne u hu]
  · cases k with
    | zero =>
      refine ⟨?_, qt, ?_, ?_⟩
      · intro u; simpa [received, taken] using perm u
      · intro u m' h
        by_cases hu : u = t
        · subst hu; simp [upd_self, phase] at h
        · simp only [upd_ne _ _ hu] at h; exact pt u m' hu h
      · intro u
        simp only [oneAtATime_append]
        by_cases hu : u = t
        · subst hu; simp [here, upd_self, phase, oneAtATime, hm]
        · simp [one u hu, upd_ne _ _ hu, oneAtATime, hne u hu]
    | succ k =>
      refine ⟨?_, qt, ?_, ?_⟩
      · exact perm
      · intro u m' h
        by_cases hu : u = t
        · subst hu; simp only [upd_self, phase] at h
          rcases h with h | h
          · cases h; exact hm
          · cases h
        · simp only [upd_ne _ _ hu] at h; exact pt u m' hu h
      · intro u
        by_cases hu : u = t
        · subst hu; simp [here, upd_self, phase]
        · simp [one u hu, upd_ne _ _ hu]

theorem queue_add {q : T → List (Msg T)} (m : Msg T) (t : T) :
    upd q m.target (q m.target ++ [m]) t = q t ++ ofTarget t [m] := by
  by_cases h : t = m.target
  · subst h; simp [upd_self, ofTarget]
  · have : m.target ≠ t := fun h' => h h'.symm
    simp [upd_ne _ _ h, ofTarget, this]

theorem step_inv (cap : Nat) {s : St T} (h : Inv s) (a : Act T) : Inv (step cap s a) := by
  cases a with
  | recv m =>
    refine ⟨?_, h.qt, h.pt, ?_⟩
    · intro t
      simp only [step, received_append, taken_append, ofTarget_append]
      have e : received t [Obs.received m] = ofTarget t [m] := by simp only [received, ofTarget, List.filter_cons, List.filterMap_cons]; by_cases hx : m.target = t <;> simp [hx]
      have e2 : taken t [Obs.received m] = [] := by simp [taken]
      rw [e, e2, List.append_nil, ← List.append_assoc]
      exact (h.perm t).append_right _
    · intro t
      simp only [step, oneAtATime_append, h.one t, Option.bind_some, oneAtATime]
  | start =>
    simp only [step]
    split
    · exact h
    · rename_i m r hs
      have hphase : ∀ t, phase ((if s.proc m.target = .absent then upd s.proc m.target .idle else s.proc) t) = phase (s.proc t) := by
        intro t
        split
        · rename_i ha
          by_cases ht : t = m.target
          · subst ht; rw [upd_self, ha]; rfl
          · rw [upd_ne _ _ ht]
        · rfl
      have hc : ∀ t, ofTarget t s.created = ofTarget t [m] ++ ofTarget t r := by
        intro t; rw [hs, ← ofTarget_append]; rfl
      split
      · refine ⟨?_, h.qt, ?_, ?_⟩
        · intro t
          have := h.perm t
          rw [hc] at this
          simpa using this
        · intro t m'; rw [hphase]; exact h.pt t m'
        · intro t; rw [hphase]; exact h.one t
      · refine ⟨?_, ?_, ?_, ?_⟩
        · intro t
          have := h.perm t
          rw [hc] at this
          simp only [queue_add]
          refine this.trans ?_
          simp only [List.perm_iff_count, List.count_append]
          intro a; omega
        · intro t m' hm'
          simp only [queue_add] at hm'
          rcases List.mem_append.1 hm' with h1 | h1
          · exact h.qt t m' h1
          · simp [ofTarget, List.mem_filter] at h1; exact h1.2
        · intro t m'; rw [hphase]; exact h.pt t m'
        · intro t; rw [hphase]; exact h.one t
  | resume m =>
    simp only [step]
    split
    · rename_i hm
      refine ⟨?_, ?_, h.pt, h.one⟩
      · intro t
        refine (h.perm t).trans ?_
        simp only [queue_add]
        simp only [List.perm_iff_count, List.count_append]
        intro a
        have := count_ofTarget_erase (t := t) (x := a) hm.1
        omega
      · intro t m' hm'
        simp only [queue_add] at hm'
        rcases List.mem_append.1 hm' with h1 | h1
        · exact h.qt t m' h1
        · simp [ofTarget, List.mem_filter] at h1; exact h1.2
    · exact h
  | take t =>
    simp only [step]
    split
    · rename_i m r hp hq
      have hm : m.target = t := h.qt t m (by rw [hq]; simp)
      refine lookup_inv 3 hm ?_ ?_ ?_ ?_ ?_
      · intro u
        have := h.perm u
        simp only [received_append, taken_append]
        have e : received u [Obs.took m] = [] := by simp [received]
        have e2 : taken u [Obs.took m] = ofTarget u [m] := by simp only [taken, ofTarget, List.filter_cons, List.filterMap_cons]; by_cases hx : m.target = u <;> simp [hx]
        rw [e, e2, List.append_nil]
        refine this.trans ?_
        by_cases hu : u = t
        · subst hu
          simp only [hq, upd_self]
          rw [← hm, show ofTarget m.target [m] = [m] by simp [ofTarget]]
          simp
        · rw [upd_ne _ _ hu, show ofTarget u [m] = [] by simp [ofTarget]; rw [hm]; exact fun h => hu h.symm]
          simp
      · intro u m' hm'
        by_cases hu : u = t
        · subst hu
          simp only [upd_self] at hm'
          exact h.qt u m' (by rw [hq]; simp [hm'])
        · simp only [upd_ne _ _ hu] at hm'; exact h.qt u m' hm'
      · intro u m' _; exact h.pt u m'
      · intro u hu
        simp only [oneAtATime_append, h.one u, Option.bind_some, oneAtATime]
        rw [if_neg]
        rw [hm]; exact fun h => hu h.symm
      · simp [oneAtATime_append, h.one t, oneAtATime, hm, hp, phase]
    · exact h
  | retry t =>
    simp only [step]
    split
    · rename_i m k hp
      have hm : m.target = t := h.pt t m (.inl (by rw [hp]; rfl))
      exact lookup_inv k hm h.perm h.qt (fun u m' _ => h.pt u m') (fun u _ => h.one u) (by rw [h.one t, hp]; rfl)
    · exact h
  | finish t out =>
    simp only [step]
    split
    · rename_i m hp
      have hm : m.target = t := h.pt t m (.inr (by rw [hp]; rfl))
      refine ⟨?_, h.qt, ?_, ?_⟩
      · intro u; simpa [received, taken] using h.perm u
      · intro u m' hx
        by_cases hu : u = t
        · subst hu
          simp only [upd_self] at hx
          split at hx <;> simp [phase] at hx
        · simp only [upd_ne _ _ hu] at hx; exact h.pt u m' hx
      · intro u
        simp only [oneAtATime_append, h.one u, Option.bind_some]
        by_cases hu : u = t
        · subst hu
          simp only [oneAtATime, hm, if_true, hp, phase, upd_self]
          split <;> rfl
        · have : m.target ≠ u := by rw [hm]; exact fun h => hu h.symm
          simp [oneAtATime, this, upd_ne _ _ hu]
    · exact h
  | setHandler t hd => exact ⟨h.perm, h.qt, h.pt, h.one⟩

theorem run_inv (cap : Nat) (acts : List (Act T)) {s : St T} (h : Inv s) : Inv (run cap acts s) := by
  induction acts generalizing s with
  | nil => exact h
  | cons a acts ih => exact ih (step_inv cap h a)

/-! `lookup` leaves the queues alone. -/
theorem lookup_frame (s : St T) (t : T) (m : Msg T) (k : Nat) :
    (lookup s t m k).queue = s.queue ∧ (lookup s t m k).blocked = s.blocked ∧ (lookup s t m k).created = s.created ∧
    (lookup s t m k).seqs = s.seqs ∧ (lookup s t m k).handlers = s.handlers ∧
    (∀ u, received u (lookup s t m k).log = received u s.log) ∧ (∀ u, taken u (lookup s t m k).log = taken u s.log) := by
  simp only [lookup]
  split
  · simp [received, taken]
  · split <;> simp [received, taken]

/-! Order, without backpressure -/

structure Ord (s : St T) : Prop where
  inv : Inv s
  unblocked : s.blocked = []
  order : ∀ t, received t s.log = taken t s.log ++ s.queue t ++ ofTarget t s.created

theorem ord_init (h : T → Option Nat) : Ord (init h) := by
  refine ⟨inv_init h, rfl, ?_⟩
  simp [init, received, taken]

theorem step_ord {cap : Nat} {s : St T} (h : Ord s) (hroom : cap = 0 ∨ ∀ t, (received t s.log).length ≤ cap) (a : Act T) :
    Ord (step cap s a) := by
  have hi := step_inv cap h.inv a
  refine ⟨hi, ?_, ?_⟩
  · cases a with
    | recv m => exact h.unblocked
    | start =>
      simp only [step]
      split
      · exact h.unblocked
      · rename_i m r hs
        have : full cap (s.queue m.target) = false := by
          rcases hroom with h0 | h0
          · simp [full, h0]
          · have h1 := h0 m.target
            rw [h.order, hs, ofTarget_self] at h1
            simp only [List.length_append, List.length_cons] at h1
            simp [full]; omega
        rw [this]; exact h.unblocked
    | resume m => simp only [step]; rw [if_neg]; exact h.unblocked; rw [h.unblocked]; simp
    | take t =>
      simp only [step]; split
      · rw [(lookup_frame _ _ _ _).2.1]; exact h.unblocked
      · exact h.unblocked
    | retry t =>
      simp only [step]; split
      · rw [(lookup_frame _ _ _ _).2.1]; exact h.unblocked
      · exact h.unblocked
    | finish t out => simp only [step]; split <;> exact h.unblocked
    | setHandler t hd => exact h.unblocked
  · intro t
    cases a with
    | recv m =>
      simp only [step, received_append, taken_append, ofTarget_append]
      have e : received t [Obs.received m] = ofTarget t [m] := by simp only [received, ofTarget, List.filter_cons, List.filterMap_cons]; by_cases hx : m.target = t <;> simp [hx]
      have e2 : taken t [Obs.received m] = [] := by simp [taken]
      rw [e, e2, h.order t, List.append_nil, List.append_assoc]
    | start =>
      simp only [step]
      split
      · exact h.order t
      · rename_i m r hs
        have hf : full cap (s.queue m.target) = false := by
          rcases hroom with h0 | h0
          · simp [full, h0]
          · have h1 := h0 m.target
            rw [h.order, hs, ofTarget_self] at h1
            simp only [List.length_append, List.length_cons] at h1
            simp [full]; omega
        rw [hf]
        simp only [Bool.false_eq_true, if_false, queue_add]
        rw [h.order t, hs, show m :: r = [m] ++ r from rfl, ofTarget_append]
        simp
    | resume m =>
      simp only [step]; rw [if_neg]
      · exact h.order t
      · rw [h.unblocked]; simp
    | take u =>
      simp only [step]; split
      · rename_i m r hp hq
        have hm : m.target = u := h.inv.qt u m (by rw [hq]; simp)
        obtain ⟨f1, f2, f3, f4, f5, f6, f7⟩ := lookup_frame { s with queue := upd s.queue u r, seqs := record s.seqs m, log := s.log ++ [.took m] } u m 3
        rw [f1, f3, f6, f7]
        simp only [received_append, taken_append]
        have e : received t [Obs.took m] = [] := by simp [received]
        have e2 : taken t [Obs.took m] = ofTarget t [m] := by simp only [taken, ofTarget, List.filter_cons, List.filterMap_cons]; by_cases hx : m.target = t <;> simp [hx]
        rw [e, e2, List.append_nil, h.order t]
        by_cases hu : t = u
        · subst hu
          simp only [hq, upd_self]
          rw [← hm, show ofTarget m.target [m] = [m] by simp [ofTarget]]
          simp
        · rw [upd_ne _ _ hu, show ofTarget t [m] = [] by simp [ofTarget]; rw [hm]; exact fun h => hu h.symm]
          simp
      · exact h.order t
    | retry u =>
      simp only [step]; split
      · rename_i m k hp
        obtain ⟨f1, f2, f3, f4, f5, f6, f7⟩ := lookup_frame s u m k
        rw [f1, f3, f6, f7]; exact h.order t
      · exact h.order t
    | finish u out =>
      simp only [step]; split
      · simp only [received_append, taken_append]
        have e : ∀ m, received t [Obs.ended m out] = [] := by simp [received]
        have e2 : ∀ m, taken t [Obs.ended m out] = [] := by simp [taken]
        rw [e, e2, List.append_nil, List.append_nil]; exact h.order t
      · exact h.order t
    | setHandler u hd => exact h.order t

/-- The messages for a target in a schedule. -/
def sent (t : T) (acts : List (Act T)) : List (Msg T) :=
  acts.filterMap fun a => match a with
    | .recv m => if m.target = t then some m else none
    | _ => none

theorem step_received (cap : Nat) (s : St T) (a : Act T) (t : T) :
    received t (step cap s a).log = received t s.log ++ sent t [a] := by
  cases a with
  | recv m =>
    simp only [step, received, sent, List.filterMap_append, List.filterMap_cons, List.filterMap_nil]
  | start =>
    simp only [step]; split
    · simp [sent]
    · split <;> simp [sent]
  | resume m => simp only [step]; split <;> simp [sent]
  | take u =>
    simp only [step]; split
    · rw [(lookup_frame _ _ _ _).2.2.2.2.2.1]; simp [sent, received]
    · simp [sent]
  | retry u =>
    simp only [step]; split
    · rw [(lookup_frame _ _ _ _).2.2.2.2.2.1]; simp [sent]
    · simp [sent]
  | finish u out => simp only [step]; split <;> simp [sent, received]
  | setHandler u hd => simp [step, sent]

theorem run_received (cap : Nat) (acts : List (Act T)) (s : St T) (t : T) :
    received t (run cap acts s).log = received t s.log ++ sent t acts := by
  induction acts generalizing s with
  | nil => simp [run, sent]
  | cons a acts ih =>
    have := ih (step cap s a)
    rw [show run cap (a :: acts) s = run cap acts (step cap s a) from rfl, this, step_received]
    simp only [List.append_assoc, List.append_cancel_left_eq]
    rw [show a :: acts = [a] ++ acts from rfl]
    simp only [sent, List.filterMap_append]

theorem run_ord {cap : Nat} (acts : List (Act T)) {s : St T} (h : Ord s)
    (hroom : cap = 0 ∨ ∀ t, (received t s.log ++ sent t acts).length ≤ cap) : Ord (run cap acts s) := by
  induction acts generalizing s with
  | nil => exact h
  | cons a acts ih =>
    refine ih (step_ord h ?_ a) ?_
    · refine hroom.imp id fun hr t => ?_
      have := hr t; simp only [List.length_append] at this; omega
    · refine hroom.imp id fun hr t => ?_
      have := hr t
      rw [step_received]
      rw [show a :: acts = [a] ++ acts from rfl] at this
      simp only [sent, List.filterMap_append, List.length_append] at this ⊢
      omega

/-! A target whose handler is always registered -/

theorem lookup_registered {s : St T} {t u : T} {m : Msg T} {k : Nat} (hm : m.target = u)
    (hh : s.handlers t ≠ none) (hr : ∀ m k, s.proc t ≠ .retry m k) (hi : ∀ m, m.target = t → .ignored m ∉ s.log) :
    (lookup s u m k).handlers t ≠ none ∧ (∀ m' k', (lookup s u m k).proc t ≠ .retry m' k') ∧
    ∀ m', m'.target = t → .ignored m' ∉ (lookup s u m k).log := by
  refine ⟨by rw [(lookup_frame _ _ _ _).2.2.2.2.1]; exact hh, ?_, ?_⟩
  · intro m' k'
    by_cases hu : t = u
    · subst hu
      simp only [lookup]
      split
      · simp [upd_self]
      · rename_i hn; exact absurd hn hh
    · simp only [lookup]
      split
      · simp only [upd_ne _ _ hu]; exact hr m' k'
      · split <;> (simp only [upd_ne _ _ hu]; exact hr m' k')
  · intro m' hm'
    simp only [lookup]
    split
    · simp [hi m' hm']
    · rename_i hn
      split
      · simp only [List.mem_append, List.mem_singleton, not_or]
        refine ⟨hi m' hm', ?_⟩
        intro e
        cases e
        rw [hm] at hm'; subst hm'
        exact hh hn
      · exact hi m' hm'

theorem step_registered (cap : Nat) {s : St T} {t : T} (hinv : Inv s) (hh : s.handlers t ≠ none) (hr : ∀ m k, s.proc t ≠ .retry m k)
    (hi : ∀ m, m.target = t → .ignored m ∉ s.log) (a : Act T) (ha : ∀ h, a = .setHandler t h → h ≠ none) :
    (step cap s a).handlers t ≠ none ∧ (∀ m' k', (step cap s a).proc t ≠ .retry m' k') ∧
    ∀ m', m'.target = t → .ignored m' ∉ (step cap s a).log := by
  cases a with
  | recv m => exact ⟨hh, hr, fun m' hm' => by simp [step, hi m' hm']⟩
  | start =>
    simp only [step]; split
    · exact ⟨hh, hr, hi⟩
    · rename_i m r hs
      have : ∀ m' k', (if s.proc m.target = .absent then upd s.proc m.target .idle else s.proc) t ≠ .retry m' k' := by
        intro m' k'
        split
        · by_cases ht : t = m.target
          · subst ht; rw [upd_self]; simp
          · rw [upd_ne _ _ ht]; exact hr m' k'
        · exact hr m' k'
      split <;> exact ⟨hh, this, hi⟩
  | resume m => simp only [step]; split <;> exact ⟨hh, hr, hi⟩
  | take u =>
    simp only [step]; split
    · rename_i m r hp hq
      have hm : m.target = u := hinv.qt u m (by rw [hq]; simp)
      exact lookup_registered hm hh hr (fun m' hm' => by simp [hi m' hm'])
    · exact ⟨hh, hr, hi⟩
  | retry u =>
    simp only [step]; split
    · rename_i m k hp
      have hm : m.target = u := hinv.pt u m (.inl (by rw [hp]; rfl))
      exact lookup_registered hm hh hr hi
    · exact ⟨hh, hr, hi⟩
  | finish u out =>
    simp only [step]; split
    · refine ⟨hh, ?_, fun m' hm' => by simp [hi m' hm']⟩
      intro m' k'
      by_cases hu : t = u
      · subst hu; simp only [upd_self]; split <;> simp
      · simp only [upd_ne _ _ hu]; exact hr m' k'
    · exact ⟨hh, hr, hi⟩
  | setHandler u hd =>
    refine ⟨?_, hr, hi⟩
    simp only [step]
    by_cases hu : t = u
    · subst hu; rw [upd_self]; exact ha hd rfl
    · rw [upd_ne _ _ hu]; exact hh

theorem run_registered (cap : Nat) {t : T} (acts : List (Act T)) {s : St T} (hinv : Inv s) (hh : s.handlers t ≠ none)
    (hr : ∀ m k, s.proc t ≠ .retry m k) (hi : ∀ m, m.target = t → .ignored m ∉ s.log)
    (ha : ∀ h, .setHandler t h ∈ acts → h ≠ none) : ∀ m', m'.target = t → .ignored m' ∉ (run cap acts s).log := by
  induction acts generalizing s with
  | nil => exact hi
  | cons a acts ih =>
    obtain ⟨h1, h2, h3⟩ := step_registered cap hinv hh hr hi a (fun h e => ha h (by simp [e]))
    exact ih (step_inv cap hinv a) h1 h2 h3 (fun h hm => ha h (List.mem_cons_of_mem _ hm))

/-! Everything taken is done, except what the target is working on. -/

theorem one_done (t : T) (l : List (Obs T)) : ∀ (p q : Phase T), oneAtATime t p l = some q →
    (∀ m, m.target = t → (p = .taken m ∨ p = .handling m ∨ m ∈ taken t l) → Done l m ∨ q = .taken m ∨ q = .handling m) := by
  have hcons : ∀ (o : Obs T) l m, Done l m → Done (o :: l) m := by
    rintro o l m (⟨out, h⟩ | h)
    · exact .inl ⟨out, List.mem_cons_of_mem _ h⟩
    · exact .inr (List.mem_cons_of_mem _ h)
  induction l with
  | nil =>
    intro p q h m _ hm
    cases h
    simp [taken] at hm
    exact .inr hm
  | cons o l ih =>
    intro p q h m ht hm
    cases o with
    | received x =>
      simp only [oneAtATime] at h
      have e : taken t (Obs.received x :: l) = taken t l := by simp [taken]
      rw [e] at hm
      exact (ih _ _ h m ht hm).imp (hcons _ _ _) id
    | took x =>
      simp only [oneAtATime] at h
      split at h
      · rename_i hx
        split at h
        · rename_i hp
          subst hp
          have e : taken t (Obs.took x :: l) = x :: taken t l := by simp [taken, hx]
          rw [e] at hm
          refine (ih _ _ h m ht ?_).imp (hcons _ _ _) id
          rcases hm with hm | hm | hm
          · cases hm
          · cases hm
          · rcases List.mem_cons.1 hm with rfl | hm
            · exact .inl rfl
            · exact .inr (.inr hm)
        · simp at h
      · rename_i hx
        have e : taken t (Obs.took x :: l) = taken t l := by simp [taken, hx]
        rw [e] at hm
        exact (ih _ _ h m ht hm).imp (hcons _ _ _) id
    | called x hd =>
      simp only [oneAtATime] at h
      have e : taken t (Obs.called x hd :: l) = taken t l := by simp [taken]
      rw [e] at hm
      split at h
      · split at h
        · rename_i hp
          subst hp
          refine (ih _ _ h m ht ?_).imp (hcons _ _ _) id
          rcases hm with hm | hm | hm
          · cases hm; exact .inr (.inl rfl)
          · cases hm
          · exact .inr (.inr hm)
        · simp at h
      · exact (ih _ _ h m ht hm).imp (hcons _ _ _) id
    | ended x out =>
      simp only [oneAtATime] at h
      have e : taken t (Obs.ended x out :: l) = taken t l := by simp [taken]
      rw [e] at hm
      split at h
      · split at h
        · rename_i hp
          subst hp
          rcases hm with hm | hm | hm
          · cases hm
          · cases hm; exact .inl (.inl ⟨out, by simp⟩)
          · exact (ih _ _ h m ht (.inr (.inr hm))).imp (hcons _ _ _) id
        · simp at h
      · exact (ih _ _ h m ht hm).imp (hcons _ _ _) id
    | ignored x =>
      simp only [oneAtATime] at h
      have e : taken t (Obs.ignored x :: l) = taken t l := by simp [taken]
      rw [e] at hm
      split at h
      · split at h
        · rename_i hp
          subst hp
          rcases hm with hm | hm | hm
          · cases hm; exact .inl (.inr (by simp))
          · cases hm
          · exact (ih _ _ h m ht (.inr (.inr hm))).imp (hcons _ _ _) id
        · simp at h
      · exact (ih _ _ h m ht hm).imp (hcons _ _ _) id

theorem one_cons_split {t : T} {p : Phase T} {o : Obs T} {l : List (Obs T)} {q : Phase T} (h : oneAtATime t p (o :: l) = some q) :
    ∃ p', oneAtATime t p [o] = some p' ∧ oneAtATime t p' l = some q := by
  rw [show o :: l = [o] ++ l from rfl, oneAtATime_append] at h
  cases hx : oneAtATime t p [o] with
  | none => rw [hx] at h; simp at h
  | some p' => rw [hx] at h; exact ⟨p', rfl, h⟩

/-- A dead target has a call that ended by cancellation. -/
theorem one_dead (t : T) (l : List (Obs T)) : ∀ p, p ≠ .dead → oneAtATime t p l = some .dead → ∃ m, m.target = t ∧ .ended m .cancelled ∈ l := by
  induction l with
  | nil => intro p hp h; simp [oneAtATime] at h; exact absurd h hp
  | cons o l ih =>
    intro p hp h
    obtain ⟨p', h1, h2⟩ := one_cons_split h
    by_cases hd : p' = .dead
    · subst hd
      cases o <;> simp only [oneAtATime] at h1
      · simp at h1; exact absurd h1 hp
      · split at h1
        · split at h1 <;> simp at h1
        · simp at h1; exact absurd h1 hp
      · split at h1
        · split at h1 <;> simp at h1
        · simp at h1; exact absurd h1 hp
      · rename_i m out
        split at h1
        · rename_i ht
          split at h1
          · by_cases ho : out = .cancelled
            · subst ho; exact ⟨m, ht, by simp⟩
            · simp [ho] at h1
          · simp at h1
        · simp at h1; exact absurd h1 hp
      · split at h1
        · split at h1 <;> simp at h1
        · simp at h1; exact absurd h1 hp
    · obtain ⟨m, hm, hmem⟩ := ih p' hd h2
      exact ⟨m, hm, List.mem_cons_of_mem _ hmem⟩

/-! Sequence numbers -/

/-- `n` is the largest sequence number among the messages, if any has one. -/
def IsMax (ms : List (Msg T)) : Option Nat → Prop
  | none => ∀ m ∈ ms, m.seq = none
  | some n => (∃ m ∈ ms, m.seq = some n) ∧ ∀ m ∈ ms, ∀ k, m.seq = some k → k ≤ n

theorem record_isMax {seqs : T → Option Nat} {ms : List (Msg T)} {m : Msg T} (h : IsMax ms (seqs m.target)) :
    IsMax (ms ++ [m]) (record seqs m m.target) := by
  simp only [record]
  cases hm : m.seq with
  | none =>
    simp only
    cases hs : seqs m.target with
    | none =>
      rw [hs] at h
      intro x hx
      rcases List.mem_append.1 hx with hx | hx
      · exact h x hx
      · simp at hx; subst hx; exact hm
    | some n =>
      rw [hs] at h
      obtain ⟨⟨y, hy, hyn⟩, h2⟩ := h
      refine ⟨⟨y, by simp [hy], hyn⟩, ?_⟩
      intro x hx k hk
      rcases List.mem_append.1 hx with hx | hx
      · exact h2 x hx k hk
      · simp at hx; subst hx; rw [hm] at hk; cases hk
  | some n =>
    simp only
    cases hs : seqs m.target with
    | none =>
      rw [hs] at h
      simp only [upd_self]
      refine ⟨⟨m, by simp, hm⟩, ?_⟩
      intro x hx k hk
      rcases List.mem_append.1 hx with hx | hx
      · rw [h x hx] at hk; cases hk
      · simp at hx; subst hx; rw [hm] at hk; cases hk; exact Nat.le_refl _
    | some p =>
      rw [hs] at h
      obtain ⟨⟨y, hy, hyn⟩, h2⟩ := h
      simp only
      by_cases hlt : p < n
      · rw [if_pos hlt, upd_self]
        refine ⟨⟨m, by simp, hm⟩, ?_⟩
        intro x hx k hk
        rcases List.mem_append.1 hx with hx | hx
        · have := h2 x hx k hk; omega
        · simp at hx; subst hx; rw [hm] at hk; cases hk; exact Nat.le_refl _
      · rw [if_neg hlt, hs]
        refine ⟨⟨y, by simp [hy], hyn⟩, ?_⟩
        intro x hx k hk
        rcases List.mem_append.1 hx with hx | hx
        · exact h2 x hx k hk
        · simp at hx; subst hx; rw [hm] at hk; cases hk; omega

theorem record_ne {seqs : T → Option Nat} {m : Msg T} {t : T} (h : t ≠ m.target) : record seqs m t = seqs t := by
  simp only [record]
  cases m.seq with
  | none => rfl
  | some n =>
    simp only
    cases seqs m.target with
    | none => simp only [upd_ne _ _ h]
    | some p =>
      simp only
      by_cases hp : p < n
      · rw [if_pos hp, upd_ne _ _ h]
      · rw [if_neg hp]

theorem step_seqs (cap : Nat) {s : St T} (hi : Inv s) (h : ∀ t, IsMax (taken t s.log) (s.seqs t)) (a : Act T) :
    ∀ t, IsMax (taken t (step cap s a).log) ((step cap s a).seqs t) := by
  intro t
  cases a with
  | recv m => simpa [step, taken] using h t
  | start =>
    simp only [step]; split
    · exact h t
    · split <;> exact h t
  | resume m => simp only [step]; split <;> exact h t
  | take u =>
    simp only [step]; split
    · rename_i m r hp hq
      have hm : m.target = u := hi.qt u m (by rw [hq]; simp)
      rw [(lookup_frame _ _ _ _).2.2.2.2.2.2, (lookup_frame _ _ _ _).2.2.2.1]
      simp only [taken_append]
      by_cases ht : t = m.target
      · subst ht
        rw [show taken m.target [Obs.took m] = [m] by simp [taken]]
        exact record_isMax (h m.target)
      · rw [show taken t [Obs.took m] = [] by simp [taken]; exact fun e => ht e.symm, record_ne ht, List.append_nil]
        exact h t
    · exact h t
  | retry u =>
    simp only [step]; split
    · rw [(lookup_frame _ _ _ _).2.2.2.2.2.2, (lookup_frame _ _ _ _).2.2.2.1]; exact h t
    · exact h t
  | finish u out => simp only [step]; split <;> simpa [taken] using h t
  | setHandler u hd => exact h t

theorem run_seqs (cap : Nat) (acts : List (Act T)) {s : St T} (hi : Inv s) (h : ∀ t, IsMax (taken t s.log) (s.seqs t)) :
    ∀ t, IsMax (taken t (run cap acts s).log) ((run cap acts s).seqs t) := by
  induction acts generalizing s with
  | nil => exact h
  | cons a acts ih => exact ih (step_inv cap hi a) (step_seqs cap hi h a)

theorem step_taken_prefix (cap : Nat) (s : St T) (a : Act T) (t : T) : ∃ r, taken t (step cap s a).log = taken t s.log ++ r := by
  have : ∃ r, (step cap s a).log = s.log ++ r := by
    have hl : ∀ (s : St T) t m k, ∃ r, (lookup s t m k).log = s.log ++ r := by
      intro s t m k
      simp only [lookup]; split
      · exact ⟨_, rfl⟩
      · split
        · exact ⟨_, rfl⟩
        · exact ⟨[], by simp⟩
    cases a with
    | recv m => exact ⟨_, rfl⟩
    | start =>
      simp only [step]; split
      · exact ⟨[], by simp⟩
      · split <;> exact ⟨[], by simp⟩
    | resume m => simp only [step]; split <;> exact ⟨[], by simp⟩
    | take u =>
      simp only [step]; split
      · obtain ⟨r, hr⟩ := hl { s with queue := upd s.queue u _, seqs := record s.seqs _, log := s.log ++ [.took _] } u _ 3
        exact ⟨_, hr.trans (List.append_assoc _ _ _)⟩
      · exact ⟨[], by simp⟩
    | retry u =>
      simp only [step]; split
      · exact hl _ _ _ _
      · exact ⟨[], by simp⟩
    | finish u out => simp only [step]; split; exact ⟨_, rfl⟩; exact ⟨[], by simp⟩
    | setHandler u hd => exact ⟨[], by simp [step]⟩
  obtain ⟨r, hr⟩ := this
  exact ⟨taken t r, by rw [hr, taken_append]⟩

theorem run_taken_prefix (cap : Nat) (acts : List (Act T)) (s : St T) (t : T) : ∃ r, taken t (run cap acts s).log = taken t s.log ++ r := by
  induction acts generalizing s with
  | nil => exact ⟨[], by simp [run]⟩
  | cons a acts ih =>
    obtain ⟨r, hr⟩ := ih (step cap s a)
    obtain ⟨r', hr'⟩ := step_taken_prefix cap s a t
    exact ⟨r' ++ r, by rw [show run cap (a :: acts) s = run cap acts (step cap s a) from rfl, hr, hr', List.append_assoc]⟩

omit [DecidableEq T] in
/-- helper -/
theorem ackFold (seqs : T → Option Nat) (ts : List T) (acc : Option Nat) :
    let r := ts.foldl (fun acc t => match seqs t with
      | none => acc
      | some a => match acc with
        | none => some a
        | some b => if b < a then some a else some b) acc
    match r with
    | none => acc = none ∧ ∀ t ∈ ts, seqs t = none
    | some n => (acc = some n ∨ ∃ t ∈ ts, seqs t = some n) ∧ (∀ k, acc = some k → k ≤ n) ∧ ∀ t ∈ ts, ∀ k, seqs t = some k → k ≤ n := by
  induction ts generalizing acc with
  | nil =>
    simp only [List.foldl]
    cases acc <;> simp
  | cons t ts ih =>
    simp only [List.foldl]
    have h := ih (match seqs t with
      | none => acc
      | some a => match acc with
        | none => some a
        | some b => if b < a then some a else some b)
    revert h
    generalize List.foldl _ _ ts = r
    simp only
    intro h
    cases hs : seqs t with
    | none =>
      rw [hs] at h
      simp only at h
      cases r with
      | none => simp only at h ⊢; exact ⟨h.1, by simpa [hs] using h.2⟩
      | some n =>
        simp only at h ⊢
        refine ⟨h.1.imp id (fun ⟨u, hu, e⟩ => ⟨u, by simp [hu], e⟩), h.2.1, ?_⟩
        intro u hu k hk
        rcases List.mem_cons.1 hu with rfl | hu
        · rw [hs] at hk; cases hk
        · exact h.2.2 u hu k hk
    | some a =>
      rw [hs] at h
      simp only at h
      cases r with
      | none =>
        simp only at h
        cases acc with
        | none => simp at h
        | some b => simp only at h; split at h <;> simp at h
      | some n =>
        simp only at h ⊢
        cases acc with
        | none =>
          simp only at h
          refine ⟨.inr ?_, by simp, ?_⟩
          · rcases h.1 with e | ⟨u, hu, e⟩
            · cases e; exact ⟨t, by simp, hs⟩
            · exact ⟨u, by simp [hu], e⟩
          · intro u hu k hk
            rcases List.mem_cons.1 hu with rfl | hu
            · rw [hs] at hk; cases hk; exact h.2.1 a rfl
            · exact h.2.2 u hu k hk
        | some b =>
          simp only at h
          refine ⟨?_, ?_, ?_⟩
          · rcases h.1 with e | ⟨u, hu, e⟩
            · split at e
              · cases e; exact .inr ⟨t, by simp, hs⟩
              · exact .inl e
            · exact .inr ⟨u, by simp [hu], e⟩
          · intro k hk
            cases hk
            have := h.2.1
            split at this
            · have := this a rfl; omega
            · exact this b rfl
          · intro u hu k hk
            rcases List.mem_cons.1 hu with rfl | hu
            · rw [hs] at hk; cases hk
              have := h.2.1
              split at this
              · exact this a rfl
              · have := this b rfl; omega
            · exact h.2.2 u hu k hk

omit [DecidableEq T] in
/-- `ackSeq` is the maximum over the targets. -/
theorem ackSeq_spec (seqs : T → Option Nat) (ts : List T) :
    match ackSeq seqs ts with
    | none => ∀ t ∈ ts, seqs t = none
    | some n => (∃ t ∈ ts, seqs t = some n) ∧ ∀ t ∈ ts, ∀ k, seqs t = some k → k ≤ n := by
  have := ackFold seqs ts none
  have e : ackSeq seqs ts = ts.foldl (fun acc t => match seqs t with
      | none => acc
      | some a => match acc with
        | none => some a
        | some b => if b < a then some a else some b) none := rfl
  rw [e]
  revert this
  generalize List.foldl _ _ ts = r
  intro this
  cases r with
  | none => exact this.2
  | some n => exact ⟨this.1.resolve_left (by simp), this.2.2⟩

end Verif.Events
