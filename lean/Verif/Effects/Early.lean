import Verif.Effects.Lemmas
/-! Clean-ups are not called early, coroutines are not cancelled early (lemmas for C25, C27 and C65). -/
namespace Verif.Effects

/-- Every element of the log (newest first) with `P` is directly followed in time by one with `Q`. -/
def Followed {α} (P Q : α → Prop) (l : List α) : Prop :=
  ∀ l1 x l2, l = l1 ++ x :: l2 → P x → ∃ l1' y, l1 = l1' ++ [y] ∧ Q y

theorem Followed.nil {α} {P Q : α → Prop} : Followed P Q [] := by
  intro l1 x l2 h; simp at h

theorem Followed.cons {α} {P Q : α → Prop} {l : List α} {e : α} (h : Followed P Q l) (he : ¬ P e) : Followed P Q (e :: l) := by
  intro l1 x l2 hl hx
  cases l1 with
  | nil => simp at hl; exact absurd (hl.1 ▸ hx) he
  | cons a l1 =>
    simp only [List.cons_append, List.cons.injEq] at hl
    obtain ⟨l1', y, h1, hy⟩ := h l1 x l2 hl.2 hx
    exact ⟨a :: l1', y, by rw [h1]; rfl, hy⟩

theorem Followed.cons2 {α} {P Q : α → Prop} {l : List α} {e c : α} (h : Followed P Q l) (he : ¬ P e) (hq : Q e) :
    Followed P Q (e :: c :: l) := by
  intro l1 x l2 hl hx
  match l1, hl with
  | [], hl => simp at hl; exact absurd (hl.1 ▸ hx) he
  | [a], hl => simp at hl; exact ⟨[], a, rfl, hl.1 ▸ hq⟩
  | a :: b :: l1, hl =>
    simp only [List.cons_append, List.cons.injEq] at hl
    obtain ⟨l1', y, h1, hy⟩ := h l1 x l2 hl.2.2 hx
    exact ⟨a :: b :: l1', y, by rw [h1]; rfl, hy⟩

namespace Sync

def isClean : Ev → Prop
  | .clean _ => True
  | _ => False
def isBody : Ev → Prop
  | .body _ _ => True
  | _ => False

theorem step_followed {body : Nat → Body} (hb : ∀ g, body g ≠ .cleanup true) {s : St} (a : Act)
    (h : s.unmounted = false → Followed isClean isBody s.log) :
    (step body s a).unmounted = false → Followed isClean isBody (step body s a).log := by
  cases a with
  | schedule => simp only [step]; split <;> exact h
  | unmount => simp [step]
  | run g =>
    simp only [step]
    split
    · -- start
      intro hu
      have hcl : (cleanup body s).2 = true ∧ (cleanup body s).1.unmounted = s.unmounted ∧
          ((cleanup body s).1.log = s.log ∨ ∃ k, (cleanup body s).1.log = .clean k :: s.log) := by
        simp only [cleanup]
        split
        · simp
        · rename_i k _; simp [hb k]
      obtain ⟨h1, h2, h3⟩ := hcl
      simp only [start] at hu ⊢
      rw [show cleanup body s = ((cleanup body s).1, (cleanup body s).2) from rfl, h1] at hu ⊢
      generalize (cleanup body s).1 = s' at *
      have key : s.unmounted = false → ∀ b, Followed isClean isBody (.body g b :: s'.log) := by
        intro hu b
        rcases h3 with h3 | ⟨k, h3⟩
        · rw [h3]; exact (h hu).cons (by simp [isClean])
        · rw [h3]; exact (h hu).cons2 (by simp [isClean]) (by simp [isBody])
      cases hg : body g with
      | raises => simp only [hg] at hu ⊢; exact key (by rw [← h2]; exact hu) _
      | _ =>
        simp only [hg] at hu ⊢
        by_cases hm : s'.unmounted = true
        · simp only [hm, if_true] at hu
          rw [(finish_frame _ _ _).2.2] at hu
          simp at hu
        · simp only [hm, if_false, Bool.false_eq_true] at hu ⊢
          exact key (by rw [← h2]; simpa using hm) _
    · split
      · rename_i hm; intro hu; rw [(finish_frame body g s).2.2] at hu; simp [hm] at hu
      · exact h
    · exact h

theorem run_followed {body : Nat → Body} (hb : ∀ g, body g ≠ .cleanup true) (acts : List Act) : ∀ {s : St},
    (s.unmounted = false → Followed isClean isBody s.log) →
    (run body acts s).unmounted = false → Followed isClean isBody (run body acts s).log := by
  induction acts with
  | nil => intro s h; exact h
  | cons a acts ih => intro s h; exact ih (step_followed hb a h)

end Sync

namespace Async

def isClean : Ev → Prop
  | .clean _ => True
  | _ => False
def isBegan : Ev → Prop
  | .began _ => True
  | _ => False

/-- Before the unmount: no generation is past its wait because of the unmount, and clean-ups are followed by the
next coroutine. -/
structure E (s : St) : Prop where
  wait : ∀ g, s.pc g = .awaitTask → s.unmounted = true
  followed : s.unmounted = false → Followed isClean isBegan s.log

theorem launch_e {s : St} (h : E s) (g : Nat) (pe : Option Nat) : E (launch g { s with pending := pe }) := by
  constructor
  · intro k hk
    simp only [launch, St.at, upd] at hk ⊢
    split at hk
    · cases hk
    · rw [(cleanup_frame _).1] at hk; rw [(cleanup_frame _).2.2.2.2.1]; exact h.wait k hk
  · simp only [launch, St.at, cleanup]
    split
    · intro hu; exact (h.followed hu).cons (by simp [isClean])
    · intro hu; exact (h.followed hu).cons2 (by simp [isClean]) (by simp [isBegan])

theorem e_congr {s s' : St} (h : E s) (h1 : ∀ g, s'.pc g = .awaitTask → s.pc g = .awaitTask ∨ s.unmounted = true)
    (h2 : s'.unmounted = s.unmounted) (h3 : s'.log = s.log) : E s' :=
  ⟨fun g hg => h2 ▸ (h1 g hg).elim (h.wait g) id, fun hu => h3 ▸ h.followed (h2 ▸ hu)⟩

theorem at_e {s : St} (h : E s) (g : Nat) (p : Pc) (hp : p = .awaitTask → s.unmounted = true) : E (s.at g p) := by
  refine e_congr h ?_ rfl rfl
  intro k hk
  simp only [St.at, upd] at hk
  split at hk
  · exact .inr (hp hk)
  · exact .inl hk

theorem cancel_e {s : St} (h : E s) (g : Nat) : E (cancel s g) := by
  obtain ⟨h1, -, h3, -⟩ := cancel_frame s g
  refine e_congr h (fun k hk => .inl (h1 ▸ hk)) ?_ h3
  simp only [cancel]; split <;> rfl

theorem unmounted_e {s : St} (h : s.unmounted = true) : E s := ⟨fun _ _ => h, fun h' => by rw [h] at h'; cases h'⟩

theorem afterPrev_e {s : St} (h : E s) (g p : Nat) (out : Out) : E (afterPrev g p out s) := by
  have hl : E (launch g (if s.pending = some p then { s with pending := none } else s)) := by
    split
    · exact launch_e h g none
    · exact launch_e h g s.pending
  cases out
  · exact hl
  · exact hl
  · exact at_e h g .finished (by simp)

theorem store_unmounted (g : Nat) (out : Out) (s : St) : (store g out s).unmounted = s.unmounted ∧
    (store g out s).log = s.log ∧ (store g out s).pc = s.pc := by
  cases out <;> exact ⟨rfl, rfl, rfl⟩

theorem resume_e (shield : Bool) {s : St} (h : E s) (g : Nat) : E (resume shield g s) := by
  simp only [resume]
  split
  · -- created
    split
    · exact launch_e h g s.pending
    · rename_i p hp
      have hs : E (if shield then s else cancel s p) := by split; exact h; exact cancel_e h p
      generalize (if shield then s else cancel s p) = s' at *
      split
      · exact afterPrev_e hs g p _
      · exact at_e hs g (.awaitPrev p) (by simp)
  · split
    · exact afterPrev_e h g _ _
    · exact h
  · split
    · exact at_e (s := { s with pending := none }) (e_congr h (fun k hk => .inl hk) rfl rfl) g .finished (by simp)
    · obtain ⟨a, b, c⟩ := store_unmounted g (by assumption) { s with pending := none }
      exact at_e (e_congr h (fun k hk => .inl (by rw [c] at hk; exact hk)) a b) g .stopWait (by simp)
    · split
      · rename_i hu
        refine at_e ?_ g _ ?_
        · split; exact h; exact cancel_e h g
        · intro _
          split
          · exact hu
          · simp only [cancel]; split <;> exact hu
      · exact h
  · split
    · rename_i hu
      apply unmounted_e
      simp only [St.at]; rw [(cleanup_frame s).2.2.2.2.1]; exact hu
    · exact h
  · rename_i hpc
    have hu := h.wait g hpc
    split
    · exact at_e h g .finished (by simp)
    · rename_i out _ _
      apply unmounted_e
      simp only [St.at]
      rw [(cleanup_frame _).2.2.2.2.1]
      split
      · exact (store_unmounted g out s).1.trans hu
      · exact (store_unmounted g out s).1.trans hu
    · exact h
  · exact h

theorem step_e (shield : Bool) {s : St} (h : E s) (a : Act) : E (step shield s a) := by
  cases a with
  | schedule =>
    simp only [step]
    split
    · exact h
    · exact at_e (s := { s with n := s.n + 1 }) (e_congr h (fun k hk => .inl hk) rfl rfl) s.n .created (by simp)
  | unmount => exact unmounted_e rfl
  | run g => exact resume_e shield h g
  | finish g out =>
    simp only [step]
    split
    · split
      · exact h
      · exact ⟨h.wait, fun hu => (h.followed hu).cons (by simp [isClean])⟩
    · exact h

theorem run_e (shield : Bool) (acts : List Act) : ∀ {s : St}, E s → E (run shield acts s) := by
  induction acts with
  | nil => intro s h; exact h
  | cons a acts ih => intro s h; exact ih (step_e shield h a)

theorem e_init : E {} := ⟨by simp, fun _ => .nil⟩

/-! Cancellation -/

/-- Who has been asked to stop. -/
structure K (shield : Bool) (s : St) : Prop where
  req : ∀ g, s.task g = .running true →
    shield = false ∧ (s.unmounted = true ∨ ∃ h, h ≠ g ∧ s.pc h ≠ .absent ∧ s.pc h ≠ .created)
  cancelled : ∀ g, s.task g = .done .cancelled → shield = false
  pend : ∀ p, s.pending = some p → s.task p ≠ .none
  prev : ∀ h p, s.pc h = .awaitPrev p → s.task p ≠ .none ∧ (shield = false → s.task p ≠ .running false)
  wait : shield = false → ∀ g, s.pc g = .awaitTask → s.task g ≠ .running false

theorem k_init (shield : Bool) : K shield {} := by constructor <;> simp

/-- Only `pc`, `task`, `pending` and `unmounted` matter; generations may advance. -/
theorem k_congr {shield : Bool} {s s' : St} (h : K shield s) (ht : s'.task = s.task) (hu : s'.unmounted = s.unmounted)
    (hp : ∀ p, s'.pending = some p → s.pending = some p)
    (hpc : ∀ g, s'.pc g = s.pc g ∨ (s'.pc g ≠ .absent ∧ s'.pc g ≠ .created ∧ (∀ p, s'.pc g = .awaitPrev p →
      s.task p ≠ .none ∧ (shield = false → s.task p ≠ .running false)) ∧
      (shield = false → s'.pc g = .awaitTask → s.task g ≠ .running false)) ∨
      (s.pc g = .absent ∧ s'.pc g = .created)) : K shield s' := by
  constructor
  · intro g hg
    rw [ht] at hg
    obtain ⟨h1, h2⟩ := h.req g hg
    refine ⟨h1, ?_⟩
    rw [hu]
    refine h2.imp id ?_
    rintro ⟨k, hk, a, b⟩
    refine ⟨k, hk, ?_⟩
    rcases hpc k with e | e | e
    · rw [e]; exact ⟨a, b⟩
    · exact ⟨e.1, e.2.1⟩
    · exact absurd e.1 a
  · intro g hg; rw [ht] at hg; exact h.cancelled g hg
  · intro p hp'; rw [ht]; exact h.pend p (hp p hp')
  · intro k p hk
    rw [ht]
    rcases hpc k with e | e | e
    · rw [e] at hk; exact h.prev k p hk
    · exact e.2.2.1 p hk
    · rw [e.2] at hk; cases hk
  · intro hs g hg
    rw [ht]
    rcases hpc g with e | e | e
    · rw [e] at hg; exact h.wait hs g hg
    · exact e.2.2.2 hs hg
    · rw [e.2] at hg; cases hg

theorem at_k {shield : Bool} {s : St} (h : K shield s) (g : Nat) (p : Pc) (h1 : p ≠ .absent) (h2 : p ≠ .created)
    (h3 : ∀ q, p = .awaitPrev q → s.task q ≠ .none ∧ (shield = false → s.task q ≠ .running false))
    (h4 : shield = false → p = .awaitTask → s.task g ≠ .running false) : K shield (s.at g p) := by
  refine k_congr h rfl rfl (fun _ => id) ?_
  intro k
  by_cases hk : k = g
  · subst hk
    right; left
    simp only [St.at, upd_self]
    exact ⟨h1, h2, h3, h4⟩
  · left; simp only [St.at, upd_ne _ _ hk]

theorem cleanup_k {shield : Bool} {s : St} (h : K shield s) : K shield (cleanup s) := by
  obtain ⟨a, b, -, d, e, -⟩ := cleanup_frame s
  exact k_congr h b e (fun p hp => d ▸ hp) (fun g => .inl (by rw [a]))

theorem launch_k {shield : Bool} {s : St} (h : K shield s) (g : Nat) (ht : s.task g = .none)
    (hw : s.pc g ≠ .awaitTask) (pe : Option Nat) : K shield (launch g { s with pending := pe }) := by
  obtain ⟨a, b, -, -, e, -⟩ := cleanup_frame { s with pending := pe }
  constructor
  · intro k hk
    simp only [launch, St.at] at hk ⊢
    by_cases hkg : k = g
    · subst hkg; rw [upd_self] at hk; cases hk
    · rw [upd_ne _ _ hkg, b] at hk
      obtain ⟨h1, h2⟩ := h.req k hk
      refine ⟨h1, ?_⟩
      rw [e]
      refine h2.imp id ?_
      intro _
      exact ⟨g, fun e => hkg e.symm, by simp [upd_self], by simp [upd_self]⟩
  · intro k hk
    simp only [launch, St.at] at hk
    by_cases hkg : k = g
    · subst hkg; rw [upd_self] at hk; cases hk
    · rw [upd_ne _ _ hkg, b] at hk; exact h.cancelled k hk
  · intro p hp
    simp only [launch, St.at, Option.some.injEq] at hp ⊢
    subst hp; rw [upd_self]; simp
  · intro k p hk
    simp only [launch, St.at] at hk ⊢
    by_cases hkg : k = g
    · subst hkg; rw [upd_self] at hk; cases hk
    · rw [upd_ne _ _ hkg, a] at hk
      have := h.prev k p hk
      have hpg : p ≠ g := by rintro rfl; exact this.1 ht
      rw [upd_ne _ _ hpg, b]; exact this
  · intro hs k hk
    simp only [launch, St.at] at hk ⊢
    by_cases hkg : k = g
    · subst hkg; rw [upd_self] at hk; cases hk
    · rw [upd_ne _ _ hkg, a] at hk
      rw [upd_ne _ _ hkg, b]; exact h.wait hs k hk

theorem afterPrev_k {shield : Bool} {s : St} (h : K shield s) (g p : Nat) (out : Out) (ht : s.task g = .none)
    (hw : s.pc g ≠ .awaitTask) : K shield (afterPrev g p out s) := by
  have hl : K shield (launch g (if s.pending = some p then { s with pending := none } else s)) := by
    split
    · exact launch_k h g ht hw none
    · exact launch_k h g ht hw s.pending
  cases out
  · exact hl
  · exact hl
  · exact at_k h g .finished (by simp) (by simp) (by simp) (by simp)

/-- A request to `p` by generation `g`, which goes on to wait for it (or is at the unmount). -/
theorem cancel_k {shield : Bool} {s : St} (h : K shield s) (hs : shield = false) (p : Nat)
    (hr : s.unmounted = true ∨ ∃ h, h ≠ p ∧ s.pc h ≠ .absent ∧ s.pc h ≠ .created) :
    K shield (cancel s p) ∧ (cancel s p).task p ≠ .running false := by
  obtain ⟨a, -, -, -, d, e, f, f'⟩ := cancel_frame s p
  have hne : ∀ k, k ≠ p → (cancel s p).task k = s.task k := by
    intro k hk; simp only [cancel]; split
    · simp only [upd_ne _ _ hk]
    · rfl
  have hp : (cancel s p).task p ≠ .running false := by
    simp only [cancel]; split
    · simp [upd_self]
    · rename_i hn; intro hc; exact hn _ hc
  refine ⟨?_, hp⟩
  constructor
  · intro k hk
    rw [e, a]
    by_cases hkp : k = p
    · subst hkp; exact ⟨hs, hr⟩
    · rw [hne k hkp] at hk; exact h.req k hk
  · intro k hk; exact h.cancelled k ((f' k _).1 hk)
  · intro q hq; rw [d] at hq; intro hn; exact h.pend q hq ((f q).1 hn)
  · intro k q hk
    rw [a] at hk
    obtain ⟨h1, h2⟩ := h.prev k q hk
    refine ⟨fun hn => h1 ((f q).1 hn), fun _ => ?_⟩
    by_cases hqp : q = p
    · subst hqp; exact hp
    · rw [hne q hqp]; exact h2 hs
  · intro _ k hk
    rw [a] at hk
    by_cases hkp : k = p
    · subst hkp; exact hp
    · rw [hne k hkp]; exact h.wait hs k hk

theorem store_frame (g : Nat) (out : Out) (s : St) : (store g out s).task = s.task ∧ (store g out s).pending = s.pending := by
  cases out <;> exact ⟨rfl, rfl⟩

/-- The same `resume`, with the request to the previous task made after leaving `created`. -/
theorem created_k {shield : Bool} {s : St} (h : K shield s) (hs : shield = false) (g p : Nat) (hgp : g ≠ p) (q : Pc)
    (hq1 : q ≠ .absent) (hq2 : q ≠ .created) (hq3 : ∀ r, q ≠ .awaitPrev r) (hq4 : q ≠ .awaitTask) :
    K shield (cancel (s.at g q) p) ∧ (cancel (s.at g q) p).task p ≠ .running false :=
  cancel_k (at_k h g q hq1 hq2 (fun r e => absurd e (hq3 r)) (fun _ e => absurd e hq4)) hs p
    (.inr ⟨g, hgp, by simp [St.at, upd_self, hq1], by simp [St.at, upd_self, hq2]⟩)

theorem launch_at (s : St) (g : Nat) (q : Pc) : launch g (s.at g q) = launch g s := by
  simp only [launch, cleanup_at]
  simp only [St.at]
  congr 1
  funext k; simp only [upd]; split <;> rfl

theorem cancel_at (s : St) (g p : Nat) (q : Pc) : cancel (s.at g q) p = (cancel s p).at g q := by
  simp only [cancel, St.at]
  split <;> rfl

theorem resume_k (shield : Bool) {s : St} (hb : B s) (h : K shield s) (g : Nat) : K shield (resume shield g s) := by
  have hfit := hb.fits g
  simp only [resume]
  split
  · rename_i hpc
    rw [hpc] at hfit
    have ht : s.task g = .none := hfit
    split
    · exact launch_k h g ht (by rw [hpc]; simp) s.pending
    · rename_i p hp
      have hpn := h.pend p hp
      have hgp : g ≠ p := by rintro rfl; exact hpn ht
      cases hsh : shield with
      | true =>
        rw [hsh] at h
        simp only [if_true]
        split
        · exact afterPrev_k h g p _ ht (by rw [hpc]; simp)
        · refine at_k h g (.awaitPrev p) (by simp) (by simp) ?_ (by simp)
          intro q hq; cases hq; exact ⟨hpn, by simp⟩
      | false =>
        simp only [Bool.false_eq_true, if_false]
        -- first leave `created`, then request
        obtain ⟨hk, hreq⟩ := created_k (hsh ▸ h : K false s) rfl g p hgp .waiting (by simp) (by simp) (by simp) (by simp)
        have htc : (cancel s p).task g = .none := (cancel_frame s p).2.2.2.2.2.2.1 g |>.2 ht
        rw [cancel_at] at hk hreq
        have hreq' : (cancel s p).task p ≠ .running false := hreq
        split
        · rename_i out _
          have := afterPrev_k hk g p out htc (by simp [St.at, upd_self])
          have heq : afterPrev g p out ((cancel s p).at g .waiting) = afterPrev g p out (cancel s p) := by
            have hl : ∀ t : St, launch g (if (t.at g .waiting).pending = some p then { t.at g .waiting with pending := none } else t.at g .waiting) =
                launch g (if t.pending = some p then { t with pending := none } else t) := by
              intro t
              have e : (t.at g .waiting).pending = t.pending := rfl
              rw [e]
              split
              · exact launch_at { t with pending := none } g .waiting
              · exact launch_at t g .waiting
            cases out
            · exact hl _
            · exact hl _
            · exact at_at _ g _ _
          rw [heq] at this; exact this
        · have := at_k hk g (.awaitPrev p) (by simp) (by simp)
            (by intro q hq; cases hq; exact ⟨fun hn => hpn ((cancel_frame s p).2.2.2.2.2.2.1 p |>.1 hn), fun _ => hreq'⟩) (by simp)
          rw [at_at] at this; exact this
  · rename_i p hpc
    rw [hpc] at hfit
    have ht : s.task g = .none := hfit
    split
    · exact afterPrev_k h g p _ ht (by rw [hpc]; simp)
    · exact h
  · split
    · exact at_k (s := { s with pending := none }) (k_congr h rfl rfl (by simp) (fun _ => .inl rfl)) g .finished (by simp) (by simp) (by simp) (by simp)
    · rename_i out _ _
      obtain ⟨a, b, c⟩ := store_unmounted g out { s with pending := none }
      obtain ⟨d, e⟩ := store_frame g out { s with pending := none }
      exact at_k (k_congr h d a (by rw [e]; simp) (fun k => .inl (by rw [c]))) g .stopWait (by simp) (by simp) (by simp) (by simp)
    · split
      · rename_i hu
        cases hsh : shield with
        | true =>
          rw [hsh] at h
          simp only [if_true]
          exact at_k h g .awaitTask (by simp) (by simp) (by simp) (by simp)
        | false =>
          simp only [Bool.false_eq_true, if_false]
          obtain ⟨h1, h2⟩ := cancel_k (hsh ▸ h : K false s) rfl g (.inl hu)
          exact at_k h1 g .awaitTask (by simp) (by simp) (by simp) (fun _ _ => h2)
      · exact h
  · split
    · exact at_k (cleanup_k h) g .finished (by simp) (by simp) (by simp) (by simp)
    · exact h
  · split
    · exact at_k h g .finished (by simp) (by simp) (by simp) (by simp)
    · rename_i out _ _
      obtain ⟨a, b, c⟩ := store_unmounted g out s
      obtain ⟨d, e⟩ := store_frame g out s
      refine at_k (cleanup_k ?_) g .finished (by simp) (by simp) (by simp) (by simp)
      split
      · exact k_congr h d a (by simp) (fun k => .inl (by rw [c]))
      · exact k_congr h d a (fun p hp => e ▸ hp) (fun k => .inl (by rw [c]))
    · exact h
  · exact h

theorem step_k (shield : Bool) {s : St} (hb : B s) (h : K shield s) (a : Act) : K shield (step shield s a) := by
  cases a with
  | schedule =>
    simp only [step]
    split
    · exact h
    · refine k_congr h rfl rfl (fun _ => id) ?_
      intro k
      by_cases hk : k = s.n
      · subst hk; right; right; exact ⟨hb.absent _ (Nat.le_refl _), by simp [St.at, upd_self]⟩
      · left; simp only [St.at, upd_ne _ _ hk]
  | unmount => exact ⟨fun g hg => ⟨(h.req g hg).1, .inl rfl⟩, h.cancelled, h.pend, h.prev, h.wait⟩
  | run g => exact resume_k shield hb h g
  | finish g out =>
    simp only [step]
    split
    · rename_i r hr
      split
      · exact h
      · rename_i hc
        have hne : ∀ k, k ≠ g → upd s.task g (.done out) k = s.task k := fun k hk => upd_ne _ _ hk
        constructor
        · intro k hk
          simp only at hk
          by_cases hkg : k = g
          · subst hkg; rw [upd_self] at hk; cases hk
          · rw [hne k hkg] at hk; exact h.req k hk
        · intro k hk
          simp only at hk
          by_cases hkg : k = g
          · subst hkg; rw [upd_self] at hk
            have : out = .cancelled := by simpa using hk
            subst this
            cases r with
            | false => simp at hc
            | true => exact (h.req k hr).1
          · rw [hne k hkg] at hk; exact h.cancelled k hk
        · intro p hp
          simp only
          by_cases hkg : p = g
          · subst hkg; rw [upd_self]; simp
          · rw [hne p hkg]; exact h.pend p hp
        · intro k p hk
          simp only
          by_cases hkg : p = g
          · subst hkg; rw [upd_self]; simp
          · rw [hne p hkg]; exact h.prev k p hk
        · intro hs k hk
          simp only
          by_cases hkg : k = g
          · subst hkg; rw [upd_self]; simp
          · rw [hne k hkg]; exact h.wait hs k hk
    · exact h

theorem run_k (shield : Bool) (acts : List Act) : ∀ {s : St}, B s → K shield s → K shield (run shield acts s) := by
  induction acts with
  | nil => intro s _ h; exact h
  | cons a acts ih => intro s hb h; exact ih (step_b shield hb a) (step_k shield hb h a)

end Async
end Verif.Effects
