import Verif.Effects.Spec
namespace Verif.Effects

/-! ### `use_effect` -/
namespace Sync

structure Inv (s : St) : Prop where
  proper : Proper s.log
  absent : ∀ g, s.n ≤ g → s.pc g = .absent
  cur : ∀ g, s.cur = some g → .body g true ∈ s.log ∧ .clean g ∉ s.log ∧ s.pc g = .waiting
  open_ : ∀ g, .body g true ∈ s.log → .clean g ∈ s.log ∨ s.cur = some g
  ran : ∀ g, (∃ b, .body g b ∈ s.log) ↔ (s.pc g = .waiting ∨ s.pc g = .finished)

theorem upd_self {α} (f : Nat → α) (g : Nat) (a : α) : upd f g a g = a := by simp [upd]
theorem upd_ne {α} (f : Nat → α) {g h : Nat} (a : α) (hh : h ≠ g) : upd f g a h = f h := by simp [upd, hh]

theorem inv_init : Inv {} := by constructor <;> simp [Proper]

/-- `run_effect_cleanup` leaves nothing open. -/
theorem cleanup_spec {body : Nat → Body} (hb : ∀ g, body g ≠ .cleanup true) {s : St} (h : Inv s) :
    (cleanup body s).2 = true ∧ (cleanup body s).1.cur = none ∧ Inv (cleanup body s).1 ∧
    (∀ g', .body g' true ∈ (cleanup body s).1.log → .clean g' ∈ (cleanup body s).1.log) ∧
    (cleanup body s).1.pc = s.pc ∧ (cleanup body s).1.n = s.n ∧ (cleanup body s).1.unmounted = s.unmounted ∧
    (∀ g b, .body g b ∈ (cleanup body s).1.log ↔ .body g b ∈ s.log) := by
  simp only [cleanup]
  cases hc : s.cur with
  | none =>
    refine ⟨rfl, hc, h, ?_, rfl, rfl, rfl, fun _ _ => Iff.rfl⟩
    intro g' hg
    rcases h.open_ g' hg with h1 | h1
    · exact h1
    · rw [hc] at h1; simp at h1
  | some g =>
    simp only [hb g, if_false]
    obtain ⟨c1, c2, c3⟩ := h.cur g hc
    refine ⟨trivial, trivial, ?_, ?_, trivial, trivial, trivial, by simp⟩
    · constructor
      · exact ⟨c1, c2, h.proper⟩
      · exact h.absent
      · intro g' hg; simp at hg
      · intro g' hg
        simp at hg
        left
        rcases h.open_ g' hg with h1 | h1
        · simp [h1]
        · rw [hc] at h1; cases h1; simp
      · intro g'; simpa using h.ran g'
    · intro g' hg
      simp at hg
      rcases h.open_ g' hg with h1 | h1
      · simp [h1]
      · rw [hc] at h1; cases h1; simp

theorem finish_inv {body : Nat → Body} (hb : ∀ g, body g ≠ .cleanup true) {s : St} (h : Inv s) (g : Nat)
    (hg : s.pc g = .waiting) : Inv (finish body g s) := by
  obtain ⟨_, h2, h3, h4, h5, h6, h7, h8⟩ := cleanup_spec hb h
  simp only [finish]
  constructor
  · exact h3.proper
  · intro g' hg'
    have hne : g' ≠ g := by
      rintro rfl
      have := h3.absent g' hg'
      rw [h5, hg] at this; simp at this
    show upd _ g _ g' = _
    rw [upd_ne _ _ hne]; exact h3.absent g' hg'
  · intro g' hg'
    have : (cleanup body s).1.cur = some g' := hg'
    rw [h2] at this; simp at this
  · exact fun g' hg' => .inl (h4 g' hg')
  · intro g'
    show (∃ b, .body g' b ∈ (cleanup body s).1.log) ↔ (upd _ g _ g' = _ ∨ upd _ g _ g' = _)
    by_cases hne : g' = g
    · subst hne
      rw [upd_self]
      constructor
      · intro _; exact .inr rfl
      · intro _; exact (h3.ran g').2 (.inl (by rw [h5, hg]))
    · rw [upd_ne _ _ hne]; exact h3.ran g'

theorem start_inv {body : Nat → Body} (hb : ∀ g, body g ≠ .cleanup true) {s : St} (h : Inv s) (g : Nat)
    (hg : s.pc g = .created) : Inv (start body g s) := by
  obtain ⟨h1, h2, h3, h4, h5, h6, h7, h8⟩ := cleanup_spec hb h
  simp only [start]
  rw [show cleanup body s = ((cleanup body s).1, (cleanup body s).2) from rfl, h1]
  generalize (cleanup body s).1 = s' at *
  have hg' : s'.pc g = .created := by rw [h5]; exact hg
  have hnr : ∀ b, .body g b ∉ s'.log := by
    intro b hm
    have := (h3.ran g).1 ⟨b, hm⟩
    rw [hg'] at this; simp at this
  have habs : ∀ p g', s'.n ≤ g' → upd s'.pc g p g' = .absent := by
    intro p g' hn
    have hne : g' ≠ g := by
      rintro rfl
      have := h3.absent g' hn
      rw [hg'] at this; simp at this
    rw [upd_ne _ _ hne]; exact h3.absent g' hn
  have hran : ∀ (p : Pc) (b : Bool), (p = .waiting ∨ p = .finished) → ∀ g',
      (∃ b', Ev.body g' b' ∈ (Ev.body g b :: s'.log)) ↔ (upd s'.pc g p g' = .waiting ∨ upd s'.pc g p g' = .finished) := by
    intro p b hp g'
    by_cases hne : g' = g
    · subst hne; rw [upd_self]
      exact ⟨fun _ => hp, fun _ => ⟨b, by simp⟩⟩
    · rw [upd_ne _ _ hne]
      rw [← h3.ran g']
      simp [hne]
  have hwait : ∀ gave : Bool, Inv { s' with log := .body g gave :: s'.log, cur := if gave then some g else none, pc := upd s'.pc g .waiting } := by
    intro gave
    constructor
    · exact ⟨hnr, h4, h3.proper⟩
    · exact habs _
    · intro g' hc
      cases gave with
      | false => simp at hc
      | true =>
        simp at hc
        subst hc
        refine ⟨by simp, ?_, upd_self _ _ _⟩
        intro hm
        simp at hm
        have : ∀ l, Proper l → .clean g ∈ l → .body g true ∈ l := by
          intro l
          induction l with
          | nil => simp
          | cons e l ih =>
            intro hp hm
            cases e with
            | body g' b' => simp at hm; exact List.mem_cons_of_mem _ (ih hp.2.2 hm)
            | clean g' =>
              simp at hm
              rcases hm with rfl | hm
              · exact List.mem_cons_of_mem _ hp.1
              · exact List.mem_cons_of_mem _ (ih hp.2.2 hm)
        exact hnr true (this _ h3.proper hm)
    · intro g' hm
      simp at hm
      rcases hm with ⟨rfl, rfl⟩ | hm
      · exact .inr rfl
      · exact .inl (List.mem_cons_of_mem _ (h4 g' hm))
    · exact hran _ _ (.inl rfl)
  have hfin : ∀ gave : Bool, Inv (finish body g { s' with log := .body g gave :: s'.log, cur := if gave then some g else none }) := by
    intro gave
    have := finish_inv hb (hwait gave) g (upd_self _ _ _)
    have he : finish body g { s' with log := .body g gave :: s'.log, cur := if gave then some g else none, pc := upd s'.pc g .waiting } =
        finish body g { s' with log := .body g gave :: s'.log, cur := if gave then some g else none } := by
      have hu : ∀ (f : Nat → Pc), upd (upd f g .waiting) g .finished = upd f g .finished := by
        intro f; funext x; simp only [upd]; split <;> rfl
      simp only [finish, cleanup]
      cases gave with
      | false => simp [hu]
      | true => simp [hb g, hu]
    rw [← he]; exact this
  cases hbg : body g with
  | raises =>
    simp only
    constructor
    · exact ⟨hnr, h4, h3.proper⟩
    · exact habs _
    · intro g' hc
      have hc' : s'.cur = some g' := hc
      rw [h2] at hc'; simp at hc'
    · intro g' hm
      simp at hm
      exact .inl (List.mem_cons_of_mem _ (h4 g' hm))
    · exact hran _ _ (.inr rfl)
  | nothing =>
    have e : (Body.nothing != Body.nothing) = false := by decide
    simp only [e]
    split
    · exact hfin false
    · exact hwait false
  | cleanup r =>
    have e : (Body.cleanup r != Body.nothing) = true := by cases r <;> decide
    simp only [e]
    split
    · exact hfin true
    · exact hwait true

theorem step_inv {body : Nat → Body} (hb : ∀ g, body g ≠ .cleanup true) {s : St} (h : Inv s) (a : Act) :
    Inv (step body s a) := by
  cases a with
  | schedule =>
    simp only [step]
    split
    · exact h
    · have hn := h.absent s.n (Nat.le_refl _)
      constructor
      · exact h.proper
      · intro g hg
        show upd _ _ _ g = _
        have hg' : s.n + 1 ≤ g := hg
        rw [upd_ne _ _ (by omega)]; exact h.absent g (by omega)
      · intro g hg
        obtain ⟨a, b, c⟩ := h.cur g hg
        refine ⟨a, b, ?_⟩
        show upd _ _ _ g = _
        rw [upd_ne _ _ (by rintro rfl; rw [hn] at c; simp at c)]; exact c
      · exact h.open_
      · intro g
        show (∃ b, .body g b ∈ s.log) ↔ (upd _ _ _ g = _ ∨ upd _ _ _ g = _)
        by_cases hg : g = s.n
        · subst hg
          rw [upd_self, h.ran s.n, hn]
          simp
        · rw [upd_ne _ _ hg]; exact h.ran g
  | unmount => exact ⟨h.proper, h.absent, h.cur, h.open_, h.ran⟩
  | run g =>
    simp only [step]
    split
    · exact start_inv hb h g (by assumption)
    · split
      · exact finish_inv hb h g (by assumption)
      · exact h
    · exact h

theorem run_inv {body : Nat → Body} (hb : ∀ g, body g ≠ .cleanup true) (acts : List Act) {s : St} (h : Inv s) :
    Inv (run body acts s) := by
  induction acts generalizing s with
  | nil => exact h
  | cons a acts ih => exact ih (step_inv hb h a)

/-! Progress, for arbitrary bodies. -/

theorem cleanup_frame (body : Nat → Body) (s : St) :
    (cleanup body s).1.pc = s.pc ∧ (cleanup body s).1.n = s.n ∧ (cleanup body s).1.unmounted = s.unmounted := by
  simp only [cleanup]
  split
  · exact ⟨rfl, rfl, rfl⟩
  · split <;> exact ⟨rfl, rfl, rfl⟩

theorem finish_frame (body : Nat → Body) (g : Nat) (s : St) :
    (finish body g s).pc = upd s.pc g .finished ∧ (finish body g s).n = s.n ∧ (finish body g s).unmounted = s.unmounted := by
  obtain ⟨h1, h2, h3⟩ := cleanup_frame body s
  simp only [finish, h1, h2, h3]; exact ⟨trivial, trivial, trivial⟩

theorem step_unmounted (body : Nat → Body) (g : Nat) (s : St) (hu : s.unmounted = true) :
    (step body s (.run g)).pc = (if s.pc g = .absent then s.pc else upd s.pc g .finished) ∧ (step body s (.run g)).n = s.n ∧
    (step body s (.run g)).unmounted = true := by
  simp only [step]
  cases hp : s.pc g with
  | absent => simp [hu]
  | finished =>
    simp only [hu]
    refine ⟨?_, trivial, trivial⟩
    simp
    funext x; simp only [upd]; split
    · rename_i h; rw [h, hp]
    · rfl
  | waiting =>
    simp only [hu, if_true]
    obtain ⟨h1, h2, h3⟩ := finish_frame body g s
    exact ⟨by simp [h1], h2, by rw [h3, hu]⟩
  | created =>
    simp only [start]
    obtain ⟨h1, h2, h3⟩ := cleanup_frame body s
    generalize hcl : cleanup body s = r at *
    obtain ⟨s', ok⟩ := r
    simp only at h1 h2 h3
    cases ok with
    | false => simp [h1, h2, h3, hu]
    | true =>
      simp only
      cases body g with
      | raises => simp [h1, h2, h3, hu]
      | nothing =>
        simp only [h3, hu, if_true]
        rw [(finish_frame body g _).1, (finish_frame body g _).2.1, (finish_frame body g _).2.2]
        simp [h1, h2]
      | cleanup r =>
        simp only [h3, hu, if_true]
        rw [(finish_frame body g _).1, (finish_frame body g _).2.1, (finish_frame body g _).2.2]
        simp [h1, h2]

end Sync

/-! ### `use_async_effect` -/
namespace Async

theorem upd_self {α} (f : Nat → α) (g : Nat) (a : α) : upd f g a g = a := by simp [upd]
theorem upd_ne {α} (f : Nat → α) {g h : Nat} (a : α) (hh : h ≠ g) : upd f g a h = f h := by simp [upd, hh]

/-- Which task states go with which suspension points. -/
def Fits : Pc → Task → Prop
  | .absent, t => t = .none
  | .created, t => t = .none
  | .awaitPrev _, t => t = .none
  | .waiting, t => t ≠ .none
  | .awaitTask, t => t ≠ .none
  | .stopWait, t => ∃ o, t = .done o ∧ o ≠ .raised
  | .finished, t => t = .none ∨ ∃ o, t = .done o

structure B (s : St) : Prop where
  absent : ∀ g, s.n ≤ g → s.pc g = .absent
  fits : ∀ g, Fits (s.pc g) (s.task g)
  began : ∀ g, .began g ∈ s.log ↔ s.task g ≠ .none
  ended : ∀ g o, .ended g o ∈ s.log ↔ s.task g = .done o
  cur : ∀ g, s.cur = some g → s.pc g = .stopWait ∧ s.task g = .done (.returned true) ∧ .clean g ∉ s.log
  clean : ∀ g, .clean g ∈ s.log → s.task g = .done (.returned true) ∧ (s.pc g = .stopWait ∨ s.pc g = .finished)
  sound : Sound s.log

theorem b_init : B {} := by constructor <;> simp [Fits, Sound]

theorem cleanup_frame (s : St) : (cleanup s).pc = s.pc ∧ (cleanup s).task = s.task ∧ (cleanup s).n = s.n ∧
    (cleanup s).pending = s.pending ∧ (cleanup s).unmounted = s.unmounted ∧ (cleanup s).cur = none ∧
    (∀ g, .began g ∈ (cleanup s).log ↔ .began g ∈ s.log) ∧ (∀ g o, .ended g o ∈ (cleanup s).log ↔ .ended g o ∈ s.log) ∧
    (∀ g, .clean g ∈ (cleanup s).log ↔ .clean g ∈ s.log ∨ s.cur = some g) := by
  simp only [cleanup]
  split
  · rename_i h; simp [h]
  · rename_i g h
    simp only [h]
    refine ⟨trivial, trivial, trivial, trivial, trivial, trivial, by simp, by simp, ?_⟩
    intro g'
    simp only [List.mem_cons, Ev.clean.injEq, Option.some.injEq]
    constructor
    · rintro (rfl | h)
      · exact .inr rfl
      · exact .inl h
    · rintro (h | rfl)
      · exact .inr h
      · exact .inl rfl

theorem cleanup_b {s : St} (h : B s) : B (cleanup s) := by
  obtain ⟨f1, f2, f3, f4, f5, f6, f7, f8, f9⟩ := cleanup_frame s
  constructor
  · rw [f1, f3]; exact h.absent
  · rw [f1, f2]; exact h.fits
  · intro g; rw [f7, f2]; exact h.began g
  · intro g o; rw [f8, f2]; exact h.ended g o
  · intro g hg; rw [f6] at hg; simp at hg
  · intro g hg
    rw [f1, f2]
    rcases (f9 g).1 hg with hg | hg
    · exact h.clean g hg
    · obtain ⟨a, b, _⟩ := h.cur g hg
      exact ⟨b, .inl a⟩
  · simp only [cleanup]
    split
    · exact h.sound
    · rename_i g hg
      obtain ⟨_, b, c⟩ := h.cur g hg
      exact ⟨(h.ended g _).2 b, c, h.sound⟩

theorem at_b {s : St} (h : B s) (g : Nat) (p : Pc) (hn : g < s.n) (hf : Fits p (s.task g))
    (hc : s.cur = some g → p = .stopWait) (hcl : .clean g ∈ s.log → p = .stopWait ∨ p = .finished) : B (s.at g p) := by
  constructor
  · intro g' hg'
    have hg'' : s.n ≤ g' := hg'
    show upd _ _ _ _ = _
    rw [upd_ne _ _ (by omega)]; exact h.absent g' hg''
  · intro g'
    show Fits (upd _ _ _ g') (s.task g')
    by_cases hg : g' = g
    · subst hg; rw [upd_self]; exact hf
    · rw [upd_ne _ _ hg]; exact h.fits g'
  · exact h.began
  · exact h.ended
  · intro g' hg'
    obtain ⟨a, b, c⟩ := h.cur g' hg'
    refine ⟨?_, b, c⟩
    show upd _ _ _ g' = _
    by_cases hg : g' = g
    · subst hg; rw [upd_self]; exact hc hg'
    · rw [upd_ne _ _ hg]; exact a
  · intro g' hg'
    obtain ⟨a, b⟩ := h.clean g' hg'
    refine ⟨a, ?_⟩
    show upd _ _ _ g' = _ ∨ upd _ _ _ g' = _
    by_cases hg : g' = g
    · subst hg; rw [upd_self]; exact hcl hg'
    · rw [upd_ne _ _ hg]; exact b
  · exact h.sound

/-- Changes of `pending` and `unmounted` do not matter. -/
theorem pending_b {s : St} (h : B s) (p : Option Nat) (u : Bool) : B { s with pending := p, unmounted := u } :=
  ⟨h.absent, h.fits, h.began, h.ended, h.cur, h.clean, h.sound⟩

theorem cancel_frame (s : St) (g : Nat) : (cancel s g).pc = s.pc ∧ (cancel s g).n = s.n ∧ (cancel s g).log = s.log ∧
    (cancel s g).cur = s.cur ∧ (cancel s g).pending = s.pending ∧ (cancel s g).unmounted = s.unmounted ∧
    (∀ h, (cancel s g).task h = .none ↔ s.task h = .none) ∧ (∀ h o, (cancel s g).task h = .done o ↔ s.task h = .done o) := by
  simp only [cancel]
  split
  · rename_i r hr
    refine ⟨rfl, rfl, rfl, rfl, rfl, rfl, ?_, ?_⟩
    · intro h
      show upd _ _ _ h = _ ↔ _
      by_cases hh : h = g
      · subst hh; rw [upd_self, hr]; simp
      · rw [upd_ne _ _ hh]
    · intro h o
      show upd _ _ _ h = _ ↔ _
      by_cases hh : h = g
      · subst hh; rw [upd_self, hr]; simp
      · rw [upd_ne _ _ hh]
  · simp

theorem fits_congr {p : Pc} {t t' : Task} (h1 : t' = .none ↔ t = .none) (h2 : ∀ o, t' = .done o ↔ t = .done o) (h : Fits p t) : Fits p t' := by
  cases p <;> simp only [Fits] at h ⊢
  · exact h1.2 h
  · exact h1.2 h
  · exact h1.2 h
  · exact fun hh => h (h1.1 hh)
  · obtain ⟨o, ho, hr⟩ := h; exact ⟨o, (h2 o).2 ho, hr⟩
  · exact fun hh => h (h1.1 hh)
  · rcases h with h | ⟨o, h⟩
    · exact .inl (h1.2 h)
    · exact .inr ⟨o, (h2 o).2 h⟩

theorem cancel_b {s : St} (h : B s) (g : Nat) : B (cancel s g) := by
  obtain ⟨f1, f2, f3, f4, f5, f6, f7, f8⟩ := cancel_frame s g
  constructor
  · rw [f1, f2]; exact h.absent
  · intro g'; rw [f1]; exact fits_congr (f7 g') (f8 g') (h.fits g')
  · intro g'; rw [f3]; rw [h.began g']; exact not_congr (f7 g').symm
  · intro g' o; rw [f3, f8]; exact h.ended g' o
  · intro g' hg'; rw [f4] at hg'
    obtain ⟨a, b, c⟩ := h.cur g' hg'
    exact ⟨by rw [f1]; exact a, (f8 _ _).2 b, by rw [f3]; exact c⟩
  · intro g' hg'; rw [f3] at hg'
    obtain ⟨a, b⟩ := h.clean g' hg'
    exact ⟨(f8 _ _).2 a, by rw [f1]; exact b⟩
  · rw [f3]; exact h.sound

theorem lt_of_pc {s : St} (h : B s) {g : Nat} (hp : s.pc g ≠ .absent) : g < s.n := by
  rcases Nat.lt_or_ge g s.n with h' | h'
  · exact h'
  · exact absurd (h.absent g h') hp

theorem launch_b {s : St} (h : B s) (g : Nat) (hn : g < s.n) (ht : s.task g = .none) : B (launch g s) := by
  have hb := cleanup_b h
  obtain ⟨f1, f2, f3, f4, f5, f6, f7, f8, f9⟩ := cleanup_frame s
  have hbeg : .began g ∉ (cleanup s).log := by rw [f7, h.began, ht]; simp
  have hncl : .clean g ∉ (cleanup s).log := by
    intro hm
    have := (hb.clean g hm).1
    rw [f2, ht] at this; simp at this
  simp only [launch]
  constructor
  · intro g' hg'
    have hg'' : (cleanup s).n ≤ g' := hg'
    show upd _ _ _ g' = _
    rw [upd_ne _ _ (by omega)]; exact hb.absent g' hg''
  · intro g'
    show Fits (upd _ _ _ g') (upd _ _ _ g')
    by_cases hg : g' = g
    · subst hg; rw [upd_self, upd_self]; simp [Fits]
    · rw [upd_ne _ _ hg, upd_ne _ _ hg]; exact hb.fits g'
  · intro g'
    show .began g' ∈ (Ev.began g :: (cleanup s).log) ↔ upd _ _ _ g' ≠ _
    by_cases hg : g' = g
    · subst hg; rw [upd_self]; simp
    · rw [upd_ne _ _ hg]; simp [hg, hb.began g']
  · intro g' o
    show .ended g' o ∈ (Ev.began g :: (cleanup s).log) ↔ upd _ _ _ g' = _
    by_cases hg : g' = g
    · subst hg; rw [upd_self]; simp [hb.ended, f2, ht]
    · rw [upd_ne _ _ hg]; simp [hb.ended g']
  · intro g' hg'
    have : (cleanup s).cur = some g' := hg'
    rw [f6] at this; simp at this
  · intro g' hg'
    have hg'' : .clean g' ∈ (cleanup s).log := by
      have : .clean g' ∈ (Ev.began g :: (cleanup s).log) := hg'
      simpa using this
    have hne : g' ≠ g := by rintro rfl; exact hncl hg''
    obtain ⟨a, b⟩ := hb.clean g' hg''
    refine ⟨?_, ?_⟩
    · show upd _ _ _ g' = _
      rw [upd_ne _ _ hne]; exact a
    · show upd _ _ _ g' = _ ∨ upd _ _ _ g' = _
      rw [upd_ne _ _ hne]; exact b
  · exact ⟨hbeg, hb.sound⟩

theorem store_b {s : St} (h : B s) (g : Nat) (out : Out) (hr : out ≠ .raised) (ht : s.task g = .done out)
    (hp : s.pc g = .waiting ∨ s.pc g = .awaitTask) : B ((store g out s).at g .stopWait) := by
  have hn : g < s.n := lt_of_pc h (by rcases hp with hp | hp <;> rw [hp] <;> simp)
  have hncl : .clean g ∉ s.log := by
    intro hm
    have := (h.clean g hm).2
    rcases hp with hp | hp <;> rw [hp] at this <;> simp at this
  have hbase : B (s.at g .stopWait) := at_b h g _ hn ⟨out, ht, hr⟩ (fun _ => rfl) (fun _ => .inl rfl)
  cases out with
  | raised => exact absurd rfl hr
  | cancelled => exact hbase
  | returned gave =>
    cases gave with
    | false =>
      refine ⟨hbase.absent, hbase.fits, hbase.began, hbase.ended, ?_, hbase.clean, hbase.sound⟩
      intro g' hg'; simp [store, St.at] at hg'
    | true =>
      refine ⟨hbase.absent, hbase.fits, hbase.began, hbase.ended, ?_, hbase.clean, hbase.sound⟩
      intro g' hg'
      simp [store, St.at] at hg'
      subst hg'
      exact ⟨upd_self _ _ _, ht, hncl⟩

theorem cleanup_at (s : St) (g : Nat) (p : Pc) : cleanup (s.at g p) = (cleanup s).at g p := by
  simp only [cleanup, St.at]
  split <;> rfl

theorem at_at (s : St) (g : Nat) (p q : Pc) : (s.at g p).at g q = s.at g q := by
  simp only [St.at]
  congr 1
  funext x; simp only [upd]; split <;> rfl

theorem afterPrev_b {s : St} (h : B s) (g p : Nat) (out : Out) (hn : g < s.n) (ht : s.task g = .none) :
    B (afterPrev g p out s) := by
  have hncl : .clean g ∉ s.log := by
    intro hm
    have := (h.clean g hm).1
    rw [ht] at this; simp at this
  have hncur : s.cur ≠ some g := by
    intro hm
    have := (h.cur g hm).2.1
    rw [ht] at this; simp at this
  cases out with
  | raised =>
    exact at_b h g _ hn (.inl ht) (fun hc => absurd hc hncur) (fun hc => absurd hc hncl)
  | returned b =>
    simp only [afterPrev]
    split
    · exact launch_b (pending_b h _ _) g hn ht
    · exact launch_b h g hn ht
  | cancelled =>
    simp only [afterPrev]
    split
    · exact launch_b (pending_b h _ _) g hn ht
    · exact launch_b h g hn ht

theorem resume_b (shield : Bool) {s : St} (h : B s) (g : Nat) : B (resume shield g s) := by
  have hfit := h.fits g
  have hclean : ∀ p, s.pc g = p → p ≠ .stopWait → p ≠ .finished → .clean g ∉ s.log := by
    intro p hp h1 h2 hm
    have := (h.clean g hm).2
    rw [hp] at this
    rcases this with h' | h'
    · exact h1 h'
    · exact h2 h'
  have hcur : ∀ p, s.pc g = p → p ≠ .stopWait → s.cur ≠ some g := by
    intro p hp h1 hm
    have := (h.cur g hm).1
    rw [hp] at this; exact h1 this
  simp only [resume]
  split
  · rename_i hp
    rw [hp] at hfit
    have hn := lt_of_pc h (g := g) (by rw [hp]; simp)
    have ht : s.task g = .none := hfit
    split
    · exact launch_b h g hn ht
    · rename_i p _
      have hs : B (if shield then s else cancel s p) := by split; exact h; exact cancel_b h p
      have hfr : (if shield then s else cancel s p).n = s.n ∧ ((if shield then s else cancel s p).task g = .none) ∧
          (if shield then s else cancel s p).cur = s.cur ∧ (if shield then s else cancel s p).log = s.log := by
        split
        · exact ⟨rfl, ht, rfl, rfl⟩
        · obtain ⟨f1, f2, f3, f4, f5, f6, f7, f8⟩ := cancel_frame s p
          exact ⟨f2, (f7 g).2 ht, f4, f3⟩
      generalize (if shield then s else cancel s p) = s' at *
      obtain ⟨e1, e2, e3, e4⟩ := hfr
      split
      · exact afterPrev_b hs g p _ (by omega) e2
      · refine at_b hs g _ (by omega) e2 ?_ ?_
        · intro hc; rw [e3] at hc; exact absurd hc (hcur _ hp (by simp))
        · intro hc; rw [e4] at hc; exact absurd hc (hclean _ hp (by simp) (by simp))
  · rename_i p hp
    rw [hp] at hfit
    have hn := lt_of_pc h (g := g) (by rw [hp]; simp)
    split
    · exact afterPrev_b h g p _ hn hfit
    · exact h
  · rename_i hp
    have hn := lt_of_pc h (g := g) (by rw [hp]; simp)
    split
    · rename_i ht
      refine at_b (pending_b h none s.unmounted) g _ hn (.inr ⟨_, ht⟩) ?_ ?_
      · intro hc; exact absurd hc (hcur _ hp (by simp))
      · intro _; exact .inr rfl
    · rename_i out hne ht
      exact store_b (pending_b h none s.unmounted) g out (fun hh => hne (by rw [hh])) ht (.inl hp)
    · split
      · have hs : B (if shield then s else cancel s g) := by split; exact h; exact cancel_b h g
        rw [hp] at hfit
        have hfr : (if shield then s else cancel s g).n = s.n ∧ ((if shield then s else cancel s g).task g ≠ .none) ∧
            (if shield then s else cancel s g).cur = s.cur ∧ (if shield then s else cancel s g).log = s.log := by
          split
          · exact ⟨rfl, hfit, rfl, rfl⟩
          · obtain ⟨f1, f2, f3, f4, f5, f6, f7, f8⟩ := cancel_frame s g
            exact ⟨f2, fun hh => hfit ((f7 g).1 hh), f4, f3⟩
        generalize (if shield then s else cancel s g) = s' at *
        obtain ⟨e1, e2, e3, e4⟩ := hfr
        refine at_b hs g _ (by omega) e2 ?_ ?_
        · intro hc; rw [e3] at hc; exact absurd hc (hcur _ hp (by simp))
        · intro hc; rw [e4] at hc; exact absurd hc (hclean _ hp (by simp) (by simp))
      · exact h
  · rename_i hp
    have hn := lt_of_pc h (g := g) (by rw [hp]; simp)
    rw [hp] at hfit
    split
    · obtain ⟨f1, f2, f3, f4, f5, f6, f7, f8, f9⟩ := cleanup_frame s
      refine at_b (cleanup_b h) g _ (by omega) ?_ (by intro hc; rw [f6] at hc; simp at hc) (fun _ => .inr rfl)
      rw [f2]
      obtain ⟨o, ho, _⟩ := hfit
      exact .inr ⟨o, ho⟩
    · exact h
  · rename_i hp
    have hn := lt_of_pc h (g := g) (by rw [hp]; simp)
    split
    · rename_i ht
      refine at_b h g _ hn (.inr ⟨_, ht⟩) ?_ (fun _ => .inr rfl)
      intro hc; exact absurd hc (hcur _ hp (by simp))
    · rename_i out hne ht
      have h1 := store_b h g out (fun hh => hne (by rw [hh])) ht (.inr hp)
      have hst : (store g out s).task = s.task ∧ (store g out s).n = s.n := by
        cases out <;> exact ⟨rfl, rfl⟩
      have key : ∀ s' : St, B (s'.at g .stopWait) → s'.n = s.n → s'.task = s.task → B ((cleanup s').at g .finished) := by
        intro s' h2 e1 e2
        have h3 := cleanup_b h2
        rw [cleanup_at] at h3
        rw [← at_at _ g .stopWait .finished]
        obtain ⟨f1, f2, f3, f4, f5, f6, f7, f8, f9⟩ := cleanup_frame s'
        refine at_b h3 g _ (by show g < (cleanup s').n; omega) ?_ ?_ (fun _ => .inr rfl)
        · show Fits _ ((cleanup s').task g)
          rw [f2, e2, ht]; exact .inr ⟨_, rfl⟩
        · intro hc
          have : (cleanup s').cur = some g := hc
          rw [f6] at this; simp at this
      apply key
      · split
        · exact pending_b h1 none _
        · exact h1
      · split <;> exact hst.2
      · split <;> exact hst.1
    · exact h
  · exact h

theorem step_b (shield : Bool) {s : St} (h : B s) (a : Act) : B (step shield s a) := by
  cases a with
  | unmount => exact pending_b h _ _
  | run g => exact resume_b shield h g
  | schedule =>
    simp only [step]
    split
    · exact h
    · have hn := h.absent s.n (Nat.le_refl _)
      have hfit := h.fits s.n
      rw [hn] at hfit
      constructor
      · intro g hg
        have hg' : s.n + 1 ≤ g := hg
        show upd _ _ _ g = _
        rw [upd_ne _ _ (by omega)]; exact h.absent g (by omega)
      · intro g
        show Fits (upd _ _ _ g) (s.task g)
        by_cases hg : g = s.n
        · subst hg; rw [upd_self]; exact hfit
        · rw [upd_ne _ _ hg]; exact h.fits g
      · exact h.began
      · exact h.ended
      · intro g hg
        obtain ⟨a, b, c⟩ := h.cur g hg
        refine ⟨?_, b, c⟩
        show upd _ _ _ g = _
        rw [upd_ne _ _ (by rintro rfl; rw [hn] at a; simp at a)]; exact a
      · intro g hg
        obtain ⟨a, b⟩ := h.clean g hg
        refine ⟨a, ?_⟩
        show upd _ _ _ g = _ ∨ upd _ _ _ g = _
        rw [upd_ne _ _ (by rintro rfl; rw [hn] at b; simp at b)]; exact b
      · exact h.sound
  | finish g out =>
    simp only [step]
    split
    · rename_i req ht
      split
      · exact h
      · have hbeg := (h.began g).2 (by rw [ht]; simp)
        have hnend : ∀ o, .ended g o ∉ s.log := by
          intro o hm; rw [h.ended, ht] at hm; simp at hm
        have hpc : s.pc g = .waiting ∨ s.pc g = .awaitTask := by
          have := h.fits g
          rw [ht] at this
          cases hp : s.pc g <;> rw [hp] at this <;> simp [Fits] at this <;> simp
        constructor
        · exact h.absent
        · intro g'
          show Fits (s.pc g') (upd _ _ _ g')
          by_cases hg : g' = g
          · subst hg; rw [upd_self]
            rcases hpc with hpc | hpc <;> rw [hpc] <;> simp [Fits]
          · rw [upd_ne _ _ hg]; exact h.fits g'
        · intro g'
          show .began g' ∈ (Ev.ended g out :: s.log) ↔ upd _ _ _ g' ≠ _
          by_cases hg : g' = g
          · subst hg; rw [upd_self]; simp [hbeg]
          · rw [upd_ne _ _ hg]; simp [h.began g']
        · intro g' o
          show .ended g' o ∈ (Ev.ended g out :: s.log) ↔ upd _ _ _ g' = _
          by_cases hg : g' = g
          · subst hg; rw [upd_self]; simp [hnend]; exact ⟨fun h => h.symm, fun h => h.symm⟩
          · rw [upd_ne _ _ hg]; simp [hg, h.ended g']
        · intro g' hg'
          obtain ⟨a, b, c⟩ := h.cur g' hg'
          have hne : g' ≠ g := by rintro rfl; rw [ht] at b; simp at b
          refine ⟨a, ?_, ?_⟩
          · show upd _ _ _ g' = _
            rw [upd_ne _ _ hne]; exact b
          · show .clean g' ∉ (Ev.ended g out :: s.log)
            simpa using c
        · intro g' hg'
          have hg'' : .clean g' ∈ s.log := by
            have : .clean g' ∈ (Ev.ended g out :: s.log) := hg'
            simpa using this
          obtain ⟨a, b⟩ := h.clean g' hg''
          have hne : g' ≠ g := by rintro rfl; rw [ht] at a; simp at a
          refine ⟨?_, b⟩
          show upd _ _ _ g' = _
          rw [upd_ne _ _ hne]; exact a
        · exact ⟨hbeg, hnend, h.sound⟩
    · exact h

theorem run_b (shield : Bool) (acts : List Act) {s : St} (h : B s) : B (run shield acts s) := by
  induction acts generalizing s with
  | nil => exact h
  | cons a acts ih => exact ih (step_b shield h a)

/-! Orderly schedules -/

def Active : Pc → Prop
  | .waiting => True
  | .awaitTask => True
  | _ => False

instance (p : Pc) : Decidable (Active p) := by cases p <;> simp only [Active] <;> infer_instance

/-- A schedule in which an effect task only begins while no earlier generation is in the middle: its
coroutine has ended and its result has been stored. -/
def Orderly (shield : Bool) : St → List Act → Prop
  | _, [] => True
  | s, a :: acts => (∀ g, a = .run g → s.pc g = .created → ∀ h, ¬ Active (s.pc h)) ∧ Orderly shield (step shield s a) acts

structure O (s : St) : Prop where
  b : B s
  noPrev : ∀ g p, s.pc g ≠ .awaitPrev p
  one : ∀ g h, Active (s.pc g) → Active (s.pc h) → g = h
  idle : ∀ g, Active (s.pc g) → s.cur = none
  open_ : ∀ g, s.task g = .done (.returned true) → .clean g ∈ s.log ∨ s.cur = some g ∨ Active (s.pc g)
  pend : ∀ p, s.pending = some p → Active (s.pc p) ∨ s.task p = .done .raised
  proper : Proper s.log

theorem o_init : O {} := by
  refine ⟨b_init, ?_, ?_, ?_, ?_, ?_, ?_⟩ <;> simp [Proper, Active]

theorem cleanup_proper {s : St} (h : B s) (hp : Proper s.log) : Proper (cleanup s).log := by
  simp only [cleanup]
  split
  · exact hp
  · rename_i g hg
    obtain ⟨_, b, c⟩ := h.cur g hg
    exact ⟨(h.ended g _).2 b, c, hp⟩

theorem launch_o {s : St} (h : O s) (g : Nat) (hpc : s.pc g = .created) (hna : ∀ h, ¬ Active (s.pc h)) (pe : Option Nat) :
    O (launch g { s with pending := pe }) := by
  have hfit := h.b.fits g
  rw [hpc] at hfit
  have ht : s.task g = .none := hfit
  have hn := lt_of_pc h.b (g := g) (by rw [hpc]; simp)
  have hB : B { s with pending := pe } := pending_b h.b pe s.unmounted
  obtain ⟨f1, f2, f3, f4, f5, f6, f7, f8, f9⟩ := cleanup_frame { s with pending := pe }
  have hcl := cleanup_b hB
  have hlb := launch_b hB g hn ht
  have hcleaned : ∀ x, .ended x (.returned true) ∈ (cleanup { s with pending := pe }).log → .clean x ∈ (cleanup { s with pending := pe }).log := by
    intro x hx
    rw [f8] at hx
    rw [f9]
    have := (h.b.ended x _).1 hx
    rcases h.open_ x this with h1 | h1 | h1
    · exact .inl h1
    · exact .inr h1
    · exact absurd h1 (hna x)
  refine ⟨hlb, ?_, ?_, ?_, ?_, ?_, ?_⟩
  · intro g' p
    show upd _ _ _ g' ≠ _
    by_cases hg : g' = g
    · subst hg; rw [upd_self]; simp
    · rw [upd_ne _ _ hg]
      show (cleanup { s with pending := pe }).pc g' ≠ _
      rw [f1]; exact h.noPrev g' p
  · intro a b ha hb
    have key : ∀ x, Active ((launch g { s with pending := pe }).pc x) → x = g := by
      intro x hx
      have hx' : Active (upd (cleanup { s with pending := pe }).pc g .waiting x) := hx
      by_cases hg : x = g
      · exact hg
      · rw [upd_ne _ _ hg, f1] at hx'; exact absurd hx' (hna x)
    rw [key a ha, key b hb]
  · intro a _; exact f6
  · intro x hx
    have hx' : upd (cleanup { s with pending := pe }).task g (.running false) x = .done (.returned true) := hx
    by_cases hg : x = g
    · subst hg; rw [upd_self] at hx'; simp at hx'
    · rw [upd_ne _ _ hg] at hx'
      left
      show .clean x ∈ (Ev.began g :: (cleanup { s with pending := pe }).log)
      exact List.mem_cons_of_mem _ (hcleaned x ((hcl.ended x _).2 hx'))
  · intro p hp
    have hp' : some g = some p := hp
    cases hp'
    left
    show Active (upd _ _ _ g)
    rw [upd_self]; trivial
  · show Proper (Ev.began g :: (cleanup { s with pending := pe }).log)
    refine ⟨?_, ?_, hcleaned, cleanup_proper hB h.proper⟩
    · rw [f7]
      have := h.b.began g
      rw [ht] at this
      simpa using this
    · intro x hx
      have htx := (hcl.began x).1 hx
      rw [f2] at htx
      have hfx := h.b.fits x
      have hnx := hna x
      have : ∃ o, s.task x = .done o := by
        cases hpx : s.pc x <;> rw [hpx] at hfx hnx <;> simp only [Fits, Active] at hfx hnx
        · exact absurd hfx htx
        · exact absurd hfx htx
        · exact absurd hfx htx
        · simp at hnx
        · obtain ⟨o, ho, _⟩ := hfx; exact ⟨o, ho⟩
        · simp at hnx
        · rcases hfx with hfx | hfx
          · exact absurd hfx htx
          · exact hfx
      obtain ⟨o, ho⟩ := this
      exact ⟨o, (hcl.ended x o).2 (by rw [f2]; exact ho)⟩

/-- Moving one generation to a point that is not in the middle. -/
theorem at_o {s : St} (h : O s) (g : Nat) (p : Pc) (hb : B (s.at g p)) (hp : ∀ q, p ≠ .awaitPrev q)
    (ha : Active p → Active (s.pc g)) (ho : ¬ Active p → Active (s.pc g) → s.task g ≠ .done (.returned true))
    (hpe : ¬ Active p → s.pending ≠ some g ∨ s.task g = .done .raised) : O (s.at g p) := by
  have hact : ∀ x, Active ((s.at g p).pc x) → Active (s.pc x) := by
    intro x hx
    have hx' : Active (upd s.pc g p x) := hx
    by_cases hg : x = g
    · subst hg; rw [upd_self] at hx'; exact ha hx'
    · rw [upd_ne _ _ hg] at hx'; exact hx'
  refine ⟨hb, ?_, ?_, ?_, ?_, ?_, h.proper⟩
  · intro x q
    show upd _ _ _ x ≠ _
    by_cases hg : x = g
    · subst hg; rw [upd_self]; exact hp q
    · rw [upd_ne _ _ hg]; exact h.noPrev x q
  · intro a b h1 h2; exact h.one a b (hact a h1) (hact b h2)
  · intro a h1; exact h.idle a (hact a h1)
  · intro x hx
    rcases h.open_ x hx with h1 | h1 | h1
    · exact .inl h1
    · exact .inr (.inl h1)
    · right; right
      show Active (upd _ _ _ x)
      by_cases hg : x = g
      · subst hg; rw [upd_self]
        by_cases hap : Active p
        · exact hap
        · exact absurd hx (ho hap h1)
      · rw [upd_ne _ _ hg]; exact h1
  · intro x hx
    by_cases hg : x = g
    · subst hg
      by_cases hap : Active p
      · left; show Active (upd _ _ _ x); rw [upd_self]; exact hap
      · rcases hpe hap with h1 | h1
        · exact absurd hx h1
        · exact .inr h1
    · rcases h.pend x hx with h1 | h1
      · left; show Active (upd _ _ _ x); rw [upd_ne _ _ hg]; exact h1
      · exact .inr h1

theorem pendNone_o {s : St} (h : O s) : O { s with pending := none } :=
  ⟨pending_b h.b none s.unmounted, h.noPrev, h.one, h.idle, h.open_, by intro p hp; simp at hp, h.proper⟩

theorem cancel_o {s : St} (h : O s) (g : Nat) : O (cancel s g) := by
  obtain ⟨f1, f2, f3, f4, f5, f6, f7, f8⟩ := cancel_frame s g
  refine ⟨cancel_b h.b g, ?_, ?_, ?_, ?_, ?_, ?_⟩
  · rw [f1]; exact h.noPrev
  · rw [f1]; exact h.one
  · rw [f1, f4]; exact h.idle
  · intro x hx; rw [f1, f3, f4]; exact h.open_ x ((f8 _ _).1 hx)
  · intro p hp; rw [f5] at hp; rw [f1, f8]; exact h.pend p hp
  · rw [f3]; exact h.proper

theorem cleanup_o {s : St} (h : O s) : O (cleanup s) := by
  obtain ⟨f1, f2, f3, f4, f5, f6, f7, f8, f9⟩ := cleanup_frame s
  refine ⟨cleanup_b h.b, ?_, ?_, ?_, ?_, ?_, cleanup_proper h.b h.proper⟩
  · rw [f1]; exact h.noPrev
  · rw [f1]; exact h.one
  · intro g _; exact f6
  · intro x hx
    rw [f2] at hx
    rw [f1, f9]
    rcases h.open_ x hx with h1 | h1 | h1
    · exact .inl (.inl h1)
    · exact .inl (.inr h1)
    · exact .inr (.inr h1)
  · intro p hp; rw [f4] at hp; rw [f1, f2]; exact h.pend p hp

/-- Storing the result of the generation that is in the middle. -/
theorem store_o {s : St} (h : O s) (g : Nat) (out : Out) (hr : out ≠ .raised) (ht : s.task g = .done out)
    (hp : s.pc g = .waiting ∨ s.pc g = .awaitTask) (hpe : s.pending ≠ some g) : O ((store g out s).at g .stopWait) := by
  have hag : Active (s.pc g) := by rcases hp with hp | hp <;> rw [hp] <;> trivial
  have hcn := h.idle g hag
  have hB := store_b h.b g out hr ht hp
  have hfr : (store g out s).pc = s.pc ∧ (store g out s).task = s.task ∧ (store g out s).log = s.log ∧ (store g out s).pending = s.pending ∧
      (out ≠ .returned true → (store g out s).cur = none) ∧ (out = .returned true → (store g out s).cur = some g) := by
    cases out with
    | raised => exact absurd rfl hr
    | cancelled => exact ⟨rfl, rfl, rfl, rfl, fun _ => hcn, by simp⟩
    | returned gave => cases gave <;> simp [store]
  obtain ⟨e1, e2, e3, e4, e5, e6⟩ := hfr
  have hact : ∀ x, ¬ Active (((store g out s).at g .stopWait).pc x) := by
    intro x hx
    have hx' : Active (upd (store g out s).pc g .stopWait x) := hx
    by_cases hg : x = g
    · subst hg; rw [upd_self] at hx'; exact hx'
    · rw [upd_ne _ _ hg, e1] at hx'; exact hg (h.one x g hx' hag)
  refine ⟨hB, ?_, ?_, ?_, ?_, ?_, ?_⟩
  · intro x q
    show upd _ _ _ x ≠ _
    by_cases hg : x = g
    · subst hg; rw [upd_self]; simp
    · rw [upd_ne _ _ hg, e1]; exact h.noPrev x q
  · intro a b ha; exact absurd ha (hact a)
  · intro a ha; exact absurd ha (hact a)
  · intro x hx
    have hx' : (store g out s).task x = .done (.returned true) := hx
    rw [e2] at hx'
    by_cases hg : x = g
    · subst hg
      rw [ht] at hx'
      have : out = .returned true := by simpa using hx'
      exact .inr (.inl (e6 this))
    · rcases h.open_ x hx' with h1 | h1 | h1
      · left; show .clean x ∈ (store g out s).log; rw [e3]; exact h1
      · rw [hcn] at h1; simp at h1
      · exact absurd (h.one x g h1 hag) hg
  · intro p hp'
    have hp'' : (store g out s).pending = some p := hp'
    rw [e4] at hp''
    rcases h.pend p hp'' with h1 | h1
    · exact absurd hp'' (by rw [h.one p g h1 hag]; exact hpe)
    · right; show (store g out s).task p = _; rw [e2]; exact h1
  · show Proper (store g out s).log
    rw [e3]; exact h.proper

theorem resume_o (shield : Bool) {s : St} (h : O s) (g : Nat)
    (hna : s.pc g = .created → ∀ x, ¬ Active (s.pc x)) : O (resume shield g s) := by
  have hB := resume_b shield h.b g
  have hone : ∀ p, s.pc g = p → Active p → ∀ q, s.pending = some q → q = g ∨ s.task q = .done .raised := by
    intro p hp ha q hq
    rcases h.pend q hq with h1 | h1
    · exact .inl (h.one q g h1 (by rw [hp]; exact ha))
    · exact .inr h1
  simp only [resume] at hB ⊢
  split at hB
  · rename_i hp
    have hna := hna hp
    cases hpe : s.pending with
    | none =>
      simp only
      have := launch_o h g hp hna none
      rw [← hpe] at this
      exact this
    | some p =>
      have hr : s.task p = .done .raised := by
        rcases h.pend p hpe with h1 | h1
        · exact absurd h1 (hna p)
        · exact h1
      have hs : O (if shield then s else cancel s p) := by split; exact h; exact cancel_o h p
      have hfr : (if shield then s else cancel s p).pc = s.pc ∧ ((if shield then s else cancel s p).task p = .done .raised) ∧
          (if shield then s else cancel s p).pending = s.pending := by
        split
        · exact ⟨rfl, hr, rfl⟩
        · obtain ⟨f1, f2, f3, f4, f5, f6, f7, f8⟩ := cancel_frame s p
          exact ⟨f1, (f8 _ _).2 hr, f5⟩
      simp only [hpe, hfr.2.1, afterPrev] at hB ⊢
      generalize (if shield then s else cancel s p) = s' at *
      obtain ⟨e1, e2, e3⟩ := hfr
      have hne : p ≠ g := by
        rintro rfl
        have := h.b.fits p
        rw [hp, hr] at this; simp [Fits] at this
      refine at_o hs g _ hB (by simp) (by simp [Active]) ?_ ?_
      · intro _ ha; rw [e1] at ha; exact absurd ha (hna g)
      · intro _; left; rw [e3, hpe]; simpa using hne
  · rename_i p hp
    exact absurd hp (h.noPrev g p)
  · rename_i hp
    split at hB
    · rename_i ht
      refine at_o (pendNone_o h) g _ hB (by simp) (by simp [Active]) ?_ ?_
      · intro _ _ hh; rw [ht] at hh; simp at hh
      · intro _; left; simp
    · rename_i out hne ht
      have hor : out ≠ .raised := fun hh => hne (by rw [hh])
      have := store_o (pendNone_o h) g out hor ht (.inl hp) (by simp)
      exact this
    · by_cases hu : s.unmounted = true
      · rw [if_pos hu] at hB ⊢
        have hs : O (if shield then s else cancel s g) := by split; exact h; exact cancel_o h g
        have hpc : (if shield then s else cancel s g).pc = s.pc := by
          split
          · rfl
          · exact (cancel_frame s g).1
        refine at_o hs g _ hB (by simp) ?_ ?_ ?_
        · intro _; rw [hpc, hp]; trivial
        · intro hh; exact absurd trivial hh
        · intro hh; exact absurd trivial hh
      · rw [if_neg hu]; exact h
  · rename_i hp
    by_cases hu : s.unmounted = true
    · rw [if_pos hu] at hB ⊢
      obtain ⟨f1, f2, f3, f4, f5, f6, f7, f8, f9⟩ := cleanup_frame s
      refine at_o (cleanup_o h) g _ hB (by simp) (by simp [Active]) ?_ ?_
      · intro _ ha; rw [f1, hp] at ha; exact ha.elim
      · intro _
        left
        rw [f4]
        intro hh
        rcases h.pend g hh with h1 | h1
        · rw [hp] at h1; exact h1
        · have := h.b.fits g
          rw [hp, h1] at this
          obtain ⟨o, ho, hr⟩ := this
          cases ho; exact hr rfl
    · rw [if_neg hu]; exact h
  · rename_i hp
    split at hB
    · rename_i ht
      refine at_o h g _ hB (by simp) (by simp [Active]) ?_ ?_
      · intro _ _ hh; rw [ht] at hh; simp at hh
      · intro _; right; exact ht
    · rename_i out hne ht
      have hor : out ≠ .raised := fun hh => hne (by rw [hh])
      have hstp : (store g out s).pending = s.pending := by cases out <;> rfl
      have h2 : O ((if (store g out s).pending = some g then { store g out s with pending := none } else store g out s).at g .stopWait) := by
        by_cases hpe : s.pending = some g
        · have := store_o (pendNone_o h) g out hor ht (.inr hp) (by simp)
          rw [if_pos (by rw [hstp]; exact hpe)]
          have e : store g out { s with pending := none } = { store g out s with pending := none } := by cases out <;> rfl
          rw [e] at this; exact this
        · rw [if_neg (by rw [hstp]; exact hpe)]
          exact store_o h g out hor ht (.inr hp) hpe
      have hpe2 : (if (store g out s).pending = some g then { store g out s with pending := none } else store g out s).pending ≠ some g := by
        split
        · simp
        · assumption
      generalize (if (store g out s).pending = some g then { store g out s with pending := none } else store g out s) = s' at *
      have h3 := cleanup_o h2
      rw [cleanup_at] at h3
      rw [← at_at _ g .stopWait .finished] at hB ⊢
      refine at_o h3 g _ hB (by simp) (by simp [Active]) ?_ ?_
      · intro _ ha
        have ha' : Active (upd (cleanup s').pc g .stopWait g) := ha
        rw [upd_self] at ha'; exact ha'.elim
      · intro _; left
        show (cleanup s').pending ≠ some g
        rw [(cleanup_frame s').2.2.2.1]; exact hpe2
    · exact h
  · exact h

theorem step_o (shield : Bool) {s : St} (h : O s) (a : Act)
    (ha : ∀ g, a = .run g → s.pc g = .created → ∀ x, ¬ Active (s.pc x)) : O (step shield s a) := by
  have hB := step_b shield h.b a
  cases a with
  | unmount => exact ⟨hB, h.noPrev, h.one, h.idle, h.open_, h.pend, h.proper⟩
  | run g => exact resume_o shield h g (ha g rfl)
  | schedule =>
    simp only [step] at hB ⊢
    split
    · exact h
    · rename_i hu
      rw [if_neg hu] at hB
      have hn := h.b.absent s.n (Nat.le_refl _)
      have hfit := h.b.fits s.n
      rw [hn] at hfit
      have hact : ∀ x, Active (upd s.pc s.n .created x) ↔ Active (s.pc x) := by
        intro x
        by_cases hg : x = s.n
        · subst hg; rw [upd_self, hn]; simp [Active]
        · rw [upd_ne _ _ hg]
      refine ⟨hB, ?_, ?_, ?_, ?_, ?_, h.proper⟩
      · intro x p
        show upd _ _ _ x ≠ _
        by_cases hg : x = s.n
        · subst hg; rw [upd_self]; simp
        · rw [upd_ne _ _ hg]; exact h.noPrev x p
      · intro a b h1 h2; exact h.one a b ((hact a).1 h1) ((hact b).1 h2)
      · intro a h1; exact h.idle a ((hact a).1 h1)
      · intro x hx
        rcases h.open_ x hx with h1 | h1 | h1
        · exact .inl h1
        · exact .inr (.inl h1)
        · exact .inr (.inr ((hact x).2 h1))
      · intro p hp
        rcases h.pend p hp with h1 | h1
        · exact .inl ((hact p).2 h1)
        · exact .inr h1
  | finish g out =>
    simp only [step] at hB ⊢
    split
    · rename_i req ht
      simp only [ht] at hB
      split
      · exact h
      · rename_i hc
        rw [if_neg hc] at hB
        have hnend : ∀ o, .ended g o ∉ s.log := by
          intro o hm; rw [h.b.ended, ht] at hm; simp at hm
        have hag : Active (s.pc g) := by
          have := h.b.fits g
          rw [ht] at this
          cases hp : s.pc g <;> rw [hp] at this <;> simp [Fits] at this <;> simp [Active]
        refine ⟨hB, h.noPrev, h.one, h.idle, ?_, ?_, ?_⟩
        · intro x hx
          have hx' : upd s.task g (.done out) x = .done (.returned true) := hx
          by_cases hg : x = g
          · subst hg; exact .inr (.inr hag)
          · rw [upd_ne _ _ hg] at hx'
            rcases h.open_ x hx' with h1 | h1 | h1
            · left; show .clean x ∈ (Ev.ended g out :: s.log); exact List.mem_cons_of_mem _ h1
            · exact .inr (.inl h1)
            · exact .inr (.inr h1)
        · intro p hp
          rcases h.pend p hp with h1 | h1
          · exact .inl h1
          · right
            show upd s.task g (.done out) p = _
            by_cases hg : p = g
            · subst hg; rw [ht] at h1; simp at h1
            · rw [upd_ne _ _ hg]; exact h1
        · exact ⟨(h.b.began g).2 (by rw [ht]; simp), hnend, h.proper⟩
    · exact h

theorem run_o (shield : Bool) (acts : List Act) {s : St} (h : O s) (ho : Orderly shield s acts) : O (run shield acts s) := by
  induction acts generalizing s with
  | nil => exact h
  | cons a acts ih => exact ih (step_o shield h a ho.1) ho.2

end Async
end Verif.Effects
