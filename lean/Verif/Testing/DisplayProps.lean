import Verif.Testing.Display
/-! # `DisplayFixture`: property C111 -/
namespace Verif.Testing.Display

/-! ### Specification -/

/-- What was opened, newest first. -/
def openings : List Ev → List Thing
  | [] => []
  | .opened t :: l => t :: openings l
  | _ :: l => openings l

/-- What was closed, newest first. -/
def closings : List Ev → List Thing
  | [] => []
  | .closed t :: l => t :: closings l
  | _ :: l => closings l

/-- The number of a thing. -/
def Thing.number : Thing → Nat
  | .playwright n => n
  | .browser n => n
  | .page n => n
  | .backend n => n

/-- Numbers that were not given yet are larger than those of what is open. -/
def World.Fresh (w : World) : Prop := ∀ t ∈ w.isOpen, t.number < w.next

theorem openings_append (a b : List Ev) : openings (a ++ b) = openings a ++ openings b := by
  induction a with
  | nil => rfl
  | cons e a ih => cases e <;> simp [openings, ih]
theorem closings_append (a b : List Ev) : closings (a ++ b) = closings a ++ closings b := by
  induction a with
  | nil => rfl
  | cons e a ih => cases e <;> simp [closings, ih]

/-- Inside a block that began in world `w₀`: the stack holds what was opened since, which is open, and nothing was closed. -/
structure Inside (w₀ : World) (s : Fixture × World) : Prop where
  isOpen : s.2.isOpen = s.1.stack ++ w₀.isOpen
  nodup : s.1.stack.Nodup
  fresh : ∀ t ∈ s.2.isOpen, t.number < s.2.next
  new : ∀ t ∈ s.1.stack, w₀.next ≤ t.number
  le : w₀.next ≤ s.2.next
  log : ∃ l, s.2.log = l ++ w₀.log ∧ openings l = s.1.stack ∧ closings l = []

theorem inside_open {w₀ s} {t : Thing} (h : Inside w₀ s) (ht : t.number = s.2.next) : Inside w₀ (openIt t s) := by
  obtain ⟨l, h1, h2, h3⟩ := h.log
  refine ⟨by simp [openIt, h.isOpen], ?_, ?_, ?_, by have := h.le; simp [openIt]; omega, .opened t :: l, by simp [openIt, h1], by simp [openIt, openings, h2], by simp [closings, h3]⟩
  · simp only [openIt, List.nodup_cons]
    refine ⟨fun hm => ?_, h.nodup⟩
    have := h.fresh t (by rw [h.isOpen]; simp [hm])
    omega
  · intro u hu
    simp only [openIt, List.mem_cons] at hu ⊢
    rcases hu with rfl | hu
    · omega
    · have := h.fresh u hu; omega
  · intro u hu
    simp only [openIt, List.mem_cons] at hu
    rcases hu with rfl | hu
    · have := h.le; omega
    · exact h.new u hu

theorem inside_congr {w₀ s s'} (h : Inside w₀ s) (h1 : s'.1.stack = s.1.stack) (h2 : s'.2.isOpen = s.2.isOpen) (h3 : s.2.next ≤ s'.2.next)
    (h4 : ∃ l, s'.2.log = l ++ s.2.log ∧ openings l = [] ∧ closings l = []) : Inside w₀ s' := by
  obtain ⟨l, a, b, c⟩ := h4
  obtain ⟨l', a', b', c'⟩ := h.log
  refine ⟨by rw [h1, h2, h.isOpen], by rw [h1]; exact h.nodup, ?_, by rw [h1]; exact h.new, Nat.le_trans h.le h3, l ++ l', by rw [a, a', List.append_assoc], ?_, ?_⟩
  · rw [h2]; intro t ht; have := h.fresh t ht; omega
  · rw [openings_append, b, b', h1]; rfl
  · rw [closings_append, c, c']; rfl

theorem inside_page {w₀ s f} (h : Inside w₀ s) : Inside w₀ (configurePage f s).1 := by
  unfold configurePage
  split
  · exact h
  · split
    · exact h
    · split
      · exact h
      · exact inside_congr (inside_open h (t := .page s.2.next) rfl) rfl rfl (Nat.le_refl _) ⟨[], rfl, rfl, rfl⟩

theorem inside_browser {w₀ s f v} (h : Inside w₀ s) : Inside w₀ (startBrowser f v s).1 := by
  unfold startBrowser
  split
  · exact h
  · split
    · exact h
    · have h1 := inside_open h (t := .playwright s.2.next) rfl
      simp only
      split
      · exact h1
      · exact inside_congr (inside_open h1 (t := .browser _) rfl) rfl rfl (Nat.le_refl _) ⟨[_], rfl, rfl, rfl⟩

theorem inside_backend {w₀ s f} (h : Inside w₀ s) : Inside w₀ (startBackend f s).1 := by
  unfold startBackend
  split
  · exact h
  · simp only
    split
    · exact inside_congr h rfl rfl (Nat.le_succ _) ⟨[], rfl, rfl, rfl⟩
    · exact inside_congr (inside_open h (t := .backend s.2.next) rfl) rfl rfl (Nat.le_refl _) ⟨[], rfl, rfl, rfl⟩

theorem inside_enter {fix w f v} (hw : w.Fresh) : Inside w (enter f v (fix, w)).1 := by
  have h0 : Inside w ({ fix with stack := [] }, w) :=
    ⟨rfl, .nil, hw, by simp, Nat.le_refl _, [], rfl, rfl, rfl⟩
  have h1 := inside_browser (f := f) (v := v) h0
  unfold enter
  simp only
  split
  · rename_i s he; rw [he] at h1; exact h1
  · rename_i s he
    rw [he] at h1
    have h2 := inside_page (f := f) h1
    split
    · rename_i s' he'; rw [he'] at h2; exact h2
    · rename_i s' he'; rw [he'] at h2; exact inside_backend h2

theorem inside_goto {w₀ s f p} (h : Inside w₀ s) : Inside w₀ (goto f p s).1 := by
  have h1 := inside_page (f := f) h
  unfold goto
  split
  · rename_i s' he; rw [he] at h1; exact h1
  · rename_i s' he
    rw [he] at h1
    split
    · split
      · exact h1
      · exact inside_congr h1 rfl rfl (Nat.le_refl _) ⟨[_], rfl, rfl, rfl⟩
    · exact h1

theorem inside_act {w₀ s a} (h : Inside w₀ s) : Inside w₀ (act a s).1 := by
  cases a with
  | «show» f c => exact inside_goto (inside_congr h rfl rfl (Nat.le_refl _) ⟨[], rfl, rfl, rfl⟩)
  | goto f p => exact inside_goto h
  | mount c => exact inside_congr h rfl rfl (Nat.le_refl _) ⟨[], rfl, rfl, rfl⟩

theorem inside_body {w₀} : ∀ (as : List Act) {s}, Inside w₀ s → Inside w₀ (body as s).1
  | [], _, h => h
  | a :: as, s, h => by
    have h1 := inside_act (a := a) h
    unfold body
    split
    · rename_i s' he; rw [he] at h1; exact h1
    · rename_i s' he; rw [he] at h1; exact inside_body as h1

theorem closeAll_spec : ∀ (ts l : List Thing) (w : World), w.isOpen = ts ++ l → ts.Nodup →
    (closeAll ts w).isOpen = l ∧ (closeAll ts w).mounted = w.mounted ∧ (closeAll ts w).next = w.next ∧
    ∃ e, (closeAll ts w).log = e ++ w.log ∧ openings e = [] ∧ closings e = ts.reverse
  | [], l, w, h, _ => ⟨by simpa [closeAll] using h, rfl, rfl, [], rfl, rfl, rfl⟩
  | t :: ts, l, w, h, hn => by
    obtain ⟨h1, h2, h3, e, h4, h5, h6⟩ := closeAll_spec ts l
      { w with isOpen := w.isOpen.erase t, log := .closed t :: w.log } (by simp [h]) (List.nodup_cons.1 hn).2
    refine ⟨h1, h2, h3, e ++ [.closed t], ?_, ?_, ?_⟩
    · rw [closeAll, h4]; simp
    · rw [openings_append, h5]; rfl
    · rw [closings_append, h6]; simp [closings]

/-- **C111** (partial: entering succeeds).  A block closes exactly what it opened, each thing once and in the opposite order, whatever its body
does and wherever it fails; afterwards exactly what was open before is open, so that a browser or a backend that was passed in stays open, and nothing is mounted. -/
theorem C111_closes_partial (f : Fails) (visible : Bool) (as : List Act) (fix : Fixture) (w : World) (hw : w.Fresh)
    (he : (enter f visible (fix, w)).2 = true) :
    let w' := (block f visible as (fix, w)).1.2
    w'.isOpen = w.isOpen ∧ w'.mounted = none ∧ w'.Fresh ∧
    ∃ l, w'.log = l ++ w.log ∧ closings l = (openings l).reverse := by
  intro w'
  have h1 : Inside w (enter f visible (fix, w)).1 := inside_enter hw
  obtain ⟨s, hs⟩ : ∃ s, enter f visible (fix, w) = (s, true) := ⟨_, Prod.ext rfl he⟩
  rw [hs] at h1
  have h2 := inside_body as h1
  have hw' : w' = (leave (body as s).1).2 := by simp only [w', block, hs]
  obtain ⟨l, a, b, c⟩ := h2.log
  obtain ⟨c1, c2, c3, e, c4, c5, c6⟩ := closeAll_spec (body as s).1.1.stack w.isOpen
    { (body as s).1.2 with mounted := none } h2.isOpen h2.nodup
  rw [hw']
  simp only [leave]
  refine ⟨c1, c2, ?_, e ++ l, ?_, ?_⟩
  · intro t ht
    rw [c1] at ht
    rw [c3]
    exact Nat.lt_of_lt_of_le (hw t ht) h2.le
  · rw [c4, List.append_assoc, ← a]
  · rw [closings_append, openings_append, c, c5, c6, b]; simp

/-- **C111.**  What a successful `show` does: the component is mounted, and after that the page is loaded from the backend, both of which are
open; a page that there is already is kept. -/
theorem C111_show (f : Fails) (c : Nat) (s : Fixture × World) (h : (act (.show f c) s).2 = true) :
    let s' := (act (.show f c) s).1
    s'.2.mounted = some c ∧
    ∃ p b, s'.1.page = some p ∧ s'.1.backend = some b ∧ s.1.backend = some b ∧ p ∈ s'.2.isOpen ∧ b ∈ s'.2.isOpen ∧
      s'.2.log.head? = some (.loaded p b 0) ∧ (∀ q, s.1.page = some q → p = q ∧ s'.2.log.tail = s.2.log) := by
  simp only [act, showIt, goto] at h ⊢
  have key : (configurePage f (s.1, { s.2 with mounted := some c })).1.2.mounted = some c ∧
      (configurePage f (s.1, { s.2 with mounted := some c })).1.1.backend = s.1.backend ∧
      ∀ q, s.1.page = some q → (configurePage f (s.1, { s.2 with mounted := some c })).1 = (s.1, { s.2 with mounted := some c }) := by
    unfold configurePage
    simp only
    split
    · exact ⟨rfl, rfl, fun q _ => rfl⟩
    · rename_i hp
      refine ⟨?_, ?_, fun q hq => by rw [hp] at hq; cases hq⟩ <;>
      · split
        · rfl
        · split <;> rfl
  generalize configurePage f (s.1, { s.2 with mounted := some c }) = r at h key ⊢
  obtain ⟨r, ok⟩ := r
  cases ok with
  | false => simp at h
  | true =>
    simp only at h key ⊢
    cases hp : r.1.page with
    | none => rw [hp] at h; simp at h
    | some p =>
      cases hb : r.1.backend with
      | none => rw [hp, hb] at h; simp at h
      | some b =>
        rw [hp, hb] at h
        simp only at h ⊢
        split at h
        · simp at h
        · rename_i hc
          rw [if_neg hc]
          simp only [Bool.or_eq_true, Bool.not_eq_true', not_or, Bool.not_eq_true, Bool.not_eq_false, List.contains_iff_mem] at hc
          refine ⟨key.1, p, b, hp, hb, by rw [← key.2.1, hb], ?_, ?_, rfl, fun q hq => ?_⟩
          · simpa using hc.1.2
          · simpa using hc.2
          · have := key.2.2 q hq
            rw [this] at hp ⊢
            rw [hq] at hp
            exact ⟨(Option.some.inj hp).symm, rfl⟩

/-- Nothing is open. -/
def w0 : World := { isOpen := [], mounted := none, next := 1, log := [] }

/-- A fixture of its own: opened in this order, and closed in the opposite order. -/
example : (enter {} false (create none none false, w0)).2 = true ∧ w0.Fresh ∧
    (block {} false [.show {} 5, .goto {} 1] (create none none false, w0)) =
      (({ browser := some (.browser 2), backend := some (.backend 4), page := some (.page 3), headless := false, stack := [] },
        { isOpen := [], mounted := none, next := 5,
          log := [.closed (.playwright 1), .closed (.browser 2), .closed (.page 3), .closed (.backend 4),
            .loaded (.page 3) (.backend 4) 1, .loaded (.page 3) (.backend 4) 0, .opened (.backend 4), .opened (.page 3), .launched true, .opened (.browser 2),
            .opened (.playwright 1)] }), true) :=
  ⟨by decide, by simp [World.Fresh, w0], by decide⟩

/-- With a browser and a backend from outside, which stay open; the body fails. -/
example : (block {} false [.show { load := true } 5, .goto {} 1]
      (create (some (.backend 1)) (some (.browser 0)) false, { w0 with isOpen := [.backend 1, .browser 0], next := 2 })).1.2 =
    { isOpen := [.backend 1, .browser 0], mounted := none, next := 3, log := [.closed (.page 2), .opened (.page 2)] } := by decide

/-- **C111 is violated** when entering fails: Playwright and the browser are left open. -/
theorem C111_enter_violated : ∃ f : Fails, (block f false [] (create none none false, w0)).2 = false ∧
    (block f false [] (create none none false, w0)).1.2.isOpen = [.page 3, .browser 2, .playwright 1] :=
  ⟨{ backend := true }, by decide, by decide⟩

/-- **C111 is violated** when a fixture is used a second time: it keeps the browser, the page and the backend, which are closed, and cannot show
anything, though entering succeeds. -/
theorem C111_again_violated :
    let s := (block {} false [.show {} 5] (create none none false, w0)).1
    (enter {} false s).2 = true ∧ (block {} false [.show {} 5] s).2 = false ∧
    ∀ f c p, (act (.show f c) (enter {} false s).1).2 = false ∧ (act (.goto f p) (enter {} false s).1).2 = false := by
  refine ⟨by decide, by decide, fun f c p => ?_⟩
  have h : ∀ (f : Fails) (p : Nat) (m : Option Nat), (goto f p
      ((enter {} false (block {} false [.show {} 5] (create none none false, w0)).1).1.1,
        { (enter {} false (block {} false [.show {} 5] (create none none false, w0)).1).1.2 with mounted := m })).2 = false := by
    intro f p m
    have e : (enter {} false (block {} false [.show {} 5] (create none none false, w0)).1).1.1 =
        { browser := some (.browser 2), backend := some (.backend 4), page := some (.page 3), headless := false, stack := [] } := by decide
    have o : (enter {} false (block {} false [.show {} 5] (create none none false, w0)).1).1.2.isOpen = [] := by decide
    rw [e]
    simp [goto, configurePage, o]
  exact ⟨h f 0 (some c), h f p _⟩

/-- **C111 is violated** for the argument `headless`: the browser is started in the same way whatever it is; only the environment counts. -/
theorem C111_headless_violated (f : Fails) (visible : Bool) (as : List Act) (backend browser : Option Thing) (w : World) :
    (block f visible as (create backend browser true, w)).1.2.log =
      (block f visible as (create backend browser false, w)).1.2.log := by
  -- the attribute is never read
  have hopen : ∀ t fix w, openIt t ({ fix with headless := true }, w) =
      ({ (openIt t (fix, w)).1 with headless := true }, (openIt t (fix, w)).2) := fun _ _ _ => rfl
  have hconf : ∀ f (fix : Fixture) w, configurePage f ({ fix with headless := true }, w) =
      (({ (configurePage f (fix, w)).1.1 with headless := true }, (configurePage f (fix, w)).1.2), (configurePage f (fix, w)).2) := by
    intro f fix w
    obtain ⟨br, ba, pg, hl, st⟩ := fix
    unfold configurePage
    cases pg with
    | some p => rfl
    | none =>
      cases br with
      | none => rfl
      | some b => simp only; split <;> rfl
  have hgoto : ∀ f p (fix : Fixture) w, goto f p ({ fix with headless := true }, w) =
      (({ (goto f p (fix, w)).1.1 with headless := true }, (goto f p (fix, w)).1.2), (goto f p (fix, w)).2) := by
    intro f p fix w
    unfold goto
    rw [hconf]
    generalize configurePage f (fix, w) = r
    obtain ⟨⟨a, b⟩, ok⟩ := r
    cases ok with
    | false => rfl
    | true =>
      obtain ⟨br, ba, pg, hl, st⟩ := a
      cases pg <;> cases ba <;> simp only
      split <;> rfl
  have hbody : ∀ (as : List Act) (fix : Fixture) w, body as ({ fix with headless := true }, w) =
      (({ (body as (fix, w)).1.1 with headless := true }, (body as (fix, w)).1.2), (body as (fix, w)).2) := by
    intro as
    induction as with
    | nil => intro _ _; rfl
    | cons a as ih =>
      intro fix w
      have ha : act a ({ fix with headless := true }, w) =
          (({ (act a (fix, w)).1.1 with headless := true }, (act a (fix, w)).1.2), (act a (fix, w)).2) := by
        cases a with
        | «show» f c => exact hgoto f 0 fix _
        | goto f p => exact hgoto f p fix w
        | mount c => rfl
      unfold body
      rw [ha]
      generalize act a (fix, w) = r
      obtain ⟨⟨x, y⟩, ok⟩ := r
      cases ok with
      | false => rfl
      | true => exact ih x y
  have hstart : ∀ (fix : Fixture) w, startBrowser f visible ({ fix with headless := true }, w) =
      (({ (startBrowser f visible (fix, w)).1.1 with headless := true }, (startBrowser f visible (fix, w)).1.2), (startBrowser f visible (fix, w)).2) := by
    intro fix w
    obtain ⟨br, ba, pg, hl, st⟩ := fix
    unfold startBrowser
    cases br with
    | some b => rfl
    | none =>
      simp only
      split
      · rfl
      · split <;> rfl
  have hback : ∀ (fix : Fixture) w, startBackend f ({ fix with headless := true }, w) =
      (({ (startBackend f (fix, w)).1.1 with headless := true }, (startBackend f (fix, w)).1.2), (startBackend f (fix, w)).2) := by
    intro fix w
    obtain ⟨br, ba, pg, hl, st⟩ := fix
    unfold startBackend
    cases ba with
    | some b => rfl
    | none => simp only; split <;> rfl
  have henter : ∀ (fix : Fixture) w, enter f visible ({ fix with headless := true }, w) =
      (({ (enter f visible (fix, w)).1.1 with headless := true }, (enter f visible (fix, w)).1.2), (enter f visible (fix, w)).2) := by
    intro fix w
    unfold enter
    have := hstart { fix with stack := [] } w
    simp only at this ⊢
    rw [this]
    generalize startBrowser f visible ({ fix with stack := [] }, w) = r
    obtain ⟨⟨a, b⟩, ok⟩ := r
    cases ok with
    | false => rfl
    | true =>
      simp only
      rw [hconf]
      generalize configurePage f (a, b) = r
      obtain ⟨⟨a, b⟩, ok⟩ := r
      cases ok with
      | false => rfl
      | true => exact hback a b
  have := henter (create backend browser false) w
  have e : create backend browser true = { create backend browser false with headless := true } := rfl
  rw [e]
  unfold block
  rw [this]
  generalize enter f visible (create backend browser false, w) = r
  obtain ⟨⟨a, b⟩, ok⟩ := r
  cases ok with
  | false => rfl
  | true => simp only; rw [hbody]; rfl

/-- **C111 is violated** for two fixtures at the same time: what one shows is what the other shows, since all backends share what is mounted, and leaving
one takes away what the other shows. -/
theorem C111_shared_violated :
    let a := (enter {} false (create none none false, w0)).1
    let a := (act (.show {} 5) a).1
    let b := (enter {} false (create none none false, a.2)).1
    let b := (act (.show {} 6) b).1
    a.2.mounted = some 5 ∧ b.2.mounted = some 6 ∧ (leave b).2.mounted = none ∧ a.1.page = some (.page 3) ∧
      Thing.page 3 ∈ (leave b).2.isOpen ∧ Thing.backend 4 ∈ (leave b).2.isOpen := by decide

/-- **C111**, what is mounted elsewhere: it replaces what the backend serves and touches nothing else. -/
theorem C111_mount (c : Option Nat) (s : Fixture × World) :
    (act (.mount c) s).2 = true ∧ (act (.mount c) s).1.1 = s.1 ∧ (act (.mount c) s).1.2.mounted = c ∧
      (act (.mount c) s).1.2.isOpen = s.2.isOpen ∧ (act (.mount c) s).1.2.log = s.2.log := ⟨rfl, rfl, rfl, rfl, rfl⟩

/-- **C111**, what is given is used: a fixture with a browser of its own keeps it and launches none, and one with a backend of its own
keeps that and starts none, whatever fails. -/
theorem C111_given (f : Fails) (visible headless : Bool) (backend browser : Option Thing) (w : World) :
    (∀ b, browser = some b → (enter f visible (create backend browser headless, w)).1.1.browser = some b ∧
      ∀ l ∈ (enter f visible (create backend browser headless, w)).1.2.log, l ∈ w.log ∨ ∀ v, l ≠ .launched v) ∧
    (∀ b, backend = some b → (enter f visible (create backend browser headless, w)).1.1.backend = some b ∧
      ∀ l ∈ (enter f visible (create backend browser headless, w)).1.2.log, l ∈ w.log ∨ ∀ n, l ≠ .opened (.backend n)) := by
  constructor
  · rintro b rfl
    cases backend <;> simp only [enter, startBrowser, configurePage, startBackend, openIt, create] <;> (repeat' split) <;> simp_all <;>
      grind
  · rintro b rfl
    cases browser <;> simp only [enter, startBrowser, configurePage, startBackend, openIt, create] <;> (repeat' split) <;> simp_all <;>
      grind

example : (enter {} false (create (some (.backend 8)) (some (.browser 9)) false, { isOpen := [.browser 9, .backend 8], next := 10, mounted := none, log := [] })).2 = true := by
  decide

end Verif.Testing.Display
