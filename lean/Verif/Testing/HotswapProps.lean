import Verif.Testing.Hotswap
/-! # C103: views show what was swapped in last -/
namespace Verif.Testing
open Verif.Hooks
variable {K B : Type}

/-! ## Specification: histories, latest event first -/

/-- The constructor swapped in last. -/
def latest (none' init : K) : List (SwapEv K) → K
  | [] => init
  | .swap (some c) :: _ => c
  | .swap none :: _ => none'
  | _ :: es => latest none' init es

/-- View `v` is on the page. -/
def OnPage (v : Nat) : List (SwapEv K) → Prop
  | [] => False
  | .mount w :: es => w = v ∨ OnPage v es
  | .unmount w :: es => w ≠ v ∧ OnPage v es
  | _ :: es => OnPage v es

/-- View `v` is on the page and its effect has run since it came there. -/
def Listening (v : Nat) : List (SwapEv K) → Prop
  | [] => False
  | .listen w :: es => (w = v ∧ OnPage v es) ∨ Listening v es
  | .unmount w :: es => w ≠ v ∧ Listening v es
  | _ :: es => Listening v es

/-- Nothing was swapped while `v` was on the page and its effect had not run yet. -/
def Heard (v : Nat) : List (SwapEv K) → Prop
  | [] => True
  | .swap _ :: es => (OnPage v es → Listening v es) ∧ Heard v es
  | _ :: es => Heard v es

/-- The constructor that was the latest when `v` last rendered. -/
def atRender (none' init : K) (v : Nat) : List (SwapEv K) → Option K
  | [] => none
  | .mount w :: es => if w = v ∧ atRender none' init v es = none then some (latest none' init es) else atRender none' init v es
  | .render w :: es => if w = v then (atRender none' init v es).map fun _ => latest none' init es else atRender none' init v es
  | .unmount w :: es => if w = v then none else atRender none' init v es
  | _ :: es => atRender none' init v es

/-! ## C103 -/

theorem swaps_snoc (eq : K → K → Bool) (none' init : K) (es : List (SwapEv K)) (e : SwapEv K) :
    swaps eq none' init (es ++ [e]) = swapStep eq none' (swaps eq none' init es) e := by
  simp [swaps, List.foldl_append]

/-- What is known of the state after a history `h`, latest event first. -/
structure Sane (eq : K → K → Bool) (none' init : K) (act : K → B) (h : List (SwapEv K)) (s : SwapState K) : Prop where
  current : s.current = latest none' init h
  onPage : ∀ v, (s.views v).isSome = true ↔ OnPage v h
  callbacks : ∀ v, s.callbacks v = true ↔ Listening v h
  value : ∀ v w, s.views v = some w → Heard v h → act w.value = act s.current
  shown : ∀ v w, s.views v = some w → w.scheduled = false → act w.shown = act w.value

theorem listening_onPage (v : Nat) (h : List (SwapEv K)) : Listening v h → OnPage v h := by
  induction h with
  | nil => exact id
  | cons e h ih =>
    cases e with
    | mount w => exact fun g => Or.inr (ih g)
    | listen w => exact fun g => g.elim (fun g => g.2) ih
    | swap c => exact ih
    | render w => exact ih
    | unmount w => exact fun g => ⟨g.1, ih g.2⟩

theorem set_value (eq : K → K → Bool) (act : K → B) (heq : ∀ a b, eq a b = true → act a = act b) (c : K) (w : View K) :
    act (w.set eq c).value = act c ∧ (w.set eq c).shown = w.shown ∧
    ((w.set eq c).scheduled = false → w.scheduled = false ∧ (w.set eq c).value = w.value) := by
  unfold View.set dispatch Upd.next
  simp only
  split
  next h => exact ⟨(heq _ _ h).symm, by simp⟩
  next h => exact ⟨rfl, by simp⟩

theorem sane_step (eq : K → K → Bool) (none' init : K) (act : K → B) (heq : ∀ a b, eq a b = true → act a = act b) (h : List (SwapEv K))
    (s : SwapState K) (hs : Sane eq none' init act h s) (e : SwapEv K) : Sane eq none' init act (e :: h) (swapStep eq none' s e) := by
  cases e with
  | mount v =>
    cases hv : s.views v with
    | some w =>
      have e : swapStep eq none' s (.mount v) = s := by simp [swapStep, hv]
      rw [e]
      refine ⟨hs.current, fun u => ?_, hs.callbacks, hs.value, hs.shown⟩
      constructor
      · exact fun g => Or.inr ((hs.onPage u).1 g)
      · rintro (g | g)
        · subst g; simp [hv]
        · exact (hs.onPage u).2 g
    | none =>
      have e : swapStep eq none' s (.mount v) = { s with views := upd s.views v (some ⟨s.current, s.current, false⟩) } := by simp [swapStep, hv]
      rw [e]
      refine ⟨hs.current, fun u => ?_, hs.callbacks, fun u w hw hh => ?_, fun u w hw hh => ?_⟩
      · by_cases hu : u = v
        · subst hu; simp [upd, OnPage]
        · simp [upd, hu, OnPage, hs.onPage u, Ne.symm hu]
      · by_cases hu : u = v
        · subst hu; simp [upd] at hw; subst hw; rfl
        · simp [upd, hu] at hw; exact hs.value u w hw hh
      · by_cases hu : u = v
        · subst hu; simp [upd] at hw; subst hw; rfl
        · simp [upd, hu] at hw; exact hs.shown u w hw hh
  | listen v =>
    cases hv : s.views v with
    | none =>
      have e : swapStep eq none' s (.listen v) = s := by simp [swapStep, hv]
      rw [e]
      refine ⟨hs.current, hs.onPage, fun u => ?_, hs.value, hs.shown⟩
      rw [hs.callbacks u]
      constructor
      · exact Or.inr
      · rintro (⟨g, g'⟩ | g)
        · subst g
          have := (hs.onPage v).2 g'
          simp [hv] at this
        · exact g
    | some w =>
      have e : swapStep eq none' s (.listen v) = { s with callbacks := upd s.callbacks v true } := by simp [swapStep, hv]
      rw [e]
      refine ⟨hs.current, hs.onPage, fun u => ?_, hs.value, hs.shown⟩
      by_cases hu : u = v
      · subst hu
        have := (hs.onPage u).1 (by simp [hv])
        simp [upd, Listening, this]
      · simp [upd, hu, Listening, hs.callbacks u, Ne.symm hu]
  | swap c =>
    refine ⟨?_, fun u => ?_, hs.callbacks, fun u w hw hh => ?_, fun u w hw hh => ?_⟩
    · cases c <;> rfl
    · show ((if s.callbacks u then (s.views u).map (View.set eq (c.getD none')) else s.views u)).isSome = true ↔ _
      have := hs.onPage u
      change _ ↔ OnPage u h
      split <;> simpa using this
    · change (if s.callbacks u then (s.views u).map (View.set eq (c.getD none')) else s.views u) = some w at hw
      change act w.value = act (c.getD none')
      have hon : OnPage u h := by
        refine (hs.onPage u).1 ?_
        split at hw
        · obtain ⟨w', h1, h2⟩ := Option.map_eq_some_iff.1 hw; simp [h1]
        · simp [hw]
      rw [if_pos ((hs.callbacks u).2 (hh.1 hon))] at hw
      obtain ⟨w', h1, h2⟩ := Option.map_eq_some_iff.1 hw
      rw [← h2]
      exact (set_value eq act heq _ w').1
    · change (if s.callbacks u then (s.views u).map (View.set eq (c.getD none')) else s.views u) = some w at hw
      split at hw
      · obtain ⟨w', h1, h2⟩ := Option.map_eq_some_iff.1 hw
        subst h2
        obtain ⟨g1, g2, g3⟩ := set_value eq act heq (c.getD none') w'
        obtain ⟨g4, g5⟩ := g3 hh
        rw [g2, g5]
        exact hs.shown u w' h1 g4
      · exact hs.shown u w hw hh
  | render v =>
    refine ⟨hs.current, fun u => ?_, hs.callbacks, fun u w hw hh => ?_, fun u w hw hh => ?_⟩
    · by_cases hu : u = v
      · subst hu; simpa [swapStep, upd, OnPage] using hs.onPage u
      · simp [swapStep, upd, hu, OnPage, hs.onPage u]
    · by_cases hu : u = v
      · subst hu
        simp only [swapStep, upd, if_true] at hw
        obtain ⟨w', h1, h2⟩ := Option.map_eq_some_iff.1 hw
        subst h2
        exact hs.value u w' h1 hh
      · simp [swapStep, upd, hu] at hw; exact hs.value u w hw hh
    · by_cases hu : u = v
      · subst hu
        simp only [swapStep, upd, if_true] at hw
        obtain ⟨w', h1, h2⟩ := Option.map_eq_some_iff.1 hw
        subst h2
        rfl
      · simp [swapStep, upd, hu] at hw; exact hs.shown u w hw hh
  | unmount v =>
    refine ⟨hs.current, fun u => ?_, fun u => ?_, fun u w hw hh => ?_, fun u w hw hh => ?_⟩
    · by_cases hu : u = v
      · subst hu; simp [swapStep, upd, OnPage]
      · simp [swapStep, upd, hu, OnPage, hs.onPage u, Ne.symm hu]
    · by_cases hu : u = v
      · subst hu; simp [swapStep, upd, Listening]
      · simp [swapStep, upd, hu, Listening, hs.callbacks u, Ne.symm hu]
    · by_cases hu : u = v
      · subst hu; simp [swapStep, upd] at hw
      · simp [swapStep, upd, hu] at hw; exact hs.value u w hw hh
    · by_cases hu : u = v
      · subst hu; simp [swapStep, upd] at hw
      · simp [swapStep, upd, hu] at hw; exact hs.shown u w hw hh

theorem sane_swaps (eq : K → K → Bool) (none' init : K) (act : K → B) (heq : ∀ a b, eq a b = true → act a = act b) (h : List (SwapEv K)) :
    Sane eq none' init act h (swaps eq none' init h.reverse) := by
  induction h with
  | nil => exact ⟨rfl, by simp [swaps, OnPage], by simp [swaps, Listening], by simp [swaps], by simp [swaps]⟩
  | cons e h ih =>
    rw [List.reverse_cons, swaps_snoc]
    exact sane_step eq none' init act heq h _ ih e

/-- C103, with updates: whatever happened, a view for which no render is scheduled does what the constructor swapped in last does, if none was swapped
in between the view's first render and its effect, and constructors that `strictly_equal` takes for equal do the same.

Missing: both conditions are needed (`C103_early_violated`, `C103_same_code_violated`). -/
theorem C103_updated_partial (eq : K → K → Bool) (none' init : K) (act : K → B) (heq : ∀ a b, eq a b = true → act a = act b)
    (h : List (SwapEv K)) (v : Nat) (w : View K) (hv : (swaps eq none' init h.reverse).views v = some w) (hw : w.scheduled = false)
    (hh : Heard v h) : act w.shown = act (latest none' init h) := by
  have hs := sane_swaps eq none' init act heq h
  rw [hs.shown v w hv hw, hs.value v w hv hh, hs.current]

/-- C103: and so does any such view after its next render. -/
theorem C103_rendered_partial (eq : K → K → Bool) (none' init : K) (act : K → B) (heq : ∀ a b, eq a b = true → act a = act b)
    (h : List (SwapEv K)) (v : Nat) (hv : OnPage v h) (hh : Heard v h) :
    ∃ w, (swaps eq none' init (.render v :: h).reverse).views v = some w ∧ w.scheduled = false ∧ act w.shown = act (latest none' init h) := by
  have hs := sane_swaps eq none' init act heq h
  have e := swaps_snoc eq none' init h.reverse (.render v)
  rw [← List.reverse_cons] at e
  obtain ⟨w, hw⟩ := Option.isSome_iff_exists.1 ((hs.onPage v).2 hv)
  have : (swaps eq none' init (.render v :: h).reverse).views v = some { w with shown := w.value, scheduled := false } := by
    rw [e]; simp [swapStep, upd, hw]
  exact ⟨_, this, rfl, C103_updated_partial eq none' init act heq (.render v :: h) v _ this rfl hh⟩

/-- C103: the views there are those that were mounted and not unmounted since; swapping sets the state of a view exactly if its effect has run and it
is still on the page, and no other view changes. -/
theorem C103_told (eq : K → K → Bool) (none' init : K) (h : List (SwapEv K)) (c : Option K) (v : Nat) :
    (((swaps eq none' init h.reverse).views v).isSome = true ↔ OnPage v h) ∧
    (Listening v h → (swaps eq none' init (.swap c :: h).reverse).views v =
      ((swaps eq none' init h.reverse).views v).map (View.set eq (c.getD none')) ∧ OnPage v h) ∧
    (¬ Listening v h → (swaps eq none' init (.swap c :: h).reverse).views v = (swaps eq none' init h.reverse).views v) := by
  have hs := sane_swaps eq none' init (fun _ => ()) (fun _ _ _ => rfl) h
  have e := swaps_snoc eq none' init h.reverse (.swap c)
  rw [← List.reverse_cons] at e
  refine ⟨hs.onPage v, fun g => ⟨?_, listening_onPage v h g⟩, fun g => ?_⟩
  · rw [e]; simp [swapStep, (hs.callbacks v).2 g]
  · have : (swaps eq none' init h.reverse).callbacks v = false := by
      cases hc : (swaps eq none' init h.reverse).callbacks v
      · rfl
      · exact absurd ((hs.callbacks v).1 hc) g
    rw [e]; simp [swapStep, this]

/-- C103: a view that is told of another constructor is rendered again. -/
theorem C103_scheduled (eq : K → K → Bool) (c : K) (w : View K) (h : eq c w.value = false) : w.set eq c = ⟨c, w.shown, true⟩ := by
  simp [View.set, dispatch, Upd.next, h]

/-- Two views, of which one comes later and one leaves. -/
example : Heard 1 ([.swap (some 7), .listen 1, .unmount 0, .mount 1, .swap (some 5), .listen 0, .mount 0] : List (SwapEv Nat)) := by
  simp [Heard, OnPage, Listening]

example : ((swaps (· == ·) 0 0 ([.render 1, .swap (some 7), .listen 1, .unmount 0, .mount 1, .swap (some 5), .listen 0, .mount 0] :
    List (SwapEv Nat)).reverse).views 1).map (fun w => (w.shown, w.scheduled)) = some (7, false) := by decide

example : ((swaps (· == ·) 0 0 ([.swap (some 7), .listen 1, .mount 1] : List (SwapEv Nat)).reverse).views 1).map (fun w => (w.shown, w.scheduled)) =
    some (0, true) := by decide

theorem plain_snoc (none' init : K) (es : List (SwapEv K)) (e : SwapEv K) :
    plainSwaps none' init (es ++ [e]) = plainStep none' (plainSwaps none' init es) e := by
  simp [plainSwaps, List.foldl_append]

/-- C103, without updates: every view shows what was the latest constructor when it last rendered. -/
theorem C103_on_render (none' init : K) (h : List (SwapEv K)) (v : Nat) :
    (plainSwaps none' init h.reverse).1 = latest none' init h ∧ (plainSwaps none' init h.reverse).2 v = atRender none' init v h := by
  induction h with
  | nil => exact ⟨rfl, rfl⟩
  | cons e h ih =>
    rw [List.reverse_cons, plain_snoc]
    obtain ⟨h1, h2⟩ := ih
    generalize plainSwaps none' init h.reverse = s at *
    obtain ⟨c, f⟩ := s
    simp only at h1 h2
    cases e with
    | mount w =>
      by_cases hw : w = v
      · subst hw
        cases hf : f w with
        | none => simp [plainStep, hf, upd, latest, atRender, h1, ← h2]
        | some k => simp [plainStep, hf, latest, atRender, h1, ← h2]
      · cases hf : f w with
        | none => simp [plainStep, hf, upd, latest, atRender, h1, ← h2, hw, Ne.symm hw]
        | some k => simp [plainStep, hf, latest, atRender, h1, ← h2, hw]
    | listen w => exact ⟨h1, h2⟩
    | swap k => cases k <;> exact ⟨rfl, h2⟩
    | render w =>
      by_cases hw : w = v
      · subst hw; simp [plainStep, upd, latest, atRender, h1, h2]
      · simp [plainStep, upd, latest, atRender, h1, h2, hw, Ne.symm hw]
    | unmount w =>
      by_cases hw : w = v
      · subst hw; simp [plainStep, upd, latest, atRender, h1]
      · simp [plainStep, upd, latest, atRender, h1, h2, hw, Ne.symm hw]

example : (plainSwaps 0 0 ([.swap (some 7), .render 1, .swap (some 5), .mount 1] : List (SwapEv Nat)).reverse).2 1 = some 5 := by decide

/-- C103 is violated by a swap between the first render of a view and its effect: the view keeps showing what was before, and no render is scheduled. -/
theorem C103_early_violated :
    ((swaps (· == ·) 0 1 ([.listen 0, .swap (some 2), .mount 0] : List (SwapEv Nat)).reverse).views 0).map (fun w => (w.value, w.shown, w.scheduled)) =
      some (1, 1, false) ∧ latest 0 1 ([.listen 0, .swap (some 2), .mount 0] : List (SwapEv Nat)) = 2 := by decide

/-- C103 is violated for two components of the same name defined inside a function: what `@component` makes of them has one code and one name, so that
`strictly_equal` takes them for equal, whatever `==` says, and the view is not updated. -/
theorem C103_same_code_violated : ∃ one two lam : Obj, one.closure ≠ two.closure ∧ ∀ pyEq,
    ((swaps (strictlyEqual isLocalName pyEq) lam one ([.swap (some two), .listen 0, .mount 0] : List (SwapEv Obj)).reverse).views 0) =
      some ⟨one, one, false⟩ := by
  refine ⟨{ identity := 1, type := 0, qualname := "test.<locals>.Page", code := some 7, closure := [1] },
    { identity := 2, type := 0, qualname := "test.<locals>.Page", code := some 7, closure := [2] }, { identity := 3, type := 0 }, by decide, ?_⟩
  intro pyEq
  have hl : isLocalName "test.<locals>.Page" = true := by decide +kernel
  simp [swaps, swapStep, upd, View.set, dispatch, Upd.next, strictlyEqual, hl]

end Verif.Testing
