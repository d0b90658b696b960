import Verif.Parallel.Model
/-! # The renderer under parallel scheduling: helper lemmas -/
namespace Verif.Parallel
open Verif.Layout

@[simp] theorem put_same {α : Type} (f : Nat → α) (x : Nat) (v : α) : put f x v x = v := by simp [put]
theorem put_ne {α : Type} (f : Nat → α) {x y : Nat} (v : α) (h : y ≠ x) : put f x v y = f y := by simp [put, h]

/-- The scheduling is consistent: a task that waits was made for the current model state of its instance, is the one that the registry of tasks
has for it, and the instance is marked as scheduled (but for the first task, which is not made by a setter). -/
structure J (c : Ctl) : Prop where
  w : ∀ i t, c.tasks[i]? = some t → t.stat = .waiting →
    t.obj = c.ver t.id ∧ c.byId t.id = some i ∧ (c.flag t.id = true ∨ c.life t.id ≠ .here)
  b : ∀ x i, c.byId x = some i → ∃ t, c.tasks[i]? = some t ∧ t.id = x
  o : ∀ x, c.owed x = c.flag x
  u : ∀ x, c.life x = .unborn → c.owed x = false

/-- If something is owed to the instance, a task for it waits. -/
def Covered (c : Ctl) (x : Nat) : Prop :=
  c.owed x = true → c.life x = .here → ∃ t ∈ c.tasks, t.id = x ∧ t.stat = .waiting

/-- The task has begun. -/
def Begun (i : Nat) (c : Ctl) : Prop := ∃ t, c.tasks[i]? = some t ∧ t.stat = .finished

theorem J.create {c : Ctl} (h : J c) (x : Nat) (hn : ∀ t ∈ c.tasks, t.id = x → t.stat ≠ .waiting) (hf : c.life x = .here) :
    J { create x c with flag := put c.flag x true, owed := put c.owed x true } where
  w i t ht hs := by
    simp only [Verif.Parallel.create] at ht ⊢
    rw [List.getElem?_append] at ht
    split at ht
    · have hm := List.mem_of_getElem? ht
      have hne : t.id ≠ x := fun e => hn t hm e hs
      obtain ⟨a, b, d⟩ := h.w i t ht hs
      exact ⟨a, by rw [put_ne _ _ hne]; exact b, by rw [put_ne _ _ hne]; exact d⟩
    · rename_i hi
      have hi' : i = c.tasks.length := by
        apply Classical.byContradiction
        intro hne
        rw [List.getElem?_eq_none (by simp; omega)] at ht
        cases ht
      subst hi'
      simp at ht
      subst ht
      simp
  b y i hy := by
    simp only [Verif.Parallel.create] at hy ⊢
    by_cases hyx : y = x
    · subst hyx
      simp at hy
      subst hy
      simp
    · rw [put_ne _ _ hyx] at hy
      obtain ⟨t, ht, hid⟩ := h.b y i hy
      exact ⟨t, by rw [List.getElem?_append_left]; exact ht; exact (List.getElem?_eq_some_iff.1 ht).1, hid⟩
  o y := by
    by_cases hyx : y = x
    · subst hyx; simp
    · simp [put_ne _ _ hyx, h.o]
  u y hy := by
    simp only [Verif.Parallel.create] at hy ⊢
    by_cases hyx : y = x
    · subst hyx; rw [hf] at hy; cases hy
    · rw [put_ne _ _ hyx]; exact h.u y hy

theorem J.schedule {c : Ctl} (h : J c) (x : Nat) : J (schedule c x) := by
  unfold Verif.Parallel.schedule
  split
  · exact h
  · rename_i hl
    split
    · rename_i hf
      refine ⟨h.w, h.b, fun y => ?_, fun y hy => ?_⟩
      · by_cases hyx : y = x
        · subst hyx; simp [hf]
        · simp [put_ne _ _ hyx, h.o]
      · by_cases hyx : y = x
        · subst hyx; rw [hl] at hy; cases hy
        · simp only [put_ne _ _ hyx]; exact h.u y hy
    · rename_i hf
      refine h.create x (fun t ht he hs => ?_) hl
      obtain ⟨i, hi⟩ := List.getElem?_of_mem ht
      obtain ⟨_, _, d⟩ := h.w i t hi hs
      rw [he] at d
      rcases d with d | d
      · exact hf d
      · exact d hl
  · rename_i hl
    refine ⟨fun i t ht hs => ?_, h.b, fun y => ?_, fun y hy => ?_⟩
    · obtain ⟨a, b, d⟩ := h.w i t ht hs
      refine ⟨a, b, ?_⟩
      by_cases hyx : t.id = x
      · rw [hyx]; simp
      · simp only [put_ne _ _ hyx]; exact d
    · by_cases hyx : y = x
      · subst hyx; simp
      · simp [put_ne _ _ hyx, h.o]
    · by_cases hyx : y = x
      · subst hyx; rw [hl] at hy; cases hy
      · simp only [put_ne _ _ hyx]; exact h.u y hy

theorem Covered.schedule {c : Ctl} (h : J c) (x y : Nat) (hy : Covered c y) : Covered (schedule c x) y := by
  unfold Verif.Parallel.schedule
  split
  · exact hy
  · rename_i hl
    split
    · rename_i hf
      intro ho hh
      refine hy ?_ hh
      by_cases hyx : y = x
      · subst hyx; rw [h.o]; exact hf
      · simpa [put_ne _ _ hyx] using ho
    · intro ho hh
      simp only [Verif.Parallel.create] at hh ⊢
      by_cases hyx : y = x
      · subst hyx; exact ⟨⟨y, c.ver y, .waiting⟩, by simp, rfl, rfl⟩
      · have ho' : c.owed y = true := by simpa [Verif.Parallel.create, put_ne _ _ hyx] using ho
        obtain ⟨t, ht, h1, h2⟩ := hy ho' hh
        exact ⟨t, by simp [ht], h1, h2⟩
  · rename_i hl
    intro ho hh
    by_cases hyx : y = x
    · subst hyx; rw [hl] at hh; cases hh
    · exact hy (by simpa [put_ne _ _ hyx] using ho) hh

theorem Begun.schedule {c : Ctl} {i : Nat} (h : Begun i c) (x : Nat) : Begun i (schedule c x) := by
  obtain ⟨t, ht, hs⟩ := h
  unfold Verif.Parallel.schedule
  split
  · exact ⟨t, ht, hs⟩
  · split
    · exact ⟨t, ht, hs⟩
    · refine ⟨t, ?_, hs⟩
      simp only [create]
      rw [List.getElem?_append_left (List.getElem?_eq_some_iff.1 ht).1]; exact ht
  · exact ⟨t, ht, hs⟩

theorem schedule_ver (c : Ctl) (x : Nat) : (schedule c x).ver = c.ver ∧ (schedule c x).life = c.life := by
  unfold schedule
  split
  · exact ⟨rfl, rfl⟩
  · split <;> exact ⟨rfl, rfl⟩
  · exact ⟨rfl, rfl⟩

theorem cancel_id (t : Task) : (cancel t).id = t.id ∧ (cancel t).obj = t.obj ∧ (cancel t).stat ≠ .waiting := by
  unfold cancel
  split
  · exact ⟨rfl, rfl, by simp⟩
  · rename_i h; exact ⟨rfl, rfl, h⟩

theorem modify_get {α : Type} (l : List α) (f : α → α) (i j : Nat) (t : α) (h : (l.modify i f)[j]? = some t) :
    (i = j ∧ ∃ t', l[j]? = some t' ∧ t = f t') ∨ (i ≠ j ∧ l[j]? = some t) := by
  rw [List.getElem?_modify] at h
  split at h
  · rename_i e
    cases hl : l[j]? with
    | none => rw [hl] at h; cases h
    | some t' => rw [hl] at h; simp at h; exact .inl ⟨e, t', rfl, h.symm⟩
  · rename_i e
    refine .inr ⟨e, ?_⟩
    cases hl : l[j]? with
    | none => rw [hl] at h; cases h
    | some t' => rw [hl] at h; simpa using h

theorem get_modify {α : Type} {l : List α} (f : α → α) (i j : Nat) {t : α} (h : l[j]? = some t) :
    (l.modify i f)[j]? = some (if i = j then f t else t) := by
  rw [List.getElem?_modify, h]; split <;> rfl

theorem J.observe {cur : Nat} {c : Ctl} (h : J c) (hb : Begun cur c) (e : Ev) : J (observe cur e c) := by
  cases e with
  | entered x =>
    simp only [Verif.Parallel.observe]
    have ou : ∀ y, put c.owed x false y = put c.flag x false y := fun y => by
      by_cases hyx : y = x
      · subst hyx; simp
      · simp [put_ne _ _ hyx, h.o]
    have un : ∀ y, put c.life x Life.here y = .unborn → put c.owed x false y = false := fun y hy => by
      by_cases hyx : y = x
      · subst hyx; simp
      · rw [put_ne _ _ hyx] at hy ⊢; exact h.u y hy
    have other : ∀ i t, c.tasks[i]? = some t → t.stat = .waiting → t.id ≠ x →
        t.obj = put c.ver x (c.ver x + 1) t.id ∧ c.byId t.id = some i ∧
          (put c.flag x false t.id = true ∨ put c.life x Life.here t.id ≠ .here) := by
      intro i t ht hs hne
      simp only [put_ne _ _ hne]; exact h.w i t ht hs
    cases hx : c.byId x with
    | none =>
      refine ⟨fun i t ht hs => other i t ht hs ?_, h.b, ou, un⟩
      intro he
      have := (h.w i t ht hs).2.1
      rw [he, hx] at this; cases this
    | some k =>
      simp only
      split
      · rename_i hk
        subst hk
        refine ⟨fun i t ht hs => other i t ht hs ?_, h.b, ou, un⟩
        intro he
        have := (h.w i t ht hs).2.1
        rw [he, hx] at this
        simp at this
        subst this
        obtain ⟨t', ht', hs'⟩ := hb
        rw [ht] at ht'
        cases ht'
        rw [hs] at hs'; cases hs'
      · rename_i hk
        refine ⟨fun i t ht hs => ?_, fun y i hy => ?_, ou, un⟩
        · rcases modify_get _ _ _ _ _ ht with ⟨_, t', _, rfl⟩ | ⟨hne, ht'⟩
          · exact absurd hs (cancel_id t').2.2
          · have hne' : t.id ≠ x := by
              intro he
              have := (h.w i t ht' hs).2.1
              rw [he, hx] at this
              simp at this
              exact hne this
            obtain ⟨a, b, d⟩ := other i t ht' hs hne'
            exact ⟨a, (put_ne _ _ hne').trans b, d⟩
        · have hyx : y ≠ x := by intro he; subst he; simp at hy
          simp only [put_ne _ _ hyx] at hy
          obtain ⟨t, ht, hid⟩ := h.b y i hy
          refine ⟨_, get_modify cancel k i ht, ?_⟩
          split
          · rw [(cancel_id t).1]; exact hid
          · exact hid
  | unmounted x =>
    refine ⟨fun i t ht hs => ?_, h.b, h.o, fun y hy => ?_⟩
    · obtain ⟨a, b, d⟩ := h.w i t ht hs
      refine ⟨a, b, ?_⟩
      by_cases hyx : t.id = x
      · right; simp [Verif.Parallel.observe, hyx]
      · simp only [Verif.Parallel.observe, put_ne _ _ hyx]; exact d
    · by_cases hyx : y = x
      · subst hyx; simp [Verif.Parallel.observe] at hy
      · simp only [Verif.Parallel.observe, put_ne _ _ hyx] at hy; exact h.u y hy
  | mounted x => exact h
  | rendered a b d f => exact h
  | effects x => exact h

theorem Begun.observe {cur i : Nat} {c : Ctl} (hb : Begun i c) (e : Ev) : Begun i (observe cur e c) := by
  cases e with
  | entered x =>
    simp only [Verif.Parallel.observe]
    cases hx : c.byId x with
    | none => exact hb
    | some k =>
      simp only
      split
      · exact hb
      · obtain ⟨t, ht, hs⟩ := hb
        refine ⟨_, get_modify cancel k i ht, ?_⟩
        split
        · simp [cancel, hs]
        · exact hs
  | unmounted x => exact hb
  | mounted x => exact hb
  | rendered a b d f => exact hb
  | effects x => exact hb

theorem Covered.observe {cur : Nat} {c : Ctl} (h : J c) (e : Ev) (y : Nat) (hy : Covered c y ∨ e = .entered y) :
    Covered (observe cur e c) y := by
  cases e with
  | entered x =>
    simp only [Verif.Parallel.observe]
    by_cases hyx : y = x
    · subst hyx
      intro ho
      exfalso
      cases hx : c.byId y with
      | none => rw [hx] at ho; simp at ho
      | some k => rw [hx] at ho; simp only at ho; split at ho <;> simp at ho
    · have hy : Covered c y := by
        rcases hy with hy | hy
        · exact hy
        · cases hy; exact absurd rfl hyx
      cases hx : c.byId x with
      | none =>
        intro ho hh
        exact hy (by simpa [put_ne _ _ hyx] using ho) (by simpa [put_ne _ _ hyx] using hh)
      | some k =>
        simp only
        split
        · intro ho hh
          exact hy (by simpa [put_ne _ _ hyx] using ho) (by simpa [put_ne _ _ hyx] using hh)
        · intro ho hh
          obtain ⟨t, ht, h1, h2⟩ := hy (by simpa [put_ne _ _ hyx] using ho) (by simpa [put_ne _ _ hyx] using hh)
          obtain ⟨i, hi⟩ := List.getElem?_of_mem ht
          have hki : k ≠ i := by
            intro e
            subst e
            obtain ⟨t', ht', hid⟩ := h.b x k hx
            rw [hi] at ht'; cases ht'
            exact hyx (h1.symm.trans hid)
          have := get_modify cancel k i hi
          rw [if_neg hki] at this
          exact ⟨t, List.mem_of_getElem? this, h1, h2⟩
  | unmounted x =>
    intro ho hh
    by_cases hyx : y = x
    · subst hyx; simp [Verif.Parallel.observe] at hh
    · have hy : Covered c y := by rcases hy with hy | hy; exact hy; cases hy
      exact hy ho (by simpa [Verif.Parallel.observe, put_ne _ _ hyx] using hh)
  | mounted x => rcases hy with hy | hy; exact hy; cases hy
  | rendered a b d f => rcases hy with hy | hy; exact hy; cases hy
  | effects x => rcases hy with hy | hy; exact hy; cases hy

theorem fold_schedule {c : Ctl} (calls : List Nat) (h : J c) : J (calls.foldl schedule c) ∧
    (∀ y, Covered c y → Covered (calls.foldl schedule c) y) ∧ (∀ i, Begun i c → Begun i (calls.foldl schedule c)) ∧
    (calls.foldl schedule c).ver = c.ver ∧ (calls.foldl schedule c).life = c.life := by
  induction calls generalizing c with
  | nil => exact ⟨h, fun _ hy => hy, fun _ hi => hi, rfl, rfl⟩
  | cons x xs ih =>
    obtain ⟨a, b, d, e, f⟩ := ih (h.schedule x)
    exact ⟨a, fun y hy => b y (Covered.schedule h x y hy), fun i hi => d i (hi.schedule x),
      e.trans (schedule_ver c x).1, f.trans (schedule_ver c x).2⟩

theorem observe_ver (cur : Nat) (e : Ev) (c : Ctl) (x : Nat) :
    (observe cur e c).ver x = c.ver x + (bodiesOf [e]).count x := by
  cases e with
  | entered y =>
    have : ∀ c' : Ctl, c'.ver = put c.ver y (c.ver y + 1) → c'.ver x = c.ver x + (bodiesOf [Ev.entered y]).count x := by
      intro c' hc
      rw [hc]
      by_cases hxy : x = y
      · subst hxy; simp [bodiesOf]
      · rw [put_ne _ _ hxy]; simp [bodiesOf, List.count_cons, Ne.symm hxy]
    simp only [observe]
    split
    · exact this _ rfl
    · split <;> exact this _ rfl
  | unmounted y => simp [bodiesOf, observe]
  | mounted y => simp [bodiesOf, observe]
  | rendered a b d f => simp [bodiesOf, observe]
  | effects y => simp [bodiesOf, observe]

theorem observe_life (cur : Nat) (e : Ev) (c : Ctl) (x : Nat) (h : (observe cur e c).life x = .gone) :
    c.life x = .gone ∨ e = .unmounted x := by
  cases e with
  | entered y =>
    have : ∀ c' : Ctl, c'.life = put c.life y .here → c'.life x = .gone → c.life x = .gone := by
      intro c' hc hx
      rw [hc] at hx
      by_cases hxy : x = y
      · subst hxy; simp at hx
      · rw [put_ne _ _ hxy] at hx; exact hx
    left
    simp only [observe] at h
    split at h
    · exact this _ rfl h
    · split at h
      · exact this _ rfl h
      · exact this _ rfl h
  | unmounted y =>
    by_cases hxy : x = y
    · subst hxy; exact .inr rfl
    · left; simpa [observe, put_ne _ _ hxy] using h
  | mounted y => exact .inl h
  | rendered a b d f => exact .inl h
  | effects y => exact .inl h

theorem follow_spec (cur : Nat) (es : List Ev) : ∀ (calls : List (List Nat)) (c : Ctl), J c → Begun cur c →
    J (follow cur es calls c) ∧ (∀ y, (Covered c y ∨ .entered y ∈ es) → Covered (follow cur es calls c) y) ∧
    (∀ x, (follow cur es calls c).ver x = c.ver x + (bodiesOf es).count x) ∧
    (∀ x, (follow cur es calls c).life x = .gone → c.life x = .gone ∨ x ∈ unmountsOf es) := by
  induction es with
  | nil => intro calls c h hb; exact ⟨h, fun y hy => by simpa [follow] using hy, fun x => by simp [follow, bodiesOf], fun x hx => .inl hx⟩
  | cons e es ih =>
    intro calls c h hb
    have h1 := h.observe hb e
    obtain ⟨a, b, d, v, l⟩ := fold_schedule (calls.headD []) h1
    obtain ⟨i1, i2, i3, i4⟩ := ih calls.tail _ a (d cur (hb.observe e))
    refine ⟨i1, fun y hy => i2 y ?_, fun x => ?_, fun x hx => ?_⟩
    · rcases hy with hy | hy
      · exact .inl (b y (Covered.observe h e y (.inl hy)))
      · rw [List.mem_cons] at hy
        rcases hy with hy | hy
        · exact .inl (b y (Covered.observe h e y (.inr hy.symm)))
        · exact .inr hy
    · rw [follow, i3, v, observe_ver]
      rw [show bodiesOf (e :: es) = bodiesOf [e] ++ bodiesOf es from bodiesOf_append [e] es, List.count_append]; omega
    · rw [follow] at hx
      rcases i4 x hx with hx | hx
      · rw [l] at hx
        rcases observe_life cur e c x hx with hx | hx
        · exact .inl hx
        · subst hx; exact .inr (by simp [unmountsOf])
      · right
        rw [show unmountsOf (e :: es) = unmountsOf [e] ++ unmountsOf es from unmountsOf_append [e] es]
        exact List.mem_append_right _ hx

theorem J.start {c : Ctl} (h : J c) (i : Nat) : J (start i c) where
  w j t ht hs := by
    rcases modify_get _ _ _ _ _ ht with ⟨_, t', _, rfl⟩ | ⟨_, ht'⟩
    · cases hs
    · exact h.w j t ht' hs
  b x j hx := by
    obtain ⟨t, ht, hid⟩ := h.b x j hx
    refine ⟨_, get_modify _ i j ht, ?_⟩
    split <;> exact hid
  o := h.o
  u := h.u

theorem Begun.start {c : Ctl} {i : Nat} {t : Task} (h : c.tasks[i]? = some t) : Begun i (start i c) :=
  ⟨_, get_modify _ i i h, by simp⟩

theorem Covered.start {c : Ctl} {i : Nat} {t : Task} (h : c.tasks[i]? = some t) {y : Nat} (hy : Covered c y) (hne : t.id ≠ y) :
    Covered (start i c) y := by
  intro ho hh
  obtain ⟨t', ht', h1, h2⟩ := hy ho hh
  obtain ⟨j, hj⟩ := List.getElem?_of_mem ht'
  have hij : i ≠ j := by
    intro e; subst e; rw [h] at hj; cases hj; exact hne h1
  have := get_modify (fun t : Task => { t with stat := .finished }) i j hj
  rw [if_neg hij] at this
  exact ⟨t', List.mem_of_getElem? this, h1, h2⟩

/-! ### Updates of places that are apart can be applied in either order -/

theorem setAt_comm : ∀ (p q : List Nat) (a b v : VJson), comparable p q = false →
    (setAt p a v).bind (setAt q b) = (setAt q b v).bind (setAt p a)
  | [], q, _, _, _, h => by simp [comparable] at h
  | i :: p, [], _, _, _, h => by simp [comparable] at h
  | i :: p, j :: q, a, b, v, h => by
    match v with
    | .text _ => simp [setAt]
    | .obj _ none => simp [setAt]
    | .obj sh (some ks) =>
      by_cases hij : i = j
      · subst hij
        have h' : comparable p q = false := by simpa [comparable] using h
        cases hk : ks[i]? with
        | none => simp [setAt, hk]
        | some k =>
          have ih := setAt_comm p q a b k h'
          have hi : i < ks.length := (List.getElem?_eq_some_iff.1 hk).1
          have step : ∀ (p : List Nat) (a : VJson) (k' : VJson), setAt (i :: p) a (.obj sh (some (ks.set i k'))) =
              (setAt p a k').map (fun k'' => .obj sh (some (ks.set i k''))) := by
            intro p a k'
            simp only [setAt, List.getElem?_set_self hi, List.set_set]
          have gen : ∀ (p q : List Nat) (a b : VJson), (setAt (i :: p) a (.obj sh (some ks))).bind (setAt (i :: q) b) =
              ((setAt p a k).bind (setAt q b)).map (fun k'' => .obj sh (some (ks.set i k''))) := by
            intro p q a b
            rw [setAt, hk]
            simp only
            cases hp : setAt p a k with
            | none => rfl
            | some k' => simp only [Option.map_some, Option.bind_some]; exact step q b k'
          rw [gen p q, gen q p, ih]
      · have gen : ∀ (i j : Nat) (p q : List Nat) (a b : VJson), i ≠ j →
            (setAt (i :: p) a (.obj sh (some ks))).bind (setAt (j :: q) b) =
              (ks[i]?).bind (fun k => (setAt p a k).bind (fun k' => (ks[j]?).bind (fun l => (setAt q b l).map (fun l' =>
                .obj sh (some ((ks.set i k').set j l')))))) := by
          intro i j p q a b hij
          rw [setAt]
          cases hk : ks[i]? with
          | none => rfl
          | some k =>
            simp only [Option.bind_some]
            cases hp : setAt p a k with
            | none => rfl
            | some k' =>
              simp only [Option.map_some, Option.bind_some]
              rw [setAt, List.getElem?_set_ne hij]
              cases ks[j]? <;> rfl
        rw [gen i j p q a b hij, gen j i q p b a (Ne.symm hij)]
        cases ks[i]? with
        | none => cases ks[j]? with
          | none => rfl
          | some l => simp only [Option.bind_none, Option.bind_some]; cases setAt q b l <;> rfl
        | some k =>
          cases ks[j]? with
          | none => simp only [Option.bind_none, Option.bind_some]; cases setAt p a k <;> rfl
          | some l =>
            simp only [Option.bind_some]
            cases setAt p a k with
            | none => cases setAt q b l <;> rfl
            | some k' =>
              cases setAt q b l with
              | none => rfl
              | some l' => simp only [Option.bind_some, Option.map_some]; rw [List.set_comm _ _ hij]

theorem apply_comm (u v : Update) (c : Client) (h : comparable u.path v.path = false) :
    applyUpdate v (applyUpdate u c) = applyUpdate u (applyUpdate v c) := by
  cases c with
  | broken => rfl
  | empty =>
    have hu : u.path ≠ [] := by intro e; simp [e, comparable] at h
    have hv : v.path ≠ [] := by intro e; simp [e, comparable] at h
    simp [applyUpdate, hu, hv]
  | model m =>
    have := setAt_comm u.path v.path u.model v.model m h
    simp only [applyUpdate]
    cases hu : setAt u.path u.model m with
    | none =>
      cases hv : setAt v.path v.model m with
      | none => rfl
      | some m' => rw [hu, hv] at this; simp only [Option.bind_none, Option.bind_some] at this; simp [← this]
    | some m' =>
      cases hv : setAt v.path v.model m with
      | none => rw [hu, hv] at this; simp only [Option.bind_none, Option.bind_some] at this; simp [this]
      | some m'' => rw [hu, hv] at this; simp only [Option.bind_some] at this; simp [this]

/-- A client that applies updates one after another. -/
def applyAll (us : List Update) (c : Client) : Client := us.foldl (fun c u => applyUpdate u c) c

theorem applyAll_front (pre : List Update) (u : Update) (post : List Update) (c : Client)
    (h : ∀ v ∈ pre, comparable u.path v.path = false) :
    applyAll (pre ++ u :: post) c = applyAll (pre ++ post) (applyUpdate u c) := by
  induction pre generalizing c with
  | nil => rfl
  | cons v pre ih =>
    have h1 := ih (applyUpdate v c) (fun v hv => h v (by simp [hv]))
    simp only [applyAll, List.cons_append, List.foldl_cons] at h1 ⊢
    rw [h1, apply_comm u v c (h v (by simp))]

end Verif.Parallel
