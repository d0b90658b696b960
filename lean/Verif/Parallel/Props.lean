import Verif.Parallel.Lemmas
/-!
# The renderer under parallel scheduling: property C112

`runs (init U w root) ops` is a layout with parallel rendering (the default) after any history `ops` of render tasks, each run from start to end, in any order, calls of
setters at any time, other user code, events, and updates handed out in any order.  Three things are excluded by hypotheses: `lost`, a task
was run although its component was removed before (`C112_lost_violated`); `disordered`, an update was handed out before an earlier one for the same place
or for a place around or inside it (`C112_disordered_violated`); `stray`, as for serial rendering (C01).
-/
namespace Verif.Parallel
open Verif.Layout
variable {U : User}

/-! ### What a render adds to the history -/

theorem bodies_mem {x : Nat} {t : List Ev} : x ∈ bodiesOf t → .entered x ∈ t := by
  induction t with
  | nil => simp [bodiesOf]
  | cons e t ih => cases e <;> simp [bodiesOf] <;> grind

theorem bodies_reverse (t : List Ev) : bodiesOf t.reverse = (bodiesOf t).reverse := by
  induction t with
  | nil => rfl
  | cons e t ih => rw [List.reverse_cons, bodiesOf_append, ih]; cases e <;> simp [bodiesOf]

theorem unmounts_reverse (t : List Ev) : unmountsOf t.reverse = (unmountsOf t).reverse := by
  induction t with
  | nil => rfl
  | cons e t ih => rw [List.reverse_cons, unmountsOf_append, ih]; cases e <;> simp [unmountsOf]

theorem events_eq (t old : List Ev) : events old (t ++ old) = t.reverse := by
  simp [events]

theorem render_bodies {root : Comp} {l l' : Layout U} (hl : LInv root l) {fuel id : Nat} {u : Update}
    (h : renderOp fuel id l = (l', .update u)) : ∃ t, l'.st.log = t ++ l.st.log ∧ id ∈ bodiesOf t ∧ (bodiesOf t).Nodup := by
  have key : ∀ old s' new, renderAt fuel old l.st = some (s', new) → (∃ p c e ks, old = .comp p id c e ks) →
      ((idsL [old]).Nodup ∧ (∀ x ∈ idsL [old], x ∈ l.st.reg) ∧ deepL [old]) → ∃ t, s'.log = t ++ l.st.log ∧ id ∈ bodiesOf t ∧ (bodiesOf t).Nodup := by
    intro old s' new hr ⟨p, c, e, ks, ho⟩ hp
    obtain ⟨t, h1, h3, _, _, h2, _⟩ := renderAt_trace hr hl.inv hl.exit hp
    obtain ⟨p', id', c', e', ks', e2, ks2, s1, ho', hn, _, _⟩ := renderAt_run hr
    rw [ho] at ho'
    cases ho'
    refine ⟨_, h1, ?_⟩
    rw [bodiesOf_append, (effects_quiet _).1]
    refine ⟨List.mem_append_right _ (h2.subset ?_), h3⟩
    rw [hn]; simp
  unfold renderOp at h
  split at h
  · split at h
    · rename_i old hf
      split at h
      · rename_i s' new hr
        simp only [Prod.mk.injEq] at h
        rw [← h.1]
        exact key old s' new hr (findComp_mem id _ _ hf).2 (pre_tree hl hf)
      · cases h
    · split at h
      · rename_i old hf
        split at h
        · rename_i s' new hr
          simp only [Prod.mk.injEq] at h
          rw [← h.1]
          have hno0 : (idsL l.st.orphans).Nodup := (List.nodup_append.1 hl.nodup).2.1
          exact key old s' new hr (findCompL_mem id _ _ (orphanPart_find hno0 hf)).2 (pre_orphan hl hf)
        · cases h
      · cases h
  · cases h

theorem render_log {root : Comp} {l l' : Layout U} (hl : LInv root l) {fuel id : Nat} {u : Update}
    (h : renderOp fuel id l = (l', .update u)) : ∃ t, l'.st.log = t ++ l.st.log ∧ id ∈ bodiesOf t :=
  let ⟨t, a, b, _⟩ := render_bodies hl h
  ⟨t, a, b⟩

/-! ### The invariants -/

/-- The layout is one that serial rendering reaches too, and so is what the client will have once it has been given all updates. -/
structure Serial (w : U.World) (root : Comp) (p : Sys U) (sops : List (Layout.Op U)) : Prop where
  lay : (runSys (initSys U w root) sops).layout = p.lay
  stray : (runSys (initSys U w root) sops).stray = p.stray
  client : p.disordered = false → (runSys (initSys U w root) sops).client = applyAll p.queue p.client

/-- The scheduling agrees with the history. -/
structure PInv (p : Sys U) : Prop where
  j : J p.ctl
  ver : ∀ x, p.ctl.ver x = (bodiesOf p.lay.st.log).count x
  gone : ∀ x, p.ctl.life x = .gone → x ∈ unmountsOf p.lay.st.log
  cov : p.stray = false → p.lost = false → ∀ x, Covered p.ctl x

theorem runSys_snoc (s : Layout.Sys U) (sops : List (Layout.Op U)) (op : Layout.Op U) :
    runSys s (sops ++ [op]) = stepSys (runSys s sops) op := by simp [runSys]

theorem pinv_start {p : Sys U} (h : PInv p) (i : Nat) :
    PInv { p with ctl := start i p.ctl, lost := true } ∧ PInv { p with ctl := start i p.ctl, stray := true } :=
  ⟨⟨h.j.start i, h.ver, h.gone, fun _ h => by cases h⟩, ⟨h.j.start i, h.ver, h.gone, fun h => by cases h⟩⟩

theorem main_step {w : U.World} {root : Comp} (p : Sys U) (op : Op U) (hp : PInv p) (hs : ∃ sops, Serial w root p sops) :
    PInv (step p op) ∧ ∃ sops, Serial w root (step p op) sops := by
  obtain ⟨sops, hs⟩ := hs
  have hr := rinv_run w root sops
  have hlinv : LInv root p.lay := by rw [← hs.lay]; exact hr.lay
  cases op with
  | call x =>
    refine ⟨⟨hp.j.schedule x, ?_, ?_, fun a b y => Covered.schedule hp.j x y (hp.cov a b y)⟩, sops, ⟨hs.lay, hs.stray, hs.client⟩⟩
    · intro y; simp only [step, (schedule_ver p.ctl x).1]; exact hp.ver y
    · intro y; simp only [step, (schedule_ver p.ctl x).2]; exact hp.gone y
  | user f =>
    refine ⟨⟨hp.j, hp.ver, hp.gone, hp.cov⟩, sops ++ [.user f], ⟨?_, ?_, fun hd => ?_⟩⟩
    · rw [runSys_snoc, stepSys_layout, hs.lay]; rfl
    · rw [runSys_snoc, stepSys_stray, hs.stray]; simp [isStray, step]
    · rw [runSys_snoc]; exact hs.client hd
  | event t seq =>
    refine ⟨⟨hp.j, hp.ver, hp.gone, hp.cov⟩, sops ++ [.event t seq], ⟨?_, ?_, fun hd => ?_⟩⟩
    · rw [runSys_snoc, stepSys_layout, hs.lay]; rfl
    · rw [runSys_snoc, stepSys_stray, hs.stray]; simp [isStray, step]
    · rw [runSys_snoc]; exact hs.client hd
  | deliver k =>
    simp only [step, deliver]
    split
    · exact ⟨hp, sops, hs⟩
    · rename_i u hu
      refine ⟨⟨hp.j, hp.ver, hp.gone, hp.cov⟩, sops, ⟨hs.lay, hs.stray, fun hd => ?_⟩⟩
      simp only [Bool.or_eq_false_iff, List.any_eq_false] at hd
      rw [hs.client hd.1]
      obtain ⟨hk, hg⟩ := List.getElem?_eq_some_iff.1 hu
      have e1 : p.queue = p.queue.take k ++ u :: p.queue.drop (k + 1) := by
        rw [← hg]; simp
      have e2 : p.queue.eraseIdx k = p.queue.take k ++ p.queue.drop (k + 1) := List.eraseIdx_eq_take_drop_succ _ _
      simp only [e2]
      conv => lhs; rw [e1]
      exact applyAll_front _ _ _ _ (fun v hv => by simpa using hd.2 v hv)
  | run fuel i calls =>
    simp only [step, run]
    split
    · rename_i id obj ht
      split
      · rename_i hc
        split
        · rename_i l u he
          obtain ⟨t, hlog, hid⟩ := render_log hlinv he
          have hev : events p.lay.st.log l.st.log = t.reverse := by rw [hlog, events_eq]
          rw [hev]
          obtain ⟨f1, f2, f3, f4⟩ := follow_spec i t.reverse calls (start i p.ctl) (hp.j.start i) (Begun.start ht)
          refine ⟨⟨f1, fun x => ?_, fun x hx => ?_, fun a b x => f2 x ?_⟩, sops ++ [.render fuel id], ⟨?_, ?_, fun hd => ?_⟩⟩
          · simp only
            rw [f3, bodies_reverse, List.count_reverse, hlog, bodiesOf_append, List.count_append]
            have := hp.ver x
            simp only [start] at this ⊢
            omega
          · simp only at hx ⊢
            rw [hlog, unmountsOf_append]
            rcases f4 x hx with hx | hx
            · exact List.mem_append_right _ (hp.gone x hx)
            · rw [unmounts_reverse] at hx; exact List.mem_append_left _ (by simpa using hx)
          · by_cases hxi : id = x
            · subst hxi
              right
              simpa using bodies_mem hid
            · left
              simp only [Bool.or_eq_false_iff] at a
              exact Covered.start ht (hp.cov a.1 b x) hxi
          · rw [runSys_snoc, stepSys_layout, hs.lay]; simp only [stepOp, he]
          · rw [runSys_snoc, stepSys_stray, hs.stray, hs.lay]; simp [isStray, hc.1]
          · rw [runSys_snoc]
            unfold stepSys
            simp only [hs.lay, stepOp, he, hs.client hd, applyAll, List.foldl_append, List.foldl_cons, List.foldl_nil]
        · exact ⟨hp, sops, hs⟩
        · rename_i l o hu hd he
          have hl : l = p.lay ∧ isStray p.lay (.render fuel id) = true := by
            have := step_cases p.lay (.render fuel id)
            simp only [stepOp, he] at this
            unfold renderOp at he
            rw [if_pos hc.1] at he
            split at he
            · split at he
              · cases he; exact absurd rfl (hu _)
              · cases he; exact absurd rfl hd
            · rename_i hf
              split at he
              · split at he
                · cases he; exact absurd rfl (hu _)
                · cases he; exact absurd rfl hd
              · cases he; exact ⟨rfl, by simp [isStray, hc.1, hf]⟩
          refine ⟨?_, sops ++ [.render fuel id], ⟨?_, ?_, fun hd' => ?_⟩⟩
          · rw [hl.1]; exact (pinv_start hp i).2
          · rw [runSys_snoc, stepSys_layout, hs.lay]; simp only [stepOp, he]
          · rw [runSys_snoc, stepSys_stray, hs.stray, hs.lay, hl.2]; simp
          · rw [runSys_snoc]
            unfold stepSys
            simp only [hs.lay, stepOp, he]
            split
            · rename_i hx; cases hx; exact absurd rfl (hu _)
            · exact hs.client hd'
            · exact hs.client hd'
            · exact hs.client hd'
      · exact ⟨(pinv_start hp i).1, sops, ⟨hs.lay, hs.stray, hs.client⟩⟩
    · exact ⟨hp, sops, hs⟩

theorem pinv_init (w : U.World) (root : Comp) : PInv (init U w root) := by
  refine ⟨⟨fun i t ht hs => ?_, fun x i hx => ?_, fun _ => rfl, fun _ _ => rfl⟩, fun x => ?_, fun x hx => ?_, fun _ _ x ho => ?_⟩
  · simp only [init, create, List.nil_append] at ht ⊢
    cases i with
    | zero => simp at ht; subst ht; simp
    | succ i => simp at ht
  · simp only [init, create, put] at hx ⊢
    split at hx
    · rename_i e; subst e; simp at hx; subst hx; simp
    · cases hx
  · simp [init, create, initLayout, bodiesOf]
  · simp [init, create] at hx
  · simp [init, create] at ho

theorem main (w : U.World) (root : Comp) (ops : List (Op U)) :
    PInv (runs (init U w root) ops) ∧ ∃ sops, Serial w root (runs (init U w root) ops) sops := by
  have gen : ∀ (ops : List (Op U)) (p : Sys U), PInv p → (∃ sops, Serial w root p sops) →
      PInv (runs p ops) ∧ ∃ sops, Serial w root (runs p ops) sops := by
    intro ops
    induction ops with
    | nil => exact fun p h1 h2 => ⟨h1, h2⟩
    | cons op ops ih =>
      intro p h1 h2
      obtain ⟨a, b⟩ := main_step p op h1 h2
      exact ih (step p op) a b
  exact gen ops _ (pinv_init w root) ⟨[], ⟨rfl, rfl, fun _ => rfl⟩⟩

/-! ### The theorems -/

/-- **C112** (partial: renders do not overlap, nothing `lost` or `disordered`).  Whatever parallel rendering does, there is a history of serial rendering that leads to the
same layout and the same history of bodies, mounts and unmounts, and to the client that has all updates of finished tasks.  So all that holds
for every history of serial rendering (C01–C10, C31, C68) holds here too. -/
theorem C112_serial_partial (w : U.World) (root : Comp) (ops : List (Op U)) :
    let p := runs (init U w root) ops
    p.lost = false → p.disordered = false →
    ∃ sops, let s := runSys (initSys U w root) sops
      s.layout = p.lay ∧ s.stray = p.stray ∧ s.client = p.queue.foldl (fun c u => applyUpdate u c) p.client := by
  intro p _ hd
  obtain ⟨_, sops, hs⟩ := main w root ops
  exact ⟨sops, hs.lay, hs.stray, hs.client hd⟩

/-- **C112.**  A task that has not started, and was not cancelled, will render the current state of its component: the one made by the
latest render of it.  There is at most one such task for each component. -/
theorem C112_current (w : U.World) (root : Comp) (ops : List (Op U)) (i : Nat) (t : Task) :
    let p := runs (init U w root) ops
    p.ctl.tasks[i]? = some t → t.stat = .waiting →
      t.obj = (bodiesOf p.lay.st.log).count t.id ∧
      ∀ j t', p.ctl.tasks[j]? = some t' → t'.stat = .waiting → t'.id = t.id → j = i := by
  intro p ht hw
  have h := (main w root ops).1
  obtain ⟨a, b, _⟩ := h.j.w i t ht hw
  refine ⟨a.trans (h.ver t.id), fun j t' ht' hw' he => ?_⟩
  have := (h.j.w j t' ht' hw').2.1
  rw [he, b] at this
  simpa using this.symm

/-- **C112.**  A setter that is called leads to a render: as long as the component is there and its body was not called again since, a task for it waits. -/
theorem C112_owed_partial (w : U.World) (root : Comp) (ops : List (Op U)) (x : Nat) :
    let p := runs (init U w root) ops
    p.lost = false → p.stray = false → x ∈ p.lay.st.reg → p.ctl.owed x = true →
      ∃ t ∈ p.ctl.tasks, t.id = x ∧ t.stat = .waiting := by
  intro p hl hs hx ho
  obtain ⟨h, sops, hser⟩ := main w root ops
  refine h.cov hs hl x ho ?_
  cases hlife : p.ctl.life x with
  | here => rfl
  | unborn => have := h.j.u x hlife; rw [show p.ctl.owed x = true from ho] at this; cases this
  | gone =>
    have := h.gone x hlife
    have hc := (rinv_run w root sops).g.cinv
    rw [hser.lay] at hc
    exact absurd hx ((hc.unmounts x).1 this).2

/-- What `owed` means: a setter sets it, the start of the body takes it away, nothing else changes it. -/
theorem C112_owed_meaning (c : Ctl) (x y cur : Nat) (e : Ev) :
    (c.life x ≠ .unborn → (schedule c x).owed x = true) ∧ (y ≠ x → (schedule c x).owed y = c.owed y) ∧
    (observe cur (.entered x) c).owed x = false ∧ (e ≠ .entered x → (observe cur e c).owed x = c.owed x) := by
  refine ⟨fun h => ?_, fun h => ?_, ?_, fun h => ?_⟩
  · unfold schedule
    split
    · contradiction
    · split <;> simp
    · simp
  · unfold schedule
    split
    · rfl
    · split <;> simp [put_ne _ _ h]
    · simp [put_ne _ _ h]
  · simp only [observe]
    split
    · simp
    · split <;> simp
  · cases e with
    | entered z =>
      have hz : x ≠ z := fun he => h (by rw [he])
      simp only [observe]
      split
      · simp [put_ne _ _ hz]
      · split <;> simp [put_ne _ _ hz]
    | unmounted z => rfl
    | mounted z => rfl
    | rendered a b d f => rfl
    | effects z => rfl

/-- **C112** (partial: as above, and `stray`).  When all updates were handed out, the client holds exactly the expansion of the root component in which every
component is expanded by its own latest render; and when no task waits, that render of each of them began after its setter was last called. -/
theorem C112_view_partial (w : U.World) (root : Comp) (ops : List (Op U)) :
    let p := runs (init U w root) ops
    p.lost = false → p.disordered = false → p.stray = false → p.queue = [] →
    (p.client = .empty ∧ lastRender p.lay.st.log 0 = none) ∨
    ∃ v F, p.client = .model v ∧ (instIds F).Nodup ∧
      Shows U (lastRender p.lay.st.log) (fun _ _ => True) [(.comp root, none)] [v] F ∧
      ((∀ t ∈ p.ctl.tasks, t.stat ≠ .waiting) → ∀ x ∈ instIds F, p.ctl.owed x = false) := by
  intro p hl hd hst hq
  obtain ⟨h, sops, hs⟩ := main w root ops
  have hr := rinv_run w root sops
  have hc := hs.client hd
  rw [hq] at hc
  have hcl := hr.client (by rw [hs.stray]; exact hst)
  rw [hc, hs.lay] at hcl
  rcases hcl with ⟨h1, _, h3⟩ | ⟨h1, h2⟩
  · exact .inl ⟨h1, h3⟩
  · refine .inr ⟨_, _, h1, ?_, by simpa [viewL] using h2.shows (fun _ _ => True) (fun _ _ => trivial), fun hw x hx => ?_⟩
    · rw [instsL_ids]
      have := (List.nodup_append.1 hr.lay.nodup).1
      rw [hs.lay] at this
      simpa using this
    · rw [instsL_ids] at hx
      have hreg : x ∈ p.lay.st.reg := by
        have := (hr.lay.reg x).2
        rw [hs.lay] at this
        exact this (by simp at hx; simp [hx])
      cases ho : p.ctl.owed x with
      | false => rfl
      | true =>
        obtain ⟨t, ht, _, h2⟩ := C112_owed_partial w root ops x hl hst hreg ho
        exact absurd h2 (hw t ht)

/-- **C112** (partial: as above, and plain applications).  Then every event handler entry of what the client holds has a target under which the server runs
exactly the function that the latest render of its component attached there, and no two of them have the same target; and when no task waits, that render began after
the setter of the component was last called. -/
theorem C112_routing_partial (hU : U.Plain) (w : U.World) (root : Comp) (ops : List (Op U)) :
    let p := runs (init U w root) ops
    p.lost = false → p.disordered = false → p.stray = false → p.queue = [] →
    ∀ v, p.client = .model v → v.targets.Nodup ∧ ∃ F, Shows U (lastRender p.lay.st.log)
      (fun target h => handlerFor p.lay target = some h.fn) [(.comp root, none)] [v] F ∧
      ((∀ t ∈ p.ctl.tasks, t.stat ≠ .waiting) → ∀ x ∈ instIds F, p.ctl.owed x = false) := by
  intro p hl hd hst hq v hv
  obtain ⟨_, sops, hs⟩ := main w root ops
  have hc := hs.client hd
  rw [hq] at hc
  have hst' := hs.stray.trans hst
  have hcv : (runSys (initSys U w root) sops).client = .model v := hc.trans hv
  have hr := rinv_run w root sops
  have hh := lhand_run hU w root sops hst'
  refine ⟨C06_unique_targets_partial hU w root sops hst' v hcv, ?_⟩
  rcases hr.client hst' with ⟨h1, _⟩ | ⟨h1, h2⟩
  · rw [hcv] at h1; simp at h1
  · rw [hcv] at h1
    cases h1
    rw [hs.lay] at h2 hh ⊢
    have hq' : ∀ q ∈ tgtsL [p.lay.tree], handlerFor p.lay q.1 = some q.2.fn := by
      intro q hq
      unfold handlerFor
      rw [hh.hok q hq]; rfl
    refine ⟨_, by simpa [viewL] using h2.shows (fun target h => handlerFor p.lay target = some h.fn) hq', fun hw x hx => ?_⟩
    · rw [instsL_ids] at hx
      have hreg : x ∈ p.lay.st.reg := by
        have := (hr.lay.reg x).2
        rw [hs.lay] at this
        exact this (by simp at hx; simp [hx])
      cases ho : p.ctl.owed x with
      | false => rfl
      | true =>
        obtain ⟨t, ht, _, h2⟩ := C112_owed_partial w root ops x hl hst hreg ho
        exact absurd h2 (hw t ht)

/-- The root is rendered; then the setters of both components are called, the inner one's while the outer one is rendered too; the task of the inner one is
cancelled by the render of the outer one; then the inner one alone. -/
def exOps : List (Op exApp) :=
  [.run 20 0 [], .deliver 0, .user (fun _ => (7 : Nat)), .call 1, .call 1, .call 0, .run 20 2 [], .deliver 0,
    .user (fun _ => (8 : Nat)), .call 1, .run 20 3 [[], [1]], .deliver 0]

def exP : Sys exApp := runs (init exApp (5 : Nat) { type := .fn 0 }) exOps

example : exP.lost = false ∧ exP.disordered = false ∧ exP.stray = false ∧ exP.queue.length = 0 ∧ exApp.Plain ∧
    exP.ctl.tasks = [⟨0, 0, .finished⟩, ⟨1, 1, .cancelled⟩, ⟨0, 1, .finished⟩, ⟨1, 2, .finished⟩, ⟨1, 3, .waiting⟩] ∧
    exP.ctl.owed 1 = true ∧ 1 ∈ exP.lay.st.reg ∧ exP.client = .model (.obj { tag := "" } (some [.obj { tag := "div" } (some
    [.obj { tag := "" } (some [.obj { tag := "p", handlers := some [⟨"onClick", "/0/a/0:onClick", false, false, none, none⟩] }
      (some [.text "8"])]), .text "x"])])) :=
  ⟨by decide +kernel, by decide +kernel, by decide +kernel, by decide +kernel, exApp_plain, by decide +kernel, by decide +kernel, by decide +kernel,
    Client.holds_iff (by decide +kernel)⟩

/-- **C112 is violated** when an update overtakes an earlier one that concerns it: the render of the inner component (with 7) finishes, then that of the outer one
(with 9); the client is given the second before the first, and shows 7 for good: nothing waits and nothing is owed. -/
theorem C112_disordered_violated : ∃ ops : List (Op exApp),
    let p := runs (init exApp (5 : Nat) { type := .fn 0 }) ops
    p.lost = false ∧ p.stray = false ∧ p.queue.length = 0 ∧ p.ctl.tasks.all (fun t => t.stat != .waiting) = true ∧ handlerFor p.lay "/0/a/0:onClick" = some 9 ∧
    p.client = .model (.obj { tag := "" } (some [.obj { tag := "div" } (some
    [.obj { tag := "" } (some [.obj { tag := "p", handlers := some [⟨"onClick", "/0/a/0:onClick", false, false, none, none⟩] }
      (some [.text "7"])]), .text "x"])])) :=
  ⟨[.run 20 0 [], .deliver 0, .user (fun _ => (7 : Nat)), .call 1, .call 0, .run 20 1 [], .user (fun _ => (9 : Nat)), .run 20 2 [],
      .deliver 1, .deliver 0],
    by decide +kernel, by decide +kernel, by decide +kernel, by decide +kernel, by decide +kernel, Client.holds_iff (by decide +kernel)⟩

/-- `fn 0` (root) shows `fn 1` unless the world is 1. -/
def dropApp : User where
  World := Nat
  render w _ c _ := match c.type with
    | .fn 0 => if w = 1 then (w, .ok .none) else (w, .ok (.comp { type := .fn 1 }))
    | _ => (w, .ok (.elem { tag := some "p" } []))
  unmount w _ := w
  didRender w _ := w
  provValue n := n
  provChildren _ := []

/-- **C112 is violated** for a component that is removed while its setter was called: its task is not cancelled, and will render it although it was
unmounted.  Here one handler calls the setters of the outer and of the inner component, and the outer one then does not show the inner one any more.
(What the task then does: C106 and C108.) -/
theorem C112_lost_violated : ∃ ops : List (Op dropApp),
    let p := runs (init dropApp (0 : Nat) { type := .fn 0 }) ops
    p.lost = false ∧ p.stray = false ∧ ¬ Failed p.lay.st.log ∧ p.ctl.tasks[2]? = some ⟨1, 1, .waiting⟩ ∧ 1 ∈ unmountsOf p.lay.st.log ∧
    1 ∉ p.lay.st.reg :=
  ⟨[.run 20 0 [], .deliver 0, .user (fun _ => (1 : Nat)), .call 0, .call 1, .run 20 1 [], .deliver 0],
    by decide +kernel, by decide +kernel, by rw [failedB_iff]; decide +kernel, by decide +kernel, by decide +kernel, by decide +kernel⟩

end Verif.Parallel
