import Verif.Whole.Serial
import Verif.Whole.StateProps
/-! # C113 with serial rendering: at rest the page is a function of the state -/
namespace Verif.Whole
open Verif.Layout (VJson Update Layout User Comp Raw Ctx lastRender handlerFor Failed St Ev bodiesOf renderOp renderAt)
open Verif.Parallel (put put_same put_ne events)
variable {A : App}

/-! ## The queue -/

/-- An instance that is marked as scheduled is in the queue. -/
def Queued (q : (Nat → Bool) × List Nat) (x : Nat) : Prop := q.1 x = true → x ∈ q.2

theorem request_keeps (q : (Nat → Bool) × List Nat) (x y : Nat) (h : q.1 x = true) : (request q y).1 x = true := by
  unfold request
  split
  · exact h
  · by_cases hxy : x = y
    · subst hxy; simp
    · simp only [put_ne _ _ hxy]; exact h

theorem request_other (q : (Nat → Bool) × List Nat) (x y : Nat) (hxy : x ≠ y) : (request q y).1 x = q.1 x := by
  unfold request
  split
  · rfl
  · simp only [put_ne _ _ hxy]

theorem request_set (q : (Nat → Bool) × List Nat) (x : Nat) : (request q x).1 x = true := by
  unfold request
  split
  · assumption
  · simp

theorem request_pending (q : (Nat → Bool) × List Nat) (x y : Nat) (h : x ∈ q.2) : x ∈ (request q y).2 := by
  unfold request
  split
  · exact h
  · simp only
    split
    · exact h
    · simp [h]

theorem Queued.request {q : (Nat → Bool) × List Nat} {x : Nat} (h : Queued q x) (y : Nat) : Queued (request q y) x := by
  intro hf
  by_cases hxy : x = y
  · subst hxy
    by_cases hx : q.1 x = true
    · exact request_pending q x x (h hx)
    · unfold Whole.request
      rw [if_neg hx]
      simp only
      split
      · assumption
      · simp
  · rw [request_other q x y hxy] at hf
    exact request_pending q x y (h hf)

theorem requests_keeps (l : List Nat) (x : Nat) : ∀ q : (Nat → Bool) × List Nat, q.1 x = true → (l.foldl request q).1 x = true := by
  induction l with
  | nil => exact fun _ h => h
  | cons y l ih => exact fun q h => ih _ (request_keeps q x y h)

theorem requests_set (l : List Nat) (x : Nat) (hx : x ∈ l) : ∀ q : (Nat → Bool) × List Nat, (l.foldl request q).1 x = true := by
  induction l with
  | nil => cases hx
  | cons y l ih =>
    intro q
    by_cases hxy : x = y
    · subst hxy; exact requests_keeps l x _ (request_set q x)
    · exact ih (by simpa [hxy] using hx) _

theorem requests_pending (l : List Nat) (x : Nat) : ∀ q : (Nat → Bool) × List Nat, x ∈ q.2 → x ∈ (l.foldl request q).2 := by
  induction l with
  | nil => exact fun _ h => h
  | cons y l ih => exact fun q h => ih _ (request_pending q x y h)

theorem Queued.requests {x : Nat} (l : List Nat) : ∀ {q : (Nat → Bool) × List Nat}, Queued q x → Queued (l.foldl Whole.request q) x := by
  induction l with
  | nil => exact fun h => h
  | cons y l ih => exact fun h => ih (h.request y)

variable {called : Nat → List Nat}

theorem heed_keeps (es : List Ev) (x : Nat) (hx : .entered x ∉ es) : ∀ q : (Nat → Bool) × List Nat, q.1 x = true → (es.foldl (heed called) q).1 x = true := by
  induction es with
  | nil => exact fun _ h => h
  | cons e es ih =>
    intro q h
    simp only [List.mem_cons, not_or] at hx
    refine ih hx.2 _ ?_
    cases e with
    | entered y =>
      refine requests_keeps _ x _ ?_
      have : x ≠ y := fun e => hx.1 (by rw [e])
      simp only [put_ne _ _ this]; exact h
    | _ => exact h

theorem heed_pending (es : List Ev) (x : Nat) : ∀ q : (Nat → Bool) × List Nat, x ∈ q.2 → x ∈ (es.foldl (heed called) q).2 := by
  induction es with
  | nil => exact fun _ h => h
  | cons e es ih =>
    intro q h
    refine ih _ ?_
    cases e with
    | entered y => exact requests_pending _ x _ h
    | _ => exact h

theorem heed_queued (es : List Ev) (x : Nat) : ∀ q : (Nat → Bool) × List Nat, (Queued q x ∨ .entered x ∈ es) → Queued (es.foldl (heed called) q) x := by
  induction es with
  | nil => intro q h; simpa using h
  | cons e es ih =>
    intro q h
    refine ih _ ?_
    by_cases he : e = .entered x
    · subst he
      exact .inl (Queued.requests _ (fun h => by simp at h))
    · rcases h with h | h
      · left
        cases e with
        | entered y =>
          have : x ≠ y := fun e => he (by rw [e])
          refine Queued.requests _ fun hf => ?_
          simp only [put_ne _ _ this] at hf
          exact h hf
        | _ => exact h
      · simp only [List.mem_cons, (Ne.symm he), false_or] at h
        exact .inr h

/-- A setter that a body has called marks its instance. -/
theorem heed_due {s s' : St A.user} {t : List Ev} {x : Nat} (d : Due s s' t x) (q : (Nat → Bool) × List Nat) :
    (t.reverse.foldl (heed s'.world.called) q).1 x = true := by
  obtain ⟨a, y, b, rfl, h1, h2, _⟩ := d
  simp only [List.reverse_append, List.reverse_cons, List.foldl_append, List.foldl_cons, List.foldl_nil]
  exact heed_keeps _ x (by simpa using h2) _ (requests_set _ x h1 _)

/-! ## The invariant -/

/-- Components that are not marked show the present state; marked ones that are displayed are in the queue. -/
structure SoundS (s : SWeb A) : Prop where
  fine : ∀ x c seen out, lastRender s.web.layout.st.log x = some (c, seen, out) → s.flag x = false →
    Fine (Rejected (A.Plain ∧ s.stray = false)) A (values s.web.layout.st) x c seen out
  due : ∀ x ∈ s.web.layout.tree.ids, s.flag x = true → x ∈ s.pending
  started : lastRender s.web.layout.st.log 0 ≠ none ∨ 0 ∈ s.pending

theorem soundS_init (A : App) (root : Comp) : SoundS (initS A root) where
  fine x c seen raw h := by simp [initS, initWeb, Layout.initLayout, lastRender] at h
  due x _ h := by simp [initS] at h
  started := .inr (by simp [initS])

theorem SoundS.set {s : SWeb A} (h : SoundS s) (x k : Nat) (g : A.Val → A.Val) : SoundS (setSerial s x k g) := by
  unfold setSerial
  split
  · exact h
  · rename_i v hv
    split
    · exact h
    · refine ⟨fun y c seen raw hr hy => ?_, fun y hy hf => ?_, ?_⟩
      · by_cases hyx : y = x
        · subst hyx
          exact absurd ((request_set (s.flag, s.pending) y).symm.trans hy) (by simp)
        · have hy' : s.flag y = false := (request_other (s.flag, s.pending) y x hyx).symm.trans hy
          exact (h.fine y c seen raw hr hy').mono (fun v' hv' => (put_ne (values s.web.layout.st) _ hyx).trans hv')
      · exact Queued.request (q := (s.flag, s.pending)) (fun hf => h.due y hy hf) x hf
      · exact h.started.imp _root_.id (request_pending (s.flag, s.pending) 0 x)

theorem SoundS.sets (l : List (Nat × Nat × (A.Val → A.Val))) : ∀ {s : SWeb A}, SoundS s → SoundS (l.foldl (fun s p => setSerial s p.1 p.2.1 p.2.2) s) := by
  induction l with
  | nil => exact fun h => h
  | cons p l ih => exact fun h => ih (h.set p.1 p.2.1 p.2.2)

theorem mem_eraseIdx_ne {l : List Nat} {k id x : Nat} (hk : l[k]? = some id) (hx : x ∈ l) (hne : x ≠ id) : x ∈ l.eraseIdx k := by
  obtain ⟨j, hj⟩ := List.getElem?_of_mem hx
  rw [List.mem_eraseIdx_iff_getElem?]
  refine ⟨j, fun e => ?_, hj⟩
  subst e
  rw [hk] at hj
  exact hne (Option.some.inj hj).symm

/-- What a render does to the displayed instances. -/
theorem render_ids {root : Comp} {l l' : Layout A.user} (hl : Layout.LInv root l) {fuel id : Nat} {o : Layout.Out} (h : renderOp fuel id l = (l', o)) (hd : o ≠ .diverged) :
    (∃ u t, o = .update u ∧ l'.st.log = t ++ l.st.log ∧ .entered id ∈ t ∧ ∀ x ∈ l'.tree.ids, .entered x ∈ t ∨ (x ∈ l.tree.ids ∧ x ≠ id)) ∨
    (id ∉ l.tree.ids ∧ l' = l ∧ ∀ u, o ≠ .update u) := by
  have hn : l.tree.ids.Nodup := (List.nodup_append.1 hl.nodup).1
  cases o with
  | update u =>
    left
    obtain ⟨t, h1, h2⟩ := Parallel.render_log hl h
    rw [mem_bodiesOf] at h2
    refine ⟨u, t, rfl, h1, h2, ?_⟩
    unfold renderOp at h
    split at h
    · split at h
      · rename_i old hf
        split at h
        · rename_i s' new hr
          cases h
          obtain ⟨t', h3, _, _, _, h4, _⟩ := Layout.renderAt_trace hr hl.inv hl.exit (Layout.pre_tree hl hf)
          obtain ⟨P, Q, h5, h6⟩ := Layout.replaceComp_ids id new l.tree old hn hf
          have ht : t = (bodiesOf t').reverse.map Ev.effects ++ t' := List.append_cancel_right (h1.symm.trans h3)
          intro x hx
          simp only [h6, List.mem_append] at hx
          by_cases hx' : x ∈ new.ids
          · left
            have := h4.subset (by simpa using hx')
            rw [mem_bodiesOf] at this
            rw [ht]; simp [this]
          · right
            have hid : id ∈ old.ids := by
              obtain ⟨p, c, e, ks, rfl⟩ := (Layout.findComp_mem _ _ _ hf).2
              simp [Layout.Node.ids]
            rw [h5] at hn ⊢
            have hPQ : x ∈ P ∨ x ∈ Q := by
              rcases hx with (hx | hx) | hx
              · exact .inl hx
              · exact absurd hx hx'
              · exact .inr hx
            refine ⟨by simp only [List.mem_append]; rcases hPQ with h | h <;> simp [h], fun e => ?_⟩
            subst e
            rw [List.nodup_append] at hn
            obtain ⟨a, _, b⟩ := hn
            rw [List.nodup_append] at a
            rcases hPQ with h | h
            · exact a.2.2 _ h _ hid rfl
            · exact b x (by simp [hid]) x h rfl
        · cases h
      · rename_i hf
        split at h
        · split at h
          · cases h
            intro x hx
            refine .inr ⟨hx, fun e => ?_⟩
            subst e
            have := Layout.findComp_of_mem _ _ hx
            rw [hf] at this
            cases this
          · cases h
        · cases h
    · cases h
  | diverged => exact absurd rfl hd
  | skipped =>
    right
    unfold renderOp at h
    split at h
    · split at h
      · split at h <;> cases h
      · split at h
        · split at h <;> cases h
        · cases h
    · rename_i hreg
      cases h
      refine ⟨fun h => hreg ((hl.reg id).2 (by simp [h])), rfl, by simp⟩
  | raised m =>
    right
    unfold renderOp at h
    split at h
    · split at h
      · split at h <;> cases h
      · rename_i hf
        split at h
        · split at h <;> cases h
        · cases h
          refine ⟨fun hx => ?_, rfl, by simp⟩
          have := Layout.findComp_of_mem _ _ hx
          rw [hf] at this
          cases this
    · cases h

theorem stepWeb_layout {U : User} (w : Web U) (op : Layout.Op U) : (stepWeb w op).layout = (Layout.stepOp w.layout op).1 := by
  unfold stepWeb
  split <;> simp_all

theorem SoundS.render {s : SWeb A} (h : SoundS s) {root : Comp} (hl : Layout.LInv root s.web.layout)
    (hl' : Layout.LInv root (stepWeb s.web (.user fun m => { m with called := fun _ => [] })).layout)
    (hh : A.Plain → s.stray = false → Layout.LHand (stepWeb s.web (.user fun m => { m with called := fun _ => [] })).layout) (fuel k : Nat) :
    SoundS (renderSerial s fuel k) := by
  unfold renderSerial
  split
  · exact h
  · rename_i id hk
    simp only
    have h1 : SoundS { s with web := stepWeb s.web (.user fun m => { m with called := fun _ => [] }) } := ⟨h.fine, h.due, h.started⟩
    revert h1 hl' hh
    generalize stepWeb s.web (.user fun m => { m with called := fun _ => [] }) = w
    intro hl' hh h1
    split
    · exact h
    · rename_i l o hd he
      have hlay : (stepWeb w (.render fuel id)).layout = l := by
        rw [stepWeb_layout]
        simp only [Layout.stepOp, he]
      have hroot : 0 ∈ w.layout.tree.ids := by
        obtain ⟨e, ks, ht⟩ := hl'.isRoot
        rw [ht]; simp [Layout.Node.ids]
      rcases render_ids hl' he hd with ⟨u, t, rfl, h2, h3, h4⟩ | ⟨h2, rfl, _⟩
      · obtain ⟨t', hs⟩ := renderOp_rejects (P := A.Plain ∧ (s.stray || Layout.isStray w.layout (.render fuel id)) = false) he (fun ⟨h5, h6⟩ => by
          rw [Bool.or_eq_false_iff] at h6
          refine ⟨h5, ⟨root, hl'⟩, hh h5 h6.1, ?_⟩
          have hreg : id ∈ w.layout.st.reg := by
            unfold renderOp at he
            split at he
            · assumption
            · cases he
          simpa [Layout.isStray, hreg] using h6.2)
        have ht : t' = t := List.append_cancel_right (hs.log.symm.trans h2)
        subst ht
        have hn : (bodiesOf t').Nodup := by
          obtain ⟨t'', h5, _, h6⟩ := Parallel.render_bodies hl' he
          rw [hs.log, List.append_cancel_right_eq] at h5
          rw [h5]; exact h6
        have hev : events w.layout.st.log l.st.log = t'.reverse := by rw [hs.log, Parallel.events_eq]
        rw [hev]
        have hdue : ∀ x, Due w.layout.st l.st t' x → (t'.reverse.foldl (heed l.st.world.called) (s.flag, s.pending.eraseIdx k)).1 x = true :=
          fun x d => heed_due d _
        refine ⟨fun x c seen raw hx ho => ?_, fun x hx hf => ?_, ?_⟩
        · simp only [hlay] at hx ⊢
          simp only at ho
          have hnd : ¬ Due w.layout.st l.st t' x := fun d => by
            rw [hdue x d] at ho
            cases ho
          simp only [hs.log, lastRender_append] at hx
          cases hl : lastRender t' x with
          | some r =>
            rw [hl] at hx
            rcases hs.fine hn x c seen raw (hl.trans hx) with h1 | h1 | h1
            · exact h1
            · exact absurd h1 hnd
            · cases h1
          | none =>
            rw [hl] at hx
            have hne : .entered x ∉ t' := fun h1 => by
              rcases hs.done x (mem_bodiesOf.2 h1) with h2 | h2
              · cases h2
              · exact absurd hl h2
            refine ((h1.fine x c seen raw hx ?_).weaken (fun _ _ hq hp => hq ⟨hp.1, (Bool.or_eq_false_iff.1 hp.2).1⟩)).mono fun v hv => ?_
            · cases hfl : s.flag x with
              | false => rfl
              | true =>
                rw [heed_keeps t'.reverse x (by simpa using hne) _ hfl] at ho
                cases ho
            · rcases hs.world x v hv with h1 | h1 | h1
              · exact h1
              · exact absurd h1 hnd
              · exact absurd h1 hne
        · simp only [hlay] at hx
          refine heed_queued t'.reverse x (s.flag, s.pending.eraseIdx k) ?_ hf
          rcases h4 x hx with h5 | ⟨h5, h6⟩
          · exact .inr (by simpa using h5)
          · exact .inl fun hf => mem_eraseIdx_ne hk (h1.due x h5 hf) h6
        · simp only [hlay]
          rcases h1.started with h5 | h5
          · left
            simp only [hs.log, lastRender_append]
            cases hl : lastRender t' 0 <;> simp
            exact h5
          · by_cases h0 : id = 0
            · subst h0
              have := Layout.findComp_of_mem _ _ hroot
              refine .inl (render_completes he ?_)
              cases hf : Layout.findComp 0 w.layout.tree with
              | none => rw [hf] at this; cases this
              | some _ => rfl
            · exact .inr (heed_pending _ _ _ (mem_eraseIdx_ne hk h5 (Ne.symm h0)))
      · have hev : events w.layout.st.log w.layout.st.log = [] := by simp [events]
        rw [hev]
        refine ⟨fun x c seen raw hx ho => ?_, fun x hx hf => ?_, ?_⟩
        · simp only [hlay] at hx ⊢
          exact (h1.fine x c seen raw hx ho).weaken (fun _ _ hq hp => hq ⟨hp.1, (Bool.or_eq_false_iff.1 hp.2).1⟩)
        · simp only [hlay] at hx
          exact mem_eraseIdx_ne hk (h1.due x hx hf) (fun e => h2 (by rw [← e]; exact hx))
        · simp only [hlay]
          exact h1.started.imp _root_.id (fun h5 => mem_eraseIdx_ne hk h5 (fun e => h2 (by rw [← e]; exact hroot)))

/-! ## The application is one of `Whole/Model.lean` -/

/-- The page and `stray` come from a history of layout and client. -/
def Hist (root : Comp) (s : SWeb A) : Prop :=
  ∃ ops, s.web = runWeb (App.Mem.empty A) root ops ∧ s.stray = (Layout.runSys (Layout.initSys A.user (App.Mem.empty A) root) ops).stray

theorem Hist.snoc {root : Comp} {s s' : SWeb A} (h : Hist root s) (op : Layout.Op A.user) (hw : s'.web = stepWeb s.web op)
    (hs : s'.stray = (s.stray || Layout.isStray s.web.layout op)) : Hist root s' := by
  obtain ⟨ops, a, b⟩ := h
  refine ⟨ops ++ [op], by rw [hw, a]; simp [runWeb], ?_⟩
  rw [hs, b, a, web_layout, ← Layout.stepSys_stray]
  simp [Layout.runSys]

theorem Hist.set {root : Comp} {s : SWeb A} (h : Hist root s) (x k : Nat) (g : A.Val → A.Val) : Hist root (setSerial s x k g) := by
  unfold setSerial
  split
  · exact h
  · split
    · exact h
    · rename_i v _ _
      exact h.snoc (.user fun m => { m with vals := put m.vals x (some (put v k (g (v k)))) }) rfl (by simp [Layout.isStray])

theorem Hist.sets {root : Comp} (l : List (Nat × Nat × (A.Val → A.Val))) : ∀ {s : SWeb A}, Hist root s →
    Hist root (l.foldl (fun s p => setSerial s p.1 p.2.1 p.2.2) s) := by
  induction l with
  | nil => exact fun h => h
  | cons p l ih => exact fun h => ih (h.set p.1 p.2.1 p.2.2)

theorem Hist.clear {root : Comp} {s : SWeb A} (h : Hist root s) : Hist root { s with web := stepWeb s.web (.user fun m => { m with called := fun _ => [] }) } :=
  h.snoc (.user fun m => { m with called := fun _ => [] }) rfl (by simp [Layout.isStray])

theorem Hist.step {root : Comp} {s : SWeb A} (h : Hist root s) (op : DoS A) : Hist root (stepS s op) := by
  cases op with
  | set x k g => exact h.set x k g
  | render fuel k =>
    simp only [stepS, renderSerial]
    split
    · exact h
    · rename_i id _
      split
      · exact h
      · exact h.clear.snoc (.render fuel id) rfl rfl
  | event target seq =>
    have h1 : Hist root { s with web := stepWeb s.web (.event target seq) } := h.snoc (.event target seq) rfl (by simp [Layout.isStray])
    simp only [stepS]
    split
    · exact h1
    · exact h1.sets _

theorem linv_web (root : Comp) (ops : List (Layout.Op A.user)) : Layout.LInv root (runWeb (App.Mem.empty A) root ops).layout := by
  rw [web_layout]
  exact (Layout.rinv_run (U := A.user) (App.Mem.empty A) root ops).lay

theorem SoundS.step {root : Comp} {s : SWeb A} (h : SoundS s) (hr : Hist root s) (op : DoS A) : SoundS (stepS s op) := by
  cases op with
  | set x k g => exact h.set x k g
  | render fuel k =>
    have hc := hr.clear
    obtain ⟨ops, hw, _⟩ := hr
    obtain ⟨ops', hw', hs'⟩ := hc
    simp only at hw' hs'
    refine h.render (root := root) (hw ▸ linv_web root ops) (hw' ▸ linv_web root ops') (fun hA hst => ?_) fuel k
    rw [hw', web_layout]
    exact Layout.lhand_run hA.user (App.Mem.empty A) root ops' (hs'.symm.trans hst)
  | event target seq =>
    have h1 : SoundS { s with web := stepWeb s.web (.event target seq) } := ⟨h.fine, h.due, h.started⟩
    simp only [stepS]
    split
    · exact h1
    · exact h1.sets _

theorem soundS_run (A : App) (root : Comp) (ops : List (DoS A)) : SoundS (runS A root ops) ∧ Hist root (runS A root ops) := by
  have gen : ∀ (ops : List (DoS A)) (s : SWeb A), Hist root s → SoundS s → SoundS (ops.foldl stepS s) ∧ Hist root (ops.foldl stepS s) := by
    intro ops
    induction ops with
    | nil => exact fun s hr h => ⟨h, hr⟩
    | cons op ops ih => exact fun s hr h => ih _ (hr.step op) (h.step hr op)
  exact gen ops _ ⟨[], rfl, rfl⟩ (soundS_init A root)

/-! ## The theorem -/

/-- **C113** (partial: not `stray`, the root component has not failed, other hooks are left out), with serial rendering.  Whatever was clicked and set, also by
components while they were rendered, whatever components failed, and in whatever order the queue gave out the instances: when the queue is empty, the page is what
the components return for the present state (or the messages of the exceptions that they raise in it), each instance occurs in it once, and the handlers in it are the ones that the components attach in this state. -/
theorem C113_serial_partial (V : Values) (A : App) (hA : A.Plain) (root : Comp) (ops : List (DoS A)) :
    let s := runS A root ops
    s.stray = false → ¬ RootFailed s.web.layout.st.log → s.pending = [] →
    ∃ o ids, s.web.page V = some o ∧ ids.Nodup ∧
      View V A s.state (fun target h => handlerFor s.web.layout target = some h.fn) (fun _ => none) [.comp root] [o] ids := by
  intro s hst hf hq
  obtain ⟨hsd, ops', hs, hst'⟩ := soundS_run A root ops
  have hlay : s.web.layout = (Layout.runSys (Layout.initSys A.user (App.Mem.empty A) root) ops').layout := by
    change (runS A root ops).web.layout = _
    rw [hs, web_layout]
  have hst' := hst'.symm.trans hst
  have hr := Layout.rinv_run (U := A.user) (App.Mem.empty A) root ops'
  have hh := Layout.lhand_run hA.user (App.Mem.empty A) root ops' hst'
  have hc := web_current (U := A.user) (App.Mem.empty A) root ops' hst' (by rw [← hlay]; exact hf)
  rw [← hs] at hc
  rw [← hlay] at hh
  have hlog : lastRender s.web.layout.st.log 0 ≠ none := by
    rcases hsd.started with h | h
    · exact h
    · rw [show (runS A root ops).pending = [] from hq] at h; cases h
  have hl := hr.lay
  rw [← hlay] at hl
  rcases hr.client hst' with ⟨_, _, h1⟩ | ⟨h1, h2⟩
  · rw [← hlay] at h1; exact absurd h1 hlog
  · rw [← hlay] at h1 h2
    have hcur : s.web.current = some s.web.layout.tree.view := by
      rcases hc with ⟨h3, _⟩ | ⟨ws, h3, h4⟩
      · rw [h1] at h3; cases h3
      · rw [h1] at h3
        exact h4.trans (congrArg some (Layout.Client.model.inj h3).symm)
    obtain ⟨ids, a, b⟩ := view_of (V := V) (st := s.state) h2 (fun target h => handlerFor s.web.layout target = some h.fn)
      (fun q hq => by unfold handlerFor; rw [hh.hok q hq]; rfl)
      (fun x hx c seen out hx' => (hsd.fine x c seen out hx' (by
        cases ho : (runS A root ops).flag x with
        | false => rfl
        | true =>
          have := hsd.due x (by simpa using hx) ho
          rw [show (runS A root ops).pending = [] from hq] at this
          cases this)).weaken (fun _ _ hq => hq ⟨hA, hst⟩))
      (fun x c seen raw hx => (hh.log x c seen (.ok raw) (Layout.lastRender_mem hx)).2)
    refine ⟨_, ids, by unfold Web.page; rw [hcur]; rfl, ?_, a⟩
    have : (Layout.idsL [s.web.layout.tree]).Nodup := by
      have := hl.nodup
      rw [List.nodup_append] at this
      simpa using this.1
    exact this.sublist b

/-! ## Events -/

theorem set_stateS {A : App} (hsame : ∀ a b, A.same a b = true → a = b) (s : SWeb A) (x k : Nat) (g : A.Val → A.Val) (y : Nat) :
    (setSerial s x k g).state y = (s.state y).map (fun v j => if x = y ∧ k = j then g (v j) else v j) := by
  have hother : x ≠ y → s.state y = (s.state y).map (fun v j => if x = y ∧ k = j then g (v j) else v j) := by
    intro h
    cases s.state y <;> simp [h]
  unfold setSerial
  split
  · rename_i hv
    by_cases h : x = y
    · subst h; rw [hv]; rfl
    · exact hother h
  · rename_i v hv
    split
    · rename_i he
      by_cases h : x = y
      · subst h
        rw [hv]
        simp only [Option.map_some, true_and, Option.some.injEq]
        funext j
        split
        · rename_i e; subst e; exact (hsame _ _ he).symm
        · rfl
      · exact hother h
    · by_cases h : x = y
      · subst h
        rw [hv]
        change put s.state x (some (put v k (g (v k)))) x = _
        rw [put_same]
        simp only [Option.map_some, true_and, Option.some.injEq]
        funext j
        by_cases e : k = j
        · subst e; simp
        · simp [e, put_ne _ _ (Ne.symm e)]
      · change put s.state x (some (put v k (g (v k)))) y = _
        rw [put_ne _ _ (Ne.symm h)]
        exact hother h

theorem sets_stateS {A : App} (hsame : ∀ a b, A.same a b = true → a = b) (l : List (Nat × Nat × (A.Val → A.Val))) (s : SWeb A) (y : Nat) :
    (l.foldl (fun s p => setSerial s p.1 p.2.1 p.2.2) s).state y = (s.state y).map (fun v j => cellAfter l y j (v j)) := by
  induction l generalizing s with
  | nil => simp [cellAfter]
  | cons p l ih =>
    rw [List.foldl_cons, ih, set_stateS hsame, Option.map_map]
    rfl

/-- The operation is a call of `render()`. -/
def DoS.isRender : DoS A → Bool
  | .render _ _ => true
  | _ => false

theorem serial_steps (s : SWeb A) (fuel k : Nat) : (renderSerial s fuel k).web = s.web ∨
    Steps' (Rejected False) (stepWeb s.web (.user fun m => { m with called := fun _ => [] })).layout.st (renderSerial s fuel k).web.layout.st := by
  unfold renderSerial
  split
  · exact .inl rfl
  · rename_i id _
    simp only
    generalize stepWeb s.web (.user fun m => { m with called := fun _ => [] }) = w
    split
    · exact .inl rfl
    · rename_i l o hd he
      right
      have hlay : (stepWeb w (.render fuel id)).layout = l := by
        rw [stepWeb_layout]
        simp only [Layout.stepOp, he]
      simp only [hlay]
      cases o with
      | update u => exact renderOp_steps he
      | diverged => exact absurd rfl hd
      | _ =>
        rw [show l = w.layout by
          unfold renderOp at he
          split at he
          · split at he
            · split at he <;> cases he
            · split at he
              · split at he <;> cases he
              · cases he <;> rfl
          · cases he <;> rfl]
        exact .refl _

theorem renders_stateS (hquiet : A.Quiet) (ops : List (DoS A)) (h : ∀ op ∈ ops, op.isRender = true) (s : SWeb A) :
    (∀ x v, s.state x = some v → (ops.foldl stepS s).state x = some v) ∧
    ∀ x v, (ops.foldl stepS s).state x = some v → s.state x = some v ∨ ∃ c seen, v = A.first x c seen := by
  induction ops generalizing s with
  | nil => exact ⟨fun _ _ h => h, fun _ _ h => .inl h⟩
  | cons op ops ih =>
    obtain ⟨a, b⟩ := ih (fun op ho => h op (by simp [ho])) (stepS s op)
    have hop := h op (by simp)
    have step : (∀ x v, s.state x = some v → (stepS s op).state x = some v) ∧
        ∀ x v, (stepS s op).state x = some v → s.state x = some v ∨ ∃ c seen, v = A.first x c seen := by
      cases op with
      | set x k g => cases hop
      | event target seq => cases hop
      | render fuel k =>
        rcases serial_steps s fuel k with h1 | ⟨t, ht⟩
        · simp only [stepS, SWeb.state, h1]
          exact ⟨fun _ _ h => h, fun _ _ h => .inl h⟩
        · obtain ⟨a, b, _⟩ := ht.still hquiet
          exact ⟨a, b⟩
    refine ⟨fun x v hv => a x v (step.1 x v hv), fun x v hv => ?_⟩
    rcases b x v hv with h1 | h1
    · exact step.2 x v h1
    · exact .inr h1

/-- **C113** (partial as before; values that count as equal are equal, and no setters are called during renders), with serial rendering.  After an event at a
handler of the page, and whatever renders follow: when the queue is empty, the page shows the state in which exactly the cells that the handler's setters
address have changed, one setter call after another, and instances that are new have their initial state. -/
theorem C113_serial_event_partial (V : Values) (A : App) (hA : A.Plain) (hquiet : A.Quiet) (hsame : ∀ a b, A.same a b = true → a = b) (root : Comp)
    (ops ops' : List (DoS A)) (target : String) (seq : Option Nat) (fn : Nat) (hrender : ∀ op ∈ ops', op.isRender = true) :
    let s := runS A root ops
    let s' := runS A root (ops ++ .event target seq :: ops')
    handlerFor s.web.layout target = some fn → s'.stray = false → ¬ RootFailed s'.web.layout.st.log → s'.pending = [] →
    ∃ o ids, s'.web.page V = some o ∧ ids.Nodup ∧
      View V A s'.state (fun target h => handlerFor s'.web.layout target = some h.fn) (fun _ => none) [.comp root] [o] ids ∧
      (∀ x v, s.state x = some v → s'.state x = some (fun k => cellAfter (A.act fn) x k (v k))) ∧
      (∀ x v, s.state x = none → s'.state x = some v → ∃ c seen, v = A.first x c seen) := by
  intro s s' hh hst hf hq
  obtain ⟨o, ids, h1, h2, h3⟩ := C113_serial_partial V A hA root (ops ++ .event target seq :: ops') hst hf hq
  refine ⟨o, ids, h1, h2, h3, ?_⟩
  have he : s' = ops'.foldl stepS (stepS s (.event target seq)) := by
    simp only [s', s, runS, List.foldl_append, List.foldl_cons]
  have hst : (stepS s (.event target seq)).state = fun y => (s.state y).map (fun v j => cellAfter (A.act fn) y j (v j)) := by
    funext y
    simp only [stepS]
    have : handlerFor (stepWeb s.web (.event target seq)).layout target = some fn := hh
    rw [this]
    exact sets_stateS hsame _ _ y
  obtain ⟨a, b⟩ := renders_stateS hquiet ops' hrender (stepS s (.event target seq))
  rw [← he] at a b
  rw [hst] at a b
  refine ⟨fun x v hv => a x _ (by simp [hv]), fun x v hn hv => ?_⟩
  rcases b x v hv with h | h
  · simp [hn] at h
  · exact h

/-! ## The queue is empty, sooner or later -/

theorem heed_quiet (es : List Layout.Ev) (called : Nat → List Nat) (hc : ∀ x, called x = []) (q : (Nat → Bool) × List Nat) :
    (es.foldl (heed called) q).2 = q.2 := by
  induction es generalizing q with
  | nil => rfl
  | cons e es ih =>
    rw [List.foldl_cons, ih]
    cases e <;> simp [heed, hc]

/-- **C113**, with serial rendering.  The work comes to an end: if no setters are called during renders and components are nested finitely deep, then whenever
the queue is not empty, `render()` returns whichever value it takes, and exactly this value is gone from the queue; and so from any state a state is reached in which the queue
is empty. -/
theorem C113_serial_settles (A : App) (hquiet : A.Quiet) (hfin : WellFounded (Layout.Contains A.user)) (root : Comp) (ops : List (DoS A)) :
    let s := runS A root ops
    (∀ k, k < s.pending.length → ∃ n, ∀ fuel, n ≤ fuel → (stepS s (.render fuel k)).pending = s.pending.eraseIdx k) ∧
    ∃ ops', (∀ op ∈ ops', op.isRender = true) ∧ (runS A root (ops ++ ops')).pending = [] := by
  intro s
  have hrun : ∀ (s : SWeb A) k, k < s.pending.length → ∃ n, ∀ fuel, n ≤ fuel → (stepS s (.render fuel k)).pending = s.pending.eraseIdx k := by
    intro s k hk
    obtain ⟨n, hn⟩ := renderOp_ends hfin s.pending[k] (stepWeb s.web (.user fun m => { m with called := fun _ => [] })).layout
    refine ⟨n, fun fuel hfu => ?_⟩
    have hst := serial_steps s fuel k
    have hne := hn fuel hfu
    revert hst
    simp only [stepS, renderSerial, List.getElem?_eq_getElem hk]
    revert hne
    generalize hw : stepWeb s.web (.user fun m => { m with called := fun _ => [] }) = w
    have hc0 : w.layout.st.world.called = fun _ => [] := by rw [← hw]; rfl
    intro hne
    split
    · rename_i he; exact absurd he (hne _)
    · rename_i l o hd he
      intro hst
      have hlay : (stepWeb w (.render fuel s.pending[k])).layout = l := by
        rw [stepWeb_layout]
        simp only [Layout.stepOp, he]
      cases o with
      | update u =>
        obtain ⟨t, ht⟩ := renderOp_steps he
        refine heed_quiet _ _ (fun x => ?_) _
        have := (ht.still hquiet).2.2
        rw [this]
        exact congrFun hc0 x
      | diverged => exact absurd rfl hd
      | _ =>
        refine heed_quiet _ _ (fun x => ?_) _
        rw [show l = w.layout by
          unfold renderOp at he
          split at he
          · split at he
            · split at he <;> cases he
            · split at he
              · split at he <;> cases he
              · cases he <;> rfl
          · cases he <;> rfl]
        exact congrFun hc0 x
  refine ⟨hrun s, ?_⟩
  have h1 : ∀ n (s : SWeb A), s.pending.length = n → ∃ ops' : List (DoS A), (∀ op ∈ ops', op.isRender = true) ∧ (ops'.foldl stepS s).pending = [] := by
    intro n
    induction n with
    | zero => exact fun s hs => ⟨[], by simp, List.length_eq_zero_iff.1 hs⟩
    | succ n ih =>
      intro s hs
      obtain ⟨m, hm⟩ := hrun s 0 (by omega)
      have := hm m (Nat.le_refl m)
      obtain ⟨ops', a, b⟩ := ih (stepS s (.render m 0)) (by rw [this, List.length_eraseIdx]; simp [hs])
      exact ⟨.render m 0 :: ops', by simpa [DoS.isRender] using a, b⟩
  obtain ⟨ops', a, b⟩ := h1 _ s rfl
  exact ⟨ops', a, by rw [show runS A root (ops ++ ops') = ops'.foldl stepS s by simp only [s, runS, List.foldl_append]]; exact b⟩

/-! ## Examples -/

def exS0 : List (DoS counters) := [.render 50 0, .set 2 0 (Nat.add 10), .set 3 1 (fun a => a)]

/-- The second counter is clicked before the first one has been rendered again, and is rendered before it. -/
def exS1 : List (DoS counters) := [.render 50 1, .render 50 0]

def exSWeb : SWeb counters := runS counters { type := .fn 0 } (exS0 ++ .event exTarget none :: exS1)

theorem exSWeb_current : exSWeb.web.current = some (.obj { tag := "" } (some [.obj { tag := "div" } (some [.obj { tag := "" } (some [.obj { tag := "" } (some
    [.obj { tag := "" } (some [.obj { tag := "p", handlers := some [⟨"onClick", "/0/0/0/a/0:onClick", false, false, none, none⟩] } (some [.text "15", .text "70"])]),
     .obj { tag := "" } (some [.obj { tag := "p", handlers := some [⟨"onClick", exTarget, false, false, none, none⟩] } (some [.text "10", .text "70"])])])]),
    .text "x"])])) := by
  have h : (exSWeb.web.current.any (fun v => v.same (.obj { tag := "" } (some [.obj { tag := "div" } (some [.obj { tag := "" } (some [.obj { tag := "" } (some
    [.obj { tag := "" } (some [.obj { tag := "p", handlers := some [⟨"onClick", "/0/0/0/a/0:onClick", false, false, none, none⟩] } (some [.text "15", .text "70"])]),
     .obj { tag := "" } (some [.obj { tag := "p", handlers := some [⟨"onClick", exTarget, false, false, none, none⟩] } (some [.text "10", .text "70"])])])]),
    .text "x"])])))) = true := by decide +kernel
  revert h
  cases exSWeb.web.current with
  | none => simp
  | some v => exact fun h => congrArg some (Layout.VJson.same_eq v _ (by simpa using h))

example : counters.Plain ∧ counters.Quiet ∧ WellFounded (Layout.Contains counters.user) ∧ (∀ a b, counters.same a b = true → a = b) ∧ (∀ op ∈ exS1, op.isRender = true) ∧
    handlerFor (runS counters { type := .fn 0 } exS0).web.layout exTarget = some 3 ∧
    (runS counters { type := .fn 0 } (exS0 ++ [.event exTarget none])).pending = [2, 3] ∧
    exSWeb.stray = false ∧ ¬ Failed exSWeb.web.layout.st.log ∧ exSWeb.pending = [] ∧
    (∃ p q, exSWeb.web.page exValues = some (.elem "" [] [.elem "div" [] [.elem "" [] [.elem "" [] [
      .elem "" [] [.elem "p" p [.text "15", .text "70"]], .elem "" [] [.elem "p" q [.text "10", .text "70"]]]], .text "x"]])) :=
  ⟨counters_plain, fun _ _ _ _ _ => rfl, counters_finite, counters_same, by decide, by decide +kernel, by decide +kernel, by decide +kernel,
    by rw [Layout.failedB_iff]; decide +kernel, by decide +kernel,
    ⟨_, _, by unfold Web.page; rw [exSWeb_current]; rfl⟩⟩

/-- The first render shows 20 and puts both components in the queue; the render of the `div` includes the field. -/
def exLimitedS (n : Nat) : SWeb limited := runS limited { type := .fn 0 } ([.render 50 0, .render 50 1, .render 50 0, .render 50 0, .render 50 0].take n)

example : limited.Plain ∧ (exLimitedS 1).pending = [1, 0] ∧ (exLimitedS 5).pending = [] ∧ ¬ Failed (exLimitedS 5).web.layout.st.log ∧
    (exLimitedS 1).web.current.any (fun v => v.same (.obj { tag := "" } (some [.obj { tag := "div" } (some [.text "0",
      .obj { tag := "" } (some [.obj { tag := "p" } (some [.text "20"])])])]))) = true ∧
    (exLimitedS 5).web.current.any (fun v => v.same (.obj { tag := "" } (some [.obj { tag := "div" } (some [.text "2",
      .obj { tag := "" } (some [.obj { tag := "p" } (some [.text "9"])])])]))) = true :=
  ⟨limited_plain, by decide +kernel, by decide +kernel, by rw [Layout.failedB_iff]; decide +kernel, by decide +kernel, by decide +kernel⟩

/-- The first render shows messages; the first two components are mended. -/
def exFaultyS (n : Nat) : SWeb faulty :=
  runS faulty { type := .fn 0 } ([.render 50 0, .set 1 0 (fun _ => (1 : Nat)), .set 2 0 (fun _ => (1 : Nat)), .render 50 1, .render 50 0].take n)

example : ∀ n ∈ [1, 5], faulty.Plain ∧ (exFaultyS n).stray = false ∧ ¬ RootFailed (exFaultyS n).web.layout.st.log ∧ (exFaultyS n).pending = [] ∧
    (exFaultyS n).web.current.any (fun v => v.same (.obj { tag := "" } (some [.obj { tag := "div" } (some [
      if n = 1 then .obj { tag := "", error := some "boom" } none else .obj { tag := "" } (some [.text "a"]),
      if n = 1 then .obj { tag := "", error := some "ValueError" } none else .obj { tag := "" } (some [.text "b"]),
      .obj { tag := "", error := some "ValueError" } none])]))) = true := by
  intro n hn
  simp only [List.mem_cons, List.not_mem_nil, or_false] at hn
  rcases hn with rfl | rfl <;>
  exact ⟨faulty_plain, by decide +kernel, not_rootFailed (by decide +kernel), by decide +kernel, by decide +kernel⟩

/-! ## After failures -/

/-- The root has a component that contains, for the values 0, 1 and 2 of its state, a component around another one, an exception, and a component that shows "new".
With a different argument the root itself raises an exception while its state is zero. -/
def moody : App where
  Val := Nat
  same a b := decide (a = b)
  first _ _ _ _ := (0 : Nat)
  body _ c v _ := match c.type with
    | .fn 0 => if c.props = 1 ∧ v 0 = (0 : Nat) then .error "boom" else .ok (.comp { type := .fn 1 })
    | .fn 1 => if v 0 = (0 : Nat) then .ok (.comp { type := .fn 2 }) else if v 0 = (1 : Nat) then .error "boom" else .ok (.comp { type := .fn 4 })
    | .fn 2 => .ok (.comp { type := .fn 3 })
    | .fn 3 => .ok (.text "old")
    | _ => .ok (.text "new")
  act _ := []
  provValue p := p
  provChildren _ := []

theorem moody_plain : moody.Plain where
  body := by
    intro id c v seen raw h
    simp only [moody] at h
    repeat' split at h
    all_goals first
      | (simp only [Except.ok.injEq] at h; subst h; first | trivial | exact fun k hk => by simp at hk)
      | cases h
  provided p := trivial

theorem state_of {s : SWeb moody} {x n : Nat} (h : (s.state x).any (fun v => Nat.beq (v 0) n) = true) : ∃ v, s.state x = some v ∧ v 0 = n := by
  revert h
  cases s.state x with
  | none => simp
  | some v => exact fun h => ⟨v, rfl, Nat.eq_of_beq_eq_true h⟩

theorem current_of {s : Web A.user} {v : Layout.VJson} (h : s.current.any (fun u => u.same v) = true) : s.current = some v := by
  revert h
  cases s.current with
  | none => simp
  | some u => exact fun h => congrArg some (Layout.VJson.same_eq u v (by simpa using h))

/-- **C113 is violated** after the root component has failed once: its state changes, it is rendered again without error, nothing is left to do, and the page
still shows the message. -/
theorem C113_error_violated : ∃ (A : App) (root : Comp) (ops : List (DoS A)),
    let s := runS A root ops
    A.Plain ∧ s.stray = false ∧ s.pending = [] ∧ (∃ v, s.state 0 = some v ∧ ∀ seen, ∃ c, A.body 0 root v seen = .ok (.comp c)) ∧
    ∀ V, s.web.page V = some (.error "boom") := by
  have hc : (runS moody { type := .fn 0, props := 1 } [.render 50 0, .set 0 0 (fun _ => (1 : Nat)), .render 50 0]).web.current =
      some (.obj { tag := "", error := some "boom" } (some [.obj { tag := "" } (some [.obj { tag := "" } (some [.obj { tag := "" } (some [.text "old"])])])])) :=
    current_of (by decide +kernel)
  obtain ⟨v, hv, hn⟩ := state_of (s := runS moody { type := .fn 0, props := 1 } [.render 50 0, .set 0 0 (fun _ => (1 : Nat)), .render 50 0]) (x := 0) (n := 1)
    (by decide +kernel)
  refine ⟨moody, { type := .fn 0, props := 1 }, [.render 50 0, .set 0 0 (fun _ => (1 : Nat)), .render 50 0], moody_plain, by decide +kernel, by decide +kernel,
    ⟨v, hv, fun seen => ⟨{ type := .fn 1 }, by simp [moody, hn]⟩⟩, fun V => ?_⟩
  change Option.map _ _ = _
  rw [hc]
  rfl

/-- **C113 is violated** when a component that a failed render has left behind is rendered (a setter of its was kept and is called): nothing is left to do, every
component on the page was rendered last for its present state, and the page shows "old" where the component returns "new". -/
theorem C113_stray_violated : ∃ (A : App) (root : Comp) (ops : List (DoS A)),
    let s := runS A root ops
    A.Plain ∧ ¬ RootFailed s.web.layout.st.log ∧ s.pending = [] ∧
    (∃ v, s.state 1 = some v ∧ ∀ seen, A.body 1 { type := .fn 1 } v seen = .ok (.comp { type := .fn 4 })) ∧
    (∀ id v seen, A.body id { type := .fn 4 } v seen = .ok (.text "new")) ∧
    ∀ V, s.web.page V = some (.elem "" [] [.elem "" [] [.elem "" [] [.elem "" [] [.text "old"]]]]) := by
  let ops : List (DoS moody) := [.render 50 0, .set 1 0 (fun _ => (1 : Nat)), .render 50 0, .set 1 0 (fun _ => (2 : Nat)), .render 50 0, .set 3 0 (fun _ => (1 : Nat)), .render 50 0]
  have hc : (runS moody { type := .fn 0 } ops).web.current =
      some (.obj { tag := "" } (some [.obj { tag := "" } (some [.obj { tag := "" } (some [.obj { tag := "" } (some [.text "old"])])])])) :=
    current_of (by decide +kernel)
  obtain ⟨v, hv, hn⟩ := state_of (s := runS moody { type := .fn 0 } ops) (x := 1) (n := 2) (by decide +kernel)
  refine ⟨moody, { type := .fn 0 }, ops, moody_plain, not_rootFailed (by decide +kernel), by decide +kernel,
    ⟨v, hv, fun seen => by simp [moody, hn]⟩, fun _ _ _ => rfl, fun V => ?_⟩
  change Option.map _ _ = _
  rw [hc]
  rfl

end Verif.Whole
