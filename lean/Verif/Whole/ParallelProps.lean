import Verif.Whole.Parallel
import Verif.Whole.Props
import Verif.Parallel.Props
/-! # C98 with parallel rendering (the default) -/
namespace Verif.Whole
open Verif.Layout (VJson Update User Comp Raw lastRender handlerFor runSys initSys Shows instIds)
open Verif.Parallel (Serial applyAll)
variable {U : User}

theorem pweb_sys (w : U.World) (root : Comp) (ops : List (Parallel.Op U)) :
    (runPWeb w root ops).sys = Parallel.runs (Parallel.init U w root) ops := by
  have gen : ∀ (ops : List (Parallel.Op U)) (s : PWeb U), (ops.foldl stepPWeb s).sys = Parallel.runs s.sys ops := by
    intro ops
    induction ops with
    | nil => exact fun _ => rfl
    | cons op ops ih => exact fun s => ih (stepPWeb s op)
  exact gen ops _

theorem shows_on {hist hist' R rs vs F} (h : Shows U hist R rs vs F) (he : ∀ x ∈ instIds F, hist' x = hist x) : Shows U hist' R rs vs F := by
  induction h with
  | nil => exact .nil
  | text _ ih => exact .text (ih he)
  | elem h0 _ _ ih1 ih2 =>
    simp only [instIds, Layout.Inst.ids, List.mem_append] at he
    exact .elem h0 (ih1 (fun x hx => he x (.inl hx))) (ih2 (fun x hx => he x (.inr hx)))
  | comp h0 _ _ ih1 ih2 =>
    simp only [instIds, Layout.Inst.ids, List.mem_append, List.mem_cons] at he
    exact .comp ((he _ (.inl (.inl rfl))).trans h0) (ih1 (fun x hx => he x (.inl (.inr hx)))) (ih2 (fun x hx => he x (.inr hx)))
  | fail h0 _ ih =>
    simp only [instIds, Layout.Inst.ids, List.mem_append, List.mem_cons] at he
    exact .fail ((he _ (.inl (.inl rfl))).trans h0) (ih (fun x hx => he x (.inr hx)))

/-- An update of the whole page is a fragment without an error. -/
def Whole (u : Update) : Prop := u.path = [] → ∃ ws, u.model = .obj { tag := "" } (some ws)

/-- The browser holds what the model of the client says, as long as that is not broken. -/
def Agree (c : Layout.Client) (cur : Option VJson) : Prop :=
  (c = .empty ∧ cur = some (.obj { tag := "" } none)) ∨
  (∃ ws, c = .model (.obj { tag := "" } (some ws)) ∧ cur = some (.obj { tag := "" } (some ws))) ∨ c = .broken

theorem Agree.apply {c : Layout.Client} {cur : Option VJson} (h : Agree c cur) {u : Update} (hu : Whole u) :
    Agree (Layout.applyUpdate u c) (cur.bind (jsApply u)) := by
  by_cases hp : u.path = []
  · obtain ⟨ws, hw⟩ := hu hp
    rcases h with ⟨rfl, rfl⟩ | ⟨vs, rfl, rfl⟩ | rfl
    · exact .inr (.inl ⟨ws, by simp [Layout.applyUpdate, hp, hw], by simp [jsApply, hp, hw, assign]⟩)
    · exact .inr (.inl ⟨ws, by simp [Layout.applyUpdate, hp, hw, Layout.setAt], by simp [jsApply, hp, hw, assign]⟩)
    · exact .inr (.inr rfl)
  · rcases h with ⟨rfl, rfl⟩ | ⟨vs, rfl, rfl⟩ | rfl
    · exact .inr (.inr (by simp [Layout.applyUpdate, hp]))
    · simp only [Layout.applyUpdate, Option.bind_some, jsApply, if_neg hp]
      cases hq : u.path with
      | nil => exact absurd hq hp
      | cons i r =>
        simp only [Layout.setAt]
        cases vs[i]? with
        | none => exact .inr (.inr rfl)
        | some k =>
          simp only
          cases Layout.setAt r u.model k with
          | none => exact .inr (.inr rfl)
          | some k' => exact .inr (.inl ⟨vs.set i k', rfl, rfl⟩)
    · exact .inr (.inr rfl)

theorem applyAll_broken (us : List Update) : applyAll us .broken = .broken := by
  induction us with
  | nil => rfl
  | cons u us ih => exact ih

/-- Along a history: the layout is one of serial rendering, and unless the root failed the browser holds the model of the client. -/
structure PageInv (w : U.World) (root : Comp) (s : PWeb U) : Prop where
  inv : Parallel.PInv s.sys
  ser : ∃ sops, Serial w root s.sys sops
  whole : s.sys.stray = false → ¬ RootFailed s.sys.lay.st.log → ∀ u ∈ s.sys.queue, Whole u
  agree : s.sys.stray = false → ¬ RootFailed s.sys.lay.st.log → Agree s.sys.client s.current

theorem serial_whole (w : U.World) (root : Comp) (sops : List (Layout.Op U)) (op : Layout.Op U) {u : Update}
    (hu : (Layout.stepOp (runSys (initSys U w root) sops).layout op).2 = .update u)
    (hs : (runSys (initSys U w root) (sops ++ [op])).stray = false)
    (hf : ¬ RootFailed (runSys (initSys U w root) (sops ++ [op])).layout.st.log) : Whole u := by
  intro hp
  have e : (runSys (initSys U w root) (sops ++ [op])).client = Layout.applyUpdate u (runSys (initSys U w root) sops).client := by
    rw [Parallel.runSys_snoc]
    unfold Layout.stepSys
    simp only
    split <;> simp_all
  rcases web_current w root (sops ++ [op]) hs hf with ⟨a, _⟩ | ⟨ws, a, _⟩
  · rw [a] at e
    cases hc : (runSys (initSys U w root) sops).client <;> rw [hc] at e <;> simp [Layout.applyUpdate, hp, Layout.setAt] at e
  · rw [a] at e
    cases hc : (runSys (initSys U w root) sops).client <;> rw [hc] at e <;> simp [Layout.applyUpdate, hp, Layout.setAt] at e
    · exact ⟨ws, e.symm⟩
    · exact ⟨ws, e.symm⟩

theorem rootFailed_mono {w : U.World} {root : Comp} {p : Parallel.Sys U} {sops : List (Layout.Op U)} (hs : Serial w root p sops) (op : Layout.Op U)
    (hf : ¬ RootFailed (Layout.stepOp p.lay op).1.st.log) : ¬ RootFailed p.lay.st.log := by
  have hr := Layout.rinv_run w root sops
  rw [← hs.lay] at hf ⊢
  obtain ⟨_, t, hg⟩ := Layout.ginv_step (Layout.step_cases (runSys (initSys U w root) sops).layout op) hr.lay hr.g
  rintro ⟨c, x, e, he⟩
  refine hf ⟨c, x, e, ?_⟩
  rw [hg]
  exact List.mem_append_right _ he

theorem page_step {w : U.World} {root : Comp} {s : PWeb U} (h : PageInv w root s) (op : Parallel.Op U) : PageInv w root (stepPWeb s op) := by
  obtain ⟨a, b⟩ := Parallel.main_step s.sys op h.inv h.ser
  obtain ⟨sops, hs⟩ := h.ser
  refine ⟨a, b, ?_, ?_⟩ <;> clear a b
  · cases op with
    | call x => exact h.whole
    | user f => exact h.whole
    | event t seq => exact h.whole
    | deliver k =>
      simp only [stepPWeb, Parallel.step, Parallel.deliver]
      split
      · exact h.whole
      · exact fun h1 h2 u hu => h.whole h1 h2 u (List.mem_of_mem_eraseIdx hu)
    | run fuel i calls =>
      simp only [stepPWeb, Parallel.step, Parallel.run]
      split
      · split
        · rename_i id _ _ hc
          split
          · rename_i l u he
            intro h1 h2 v hv
            simp only [Bool.or_eq_false_iff] at h1
            simp only [List.mem_append, List.mem_singleton] at hv
            have hl : (Layout.stepOp s.sys.lay (.render fuel id)).1 = l := by simp only [Layout.stepOp, he]
            rcases hv with hv | rfl
            · exact h.whole h1.1 (rootFailed_mono hs (.render fuel id) (by rw [hl]; exact h2)) v hv
            · refine serial_whole w root sops (.render fuel id) ?_ ?_ ?_
              · rw [hs.lay]; simp only [Layout.stepOp, he]
              · rw [Parallel.runSys_snoc, Layout.stepSys_stray, hs.stray, hs.lay]
                simp [Layout.isStray, hc.1, h1]
              · rw [Parallel.runSys_snoc, Layout.stepSys_layout, hs.lay, hl]; exact h2
          · exact h.whole
          · intro h1; cases h1
        · exact h.whole
      · exact h.whole
  · cases op with
    | call x => exact h.agree
    | user f => exact h.agree
    | event t seq => exact h.agree
    | deliver k =>
      simp only [stepPWeb, Parallel.step, Parallel.deliver]
      cases hk : s.sys.queue[k]? with
      | none => exact h.agree
      | some u => exact fun h1 h2 => (h.agree h1 h2).apply (h.whole h1 h2 u (List.mem_of_getElem? hk))
    | run fuel i calls =>
      simp only [stepPWeb, Parallel.step, Parallel.run]
      split
      · split
        · rename_i id _ _ hc
          split
          · rename_i l u he
            intro h1 h2
            simp only [Bool.or_eq_false_iff] at h1
            have hl : (Layout.stepOp s.sys.lay (.render fuel id)).1 = l := by simp only [Layout.stepOp, he]
            exact h.agree h1.1 (rootFailed_mono hs (.render fuel id) (by rw [hl]; exact h2))
          · exact h.agree
          · intro h1; cases h1
        · exact h.agree
      · exact h.agree

theorem page_inv (w : U.World) (root : Comp) (ops : List (Parallel.Op U)) : PageInv w root (runPWeb w root ops) := by
  have gen : ∀ (ops : List (Parallel.Op U)) (s : PWeb U), PageInv w root s → PageInv w root (ops.foldl stepPWeb s) := by
    intro ops
    induction ops with
    | nil => exact fun _ h => h
    | cons op ops ih => exact fun s h => ih _ (page_step h op)
  refine gen ops _ ⟨Parallel.pinv_init w root, ⟨[], ⟨rfl, rfl, fun _ => rfl⟩⟩, ?_, fun _ _ => .inl ⟨rfl, rfl⟩⟩
  intro _ _ u hu
  simp [initPWeb, Parallel.init] at hu

/-- **C98** with parallel rendering, the default (partial: as `C98_page_partial`, and the conditions `lost` and `disordered` of C112).  When all updates were handed out, the page
shows what the root component displays, each component by its most recent render, and the handlers of the page make the server run the functions that these renders attached.
When moreover no render task waits, each component is shown by a render that began after its setter was last called (`owed`, see `C112_owed_meaning`). -/
theorem C98_parallel_partial (hU : U.Plain) (V : Values) (w : U.World) (root : Comp) (ops : List (Parallel.Op U)) :
    let s := runPWeb w root ops
    s.sys.lost = false → s.sys.disordered = false → s.sys.stray = false → ¬ RootFailed s.sys.lay.st.log → s.sys.queue = [] →
    (s.page V = some (.elem "" [] []) ∧ lastRender s.sys.lay.st.log 0 = none) ∨
    ∃ o, s.page V = some o ∧ Displays V U (lastRender s.sys.lay.st.log) (fun target h => handlerFor s.sys.lay target = some h.fn) [.comp root] [o] ∧
      ((∀ t ∈ s.sys.ctl.tasks, t.stat ≠ .waiting) →
        Displays V U (fun x => if s.sys.ctl.owed x then none else lastRender s.sys.lay.st.log x)
          (fun target h => handlerFor s.sys.lay target = some h.fn) [.comp root] [o]) := by
  intro s hl hd hst hf hq
  have hp := page_inv w root ops
  have ha := hp.agree hst hf
  have e : s.sys = Parallel.runs (Parallel.init U w root) ops := pweb_sys w root ops
  have hview := Parallel.C112_view_partial w root ops
  have hrout := Parallel.C112_routing_partial hU w root ops
  simp only [← e] at hview hrout
  have hview := hview hl hd hst hq
  have hrout := hrout hl hd hst hq
  change Agree s.sys.client s.current at ha
  rcases ha with ⟨h1, h2⟩ | ⟨ws, h1, h2⟩ | h1
  · refine .inl ⟨by unfold PWeb.page; rw [h2]; rfl, ?_⟩
    rcases hview with ⟨_, h⟩ | ⟨v, F, h, _⟩
    · exact h
    · rw [h1] at h; simp at h
  · obtain ⟨_, F, h3, h4⟩ := hrout _ h1
    refine .inr ⟨_, by unfold PWeb.page; rw [h2]; rfl, displays h3, fun hw => displays (shows_on h3 (fun x hx => ?_))⟩
    rw [h4 hw x hx]
    rfl
  · rcases hview with ⟨h, _⟩ | ⟨v, F, h, _⟩ <;> rw [h1] at h <;> simp at h

/-- `exApp`: the setters of both components are called, the inner one's twice, and the task of the inner one is cancelled; then the inner one alone. -/
def exPOps : List (Parallel.Op Layout.exApp) :=
  [.run 20 0 [], .deliver 0, .user (fun _ => (7 : Nat)), .call 1, .call 1, .call 0, .run 20 2 [], .deliver 0, .user (fun _ => (8 : Nat)), .call 1, .run 20 3 [], .deliver 0]

def exPWeb : PWeb Layout.exApp := runPWeb (U := Layout.exApp) (5 : Nat) { type := .fn 0 } exPOps

theorem exPWeb_current : exPWeb.current = some (.obj { tag := "" } (some [.obj { tag := "div" } (some
    [.obj { tag := "" } (some [.obj { tag := "p", handlers := some [⟨"onClick", "/0/a/0:onClick", false, false, none, none⟩] }
      (some [.text "8"])]), .text "x"])])) := by
  have h : (exPWeb.current.any (fun v => v.same (.obj { tag := "" } (some [.obj { tag := "div" } (some
    [.obj { tag := "" } (some [.obj { tag := "p", handlers := some [⟨"onClick", "/0/a/0:onClick", false, false, none, none⟩] }
      (some [.text "8"])]), .text "x"])])))) = true := by decide +kernel
  revert h
  cases exPWeb.current with
  | none => simp
  | some v => exact fun h => congrArg some (Layout.VJson.same_eq v _ (by simpa using h))

example : Layout.exApp.Plain ∧ exPWeb.sys.lost = false ∧ exPWeb.sys.disordered = false ∧ exPWeb.sys.stray = false ∧ ¬ RootFailed exPWeb.sys.lay.st.log ∧
    exPWeb.sys.queue.length = 0 ∧ (∀ t ∈ exPWeb.sys.ctl.tasks, t.stat ≠ .waiting) ∧
    exPWeb.page exValues = some (.elem "" [] [.elem "div" [] [.elem "" [] [.elem "p"
      [("onClick", .handler { target := "/0/a/0:onClick" } none none false)] [.text "8"]], .text "x"]]) ∧
    handlerFor exPWeb.sys.lay "/0/a/0:onClick" = some 8 :=
  ⟨Layout.exApp_plain, by decide +kernel, by decide +kernel, by decide +kernel,
    fun ⟨c, x, e, h⟩ => (show ¬ Layout.Failed _ by rw [Layout.failedB_iff]; decide +kernel) ⟨0, c, x, e, h⟩, by decide +kernel, by decide +kernel,
    by unfold PWeb.page; rw [exPWeb_current]; rfl, by decide +kernel⟩

end Verif.Whole
