import Verif.Layout.Reject
import Verif.Layout.Final
/-!
# Properties of the layout engine (serial rendering)

`runSys (initSys U w root) ops` is the system after an arbitrary sequence `ops` of renders (of any
instance, whether or not it exists), user-code actions (any change of the world) and events, for an
arbitrary application `U`, initial world `w` and root component `root`.  `s.client` is what a
client holds that applied every update in order; `s.layout.st.log` is the observable history.

`s.stray = false` excludes one thing: that `render()` was performed for an instance which is still
registered but not displayed any more.  Such instances exist only after some component failed
(`C01_only_failures_stray`), and what goes wrong then is shown by the `_violated` theorems.
-/
namespace Verif.Layout

/-! ### Example applications (for the non-vacuity examples and the counterexamples) -/

/-- `fn 0` shows a `div` with component `fn 1` keyed "a", nothing, and a text; `fn 1` shows the world
in a `p` with a click handler numbered by the world. -/
def exApp : User where
  World := Nat
  render w _ c _ := match c.type with
    | .fn 0 => (w, .ok (.elem { tag := some "div" }
        [.comp { type := .fn 1, key := some (.str "a") }, .none, .text "x"]))
    | _ => (w, .ok (.elem { tag := some "p", handlers := [("onClick", { fn := w })] } [.text (toString w)]))
  unmount w _ := w
  didRender w _ := w
  provValue n := n
  provChildren _ := []

theorem str_a_ne (n : Int) : "a" ≠ toString n := by
  intro h
  have h1 : (Key.str "a").fmt = (Key.int n).fmt := h
  have h2 := congrArg String.toList h1
  simp only [Key.fmt] at h2
  rw [show (toString n : String) = n.repr from rfl, Int.repr_eq_if] at h2
  split at h2
  · have : ∀ ch ∈ ("a" : String).toList, ch.isDigit := by
      rw [h2, Nat.toList_repr]; exact fun ch hc => Nat.isDigit_of_mem_toDigits (by decide) (by decide) hc
    exact absurd (this 'a' (by decide)) (by decide)
  · have := congrArg List.head? h2
    simp at this

theorem exApp_plain : exApp.Plain where
  render := by
    intro w id c seen raw h
    simp only [exApp] at h
    split at h
    · simp only [Except.ok.injEq] at h
      subst h
      refine ⟨by simp [Raw.explicitKey], by simp, by simp, ?_, trivial, trivial, trivial⟩
      intro k hk
      simp at hk; subst hk
      exact ⟨by decide, by decide, str_a_ne⟩
    · simp only [Except.ok.injEq] at h
      subst h
      exact ⟨by simp [Raw.explicitKey], by simp, by simp, trivial, trivial⟩
  provided := by simp [exApp, plainL]

/-- The root is rendered, the world changes, the inner component is re-rendered. -/
def exRun : Sys exApp :=
  runSys (initSys exApp (5 : Nat) { type := .fn 0 }) [.render 20 0, .user (fun _ => (7 : Nat)), .render 20 1]

/-- `fn 0` (root) shows `fn 1` unless the world is 1, then it raises; `fn 1` shows `fn 2`; `fn 2`
shows a clickable `p`. -/
def failApp : User where
  World := Nat
  render w _ c _ := match c.type with
    | .fn 0 => if w = 1 then (w, .error "boom") else (w, .ok (.comp { type := .fn 1 }))
    | .fn 1 => (w, .ok (.comp { type := .fn 2 }))
    | _ => (w, .ok (.elem { tag := some "p", handlers := [("onClick", { fn := w })] } []))
  unmount w _ := w
  didRender w _ := w
  provValue n := n
  provChildren _ := []

/-- Render everything, then change the world to 1 and render the root again. -/
def failOps : List (Op failApp) := [.render 20 0, .user (fun _ => (1 : Nat)), .render 20 0]

def failRun : Sys failApp := runSys (initSys failApp (0 : Nat) { type := .fn 0 }) failOps

variable {U : User}

/-! ### C01 -/

/-- Instances that are registered but not displayed exist only after a component has failed. -/
theorem C01_only_failures_stray (w : U.World) (root : Comp) (ops : List (Op U))
    (h : ¬ Failed (runSys (initSys U w root) ops).layout.st.log) :
    (runSys (initSys U w root) ops).stray = false := by
  cases hs : (runSys (initSys U w root) ops).stray with
  | false => rfl
  | true => exact absurd ((rinv_run w root ops).stray_failed hs) h

/-- **C01** (partial: `stray = false`).  At every moment the client either has no model and the root
was never rendered, or it holds exactly the expansion of the root component in which every
component is expanded by its own most recent render (by distinct instances). -/
theorem C01_client_view_partial (w : U.World) (root : Comp) (ops : List (Op U))
    (hs : (runSys (initSys U w root) ops).stray = false) :
    let s := runSys (initSys U w root) ops
    (s.client = .empty ∧ lastRender s.layout.st.log 0 = none) ∨
    ∃ v F, s.client = .model v ∧ (instIds F).Nodup ∧
      Shows U (lastRender s.layout.st.log) (fun _ _ => True) [(.comp root, none)] [v] F := by
  have h := rinv_run w root ops
  rcases h.client hs with ⟨h1, _, h3⟩ | ⟨h1, h2⟩
  · exact .inl ⟨h1, h3⟩
  · refine .inr ⟨_, _, h1, ?_, by simpa [viewL] using h2.shows (fun _ _ => True) (fun _ _ => trivial)⟩
    rw [instsL_ids]
    simpa using (List.nodup_append.1 h.lay.nodup).1

/-- Without failing components C01 holds unconditionally. -/
theorem C01_client_view_no_failure_partial (w : U.World) (root : Comp) (ops : List (Op U))
    (hf : ¬ Failed (runSys (initSys U w root) ops).layout.st.log) :
    let s := runSys (initSys U w root) ops
    (s.client = .empty ∧ lastRender s.layout.st.log 0 = none) ∨
    ∃ v F, s.client = .model v ∧ (instIds F).Nodup ∧
      Shows U (lastRender s.layout.st.log) (fun _ _ => True) [(.comp root, none)] [v] F :=
  C01_client_view_partial w root ops (C01_only_failures_stray w root ops hf)

example : exRun.stray = false ∧ exRun.client = .model (.obj { tag := "" } (some [.obj { tag := "div" } (some
    [.obj { tag := "" } (some [.obj { tag := "p", handlers := some [⟨"onClick", "/0/a/0:onClick", false, false, none, none⟩] }
      (some [.text "7"])]), .text "x"])])) :=
  ⟨by decide +kernel, Client.holds_iff (by decide +kernel)⟩

/-- **C01 is violated** after a failure: the root fails while `fn 1` and `fn 2` are displayed; then
`fn 2` (state changed) is rendered, and the update it yields addresses a place that the client does
not have. -/
theorem C01_client_view_violated :
    ∃ (U : User) (w : U.World) (root : Comp) (ops : List (Op U)),
      (runSys (initSys U w root) ops).client = .broken :=
  ⟨failApp, (0 : Nat), { type := .fn 0 }, failOps ++ [.render 20 2],
    Client.isBroken_iff (by decide +kernel)⟩

/-! ### C03 -/

/-- **C03** (partial: needs `stray = false`; completeness needs that no component failed, and leaving
needs plain keys).  Every instance is mounted at most once and unmounted at most once, only mounted
instances are unmounted, displayed instances are mounted and not unmounted; if no component ever
failed, the instances mounted and not unmounted are exactly those displayed (before the first
render: the root). -/
theorem C03_mount_unmount_partial (w : U.World) (root : Comp) (ops : List (Op U)) :
    let s := runSys (initSys U w root) ops
    let log := s.layout.st.log
    (mountsOf log).Nodup ∧ (unmountsOf log).Nodup ∧ (∀ x ∈ unmountsOf log, x ∈ mountsOf log) ∧
    (s.stray = false → ∀ v, s.client = .model v →
      ∃ F, Shows U (lastRender log) (fun _ _ => True) [(.comp root, none)] [v] F ∧
        (∀ x ∈ instIds F, x ∈ mountsOf log ∧ x ∉ unmountsOf log) ∧
        (¬ Failed log → ∀ x ∈ mountsOf log, x ∉ unmountsOf log → x ∈ instIds F)) ∧
    (s.stray = false → s.client = .empty → ¬ Failed log →
      ∀ x, x ∈ mountsOf log ∧ x ∉ unmountsOf log ↔ x = 0) := by
  have h := rinv_run w root ops
  have hc := h.g.cinv
  refine ⟨hc.mNodup, hc.uNodup, fun x hx => (hc.mounts x).2 ((hc.unmounts x).1 hx).1, ?_, ?_⟩
  · intro hs v hv
    rcases h.client hs with ⟨h1, _⟩ | ⟨h1, h2⟩
    · rw [hv] at h1; simp at h1
    · rw [hv] at h1
      cases h1
      refine ⟨_, by simpa [viewL] using h2.shows (fun _ _ => True) (fun _ _ => trivial), ?_, ?_⟩
      · rw [instsL_ids]
        intro x hx
        have hr : x ∈ (runSys (initSys U w root) ops).layout.st.reg :=
          (h.lay.reg x).2 (by simp at hx; simp [hx])
        exact ⟨(hc.mounts x).2 (hc.lt x hr), fun hu => ((hc.unmounts x).1 hu).2 hr⟩
      · rw [instsL_ids]
        intro hf x hm hu
        have ho := h.g.good hf
        have hlt := (hc.mounts x).1 hm
        have : x ∈ (runSys (initSys U w root) ops).layout.st.reg := by
          apply Classical.byContradiction; intro hn; exact hu ((hc.unmounts x).2 ⟨hlt, hn⟩)
        have := (h.lay.reg x).1 this
        rw [ho] at this
        simpa using this
  · intro hs he hf x
    rcases h.client hs with ⟨_, ht, _⟩ | ⟨h1, _⟩
    · have hreg := h.lay.reg x
      rw [ht, h.g.good hf] at hreg
      simp only [ids_comp, idsL_nil, List.append_nil, List.mem_singleton] at hreg
      rw [← hreg, hc.mounts, hc.unmounts]
      constructor
      · rintro ⟨h1, h2⟩; exact Classical.byContradiction (fun hn => h2 ⟨h1, hn⟩)
      · intro hx; exact ⟨hc.lt x hx, fun hn => hn.2 hx⟩
    · rw [he] at h1; simp at h1

/-- Leaving the layout (no failed component, plain keys): every mounted instance has been unmounted,
exactly once. -/
theorem C03_exit_partial (hU : U.Plain) (w : U.World) (root : Comp) (ops : List (Op U))
    (hf : ¬ Failed (runSys (initSys U w root) ops).layout.st.log) :
    let log := (exitOp (runSys (initSys U w root) ops).layout).st.log
    (unmountsOf log).Nodup ∧ ∀ x, x ∈ unmountsOf log ↔ x ∈ mountsOf log := by
  have h := rinv_run w root ops
  have hc := exit_cinv h.g.cinv
  have hr := exit_reg hU w root ops (C01_only_failures_stray w root ops hf) (h.g.good hf)
  refine ⟨hc.uNodup, fun x => ?_⟩
  rw [hc.mounts, hc.unmounts, hr]
  simp

example : exApp.Plain ∧ ¬ Failed exRun.layout.st.log ∧ mountsOf (exitOp exRun.layout).st.log = [1, 0] ∧
    unmountsOf exRun.layout.st.log = [] :=
  ⟨exApp_plain, by rw [failedB_iff]; decide +kernel, by decide +kernel, by decide +kernel⟩

/-- **C03 is violated** by a failing component: the root fails while `fn 1` and `fn 2` are displayed.
They are not displayed any more, but they are not unmounted, not even when the layout is left. -/
theorem C03_mount_unmount_violated :
    ∃ (U : User) (w : U.World) (root : Comp) (ops : List (Op U)) (x : Nat),
      let s := runSys (initSys U w root) ops
      s.client = .model (.obj { tag := "", error := some "boom" } none) ∧
      x ∈ mountsOf (exitOp s.layout).st.log ∧ x ∉ unmountsOf (exitOp s.layout).st.log :=
  ⟨failApp, (0 : Nat), { type := .fn 0 }, failOps, 2, Client.holds_iff (by decide +kernel),
    by decide +kernel, by decide +kernel⟩

/-! ### C04, C05, C06: event routing -/

/-- **C04** (partial: plain applications, `stray = false`).  In the client's tree, every event handler
entry of every element carries a target under which the server runs exactly the function that the
latest render of the owning component attached to that element and event. -/
theorem C04_routing_partial (hU : U.Plain) (w : U.World) (root : Comp) (ops : List (Op U))
    (hs : (runSys (initSys U w root) ops).stray = false) :
    let s := runSys (initSys U w root) ops
    ∀ v, s.client = .model v → ∃ F, Shows U (lastRender s.layout.st.log)
      (fun target h => handlerFor s.layout target = some h.fn) [(.comp root, none)] [v] F := by
  intro s v hv
  have h := rinv_run w root ops
  have hh := lhand_run hU w root ops hs
  rcases h.client hs with ⟨h1, _⟩ | ⟨h1, h2⟩
  · rw [show s.client = _ from hv] at h1; simp at h1
  · rw [show s.client = _ from hv] at h1
    cases h1
    have hr : ∀ q ∈ tgtsL [s.layout.tree], handlerFor s.layout q.1 = some q.2.fn := by
      intro q hq
      unfold handlerFor
      rw [hh.hok q hq]; rfl
    exact ⟨_, by simpa [viewL] using h2.shows (fun target h => handlerFor s.layout target = some h.fn) hr⟩

example : exApp.Plain ∧ exRun.stray = false ∧ handlerFor exRun.layout "/0/a/0:onClick" = some 7 :=
  ⟨exApp_plain, by decide +kernel, by decide +kernel⟩

/-- Two siblings with different keys, `0` and `"0"`. -/
def clashApp : User where
  World := Nat
  render w _ _ _ := (w, .ok (.elem { tag := some "div" }
    [.elem { tag := some "p", attrs := some [("key", .key (.int 0))], handlers := [("onClick", { fn := 10 })] } [],
     .elem { tag := some "q", attrs := some [("key", .key (.str "0"))], handlers := [("onClick", { fn := 20 })] } []]))
  unmount w _ := w
  didRender w _ := w
  provValue n := n
  provChildren _ := []

def clashRun : Sys clashApp := runSys (initSys clashApp (0 : Nat) { type := .fn 0 }) [.render 20 0]

def clashEntry : HEntry := ⟨"onClick", "/0/0:onClick", false, false, none, none⟩

/-- The handler attached to the first child of what was rendered is number 10. -/
def clashEv : Ev → Bool
  | .rendered _ _ _ (.ok (.elem _ (.elem i _ :: _))) => i.handlers == [("onClick", { fn := 10 })]
  | .rendered _ _ _ _ => false
  | _ => true

theorem clashEv_shape {id : Nat} {c : Comp} {x : Ctx} {raw : Raw} (h : clashEv (.rendered id c x (.ok raw)) = true) :
    ∃ i j ds cs, raw = .elem i (.elem j ds :: cs) ∧ j.handlers = [("onClick", { fn := 10 })] := by
  match raw, h with
  | .elem i (.elem j ds :: cs), h => exact ⟨i, j, ds, cs, rfl, by simpa [clashEv] using h⟩

theorem shows_elem {U : User} {H : Nat → Option (Comp × Ctx × Except String Raw)} {R : String → Handler → Prop}
    {i : ElemInfo} {cs : List Raw} {k : Option Key} {rs : List (Raw × Option Key)} {vs : List VJson} {F : List Inst}
    (h : Shows U H R ((.elem i cs, k) :: rs) vs F) : ∃ sh ws vs' G,
      vs = .obj sh (if cs = [] then none else some ws) :: vs' ∧ ElemShown R i sh ∧ Shows U H R (keyed cs) ws G := by
  cases h with
  | elem h1 h2 _ => exact ⟨_, _, _, _, rfl, h1, h2⟩

theorem lastRender_mem {log : List Ev} {id : Nat} {c : Comp} {x : Ctx} {o : Except String Raw}
    (h : lastRender log id = some (c, x, o)) : .rendered id c x o ∈ log := by
  induction log with
  | nil => simp [lastRender] at h
  | cons a l ih =>
    cases a <;> simp only [lastRender] at h
    case rendered =>
      split at h
      · simp at h; simp [*]
      · simp [ih h]
    all_goals simp [ih h]

theorem clashRun_client : clashRun.client = .model (.obj { tag := "" } (some [.obj { tag := "div" } (some
    [.obj { tag := "p", attrs := some [("key", .key (.int 0))], handlers := some [clashEntry] } none,
     .obj { tag := "q", attrs := some [("key", .key (.str "0"))], handlers := some [clashEntry] } none])])) :=
  Client.holds_iff (by decide +kernel)

/-- **C04 and C06 are violated** for keys that print alike: the handler displayed on `p` is number
10, but the server runs number 20 for its target, which `q` has too. -/
theorem C04_routing_violated : ∃ (U : User) (w : U.World) (root : Comp) (ops : List (Op U)) (v : VJson),
    let s := runSys (initSys U w root) ops
    s.client = .model v ∧ s.stray = false ∧
    ∀ F, ¬ Shows U (lastRender s.layout.st.log)
      (fun target h => handlerFor s.layout target = some h.fn) [(.comp root, none)] [v] F := by
  refine ⟨clashApp, (0 : Nat), { type := .fn 0 }, [.render 20 0], _, clashRun_client, by decide +kernel, ?_⟩
  intro F hF
  cases hF with
  | comp hh hk _ =>
    have he := lastRender_mem hh
    have hall : clashRun.layout.st.log.all clashEv = true := by decide +kernel
    have := List.all_eq_true.1 hall _ he
    obtain ⟨i, j, ds, cs, rfl, hj⟩ := clashEv_shape this
    have e1 : keyed [Raw.elem i (.elem j ds :: cs)] =
      [(Raw.elem i (.elem j ds :: cs), some ((Raw.elem i (.elem j ds :: cs)).effKey 0))] := by simp [keyed, Raw.isNone]
    rw [e1] at hk
    obtain ⟨sh, ws, vs', G, hv, _, hk2⟩ := shows_elem hk
    simp only [reduceCtorEq, if_false, List.cons.injEq, VJson.obj.injEq, Option.some.injEq] at hv
    obtain ⟨⟨_, rfl⟩, _⟩ := hv
    have e2 : ∃ r, keyed (Raw.elem j ds :: cs) = (Raw.elem j ds, some ((Raw.elem j ds).effKey 0)) :: r := by
      simp [keyed, Raw.isNone]
    obtain ⟨r, e2⟩ := e2
    rw [e2] at hk2
    obtain ⟨sh2, ws2, vs2, G2, hv2, hs2, _⟩ := shows_elem hk2
    simp only [List.cons.injEq, VJson.obj.injEq] at hv2
    obtain ⟨⟨rfl, _⟩, _⟩ := hv2
    rcases hs2.handlers with ⟨h0, _⟩ | ⟨_, es, h1, h2⟩
    · rw [hj] at h0; simp at h0
    · simp only [Option.some.injEq] at h1
      subst h1
      rw [hj] at h2
      have h3 := h2.1.routed
      exact absurd h3 (by decide +kernel)

/-- **C06** (partial: plain applications, `stray = false`).  No two event handler entries displayed at
the same time have the same target. -/
theorem C06_unique_targets_partial (hU : U.Plain) (w : U.World) (root : Comp) (ops : List (Op U))
    (hs : (runSys (initSys U w root) ops).stray = false) :
    ∀ v, (runSys (initSys U w root) ops).client = .model v → v.targets.Nodup := by
  intro v hv
  have h := rinv_run w root ops
  have hh := lhand_run hU w root ops hs
  rcases h.client hs with ⟨h1, _⟩ | ⟨h1, h2⟩
  · rw [hv] at h1; simp at h1
  · rw [hv] at h1
    cases h1
    have := h2.targets
    simp only [viewL, targetsL, List.append_nil] at this
    rw [this]
    exact node_nodup _ h.lay.deep hh.canon

/-- **C06 is violated** for keys that print alike. -/
theorem C06_unique_targets_violated : ∃ (U : User) (w : U.World) (root : Comp) (ops : List (Op U)) (v : VJson),
    (runSys (initSys U w root) ops).client = .model v ∧ ¬ v.targets.Nodup :=
  ⟨clashApp, (0 : Nat), { type := .fn 0 }, [.render 20 0], _, clashRun_client, by decide +kernel⟩

/-- **C05** (partial: plain applications, no component failed).  The targets for which the server runs
a function are exactly those displayed. -/
theorem C05_only_displayed_partial (hU : U.Plain) (w : U.World) (root : Comp) (ops : List (Op U))
    (hf : ¬ Failed (runSys (initSys U w root) ops).layout.st.log) :
    let s := runSys (initSys U w root) ops
    (∀ v, s.client = .model v → ∀ t, (handlerFor s.layout t).isSome ↔ t ∈ v.targets) ∧
    (s.client = .empty → ∀ t, handlerFor s.layout t = none) := by
  have hs := C01_only_failures_stray w root ops hf
  have h := rinv_run w root ops
  have hh := lhand_run hU w root ops hs
  have hx := hh.exact hf
  refine ⟨?_, ?_⟩
  · intro v hv t
    rcases h.client hs with ⟨h1, _⟩ | ⟨h1, h2⟩
    · rw [hv] at h1; simp at h1
    · rw [hv] at h1
      cases h1
      have := h2.targets
      simp only [viewL, targetsL, List.append_nil] at this
      rw [this]
      constructor
      · intro ht
        refine hx t (fun hn => ?_)
        simp [handlerFor, hn] at ht
      · intro ht
        simp only [tnames, List.mem_map] at ht
        obtain ⟨q, hq, rfl⟩ := ht
        simp [handlerFor, hh.hok q hq]
  · intro he t
    rcases h.client hs with ⟨_, ht, _⟩ | ⟨h1, _⟩
    · cases hg : dictGet (runSys (initSys U w root) ops).layout.st.handlers t with
      | none => simp [handlerFor, hg]
      | some hd =>
        have := hx t (by rw [hg]; simp)
        rw [ht] at this
        simp at this
    · rw [he] at h1; simp at h1

example : exApp.Plain ∧ ¬ Failed exRun.layout.st.log ∧ (handlerFor exRun.layout "/0/a/0:onClick").isSome :=
  ⟨exApp_plain, by rw [failedB_iff]; decide +kernel, by decide +kernel⟩

/-- **C05 is violated** after a failure: nothing but an error is displayed, and the handler displayed
before the failure can still be run. -/
theorem C05_only_displayed_violated : ∃ (U : User) (w : U.World) (root : Comp) (ops : List (Op U)) (t : String),
    let s := runSys (initSys U w root) ops
    s.client = .model (.obj { tag := "", error := some "boom" } none) ∧ (handlerFor s.layout t).isSome :=
  ⟨failApp, (0 : Nat), { type := .fn 0 }, failOps, "/0/0/0:onClick", Client.holds_iff (by decide +kernel),
    by decide +kernel⟩

/-- Two elements; the handler with the target "t" belongs to the second one, and to the first one if the world is 1. -/
def movedApp : User where
  World := Nat
  render w _ _ _ := (w, .ok (.elem { tag := some "div" }
    [.elem { tag := some "p", handlers := if w = 1 then [("onClick", { fn := 5, target := some "t" })] else [] } [],
     .elem { tag := some "q", handlers := if w = 1 then [] else [("onClick", { fn := 5, target := some "t" })] } []]))
  unmount w _ := w
  didRender w _ := w
  provValue n := n
  provChildren _ := []

/-- **C04 is violated** for a handler with a target of its own (as `StaticEventHandler` makes them) that moves to an element before: it is
displayed, and its target is displayed only once, but the server does not know the target. -/
theorem C04_moved_violated : ∃ (U : User) (w : U.World) (root : Comp) (ops : List (Op U)) (v : VJson),
    let s := runSys (initSys U w root) ops
    ¬ Failed s.layout.st.log ∧ s.client = .model v ∧ v.targets = ["t"] ∧ handlerFor s.layout "t" = none :=
  ⟨movedApp, (0 : Nat), { type := .fn 0 }, [.render 20 0, .user (fun _ => (1 : Nat)), .render 20 0],
    .obj { tag := "" } (some [.obj { tag := "div" } (some [.obj { tag := "p", handlers := some [⟨"onClick", "t", false, false, none, none⟩] } none,
      .obj { tag := "q" } none])]),
    by rw [failedB_iff]; decide +kernel, Client.holds_iff (by decide +kernel), by decide +kernel, by decide +kernel⟩

/-- An element whose handler has a user-chosen target that depends on the world. -/
def retargetApp : User where
  World := Nat
  render w _ _ _ := (w, .ok 
    (.elem { tag := some "p", handlers := [("onClick", { fn := w, target := some (if w = 0 then "old" else "new") })] } []))
  unmount w _ := w
  didRender w _ := w
  provValue n := n
  provChildren _ := []

/-- **C05 is violated** without any failure if an explicit target changes between two renders. -/
theorem C05_static_target_violated : ∃ (U : User) (w : U.World) (root : Comp) (ops : List (Op U)) (t : String) (v : VJson),
    let s := runSys (initSys U w root) ops
    ¬ Failed s.layout.st.log ∧ s.client = .model v ∧ t ∉ v.targets ∧ (handlerFor s.layout t).isSome :=
  ⟨retargetApp, (0 : Nat), { type := .fn 0 }, [.render 20 0, .user (fun _ => (1 : Nat)), .render 20 0], "old",
    .obj { tag := "" } (some [.obj { tag := "p", handlers := some [⟨"onClick", "new", false, false, none, none⟩] } none]),
    by rw [failedB_iff]; decide +kernel, Client.holds_iff (by decide +kernel), by decide +kernel, by decide +kernel⟩

/-! ### C07 -/

/-- **C07**.  In every reachable state the root has not been rendered, or there is the current
expansion `v` of the root (which the client holds unless `stray`), and every user component in it was
last rendered seeing, for every context, the value of the nearest enclosing provider in the
expansion, and nothing where there is none. -/
theorem C07_nearest_provider (w : U.World) (root : Comp) (ops : List (Op U)) :
    let s := runSys (initSys U w root) ops
    lastRender s.layout.st.log 0 = none ∨
    ∃ v F, Shows U (lastRender s.layout.st.log) (fun _ _ => True) [(.comp root, none)] [v] F ∧
      (s.stray = false → s.client = .model v ∨ lastRender s.layout.st.log 0 = none) ∧
      ∀ chain id c m, Under chain F id c → c.type = .fn m →
        ∃ seen out, lastRender s.layout.st.log id = some (c, seen, out) ∧
          ∀ x, seen x = nearest U x chain := by
  intro s
  have h := rinv_run w root ops
  rcases h.lay.disp with ⟨_, _, h1, _⟩ | h2
  · exact .inl h1
  · refine .inr ⟨_, _, by simpa [viewL] using h2.shows (fun _ _ => True) (fun _ _ => trivial), ?_, ?_⟩
    · intro hs
      rcases h.client hs with ⟨_, _, h1⟩ | ⟨h1, _⟩
      · exact .inr h1
      · exact .inl h1
    · intro chain id c m hu hm
      obtain ⟨seen, out, h3, h4⟩ := h2.under chain id c m hu hm
      exact ⟨seen, out, h3, fun x => by simpa [noCtx] using h4 x⟩

/-- The root provides 40 and, inside, 42 for context 3 to `fn 1`, which shows the value. -/
def ctxApp : User where
  World := Nat
  render w _ c seen := match c.type with
    | .fn 0 => (w, .ok (.comp { type := .ctx 3, props := 40 }))
    | _ => (w, .ok (.text (toString ((seen 3).getD 0))))
  unmount w _ := w
  didRender w _ := w
  provValue n := n
  provChildren n := if n = 40 then [.comp { type := .ctx 3, props := 42 }] else [.comp { type := .fn 1 }]

example : (runSys (initSys ctxApp (0 : Nat) { type := .fn 0 }) [.render 60 0]).stray = false ∧
    (runSys (initSys ctxApp (0 : Nat) { type := .fn 0 }) [.render 60 0]).client =
      .model (.obj { tag := "" } (some [.obj { tag := "" } (some [.obj { tag := "" } (some [
        .obj { tag := "" } (some [.obj { tag := "" } (some [
          .obj { tag := "" } (some [.text "42"])])])])])])) :=
  ⟨by decide +kernel, Client.holds_iff (by decide +kernel)⟩

/-! ### C08 -/

/-- **C08** (partial: plain applications, `stray = false`).  A component's render counts as failed only
if its own body raised or returned VDOM that cannot be displayed — never because a component inside
it failed (the display of the rest is `C01_client_view_partial`) —, it succeeds exactly with what
the body returned, and no later `render()` raises (unless it is for an instance that is not
displayed). -/
theorem C08_contained_partial (hU : U.Plain) (w : U.World) (root : Comp) (ops : List (Op U))
    (hs : (runSys (initSys U w root) ops).stray = false) :
    let s := runSys (initSys U w root) ops
    (∀ id c seen raw, .rendered id c seen (.ok raw) ∈ s.layout.st.log →
      Returned U id c seen raw ∧ ¬ raw.Malformed) ∧
    (∀ id c seen e, .rendered id c seen (.error e) ∈ s.layout.st.log →
      RaisedIn U id c seen e ∨ ∃ raw, Returned U id c seen raw ∧ raw.Malformed ∧ e = "ValueError") ∧
    (∀ op, isStray s.layout op = false → ∀ e, (stepOp s.layout op).2 ≠ .raised e) := by
  have hh := lhand_run hU w root ops hs
  refine ⟨fun id c seen raw hm => hh.log id c seen _ hm, fun id c seen e hm => hh.log id c seen _ hm, ?_⟩
  intro op hop e he
  have := step_cases (runSys (initSys U w root) ops).layout op
  rw [he] at this
  change isStray (runSys (initSys U w root) ops).layout op = false at hop
  revert this
  generalize (stepOp (runSys (initSys U w root) ops).layout op).1 = l'
  intro this
  cases this with
  | raised h => rw [hop] at h; simp at h

theorem failApp_plain : failApp.Plain where
  render := by
    intro w id c seen raw h
    simp only [failApp] at h
    split at h
    · split at h
      · simp at h
      · simp only [Except.ok.injEq] at h; subst h; intro k hk; simp at hk
    · simp only [Except.ok.injEq] at h; subst h; intro k hk; simp at hk
    · simp only [Except.ok.injEq] at h; subst h
      exact ⟨by simp [Raw.explicitKey], by simp, by simp, trivial⟩
  provided := by simp [failApp, plainL]

example : failApp.Plain ∧ failRun.stray = false ∧ Failed failRun.layout.st.log :=
  ⟨failApp_plain, by decide +kernel, by rw [failedB_iff]; decide +kernel⟩

/-- **C08 is violated**: after the root failed, `render()` for the formerly displayed child (whose
state was changed) raises, which ends the connection. -/
theorem C08_contained_violated : ∃ (U : User) (w : U.World) (root : Comp) (ops : List (Op U)) (op : Op U) (e : String),
    (stepOp (runSys (initSys U w root) ops).layout op).2 = .raised e :=
  ⟨failApp, (0 : Nat), { type := .fn 0 }, failOps, .render 20 1, "RuntimeError: detached model state",
    Out.raisedB_iff (by decide +kernel)⟩

/-! ### C09 -/

/-- **C09**.  An update for a displayed instance `id` first calls bodies (`t`), then starts effects.
No instance's body is called twice; every call completes; effects are started exactly for the
instances whose bodies were called, in reverse order of the calls.  The instances displayed in the
update were called in document order (parents first), hence their effects run children first; if no
component failed, no other bodies were called. -/
theorem C09_one_render (w : U.World) (root : Comp) (ops : List (Op U)) (fuel id : Nat) (u : Update) :
    let s := runSys (initSys U w root) ops
    let s' := stepOp s.layout (.render fuel id)
    s'.2 = .update u → isStray s.layout (.render fuel id) = false →
    ∃ effects t c k F,
      s'.1.st.log = effects ++ t ++ s.layout.st.log ∧
      (bodiesOf t).Nodup ∧ (completedOf t).Perm (bodiesOf t) ∧ effectsOf t = [] ∧
      effects = (bodiesOf t).reverse.map Ev.effects ∧
      Shows U (lastRender s'.1.st.log) (fun _ _ => True) [(.comp c, k)] [u.model] F ∧
      (instIds F).head? = some id ∧
      (instIds F).reverse.Sublist (bodiesOf t) ∧ (¬ Failed t → bodiesOf t = (instIds F).reverse) := by
  intro s s' hu hst
  have h := rinv_run w root ops
  have hc := step_cases s.layout (.render fuel id)
  have e1 : stepOp s.layout (.render fuel id) = s' := rfl
  rw [e1, hu] at hc
  revert hc
  generalize s'.1 = l'
  intro hc
  cases hc with
  | @tree _ _ old s1 new hf hr =>
    obtain ⟨t, h1, h2, h3, h4, h5, h6⟩ := renderAt_trace hr h.lay.inv h.lay.exit (pre_tree h.lay hf)
    obtain ⟨_, _, _, env, c, p, e, ks, rfl, hK⟩ := linv_render h.lay hf hr
    refine ⟨_, t, c, p.key, _, h1, h2, h4, h3, rfl,
      by simpa [viewL] using hK.shows (fun _ _ => True) (fun _ _ => trivial), ?_, ?_, ?_⟩
    · rw [instsL_ids]; simp
    · rw [instsL_ids]; simpa using h5
    · intro hnf; rw [instsL_ids]; simpa using (h6 hnf).2
  | orphan hs => rw [hst] at hs; simp at hs

example : ∃ u, (stepOp (initLayout exApp (5 : Nat) { type := .fn 0 }) (.render 20 0)).2 = .update u :=
  ⟨_, rfl⟩

/-! ### C10 -/

/-- **C10**, the duplicate check itself: `_get_children_info` reports a duplicate exactly if two
displayed children have the same effective key. -/
theorem C10_duplicates (cs : List Raw) :
    hasDupKeys (childrenInfo 0 cs) = true ↔ ¬ ((keyed cs).map (·.2)).Nodup := hasDup_iff cs

/-- Children with distinct explicit keys are always accepted. -/
theorem C10_explicit_accepted (cs : List Raw) (hk : ∀ c ∈ cs, c.isNone = false → c.explicitKey.isSome)
    (hn : (cs.filterMap (·.explicitKey)).Nodup) : hasDupKeys (childrenInfo 0 cs) = false := by
  cases h : hasDupKeys (childrenInfo 0 cs) with
  | false => rfl
  | true => exact absurd (keyed_explicit cs hk hn) ((C10_duplicates cs).1 h)

/-- **C10** for whole applications, all histories: a render that is displayed has no duplicates anywhere in what it returned.  A render
fails because the body raised, because what it returned is malformed, or with the `KeyError` of handlers missing from the table
(which plain applications never meet: `C10_plain`); so an output is rejected with `ValueError` only for being malformed. -/
theorem C10_rejected (w : U.World) (root : Comp) (ops : List (Op U)) :
    ∀ id c seen out, .rendered id c seen out ∈ (runSys (initSys U w root) ops).layout.st.log →
      match out with
      | .ok raw => Returned U id c seen raw ∧ ¬ raw.Malformed
      | .error e => RaisedIn U id c seen e ∨
          ∃ raw, Returned U id c seen raw ∧ (raw.Malformed ∧ e = "ValueError" ∨ e = "KeyError") :=
  cause_run w root ops

/-- ... in plain applications there is no third reason. -/
theorem C10_plain (hU : U.Plain) (w : U.World) (root : Comp) (ops : List (Op U))
    (hs : (runSys (initSys U w root) ops).stray = false) :
    ∀ id c seen out, .rendered id c seen out ∈ (runSys (initSys U w root) ops).layout.st.log →
      match out with
      | .ok raw => Returned U id c seen raw ∧ ¬ raw.Malformed
      | .error e => RaisedIn U id c seen e ∨ ∃ raw, Returned U id c seen raw ∧ raw.Malformed ∧ e = "ValueError" :=
  (lhand_run hU w root ops hs).log

/-- An application whose root returns two children with the same key, after having returned none. -/
def dupApp : User where
  World := Nat
  render w _ c _ := match c.type with
    | .fn 0 => (w, .ok (if w = 0 then .elem { tag := some "ul" } []
        else .elem { tag := some "ul" } [.comp { type := .fn 1, key := some (.int 1) }, .comp { type := .fn 1 }]))
    | _ => (w, .ok (.text "child"))
  unmount w _ := w
  didRender w _ := w
  provValue n := n
  provChildren _ := []

/-- Shown, then rejected: both outcomes are in the log. -/
example : ∃ seen raw seen', (runSys (initSys dupApp (0 : Nat) { type := .fn 0 }) [.render 20 0, .user (fun _ => (1 : Nat)), .render 20 0]).layout.st.log
    = [.effects 0, .rendered 0 { type := .fn 0 } seen' (.error "ValueError"), .entered 0, .effects 0,
        .rendered 0 { type := .fn 0 } seen (.ok raw), .entered 0, .mounted 0] := ⟨_, _, _, rfl⟩

example : hasDupKeys (childrenInfo 0 [.text "a", .none, .comp { type := .fn 0, key := some (.str "k") }]) = false ∧
    hasDupKeys (childrenInfo 0 [.text "a", .comp { type := .fn 0, key := some (.int 0) }]) = true := by decide

end Verif.Layout
