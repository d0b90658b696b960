import Verif.Layout.Place
import Verif.Layout.Props
import Verif.Session.Props
/-!
# C97: an event runs the handler of the element that the user acted on

The event reaches a layout, maybe another one than the layout that displayed the element, and maybe after more renders.
-/
namespace Verif.Session
open Verif.Layout
variable {U U' : User}

/-- The event handlers displayed, with their keys and targets. -/
theorem placed (hU : U.Plain) (w : U.World) (root : Comp) (ops : List (Layout.Op U))
    (hs : (runSys (initSys U w root) ops).stray = false) (v : VJson) (hv : (runSys (initSys U w root) ops).client = .model v) :
    let s := runSys (initSys U w root) ops
    ∃ F l, Shows U (lastRender s.layout.st.log) (fun _ _ => True) [(.comp root, none)] [v] F ∧
      Places (lastRender s.layout.st.log) [] [(.comp root, none)] [v] F l ∧ l.map (·.target) = v.targets ∧
      (∀ p ∈ l, PlainL p.keys ∧ p.target = autoTarget p.keys p.event) ∧ ∀ p ∈ l, handlerFor s.layout p.target = some p.fn := by
  intro s
  have h := rinv_run w root ops
  have hh := lhand_run hU w root ops hs
  rcases h.client hs with ⟨h1, _⟩ | ⟨h1, h2⟩
  · rw [hv] at h1; simp at h1
  · rw [hv] at h1
    cases h1
    have hc : canonL [s.layout.tree] := by simp only [canonL]; exact ⟨hh.canon, trivial⟩
    have hk : KeysAt [] [s.layout.tree] := by
      obtain ⟨e, ks, ht⟩ := h.lay.isRoot
      intro n hn _
      rw [List.mem_singleton.1 hn, ht]
      rfl
    have hp := h2.places [] hk (by simp only [deepL_cons]; exact ⟨h.lay.deep, deepL_nil⟩) hc
    have hsh := h2.shows (fun _ _ => True) (fun _ _ => trivial)
    have ht := h2.targets
    have hm := placesL_tgts [s.layout.tree]
    simp only [viewL, targetsL, List.append_nil] at ht hp hsh
    refine ⟨_, _, hsh, hp, ?_, placesL_canon _ hc, ?_⟩
    · rw [ht, tnames]
      have := congrArg (List.map (·.1)) hm
      simp only [List.map_map] at this
      exact this
    · intro p hp'
      have : (p.target, p.fn) ∈ (tgtsL [s.layout.tree]).map (fun q => (q.1, q.2.fn)) := by
        rw [← hm]; exact List.mem_map_of_mem (f := fun q : Place => (q.target, q.fn)) hp'
      obtain ⟨q, hq, he⟩ := List.mem_map.1 this
      simp only [Prod.mk.injEq] at he
      unfold handlerFor
      rw [← he.1, hh.hok q hq, ← he.2]; rfl

/-- **C97** (partial: plain applications, no stray instances where the element is displayed, no failure where the event is handled).
An event of an element displayed by one layout, handled by a layout - the same one later, or that of another session - runs the handler
of the element that this layout displays under the same keys, for the same event, and nothing if it displays none: never the handler
of an element elsewhere. -/
theorem C97_keys_partial (hU : U.Plain) (hU' : U'.Plain) (w : U.World) (w' : U'.World) (root root' : Comp)
    (ops : List (Layout.Op U)) (ops' : List (Layout.Op U')) (v v' : VJson)
    (hs : (runSys (initSys U w root) ops).stray = false) (hv : (runSys (initSys U w root) ops).client = .model v)
    (hf : ¬ Failed (runSys (initSys U' w' root') ops').layout.st.log)
    (hv' : (runSys (initSys U' w' root') ops').client = .model v') :
    let s := runSys (initSys U w root) ops
    let s' := runSys (initSys U' w' root') ops'
    ∃ F l F' l', Shows U (lastRender s.layout.st.log) (fun _ _ => True) [(.comp root, none)] [v] F ∧
      Places (lastRender s.layout.st.log) [] [(.comp root, none)] [v] F l ∧
      Shows U' (lastRender s'.layout.st.log) (fun _ _ => True) [(.comp root', none)] [v'] F' ∧
      Places (lastRender s'.layout.st.log) [] [(.comp root', none)] [v'] F' l' ∧
      l.map (·.target) = v.targets ∧
      ∀ p ∈ l, ∀ f, handlerFor s'.layout p.target = some f ↔ ∃ q ∈ l', q.keys = p.keys ∧ q.event = p.event ∧ q.fn = f := by
  intro s s'
  obtain ⟨F, l, a1, a2, a3, a4, _⟩ := placed hU w root ops hs v hv
  obtain ⟨F', l', b1, b2, b3, b4, b5⟩ := placed hU' w' root' ops' (C01_only_failures_stray w' root' ops' hf) v' hv'
  refine ⟨F, l, F', l', a1, a2, b1, b2, a3, fun p hp f => ⟨fun hh => ?_, ?_⟩⟩
  · have ht : p.target ∈ v'.targets := ((C05_only_displayed_partial hU' w' root' ops' hf).1 v' hv' _).1 (by
      show (handlerFor s'.layout p.target).isSome = true
      rw [hh]; rfl)
    rw [← b3] at ht
    obtain ⟨q, hq, he⟩ := List.mem_map.1 ht
    have h1 := a4 p hp
    have h2 := b4 q hq
    obtain ⟨e1, e2⟩ := autoTarget_inj h2.1 h1.1 (by rw [← h2.2, ← h1.2]; exact he)
    have h5 := b5 q hq
    rw [he, show handlerFor _ _ = _ from hh] at h5
    exact ⟨q, hq, e1, e2, by simpa using h5.symm⟩
  · rintro ⟨q, hq, e1, e2, e3⟩
    have h1 := a4 p hp
    have h2 := b4 q hq
    have : p.target = q.target := by rw [h1.2, h2.2, e1, e2]
    rw [this, ← e3]
    exact b5 q hq

/-- A `div` with a button for every number of a list, without keys: the handler of a button is its number. -/
def listApp : User where
  World := List Nat
  render w _ _ _ := (w, .ok (.elem { tag := some "div" } (w.map fun n => .elem { tag := some "button", handlers := [("onClick", { fn := n })] } [])))
  unmount w _ := w
  didRender w _ := w
  provValue n := n
  provChildren _ := []

theorem listApp_plain : listApp.Plain where
  render := by
    intro w id c seen raw h
    simp only [listApp] at h
    simp only [Except.ok.injEq] at h
    subst h
    have hp : ∀ l : List Nat, plainL (l.map fun n => Raw.elem { tag := some "button", handlers := [("onClick", { fn := n })] } []) := by
      intro l
      induction l with
      | nil => trivial
      | cons n l ih => exact ⟨⟨by simp [Raw.explicitKey], by simp, by simp, trivial⟩, ih⟩
    exact ⟨by simp [Raw.explicitKey], by simp, by simp, hp w⟩
  provided := by simp [listApp, plainL]

/-- The list when the session starts, then a change of it. -/
def listRun (l : List Nat) (more : List (Layout.Op listApp)) : Sys listApp := runSys (initSys listApp l { type := .fn 0 }) (.render 20 0 :: more)

/-- What is displayed. -/
def buttons (ts : List String) : VJson :=
  .obj { tag := "" } (some [.obj { tag := "div" } (some (ts.map fun t => .obj { tag := "button", handlers := some [⟨"onClick", t, false, false, none, none⟩] } none))])

example : listApp.Plain ∧ (listRun [7, 8] []).stray = false ∧ (listRun [7, 8] []).client = .model (buttons ["/0/0:onClick", "/0/1:onClick"]) ∧
    ¬ Failed (listRun [7, 8] [.user (fun _ => ([8] : List Nat)), .render 20 0]).layout.st.log ∧
    (listRun [7, 8] [.user (fun _ => ([8] : List Nat)), .render 20 0]).client = .model (buttons ["/0/0:onClick"]) ∧
    handlerFor (listRun [7, 8] [.user (fun _ => ([8] : List Nat)), .render 20 0]).layout "/0/1:onClick" = none :=
  ⟨listApp_plain, by decide +kernel, Client.holds_iff (by decide +kernel), by rw [failedB_iff]; decide +kernel, Client.holds_iff (by decide +kernel),
    by decide +kernel⟩

/-- **C97 is violated** within a session: the user clicks a button while the server removes it from the list; without keys the next
button takes its place, and its handler is run. -/
theorem C97_moved_violated : ∃ (U : User) (w : U.World) (root : Comp) (ops more : List (Layout.Op U)) (v : VJson) (t : String) (f g : Nat),
    U.Plain ∧ (runSys (initSys U w root) ops).client = .model v ∧ t ∈ v.targets ∧ handlerFor (runSys (initSys U w root) ops).layout t = some f ∧
    ¬ Failed (runSys (initSys U w root) (ops ++ more)).layout.st.log ∧
    handlerFor (runSys (initSys U w root) (ops ++ more)).layout t = some g ∧ f ≠ g :=
  ⟨listApp, ([7, 8] : List Nat), { type := .fn 0 }, [.render 20 0], [.user (fun _ => ([8] : List Nat)), .render 20 0],
    buttons ["/0/0:onClick", "/0/1:onClick"], "/0/0:onClick", 7, 8, listApp_plain, Client.holds_iff (by decide +kernel), by decide +kernel,
    by decide +kernel, by rw [failedB_iff]; decide +kernel, by decide +kernel, by decide⟩

/-- **C97 is violated** across sessions: the user clicks while the connection is lost; the click is handed to the next session, which
runs the handler of another element.  Session 1 displays the list `l`, session 2 the list `l'`. -/
theorem C97_session_violated : ∃ (c : Client.Config) (ops : List (Op String)) (l l' : List Nat) (v : VJson) (t : String) (f g : Nat),
    deliveries 0 (run c ops).conn.log = [(2, (1, t))] ∧
    (listRun l []).client = .model v ∧ t ∈ v.targets ∧ handlerFor (listRun l []).layout t = some f ∧
    handlerFor (listRun l' []).layout t = some g ∧ f ≠ g :=
  ⟨Client.exConfig, [.net .ready, .net .open, .update, .net .close, .user "/0/0:onClick", .net .timer, .net .open],
    [7, 8], [8], buttons ["/0/0:onClick", "/0/1:onClick"], "/0/0:onClick", 7, 8, by decide +kernel, Client.holds_iff (by decide +kernel), by decide +kernel,
    by decide +kernel, by decide +kernel, by decide⟩

/-- **C97 is violated** while connected: until the new session sends its first update the page shows the elements of the old one, and
their events go to the new one. -/
theorem C97_reopened_violated : ∃ (c : Client.Config) (ops : List (Op String)) (e : String),
    (run c ops).conn.sock = .open ∧ (run c ops).shown = some 1 ∧ deliveries 0 (run c (ops ++ [.user e])).conn.log = [(2, (1, e))] :=
  ⟨Client.exConfig, [.net .ready, .net .open, .update, .net .close, .net .timer, .net .open], "/0/0:onClick",
    by decide +kernel, by decide +kernel, by decide +kernel⟩

example : (run Client.exConfig [.net .ready, .net .open, .update, .user "a", .net .close, .net .timer, .net .open, .update]).conn.sock = .open ∧
    (run Client.exConfig [.net .ready, .net .open, .update, .user "a", .net .close, .net .timer, .net .open, .update]).shown = some 2 ∧
    deliveries 0 (run Client.exConfig [.net .ready, .net .open, .update, .user "a", .net .close, .user "b", .net .timer, .net .open, .update,
      .user "c"]).conn.log = [(1, (1, "a")), (2, (1, "b")), (2, (2, "c"))] :=
  ⟨by decide +kernel, by decide +kernel, by decide +kernel⟩

end Verif.Session
