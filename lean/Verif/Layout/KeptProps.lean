import Verif.Layout.Kept
/-!
# C02: instances follow keys and types

`instsL [s.layout.tree]` are the elements and component instances the server keeps; the first theorem
says that they are those of what the client displays.
-/
namespace Verif.Layout

/-- `fn 0` shows a `ul` with `fn 1` keyed "a" and `fn 2` keyed "b"; in the other order when the world is 1;
only `fn 1` keyed "b" when it is 2. -/
def moveApp : User where
  World := Nat
  render w _ c _ := match c.type with
    | .fn 0 => (w, .ok (.elem { tag := some "ul" } (match w with
      | 0 => [.comp { type := .fn 1, key := some (.str "a") }, .comp { type := .fn 2, key := some (.str "b") }]
      | 1 => [.comp { type := .fn 2, key := some (.str "b") }, .comp { type := .fn 1, key := some (.str "a") }]
      | _ => [.comp { type := .fn 1, key := some (.str "b") }])))
    | _ => (w, .ok (.text "x"))
  unmount w _ := w
  didRender w _ := w
  provValue n := n
  provChildren _ := []

def moveRun (n : Nat) : Sys moveApp :=
  runSys (initSys moveApp (0 : Nat) { type := .fn 0 })
    (([.render 20 0, .user (fun _ => (1 : Nat)), .render 20 0, .user (fun _ => (2 : Nat)), .render 20 0] : List (Op moveApp)).take n)

variable {U : User}

/-- The instances that C02 is about are those of the displayed tree. -/
theorem C02_displayed (w : U.World) (root : Comp) (ops : List (Op U))
    (hs : (runSys (initSys U w root) ops).stray = false) (v : VJson)
    (hv : (runSys (initSys U w root) ops).client = .model v) :
    let s := runSys (initSys U w root) ops
    Shows U (lastRender s.layout.st.log) (fun _ _ => True) [(.comp root, none)] [v] (instsL [s.layout.tree]) := by
  have h := rinv_run w root ops
  rcases h.client hs with ⟨h1, _, h3⟩ | ⟨h1, h2⟩
  · exact Client.noConfusion (h1.symm.trans hv)
  · have : v = (runSys (initSys U w root) ops).layout.tree.view := by
      have := h1.symm.trans hv
      exact (Client.model.inj this).symm
    subst this
    simpa [viewL] using h2.shows (fun _ _ => True) (fun _ _ => trivial)

/-- **C02**.  At every step, wherever the new tree has a component: if the old tree had, under the same
chain of keys (through kept components and elements), a component of the same type, the instance is the
same one; otherwise it is an instance that did not exist before.  Siblings are matched by their keys only,
whatever their order. -/
theorem C02_state_follows_key_and_type (w : U.World) (root : Comp) (ops : List (Op U)) (op : Op U) :
    let s := runSys (initSys U w root) ops
    keptL (fun id => id ∈ mountsOf s.layout.st.log) (instsL [s.layout.tree])
      (instsL [(stepSys s op).layout.tree]) := by
  intro s
  have h : RInv root s := rinv_run w root ops
  have hm : (fun id => id ∈ mountsOf s.layout.st.log) = (· < s.layout.st.nextId) := by
    funext x; exact propext (h.g.cinv.mounts x)
  rw [hm, stepSys_layout]
  have hroot : ∀ t : Node, t.pos = s.layout.tree.pos → t.isText = s.layout.tree.isText →
      (∀ x ∈ t.insts, x.Kept (· < s.layout.st.nextId) (optInst (some s.layout.tree))) →
      keptL (· < s.layout.st.nextId) (instsL [s.layout.tree]) (instsL [t]) := by
    intro t hp ht hk
    rw [keptL_iff]
    intro x hx
    simp only [instsL, List.append_nil] at hx ⊢
    have hkx := insts_key t x hx
    have htt : t.isText = false := by
      cases hc : t.isText with
      | false => rfl
      | true => have := (insts_shape t).1; rw [hc] at this; simp at this; rw [this] at hx; simp at hx
    obtain ⟨y, hy⟩ := (insts_shape s.layout.tree).2 (by rw [← ht]; exact htt)
    have hky := insts_key s.layout.tree y (by rw [hy]; simp)
    have hkk : y.key = x.key := by
      rw [hky, hkx, Node.key?_eq t htt, hp, ← Node.key?_eq _ (by rw [← ht]; exact htt)]
    have h2 := hk x hx
    have ho : optInst (some s.layout.tree) = some y := by simp [optInst, instsL, hy]
    rw [ho] at h2
    rw [hy]
    simpa [hkk] using h2
  have hrefl := hroot s.layout.tree rfl rfl (kept_refl _ _ h.lay.deep)
  generalize hq : stepOp s.layout op = q
  have hst := step_cases s.layout op
  rw [hq] at hst
  obtain ⟨l', out⟩ := q
  simp only at hst ⊢
  cases hst with
  | idle => exact hrefl
  | @tree fuel id old s' new hf hr =>
    refine hroot _ ?_ ?_ (kept_render h.lay hf hr)
    all_goals
      obtain ⟨p, id', c, e, ks, e', ks', s1, rfl, rfl, rfl, hrun⟩ := renderAt_run hr
      have hnt : s.layout.tree.ids.Nodup := (List.nodup_append.1 h.lay.nodup).1
      have hfl : findCompL id [s.layout.tree] = some (.comp p id' c e ks) := by rw [findCompL, hf]; rfl
      have := replaceCompL_pos (new := .comp p id' c e' ks') (by simpa using hnt) hfl ⟨rfl, rfl⟩ s.layout.tree (by simp)
      first | exact this.1 | exact this.2
  | orphan => exact hrefl
  | raised => exact hrefl
  | diverged => exact hrefl

/-- Reordering keeps both instances; another type under the key "b" gets a new one. -/
example : instIds (instsL [(moveRun 1).layout.tree]) = [0, 1, 2] ∧ instIds (instsL [(moveRun 3).layout.tree]) = [0, 2, 1] ∧
    instIds (instsL [(moveRun 5).layout.tree]) = [0, 3] ∧ (moveRun 5).stray = false :=
  ⟨by decide +kernel, by decide +kernel, by decide +kernel, by decide +kernel⟩

end Verif.Layout
