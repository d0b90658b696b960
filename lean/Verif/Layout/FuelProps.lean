import Verif.Layout.Fuel
import Verif.Layout.KeptProps
import Verif.Layout.Props
/-!
# C68: a scheduled render of a displayed component yields one update

The renderer of the model takes an amount of fuel; here it is shown that fuel is irrelevant, and that there is enough
of it for every application in which components are not nested without end.
-/
namespace Verif.Layout
variable {U : User}

/-- More fuel does not change what a step does, once there is enough for it to end. -/
theorem C68_fuel_irrelevant (l : Layout U) (id n m : Nat) (hn : ∀ l', stepOp l (.render n id) ≠ (l', .diverged)) (hm : n ≤ m) :
    stepOp l (.render m id) = stepOp l (.render n id) := by
  simp only [stepOp, renderOp] at hn ⊢
  by_cases hreg : id ∈ l.st.reg
  · rw [if_pos hreg] at hn ⊢
    rw [if_pos hreg]
    cases hf : findComp id l.tree with
    | some old =>
      rw [hf] at hn
      simp only at hn ⊢
      cases hr : renderAt n old l.st with
      | none => rw [hr] at hn; exact absurd rfl (hn l)
      | some x => rw [renderAt_mono hr hm]
    | none =>
      rw [hf] at hn
      simp only at hn ⊢
      cases ho : l.st.orphans.findSome? (orphanPart id) with
      | none => rfl
      | some old =>
        rw [ho] at hn
        simp only at hn ⊢
        cases hr : renderAt n old l.st with
        | none => rw [hr] at hn; exact absurd rfl (hn l)
        | some x => rw [renderAt_mono hr hm]
  · rw [if_neg hreg, if_neg hreg]

/-- **C68**.  In every reachable state of an application whose components are not nested without end, rendering a
displayed instance (`C02_displayed`; the root before the first render) ends and yields an update, the same for every
sufficient amount of fuel. -/
theorem C68_render_yields_update (hfin : WellFounded (Contains U)) (w : U.World) (root : Comp) (ops : List (Op U)) (id : Nat)
    (hid : id ∈ instIds (instsL [(runSys (initSys U w root) ops).layout.tree])) :
    ∃ n l u, ∀ fuel, n ≤ fuel → stepOp (runSys (initSys U w root) ops).layout (.render fuel id) = (l, .update u) := by
  have h := rinv_run w root ops
  rw [instsL_ids] at hid
  have hreg : id ∈ (runSys (initSys U w root) ops).layout.st.reg :=
    (h.lay.reg id).2 (by simp at hid; simp [hid])
  have hsome := findComp_of_mem id (runSys (initSys U w root) ops).layout.tree (by simpa using hid)
  obtain ⟨old, hf⟩ := Option.isSome_iff_exists.1 hsome
  obtain ⟨_, p, c, e, ks, rfl⟩ := findComp_mem id _ _ hf
  obtain ⟨n, s', new, hn⟩ := renderAt_ends (p := p) (id := id) (e := e) (ks := ks)
    (s := (runSys (initSys U w root) ops).layout.st) (hfin.apply c)
  exact ⟨n, _, _, fun fuel hfuel => by simp [stepOp, renderOp, hreg, hf, hn fuel hfuel]; exact ⟨rfl, rfl⟩⟩

/-- Rendering an instance that was unmounted, or that does not exist yet, does nothing. -/
theorem C68_unmounted_skipped (w : U.World) (root : Comp) (ops : List (Op U)) (id fuel : Nat)
    (hid : id ∈ unmountsOf (runSys (initSys U w root) ops).layout.st.log ∨
      id ∉ mountsOf (runSys (initSys U w root) ops).layout.st.log) :
    stepOp (runSys (initSys U w root) ops).layout (.render fuel id) = ((runSys (initSys U w root) ops).layout, .skipped) := by
  have hc := (rinv_run w root ops).g.cinv
  have : id ∉ (runSys (initSys U w root) ops).layout.st.reg := by
    rcases hid with h | h
    · exact ((hc.unmounts id).1 h).2
    · exact fun hr => h ((hc.mounts id).2 (hc.lt id hr))
  simp [stepOp, renderOp, this]

theorem exApp_finite : WellFounded (Contains exApp) := by
  have leaf : ∀ c : Comp, c.type ≠ .fn 0 → Acc (Contains exApp) c := by
    intro c hc
    constructor
    rintro d ⟨id, seen, raw, hr, hd⟩
    exfalso
    unfold Returned at hr
    cases ht : c.type with
    | ctx x =>
      rw [ht] at hr
      simp only at hr
      subst hr
      cases hd with
      | elem hm _ => simp [exApp] at hm
    | fn n =>
      rw [ht] at hr
      obtain ⟨w, hw⟩ := hr
      cases n with
      | zero => exact hc ht
      | succ n =>
        simp only [exApp, ht, Except.ok.injEq] at hw
        subst hw
        cases hd with
        | elem hm hd => simp at hm; subst hm; cases hd
  constructor
  intro c
  by_cases hc : c.type = .fn 0
  · constructor
    rintro d ⟨id, seen, raw, hr, hd⟩
    unfold Returned at hr
    rw [hc] at hr
    obtain ⟨w, hw⟩ := hr
    simp only [exApp, hc, Except.ok.injEq] at hw
    subst hw
    cases hd with
    | elem hm hd =>
      simp at hm
      rcases hm with rfl | rfl | rfl <;> cases hd
      exact leaf _ (by simp)
  · exact leaf c hc

example : WellFounded (Contains exApp) ∧ 1 ∈ instIds (instsL [exRun.layout.tree]) ∧
    0 ∈ instIds (instsL [(initSys exApp (5 : Nat) { type := .fn 0 }).layout.tree]) :=
  ⟨exApp_finite, by decide +kernel, by decide +kernel⟩

example : 1 ∈ unmountsOf (moveRun 5).layout.st.log := by decide +kernel

end Verif.Layout
