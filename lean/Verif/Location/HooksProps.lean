import Verif.Location.Hooks
import Verif.Location.Props
import Verif.Layout.Props
/-! # The connection that components see: property C110 -/
namespace Verif.Location
open Verif.Layout

theorem under_root {U : User} {hist R root} {v : VJson} {F : List Inst} {chain id c}
    (hs : Shows U hist R [(.comp root, none)] [v] F) (hu : Under chain F id c) :
    (chain = [] ∧ c = root) ∨ ∃ l, chain = l ++ [root] := by
  have hF : ∃ k i G, F = [.comp k i root G] := by
    cases hs with
    | comp _ _ h => cases h; exact ⟨_, _, _, rfl⟩
    | fail _ h => cases h; exact ⟨_, _, _, rfl⟩
  obtain ⟨k, i, G, rfl⟩ := hF
  cases hu with
  | here h => simp at h; exact .inl ⟨rfl, h.2.2.1⟩
  | elem h => simp at h
  | comp h => simp at h; exact .inr ⟨_, by rw [h.2.2.1]⟩

theorem nearest_last {U : User} {x : Nat} {root : Comp} (hr : root.type = .ctx x) :
    ∀ l : List Comp, (∀ d ∈ l, d.type ≠ .ctx x) → nearest U x (l ++ [root]) = some (U.provValue root.props)
  | [], _ => by simp [nearest, hr]
  | d :: l, h => by
    rw [List.cons_append, nearest, if_neg (h d (by simp))]
    exact nearest_last hr l (fun e he => h e (by simp [he]))

/-- **C110.**  Every component of a page that is displayed was last rendered with the connection of the websocket that serves
it: `use_connection`, `use_scope` and `use_location` gave exactly what the dispatcher put into the layout, however the
components were rendered before, failing ones included.  The exception are components inside another provider for
`ConnectionContext`, which is then the one they see (`C07_nearest_provider`). -/
theorem C110_connection {U : User} (table : Nat → Option Connection) (x p : Nat) (conn : Connection)
    (hc : table (U.provValue p) = some conn) (w : U.World) (ops : List (Op U)) :
    let s := runSys (initSys U w (servedRoot x p)) ops
    lastRender s.layout.st.log 0 = none ∨
    ∃ v F, Shows U (lastRender s.layout.st.log) (fun _ _ => True) [(.comp (servedRoot x p), none)] [v] F ∧
      (s.stray = false → s.client = .model v ∨ lastRender s.layout.st.log 0 = none) ∧
      ∀ chain id c m, Under chain F id c → c.type = .fn m → (∀ d ∈ chain.dropLast, d.type ≠ .ctx x) →
        ∃ seen out, lastRender s.layout.st.log id = some (c, seen, out) ∧
          useConnection table x seen = .ok conn ∧ useScope table x seen = .ok conn.scope ∧
          useLocation table x seen = .ok conn.location := by
  intro s
  rcases C07_nearest_provider (U := U) w (servedRoot x p) ops with h | ⟨v, F, h1, h2, h3⟩
  · exact .inl h
  · refine .inr ⟨v, F, h1, h2, fun chain id c m hu hm hn => ?_⟩
    obtain ⟨seen, out, h4, h5⟩ := h3 chain id c m hu hm
    refine ⟨seen, out, h4, ?_⟩
    rcases under_root h1 hu with ⟨_, hr⟩ | ⟨l, rfl⟩
    · rw [hr] at hm; simp [servedRoot] at hm
    · rw [List.dropLast_concat] at hn
      have : seen x = some (U.provValue p) := by
        rw [h5 x, nearest_last (root := servedRoot x p) rfl l hn]; rfl
      simp [useConnection, useScope, useLocation, useContext, this, hc]

/-- **C110.**  So `use_location` is where the page was when its connection was made, through any number of navigations and
reconnections before it. -/
theorem C110_location {U : User} (table : Nat → Option Connection) (x p scope carrier : Nat) (mounted page : Page)
    (visits : List Page) (hp : page.pathname ≠ []) (w : U.World) (ops : List (Op U))
    (hc : table (U.provValue p) =
      connectionOf scope (serialise (paramsAfter mounted (visits ++ [page]))) carrier) :
    let s := runSys (initSys U w (servedRoot x p)) ops
    lastRender s.layout.st.log 0 = none ∨
    ∃ v F, Shows U (lastRender s.layout.st.log) (fun _ _ => True) [(.comp (servedRoot x p), none)] [v] F ∧
      (s.stray = false → s.client = .model v ∨ lastRender s.layout.st.log 0 = none) ∧
      ∀ chain id c m, Under chain F id c → c.type = .fn m → (∀ d ∈ chain.dropLast, d.type ≠ .ctx x) →
        ∃ seen out, lastRender s.layout.st.log id = some (c, seen, out) ∧
          useLocation table x seen = .ok ⟨page.pathname, page.search⟩ := by
  have hc' : table (U.provValue p) = some ⟨scope, ⟨page.pathname, page.search⟩, carrier⟩ := by
    rw [hc, connectionOf, C71_location mounted visits page hp]; rfl
  rcases C110_connection table x p _ hc' w ops with h | ⟨v, F, h1, h2, h3⟩
  · exact .inl h
  · refine .inr ⟨v, F, h1, h2, fun chain id c m hu hm hn => ?_⟩
    obtain ⟨seen, out, h4, _, _, h5⟩ := h3 chain id c m hu hm hn
    exact ⟨seen, out, h4, h5⟩

/-- **C110.**  Without a provider there is no connection: in a layout whose root is an ordinary component, the hooks raise in
every component that is not inside a provider for `ConnectionContext`. -/
theorem C110_none {U : User} (table : Nat → Option Connection) (x : Nat) (w : U.World) (root : Comp) (ops : List (Op U)) :
    let s := runSys (initSys U w root) ops
    lastRender s.layout.st.log 0 = none ∨
    ∃ v F, Shows U (lastRender s.layout.st.log) (fun _ _ => True) [(.comp root, none)] [v] F ∧
      ∀ chain id c m, Under chain F id c → c.type = .fn m → (∀ d ∈ chain, d.type ≠ .ctx x) →
        ∃ seen out, lastRender s.layout.st.log id = some (c, seen, out) ∧
          useConnection table x seen = .error "RuntimeError: No backend established a connection." ∧
          useLocation table x seen = .error "RuntimeError: No backend established a connection." := by
  intro s
  rcases C07_nearest_provider (U := U) w root ops with h | ⟨v, F, h1, _, h3⟩
  · exact .inl h
  · refine .inr ⟨v, F, h1, fun chain id c m hu hm hn => ?_⟩
    obtain ⟨seen, out, h4, h5⟩ := h3 chain id c m hu hm
    have : ∀ l : List Comp, (∀ d ∈ l, d.type ≠ .ctx x) → nearest U x l = none := by
      intro l
      induction l with
      | nil => intro _; rfl
      | cons d l ih => intro h; rw [nearest, if_neg (h d (by simp))]; exact ih (fun e he => h e (by simp [he]))
    have hx : seen x = none := by rw [h5 x, this chain hn]
    exact ⟨seen, out, h4, by simp [useConnection, useLocation, useContext, hx]⟩

/-! ### A page with two components -/

/-- The served component `fn 0` shows an element with `fn 1` inside, which shows the number of its connection. -/
def servedApp : User where
  World := Nat
  render w _ c seen := match c.type with
    | .fn 0 => (w, .ok (.elem { tag := some "div" } [.comp { type := .fn 1 }]))
    | _ => (w, .ok (.text (toString ((seen 9).getD 0))))
  unmount w _ := w
  didRender w _ := w
  provValue n := n
  provChildren _ := [.comp { type := .fn 0 }]

/-- Connection 7: made on `/a` with the query string `?q=1`, after the page was mounted on `/`. -/
def servedTable (n : Nat) : Option Connection :=
  if n = 7 then connectionOf 1 (serialise (paramsAfter ⟨bytes "/", []⟩ ([] ++ [⟨bytes "/a", bytes "?q=1"⟩]))) 2 else none

example : servedTable (servedApp.provValue 7) =
    connectionOf 1 (serialise (paramsAfter ⟨bytes "/", []⟩ ([] ++ [⟨bytes "/a", bytes "?q=1"⟩]))) 2 := rfl

/-- After one render the page is displayed, with the inner component inside the provider and the served component; rendering
it again alone changes nothing. -/
example :
    let s := runSys (initSys servedApp (0 : Nat) (servedRoot 9 7)) [.render 60 0, .render 60 2]
    s.stray = false ∧
    s.client = .model (.obj { tag := "" } (some [.obj { tag := "" } (some [.obj { tag := "" } (some [
      .obj { tag := "div" } (some [.obj { tag := "" } (some [.text "7"])])])])])) ∧
    (match lastRender s.layout.st.log 2 with
      | some (_, seen, _) => match useLocation servedTable 9 seen with
        | .ok l => some l
        | .error _ => none
      | none => none) = some ⟨bytes "/a", bytes "?q=1"⟩ :=
  ⟨by decide +kernel, Client.holds_iff (by decide +kernel), by decide +kernel⟩

end Verif.Location
