import Verif.Client.ConvertFaith
import Verif.Client.ConvertProps
/-! # C66: event data are faithful -/
namespace Verif.Client.Convert

theorem convert_fields {h : Heap} {fuel : Nat} {d : Int} {sel : Option (Option Selection)} {i : Nat} {t : Tree}
    (hc : convert h fuel d sel (.obj i) = .ok t) :
    ∃ r, forIn h (clone h fuel d [i]) none (h i).fields [] = .ok r ∧
      ((sel = none ∧ t = .obj r) ∨ ∃ s u, sel = some s ∧ selectionTree h fuel d [i] s = .ok u ∧
        t = .obj (r.filter (fun p => !(p.1 == "selection")) ++ [("selection", u)])) := by
  obtain ⟨r, hr, hc⟩ := bind_ok hc
  refine ⟨r, hr, ?_⟩
  cases sel with
  | none => cases hc; exact .inl ⟨rfl, rfl⟩
  | some s =>
    obtain ⟨u, hu, hc⟩ := bind_ok hc
    cases hc
    exact .inr ⟨s, u, rfl, hu, rfl⟩

/-- C66, nothing else: every entry of the data made of an event, at every level, shows a property of that name (or the
form element of that name) of the object it is an entry of; lists keep their order; and below the event nothing is
missing that is not irrelevant, cut off or cyclic (`Shows`). -/
theorem C66_shown (h : Heap) (fuel : Nat) (d : Int) (sel : Option (Option Selection)) (i : Nat) (t : Tree)
    (hc : convert h fuel d sel (.obj i) = .ok t) :
    ∃ fs, t = .obj fs ∧ ∀ k u, (k, u) ∈ fs → (sel = none ∨ k ≠ "selection") →
      ∃ f ∈ (h i).fields, f.key = k ∧ ∃ v, f.val = some v ∧ Shows h d [i] v u := by
  obtain ⟨r, hr, ht⟩ := convert_fields hc
  have hm := forIn_made (M := fun p => ∃ f ∈ (h i).fields, f.key = p.1 ∧ ∃ v, f.val = some v ∧ Shows h d [i] v p.2) none _ _ _
    (fun f hf q hv => ⟨f, hf, rfl, _, hv, .leaf _ _ q⟩)
    (fun f hf j u hv hu => ⟨f, hf, rfl, _, hv, clone_shows h _ _ _ _ _ hu (.inr ⟨j, rfl⟩)⟩) (by simp) hr
  rcases ht with ⟨_, rfl⟩ | ⟨s, u, hs, _, rfl⟩
  · exact ⟨r, rfl, fun k u hk _ => hm _ hk⟩
  · refine ⟨_, rfl, fun k w hk hn => ?_⟩
    have hne : k ≠ "selection" := hn.resolve_left (by simp [hs])
    rcases List.mem_append.1 hk with h1 | h1
    · exact hm _ (List.mem_filter.1 h1).1
    · simp only [List.mem_singleton, Prod.mk.injEq] at h1
      exact absurd h1.1 hne

/-- C66, nothing missing: every property of the event that a `for … in` loop visits and that is data is there, a
primitive as it is; an object if there is depth for it and it is not the event itself, and if nothing raises. -/
theorem C66_complete (h : Heap) (fuel : Nat) (d : Int) (sel : Option (Option Selection)) (i : Nat) (fs : List (String × Tree))
    (hc : convert h fuel d sel (.obj i) = .ok (.obj fs)) (f : Field) (hf : f ∈ (h i).fields) (v : Val) (hv : f.val = some v)
    (hsel : sel = none ∨ f.key ≠ "selection") (hrel : Relevant h none f.key v) (hw : Within h d [i] v) :
    ∃ t, (f.key, t) ∈ fs ∧ ∀ q, v = .prim q → t = .leaf v := by
  obtain ⟨r, hr, ht⟩ := convert_fields hc
  obtain ⟨t, hm, hq⟩ := forIn_has none _ _ _ hr f hf v hv ((relevant_iff _ _ _ _).2 hrel)
    (fun ho => ⟨(within_ok hw).1, (within_ok hw).2 ho⟩)
  refine ⟨t, ?_, hq⟩
  rcases ht with ⟨_, e⟩ | ⟨s, u, hs, _, e⟩
  · cases e; exact hm
  · cases e
    exact List.mem_append.2 (.inl (List.mem_filter.2 ⟨hm, by simpa using hsel.resolve_left (by simp [hs])⟩))

/-- C66, once: no key occurs twice in the data of an event, whose properties have different names. -/
theorem C66_once (h : Heap) (fuel : Nat) (d : Int) (sel : Option (Option Selection)) (i : Nat) (fs : List (String × Tree))
    (hc : convert h fuel d sel (.obj i) = .ok (.obj fs)) (hd : ((h i).fields.map (·.key)).Nodup) : (fs.map (·.1)).Nodup := by
  obtain ⟨r, hr, ht⟩ := convert_fields hc
  have hn := forIn_nodup none _ _ _ hr hd (by simp) (by simp)
  rcases ht with ⟨_, e⟩ | ⟨s, u, hs, _, e⟩
  · cases e; exact hn
  · cases e
    refine nodup_snoc (hn.sublist (List.filter_sublist.map _)) ?_
    intro hm
    obtain ⟨p, hp, hk⟩ := List.mem_map.1 hm
    have := (List.mem_filter.1 hp).2
    simp [hk] at this

/-- C66, the selection: an event's data have an entry for the selection of the window, with its values as they are;
its nodes are shown, or marked as cut off. -/
theorem C66_selection (h : Heap) (fuel : Nat) (d : Int) (s : Option Selection) (i : Nat) (fs : List (String × Tree))
    (hc : convert h fuel d (some s) (.obj i) = .ok (.obj fs)) :
    ∃ u, ("selection", u) ∈ fs ∧ (s = none → u = .leaf .null) ∧
      ∀ x, s = some x → ∃ gs, u = .obj gs ∧ (∀ p ∈ x.rest, (p.1, Tree.leaf (.prim p.2)) ∈ gs) ∧
        ∀ k n, (k, n) ∈ [("anchorNode", x.anchor), ("focusNode", x.focus)] →
          ∃ w, (k, w) ∈ gs ∧ (n = none → w = .leaf .null) ∧
            ∀ j, n = some j → Shows h d [i] (.obj j) w ∨ (w = signalTree ∧ (d ≤ 1 ∨ j = i)) := by
  obtain ⟨r, hr, ht⟩ := convert_fields hc
  rcases ht with ⟨h0, _⟩ | ⟨s', u, hs, hu, e⟩
  · cases h0
  cases hs
  cases e
  refine ⟨u, by simp, ?_, ?_⟩
  · rintro rfl; simp [selectionTree] at hu; exact hu.symm
  · rintro x rfl
    have key : ∀ n w, selNode h fuel d [i] n = .ok w → (n = none → w = .leaf .null) ∧
        ∀ j, n = some j → Shows h d [i] (.obj j) w ∨ (w = signalTree ∧ (d ≤ 1 ∨ j = i)) := by
      intro n w hw
      refine ⟨?_, ?_⟩
      · rintro rfl; simp [selNode] at hw; exact hw.symm
      · rintro j rfl
        simp only [selNode] at hw
        split at hw
        · rename_i hs
          cases hw
          exact .inr ⟨rfl, by simpa using (clone_signal hs).2 j rfl⟩
        · exact .inl (clone_shows h _ _ _ _ _ hw (.inr ⟨j, rfl⟩))
    obtain ⟨a, ha, hu⟩ := bind_ok hu
    obtain ⟨f, hf, hu⟩ := bind_ok hu
    cases hu
    refine ⟨_, rfl, ?_, ?_⟩
    · intro p hp
      refine List.mem_cons_of_mem _ (List.mem_cons_of_mem _ (List.mem_map.2 ⟨p, hp, rfl⟩))
    · intro k n hk
      simp only [List.mem_cons, Prod.mk.injEq, List.not_mem_nil, or_false] at hk
      rcases hk with ⟨rfl, rfl⟩ | ⟨rfl, rfl⟩
      · exact ⟨a, by simp, key _ _ ha⟩
      · exact ⟨f, by simp, key _ _ hf⟩

/-! A change event of an input in a form. -/

def faithHeap : Heap
  | 0 => { fields := [⟨"type", some (.prim (.str "change"))⟩, ⟨"target", some (.obj 1)⟩, ⟨"BUBBLING_PHASE", some (.prim (.num 3))⟩] }
  | 1 => { isNode := true, fields := [⟨"tagName", some (.prim (.str "INPUT"))⟩, ⟨"form", some (.obj 2)⟩, ⟨"classList", some (.obj 3)⟩],
           hidden := [⟨"value", some (.prim (.str ""))⟩, ⟨"name", some (.prim (.str "age"))⟩] }
  | 2 => { isNode := true, form := some [1] }
  | 3 => { isArray := true, items := [some (.prim (.str "wide")), some .null] }
  | _ => {}

def faithTree : Tree :=
  .obj [("type", .leaf (.prim (.str "change"))),
    ("target", .obj [("tagName", .leaf (.prim (.str "INPUT"))), ("form", .obj []), ("classList", .arr [.leaf (.prim (.str "wide"))]),
      ("value", .leaf (.prim (.str ""))), ("name", .leaf (.prim (.str "age")))])]

example : (match convert faithHeap 5 10 none (.obj 0) with | .ok t => t.flat | _ => []) = faithTree.flat := by decide +kernel

/-- The target is data, within reach, and nothing raises. -/
example : Relevant faithHeap none "target" (.obj 1) ∧ Within faithHeap 10 [0] (.obj 1) ∧
    ((faithHeap 0).fields.map (·.key)).Nodup := by
  refine ⟨(relevant_iff _ _ _ _).1 (by decide +kernel), ⟨by decide, by decide, ?_⟩, by decide +kernel⟩
  intro i
  match i with
  | 0 | 1 | 2 | 3 => exact ⟨by decide +kernel, by decide +kernel, by decide +kernel⟩
  | n + 4 => exact ⟨by simp [faithHeap], by simp [faithHeap], by simp [faithHeap]⟩

/-- C66 fails for data attributes and form elements with unlucky names: `data-size` is left out, and so is a form
element named `ID`: the names that are filtered out of browser objects are filtered out of the author's names too. -/
theorem C66_names_violated : ∃ (h : Heap) (t : Tree),
    (h 2).fields = [⟨"size", some (.prim (.str "XL"))⟩, ⟨"color", some (.prim (.str "red"))⟩] ∧
    (h 1).get "dataset" = some (some (.obj 2)) ∧ (h 1).form = some [3] ∧ (h 3).get "name" = some (some (.prim (.str "ID"))) ∧
    convert h 5 10 none (.obj 0) = .ok t ∧
    t.flat = (Tree.obj [("target", .obj [("dataset", .obj [("color", .leaf (.prim (.str "red")))])])]).flat := by
  let h : Heap := fun
    | 0 => { fields := [⟨"target", some (.obj 1)⟩] }
    | 1 => { hidden := [⟨"dataset", some (.obj 2)⟩], form := some [3] }
    | 2 => { fields := [⟨"size", some (.prim (.str "XL"))⟩, ⟨"color", some (.prim (.str "red"))⟩] }
    | 3 => { fields := [⟨"name", some (.prim (.str "ID"))⟩] }
    | _ => {}
  have hk : (match convert h 5 10 none (.obj 0) with | .ok t => some t.flat | _ => none) =
    some (Tree.obj [("target", .obj [("dataset", .obj [("color", .leaf (.prim (.str "red")))])])]).flat := by decide +kernel
  cases hc : convert h 5 10 none (.obj 0) with
  | ok t =>
    rw [hc] at hk
    exact ⟨h, t, rfl, by decide +kernel, rfl, by decide +kernel, hc, by simpa using hk⟩
  | _ => rw [hc] at hk; cases hk

end Verif.Client.Convert
