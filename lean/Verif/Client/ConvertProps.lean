import Verif.Client.ConvertLemmas
/-! # C51: event conversion is total and bounded -/
namespace Verif.Client.Convert

/-- The nodes of a selection. -/
def selNodes : Option (Option Selection) → List Nat
  | some (some s) => s.anchor.toList ++ s.focus.toList
  | _ => []

/-- C51, termination: on a finite heap, however cyclic, the conversion of any object, at any depth limit and with
any selection, ends, with a number of nested calls bounded by the number of objects.
Missing: infinite heaps (`C51_infinite_violated`), except as in `C51_terminates_any_heap_partial`. -/
theorem C51_terminates_partial (h : Heap) (n : Nat) (hn : Finite h n) (i : Nat) (hi : i < n) (d : Int)
    (sel : Option (Option Selection)) (hsel : ∀ j ∈ selNodes sel, j < n) :
    ∃ r : Res Tree, r.stuck = false ∧ ∀ fuel, n ≤ fuel → convert h fuel d sel (.obj i) = r := by
  have hroom : room n [i] < n := by
    have h1 := room_cons [] hi (by simp)
    have h2 := room_le n []
    omega
  have hend : (convert h n d sel (.obj i)).stuck = false := by
    simp only [convert]
    obtain ⟨r, hr⟩ := forIn_ends (h := h) (rec := clone h n d [i]) none (h i).fields []
      (fun f hf j hv => clone_ends hn n d [i] _ (.inr ⟨j, rfl, hn i hi j (field_mem hf hv)⟩) hroom)
    refine bind_ends (by rw [hr]; rfl) fun r1 _ => ?_
    cases sel with
    | none => rfl
    | some s =>
      refine bind_ends ?_ fun _ _ => rfl
      cases s with
      | none => rfl
      | some s =>
        simp only [selectionTree]
        refine bind_ends (selNode_ends fun j hj => ?_) fun _ _ => bind_ends (selNode_ends fun j hj => ?_) fun _ _ => rfl
        · exact clone_ends hn n d [i] _ (.inr ⟨j, rfl, hsel j (by simp [selNodes, hj])⟩) hroom
        · exact clone_ends hn n d [i] _ (.inr ⟨j, rfl, hsel j (by simp [selNodes, hj])⟩) hroom
  exact ⟨_, hend, fun fuel hle => convert_mono hle hend⟩

/-- C51, termination on any heap, even an infinite one made by getters, when nothing has an object under `files`:
the number of nested calls is bounded by the depth limit. -/
theorem C51_terminates_any_heap_partial (h : Heap) (hf : NoFiles h) (i : Nat) (d : Int) (sel : Option (Option Selection)) :
    ∃ r : Res Tree, r.stuck = false ∧ ∀ fuel, max 1 d.toNat ≤ fuel → convert h fuel d sel (.obj i) = r := by
  have hc : ∀ j, (clone h (max 1 d.toNat) d [i] (.obj j)).stuck = false :=
    fun j => clone_ends_depth hf _ d [i] _ (.inr ⟨j, rfl⟩) (by omega) (by omega)
  have hend : (convert h (max 1 d.toNat) d sel (.obj i)).stuck = false := by
    simp only [convert]
    obtain ⟨r, hr⟩ := forIn_ends (h := h) (rec := clone h (max 1 d.toNat) d [i]) none (h i).fields [] (fun f hf j hv => hc j)
    refine bind_ends (by rw [hr]; rfl) fun r1 _ => ?_
    cases sel with
    | none => rfl
    | some s =>
      refine bind_ends ?_ fun _ _ => rfl
      cases s with
      | none => rfl
      | some s =>
        simp only [selectionTree]
        exact bind_ends (selNode_ends fun j hj => hc j) fun _ _ => bind_ends (selNode_ends fun j hj => hc j) fun _ _ => rfl
  exact ⟨_, hend, fun fuel hle => convert_mono hle hend⟩

/-- C51, no exception escapes: whatever properties raise, the conversion of an object that is not an event gives
an object.  Missing: an event with a selection (`C51_selection_raises_violated`). -/
theorem C51_never_raises_partial (h : Heap) (n : Nat) (hn : Finite h n) (i : Nat) (hi : i < n) (d : Int) :
    ∃ fs, convert h n d none (.obj i) = .ok (.obj fs) := by
  obtain ⟨r, hr⟩ := forIn_ends (h := h) (rec := clone h n d [i]) none (h i).fields []
    (fun f hf j hv => clone_ends hn n d [i] _ (.inr ⟨j, rfl, hn i hi j (field_mem hf hv)⟩)
      (by have h1 := room_cons [] hi (by simp); have h2 := room_le n []; omega))
  exact ⟨r, by simp [convert, hr, Res.bind]⟩

/-- C51, the result is plain: every leaf is a primitive value, never an object of the source (so the result has no
cycle and shares nothing with the source), nor a function, nor, but for an absent selection, `null`. -/
theorem C51_plain (h : Heap) (fuel : Nat) (d : Int) (sel : Option (Option Selection)) (i : Nat) (t : Tree)
    (ht : convert h fuel d sel (.obj i) = .ok t) :
    t.leaves (fun v => (∃ p, v = .prim p) ∨ v = .null) ∧ (sel = none → t.leaves (fun v => ∃ p, v = .prim p)) := by
  have hclone : ∀ (P : Val → Prop), (∀ p, P (.prim p)) → ∀ vis j t, clone h fuel d vis (.obj j) = .ok t → t.leaves P := by
    intro P hP vis j t hc
    refine clone_post h (fun _ _ t => t.leaves P) ?_ ?_ ?_ ?_ fuel d vis _ t (.inr ⟨j, rfl⟩) hc
    · intro _ _ p; exact hP p
    · intro _ _ _ xs _ _ hx; exact leavesL_of xs hx
    · intro _ _ _ xs _ _ hx; exact leavesF_of xs hx
    · intro _ _ _ _ _ _ hx; exact hx
  have hforIn : ∀ (P : Val → Prop), (∀ p, P (.prim p)) → ∀ r, forIn h (clone h fuel d [i]) none (h i).fields [] = .ok r →
      ∀ p ∈ r, p.2.leaves P := by
    intro P hP r hr
    exact forIn_post (Q := fun t => t.leaves P) none (fun p => hP p) _ _ _ (fun f _ j t _ hj => hclone P hP _ j t hj) (by simp) hr
  simp only [convert] at ht
  obtain ⟨r, hr, ht⟩ := bind_ok ht
  cases sel with
  | none =>
    cases ht
    exact ⟨leavesF_of r (hforIn _ (fun p => .inl ⟨p, rfl⟩) r hr), fun _ => leavesF_of r (hforIn _ (fun p => ⟨p, rfl⟩) r hr)⟩
  | some s =>
    refine ⟨?_, by simp⟩
    obtain ⟨st, hst, ht⟩ := bind_ok ht
    cases ht
    apply leavesF_of
    intro p hp
    rcases List.mem_append.1 hp with hp | hp
    · exact hforIn _ (fun p => .inl ⟨p, rfl⟩) r hr p (List.mem_filter.1 hp).1
    · simp at hp; subst hp
      show st.leaves _
      cases s with
      | none => simp [selectionTree] at hst; subst hst; exact .inr rfl
      | some s =>
        have hnode : ∀ o t, selNode h fuel d [i] o = .ok t → t.leaves (fun v => (∃ p, v = .prim p) ∨ v = .null) := by
          intro o t ho
          cases o with
          | none => simp [selNode] at ho; subst ho; exact .inr rfl
          | some j =>
            simp only [selNode] at ho
            cases hc : clone h fuel d [i] (.obj j) with
            | ok t' => rw [hc] at ho; cases ho; exact hclone _ (fun p => .inl ⟨p, rfl⟩) _ _ _ hc
            | signal => rw [hc] at ho; cases ho; exact ⟨.inl ⟨_, rfl⟩, trivial⟩
            | throws => rw [hc] at ho; cases ho
            | diverge => rw [hc] at ho; cases ho
        simp only [selectionTree] at hst
        obtain ⟨a, ha, hst⟩ := bind_ok hst
        obtain ⟨f, hf, hst⟩ := bind_ok hst
        cases hst
        refine ⟨hnode _ _ ha, hnode _ _ hf, leavesF_of _ ?_⟩
        intro p hp
        obtain ⟨q, -, rfl⟩ := List.mem_map.1 hp
        exact .inl ⟨_, rfl⟩

theorem clone_depth {h : Heap} (hf : NoFiles h) (fuel : Nat) (d : Int) (vis : List Nat) (j : Nat) (t : Tree)
    (hc : clone h fuel d vis (.obj j) = .ok t) : t.depth ≤ (d - 1).toNat := by
  refine clone_post h (fun d _ t => t.depth ≤ (d - 1).toNat) ?_ ?_ ?_ ?_ fuel d vis _ t (.inr ⟨j, rfl⟩) hc
  · intro _ _ _; exact Nat.zero_le _
  · intro d vis i xs hd _ hx
    have := depthL_le xs hx
    simp only [Tree.depth]; omega
  · intro d vis i xs hd _ hx
    have := depthF_le xs hx
    simp only [Tree.depth]; omega
  · intro i j _ _ _ hx; exact absurd hx (hf i j)

/-- C51, depth: when nothing has an object under `files`, the depth of what is made is at most the limit (and at
least the object itself is made).  A selection adds one level.
Missing: `C51_files_violated`, `C51_selection_violated`. -/
theorem C51_depth_partial (h : Heap) (hf : NoFiles h) (fuel : Nat) (d : Int) (i : Nat) (t : Tree)
    (ht : convert h fuel d none (.obj i) = .ok t) : (t.depth : Int) ≤ max 1 d := by
  simp only [convert] at ht
  obtain ⟨r, hr, ht⟩ := bind_ok ht
  cases ht
  have := forIn_post (Q := fun t => t.depth ≤ (d - 1).toNat) none (fun p => Nat.zero_le _) _ _ _
    (fun f _ j t _ hj => clone_depth hf fuel d [i] j t hj) (by simp) hr
  have := depthF_le r this
  simp only [Tree.depth]; omega

/-- C51, depth on a finite heap, with `files`: at most the number of objects, for no object is below itself. -/
theorem C51_depth_finite (h : Heap) (n : Nat) (hn : Finite h n) (fuel : Nat) (d : Int) (i : Nat) (hi : i < n) (t : Tree)
    (ht : convert h fuel d none (.obj i) = .ok t) : t.depth ≤ n := by
  -- an induction of its own, since every object below must be known to be in the heap
  have key : ∀ (fuel : Nat) (d : Int) (vis : List Nat) (v : Val) (t : Tree), ((∃ q, v = .prim q) ∨ ∃ i, v = .obj i ∧ i < n) →
      clone h fuel d vis v = .ok t → t.depth ≤ room n vis := by
    intro fuel
    induction fuel with
    | zero => intro d vis v t _ ht; simp [clone] at ht
    | succ fuel ih =>
      intro d vis v t hv ht
      rcases hv with ⟨q, rfl⟩ | ⟨i, rfl, hi⟩
      · simp [clone, isObject] at ht
        subst ht; simp [Tree.depth]
      · simp only [clone, isObject, and_true] at ht
        split at ht
        · cases ht
        · split at ht
          · cases ht
          · rename_i hvis
            have hvis : i ∉ vis := by simpa using hvis
            have hroom := room_cons vis hi hvis
            have hrec : ∀ d' v t, v ∈ (h i).refs → ((∃ q, v = .prim q) ∨ ∃ j, v = .obj j) →
                clone h fuel d' (i :: vis) v = .ok t → t.depth ≤ room n (i :: vis) := by
              intro d' v t hm hv hc
              refine ih d' _ v t ?_ hc
              rcases hv with hv | ⟨j, rfl⟩
              · exact .inl hv
              · exact .inr ⟨j, rfl, hn i hi j hm⟩
            split at ht
            · cases ht
            · obtain ⟨xs, hx, hxt⟩ := bind_ok ht
              cases hxt
              have := toArray_post (Q := fun t => t.depth ≤ room n (i :: vis)) (fun p => Nat.zero_le _) _ _ _
                (fun j t hj hc => hrec _ _ t (item_mem hj) (.inr ⟨j, rfl⟩) hc) (by simp) hx
              have := depthL_le xs this
              simp only [Tree.depth]; omega
            · obtain ⟨xs, hx, hxt⟩ := bind_ok ht
              cases hxt
              have := toObject_post (Q := fun t => t.depth ≤ room n (i :: vis)) _ (fun p => Nat.zero_le _)
                (fun v t hm hv hc => hrec _ v t hm hv hc)
                (fun j t hj hc => hrec _ _ t (get_mem hj) (.inr ⟨j, rfl⟩) hc) _ hx
              have := depthF_le xs this
              simp only [Tree.depth]; omega
  simp only [convert] at ht
  obtain ⟨r, hr, ht⟩ := bind_ok ht
  cases ht
  have h1 := forIn_post (Q := fun t => t.depth ≤ room n [i]) none (fun p => Nat.zero_le _) _ _ _
    (fun f hf j t hv hj => key fuel d [i] _ t (.inr ⟨j, rfl, hn i hi j (field_mem hf hv)⟩) hj) (by simp) hr
  have h2 := depthF_le r h1
  have h3 := room_cons [] hi (by simp)
  have h4 := room_le n []
  simp only [Tree.depth]; omega

/-! ### A concrete case: a cyclic event -/

/-- An event whose target is an input with a form, a list of labels, and a property that raises. -/
def exHeap : Heap
  | 0 => { fields := [⟨"type", some (.prim (.str "input"))⟩, ⟨"target", some (.obj 1)⟩, ⟨"BUBBLING_PHASE", some (.prim (.num 3))⟩,
                      ⟨"bad", none⟩, ⟨"self", some (.obj 0)⟩, ⟨"preventDefault", some .func⟩] }
  | 1 => { isNode := true, fields := [⟨"form", some (.obj 2)⟩, ⟨"labels", some (.obj 3)⟩, ⟨"parentNode", some (.obj 2)⟩],
           hidden := [⟨"value", some (.prim (.str "abc"))⟩, ⟨"name", some (.prim (.str "who"))⟩] }
  | 2 => { isNode := true, form := some [1], fields := [⟨"action", some (.prim (.str "/"))⟩] }
  | 3 => { hasLength := some true, iterable := true, items := [some (.obj 1), some (.prim (.str "L")), some .null] }
  | _ => {}

example : Finite exHeap 4 := by
  intro i hi j hj
  match i, hi with
  | 0, _ => simp [exHeap, Obj.refs] at hj; omega
  | 1, _ => simp [exHeap, Obj.refs] at hj; omega
  | 2, _ => simp [exHeap, Obj.refs] at hj; omega
  | 3, _ => simp [exHeap, Obj.refs] at hj; omega

example : NoFiles exHeap := by
  intro i j hg
  match i with
  | 0 => exact absurd hg (by simp [exHeap, Obj.get])
  | 1 => exact absurd hg (by simp [exHeap, Obj.get])
  | 2 => exact absurd hg (by simp [exHeap, Obj.get])
  | 3 => exact absurd hg (by simp [exHeap, Obj.get])
  | n + 4 => exact absurd hg (by simp [exHeap, Obj.get])

/-- A tree written flat, to compare. -/
def Tree.flat : Tree → List (String × Option Val)
  | .leaf v => [("", some v)]
  | .arr xs => ("[", none) :: flatL xs ++ [("]", none)]
  | .obj fs => ("{", none) :: flatF fs ++ [("}", none)]
where
  flatL : List Tree → List (String × Option Val)
    | [] => []
    | t :: ts => t.flat ++ flatL ts
  flatF : List (String × Tree) → List (String × Option Val)
    | [] => []
    | (k, t) :: ts => (k, none) :: t.flat ++ flatF ts

example : (match convert exHeap 4 10 none (.obj 0) with | .ok t => t.flat | _ => []) =
    (Tree.obj [("type", .leaf (.prim (.str "input"))),
      ("target", .obj [("form", .obj [("action", .leaf (.prim (.str "/")))]), ("labels", .arr [.leaf (.prim (.str "L"))]),
        ("value", .leaf (.prim (.str "abc"))), ("name", .leaf (.prim (.str "who")))])]).flat := by decide +kernel

/-! ### Where it fails -/

/-- A chain of `n` objects, each under the `files` of the one before. -/
def filesChain : Heap
  | 0 => {}
  | n + 1 => { fields := [⟨"files", some (.obj n)⟩] }

theorem filesChain_finite (n : Nat) : Finite filesChain (n + 1) := by
  intro i hi j hj
  cases i with
  | zero => simp [filesChain, Obj.refs] at hj
  | succ i => simp [filesChain, Obj.refs] at hj; omega

theorem ignore_files (h : Heap) (i : Nat) (p : Obj) (hp : p.isNode = false) (hi : (h i).isStyleSheet = false ∧ (h i).isWindow = false ∧ (h i).isDocument = false) :
    shouldIgnore h (.obj i) "files" (some p) = false := by
  have h1 : ("files".startsWith "__") = false := by decide +kernel
  simp [shouldIgnore, h1, hp, hi]

theorem chain_flags (i : Nat) : (filesChain i).isStyleSheet = false ∧ (filesChain i).isWindow = false ∧
    (filesChain i).isDocument = false ∧ (filesChain i).isNode = false := by cases i <;> simp [filesChain]

theorem chain_clone (n : Nat) : ∀ (fuel : Nat) (d : Int) (vis : List Nat), 2 ≤ d → n < fuel → (∀ j ∈ vis, n < j) →
    ∃ t, clone filesChain fuel d vis (.obj n) = .ok t ∧ n + 1 ≤ t.depth := by
  induction n with
  | zero =>
    intro fuel d vis hd hf hv
    obtain ⟨fuel, rfl⟩ : ∃ k, fuel = k + 1 := ⟨fuel - 1, by omega⟩
    have hv0 : vis.contains 0 = false := by
      simp only [List.contains_eq_mem, decide_eq_false_iff_not]
      intro h0; have := hv 0 h0; omega
    refine ⟨.obj [], ?_, by simp [Tree.depth]⟩
    simp only [clone, isObject, and_true]
    rw [if_neg (by omega)]
    simp only [hv0]
    rfl
  | succ n ih =>
    intro fuel d vis hd hf hv
    obtain ⟨fuel, rfl⟩ : ∃ k, fuel = k + 1 := ⟨fuel - 1, by omega⟩
    have hv0 : vis.contains (n + 1) = false := by
      simp only [List.contains_eq_mem, decide_eq_false_iff_not]
      intro h0; have := hv _ h0; omega
    have hvis : ∀ j ∈ (n + 1) :: vis, n < j := by
      intro j hj
      rcases List.mem_cons.1 hj with rfl | hj
      · omega
      · have := hv j hj; omega
    have hig : shouldIgnore filesChain (.obj n) "files" (some (filesChain (n + 1))) = false :=
      ignore_files _ _ _ (chain_flags _).2.2.2 ⟨(chain_flags n).1, (chain_flags n).2.1, (chain_flags n).2.2.1⟩
    have hal : arrayLike (filesChain (n + 1)) = some false := by simp [arrayLike, filesChain]
    have hfl : (filesChain (n + 1)).fields = [⟨"files", some (.obj n)⟩] := rfl
    have hg : (filesChain (n + 1)).get "files" = some (some (.obj n)) := by simp [Obj.get, filesChain]
    have hg' : ∀ k, k ≠ "files" → (filesChain (n + 1)).get k = none := by
      intro k hk
      simp [Obj.get, filesChain]
      exact fun h => hk h.symm
    have hform : (filesChain (n + 1)).form = none := rfl
    simp only [clone, isObject, and_true]
    rw [if_neg (by omega)]
    simp only [hv0, Bool.false_eq_true, if_false, hal]
    by_cases hd2 : 2 ≤ d - 1
    · obtain ⟨t, ht, htd⟩ := ih fuel (d - 1) ((n + 1) :: vis) hd2 (by omega) hvis
      refine ⟨.obj [("files", t)], ?_, by simp [Tree.depth, Tree.depth.depthF]; omega⟩
      simp [toObject, forIn, hfl, hig, isObject, ht, Res.bind, addDataset, hg', addExtras, extraProps, hg, hasKey, hform]
    · have hd1 : d - 1 = 1 := by omega
      obtain ⟨t, ht, htd⟩ := ih fuel 3 ((n + 1) :: vis) (by omega) (by omega) hvis
      obtain ⟨fuel, rfl⟩ : ∃ k, fuel = k + 1 := ⟨fuel - 1, by omega⟩
      have hs : clone filesChain (fuel + 1) 1 ((n + 1) :: vis) (.obj n) = .signal := by simp [clone, isObject]
      refine ⟨.obj [("files", t)], ?_, by simp [Tree.depth, Tree.depth.depthF]; omega⟩
      simp [toObject, forIn, hfl, hig, isObject, hd1, hs, ht, show max (1 : Int) 3 = 3 by decide, Res.bind, addDataset, hg', addExtras, extraProps, hg, hasKey, hform]

/-- C51 fails: the depth is not bounded by the limit, for `files` is given a new depth of its own at each level. -/
theorem C51_files_violated (n : Nat) : ∃ (h : Heap) (N i : Nat) (t : Tree), Finite h N ∧ i < N ∧
    convert h N 10 none (.obj i) = .ok t ∧ n < t.depth := by
  refine ⟨filesChain, n + 3, n + 2, ?_⟩
  obtain ⟨t, ht, htd⟩ := chain_clone (n + 1) (n + 3) 10 [n + 2] (by omega) (by omega) (by simp)
  refine ⟨.obj [("files", t)], filesChain_finite _, by omega, ?_, by simp [Tree.depth, Tree.depth.depthF]; omega⟩
  have hig : shouldIgnore filesChain (.obj (n + 1)) "files" none = false := by
    have h1 : ("files".startsWith "__") = false := by decide +kernel
    have h3 := chain_flags (n + 1)
    simp [shouldIgnore, h1, h3.1, h3.2.1, h3.2.2.1]
  have hfl : (filesChain (n + 2)).fields = [⟨"files", some (.obj (n + 1))⟩] := rfl
  simp [convert, hfl, forIn, hig, isObject, ht, Res.bind]

/-- An object whose `files` getter makes another such object. -/
def filesForever : Heap := fun i => { fields := [⟨"files", some (.obj (i + 1))⟩] }

theorem forever_clone (fuel : Nat) : ∀ (i : Nat) (d : Int) (vis : List Nat), 2 ≤ d → (∀ j ∈ vis, j < i) →
    clone filesForever fuel d vis (.obj i) = .diverge := by
  induction fuel with
  | zero => intro _ _ _ _ _; rfl
  | succ fuel ih =>
    intro i d vis hd hv
    have hv0 : vis.contains i = false := by
      simp only [List.contains_eq_mem, decide_eq_false_iff_not]
      intro h0; have := hv _ h0; omega
    have hvis : ∀ j ∈ i :: vis, j < i + 1 := by
      intro j hj
      rcases List.mem_cons.1 hj with rfl | hj
      · omega
      · have := hv j hj; omega
    have hig : shouldIgnore filesForever (.obj (i + 1)) "files" (some (filesForever i)) = false :=
      ignore_files _ _ _ rfl ⟨rfl, rfl, rfl⟩
    have hal : arrayLike (filesForever i) = some false := by simp [arrayLike, filesForever]
    have hfl : (filesForever i).fields = [⟨"files", some (.obj (i + 1))⟩] := rfl
    have hg : (filesForever i).get "files" = some (some (.obj (i + 1))) := by simp [Obj.get, filesForever]
    have hg' : ∀ k, k ≠ "files" → (filesForever i).get k = none := by
      intro k hk
      simp [Obj.get, filesForever]
      exact fun h => hk h.symm
    simp only [clone, isObject, and_true]
    rw [if_neg (by omega)]
    simp only [hv0, Bool.false_eq_true, if_false, hal]
    by_cases hd2 : 2 ≤ d - 1
    · simp [toObject, forIn, hfl, hig, isObject, ih (i + 1) (d - 1) (i :: vis) hd2 hvis, Res.bind]
    · have hd1 : d - 1 = 1 := by omega
      have ht := ih (i + 1) 3 (i :: vis) (by omega) hvis
      cases fuel with
      | zero => simp [toObject, forIn, hfl, hig, isObject, clone, Res.bind]
      | succ fuel =>
        have hs : clone filesForever (fuel + 1) 1 (i :: vis) (.obj (i + 1)) = .signal := by simp [clone, isObject]
        simp [toObject, forIn, hfl, hig, isObject, hd1, hs, ht, show max (1 : Int) 3 = 3 by decide, Res.bind, addDataset, hg', addExtras, extraProps, hg, hasKey]

/-- C51 fails on an infinite heap: the conversion never ends. -/
theorem C51_infinite_violated : ∃ (h : Heap) (i : Nat), ∀ fuel, convert h fuel 10 none (.obj i) = .diverge := by
  refine ⟨filesForever, 0, fun fuel => ?_⟩
  have hig : shouldIgnore filesForever (.obj 1) "files" none = false := by decide +kernel
  have hfl : (filesForever 0).fields = [⟨"files", some (.obj 1)⟩] := rfl
  simp [convert, hfl, forIn, hig, isObject, forever_clone fuel 1 10 [0] (by omega) (by simp), Res.bind]

/-- C51 fails for an event with a selection: its nodes are one level too deep (here limit 2, depth 3), and beyond the
limit the program's own marker is left in the data. -/
theorem C51_selection_violated :
    (∃ (h : Heap) (t : Tree), convert h 4 2 (some (some { anchor := some 1, focus := none })) (.obj 0) = .ok t ∧ t.depth = 3) ∧
    (∃ (h : Heap), convert h 4 1 (some (some { anchor := some 1, focus := none })) (.obj 0) =
      .ok (.obj [("selection", .obj [("anchorNode", .obj [("__stop__", .leaf (.prim (.bool true)))]), ("focusNode", .leaf .null)])])) := by
  refine ⟨⟨fun _ => {}, _, rfl, by rfl⟩, ⟨fun _ => {}, by rfl⟩⟩

/-- C51 fails for an event with a selection in a node with a property that raises: so does the conversion. -/
theorem C51_selection_raises_violated : ∃ (h : Heap),
    convert h 4 10 (some (some { anchor := some 1, focus := none })) (.obj 0) = .throws :=
  ⟨fun i => if i = 1 then { hidden := [⟨"value", none⟩] } else {}, by rfl⟩

end Verif.Client.Convert
