import Verif.Client.Convert
/-! # Lemmas about event conversion -/
namespace Verif.Client.Convert

/-- What is not ignored is a primitive or an object. -/
theorem kept {h : Heap} {v : Val} {k : String} {p : Option Obj} (hi : shouldIgnore h v k p = false) :
    (∃ q, v = .prim q) ∨ ∃ i, v = .obj i := by
  cases v with
  | undef => simp [shouldIgnore] at hi
  | null => simp [shouldIgnore] at hi
  | func => simp [shouldIgnore] at hi
  | prim q => exact .inl ⟨q, rfl⟩
  | obj i => exact .inr ⟨i, rfl⟩

theorem kept_obj {h : Heap} {v : Val} {k : String} {p : Option Obj} (hi : shouldIgnore h v k p = false) (ho : isObject v = true) :
    ∃ i, v = .obj i := by
  rcases kept hi with ⟨q, rfl⟩ | h
  · simp [isObject] at ho
  · exact h

theorem kept_prim {h : Heap} {v : Val} {k : String} {p : Option Obj} (hi : shouldIgnore h v k p = false) (ho : ¬isObject v = true) :
    ∃ q, v = .prim q := by
  rcases kept hi with h | ⟨i, rfl⟩
  · exact h
  · simp [isObject] at ho

theorem get_mem {x : Obj} {k : String} {v : Val} (h : x.get k = some (some v)) : v ∈ x.refs := by
  simp only [Obj.get, Option.map_eq_some_iff] at h
  obtain ⟨f, hf, hv⟩ := h
  have := List.mem_of_find?_eq_some hf
  simp only [Obj.refs, List.mem_append, List.mem_filterMap]
  exact .inl (.inl ⟨f, by simpa using this, hv⟩)

theorem field_mem {x : Obj} {f : Field} {v : Val} (hf : f ∈ x.fields) (hv : f.val = some v) : v ∈ x.refs := by
  simp only [Obj.refs, List.mem_append, List.mem_filterMap]
  exact .inl (.inl ⟨f, .inl hf, hv⟩)

theorem item_mem {x : Obj} {v : Val} (hf : some v ∈ x.items) : v ∈ x.refs := by
  simp only [Obj.refs, List.mem_append, List.mem_filterMap]
  exact .inl (.inr ⟨some v, hf, rfl⟩)

theorem form_mem {x : Obj} {es : List Nat} {e : Nat} (hx : x.form = some es) (he : e ∈ es) : Val.obj e ∈ x.refs := by
  simp only [Obj.refs, List.mem_append, List.mem_map]
  exact .inr ⟨e, by simpa [hx] using he, rfl⟩

/-! ## What a loop makes -/

section post
variable {h : Heap} {rec recFiles : Val → Res Tree} {Q : Tree → Prop}

theorem toArray_post (hleaf : ∀ p, Q (.leaf (.prim p))) : ∀ (items : List (Option Val)) (acc r : List Tree),
    (∀ i t, some (Val.obj i) ∈ items → rec (.obj i) = .ok t → Q t) → (∀ t ∈ acc, Q t) →
    toArray h rec items acc = .ok r → ∀ t ∈ r, Q t := by
  intro items
  induction items with
  | nil => intro acc r _ ha hr; simp [toArray] at hr; subst hr; exact ha
  | cons x xs ih =>
    intro acc r hrec ha hr
    cases x with
    | none => simp [toArray] at hr
    | some v =>
      have ih := fun acc => ih acc r (fun i t hi => hrec i t (by simp [hi]))
      simp only [toArray] at hr
      split at hr
      · exact ih _ ha hr
      · rename_i hig
        split at hr
        · rename_i ho
          obtain ⟨i, rfl⟩ := kept_obj (by simpa using hig) ho
          split at hr
          · rename_i t ht
            refine ih _ ?_ hr
            intro t' ht'
            rcases List.mem_append.1 ht' with h' | h'
            · exact ha t' h'
            · simp at h'; subst h'; exact hrec i t' (by simp) ht
          · exact ih _ ha hr
          · cases hr
          · cases hr
        · rename_i ho
          obtain ⟨q, rfl⟩ := kept_prim (by simpa using hig) ho
          refine ih _ ?_ hr
          intro t' ht'
          rcases List.mem_append.1 ht' with h' | h'
          · exact ha t' h'
          · simp at h'; subst h'; exact hleaf q

theorem post_snoc {acc : List (String × Tree)} {k : String} {t : Tree} (ha : ∀ p ∈ acc, Q p.2) (ht : Q t) :
    ∀ p ∈ acc ++ [(k, t)], Q p.2 := by
  intro p hp
  rcases List.mem_append.1 hp with h' | h'
  · exact ha p h'
  · simp at h'; subst h'; exact ht

theorem forIn_post (parent : Option Obj) (hleaf : ∀ p, Q (.leaf (.prim p))) : ∀ (fs : List Field) (acc r : List (String × Tree)),
    (∀ f ∈ fs, ∀ i t, f.val = some (.obj i) → rec (.obj i) = .ok t → Q t) → (∀ p ∈ acc, Q p.2) →
    forIn h rec parent fs acc = .ok r → ∀ p ∈ r, Q p.2 := by
  intro fs
  induction fs with
  | nil => intro acc r _ ha hr; simp [forIn] at hr; subst hr; exact ha
  | cons f fs ih =>
    intro acc r hrec ha hr
    have ih := fun acc => ih acc r (fun g hg => hrec g (by simp [hg]))
    simp only [forIn] at hr
    split at hr
    · exact ih _ ha hr
    · rename_i v hv
      split at hr
      · exact ih _ ha hr
      · rename_i hig
        split at hr
        · rename_i ho
          obtain ⟨i, rfl⟩ := kept_obj (by simpa using hig) ho
          split at hr
          · rename_i t ht
            exact ih _ (post_snoc ha (hrec f (by simp) i t hv ht)) hr
          · exact ih _ ha hr
          · exact ih _ ha hr
          · cases hr
        · rename_i ho
          obtain ⟨q, rfl⟩ := kept_prim (by simpa using hig) ho
          exact ih _ (post_snoc ha (hleaf q)) hr

theorem addDataset_post (x : Obj) (acc r : List (String × Tree))
    (hrec : ∀ v t, v ∈ x.refs → ((∃ q, v = .prim q) ∨ ∃ i, v = .obj i) → rec v = .ok t → Q t) (ha : ∀ p ∈ acc, Q p.2)
    (hr : addDataset h rec x acc = .ok r) : ∀ p ∈ r, Q p.2 := by
  simp only [addDataset] at hr
  split at hr
  · simp at hr; subst hr; exact ha
  · rename_i o ho
    split at hr
    · simp at hr; subst hr; exact ha
    · cases o with
      | none => simp at hr
      | some v =>
        simp only at hr
        split at hr
        · simp at hr; subst hr; exact ha
        · rename_i hig
          split at hr
          · rename_i t ht
            simp at hr; subst hr
            exact post_snoc ha (hrec v t (get_mem ho) (kept (by simpa using hig)) ht)
          · simp at hr; subst hr; exact ha
          · cases hr
          · cases hr

theorem addExtras_post (x : Obj) (hleaf : ∀ p, Q (.leaf (.prim p)))
    (hrec : ∀ i t, Val.obj i ∈ x.refs → rec (.obj i) = .ok t → Q t)
    (hfiles : ∀ i t, x.get "files" = some (some (.obj i)) → recFiles (.obj i) = .ok t → Q t) :
    ∀ (ps : List String) (acc r : List (String × Tree)), (∀ p ∈ acc, Q p.2) →
    addExtras h rec recFiles x ps acc = .ok r → ∀ p ∈ r, Q p.2 := by
  intro ps
  induction ps with
  | nil => intro acc r ha hr; simp [addExtras] at hr; subst hr; exact ha
  | cons k ps ih =>
    intro acc r ha hr
    simp only [addExtras] at hr
    split at hr
    · exact ih _ _ ha hr
    · rename_i o ho
      split at hr
      · exact ih _ _ ha hr
      · cases o with
        | none => simp at hr
        | some v =>
          simp only at hr
          split at hr
          · exact ih _ _ ha hr
          · rename_i hig
            split at hr
            · rename_i hob
              obtain ⟨i, rfl⟩ := kept_obj (by simpa using hig) hob
              split at hr
              · rename_i t ht
                refine ih _ _ (post_snoc ha ?_) hr
                split at ht
                · rename_i hk
                  have : k = "files" := by simpa using hk
                  subst this
                  exact hfiles i t ho ht
                · exact hrec i t (get_mem ho) ht
              · exact ih _ _ ha hr
              · cases hr
              · cases hr
            · rename_i hob
              obtain ⟨q, rfl⟩ := kept_prim (by simpa using hig) hob
              exact ih _ _ (post_snoc ha (hleaf q)) hr

theorem addForm_post (x : Obj) : ∀ (es : List Nat) (acc r : List (String × Tree)),
    (∀ e ∈ es, ∀ t, rec (.obj e) = .ok t → Q t) → (∀ p ∈ acc, Q p.2) →
    addForm h rec x es acc = .ok r → ∀ p ∈ r, Q p.2 := by
  intro es
  induction es with
  | nil => intro acc r _ ha hr; simp [addForm] at hr; subst hr; exact ha
  | cons e es ih =>
    intro acc r hrec ha hr
    have ih := fun acc => ih acc r (fun g hg => hrec g (by simp [hg]))
    simp only [addForm] at hr
    split at hr
    · split at hr
      · split at hr
        · rename_i t ht
          exact ih _ (post_snoc ha (hrec e (by simp) t ht)) hr
        · exact ih _ ha hr
        · cases hr
        · cases hr
      · exact ih _ ha hr
    · cases hr
    · exact ih _ ha hr

theorem bind_ok {α β : Type} {r : Res α} {k : α → Res β} {b : β} (hb : r.bind k = .ok b) : ∃ a, r = .ok a ∧ k a = .ok b := by
  cases r <;> simp [Res.bind] at hb
  exact ⟨_, rfl, hb⟩

theorem toObject_post (x : Obj) (hleaf : ∀ p, Q (.leaf (.prim p)))
    (hrec : ∀ v t, v ∈ x.refs → ((∃ q, v = .prim q) ∨ ∃ i, v = .obj i) → rec v = .ok t → Q t)
    (hfiles : ∀ i t, x.get "files" = some (some (.obj i)) → recFiles (.obj i) = .ok t → Q t)
    (r : List (String × Tree)) (hr : toObject h rec recFiles x = .ok r) : ∀ p ∈ r, Q p.2 := by
  obtain ⟨r1, h1, hr⟩ := bind_ok hr
  obtain ⟨r2, h2, hr⟩ := bind_ok hr
  obtain ⟨r3, h3, hr⟩ := bind_ok hr
  have q1 := forIn_post (some x) hleaf _ _ _ (fun f hf i t hv => hrec _ t (field_mem hf hv) (.inr ⟨i, rfl⟩)) (by simp) h1
  have q2 := addDataset_post x _ _ hrec q1 h2
  have q3 := addExtras_post x hleaf (fun i t hi => hrec _ t hi (.inr ⟨i, rfl⟩)) hfiles _ _ _ q2 h3
  cases hx : x.form with
  | none => simp only [hx] at hr; cases hr; exact q3
  | some es =>
    simp only [hx] at hr
    exact addForm_post x es _ _ (fun e he t => hrec _ t (form_mem hx he) (.inr ⟨e, rfl⟩)) q3 hr

end post

theorem depthL_le {n : Nat} : ∀ (xs : List Tree), (∀ t ∈ xs, t.depth ≤ n) → Tree.depth.depthL xs ≤ n
  | [], _ => Nat.zero_le _
  | t :: ts, hx => by
    simp only [Tree.depth.depthL]
    exact Nat.max_le.2 ⟨hx t (by simp), depthL_le ts (fun u hu => hx u (by simp [hu]))⟩

theorem depthF_le {n : Nat} : ∀ (xs : List (String × Tree)), (∀ t ∈ xs, t.2.depth ≤ n) → Tree.depth.depthF xs ≤ n
  | [], _ => Nat.zero_le _
  | (k, t) :: ts, hx => by
    simp only [Tree.depth.depthF]
    exact Nat.max_le.2 ⟨hx (k, t) (by simp), depthF_le ts (fun u hu => hx u (by simp [hu]))⟩

theorem le_depthF {xs : List (String × Tree)} {p : String × Tree} (hp : p ∈ xs) : p.2.depth ≤ Tree.depth.depthF xs := by
  induction xs with
  | nil => cases hp
  | cons x xs ih =>
    obtain ⟨k, t⟩ := x
    simp only [Tree.depth.depthF]
    rcases List.mem_cons.1 hp with rfl | h
    · exact Nat.le_max_left _ _
    · exact Nat.le_trans (ih h) (Nat.le_max_right _ _)

theorem leavesL_of {P : Val → Prop} : ∀ (xs : List Tree), (∀ t ∈ xs, t.leaves P) → Tree.leaves.leavesL P xs
  | [], _ => trivial
  | t :: ts, hx => ⟨hx t (by simp), leavesL_of ts (fun u hu => hx u (by simp [hu]))⟩

theorem leavesF_of {P : Val → Prop} : ∀ (xs : List (String × Tree)), (∀ t ∈ xs, t.2.leaves P) → Tree.leaves.leavesF P xs
  | [], _ => trivial
  | (k, t) :: ts, hx => ⟨hx (k, t) (by simp), leavesF_of ts (fun u hu => hx u (by simp [hu]))⟩

/-- The general shape of an argument about `clone`: a property of trees, indexed by depth and the objects being
cloned, that leaves have and objects and arrays inherit from their members. -/
theorem clone_post (h : Heap) (Q : Int → List Nat → Tree → Prop)
    (hleaf : ∀ d vis p, Q d vis (.leaf (.prim p)))
    (harr : ∀ d vis i xs, 0 < d - 1 → i ∉ vis → (∀ t ∈ xs, Q (d - 1) (i :: vis) t) → Q d vis (.arr xs))
    (hobj : ∀ d vis i fs, 0 < d - 1 → i ∉ vis → (∀ p ∈ fs, Q (d - 1) (i :: vis) p.2) → Q d vis (.obj fs))
    (hup : ∀ i j d vis t, (h i).get "files" = some (some (.obj j)) → Q (max d 3) vis t → Q d vis t) :
    ∀ (fuel : Nat) (d : Int) (vis : List Nat) (v : Val) (t : Tree), ((∃ q, v = .prim q) ∨ ∃ i, v = .obj i) →
      clone h fuel d vis v = .ok t → Q d vis t := by
  intro fuel
  induction fuel with
  | zero => intro d vis v t _ ht; simp [clone] at ht
  | succ fuel ih =>
    intro d vis v t hv ht
    rcases hv with ⟨q, rfl⟩ | ⟨i, rfl⟩
    · simp [clone, isObject] at ht
      subst ht; exact hleaf _ _ _
    · simp only [clone, isObject, and_true] at ht
      split at ht
      · cases ht
      · rename_i hd
        split at ht
        · cases ht
        · rename_i hvis
          have hvis : i ∉ vis := by simpa using hvis
          split at ht
          · cases ht
          · obtain ⟨xs, hx, hxt⟩ := bind_ok ht
            cases hxt
            refine harr d vis i xs (by omega) hvis ?_
            exact toArray_post (fun p => hleaf _ _ p) _ _ _ (fun j t _ hj => ih _ _ _ t (.inr ⟨j, rfl⟩) hj) (by simp) hx
          · obtain ⟨xs, hx, hxt⟩ := bind_ok ht
            cases hxt
            refine hobj d vis i xs (by omega) hvis ?_
            exact toObject_post _ (fun p => hleaf _ _ p) (fun v t _ hv hj => ih _ _ _ t hv hj)
              (fun j t hj hf => hup i j _ _ t hj (ih _ _ _ t (.inr ⟨j, rfl⟩) hf)) _ hx

/-! ## Ends of loops -/

section ends
variable {h : Heap} {rec recFiles : Val → Res Tree}

theorem forIn_ends (parent : Option Obj) : ∀ (fs : List Field) (acc : List (String × Tree)),
    (∀ f ∈ fs, ∀ i, f.val = some (.obj i) → (rec (.obj i)).stuck = false) →
    ∃ r, forIn h rec parent fs acc = .ok r := by
  intro fs
  induction fs with
  | nil => intro acc _; exact ⟨acc, rfl⟩
  | cons f fs ih =>
    intro acc hrec
    have ih := fun acc => ih acc (fun g hg => hrec g (by simp [hg]))
    simp only [forIn]
    split
    · exact ih _
    · rename_i v hv
      split
      · exact ih _
      · rename_i hig
        split
        · rename_i ho
          obtain ⟨i, rfl⟩ := kept_obj (by simpa using hig) ho
          have := hrec f (by simp) i hv
          split
          · exact ih _
          · exact ih _
          · exact ih _
          · rename_i hd; rw [hd] at this; simp at this
        · exact ih _

theorem toArray_ends : ∀ (items : List (Option Val)) (acc : List Tree),
    (∀ i, some (Val.obj i) ∈ items → (rec (.obj i)).stuck = false) →
    (toArray h rec items acc).stuck = false := by
  intro items
  induction items with
  | nil => intro acc _; rfl
  | cons x xs ih =>
    intro acc hrec
    have ih := fun acc => ih acc (fun i hi => hrec i (by simp [hi]))
    cases x with
    | none => rfl
    | some v =>
      simp only [toArray]
      split
      · exact ih _
      · rename_i hig
        split
        · rename_i ho
          obtain ⟨i, rfl⟩ := kept_obj (by simpa using hig) ho
          have := hrec i (by simp)
          split
          · exact ih _
          · exact ih _
          · rfl
          · rename_i hd; rw [hd] at this; simp at this
        · exact ih _

theorem addDataset_ends (x : Obj) (acc : List (String × Tree))
    (hrec : ∀ v, v ∈ x.refs → ((∃ q, v = .prim q) ∨ ∃ i, v = .obj i) → (rec v).stuck = false) :
    (addDataset h rec x acc).stuck = false := by
  simp only [addDataset]
  split
  · rfl
  · rename_i o ho
    split
    · rfl
    · cases o with
      | none => rfl
      | some v =>
        simp only
        split
        · rfl
        · rename_i hig
          have := hrec v (get_mem ho) (kept (by simpa using hig))
          split
          · rfl
          · rfl
          · rfl
          · rename_i hd; rw [hd] at this; simp at this

theorem addExtras_ends (x : Obj)
    (hrec : ∀ i, Val.obj i ∈ x.refs → (rec (.obj i)).stuck = false)
    (hfiles : ∀ i, x.get "files" = some (some (.obj i)) → (recFiles (.obj i)).stuck = false) :
    ∀ (ps : List String) (acc : List (String × Tree)), (addExtras h rec recFiles x ps acc).stuck = false := by
  intro ps
  induction ps with
  | nil => intro acc; rfl
  | cons k ps ih =>
    intro acc
    simp only [addExtras]
    split
    · exact ih _
    · rename_i o ho
      split
      · exact ih _
      · cases o with
        | none => rfl
        | some v =>
          simp only
          split
          · exact ih _
          · rename_i hig
            split
            · rename_i hob
              obtain ⟨i, rfl⟩ := kept_obj (by simpa using hig) hob
              split
              · exact ih _
              · exact ih _
              · rfl
              · rename_i hd
                split at hd
                · rename_i hk
                  have : k = "files" := by simpa using hk
                  subst this
                  have := hfiles i ho
                  rw [hd] at this; simp at this
                · have := hrec i (get_mem ho)
                  rw [hd] at this; simp at this
            · exact ih _

theorem addForm_ends (x : Obj) : ∀ (es : List Nat) (acc : List (String × Tree)),
    (∀ e ∈ es, (rec (.obj e)).stuck = false) → (addForm h rec x es acc).stuck = false := by
  intro es
  induction es with
  | nil => intro acc _; rfl
  | cons e es ih =>
    intro acc hrec
    have ih := fun acc => ih acc (fun g hg => hrec g (by simp [hg]))
    simp only [addForm]
    split
    · split
      · have := hrec e (by simp)
        split
        · exact ih _
        · exact ih _
        · rfl
        · rename_i hd; rw [hd] at this; simp at this
      · exact ih _
    · rfl
    · exact ih _

theorem bind_ends {α β : Type} {r : Res α} {k : α → Res β} (hr : (r).stuck = false)
    (hk : ∀ a, r = .ok a → (k a).stuck = false) : (r.bind k).stuck = false := by
  cases r with
  | ok a => exact hk a rfl
  | signal => rfl
  | throws => rfl
  | diverge => simp at hr

theorem toObject_ends (x : Obj)
    (hrec : ∀ v, v ∈ x.refs → ((∃ q, v = .prim q) ∨ ∃ i, v = .obj i) → (rec v).stuck = false)
    (hfiles : ∀ i, x.get "files" = some (some (.obj i)) → (recFiles (.obj i)).stuck = false) :
    (toObject h rec recFiles x).stuck = false := by
  obtain ⟨r, hr⟩ := forIn_ends (h := h) (rec := rec) (some x) x.fields [] (fun f hf i hv => hrec _ (field_mem hf hv) (.inr ⟨i, rfl⟩))
  refine bind_ends (by rw [hr]; rfl) fun r1 _ => bind_ends (addDataset_ends x r1 hrec) fun r2 _ =>
    bind_ends (addExtras_ends x (fun i hi => hrec _ hi (.inr ⟨i, rfl⟩)) hfiles _ _) fun r3 _ => ?_
  cases hx : x.form with
  | none => rfl
  | some es => exact addForm_ends x es _ (fun e he => hrec _ (form_mem hx he) (.inr ⟨e, rfl⟩))

end ends

/-- How many of the objects below `n` are not being cloned. -/
def room : Nat → List Nat → Nat
  | 0, _ => 0
  | n + 1, vis => room n vis + if n ∈ vis then 0 else 1

theorem room_le (n : Nat) (vis : List Nat) : room n vis ≤ n := by
  induction n with
  | zero => simp [room]
  | succ n ih => simp only [room]; split <;> omega

theorem room_ge {n i : Nat} (vis : List Nat) (hi : n ≤ i) : room n (i :: vis) = room n vis := by
  induction n with
  | zero => rfl
  | succ n ih =>
    have : n ≠ i := by omega
    simp [room, ih (by omega), this]

theorem room_cons {n i : Nat} (vis : List Nat) (hi : i < n) (hv : i ∉ vis) : room n (i :: vis) + 1 = room n vis := by
  induction n with
  | zero => omega
  | succ n ih =>
    by_cases h : i = n
    · subst h; simp [room, room_ge, hv]
    · have : n ≠ i := fun h' => h h'.symm
      have := ih (by omega)
      simp only [room, List.mem_cons]
      by_cases hn : n ∈ vis
      · simp [hn]; omega
      · simp [hn, ‹n ≠ i›]; omega

/-- On a finite heap, as much fuel as there are objects left suffices. -/
theorem clone_ends {h : Heap} {n : Nat} (hn : Finite h n) : ∀ (fuel : Nat) (d : Int) (vis : List Nat) (v : Val),
    ((∃ q, v = .prim q) ∨ ∃ i, v = .obj i ∧ i < n) → room n vis < fuel → (clone h fuel d vis v).stuck = false := by
  intro fuel
  induction fuel with
  | zero => intro _ _ _ _ h; omega
  | succ fuel ih =>
    intro d vis v hv hr
    rcases hv with ⟨q, rfl⟩ | ⟨i, rfl, hi⟩
    · simp [clone, isObject]
    · simp only [clone, isObject, and_true]
      split
      · rfl
      · split
        · rfl
        · rename_i hvis
          have hvis : i ∉ vis := by simpa using hvis
          have hroom := room_cons vis hi hvis
          have hrec : ∀ d' v, v ∈ (h i).refs → ((∃ q, v = .prim q) ∨ ∃ j, v = .obj j) →
              (clone h fuel d' (i :: vis) v).stuck = false := by
            intro d' v hm hv
            refine ih d' _ v ?_ (by omega)
            rcases hv with hv | ⟨j, rfl⟩
            · exact .inl hv
            · exact .inr ⟨j, rfl, hn i hi j hm⟩
          split
          · rfl
          · exact bind_ends (toArray_ends _ _ (fun j hj => hrec _ _ (item_mem hj) (.inr ⟨j, rfl⟩))) (fun _ _ => rfl)
          · exact bind_ends (toObject_ends _ (fun v hm hv => hrec _ v hm hv)
              (fun j hj => hrec _ _ (get_mem hj) (.inr ⟨j, rfl⟩))) (fun _ _ => rfl)

/-- On any heap without objects under `files`, the depth bounds the fuel. -/
theorem clone_ends_depth {h : Heap} (hf : NoFiles h) : ∀ (fuel : Nat) (d : Int) (vis : List Nat) (v : Val),
    ((∃ q, v = .prim q) ∨ ∃ i, v = .obj i) → d ≤ fuel → 0 < fuel → (clone h fuel d vis v).stuck = false := by
  intro fuel
  induction fuel with
  | zero => intro _ _ _ _ _ h; omega
  | succ fuel ih =>
    intro d vis v hv hd _
    rcases hv with ⟨q, rfl⟩ | ⟨i, rfl⟩
    · simp [clone, isObject]
    · simp only [clone, isObject, and_true]
      split
      · rfl
      · split
        · rfl
        · have hrec : ∀ v, ((∃ q, v = .prim q) ∨ ∃ j, v = .obj j) →
              (clone h fuel (d - 1) (i :: vis) v).stuck = false := by
            intro v hv
            exact ih _ _ v hv (by omega) (by omega)
          split
          · rfl
          · exact bind_ends (toArray_ends _ _ (fun j hj => hrec _ (.inr ⟨j, rfl⟩))) (fun _ _ => rfl)
          · exact bind_ends (toObject_ends _ (fun v _ hv => hrec v hv) (fun j hj => absurd hj (hf i j))) (fun _ _ => rfl)

/-! ## More fuel changes nothing -/

section mono
variable {h : Heap} {rec rec' recFiles recFiles' : Val → Res Tree}

def Ext (rec rec' : Val → Res Tree) : Prop := ∀ v, (rec v).stuck = false → rec' v = rec v

theorem toArray_mono (hr : Ext rec rec') : ∀ (items : List (Option Val)) (acc : List Tree),
    (toArray h rec items acc).stuck = false → toArray h rec' items acc = toArray h rec items acc := by
  intro items
  induction items with
  | nil => intro acc _; rfl
  | cons x xs ih =>
    intro acc hx
    cases x with
    | none => rfl
    | some v =>
      simp only [toArray] at hx ⊢
      by_cases hi : shouldIgnore h v = true
      · simp only [hi, if_true] at hx ⊢; exact ih _ hx
      · simp only [hi] at hx ⊢
        by_cases ho : isObject v = true
        · simp only [ho, if_true, Bool.false_eq_true, if_false] at hx ⊢
          have := hr v
          cases hv : rec v <;> simp only [hv] at hx this ⊢
          · rw [this rfl]; exact ih _ hx
          · rw [this rfl]; exact ih _ hx
          · rw [this rfl]
          · simp at hx
        · simp only [ho, Bool.false_eq_true, if_false] at hx ⊢; exact ih _ hx

theorem forIn_mono (hr : Ext rec rec') (parent : Option Obj) : ∀ (fs : List Field) (acc : List (String × Tree)),
    (forIn h rec parent fs acc).stuck = false → forIn h rec' parent fs acc = forIn h rec parent fs acc := by
  intro fs
  induction fs with
  | nil => intro acc _; rfl
  | cons f fs ih =>
    intro acc hx
    simp only [forIn] at hx ⊢
    cases hf : f.val with
    | none => simp only [hf] at hx ⊢; exact ih _ hx
    | some v =>
      simp only [hf] at hx ⊢
      by_cases hi : shouldIgnore h v f.key parent = true
      · simp only [hi, if_true] at hx ⊢; exact ih _ hx
      · simp only [hi] at hx ⊢
        by_cases ho : isObject v = true
        · simp only [ho, if_true, Bool.false_eq_true, if_false] at hx ⊢
          have := hr v
          cases hv : rec v <;> simp only [hv] at hx this ⊢
          · rw [this rfl]; exact ih _ hx
          · rw [this rfl]; exact ih _ hx
          · rw [this rfl]; exact ih _ hx
          · simp at hx
        · simp only [ho, Bool.false_eq_true, if_false] at hx ⊢; exact ih _ hx

theorem addDataset_mono (hr : Ext rec rec') (x : Obj) (acc : List (String × Tree))
    (hx : (addDataset h rec x acc).stuck = false) : addDataset h rec' x acc = addDataset h rec x acc := by
  simp only [addDataset] at hx ⊢
  cases hg : x.get "dataset" with
  | none => rfl
  | some o =>
    simp only [hg] at hx ⊢
    by_cases hk : hasKey acc "dataset" = true
    · simp only [hk, if_true]
    · simp only [hk, Bool.false_eq_true, if_false] at hx ⊢
      cases o with
      | none => rfl
      | some v =>
        simp only at hx ⊢
        by_cases hi : shouldIgnore h v "dataset" (some x) = true
        · simp only [hi, if_true]
        · simp only [hi, Bool.false_eq_true, if_false] at hx ⊢
          have := hr v
          cases hv : rec v <;> simp only [hv] at hx this ⊢
          · rw [this rfl]
          · rw [this rfl]
          · rw [this rfl]
          · simp at hx

theorem addExtras_mono (hr : Ext rec rec') (hf : Ext recFiles recFiles') (x : Obj) : ∀ (ps : List String) (acc : List (String × Tree)),
    (addExtras h rec recFiles x ps acc).stuck = false →
    addExtras h rec' recFiles' x ps acc = addExtras h rec recFiles x ps acc := by
  intro ps
  induction ps with
  | nil => intro acc _; rfl
  | cons k ps ih =>
    intro acc hx
    simp only [addExtras] at hx ⊢
    cases hg : x.get k with
    | none => simp only [hg] at hx ⊢; exact ih _ hx
    | some o =>
      simp only [hg] at hx ⊢
      by_cases hk : hasKey acc k = true
      · simp only [hk, if_true] at hx ⊢; exact ih _ hx
      · simp only [hk, Bool.false_eq_true, if_false] at hx ⊢
        cases o with
        | none => rfl
        | some v =>
          simp only at hx ⊢
          by_cases hi : shouldIgnore h v k (some x) = true
          · simp only [hi, if_true] at hx ⊢; exact ih _ hx
          · simp only [hi, Bool.false_eq_true, if_false] at hx ⊢
            by_cases ho : isObject v = true
            · simp only [ho, if_true] at hx ⊢
              have hE : Ext (fun v => if (k == "files") = true then recFiles v else rec v)
                  (fun v => if (k == "files") = true then recFiles' v else rec' v) := by
                intro v hv
                by_cases hkf : (k == "files") = true
                · simp only [hkf, if_true] at hv ⊢; exact hf v hv
                · simp only [hkf] at hv ⊢; exact hr v hv
              have := hE v
              simp only at this
              generalize (if (k == "files") = true then recFiles v else rec v) = a at hx this ⊢
              cases a with
              | ok t => rw [this rfl]; exact ih _ hx
              | signal => rw [this rfl]; exact ih _ hx
              | throws => rw [this rfl]
              | diverge => simp at hx
            · simp only [ho, Bool.false_eq_true, if_false] at hx ⊢; exact ih _ hx

theorem addForm_mono (hr : Ext rec rec') (x : Obj) : ∀ (es : List Nat) (acc : List (String × Tree)),
    (addForm h rec x es acc).stuck = false → addForm h rec' x es acc = addForm h rec x es acc := by
  intro es
  induction es with
  | nil => intro acc _; rfl
  | cons e es ih =>
    intro acc hx
    simp only [addForm] at hx ⊢
    split
    · split
      · rename_i n hn hc
        simp only [hn] at hx
        rw [if_pos hc] at hx
        have := hr (.obj e)
        cases hv : rec (.obj e) <;> simp only [hv] at hx this ⊢
        · rw [this rfl]; exact ih _ hx
        · rw [this rfl]; exact ih _ hx
        · rw [this rfl]
        · simp at hx
      · rename_i n hn hc
        simp only [hn] at hx
        rw [if_neg hc] at hx
        exact ih _ hx
    · rfl
    · rename_i h1 h2
      refine ih _ ?_
      revert hx
      split
      · rename_i n hn; exact absurd hn (h1 n)
      · rename_i hn; exact absurd hn h2
      · exact id

theorem bind_mono {α β : Type} {r r' : Res α} {k k' : α → Res β} (hb : (r.bind k).stuck = false)
    (h1 : (r).stuck = false → r' = r) (h2 : ∀ a, r = .ok a → (k a).stuck = false → k' a = k a) :
    r'.bind k' = r.bind k := by
  cases r with
  | ok a => rw [h1 rfl]; exact h2 a rfl hb
  | signal => rw [h1 rfl]; rfl
  | throws => rw [h1 rfl]; rfl
  | diverge => simp [Res.bind] at hb

theorem toObject_mono (hr : Ext rec rec') (hf : Ext recFiles recFiles') (x : Obj)
    (hx : (toObject h rec recFiles x).stuck = false) : toObject h rec' recFiles' x = toObject h rec recFiles x := by
  refine bind_mono hx (fun h1 => forIn_mono hr _ _ _ h1) fun r1 _ hx => ?_
  refine bind_mono hx (fun h1 => addDataset_mono hr _ _ h1) fun r2 _ hx => ?_
  refine bind_mono hx (fun h1 => addExtras_mono hr hf _ _ _ h1) fun r3 _ hx => ?_
  cases hx' : x.form with
  | none => rfl
  | some es => simp only [hx'] at hx ⊢; exact addForm_mono hr x es _ hx

end mono

theorem clone_mono (h : Heap) : ∀ (fuel : Nat) (d : Int) (vis : List Nat), Ext (clone h fuel d vis) (clone h (fuel + 1) d vis) := by
  intro fuel
  induction fuel with
  | zero => intro d vis v hv; simp [clone] at hv
  | succ fuel ih =>
    intro d vis v hv
    rw [show clone h (fuel + 1 + 1) d vis v = (let maxDepth := d - 1
      if maxDepth ≤ 0 ∧ isObject v = true then Res.signal
      else
        match v with
        | .obj i =>
          if vis.contains i then .signal
          else
            match arrayLike (h i) with
            | none => .throws
            | some true => (toArray h (clone h (fuel + 1) maxDepth (i :: vis)) (h i).items []).bind (fun xs => .ok (.arr xs))
            | some false =>
              (toObject h (clone h (fuel + 1) maxDepth (i :: vis)) (clone h (fuel + 1) (max maxDepth 3) (i :: vis)) (h i)).bind
                (fun fs => .ok (.obj fs))
        | v => .ok (.leaf v)) from rfl]
    simp only [clone] at hv ⊢
    by_cases hd : d - 1 ≤ 0 ∧ isObject v = true
    · rw [if_pos hd, if_pos hd]
    · rw [if_neg hd] at hv
      rw [if_neg hd, if_neg hd]
      cases v with
      | obj i =>
        simp only at hv ⊢
        by_cases hc : vis.contains i = true
        · rw [if_pos hc, if_pos hc]
        · rw [if_neg hc] at hv
          rw [if_neg hc, if_neg hc]
          cases ha : arrayLike (h i) with
          | none => rfl
          | some b =>
            cases b with
            | true =>
              simp only [ha] at hv ⊢
              exact bind_mono hv (fun h1 => toArray_mono (ih _ _) _ _ h1) (fun _ _ _ => rfl)
            | false =>
              simp only [ha] at hv ⊢
              exact bind_mono hv (fun h1 => toObject_mono (ih _ _) (ih _ _) _ h1) (fun _ _ _ => rfl)
      | _ => rfl

theorem clone_mono_le (h : Heap) {fuel fuel' : Nat} (hle : fuel ≤ fuel') (d : Int) (vis : List Nat) :
    Ext (clone h fuel d vis) (clone h fuel' d vis) := by
  induction hle with
  | refl => intro v _; rfl
  | step hle ih =>
    intro v hv
    have := ih v hv
    rw [clone_mono h _ d vis v (by rw [this]; exact hv), this]

theorem selNode_ends {h : Heap} {fuel : Nat} {d : Int} {vis : List Nat} {o : Option Nat}
    (ho : ∀ i, o = some i → (clone h fuel d vis (.obj i)).stuck = false) :
    (selNode h fuel d vis o).stuck = false := by
  cases o with
  | none => rfl
  | some i =>
    have := ho i rfl
    simp only [selNode]
    cases hc : clone h fuel d vis (.obj i) <;> simp [hc] at this ⊢

theorem selNode_mono {h : Heap} {fuel fuel' : Nat} (hle : fuel ≤ fuel') {d : Int} {vis : List Nat} {o : Option Nat}
    (ho : (selNode h fuel d vis o).stuck = false) : selNode h fuel' d vis o = selNode h fuel d vis o := by
  cases o with
  | none => rfl
  | some i =>
    simp only [selNode] at ho ⊢
    have := clone_mono_le h hle d vis (.obj i)
    cases hc : clone h fuel d vis (.obj i) <;> simp only [hc] at this ho ⊢
    · rw [this rfl]
    · rw [this rfl]
    · rw [this rfl]
    · simp at ho

theorem selectionTree_mono {h : Heap} {fuel fuel' : Nat} (hle : fuel ≤ fuel') {d : Int} {vis : List Nat} {o : Option Selection}
    (ho : (selectionTree h fuel d vis o).stuck = false) : selectionTree h fuel' d vis o = selectionTree h fuel d vis o := by
  cases o with
  | none => rfl
  | some s =>
    simp only [selectionTree] at ho ⊢
    refine bind_mono ho (fun h1 => selNode_mono hle h1) fun a _ ho => ?_
    exact bind_mono ho (fun h1 => selNode_mono hle h1) fun _ _ _ => rfl

theorem convert_mono {h : Heap} {fuel fuel' : Nat} (hle : fuel ≤ fuel') {d : Int} {sel : Option (Option Selection)} {v : Val}
    (hc : (convert h fuel d sel v).stuck = false) : convert h fuel' d sel v = convert h fuel d sel v := by
  cases v with
  | obj i =>
    simp only [convert] at hc ⊢
    refine bind_mono hc (fun h1 => forIn_mono (clone_mono_le h hle _ _) _ _ _ h1) fun r _ hc => ?_
    cases sel with
    | none => rfl
    | some s => exact bind_mono hc (fun h1 => selectionTree_mono hle h1) fun _ _ _ => rfl
  | _ => rfl

end Verif.Client.Convert
