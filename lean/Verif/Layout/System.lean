import Verif.Layout.Display
/-! # Invariants of a layout and its client over any sequence of operations (helper lemmas) -/
namespace Verif.Layout
variable {U : User}

/-! ### Finding and replacing a component state -/

mutual
theorem findComp_mem (id : Nat) (n old : Node) (h : findComp id n = some old) :
    id ∈ n.ids ∧ ∃ p c e ks, old = .comp p id c e ks := by
  match n with
  | .text _ => simp [findComp] at h
  | .elem _ _ _ none => simp [findComp] at h
  | .elem _ _ _ (some ks) =>
    simp only [findComp] at h
    have := findCompL_mem id ks old h
    exact ⟨by simpa [Node.ids] using this.1, this.2⟩
  | .comp p i c e ks =>
    simp only [findComp] at h
    split at h
    · rename_i hi; subst hi; cases h; exact ⟨by simp, _, _, _, _, rfl⟩
    · have := findCompL_mem id ks old h
      exact ⟨by simp [this.1], this.2⟩
theorem findCompL_mem (id : Nat) (ns : List Node) (old : Node) (h : findCompL id ns = some old) :
    id ∈ idsL ns ∧ ∃ p c e ks, old = .comp p id c e ks := by
  match ns with
  | [] => simp [findCompL] at h
  | n :: ns =>
    simp only [findCompL] at h
    cases hf : findComp id n with
    | some o =>
      rw [hf] at h; simp at h; subst h
      have := findComp_mem id n o hf
      exact ⟨by simp [this.1], this.2⟩
    | none =>
      rw [hf] at h; simp at h
      have := findCompL_mem id ns old h
      exact ⟨by simp [this.1], this.2⟩
end

mutual
theorem findComp_of_mem (id : Nat) (n : Node) (h : id ∈ n.ids) : (findComp id n).isSome := by
  match n with
  | .text _ => simp at h
  | .elem _ _ _ none => simp [Node.ids] at h
  | .elem _ _ _ (some ks) =>
    simp only [findComp]
    exact findCompL_of_mem id ks (by simpa [Node.ids] using h)
  | .comp p i c e ks =>
    simp only [findComp]
    split
    · simp
    · rename_i hne
      simp at h
      rcases h with h | h
      · exact absurd h.symm hne
      · exact findCompL_of_mem id ks h
theorem findCompL_of_mem (id : Nat) (ns : List Node) (h : id ∈ idsL ns) : (findCompL id ns).isSome := by
  match ns with
  | [] => simp at h
  | n :: ns =>
    simp only [findCompL]
    simp at h
    rcases h with h | h
    · have := findComp_of_mem id n h
      cases hf : findComp id n <;> simp_all
    · have := findCompL_of_mem id ns h
      cases hf : findComp id n <;> simp_all
end

mutual
theorem replaceComp_id (id : Nat) (new n : Node) (h : id ∉ n.ids) : replaceComp id new n = n := by
  match n with
  | .text _ => simp [replaceComp]
  | .elem _ _ _ none => simp [replaceComp]
  | .elem _ _ _ (some ks) =>
    simp only [replaceComp]
    rw [replaceCompL_id id new ks (by simpa [Node.ids] using h)]
  | .comp p i c e ks =>
    simp only [replaceComp]
    simp at h
    rw [if_neg (fun hh => h.1 hh.symm), replaceCompL_id id new ks h.2]
theorem replaceCompL_id (id : Nat) (new : Node) (ns : List Node) (h : id ∉ idsL ns) :
    replaceCompL id new ns = ns := by
  match ns with
  | [] => simp [replaceCompL]
  | n :: ns =>
    simp at h
    simp only [replaceCompL]
    rw [replaceComp_id id new n h.1, replaceCompL_id id new ns h.2]
end

theorem replaceCompL_map (id : Nat) (new : Node) (ns : List Node) :
    replaceCompL id new ns = ns.map (replaceComp id new) := by
  induction ns with
  | nil => simp [replaceCompL]
  | cons n ns ih => simp [replaceCompL, ih]

mutual
theorem replaceComp_ids (id : Nat) (new n old : Node) (hn : n.ids.Nodup) (h : findComp id n = some old) :
    ∃ A B, n.ids = A ++ old.ids ++ B ∧ (replaceComp id new n).ids = A ++ new.ids ++ B := by
  match n with
  | .text _ => simp [findComp] at h
  | .elem _ _ _ none => simp [findComp] at h
  | .elem _ _ _ (some ks) =>
    simp only [findComp] at h
    have := replaceCompL_ids id new ks old (by simpa [Node.ids] using hn) h
    simpa [Node.ids, replaceComp] using this
  | .comp p i c e ks =>
    simp only [findComp] at h
    simp only [replaceComp]
    split at h
    · rename_i hi
      cases h
      exact ⟨[], [], by simp, by simp [hi]⟩
    · rename_i hi
      simp at hn
      obtain ⟨A, B, h1, h2⟩ := replaceCompL_ids id new ks old hn.2 h
      rw [if_neg hi]
      exact ⟨i :: A, B, by simp [h1], by simp [h2]⟩
theorem replaceCompL_ids (id : Nat) (new : Node) (ns : List Node) (old : Node) (hn : (idsL ns).Nodup)
    (h : findCompL id ns = some old) :
    ∃ A B, idsL ns = A ++ old.ids ++ B ∧ idsL (replaceCompL id new ns) = A ++ new.ids ++ B := by
  match ns with
  | [] => simp [findCompL] at h
  | n :: ns =>
    simp only [findCompL] at h
    simp only [idsL_cons, List.nodup_append] at hn
    simp only [replaceCompL, idsL_cons]
    cases hf : findComp id n with
    | some o =>
      rw [hf] at h; simp at h; subst h
      have hm := (findComp_mem id n o hf).1
      rw [replaceCompL_id id new ns (fun hh => hn.2.2 id hm id hh rfl)]
      obtain ⟨A, B, h1, h2⟩ := replaceComp_ids id new n o hn.1 hf
      exact ⟨A, B ++ idsL ns, by simp [h1], by simp [h2]⟩
    | none =>
      rw [hf] at h; simp at h
      have hm := (findCompL_mem id ns old h).1
      rw [replaceComp_id id new n (fun hh => hn.2.2 id hh id hm rfl)]
      obtain ⟨A, B, h1, h2⟩ := replaceCompL_ids id new ns old hn.2.1 h
      exact ⟨n.ids ++ A, B, by simp [h1], by simp [h2]⟩
end

/-- Replacing a component state keeps position, key and kind of every child. -/
theorem replaceComp_pos (id : Nat) (new n : Node) (h : ∀ p i c e ks, n = .comp p i c e ks → i = id →
      new.pos = p ∧ new.isText = false) :
    (replaceComp id new n).pos = n.pos ∧ (replaceComp id new n).isText = n.isText := by
  match n with
  | .text _ => simp [replaceComp]
  | .elem _ _ _ none => simp [replaceComp]
  | .elem _ _ _ (some ks) => simp [replaceComp, Node.pos, Node.isText]
  | .comp p i c e ks =>
    simp only [replaceComp]
    split
    · rename_i hi; have := h _ _ _ _ _ rfl hi; exact ⟨this.1, this.2⟩
    · simp [Node.pos, Node.isText]

theorem findComp_self {id i p c e ks} {ns : List Node} {old : Node} (hn : (idsL ns).Nodup)
    (h : findCompL id ns = some old) (hm : Node.comp p i c e ks ∈ ns) (hi : i = id) :
    old = .comp p i c e ks := by
  induction ns with
  | nil => simp at hm
  | cons n ns ih =>
    simp only [findCompL] at h
    simp only [idsL_cons, List.nodup_append] at hn
    simp only [List.mem_cons] at hm
    rcases hm with hm | hm
    · subst hm; simp [findComp, hi] at h; rw [← h, hi]
    · cases hf : findComp id n with
      | some o =>
        have h1 := (findComp_mem id n o hf).1
        have h2 : id ∈ idsL ns := by
          clear ih h hn
          induction ns with
          | nil => simp at hm
          | cons m ms ih' =>
            simp only [List.mem_cons] at hm
            rcases hm with hm | hm
            · subst hm; simp [hi]
            · simp [ih' hm]
        exact absurd rfl (hn.2.2 id h1 id h2)
      | none =>
        rw [hf] at h; simp at h
        exact ih hn.2.1 h hm

theorem replaceCompL_pos {id : Nat} {new : Node} {ns : List Node} {old : Node} (hn : (idsL ns).Nodup)
    (h : findCompL id ns = some old) (hnew : new.pos = old.pos ∧ new.isText = false) :
    ∀ n ∈ ns, (replaceComp id new n).pos = n.pos ∧ (replaceComp id new n).isText = n.isText := by
  intro n hm
  apply replaceComp_pos
  intro p i c e ks he hi
  subst he
  have := findComp_self hn h hm hi
  rw [this] at hnew
  exact hnew

theorem map_pos_keys {f : Node → Node} {ns : List Node}
    (h : ∀ n ∈ ns, (f n).pos = n.pos ∧ (f n).isText = n.isText) : keysL (ns.map f) = keysL ns := by
  induction ns with
  | nil => simp [keysL]
  | cons n ns ih =>
    have h1 := h n (by simp)
    have h2 := ih (fun m hm => h m (by simp [hm]))
    simp only [keysL] at h2
    have : (f n).key? = n.key? := by
      by_cases ht : n.isText
      · have := h1.2
        cases n <;> simp [Node.isText] at ht
        cases hf : f (Node.text _) <;> simp [hf, Node.isText] at this
        simp [Node.key?]
      · simp at ht
        rw [Node.key?_eq n ht, Node.key?_eq _ (by rw [h1.2]; exact ht), h1.1]
    simp only [keysL, List.map_cons, List.filterMap_cons, this, h2]

theorem map_pos_from {f : Node → Node} {path kpath idx} {ns : List Node}
    (h : ∀ n ∈ ns, (f n).pos = n.pos ∧ (f n).isText = n.isText) (hp : PosFrom path kpath idx ns) :
    PosFrom path kpath idx (ns.map f) := by
  induction ns generalizing idx with
  | nil => simp [PosFrom]
  | cons n ns ih =>
    simp only [PosFrom, List.map_cons] at hp ⊢
    have h1 := h n (by simp)
    refine ⟨?_, ih (fun m hm => h m (by simp [hm])) hp.2⟩
    rw [h1.1, h1.2]; exact hp.1

mutual
theorem replaceComp_deep (id : Nat) (new n old : Node) (hn : n.ids.Nodup) (h : findComp id n = some old)
    (hnew : new.pos = old.pos ∧ new.isText = false) (hd : n.deep) (hdn : new.deep) :
    (replaceComp id new n).deep := by
  match n with
  | .text _ => simp [findComp] at h
  | .elem _ _ _ none => simp [findComp] at h
  | .elem p _ _ (some ks) =>
    simp only [findComp] at h
    simp only [replaceComp, Node.deep] at hd ⊢
    have hn' : (idsL ks).Nodup := by simpa [Node.ids] using hn
    have hp := replaceCompL_pos hn' h hnew
    refine ⟨?_, ?_, replaceCompL_deep id new ks old hn' h hnew hd.2.2 hdn⟩
    · rw [replaceCompL_map, map_pos_keys hp]; exact hd.1
    · rw [replaceCompL_map]; exact map_pos_from hp hd.2.1
  | .comp p i c e ks =>
    simp only [findComp] at h
    simp only [replaceComp]
    split at h
    · rename_i hi; rw [if_pos hi]; exact hdn
    · rename_i hi
      rw [if_neg hi]
      simp at hn
      simp only [Node.deep] at hd ⊢
      have hp := replaceCompL_pos hn.2 h hnew
      refine ⟨?_, ?_, replaceCompL_deep id new ks old hn.2 h hnew hd.2.2 hdn⟩
      · rw [replaceCompL_map, map_pos_keys hp]; exact hd.1
      · rw [replaceCompL_map]; exact map_pos_from hp hd.2.1
theorem replaceCompL_deep (id : Nat) (new : Node) (ns : List Node) (old : Node) (hn : (idsL ns).Nodup)
    (h : findCompL id ns = some old)
    (hnew : new.pos = old.pos ∧ new.isText = false) (hd : deepL ns) (hdn : new.deep) :
    deepL (replaceCompL id new ns) := by
  match ns with
  | [] => simp [findCompL] at h
  | n :: ns =>
    simp only [findCompL] at h
    simp only [idsL_cons, List.nodup_append] at hn
    simp only [replaceCompL, deepL_cons] at hd ⊢
    cases hf : findComp id n with
    | some o =>
      rw [hf] at h; simp at h; subst h
      have hm := (findComp_mem id n o hf).1
      rw [replaceCompL_id id new ns (fun hh => hn.2.2 id hm id hh rfl)]
      exact ⟨replaceComp_deep id new n o hn.1 hf hnew hd.1 hdn, hd.2⟩
    | none =>
      rw [hf] at h; simp at h
      have hm := (findCompL_mem id ns old h).1
      rw [replaceComp_id id new n (fun hh => hn.2.2 id hh id hm rfl)]
      exact ⟨hd.1, replaceCompL_deep id new ns old hn.2.1 h hnew hd.2 hdn⟩
end

mutual
theorem findComp_deep (id : Nat) (n old : Node) (h : findComp id n = some old) (hd : n.deep) : old.deep := by
  match n with
  | .text _ => simp [findComp] at h
  | .elem _ _ _ none => simp [findComp] at h
  | .elem p _ _ (some ks) =>
    simp only [findComp] at h
    simp only [Node.deep] at hd
    exact findCompL_deep id ks old h hd.2.2
  | .comp p i c e ks =>
    simp only [findComp] at h
    split at h
    · cases h; exact hd
    · simp only [Node.deep] at hd
      exact findCompL_deep id ks old h hd.2.2
theorem findCompL_deep (id : Nat) (ns : List Node) (old : Node) (h : findCompL id ns = some old)
    (hd : deepL ns) : old.deep := by
  match ns with
  | [] => simp [findCompL] at h
  | n :: ns =>
    simp only [findCompL] at h
    simp only [deepL_cons] at hd
    cases hf : findComp id n with
    | some o => rw [hf] at h; simp at h; subst h; exact findComp_deep id n o hf hd.1
    | none => rw [hf] at h; simp at h; exact findCompL_deep id ns old h hd.2
end

mutual
/-- A failed component has no children. -/
def Node.errOK : Node → Prop
  | .text _ => True
  | .elem _ _ _ none => True
  | .elem _ _ _ (some ks) => errOKL ks
  | .comp _ _ _ e ks => (e ≠ none → ks = []) ∧ errOKL ks
def errOKL : List Node → Prop
  | [] => True
  | n :: ns => n.errOK ∧ errOKL ns
end

theorem KidsOK.errOK {H T env rs ns} (h : KidsOK U H T env rs ns) : errOKL ns := by
  induction h with
  | nil => simp [errOKL]
  | text _ ih => simp [errOKL, Node.errOK, ih]
  | @elem env i sh cs pos ts ks rs ns hs hk _ ih1 ih2 =>
    simp only [errOKL]
    refine ⟨?_, ih2⟩
    split
    · simp [Node.errOK]
    · simpa [Node.errOK] using ih1
  | comp _ _ _ _ _ ih1 ih2 => simp [errOKL, Node.errOK, ih1, ih2]
  | fail _ _ _ _ ih => simp [errOKL, Node.errOK, ih]

/-! ### The client applies the patch in the right place -/

theorem viewL_map (ns : List Node) : viewL ns = ns.map Node.view := by
  induction ns with
  | nil => simp [viewL]
  | cons n ns ih => simp [viewL, ih]

theorem findComp_pos_text {id : Nat} {n old : Node} (h : findComp id n = some old) : n.isText = false := by
  cases n with
  | text => simp [findComp] at h
  | elem p sh ts ks => rfl
  | comp p i c e ks => rfl

mutual
theorem setAt_node (id : Nat) (new n old : Node) (hn : n.ids.Nodup) (hd : n.deep)
    (herr : n.errOK) (h : findComp id n = some old) :
    ∃ r, old.pos.path = n.pos.path ++ r ∧
      setAt r new.view n.view = some (replaceComp id new n).view := by
  match n with
  | .text _ => simp [findComp] at h
  | .elem _ _ _ none => simp [findComp] at h
  | .elem p sh ts (some ks) =>
    simp only [findComp] at h
    simp only [Node.deep] at hd
    simp only [Node.errOK] at herr
    obtain ⟨i, r, k, h1, h2, h3, h4⟩ := setAt_list id new ks old p.path p.kpath 0
      (by simpa [Node.ids] using hn) hd.2.2 hd.2.1 herr h
    refine ⟨i :: r, by simpa [Node.pos] using h1, ?_⟩
    simp only [Node.view, replaceComp, setAt, viewL_map, List.getElem?_map, h2, Option.map_some, h3]
    rw [h4, List.map_set]
  | .comp p i c (some e) ks =>
    simp only [Node.errOK] at herr
    obtain ⟨herr, _⟩ := herr
    have : ks = [] := herr (by simp)
    subst this
    simp only [findComp, findCompL] at h
    split at h
    · rename_i hi; cases h; exact ⟨[], by simp, by simp [setAt, replaceComp, hi]⟩
    · simp at h
  | .comp p i c none ks =>
    simp only [findComp] at h
    split at h
    · rename_i hi; cases h; exact ⟨[], by simp, by simp [setAt, replaceComp, hi]⟩
    · rename_i hi
      simp only [Node.deep] at hd
      simp only [Node.errOK] at herr
      simp at hn
      obtain ⟨j, r, k, h1, h2, h3, h4⟩ := setAt_list id new ks old p.path p.kpath 0
        hn.2 hd.2.2 hd.2.1 herr.2 h
      refine ⟨j :: r, by simpa [Node.pos] using h1, ?_⟩
      simp only [Node.view, replaceComp, if_neg hi, setAt, viewL_map, List.getElem?_map, h2, Option.map_some, h3]
      rw [h4, List.map_set]
theorem setAt_list (id : Nat) (new : Node) (ns : List Node) (old : Node) (path kpath) (idx : Nat)
    (hn : (idsL ns).Nodup) (hd : deepL ns) (hp : PosFrom path kpath idx ns)
    (herr : errOKL ns) (h : findCompL id ns = some old) :
    ∃ i r k, old.pos.path = path ++ (idx + i) :: r ∧ ns[i]? = some k ∧
      setAt r new.view k.view = some (replaceComp id new k).view ∧
      replaceCompL id new ns = ns.set i (replaceComp id new k) := by
  match ns with
  | [] => simp [findCompL] at h
  | n :: ns =>
    simp only [findCompL] at h
    simp only [idsL_cons, List.nodup_append] at hn
    simp only [deepL_cons] at hd
    simp only [PosFrom] at hp
    simp only [errOKL] at herr
    cases hf : findComp id n with
    | some o =>
      rw [hf] at h; simp at h; subst h
      have hm := (findComp_mem id n o hf).1
      obtain ⟨r, h1, h2⟩ := setAt_node id new n o hn.1 hd.1 herr.1 hf
      obtain ⟨key, hk⟩ := hp.1 (findComp_pos_text hf)
      refine ⟨0, r, n, ?_, rfl, h2, ?_⟩
      · rw [h1, hk]; simp [kidPos]
      · simp only [replaceCompL, List.set_cons_zero]
        rw [replaceCompL_id id new ns (fun hh => hn.2.2 id hm id hh rfl)]
    | none =>
      rw [hf] at h; simp at h
      have hm := (findCompL_mem id ns old h).1
      obtain ⟨i, r, k, h1, h2, h3, h4⟩ := setAt_list id new ns old path kpath (idx + 1) hn.2.1 hd.2 hp.2 herr.2 h
      refine ⟨i + 1, r, k, ?_, by simpa using h2, h3, ?_⟩
      · rw [h1]; congr 2; omega
      · simp only [replaceCompL, List.set_cons_succ, h4]
        rw [replaceComp_id id new n (fun hh => hn.2.2 id hh id hm rfl)]
end

/-! ### The displayed tree after replacing one component -/

theorem KidsOK.replace {H T env rs ns} (h : KidsOK U H T env rs ns) (hn : (idsL ns).Nodup)
    {id : Nat} {old : Node} (hf : findCompL id ns = some old) :
    ∃ env' p c e ks, old = .comp p id c e ks ∧ T id = Verif.Layout.below U c env' ∧
      ctxOKL T (dom env') [old] ∧
      ∀ H' T' new, KidsOK U H' T' env' [(.comp c, p.key)] [new] →
        (∀ x ∈ idsL ns, x ∉ old.ids → H' x = H x ∧ T' x = T x) →
        KidsOK U H' T' env rs (replaceCompL id new ns) := by
  induction h with
  | nil => simp [findCompL] at hf
  | text _ ih =>
    simp only [findCompL, findComp, Option.none_or] at hf
    obtain ⟨env', p, c, e, ks, h1, h2, h3, h4⟩ := ih (by simpa using hn) hf
    refine ⟨env', p, c, e, ks, h1, h2, h3, fun H' T' new hk hfr => ?_⟩
    simp only [replaceCompL, replaceComp]
    exact .text (h4 H' T' new hk (by simpa using hfr))
  | @elem env i sh cs pos ts ks rs ns hs hk hrest ih1 ih2 =>
    simp only [idsL_cons, List.nodup_append, ids_elem] at hn
    simp only [findCompL] at hf
    cases cs with
    | nil =>
      rw [keyed_nil] at hk
      cases hk
      have hif : (if ([] : List Raw).isEmpty then (Option.none : Option (List Node)) else some []) =
        Option.none := rfl
      rw [hif] at hf hn ⊢
      simp only [findComp, Option.none_or] at hf
      obtain ⟨env', p, c, e, ks, h1, h2, h3, h4⟩ := ih2 hn.2.1 hf
      refine ⟨env', p, c, e, ks, h1, h2, h3, fun H' T' new hk hfr => ?_⟩
      simp only [replaceCompL, replaceComp]
      exact .elem (cs := []) hs .nil (h4 H' T' new hk (by simpa [ids_elem] using hfr))
    | cons c0 cs =>
      have hif : ∀ l : List Node, (if (c0 :: cs).isEmpty then Option.none else some l) = some l :=
        fun _ => rfl
      rw [hif] at hf hn ⊢
      simp only [findComp] at hf
      cases hfk : findCompL id ks with
      | some o =>
        rw [hfk] at hf; simp at hf; subst hf
        have hm := (findCompL_mem id ks o hfk).1
        obtain ⟨env', p, c, e, ks', h1, h2, h3, h4⟩ := ih1 hn.1 hfk
        refine ⟨env', p, c, e, ks', h1, h2, h3, fun H' T' new hk hfr => ?_⟩
        simp only [replaceCompL, replaceComp]
        rw [replaceCompL_id id new ns (fun hh => hn.2.2 id hm id hh rfl)]
        have h5 := h4 H' T' new hk (fun x hx => hfr x (by simp [ids_elem, hx]))
        have hold : ∀ x ∈ idsL ns, x ∉ o.ids := by
          intro x hx hxo
          obtain ⟨A, B, hA, _⟩ := replaceCompL_ids id new ks o hn.1 hfk
          exact hn.2.2 x (by simp [hA, hxo]) x hx rfl
        have h6 := hrest.frame (H' := H') (T' := T')
          (fun x hx => (hfr x (by simp [hx]) (hold x hx)).1) (fun x hx => (hfr x (by simp [hx]) (hold x hx)).2)
        exact .elem hs h5 h6
      | none =>
        rw [hfk] at hf; simp at hf
        have hm := (findCompL_mem id ns old hf).1
        obtain ⟨env', p, c, e, ks', h1, h2, h3, h4⟩ := ih2 hn.2.1 hf
        refine ⟨env', p, c, e, ks', h1, h2, h3, fun H' T' new hk' hfr => ?_⟩
        simp only [replaceCompL, replaceComp]
        rw [replaceCompL_id id new ks (fun hh => hn.2.2 id hh id hm rfl)]
        have h5 := h4 H' T' new hk' (fun x hx => hfr x (by simp [hx]))
        have hold : ∀ x ∈ idsL ks, x ∉ old.ids := by
          intro x hx hxo
          obtain ⟨A, B, hA, _⟩ := replaceCompL_ids id new ns old hn.2.1 hf
          exact hn.2.2 x hx x (by simp [hA, hxo]) rfl
        have h6 := hk.frame (H' := H') (T' := T')
          (fun x hx => (hfr x (by simp [ids_elem, hx]) (hold x hx)).1)
          (fun x hx => (hfr x (by simp [ids_elem, hx]) (hold x hx)).2)
        exact .elem hs h6 h5
  | @comp env c pos i seen raw ks rs ns hH hseen hT hk hrest ih1 ih2 =>
    simp only [idsL_cons, List.nodup_append, ids_comp] at hn
    have hnk := List.nodup_cons.1 hn.1
    simp only [findCompL, findComp] at hf
    by_cases hi : i = id
    · subst hi
      simp at hf; subst hf
      refine ⟨env, pos, c, _, ks, rfl, hT, (KidsOK.comp (pos := pos) hH hseen hT hk .nil).ctxOK, ?_⟩
      intro H' T' new hk' hfr
      have hold : ∀ x ∈ idsL ns, x ∉ (Node.comp pos i c Option.none ks).ids :=
        fun x hx hxo => hn.2.2 x (by simpa using hxo) x hx rfl
      simp only [replaceCompL, replaceComp, if_true]
      rw [replaceCompL_id i new ns (fun hh => hold i hh (by simp))]
      have h6 := hrest.frame (H' := H') (T' := T')
          (fun x hx => (hfr x (by simp [hx]) (hold x hx)).1)
          (fun x hx => (hfr x (by simp [hx]) (hold x hx)).2)
      exact hk'.append h6
    · rw [if_neg hi] at hf
      cases hfk : findCompL id ks with
      | some o =>
        rw [hfk] at hf; simp at hf; subst hf
        have hm := (findCompL_mem id ks o hfk).1
        obtain ⟨env', p, c', e, ks', h1, h2, h3, h4⟩ := ih1 hnk.2 hfk
        refine ⟨env', p, c', e, ks', h1, h2, h3, fun H' T' new hk' hfr => ?_⟩
        simp only [replaceCompL, replaceComp, if_neg hi]
        rw [replaceCompL_id id new ns (fun hh => hn.2.2 id (by simp [hm]) id hh rfl)]
        have h5 := h4 H' T' new hk' (fun x hx => hfr x (by simp [hx]))
        obtain ⟨A, B, hA, _⟩ := replaceCompL_ids id new ks o hnk.2 hfk
        have hold : ∀ x ∈ idsL ns, x ∉ o.ids := by
          intro x hx hxo
          exact hn.2.2 x (by simp [hA, hxo]) x hx rfl
        have hio : i ∉ o.ids := fun h => hnk.1 (by simp [hA, h])
        have h6 := hrest.frame (H' := H') (T' := T')
          (fun x hx => (hfr x (by simp [hx]) (hold x hx)).1) (fun x hx => (hfr x (by simp [hx]) (hold x hx)).2)
        have h7 := hfr i (by simp) hio
        exact .comp (h7.1.trans hH) hseen (h7.2.trans hT) h5 h6
      | none =>
        rw [hfk] at hf; simp at hf
        have hm := (findCompL_mem id ns old hf).1
        obtain ⟨env', p, c', e, ks', h1, h2, h3, h4⟩ := ih2 hn.2.1 hf
        refine ⟨env', p, c', e, ks', h1, h2, h3, fun H' T' new hk' hfr => ?_⟩
        have hself := (KidsOK.comp (pos := pos) (rs := []) (ns := []) hH hseen hT hk .nil)
        simp only [replaceCompL]
        rw [replaceComp_id id new _ (fun hh => hn.2.2 id (by simpa using hh) id hm rfl)]
        have h5 := h4 H' T' new hk' (fun x hx => hfr x (by simp [hx]))
        have hold : ∀ x ∈ idsL [Node.comp pos i c Option.none ks], x ∉ old.ids := by
          intro x hx hxo
          obtain ⟨A, B, hA, _⟩ := replaceCompL_ids id new ns old hn.2.1 hf
          exact hn.2.2 x (by simpa using hx) x (by simp [hA, hxo]) rfl
        have h6 := hself.frame (H' := H') (T' := T')
          (fun x hx => (hfr x (by simp at hx ⊢; rcases hx with h | h <;> simp [h]) (hold x hx)).1)
          (fun x hx => (hfr x (by simp at hx ⊢; rcases hx with h | h <;> simp [h]) (hold x hx)).2)
        exact h6.append h5
  | @fail env c pos i seen e rs ns hH hseen hT hrest ih2 =>
    simp only [idsL_cons, List.nodup_append, ids_comp] at hn
    simp only [findCompL, findComp] at hf
    by_cases hi : i = id
    · subst hi
      simp at hf; subst hf
      refine ⟨env, pos, c, _, [], rfl, hT, (KidsOK.fail (pos := pos) hH hseen hT .nil).ctxOK, ?_⟩
      intro H' T' new hk' hfr
      have hold : ∀ x ∈ idsL ns, x ∉ (Node.comp pos i c (some (errText U e)) []).ids :=
        fun x hx hxo => hn.2.2 x (by simpa using hxo) x hx rfl
      simp only [replaceCompL, replaceComp, if_true]
      rw [replaceCompL_id i new ns (fun hh => hold i hh (by simp))]
      have h6 := hrest.frame (H' := H') (T' := T')
          (fun x hx => (hfr x (by simp [hx]) (hold x hx)).1)
          (fun x hx => (hfr x (by simp [hx]) (hold x hx)).2)
      exact hk'.append h6
    · rw [if_neg hi] at hf
      simp only [Option.none_or] at hf
      have hm := (findCompL_mem id ns old hf).1
      obtain ⟨env', p, c', e', ks', h1, h2, h3, h4⟩ := ih2 hn.2.1 hf
      refine ⟨env', p, c', e', ks', h1, h2, h3, fun H' T' new hk' hfr => ?_⟩
      have hself := (KidsOK.fail (pos := pos) (rs := []) (ns := []) hH hseen hT .nil)
      simp only [replaceCompL]
      rw [replaceComp_id id new _ (fun hh => hn.2.2 id (by simpa using hh) id hm rfl)]
      have h5 := h4 H' T' new hk' (fun x hx => hfr x (by simp [hx]))
      have hold : ∀ x ∈ idsL [Node.comp pos i c (some (errText U e)) []], x ∉ old.ids := by
        intro x hx hxo
        obtain ⟨A, B, hA, _⟩ := replaceCompL_ids id new ns old hn.2.1 hf
        exact hn.2.2 x (by simpa using hx) x (by simp [hA, hxo]) rfl
      have h6 := hself.frame (H' := H') (T' := T')
        (fun x hx => (hfr x (by simp at hx ⊢; simp [hx]) (hold x hx)).1)
        (fun x hx => (hfr x (by simp at hx ⊢; simp [hx]) (hold x hx)).2)
      exact h6.append h5

/-! ### Rendering one instance -/

theorem runExit_fold (l : List Nat) (s : St U) :
    let t := l.foldl (fun (s : St U) id => { s with world := U.didRender s.world id, log := .effects id :: s.log }) s
    t.nextId = s.nextId ∧ t.reg = s.reg ∧ t.ctx = s.ctx ∧ t.seqs = s.seqs ∧ t.orphans = s.orphans ∧
      t.handlers = s.handlers ∧ lastRender t.log = lastRender s.log := by
  induction l generalizing s with
  | nil => simp
  | cons x l ih =>
    have := ih { s with world := U.didRender s.world x, log := .effects x :: s.log }
    simp only [List.foldl_cons]
    obtain ⟨a, b, c, d, e, f, g⟩ := this
    refine ⟨a, b, c, d, e, f, ?_⟩
    rw [g]; funext y; simp [lastRender]

theorem runExit_spec (s : St U) :
    (runExit s).nextId = s.nextId ∧ (runExit s).reg = s.reg ∧ (runExit s).ctx = s.ctx ∧
    (runExit s).seqs = s.seqs ∧ (runExit s).orphans = s.orphans ∧
    (runExit s).handlers = s.handlers ∧ lastRender (runExit s).log = lastRender s.log ∧
    (runExit s).exit = [] := by
  have := runExit_fold s.exit s
  simp only at this
  obtain ⟨a, b, c, d, e, f, g⟩ := this
  exact ⟨a, b, c, d, e, f, g, rfl⟩

theorem renderAt_run {fuel old} {s s' : St U} {new} (h : renderAt fuel old s = some (s', new)) :
    ∃ p id c e ks e' ks' s1, old = .comp p id c e ks ∧ new = .comp p id c e' ks' ∧ s' = runExit s1 ∧
      Run (.comp none (some old) p c) s s1 (.ok [new]) := by
  unfold renderAt at h
  split at h
  · rename_i p id c e ks
    split at h
    · rename_i s1 n hr
      simp at h; obtain ⟨rfl, rfl⟩ := h
      have hrun := run_component hr
      have hnew : ∃ e' ks', n = .comp p id c e' ks' := by
        cases hrun with
        | compRaise hp _ => simp [prepareComp] at hp; exact ⟨_, _, by rw [hp.2.1]⟩
        | compOk hp _ _ => simp [prepareComp] at hp; exact ⟨_, _, by rw [hp.2.1]⟩
        | compErr hp _ _ => simp [prepareComp] at hp; exact ⟨_, _, by rw [hp.2.1]⟩
      obtain ⟨e', ks', hn⟩ := hnew
      exact ⟨p, id, c, e, ks, e', ks', s1, rfl, hn, rfl, hrun⟩
    · simp at h
  · simp at h

/-- Registry bookkeeping when the instances `I` are exchanged for `L`. -/
theorem Post.swap {s s' : St U} {I L F R : List Nat} (h : Post I s s' L) (hi : Inv s)
    (hF : F.Nodup) (hp : F.Perm (I ++ R)) (hreg : ∀ x, x ∈ s.reg ↔ x ∈ F) :
    ∃ o, s'.orphans = s.orphans ++ o ∧ (L ++ idsL o ++ R).Nodup ∧
      ∀ x, x ∈ s'.reg ↔ x ∈ L ++ idsL o ++ R := by
  obtain ⟨o, ho, hn, hs, hr⟩ := h.orph
  have hF' := hp.nodup_iff.1 hF
  rw [List.nodup_append] at hF'
  have hRlt : ∀ x ∈ R, x < s.nextId := fun x hx => hi.lt x ((hreg x).2 (hp.mem_iff.2 (by simp [hx])))
  have hdis : ∀ x ∈ L ++ idsL o, x ∉ R := by
    intro x hx hxR
    rcases hs x hx with h1 | h1
    · exact hF'.2.2 x h1 x hxR rfl
    · have := hRlt x hxR; omega
  refine ⟨o, ho, ?_, ?_⟩
  · rw [List.nodup_append]
    exact ⟨hn, hF'.2.1, fun a ha b hb hab => hdis a ha (hab ▸ hb)⟩
  · intro x
    by_cases hx : x ∈ I ∨ s.nextId ≤ x
    · rw [hr x hx]
      have : x ∉ R := by
        intro hR
        rcases hx with h1 | h1
        · exact hF'.2.2 x h1 x hR rfl
        · have := hRlt x hR; omega
      simp only [List.mem_append, this, or_false]
    · simp only [not_or, Nat.not_le] at hx
      rw [h.frame.reg x hx.2 hx.1, hreg x, hp.mem_iff]
      have hnot : x ∉ L ++ idsL o := fun hm => by
        rcases hs x hm with h1 | h1
        · exact hx.1 h1
        · omega
      simp only [List.mem_append] at hnot ⊢
      simp [hx.1, hnot]

/-- Position of the root state. -/
def rootPos : Pos := { key := none, path := [], kpath := [] }

/-- Nothing is visible above the root. -/
def noCtx : Ctx := fun _ => none

/-- The invariant of a layout with root component `root`. -/
structure LInv (root : Comp) (l : Layout U) : Prop where
  inv : Inv l.st
  isRoot : ∃ e ks, l.tree = .comp rootPos 0 root e ks
  nodup : (l.tree.ids ++ idsL l.st.orphans).Nodup
  reg : ∀ x, x ∈ l.st.reg ↔ x ∈ l.tree.ids ++ idsL l.st.orphans
  deep : l.tree.deep
  deepO : deepL l.st.orphans
  exit : l.st.exit = []
  disp : (l.tree = .comp rootPos 0 root none [] ∧ (∀ x, l.st.ctx 0 x = none) ∧
      lastRender l.st.log 0 = none ∧ l.st.orphans = []) ∨
    KidsOK U (lastRender l.st.log) l.st.ctx noCtx [(.comp root, none)] [l.tree]

theorem linv_init (w : U.World) (root : Comp) : LInv root (initLayout U w root) where
  inv := ⟨by simp [initLayout], by simp [initLayout], by simp [initLayout]⟩
  isRoot := ⟨_, _, rfl⟩
  nodup := by simp [initLayout]
  reg := by simp [initLayout]
  deep := by simp [initLayout, deep_comp, keysL, PosFrom]
  deepO := by simp [initLayout]
  exit := rfl
  disp := .inl ⟨rfl, by simp [initLayout], by simp [initLayout, lastRender], rfl⟩

theorem orphanPart_find {id : Nat} {os : List Node} {old : Node} (hn : (idsL os).Nodup)
    (h : os.findSome? (orphanPart id) = some old) : findCompL id os = some old := by
  induction os with
  | nil => simp at h
  | cons o os ih =>
    simp only [idsL_cons, List.nodup_append] at hn
    simp only [List.findSome?_cons] at h
    simp only [findCompL]
    split at h
    · rename_i b hb
      simp at h; subst h
      unfold orphanPart at hb
      split at hb
      · rename_i p i c e ks
        split at hb
        · simp at hb
        · rename_i hi; simp [findComp, hi, hb]
      · simp at hb
    · have h1 := ih hn.2.1 h
      have hm := (findCompL_mem id os old h1).1
      have : findComp id o = none := by
        cases hf : findComp id o with
        | none => rfl
        | some o' => exact absurd rfl (hn.2.2 id (findComp_mem id o o' hf).1 id hm)
      rw [this, h1]; rfl

theorem linv_render {root : Comp} {l : Layout U} (hl : LInv root l) {id : Nat} {old new : Node} {fuel s'}
    (hf : findComp id l.tree = some old) (hr : renderAt fuel old l.st = some (s', new)) :
    LInv root { tree := replaceComp id new l.tree, st := s' } ∧
    KidsOK U (lastRender s'.log) s'.ctx noCtx [(.comp root, none)] [replaceComp id new l.tree] ∧
    old.pos = new.pos ∧
    (∃ env c p e ks, new = .comp p id c e ks ∧
      KidsOK U (lastRender s'.log) s'.ctx env [(.comp c, p.key)] [new]) := by
  obtain ⟨p, id', c, e, ks, e', ks', s1, rfl, rfl, rfl, hrun⟩ := renderAt_run hr
  obtain ⟨hm, p0, c0, e0, ks0, heq⟩ := findComp_mem id l.tree _ hf
  cases heq
  have hnt : l.tree.ids.Nodup := (List.nodup_append.1 hl.nodup).1
  obtain ⟨A, B, hA, hA'⟩ := replaceComp_ids id (.comp p id c e' ks') l.tree _ hnt hf
  have hsub : ∀ x ∈ idsL [Node.comp p id c e ks], x ∈ l.st.reg := by
    intro x hx; rw [hl.reg, hA]
    have : x ∈ (Node.comp p id c e ks).ids := by simpa using hx
    simp only [List.mem_append]; exact .inl (.inl (.inr this))
  have hno : (idsL [Node.comp p id c e ks]).Nodup := by
    have h1 := hnt; rw [hA] at h1
    have := (List.nodup_append.1 (List.nodup_append.1 h1).1).2.1
    simpa using this
  have hd : deepL [Node.comp p id c e ks] := by
    simp only [deepL_cons, deepL_nil, and_true]; exact findComp_deep id l.tree _ hf hl.deep
  have hpost := run_post hrun hl.inv hno hsub hd trivial
  have hshape := run_shape hrun hd
  obtain ⟨x1, x2, x3, x4, x5, x6, x7, x8⟩ := runExit_spec s1
  have hF : (l.tree.ids ++ idsL l.st.orphans).Perm
      ((Node.comp p id c e ks).ids ++ (A ++ B ++ idsL l.st.orphans)) := by
    rw [hA]
    generalize (Node.comp p id c e ks).ids = L
    rw [List.perm_iff_count]
    intro a; simp only [List.count_append]; omega
  have hpost' : Post ((Node.comp p id c e ks).ids) l.st s1 ((Node.comp p id c e' ks').ids) := by
    simpa [Call.old, Res.nodes] using hpost
  obtain ⟨o, ho, hn, hreg⟩ := hpost'.swap hl.inv hl.nodup hF hl.reg
  have hperm : ((replaceComp id (.comp p id c e' ks') l.tree).ids ++ idsL s1.orphans).Perm
      ((Node.comp p id c e' ks').ids ++ idsL o ++ (A ++ B ++ idsL l.st.orphans)) := by
    rw [hA', ho, idsL_append]
    generalize (Node.comp p id c e' ks').ids = L
    generalize idsL o = O
    generalize idsL l.st.orphans = P
    rw [List.perm_iff_count]
    intro a; simp only [List.count_append]; omega
  have hkids : KidsOK U (lastRender s1.log) s1.ctx noCtx [(.comp root, none)] [replaceComp id (.comp p id c e' ks') l.tree] ∧
      ∃ env, KidsOK U (lastRender s1.log) s1.ctx env [(.comp c, p.key)] [.comp p id c e' ks'] := by
    rcases hl.disp with ⟨ht, hc, hlog, _⟩ | hK
    · rw [ht] at hf
      simp only [findComp, findCompL] at hf
      split at hf
      · rename_i hi
        cases hf
        have h2 := run_shows hrun hl.inv hno hsub hd trivial noCtx
          ⟨by simp [Call.top], fun _ => ⟨_, _, _, _, _, _, _, rfl, rfl, fun x _ => hc x⟩, ?_⟩
        · rw [ht]; simp only [replaceComp, if_true]; exact ⟨h2, _, h2⟩
        · simp only [Call.old, Option.toList_some, ctxOKL, Node.ctxOK, and_true]
          intro x hx; exact absurd (hc x) hx
      · simp at hf
    · have hfl : findCompL id [l.tree] = some (.comp p id c e ks) := by simp [findCompL, hf]
      obtain ⟨env', p1, c1, e1, ks1, h1, h2, h3, h4⟩ := hK.replace (by simpa using hnt) hfl
      cases h1
      have h5 := run_shows hrun hl.inv hno hsub hd trivial env'
          ⟨by simp [Call.top], fun _ => ⟨_, _, _, _, _, _, _, rfl, rfl, ?_⟩, h3⟩
      · have := h4 _ _ _ h5 (fun x hx hxo => ?_)
        · exact ⟨by simpa [replaceCompL] using this, _, h5⟩
        · have hlt := hl.inv.lt x ((hl.reg x).2 (by simp at hx; simp [hx]))
          exact ⟨hpost'.frame.log x hlt hxo, hpost'.frame.ctx x hlt hxo⟩
      · intro x hx
        rw [h2]; unfold below
        cases hy : c.type with
        | ctx y => simp only; rw [if_neg]; rintro rfl; exact hx hy
        | fn n => rfl
  have hkids' : KidsOK U (lastRender (runExit s1).log) (runExit s1).ctx noCtx [(.comp root, none)]
      [replaceComp id (.comp p id c e' ks') l.tree] := by rw [x7, x3]; exact hkids.1
  refine ⟨⟨?_, ?_, ?_, ?_, ?_, ?_, ?_, .inr hkids'⟩, hkids', rfl, ?_⟩
  · exact ⟨by rw [x2]; exact hpost.inv.nodup, by rw [x2, x1]; exact hpost.inv.lt,
      by rw [x1, x3]; exact hpost.inv.ctx⟩
  · obtain ⟨er, kr, ht⟩ := hl.isRoot
    show ∃ e_1 ks_1, replaceComp id (.comp p id c e' ks') l.tree = _
    rw [ht] at hf ⊢
    simp only [findComp] at hf
    simp only [replaceComp]
    split at hf
    · rename_i hi; cases hf; simp
    · rename_i hi; rw [if_neg hi]; exact ⟨_, _, rfl⟩
  · show ((replaceComp id _ l.tree).ids ++ idsL (runExit s1).orphans).Nodup
    rw [x5]; exact hperm.nodup_iff.2 hn
  · intro x
    show x ∈ (runExit s1).reg ↔ x ∈ (replaceComp id _ l.tree).ids ++ idsL (runExit s1).orphans
    rw [x2, x5, hreg x]; exact hperm.mem_iff.symm
  · refine replaceComp_deep id _ l.tree _ hnt hf ⟨rfl, rfl⟩ hl.deep ?_
    simpa [Res.nodes] using hshape.2.1
  · show deepL (runExit s1).orphans
    obtain ⟨o', ho', hdo⟩ := hshape.2.2
    rw [x5, ho']; simp [hl.deepO, hdo]
  · exact x8
  · obtain ⟨env, h⟩ := hkids.2
    exact ⟨env, c, p, e', ks', rfl, by rw [x7, x3]; exact h⟩

theorem linv_orphan {root : Comp} {l : Layout U} (hl : LInv root l) {id : Nat} {old new : Node} {fuel s'}
    (hf : l.st.orphans.findSome? (orphanPart id) = some old)
    (hr : renderAt fuel old l.st = some (s', new)) :
    LInv root { l with st := { s' with orphans := s'.orphans.map (replaceComp id new) } } := by
  obtain ⟨p, id', c, e, ks, e', ks', s1, rfl, rfl, rfl, hrun⟩ := renderAt_run hr
  have hno0 : (idsL l.st.orphans).Nodup := (List.nodup_append.1 hl.nodup).2.1
  have hf := orphanPart_find hno0 hf
  obtain ⟨hm, p0, c0, e0, ks0, heq⟩ := findCompL_mem id _ _ hf
  cases heq
  obtain ⟨A, B, hA, hA'⟩ := replaceCompL_ids id (.comp p id c e' ks') l.st.orphans _ hno0 hf
  have hsub : ∀ x ∈ idsL [Node.comp p id c e ks], x ∈ l.st.reg := by
    intro x hx; rw [hl.reg, hA]
    have : x ∈ (Node.comp p id c e ks).ids := by simpa using hx
    simp only [List.mem_append]; exact .inr (.inl (.inr this))
  have hno : (idsL [Node.comp p id c e ks]).Nodup := by
    have h1 := hno0; rw [hA] at h1
    have := (List.nodup_append.1 (List.nodup_append.1 h1).1).2.1
    simpa using this
  have hd : deepL [Node.comp p id c e ks] := by
    simp only [deepL_cons, deepL_nil, and_true]; exact findCompL_deep id _ _ hf hl.deepO
  have hpost := run_post hrun hl.inv hno hsub hd trivial
  have hshape := run_shape hrun hd
  obtain ⟨x1, x2, x3, x4, x5, x6, x7, x8⟩ := runExit_spec s1
  have hF : (l.tree.ids ++ idsL l.st.orphans).Perm
      ((Node.comp p id c e ks).ids ++ (l.tree.ids ++ (A ++ B))) := by
    rw [hA]
    generalize (Node.comp p id c e ks).ids = L
    rw [List.perm_iff_count]
    intro a; simp only [List.count_append]; omega
  have hpost' : Post ((Node.comp p id c e ks).ids) l.st s1 ((Node.comp p id c e' ks').ids) := by
    simpa [Call.old, Res.nodes] using hpost
  obtain ⟨o, ho, hn, hreg⟩ := hpost'.swap hl.inv hl.nodup hF hl.reg
  have hido : id ∉ idsL o := by
    have h1 := (List.nodup_append.1 (List.nodup_append.1 hn).1).2.2
    exact fun h => h1 id (by simp) id h rfl
  have horph : s1.orphans.map (replaceComp id (.comp p id c e' ks')) =
      replaceCompL id (.comp p id c e' ks') l.st.orphans ++ o := by
    rw [ho, List.map_append, ← replaceCompL_map, ← replaceCompL_map, replaceCompL_id id _ o hido]
  have hperm : (l.tree.ids ++ idsL (s1.orphans.map (replaceComp id (.comp p id c e' ks')))).Perm
      ((Node.comp p id c e' ks').ids ++ idsL o ++ (l.tree.ids ++ (A ++ B))) := by
    rw [horph, idsL_append, hA']
    generalize (Node.comp p id c e' ks').ids = L
    rw [List.perm_iff_count]
    intro a; simp only [List.count_append]; omega
  refine ⟨?_, hl.isRoot, ?_, ?_, hl.deep, ?_, x8, ?_⟩
  · exact ⟨by simp only [x2]; exact hpost.inv.nodup, by simp only [x2, x1]; exact hpost.inv.lt,
      by simp only [x1, x3]; exact hpost.inv.ctx⟩
  · simp only [x5]; exact hperm.nodup_iff.2 hn
  · intro x
    simp only [x2, x5, hreg x]; exact hperm.mem_iff.symm
  · simp only [x5, horph, deepL_append]
    obtain ⟨o', ho', hdo⟩ := hshape.2.2
    rw [ho] at ho'
    have : o = o' := List.append_cancel_left ho'
    subst this
    refine ⟨replaceCompL_deep id _ _ _ hno0 hf ⟨rfl, rfl⟩ hl.deepO ?_, hdo⟩
    simpa [Res.nodes] using hshape.2.1
  · rcases hl.disp with ⟨_, _, _, ho0⟩ | hK
    · rw [ho0] at hm; simp at hm
    · right
      simp only [x3, x7]
      have hdis := (List.nodup_append.1 hl.nodup).2.2
      have hfr : ∀ x ∈ idsL [l.tree], x < l.st.nextId ∧ x ∉ (Node.comp p id c e ks).ids := by
        intro x hx
        have hx : x ∈ l.tree.ids := by simpa using hx
        refine ⟨hl.inv.lt x ((hl.reg x).2 (by simp [hx])), fun h => hdis x hx x ?_ rfl⟩
        rw [hA]; simp only [List.mem_append]; exact .inl (.inr h)
      exact hK.frame (fun x hx => hpost'.frame.log x (hfr x hx).1 (hfr x hx).2)
        (fun x hx => hpost'.frame.ctx x (hfr x hx).1 (hfr x hx).2)

/-- The invariant of a layout with its client. -/
structure SInv (root : Comp) (s : Sys U) : Prop where
  lay : LInv root s.layout
  client : s.stray = false → (s.client = .empty ∧ s.layout.tree = .comp rootPos 0 root none [] ∧
      lastRender s.layout.st.log 0 = none) ∨
    (s.client = .model s.layout.tree.view ∧
      KidsOK U (lastRender s.layout.st.log) s.layout.st.ctx noCtx [(.comp root, none)] [s.layout.tree])

theorem sinv_init (w : U.World) (root : Comp) : SInv root (initSys U w root) :=
  ⟨linv_init w root, fun _ => .inl ⟨rfl, rfl, by simp [initSys, initLayout, lastRender]⟩⟩

theorem LInv.congr {root : Comp} {l : Layout U} (h : LInv root l) {s : St U}
    (h1 : s.nextId = l.st.nextId) (h2 : s.reg = l.st.reg) (h3 : s.ctx = l.st.ctx)
    (h4 : s.orphans = l.st.orphans) (h5 : s.exit = l.st.exit) (h6 : s.log = l.st.log) :
    LInv root { l with st := s } := by
  obtain ⟨a, b, c, d, e, f, g, i⟩ := h
  refine ⟨⟨?_, ?_, ?_⟩, b, ?_, ?_, e, ?_, ?_, ?_⟩
  · simp only [h2]; exact a.nodup
  · simp only [h1, h2]; exact a.lt
  · simp only [h1, h3]; exact a.ctx
  · simp only [h4]; exact c
  · simp only [h2, h4]; exact d
  · simp only [h4]; exact f
  · simp only [h5]; exact g
  · simp only [h3, h6, h4]; exact i

theorem linv_step {root : Comp} {l : Layout U} (hl : LInv root l) (op : Op U) :
    LInv root (stepOp l op).1 := by
  cases op with
  | user f => exact hl.congr rfl rfl rfl rfl rfl rfl
  | event t n => exact hl.congr rfl rfl rfl rfl rfl rfl
  | render fuel id =>
    simp only [stepOp, renderOp]
    split
    · split
      · rename_i old hf
        split
        · rename_i s' new hr; exact (linv_render hl hf hr).1
        · exact hl
      · split
        · rename_i old hf
          split
          · rename_i s' new hr; exact linv_orphan hl hf hr
          · exact hl
        · exact hl
    · exact hl

theorem sinv_step {root : Comp} {s : Sys U} (hs : SInv root s) (op : Op U) : SInv root (stepSys s op) := by
  have hlay : (stepSys s op).layout = (stepOp s.layout op).1 := by
    unfold stepSys; simp only; split <;> simp_all
  refine ⟨by rw [hlay]; exact linv_step hs.lay op, ?_⟩
  intro hstray
  have hst : s.stray = false ∧ isStray s.layout op = false := by
    unfold stepSys at hstray; simp only at hstray
    split at hstray <;> simpa using hstray
  cases op with
  | user f => exact hs.client hst.1
  | event t n => exact hs.client hst.1
  | render fuel id =>
    by_cases hid : id ∈ s.layout.st.reg
    · cases hf : findComp id s.layout.tree with
      | none => simp [isStray, hid, hf] at hst
      | some old =>
        cases hr : renderAt fuel old s.layout.st with
        | none =>
          have : stepSys s (.render fuel id) = { s with stray := s.stray || isStray s.layout (.render fuel id) } := by
            simp [stepSys, stepOp, renderOp, hid, hf, hr]
          rw [this]; exact hs.client hst.1
        | some sn =>
          obtain ⟨s', new⟩ := sn
          obtain ⟨hL, hK, hpos, _⟩ := linv_render hs.lay hf hr
          have heq : stepSys s (.render fuel id) =
              { s with stray := s.stray || isStray s.layout (.render fuel id),
                       layout := { tree := replaceComp id new s.layout.tree, st := s' },
                       client := applyUpdate ⟨new.pos.path, new.view⟩ s.client } := by
            simp [stepSys, stepOp, renderOp, hid, hf, hr]
          rw [heq]
          right
          refine ⟨?_, hK⟩
          simp only
          have hnt : s.layout.tree.ids.Nodup := (List.nodup_append.1 hs.lay.nodup).1
          rcases hs.client hst.1 with ⟨hc, ht, _⟩ | ⟨hc, hKo⟩
          · rw [hc]
            rw [ht] at hf ⊢
            simp only [findComp, findCompL] at hf
            split at hf
            · rename_i hi
              cases hf
              have hp' : new.pos.path = [] := by rw [← hpos]; rfl
              simp only [applyUpdate, hp', if_true, replaceComp, hi]
            · simp at hf
          · rw [hc]
            have herr := hKo.errOK
            simp only [errOKL, and_true] at herr
            obtain ⟨r, h1, h2⟩ := setAt_node id new s.layout.tree old hnt hs.lay.deep herr hf
            obtain ⟨e, ks, ht⟩ := hs.lay.isRoot
            have hp : s.layout.tree.pos.path = [] := by rw [ht]; rfl
            rw [hp, List.nil_append] at h1
            simp only [applyUpdate, ← hpos, h1, h2]
    · have : stepSys s (.render fuel id) = { s with stray := s.stray || isStray s.layout (.render fuel id) } := by
        simp [stepSys, stepOp, renderOp, hid]
      rw [this]; exact hs.client hst.1

theorem sinv_run {root : Comp} (s : Sys U) (hs : SInv root s) (ops : List (Op U)) : SInv root (runSys s ops) := by
  induction ops generalizing s with
  | nil => exact hs
  | cons op ops ih => exact ih _ (sinv_step hs op)

end Verif.Layout
