import Verif.Layout.Route
import Verif.Layout.System
/-! # Lifting the renderer invariants to any sequence of operations (helper lemmas) -/
namespace Verif.Layout
variable {U : User}

/-! ### Targets of the tree around a re-rendered component -/

theorem Scope.upL {K L : List Key} {t : String} (hL : PlainL L) (h : Scope (K ++ L) t) : Scope K t := by
  obtain ⟨K', ev, hp, rfl⟩ := h
  exact ⟨L ++ K', ev, hL.app hp, by simp⟩

mutual
theorem find_tgts (id : Nat) (new n old : Node) (hd : n.deep) (hc : n.canon) (hn : n.ids.Nodup)
    (h : findComp id n = some old) :
    (∃ L, PlainL L ∧ old.pos.kpath = n.pos.kpath ++ L) ∧ old.canon ∧
    (new.canon → (replaceComp id new n).canon) ∧
    ∃ A B, n.tgts = A ++ old.tgts ++ B ∧ (replaceComp id new n).tgts = A ++ new.tgts ++ B ∧
      ∀ q, q ∈ A ∨ q ∈ B → ¬ Scope old.pos.kpath q.1 := by
  match n with
  | .text _ => simp [findComp] at h
  | .elem _ _ _ none => simp [findComp] at h
  | .elem p sh ts (some ks) =>
    simp only [findComp] at h
    simp only [Node.deep] at hd
    rw [canon_elem] at hc
    simp only [Option.getD_some] at hc
    have hn' : (idsL ks).Nodup := by simpa [Node.ids] using hn
    obtain ⟨⟨L, hL, hk⟩, h2, h3, A, B, h4, h5, h6⟩ :=
      findL_tgts id new ks old p.kpath hc.1.1 hd.2.2 hc.2 hn' (hd.2.1.atKeys hc.2) hd.1 h
    refine ⟨⟨_, hL.1, hk⟩, h2, ?_, ts.map (·.2) ++ A, B, ?_, ?_, ?_⟩
    · intro hnew
      simp only [replaceComp]
      rw [canon_elem]; exact ⟨hc.1, h3 hnew⟩
    · simp [Node.tgts, h4]
    · simp [replaceComp, Node.tgts, h5]
    · intro q hq hs
      simp only [List.mem_append] at hq
      rcases hq with (hq | hq) | hq
      · rw [List.mem_map] at hq
        obtain ⟨x, hx, rfl⟩ := hq
        have := hc.1.2.2 x hx
        rw [this, hk] at hs
        obtain ⟨hL1, k, L', rfl⟩ := hL
        have hs' : Scope (p.kpath ++ [k] ++ L') (autoTarget p.kpath x.1) := by simpa [Node.pos] using hs
        exact scope_not_self hc.1.1 (hL1 k (by simp)) (hs'.upL (fun y hy => hL1 y (by simp [hy])))
      · exact h6 q (.inl hq) hs
      · exact h6 q (.inr hq) hs
  | .comp p i c e ks =>
    simp only [findComp] at h
    split at h
    · rename_i hi
      cases h
      refine ⟨⟨[], by simp [PlainL], by simp⟩, hc, ?_, [], [], by simp, ?_, by simp⟩
      · intro hnew; simp only [replaceComp, hi, if_true]; exact hnew
      · simp [replaceComp, hi]
    · rename_i hi
      simp only [Node.deep] at hd
      simp only [Node.canon] at hc
      have hn' : (idsL ks).Nodup := by
        have : (i :: idsL ks).Nodup := by simpa [Node.ids] using hn
        exact (List.nodup_cons.1 this).2
      obtain ⟨⟨L, hL, hk⟩, h2, h3, A, B, h4, h5, h6⟩ :=
        findL_tgts id new ks old p.kpath hc.1 hd.2.2 hc.2 hn' (hd.2.1.atKeys hc.2) hd.1 h
      refine ⟨⟨_, hL.1, hk⟩, h2, ?_, A, B, ?_, ?_, h6⟩
      · intro hnew; simp only [replaceComp, hi, if_false, Node.canon]; exact ⟨hc.1, h3 hnew⟩
      · simp [Node.tgts, h4]
      · simp [replaceComp, hi, Node.tgts, h5]
theorem findL_tgts (id : Nat) (new : Node) (ns : List Node) (old : Node) (K : List Key) (hK : PlainL K)
    (hd : deepL ns) (hc : canonL ns) (hn : (idsL ns).Nodup) (ha : AtKeys K ns) (hk : (keysL ns).Nodup)
    (h : findCompL id ns = some old) :
    (∃ L, (PlainL L ∧ ∃ k L', L = k :: L') ∧ old.pos.kpath = K ++ L) ∧ old.canon ∧
    (new.canon → canonL (replaceCompL id new ns)) ∧
    ∃ A B, tgtsL ns = A ++ old.tgts ++ B ∧ tgtsL (replaceCompL id new ns) = A ++ new.tgts ++ B ∧
      ∀ q, q ∈ A ∨ q ∈ B → ¬ Scope old.pos.kpath q.1 := by
  match ns with
  | [] => simp [findCompL] at h
  | n :: ns =>
    simp only [findCompL] at h
    rw [deepL_cons] at hd
    simp only [canonL] at hc
    have hn0 := hn
    simp only [idsL_cons, List.nodup_append] at hn
    have ha' : AtKeys K ns := ha.sub (by simp +contextual)
    have hk' : (keysL ns).Nodup := by
      simp only [keysL, List.filterMap_cons] at hk
      split at hk
      · exact hk
      · exact (List.nodup_cons.1 hk).2
    cases hf : findComp id n with
    | some o =>
      rw [hf] at h; simp at h; subst h
      have hT := findComp_pos_text hf
      obtain ⟨k, hk1, hk2, hk3⟩ := ha n (by simp) hT
      obtain ⟨⟨L, hL, hkp⟩, h2, h3, A, B, h4, h5, h6⟩ := find_tgts id new n o hd.1 hc.1 hn.1 hf
      have hid := (findComp_mem id n o hf).1
      have hrest : replaceCompL id new ns = ns :=
        replaceCompL_id id new ns (fun hm => hn.2.2 id hid id hm rfl)
      refine ⟨⟨k :: L, ⟨?_, k, L, rfl⟩, by rw [hkp, hk3]; simp⟩, h2, ?_, A, B ++ tgtsL ns, ?_, ?_, ?_⟩
      · intro x hx; simp at hx; rcases hx with rfl | hx
        · exact hk1
        · exact hL x hx
      · intro hnew
        simp only [replaceCompL, canonL, hrest]; exact ⟨h3 hnew, hc.2⟩
      · simp [tgtsL, h4]
      · simp [replaceCompL, tgtsL, hrest, h5]
      · intro q hq hs
        simp only [List.mem_append] at hq
        have hq' : (q ∈ A ∨ q ∈ B) ∨ q ∈ tgtsL ns := by
          rcases hq with h | h | h
          · exact .inl (.inl h)
          · exact .inl (.inr h)
          · exact .inr h
        rcases hq' with hq | hq
        · exact h6 q hq hs
        · have hq2 : q.1 ∈ tnames ns := by simp only [tnames, List.mem_map]; exact ⟨q, hq, rfl⟩
          obtain ⟨k', f1, f2, f3⟩ := list_scope ns hd.2 hc.2 K ha' _ hq2
          rw [hkp, hk3] at hs
          have := scope_disj hK hk1 f2 (hs.upL hL) f3
          subst this
          simp only [keysL, List.filterMap_cons, hk2, List.nodup_cons] at hk
          exact hk.1 f1
    | none =>
      rw [hf] at h; simp at h
      obtain ⟨⟨L, hL, hkp⟩, h2, h3, A, B, h4, h5, h6⟩ :=
        findL_tgts id new ns old K hK hd.2 hc.2 hn.2.1 ha' hk' h
      have hm := (findCompL_mem id ns old h).1
      have hid : id ∉ n.ids := fun hm' => hn.2.2 id hm' id hm rfl
      have hrest : replaceComp id new n = n := replaceComp_id id new n hid
      obtain ⟨hL1, k, L', rfl⟩ := hL
      refine ⟨⟨k :: L', ⟨hL1, k, L', rfl⟩, hkp⟩, h2, ?_, n.tgts ++ A, B, ?_, ?_, ?_⟩
      · intro hnew; simp only [replaceCompL, canonL, hrest]; exact ⟨hc.1, h3 hnew⟩
      · simp [tgtsL, h4]
      · simp [replaceCompL, tgtsL, hrest, h5]
      · intro q hq hs
        simp only [List.mem_append] at hq
        rcases hq with (hq | hq) | hq
        · have hq2 : q.1 ∈ tnames [n] := by
            simp only [tnames, tgtsL, List.append_nil, List.mem_map]; exact ⟨q, hq, rfl⟩
          cases hT : n.isText with
          | true => rw [tnames_isText hT] at hq2; simp at hq2
          | false =>
            obtain ⟨k', e1, e2, e3⟩ := ha n (by simp) hT
            have hs1 := node_scope n hd.1 hc.1 _ hq2
            rw [e3] at hs1
            have hs2 : Scope (K ++ [k]) q.1 := by
              rw [hkp] at hs
              have hs' : Scope (K ++ [k] ++ L') q.1 := by simpa using hs
              exact hs'.upL (fun y hy => hL1 y (by simp [hy]))
            have := scope_disj hK e1 (hL1 k (by simp)) hs1 hs2
            subst this
            -- the old component is itself in the list at key k
            have hmem : k' ∈ keysL ns := by
              have hold := findL_keypath id ns old K ha' hd.2 hc.2 h
              obtain ⟨k2, hk2, L2, e⟩ := hold
              rw [hkp] at e
              simp at e
              rw [e.1]; exact hk2
            simp only [keysL, List.filterMap_cons, e2, List.nodup_cons] at hk
            exact hk.1 hmem
        · exact h6 q (.inl hq) hs
        · exact h6 q (.inr hq) hs
theorem findL_keypath (id : Nat) (ns : List Node) (old : Node) (K : List Key) (ha : AtKeys K ns)
    (hd : deepL ns) (hc : canonL ns) (h : findCompL id ns = some old) :
    ∃ k ∈ keysL ns, ∃ L, old.pos.kpath = K ++ k :: L := by
  match ns with
  | [] => simp [findCompL] at h
  | n :: ns =>
    simp only [findCompL] at h
    rw [deepL_cons] at hd
    simp only [canonL] at hc
    cases hf : findComp id n with
    | some o =>
      rw [hf] at h; simp at h; subst h
      obtain ⟨k, hk1, hk2, hk3⟩ := ha n (by simp) (findComp_pos_text hf)
      obtain ⟨L, hL⟩ := find_keypath id n o hd.1 hc.1 hf
      exact ⟨k, by simp [keysL, hk2], L, by rw [hL, hk3]; simp⟩
    | none =>
      rw [hf] at h; simp at h
      obtain ⟨k, hk, L, hL⟩ := findL_keypath id ns old K (ha.sub (by simp +contextual)) hd.2 hc.2 h
      refine ⟨k, ?_, L, hL⟩
      simp only [keysL, List.filterMap_cons]
      split
      · exact hk
      · exact List.mem_cons_of_mem _ hk
theorem find_keypath (id : Nat) (n old : Node) (hd : n.deep) (hc : n.canon)
    (h : findComp id n = some old) : ∃ L, old.pos.kpath = n.pos.kpath ++ L := by
  match n with
  | .text _ => simp [findComp] at h
  | .elem _ _ _ none => simp [findComp] at h
  | .elem p sh ts (some ks) =>
    simp only [findComp] at h
    simp only [Node.deep] at hd
    rw [canon_elem] at hc
    obtain ⟨k, _, L, hL⟩ := findL_keypath id ks old p.kpath (hd.2.1.atKeys hc.2) hd.2.2 hc.2 h
    exact ⟨_, hL⟩
  | .comp p i c e ks =>
    simp only [findComp] at h
    split at h
    · cases h; exact ⟨[], by simp⟩
    · simp only [Node.deep] at hd
      simp only [Node.canon] at hc
      obtain ⟨k, _, L, hL⟩ := findL_keypath id ks old p.kpath (hd.2.1.atKeys hc.2) hd.2.2 hc.2 h
      exact ⟨_, hL⟩
end

/-! ### Pre-conditions of a top-level render -/

theorem pre_tree {root : Comp} {l : Layout U} (hl : LInv root l) {id : Nat} {old : Node}
    (hf : findComp id l.tree = some old) :
    (idsL [old]).Nodup ∧ (∀ x ∈ idsL [old], x ∈ l.st.reg) ∧ deepL [old] := by
  have hnt : l.tree.ids.Nodup := (List.nodup_append.1 hl.nodup).1
  obtain ⟨A, B, hA, _⟩ := replaceComp_ids id old l.tree _ hnt hf
  refine ⟨?_, ?_, ?_⟩
  · have h1 := hnt; rw [hA] at h1
    simpa using (List.nodup_append.1 (List.nodup_append.1 h1).1).2.1
  · intro x hx; rw [hl.reg, hA]
    have : x ∈ old.ids := by simpa using hx
    simp only [List.mem_append]; exact .inl (.inl (.inr this))
  · simp only [deepL_cons, deepL_nil, and_true]; exact findComp_deep id l.tree _ hf hl.deep

theorem pre_orphan {root : Comp} {l : Layout U} (hl : LInv root l) {id : Nat} {old : Node}
    (hf : l.st.orphans.findSome? (orphanPart id) = some old) :
    (idsL [old]).Nodup ∧ (∀ x ∈ idsL [old], x ∈ l.st.reg) ∧ deepL [old] := by
  have hno0 : (idsL l.st.orphans).Nodup := (List.nodup_append.1 hl.nodup).2.1
  have hf := orphanPart_find hno0 hf
  obtain ⟨A, B, hA, _⟩ := replaceCompL_ids id old l.st.orphans _ hno0 hf
  refine ⟨?_, ?_, ?_⟩
  · have h1 := hno0; rw [hA] at h1
    simpa using (List.nodup_append.1 (List.nodup_append.1 h1).1).2.1
  · intro x hx; rw [hl.reg, hA]
    have : x ∈ old.ids := by simpa using hx
    simp only [List.mem_append]; exact .inr (.inl (.inr this))
  · simp only [deepL_cons, deepL_nil, and_true]; exact findCompL_deep id _ _ hf hl.deepO

/-- Leaving the exit stack appends the effects, in the order of the stack. -/
theorem runExit_log (s : St U) :
    (runExit s).log = (s.exit.reverse.map Ev.effects) ++ s.log := by
  have : ∀ (l : List Nat) (s : St U),
      (l.foldl (fun (s : St U) id => { s with world := U.didRender s.world id, log := .effects id :: s.log }) s).log
        = l.reverse.map Ev.effects ++ s.log := by
    intro l
    induction l with
    | nil => simp
    | cons x l ih => intro s; simp [ih]
  exact this s.exit s

theorem effects_quiet (l : List Nat) : bodiesOf (l.map Ev.effects) = [] ∧ completedOf (l.map Ev.effects) = [] ∧
    effectsOf (l.map Ev.effects) = l ∧ mountsOf (l.map Ev.effects) = [] ∧ unmountsOf (l.map Ev.effects) = [] := by
  induction l with
  | nil => simp [bodiesOf, completedOf, effectsOf, mountsOf, unmountsOf]
  | cons x l ih => simp [bodiesOf, completedOf, effectsOf, mountsOf, unmountsOf, ih]

theorem failed_effects (l : List Nat) (t : List Ev) : Failed (l.map Ev.effects ++ t) ↔ Failed t := by
  constructor
  · rintro ⟨id, c, x, e, hm⟩
    rw [List.mem_append] at hm
    rcases hm with hm | hm
    · simp at hm
    · exact ⟨id, c, x, e, hm⟩
  · exact Failed.append_right

/-- What one top-level render adds to the history. -/
theorem renderAt_trace {fuel} {old : Node} {s s' : St U} {new} (hr : renderAt fuel old s = some (s', new))
    (hi : Inv s) (hx : s.exit = []) (hp : (idsL [old]).Nodup ∧ (∀ x ∈ idsL [old], x ∈ s.reg) ∧ deepL [old]) :
    ∃ t, s'.log = (bodiesOf t).reverse.map Ev.effects ++ t ++ s.log ∧ (bodiesOf t).Nodup ∧ effectsOf t = [] ∧
      (completedOf t).Perm (bodiesOf t) ∧ new.ids.reverse.Sublist (bodiesOf t) ∧
      (¬ Failed t → s'.orphans = s.orphans ∧ bodiesOf t = new.ids.reverse) := by
  obtain ⟨p, id, c, e, ks, e', ks', s1, rfl, rfl, rfl, hrun⟩ := renderAt_run hr
  obtain ⟨t, ht⟩ := run_trace hrun hi hp.1 hp.2.1 hp.2.2 trivial
  refine ⟨t, ?_, ht.nodup, ht.effects, ht.completed, ?_, ?_⟩
  · rw [runExit_log, ht.exit, hx, ht.log]; simp
  · have := ht.shown _ rfl; simpa using this
  · intro hf
    obtain ⟨h1, h2⟩ := ht.good hf
    refine ⟨?_, by simpa using h2 _ rfl⟩
    rw [(runExit_spec s1).2.2.2.2.1]; exact h1

theorem renderAt_cinv {fuel} {old : Node} {s s' : St U} {new} (hr : renderAt fuel old s = some (s', new))
    (hi : Inv s) (hp : (idsL [old]).Nodup ∧ (∀ x ∈ idsL [old], x ∈ s.reg) ∧ deepL [old]) (hc : CInv s) :
    CInv s' := by
  obtain ⟨p, id, c, e, ks, e', ks', s1, rfl, rfl, rfl, hrun⟩ := renderAt_run hr
  have := run_cinv hrun hi hp.1 hp.2.1 hp.2.2 trivial hc
  obtain ⟨x1, x2, _⟩ := runExit_spec s1
  obtain ⟨_, _, _, m, u⟩ := effects_quiet s1.exit.reverse
  refine this.congr x2 x1 ?_ ?_
  · rw [runExit_log, mountsOf_append, m]; simp
  · rw [runExit_log, unmountsOf_append, u]; simp

/-! ### One operation -/

/-- The possible effects of one operation. -/
inductive Step (l : Layout U) : Op U → Layout U → Out → Prop
  | idle {op st} : st.nextId = l.st.nextId → st.reg = l.st.reg → st.handlers = l.st.handlers →
      st.orphans = l.st.orphans → st.log = l.st.log → Step l op { l with st := st } .skipped
  | tree {fuel id old s' new} : findComp id l.tree = some old → renderAt fuel old l.st = some (s', new) →
      Step l (.render fuel id) { tree := replaceComp id new l.tree, st := s' } (.update ⟨new.pos.path, new.view⟩)
  | orphan {fuel id old s' new} : isStray l (.render fuel id) = true →
      l.st.orphans.findSome? (orphanPart id) = some old → renderAt fuel old l.st = some (s', new) →
      Step l (.render fuel id) { l with st := { s' with orphans := s'.orphans.map (replaceComp id new) } }
        (.update ⟨new.pos.path, new.view⟩)
  | raised {fuel id} : isStray l (.render fuel id) = true →
      Step l (.render fuel id) l (.raised "RuntimeError: detached model state")
  | diverged {op} : Step l op l .diverged

theorem step_cases (l : Layout U) (op : Op U) : Step l op (stepOp l op).1 (stepOp l op).2 := by
  cases op with
  | user f => exact .idle rfl rfl rfl rfl rfl
  | event t n => exact .idle rfl rfl rfl rfl rfl
  | render fuel id =>
    simp only [stepOp, renderOp]
    split
    · rename_i hid
      split
      · rename_i old hf
        split
        · rename_i s' new hr; exact .tree hf hr
        · exact .diverged
      · rename_i hf
        split
        · rename_i old hf'
          split
          · rename_i s' new hr; exact .orphan (by simp [isStray, hid, hf]) hf' hr
          · exact .diverged
        · exact .raised (by simp [isStray, hid, hf])
    · exact .idle rfl rfl rfl rfl rfl

theorem stepSys_layout (s : Sys U) (op : Op U) : (stepSys s op).layout = (stepOp s.layout op).1 := by
  unfold stepSys; simp only; split <;> simp_all

theorem stepSys_stray (s : Sys U) (op : Op U) : (stepSys s op).stray = (s.stray || isStray s.layout op) := by
  unfold stepSys; simp only; split <;> simp_all

/-- Invariants that need no assumption. -/
structure GInv (l : Layout U) : Prop where
  cinv : CInv l.st
  good : ¬ Failed l.st.log → l.st.orphans = []

theorem ginv_init (w : U.World) (root : Comp) : GInv (initLayout U w root) :=
  ⟨⟨by simp [initLayout], by simp [initLayout], by simp [initLayout, mountsOf],
    by simp [initLayout, mountsOf], by simp [initLayout, unmountsOf],
    by simp [initLayout, unmountsOf]⟩, fun _ => rfl⟩

theorem ginv_step {root : Comp} {l l' : Layout U} {op out} (h : Step l op l' out) (hl : LInv root l)
    (hg : GInv l) : GInv l' ∧ ∃ t, l'.st.log = t ++ l.st.log := by
  cases h with
  | idle h1 h2 h3 h4 h5 =>
    exact ⟨⟨hg.cinv.congr h2 h1 (by rw [h5]) (by rw [h5]), by simp only [h4, h5]; exact hg.good⟩, [], by simp [h5]⟩
  | tree hf hr =>
    have hp := pre_tree hl hf
    obtain ⟨t, h1, _, _, _, _, h2⟩ := renderAt_trace hr hl.inv hl.exit hp
    refine ⟨⟨renderAt_cinv hr hl.inv hp hg.cinv, ?_⟩, _, h1⟩
    intro hf'
    simp only at hf' ⊢
    rw [h1, List.append_assoc, failed_effects] at hf'
    rw [(h2 (fun h => hf' h.append_left)).1]
    exact hg.good (fun h => hf' h.append_right)
  | orphan hs hf hr =>
    have hp := pre_orphan hl hf
    obtain ⟨t, h1, _, _, _, _, h2⟩ := renderAt_trace hr hl.inv hl.exit hp
    refine ⟨⟨(renderAt_cinv hr hl.inv hp hg.cinv).congr rfl rfl rfl rfl, ?_⟩, _, h1⟩
    intro hf'
    simp only at hf' ⊢
    rw [h1, List.append_assoc, failed_effects] at hf'
    have := hg.good (fun h => hf' h.append_right)
    rw [this] at hf; simp at hf
  | raised => exact ⟨hg, [], rfl⟩
  | diverged => exact ⟨hg, [], rfl⟩

/-- Everything that holds of every reachable system, whatever happened. -/
structure RInv (root : Comp) (s : Sys U) : Prop extends SInv root s where
  g : GInv s.layout
  stray_failed : s.stray = true → Failed s.layout.st.log

/-! ### The handler table -/

structure LHand (l : Layout U) : Prop where
  canon : l.tree.canon
  hok : HOK l.st.handlers [l.tree]
  dict : DictOK l.st.handlers
  log : LogOK U l.st.log
  exact : ¬ Failed l.st.log → ∀ t, dictGet l.st.handlers t ≠ none → t ∈ tnames [l.tree]

theorem tgts_tnames {n : Node} {t : String} : t ∈ tnames [n] ↔ ∃ q ∈ n.tgts, q.1 = t := by
  simp [tnames, tgtsL]

theorem lhand_tree (hU : U.Plain) {root : Comp} {l : Layout U} (hl : LInv root l) (hh : LHand l)
    {id : Nat} {old new : Node} {fuel s'}
    (hf : findComp id l.tree = some old) (hr : renderAt fuel old l.st = some (s', new)) :
    LHand { tree := replaceComp id new l.tree, st := s' } := by
  have hp := pre_tree hl hf
  have hnt : l.tree.ids.Nodup := (List.nodup_append.1 hl.nodup).1
  obtain ⟨tr, htr, _⟩ := renderAt_trace hr hl.inv hl.exit hp
  obtain ⟨p, id', c, e, ks, e', ks', s1, rfl, rfl, rfl, hrun⟩ := renderAt_run hr
  obtain ⟨⟨L, hL, hk⟩, hc, hcn, A, B, hA, hA', hAB⟩ :=
    find_tgts id (.comp p id' c e' ks') l.tree _ hl.deep hh.canon hnt hf
  obtain ⟨x1, x2, x3, x4, x5, x6, x7, x8⟩ := runExit_spec s1
  obtain ⟨er, kr, htree⟩ := hl.isRoot
  have hok0 : ∀ q ∈ l.tree.tgts, dictGet l.st.handlers q.1 = some q.2 := by
    intro q hq; exact hh.hok q (by simpa [tgtsL] using hq)
  have hpl : PlainL p.kpath := by simp only [Node.canon] at hc; exact hc.1
  have hpre : HPre (.comp none (some (.comp p id' c e ks)) p c) l.st := by
    refine ⟨hpl, by simp [Call.placed, Node.pos], ?_, ?_, hh.dict⟩
    · simp only [Call.old, Option.toList_some, canonL, and_true]; exact hc
    · intro q hq
      refine hok0 q ?_
      rw [hA]
      have : q ∈ (Node.comp p id' c e ks).tgts := by simpa [Call.old, tgtsL] using hq
      simp [this]
  have hpost := run_hand hU hrun hl.inv hp.1 hp.2.1 hp.2.2 trivial hpre
  obtain ⟨o1, o2, _⟩ := hpost.ok _ rfl
  have hframe : ∀ q, q ∈ A ∨ q ∈ B → dictGet s1.handlers q.1 = dictGet l.st.handlers q.1 := by
    intro q hq; exact hpost.frame q.1 (hAB q hq)
  refine ⟨hcn (by simpa [canonL] using o2), ?_, by simp only [x6]; exact hpost.dict, ?_, ?_⟩
  · intro q hq
    simp only [x6]
    have hq : q ∈ (replaceComp id (.comp p id' c e' ks') l.tree).tgts := by simpa [tgtsL] using hq
    rw [hA', List.mem_append, List.mem_append] at hq
    rcases hq with (hq | hq) | hq
    · rw [hframe q (.inl hq)]; exact hok0 q (by rw [hA]; simp [hq])
    · exact o1 q (by simpa [tgtsL] using hq)
    · rw [hframe q (.inr hq)]; exact hok0 q (by rw [hA]; simp [hq])
  · simp only
    rw [runExit_log]
    intro i d sn o hm
    rw [List.mem_append] at hm
    rcases hm with hm | hm
    · simp at hm
    · exact hpost.log hh.log i d sn o hm
  · intro hnf t hg
    simp only [x6] at hg
    simp only at hnf
    rw [runExit_log, failed_effects] at hnf
    have hnf0 : ¬ Failed l.st.log := by
      obtain ⟨tr1, htr1⟩ := run_trace hrun hl.inv hp.1 hp.2.1 hp.2.2 trivial
      rw [htr1.log] at hnf
      exact fun h => hnf h.append_right
    have hex0 := hh.exact hnf0
    rw [tgts_tnames, hA']
    by_cases hs : Scope p.kpath t
    · have := hpost.exact hnf (fun u hu hgu => ?_) _ rfl t hs hg
      · rw [tgts_tnames] at this
        obtain ⟨q, hq, rfl⟩ := this
        exact ⟨q, by simp [hq], rfl⟩
      · have h1 := hex0 u hgu
        rw [tgts_tnames, hA] at h1
        obtain ⟨q, hq, rfl⟩ := h1
        simp only [List.mem_append] at hq
        have hq' : (q ∈ A ∨ q ∈ B) ∨ q ∈ (Node.comp p id' c e ks).tgts := by
          rcases hq with (h | h) | h
          · exact .inl (.inl h)
          · exact .inr h
          · exact .inl (.inr h)
        rcases hq' with hq | hq
        · exact absurd hu (hAB q hq)
        · simp only [Call.old, Option.toList_some]
          rw [tgts_tnames]; exact ⟨q, hq, rfl⟩
    · rw [hpost.frame t hs] at hg
      have h1 := hex0 t hg
      rw [tgts_tnames, hA] at h1
      obtain ⟨q, hq, rfl⟩ := h1
      simp only [List.mem_append] at hq
      rcases hq with (hq | hq) | hq
      · exact ⟨q, by simp [hq], rfl⟩
      · exfalso
        apply hs
        have := node_scope (Node.comp p id' c e ks) (by simpa using hp.2.2) hc q.1 (by rw [tgts_tnames]; exact ⟨q, hq, rfl⟩)
        exact this
      · exact ⟨q, by simp [hq], rfl⟩

/-- Output of a displayed component is rejected only for being malformed. -/
theorem clean_tree (hU : U.Plain) {root : Comp} {l : Layout U} (hl : LInv root l) (hh : LHand l)
    {id : Nat} {p : Pos} {id' : Nat} {c : Comp} {e : Option String} {ks : List Node} {s1 : St U} {r : Res}
    (hf : findComp id l.tree = some (.comp p id' c e ks)) (hr : Run (.comp none (some (.comp p id' c e ks)) p c) l.st s1 r) :
    RunQ (fun raw e => raw.Malformed ∧ e = "ValueError") (.comp none (some (.comp p id' c e ks)) p c) l.st s1 r := by
  have hp := pre_tree hl hf
  have hnt : l.tree.ids.Nodup := (List.nodup_append.1 hl.nodup).1
  obtain ⟨_, hc, _, A, B, hA, _, _⟩ := find_tgts id (.text "") l.tree _ hl.deep hh.canon hnt hf
  have hpl : PlainL p.kpath := by simp only [Node.canon] at hc; exact hc.1
  refine (run_hand hU hr hl.inv hp.1 hp.2.1 hp.2.2 trivial ⟨hpl, by simp [Call.placed, Node.pos], ?_, ?_, hh.dict⟩).clean
  · simp only [Call.old, Option.toList_some, canonL, and_true]; exact hc
  · intro q hq
    refine hh.hok q ?_
    have : q ∈ (Node.comp p id' c e ks).tgts := by simpa [Call.old, tgtsL] using hq
    simp [tgtsL, hA, this]

/-- An invariant of the initial state that every operation preserves holds after any operations. -/
theorem run_induct {P : Sys U → Prop} {s : Sys U} (h0 : P s) (hs : ∀ s op, P s → P (stepSys s op))
    (ops : List (Op U)) : P (runSys s ops) := by
  induction ops generalizing s with
  | nil => exact h0
  | cons op ops ih => exact ih (hs _ op h0)

theorem rinv_step {root : Comp} (s : Sys U) (op : Op U) (h : RInv root s) : RInv root (stepSys s op) := by
  have hs := step_cases s.layout op
  obtain ⟨h1, t, h2⟩ := ginv_step hs h.lay h.g
  refine ⟨sinv_step h.toSInv op, by rw [stepSys_layout]; exact h1, ?_⟩
  rw [stepSys_layout, stepSys_stray, h2]
  intro hst
  simp only [Bool.or_eq_true] at hst
  refine Failed.append_right ?_
  rcases hst with hst | hst
  · exact h.stray_failed hst
  · apply Classical.byContradiction
    intro hnf
    have ho := h.g.good hnf
    unfold isStray at hst
    split at hst
    · rename_i id
      simp only [Bool.and_eq_true, decide_eq_true_eq] at hst
      have := (h.lay.reg id).1 hst.1
      rw [ho] at this
      have := findComp_of_mem id s.layout.tree (by simpa using this)
      cases hf : findComp id s.layout.tree <;> simp_all
    · simp at hst

theorem rinv_run (w : U.World) (root : Comp) (ops : List (Op U)) :
    RInv root (runSys (initSys U w root) ops) :=
  run_induct (P := RInv root) ⟨sinv_init w root, ginv_init w root, by simp [initSys]⟩ rinv_step ops

theorem lhand_run (hU : U.Plain) (w : U.World) (root : Comp) (ops : List (Op U)) :
    (runSys (initSys U w root) ops).stray = false → LHand (runSys (initSys U w root) ops).layout := by
  refine (run_induct (P := fun s => RInv root s ∧ (s.stray = false → LHand s.layout))
    ⟨rinv_run w root [], fun _ => ?_⟩ ?_ ops).2
  · refine ⟨?_, ?_, ?_, ?_, ?_⟩ <;>
      simp [runSys, initSys, initLayout, Node.canon, canonL, PlainL, HOK, tgtsL, Node.tgts, DictOK, LogOK, dictGet, rootPos]
  · rintro s0 op ⟨hr, ih⟩
    refine ⟨rinv_step s0 op hr, ?_⟩
    rw [stepSys_stray, stepSys_layout]
    intro hst
    simp only [Bool.or_eq_false_iff] at hst
    have h := ih hst.1
    have hc := step_cases s0.layout op
    revert hc
    generalize (stepOp s0.layout op).1 = l'
    generalize (stepOp s0.layout op).2 = out
    intro hc
    cases hc with
    | idle h1 h2 h3 h4 h5 =>
      exact ⟨h.canon, by simp only [h3]; exact h.hok, by simp only [h3]; exact h.dict,
        by simp only [h5]; exact h.log, by simp only [h5, h3]; exact h.exact⟩
    | tree hf hr' => exact lhand_tree hU hr.lay h hf hr'
    | orphan hs => rw [hst.2] at hs; simp at hs
    | raised => exact h
    | diverged => exact h

end Verif.Layout
