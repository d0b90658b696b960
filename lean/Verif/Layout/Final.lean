import Verif.Layout.Life
/-! # Last steps towards the layout properties (helper lemmas) -/
namespace Verif.Layout
variable {U : User}

theorem insts_elem (p sh ts ks) : (Node.elem p sh ts ks).insts = [.elem p.key (instsL (ks.getD []))] := by
  cases ks <;> simp [Node.insts, instsL]

theorem nearest_snoc (x : Nat) (chain : List Comp) (d : Comp) (env : Ctx) :
    (nearest U x (chain ++ [d])).or (env x) = (nearest U x chain).or (below U d env x) := by
  induction chain with
  | nil =>
    simp only [List.nil_append, nearest, below]
    cases hd : d.type with
    | fn n => simp
    | ctx y =>
      by_cases h : y = x
      · subst h; simp
      · have : ¬ x = y := fun e => h e.symm
        simp [h, this]
  | cons c r ih =>
    simp only [List.cons_append, nearest]
    split
    · simp
    · exact ih

theorem KidsOK.under {H T env rs ns} (h : KidsOK U H T env rs ns) :
    ∀ chain id c m, Under chain (instsL ns) id c → c.type = .fn m →
      ∃ seen out, H id = some (c, seen, out) ∧ ∀ x, seen x = (nearest U x chain).or (env x) := by
  have split : ∀ {chain F G id c}, Under chain (F ++ G) id c → Under chain F id c ∨ Under chain G id c := by
    intro chain F G id c hu
    cases hu with
    | here hm => rw [List.mem_append] at hm; exact hm.imp .here .here
    | elem hm hu => rw [List.mem_append] at hm; exact hm.imp (.elem · hu) (.elem · hu)
    | comp hm hu => rw [List.mem_append] at hm; exact hm.imp (.comp · hu) (.comp · hu)
  induction h with
  | nil =>
    intro chain id c m hu
    simp only [instsL] at hu
    cases hu <;> rename_i hm <;> first | exact absurd hm (by simp) | (rename_i hm' ; exact absurd hm' (by simp))
  | text _ ih => intro chain id c m hu; simp only [instsL, Node.insts, List.nil_append] at hu; exact ih _ _ _ _ hu
  | @elem env i sh cs pos ts ks rs ns hs hk _ ih1 ih2 =>
    intro chain id c m hu hm
    simp only [instsL, insts_elem] at hu
    rcases split hu with hu | hu
    · have hks : (if cs.isEmpty then Option.none else some ks).getD [] = ks := by
        by_cases hc : cs.isEmpty
        · have : cs = [] := by simpa using hc
          subst this
          rw [keyed_nil] at hk
          cases hk; rfl
        · simp [hc]
      rw [hks] at hu
      cases hu with
      | here hmem => simp at hmem
      | elem hmem hu => simp at hmem; obtain ⟨_, rfl⟩ := hmem; exact ih1 _ _ _ _ hu hm
      | comp hmem hu => simp at hmem
    · exact ih2 _ _ _ _ hu hm
  | @comp env d pos id seen raw ks rs ns a b c' dd _ ih1 ih2 =>
    intro chain i c m hu hm
    simp only [instsL, Node.insts] at hu
    rcases split hu with hu | hu
    · cases hu with
      | here hmem =>
        simp at hmem; obtain ⟨_, rfl, rfl, _⟩ := hmem
        exact ⟨_, _, a, fun x => by rw [b m hm]; simp [nearest]⟩
      | elem hmem hu => simp at hmem
      | comp hmem hu =>
        simp at hmem; obtain ⟨_, rfl, rfl, rfl⟩ := hmem
        obtain ⟨seen', out, h1, h2⟩ := ih1 _ _ _ _ hu hm
        exact ⟨seen', out, h1, fun x => by rw [h2 x, nearest_snoc]⟩
    · exact ih2 _ _ _ _ hu hm
  | @fail env d pos id seen e rs ns a b c' _ ih2 =>
    intro chain i c m hu hm
    simp only [instsL, Node.insts] at hu
    rcases split hu with hu | hu
    · cases hu with
      | here hmem =>
        simp at hmem; obtain ⟨_, rfl, rfl, _⟩ := hmem
        exact ⟨_, _, a, fun x => by rw [b m hm]; simp [nearest]⟩
      | elem hmem hu => simp at hmem
      | comp hmem hu =>
        simp at hmem; obtain ⟨_, rfl, rfl, rfl⟩ := hmem
        cases hu <;> rename_i hm <;> first | exact absurd hm (by simp [instsL]) | (rename_i hm' ; exact absurd hm' (by simp [instsL]))
    · exact ih2 _ _ _ _ hu hm

theorem KidsOK.targets {H T env rs ns} (h : KidsOK U H T env rs ns) : targetsL (viewL ns) = tnames ns := by
  induction h with
  | nil => simp [viewL, targetsL]
  | text _ ih => rw [tnames_cons, viewL_cons, targetsL, ih]; simp [Node.view, VJson.targets]
  | @elem env i sh cs pos ts ks rs ns hs hk _ ih1 ih2 =>
    rw [tnames_cons, viewL_cons, targetsL, ih2, tnames_elem]
    congr 1
    by_cases hc : cs.isEmpty
    · rw [if_pos hc]; simp [Node.view, VJson.targets, hs.same]
    · rw [if_neg hc]; simp [Node.view, VJson.targets, hs.same, ih1]
  | comp a b c d _ ih1 ih2 => rw [tnames_cons, viewL_cons, targetsL, ih2]; simp [Node.view, VJson.targets, fragShell, ih1]
  | fail a b c _ ih => rw [tnames_cons, viewL_cons, targetsL, ih]; simp [Node.view, VJson.targets, errShell]

theorem exit_reg (hU : U.Plain) (w : U.World) (root : Comp) (ops : List (Op U))
    (hst : (runSys (initSys U w root) ops).stray = false)
    (ho : (runSys (initSys U w root) ops).layout.st.orphans = []) :
    (exitOp (runSys (initSys U w root) ops).layout).st.reg = [] := by
  have hr := rinv_run w root ops
  have hh := lhand_run hU w root ops hst
  have hl := hr.lay
  generalize (runSys (initSys U w root) ops).layout = l at hl hh ho ⊢
  have hn := (List.nodup_append.1 hl.nodup).1
  have hreg := hl.reg
  rw [ho] at hreg
  obtain ⟨s', h1, _⟩ := unmountAll_hand [l.tree] l.st (by simpa using hl.deep)
    (by simpa [canonL] using hh.canon) (node_nodup _ hl.deep hh.canon) (by simpa using hn)
    (fun x hx => (hreg x).2 (by simpa using hx)) hl.inv.nodup hh.hok hh.dict
  have h2 := (unmountAll_spec' h1).reg hl.inv.nodup (by simpa using hn)
  unfold exitOp
  rw [h1]
  apply List.eq_nil_iff_forall_not_mem.2
  intro x hx
  have := (h2 x).1 hx
  have h3 := (hreg x).1 this.1
  rcases this.2 with h | h
  · exact h (by simpa using h3)
  · simp at h

theorem exit_cinv {l : Layout U} (h : CInv l.st) : CInv (exitOp l).st := unmountAll_cinv _ _ h

/-- Deciding `Failed`. -/
def failedB : List Ev → Bool
  | [] => false
  | .rendered _ _ _ (.error _) :: _ => true
  | _ :: l => failedB l

theorem failedB_iff (l : List Ev) : Failed l ↔ failedB l = true := by
  induction l with
  | nil => simp [Failed, failedB]
  | cons e l ih =>
    have : Failed (e :: l) ↔ (∃ id c x m, e = .rendered id c x (.error m)) ∨ Failed l := by
      unfold Failed
      constructor
      · rintro ⟨id, c, x, m, h⟩
        rw [List.mem_cons] at h
        rcases h with h | h
        · exact .inl ⟨id, c, x, m, h.symm⟩
        · exact .inr ⟨id, c, x, m, h⟩
      · rintro (⟨id, c, x, m, rfl⟩ | ⟨id, c, x, m, h⟩)
        · exact ⟨id, c, x, m, by simp⟩
        · exact ⟨id, c, x, m, by simp [h]⟩
    rw [this, ih]
    cases e with
    | rendered id c x out => cases out <;> simp [failedB]
    | _ => simp [failedB]

mutual
def VJson.same : VJson → VJson → Bool
  | .text a, .text b => a == b
  | .obj a none, .obj b none => decide (a = b)
  | .obj a (some as), .obj b (some bs) => decide (a = b) && sameL as bs
  | _, _ => false
def sameL : List VJson → List VJson → Bool
  | [], [] => true
  | a :: as, b :: bs => a.same b && sameL as bs
  | _, _ => false
end

mutual
theorem VJson.same_eq (a b : VJson) (h : a.same b = true) : a = b := by
  match a, b with
  | .text a, .text b => simp [VJson.same] at h; rw [h]
  | .obj a none, .obj b none => simp [VJson.same] at h; rw [h]
  | .obj a (some as), .obj b (some bs) =>
    simp only [VJson.same, Bool.and_eq_true, decide_eq_true_eq] at h
    rw [h.1, sameL_eq as bs h.2]
  | .text _, .obj _ none => simp [VJson.same] at h
  | .text _, .obj _ (some _) => simp [VJson.same] at h
  | .obj _ none, .text _ => simp [VJson.same] at h
  | .obj _ (some _), .text _ => simp [VJson.same] at h
  | .obj _ none, .obj _ (some _) => simp [VJson.same] at h
  | .obj _ (some _), .obj _ none => simp [VJson.same] at h
theorem sameL_eq (a b : List VJson) (h : sameL a b = true) : a = b := by
  match a, b with
  | [], [] => rfl
  | a :: as, b :: bs =>
    simp only [sameL, Bool.and_eq_true] at h
    rw [VJson.same_eq a b h.1, sameL_eq as bs h.2]
  | [], _ :: _ => simp [sameL] at h
  | _ :: _, [] => simp [sameL] at h
end

/-- Deciding whether the client holds a given model. -/
def Client.holds : Client → VJson → Bool
  | .model v, w => v.same w
  | _, _ => false
theorem Client.holds_iff {c : Client} {v : VJson} (h : c.holds v = true) : c = .model v := by
  cases c with
  | model w => rw [VJson.same_eq w v h]
  | _ => simp [Client.holds] at h

def Out.raisedB (e : String) : Out → Bool
  | .raised e' => e == e'
  | _ => false
theorem Out.raisedB_iff {o : Out} {e : String} (h : o.raisedB e = true) : o = .raised e := by
  cases o <;> simp_all [Out.raisedB]

theorem keyed_explicit (cs : List Raw) (hk : ∀ c ∈ cs, c.isNone = false → c.explicitKey.isSome)
    (hn : (cs.filterMap (·.explicitKey)).Nodup) : ((keyed cs).map (·.2)).Nodup := by
  have : ∀ (cs : List Raw) (n : Nat), (∀ c ∈ cs, c.isNone = false → c.explicitKey.isSome) →
      ((cs.zipIdx n).filter (fun p => !p.1.isNone)).map (fun p => some (p.1.effKey p.2)) =
        (cs.filterMap (·.explicitKey)).map some := by
    intro cs
    induction cs with
    | nil => simp
    | cons c cs ih =>
      intro n hk
      have ih' := ih (n + 1) (fun d hd => hk d (by simp [hd]))
      simp only [List.zipIdx_cons, List.filter_cons]
      cases hc : c.isNone with
      | true =>
        have : c.explicitKey = none := by cases c <;> simp_all [Raw.isNone, Raw.explicitKey]
        simp [this, ih']
      | false =>
        have := hk c (by simp) hc
        cases he : c.explicitKey with
        | none => rw [he] at this; simp at this
        | some k => simpa [Raw.effKey, he] using ih'
  simp only [keyed, List.map_map, Function.comp_def]
  rw [this cs 0 hk, nodup_map_some]
  exact hn

def Client.isBroken : Client → Bool
  | .broken => true
  | _ => false
theorem Client.isBroken_iff {c : Client} (h : c.isBroken = true) : c = .broken := by
  cases c <;> simp_all [isBroken]

end Verif.Layout
