import Verif.Layout.Reg
/-! # The tree after a render displays the latest outputs (helper lemmas) -/
namespace Verif.Layout
variable {U : User}

abbrev Hist := Nat → Option (Comp × Ctx × Except String Raw)

/-- The targets of an element as recorded, as sent and as registered agree. -/
structure TargetsOK (i : ElemInfo) (sh : Shell) (ts : List (String × String × Handler)) : Prop where
  shown : ElemShown (fun t hd => ∃ ev, (ev, t, hd) ∈ ts) i sh
  same : (sh.handlers.getD []).map (·.target) = ts.map (·.2.1)
  given : i.handlers = ts.map (fun x => (x.1, x.2.2))

/-- `Shows` for model states, with the hooks' context tables `T`. -/
inductive KidsOK (U : User) (H : Hist) (T : Nat → Ctx) : Ctx → List (Raw × Option Key) → List Node → Prop
  | nil {env} : KidsOK U H T env [] []
  | text {env t k rs ns} : KidsOK U H T env rs ns → KidsOK U H T env ((.text t, k) :: rs) (.text t :: ns)
  | elem {env i sh cs pos ts ks rs ns} : TargetsOK i sh ts → KidsOK U H T env (keyed cs) ks →
      KidsOK U H T env rs ns →
      KidsOK U H T env ((.elem i cs, pos.key) :: rs)
        (.elem pos sh ts (if cs.isEmpty then Option.none else some ks) :: ns)
  | comp {env c pos id seen raw ks rs ns} :
      H id = some (c, seen, .ok raw) → (∀ m, c.type = .fn m → seen = env) → T id = below U c env →
      KidsOK U H T (below U c env) (keyed [raw]) ks → KidsOK U H T env rs ns →
      KidsOK U H T env ((.comp c, pos.key) :: rs) (.comp pos id c Option.none ks :: ns)
  | fail {env c pos id seen e rs ns} :
      H id = some (c, seen, .error e) → (∀ m, c.type = .fn m → seen = env) → T id = below U c env →
      KidsOK U H T env rs ns →
      KidsOK U H T env ((.comp c, pos.key) :: rs) (.comp pos id c (some (errText U e)) [] :: ns)

theorem keyed_nil : keyed [] = [] := rfl

theorem KidsOK.append {H T env a b as bs} (h1 : KidsOK U H T env a as) (h2 : KidsOK U H T env b bs) :
    KidsOK U H T env (a ++ b) (as ++ bs) := by
  induction h1 with
  | nil => simpa using h2
  | text _ ih => exact .text (ih h2)
  | elem hs hk _ _ ih => exact .elem hs hk (ih h2)
  | comp a b c d _ _ ih => exact .comp a b c d (ih h2)
  | fail a b c _ ih => exact .fail a b c (ih h2)

theorem KidsOK.frame {H T H' T' env rs ns} (h : KidsOK U H T env rs ns)
    (hH : ∀ x ∈ idsL ns, H' x = H x) (hT : ∀ x ∈ idsL ns, T' x = T x) : KidsOK U H' T' env rs ns := by
  induction h with
  | nil => exact .nil
  | text _ ih => exact .text (ih (by simpa using hH) (by simpa using hT))
  | @elem env i sh cs pos ts ks rs ns hs hk _ ih1 ih2 =>
    refine .elem hs ?_ (ih2 (fun x hx => hH x (by simp [hx])) (fun x hx => hT x (by simp [hx])))
    by_cases hcs : cs.isEmpty
    · have : cs = [] := by simpa using hcs
      subst this
      rw [keyed_nil] at hk ⊢
      cases hk; exact .nil
    · refine ih1 (fun x hx => hH x ?_) (fun x hx => hT x ?_) <;> simp [ids_elem, hcs, hx]
  | @comp env c pos id seen raw ks rs ns a b c d _ ih1 ih2 =>
    refine .comp ?_ b ?_ (ih1 (fun x hx => hH x (by simp [hx])) (fun x hx => hT x (by simp [hx])))
      (ih2 (fun x hx => hH x (by simp [hx])) (fun x hx => hT x (by simp [hx])))
    · rw [hH id (by simp)]; exact a
    · rw [hT id (by simp)]; exact c
  | @fail env c pos id seen e rs ns a b c _ ih =>
    refine .fail ?_ b ?_ (ih (fun x hx => hH x (by simp [hx])) (fun x hx => hT x (by simp [hx])))
    · rw [hH id (by simp)]; exact a
    · rw [hT id (by simp)]; exact c

theorem viewL_cons (n ns) : viewL (n :: ns) = n.view :: viewL ns := by simp [viewL]

mutual
/-- The elements and instances of a model state. -/
def Node.insts : Node → List Inst
  | .text _ => []
  | .elem p _ _ none => [.elem p.key []]
  | .elem p _ _ (some ks) => [.elem p.key (instsL ks)]
  | .comp p id c _ ks => [.comp p.key id c (instsL ks)]
def instsL : List Node → List Inst
  | [] => []
  | n :: ns => n.insts ++ instsL ns
end

mutual
theorem Node.insts_ids (n : Node) : instIds n.insts = n.ids := by
  match n with
  | .text _ => simp [Node.insts, instIds]
  | .elem p _ _ none => simp [Node.insts, instIds, Inst.ids, Node.ids]
  | .elem p _ _ (some ks) => simp [Node.insts, instIds, Inst.ids, Node.ids, instsL_ids ks]
  | .comp p id c _ ks => simp [Node.insts, instIds, Inst.ids, instsL_ids ks]
theorem instsL_ids (ns : List Node) : instIds (instsL ns) = idsL ns := by
  match ns with
  | [] => simp [instsL, instIds]
  | n :: ns =>
    have happ : ∀ a b : List Inst, instIds (a ++ b) = instIds a ++ instIds b := by
      intro a b; induction a with
      | nil => simp [instIds]
      | cons x xs ih => simp [instIds, ih]
    simp [instsL, happ, Node.insts_ids n, instsL_ids ns]
end

theorem EntriesShown.mono {R R' : String → Handler → Prop} {l es}
    (h : EntriesShown R l es) (hR : ∀ t hd, R t hd → R' t hd) : EntriesShown R' l es := by
  induction l generalizing es with
  | nil => cases es <;> simp_all [EntriesShown]
  | cons p ps ih =>
    cases es with
    | nil => simp [EntriesShown] at h
    | cons e es =>
      simp only [EntriesShown] at h ⊢
      exact ⟨⟨h.1.event, h.1.preventDefault, h.1.stopPropagation, h.1.debounce, h.1.throttle,
        h.1.chosen, hR _ _ h.1.routed⟩, ih h.2⟩

theorem ElemShown.mono {R R' : String → Handler → Prop} {i sh}
    (h : ElemShown R i sh) (hR : ∀ t hd, R t hd → R' t hd) : ElemShown R' i sh where
  tag := h.tag
  noError := h.noError
  attrs := h.attrs
  handlers := h.handlers.imp id (fun ⟨a, es, b, c⟩ => ⟨a, es, b, c.mono hR⟩)
  inlineJs := h.inlineJs
  importSource := h.importSource

mutual
/-- All registered targets of a model state. -/
def Node.tgts : Node → List (String × Handler)
  | .text _ => []
  | .elem _ _ ts none => ts.map (·.2)
  | .elem _ _ ts (some ks) => ts.map (·.2) ++ tgtsL ks
  | .comp _ _ _ _ ks => tgtsL ks
def tgtsL : List Node → List (String × Handler)
  | [] => []
  | n :: ns => n.tgts ++ tgtsL ns
end

theorem tgts_elem (p sh ts ks) : (Node.elem p sh ts ks).tgts = ts.map (·.2) ++ tgtsL (ks.getD []) := by
  cases ks <;> simp [Node.tgts, tgtsL]

theorem KidsOK.shows {H T env rs ns} (h : KidsOK U H T env rs ns) (R : String → Handler → Prop)
    (hR : ∀ p ∈ tgtsL ns, R p.1 p.2) : Shows U H R rs (viewL ns) (instsL ns) := by
  induction h with
  | nil => simp only [viewL, instsL]; exact .nil
  | text _ ih =>
    simp only [viewL_cons, Node.view, instsL, Node.insts, List.nil_append]
    exact .text (ih (by simpa [tgtsL, Node.tgts] using hR))
  | @elem env i sh cs pos ts ks rs ns hs hk _ ih1 ih2 =>
    have h2 := ih2 (fun p hp => hR p (by simp [tgtsL, hp]))
    have hs' : ElemShown R i sh := hs.shown.mono (fun t hd ⟨ev, h⟩ =>
      hR (t, hd) (by simp only [tgtsL, tgts_elem, List.mem_append, List.mem_map]
                     exact .inl (.inl ⟨(ev, t, hd), h, rfl⟩)))
    cases cs with
    | nil =>
      have hif : (if ([] : List Raw).isEmpty then (none : Option (List Node)) else some ks) = none := rfl
      rw [hif]
      exact Shows.elem hs' (.nil : Shows U H R [] [] []) h2
    | cons c cs =>
      have hif : (if (c :: cs).isEmpty then none else some ks) = some ks := rfl
      rw [hif] at hR ⊢
      exact Shows.elem hs' (ih1 (fun p hp => hR p (by simp [tgtsL, Node.tgts, hp]))) h2
  | @comp env c pos id seen raw ks rs ns a b c d _ ih1 ih2 =>
    exact .comp a (ih1 (fun p hp => hR p (by simp [tgtsL, Node.tgts, hp])))
      (ih2 (fun p hp => hR p (by simp [tgtsL, hp])))
  | @fail env c pos id seen e rs ns a b c _ ih =>
    exact .fail a (ih (fun p hp => hR p (by simp [tgtsL, hp])))

mutual
/-- Context tables only hold contexts provided above (`D`) or by the instance itself. -/
def Node.ctxOK (T : Nat → Ctx) : (Nat → Prop) → Node → Prop
  | _, .text _ => True
  | _, .elem _ _ _ none => True
  | D, .elem _ _ _ (some ks) => ctxOKL T D ks
  | D, .comp _ id c _ ks => (∀ x, T id x ≠ none → D x ∨ c.type = .ctx x) ∧
      ctxOKL T (fun x => D x ∨ c.type = .ctx x) ks
def ctxOKL (T : Nat → Ctx) : (Nat → Prop) → List Node → Prop
  | _, [] => True
  | D, n :: ns => Node.ctxOK T D n ∧ ctxOKL T D ns
end

theorem ctxOKL_iff (T D ns) : ctxOKL T D ns ↔ ∀ n ∈ ns, Node.ctxOK T D n := by
  induction ns with
  | nil => simp [ctxOKL]
  | cons n ns ih => simp [ctxOKL, ih]
theorem ctxOKL_sub {T D} {a b : List Node} (h : ∀ n ∈ a, n ∈ b) (hb : ctxOKL T D b) : ctxOKL T D a := by
  rw [ctxOKL_iff] at *; exact fun n hn => hb n (h n hn)
theorem ctxOK_elem {T D p sh ts ks} (h : Node.ctxOK T D (.elem p sh ts ks)) : ctxOKL T D (ks.getD []) := by
  cases ks <;> simp_all [Node.ctxOK, ctxOKL]

mutual
theorem Node.ctxOK_frame {T T' : Nat → Ctx} {D : Nat → Prop} (n : Node) (h : Node.ctxOK T D n)
    (hT : ∀ x ∈ n.ids, T' x = T x) : Node.ctxOK T' D n := by
  match n with
  | .text _ => simp [Node.ctxOK]
  | .elem _ _ _ none => simp [Node.ctxOK]
  | .elem _ _ _ (some ks) =>
    simp only [Node.ctxOK] at h ⊢
    exact ctxOKL_frame ks h (by simpa [Node.ids] using hT)
  | .comp _ id c _ ks =>
    simp only [Node.ctxOK] at h ⊢
    refine ⟨?_, ctxOKL_frame ks h.2 (fun x hx => hT x (by simp [hx]))⟩
    rw [hT id (by simp)]; exact h.1
theorem ctxOKL_frame {T T' : Nat → Ctx} {D : Nat → Prop} (ns : List Node) (h : ctxOKL T D ns)
    (hT : ∀ x ∈ idsL ns, T' x = T x) : ctxOKL T' D ns := by
  match ns with
  | [] => simp [ctxOKL]
  | n :: ns =>
    simp only [ctxOKL] at h ⊢
    exact ⟨Node.ctxOK_frame n h.1 (fun x hx => hT x (by simp [hx])),
      ctxOKL_frame ns h.2 (fun x hx => hT x (by simp [hx]))⟩
end

/-- Contexts visible somewhere. -/
def dom (env : Ctx) : Nat → Prop := fun x => env x ≠ none

theorem dom_below (c : Comp) (env : Ctx) : dom (below U c env) = fun x => dom env x ∨ c.type = .ctx x := by
  funext x
  unfold dom below
  cases hc : c.type with
  | fn n => simp
  | ctx y =>
    by_cases hx : x = y
    · simp [hx]
    · simp only [hx, if_false, eq_iff_iff]
      have : CType.ctx y ≠ CType.ctx x := by simp; exact fun h => hx h.symm
      simp [this]

theorem KidsOK.ctxOK {H T env rs ns} (h : KidsOK U H T env rs ns) : ctxOKL T (dom env) ns := by
  induction h with
  | nil => simp [ctxOKL]
  | text _ ih => simp [ctxOKL, Node.ctxOK, ih]
  | @elem env i sh cs pos ts ks rs ns hs hk _ ih1 ih2 =>
    simp only [ctxOKL]
    refine ⟨?_, ih2⟩
    split
    · simp [Node.ctxOK]
    · simpa [Node.ctxOK] using ih1
  | @comp env c pos id seen raw ks rs ns a b d e _ ih1 ih2 =>
    simp only [ctxOKL, Node.ctxOK]
    refine ⟨⟨?_, ?_⟩, ih2⟩
    · intro x hx; rw [d] at hx
      have : dom (Verif.Layout.below U c env) x := hx
      rwa [dom_below] at this
    · rwa [dom_below] at ih1
  | @fail env c pos id seen e rs ns a b d _ ih =>
    simp only [ctxOKL, Node.ctxOK]
    refine ⟨⟨?_, trivial⟩, ih⟩
    intro x hx; rw [d] at hx
    have : dom (Verif.Layout.below U c env) x := hx
    rwa [dom_below] at this

def Call.top : Call → Option Nat
  | .comp top _ _ _ => top
  | .model top _ _ _ _ => top
  | .kids top _ _ _ _ => top
  | .loop top _ _ _ _ _ => top
  | .child top _ _ _ => top

def Call.raws : Call → List (Raw × Option Key)
  | .comp _ _ pos c => [(.comp c, pos.key)]
  | .model _ _ pos i cs => [(.elem i cs, pos.key)]
  | .kids _ _ _ _ raws => keyed raws
  | .loop _ _ _ _ _ infos => infos.map (fun p => (p.1, some p.2))
  | .child _ _ pos raw => [(raw, pos.key)]

/-- Context preconditions of a call. -/
structure CtxPre (call : Call) (env : Ctx) (s : St U) : Prop where
  top : ∀ p, call.top = some p → s.ctx p = env ∧ p ∉ idsL call.old ∧ p < s.nextId
  noTop : call.top = none → ∃ pos0 id oc e ks pos c, call = .comp none (some (.comp pos0 id oc e ks)) pos c ∧
    oc.type = c.type ∧ ∀ x, c.type ≠ .ctx x → s.ctx id x = env x
  old : ctxOKL s.ctx (dom env) call.old

theorem prepareComp_ctx {old c} {s s1 : St U} {r} (h : prepareComp old c s = (s1, r)) :
    s1.ctx = s.ctx := by
  unfold prepareComp at h
  split at h
  · simp [allocate] at h; rw [← h.1]
  · split at h
    · split at h
      · rename_i hu; simp [allocate] at h; rw [← h.1]; exact (unmountAll_spec' hu).ctx
      · rename_i hu; simp at h; rw [← h.1]; exact (unmountAll_spec' hu).ctx
    · simp at h; rw [← h.1]
  · split at h
    · rename_i hu; simp [allocate] at h; rw [← h.1]; exact (unmountAll_spec' hu).ctx
    · rename_i hu; simp at h; rw [← h.1]; exact (unmountAll_spec' hu).ctx

theorem prepareModel_ctx {old i} {s s1 : St U} {r} (h : prepareModel old i s = (s1, r)) :
    s1.ctx = s.ctx := by
  unfold prepareModel at h
  split at h
  · split at h <;> · simp at h; rw [← h.1]
  · split at h
    · simp at h; rw [← h.1]
    · split at h <;> · simp at h; rw [← h.1]
  · split at h
    · rename_i hu
      split at h <;> · simp at h; rw [← h.1]; exact (unmountAll_spec' hu).ctx
    · rename_i hu; simp at h; rw [← h.1]; exact (unmountAll_spec' hu).ctx

theorem runBody_ctx {s s2 : St U} {id c r} (h : runBody s id c = (s2, r)) (env : Ctx)
    (hs : ∀ x, c.type ≠ .ctx x → s.ctx id x = env x) :
    s2.ctx id = below U c env ∧ (∀ x, x ≠ id → s2.ctx x = s.ctx x) ∧ s2.log = s.log := by
  unfold runBody at h
  split at h
  · rename_i x hx
    simp only [Prod.mk.injEq] at h; rw [← h.1]
    refine ⟨?_, ?_, rfl⟩
    · funext y
      simp only [below, hx]
      by_cases hy : y = x
      · simp [hy]
      · simp only [hy, and_false, if_false]
        exact hs y (by rw [hx]; simp; exact fun h => hy h.symm)
    · intro z hz; funext y; simp [hz]
  · rename_i n hx
    simp only [Prod.mk.injEq] at h; rw [← h.1]
    refine ⟨?_, fun _ _ => rfl, rfl⟩
    funext y
    simp only [below, hx]
    exact hs y (by simp [hx])

/-- The context table of an instance that is about to run its body. -/
theorem enter_ctx {top old pos c} {env : Ctx} {s s1 : St U} {id ks}
    (hp : prepareComp old c s = (s1, .ok (id, ks))) (hi : Inv s)
    (hn : (idsL old.toList).Nodup) (hr : ∀ x ∈ idsL old.toList, x ∈ s.reg)
    (hc : CtxPre (.comp top old pos c) env s) :
    (∀ x, c.type ≠ .ctx x → (enterComp s1 top id).ctx id x = env x) ∧
    (∀ y, y ≠ id → (enterComp s1 top id).ctx y = s.ctx y) := by
  have hctx := prepareComp_ctx hp
  have hk := (prepareComp_post top hp hi hn hr).2.2
  constructor
  · intro x hx
    have htab : s.ctx id x ≠ none → dom env x := by
      intro hne
      rcases (prepareComp_shape hp).2 with h | ⟨p, oc, e, rfl, ht, _⟩
      · subst h
        rcases hk with hk | ⟨hk, _⟩
        · -- retained with no children, or unmounted: in both cases covered by `ctxOK`
          unfold prepareComp at hp
          split at hp
          · simp at hk
          · rename_i p id' oc e ks'
            split at hp
            · split at hp
              · rename_i hu
                simp [allocate] at hp
                have := hi.lt id (hr id hk)
                have h2 := (unmountAll_spec' hu).nextId
                omega
              · simp at hp
            · rename_i ht
              simp at hp
              have h3 := hc.old
              simp only [Call.old, Option.toList_some, ctxOKL, Node.ctxOK] at h3
              have := h3.1.1 x (by rw [hp.2.1]; exact hne)
              rcases this with h | h
              · exact h
              · simp at ht; rw [ht] at h; exact absurd h hx
          · split at hp
            · rename_i hu
              simp [allocate] at hp
              have := hi.lt id (hr id hk)
              have h2 := (unmountAll_spec' hu).nextId
              omega
            · simp at hp
        · exact absurd (hi.ctx id hk x) hne
      · have h3 := hc.old
        simp only [Call.old, Option.toList_some, ctxOKL, Node.ctxOK] at h3
        rcases h3.1.1 x hne with h | h
        · exact h
        · rw [ht] at h; exact absurd h hx
    cases top with
    | none =>
      obtain ⟨pos0, id', oc, e, ks', pos', c', heq, ht, hs⟩ := hc.noTop rfl
      simp only [Call.comp.injEq] at heq
      obtain ⟨_, rfl, _, rfl⟩ := heq
      simp only [prepareComp, ht, ne_eq, not_true, if_false, Prod.mk.injEq, Except.ok.injEq] at hp
      simp only [enterComp, inheritCtx]
      rw [← hp.1, ← hp.2.1]; exact hs x hx
    | some p =>
      have hpp := hc.top p rfl
      simp only [enterComp, inheritCtx, if_true, hctx, hpp.1]
      cases he : env x with
      | some v => simp
      | none =>
        simp only [Option.none_or]
        cases ht : s.ctx id x with
        | none => rfl
        | some v => exact absurd he (htab (by simp [ht]))
  · intro y hy
    cases top with
    | none => simp [enterComp, inheritCtx, hctx]
    | some p => funext x; simp [enterComp, inheritCtx, hctx, hy]

theorem entriesShown (R : String → Handler → Prop) (kpath : List Key) (l : List (String × Handler))
    (h : ∀ p ∈ l, R (targetOf kpath p.1 p.2) p.2) :
    EntriesShown R l (l.map (fun p => serialize p.1 p.2 (targetOf kpath p.1 p.2))) := by
  induction l with
  | nil => simp [EntriesShown]
  | cons p ps ih =>
    exact ⟨⟨rfl, rfl, rfl, rfl, rfl, fun t ht => by simp [serialize, targetOf, ht], h p (by simp)⟩, ih (fun q hq => h q (by simp [hq]))⟩

theorem targetsOK_mk (kpath : List Key) (i : ElemInfo) (tag : String) (seqs) (h : i.tag = some tag) :
    TargetsOK i (mkShell kpath i tag seqs) (mkTargets kpath i) where
  shown := {
    tag := h
    noError := rfl
    attrs := by
      simp only [mkShell, injectAck, AttrsShown]
      split
      · rename_i ht
        split
        · rename_i a at' ha hat
          split
          · left; exact hat.symm
          · right; exact ⟨ht, at', a, hat, rfl⟩
        · left; rfl
      · left; rfl
    handlers := by
      cases hh : i.handlers with
      | nil => left; simp [mkShell, hh]
      | cons p ps =>
        right
        refine ⟨by simp, _, by simp [mkShell, hh]; rfl, ?_⟩
        refine entriesShown _ kpath (p :: ps) (fun q hq => ⟨q.1, ?_⟩)
        simp only [mkTargets, hh]
        exact List.mem_map.2 ⟨q, hq, rfl⟩
    inlineJs := rfl
    importSource := rfl }
  same := by
    simp only [mkShell, mkTargets]
    split
    · rename_i he
      have : i.handlers = [] := by simpa using he
      simp [this]
    · simp [serialize, Function.comp_def]
  given := by simp [mkTargets, Function.comp_def]

theorem childrenInfo_zip (idx : Nat) (raws : List Raw) :
    (childrenInfo idx raws).map (fun p => (p.1, some p.2)) =
      ((raws.zipIdx idx).filter (fun p => !p.1.isNone)).map (fun p => (p.1, some (p.1.effKey p.2))) := by
  induction raws generalizing idx with
  | nil => simp [childrenInfo]
  | cons r rs ih =>
    cases r with
    | none => simpa [childrenInfo, Raw.isNone] using ih (idx + 1)
    | text t => simpa [childrenInfo, Raw.isNone, Raw.effKey, Raw.explicitKey] using ih (idx + 1)
    | elem i cs =>
      simp only [childrenInfo, List.map_cons, List.zipIdx_cons]
      rw [List.filter_cons_of_pos (by simp [Raw.isNone]), List.map_cons, ih]
      congr 3
      have hb : (fun p : String × AVal => p.1 == "key") = (fun p => decide (p.1 = "key")) := by
        funext p; rfl
      simp only [Raw.effKey, Raw.explicitKey, dictGet, hb]
      generalize List.find? _ (i.attrs.getD []) = o
      rcases o with _ | ⟨n, v⟩
      · rfl
      · cases v <;> rfl
    | comp c => simpa [childrenInfo, Raw.isNone, Raw.effKey, Raw.explicitKey] using ih (idx + 1)

theorem keyed_eq (raws : List Raw) :
    keyed raws = (childrenInfo 0 raws).map (fun p => (p.1, some p.2)) := (childrenInfo_zip 0 raws).symm

theorem Post.lt {s s1 : St U} {I L : List Nat} (h : Post I s s1 L) {x} (hx : x ∈ L) :
    x < s1.nextId ∧ x ∈ s1.reg ∧ (x ∈ I ∨ s.nextId ≤ x) := by
  obtain ⟨i1, f1, o1, ho1, n1, s1', r1⟩ := h
  have hr := (r1 x (s1' x (by simp [hx]))).2 (by simp [hx])
  exact ⟨i1.lt x hr, hr, s1' x (by simp [hx])⟩

theorem run_shows {call} {s s' : St U} {ns} (h : Run call s s' (.ok ns)) (hi : Inv s)
    (hn : (idsL call.old).Nodup) (hr : ∀ x ∈ idsL call.old, x ∈ s.reg) (hd : deepL call.old)
    (hk : KeyPre call) (env : Ctx) (hc : CtxPre call env s) :
    KidsOK U (lastRender s'.log) s'.ctx env call.raws ns := by
  generalize hres : Res.ok ns = r at h
  induction h generalizing ns env with
  | compUnm _ => cases hres
  | @compRaise top old pos c s s1 id ks s2 e hp hb =>
    cases hres
    have he := enter_ctx hp hi hn hr hc
    have hbody := runBody_ctx hb env he.1
    refine .fail (seen := (enterComp s1 top id).ctx id) (by simp [lastRender]) ?_ hbody.1 .nil
    intro m hm; funext x; exact he.1 x (by simp [hm])
  | @compOk top old pos c s s1 id ks s2 raw s3 kids hp hb hkids ih =>
    cases hres
    have he := enter_ctx hp hi hn hr hc
    have hbody := runBody_ctx hb env he.1
    obtain ⟨h1, _, h3⟩ := prepareComp_post top hp hi hn hr
    have hid : id ∈ idsL old.toList ∨ s.nextId ≤ id := h3.imp (fun h => h) And.left
    have h2 := runBody_post h1 hid (by simp) hb
    have hpre := h2.pre (P := [id]) (J := idsL ks) (.refl _)
    have hlt := h2.lt (x := id) (by simp)
    have hidks : id ∉ idsL ks := by
      obtain ⟨_, _, o, _, n, _, _⟩ := h2
      have := n.sublist (List.sublist_append_left _ _)
      exact (List.nodup_cons.1 this).1
    have hshape := (prepareComp_shape hp).2
    have hks : deepL ks ∧ (keysL ks).Nodup := by
      rcases hshape with rfl | ⟨p, oc, e, rfl, _⟩
      · simp [keysL]
      · simp [Call.old, deep_comp] at hd; exact ⟨hd.2.2, hd.1⟩
    have hpost := run_post hkids h2.inv hpre.1 hpre.2 hks.1 hks.2
    have hctx2 : ∀ y, y ≠ id → s2.ctx y = s.ctx y := fun y hy => by
      rw [hbody.2.1 y hy, he.2 y hy]
    have hK := ih h2.inv hpre.1 hpre.2 hks.1 hks.2 (below U c env) ⟨?_, ?_, ?_⟩ rfl
    · have hids : ∀ x ∈ idsL kids, x ≠ id := by
        intro x hx
        rintro rfl
        rcases (hpost.lt (x := x) hx).2.2 with h | h
        · exact hidks h
        · omega
      refine .comp (seen := (enterComp s1 top id).ctx id) (raw := raw) (by simp [lastRender]) ?_ ?_ ?_ .nil
      · intro m hm; funext x; exact he.1 x (by simp [hm])
      · exact (hpost.frame.ctx id hlt.1 hidks).trans hbody.1
      · refine hK.frame ?_ (fun _ _ => rfl)
        intro x hx; simp [lastRender, (hids x hx).symm]
    · intro p htop
      simp only [Call.top, Option.some.injEq] at htop
      subst htop
      exact ⟨hbody.1, hidks, hlt.1⟩
    · intro h; simp [Call.top] at h
    · rcases hshape with rfl | ⟨p, oc, e, rfl, ht, rfl⟩
      · simp [Call.old, ctxOKL]
      · have h4 := hc.old
        simp only [Call.old, Option.toList_some, ctxOKL, Node.ctxOK] at h4
        rw [dom_below, ← ht]
        refine ctxOKL_frame ks h4.1.2 (fun x hx => hctx2 x ?_)
        rintro rfl; exact hidks hx
  | @compErr top old pos c s s1 id ks s2 raw s3 e lost hp hb hkids _ =>
    cases hres
    have he := enter_ctx hp hi hn hr hc
    have hbody := runBody_ctx hb env he.1
    obtain ⟨h1, _, h3⟩ := prepareComp_post top hp hi hn hr
    have hid : id ∈ idsL old.toList ∨ s.nextId ≤ id := h3.imp (fun h => h) And.left
    have h2 := runBody_post h1 hid (by simp) hb
    have hpre := h2.pre (P := [id]) (J := idsL ks) (.refl _)
    have hlt := h2.lt (x := id) (by simp)
    have hidks : id ∉ idsL ks := by
      obtain ⟨_, _, o, _, n, _, _⟩ := h2
      have := n.sublist (List.sublist_append_left _ _)
      exact (List.nodup_cons.1 this).1
    have hks : deepL ks ∧ (keysL ks).Nodup := by
      rcases (prepareComp_shape hp).2 with rfl | ⟨p, oc, e, rfl, _⟩
      · simp [keysL]
      · simp [Call.old, deep_comp] at hd; exact ⟨hd.2.2, hd.1⟩
    have hpost := run_post hkids h2.inv hpre.1 hpre.2 hks.1 hks.2
    refine .fail (seen := (enterComp s1 top id).ctx id) (by simp [lastRender]) ?_
      ((hpost.frame.ctx id hlt.1 hidks).trans hbody.1) .nil
    intro m hm; funext x; exact he.1 x (by simp [hm])
  | modelPrep _ => cases hres
  | @modelOk top old pos i cs s s1 tag ks s2 kids hp hkids ih =>
    cases hres
    have h1 := prepareModel_post hp hi hn hr
    have hpre := h1.pre (P := []) (J := idsL ks) (.refl _)
    obtain ⟨htag, _, hshape⟩ := prepareModel_ok hp
    have hks : deepL ks ∧ (keysL ks).Nodup := by
      rcases hshape with rfl | ⟨p, sh, ts, oks, rfl, rfl⟩
      · simp [keysL]
      · simp [Call.old, deep_elem] at hd; exact ⟨hd.2.2, hd.1⟩
    have h2 := h1.congr_right (t := { s1 with handlers := addHandlers pos.kpath i.handlers s1.handlers })
      rfl rfl rfl rfl rfl rfl
    have hctx : s1.ctx = s.ctx := prepareModel_ctx hp
    refine .elem (targetsOK_mk _ _ _ _ htag) (ih h2.inv hpre.1 hpre.2 hks.1 hks.2 env ⟨?_, ?_, ?_⟩ rfl) .nil
    · intro p htop
      have := hc.top p htop
      refine ⟨by simpa [hctx] using this.1, ?_, Nat.lt_of_lt_of_le this.2.2 h1.frame.mono⟩
      intro h
      rcases (h1.lt (x := p) h).2.2 with h | h
      · exact this.2.1 h
      · omega
    · intro h
      obtain ⟨_, _, _, _, _, _, _, he, _⟩ := hc.noTop h
      simp at he
    · rcases hshape with rfl | ⟨p, sh, ts, oks, rfl, rfl⟩
      · simp [Call.old, ctxOKL]
      · have h4 := hc.old
        simp only [Call.old, Option.toList_some, ctxOKL] at h4
        simp only [Call.old, hctx]
        exact ctxOK_elem h4.1
  | modelErr _ _ _ => cases hres
  | kidsDup _ => cases hres
  | kidsUnm _ _ => cases hres
  | @kidsLoop top old path kpath raws s s1 s2 r hdup hu hl ih =>
    subst hres
    have h0 := Post.refl hi hn hr
    have hperm := removed_kept_perm old (childrenInfo 0 raws)
    have hpre := h0.pre hperm
    have hspec := unmountAll_spec' hu
    have h1 := h0.chain hperm (hspec.post hi hpre.1 hpre.2)
    simp only [idsL_nil, List.append_nil] at h1
    have hpre2 := h1.pre (P := []) (J := idsL (keptKids old (childrenInfo 0 raws))) (.refl _)
    simp only [Call.raws]
    rw [keyed_eq]
    refine ih h1.inv hpre2.1 hpre2.2 (deepL_sub (fun n hn => (List.mem_filter.1 hn).1) hd)
      (keyPre_kept _ _ hk) env ⟨?_, ?_, ?_⟩ rfl
    · intro p htop
      have := hc.top p htop
      refine ⟨by rw [hspec.ctx]; exact this.1, fun h => this.2.1 ?_, by rw [hspec.nextId]; exact this.2.2⟩
      exact (idsL_filter_sublist _ _).subset h
    · intro h
      obtain ⟨_, _, _, _, _, _, _, he, _⟩ := hc.noTop h
      simp at he
    · rw [hspec.ctx]; exact ctxOKL_sub (fun n hn => (List.mem_filter.1 hn).1) hc.old
  | loopNil => cases hres; exact .nil
  | loopFirst _ _ => cases hres
  | loopRest _ _ _ _ => cases hres
  | @loopOk top old path kpath idx raw key infos s s1 new s2 news hch hl ih1 ih2 =>
    cases hres
    have h0 := Post.refl hi hn hr
    have hperm := lookup_others_perm old key hk.1
    have hpre := h0.pre hperm
    have hlk : deepL (lookupKid old key).toList := by
      refine deepL_sub (fun n hn => ?_) hd
      simp at hn; exact lookupKid_mem hn
    have hsub : ∀ n ∈ (lookupKid old key).toList, n ∈ old := by
      intro n hn; simp at hn; exact lookupKid_mem hn
    have hidsub : ∀ x ∈ idsL (lookupKid old key).toList, x ∈ idsL old := fun x hx =>
      hperm.mem_iff.2 (by simp [hx])
    have hoth : ∀ x ∈ idsL (othersOf old key), x ∈ idsL old := fun x hx =>
      hperm.mem_iff.2 (by simp [hx])
    have hpost1 := run_post hch hi hpre.1 hpre.2 hlk trivial
    have h1 := h0.chain hperm hpost1
    have hpre2 := h1.pre (List.perm_append_comm)
    have hdis : ∀ x ∈ idsL (othersOf old key), x ∉ idsL (lookupKid old key).toList := by
      intro x hx hx'
      have := hperm.nodup_iff.1 hn
      exact (List.nodup_append.1 this).2.2 x hx x hx' rfl
    have hltold : ∀ x ∈ idsL old, x < s.nextId := fun x hx => hi.lt x (hr x hx)
    have hK1 := ih1 hi hpre.1 hpre.2 hlk trivial env ⟨?_, ?_, ?_⟩ rfl
    have hpost2 := run_post hl h1.inv hpre2.1 hpre2.2
      (deepL_sub (fun n hn => (List.mem_filter.1 hn).1) hd) (keyPre_others _ _ _ _ hk)
    have hK2 := ih2 h1.inv hpre2.1 hpre2.2
      (deepL_sub (fun n hn => (List.mem_filter.1 hn).1) hd) (keyPre_others _ _ _ _ hk) env ⟨?_, ?_, ?_⟩ rfl
    · have hnew : ∀ x ∈ idsL new, x < s1.nextId ∧ x ∉ idsL (othersOf old key) := by
        intro x hx
        have := hpost1.lt (x := x) hx
        refine ⟨this.1, fun h => ?_⟩
        rcases this.2.2 with h' | h'
        · exact hdis x h h'
        · have := hltold x (hoth x h); omega
      have hK1' := hK1.frame (H' := lastRender s2.log) (T' := s2.ctx)
        (fun x hx => hpost2.frame.log x (hnew x hx).1 (hnew x hx).2)
        (fun x hx => hpost2.frame.ctx x (hnew x hx).1 (hnew x hx).2)
      exact hK1'.append hK2
    · intro p htop
      have := hc.top p htop
      refine ⟨(hpost1.frame.ctx p this.2.2 (fun h => this.2.1 (hidsub p h))).trans this.1,
        fun h => this.2.1 (hoth p h), Nat.lt_of_lt_of_le this.2.2 hpost1.frame.mono⟩
    · intro h
      obtain ⟨_, _, _, _, _, _, _, he, _⟩ := hc.noTop h
      simp at he
    · refine ctxOKL_frame _ (ctxOKL_sub (fun n hn => (List.mem_filter.1 hn).1) hc.old) ?_
      intro x hx
      exact hpost1.frame.ctx x (hltold x (hoth x hx)) (hdis x hx)
    · intro p htop
      have := hc.top p htop
      exact ⟨this.1, fun h => this.2.1 (hidsub p h), this.2.2⟩
    · intro h
      obtain ⟨_, _, _, _, _, _, _, he, _⟩ := hc.noTop h
      simp at he
    · exact ctxOKL_sub hsub hc.old
  | @childElem top old pos i cs s s1 r hm ih =>
    subst hres
    refine ih hi hn hr hd trivial env ⟨hc.top, ?_, hc.old⟩ rfl
    intro h
    obtain ⟨_, _, _, _, _, _, _, he, _⟩ := hc.noTop h
    simp at he
  | @childComp top old pos c s s1 r hm ih =>
    subst hres
    refine ih hi hn hr hd trivial env ⟨hc.top, ?_, hc.old⟩ rfl
    intro h
    obtain ⟨_, _, _, _, _, _, _, he, _⟩ := hc.noTop h
    simp at he
  | childText => cases hres; exact .text .nil
  | childTextOld hu => cases hres; exact .text .nil
  | childTextErr hu => cases hres
  | childNone => cases hres

end Verif.Layout
