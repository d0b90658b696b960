import Verif.Layout.Life
/-!
# Where event handlers are displayed

`Places` belongs to the specification; the rest are helper lemmas.
-/
namespace Verif.Layout
variable {U : User}

/-- An event handler that is displayed: the keys of the element and of everything around it, the name of the event, the target sent
to the client, the function attached. -/
structure Place where
  keys : List Key
  event : String
  target : String
  fn : Nat
deriving DecidableEq, Repr

/-- `Places hist K raws vs F l`: the values `raws`, inside elements and components with the keys `K` and displayed as `vs` by the
instances `F` (see `Shows`), have the event handlers `l`, in document order. -/
inductive Places (hist : Nat → Option (Comp × Ctx × Except String Raw)) :
    List Key → List (Raw × Option Key) → List VJson → List Inst → List Place → Prop
  | nil {K} : Places hist K [] [] [] []
  | text {K t k rs vs F l} : Places hist K rs vs F l → Places hist K ((.text t, k) :: rs) (.text t :: vs) F l
  | elem {K i cs k sh ws G rs vs F l l'} : Places hist (K ++ k.toList) (keyed cs) ws G l → Places hist K rs vs F l' →
      Places hist K ((.elem i cs, k) :: rs) (.obj sh (if cs = [] then none else some ws) :: vs) (.elem k G :: F)
        (List.zipWith (fun p e => ⟨K ++ k.toList, p.1, e.target, p.2.fn⟩) i.handlers (sh.handlers.getD []) ++ l ++ l')
  | comp {K c k id seen raw sh ws G rs vs F l l'} : hist id = some (c, seen, .ok raw) →
      Places hist (K ++ k.toList) (keyed [raw]) ws G l → Places hist K rs vs F l' →
      Places hist K ((.comp c, k) :: rs) (.obj sh (some ws) :: vs) (.comp k id c G :: F) (l ++ l')
  | fail {K c k id seen e sh rs vs F l} : hist id = some (c, seen, .error e) → Places hist K rs vs F l →
      Places hist K ((.comp c, k) :: rs) (.obj sh none :: vs) (.comp k id c [] :: F) l

mutual
/-- The same of model states. -/
def Node.places : Node → List Place
  | .text _ => []
  | .elem p _ ts none => ts.map (fun x => ⟨p.kpath, x.1, x.2.1, x.2.2.fn⟩)
  | .elem p _ ts (some ks) => ts.map (fun x => ⟨p.kpath, x.1, x.2.1, x.2.2.fn⟩) ++ placesL ks
  | .comp _ _ _ _ ks => placesL ks
def placesL : List Node → List Place
  | [] => []
  | n :: ns => n.places ++ placesL ns
end

theorem zip_places {K : List Key} {ts : List (String × String × Handler)} {es : List HEntry}
    (h : es.map (·.target) = ts.map (·.2.1)) :
    List.zipWith (fun (p : String × Handler) e => (⟨K, p.1, e.target, p.2.fn⟩ : Place)) (ts.map (fun x => (x.1, x.2.2))) es
      = ts.map (fun x => ⟨K, x.1, x.2.1, x.2.2.fn⟩) := by
  induction ts generalizing es with
  | nil => simp
  | cons x ts ih =>
    cases es with
    | nil => simp at h
    | cons e es =>
      simp only [List.map_cons, List.cons.injEq] at h
      simp [ih h.2, h.1]

/-- The states are at the keys that they are displayed with. -/
def KeysAt (K : List Key) (ns : List Node) : Prop := ∀ n ∈ ns, n.isText = false → n.pos.kpath = K ++ n.pos.key.toList

theorem AtKeys.keysAt {K : List Key} {ns : List Node} (h : AtKeys K ns) : KeysAt K ns := by
  intro n hn ht
  obtain ⟨k, _, h1, h2⟩ := h n hn ht
  rw [Node.key?_eq n ht] at h1
  rw [h2, h1]; rfl

theorem KeysAt.tail {K : List Key} {n : Node} {ns : List Node} (h : KeysAt K (n :: ns)) : KeysAt K ns :=
  fun m hm => h m (by simp [hm])

theorem KeysAt.head {K : List Key} {n : Node} {ns : List Node} (h : KeysAt K (n :: ns)) (ht : n.isText = false) :
    n.pos.kpath = K ++ n.pos.key.toList := h n (by simp) ht

theorem KidsOK.places {H T env rs ns} (h : KidsOK U H T env rs ns) : ∀ K, KeysAt K ns → deepL ns → canonL ns →
    Places H K rs (viewL ns) (instsL ns) (placesL ns) := by
  induction h with
  | nil => intro K _ _ _; simp only [viewL, instsL, placesL]; exact .nil
  | text _ ih =>
    intro K hk hd hc
    simp only [viewL_cons, Node.view, instsL, Node.insts, List.nil_append, placesL, Node.places]
    simp only [deepL_cons, canonL] at hd hc
    exact .text (ih K hk.tail hd.2 hc.2)
  | @elem env i sh cs pos ts ks rs ns hs hk _ ih1 ih2 =>
    intro K hK hd hc
    simp only [deepL_cons, canonL] at hd hc
    have h2 := ih2 K hK.tail hd.2 hc.2
    have hp : pos.kpath = K ++ pos.key.toList := hK.head rfl
    have hz := zip_places (K := K ++ pos.key.toList) hs.same
    rw [← hs.given] at hz
    cases cs with
    | nil =>
      have hif : (if ([] : List Raw).isEmpty then (none : Option (List Node)) else some ks) = none := rfl
      rw [hif]
      have := Places.elem (hist := H) (K := K) (i := i) (cs := []) (k := pos.key) (sh := sh) .nil h2
      rw [hz] at this
      simpa only [placesL, Node.places, viewL_cons, Node.view, instsL, Node.insts, hp, List.append_nil, if_true, List.cons_append, List.nil_append] using this
    | cons c cs =>
      have hif : (if (c :: cs).isEmpty then none else some ks) = some ks := rfl
      rw [hif] at hd hc ⊢
      simp only [Node.deep, Node.canon] at hd hc
      have h1 := ih1 (K ++ pos.key.toList) (by rw [← hp]; exact (hd.1.2.1.atKeys hc.1.2).keysAt) hd.1.2.2 hc.1.2
      have := Places.elem (hist := H) (K := K) (i := i) (cs := c :: cs) (k := pos.key) (sh := sh) h1 h2
      rw [hz] at this
      simpa only [placesL, Node.places, viewL_cons, Node.view, instsL, Node.insts, hp, reduceCtorEq, if_false, List.cons_append, List.nil_append] using this
  | @comp env c pos id seen raw ks rs ns a b d e _ ih1 ih2 =>
    intro K hK hd hc
    simp only [deepL_cons, canonL, Node.deep, Node.canon] at hd hc
    have hp : pos.kpath = K ++ pos.key.toList := hK.head rfl
    have h1 := ih1 (K ++ pos.key.toList) (by rw [← hp]; exact (hd.1.2.1.atKeys hc.1.2).keysAt) hd.1.2.2 hc.1.2
    exact .comp a h1 (ih2 K hK.tail hd.2 hc.2)
  | @fail env c pos id seen e rs ns a b d _ ih =>
    intro K hK hd hc
    simp only [deepL_cons, canonL] at hd hc
    exact .fail a (ih K hK.tail hd.2 hc.2)

mutual
theorem Node.places_canon (n : Node) (h : n.canon) : ∀ q ∈ n.places, PlainL q.keys ∧ q.target = autoTarget q.keys q.event := by
  match n with
  | .text _ => simp [Node.places]
  | .elem p _ ts none =>
    simp only [Node.canon] at h
    intro q hq
    simp only [Node.places, List.mem_map] at hq
    obtain ⟨x, hx, rfl⟩ := hq
    exact ⟨h.1, h.2.2 x hx⟩
  | .elem p _ ts (some ks) =>
    simp only [Node.canon] at h
    intro q hq
    simp only [Node.places, List.mem_append, List.mem_map] at hq
    rcases hq with ⟨x, hx, rfl⟩ | hq
    · exact ⟨h.1.1, h.1.2.2 x hx⟩
    · exact placesL_canon ks h.2 q hq
  | .comp _ _ _ _ ks =>
    simp only [Node.canon] at h
    simpa only [Node.places] using placesL_canon ks h.2
theorem placesL_canon (ns : List Node) (h : canonL ns) : ∀ q ∈ placesL ns, PlainL q.keys ∧ q.target = autoTarget q.keys q.event := by
  match ns with
  | [] => simp [placesL]
  | n :: ns =>
    simp only [canonL] at h
    intro q hq
    simp only [placesL, List.mem_append] at hq
    exact hq.elim (Node.places_canon n h.1 q) (placesL_canon ns h.2 q)
end

mutual
theorem Node.places_tgts (n : Node) : n.places.map (fun q => (q.target, q.fn)) = n.tgts.map (fun q => (q.1, q.2.fn)) := by
  match n with
  | .text _ => simp [Node.places, Node.tgts]
  | .elem _ _ ts none => simp [Node.places, Node.tgts]
  | .elem _ _ ts (some ks) => simp [Node.places, Node.tgts, placesL_tgts ks]
  | .comp _ _ _ _ ks => simp [Node.places, Node.tgts, placesL_tgts ks]
theorem placesL_tgts (ns : List Node) : (placesL ns).map (fun q => (q.target, q.fn)) = (tgtsL ns).map (fun q => (q.1, q.2.fn)) := by
  match ns with
  | [] => simp [placesL, tgtsL]
  | n :: ns => simp [placesL, tgtsL, Node.places_tgts n, placesL_tgts ns]
end

end Verif.Layout
