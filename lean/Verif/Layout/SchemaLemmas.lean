import Verif.Layout.Schema
import Verif.Layout.Life
import Verif.Layout.Route
/-! # Every rendered model satisfies the schema (helper lemmas) -/
namespace Verif.Layout
variable {U : User}

theorem mem_jsonL {O : Opaque} {j : Json} {vs : List VJson} : j ∈ jsonL O vs ↔ ∃ v ∈ vs, j = v.json O := by
  induction vs with
  | nil => simp [jsonL]
  | cons v vs ih => simp [jsonL, ih]

theorem conformsL_iff {O : Opaque} {rs : List Raw} : conformsL O rs ↔ ∀ r ∈ rs, r.Conforms O := by
  induction rs with
  | nil => simp [conformsL]
  | cons r rs ih => simp [conformsL, ih]

/-- What an element's JSON object needs. -/
structure ShellOk (O : Opaque) (sh : Shell) : Prop where
  err : ∀ e, sh.error = some e → sh.tag = ""
  deb : ∀ l, sh.handlers = some l → ∀ e ∈ l, ∀ n, e.debounce = some n → 0 ≤ n
  thr : ∀ l, sh.handlers = some l → ∀ e ∈ l, ∀ n, e.throttle = some n → 0 ≤ n
  imp : ∀ n, sh.importSource = some n → Valid vdomDefs (.ref "importSource") (O.importSource n)

theorem entry_valid {e : HEntry} (h1 : ∀ n, e.debounce = some n → 0 ≤ n) (h2 : ∀ n, e.throttle = some n → 0 ≤ n) :
    Valid vdomDefs (.ref "eventHandler") e.json := by
  refine .ref (s := _) rfl (.all ?_)
  intro s hs
  simp only [List.mem_cons, List.not_mem_nil, or_false] at hs
  rcases hs with rfl | rfl | rfl
  · exact .type (by simp [HEntry.json, Json.type])
  · refine .properties ?_
    intro l hl p hp v hv
    simp only [HEntry.json, Json.obj.injEq] at hl
    subst hl
    simp only [List.mem_append, List.mem_cons, List.not_mem_nil, or_false, Prod.mk.injEq] at hv
    have key : (p.1 = "target" ∧ v = .str e.target) ∨ (p.1 = "preventDefault" ∧ v = .bool e.preventDefault) ∨
        (p.1 = "stopPropagation" ∧ v = .bool e.stopPropagation) ∨ (p.1 = "debounce" ∧ ∃ n, e.debounce = some n ∧ v = .int n) ∨
        (p.1 = "throttle" ∧ ∃ n, e.throttle = some n ∧ v = .int n) := by
      rcases hv with (hv | hv) | hv
      · rcases hv with hv | hv | hv <;> simp [hv]
      · cases hd : e.debounce with
        | none => simp [hd] at hv
        | some n => simp [hd] at hv; simp [hv]
      · cases hd : e.throttle with
        | none => simp [hd] at hv
        | some n => simp [hd] at hv; simp [hv]
    simp only [List.mem_cons, List.not_mem_nil, or_false] at hp
    rcases hp with rfl | rfl | rfl | rfl | rfl <;> simp at key
    · subst key; exact .type (by simp [Json.type])
    · subst key; exact .type (by simp [Json.type])
    · subst key; exact .type (by simp [Json.type])
    · obtain ⟨n, hn, rfl⟩ := key
      refine .all fun s hs => ?_
      simp only [List.mem_cons, List.not_mem_nil, or_false] at hs
      rcases hs with rfl | rfl
      · exact .type (by simp [Json.type])
      · exact .minimum fun i hi => by cases hi; exact h1 n hn
    · obtain ⟨n, hn, rfl⟩ := key
      refine .all fun s hs => ?_
      simp only [List.mem_cons, List.not_mem_nil, or_false] at hs
      rcases hs with rfl | rfl
      · exact .type (by simp [Json.type])
      · exact .minimum fun i hi => by cases hi; exact h2 n hn
  · refine .required ?_
    intro l hl k hk
    simp only [HEntry.json, Json.obj.injEq] at hl
    subst hl
    simp only [List.mem_cons, List.not_mem_nil, or_false] at hk
    subst hk
    exact ⟨.str e.target, by simp⟩

/-- The members of an element's JSON object. -/
theorem members_cases {O : Opaque} {sh : Shell} {k : String} {v : Json} (h : (k, v) ∈ sh.members O) :
    (k = "tagName" ∧ v = .str sh.tag) ∨ (k = "error" ∧ ∃ e, sh.error = some e ∧ v = .str e) ∨
    (k = "attributes" ∧ ∃ a, v = .obj a) ∨
    (k = "eventHandlers" ∧ ∃ l, sh.handlers = some l ∧ v = .obj (l.map fun e => (e.event, e.json))) ∨
    (k = "inlineJavaScript" ∧ ∃ l, v = .obj l) ∨
    (k = "importSource" ∧ ∃ n, sh.importSource = some n ∧ v = O.importSource n) := by
  simp only [Shell.members, List.mem_append] at h
  rcases h with ((((h | h) | h) | h) | h) | h
  · simp at h; simp [h]
  · cases hd : sh.error with
    | none => simp [hd] at h
    | some n => simp [hd] at h; simp [h]
  · cases hd : sh.attrs with
    | none => simp [hd] at h
    | some n => simp [hd] at h; simp [h]
  · cases hd : sh.handlers with
    | none => simp [hd] at h
    | some n => simp [hd] at h; simp [h]
  · cases hd : sh.inlineJs with
    | none => simp [hd] at h
    | some n => simp [hd] at h; simp [h]
  · cases hd : sh.importSource with
    | none => simp [hd] at h
    | some n => simp [hd] at h; simp [h]

theorem elem_valid {O : Opaque} {sh : Shell} (h : ShellOk O sh) {ks : List (String × Json)}
    (hk : ks = [] ∨ ∃ l, ks = [("children", .arr l)] ∧ ∀ j ∈ l, Valid vdomDefs (.ref "elementOrString") j) :
    Valid vdomDefs (.ref "element") (.obj (sh.members O ++ ks)) := by
  have hcases : ∀ k v, (k, v) ∈ sh.members O ++ ks →
      (k = "tagName" ∧ v = .str sh.tag) ∨ (k = "error" ∧ ∃ e, sh.error = some e ∧ v = .str e) ∨
      (k = "attributes" ∧ ∃ a, v = .obj a) ∨
      (k = "eventHandlers" ∧ ∃ l, sh.handlers = some l ∧ v = .obj (l.map fun e => (e.event, e.json))) ∨
      (k = "inlineJavaScript" ∧ ∃ l, v = .obj l) ∨
      (k = "importSource" ∧ ∃ n, sh.importSource = some n ∧ v = O.importSource n) ∨
      (k = "children" ∧ ∃ l, v = .arr l ∧ ∀ j ∈ l, Valid vdomDefs (.ref "elementOrString") j) := by
    intro k v hm
    rcases List.mem_append.1 hm with hm | hm
    · rcases members_cases hm with h | h | h | h | h | h <;> simp [h]
    · rcases hk with rfl | ⟨l, rfl, hl⟩
      · simp at hm
      · simp at hm
        exact .inr (.inr (.inr (.inr (.inr (.inr ⟨hm.1, l, hm.2, hl⟩)))))
  refine .ref (s := _) rfl (.all ?_)
  intro s hs
  simp only [List.mem_cons, List.not_mem_nil, or_false] at hs
  rcases hs with rfl | rfl | rfl | rfl
  · exact .type (by simp [Json.type])
  · refine .properties ?_
    intro l hl p hp v hv
    cases hl
    have key := hcases p.1 v hv
    simp only [List.mem_cons, List.not_mem_nil, or_false] at hp
    rcases hp with rfl | rfl | rfl | rfl | rfl | rfl | rfl <;> simp at key
    · subst key; exact .type (by simp [Json.type])
    · obtain ⟨e, _, rfl⟩ := key; exact .type (by simp [Json.type])
    · obtain ⟨l, rfl, hl⟩ := key
      refine .ref (s := _) rfl (.all fun s hs => ?_)
      simp only [List.mem_cons, List.not_mem_nil, or_false] at hs
      rcases hs with rfl | rfl
      · exact .type (by simp [Json.type])
      · exact .items fun l' hl' v hv => by cases hl'; exact hl v hv
    · obtain ⟨a, rfl⟩ := key; exact .type (by simp [Json.type])
    · obtain ⟨l, hl, rfl⟩ := key
      refine .ref (s := _) rfl (.all fun s hs => ?_)
      simp only [List.mem_cons, List.not_mem_nil, or_false] at hs
      rcases hs with rfl | rfl
      · exact .type (by simp [Json.type])
      · refine .every fun l' hl' p hp => ?_
        cases hl'
        obtain ⟨e, he, rfl⟩ := List.mem_map.1 hp
        exact entry_valid (h.deb l hl e he) (h.thr l hl e he)
    · obtain ⟨l, rfl⟩ := key
      refine .ref (s := _) rfl (.all fun s hs => ?_)
      simp only [List.mem_cons, List.not_mem_nil, or_false] at hs
      rcases hs with rfl | rfl
      · exact .type (by simp [Json.type])
      · exact .every fun _ _ _ _ => .anything
    · obtain ⟨n, hn, rfl⟩ := key; exact h.imp n hn
  · refine .required ?_
    intro l hl k hk
    cases hl
    simp at hk
    subst hk
    exact ⟨.str sh.tag, by simp [Shell.members]⟩
  · refine .dependent ?_
    intro l v hl hv
    cases hl
    have key := hcases _ v hv
    simp at key
    obtain ⟨e, he, rfl⟩ := key
    refine .properties ?_
    intro l' hl' p hp v' hv'
    cases hl'
    simp at hp
    subst hp
    have key := hcases _ v' hv'
    simp at key
    subst key
    refine .maxLength fun s hs => ?_
    cases hs
    rw [h.err e he]; simp

theorem orString_text (s : String) : Valid vdomDefs (.ref "elementOrString") (.str s) := by
  refine .ref (s := _) rfl (.all fun s hs => ?_)
  simp only [List.mem_cons, List.not_mem_nil, or_false] at hs
  rcases hs with rfl | rfl
  · exact .type (by simp [Json.type])
  · exact .ifType fun h => by simp [Json.type] at h

theorem orString_obj {l : List (String × Json)} (h : Valid vdomDefs (.ref "element") (.obj l)) :
    Valid vdomDefs (.ref "elementOrString") (.obj l) := by
  refine .ref (s := _) rfl (.all fun s hs => ?_)
  simp only [List.mem_cons, List.not_mem_nil, or_false] at hs
  rcases hs with rfl | rfl
  · exact .type (by simp [Json.type])
  · exact .ifType fun _ => h

/-- The rendered state may be shown as a child. -/
def KidOk (O : Opaque) (n : Node) : Prop := Valid vdomDefs (.ref "elementOrString") (n.view.json O)

theorem mem_viewL {v : VJson} {ns : List Node} : v ∈ viewL ns ↔ ∃ n ∈ ns, v = n.view := by
  induction ns with
  | nil => simp [viewL]
  | cons n ns ih => simp [viewL, ih]

theorem kids_valid {O : Opaque} {ks : List Node} (h : ∀ n ∈ ks, KidOk O n) :
    ∀ j ∈ jsonL O (viewL ks), Valid vdomDefs (.ref "elementOrString") j := by
  intro j hj
  obtain ⟨v, hv, rfl⟩ := mem_jsonL.1 hj
  obtain ⟨n, hn, rfl⟩ := mem_viewL.1 hv
  exact h n hn

def CallOk (O : Opaque) : Call → Prop
  | .comp _ _ _ _ => True
  | .model _ _ _ i cs => (Raw.elem i cs).Conforms O
  | .kids _ _ _ _ raws => conformsL O raws
  | .loop _ _ _ _ _ infos => ∀ p ∈ infos, p.1.Conforms O
  | .child _ _ _ raw => raw.Conforms O

/-- The state of a component is an object that satisfies the schema. -/
def CompOk (O : Opaque) : Call → Node → Prop
  | .comp _ _ _ _, n => Valid vdomDefs vdomSchema (n.view.json O)
  | _, _ => True

theorem err_valid (O : Opaque) (e : String) : Valid vdomDefs (.ref "element") (.obj ((errShell e).members O)) := by
  have := elem_valid (O := O) (sh := errShell e) (ks := [])
    ⟨by simp [errShell], by simp [errShell], by simp [errShell], by simp [errShell]⟩ (.inl rfl)
  rwa [List.append_nil] at this

theorem run_valid {O : Opaque} (hU : ∀ id c seen raw, Returned U id c seen raw → raw.Conforms O) {call} {s s' : St U} {r}
    (h : Run call s s' r) (hc : CallOk O call) : ∀ ns, r = .ok ns → ∀ n ∈ ns, KidOk O n ∧ CompOk O call n := by
  induction h with
  | compUnm hp => simp
  | compRaise hp hb =>
    intro ns hns n hn
    cases hns; simp at hn; subst hn
    exact ⟨orString_obj (err_valid O _), err_valid O _⟩
  | @compOk top old pos c s s1 id ks s2 raw s3 kids hp hb hk ih =>
    intro ns hns n hn
    cases hns; simp at hn; subst hn
    have hr := hU _ _ _ _ ((runBody_hand hb).2.2.1 raw rfl)
    have hk := ih (by simp [CallOk, conformsL, hr]) kids rfl
    have : Valid vdomDefs (.ref "element") (.obj (fragShell.members O ++ [("children", .arr (jsonL O (viewL kids)))])) :=
      elem_valid ⟨by simp [fragShell], by simp [fragShell], by simp [fragShell], by simp [fragShell]⟩
        (.inr ⟨_, rfl, kids_valid fun n hn => (hk n hn).1⟩)
    exact ⟨orString_obj this, this⟩
  | compErr hp hb hk ih =>
    intro ns hns n hn
    cases hns; simp at hn; subst hn
    exact ⟨orString_obj (err_valid O _), err_valid O _⟩
  | modelPrep hp => simp
  | @modelOk top old pos i cs s s1 tag ks s2 kids hp hk ih =>
    intro ns hns n hn
    cases hns; simp at hn; subst hn
    simp only [CallOk, Raw.Conforms] at hc
    have hk := ih hc.2.2 kids rfl
    have hsh : ShellOk O (mkShell pos.kpath i tag s1.seqs) := by
      have hes : ∀ l, (mkShell pos.kpath i tag s1.seqs).handlers = some l → ∀ e ∈ l, ∃ p ∈ i.handlers, e.debounce = p.2.debounce ∧ e.throttle = p.2.throttle := by
        intro l hl e he
        simp only [mkShell] at hl
        split at hl
        · cases hl
        · cases hl
          obtain ⟨p, hp, rfl⟩ := List.mem_map.1 he
          exact ⟨p, hp, rfl, rfl⟩
      refine ⟨by simp [mkShell], ?_, ?_, fun n hn => hc.2.1 n (by simpa [mkShell] using hn)⟩
      · intro l hl e he n hn
        obtain ⟨p, hp, h1, _⟩ := hes l hl e he
        exact (hc.1 p hp).1 n (by rw [← h1, hn])
      · intro l hl e he n hn
        obtain ⟨p, hp, _, h1⟩ := hes l hl e he
        exact (hc.1 p hp).2 n (by rw [← h1, hn])
    refine ⟨?_, trivial⟩
    unfold KidOk
    split
    · simp only [Node.view, VJson.json]
      have := elem_valid hsh (ks := []) (.inl rfl)
      rw [List.append_nil] at this
      exact orString_obj this
    · simp only [Node.view, VJson.json]
      exact orString_obj (elem_valid hsh (.inr ⟨_, rfl, kids_valid fun n hn => (hk n hn).1⟩))
  | modelErr hp hk ih => simp
  | kidsDup _ => simp
  | kidsUnm _ hu => simp
  | kidsLoop _ hu _ ih =>
    intro ns hns n hn
    have := ih (fun p hp => conformsL_iff.1 hc _ (childrenInfo_mem hp).1) ns hns n hn
    exact ⟨this.1, trivial⟩
  | loopNil => intro ns hns; cases hns; simp
  | loopFirst _ ih => simp
  | loopRest _ _ ih1 ih2 => simp
  | loopOk _ _ ih1 ih2 =>
    intro ns hns n hn
    cases hns
    simp only [CallOk, List.forall_mem_cons] at hc
    rcases List.mem_append.1 hn with hn | hn
    · exact ⟨(ih1 hc.1 _ rfl n hn).1, trivial⟩
    · exact ⟨(ih2 hc.2 _ rfl n hn).1, trivial⟩
  | childElem _ ih =>
    intro ns hns n hn
    exact ⟨(ih hc ns hns n hn).1, trivial⟩
  | childComp _ ih =>
    intro ns hns n hn
    exact ⟨(ih trivial ns hns n hn).1, trivial⟩
  | childText => intro ns hns; cases hns; simp [CompOk, KidOk, Node.view, VJson.json, orString_text]
  | childTextOld hu => intro ns hns; cases hns; simp [CompOk, KidOk, Node.view, VJson.json, orString_text]
  | childTextErr hu => simp
  | childNone => simp

theorem renderAt_valid {O : Opaque} (hU : ∀ id c seen raw, Returned U id c seen raw → raw.Conforms O) {fuel old new} {s s' : St U}
    (h : renderAt fuel old s = some (s', new)) : Valid vdomDefs vdomSchema (new.view.json O) := by
  obtain ⟨p, id', c, e, ks, e', ks', s1, rfl, rfl, rfl, hrun⟩ := renderAt_run h
  exact (run_valid hU hrun trivial _ rfl _ (by simp)).2

end Verif.Layout
