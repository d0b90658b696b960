import Verif.Layout.Model
/-!
# Big-step relation equivalent to terminating runs of the renderer

A proof tool only: `Run call s s' r` holds when the renderer function named by `call`, started in
`s`, returns (with some fuel) `(s', r)`.  Every property of the renderer is proved by induction on
`Run` and transferred with `run_component`.
-/
namespace Verif.Layout
variable {U : User}

inductive Call where
  | comp (top : Option Nat) (old : Option Node) (pos : Pos) (c : Comp)
  | model (top : Option Nat) (old : Option Node) (pos : Pos) (i : ElemInfo) (cs : List Raw)
  | kids (top : Option Nat) (old : List Node) (path : List Nat) (kpath : List Key) (raws : List Raw)
  | loop (top : Option Nat) (old : List Node) (path : List Nat) (kpath : List Key) (idx : Nat)
      (infos : List (Raw × Key))
  | child (top : Option Nat) (old : Option Node) (pos : Pos) (raw : Raw)

def othersOf (old : List Node) (key : Key) : List Node :=
  old.filter (fun k => !decide (k.key? = some key))

def kidPos (path : List Nat) (kpath : List Key) (idx : Nat) (key : Key) : Pos :=
  { key := some key, path := path ++ [idx], kpath := kpath ++ [key] }

inductive Run : Call → St U → St U → Res → Prop
  | compUnm {top old pos c s s1 rest} :
      prepareComp old c s = (s1, .error rest) →
      Run (.comp top old pos c) s s1 (.err "KeyError" rest)
  | compRaise {top old pos c s s1 id ks s2 e} :
      prepareComp old c s = (s1, .ok (id, ks)) →
      runBody (enterComp s1 top id) id c = (s2, .error e) →
      Run (.comp top old pos c) s
        { s2 with orphans := s2.orphans ++ compRoots ks
                  log := .rendered id c ((enterComp s1 top id).ctx id) (.error e) :: s2.log }
        (.ok [.comp pos id c (some (errText U e)) []])
  | compOk {top old pos c s s1 id ks s2 raw s3 kids} :
      prepareComp old c s = (s1, .ok (id, ks)) →
      runBody (enterComp s1 top id) id c = (s2, .ok raw) →
      Run (.kids (some id) ks pos.path pos.kpath [raw]) s2 s3 (.ok kids) →
      Run (.comp top old pos c) s
        { s3 with log := .rendered id c ((enterComp s1 top id).ctx id) (.ok raw) :: s3.log }
        (.ok [.comp pos id c none kids])
  | compErr {top old pos c s s1 id ks s2 raw s3 e lost} :
      prepareComp old c s = (s1, .ok (id, ks)) →
      runBody (enterComp s1 top id) id c = (s2, .ok raw) →
      Run (.kids (some id) ks pos.path pos.kpath [raw]) s2 s3 (.err e lost) →
      Run (.comp top old pos c) s
        { s3 with orphans := s3.orphans ++ compRoots lost
                  log := .rendered id c ((enterComp s1 top id).ctx id) (.error e) :: s3.log }
        (.ok [.comp pos id c (some (errText U e)) []])
  | modelPrep {top old pos i cs s s1 e lost} :
      prepareModel old i s = (s1, .error (e, lost)) →
      Run (.model top old pos i cs) s s1 (.err e lost)
  | modelOk {top old pos i cs s s1 tag ks s2 kids} :
      prepareModel old i s = (s1, .ok (tag, ks)) →
      Run (.kids top ks pos.path pos.kpath cs)
        { s1 with handlers := addHandlers pos.kpath i.handlers s1.handlers } s2 (.ok kids) →
      Run (.model top old pos i cs) s s2
        (.ok [.elem pos (mkShell pos.kpath i tag s1.seqs) (mkTargets pos.kpath i)
          (if cs.isEmpty then none else some kids)])
  | modelErr {top old pos i cs s s1 tag ks s2 e lost} :
      prepareModel old i s = (s1, .ok (tag, ks)) →
      Run (.kids top ks pos.path pos.kpath cs)
        { s1 with handlers := addHandlers pos.kpath i.handlers s1.handlers } s2 (.err e lost) →
      Run (.model top old pos i cs) s s2 (.err e lost)
  | kidsDup {top old path kpath raws s} :
      hasDupKeys (childrenInfo 0 raws) = true →
      Run (.kids top old path kpath raws) s s (.err "ValueError" old)
  | kidsUnm {top old path kpath raws s s1 r rest} :
      hasDupKeys (childrenInfo 0 raws) = false →
      unmountAll (removedKids old (childrenInfo 0 raws)) s = (s1, r :: rest) →
      Run (.kids top old path kpath raws) s s1
        (.err "KeyError" (r :: rest ++ keptKids old (childrenInfo 0 raws)))
  | kidsLoop {top old path kpath raws s s1 s2 r} :
      hasDupKeys (childrenInfo 0 raws) = false →
      unmountAll (removedKids old (childrenInfo 0 raws)) s = (s1, []) →
      Run (.loop top (keptKids old (childrenInfo 0 raws)) path kpath 0 (childrenInfo 0 raws)) s1 s2 r →
      Run (.kids top old path kpath raws) s s2 r
  | loopNil {top old path kpath idx s} : Run (.loop top old path kpath idx []) s s (.ok [])
  | loopFirst {top old path kpath idx raw key infos s s1 e lost} :
      Run (.child top (lookupKid old key) (kidPos path kpath idx key) raw) s s1 (.err e lost) →
      Run (.loop top old path kpath idx ((raw, key) :: infos)) s s1 (.err e (lost ++ othersOf old key))
  | loopRest {top old path kpath idx raw key infos s s1 new s2 e lost} :
      Run (.child top (lookupKid old key) (kidPos path kpath idx key) raw) s s1 (.ok new) →
      Run (.loop top (othersOf old key) path kpath (idx + 1) infos) s1 s2 (.err e lost) →
      Run (.loop top old path kpath idx ((raw, key) :: infos)) s s2 (.err e (new ++ lost))
  | loopOk {top old path kpath idx raw key infos s s1 new s2 news} :
      Run (.child top (lookupKid old key) (kidPos path kpath idx key) raw) s s1 (.ok new) →
      Run (.loop top (othersOf old key) path kpath (idx + 1) infos) s1 s2 (.ok news) →
      Run (.loop top old path kpath idx ((raw, key) :: infos)) s s2 (.ok (new ++ news))
  | childElem {top old pos i cs s s1 r} :
      Run (.model top old pos i cs) s s1 r → Run (.child top old pos (.elem i cs)) s s1 r
  | childComp {top old pos c s s1 r} :
      Run (.comp top old pos c) s s1 r → Run (.child top old pos (.comp c)) s s1 r
  | childText {top pos t s} : Run (.child top none pos (.text t)) s s (.ok [.text t])
  | childTextOld {top o pos t s s1} :
      unmountAll [o] s = (s1, []) → Run (.child top (some o) pos (.text t)) s s1 (.ok [.text t])
  | childTextErr {top o pos t s s1 r rest} :
      unmountAll [o] s = (s1, r :: rest) →
      Run (.child top (some o) pos (.text t)) s s1 (.err "KeyError" (r :: rest))
  | childNone {top old pos s} : Run (.child top old pos .none) s s (.err "unreachable" old.toList)

/-- As `Run`; output that is rejected meets `Q`. -/
inductive RunQ (Q : Raw → String → Prop) : Call → St U → St U → Res → Prop
  | compUnm {top old pos c s s1 rest} :
      prepareComp old c s = (s1, .error rest) →
      RunQ Q (.comp top old pos c) s s1 (.err "KeyError" rest)
  | compRaise {top old pos c s s1 id ks s2 e} :
      prepareComp old c s = (s1, .ok (id, ks)) →
      runBody (enterComp s1 top id) id c = (s2, .error e) →
      RunQ Q (.comp top old pos c) s
        { s2 with orphans := s2.orphans ++ compRoots ks
                  log := .rendered id c ((enterComp s1 top id).ctx id) (.error e) :: s2.log }
        (.ok [.comp pos id c (some (errText U e)) []])
  | compOk {top old pos c s s1 id ks s2 raw s3 kids} :
      prepareComp old c s = (s1, .ok (id, ks)) →
      runBody (enterComp s1 top id) id c = (s2, .ok raw) →
      RunQ Q (.kids (some id) ks pos.path pos.kpath [raw]) s2 s3 (.ok kids) →
      RunQ Q (.comp top old pos c) s
        { s3 with log := .rendered id c ((enterComp s1 top id).ctx id) (.ok raw) :: s3.log }
        (.ok [.comp pos id c none kids])
  | compErr {top old pos c s s1 id ks s2 raw s3 e lost} :
      prepareComp old c s = (s1, .ok (id, ks)) →
      runBody (enterComp s1 top id) id c = (s2, .ok raw) →
      RunQ Q (.kids (some id) ks pos.path pos.kpath [raw]) s2 s3 (.err e lost) → Q raw e →
      RunQ Q (.comp top old pos c) s
        { s3 with orphans := s3.orphans ++ compRoots lost
                  log := .rendered id c ((enterComp s1 top id).ctx id) (.error e) :: s3.log }
        (.ok [.comp pos id c (some (errText U e)) []])
  | modelPrep {top old pos i cs s s1 e lost} :
      prepareModel old i s = (s1, .error (e, lost)) →
      RunQ Q (.model top old pos i cs) s s1 (.err e lost)
  | modelOk {top old pos i cs s s1 tag ks s2 kids} :
      prepareModel old i s = (s1, .ok (tag, ks)) →
      RunQ Q (.kids top ks pos.path pos.kpath cs)
        { s1 with handlers := addHandlers pos.kpath i.handlers s1.handlers } s2 (.ok kids) →
      RunQ Q (.model top old pos i cs) s s2
        (.ok [.elem pos (mkShell pos.kpath i tag s1.seqs) (mkTargets pos.kpath i)
          (if cs.isEmpty then none else some kids)])
  | modelErr {top old pos i cs s s1 tag ks s2 e lost} :
      prepareModel old i s = (s1, .ok (tag, ks)) →
      RunQ Q (.kids top ks pos.path pos.kpath cs)
        { s1 with handlers := addHandlers pos.kpath i.handlers s1.handlers } s2 (.err e lost) →
      RunQ Q (.model top old pos i cs) s s2 (.err e lost)
  | kidsDup {top old path kpath raws s} :
      hasDupKeys (childrenInfo 0 raws) = true →
      RunQ Q (.kids top old path kpath raws) s s (.err "ValueError" old)
  | kidsUnm {top old path kpath raws s s1 r rest} :
      hasDupKeys (childrenInfo 0 raws) = false →
      unmountAll (removedKids old (childrenInfo 0 raws)) s = (s1, r :: rest) →
      RunQ Q (.kids top old path kpath raws) s s1
        (.err "KeyError" (r :: rest ++ keptKids old (childrenInfo 0 raws)))
  | kidsLoop {top old path kpath raws s s1 s2 r} :
      hasDupKeys (childrenInfo 0 raws) = false →
      unmountAll (removedKids old (childrenInfo 0 raws)) s = (s1, []) →
      RunQ Q (.loop top (keptKids old (childrenInfo 0 raws)) path kpath 0 (childrenInfo 0 raws)) s1 s2 r →
      RunQ Q (.kids top old path kpath raws) s s2 r
  | loopNil {top old path kpath idx s} : RunQ Q (.loop top old path kpath idx []) s s (.ok [])
  | loopFirst {top old path kpath idx raw key infos s s1 e lost} :
      RunQ Q (.child top (lookupKid old key) (kidPos path kpath idx key) raw) s s1 (.err e lost) →
      RunQ Q (.loop top old path kpath idx ((raw, key) :: infos)) s s1 (.err e (lost ++ othersOf old key))
  | loopRest {top old path kpath idx raw key infos s s1 new s2 e lost} :
      RunQ Q (.child top (lookupKid old key) (kidPos path kpath idx key) raw) s s1 (.ok new) →
      RunQ Q (.loop top (othersOf old key) path kpath (idx + 1) infos) s1 s2 (.err e lost) →
      RunQ Q (.loop top old path kpath idx ((raw, key) :: infos)) s s2 (.err e (new ++ lost))
  | loopOk {top old path kpath idx raw key infos s s1 new s2 news} :
      RunQ Q (.child top (lookupKid old key) (kidPos path kpath idx key) raw) s s1 (.ok new) →
      RunQ Q (.loop top (othersOf old key) path kpath (idx + 1) infos) s1 s2 (.ok news) →
      RunQ Q (.loop top old path kpath idx ((raw, key) :: infos)) s s2 (.ok (new ++ news))
  | childElem {top old pos i cs s s1 r} :
      RunQ Q (.model top old pos i cs) s s1 r → RunQ Q (.child top old pos (.elem i cs)) s s1 r
  | childComp {top old pos c s s1 r} :
      RunQ Q (.comp top old pos c) s s1 r → RunQ Q (.child top old pos (.comp c)) s s1 r
  | childText {top pos t s} : RunQ Q (.child top none pos (.text t)) s s (.ok [.text t])
  | childTextOld {top o pos t s s1} :
      unmountAll [o] s = (s1, []) → RunQ Q (.child top (some o) pos (.text t)) s s1 (.ok [.text t])
  | childTextErr {top o pos t s s1 r rest} :
      unmountAll [o] s = (s1, r :: rest) →
      RunQ Q (.child top (some o) pos (.text t)) s s1 (.err "KeyError" (r :: rest))
  | childNone {top old pos s} : RunQ Q (.child top old pos .none) s s (.err "unreachable" old.toList)

theorem RunQ.mono {Q Q' : Raw → String → Prop} (hQ : ∀ raw e, Q raw e → Q' raw e) {call} {s s' : St U} {r} (h : RunQ Q call s s' r) : RunQ Q' call s s' r := by
  induction h with
  | compUnm a0 => exact .compUnm a0
  | compRaise a0 a1 => exact .compRaise a0 a1
  | compOk a0 a1 a2 i0 => exact .compOk a0 a1 i0
  | compErr a0 a1 a2 hq i0 => exact .compErr a0 a1 i0 (hQ _ _ hq)
  | modelPrep a0 => exact .modelPrep a0
  | modelOk a0 a1 i0 => exact .modelOk a0 i0
  | modelErr a0 a1 i0 => exact .modelErr a0 i0
  | kidsDup a0 => exact .kidsDup a0
  | kidsUnm a0 a1 => exact .kidsUnm a0 a1
  | kidsLoop a0 a1 a2 i0 => exact .kidsLoop a0 a1 i0
  | loopNil => exact .loopNil 
  | loopFirst a0 i0 => exact .loopFirst i0
  | loopRest a0 a1 i0 i1 => exact .loopRest i0 i1
  | loopOk a0 a1 i0 i1 => exact .loopOk i0 i1
  | childElem a0 i0 => exact .childElem i0
  | childComp a0 i0 => exact .childComp i0
  | childText => exact .childText 
  | childTextOld a0 => exact .childTextOld a0
  | childTextErr a0 => exact .childTextErr a0
  | childNone => exact .childNone 

theorem Run.any {call} {s s' : St U} {r} (h : Run call s s' r) : RunQ (fun _ _ => True) call s s' r := by
  induction h with
  | compUnm a0 => exact .compUnm a0
  | compRaise a0 a1 => exact .compRaise a0 a1
  | compOk a0 a1 a2 i0 => exact .compOk a0 a1 i0
  | compErr a0 a1 a2 i0 => exact .compErr a0 a1 i0 trivial
  | modelPrep a0 => exact .modelPrep a0
  | modelOk a0 a1 i0 => exact .modelOk a0 i0
  | modelErr a0 a1 i0 => exact .modelErr a0 i0
  | kidsDup a0 => exact .kidsDup a0
  | kidsUnm a0 a1 => exact .kidsUnm a0 a1
  | kidsLoop a0 a1 a2 i0 => exact .kidsLoop a0 a1 i0
  | loopNil => exact .loopNil 
  | loopFirst a0 i0 => exact .loopFirst i0
  | loopRest a0 a1 i0 i1 => exact .loopRest i0 i1
  | loopOk a0 a1 i0 i1 => exact .loopOk i0 i1
  | childElem a0 i0 => exact .childElem i0
  | childComp a0 i0 => exact .childComp i0
  | childText => exact .childText 
  | childTextOld a0 => exact .childTextOld a0
  | childTextErr a0 => exact .childTextErr a0
  | childNone => exact .childNone 

def evalCall (n : Nat) (call : Call) (s : St U) : St U × Res :=
  match call with
  | .comp top old pos c => renderComponent n top old pos c s
  | .model top old pos i cs => renderModel n top old pos i cs s
  | .kids top old path kpath raws => renderChildren n top old path kpath raws s
  | .loop top old path kpath idx infos => renderLoop n top old path kpath idx infos s
  | .child top old pos raw => renderChild n top old pos raw s

theorem run_of_eval (n : Nat) : ∀ (call : Call) (s s' : St U) (r : Res),
    evalCall n call s = (s', r) → r ≠ .diverge → Run call s s' r := by
  induction n with
  | zero =>
    intro call s s' r h hr
    cases call <;> simp [evalCall, renderComponent, renderModel, renderChildren, renderLoop,
      renderChild] at h <;> exact absurd h.2.symm hr
  | succ n ih =>
    have ihC := fun top old pos c => ih (.comp top old pos c)
    have ihM := fun top old pos i cs => ih (.model top old pos i cs)
    have ihK := fun top old path kpath raws => ih (.kids top old path kpath raws)
    have ihL := fun top old path kpath idx infos => ih (.loop top old path kpath idx infos)
    have ihH := fun top old pos raw => ih (.child top old pos raw)
    simp only [evalCall] at ihC ihM ihK ihL ihH
    intro call s s' r h hr
    cases call with
    | comp top old pos c =>
      simp only [evalCall, renderComponent] at h
      rcases hp : prepareComp old c s with ⟨s1, rest | ⟨id, ks⟩⟩
      · rw [hp] at h; simp only at h; cases h; exact .compUnm hp
      · rw [hp] at h; simp only at h
        rcases hb : runBody (enterComp s1 top id) id c with ⟨s2, e | raw⟩
        · rw [hb] at h; simp only at h; cases h; exact .compRaise hp hb
        · rw [hb] at h; simp only at h
          rcases hk : renderChildren n (some id) ks pos.path pos.kpath [raw] s2 with ⟨s3, kids | ⟨e, lost⟩ | _⟩
          · rw [hk] at h; cases h
            exact .compOk hp hb (ihK _ _ _ _ _ _ _ _ hk (by simp))
          · rw [hk] at h; cases h
            exact .compErr hp hb (ihK _ _ _ _ _ _ _ _ hk (by simp))
          · rw [hk] at h; cases h; exact absurd rfl hr
    | model top old pos i cs =>
      simp only [evalCall, renderModel] at h
      rcases hp : prepareModel old i s with ⟨s1, ⟨e, lost⟩ | ⟨tag, ks⟩⟩
      · rw [hp] at h; simp only at h; cases h; exact .modelPrep hp
      · rw [hp] at h; simp only at h
        rcases hk : renderChildren n top ks pos.path pos.kpath cs
            { s1 with handlers := addHandlers pos.kpath i.handlers s1.handlers } with ⟨s3, kids | ⟨e, lost⟩ | _⟩
        · rw [hk] at h; cases h
          exact .modelOk hp (ihK _ _ _ _ _ _ _ _ hk (by simp))
        · rw [hk] at h; cases h
          exact .modelErr hp (ihK _ _ _ _ _ _ _ _ hk (by simp))
        · rw [hk] at h; cases h; exact absurd rfl hr
    | kids top old path kpath raws =>
      simp only [evalCall, renderChildren] at h
      cases hd : hasDupKeys (childrenInfo 0 raws) with
      | true => simp only [hd, if_true] at h; cases h; exact .kidsDup hd
      | false =>
        simp only [hd, Bool.false_eq_true, if_false] at h
        rcases hu : unmountAll (removedKids old (childrenInfo 0 raws)) s with ⟨s1, _ | ⟨r0, rest⟩⟩
        · rw [hu] at h; exact .kidsLoop hd hu (ihL _ _ _ _ _ _ _ _ _ h hr)
        · rw [hu] at h; cases h; exact .kidsUnm hd hu
    | loop top old path kpath idx infos =>
      cases infos with
      | nil => simp only [evalCall, renderLoop] at h; cases h; exact .loopNil
      | cons p infos =>
        obtain ⟨raw, key⟩ := p
        simp only [evalCall, renderLoop] at h
        rcases hc : renderChild n top (lookupKid old key)
          { key := some key, path := path ++ [idx], kpath := kpath ++ [key] } raw s with ⟨s1, new | ⟨e, lost⟩ | _⟩
        · rw [hc] at h; simp only at h
          have h1 := ihH _ _ _ _ _ _ _ hc (by simp)
          rcases hl : renderLoop n top (old.filter (fun k => !decide (k.key? = some key))) path kpath (idx + 1) infos s1 with ⟨s2, news | ⟨e, lost⟩ | _⟩
          · rw [hl] at h; cases h
            exact .loopOk h1 (ihL _ _ _ _ _ _ _ _ _ hl (by simp))
          · rw [hl] at h; cases h
            exact .loopRest h1 (ihL _ _ _ _ _ _ _ _ _ hl (by simp))
          · rw [hl] at h; cases h; exact absurd rfl hr
        · rw [hc] at h; cases h
          exact .loopFirst (ihH _ _ _ _ _ _ _ hc (by simp))
        · rw [hc] at h; cases h; exact absurd rfl hr
    | child top old pos raw =>
      cases raw with
      | none => simp only [evalCall, renderChild] at h; cases h; exact .childNone
      | elem i cs => simp only [evalCall, renderChild] at h; exact .childElem (ihM _ _ _ _ _ _ _ _ h hr)
      | comp c => simp only [evalCall, renderChild] at h; exact .childComp (ihC _ _ _ _ _ _ _ h hr)
      | text t =>
        simp only [evalCall, renderChild] at h
        cases old with
        | none => cases h; exact .childText
        | some o =>
          simp only at h
          rcases hu : unmountAll [o] s with ⟨s1, _ | ⟨r0, rest⟩⟩
          · rw [hu] at h; cases h; exact .childTextOld hu
          · rw [hu] at h; cases h; exact .childTextErr hu

theorem run_component {n top old pos c} {s s' : St U} {ns}
    (h : renderComponent n top old pos c s = (s', .ok ns)) : Run (.comp top old pos c) s s' (.ok ns) :=
  run_of_eval n (.comp top old pos c) s s' _ h (by simp)

end Verif.Layout
