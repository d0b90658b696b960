import Verif.Handlers.Lemmas
/-! # C32, C33: merging and inspecting event handlers -/
namespace Verif.Handlers

/-! ## C33 -/

theorem mem_of_get {d : List (String × Int)} {n : String} {v : Int} (h : get d n = some v) : (n, v) ∈ d := by
  simp only [get] at h
  have : ∀ l : List (String × Int), l.lookup n = some v → (n, v) ∈ l := by
    intro l
    induction l with
    | nil => simp
    | cons p l ih =>
      obtain ⟨k, x⟩ := p
      simp only [List.lookup_cons]
      by_cases hk : n = k
      · subst hk; simp; intro h; exact .inl h.symm
      · simp only [beq_eq_false_iff_ne.2 hk]; intro h; exact List.mem_cons_of_mem _ (ih h)
  exact List.mem_reverse.1 (this _ h)

theorem default_of_get {f : Fn} {x : String} {d : Int} (h : get (argDefaults f) x = some d) : DefaultOf f x d := by
  have := mem_of_get h
  simp only [argDefaults, List.mem_append, List.mem_filterMap] at this
  rcases this with ⟨⟨y, v⟩, hp, hv⟩ | ⟨⟨y, v⟩, hp, hv⟩
  · cases v with
    | none => simp at hv
    | some v =>
      simp at hv
      obtain ⟨rfl, rfl⟩ := hv
      obtain ⟨j, hj⟩ := List.getElem?_of_mem hp
      rw [List.getElem?_zip_eq_some] at hj
      exact .inl ⟨j, hj.2, by simpa using hj.1⟩
  · cases v with
    | none => simp at hv
    | some v => simp at hv; obtain ⟨rfl, rfl⟩ := hv; exact .inr hp

theorem captured_of_get {f : Fn} {x : String} {d : Int} (h : get (closureLookup f) x = some d) : Captured f x d := by
  have := mem_of_get h
  simp only [closureLookup, List.mem_filterMap] at this
  obtain ⟨⟨y, v⟩, hp, hv⟩ := this
  cases v with
  | none => simp at hv
  | some v =>
    simp at hv
    obtain ⟨rfl, rfl⟩ := hv
    obtain ⟨j, hj⟩ := List.getElem?_of_mem hp
    rw [List.getElem?_zip_eq_some] at hj
    exact ⟨j, hj.1, hj.2⟩

/-- C33, instructions: for every function, `preventDefault` (`stopPropagation`) is reported exactly when
the name occurs in the code and some load of the first parameter is directly followed by that attribute. -/
theorem C33_adjacent_partial (f : Fn) (ev : String) (ha : f.argcount ≠ 0) (hv : f.varnames[0]? = some ev) :
    ((inspect f).prevent = true ↔ "preventDefault" ∈ f.names ∧
      ∃ a i b, f.instrs = a ++ i :: .loadAttr "preventDefault" :: b ∧ isEventLoad ev i = true) ∧
    ((inspect f).stop = true ↔ "stopPropagation" ∈ f.names ∧
      ∃ a i b, f.instrs = a ++ i :: .loadAttr "stopPropagation" :: b ∧ isEventLoad ev i = true) := by
  obtain ⟨h1, h2, -⟩ := inspect_eq f ev ha hv
  rw [h1, h2]
  simp [occ_iff]

/-- C33, flags (partial: sources of the language of `Spec`, the event not captured by an inner function,
no superinstructions other than pairs of loads).  If no attribute is taken of a conditional expression,
`preventDefault` (`stopPropagation`) is reported exactly when the source contains `event.preventDefault`
(`event.stopPropagation`), anywhere, any number of times.
Missing: `C33_method_violated`, `C33_captured_violated`. -/
theorem C33_flags_partial (f : Fn) (ev : String) (src : Stmt) (hc : Compiled f ev src) (hp : src.Plain) :
    ((inspect f).prevent = true ↔ src.Accesses ev "preventDefault") ∧
    ((inspect f).stop = true ↔ src.Accesses ev "stopPropagation") := by
  obtain ⟨h1, h2, -⟩ := inspect_eq f ev hc.args hc.first
  have key : ∀ n, (f.names.contains n && occ ev n false f.instrs) = true ↔ src.Accesses ev n := by
    intro n
    have ho : occ ev n false f.instrs = src.acc ev n := by
      rw [occ_fused hc.code, ← List.append_nil src.code, occ_stmt]; simp [occ]
    rw [← stmt_acc_iff ev n src hp, ← ho]
    simp only [Bool.and_eq_true, List.contains_iff_mem]
    constructor
    · exact And.right
    · intro h
      refine ⟨?_, h⟩
      rcases (occ_iff ev n _ _).1 h with ⟨h, _⟩ | ⟨a, i, b, h, _⟩
      · cases h
      · exact hc.names n (.inl (by rw [h]; simp))
  rw [h1, h2]
  exact ⟨key _, key _⟩

/-- C33, flags: also with conditional expressions, what the source does is never missed. -/
theorem C33_flags_not_missed_partial (f : Fn) (ev : String) (src : Stmt) (hc : Compiled f ev src) :
    (src.Accesses ev "preventDefault" → (inspect f).prevent = true) ∧
    (src.Accesses ev "stopPropagation" → (inspect f).stop = true) := by
  obtain ⟨h1, h2, -⟩ := inspect_eq f ev hc.args hc.first
  have key : ∀ n, src.Accesses ev n → (f.names.contains n && occ ev n false f.instrs) = true := by
    intro n hn
    have ho : occ ev n false f.instrs = src.acc ev n := by
      rw [occ_fused hc.code, ← List.append_nil src.code, occ_stmt]; simp [occ]
    have h := stmt_acc_of_accesses ev n src hn
    rw [← ho] at h
    rw [h, Bool.and_true, List.contains_iff_mem]
    rcases (occ_iff ev n _ _).1 h with ⟨h, _⟩ | ⟨a, i, b, h, _⟩
    · cases h
    · exact hc.names n (.inl (by rw [h]; simp))
  rw [h1, h2]
  exact ⟨key _, key _⟩

/-- The debounce reported is what the first assignment resolves to. -/
theorem debounce_eq (f : Fn) (ev : String) (src : Stmt) (hc : Compiled f ev src) (hp : src.Plain) :
    (inspect f).debounce = match src.assignments ev with
      | [] => none
      | v :: _ => v.guess (argDefaults f) (closureLookup f) := by
  obtain ⟨-, -, h3⟩ := inspect_eq f ev hc.args hc.first
  have hf := first_stmt ev (argDefaults f) (closureLookup f) src hp [] []
  rw [List.append_nil] at hf
  rw [h3, firstStore_fused hc.code ev _ _ false [] [] .nil (by simp) (by have := okRun_stmt src []; simp [okRun] at this; exact this), hf]
  cases ha : src.assignments ev with
  | nil => simp [firstStore]
  | cons v r =>
    have : "debounce" ∈ f.names := by
      apply hc.names
      right
      apply hc.code.attr _ (by simp)
      have : ∀ s : Stmt, s.assignments ev ≠ [] → .storeAttr "debounce" ∈ s.code := by
        intro s
        induction s with
        | skip => simp [Stmt.assignments]
        | expr e => simp [Stmt.assignments]
        | assign x e => simp [Stmt.assignments]
        | setAttr o n v =>
          simp only [Stmt.assignments, Stmt.code]
          split
          · rename_i h; rw [h.2]; simp
          · simp
        | seq a b iha ihb =>
          simp only [Stmt.assignments, Stmt.code, List.append_eq_nil_iff, ne_eq, List.mem_append]
          intro h
          by_cases h' : a.assignments ev = []
          · exact .inr (ihb fun hb => h ⟨h', hb⟩)
          · exact .inl (iha h')
        | ite c a b iha ihb =>
          simp only [Stmt.assignments, Stmt.code, List.append_eq_nil_iff, ne_eq, List.mem_append]
          intro h
          by_cases h' : a.assignments ev = []
          · exact .inr (ihb fun hb => h ⟨h', hb⟩)
          · exact .inl (.inl (.inr (iha h')))
      exact this src (by rw [ha]; simp)
    simp [this]

/-- C33, an unresolvable value: if the first assignment to `event.debounce` in the source is an attribute, a call,
an operation, or a variable that is neither a parameter with an integer default nor a captured integer, no
debounce is reported, whatever is assigned after it. -/
theorem C33_first_unresolvable (f : Fn) (ev : String) (src : Stmt) (hc : Compiled f ev src) (hp : src.Plain)
    (v : Expr) (rest : List Expr) (ha : src.assignments ev = v :: rest)
    (hv : (∃ e n, v = .attr e n) ∨ (∃ e, v = .call e) ∨ (∃ a b, v = .add a b) ∨
      (∃ x, v = .var x ∧ ∀ d, ¬ DefaultOf f x d) ∨ (∃ x, v = .free x ∧ ∀ d, ¬ Captured f x d)) :
    (inspect f).debounce = none := by
  rw [debounce_eq f ev src hc hp, ha]
  rcases hv with ⟨e, n, rfl⟩ | ⟨e, rfl⟩ | ⟨a, b, rfl⟩ | ⟨x, rfl, hx⟩ | ⟨x, rfl, hx⟩
  · rfl
  · rfl
  · rfl
  · simp only [Expr.guess]
    cases hg : get (argDefaults f) x with
    | none => rfl
    | some d => exact absurd (default_of_get hg) (hx d)
  · simp only [Expr.guess]
    cases hg : get (closureLookup f) x with
    | none => rfl
    | some d => exact absurd (captured_of_get hg) (hx d)

/-- No assignment, no report. -/
theorem C33_no_assignment (f : Fn) (ev : String) (src : Stmt) (hc : Compiled f ev src) (hp : src.Plain)
    (ha : src.assignments ev = []) : (inspect f).debounce = none := by
  rw [debounce_eq f ev src hc hp, ha]

/-- C33, the reported value is the one assigned (partial: every assignment to `event.debounce` has the
same value expression, which is not conditional, and no parameter with an integer default is assigned).
In every execution — any results of calls and conditions — in which the parameters with integer defaults
have them and captured integers have not changed, every value assigned to `event.debounce` is the one
reported.  Missing: `C33_violated`, `C33_conditional_violated`, `C33_default_violated`. -/
theorem C33_no_guess_partial (f : Fn) (ev : String) (src : Stmt) (hc : Compiled f ev src) (hp : src.Plain)
    (v : Expr) (hall : ∀ v' ∈ src.assignments ev, v' = v) (hv : v.conditional = false)
    (hobj : ∀ o ∈ src.objects, o = .var ev)
    (hassigned : ∀ x ∈ src.assigned, ∀ d, ¬ DefaultOf f x d)
    (d : Int) (hd : (inspect f).debounce = some d)
    (oracle : Expr → Val) (free vars : String → Val)
    (hvars : ∀ x d, DefaultOf f x d → vars x = .int d) (hfree : ∀ x d, Captured f x d → free x = .int d) :
    ∀ x ∈ (src.exec oracle free vars).2, x = .int d := by
  rw [debounce_eq f ev src hc hp] at hd
  have hguess : src.assignments ev ≠ [] ∧ v.guess (argDefaults f) (closureLookup f) = some d := by
    cases ha : src.assignments ev with
    | nil => rw [ha] at hd; cases hd
    | cons w r => rw [ha] at hd; rw [← hall w (by rw [ha]; simp)]; exact ⟨by simp, hd⟩
  have heval : ∀ vars : String → Val, (∀ x d, DefaultOf f x d → vars x = .int d) → v.eval oracle free vars = .int d := by
    intro vars hvars
    have hg := hguess.2
    cases v with
    | const k => simp [Expr.guess] at hg; subst hg; rfl
    | var x => exact hvars x d (default_of_get hg)
    | free x => exact hfree x d (captured_of_get hg)
    | attr e n => simp [Expr.guess] at hg
    | call e => simp [Expr.guess] at hg
    | add a b => simp [Expr.guess] at hg
    | ifExp c a b => simp [Expr.conditional] at hv
    | orElse a b => simp [Expr.conditional] at hv
  have main : ∀ s : Stmt, (∀ v' ∈ s.assignments ev, v' = v) → (∀ o ∈ s.objects, o = .var ev) →
      (∀ x ∈ s.assigned, ∀ d, ¬ DefaultOf f x d) → ∀ vars : String → Val, (∀ x d, DefaultOf f x d → vars x = .int d) →
      (∀ x d, DefaultOf f x d → (s.exec oracle free vars).1 x = .int d) ∧ ∀ x ∈ (s.exec oracle free vars).2, x = .int d := by
    intro s
    induction s with
    | skip => intro _ _ _ vars hvars; exact ⟨hvars, by simp [Stmt.exec]⟩
    | expr e => intro _ _ _ vars hvars; exact ⟨hvars, by simp [Stmt.exec]⟩
    | assign y e =>
      intro _ _ h3 vars hvars
      refine ⟨?_, by simp [Stmt.exec]⟩
      intro x d hx
      have : x ≠ y := by rintro rfl; exact h3 x (by simp [Stmt.assigned]) d hx
      simp only [Stmt.exec, this, if_false]
      exact hvars x d hx
    | setAttr o n w =>
      intro h1 h2 _ vars hvars
      refine ⟨hvars, ?_⟩
      intro x hx
      simp only [Stmt.exec] at hx
      split at hx
      · rename_i h
        have ho : o = .var ev := h2 o (by simp [Stmt.objects, h.2])
        have hw : w = v := h1 w (by simp [Stmt.assignments, ho, h.2])
        simp at hx
        rw [hx, hw]; exact heval vars hvars
      · simp at hx
    | seq a b iha ihb =>
      intro h1 h2 h3 vars hvars
      obtain ⟨a1, a2⟩ := iha (fun v' h => h1 v' (by simp [Stmt.assignments, h])) (fun o h => h2 o (by simp [Stmt.objects, h]))
        (fun x h => h3 x (by simp [Stmt.assigned, h])) vars hvars
      obtain ⟨b1, b2⟩ := ihb (fun v' h => h1 v' (by simp [Stmt.assignments, h])) (fun o h => h2 o (by simp [Stmt.objects, h]))
        (fun x h => h3 x (by simp [Stmt.assigned, h])) _ a1
      refine ⟨b1, ?_⟩
      intro x hx
      simp only [Stmt.exec, List.mem_append] at hx
      exact hx.elim (a2 x) (b2 x)
    | ite c a b iha ihb =>
      intro h1 h2 h3 vars hvars
      simp only [Stmt.exec]
      split
      · exact iha (fun v' h => h1 v' (by simp [Stmt.assignments, h])) (fun o h => h2 o (by simp [Stmt.objects, h]))
          (fun x h => h3 x (by simp [Stmt.assigned, h])) vars hvars
      · exact ihb (fun v' h => h1 v' (by simp [Stmt.assignments, h])) (fun o h => h2 o (by simp [Stmt.objects, h]))
          (fun x h => h3 x (by simp [Stmt.assigned, h])) vars hvars
  exact (main src hall hobj hassigned vars hvars).2

theorem get_of_mem {d : List (String × Int)} {n : String} {v : Int} (h : (n, v) ∈ d) : ∃ w, get d n = some w := by
  simp only [get]
  have : ∀ l : List (String × Int), (n, v) ∈ l → ∃ w, l.lookup n = some w := by
    intro l
    induction l with
    | nil => simp
    | cons p l ih =>
      obtain ⟨k, x⟩ := p
      simp only [List.lookup_cons, List.mem_cons, Prod.mk.injEq]
      by_cases hk : n = k
      · subst hk; intro _; exact ⟨x, by simp⟩
      · simp only [beq_eq_false_iff_ne.2 hk, hk, false_and, false_or]; exact ih
  exact this _ (List.mem_reverse.2 h)

/-- C33, what can be resolved is reported: if the first assignment to `event.debounce` in the source is an integer
literal, a parameter with an integer default or a captured integer (each with one value), that is the debounce
reported. -/
theorem C33_reported (f : Fn) (ev : String) (src : Stmt) (hc : Compiled f ev src) (hp : src.Plain)
    (v : Expr) (rest : List Expr) (ha : src.assignments ev = v :: rest) (d : Int)
    (hv : v = .const d ∨ (∃ x, v = .var x ∧ DefaultOf f x d ∧ ∀ d', DefaultOf f x d' → d' = d) ∨
      (∃ x, v = .free x ∧ Captured f x d ∧ ∀ d', Captured f x d' → d' = d)) :
    (inspect f).debounce = some d := by
  rw [debounce_eq f ev src hc hp, ha]
  rcases hv with rfl | ⟨x, rfl, hx, hu⟩ | ⟨x, rfl, hx, hu⟩
  · rfl
  · simp only [Expr.guess]
    have hm : (x, d) ∈ argDefaults f := by
      simp only [argDefaults, List.mem_append, List.mem_filterMap]
      rcases hx with ⟨j, h1, h2⟩ | hx
      · refine .inl ⟨(x, some d), ?_, rfl⟩
        rw [List.mem_iff_getElem?]
        exact ⟨j, by simp [List.getElem?_zip_eq_some, List.getElem?_drop, h1, h2]⟩
      · exact .inr ⟨(x, some d), hx, rfl⟩
    obtain ⟨w, hw⟩ := get_of_mem hm
    rw [hw, hu w (default_of_get hw)]
  · simp only [Expr.guess]
    have hm : (x, d) ∈ closureLookup f := by
      simp only [closureLookup, List.mem_filterMap]
      obtain ⟨j, h1, h2⟩ := hx
      refine ⟨(x, some d), ?_, rfl⟩
      rw [List.mem_iff_getElem?]
      exact ⟨j, by simp [List.getElem?_zip_eq_some, h1, h2]⟩
    obtain ⟨w, hw⟩ := get_of_mem hm
    rw [hw, hu w (captured_of_get hw)]

/-- C33, the handler: a handler made from the function has the settings given, with `preventDefault`
(`stopPropagation`) also set if the source contains `event.preventDefault` (`event.stopPropagation`), and with the
debounce that is assigned in the source, if one is reported, else the one given. -/
theorem C33_handler_partial (f : Fn) (ev : String) (src : Stmt) (hc : Compiled f ev src) (hp : src.Plain)
    (func : Func) (s : Settings) (h : Handler) (hh : h = mkHandler func s (inspect f)) :
    h.func = func ∧
    (h.settings.prevent = true ↔ s.prevent = true ∨ src.Accesses ev "preventDefault") ∧
    (h.settings.stop = true ↔ s.stop = true ∨ src.Accesses ev "stopPropagation") ∧
    h.settings.target = s.target ∧ h.settings.throttle = s.throttle ∧
    (src.assignments ev = [] → h.settings.debounce = s.debounce) ∧
    (∀ d, (inspect f).debounce = some d → h.settings.debounce = some d) ∧
    ((inspect f).debounce = none → h.settings.debounce = s.debounce) := by
  subst hh
  obtain ⟨h1, h2⟩ := C33_flags_partial f ev src hc hp
  refine ⟨rfl, ?_, ?_, rfl, rfl, ?_, ?_, ?_⟩
  · rw [← h1]; simp only [mkHandler]
    cases (inspect f).prevent <;> simp
  · rw [← h2]; simp only [mkHandler]
    cases (inspect f).stop <;> simp
  · intro ha; simp only [mkHandler, C33_no_assignment f ev src hc hp ha]
  · intro d hd; simp only [mkHandler, hd]
  · intro hd; simp only [mkHandler, hd]

/-- `def h(event, ms=200): if g(): event.debounce = ms` — and prevents the default action. -/
def exSrc : Stmt :=
  .seq (.expr (.call (.attr (.var "event") "preventDefault")))
    (.ite (.call (.var "g")) (.setAttr (.var "event") "debounce" (.var "ms")) .skip)
def exFn : Fn :=
  { argcount := 2, names := ["preventDefault", "debounce"], varnames := ["event", "ms"], instrs := exSrc.code,
    defaults := [some 200] }
example : Compiled exFn "event" exSrc := by
  refine ⟨by decide, by decide, .refl _, ?_⟩
  intro n h
  simp [exFn, exSrc, Stmt.code, Expr.code] at h
  rcases h with rfl | rfl <;> simp [exFn]
/-- The same, with the two loads fused, as CPython 3.13 does. -/
def exFused : Fn :=
  { exFn with instrs := [.loadFast "event", .loadAttr "preventDefault", .other 0, .other 5, .loadFast "g", .other 0, .other 2,
      .loadPair "ms" "event", .storeAttr "debounce", .other 3] }
example : Compiled exFused "event" exSrc := by
  refine ⟨by decide, by decide, ?_, ?_⟩
  · exact .keep _ (.keep _ (.keep _ (.keep _ (.keep _ (.keep _ (.keep _ (.pair _ _ (.keep _ (.keep _ .nil)))))))))
  intro n h
  simp [exFused] at h
  rcases h with rfl | rfl <;> simp [exFused, exFn]
example : exSrc.assignments "event" = [.var "ms"] ∧ DefaultOf exFused "ms" 200 ∧ ∀ d, DefaultOf exFused "ms" d → d = 200 := by
  refine ⟨rfl, .inl ⟨0, rfl, rfl⟩, ?_⟩
  rintro d (⟨j, h1, h2⟩ | h)
  · simp [exFused, exFn, List.getElem?_cons] at h1; exact h1.2.symm
  · simp [exFused, exFn] at h
example : inspect exFn = { prevent := true, stop := false, debounce := some 200 } := by decide +kernel
example : exSrc.Plain ∧ (∀ v' ∈ exSrc.assignments "event", v' = .var "ms") ∧ ∀ o ∈ exSrc.objects, o = .var "event" := by
  refine ⟨?_, ?_, ?_⟩ <;> simp [exSrc, Stmt.Plain, Expr.Plain, Expr.conditional, Stmt.assignments, Stmt.objects]

/-- C33 fails: once one assignment has been resolved, later ones are not looked at, so a debounce is
reported although another assignment has an unresolvable value.
`def h(event): event.debounce = 200; event.debounce = g()` reports 200. -/
theorem C33_violated : ∃ (f : Fn) (src : Stmt), Compiled f "event" src ∧ src.Plain ∧
    .call (.var "g") ∈ src.assignments "event" ∧ (inspect f).debounce = some 200 ∧
    ∀ oracle free vars, vars "event" = .event →
      (src.exec oracle free vars).2 = [.int 200, oracle (.call (.var "g"))] := by
  refine ⟨{ argcount := 1, names := ["debounce"], varnames := ["event"],
            instrs := (Stmt.seq (.setAttr (.var "event") "debounce" (.const 200)) (.setAttr (.var "event") "debounce" (.call (.var "g")))).code },
    .seq (.setAttr (.var "event") "debounce" (.const 200)) (.setAttr (.var "event") "debounce" (.call (.var "g"))),
    ⟨by decide, rfl, .refl _, ?_⟩, ?_, ?_, by decide +kernel, ?_⟩
  · intro n h; simp [Stmt.code, Expr.code] at h; simp [h]
  · simp [Stmt.Plain, Expr.Plain, Expr.conditional]
  · simp [Stmt.assignments]
  · intro oracle free vars h
    simp [Stmt.exec, Expr.eval, h]

/-- C33 fails for conditional values: only the last operand is looked at.
`def h(event): event.debounce = g() or 200` reports 200 whatever `g()` returns. -/
theorem C33_conditional_violated : ∃ (f : Fn) (src : Stmt), Compiled f "event" src ∧ src.Plain ∧
    (inspect f).debounce = some 200 ∧
    ∀ oracle free vars, vars "event" = .event → (oracle (.call (.var "g"))) = .int 50 →
      (src.exec oracle free vars).2 = [.int 50] := by
  refine ⟨{ argcount := 1, names := ["debounce"], varnames := ["event"],
            instrs := (Stmt.setAttr (.var "event") "debounce" (.orElse (.call (.var "g")) (.const 200))).code },
    .setAttr (.var "event") "debounce" (.orElse (.call (.var "g")) (.const 200)),
    ⟨by decide, rfl, .refl _, ?_⟩, ?_, by decide +kernel, ?_⟩
  · intro n h; simp [Stmt.code, Expr.code] at h; simp [h]
  · simp [Stmt.Plain, Expr.Plain, Expr.conditional]
  · intro oracle free vars h h'
    simp [Stmt.exec, Expr.eval, h, h', Val.truthy]

/-- C33 fails for a parameter that has been assigned: its default is reported.
`def h(event, ms=200): ms = 300; event.debounce = ms` reports 200. -/
theorem C33_default_violated : ∃ (f : Fn) (src : Stmt), Compiled f "event" src ∧ src.Plain ∧
    (inspect f).debounce = some 200 ∧
    ∀ oracle free vars, vars "event" = .event → (src.exec oracle free vars).2 = [.int 300] := by
  refine ⟨{ argcount := 2, names := ["debounce"], varnames := ["event", "ms"], defaults := [some 200],
            instrs := (Stmt.seq (.assign "ms" (.const 300)) (.setAttr (.var "event") "debounce" (.var "ms"))).code },
    .seq (.assign "ms" (.const 300)) (.setAttr (.var "event") "debounce" (.var "ms")),
    ⟨by decide, rfl, .refl _, ?_⟩, ?_, by decide +kernel, ?_⟩
  · intro n h; simp [Stmt.code, Expr.code] at h; simp [h]
  · simp [Stmt.Plain, Expr.Plain, Expr.conditional]
  · intro oracle free vars h
    simp [Stmt.exec, Expr.eval, h]

/-- C33 fails for methods: the first parameter is `self`, the event is the second, and what is done with it
is not seen.  `def on_click(self, event): event.preventDefault()`, given as a bound method. -/
theorem C33_method_violated : ∃ (f : Fn) (src : Stmt), f.varnames = ["self", "event"] ∧ f.argcount = 2 ∧ f.instrs = src.code ∧
    src.Accesses "event" "preventDefault" ∧ (inspect f).prevent = false :=
  ⟨{ argcount := 2, names := ["preventDefault"], varnames := ["self", "event"],
     instrs := (Stmt.expr (.call (.attr (.var "event") "preventDefault"))).code },
   .expr (.call (.attr (.var "event") "preventDefault")), rfl, rfl, rfl, .inl ⟨rfl, rfl⟩, by decide +kernel⟩

/-- C33 fails when an inner function captures the event: it is then loaded with `LOAD_DEREF`, which the
inspection does not take for a load of the event. -/
theorem C33_captured_violated : ∃ f : Fn, f.varnames[0]? = some "event" ∧ f.argcount = 1 ∧
    f.instrs = [.loadDeref "event", .loadAttr "preventDefault", .other 0, .other 5] ∧ (inspect f).prevent = false :=
  ⟨{ argcount := 1, names := ["preventDefault"], varnames := ["event"],
     instrs := [.loadDeref "event", .loadAttr "preventDefault", .other 0, .other 5] }, rfl, rfl, rfl, by decide +kernel⟩

/-- C33 fails when the load of the event is fused with the store before it (`STORE_FAST_LOAD_FAST`, CPython 3.13,
for two statements on one line): `def h(event): x = 1; event.preventDefault()`. -/
theorem C33_store_load_violated : ∃ (f : Fn) (src : Stmt), f.varnames[0]? = some "event" ∧ f.argcount = 1 ∧
    src = .seq (.assign "x" (.const 1)) (.expr (.call (.attr (.var "event") "preventDefault"))) ∧
    src.code = [.loadConst (some 1), .other 6, .loadFast "event", .loadAttr "preventDefault", .other 0, .other 5] ∧
    f.instrs = [.loadConst (some 1), .other 7, .loadAttr "preventDefault", .other 0, .other 5] ∧
    src.Accesses "event" "preventDefault" ∧ (inspect f).prevent = false :=
  ⟨{ argcount := 1, names := ["preventDefault"], varnames := ["event", "x"],
     instrs := [.loadConst (some 1), .other 7, .loadAttr "preventDefault", .other 0, .other 5] },
   _, rfl, rfl, rfl, rfl, rfl, .inr (.inl ⟨rfl, rfl⟩), by decide +kernel⟩

/-! ## C32 -/

theorem inspect_awaitAll (instrs : List Instr) : inspect (awaitAll instrs) = {} := by
  simp [inspect, awaitAll]

theorem settings_eq_iff (a b : Settings) : (a.stop != b.stop || a.prevent != b.prevent || a.debounce != b.debounce ||
    a.throttle != b.throttle || a.target != b.target) = true ↔ a ≠ b := by
  obtain ⟨a1, a2, a3, a4, a5⟩ := a
  obtain ⟨b1, b2, b3, b4, b5⟩ := b
  simp only [Bool.or_eq_true, bne_iff_ne, ne_eq, Settings.mk.injEq]
  constructor
  · rintro ((((h | h) | h) | h) | h) ⟨h1, h2, h3, h4, h5⟩ <;> contradiction
  · intro h
    by_cases h1 : a1 = b1 <;> by_cases h2 : a2 = b2 <;> by_cases h3 : a3 = b3 <;> by_cases h4 : a4 = b4 <;>
      by_cases h5 : a5 = b5 <;> simp_all

/-- C32, refusal: merging raises `ValueError` exactly when there is nothing to merge or two of the handlers
differ in a setting. -/
theorem C32_raises (instrs : List Instr) (hs : List Handler) :
    merge instrs hs = .error .valueError ↔ hs = [] ∨ ∃ a ∈ hs, ∃ b ∈ hs, a.settings ≠ b.settings := by
  match hs with
  | [] => simp [merge]
  | [h] => simp [merge]
  | h :: h' :: hs =>
    simp only [merge, mergeFuncs, List.map_cons]
    by_cases hc : ((h :: h' :: hs).any fun x => x.settings.stop != h.settings.stop || x.settings.prevent != h.settings.prevent ||
        x.settings.debounce != h.settings.debounce || x.settings.throttle != h.settings.throttle || x.settings.target != h.settings.target) = true
    · rw [if_pos hc]
      simp only [reduceCtorEq, true_iff, false_or]
      rw [List.any_eq_true] at hc
      obtain ⟨x, hx, hne⟩ := hc
      exact ⟨x, hx, h, by simp, (settings_eq_iff _ _).1 hne⟩
    · rw [if_neg hc]
      simp only [reduceCtorEq, false_iff, false_or, not_exists, not_and]
      have hall : ∀ x ∈ h :: h' :: hs, x.settings = h.settings := by
        intro x hx
        by_cases he : x.settings = h.settings
        · exact he
        · exact absurd (List.any_eq_true.2 ⟨x, hx, (settings_eq_iff _ _).2 he⟩) hc
      intro a ha b hb
      rw [hall a ha, hall b hb]; simp

/-- C32, settings: the merged handler has the settings of every handler merged. -/
theorem C32_settings (instrs : List Instr) (hs : List Handler) (h : Handler) (hm : merge instrs hs = .ok h) :
    ∀ a ∈ hs, h.settings = a.settings := by
  intro a ha
  have hne : ¬ merge instrs hs = .error .valueError := by rw [hm]; simp
  rw [C32_raises] at hne
  match hs with
  | [] => cases ha
  | [x] => simp [merge] at hm; simp at ha; rw [← hm, ha]
  | x :: y :: r =>
    simp only [merge] at hm
    split at hm
    · cases hm
    · simp only [mergeFuncs, List.map_cons, inspect_awaitAll, mkHandler, Except.ok.injEq] at hm
      rw [← hm]
      by_cases he : x.settings = a.settings
      · rw [← he]; rfl
      · exact absurd (.inr ⟨x, by simp, a, ha, he⟩) hne

/-- C32, calls: a call of the merged handler calls the functions of every merged handler, once each for every
time it occurs, handlers that are themselves merged included. -/
theorem C32_calls (instrs : List Instr) (hs : List Handler) (h : Handler) (hm : merge instrs hs = .ok h) :
    h.func.calls = hs.flatMap (fun x => x.func.calls) := by
  have hall : ∀ l : List Handler, callsAll (l.map (·.func)) = l.flatMap (fun x => x.func.calls) := by
    intro l
    induction l with
    | nil => rfl
    | cons x l ih => simp [callsAll, ih]
  match hs with
  | [] => simp [merge] at hm
  | [x] => simp [merge] at hm; simp [hm]
  | x :: y :: r =>
    simp only [merge] at hm
    split at hm
    · cases hm
    · simp only [mergeFuncs, List.map_cons, Except.ok.injEq] at hm
      rw [← hm]
      exact hall (x :: y :: r)

def exSettings : Settings := { stop := true, prevent := false, target := none, debounce := some 200, throttle := none }
example : (merge [] [⟨.user 1, exSettings⟩, ⟨.all [.user 2, .user 3], exSettings⟩, ⟨.user 1, exSettings⟩]).map
    (fun h => (h.func.calls, h.settings)) = .ok ([1, 2, 3, 1], exSettings) := by rfl
example : (merge [] [⟨.user 1, exSettings⟩, ⟨.user 2, { exSettings with debounce := none }⟩]).map (fun h => h.func.calls) =
    .error .valueError := by rfl

/-! Running the merged function -/

structure GInv (ps : List Prog) (g : Group) : Prop where
  calls : ∀ i, g.calls i = if g.status i = .created then 0 else 1
  cancel : g.cancelling = true → ∃ (p : Prog), p ∈ ps ∧ p.raises = true
  ok : g.cancelling = false → ∀ i, g.status i ≠ .cancelled ∧ g.status i ≠ .raised

theorem ginv_init (ps : List Prog) : GInv ps {} := ⟨by simp, by simp, by simp⟩

theorem ginv_advance {ps : List Prog} {p : Prog} {g : Group} {i left : Nat} (hp : p ∈ ps)
    (hcalls : ∀ j, j ≠ i → g.calls j = if g.status j = .created then 0 else 1) (hi : g.calls i = 1)
    (hc : g.cancelling = true → ∃ (p : Prog), p ∈ ps ∧ p.raises = true)
    (hok : g.cancelling = false → ∀ j, j ≠ i → g.status j ≠ .cancelled ∧ g.status j ≠ .raised) :
    GInv ps (advance p g i left) := by
  have hset : ∀ s : Status, s ≠ .created → ∀ j, g.calls j = if set g.status i s j = .created then 0 else 1 := by
    intro s hs j
    by_cases hj : j = i
    · subst hj; simp [set, hs, hi]
    · simp only [set, hj, if_false]; exact hcalls j hj
  simp only [advance]
  split
  · refine ⟨hset _ (by simp), hc, ?_⟩
    intro h j
    by_cases hj : j = i
    · subst hj; simp [set]
    · simp only [set, hj, if_false]; exact hok h j hj
  · split
    · rename_i hr
      exact ⟨hset _ (by simp), fun _ => ⟨p, hp, hr⟩, by simp⟩
    · refine ⟨hset _ (by simp), hc, ?_⟩
      intro h j
      by_cases hj : j = i
      · subst hj; simp [set]
      · simp only [set, hj, if_false]; exact hok h j hj

theorem ginv_step {ps : List Prog} {g : Group} (h : GInv ps g) (i : Nat) : GInv ps (groupStep ps g i) := by
  simp only [groupStep]
  split
  · exact h
  · rename_i p hp
    have hp := List.mem_of_getElem? hp
    split
    · rename_i hs
      apply ginv_advance hp
      · intro j hj; simp only [set, hj, if_false]; exact h.calls j
      · simp only [set, if_true]; rw [h.calls i, hs]; rfl
      · exact h.cancel
      · intro hc j _; exact h.ok hc j
    · rename_i n hs
      split
      · rename_i hc
        refine ⟨?_, h.cancel, by simp [hc]⟩
        intro j
        by_cases hj : j = i
        · subst hj; simp [set]; rw [h.calls j, hs]; rfl
        · simp only [set, hj, if_false]; exact h.calls j
      · apply ginv_advance hp
        · intro j _; exact h.calls j
        · rw [h.calls i, hs]; rfl
        · exact h.cancel
        · intro hc j _; exact h.ok hc j
    · exact h

theorem ginv_run (ps : List Prog) (sched : List Nat) : GInv ps (groupRun ps sched) := by
  have : ∀ g, GInv ps g → GInv ps (sched.foldl (groupStep ps) g) := by
    induction sched with
    | nil => intro g h; exact h
    | cons i r ih => intro g h; exact ih _ (ginv_step h i)
  exact this _ (ginv_init ps)

/-- C32, at run time: for all functions, whatever they do, and every schedule, when the call of the merged
function is over, every function has been called exactly once; at no time has one been called twice. -/
theorem C32_called_once (ps : List Prog) (sched : List Nat) :
    (∀ i, (groupRun ps sched).calls i ≤ 1) ∧
    (Ended ps (groupRun ps sched) → ∀ i, i < ps.length → (groupRun ps sched).calls i = 1) := by
  have h := ginv_run ps sched
  refine ⟨fun i => ?_, fun he i hi => ?_⟩
  · rw [h.calls]; split <;> omega
  · rw [h.calls]; rcases he i hi with e | e | e <;> rw [e] <;> rfl

/-- C32, at run time: if none of the functions raises, each runs to its end. -/
theorem C32_all_return (ps : List Prog) (hr : ∀ p ∈ ps, p.raises = false) (sched : List Nat)
    (he : Ended ps (groupRun ps sched)) : ∀ i, i < ps.length → (groupRun ps sched).status i = .returned := by
  have h := ginv_run ps sched
  intro i hi
  have hc : (groupRun ps sched).cancelling = false := by
    cases hx : (groupRun ps sched).cancelling with
    | false => rfl
    | true => obtain ⟨p, hp, hpr⟩ := h.cancel hx; rw [hr p hp] at hpr; cases hpr
  rcases he i hi with e | e | e
  · exact e
  · exact absurd e (h.ok hc i).2
  · exact absurd e (h.ok hc i).1

/-- Unlike separate handlers, merged ones affect each other: one that raises cancels another in the middle. -/
theorem C32_raising_cancels : ∃ ps sched, ps = [⟨0, true⟩, ⟨2, false⟩] ∧ Ended ps (groupRun ps sched) ∧
    (groupRun ps sched).status 1 = .cancelled := by
  refine ⟨[⟨0, true⟩, ⟨2, false⟩], [0, 1, 1], rfl, ?_, by decide +kernel⟩
  intro i hi
  match i, hi with
  | 0, _ => exact .inr (.inl (by decide +kernel))
  | 1, _ => exact .inr (.inr (by decide +kernel))

example : Ended [⟨1, false⟩, ⟨2, false⟩] (groupRun [⟨1, false⟩, ⟨2, false⟩] [0, 1, 1, 0, 1]) := by
  intro i hi
  match i, hi with
  | 0, _ => exact .inl (by decide +kernel)
  | 1, _ => exact .inl (by decide +kernel)

end Verif.Handlers
