import Verif.Handlers.Spec
namespace Verif.Handlers

/-- An event load directly followed by the attribute. -/
def occ (ev : String) (n : String) : Bool → List Instr → Bool
  | _, [] => false
  | last, i :: r => if isEventLoad ev i then occ ev n true r else (last && decide (i = .loadAttr n)) || occ ev n false r

/-- What the first store to `debounce` directly after an event load resolves to. -/
def firstStore (ev : String) (d c : List (String × Int)) : Bool → List Instr → List Instr → Option (Option Int)
  | _, _, [] => none
  | last, before, i :: r =>
    if isEventLoad ev i then firstStore ev d c true (i :: before) r
    else if last && decide (i = .storeAttr "debounce") then some (resolve ev d c before)
    else firstStore ev d c false (i :: before) r

theorem loop_eq (ev : String) (d c : List (String × Int)) (l : List Instr) : ∀ (before : List Instr) (s : Loop),
    (s.checkDebounce = true → s.debounce = none ∧ s.tainted = false) →
    (loop ev d c before s l).prevent = (s.prevent || (s.checkPrevent && occ ev "preventDefault" s.lastWasEvent l)) ∧
    (loop ev d c before s l).stop = (s.stop || (s.checkStop && occ ev "stopPropagation" s.lastWasEvent l)) ∧
    (loop ev d c before s l).debounce = (if s.checkDebounce then (firstStore ev d c s.lastWasEvent before l).join else s.debounce) := by
  induction l with
  | nil =>
    intro before s hs
    simp only [loop, occ, firstStore, Bool.and_false, Bool.or_false, true_and]
    split
    · rename_i h; simp [(hs h).1]
    · rfl
  | cons i rest ih =>
    intro before s hs
    simp only [loop, occ, firstStore]
    by_cases hi : isEventLoad ev i = true
    · simp only [hi, if_true]
      exact ih (i :: before) { s with lastWasEvent := true } hs
    · simp only [hi, if_false, Bool.false_eq_true]
      cases hl : s.lastWasEvent with
      | false =>
        simp only [Bool.not_false, if_true, Bool.false_and, Bool.false_or, Bool.false_eq_true, if_false]
        have := ih (i :: before) s hs
        rw [hl] at this
        exact this
      | true =>
        simp only [Bool.not_true, Bool.false_eq_true, if_false, Bool.true_and]
        -- what the body does
        have hb : (body ev d c before s i).prevent = (s.prevent || (s.checkPrevent && decide (i = .loadAttr "preventDefault"))) ∧
            (body ev d c before s i).checkPrevent = (s.checkPrevent && !decide (i = .loadAttr "preventDefault")) ∧
            (body ev d c before s i).stop = (s.stop || (s.checkStop && decide (i = .loadAttr "stopPropagation"))) ∧
            (body ev d c before s i).checkStop = (s.checkStop && !decide (i = .loadAttr "stopPropagation")) ∧
            (body ev d c before s i).debounce = (if s.checkDebounce && decide (i = .storeAttr "debounce") then resolve ev d c before else s.debounce) ∧
            (body ev d c before s i).checkDebounce = (s.checkDebounce && !decide (i = .storeAttr "debounce")) ∧
            ((body ev d c before s i).checkDebounce = true → (body ev d c before s i).debounce = none ∧ (body ev d c before s i).tainted = false) := by
          cases i with
          | loadAttr n =>
            simp only [body]
            by_cases h1 : n = "preventDefault"
            · subst h1
              cases hp : s.checkPrevent <;> simp [hp] <;> exact hs
            · by_cases h2 : n = "stopPropagation"
              · subst h2
                cases hp : s.checkStop <;> simp [hp] <;> exact hs
              · simp [h1, h2]; exact hs
          | storeAttr n =>
            simp only [body]
            by_cases h1 : n = "debounce"
            · subst h1
              cases hp : s.checkDebounce with
              | false => simp [hp]
              | true =>
                have := hs hp
                cases hr : resolve ev d c before with
                | none => simp
                | some v => simp [this.2]
            · simp [h1]; exact hs
          | loadFast n => simp [body]; exact hs
          | loadPair a b => simp [body]; exact hs
          | loadConst n => simp [body]; exact hs
          | loadDeref n => simp [body]; exact hs
          | other n => simp [body]; exact hs
        obtain ⟨h1, h2, h3, h4, h5, h6, h7⟩ := hb
        generalize body ev d c before s i = s' at *
        by_cases hall : (!(s'.checkPrevent || s'.checkStop || s'.checkDebounce)) = true
        · rw [if_pos hall]
          simp only [Bool.not_eq_true', Bool.or_eq_false_iff] at hall
          obtain ⟨⟨ha, hb⟩, hc⟩ := hall
          rw [ha] at h2; rw [hb] at h4; rw [hc] at h6
          refine ⟨?_, ?_, ?_⟩
          · rw [h1]
            cases hp : s.checkPrevent
            · simp
            · rw [hp] at h2; simp at h2; simp [h2]
          · rw [h3]
            cases hp : s.checkStop
            · simp
            · rw [hp] at h4; simp at h4; simp [h4]
          · rw [h5]
            cases hp : s.checkDebounce
            · simp
            · rw [hp] at h6; simp at h6; simp [h6]
        · rw [if_neg hall]
          have := ih (i :: before) { s' with lastWasEvent := false } h7
          simp only at this
          obtain ⟨e1, e2, e3⟩ := this
          refine ⟨?_, ?_, ?_⟩
          · rw [e1, h1, h2]
            cases s.checkPrevent <;> simp
            cases s.prevent <;> cases decide (i = .loadAttr "preventDefault") <;> simp
          · rw [e2, h3, h4]
            cases s.checkStop <;> simp
            cases s.stop <;> cases decide (i = .loadAttr "stopPropagation") <;> simp
          · rw [e3, h5, h6]
            cases hp : s.checkDebounce <;> simp
            by_cases hd : i = .storeAttr "debounce"
            · simp [hd]
            · simp [hd]

/-- The inspection, in terms of adjacent instructions. -/
theorem inspect_eq (f : Fn) (ev : String) (ha : f.argcount ≠ 0) (hv : f.varnames[0]? = some ev) :
    (inspect f).prevent = (f.names.contains "preventDefault" && occ ev "preventDefault" false f.instrs) ∧
    (inspect f).stop = (f.names.contains "stopPropagation" && occ ev "stopPropagation" false f.instrs) ∧
    (inspect f).debounce = (if f.names.contains "debounce" then (firstStore ev (argDefaults f) (closureLookup f) false [] f.instrs).join else none) := by
  simp only [inspect, ha, if_false, hv, Option.getD_some]
  split
  · rename_i h
    simp only [Bool.not_eq_true', Bool.or_eq_false_iff] at h
    obtain ⟨⟨h1, h2⟩, h3⟩ := h
    rw [h1, h2, h3]; simp
  · have := loop_eq ev (argDefaults f) (closureLookup f) f.instrs []
      { checkPrevent := f.names.contains "preventDefault", checkStop := f.names.contains "stopPropagation",
        checkDebounce := f.names.contains "debounce" } (by simp)
    simpa using this

theorem occ_iff (ev n : String) (l : List Instr) : ∀ last, occ ev n last l = true ↔
    (last = true ∧ ∃ r, l = .loadAttr n :: r) ∨ ∃ a i b, l = a ++ i :: .loadAttr n :: b ∧ isEventLoad ev i = true := by
  induction l with
  | nil => intro last; simp [occ]
  | cons x l ih =>
    intro last
    simp only [occ]
    by_cases hx : isEventLoad ev x = true
    · rw [if_pos hx, ih]
      constructor
      · rintro (⟨_, r, hr⟩ | ⟨a, i, b, h, hi⟩)
        · exact .inr ⟨[], x, r, by simp [hr], hx⟩
        · exact .inr ⟨x :: a, i, b, by simp [h], hi⟩
      · rintro (⟨_, r, hr⟩ | ⟨a, i, b, h, hi⟩)
        · simp at hr; rw [hr.1] at hx; simp [isEventLoad] at hx
        · cases a with
          | nil => simp at h; exact .inl ⟨rfl, b, h.2⟩
          | cons y a => simp at h; exact .inr ⟨a, i, b, h.2, hi⟩
    · rw [if_neg hx]
      simp only [Bool.or_eq_true, Bool.and_eq_true, decide_eq_true_eq, ih]
      constructor
      · rintro (⟨hl, hx'⟩ | ⟨hf, _⟩ | ⟨a, i, b, h, hi⟩)
        · exact .inl ⟨hl, l, by rw [hx']⟩
        · cases hf
        · exact .inr ⟨x :: a, i, b, by simp [h], hi⟩
      · rintro (⟨hl, r, hr⟩ | ⟨a, i, b, h, hi⟩)
        · simp at hr; exact .inl ⟨hl, hr.1⟩
        · cases a with
          | nil => simp at h; rw [h.1] at hx; exact absurd hi hx
          | cons y a => simp at h; exact .inr (.inr ⟨a, i, b, h.2, hi⟩)

/-! ### Sources -/

/-- The last instruction of the code of the expression is a load of the event. -/
def Expr.tail (ev : String) : Expr → Bool
  | .var n => n == ev
  | .ifExp _ _ b => b.tail ev
  | .orElse _ b => b.tail ev
  | _ => false

def Expr.acc (ev n : String) : Expr → Bool
  | .const _ => false
  | .var _ => false
  | .free _ => false
  | .attr e m => e.acc ev n || (e.tail ev && m == n)
  | .call f => f.acc ev n
  | .add a b => a.acc ev n || b.acc ev n
  | .ifExp c a b => c.acc ev n || a.acc ev n || b.acc ev n
  | .orElse a b => a.acc ev n || b.acc ev n

def Stmt.acc (ev n : String) : Stmt → Bool
  | .skip => false
  | .expr e => e.acc ev n
  | .assign _ e => e.acc ev n
  | .setAttr o _ v => v.acc ev n || o.acc ev n
  | .seq a b => a.acc ev n || b.acc ev n
  | .ite c a b => c.acc ev n || a.acc ev n || b.acc ev n

theorem occ_expr (ev n : String) (e : Expr) : ∀ last rest,
    occ ev n last (e.code ++ rest) = (e.acc ev n || occ ev n (e.tail ev) rest) := by
  induction e with
  | const v => intro last rest; simp [Expr.code, Expr.acc, Expr.tail, occ, isEventLoad]
  | var x =>
    intro last rest
    simp only [Expr.code, Expr.acc, Expr.tail, List.cons_append, List.nil_append, occ, isEventLoad, Bool.false_or]
    by_cases h : x = ev
    · simp [h]
    · simp [beq_eq_false_iff_ne.2 h]
  | free x => intro last rest; simp [Expr.code, Expr.acc, Expr.tail, occ, isEventLoad]
  | attr e m ih =>
    intro last rest
    simp only [Expr.code, List.append_assoc, ih, Expr.acc, Expr.tail]
    simp only [List.cons_append, List.nil_append, occ, isEventLoad, Bool.false_eq_true, if_false]
    by_cases h : m = n
    · subst h; simp [Bool.or_assoc]
    · simp [h, beq_eq_false_iff_ne.2 h]
  | call f ih =>
    intro last rest
    simp only [Expr.code, List.append_assoc, ih, Expr.acc, Expr.tail]
    simp [occ, isEventLoad]
  | add a b iha ihb =>
    intro last rest
    simp only [Expr.code, List.append_assoc, iha, ihb, Expr.acc, Expr.tail]
    simp [occ, isEventLoad, Bool.or_assoc]
  | ifExp c a b ihc iha ihb =>
    intro last rest
    simp only [Expr.code, List.append_assoc, ihc, Expr.acc, Expr.tail]
    simp only [List.cons_append, List.nil_append, occ, isEventLoad, Bool.false_eq_true, if_false, iha, ihb]
    simp [Bool.or_assoc]
  | orElse a b iha ihb =>
    intro last rest
    simp only [Expr.code, List.append_assoc, iha, Expr.acc, Expr.tail]
    simp only [List.cons_append, List.nil_append, occ, isEventLoad, Bool.false_eq_true, if_false, ihb]
    simp [Bool.or_assoc]

theorem occ_stmt (ev n : String) (s : Stmt) : ∀ rest,
    occ ev n false (s.code ++ rest) = (s.acc ev n || occ ev n false rest) := by
  induction s with
  | skip => intro rest; simp [Stmt.code, Stmt.acc]
  | expr e => intro rest; simp [Stmt.code, Stmt.acc, occ_expr, occ, isEventLoad]
  | assign x e => intro rest; simp [Stmt.code, Stmt.acc, occ_expr, occ, isEventLoad]
  | setAttr o m v => intro rest; simp [Stmt.code, Stmt.acc, occ_expr, occ, isEventLoad, Bool.or_assoc]
  | seq a b iha ihb => intro rest; simp [Stmt.code, Stmt.acc, iha, ihb, Bool.or_assoc]
  | ite c a b iha ihb =>
    intro rest
    simp only [Stmt.code, List.append_assoc, occ_expr, Stmt.acc]
    simp only [List.cons_append, List.nil_append, occ, isEventLoad, Bool.false_eq_true, if_false, iha, ihb]
    simp [Bool.or_assoc]

theorem tail_iff {ev : String} {e : Expr} (h : e.conditional = false) : e.tail ev = true ↔ e = .var ev := by
  cases e <;> simp_all [Expr.tail, Expr.conditional]

theorem acc_of_accesses (ev n : String) (e : Expr) : e.Accesses ev n → e.acc ev n = true := by
  induction e with
  | const v => intro h; cases h
  | var x => intro h; cases h
  | free x => intro h; cases h
  | attr e m ih =>
    rintro (⟨rfl, rfl⟩ | h)
    · simp [Expr.acc, Expr.tail]
    · simp [Expr.acc, ih h]
  | call f ih => exact ih
  | add a b iha ihb => rintro (h | h) <;> simp [Expr.acc, *]
  | ifExp c a b ihc iha ihb => rintro (h | h | h) <;> simp [Expr.acc, *]
  | orElse a b iha ihb => rintro (h | h) <;> simp [Expr.acc, *]

theorem acc_iff (ev n : String) (e : Expr) (hp : e.Plain) : e.acc ev n = true ↔ e.Accesses ev n := by
  induction e with
  | const v => simp [Expr.acc, Expr.Accesses]
  | var x => simp [Expr.acc, Expr.Accesses]
  | free x => simp [Expr.acc, Expr.Accesses]
  | attr e m ih =>
    simp only [Expr.acc, Expr.Accesses, Bool.or_eq_true, Bool.and_eq_true, tail_iff hp.1, ih hp.2, beq_iff_eq]
    exact Or.comm
  | call f ih => simp only [Expr.acc, Expr.Accesses, ih hp]
  | add a b iha ihb => simp only [Expr.acc, Expr.Accesses, Bool.or_eq_true, iha hp.1, ihb hp.2]
  | ifExp c a b ihc iha ihb =>
    simp only [Expr.acc, Expr.Accesses, Bool.or_eq_true, ihc hp.1, iha hp.2.1, ihb hp.2.2, or_assoc]
  | orElse a b iha ihb => simp only [Expr.acc, Expr.Accesses, Bool.or_eq_true, iha hp.1, ihb hp.2]

theorem stmt_acc_of_accesses (ev n : String) (s : Stmt) : s.Accesses ev n → s.acc ev n = true := by
  induction s with
  | skip => intro h; cases h
  | expr e => exact acc_of_accesses ev n e
  | assign x e => exact acc_of_accesses ev n e
  | setAttr o m v => rintro (h | h) <;> simp [Stmt.acc, acc_of_accesses ev n _ h]
  | seq a b iha ihb => rintro (h | h) <;> simp [Stmt.acc, *]
  | ite c a b iha ihb =>
    rintro (h | h | h)
    · simp [Stmt.acc, acc_of_accesses ev n _ h]
    · simp [Stmt.acc, *]
    · simp [Stmt.acc, *]

theorem stmt_acc_iff (ev n : String) (s : Stmt) (hp : s.Plain) : s.acc ev n = true ↔ s.Accesses ev n := by
  induction s with
  | skip => simp [Stmt.acc, Stmt.Accesses]
  | expr e => exact acc_iff ev n e hp
  | assign x e => exact acc_iff ev n e hp
  | setAttr o m v =>
    simp only [Stmt.acc, Stmt.Accesses, Bool.or_eq_true, acc_iff ev n _ hp.2.1, acc_iff ev n _ hp.2.2]; exact Or.comm
  | seq a b iha ihb => simp only [Stmt.acc, Stmt.Accesses, Bool.or_eq_true, iha hp.1, ihb hp.2]
  | ite c a b iha ihb =>
    simp only [Stmt.acc, Stmt.Accesses, Bool.or_eq_true, acc_iff ev n _ hp.1, iha hp.2.1, ihb hp.2.2, or_assoc]

theorem first_expr (ev : String) (d c : List (String × Int)) (e : Expr) : ∀ last before rest,
    firstStore ev d c last before (e.code ++ rest) = firstStore ev d c (e.tail ev) (e.code.reverse ++ before) rest := by
  induction e with
  | const v => intro last before rest; simp [Expr.code, Expr.tail, firstStore, isEventLoad]
  | var x =>
    intro last before rest
    by_cases h : x = ev
    · simp [Expr.code, Expr.tail, firstStore, isEventLoad, h]
    · simp [Expr.code, Expr.tail, firstStore, isEventLoad, beq_eq_false_iff_ne.2 h]
  | free x => intro last before rest; simp [Expr.code, Expr.tail, firstStore, isEventLoad]
  | attr e m ih => intro last before rest; simp [Expr.code, Expr.tail, ih, firstStore, isEventLoad]
  | call f ih => intro last before rest; simp [Expr.code, Expr.tail, ih, firstStore, isEventLoad]
  | add a b iha ihb => intro last before rest; simp [Expr.code, Expr.tail, iha, ihb, firstStore, isEventLoad]
  | ifExp e a b ihe iha ihb => intro last before rest; simp [Expr.code, Expr.tail, ihe, iha, ihb, firstStore, isEventLoad]
  | orElse a b iha ihb => intro last before rest; simp [Expr.code, Expr.tail, iha, ihb, firstStore, isEventLoad]

/-- What the inspection makes of the value of an assignment. -/
def Expr.guess (d c : List (String × Int)) : Expr → Option Int
  | .const v => some v
  | .var n => get d n
  | .free n => get c n
  | .ifExp _ _ b => b.guess d c
  | .orElse _ b => b.guess d c
  | _ => none

theorem resolve_expr (ev : String) (d c : List (String × Int)) (v : Expr) (before : List Instr) :
    resolve ev d c (.loadFast ev :: (v.code.reverse ++ before)) = v.guess d c := by
  induction v generalizing before with
  | const v => simp [Expr.code, resolve, Expr.guess]
  | var x => simp [Expr.code, resolve, Expr.guess]
  | free x => simp [Expr.code, resolve, Expr.guess]
  | attr e m ih => simp [Expr.code, resolve, Expr.guess]
  | call f ih => simp [Expr.code, resolve, Expr.guess]
  | add a b iha ihb => simp [Expr.code, resolve, Expr.guess]
  | ifExp e a b ihe iha ihb =>
    simp only [Expr.code, List.reverse_append, List.append_assoc, Expr.guess]; exact ihb _
  | orElse a b iha ihb =>
    simp only [Expr.code, List.reverse_append, List.append_assoc, Expr.guess]; exact ihb _

theorem first_stmt (ev : String) (d c : List (String × Int)) (s : Stmt) (hp : s.Plain) : ∀ before rest,
    firstStore ev d c false before (s.code ++ rest) =
      match s.assignments ev with
      | v :: _ => some (v.guess d c)
      | [] => firstStore ev d c false (s.code.reverse ++ before) rest := by
  induction s with
  | skip => intro before rest; simp [Stmt.code, Stmt.assignments]
  | expr e => intro before rest; simp [Stmt.code, Stmt.assignments, first_expr, firstStore, isEventLoad]
  | assign x e => intro before rest; simp [Stmt.code, Stmt.assignments, first_expr, firstStore, isEventLoad]
  | setAttr o m v =>
    intro before rest
    simp only [Stmt.code, List.append_assoc, first_expr, Stmt.assignments]
    simp only [List.cons_append, List.nil_append, firstStore, isEventLoad, Bool.false_eq_true, if_false]
    by_cases ho : o = .var ev
    · subst ho
      by_cases hm : m = "debounce"
      · subst hm
        simp only [Expr.tail, beq_self_eq_true, decide_true, Bool.and_self, if_true, and_self, Expr.code,
          List.reverse_cons, List.reverse_nil, List.nil_append, List.cons_append]
        rw [resolve_expr]
      · simp [hm, Expr.code]
    · have : o.tail ev = false := by
        rw [← Bool.not_eq_true, tail_iff hp.1]; exact ho
      simp [this, ho]
  | seq a b iha ihb =>
    intro before rest
    simp only [Stmt.code, List.append_assoc, iha hp.1, Stmt.assignments]
    cases ha : a.assignments ev with
    | cons v r => rfl
    | nil => simp only [ihb hp.2, List.nil_append, List.reverse_append, List.append_assoc]
  | ite e a b iha ihb =>
    intro before rest
    simp only [Stmt.code, List.append_assoc, first_expr, Stmt.assignments]
    simp only [List.cons_append, List.nil_append, firstStore, isEventLoad, Bool.false_eq_true, if_false,
      reduceCtorEq, decide_false, Bool.and_false, iha hp.2.1]
    cases ha : a.assignments ev with
    | cons v r => rfl
    | nil =>
      simp only [ihb hp.2.2, List.nil_append]
      simp


/-! Fused loads -/

theorem Fused.refl (l : List Instr) : Fused l l := by
  induction l with
  | nil => exact .nil
  | cons i l ih => exact .keep i ih

theorem Fused.attr {l l' : List Instr} (h : Fused l l') (i : Instr) (hi : ∀ n, i ≠ .loadFast n) :
    i ∈ l → i ∈ l' := by
  induction h with
  | nil => exact id
  | keep j h ih => intro hm; rcases List.mem_cons.1 hm with rfl | hm <;> simp [*]
  | pair a b h ih =>
    intro hm
    simp only [List.mem_cons] at hm
    rcases hm with rfl | rfl | hm
    · exact absurd rfl (hi _)
    · exact absurd rfl (hi _)
    · exact List.mem_cons_of_mem _ (ih hm)

theorem occ_fused {l l' : List Instr} (h : Fused l l') (ev n : String) : ∀ last, occ ev n last l' = occ ev n last l := by
  induction h with
  | nil => intro last; rfl
  | keep i h ih => intro last; simp only [occ, ih]
  | pair a b h ih =>
    intro last
    simp only [occ, isEventLoad, ih]
    by_cases ha : a = ev <;> by_cases hb : b = ev <;> simp [ha, hb]

/-- The instructions before a place, nearest first, unfused and fused. -/
inductive FusedB : List Instr → List Instr → Prop
  | nil : FusedB [] []
  | keep (i : Instr) {l l' : List Instr} : FusedB l l' → FusedB (i :: l) (i :: l')
  | pair (a b : String) {l l' : List Instr} : FusedB l l' → FusedB (.loadFast b :: .loadFast a :: l) (.loadPair a b :: l')

/-- How many loads of variables there are directly before a place. -/
def runOf : List Instr → Nat
  | .loadFast _ :: r => runOf r + 1
  | _ => 0

/-- At most two loads of variables come directly before a store. -/
def okRun : Nat → List Instr → Prop
  | _, [] => True
  | k, .loadFast _ :: r => okRun (k + 1) r
  | k, .storeAttr _ :: r => k ≤ 2 ∧ okRun 0 r
  | _, _ :: r => okRun 0 r

def Expr.run (k : Nat) : Expr → Nat
  | .var _ => k + 1
  | .ifExp _ _ b => b.run 0
  | .orElse _ b => b.run 0
  | _ => 0

theorem okRun_expr (e : Expr) : ∀ (k : Nat) (r : List Instr), okRun k (e.code ++ r) ↔ okRun (e.run k) r := by
  induction e with
  | const v => intro k r; simp [Expr.code, okRun, Expr.run]
  | var n => intro k r; simp [Expr.code, okRun, Expr.run]
  | free n => intro k r; simp [Expr.code, okRun, Expr.run]
  | attr e n ih => intro k r; simp [Expr.code, okRun, Expr.run, ih]
  | call e ih => intro k r; simp [Expr.code, okRun, Expr.run, ih]
  | add a b iha ihb => intro k r; simp [Expr.code, okRun, Expr.run, iha, ihb]
  | ifExp c a b ihc iha ihb => intro k r; simp [Expr.code, okRun, Expr.run, ihc, iha, ihb]
  | orElse a b iha ihb => intro k r; simp [Expr.code, okRun, Expr.run, iha, ihb]

theorem run_le (e : Expr) : ∀ k, e.run k ≤ k + 1 := by
  induction e with
  | ifExp c a b _ _ ihb => intro k; exact Nat.le_trans (ihb 0) (by omega)
  | orElse a b _ ihb => intro k; exact Nat.le_trans (ihb 0) (by omega)
  | var n => intro k; simp [Expr.run]
  | _ => intro k; simp [Expr.run]

theorem okRun_stmt (s : Stmt) : ∀ r, okRun 0 (s.code ++ r) ↔ okRun 0 r := by
  induction s with
  | skip => intro r; simp [Stmt.code]
  | expr e => intro r; simp [Stmt.code, okRun_expr, okRun]
  | assign x e => intro r; simp [Stmt.code, okRun_expr, okRun]
  | setAttr o n v =>
    intro r
    have h1 := run_le v 0
    have h2 := run_le o (v.run 0)
    have : o.run (v.run 0) ≤ 2 := by omega
    simp [Stmt.code, okRun_expr, okRun, this]
  | seq a b iha ihb => intro r; simp [Stmt.code, iha, ihb]
  | ite c a b iha ihb => intro r; simp [Stmt.code, okRun_expr, okRun, iha, ihb]

theorem firstStore_load (ev : String) (d c : List (String × Int)) (last : Bool) (before r : List Instr) (n : String) :
    firstStore ev d c last before (.loadFast n :: r) = firstStore ev d c (n == ev) (.loadFast n :: before) r := by
  simp only [firstStore, isEventLoad]
  by_cases h : n = ev
  · simp [h]
  · simp [beq_eq_false_iff_ne.2 h]

theorem firstStore_pair (ev : String) (d c : List (String × Int)) (last : Bool) (before r : List Instr) (a b : String) :
    firstStore ev d c last before (.loadPair a b :: r) = firstStore ev d c (b == ev) (.loadPair a b :: before) r := by
  simp only [firstStore, isEventLoad]
  by_cases h : b = ev
  · simp [h]
  · simp [beq_eq_false_iff_ne.2 h]

theorem firstStore_fused {l l' : List Instr} (h : Fused l l') (ev : String) (d c : List (String × Int)) :
    ∀ (last : Bool) (before before' : List Instr), FusedB before before' →
      (last = true → ∃ i B, before = i :: B ∧ isEventLoad ev i = true) → okRun (runOf before) l →
      firstStore ev d c last before' l' = firstStore ev d c last before l := by
  induction h with
  | nil => intro last before before' _ _ _; rfl
  | pair a b h ih =>
    intro last before before' hB hl hr
    have hr' : okRun (runOf (.loadFast b :: .loadFast a :: before)) _ := hr
    rw [firstStore_load, firstStore_load, firstStore_pair]
    refine ih (b == ev) _ _ (.pair a b hB) ?_ hr'
    intro hb
    exact ⟨_, _, rfl, hb⟩
  | @keep i l l' h ih =>
    intro last before before' hB hl hr
    simp only [firstStore]
    have hnext : (∀ n, i ≠ .storeAttr n) → okRun (runOf (i :: before)) l := by
      intro hn
      cases i <;> first | exact hr | exact absurd rfl (hn _)
    by_cases hi : isEventLoad ev i = true
    · simp only [hi, if_true]
      refine ih true _ _ (.keep i hB) (fun _ => ⟨i, _, rfl, hi⟩) (hnext ?_)
      rintro n rfl; simp [isEventLoad] at hi
    · simp only [hi, if_false, Bool.false_eq_true]
      by_cases hs : (last && decide (i = .storeAttr "debounce")) = true
      · simp only [hs, if_true, Option.some.injEq]
        simp only [Bool.and_eq_true, decide_eq_true_eq] at hs
        obtain ⟨hlast, rfl⟩ := hs
        obtain ⟨j, B, rfl, hj⟩ := hl hlast
        have hrun : runOf (j :: B) ≤ 2 := hr.1
        cases hB with
        | pair a b hB =>
          simp [isEventLoad] at hj
          subst hj
          simp [resolve]
        | @keep _ _ l' hB =>
          cases hB with
          | nil => rfl
          | keep k hB => cases j <;> rfl
          | pair a b hB =>
            cases j with
            | loadFast n => simp [runOf] at hrun
            | loadPair x y => rfl
            | _ => simp [isEventLoad] at hj
      · simp only [hs, if_false, Bool.false_eq_true]
        refine ih false _ _ (.keep i hB) (by simp) ?_
        cases i <;> first | exact hr | exact hr.2

end Verif.Handlers
