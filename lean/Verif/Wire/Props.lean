import Verif.Wire.Model
/-! # C122: attributes arrive as they were given -/
namespace Verif.Wire

/-! ## Specification -/

mutual
/-- The JavaScript value is the Python value. -/
def Same : Py → Js → Prop
  | .none, .null => True
  | .bool b, .bool c => b = c
  | .int n, .int m => n = m
  | .float x, .float y => x = y
  | .str s, .str t => s = t
  | .list l, .arr a => SameL l a
  | .tuple l, .arr a => SameL l a
  | .dict d, .obj o => SameD d o
  | _, _ => False
/-- Element by element. -/
def SameL : List Py → List Js → Prop
  | [], [] => True
  | v :: vs, j :: js => Same v j ∧ SameL vs js
  | _, _ => False
/-- Item by item, with the same keys. -/
def SameD : List (Key × Py) → List (String × Js) → Prop
  | [], [] => True
  | (k, v) :: d, (s, j) :: o => k = .str s ∧ Same v j ∧ SameD d o
  | _, _ => False
end

/-- An integer that is a double: the sum of at most 53 bits next to each other, and at most 64 bits in all. -/
def Exact (n : Int) : Prop := -2 ^ 63 ≤ n ∧ n < 2 ^ 64 ∧ ∃ (m : Nat) (e : Nat), m < 2 ^ 53 ∧ n.natAbs = m * 2 ^ e

mutual
/-- `None`, booleans, exact integers, finite floats, proper strings, and lists, tuples and dicts of them whose keys are proper strings. -/
def Plain : Py → Prop
  | .int n => Exact n
  | .list l => PlainL l
  | .tuple l => PlainL l
  | .dict d => PlainD d
  | .none | .bool _ | .float _ | .str _ => True
  | .special | .lone | .native _ | .other => False
/-- All elements. -/
def PlainL : List Py → Prop
  | [] => True
  | v :: vs => Plain v ∧ PlainL vs
/-- All items. -/
def PlainD : List (Key × Py) → Prop
  | [] => True
  | (k, v) :: d => (∃ s, k = .str s) ∧ Plain v ∧ PlainD d
end

mutual
/-- No integer that is too large, no lone surrogate, no key that is not a string, at any depth. -/
def Modest : Py → Prop
  | .int n => -2 ^ 63 ≤ n ∧ n < 2 ^ 64
  | .lone => False
  | .list l => ModestL l
  | .tuple l => ModestL l
  | .dict d => ModestD d
  | _ => True
/-- All elements. -/
def ModestL : List Py → Prop
  | [] => True
  | v :: vs => Modest v ∧ ModestL vs
/-- All items. -/
def ModestD : List (Key × Py) → Prop
  | [] => True
  | (k, v) :: d => (∃ s, k = .str s) ∧ Modest v ∧ ModestD d
end

/-! ## Proofs -/

theorem roundNat_spec (n : Nat) : roundNat n = n ↔ ∃ m e : Nat, m < 2 ^ 53 ∧ n = m * 2 ^ e := by
  have hu : 0 < 2 ^ (n.log2 - 52) := Nat.two_pow_pos _
  have hdm := Nat.div_add_mod n (2 ^ (n.log2 - 52))
  have hr := Nat.mod_lt n hu
  constructor
  · intro h
    -- the rounded number is a multiple of the unit
    have hq : n / 2 ^ (n.log2 - 52) < 2 ^ 53 := by
      rw [Nat.div_lt_iff_lt_mul hu, ← Nat.pow_add]
      by_cases h0 : n = 0
      · subst h0; exact Nat.two_pow_pos _
      · exact Nat.lt_of_lt_of_le (Nat.lt_log2_self (n := n)) (Nat.pow_le_pow_right (by omega) (by omega))
    have hmod : n % 2 ^ (n.log2 - 52) = 0 := by
      have hd : 2 ^ (n.log2 - 52) ∣ roundNat n := by
        simp only [roundNat]
        split
        · exact Nat.dvd_mul_left _ _
        · split
          · exact Nat.dvd_mul_left _ _
          · split <;> exact Nat.dvd_mul_left _ _
      rw [h] at hd
      exact Nat.mod_eq_zero_of_dvd hd
    refine ⟨_, n.log2 - 52, hq, ?_⟩
    rw [Nat.mul_comm]; omega
  · rintro ⟨m, e, hm, he⟩
    have hd : 2 ^ (n.log2 - 52) ∣ n := by
      by_cases h0 : n = 0
      · rw [h0]; exact Nat.dvd_zero _
      · have : n.log2 - 52 ≤ e := by
          have h1 : n.log2 < 53 + e := by
            rw [Nat.log2_lt h0, he, Nat.pow_add]
            exact Nat.mul_lt_mul_of_pos_right hm (Nat.two_pow_pos _)
          omega
        rw [he]
        have : 2 ^ (n.log2 - 52) ∣ 2 ^ e := Nat.pow_dvd_pow 2 this
        rw [he] at this
        exact Nat.dvd_mul_left_of_dvd this m
    have hmod := Nat.mod_eq_zero_of_dvd hd
    simp only [roundNat, hmod]
    rw [if_pos (by omega), Nat.mul_comm]
    omega

/-- The distance of two numbers. -/
def apart (a b : Int) : Nat := (a - b).natAbs

theorem roundNat_nearest (n m e : Nat) (hm : m < 2 ^ 53) : apart n (roundNat n) ≤ apart n (m * 2 ^ e : Nat) := by
  have hu : 0 < 2 ^ (n.log2 - 52) := Nat.two_pow_pos _
  have hdm := Nat.div_add_mod n (2 ^ (n.log2 - 52))
  have hr := Nat.mod_lt n hu
  -- a double that is not below the lower neighbour is a multiple of the unit
  have key : m * 2 ^ e ≤ 2 ^ (n.log2 - 52) * (n / 2 ^ (n.log2 - 52)) ∨
      2 ^ (n.log2 - 52) * (n / 2 ^ (n.log2 - 52)) + 2 ^ (n.log2 - 52) ≤ m * 2 ^ e := by
    by_cases hlt : m * 2 ^ e ≤ 2 ^ (n.log2 - 52) * (n / 2 ^ (n.log2 - 52))
    · exact .inl hlt
    · right
      have hd : 2 ^ (n.log2 - 52) ∣ m * 2 ^ e := by
        by_cases hle : n.log2 - 52 ≤ e
        · exact Nat.dvd_mul_left_of_dvd (Nat.pow_dvd_pow 2 hle) m
        · exfalso
          have h0 : n ≠ 0 := by rintro rfl; simp at hle
          have h1 : 2 ^ n.log2 ≤ n := Nat.log2_self_le h0
          have h2 : 2 ^ (n.log2 - 52) * 2 ^ 52 ≤ 2 ^ (n.log2 - 52) * (n / 2 ^ (n.log2 - 52)) := by
            apply Nat.mul_le_mul_left
            rw [Nat.le_div_iff_mul_le hu, ← Nat.pow_add]
            rw [show 52 + (n.log2 - 52) = n.log2 by omega]
            exact h1
          have h3 : m * 2 ^ e < 2 ^ 53 * 2 ^ e := Nat.mul_lt_mul_of_pos_right hm (Nat.two_pow_pos _)
          have h4 : 2 ^ 53 * 2 ^ e ≤ 2 ^ (n.log2 - 52) * 2 ^ 52 := by
            rw [← Nat.pow_add, ← Nat.pow_add]
            exact Nat.pow_le_pow_right (by omega) (by omega)
          omega
      obtain ⟨k, hk⟩ := hd
      rw [hk] at hlt ⊢
      have : n / 2 ^ (n.log2 - 52) < k := by
        apply Nat.lt_of_not_le; intro hle
        exact hlt (Nat.mul_le_mul_left _ hle)
      calc _ = 2 ^ (n.log2 - 52) * (n / 2 ^ (n.log2 - 52) + 1) := by rw [Nat.mul_add, Nat.mul_one]
        _ ≤ _ := Nat.mul_le_mul_left _ this
  simp only [roundNat, apart, Nat.add_mul, Nat.one_mul]
  rw [Nat.mul_comm (n / 2 ^ (n.log2 - 52))]
  generalize 2 ^ (n.log2 - 52) * (n / 2 ^ (n.log2 - 52)) = lo at *
  generalize 2 ^ (n.log2 - 52) = unit at *
  generalize n % unit = r at *
  generalize m * 2 ^ e = d at *
  split
  · omega
  · split
    · omega
    · split <;> omega

theorem toDouble_spec (n : Int) : toDouble n = n ↔ ∃ m e : Nat, m < 2 ^ 53 ∧ n.natAbs = m * 2 ^ e := by
  rw [← roundNat_spec, toDouble]
  split <;> omega

theorem fits_spec (n : Int) : fits n = true ↔ -2 ^ 63 ≤ n ∧ n < 2 ^ 64 := by simp [fits]

theorem dumpsD_str (s : String) (v : Py) (d : List (Key × Py)) : dumpsD ((.str s, v) :: d) =
    match dumps v, dumpsD d with
    | some j, some o => some ((s, j) :: o)
    | _, _ => none := by
  rw [dumpsD.eq_def]
  dsimp only
  cases dumps v <;> cases dumpsD d <;> rfl

theorem dumpsD_key (k : Key) (v : Py) (d : List (Key × Py)) (h : ∀ s, k ≠ .str s) : dumpsD ((k, v) :: d) = none := by
  rw [dumpsD.eq_def]
  cases k with
  | str s => exact absurd rfl (h s)
  | _ => rfl

theorem int_iff (n : Int) : (∃ j, arrives (.int n) = some j ∧ Same (.int n) j) ↔ Plain (.int n) := by
  by_cases h : fits n = true
  · have hf := (fits_spec n).1 h
    have e : arrives (.int n) = some (.int (toDouble n)) := by simp [arrives, dumps, h, parse]
    constructor
    · rintro ⟨j, hj, hs⟩
      rw [e] at hj
      cases hj
      exact ⟨hf.1, hf.2, (toDouble_spec n).1 hs.symm⟩
    · rintro ⟨_, _, hp⟩
      exact ⟨_, e, ((toDouble_spec n).2 hp).symm⟩
  · have e : arrives (.int n) = none := by simp [arrives, dumps, h]
    constructor
    · rintro ⟨j, hj, _⟩
      rw [e] at hj
      cases hj
    · rintro ⟨h1, h2, _⟩
      exact absurd ((fits_spec n).2 ⟨h1, h2⟩) h

theorem of_some {α : Type} {o : Option α} {x : α} {P : α → Prop} (h : o = some x) : (∃ j, o = some j ∧ P j) ↔ P x :=
  ⟨fun ⟨_, hj, hp⟩ => Option.some.inj (h.symm.trans hj) ▸ hp, fun hp => ⟨x, h, hp⟩⟩

theorem of_none {α : Type} {o : Option α} {P : α → Prop} (h : o = none) : (∃ j, o = some j ∧ P j) ↔ False := by
  constructor
  · rintro ⟨_, hj, _⟩
    rw [h] at hj
    cases hj
  · exact False.elim

mutual
theorem exact_iff : ∀ v : Py, (∃ j, arrives v = some j ∧ Same v j) ↔ Plain v
  | .none => of_some (x := Js.null) rfl
  | .bool b => (of_some (x := Js.bool b) rfl).trans ⟨fun _ => trivial, fun _ => rfl⟩
  | .int n => int_iff n
  | .float x => (of_some (x := Js.float x) rfl).trans ⟨fun _ => trivial, fun _ => rfl⟩
  | .special => of_some (x := Js.null) rfl
  | .str s => (of_some (x := Js.str s) rfl).trans ⟨fun _ => trivial, fun _ => rfl⟩
  | .lone => of_none rfl
  | .list l => by
    refine Iff.trans ?_ (exactL_iff l)
    cases h : dumpsL l with
    | none => exact (of_none (by simp [arrives, dumps, h])).trans (of_none rfl).symm
    | some js => exact (of_some (x := Js.arr (parseL js)) (by simp [arrives, dumps, h, parse])).trans (of_some (x := parseL js) rfl).symm
  | .tuple l => by
    refine Iff.trans ?_ (exactL_iff l)
    cases h : dumpsL l with
    | none => exact (of_none (by simp [arrives, dumps, h])).trans (of_none rfl).symm
    | some js => exact (of_some (x := Js.arr (parseL js)) (by simp [arrives, dumps, h, parse])).trans (of_some (x := parseL js) rfl).symm
  | .dict d => by
    refine Iff.trans ?_ (exactD_iff d)
    cases h : dumpsD d with
    | none => exact (of_none (by simp [arrives, dumps, h])).trans (of_none rfl).symm
    | some o => exact (of_some (x := Js.obj (parseO o)) (by simp [arrives, dumps, h, parse])).trans (of_some (x := parseO o) rfl).symm
  | .native w => of_some (x := Js.str w) rfl
  | .other => of_none rfl
theorem exactL_iff : ∀ vs : List Py, (∃ js, (dumpsL vs).map parseL = some js ∧ SameL vs js) ↔ PlainL vs
  | [] => of_some (x := []) rfl
  | v :: vs => by
    refine Iff.trans ?_ (and_congr (exact_iff v) (exactL_iff vs))
    cases h : dumps v with
    | none =>
      refine (of_none (by simp [dumpsL, h])).trans ⟨False.elim, fun hc => ?_⟩
      exact (of_none (by simp [arrives, h])).1 hc.1
    | some j =>
      cases h' : dumpsL vs with
      | none =>
        refine (of_none (by simp [dumpsL, h, h'])).trans ⟨False.elim, fun hc => ?_⟩
        exact (of_none rfl).1 hc.2
      | some js =>
        refine (of_some (x := parse j :: parseL js) (by simp [dumpsL, h, h', parseL])).trans ?_
        exact and_congr (of_some (by simp [arrives, h])).symm (of_some rfl).symm
theorem exactD_iff : ∀ d : List (Key × Py), (∃ o, (dumpsD d).map parseO = some o ∧ SameD d o) ↔ PlainD d
  | [] => of_some (x := []) rfl
  | (k, v) :: d => by
    refine Iff.trans ?_ (and_congr Iff.rfl (and_congr (exact_iff v) (exactD_iff d)))
    by_cases hk : ∃ s, k = .str s
    · obtain ⟨s, rfl⟩ := hk
      cases h : dumps v with
      | none =>
        refine (of_none (by simp [dumpsD_str, h])).trans ⟨False.elim, fun hc => ?_⟩
        exact (of_none (by simp [arrives, h])).1 hc.2.1
      | some j =>
        cases h' : dumpsD d with
        | none =>
          refine (of_none (by simp [dumpsD_str, h, h'])).trans ⟨False.elim, fun hc => ?_⟩
          exact (of_none rfl).1 hc.2.2
        | some o =>
          refine (of_some (x := (s, parse j) :: parseO o) (by simp [dumpsD_str, h, h', parseO])).trans ?_
          exact and_congr ⟨fun _ => ⟨s, rfl⟩, fun _ => rfl⟩ (and_congr (of_some (by simp [arrives, h])).symm (of_some rfl).symm)
    · refine (of_none (by rw [dumpsD_key _ _ _ (fun s hs => hk ⟨s, hs⟩)]; rfl)).trans ⟨False.elim, fun hc => hk hc.1⟩
end

mutual
theorem dumps_modest : ∀ v : Py, checked v = true → ((dumps v).isSome = true ↔ Modest v)
  | .none, _ => by simp [dumps, Modest]
  | .bool b, _ => by simp [dumps, Modest]
  | .int n, _ => by
    simp only [dumps, Modest]
    rw [← fits_spec]
    by_cases h : fits n = true <;> simp [h]
  | .float x, _ => by simp [dumps, Modest]
  | .special, _ => by simp [dumps, Modest]
  | .str s, _ => by simp [dumps, Modest]
  | .lone, _ => by simp [dumps, Modest]
  | .list l, h => by simp only [checked] at h; simp [dumps, Modest, dumpsL_modest l h]
  | .tuple l, h => by simp only [checked] at h; simp [dumps, Modest, dumpsL_modest l h]
  | .dict d, h => by simp only [checked] at h; simp [dumps, Modest, dumpsD_modest d h]
  | .native w, h => by simp [checked] at h
  | .other, h => by simp [checked] at h
theorem dumpsL_modest : ∀ vs : List Py, checkedL vs = true → ((dumpsL vs).isSome = true ↔ ModestL vs)
  | [], _ => by simp [dumpsL, ModestL]
  | v :: vs, h => by
    simp only [checkedL, Bool.and_eq_true] at h
    rw [ModestL, ← dumps_modest v h.1, ← dumpsL_modest vs h.2, dumpsL]
    cases dumps v <;> cases dumpsL vs <;> simp
theorem dumpsD_modest : ∀ d : List (Key × Py), checkedD d = true → ((dumpsD d).isSome = true ↔ ModestD d)
  | [], _ => by simp [dumpsD, ModestD]
  | (k, v) :: d, h => by
    simp only [checkedD, Bool.and_eq_true] at h
    rw [ModestD, ← dumps_modest v h.1.2, ← dumpsD_modest d h.2]
    cases k with
    | str s => rw [dumpsD_str]; cases dumps v <;> cases dumpsD d <;> simp
    | _ => rw [dumpsD_key _ _ _ (by simp)]; simp
end

/-! ## Theorems -/

/-- **C122 (partial).** Which values arrive in the browser as they were given: exactly the plain ones.  Partial: large integers, not-a-number and the
infinities, lone surrogates, keys that are not strings, and objects of other types are not (`C122_large_violated`, `C122_special_violated`, …). -/
theorem C122_partial (v : Py) : (∃ j, arrives v = some j ∧ Same v j) ↔ Plain v := exact_iff v

/-- **C122 (partial).** Integers of up to 53 bits are exact. -/
theorem C122_integers_partial (n : Int) (h : -2 ^ 53 ≤ n ∧ n ≤ 2 ^ 53) : arrives (.int n) = some (.int n) := by
  have hp : Plain (.int n) := by
    refine ⟨by omega, by omega, ?_⟩
    by_cases h1 : n.natAbs < 2 ^ 53
    · exact ⟨n.natAbs, 0, h1, by simp⟩
    · exact ⟨1, 53, by decide, by omega⟩
  obtain ⟨j, hj, hs⟩ := (C122_partial _).2 hp
  rw [hj]
  cases j <;> simp only [Same] at hs <;> rw [hs]

/-- **C122.** An integer that can be sent arrives as a double that is nearest to it: none is nearer, and it has the same sign. -/
theorem C122_nearest (n k : Int) (h : arrives (.int n) = some (.int k)) (m e : Nat) (hm : m < 2 ^ 53) (sign : Bool) :
    (n - k).natAbs ≤ (n - (if sign then -(m * 2 ^ e : Nat) else (m * 2 ^ e : Nat) : Int)).natAbs ∧ (0 ≤ n → 0 ≤ k) ∧ (n ≤ 0 → k ≤ 0) := by
  simp only [arrives, dumps] at h
  split at h
  · simp only [Option.map_some, parse, Option.some.injEq, Js.int.injEq] at h
    subst h
    have h1 := roundNat_nearest n.natAbs m e hm
    simp only [apart] at h1
    have h0 := roundNat_nearest n.natAbs 0 0 (by decide)
    simp only [apart] at h0
    simp only [toDouble]
    generalize m * 2 ^ e = d at *
    generalize hz : roundNat n.natAbs = z at *
    by_cases hn : n = 0
    · subst hn
      have : z = 0 := by rw [← hz]; rfl
      subst this
      simp
    · refine ⟨?_, ?_, ?_⟩
      · split <;> split <;> omega
      · split <;> omega
      · split <;> omega
  · cases h

/-- **C122 (partial).** If an element can be made with checks on, its attributes can be sent exactly if they are modest.  Partial: the check lets
others pass (`C122_checked_violated`). -/
theorem C122_checked_partial (attrs v : Py) (h : construct true attrs = some v) : v = attrs ∧ ((arrives v).isSome = true ↔ Modest v) := by
  simp only [construct, Bool.true_and, Bool.not_eq_true'] at h
  split at h
  · cases h
  · rename_i hc
    cases h
    refine ⟨rfl, ?_⟩
    rw [arrives, Option.isSome_map]
    exact dumps_modest _ (by simpa using hc)

/-- **C122.** The updates of a layout reach the browser in order up to the first that cannot be sent; after it none does and the view is closed. -/
theorem C122_order (us : List Py) : ((outgoing us).2 = true ↔ ∀ u ∈ us, (arrives u).isSome = true) ∧
    ∃ n, (outgoing us).1.map some = (us.take n).map arrives ∧ ((outgoing us).2 = true → n = us.length) ∧
      ((outgoing us).2 = false → ∃ u, us[n]? = some u ∧ arrives u = none) := by
  induction us with
  | nil => exact ⟨by simp [outgoing], 0, by simp [outgoing], by simp, by simp [outgoing]⟩
  | cons u us ih =>
    obtain ⟨h1, n, h2, h3, h4⟩ := ih
    simp only [outgoing]
    cases hu : arrives u with
    | none => exact ⟨by simp [hu], 0, by simp, by simp, fun _ => ⟨u, by simp, hu⟩⟩
    | some j =>
      refine ⟨by simp [hu, h1], n + 1, by simp [h2, hu], fun h => by simp [h3 h], fun h => ?_⟩
      simpa using h4 h

/-! ## Cases -/

def attrsDemo : Py := .dict [(.str "class", .str "wide"), (.str "tabIndex", .int (-1)), (.str "style", .dict [(.str "zIndex", .int 9007199254740993)])]

example : ¬ Plain attrsDemo := by
  intro h
  obtain ⟨j, hj, hs⟩ := (C122_partial _).2 h
  have : arrives attrsDemo = some (.obj [("class", .str "wide"), ("tabIndex", .int (-1)), ("style", .obj [("zIndex", .int 9007199254740992)])]) := by rfl
  rw [this] at hj
  cases hj
  simp [attrsDemo, Same, SameD] at hs

example : ∃ j, arrives (.list [.int 3, .none, .dict [(.str "a", .tuple [.bool true, .float 1])]]) = some j ∧
    Same (.list [.int 3, .none, .dict [(.str "a", .tuple [.bool true, .float 1])]]) j :=
  (C122_partial _).2 (by simp only [Plain, PlainL, PlainD, Exact]; exact ⟨⟨by decide, by decide, 3, 0, by decide, by decide⟩, trivial, ⟨⟨_, rfl⟩, ⟨trivial, trivial, trivial⟩, trivial⟩, trivial⟩)

example : arrives (.int (-9007199254740992)) = some (.int (-9007199254740992)) := C122_integers_partial _ (by decide)
example : arrives (.int 9007199254740995) = some (.int 9007199254740996) := by rfl
example : (9007199254740995 - 9007199254740996 : Int).natAbs ≤ (9007199254740995 - (4503599627370497 * 2 ^ 1 : Nat) : Int).natAbs :=
  (C122_nearest 9007199254740995 9007199254740996 (by rfl) 4503599627370497 1 (by decide) false).1

example : construct true attrsDemo = some attrsDemo ∧ (arrives attrsDemo).isSome = true :=
  ⟨by rfl, ((C122_checked_partial attrsDemo _ (by rfl)).2).2 (by simp [attrsDemo, Modest, ModestD])⟩

example : (outgoing [.int 1, .lone, .int 2]).2 = false := by decide

/-- **C122 is violated** by large integers: 2⁵³ + 1 arrives as 2⁵³, although it can be made and sent. -/
theorem C122_large_violated : construct true (.int (2 ^ 53 + 1)) = some (.int (2 ^ 53 + 1)) ∧ arrives (.int (2 ^ 53 + 1)) = some (.int (2 ^ 53)) := by
  constructor <;> rfl

/-- **C122 is violated** by not-a-number and the infinities, which arrive as `null`. -/
theorem C122_special_violated : construct true .special = some .special ∧ arrives .special = some .null := by constructor <;> rfl

/-- **C122 is violated** by the check of attributes: it accepts a dict with an integer as key, an integer of 65 bits, and a string with a lone surrogate, none of
which can be sent; and it rejects dates, which can. -/
theorem C122_checked_violated :
    (∃ v, v = .dict [(.str "style", .dict [(.int 1, .str "x")])] ∧ construct true v = some v ∧ arrives v = none) ∧
    (construct true (.int (2 ^ 64)) = some (.int (2 ^ 64)) ∧ arrives (.int (2 ^ 64)) = none) ∧
    (construct true .lone = some .lone ∧ arrives .lone = none) ∧
    construct true (.native "2024-01-01") = none ∧ arrives (.native "2024-01-01") = some (.str "2024-01-01") :=
  ⟨⟨_, rfl, rfl, rfl⟩, ⟨rfl, rfl⟩, ⟨rfl, rfl⟩, rfl, rfl⟩

/-- **C122 is violated** for all other components once one has attributes that cannot be sent: their updates are never sent, not even the later ones
without such attributes. -/
theorem C122_contained_violated (later : List Py) : (outgoing (.lone :: later)).1.length = 0 ∧ (outgoing (.lone :: later)).2 = false := by
  constructor <;> rfl

end Verif.Wire
