import Verif.Layout.Spec
import Std.Data.String.ToInt
/-! # Dictionaries and event targets (helper lemmas) -/
namespace Verif.Layout

/-! ### Dictionaries -/

def DictOK {α} (h : List (String × α)) : Prop := (h.map (·.1)).Nodup

theorem dictGet_nil {α} (k : String) : dictGet ([] : List (String × α)) k = none := rfl
theorem dictGet_cons {α} (k' : String) (v : α) (r) (k : String) :
    dictGet ((k', v) :: r) k = if k' = k then some v else dictGet r k := by
  unfold dictGet
  by_cases h : k' = k
  · simp [h]
  · simp [h]

theorem dictGet_mem {α} {h : List (String × α)} {k : String} : dictGet h k ≠ none ↔ k ∈ h.map (·.1) := by
  induction h with
  | nil => simp [dictGet_nil]
  | cons p r ih =>
    obtain ⟨k', v⟩ := p
    rw [dictGet_cons]
    by_cases hk : k' = k
    · simp [hk]
    · rw [if_neg hk, ih]; simp [Ne.symm hk, eq_comm]

theorem dictSet_get {α} (h : List (String × α)) (k : String) (v : α) (t : String) :
    dictGet (dictSet h k v) t = if k = t then some v else dictGet h t := by
  induction h with
  | nil => simp [dictSet, dictGet_cons, dictGet_nil]
  | cons p r ih =>
    obtain ⟨k', v'⟩ := p
    simp only [dictSet]
    by_cases hk : k' = k
    · subst hk; simp only [if_true, dictGet_cons]; split <;> rfl
    · rw [if_neg hk]; simp only [dictGet_cons, ih]
      by_cases h1 : k' = t
      · subst h1; simp [Ne.symm hk]
      · simp [h1]

theorem dictSet_keys {α} (h : List (String × α)) (k : String) (v : α) (x : String) :
    x ∈ (dictSet h k v).map (·.1) ↔ x = k ∨ x ∈ h.map (·.1) := by
  rw [← dictGet_mem, dictSet_get, ← dictGet_mem]
  by_cases h : k = x <;> simp [h, eq_comm]

theorem dictSet_ok {α} {h : List (String × α)} (hd : DictOK h) (k : String) (v : α) :
    DictOK (dictSet h k v) := by
  induction h with
  | nil => simp [dictSet, DictOK]
  | cons p r ih =>
    obtain ⟨k', v'⟩ := p
    simp only [DictOK, List.map_cons, List.nodup_cons] at hd
    simp only [dictSet]
    split
    · rename_i hk; subst hk; simp only [DictOK, List.map_cons, List.nodup_cons]; exact hd
    · rename_i hk
      simp only [DictOK, List.map_cons, List.nodup_cons]
      refine ⟨?_, ih hd.2⟩
      rw [dictSet_keys]; rintro (h | h)
      · exact hk h
      · exact hd.1 h

theorem dictDel_spec {α} {h : List (String × α)} (hd : DictOK h) {k : String} (hk : dictGet h k ≠ none) :
    ∃ h', dictDel h k = some h' ∧ DictOK h' ∧ ∀ t, dictGet h' t = if k = t then none else dictGet h t := by
  induction h with
  | nil => simp [dictGet_nil] at hk
  | cons p r ih =>
    obtain ⟨k', v'⟩ := p
    simp only [DictOK, List.map_cons, List.nodup_cons] at hd
    simp only [dictDel]
    by_cases hkk : k' = k
    · subst hkk
      refine ⟨r, by simp, hd.2, fun t => ?_⟩
      rw [dictGet_cons]
      by_cases ht : k' = t
      · subst ht
        simp only [if_true]
        have := mt dictGet_mem.1 hd.1
        simpa using this
      · simp [ht]
    · rw [dictGet_cons, if_neg hkk] at hk
      obtain ⟨h', h1, h2, h3⟩ := ih hd.2 hk
      refine ⟨(k', v') :: h', by simp [hkk, h1], ?_, fun t => ?_⟩
      · simp only [DictOK, List.map_cons, List.nodup_cons]
        refine ⟨?_, h2⟩
        rw [← dictGet_mem, h3]
        have := mt dictGet_mem.1 hd.1
        simp at this; simp [this]
      · rw [dictGet_cons, dictGet_cons, h3]
        by_cases ht : k' = t
        · subst ht; simp [Ne.symm hkk]
        · simp [ht]

/-- `h'` is `h` without the keys `ts`. -/
structure Del {α} (h : List (String × α)) (ts : List String) (h' : List (String × α)) : Prop where
  ok : DictOK h'
  get : ∀ t, dictGet h' t = if t ∈ ts then none else dictGet h t

theorem delTargets_del (ts : List (String × String × Handler)) (h : List (String × Handler)) (hd : DictOK h)
    (hn : (ts.map (·.2.1)).Nodup) (hp : ∀ t ∈ ts.map (·.2.1), dictGet h t ≠ none) :
    ∃ h', delTargets h ts = (h', true) ∧ Del h (ts.map (·.2.1)) h' := by
  induction ts generalizing h with
  | nil => exact ⟨h, rfl, hd, by simp⟩
  | cons x r ih =>
    obtain ⟨ev, t, hd'⟩ := x
    simp only [List.map_cons, List.nodup_cons] at hn
    obtain ⟨h1, e1, d1, g1⟩ := dictDel_spec hd (hp t (by simp))
    obtain ⟨h2, e2, d2⟩ := ih h1 d1 hn.2 (by
      intro t' ht'
      rw [g1]
      have : t ≠ t' := by rintro rfl; exact hn.1 ht'
      rw [if_neg this]
      exact hp t' (by simp only [List.map_cons, List.mem_cons]; exact .inr ht'))
    refine ⟨h2, by simp [delTargets, e1, e2], d2.ok, fun t' => ?_⟩
    rw [d2.get, g1]
    simp only [List.map_cons, List.mem_cons]
    by_cases a : t' ∈ r.map (·.2.1)
    · rw [if_pos a, if_pos (.inr a)]
    · rw [if_neg a]
      by_cases b : t = t'
      · rw [if_pos b, if_pos (.inl b.symm)]
      · rw [if_neg b, if_neg]; rintro (h | h)
        · exact b h.symm
        · exact a h

theorem Del.comp {α} {h h1 h2 : List (String × α)} {a b c : List String} (d1 : Del h a h1) (d2 : Del h1 b h2)
    (hc : ∀ t, t ∈ c ↔ t ∈ a ∨ t ∈ b) : Del h c h2 := by
  refine ⟨d2.ok, fun t => ?_⟩
  rw [d2.get, d1.get]
  by_cases ha : t ∈ a <;> by_cases hb : t ∈ b <;> simp [ha, hb, hc]

/-! ### Event targets are unambiguous -/

/-- The characters of a path of keys. -/
def pathChars : List Key → List Char
  | [] => []
  | k :: r => '/' :: k.fmt.toList ++ pathChars r

theorem foldl_path (K : List Key) (acc : String) :
    (K.foldl (fun acc k => acc ++ "/" ++ k.fmt) acc).toList = acc.toList ++ pathChars K := by
  induction K generalizing acc with
  | nil => simp [pathChars]
  | cons k r ih => simp [List.foldl_cons, ih, pathChars, String.toList_append]

theorem autoTarget_toList (K : List Key) (ev : String) :
    (autoTarget K ev).toList = pathChars K ++ ':' :: ev.toList := by
  simp [autoTarget, String.toList_append, foldl_path]

theorem int_chars {n : Int} {c : Char} (h : c ∈ (toString n).toList) : c.isDigit ∨ c = '-' := by
  have hr : toString n = Int.repr n := rfl
  rw [hr, Int.repr_eq_if] at h
  split at h
  · left; rw [Nat.toList_repr] at h
    exact Nat.isDigit_of_mem_toDigits (by omega) (by omega) h
  · rw [String.toList_append, List.mem_append] at h
    rcases h with h | h
    · right; simpa using h
    · left; rw [Nat.toList_repr] at h
      exact Nat.isDigit_of_mem_toDigits (by omega) (by omega) h

theorem Key.Plain.chars {k : Key} (h : k.Plain) : '/' ∉ k.fmt.toList ∧ ':' ∉ k.fmt.toList := by
  cases k with
  | int n =>
    constructor <;> · intro hc; rcases int_chars hc with h | h <;> revert h <;> decide
  | str s => exact ⟨h.1, h.2.1⟩

theorem Key.Plain.fmt_inj {k k' : Key} (h : k.Plain) (h' : k'.Plain) (he : k.fmt = k'.fmt) : k = k' := by
  cases k with
  | int n =>
    cases k' with
    | int m => exact congrArg Key.int (Int.repr_injective he)
    | str s => exact absurd he.symm (h'.2.2 n)
  | str s =>
    cases k' with
    | int m => exact absurd he (h.2.2 m)
    | str s' => exact congrArg Key.str he

/-- Splitting at the first occurrence of a separator is unambiguous. -/
theorem split_first {c : Char} {a a' b b' : List Char} (h : c ∉ a) (h' : c ∉ a')
    (he : a ++ c :: b = a' ++ c :: b') : a = a' ∧ b = b' := by
  induction a generalizing a' with
  | nil =>
    cases a' with
    | nil => simpa using he
    | cons x xs => simp at he; exact absurd he.1 (by rintro rfl; simp at h')
  | cons x xs ih =>
    cases a' with
    | nil => simp at he; exact absurd he.1 (by rintro rfl; simp at h)
    | cons y ys =>
      simp only [List.cons_append, List.cons.injEq] at he
      simp only [List.mem_cons, not_or] at h h'
      obtain ⟨e1, e2⟩ := ih h.2 h'.2 he.2
      exact ⟨by rw [he.1, e1], e2⟩

def PlainL (K : List Key) : Prop := ∀ k ∈ K, k.Plain

theorem pathChars_colon {K : List Key} (h : PlainL K) : ':' ∉ pathChars K := by
  induction K with
  | nil => simp [pathChars]
  | cons k r ih =>
    simp only [pathChars, List.cons_append, List.mem_cons, List.mem_append, not_or]
    exact ⟨by decide, (h k (by simp)).chars.2, ih (fun x hx => h x (by simp [hx]))⟩

theorem pathChars_inj {K K' : List Key} (h : PlainL K) (h' : PlainL K') (he : pathChars K = pathChars K') :
    K = K' := by
  induction K generalizing K' with
  | nil => cases K' with
    | nil => rfl
    | cons => simp [pathChars] at he
  | cons k r ih =>
    cases K' with
    | nil => simp [pathChars] at he
    | cons k' r' =>
      simp only [pathChars, List.cons_append, List.cons.injEq, true_and] at he
      have hk := (h k (by simp)).chars.1
      have hk' := (h' k' (by simp)).chars.1
      have hr : PlainL r := fun x hx => h x (by simp [hx])
      have hr' : PlainL r' := fun x hx => h' x (by simp [hx])
      have key : k.fmt.toList = k'.fmt.toList ∧ pathChars r = pathChars r' := by
        cases r with
        | nil => cases r' with
          | nil => simpa [pathChars] using he
          | cons y ys =>
            simp only [pathChars, List.append_nil, List.cons_append] at he
            exact absurd (he ▸ (by simp : '/' ∈ k'.fmt.toList ++ '/' :: (y.fmt.toList ++ pathChars ys))) hk
        | cons x xs => cases r' with
          | nil =>
            simp only [pathChars, List.append_nil, List.cons_append] at he
            exact absurd (he ▸ (by simp : '/' ∈ k.fmt.toList ++ '/' :: (x.fmt.toList ++ pathChars xs))) hk'
          | cons y ys =>
            simp only [pathChars, List.cons_append] at he ⊢
            obtain ⟨e1, e2⟩ := split_first hk hk' he
            exact ⟨e1, by rw [e2]⟩
      rw [(h k (by simp)).fmt_inj (h' k' (by simp)) (String.toList_inj.1 key.1), ih hr hr' key.2]

theorem autoTarget_inj {K K' : List Key} {ev ev' : String} (h : PlainL K) (h' : PlainL K')
    (he : autoTarget K ev = autoTarget K' ev') : K = K' ∧ ev = ev' := by
  have := congrArg String.toList he
  rw [autoTarget_toList, autoTarget_toList] at this
  obtain ⟨e1, e2⟩ := split_first (pathChars_colon h) (pathChars_colon h') this
  exact ⟨pathChars_inj h h' e1, String.toList_inj.1 e2⟩

/-- Targets of elements at or below the key path `K`. -/
def Scope (K : List Key) (t : String) : Prop := ∃ K' ev, PlainL K' ∧ t = autoTarget (K ++ K') ev

theorem scope_self (K : List Key) (ev : String) : Scope K (autoTarget K ev) :=
  ⟨[], ev, by simp [PlainL], by simp⟩

theorem Scope.up {K : List Key} {k : Key} {t : String} (hk : k.Plain) (h : Scope (K ++ [k]) t) : Scope K t := by
  obtain ⟨K', ev, hp, rfl⟩ := h
  exact ⟨k :: K', ev, by intro x hx; simp at hx; rcases hx with rfl | hx; exact hk; exact hp x hx, by simp⟩

theorem PlainL.snoc {K : List Key} {k : Key} (h : PlainL K) (hk : k.Plain) : PlainL (K ++ [k]) := by
  intro x hx; simp at hx; rcases hx with hx | rfl
  · exact h x hx
  · exact hk

theorem PlainL.app {K K' : List Key} (h : PlainL K) (h' : PlainL K') : PlainL (K ++ K') := by
  intro x hx; simp at hx; exact hx.elim (h x) (h' x)

theorem scope_disj {K : List Key} {k k' : Key} {t : String} (hK : PlainL K) (hk : k.Plain) (hk' : k'.Plain)
    (h : Scope (K ++ [k]) t) (h' : Scope (K ++ [k']) t) : k = k' := by
  obtain ⟨L, ev, hp, rfl⟩ := h
  obtain ⟨L', ev', hp', he⟩ := h'
  have := (autoTarget_inj ((hK.snoc hk).app hp) ((hK.snoc hk').app hp') he).1
  simp at this
  exact this.1

theorem scope_not_self {K : List Key} {k : Key} {ev : String} (hK : PlainL K) (hk : k.Plain)
    (h : Scope (K ++ [k]) (autoTarget K ev)) : False := by
  obtain ⟨L, ev', hp, he⟩ := h
  have := (autoTarget_inj hK ((hK.snoc hk).app hp) he).1
  have := congrArg List.length this
  simp at this

end Verif.Layout
