import Verif.Vdom.Model
namespace Verif.Vdom

/-- Specification for C29: the leaf reached in a sequence of children by a path of indices through
nested iterables. -/
def leafAt : List Val → List Nat → Option Val
  | _, [] => none
  | vs, n :: p => match vs[n]? with
    | none => none
    | some (.iter l) => leafAt l p
    | some v => if p = [] then some v else none

mutual
def pathsOne (n : Nat) : Val → List (List Nat)
  | .iter l => (paths 0 l).map (n :: ·)
  | .str _ => [[n]]
  | .js _ => [[n]]
  | .dict _ => [[n]]
  | .mapping _ => [[n]]
  | .fn _ => [[n]]
  | .handler _ => [[n]]
  | .other _ => [[n]]
def paths (n : Nat) : List Val → List (List Nat)
  | [] => []
  | v :: vs => pathsOne n v ++ paths (n + 1) vs
end

theorem paths_ge : (vs : List Val) → (n : Nat) → ∀ q ∈ paths n vs, ∃ m r, q = m :: r ∧ n ≤ m
  | [], n, q, h => by simp [paths] at h
  | v :: vs, n, q, h => by
    simp only [paths, List.mem_append] at h
    rcases h with h | h
    · cases v <;> simp only [pathsOne, List.mem_singleton, List.mem_map] at h
      case iter l => obtain ⟨r, _, rfl⟩ := h; exact ⟨n, r, rfl, Nat.le_refl _⟩
      all_goals subst h; exact ⟨n, [], rfl, Nat.le_refl _⟩
    · obtain ⟨m, r, h1, h2⟩ := paths_ge vs (n + 1) q h
      exact ⟨m, r, h1, by omega⟩

theorem pathsOne_head (v : Val) (n : Nat) : ∀ q ∈ pathsOne n v, ∃ r, q = n :: r := by
  intro q h
  cases v <;> simp only [pathsOne, List.mem_singleton, List.mem_map] at h
  case iter l => obtain ⟨r, _, rfl⟩ := h; exact ⟨r, rfl⟩
  all_goals subst h; exact ⟨[], rfl⟩

mutual
theorem pathsOne_sorted : (v : Val) → (n : Nat) → (pathsOne n v).Pairwise (· < ·)
  | .iter l, n => by
    simp only [pathsOne, List.pairwise_map]
    exact (paths_sorted l 0).imp (fun h => by simpa [List.cons_lt_cons_iff] using h)
  | .str _, n => by simp [pathsOne]
  | .js _, n => by simp [pathsOne]
  | .dict _, n => by simp [pathsOne]
  | .mapping _, n => by simp [pathsOne]
  | .fn _, n => by simp [pathsOne]
  | .handler _, n => by simp [pathsOne]
  | .other _, n => by simp [pathsOne]
theorem paths_sorted : (vs : List Val) → (n : Nat) → (paths n vs).Pairwise (· < ·)
  | [], n => by simp [paths]
  | v :: vs, n => by
    simp only [paths, List.pairwise_append]
    refine ⟨pathsOne_sorted v n, paths_sorted vs (n + 1), ?_⟩
    intro a ha b hb
    obtain ⟨r, rfl⟩ := pathsOne_head v n a ha
    obtain ⟨m, r', rfl, hm⟩ := paths_ge vs (n + 1) b hb
    rw [List.cons_lt_cons_iff]
    exact .inl (by omega)
end

/-- `leafAt` of a path whose first index counts from `n`. -/
def leafFrom (n : Nat) (vs : List Val) : List Nat → Option Val
  | [] => none
  | m :: p => if n ≤ m then leafAt vs ((m - n) :: p) else none

theorem leafFrom_zero (vs : List Val) (p : List Nat) : leafFrom 0 vs p = leafAt vs p := by
  cases p <;> simp [leafFrom, leafAt]

theorem leafFrom_succ (n : Nat) (v : Val) (vs : List Val) (m : Nat) (p : List Nat) (h : n + 1 ≤ m) :
    leafFrom n (v :: vs) (m :: p) = leafFrom (n + 1) vs (m :: p) := by
  obtain ⟨k, rfl⟩ : ∃ k, m = n + 1 + k := ⟨m - (n + 1), by omega⟩
  simp only [leafFrom]
  rw [if_pos (by omega), if_pos h, show n + 1 + k - n = k + 1 by omega, show n + 1 + k - (n + 1) = k by omega]
  simp [leafAt]

mutual
theorem pathsOne_leaf : (v : Val) → (n : Nat) → (vs : List Val) →
    (pathsOne n v).map (leafFrom n (v :: vs)) = (flattenOne v).map some
  | .iter l, n, vs => by
    simp only [pathsOne, flattenOne, List.map_map]
    rw [← paths_leaf l 0]
    apply List.map_congr_left
    intro q hq
    show leafFrom n (.iter l :: vs) (n :: q) = leafFrom 0 l q
    rw [leafFrom_zero]
    simp [leafFrom, leafAt]
  | .str _, n, vs => by simp [pathsOne, flattenOne, leafFrom, leafAt]
  | .js _, n, vs => by simp [pathsOne, flattenOne, leafFrom, leafAt]
  | .dict _, n, vs => by simp [pathsOne, flattenOne, leafFrom, leafAt]
  | .mapping _, n, vs => by simp [pathsOne, flattenOne, leafFrom, leafAt]
  | .fn _, n, vs => by simp [pathsOne, flattenOne, leafFrom, leafAt]
  | .handler _, n, vs => by simp [pathsOne, flattenOne, leafFrom, leafAt]
  | .other _, n, vs => by simp [pathsOne, flattenOne, leafFrom, leafAt]
theorem paths_leaf : (vs : List Val) → (n : Nat) → (paths n vs).map (leafFrom n vs) = (flatten vs).map some
  | [], n => by simp [paths, flatten]
  | v :: vs, n => by
    simp only [paths, flatten, List.map_append]
    rw [pathsOne_leaf v n vs, ← paths_leaf vs (n + 1)]
    congr 1
    apply List.map_congr_left
    intro q hq
    obtain ⟨m, r, rfl, hm⟩ := paths_ge vs (n + 1) q hq
    exact leafFrom_succ n v vs m r hm
end

mutual
theorem leaf_pathsOne : (v : Val) → (n : Nat) → (vs : List Val) → (p : List Nat) →
    (leafFrom n (v :: vs) (n :: p)).isSome → n :: p ∈ pathsOne n v
  | .iter l, n, vs, p, h => by
    simp only [pathsOne, List.mem_map, List.cons.injEq, true_and, exists_eq_right]
    apply leaf_paths l 0 p
    rw [leafFrom_zero]
    simpa [leafFrom, leafAt] using h
  | .str _, n, vs, p, h => by simp [leafFrom, leafAt] at h; simp [pathsOne, h]
  | .js _, n, vs, p, h => by simp [leafFrom, leafAt] at h; simp [pathsOne, h]
  | .dict _, n, vs, p, h => by simp [leafFrom, leafAt] at h; simp [pathsOne, h]
  | .mapping _, n, vs, p, h => by simp [leafFrom, leafAt] at h; simp [pathsOne, h]
  | .fn _, n, vs, p, h => by simp [leafFrom, leafAt] at h; simp [pathsOne, h]
  | .handler _, n, vs, p, h => by simp [leafFrom, leafAt] at h; simp [pathsOne, h]
  | .other _, n, vs, p, h => by simp [leafFrom, leafAt] at h; simp [pathsOne, h]
theorem leaf_paths : (vs : List Val) → (n : Nat) → (p : List Nat) → (leafFrom n vs p).isSome → p ∈ paths n vs
  | vs, n, [], h => by simp [leafFrom] at h
  | [], n, m :: p, h => by simp only [leafFrom] at h; split at h <;> simp [leafAt] at h
  | v :: vs, n, m :: p, h => by
    simp only [paths, List.mem_append]
    by_cases hm : n + 1 ≤ m
    · rw [leafFrom_succ n v vs m p hm] at h
      exact .inr (leaf_paths vs (n + 1) (m :: p) h)
    · by_cases hn : n ≤ m
      · have : m = n := by omega
        subst this
        exact .inl (leaf_pathsOne v m vs p h)
      · simp [leafFrom, hn] at h
end

/-! ### C30 -/

theorem foldl_parts (word : Char → Bool) (l : List (String × Val)) (p : Parts) :
    l.foldl (Parts.add word) p =
      { attributes := p.attributes ++ (l.foldl (Parts.add word) {}).attributes
        handlers := p.handlers ++ (l.foldl (Parts.add word) {}).handlers
        inlineJs := p.inlineJs ++ (l.foldl (Parts.add word) {}).inlineJs } := by
  induction l generalizing p with
  | nil => simp
  | cons kv l ih =>
    simp only [List.foldl_cons]
    rw [ih (p.add word kv), ih (Parts.add word {} kv)]
    obtain ⟨k, v⟩ := kv
    cases v <;> simp [Parts.add]
    split <;> simp

theorem filter_put (d : List (String × Val)) (k : String) (v : Val) :
    (put d k v).filter (fun p => p.1 ≠ k) = d.filter (fun p => p.1 ≠ k) := by
  induction d with
  | nil => simp [put]
  | cons p r ih =>
    obtain ⟨a, b⟩ := p
    simp only [put]
    by_cases ha : a = k
    · rw [if_pos ha]; subst ha; simp
    · rw [if_neg ha]; simp only [List.filter_cons, ih]

theorem get_put (d : List (String × Val)) (k : String) (v : Val) : get (put d k v) k = some v := by
  induction d with
  | nil => simp [put, get]
  | cons p r ih =>
    obtain ⟨a, b⟩ := p
    simp only [put]
    by_cases ha : a = k
    · rw [if_pos ha]; simp [get]
    · rw [if_neg ha]; simp only [get, List.find?_cons] at ih ⊢; simp [ha]; simpa using ih

theorem put_same {d : List (String × Val)} {k : String} {v : Val} (h : get d k = some v) : put d k v = d := by
  induction d with
  | nil => simp [get] at h
  | cons p r ih =>
    obtain ⟨a, b⟩ := p
    simp only [put]
    by_cases ha : a = k
    · subst ha; simp [get] at h; simp [h]
    · rw [if_neg ha, ih]
      simp only [get, List.find?_cons, ha, decide_false] at h
      exact h

end Verif.Vdom
