import Verif.Hooks.Alias
/-! # C22 for dependencies in a list that the component keeps -/
namespace Verif.Hooks

theorem MemoRef.use_eq {D V} (eq : D → D → Bool) (heap : Nat → List D) (m : MemoRef V) (d : Option Nat) (out : Except Unit V) :
    (m.use eq heap d out).2 = ((⟨m.value, (m.deps.map heap).getD []⟩ : Memo D V).use eq (d.map heap) out).2 ∧
    (⟨(m.use eq heap d out).1.value, ((m.use eq heap d out).1.deps.map heap).getD []⟩ : Memo D V) =
      ((⟨m.value, (m.deps.map heap).getD []⟩ : Memo D V).use eq (d.map heap) out).1 := by
  unfold MemoRef.use Memo.use Memo.check
  cases hv : m.value with
  | none => cases out <;> simp
  | some v =>
    cases d with
    | none => cases out <;> simp
    | some d =>
      simp only [Option.map_some]
      cases sameDeps eq ((m.deps.map heap).getD []) (heap d)
      · cases out <;> simp
      · simp [hv]

/-- C22 (partial): as long as no sequence of dependencies is changed after it was given, it does not matter that the hook keeps the sequence itself: all
that was proved about the contents holds. -/
theorem C22_lists_partial {D V} (eq : D → D → Bool) (heap : Nat → List D) (rs : List (Option Nat × Except Unit V)) (d : Option Nat)
    (out : Except Unit V) :
    ((MemoRef.run eq (rs.map fun r => (heap, r))).use eq heap d out).2 =
      ((Memo.run eq (rs.map fun r => (r.1.map heap, r.2))).use eq (d.map heap) out).2 := by
  have h : ∀ (rs : List (Option Nat × Except Unit V)) (m : MemoRef V),
      (⟨((rs.map fun r => (heap, r)).foldl (fun m r => (m.use eq r.1 r.2.1 r.2.2).1) m).value,
        (((rs.map fun r => (heap, r)).foldl (fun m r => (m.use eq r.1 r.2.1 r.2.2).1) m).deps.map heap).getD []⟩ : Memo D V) =
      (rs.map fun r => (r.1.map heap, r.2)).foldl (fun m r => (m.use eq r.1 r.2).1) ⟨m.value, (m.deps.map heap).getD []⟩ := by
    intro rs
    induction rs with
    | nil => intro m; rfl
    | cons r rs ih =>
      intro m
      simp only [List.map_cons, List.foldl_cons]
      rw [ih, (MemoRef.use_eq eq heap m r.1 r.2).2]
  rw [(MemoRef.use_eq eq heap _ d out).1]
  exact congrArg (fun m => (Memo.use eq m (d.map heap) out).2) (h rs {})

example : ((MemoRef.run (D := Nat) (· == ·) ([(some 0, .ok 'a'), (some 1, .ok 'b')].map fun r => (fun i => [i], r))).use (· == ·) (fun i => [i])
    (some 1) (.ok 'c')).2.2 = false := by decide +kernel

/-- C22 is violated: a component that changes its list of dependencies in place, from `[1]` to `[2]`, and passes it again, gets the old value. -/
theorem C22_changed_list_violated :
    ((MemoRef.run (D := Nat) (· == ·) [(fun _ => [1], some 0, .ok 'a')]).use (· == ·) (fun _ => [2]) (some 0) (.ok 'b')).2.1.toOption = some (some 'a') ∧
    ((Memo.run (D := Nat) (· == ·) [(some [1], .ok 'a')]).use (· == ·) (some [2]) (.ok 'b')).2.1.toOption = some (some 'b') := by
  decide +kernel

end Verif.Hooks
