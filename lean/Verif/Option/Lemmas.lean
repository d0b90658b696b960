import Verif.Option.Spec
namespace Verif.Option
variable {V : Type} [DecidableEq V] {ne : V → V → Bool}

mutual
theorem told_refl (hne : ∀ x, ne x x = false) : (t : Tree V) → Told ne none t t
  | .user r got => by simp [Told]
  | .opt i c subs => ⟨c, subs, rfl, by simp, by simpa [hne] using toldL_refl hne _ subs⟩
theorem toldL_refl (hne : ∀ x, ne x x = false) (now : V) : (ts : List (Tree V)) → ToldL ne none now ts ts
  | [] => by simp [ToldL]
  | t :: ts => ⟨t, ts, rfl, told_refl hne t, toldL_refl hne now ts⟩
end

mutual
theorem call_told (hne : ∀ x, ne x x = false) (v : V) : (t : Tree V) → (call ne v t).2 = none →
    Told ne (some v) t (call ne v t).1
  | .user r got, h => by simp [call, Told]
  | .opt i c subs, h => by
    simp only [call] at h ⊢
    split at h
    · rename_i hv
      rw [if_pos hv]
      exact ⟨c, subs, rfl, fun x hx => by cases hx; exact .inl hv.symm, by simpa [hne] using toldL_refl hne _ subs⟩
    · rename_i hv
      rw [if_neg hv]
      split at h
      · simp at h
      · rename_i hm
        rw [if_neg hm]
        split at h
        · simp at h
        · rename_i new' hval
          split at h
          · rename_i hn
            rw [if_pos hn]
            refine ⟨some new', _, rfl, fun x hx => by cases hx; exact .inr hval, ?_⟩
            simpa [hn] using callAll_told hne new' subs h
          · rename_i hn
            rw [if_neg hn]
            refine ⟨some new', _, rfl, fun x hx => by cases hx; exact .inr hval, ?_⟩
            simpa [hn] using toldL_refl hne _ subs
theorem callAll_told (hne : ∀ x, ne x x = false) (v : V) : (ts : List (Tree V)) → (callAll ne v ts).2 = none →
    ToldL ne (some v) v ts (callAll ne v ts).1
  | [], h => by simp [callAll, ToldL]
  | t :: ts, h => by
    have hc := call_told hne v t
    simp only [callAll] at h ⊢
    split at h
    · simp at h
    · rename_i s' heq
      rw [heq] at hc
      exact ⟨_, _, rfl, hc rfl, callAll_told hne v ts h⟩
end

theorem told_none {t t' : Tree V} {v : V} (h : Told ne (some v) t t') (ht : ∀ r g, t ≠ .user r g) :
    Told ne none t t' := by
  cases t with
  | user r g => exact absurd rfl (ht r g)
  | opt i c subs =>
    obtain ⟨c', subs', h1, h2, h3⟩ := h
    exact ⟨c', subs', h1, by simp, h3⟩

theorem setTo_told (hne : ∀ x, ne x x = false) (v : V) (i : Info V) (c : Option V) (subs : List (Tree V)) {r}
    (h : (setTo ne v (.opt i c subs)).2 = .ok r) : Told ne none (.opt i c subs) (setTo ne v (.opt i c subs)).1 := by
  simp only [setTo] at h ⊢
  split at h
  · simp at h
  · rename_i h1
    exact told_none (call_told hne v _ h1) (by simp)

theorem toldL_append (hne : ∀ x, ne x x = false) {now : V} (s : Tree V)
    (hs : match s with | .user _ got => got = [now] | .opt i c subs => Agrees now i c ∧ subs = []) :
    (ts : List (Tree V)) → ToldL ne none now ts (ts ++ [s])
  | [] => by simp only [ToldL, List.nil_append, List.mem_singleton, forall_eq]; exact hs
  | t :: ts => ⟨t, ts ++ [s], rfl, told_refl hne t, toldL_append hne s hs ts⟩

theorem call_nil (v : V) (i : Info V) (c : Option V) : ∃ c', (call ne v (.opt i c [])).1 = .opt i c' [] := by
  simp only [call]
  split
  · exact ⟨_, rfl⟩
  · split
    · exact ⟨_, rfl⟩
    · split
      · exact ⟨_, rfl⟩
      · split <;> exact ⟨_, rfl⟩

theorem subscribe_told (hne : ∀ x, ne x x = false) (s : Tree V) (i : Info V) (c : Option V) (subs : List (Tree V)) {r}
    (hs : ∀ r g, s = .user r g → g = []) (hs' : ∀ j d ts, s = .opt j d ts → ts = []) (h : (subscribe ne s i c subs).2 = .ok r) :
    Told ne none (.opt i c subs) (subscribe ne s i c subs).1 := by
  simp only [subscribe] at h ⊢
  split at h
  · simp at h
  · rename_i hm
    rw [if_neg hm]
    simp only at h ⊢
    split at h
    · simp at h
    · rename_i h1
      refine ⟨c, _, rfl, by simp, ?_⟩
      rw [hne]
      refine toldL_append hne _ ?_ subs
      have := call_told hne (c.getD i.default) s h1
      cases s with
      | user r g =>
        rw [show (call ne (c.getD i.default) (.user r g)).1 = _ from this, hs r g rfl]; simp
      | opt j d ts =>
        have hts := hs' j d ts rfl
        subst hts
        obtain ⟨c', subs', hr, ha, _⟩ := this
        have := call_nil (ne := ne) (c.getD i.default) j d
        rw [hr] at this ⊢
        obtain ⟨c'', hc⟩ := this
        cases hc
        exact ⟨ha _ rfl, rfl⟩

theorem act_told (hne : ∀ x, ne x x = false) (a : Act V) (t : Tree V) {r} (h : (act ne a t).2 = .ok r) :
    Told ne none t (act ne a t).1 := by
  cases t with
  | user rs g => cases a <;> exact told_refl hne _
  | opt i c subs =>
    cases a with
    | set v => exact setTo_told hne v i c subs h
    | unset =>
      simp only [act, unset] at h ⊢
      split at h
      · simp at h
      · rename_i hm
        rw [if_neg hm]
        split at h
        · rename_i hn
          rw [if_pos hn]
          simp only at h ⊢
          split at h
          · simp at h
          · rename_i h1
            exact ⟨none, _, rfl, by simp, by simpa [hn] using callAll_told hne _ subs h1⟩
        · rename_i hn
          rw [if_neg hn]
          exact ⟨none, _, rfl, by simp, by simpa [hn] using toldL_refl hne _ subs⟩
    | reload env => exact setTo_told hne _ i c subs h
    | setDefault v =>
      simp only [act, setDefault] at h ⊢
      cases c with
      | some w => exact told_refl hne _
      | none =>
        simp only at h ⊢
        have hc := call_told hne v (.opt i none subs)
        split at h
        · simp at h
        · rename_i t heq
          rw [heq] at hc
          exact told_none (hc rfl) (by simp)
    | subscribe rs => exact subscribe_told hne _ i c subs (by simp) (by simp) h
    | child m f env =>
      simp only [act, createChild] at h ⊢
      split at h
      · simp at h
      · rename_i t heq
        split at h
        · rename_i hm
          rw [if_pos hm]
          refine subscribe_told hne _ i c subs ?_ ?_ h
          · intro rs g hg
            subst hg
            simp only [create] at heq
            split at heq
            · simp at heq
            · split at heq <;> simp at heq
          · intro j d ts hg
            subst hg
            simp only [create] at heq
            split at heq
            · simp at heq; exact heq.2.2
            · split at heq
              · simp at heq
              · simp at heq; exact heq.2.2
        · simp at h

mutual
theorem actAt_told (hne : ∀ x, ne x x = false) (a : Act V) : (p : List Nat) → (t : Tree V) → {r : Option V} →
    (actAt ne a p t).2 = .ok r → Told ne none t (actAt ne a p t).1
  | [], t, r, h => by simp only [actAt] at h ⊢; exact act_told hne a t h
  | n :: p, .user rs g, r, h => by simp only [actAt] at h ⊢; exact told_refl hne _
  | n :: p, .opt i c subs, r, h => by
    simp only [actAt] at h ⊢
    exact ⟨c, _, rfl, by simp, by simpa [hne] using actAtL_told hne a p _ n subs h⟩
theorem actAtL_told (hne : ∀ x, ne x x = false) (a : Act V) (p : List Nat) (now : V) : (n : Nat) → (ts : List (Tree V)) →
    {r : Option V} → (actAtL ne a p n ts).2 = .ok r → ToldL ne none now ts (actAtL ne a p n ts).1
  | n, [], r, h => by simp [actAtL, ToldL]
  | 0, t :: ts, r, h => by
    simp only [actAtL] at h ⊢
    exact ⟨_, _, rfl, actAt_told hne a p t h, toldL_refl hne now ts⟩
  | n + 1, t :: ts, r, h => by
    simp only [actAtL] at h ⊢
    exact ⟨_, _, rfl, told_refl hne t, actAtL_told hne a p now n ts h⟩
end

/-! ### Histories -/

/-- `==` is an equivalence. -/
structure Sane (ne : V → V → Bool) : Prop where
  refl : ∀ x, ne x x = false
  symm : ∀ x y, ne x y = false → ne y x = false
  trans : ∀ x y z, ne x y = false → ne y z = false → ne x z = false

theorem chain_snoc {g : List V} {v w : V} (hg : ∀ l a b r, g = l ++ a :: b :: r → ne b a = true)
    (hw : g.getLast? = some w) (hv : ne v w = true) :
    ∀ l a b r, g ++ [v] = l ++ a :: b :: r → ne b a = true := by
  intro l a b r h
  rcases List.eq_nil_or_concat r with rfl | ⟨r', x, rfl⟩
  · have h2 : g ++ [v] = (l ++ [a]) ++ [b] := by simpa using h
    obtain ⟨h3, h4⟩ := List.append_inj' h2 rfl
    subst h3
    simp at hw h4
    subst h4; subst hw
    exact hv
  · have h2 : g ++ [v] = (l ++ a :: b :: r') ++ [x] := by simpa using h
    obtain ⟨h3, h4⟩ := List.append_inj' h2 rfl
    exact hg l a b r' h3

mutual
theorem told_synced (hne : Sane ne) : (t : Tree V) → (t' : Tree V) → (u : Option V) → Told ne u t t' → Synced ne t → Synced ne t'
  | .user r g, t', u, h, hs => by obtain ⟨r', rfl⟩ := h; simp [Synced]
  | .opt i c subs, t', u, h, hs => by
    obtain ⟨c', subs', rfl, _, h⟩ := h
    simp only [Synced] at hs ⊢
    refine toldL_synced hne subs subs' _ (c'.getD i.default) (c.getD i.default) ?_ h hs
    split
    · rename_i hn; exact .inl ⟨rfl, hn⟩
    · rename_i hn; exact .inr ⟨rfl, by simpa using hn⟩
theorem toldL_synced (hne : Sane ne) : (ts : List (Tree V)) → (ts' : List (Tree V)) → (u : Option V) → (now old : V) →
    (u = some now ∧ ne now old = true ∨ u = none ∧ ne now old = false) → ToldL ne u now ts ts' →
    SyncedL ne old ts → SyncedL ne now ts'
  | [], [], u, now, old, hu, h, hs => by simp [SyncedL]
  | [], t :: ts', u, now, old, hu, h, hs => by
    simp only [ToldL, List.mem_cons, forall_eq_or_imp] at h
    obtain ⟨h1, h2⟩ := h
    have ih := toldL_synced hne [] ts' u now old hu (by simpa only [ToldL] using h2) (by simp [SyncedL])
    cases t with
    | user r g =>
      simp only at h1; subst h1
      refine ⟨⟨now, rfl, hne.refl _⟩, ?_, ih⟩
      intro l a b r h
      have := congrArg List.length h
      simp at this; omega
    | opt i c subs =>
      simp only at h1
      obtain ⟨_, rfl⟩ := h1
      exact ⟨by simp [Synced, SyncedL], ih⟩
  | .user r g :: ts, ts', u, now, old, hu, h, hs => by
    obtain ⟨s', ss', rfl, ⟨r', rfl⟩, h2⟩ := h
    obtain ⟨⟨w, hw, hwo⟩, hc, hs⟩ := hs
    refine ⟨?_, ?_, toldL_synced hne ts ss' u now old hu h2 hs⟩
    · rcases hu with ⟨rfl, hn⟩ | ⟨rfl, hn⟩
      · exact ⟨now, by simp, hne.refl _⟩
      · exact ⟨w, by simpa using hw, hne.trans _ _ _ hn hwo⟩
    · rcases hu with ⟨rfl, hn⟩ | ⟨rfl, hn⟩
      · refine chain_snoc hc hw ?_
        cases hx : ne now w with
        | true => rfl
        | false =>
          have := hne.trans _ _ _ hx (hne.symm _ _ hwo)
          rw [hn] at this; simp at this
      · simpa using hc
  | .opt i c subs :: ts, ts', u, now, old, hu, h, hs => by
    obtain ⟨s', ss', rfl, h1, h2⟩ := h
    obtain ⟨hs1, hs2⟩ := hs
    have := told_synced hne (.opt i c subs) s' u h1 hs1
    obtain ⟨c', subs', rfl, _⟩ := h1
    exact ⟨this, toldL_synced hne ts ss' u now old hu h2 hs2⟩
end

theorem run_synced (hne : Sane ne) (ops : List (List Nat × Act V)) (t : Tree V) (ht : Synced ne t)
    (hok : ∀ r ∈ (run ne t ops).2, ∃ v, r = .ok v) : Synced ne (run ne t ops).1 := by
  induction ops generalizing t with
  | nil => exact ht
  | cons o ops ih =>
    obtain ⟨p, a⟩ := o
    simp only [run, List.mem_cons, forall_eq_or_imp] at hok ⊢
    obtain ⟨⟨v, h1⟩, h2⟩ := hok
    exact ih _ (told_synced hne _ _ _ (actAt_told hne.refl a p t h1) ht) h2

end Verif.Option
