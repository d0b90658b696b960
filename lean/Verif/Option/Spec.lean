import Verif.Option.Model
/-!
# What an action on options has to do (specification for C34)

`Told ne t t'`: comparing a tree of options before and after an action, every callback subscribed
to an option whose value changed (`!=`) was called exactly once, with the new value; callbacks of
options whose value did not change were not called; a child of an option that changed has taken over
the new value (through its own validator), and callbacks and children that were added were called
once with the option's value.
-/
namespace Verif.Option
variable {V : Type}

/-- A child option agrees with a value: it has it, or what its validator makes of it. -/
def Agrees (v : V) (i : Info V) (c : Option V) : Prop :=
  c.getD i.default = v ∨ i.validator v = .ok (c.getD i.default)

mutual
/-- `u`: the new value of the enclosing option, if that changed. -/
def Told (ne : V → V → Bool) (u : Option V) : Tree V → Tree V → Prop
  | .user raises got, t' => t' = .user raises (got ++ u.toList)
  | .opt i c subs, t' => ∃ c' subs', t' = .opt i c' subs' ∧ (∀ v, u = some v → Agrees v i c') ∧
      ToldL ne (if ne (c'.getD i.default) (c.getD i.default) then some (c'.getD i.default) else none)
        (c'.getD i.default) subs subs'
def ToldL (ne : V → V → Bool) (u : Option V) (now : V) : List (Tree V) → List (Tree V) → Prop
  | [], new => ∀ s ∈ new, match s with
      | .user _ got => got = [now]
      | .opt i c subs => Agrees now i c ∧ subs = []
  | s :: ss, ts => ∃ s' ss', ts = s' :: ss' ∧ Told ne u s s' ∧ ToldL ne u now ss ss'
end

mutual
/-- Every callback was last called with the current value (up to `==`) of the option it is subscribed
to, and never twice in a row with equal values. -/
def Synced (ne : V → V → Bool) : Tree V → Prop
  | .user _ _ => True
  | .opt i c subs => SyncedL ne (c.getD i.default) subs
def SyncedL (ne : V → V → Bool) (now : V) : List (Tree V) → Prop
  | [] => True
  | .user _ got :: ss => (∃ w, got.getLast? = some w ∧ ne now w = false) ∧
      (∀ l a b r, got = l ++ a :: b :: r → ne b a = true) ∧ SyncedL ne now ss
  | .opt i c subs :: ss => Synced ne (.opt i c subs) ∧ SyncedL ne now ss
end

end Verif.Option
