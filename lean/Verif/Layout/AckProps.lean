import Verif.Layout.Ack
import Verif.Layout.Props
/-! # C17: the acknowledgement numbers in the updates -/
namespace Verif.Layout
variable {U : User}

/-- **C17**, the numbers on the wire.  In every update, an input element with attributes carries the largest sequence
number among the events processed so far for one of its handlers' targets (and none, if there was no such event); no
other element carries one.  The application must not use the reserved attribute name itself. -/
theorem C17_update_acknowledges (hU : ∀ id c seen raw, Returned U id c seen raw → raw.NoAck)
    (w : U.World) (root : Comp) (ops : List (Op U)) (op : Op U) (u : Update)
    (hu : (stepOp (runSys (initSys U w root) ops).layout op).2 = .update u) (sh : Shell) (hsh : u.model.Has sh) :
    AckRight (fun targets => (received targets ops).max?) sh := by
  have hs := step_cases (runSys (initSys U w root) ops).layout op
  have hm : (fun targets => (received targets ops).max?) = maxAck (runSys (initSys U w root) ops).layout.st.seqs := by
    funext ts
    exact (maxAck_max _ ops (runSys_seqs w root ops) ts).symm
  rw [hu] at hs
  rw [hm]
  generalize (stepOp (runSys (initSys U w root) ops).layout op).1 = l' at hs
  cases hs with
  | tree hf hr => exact (renderAt_ack hU hr).1 sh hsh
  | orphan _ hf hr => exact (renderAt_ack hU hr).1 sh hsh

/-- A page with a text field that has a value and two handlers, one with a target of its own. -/
def fieldApp : User where
  World := Unit
  render w _ _ _ := (w, .ok (.elem { tag := some "div" } [.elem
    { tag := some "input"
      attrs := some [("value", .other 3)]
      handlers := [("onChange", { fn := 0 }), ("onBlur", { fn := 1, target := some "blur" })] } []]))
  unmount w _ := w
  didRender w _ := w
  provValue n := n
  provChildren _ := []

/-- The field's number is 7 after events 4 and 7 for one and 5 for the other handler (and 9 for another target). -/
example : (∀ id c seen raw, Returned fieldApp id c seen raw → raw.NoAck) ∧
    ∃ u sh, (stepOp (runSys (initSys fieldApp () { type := .fn 0 })
      [.render 20 0, .event "/0/0:onChange" (some 4), .event "blur" (some 7), .event "other" (some 9),
       .event "/0/0:onChange" (some 5)]).layout (.render 20 0)).2 = .update u ∧ u.model.Has sh ∧ sh.tag = "input" ∧
      sh.attrs = some [("value", .other 3), ("_reactpy_ack_seq", .ack 7)] := by
  constructor
  · intro id c seen raw h
    unfold Returned at h
    split at h
    · obtain ⟨w, h⟩ := h
      simp only [fieldApp] at h
      simp at h; subst h; simp [Raw.NoAck, noAckL]
    · subst h; simp [Raw.NoAck, noAckL, fieldApp]
  · refine ⟨_, { tag := "input", attrs := some [("value", .other 3), ("_reactpy_ack_seq", .ack 7)], handlers := some [
        ⟨"onChange", "/0/0:onChange", false, false, none, none⟩, ⟨"onBlur", "blur", false, false, none, none⟩] }, rfl, ?_, rfl, rfl⟩
    exact .inside (List.mem_cons_self ..) (.inside (List.mem_cons_self ..) .here)

end Verif.Layout
