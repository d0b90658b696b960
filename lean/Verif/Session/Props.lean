import Verif.Session.Model
import Verif.Client.ConnProps
import Verif.Layout.Place
import Verif.Layout.Props
/-! # C97: an event runs the handler of the element that the user acted on -/
namespace Verif.Session
open Verif.Client
variable {E : Type}

/-- What the connection is told to do. -/
def acts (c : Config) : Page E → List (Op E) → List (Act (Msg E))
  | _, [] => []
  | s, .net n :: r => n.act :: acts c (step c s (.net n)) r
  | s, .update :: r => acts c (step c s .update) r
  | s, .user e :: r => match s.shown with
    | some k => .send (k, e) :: acts c (step c s (.user e)) r
    | none => acts c (step c s (.user e)) r

theorem run_acts (c : Config) (ops : List (Op E)) : ∀ s : Page E,
    (ops.foldl (step c) s).conn = (acts c s ops).foldl (Client.step c) s.conn := by
  induction ops with
  | nil => intro s; rfl
  | cons op ops ih =>
    intro s
    rw [List.foldl_cons, ih]
    cases op with
    | net n => simp [acts, step]
    | update => simp only [acts, step]; split <;> rfl
    | user e =>
      simp only [acts, step]
      cases s.shown <;> simp [Client.step]

theorem run_conn (c : Config) (ops : List (Op E)) : (run c ops).conn = Client.run c (acts c { conn := initConn c } ops) :=
  run_acts c ops _

theorem made_passed (c : Config) (ops : List (Op E)) : ∀ s : Page E, passed (acts c s ops) = made c s ops := by
  induction ops with
  | nil => intro s; rfl
  | cons op ops ih =>
    intro s
    cases op with
    | net n => cases n <;> simp only [acts, made, Net.act] <;> rw [← ih] <;> rfl
    | update => simp only [acts, made]; exact ih _
    | user e =>
      simp only [acts, made]
      cases s.shown with
      | none => exact ih _
      | some k => simp only; rw [← ih]; rfl

theorem deliveries_msgs {M : Type} (l : List (Obs M)) : ∀ n, (deliveries n l).map (·.2) = sentMsgs l := by
  induction l with
  | nil => intro n; rfl
  | cons o l ih => intro n; cases o <;> simp [deliveries, sentMsgs] <;> exact ih _

theorem deliveries_append {M : Type} (l l' : List (Obs M)) : ∀ n,
    deliveries n (l ++ l') = deliveries n l ++ deliveries (n + sessions l) l' := by
  induction l with
  | nil => intro n; simp [deliveries, sessions]
  | cons o l ih => intro n; cases o <;> simp [deliveries, sessions, ih, Nat.add_assoc, Nat.add_comm]

theorem sessions_append {M : Type} (l l' : List (Obs M)) : sessions (l ++ l') = sessions l + sessions l' := by
  induction l with
  | nil => simp [sessions]
  | cons o l ih => cases o <;> simp [sessions, ih] <;> omega

theorem sessions_sent {M : Type} (ms : List M) : sessions (ms.map Obs.sent) = 0 := by
  induction ms with
  | nil => rfl
  | cons m ms ih => simpa [sessions] using ih

theorem deliveries_sent {M : Type} (n : Nat) (ms : List M) : deliveries n (ms.map Obs.sent) = ms.map (n, ·) := by
  induction ms with
  | nil => rfl
  | cons m ms ih => simp [deliveries, ih]

/-- **C97**: every event that the user makes is handed to one connection, once, in the order made, or still waits. -/
theorem C97_once (c : Config) (ops : List (Op E)) :
    (deliveries 0 (run c ops).conn.log).map (·.2) ++ (run c ops).conn.queue = made c { conn := initConn c } ops := by
  rw [deliveries_msgs, run_conn, C50_in_order, made_passed]

/-- What holds of a page: sessions are not from the future, and nothing waits while the connection is open. -/
structure PInv (s : Page E) : Prop where
  shown : ∀ k, s.shown = some k → k ≤ sessions s.conn.log
  queue : ∀ m ∈ s.conn.queue, m.1 ≤ sessions s.conn.log
  sent : ∀ d ∈ deliveries 0 s.conn.log, d.2.1 ≤ d.1 ∧ d.1 ≤ sessions s.conn.log

theorem PInv.grow {s : Page E} (h : PInv s) (conn : Conn (Msg E)) (l : List (Obs (Msg E)))
    (hl : conn.log = s.conn.log ++ l) (hd : deliveries (sessions s.conn.log) l = []) (hq : conn.queue = s.conn.queue) :
    PInv { s with conn := conn } := by
  have hs : sessions s.conn.log ≤ sessions conn.log := by rw [hl, sessions_append]; omega
  refine ⟨fun k hk => Nat.le_trans (h.shown k hk) hs, fun m hm => ?_, fun d hm => ?_⟩
  · simp only at hm; rw [hq] at hm; exact Nat.le_trans (h.queue m hm) hs
  · simp only at hm
    rw [hl, deliveries_append, Nat.zero_add, hd, List.append_nil] at hm
    exact ⟨(h.sent d hm).1, Nat.le_trans (h.sent d hm).2 hs⟩

theorem pinv_step (c : Config) (s : Page E) (op : Op E) (h : PInv s) : PInv (step c s op) := by
  cases op with
  | update =>
    simp only [step]
    split
    · exact ⟨fun k hk => by simp at hk; simp [hk], h.queue, h.sent⟩
    · exact h
  | user e =>
    simp only [step]
    split
    · rename_i k hk
      have hks := h.shown k hk
      simp only [sendMessage]
      split
      · refine ⟨fun j hj => ?_, fun m hm => ?_, fun d hd => ?_⟩
        · have := h.shown j hj; simpa [sessions_append, sessions] using this
        · have := h.queue m hm; simpa [sessions_append, sessions] using this
        · simp only [deliveries_append, deliveries, Nat.zero_add, List.mem_append, List.mem_singleton] at hd
          simp only [sessions_append, sessions, Nat.add_zero]
          rcases hd with hd | rfl
          · exact h.sent d hd
          · exact ⟨hks, Nat.le_refl _⟩
      · refine ⟨h.shown, fun m hm => ?_, h.sent⟩
        simp only [List.mem_append, List.mem_singleton] at hm
        rcases hm with hm | rfl
        · exact h.queue m hm
        · exact hks
    · exact h
  | net n =>
    simp only [step]
    cases n with
    | ready =>
      simp only [Net.act, Client.step]
      split
      · exact h
      · exact h.grow _ [.attempt] rfl rfl rfl
    | closing =>
      simp only [Net.act, Client.step]
      split
      · exact h.grow _ [] (by simp) rfl rfl
      · exact h
    | timer =>
      simp only [Net.act, Client.step]
      split
      · exact h.grow _ [.attempt] rfl rfl rfl
      · exact h
    | close =>
      simp only [Net.act, Client.step]
      split
      · split
        · exact h.grow _ [.lost, .gaveUp] (by simp) rfl rfl
        · split
          · exact h.grow _ [.lost, .gaveUp] (by simp) rfl rfl
          · exact h.grow _ [.lost, .delay s.conn.current] (by simp) rfl rfl
      · exact h
    | «open» =>
      simp only [Net.act, Client.step]
      split
      · let s1 : Conn (Msg E) := { s.conn with sock := .open, everConnected := true, current := c.interval, retries := 0, log := s.conn.log ++ [.opened] }
        have ff := flush_open s1.queue.length s1 rfl (Nat.le_refl _)
        have f1 : (flush s1.queue.length s1).log = s1.log ++ s1.queue.map .sent := by rw [ff]
        have f2 : (flush s1.queue.length s1).queue = [] := by rw [ff]
        change PInv { s with conn := flush s1.queue.length s1 }
        refine ⟨fun k hk => ?_, fun m hm => ?_, fun d hd => ?_⟩
        · have := h.shown k hk
          simp only [f1, sessions_append, sessions_sent]
          simp only [s1, sessions_append]; omega
        · simp [f2] at hm
        · simp only [f1, sessions_append, sessions_sent, Nat.add_zero, deliveries_append, Nat.zero_add, deliveries_sent,
            List.mem_append, List.mem_map] at hd ⊢
          simp only [s1, sessions_append, sessions, deliveries_append, deliveries, List.append_nil, Nat.zero_add] at hd ⊢
          rcases hd with hd | ⟨m, hm, rfl⟩
          · have := h.sent d hd; omega
          · have := h.queue m hm; simp only; omega
      · exact h

/-- **C97**: an event is never handed to an earlier session than the one that displayed the element. -/
theorem C97_not_earlier (c : Config) (ops : List (Op E)) : ∀ d ∈ deliveries 0 (run c ops).conn.log, d.2.1 ≤ d.1 := by
  have : PInv (run c ops) := by
    unfold run
    have h0 : PInv ({ conn := initConn c } : Page E) := ⟨by simp, by simp [initConn], by simp [initConn, deliveries]⟩
    revert h0
    generalize ({ conn := initConn c } : Page E) = s
    induction ops generalizing s with
    | nil => exact fun h => h
    | cons op ops ih => exact fun h => ih _ (pinv_step c s op h)
  exact fun d hd => (this.sent d hd).1

theorem PInv.same {s : Page E} (hq : s.conn.sock = .open → s.conn.queue = []) {n : Nat} (hs : s.conn.sock = .open) (hn : s.shown = some n) (e : E) (c : Config) :
    (step c s (.user e)).conn.log = s.conn.log ++ [.sent (n, e)] ∧ (step c s (.user e)).conn.queue = [] := by
  simp [step, hn, sendMessage, hs, hq hs]

/-- **C97** (partial: the user acts only while connected, on what the session of that connection displays).  Every event is handed to
the session whose element the user acted on, at once. -/
theorem C97_same_session_partial (c : Config) (ops : List (Op E))
    (h : ∀ before e after, ops = before ++ .user e :: after →
      (run c before).conn.sock = .open ∧ (run c before).shown = some (sessions (run c before).conn.log)) :
    (∀ d ∈ deliveries 0 (run c ops).conn.log, d.1 = d.2.1) ∧ (run c ops).conn.queue = [] := by
  obtain ⟨l, rfl⟩ : ∃ l, ops = List.reverse l := ⟨ops.reverse, by simp⟩
  induction l with
  | nil => simp [run, initConn, deliveries]
  | cons op l ih =>
    rw [List.reverse_cons] at h ⊢
    generalize l.reverse = ops at h ih ⊢
    have ih := ih (fun b e a hb => h b e (a ++ [op]) (by rw [hb]; simp))
    have hr : run c (ops ++ [op]) = step c (run c ops) op := by simp [run]
    rw [hr]
    cases op with
    | update => simp only [step]; split <;> exact ih
    | user e =>
      obtain ⟨h1, h2⟩ := h ops e [] rfl
      obtain ⟨h3, h4⟩ := PInv.same (fun _ => ih.2) h1 h2 e c
      rw [h3, h4, deliveries_append]
      refine ⟨fun d hd => ?_, rfl⟩
      simp only [deliveries, Nat.zero_add, List.mem_append, List.mem_singleton] at hd
      rcases hd with hd | rfl
      · exact ih.1 d hd
      · rfl
    | net n =>
      have hd : (step c (run c ops) (.net n)).conn.queue = [] ∧
          deliveries 0 (step c (run c ops) (.net n)).conn.log = deliveries 0 (run c ops).conn.log := by
        have hq := ih.2
        cases n <;> simp only [step, Net.act, Client.step] <;> repeat' split
        all_goals simp_all [deliveries_append, deliveries, flush]
      rw [hd.1, hd.2]
      exact ⟨ih.1, rfl⟩

/-- The connection delivers messages to the page. -/
def Live (s : Page E) : Prop := s.conn.sock = .open ∨ s.conn.sock = .closing

/-- **C97**: what is displayed is what the last update to arrive displays, and belongs to the session that sent it. -/
theorem C97_shown (c : Config) (ops : List (Op E)) (k : Nat) : (run c ops).shown = some k ↔
    ∃ before after, ops = before ++ .update :: after ∧ Live (run c before) ∧ sessions (run c before).conn.log = k ∧
      ∀ b a, after = b ++ .update :: a → ¬ Live (run c (before ++ .update :: b)) := by
  obtain ⟨l, rfl⟩ : ∃ l, ops = List.reverse l := ⟨ops.reverse, by simp⟩
  induction l generalizing k with
  | nil => simp [run]
  | cons op l ih =>
    rw [List.reverse_cons]
    generalize l.reverse = ops at ih ⊢
    have hr : run c (ops ++ [op]) = step c (run c ops) op := by simp [run]
    rw [hr]
    by_cases hu : op = .update ∧ Live (run c ops)
    · obtain ⟨rfl, hl⟩ := hu
      have : (step c (run c ops) .update).shown = some (sessions (run c ops).conn.log) := by
        simp only [step]; rw [if_pos (show _ ∨ _ from hl)]
      rw [this]
      constructor
      · intro h
        exact ⟨ops, [], rfl, hl, by simpa using h, by simp⟩
      · rintro ⟨b, a, e, h1, h2, h3⟩
        rcases List.eq_nil_or_concat a with rfl | ⟨a', x, rfl⟩
        · have := List.append_inj' e rfl
          rw [this.1, h2]
        · have e' : ops ++ [.update] = (b ++ .update :: a') ++ [x] := by simpa using e
          have := List.append_inj' e' rfl
          have hx : x = .update := by simpa using this.2.symm
          subst hx
          exact absurd (this.1 ▸ hl) (h3 a' [] (by simp))
    · have hs : (step c (run c ops) op).shown = (run c ops).shown := by
        cases op with
        | net n => rfl
        | update =>
          simp only [step]
          rw [if_neg (show ¬ (_ ∨ _) from fun hl => hu ⟨rfl, hl⟩)]
        | user e => simp only [step]; split <;> rfl
      rw [hs, ih]
      constructor
      · rintro ⟨b, a, rfl, h1, h2, h3⟩
        refine ⟨b, a ++ [op], by simp, h1, h2, fun b' a' e => ?_⟩
        rcases List.eq_nil_or_concat a' with rfl | ⟨a'', x, rfl⟩
        · have := List.append_inj' e rfl
          intro hl
          exact hu ⟨by simpa using this.2, by rw [this.1]; exact hl⟩
        · have e' : a ++ [op] = (b' ++ .update :: a'') ++ [x] := by simpa using e
          exact h3 b' a'' (List.append_inj' e' rfl).1
      · rintro ⟨b, a, e, h1, h2, h3⟩
        rcases List.eq_nil_or_concat a with rfl | ⟨a', x, rfl⟩
        · have := List.append_inj' e rfl
          exact absurd ⟨by simpa using this.2, by rw [this.1]; exact h1⟩ hu
        · have e' : ops ++ [op] = (b ++ .update :: a') ++ [x] := by simpa using e
          refine ⟨b, a', (List.append_inj' e' rfl).1, h1, h2, fun b' a'' e'' => h3 b' (a'' ++ [x]) (by simp [e''])⟩

/-- **C97** (partial: the connection is open and its session has sent an update).  The event goes to the session that displays the
element, at once. -/
theorem C97_session_partial (c : Config) (ops : List (Op E)) (e : E) (ho : (run c ops).conn.sock = .open)
    (hs : (run c ops).shown = some (sessions (run c ops).conn.log)) :
    deliveries 0 (run c (ops ++ [.user e])).conn.log = deliveries 0 (run c ops).conn.log ++
      [(sessions (run c ops).conn.log, (sessions (run c ops).conn.log, e))] := by
  have : run c (ops ++ [.user e]) = step c (run c ops) (.user e) := by simp [run]
  rw [this]
  simp [step, hs, sendMessage, ho, deliveries_append, deliveries]

end Verif.Session
