import Verif.Model.Accept

/-!
# C100: a server takes connections until it is destroyed, and then no more
-/

namespace Motan.Props

open Accept

/-! ## Specification -/

/-- A connection is counted: its goroutine has begun and has not left. -/
def Spec.connCounted : Accept.Phase → Bool
  | .handling => true
  | .closed => true
  | _ => false

/-- The number of calls of `Destroy` that have come as far as this. -/
def Spec.calls (d : Accept.Destroy) (s : Accept.St) : Nat := s.destroys.count d

/-- Actions of the loop and of `Destroy`; none is one of a connection. -/
def Spec.ofServer : Accept.Op → Bool
  | .fail | .look | .destroy | .close _ | .send _ => true
  | _ => false

/-! ## Invariant -/

structure AcceptInv (s : Accept.St) : Prop where
  count : s.count = (s.conns.countP Spec.connCounted : Nat)
  listens : s.listening = true → Spec.calls .closed s = 0 ∧ Spec.calls .succeeded s = 0 ∧ Spec.calls .refused s = 0 ∧ s.channel = false ∧ s.loop ≠ .returned
  once : s.listening = false → Spec.calls .closed s + Spec.calls .succeeded s = 1
  sent : s.channel = true → Spec.calls .succeeded s = 1 ∧ s.loop ≠ .returned
  ended : s.loop = .returned → Spec.calls .succeeded s = 1
  told : Spec.calls .succeeded s = 1 → s.channel = true ∨ s.loop = .returned

theorem count_set_ph {α : Type} [DecidableEq α] : ∀ (xs : List α) (i : Nat) (a b c : α), xs[i]? = some a →
    (xs.set i b).count c + (if a = c then 1 else 0) = xs.count c + (if b = c then 1 else 0)
  | [], i, a, b, c, h => by simp at h
  | x :: xs, 0, a, b, c, h => by
    simp only [List.getElem?_cons_zero, Option.some.injEq] at h
    subst h
    simp only [List.set_cons_zero, List.count_cons, beq_iff_eq]
    omega
  | x :: xs, i + 1, a, b, c, h => by
    simp only [List.getElem?_cons_succ] at h
    have := count_set_ph xs i a b c h
    simp only [List.set_cons_succ, List.count_cons, beq_iff_eq]
    omega

theorem countP_set_ph {α : Type} (p : α → Bool) : ∀ (xs : List α) (i : Nat) (a b : α), xs[i]? = some a →
    (xs.set i b).countP p + (if p a then 1 else 0) = xs.countP p + (if p b then 1 else 0)
  | [], i, a, b, h => by simp at h
  | x :: xs, 0, a, b, h => by
    simp only [List.getElem?_cons_zero, Option.some.injEq] at h
    subst h
    simp only [List.set_cons_zero, List.countP_cons]
    omega
  | x :: xs, i + 1, a, b, h => by
    simp only [List.getElem?_cons_succ] at h
    have := countP_set_ph p xs i a b h
    simp only [List.set_cons_succ, List.countP_cons]
    omega

theorem acceptInv_step {s : Accept.St} (h : AcceptInv s) (op : Accept.Op) : AcceptInv (Accept.step s op) := by
  obtain ⟨h1, h2, h3, h4, h5, h6⟩ := h
  cases op with
  | arrive =>
    simp only [Accept.step, Accept.arrive]
    split
    · refine ⟨?_, h2, h3, h4, h5, h6⟩
      simp [h1, List.countP_append, Spec.connCounted]
    · exact ⟨h1, h2, h3, h4, h5, h6⟩
  | fail =>
    simp only [Accept.step, Accept.fail]
    split
    · rename_i hl
      refine ⟨h1, fun e => ?_, h3, fun e => ⟨(h4 e).1, by simp⟩, fun e => absurd e (by simp), fun e => ?_⟩
      · obtain ⟨a, b, c, d, -⟩ := h2 e; exact ⟨a, b, c, d, by simp⟩
      · rcases h6 e with h | h
        · exact .inl h
        · rw [hl] at h; cases h
    · exact ⟨h1, h2, h3, h4, h5, h6⟩
  | look =>
    simp only [Accept.step, Accept.look]
    split
    · split
      · rename_i hc
        refine ⟨h1, fun e => ?_, h3, fun e => absurd e (by simp), fun _ => (h4 hc).1, fun _ => .inr rfl⟩
        have := (h2 e).2.2.2.1
        rw [hc] at this; cases this
      · rename_i hl hc
        refine ⟨h1, fun e => ?_, h3, fun e => absurd e hc, fun e => absurd e (by simp), fun e => ?_⟩
        · obtain ⟨a, b, c, d, -⟩ := h2 e; exact ⟨a, b, c, d, by simp⟩
        · rcases h6 e with h | h
          · exact absurd h hc
          · rw [hl] at h; cases h
    · exact ⟨h1, h2, h3, h4, h5, h6⟩
  | destroy =>
    simp only [Accept.step]
    refine ⟨h1, ?_, ?_, ?_, ?_, ?_⟩ <;> simpa [Spec.calls, List.count_append] using by assumption
  | close i =>
    simp only [Accept.step, Accept.close]
    split
    · rename_i hi
      have c := fun b d => count_set_ph s.destroys i .called b d hi
      have c1 := c .closed .closed; have c2 := c .closed .succeeded; have c3 := c .closed .refused
      have d1 := c .refused .closed; have d2 := c .refused .succeeded
      simp only [reduceCtorEq, if_true, if_false] at c1 c2 c3 d1 d2
      split
      · rename_i hl
        obtain ⟨a, b, r, d, e⟩ := h2 hl
        simp only [Spec.calls] at a b
        refine ⟨h1, fun e => absurd e (by simp), fun _ => ?_, fun e' => ?_, fun e' => absurd e' e, fun e' => ?_⟩
        · simp only [Spec.calls]; omega
        · dsimp only at e'; rw [d] at e'; cases e'
        · simp only [Spec.calls] at e'; omega
      · rename_i hl
        have hl : s.listening = false := by simpa using hl
        have := h3 hl
        simp only [Spec.calls] at this h4 h5 h6
        refine ⟨h1, fun e => ?_, fun _ => ?_, fun e => ?_, fun e => ?_, fun e => ?_⟩
        · dsimp only at e; rw [hl] at e; cases e
        · simp only [Spec.calls]; omega
        · refine ⟨?_, (h4 e).2⟩; have := (h4 e).1; simp only [Spec.calls]; omega
        · have := h5 e; simp only [Spec.calls]; omega
        · simp only [Spec.calls] at e; exact h6 (by omega)
    · exact ⟨h1, h2, h3, h4, h5, h6⟩
  | send i =>
    simp only [Accept.step, Accept.send]
    split
    · rename_i hi
      split
      · exact ⟨h1, h2, h3, h4, h5, h6⟩
      · rename_i hc
        have c := fun b d => count_set_ph s.destroys i .closed b d hi
        have c1 := c .succeeded .closed; have c2 := c .succeeded .succeeded
        simp only [reduceCtorEq, if_true, if_false] at c1 c2
        have hl : s.listening = false := by
          cases hl : s.listening with
          | false => rfl
          | true => have := (h2 hl).1; simp only [Spec.calls] at this; omega
        have := h3 hl
        simp only [Spec.calls] at this h5
        have hr : s.loop ≠ .returned := fun e => by have := h5 e; omega
        refine ⟨h1, fun e => ?_, fun _ => ?_, fun _ => ⟨?_, hr⟩, fun e => absurd e hr, fun _ => .inl rfl⟩
        · dsimp only at e; rw [hl] at e; cases e
        · simp only [Spec.calls]; omega
        · simp only [Spec.calls]; omega
    · exact ⟨h1, h2, h3, h4, h5, h6⟩
  | begin i =>
    simp only [Accept.step, Accept.begin]
    split
    · rename_i hi
      have := countP_set_ph Spec.connCounted s.conns i .started .handling hi
      simp only [Spec.connCounted, if_true] at this
      refine ⟨?_, h2, h3, h4, h5, h6⟩
      dsimp only
      simp at this; omega
    · exact ⟨h1, h2, h3, h4, h5, h6⟩
  | stop i =>
    simp only [Accept.step, Accept.stop]
    split
    · rename_i hi
      have := countP_set_ph Spec.connCounted s.conns i .handling .closed hi
      simp only [Spec.connCounted, if_true] at this
      refine ⟨?_, h2, h3, h4, h5, h6⟩
      dsimp only
      omega
    · exact ⟨h1, h2, h3, h4, h5, h6⟩
  | leave i =>
    simp only [Accept.step, Accept.leave]
    split
    · rename_i hi
      have := countP_set_ph Spec.connCounted s.conns i .closed .over hi
      simp only [Spec.connCounted, if_true] at this
      refine ⟨?_, h2, h3, h4, h5, h6⟩
      dsimp only
      simp at this; omega
    · exact ⟨h1, h2, h3, h4, h5, h6⟩

theorem acceptInv_run (ops : List Accept.Op) : ∀ s, AcceptInv s → AcceptInv (Accept.run s ops) := by
  induction ops with
  | nil => exact fun _ h => h
  | cons op ops ih => exact fun s h => ih _ (acceptInv_step h op)

theorem acceptInv (ops : List Accept.Op) : AcceptInv (Accept.run {} ops) :=
  acceptInv_run ops _ ⟨rfl, fun _ => ⟨rfl, rfl, rfl, rfl, by simp⟩, fun h => absurd h (by simp), fun h => absurd h (by simp),
    fun h => absurd h (by simp), fun h => absurd h (by decide)⟩

theorem accept_append (s : Accept.St) (xs ys : List Accept.Op) : Accept.run s (xs ++ ys) = Accept.run (Accept.run s xs) ys := by
  simp [Accept.run]

/-! ## The properties -/

/-- C100: the number shown is that of the connections whose goroutines have begun and not left, whatever way they
ended. -/
theorem connection_count (ops : List Accept.Op) :
    (Accept.run {} ops).count = ((Accept.run {} ops).conns.countP Spec.connCounted : Nat) :=
  (acceptInv ops).count

/-- C100: however often `Accept` fails, as long as nobody has called `Destroy` the loop goes on, and a connection that
arrives while the loop is in `Accept` is handed to a goroutine of its own. -/
theorem goes_on (ops : List Accept.Op) (hd : Accept.Op.destroy ∉ ops) :
    (Accept.run {} ops).loop ≠ .returned ∧
      ((Accept.run {} ops).loop = .accepting →
        (Accept.run {} (ops ++ [.arrive])).conns = (Accept.run {} ops).conns ++ [.started]) ∧
      ((Accept.run {} ops).loop = .failed → (Accept.run {} (ops ++ [.look])).loop = .accepting) := by
  have hn : ∀ (ops : List Accept.Op) (s : Accept.St), Accept.Op.destroy ∉ ops → s.destroys = [] → s.listening = true →
      (Accept.run s ops).destroys = [] ∧ (Accept.run s ops).listening = true := by
    intro ops
    induction ops with
    | nil => exact fun s _ h h' => ⟨h, h'⟩
    | cons op ops ih =>
      intro s hm h h'
      refine ih (Accept.step s op) (fun hm' => hm (List.mem_cons_of_mem _ hm')) ?_ ?_
      · cases op with
        | destroy => exact absurd (List.mem_cons_self ..) hm
        | arrive => simp only [Accept.step, Accept.arrive]; split <;> exact h
        | fail => simp only [Accept.step, Accept.fail]; split <;> exact h
        | look => simp only [Accept.step, Accept.look]; split <;> first | (exact h) | (split <;> exact h)
        | close i => simp [Accept.step, Accept.close, h]
        | send i => simp [Accept.step, Accept.send, h]
        | begin i => simp only [Accept.step, Accept.begin]; split <;> exact h
        | stop i => simp only [Accept.step, Accept.stop]; split <;> exact h
        | leave i => simp only [Accept.step, Accept.leave]; split <;> exact h
      · cases op with
        | destroy => exact absurd (List.mem_cons_self ..) hm
        | arrive => simp only [Accept.step, Accept.arrive]; split <;> exact h'
        | fail => simp only [Accept.step, Accept.fail]; split <;> exact h'
        | look => simp only [Accept.step, Accept.look]; split <;> first | (exact h') | (split <;> exact h')
        | close i => simp [Accept.step, Accept.close, h, h']
        | send i => simp [Accept.step, Accept.send, h, h']
        | begin i => simp only [Accept.step, Accept.begin]; split <;> exact h'
        | stop i => simp only [Accept.step, Accept.stop]; split <;> exact h'
        | leave i => simp only [Accept.step, Accept.leave]; split <;> exact h'
  obtain ⟨-, hl⟩ := hn ops {} hd rfl rfl
  obtain ⟨-, -, -, hc, hr⟩ := (acceptInv ops).listens hl
  refine ⟨hr, fun e => ?_, fun e => ?_⟩
  · rw [accept_append]
    show (Accept.arrive _).conns = _
    simp [Accept.arrive, e, hl]
  · rw [accept_append]
    show (Accept.look _).loop = _
    simp [Accept.look, e, hc]

/-- C100: once a call of `Destroy` has closed the listener no connection is taken, whatever happens. -/
theorem takes_no_more (s : Accept.St) (hl : s.listening = false) (ops : List Accept.Op) :
    (Accept.run s ops).conns.length = s.conns.length ∧ (Accept.run s ops).listening = false := by
  induction ops generalizing s with
  | nil => exact ⟨rfl, hl⟩
  | cons op ops ih =>
    have h : (Accept.step s op).conns.length = s.conns.length ∧ (Accept.step s op).listening = false := by
      cases op with
      | destroy => exact ⟨rfl, hl⟩
      | arrive => simp [Accept.step, Accept.arrive, hl]
      | fail => simp only [Accept.step, Accept.fail]; split <;> exact ⟨rfl, hl⟩
      | look => simp only [Accept.step, Accept.look]; split <;> first | (exact ⟨rfl, hl⟩) | (split <;> exact ⟨rfl, hl⟩)
      | close i => simp only [Accept.step, Accept.close]; split <;> first | (exact ⟨rfl, hl⟩) | ((rw [if_neg (by simp [hl])]; exact ⟨rfl, hl⟩))
      | send i => simp only [Accept.step, Accept.send]; split <;> first | (exact ⟨rfl, hl⟩) | (split <;> exact ⟨rfl, hl⟩)
      | begin i => simp only [Accept.step, Accept.begin]; split <;> first | (exact ⟨rfl, hl⟩) | (exact ⟨by simp, hl⟩)
      | stop i => simp only [Accept.step, Accept.stop]; split <;> first | (exact ⟨rfl, hl⟩) | (exact ⟨by simp, hl⟩)
      | leave i => simp only [Accept.step, Accept.leave]; split <;> first | (exact ⟨rfl, hl⟩) | (exact ⟨by simp, hl⟩)
    have := ih _ h.2
    exact ⟨this.1.trans h.1, this.2⟩

/-- C100: one call of `Destroy` succeeds and every other one fails at its `Close`; none waits for ever. A call that has
been made and not returned can go on. -/
theorem destroy_once (ops : List Accept.Op) :
    Spec.calls .succeeded (Accept.run {} ops) + Spec.calls .closed (Accept.run {} ops) ≤ 1 ∧
      ∀ i, (Accept.run {} ops).destroys[i]? = some .closed →
        (Accept.run {} (ops ++ [.send i])).destroys[i]? = some .succeeded := by
  have h := acceptInv ops
  have hle : Spec.calls .succeeded (Accept.run {} ops) + Spec.calls .closed (Accept.run {} ops) ≤ 1 := by
    cases hl : (Accept.run {} ops).listening with
    | true => obtain ⟨a, b, -⟩ := h.listens hl; omega
    | false => have := h.once hl; omega
  refine ⟨hle, fun i hi => ?_⟩
  have hc : (Accept.run {} ops).channel ≠ true := fun e => by
    have h1 := (h.sent e).1
    have h2 : 0 < Spec.calls .closed (Accept.run {} ops) := List.count_pos_iff.2 (List.mem_of_getElem? hi)
    omega
  rw [accept_append]
  show (Accept.send _ i).destroys[i]? = _
  obtain ⟨hlt, -⟩ := List.getElem?_eq_some_iff.1 hi
  unfold Accept.send
  rw [hi]
  simp [hc, hlt]

/-- C100: when a call of `Destroy` has succeeded, the loop has returned or returns as soon as it looks at the channel,
which it does after its next failed `Accept`; and it returns only then. -/
theorem loop_ends (ops : List Accept.Op) :
    (Spec.calls .succeeded (Accept.run {} ops) = 1 → (Accept.run {} (ops ++ [.fail, .look])).loop = .returned) ∧
      ((Accept.run {} ops).loop = .returned → Spec.calls .succeeded (Accept.run {} ops) = 1) := by
  have h := acceptInv ops
  refine ⟨fun hs => ?_, h.ended⟩
  rw [accept_append]
  show (Accept.look (Accept.fail _)).loop = _
  rcases h.told hs with hc | hr
  · cases hl : (Accept.run {} ops).loop with
    | accepting => simp [Accept.fail, Accept.look, hl, hc]
    | failed => simp [Accept.fail, Accept.look, hl, hc]
    | returned => simp [Accept.fail, Accept.look, hl]
  · simp [Accept.fail, Accept.look, hr]

/-- C100: the connections taken before are left to themselves: neither `Destroy` nor the end of the loop closes one or
changes how many are counted. -/
theorem connections_stay (s : Accept.St) (ops : List Accept.Op) (ho : ∀ op ∈ ops, Spec.ofServer op = true) :
    (Accept.run s ops).conns = s.conns ∧ (Accept.run s ops).count = s.count := by
  induction ops generalizing s with
  | nil => exact ⟨rfl, rfl⟩
  | cons op ops ih =>
    have h : (Accept.step s op).conns = s.conns ∧ (Accept.step s op).count = s.count := by
      have := ho op (List.mem_cons_self ..)
      cases op with
      | destroy => exact ⟨rfl, rfl⟩
      | fail => simp only [Accept.step, Accept.fail]; split <;> exact ⟨rfl, rfl⟩
      | look => simp only [Accept.step, Accept.look]; split <;> first | (exact ⟨rfl, rfl⟩) | (split <;> exact ⟨rfl, rfl⟩)
      | close i => simp only [Accept.step, Accept.close]; split <;> first | (exact ⟨rfl, rfl⟩) | (split <;> exact ⟨rfl, rfl⟩)
      | send i => simp only [Accept.step, Accept.send]; split <;> first | (exact ⟨rfl, rfl⟩) | (split <;> exact ⟨rfl, rfl⟩)
      | arrive => cases this
      | begin i => cases this
      | stop i => cases this
      | leave i => cases this
    have := ih (Accept.step s op) fun o ho' => ho o (List.mem_cons_of_mem _ ho')
    exact ⟨this.1.trans h.1, this.2.trans h.2⟩

/-- A server that is being destroyed: the listener is closed and the channel not yet sent to. -/
def acceptClosing : List Accept.Op := [.arrive, .begin 0, .destroy, .close 0]

/-- What a user may expect and does not get: between `Close` and the send the loop does not wait, it fails and logs as
often as it gets the processor. (The same holds while the system refuses connections.) -/
theorem spins_violated (n : Nat) :
    (Accept.run (Accept.run {} acceptClosing) (List.replicate n [.fail, .look]).flatten).logged = n ∧
      (Accept.run (Accept.run {} acceptClosing) (List.replicate n [.fail, .look]).flatten).loop = .accepting := by
  have h : ∀ n (s : Accept.St), s.loop = .accepting → s.channel = false →
      (Accept.run s (List.replicate n [.fail, .look]).flatten).logged = s.logged + n ∧
        (Accept.run s (List.replicate n [.fail, .look]).flatten).loop = .accepting := by
    intro n
    induction n with
    | zero => exact fun s h _ => ⟨rfl, h⟩
    | succ n ih =>
      intro s hl hc
      have e : Accept.run s (List.replicate (n + 1) [.fail, .look]).flatten =
          Accept.run (Accept.look (Accept.fail s)) (List.replicate n [.fail, .look]).flatten := by
        simp [List.replicate_succ, Accept.run, Accept.step]
      have hs : Accept.look (Accept.fail s) = { s with logged := s.logged + 1 } := by
        obtain ⟨a, b, c, d, e, f, g⟩ := s
        simp only at hl hc
        subst hl hc
        rfl
      rw [e, hs]
      obtain ⟨h1, h2⟩ := ih { s with logged := s.logged + 1 } hl hc
      exact ⟨by rw [h1]; dsimp only; omega, h2⟩
  have := h n (Accept.run {} acceptClosing) (by decide) (by decide)
  exact ⟨by rw [this.1]; show 0 + n = n; omega, this.2⟩

/-! ## A case -/

def acceptExample : List Accept.Op :=
  [.arrive, .fail, .look, .arrive, .begin 1, .begin 0, .stop 1, .destroy, .destroy, .close 1, .arrive, .close 0, .send 1, .leave 1]

/-- Two connections, a failed `Accept` between them, and two calls of `Destroy`. -/
example : (Accept.run {} acceptExample).conns = [.handling, .over] ∧ (Accept.run {} acceptExample).count = 1 ∧
    (Accept.run {} acceptExample).destroys = [.refused, .succeeded] ∧ (Accept.run {} acceptExample).listening = false ∧
    Accept.Op.destroy ∉ acceptExample.take 7 ∧ (Accept.run {} (acceptExample ++ [.fail, .look])).loop = .returned := by
  decide +kernel

end Motan.Props
