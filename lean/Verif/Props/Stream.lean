import Verif.Proof.Stream

/-!
# C33: responses reach the caller that sent the request, at most once

The theorems about `Reach true` are about servers that answer only ids they were sent; they may answer an id many times, late,
in any order, on the wrong kind of message, or not at all.
-/

namespace Motan.Props

open Motan.Stream Motan.StreamProof

variable {T C : Type} [DecidableEq T] [DecidableEq C]

/-- C33: a response that a call returns was made of a message that was received on the call's connection, with the call's wire
id and of the call's kind; and the response bears the id of the call's own request (its wire id for a heartbeat). -/
theorem response_is_own {s : St T C} (h : Reach true s) {k : Call C} {r : Resp} (hl : (k, some r) ∈ s.log) :
    s.msgs[r.msg]? = some (k.chan, k.heartbeat, k.sid) ∧ (∀ q, k.rid = some q → r.rid = q) ∧
      (k.heartbeat = true → r.rid = k.sid) := by
  obtain ⟨g, ih⟩ := invB h
  obtain ⟨h1, h2⟩ := ih.log k r hl
  refine ⟨h1, ?_, ?_⟩
  · intro q hq; rw [h2, hq]; rfl
  · intro hb
    rw [h2]
    unfold Call.heartbeat at hb
    cases hr : k.rid with
    | none => rfl
    | some q => rw [hr] at hb; cases hb

/-- C33: no two calls have the same wire id (whatever the servers do). -/
theorem wire_ids_distinct {b : Bool} {s : St T C} (h : Reach b s) {i j : Nat} {e e' : Call C × Option Resp}
    (hi : s.log[i]? = some e) (hj : s.log[j]? = some e') (hij : i ≠ j) : e.1.sid ≠ e'.1.sid := by
  have hn := (invA h).logNodup
  intro he
  have h1 : (s.log.map (·.1.sid))[i]? = some e.1.sid := by rw [List.getElem?_map, hi]; rfl
  have h2 : (s.log.map (·.1.sid))[j]? = some e.1.sid := by rw [List.getElem?_map, hj, he]; rfl
  obtain ⟨hli, hvi⟩ := List.getElem?_eq_some_iff.1 h1
  obtain ⟨hlj, hvj⟩ := List.getElem?_eq_some_iff.1 h2
  exact hij ((List.getElem_inj (h₀ := hli) (h₁ := hlj) hn).1 (by rw [hvi, hvj]))

/-- C33: no message is delivered to two calls. -/
theorem response_delivered_once {s : St T C} (h : Reach true s) {i j : Nat} {k k' : Call C} {r r' : Resp}
    (hi : s.log[i]? = some (k, some r)) (hj : s.log[j]? = some (k', some r')) (hij : i ≠ j) : r.msg ≠ r'.msg := by
  intro he
  have h1 := (response_is_own h (List.mem_of_getElem? hi)).1
  have h2 := (response_is_own h (List.mem_of_getElem? hj)).1
  rw [he, h2] at h1
  have := wire_ids_distinct h hi hj hij
  simp only [Option.some.injEq, Prod.mk.injEq] at h1
  exact this h1.2.2.symm

/-- The stream object a goroutine is using. -/
def Spec.uses : PC C → Option Nat
  | .fill _ _ o => some o
  | .register k | .send k | .recv k | .took k | .remove k _ | .release k _ | .put k _ => some k.obj
  | .notify o _ _ | .setRes o _ | .signal o => some o
  | _ => none

private theorem uses_eq (p : PC C) : Spec.uses p = objOf p := by cases p <;> rfl

/-- A caller that is setting or clearing the fields of its stream. -/
def Spec.AloneWith (s : St T C) (t : T) (o : Nat) : Prop :=
  (∃ c rid, s.pc t = .fill c rid o) ∨ (∃ k, s.pc t = .register k ∧ k.obj = o) ∨
  (∃ k r, s.pc t = .release k r ∧ k.obj = o ∧ (s.objs o).canRelease = true) ∨ (∃ k r, s.pc t = .put k r ∧ k.obj = o)

/-- C33: while a caller sets or clears the fields of its stream, no other goroutine is using it, and it is not in the pool. -/
theorem stream_private {s : St T C} (h : Reach true s) {t : T} {o : Nat} (ha : Spec.AloneWith s t o) :
    o ∉ s.pool ∧ ∀ y, y ≠ t → Spec.uses (s.pc y) ≠ some o := by
  obtain ⟨g, ih⟩ := invB h
  have key : (g o = .clean t ∨ ∃ k, g o = .priv t k) := by
    rcases ha with ⟨c, rid, h⟩ | ⟨k, h, rfl⟩ | ⟨k, r, h, rfl, hc⟩ | ⟨k, r, h, rfl⟩
    · have := ih.core.thr t o (by rw [h]; rfl); rw [h] at this; exact .inl this
    · have := ih.core.thr t k.obj (by rw [h]; rfl); rw [h] at this; exact .inr ⟨k, this.1⟩
    · have := ih.core.thr t k.obj (by rw [h]; rfl)
      rw [h] at this
      rcases this with ⟨h1, _⟩ | ⟨_, h1, _⟩
      · exact .inr ⟨k, h1⟩
      · rw [hc] at h1; cases h1
    · have := ih.core.thr t k.obj (by rw [h]; rfl); rw [h] at this; exact .inl this
  constructor
  · rw [ih.pooled]
    rcases key with h | ⟨k, h⟩ <;> rw [h] <;> simp
  · intro y hy hu
    rw [uses_eq] at hu
    have := thr_holds (ih.core.thr y o hu) hu
    rcases key with h | ⟨k, h⟩ <;> rw [h] at this <;> exact hy this

/-- C33: a stream in the pool is there once, and no goroutine is using it. -/
theorem stream_pooled_once {s : St T C} (h : Reach true s) :
    s.pool.Nodup ∧ ∀ o ∈ s.pool, ∀ t, Spec.uses (s.pc t) ≠ some o := by
  obtain ⟨g, ih⟩ := invB h
  refine ⟨ih.nodup, fun o ho t hu => ?_⟩
  rw [uses_eq] at hu
  have := thr_holds (ih.core.thr t o hu) hu
  rw [(ih.pooled o).1 ho] at this
  exact this

/-- C33: a goroutine that delivers a message neither panics nor blocks: the stream still has its connection, and there is room
for the notification. -/
theorem delivery_never_stuck {s : St T C} (h : Reach true s) {t : T} {o : Nat} :
    (∀ m wid, s.pc t = .notify o m wid → (s.objs o).channel ≠ none) ∧ (s.pc t = .signal o → (s.objs o).token = false) := by
  obtain ⟨g, ih⟩ := invB h
  have hob := ih.core.ob o
  constructor
  · intro m wid hp
    have := ih.core.thr t o (by rw [hp]; rfl)
    rw [hp] at this
    obtain ⟨k, own, hg, _⟩ := this
    rw [hg] at hob
    rw [hob.2.1.1]; simp
  · intro hp
    have := ih.core.thr t o (by rw [hp]; rfl)
    rw [hp] at this
    obtain ⟨k, own, r, hg, _⟩ := this
    rw [hg] at hob
    exact hob.1

/-- C33: a caller that was notified finds a response, made of a message for its own call. -/
theorem notified_has_response {s : St T C} (h : Reach true s) {t : T} {k : Call C} (hp : s.pc t = .took k) :
    ∃ r, (s.objs k.obj).res = some r ∧ s.msgs[r.msg]? = some (k.chan, k.heartbeat, k.sid) := by
  obtain ⟨g, ih⟩ := invB h
  have := ih.core.thr t k.obj (by rw [hp]; rfl)
  rw [hp] at this
  obtain ⟨_, _, r, h1, h2, _⟩ := this
  exact ⟨r, h1, h2⟩

/-- C33: a connection's tables hold the calls in progress, and calls whose `Send` failed; nothing else. -/
theorem table_entries {s : St T C} (h : Reach true s) {c : C} {hb : Bool} {i : UInt64} {o : Nat}
    (ht : s.table c hb i = some o) (hf : s.failed i = false) :
    ∃ t k, (s.pc t = .send k ∨ s.pc t = .recv k ∨ s.pc t = .remove k none) ∧ k.chan = c ∧ k.heartbeat = hb ∧ k.sid = i ∧
      k.obj = o := by
  obtain ⟨g, ih⟩ := invB h
  obtain ⟨k, e1, e2, e3, e4, e5 | ⟨t, e5⟩⟩ := ih.table c hb i o ht
  · rw [e5] at hf; cases hf
  · exact ⟨t, k, listed_pc ih.core e5, e2, e3, (invA h).sid _ _ e1, e4⟩

private theorem next {b : Bool} {s s' : St T C} (t : T) (h : Reach b s) (hs : Step b s t s') : Reach b s' := .step h hs

/-- C33, a defect: a call whose `Send` fails is left in the connection's table for ever, although its stream went back to the
pool. -/
theorem failed_send_leaks_counterexample : ∃ s : St (Fin 3) (Fin 2), Reach true s ∧ (∀ t, s.pc t = .idle) ∧
    s.table 0 false 1 = some 0 ∧ s.pool = [0] := by
  have r : Reach true (init (T := Fin 3) (C := Fin 2)) := .init
  have r := next 0 r (.call 0 (some 100) rfl)
  have r := next 0 r (.acquireNew rfl rfl)
  have r := next 0 r (.fill 1 rfl rfl)
  have r := next 0 r (.register rfl)
  have r := next 0 r (.sendFail rfl)
  have r := next 0 r (.reset rfl rfl)
  have r := next 0 r (.put rfl)
  have r := next 0 r (.ret rfl)
  refine ⟨_, r, ?_, rfl, rfl⟩
  intro t
  match t with
  | 0 => rfl
  | 1 => rfl
  | 2 => rfl

/-- C33, a consequence when a server sends an id it was not sent: another call, on another connection, to another server,
returns the message as its response. -/
theorem unsolicited_response_counterexample : ∃ (s : St (Fin 3) (Fin 2)) (k : Call (Fin 2)) (r : Resp), Reach false s ∧
    (k, some r) ∈ s.log ∧ k.chan = 1 ∧ k.sid = 2 ∧ s.msgs[r.msg]? = some (0, false, 1) := by
  have r : Reach false (init (T := Fin 3) (C := Fin 2)) := .init
  have r := next 0 r (.call 0 (some 100) rfl)
  have r := next 0 r (.acquireNew rfl rfl)
  have r := next 0 r (.fill 1 rfl rfl)
  have r := next 0 r (.register rfl)
  have r := next 0 r (.sendFail rfl)
  have r := next 0 r (.reset rfl rfl)
  have r := next 0 r (.put rfl)
  have r := next 0 r (.ret rfl)
  have r := next 1 r (.call 1 (some 200) rfl)
  have r := next 1 r (.acquire 0 rfl rfl (List.mem_singleton.2 rfl))
  have r := next 1 r (.fill 2 rfl rfl)
  have r := next 1 r (.register rfl)
  have r := next 1 r (.sendOk rfl)
  have r := next 2 r (.receive 0 false 1 rfl (fun h => by cases h))
  have r := next 2 r (.handleHit (o := 0) rfl rfl)
  have r := next 2 r (.notify rfl (fun h => nomatch h))
  have r := next 2 r (.setRes rfl)
  have r := next 2 r (.signal rfl rfl)
  have r := next 1 r (.recvToken rfl rfl)
  have r := next 1 r (.recvRes rfl)
  have r := next 1 r (.remove (c := 1) rfl rfl rfl)
  have r := next 1 r (.reset rfl rfl)
  have r := next 1 r (.put rfl)
  have r := next 1 r (.ret rfl)
  exact ⟨_, ⟨1, some 200, 0, 2⟩, ⟨0, 200⟩, r, List.mem_cons_self, rfl, rfl, rfl⟩

/-- The hypotheses are met: a call returns its response, a second answer to it finds nobody, and a second call with the same
stream times out before its answer comes. -/
example : ∃ s : St (Fin 3) (Fin 2), Reach true s ∧
    s.log = [(⟨0, some 200, 0, 2⟩, none), (⟨0, some 100, 0, 1⟩, some ⟨0, 100⟩)] ∧ s.msgs.length = 3 := by
  have r : Reach true (init (T := Fin 3) (C := Fin 2)) := .init
  have r := next 0 r (.call 0 (some 100) rfl)
  have r := next 0 r (.acquireNew rfl rfl)
  have r := next 0 r (.fill 1 rfl rfl)
  have r := next 0 r (.register rfl)
  have r := next 0 r (.sendOk rfl)
  have r := next 1 r (.receive 0 false 1 rfl (fun _ => rfl))
  have r := next 2 r (.receive 0 false 1 rfl (fun _ => rfl))
  have r := next 1 r (.handleHit (o := 0) rfl rfl)
  have r := next 2 r (.handleMiss rfl rfl)
  have r := next 1 r (.notify rfl (fun h => nomatch h))
  have r := next 1 r (.setRes rfl)
  have r := next 1 r (.signal rfl rfl)
  have r := next 0 r (.recvToken rfl rfl)
  have r := next 0 r (.recvRes rfl)
  have r := next 0 r (.removeNot (c := 0) rfl rfl rfl)
  have r := next 0 r (.reset rfl rfl)
  have r := next 0 r (.put rfl)
  have r := next 0 r (.ret rfl)
  have r := next 0 r (.call 0 (some 200) rfl)
  have r := next 0 r (.acquire 0 rfl rfl (List.mem_singleton.2 rfl))
  have r := next 0 r (.fill 2 rfl rfl)
  have r := next 0 r (.register rfl)
  have r := next 0 r (.sendOk rfl)
  have r := next 0 r (.recvGiveUp rfl)
  have r := next 1 r (.receive 0 false 2 rfl (fun _ => rfl))
  have r := next 1 r (.handleHit (o := 0) rfl rfl)
  have r := next 0 r (.removeNot (c := 0) rfl rfl rfl)
  have r := next 0 r (.keep rfl rfl)
  have r := next 0 r (.ret rfl)
  exact ⟨_, r, rfl, rfl⟩

end Motan.Props
