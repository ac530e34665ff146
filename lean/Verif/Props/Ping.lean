import Verif.Model.Ping

/-!
# C84: measuring the distance of a node
-/

namespace Motan.Props

open Motan.Ping

namespace Spec

/-- The packets read, in order. -/
def pingReads (ops : List Op) : List Pkt := ops.filterMap fun o => match o with | .read p => some p | _ => none

/-- The times at which a packet was taken from the channel, in order. -/
def pingTakes (ops : List Op) : List Int := ops.filterMap fun o => match o with | .take t => some t | _ => none

/-- A packet is a reply to this pinger. -/
def isReply (id : Nat) (p : Pkt) : Bool := match p.body with | .reply i _ => i == id | _ => false

/-- The round-trip time of a packet taken at a time, if it is a reply to this pinger and has a time in it. -/
def roundTrip (id : Nat) (x : Pkt × Int) : Option Int :=
  match x.1.body with
  | .reply i (some t) => if i = id then some (x.2 - t) else none
  | _ => none

end Spec

theorem ping_play_snoc {count id : Nat} {s s' : Ping.St} {ops : List Op} {o : Op} :
    Ping.play count id s (ops ++ [o]) = some s' ↔ ∃ m, Ping.play count id s ops = some m ∧ Ping.step count id m o = some s' := by
  induction ops generalizing s with
  | nil => simp [Ping.play]
  | cons a ops ih =>
    simp only [List.cons_append, Ping.play]
    cases Ping.step count id s a with
    | none => simp
    | some m => simpa using ih

theorem ping_induct {count id : Nat} {P : List Op → Ping.St → Prop} (h0 : P [] Ping.init)
    (hs : ∀ ops o s s', P ops s → Ping.play count id Ping.init ops = some s → Ping.step count id s o = some s' → P (ops ++ [o]) s') :
    ∀ ops s, Ping.play count id Ping.init ops = some s → P ops s := by
  intro ops
  suffices H : ∀ rs : List Op, ∀ s, Ping.play count id Ping.init rs.reverse = some s → P rs.reverse s by
    simpa using H ops.reverse
  intro rs
  induction rs with
  | nil => intro s h; simp [Ping.play] at h; subst h; exact h0
  | cons o rs ih =>
    intro s h
    rw [List.reverse_cons] at h ⊢
    obtain ⟨m, h1, h2⟩ := ping_play_snoc.mp h
    exact hs _ _ _ _ (ih m h1) h1 h2

/-- What is true throughout. -/
structure PingInv (count id : Nat) (ops : List Op) (s : Ping.St) : Prop where
  sent : 1 ≤ s.sent ∧ (0 < count → s.sent ≤ count)
  queue : ∃ taken, Spec.pingReads ops = taken ++ s.queue ++ (match s.rcv with | .pushing p => [p] | _ => []) ∧
    taken.length = (Spec.pingTakes ops).length ∧
    s.rtts = (taken.zip (Spec.pingTakes ops)).filterMap (Spec.roundTrip id) ∧
    s.recv = (taken.filter (Spec.isReply id)).length
  len : s.queue.length ≤ 5
  more : s.main = .loop → 0 < count → s.recv < count
  most : 0 < count → s.recv ≤ count
  ok : (s.main = .closing .ok → 0 < count ∧ s.recv = count) ∧
    ((s.main = .waiting .ok ∨ s.main = .returned .ok) → (0 < count ∧ s.recv = count) ∨ Op.readError ∈ ops)
  late : (s.main = .waiting .timedOut ∨ s.main = .returned .timedOut ∨ s.main = .closing .timedOut) → Op.timeout ∈ ops
  done : s.done = true → Op.readError ∈ ops ∨ (∃ r, s.main = .waiting r ∨ s.main = .returned r)
  closing : s.rcv = .closing → Op.readError ∈ ops
  gone : s.rcv = .gone → s.done = true
  ret : (∃ r, s.main = .returned r) → s.rcv = .gone
  wait : (∃ r, s.main = .waiting r ∨ s.main = .returned r) → s.done = true
  panic : s.panicked = true → Op.readError ∈ ops

theorem pingInv (count id : Nat) (ops : List Op) (s : Ping.St) (h : Ping.play count id Ping.init ops = some s) :
    PingInv count id ops s := by
  refine ping_induct (P := PingInv count id) ?_ ?_ ops s h
  · constructor <;> simp [Ping.init, Spec.pingReads, Spec.pingTakes]
    all_goals omega
  · clear h ops s
    intro ops o s s' hI _ h
    obtain ⟨h1, ⟨tk, q1, q2, q3, q4⟩, h3, h4, h5, h6, h7, h8, h9, h10, h11, h12, h13⟩ := hI
    have r1 : ∀ o, (match o with | Op.read p => some p | _ => none) = none → Spec.pingReads (ops ++ [o]) = Spec.pingReads ops := by
      intro o ho; simp [Spec.pingReads, ho]
    have r2 : ∀ o, (match o with | Op.take t => some t | _ => none) = none → Spec.pingTakes (ops ++ [o]) = Spec.pingTakes ops := by
      intro o ho; simp [Spec.pingTakes, ho]
    have hmem : ∀ x, x ∈ ops → x ∈ ops ++ [o] := fun x hx => List.mem_append_left _ hx
    unfold Ping.step at h
    split at h
    · cases h
    · rename_i hnp
      cases o with
      | tick =>
        simp only at h
        rw [← r1 .tick rfl] at q1; rw [← r2 .tick rfl] at q2 q3
        (repeat' split at h) <;> cases h
        · exact ⟨h1, ⟨tk, q1, q2, q3, q4⟩, h3, h4, h5, by grind, by grind, by grind, by grind, h10, h11, h12, by grind⟩
        · exact ⟨by simp only; omega, ⟨tk, q1, q2, q3, q4⟩, h3, h4, h5, by grind, by grind, by grind, by grind, h10, h11, h12, by grind⟩
      | timeout =>
        simp only at h
        rw [← r1 .timeout rfl] at q1; rw [← r2 .timeout rfl] at q2 q3
        (repeat' split at h) <;> cases h
        exact ⟨h1, ⟨tk, q1, q2, q3, q4⟩, h3, by grind, h5, by grind, by grind, by grind, by grind, h10, by grind, by grind, by grind⟩
      | seeDone =>
        simp only at h
        rw [← r1 .seeDone rfl] at q1; rw [← r2 .seeDone rfl] at q2 q3
        (repeat' split at h) <;> cases h
        exact ⟨h1, ⟨tk, q1, q2, q3, q4⟩, h3, by grind, h5, by grind, by grind, by grind, by grind, h10, by grind, by grind, by grind⟩
      | take now =>
        simp only at h
        rw [← r1 (.take now) rfl] at q1
        have rt : Spec.pingTakes (ops ++ [.take now]) = Spec.pingTakes ops ++ [now] := by simp [Spec.pingTakes]
        split at h
        · cases h
        · rename_i hl
          split at h
          · cases h
          · rename_i p q hq
            rw [hq] at q1 h3
            have hz : (tk ++ [p]).zip (Spec.pingTakes (ops ++ [.take now])) = tk.zip (Spec.pingTakes ops) ++ [(p, now)] := by
              rw [rt, List.zip_append q2]; rfl
            have hlq : q.length ≤ 5 := by simp only [List.length_cons] at h3; omega
            have q1' : Spec.pingReads (ops ++ [.take now]) =
                (tk ++ [p]) ++ q ++ (match s.rcv with | .pushing p => [p] | _ => []) := by rw [q1]; simp
            have q2' : (tk ++ [p]).length = (Spec.pingTakes (ops ++ [.take now])).length := by rw [rt]; simp [q2]
            have hp : ∃ r b, Ping.process id { s with queue := q } p.body now = (r, b) ∧
                r = { s with queue := q, recv := r.recv, rtts := r.rtts } ∧
                r.rtts = ((tk ++ [p]).zip (Spec.pingTakes (ops ++ [.take now]))).filterMap (Spec.roundTrip id) ∧
                r.recv = ((tk ++ [p]).filter (Spec.isReply id)).length ∧ r.recv ≤ s.recv + 1 ∧
                (b = true → r.recv = s.recv) := by
              rw [hz]
              unfold Ping.process
              cases hb : p.body with
              | bad => exact ⟨_, _, rfl, rfl, by simp [q3, Spec.roundTrip, hb], by simp [q4, Spec.isReply, hb], by simp, by simp⟩
              | other => exact ⟨_, _, rfl, rfl, by simp [q3, Spec.roundTrip, hb], by simp [q4, Spec.isReply, hb], by simp, by simp⟩
              | reply i stamp =>
                simp only
                by_cases hi : i ≠ id
                · rw [if_pos hi]
                  refine ⟨_, _, rfl, rfl, ?_, by simp [q4, Spec.isReply, hb, hi], by simp, by simp⟩
                  cases stamp <;> simp [q3, Spec.roundTrip, hb, hi]
                · rw [if_neg hi]
                  have hi' : i = id := by simpa using hi
                  cases stamp with
                  | none => exact ⟨_, _, rfl, rfl, by simp [q3, Spec.roundTrip, hb], by simp [q4, Spec.isReply, hb, hi'],
                      by simp, by simp⟩
                  | some t => exact ⟨_, _, rfl, rfl, by simp [q3, Spec.roundTrip, hb, hi'],
                      by simp [q4, Spec.isReply, hb, hi'], by simp, by simp⟩
            obtain ⟨r, b, e, e1, e2, e3, e4, e5⟩ := hp
            rw [e] at h
            have hloop : s.main = .loop := by simpa using hl
            have hlt := h4 hloop
            generalize r.recv = rc at *
            generalize r.rtts = rt' at *
            subst e1
            simp only at h
            (repeat' split at h) <;> cases h
            · exact ⟨h1, ⟨tk ++ [p], q1', q2', e2, e3⟩, hlq, by simp, by grind, by grind, by grind, by grind, by grind, h10,
                by grind, by grind, by grind⟩
            · exact ⟨h1, ⟨tk ++ [p], q1', q2', e2, e3⟩, hlq, by simp, by grind, by grind, by grind, by grind, by grind, h10,
                by grind, by grind, by grind⟩
            · exact ⟨h1, ⟨tk ++ [p], q1', q2', e2, e3⟩, hlq, by grind, by grind, by grind, by grind, by grind, by grind, h10,
                by grind, by grind, by grind⟩
      | close =>
        simp only at h
        rw [← r1 .close rfl] at q1; rw [← r2 .close rfl] at q2 q3
        (repeat' split at h) <;> cases h
        · exact ⟨h1, ⟨tk, q1, q2, q3, q4⟩, h3, by grind, h5, by grind, by grind, by grind, by grind, h10, by grind, by grind, by grind⟩
        · exact ⟨h1, ⟨tk, q1, q2, q3, q4⟩, h3, by grind, h5, by grind, by grind, by grind, by grind, by grind, by grind, by grind, by grind⟩
      | join =>
        simp only at h
        rw [← r1 .join rfl] at q1; rw [← r2 .join rfl] at q2 q3
        (repeat' split at h) <;> cases h
        exact ⟨h1, ⟨tk, q1, q2, q3, q4⟩, h3, by grind, h5, by grind, by grind, by grind, by grind, h10, by grind, by grind, by grind⟩
      | look =>
        simp only at h
        rw [← r1 .look rfl] at q1; rw [← r2 .look rfl] at q2 q3
        (repeat' split at h) <;> cases h
        · exact ⟨h1, ⟨tk, by simp_all, q2, q3, q4⟩, h3, by grind, h5, by grind, by grind, by grind, by grind, by grind, by grind, by grind, by grind⟩
        · exact ⟨h1, ⟨tk, by simp_all, q2, q3, q4⟩, h3, by grind, h5, by grind, by grind, by grind, by grind, by grind, by grind, by grind, by grind⟩
      | read p =>
        simp only at h
        have rr : Spec.pingReads (ops ++ [.read p]) = Spec.pingReads ops ++ [p] := by simp [Spec.pingReads]
        rw [← r2 (.read p) rfl] at q2 q3
        (repeat' split at h) <;> cases h
        exact ⟨h1, ⟨tk, by simp_all, q2, q3, q4⟩, h3, by grind, h5, by grind, by grind, by grind, by grind, by grind, by grind, by grind, by grind⟩
      | readTimeout =>
        simp only at h
        rw [← r1 .readTimeout rfl] at q1; rw [← r2 .readTimeout rfl] at q2 q3
        (repeat' split at h) <;> cases h
        exact ⟨h1, ⟨tk, by simp_all, q2, q3, q4⟩, h3, by grind, h5, by grind, by grind, by grind, by grind, by grind, by grind, by grind, by grind⟩
      | readError =>
        simp only at h
        rw [← r1 .readError rfl] at q1; rw [← r2 .readError rfl] at q2 q3
        (repeat' split at h) <;> cases h
        exact ⟨h1, ⟨tk, by simp_all, q2, q3, q4⟩, h3, by grind, h5, by grind, by grind, by grind, by grind, by grind, by grind, by grind, by grind⟩
      | push =>
        simp only at h
        rw [← r1 .push rfl] at q1; rw [← r2 .push rfl] at q2 q3
        (repeat' split at h) <;> cases h
        rename_i hlt
        exact ⟨h1, ⟨tk, by simp_all, q2, q3, q4⟩, by simp [room] at hlt ⊢; omega, by grind, h5, by grind, by grind, by grind, by grind, by grind, by grind, by grind, by grind⟩
      | rcvClose =>
        simp only at h
        rw [← r1 .rcvClose rfl] at q1; rw [← r2 .rcvClose rfl] at q2 q3
        (repeat' split at h) <;> cases h
        · exact ⟨h1, ⟨tk, by simp_all, q2, q3, q4⟩, h3, by grind, h5, by grind, by grind, by grind, by grind, by grind, by grind, by grind, by grind⟩
        · exact ⟨h1, ⟨tk, by simp_all, q2, q3, q4⟩, h3, by grind, h5, by grind, by grind, by grind, by grind, by grind, by grind, by grind, by grind⟩

/-- C84: with a positive count at least one and at most so many requests are sent. -/
theorem ping_sent {count id : Nat} {ops : List Op} {s : Ping.St} (h : Ping.play count id Ping.init ops = some s)
    (hc : 0 < count) : 1 ≤ s.sent ∧ s.sent ≤ count :=
  ⟨(pingInv count id ops s h).sent.1, (pingInv count id ops s h).sent.2 hc⟩

/-- C84: the round-trip times are those of the replies to this pinger among the packets read, in the order of reading, each
measured when it was taken from the channel; never more than the count. -/
theorem ping_rtts {count id : Nat} {ops : List Op} {s : Ping.St} (h : Ping.play count id Ping.init ops = some s) :
    s.rtts = ((Spec.pingReads ops).zip (Spec.pingTakes ops)).filterMap (Spec.roundTrip id) ∧
    s.recv = (((Spec.pingReads ops).take (Spec.pingTakes ops).length).filter (Spec.isReply id)).length ∧
    (0 < count → s.rtts.length ≤ s.recv ∧ s.recv ≤ count) := by
  obtain ⟨_, ⟨tk, q1, q2, q3, q4⟩, _, _, h5, _⟩ := pingInv count id ops s h
  have hz : (Spec.pingReads ops).zip (Spec.pingTakes ops) = tk.zip (Spec.pingTakes ops) := by
    rw [q1, List.append_assoc]
    generalize s.queue ++ _ = r
    generalize Spec.pingTakes ops = ts at q2
    clear q1 q3 q4
    induction tk generalizing ts with
    | nil =>
      have : ts = [] := List.length_eq_zero_iff.mp q2.symm
      subst this; simp
    | cons a tk ih =>
      cases ts with
      | nil => simp at q2
      | cons t ts =>
        simp only [List.cons_append, List.zip_cons_cons, List.cons.injEq, true_and]
        exact ih ts (by simpa using q2)
  have ht : (Spec.pingReads ops).take (Spec.pingTakes ops).length = tk := by
    rw [q1, ← q2, List.append_assoc, List.take_left]
  refine ⟨by rw [hz, q3], by rw [ht, q4], fun hc => ⟨?_, h5 hc⟩⟩
  rw [q3, q4]
  generalize Spec.pingTakes ops = ts
  clear q1 q2 q3 q4 hz ht h5
  induction tk generalizing ts with
  | nil => simp
  | cons a tk ih =>
    cases ts with
    | nil => simp
    | cons t ts =>
      have := ih ts
      rw [List.zip_cons_cons, List.filterMap_cons, List.filter_cons]
      cases hb : a.body with
      | bad => simp [Spec.roundTrip, Spec.isReply, hb]; exact this
      | other => simp [Spec.roundTrip, Spec.isReply, hb]; exact this
      | reply i stamp =>
        cases stamp with
        | none =>
          simp only [Spec.roundTrip, Spec.isReply, hb]
          split <;> simp <;> omega
        | some t' =>
          simp only [Spec.roundTrip, Spec.isReply, hb]
          by_cases hi : i = id
          · simp [hi]; exact this
          · simp [hi]; exact this

/-- C84: success means that all replies have come, unless reading failed; a time-out is only reported after the time. When
`Ping` returns, the goroutine it started has ended. -/
theorem ping_result {count id : Nat} {ops : List Op} {s : Ping.St} {r : Res}
    (h : Ping.play count id Ping.init ops = some s) (hr : s.main = .returned r) :
    s.rcv = .gone ∧ (r = .ok → (0 < count ∧ s.recv = count) ∨ Op.readError ∈ ops) ∧ (r = .timedOut → Op.timeout ∈ ops) := by
  have hI := pingInv count id ops s h
  refine ⟨hI.ret ⟨r, hr⟩, ?_, ?_⟩
  · rintro rfl; exact hI.ok.2 (Or.inr hr)
  · rintro rfl; exact hI.late (Or.inr (Or.inl hr))

/-- C84: an error other than a time-out means that a packet could not be parsed. -/
theorem ping_broken {count id : Nat} {ops : List Op} {s : Ping.St}
    (h : Ping.play count id Ping.init ops = some s) (hr : s.main = .returned .broken) :
    ∃ p ∈ Spec.pingReads ops, p.body = .bad := by
  suffices H : ∀ ops s, Ping.play count id Ping.init ops = some s →
      (s.main = .returned .broken ∨ s.main = .waiting .broken ∨ s.main = .closing .broken) →
      ∃ p ∈ Spec.pingReads ops, p.body = .bad from H ops s h (Or.inl hr)
  clear h hr ops s
  refine ping_induct (by simp [Ping.init]) ?_
  intro ops o s s' ih hp h hm
  have hI := pingInv count id ops s hp
  have hmono : (∃ p ∈ Spec.pingReads ops, p.body = .bad) → ∃ p ∈ Spec.pingReads (ops ++ [o]), p.body = .bad := by
    rintro ⟨p, h1, h2⟩
    exact ⟨p, by rw [Spec.pingReads, List.filterMap_append]; exact List.mem_append_left _ h1, h2⟩
  unfold Ping.step at h
  split at h
  · cases h
  · cases o with
    | take now =>
      simp only at h
      split at h
      · cases h
      · rename_i hl
        split at h
        · cases h
        · rename_i p q hq
          have hpm : p ∈ Spec.pingReads ops := by
            obtain ⟨tk, q1, _⟩ := hI.queue
            rw [q1, hq]; simp
          by_cases hb : p.body = .bad
          · exact hmono ⟨p, hpm, hb⟩
          · have hf : (Ping.process id { s with queue := q } p.body now).2 = false ∧
                (Ping.process id { s with queue := q } p.body now).1.main = s.main := by
              unfold Ping.process
              cases hbb : p.body with
              | bad => exact absurd hbb hb
              | other => exact ⟨rfl, rfl⟩
              | reply i stamp =>
                simp only
                split
                · exact ⟨rfl, rfl⟩
                · cases stamp <;> exact ⟨rfl, rfl⟩
            rw [hf.1] at h
            simp only [Bool.false_eq_true, if_false] at h
            split at h <;> cases h
            · simp at hm
            · rw [hf.2] at hm; exact hmono (ih hm)
    | _ =>
      simp only at h
      (repeat' split at h) <;> cases h <;> first | (simp_all; done) | exact hmono (ih (by simp_all))

/-- C84: as long as reading does not fail, no channel is closed twice. -/
theorem ping_no_panic {count id : Nat} {ops : List Op} {s : Ping.St}
    (h : Ping.play count id Ping.init ops = some s) (hr : Op.readError ∉ ops) : s.panicked = false := by
  have := (pingInv count id ops s h).panic
  cases hp : s.panicked with
  | false => rfl
  | true => exact absurd (this hp) hr

/-- Waiting for a goroutine that cannot put its packet into the channel. -/
def Spec.PingStuck (s : Ping.St) : Prop := (∃ r, s.main = .waiting r) ∧ (∃ p, s.rcv = .pushing p) ∧ s.queue.length = 5

/-- C84: `Ping`, once it has left its loop, can always return, unless it waits for a goroutine that cannot put its packet
into the full channel. -/
theorem ping_can_return {count id : Nat} {ops : List Op} {s : Ping.St} {r : Res}
    (h : Ping.play count id Ping.init ops = some s) (hr : s.main = .waiting r) (hp : s.panicked = false)
    (hn : ¬ Spec.PingStuck s) (hcl : s.rcv ≠ .closing) :
    ∃ more s', Ping.play count id s more = some s' ∧ s'.main = .returned r := by
  have hI := pingInv count id ops s h
  have hd : s.done = true := hI.wait ⟨r, Or.inl hr⟩
  cases hrc : s.rcv with
  | gone => exact ⟨[.join], { s with main := .returned r }, by simp [Ping.play, Ping.step, hp, hr, hrc], rfl⟩
  | check =>
    exact ⟨[.look, .join], { s with main := .returned r, rcv := .gone },
      by simp [Ping.play, Ping.step, hp, hr, hrc, hd], rfl⟩
  | reading =>
    exact ⟨[.readTimeout, .look, .join], { s with main := .returned r, rcv := .gone },
      by simp [Ping.play, Ping.step, hp, hr, hrc, hd], rfl⟩
  | pushing p =>
    have hlt : s.queue.length < 5 := by
      have := hI.len
      apply Nat.lt_of_le_of_ne this
      intro h5; exact hn ⟨⟨r, hr⟩, ⟨p, hrc⟩, h5⟩
    exact ⟨[.push, .look, .join], { s with main := .returned r, rcv := .gone, queue := s.queue ++ [p] },
      by simp [Ping.play, Ping.step, hp, hr, hrc, hd, room, hlt], rfl⟩
  | closing => exact absurd hrc hcl

/-- Being stuck lasts. -/
theorem ping_stuck {count id : Nat} {s : Ping.St} (h : Spec.PingStuck s) (more : List Op) :
    Ping.play count id s more = (if more = [] then some s else none) := by
  obtain ⟨⟨r, hr⟩, ⟨p, hp⟩, hq⟩ := h
  cases more with
  | nil => rfl
  | cons o more =>
    have : Ping.step count id s o = none := by
      unfold Ping.step
      split
      · rfl
      · cases o <;> simp [hr, hp, hq, room]
    simp [Ping.play, this]

theorem ping_shows {count id : Nat} {ops : List Op} {f : Ping.St → Bool}
    (h : (Ping.play count id Ping.init ops).any f = true) : ∃ s, Ping.play count id Ping.init ops = some s ∧ f s = true := by
  cases hp : Ping.play count id Ping.init ops with
  | none => rw [hp] at h; cases h
  | some s => rw [hp] at h; exact ⟨s, rfl, h⟩

/-- C84, violated: `Ping` can wait for ever: the time is up while five packets are in the channel and a sixth has been
read. No step of either goroutine is possible after that. -/
theorem ping_hang_violated :
    ∃ ops s, Ping.play 5 1 Ping.init ops = some s ∧ s.main = .waiting .timedOut ∧ s.panicked = false ∧
      ∀ more s', Ping.play 5 1 s more = some s' → more = [] := by
  let x : List Op := [.look, .read ⟨9, .other⟩, .push]
  obtain ⟨s, h1, h2⟩ := ping_shows (count := 5) (id := 1)
    (ops := x ++ x ++ x ++ x ++ x ++ [.look, .read ⟨9, .other⟩, .timeout, .close])
    (f := fun s => decide (s.main = .waiting .timedOut ∧ s.panicked = false ∧ s.rcv = .pushing ⟨9, .other⟩ ∧ s.queue.length = 5))
    (by decide +kernel)
  simp only [decide_eq_true_eq] at h2
  refine ⟨_, s, h1, h2.1, h2.2.1, ?_⟩
  intro more s' h
  rw [ping_stuck ⟨⟨_, h2.1⟩, ⟨_, h2.2.2.1⟩, h2.2.2.2⟩] at h
  by_cases hm : more = []
  · exact hm
  · rw [if_neg hm] at h; cases h

/-- C84, violated: if reading fails when the time is up, both goroutines close the channel, and the second to do so panics. -/
theorem ping_panic_violated :
    ∃ s, Ping.play 5 1 Ping.init [.look, .readError, .timeout, .rcvClose, .close] = some s ∧ s.panicked = true :=
  ping_shows (f := fun s => s.panicked) (by decide +kernel)

/-- C84, violated: a reply counts whoever sent it, if it has the identifier of the pinger: all times may be those of another
node. -/
theorem ping_foreign_violated :
    ∃ ops s, Ping.play 3 1 Ping.init ops = some s ∧ s.main = .returned .ok ∧ s.rtts = [1, 1, 1] ∧
      ∀ p ∈ Spec.pingReads ops, p.src = 66 := by
  let x : List Op := [.look, .read ⟨66, .reply 1 (some 4)⟩, .push, .take 5]
  obtain ⟨s, h1, h2⟩ := ping_shows (count := 3) (id := 1) (ops := x ++ x ++ x ++ [.close, .look, .join])
    (f := fun s => decide (s.main = .returned .ok ∧ s.rtts = [1, 1, 1])) (by decide +kernel)
  simp only [decide_eq_true_eq] at h2
  exact ⟨_, s, h1, h2.1, h2.2, by decide⟩

/-- C84, violated: one packet that cannot be parsed, from anyone, ends the measurement. -/
theorem ping_spoilt_violated :
    ∃ s, Ping.play 5 1 Ping.init [.look, .read ⟨66, .bad⟩, .push, .take 5, .close, .look, .join] = some s ∧
      s.main = .returned .broken ∧ s.rtts = [] := by
  obtain ⟨s, h1, h2⟩ := ping_shows (count := 5) (id := 1)
    (ops := [.look, .read ⟨66, .bad⟩, .push, .take 5, .close, .look, .join])
    (f := fun s => decide (s.main = .returned .broken ∧ s.rtts = [])) (by decide +kernel)
  simp only [decide_eq_true_eq] at h2
  exact ⟨s, h1, h2⟩

/-- A measurement of two replies with something else between them. -/
example : ∃ s, Ping.play 2 1 Ping.init [.look, .read ⟨7, .reply 1 (some 10)⟩, .push, .look, .read ⟨7, .reply 2 (some 0)⟩, .tick,
      .take 14, .push, .take 15, .tick, .look, .read ⟨7, .reply 1 (some 11)⟩, .push, .take 20, .close, .look, .join] = some s ∧
    (s.main = .returned .ok ∧ s.rtts = [4, 9] ∧ s.sent = 2 ∧ s.recv = 2) := by
  obtain ⟨s, h1, h2⟩ := ping_shows (count := 2) (id := 1)
    (ops := [.look, .read ⟨7, .reply 1 (some 10)⟩, .push, .look, .read ⟨7, .reply 2 (some 0)⟩, .tick,
      .take 14, .push, .take 15, .tick, .look, .read ⟨7, .reply 1 (some 11)⟩, .push, .take 20, .close, .look, .join])
    (f := fun s => decide (s.main = .returned .ok ∧ s.rtts = [4, 9] ∧ s.sent = 2 ∧ s.recv = 2)) (by decide +kernel)
  simp only [decide_eq_true_eq] at h2
  exact ⟨s, h1, h2⟩

/-- `ping_can_return`: the time is up while the other goroutine reads. -/
example : ∃ s more s', Ping.play 5 1 Ping.init [.look, .timeout, .close] = some s ∧ Ping.play 5 1 s more = some s' ∧
    s'.main = .returned .timedOut := by
  obtain ⟨s, h1, h2⟩ := ping_shows (count := 5) (id := 1) (ops := [.look, .timeout, .close])
    (f := fun s => decide (s.main = .waiting .timedOut ∧ s.panicked = false ∧ s.rcv = .reading)) (by decide +kernel)
  simp only [decide_eq_true_eq] at h2
  obtain ⟨more, s', h3, h4⟩ := ping_can_return h1 h2.1 h2.2.1
    (by rintro ⟨_, ⟨p, hp⟩, _⟩; rw [h2.2.2] at hp; cases hp) (by rw [h2.2.2]; decide)
  exact ⟨s, more, s', h1, h3, h4⟩

end Motan.Props
