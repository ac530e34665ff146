import Verif.Model.Recycle
import Verif.Props.Server

/-!
# C56: what a channel writes for a proxied request

Every frame written to a channel is a frame that an attempt offered to that channel, complete, and each offer is written
at most once, under every schedule of the goroutines and every reuse of pooled messages, if each request is attempted at
most once. With retries the claim is false: three schedules show a frame with a foreign stream id, a frame without its
body and a frame with another request's body.
-/

namespace Motan.Props

open Motan Recycle

variable {M : Type}

/-- What the attempts of a schedule offer to the channels: channel and complete frame (its size is the body's). -/
def Spec.offered : List (Op M) → List (Nat × Frame M)
  | [] => []
  | .convert _ ch sid md body :: ops => (ch, ⟨⟨sid, md, body.length⟩, body⟩) :: Spec.offered ops
  | _ :: ops => Spec.offered ops

/-- What was written: channel and frame. -/
def Spec.written (s : Recycle.St M) : List (Nat × Frame M) :=
  s.sent.map fun x => (x.1, x.2.2)

/-- No request is attempted twice. -/
def Spec.OneAttempt (s : Recycle.St M) : Prop := ∀ c ∈ s.calls, c.attempts ≤ 1

theorem index_split {α : Type} {l : List α} {n : Nat} {e : α} (h : l[n]? = some e) :
    ∃ a b, l = a ++ e :: b ∧ a.length = n ∧ l.eraseIdx n = a ++ b ∧ ∀ x, l.set n x = a ++ x :: b := by
  induction l generalizing n with
  | nil => cases h
  | cons y l ih =>
    cases n with
    | zero =>
      simp only [List.getElem?_cons_zero, Option.some.injEq] at h
      subst h
      exact ⟨[], l, rfl, rfl, rfl, fun _ => rfl⟩
    | succ n =>
      obtain ⟨a, b, h1, h2, h3, h4⟩ := ih (by simpa using h)
      refine ⟨y :: a, b, by rw [h1]; rfl, by simp [h2], ?_, fun x => ?_⟩
      · rw [List.eraseIdx_cons_succ, h3]; rfl
      · rw [List.set_cons_succ, h4]; rfl

theorem find_split {α : Type} {l : List α} {p : α → Bool} {e : α} (h : l.find? p = some e) :
    ∃ a b, l = a ++ e :: b ∧ l.eraseP p = a ++ b ∧ p e = true := by
  induction l with
  | nil => cases h
  | cons y l ih =>
    rw [List.find?_cons] at h
    cases hy : p y with
    | true =>
      rw [hy] at h
      simp only [Option.some.injEq] at h
      subst h
      exact ⟨[], l, rfl, by rw [List.eraseP_cons_of_pos hy]; rfl, hy⟩
    | false =>
      rw [hy] at h
      obtain ⟨a, b, h1, h2, h3⟩ := ih h
      refine ⟨y :: a, b, by rw [h1]; rfl, ?_, h3⟩
      rw [List.eraseP_cons_of_neg (by simp [hy]), h2]; rfl

/-! ## The invariant -/

/-- How often object `k` is the message of a call that has not been attempted. -/
def idleN (s : Recycle.St M) (k : Nat) : Nat :=
  ((s.calls.filter fun c => !c.closed && c.attempts == 0).map Call.obj).count k

/-- How often object `k` is the message of an open call. -/
def openN (s : Recycle.St M) (k : Nat) : Nat :=
  ((s.calls.filter fun c => !c.closed).map Call.obj).count k

/-- All uses of object `k` that need it unchanged or will change it. -/
def uses (s : Recycle.St M) (k : Nat) : Nat :=
  s.free.count k + idleN s k + (s.encoded.map Entry.obj).count k + (s.queued.map Entry.obj).count k + s.marking.count k

structure RecInv (s : Recycle.St M) : Prop where
  one : ∀ k, uses s k ≤ 1
  ok : ∀ k, 0 < uses s k → ∃ o, s.objs[k]? = some o ∧ o.canRelease = false
  opn : ∀ k, openN s k + s.free.count k ≤ 1
  bnd : ∀ k, 0 < openN s k → k < s.objs.length
  frames : ∀ e, e ∈ s.encoded ∨ e ∈ s.queued →
    ∃ o, s.objs[e.obj]? = some o ∧ o.head = some e.want.head ∧ o.body = e.want.body
  sent : ∀ x ∈ s.sent, x.2.2 = x.2.1

theorem count_entry {l : List (Entry M)} {e : Entry M} (h : e ∈ l) : 0 < (l.map Entry.obj).count e.obj :=
  List.count_pos_iff.mpr (List.mem_map.mpr ⟨e, h, rfl⟩)

theorem waiting_used {s : Recycle.St M} {e : Entry M} (h : e ∈ s.encoded ∨ e ∈ s.queued) :
    0 < (s.encoded.map Entry.obj).count e.obj + (s.queued.map Entry.obj).count e.obj := by
  rcases h with h | h
  · exact Nat.add_pos_left (count_entry h) _
  · exact Nat.add_pos_right _ (count_entry h)

theorem get_modify {α : Type} (l : List α) (k j : Nat) (f : α → α) :
    (l.modify k f)[j]? = if k = j then l[j]?.map f else l[j]? := by
  rw [List.getElem?_modify]
  by_cases h : k = j
  · simp [h]
  · simp only [if_neg h]
    cases l[j]? <;> rfl

theorem receive_rec {s : Recycle.St M} (I : RecInv s) (reuse : Option Nat) (id : UInt64) (md : M) (body : Bytes) :
    RecInv (Recycle.receive s reuse id md body) := by
  unfold Recycle.receive
  split
  · next k =>
    split
    · next hk =>
      have hfk : 0 < s.free.count k := List.count_pos_iff.mpr hk
      have hce : ∀ j, (s.free.erase k).count j = s.free.count j - if k = j then 1 else 0 := by
        intro j
        rw [List.count_erase]
        by_cases h : k = j
        · simp [h]
        · simp [h]
      have hu : ∀ j, uses { s with
          objs := s.objs.modify k (Obj.decode id md body), free := s.free.erase k,
          calls := s.calls ++ [{ obj := k }] } j = uses s j := by
        intro j
        unfold uses idleN
        simp only [List.filter_append, List.map_append, List.count_append, hce]
        simp only [List.filter_cons, Bool.not_false, beq_self_eq_true, Bool.and_self, if_true, List.filter_nil,
          List.map_cons, List.map_nil, List.count_cons, List.count_nil, beq_iff_eq]
        by_cases h : k = j
        · subst h
          simp only [if_true]
          omega
        · simp only [if_neg h]
          omega
      refine ⟨fun j => ?_, fun j hj => ?_, fun j => ?_, fun j hj => ?_, fun e he => ?_, I.sent⟩
      · rw [hu]; exact I.one j
      · rw [hu] at hj
        obtain ⟨o, h1, h2⟩ := I.ok j hj
        show ∃ o, (s.objs.modify k (Obj.decode id md body))[j]? = some o ∧ _
        rw [get_modify, h1]
        by_cases h : k = j
        · rw [if_pos h]; exact ⟨_, rfl, h2⟩
        · rw [if_neg h]; exact ⟨_, rfl, h2⟩
      · have h1 := I.opn j
        show ((_ ++ _ : List Call).filter _ |>.map Call.obj).count j + (s.free.erase k).count j ≤ 1
        unfold openN at h1
        simp only [List.filter_append, List.map_append, List.count_append, hce]
        simp only [List.filter_cons, Bool.not_false, if_true, List.filter_nil,
          List.map_cons, List.map_nil, List.count_cons, List.count_nil, beq_iff_eq]
        by_cases h : k = j
        · subst h
          simp only [if_true]
          omega
        · simp only [if_neg h]
          omega
      · have hj' : 0 < ((s.calls ++ [({ obj := k } : Call)]).filter (fun c : Call => !c.closed) |>.map Call.obj).count j := hj
        simp only [List.filter_append, List.map_append, List.count_append] at hj'
        simp only [List.filter_cons, Bool.not_false, if_true, List.filter_nil,
          List.map_cons, List.map_nil, List.count_cons, List.count_nil, beq_iff_eq] at hj'
        show j < (s.objs.modify k (Obj.decode id md body)).length
        rw [List.length_modify]
        by_cases h : k = j
        · subst h
          obtain ⟨o, h1, _⟩ := I.ok k (by unfold uses; omega)
          exact (List.getElem?_eq_some_iff.mp h1).1
        · simp only [if_neg h] at hj'
          exact I.bnd j hj'
      · obtain ⟨o, h1, h2, h3⟩ := I.frames e he
        have hne : k ≠ e.obj := by
          intro h
          have h4 := I.one k
          unfold uses at h4
          have := waiting_used (s := s) he
          rw [← h] at this
          omega
        refine ⟨o, ?_, h2, h3⟩
        show (s.objs.modify k (Obj.decode id md body))[e.obj]? = some o
        rw [get_modify, if_neg hne, h1]
    · exact I
  · have hl : ∀ j, s.objs.length ≤ j → uses s j = 0 := by
      intro j hj
      rcases Nat.eq_zero_or_pos (uses s j) with h | h
      · exact h
      · obtain ⟨o, h1, _⟩ := I.ok j h
        have := (List.getElem?_eq_some_iff.mp h1).1
        omega
    have hu : ∀ j, uses { s with
        objs := s.objs ++ [{ id := id, md := md, body := body }],
        calls := s.calls ++ [{ obj := s.objs.length }] } j = uses s j + if s.objs.length = j then 1 else 0 := by
      intro j
      unfold uses idleN
      simp only [List.filter_append, List.map_append, List.count_append]
      simp only [List.filter_cons, Bool.not_false, beq_self_eq_true, Bool.and_self, if_true, List.filter_nil,
        List.map_cons, List.map_nil, List.count_cons, List.count_nil, beq_iff_eq]
      omega
    refine ⟨fun j => ?_, fun j hj => ?_, fun j => ?_, fun j hj => ?_, fun e he => ?_, I.sent⟩
    · rw [hu]
      have h1 := I.one j
      by_cases h : s.objs.length = j
      · have := hl j (by omega)
        rw [if_pos h]; omega
      · rw [if_neg h]; omega
    · rw [hu] at hj
      show ∃ o, (s.objs ++ [_])[j]? = some o ∧ _
      by_cases h : s.objs.length = j
      · refine ⟨⟨id, md, body, none, false⟩, ?_, rfl⟩
        rw [List.getElem?_append_right (by omega), ← h, Nat.sub_self]
        rfl
      · rw [if_neg h] at hj
        obtain ⟨o, h1, h2⟩ := I.ok j hj
        refine ⟨o, ?_, h2⟩
        rw [List.getElem?_append_left (List.getElem?_eq_some_iff.mp h1).1, h1]
    · have h1 := I.opn j
      show ((_ ++ _ : List Call).filter _ |>.map Call.obj).count j + s.free.count j ≤ 1
      simp only [List.filter_append, List.map_append, List.count_append]
      simp only [List.filter_cons, Bool.not_false, if_true, List.filter_nil,
        List.map_cons, List.map_nil, List.count_cons, List.count_nil, beq_iff_eq]
      have h2 : openN s j = ((s.calls.filter fun c => !c.closed).map Call.obj).count j := rfl
      by_cases h : s.objs.length = j
      · have h3 := hl j (by omega)
        unfold uses at h3
        have h4 : openN s j = 0 := by
          rcases Nat.eq_zero_or_pos (openN s j) with h | h
          · exact h
          · have := I.bnd j h
            omega
        rw [if_pos h]
        omega
      · rw [if_neg h]
        omega
    · have hj' : 0 < ((s.calls ++ [({ obj := s.objs.length } : Call)]).filter (fun c : Call => !c.closed) |>.map Call.obj).count j := hj
      simp only [List.filter_append, List.map_append, List.count_append] at hj'
      simp only [List.filter_cons, Bool.not_false, if_true, List.filter_nil,
        List.map_cons, List.map_nil, List.count_cons, List.count_nil, beq_iff_eq] at hj'
      show j < (s.objs ++ [_]).length
      rw [List.length_append, List.length_singleton]
      by_cases h : s.objs.length = j
      · omega
      · rw [if_neg h] at hj'
        have := I.bnd j hj'
        omega
    · obtain ⟨o, h1, h2, h3⟩ := I.frames e he
      refine ⟨o, ?_, h2, h3⟩
      show (s.objs ++ [_])[e.obj]? = some o
      rw [List.getElem?_append_left (List.getElem?_eq_some_iff.mp h1).1, h1]

theorem convert_rec {s : Recycle.St M} (I : RecInv s) (c ch : Nat) (sid : UInt64) (md : M) (body : Bytes)
    (h1 : Spec.OneAttempt (Recycle.convert s c ch sid md body)) :
    RecInv (Recycle.convert s c ch sid md body) := by
  unfold Recycle.convert at h1 ⊢
  split
  · next call hc =>
    rw [hc] at h1
    split
    · exact I
    · next hcl =>
      simp only [if_neg hcl] at h1
      obtain ⟨a, b, hab, _, _, hset⟩ := index_split hc
      have hcl' : call.closed = false := by simpa using hcl
      have hz : call.attempts = 0 := by
        have := h1 { call with attempts := call.attempts + 1 } (by
          show _ ∈ s.calls.set c _
          rw [hset]; simp)
        have : call.attempts + 1 ≤ 1 := this
        omega
      have hu : ∀ j, uses { s with
          objs := s.objs.modify call.obj fun o => ({ o with id := sid, md := md, body := body } : Obj M).encode,
          calls := s.calls.set c { call with attempts := call.attempts + 1 },
          encoded := s.encoded ++ [⟨ch, call.obj, ⟨⟨sid, md, body.length⟩, body⟩⟩] } j = uses s j := by
        intro j
        unfold uses idleN
        simp only [hset, hz]
        rw [hab]
        simp only [List.filter_append, List.map_append, List.count_append, List.filter_cons, hcl', Bool.not_false, hz,
          beq_self_eq_true, Bool.and_self, if_true, List.map_cons, List.count_cons, List.map_nil, List.count_nil]
        simp only [Nat.zero_add, Nat.reduceBEq, Bool.false_eq_true, Bool.and_false, if_false]
        omega
      have hidle : 0 < idleN s call.obj := by
        unfold idleN
        rw [hab]
        refine List.count_pos_iff.mpr (List.mem_map.mpr ⟨call, ?_, rfl⟩)
        simp [hcl', hz]
      have hk := I.one call.obj
      unfold uses at hk
      refine ⟨fun j => ?_, fun j hj => ?_, fun j => ?_, fun j hj => ?_, fun e he => ?_, I.sent⟩
      · rw [hu]; exact I.one j
      · rw [hu] at hj
        obtain ⟨o, h2, h3⟩ := I.ok j hj
        show ∃ o, (s.objs.modify call.obj _)[j]? = some o ∧ _
        rw [get_modify, h2]
        by_cases h : call.obj = j
        · rw [if_pos h]; exact ⟨_, rfl, h3⟩
        · rw [if_neg h]; exact ⟨_, rfl, h3⟩
      · have h2 := I.opn j
        unfold openN at h2 ⊢
        simp only [hset]
        rw [hab] at h2
        simp only [List.filter_append, List.map_append, List.count_append, List.filter_cons, hcl', Bool.not_false,
          if_true, List.map_cons, List.count_cons] at h2 ⊢
        exact h2
      · have h2 := I.bnd j
        unfold openN at h2 hj
        simp only [hset] at hj
        rw [hab] at h2
        simp only [List.filter_append, List.map_append, List.count_append, List.filter_cons, hcl', Bool.not_false,
          if_true, List.map_cons, List.count_cons] at h2 hj
        show j < (s.objs.modify call.obj _).length
        rw [List.length_modify]
        exact h2 hj
      · show ∃ o, (s.objs.modify call.obj _)[e.obj]? = some o ∧ _
        rw [get_modify]
        have hold : ∀ e, e ∈ s.encoded ∨ e ∈ s.queued → call.obj ≠ e.obj := by
          intro e he h
          have := waiting_used (s := s) he
          rw [← h] at this
          omega
        have he' : (e ∈ s.encoded ∨ e ∈ s.queued) ∨ e = ⟨ch, call.obj, ⟨⟨sid, md, body.length⟩, body⟩⟩ := by
          rcases he with he | he
          · rcases List.mem_append.mp he with he | he
            · exact .inl (.inl he)
            · exact .inr (List.mem_singleton.mp he)
          · exact .inl (.inr he)
        rcases he' with he' | he'
        · rw [if_neg (hold e he')]
          exact I.frames e he'
        · subst he'
          obtain ⟨o, h2, _⟩ := I.ok call.obj (by unfold uses; omega)
          rw [if_pos rfl, h2]
          exact ⟨_, rfl, rfl, rfl⟩
  · exact I

theorem enqueue_rec {s : Recycle.St M} (I : RecInv s) (n : Nat) : RecInv (Recycle.enqueue s n) := by
  unfold Recycle.enqueue
  split
  · next e he =>
    obtain ⟨a, b, hab, _, her, _⟩ := index_split he
    rw [her]
    have hu : ∀ j, uses { s with encoded := a ++ b, queued := s.queued ++ [e] } j = uses s j := by
      intro j
      unfold uses idleN
      rw [hab]
      simp only [List.map_append, List.count_append, List.map_cons, List.count_cons, List.map_nil, List.count_nil]
      omega
    refine ⟨fun j => by rw [hu]; exact I.one j, fun j hj => I.ok j (by rwa [hu] at hj), I.opn, I.bnd, fun x hx => ?_,
      I.sent⟩
    refine I.frames x ?_
    rw [hab]
    rcases hx with hx | hx
    · left
      rcases List.mem_append.mp hx with hx | hx
      · exact List.mem_append_left _ hx
      · exact List.mem_append_right _ (List.mem_cons_of_mem _ hx)
    · rcases List.mem_append.mp hx with hx | hx
      · exact .inr hx
      · rw [List.mem_singleton.mp hx]
        left
        simp
  · exact I

/-- Fewer waiting entries and marks keep the invariant. -/
theorem fewer_rec {s : Recycle.St M} (I : RecInv s) {enc q : List (Entry M)} (h1 : enc.Sublist s.encoded)
    (h2 : q.Sublist s.queued) : RecInv { s with encoded := enc, queued := q } := by
  have hu : ∀ j, uses { s with encoded := enc, queued := q } j ≤ uses s j := by
    intro j
    have e1 := (h1.map Entry.obj).count_le j
    have e2 := (h2.map Entry.obj).count_le j
    show s.free.count j + idleN s j + (enc.map Entry.obj).count j + (q.map Entry.obj).count j + s.marking.count j ≤
      s.free.count j + idleN s j + (s.encoded.map Entry.obj).count j + (s.queued.map Entry.obj).count j +
        s.marking.count j
    omega
  refine ⟨fun j => Nat.le_trans (hu j) (I.one j), fun j hj => I.ok j (Nat.lt_of_lt_of_le hj (hu j)), I.opn, I.bnd,
    fun x hx => I.frames x ?_, I.sent⟩
  rcases hx with hx | hx
  · exact .inl (h1.subset hx)
  · exact .inr (h2.subset hx)

theorem write_rec {s : Recycle.St M} (I : RecInv s) (ch : Nat) : RecInv (Recycle.write s ch) := by
  unfold Recycle.write
  split
  · next e he =>
    obtain ⟨a, b, hab, her, _⟩ := find_split he
    split
    · next o ho =>
      rw [her]
      have hu : ∀ j, uses { s with
          queued := a ++ b, marking := s.marking ++ [e.obj], sent := s.sent ++ [(ch, e.want, o.frame)] } j =
          uses s j := by
        intro j
        unfold uses idleN
        rw [hab]
        simp only [List.map_append, List.count_append, List.map_cons, List.count_cons, List.count_nil]
        omega
      refine ⟨fun j => by rw [hu]; exact I.one j, fun j hj => I.ok j (by rwa [hu] at hj), I.opn, I.bnd,
        fun x hx => I.frames x ?_, fun x hx => ?_⟩
      · rw [hab]
        rcases hx with hx | hx
        · exact .inl hx
        · right
          rcases List.mem_append.mp hx with hx | hx
          · exact List.mem_append_left _ hx
          · exact List.mem_append_right _ (List.mem_cons_of_mem _ hx)
      · rcases List.mem_append.mp hx with hx | hx
        · exact I.sent x hx
        · rw [List.mem_singleton.mp hx]
          obtain ⟨o', h1, h2, h3⟩ := I.frames e (.inr (by rw [hab]; simp))
          rw [ho] at h1
          cases h1
          show o.frame = e.want
          unfold Obj.frame
          rw [h2]
          show (⟨e.want.head, o.body⟩ : Frame M) = e.want
          rw [h3]
    · exact I
  · exact I

theorem mark_rec {s : Recycle.St M} (I : RecInv s) (n : Nat) : RecInv (Recycle.mark s n) := by
  unfold Recycle.mark
  split
  · next k hk =>
    obtain ⟨a, b, hab, _, her, _⟩ := index_split hk
    rw [her]
    have hu : ∀ j, uses { s with
        objs := s.objs.modify k fun o => { o with canRelease := true }, marking := a ++ b } j +
        (if k = j then 1 else 0) = uses s j := by
      intro j
      unfold uses idleN
      rw [hab]
      simp only [List.count_append, List.count_cons, beq_iff_eq]
      omega
    refine ⟨fun j => ?_, fun j hj => ?_, I.opn, fun j hj => ?_, fun e he => ?_, I.sent⟩
    · have := hu j
      have := I.one j
      omega
    · have h1 := hu j
      have h2 := I.one j
      have hne : k ≠ j := by
        intro h
        rw [if_pos h] at h1
        omega
      obtain ⟨o, h3, h4⟩ := I.ok j (by omega)
      refine ⟨o, ?_, h4⟩
      show (s.objs.modify k _)[j]? = some o
      rw [get_modify, if_neg hne, h3]
    · show j < (s.objs.modify k _).length
      rw [List.length_modify]
      exact I.bnd j hj
    · obtain ⟨o, h1, h2, h3⟩ := I.frames e he
      show ∃ o, (s.objs.modify k _)[e.obj]? = some o ∧ _
      rw [get_modify, h1]
      by_cases h : k = e.obj
      · rw [if_pos h]; exact ⟨_, rfl, h2, h3⟩
      · rw [if_neg h]; exact ⟨_, rfl, h2, h3⟩
  · exact I

theorem release_rec {s : Recycle.St M} (empty : M) (I : RecInv s) (c : Nat) : RecInv (Recycle.release empty s c) := by
  unfold Recycle.release
  split
  · next call hc =>
    split
    · exact I
    · next hcl =>
      have hcl' : call.closed = false := by simpa using hcl
      obtain ⟨a, b, hab, _, _, hset⟩ := index_split hc
      have hidle : ∀ j, ((s.calls.set c { call with closed := true }).filter
          (fun c => !c.closed && c.attempts == 0) |>.map Call.obj).count j ≤ idleN s j := by
        intro j
        unfold idleN
        rw [hset, hab]
        simp only [List.filter_append, List.map_append, List.count_append, List.filter_cons, Bool.not_true,
          Bool.false_and, Bool.false_eq_true, if_false]
        by_cases h : (!call.closed && call.attempts == 0) = true
        · rw [if_pos h]
          simp only [List.map_cons, List.count_cons]
          omega
        · rw [if_neg h]
          omega
      have hopen : ∀ j, ((s.calls.set c { call with closed := true }).filter
          (fun c => !c.closed) |>.map Call.obj).count j + (if call.obj = j then 1 else 0) = openN s j := by
        intro j
        unfold openN
        rw [hset, hab]
        simp only [List.filter_append, List.map_append, List.count_append, List.filter_cons, Bool.not_true, hcl',
          Bool.not_false, Bool.false_eq_true, if_false, if_true, List.map_cons, List.count_cons, beq_iff_eq]
        omega
      split
      · next o ho =>
        split
        · next hr =>
          have h0 : uses s call.obj = 0 := by
            rcases Nat.eq_zero_or_pos (uses s call.obj) with h | h
            · exact h
            · obtain ⟨o', h1, h2⟩ := I.ok _ h
              rw [ho] at h1
              cases h1
              rw [hr] at h2
              cases h2
          have hfree : ∀ j, (s.free ++ [call.obj]).count j = s.free.count j + if call.obj = j then 1 else 0 := by
            intro j
            simp only [List.count_append, List.count_cons, List.count_nil, beq_iff_eq]
            omega
          have hu : ∀ j, uses { s with
              objs := s.objs.modify call.obj (Obj.reset empty), free := s.free ++ [call.obj],
              calls := s.calls.set c { call with closed := true } } j ≤ uses s j + if call.obj = j then 1 else 0 := by
            intro j
            have h1 := hidle j
            have h2 := hfree j
            show (s.free ++ [call.obj]).count j + ((s.calls.set c { call with closed := true }).filter
              (fun c => !c.closed && c.attempts == 0) |>.map Call.obj).count j + (s.encoded.map Entry.obj).count j +
              (s.queued.map Entry.obj).count j + s.marking.count j ≤ (s.free.count j + idleN s j +
              (s.encoded.map Entry.obj).count j + (s.queued.map Entry.obj).count j + s.marking.count j) + _
            omega
          refine ⟨fun j => ?_, fun j hj => ?_, fun j => ?_, fun j hj => ?_, fun e he => ?_, I.sent⟩
          · have h1 := hu j
            have h2 := I.one j
            by_cases h : call.obj = j
            · rw [if_pos h, ← h] at h1
              rw [← h]
              omega
            · rw [if_neg h] at h1
              omega
          · show ∃ o, (s.objs.modify call.obj _)[j]? = some o ∧ _
            rw [get_modify]
            by_cases h : call.obj = j
            · rw [if_pos h, ← h, ho]
              exact ⟨_, rfl, rfl⟩
            · have h1 := hu j
              rw [if_neg h] at h1
              rw [if_neg h]
              exact I.ok j (by omega)
          · have h1 := hopen j
            have h2 := hfree j
            have h3 := I.opn j
            show ((s.calls.set c { call with closed := true }).filter
              (fun c => !c.closed) |>.map Call.obj).count j + (s.free ++ [call.obj]).count j ≤ 1
            omega
          · have h1 := hopen j
            have hj' : 0 < ((s.calls.set c { call with closed := true }).filter
              (fun c => !c.closed) |>.map Call.obj).count j := hj
            show j < (s.objs.modify call.obj _).length
            rw [List.length_modify]
            exact I.bnd j (by omega)
          · obtain ⟨o', h1, h2, h3⟩ := I.frames e he
            refine ⟨o', ?_, h2, h3⟩
            show (s.objs.modify call.obj _)[e.obj]? = some o'
            rw [get_modify, if_neg, h1]
            intro h
            unfold uses at h0
            have := waiting_used (s := s) he
            rw [← h] at this
            omega
        · have hu : ∀ j, uses { s with calls := s.calls.set c { call with closed := true } } j ≤ uses s j := by
            intro j
            have h1 := hidle j
            show s.free.count j + ((s.calls.set c { call with closed := true }).filter
              (fun c => !c.closed && c.attempts == 0) |>.map Call.obj).count j + (s.encoded.map Entry.obj).count j +
              (s.queued.map Entry.obj).count j + s.marking.count j ≤ (s.free.count j + idleN s j +
              (s.encoded.map Entry.obj).count j + (s.queued.map Entry.obj).count j + s.marking.count j)
            omega
          refine ⟨fun j => Nat.le_trans (hu j) (I.one j), fun j hj => I.ok j (Nat.lt_of_lt_of_le hj (hu j)),
            fun j => ?_, fun j hj => ?_, I.frames, I.sent⟩
          · have h1 := hopen j
            have h3 := I.opn j
            show ((s.calls.set c { call with closed := true }).filter
              (fun c => !c.closed) |>.map Call.obj).count j + s.free.count j ≤ 1
            omega
          · have h1 := hopen j
            have hj' : 0 < ((s.calls.set c { call with closed := true }).filter
              (fun c => !c.closed) |>.map Call.obj).count j := hj
            exact I.bnd j (by omega)
      · exact I
  · exact I

theorem step_rec {s : Recycle.St M} (empty : M) (I : RecInv s) (op : Op M)
    (h : Spec.OneAttempt (Recycle.step empty s op)) : RecInv (Recycle.step empty s op) := by
  cases op with
  | receive reuse id md body => exact receive_rec I reuse id md body
  | convert c ch sid md body => exact convert_rec I c ch sid md body h
  | enqueue n => exact enqueue_rec I n
  | giveUp n => exact fewer_rec I (List.eraseIdx_sublist _ _) (List.Sublist.refl _)
  | write ch => exact write_rec I ch
  | mark n => exact mark_rec I n
  | shut ch => exact fewer_rec I (List.Sublist.refl _) List.filter_sublist
  | release c => exact release_rec empty I c

theorem set_calls {l : List Call} {n : Nat} {x : Call} (y : Call) (h : l[n]? = some x) (hy : x.attempts ≤ y.attempts)
    {c : Call} (hc : c ∈ l) : ∃ c' ∈ l.set n y, c.attempts ≤ c'.attempts := by
  obtain ⟨a, b, hab, _, _, hset⟩ := index_split h
  rw [hset]
  rw [hab] at hc
  rcases List.mem_append.mp hc with hc | hc
  · exact ⟨c, List.mem_append_left _ hc, Nat.le_refl _⟩
  · rcases List.mem_cons.mp hc with hc | hc
    · exact ⟨y, by simp, hc ▸ hy⟩
    · exact ⟨c, List.mem_append_right _ (List.mem_cons_of_mem _ hc), Nat.le_refl _⟩

/-- Attempts are never forgotten. -/
theorem attempts_grow {s : Recycle.St M} (empty : M) (op : Op M) {c : Call} (hc : c ∈ s.calls) :
    ∃ c' ∈ (Recycle.step empty s op).calls, c.attempts ≤ c'.attempts := by
  have hs : ∃ c' ∈ s.calls, c.attempts ≤ c'.attempts := ⟨c, hc, Nat.le_refl _⟩
  cases op with
  | receive reuse id md body =>
    simp only [Recycle.step, Recycle.receive]
    split
    · split
      · exact ⟨c, List.mem_append_left _ hc, Nat.le_refl _⟩
      · exact hs
    · exact ⟨c, List.mem_append_left _ hc, Nat.le_refl _⟩
  | convert i ch sid md body =>
    simp only [Recycle.step, Recycle.convert]
    split
    · next call h =>
      split
      · exact hs
      · exact set_calls _ h (Nat.le_succ _) hc
    · exact hs
  | enqueue n =>
    simp only [Recycle.step, Recycle.enqueue]
    split <;> exact hs
  | giveUp n => exact hs
  | write ch =>
    simp only [Recycle.step, Recycle.write]
    split
    · split <;> exact hs
    · exact hs
  | mark n =>
    simp only [Recycle.step, Recycle.mark]
    split <;> exact hs
  | shut ch => exact hs
  | release i =>
    simp only [Recycle.step, Recycle.release]
    split
    · next call h =>
      split
      · exact hs
      · split
        · split
          · exact set_calls { call with closed := true } h (Nat.le_refl _) hc
          · exact set_calls { call with closed := true } h (Nat.le_refl _) hc
        · exact hs
    · exact hs

theorem rec_inv (empty : M) (ops : List (Op M)) (h : Spec.OneAttempt (Recycle.run empty ops)) :
    RecInv (Recycle.run empty ops) := by
  induction ops using snocRec with
  | nil =>
    exact ⟨fun _ => Nat.zero_le _, fun _ h => absurd h (Nat.lt_irrefl 0), fun _ => Nat.zero_le _,
      fun _ h => absurd h (Nat.lt_irrefl 0), (fun _ h => by rcases h with h | h <;> cases h), (fun _ h => by cases h)⟩
  | append_singleton ops op ih =>
    rw [Recycle.run, List.foldl_append] at h ⊢
    refine step_rec empty (ih fun c hc => ?_) op h
    obtain ⟨c', h1, h2⟩ := attempts_grow empty op hc
    exact Nat.le_trans h2 (h c' h1)

/-! ## The offers -/

theorem offered_append (ops ops' : List (Op M)) :
    Spec.offered (ops ++ ops') = Spec.offered ops ++ Spec.offered ops' := by
  induction ops with
  | nil => rfl
  | cons op ops ih => cases op <;> simp [Spec.offered, ih]

/-- What still waits and what was written, as asked for. -/
def asked (s : Recycle.St M) : List (Nat × Frame M) :=
  s.encoded.map (fun e => (e.chan, e.want)) ++ s.queued.map (fun e => (e.chan, e.want)) ++
    s.sent.map fun x => (x.1, x.2.1)

theorem asked_le [DecidableEq M] (empty : M) (ops : List (Op M)) (f : Nat × Frame M) :
    (asked (Recycle.run empty ops)).count f ≤ (Spec.offered ops).count f := by
  induction ops using snocRec with
  | nil => exact Nat.le_refl _
  | append_singleton ops op ih =>
    rw [offered_append, List.count_append, Recycle.run, List.foldl_append]
    show (asked (Recycle.step empty (Recycle.run empty ops) op)).count f ≤ _
    generalize Recycle.run empty ops = s at ih
    suffices h : (asked (Recycle.step empty s op)).count f ≤ (asked s).count f + (Spec.offered [op]).count f by omega
    have hz : ∀ s' : Recycle.St M, asked s' = asked s → (asked s').count f ≤ (asked s).count f +
        (Spec.offered [op]).count f := fun s' h => by rw [h]; omega
    cases op with
    | receive reuse id md body =>
      simp only [Recycle.step, Recycle.receive]
      split
      · split
        · exact hz _ rfl
        · exact hz _ rfl
      · exact hz _ rfl
    | convert i ch sid md body =>
      simp only [Recycle.step, Recycle.convert]
      split
      · split
        · exact hz _ rfl
        · simp only [asked, Spec.offered, List.map_append, List.count_append, List.map_cons, List.map_nil]
          omega
      · exact hz _ rfl
    | enqueue n =>
      simp only [Recycle.step, Recycle.enqueue]
      split
      · next e he =>
        obtain ⟨a, b, hab, _, her, _⟩ := index_split he
        rw [her]
        simp only [asked, hab, List.map_append, List.count_append, List.map_cons, List.map_nil, List.count_cons,
          List.count_nil]
        omega
      · exact hz _ rfl
    | giveUp n =>
      simp only [Recycle.step, Recycle.giveUp, asked, List.count_append]
      have := ((List.eraseIdx_sublist s.encoded n).map fun e => (e.chan, e.want)).count_le f
      omega
    | write ch =>
      simp only [Recycle.step, Recycle.write]
      split
      · next e he =>
        obtain ⟨a, b, hab, her, hch⟩ := find_split he
        split
        · rw [her]
          have : e.chan = ch := by simpa using hch
          subst this
          simp only [asked, hab, List.map_append, List.count_append, List.map_cons, List.map_nil, List.count_cons,
            List.count_nil]
          omega
        · exact hz _ rfl
      · exact hz _ rfl
    | mark n =>
      simp only [Recycle.step, Recycle.mark]
      split
      · exact hz _ rfl
      · exact hz _ rfl
    | shut ch =>
      simp only [Recycle.step, Recycle.shut, asked, List.count_append]
      have := ((List.filter_sublist (p := fun e => e.chan != ch) (l := s.queued)).map
        fun e => (e.chan, e.want)).count_le f
      omega
    | release i =>
      simp only [Recycle.step, Recycle.release]
      split
      · split
        · exact hz _ rfl
        · split
          · split
            · exact hz _ rfl
            · exact hz _ rfl
          · exact hz _ rfl
      · exact hz _ rfl

/-- **C56.** Under every schedule in which no request is attempted twice, each frame written to a channel is a complete
frame that an attempt offered to that channel, and no offer is written twice. -/
theorem frames_written_whole [DecidableEq M] (empty : M) (ops : List (Op M))
    (h : Spec.OneAttempt (Recycle.run empty ops)) (f : Nat × Frame M) :
    (Spec.written (Recycle.run empty ops)).count f ≤ (Spec.offered ops).count f := by
  have hw : Spec.written (Recycle.run empty ops) = (Recycle.run empty ops).sent.map fun x => (x.1, x.2.1) := by
    refine List.map_congr_left fun x hx => ?_
    rw [(rec_inv empty ops h).sent x hx]
  rw [hw]
  refine Nat.le_trans ?_ (asked_le empty ops f)
  rw [asked, List.count_append]
  omega

/-- **C56.** In particular the size in the head is the size of the body, so that the reader at the other end finds the
next frame. -/
theorem frames_keep_boundaries (empty : M) (ops : List (Op M))
    (h : Spec.OneAttempt (Recycle.run empty ops)) :
    ∀ f ∈ Spec.written (Recycle.run empty ops), f.2.head.size = f.2.body.length := by
  classical
  intro f hf
  have h1 := frames_written_whole empty ops h f
  have h2 : 0 < (Spec.offered ops).count f := Nat.lt_of_lt_of_le (List.count_pos_iff.mpr hf) h1
  have h3 := List.count_pos_iff.mp h2
  clear h1 h2 hf h
  induction ops with
  | nil => cases h3
  | cons op ops ih =>
    cases op with
    | convert c ch sid md body =>
      rcases List.mem_cons.mp h3 with h3 | h3
      · rw [h3]
      · exact ih h3
    | _ => exact ih h3

/-- Two requests through the same pooled message: the first is written, answered and released, the second reuses it. -/
def exRecycle : List (Op Nat) :=
  [.receive none 7 10 b!"first", .convert 0 0 100 11 b!"first", .enqueue 0, .write 0, .mark 0, .release 0,
   .receive (some 0) 8 20 b!"2nd", .convert 1 1 101 21 b!"2nd", .enqueue 0, .write 1, .mark 0, .release 1]

example : Spec.OneAttempt (Recycle.run 0 exRecycle) ∧
    Spec.written (Recycle.run 0 exRecycle) =
      [(0, ⟨⟨100, 11, 5⟩, b!"first"⟩), (1, ⟨⟨101, 21, 3⟩, b!"2nd"⟩)] ∧
    (Recycle.run 0 exRecycle).objs.length = 1 := by
  refine ⟨?_, by decide +kernel, by decide +kernel⟩
  unfold Spec.OneAttempt
  decide +kernel

/-! ## With retries that wait for the earlier attempt -/

/-- The attempt or the release of a call finds none of its attempts waiting to be written. -/
def Spec.NoneWaits (s : Recycle.St M) (c : Nat) : Prop :=
  ∀ call, s.calls[c]? = some call → ∀ e, e ∈ s.encoded ∨ e ∈ s.queued → e.obj ≠ call.obj

/-- No call starts an attempt or is released while an attempt of it still waits to be written. -/
def Spec.Settled (empty : M) : Recycle.St M → List (Op M) → Prop
  | _, [] => True
  | s, op :: ops =>
    (match op with
      | .convert c _ _ _ _ => Spec.NoneWaits s c
      | .release c => Spec.NoneWaits s c
      | _ => True) ∧ Spec.Settled empty (Recycle.step empty s op) ops

/-- How often object `k` waits to be written. -/
def waitN (s : Recycle.St M) (k : Nat) : Nat :=
  (s.encoded.map Entry.obj).count k + (s.queued.map Entry.obj).count k

structure SetInv (s : Recycle.St M) : Prop where
  opn : ∀ k, openN s k + s.free.count k ≤ 1
  bnd : ∀ k, 0 < openN s k + s.free.count k → k < s.objs.length
  wait : ∀ k, waitN s k ≤ openN s k
  frames : ∀ e, e ∈ s.encoded ∨ e ∈ s.queued →
    ∃ o, s.objs[e.obj]? = some o ∧ o.head = some e.want.head ∧ o.body = e.want.body
  sent : ∀ x ∈ s.sent, x.2.2 = x.2.1

/-- A change of the objects that leaves alone what waits, with the same or a smaller set of waiting entries. -/
theorem SetInv.of {s s' : Recycle.St M} (I : SetInv s) (h1 : ∀ k, openN s' k + s'.free.count k ≤ 1)
    (h2 : ∀ k, 0 < openN s' k + s'.free.count k → k < s'.objs.length)
    (h3 : ∀ k, waitN s' k ≤ openN s' k) (h4 : s'.sent = s.sent)
    (h5 : ∀ e, e ∈ s'.encoded ∨ e ∈ s'.queued → (e ∈ s.encoded ∨ e ∈ s.queued) ∧ s'.objs[e.obj]? = s.objs[e.obj]?) :
    SetInv s' :=
  ⟨h1, h2, h3, fun e he => by rw [(h5 e he).2]; exact I.frames e (h5 e he).1, by rw [h4]; exact I.sent⟩

theorem wait_bound {s : Recycle.St M} (I : SetInv s) {e : Entry M} (h : e ∈ s.encoded ∨ e ∈ s.queued) :
    0 < openN s e.obj := by
  have h1 := waiting_used h
  have h2 := I.wait e.obj
  unfold waitN at h2
  omega

theorem open_append (s : Recycle.St M) (k j : Nat) :
    ((s.calls ++ [({ obj := k } : Call)]).filter (fun c : Call => !c.closed) |>.map Call.obj).count j =
      openN s j + if k = j then 1 else 0 := by
  unfold openN
  simp only [List.filter_append, List.map_append, List.count_append]
  simp only [List.filter_cons, Bool.not_false, if_true, List.filter_nil,
    List.map_cons, List.map_nil, List.count_cons, List.count_nil, beq_iff_eq]
  omega

theorem step_settled {s : Recycle.St M} (empty : M) (I : SetInv s) (op : Op M)
    (h : Spec.Settled empty s [op]) : SetInv (Recycle.step empty s op) := by
  cases op with
  | receive reuse id md body =>
    simp only [Recycle.step, Recycle.receive]
    split
    · next k =>
      split
      · next hk =>
        have hfk : 0 < s.free.count k := List.count_pos_iff.mpr hk
        have hce : ∀ j, (s.free.erase k).count j = s.free.count j - if k = j then 1 else 0 := by
          intro j
          rw [List.count_erase]
          by_cases h : k = j
          · simp [h]
          · simp [h]
        have hsum : ∀ j, ((s.calls ++ [({ obj := k } : Call)]).filter (fun c : Call => !c.closed) |>.map
            Call.obj).count j + (s.free.erase k).count j = openN s j + s.free.count j := by
          intro j
          rw [open_append, hce]
          by_cases h : k = j
          · subst h
            simp only [if_true]
            omega
          · simp only [if_neg h]
            omega
        refine I.of (fun j => ?_) (fun j hj => ?_) (fun j => ?_) rfl fun e he => ⟨he, ?_⟩
        · exact hsum j ▸ I.opn j
        · show j < (s.objs.modify k _).length
          rw [List.length_modify]
          exact I.bnd j (hsum j ▸ hj)
        · refine Nat.le_trans (I.wait j) ?_
          show _ ≤ ((s.calls ++ [({ obj := k } : Call)]).filter (fun c : Call => !c.closed) |>.map Call.obj).count j
          rw [open_append]
          omega
        · show (s.objs.modify k _)[e.obj]? = s.objs[e.obj]?
          rw [get_modify, if_neg]
          intro h
          have h1 := wait_bound I he
          have h2 := I.opn e.obj
          rw [← h] at h1 h2
          omega
      · exact I
    · have hnew : ∀ j, s.objs.length = j → openN s j = 0 ∧ s.free.count j = 0 := by
        intro j hj
        rcases Nat.eq_zero_or_pos (openN s j + s.free.count j) with h | h
        · omega
        · have := I.bnd j h
          omega
      refine I.of (fun j => ?_) (fun j hj => ?_) (fun j => ?_) rfl fun e he => ⟨he, ?_⟩
      · show ((s.calls ++ [({ obj := s.objs.length } : Call)]).filter (fun c : Call => !c.closed) |>.map
          Call.obj).count j + s.free.count j ≤ 1
        rw [open_append]
        have h1 := I.opn j
        by_cases h : s.objs.length = j
        · have := hnew j h
          rw [if_pos h]
          omega
        · rw [if_neg h]
          omega
      · have hj' : 0 < ((s.calls ++ [({ obj := s.objs.length } : Call)]).filter (fun c : Call => !c.closed) |>.map
          Call.obj).count j + s.free.count j := hj
        rw [open_append] at hj'
        show j < (s.objs ++ [_]).length
        rw [List.length_append, List.length_singleton]
        by_cases h : s.objs.length = j
        · omega
        · rw [if_neg h] at hj'
          have := I.bnd j hj'
          omega
      · refine Nat.le_trans (I.wait j) ?_
        show _ ≤ ((s.calls ++ [({ obj := s.objs.length } : Call)]).filter (fun c : Call => !c.closed) |>.map
          Call.obj).count j
        rw [open_append]
        omega
      · show (s.objs ++ [_])[e.obj]? = s.objs[e.obj]?
        have := I.bnd e.obj (by have := wait_bound I he; omega)
        rw [List.getElem?_append_left this]
  | convert c ch sid md body =>
    have hw : Spec.NoneWaits s c := h.1
    simp only [Recycle.step, Recycle.convert]
    split
    · next call hc =>
      split
      · exact I
      · next hcl =>
        have hcl' : call.closed = false := by simpa using hcl
        obtain ⟨a, b, hab, _, _, hset⟩ := index_split hc
        have hopen : ∀ j, ((s.calls.set c { call with attempts := call.attempts + 1 }).filter
            (fun c => !c.closed) |>.map Call.obj).count j = openN s j := by
          intro j
          unfold openN
          rw [hset, hab]
          simp only [List.filter_append, List.map_append, List.count_append, List.filter_cons, hcl',
            Bool.not_false, if_true, List.map_cons, List.count_cons]
        have hpos : 0 < openN s call.obj := by
          unfold openN
          rw [hab]
          exact List.count_pos_iff.mpr (List.mem_map.mpr ⟨call, by simp [hcl'], rfl⟩)
        have h0 : waitN s call.obj = 0 := by
          rcases Nat.eq_zero_or_pos (waitN s call.obj) with h | h
          · exact h
          · have : call.obj ∈ s.encoded.map Entry.obj ∨ call.obj ∈ s.queued.map Entry.obj := by
              unfold waitN at h
              rcases Nat.eq_zero_or_pos ((s.encoded.map Entry.obj).count call.obj) with h' | h'
              · exact .inr (List.count_pos_iff.mp (by omega))
              · exact .inl (List.count_pos_iff.mp h')
            rcases this with h | h
            · obtain ⟨e, he, h⟩ := List.mem_map.mp h
              exact absurd h (hw call hc e (.inl he))
            · obtain ⟨e, he, h⟩ := List.mem_map.mp h
              exact absurd h (hw call hc e (.inr he))
        refine ⟨fun j => ?_, fun j hj => ?_, fun j => ?_, fun e he => ?_, I.sent⟩
        · exact (congrArg (· + s.free.count j) (hopen j)).symm ▸ I.opn j
        · show j < (s.objs.modify call.obj _).length
          rw [List.length_modify]
          exact I.bnd j ((congrArg (· + s.free.count j) (hopen j)) ▸ hj)
        · show ((s.encoded ++ [_]).map Entry.obj).count j + (s.queued.map Entry.obj).count j ≤
            ((s.calls.set c { call with attempts := call.attempts + 1 }).filter
              (fun c => !c.closed) |>.map Call.obj).count j
          rw [hopen]
          have h1 := I.wait j
          simp only [List.map_append, List.count_append, List.map_cons, List.map_nil, List.count_cons, List.count_nil,
            beq_iff_eq]
          unfold waitN at h1 h0
          by_cases h : call.obj = j
          · rw [h] at h0 hpos
            rw [if_pos h]
            omega
          · rw [if_neg h]
            omega
        · show ∃ o, (s.objs.modify call.obj _)[e.obj]? = some o ∧ _
          rw [get_modify]
          have he' : (e ∈ s.encoded ∨ e ∈ s.queued) ∨ e = ⟨ch, call.obj, ⟨⟨sid, md, body.length⟩, body⟩⟩ := by
            rcases he with he | he
            · rcases List.mem_append.mp he with he | he
              · exact .inl (.inl he)
              · exact .inr (List.mem_singleton.mp he)
            · exact .inl (.inr he)
          rcases he' with he' | he'
          · rw [if_neg fun h => hw call hc e he' h.symm]
            exact I.frames e he'
          · subst he'
            have hlt := I.bnd call.obj (by omega)
            rw [if_pos rfl, List.getElem?_eq_getElem hlt]
            exact ⟨_, rfl, rfl, rfl⟩
    · exact I
  | enqueue n =>
    simp only [Recycle.step, Recycle.enqueue]
    split
    · next e he =>
      obtain ⟨a, b, hab, _, her, _⟩ := index_split he
      rw [her]
      refine I.of I.opn I.bnd (fun j => ?_) rfl fun x hx => ⟨?_, rfl⟩
      · refine Nat.le_trans (Nat.le_of_eq ?_) (I.wait j)
        show ((a ++ b).map Entry.obj).count j + ((s.queued ++ [e]).map Entry.obj).count j = waitN s j
        unfold waitN
        rw [hab]
        simp only [List.map_append, List.count_append, List.map_cons, List.count_cons, List.map_nil, List.count_nil]
        omega
      · rw [hab]
        rcases hx with hx | hx
        · left
          rcases List.mem_append.mp hx with hx | hx
          · exact List.mem_append_left _ hx
          · exact List.mem_append_right _ (List.mem_cons_of_mem _ hx)
        · rcases List.mem_append.mp hx with hx | hx
          · exact .inr hx
          · rw [List.mem_singleton.mp hx]
            left
            simp
    · exact I
  | giveUp n =>
    refine I.of I.opn I.bnd (fun j => ?_) rfl fun x hx => ⟨?_, rfl⟩
    · refine Nat.le_trans ?_ (I.wait j)
      exact Nat.add_le_add_right (((List.eraseIdx_sublist _ _).map Entry.obj).count_le j) _
    · rcases hx with hx | hx
      · exact .inl ((List.eraseIdx_sublist _ _).subset hx)
      · exact .inr hx
  | write ch =>
    simp only [Recycle.step, Recycle.write]
    split
    · next e he =>
      obtain ⟨a, b, hab, her, _⟩ := find_split he
      split
      · next o ho =>
        rw [her]
        refine ⟨I.opn, I.bnd, fun j => ?_, fun x hx => I.frames x ?_, fun x hx => ?_⟩
        · refine Nat.le_trans ?_ (I.wait j)
          show (s.encoded.map Entry.obj).count j + ((a ++ b).map Entry.obj).count j ≤ waitN s j
          unfold waitN
          rw [hab]
          simp only [List.map_append, List.count_append, List.map_cons, List.count_cons]
          omega
        · rw [hab]
          rcases hx with hx | hx
          · exact .inl hx
          · right
            rcases List.mem_append.mp hx with hx | hx
            · exact List.mem_append_left _ hx
            · exact List.mem_append_right _ (List.mem_cons_of_mem _ hx)
        · rcases List.mem_append.mp hx with hx | hx
          · exact I.sent x hx
          · rw [List.mem_singleton.mp hx]
            obtain ⟨o', h1, h2, h3⟩ := I.frames e (.inr (by rw [hab]; simp))
            rw [ho] at h1
            cases h1
            show o.frame = e.want
            unfold Obj.frame
            rw [h2]
            show (⟨e.want.head, o.body⟩ : Frame M) = e.want
            rw [h3]
      · exact I
    · exact I
  | mark n =>
    simp only [Recycle.step, Recycle.mark]
    split
    · next k hk =>
      refine ⟨I.opn, fun j hj => ?_, I.wait, fun e he => ?_, I.sent⟩
      · show j < (s.objs.modify k _).length
        rw [List.length_modify]
        exact I.bnd j hj
      · obtain ⟨o, h1, h2, h3⟩ := I.frames e he
        show ∃ o, (s.objs.modify k _)[e.obj]? = some o ∧ _
        rw [get_modify, h1]
        by_cases h : k = e.obj
        · rw [if_pos h]; exact ⟨_, rfl, h2, h3⟩
        · rw [if_neg h]; exact ⟨_, rfl, h2, h3⟩
    · exact I
  | shut ch =>
    refine I.of I.opn I.bnd (fun j => ?_) rfl fun x hx => ⟨?_, rfl⟩
    · refine Nat.le_trans ?_ (I.wait j)
      exact Nat.add_le_add_left ((List.filter_sublist.map Entry.obj).count_le j) _
    · rcases hx with hx | hx
      · exact .inl hx
      · exact .inr (List.filter_sublist.subset hx)
  | release c =>
    have hw : Spec.NoneWaits s c := h.1
    simp only [Recycle.step, Recycle.release]
    split
    · next call hc =>
      split
      · exact I
      · next hcl =>
        have hcl' : call.closed = false := by simpa using hcl
        obtain ⟨a, b, hab, _, _, hset⟩ := index_split hc
        have hopen : ∀ j, ((s.calls.set c { call with closed := true }).filter
            (fun c => !c.closed) |>.map Call.obj).count j + (if call.obj = j then 1 else 0) = openN s j := by
          intro j
          unfold openN
          rw [hset, hab]
          simp only [List.filter_append, List.map_append, List.count_append, List.filter_cons, Bool.not_true, hcl',
            Bool.not_false, Bool.false_eq_true, if_false, if_true, List.map_cons, List.count_cons, beq_iff_eq]
          omega
        have hwait : ∀ j, waitN s j ≤ ((s.calls.set c { call with closed := true }).filter
            (fun c => !c.closed) |>.map Call.obj).count j := by
          intro j
          have h1 := hopen j
          have h2 := I.wait j
          by_cases h : call.obj = j
          · subst h
            have : waitN s call.obj = 0 := by
              unfold waitN
              rw [List.count_eq_zero.mpr, List.count_eq_zero.mpr]
              · intro h
                obtain ⟨e, he, h⟩ := List.mem_map.mp h
                exact hw call hc e (.inr he) h
              · intro h
                obtain ⟨e, he, h⟩ := List.mem_map.mp h
                exact hw call hc e (.inl he) h
            omega
          · rw [if_neg h] at h1
            omega
        split
        · next o ho =>
          split
          · have hfree : ∀ j, (s.free ++ [call.obj]).count j = s.free.count j + if call.obj = j then 1 else 0 := by
              intro j
              simp only [List.count_append, List.count_cons, List.count_nil, beq_iff_eq]
              omega
            refine I.of (fun j => ?_) (fun j hj => ?_) hwait rfl fun e he => ⟨he, ?_⟩
            · have h1 := hopen j
              have h2 := hfree j
              have h3 := I.opn j
              show ((s.calls.set c { call with closed := true }).filter
                (fun c => !c.closed) |>.map Call.obj).count j + (s.free ++ [call.obj]).count j ≤ 1
              omega
            · have h1 := hopen j
              have h2 := hfree j
              have hj' : 0 < ((s.calls.set c { call with closed := true }).filter
                (fun c => !c.closed) |>.map Call.obj).count j + (s.free ++ [call.obj]).count j := hj
              show j < (s.objs.modify call.obj _).length
              rw [List.length_modify]
              exact I.bnd j (by omega)
            · show (s.objs.modify call.obj _)[e.obj]? = s.objs[e.obj]?
              rw [get_modify, if_neg fun h => hw call hc e he h.symm]
          · refine I.of (fun j => ?_) (fun j hj => ?_) hwait rfl fun e he => ⟨he, rfl⟩
            · have h1 := hopen j
              have h3 := I.opn j
              show ((s.calls.set c { call with closed := true }).filter
                (fun c => !c.closed) |>.map Call.obj).count j + s.free.count j ≤ 1
              omega
            · have h1 := hopen j
              have hj' : 0 < ((s.calls.set c { call with closed := true }).filter
                (fun c => !c.closed) |>.map Call.obj).count j + s.free.count j := hj
              exact I.bnd j (by omega)
        · exact I
    · exact I

theorem settled_inv (empty : M) (s : Recycle.St M) (I : SetInv s) (ops : List (Op M))
    (h : Spec.Settled empty s ops) : SetInv (ops.foldl (Recycle.step empty) s) := by
  induction ops generalizing s with
  | nil => exact I
  | cons op ops ih => exact ih _ (step_settled empty I op ⟨h.1, trivial⟩) h.2

/-- **C56.** With any number of attempts per request: the frames written are complete and among those offered if no
request starts another attempt, and none is answered, while an attempt of it still waits to be written. -/
theorem frames_written_whole_settled [DecidableEq M] (empty : M) (ops : List (Op M))
    (h : Spec.Settled empty {} ops) (f : Nat × Frame M) :
    (Spec.written (Recycle.run empty ops)).count f ≤ (Spec.offered ops).count f := by
  have I : SetInv (Recycle.run empty ops) := settled_inv empty {}
    ⟨fun _ => Nat.zero_le _, fun _ h => absurd h (Nat.lt_irrefl 0), fun _ => Nat.zero_le _,
      (fun _ h => by rcases h with h | h <;> cases h), (fun _ h => by cases h)⟩ ops h
  have hw : Spec.written (Recycle.run empty ops) = (Recycle.run empty ops).sent.map fun x => (x.1, x.2.1) := by
    refine List.map_congr_left fun x hx => ?_
    rw [I.sent x hx]
  rw [hw]
  refine Nat.le_trans ?_ (asked_le empty ops f)
  rw [asked, List.count_append]
  omega

/-- A request attempted on two channels, the first time without an answer, then another request in the same message. -/
def exRetry : List (Op Nat) :=
  [.receive none 7 10 b!"first", .convert 0 0 100 11 b!"first", .enqueue 0, .write 0,
   .convert 0 1 101 12 b!"first", .enqueue 0, .mark 0, .write 1, .release 0,
   .receive (some 0) 8 20 b!"other", .mark 0, .convert 1 0 102 21 b!"other", .enqueue 0, .write 0]

example : Spec.Settled 0 {} exRetry ∧
    Spec.written (Recycle.run 0 exRetry) =
      [(0, ⟨⟨100, 11, 5⟩, b!"first"⟩), (1, ⟨⟨101, 12, 5⟩, b!"first"⟩), (0, ⟨⟨102, 21, 5⟩, b!"other"⟩)] := by
  refine ⟨?_, by decide +kernel⟩
  unfold exRetry Spec.Settled Spec.NoneWaits
  simp [Spec.Settled, Spec.NoneWaits, Recycle.step, Recycle.receive, Recycle.convert, Recycle.enqueue, Recycle.write,
    Recycle.mark, Recycle.release, Obj.encode, Obj.reset, Obj.decode]

/-! ## With retries -/

/-- **C56 is false with retries (1).** The first attempt waits in its channel's queue when the request times out there;
the second attempt encodes the same message again, and the first channel writes the second attempt's stream id. -/
theorem retry_rewrites_frame_violated :
    ∃ ops : List (Op Nat), ∃ f ∈ Spec.written (Recycle.run 0 ops), f ∉ Spec.offered ops ∧ f.2.head.id = 101 ∧
      (0, ⟨⟨100, 11, 5⟩, b!"first"⟩) ∈ Spec.offered ops ∧ f.1 = 0 :=
  ⟨[.receive none 7 10 b!"first", .convert 0 0 100 11 b!"first", .enqueue 0, .convert 0 1 101 12 b!"first", .enqueue 0,
    .write 0], (0, ⟨⟨101, 12, 5⟩, b!"first"⟩), by decide +kernel, by decide +kernel, rfl, by decide +kernel, rfl⟩

/-- **C56 is false with retries (2).** The first attempt was written, so that the message may be released; the second one
still waits when the request fails and the message is released: its channel writes a head that promises five bytes, and
none of them. -/
theorem retry_loses_body_violated :
    ∃ ops : List (Op Nat), ∃ f ∈ Spec.written (Recycle.run 0 ops), f.2.head.size = 5 ∧ f.2.body = [] :=
  ⟨[.receive none 7 10 b!"first", .convert 0 0 100 11 b!"first", .enqueue 0, .write 0, .mark 0,
    .convert 0 1 101 12 b!"first", .enqueue 0, .release 0, .write 1],
    (1, ⟨⟨101, 12, 5⟩, []⟩), by decide +kernel, rfl, rfl⟩

/-- **C56 is false with retries (3).** As before, but the pooled message is reused before the second channel writes: it
sends the first caller's head with the body of another caller's request. -/
theorem retry_mixes_requests_violated :
    ∃ ops : List (Op Nat), ∃ f ∈ Spec.written (Recycle.run 0 ops),
      f.2.head = ⟨101, 12, 5⟩ ∧ f.2.body = b!"other" :=
  ⟨[.receive none 7 10 b!"first", .convert 0 0 100 11 b!"first", .enqueue 0, .write 0, .mark 0,
    .convert 0 1 101 12 b!"first", .enqueue 0, .release 0, .receive (some 0) 8 20 b!"other", .write 1],
    (1, ⟨⟨101, 12, 5⟩, b!"other"⟩), by decide +kernel, rfl, rfl⟩

end Motan.Props
