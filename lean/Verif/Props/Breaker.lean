import Verif.Model.Breaker
import Verif.Props.Failfast
import Verif.Props.Rotation

/-!
# C110: a server that fails all its calls is left alone, and tried again
-/

namespace Motan.Props

open Convert (Response)
open Breaker

variable {E : Type} [DecidableEq E]

namespace Spec

/-- The calls to `e` that failed since one succeeded: without a response, or with an exception in it. (Newest event first.) -/
def failures (e : E) : List (Event E) → Nat
  | [] => 0
  | .ended x (some r) _ :: h => if x = e then (if r.exception = none then 0 else failures e h + 1) else failures e h
  | .ended x none _ :: h => if x = e then failures e h + 1 else failures e h
  | _ :: h => failures e h

/-- When something happens. -/
def timeOf : Event E → Int
  | .select now _ _ _ => now
  | .ended _ _ now => now
  | .asked _ _ now => now

/-- The clock does not go back. (Newest event first.) -/
def Ordered (h : List (Event E)) : Prop := h.Pairwise fun a b => timeOf b ≤ timeOf a

/-- A call was given to `e` at this time, or ended then. -/
def Used (e : E) (h : List (Event E)) (picks : List (Int × E)) (t : Int) : Prop :=
  (∃ r, Event.ended e r t ∈ h) ∨ (t, e) ∈ picks

/-- The times that count for the next try: the start, a call given to `e` or ended, a question about `e` from elsewhere, a
selection while `e` had no connection. -/
def Touched (t0 : Int) (e : E) (h : List (Event E)) (picks : List (Int × E)) (t : Int) : Prop :=
  t = t0 ∨ Used e h picks t ∨ (∃ u, Event.asked e u t ∈ h) ∨ ∃ up r1 r2, Event.select t up r1 r2 ∈ h ∧ up e = false

/-- The calls that were given to `e` although it had failed ten times or more since its last success: their times, newest first.
`given h now up r1 r2` is what is selected after the history `h`. -/
def tries (given : List (Event E) → Int → (E → Bool) → Nat → Nat → Option E) (e : E) : List (Event E) → List Int
  | [] => []
  | .select now up r1 r2 :: h =>
    if given h now up r1 r2 = some e ∧ 10 ≤ failures e h then now :: tries given e h else tries given e h
  | _ :: h => tries given e h

/-- How many of these times are in a period. -/
def inPeriod (ts : List Int) (a b : Int) : Nat := ts.countP fun t => decide (a ≤ t) && decide (t ≤ b)

/-- The number of calls that selected. -/
def selections : List (Event E) → Nat
  | [] => 0
  | .select _ _ _ _ :: h => selections h + 1
  | _ :: h => selections h

end Spec

/-! ### The load balancer with questions that have an effect -/

section
omit [DecidableEq E]
variable {S : Type}

theorem breaker_scan_trace (q : Ask S E) (eps : List E) (Q : S → Prop)
    (hq : ∀ s e, Q s → (q s e).1 = false → Q (q s e).2) (r : Nat) : ∀ n i s, Q s →
    (∀ p, (scanFrom q eps r i n s).1 = some p → ∃ s1, Q s1 ∧ (q s1 p.2).1 = true ∧ (scanFrom q eps r i n s).2 = (q s1 p.2).2) ∧
    ((scanFrom q eps r i n s).1 = none → Q (scanFrom q eps r i n s).2) := by
  intro n
  induction n with
  | zero => intro i s hs; exact ⟨fun p h => by simp [scanFrom] at h, fun _ => by simpa [scanFrom] using hs⟩
  | succ n ih =>
    intro i s hs
    simp only [scanFrom]
    cases he : eps[(r + i) % eps.length]? with
    | none => exact ⟨fun p h => by simp at h, fun _ => hs⟩
    | some e =>
      simp only
      by_cases ha : (q s e).1 = true
      · rw [if_pos ha]
        exact ⟨fun p h => by simp at h; subst h; exact ⟨s, hs, ha, rfl⟩, fun h => by simp at h⟩
      · rw [if_neg ha]
        exact ih (i + 1) _ (hq s e hs (by simpa using ha))

private theorem random_trace (q : Ask S E) (eps : List E) (Q : S → Prop)
    (hq : ∀ s e, Q s → (q s e).1 = false → Q (q s e).2) (r1 r2 : Nat) (s : S) (hs : Q s) :
    (∀ p, (selectOneAtRandom q eps r1 r2 s).1 = some p →
      ∃ s1, Q s1 ∧ (q s1 p.2).1 = true ∧ (selectOneAtRandom q eps r1 r2 s).2 = (q s1 p.2).2) ∧
    ((selectOneAtRandom q eps r1 r2 s).1 = none → Q (selectOneAtRandom q eps r1 r2 s).2) := by
  simp only [selectOneAtRandom]
  by_cases h0 : eps.length = 0
  · rw [if_pos h0]; exact ⟨fun p h => by simp at h, fun _ => hs⟩
  · rw [if_neg h0]
    cases he : eps[r1 % eps.length]? with
    | none => exact ⟨fun p h => by simp at h, fun _ => hs⟩
    | some e =>
      simp only
      by_cases ha : (q s e).1 = true
      · rw [if_pos ha]
        exact ⟨fun p h => by simp at h; subst h; exact ⟨s, hs, ha, rfl⟩, fun h => by simp at h⟩
      · rw [if_neg ha]
        exact breaker_scan_trace q eps Q hq _ _ _ _ (hq s e hs (by simpa using ha))

/-- What a selection does to the state: questions answered no, and, if something is selected, one question about it answered
yes. -/
private theorem rr_trace (q : Ask S E) (eps : List E) (Q : S → Prop)
    (hq : ∀ s e, Q s → (q s e).1 = false → Q (q s e).2) (idx : UInt32) (r1 r2 : Nat) (s : S) (hs : Q s) :
    (∀ p, (roundrobinSelect q eps idx r1 r2 s).1 = some p →
      ∃ s1, Q s1 ∧ (q s1 p.2).1 = true ∧ (roundrobinSelect q eps idx r1 r2 s).2.1 = (q s1 p.2).2) ∧
    ((roundrobinSelect q eps idx r1 r2 s).1 = none → Q (roundrobinSelect q eps idx r1 r2 s).2.1) := by
  simp only [roundrobinSelect]
  by_cases h0 : eps.length = 0
  · rw [if_pos h0]; exact ⟨fun p h => by simp at h, fun _ => hs⟩
  · rw [if_neg h0]
    cases he : eps[(idx + 1).toNat % eps.length]? with
    | none => exact ⟨fun p h => by simp at h, fun _ => hs⟩
    | some e =>
      simp only
      by_cases ha : (q s e).1 = true
      · rw [if_pos ha]
        exact ⟨fun p h => by simp at h; subst h; exact ⟨s, hs, ha, rfl⟩, fun h => by simp at h⟩
      · rw [if_neg ha]
        exact random_trace q eps Q hq r1 r2 _ (hq s e hs (by simpa using ha))

theorem breaker_scan_pure (q : Ask S E) (eps : List E) (avail : E → Bool)
    (hq : ∀ s e, (∀ x, (q s x).1 = avail x) → (q s e).1 = false → ∀ x, (q (q s e).2 x).1 = avail x) (r : Nat) :
    ∀ n i s, (∀ x, (q s x).1 = avail x) → (scanFrom q eps r i n s).1 = Lb.scanFrom avail eps r i n := by
  intro n
  induction n with
  | zero => intro i s _; rfl
  | succ n ih =>
    intro i s hs
    simp only [scanFrom, Lb.scanFrom]
    cases he : eps[(r + i) % eps.length]? with
    | none => rfl
    | some e =>
      simp only
      rw [hs e]
      by_cases ha : avail e = true
      · rw [if_pos ha, if_pos ha]
      · rw [if_neg ha, if_neg ha]
        exact ih _ _ (hq s e hs (by rw [hs]; simpa using ha))

private theorem rr_pure (q : Ask S E) (eps : List E) (avail : E → Bool)
    (hq : ∀ s e, (∀ x, (q s x).1 = avail x) → (q s e).1 = false → ∀ x, (q (q s e).2 x).1 = avail x)
    (idx : UInt32) (r1 r2 : Nat) (s : S) (hs : ∀ x, (q s x).1 = avail x) :
    (roundrobinSelect q eps idx r1 r2 s).1 = (Lb.roundrobinSelect avail eps idx r1 r2).1 ∧
    (roundrobinSelect q eps idx r1 r2 s).2.2 = (Lb.roundrobinSelect avail eps idx r1 r2).2 := by
  simp only [roundrobinSelect, Lb.roundrobinSelect]
  by_cases h0 : eps.length = 0
  · rw [if_pos h0, if_pos h0]; exact ⟨rfl, rfl⟩
  · rw [if_neg h0, if_neg h0]
    cases he : eps[(idx + 1).toNat % eps.length]? with
    | none => exact ⟨rfl, rfl⟩
    | some e =>
      simp only
      rw [hs e]
      by_cases ha : avail e = true
      · rw [if_pos ha, if_pos ha]; exact ⟨rfl, rfl⟩
      · rw [if_neg ha, if_neg ha]
        have hs1 := hq s e hs (by rw [hs]; simpa using ha)
        refine ⟨?_, rfl⟩
        show (selectOneAtRandom q eps r1 r2 (q s e).2).1 = Lb.selectOneAtRandom avail eps r1 r2
        simp only [selectOneAtRandom, Lb.selectOneAtRandom]
        rw [if_neg h0, if_neg h0]
        cases he1 : eps[r1 % eps.length]? with
        | none => rfl
        | some e1 =>
          simp only
          rw [hs1 e1]
          by_cases hb : avail e1 = true
          · rw [if_pos hb, if_pos hb]
          · rw [if_neg hb, if_neg hb]
            exact breaker_scan_pure q eps avail hq _ _ _ _ (hq _ e1 hs1 (by rw [hs1]; simpa using hb))

end

theorem breaker_ff_no {s : Failfast.Status} {a b : Int} (h : (Failfast.isAvailable s a b).1 = false) :
    (Failfast.isAvailable s a b).2 = s := by
  unfold Failfast.isAvailable at h ⊢
  split
  · rfl
  · split
    · rename_i h1 h2; rw [if_neg h1, if_pos h2] at h; cases h
    · rfl

theorem breaker_ff_yes {s : Failfast.Status} {a b : Int} (hs : s.available = false)
    (h : (Failfast.isAvailable s a b).1 = true) :
    s.time + 10 * 10 ^ 9 < a ∧ (Failfast.isAvailable s a b).2 = { s with time := b } := by
  unfold Failfast.isAvailable at h ⊢
  rw [hs] at h ⊢
  simp only [Bool.false_eq_true, if_false] at h ⊢
  by_cases hd : s.time + Failfast.interval < a
  · rw [if_pos hd]; exact ⟨hd, rfl⟩
  · rw [if_neg hd] at h; cases h

/-- It is time for a probe. -/
def Due (s : Failfast.Status) (now : Int) : Prop := s.available = false ∧ s.time + 10 * 10 ^ 9 < now

/-- What a question leaves: the same, or a new time if it was time for a probe. -/
theorem breaker_ff_state (s : Failfast.Status) (a b : Int) :
    (Failfast.isAvailable s a b).2 = s ∨ (Due s a ∧ (Failfast.isAvailable s a b).2 = { s with time := b }) := by
  cases h : (Failfast.isAvailable s a b).1 with
  | false => exact .inl (breaker_ff_no h)
  | true =>
    by_cases hs : s.available = true
    · left; unfold Failfast.isAvailable; rw [if_pos hs]
    · have hs' : s.available = false := by simpa using hs
      exact .inr ⟨⟨hs', (breaker_ff_yes hs' h).1⟩, (breaker_ff_yes hs' h).2⟩

/-- What questions leave. -/
def Later (s s' : Failfast.Status) : Prop := s' = s ∨ ∃ now, Due s now ∧ s' = { s with time := now }

theorem breaker_ask_later (now : Int) (up : E → Bool) (st : E → Failfast.Status) (x e : E) : Later (st e) ((ask now up st x).2 e) := by
  by_cases hx : e = x
  · subst hx
    have : (ask now up st e).2 e = (Failfast.isAvailable (st e) now now).2 := by simp only [ask, if_true]
    rw [this]
    rcases breaker_ff_state (st e) now now with g | ⟨g1, g2⟩
    · exact .inl g
    · exact .inr ⟨now, g1, g2⟩
  · left; simp only [ask, if_neg hx]

theorem breaker_ff_due {s : Failfast.Status} {a b : Int} (h : Due s a) : Failfast.isAvailable s a b = (true, { s with time := b }) := by
  have h2 : s.time + Failfast.interval < a := h.2
  unfold Failfast.isAvailable
  rw [if_neg (by rw [h.1]; decide), if_pos h2]

theorem breaker_ask_no (now : Int) (up : E → Bool) (s : E → Failfast.Status) (e : E) (h : (ask now up s e).1 = false) (x : E) :
    (ask now up (ask now up s e).2 x).1 = (ask now up s x).1 := by
  by_cases hx : x = e
  · subst hx
    rw [h]
    simp only [ask, if_true, Bool.and_eq_false_iff] at h ⊢
    rcases h with h | h
    · rw [breaker_ff_no h]; exact .inl h
    · exact .inr h
  · simp only [ask, if_neg hx]

/-- **C110.** A selection among fail-fast endpoints selects what C25 says of endpoints that are available when the filter and
the endpoint say so at its start. -/
theorem breaker_select (eps : List E) (s : Breaker.St E) (now : Int) (up : E → Bool) (r1 r2 : Nat) :
    pick eps s now up r1 r2 =
      (Lb.rrSelect (fun e => (Failfast.isAvailable (s.status e) now now).1 && up e) eps s.counter r1 r2).1 ∧
    (roundrobinSelect (ask now up) eps s.counter r1 r2 s.status).2.2 =
      (Lb.rrSelect (fun e => (Failfast.isAvailable (s.status e) now now).1 && up e) eps s.counter r1 r2).2 := by
  have h := rr_pure (ask now up) eps (fun e => (ask now up s.status e).1)
    (fun s1 e h1 h2 x => by rw [breaker_ask_no now up s1 e h2 x]; exact h1 x) s.counter r1 r2 s.status (fun _ => rfl)
  constructor
  · rw [pick, h.1]; rfl
  · rw [h.2]; rfl

/-! ### The state after a history -/

/-- A selection changes an endpoint's state at most by a new time, if that was due; and this only if it is selected, or has no
connection. -/
private theorem select_state (eps : List E) (idx : UInt32) (r1 r2 : Nat) (st : E → Failfast.Status) (now : Int) (up : E → Bool) (e : E) :
    let x := roundrobinSelect (ask now up) eps idx r1 r2 st
    (x.2.1 e = st e ∨ Due (st e) now ∧ x.2.1 e = { st e with time := now } ∧
      (up e = false ∨ x.1.map Prod.snd = some e)) ∧
    ((st e).available = false → x.1.map Prod.snd = some e → x.2.1 e = { st e with time := now }) := by
  intro x
  let Q : (E → Failfast.Status) → Prop := fun s =>
    s e = st e ∨ Due (st e) now ∧ s e = { st e with time := now } ∧ up e = false
  have hq : ∀ s y, Q s → (ask now up s y).1 = false → Q (ask now up s y).2 := by
    intro s y hs hy
    by_cases hye : e = y
    · subst hye
      simp only [Q, ask, if_true, Bool.and_eq_false_iff] at hy ⊢
      rcases hy with hy | hy
      · rw [breaker_ff_no hy]; exact hs
      · rcases breaker_ff_state (s e) now now with h | ⟨h1, h2⟩
        · rw [h]; exact hs
        · rcases hs with hs | ⟨hs1, hs2, hs3⟩
          · rw [hs] at h1 h2; rw [hs, h2]; exact .inr ⟨h1, rfl, hy⟩
          · rw [hs2] at h2 ⊢; rw [h2]; exact .inr ⟨hs1, rfl, hy⟩
    · simp only [Q, ask, if_neg hye]; exact hs
  have ht := rr_trace (ask now up) eps Q hq idx r1 r2 st (.inl rfl)
  cases hx : x.1 with
  | none =>
    refine ⟨?_, fun _ h => by simp at h⟩
    rcases ht.2 hx with h | ⟨h1, h2, h3⟩
    · exact .inl h
    · exact .inr ⟨h1, h2, .inl h3⟩
  | some p =>
    obtain ⟨s1, hs1, hy, hf⟩ := ht.1 p hx
    have hf' : x.2.1 = (ask now up s1 p.2).2 := hf
    by_cases hpe : e = p.2
    · subst hpe
      have hup : up p.2 = true := by
        simp only [ask, Bool.and_eq_true] at hy; exact hy.2
      have hs2 : s1 p.2 = st p.2 := by
        rcases hs1 with h | ⟨-, -, h⟩
        · exact h
        · rw [hup] at h; cases h
      have hfe : x.2.1 p.2 = (Failfast.isAvailable (st p.2) now now).2 := by
        rw [hf']; simp only [ask, if_true, hs2]
      have hy' : (Failfast.isAvailable (st p.2) now now).1 = true := by
        simp only [ask, Bool.and_eq_true, hs2] at hy; exact hy.1
      refine ⟨?_, fun ha _ => by rw [hfe]; exact (breaker_ff_yes ha hy').2⟩
      rw [hfe]
      rcases breaker_ff_state (st p.2) now now with h | ⟨h1, h2⟩
      · exact .inl h
      · exact .inr ⟨h1, h2, .inr rfl⟩
    · have hfe : x.2.1 e = s1 e := by rw [hf']; simp only [ask, if_neg hpe]
      rw [hfe]
      refine ⟨?_, fun _ h => absurd (by simpa using h) (fun h' : p.2 = e => hpe h'.symm)⟩
      rcases hs1 with h | ⟨h1, h2, h3⟩
      · exact .inl h
      · exact .inr ⟨h1, h2, .inl h3⟩

variable (t0 : Int) (c0 : UInt32) (eps : List E)

/-- Whether the endpoint is marked, and its count, depend on its own results only. -/
private theorem run_available (h : List (Event E)) (e : E) :
    ((run t0 c0 eps h).status e).available = decide (Spec.failures e h < 10) ∧
    ((run t0 c0 eps h).status e).errorCount = UInt32.ofNat (Spec.failures e h) := by
  have key : ∃ hf, Spec.ffRun t0 hf = (run t0 c0 eps h).status e ∧ Spec.failuresSinceSuccess hf = Spec.failures e h := by
    induction h with
    | nil => exact ⟨[], rfl, rfl⟩
    | cons ev h ih =>
      obtain ⟨hf, h1, h2⟩ := ih
      have hsame : ∀ st : Failfast.Status, Later ((run t0 c0 eps h).status e) st →
          ∃ hf, Spec.ffRun t0 hf = st ∧ Spec.failuresSinceSuccess hf = Spec.failures e h := by
        rintro st (rfl | ⟨now, hd, rfl⟩)
        · exact ⟨hf, h1, h2⟩
        · refine ⟨.asked now now :: hf, ?_, h2⟩
          rw [Spec.ffRun, h1, breaker_ff_due hd]
      cases ev with
      | select now up r1 r2 =>
        refine hsame _ ?_
        rcases (select_state eps (run t0 c0 eps h).counter r1 r2 (run t0 c0 eps h).status now up e).1 with g | ⟨g1, g2, -⟩
        · exact .inl g
        · exact .inr ⟨now, g1, g2⟩
      | asked x up now =>
        exact hsame _ (breaker_ask_later now (fun _ => up) _ x e)
      | ended x r now =>
        by_cases hx : e = x
        · subst hx
          refine ⟨.ended (failed r) now :: hf, ?_, ?_⟩
          · simp only [run, step, if_true, Spec.ffRun, h1]
          · cases r with
            | none => simp only [failed, Spec.failures, Spec.failuresSinceSuccess, if_true, h2]
            | some r =>
              cases hr : r.exception with
              | none => simp [failed, Spec.failures, Spec.failuresSinceSuccess, hr]
              | some x => simp [failed, Spec.failures, Spec.failuresSinceSuccess, hr, h2]
        · refine ⟨hf, ?_, ?_⟩
          · simp only [run, step, if_neg hx, h1]
          · cases r <;> simp only [Spec.failures, if_neg (fun h' : x = e => hx h'.symm), h2]
  obtain ⟨hf, h1, h2⟩ := key
  obtain ⟨i1, i2, -⟩ := failfast_state t0 hf
  rw [h1, h2] at i1 i2
  refine ⟨?_, i2⟩
  cases ha : ((run t0 c0 eps h).status e).available with
  | true => simp [i1.mp ha]
  | false =>
    have : ¬ Spec.failures e h < 10 := fun hlt => by rw [i1.mpr hlt] at ha; cases ha
    simp [this]

private theorem picks_time (h : List (Event E)) {t : Int} {e : E} (hp : (t, e) ∈ (run t0 c0 eps h).picks) :
    ∃ ev ∈ h, Spec.timeOf ev = t := by
  induction h with
  | nil => cases hp
  | cons ev h ih =>
    have old : (t, e) ∈ (run t0 c0 eps h).picks → ∃ ev' ∈ ev :: h, Spec.timeOf ev' = t := fun hp =>
      let ⟨x, h1, h2⟩ := ih hp; ⟨x, .tail _ h1, h2⟩
    cases ev with
    | ended x r now => exact old hp
    | asked x up now => exact old hp
    | select now up r1 r2 =>
      simp only [run, step] at hp
      split at hp
      · rcases List.mem_cons.mp hp with hp | hp
        · cases hp; exact ⟨_, .head _, rfl⟩
        · exact old hp
      · exact old hp

/-- The time kept for an endpoint is not before its last call. -/
private theorem run_time_ge (h : List (Event E)) (ho : Spec.Ordered h) (e : E) (t : Int)
    (hu : (∃ r, Event.ended e r t ∈ h) ∨ (t, e) ∈ (run t0 c0 eps h).picks ∧ 10 ≤ Spec.failures e h) :
    t ≤ ((run t0 c0 eps h).status e).time := by
  induction h with
  | nil => rcases hu with ⟨r, h⟩ | ⟨h, -⟩ <;> cases h
  | cons ev h ih =>
    obtain ⟨ho1, ho2⟩ := List.pairwise_cons.mp ho
    have hkeep : ∀ st : Failfast.Status, Later ((run t0 c0 eps h).status e) st →
        t ≤ ((run t0 c0 eps h).status e).time → t ≤ st.time := by
      rintro st (rfl | ⟨now, hd, rfl⟩) ht
      · exact ht
      · have := hd.2; show t ≤ now; omega
    cases ev with
    | select now up r1 r2 =>
      have hs := select_state eps (run t0 c0 eps h).counter r1 r2 (run t0 c0 eps h).status now up e
      have hst : Later ((run t0 c0 eps h).status e) ((run t0 c0 eps (.select now up r1 r2 :: h)).status e) := by
        rcases hs.1 with g | ⟨g1, g2, -⟩
        · exact .inl g
        · exact .inr ⟨now, g1, g2⟩
      rcases hu with ⟨r, hu⟩ | ⟨hp, hf⟩
      · refine hkeep _ hst (ih ho2 (.inl ⟨r, ?_⟩))
        rcases List.mem_cons.mp hu with hu | hu
        · cases hu
        · exact hu
      · have hf' : 10 ≤ Spec.failures e h := hf
        have old : (t, e) ∈ (run t0 c0 eps h).picks → _ := fun hp => hkeep _ hst (ih ho2 (.inr ⟨hp, hf'⟩))
        have hp' := hp
        simp only [run, step] at hp'
        split at hp'
        · rename_i p e' hx
          rcases List.mem_cons.mp hp' with hp' | hp'
          · cases hp'
            have ha : ((run t0 c0 eps h).status e).available = false := by
              rw [(run_available t0 c0 eps h e).1]; simp; omega
            have := hs.2 ha (by rw [hx]; rfl)
            have h2 : (run t0 c0 eps (.select t up r1 r2 :: h)).status e = _ := this
            rw [h2]; exact Int.le_refl _
          · exact old hp'
        · exact old hp'
    | asked x up now =>
      have hst : Later ((run t0 c0 eps h).status e) ((run t0 c0 eps (.asked x up now :: h)).status e) :=
        breaker_ask_later now (fun _ => up) _ x e
      refine hkeep _ hst (ih ho2 ?_)
      rcases hu with ⟨r, hu⟩ | hu
      · rcases List.mem_cons.mp hu with hu | hu
        · cases hu
        · exact .inl ⟨r, hu⟩
      · exact .inr hu
    | ended x r now =>
      by_cases hx : e = x
      · subst hx
        have ht : t ≤ now := by
          rcases hu with ⟨r', hu⟩ | ⟨hp, -⟩
          · rcases List.mem_cons.mp hu with hu | hu
            · cases hu; exact Int.le_refl _
            · exact ho1 _ hu
          · obtain ⟨ev, h1, h2⟩ := picks_time t0 c0 eps h (t := t) (e := e) hp
            rw [← h2]; exact ho1 _ h1
        have : ((run t0 c0 eps (.ended e r now :: h)).status e).time = now := by
          simp only [run, step, if_true, Failfast.filter]; split <;> rfl
        rw [this]; exact ht
      · have hst : (run t0 c0 eps (.ended x r now :: h)).status e = (run t0 c0 eps h).status e := by
          simp only [run, step, if_neg hx]
        rw [hst]
        refine ih ho2 ?_
        have hfe : Spec.failures e (.ended x r now :: h) = Spec.failures e h := by
          cases r <;> simp only [Spec.failures, if_neg (fun h' : x = e => hx h'.symm)]
        rcases hu with ⟨r', hu⟩ | ⟨hp, hf⟩
        · rcases List.mem_cons.mp hu with hu | hu
          · cases hu; exact absurd rfl hx
          · exact .inl ⟨r', hu⟩
        · exact .inr ⟨hp, by rw [← hfe]; exact hf⟩

private theorem pick_avail {s : Breaker.St E} {now : Int} {up : E → Bool} {r1 r2 : Nat} {e : E}
    (h : pick eps s now up r1 r2 = some e) :
    e ∈ eps ∧ (Failfast.isAvailable (s.status e) now now).1 = true ∧ up e = true := by
  rw [(breaker_select eps s now up r1 r2).1] at h
  have := (rr_select_good _ eps s.counter r1 r2).1 e h
  simpa only [Bool.and_eq_true] using this

/-- **C110.** Whatever has happened: while an endpoint has failed ten times or more since its last success, it is not selected
within ten seconds of a call that was given to it, or ended. -/
theorem breaker_leaves_alone (h : List (Event E)) (ho : Spec.Ordered h) {e : E} (hf : 10 ≤ Spec.failures e h) {t : Int}
    (hu : Spec.Used e h (run t0 c0 eps h).picks t) {now : Int} (hn : now ≤ t + 10 * 10 ^ 9) (up : E → Bool) (r1 r2 : Nat) :
    pick eps (run t0 c0 eps h) now up r1 r2 ≠ some e := by
  intro hp
  have ha : ((run t0 c0 eps h).status e).available = false := by
    rw [(run_available t0 c0 eps h e).1]; simp; omega
  have h1 := (breaker_ff_yes ha (pick_avail eps hp).2.1).1
  have h2 := run_time_ge t0 c0 eps h ho e t (by
    rcases hu with hu | hu
    · exact .inl hu
    · exact .inr ⟨hu, hf⟩)
  omega

/-- **C110.** Whatever has happened: as long as an endpoint that has a connection has failed fewer than ten times since its
last success, a call selects an endpoint, and one that has a connection. -/
theorem breaker_serves (h : List (Event E)) {e : E} (he : e ∈ eps) (hf : Spec.failures e h < 10) (now : Int) (up : E → Bool)
    (hup : up e = true) (r1 r2 : Nat) :
    ∃ x ∈ eps, pick eps (run t0 c0 eps h) now up r1 r2 = some x ∧ up x = true := by
  cases hp : pick eps (run t0 c0 eps h) now up r1 r2 with
  | some x => exact ⟨x, (pick_avail eps hp).1, rfl, (pick_avail eps hp).2.2⟩
  | none =>
    rw [(breaker_select eps _ now up r1 r2).1] at hp
    have := (rr_select_good _ eps (run t0 c0 eps h).counter r1 r2).2 hp e he
    have ha : ((run t0 c0 eps h).status e).available = true := by
      rw [(run_available t0 c0 eps h e).1]; simp [hf]
    simp [Failfast.isAvailable, ha, hup] at this

/-- **C110.** Whatever has happened: if one server with a connection has failed fewer than ten times since its last success, and
all the others have failed ten times or more and had a call in the last ten seconds, then the call is given to that server. -/
theorem breaker_goes_past (h : List (Event E)) (ho : Spec.Ordered h) {e : E} (he : e ∈ eps) (hf : Spec.failures e h < 10)
    (now : Int) (up : E → Bool) (hup : up e = true)
    (hbad : ∀ x ∈ eps, x ≠ e → 10 ≤ Spec.failures x h ∧
      ∃ t, Spec.Used x h (run t0 c0 eps h).picks t ∧ now ≤ t + 10 * 10 ^ 9) (r1 r2 : Nat) :
    pick eps (run t0 c0 eps h) now up r1 r2 = some e := by
  obtain ⟨x, hx, hp, -⟩ := breaker_serves t0 c0 eps h he hf now up hup r1 r2
  by_cases hxe : x = e
  · rw [← hxe]; exact hp
  · obtain ⟨h1, t, h2, h3⟩ := hbad x hx hxe
    exact absurd hp (breaker_leaves_alone t0 c0 eps h ho h1 h2 h3 up r1 r2)

/-- Times more than ten seconds apart: how many of them there are in a period. -/
theorem breaker_apart (ts : List Int) (h : ts.Pairwise fun x y => y + 10 * 10 ^ 9 < x) (a b : Int) (hab : a ≤ b) :
    (Spec.inPeriod ts a b : Int) ≤ (b - a) / (10 * 10 ^ 9) + 1 := by
  have key : ∀ (ts : List Int), ts.Pairwise (fun x y => y + 10 * 10 ^ 9 < x) → ∀ b, Spec.inPeriod ts a b = 0 ∨
      a ≤ b ∧ ((Spec.inPeriod ts a b : Int) - 1) * (10 * 10 ^ 9) ≤ b - a := by
    intro ts
    induction ts with
    | nil => intro _ b; exact .inl rfl
    | cons t ts ih =>
      intro h b
      obtain ⟨h1, h2⟩ := List.pairwise_cons.mp h
      by_cases ht : a ≤ t ∧ t ≤ b
      · right
        have hc : Spec.inPeriod (t :: ts) a b = Spec.inPeriod ts a (t - 10 * 10 ^ 9 - 1) + 1 := by
          simp only [Spec.inPeriod]
          rw [List.countP_cons_of_pos (by simp [ht])]
          congr 1
          apply List.countP_congr
          intro x hx
          have := h1 x hx
          simp only [Bool.and_eq_true, decide_eq_true_eq]
          omega
        rw [hc]
        rcases ih h2 (t - 10 * 10 ^ 9 - 1) with g | ⟨g0, g⟩
        · rw [g]; simp; omega
        · refine ⟨by omega, ?_⟩
          simp only [Int.natCast_add, Int.natCast_one]
          omega
      · have hc : Spec.inPeriod (t :: ts) a b = Spec.inPeriod ts a b := by
          simp only [Spec.inPeriod]
          rw [List.countP_cons_of_neg (by simpa using ht)]
        rw [hc]
        exact ih h2 b
  rcases key ts h b with g | ⟨-, g⟩
  · rw [g]; have := Int.ediv_nonneg (a := b - a) (b := 10 * 10 ^ 9) (by omega) (by decide); omega
  · have := (Int.le_ediv_iff_mul_le (c := 10 * 10 ^ 9) (by decide)).mpr g
    omega

private theorem tries_mem (h : List (Event E)) (e : E) (t : Int)
    (ht : t ∈ Spec.tries (fun h now up r1 r2 => pick eps (run t0 c0 eps h) now up r1 r2) e h) :
    (t, e) ∈ (run t0 c0 eps h).picks := by
  induction h with
  | nil => cases ht
  | cons ev h ih =>
    cases ev with
    | ended x r now => exact ih ht
    | asked x up now => exact ih ht
    | select now up r1 r2 =>
      have old : t ∈ Spec.tries (fun h now up r1 r2 => pick eps (run t0 c0 eps h) now up r1 r2) e h →
          (t, e) ∈ (run t0 c0 eps (.select now up r1 r2 :: h)).picks := by
        intro ht
        simp only [run, step]
        split
        · exact .tail _ (ih ht)
        · exact ih ht
      rw [Spec.tries] at ht
      split at ht
      · rename_i hc
        rcases List.mem_cons.mp ht with ht | ht
        · subst ht
          obtain ⟨p, hx, hpe⟩ := Option.map_eq_some_iff.mp hc.1
          simp only [run, step]
          rw [hx]; subst hpe; exact .head _
        · exact old ht
      · exact old ht

/-- **C110.** Whatever has happened: the calls given to a server while it had failed ten times or more since its last success are
at most one in every ten seconds, and one more. -/
theorem breaker_rate (h : List (Event E)) (ho : Spec.Ordered h) (e : E) (a b : Int) (hab : a ≤ b) :
    (Spec.inPeriod (Spec.tries (fun h now up r1 r2 => pick eps (run t0 c0 eps h) now up r1 r2) e h) a b : Int) ≤
      (b - a) / (10 * 10 ^ 9) + 1 := by
  refine breaker_apart _ ?_ a b hab
  induction h with
  | nil => exact .nil
  | cons ev h ih =>
    have ho2 := (List.pairwise_cons.mp ho).2
    cases ev with
    | ended x r now => exact ih ho2
    | asked x up now => exact ih ho2
    | select now up r1 r2 =>
      rw [Spec.tries]
      split
      · rename_i hc
        refine List.pairwise_cons.mpr ⟨fun t ht => ?_, ih ho2⟩
        rcases Int.lt_or_le (t + 10 * 10 ^ 9) now with g | g
        · exact g
        · exact absurd hc.1 (breaker_leaves_alone t0 c0 eps h ho2 hc.2 (.inr (tries_mem t0 c0 eps h e t ht)) g up r1 r2)
      · exact ih ho2

private theorem touched_mono {e : E} {h : List (Event E)} {ev : Event E} {t : Int}
    (ht : Spec.Touched t0 e h (run t0 c0 eps h).picks t) : Spec.Touched t0 e (ev :: h) (run t0 c0 eps (ev :: h)).picks t := by
  have hp : ∀ x, x ∈ (run t0 c0 eps h).picks → x ∈ (run t0 c0 eps (ev :: h)).picks := by
    intro x hx
    cases ev with
    | ended y r now => exact hx
    | asked y up now => exact hx
    | select now up r1 r2 =>
      simp only [run, step]
      split
      · exact .tail _ hx
      · exact hx
  rcases ht with ht | (⟨r, ht⟩ | ht) | ⟨u, ht⟩ | ⟨up, r1, r2, ht, hu⟩
  · exact .inl ht
  · exact .inr (.inl (.inl ⟨r, .tail _ ht⟩))
  · exact .inr (.inl (.inr (hp _ ht)))
  · exact .inr (.inr (.inl ⟨u, .tail _ ht⟩))
  · exact .inr (.inr (.inr ⟨up, r1, r2, .tail _ ht, hu⟩))

/-- The time kept for an endpoint is one of those that count. -/
private theorem run_time (h : List (Event E)) (e : E) :
    Spec.Touched t0 e h (run t0 c0 eps h).picks ((run t0 c0 eps h).status e).time := by
  induction h with
  | nil => exact .inl rfl
  | cons ev h ih =>
    have keep : ((run t0 c0 eps (ev :: h)).status e).time = ((run t0 c0 eps h).status e).time →
        Spec.Touched t0 e (ev :: h) (run t0 c0 eps (ev :: h)).picks ((run t0 c0 eps (ev :: h)).status e).time := by
      intro hk; rw [hk]; exact touched_mono t0 c0 eps ih
    cases ev with
    | select now up r1 r2 =>
      rcases (select_state eps (run t0 c0 eps h).counter r1 r2 (run t0 c0 eps h).status now up e).1 with g | ⟨-, g, hu⟩
      · exact keep (congrArg Failfast.Status.time g)
      · have ht : ((run t0 c0 eps (.select now up r1 r2 :: h)).status e).time = now := congrArg Failfast.Status.time g
        rw [ht]
        rcases hu with hu | hu
        · exact .inr (.inr (.inr ⟨up, r1, r2, .head _, hu⟩))
        · refine .inr (.inl (.inr ?_))
          obtain ⟨p, hx, hpe⟩ := Option.map_eq_some_iff.mp hu
          simp only [run, step]
          rw [hx]
          subst hpe
          exact .head _
    | asked x up now =>
      by_cases hx : e = x
      · subst hx
        have hst : (run t0 c0 eps (.asked e up now :: h)).status e = (Failfast.isAvailable ((run t0 c0 eps h).status e) now now).2 := by
          simp only [run, step, ask, if_true]
        rcases breaker_ff_state ((run t0 c0 eps h).status e) now now with g | ⟨-, g⟩
        · exact keep (by rw [hst, g])
        · have ht : ((run t0 c0 eps (.asked e up now :: h)).status e).time = now := by rw [hst, g]
          rw [ht]; exact .inr (.inr (.inl ⟨up, .head _⟩))
      · exact keep (by simp only [run, step, ask, if_neg hx])
    | ended x r now =>
      by_cases hx : e = x
      · subst hx
        have : ((run t0 c0 eps (.ended e r now :: h)).status e).time = now := by
          simp only [run, step, if_true, Failfast.filter]; split <;> rfl
        rw [this]; exact .inr (.inl (.inl ⟨r, .head _⟩))
      · exact keep (by simp only [run, step, if_neg hx])

/-- **C110.** Whatever has happened before: from ten seconds on after all that counts for the next try, an endpoint with a
connection is given one of the next calls, as many as there are endpoints, if nobody but these calls asks for it (and the
counter does not overflow). -/
theorem breaker_tries_again (h more : List (Event E)) {e : E} (he : e ∈ eps)
    (hm : ∀ ev ∈ more, match ev with
      | .select now up _ _ => up e = true ∧ ∀ t, Spec.Touched t0 e h (run t0 c0 eps h).picks t → t + 10 * 10 ^ 9 < now
      | .ended x _ _ => x ≠ e
      | .asked x _ _ => x ≠ e)
    (hs : eps.length ≤ Spec.selections more) (hc : (run t0 c0 eps h).counter.toNat + Spec.selections more < 2 ^ 32) :
    ∃ now up r1 r2, Event.select now up r1 r2 ∈ more ∧ (now, e) ∈ (run t0 c0 eps (more ++ h)).picks := by
  have hne : eps ≠ [] := fun h0 => by rw [h0] at he; cases he
  have key : ∀ more : List (Event E), (∀ ev ∈ more, match ev with
      | .select now up _ _ => up e = true ∧ ∀ t, Spec.Touched t0 e h (run t0 c0 eps h).picks t → t + 10 * 10 ^ 9 < now
      | .ended x _ _ => x ≠ e
      | .asked x _ _ => x ≠ e) → (run t0 c0 eps h).counter.toNat + Spec.selections more < 2 ^ 32 →
      (∃ now up r1 r2, Event.select now up r1 r2 ∈ more ∧ (now, e) ∈ (run t0 c0 eps (more ++ h)).picks) ∨
      ((run t0 c0 eps (more ++ h)).status e = (run t0 c0 eps h).status e ∧
       (run t0 c0 eps (more ++ h)).counter.toNat = (run t0 c0 eps h).counter.toNat + Spec.selections more ∧
       ∀ j, j < Spec.selections more → eps[((run t0 c0 eps h).counter.toNat + 1 + j) % eps.length]? ≠ some e) := by
    intro more
    induction more with
    | nil => intro _ _; exact .inr ⟨rfl, rfl, fun j hj => by cases hj⟩
    | cons ev more ih =>
      intro hm hc
      have hev := hm ev (.head _)
      have hm' := fun x hx => hm x (.tail _ hx)
      cases ev with
      | ended x r now =>
        rcases ih hm' hc with ⟨n, up, r1, r2, h1, h2⟩ | ⟨h1, h2, h3⟩
        · exact .inl ⟨n, up, r1, r2, .tail _ h1, h2⟩
        · refine .inr ⟨?_, h2, h3⟩
          rw [← h1]
          simp only [List.cons_append, run, step, if_neg (fun h' : e = x => hev h'.symm)]
      | asked x up now =>
        rcases ih hm' hc with ⟨n, up, r1, r2, h1, h2⟩ | ⟨h1, h2, h3⟩
        · exact .inl ⟨n, up, r1, r2, .tail _ h1, h2⟩
        · refine .inr ⟨?_, h2, h3⟩
          rw [← h1]
          simp only [List.cons_append, run, step, ask, if_neg (fun h' : e = x => hev h'.symm)]
      | select now up r1 r2 =>
        obtain ⟨hup, htt⟩ := hev
        have hc' : (run t0 c0 eps h).counter.toNat + (Spec.selections more + 1) < 2 ^ 32 := hc
        rcases ih hm' (by omega) with ⟨n, up', r1', r2', h1, h2⟩ | ⟨h1, h2, h3⟩
        · refine .inl ⟨n, up', r1', r2', .tail _ h1, ?_⟩
          simp only [List.cons_append, run, step]
          split
          · exact .tail _ h2
          · exact h2
        · have hav : (Failfast.isAvailable ((run t0 c0 eps (more ++ h)).status e) now now).1 = true := by
            rw [h1]
            by_cases ha : ((run t0 c0 eps h).status e).available = true
            · unfold Failfast.isAvailable; rw [if_pos ha]
            · rw [breaker_ff_due ⟨by simpa using ha, htt _ (run_time t0 c0 eps h e)⟩]
          have hsel := breaker_select eps (run t0 c0 eps (more ++ h)) now up r1 r2
          have hrr := rr_step (fun x => (Failfast.isAvailable ((run t0 c0 eps (more ++ h)).status x) now now).1 && up x) eps
            (run t0 c0 eps (more ++ h)).counter r1 r2 hne
          by_cases hp : pick eps (run t0 c0 eps (more ++ h)) now up r1 r2 = some e
          · left
            refine ⟨now, up, r1, r2, .head _, ?_⟩
            obtain ⟨p, hx, hpe⟩ := Option.map_eq_some_iff.mp hp
            simp only [List.cons_append, run, step]
            rw [hx]; subst hpe; exact .head _
          · right
            have hcnt : ((run t0 c0 eps (more ++ h)).counter + 1).toNat = (run t0 c0 eps h).counter.toNat + 1 + Spec.selections more := by
              rw [UInt32.toNat_add, h2]; simp only [UInt32.toNat_one]; omega
            refine ⟨?_, ?_, ?_⟩
            · rcases (select_state eps (run t0 c0 eps (more ++ h)).counter r1 r2 (run t0 c0 eps (more ++ h)).status now up e).1 with
                g | ⟨-, -, g | g⟩
              · rw [← h1]; exact g
              · rw [hup] at g; cases g
              · exact absurd g hp
            · show (roundrobinSelect (ask now up) eps (run t0 c0 eps (more ++ h)).counter r1 r2
                (run t0 c0 eps (more ++ h)).status).2.2.toNat = _
              rw [hsel.2, hrr.1, hcnt]
              simp only [Spec.selections]; omega
            · intro j hj hje
              have hj' : j < Spec.selections more + 1 := hj
              by_cases hjl : j < Spec.selections more
              · exact h3 j hjl hje
              · have : j = Spec.selections more := by omega
                subst this
                rw [← hcnt] at hje
                exact hp (hsel.1.trans (hrr.2 e hje (by simp only [hav, hup, Bool.and_self])))
  rcases key more hm hc with h1 | ⟨-, -, h3⟩
  · exact h1
  · obtain ⟨k, x, hk, hx, hxe⟩ := ring_finds eps (fun x => decide (x = e)) ((run t0 c0 eps h).counter.toNat + 1) ⟨e, he, by simp⟩
    have hxe' : x = e := by simpa using hxe
    subst hxe'
    have hlt : eps.countP (fun y => !decide (y = x)) < eps.length := by
      rcases Nat.lt_or_ge (eps.countP fun y => !decide (y = x)) eps.length with h1 | h1
      · exact h1
      · have h2 := List.countP_eq_length.mp (Nat.le_antisymm List.countP_le_length h1) x he
        simp at h2
    exact absurd hx (h3 k (by omega))

/-! ### Cases -/

namespace BreakerEx

/-- A second, in nanoseconds. -/
def sec : Int := 10 ^ 9

def good : Response := { id := 1, value := none, exception := none, processTime := 0, attachment := [] }
/-- What a service answers that refuses what the caller asks for. -/
def refused : Response := { good with exception := some ⟨500, b!"no such user", 2⟩ }

/-- Ten calls to `false` end this way, one per second. -/
def ten (r : Option Response) : Nat → List (Event Bool)
  | 0 => []
  | n + 1 => .ended false r (n * sec) :: ten r n

def all : Bool → Bool := fun _ => true

/-- Rounds of eleven seconds: the runtime page is looked at, and right after it a call selects. -/
def watched : Nat → List (Event Bool)
  | 0 => ten none 10
  | n + 1 => .select ((n + 2) * 11 * sec + 1) all n n :: (page [false, true] all ((n + 2) * 11 * sec) ++ watched n)

end BreakerEx

open BreakerEx

/-- The hypotheses of `breaker_leaves_alone` and `breaker_serves`: `false` has failed ten times, `true` never. -/
example : Spec.Ordered (ten none 10) ∧ 10 ≤ Spec.failures false (ten none 10) ∧ Spec.failures true (ten none 10) < 10 ∧
    Spec.Used false (ten none 10) (run (-sec) 0 [false, true] (ten none 10)).picks (9 * sec) ∧
    19 * sec ≤ 9 * sec + 10 * 10 ^ 9 ∧ pick [false, true] (run (-sec) 1 [false, true] (ten none 10)) (19 * sec) all 0 0 = some true := by
  refine ⟨?_, by decide +kernel, by decide +kernel, .inl ⟨none, .head _⟩, by decide +kernel, by decide +kernel⟩
  unfold Spec.Ordered
  decide +kernel

/-- In thirty seconds with a call in each there are two tries. -/
example : let h := ((List.range 30).map fun i : Nat => Event.select ((40 - i) * sec) all 0 0) ++ ten none 10
    Spec.inPeriod (Spec.tries (fun h now up r1 r2 => pick [false, true] (run (-sec) 0 [false, true] h) now up r1 r2) false h)
      (11 * sec) (40 * sec) = 2 := by
  decide +kernel

/-- Those of `breaker_goes_past`, of the same history. -/
example (x : Bool) (hx : x ≠ true) : 10 ≤ Spec.failures x (ten none 10) ∧
    ∃ t, Spec.Used x (ten none 10) (run (-sec) 0 [false, true] (ten none 10)).picks t ∧ 19 * sec ≤ t + 10 * 10 ^ 9 := by
  cases x with
  | true => exact absurd rfl hx
  | false => exact ⟨by decide +kernel, 9 * sec, .inl ⟨none, .head _⟩, by decide +kernel⟩

/-- Those of `breaker_tries_again`: after more than ten seconds, two calls, of which the second one is given to `false`. -/
example : let more : List (Event Bool) := [.select (21 * sec) all 0 0, .select (20 * sec) all 0 0]
    (∀ ev ∈ more, match ev with
      | .select now up _ _ => up false = true ∧
          ∀ t, Spec.Touched (-sec) false (ten none 10) (run (-sec) 0 [false, true] (ten none 10)).picks t → t + 10 * 10 ^ 9 < now
      | .ended x _ _ => x ≠ false
      | .asked x _ _ => x ≠ false) ∧
    2 ≤ Spec.selections more ∧ (run (-sec) 0 [false, true] (ten none 10)).counter.toNat + Spec.selections more < 2 ^ 32 ∧
    (run (-sec) 0 [false, true] (more ++ ten none 10)).picks = [(21 * sec, false), (20 * sec, true)] := by
  intro more
  refine ⟨?_, by decide, by decide +kernel, by decide +kernel⟩
  have hb : ∀ t, Spec.Touched (-sec) false (ten none 10) (run (-sec) 0 [false, true] (ten none 10)).picks t → t ≤ 9 * sec := by
    intro t ht
    rcases ht with rfl | (⟨r, ht⟩ | ht) | ⟨u, ht⟩ | ⟨up, r1, r2, ht, hu⟩
    · decide
    · simp only [ten, List.mem_cons, Event.ended.injEq, List.not_mem_nil, or_false] at ht
      rcases ht with h | h | h | h | h | h | h | h | h | h <;> rw [h.2.2] <;> decide
    · have : (run (-sec) 0 [false, true] (ten none 10)).picks = [] := rfl
      rw [this] at ht; cases ht
    · simp [ten] at ht
    · simp [ten] at ht
  intro ev hev
  simp only [more, List.mem_cons, List.not_mem_nil, or_false] at hev
  rcases hev with rfl | rfl <;> refine ⟨rfl, fun t ht => ?_⟩ <;> have := hb t ht <;> simp only [sec] at this ⊢ <;> omega

private theorem watched_status (n : Nat) :
    (run (-sec) 0 [false, true] (watched n)).status false = ⟨false, 10, if n = 0 then 9 * sec else (n + 1) * 11 * sec⟩ ∧
    ((run (-sec) 0 [false, true] (watched n)).status true).available = true ∧
    ∀ t, (t, false) ∉ (run (-sec) 0 [false, true] (watched n)).picks := by
  induction n with
  | zero => exact ⟨by rfl, by rfl, fun t h => by cases h⟩
  | succ n ih =>
    obtain ⟨h1, h2, h3⟩ := ih
    let T : Int := (n + 2) * 11 * sec
    -- the page
    have hdue : Due ((run (-sec) 0 [false, true] (watched n)).status false) T := by
      refine ⟨by rw [h1], ?_⟩
      rw [h1]
      simp only [sec, T]
      split <;> omega
    let s1 := run (-sec) 0 [false, true] (Event.asked false true T :: watched n)
    have a1 : s1.status false = ⟨false, 10, T⟩ := by
      have : s1.status false = (Failfast.isAvailable ((run (-sec) 0 [false, true] (watched n)).status false) T T).2 := by
        simp only [s1, run, step, ask, if_true]
      rw [this, breaker_ff_due hdue, h1]
    have a2 : (s1.status true).available = true := h2
    let s2 := run (-sec) 0 [false, true] (page [false, true] all T ++ watched n)
    have b1 : s2.status false = ⟨false, 10, T⟩ := a1
    have b2 : (s2.status true).available = true := by
      have : s2.status true = (Failfast.isAvailable (s1.status true) T T).2 := rfl
      rw [this]; unfold Failfast.isAvailable; rw [if_pos a2]; exact a2
    have b3 : s2.picks = (run (-sec) 0 [false, true] (watched n)).picks := rfl
    have nd : ¬ Due (s2.status false) (T + 1) := by
      intro hd; have := hd.2; rw [b1] at this; simp only at this; omega
    have nd' : ¬ Due (s2.status true) (T + 1) := by
      intro hd; rw [hd.1] at b2; cases b2
    have hs := select_state [false, true] s2.counter n n s2.status (T + 1) all false
    have hs' := select_state [false, true] s2.counter n n s2.status (T + 1) all true
    have hw : watched (n + 1) = .select (T + 1) all n n :: (page [false, true] all T ++ watched n) := rfl
    rw [hw]
    refine ⟨?_, ?_, ?_⟩
    · rcases hs.1 with g | ⟨g, -⟩
      · rw [if_neg (by omega)]
        have g' : (run (-sec) 0 [false, true] (.select (T + 1) all n n :: (page [false, true] all T ++ watched n))).status false = _ := g
        rw [g', b1]
        simp only [T]; congr 1
      · exact absurd g nd
    · rcases hs'.1 with g | ⟨g, -⟩
      · have g' : (run (-sec) 0 [false, true] (.select (T + 1) all n n :: (page [false, true] all T ++ watched n))).status true = _ := g
        rw [g']; exact b2
      · exact absurd g nd'
    · intro t ht
      have ht' : (t, false) ∈ (step [false, true] s2 (.select (T + 1) all n n)).picks := ht
      simp only [step] at ht'
      split at ht'
      · rename_i p e hx
        rcases List.mem_cons.mp ht' with h | h
        · cases h
          have hp : pick [false, true] s2 (T + 1) all n n = some false := by rw [pick, hx]; rfl
          exact nd ⟨by rw [b1], (breaker_ff_yes (by rw [b1]) (pick_avail _ hp).2.1).1⟩
        · rw [b3] at h; exact h3 t h
      · rw [b3] at ht'; exact h3 t ht'

/-- **C110, where it fails.** Looking at the runtime page counts as trying. One of two servers has failed ten times and works
again. If the page is looked at every eleven seconds and the calls come after it, the server is never given a call again,
however long this goes on. -/
theorem breaker_page_violated (n : Nat) :
    Spec.selections (watched n) = n ∧ 10 ≤ Spec.failures false (watched n) ∧
    ∀ t, (t, false) ∉ (run (-sec) 0 [false, true] (watched n)).picks := by
  refine ⟨?_, ?_, (watched_status n).2.2⟩
  · induction n with
    | zero => rfl
    | succ n ih => simp only [watched, page, Spec.selections]; simp [Spec.selections, ih]
  · induction n with
    | zero => decide
    | succ n ih => simp only [watched, page, Spec.failures]; simpa [Spec.failures] using ih

/-- **C110, where it fails.** So does a selection while the server has no connection: it is back a second later, and still is
not tried for ten seconds. -/
theorem breaker_down_violated : ∀ now, now ≤ 30 * sec → ∀ up r1 r2,
    pick [false, true] (run (-sec) 1 [false, true] (.select (20 * sec) (fun e => e) 0 0 :: ten none 10)) now up r1 r2 ≠ some false := by
  intro now hn up r1 r2 hp
  have h1 : (run (-sec) 1 [false, true] (.select (20 * sec) (fun e => e) 0 0 :: ten none 10)).status false = ⟨false, 10, 20 * sec⟩ := by
    rfl
  have h2 := (pick_avail _ hp).2.1
  have h3 := (breaker_ff_yes (by rw [h1]) h2).1
  rw [h1] at h3
  simp only [sec] at h3 hn
  omega

/-- **C110, where it fails.** Answers of the service that refuse what the caller asks for are counted as failures of the
server: after ten of them it is left alone, though failover takes such answers as good ones. -/
theorem breaker_business_violated : Spec.GoodResponse refused ∧ ∀ now, now ≤ 19 * sec → ∀ up r1 r2,
    pick [false, true] (run (-sec) 1 [false, true] (ten (some refused) 10)) now up r1 r2 ≠ some false := by
  refine ⟨.inr ⟨_, rfl, by decide⟩, ?_⟩
  intro now hn up r1 r2 hp
  have h1 : (run (-sec) 1 [false, true] (ten (some refused) 10)).status false = ⟨false, 10, 9 * sec⟩ := by rfl
  have h2 := (pick_avail _ hp).2.1
  have h3 := (breaker_ff_yes (by rw [h1]) h2).1
  rw [h1] at h3
  simp only [sec] at h3 hn
  omega

/-- **C110, where it fails.** A list of endpoints (`SelectArray`) asks the first one twice, and the second answer is no. Of a
cluster with one server that has failed ten times the list is empty at all times, also when a call would be given to it. -/
theorem breaker_array_violated (e : E) (s : E → Failfast.Status) (hs : (s e).available = false) (now : Int) (up : E → Bool)
    (i : UInt32) (r1 r2 : Nat) :
    (selectArray (ask now up) [e] i r1 r2 s).1 = [] := by
  have hone : ∀ k : Nat, ([e] : List E)[k % ([e] : List E).length]? = some e := by
    intro k; simp [Nat.mod_one]
  by_cases hy : (ask now up s e).1 = true
  · have hy2 := hy
    simp only [ask, Bool.and_eq_true] at hy2
    have h1 : (ask now up s e).2 e = { s e with time := now } := by
      simp only [ask, if_true]; exact (breaker_ff_yes hs hy2.1).2
    have hno : (ask now up (ask now up s e).2 e).1 = false := by
      generalize (ask now up s e).2 = s1 at h1 ⊢
      simp only [ask, h1]
      cases hb : (Failfast.isAvailable { s e with time := now } now now).1 with
      | false => rfl
      | true =>
        have := (breaker_ff_yes (s := { s e with time := now }) hs hb).1
        simp only at this; omega
    have hr : roundrobinSelect (ask now up) [e] i r1 r2 s = (some ((i + 1).toNat % 1, e), (ask now up s e).2, i + 1) := by
      simp only [roundrobinSelect]
      rw [if_neg (by simp), hone]
      simp only [hy, if_true]
      rfl
    simp only [selectArray, hr, collectFrom, List.length_singleton, List.length_nil]
    rw [if_pos (by decide)]
    have hone' : ([e] : List E)[((i + 1).toNat % 1 + 0) % 1]? = some e := hone _
    rw [hone']
    simp only [hno, Bool.false_eq_true, if_false]
  · have hy' : (ask now up s e).1 = false := by simpa using hy
    have hg : (roundrobinSelect (ask now up) [e] i r1 r2 s).1 = none := by
      cases hx : (roundrobinSelect (ask now up) [e] i r1 r2 s).1 with
      | none => rfl
      | some p =>
        have hp : pick [e] ⟨s, i, []⟩ now up r1 r2 = some p.2 := by
          rw [pick]; simp only [hx, Option.map_some]
        have h1 := pick_avail _ hp
        have h2 : p.2 = e := by simpa using h1.1
        rw [h2] at h1
        simp only [ask, Bool.and_eq_false_iff] at hy'
        rcases hy' with h | h
        · rw [h1.2.1] at h; cases h
        · rw [h1.2.2] at h; cases h
    unfold selectArray
    split
    · rfl
    · rename_i h; rw [h] at hg; cases hg

/-- Such a server, twenty seconds later: a call is given to it, a list is empty. -/
example : let s := run (-sec) 0 [false] (ten none 10)
    (s.status false).available = false ∧ pick [false] s (30 * sec) all 0 0 = some false ∧
    (selectArray (ask (30 * sec) all) [false] s.counter 0 0 s.status).1 = [] := by decide +kernel

/-! ### The sliding window -/

/-- The endpoint would not be selected now, whatever is asked. -/
private def Out (e : E) (now : Int) (s : E → Failfast.Status) : Prop := (s e).available = false ∧ ¬ (s e).time + 10 * 10 ^ 9 < now

private theorem out_ask {e : E} {now : Int} (up : E → Bool) {s : E → Failfast.Status} (h : Out e now s) (x : E) :
    Out e now (ask now up s x).2 ∧ ((ask now up s x).1 = true → x ≠ e) := by
  have hst : (ask now up s x).2 e = s e := by
    rcases breaker_ask_later now up s x e with g | ⟨n, g, hn⟩
    · exact g
    · by_cases hx : e = x
      · subst hx
        simp only [ask, if_true]
        rcases breaker_ff_state (s e) now now with g' | ⟨g', -⟩
        · exact g'
        · exact absurd g'.2 h.2
      · simp only [ask, if_neg hx]
  refine ⟨⟨by rw [hst]; exact h.1, by rw [hst]; exact h.2⟩, ?_⟩
  rintro hy rfl
  simp only [ask, Bool.and_eq_true] at hy
  exact h.2 (breaker_ff_yes h.1 hy.1).1

private theorem down_ask {e : E} (now : Int) (up : E → Bool) {s : E → Failfast.Status} (h : (s e).available = false) (x : E) :
    ((ask now up s x).2 e).available = false ∧ (x = e → Out e now (ask now up s x).2) := by
  constructor
  · rcases breaker_ask_later now up s x e with g | ⟨n, -, g⟩
    · rw [g]; exact h
    · rw [g]; exact h
  · rintro rfl
    by_cases hd : Due (s x) now
    · have : (ask now up s x).2 x = { s x with time := now } := by
        simp only [ask, if_true, breaker_ff_due hd]
      refine ⟨by rw [this]; exact h, by rw [this]; simp only; omega⟩
    · have : (ask now up s x).2 x = s x := by
        simp only [ask, if_true]
        rcases breaker_ff_state (s x) now now with g | ⟨g, -⟩
        · exact g
        · exact absurd g hd
      exact ⟨by rw [this]; exact h, by rw [this]; exact fun h' => hd ⟨h, h'⟩⟩

private theorem set_ep {E : Type} (items : List (Lb.Item E)) (k : Nat) (it : Lb.Item E) (c : Int) (h : items[k]? = some it) :
    (items.set k { it with current := c }).map (·.ep) = items.map (·.ep) := by
  rw [List.map_set]
  apply List.ext_getElem?
  intro j
  rw [List.getElem?_set]
  split
  · rename_i hj
    subst hj
    obtain ⟨hlt, hk⟩ := List.getElem?_eq_some_iff.mp h
    rw [List.getElem?_map, h]
    simp [hlt]
  · rfl

private theorem windowLoop_out (e : E) (now : Int) (up : E → Bool) (start : Nat) : ∀ n i (items : List (Lb.Item E)) total best bi s,
    (s e).available = false →
    (Out e now s ∨ ∃ j, i ≤ j ∧ j < i + n ∧ (items.map (·.ep))[(start + j) % items.length]? = some e) →
    Out e now (windowLoop (ask now up) start i n items total best bi s).2 ∧
    (windowLoop (ask now up) start i n items total best bi s).1.1.map (·.ep) = items.map (·.ep) := by
  intro n
  induction n with
  | zero =>
    intro i items total best bi s ha hor
    rcases hor with h | ⟨j, h1, h2, -⟩
    · exact ⟨h, rfl⟩
    · omega
  | succ n ih =>
    intro i items total best bi s ha hor
    simp only [windowLoop]
    cases hit : items[(start + i) % items.length]? with
    | none =>
      simp only
      refine ⟨?_, trivial⟩
      rcases hor with h | ⟨j, -, -, hj⟩
      · exact h
      · have hlen : items.length = 0 := by
          rcases Nat.eq_zero_or_pos items.length with h0 | h0
          · exact h0
          · have := Nat.mod_lt (start + i) h0
            rw [List.getElem?_eq_getElem this] at hit; cases hit
        have : items = [] := List.eq_nil_of_length_eq_zero hlen
        subst this; simp at hj
    | some it =>
      simp only
      have hnext : ∀ items' : List (Lb.Item E), items'.map (·.ep) = items.map (·.ep) →
          ((ask now up s it.ep).2 e).available = false ∧
          (Out e now (ask now up s it.ep).2 ∨
            ∃ j, i + 1 ≤ j ∧ j < i + 1 + n ∧ (items'.map (·.ep))[(start + j) % items'.length]? = some e) := by
        intro items' hi
        have hl : items'.length = items.length := by simpa using congrArg List.length hi
        refine ⟨(down_ask now up ha it.ep).1, ?_⟩
        rcases hor with h | ⟨j, h1, h2, hj⟩
        · exact .inl (out_ask up h it.ep).1
        · by_cases hji : j = i
          · subst hji
            left
            refine (down_ask now up ha it.ep).2 ?_
            rw [List.getElem?_map, hit] at hj
            simpa using hj
          · exact .inr ⟨j, by omega, by omega, by rw [hi, hl]; exact hj⟩
      by_cases hq : (ask now up s it.ep).1 = true
      · rw [if_pos hq]
        have hi := set_ep items _ it (it.current + it.weight) hit
        have hn := hnext _ hi
        split
        · obtain ⟨g1, g2⟩ := ih (i + 1) _ (total + it.weight) (it.current + it.weight) ((start + i) % items.length) _ hn.1 hn.2
          exact ⟨g1, g2.trans hi⟩
        · obtain ⟨g1, g2⟩ := ih (i + 1) _ (total + it.weight) best bi _ hn.1 hn.2
          exact ⟨g1, g2.trans hi⟩
      · rw [if_neg hq]
        exact ih (i + 1) items total best bi _ (hnext items rfl).1 (hnext items rfl).2

private theorem fallback_out (e : E) (now : Int) (up : E → Bool) (items : List (Lb.Item E)) (idx : Nat) : ∀ n i s, Out e now s →
    (windowFallback (ask now up) items idx i n s).1 ≠ some e ∧ Out e now (windowFallback (ask now up) items idx i n s).2 := by
  intro n
  induction n with
  | zero => intro i s h; exact ⟨by simp [windowFallback], h⟩
  | succ n ih =>
    intro i s h
    simp only [windowFallback]
    split
    · rename_i it _
      split
      · rename_i hq
        exact ⟨fun hc => (out_ask up h it.ep).2 hq (by simpa using hc), (out_ask up h it.ep).1⟩
      · exact ih _ _ (out_ask up h it.ep).1
    · exact ⟨by simp, h⟩

private theorem window_out (e : E) (now : Int) (up : E → Bool) (idx : BitVec 64) (items : List (Lb.Item E)) (r : Nat)
    (s : E → Failfast.Status) (he : e ∈ items.map (·.ep)) (ha : (s e).available = false) :
    let x := windowDoSelect (ask now up) items.length idx items r s
    x.1 ≠ some e ∧ x.2.2.1.map (·.ep) = items.map (·.ep) ∧ (x.2.2.2 e).available = false := by
  intro x
  have hcov : ∃ j, 0 ≤ j ∧ j < 0 + items.length ∧
      (items.map (·.ep))[(Lb.getNonNegative (idx + BitVec.ofNat 64 items.length) + j) % items.length]? = some e := by
    obtain ⟨k, y, hk, hy, hye⟩ := ring_finds (items.map (·.ep)) (fun y => decide (y = e))
      (Lb.getNonNegative (idx + BitVec.ofNat 64 items.length)) ⟨e, he, by simp⟩
    have hye' : y = e := by simpa using hye
    subst hye'
    have hlt : (items.map (·.ep)).countP (fun z => !decide (z = y)) < (items.map (·.ep)).length := by
      rcases Nat.lt_or_ge ((items.map (·.ep)).countP fun z => !decide (z = y)) (items.map (·.ep)).length with h1 | h1
      · exact h1
      · have h2 := List.countP_eq_length.mp (Nat.le_antisymm List.countP_le_length h1) y he
        simp at h2
    rw [List.length_map] at hlt hy
    exact ⟨k, by omega, by omega, hy⟩
  have hl := windowLoop_out e now up (Lb.getNonNegative (idx + BitVec.ofNat 64 items.length)) items.length 0 items 0 0 0 s ha (.inr hcov)
  simp only [x, windowDoSelect]
  generalize windowLoop (ask now up) (Lb.getNonNegative (idx + BitVec.ofNat 64 items.length)) 0 items.length items 0 0 0 s = w at hl
  obtain ⟨⟨items', total, best, bi⟩, s'⟩ := w
  obtain ⟨ho, hi⟩ := hl
  simp only at ho hi ⊢
  split
  · cases hb : items'[bi]? with
    | none => exact ⟨by simp, hi, ho.1⟩
    | some it =>
      simp only
      have hi' := (set_ep items' bi it (it.current - total) hb).trans hi
      split
      · rename_i hq
        exact ⟨fun hc => (out_ask up ho it.ep).2 hq (by simpa using hc), hi', (out_ask up ho it.ep).1.1⟩
      · have hf := fallback_out e now up (items'.set bi { it with current := it.current - total })
          (Lb.getNonNegative (idx + BitVec.ofNat 64 items.length) + r % items.length)
          ((items'.set bi { it with current := it.current - total }).length - 1) 1 _ (out_ask up ho it.ep).1
        exact ⟨hf.1, hi', hf.2.1⟩
  · have hf := fallback_out e now up items' (Lb.getNonNegative (idx + BitVec.ofNat 64 items.length) + r % items.length)
      (items'.length - 1) 1 _ ho
    exact ⟨hf.1, hi, hf.2.1⟩

/-- **C110, where it fails.** The sliding window of the weighted load balancer asks the endpoint it has chosen a second time,
and after a probe has been granted the second answer is no. So with at most fifty endpoints a server that has failed ten times
is never given a call again: however long it works again, however many calls are made, and whatever the weights and random
numbers are. (Only a call that another cluster makes to the same address can bring it back.) -/
theorem breaker_window_violated (s : Win E) (hl : s.items.length ≤ 50) (hp : s.picks = []) (e : E) (he : e ∈ s.items.map (·.ep))
    (ha : (s.status e).available = false) (h : List (Event E)) (hh : ∀ r t, Event.ended e r t ∉ h) :
    ∀ t, (t, e) ∉ (winRun s h).picks := by
  have key : (∀ t, (t, e) ∉ (winRun s h).picks) ∧ (winRun s h).items.map (·.ep) = s.items.map (·.ep) ∧
      ((winRun s h).status e).available = false := by
    induction h with
    | nil => exact ⟨fun t ht => (by rw [winRun, hp] at ht; cases ht), rfl, ha⟩
    | cons ev h ih =>
      obtain ⟨h1, h2, h3⟩ := ih (fun r t hm => hh r t (.tail _ hm))
      cases ev with
      | ended x r now =>
        have hx : e ≠ x := fun hx => hh r now (by rw [hx]; exact .head _)
        exact ⟨h1, h2, by simp only [winRun, winStep, if_neg hx]; exact h3⟩
      | asked x up now => exact ⟨h1, h2, (down_ask now (fun _ => up) h3 x).1⟩
      | select now up r1 r2 =>
        have hlen : (winRun s h).items.length = s.items.length := by simpa using congrArg List.length h2
        have hw : Lb.windowSize (winRun s h).items.length = (winRun s h).items.length := by
          unfold Lb.windowSize; rw [if_neg (by omega)]
        obtain ⟨g1, g2, g3⟩ := window_out e now up (winRun s h).idx (winRun s h).items r2 (winRun s h).status (by rw [h2]; exact he) h3
        simp only [winRun, winStep, hw]
        refine ⟨?_, g2.trans h2, g3⟩
        intro t ht
        split at ht
        · rename_i y hy
          rcases List.mem_cons.mp ht with h' | h'
          · cases h'; exact g1 hy
          · exact h1 t h'
        · exact h1 t ht
  exact key.1

/-- Such a state is reached by ten failures; another endpoint is selected then. -/
example : let s := winRun ⟨fun _ => Failfast.newStatus (-sec), 0, [⟨false, 400, 0⟩, ⟨true, 399, 0⟩], []⟩ (ten none 10)
    s.items.length ≤ 50 ∧ s.picks = [] ∧ false ∈ s.items.map (·.ep) ∧ (s.status false).available = false ∧
    (winRun s [.select (100 * sec) all 0 0, .select (50 * sec) all 0 0]).picks = [(100 * sec, true), (50 * sec, true)] := by
  decide +kernel

/-- Twelve servers whose weights lead to the sliding window, of which the first has failed ten times: it is not selected in
fifteen selections, long after. -/
example : let ws := [500, 499, 500, 500, 500, 500, 500, 500, 500, 500, 500, 500]
    let s : Win Nat := ⟨fun e => if e = 0 then ⟨false, 10, 9 * sec⟩ else Failfast.newStatus 0, 0,
      ws.mapIdx (fun i w => ⟨i, w, 0⟩), []⟩
    Lb.chooseSelector ws [] = some (.window 12 ws) ∧ s.items.length ≤ 50 ∧ 0 ∈ s.items.map (·.ep) ∧
    (s.status 0).available = false ∧
    let h := (List.range 15).map (fun i : Nat => Event.select (1000 * sec - 20 * i * sec) (fun _ => true) 0 0)
    (winRun s h).picks.length = 15 ∧ (winRun s h).picks.all (·.2 != 0) = true := by
  decide +kernel

/-! ### As long as no server has failed ten times -/

section
omit [DecidableEq E]
variable {S : Type}

private theorem collect_fixed (q : Ask S E) (avail : E → Bool) (s : S) (hq : ∀ e, q s e = (avail e, s)) (eps : List E) (k : Nat) :
    ∀ n i acc, collectFrom q eps k i n acc s = (Lb.collectFrom avail eps k i n acc, s) := by
  intro n
  induction n with
  | zero => intro i acc; rfl
  | succ n ih =>
    intro i acc
    simp only [collectFrom, Lb.collectFrom]
    split
    · cases eps[(k + i) % eps.length]? with
      | none => rfl
      | some e => simp only [hq]; exact ih _ _
    · rfl

private theorem loop_fixed (q : Ask S E) (avail : E → Bool) (s : S) (hq : ∀ e, q s e = (avail e, s)) (start : Nat) :
    ∀ n i items total best bi, windowLoop q start i n items total best bi s =
      (Lb.windowLoop avail start i n items total best bi, s) := by
  intro n
  induction n with
  | zero => intros; rfl
  | succ n ih =>
    intro i items total best bi
    simp only [windowLoop, Lb.windowLoop, hq]
    cases items[(start + i) % items.length]? with
    | none => rfl
    | some it =>
      simp only
      split
      · split <;> exact ih _ _ _ _ _
      · exact ih _ _ _ _ _

private theorem fallback_fixed (q : Ask S E) (avail : E → Bool) (s : S) (hq : ∀ e, q s e = (avail e, s)) (items : List (Lb.Item E))
    (idx : Nat) : ∀ n i, windowFallback q items idx i n s = (Lb.windowFallback avail items idx i n, s) := by
  intro n
  induction n with
  | zero => intros; rfl
  | succ n ih =>
    intro i
    simp only [windowFallback, Lb.windowFallback, hq]
    cases items[(idx + i) % items.length]? with
    | none => rfl
    | some it =>
      simp only
      split
      · rfl
      · exact ih _

private theorem rr_fixed (q : Ask S E) (avail : E → Bool) (s : S) (hq : ∀ e, q s e = (avail e, s)) (eps : List E) (i : UInt32)
    (r1 r2 : Nat) : (roundrobinSelect q eps i r1 r2 s).2.1 = s := by
  have h := rr_trace q eps (fun x => x = s) (fun x e hx _ => by subst hx; rw [hq]) i r1 r2 s rfl
  cases hx : (roundrobinSelect q eps i r1 r2 s).1 with
  | none => exact h.2 hx
  | some p =>
    obtain ⟨s1, h1, -, h2⟩ := h.1 p hx
    rw [h2, h1, hq]

end

private theorem ask_fixed {s : E → Failfast.Status} (hs : ∀ e, (s e).available = true) (now : Int) (up : E → Bool) (e : E) :
    ask now up s e = (up e, s) := by
  have h : Failfast.isAvailable (s e) now now = (true, s e) := by unfold Failfast.isAvailable; rw [if_pos (hs e)]
  simp only [ask, h, Bool.true_and]
  congr 1
  funext x
  split
  · rename_i hx; rw [hx]
  · rfl

/-- **C110.** As long as no server has failed ten times, lists (`SelectArray`) and the sliding window select, among the servers
with a connection, what C26 and C24 say, and leave the states of the filters as they are. -/
theorem breaker_untouched {s : E → Failfast.Status} (hs : ∀ e, (s e).available = true) (now : Int) (up : E → Bool) :
    (∀ eps i r1 r2, selectArray (ask now up) eps i r1 r2 s =
      ((Lb.rrSelectArray up eps i r1 r2).1, s, (Lb.rrSelectArray up eps i r1 r2).2)) ∧
    (∀ size idx items r, windowDoSelect (ask now up) size idx items r s =
      ((Lb.windowDoSelect up size idx items r).1, (Lb.windowDoSelect up size idx items r).2.1,
        (Lb.windowDoSelect up size idx items r).2.2, s)) := by
  have hq := ask_fixed hs now up
  constructor
  · intro eps i r1 r2
    have h1 := rr_pure (ask now up) eps up (fun s1 e h1 h2 x => by rw [breaker_ask_no now up s1 e h2 x]; exact h1 x) i r1 r2 s
      (fun x => by rw [hq])
    have h2 := rr_fixed (ask now up) up s hq eps i r1 r2
    simp only [selectArray, Lb.rrSelectArray]
    generalize roundrobinSelect (ask now up) eps i r1 r2 s = x at h1 h2
    generalize hy : Lb.roundrobinSelect up eps i r1 r2 = y at h1
    obtain ⟨x1, x2, x3⟩ := x
    obtain ⟨y1, y2⟩ := y
    simp only at h1 h2
    obtain ⟨rfl, rfl⟩ := h1
    subst h2
    cases x1 with
    | none => rfl
    | some p =>
      obtain ⟨k, e⟩ := p
      simp only [collect_fixed (ask now up) up x2 hq, Lb.selectArrayFromIndex]
      have hne : ¬ (eps.length = 0 ∨ (k : Int) < 0) := by
        rintro (h0 | h0)
        · simp only [Lb.roundrobinSelect, if_pos h0] at hy; cases hy
        · omega
      rw [if_neg hne]; rfl
  · intro size idx items r
    simp only [windowDoSelect, Lb.windowDoSelect, loop_fixed (ask now up) up s hq]
    generalize Lb.windowLoop up (Lb.getNonNegative (idx + BitVec.ofNat 64 size)) 0 size items 0 0 0 = w
    obtain ⟨its, total, best, bi⟩ := w
    simp only
    split
    · cases its[bi]? with
      | none => rfl
      | some it =>
        simp only [hq, fallback_fixed (ask now up) up s hq]
        split <;> rfl
    · simp only [fallback_fixed (ask now up) up s hq]

/-- At the start no server has failed. -/
example : (∀ e : Bool, (Failfast.newStatus 0).available = true) ∧
    (selectArray (ask 5 (fun e => e)) [false, true] 0 0 0 (fun _ => Failfast.newStatus 0)).1 = [true] := by
  decide +kernel

end Motan.Props
