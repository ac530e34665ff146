import Verif.Model.Failfast

/-!
# C29: the fail-fast filter
-/

namespace Motan.Props

open Motan.Failfast

/-! ## Calls one after the other -/

/-- What happens at a filter: a call ends, or its availability is asked (with two readings of the clock). -/
inductive Spec.FfEvent
  | ended (failed : Bool) (now : Int)
  | asked (now now' : Int)

/-- A history, newest event first. -/
def Spec.ffRun (t0 : Int) : List Spec.FfEvent → Status
  | [] => newStatus t0
  | .ended f now :: h => filter (Spec.ffRun t0 h) f now
  | .asked a b :: h => (isAvailable (Spec.ffRun t0 h) a b).2

/-- The number of failures since the last success (newest event first). -/
def Spec.failuresSinceSuccess : List Spec.FfEvent → Nat
  | [] => 0
  | .ended true _ :: h => Spec.failuresSinceSuccess h + 1
  | .ended false _ :: _ => 0
  | .asked _ _ :: h => Spec.failuresSinceSuccess h

/-- The time of the last ended call or granted probe, or the start. -/
def Spec.lastTime (t0 : Int) : List Spec.FfEvent → Int
  | [] => t0
  | .ended _ now :: _ => now
  | .asked a b :: h =>
    if 10 ≤ Spec.failuresSinceSuccess h ∧ Spec.lastTime t0 h + 10 * 10 ^ 9 < a then b else Spec.lastTime t0 h

/-- The state after any history. -/
theorem failfast_state (t0 : Int) (h : List Spec.FfEvent) :
    ((Spec.ffRun t0 h).available = true ↔ Spec.failuresSinceSuccess h < 10) ∧
    (Spec.ffRun t0 h).errorCount = UInt32.ofNat (Spec.failuresSinceSuccess h) ∧
    (Spec.ffRun t0 h).time = Spec.lastTime t0 h := by
  induction h with
  | nil => exact ⟨⟨fun _ => by decide, fun _ => rfl⟩, rfl, rfl⟩
  | cons e h ih =>
    obtain ⟨i1, i2, i3⟩ := ih
    cases e with
    | ended f now =>
      cases f with
      | false =>
        refine ⟨?_, rfl, rfl⟩
        simp only [Spec.ffRun, filter, Bool.false_eq_true, if_false, Spec.failuresSinceSuccess]
        cases (Spec.ffRun t0 h).available <;> decide
      | true =>
        refine ⟨?_, ?_, rfl⟩
        · simp only [Spec.ffRun, filter, if_true, Spec.failuresSinceSuccess]
          rw [i2]
          by_cases hn : Spec.failuresSinceSuccess h < 9
          · have h1 : ¬ (UInt32.ofNat (Spec.failuresSinceSuccess h) + 1 ≥ failureCount) := by
              intro hc
              rw [ge_iff_le, UInt32.le_iff_toNat_le, UInt32.toNat_add, UInt32.toNat_ofNat'] at hc
              simp [failureCount] at hc
              omega
            rw [if_neg h1, i1]
            omega
          · split
            · simp; omega
            · rename_i hc
              have : 9 ≠ Spec.failuresSinceSuccess h := by
                intro e; rw [← e] at hc
                exact hc (by decide)
              rw [i1]
              omega
        · simp only [Spec.ffRun, filter, if_true, Spec.failuresSinceSuccess]
          rw [i2]
          apply UInt32.toNat_inj.mp
          rw [UInt32.toNat_add, UInt32.toNat_ofNat', UInt32.toNat_ofNat']
          simp
    | asked a b =>
      simp only [Spec.ffRun, isAvailable, Spec.failuresSinceSuccess, Spec.lastTime]
      by_cases ha : (Spec.ffRun t0 h).available = true
      · rw [if_pos ha]
        rw [i1] at ha
        have : ¬ (10 ≤ Spec.failuresSinceSuccess h ∧ Spec.lastTime t0 h + 10 * 10 ^ 9 < a) := by
          omega
        rw [if_neg this]
        exact ⟨i1, i2, i3⟩
      · rw [if_neg ha, i3]
        have ha' : 10 ≤ Spec.failuresSinceSuccess h := by
          rw [i1] at ha; omega
        by_cases hd : Spec.lastTime t0 h + interval < a
        · rw [if_pos hd, if_pos ⟨ha', hd⟩]
          exact ⟨i1, i2, rfl⟩
        · rw [if_neg hd, if_neg (fun h => hd h.2)]
          exact ⟨i1, i2, i3⟩

/-- **C29.** After any history of calls, one after the other: the filter answers that the endpoint is available exactly if
fewer than ten calls failed since the last success, or more than ten seconds have passed since the last call or probe. -/
theorem failfast_available_iff (t0 : Int) (h : List Spec.FfEvent) (now now' : Int) :
    (isAvailable (Spec.ffRun t0 h) now now').1 = true ↔
      Spec.failuresSinceSuccess h < 10 ∨ Spec.lastTime t0 h + 10 * 10 ^ 9 < now := by
  obtain ⟨i1, _, i3⟩ := failfast_state t0 h
  unfold isAvailable
  by_cases ha : (Spec.ffRun t0 h).available = true
  · rw [if_pos ha]
    rw [i1] at ha
    simp [ha]
  · rw [if_neg ha, i3]
    rw [i1] at ha
    by_cases hd : Spec.lastTime t0 h + interval < now
    · rw [if_pos hd]
      simp only [true_iff]
      exact .inr hd
    · rw [if_neg hd]
      simp only [Bool.false_eq_true, false_iff, not_or]
      exact ⟨ha, hd⟩

/-- **C29.** While the endpoint is unavailable one question per interval is answered yes: right after a yes, every further
question within ten seconds is answered no. -/
theorem failfast_one_probe (t0 : Int) (h : List Spec.FfEvent) (a b c d : Int) (hf : 10 ≤ Spec.failuresSinceSuccess h)
    (hyes : (isAvailable (Spec.ffRun t0 h) a b).1 = true) (hc : c ≤ b + 10 * 10 ^ 9) :
    (isAvailable (Spec.ffRun t0 (.asked a b :: h)) c d).1 = false := by
  have h1 := (failfast_available_iff t0 h a b).mp hyes
  have h2 : Spec.lastTime t0 h + 10 * 10 ^ 9 < a := by omega
  have h3 := failfast_available_iff t0 (.asked a b :: h) c d
  simp only [Spec.failuresSinceSuccess, Spec.lastTime] at h3
  rw [if_pos ⟨hf, h2⟩] at h3
  cases hx : (isAvailable (Spec.ffRun t0 (.asked a b :: h)) c d).1 with
  | false => rfl
  | true => rw [hx] at h3; have := h3.mp rfl; omega

/-- **C29.** From any state whatever, also one left by racing calls: a success that overlaps with no other call leaves the
endpoint available; a failure counted as the tenth or later leaves it unavailable. -/
theorem failfast_heals (s : Status) (now : Int) :
    (filter s false now).available = true ∧ (filter s false now).errorCount = 0 ∧
    (10 ≤ (s.errorCount + 1).toNat → (filter s true now).available = false) := by
  refine ⟨?_, rfl, fun h => ?_⟩
  · unfold filter; cases s.available <;> rfl
  · unfold filter
    simp only [if_true]
    rw [if_pos]
    rw [ge_iff_le, UInt32.le_iff_toNat_le]
    exact h

/-- **C29.** All filters for one address share one status. -/
theorem failfast_shared (m : AMap Bytes Status) (a : Bytes) (t t' : Int) :
    (getEps (getEps m a t).2 a t').1 = (getEps m a t).1 ∧
    ∀ b, b ≠ a → AMap.load (getEps m a t).2 b = AMap.load m b := by
  unfold getEps
  cases h : AMap.load m a with
  | some s => simp only [h]; exact ⟨trivial, fun _ _ => trivial⟩
  | none =>
    simp only [AMap.load_store_self]
    exact ⟨trivial, fun b hb => AMap.load_store_ne _ _ (fun e => hb e.symm)⟩

/-! ## All interleavings -/

variable {T : Type} [DecidableEq T]

/-- Ten failures counted one after the other at some time (newest first). -/
def Spec.TenInARow (results : List Bool) : Prop := ∃ newer older, results = newer ++ List.replicate 10 false ++ older

private def trailing : List Bool → Nat
  | false :: r => trailing r + 1
  | _ => 0

private theorem trailing_split (r : List Bool) : ∃ older, r = List.replicate (trailing r) false ++ older := by
  induction r with
  | nil => exact ⟨[], rfl⟩
  | cons b r ih =>
    cases b with
    | false =>
      obtain ⟨older, h⟩ := ih
      refine ⟨older, ?_⟩
      rw [trailing, List.replicate_succ, List.cons_append, ← h]
    | true => exact ⟨true :: r, rfl⟩

private theorem ten_of_trailing (r : List Bool) (h : 10 ≤ trailing r) : Spec.TenInARow r := by
  obtain ⟨older, ho⟩ := trailing_split r
  refine ⟨List.replicate (trailing r - 10) false, older, ?_⟩
  rw [List.replicate_append_replicate, show trailing r - 10 + 10 = trailing r by omega]
  exact ho

private theorem ten_cons (b : Bool) (r : List Bool) (h : Spec.TenInARow r) : Spec.TenInARow (b :: r) := by
  obtain ⟨n, o, h⟩ := h
  exact ⟨b :: n, o, by rw [h]; simp⟩

private structure CInv (t0 : Int) (s : St T) : Prop where
  count : s.status.errorCount = UInt32.ofNat (trailing s.results)
  setF : ∀ t, s.pc t = .setFalse → Spec.TenInARow s.results
  down : s.status.available = false → Spec.TenInARow s.results
  time : s.status.time = (s.writes.head?.map Write.value).getD t0
  due : ∀ t v c, s.pc t = .due v c → v + interval < c ∧ c ≤ s.clock
  cas : ∀ t v c n, s.pc t = .cas v c n → v + interval < c ∧ c ≤ n ∧ n ≤ s.clock
  spaced : ∀ i c n, s.writes[i]? = some (.probe c n) →
    ((s.writes[i + 1]?.map Write.value).getD t0) + interval < c ∧ c ≤ n

private theorem cinv {t0 : Int} {s : St T} (h : Reach t0 s) : CInv t0 s := by
  induction h with
  | init =>
    refine ⟨rfl, fun t h => by simp [init] at h, fun h => by simp [init, newStatus] at h, rfl,
      fun t v c h => by simp [init] at h, fun t v c n h => by simp [init] at h, fun i c n h => by simp [init] at h⟩
  | @step s s' hr hs ih =>
    obtain ⟨i1, i2, i3, i4, i5, i6, i7⟩ := ih
    have mv : ∀ (t x : T) (p q : PC), move s.pc t p x = q → (x = t ∧ p = q) ∨ s.pc x = q := by
      intro t x p q h
      unfold move at h
      split at h
      · exact .inl ⟨by assumption, h⟩
      · exact .inr h
    -- a step that only moves one goroutine to a place where it remembers nothing
    have simple : ∀ (t : T) (p : PC), p ≠ .setFalse → (∀ v c, p ≠ .due v c) → (∀ v c n, p ≠ .cas v c n) →
        (∀ x, move s.pc t p x = .setFalse → s.pc x = .setFalse) ∧
        (∀ x v c, move s.pc t p x = .due v c → s.pc x = .due v c) ∧
        (∀ x v c n, move s.pc t p x = .cas v c n → s.pc x = .cas v c n) := by
      intro t p h1 h2 h3
      refine ⟨fun x h => ?_, fun x v c h => ?_, fun x v c n h => ?_⟩
      · rcases mv _ _ _ _ h with ⟨_, h⟩ | h
        · exact absurd h h1
        · exact h
      · rcases mv _ _ _ _ h with ⟨_, h⟩ | h
        · exact absurd h (h2 _ _)
        · exact h
      · rcases mv _ _ _ _ h with ⟨_, h⟩ | h
        · exact absurd h (h3 _ _ _)
        · exact h
    cases hs with
    | tick c hc =>
      exact ⟨i1, i2, i3, i4, fun t v c' h => ⟨(i5 t v c' h).1, Int.le_trans (i5 t v c' h).2 hc⟩,
        fun t v c' n h => ⟨(i6 t v c' n h).1, (i6 t v c' n h).2.1, Int.le_trans (i6 t v c' n h).2.2 hc⟩, i7⟩
    | @fail t hpc =>
      refine ⟨?_, fun x h => ?_, fun h => ten_cons _ _ (i3 h), i4, fun x v c h => ?_, fun x v c n h => ?_, i7⟩
      · simp only [trailing]
        rw [i1]
        apply UInt32.toNat_inj.mp
        rw [UInt32.toNat_add, UInt32.toNat_ofNat', UInt32.toNat_ofNat']
        simp
      · rcases mv _ _ _ _ h with ⟨_, h⟩ | h
        · split at h
          · rename_i hge
            rw [i1, ge_iff_le, UInt32.le_iff_toNat_le, UInt32.toNat_add, UInt32.toNat_ofNat'] at hge
            simp [failureCount] at hge
            apply ten_of_trailing
            simp only [trailing]
            omega
          · cases h
        · exact ten_cons _ _ (i2 x h)
      · rcases mv _ _ _ _ h with ⟨_, h⟩ | h
        · split at h <;> cases h
        · exact i5 x v c h
      · rcases mv _ _ _ _ h with ⟨_, h⟩ | h
        · split at h <;> cases h
        · exact i6 x v c n h
    | @setFalse t hpc =>
      obtain ⟨s1, s2, s3⟩ := simple t .stamp (by simp) (by simp) (by simp)
      exact ⟨i1, fun x h => i2 x (s1 x h), fun _ => i2 t hpc, i4, fun x v c h => i5 x v c (s2 x v c h),
        fun x v c n h => i6 x v c n (s3 x v c n h), i7⟩
    | @succeed t hpc =>
      obtain ⟨s1, s2, s3⟩ := simple t .readAvail (by simp) (by simp) (by simp)
      exact ⟨rfl, fun x h => ten_cons _ _ (i2 x (s1 x h)), fun h => ten_cons _ _ (i3 h), i4,
        fun x v c h => i5 x v c (s2 x v c h), fun x v c n h => i6 x v c n (s3 x v c n h), i7⟩
    | @readAvail t hpc =>
      obtain ⟨s1, s2, s3⟩ := simple t (if s.status.available then .stamp else .setTrue)
        (by split <;> simp) (by intros; split <;> simp) (by intros; split <;> simp)
      exact ⟨i1, fun x h => i2 x (s1 x h), i3, i4, fun x v c h => i5 x v c (s2 x v c h),
        fun x v c n h => i6 x v c n (s3 x v c n h), i7⟩
    | @setTrue t hpc =>
      obtain ⟨s1, s2, s3⟩ := simple t .stamp (by simp) (by simp) (by simp)
      exact ⟨i1, fun x h => i2 x (s1 x h), fun h => (by cases h), i4, fun x v c h => i5 x v c (s2 x v c h),
        fun x v c n h => i6 x v c n (s3 x v c n h), i7⟩
    | @stamp t hpc =>
      obtain ⟨s1, s2, s3⟩ := simple t (.stamped s.clock) (by simp) (by simp) (by simp)
      exact ⟨i1, fun x h => i2 x (s1 x h), i3, i4, fun x v c h => i5 x v c (s2 x v c h),
        fun x v c n h => i6 x v c n (s3 x v c n h), i7⟩
    | @store t v hpc =>
      obtain ⟨s1, s2, s3⟩ := simple t .idle (by simp) (by simp) (by simp)
      refine ⟨i1, fun x h => i2 x (s1 x h), i3, rfl, fun x v c h => i5 x v c (s2 x v c h),
        fun x v c n h => i6 x v c n (s3 x v c n h), fun i c n h => ?_⟩
      cases i with
      | zero => simp at h
      | succ i => simpa using i7 i c n (by simpa using h)
    | @check t hpc =>
      obtain ⟨s1, s2, s3⟩ := simple t (if s.status.available then .idle else .load)
        (by split <;> simp) (by intros; split <;> simp) (by intros; split <;> simp)
      exact ⟨i1, fun x h => i2 x (s1 x h), i3, i4, fun x v c h => i5 x v c (s2 x v c h),
        fun x v c n h => i6 x v c n (s3 x v c n h), i7⟩
    | @load t hpc =>
      obtain ⟨s1, s2, s3⟩ := simple t (.loaded s.status.time) (by simp) (by simp) (by simp)
      exact ⟨i1, fun x h => i2 x (s1 x h), i3, i4, fun x v c h => i5 x v c (s2 x v c h),
        fun x v c n h => i6 x v c n (s3 x v c n h), i7⟩
    | @compare t v hpc =>
      refine ⟨i1, fun x h => ?_, i3, i4, fun x v' c h => ?_, fun x v' c n h => ?_, i7⟩
      · rcases mv _ _ _ _ h with ⟨_, h⟩ | h
        · split at h <;> cases h
        · exact i2 x h
      · rcases mv _ _ _ _ h with ⟨_, h⟩ | h
        · split at h
          · cases h; rename_i hd; exact ⟨hd, Int.le_refl _⟩
          · cases h
        · exact i5 x v' c h
      · rcases mv _ _ _ _ h with ⟨_, h⟩ | h
        · split at h <;> cases h
        · exact i6 x v' c n h
    | @now t v c hpc =>
      refine ⟨i1, fun x h => ?_, i3, i4, fun x v' c' h => ?_, fun x v' c' n h => ?_, i7⟩
      · rcases mv _ _ _ _ h with ⟨_, h⟩ | h
        · cases h
        · exact i2 x h
      · rcases mv _ _ _ _ h with ⟨_, h⟩ | h
        · cases h
        · exact i5 x v' c' h
      · rcases mv _ _ _ _ h with ⟨_, h⟩ | h
        · cases h
          exact ⟨(i5 t v c hpc).1, (i5 t v c hpc).2, Int.le_refl _⟩
        · exact i6 x v' c' n h
    | @swapped t v c n hpc hv =>
      obtain ⟨s1, s2, s3⟩ := simple t .idle (by simp) (by simp) (by simp)
      refine ⟨i1, fun x h => i2 x (s1 x h), i3, rfl, fun x v c h => i5 x v c (s2 x v c h),
        fun x v c n h => i6 x v c n (s3 x v c n h), fun i c' n' h => ?_⟩
      cases i with
      | zero =>
        simp at h
        obtain ⟨rfl, rfl⟩ := h
        have h6 := i6 t v c n hpc
        rw [← hv, i4] at h6
        rw [show (0 + 1 : Nat) = 0 + 1 from rfl]
        refine ⟨?_, h6.2.1⟩
        have he : (Write.probe c n :: s.writes)[0 + 1]? = s.writes.head? := by
          rw [List.getElem?_cons_succ, List.head?_eq_getElem?]
        simp only [he]
        exact h6.1
      | succ i => simpa using i7 i c' n' (by simpa using h)
    | @lost t v c n hpc hv =>
      obtain ⟨s1, s2, s3⟩ := simple t .idle (by simp) (by simp) (by simp)
      exact ⟨i1, fun x h => i2 x (s1 x h), i3, i4, fun x v c h => i5 x v c (s2 x v c h),
        fun x v c n h => i6 x v c n (s3 x v c n h), i7⟩

/-- **C29.** Under every interleaving an endpoint is unavailable only if ten failures were counted in a row, with no
success between them. -/
theorem failfast_unavailable_only_after_ten {t0 : Int} {s : St T} (h : Reach t0 s) (hd : s.status.available = false) :
    Spec.TenInARow s.results := (cinv h).down hd

/-- **C29.** Under every interleaving a probe is let through only when the time recorded by the previous call result or
probe is more than ten seconds past; in particular two probes with no call result recorded between them are more than ten
seconds apart. -/
theorem failfast_probes_spaced {t0 : Int} {s : St T} (h : Reach t0 s) (i : Nat) (c n : Int)
    (hp : s.writes[i]? = some (.probe c n)) :
    ((s.writes[i + 1]?.map Write.value).getD t0) + 10 * 10 ^ 9 < c ∧ c ≤ n := (cinv h).spaced i c n hp

private theorem reach_fail {t0 : Int} {s : St T} (h : Reach t0 s) (t : T) (hi : s.pc t = .idle) :
    Reach t0 { s with
        status := { s.status with errorCount := s.status.errorCount + 1 }
        results := false :: s.results
        pc := move s.pc t (if s.status.errorCount + 1 ≥ failureCount then .setFalse else .stamp) } :=
  .step h (.fail hi)

private theorem nine_fails : ∀ n : Nat, n ≤ 9 → ∃ s : St Nat, Reach 0 s ∧ s.status.errorCount = UInt32.ofNat n ∧
    s.status.available = true ∧ (∀ t, s.pc t = .idle) ∧ s.results = List.replicate n false := by
  intro n
  induction n with
  | zero => intro _; exact ⟨_, .init, rfl, rfl, fun _ => rfl, rfl⟩
  | succ n ih =>
    intro hn
    obtain ⟨s, h1, h2, h3, h4, h5⟩ := ih (by omega)
    have r1 := reach_fail h1 0 (h4 0)
    have hlt : ¬ (s.status.errorCount + 1 ≥ failureCount) := by
      rw [h2]
      intro hc
      rw [ge_iff_le, UInt32.le_iff_toNat_le, UInt32.toNat_add, UInt32.toNat_ofNat'] at hc
      simp [failureCount] at hc
      omega
    rw [if_neg hlt] at r1
    have r2 := Reach.step r1 (.stamp (t := 0) (by simp [move]))
    have r3 := Reach.step r2 (.store (t := 0) (v := s.clock) (by simp [move]))
    refine ⟨_, r3, ?_, h3, ?_, ?_⟩
    · simp only [h2]
      apply UInt32.toNat_inj.mp
      rw [UInt32.toNat_add, UInt32.toNat_ofNat', UInt32.toNat_ofNat']
      simp
    · intro t
      simp only [move]
      split
      · rfl
      · rename_i ht; simp [h4 t]
    · simp [h5, List.replicate_succ]

/-- What does not hold under all interleavings: "every success restores it". The tenth failure is counted, then a success
is counted, sees the endpoint still available and ends; then the failing call marks it unavailable. All calls have ended,
the last counted result is a success, and the endpoint is unavailable. -/
theorem failfast_success_lost_counterexample :
    ∃ s : St Nat, Reach 0 s ∧ (∀ t, s.pc t = .idle) ∧ s.results.head? = some true ∧ s.status.available = false := by
  obtain ⟨s, h1, h2, h3, h4, h5⟩ := nine_fails 9 (by omega)
  have r1 := reach_fail h1 0 (h4 0)
  rw [if_pos (by rw [h2]; decide)] at r1
  have r2 := Reach.step r1 (.succeed (t := 1) (by simp [move, h4]))
  have r3 := Reach.step r2 (.readAvail (t := 1) (by simp [move]))
  simp only [h3, if_true] at r3
  have r4 := Reach.step r3 (.stamp (t := 1) (by simp [move]))
  have r5 := Reach.step r4 (.store (t := 1) (v := s.clock) (by simp [move]))
  have r6 := Reach.step r5 (.setFalse (t := 0) (by simp [move]))
  have r7 := Reach.step r6 (.stamp (t := 0) (by simp [move]))
  have r8 := Reach.step r7 (.store (t := 0) (v := s.clock) (by simp [move]))
  refine ⟨_, r8, ?_, rfl, rfl⟩
  intro t
  simp only [move]
  split
  · rfl
  · split
    · rfl
    · simp [h4 t]

/-! ## Non-vacuity -/

/-- Ten failures, then nothing for more than ten seconds: one probe. -/
example : (isAvailable (Spec.ffRun 0 (List.replicate 10 (.ended true 5))) 6 6).1 = false ∧
    (isAvailable (Spec.ffRun 0 (List.replicate 10 (.ended true 5))) (10 ^ 10 + 6) (10 ^ 10 + 6)).1 = true ∧
    (isAvailable (Spec.ffRun 0 (.asked (10 ^ 10 + 6) (10 ^ 10 + 6) :: List.replicate 10 (.ended true 5))) (10 ^ 10 + 7) 0).1 = false := by
  decide +kernel

/-- A probe is reachable under concurrency. -/
example : ∃ s : St Nat, Reach 0 s ∧ ∃ c n, s.writes.head? = some (.probe c n) := by
  obtain ⟨s, h1, h2, h3, h4, h5⟩ := nine_fails 9 (by omega)
  have r1 := reach_fail h1 0 (h4 0)
  rw [if_pos (by rw [h2]; decide)] at r1
  have r2 := Reach.step r1 (.setFalse (t := 0) (by simp [move]))
  have hc : s.clock ≤ s.status.time + interval + s.clock.natAbs + s.status.time.natAbs + 1 := by unfold interval; omega
  have r3 := Reach.step r2 (.tick _ hc)
  have r4 := Reach.step r3 (.check (t := 1) (by simp [move, h4]))
  simp only [Bool.false_eq_true, if_false] at r4
  have r5 := Reach.step r4 (.load (t := 1) (by simp [move]))
  have r6 := Reach.step r5 (.compare (t := 1) (v := s.status.time) (by simp [move]))
  simp only at r6
  rw [if_pos (by unfold interval; omega)] at r6
  have r7 := Reach.step r6 (.now (t := 1) (v := s.status.time) (c := s.status.time + interval + s.clock.natAbs + s.status.time.natAbs + 1) (by simp [move]))
  have r8 := Reach.step r7 (.swapped (t := 1) (v := s.status.time) (by simp [move]; exact ⟨rfl, rfl⟩) rfl)
  exact ⟨_, r8, _, _, rfl⟩

end Motan.Props
