import Verif.Model.Hourly

/-!
# C97: log files are rotated at each full hour
-/

namespace Motan.Props

open Hourly

/-! ## Specification -/

/-- A full hour of the local time. -/
def Spec.FullHour (zone t : Nat) : Prop := (t + zone) % (3600 * 1000000000) = 0

/-- Nobody sets the clock. -/
def Spec.Steady (ops : List Hourly.Op) : Prop := ∀ w, .set w ∉ ops

/-- The goroutine is asleep and not due. -/
def Spec.Sleeps (s : Hourly.St) : Prop := ∃ target duration till, s.pc = .asleep target duration till ∧ s.mono < till

/-! ## The next full hour -/

theorem next_full (zone t : Nat) : Spec.FullHour zone (nextRotateTime zone t) := by
  unfold Spec.FullHour nextRotateTime hour; omega

theorem next_gt (zone t : Nat) : t < nextRotateTime zone t := by
  unfold nextRotateTime hour; omega

theorem next_least {zone t b : Nat} (hb : Spec.FullHour zone b) (h : t < b) : nextRotateTime zone t ≤ b := by
  unfold nextRotateTime hour; unfold Spec.FullHour at hb; omega

theorem next_le (zone t : Nat) : nextRotateTime zone t ≤ t + 3600 * 1000000000 := by
  unfold nextRotateTime hour; omega

/-! ## Never early -/

/-- What holds however the clock is set. -/
structure HourInv (zone : Nat) (s : Hourly.St) : Prop where
  asleep : ∀ tg d u, s.pc = .asleep tg d u → Spec.FullHour zone tg ∧ 0 < d
  rotating : ∀ tg b, s.pc = .rotating tg b → Spec.FullHour zone tg ∧ tg < b
  rotations : ∀ r ∈ s.rotations, Spec.FullHour zone r.target ∧ r.target < r.began

theorem plan_inv {zone : Nat} {s : Hourly.St} (h : ∀ r ∈ s.rotations, Spec.FullHour zone r.target ∧ r.target < r.began) :
    HourInv zone (plan zone s) := by
  refine ⟨?_, ?_, h⟩
  · intro tg d u e
    simp only [plan, Pc.asleep.injEq] at e
    obtain ⟨rfl, rfl, -⟩ := e
    exact ⟨next_full _ _, by have := next_gt zone s.wall; omega⟩
  · intro tg b e
    simp [plan] at e

theorem hourInv_step {zone : Nat} {s : Hourly.St} (h : HourInv zone s) (op : Hourly.Op) : HourInv zone (Hourly.step zone s op) := by
  cases op with
  | tick n => exact ⟨h.asleep, h.rotating, h.rotations⟩
  | set w => exact ⟨h.asleep, h.rotating, h.rotations⟩
  | go =>
    show HourInv zone (go zone s)
    unfold go
    split
    · exact plan_inv h.rotations
    · rename_i tg d u hpc
      split
      · exact h
      · split
        · rename_i hlt
          refine ⟨?_, ?_, h.rotations⟩
          · intro a b c e; cases e
          · intro a b e
            cases e
            exact ⟨(h.asleep _ _ _ hpc).1, hlt⟩
        · refine ⟨?_, ?_, h.rotations⟩
          · intro a b c e
            cases e
            exact h.asleep _ _ _ hpc
          · intro a b e; cases e
    · rename_i tg b hpc
      refine plan_inv ?_
      intro r hr
      rcases List.mem_append.1 hr with hr | hr
      · exact h.rotations r hr
      · rw [List.mem_singleton.1 hr]
        exact h.rotating _ _ hpc

theorem hourInv_run (zone t : Nat) (ops : List Hourly.Op) : HourInv zone (Hourly.run zone t ops) := by
  suffices ∀ s, HourInv zone s → HourInv zone (ops.foldl (Hourly.step zone) s) from
    this _ ⟨(by intro a b c e; cases e), (by intro a b e; cases e), (by intro r hr; cases hr)⟩
  induction ops with
  | nil => intro s h; exact h
  | cons op ops ih => intro s h; exact ih _ (hourInv_step h op)

/-- **C97, never early.** Whenever and however the clock is set, a rotation is for a full hour, and the clock shows a later time
when it begins. -/
theorem hourly_never_early (zone t : Nat) (ops : List Hourly.Op) :
    ∀ r ∈ (Hourly.run zone t ops).rotations, Spec.FullHour zone r.target ∧ r.target < r.began :=
  (hourInv_run zone t ops).rotations

/-! ## With a steady clock -/

/-- What holds if nobody sets the clock and it is never read at a full hour exactly. -/
structure SteadyInv (zone : Nat) (s : Hourly.St) : Prop where
  start : s.pc = .start → s.rotations = [] ∧ s.reads = []
  /-- the goroutine sleeps until the first full hour after the last reading -/
  asleep : ∀ tg d u, s.pc = .asleep tg d u → u + s.wall = tg + s.mono ∧
    ∃ now, s.reads.getLast? = some now ∧ now ≤ s.wall ∧ tg = nextRotateTime zone now ∧
      (∀ f, s.reads.head? = some f → ∀ b, f < b → b < now → ∃ r ∈ s.rotations, b < r.back ∧ r.back ≤ now) ∧
      ∀ r ∈ s.rotations, r.target < tg
  rotating : ∀ tg b, s.pc = .rotating tg b → b ≤ s.wall ∧ ∀ r ∈ s.rotations, r.target < tg
  grows : (s.rotations.map Rotation.target).Pairwise (· < ·)

theorem steadyInv_step {zone : Nat} {s : Hourly.St} (hh : HourInv zone s) (h : SteadyInv zone s) (op : Hourly.Op) (hset : ∀ w, op ≠ .set w)
    (hreads : ∀ w ∈ (Hourly.step zone s op).reads, ¬ Spec.FullHour zone w) : SteadyInv zone (Hourly.step zone s op) := by
  cases op with
  | set w => exact absurd rfl (hset w)
  | tick n =>
    refine ⟨h.start, ?_, ?_, h.grows⟩
    · intro tg d u e
      obtain ⟨h1, now, h0, h2, h3, h5, h6⟩ := h.asleep tg d u e
      exact ⟨by show u + (s.wall + n) = tg + (s.mono + n); omega, now, h0, by show now ≤ s.wall + n; omega, h3, h5, h6⟩
    · intro tg b e
      obtain ⟨h1, h2⟩ := h.rotating tg b e
      exact ⟨by show b ≤ s.wall + n; omega, h2⟩
  | go =>
    have hr : ∀ w ∈ (go zone s).reads, ¬ Spec.FullHour zone w := hreads
    show SteadyInv zone (go zone s)
    have hnext := next_gt zone s.wall
    cases hpc : s.pc with
    | start =>
      rw [show go zone s = plan zone s by rw [go, hpc]] at hr ⊢
      obtain ⟨hs1, hs2⟩ := h.start hpc
      refine ⟨?_, ?_, ?_, h.grows⟩
      · intro e; simp [plan] at e
      · intro tg d u e
        simp only [plan, Pc.asleep.injEq] at e
        obtain ⟨rfl, rfl, rfl⟩ := e
        refine ⟨by simp only [plan]; omega, s.wall, by simp [plan], Nat.le_refl _, rfl, ?_, ?_⟩
        · intro f hf b h1 h2
          simp only [plan, hs2, List.nil_append, List.head?_cons, Option.some.injEq] at hf
          omega
        · intro r hr
          rw [show (plan zone s).rotations = s.rotations from rfl, hs1] at hr
          cases hr
      · intro tg b e; simp [plan] at e
    | asleep tg d u =>
      obtain ⟨h1, now, h0, h2, h3, h5, h6⟩ := h.asleep tg d u hpc
      unfold go at hr ⊢
      rw [hpc] at hr ⊢
      dsimp only at hr ⊢
      by_cases hm : s.mono < u
      · rw [if_pos hm]; exact h
      · rw [if_neg hm] at hr ⊢
        have hle : tg ≤ s.wall := by omega
        by_cases hlt : tg < s.wall
        · rw [if_pos hlt]
          refine ⟨?_, ?_, ?_, h.grows⟩
          · intro e; cases e
          · intro a b c e; cases e
          · intro a b e
            cases e
            exact ⟨Nat.le_refl _, h6⟩
        · rw [if_neg hlt] at hr
          have : s.wall = tg := by omega
          exact absurd ((hh.asleep _ _ _ hpc).1) (by rw [← this]; exact hr _ (by simp))
    | rotating tg b =>
      obtain ⟨h1, h2⟩ := h.rotating tg b hpc
      obtain ⟨g1, g2⟩ := hh.rotating tg b hpc
      rw [show go zone s = plan zone { s with rotations := s.rotations ++ [⟨tg, b, s.wall⟩] } by rw [go, hpc]]
      refine ⟨?_, ?_, ?_, ?_⟩
      · intro e; simp [plan] at e
      · intro tg' d u e
        simp only [plan, Pc.asleep.injEq] at e
        obtain ⟨rfl, rfl, rfl⟩ := e
        refine ⟨by simp only [plan]; omega, s.wall, by simp [plan], Nat.le_refl _, rfl, ?_, ?_⟩
        · intro f hf b' k1 k2
          exact ⟨⟨tg, b, s.wall⟩, by simp [plan], k2, Nat.le_refl _⟩
        · intro r hr
          rcases List.mem_append.1 hr with hr | hr
          · have := h2 r hr; omega
          · rw [List.mem_singleton.1 hr]
            show tg < _
            omega
      · intro a b e; simp [plan] at e
      · show ((s.rotations ++ [_]).map Rotation.target).Pairwise _
        rw [List.map_append, List.pairwise_append]
        refine ⟨h.grows, by simp, ?_⟩
        intro x hx y hy
        obtain ⟨r, hr, rfl⟩ := List.mem_map.1 hx
        simp only [List.map_cons, List.map_nil, List.mem_singleton] at hy
        subst hy
        exact h2 r hr

theorem reads_grow (zone : Nat) (s : Hourly.St) (op : Hourly.Op) : ∃ l, (Hourly.step zone s op).reads = s.reads ++ l := by
  cases op with
  | tick n => exact ⟨[], by simp [Hourly.step]⟩
  | set w => exact ⟨[], by simp [Hourly.step]⟩
  | go =>
    show ∃ l, (go zone s).reads = s.reads ++ l
    unfold go
    split
    · exact ⟨_, rfl⟩
    · split
      · exact ⟨[], by simp⟩
      · split <;> exact ⟨_, rfl⟩
    · exact ⟨_, rfl⟩

theorem reads_grow' (zone : Nat) (s : Hourly.St) (ops : List Hourly.Op) : ∃ l, (ops.foldl (Hourly.step zone) s).reads = s.reads ++ l := by
  induction ops generalizing s with
  | nil => exact ⟨[], by simp⟩
  | cons op ops ih =>
    obtain ⟨l, h⟩ := ih (Hourly.step zone s op)
    obtain ⟨l', h'⟩ := reads_grow zone s op
    exact ⟨l' ++ l, by rw [List.foldl_cons, h, h', List.append_assoc]⟩

theorem steadyInv_run {zone t : Nat} {ops : List Hourly.Op} (hs : Spec.Steady ops)
    (hr : ∀ w ∈ (Hourly.run zone t ops).reads, ¬ Spec.FullHour zone w) : SteadyInv zone (Hourly.run zone t ops) := by
  suffices ∀ s, HourInv zone s → SteadyInv zone s → (∀ w ∈ (ops.foldl (Hourly.step zone) s).reads, ¬ Spec.FullHour zone w) →
      SteadyInv zone (ops.foldl (Hourly.step zone) s) from
    this _ ⟨(by intro a b c e; cases e), (by intro a b e; cases e), (by intro r hr; cases hr)⟩
      ⟨(fun _ => ⟨rfl, rfl⟩), (by intro a b c e; cases e), (by intro a b e; cases e), List.Pairwise.nil⟩ hr
  clear hr
  induction ops with
  | nil => intro s _ h _; exact h
  | cons op ops ih =>
    intro s hh h hr
    rw [List.foldl_cons] at hr ⊢
    refine ih (fun w hw => hs w (by simp [hw])) _ (hourInv_step hh op) (steadyInv_step hh h op (fun w e => hs w (by simp [e])) ?_) hr
    intro w hw
    obtain ⟨l, hl⟩ := reads_grow' zone (Hourly.step zone s op) ops
    exact hr w (by rw [hl]; simp [hw])

/-- **C97, at once.** If nobody sets the clock and it was never read at a full hour exactly, the goroutine sleeps no longer than
until the first full hour after its last reading, and when it then goes on, it begins a rotation. -/
theorem hourly_prompt {zone t : Nat} {ops : List Hourly.Op} (hs : Spec.Steady ops)
    (hr : ∀ w ∈ (Hourly.run zone t ops).reads, ¬ Spec.FullHour zone w) {tg d u last b : Nat}
    (hp : (Hourly.run zone t ops).pc = .asleep tg d u) (hl : (Hourly.run zone t ops).reads.getLast? = some last)
    (hb : Spec.FullHour zone b) (h1 : last < b) (h2 : b < (Hourly.run zone t ops).wall) :
    ¬ Spec.Sleeps (Hourly.run zone t ops) ∧
    (Hourly.step zone (Hourly.run zone t ops) .go).pc = .rotating tg (Hourly.run zone t ops).wall := by
  obtain ⟨e1, now, e2, e3, e4, -⟩ := (steadyInv_run hs hr).asleep tg d u hp
  rw [hl] at e2
  cases e2
  have := next_least hb h1
  have hdue : ¬ (Hourly.run zone t ops).mono < u := by omega
  constructor
  · rintro ⟨a, b, c, h, hlt⟩
    rw [hp] at h
    cases h
    exact hdue hlt
  · show (go zone _).pc = _
    rw [go, hp]
    dsimp only
    rw [if_neg hdue, if_pos (by omega)]

/-- **C97, each hour.** If nobody sets the clock and it was never read at a full hour exactly, then whenever the goroutine sleeps and is not
due, every full hour since it started was followed by a rotation. -/
theorem hourly_each {zone t : Nat} {ops : List Hourly.Op} (hs : Spec.Steady ops)
    (hr : ∀ w ∈ (Hourly.run zone t ops).reads, ¬ Spec.FullHour zone w) (hq : Spec.Sleeps (Hourly.run zone t ops))
    {first : Nat} (hf : (Hourly.run zone t ops).reads.head? = some first) {b : Nat} (hb : Spec.FullHour zone b) (h1 : first < b)
    (h2 : b < (Hourly.run zone t ops).wall) : ∃ r ∈ (Hourly.run zone t ops).rotations, b < r.back ∧ r.back ≤ (Hourly.run zone t ops).wall := by
  obtain ⟨tg, d, u, hp, hlt⟩ := hq
  obtain ⟨e1, now, e2, e3, e4, e5, -⟩ := (steadyInv_run hs hr).asleep tg d u hp
  have hnow : b < now := by
    have hn : ¬ Spec.FullHour zone now := hr now (List.mem_of_getLast? e2)
    have : ¬ now < b := fun h => by have := next_least hb h; omega
    have : b ≠ now := by rintro rfl; exact hn hb
    omega
  obtain ⟨r, k1, k2, k3⟩ := e5 first hf b h1 hnow
  exact ⟨r, k1, k2, by omega⟩

/-- **C97, once.** If nobody sets the clock and it was never read at a full hour exactly, no two rotations are for the same hour. -/
theorem hourly_once {zone t : Nat} {ops : List Hourly.Op} (hs : Spec.Steady ops)
    (hr : ∀ w ∈ (Hourly.run zone t ops).reads, ¬ Spec.FullHour zone w) :
    ((Hourly.run zone t ops).rotations.map Rotation.target).Pairwise (· < ·) := (steadyInv_run hs hr).grows

/-! ## When the clock is set -/

/-- A second. -/
def exSec : Nat := 1000000000

/-- The clock is set back by one millisecond (as time servers do) while the goroutine sleeps: it wakes up before the full hour by
the clock and then sleeps as long as before, so that an hour later the log was not rotated yet. -/
theorem hourly_clock_set_violated :
    let ops : List Hourly.Op := [.go, .tick (1800 * exSec), .set (1801 * exSec - 1000000), .tick (1799 * exSec), .go, .tick (1800 * exSec)]
    let s := Hourly.run 0 exSec ops
    Spec.Sleeps s ∧ Spec.FullHour 0 (3600 * exSec) ∧ 3600 * exSec + 1799 * exSec < s.wall ∧ s.rotations = [] := by
  refine ⟨⟨3600 * exSec, 3599 * exSec, 7198 * exSec, by decide +kernel, by decide +kernel⟩, by unfold Spec.FullHour; decide +kernel, by decide +kernel, by decide +kernel⟩

/-- So it does if it wakes up at the full hour exactly. -/
theorem hourly_exact_violated :
    let ops : List Hourly.Op := [.go, .tick (3599 * exSec), .go, .tick (3000 * exSec)]
    let s := Hourly.run 0 exSec ops
    Spec.Sleeps s ∧ Spec.FullHour 0 (3600 * exSec) ∧ 3600 * exSec + 2999 * exSec < s.wall ∧ s.rotations = [] := by
  refine ⟨⟨3600 * exSec, 3599 * exSec, 7198 * exSec, by decide +kernel, by decide +kernel⟩, by unfold Spec.FullHour; decide +kernel, by decide +kernel, by decide +kernel⟩

/-! ## The hypotheses are met -/

/-- Two hours. -/
def exHours : List Hourly.Op :=
  [.go, .tick (3600 * exSec), .go, .tick 5, .go, .tick (3600 * exSec), .go, .tick 7, .go, .tick (60 * exSec)]

example : (∀ w ∈ (Hourly.run 0 exSec exHours).reads, ¬ Spec.FullHour 0 w) ∧ Spec.Steady exHours ∧
    (Hourly.run 0 exSec exHours).rotations.map Rotation.target = [3600 * exSec, 7200 * exSec] := by
  refine ⟨?_, ?_, by decide +kernel⟩
  · rw [show (Hourly.run 0 exSec exHours).reads = [1 * exSec, 3601 * exSec, 3601 * exSec + 5, 7201 * exSec + 5, 7201 * exSec + 12] by decide +kernel]
    unfold Spec.FullHour
    decide +kernel
  · intro w hw
    simp [exHours] at hw

example : Spec.Sleeps (Hourly.run 0 exSec exHours) :=
  ⟨10800 * exSec, 3598 * exSec + (1 * exSec - 12), 10799 * exSec, by decide +kernel, by decide +kernel⟩

example : let s := Hourly.run 0 exSec [.go, .tick (3600 * exSec)]
    s.pc = .asleep (3600 * exSec) (3599 * exSec) (3599 * exSec) ∧ s.reads.getLast? = some exSec ∧ 3600 * exSec < s.wall := by
  decide +kernel

end Motan.Props
