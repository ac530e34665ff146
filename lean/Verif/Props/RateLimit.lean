import Verif.Model.RateLimit

/-!
# The rate-limit filter keeps to the configured rates (C71)
-/

namespace Motan.Props

open Motan Motan.Strings Motan.Url
open Motan.RateLimit (Bucket Filter Req Phase St Op step play)

/-! ### One bucket -/

/-- What the times `log` (newest first) at which a bucket promised tokens have to do with its state. -/
structure BucketInv (b : Bucket) (log : List Int) (now : Int) : Prop where
  q : 0 < b.quantum
  f : 0 < b.fill
  cap : 1 ≤ b.capacity
  hi : b.avail ≤ b.capacity
  began : b.start ≤ now
  lat : b.latest ≤ b.tick now
  pot : ∀ l1 d l2, log = l1 ++ d :: l2 →
    (l1.length : Int) + 1 + b.avail ≤ max b.capacity b.quantum + (b.quantum * b.latest - b.quantum * b.tick d)
  win : ∀ l0 h l1 d l2, log = l0 ++ h :: (l1 ++ d :: l2) →
    (l1.length : Int) + 2 ≤ max b.capacity b.quantum + (b.quantum * b.tick h - b.quantum * b.tick d)
  all : (log.length : Int) + b.avail ≤ b.capacity + b.quantum * b.latest
  tot : ∀ l0 h l1, log = l0 ++ h :: l1 → (l1.length : Int) + 1 ≤ b.capacity + b.quantum * b.tick h
  full : ∃ t l1 l2, b.start ≤ t ∧ t ≤ now ∧ log = l1 ++ l2 ∧ (∀ d ∈ l1, t ≤ d) ∧
    b.capacity + (b.quantum * b.latest - b.quantum * b.tick t) ≤ b.avail + (l1.length : Int)

/-- The parameters of a bucket never change. -/
def SameBucket (b b' : Bucket) : Prop :=
  b'.start = b.start ∧ b'.capacity = b.capacity ∧ b'.quantum = b.quantum ∧ b'.fill = b.fill

theorem tick_mono {b : Bucket} (hf : 0 < b.fill) {x y : Int} (h : x ≤ y) : b.tick x ≤ b.tick y :=
  Int.ediv_le_ediv hf (by omega)

theorem tick_congr {b b' : Bucket} (h : SameBucket b b') (x : Int) : b'.tick x = b.tick x := by
  simp only [Bucket.tick, h.1, h.2.2.2]

theorem BucketInv.new (pace : Rat → Int × Int) (now : Int) (rate : Rat) (c : Int) (hq : 0 < (pace rate).1)
    (hf : 0 < (pace rate).2) (hc : 1 ≤ c) : BucketInv (RateLimit.newBucket pace now rate c) [] now := by
  have ht : (RateLimit.newBucket pace now rate c).tick now = 0 := by simp [Bucket.tick, RateLimit.newBucket]
  refine ⟨hq, hf, hc, Int.le_refl _, Int.le_refl _, by rw [ht]; exact Int.le_refl _, ?_, ?_, ?_, ?_, ?_⟩
  · intro l1 d l2 h; simp at h
  · intro l0 h l1 d l2 h'; simp at h'
  · simp [RateLimit.newBucket]
  · intro l0 h l1 h'; simp at h'
  · exact ⟨now, [], [], Int.le_refl _, Int.le_refl _, rfl, by simp, by rw [ht]; simp [RateLimit.newBucket]⟩

theorem BucketInv.time {b : Bucket} {log : List Int} {now t : Int} (h : BucketInv b log now) (ht : now ≤ t) :
    BucketInv b log t := by
  obtain ⟨x, l1, l2, h1, h2, h3, h4, h5⟩ := h.full
  exact ⟨h.q, h.f, h.cap, h.hi, Int.le_trans h.began ht, Int.le_trans h.lat (tick_mono h.f ht), h.pot, h.win, h.all, h.tot,
    x, l1, l2, h1, Int.le_trans h2 ht, h3, h4, h5⟩

theorem adjust_same (b : Bucket) (k : Int) : SameBucket b (b.adjust k) := by
  simp only [Bucket.adjust]; split <;> exact ⟨rfl, rfl, rfl, rfl⟩

theorem adjust_latest (b : Bucket) (k : Int) : (b.adjust k).latest = k := by
  simp only [Bucket.adjust]; split <;> rfl

/-- The tokens after an adjustment: capped, or all that have arrived. -/
theorem adjust_avail {b : Bucket} {k : Int} (hi : b.avail ≤ b.capacity) (hq : 0 < b.quantum) (hk : b.latest ≤ k) :
    (b.adjust k).avail = b.capacity ∧ b.capacity ≤ b.avail + (b.quantum * k - b.quantum * b.latest) ∨
    (b.adjust k).avail = b.avail + (b.quantum * k - b.quantum * b.latest) ∧ (b.adjust k).avail ≤ b.capacity := by
  have hm : b.quantum * b.latest ≤ b.quantum * k := Int.mul_le_mul_of_nonneg_left hk (by omega)
  have e : (k - b.latest) * b.quantum = b.quantum * k - b.quantum * b.latest := by
    rw [Int.sub_mul, Int.mul_comm k, Int.mul_comm b.latest]
  simp only [Bucket.adjust, e]
  split
  · left; dsimp only; omega
  · dsimp only; split <;> omega

theorem BucketInv.adjust {b : Bucket} {log : List Int} {now : Int} (h : BucketInv b log now) :
    BucketInv (b.adjust (b.tick now)) log now := by
  have hs := adjust_same b (b.tick now)
  have hl := adjust_latest b (b.tick now)
  have ha := adjust_avail h.hi h.q h.lat
  have hm : b.quantum * b.latest ≤ b.quantum * b.tick now := Int.mul_le_mul_of_nonneg_left h.lat (Int.le_of_lt h.q)
  obtain ⟨s1, s2, s3, s4⟩ := hs
  have hk := tick_congr (b := b) ⟨s1, s2, s3, s4⟩
  refine ⟨by rw [s3]; exact h.q, by rw [s4]; exact h.f, by rw [s2]; exact h.cap, by rw [s2]; omega, by rw [s1]; exact h.began,
    by rw [hl, hk]; exact Int.le_refl _, ?_, ?_, ?_, ?_, ?_⟩
  · intro l1 d l2 e
    have := h.pot l1 d l2 e
    rw [s2, s3, hl, hk]; omega
  · intro l0 x l1 d l2 e
    have := h.win l0 x l1 d l2 e
    rw [s2, s3, hk, hk]; exact this
  · have := h.all
    rw [s2, s3, hl]; omega
  · intro l0 x l1 e
    have := h.tot l0 x l1 e
    rw [s2, s3, hk]; exact this
  · obtain ⟨t, l1, l2, h1, h2, h3, h4, h5⟩ := h.full
    rcases ha with ⟨e, _⟩ | ⟨e, _⟩
    · exact ⟨now, [], log, by rw [s1]; exact h.began, Int.le_refl _, rfl, by simp, by rw [s2, s3, hl, hk, e]; simp⟩
    · exact ⟨t, l1, l2, by rw [s1]; exact h1, h2, h3, h4, by rw [s2, s3, hl, hk, e]; omega⟩

/-- The tick at which a token is promised. -/
theorem due_tick {b : Bucket} (hf : 0 < b.fill) (e : Int) : b.tick (b.start + e * b.fill) = e := by
  unfold Bucket.tick
  rw [show b.start + e * b.fill - b.start = e * b.fill by omega]
  exact Int.mul_ediv_cancel _ (by omega)

/-- Taking a token after the adjustment: what is known of the promised time. -/
theorem take_spec {b : Bucket} {log : List Int} {now maxWait : Int} (h : BucketInv b log now) :
    (∃ w, 0 ≤ w ∧ (0 < w → w ≤ maxWait) ∧ (b.take now maxWait).1 = some w ∧
      (b.take now maxWait).2 = { b.adjust (b.tick now) with avail := (b.adjust (b.tick now)).avail - 1 } ∧
      (1 ≤ (b.adjust (b.tick now)).avail → w = 0) ∧
      b.tick now ≤ b.tick (now + w) ∧
      (b.adjust (b.tick now)).avail + (b.quantum * b.tick (now + w) - b.quantum * b.tick now) ≤ max b.capacity b.quantum ∧
      1 - (b.adjust (b.tick now)).avail ≤ b.quantum * b.tick (now + w) - b.quantum * b.tick now) ∨
    ((b.take now maxWait).1 = none ∧ (b.take now maxWait).2 = b.adjust (b.tick now) ∧
      (b.adjust (b.tick now)).avail < 1 ∧
      (b.quantum * b.tick (now + maxWait) - b.quantum * b.tick now) < 1 - (b.adjust (b.tick now)).avail) := by
  have ha := h.adjust
  obtain ⟨s1, s2, s3, s4⟩ := adjust_same b (b.tick now)
  generalize hb : b.adjust (b.tick now) = b' at *
  by_cases hav : b'.avail - 1 ≥ 0
  · refine .inl ⟨0, Int.le_refl _, fun x => absurd x (by omega), ?_, ?_, fun _ => rfl, by simp, ?_, ?_⟩
    · simp only [Bucket.take, hb, hav, if_true]
    · simp only [Bucket.take, hb, hav, if_true]
    · have := ha.hi; rw [s2] at this; rw [Int.add_zero]; omega
    · rw [Int.add_zero]; omega
  · have hq := h.q
    generalize hc : (-(b'.avail - 1) + b'.quantum - 1) / b'.quantum = c
    have c1 : b.quantum * c ≤ -(b'.avail - 1) + b.quantum - 1 := by
      rw [← hc, s3]; exact Int.mul_ediv_self_le (by omega)
    have c2 : -(b'.avail - 1) + b.quantum - 1 < b.quantum * c + b.quantum := by
      rw [← hc, s3]; exact Int.lt_mul_ediv_self_add hq
    have due : b.tick (b.start + (b.tick now + c) * b.fill) = b.tick now + c := due_tick h.f _
    have ew : now + (b.start + (b.tick now + c) * b.fill - now) = b.start + (b.tick now + c) * b.fill := by omega
    have em : b.quantum * (b.tick now + c) = b.quantum * b.tick now + b.quantum * c := Int.mul_add _ _ _
    have cpos : 1 ≤ c := by
      apply Decidable.byContradiction; intro hn
      have : b.quantum * c ≤ 0 := by
        have := Int.mul_le_mul_of_nonneg_left (show c ≤ 0 by omega) (Int.le_of_lt hq)
        simpa using this
      omega
    have wpos : 0 < b.start + (b.tick now + c) * b.fill - now := by
      have h1 : now - b.start < b.fill * b.tick now + b.fill := Int.lt_mul_ediv_self_add h.f
      have h2 : b.fill * (b.tick now + 1) ≤ b.fill * (b.tick now + c) :=
        Int.mul_le_mul_of_nonneg_left (by omega) (Int.le_of_lt h.f)
      rw [Int.mul_add, Int.mul_one] at h2
      rw [Int.mul_comm (b.tick now + c)]
      omega
    by_cases hw : b.start + (b.tick now + c) * b.fill - now > maxWait
    · refine .inr ⟨?_, ?_, by omega, ?_⟩
      · simp only [Bucket.take, hb, hav, if_false, hc]
        rw [s1, s4, if_pos hw]
      · simp only [Bucket.take, hb, hav, if_false, hc]
        rw [s1, s4, if_pos hw]
      · have : b.tick (now + maxWait) < b.tick now + c := by
          unfold Bucket.tick
          rw [Int.ediv_lt_iff_lt_mul h.f]
          show _ < (b.tick now + c) * b.fill
          omega
        have := Int.mul_le_mul_of_nonneg_left (show b.tick (now + maxWait) ≤ b.tick now + c - 1 by omega) (Int.le_of_lt hq)
        rw [Int.mul_sub, Int.mul_one, em] at this
        omega
    · refine .inl ⟨_, Int.le_of_lt wpos, fun _ => by omega, ?_, ?_, ?_, ?_, ?_, ?_⟩
      · simp only [Bucket.take, hb, hav, if_false, hc]
        rw [s1, s4, if_neg hw]
      · simp only [Bucket.take, hb, hav, if_false, hc]
        rw [s1, s4, if_neg hw]
      · omega
      · rw [ew, due]; omega
      · rw [ew, due, em]; omega
      · rw [ew, due, em]; omega

/-- A token promised. -/
theorem BucketInv.accept {b : Bucket} {log : List Int} {now maxWait w : Int} (h : BucketInv b log now)
    (hw : (b.take now maxWait).1 = some w) :
    BucketInv (b.take now maxWait).2 ((now + w) :: log) now ∧ SameBucket b (b.take now maxWait).2 ∧ 0 ≤ w ∧
      (0 < w → w ≤ maxWait) := by
  have ha := h.adjust
  have hs := adjust_same b (b.tick now)
  have hl := adjust_latest b (b.tick now)
  have hk : ∀ x, (b.adjust (b.tick now)).tick x = b.tick x := tick_congr hs
  rcases take_spec (maxWait := maxWait) h with ⟨w', w0, w1, e1, e2, e0, e3, e4, e5⟩ | ⟨e1, _⟩
  · rw [e1] at hw; cases hw
    rw [e2]
    generalize hb : b.adjust (b.tick now) = b' at *
    obtain ⟨s1, s2, s3, s4⟩ := hs
    refine ⟨?_, ⟨s1, s2, s3, s4⟩, w0, w1⟩
    have hk' : ∀ x, ({ b' with avail := b'.avail - 1 } : Bucket).tick x = b.tick x := hk
    have hi := ha.hi
    refine ⟨ha.q, ha.f, ha.cap, by dsimp only; omega, ha.began, ha.lat, ?_, ?_, ?_, ?_, ?_⟩
    · intro l1 d l2 e
      cases l1 with
      | nil =>
        simp only [List.nil_append, List.cons.injEq] at e
        rw [← e.1, hk']
        dsimp only
        rw [s2, s3, hl]
        simp only [List.length_nil, Int.natCast_zero]
        omega
      | cons x l1 =>
        simp only [List.cons_append, List.cons.injEq] at e
        have := ha.pot l1 d l2 e.2
        rw [hk] at this
        rw [hk']
        simp only [List.length_cons, Int.natCast_add, Int.natCast_one]
        omega
    · intro l0 x l1 d l2 e
      cases l0 with
      | nil =>
        simp only [List.nil_append, List.cons.injEq] at e
        have := ha.pot l1 d l2 e.2
        rw [hk, hl] at this
        rw [← e.1, hk', hk']
        dsimp only
        rw [s2, s3] at this ⊢
        omega
      | cons y l0 =>
        simp only [List.cons_append, List.cons.injEq] at e
        have := ha.win l0 x l1 d l2 e.2
        rw [hk, hk] at this
        rw [hk', hk']
        exact this
    · have := ha.all
      simp only [List.length_cons, Int.natCast_add, Int.natCast_one]
      omega
    · intro l0 x l1 e
      cases l0 with
      | nil =>
        simp only [List.nil_append, List.cons.injEq] at e
        have := ha.all
        rw [hl] at this
        rw [← e.1, ← e.2, hk']
        dsimp only
        rw [s2, s3] at this ⊢
        omega
      | cons y l0 =>
        simp only [List.cons_append, List.cons.injEq] at e
        have := ha.tot l0 x l1 e.2
        rw [hk] at this
        rw [hk']
        exact this
    · obtain ⟨t, l1, l2, h1, h2, h3, h4, h5⟩ := ha.full
      refine ⟨t, (now + w) :: l1, l2, h1, h2, by rw [h3]; rfl, ?_, ?_⟩
      · intro d hd
        rcases List.mem_cons.mp hd with rfl | hd
        · omega
        · exact h4 d hd
      · rw [hk] at h5
        rw [hk']
        simp only [List.length_cons, Int.natCast_add, Int.natCast_one]
        omega
  · rw [e1] at hw; cases hw

/-- A token refused: since some time the bucket has promised all that comes in until the end of the wait. -/
theorem BucketInv.refuse {b : Bucket} {log : List Int} {now maxWait : Int} (h : BucketInv b log now)
    (hw : (b.take now maxWait).1 = none) :
    BucketInv (b.take now maxWait).2 log now ∧ SameBucket b (b.take now maxWait).2 ∧
      ∃ t l1 l2, b.start ≤ t ∧ t ≤ now ∧ log = l1 ++ l2 ∧ (∀ d ∈ l1, t ≤ d) ∧
        b.capacity + b.quantum * (b.tick (now + maxWait) - b.tick t) ≤ l1.length := by
  have ha := h.adjust
  have hs := adjust_same b (b.tick now)
  have hl := adjust_latest b (b.tick now)
  have hk : ∀ x, (b.adjust (b.tick now)).tick x = b.tick x := tick_congr hs
  rcases take_spec (maxWait := maxWait) h with ⟨w', w0, w1, e1, _⟩ | ⟨e1, e2, e3, e4⟩
  · rw [e1] at hw; cases hw
  · rw [e2]
    refine ⟨ha, hs, ?_⟩
    obtain ⟨t, l1, l2, h1, h2, h3, h4, h5⟩ := ha.full
    obtain ⟨s1, s2, s3, s4⟩ := hs
    refine ⟨t, l1, l2, by rw [← s1]; exact h1, h2, h3, h4, ?_⟩
    rw [s2, s3, hl, hk] at h5
    rw [Int.mul_sub]
    omega

/-! ### Counting promises -/

theorem exists_last {p : Int → Bool} {l : List Int} (h : l.filter p ≠ []) :
    ∃ l1 d l2, l = l1 ++ d :: l2 ∧ p d = true ∧ (l.filter p).length ≤ l1.length + 1 := by
  induction l with
  | nil => simp at h
  | cons x l ih =>
    by_cases hl : l.filter p = []
    · by_cases hx : p x = true
      · exact ⟨[], x, l, rfl, hx, by simp [List.filter_cons, hx, hl]⟩
      · simp [hx, hl] at h
    · obtain ⟨l1, d, l2, e, hd, hlen⟩ := ih hl
      refine ⟨x :: l1, d, l2, by rw [e]; rfl, hd, ?_⟩
      rw [List.filter_cons]
      split <;> simp only [List.length_cons] <;> omega

theorem limit_exists_first {p : Int → Bool} {l : List Int} (h : l.filter p ≠ []) :
    ∃ l0 d l1, l = l0 ++ d :: l1 ∧ p d = true ∧ (l.filter p).length = (l1.filter p).length + 1 := by
  induction l with
  | nil => simp at h
  | cons x l ih =>
    by_cases hx : p x = true
    · exact ⟨[], x, l, rfl, hx, by simp [hx]⟩
    · have hx' : (x :: l).filter p = l.filter p := by simp [hx]
      rw [hx'] at h
      obtain ⟨l0, d, l1, e, hd, hlen⟩ := ih h
      exact ⟨x :: l0, d, l1, by rw [e]; rfl, hd, by rw [hx']; exact hlen⟩

/-- In a period, no more tokens are promised than a full bucket and what comes in. -/
theorem BucketInv.window {b : Bucket} {log : List Int} {now : Int} (h : BucketInv b log now) (t w : Int) (hw : 0 ≤ w) :
    ((log.filter fun d => decide (t ≤ d ∧ d ≤ t + w)).length : Int) ≤
      max b.capacity b.quantum + b.quantum * (w / b.fill + 1) := by
  have hcap := h.cap
  have hw0 : 0 ≤ w / b.fill := Int.ediv_nonneg hw (Int.le_of_lt h.f)
  have hpos : 0 ≤ b.quantum * (w / b.fill + 1) := Int.mul_nonneg (Int.le_of_lt h.q) (by omega)
  by_cases he : log.filter (fun d => decide (t ≤ d ∧ d ≤ t + w)) = []
  · rw [he]; simp only [List.length_nil, Int.natCast_zero]; omega
  · obtain ⟨l0, x, l1, e, hx, hlen⟩ := limit_exists_first he
    rw [hlen]
    by_cases he1 : l1.filter (fun d => decide (t ≤ d ∧ d ≤ t + w)) = []
    · rw [he1]; simp only [List.length_nil, Int.natCast_add, Int.natCast_zero, Int.natCast_one]; omega
    · obtain ⟨l2, d, l3, e', hd, hlen'⟩ := exists_last he1
      have := h.win l0 x l2 d l3 (by rw [e, e'])
      have hx' := of_decide_eq_true hx
      have hd' := of_decide_eq_true hd
      have htk : b.tick x - b.tick d ≤ w / b.fill + 1 := by
        have h1 : b.tick x ≤ b.tick (d + w) := tick_mono h.f (by omega)
        have h2 : b.tick (d + w) ≤ b.tick d + (w / b.fill + 1) := by
          have a1 : d - b.start < b.fill * b.tick d + b.fill := Int.lt_mul_ediv_self_add h.f
          have a2 : w < b.fill * (w / b.fill) + b.fill := Int.lt_mul_ediv_self_add h.f
          apply Int.le_of_lt_add_one
          show (d + w - b.start) / b.fill < _
          rw [Int.ediv_lt_iff_lt_mul h.f, Int.mul_comm]
          have : b.fill * (b.tick d + (w / b.fill + 1) + 1) = b.fill * b.tick d + b.fill * (w / b.fill) + b.fill + b.fill := by
            rw [Int.mul_add, Int.mul_add, Int.mul_add, Int.mul_one]; omega
          omega
        omega
      have hm := Int.mul_le_mul_of_nonneg_left htk (Int.le_of_lt h.q)
      rw [Int.mul_sub] at hm
      omega

/-- Up to a time, no more tokens are promised than the first full bucket and what has come in. -/
theorem BucketInv.total {b : Bucket} {log : List Int} {now : Int} (h : BucketInv b log now) (t : Int) (ht : b.start ≤ t) :
    ((log.filter fun d => decide (d ≤ t)).length : Int) ≤ b.capacity + b.quantum * ((t - b.start) / b.fill) := by
  have hcap := h.cap
  have h0 : 0 ≤ b.quantum * ((t - b.start) / b.fill) :=
    Int.mul_nonneg (Int.le_of_lt h.q) (Int.ediv_nonneg (by omega) (Int.le_of_lt h.f))
  by_cases he : log.filter (fun d => decide (d ≤ t)) = []
  · rw [he]; simp only [List.length_nil, Int.natCast_zero]; omega
  · obtain ⟨l0, x, l1, e, hx, hlen⟩ := limit_exists_first he
    have := h.tot l0 x l1 e
    have hl := List.length_filter_le (fun d => decide (d ≤ t)) l1
    have hm := Int.mul_le_mul_of_nonneg_left (tick_mono (b := b) h.f (of_decide_eq_true hx)) (Int.le_of_lt h.q)
    unfold Bucket.tick at hm this
    omega

/-! ### The filter -/

namespace Spec

/-- When the service's token of a call was due. -/
def serviceDue : Phase → Option Int
  | .sleepService _ d => some d
  | .sleepMethod _ sd _ => sd
  | .passed _ sd _ _ => sd
  | .refused _ sd _ => sd

/-- When the method's token of a call was due. -/
def methodDue : Phase → Option Int
  | .sleepMethod _ _ d => some d
  | .passed _ _ md _ => md
  | _ => none

/-- The calls passed on by time `t`, of the methods given by `which`. -/
def passedBy (s : St) (which : Bytes → Bool) (t : Int) : Nat :=
  (s.calls.filter fun c => match c.2 with
    | (r, .passed _ _ _ time) => which r.method && decide (time ≤ t)
    | _ => false).length

/-- The calls whose service token was due in the period from `t` to `t'`. -/
def serviceTokens (s : St) (t t' : Int) : Nat :=
  (s.calls.filter fun c => match serviceDue c.2.2 with
    | some d => decide (t ≤ d ∧ d ≤ t')
    | none => false).length

/-- The calls of a method whose token was due in the period from `t` to `t'`. -/
def methodTokens (s : St) (m : Bytes) (t t' : Int) : Nat :=
  (s.calls.filter fun c => match methodDue c.2.2 with
    | some d => decide (c.2.1.method = m) && decide (t ≤ d ∧ d ≤ t')
    | none => false).length

end Spec

open Spec (serviceDue methodDue)

/-- The due times of the service's tokens. -/
def sLog (calls : AMap Nat (Req × Phase)) : List Int := calls.filterMap fun c => serviceDue c.2.2

/-- The due times of a method's tokens. -/
def mLog (m : Bytes) (calls : AMap Nat (Req × Phase)) : List Int :=
  calls.filterMap fun c => if c.2.1.method = m then methodDue c.2.2 else none

theorem store_new {ν : Type} {m : AMap Nat ν} {k : Nat} (v : ν) (h : m.load k = none) : m.store k v = m ++ [(k, v)] := by
  induction m with
  | nil => rfl
  | cons p m ih =>
    obtain ⟨a, b⟩ := p
    rw [AMap.load_cons] at h
    split at h
    · cases h
    · rename_i hn
      simp only [AMap.store, hn, if_false, ih h]; rfl

theorem store_old {ν : Type} {m : AMap Nat ν} {k : Nat} {o : ν} (v : ν) (h : m.load k = some o) :
    ∃ a b, m = a ++ (k, o) :: b ∧ m.store k v = a ++ (k, v) :: b := by
  induction m with
  | nil => cases h
  | cons p m ih =>
    obtain ⟨a, b⟩ := p
    rw [AMap.load_cons] at h
    split at h
    · rename_i hk
      cases h; subst hk
      exact ⟨[], m, rfl, by simp [AMap.store]⟩
    · rename_i hn
      obtain ⟨x, y, e1, e2⟩ := ih h
      exact ⟨(a, b) :: x, y, by rw [e1]; rfl, by simp only [AMap.store, hn, if_false, e2]; rfl⟩

/-- A new call, or a call that had no token, adds its token to the log. -/
theorem log_store {ν : Type} (f : ν → Option Int) {m : AMap Nat ν} {k : Nat} (v : ν) {log : List Int}
    (hp : (m.filterMap fun c => f c.2).Perm log) (h : ∀ o, m.load k = some o → f o = none) :
    ((m.store k v).filterMap fun c => f c.2).Perm ((f v).toList ++ log) := by
  cases hl : m.load k with
  | none =>
    rw [store_new v hl, List.filterMap_append]
    have : ([(k, v)].filterMap fun c : Nat × ν => f c.2) = (f v).toList := by
      simp only [List.filterMap_cons, List.filterMap_nil]; cases f v <;> rfl
    rw [this]
    exact List.perm_append_comm.trans (hp.append_left _)
  | some o =>
    obtain ⟨a, b, e1, e2⟩ := store_old v hl
    rw [e2]
    rw [e1] at hp
    simp only [List.filterMap_append, List.filterMap_cons, h o hl] at hp ⊢
    cases hv : f v with
    | none => exact hp
    | some d => exact List.perm_middle.trans (List.Perm.cons _ hp)

/-- A call that keeps its token leaves the log alone. -/
theorem log_keep {ν : Type} (f : ν → Option Int) {m : AMap Nat ν} {k : Nat} {o v : ν} {log : List Int}
    (hp : (m.filterMap fun c => f c.2).Perm log) (h : m.load k = some o) (hf : f o = f v) :
    ((m.store k v).filterMap fun c => f c.2).Perm log := by
  obtain ⟨a, b, e1, e2⟩ := store_old v h
  rw [e2]
  rw [e1] at hp
  simp only [List.filterMap_append, List.filterMap_cons, hf] at hp ⊢
  exact hp

/-- The buckets of a running filter against those it began with. -/
structure LimInv (F : Filter) (s : St) : Prop where
  url : s.filter.url = F.url
  wait : s.filter.maxWait = F.maxWait
  noService : F.service = none → s.filter.service = none
  service : ∀ b0, F.service = some b0 → ∃ b log, s.filter.service = some b ∧ SameBucket b0 b ∧ BucketInv b log s.now ∧
    (sLog s.calls).Perm log
  noMethod : ∀ m, F.methods.load m = none → s.filter.methods.load m = none
  method : ∀ m b0, F.methods.load m = some b0 → ∃ b log, s.filter.methods.load m = some b ∧ SameBucket b0 b ∧
    BucketInv b log s.now ∧ (mLog m s.calls).Perm log

theorem SameBucket.trans {a b c : Bucket} (h : SameBucket a b) (h' : SameBucket b c) : SameBucket a c :=
  ⟨h'.1.trans h.1, h'.2.1.trans h.2.1, h'.2.2.1.trans h.2.2.1, h'.2.2.2.trans h.2.2.2⟩

/-- How the part after the service's bucket can end. -/
theorem second_cases (s : St) (id : Nat) (r : Req) (arrived : Int) (sd : Option Int) :
    (s.filter.methods.load r.method = none ∧ RateLimit.second s id r arrived sd =
      { s with calls := s.calls.store id (r, .passed arrived sd none s.now) }) ∨
    (∃ b, s.filter.methods.load r.method = some b ∧
      ((b.take s.now (RateLimit.methodWait s.filter r)).1 = none ∧
        RateLimit.second s id r arrived sd = { s with
          filter := { s.filter with
            methods := s.filter.methods.store r.method (b.take s.now (RateLimit.methodWait s.filter r)).2 }
          calls := s.calls.store id (r, .refused arrived sd s.now) } ∨
      ∃ w, (b.take s.now (RateLimit.methodWait s.filter r)).1 = some w ∧
        RateLimit.second s id r arrived sd = { s with
          filter := { s.filter with
            methods := s.filter.methods.store r.method (b.take s.now (RateLimit.methodWait s.filter r)).2 }
          calls := s.calls.store id (r, if w > 0 then .sleepMethod arrived sd (s.now + w)
            else .passed arrived sd (some s.now) s.now) })) := by
  unfold RateLimit.second
  cases hm : s.filter.methods.load r.method with
  | none => exact .inl ⟨rfl, rfl⟩
  | some b =>
    refine .inr ⟨b, rfl, ?_⟩
    dsimp only
    cases ht : b.take s.now (RateLimit.methodWait s.filter r) with
    | mk o b' =>
      cases o with
      | none => exact .inl ⟨rfl, rfl⟩
      | some w => exact .inr ⟨w, rfl, rfl⟩

/-- The second part keeps the invariant, when the call has the given service token and no method token yet. -/
theorem LimInv.second {F : Filter} {s : St} (h : LimInv F s) (id : Nat) (r : Req) (arrived : Int) (sd : Option Int)
    (hs : ∀ o, s.calls.load id = some o → serviceDue o.2 = sd ∧ methodDue o.2 = none ∧ o.1 = r)
    (hn : s.calls.load id = none → F.service = none) : LimInv F (RateLimit.second s id r arrived sd) := by
  -- the service's side: the entry of the call has the token `sd` before and after
  have hS : ∀ (ph : Phase) (log : List Int), serviceDue ph = sd → (∃ b0, F.service = some b0) → (sLog s.calls).Perm log →
      (sLog (s.calls.store id (r, ph))).Perm log := by
    intro ph log hph hb hp
    cases hl : s.calls.load id with
    | none => obtain ⟨b0, hb⟩ := hb; rw [hn hl] at hb; cases hb
    | some o => exact log_keep (fun c : Req × Phase => serviceDue c.2) hp hl (by rw [(hs o hl).1, hph])
  -- another method's side
  have hM : ∀ (ph : Phase) (m : Bytes) (log : List Int), (r.method ≠ m ∨ methodDue ph = none) → (mLog m s.calls).Perm log →
      (mLog m (s.calls.store id (r, ph))).Perm log := by
    intro ph m log hph hp
    have := log_store (fun c : Req × Phase => if c.1.method = m then methodDue c.2 else none) (k := id) (r, ph) hp
      (by intro o ho; rw [(hs o ho).2.1]; split <;> rfl)
    have e : (if r.method = m then methodDue ph else none) = none := by
      rcases hph with hne | hd
      · rw [if_neg hne]
      · rw [hd]; split <;> rfl
    simpa only [mLog, e, Option.toList, List.nil_append] using this
  rcases second_cases s id r arrived sd with ⟨hm, e⟩ | ⟨b, hb, ⟨ht, e⟩ | ⟨w, ht, e⟩⟩
  · rw [e]
    refine ⟨h.url, h.wait, h.noService, ?_, h.noMethod, ?_⟩
    · intro b0 hb0
      obtain ⟨b, log, h1, h2, h3, h4⟩ := h.service b0 hb0
      exact ⟨b, log, h1, h2, h3, hS _ _ rfl ⟨b0, hb0⟩ h4⟩
    · intro m b0 hb0
      obtain ⟨b, log, h1, h2, h3, h4⟩ := h.method m b0 hb0
      exact ⟨b, log, h1, h2, h3, hM _ _ _ (.inr rfl) h4⟩
  · rw [e]
    have hF : ∃ b0, F.methods.load r.method = some b0 := by
      cases hf : F.methods.load r.method with
      | none => rw [h.noMethod _ hf] at hb; cases hb
      | some b0 => exact ⟨b0, rfl⟩
    refine ⟨h.url, h.wait, h.noService, ?_, ?_, ?_⟩
    · intro b0 hb0
      obtain ⟨b, log, h1, h2, h3, h4⟩ := h.service b0 hb0
      exact ⟨b, log, h1, h2, h3, hS _ _ rfl ⟨b0, hb0⟩ h4⟩
    · intro m hm
      obtain ⟨b0, hF⟩ := hF
      rw [AMap.load_store_ne _ _ (fun e => by rw [← e, hF] at hm; cases hm)]
      exact h.noMethod m hm
    · intro m b0 hb0
      obtain ⟨b1, log, h1, h2, h3, h4⟩ := h.method m b0 hb0
      by_cases hmm : r.method = m
      · subst hmm
        rw [hb] at h1; cases h1
        obtain ⟨i1, i2, _⟩ := h3.refuse ht
        exact ⟨_, log, AMap.load_store_self _ _ _, h2.trans i2, i1, hM _ _ _ (.inr rfl) h4⟩
      · exact ⟨b1, log, by rw [AMap.load_store_ne _ _ hmm]; exact h1, h2, h3, hM _ _ _ (.inl hmm) h4⟩
  · rw [e]
    have hF : ∃ b0, F.methods.load r.method = some b0 := by
      cases hf : F.methods.load r.method with
      | none => rw [h.noMethod _ hf] at hb; cases hb
      | some b0 => exact ⟨b0, rfl⟩
    have hsd : serviceDue (if w > 0 then Phase.sleepMethod arrived sd (s.now + w)
        else .passed arrived sd (some s.now) s.now) = sd := by split <;> rfl
    refine ⟨h.url, h.wait, h.noService, ?_, ?_, ?_⟩
    · intro b0 hb0
      obtain ⟨b, log, h1, h2, h3, h4⟩ := h.service b0 hb0
      exact ⟨b, log, h1, h2, h3, hS _ _ hsd ⟨b0, hb0⟩ h4⟩
    · intro m hm
      obtain ⟨b0, hF⟩ := hF
      rw [AMap.load_store_ne _ _ (fun e => by rw [← e, hF] at hm; cases hm)]
      exact h.noMethod m hm
    · intro m b0 hb0
      obtain ⟨b1, log, h1, h2, h3, h4⟩ := h.method m b0 hb0
      by_cases hmm : r.method = m
      · subst hmm
        rw [hb] at h1; cases h1
        obtain ⟨i1, i2, i3, _⟩ := h3.accept ht
        refine ⟨_, (s.now + w) :: log, AMap.load_store_self _ _ _, h2.trans i2, i1, ?_⟩
        have := log_store (fun c : Req × Phase => if c.1.method = r.method then methodDue c.2 else none) (k := id)
          (r, if w > 0 then Phase.sleepMethod arrived sd (s.now + w) else .passed arrived sd (some s.now) s.now) h4
          (by intro o ho; rw [(hs o ho).2.1]; split <;> rfl)
        have e : methodDue (if w > 0 then Phase.sleepMethod arrived sd (s.now + w)
            else .passed arrived sd (some s.now) s.now) = some (s.now + w) := by
          split
          · rfl
          · simp only [methodDue]; congr 1; omega
        simpa only [mLog, if_true, e, Option.toList, List.cons_append, List.nil_append] using this
      · exact ⟨b1, log, by rw [AMap.load_store_ne _ _ hmm]; exact h1, h2, h3, hM _ _ _ (.inl hmm) h4⟩

theorem store_store {ν : Type} (m : AMap Nat ν) (k : Nat) (v v' : ν) : (m.store k v).store k v' = m.store k v' := by
  induction m with
  | nil => simp [AMap.store]
  | cons p m ih =>
    obtain ⟨a, b⟩ := p
    simp only [AMap.store]
    split
    · simp [AMap.store]
    · rename_i hn; simp [AMap.store, hn, ih]

theorem second_store (s : St) (id : Nat) (x : Req × Phase) (r : Req) (arrived : Int) (sd : Option Int) :
    RateLimit.second { s with calls := s.calls.store id x } id r arrived sd = RateLimit.second s id r arrived sd := by
  unfold RateLimit.second
  dsimp only
  cases s.filter.methods.load r.method with
  | none => simp only [store_store]
  | some b =>
    dsimp only
    cases b.take s.now (RateLimit.methodWait s.filter r) with
    | mk o b' => cases o <;> simp only [store_store]

/-- A call with the given service token enters the log of the service; the service's bucket is as given. -/
theorem LimInv.enter {F : Filter} {s : St} (h : LimInv F s) {id : Nat} {r : Req} {ph : Phase} {srv : Option Bucket}
    (hid : s.calls.load id = none) (hmd : methodDue ph = none) (hno : F.service = none → srv = none)
    (hb : ∀ b b0 log, F.service = some b0 → s.filter.service = some b → BucketInv b log s.now → (sLog s.calls).Perm log →
      ∃ b', srv = some b' ∧ SameBucket b b' ∧ BucketInv b' ((serviceDue ph).toList ++ log) s.now) :
    LimInv F { s with filter := { s.filter with service := srv }, calls := s.calls.store id (r, ph) } := by
  refine ⟨h.url, h.wait, hno, ?_, h.noMethod, ?_⟩
  · intro b0 hb0
    obtain ⟨b, log, h1, h2, h3, h4⟩ := h.service b0 hb0
    obtain ⟨b', e, h5, h6⟩ := hb b b0 log hb0 h1 h3 h4
    exact ⟨b', _, e, h2.trans h5, h6, log_store (fun c : Req × Phase => serviceDue c.2) (r, ph) h4
      (by intro o ho; rw [hid] at ho; cases ho)⟩
  · intro m b0 hb0
    obtain ⟨b, log, h1, h2, h3, h4⟩ := h.method m b0 hb0
    refine ⟨b, log, h1, h2, h3, ?_⟩
    have := log_store (fun c : Req × Phase => if c.1.method = m then methodDue c.2 else none) (k := id) (r, ph) h4
      (by intro o ho; rw [hid] at ho; cases ho)
    have e : (if r.method = m then methodDue ph else none) = none := by rw [hmd]; split <;> rfl
    simpa only [mLog, e, Option.toList, List.nil_append] using this

theorem LimInv.first {F : Filter} {s : St} (h : LimInv F s) (id : Nat) (r : Req) (hid : s.calls.load id = none) :
    LimInv F (RateLimit.first s id r) := by
  unfold RateLimit.first
  split
  · cases hsrv : s.filter.service with
    | none =>
      have hF : F.service = none := by
        cases hf : F.service with
        | none => rfl
        | some b0 => obtain ⟨b, _, h1, _⟩ := h.service b0 hf; rw [hsrv] at h1; cases h1
      exact h.second id r _ _ (by intro o ho; rw [hid] at ho; cases ho) (fun _ => hF)
    | some b =>
      dsimp only
      cases ht : b.take s.now s.filter.maxWait with
      | mk o b' =>
        have hno : ∀ x : Option Bucket, F.service = none → x = none := by
          intro x hf; rw [h.noService hf] at hsrv; cases hsrv
        cases o with
        | none =>
          refine h.enter (ph := .refused s.now none s.now) hid rfl (hno _) ?_
          intro b1 b0 log hb0 hb1 hI hp
          rw [hsrv] at hb1; cases hb1
          obtain ⟨i1, i2, _⟩ := hI.refuse (maxWait := s.filter.maxWait) (by rw [ht])
          rw [ht] at i1 i2
          exact ⟨b', rfl, i2, i1⟩
        | some w =>
          dsimp only
          have acc : ∀ b1 b0 log, F.service = some b0 → s.filter.service = some b1 → BucketInv b1 log s.now →
              (sLog s.calls).Perm log →
              ∃ b'', some b' = some b'' ∧ SameBucket b1 b'' ∧ BucketInv b'' ((some (s.now + w)).toList ++ log) s.now := by
            intro b1 b0 log hb0 hb1 hI hp
            rw [hsrv] at hb1; cases hb1
            obtain ⟨i1, i2, _⟩ := hI.accept (maxWait := s.filter.maxWait) (by rw [ht])
            rw [ht] at i1 i2
            exact ⟨b', rfl, i2, i1⟩
          split
          · exact h.enter (ph := .sleepService s.now (s.now + w)) hid rfl (hno _) acc
          · rename_i hw
            have w0 : w = 0 := by
              cases hf : F.service with
              | none => exact absurd (hno (some b) hf) (by simp)
              | some b0 =>
                obtain ⟨b1, log, h1, _, h3, _⟩ := h.service b0 hf
                rw [hsrv] at h1; cases h1
                obtain ⟨_, _, i3, _⟩ := h3.accept (maxWait := s.filter.maxWait) (by rw [ht])
                omega
            subst w0
            have h' := h.enter (r := r) (ph := .sleepService s.now (s.now + 0)) hid rfl (hno _) acc
            have := h'.second id r s.now (some (s.now + 0)) (by
              intro o ho
              simp only [AMap.load_store_self] at ho
              cases ho
              exact ⟨rfl, rfl, rfl⟩) (by intro ho; simp only [AMap.load_store_self] at ho; cases ho)
            rw [Int.add_zero] at this
            rw [← second_store _ id (r, .sleepService s.now s.now)]
            exact this
  · have := h.enter (r := r) (ph := .passed s.now none none s.now) (srv := s.filter.service) hid rfl h.noService
      (fun b b0 log hb0 hb hI hp => ⟨b, hb, ⟨rfl, rfl, rfl, rfl⟩, hI⟩)
    exact this

theorem LimInv.step {F : Filter} {s s' : St} {o : Op} (h : LimInv F s) (hs : step s o = some s') : LimInv F s' := by
  cases o with
  | time t =>
    simp only [RateLimit.step] at hs
    split at hs
    · rename_i ht
      cases hs
      refine ⟨h.url, h.wait, h.noService, ?_, h.noMethod, ?_⟩
      · intro b0 hb0
        obtain ⟨b, log, h1, h2, h3, h4⟩ := h.service b0 hb0
        exact ⟨b, log, h1, h2, h3.time ht, h4⟩
      · intro m b0 hb0
        obtain ⟨b, log, h1, h2, h3, h4⟩ := h.method m b0 hb0
        exact ⟨b, log, h1, h2, h3.time ht, h4⟩
    · cases hs
  | setSwitch b =>
    simp only [RateLimit.step] at hs
    cases hs
    exact ⟨h.url, h.wait, h.noService, h.service, h.noMethod, h.method⟩
  | enter id r =>
    simp only [RateLimit.step] at hs
    split at hs
    · rename_i hid; cases hs; exact h.first id r hid
    · cases hs
  | wake id =>
    simp only [RateLimit.step] at hs
    split at hs
    · rename_i r arrived due hl
      split at hs
      · cases hs
        refine h.second id r arrived (some due) ?_ (by intro hn; rw [hl] at hn; cases hn)
        intro o ho
        rw [hl] at ho; cases ho
        exact ⟨rfl, rfl, rfl⟩
      · cases hs
    · rename_i r arrived sDue due hl
      split at hs
      · cases hs
        refine ⟨h.url, h.wait, h.noService, ?_, h.noMethod, ?_⟩
        · intro b0 hb0
          obtain ⟨b, log, h1, h2, h3, h4⟩ := h.service b0 hb0
          exact ⟨b, log, h1, h2, h3, log_keep (fun c : Req × Phase => serviceDue c.2) h4 hl rfl⟩
        · intro m b0 hb0
          obtain ⟨b, log, h1, h2, h3, h4⟩ := h.method m b0 hb0
          exact ⟨b, log, h1, h2, h3, log_keep
            (fun c : Req × Phase => if c.1.method = m then methodDue c.2 else none) h4 hl rfl⟩
      · cases hs
    · cases hs

theorem LimInv.play {F : Filter} {s s' : St} {os : List Op} (h : LimInv F s) (hs : play s os = some s') : LimInv F s' := by
  induction os generalizing s with
  | nil => cases hs; exact h
  | cons o os ih =>
    obtain ⟨s1, h1, h2⟩ := Option.bind_eq_some_iff.mp hs
    exact ih (h.step h1) h2

/-! ### Configuration -/

theorem split_prefix (m : Bytes) (x y : Bytes) : split b!"rateLimit." (b!"rateLimit." ++ m) = [x, y] ↔
    x = [] ∧ y = m ∧ contains m b!"rateLimit." = false := by
  have e : split b!"rateLimit." (b!"rateLimit." ++ m) = [] :: split b!"rateLimit." m :=
    split_cons (c := 114) (p := []) (by simp)
  rw [e]
  cases hi : index b!"rateLimit." m with
  | none =>
    rw [split_none (by decide) hi]
    simp only [contains, hi, List.cons.injEq, and_true]
    exact ⟨fun h => ⟨h.1.symm, h.2.symm, rfl⟩, fun h => ⟨h.1.symm, h.2.1.symm⟩⟩
  | some i =>
    rw [split, dif_neg (by decide)]
    simp only [hi, if_pos (index_le hi), contains]
    constructor
    · intro h
      simp only [List.cons.injEq] at h
      exact absurd h.2.2 (split_ne_nil _ _)
    · intro h; cases h.2.2

theorem getKeyValue_iff (parse : Bytes → Option Rat) (k v m : Bytes) (r : Rat) :
    RateLimit.getKeyValue parse k v b!"rateLimit." = some (m, r) ↔
      k = b!"rateLimit." ++ m ∧ m ≠ [] ∧ contains m b!"rateLimit." = false ∧ parse v = some r ∧ 0 < r := by
  unfold RateLimit.getKeyValue
  constructor
  · intro h
    split at h
    · rename_i hp
      obtain ⟨t, rfl⟩ := List.isPrefixOf_iff_prefix.mp hp
      split at h
      · rename_i x y hxy
        obtain ⟨rfl, rfl, hc⟩ := (split_prefix t x y).mp hxy
        split at h
        · rename_i r' hr
          split at h
          · rename_i hh; cases h; exact ⟨rfl, hh.1, hc, hr, hh.2⟩
          · cases h
        · cases h
      · cases h
    · cases h
  · rintro ⟨rfl, hne, hc, hr, hpos⟩
    rw [if_pos (show hasPrefix _ _ = true from List.isPrefixOf_iff_prefix.mpr ⟨m, rfl⟩), (split_prefix m [] m).mpr ⟨rfl, rfl, hc⟩]
    simp only [hr]
    rw [if_pos ⟨hne, hpos⟩]

theorem limit_load_map {ν μ : Type} (m : AMap Bytes ν) (f : Bytes → ν → μ) (k : Bytes) :
    AMap.load (m.map fun p => (p.1, f p.1 p.2)) k = (m.load k).map (f k) := by
  induction m with
  | nil => rfl
  | cons p m ih =>
    obtain ⟨a, b⟩ := p
    rw [List.map_cons, AMap.load_cons, AMap.load_cons, ih]
    split
    · rename_i h; subst h; rfl
    · rfl

theorem load_storeAll_nil {ν : Type} (ps : AMap Bytes ν) (hn : ps.NodupKeys) (k : Bytes) :
    AMap.load (AMap.storeAll [] ps) k = ps.load k := by
  rw [AMap.load_storeAll _ _ hn]
  cases ps.load k <;> rfl

/-- The capacity of a method's bucket. -/
def Spec.methodCapacity (u : URL) (m : Bytes) (r : Rat) : Int :=
  (getMethodPositiveIntValue u m [] b!"capacity" (RateLimit.defaultCapacity r)).1

/-- Which methods are limited, and how: exactly those whose parameter `rateLimit.<method>` is a positive number; names
that contain the prefix again are left out. -/
theorem limit_config_methods (parse : Bytes → Option Rat) (pace : Rat → Int × Int) (now : Int) (sw : Bool) (u : URL)
    (hn : ∀ ps, u.params = some ps → ps.NodupKeys) (m : Bytes) (b : Bucket) :
    (RateLimit.newFilter parse pace now sw u).methods.load m = some b ↔
      ∃ v r, u.param (b!"rateLimit." ++ m) = some v ∧ parse v = some r ∧ 0 < r ∧ m ≠ [] ∧
        contains m b!"rateLimit." = false ∧ b = RateLimit.newBucket pace now r (Spec.methodCapacity u m r) := by
  have hn' : (u.params.getD []).NodupKeys := by
    cases hp : u.params with
    | none => exact AMap.nodupKeys_nil
    | some ps => exact hn ps hp
  have hpar : ∀ k v, u.param k = some v ↔ (k, v) ∈ u.params.getD [] := by
    intro k v
    unfold URL.param
    cases hp : u.params with
    | none => simp
    | some ps => exact (AMap.mem_iff_load (hn ps hp)).symm
  have hk : AMap.NodupKeys ((u.params.getD []).filterMap fun kv => RateLimit.getKeyValue parse kv.1 kv.2 b!"rateLimit.") := by
    generalize u.params.getD [] = ps at hn'
    clear hpar
    induction ps with
    | nil => exact AMap.nodupKeys_nil
    | cons p ps ih =>
      simp only [AMap.NodupKeys, AMap.keys, List.map_cons, List.nodup_cons] at hn'
      rw [List.filterMap_cons]
      cases hg : RateLimit.getKeyValue parse p.1 p.2 b!"rateLimit." with
      | none => exact ih hn'.2
      | some mr =>
        simp only [AMap.NodupKeys, AMap.keys, List.map_cons, List.nodup_cons]
        refine ⟨?_, ih hn'.2⟩
        intro hm
        obtain ⟨mr', hm', e⟩ := List.mem_map.mp hm
        obtain ⟨q, hq, hg'⟩ := List.mem_filterMap.mp hm'
        have e1 := ((getKeyValue_iff parse p.1 p.2 mr.1 mr.2).mp hg).1
        have e2 := ((getKeyValue_iff parse q.1 q.2 mr'.1 mr'.2).mp hg').1
        rw [e] at e2
        exact hn'.1 (List.mem_map.mpr ⟨q, hq, by rw [e1, e2]⟩)
  have hload : ∀ r, AMap.load (AMap.storeAll ([] : AMap Bytes Rat)
      ((u.params.getD []).filterMap fun kv => RateLimit.getKeyValue parse kv.1 kv.2 b!"rateLimit.")) m = some r ↔
      ∃ v, u.param (b!"rateLimit." ++ m) = some v ∧ m ≠ [] ∧ contains m b!"rateLimit." = false ∧ parse v = some r ∧ 0 < r := by
    intro r
    rw [load_storeAll_nil _ hk, ← AMap.mem_iff_load hk, List.mem_filterMap]
    constructor
    · rintro ⟨q, hq, hg⟩
      obtain ⟨e, h1, h2, h3, h4⟩ := (getKeyValue_iff parse q.1 q.2 m r).mp hg
      exact ⟨q.2, (hpar _ _).mpr (by rw [← e]; exact hq), h1, h2, h3, h4⟩
    · rintro ⟨v, hv, h1, h2, h3, h4⟩
      exact ⟨_, (hpar _ _).mp hv, (getKeyValue_iff parse _ _ m r).mpr ⟨rfl, h1, h2, h3, h4⟩⟩
  show AMap.load (RateLimit.methodBuckets parse pace now u) m = some b ↔ _
  unfold RateLimit.methodBuckets
  dsimp only
  rw [limit_load_map _ fun m r => RateLimit.newBucket pace now r
    (getMethodPositiveIntValue u m [] b!"capacity" (RateLimit.defaultCapacity r)).1, Option.map_eq_some_iff]
  constructor
  · rintro ⟨r, hr, rfl⟩
    obtain ⟨v, h1, h2, h3, h4, h5⟩ := (hload r).mp hr
    exact ⟨v, r, h1, h4, h5, h2, h3, rfl⟩
  · rintro ⟨v, r, h1, h2, h3, h4, h5, rfl⟩
    exact ⟨r, (hload r).mpr ⟨v, h1, h4, h5, h2, h3⟩, rfl⟩

/-- The service is limited exactly if its parameter `rateLimit` is a positive number. -/
theorem limit_config_service (parse : Bytes → Option Rat) (pace : Rat → Int × Int) (now : Int) (sw : Bool) (u : URL)
    (b : Bucket) : (RateLimit.newFilter parse pace now sw u).service = some b ↔
      ∃ v r, u.param b!"rateLimit" = some v ∧ v ≠ [] ∧ parse v = some r ∧ 0 < r ∧
        b = RateLimit.newBucket pace now r (getPositiveIntValue u b!"capacity" (RateLimit.defaultCapacity r)).1 := by
  show RateLimit.serviceBucket parse pace now u = some b ↔ _
  unfold RateLimit.serviceBucket
  have hg : getParam u b!"rateLimit" [] = (u.param b!"rateLimit").getD [] := by
    unfold getParam; dsimp only; split
    · rename_i h; rw [h]
    · rfl
  dsimp only
  rw [hg]
  cases hp : u.param b!"rateLimit" with
  | none => simp
  | some v =>
    simp only [Option.getD_some]
    constructor
    · intro h
      split at h
      · cases h
      · rename_i hv
        split at h
        · rename_i r hr
          split at h
          · cases h
          · rename_i hpos
            cases h
            exact ⟨v, r, rfl, hv, hr, Rat.not_le.mp hpos, rfl⟩
        · cases h
    · rintro ⟨v', r, e, hv, hr, hpos, rfl⟩
      cases e
      rw [if_neg hv, hr]
      simp only
      rw [if_neg (Rat.not_le.mpr hpos)]

/-- Without a configured capacity, a bucket holds twice the rate, but at least 1000 and at most 5000. -/
theorem limit_default_capacity (r : Rat) : 1000 ≤ RateLimit.defaultCapacity r ∧ RateLimit.defaultCapacity r ≤ 5000 ∧
    (1000 ≤ r * 2 → r * 2 ≤ 5000 → RateLimit.defaultCapacity r = (r * 2).floor) := by
  unfold RateLimit.defaultCapacity
  dsimp only
  split
  · rename_i h
    have h1 := Rat.floor_monotone h.1
    have h2 := Rat.floor_monotone h.2
    rw [show Rat.floor 1000 = 1000 by decide +kernel] at h1
    rw [show Rat.floor 5000 = 5000 by decide +kernel] at h2
    exact ⟨h1, h2, fun _ _ => rfl⟩
  · rename_i h
    split
    · exact ⟨by omega, by omega, fun h1 h2 => absurd ⟨h1, h2⟩ h⟩
    · exact ⟨by omega, by omega, fun h1 h2 => absurd ⟨h1, h2⟩ h⟩

theorem positive_value (u : URL) (k : Bytes) (d : Int) (hd : 1 ≤ d) : 1 ≤ (getPositiveIntValue u k d).1 := by
  unfold getPositiveIntValue; dsimp only; split <;> omega

theorem positive_method_value (u : URL) (m desc k : Bytes) (d : Int) (hd : 1 ≤ d) :
    1 ≤ (getMethodPositiveIntValue u m desc k d).1 := by
  unfold getMethodPositiveIntValue; dsimp only; split <;> omega

/-! ### The limits -/

namespace Spec

/-- A filter just made from a URL. -/
def fresh (parse : Bytes → Option Rat) (pace : Rat → Int × Int) (t0 : Int) (sw : Bool) (u : URL) : St :=
  { now := t0, filter := RateLimit.newFilter parse pace t0 sw u }

/-- What is assumed: the library finds a quantum and a filling interval for every positive rate, and the parameters of
the URL are a map. -/
structure LimOk (pace : Rat → Int × Int) (u : URL) : Prop where
  pace : ∀ r, 0 < r → 0 < (pace r).1 ∧ 0 < (pace r).2
  params : ∀ ps, u.params = some ps → ps.NodupKeys

/-- The switch is not turned off. -/
def StaysOn (os : List Op) : Prop := ∀ b, Op.setSwitch b ∈ os → b = true

/-- The calls whose service token was due at `t` or later. -/
def serviceSince (s : St) (t : Int) : Nat :=
  (s.calls.filter fun c => match serviceDue c.2.2 with
    | some d => decide (t ≤ d)
    | none => false).length

/-- The calls of a method whose token was due at `t` or later. -/
def methodSince (s : St) (m : Bytes) (t : Int) : Nat :=
  (s.calls.filter fun c => match methodDue c.2.2 with
    | some d => decide (c.2.1.method = m) && decide (t ≤ d)
    | none => false).length

end Spec

open Spec (fresh LimOk StaysOn passedBy serviceTokens methodTokens serviceSince methodSince)

theorem LimInv.fresh {parse : Bytes → Option Rat} {pace : Rat → Int × Int} {t0 : Int} {sw : Bool} {u : URL}
    (h : LimOk pace u) : LimInv (RateLimit.newFilter parse pace t0 sw u) (fresh parse pace t0 sw u) := by
  refine ⟨rfl, rfl, fun h => h, ?_, fun _ h => h, ?_⟩
  · intro b hb
    obtain ⟨v, r, _, _, _, hr, e⟩ := (limit_config_service parse pace t0 sw u b).mp hb
    refine ⟨b, [], hb, ⟨rfl, rfl, rfl, rfl⟩, ?_, List.Perm.refl _⟩
    rw [e]
    exact BucketInv.new pace t0 r _ (h.pace r hr).1 (h.pace r hr).2
      (positive_value _ _ _ (by have := (limit_default_capacity r).1; omega))
  · intro m b hb
    obtain ⟨v, r, _, _, hr, _, _, e⟩ := (limit_config_methods parse pace t0 sw u h.params m b).mp hb
    refine ⟨b, [], hb, ⟨rfl, rfl, rfl, rfl⟩, ?_, List.Perm.refl _⟩
    rw [e]
    exact BucketInv.new pace t0 r _ (h.pace r hr).1 (h.pace r hr).2
      (positive_method_value _ _ _ _ _ (by have := (limit_default_capacity r).1; omega))

theorem service_start {parse : Bytes → Option Rat} {pace : Rat → Int × Int} {t0 : Int} {sw : Bool} {u : URL} {b : Bucket}
    (hb : (RateLimit.newFilter parse pace t0 sw u).service = some b) : b.start = t0 := by
  obtain ⟨v, r, _, _, _, hr, e⟩ := (limit_config_service parse pace t0 sw u b).mp hb
  rw [e]; rfl

theorem method_start {parse : Bytes → Option Rat} {pace : Rat → Int × Int} {t0 : Int} {sw : Bool} {u : URL} {b : Bucket}
    {m : Bytes} (h : LimOk pace u) (hb : (RateLimit.newFilter parse pace t0 sw u).methods.load m = some b) : b.start = t0 := by
  obtain ⟨v, r, _, _, hr, _, _, e⟩ := (limit_config_methods parse pace t0 sw u h.params m b).mp hb
  rw [e]; rfl

/-- Counting calls by their tokens. -/
theorem count_le {ν : Type} (f : ν → Option Int) (p : Int → Bool) (P : ν → Bool) (l : List ν)
    (h : ∀ c ∈ l, P c = true → ∃ d, f c = some d ∧ p d = true) :
    (l.filter P).length ≤ ((l.filterMap f).filter p).length := by
  induction l with
  | nil => simp
  | cons x l ih =>
    have ih := ih fun c hc => h c (List.mem_cons_of_mem _ hc)
    rw [List.filter_cons, List.filterMap_cons]
    split
    · rename_i hP
      obtain ⟨d, e, hd⟩ := h x (List.mem_cons_self) hP
      simp only [e, List.filter_cons, hd, if_true, List.length_cons]
      omega
    · split
      · exact ih
      · rw [List.filter_cons]; split
        · simp only [List.length_cons]; omega
        · exact ih

theorem count_ge {ν : Type} (f : ν → Option Int) (p : Int → Bool) (P : ν → Bool) (l : List ν)
    (h : ∀ c ∈ l, ∀ d, f c = some d → p d = true → P c = true) :
    ((l.filterMap f).filter p).length ≤ (l.filter P).length := by
  induction l with
  | nil => simp
  | cons x l ih =>
    have ih := ih fun c hc => h c (List.mem_cons_of_mem _ hc)
    rw [List.filterMap_cons]
    split
    · rename_i e
      rw [List.filter_cons]; split
      · simp only [List.length_cons]; omega
      · exact ih
    · rename_i d e
      rw [List.filter_cons]
      split
      · rename_i hd
        rw [List.filter_cons, if_pos (h x (List.mem_cons_self) d e hd)]
        simp only [List.length_cons]; omega
      · rw [List.filter_cons]; split
        · simp only [List.length_cons]; omega
        · exact ih

theorem sLog_count (calls : AMap Nat (Req × Phase)) {log : List Int} (hp : (sLog calls).Perm log) (p : Int → Bool)
    (P : Nat × (Req × Phase) → Bool) (h : ∀ c ∈ calls, P c = true → ∃ d, serviceDue c.2.2 = some d ∧ p d = true) :
    (calls.filter P).length ≤ (log.filter p).length := by
  rw [← (hp.filter p).length_eq]
  exact count_le (fun c : Nat × (Req × Phase) => serviceDue c.2.2) p P calls h

theorem mLog_count (calls : AMap Nat (Req × Phase)) {m : Bytes} {log : List Int} (hp : (mLog m calls).Perm log) (p : Int → Bool)
    (P : Nat × (Req × Phase) → Bool)
    (h : ∀ c ∈ calls, P c = true → c.2.1.method = m ∧ ∃ d, methodDue c.2.2 = some d ∧ p d = true) :
    (calls.filter P).length ≤ (log.filter p).length := by
  rw [← (hp.filter p).length_eq]
  refine count_le (fun c : Nat × (Req × Phase) => if c.2.1.method = m then methodDue c.2.2 else none) p P calls ?_
  intro c hc hP
  obtain ⟨e, d, h1, h2⟩ := h c hc hP
  exact ⟨d, by rw [if_pos e]; exact h1, h2⟩

/-- In any period, the tokens of a limited service that come due number at most a full bucket and what comes in during
the period, rounded up. -/
theorem limit_service_window (parse : Bytes → Option Rat) (pace : Rat → Int × Int) (t0 : Int) (sw : Bool) (u : URL)
    (hok : LimOk pace u) (os : List Op) (s : St) (hs : play (fresh parse pace t0 sw u) os = some s) (b : Bucket)
    (hb : (fresh parse pace t0 sw u).filter.service = some b) (t w : Int) (hw : 0 ≤ w) :
    (serviceTokens s t (t + w) : Int) ≤ max b.capacity b.quantum + b.quantum * (w / b.fill + 1) := by
  obtain ⟨b', log, _, ⟨_, e2, e3, e4⟩, hI, hp⟩ := ((LimInv.fresh hok).play hs).service b hb
  have h1 := hI.window t w hw
  have h2 := sLog_count s.calls hp (fun d => decide (t ≤ d ∧ d ≤ t + w)) (fun c => match serviceDue c.2.2 with
    | some d => decide (t ≤ d ∧ d ≤ t + w)
    | none => false) (by
      intro c _ hc
      cases hd : serviceDue c.2.2 with
      | none => rw [hd] at hc; cases hc
      | some d => rw [hd] at hc; exact ⟨d, rfl, hc⟩)
  rw [e2, e3, e4] at h1
  unfold Spec.serviceTokens
  omega

/-- The same for a limited method. -/
theorem limit_method_window (parse : Bytes → Option Rat) (pace : Rat → Int × Int) (t0 : Int) (sw : Bool) (u : URL)
    (hok : LimOk pace u) (os : List Op) (s : St) (hs : play (fresh parse pace t0 sw u) os = some s) (m : Bytes) (b : Bucket)
    (hb : (fresh parse pace t0 sw u).filter.methods.load m = some b) (t w : Int) (hw : 0 ≤ w) :
    (methodTokens s m t (t + w) : Int) ≤ max b.capacity b.quantum + b.quantum * (w / b.fill + 1) := by
  obtain ⟨b', log, _, ⟨_, e2, e3, e4⟩, hI, hp⟩ := ((LimInv.fresh hok).play hs).method m b hb
  have h1 := hI.window t w hw
  have h2 := mLog_count s.calls hp (fun d => decide (t ≤ d ∧ d ≤ t + w)) (fun c => match methodDue c.2.2 with
    | some d => decide (c.2.1.method = m) && decide (t ≤ d ∧ d ≤ t + w)
    | none => false) (by
      intro c _ hc
      cases hd : methodDue c.2.2 with
      | none => rw [hd] at hc; cases hc
      | some d =>
        rw [hd] at hc
        simp only [Bool.and_eq_true] at hc
        exact ⟨of_decide_eq_true hc.1, d, rfl, hc.2⟩)
  rw [e2, e3, e4] at h1
  unfold Spec.methodTokens
  omega

/-! ### While the switch stays on -/

/-- A call that got past a bucket has its token, and was passed on when it was due or later. -/
def phaseOk (F : Filter) (r : Req) : Phase → Prop
  | .sleepService _ _ => True
  | .sleepMethod _ sd due => (F.service.isSome → sd.isSome) ∧ (∀ x, sd = some x → x ≤ due)
  | .passed _ sd md time => (F.service.isSome → sd.isSome) ∧ ((F.methods.load r.method).isSome → md.isSome) ∧
      (∀ x, sd = some x → x ≤ time) ∧ ∀ x, md = some x → x ≤ time
  | .refused _ _ _ => True

structure OnInv (F : Filter) (s : St) : Prop where
  on : s.filter.switch = true
  ok : ∀ c ∈ s.calls, phaseOk F c.2.1 c.2.2

theorem mem_store {ν : Type} {m : AMap Nat ν} {k : Nat} {v : ν} {c : Nat × ν} (h : c ∈ m.store k v) : c = (k, v) ∨ c ∈ m := by
  cases hl : m.load k with
  | none => rw [store_new v hl] at h; simpa [or_comm] using h
  | some o =>
    obtain ⟨a, b, e1, e2⟩ := store_old v hl
    rw [e2] at h
    rw [e1]
    simp only [List.mem_append, List.mem_cons] at h ⊢
    rcases h with h | h | h
    · exact .inr (.inl h)
    · exact .inl h
    · exact .inr (.inr (.inr h))

theorem OnInv.store {F : Filter} {s : St} {f : Filter} {id : Nat} {r : Req} {ph : Phase} (h : OnInv F s)
    (hf : f.switch = true) (hph : phaseOk F r ph) : OnInv F { s with filter := f, calls := s.calls.store id (r, ph) } := by
  refine ⟨hf, fun c hc => ?_⟩
  rcases mem_store hc with rfl | hc
  · exact hph
  · exact h.ok c hc

theorem OnInv.second {F : Filter} {s : St} (h : OnInv F s)
    (hM : ∀ m, (F.methods.load m).isSome → s.filter.methods.load m ≠ none) (id : Nat) (r : Req) (arrived : Int)
    (sd : Option Int) (h1 : F.service.isSome → sd.isSome) (h2 : ∀ x, sd = some x → x ≤ s.now) :
    OnInv F (RateLimit.second s id r arrived sd) := by
  rcases second_cases s id r arrived sd with ⟨hm, e⟩ | ⟨b, hb, ⟨ht, e⟩ | ⟨w, ht, e⟩⟩
  · rw [e]
    exact h.store h.on ⟨h1, fun hF => absurd hm (hM _ hF), h2, fun x hx => by cases hx⟩
  · rw [e]; exact h.store h.on trivial
  · rw [e]
    refine h.store h.on ?_
    split
    · refine ⟨h1, fun x hx => ?_⟩
      have := h2 x hx
      omega
    · exact ⟨h1, fun _ => rfl, h2, fun x hx => by cases hx; exact Int.le_refl _⟩

/-- The state with the service's bucket changed. -/
def withService (s : St) (b : Bucket) : St := { s with filter := { s.filter with service := some b } }

/-- How the part with the service's bucket can end. -/
theorem first_cases (s : St) (id : Nat) (r : Req) (hon : s.filter.switch = true) :
    (s.filter.service = none ∧ RateLimit.first s id r = RateLimit.second s id r s.now none) ∨
    (∃ b, s.filter.service = some b ∧
      ((b.take s.now s.filter.maxWait).1 = none ∧ RateLimit.first s id r = { s with
          filter := { s.filter with service := some (b.take s.now s.filter.maxWait).2 }
          calls := s.calls.store id (r, .refused s.now none s.now) } ∨
      ∃ w, (b.take s.now s.filter.maxWait).1 = some w ∧
        (0 < w ∧ RateLimit.first s id r = { s with
          filter := { s.filter with service := some (b.take s.now s.filter.maxWait).2 }
          calls := s.calls.store id (r, .sleepService s.now (s.now + w)) } ∨
        ¬ 0 < w ∧ RateLimit.first s id r =
          RateLimit.second (withService s (b.take s.now s.filter.maxWait).2) id r s.now (some s.now)))) := by
  unfold RateLimit.first
  rw [if_pos hon]
  cases hm : s.filter.service with
  | none => exact .inl ⟨rfl, rfl⟩
  | some b =>
    refine .inr ⟨b, rfl, ?_⟩
    dsimp only
    cases ht : b.take s.now s.filter.maxWait with
    | mk o b' =>
      cases o with
      | none => exact .inl ⟨rfl, rfl⟩
      | some w =>
        refine .inr ⟨w, rfl, ?_⟩
        dsimp only
        by_cases hw : 0 < w
        · exact .inl ⟨hw, by rw [if_pos hw]⟩
        · exact .inr ⟨hw, by rw [if_neg hw]; rfl⟩

theorem OnInv.step {F : Filter} {s s' : St} {o : Op} (h : OnInv F s) (hL : LimInv F s) (ho : ∀ b, o = .setSwitch b → b = true)
    (hs : step s o = some s') : OnInv F s' := by
  have hM : ∀ m, (F.methods.load m).isSome → s.filter.methods.load m ≠ none := by
    intro m hm hn
    obtain ⟨b0, hb0⟩ := Option.isSome_iff_exists.mp hm
    obtain ⟨b, _, hb, _⟩ := hL.method _ b0 hb0
    rw [hn] at hb; cases hb
  cases o with
  | time t =>
    simp only [RateLimit.step] at hs
    split at hs
    · cases hs; exact ⟨h.on, h.ok⟩
    · cases hs
  | setSwitch b =>
    simp only [RateLimit.step] at hs
    cases hs
    exact ⟨ho b rfl, h.ok⟩
  | enter id r =>
    simp only [RateLimit.step] at hs
    split at hs
    · rename_i hid
      cases hs
      rcases first_cases s id r h.on with ⟨hsrv, e⟩ | ⟨b, hb, ⟨_, e⟩ | ⟨w, _, ⟨hw, e⟩ | ⟨hw, e⟩⟩⟩
      · rw [e]
        refine h.second hM id r _ _ ?_ (fun x hx => by cases hx)
        intro hF
        obtain ⟨b0, hb0⟩ := Option.isSome_iff_exists.mp hF
        obtain ⟨b, _, hb, _⟩ := hL.service b0 hb0
        rw [hsrv] at hb; cases hb
      · rw [e]; exact h.store h.on trivial
      · rw [e]; exact h.store h.on trivial
      · rw [e]
        refine OnInv.second (s := withService s _) ⟨h.on, h.ok⟩ hM id r s.now (some s.now) (fun _ => rfl) (fun x hx => ?_)
        cases hx; exact Int.le_refl _
    · cases hs
  | wake id =>
    simp only [RateLimit.step] at hs
    split at hs
    · rename_i r arrived due hl
      split at hs
      · rename_i hd
        cases hs
        exact h.second hM id r arrived (some due) (fun _ => rfl) (fun x hx => by cases hx; exact hd)
      · cases hs
    · rename_i r arrived sDue due hl
      split at hs
      · rename_i hd
        cases hs
        have := h.ok _ (AMap.mem_of_load hl)
        refine h.store h.on ⟨this.1, fun _ => rfl, fun x hx => ?_, fun x hx => ?_⟩
        · exact Int.le_trans (this.2 x hx) hd
        · cases hx; exact hd
      · cases hs
    · cases hs

theorem OnInv.play {F : Filter} {s s' : St} {os : List Op} (h : OnInv F s) (hL : LimInv F s) (ho : StaysOn os)
    (hs : play s os = some s') : OnInv F s' := by
  induction os generalizing s with
  | nil => simp only [RateLimit.play] at hs; cases hs; exact h
  | cons o os ih =>
    simp only [RateLimit.play] at hs
    obtain ⟨s1, h1, h2⟩ := Option.bind_eq_some_iff.mp hs
    exact ih (h.step hL (fun b e => ho b (e ▸ List.mem_cons_self)) h1) (hL.step h1)
      (fun b hb => ho b (List.mem_cons_of_mem _ hb)) h2

/-- While the switch is on, no more calls of a limited service are passed on by any time than a full bucket and what has
come in since the start. -/
theorem limit_service_total (parse : Bytes → Option Rat) (pace : Rat → Int × Int) (t0 : Int) (u : URL)
    (hok : LimOk pace u) (os : List Op) (hon : StaysOn os) (s : St) (hs : play (fresh parse pace t0 true u) os = some s)
    (b : Bucket) (hb : (fresh parse pace t0 true u).filter.service = some b) (t : Int) (ht : t0 ≤ t) :
    (passedBy s (fun _ => true) t : Int) ≤ b.capacity + b.quantum * ((t - t0) / b.fill) := by
  have hO : OnInv (fresh parse pace t0 true u).filter s :=
    OnInv.play ⟨rfl, fun c hc => by cases hc⟩ (LimInv.fresh hok) hon hs
  obtain ⟨b', log, _, ⟨e1, e2, e3, e4⟩, hI, hp⟩ := ((LimInv.fresh hok).play hs).service b hb
  have e0 := service_start hb
  have h1 := hI.total t (by omega)
  have h2 := sLog_count s.calls hp (fun d => decide (d ≤ t)) (fun c => match c.2 with
    | (r, .passed _ _ _ time) => (fun _ => true) r.method && decide (time ≤ t)
    | _ => false) (by
      intro c hc hP
      have := hO.ok c hc
      obtain ⟨id, r, ph⟩ := c
      cases ph with
      | passed a sd md time =>
        simp only [Bool.true_and, decide_eq_true_eq] at hP
        obtain ⟨d, hd⟩ := Option.isSome_iff_exists.mp (this.1 (by rw [hb]; rfl))
        refine ⟨d, hd, decide_eq_true ?_⟩
        exact Int.le_trans (this.2.2.1 d hd) hP
      | sleepService => cases hP
      | sleepMethod => cases hP
      | refused => cases hP)
  rw [e1, e2, e3, e4, e0] at h1
  unfold Spec.passedBy
  omega

/-- The same for the calls of a limited method. -/
theorem limit_method_total (parse : Bytes → Option Rat) (pace : Rat → Int × Int) (t0 : Int) (u : URL)
    (hok : LimOk pace u) (os : List Op) (hon : StaysOn os) (s : St) (hs : play (fresh parse pace t0 true u) os = some s)
    (m : Bytes) (b : Bucket) (hb : (fresh parse pace t0 true u).filter.methods.load m = some b) (t : Int) (ht : t0 ≤ t) :
    (passedBy s (fun x => decide (x = m)) t : Int) ≤ b.capacity + b.quantum * ((t - t0) / b.fill) := by
  have hO : OnInv (fresh parse pace t0 true u).filter s :=
    OnInv.play ⟨rfl, fun c hc => by cases hc⟩ (LimInv.fresh hok) hon hs
  obtain ⟨b', log, _, ⟨e1, e2, e3, e4⟩, hI, hp⟩ := ((LimInv.fresh hok).play hs).method m b hb
  have e0 := method_start hok hb
  have h1 := hI.total t (by omega)
  have h2 := mLog_count s.calls hp (fun d => decide (d ≤ t)) (fun c => match c.2 with
    | (r, .passed _ _ _ time) => (fun x => decide (x = m)) r.method && decide (time ≤ t)
    | _ => false) (by
      intro c hc hP
      have := hO.ok c hc
      obtain ⟨id, r, ph⟩ := c
      cases ph with
      | passed a sd md time =>
        simp only [Bool.and_eq_true, decide_eq_true_eq] at hP
        have hm : r.method = m := hP.1
        obtain ⟨d, hd⟩ := Option.isSome_iff_exists.mp (this.2.1 (by show (AMap.load _ r.method).isSome; rw [hm, hb]; rfl))
        refine ⟨hm, d, hd, decide_eq_true ?_⟩
        exact Int.le_trans (this.2.2.2 d hd) hP.2
      | sleepService => cases hP
      | sleepMethod => cases hP
      | refused => cases hP)
  rw [e1, e2, e3, e4, e0] at h1
  unfold Spec.passedBy
  omega

/-! ### Who is refused, who is passed on at once -/

/-- When a bucket refuses, the tokens it has promised since some time are all that there are until the end of the wait. -/
theorem service_used {F : Filter} {s : St} (hL : LimInv F s) {b0 b : Bucket} (h0 : F.service = some b0)
    (hb : s.filter.service = some b) {wait : Int} (ht : (b.take s.now wait).1 = none) :
    ∃ t, b0.start ≤ t ∧ t ≤ s.now ∧ b0.capacity + b0.quantum * ((s.now + wait - b0.start) / b0.fill - (t - b0.start) / b0.fill) ≤
      serviceSince s t := by
  obtain ⟨b', log, hb', ⟨e1, e2, e3, e4⟩, hI, hp⟩ := hL.service b0 h0
  rw [hb] at hb'; cases hb'
  obtain ⟨_, _, t, l1, l2, h1, h2, e, h3, h4⟩ := hI.refuse ht
  refine ⟨t, by omega, h2, ?_⟩
  unfold Bucket.tick at h4
  rw [e1, e2, e3, e4] at h4
  have h5 := count_ge (fun c : Nat × (Req × Phase) => serviceDue c.2.2) (fun d => decide (t ≤ d))
    (fun c => match serviceDue c.2.2 with
      | some d => decide (t ≤ d)
      | none => false) s.calls (by intro c _ d hd hp; rw [hd]; exact hp)
  have h6 := (hp.filter fun d => decide (t ≤ d)).length_eq
  have h7 : l1.length ≤ (log.filter fun d => decide (t ≤ d)).length := by
    rw [e, List.filter_append, List.filter_eq_self.mpr (fun d hd => decide_eq_true (h3 d hd)), List.length_append]
    omega
  unfold Spec.serviceSince
  unfold sLog at h6
  omega

theorem method_used {F : Filter} {s : St} (hL : LimInv F s) {m : Bytes} {b0 b : Bucket} (h0 : F.methods.load m = some b0)
    (hb : s.filter.methods.load m = some b) {wait : Int} (ht : (b.take s.now wait).1 = none) :
    ∃ t, b0.start ≤ t ∧ t ≤ s.now ∧ b0.capacity + b0.quantum * ((s.now + wait - b0.start) / b0.fill - (t - b0.start) / b0.fill) ≤
      methodSince s m t := by
  obtain ⟨b', log, hb', ⟨e1, e2, e3, e4⟩, hI, hp⟩ := hL.method m b0 h0
  rw [hb] at hb'; cases hb'
  obtain ⟨_, _, t, l1, l2, h1, h2, e, h3, h4⟩ := hI.refuse ht
  refine ⟨t, by omega, h2, ?_⟩
  unfold Bucket.tick at h4
  rw [e1, e2, e3, e4] at h4
  have h5 := count_ge (fun c : Nat × (Req × Phase) => if c.2.1.method = m then methodDue c.2.2 else none)
    (fun d => decide (t ≤ d))
    (fun c => match methodDue c.2.2 with
      | some d => decide (c.2.1.method = m) && decide (t ≤ d)
      | none => false) s.calls (by
        intro c _ d hd hp
        split at hd
        · rename_i hm; rw [hd]; simp only [hm, hp, decide_true, Bool.and_self]
        · cases hd)
  have h6 := (hp.filter fun d => decide (t ≤ d)).length_eq
  have h7 : l1.length ≤ (log.filter fun d => decide (t ≤ d)).length := by
    rw [e, List.filter_append, List.filter_eq_self.mpr (fun d hd => decide_eq_true (h3 d hd)), List.length_append]
    omega
  unfold Spec.methodSince
  unfold mLog at h6
  omega

theorem load_store_some {ν : Type} {m : AMap Nat ν} {k k' : Nat} {v w : ν} (h : (m.store k v).load k' = some w) :
    k' = k ∧ w = v ∨ m.load k' = some w := by
  by_cases hk : k = k'
  · subst hk; rw [AMap.load_store_self] at h; cases h; exact .inl ⟨rfl, rfl⟩
  · rw [AMap.load_store_ne _ _ hk] at h; exact .inr h

/-- What a refused call can look like after the second part. -/
theorem second_refused {s : St} {id id' : Nat} {r r' : Req} {arrived a t : Int} {sd sd' : Option Int}
    (h : (RateLimit.second s id r arrived sd).calls.load id' = some (r', .refused a sd' t)) :
    s.calls.load id' = some (r', .refused a sd' t) ∨
      t = s.now ∧ ∃ b, s.filter.methods.load r'.method = some b ∧ (b.take s.now (RateLimit.methodWait s.filter r')).1 = none := by
  rcases second_cases s id r arrived sd with ⟨hm, e⟩ | ⟨b, hb, ⟨ht, e⟩ | ⟨w, ht, e⟩⟩
  · rw [e] at h
    rcases load_store_some h with ⟨_, e⟩ | h
    · cases e
    · exact .inl h
  · rw [e] at h
    rcases load_store_some h with ⟨_, e⟩ | h
    · cases e; exact .inr ⟨rfl, b, hb, ht⟩
    · exact .inl h
  · rw [e] at h
    rcases load_store_some h with ⟨_, e⟩ | h
    · split at e <;> cases e
    · exact .inl h

/-- A call is refused at the time it asks for a token, and only when the tokens promised since some time are a full
bucket and all that will come in until the end of the wait: of the service, or of the call's method. -/
theorem limit_refused (parse : Bytes → Option Rat) (pace : Rat → Int × Int) (t0 : Int) (sw : Bool) (u : URL)
    (hok : LimOk pace u) (os : List Op) (s : St) (hs : play (fresh parse pace t0 sw u) os = some s) (o : Op) (s' : St)
    (hstep : step s o = some s') (id : Nat) (r : Req) (a t : Int) (sd : Option Int)
    (hnow : s'.calls.load id = some (r, .refused a sd t)) (hbefore : s.calls.load id ≠ some (r, .refused a sd t)) :
    t = s.now ∧
    ((∃ b t1, (fresh parse pace t0 sw u).filter.service = some b ∧ t0 ≤ t1 ∧ t1 ≤ t ∧
        b.capacity + b.quantum * ((t + (fresh parse pace t0 sw u).filter.maxWait - t0) / b.fill - (t1 - t0) / b.fill) ≤
          serviceSince s t1) ∨
     (∃ b t1, (fresh parse pace t0 sw u).filter.methods.load r.method = some b ∧ t0 ≤ t1 ∧ t1 ≤ t ∧
        b.capacity + b.quantum * ((t + RateLimit.methodWait (fresh parse pace t0 sw u).filter r - t0) / b.fill -
          (t1 - t0) / b.fill) ≤ methodSince s r.method t1)) := by
  have hL : LimInv (fresh parse pace t0 sw u).filter s := (LimInv.fresh hok).play hs
  generalize hF : (fresh parse pace t0 sw u).filter = F at hL ⊢
  have hmw : RateLimit.methodWait s.filter r = RateLimit.methodWait F r := by
    unfold RateLimit.methodWait; rw [hL.url]
  have hsrv : ∀ b, s.filter.service = some b → (b.take s.now s.filter.maxWait).1 = none →
      ∃ b t1, F.service = some b ∧ t0 ≤ t1 ∧ t1 ≤ s.now ∧
        b.capacity + b.quantum * ((s.now + F.maxWait - t0) / b.fill - (t1 - t0) / b.fill) ≤ serviceSince s t1 := by
    intro b hb ht
    cases hb0 : F.service with
    | none => rw [hL.noService hb0] at hb; cases hb
    | some b0 =>
      obtain ⟨t1, h1, h2, h3⟩ := service_used hL hb0 hb ht
      rw [service_start (hF ▸ hb0), hL.wait] at h3
      rw [service_start (hF ▸ hb0)] at h1
      exact ⟨b0, t1, rfl, h1, h2, h3⟩
  have hmth : ∀ b, s.filter.methods.load r.method = some b → (b.take s.now (RateLimit.methodWait s.filter r)).1 = none →
      ∃ b t1, F.methods.load r.method = some b ∧ t0 ≤ t1 ∧ t1 ≤ s.now ∧
        b.capacity + b.quantum * ((s.now + RateLimit.methodWait F r - t0) / b.fill - (t1 - t0) / b.fill) ≤
          methodSince s r.method t1 := by
    intro b hb ht
    cases hb0 : F.methods.load r.method with
    | none => rw [hL.noMethod _ hb0] at hb; cases hb
    | some b0 =>
      obtain ⟨t1, h1, h2, h3⟩ := method_used hL hb0 hb ht
      rw [method_start hok (hF ▸ hb0), hmw] at h3
      rw [method_start hok (hF ▸ hb0)] at h1
      exact ⟨b0, t1, rfl, h1, h2, h3⟩
  have hsec : ∀ s1 : St, s1.calls = s.calls → s1.now = s.now → s1.filter.methods = s.filter.methods →
      s1.filter.url = s.filter.url → ∀ id0 r0 arrived sd0,
      s' = RateLimit.second s1 id0 r0 arrived sd0 → t = s.now ∧ ∃ b t1, F.methods.load r.method = some b ∧ t0 ≤ t1 ∧ t1 ≤ s.now ∧
        b.capacity + b.quantum * ((s.now + RateLimit.methodWait F r - t0) / b.fill - (t1 - t0) / b.fill) ≤
          methodSince s r.method t1 := by
    intro s1 c1 c2 c3 c4 id0 r0 arrived sd0 e
    subst e
    rcases second_refused hnow with h | ⟨e, b, hb, ht⟩
    · rw [c1] at h; exact absurd h hbefore
    · have : RateLimit.methodWait s1.filter r = RateLimit.methodWait s.filter r := by
        unfold RateLimit.methodWait; rw [c4]
      rw [c2, this] at ht
      rw [c3] at hb
      exact ⟨e.trans c2, hmth b hb ht⟩
  cases o with
  | time x =>
    simp only [RateLimit.step] at hstep
    split at hstep
    · cases hstep; exact absurd hnow hbefore
    · cases hstep
  | setSwitch x =>
    simp only [RateLimit.step] at hstep
    cases hstep; exact absurd hnow hbefore
  | enter id0 r0 =>
    simp only [RateLimit.step] at hstep
    split at hstep
    · simp only [Option.some.injEq] at hstep
      by_cases hon : s.filter.switch = true
      · rcases first_cases s id0 r0 hon with ⟨hsv, e⟩ | ⟨b, hb, ⟨ht, e⟩ | ⟨w, _, ⟨hw, e⟩ | ⟨hw, e⟩⟩⟩
        · obtain ⟨h1, h2⟩ := hsec s rfl rfl rfl rfl _ _ _ _ (hstep.symm.trans e)
          subst h1; exact ⟨rfl, .inr h2⟩
        · rw [← hstep, e] at hnow
          rcases load_store_some hnow with ⟨_, e⟩ | h
          · cases e; exact ⟨rfl, .inl (hsrv b hb ht)⟩
          · exact absurd h hbefore
        · rw [← hstep, e] at hnow
          rcases load_store_some hnow with ⟨_, e⟩ | h
          · cases e
          · exact absurd h hbefore
        · obtain ⟨h1, h2⟩ := hsec (withService s _) rfl rfl rfl rfl _ _ _ _ (hstep.symm.trans e)
          subst h1; exact ⟨rfl, .inr h2⟩
      · rw [← hstep] at hnow
        unfold RateLimit.first at hnow
        rw [if_neg hon] at hnow
        rcases load_store_some hnow with ⟨_, e⟩ | h
        · cases e
        · exact absurd h hbefore
    · cases hstep
  | wake id0 =>
    simp only [RateLimit.step] at hstep
    split at hstep
    · split at hstep
      · simp only [Option.some.injEq] at hstep
        obtain ⟨h1, h2⟩ := hsec s rfl rfl rfl rfl _ _ _ _ hstep.symm
        subst h1; exact ⟨rfl, .inr h2⟩
      · cases hstep
    · split at hstep
      · simp only [Option.some.injEq] at hstep
        rw [← hstep] at hnow
        rcases load_store_some hnow with ⟨_, e⟩ | h
        · cases e
        · exact absurd h hbefore
      · cases hstep
    · cases hstep

/-- Where neither the service nor the method is limited, a call is passed on at once. -/
theorem limit_free (parse : Bytes → Option Rat) (pace : Rat → Int × Int) (t0 : Int) (sw : Bool) (u : URL)
    (hok : LimOk pace u) (os : List Op) (s : St) (hs : play (fresh parse pace t0 sw u) os = some s) (id : Nat) (r : Req)
    (h1 : (fresh parse pace t0 sw u).filter.service = none)
    (h2 : (fresh parse pace t0 sw u).filter.methods.load r.method = none) (s' : St) (hstep : step s (.enter id r) = some s') :
    s'.calls.load id = some (r, .passed s.now none none s.now) := by
  have hL : LimInv (fresh parse pace t0 sw u).filter s := (LimInv.fresh hok).play hs
  simp only [RateLimit.step] at hstep
  split at hstep
  · cases hstep
    unfold RateLimit.first
    rw [hL.noService h1]
    unfold RateLimit.second
    rw [hL.noMethod _ h2]
    split <;> exact AMap.load_store_self _ _ _
  · cases hstep

/-- While the switch is off, every call is passed on at once, and takes no tokens. -/
theorem limit_off (s : St) (id : Nat) (r : Req) (hoff : s.filter.switch = false) (s' : St)
    (hstep : step s (.enter id r) = some s') :
    s'.calls.load id = some (r, .passed s.now none none s.now) ∧ s'.filter = s.filter := by
  simp only [RateLimit.step] at hstep
  split at hstep
  · cases hstep
    unfold RateLimit.first
    rw [if_neg (by rw [hoff]; decide)]
    exact ⟨AMap.load_store_self _ _ _, rfl⟩
  · cases hstep

/-! ### How long a call waits -/

namespace Spec

/-- No sleeping call is left lying: time does not go on past the end of its sleep. -/
def Prompt (s : St) : List Op → Prop
  | [] => True
  | o :: os => (∀ t, o = .time t → ∀ id r, (∀ a d, s.calls.load id = some (r, .sleepService a d) → t ≤ d) ∧
      ∀ a sd d, s.calls.load id = some (r, .sleepMethod a sd d) → t ≤ d) ∧
    ∀ s', RateLimit.step s o = some s' → Prompt s' os

/-- The longest wait of a call that arrived at `a`. -/
def waitOk (F : Filter) (now : Int) (r : Req) : Phase → Prop
  | .sleepService a d => now ≤ d ∧ d ≤ a + max 0 F.maxWait
  | .sleepMethod a _ d => now ≤ d ∧ d ≤ a + max 0 F.maxWait + max 0 (RateLimit.methodWait F r)
  | .passed a _ _ t => t ≤ a + max 0 F.maxWait + max 0 (RateLimit.methodWait F r)
  | .refused a _ t => t ≤ a + max 0 F.maxWait

end Spec

open Spec (Prompt waitOk)

structure WaitInv (F : Filter) (s : St) : Prop where
  ok : ∀ id r ph, s.calls.load id = some (r, ph) → waitOk F s.now r ph

theorem take_wait {b : Bucket} {log : List Int} {now maxWait w : Int} (h : BucketInv b log now)
    (ht : (b.take now maxWait).1 = some w) : w ≤ max 0 maxWait := by
  rcases take_spec (maxWait := maxWait) h with ⟨w', w0, w1, e1, _⟩ | ⟨e1, _⟩
  · rw [ht] at e1; cases e1; omega
  · rw [ht] at e1; cases e1

theorem WaitInv.store {F : Filter} {s : St} {f : Filter} {id : Nat} {r : Req} {ph : Phase} (h : WaitInv F s)
    (hph : waitOk F s.now r ph) : WaitInv F { s with filter := f, calls := s.calls.store id (r, ph) } := by
  refine ⟨fun id' r' ph' hl => ?_⟩
  rcases load_store_some hl with ⟨_, e⟩ | hl
  · cases e; exact hph
  · exact h.ok id' r' ph' hl

theorem WaitInv.second {F : Filter} {s s1 : St} (h : WaitInv F s) (hL : LimInv F s) (hc : s1.calls = s.calls) (hn : s1.now = s.now)
    (hm : s1.filter.methods = s.filter.methods) (hu : s1.filter.url = s.filter.url) (id : Nat) (r : Req) (a : Int)
    (sd : Option Int) (ha : s.now ≤ a + max 0 F.maxWait) : WaitInv F (RateLimit.second s1 id r a sd) := by
  have h1 : WaitInv F s1 := ⟨fun id r ph hl => by rw [hn]; exact h.ok id r ph (hc ▸ hl)⟩
  have hmw : RateLimit.methodWait s1.filter r = RateLimit.methodWait F r := by
    unfold RateLimit.methodWait; rw [hu, hL.url]
  rcases second_cases s1 id r a sd with ⟨_, e⟩ | ⟨b, hb, ⟨ht, e⟩ | ⟨w, ht, e⟩⟩
  · rw [e]
    refine h1.store ?_
    show s1.now ≤ _
    omega
  · rw [e]
    refine h1.store ?_
    show s1.now ≤ _
    omega
  · rw [e]
    refine h1.store ?_
    have hw : w ≤ max 0 (RateLimit.methodWait F r) := by
      rw [hm] at hb
      rw [hn, hmw] at ht
      cases hb0 : F.methods.load r.method with
      | none => rw [hL.noMethod _ hb0] at hb; cases hb
      | some b0 =>
        obtain ⟨b', log, hb', _, hI, _⟩ := hL.method _ b0 hb0
        rw [hb] at hb'; cases hb'
        exact take_wait hI ht
    split
    · show s1.now ≤ s1.now + w ∧ s1.now + w ≤ _
      omega
    · show s1.now ≤ _
      omega

theorem WaitInv.step {F : Filter} {s s' : St} {o : Op} (h : WaitInv F s) (hL : LimInv F s)
    (hp : ∀ t, o = .time t → ∀ id r, (∀ a d, s.calls.load id = some (r, .sleepService a d) → t ≤ d) ∧
      ∀ a sd d, s.calls.load id = some (r, .sleepMethod a sd d) → t ≤ d)
    (hs : step s o = some s') : WaitInv F s' := by
  cases o with
  | time t =>
    simp only [RateLimit.step] at hs
    split at hs
    · cases hs
      refine ⟨fun id r ph hl => ?_⟩
      have h1 := h.ok id r ph hl
      have h2 := hp t rfl id r
      cases ph with
      | sleepService a d => exact ⟨h2.1 a d hl, h1.2⟩
      | sleepMethod a sd d => exact ⟨h2.2 a sd d hl, h1.2⟩
      | passed => exact h1
      | refused => exact h1
    · cases hs
  | setSwitch b =>
    simp only [RateLimit.step] at hs
    cases hs
    exact ⟨h.ok⟩
  | enter id r =>
    simp only [RateLimit.step] at hs
    split at hs
    · rename_i hid
      cases hs
      by_cases hon : s.filter.switch = true
      · rcases first_cases s id r hon with ⟨hsv, e⟩ | ⟨b, hb, ⟨ht, e⟩ | ⟨w, ht, ⟨hw, e⟩ | ⟨hw, e⟩⟩⟩
        · rw [e]; exact h.second hL rfl rfl rfl rfl id r _ _ (by omega)
        · rw [e]; refine h.store ?_; show s.now ≤ _; omega
        · rw [e]; refine h.store ?_
          have : w ≤ max 0 F.maxWait := by
            cases hb0 : F.service with
            | none => rw [hL.noService hb0] at hb; cases hb
            | some b0 =>
              obtain ⟨b', log, hb', _, hI, _⟩ := hL.service b0 hb0
              rw [hb] at hb'; cases hb'
              rw [← hL.wait]; exact take_wait hI ht
          show s.now ≤ s.now + w ∧ s.now + w ≤ _
          omega
        · rw [e]; exact h.second (s1 := withService s _) hL rfl rfl rfl rfl id r s.now _ (by omega)
      · unfold RateLimit.first
        rw [if_neg hon]
        refine h.store ?_
        show s.now ≤ _
        omega
    · cases hs
  | wake id =>
    simp only [RateLimit.step] at hs
    split at hs
    · rename_i r arrived due hl
      split at hs
      · cases hs
        have := h.ok _ _ _ hl
        exact h.second hL rfl rfl rfl rfl id r _ _ (by have h1 := this.1; have h2 := this.2; omega)
      · cases hs
    · rename_i r arrived sDue due hl
      split at hs
      · cases hs
        have := h.ok _ _ _ hl
        refine h.store ?_
        show s.now ≤ _
        have h1 := this.1; have h2 := this.2; omega
      · cases hs
    · cases hs

theorem WaitInv.play {F : Filter} {s s' : St} {os : List Op} (h : WaitInv F s) (hL : LimInv F s) (hp : Prompt s os)
    (hs : play s os = some s') : WaitInv F s' := by
  induction os generalizing s with
  | nil => simp only [RateLimit.play] at hs; cases hs; exact h
  | cons o os ih =>
    simp only [RateLimit.play] at hs
    obtain ⟨s1, h1, h2⟩ := Option.bind_eq_some_iff.mp hs
    exact ih (h.step hL hp.1 h1) (hL.step h1) (hp.2 s1 h1) h2

/-- No call sleeps longer than the two waits together, and a refused one not longer than the first. -/
theorem limit_wait (parse : Bytes → Option Rat) (pace : Rat → Int × Int) (t0 : Int) (sw : Bool) (u : URL)
    (hok : LimOk pace u) (os : List Op) (hp : Prompt (fresh parse pace t0 sw u) os) (s : St)
    (hs : play (fresh parse pace t0 sw u) os = some s) (id : Nat) (r : Req) (ph : Phase)
    (hl : s.calls.load id = some (r, ph)) : waitOk (fresh parse pace t0 sw u).filter s.now r ph :=
  (WaitInv.play ⟨fun _ _ _ h => by cases h⟩ (LimInv.fresh hok) hp hs).ok id r ph hl

/-- The waits: the service's timeout, and the request's own or else its method's. -/
theorem limit_wait_config (parse : Bytes → Option Rat) (pace : Rat → Int × Int) (t0 : Int) (sw : Bool) (u : URL) :
    (u.param b!"requestTimeout" = none → (fresh parse pace t0 sw u).filter.maxWait = 1000 * 1000000) ∧
    (∀ v n, u.param b!"requestTimeout" = some v → parseInt64 v = (n, none) → -2 ^ 31 ≤ n → n < 2 ^ 31 →
      (fresh parse pace t0 sw u).filter.maxWait = n * 1000000) ∧
    (∀ r n, r.tmo ≠ [] → parseInt64 r.tmo = (n, none) → -2 ^ 43 ≤ n → n < 2 ^ 43 →
      RateLimit.methodWait (fresh parse pace t0 sw u).filter r = n * 1000000) ∧
    (∀ r, r.tmo = [] → (getMethodPositiveIntValue u r.method r.desc b!"requestTimeout" 1000).1 < 2 ^ 43 →
      RateLimit.methodWait (fresh parse pace t0 sw u).filter r =
        (getMethodPositiveIntValue u r.method r.desc b!"requestTimeout" 1000).1 * 1000000) := by
  refine ⟨fun h => ?_, fun v n h1 h2 h3 h4 => ?_, fun r n h1 h2 h3 h4 => ?_, fun r h1 h2 => ?_⟩
  · show RateLimit.getTimeMs u _ _ * _ = _
    unfold RateLimit.getTimeMs; rw [h]; rfl
  · show RateLimit.getTimeMs u _ _ * _ = _
    unfold RateLimit.getTimeMs; rw [h1, Option.map_some, h2]
    dsimp only
    rw [if_pos ⟨h3, h4⟩]
  · unfold RateLimit.methodWait
    rw [if_pos h1, h2]
    unfold RateLimit.wrap64
    dsimp only
    omega
  · unfold RateLimit.methodWait
    rw [if_neg (by rw [h1]; simp)]
    have : 1 ≤ (getMethodPositiveIntValue u r.method r.desc b!"requestTimeout" 1000).1 :=
      positive_method_value _ _ _ _ _ (by decide)
    show RateLimit.wrap64 ((getMethodPositiveIntValue u r.method r.desc b!"requestTimeout" 1000).1 * 1000000) = _
    unfold RateLimit.wrap64
    omega

/-- C71: a waiting time that does not fit in 64 bits is what is left of it in 64 bits, with a sign. -/
theorem wait_wraps (n : Int) :
    -(2 ^ 63) ≤ RateLimit.wrap64 n ∧ RateLimit.wrap64 n < 2 ^ 63 ∧ ∃ k, RateLimit.wrap64 n = n + k * 2 ^ 64 := by
  unfold RateLimit.wrap64
  exact ⟨by omega, by omega, -((n + 2 ^ 63) / 2 ^ 64), by omega⟩

/-! ### What the limits do not give -/

/-- Whole numbers as rates. -/
def limParse (v : Bytes) : Option Rat :=
  match parseInt64 v with
  | (n, none) => some n
  | _ => none

/-- One token a second, or one every half second. -/
def limPace (r : Rat) : Int × Int := (1, if r = 1 then 1000000000 else 500000000)

theorem limPace_ok (r : Rat) (_ : 0 < r) : 0 < (limPace r).1 ∧ 0 < (limPace r).2 := by
  unfold limPace
  refine ⟨Int.one_pos, ?_⟩
  dsimp only
  split <;> decide

/-- A service with one call a second and room for two, whose method `a` is limited to one call a second, with room
for one. -/
def limUrl (timeout : Bytes) : URL :=
  { path := b!"svc", params := some [(b!"rateLimit", b!"1"), (b!"capacity", b!"2"), (b!"rateLimit.a", b!"1"),
      (b!"a().capacity", b!"1"), (b!"requestTimeout", timeout)] }

theorem limUrl_ok (v : Bytes) : LimOk limPace (limUrl v) :=
  ⟨limPace_ok, fun ps h => by
    cases h
    show (List.map Prod.fst _).Nodup
    simp only [List.map_cons, List.map_nil]
    decide +kernel⟩

def limStart (timeout : Bytes) : St := fresh limParse limPace 0 true (limUrl timeout)

/-- Calls that a method's limit refuses use up the service's tokens: one call has been passed on, and a call of an
unlimited method is refused although the service has room for two. -/
def limStarve : List Op :=
  [.enter 0 ⟨b!"a", [], b!"0"⟩, .enter 1 ⟨b!"a", [], b!"0"⟩, .enter 2 ⟨b!"b", [], b!"0"⟩]

theorem limit_shared_violated : ∃ s, play (limStart b!"0") limStarve = some s ∧
    s.calls.load 2 = some (⟨b!"b", [], b!"0"⟩, .refused 0 none 0) ∧ passedBy s (fun _ => true) 0 = 1 ∧
    (limStart b!"0").filter.service.map (·.capacity) = some 2 ∧ (limStart b!"0").filter.methods.load b!"b" = none := by
  have h : (play (limStart b!"0") limStarve).isSome = true := by decide +kernel
  obtain ⟨s, hs⟩ := Option.isSome_iff_exists.mp h
  refine ⟨s, hs, ?_⟩
  have hg : s = (play (limStart b!"0") limStarve).getD (limStart b!"0") := by rw [hs]; rfl
  rw [hg]
  decide +kernel

/-- A call with a misspelt timeout does not wait at all: it is refused where one without a timeout waits. -/
def limBad (tmo : Bytes) : List Op := [.enter 0 ⟨b!"a", [], []⟩, .enter 1 ⟨b!"a", [], tmo⟩]

theorem limit_timeout_violated :
    (play (limStart b!"1000") (limBad b!"1s")).map (fun s => s.calls.load 1) =
      some (some (⟨b!"a", [], b!"1s"⟩, .refused 0 (some 0) 0)) ∧
    (play (limStart b!"1000") (limBad [])).map (fun s => s.calls.load 1) =
      some (some (⟨b!"a", [], []⟩, .sleepMethod 0 (some 0) 1000000000)) := by decide +kernel

/-- `Prompt`, as a check. -/
def promptB (s : St) : List Op → Bool
  | [] => true
  | o :: os =>
    (match o with
      | .time t => s.calls.all fun c => match c.2.2 with
          | .sleepService _ d => decide (t ≤ d)
          | .sleepMethod _ _ d => decide (t ≤ d)
          | _ => true
      | _ => true) &&
    match step s o with
    | some s' => promptB s' os
    | none => true

theorem prompt_of_check {s : St} {os : List Op} (h : promptB s os = true) : Prompt s os := by
  induction os generalizing s with
  | nil => trivial
  | cons o os ih =>
    simp only [promptB, Bool.and_eq_true] at h
    refine ⟨fun t e id r => ?_, fun s' hs => ih ?_⟩
    · subst e
      have h1 := List.all_eq_true.mp h.1
      refine ⟨fun a d hl => ?_, fun a sd d hl => ?_⟩
      · have := h1 _ (AMap.mem_of_load hl)
        exact of_decide_eq_true this
      · have := h1 _ (AMap.mem_of_load hl)
        exact of_decide_eq_true this
    · have h2 := h.2
      rw [hs] at h2
      exact h2

/-- A service with two calls a second whose method `a` is limited to one, both with room for one and a timeout of one
second. -/
def limUrl1 : URL :=
  { path := b!"svc", params := some [(b!"rateLimit", b!"2"), (b!"capacity", b!"1"), (b!"rateLimit.a", b!"1"),
      (b!"requestTimeout", b!"1000")] }

theorem limUrl1_ok : LimOk limPace limUrl1 :=
  ⟨limPace_ok, fun ps h => by cases h; unfold AMap.NodupKeys; decide +kernel⟩

def limSlowStart : St := fresh limParse limPace 0 true limUrl1

/-- Three calls of `a`; everyone wakes up on time. -/
def limSlow : List Op :=
  [.enter 0 ⟨b!"a", [], b!"1000"⟩, .enter 1 ⟨b!"a", [], b!"1000"⟩, .enter 2 ⟨b!"a", [], b!"1000"⟩,
   .time 500000000, .wake 1, .time 1000000000, .wake 1, .wake 2, .time 2000000000, .wake 2]

/-- The two waits add up: a call with a timeout of one second, to a service with a timeout of one second, is passed on
two seconds after it arrived, though nobody woke up late. -/
theorem limit_wait_violated : Prompt limSlowStart limSlow ∧ ∃ s, play limSlowStart limSlow = some s ∧
    s.calls.load 2 = some (⟨b!"a", [], b!"1000"⟩, .passed 0 (some 1000000000) (some 2000000000) 2000000000) := by
  refine ⟨prompt_of_check (by decide +kernel), ?_⟩
  have h : (play limSlowStart limSlow).isSome = true := by decide +kernel
  obtain ⟨s, hs⟩ := Option.isSome_iff_exists.mp h
  refine ⟨s, hs, ?_⟩
  have hg : s = (play limSlowStart limSlow).getD limSlowStart := by rw [hs]; rfl
  rw [hg]
  decide +kernel

/-! ### The hypotheses are met -/

/-- Both limits exist in the examples, and the histories above are histories with the switch on. -/
example : (limStart b!"0").filter.service = some { start := 0, capacity := 2, quantum := 1, fill := 1000000000, avail := 2, latest := 0 } ∧
    (limStart b!"0").filter.methods.load b!"a" =
      some { start := 0, capacity := 1, quantum := 1, fill := 1000000000, avail := 1, latest := 0 } := by decide +kernel

example : StaysOn limStarve ∧ StaysOn limSlow := by
  constructor <;> intro b hb <;> simp [limStarve, limSlow] at hb

/-- The bounds on the calls passed on are reached: one call of `a` at the start, three in two seconds. -/
example : (play limSlowStart limSlow).map (fun s => (passedBy s (fun x => decide (x = b!"a")) 0,
    passedBy s (fun x => decide (x = b!"a")) 2000000000)) = some (1, 3) ∧
    (limSlowStart.filter.methods.load b!"a").map (fun b => b.capacity + b.quantum * ((2000000000 - 0) / b.fill)) = some 3 := by
  decide +kernel

/-- A refusal by a method, and one by the service. -/
example : (play (limStart b!"0") limStarve).map (fun s => (s.calls.load 1, s.calls.load 2)) =
    some (some (⟨b!"a", [], b!"0"⟩, .refused 0 (some 0) 0), some (⟨b!"b", [], b!"0"⟩, .refused 0 none 0)) := by
  decide +kernel

/-- Without limits, and with the switch off. -/
example : (fresh limParse limPace 0 true { params := some [(b!"rateLimit.a", b!"1")] }).filter.service = none ∧
    (fresh limParse limPace 0 true { params := some [(b!"rateLimit.a", b!"1")] }).filter.methods.load b!"b" = none ∧
    (play (limStart b!"0") [.setSwitch false]).map (fun s => s.filter.switch) = some false := by decide +kernel

end Motan.Props
