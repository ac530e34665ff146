import Verif.Props.BreakerRandom

/-!
# C110: what a server that fails all its calls costs when calls are under way at the same time
-/

namespace Motan.Props

open Convert (Response)
open Breaker

variable {E : Type} [DecidableEq E]

namespace Spec

/-- How many calls were given to `e`. (Newest event first.) -/
def givenIn (sel : Sel E) (e : E) : List (Event E) → Nat
  | [] => 0
  | .select now up r1 r2 :: h => givenIn sel e h + (if sel h now up r1 r2 = some e then 1 else 0)
  | _ :: h => givenIn sel e h

/-- How many calls to `e` have ended. -/
def endedIn (e : E) : List (Event E) → Nat
  | [] => 0
  | .ended x _ _ :: h => endedIn e h + (if x = e then 1 else 0)
  | _ :: h => endedIn e h

/-- No call to `e` succeeds: no response, or one with an exception. -/
def NeverWorks (e : E) (h : List (Event E)) : Prop :=
  ∀ r now, Event.ended e (some r) now ∈ h → r.exception ≠ none

/-- At no time more than `k` calls to `e` are under way. (What has happened at some time is the rest of the list.) -/
def UnderWay (sel : Sel E) (e : E) (k : Nat) (h : List (Event E)) : Prop :=
  ∀ past, past <:+ h → givenIn sel e past ≤ endedIn e past + k

end Spec

private theorem never_failures {e : E} (h : List (Event E)) (hn : Spec.NeverWorks e h) : Spec.failures e h = Spec.endedIn e h := by
  induction h with
  | nil => rfl
  | cons ev h ih =>
    have ih' := ih fun r now hm => hn r now (.tail _ hm)
    cases ev with
    | select now up r1 r2 => exact ih'
    | asked x up now => exact ih'
    | ended x r now =>
      rw [Spec.endedIn]
      by_cases hx : x = e
      · subst hx
        rw [if_pos rfl]
        cases r with
        | none => simp only [Spec.failures, if_true, ih']
        | some r => simp only [Spec.failures, if_true, if_neg (hn r now (.head _)), ih']
      · rw [if_neg hx, Nat.add_zero, ← ih']
        cases r <;> simp only [Spec.failures, if_neg hx]

private theorem given_le (sel : Spec.Sel E) {e : E} {k : Nat} (hk : 0 < k) (h : List (Event E)) (hn : Spec.NeverWorks e h)
    (hu : Spec.UnderWay sel e k h) : Spec.givenIn sel e h ≤ 9 + k + (Spec.tries sel e h).length := by
  induction h with
  | nil => simp [Spec.givenIn]
  | cons ev h ih =>
    have hn' : Spec.NeverWorks e h := fun r now hm => hn r now (.tail _ hm)
    have ih' := ih hn' fun past hp => hu past (hp.trans (List.suffix_cons ev h))
    cases ev with
    | asked x up now => exact ih'
    | ended x r now => exact ih'
    | select now up r1 r2 =>
      have hnow := hu _ List.suffix_rfl
      have he : Spec.endedIn e (.select now up r1 r2 :: h) = Spec.failures e h := (never_failures h hn').symm
      rw [he] at hnow
      rw [Spec.tries]
      by_cases h10 : 10 ≤ Spec.failures e h
      · rw [Spec.givenIn]
        by_cases hs : sel h now up r1 r2 = some e
        · rw [if_pos hs, if_pos ⟨hs, h10⟩, List.length_cons]; omega
        · rw [if_neg hs, if_neg (fun hc => hs hc.1)]; exact ih'
      · rw [if_neg (fun hc => h10 hc.2)]; omega

private theorem load_of {sel : Spec.Sel E} (hrate : BreakerRated sel) {e : E} {k : Nat} (hk : 0 < k) (h : List (Event E))
    (ho : Spec.Ordered h) (hn : Spec.NeverWorks e h) (hu : Spec.UnderWay sel e k h) (a b : Int) (hab : a ≤ b)
    (ht : ∀ ev ∈ h, a ≤ Spec.timeOf ev ∧ Spec.timeOf ev ≤ b) :
    (Spec.givenIn sel e h : Int) ≤ 10 + k + (b - a) / (10 * 10 ^ 9) := by
  have h1 := given_le sel hk h hn hu
  have h2 := hrate h ho e a b hab
  have h3 : Spec.inPeriod (Spec.tries sel e h) a b = (Spec.tries sel e h).length := by
    apply List.countP_eq_length.mpr
    intro t hm
    obtain ⟨ev, h4, h5⟩ := breaker_tries_time sel e h t hm
    have := ht ev h4
    rw [h5] at this
    simp [this]
  rw [h3] at h2
  omega

/-- **C110.** Calls, and their attempts, may be under way at the same time, and the address may be used by other clusters: a server
whose calls all fail is given at most ten calls, as many as may be under way at the same time, and one for every ten seconds. -/
theorem breaker_load (t0 : Int) (c0 : UInt32) (eps : List E) {e : E} {k : Nat} (hk : 0 < k) (h : List (Event E))
    (ho : Spec.Ordered h) (hn : Spec.NeverWorks e h) (hu : Spec.UnderWay (rrAfter t0 c0 eps) e k h) (a b : Int) (hab : a ≤ b)
    (ht : ∀ ev ∈ h, a ≤ Spec.timeOf ev ∧ Spec.timeOf ev ≤ b) :
    (Spec.givenIn (rrAfter t0 c0 eps) e h : Int) ≤ 10 + k + (b - a) / (10 * 10 ^ 9) :=
  load_of (breaker_rate t0 c0 eps) hk h ho hn hu a b hab ht

/-- **C110.** The same of the weighted load balancer, when it does not use its sliding window. -/
theorem weighted_load (t0 : Int) (c0 : BitVec 64) (eps : List E) {weights : List Nat} {draws : List (Nat × Nat)} {sel : Lb.Selector}
    (hpos : ∀ w ∈ weights, 0 < w) (hlen : weights.length = eps.length)
    (hsel : Lb.chooseSelector weights draws = some sel) (hw : ∀ n ws, sel ≠ .window n ws) {e : E} {k : Nat} (hk : 0 < k)
    (h : List (Event E)) (ho : Spec.Ordered h) (hn : Spec.NeverWorks e h) (hu : Spec.UnderWay (wAfter t0 c0 eps sel) e k h)
    (a b : Int) (hab : a ≤ b) (ht : ∀ ev ∈ h, a ≤ Spec.timeOf ev ∧ Spec.timeOf ev ≤ b) :
    (Spec.givenIn (wAfter t0 c0 eps sel) e h : Int) ≤ 10 + k + (b - a) / (10 * 10 ^ 9) :=
  load_of (weighted_rate t0 c0 eps hpos hlen hsel hw) hk h ho hn hu a b hab ht

/-- **C110.** The same of the random load balancer. -/
theorem random_load (t0 : Int) (eps : List E) {e : E} {k : Nat} (hk : 0 < k) (h : List (Event E)) (ho : Spec.Ordered h)
    (hn : Spec.NeverWorks e h) (hu : Spec.UnderWay (xAfter t0 (randomLb eps)) e k h) (a b : Int) (hab : a ≤ b)
    (ht : ∀ ev ∈ h, a ≤ Spec.timeOf ev ∧ Spec.timeOf ev ≤ b) :
    (Spec.givenIn (xAfter t0 (randomLb eps)) e h : Int) ≤ 10 + k + (b - a) / (10 * 10 ^ 9) :=
  load_of (random_rate eps t0) hk h ho hn hu a b hab ht

/-- **C110.** The same of consistent hash, with more than one server. -/
theorem hash_load (t0 : Int) (eps : List E) {ring : Lb.HashRing E} {key : Nat → Bytes} {draw : Nat → Nat} (h1 : eps.length ≠ 1)
    (hl : ∀ k, key k ≠ [] → ring.locate (key k) ∈ eps) {e : E} {k : Nat} (hk : 0 < k) (h : List (Event E)) (ho : Spec.Ordered h)
    (hn : Spec.NeverWorks e h) (hu : Spec.UnderWay (xAfter t0 (hashLb ring eps key draw)) e k h) (a b : Int) (hab : a ≤ b)
    (ht : ∀ ev ∈ h, a ≤ Spec.timeOf ev ∧ Spec.timeOf ev ≤ b) :
    (Spec.givenIn (xAfter t0 (hashLb ring eps key draw)) e h : Int) ≤ 10 + k + (b - a) / (10 * 10 ^ 9) :=
  load_of (hash_rate eps h1 hl t0) hk h ho hn hu a b hab ht

/-! ### Cases -/

namespace BreakerConcurrentEx

open BreakerEx (sec good)

/-- Every second four calls that are under way at the same time: two of them go to `false`, and fail. (Newest first.) -/
def bursts : Nat → List (Event Bool)
  | 0 => []
  | n + 1 => [.ended false none (n * sec + 2), .ended false none (n * sec + 2), .ended true (some good) (n * sec + 1),
      .ended true (some good) (n * sec + 1), .select (n * sec) (fun _ => true) 0 0, .select (n * sec) (fun _ => true) 0 0,
      .select (n * sec) (fun _ => true) 0 0, .select (n * sec) (fun _ => true) 0 0] ++ bursts n

/-- Five of them, and six more calls after twenty seconds, of which one goes to `false`. -/
def hist : List (Event Bool) := List.replicate 6 (.select (20 * sec) (fun _ => true) 0 0) ++ bursts 5

end BreakerConcurrentEx

open BreakerEx (sec good) in
open BreakerConcurrentEx in
/-- The hypotheses of `breaker_load`, and the numbers: eleven calls were given to `false`, 14 may be. -/
example : Spec.Ordered hist ∧ Spec.NeverWorks false hist ∧ Spec.UnderWay (rrAfter (-sec) 0 [false, true]) false 2 hist ∧
    (∀ ev ∈ hist, 0 ≤ Spec.timeOf ev ∧ Spec.timeOf ev ≤ 20 * sec) ∧
    Spec.givenIn (rrAfter (-sec) 0 [false, true]) false hist = 11 ∧ 10 + 2 + (20 * sec - 0) / (10 * 10 ^ 9) = 14 := by
  refine ⟨?_, ?_, ?_, by decide +kernel, by decide +kernel, by decide +kernel⟩
  · unfold Spec.Ordered; decide +kernel
  · intro r now hm
    simp [hist, bursts, List.mem_replicate] at hm
  · intro past hp
    rw [List.suffix_iff_eq_drop.mp hp]
    have : ∀ n, n ≤ hist.length → Spec.givenIn (rrAfter (-sec) 0 [false, true]) false (hist.drop n) ≤
        Spec.endedIn false (hist.drop n) + 2 := by decide +kernel
    exact this _ (Nat.sub_le _ _)

end Motan.Props
