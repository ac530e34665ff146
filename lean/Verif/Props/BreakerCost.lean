import Verif.Props.BreakerWeighted

/-!
# C110: what servers that fail all their calls cost
-/

namespace Motan.Props

open Convert (Response)
open Breaker

variable {E : Type} [DecidableEq E]

namespace Spec

/-- What a load balancer selects: after a history, at a time, with the servers that have a connection, and two random numbers. -/
abbrev Sel (E : Type) := List (Event E) → Int → (E → Bool) → Nat → Nat → Option E

/-- What an attempt selects after the attempts before it. -/
def attemptGoesTo (sel : Sel E) (answer : E → Option Response) (before : List (Attempt E)) (a : Attempt E) :
    Option E := sel (serial sel answer before) a.now a.up a.r1 a.r2

/-- How many attempts are given to `e`. -/
def givenTo (sel : Sel E) (answer : E → Option Response) (e : E) : List (Attempt E) → Nat
  | [] => 0
  | a :: l => givenTo sel answer e l + (if attemptGoesTo sel answer l a = some e then 1 else 0)

/-- A server that answers every call, and without an exception. -/
def answersWell (answer : E → Option Response) (e : E) : Bool :=
  match answer e with
  | some r => r.exception.isNone
  | none => false

/-- Whether an attempt, after those before it, is given to a server that answers well. -/
def succeeds (sel : Sel E) (answer : E → Option Response) (before : List (Attempt E)) (a : Attempt E) :
    Bool :=
  match attemptGoesTo sel answer before a with
  | some e => answersWell answer e
  | none => false

/-- Whether one of the attempts of a call does. (Newest first.) -/
def callSucceeds (sel : Sel E) (answer : E → Option Response) (before : List (Attempt E)) :
    List (Attempt E) → Bool
  | [] => false
  | a :: c => callSucceeds sel answer before c || succeeds sel answer (c ++ before) a

/-- How many calls fail, each of them a list of attempts. (Newest first.) -/
def failedCalls (sel : Sel E) (answer : E → Option Response) : List (List (Attempt E)) → Nat
  | [] => 0
  | c :: cs => failedCalls sel answer cs + (if callSucceeds sel answer cs.flatten c then 0 else 1)

end Spec

variable (sel : Spec.Sel E) (answer : E → Option Response)

private theorem serial_cons (a : Attempt E) (l : List (Attempt E)) :
    serial sel answer (a :: l) = match Spec.attemptGoesTo sel answer l a with
      | some e => .ended e (answer e) a.done :: .select a.now a.up a.r1 a.r2 :: serial sel answer l
      | none => .select a.now a.up a.r1 a.r2 :: serial sel answer l := rfl

private theorem failures_other {e x : E} (hx : x ≠ e) (r : Option Response) (t : Int) (h : List (Event E)) :
    Spec.failures e (.ended x r t :: h) = Spec.failures e h := by
  cases r <;> simp only [Spec.failures, if_neg hx]

private theorem failures_bad {e : E} (hb : Spec.answersWell answer e = false) (t : Int) (h : List (Event E)) :
    Spec.failures e (.ended e (answer e) t :: h) = Spec.failures e h + 1 := by
  cases hr : answer e with
  | none => simp only [Spec.failures, if_true]
  | some r =>
    have : r.exception ≠ none := fun h0 => by simp [Spec.answersWell, hr, h0] at hb
    simp only [Spec.failures, if_true, if_neg this]

/-- A server that fails all its calls has failed as often as it was called. -/
private theorem serial_failures {e : E} (hb : Spec.answersWell answer e = false) (l : List (Attempt E)) :
    Spec.failures e (serial sel answer l) = Spec.givenTo sel answer e l := by
  induction l with
  | nil => rfl
  | cons a l ih =>
    rw [serial_cons, Spec.givenTo]
    cases hs : Spec.attemptGoesTo sel answer l a with
    | none => simpa [Spec.failures] using ih
    | some x =>
      by_cases hx : x = e
      · subst hx
        simp only [if_true]
        rw [failures_bad answer hb, ← ih]; rfl
      · simp only [Option.some.injEq, if_neg hx, Nat.add_zero]
        rw [failures_other hx, ← ih]; rfl

private theorem serial_works {e : E} (hb : Spec.answersWell answer e = true) (l : List (Attempt E)) :
    Spec.failures e (serial sel answer l) = 0 := by
  induction l with
  | nil => rfl
  | cons a l ih =>
    rw [serial_cons]
    cases hs : Spec.attemptGoesTo sel answer l a with
    | none => exact ih
    | some x =>
      by_cases hx : x = e
      · subst hx
        cases hr : answer x with
        | none => simp [Spec.answersWell, hr] at hb
        | some r =>
          have h2 : r.exception = none := by simpa [Spec.answersWell, hr] using hb
          simp only [hr, Spec.failures, if_true, h2]
      · simp only
        rw [failures_other hx]; exact ih

abbrev triesOf (e : E) (h : List (Event E)) : List Int :=
  Spec.tries sel e h

private theorem givenTo_le {e : E} (hb : Spec.answersWell answer e = false) (l : List (Attempt E)) :
    Spec.givenTo sel answer e l ≤ 10 + (triesOf sel e (serial sel answer l)).length := by
  induction l with
  | nil => simp [Spec.givenTo]
  | cons a l ih =>
    have hf := serial_failures sel answer hb l
    have htr : triesOf sel e (serial sel answer (a :: l)) =
        triesOf sel e (.select a.now a.up a.r1 a.r2 :: serial sel answer l) := by
      rw [serial_cons]
      cases Spec.attemptGoesTo sel answer l a <;> rfl
    rw [htr, Spec.givenTo]
    simp only [triesOf, Spec.tries]
    by_cases hs : Spec.attemptGoesTo sel answer l a = some e
    · rw [if_pos hs]
      by_cases h10 : 10 ≤ Spec.failures e (serial sel answer l)
      · rw [if_pos ⟨hs, h10⟩, List.length_cons]
        simp only [triesOf] at ih
        omega
      · rw [if_neg (fun h => h10 h.2)]
        omega
    · rw [if_neg hs, if_neg (fun h => hs h.1)]
      simpa [triesOf] using ih

theorem breaker_tries_time (e : E) (h : List (Event E)) : ∀ t ∈ triesOf sel e h, ∃ ev ∈ h, Spec.timeOf ev = t := by
  induction h with
  | nil => intro t ht; cases ht
  | cons ev h ih =>
    intro t ht
    have old : t ∈ triesOf sel e h → ∃ ev' ∈ ev :: h, Spec.timeOf ev' = t := fun ht =>
      let ⟨x, h1, h2⟩ := ih t ht; ⟨x, .tail _ h1, h2⟩
    cases ev with
    | ended x r now => exact old ht
    | asked x up now => exact old ht
    | select now up r1 r2 =>
      simp only [triesOf, Spec.tries] at ht
      split at ht
      · rcases List.mem_cons.mp ht with ht | ht
        · exact ⟨_, .head _, ht.symm⟩
        · exact old ht
      · exact old ht

abbrev BreakerRated : Prop := ∀ h : List (Event E), Spec.Ordered h → ∀ (e : E) (a b : Int), a ≤ b →
  (Spec.inPeriod (Spec.tries sel e h) a b : Int) ≤ (b - a) / (10 * 10 ^ 9) + 1

theorem breaker_cost_of (hrate : BreakerRated sel) (l : List (Attempt E)) (ho : Spec.Ordered (serial sel answer l)) (a b : Int) (hab : a ≤ b)
    (ht : ∀ ev ∈ serial sel answer l, a ≤ Spec.timeOf ev ∧ Spec.timeOf ev ≤ b) {e : E} (hb : Spec.answersWell answer e = false) :
    (Spec.givenTo sel answer e l : Int) ≤ 11 + (b - a) / (10 * 10 ^ 9) := by
  have h1 := givenTo_le sel answer hb l
  have h2 := hrate (serial sel answer l) ho e a b hab
  have h3 : Spec.inPeriod (triesOf sel e (serial sel answer l)) a b = (triesOf sel e (serial sel answer l)).length := by
    apply List.countP_eq_length.mpr
    intro t hm
    obtain ⟨ev, h4, h5⟩ := breaker_tries_time sel e _ t hm
    have := ht ev h4
    rw [h5] at this
    simp [this]
  simp only [triesOf] at h1 h3
  rw [h3] at h2
  omega

/-- **C110.** However many attempts are made one after another, a server that fails all its calls is given at most ten, one for
every ten seconds, and one more. -/
theorem breaker_cost (t0 : Int) (c0 : UInt32) (eps : List E) (l : List (Attempt E))
    (ho : Spec.Ordered (serial (rrAfter t0 c0 eps) answer l)) (a b : Int) (hab : a ≤ b)
    (ht : ∀ ev ∈ serial (rrAfter t0 c0 eps) answer l, a ≤ Spec.timeOf ev ∧ Spec.timeOf ev ≤ b) {e : E}
    (hb : Spec.answersWell answer e = false) :
    (Spec.givenTo (rrAfter t0 c0 eps) answer e l : Int) ≤ 11 + (b - a) / (10 * 10 ^ 9) :=
  breaker_cost_of _ answer (breaker_rate t0 c0 eps) l ho a b hab ht hb

/-- **C110.** The same of the weighted load balancer, when it does not use its sliding window. -/
theorem weighted_cost (t0 : Int) (c0 : BitVec 64) (eps : List E) {weights : List Nat} {draws : List (Nat × Nat)} {sel : Lb.Selector}
    (hpos : ∀ w ∈ weights, 0 < w) (hlen : weights.length = eps.length)
    (hsel : Lb.chooseSelector weights draws = some sel) (hw : ∀ n ws, sel ≠ .window n ws) (l : List (Attempt E))
    (ho : Spec.Ordered (serial (wAfter t0 c0 eps sel) answer l)) (a b : Int) (hab : a ≤ b)
    (ht : ∀ ev ∈ serial (wAfter t0 c0 eps sel) answer l, a ≤ Spec.timeOf ev ∧ Spec.timeOf ev ≤ b) {e : E}
    (hb : Spec.answersWell answer e = false) :
    (Spec.givenTo (wAfter t0 c0 eps sel) answer e l : Int) ≤ 11 + (b - a) / (10 * 10 ^ 9) :=
  breaker_cost_of _ answer (weighted_rate t0 c0 eps hpos hlen hsel hw) l ho a b hab ht hb

private def failedAttempts : List (Attempt E) → Nat
  | [] => 0
  | a :: l => failedAttempts l + (if Spec.succeeds sel answer l a then 0 else 1)

omit [DecidableEq E] in
private theorem sum_le (L : List E) (f : E → Nat) (B : Int) (h : ∀ e ∈ L, (f e : Int) ≤ B) : ((L.map f).sum : Int) ≤ L.length * B := by
  induction L with
  | nil => simp
  | cons e L ih =>
    have h1 := h e (.head _)
    have h2 := ih (fun x hx => h x (.tail _ hx))
    simp only [List.map_cons, List.sum_cons, List.length_cons, Int.natCast_add, Int.natCast_one, Int.add_mul, Int.one_mul]
    omega

private theorem sum_step (L : List E) (f : E → Nat) (o : Option E) :
    (L.map fun e => f e + (if o = some e then 1 else 0)).sum = (L.map f).sum + L.countP (fun e => o = some e) := by
  induction L with
  | nil => rfl
  | cons e L ih =>
    simp only [List.map_cons, List.sum_cons, List.countP_cons, ih, decide_eq_true_eq]
    omega

abbrev BreakerServing (eps : List E) (g : E) : Prop := ∀ (h : List (Event E)), Spec.failures g h < 10 → ∀ (now : Int) (up : E → Bool),
  up g = true → ∀ r1 r2 : Nat, ∃ x ∈ eps, sel h now up r1 r2 = some x

private theorem failedAttempts_le {eps : List E} {g : E} (hserve : BreakerServing sel eps g) (hw : Spec.answersWell answer g = true) (l : List (Attempt E))
    (hup : ∀ a ∈ l, a.up g = true) : failedAttempts sel answer l ≤
      ((eps.filter fun e => !Spec.answersWell answer e).map fun e => Spec.givenTo sel answer e l).sum := by
  induction l with
  | nil => simp [failedAttempts]
  | cons a l ih =>
    have ih' := ih (fun x hx => hup x (.tail _ hx))
    simp only [failedAttempts, Spec.givenTo]
    rw [sum_step]
    obtain ⟨x, hx, hp⟩ := hserve (serial sel answer l) (by rw [serial_works sel answer hw l]; decide) a.now a.up
      (hup a (.head _)) a.r1 a.r2
    have hsel : Spec.attemptGoesTo sel answer l a = some x := hp
    cases hax : Spec.answersWell answer x with
    | true => simp only [Spec.succeeds, hsel, hax, if_true]; omega
    | false =>
      have hpos : 0 < (eps.filter fun e => !Spec.answersWell answer e).countP fun e => Spec.attemptGoesTo sel answer l a = some e :=
        List.countP_pos_iff.mpr ⟨x, List.mem_filter.mpr ⟨hx, by simp [hax]⟩, by simp [hsel]⟩
      simp only [Spec.succeeds, hsel, hax, Bool.false_eq_true, if_false]
      rw [hsel] at hpos
      omega

private theorem failedAttempts_append (c l : List (Attempt E)) :
    failedAttempts sel answer l + (if c ≠ [] ∧ Spec.callSucceeds sel answer l c = false then 1 else 0) ≤
      failedAttempts sel answer (c ++ l) := by
  induction c with
  | nil => simp
  | cons a c ih =>
    simp only [List.cons_append, failedAttempts, Spec.callSucceeds, Bool.or_eq_false_iff]
    by_cases hs : Spec.succeeds sel answer (c ++ l) a = true
    · rw [if_neg (fun h => by rw [h.2.2] at hs; cases hs)]
      omega
    · have hs' : Spec.succeeds sel answer (c ++ l) a = false := by simpa using hs
      rw [hs']
      simp only [Bool.false_eq_true, if_false]
      have : (if c ≠ [] ∧ Spec.callSucceeds sel answer l c = false then 1 else 0) ≥ 0 := Nat.zero_le _
      split <;> omega

private theorem failedCalls_le (cs : List (List (Attempt E))) (hne : ∀ c ∈ cs, c ≠ []) :
    Spec.failedCalls sel answer cs ≤ failedAttempts sel answer cs.flatten := by
  induction cs with
  | nil => simp [Spec.failedCalls, failedAttempts]
  | cons c cs ih =>
    have h1 := ih (fun x hx => hne x (.tail _ hx))
    have h2 := failedAttempts_append sel answer c cs.flatten
    simp only [Spec.failedCalls, List.flatten_cons]
    cases hc : Spec.callSucceeds sel answer cs.flatten c with
    | true => simp only [if_true]; rw [hc] at h2; simp at h2; omega
    | false =>
      rw [if_pos ⟨hne c (.head _), hc⟩] at h2
      simp only [Bool.false_eq_true, if_false]
      omega

theorem breaker_failed_of {eps : List E} {g : E} (hrate : BreakerRated sel) (hserve : BreakerServing sel eps g)
    (hw : Spec.answersWell answer g = true) (cs : List (List (Attempt E)))
    (hne : ∀ c ∈ cs, c ≠ []) (hup : ∀ a ∈ cs.flatten, a.up g = true)
    (ho : Spec.Ordered (serial sel answer cs.flatten)) (a b : Int) (hab : a ≤ b)
    (ht : ∀ ev ∈ serial sel answer cs.flatten, a ≤ Spec.timeOf ev ∧ Spec.timeOf ev ≤ b) :
    (Spec.failedCalls sel answer cs : Int) ≤
      (eps.filter fun e => !Spec.answersWell answer e).length * (11 + (b - a) / (10 * 10 ^ 9)) := by
  have h1 := failedCalls_le sel answer cs hne
  have h2 := failedAttempts_le sel answer hserve hw cs.flatten hup
  have h3 := sum_le (eps.filter fun e => !Spec.answersWell answer e) (fun e => Spec.givenTo sel answer e cs.flatten)
    (11 + (b - a) / (10 * 10 ^ 9)) (fun e he => breaker_cost_of sel answer hrate cs.flatten ho a b hab ht
      (by simpa using (List.mem_filter.mp he).2))
  omega

/-- **C110.** As long as one server works: however many calls are made one after another, with however many attempts each, at most
eleven of them, and one for every ten seconds, fail for each server that fails all its calls. -/
theorem breaker_failed_calls (t0 : Int) (c0 : UInt32) (eps : List E) {g : E} (hg : g ∈ eps)
    (hw : Spec.answersWell answer g = true) (cs : List (List (Attempt E)))
    (hne : ∀ c ∈ cs, c ≠ []) (hup : ∀ a ∈ cs.flatten, a.up g = true)
    (ho : Spec.Ordered (serial (rrAfter t0 c0 eps) answer cs.flatten)) (a b : Int) (hab : a ≤ b)
    (ht : ∀ ev ∈ serial (rrAfter t0 c0 eps) answer cs.flatten, a ≤ Spec.timeOf ev ∧ Spec.timeOf ev ≤ b) :
    (Spec.failedCalls (rrAfter t0 c0 eps) answer cs : Int) ≤
      (eps.filter fun e => !Spec.answersWell answer e).length * (11 + (b - a) / (10 * 10 ^ 9)) := by
  refine breaker_failed_of _ answer (breaker_rate t0 c0 eps) ?_ hw cs hne hup ho a b hab ht
  intro h hf now up hu r1 r2
  obtain ⟨x, h1, h2, -⟩ := breaker_serves t0 c0 eps h hg hf now up hu r1 r2
  exact ⟨x, h1, h2⟩

/-- **C110.** The same of the weighted load balancer, when it does not use its sliding window. -/
theorem weighted_failed_calls (t0 : Int) (c0 : BitVec 64) (eps : List E) {weights : List Nat} {draws : List (Nat × Nat)} {sel : Lb.Selector}
    (hpos : ∀ w ∈ weights, 0 < w) (hlen : weights.length = eps.length)
    (hsel : Lb.chooseSelector weights draws = some sel) (hwin : ∀ n ws, sel ≠ .window n ws) {g : E} (hg : g ∈ eps)
    (hw : Spec.answersWell answer g = true) (cs : List (List (Attempt E)))
    (hne : ∀ c ∈ cs, c ≠ []) (hup : ∀ a ∈ cs.flatten, a.up g = true)
    (ho : Spec.Ordered (serial (wAfter t0 c0 eps sel) answer cs.flatten)) (a b : Int) (hab : a ≤ b)
    (ht : ∀ ev ∈ serial (wAfter t0 c0 eps sel) answer cs.flatten, a ≤ Spec.timeOf ev ∧ Spec.timeOf ev ≤ b) :
    (Spec.failedCalls (wAfter t0 c0 eps sel) answer cs : Int) ≤
      (eps.filter fun e => !Spec.answersWell answer e).length * (11 + (b - a) / (10 * 10 ^ 9)) := by
  refine breaker_failed_of _ answer (weighted_rate t0 c0 eps hpos hlen hsel hwin) ?_ hw cs hne hup ho a b hab ht
  intro h hf now up hu r1 r2
  obtain ⟨x, h1, h2, -⟩ := weighted_serves t0 c0 eps hpos hlen hsel hwin h hg hf now up hu r2
  exact ⟨x, h1, h2⟩

/-! ### Cases -/

namespace BreakerCostEx

open BreakerEx (sec good)

/-- `false` does not answer, `true` does. -/
def ans : Bool → Option Response := fun e => if e then some good else none

/-- A call a second, with one attempt each. -/
def calls : Nat → List (List (Attempt Bool))
  | 0 => []
  | n + 1 => [⟨n * sec, n * sec + 1, fun _ => true, 0, 0⟩] :: calls n

end BreakerCostEx

open BreakerCostEx BreakerEx

/-- The hypotheses, and the numbers, of forty calls: eleven of them fail, at most 14 may. -/
example : Spec.answersWell ans true = true ∧ Spec.answersWell ans false = false ∧ (∀ c ∈ calls 40, c ≠ []) ∧
    Spec.Ordered (serial (rrAfter (-sec) 0 [false, true]) ans (calls 40).flatten) ∧
    (∀ ev ∈ serial (rrAfter (-sec) 0 [false, true]) ans (calls 40).flatten, 0 ≤ Spec.timeOf ev ∧ Spec.timeOf ev ≤ 39 * sec + 1) ∧
    Spec.failedCalls (rrAfter (-sec) 0 [false, true]) ans (calls 40) = 11 ∧ 11 + (39 * sec + 1 - 0) / (10 * 10 ^ 9) = 14 := by
  refine ⟨rfl, rfl, ?_, ?_, ?_, ?_, ?_⟩
  · decide +kernel
  · unfold Spec.Ordered; decide +kernel
  · decide +kernel
  · decide +kernel
  · decide +kernel

/-- The same with weights two and one: of sixty calls thirteen fail, at most 16 may. -/
example : Lb.chooseSelector [2, 1] [] = some (.ring [0, 0, 1]) ∧
    Spec.Ordered (serial (wAfter (-sec) 0 [false, true] (.ring [0, 0, 1])) ans (calls 60).flatten) ∧
    (∀ ev ∈ serial (wAfter (-sec) 0 [false, true] (.ring [0, 0, 1])) ans (calls 60).flatten,
      0 ≤ Spec.timeOf ev ∧ Spec.timeOf ev ≤ 59 * sec + 1) ∧
    Spec.failedCalls (wAfter (-sec) 0 [false, true] (.ring [0, 0, 1])) ans (calls 60) = 13 ∧
    11 + (59 * sec + 1 - 0) / (10 * 10 ^ 9) = 16 := by
  refine ⟨by decide +kernel, ?_, by decide +kernel, by decide +kernel, by decide +kernel⟩
  unfold Spec.Ordered; decide +kernel

end Motan.Props
