import Verif.Props.BreakerCost

/-!
# C110: the random and the consistent-hash load balancer
-/

namespace Motan.Props

open Convert (Response)
open Breaker

variable {E : Type} [DecidableEq E]

/-! ### Servers asked one after another -/

section
omit [DecidableEq E]
variable {S : Type}

/-- The first server of the list that says yes. -/
private def firstYes (q : Ask S E) : List E → S → Option E × S
  | [], s => (none, s)
  | e :: l, s => if (q s e).1 then (some e, (q s e).2) else firstYes q l (q s e).2

private theorem yes_trace (q : Ask S E) (Q : S → Prop) (hq : ∀ s e, Q s → (q s e).1 = false → Q (q s e).2) (order : List E) :
    ∀ s, Q s → (∀ p, (firstYes q order s).1 = some p → ∃ s1, Q s1 ∧ (q s1 p).1 = true ∧ (firstYes q order s).2 = (q s1 p).2) ∧
      ((firstYes q order s).1 = none → Q (firstYes q order s).2) := by
  induction order with
  | nil => intro s hs; exact ⟨fun p h => by simp [firstYes] at h, fun _ => hs⟩
  | cons e l ih =>
    intro s hs
    rw [firstYes]
    by_cases ha : (q s e).1 = true
    · rw [if_pos ha]
      exact ⟨fun p h => by simp at h; subst h; exact ⟨s, hs, ha, rfl⟩, fun h => by simp at h⟩
    · rw [if_neg ha]
      exact ih _ (hq s e hs (by simpa using ha))

private theorem yes_pure (q : Ask S E) (avail : E → Bool)
    (hq : ∀ s e, (∀ x, (q s x).1 = avail x) → (q s e).1 = false → ∀ x, (q (q s e).2 x).1 = avail x) (order : List E) :
    ∀ s, (∀ x, (q s x).1 = avail x) → (firstYes q order s).1 = order.find? avail := by
  induction order with
  | nil => intros; rfl
  | cons e l ih =>
    intro s hs
    rw [firstYes, List.find?_cons, ← hs e]
    by_cases ha : (q s e).1 = true
    · simp [ha]
    · have ha' : (q s e).1 = false := by simpa using ha
      rw [if_neg ha, ha']
      exact ih _ (hq s e hs ha')

private theorem yes_append (q : Ask S E) (l m : List E) : ∀ s, firstYes q (l ++ m) s =
    match firstYes q l s with
    | (some e, s) => (some e, s)
    | (none, s) => firstYes q m s := by
  induction l with
  | nil => intro s; rfl
  | cons e l ih =>
    intro s
    simp only [List.cons_append, firstYes]
    by_cases ha : (q s e).1 = true
    · rw [if_pos ha, if_pos ha]
    · rw [if_neg ha, if_neg ha]; exact ih _

private theorem scan_order (q : Ask S E) (eps : List E) (r : Nat) (hn : 0 < eps.length) : ∀ n i s,
    ((scanFrom q eps r i n s).1.map Prod.snd, (scanFrom q eps r i n s).2) =
      firstYes q ((List.range' i n).filterMap fun k => eps[(r + k) % eps.length]?) s := by
  intro n
  induction n with
  | zero => intros; rfl
  | succ n ih =>
    intro i s
    have hlt : (r + i) % eps.length < eps.length := Nat.mod_lt _ hn
    rw [scanFrom, List.range'_succ, List.filterMap_cons, List.getElem?_eq_getElem hlt]
    simp only [firstYes]
    by_cases ha : (q s eps[(r + i) % eps.length]).1 = true
    · rw [if_pos ha, if_pos ha]; rfl
    · rw [if_neg ha, if_neg ha]; exact ih _ _

/-- The order in which `SelectOneAtRandom` asks. -/
private def randomOrder (eps : List E) (r1 r2 : Nat) : List E :=
  (eps[r1 % eps.length]?).toList ++ (List.range' 0 eps.length).filterMap fun k => eps[(r2 % eps.length + k) % eps.length]?

private theorem random_order (q : Ask S E) (eps : List E) (r1 r2 : Nat) (s : S) :
    ((Breaker.selectOneAtRandom q eps r1 r2 s).1.map Prod.snd, (Breaker.selectOneAtRandom q eps r1 r2 s).2) =
      firstYes q (randomOrder eps r1 r2) s := by
  rw [Breaker.selectOneAtRandom, randomOrder]
  by_cases h0 : eps.length = 0
  · have : eps = [] := List.eq_nil_of_length_eq_zero h0
    subst this; rfl
  · have hn : 0 < eps.length := by omega
    have hlt : r1 % eps.length < eps.length := Nat.mod_lt _ hn
    rw [if_neg h0, List.getElem?_eq_getElem hlt]
    simp only [Option.toList_some, List.singleton_append, firstYes]
    by_cases ha : (q s eps[r1 % eps.length]).1 = true
    · rw [if_pos ha, if_pos ha]; rfl
    · rw [if_neg ha, if_neg ha]; exact scan_order q eps _ hn _ _ _

private theorem randomOrder_mem (eps : List E) (r1 r2 : Nat) (x : E) : x ∈ randomOrder eps r1 r2 ↔ x ∈ eps := by
  simp only [randomOrder, List.mem_append, Option.mem_toList, List.mem_filterMap]
  constructor
  · rintro (h | ⟨k, -, h⟩)
    · exact List.mem_of_getElem? h
    · exact List.mem_of_getElem? h
  · intro hx
    obtain ⟨i, hi, he⟩ := List.getElem_of_mem hx
    have hn : 0 < eps.length := by omega
    refine .inr ⟨(i + (eps.length - r2 % eps.length)) % eps.length, ?_, ?_⟩
    · simp only [List.mem_range'_1]; exact ⟨Nat.zero_le _, by have := Nat.mod_lt (i + (eps.length - r2 % eps.length)) hn; omega⟩
    · have hr := Nat.mod_lt r2 hn
      have : (r2 % eps.length + (i + (eps.length - r2 % eps.length)) % eps.length) % eps.length = i := by
        rw [Nat.add_mod_mod, show r2 % eps.length + (i + (eps.length - r2 % eps.length)) = i + eps.length by omega,
          Nat.add_mod_right, Nat.mod_eq_of_lt hi]
      rw [this, List.getElem?_eq_getElem hi, he]

end

/-- A selection changes an endpoint's state at most by a new time, if that was due; and this only if it is selected, or has no
connection. -/
private theorem order_state (order : List E) (st : E → Failfast.Status) (now : Int) (up : E → Bool) (e : E) :
    let x := firstYes (ask now up) order st
    (x.2 e = st e ∨ Due (st e) now ∧ x.2 e = { st e with time := now } ∧
      (up e = false ∨ x.1 = some e)) ∧
    ((st e).available = false → x.1 = some e → x.2 e = { st e with time := now }) := by
  intro x
  let Q : (E → Failfast.Status) → Prop := fun s =>
    s e = st e ∨ Due (st e) now ∧ s e = { st e with time := now } ∧ up e = false
  have hq : ∀ s y, Q s → (ask now up s y).1 = false → Q (ask now up s y).2 := by
    intro s y hs hy
    by_cases hye : e = y
    · subst hye
      simp only [Q, ask, if_true, Bool.and_eq_false_iff] at hy ⊢
      rcases hy with hy | hy
      · rw [breaker_ff_no hy]; exact hs
      · rcases breaker_ff_state (s e) now now with h | ⟨h1, h2⟩
        · rw [h]; exact hs
        · rcases hs with hs | ⟨hs1, hs2, hs3⟩
          · rw [hs] at h1 h2; rw [hs, h2]; exact .inr ⟨h1, rfl, hy⟩
          · rw [hs2] at h2 ⊢; rw [h2]; exact .inr ⟨hs1, rfl, hy⟩
    · simp only [Q, ask, if_neg hye]; exact hs
  have ht := yes_trace (ask now up) Q hq order st (.inl rfl)
  cases hx : x.1 with
  | none =>
    refine ⟨?_, fun _ h => by simp at h⟩
    rcases ht.2 hx with h | ⟨h1, h2, h3⟩
    · exact .inl h
    · exact .inr ⟨h1, h2, .inl h3⟩
  | some p =>
    obtain ⟨s1, hs1, hy, hf⟩ := ht.1 p hx
    have hf' : x.2 = (ask now up s1 p).2 := hf
    by_cases hpe : e = p
    · have hpe' := hpe.symm
      clear hpe
      subst hpe'
      have hup : up p = true := by
        simp only [ask, Bool.and_eq_true] at hy; exact hy.2
      have hs2 : s1 p = st p := by
        rcases hs1 with h | ⟨-, -, h⟩
        · exact h
        · rw [hup] at h; cases h
      have hfe : x.2 p = (Failfast.isAvailable (st p) now now).2 := by
        rw [hf']; simp only [ask, if_true, hs2]
      have hy' : (Failfast.isAvailable (st p) now now).1 = true := by
        simp only [ask, Bool.and_eq_true, hs2] at hy; exact hy.1
      refine ⟨?_, fun ha _ => by rw [hfe]; exact (breaker_ff_yes ha hy').2⟩
      rw [hfe]
      rcases breaker_ff_state (st p) now now with h | ⟨h1, h2⟩
      · exact .inl h
      · exact .inr ⟨h1, h2, .inr rfl⟩
    · have hfe : x.2 e = s1 e := by rw [hf']; simp only [ask, if_neg hpe]
      rw [hfe]
      refine ⟨?_, fun _ h => absurd (by simpa using h) (fun h' : p = e => hpe h'.symm)⟩
      rcases hs1 with h | ⟨h1, h2, h3⟩
      · exact .inl h
      · exact .inr ⟨h1, h2, .inl h3⟩

variable {f : Choose E} {eps : List E}

/-- The load balancer asks the servers, all of them if need be, in an order that does not depend on their answers. -/
private def AsksAll (f : Choose E) (eps : List E) : Prop :=
  ∀ now up r1 r2, ∃ order : List E, (∀ x, x ∈ order ↔ x ∈ eps) ∧ ∀ st, f now up r1 r2 st = firstYes (ask now up) order st

private theorem choose_state (hA : AsksAll f eps) (st : E → Failfast.Status) (now : Int) (up : E → Bool) (r1 r2 : Nat) (e : E) :
    let x := f now up r1 r2 st
    (x.2 e = st e ∨ Due (st e) now ∧ x.2 e = { st e with time := now } ∧ (up e = false ∨ x.1 = some e)) ∧
    ((st e).available = false → x.1 = some e → x.2 e = { st e with time := now }) := by
  obtain ⟨order, -, h⟩ := hA now up r1 r2
  rw [h st]
  exact order_state order st now up e

/-- Whether the endpoint is marked, and its count, depend on its own results only. -/
private theorem run_available (hA : AsksAll f eps) (t0 : Int) (h : List (Event E)) (e : E) :
    ((xrun t0 f h).status e).available = decide (Spec.failures e h < 10) ∧
    ((xrun t0 f h).status e).errorCount = UInt32.ofNat (Spec.failures e h) := by
  have key : ∃ hf, Spec.ffRun t0 hf = (xrun t0 f h).status e ∧ Spec.failuresSinceSuccess hf = Spec.failures e h := by
    induction h with
    | nil => exact ⟨[], rfl, rfl⟩
    | cons ev h ih =>
      obtain ⟨hf, h1, h2⟩ := ih
      have hsame : ∀ st : Failfast.Status, Later ((xrun t0 f h).status e) st →
          ∃ hf, Spec.ffRun t0 hf = st ∧ Spec.failuresSinceSuccess hf = Spec.failures e h := by
        rintro st (rfl | ⟨now, hd, rfl⟩)
        · exact ⟨hf, h1, h2⟩
        · refine ⟨.asked now now :: hf, ?_, h2⟩
          rw [Spec.ffRun, h1, breaker_ff_due hd]
      cases ev with
      | select now up r1 r2 =>
        refine hsame _ ?_
        rcases (choose_state hA (xrun t0 f h).status now up r1 r2 e).1 with g | ⟨g1, g2, -⟩
        · exact .inl g
        · exact .inr ⟨now, g1, g2⟩
      | asked x up now =>
        exact hsame _ (breaker_ask_later now (fun _ => up) _ x e)
      | ended x r now =>
        by_cases hx : e = x
        · subst hx
          refine ⟨.ended (failed r) now :: hf, ?_, ?_⟩
          · simp only [xrun, xstep, if_true, Spec.ffRun, h1]
          · cases r with
            | none => simp only [failed, Spec.failures, Spec.failuresSinceSuccess, if_true, h2]
            | some r =>
              cases hr : r.exception with
              | none => simp [failed, Spec.failures, Spec.failuresSinceSuccess, hr]
              | some x => simp [failed, Spec.failures, Spec.failuresSinceSuccess, hr, h2]
        · refine ⟨hf, ?_, ?_⟩
          · simp only [xrun, xstep, if_neg hx, h1]
          · cases r <;> simp only [Spec.failures, if_neg (fun h' : x = e => hx h'.symm), h2]
  obtain ⟨hf, h1, h2⟩ := key
  obtain ⟨i1, i2, -⟩ := failfast_state t0 hf
  rw [h1, h2] at i1 i2
  refine ⟨?_, i2⟩
  cases ha : ((xrun t0 f h).status e).available with
  | true => simp [i1.mp ha]
  | false =>
    have : ¬ Spec.failures e h < 10 := fun hlt => by rw [i1.mpr hlt] at ha; cases ha
    simp [this]

private theorem picks_time (t0 : Int) (h : List (Event E)) {t : Int} {e : E} (hp : (t, e) ∈ (xrun t0 f h).picks) :
    ∃ ev ∈ h, Spec.timeOf ev = t := by
  induction h with
  | nil => cases hp
  | cons ev h ih =>
    have old : (t, e) ∈ (xrun t0 f h).picks → ∃ ev' ∈ ev :: h, Spec.timeOf ev' = t := fun hp =>
      let ⟨x, h1, h2⟩ := ih hp; ⟨x, .tail _ h1, h2⟩
    cases ev with
    | ended x r now => exact old hp
    | asked x up now => exact old hp
    | select now up r1 r2 =>
      simp only [xrun, xstep] at hp
      split at hp
      · rcases List.mem_cons.mp hp with hp | hp
        · cases hp; exact ⟨_, .head _, rfl⟩
        · exact old hp
      · exact old hp

/-- The time kept for an endpoint is not before its last call. -/
private theorem run_time_ge (hA : AsksAll f eps) (t0 : Int) (h : List (Event E)) (ho : Spec.Ordered h) (e : E) (t : Int)
    (hu : (∃ r, Event.ended e r t ∈ h) ∨ (t, e) ∈ (xrun t0 f h).picks ∧ 10 ≤ Spec.failures e h) :
    t ≤ ((xrun t0 f h).status e).time := by
  induction h with
  | nil => rcases hu with ⟨r, h⟩ | ⟨h, -⟩ <;> cases h
  | cons ev h ih =>
    obtain ⟨ho1, ho2⟩ := List.pairwise_cons.mp ho
    have hkeep : ∀ st : Failfast.Status, Later ((xrun t0 f h).status e) st →
        t ≤ ((xrun t0 f h).status e).time → t ≤ st.time := by
      rintro st (rfl | ⟨now, hd, rfl⟩) ht
      · exact ht
      · have := hd.2; show t ≤ now; omega
    cases ev with
    | select now up r1 r2 =>
      have hs := choose_state hA (xrun t0 f h).status now up r1 r2 e
      have hst : Later ((xrun t0 f h).status e) ((xrun t0 f (.select now up r1 r2 :: h)).status e) := by
        rcases hs.1 with g | ⟨g1, g2, -⟩
        · exact .inl g
        · exact .inr ⟨now, g1, g2⟩
      rcases hu with ⟨r, hu⟩ | ⟨hp, hf⟩
      · refine hkeep _ hst (ih ho2 (.inl ⟨r, ?_⟩))
        rcases List.mem_cons.mp hu with hu | hu
        · cases hu
        · exact hu
      · have hf' : 10 ≤ Spec.failures e h := hf
        have old : (t, e) ∈ (xrun t0 f h).picks → _ := fun hp => hkeep _ hst (ih ho2 (.inr ⟨hp, hf'⟩))
        have hp' := hp
        simp only [xrun, xstep] at hp'
        split at hp'
        · rename_i p e' hx
          rcases List.mem_cons.mp hp' with hp' | hp'
          · cases hp'
            have ha : ((xrun t0 f h).status e).available = false := by
              rw [(run_available hA t0 h e).1]; simp; omega
            have := hs.2 ha (by rw [hx])
            have h2 : (xrun t0 f (.select t up r1 r2 :: h)).status e = _ := this
            rw [h2]; exact Int.le_refl _
          · exact old hp'
        · exact old hp'
    | asked x up now =>
      have hst : Later ((xrun t0 f h).status e) ((xrun t0 f (.asked x up now :: h)).status e) :=
        breaker_ask_later now (fun _ => up) _ x e
      refine hkeep _ hst (ih ho2 ?_)
      rcases hu with ⟨r, hu⟩ | hu
      · rcases List.mem_cons.mp hu with hu | hu
        · cases hu
        · exact .inl ⟨r, hu⟩
      · exact .inr hu
    | ended x r now =>
      by_cases hx : e = x
      · subst hx
        have ht : t ≤ now := by
          rcases hu with ⟨r', hu⟩ | ⟨hp, -⟩
          · rcases List.mem_cons.mp hu with hu | hu
            · cases hu; exact Int.le_refl _
            · exact ho1 _ hu
          · obtain ⟨ev, h1, h2⟩ := picks_time t0 h (t := t) (e := e) hp
            rw [← h2]; exact ho1 _ h1
        have : ((xrun t0 f (.ended e r now :: h)).status e).time = now := by
          simp only [xrun, xstep, if_true, Failfast.filter]; split <;> rfl
        rw [this]; exact ht
      · have hst : (xrun t0 f (.ended x r now :: h)).status e = (xrun t0 f h).status e := by
          simp only [xrun, xstep, if_neg hx]
        rw [hst]
        refine ih ho2 ?_
        have hfe : Spec.failures e (.ended x r now :: h) = Spec.failures e h := by
          cases r <;> simp only [Spec.failures, if_neg (fun h' : x = e => hx h'.symm)]
        rcases hu with ⟨r', hu⟩ | ⟨hp, hf⟩
        · rcases List.mem_cons.mp hu with hu | hu
          · cases hu; exact absurd rfl hx
          · exact .inl ⟨r', hu⟩
        · exact .inr ⟨hp, by rw [← hfe]; exact hf⟩

private theorem choose_good (hA : AsksAll f eps) (st : E → Failfast.Status) (now : Int) (up : E → Bool) (r1 r2 : Nat) :
    Spec.GoodSelection (fun e => (Failfast.isAvailable (st e) now now).1 && up e) eps (f now up r1 r2 st).1 := by
  obtain ⟨order, hm, h⟩ := hA now up r1 r2
  rw [h st, yes_pure (ask now up) (fun e => (ask now up st e).1)
    (fun s1 e h1 h2 x => by rw [breaker_ask_no now up s1 e h2 x]; exact h1 x) order st (fun _ => rfl)]
  refine ⟨fun e he => ?_, fun hn e he => ?_⟩
  · exact ⟨(hm e).mp (List.mem_of_find?_eq_some he), by have := List.find?_some he; simpa [ask] using this⟩
  · have := List.find?_eq_none.mp hn e ((hm e).mpr he)
    simpa [ask] using this

private theorem x_leaves_alone (hA : AsksAll f eps) (t0 : Int) (h : List (Event E)) (ho : Spec.Ordered h) {e : E}
    (hf : 10 ≤ Spec.failures e h) {t : Int} (hu : Spec.Used e h (xrun t0 f h).picks t) {now : Int} (hn : now ≤ t + 10 * 10 ^ 9)
    (up : E → Bool) (r1 r2 : Nat) : xAfter t0 f h now up r1 r2 ≠ some e := by
  intro hp
  have ha : ((xrun t0 f h).status e).available = false := by
    rw [(run_available hA t0 h e).1]; simp; omega
  have hg := ((choose_good hA _ _ _ _ _).1 e hp).2
  simp only [Bool.and_eq_true] at hg
  have h1 := (breaker_ff_yes ha hg.1).1
  have h2 := run_time_ge hA t0 h ho e t (by
    rcases hu with hu | hu
    · exact .inl hu
    · exact .inr ⟨hu, hf⟩)
  omega

private theorem x_serves (hA : AsksAll f eps) (t0 : Int) (h : List (Event E)) {e : E} (he : e ∈ eps) (hf : Spec.failures e h < 10)
    (now : Int) (up : E → Bool) (hup : up e = true) (r1 r2 : Nat) :
    ∃ x ∈ eps, xAfter t0 f h now up r1 r2 = some x ∧ up x = true := by
  have hg := choose_good hA (xrun t0 f h).status now up r1 r2
  simp only [xAfter]
  cases hp : (f now up r1 r2 (xrun t0 f h).status).1 with
  | some x =>
    have := hg.1 x hp
    simp only [Bool.and_eq_true] at this
    exact ⟨x, this.1, rfl, this.2.2⟩
  | none =>
    have := hg.2 hp e he
    have ha : ((xrun t0 f h).status e).available = true := by
      rw [(run_available hA t0 h e).1]; simp [hf]
    simp [Failfast.isAvailable, ha, hup] at this

private theorem x_goes_past (hA : AsksAll f eps) (t0 : Int) (h : List (Event E)) (ho : Spec.Ordered h) {e : E} (he : e ∈ eps)
    (hf : Spec.failures e h < 10) (now : Int) (up : E → Bool) (hup : up e = true)
    (hbad : ∀ x ∈ eps, x ≠ e → 10 ≤ Spec.failures x h ∧ ∃ t, Spec.Used x h (xrun t0 f h).picks t ∧ now ≤ t + 10 * 10 ^ 9)
    (r1 r2 : Nat) : xAfter t0 f h now up r1 r2 = some e := by
  obtain ⟨x, hx, hp, -⟩ := x_serves hA t0 h he hf now up hup r1 r2
  by_cases hxe : x = e
  · rw [← hxe]; exact hp
  · obtain ⟨h1, t, h2, h3⟩ := hbad x hx hxe
    exact absurd hp (x_leaves_alone hA t0 h ho h1 h2 h3 up r1 r2)

private theorem xtries_mem (t0 : Int) (h : List (Event E)) (e : E) (t : Int)
    (ht : t ∈ Spec.tries (xAfter t0 f) e h) :
    (t, e) ∈ (xrun t0 f h).picks := by
  induction h with
  | nil => cases ht
  | cons ev h ih =>
    cases ev with
    | ended x r now => exact ih ht
    | asked x up now => exact ih ht
    | select now up r1 r2 =>
      have old : t ∈ Spec.tries (xAfter t0 f) e h →
          (t, e) ∈ (xrun t0 f (.select now up r1 r2 :: h)).picks := by
        intro ht
        simp only [xrun, xstep]
        split
        · exact .tail _ (ih ht)
        · exact ih ht
      rw [Spec.tries] at ht
      split at ht
      · rename_i hc
        rcases List.mem_cons.mp ht with ht | ht
        · subst ht
          simp only [xrun, xstep]
          have hc1 : (f t up r1 r2 (xrun t0 f h).status).1 = some e := hc.1
          rw [hc1]; exact .head _
        · exact old ht
      · exact old ht

private theorem x_rate (hA : AsksAll f eps) (t0 : Int) (h : List (Event E)) (ho : Spec.Ordered h) (e : E) (a b : Int) (hab : a ≤ b) :
    (Spec.inPeriod (Spec.tries (xAfter t0 f) e h) a b : Int) ≤ (b - a) / (10 * 10 ^ 9) + 1 := by
  refine breaker_apart _ ?_ a b hab
  induction h with
  | nil => exact .nil
  | cons ev h ih =>
    have ho2 := (List.pairwise_cons.mp ho).2
    cases ev with
    | ended x r now => exact ih ho2
    | asked x up now => exact ih ho2
    | select now up r1 r2 =>
      rw [Spec.tries]
      split
      · rename_i hc
        refine List.pairwise_cons.mpr ⟨fun t ht => ?_, ih ho2⟩
        rcases Int.lt_or_le (t + 10 * 10 ^ 9) now with g | g
        · exact g
        · exact absurd hc.1 (x_leaves_alone hA t0 h ho2 hc.2 (.inr (xtries_mem t0 h e t ht)) g up r1 r2)
      · exact ih ho2

private theorem touched_mono (t0 : Int) {e : E} {h : List (Event E)} {ev : Event E} {t : Int}
    (ht : Spec.Touched t0 e h (xrun t0 f h).picks t) : Spec.Touched t0 e (ev :: h) (xrun t0 f (ev :: h)).picks t := by
  have hp : ∀ x, x ∈ (xrun t0 f h).picks → x ∈ (xrun t0 f (ev :: h)).picks := by
    intro x hx
    cases ev with
    | ended y r now => exact hx
    | asked y up now => exact hx
    | select now up r1 r2 =>
      simp only [xrun, xstep]
      split
      · exact .tail _ hx
      · exact hx
  rcases ht with ht | (⟨r, ht⟩ | ht) | ⟨u, ht⟩ | ⟨up, r1, r2, ht, hu⟩
  · exact .inl ht
  · exact .inr (.inl (.inl ⟨r, .tail _ ht⟩))
  · exact .inr (.inl (.inr (hp _ ht)))
  · exact .inr (.inr (.inl ⟨u, .tail _ ht⟩))
  · exact .inr (.inr (.inr ⟨up, r1, r2, .tail _ ht, hu⟩))

/-- The time kept for an endpoint is one of those that count. -/
private theorem run_time (hA : AsksAll f eps) (t0 : Int) (h : List (Event E)) (e : E) :
    Spec.Touched t0 e h (xrun t0 f h).picks ((xrun t0 f h).status e).time := by
  induction h with
  | nil => exact .inl rfl
  | cons ev h ih =>
    have keep : ((xrun t0 f (ev :: h)).status e).time = ((xrun t0 f h).status e).time →
        Spec.Touched t0 e (ev :: h) (xrun t0 f (ev :: h)).picks ((xrun t0 f (ev :: h)).status e).time := by
      intro hk; rw [hk]; exact touched_mono t0 ih
    cases ev with
    | select now up r1 r2 =>
      rcases (choose_state hA (xrun t0 f h).status now up r1 r2 e).1 with g | ⟨-, g, hu⟩
      · exact keep (congrArg Failfast.Status.time g)
      · have ht : ((xrun t0 f (.select now up r1 r2 :: h)).status e).time = now := congrArg Failfast.Status.time g
        rw [ht]
        rcases hu with hu | hu
        · exact .inr (.inr (.inr ⟨up, r1, r2, .head _, hu⟩))
        · refine .inr (.inl (.inr ?_))
          simp only [xrun, xstep]
          rw [hu]
          exact .head _
    | asked x up now =>
      by_cases hx : e = x
      · subst hx
        have hst : (xrun t0 f (.asked e up now :: h)).status e = (Failfast.isAvailable ((xrun t0 f h).status e) now now).2 := by
          simp only [xrun, xstep, ask, if_true]
        rcases breaker_ff_state ((xrun t0 f h).status e) now now with g | ⟨-, g⟩
        · exact keep (by rw [hst, g])
        · have ht : ((xrun t0 f (.asked e up now :: h)).status e).time = now := by rw [hst, g]
          rw [ht]; exact .inr (.inr (.inl ⟨up, .head _⟩))
      · exact keep (by simp only [xrun, xstep, ask, if_neg hx])
    | ended x r now =>
      by_cases hx : e = x
      · subst hx
        have : ((xrun t0 f (.ended e r now :: h)).status e).time = now := by
          simp only [xrun, xstep, if_true, Failfast.filter]; split <;> rfl
        rw [this]; exact .inr (.inl (.inl ⟨r, .head _⟩))
      · exact keep (by simp only [xrun, xstep, if_neg hx])

private theorem x_due (hA : AsksAll f eps) (t0 : Int) (h : List (Event E)) {e : E} {now : Int} {up : E → Bool} (hup : up e = true)
    (hq : ∀ t, Spec.Touched t0 e h (xrun t0 f h).picks t → t + 10 * 10 ^ 9 < now) :
    (ask now up (xrun t0 f h).status e).1 = true := by
  have ht := hq _ (run_time hA t0 h e)
  simp only [ask, hup, Bool.and_true, Failfast.isAvailable]
  split
  · rfl
  · rw [if_pos (by simpa [Failfast.interval] using ht)]

/-! ### The random load balancer -/

section
variable (eps)

private theorem random_asks : AsksAll (randomLb eps) eps := fun now up r1 r2 =>
  ⟨randomOrder eps r1 r2, randomOrder_mem eps r1 r2, fun st => random_order (ask now up) eps r1 r2 st⟩

/-- **C110, random.** Whatever has happened: a server that has failed ten times or more since its last success is given no call
within ten seconds of a call that was given to it or that ended. -/
theorem random_leaves_alone (t0 : Int) (h : List (Event E)) (ho : Spec.Ordered h) {e : E} (hf : 10 ≤ Spec.failures e h) {t : Int}
    (hu : Spec.Used e h (xrun t0 (randomLb eps) h).picks t) {now : Int} (hn : now ≤ t + 10 * 10 ^ 9) (up : E → Bool) (r1 r2 : Nat) :
    xAfter t0 (randomLb eps) h now up r1 r2 ≠ some e :=
  x_leaves_alone (random_asks eps) t0 h ho hf hu hn up r1 r2

/-- **C110, random.** As long as a server with a connection has failed fewer than ten times since its last success, a call is
given to a server with a connection. -/
theorem random_serves (t0 : Int) (h : List (Event E)) {e : E} (he : e ∈ eps) (hf : Spec.failures e h < 10) (now : Int)
    (up : E → Bool) (hup : up e = true) (r1 r2 : Nat) :
    ∃ x ∈ eps, xAfter t0 (randomLb eps) h now up r1 r2 = some x ∧ up x = true :=
  x_serves (random_asks eps) t0 h he hf now up hup r1 r2

/-- **C110, random.** And to that server if all the others have failed ten times or more and had a call in the last ten seconds. -/
theorem random_goes_past (t0 : Int) (h : List (Event E)) (ho : Spec.Ordered h) {e : E} (he : e ∈ eps)
    (hf : Spec.failures e h < 10) (now : Int) (up : E → Bool) (hup : up e = true)
    (hbad : ∀ x ∈ eps, x ≠ e → 10 ≤ Spec.failures x h ∧
      ∃ t, Spec.Used x h (xrun t0 (randomLb eps) h).picks t ∧ now ≤ t + 10 * 10 ^ 9) (r1 r2 : Nat) :
    xAfter t0 (randomLb eps) h now up r1 r2 = some e :=
  x_goes_past (random_asks eps) t0 h ho he hf now up hup hbad r1 r2

/-- **C110, random.** The calls given to a server while it had failed ten times or more since its last success are at most one in
every ten seconds, and one more. -/
theorem random_rate (t0 : Int) (h : List (Event E)) (ho : Spec.Ordered h) (e : E) (a b : Int) (hab : a ≤ b) :
    (Spec.inPeriod (Spec.tries (xAfter t0 (randomLb eps)) e h) a b : Int) ≤ (b - a) / (10 * 10 ^ 9) + 1 :=
  x_rate (random_asks eps) t0 h ho e a b hab

/-- **C110, random.** As long as one server works: however many calls are made one after another, with however many attempts each,
at most eleven of them, and one for every ten seconds, fail for each server that fails all its calls. -/
theorem random_failed_calls (answer : E → Option Response) (t0 : Int) {g : E} (hg : g ∈ eps)
    (hw : Spec.answersWell answer g = true) (cs : List (List (Attempt E)))
    (hne : ∀ c ∈ cs, c ≠ []) (hup : ∀ a ∈ cs.flatten, a.up g = true)
    (ho : Spec.Ordered (serial (xAfter t0 (randomLb eps)) answer cs.flatten)) (a b : Int) (hab : a ≤ b)
    (ht : ∀ ev ∈ serial (xAfter t0 (randomLb eps)) answer cs.flatten, a ≤ Spec.timeOf ev ∧ Spec.timeOf ev ≤ b) :
    (Spec.failedCalls (xAfter t0 (randomLb eps)) answer cs : Int) ≤
      (eps.filter fun e => !Spec.answersWell answer e).length * (11 + (b - a) / (10 * 10 ^ 9)) := by
  refine breaker_failed_of _ answer (x_rate (random_asks eps) t0) ?_ hw cs hne hup ho a b hab ht
  intro h hf now up hu r1 r2
  obtain ⟨x, h1, h2, -⟩ := x_serves (random_asks eps) t0 h hg hf now up hu r1 r2
  exact ⟨x, h1, h2⟩

/-- **C110, random.** From ten seconds on after all that counts for the next try, a server with a connection is given the calls
whose draw falls on it. -/
theorem random_tries_again (t0 : Int) (h : List (Event E)) {e : E} {now : Int} {up : E → Bool} (hup : up e = true)
    (hq : ∀ t, Spec.Touched t0 e h (xrun t0 (randomLb eps) h).picks t → t + 10 * 10 ^ 9 < now) (r1 r2 : Nat)
    (hr : eps[r1 % eps.length]? = some e) : xAfter t0 (randomLb eps) h now up r1 r2 = some e := by
  have hd := x_due (random_asks eps) t0 h hup hq
  have h0 : eps.length ≠ 0 := fun h0 => by
    have := List.eq_nil_of_length_eq_zero h0
    subst this; simp at hr
  simp only [xAfter, randomLb, Breaker.selectOneAtRandom, if_neg h0, hr, if_pos hd, Option.map_some]

end

/-! ### The consistent-hash load balancer -/

section
variable (eps) {ring : Lb.HashRing E} {key : Nat → Bytes} {draw : Nat → Nat}

private theorem hash_asks (h1 : eps.length ≠ 1) (hl : ∀ k, key k ≠ [] → ring.locate (key k) ∈ eps) :
    AsksAll (hashLb ring eps key draw) eps := by
  intro now up r1 r2
  have hm : ∀ (q : Ask (E → Failfast.Status) E) (st), Breaker.hashSelect q ring eps (key r1) (draw r1) r2 st =
      firstYes q ((if key r1 ≠ [] then [ring.locate (key r1)] else []) ++ randomOrder eps (draw r1) r2) st := by
    intro q st
    rw [Breaker.hashSelect]
    · by_cases hk : key r1 ≠ []
      · rw [if_pos hk, if_pos hk, List.singleton_append, firstYes]
        split
        · rfl
        · exact random_order q eps _ r2 _
      · rw [if_neg hk, if_neg hk, List.nil_append]
        exact random_order q eps _ r2 _
    · rintro e rfl; exact h1 rfl
  refine ⟨_, fun x => ?_, fun st => hm (ask now up) st⟩
  rw [List.mem_append, randomOrder_mem]
  constructor
  · rintro (h | h)
    · split at h
      · rename_i hk
        rw [List.mem_singleton.mp h]; exact hl r1 hk
      · cases h
    · exact h
  · exact .inr

/-- **C110, consistent hash.** Whatever has happened: a server that has failed ten times or more since its last success is given no call
within ten seconds of a call that was given to it or that ended. -/
theorem hash_leaves_alone (h1 : eps.length ≠ 1) (hl : ∀ k, key k ≠ [] → ring.locate (key k) ∈ eps) (t0 : Int) (h : List (Event E)) (ho : Spec.Ordered h) {e : E} (hf : 10 ≤ Spec.failures e h) {t : Int}
    (hu : Spec.Used e h (xrun t0 (hashLb ring eps key draw) h).picks t) {now : Int} (hn : now ≤ t + 10 * 10 ^ 9) (up : E → Bool) (r1 r2 : Nat) :
    xAfter t0 (hashLb ring eps key draw) h now up r1 r2 ≠ some e :=
  x_leaves_alone (hash_asks eps h1 hl) t0 h ho hf hu hn up r1 r2

/-- **C110, consistent hash.** As long as a server with a connection has failed fewer than ten times since its last success, a call is
given to a server with a connection. -/
theorem hash_serves (h1 : eps.length ≠ 1) (hl : ∀ k, key k ≠ [] → ring.locate (key k) ∈ eps) (t0 : Int) (h : List (Event E)) {e : E} (he : e ∈ eps) (hf : Spec.failures e h < 10) (now : Int)
    (up : E → Bool) (hup : up e = true) (r1 r2 : Nat) :
    ∃ x ∈ eps, xAfter t0 (hashLb ring eps key draw) h now up r1 r2 = some x ∧ up x = true :=
  x_serves (hash_asks eps h1 hl) t0 h he hf now up hup r1 r2

/-- **C110, consistent hash.** And to that server if all the others have failed ten times or more and had a call in the last ten seconds. -/
theorem hash_goes_past (h1 : eps.length ≠ 1) (hl : ∀ k, key k ≠ [] → ring.locate (key k) ∈ eps) (t0 : Int) (h : List (Event E)) (ho : Spec.Ordered h) {e : E} (he : e ∈ eps)
    (hf : Spec.failures e h < 10) (now : Int) (up : E → Bool) (hup : up e = true)
    (hbad : ∀ x ∈ eps, x ≠ e → 10 ≤ Spec.failures x h ∧
      ∃ t, Spec.Used x h (xrun t0 (hashLb ring eps key draw) h).picks t ∧ now ≤ t + 10 * 10 ^ 9) (r1 r2 : Nat) :
    xAfter t0 (hashLb ring eps key draw) h now up r1 r2 = some e :=
  x_goes_past (hash_asks eps h1 hl) t0 h ho he hf now up hup hbad r1 r2

/-- **C110, consistent hash.** The calls given to a server while it had failed ten times or more since its last success are at most one in
every ten seconds, and one more. -/
theorem hash_rate (h1 : eps.length ≠ 1) (hl : ∀ k, key k ≠ [] → ring.locate (key k) ∈ eps) (t0 : Int) (h : List (Event E)) (ho : Spec.Ordered h) (e : E) (a b : Int) (hab : a ≤ b) :
    (Spec.inPeriod (Spec.tries (xAfter t0 (hashLb ring eps key draw)) e h) a b : Int) ≤ (b - a) / (10 * 10 ^ 9) + 1 :=
  x_rate (hash_asks eps h1 hl) t0 h ho e a b hab

/-- **C110, consistent hash.** As long as one server works: however many calls are made one after another, with however many attempts each,
at most eleven of them, and one for every ten seconds, fail for each server that fails all its calls. -/
theorem hash_failed_calls (h1 : eps.length ≠ 1) (hl : ∀ k, key k ≠ [] → ring.locate (key k) ∈ eps) (answer : E → Option Response) (t0 : Int) {g : E} (hg : g ∈ eps)
    (hw : Spec.answersWell answer g = true) (cs : List (List (Attempt E)))
    (hne : ∀ c ∈ cs, c ≠ []) (hup : ∀ a ∈ cs.flatten, a.up g = true)
    (ho : Spec.Ordered (serial (xAfter t0 (hashLb ring eps key draw)) answer cs.flatten)) (a b : Int) (hab : a ≤ b)
    (ht : ∀ ev ∈ serial (xAfter t0 (hashLb ring eps key draw)) answer cs.flatten, a ≤ Spec.timeOf ev ∧ Spec.timeOf ev ≤ b) :
    (Spec.failedCalls (xAfter t0 (hashLb ring eps key draw)) answer cs : Int) ≤
      (eps.filter fun e => !Spec.answersWell answer e).length * (11 + (b - a) / (10 * 10 ^ 9)) := by
  refine breaker_failed_of _ answer (x_rate (hash_asks eps h1 hl) t0) ?_ hw cs hne hup ho a b hab ht
  intro h hf now up hu r1 r2
  obtain ⟨x, h1, h2, -⟩ := x_serves (hash_asks eps h1 hl) t0 h hg hf now up hu r1 r2
  exact ⟨x, h1, h2⟩

/-- **C110, consistent hash.** From ten seconds on after all that counts for the next try, a server with a connection is given the
requests whose key belongs to it. -/
theorem hash_tries_again (h1 : eps.length ≠ 1) (hl : ∀ k, key k ≠ [] → ring.locate (key k) ∈ eps) (t0 : Int) (h : List (Event E))
    {e : E} {now : Int} {up : E → Bool} (hup : up e = true)
    (hq : ∀ t, Spec.Touched t0 e h (xrun t0 (hashLb ring eps key draw) h).picks t → t + 10 * 10 ^ 9 < now) (r1 r2 : Nat)
    (hk : key r1 ≠ []) (hr : ring.locate (key r1) = e) : xAfter t0 (hashLb ring eps key draw) h now up r1 r2 = some e := by
  have hd := x_due (hash_asks eps h1 hl) t0 h hup hq
  simp only [xAfter, hashLb]
  rw [Breaker.hashSelect]
  · rw [if_pos hk, hr, if_pos hd]
  · rintro e rfl; exact h1 rfl

/-- **C110, violated of consistent hash with a single server:** it is given every call, however often it has failed and even
without a connection. -/
theorem hash_single_violated (t0 : Int) (e : E) (h : List (Event E)) (now : Int) (up : E → Bool) (r1 r2 : Nat) :
    xAfter t0 (hashLb ring [e] key draw) h now up r1 r2 = some e := rfl

end

/-! ### Cases -/

namespace BreakerRandomEx

open BreakerEx (sec)

/-- Keys that begin with `a` belong to `false`, the others to `true`. -/
def ring : Lb.HashRing Bool := ⟨fun k => k.head? ≠ some 97, fun _ _ => none⟩

/-- The keys `a` and `b`, in turn. -/
def key (n : Nat) : Bytes := if n % 2 = 0 then b!"a" else b!"b"

/-- A call a second; the draws, and the keys, alternate. -/
def calls : Nat → List (List (Attempt Bool))
  | 0 => []
  | n + 1 => [⟨n * sec, n * sec + 1, fun _ => true, n, 0⟩] :: calls n

end BreakerRandomEx

section
open BreakerEx (sec)
open BreakerCostEx (ans)
open BreakerRandomEx (ring key calls)

/-- Forty calls to a server that does not answer and one that does: the hypotheses of `random_failed_calls` and
`hash_failed_calls`, and the numbers (at most 14 may fail). -/
example : (∀ k, key k ≠ [] → ring.locate (key k) ∈ [false, true]) ∧
    Spec.Ordered (serial (xAfter (-sec) (randomLb [false, true])) ans (calls 40).flatten) ∧
    Spec.Ordered (serial (xAfter (-sec) (hashLb ring [false, true] key id)) ans (calls 40).flatten) ∧
    Spec.failedCalls (xAfter (-sec) (randomLb [false, true])) ans (calls 40) = 11 ∧
    Spec.failedCalls (xAfter (-sec) (hashLb ring [false, true] key id)) ans (calls 40) = 11 := by
  refine ⟨fun k _ => ?_, ?_, ?_, by decide +kernel, by decide +kernel⟩
  · generalize ring.locate (key k) = x; cases x <;> simp
  · unfold Spec.Ordered; decide +kernel
  · unfold Spec.Ordered; decide +kernel

/-- After twenty-two of them `false` has failed ten times or more and was called not long ago: it is left alone. -/
example : let h := serial (xAfter (-sec) (hashLb ring [false, true] key id)) ans (calls 22).flatten
    10 ≤ Spec.failures false h ∧ Spec.failures true h < 10 ∧ Spec.Used false h (xrun (-sec) (hashLb ring [false, true] key id) h).picks (18 * sec) ∧
    xAfter (-sec) (hashLb ring [false, true] key id) h (22 * sec) (fun _ => true) 0 0 = some true ∧
    xAfter (-sec) (hashLb ring [false, true] key id) h (40 * sec) (fun _ => true) 0 0 = some false := by
  refine ⟨by decide +kernel, by decide +kernel, .inr (by decide +kernel), by decide +kernel, by decide +kernel⟩

end

end Motan.Props
