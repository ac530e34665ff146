import Verif.Props.Breaker
import Verif.Props.Weighted

/-!
# C110 for the weighted load balancer (its round-robin and ring modes)
-/

namespace Motan.Props

open Breaker

variable {E : Type} [DecidableEq E]

section
omit [DecidableEq E]
variable {S : Type}

private theorem fm_get (eps : List E) (ring : List UInt8) (hin : ∀ b ∈ ring, b.toNat < eps.length) :
    (ring.filterMap fun b => eps[b.toNat]?).length = ring.length ∧
    ∀ i : Nat, (ring.filterMap fun b => eps[b.toNat]?)[i]? = (ring[i]?).bind fun b : UInt8 => eps[b.toNat]? := by
  induction ring with
  | nil => exact ⟨rfl, fun i => by simp⟩
  | cons b ring ih =>
    obtain ⟨h1, h2⟩ := ih (fun x hx => hin x (.tail _ hx))
    have hb : eps[b.toNat]? = some (eps[b.toNat]'(hin b (.head _))) := List.getElem?_eq_getElem _
    rw [List.filterMap_cons, hb]
    refine ⟨by simp only [List.length_cons, h1], fun i => ?_⟩
    cases i with
    | zero => simp [hb]
    | succ i => simpa using h2 i

private theorem scanRing_list (q : Ask S E) (eps : List E) (ring : List UInt8) (hin : ∀ b ∈ ring, b.toNat < eps.length) (r : Nat) :
    ∀ n i s, scanRing q eps ring r i n s =
      ((scanFrom q (ring.filterMap fun b => eps[b.toNat]?) r i n s).1.map Prod.snd,
       (scanFrom q (ring.filterMap fun b => eps[b.toNat]?) r i n s).2) := by
  obtain ⟨h1, h2⟩ := fm_get eps ring hin
  intro n
  induction n with
  | zero => intros; rfl
  | succ n ih =>
    intro i s
    simp only [scanRing, scanFrom, h1, h2]
    cases hb : ring[(r + i) % ring.length]? with
    | none => rfl
    | some b =>
      simp only [Option.bind_some]
      cases eps[b.toNat]? with
      | none => rfl
      | some e =>
        simp only
        split
        · rfl
        · rw [ih]

/-- The ring selects as the round robin on the list of the endpoints on the ring. -/
private theorem ring_list (q : Ask S E) (eps : List E) (ring : List UInt8) (hin : ∀ b ∈ ring, b.toNat < eps.length)
    (idx : BitVec 64) (r : Nat) (s : S) :
    Breaker.ringDoSelect q eps ring idx r s = wrrDoSelect q (ring.filterMap fun b => eps[b.toNat]?) idx r s := by
  obtain ⟨h1, h2⟩ := fm_get eps ring hin
  simp only [Breaker.ringDoSelect, wrrDoSelect, h1, h2]
  cases hb : ring[Lb.getNonNegative (idx + 1) % ring.length]? with
  | none => rfl
  | some b =>
    simp only [Option.bind_some]
    cases eps[b.toNat]? with
    | none => rfl
    | some e =>
      simp only
      split
      · rfl
      · rw [scanRing_list q eps ring hin]

private theorem wrr_trace (q : Ask S E) (eps : List E) (Q : S → Prop)
    (hq : ∀ s e, Q s → (q s e).1 = false → Q (q s e).2) (idx : BitVec 64) (r : Nat) (s : S) (hs : Q s) :
    (∀ p, (wrrDoSelect q eps idx r s).1 = some p →
      ∃ s1, Q s1 ∧ (q s1 p).1 = true ∧ (wrrDoSelect q eps idx r s).2.1 = (q s1 p).2) ∧
    ((wrrDoSelect q eps idx r s).1 = none → Q (wrrDoSelect q eps idx r s).2.1) := by
  simp only [wrrDoSelect]
  cases he : eps[Lb.getNonNegative (idx + 1) % eps.length]? with
  | none => exact ⟨fun p h => by simp at h, fun _ => hs⟩
  | some e =>
    simp only
    by_cases ha : (q s e).1 = true
    · rw [if_pos ha]
      exact ⟨fun p h => by simp at h; subst h; exact ⟨s, hs, ha, rfl⟩, fun h => by simp at h⟩
    · rw [if_neg ha]
      have ht := breaker_scan_trace q eps Q hq (r % eps.length) eps.length 0 _ (hq s e hs (by simpa using ha))
      refine ⟨fun p h => ?_, fun h => ht.2 (by simpa using h)⟩
      obtain ⟨y, h1, h2⟩ := Option.map_eq_some_iff.mp h
      subst h2
      exact ht.1 y h1

private theorem wrr_pure (q : Ask S E) (eps : List E) (avail : E → Bool)
    (hq : ∀ s e, (∀ x, (q s x).1 = avail x) → (q s e).1 = false → ∀ x, (q (q s e).2 x).1 = avail x)
    (idx : BitVec 64) (r : Nat) (s : S) (hs : ∀ x, (q s x).1 = avail x) (hne : eps ≠ []) :
    (Lb.roundRobinDoSelect avail eps idx r).1 = some (wrrDoSelect q eps idx r s).1 := by
  have h0 : eps.length ≠ 0 := fun h => hne (List.eq_nil_of_length_eq_zero h)
  have hlt : Lb.getNonNegative (idx + 1) % eps.length < eps.length := Nat.mod_lt _ (by omega)
  simp only [wrrDoSelect, Lb.roundRobinDoSelect, if_neg h0]
  rw [List.getElem?_eq_getElem hlt]
  simp only
  rw [hs]
  by_cases ha : avail (eps[Lb.getNonNegative (idx + 1) % eps.length]) = true
  · rw [if_pos ha, if_pos ha]
  · rw [if_neg ha, if_neg ha]
    have hs1 := hq s _ hs (by rw [hs]; simpa using ha)
    exact congrArg (fun o => some (Option.map Prod.snd o)) (breaker_scan_pure q eps avail hq _ _ _ _ hs1).symm

end

/-- A selection changes an endpoint's state at most by a new time, if that was due; and this only if it is selected, or has no
connection. -/
private theorem wselect_state (eps : List E) (idx : BitVec 64) (r : Nat) (st : E → Failfast.Status) (now : Int) (up : E → Bool) (e : E) :
    let x := wrrDoSelect (ask now up) eps idx r st
    (x.2.1 e = st e ∨ Due (st e) now ∧ x.2.1 e = { st e with time := now } ∧
      (up e = false ∨ x.1 = some e)) ∧
    ((st e).available = false → x.1 = some e → x.2.1 e = { st e with time := now }) := by
  intro x
  let Q : (E → Failfast.Status) → Prop := fun s =>
    s e = st e ∨ Due (st e) now ∧ s e = { st e with time := now } ∧ up e = false
  have hq : ∀ s y, Q s → (ask now up s y).1 = false → Q (ask now up s y).2 := by
    intro s y hs hy
    by_cases hye : e = y
    · subst hye
      simp only [Q, ask, if_true, Bool.and_eq_false_iff] at hy ⊢
      rcases hy with hy | hy
      · rw [breaker_ff_no hy]; exact hs
      · rcases breaker_ff_state (s e) now now with h | ⟨h1, h2⟩
        · rw [h]; exact hs
        · rcases hs with hs | ⟨hs1, hs2, hs3⟩
          · rw [hs] at h1 h2; rw [hs, h2]; exact .inr ⟨h1, rfl, hy⟩
          · rw [hs2] at h2 ⊢; rw [h2]; exact .inr ⟨hs1, rfl, hy⟩
    · simp only [Q, ask, if_neg hye]; exact hs
  have ht := wrr_trace (ask now up) eps Q hq idx r st (.inl rfl)
  cases hx : x.1 with
  | none =>
    refine ⟨?_, fun _ h => by simp at h⟩
    rcases ht.2 hx with h | ⟨h1, h2, h3⟩
    · exact .inl h
    · exact .inr ⟨h1, h2, .inl h3⟩
  | some p =>
    obtain ⟨s1, hs1, hy, hf⟩ := ht.1 p hx
    have hf' : x.2.1 = (ask now up s1 p).2 := hf
    by_cases hpe : e = p
    · have hpe' := hpe.symm
      clear hpe
      subst hpe'
      have hup : up p = true := by
        simp only [ask, Bool.and_eq_true] at hy; exact hy.2
      have hs2 : s1 p = st p := by
        rcases hs1 with h | ⟨-, -, h⟩
        · exact h
        · rw [hup] at h; cases h
      have hfe : x.2.1 p = (Failfast.isAvailable (st p) now now).2 := by
        rw [hf']; simp only [ask, if_true, hs2]
      have hy' : (Failfast.isAvailable (st p) now now).1 = true := by
        simp only [ask, Bool.and_eq_true, hs2] at hy; exact hy.1
      refine ⟨?_, fun ha _ => by rw [hfe]; exact (breaker_ff_yes ha hy').2⟩
      rw [hfe]
      rcases breaker_ff_state (st p) now now with h | ⟨h1, h2⟩
      · exact .inl h
      · exact .inr ⟨h1, h2, .inr rfl⟩
    · have hfe : x.2.1 e = s1 e := by rw [hf']; simp only [ask, if_neg hpe]
      rw [hfe]
      refine ⟨?_, fun _ h => absurd (by simpa using h) (fun h' : p = e => hpe h'.symm)⟩
      rcases hs1 with h | ⟨h1, h2, h3⟩
      · exact .inl h
      · exact .inr ⟨h1, h2, .inl h3⟩

variable (t0 : Int) (c0 : BitVec 64) (eps : List E)

/-- Whether the endpoint is marked, and its count, depend on its own results only. -/
private theorem run_available (h : List (Event E)) (e : E) :
    ((wrun t0 c0 eps .roundRobin h).status e).available = decide (Spec.failures e h < 10) ∧
    ((wrun t0 c0 eps .roundRobin h).status e).errorCount = UInt32.ofNat (Spec.failures e h) := by
  have key : ∃ hf, Spec.ffRun t0 hf = (wrun t0 c0 eps .roundRobin h).status e ∧ Spec.failuresSinceSuccess hf = Spec.failures e h := by
    induction h with
    | nil => exact ⟨[], rfl, rfl⟩
    | cons ev h ih =>
      obtain ⟨hf, h1, h2⟩ := ih
      have hsame : ∀ st : Failfast.Status, Later ((wrun t0 c0 eps .roundRobin h).status e) st →
          ∃ hf, Spec.ffRun t0 hf = st ∧ Spec.failuresSinceSuccess hf = Spec.failures e h := by
        rintro st (rfl | ⟨now, hd, rfl⟩)
        · exact ⟨hf, h1, h2⟩
        · refine ⟨.asked now now :: hf, ?_, h2⟩
          rw [Spec.ffRun, h1, breaker_ff_due hd]
      cases ev with
      | select now up r1 r2 =>
        refine hsame _ ?_
        rcases (wselect_state eps (wrun t0 c0 eps .roundRobin h).idx r2 (wrun t0 c0 eps .roundRobin h).status now up e).1 with g | ⟨g1, g2, -⟩
        · exact .inl g
        · exact .inr ⟨now, g1, g2⟩
      | asked x up now =>
        exact hsame _ (breaker_ask_later now (fun _ => up) _ x e)
      | ended x r now =>
        by_cases hx : e = x
        · subst hx
          refine ⟨.ended (failed r) now :: hf, ?_, ?_⟩
          · simp only [wrun, wstep, wselect, if_true, Spec.ffRun, h1]
          · cases r with
            | none => simp only [failed, Spec.failures, Spec.failuresSinceSuccess, if_true, h2]
            | some r =>
              cases hr : r.exception with
              | none => simp [failed, Spec.failures, Spec.failuresSinceSuccess, hr]
              | some x => simp [failed, Spec.failures, Spec.failuresSinceSuccess, hr, h2]
        · refine ⟨hf, ?_, ?_⟩
          · simp only [wrun, wstep, wselect, if_neg hx, h1]
          · cases r <;> simp only [Spec.failures, if_neg (fun h' : x = e => hx h'.symm), h2]
  obtain ⟨hf, h1, h2⟩ := key
  obtain ⟨i1, i2, -⟩ := failfast_state t0 hf
  rw [h1, h2] at i1 i2
  refine ⟨?_, i2⟩
  cases ha : ((wrun t0 c0 eps .roundRobin h).status e).available with
  | true => simp [i1.mp ha]
  | false =>
    have : ¬ Spec.failures e h < 10 := fun hlt => by rw [i1.mpr hlt] at ha; cases ha
    simp [this]

private theorem picks_time (h : List (Event E)) {t : Int} {e : E} (hp : (t, e) ∈ (wrun t0 c0 eps .roundRobin h).picks) :
    ∃ ev ∈ h, Spec.timeOf ev = t := by
  induction h with
  | nil => cases hp
  | cons ev h ih =>
    have old : (t, e) ∈ (wrun t0 c0 eps .roundRobin h).picks → ∃ ev' ∈ ev :: h, Spec.timeOf ev' = t := fun hp =>
      let ⟨x, h1, h2⟩ := ih hp; ⟨x, .tail _ h1, h2⟩
    cases ev with
    | ended x r now => exact old hp
    | asked x up now => exact old hp
    | select now up r1 r2 =>
      simp only [wrun, wstep, wselect] at hp
      split at hp
      · rcases List.mem_cons.mp hp with hp | hp
        · cases hp; exact ⟨_, .head _, rfl⟩
        · exact old hp
      · exact old hp

/-- The time kept for an endpoint is not before its last call. -/
private theorem run_time_ge (h : List (Event E)) (ho : Spec.Ordered h) (e : E) (t : Int)
    (hu : (∃ r, Event.ended e r t ∈ h) ∨ (t, e) ∈ (wrun t0 c0 eps .roundRobin h).picks ∧ 10 ≤ Spec.failures e h) :
    t ≤ ((wrun t0 c0 eps .roundRobin h).status e).time := by
  induction h with
  | nil => rcases hu with ⟨r, h⟩ | ⟨h, -⟩ <;> cases h
  | cons ev h ih =>
    obtain ⟨ho1, ho2⟩ := List.pairwise_cons.mp ho
    have hkeep : ∀ st : Failfast.Status, Later ((wrun t0 c0 eps .roundRobin h).status e) st →
        t ≤ ((wrun t0 c0 eps .roundRobin h).status e).time → t ≤ st.time := by
      rintro st (rfl | ⟨now, hd, rfl⟩) ht
      · exact ht
      · have := hd.2; show t ≤ now; omega
    cases ev with
    | select now up r1 r2 =>
      have hs := wselect_state eps (wrun t0 c0 eps .roundRobin h).idx r2 (wrun t0 c0 eps .roundRobin h).status now up e
      have hst : Later ((wrun t0 c0 eps .roundRobin h).status e) ((wrun t0 c0 eps .roundRobin (.select now up r1 r2 :: h)).status e) := by
        rcases hs.1 with g | ⟨g1, g2, -⟩
        · exact .inl g
        · exact .inr ⟨now, g1, g2⟩
      rcases hu with ⟨r, hu⟩ | ⟨hp, hf⟩
      · refine hkeep _ hst (ih ho2 (.inl ⟨r, ?_⟩))
        rcases List.mem_cons.mp hu with hu | hu
        · cases hu
        · exact hu
      · have hf' : 10 ≤ Spec.failures e h := hf
        have old : (t, e) ∈ (wrun t0 c0 eps .roundRobin h).picks → _ := fun hp => hkeep _ hst (ih ho2 (.inr ⟨hp, hf'⟩))
        have hp' := hp
        simp only [wrun, wstep, wselect] at hp'
        split at hp'
        · rename_i p e' hx
          rcases List.mem_cons.mp hp' with hp' | hp'
          · cases hp'
            have ha : ((wrun t0 c0 eps .roundRobin h).status e).available = false := by
              rw [(run_available t0 c0 eps h e).1]; simp; omega
            have := hs.2 ha (by rw [hx])
            have h2 : (wrun t0 c0 eps .roundRobin (.select t up r1 r2 :: h)).status e = _ := this
            rw [h2]; exact Int.le_refl _
          · exact old hp'
        · exact old hp'
    | asked x up now =>
      have hst : Later ((wrun t0 c0 eps .roundRobin h).status e) ((wrun t0 c0 eps .roundRobin (.asked x up now :: h)).status e) :=
        breaker_ask_later now (fun _ => up) _ x e
      refine hkeep _ hst (ih ho2 ?_)
      rcases hu with ⟨r, hu⟩ | hu
      · rcases List.mem_cons.mp hu with hu | hu
        · cases hu
        · exact .inl ⟨r, hu⟩
      · exact .inr hu
    | ended x r now =>
      by_cases hx : e = x
      · subst hx
        have ht : t ≤ now := by
          rcases hu with ⟨r', hu⟩ | ⟨hp, -⟩
          · rcases List.mem_cons.mp hu with hu | hu
            · cases hu; exact Int.le_refl _
            · exact ho1 _ hu
          · obtain ⟨ev, h1, h2⟩ := picks_time t0 c0 eps h (t := t) (e := e) hp
            rw [← h2]; exact ho1 _ h1
        have : ((wrun t0 c0 eps .roundRobin (.ended e r now :: h)).status e).time = now := by
          simp only [wrun, wstep, wselect, if_true, Failfast.filter]; split <;> rfl
        rw [this]; exact ht
      · have hst : (wrun t0 c0 eps .roundRobin (.ended x r now :: h)).status e = (wrun t0 c0 eps .roundRobin h).status e := by
          simp only [wrun, wstep, wselect, if_neg hx]
        rw [hst]
        refine ih ho2 ?_
        have hfe : Spec.failures e (.ended x r now :: h) = Spec.failures e h := by
          cases r <;> simp only [Spec.failures, if_neg (fun h' : x = e => hx h'.symm)]
        rcases hu with ⟨r', hu⟩ | ⟨hp, hf⟩
        · rcases List.mem_cons.mp hu with hu | hu
          · cases hu; exact absurd rfl hx
          · exact .inl ⟨r', hu⟩
        · exact .inr ⟨hp, by rw [← hfe]; exact hf⟩

/-- A selection among fail-fast endpoints, and that among endpoints whose availability is fixed. -/
private theorem wrr_select (idx : BitVec 64) (r : Nat) (st : E → Failfast.Status) (now : Int) (up : E → Bool) (hne : eps ≠ []) :
    (Lb.roundRobinDoSelect (fun e => (Failfast.isAvailable (st e) now now).1 && up e) eps idx r).1 =
      some (wrrDoSelect (ask now up) eps idx r st).1 :=
  wrr_pure (ask now up) eps (fun e => (ask now up st e).1)
    (fun s1 e h1 h2 x => by rw [breaker_ask_no now up s1 e h2 x]; exact h1 x) idx r st (fun _ => rfl) hne

private theorem wrr_good (idx : BitVec 64) (r : Nat) (st : E → Failfast.Status) (now : Int) (up : E → Bool) :
    Spec.GoodSelection (fun e => (Failfast.isAvailable (st e) now now).1 && up e) eps (wrrDoSelect (ask now up) eps idx r st).1 := by
  by_cases hne : eps = []
  · subst hne
    refine ⟨fun e h => ?_, fun _ e he => by cases he⟩
    simp [wrrDoSelect] at h
  · obtain ⟨x, h1, h2⟩ := roundRobin_select_good (fun e => (Failfast.isAvailable (st e) now now).1 && up e) eps idx r hne
    rw [wrr_select eps idx r st now up hne] at h1
    cases h1
    exact h2

private theorem wrr_leaves_alone (h : List (Event E)) (ho : Spec.Ordered h) {e : E} (hf : 10 ≤ Spec.failures e h) {t : Int}
    (hu : Spec.Used e h (wrun t0 c0 eps .roundRobin h).picks t) {now : Int} (hn : now ≤ t + 10 * 10 ^ 9) (up : E → Bool) (r : Nat) :
    (wselect eps .roundRobin (wrun t0 c0 eps .roundRobin h) now up r).1 ≠ some e := by
  intro hp
  have ha : ((wrun t0 c0 eps .roundRobin h).status e).available = false := by
    rw [(run_available t0 c0 eps h e).1]; simp; omega
  have hg := ((wrr_good eps _ _ _ _ _).1 e hp).2
  simp only [Bool.and_eq_true] at hg
  have h1 := (breaker_ff_yes ha hg.1).1
  have h2 := run_time_ge t0 c0 eps h ho e t (by
    rcases hu with hu | hu
    · exact .inl hu
    · exact .inr ⟨hu, hf⟩)
  omega

private theorem wrr_serves (h : List (Event E)) {e : E} (he : e ∈ eps) (hf : Spec.failures e h < 10) (now : Int) (up : E → Bool)
    (hup : up e = true) (r : Nat) :
    ∃ x ∈ eps, (wselect eps .roundRobin (wrun t0 c0 eps .roundRobin h) now up r).1 = some x ∧ up x = true := by
  have hg := wrr_good eps (wrun t0 c0 eps .roundRobin h).idx r (wrun t0 c0 eps .roundRobin h).status now up
  simp only [wselect]
  cases hp : (wrrDoSelect (ask now up) eps (wrun t0 c0 eps .roundRobin h).idx r (wrun t0 c0 eps .roundRobin h).status).1 with
  | some x =>
    have := hg.1 x hp
    simp only [Bool.and_eq_true] at this
    exact ⟨x, this.1, rfl, this.2.2⟩
  | none =>
    have := hg.2 hp e he
    have ha : ((wrun t0 c0 eps .roundRobin h).status e).available = true := by
      rw [(run_available t0 c0 eps h e).1]; simp [hf]
    simp [Failfast.isAvailable, ha, hup] at this

private theorem touched_mono {e : E} {h : List (Event E)} {ev : Event E} {t : Int}
    (ht : Spec.Touched t0 e h (wrun t0 c0 eps .roundRobin h).picks t) : Spec.Touched t0 e (ev :: h) (wrun t0 c0 eps .roundRobin (ev :: h)).picks t := by
  have hp : ∀ x, x ∈ (wrun t0 c0 eps .roundRobin h).picks → x ∈ (wrun t0 c0 eps .roundRobin (ev :: h)).picks := by
    intro x hx
    cases ev with
    | ended y r now => exact hx
    | asked y up now => exact hx
    | select now up r1 r2 =>
      simp only [wrun, wstep, wselect]
      split
      · exact .tail _ hx
      · exact hx
  rcases ht with ht | (⟨r, ht⟩ | ht) | ⟨u, ht⟩ | ⟨up, r1, r2, ht, hu⟩
  · exact .inl ht
  · exact .inr (.inl (.inl ⟨r, .tail _ ht⟩))
  · exact .inr (.inl (.inr (hp _ ht)))
  · exact .inr (.inr (.inl ⟨u, .tail _ ht⟩))
  · exact .inr (.inr (.inr ⟨up, r1, r2, .tail _ ht, hu⟩))

/-- The time kept for an endpoint is one of those that count. -/
private theorem run_time (h : List (Event E)) (e : E) :
    Spec.Touched t0 e h (wrun t0 c0 eps .roundRobin h).picks ((wrun t0 c0 eps .roundRobin h).status e).time := by
  induction h with
  | nil => exact .inl rfl
  | cons ev h ih =>
    have keep : ((wrun t0 c0 eps .roundRobin (ev :: h)).status e).time = ((wrun t0 c0 eps .roundRobin h).status e).time →
        Spec.Touched t0 e (ev :: h) (wrun t0 c0 eps .roundRobin (ev :: h)).picks ((wrun t0 c0 eps .roundRobin (ev :: h)).status e).time := by
      intro hk; rw [hk]; exact touched_mono t0 c0 eps ih
    cases ev with
    | select now up r1 r2 =>
      rcases (wselect_state eps (wrun t0 c0 eps .roundRobin h).idx r2 (wrun t0 c0 eps .roundRobin h).status now up e).1 with g | ⟨-, g, hu⟩
      · exact keep (congrArg Failfast.Status.time g)
      · have ht : ((wrun t0 c0 eps .roundRobin (.select now up r1 r2 :: h)).status e).time = now := congrArg Failfast.Status.time g
        rw [ht]
        rcases hu with hu | hu
        · exact .inr (.inr (.inr ⟨up, r1, r2, .head _, hu⟩))
        · refine .inr (.inl (.inr ?_))
          simp only [wrun, wstep, wselect]
          rw [hu]
          exact .head _
    | asked x up now =>
      by_cases hx : e = x
      · subst hx
        have hst : (wrun t0 c0 eps .roundRobin (.asked e up now :: h)).status e = (Failfast.isAvailable ((wrun t0 c0 eps .roundRobin h).status e) now now).2 := by
          simp only [wrun, wstep, wselect, ask, if_true]
        rcases breaker_ff_state ((wrun t0 c0 eps .roundRobin h).status e) now now with g | ⟨-, g⟩
        · exact keep (by rw [hst, g])
        · have ht : ((wrun t0 c0 eps .roundRobin (.asked e up now :: h)).status e).time = now := by rw [hst, g]
          rw [ht]; exact .inr (.inr (.inl ⟨up, .head _⟩))
      · exact keep (by simp only [wrun, wstep, wselect, ask, if_neg hx])
    | ended x r now =>
      by_cases hx : e = x
      · subst hx
        have : ((wrun t0 c0 eps .roundRobin (.ended e r now :: h)).status e).time = now := by
          simp only [wrun, wstep, wselect, if_true, Failfast.filter]; split <;> rfl
        rw [this]; exact .inr (.inl (.inl ⟨r, .head _⟩))
      · exact keep (by simp only [wrun, wstep, wselect, if_neg hx])

private theorem wrr_head (idx : BitVec 64) (r : Nat) (st : E → Failfast.Status) (now : Int) (up : E → Bool) {e : E}
    (he : eps[Lb.getNonNegative (idx + 1) % eps.length]? = some e) (ha : (Failfast.isAvailable (st e) now now).1 = true)
    (hup : up e = true) : (wrrDoSelect (ask now up) eps idx r st).1 = some e := by
  simp only [wrrDoSelect, he]
  rw [if_pos (by simp only [ask, ha, hup, Bool.and_self])]

private theorem wrr_idx (idx : BitVec 64) (r : Nat) (st : E → Failfast.Status) (now : Int) (up : E → Bool) :
    (wrrDoSelect (ask now up) eps idx r st).2.2 = idx + 1 := by
  simp only [wrrDoSelect]
  split
  · split <;> rfl
  · rfl

private theorem run_idx (h : List (Event E)) (hc : c0.toNat + Spec.selections h < 2 ^ 63) :
    (wrun t0 c0 eps .roundRobin h).idx.toNat = c0.toNat + Spec.selections h := by
  induction h with
  | nil => rfl
  | cons ev h ih =>
    cases ev with
    | ended x r now => exact ih hc
    | asked x up now => exact ih hc
    | select now up r1 r2 =>
      have hc' : c0.toNat + (Spec.selections h + 1) < 2 ^ 63 := hc
      have hi : (wrun t0 c0 eps .roundRobin (.select now up r1 r2 :: h)).idx = (wrun t0 c0 eps .roundRobin h).idx + 1 :=
        wrr_idx eps _ _ _ _ _
      rw [hi, BitVec.toNat_add, ih (by omega)]
      show (c0.toNat + Spec.selections h + 1) % 2 ^ 64 = c0.toNat + (Spec.selections h + 1)
      omega

private theorem selections_append (a b : List (Event E)) : Spec.selections (a ++ b) = Spec.selections a + Spec.selections b := by
  induction a with
  | nil => simp [Spec.selections]
  | cons ev a ih => cases ev <;> simp only [List.cons_append, Spec.selections, ih] <;> omega

private theorem wrr_tries_again (h more : List (Event E)) {e : E} (he : e ∈ eps)
    (hm : ∀ ev ∈ more, match ev with
      | .select now up _ _ => up e = true ∧
          ∀ t, Spec.Touched t0 e h (wrun t0 c0 eps .roundRobin h).picks t → t + 10 * 10 ^ 9 < now
      | .ended x _ _ => x ≠ e
      | .asked x _ _ => x ≠ e)
    (hs : eps.length ≤ Spec.selections more) (hc : c0.toNat + Spec.selections (more ++ h) < 2 ^ 63) :
    ∃ now up r1 r2, Event.select now up r1 r2 ∈ more ∧ (now, e) ∈ (wrun t0 c0 eps .roundRobin (more ++ h)).picks := by
  have key : ∀ more : List (Event E), (∀ ev ∈ more, match ev with
      | .select now up _ _ => up e = true ∧
          ∀ t, Spec.Touched t0 e h (wrun t0 c0 eps .roundRobin h).picks t → t + 10 * 10 ^ 9 < now
      | .ended x _ _ => x ≠ e
      | .asked x _ _ => x ≠ e) → c0.toNat + Spec.selections (more ++ h) < 2 ^ 63 →
      (∃ now up r1 r2, Event.select now up r1 r2 ∈ more ∧ (now, e) ∈ (wrun t0 c0 eps .roundRobin (more ++ h)).picks) ∨
      ((wrun t0 c0 eps .roundRobin (more ++ h)).status e = (wrun t0 c0 eps .roundRobin h).status e ∧
       ∀ j, j < Spec.selections more → eps[(c0.toNat + Spec.selections h + 1 + j) % eps.length]? ≠ some e) := by
    intro more
    induction more with
    | nil => intro _ _; exact .inr ⟨rfl, fun j hj => by cases hj⟩
    | cons ev more ih =>
      intro hm hc
      have hev := hm ev (.head _)
      have hm' := fun x hx => hm x (.tail _ hx)
      cases ev with
      | ended x r now =>
        rcases ih hm' hc with ⟨n, up, r1, r2, h1, h2⟩ | ⟨h1, h3⟩
        · exact .inl ⟨n, up, r1, r2, .tail _ h1, h2⟩
        · refine .inr ⟨?_, h3⟩
          rw [← h1]
          simp only [List.cons_append, wrun, wstep, if_neg (fun h' : e = x => hev h'.symm)]
      | asked x up now =>
        rcases ih hm' hc with ⟨n, up, r1, r2, h1, h2⟩ | ⟨h1, h3⟩
        · exact .inl ⟨n, up, r1, r2, .tail _ h1, h2⟩
        · refine .inr ⟨?_, h3⟩
          rw [← h1]
          simp only [List.cons_append, wrun, wstep, ask, if_neg (fun h' : e = x => hev h'.symm)]
      | select now up r1 r2 =>
        obtain ⟨hup, htt⟩ := hev
        have hc' : c0.toNat + (Spec.selections (more ++ h) + 1) < 2 ^ 63 := hc
        have hidx := run_idx t0 c0 eps (more ++ h) (by omega)
        rw [selections_append] at hidx hc'
        rcases ih hm' (by rw [selections_append]; omega) with ⟨n, up', r1', r2', h1, h2⟩ | ⟨h1, h3⟩
        · refine .inl ⟨n, up', r1', r2', .tail _ h1, ?_⟩
          simp only [List.cons_append, wrun, wstep]
          split
          · exact .tail _ h2
          · exact h2
        · have hav : (Failfast.isAvailable ((wrun t0 c0 eps .roundRobin (more ++ h)).status e) now now).1 = true := by
            rw [h1]
            by_cases ha : ((wrun t0 c0 eps .roundRobin h).status e).available = true
            · unfold Failfast.isAvailable; rw [if_pos ha]
            · rw [breaker_ff_due ⟨by simpa using ha, htt _ (run_time t0 c0 eps h e)⟩]
          by_cases hp : (wrrDoSelect (ask now up) eps (wrun t0 c0 eps .roundRobin (more ++ h)).idx r2
              (wrun t0 c0 eps .roundRobin (more ++ h)).status).1 = some e
          · left
            refine ⟨now, up, r1, r2, .head _, ?_⟩
            simp only [List.cons_append, wrun, wstep, wselect]
            rw [hp]; exact .head _
          · right
            have hcnt : Lb.getNonNegative ((wrun t0 c0 eps .roundRobin (more ++ h)).idx + 1) =
                c0.toNat + Spec.selections h + 1 + Spec.selections more := by
              rw [getNonNegative_eq, BitVec.toNat_add, hidx]
              show (c0.toNat + (Spec.selections more + Spec.selections h) + 1) % 2 ^ 64 % 2 ^ 63 = _
              omega
            refine ⟨?_, ?_⟩
            · rcases (wselect_state eps (wrun t0 c0 eps .roundRobin (more ++ h)).idx r2
                (wrun t0 c0 eps .roundRobin (more ++ h)).status now up e).1 with g | ⟨-, -, g | g⟩
              · rw [← h1]; exact g
              · rw [hup] at g; cases g
              · exact absurd g hp
            · intro j hj hje
              have hj' : j < Spec.selections more + 1 := hj
              by_cases hjl : j < Spec.selections more
              · exact h3 j hjl hje
              · have : j = Spec.selections more := by omega
                subst this
                rw [← hcnt] at hje
                exact hp (wrr_head eps _ _ _ _ _ hje hav hup)
  rcases key more hm hc with h1 | ⟨-, h3⟩
  · exact h1
  · obtain ⟨k, x, hk, hx, hxe⟩ := ring_finds eps (fun x => decide (x = e)) (c0.toNat + Spec.selections h + 1) ⟨e, he, by simp⟩
    have hxe' : x = e := by simpa using hxe
    subst hxe'
    have hlt : eps.countP (fun y => !decide (y = x)) < eps.length := by
      rcases Nat.lt_or_ge (eps.countP fun y => !decide (y = x)) eps.length with h1 | h1
      · exact h1
      · have h2 := List.countP_eq_length.mp (Nat.le_antisymm List.countP_le_length h1) x he
        simp at h2
    exact absurd hx (h3 k (by omega))

/-! ### Both modes -/

private theorem run_ring (ring : List UInt8) (hin : ∀ b ∈ ring, b.toNat < eps.length) (h : List (Event E)) :
    wrun t0 c0 eps (.ring ring) h = wrun t0 c0 (ring.filterMap fun b => eps[b.toNat]?) .roundRobin h := by
  induction h with
  | nil => rfl
  | cons ev h ih =>
    cases ev with
    | ended x r now => simp only [wrun, wstep, ih]
    | asked x up now => simp only [wrun, wstep, ih]
    | select now up r1 r2 => simp only [wrun, wstep, wselect, ih, ring_list _ _ _ hin]

omit [DecidableEq E] in
private theorem length_ringOf (ws : List Nat) : ∀ i, (Lb.ringOf i ws).length = ws.sum := by
  induction ws with
  | nil => intro i; rfl
  | cons w ws ih => intro i; simp [Lb.ringOf, ih]

omit [DecidableEq E] in
private theorem sum_div_le (ws : List Nat) (d : Nat) : (ws.map (· / d)).sum ≤ ws.sum := by
  induction ws with
  | nil => simp
  | cons w ws ih => have := Nat.div_le_self w d; simp only [List.map_cons, List.sum_cons]; omega

omit [DecidableEq E] in
private theorem ring_length {weights : List Nat} {draws : List (Nat × Nat)} {ring : List UInt8}
    (h : Lb.chooseSelector weights draws = some (.ring ring)) : ring.length ≤ weights.sum := by
  unfold Lb.chooseSelector at h
  split at h
  · cases h
  · split at h
    · cases h
    · rename_i d hd
      generalize hws : (if d > 1 then weights.map (· / d) else weights) = ws at h
      have hle : ws.sum ≤ weights.sum := by
        rw [← hws]
        split
        · exact sum_div_le _ _
        · exact Nat.le_refl _
      by_cases hc : ws.length ≤ 256 ∧ ws.sum ≤ 5120
      · simp only [if_pos hc, Option.some.injEq, Lb.Selector.ring.injEq] at h
        subst h
        rw [(shuffle_perm _ _).length_eq, length_ringOf]
        exact hle
      · simp only [if_neg hc, Option.some.injEq] at h
        cases h

omit [DecidableEq E] in
private theorem length_le_sum {weights : List Nat} (hpos : ∀ w ∈ weights, 0 < w) : weights.length ≤ weights.sum := by
  induction weights with
  | nil => simp
  | cons w ws ih =>
    have h1 := hpos w (.head _)
    have h2 := ih (fun x hx => hpos x (.tail _ hx))
    simp only [List.length_cons, List.sum_cons]; omega

private theorem chosen_list {weights : List Nat} {draws : List (Nat × Nat)} {sel : Lb.Selector} (hpos : ∀ w ∈ weights, 0 < w)
    (hlen : weights.length = eps.length) (hsel : Lb.chooseSelector weights draws = some sel) (hw : ∀ n ws, sel ≠ .window n ws) :
    ∃ l : List E, (∀ e, e ∈ l ↔ e ∈ eps) ∧ l.length ≤ weights.sum ∧
      (∀ h, wrun t0 c0 eps sel h = wrun t0 c0 l .roundRobin h) ∧
      ∀ s now up r, wselect eps sel s now up r = wselect l .roundRobin s now up r := by
  cases sel with
  | window n ws => exact absurd rfl (hw n ws)
  | roundRobin => exact ⟨eps, fun _ => Iff.rfl, hlen ▸ length_le_sum hpos, fun _ => rfl, fun _ _ _ _ => rfl⟩
  | ring ring =>
    obtain ⟨d, hd, -, h256, hcount, hin⟩ := wrr_ring_proportional weights draws ring hpos hsel
    rw [hlen] at hin
    refine ⟨ring.filterMap fun b : UInt8 => eps[b.toNat]?, fun e => ⟨fun he => ?_, fun he => ?_⟩, ?_, run_ring t0 c0 eps ring hin,
      fun s now up r => ring_list _ _ _ hin _ _ _⟩
    · obtain ⟨b, -, hb⟩ := List.mem_filterMap.mp he
      exact List.mem_of_getElem? hb
    · obtain ⟨i, hi, hie⟩ := List.getElem_of_mem he
      have hiw : i < weights.length := by omega
      have hc := hcount i _ (List.getElem?_eq_getElem hiw)
      have hp := hpos _ (List.getElem_mem hiw)
      have hmem : UInt8.ofNat i ∈ ring := by
        apply List.count_pos_iff.mp
        rcases Nat.eq_zero_or_pos (ring.count (UInt8.ofNat i)) with h0 | h0
        · rw [h0, Nat.zero_mul] at hc; omega
        · exact h0
      refine List.mem_filterMap.mpr ⟨_, hmem, ?_⟩
      rw [UInt8.toNat_ofNat', Nat.mod_eq_of_lt (by omega), List.getElem?_eq_getElem hi, hie]
    · rw [(fm_get eps ring hin).1]; exact ring_length hsel

variable {weights : List Nat} {draws : List (Nat × Nat)} {sel : Lb.Selector}

/-- **C110.** The same for the weighted load balancer, unless it uses the sliding window: while an endpoint has failed ten
times or more since its last success, it is not selected within ten seconds of a call that was given to it, or ended. -/
theorem weighted_leaves_alone (hpos : ∀ w ∈ weights, 0 < w) (hlen : weights.length = eps.length)
    (hsel : Lb.chooseSelector weights draws = some sel) (hw : ∀ n ws, sel ≠ .window n ws)
    (h : List (Event E)) (ho : Spec.Ordered h) {e : E} (hf : 10 ≤ Spec.failures e h) {t : Int}
    (hu : Spec.Used e h (wrun t0 c0 eps sel h).picks t) {now : Int} (hn : now ≤ t + 10 * 10 ^ 9) (up : E → Bool) (r : Nat) :
    (wselect eps sel (wrun t0 c0 eps sel h) now up r).1 ≠ some e := by
  obtain ⟨l, -, -, h3, h4⟩ := chosen_list t0 c0 eps hpos hlen hsel hw
  rw [h3] at hu ⊢
  rw [h4]
  exact wrr_leaves_alone t0 c0 l h ho hf hu hn up r

/-- **C110.** And: as long as an endpoint that has a connection has failed fewer than ten times since its last success, a call
selects an endpoint, and one that has a connection. -/
theorem weighted_serves (hpos : ∀ w ∈ weights, 0 < w) (hlen : weights.length = eps.length)
    (hsel : Lb.chooseSelector weights draws = some sel) (hw : ∀ n ws, sel ≠ .window n ws)
    (h : List (Event E)) {e : E} (he : e ∈ eps) (hf : Spec.failures e h < 10) (now : Int) (up : E → Bool)
    (hup : up e = true) (r : Nat) :
    ∃ x ∈ eps, (wselect eps sel (wrun t0 c0 eps sel h) now up r).1 = some x ∧ up x = true := by
  obtain ⟨l, h1, -, h3, h4⟩ := chosen_list t0 c0 eps hpos hlen hsel hw
  rw [h3, h4]
  obtain ⟨x, g1, g2⟩ := wrr_serves t0 c0 l h ((h1 e).mpr he) hf now up hup r
  exact ⟨x, (h1 x).mp g1, g2⟩

/-- **C110.** And: if one server with a connection has failed fewer than ten times since its last success, and all the others have
failed ten times or more and had a call in the last ten seconds, then the call is given to that server. -/
theorem weighted_goes_past (hpos : ∀ w ∈ weights, 0 < w) (hlen : weights.length = eps.length)
    (hsel : Lb.chooseSelector weights draws = some sel) (hw : ∀ n ws, sel ≠ .window n ws)
    (h : List (Event E)) (ho : Spec.Ordered h) {e : E} (he : e ∈ eps) (hf : Spec.failures e h < 10)
    (now : Int) (up : E → Bool) (hup : up e = true)
    (hbad : ∀ x ∈ eps, x ≠ e → 10 ≤ Spec.failures x h ∧
      ∃ t, Spec.Used x h (wrun t0 c0 eps sel h).picks t ∧ now ≤ t + 10 * 10 ^ 9) (r : Nat) :
    (wselect eps sel (wrun t0 c0 eps sel h) now up r).1 = some e := by
  obtain ⟨x, hx, hp, -⟩ := weighted_serves t0 c0 eps hpos hlen hsel hw h he hf now up hup r
  by_cases hxe : x = e
  · rw [← hxe]; exact hp
  · obtain ⟨h1, t, h2, h3⟩ := hbad x hx hxe
    exact absurd hp (weighted_leaves_alone t0 c0 eps hpos hlen hsel hw h ho h1 h2 h3 up r)

omit weights draws in
private theorem wtries_mem (h : List (Event E)) (e : E) (t : Int)
    (ht : t ∈ Spec.tries (fun h now up _ r => (wselect eps sel (wrun t0 c0 eps sel h) now up r).1) e h) :
    (t, e) ∈ (wrun t0 c0 eps sel h).picks := by
  induction h with
  | nil => cases ht
  | cons ev h ih =>
    cases ev with
    | ended x r now => exact ih ht
    | asked x up now => exact ih ht
    | select now up r1 r2 =>
      have old : t ∈ Spec.tries (fun h now up _ r => (wselect eps sel (wrun t0 c0 eps sel h) now up r).1) e h →
          (t, e) ∈ (wrun t0 c0 eps sel (.select now up r1 r2 :: h)).picks := by
        intro ht
        simp only [wrun, wstep]
        split
        · exact .tail _ (ih ht)
        · exact ih ht
      rw [Spec.tries] at ht
      split at ht
      · rename_i hc
        rcases List.mem_cons.mp ht with ht | ht
        · subst ht
          simp only [wrun, wstep]
          rw [hc.1]; exact .head _
        · exact old ht
      · exact old ht

/-- **C110.** And: the calls given to a server while it had failed ten times or more since its last success are at most one in
every ten seconds, and one more. -/
theorem weighted_rate (hpos : ∀ w ∈ weights, 0 < w) (hlen : weights.length = eps.length)
    (hsel : Lb.chooseSelector weights draws = some sel) (hw : ∀ n ws, sel ≠ .window n ws)
    (h : List (Event E)) (ho : Spec.Ordered h) (e : E) (a b : Int) (hab : a ≤ b) :
    (Spec.inPeriod (Spec.tries (fun h now up _ r => (wselect eps sel (wrun t0 c0 eps sel h) now up r).1) e h) a b : Int) ≤
      (b - a) / (10 * 10 ^ 9) + 1 := by
  refine breaker_apart _ ?_ a b hab
  induction h with
  | nil => exact .nil
  | cons ev h ih =>
    have ho2 := (List.pairwise_cons.mp ho).2
    cases ev with
    | ended x r now => exact ih ho2
    | asked x up now => exact ih ho2
    | select now up r1 r2 =>
      rw [Spec.tries]
      split
      · rename_i hc
        refine List.pairwise_cons.mpr ⟨fun t ht => ?_, ih ho2⟩
        rcases Int.lt_or_le (t + 10 * 10 ^ 9) now with g | g
        · exact g
        · exact absurd hc.1
            (weighted_leaves_alone t0 c0 eps hpos hlen hsel hw h ho2 hc.2 (.inr (wtries_mem t0 c0 eps h e t ht)) g up r2)
      · exact ih ho2

/-- **C110.** And: from ten seconds on after all that counts for the next try, an endpoint with a connection is given one of the
next calls, as many as the sum of the weights, if nobody but these calls asks for it (and the counter does not overflow). -/
theorem weighted_tries_again (hpos : ∀ w ∈ weights, 0 < w) (hlen : weights.length = eps.length)
    (hsel : Lb.chooseSelector weights draws = some sel) (hw : ∀ n ws, sel ≠ .window n ws)
    (h more : List (Event E)) {e : E} (he : e ∈ eps)
    (hm : ∀ ev ∈ more, match ev with
      | .select now up _ _ => up e = true ∧ ∀ t, Spec.Touched t0 e h (wrun t0 c0 eps sel h).picks t → t + 10 * 10 ^ 9 < now
      | .ended x _ _ => x ≠ e
      | .asked x _ _ => x ≠ e)
    (hs : weights.sum ≤ Spec.selections more) (hc : c0.toNat + Spec.selections (more ++ h) < 2 ^ 63) :
    ∃ now up r1 r2, Event.select now up r1 r2 ∈ more ∧ (now, e) ∈ (wrun t0 c0 eps sel (more ++ h)).picks := by
  obtain ⟨l, h1, h2, h3, -⟩ := chosen_list t0 c0 eps hpos hlen hsel hw
  rw [h3] at hm ⊢
  exact wrr_tries_again t0 c0 l h more ((h1 e).mpr he) hm (by omega) hc

/-- **C110.** A selection of the weighted load balancer among fail-fast endpoints selects what C23 and C25 say of endpoints
that are available when the filter and the endpoint say so at its start. -/
theorem weighted_select (s : Wst E) (now : Int) (up : E → Bool) (r : Nat) (hne : eps ≠ []) :
    (Lb.roundRobinDoSelect (fun e => (Failfast.isAvailable (s.status e) now now).1 && up e) eps s.idx r).1 =
      some (wselect eps .roundRobin s now up r).1 ∧
    ∀ ring : List UInt8, ring ≠ [] → (∀ b ∈ ring, b.toNat < eps.length) →
      (Lb.ringDoSelect (fun e => (Failfast.isAvailable (s.status e) now now).1 && up e) eps ring s.idx r).1 =
        some (wselect eps (.ring ring) s now up r).1 := by
  refine ⟨wrr_select eps s.idx r s.status now up hne, fun ring hr hin => ?_⟩
  obtain ⟨h1, h2⟩ := fm_get eps ring hin
  have hne' : (ring.filterMap fun b => eps[b.toNat]?) ≠ [] := fun h0 => by
    rw [h0] at h1; exact hr (List.eq_nil_of_length_eq_zero h1.symm)
  simp only [wselect]
  rw [ring_list _ _ _ hin, ← wrr_select _ s.idx r s.status now up hne']
  generalize (fun e => (Failfast.isAvailable (s.status e) now now).1 && up e) = avail
  have hscan : ∀ n i, Lb.scanRing avail eps ring (r % ring.length) i n =
      (Lb.scanFrom avail (ring.filterMap fun b => eps[b.toNat]?) (r % ring.length) i n).map Prod.snd := by
    intro n
    induction n with
    | zero => intro i; rfl
    | succ n ih =>
      intro i
      simp only [Lb.scanRing, Lb.scanFrom, h1, h2]
      cases hb : ring[(r % ring.length + i) % ring.length]? with
      | none => rfl
      | some b =>
        simp only [Option.bind_some]
        cases eps[b.toNat]? with
        | none => rfl
        | some e =>
          simp only
          split
          · rfl
          · exact ih _
  have h0 : ring.length ≠ 0 := fun h => hr (List.eq_nil_of_length_eq_zero h)
  simp only [Lb.ringDoSelect, Lb.roundRobinDoSelect, h1, h2, if_neg h0]
  cases hb : ring[Lb.getNonNegative (s.idx + 1) % ring.length]? with
  | none => rfl
  | some b =>
    simp only [Option.bind_some]
    cases eps[b.toNat]? with
    | none => rfl
    | some e =>
      simp only
      split
      · rfl
      · rw [hscan]

/-! ### Cases -/

open BreakerEx

/-- The hypotheses of `weighted_leaves_alone` and `weighted_serves`: two servers with weights two and one, of which `false` has
failed ten times. -/
example : Lb.chooseSelector [2, 1] [] = some (.ring [0, 0, 1]) ∧ (∀ w ∈ [2, 1], 0 < w) ∧ Spec.Ordered (ten none 10) ∧
    10 ≤ Spec.failures false (ten none 10) ∧ Spec.failures true (ten none 10) < 10 ∧
    Spec.Used false (ten none 10) (wrun (-sec) 0 [false, true] (.ring [0, 0, 1]) (ten none 10)).picks (9 * sec) ∧
    (wselect [false, true] (.ring [0, 0, 1]) (wrun (-sec) 0 [false, true] (.ring [0, 0, 1]) (ten none 10)) (19 * sec) all 0).1 =
      some true := by
  refine ⟨by decide +kernel, by decide, ?_, by decide +kernel, by decide +kernel, .inl ⟨none, .head _⟩, by decide +kernel⟩
  unfold Spec.Ordered
  decide +kernel

/-- Those of `weighted_tries_again`: after more than ten seconds, three calls, of which one is given to `false`. -/
example : let more : List (Event Bool) := [.select (22 * sec) all 0 0, .select (21 * sec) all 0 0, .select (20 * sec) all 0 0]
    (∀ ev ∈ more, match ev with
      | .select now up _ _ => up false = true ∧ ∀ t, Spec.Touched (-sec) false (ten none 10)
          (wrun (-sec) 0 [false, true] (.ring [0, 0, 1]) (ten none 10)).picks t → t + 10 * 10 ^ 9 < now
      | .ended x _ _ => x ≠ false
      | .asked x _ _ => x ≠ false) ∧
    [2, 1].sum ≤ Spec.selections more ∧ (0 : BitVec 64).toNat + Spec.selections (more ++ ten none 10) < 2 ^ 63 ∧
    (wrun (-sec) 0 [false, true] (.ring [0, 0, 1]) (more ++ ten none 10)).picks =
      [(22 * sec, true), (21 * sec, true), (20 * sec, false)] := by
  intro more
  refine ⟨?_, by decide, by decide +kernel, by decide +kernel⟩
  have hb : ∀ t, Spec.Touched (-sec) false (ten none 10)
      (wrun (-sec) 0 [false, true] (.ring [0, 0, 1]) (ten none 10)).picks t → t ≤ 9 * sec := by
    intro t ht
    rcases ht with rfl | (⟨r, ht⟩ | ht) | ⟨u, ht⟩ | ⟨up, r1, r2, ht, hu⟩
    · decide
    · simp only [ten, List.mem_cons, Event.ended.injEq, List.not_mem_nil, or_false] at ht
      rcases ht with h | h | h | h | h | h | h | h | h | h <;> rw [h.2.2] <;> decide
    · have : (wrun (-sec) 0 [false, true] (.ring [0, 0, 1]) (ten none 10)).picks = [] := rfl
      rw [this] at ht; cases ht
    · simp [ten] at ht
    · simp [ten] at ht
  intro ev hev
  simp only [more, List.mem_cons, List.not_mem_nil, or_false] at hev
  rcases hev with rfl | rfl | rfl <;> refine ⟨rfl, fun t ht => ?_⟩ <;> have := hb t ht <;> simp only [sec] at this ⊢ <;> omega

end Motan.Props
