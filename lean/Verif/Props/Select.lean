import Verif.Model.LoadBalance

/-!
# C25, C26: which endpoints are selected
-/

namespace Motan.Props

open Motan.Lb

variable {E : Type}

/-! ## Lemmas -/

theorem scanFrom_spec (avail : E → Bool) (eps : List E) (r : Nat) : ∀ n i, i + n = eps.length →
    (scanFrom avail eps r i n).map Prod.snd = ((rot eps r).drop i).find? avail ∧
    ∀ j e, scanFrom avail eps r i n = some (j, e) → eps[j]? = some e := by
  intro n
  induction n with
  | zero =>
    intro i hi
    rw [List.drop_eq_nil_of_le (by rw [length_rot]; omega)]
    exact ⟨rfl, fun j e h => by cases h⟩
  | succ n ih =>
    intro i hi
    have hlt : i < eps.length := by omega
    have hget := getElem?_rot eps r i hlt
    have hlt' : i < (rot eps r).length := by rw [length_rot]; exact hlt
    rw [List.getElem?_eq_getElem hlt'] at hget
    rw [scanFrom, ← hget, List.drop_eq_getElem_cons hlt']
    simp only [List.find?_cons]
    cases ha : avail (rot eps r)[i] with
    | true => exact ⟨rfl, fun j e h => by cases h; exact hget.symm⟩
    | false => exact ih (i + 1) (by omega)

theorem collectFrom_spec (avail : E → Bool) (eps : List E) (k : Nat) : ∀ n i acc, i + n = eps.length →
    acc.length ≤ 3 → collectFrom avail eps k i n acc =
      acc ++ (((rot eps k).drop i).filter avail).take (3 - acc.length) := by
  intro n
  induction n with
  | zero =>
    intro i acc hi _
    rw [List.drop_eq_nil_of_le (by rw [length_rot]; omega), collectFrom]
    simp
  | succ n ih =>
    intro i acc hi hacc
    have hlt : i < eps.length := by omega
    have hget := getElem?_rot eps k i hlt
    have hlt' : i < (rot eps k).length := by rw [length_rot]; exact hlt
    rw [List.getElem?_eq_getElem hlt'] at hget
    rw [collectFrom, ← hget, maxSelectArraySize]
    by_cases h3 : acc.length < 3
    · rw [if_pos h3, List.drop_eq_getElem_cons hlt']
      simp only
      cases ha : avail (rot eps k)[i] with
      | true =>
        rw [if_pos rfl, ih (i + 1) _ (by omega) (by simp; omega), List.filter_cons_of_pos ha]
        have : 3 - acc.length = (3 - (acc ++ [(rot eps k)[i]]).length) + 1 := by simp; omega
        rw [this, List.take_succ_cons]
        simp
      | false =>
        rw [if_neg (by simp), ih (i + 1) _ (by omega) hacc, List.filter_cons_of_neg (by simp [ha])]
    · rw [if_neg h3]
      have : 3 - acc.length = 0 := by omega
      rw [this]; simp

theorem find?_rot_isSome (avail : E → Bool) (eps : List E) (r : Nat) (h : ∃ e ∈ eps, avail e = true) :
    ((rot eps r).find? avail).isSome := by
  obtain ⟨e, he, ha⟩ := h
  rw [List.find?_isSome]
  exact ⟨e, (rot_perm eps r).mem_iff.mpr he, ha⟩

/-! ## C26 -/

/-- **C26.** The array of endpoints for one call is exactly the first three available ones in ring order from the
chosen start: reading the list from the start on, around its end, keeping the available ones, taking three. -/
theorem select_array_spec (avail : E → Bool) (eps : List E) (k : Nat) (hk : k < eps.length) :
    selectArrayFromIndex avail eps k = ((eps.drop k ++ eps.take k).filter avail).take 3 := by
  have hn : ¬ (eps.length = 0 ∨ (k : Int) < 0) := by omega
  rw [selectArrayFromIndex, if_neg hn, collectFrom_spec _ _ _ _ _ _ (by omega) (by simp)]
  simp [rot, Nat.mod_eq_of_lt hk]

/-- **C26.** Hence it has at most three elements, all available, at different positions of the list (a sublist of a
rearrangement of it), and it is empty only if no endpoint is available. -/
theorem select_array_distinct_available (avail : E → Bool) (eps : List E) (k : Nat) (hk : k < eps.length) :
    (selectArrayFromIndex avail eps k).length ≤ 3 ∧ (∀ e ∈ selectArrayFromIndex avail eps k, avail e = true) ∧
    (∃ l, l.Perm eps ∧ (selectArrayFromIndex avail eps k).Sublist l) ∧
    (eps.Nodup → (selectArrayFromIndex avail eps k).Nodup) ∧
    (selectArrayFromIndex avail eps k = [] ↔ ∀ e ∈ eps, avail e = false) := by
  rw [select_array_spec avail eps k hk]
  have hp : (eps.drop k ++ eps.take k).Perm eps := List.perm_append_comm.trans (by rw [List.take_append_drop])
  have hsub : (((eps.drop k ++ eps.take k).filter avail).take 3).Sublist (eps.drop k ++ eps.take k) :=
    (List.take_sublist _ _).trans List.filter_sublist
  refine ⟨by simp; omega, fun e he => ?_, ⟨_, hp, hsub⟩, fun hnd => hsub.nodup (hp.nodup_iff.mpr hnd), ?_⟩
  · exact (List.mem_filter.mp (List.mem_of_mem_take he)).2
  · rw [List.take_eq_nil_iff]
    simp only [List.filter_eq_nil_iff]
    constructor
    · rintro (h | h)
      · cases h
      · intro e he
        have := h e (hp.mem_iff.mpr he)
        simpa using this
    · intro h
      exact .inr fun e he => by simp [h e (hp.mem_iff.mp he)]

/-! ## C25 -/

/-- What a selection must be: an available endpoint of the list, and some endpoint whenever one is available. -/
def Spec.GoodSelection (avail : E → Bool) (eps : List E) (r : Option E) : Prop :=
  (∀ e, r = some e → e ∈ eps ∧ avail e = true) ∧ (r = none → ∀ e ∈ eps, avail e = false)

theorem good_scan (avail : E → Bool) (eps : List E) (r : Nat) :
    Spec.GoodSelection avail eps ((scanFrom avail eps r 0 eps.length).map Prod.snd) := by
  obtain ⟨h, _⟩ := scanFrom_spec avail eps r eps.length 0 (by omega)
  rw [h, List.drop_zero]
  refine ⟨fun e he => ⟨?_, List.find?_some he⟩, fun hn e he => ?_⟩
  · exact (rot_perm eps r).mem_iff.mp (List.mem_of_find?_eq_some he)
  · have := List.find?_eq_none.mp hn e ((rot_perm eps r).mem_iff.mpr he)
    simpa using this

theorem selectOne_good (avail : E → Bool) (eps : List E) (r1 r2 : Nat) :
    Spec.GoodSelection avail eps ((selectOneAtRandom avail eps r1 r2).map Prod.snd) ∧
    ∀ j e, selectOneAtRandom avail eps r1 r2 = some (j, e) → eps[j]? = some e := by
  unfold selectOneAtRandom
  by_cases h0 : eps.length = 0
  · rw [if_pos h0]
    have : eps = [] := List.eq_nil_of_length_eq_zero h0
    subst this
    exact ⟨⟨(by intro e h; cases h), (by intro _ e h; cases h)⟩, fun _ _ h => by cases h⟩
  · rw [if_neg h0]
    have hlt : r1 % eps.length < eps.length := Nat.mod_lt _ (by omega)
    rw [List.getElem?_eq_getElem hlt]
    simp only
    by_cases ha : avail eps[r1 % eps.length] = true
    · rw [if_pos ha]
      refine ⟨⟨fun e h => ?_, fun h => by cases h⟩, fun j e h => ?_⟩
      · cases h; exact ⟨List.getElem_mem _, ha⟩
      · cases h; exact List.getElem?_eq_getElem hlt
    · rw [if_neg ha]
      exact ⟨good_scan avail eps _, (scanFrom_spec avail eps _ _ 0 (by omega)).2⟩

/-- **C25.** Random selection, for all random numbers. -/
theorem random_select_good (avail : E → Bool) (eps : List E) (r1 r2 : Nat) :
    Spec.GoodSelection avail eps (randomSelect avail eps r1 r2) := (selectOne_good avail eps r1 r2).1

/-- **C25.** Round robin, for every counter and all random numbers. -/
theorem rr_select_good (avail : E → Bool) (eps : List E) (idx : UInt32) (r1 r2 : Nat) :
    Spec.GoodSelection avail eps (rrSelect avail eps idx r1 r2).1 := by
  unfold rrSelect roundrobinSelect
  by_cases h0 : eps.length = 0
  · rw [if_pos h0]
    have : eps = [] := List.eq_nil_of_length_eq_zero h0
    subst this
    exact ⟨(by intro e h; cases h), (by intro _ e h; cases h)⟩
  · rw [if_neg h0]
    have hlt : (idx + 1).toNat % eps.length < eps.length := Nat.mod_lt _ (by omega)
    simp only
    rw [List.getElem?_eq_getElem hlt]
    simp only
    by_cases ha : avail eps[(idx + 1).toNat % eps.length] = true
    · rw [if_pos ha]
      exact ⟨fun e h => by cases h; exact ⟨List.getElem_mem _, ha⟩, fun h => by cases h⟩
    · rw [if_neg ha]; exact (selectOne_good avail eps r1 r2).1

/-- **C26.** The arrays of the random and the round-robin load balancer: at most three available endpoints, empty
exactly if none is available. -/
theorem random_array_good (avail : E → Bool) (eps : List E) (r1 r2 : Nat) :
    (∃ k, randomSelectArray avail eps r1 r2 = ((eps.drop k ++ eps.take k).filter avail).take 3) ∧
    (randomSelectArray avail eps r1 r2 = [] ↔ ∀ e ∈ eps, avail e = false) := by
  obtain ⟨hg, hpos⟩ := selectOne_good avail eps r1 r2
  unfold randomSelectArray
  cases hs : selectOneAtRandom avail eps r1 r2 with
  | none =>
    rw [hs] at hg
    have hno := hg.2 rfl
    refine ⟨⟨0, ?_⟩, by simp only [true_iff]; exact hno⟩
    have : eps.filter avail = [] := List.filter_eq_nil_iff.mpr fun e he => by simp [hno e he]
    simp [this]
  | some x =>
    obtain ⟨j, e⟩ := x
    have hj : j < eps.length := (List.getElem?_eq_some_iff.mp (hpos j e hs)).1
    exact ⟨⟨j, select_array_spec avail eps j hj⟩, (select_array_distinct_available avail eps j hj).2.2.2.2⟩

/-- **C26.** -/
theorem rr_array_good (avail : E → Bool) (eps : List E) (idx : UInt32) (r1 r2 : Nat) :
    (∃ k, (rrSelectArray avail eps idx r1 r2).1 = ((eps.drop k ++ eps.take k).filter avail).take 3) ∧
    ((rrSelectArray avail eps idx r1 r2).1 = [] ↔ ∀ e ∈ eps, avail e = false) := by
  obtain ⟨hg, hpos⟩ := selectOne_good avail eps r1 r2
  have none_case : (∀ e ∈ eps, avail e = false) →
      (∃ k, ([] : List E) = ((eps.drop k ++ eps.take k).filter avail).take 3) ∧ (([] : List E) = [] ↔ ∀ e ∈ eps, avail e = false) := by
    intro hno
    refine ⟨⟨0, ?_⟩, by simp only [true_iff]; exact hno⟩
    have : eps.filter avail = [] := List.filter_eq_nil_iff.mpr fun e he => by simp [hno e he]
    simp [this]
  unfold rrSelectArray roundrobinSelect
  by_cases h0 : eps.length = 0
  · rw [if_pos h0]
    have : eps = [] := List.eq_nil_of_length_eq_zero h0
    subst this
    exact none_case (by simp)
  · rw [if_neg h0]
    have hlt : (idx + 1).toNat % eps.length < eps.length := Nat.mod_lt _ (by omega)
    simp only
    rw [List.getElem?_eq_getElem hlt]
    simp only
    by_cases ha : avail eps[(idx + 1).toNat % eps.length] = true
    · rw [if_pos ha]
      exact ⟨⟨_, select_array_spec avail eps _ hlt⟩, (select_array_distinct_available avail eps _ hlt).2.2.2.2⟩
    · rw [if_neg ha]
      cases hs : selectOneAtRandom avail eps r1 r2 with
      | none => rw [hs] at hg; exact none_case (hg.2 rfl)
      | some x =>
        obtain ⟨j, e⟩ := x
        have hj : j < eps.length := (List.getElem?_eq_some_iff.mp (hpos j e hs)).1
        exact ⟨⟨j, select_array_spec avail eps j hj⟩, (select_array_distinct_available avail eps j hj).2.2.2.2⟩

/-- **C25.** Consistent hashing with several endpoints, whatever the hash ring (its members are endpoints). -/
theorem hash_select_good (avail : E → Bool) (ring : HashRing E) (eps : List E) (key : Bytes) (r1 r2 : Nat)
    (hring : ∀ k, ring.locate k ∈ eps) (hlen : eps.length ≠ 1) :
    Spec.GoodSelection avail eps (hashSelect avail ring eps key r1 r2) := by
  have : hashSelect avail ring eps key r1 r2 =
      if key ≠ [] ∧ avail (ring.locate key) = true then some (ring.locate key)
      else (selectOneAtRandom avail eps r1 r2).map Prod.snd := by
    unfold hashSelect
    split
    · simp at hlen
    · rfl
  rw [this]
  split
  · rename_i h
    exact ⟨fun e he => by cases he; exact ⟨hring key, h.2⟩, fun h => by cases h⟩
  · exact (selectOne_good avail eps r1 r2).1

/-- **C25.** Requests with the same key go to the same endpoint as long as it is available. -/
theorem hash_select_sticky (avail avail' : E → Bool) (ring : HashRing E) (eps : List E) (key : Bytes)
    (r1 r2 r1' r2' : Nat) (hk : key ≠ []) (ha : avail (ring.locate key) = true) (ha' : avail' (ring.locate key) = true) :
    hashSelect avail ring eps key r1 r2 = hashSelect avail' ring eps key r1' r2' := by
  unfold hashSelect
  split
  · rfl
  · rw [if_pos ⟨hk, ha⟩, if_pos ⟨hk, ha'⟩]

/-- What does not hold: with one endpoint consistent hashing returns it although it is not available. -/
theorem hash_single_unavailable_counterexample : ∃ (ring : HashRing Nat) (eps : List Nat),
    hashSelect (fun _ => false) ring eps b!"k" 0 0 = some 7 ∧ eps = [7] :=
  ⟨⟨fun _ => 7, fun _ _ => none⟩, [7], rfl, rfl⟩

/-- What does not hold: the array of the consistent-hash load balancer can be empty although endpoints are available
(all three nearest are down), and selecting one from no endpoints at all panics. -/
theorem hash_array_empty_counterexample :
    (∃ (ring : HashRing Nat) (avail : Nat → Bool), hashSelectArray avail ring [1, 2, 3, 4] b!"k" 0 = some [] ∧
      (∀ k n ms, ring.closest k n = some ms → ms.Nodup ∧ ∀ m ∈ ms, m ∈ [1, 2, 3, 4]) ∧ avail 4 = true) ∧
    ∀ (ring : HashRing Nat) avail key r, hashSelectArray avail ring [] key r = none := by
  refine ⟨⟨⟨fun _ => 1, fun _ _ => some [1, 2, 3]⟩, fun e => e == 4, by decide, ?_, by decide⟩, ?_⟩
  · intro k n ms h; cases h; decide
  · intro ring avail key r
    simp [hashSelectArray]

/-- **C26.** The array of the consistent-hash load balancer, whatever the hash ring (a look-up yields at most three
different endpoints): at most three available endpoints. -/
theorem hash_array_good (avail : E → Bool) (ring : HashRing E) (eps : List E) (key : Bytes) (r : Nat) (l : List E)
    (hring : ∀ k n ms, ring.closest k n = some ms → ms.length ≤ n ∧ ms.Nodup ∧ ∀ m ∈ ms, m ∈ eps) (hnd : eps.Nodup)
    (h : hashSelectArray avail ring eps key r = some l) :
    l.length ≤ 3 ∧ l.Nodup ∧ ∀ e ∈ l, e ∈ eps ∧ avail e = true := by
  have fb : ∀ l, (if eps.length = 0 then none else some (selectArrayFromIndex avail eps (r % eps.length : Nat))) = some l →
      l.length ≤ 3 ∧ l.Nodup ∧ ∀ e ∈ l, e ∈ eps ∧ avail e = true := by
    intro l h
    by_cases h0 : eps.length = 0
    · rw [if_pos h0] at h; cases h
    · rw [if_neg h0] at h
      cases h
      have := select_array_distinct_available avail eps _ (Nat.mod_lt r (Nat.pos_of_ne_zero h0))
      obtain ⟨h1, h2, ⟨l', hp, hs⟩, h4, _⟩ := this
      exact ⟨h1, h4 hnd, fun e he => ⟨hp.mem_iff.mp (hs.subset he), h2 e he⟩⟩
  unfold hashSelectArray at h
  simp only at h
  split at h
  · cases hc : ring.closest key maxSelectArraySize with
    | none => rw [hc] at h; exact fb l h
    | some ms =>
      rw [hc] at h
      cases h
      obtain ⟨h1, h2, h3⟩ := hring _ _ _ hc
      refine ⟨Nat.le_trans (List.length_filter_le _ _) h1, (List.filter_sublist).nodup h2, fun e he => ?_⟩
      obtain ⟨h4, h5⟩ := List.mem_filter.mp he
      exact ⟨h3 e h4, h5⟩
  · exact fb l h

/-- What does not hold: the weighted round robin load balancer never offers an array, whatever is available. -/
theorem wrr_array_empty_counterexample : wrrSelectArray (E := E) = [] := rfl

/-- **C25.** Weighted round robin in its round-robin mode. -/
theorem roundRobin_select_good (avail : E → Bool) (eps : List E) (idx : BitVec 64) (r : Nat) (hne : eps ≠ []) :
    ∃ x, (roundRobinDoSelect avail eps idx r).1 = some x ∧ Spec.GoodSelection avail eps x := by
  have h0 : eps.length ≠ 0 := fun h => hne (List.eq_nil_of_length_eq_zero h)
  have hlt : getNonNegative (idx + 1) % eps.length < eps.length := Nat.mod_lt _ (by omega)
  unfold roundRobinDoSelect
  simp only
  rw [if_neg h0, List.getElem?_eq_getElem hlt]
  simp only
  by_cases ha : avail eps[getNonNegative (idx + 1) % eps.length] = true
  · rw [if_pos ha]
    exact ⟨_, rfl, fun e h => by cases h; exact ⟨List.getElem_mem _, ha⟩, fun h => by cases h⟩
  · rw [if_neg ha]; exact ⟨_, rfl, good_scan avail eps _⟩

theorem scanRing_spec (avail : E → Bool) (eps : List E) (ring : List UInt8) (start : Nat)
    (hin : ∀ b ∈ ring, b.toNat < eps.length) : ∀ n i, i + n = ring.length →
    scanRing avail eps ring start i n = (((rot ring start).drop i).filterMap fun b => eps[b.toNat]?).find? avail := by
  intro n
  induction n with
  | zero =>
    intro i hi
    rw [List.drop_eq_nil_of_le (by rw [length_rot]; omega)]
    rfl
  | succ n ih =>
    intro i hi
    have hlt : i < ring.length := by omega
    have hget := getElem?_rot ring start i hlt
    have hlt' : i < (rot ring start).length := by rw [length_rot]; exact hlt
    rw [List.getElem?_eq_getElem hlt'] at hget
    have hb : (rot ring start)[i].toNat < eps.length :=
      hin _ ((rot_perm ring start).mem_iff.mp (List.getElem_mem hlt'))
    rw [scanRing, ← hget, List.drop_eq_getElem_cons hlt']
    simp only [List.filterMap_cons, List.getElem?_eq_getElem hb, List.find?_cons]
    cases ha : avail eps[(rot ring start)[i].toNat] with
    | true => rfl
    | false => exact ih (i + 1) (by omega)

/-- **C25.** Weighted round robin in its ring mode, whenever every endpoint is on the ring. -/
theorem ring_select_good (avail : E → Bool) (eps : List E) (ring : List UInt8) (idx : BitVec 64) (r : Nat) (hne : ring ≠ [])
    (hin : ∀ b ∈ ring, b.toNat < eps.length) (hall : ∀ i, i < eps.length → ∃ b ∈ ring, b.toNat = i) :
    ∃ x, (ringDoSelect avail eps ring idx r).1 = some x ∧ Spec.GoodSelection avail eps x := by
  have h0 : ring.length ≠ 0 := fun h => hne (List.eq_nil_of_length_eq_zero h)
  have hlt : getNonNegative (idx + 1) % ring.length < ring.length := Nat.mod_lt _ (by omega)
  have hb := hin _ (List.getElem_mem hlt)
  unfold ringDoSelect
  simp only
  rw [List.getElem?_eq_getElem hlt]
  simp only
  rw [List.getElem?_eq_getElem hb]
  simp only
  by_cases ha : avail eps[ring[getNonNegative (idx + 1) % ring.length].toNat] = true
  · rw [if_pos ha]
    exact ⟨_, rfl, fun e h => by cases h; exact ⟨List.getElem_mem _, ha⟩, fun h => by cases h⟩
  · rw [if_neg ha, scanRing_spec avail eps ring _ hin _ _ (by omega), List.drop_zero]
    refine ⟨_, rfl, fun e he => ⟨?_, List.find?_some he⟩, fun hn e he => ?_⟩
    · obtain ⟨b, _, hb⟩ := List.mem_filterMap.mp (List.mem_of_find?_eq_some he)
      exact List.mem_of_getElem? hb
    · obtain ⟨i, hi, hie⟩ := List.getElem_of_mem he
      obtain ⟨b, hbm, hbi⟩ := hall i hi
      have hm : e ∈ (rot ring (r % ring.length)).filterMap fun b => eps[b.toNat]? :=
        List.mem_filterMap.mpr ⟨b, (rot_perm ring _).mem_iff.mpr hbm, by
          rw [hbi, List.getElem?_eq_getElem hi, hie]⟩
      have := List.find?_eq_none.mp hn e hm
      simpa using this

/-! ## Non-vacuity -/

example : selectArrayFromIndex (fun e => e % 2 == 0) [10, 11, 12, 13, 14, 16, 18] 4 = [14, 16, 18] ∧
    selectArrayFromIndex (fun e => e % 2 == 0) [10, 11, 12, 13, 14] 3 = [14, 10, 12] := by decide

example : randomSelect (fun e => e == 12) [10, 11, 12, 13] 1 3 = some 12 ∧
    (rrSelect (fun e => e == 12) [10, 11, 12, 13] 0xffffffff 1 3).1 = some 12 := by decide

example : (ringDoSelect (fun e => e == 12) [10, 11, 12] [0, 1, 2, 1, 0] 3 1).1 = some (some 12) := by decide

end Motan.Props
