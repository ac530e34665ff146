import Verif.Props.Weighted

/-!
# C24: the smooth weighted round robin is fair; C25 for the sliding window
-/

namespace Motan.Props

open Motan.Lb

variable {E : Type}

/-! ## The loop over the window as a loop over positions -/

private def visit (avail : E → Bool) : List Nat → List (Item E) → Int → Int → Nat → List (Item E) × Int × Int × Nat
  | [], items, total, best, bi => (items, total, best, bi)
  | idx :: is, items, total, best, bi =>
    match items[idx]? with
    | none => (items, total, best, bi)
    | some it =>
      if avail it.ep then
        if it.current + it.weight > best then
          visit avail is (items.set idx { it with current := it.current + it.weight }) (total + it.weight)
            (it.current + it.weight) idx
        else visit avail is (items.set idx { it with current := it.current + it.weight }) (total + it.weight) best bi
      else visit avail is items total best bi

private theorem windowLoop_visit (avail : E → Bool) (start N : Nat) : ∀ n i (items : List (Item E)) total best bi,
    items.length = N → windowLoop avail start i n items total best bi =
      visit avail ((List.range' i n).map fun j => (start + j) % N) items total best bi := by
  intro n
  induction n with
  | zero => intro i items total best bi _; rfl
  | succ n ih =>
    intro i items total best bi hN
    rw [List.range'_succ, List.map_cons, windowLoop, visit]
    simp only [hN]
    cases items[(start + i) % N]? with
    | none => rfl
    | some it =>
      simp only
      split
      · split
        · exact ih _ _ _ _ _ (by rw [List.length_set]; exact hN)
        · exact ih _ _ _ _ _ (by rw [List.length_set]; exact hN)
      · exact ih _ _ _ _ _ hN

private theorem indices_eq (start N n : Nat) (hn : n ≤ N) :
    ((List.range' 0 n).map fun j => (start + j) % N) = (rot (List.range N) start).take n := by
  apply List.ext_getElem?
  intro i
  rw [List.getElem?_take]
  by_cases hi : i < n
  · rw [if_pos hi, getElem?_rot _ _ _ (by rw [List.length_range]; omega), List.length_range,
      List.getElem?_range (Nat.mod_lt _ (by omega)), List.getElem?_map,
      List.getElem?_range' hi]
    simp
  · rw [if_neg hi, List.getElem?_eq_none (by simp; omega)]

private theorem indices_nodup (start N n : Nat) (hn : n ≤ N) :
    ((List.range' 0 n).map fun j => (start + j) % N).Nodup ∧
    ∀ p ∈ ((List.range' 0 n).map fun j => (start + j) % N), p < N := by
  rw [indices_eq start N n hn]
  have hp := rot_perm (List.range N) start
  refine ⟨(List.take_sublist _ _).nodup (hp.nodup_iff.mpr List.nodup_range), fun p h => ?_⟩
  have := hp.mem_iff.mp (List.mem_of_mem_take h)
  simpa using this

/-- What the loop adds to an item. -/
private def bump (it : Item E) : Item E := { it with current := it.current + it.weight }

private def wsum (avail : E → Bool) (items : List (Item E)) (is : List Nat) : Int :=
  (is.map fun p => match items[p]? with
    | some it => if avail it.ep then (it.weight : Int) else 0
    | none => 0).sum

private theorem visit_spec (avail : E → Bool) : ∀ (is : List Nat) (items : List (Item E)) (total best : Int) (bi : Nat),
    is.Nodup → (∀ p ∈ is, p < items.length) →
    (visit avail is items total best bi).1.length = items.length ∧
    (∀ p it, items[p]? = some it → (visit avail is items total best bi).1[p]? =
      some (if p ∈ is ∧ avail it.ep = true then bump it else it)) ∧
    (visit avail is items total best bi).2.1 = total + wsum avail items is ∧
    best ≤ (visit avail is items total best bi).2.2.1 ∧
    (∀ p ∈ is, ∀ it, items[p]? = some it → avail it.ep = true →
      it.current + it.weight ≤ (visit avail is items total best bi).2.2.1) ∧
    (((visit avail is items total best bi).2.2.1 = best ∧ (visit avail is items total best bi).2.2.2 = bi) ∨
     ((visit avail is items total best bi).2.2.2 ∈ is ∧ ∃ it, items[(visit avail is items total best bi).2.2.2]? = some it ∧
      avail it.ep = true ∧ it.current + it.weight = (visit avail is items total best bi).2.2.1)) := by
  intro is
  induction is with
  | nil =>
    intro items total best bi _ _
    refine ⟨rfl, fun p it h => ?_, ?_, Int.le_refl _, fun p h => ?_, .inl ⟨rfl, rfl⟩⟩
    · simp [visit, h]
    · simp [visit, wsum]
    · cases h
  | cons idx is ih =>
    intro items total best bi hn hlt
    rw [List.nodup_cons] at hn
    have hidx : idx < items.length := hlt idx (by simp)
    have hlt' : ∀ p ∈ is, p < items.length := fun p hp => hlt p (by simp [hp])
    have hget := List.getElem?_eq_getElem hidx
    rw [visit, hget]
    simp only
    generalize hit : items[idx] = it0 at *
    by_cases ha : avail it0.ep = true
    · rw [if_pos ha]
      have hset : ∀ p, p ≠ idx → (items.set idx (bump it0))[p]? = items[p]? :=
        fun p hp => List.getElem?_set_ne (fun e => hp e.symm)
      have hset0 : (items.set idx (bump it0))[idx]? = some (bump it0) := by
        rw [List.getElem?_set_self hidx]
      have hw : wsum avail (items.set idx (bump it0)) is = wsum avail items is := by
        unfold wsum
        congr 1
        apply List.map_congr_left
        intro p hp
        rw [hset p (fun e => hn.1 (e ▸ hp))]
      have hwc : wsum avail items (idx :: is) = it0.weight + wsum avail items is := by
        unfold wsum
        rw [List.map_cons, List.sum_cons, hget]
        simp [ha]
      -- both branches of the comparison
      have key : ∀ (best' : Int) (bi' : Nat), best ≤ best' → it0.current + it0.weight ≤ best' →
          ((best' = best ∧ bi' = bi) ∨ (bi' = idx ∧ best' = it0.current + it0.weight)) →
          ∀ R, visit avail is (items.set idx (bump it0)) (total + it0.weight) best' bi' = R →
            R.1.length = items.length ∧
            (∀ p it, items[p]? = some it → R.1[p]? = some (if p ∈ idx :: is ∧ avail it.ep = true then bump it else it)) ∧
            R.2.1 = total + wsum avail items (idx :: is) ∧ best ≤ R.2.2.1 ∧
            (∀ p ∈ idx :: is, ∀ it, items[p]? = some it → avail it.ep = true → it.current + it.weight ≤ R.2.2.1) ∧
            ((R.2.2.1 = best ∧ R.2.2.2 = bi) ∨ (R.2.2.2 ∈ idx :: is ∧ ∃ it, items[R.2.2.2]? = some it ∧
              avail it.ep = true ∧ it.current + it.weight = R.2.2.1)) := by
        intro best' bi' hb1 hb2 hb3 R hR
        have IH := ih (items.set idx (bump it0)) (total + it0.weight) best' bi' hn.2
          (by simpa using hlt')
        rw [hR] at IH
        obtain ⟨i1, i2, i3, i4, i5, i6⟩ := IH
        · refine ⟨by rw [i1, List.length_set], fun p it hp => ?_, ?_, Int.le_trans hb1 i4, fun p hp it hpi hai => ?_, ?_⟩
          · by_cases hpe : p = idx
            · subst hpe
              rw [hget] at hp
              cases hp
              rw [i2 p _ hset0]
              simp [hn.1, ha]
            · rw [i2 p it (by rw [hset p hpe]; exact hp)]
              simp [hpe]
          · rw [i3, hw, hwc]; omega
          · rcases List.mem_cons.mp hp with rfl | hp
            · rw [hget] at hpi; cases hpi; exact Int.le_trans hb2 i4
            · exact i5 p hp it (by rw [hset p (fun e => hn.1 (e ▸ hp))]; exact hpi) hai
          · rcases i6 with ⟨j1, j2⟩ | ⟨j1, it, j2, j3, j4⟩
            · rcases hb3 with ⟨k1, k2⟩ | ⟨k1, k2⟩
              · exact .inl ⟨by rw [j1, k1], by rw [j2, k2]⟩
              · refine .inr ⟨by rw [j2, k1]; simp, it0, by rw [j2, k1]; exact hget, ha, by rw [j1, k2]⟩
            · refine .inr ⟨by simp [j1], it, ?_, j3, j4⟩
              rw [hset _ (fun e => hn.1 (e ▸ j1))] at j2; exact j2
      by_cases hc : it0.current + it0.weight > best
      · rw [if_pos hc]
        exact key _ _ (by omega) (Int.le_refl _) (.inr ⟨rfl, rfl⟩) _ rfl
      · rw [if_neg hc]
        exact key _ _ (Int.le_refl _) (by omega) (.inl ⟨rfl, rfl⟩) _ rfl
    · rw [if_neg ha]
      obtain ⟨i1, i2, i3, i4, i5, i6⟩ := ih items total best bi hn.2 hlt'
      refine ⟨i1, fun p it hp => ?_, ?_, i4, fun p hp it hpi hai => ?_, ?_⟩
      · rw [i2 p it hp]
        by_cases hpe : p = idx
        · subst hpe; rw [hget] at hp; cases hp; simp [ha]
        · simp [hpe]
      · rw [i3]
        unfold wsum
        rw [List.map_cons, List.sum_cons, hget]
        simp [ha]
      · rcases List.mem_cons.mp hp with rfl | hp
        · rw [hget] at hpi; cases hpi; exact absurd hai ha
        · exact i5 p hp it hpi hai
      · rcases i6 with h | ⟨j1, j2⟩
        · exact .inl h
        · exact .inr ⟨by simp [j1], j2⟩

private theorem fallback_spec (avail : E → Bool) (items : List (Item E)) (idx : Nat) : ∀ n i, 1 ≤ items.length →
    (∀ e, windowFallback avail items idx i n = some e → avail e = true ∧ ∃ it ∈ items, it.ep = e) ∧
    (windowFallback avail items idx i n = none → ∀ j, i ≤ j → j < i + n → ∀ it,
      items[(idx + j) % items.length]? = some it → avail it.ep = false) := by
  intro n
  induction n with
  | zero => intro i _; exact ⟨(by intro e h; cases h), fun _ j h1 h2 => by omega⟩
  | succ n ih =>
    intro i hl
    have hlt : (idx + i) % items.length < items.length := Nat.mod_lt _ (by omega)
    rw [windowFallback, List.getElem?_eq_getElem hlt]
    simp only
    by_cases ha : avail items[(idx + i) % items.length].ep = true
    · rw [if_pos ha]
      exact ⟨(by intro e h; cases h; exact ⟨ha, _, List.getElem_mem hlt, rfl⟩), (by intro h; cases h)⟩
    · rw [if_neg ha]
      obtain ⟨h1, h2⟩ := ih (i + 1) hl
      refine ⟨h1, fun h j hj1 hj2 it hit => ?_⟩
      by_cases hj : j = i
      · subst hj
        rw [List.getElem?_eq_getElem hlt] at hit
        cases hit
        simpa using ha
      · exact h2 h j (by omega) (by omega) it hit

/-! ## C25 for the sliding window -/

/-- **C25.** The sliding window returns an available endpoint of the list or none, for every state of the weights. -/
theorem window_select_available (avail : E → Bool) (ws : Nat) (idx : BitVec 64) (items : List (Item E)) (r : Nat) (e : E)
    (hws : ws ≤ items.length) (h : (windowDoSelect avail ws idx items r).1 = some e) :
    avail e = true ∧ ∃ it ∈ items, it.ep = e := by
  unfold windowDoSelect at h
  simp only [windowLoop_visit avail _ _ _ _ _ _ _ _ rfl] at h
  obtain ⟨hn1, hn2⟩ := indices_nodup (getNonNegative (idx + BitVec.ofNat 64 ws)) items.length ws hws
  have hv := visit_spec avail _ items 0 0 0 hn1 hn2
  generalize visit avail _ items 0 0 0 = R at h hv
  obtain ⟨items', total, best, bi⟩ := R
  obtain ⟨v1, v2, v3, v4, v5, v6⟩ := hv
  simp only at h v1 v2 v3 v4 v5 v6
  have hback : ∀ {it' : Item E}, it' ∈ items' → ∃ it ∈ items, it.ep = it'.ep := by
    intro it' hm
    obtain ⟨p, hp, hpe⟩ := List.getElem_of_mem hm
    have hp' : p < items.length := by omega
    have := v2 p _ (List.getElem?_eq_getElem hp')
    rw [List.getElem?_eq_getElem hp, hpe] at this
    refine ⟨items[p], List.getElem_mem hp', ?_⟩
    have := Option.some.inj this
    rw [this]; split <;> rfl
  have hfb : ∀ (l : List (Item E)) k, (∀ it' ∈ l, ∃ it ∈ items, it.ep = it'.ep) →
      windowFallback avail l k 1 (l.length - 1) = some e → avail e = true ∧ ∃ it ∈ items, it.ep = e := by
    intro l k hl hf
    by_cases h1 : 1 ≤ l.length
    · obtain ⟨ha, it, hit, hie⟩ := (fallback_spec avail l k (l.length - 1) 1 h1).1 e hf
      obtain ⟨it2, hit2, he2⟩ := hl it hit
      exact ⟨ha, it2, hit2, by rw [he2, hie]⟩
    · rw [show l.length - 1 = 0 by omega] at hf; cases hf
  split at h
  · split at h
    · rename_i it' hit'
      split at h
      · rename_i ha
        cases h
        obtain ⟨it, hm, hie⟩ := hback (List.mem_of_getElem? hit')
        exact ⟨ha, it, hm, hie⟩
      · refine hfb _ _ (fun it'' hm => ?_) h
        rcases List.mem_or_eq_of_mem_set hm with hm | hm
        · exact hback hm
        · obtain ⟨it, hm', hie⟩ := hback (List.mem_of_getElem? hit')
          subst hm
          exact ⟨it, hm', hie⟩
    · cases h
  · exact hfb _ _ (fun it' hm => hback hm) h

/-- **C25.** The sliding window finds an available endpoint if one exists at another place than the one position its
fallback skips. -/
theorem window_select_finds (avail : E → Bool) (ws : Nat) (idx : BitVec 64) (items : List (Item E)) (r p : Nat) (it : Item E)
    (hws : ws ≤ items.length) (hp : items[p]? = some it) (ha : avail it.ep = true)
    (hskip : p ≠ (getNonNegative (idx + BitVec.ofNat 64 ws) + r % ws) % items.length) :
    (windowDoSelect avail ws idx items r).1.isSome := by
  unfold windowDoSelect
  simp only [windowLoop_visit avail _ _ _ _ _ _ _ _ rfl]
  obtain ⟨hn1, hn2⟩ := indices_nodup (getNonNegative (idx + BitVec.ofNat 64 ws)) items.length ws hws
  have hv := visit_spec avail _ items 0 0 0 hn1 hn2
  generalize visit avail _ items 0 0 0 = R at hv
  obtain ⟨items', total, best, bi⟩ := R
  obtain ⟨v1, v2, v3, v4, v5, v6⟩ := hv
  simp only at v1 v2 v3 v4 v5 v6 ⊢
  by_cases hb : best > 0
  · rw [if_pos hb]
    rcases v6 with ⟨h1, _⟩ | ⟨h1, it', h2, h3, h4⟩
    · omega
    · have := v2 bi it' h2
      rw [this]
      simp only
      have : avail (if bi ∈ List.map (fun j => (getNonNegative (idx + BitVec.ofNat 64 ws) + j) % items.length)
          (List.range' 0 ws) ∧ avail it'.ep = true then bump it' else it').ep = true := by
        split
        · exact h3
        · exact h3
      rw [if_pos this]
      rfl
  · rw [if_neg hb]
    generalize hk : getNonNegative (idx + BitVec.ofNat 64 ws) + r % ws = k at hskip
    have hpl : p < items.length := (List.getElem?_eq_some_iff.mp hp).1
    have hl : 1 ≤ items'.length := by omega
    simp only
    cases hf : windowFallback avail items' k 1 (items'.length - 1) with
    | some _ => rfl
    | none =>
      exfalso
      have hN : 0 < items.length := by omega
      have hk' : k % items.length < items.length := Nat.mod_lt _ hN
      -- the distance from the skipped position
      obtain ⟨j, hj1, hj2, hj3⟩ : ∃ j, 1 ≤ j ∧ j < items.length ∧ (k + j) % items.length = p := by
        by_cases hlt : k % items.length < p
        · refine ⟨p - k % items.length, by omega, by omega, ?_⟩
          rw [← Nat.mod_add_mod, show k % items.length + (p - k % items.length) = p by omega, Nat.mod_eq_of_lt hpl]
        · refine ⟨items.length + p - k % items.length, by omega, by omega, ?_⟩
          rw [← Nat.mod_add_mod, show k % items.length + (items.length + p - k % items.length) = items.length + p by omega,
            Nat.add_mod_left, Nat.mod_eq_of_lt hpl]
      have := (fallback_spec avail items' k _ 1 hl).2 hf j hj1 (by omega) _ (by rw [v1, hj3]; exact v2 p it hp)
      have hh : avail (if p ∈ List.map (fun j => (getNonNegative (idx + BitVec.ofNat 64 ws) + j) % items.length)
          (List.range' 0 ws) ∧ avail it.ep = true then bump it else it).ep = true := by
        split
        · exact ha
        · exact ha
      rw [hh] at this
      cases this

/-- What does not hold: the fallback skips the position it starts from, so the only available endpoint can be missed
when its current weight is not positive. -/
theorem window_select_misses_counterexample :
    (windowDoSelect (fun e => e == 1) 2 (BitVec.ofNat 64 0) [⟨0, 5, 0⟩, ⟨1, 5, -10⟩] 1).1 = none := by decide +kernel

/-! ## C24 -/

private theorem perm_sum {l l' : List Int} (h : l.Perm l') : l.sum = l'.sum := by
  induction h with
  | nil => rfl
  | cons x _ ih => simp [ih]
  | swap x y l => simp only [List.sum_cons]; omega
  | trans _ _ h1 h2 => rw [h1, h2]

private theorem sum_map_bump (items : List (Item E)) :
    ((items.map bump).map Item.current).sum =
      (items.map Item.current).sum + (items.map fun it => (it.weight : Int)).sum := by
  induction items with
  | nil => rfl
  | cons it items ih =>
    simp only [List.map_cons, List.sum_cons, ih, bump]
    omega

private theorem sum_set (l : List Int) (i : Nat) (x y : Int) (h : l[i]? = some y) : (l.set i x).sum = l.sum - y + x := by
  induction l generalizing i with
  | nil => simp at h
  | cons a l ih =>
    cases i with
    | zero => simp at h; subst h; simp; omega
    | succ i =>
      simp at h
      simp [ih i h]; omega

private theorem exists_pos_of_sum_pos (l : List Int) (h : 0 < l.sum) : ∃ x ∈ l, 0 < x := by
  induction l with
  | nil => simp at h
  | cons a l ih =>
    by_cases ha : 0 < a
    · exact ⟨a, by simp, ha⟩
    · obtain ⟨x, hx, hp⟩ := ih (by simp at h; omega)
      exact ⟨x, by simp [hx], hp⟩

private theorem all_zero_of_sum_zero (l : List Int) (h0 : ∀ x ∈ l, 0 ≤ x) (hs : l.sum = 0) : ∀ x ∈ l, x = 0 := by
  have hnn : ∀ l : List Int, (∀ x ∈ l, 0 ≤ x) → 0 ≤ l.sum := by
    intro l
    induction l with
    | nil => intro _; simp
    | cons a l ih =>
      intro h
      have := h a (by simp)
      have := ih fun x hx => h x (by simp [hx])
      simp; omega
  induction l with
  | nil => intro x hx; cases hx
  | cons a l ih =>
    have ha := h0 a (by simp)
    have hl := hnn l fun x hx => h0 x (by simp [hx])
    rw [List.sum_cons] at hs
    intro x hx
    rcases List.mem_cons.mp hx with rfl | hx
    · omega
    · exact ih (fun y hy => h0 y (by simp [hy])) (by omega) x hx

/-- The total weight. -/
def Spec.totalWeight (items : List (Item E)) : Int := (items.map fun it => (it.weight : Int)).sum

/-- The sum of the dynamic weights. -/
def Spec.currentSum (items : List (Item E)) : Int := (items.map Item.current).sum

/-- The items before the first selection. -/
def Spec.newItems (eps : List E) (weights : List Nat) : List (Item E) :=
  (eps.zip weights).map fun x => ⟨x.1, x.2, 0⟩

/-- A number of selections one after the other: the endpoints chosen and the items afterwards. -/
def Spec.windowRun (avail : E → Bool) (ws : Nat) (idx : BitVec 64) (items : List (Item E)) :
    List Nat → List (Option E) × List (Item E)
  | [] => ([], items)
  | r :: rs =>
    let x := windowDoSelect avail ws idx items r
    let y := Spec.windowRun avail ws x.2.1 x.2.2 rs
    (x.1 :: y.1, y.2)

private structure SInv (avail : E → Bool) (items : List (Item E)) : Prop where
  ne : items ≠ []
  av : ∀ it ∈ items, avail it.ep = true
  pos : ∀ it ∈ items, 0 < it.weight
  zero : Spec.currentSum items = 0
  low : ∀ it ∈ items, -Spec.totalWeight items < it.current

private theorem total_pos {avail : E → Bool} {items : List (Item E)} (h : SInv avail items) : 0 < Spec.totalWeight items := by
  have aux : ∀ l : List (Item E), (∀ it ∈ l, 0 < it.weight) → l ≠ [] → 0 < (l.map fun it => (it.weight : Int)).sum := by
    intro l
    induction l with
    | nil => intro _ h; exact absurd rfl h
    | cons it l ih =>
      intro hp _
      have h1 := hp it (by simp)
      by_cases hl : l = []
      · subst hl; simp; omega
      · have := ih (fun x hx => hp x (by simp [hx])) hl
        simp only [List.map_cons, List.sum_cons]; omega
  exact aux items h.pos h.ne

private theorem swrr_step {avail : E → Bool} {items : List (Item E)} (hI : SInv avail items) (idx : BitVec 64) (r : Nat) :
    ∃ (p : Nat) (it : Item E) (items' : List (Item E)), items[p]? = some it ∧
      windowDoSelect avail items.length idx items r = (some it.ep, idx + BitVec.ofNat 64 items.length, items') ∧
      items'.length = items.length ∧
      (∀ (q : Nat) (x : Item E), items[q]? = some x → items'[q]? = some { x with
        current := x.current + x.weight - if q = p then Spec.totalWeight items else 0 }) ∧ SInv avail items' := by
  have hW := total_pos hI
  unfold windowDoSelect
  simp only [windowLoop_visit avail _ _ _ _ _ _ _ _ rfl]
  obtain ⟨hn1, hn2⟩ := indices_nodup (getNonNegative (idx + BitVec.ofNat 64 items.length)) items.length items.length
    (Nat.le_refl _)
  have hfull : ∀ p, p < items.length → p ∈ List.map (fun j => (getNonNegative (idx + BitVec.ofNat 64 items.length) + j) % items.length)
      (List.range' 0 items.length) := by
    intro p hp
    rw [indices_eq _ _ _ (Nat.le_refl _), List.take_of_length_le (by simp)]
    exact (rot_perm _ _).mem_iff.mpr (List.mem_range.mpr hp)
  have hperm : (List.map (fun j => (getNonNegative (idx + BitVec.ofNat 64 items.length) + j) % items.length)
      (List.range' 0 items.length)).Perm (List.range items.length) := by
    rw [indices_eq _ _ _ (Nat.le_refl _), List.take_of_length_le (by simp)]
    exact rot_perm _ _
  have hv := visit_spec avail _ items 0 0 0 hn1 hn2
  have hwt : wsum avail items (List.map (fun j => (getNonNegative (idx + BitVec.ofNat 64 items.length) + j) % items.length)
      (List.range' 0 items.length)) = Spec.totalWeight items := by
    unfold wsum Spec.totalWeight
    rw [perm_sum (hperm.map _)]
    congr 1
    apply List.ext_getElem?
    intro i
    rw [List.getElem?_map, List.getElem?_map]
    by_cases hi : i < items.length
    · rw [List.getElem?_range hi, List.getElem?_eq_getElem hi]
      simp only [Option.map_some, List.getElem?_eq_getElem hi]
      rw [if_pos (hI.av _ (List.getElem_mem hi))]
    · rw [List.getElem?_eq_none (by simp; omega), List.getElem?_eq_none (by omega)]
      rfl
  generalize visit avail _ items 0 0 0 = R at hv
  obtain ⟨items1, total, best, bi⟩ := R
  obtain ⟨v1, v2, v3, v4, v5, v6⟩ := hv
  simp only at v1 v2 v3 v4 v5 v6 ⊢
  have htot : total = Spec.totalWeight items := by rw [v3, hwt]; omega
  have hitems1 : items1 = items.map bump := by
    apply List.ext_getElem?
    intro p
    rw [List.getElem?_map]
    by_cases hp : p < items.length
    · have hg := List.getElem?_eq_getElem hp
      rw [v2 p _ hg, if_pos ⟨hfull p hp, hI.av _ (List.getElem_mem hp)⟩, hg]
      rfl
    · rw [List.getElem?_eq_none (by omega), List.getElem?_eq_none (by omega)]
      rfl
  have hsum1 : ((items.map bump).map Item.current).sum = Spec.totalWeight items := by
    rw [sum_map_bump]
    have := hI.zero
    unfold Spec.currentSum at this
    rw [this]; simp [Spec.totalWeight]
  have hbest : 0 < best := by
    obtain ⟨x, hx, hxp⟩ := exists_pos_of_sum_pos _ (by rw [hsum1]; exact hW)
    obtain ⟨it1, hit1, rfl⟩ := List.mem_map.mp hx
    obtain ⟨it, hit, rfl⟩ := List.mem_map.mp hit1
    obtain ⟨p, hp, hpe⟩ := List.getElem_of_mem hit
    have := v5 p (hfull p hp) it (by rw [List.getElem?_eq_getElem hp, hpe]) (hI.av it hit)
    simp only [bump] at hxp
    omega
  rw [if_pos hbest]
  rcases v6 with ⟨h1, _⟩ | ⟨h1, it, h2, h3, h4⟩
  · omega
  · have hbi : bi < items.length := (List.getElem?_eq_some_iff.mp h2).1
    have hg1 : items1[bi]? = some (bump it) := by
      rw [hitems1, List.getElem?_map, h2]; rfl
    rw [hg1]
    simp only
    rw [if_pos (show avail (bump it).ep = true from h3)]
    have hq : ∀ (q : Nat) (x : Item E), items[q]? = some x → (items1.set bi { bump it with current := (bump it).current - total })[q]? =
        some { x with current := x.current + x.weight - if q = bi then Spec.totalWeight items else 0 } := by
      intro q x hx
      have hxq : items1[q]? = some (bump x) := by rw [hitems1, List.getElem?_map, hx]; rfl
      by_cases hqb : q = bi
      · subst hqb
        rw [h2] at hx; cases hx
        rw [List.getElem?_set_self (by rw [v1]; exact hbi), if_pos rfl, htot]
        rfl
      · rw [List.getElem?_set_ne (fun e => hqb e.symm), hxq, if_neg hqb]
        simp [bump]
    have htw : Spec.totalWeight (items1.set bi { bump it with current := (bump it).current - total }) =
        Spec.totalWeight items := by
      unfold Spec.totalWeight
      congr 1
      apply List.ext_getElem?
      intro q
      rw [List.getElem?_map, List.getElem?_map]
      by_cases hql : q < items.length
      · rw [hq q _ (List.getElem?_eq_getElem hql), List.getElem?_eq_getElem hql]; rfl
      · rw [List.getElem?_eq_none (by simp; omega), List.getElem?_eq_none (by omega)]
    have hback : ∀ x' ∈ items1.set bi { bump it with current := (bump it).current - total },
        ∃ (q : Nat) (x : Item E), items[q]? = some x ∧
          x' = { x with current := x.current + x.weight - if q = bi then Spec.totalWeight items else 0 } := by
      intro x' hx'
      obtain ⟨q, hql, hqe⟩ := List.getElem_of_mem hx'
      have hql' : q < items.length := by simpa [v1] using hql
      have := hq q _ (List.getElem?_eq_getElem hql')
      rw [List.getElem?_eq_getElem hql, hqe] at this
      exact ⟨q, _, List.getElem?_eq_getElem hql', Option.some.inj this⟩
    refine ⟨bi, it, _, h2, rfl, by rw [List.length_set, v1], hq, ⟨?_, ?_, ?_, ?_, ?_⟩⟩
    · intro e
      have := congrArg List.length e
      rw [List.length_set, v1] at this
      exact hI.ne (List.eq_nil_of_length_eq_zero this)
    · intro x' hx'
      obtain ⟨q, x, hx, rfl⟩ := hback x' hx'
      exact hI.av x (List.mem_of_getElem? hx)
    · intro x' hx'
      obtain ⟨q, x, hx, rfl⟩ := hback x' hx'
      exact hI.pos x (List.mem_of_getElem? hx)
    · unfold Spec.currentSum
      rw [List.map_set, sum_set _ _ _ (bump it).current (by rw [List.getElem?_map, hg1]; rfl), hitems1, hsum1]
      simp only [htot]
      omega
    · intro x' hx'
      obtain ⟨q, x, hx, rfl⟩ := hback x' hx'
      rw [htw]
      have h5 := hI.low x (List.mem_of_getElem? hx)
      have h6 := hI.pos x (List.mem_of_getElem? hx)
      simp only
      by_cases hqb : q = bi
      · subst hqb
        rw [h2] at hx; cases hx
        rw [if_pos rfl]; omega
      · rw [if_neg hqb]; omega

private theorem swrr_run [DecidableEq E] {avail : E → Bool} (rs : List Nat) : ∀ (items : List (Item E)) (idx : BitVec 64),
    SInv avail items → (items.map Item.ep).Nodup →
    SInv avail (Spec.windowRun avail items.length idx items rs).2 ∧
    (Spec.windowRun avail items.length idx items rs).2.length = items.length ∧
    Spec.totalWeight (Spec.windowRun avail items.length idx items rs).2 = Spec.totalWeight items ∧
    ∀ (q : Nat) (x : Item E), items[q]? = some x → (Spec.windowRun avail items.length idx items rs).2[q]? = some { x with
      current := x.current + rs.length * x.weight -
        Spec.totalWeight items * (Spec.windowRun avail items.length idx items rs).1.count (some x.ep) } := by
  induction rs with
  | nil =>
    intro items idx hI _
    exact ⟨hI, rfl, rfl, fun q x h => by simp [Spec.windowRun, h]⟩
  | cons r rs ih =>
    intro items idx hI hnd
    obtain ⟨p, it, items', h1, h2, h3, h4, h5⟩ := swrr_step hI idx r
    have hrun : Spec.windowRun avail items.length idx items (r :: rs) =
        (some it.ep :: (Spec.windowRun avail items'.length (idx + BitVec.ofNat 64 items.length) items' rs).1,
         (Spec.windowRun avail items'.length (idx + BitVec.ofNat 64 items.length) items' rs).2) := by
      rw [Spec.windowRun, h2, h3]
    have heps : items'.map Item.ep = items.map Item.ep := by
      apply List.ext_getElem?
      intro q
      rw [List.getElem?_map, List.getElem?_map]
      by_cases hq : q < items.length
      · rw [h4 q _ (List.getElem?_eq_getElem hq), List.getElem?_eq_getElem hq]; rfl
      · rw [List.getElem?_eq_none (by omega), List.getElem?_eq_none (by omega)]
    have htw : Spec.totalWeight items' = Spec.totalWeight items := by
      unfold Spec.totalWeight
      congr 1
      apply List.ext_getElem?
      intro q
      rw [List.getElem?_map, List.getElem?_map]
      by_cases hq : q < items.length
      · rw [h4 q _ (List.getElem?_eq_getElem hq), List.getElem?_eq_getElem hq]; rfl
      · rw [List.getElem?_eq_none (by omega), List.getElem?_eq_none (by omega)]
    obtain ⟨i1, i2, i3, i4⟩ := ih items' (idx + BitVec.ofNat 64 items.length) h5 (by rw [heps]; exact hnd)
    rw [hrun]
    refine ⟨i1, by rw [i2, h3], by rw [i3, htw], fun q x hx => ?_⟩
    rw [i4 q _ (h4 q x hx)]
    simp only [htw]
    rw [List.count_cons]
    have hpq : (some it.ep == some x.ep) = decide (q = p) := by
      by_cases e : q = p
      · subst e; rw [hx] at h1; cases h1; simp
      · have : it.ep ≠ x.ep := by
          intro he
          have hq' : q < (items.map Item.ep).length := by
            rw [List.length_map]; exact (List.getElem?_eq_some_iff.mp hx).1
          have hp' : p < (items.map Item.ep).length := by
            rw [List.length_map]; exact (List.getElem?_eq_some_iff.mp h1).1
          apply e
          apply (List.getElem_inj (h₀ := hq') (h₁ := hp') hnd).mp
          apply Option.some.inj
          rw [← List.getElem?_eq_getElem, ← List.getElem?_eq_getElem, List.getElem?_map, List.getElem?_map, hx, h1]
          simp [he]
        simp [this, e]
    rw [hpq]
    congr 2
    rw [List.length_cons]
    by_cases e : q = p
    · simp only [e, decide_true, if_true, if_pos rfl]
      push_cast
      rw [Int.add_mul, Int.mul_add]
      omega
    · simp only [e, decide_false, if_false]
      push_cast
      rw [Int.add_mul]
      simp
      omega

private theorem newItems_inv (avail : E → Bool) (eps : List E) (weights : List Nat) (hlen : eps.length = weights.length)
    (hne : eps ≠ []) (hav : ∀ e ∈ eps, avail e = true) (hpos : ∀ w ∈ weights, 0 < w) :
    SInv avail (Spec.newItems eps weights) ∧ (Spec.newItems eps weights).map Item.ep = eps ∧
    (Spec.newItems eps weights).length = eps.length ∧ Spec.totalWeight (Spec.newItems eps weights) = weights.sum ∧
    ∀ (i : Nat) (e : E) (w : Nat), eps[i]? = some e → weights[i]? = some w → (Spec.newItems eps weights)[i]? = some ⟨e, w, 0⟩ := by
  have hl : (Spec.newItems eps weights).length = eps.length := by simp [Spec.newItems, hlen]
  have hcur : ∀ l : List (E × Nat), ((l.map fun x => (⟨x.1, x.2, 0⟩ : Item E)).map Item.current).sum = 0 := by
    intro l
    induction l with
    | nil => rfl
    | cons x l ih => simp only [List.map_cons, List.sum_cons, ih]; omega
  have htw : Spec.totalWeight (Spec.newItems eps weights) = weights.sum := by
    unfold Spec.totalWeight Spec.newItems
    rw [List.map_map]
    have : (List.map ((fun it : Item E => (it.weight : Int)) ∘ fun x => ⟨x.1, x.2, 0⟩) (eps.zip weights)) =
        weights.map (fun w : Nat => (w : Int)) := by
      have h2 : ((fun it : Item E => (it.weight : Int)) ∘ fun x : E × Nat => ⟨x.1, x.2, 0⟩) = (fun w : Nat => (w : Int)) ∘ Prod.snd := rfl
      rw [h2, ← List.map_map, List.map_snd_zip (by omega)]
    rw [this]
    clear this hlen hpos hl
    induction weights with
    | nil => rfl
    | cons w ws ih => simp only [List.map_cons, List.sum_cons]; omega
  have hne' : Spec.newItems eps weights ≠ [] := by
    intro e
    rw [e] at hl
    exact hne (List.eq_nil_of_length_eq_zero hl.symm)
  have hpos' : ∀ it ∈ Spec.newItems eps weights, 0 < it.weight := by
    intro it hit
    obtain ⟨x, hx, rfl⟩ := List.mem_map.mp hit
    exact hpos _ (List.of_mem_zip hx).2
  have hsumpos : 0 < Spec.totalWeight (Spec.newItems eps weights) := by
    cases hn : Spec.newItems eps weights with
    | nil => exact absurd hn hne'
    | cons it l =>
      have h1 := hpos' it (by rw [hn]; simp)
      have h2 : 0 ≤ (l.map fun it => (it.weight : Int)).sum := by
        clear hn h1
        induction l with
        | nil => simp
        | cons a l ih => simp only [List.map_cons, List.sum_cons]; omega
      simp only [Spec.totalWeight, List.map_cons, List.sum_cons]
      omega
  refine ⟨⟨hne', ?_, hpos', hcur _, ?_⟩, ?_, hl, htw, ?_⟩
  · intro it hit
    obtain ⟨x, hx, rfl⟩ := List.mem_map.mp hit
    exact hav _ (List.of_mem_zip hx).1
  · intro it hit
    obtain ⟨x, hx, rfl⟩ := List.mem_map.mp hit
    simp only; omega
  · unfold Spec.newItems
    rw [List.map_map]
    have h2 : (Item.ep ∘ fun x : E × Nat => (⟨x.1, x.2, 0⟩ : Item E)) = Prod.fst := rfl
    rw [h2, List.map_fst_zip (by omega)]
  · intro i e w he hw
    unfold Spec.newItems
    rw [List.getElem?_map, (List.getElem?_zip_eq_some (z := (e, w))).mpr ⟨he, hw⟩]
    rfl

/-- **C24.** With the window covering all endpoints and all of them available: after any number of selections the
dynamic weights add up to zero, and no endpoint was ever chosen as often as its share of the selections plus one. -/
theorem swrr_balanced [DecidableEq E] (avail : E → Bool) (eps : List E) (weights : List Nat) (idx : BitVec 64)
    (rs : List Nat) (hlen : eps.length = weights.length) (hne : eps ≠ []) (hnd : eps.Nodup)
    (hav : ∀ e ∈ eps, avail e = true) (hpos : ∀ w ∈ weights, 0 < w) :
    Spec.currentSum (Spec.windowRun avail eps.length idx (Spec.newItems eps weights) rs).2 = 0 ∧
    ∀ (i : Nat) (e : E) (w : Nat), eps[i]? = some e → weights[i]? = some w →
      weights.sum * (Spec.windowRun avail eps.length idx (Spec.newItems eps weights) rs).1.count (some e) <
        rs.length * w + weights.sum := by
  obtain ⟨hI, he, hl, htw, hget⟩ := newItems_inv avail eps weights hlen hne hav hpos
  obtain ⟨h1, h2, h3, h4⟩ := swrr_run rs (Spec.newItems eps weights) idx hI (by rw [he]; exact hnd)
  rw [hl] at h1 h2 h3 h4
  refine ⟨h1.zero, fun i e w hie hiw => ?_⟩
  have h5 := h4 i _ (hget i e w hie hiw)
  have h6 := h1.low _ (List.mem_of_getElem? h5)
  rw [h3, htw] at h6
  simp only at h6
  have h7 : ((weights.sum * (Spec.windowRun avail eps.length idx (Spec.newItems eps weights) rs).1.count (some e) : Nat) : Int) <
      ((rs.length * w + weights.sum : Nat) : Int) := by
    push_cast
    omega
  exact Int.ofNat_lt.mp h7

/-- **C24.** In every period of as many selections as the weights add up to, every endpoint is chosen exactly as often as
its weight, and the selection is back in its initial state. -/
theorem swrr_fair [DecidableEq E] (avail : E → Bool) (eps : List E) (weights : List Nat) (idx : BitVec 64)
    (rs : List Nat) (hlen : eps.length = weights.length) (hne : eps ≠ []) (hnd : eps.Nodup)
    (hav : ∀ e ∈ eps, avail e = true) (hpos : ∀ w ∈ weights, 0 < w) (hperiod : rs.length = weights.sum) :
    (∀ (i : Nat) (e : E) (w : Nat), eps[i]? = some e → weights[i]? = some w →
      (Spec.windowRun avail eps.length idx (Spec.newItems eps weights) rs).1.count (some e) = w) ∧
    (Spec.windowRun avail eps.length idx (Spec.newItems eps weights) rs).2 = Spec.newItems eps weights := by
  obtain ⟨hI, he, hl, htw, hget⟩ := newItems_inv avail eps weights hlen hne hav hpos
  have hW := total_pos hI
  obtain ⟨h1, h2, h3, h4⟩ := swrr_run rs (Spec.newItems eps weights) idx hI (by rw [he]; exact hnd)
  rw [hl] at h1 h2 h3 h4
  rw [htw] at hW h3 h4
  generalize hR : Spec.windowRun avail eps.length idx (Spec.newItems eps weights) rs = R at h1 h2 h3 h4 ⊢
  rw [hperiod] at h4
  -- every current weight is a multiple of the total weight above minus the total weight
  have hnonneg : ∀ x ∈ R.2.map Item.current, 0 ≤ x := by
    intro x hx
    obtain ⟨it, hit, rfl⟩ := List.mem_map.mp hx
    obtain ⟨q, hq, hqe⟩ := List.getElem_of_mem hit
    have hq' : q < eps.length := by omega
    have hqw : q < weights.length := by omega
    have h5 := h4 q _ (hget q _ _ (List.getElem?_eq_getElem hq') (List.getElem?_eq_getElem hqw))
    have h6 := h1.low it hit
    rw [List.getElem?_eq_getElem hq, hqe] at h5
    rw [Option.some.inj h5, h3] at h6
    rw [Option.some.inj h5]
    simp only at h6 ⊢
    generalize (weights.sum : Int) = W at hW h6 ⊢
    generalize ((weights[q] : Nat) : Int) = w at h6 ⊢
    generalize ((List.count (some eps[q]) R.1 : Nat) : Int) = k at h6 ⊢
    have e1 : 0 + W * w - W * k = W * (w - k) := by rw [Int.mul_sub]; omega
    rw [e1] at h6 ⊢
    have : 0 ≤ w - k := by
      apply Decidable.byContradiction
      intro hn
      have h8 : w - k ≤ -1 := by omega
      have := Int.mul_le_mul_of_nonneg_left h8 (Int.le_of_lt hW)
      omega
    exact Int.mul_nonneg (Int.le_of_lt hW) this
  have hz := all_zero_of_sum_zero _ hnonneg h1.zero
  have hcount : ∀ (i : Nat) (e : E) (w : Nat), eps[i]? = some e → weights[i]? = some w →
      R.1.count (some e) = w ∧ R.2[i]? = some ⟨e, w, 0⟩ := by
    intro i e w hie hiw
    have h5 := h4 i _ (hget i e w hie hiw)
    have h6 := hz _ (List.mem_map.mpr ⟨_, List.mem_of_getElem? h5, rfl⟩)
    simp only at h6 h5
    have h7 : (weights.sum : Int) * ((w : Int) - (R.1.count (some e) : Int)) = 0 := by
      rw [Int.mul_sub]; omega
    have h8 : (w : Int) - (R.1.count (some e) : Int) = 0 := by
      rcases Int.mul_eq_zero.mp h7 with h | h
      · omega
      · exact h
    refine ⟨by omega, ?_⟩
    rw [h5, h6]
  refine ⟨fun i e w hie hiw => (hcount i e w hie hiw).1, ?_⟩
  apply List.ext_getElem?
  intro i
  by_cases hi : i < eps.length
  · have hiw : i < weights.length := by omega
    rw [(hcount i _ _ (List.getElem?_eq_getElem hi) (List.getElem?_eq_getElem hiw)).2,
      hget i _ _ (List.getElem?_eq_getElem hi) (List.getElem?_eq_getElem hiw)]
  · rw [List.getElem?_eq_none (by omega), List.getElem?_eq_none (by omega)]

/-! ## The size of the window -/

/-- **C24.** The window covers all endpoints up to fifty; above, it is between 2 and 50 and does not divide the number of
endpoints (for every number that fits into an `int`), so that it slides. -/
theorem window_size (n : Nat) (hn : n < 2 ^ 63) :
    (n ≤ 50 → windowSize n = n) ∧ (50 < n → 2 ≤ windowSize n ∧ windowSize n ≤ 50 ∧ n % windowSize n ≠ 0) := by
  have hs : ∀ w, shrink n w ≤ w ∧ (shrink n w ≠ 0 → n % shrink n w ≠ 0) ∧ ∀ v, shrink n w < v → v ≤ w → n % v = 0 := by
    intro w
    induction w with
    | zero => exact ⟨Nat.le_refl _, fun h => absurd rfl h, fun v h1 h2 => by omega⟩
    | succ w ih =>
      rw [shrink]
      by_cases h : n % (w + 1) = 0
      · rw [if_pos h]
        refine ⟨by omega, ih.2.1, fun v h1 h2 => ?_⟩
        by_cases hv : v = w + 1
        · rw [hv]; exact h
        · exact ih.2.2 v h1 (by omega)
      · rw [if_neg h]
        exact ⟨Nat.le_refl _, fun _ => h, fun v h1 h2 => by omega⟩
  obtain ⟨h1, h2, h3⟩ := hs 50
  constructor
  · intro h; rw [windowSize, if_neg (by omega)]
  · intro h
    rw [windowSize, if_pos h]
    have hge : 2 ≤ shrink n 50 := by
      apply Decidable.byContradiction
      intro hlt
      have hdvd : ∀ v, 1 < v → v ≤ 50 → v ∣ n := fun v hv1 hv2 =>
        Nat.dvd_of_mod_eq_zero (h3 v (by omega) hv2)
      have hl : ∀ l : List Nat, (∀ v ∈ l, v ∣ n) → l.foldr Nat.lcm 1 ∣ n := by
        intro l
        induction l with
        | nil => intro _; exact Nat.one_dvd n
        | cons a l ih =>
          intro hall
          exact Nat.lcm_dvd (hall a (by simp)) (ih fun v hv => hall v (by simp [hv]))
      have hbig := hl (List.range' 2 49) (by
        intro v hv
        rw [List.mem_range'_1] at hv
        exact hdvd v (by omega) (by omega))
      have hge : (List.range' 2 49).foldr Nat.lcm 1 ≤ n := Nat.le_of_dvd (by omega) hbig
      have : 2 ^ 63 ≤ (List.range' 2 49).foldr Nat.lcm 1 := by decide +kernel
      omega
    exact ⟨hge, h1, h2 (by omega)⟩

/-! ## Non-vacuity -/

/-- Weights 5, 1, 1 give the well-known smooth order a a b a c a a. -/
example : (Spec.windowRun (fun _ => true) 3 0 (Spec.newItems [0, 1, 2] [5, 1, 1]) [0, 0, 0, 0, 0, 0, 0]).1 =
    [some 0, some 0, some 1, some 0, some 2, some 0, some 0] := by decide +kernel

/-- The window mode is reached with few endpoints: weights 499, 500, ... whose sum is above 5120. -/
example : ∃ ws, chooseSelector (499 :: List.replicate 11 500) [] = some (.window 12 ws) := by
  refine ⟨499 :: List.replicate 11 500, ?_⟩
  decide +kernel

end Motan.Props
