import Verif.Props.Select

/-!
# C22, C23: weighted selection is proportional
-/

namespace Motan.Props

open Motan.Lb

variable {E : Type}

/-! ## Greatest common divisors -/

theorem basegcd_eq (n m : Nat) : basegcd n m = Nat.gcd n m := by
  fun_induction basegcd n m with
  | case1 n m h =>
    rcases h with h | h
    · subst h; simp
    · subst h; simp
  | case2 n m h ih =>
    rw [ih, Nat.gcd_comm n m, Nat.gcd_rec m n, Nat.gcd_comm]

/-- The greatest common divisor of a list, by its property. -/
def Spec.IsGcd (d : Nat) (ws : List Nat) : Prop := (∀ w ∈ ws, d ∣ w) ∧ ∀ k, (∀ w ∈ ws, k ∣ w) → k ∣ d

theorem findGcd_spec (v : Nat) (vs : List Nat) : ∃ d, findGcd (v :: vs) = some d ∧ Spec.IsGcd d (v :: vs) := by
  refine ⟨_, rfl, ?_⟩
  induction vs generalizing v with
  | nil => exact ⟨by simp, fun k h => h v (by simp)⟩
  | cons w vs ih =>
    rw [List.foldl_cons, basegcd_eq]
    obtain ⟨h1, h2⟩ := ih (Nat.gcd v w)
    constructor
    · intro x hx
      have hg := h1 (Nat.gcd v w) (by simp)
      rcases List.mem_cons.mp hx with rfl | hx
      · exact Nat.dvd_trans hg (Nat.gcd_dvd_left _ _)
      · rcases List.mem_cons.mp hx with rfl | hx
        · exact Nat.dvd_trans hg (Nat.gcd_dvd_right _ _)
        · exact h1 x (by simp [hx])
    · intro k hk
      refine h2 k fun x hx => ?_
      rcases List.mem_cons.mp hx with rfl | hx
      · exact Nat.dvd_gcd (hk v (by simp)) (hk w (by simp))
      · exact hk x (by simp [hx])

theorem isGcd_pos {d : Nat} {ws : List Nat} (h : Spec.IsGcd d ws) (hp : ∃ w ∈ ws, 0 < w) : 0 < d := by
  obtain ⟨w, hw, h0⟩ := hp
  exact Nat.pos_of_dvd_of_pos (h.1 w hw) h0

/-! ## C22: the weight string -/

/-- One entry of the weight string: a group, and its weight as text if one is given. -/
def Spec.entryText : Bytes × Option Bytes → Bytes
  | (g, none) => g
  | (g, some w) => g ++ b!":" ++ w

/-- The weight an entry asks for: 1 if none is given. -/
def Spec.entryWeight : Option Bytes → Nat
  | none => 1
  | some w => clampWeight w

/-- The weight of a group: that of the last entry naming it; a group not named has weight 0. -/
def Spec.weightOf (entries : List (Bytes × Option Bytes)) (g : Bytes) : Nat :=
  match entries.reverse.find? (fun e => e.1 == g) with
  | some e => Spec.entryWeight e.2
  | none => 0

/-- **C22.** Weights are clamped to 1..100. -/
theorem clamp_weight (n : Int) (hlo : -2 ^ 63 ≤ n) (hhi : n < 2 ^ 63) :
    (clampWeight (formatInt n) : Int) = max 1 (min 100 n) := by
  rw [clampWeight, parseInt64_formatInt n hlo hhi]
  simp only
  split
  · omega
  · split <;> omega

/-- **C22.** Whatever the text, a weight is between 1 and 100. -/
theorem clamp_weight_range (w : Bytes) : 1 ≤ clampWeight w ∧ clampWeight w ≤ 100 := by
  unfold clampWeight
  split
  · split
    · omega
    · split <;> omega
  · omega

theorem weightPart_entry (acc : Bool × AMap Bytes Nat) (e : Bytes × Option Bytes) (h1 : (58 : UInt8) ∉ e.1)
    (h2 : e.2 = none → e.1 ≠ []) (h3 : ∀ w, e.2 = some w → (58 : UInt8) ∉ w) :
    weightPart acc (Spec.entryText e) =
      ((match e.2 with | none => acc.1 | some _ => false), AMap.store acc.2 e.1 (Spec.entryWeight e.2)) := by
  obtain ⟨g, w⟩ := e
  cases w with
  | none =>
    have hg : g ≠ [] := h2 rfl
    unfold weightPart Spec.entryText
    rw [if_neg hg, Strings.split_single h1]
    rfl
  | some w =>
    have hne : g ++ b!":" ++ w ≠ [] := by simp
    unfold weightPart Spec.entryText
    simp only
    rw [if_neg hne]
    have : g ++ b!":" ++ w = g ++ 58 :: w := by simp
    have hs : Strings.split b!":" (g ++ b!":" ++ w) = [g, w] := by
      rw [show (b!":" : Bytes) = 58 :: [] from rfl, Strings.split_cons h1, Strings.split_single (h3 w rfl)]
    rw [hs]
    rfl

theorem foldl_entries (entries : List (Bytes × Option Bytes)) (h1 : ∀ e ∈ entries, (58 : UInt8) ∉ e.1)
    (h2 : ∀ e ∈ entries, e.2 = none → e.1 ≠ []) (h3 : ∀ e ∈ entries, ∀ w, e.2 = some w → (58 : UInt8) ∉ w) :
    ∀ acc : Bool × AMap Bytes Nat, ∀ g,
      ((entries.map Spec.entryText).foldl weightPart acc).1 = (acc.1 && entries.all (·.2.isNone)) ∧
      AMap.load ((entries.map Spec.entryText).foldl weightPart acc).2 g =
        match entries.reverse.find? (fun e => e.1 == g) with
        | some e => some (Spec.entryWeight e.2)
        | none => AMap.load acc.2 g := by
  induction entries with
  | nil => intro acc g; simp
  | cons e es ih =>
    intro acc g
    obtain ⟨i1, i2⟩ := ih (fun x hx => h1 x (by simp [hx])) (fun x hx => h2 x (by simp [hx]))
      (fun x hx => h3 x (by simp [hx])) (weightPart acc (Spec.entryText e)) g
    rw [List.map_cons, List.foldl_cons, i1, i2,
      weightPart_entry acc e (h1 e (by simp)) (h2 e (by simp)) (h3 e (by simp))]
    refine ⟨?_, ?_⟩
    · obtain ⟨g', w⟩ := e
      cases w <;> simp
    · rw [List.reverse_cons, List.find?_append]
      cases hf : es.reverse.find? (fun e => e.1 == g) with
      | some x => simp
      | none =>
        rw [Option.none_or]
        simp only [List.find?_cons, List.find?_nil, AMap.load_store]
        by_cases hg : e.1 = g
        · simp [hg]
        · have : (e.1 == g) = false := by simpa using hg
          simp [this, hg]

/-- **C22.** The weight string is read as written: entries separated by commas, groups with or without a weight. Groups
are mixed only if no entry has a weight. -/
theorem weights_parsed (entries : List (Bytes × Option Bytes)) (hne : entries ≠ [])
    (h0 : ∀ e ∈ entries, (44 : UInt8) ∉ Spec.entryText e) (h1 : ∀ e ∈ entries, (58 : UInt8) ∉ e.1)
    (h2 : ∀ e ∈ entries, e.2 = none → e.1 ≠ []) (h3 : ∀ e ∈ entries, ∀ w, e.2 = some w → (58 : UInt8) ∉ w) :
    (parseWeights (Strings.join b!"," (entries.map Spec.entryText))).1 = entries.all (·.2.isNone) ∧
    ∀ g, (AMap.load (parseWeights (Strings.join b!"," (entries.map Spec.entryText))).2 g).getD 0 =
      Spec.weightOf entries g := by
  have hs : Strings.split b!"," (Strings.join b!"," (entries.map Spec.entryText)) = entries.map Spec.entryText := by
    apply Strings.split_join
    · simpa using hne
    · intro p hp
      obtain ⟨e, he, rfl⟩ := List.mem_map.mp hp
      exact h0 e he
  unfold parseWeights
  rw [hs]
  refine ⟨by rw [(foldl_entries entries h1 h2 h3 (true, []) []).1]; simp, fun g => ?_⟩
  rw [(foldl_entries entries h1 h2 h3 (true, []) g).2, Spec.weightOf]
  cases entries.reverse.find? (fun e => e.1 == g) <;> rfl

/-! ## C22: the ring of groups -/

/-- `gs` lists the groups of the endpoints, each once (the order of iterating over the map of groups). -/
def Spec.ListsGroups (group : E → Bytes) (eps : List E) (gs : List Bytes) : Prop :=
  gs.Nodup ∧ ∀ g, g ∈ gs ↔ ∃ e ∈ eps, group e = g

theorem load_groupEp (group : E → Bytes) (eps : List E) : ∀ (m : AMap Bytes (List E)) (g : Bytes),
    AMap.load (groupEp group eps m) g =
      if ∃ e ∈ eps, group e = g then some ((AMap.load m g).getD [] ++ eps.filter (fun e => group e = g))
      else AMap.load m g := by
  induction eps with
  | nil => intro m g; simp [groupEp]
  | cons e es ih =>
    intro m g
    rw [groupEp, ih, AMap.load_store]
    by_cases hg : group e = g
    · subst hg
      rw [if_pos rfl]
      simp only [Option.getD_some]
      rw [if_pos (⟨e, by simp, rfl⟩ : ∃ e' ∈ e :: es, group e' = group e)]
      by_cases hx : ∃ e' ∈ es, group e' = group e
      · rw [if_pos hx]; simp
      · rw [if_neg hx]
        have : es.filter (fun e' => group e' = group e) = [] := by
          rw [List.filter_eq_nil_iff]; intro a ha h; exact hx ⟨a, ha, by simpa using h⟩
        simp [this]
    · rw [if_neg hg]
      have hf : (e :: es).filter (fun e => group e = g) = es.filter (fun e => group e = g) := by simp [hg]
      have he : (∃ e' ∈ e :: es, group e' = g) ↔ ∃ e' ∈ es, group e' = g := by
        constructor
        · rintro ⟨a, ha, h⟩
          rcases List.mem_cons.mp ha with rfl | ha
          · exact absurd h hg
          · exact ⟨a, ha, h⟩
        · rintro ⟨a, ha, h⟩; exact ⟨a, by simp [ha], h⟩
      rw [hf]
      simp only [he]

theorem count_flatMap_replicate (f : Bytes → Nat) (g : Bytes) : ∀ gs : List Bytes, gs.Nodup →
    (gs.flatMap fun x => List.replicate (f x) x).count g = if g ∈ gs then f g else 0 := by
  intro gs
  induction gs with
  | nil => intro _; simp
  | cons a gs ih =>
    intro hn
    rw [List.nodup_cons] at hn
    rw [List.flatMap_cons, List.count_append, ih hn.2, List.count_replicate]
    by_cases h : a = g
    · subst h; simp [hn.1]
    · have h' : ¬ g = a := fun e => h e.symm
      simp [h, h']

theorem onRefresh_weighted (group : E → Bytes) (ws : Bytes) (eps : List E) (order order' : List Bytes)
    (draws : List (Nat × Nat)) (hws : ws ≠ []) (hmix : (parseWeights ws).1 = false) :
    onRefresh group ws eps order order' draws =
      match findGcd (order.map fun g => (AMap.load (parseWeights ws).2 g).getD 0) with
      | none => .error .indexOutOfRange
      | some gcd =>
        if gcd = 0 then .error .divideByZero
        else .ok (.weighted
          (shuffle (order'.flatMap fun g => List.replicate ((AMap.load (parseWeights ws).2 g).getD 0 / gcd) g) draws)
          (groupEp group eps [])) := by
  rw [onRefresh, if_neg hws]
  have : parseWeights ws = (false, (parseWeights ws).2) := Prod.ext hmix rfl
  rw [this]
  rfl

/-- **C22.** With a weight string that weights groups, and endpoints of which some group has a weight: whatever the
iteration orders and the shuffle, the refresh succeeds, and one turn of the ring holds every present group exactly as
often as its weight divided by the greatest common divisor of the weights of the present groups. -/
theorem group_ring_proportional (group : E → Bytes) (ws : Bytes) (eps : List E) (order order' : List Bytes)
    (draws : List (Nat × Nat)) (weight : Bytes → Nat)
    (hmix : (parseWeights ws).1 = false) (hw : ∀ g, (AMap.load (parseWeights ws).2 g).getD 0 = weight g)
    (ho : Spec.ListsGroups group eps order) (ho' : Spec.ListsGroups group eps order')
    (hpos : ∃ e ∈ eps, 0 < weight (group e)) :
    ∃ ring byGroup d, onRefresh group ws eps order order' draws = .ok (.weighted ring byGroup) ∧
      0 < d ∧ Spec.IsGcd d (order.map weight) ∧ (∀ g ∈ order, ring.count g * d = weight g) ∧
      (∀ g ∈ ring, g ∈ order) ∧ ring ≠ [] ∧
      ∀ g ∈ order, AMap.load byGroup g = some (eps.filter fun e => group e = g) := by
  have hws : ws ≠ [] := by
    intro e; subst e
    exact absurd hmix (by decide +kernel)
  obtain ⟨e0, he0, hp0⟩ := hpos
  have hmem0 : group e0 ∈ order := (ho.2 _).mpr ⟨e0, he0, rfl⟩
  have hmap : (order.map fun g => (AMap.load (parseWeights ws).2 g).getD 0) = order.map weight :=
    List.map_congr_left fun g _ => hw g
  obtain ⟨d, hd1, hd2⟩ : ∃ d, findGcd (order.map weight) = some d ∧ Spec.IsGcd d (order.map weight) := by
    cases order with
    | nil => cases hmem0
    | cons a l => exact findGcd_spec _ _
  have hdpos : 0 < d := isGcd_pos hd2 ⟨_, List.mem_map.mpr ⟨_, hmem0, rfl⟩, hp0⟩
  have hcount : ∀ g, (shuffle (order'.flatMap fun g => List.replicate
      ((AMap.load (parseWeights ws).2 g).getD 0 / d) g) draws).count g = if g ∈ order' then weight g / d else 0 := by
    intro g
    rw [(shuffle_perm _ _).count_eq, count_flatMap_replicate _ _ _ ho'.1, hw]
  have hoo : ∀ g, g ∈ order ↔ g ∈ order' := fun g => by rw [ho.2, ho'.2]
  have hcd : ∀ g ∈ order, (shuffle (order'.flatMap fun g => List.replicate
      ((AMap.load (parseWeights ws).2 g).getD 0 / d) g) draws).count g * d = weight g := by
    intro g hg
    rw [hcount, if_pos ((hoo g).mp hg)]
    exact Nat.div_mul_cancel (hd2.1 _ (List.mem_map.mpr ⟨g, hg, rfl⟩))
  refine ⟨shuffle (order'.flatMap fun g => List.replicate
      ((AMap.load (parseWeights ws).2 g).getD 0 / d) g) draws, groupEp group eps [], d, ?_, hdpos, hd2, hcd, ?_, ?_, ?_⟩
  · rw [onRefresh_weighted group ws eps order order' draws hws hmix, hmap, hd1]
    simp only
    rw [if_neg (by omega)]
  · intro g hg
    refine (hoo g).mpr ?_
    have hpos' := List.count_pos_iff.mpr hg
    rw [hcount] at hpos'
    apply Decidable.byContradiction
    intro hn; rw [if_neg hn] at hpos'; omega
  · intro hnil
    have := hcd _ hmem0
    rw [hnil] at this
    simp at this
    omega
  · intro g hg
    rw [load_groupEp, if_pos ((ho.2 g).mp hg)]
    simp [AMap.load]

/-- **C22.** What goes wrong: with no endpoints the refresh panics, and if no present group has a weight it divides by
zero. -/
theorem group_refresh_panics (group : E → Bytes) (ws : Bytes) (eps : List E) (order order' : List Bytes)
    (draws : List (Nat × Nat)) (hws : ws ≠ []) (hmix : (parseWeights ws).1 = false) (ho : Spec.ListsGroups group eps order) :
    (eps = [] → onRefresh group ws eps order order' draws = .error .indexOutOfRange) ∧
    (eps ≠ [] → (∀ e ∈ eps, (AMap.load (parseWeights ws).2 (group e)).getD 0 = 0) →
      onRefresh group ws eps order order' draws = .error .divideByZero) := by
  rw [onRefresh_weighted group ws eps order order' draws hws hmix]
  constructor
  · intro h
    subst h
    have : order = [] := by
      cases order with
      | nil => rfl
      | cons a l =>
        obtain ⟨e, he, _⟩ := (ho.2 a).mp (by simp)
        cases he
    subst this
    rfl
  · intro hne h0
    cases order with
    | nil =>
      obtain ⟨e, he⟩ := List.exists_mem_of_ne_nil _ hne
      have := (ho.2 (group e)).mpr ⟨e, he, rfl⟩
      cases this
    | cons a l =>
      obtain ⟨d, hd1, hd2⟩ := findGcd_spec ((AMap.load (parseWeights ws).2 a).getD 0)
        (l.map fun g => (AMap.load (parseWeights ws).2 g).getD 0)
      rw [List.map_cons, hd1]
      have hz : d = 0 := by
        have := hd2.2 0 (by
          intro w hw
          have hw' : w ∈ (a :: l).map fun g => (AMap.load (parseWeights ws).2 g).getD 0 := by
            rw [List.map_cons]; exact hw
          obtain ⟨g, hg, rfl⟩ := List.mem_map.mp hw'
          obtain ⟨e, he, heg⟩ := (ho.2 g).mp hg
          rw [← heg, h0 e he]
          exact Nat.dvd_refl 0)
        exact Nat.eq_zero_of_zero_dvd this
      simp [hz]

/-- A number of selections one after the other. -/
def Spec.groupsChosen (ring : List Bytes) (idx : UInt32) : Nat → List (Option Bytes)
  | 0 => []
  | n + 1 => (nextGroup ring idx).1 :: Spec.groupsChosen ring (nextGroup ring idx).2 n

/-- **C22.** Any ring-size consecutive selections choose the groups exactly as they are on the ring, as long as the
32-bit counter does not wrap around in between. -/
theorem group_window (ring : List Bytes) (idx : UInt32) (h : idx.toNat + ring.length < 2 ^ 32) :
    (Spec.groupsChosen ring idx ring.length).Perm (ring.map some) := by
  have key : ∀ n (idx : UInt32), idx.toNat + n < 2 ^ 32 →
      Spec.groupsChosen ring idx n = (List.range n).map fun i => ring[(idx.toNat + 1 + i) % ring.length]? := by
    intro n
    induction n with
    | zero => intro _ _; rfl
    | succ n ih =>
      intro idx hi
      have e : (idx + 1).toNat = idx.toNat + 1 := by
        rw [UInt32.toNat_add, Nat.mod_eq_of_lt (by simp; omega)]; rfl
      rw [Spec.groupsChosen, nextGroup, ih _ (by show (idx + 1).toNat + n < _; omega), List.range_succ_eq_map,
        List.map_cons, List.map_map]
      congr 1
      · simp only [e, Nat.add_zero]
      · apply List.map_congr_left
        intro i _
        simp only [Function.comp]
        rw [e]
        congr 2
        omega
  rw [key _ _ h, map_range_rot]
  exact (rot_perm ring _).map some

/-- What does not hold: when the counter wraps around, a window can choose one group twice and another not at all. -/
theorem group_window_wrap_counterexample :
    Spec.groupsChosen [b!"a", b!"b", b!"c"] 0xfffffffe 3 = [some b!"a", some b!"a", some b!"b"] := by decide

/-! ## C23 -/

theorem getNonNegative_eq (x : BitVec 64) : getNonNegative x = x.toNat % 2 ^ 63 := by
  unfold getNonNegative
  have hx := x.isLt
  rw [BitVec.toInt_eq_toNat_cond]
  have hand : (0x7fffffffffffffff#64 &&& x).toNat = x.toNat % 2 ^ 63 := by
    rw [BitVec.toNat_and, Nat.and_comm]
    exact Nat.and_two_pow_sub_one_eq_mod x.toNat 63
  by_cases h : 2 * x.toNat < 2 ^ 64
  · rw [if_pos h]
    split
    · rw [Int.toNat_natCast, Nat.mod_eq_of_lt (by omega)]
    · rw [hand]
  · rw [if_neg h, if_neg (by omega), hand]

theorem mem_ringOf (b : UInt8) : ∀ (ws : List Nat) (k : Nat), b ∈ ringOf k ws →
    ∃ i, i < ws.length ∧ b = UInt8.ofNat (k + i) := by
  intro ws
  induction ws with
  | nil => intro k h; cases h
  | cons w ws ih =>
    intro k h
    rw [ringOf] at h
    rcases List.mem_append.mp h with h | h
    · exact ⟨0, by simp, (List.eq_of_mem_replicate h)⟩
    · obtain ⟨i, hi, e⟩ := ih (k + 1) h
      exact ⟨i + 1, by simpa using hi, by rw [e]; congr 1; omega⟩

theorem count_ringOf : ∀ (ws : List Nat) (k i : Nat), k + ws.length ≤ 256 → i < ws.length →
    (ringOf k ws).count (UInt8.ofNat (k + i)) = (ws[i]?).getD 0 := by
  have inj : ∀ a b : Nat, a < 256 → b < 256 → UInt8.ofNat a = UInt8.ofNat b → a = b := by
    intro a b ha hb h
    have := congrArg UInt8.toNat h
    rw [UInt8.toNat_ofNat', UInt8.toNat_ofNat'] at this
    omega
  intro ws
  induction ws with
  | nil => intro k i _ hi; simp at hi
  | cons w ws ih =>
    intro k i hk hi
    rw [ringOf, List.count_append, List.count_replicate]
    rw [List.length_cons] at hk hi
    cases i with
    | zero =>
      have h0 : (ringOf (k + 1) ws).count (UInt8.ofNat (k + 0)) = 0 := by
        rw [List.count_eq_zero]
        intro hm
        obtain ⟨j, hj, e⟩ := mem_ringOf _ ws (k + 1) hm
        have := inj _ _ (by omega) (by omega) e
        omega
      rw [h0]; simp
    | succ i =>
      have hne : ¬ (UInt8.ofNat k == UInt8.ofNat (k + (i + 1))) = true := by
        intro h
        have := inj k (k + (i + 1)) (by omega) (by omega) (eq_of_beq h)
        omega
      rw [if_neg hne]
      have := ih (k + 1) i (by omega) (by omega)
      rw [show k + (i + 1) = k + 1 + i by omega, this]
      simp

/-- **C23.** In ring mode every endpoint is on the ring exactly weight/gcd times (whatever the shuffle), and nothing else
is. -/
theorem wrr_ring_proportional (weights : List Nat) (draws : List (Nat × Nat)) (ring : List UInt8)
    (hpos : ∀ w ∈ weights, 0 < w) (h : chooseSelector weights draws = some (.ring ring)) :
    ∃ d, 0 < d ∧ Spec.IsGcd d weights ∧ weights.length ≤ 256 ∧
      (∀ i w, weights[i]? = some w → ring.count (UInt8.ofNat i) * d = w) ∧
      ∀ b ∈ ring, b.toNat < weights.length := by
  unfold chooseSelector at h
  split at h
  · cases h
  · cases weights with
    | nil => cases h
    | cons v vs =>
      obtain ⟨d, hd1, hd2⟩ := findGcd_spec v vs
      have hdpos : 0 < d := isGcd_pos hd2 ⟨v, by simp, hpos v (by simp)⟩
      rw [hd1] at h
      have hws : (if d > 1 then (v :: vs).map (· / d) else v :: vs) = (v :: vs).map (· / d) := by
        by_cases h1 : d > 1
        · rw [if_pos h1]
        · have : d = 1 := by omega
          rw [if_neg h1, this]; simp
      simp only [hws] at h
      split at h
      · rename_i hle
        simp only [Option.some.injEq, Selector.ring.injEq] at h
        subst h
        have hl : (v :: vs).length ≤ 256 := by simpa using hle.1
        refine ⟨d, hdpos, hd2, hl, fun i w hw => ?_, fun b hb => ?_⟩
        · rw [(shuffle_perm _ _).count_eq]
          have hi : i < ((v :: vs).map (· / d)).length := by
            rw [List.length_map]; exact (List.getElem?_eq_some_iff.mp hw).1
          have := count_ringOf ((v :: vs).map (· / d)) 0 i (by rw [List.length_map]; omega) hi
          rw [Nat.zero_add] at this
          rw [this, List.getElem?_map, hw]
          simp only [Option.map_some, Option.getD_some]
          exact Nat.div_mul_cancel (hd2.1 w (List.mem_of_getElem? hw))
        · obtain ⟨i, hi, e⟩ := mem_ringOf b _ 0 ((shuffle_perm _ _).mem_iff.mp hb)
          rw [List.length_map] at hi
          rw [e, UInt8.toNat_ofNat', Nat.zero_add]
          exact Nat.lt_of_le_of_lt (Nat.mod_le _ _) hi
      · cases h

/-- **C23.** When the mode is the ring: positive weights, not all equal, at most 256 endpoints, reduced weights adding up
to at most 5120. -/
theorem wrr_ring_mode (weights : List Nat) (draws : List (Nat × Nat)) (d : Nat) (hpos : ∀ w ∈ weights, 0 < w)
    (hd : Spec.IsGcd d weights) (hdiff : ∃ a ∈ weights, ∃ b ∈ weights, a ≠ b) (hlen : weights.length ≤ 256)
    (hsum : (weights.map (· / d)).sum ≤ 5120) : ∃ ring, chooseSelector weights draws = some (.ring ring) := by
  obtain ⟨a, ha, b, hb, hab⟩ := hdiff
  unfold chooseSelector
  rw [if_neg]
  · cases weights with
    | nil => cases ha
    | cons v vs =>
      obtain ⟨d', hd1, hd2⟩ := findGcd_spec v vs
      have : d' = d := Nat.dvd_antisymm (hd.2 d' hd2.1) (hd2.2 d hd.1)
      subst this
      have hdpos : 0 < d' := isGcd_pos hd2 ⟨v, by simp, hpos v (by simp)⟩
      have hws : (if d' > 1 then (v :: vs).map (· / d') else v :: vs) = (v :: vs).map (· / d') := by
        by_cases h1 : d' > 1
        · rw [if_pos h1]
        · have : d' = 1 := by omega
          rw [if_neg h1, this]; simp
      rw [hd1]
      simp only [hws]
      rw [if_pos ⟨by simpa using hlen, hsum⟩]
      exact ⟨_, rfl⟩
  · intro hall
    rw [List.all_eq_true] at hall
    have h1 := hall a ha
    have h2 := hall b hb
    simp only [decide_eq_true_eq] at h1 h2
    rw [← h1] at h2
    exact hab (Option.some.inj h2).symm

/-- A number of selections one after the other (`rs` are the random numbers). -/
def Spec.ringChosen (avail : E → Bool) (eps : List E) (ring : List UInt8) (idx : BitVec 64) :
    List Nat → List (Option (Option E))
  | [] => []
  | r :: rs => (ringDoSelect avail eps ring idx r).1 ::
      Spec.ringChosen avail eps ring (ringDoSelect avail eps ring idx r).2 rs

/-- **C23.** With all endpoints available, any ring-size consecutive selections choose the endpoints exactly as often as
they are on the ring, as long as the 63-bit counter does not wrap around in between. -/
theorem ring_window [DecidableEq E] (avail : E → Bool) (eps : List E) (ring : List UInt8) (idx : BitVec 64)
    (rs : List Nat) (hr : rs.length = ring.length) (hin : ∀ b ∈ ring, b.toNat < eps.length)
    (hav : ∀ e ∈ eps, avail e = true) (h : idx.toNat % 2 ^ 63 + ring.length < 2 ^ 63) :
    (Spec.ringChosen avail eps ring idx rs).Perm (ring.map fun b => some (eps[b.toNat]?)) := by
  have key : ∀ (rs : List Nat) (idx : BitVec 64), ring ≠ [] → idx.toNat % 2 ^ 63 + rs.length < 2 ^ 63 →
      Spec.ringChosen avail eps ring idx rs =
        (List.range rs.length).map fun i =>
          (ring[(idx.toNat % 2 ^ 63 + 1 + i) % ring.length]?).map fun b => eps[b.toNat]? := by
    intro rs
    induction rs with
    | nil => intro _ _ _; rfl
    | cons r rs ih =>
      intro idx hne hi
      rw [List.length_cons] at hi
      have e : (idx + 1).toNat % 2 ^ 63 = idx.toNat % 2 ^ 63 + 1 := by
        have := idx.isLt
        rw [BitVec.toNat_add]
        show (idx.toNat + 1) % 2 ^ 64 % 2 ^ 63 = _
        omega
      have hlen : 0 < ring.length := by
        cases ring with
        | nil => exact absurd rfl hne
        | cons => simp
      have hlt : (idx.toNat % 2 ^ 63 + 1) % ring.length < ring.length := Nat.mod_lt _ hlen
      have hb := hin _ (List.getElem_mem hlt)
      have hsel : ringDoSelect avail eps ring idx r =
          (some (some eps[ring[(idx.toNat % 2 ^ 63 + 1) % ring.length].toNat]), idx + 1) := by
        unfold ringDoSelect
        simp only
        rw [getNonNegative_eq, e, List.getElem?_eq_getElem hlt]
        simp only
        rw [List.getElem?_eq_getElem hb]
        simp only
        rw [if_pos (hav _ (List.getElem_mem _))]
      rw [Spec.ringChosen, hsel, ih _ hne (by show (idx + 1).toNat % _ + _ < _; omega), List.length_cons,
        List.range_succ_eq_map, List.map_cons, List.map_map]
      congr 1
      · show _ = Option.map (fun b => eps[b.toNat]?) ring[(idx.toNat % 2 ^ 63 + 1) % ring.length]?
        rw [List.getElem?_eq_getElem hlt, Option.map_some, List.getElem?_eq_getElem hb]
      · apply List.map_congr_left
        intro i _
        simp only [Function.comp]
        rw [e]
        congr 3
        omega
  by_cases hne : ring = []
  · subst hne
    cases rs with
    | nil => exact List.Perm.refl _
    | cons => cases hr
  · rw [key rs idx hne (by omega), hr]
    have hm := map_range_rot ring (idx.toNat % 2 ^ 63 + 1)
    have : ((List.range ring.length).map fun i =>
        (ring[(idx.toNat % 2 ^ 63 + 1 + i) % ring.length]?).map fun b => eps[b.toNat]?) =
        ((List.range ring.length).map fun i => ring[(idx.toNat % 2 ^ 63 + 1 + i) % ring.length]?).map
          (Option.map fun b => eps[b.toNat]?) := by
      rw [List.map_map]; rfl
    rw [this, hm, List.map_map]
    exact (rot_perm ring _).map _

/-- A number of selections one after the other in round-robin mode. -/
def Spec.roundRobinChosen (avail : E → Bool) (eps : List E) (idx : BitVec 64) : List Nat → List (Option (Option E))
  | [] => []
  | r :: rs => (roundRobinDoSelect avail eps idx r).1 ::
      Spec.roundRobinChosen avail eps (roundRobinDoSelect avail eps idx r).2 rs

/-- **C23.** With equal weights the round-robin mode is used, and any window of as many selections as there are
endpoints chooses every endpoint exactly once (all available, no wrap-around in between). -/
theorem wrr_equal_weights (avail : E → Bool) (eps : List E) (idx : BitVec 64) (rs : List Nat) (n w : Nat)
    (draws : List (Nat × Nat)) (hr : rs.length = eps.length) (hav : ∀ e ∈ eps, avail e = true)
    (h : idx.toNat % 2 ^ 63 + eps.length < 2 ^ 63) :
    chooseSelector (List.replicate n w) draws = some .roundRobin ∧
    (Spec.roundRobinChosen avail eps idx rs).Perm (eps.map fun e => some (some e)) := by
  constructor
  · unfold chooseSelector
    rw [if_pos]
    cases n with
    | zero => rfl
    | succ n => simp [List.replicate_succ]
  · have key : ∀ (rs : List Nat) (idx : BitVec 64), eps ≠ [] → idx.toNat % 2 ^ 63 + rs.length < 2 ^ 63 →
        Spec.roundRobinChosen avail eps idx rs =
          (List.range rs.length).map fun i => (eps[(idx.toNat % 2 ^ 63 + 1 + i) % eps.length]?).map some := by
      intro rs
      induction rs with
      | nil => intro _ _ _; rfl
      | cons r rs ih =>
        intro idx hne hi
        rw [List.length_cons] at hi
        have e : (idx + 1).toNat % 2 ^ 63 = idx.toNat % 2 ^ 63 + 1 := by
          have := idx.isLt
          rw [BitVec.toNat_add]
          show (idx.toNat + 1) % 2 ^ 64 % 2 ^ 63 = _
          omega
        have hlen : eps.length ≠ 0 := fun h => hne (List.eq_nil_of_length_eq_zero h)
        have hlt : (idx.toNat % 2 ^ 63 + 1) % eps.length < eps.length := Nat.mod_lt _ (by omega)
        have hsel : roundRobinDoSelect avail eps idx r =
            (some (some eps[(idx.toNat % 2 ^ 63 + 1) % eps.length]), idx + 1) := by
          unfold roundRobinDoSelect
          simp only
          rw [if_neg hlen, getNonNegative_eq, e, List.getElem?_eq_getElem hlt]
          simp only
          rw [if_pos (hav _ (List.getElem_mem _))]
        rw [Spec.roundRobinChosen, hsel, ih _ hne (by show (idx + 1).toNat % _ + _ < _; omega), List.length_cons,
          List.range_succ_eq_map, List.map_cons, List.map_map]
        congr 1
        · show _ = Option.map some eps[(idx.toNat % 2 ^ 63 + 1) % eps.length]?
          rw [List.getElem?_eq_getElem hlt, Option.map_some]
        · apply List.map_congr_left
          intro i _
          simp only [Function.comp]
          rw [e]
          congr 3
          omega
    by_cases hne : eps = []
    · subst hne
      cases rs with
      | nil => exact List.Perm.refl _
      | cons => cases hr
    · rw [key rs idx hne (by omega), hr]
      have hm := map_range_rot eps (idx.toNat % 2 ^ 63 + 1)
      have : ((List.range eps.length).map fun i => (eps[(idx.toNat % 2 ^ 63 + 1 + i) % eps.length]?).map some) =
          ((List.range eps.length).map fun i => eps[(idx.toNat % 2 ^ 63 + 1 + i) % eps.length]?).map
            (Option.map some) := by
        rw [List.map_map]; rfl
      rw [this, hm, List.map_map]
      exact (rot_perm eps _).map _

/-! ## Non-vacuity -/

/-- Two groups with weights 40 and 60: five places on the ring. -/
example : onRefresh (fun e : Nat × Bytes => e.2) b!"g1:40,g2:60,g3" [(1, b!"g1"), (2, b!"g2"), (3, b!"g2")]
    [b!"g2", b!"g1"] [b!"g1", b!"g2"] [(0, 4), (1, 2)] =
    .ok (.weighted [b!"g2", b!"g2", b!"g1", b!"g2", b!"g1"]
      [(b!"g1", [(1, b!"g1")]), (b!"g2", [(2, b!"g2"), (3, b!"g2")])]) := by
  have hp : parseWeights b!"g1:40,g2:60,g3" = (false, [(b!"g1", 40), (b!"g2", 60), (b!"g3", 1)]) := by decide +kernel
  have hg : findGcd [60, 40] = some 20 := by decide +kernel
  rw [onRefresh_weighted _ _ _ _ _ _ (by decide) (by rw [hp]), hp,
    show ([b!"g2", b!"g1"].map fun g => (AMap.load [(b!"g1", 40), (b!"g2", 60), (b!"g3", 1)] g).getD 0) = [60, 40] by decide,
    hg]
  rfl

/-- Weights 4, 2 and 6: the ring holds the endpoints twice, once and three times. -/
example : chooseSelector [4, 2, 6] [] = some (.ring [0, 0, 1, 2, 2, 2]) := by decide +kernel

end Motan.Props
