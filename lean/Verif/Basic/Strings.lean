import Verif.Basic.Bytes

/-!
# The functions of Go's `strings` and `sort` packages that the code uses, on byte strings
-/

namespace Motan.Strings

/-- `strings.HasPrefix(s, p)`. -/
def hasPrefix (s p : Bytes) : Bool := p.isPrefixOf s

/-- `strings.Index(s, sep)`: the first position at which `sep` occurs. -/
def index (sep : Bytes) : Bytes → Option Nat
  | [] => if sep = [] then some 0 else none
  | c :: s => if sep.isPrefixOf (c :: s) then some 0 else (index sep s).map (· + 1)

/-- `strings.Contains(s, sub)`. -/
def contains (s sub : Bytes) : Bool := (index sub s).isSome

/-- `strings.Split(s, sep)` for a non-empty separator. (With an empty one Go splits into characters; the code
never does that. Here the string is left whole.) -/
def split (sep s : Bytes) : List Bytes :=
  if h : sep = [] then [s]
  else
    match index sep s with
    | none => [s]
    | some i => s.take i :: if i + sep.length ≤ s.length then split sep (s.drop (i + sep.length)) else []
termination_by s.length
decreasing_by
  have : 0 < sep.length := List.length_pos_iff.mpr h
  simp only [List.length_drop]; omega

/-- `strings.Join`. -/
def join (sep : Bytes) : List Bytes → Bytes
  | [] => []
  | [a] => a
  | a :: b :: r => a ++ sep ++ join sep (b :: r)

theorem index_spec {sep s : Bytes} {i : Nat} (h : index sep s = some i) :
    ∃ a b, s = a ++ sep ++ b ∧ a.length = i := by
  induction s generalizing i with
  | nil =>
    rw [index] at h
    split at h
    · rename_i hs; simp at h; exact ⟨[], [], by simp [hs], by simp [h]⟩
    · simp at h
  | cons c s ih =>
    rw [index] at h
    split at h
    · rename_i hp
      simp at h
      obtain ⟨b, hb⟩ := List.isPrefixOf_iff_prefix.mp hp
      exact ⟨[], b, by simp [hb], by simp [h]⟩
    · cases hi : index sep s with
      | none => rw [hi] at h; simp at h
      | some j =>
        rw [hi] at h; simp at h
        obtain ⟨a, b, e, hl⟩ := ih hi
        exact ⟨c :: a, b, by rw [e]; rfl, by simp [hl, h]⟩

theorem index_le {sep s : Bytes} {i : Nat} (h : index sep s = some i) : i + sep.length ≤ s.length := by
  obtain ⟨a, b, e, hl⟩ := index_spec h
  rw [e]; simp only [List.length_append]; omega

/-- `index` finds any occurrence. -/
theorem index_isSome (sep a b : Bytes) : (index sep (a ++ sep ++ b)).isSome := by
  induction a with
  | nil =>
    rw [List.nil_append]
    cases hs : sep ++ b with
    | nil =>
      have : sep = [] := (List.append_eq_nil_iff.mp hs).1
      simp [index, this]
    | cons c r =>
      rw [index, if_pos]
      · rfl
      · exact List.isPrefixOf_iff_prefix.mpr ⟨b, hs⟩
  | cons c a ih =>
    rw [List.cons_append, List.cons_append, index]
    split
    · rfl
    · cases hi : index sep (a ++ sep ++ b) with
      | none => rw [hi] at ih; simp at ih
      | some j => rfl

theorem contains_iff (s sub : Bytes) : contains s sub = true ↔ ∃ a b, s = a ++ sub ++ b := by
  constructor
  · intro h
    obtain ⟨i, hi⟩ := Option.isSome_iff_exists.mp h
    obtain ⟨a, b, e, _⟩ := index_spec hi
    exact ⟨a, b, e⟩
  · rintro ⟨a, b, rfl⟩
    exact index_isSome sub a b

theorem index_none_of_not_mem {c : UInt8} {sep s : Bytes} (h : c ∉ s) : index (c :: sep) s = none := by
  cases hi : index (c :: sep) s with
  | none => rfl
  | some i =>
    obtain ⟨a, b, e, _⟩ := index_spec hi
    exact absurd (by rw [e]; simp) h

theorem index_append_of_not_mem {c : UInt8} {sep p r : Bytes} (h : c ∉ p) :
    index (c :: sep) (p ++ r) = (index (c :: sep) r).map (· + p.length) := by
  induction p with
  | nil => simp
  | cons x p ih =>
    simp only [List.mem_cons, not_or] at h
    rw [List.cons_append, index, if_neg, ih h.2]
    · cases index (c :: sep) r with
      | none => rfl
      | some i => simp; omega
    · intro hp
      simp [List.isPrefixOf] at hp
      exact h.1 hp.1

theorem index_self (sep r : Bytes) : index sep (sep ++ r) = some 0 := by
  cases hs : sep ++ r with
  | nil =>
    have : sep = [] := (List.append_eq_nil_iff.mp hs).1
    simp [index, this]
  | cons c t =>
    rw [index, if_pos]
    exact List.isPrefixOf_iff_prefix.mpr ⟨r, hs⟩

theorem split_none {sep s : Bytes} (hs : sep ≠ []) (h : index sep s = none) : split sep s = [s] := by
  rw [split, dif_neg hs]; simp [h]

/-- Splitting behind a part that does not contain the first byte of the separator. -/
theorem split_cons {c : UInt8} {sep p r : Bytes} (h : c ∉ p) :
    split (c :: sep) (p ++ (c :: sep) ++ r) = p :: split (c :: sep) r := by
  rw [split, dif_neg (by simp)]
  have : index (c :: sep) (p ++ (c :: sep) ++ r) = some p.length := by
    rw [List.append_assoc, index_append_of_not_mem h, index_self]; simp
  simp only [this]
  rw [List.append_assoc, List.take_left, if_pos (by simp only [List.length_append]; omega), ← List.append_assoc,
    List.drop_left' (by simp)]

theorem split_single {c : UInt8} {sep s : Bytes} (h : c ∉ s) : split (c :: sep) s = [s] :=
  split_none (by simp) (index_none_of_not_mem h)

/-- Splitting a join of parts without the separator gives the parts back. -/
theorem split_join {c : UInt8} (parts : List Bytes) (hne : parts ≠ []) (h : ∀ p ∈ parts, c ∉ p) :
    split [c] (join [c] parts) = parts := by
  induction parts with
  | nil => exact absurd rfl hne
  | cons a r ih =>
    cases r with
    | nil => rw [join, split_single (h a (by simp))]
    | cons b r =>
      rw [join, split_cons (h a (by simp)), ih (by simp) (fun p hp => h p (by simp [hp]))]

theorem split_ne_nil (sep s : Bytes) : split sep s ≠ [] := by
  rw [split]
  split
  · simp
  · split <;> simp

/-- The parts of a split joined again give the string. -/
theorem join_split (sep s : Bytes) : join sep (split sep s) = s := by
  rw [split]
  split
  · rfl
  · rename_i hs
    split
    · rfl
    · rename_i i hi
      have hle := index_le hi
      rw [if_pos hle]
      obtain ⟨a, b, e, hl⟩ := index_spec hi
      have hd : s.drop (i + sep.length) = b := by
        rw [e]; exact List.drop_left' (by simp [hl])
      have ht : s.take i = a := by rw [e, List.append_assoc]; exact List.take_left' hl
      have ih := join_split sep (s.drop (i + sep.length))
      rw [hd] at ih ⊢
      cases hsp : split sep b with
      | nil => exact absurd hsp (split_ne_nil _ _)
      | cons x r => rw [join, ← hsp, ih, ht, e]
termination_by s.length
decreasing_by
  have : 0 < sep.length := List.length_pos_iff.mpr (by assumption)
  simp only [List.length_drop]; omega

/-! ### Sorting strings -/

/-- Byte-wise lexicographic `≤`, Go's order on strings. -/
def le : Bytes → Bytes → Bool
  | [], _ => true
  | _ :: _, [] => false
  | a :: as, b :: bs => if a = b then le as bs else a < b

theorem le_total (a b : Bytes) : le a b = true ∨ le b a = true := by
  induction a generalizing b with
  | nil => exact .inl rfl
  | cons x a ih =>
    cases b with
    | nil => exact .inr rfl
    | cons y b =>
      rw [le, le]
      by_cases h : x = y
      · rw [if_pos h, if_pos h.symm]; exact ih b
      · rw [if_neg h, if_neg (Ne.symm h)]
        simp only [decide_eq_true_eq]
        rcases Nat.lt_trichotomy x.toNat y.toNat with hh | hh | hh
        · exact .inl (UInt8.lt_iff_toNat_lt.mpr hh)
        · exact absurd (UInt8.toNat_inj.mp hh) h
        · exact .inr (UInt8.lt_iff_toNat_lt.mpr hh)

theorem le_antisymm {a b : Bytes} (h1 : le a b = true) (h2 : le b a = true) : a = b := by
  induction a generalizing b with
  | nil => cases b with
    | nil => rfl
    | cons => simp [le] at h2
  | cons x a ih =>
    cases b with
    | nil => simp [le] at h1
    | cons y b =>
      rw [le] at h1 h2
      by_cases h : x = y
      · rw [if_pos h] at h1; rw [if_pos h.symm] at h2
        rw [h, ih h1 h2]
      · rw [if_neg h] at h1; rw [if_neg (Ne.symm h)] at h2
        simp only [decide_eq_true_eq, UInt8.lt_iff_toNat_lt] at h1 h2
        omega

theorem le_trans {a b c : Bytes} (h1 : le a b = true) (h2 : le b c = true) : le a c = true := by
  induction a generalizing b c with
  | nil => rfl
  | cons x a ih =>
    cases b with
    | nil => simp [le] at h1
    | cons y b =>
      cases c with
      | nil => simp [le] at h2
      | cons z c =>
        rw [le] at h1 h2 ⊢
        by_cases h : x = y
        · subst h
          rw [if_pos rfl] at h1
          by_cases hz : x = z
          · subst hz; rw [if_pos rfl] at h2 ⊢; exact ih h1 h2
          · rw [if_neg hz] at h2 ⊢; exact h2
        · rw [if_neg h] at h1
          by_cases hz : y = z
          · subst hz; rw [if_neg h]; exact h1
          · rw [if_neg hz] at h2
            simp only [decide_eq_true_eq, UInt8.lt_iff_toNat_lt] at h1 h2
            have : x ≠ z := by intro e; subst e; omega
            rw [if_neg this, decide_eq_true_eq, UInt8.lt_iff_toNat_lt]; omega

/-- Insertion into a sorted list. -/
def insertSorted (a : Bytes) : List Bytes → List Bytes
  | [] => [a]
  | b :: l => if le a b then a :: b :: l else b :: insertSorted a l

/-- `sort.Strings`: the sorted permutation. (Equal strings are indistinguishable, so the algorithm does not
matter; `sort_unique` says so.) -/
def sort : List Bytes → List Bytes
  | [] => []
  | a :: l => insertSorted a (sort l)

theorem insertSorted_perm (a : Bytes) (l : List Bytes) : (insertSorted a l).Perm (a :: l) := by
  induction l with
  | nil => exact .refl _
  | cons b l ih =>
    rw [insertSorted]
    split
    · exact .refl _
    · exact (ih.cons b).trans (.swap a b l)

theorem sort_perm (l : List Bytes) : (sort l).Perm l := by
  induction l with
  | nil => exact .refl _
  | cons a l ih => exact (insertSorted_perm a (sort l)).trans (ih.cons a)

theorem insertSorted_sorted {a : Bytes} {l : List Bytes} (h : l.Pairwise fun x y => le x y = true) :
    (insertSorted a l).Pairwise fun x y => le x y = true := by
  induction l with
  | nil => simp [insertSorted]
  | cons b l ih =>
    rw [List.pairwise_cons] at h
    rw [insertSorted]
    split
    · rename_i hab
      rw [List.pairwise_cons]
      refine ⟨fun x hx => ?_, List.pairwise_cons.mpr h⟩
      rcases List.mem_cons.mp hx with rfl | hx
      · exact hab
      · exact le_trans hab (h.1 x hx)
    · rename_i hab
      rw [List.pairwise_cons]
      refine ⟨fun x hx => ?_, ih h.2⟩
      rcases List.mem_cons.mp ((insertSorted_perm a l).mem_iff.mp hx) with rfl | hx
      · exact (le_total x b).resolve_left hab
      · exact h.1 x hx

theorem sort_sorted (l : List Bytes) : (sort l).Pairwise fun x y => le x y = true := by
  induction l with
  | nil => exact .nil
  | cons a l ih => exact insertSorted_sorted ih

/-- There is one sorted permutation. -/
theorem sorted_unique {l1 l2 : List Bytes} (h1 : l1.Pairwise fun x y => le x y = true)
    (h2 : l2.Pairwise fun x y => le x y = true) (hp : l1.Perm l2) : l1 = l2 := by
  induction l1 generalizing l2 with
  | nil => exact (List.nil_perm.mp hp).symm
  | cons a l1 ih =>
    cases l2 with
    | nil => exact absurd hp.length_eq (by simp)
    | cons b l2 =>
      rw [List.pairwise_cons] at h1 h2
      have hab : a = b := by
        have ha : a ∈ b :: l2 := hp.mem_iff.mp (by simp)
        have hb : b ∈ a :: l1 := hp.mem_iff.mpr (by simp)
        rcases List.mem_cons.mp ha with h | h
        · exact h
        · rcases List.mem_cons.mp hb with h' | h'
          · exact h'.symm
          · exact le_antisymm (h1.1 b h') (h2.1 a h)
      subst hab
      rw [ih h1.2 h2.2 (List.Perm.cons_inv hp)]

theorem sort_unique {l1 l2 : List Bytes} (hp : l1.Perm l2) : sort l1 = sort l2 :=
  sorted_unique (sort_sorted l1) (sort_sorted l2) (((sort_perm l1).trans hp).trans (sort_perm l2).symm)

end Motan.Strings
