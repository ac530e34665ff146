/-!
# Rotations, shuffles and counting on lists
-/

namespace Motan

variable {α : Type}

/-- The list read from position `k` on, around the end, once. -/
def rot (l : List α) (k : Nat) : List α := l.drop (k % l.length) ++ l.take (k % l.length)

theorem rot_perm (l : List α) (k : Nat) : (rot l k).Perm l := by
  rw [rot]
  exact List.perm_append_comm.trans (by rw [List.take_append_drop])

@[simp] theorem length_rot (l : List α) (k : Nat) : (rot l k).length = l.length := (rot_perm l k).length_eq

theorem getElem?_rot (l : List α) (k i : Nat) (hi : i < l.length) : (rot l k)[i]? = l[(k + i) % l.length]? := by
  have hk : k % l.length < l.length := Nat.mod_lt _ (by omega)
  have hs : (k + i) % l.length = (k % l.length + i) % l.length := by rw [Nat.mod_add_mod]
  rw [hs, rot]
  by_cases h : k % l.length + i < l.length
  · rw [List.getElem?_append_left (by rw [List.length_drop]; omega), List.getElem?_drop, Nat.mod_eq_of_lt h]
  · rw [List.getElem?_append_right (by rw [List.length_drop]; omega), List.length_drop, List.getElem?_take]
    have e : (k % l.length + i) % l.length = k % l.length + i - l.length := by
      rw [Nat.mod_eq_sub_mod (by omega), Nat.mod_eq_of_lt (by omega)]
    rw [e, if_pos (by omega)]
    congr 1
    omega

/-- Reading once around is the rotation. -/
theorem map_range_rot (l : List α) (k : Nat) :
    (List.range l.length).map (fun i => l[(k + i) % l.length]?) = (rot l k).map some := by
  apply List.ext_getElem?
  intro i
  rw [List.getElem?_map, List.getElem?_map]
  by_cases hi : i < l.length
  · rw [List.getElem?_range hi]
    have := getElem?_rot l k i hi
    have h2 : i < (rot l k).length := by rw [length_rot]; exact hi
    rw [List.getElem?_eq_getElem h2] at this ⊢
    exact congrArg some this.symm
  · rw [List.getElem?_eq_none (by simp; omega), List.getElem?_eq_none (by simp; omega)]
    rfl

/-- Exchange two elements. -/
def swapAt (l : List α) (a b : Nat) : List α :=
  match l[a]?, l[b]? with
  | some x, some y => (l.set a y).set b x
  | _, _ => l

theorem swapAt_perm (l : List α) (a b : Nat) : (swapAt l a b).Perm l := by
  unfold swapAt
  cases ha : l[a]? with
  | none => exact List.Perm.refl _
  | some x =>
    cases hb : l[b]? with
    | none => exact List.Perm.refl _
    | some y =>
      obtain ⟨ha', rfl⟩ := List.getElem?_eq_some_iff.mp ha
      obtain ⟨hb', rfl⟩ := List.getElem?_eq_some_iff.mp hb
      exact List.set_set_perm ha' hb'

/-- Exchange pairs of elements one after the other. -/
def shuffle (l : List α) : List (Nat × Nat) → List α
  | [] => l
  | (a, b) :: ds => shuffle (swapAt l a b) ds

theorem shuffle_perm (l : List α) (ds : List (Nat × Nat)) : (shuffle l ds).Perm l := by
  induction ds generalizing l with
  | nil => exact List.Perm.refl _
  | cons d ds ih => obtain ⟨a, b⟩ := d; exact (ih _).trans (swapAt_perm l a b)

end Motan
