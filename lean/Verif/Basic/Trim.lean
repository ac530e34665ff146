import Verif.Basic.Strings

/-!
# `strings.TrimSpace` and the splitting helper built on it
-/

namespace Motan.Strings

/-- The ASCII white space of `strings.TrimSpace`. (Go also trims the non-ASCII Unicode spaces, left out here.) -/
def isSpace (c : UInt8) : Bool := c = 9 ∨ c = 10 ∨ c = 11 ∨ c = 12 ∨ c = 13 ∨ c = 32

/-- `strings.TrimSpace`. -/
def trimSpace (s : Bytes) : Bytes := ((s.dropWhile isSpace).reverse.dropWhile isSpace).reverse

/-- core/util.go:193-214 `TrimSplit` for a non-empty separator: the loop (198-208) and what follows it. -/
def trimSplit (s sep : Bytes) : List Bytes :=
  if h : sep = [] then [s]
  else
    match index sep s with
    | none => if trimSpace s ≠ [] then [trimSpace s] else []
    | some m =>
      let rest := if m + sep.length ≤ s.length then trimSplit (s.drop (m + sep.length)) sep else []
      if trimSpace (s.take m) ≠ [] then trimSpace (s.take m) :: rest else rest
termination_by s.length
decreasing_by
  have : 0 < sep.length := List.length_pos_iff.mpr h
  simp only [List.length_drop]; omega

/-- The pieces between separators, trimmed, without the empty ones. -/
theorem trimSplit_eq (s sep : Bytes) (h : sep ≠ []) :
    trimSplit s sep = ((split sep s).map trimSpace).filter (· ≠ []) := by
  fun_induction trimSplit s sep with
  | case1 => contradiction
  | case2 s h' hi hne => rw [split.eq_def]; simp [h, hi, List.filter_cons, hne]
  | case3 s h' hi hne => rw [split.eq_def]; simp [h, hi, List.filter_cons, Decidable.not_not.mp hne]
  | case4 s h' m hi rest hne ih1 =>
    rw [split.eq_def]; simp only [h, dif_neg, hi, not_false_eq_true, List.map_cons, List.filter_cons]
    rw [if_pos (by simpa using hne)]
    congr 1
    show (if _ : _ then _ else _) = _
    by_cases hle : m + sep.length ≤ s.length
    · rw [dif_pos hle, if_pos hle]; exact ih1 hle
    · rw [dif_neg hle, if_neg hle]; rfl
  | case5 s h' m hi rest hne ih1 =>
    rw [split.eq_def]; simp only [h, dif_neg, hi, not_false_eq_true, List.map_cons, List.filter_cons]
    rw [if_neg (by simpa using hne)]
    show (if _ : _ then _ else _) = _
    by_cases hle : m + sep.length ≤ s.length
    · rw [dif_pos hle, if_pos hle]; exact ih1 hle
    · rw [dif_neg hle, if_neg hle]; rfl

end Motan.Strings
