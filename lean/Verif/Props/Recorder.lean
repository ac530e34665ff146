import Verif.Model.Recorder
import Verif.Props.Url

/-!
# C46: the circular recorder keeps the latest records
-/

namespace Motan.Props

open Recorder (Recorder)

variable {V : Type}

/-- `AddRecord` calls, each at a time and with an item or nil. -/
def Spec.addAll (c : Recorder V) (h : List (Int × Option V)) : Option (Recorder V) :=
  h.foldlM (fun c e => Recorder.addRecord c e.1 e.2) c

/-- The records made by these calls. -/
def Spec.recordedItems (h : List (Int × Option V)) : List (Int × V) := h.filterMap fun e => e.2.map (e.1, ·)

/-- The last `n` of them. -/
def Spec.latest (n : Nat) (l : List (Int × V)) : List (Int × V) := l.drop (l.length - n)

/-- The name of a record: its number, counted from the oldest kept, and its time. -/
def Spec.recordKey (i : Nat) (ts : Int) : Bytes := formatInt i ++ b!":" ++ formatInt ts

theorem visited_add {c : Recorder V} (hpos : c.pos < c.slots.length) (now : Int) (v : V) :
    ∃ c', Recorder.addRecord c now (some v) = some c' ∧ c'.pos < c'.slots.length ∧ c'.slots.length = c.slots.length ∧
      Recorder.visited c' = (Recorder.visited c).tail ++ [some (now, v)] := by
  have hne : c.slots ≠ [] := fun h => by rw [h] at hpos; cases hpos
  refine ⟨_, by rw [Recorder.addRecord]; exact if_neg hne, ?_, ?_, ?_⟩
  · simp only [List.length_set]
    exact Nat.mod_lt _ (Nat.lt_of_le_of_lt (Nat.zero_le _) hpos)
  · simp only [List.length_set]
  · simp only [Recorder.visited]
    obtain ⟨A, s, B, hs, hA⟩ : ∃ A s B, c.slots = A ++ s :: B ∧ A.length = c.pos :=
      ⟨c.slots.take c.pos, c.slots[c.pos], c.slots.drop (c.pos + 1), by
        rw [List.getElem_cons_drop, List.take_append_drop], by rw [List.length_take]; omega⟩
    rw [hs, ← hA]
    rw [List.set_append_right _ _ (Nat.le_refl _), Nat.sub_self, List.set_cons_zero, List.drop_left, List.take_left]
    rw [List.length_append, List.length_cons]
    by_cases hB : B = []
    · subst hB
      simp
    · have hlt : A.length + 1 < A.length + (B.length + 1) := by
        have := List.length_pos_iff.mpr hB
        omega
      rw [Nat.mod_eq_of_lt hlt]
      have h1 : A ++ some (now, v) :: B = (A ++ [some (now, v)]) ++ B := by simp
      have h2 : A.length + 1 = (A ++ [some (now, v)]).length := by simp
      rw [h1, h2, List.drop_left, List.take_left]
      simp

theorem visited_all {n : Nat} (hn : 0 < n) (h : List (Int × Option V)) :
    ∃ c, Spec.addAll (Recorder.new V n) h = some c ∧ c.pos < c.slots.length ∧ c.slots.length = n ∧
      Recorder.visited c = (List.replicate n none ++ (Spec.recordedItems h).map some).drop (Spec.recordedItems h).length := by
  have gen : ∀ (h : List (Int × Option V)) (c : Recorder V) (l : List (Int × V)),
      c.pos < c.slots.length → c.slots.length = n →
      Recorder.visited c = (List.replicate n none ++ l.map some).drop l.length →
      ∃ c', Spec.addAll c h = some c' ∧ c'.pos < c'.slots.length ∧ c'.slots.length = n ∧
        Recorder.visited c' =
          (List.replicate n none ++ (l ++ Spec.recordedItems h).map some).drop (l ++ Spec.recordedItems h).length := by
    intro h
    induction h with
    | nil => intro c l h1 h2 h3; exact ⟨c, rfl, h1, h2, by simpa [Spec.recordedItems] using h3⟩
    | cons e h ih =>
      intro c l h1 h2 h3
      obtain ⟨now, item⟩ := e
      cases item with
      | none =>
        obtain ⟨c', e, hh⟩ := ih c l h1 h2 h3
        exact ⟨c', e, hh⟩
      | some v =>
        obtain ⟨c1, e1, k1, k2, k3⟩ := visited_add h1 now v
        obtain ⟨c', e, hh1, hh2, hh3⟩ := ih c1 (l ++ [(now, v)]) k1 (k2.trans h2) (by
          rw [k3, h3, List.tail_drop, List.map_append, ← List.append_assoc, List.length_append, List.length_singleton,
            List.drop_append_of_le_length (l₁ := List.replicate n none ++ l.map some) (by simp; omega)]
          rfl)
        refine ⟨c', ?_, hh1, hh2, ?_⟩
        · rw [Spec.addAll, List.foldlM_cons, e1]; exact e
        · rw [hh3]
          simp [Spec.recordedItems]
  have := gen h (Recorder.new V n) [] (by simp [Recorder.new, hn]) (by simp [Recorder.new]) (by simp [Recorder.new, Recorder.visited])
  simpa using this

/-- The records with their names. -/
def named (k : Nat) : List (Int × V) → AMap Bytes V
  | [] => []
  | (t, v) :: l => (Spec.recordKey k t, v) :: named (k + 1) l

theorem recordKey_inj {i j : Nat} {t t' : Int} (hi : i < 2 ^ 63) (hj : j < 2 ^ 63)
    (h : Spec.recordKey i t = Spec.recordKey j t') : i = j := by
  have h' : formatInt i ++ 58 :: formatInt t = formatInt j ++ 58 :: formatInt t' := by simpa [Spec.recordKey] using h
  have := append_sep_inj h' (not_mem_formatInt _ (by decide) (by decide)) (not_mem_formatInt _ (by decide) (by decide))
  have := formatInt_injective (by omega) (by omega) (by omega) (by omega) this.1
  omega

theorem named_append (k : Nat) (l l' : List (Int × V)) : named k (l ++ l') = named k l ++ named (k + l.length) l' := by
  induction l generalizing k with
  | nil => rfl
  | cons a l ih => rw [List.cons_append, named, named, ih, List.length_cons]; simp [Nat.add_comm, Nat.add_left_comm]

theorem load_named {k : Nat} {l : List (Int × V)} (hk : k + l.length ≤ 2 ^ 63) (key : Bytes) (v : V) :
    AMap.load (named k l) key = some v ↔ ∃ i t, l[i]? = some (t, v) ∧ key = Spec.recordKey (k + i) t := by
  induction l generalizing k with
  | nil => simp [named]
  | cons a l ih =>
    obtain ⟨t, w⟩ := a
    rw [List.length_cons] at hk
    rw [named, AMap.load_cons]
    have ih := ih (k := k + 1) (by omega)
    by_cases he : Spec.recordKey k t = key
    · rw [if_pos he]
      constructor
      · intro h; cases h; exact ⟨0, t, rfl, he.symm⟩
      · rintro ⟨i, t', hi, hkey⟩
        have hlt : i < (⟨t, w⟩ :: l : List (Int × V)).length := (List.getElem?_eq_some_iff.mp hi).1
        rw [List.length_cons] at hlt
        have := recordKey_inj (by omega) (by omega) (he.trans hkey)
        have : i = 0 := by omega
        subst this
        simp only [List.getElem?_cons_zero, Option.some.injEq, Prod.mk.injEq] at hi
        rw [hi.2]
    · rw [if_neg he, ih]
      constructor
      · rintro ⟨i, t', hi, hkey⟩
        exact ⟨i + 1, t', hi, by rw [hkey]; congr 1; omega⟩
      · rintro ⟨i, t', hi, hkey⟩
        cases i with
        | zero =>
          simp only [List.getElem?_cons_zero, Option.some.injEq, Prod.mk.injEq] at hi
          rw [← hi.1] at hkey
          exact absurd hkey.symm he
        | succ i => exact ⟨i, t', hi, by rw [hkey]; congr 1; omega⟩

theorem named_none {k j : Nat} {l : List (Int × V)} (hk : k + l.length ≤ j) (hj : j < 2 ^ 63) (t : Int) :
    Spec.recordKey j t ∉ AMap.keys (named k l) := by
  induction l generalizing k with
  | nil => exact List.not_mem_nil
  | cons a l ih =>
    rw [List.length_cons] at hk
    rw [named, AMap.keys, List.map_cons, List.mem_cons]
    rintro (h | h)
    · have := recordKey_inj (by omega) (by omega) h
      omega
    · exact ih (by omega) h

theorem store_fresh {κ : Type} [DecidableEq κ] {m : AMap κ V} {k : κ} (h : k ∉ AMap.keys m) (v : V) :
    AMap.store m k v = m ++ [(k, v)] := by
  induction m with
  | nil => rfl
  | cons p m ih =>
    obtain ⟨a, b⟩ := p
    simp only [AMap.keys, List.map_cons, List.mem_cons, not_or] at h
    rw [AMap.store, if_neg (Ne.symm h.1), ih h.2]
    rfl

theorem foldl_visit (l : List (Option (Int × V))) (buf : Bytes) (done : List (Int × V))
    (hlen : done.length + l.length ≤ 2 ^ 63) :
    (l.foldl Recorder.visit (buf, done.length, named 0 done)).2.2 = named 0 (done ++ l.filterMap id) := by
  induction l generalizing buf done with
  | nil => simp
  | cons a l ih =>
    rw [List.length_cons] at hlen
    cases a with
    | none => exact ih buf done (by omega)
    | some p =>
      obtain ⟨t, v⟩ := p
      rw [List.foldl_cons, Recorder.visit]
      have hkey : Recorder.generateKey buf done.length t = Spec.recordKey done.length t := rfl
      rw [hkey, store_fresh (named_none (by omega) (by omega) t)]
      have h1 : named 0 done ++ [(Spec.recordKey done.length t, v)] = named 0 (done ++ [(t, v)]) := by
        rw [named_append]; simp [named]
      have h2 : done.length + 1 = (done ++ [(t, v)]).length := by simp
      rw [h1, h2, ih _ _ (by simp; omega)]
      simp

theorem filterMap_drop (n : Nat) (l : List (Int × V)) :
    ((List.replicate n none ++ l.map some).drop l.length).filterMap id = Spec.latest n l := by
  have hf : ∀ m : List (Int × V), (m.map some).filterMap id = m := by
    intro m; induction m with
    | nil => rfl
    | cons a m ih => simp [ih]
  have hr : ∀ m, (List.replicate m (none : Option (Int × V))).filterMap id = [] := by
    intro m; induction m with
    | zero => rfl
    | succ m ih => simp [List.replicate_succ, ih]
  rw [List.drop_append, List.length_replicate, List.filterMap_append, List.drop_replicate, hr, List.nil_append,
    ← List.map_drop, hf, Spec.latest]

/-- C46: after any calls of `AddRecord` on a recorder of positive size, `GetRecords` returns exactly the latest records
that were not nil, as many as there is room for, numbered from the oldest; and there is nothing else in the map. -/
theorem records_latest {n : Nat} (hn : 0 < n) (hn' : n < 2 ^ 63) (h : List (Int × Option V)) :
    ∃ c, Spec.addAll (Recorder.new V n) h = some c ∧
      (∀ key v, AMap.load (Recorder.getRecords c) key = some v ↔
        ∃ i t, (Spec.latest n (Spec.recordedItems h))[i]? = some (t, v) ∧ key = Spec.recordKey i t) ∧
      (AMap.keys (Recorder.getRecords c)).length = min n (Spec.recordedItems h).length := by
  obtain ⟨c, hc, hpos, hl, hv⟩ := visited_all hn h
  have hlen : (Recorder.visited c).length = n := by
    rw [Recorder.visited, List.length_append, List.length_drop, List.length_take]; omega
  have hrec : Recorder.getRecords c = named 0 (Spec.latest n (Spec.recordedItems h)) := by
    have := foldl_visit (Recorder.visited c) c.keyBuf [] (by simp; omega)
    rw [Recorder.getRecords]
    rw [hv] at this ⊢
    rw [filterMap_drop] at this
    exact this
  have hlat : (Spec.latest n (Spec.recordedItems h)).length = min n (Spec.recordedItems h).length := by
    rw [Spec.latest, List.length_drop]; omega
  refine ⟨c, hc, fun key v => ?_, ?_⟩
  · rw [hrec, load_named (by omega)]
    simp only [Nat.zero_add]
  · rw [hrec, ← hlat]
    have : ∀ k (l : List (Int × V)), (AMap.keys (named k l)).length = l.length := by
      intro k l
      induction l generalizing k with
      | nil => rfl
      | cons a l ih => rw [named, AMap.keys, List.map_cons, List.length_cons, List.length_cons]; exact congrArg (· + 1) (ih _)
    exact this _ _

/-- C46: a recorder of a size below one cannot record: the first item panics. -/
theorem recorder_size_zero {n : Int} (hn : n ≤ 0) (now : Int) (v : V) :
    Recorder.addRecord (Recorder.new V n) now (some v) = none := by
  have : n.toNat = 0 := by omega
  rw [Recorder.addRecord, Recorder.new, this]
  rfl

/-- Three records in a recorder of two, and a nil. -/
example : (Spec.addAll (Recorder.new Nat 2) [(5, some 1), (6, none), (7, some 2), (8, some 3)]).map Recorder.getRecords =
    some [(b!"0:7", 2), (b!"1:8", 3)] := by decide +kernel

/-! ## Several readers -/

theorem lone_reader_gen (todo : List (Int × V)) (buf : Bytes) (idx : Nat) (out : AMap Bytes V) :
    ∃ sched, (Recorder.readersRun (buf, [{ todo, idx, out }]) sched).2.map Recorder.Reader.out =
      [((todo.map some).foldl Recorder.visit (buf, idx, out)).2.2] ∧ sched = List.replicate (5 * todo.length) 0 := by
  induction todo generalizing buf idx out with
  | nil => exact ⟨[], rfl, rfl⟩
  | cons p todo ih =>
    obtain ⟨t, v⟩ := p
    obtain ⟨s, h1, rfl⟩ := ih (Recorder.generateKey buf idx t) (idx + 1) (AMap.store out (Recorder.generateKey buf idx t) v)
    refine ⟨_, ?_, rfl⟩
    rw [List.length_cons, Nat.mul_succ, Nat.add_comm, ← List.replicate_append_replicate]
    rw [Recorder.readersRun, List.foldl_append]
    exact h1

/-- C46: a reader that is alone gets what `getRecords` says, statement by statement. -/
theorem lone_reader (c : Recorder V) :
    let todo := (Recorder.visited c).filterMap id
    (Recorder.readersRun (c.keyBuf, [{ todo }]) (List.replicate (5 * todo.length) 0)).2.map Recorder.Reader.out =
      [Recorder.getRecords c] := by
  intro todo
  obtain ⟨s, h, rfl⟩ := lone_reader_gen todo c.keyBuf 0 []
  rw [h, Recorder.getRecords]
  have : ∀ (l : List (Option (Int × V))) s, ((l.filterMap id).map some).foldl Recorder.visit s = l.foldl Recorder.visit s := by
    intro l
    induction l with
    | nil => intro s; rfl
    | cons a l ih =>
      intro s
      cases a with
      | none => exact ih s
      | some p => rw [List.filterMap_cons]; exact ih _
  rw [this]

/-- C46, exhibited: two readers at the same time share the buffer their names are made in: here the first names its
record `:7` and not `0:7`. -/
theorem concurrent_readers_violated :
    let r : Recorder.Reader Nat := { todo := [(7, 1)] }
    (Recorder.readersRun ([], [r, r]) [0, 0, 1, 0, 0, 0]).2.map Recorder.Reader.out = [[(b!":7", 1)], []] ∧
    (Recorder.readersRun ([], [r, r]) [0, 0, 0, 0, 0, 1, 1, 1, 1, 1]).2.map Recorder.Reader.out =
      [[(b!"0:7", 1)], [(b!"0:7", 1)]] := by
  decide +kernel

end Motan.Props
