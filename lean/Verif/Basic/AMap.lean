/-!
# Finite maps as association lists

A Go `map[K]V` is represented by the list of its entries in some iteration order, with distinct keys
(`AMap.NodupKeys`). Two maps are the same when `load` agrees on every key.
-/

namespace Motan

abbrev AMap (κ ν : Type) := List (κ × ν)

namespace AMap

variable {κ ν : Type} [DecidableEq κ]

/-- `v, ok := m[k]`. -/
def load : AMap κ ν → κ → Option ν
  | [], _ => none
  | (k', v) :: m, k => if k' = k then some v else load m k

/-- `m[k] = v`. -/
def store : AMap κ ν → κ → ν → AMap κ ν
  | [], k, v => [(k, v)]
  | (k', v') :: m, k, v => if k' = k then (k, v) :: m else (k', v') :: store m k v

/-- `delete(m, k)`. -/
def erase (m : AMap κ ν) (k : κ) : AMap κ ν := m.filter fun p => ¬ p.1 = k

/-- Keys in iteration order. -/
def keys (m : AMap κ ν) : List κ := m.map Prod.fst

/-- No key occurs twice: the list represents a Go map. -/
def NodupKeys (m : AMap κ ν) : Prop := m.keys.Nodup

instance (m : AMap κ ν) : Decidable m.NodupKeys := inferInstanceAs (Decidable (List.Nodup _))

@[simp] theorem load_nil (k : κ) : load ([] : AMap κ ν) k = none := rfl

theorem load_cons (k' : κ) (v : ν) (m : AMap κ ν) (k : κ) :
    load ((k', v) :: m) k = if k' = k then some v else load m k := rfl

theorem load_store (m : AMap κ ν) (k k' : κ) (v : ν) :
    (m.store k v).load k' = if k = k' then some v else m.load k' := by
  induction m with
  | nil => simp [store, load]
  | cons p m ih =>
    obtain ⟨a, b⟩ := p
    simp only [store]
    split
    · rename_i h; subst h; simp only [load]; split <;> rfl
    · rename_i h
      simp only [load, ih]
      split <;> rename_i h2
      · subst h2
        have : ¬ k = a := fun e => h e.symm
        simp [this]
      · rfl

@[simp] theorem load_store_self (m : AMap κ ν) (k : κ) (v : ν) : (m.store k v).load k = some v := by
  rw [load_store, if_pos rfl]

theorem load_store_ne (m : AMap κ ν) {k k' : κ} (v : ν) (h : k ≠ k') :
    (m.store k v).load k' = m.load k' := by rw [load_store, if_neg h]

theorem load_erase (m : AMap κ ν) (k k' : κ) :
    (m.erase k).load k' = if k = k' then none else m.load k' := by
  induction m with
  | nil => simp [erase]
  | cons p m ih =>
    obtain ⟨a, b⟩ := p
    simp only [erase, List.filter_cons] at ih ⊢
    by_cases h : a = k
    · subst h
      simp only [not_true_eq_false, decide_false, Bool.false_eq_true, if_false]
      rw [ih]; simp only [load]; split <;> rfl
    · simp only [h, not_false_eq_true, decide_true, if_true, load, ih]
      by_cases h2 : a = k'
      · subst h2
        have : ¬ k = a := fun e => h e.symm
        simp [this]
      · simp [h2]

theorem mem_of_load {m : AMap κ ν} {k : κ} {v : ν} (h : m.load k = some v) : (k, v) ∈ m := by
  induction m with
  | nil => simp at h
  | cons p m ih =>
    obtain ⟨a, b⟩ := p
    simp only [load] at h
    split at h
    · rename_i h1; simp_all
    · exact List.mem_cons_of_mem _ (ih h)

theorem load_eq_none {m : AMap κ ν} {k : κ} : m.load k = none ↔ k ∉ m.keys := by
  induction m with
  | nil => simp [keys]
  | cons p m ih =>
    obtain ⟨a, b⟩ := p
    simp only [load, keys, List.map_cons, List.mem_cons, not_or] at *
    by_cases h : a = k
    · simp [h]
    · simp [h, ih, Ne.symm h]

theorem load_isSome {m : AMap κ ν} {k : κ} : (m.load k).isSome ↔ k ∈ m.keys := by
  have := load_eq_none (m := m) (k := k)
  by_cases h : k ∈ m.keys
  · simp only [h, not_true_eq_false, iff_false] at this
    simp [h, Option.isSome_iff_ne_none, this]
  · simp [h, this.mpr h]

theorem load_of_mem {m : AMap κ ν} (hn : m.NodupKeys) {k : κ} {v : ν} (h : (k, v) ∈ m) :
    m.load k = some v := by
  induction m with
  | nil => simp at h
  | cons p m ih =>
    obtain ⟨a, b⟩ := p
    simp only [NodupKeys, keys, List.map_cons, List.nodup_cons] at hn
    simp only [load]
    rcases List.mem_cons.mp h with h1 | h1
    · obtain ⟨rfl, rfl⟩ := Prod.mk.inj h1; simp
    · have : a ≠ k := by
        rintro rfl
        exact hn.1 (List.mem_map.mpr ⟨_, h1, rfl⟩)
      simp [this, ih hn.2 h1]

theorem mem_iff_load {m : AMap κ ν} (hn : m.NodupKeys) {k : κ} {v : ν} :
    (k, v) ∈ m ↔ m.load k = some v := ⟨load_of_mem hn, mem_of_load⟩

theorem keys_store (m : AMap κ ν) (k : κ) (v : ν) :
    (m.store k v).keys = if k ∈ m.keys then m.keys else m.keys ++ [k] := by
  induction m with
  | nil => simp [store, keys]
  | cons p m ih =>
    obtain ⟨a, b⟩ := p
    simp only [store]
    split
    · rename_i h; subst h; simp [keys]
    · rename_i h
      have h' : ¬ k = a := fun e => h e.symm
      simp only [keys, List.map_cons, List.mem_cons, h', false_or] at *
      rw [ih]; split <;> rename_i h2 <;> simp [h2]

theorem nodupKeys_store {m : AMap κ ν} (hn : m.NodupKeys) (k : κ) (v : ν) : (m.store k v).NodupKeys := by
  unfold NodupKeys at *
  rw [keys_store]
  split
  · exact hn
  · rename_i h
    rw [List.nodup_append]
    exact ⟨hn, by simp, by simp; intro a ha e; exact h (e ▸ ha)⟩

theorem nodupKeys_erase {m : AMap κ ν} (hn : m.NodupKeys) (k : κ) : (m.erase k).NodupKeys := by
  unfold NodupKeys keys erase at *
  exact List.Nodup.sublist (List.Sublist.map _ List.filter_sublist) hn

omit [DecidableEq κ] in
theorem nodupKeys_filter {m : AMap κ ν} (hn : m.NodupKeys) (p : κ × ν → Bool) :
    AMap.NodupKeys (m.filter p) := by
  unfold NodupKeys keys at *
  exact List.Nodup.sublist (List.Sublist.map _ List.filter_sublist) hn

omit [DecidableEq κ] in
theorem nodupKeys_nil : NodupKeys ([] : AMap κ ν) := by simp [NodupKeys, keys]

/-- Storing all entries of a list of pairs, in order. -/
def storeAll (m : AMap κ ν) (ps : List (κ × ν)) : AMap κ ν := ps.foldl (fun m p => m.store p.1 p.2) m

theorem load_storeAll_of_not_mem (m : AMap κ ν) (ps : List (κ × ν)) (k : κ)
    (h : k ∉ ps.map Prod.fst) : (m.storeAll ps).load k = m.load k := by
  induction ps generalizing m with
  | nil => rfl
  | cons p ps ih =>
    simp only [List.map_cons, List.mem_cons, not_or] at h
    simp only [storeAll, List.foldl_cons] at ih ⊢
    rw [ih _ h.2, load_store_ne _ _ (Ne.symm h.1)]

theorem load_storeAll (m : AMap κ ν) (ps : AMap κ ν) (hn : ps.NodupKeys) (k : κ) :
    (m.storeAll ps).load k = match ps.load k with | some v => some v | none => m.load k := by
  induction ps generalizing m with
  | nil => rfl
  | cons p ps ih =>
    obtain ⟨a, b⟩ := p
    simp only [NodupKeys, keys, List.map_cons, List.nodup_cons] at hn
    have ih := ih (m.store a b) hn.2
    simp only [storeAll, List.foldl_cons] at ih ⊢
    rw [ih]
    simp only [load]
    by_cases h : a = k
    · subst h
      have : load ps a = none := load_eq_none.mpr hn.1
      simp [this]
    · simp [h, load_store_ne _ _ h]

theorem nodupKeys_storeAll {m : AMap κ ν} (hn : m.NodupKeys) (ps : List (κ × ν)) :
    (m.storeAll ps).NodupKeys := by
  induction ps generalizing m with
  | nil => exact hn
  | cons p ps ih => exact ih (nodupKeys_store hn _ _)

end AMap

end Motan
