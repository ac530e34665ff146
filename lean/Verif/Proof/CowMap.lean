import Verif.Model.CowMap

/-!
# The invariant of the copy-on-write map
-/

namespace Motan.CowMap

open Motan.Spec.CowMap

variable {K V : Type} [DecidableEq K] {T : Type} [DecidableEq T]

@[simp] theorem upd_same {α : Type} (f : T → α) (t : T) (a : α) : upd f t a t = a := by simp [upd]

theorem upd_ne {α : Type} (f : T → α) {t t' : T} (a : α) (h : t' ≠ t) : upd f t a t' = f t' := by simp [upd, h]

/-- The goroutine holds the mutex. -/
def Critical : PC K V → Prop
  | .locked _ | .copying .. | .filled .. | .unlocking _ => True
  | _ => False

/-- The map a goroutine is building. -/
def fresh : PC K V → Option Nat
  | .copying _ _ _ _ q _ _ => some q
  | .filled _ q _ => some q
  | _ => none

/-- The pointer a reader holds. -/
def snapshot : PC K V → Option (Option Nat)
  | .reading _ p => some p
  | .counting p => some p
  | .ranging p _ _ => some p
  | _ => none

theorem critical_of_fresh {pc : PC K V} {q : Nat} (h : fresh pc = some q) : Critical pc := by
  cases pc <;> simp [fresh] at h <;> trivial

/-- The map behind a pointer. -/
def deref (heap : Nat → AMap K V) : Option Nat → AMap K V
  | none => []
  | some p => heap p

theorem deref_eq (s : St T K V) (p : Option Nat) : s.deref p = deref s.heap p := by cases p <;> rfl

/-- What is known about a goroutine, given the abstract map and what has become of its operation. -/
def ThreadOk (heap : Nat → AMap K V) (cur : Option Nat) (m : Map K V) : PC K V → TS K V → Prop
  | .idle, τ => τ = .idle
  | .start op, τ => τ = .pending op ∧ ∀ l, op = .swap l → l.NodupKeys
  | .reading k p, τ => τ = .done (.val (AMap.load (deref heap p) k))
  | .counting p, τ => τ = .done (.num (deref heap p).length)
  | .ranging p acc rem, τ => ∃ rest, τ = .done (.pairs (acc ++ rest)) ∧ rest.map Prod.fst = rem ∧
      ∀ x ∈ rest, AMap.load (deref heap p) x.1 = some x.2
  | .locked op, τ => τ = .pending op ∧ ∀ l, op = .swap l → l.NodupKeys
  | .copying op key new p q rem pv, τ => τ = .pending op ∧ p = cur ∧
      ((∃ v, op = .store key v ∧ new = some v) ∨ (∃ g, op = .update key g ∧ new = some (g (m key))) ∨
        (op = .delete key ∧ new = none)) ∧
      (rem.Nodup ∧ ∀ k ∈ rem, (m k).isSome) ∧ (heap q).NodupKeys ∧
      (∀ k, AMap.load (heap q) k = if k ∈ rem then none else if new = none ∧ k = key then none else m k) ∧
      (new = none → pv = if key ∈ rem then none else m key)
  | .filled op q r, τ => τ = .pending op ∧ (heap q).NodupKeys ∧ Legal m op r (AMap.load (heap q))
  | .unlocking r, τ => τ = .done r
  | .returning r, τ => τ = .done r

/-- The invariant: memory `s` represents the ordinary map `m` and operations are as in `σ`. -/
structure Inv (s : St T K V) (σ : T → TS K V) (m : Map K V) : Prop where
  cur_lt : ∀ c, s.cur = some c → c < s.next
  cur_ok : (deref s.heap s.cur).NodupKeys
  mem : ∀ k, AMap.load (deref s.heap s.cur) k = m k
  lock : ∀ t, Critical (s.pc t) → s.lock = some t
  fresh : ∀ t q, fresh (s.pc t) = some q → q < s.next ∧ s.cur ≠ some q
  snap_lt : ∀ t p c, snapshot (s.pc t) = some p → p = some c → c < s.next
  snap_fresh : ∀ t p t' q, snapshot (s.pc t) = some p → CowMap.fresh (s.pc t') = some q → p ≠ some q
  thr : ∀ t, ThreadOk s.heap s.cur m (s.pc t) (σ t)

theorem inv_init : Inv (init : St T K V) (fun _ => .idle) (fun _ => none) := by
  refine ⟨fun c h => ?_, AMap.nodupKeys_nil, fun _ => rfl, fun t h => ?_, fun t q h => ?_, fun t p c h => ?_,
    fun t p t' q h => ?_, fun t => rfl⟩
  · cases h
  · exact h.elim
  · cases h
  · cases h
  · cases h

/-- Readers and finished operations depend only on the maps they hold. -/
theorem threadOk_frame {heap heap' : Nat → AMap K V} {cur cur' : Option Nat} {m m' : Map K V} {pc : PC K V}
    {τ : TS K V} (hc : ¬ Critical pc) (hs : ∀ p, snapshot pc = some p → deref heap' p = deref heap p)
    (h : ThreadOk heap cur m pc τ) : ThreadOk heap' cur' m' pc τ := by
  cases pc with
  | idle => exact h
  | start op => exact h
  | reading k p => rw [ThreadOk, hs p rfl]; exact h
  | counting p => rw [ThreadOk, hs p rfl]; exact h
  | ranging p acc rem => rw [ThreadOk, hs p rfl]; exact h
  | locked op => exact absurd trivial hc
  | copying => exact absurd trivial hc
  | filled => exact absurd trivial hc
  | unlocking r => exact h
  | returning r => exact h

/-- A step of a goroutine that only changes its own place. -/
theorem Inv.locally {s : St T K V} {σ : T → TS K V} {m : Map K V} (hI : Inv s σ m) (t : T) (pc' : PC K V) (τ' : TS K V)
    (hcrit : Critical pc' → Critical (s.pc t)) (hfresh : ∀ q, CowMap.fresh pc' = some q → CowMap.fresh (s.pc t) = some q)
    (hsnap : ∀ p, snapshot pc' = some p → snapshot (s.pc t) = some p ∨ p = s.cur)
    (ht : ThreadOk s.heap s.cur m pc' τ') : Inv { s with pc := upd s.pc t pc' } (upd σ t τ') m := by
  have hfr : ∀ t' q, CowMap.fresh (upd s.pc t pc' t') = some q → CowMap.fresh (s.pc t') = some q := by
    intro t' q h
    by_cases e : t' = t
    · subst e; rw [upd_same] at h; exact hfresh q h
    · rwa [upd_ne _ _ e] at h
  have hsn : ∀ t' p, snapshot (upd s.pc t pc' t') = some p → snapshot (s.pc t') = some p ∨ p = s.cur := by
    intro t' q h
    by_cases e : t' = t
    · subst e; rw [upd_same] at h; exact hsnap q h
    · rw [upd_ne _ _ e] at h; exact .inl h
  refine ⟨hI.cur_lt, hI.cur_ok, hI.mem, fun t' h => ?_, fun t' q h => hI.fresh t' q (hfr t' q h), fun t' p c h e => ?_,
    fun t' p t'' q h h' => ?_, fun t' => ?_⟩
  · replace h : Critical (upd s.pc t pc' t') := h
    by_cases e : t' = t
    · subst e; rw [upd_same] at h; exact hI.lock _ (hcrit h)
    · rw [upd_ne _ _ e] at h; exact hI.lock _ h
  · rcases hsn t' p h with h | h
    · exact hI.snap_lt t' p c h e
    · exact hI.cur_lt c (by rw [← h, e])
  · rcases hsn t' p h with h | h
    · exact hI.snap_fresh t' p t'' q h (hfr t'' q h')
    · rw [h]; exact (hI.fresh t'' q (hfr t'' q h')).2
  · show ThreadOk s.heap s.cur m (upd s.pc t pc' t') (upd σ t τ' t')
    by_cases e : t' = t
    · subst e; rw [upd_same, upd_same]; exact ht
    · rw [upd_ne _ _ e, upd_ne _ _ e]; exact hI.thr t'

/-- Only one goroutine is critical. -/
theorem Inv.alone {s : St T K V} {σ : T → TS K V} {m : Map K V} (hI : Inv s σ m) {t t' : T} (h : Critical (s.pc t))
    (hne : t' ≠ t) : ¬ Critical (s.pc t') := by
  intro h'
  have h1 := hI.lock t h
  have h2 := hI.lock t' h'
  rw [h1] at h2
  exact hne (Option.some.inj h2).symm

/-- A step of the goroutine holding the mutex that writes a map no reader sees. -/
theorem Inv.writing {s : St T K V} {σ : T → TS K V} {m : Map K V} (hI : Inv s σ m) {t : T} (hc : Critical (s.pc t))
    (q : Nat) (x : AMap K V) (n' : Nat) (pc' : PC K V) (hn : s.next ≤ n') (hq : q < n')
    (hq' : CowMap.fresh (s.pc t) = some q ∨ s.next ≤ q) (hsn : snapshot pc' = none) (hfr : CowMap.fresh pc' = some q)
    (ht : ThreadOk (upd s.heap q x) s.cur m pc' (σ t)) :
    Inv { s with heap := upd s.heap q x, next := n', pc := upd s.pc t pc' } σ m := by
  have hcurq : s.cur ≠ some q := by
    rcases hq' with h | h
    · exact (hI.fresh t q h).2
    · intro e; have := hI.cur_lt q e; omega
  have hd : ∀ p, p ≠ some q → deref (upd s.heap q x) p = deref s.heap p := by
    intro p hp
    cases p with
    | none => rfl
    | some c => exact upd_ne _ _ (fun e => hp (by rw [e]))
  have hsnq : ∀ t' p, snapshot (s.pc t') = some p → p ≠ some q := by
    intro t' p h
    rcases hq' with hf | hf
    · exact hI.snap_fresh t' p t q h hf
    · intro e; have := hI.snap_lt t' p q h e; omega
  have hsn' : ∀ t' p, snapshot (upd s.pc t pc' t') = some p → snapshot (s.pc t') = some p := by
    intro t' p h
    by_cases e : t' = t
    · subst e; rw [upd_same, hsn] at h; cases h
    · rwa [upd_ne _ _ e] at h
  have hfr' : ∀ t' q', CowMap.fresh (upd s.pc t pc' t') = some q' → q' = q := by
    intro t' q' h
    by_cases e : t' = t
    · subst e; rw [upd_same, hfr] at h; exact (Option.some.inj h).symm
    · rw [upd_ne _ _ e] at h
      exact absurd (critical_of_fresh h) (hI.alone hc e)
  refine ⟨fun c h => Nat.lt_of_lt_of_le (hI.cur_lt c h) hn, ?_, fun k => ?_, fun t' h => ?_, fun t' q' h => ?_,
    fun t' p c h e => Nat.lt_of_lt_of_le (hI.snap_lt t' p c (hsn' t' p h) e) hn, fun t' p t'' q' h h' => ?_,
    fun t' => ?_⟩
  · show AMap.NodupKeys (deref (upd s.heap q x) s.cur)
    rw [hd _ hcurq]; exact hI.cur_ok
  · show AMap.load (deref (upd s.heap q x) s.cur) k = m k
    rw [hd _ hcurq]; exact hI.mem k
  · replace h : Critical (upd s.pc t pc' t') := h
    by_cases e : t' = t
    · subst e; exact hI.lock _ hc
    · rw [upd_ne _ _ e] at h; exact hI.lock _ h
  · rw [hfr' t' q' h]; exact ⟨hq, hcurq⟩
  · rw [hfr' t'' q' h']; exact hsnq t' p (hsn' t' p h)
  · show ThreadOk (upd s.heap q x) s.cur m (upd s.pc t pc' t') (σ t')
    by_cases e : t' = t
    · subst e; rw [upd_same]; exact ht
    · rw [upd_ne _ _ e]
      exact threadOk_frame (hI.alone hc e) (fun p hp => hd p (hsnq t' p hp)) (hI.thr t')

theorem load_nil_deref (k : K) : AMap.load ([] : AMap K V) k = none := rfl

theorem upd_self {α : Type} (f : T → α) (t : T) : upd f t (f t) = f := by
  funext x; by_cases h : x = t
  · subst h; simp
  · rw [upd_ne _ _ h]

/-- The first state of the copying loop. -/
theorem copying_start {heap : Nat → AMap K V} {cur : Option Nat} {m : Map K V} {l : List K} {op : Op K V} {key : K}
    {new : Option V} {n : Nat} (hok : (deref heap cur).NodupKeys) (hm : ∀ k, AMap.load (deref heap cur) k = m k)
    (hl : l.Perm (deref heap cur).keys) (hdel : new = none → (m key).isSome)
    (hop : (∃ v, op = .store key v ∧ new = some v) ∨ (∃ g, op = .update key g ∧ new = some (g (m key))) ∨
        (op = .delete key ∧ new = none)) :
    ThreadOk (upd heap n []) cur m (.copying op key new cur n l none) (.pending op) := by
  have hmem : ∀ k, k ∈ l ↔ (m k).isSome := by
    intro k; rw [hl.mem_iff, ← AMap.load_isSome, hm]
  refine ⟨rfl, rfl, hop, ⟨hl.nodup_iff.mpr hok, fun k hk => (hmem k).mp hk⟩, ?_, fun k => ?_, fun h => ?_⟩
  · rw [upd_same]; exact AMap.nodupKeys_nil
  · rw [upd_same, load_nil_deref]
    by_cases hk : k ∈ l
    · rw [if_pos hk]
    · rw [if_neg hk]
      have : m k = none := by
        cases h : m k with
        | none => rfl
        | some v => exact absurd ((hmem k).mpr (by rw [h]; rfl)) hk
      rw [this]; split <;> rfl
  · rw [if_pos ((hmem key).mpr (hdel h))]

/-- Every step keeps the invariant; silent steps either leave the abstract map or are the instant at which the
operation takes effect. -/
theorem step_inv {s s' : St T K V} {t : T} {e : Option (Event T K V)} {σ : T → TS K V} {m : Map K V} (hI : Inv s σ m)
    (h : Step s t e s') :
    (e = none ∧ Inv s' σ m) ∨
    (e = none ∧ ∃ op r m', σ t = .pending op ∧ Legal m op r m' ∧ Inv s' (upd σ t (.done r)) m') ∨
    (∃ op, e = some (.inv t op) ∧ σ t = .idle ∧ Inv s' (upd σ t (.pending op)) m) ∨
    (∃ r, e = some (.ret t r) ∧ σ t = .done r ∧ Inv s' (upd σ t .idle) m) := by
  have ht := hI.thr t
  cases h with
  | @invoke op hpc hop =>
    rw [hpc] at ht
    refine .inr (.inr (.inl ⟨_, rfl, ht, hI.locally t _ _ ?_ ?_ ?_ ⟨rfl, hop⟩⟩))
    · exact fun h => h.elim
    · intro q h; cases h
    · intro q h; cases h
  | @loadPtr k hpc =>
    rw [hpc] at ht
    refine .inr (.inl ⟨rfl, _, _, m, ht.1, ⟨rfl, rfl⟩, hI.locally t _ _ ?_ ?_ ?_ ?_⟩)
    · exact fun h => h.elim
    · intro q h; cases h
    · intro q h; cases h; exact .inr rfl
    · show _ = _
      rw [hI.mem]
  | @loadIdx k p hpc =>
    rw [hpc] at ht
    refine .inl ⟨rfl, ?_⟩
    have := hI.locally t (.returning (.val (AMap.load (deref s.heap p) k))) (σ t) (fun h => h.elim)
      (fun q h => by cases h) (fun q h => by cases h) ht
    rw [upd_self] at this
    rw [deref_eq]; exact this
  | @lenPtr hpc =>
    rw [hpc] at ht
    refine .inr (.inl ⟨rfl, _, .num (deref s.heap s.cur).length, m, ht.1, ⟨⟨_, rfl, hI.cur_ok, hI.mem⟩, rfl⟩,
      hI.locally t _ _ ?_ ?_ ?_ ?_⟩)
    · exact fun h => h.elim
    · intro q h; cases h
    · intro q h; cases h; exact .inr rfl
    · rfl
  | @lenGet p hpc =>
    rw [hpc] at ht
    refine .inl ⟨rfl, ?_⟩
    have := hI.locally t (.returning (.num (deref s.heap p).length)) (σ t) (fun h => h.elim)
      (fun q h => by cases h) (fun q h => by cases h) ht
    rw [upd_self] at this
    rw [deref_eq]; exact this
  | @rangePtr l hpc hl =>
    rw [hpc] at ht
    rw [deref_eq] at hl
    have hnd : l.Nodup := hl.nodup_iff.mpr hI.cur_ok
    -- the listing in visiting order
    obtain ⟨rest, hr1, hr2⟩ : ∃ rest : AMap K V, rest.map Prod.fst = l ∧
        ∀ x ∈ rest, AMap.load (deref s.heap s.cur) x.1 = some x.2 := by
      have : ∀ l' : List K, (∀ k ∈ l', k ∈ (deref s.heap s.cur).keys) → ∃ rest : AMap K V, rest.map Prod.fst = l' ∧
          ∀ x ∈ rest, AMap.load (deref s.heap s.cur) x.1 = some x.2 := by
        intro l'
        induction l' with
        | nil => exact fun _ => ⟨[], rfl, by simp⟩
        | cons k l' ih =>
          intro hk
          obtain ⟨rest, h1, h2⟩ := ih fun k' hk' => hk k' (by simp [hk'])
          obtain ⟨v, hv⟩ := Option.isSome_iff_exists.mp (AMap.load_isSome.mpr (hk k (by simp)))
          refine ⟨(k, v) :: rest, by simp [h1], fun x hx => ?_⟩
          rcases List.mem_cons.mp hx with rfl | hx
          · exact hv
          · exact h2 x hx
      exact this l fun k hk => hl.mem_iff.mp hk
    have hlist : Lists rest m := by
      refine ⟨by rw [AMap.NodupKeys, AMap.keys, hr1]; exact hnd, fun k => ?_⟩
      have hn : AMap.NodupKeys rest := by rw [AMap.NodupKeys, AMap.keys, hr1]; exact hnd
      cases hk : AMap.load rest k with
      | some v =>
        have := hr2 (k, v) (AMap.mem_of_load hk)
        rw [← hI.mem]; exact this.symm
      | none =>
        rw [AMap.load_eq_none, AMap.keys, hr1, hl.mem_iff, ← AMap.load_isSome, hI.mem] at hk
        cases hm : m k with
        | none => rfl
        | some v => rw [hm] at hk; exact absurd rfl hk
    refine .inr (.inl ⟨rfl, _, .pairs rest, m, ht.1, ⟨⟨rest, rfl, hlist⟩, rfl⟩, hI.locally t _ _ ?_ ?_ ?_ ?_⟩)
    · exact fun h => h.elim
    · intro q h; cases h
    · intro q h; cases h; exact .inr rfl
    · exact ⟨rest, rfl, hr1, hr2⟩
  | @rangeNext p acc k v rem hpc hv =>
    rw [hpc] at ht
    obtain ⟨rest, h1, h2, h3⟩ := ht
    refine .inl ⟨rfl, ?_⟩
    cases rest with
    | nil => cases h2
    | cons x rest =>
      simp only [List.map_cons, List.cons.injEq] at h2
      have hx := h3 x (by simp)
      rw [h2.1, ← deref_eq, hv] at hx
      have hxe : x = (k, v) := by
        obtain ⟨a, b⟩ := x
        simp only at h2 hx
        rw [h2.1, Option.some.inj hx]
      have := hI.locally t (.ranging p (acc ++ [(k, v)]) rem) (σ t) (fun h => h.elim)
        (fun q h => by cases h) (fun q h => by cases h; exact .inl (by rw [hpc]; rfl))
        ⟨rest, by rw [h1, hxe]; simp, h2.2, fun y hy => h3 y (by simp [hy])⟩
      rw [upd_self] at this
      exact this
  | @rangeEnd p acc hpc =>
    rw [hpc] at ht
    obtain ⟨rest, h1, h2, h3⟩ := ht
    refine .inl ⟨rfl, ?_⟩
    have hr : rest = [] := by simpa using h2
    subst hr
    have := hI.locally t (.returning (.pairs acc)) (σ t) (fun h => h.elim)
      (fun q h => by cases h) (fun q h => by cases h) (by rw [h1]; simp [ThreadOk])
    rw [upd_self] at this
    exact this
  | @lock op hpc hw hl =>
    rw [hpc] at ht
    refine .inl ⟨rfl, ?_⟩
    have hno : ∀ t', ¬ Critical (s.pc t') := by
      intro t' h; have := hI.lock t' h; rw [hl] at this; cases this
    have hsn : ∀ t' p, snapshot (upd s.pc t (.locked op) t') = some p → snapshot (s.pc t') = some p := by
      intro t' p h
      by_cases e : t' = t
      · subst e; rw [upd_same] at h; cases h
      · rwa [upd_ne _ _ e] at h
    have hfr : ∀ t' q, CowMap.fresh (upd s.pc t (.locked op) t') = some q → False := by
      intro t' q h
      by_cases e : t' = t
      · subst e; rw [upd_same] at h; cases h
      · rw [upd_ne _ _ e] at h; exact hno t' (critical_of_fresh h)
    refine ⟨hI.cur_lt, hI.cur_ok, hI.mem, fun t' h => ?_, fun t' q h => (hfr t' q h).elim,
      fun t' p c h e => hI.snap_lt t' p c (hsn t' p h) e, fun t' p t'' q h h' => (hfr t'' q h').elim, fun t' => ?_⟩
    · replace h : Critical (upd s.pc t (.locked op) t') := h
      by_cases e : t' = t
      · rw [e]
      · rw [upd_ne _ _ e] at h; exact absurd h (hno t')
    · show ThreadOk s.heap s.cur m (upd s.pc t (.locked op) t') (σ t')
      by_cases e : t' = t
      · subst e; rw [upd_same]; exact ht
      · rw [upd_ne _ _ e]; exact hI.thr t'
  | @storeBegin k v l hpc hl =>
    rw [hpc] at ht
    rw [deref_eq] at hl
    refine .inl ⟨rfl, hI.writing (by rw [hpc]; trivial) s.next [] (s.next + 1) _ (by omega) (by omega)
      (.inr (Nat.le_refl _)) rfl rfl ?_⟩
    rw [ht.1]
    exact copying_start hI.cur_ok hI.mem hl (fun h => by cases h) (.inl ⟨v, rfl, rfl⟩)
  | @updateBegin k g l hpc hl =>
    rw [hpc] at ht
    rw [deref_eq] at hl
    refine .inl ⟨rfl, hI.writing (by rw [hpc]; trivial) s.next [] (s.next + 1) _ (by omega) (by omega)
      (.inr (Nat.le_refl _)) rfl rfl ?_⟩
    rw [ht.1, deref_eq, hI.mem]
    exact copying_start hI.cur_ok hI.mem hl (fun h => by cases h) (.inr (.inl ⟨g, rfl, rfl⟩))
  | @deleteMiss k hpc hk =>
    rw [hpc] at ht
    rw [deref_eq, hI.mem] at hk
    refine .inr (.inl ⟨rfl, _, .val (m k), m, ht.1, ⟨rfl, ?_⟩, ?_⟩)
    · funext k'
      split
      · rename_i e; rw [← e, hk]
      · rfl
    · rw [hk]
      refine hI.locally t _ _ ?_ ?_ ?_ rfl
      · intro _; rw [hpc]; trivial
      · intro q h; cases h
      · intro q h; cases h
  | @deleteBegin k x l hpc hk hl =>
    rw [hpc] at ht
    rw [deref_eq] at hl
    rw [deref_eq, hI.mem] at hk
    refine .inl ⟨rfl, hI.writing (by rw [hpc]; trivial) s.next [] (s.next + 1) _ (by omega) (by omega)
      (.inr (Nat.le_refl _)) rfl rfl ?_⟩
    rw [ht.1]
    exact copying_start hI.cur_ok hI.mem hl (fun _ => by rw [hk]; rfl) (.inr (.inr ⟨rfl, rfl⟩))
  | @swapBegin l hpc =>
    rw [hpc] at ht
    refine .inl ⟨rfl, hI.writing (by rw [hpc]; trivial) s.next l (s.next + 1) _ (by omega) (by omega)
      (.inr (Nat.le_refl _)) rfl rfl ?_⟩
    refine ⟨ht.1, by rw [upd_same]; exact ht.2 l rfl, ?_⟩
    rw [upd_same, deref_eq]
    exact ⟨⟨_, rfl, hI.cur_ok, hI.mem⟩, rfl⟩
  | @copyNext op key new p q k rem pv v hpc hv =>
    rw [hpc] at ht
    obtain ⟨h1, h2, h3, h4, h5, h6, h7⟩ := ht
    rw [deref_eq, h2, hI.mem] at hv
    obtain ⟨h4, h4'⟩ := h4
    rw [List.nodup_cons] at h4
    have h4'' : ∀ k ∈ rem, (m k).isSome := fun k' hk' => h4' k' (by simp [hk'])
    by_cases hd : new = none ∧ k = key
    · rw [if_pos hd]
      refine .inl ⟨rfl, ?_⟩
      have := hI.locally t (.copying op key new p q rem (some v)) (σ t) (fun _ => by rw [hpc]; trivial)
        (fun q' h => by rw [hpc]; exact h) (fun q' h => by cases h) ?_
      · rw [upd_self] at this; exact this
      · refine ⟨h1, h2, h3, ⟨h4.2, h4''⟩, h5, fun k' => ?_, fun _ => ?_⟩
        · rw [h6 k']
          by_cases hk' : k' = k
          · subst hk'; rw [if_pos (by simp), if_neg h4.1, if_pos hd]
          · simp [hk']
        · rw [← hd.2, if_neg h4.1, hv]
    · rw [if_neg hd]
      refine .inl ⟨rfl, hI.writing (by rw [hpc]; trivial) q _ s.next _ (Nat.le_refl _)
        (hI.fresh t q (by rw [hpc]; rfl)).1 (.inl (by rw [hpc]; rfl)) rfl rfl ?_⟩
      refine ⟨h1, h2, h3, ⟨h4.2, h4''⟩, by rw [upd_same]; exact AMap.nodupKeys_store h5 _ _, fun k' => ?_, fun hn => ?_⟩
      · rw [upd_same, AMap.load_store, h6 k']
        by_cases hk' : k = k'
        · subst hk'; rw [if_pos rfl, if_neg h4.1, if_neg hd, hv]
        · have : k' ≠ k := fun e => hk' e.symm
          simp [hk', this]
      · rw [h7 hn]
        have : key ≠ k := fun e => hd ⟨hn, e.symm⟩
        simp [this]
  | @copyEndStore op key v p q pv hpc =>
    rw [hpc] at ht
    obtain ⟨h1, h2, h3, h4, h5, h6, h7⟩ := ht
    refine .inl ⟨rfl, hI.writing (by rw [hpc]; trivial) q _ s.next _ (Nat.le_refl _)
        (hI.fresh t q (by rw [hpc]; rfl)).1 (.inl (by rw [hpc]; rfl)) rfl rfl ?_⟩
    refine ⟨h1, by rw [upd_same]; exact AMap.nodupKeys_store h5 _ _, ?_⟩
    have hl : AMap.load (upd s.heap q (AMap.store (s.heap q) key v) q) =
        fun k' => if key = k' then some v else m k' := by
      funext k'
      rw [upd_same, AMap.load_store, h6]
      simp
    rw [hl]
    rcases h3 with ⟨v', rfl, e⟩ | ⟨g, rfl, e⟩ | ⟨_, e⟩
    · cases e; exact ⟨rfl, rfl⟩
    · cases e; exact ⟨rfl, rfl⟩
    · cases e
  | @copyEndDelete op key p q pv hpc =>
    rw [hpc] at ht
    obtain ⟨h1, h2, h3, h4, h5, h6, h7⟩ := ht
    refine .inl ⟨rfl, ?_⟩
    have := hI.locally t (.filled op q (.val pv)) (σ t) (fun _ => by rw [hpc]; trivial)
        (fun q' h => by rw [hpc]; exact h) (fun q' h => by cases h) ?_
    · rw [upd_self] at this; exact this
    · refine ⟨h1, h5, ?_⟩
      rcases h3 with ⟨v', _, e⟩ | ⟨g, _, e⟩ | ⟨rfl, _⟩
      · cases e
      · cases e
      · refine ⟨by rw [h7 rfl]; simp, ?_⟩
        funext k'
        rw [h6]
        by_cases e : key = k'
        · subst e; simp
        · have : k' ≠ key := fun e' => e e'.symm
          simp [e, this]
  | @publish op q r hpc =>
    rw [hpc] at ht
    obtain ⟨h1, h2, h3⟩ := ht
    have hc : Critical (s.pc t) := by rw [hpc]; trivial
    refine .inr (.inl ⟨rfl, op, r, _, h1, h3, ?_⟩)
    have hsn : ∀ t' p, snapshot (upd s.pc t (.unlocking r) t') = some p → snapshot (s.pc t') = some p := by
      intro t' p h
      by_cases e : t' = t
      · subst e; rw [upd_same] at h; cases h
      · rwa [upd_ne _ _ e] at h
    have hfr : ∀ t' q, CowMap.fresh (upd s.pc t (.unlocking r) t') = some q → False := by
      intro t' q h
      by_cases e : t' = t
      · subst e; rw [upd_same] at h; cases h
      · rw [upd_ne _ _ e] at h; exact hI.alone hc e (critical_of_fresh h)
    refine ⟨fun c h => ?_, h2, fun _ => rfl, fun t' h => ?_, fun t' q h => (hfr t' q h).elim,
      fun t' p c h e => hI.snap_lt t' p c (hsn t' p h) e, fun t' p t'' q h h' => (hfr t'' q h').elim, fun t' => ?_⟩
    · cases h; exact (hI.fresh t q (by rw [hpc]; rfl)).1
    · replace h : Critical (upd s.pc t (.unlocking r) t') := h
      by_cases e : t' = t
      · subst e; exact hI.lock _ hc
      · rw [upd_ne _ _ e] at h; exact hI.lock _ h
    · show ThreadOk s.heap (some q) _ (upd s.pc t (.unlocking r) t') (upd σ t (.done r) t')
      by_cases e : t' = t
      · subst e; rw [upd_same, upd_same]; rfl
      · rw [upd_ne _ _ e, upd_ne _ _ e]
        exact threadOk_frame (hI.alone hc e) (fun _ _ => rfl) (hI.thr t')
  | @unlock r hpc =>
    rw [hpc] at ht
    have hc : Critical (s.pc t) := by rw [hpc]; trivial
    refine .inl ⟨rfl, ?_⟩
    have h0 := hI.locally t (.returning r) (σ t) (fun h => h.elim) (fun q h => by cases h) (fun q h => by cases h) ht
    rw [upd_self] at h0
    refine ⟨h0.cur_lt, h0.cur_ok, h0.mem, fun t' h => ?_, h0.fresh, h0.snap_lt, h0.snap_fresh, h0.thr⟩
    exfalso
    replace h : Critical (upd s.pc t (.returning r) t') := h
    by_cases e : t' = t
    · subst e; rw [upd_same] at h; exact h
    · rw [upd_ne _ _ e] at h; exact hI.alone hc e h
  | @ret r hpc =>
    rw [hpc] at ht
    refine .inr (.inr (.inr ⟨r, rfl, ht, hI.locally t _ _ ?_ ?_ ?_ rfl⟩))
    · exact fun h => h.elim
    · intro q h; cases h
    · intro q h; cases h

theorem visible_append {T : Type} (a b : List (AEvent T K V)) : visible (a ++ b) = visible a ++ visible b := by
  induction a with
  | nil => rfl
  | cons e a ih => cases e <;> simp [visible, ih]

/-- Every execution has an annotated run with the same history, ending in a map that memory represents. -/
theorem exec_run {h : List (Event T K V)} {s : St T K V} (he : Exec h s) :
    ∃ es σ m, Run (fun _ => .idle) (fun _ => none) es σ m ∧ visible es = h ∧ Inv s σ m := by
  induction he with
  | init => exact ⟨[], _, _, .nil, rfl, inv_init⟩
  | step _ hs ih =>
    obtain ⟨es, σ, m, hr, hv, hI⟩ := ih
    rcases step_inv hI hs with ⟨_, h⟩ | ⟨_, op, r, m', h1, h2, h3⟩ | ⟨op, h, _⟩ | ⟨r, h, _⟩
    · exact ⟨es, σ, m, hr, hv, h⟩
    · exact ⟨_, _, _, .lin hr h1 h2, by rw [visible_append, hv]; simp [visible], h3⟩
    · cases h
    · cases h
  | visible _ hs ih =>
    obtain ⟨es, σ, m, hr, hv, hI⟩ := ih
    rcases step_inv hI hs with ⟨h, _⟩ | ⟨h, _⟩ | ⟨op, h, h1, h2⟩ | ⟨r, h, h1, h2⟩
    · cases h
    · cases h
    · cases h
      exact ⟨_, _, _, .inv hr h1, by rw [visible_append, hv]; rfl, h2⟩
    · cases h
      exact ⟨_, _, _, .ret hr h1, by rw [visible_append, hv]; rfl, h2⟩

/-- Only writing operations take the mutex. -/
theorem locked_writes {h : List (Event T K V)} {s : St T K V} (he : Exec h s) :
    ∀ t op, s.pc t = .locked op → Writes op := by
  have aux : ∀ {s : St T K V} {t e s'}, Step s t e s' → (∀ t op, s.pc t = .locked op → Writes op) →
      ∀ t op, s'.pc t = .locked op → Writes op := by
    intro s t e s' hs ih t' op' h
    have keep : ∀ pc' : PC K V, upd s.pc t pc' t' = .locked op' → (∀ op, pc' = .locked op → Writes op) → Writes op' := by
      intro pc' h hk
      by_cases e : t' = t
      · subst e; rw [upd_same] at h; exact hk _ h
      · rw [upd_ne _ _ e] at h; exact ih _ _ h
    cases hs
    case copyNext => split at h <;> exact keep _ h (fun _ h => by cases h)
    case lock hw _ => exact keep _ h (fun _ h => by cases h; exact hw)
    all_goals exact keep _ h (fun _ h => by cases h)
  induction he with
  | init => intro t op h; cases h
  | step _ hs ih => exact aux hs ih
  | visible _ hs ih => exact aux hs ih

end Motan.CowMap
