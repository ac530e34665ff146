import Verif.Model.Availability

/-!
# C32: the availability of an endpoint
-/

namespace Motan.Props

open Motan.Availability

variable {T : Type} [DecidableEq T]

/-- A goroutine that is running a keepalive loop (from having been admitted to having signed off). -/
def Spec.KeepingAlive (p : PC) : Prop := p = .kaWait ∨ p = .kaBeat ∨ p = .kaUp ∨ p = .kaReset ∨ p = .kaEnd

/-- `Destroy` has been entered. -/
def Spec.DestroyBegun (s : St T) : Prop := s.destroyed = true ∨ ∃ t, s.pc t = .dAvail ∨ s.pc t = .dSend

/-- A goroutine that is going to see to the endpoint coming up: it is connecting, or about to start a keepalive, or keeping
alive and not through with it. -/
def Spec.Pending (p : PC) : Prop :=
  p = .conFirst ∨ p = .conRetry ∨ p = .conTrying ∨ p = .conUp ∨
  p = .typing ∨ p = .spawning ∨ p = .kaBegin ∨ p = .kaWait ∨ p = .kaBeat ∨ p = .kaUp

/-- The number of errors since the count was last reset. -/
def Spec.errorsInARow (counted : List Bool) : Nat := (counted.takeWhile (! ·)).length

/-- Somewhere `threshold` errors were counted in a row. -/
def Spec.HadErrors (threshold : Int) (counted : List Bool) : Prop :=
  ∃ later earlier, counted = later ++ List.replicate threshold.toNat false ++ earlier

private def keeping : PC → Bool
  | .kaWait | .kaBeat | .kaUp | .kaReset | .kaEnd => true
  | _ => false

private theorem keeping_move (f : T → PC) (t x : T) (p : PC) :
    keeping (move f t p x) = if x = t then keeping p else keeping (f x) := by
  unfold move; split <;> rfl

private def destroying : PC → Bool
  | .dAvail | .dSend => true
  | _ => false

private theorem destroying_move (f : T → PC) (t x : T) (p : PC) :
    destroying (move f t p x) = if x = t then destroying p else destroying (f x) := by
  unfold move; split <;> rfl

private def locked : PC → Bool
  | .dAvail | .dSend | .dUnlock => true
  | _ => false

private theorem locked_move (f : T → PC) (t x : T) (p : PC) :
    locked (move f t p x) = if x = t then locked p else locked (f x) := by
  unfold move; split <;> rfl

private def connecting : PC → Bool
  | .conFirst | .conRetry | .conTrying => true
  | _ => false

private theorem connecting_move (f : T → PC) (t x : T) (p : PC) :
    connecting (move f t p x) = if x = t then connecting p else connecting (f x) := by
  unfold move; split <;> rfl

private def pending : PC → Bool
  | .conFirst | .conRetry | .conTrying | .conUp | .typing | .spawning | .kaBegin | .kaWait | .kaBeat | .kaUp => true
  | _ => false

private theorem pending_move (f : T → PC) (t x : T) (p : PC) :
    pending (move f t p x) = if x = t then pending p else pending (f x) := by
  unfold move; split <;> rfl

private def disab : PC → Bool
  | .disabling => true
  | _ => false

private theorem disab_move (f : T → PC) (t x : T) (p : PC) :
    disab (move f t p x) = if x = t then disab p else disab (f x) := by
  unfold move; split <;> rfl

private structure Inv1 (threshold : Int) (s : St T) : Prop where
  one : ∀ a b, keeping (s.pc a) = true → keeping (s.pc b) = true → a = b
  run : s.running = true ↔ ∃ t, keeping (s.pc t) = true

private theorem inv1 {threshold : Int} {c : T} {s : St T} (h : Reach threshold c s) : Inv1 threshold s := by
  induction h with
  | init => constructor <;> simp only [init] <;> grind [keeping]
  | @step s t s' hr hs ih =>
    obtain ⟨h1, h2⟩ := ih
    have hk : ∀ p, s.pc t = p → keeping (s.pc t) = keeping p := fun p h => by rw [h]
    have hg : ∀ y p, s.pc y = p → keeping (s.pc y) = keeping p := fun y p h => by rw [h]
    cases hs with
    | err h0 h3 =>
      have hk := hk _ h0
      generalize hp : (if s.errors + 1 ≥ UInt32.ofNat threshold.toNat then PC.disabling else PC.idle) = p
      have hp' : p = .disabling ∨ p = .idle := by subst hp; split <;> simp
      rcases hp' with rfl | rfl
      · constructor <;> (try simp only [keeping_move]) <;> grind [keeping]
      · constructor <;> (try simp only [keeping_move]) <;> grind [keeping]
    | kaTick h0 h3 =>
      have hk := hk _ h0
      cases hch : s.channels with
      | true => simp only [if_true]; constructor <;> (try simp only [keeping_move]) <;> grind [keeping]
      | false => simp only [Bool.false_eq_true, if_false]; constructor <;> (try simp only [keeping_move]) <;> grind [keeping]
    | conFail h0 =>
      rcases h0 with h0 | h0
      · have hk := hk _ h0
        constructor <;> (try simp only [keeping_move]) <;> grind [keeping]
      · have hk := hk _ h0
        constructor <;> (try simp only [keeping_move]) <;> grind [keeping]
    | conOk h0 =>
      rcases h0 with h0 | h0
      · have hk := hk _ h0
        constructor <;> (try simp only [keeping_move]) <;> grind [keeping]
      · have hk := hk _ h0
        constructor <;> (try simp only [keeping_move]) <;> grind [keeping]
    | spawn h0 h3 h4 =>
      rename_i g
      have hk := hk _ h0
      have hg := hg _ _ h3
      constructor <;> (try simp only [keeping_move]) <;> grind [keeping]
    | _ =>
      have hk := hk _ (by assumption)
      constructor <;> (try simp only [keeping_move]) <;> grind [keeping]

private structure Inv2 (threshold : Int) (s : St T) : Prop where
  lock : ∀ t, s.lock = some t ↔ locked (s.pc t) = true
  dest : ∀ t, destroying (s.pc t) = true → s.destroyed = false
  tok : s.token = true → s.destroyed = true

private theorem inv2 {threshold : Int} {c : T} {s : St T} (h : Reach threshold c s) : Inv2 threshold s := by
  induction h with
  | init => constructor <;> simp only [init] <;> grind [locked, destroying]
  | @step s t s' hr hs ih =>
    obtain ⟨h1, h2, h3⟩ := ih
    have hl : ∀ t, destroying (s.pc t) = true → locked (s.pc t) = true := by
      intro t; cases s.pc t <;> simp [destroying, locked]
    have hk : ∀ p, s.pc t = p → locked (s.pc t) = locked p ∧ destroying (s.pc t) = destroying p := fun p h => ⟨by rw [h], by rw [h]⟩
    have hg : ∀ y p, s.pc y = p → locked (s.pc y) = locked p ∧ destroying (s.pc y) = destroying p := fun y p h => ⟨by rw [h], by rw [h]⟩
    cases hs with
    | err h0 h3 =>
      have hk := hk _ h0
      generalize hp : (if s.errors + 1 ≥ UInt32.ofNat threshold.toNat then PC.disabling else PC.idle) = p
      have hp' : p = .disabling ∨ p = .idle := by subst hp; split <;> simp
      rcases hp' with rfl | rfl
      · constructor <;> (try simp only [locked_move, destroying_move]) <;> grind [locked, destroying]
      · constructor <;> (try simp only [locked_move, destroying_move]) <;> grind [locked, destroying]
    | kaTick h0 h3 =>
      have hk := hk _ h0
      cases hch : s.channels with
      | true => simp only [if_true]; constructor <;> (try simp only [locked_move, destroying_move]) <;> grind [locked, destroying]
      | false => simp only [Bool.false_eq_true, if_false]; constructor <;> (try simp only [locked_move, destroying_move]) <;> grind [locked, destroying]
    | conFail h0 =>
      rcases h0 with h0 | h0
      · have hk := hk _ h0
        constructor <;> (try simp only [locked_move, destroying_move]) <;> grind [locked, destroying]
      · have hk := hk _ h0
        constructor <;> (try simp only [locked_move, destroying_move]) <;> grind [locked, destroying]
    | conOk h0 =>
      rcases h0 with h0 | h0
      · have hk := hk _ h0
        constructor <;> (try simp only [locked_move, destroying_move]) <;> grind [locked, destroying]
      · have hk := hk _ h0
        constructor <;> (try simp only [locked_move, destroying_move]) <;> grind [locked, destroying]
    | spawn h0 h3 h4 =>
      rename_i g
      have hk := hk _ h0
      have hg := hg _ _ h3
      constructor <;> (try simp only [locked_move, destroying_move]) <;> grind [locked, destroying]
    | _ =>
      have hk := hk _ (by assumption)
      constructor <;> (try simp only [locked_move, destroying_move]) <;> grind [locked, destroying]

private structure Inv3 (threshold : Int) (s : St T) : Prop where
  chan : s.channels = false → s.destroyed = true ∨ ∃ t, connecting (s.pc t) = true

private theorem inv3 {threshold : Int} {c : T} {s : St T} (h : Reach threshold c s) : Inv3 threshold s := by
  induction h with
  | init => exact ⟨fun _ => .inr ⟨c, by simp [init, connecting]⟩⟩
  | @step s t s' hr hs ih =>
    obtain ⟨h1⟩ := ih
    obtain ⟨_, _, h2⟩ := inv2 hr
    have hk : ∀ p, s.pc t = p → connecting (s.pc t) = connecting p := fun p h => by rw [h]
    have hg : ∀ y p, s.pc y = p → connecting (s.pc y) = connecting p := fun y p h => by rw [h]
    cases hs with
    | err h0 h3 =>
      have hk := hk _ h0
      generalize hp : (if s.errors + 1 ≥ UInt32.ofNat threshold.toNat then PC.disabling else PC.idle) = p
      have hp' : p = .disabling ∨ p = .idle := by subst hp; split <;> simp
      rcases hp' with rfl | rfl
      · constructor <;> (try simp only [connecting_move]) <;> grind [connecting]
      · constructor <;> (try simp only [connecting_move]) <;> grind [connecting]
    | kaTick h0 h3 =>
      have hk := hk _ h0
      cases hch : s.channels with
      | true => simp only [if_true]; constructor <;> (try simp only [connecting_move]) <;> grind [connecting]
      | false => simp only [Bool.false_eq_true, if_false]; constructor <;> (try simp only [connecting_move]) <;> grind [connecting]
    | conFail h0 =>
      rcases h0 with h0 | h0
      · have hk := hk _ h0
        constructor <;> (try simp only [connecting_move]) <;> grind [connecting]
      · have hk := hk _ h0
        constructor <;> (try simp only [connecting_move]) <;> grind [connecting]
    | conOk h0 =>
      rcases h0 with h0 | h0
      · have hk := hk _ h0
        constructor <;> (try simp only [connecting_move]) <;> grind [connecting]
      · have hk := hk _ h0
        constructor <;> (try simp only [connecting_move]) <;> grind [connecting]
    | spawn h0 h3 h4 =>
      rename_i g
      have hk := hk _ h0
      have hg := hg _ _ h3
      constructor <;> (try simp only [connecting_move]) <;> grind [connecting]
    | _ =>
      have hk := hk _ (by assumption)
      constructor <;> (try simp only [connecting_move]) <;> grind [connecting]

private structure Inv4 (threshold : Int) (s : St T) : Prop where
  pend : s.missed = false → s.destroyed = false → (∀ t, destroying (s.pc t) = false) → s.avail ≠ some true →
    ∃ t, pending (s.pc t) = true

private theorem inv4 {threshold : Int} {c : T} {s : St T} (h : Reach threshold c s) : Inv4 threshold s := by
  induction h with
  | init => exact ⟨fun _ _ _ _ => ⟨c, by simp [init, pending]⟩⟩
  | @step s t s' hr hs ih =>
    obtain ⟨h1⟩ := ih
    obtain ⟨_, _, h2⟩ := inv2 hr
    obtain ⟨hch⟩ := inv3 hr
    have hl : ∀ t, (s.pc t).looping = true → pending (s.pc t) = true := by
      intro t; cases s.pc t <;> simp [PC.looping, pending]
    have hc : ∀ t, connecting (s.pc t) = true → pending (s.pc t) = true := by
      intro t; cases s.pc t <;> simp [connecting, pending]
    have hk : ∀ p, s.pc t = p → pending (s.pc t) = pending p ∧ destroying (s.pc t) = destroying p ∧ connecting (s.pc t) = connecting p ∧ PC.looping (s.pc t) = PC.looping p := fun p h => ⟨by rw [h], by rw [h], by rw [h], by rw [h]⟩
    have hg : ∀ y p, s.pc y = p → pending (s.pc y) = pending p ∧ destroying (s.pc y) = destroying p ∧ connecting (s.pc y) = connecting p ∧ PC.looping (s.pc y) = PC.looping p := fun y p h => ⟨by rw [h], by rw [h], by rw [h], by rw [h]⟩
    cases hs with
    | err h0 h3 =>
      have hk := hk _ h0
      generalize hp : (if s.errors + 1 ≥ UInt32.ofNat threshold.toNat then PC.disabling else PC.idle) = p
      have hp' : p = .disabling ∨ p = .idle := by subst hp; split <;> simp
      rcases hp' with rfl | rfl
      · constructor <;> (try simp only [pending_move, destroying_move]) <;> grind [pending, destroying, connecting, PC.looping]
      · constructor <;> (try simp only [pending_move, destroying_move]) <;> grind [pending, destroying, connecting, PC.looping]
    | kaTick h0 h3 =>
      have hk := hk _ h0
      cases hch : s.channels with
      | true => simp only [if_true]; constructor <;> (try simp only [pending_move, destroying_move]) <;> grind [pending, destroying, connecting, PC.looping]
      | false => simp only [Bool.false_eq_true, if_false]; constructor <;> (try simp only [pending_move, destroying_move]) <;> grind [pending, destroying, connecting, PC.looping]
    | conFail h0 =>
      rcases h0 with h0 | h0
      · have hk := hk _ h0
        constructor <;> (try simp only [pending_move, destroying_move]) <;> grind [pending, destroying, connecting, PC.looping]
      · have hk := hk _ h0
        constructor <;> (try simp only [pending_move, destroying_move]) <;> grind [pending, destroying, connecting, PC.looping]
    | conOk h0 =>
      rcases h0 with h0 | h0
      · have hk := hk _ h0
        constructor <;> (try simp only [pending_move, destroying_move]) <;> grind [pending, destroying, connecting, PC.looping]
      · have hk := hk _ h0
        constructor <;> (try simp only [pending_move, destroying_move]) <;> grind [pending, destroying, connecting, PC.looping]
    | spawn h0 h3 h4 =>
      rename_i g
      have hk := hk _ h0
      have hg := hg _ _ h3
      constructor <;> (try simp only [pending_move, destroying_move]) <;> grind [pending, destroying, connecting, PC.looping]
    | _ =>
      have hk := hk _ (by assumption)
      constructor <;> (try simp only [pending_move, destroying_move]) <;> grind [pending, destroying, connecting, PC.looping]

private theorem errorsInARow_cons_false (l : List Bool) : Spec.errorsInARow (false :: l) = Spec.errorsInARow l + 1 := by
  simp [Spec.errorsInARow]

private theorem errorsInARow_cons_true (l : List Bool) : Spec.errorsInARow (true :: l) = 0 := by
  simp [Spec.errorsInARow]

private theorem run_of_errors (l : List Bool) (n : Nat) (h : n ≤ Spec.errorsInARow l) :
    ∃ post, l = List.replicate n false ++ post := by
  induction n generalizing l with
  | zero => exact ⟨l, by simp⟩
  | succ n ih =>
    cases l with
    | nil => simp [Spec.errorsInARow] at h
    | cons b l =>
      cases b with
      | true => rw [errorsInARow_cons_true] at h; omega
      | false =>
        rw [errorsInARow_cons_false] at h
        obtain ⟨post, hp⟩ := ih l (by omega)
        exact ⟨post, by rw [List.replicate_succ, List.cons_append, ← hp]⟩

private theorem errors_count {threshold : Int} {c : T} {s : St T} (h : Reach threshold c s) :
    s.errors.toNat = Spec.errorsInARow s.counted % 4294967296 := by
  induction h with
  | init => rfl
  | @step s t s' hr hs ih =>
    cases hs with
    | err => simp only [errorsInARow_cons_false, UInt32.toNat_add, ih]; simp
    | success => simp only [errorsInARow_cons_true]; rfl
    | kaReset => simp only [errorsInARow_cons_true]; rfl
    | _ => exact ih

private theorem reaches_threshold {threshold : Int} {s : St T}
    (hc : s.errors.toNat = Spec.errorsInARow s.counted % 4294967296) (ht : threshold < 4294967296) :
    s.errors + 1 ≥ UInt32.ofNat threshold.toNat ↔
      threshold.toNat ≤ Spec.errorsInARow (false :: s.counted) % 4294967296 := by
  rw [ge_iff_le, UInt32.le_iff_toNat_le, UInt32.toNat_ofNat', UInt32.toNat_add, hc, errorsInARow_cons_false]
  have : threshold.toNat % 2 ^ 32 = threshold.toNat := Nat.mod_eq_of_lt (by omega)
  rw [this]
  simp

private theorem hadErrors_cons {threshold : Int} {l : List Bool} (b : Bool) (h : Spec.HadErrors threshold l) :
    Spec.HadErrors threshold (b :: l) := by
  obtain ⟨x, y, rfl⟩ := h
  exact ⟨b :: x, y, rfl⟩

private theorem hadErrors_of_le {threshold : Int} {l : List Bool} (h : threshold.toNat ≤ Spec.errorsInARow l) :
    Spec.HadErrors threshold l := by
  obtain ⟨y, hy⟩ := run_of_errors l _ h
  exact ⟨[], y, by simpa using hy⟩

private structure Inv5 (threshold : Int) (s : St T) : Prop where
  dis : ∀ t, disab (s.pc t) = true → 0 < threshold ∧ (threshold < 4294967296 → Spec.HadErrors threshold s.counted)
  down : s.avail = some false → (∀ t, destroying (s.pc t) = false) → s.destroyed = false →
    0 < threshold ∧ (threshold < 4294967296 → Spec.HadErrors threshold s.counted)

private theorem inv5 {threshold : Int} {c : T} {s : St T} (h : Reach threshold c s) : Inv5 threshold s := by
  induction h with
  | init => constructor <;> simp only [init] <;> grind [disab, destroying]
  | @step s t s' hr hs ih =>
    obtain ⟨h1, h2⟩ := ih
    have hcons : ∀ b, Spec.HadErrors threshold s.counted → Spec.HadErrors threshold (b :: s.counted) :=
      fun b h => hadErrors_cons b h
    have hcount := errors_count hr
    have hk : ∀ p, s.pc t = p → disab (s.pc t) = disab p ∧ destroying (s.pc t) = destroying p :=
      fun p h => ⟨by rw [h], by rw [h]⟩
    have hg : ∀ y p, s.pc y = p → disab (s.pc y) = disab p ∧ destroying (s.pc y) = destroying p :=
      fun y p h => ⟨by rw [h], by rw [h]⟩
    cases hs with
    | err h0 h3 =>
      have hk := hk _ h0
      generalize hp : (if s.errors + 1 ≥ UInt32.ofNat threshold.toNat then PC.disabling else PC.idle) = p
      have hp' : p = .disabling ∨ p = .idle := by subst hp; split <;> simp
      have hth : p = .disabling → threshold < 4294967296 → Spec.HadErrors threshold (false :: s.counted) := by
        intro hd hlt
        have := (reaches_threshold hcount hlt).1 (by subst hp; revert hd; split <;> simp_all)
        exact hadErrors_of_le (Nat.le_trans this (Nat.mod_le _ _))
      clear hcount
      rcases hp' with rfl | rfl
      · constructor <;> (try simp only [disab_move, destroying_move]) <;> grind [disab, destroying]
      · constructor <;> (try simp only [disab_move, destroying_move]) <;> grind [disab, destroying]
    | kaTick h0 h3 =>
      have hk := hk _ h0
      cases hch : s.channels with
      | true => simp only [if_true]; constructor <;> (try simp only [disab_move, destroying_move]) <;> grind [disab, destroying]
      | false => simp only [Bool.false_eq_true, if_false]; constructor <;> (try simp only [disab_move, destroying_move]) <;> grind [disab, destroying]
    | conFail h0 =>
      rcases h0 with h0 | h0
      · have hk := hk _ h0
        constructor <;> (try simp only [disab_move, destroying_move]) <;> grind [disab, destroying]
      · have hk := hk _ h0
        constructor <;> (try simp only [disab_move, destroying_move]) <;> grind [disab, destroying]
    | conOk h0 =>
      rcases h0 with h0 | h0
      · have hk := hk _ h0
        constructor <;> (try simp only [disab_move, destroying_move]) <;> grind [disab, destroying]
      · have hk := hk _ h0
        constructor <;> (try simp only [disab_move, destroying_move]) <;> grind [disab, destroying]
    | spawn h0 h3 h4 =>
      rename_i g
      have hk := hk _ h0
      have hg := hg _ _ h3
      constructor <;> (try simp only [disab_move, destroying_move]) <;> grind [disab, destroying]
    | _ =>
      have hk := hk _ (by assumption)
      constructor <;> (try simp only [disab_move, destroying_move]) <;> grind [disab, destroying]

private theorem keeping_iff (p : PC) : keeping p = true ↔ Spec.KeepingAlive p := by
  cases p <;> simp [keeping, Spec.KeepingAlive]

private theorem pending_iff (p : PC) : pending p = true ↔ Spec.Pending p := by
  cases p <;> simp [pending, Spec.Pending]

private theorem not_begun {s : St T} (h : ¬ Spec.DestroyBegun s) :
    s.destroyed = false ∧ ∀ t, destroying (s.pc t) = false := by
  constructor
  · cases hd : s.destroyed with
    | false => rfl
    | true => exact absurd (Or.inl hd) h
  · intro t
    cases hp : s.pc t with
    | dAvail => exact absurd (Or.inr ⟨t, .inl hp⟩) h
    | dSend => exact absurd (Or.inr ⟨t, .inr hp⟩) h
    | _ => rfl

/-- C32: at most one goroutine at a time runs a keepalive loop. -/
theorem keepalive_single {threshold : Int} {c : T} {s : St T} (h : Reach threshold c s) (a b : T)
    (ha : Spec.KeepingAlive (s.pc a)) (hb : Spec.KeepingAlive (s.pc b)) : a = b :=
  (inv1 h).one a b ((keeping_iff _).2 ha) ((keeping_iff _).2 hb)

/-- C32: once `Destroy` has set its flag, no goroutine enters a keepalive loop. -/
theorem keepalive_not_started_after_destroy {threshold : Int} {s s' : St T} {t : T} (hs : Step threshold s t s')
    (hd : s.destroyed = true) (g : T) (hg : Spec.KeepingAlive (s'.pc g)) : Spec.KeepingAlive (s.pc g) := by
  rw [← keeping_iff] at hg ⊢
  have hk : ∀ p, s.pc t = p → keeping (s.pc t) = keeping p := fun p h => by rw [h]
  cases hs with
  | err h0 h3 =>
    generalize hp : (if s.errors + 1 ≥ UInt32.ofNat threshold.toNat then PC.disabling else PC.idle) = p at hg
    have hp' : keeping p = false := by subst hp; split <;> rfl
    simp only [keeping_move, hp'] at hg; grind [keeping]
  | kaTick h0 h3 =>
    have := hk _ h0
    simp only [keeping_move] at hg; grind [keeping]
  | conFail h0 => simp only [keeping_move] at hg; grind [keeping]
  | conOk h0 => simp only [keeping_move] at hg; grind [keeping]
  | spawn h0 h3 h4 => simp only [keeping_move] at hg; grind [keeping]
  | kaStart h0 h1 h2 h3 => rw [hd] at h2; cases h2
  | _ =>
    have := hk _ (by assumption)
    try simp only [keeping_move] at hg
    grind [keeping]

private theorem up_succeeded {threshold : Int} {c : T} {s : St T} (h : Reach threshold c s) (g : T)
    (hp : s.pc g = .conUp ∨ s.pc g = .kaUp) : s.succeeded g = true := by
  induction h with
  | init => simp only [init] at hp; split at hp <;> simp at hp
  | @step s t s' hr hs ih =>
    cases hs with
    | err h3 h4 =>
      simp only [move] at hp
      split at hp
      · split at hp <;> simp at hp
      · exact ih hp
    | kaTick h3 h4 =>
      simp only [move] at hp
      split at hp
      · split at hp <;> simp at hp
      · exact ih hp
    | spawn h3 h4 h5 =>
      simp only [move] at hp
      split at hp
      · simp at hp
      · split at hp
        · simp at hp
        · exact ih hp
    | conOk | beatOk | conFail | beatFail =>
      simp only [move, note] at hp ⊢
      split at hp
      · first | (simp at hp; done) | (rw [if_pos (by assumption)])
      · rw [if_neg (by assumption)]; exact ih hp
    | _ =>
      first
      | exact ih hp
      | (simp only [move] at hp
         split at hp
         · simp at hp
         · exact ih hp)

/-- C32: an endpoint becomes available only in a goroutine whose last connection attempt or heartbeat succeeded. -/
theorem available_only_after_success {threshold : Int} {c : T} {s s' : St T} {t : T} (h : Reach threshold c s)
    (hs : Step threshold s t s') (h0 : isAvailable s = false) (h1 : isAvailable s' = true) :
    (s.pc t = .conUp ∨ s.pc t = .kaUp) ∧ s.succeeded t = true := by
  have key : s.pc t = .conUp ∨ s.pc t = .kaUp := by
    cases hs with
    | conUp h => exact .inl h
    | up h => exact .inr h
    | disable | destroyAvail => cases h1
    | _ =>
      have h2 : isAvailable s = true := h1
      rw [h2] at h0; cases h0
  exact ⟨key, up_succeeded h t key⟩

/-- C32: the goroutine whose connection attempt or heartbeat succeeded does nothing but make the endpoint available. -/
theorem success_makes_available {threshold : Int} {s s' : St T} {t : T} (hs : Step threshold s t s')
    (h0 : s.pc t = .conUp ∨ s.pc t = .kaUp) : isAvailable s' = true := by
  cases hs with
  | conUp | up => rfl
  | conFail h | conOk h => rcases h0 with h0 | h0 <;> rcases h with h | h <;> rw [h0] at h <;> cases h
  | _ => first | (rcases h0 with h0 | h0 <;> simp_all; done)

/-- C32: a goroutine comes to have a success only by a connection attempt or a heartbeat of its own. -/
theorem success_only_by_attempt {threshold : Int} {s s' : St T} {t : T} (hs : Step threshold s t s') (g : T)
    (h0 : s'.pc g = .conUp ∨ s'.pc g = .kaUp) (h1 : ¬ (s.pc g = .conUp ∨ s.pc g = .kaUp)) :
    g = t ∧ ((s.pc t = .conFirst ∨ s.pc t = .conTrying) ∨ s.pc t = .kaBeat) := by
  cases hs with
  | err h3 h4 =>
    simp only [move] at h0
    split at h0
    · split at h0 <;> simp at h0
    · exact absurd h0 h1
  | kaTick h3 h4 =>
    simp only [move] at h0
    split at h0
    · split at h0 <;> simp at h0
    · exact absurd h0 h1
  | spawn h3 h4 h5 =>
    simp only [move] at h0
    split at h0
    · simp at h0
    · split at h0
      · simp at h0
      · exact absurd h0 h1
  | _ =>
    first
    | exact absurd h0 h1
    | (simp only [move] at h0
       split at h0
       · rename_i hgt
         first
         | (simp at h0; done)
         | exact ⟨hgt, by first | exact .inr (by assumption) | exact .inl (by assumption)⟩
       · exact absurd h0 h1)

/-- C32: while `Destroy` has not been called, an endpoint that was made unavailable had a positive threshold and that many
errors in a row. -/
theorem unavailable_only_after_errors {threshold : Int} {c : T} {s : St T} (h : Reach threshold c s)
    (ht : threshold < 4294967296) (hd : ¬ Spec.DestroyBegun s) (hu : s.avail = some false) :
    0 < threshold ∧ Spec.HadErrors threshold s.counted := by
  obtain ⟨h1, h2⟩ := not_begun hd
  obtain ⟨h3, h4⟩ := (inv5 h).down hu h2 h1
  exact ⟨h3, h4 ht⟩

/-- C32: without a positive threshold only `Destroy` makes an endpoint unavailable. -/
theorem no_threshold_no_disabling {threshold : Int} {c : T} {s : St T} (h : Reach threshold c s) (ht : threshold ≤ 0)
    (hd : ¬ Spec.DestroyBegun s) : s.avail ≠ some false := by
  intro hu
  obtain ⟨h1, h2⟩ := not_begun hd
  have := ((inv5 h).down hu h2 h1).1
  omega

/-- C32: an error is followed by making the endpoint unavailable exactly when it completes `threshold` errors in a row. -/
theorem errors_disable_exactly_at_threshold {threshold : Int} {c : T} {s s' : St T} {t : T} (h : Reach threshold c s)
    (hs : Step threshold s t s') (hc : s'.counted = false :: s.counted)
    (ht : threshold < 4294967296) (hn : Spec.errorsInARow s'.counted < 4294967296) :
    (threshold.toNat ≤ Spec.errorsInARow s'.counted → s'.pc t = .disabling) ∧
    (Spec.errorsInARow s'.counted < threshold.toNat → s'.pc t = .idle) := by
  have hcount := errors_count h
  have hself : ∀ (p : List Bool) (b : Bool), p ≠ b :: p := by
    intro p b h; have := congrArg List.length h; simp at this
  cases hs with
  | err h3 h4 =>
    simp only [move, if_true] at hn ⊢
    have := reaches_threshold hcount ht
    rw [Nat.mod_eq_of_lt hn] at this
    constructor
    · intro hle; rw [if_pos (this.2 hle)]
    · intro hlt; rw [if_neg (fun hh => by have := this.1 hh; omega)]
  | success => cases hc
  | kaReset => cases hc
  | _ => exact absurd hc (hself _ _)

/-- C53: the goroutine that is about to make the endpoint unavailable does nothing else. -/
theorem disabling_makes_unavailable {threshold : Int} {s s' : St T} {t : T} (hs : Step threshold s t s')
    (h0 : s.pc t = .disabling) : isAvailable s' = false := by
  cases hs with
  | disable => rfl
  | conFail h | conOk h => rcases h with h | h <;> rw [h0] at h <;> cases h
  | _ => simp_all

/-- C53: while `Destroy` has not been called and no keepalive gave way to one that had already done its work, an endpoint
that is not available has a goroutine that is going to see to it. -/
theorem recovery_pending_partial {threshold : Int} {c : T} {s : St T} (h : Reach threshold c s) (hm : s.missed = false)
    (hd : ¬ Spec.DestroyBegun s) (hu : isAvailable s = false) : ∃ t, Spec.Pending (s.pc t) := by
  obtain ⟨h1, h2⟩ := not_begun hd
  obtain ⟨t, ht⟩ := (inv4 h).pend hm h1 h2 (by intro he; unfold isAvailable at hu; rw [he] at hu; cases hu)
  exact ⟨t, (pending_iff _).1 ht⟩

/-- C53, what `missed` says: a keepalive gave way to one that is marked as running although no goroutine waits for a tick, is in a
heartbeat or is about to make the endpoint available. -/
theorem keepalive_gave_way {threshold : Int} {s s' : St T} {t : T} (hs : Step threshold s t s') (h0 : s.missed = false) :
    s'.missed = true ↔ s.pc t = .kaBegin ∧ s.lock = none ∧ s.destroyed = false ∧ s.running = true ∧
      ∀ g, s.pc g ≠ .kaWait ∧ s.pc g ≠ .kaBeat ∧ s.pc g ≠ .kaUp := by
  have hl : ∀ p : PC, p.looping = true ↔ p = .kaWait ∨ p = .kaBeat ∨ p = .kaUp := by intro p; cases p <;> simp [PC.looping]
  cases hs with
  | kaOther b h1 h2 h3 h4 h5 =>
    simp only [h0, Bool.false_or, h1, h2, h3, h4, true_and]
    simp only [hl] at h5
    cases b <;> grind
  | conFail h | conOk h => rcases h with h | h <;> simp [h0, h]
  | _ => simp_all

/-- One more step, for the executions below. -/
private theorem next {threshold : Int} {c : T} {s s' : St T} (t : T) (h : Reach threshold c s) (hs : Step threshold s t s') :
    Reach threshold c s' := .step h hs

/-- An endpoint with threshold 1, connected by goroutine 0, after which goroutine 1 saw a failing call and goroutine 2 is in
a heartbeat. -/
private theorem beating : ∃ s : St (Fin 4), Reach 1 0 s ∧ s =
    { avail := some false, errors := 1, profile := false, running := true, destroyed := false, lock := none, token := false,
      channels := true, pc := fun t => if t = 2 then .kaBeat else .idle, counted := [false], succeeded := fun t => t = 0, missed := false } := by
  refine ⟨_, ?_, rfl⟩
  have r := Reach.init (threshold := 1) (c := (0 : Fin 4))
  have r := next 0 r (.conOk (.inl (by decide)))
  have r := next 0 r (.conUp (by decide))
  have r := next 1 r (.err (by decide) (by decide))
  have r := next 1 r (.disable (by decide))
  have r := next 1 r (.setType false (by decide))
  have r := next 1 r (.spawn (g := 2) (by decide) (by decide) (by decide))
  have r := next 2 r (.kaStart (by decide) rfl rfl rfl)
  have r := next 2 r (.kaTick (by decide) rfl)
  refine cast (congrArg _ ?_) r
  simp only [init, St.mk.injEq, true_and, and_true]
  refine ⟨by decide, ?_, ?_⟩ <;> funext t <;> revert t <;> decide

/-- C53, the defect behind `recovery_pending_partial`: an endpoint that nobody destroyed, connected, is unavailable, and no
goroutine is seeing to it. A call failed while a heartbeat was succeeding, and its keepalive gave way to the one that had
just finished. -/
theorem recovery_lost_counterexample : ∃ s : St (Fin 4), Reach 1 0 s ∧ ¬ Spec.DestroyBegun s ∧ s.channels = true ∧
    isAvailable s = false ∧ ∀ t, s.pc t = .idle := by
  obtain ⟨s, r, rfl⟩ := beating
  have r := next 1 r (.err (by decide) (by decide))
  have r := next 2 r (.beatOk (by decide))
  have r := next 2 r (.up (by decide))
  have r := next 1 r (.disable (by decide))
  have r := next 1 r (.setType false (by decide))
  have r := next 1 r (.spawn (g := 3) (by decide) (by decide) (by decide))
  have r := next 3 r (.kaOther false (by decide) rfl rfl rfl (by decide))
  have r := next 2 r (.kaReset (by decide))
  have r := next 2 r (.kaEnd (by decide) rfl)
  exact ⟨_, r, by unfold Spec.DestroyBegun; decide, rfl, rfl, by decide⟩

/-- C32, a defect: an endpoint that was destroyed while connecting becomes available afterwards and stays so, with no
goroutine running. -/
theorem available_after_destroy_counterexample : ∃ s : St (Fin 4), Reach 1 0 s ∧ s.destroyed = true ∧
    isAvailable s = true ∧ ∀ t, s.pc t = .idle := by
  have r := Reach.init (threshold := 1) (c := (0 : Fin 4))
  have r := next 0 r (.conFail (.inl (by decide)))
  have r := next 0 r (.conTick (by decide))
  have r := next 1 r (.destroyBegin (by decide) rfl rfl)
  have r := next 1 r (.destroyAvail (by decide))
  have r := next 1 r (.destroySend (by decide) rfl)
  have r := next 1 r (.destroyEnd (by decide))
  have r := next 0 r (.conOk (.inr (by decide)))
  have r := next 0 r (.conUp (by decide))
  exact ⟨_, r, rfl, rfl, by decide⟩

/-- C32, a defect: `Destroy` stops one goroutine only. When a keepalive is running while the endpoint is still connecting,
it may be the one that is stopped, and the other goes on trying for ever. -/
theorem connecting_after_destroy_counterexample : ∃ s : St (Fin 4), Reach 1 0 s ∧ s.destroyed = true ∧
    s.token = false ∧ s.pc 0 = .conRetry ∧ ∀ t, t ≠ 0 → s.pc t = .idle := by
  have r := Reach.init (threshold := 1) (c := (0 : Fin 4))
  have r := next 0 r (.conFail (.inl (by decide)))
  have r := next 1 r (.err (by decide) (by decide))
  have r := next 1 r (.disable (by decide))
  have r := next 1 r (.setType false (by decide))
  have r := next 1 r (.spawn (g := 2) (by decide) (by decide) (by decide))
  have r := next 2 r (.kaStart (by decide) rfl rfl rfl)
  have r := next 1 r (.destroyBegin (by decide) rfl rfl)
  have r := next 1 r (.destroyAvail (by decide))
  have r := next 1 r (.destroySend (by decide) rfl)
  have r := next 1 r (.destroyEnd (by decide))
  have r := next 2 r (.kaStop (by decide) rfl)
  have r := next 2 r (.kaEnd (by decide) rfl)
  exact ⟨_, r, rfl, rfl, by decide, by decide⟩

/-- The hypotheses are met: an endpoint that was disabled by errors, with a keepalive in a heartbeat. -/
example : ∃ s : St (Fin 4), Reach 1 0 s ∧ ¬ Spec.DestroyBegun s ∧ s.missed = false ∧ s.avail = some false ∧
    Spec.KeepingAlive (s.pc 2) := by
  obtain ⟨s, r, rfl⟩ := beating
  exact ⟨_, r, by unfold Spec.DestroyBegun; decide, rfl, rfl, .inr (.inl (by decide))⟩

/-- The hypotheses are met: a third error with threshold 3. -/
example : ∃ s s' : St (Fin 4), Reach 3 0 s ∧ Step 3 s 1 s' ∧ s'.counted = false :: s.counted ∧
    Spec.errorsInARow s'.counted = 3 := by
  have r := Reach.init (threshold := 3) (c := (0 : Fin 4))
  have r := next 0 r (.conOk (.inl (by decide)))
  have r := next 0 r (.conUp (by decide))
  have r := next 1 r (.err (by decide) (by decide))
  have r := next 1 r (.success (by decide))
  have r := next 1 r (.err (by decide) (by decide))
  have r := next 1 r (.err (by decide) (by decide))
  exact ⟨_, _, r, .err (by decide) (by decide), rfl, rfl⟩

end Motan.Props
