import Verif.Model.Trace

/-!
# C82: tracing requests

Every statement is about all schedules of requests, of requests to trace and of changes of the policy.
-/

namespace Motan.Props

open Motan.Trace

/-! ## What is traced -/

/-- The fixed policies: one wants nothing, one everything, one the requests whose draw is zero. -/
theorem trace_fixed (e : Ext) (n : Nat) :
    Policy.off.wants e n = false ∧ Policy.always.wants e n = true ∧ (Policy.random.wants e n = true ↔ n = 0) := by
  simp [Policy.wants]

/-- The custom policy wants a request exactly when it comes from an address that begins as asked, goes to the group and the
path asked for, and the draw is below the ratio, if the ratio is between 1 and 99. -/
theorem trace_wants (c : Custom) (e : Ext) (n : Nat) :
    c.wants e n = true ↔ c.addr <+: e.host ∧ (c.group = [] ∨ e.group = c.group) ∧ (c.path = [] ∨ e.path = c.path) ∧
      (1 ≤ c.ratio ∧ c.ratio ≤ 99 → (n : Int) < c.ratio) := by
  unfold Custom.wants
  have hp : Strings.hasPrefix e.host c.addr = false ↔ ¬ c.addr <+: e.host := by
    rw [Strings.hasPrefix, ← List.isPrefixOf_iff_prefix, Bool.not_eq_true]
  by_cases h1 : c.addr <+: e.host
  · rw [if_neg (fun h => hp.mp h.2 h1)]
    by_cases h2 : c.group = [] ∨ e.group = c.group
    · rw [if_neg (by rintro ⟨ha, hb⟩; rcases h2 with h | h <;> contradiction)]
      by_cases h3 : c.path = [] ∨ e.path = c.path
      · rw [if_neg (by rintro ⟨ha, hb⟩; rcases h3 with h | h <;> contradiction)]
        by_cases h4 : 0 < c.ratio ∧ c.ratio < 100 ∧ (n : Int) ≥ c.ratio
        · rw [if_pos h4]
          simp only [Bool.false_eq_true, false_iff, not_and]
          intro _ _ _ h; have := h (by omega); omega
        · rw [if_neg h4]
          simp only [true_iff]
          exact ⟨h1, h2, h3, by omega⟩
      · rw [if_pos (by constructor <;> intro h <;> apply h3 <;> simp_all)]
        simp only [Bool.false_eq_true, false_iff]
        exact fun h => h3 h.2.2.1
    · rw [if_pos (by constructor <;> intro h <;> apply h2 <;> simp_all)]
      simp only [Bool.false_eq_true, false_iff]
      exact fun h => h2 h.2.1
  · have : c.addr ≠ [] := by rintro e'; rw [e'] at h1; exact h1 (List.nil_prefix)
    rw [if_pos ⟨this, hp.mpr h1⟩]
    simp only [Bool.false_eq_true, false_iff]
    exact fun h => h1 h.1

example : ({ addr := b!"10.2.", group := b!"g", ratio := 30 } : Custom).wants ⟨b!"10.2.3.4", b!"g", b!"p"⟩ 29 = true ∧
    ({ addr := b!"10.2.", group := b!"g", ratio := 30 } : Custom).wants ⟨b!"10.2.3.4", b!"g", b!"p"⟩ 30 = false := by
  decide +kernel

theorem step_made {max : Nat} {s s' : St} {o : Op} (h : step max s o = some s') :
    s'.made = s.made ∨ ∃ t rid hd, o = .add t ∧ AMap.load s.calls t = some (.holds rid hd) ∧
      s'.made = s.made ++ [(s.made.length, rid)] := by
  cases o with
  | add t =>
    simp only [step] at h
    split at h
    · rename_i rid hd hl
      split at h <;> cases h
      · exact .inr ⟨t, rid, hd, rfl, hl, rfl⟩
      · exact .inl rfl
    · cases h
  | _ =>
    left
    simp only [step] at h
    (repeat' split at h) <;> cases h <;> (repeat' split) <;> rfl

/-- The requests that have asked a policy and were wanted by it. -/
def Spec.Wanted (max : Nat) (s0 : St) (ops : List Op) (rid : Nat) : Prop :=
  ∃ pre t e n post s, ops = pre ++ .ask t rid e n :: post ∧ play max s0 pre = some s ∧ s.policy.wants e n = true

theorem play_append (max : Nat) (s : St) (a b : List Op) :
    play max s (a ++ b) = (play max s a).bind fun s => play max s b := by
  induction a generalizing s with
  | nil => rfl
  | cons o a ih =>
    rw [List.cons_append, play, play]
    cases step max s o with
    | none => rfl
    | some s1 => exact ih s1

theorem wanted_snoc {max s0 ops o rid} (h : Spec.Wanted max s0 ops rid) : Spec.Wanted max s0 (ops ++ [o]) rid := by
  obtain ⟨pre, t, e, n, post, s, rfl, h1, h2⟩ := h
  exact ⟨pre, t, e, n, post ++ [o], s, by simp, h1, h2⟩

theorem trace_snoc {max : Nat} {s0 s' : St} {ops : List Op} {o : Op} (h : play max s0 (ops ++ [o]) = some s') :
    ∃ s, play max s0 ops = some s ∧ step max s o = some s' := by
  rw [play_append] at h
  cases hp : play max s0 ops with
  | none => rw [hp] at h; cases h
  | some s =>
    rw [hp] at h
    refine ⟨s, rfl, ?_⟩
    simp only [Option.bind_some, play] at h
    cases hst : step max s o with
    | none => rw [hst] at h; cases h
    | some s1 => rw [hst] at h; exact h

theorem snoc_induction {P : List Op → Prop} (h0 : P []) (h1 : ∀ ops o, P ops → P (ops ++ [o])) (ops : List Op) : P ops := by
  have : ∀ l : List Op, P l.reverse := by
    intro l
    induction l with
    | nil => exact h0
    | cons o l ih => rw [List.reverse_cons]; exact h1 _ _ ih
  simpa using this ops.reverse

/-- A context is made only for a request that the policy wanted. -/
theorem trace_only_wanted (max : Nat) (p : Policy) (ops : List Op) (s : St) (h : play max (init p) ops = some s) :
    ∀ c ∈ s.made, Spec.Wanted max (init p) ops c.2 := by
  have key : (∀ c ∈ s.made, Spec.Wanted max (init p) ops c.2) ∧
      ∀ t c, AMap.load s.calls t = some c →
        Spec.Wanted max (init p) ops (match c with | .asked r => r | .holds r _ => r) := by
    revert s
    induction ops using snoc_induction with
    | h0 =>
      intro s h
      cases h
      exact ⟨(by intro c hc; cases hc), (by intro t c hc; cases hc)⟩
    | h1 ops o ih =>
      intro s' h
      obtain ⟨s, hp, hs⟩ := trace_snoc h
      obtain ⟨ih1, ih2⟩ := ih s hp
      constructor
      · intro c hc
        rcases step_made hs with e | ⟨t, rid, hd, rfl, hl, e⟩
        · rw [e] at hc; exact wanted_snoc (ih1 c hc)
        · rw [e, List.mem_append] at hc
          rcases hc with hc | hc
          · exact wanted_snoc (ih1 c hc)
          · rw [List.mem_singleton] at hc
            subst hc
            exact wanted_snoc (ih2 t _ hl)
      · intro t c hc
        cases o with
        | ask t' rid e n =>
          simp only [step] at hs
          split at hs
          · cases hs
            split at hc
            · rename_i hw
              simp only [AMap.load_store] at hc
              split at hc
              · cases hc
                exact ⟨ops, t', e, n, [], s, rfl, hp, hw⟩
              · exact wanted_snoc (ih2 t c hc)
            · exact wanted_snoc (ih2 t c hc)
          · cases hs
        | load t' =>
          simp only [step] at hs
          split at hs
          · rename_i rid hl
            split at hs <;> cases hs <;> simp only [AMap.load_store] at hc <;> split at hc
            · cases hc; rename_i e; subst e; exact wanted_snoc (ih2 _ _ hl)
            · exact wanted_snoc (ih2 t c hc)
            · cases hc; rename_i e; subst e; exact wanted_snoc (ih2 _ _ hl)
            · exact wanted_snoc (ih2 t c hc)
          · cases hs
        | add t' =>
          simp only [step] at hs
          split at hs
          · split at hs <;> cases hs <;> simp only [AMap.load_erase] at hc <;> split at hc
            · cases hc
            · exact wanted_snoc (ih2 t c hc)
            · cases hc
            · exact wanted_snoc (ih2 t c hc)
          · cases hs
        | _ =>
          simp only [step] at hs
          (repeat' split at hs) <;> cases hs <;> exact wanted_snoc (ih2 t c hc)
  exact key.1

/-! ## What is recorded -/

/-- The contexts of the current holder. -/
def Spec.heldTraces (s : St) : List Ctx := s.holders.getLast?.getD []

theorem flatten_count_set {α : Type} [BEq α] (ls : List (List α)) (h : Nat) (hh : h < ls.length) (x : List α) (c : α) :
    (ls.set h x).flatten.count c + (ls[h]?.getD []).count c = ls.flatten.count c + x.count c := by
  induction ls generalizing h with
  | nil => cases hh
  | cons l ls ih =>
    cases h with
    | zero => simp [List.count_append]; omega
    | succ h =>
      have := ih h (by simpa using hh)
      simp only [List.set_cons_succ, List.flatten_cons, List.count_append, List.getElem?_cons_succ] at this ⊢
      omega

theorem last_set {α : Type} (ls : List (List α)) (h : Nat) (hh : h < ls.length) (x : List α) :
    (ls.set h x).getLast?.getD [] = if h + 1 = ls.length then x else ls.getLast?.getD [] := by
  rw [List.getLast?_eq_getElem?, List.getLast?_eq_getElem?, List.length_set, List.getElem?_set]
  by_cases e : h + 1 = ls.length
  · rw [if_pos e, if_pos (by omega), if_pos (by omega)]; rfl
  · rw [if_neg e, if_neg (by omega)]

structure TraceInv (max : Nat) (s : St) : Prop where
  nonempty : s.once = true → s.holders ≠ []
  fresh : s.once = false → s.made = [] ∧ (∀ t rid h, AMap.load s.calls t ≠ some (.holds rid h)) ∧ ∀ l ∈ s.holders, l = []
  inside : ∀ t rid h, AMap.load s.calls t = some (.holds rid h) → h < s.holders.length
  numbered : s.made.map Prod.fst = List.range s.made.length
  spread : ∀ c, s.holders.flatten.count c = s.made.count c
  sorted : ∀ l ∈ s.holders, (l.map Prod.fst).Pairwise (· < ·)
  bound : ∀ l ∈ s.holders, l.length ≤ max + 1
  once_taken : ∀ c, s.taken.flatten.count c + (Spec.heldTraces s).count c ≤ s.holders.flatten.count c
  takenSorted : ∀ l ∈ s.taken, (l.map Prod.fst).Pairwise (· < ·)
  takenBound : ∀ l ∈ s.taken, l.length ≤ max + 1

theorem traceInv_init (max : Nat) (p : Policy) : TraceInv max (init p) where
  nonempty := by intro h; cases h
  fresh := fun _ => ⟨rfl, (by intro t rid h e; cases e), (by intro l hl; cases hl)⟩
  inside := by intro t rid h e; cases e
  numbered := rfl
  spread := fun _ => rfl
  sorted := by intro l hl; cases hl
  bound := by intro l hl; cases hl
  once_taken := fun _ => Nat.le_refl _
  takenSorted := by intro l hl; cases hl
  takenBound := by intro l hl; cases hl

theorem current_mem {s : St} (h : s.holders ≠ []) : Spec.heldTraces s ∈ s.holders := by
  rw [Spec.heldTraces, List.getLast?_eq_some_getLast h]
  exact List.getLast_mem h

theorem current_snoc (l : List (List Ctx)) (x : List Ctx) : (l ++ [x]).getLast?.getD [] = x := by simp

theorem traceInv_step {max : Nat} {s s' : St} {o : Op} (hi : TraceInv max s) (h : step max s o = some s') : TraceInv max s' := by
  cases o with
  | start i c =>
    simp only [step] at h
    split at h <;> cases h
    exact { hi with }
  | restore i =>
    simp only [step] at h
    split at h <;> cases h
    exact { hi with }
  | set p => cases h; exact { hi with }
  | ask t rid e n =>
    simp only [step] at h
    split at h
    · rename_i hnone
      cases h
      split
      · have hc : ∀ t' rid' h', AMap.load (AMap.store s.calls t (.asked rid)) t' = some (.holds rid' h') →
            AMap.load s.calls t' = some (.holds rid' h') := by
          intro t' rid' h' hl
          rw [AMap.load_store] at hl
          split at hl
          · cases hl
          · exact hl
        exact { hi with
          fresh := fun ho => ⟨(hi.fresh ho).1, fun t' rid' h' hl => (hi.fresh ho).2.1 t' rid' h' (hc _ _ _ hl), (hi.fresh ho).2.2⟩
          inside := fun t' rid' h' hl => hi.inside t' rid' h' (hc _ _ _ hl) }
      · exact hi
    · cases h
  | collect i =>
    simp only [step] at h
    split at h
    · cases h
      have hlast : ∀ l ∈ s.taken ++ [s.holders.getLast?.getD []], l ∈ s.taken ∨ l = [] ∨ l ∈ s.holders := by
        intro l hl
        rcases List.mem_append.mp hl with hl | hl
        · exact .inl hl
        · rw [List.mem_singleton] at hl
          by_cases hne : s.holders = []
          · rw [hne] at hl; exact .inr (.inl hl)
          · rw [hl]; exact .inr (.inr (current_mem hne))
      refine ⟨fun _ => by simp, fun ho => ?_, ?_, hi.numbered, ?_, ?_, ?_, ?_, ?_, ?_⟩
      · obtain ⟨h1, h2, h3⟩ := hi.fresh ho
        refine ⟨h1, h2, fun l hl => ?_⟩
        rcases List.mem_append.mp hl with hl | hl
        · exact h3 l hl
        · simpa using hl
      · intro t rid h hl
        have := hi.inside t rid h hl
        simp only [List.length_append, List.length_singleton]; omega
      · intro c; rw [← hi.spread c]; simp
      · intro l hl
        rcases List.mem_append.mp hl with hl | hl
        · exact hi.sorted l hl
        · rw [List.mem_singleton.mp hl]; exact .nil
      · intro l hl
        rcases List.mem_append.mp hl with hl | hl
        · exact hi.bound l hl
        · rw [List.mem_singleton.mp hl]; exact Nat.zero_le _
      · intro c
        have := hi.once_taken c
        simp only [Spec.heldTraces, current_snoc] at this ⊢
        simp only [List.flatten_append, List.count_append, List.flatten_cons, List.flatten_nil, List.append_nil, List.count_nil]
        omega
      · intro l hl
        rcases hlast l hl with hl | rfl | hl
        · exact hi.takenSorted l hl
        · exact .nil
        · exact hi.sorted l hl
      · intro l hl
        rcases hlast l hl with hl | rfl | hl
        · exact hi.takenBound l hl
        · exact Nat.zero_le _
        · exact hi.bound l hl
    · cases h
  | load t =>
    simp only [step] at h
    split at h
    · rename_i rid hl
      split at h
      · rename_i ho
        cases h
        have hne := hi.nonempty ho
        exact { hi with
          fresh := fun h => by rw [show s.once = true from ho] at h; cases h
          inside := fun t' rid' h' hl' => by
            simp only [AMap.load_store] at hl'
            split at hl'
            · cases hl'
              have := List.length_pos_iff.mpr hne
              show s.holders.length - 1 < s.holders.length
              omega
            · exact hi.inside t' rid' h' hl' }
      · rename_i ho
        cases h
        obtain ⟨h1, h2, h3⟩ := hi.fresh (by simpa using ho)
        have hcur : Spec.heldTraces s = [] := by
          by_cases hne : s.holders = []
          · rw [Spec.heldTraces, hne]; rfl
          · exact h3 _ (current_mem hne)
        refine ⟨fun _ => by simp, (fun h => by cases h), ?_, hi.numbered, ?_, ?_, ?_, ?_, hi.takenSorted, hi.takenBound⟩
        · intro t' rid' h' hl'
          simp only [AMap.load_store] at hl'
          simp only [List.length_append, List.length_singleton]
          split at hl'
          · cases hl'; omega
          · have := hi.inside t' rid' h' hl'; omega
        · intro c; rw [← hi.spread c]; simp
        · intro l hl
          rcases List.mem_append.mp hl with hl | hl
          · exact hi.sorted l hl
          · rw [List.mem_singleton.mp hl]; exact .nil
        · intro l hl
          rcases List.mem_append.mp hl with hl | hl
          · exact hi.bound l hl
          · rw [List.mem_singleton.mp hl]; exact Nat.zero_le _
        · intro c
          have := hi.once_taken c
          simp only [Spec.heldTraces, current_snoc] at this ⊢
          simp only [List.flatten_append, List.count_append, List.flatten_cons, List.flatten_nil, List.append_nil, List.count_nil]
          omega
    · cases h
  | add t =>
    simp only [step] at h
    split at h
    · rename_i rid hd hl
      have hin := hi.inside t rid hd hl
      have hce : ∀ t' rid' h', AMap.load (AMap.erase s.calls t) t' = some (.holds rid' h') →
          AMap.load s.calls t' = some (.holds rid' h') := by
        intro t' rid' h' hl'
        rw [AMap.load_erase] at hl'
        split at hl'
        · cases hl'
        · exact hl'
      have honce : s.once = true := by
        cases ho : s.once with
        | true => rfl
        | false => exact absurd hl ((hi.fresh ho).2.1 t rid hd)
      split at h
      · rename_i hlen
        cases h
        have hmem : s.holders[hd]?.getD [] ∈ s.holders := by
          rw [List.getElem?_eq_getElem hin]; exact List.getElem_mem hin
        have hset : ∀ l ∈ s.holders.set hd (s.holders[hd]?.getD [] ++ [(s.made.length, rid)]),
            l ∈ s.holders ∨ l = s.holders[hd]?.getD [] ++ [(s.made.length, rid)] := by
          intro l hl'
          exact List.mem_or_eq_of_mem_set hl'
        refine ⟨fun _ => ?_, fun h => ?_, ?_, ?_, ?_, ?_, ?_, ?_, hi.takenSorted, hi.takenBound⟩
        · intro e
          have : (s.holders.set hd (s.holders[hd]?.getD [] ++ [(s.made.length, rid)])).length = 0 := by
            have e : s.holders.set hd (s.holders[hd]?.getD [] ++ [(s.made.length, rid)]) = [] := e
            rw [e]; rfl
          rw [List.length_set] at this
          omega
        · rw [show s.once = true from honce] at h; cases h
        · intro t' rid' h' hl'
          simp only [List.length_set]
          exact hi.inside t' rid' h' (hce _ _ _ hl')
        · simp only [List.map_append, List.map_cons, List.map_nil, List.length_append, List.length_singleton, hi.numbered,
            List.range_succ]
        · intro c
          have := flatten_count_set s.holders hd hin (s.holders[hd]?.getD [] ++ [(s.made.length, rid)]) c
          have hs := hi.spread c
          simp only [List.count_append] at this ⊢
          omega
        · intro l hl'
          rcases hset l hl' with hl' | rfl
          · exact hi.sorted l hl'
          · rw [List.map_append, List.pairwise_append]
            refine ⟨hi.sorted _ hmem, by simp, ?_⟩
            intro a ha b hb
            simp only [List.map_cons, List.map_nil, List.mem_singleton] at hb
            subst hb
            obtain ⟨x, hx, rfl⟩ := List.mem_map.mp ha
            have h1 : x ∈ s.holders.flatten := List.mem_flatten.mpr ⟨_, hmem, hx⟩
            have h2 : 0 < s.made.count x := by
              rw [← hi.spread x]; exact List.count_pos_iff.mpr h1
            have h3 : x.1 ∈ s.made.map Prod.fst := List.mem_map.mpr ⟨x, List.count_pos_iff.mp h2, rfl⟩
            rw [hi.numbered] at h3
            exact List.mem_range.mp h3
        · intro l hl'
          rcases hset l hl' with hl' | rfl
          · exact hi.bound l hl'
          · rw [List.length_append]; simp only [List.length_singleton]; omega
        · intro c
          have := flatten_count_set s.holders hd hin (s.holders[hd]?.getD [] ++ [(s.made.length, rid)]) c
          have ho := hi.once_taken c
          simp only [Spec.heldTraces] at ho ⊢
          rw [last_set _ _ hin]
          simp only [List.count_append] at this ⊢
          by_cases e : hd + 1 = s.holders.length
          · rw [if_pos e]
            have hcur : s.holders.getLast?.getD [] = s.holders[hd]?.getD [] := by
              rw [List.getLast?_eq_getElem?, ← e]; rfl
            rw [hcur] at ho
            simp only [List.count_append]
            omega
          · rw [if_neg e]; omega
      · cases h
        exact { hi with
          fresh := fun h => by rw [show s.once = true from honce] at h; cases h
          inside := fun t' rid' h' hl' => hi.inside t' rid' h' (hce _ _ _ hl') }
    · cases h

theorem traceInv_play {max : Nat} {s s' : St} {ops : List Op} (hi : TraceInv max s) (h : play max s ops = some s') :
    TraceInv max s' := by
  induction ops generalizing s with
  | nil => cases h; exact hi
  | cons o ops ih =>
    rw [play] at h
    cases hs : step max s o with
    | none => rw [hs] at h; cases h
    | some s1 => rw [hs] at h; exact ih (traceInv_step hi hs) h

theorem made_nodup {max : Nat} {s : St} (hi : TraceInv max s) : s.made.Nodup := by
  have : (s.made.map Prod.fst).Nodup := by rw [hi.numbered]; exact List.nodup_range
  exact List.Pairwise.of_map Prod.fst (fun a b h e => h (by rw [e])) this

/-- Every context taken was made, and no context is taken twice; a list taken is in the order of making. -/
theorem trace_taken_once (max : Nat) (p : Policy) (ops : List Op) (s : St) (h : play max (init p) ops = some s) :
    s.taken.flatten.Nodup ∧ (∀ c ∈ s.taken.flatten, c ∈ s.made) ∧
    ∀ l ∈ s.taken, ∀ (i j : Nat) a b, i < j → l[i]? = some a → l[j]? = some b →
      ∃ x y : Nat, s.made[x]? = some a ∧ s.made[y]? = some b ∧ x < y := by
  have hi := traceInv_play (traceInv_init max p) h
  have hle : ∀ c, s.taken.flatten.count c ≤ s.made.count c := fun c => by
    have := hi.once_taken c; have := hi.spread c; omega
  have hmade : ∀ c ∈ s.taken.flatten, c ∈ s.made := fun c hc =>
    List.count_pos_iff.mp (Nat.lt_of_lt_of_le (List.count_pos_iff.mpr hc) (hle c))
  refine ⟨?_, hmade, ?_⟩
  · rw [List.nodup_iff_count]
    intro c
    exact Nat.le_trans (hle c) (List.nodup_iff_count.mp (made_nodup hi) c)
  · intro l hl i j a b hij ha hb
    have hs := hi.takenSorted l hl
    have hat : ∀ (c : Ctx), c ∈ s.made → s.made[c.1]? = some c := by
      intro c hc
      obtain ⟨k, hk, rfl⟩ := List.getElem_of_mem hc
      have : (s.made.map Prod.fst)[k]? = some k := by
        rw [hi.numbered, List.getElem?_range hk]
      rw [List.getElem?_map, List.getElem?_eq_getElem hk] at this
      simp only [Option.map_some, Option.some.injEq] at this
      rw [this, List.getElem?_eq_getElem hk]
    have hma : a ∈ s.made := hmade a (List.mem_flatten.mpr ⟨l, hl, List.mem_of_getElem? ha⟩)
    have hmb : b ∈ s.made := hmade b (List.mem_flatten.mpr ⟨l, hl, List.mem_of_getElem? hb⟩)
    refine ⟨a.1, b.1, hat a hma, hat b hmb, ?_⟩
    obtain ⟨hi', rfl⟩ := List.getElem?_eq_some_iff.mp ha
    obtain ⟨hj', rfl⟩ := List.getElem?_eq_some_iff.mp hb
    have := List.pairwise_iff_getElem.mp hs i j (by simpa using hi') (by simpa using hj') hij
    simpa using this

/-- No list holds more than one context over the configured number. -/
theorem trace_bounded (max : Nat) (p : Policy) (ops : List Op) (s : St) (h : play max (init p) ops = some s) :
    (∀ l ∈ s.taken, l.length ≤ max + 1) ∧ (Spec.heldTraces s).length ≤ max + 1 := by
  have hi := traceInv_play (traceInv_init max p) h
  refine ⟨hi.takenBound, ?_⟩
  by_cases hne : s.holders = []
  · rw [Spec.heldTraces, hne]; exact Nat.zero_le _
  · exact hi.bound _ (current_mem hne)

/-- No request is between reading the holder and recording, whenever contexts are taken. -/
def Spec.calm (max : Nat) (s : St) : List Op → Prop
  | [] => True
  | o :: os => (∀ i, o = .collect i → ∀ t rid h, AMap.load s.calls t ≠ some (.holds rid h)) ∧
      ∀ s', step max s o = some s' → Spec.calm max s' os

structure CalmInv (s : St) : Prop where
  all : s.made = s.taken.flatten ++ Spec.heldTraces s
  here : ∀ t rid h, AMap.load s.calls t = some (.holds rid h) → h + 1 = s.holders.length

theorem calm_step {max : Nat} {s s' : St} {o : Op} (hi : TraceInv max s) (hc : CalmInv s)
    (hq : ∀ i, o = .collect i → ∀ t rid h, AMap.load s.calls t ≠ some (.holds rid h)) (h : step max s o = some s') :
    CalmInv s' := by
  cases o with
  | start i c =>
    simp only [step] at h
    split at h <;> cases h
    exact ⟨hc.all, hc.here⟩
  | restore i =>
    simp only [step] at h
    split at h <;> cases h
    exact ⟨hc.all, hc.here⟩
  | set p => cases h; exact ⟨hc.all, hc.here⟩
  | ask t rid e n =>
    simp only [step] at h
    split at h
    · cases h
      split
      · refine ⟨hc.all, fun t' rid' h' hl => hc.here t' rid' h' ?_⟩
        simp only [AMap.load_store] at hl
        split at hl
        · cases hl
        · exact hl
      · exact hc
    · cases h
  | collect i =>
    have hq := hq i rfl
    simp only [step] at h
    split at h
    · cases h
      refine ⟨?_, fun t rid h hl => absurd hl (hq t rid h)⟩
      simp only [Spec.heldTraces, current_snoc]
      rw [hc.all]
      simp [Spec.heldTraces]
    · cases h
  | load t =>
    simp only [step] at h
    split at h
    · rename_i rid hl
      split at h
      · rename_i ho
        cases h
        refine ⟨hc.all, fun t' rid' h' hl' => ?_⟩
        simp only [AMap.load_store] at hl'
        split at hl'
        · cases hl'
          have := List.length_pos_iff.mpr (hi.nonempty ho)
          show s.holders.length - 1 + 1 = s.holders.length
          omega
        · exact hc.here t' rid' h' hl'
      · rename_i ho
        cases h
        obtain ⟨h1, h2, h3⟩ := hi.fresh (by simpa using ho)
        have hcur : Spec.heldTraces s = [] := by
          by_cases hne : s.holders = []
          · rw [Spec.heldTraces, hne]; rfl
          · exact h3 _ (current_mem hne)
        refine ⟨?_, fun t' rid' h' hl' => ?_⟩
        · simp only [Spec.heldTraces, current_snoc]
          rw [hc.all, hcur]
        · simp only [AMap.load_store] at hl'
          split at hl'
          · cases hl'; simp
          · exact absurd hl' (h2 t' rid' h')
    · cases h
  | add t =>
    simp only [step] at h
    split at h
    · rename_i rid hd hl
      have hin := hi.inside t rid hd hl
      have hhere := hc.here t rid hd hl
      have hce : ∀ t' rid' h', AMap.load (AMap.erase s.calls t) t' = some (.holds rid' h') →
          AMap.load s.calls t' = some (.holds rid' h') := by
        intro t' rid' h' hl'
        rw [AMap.load_erase] at hl'
        split at hl'
        · cases hl'
        · exact hl'
      split at h
      · cases h
        refine ⟨?_, fun t' rid' h' hl' => ?_⟩
        · simp only [Spec.heldTraces]
          rw [last_set _ _ hin, if_pos hhere, hc.all]
          have hcur : Spec.heldTraces s = s.holders[hd]?.getD [] := by
            rw [Spec.heldTraces, List.getLast?_eq_getElem?, ← hhere]; rfl
          rw [hcur, List.append_assoc]
        · simp only [List.length_set]
          exact hc.here t' rid' h' (hce _ _ _ hl')
      · cases h
        exact ⟨hc.all, fun t' rid' h' hl' => hc.here t' rid' h' (hce _ _ _ hl')⟩
    · cases h

/-- If no request is just being recorded whenever contexts are taken, then the lists taken, one after the other, and what
is still held are exactly the contexts made, in the order of making. -/
theorem trace_complete (max : Nat) (p : Policy) (ops : List Op) (s : St) (h : play max (init p) ops = some s)
    (hq : Spec.calm max (init p) ops) : s.made = s.taken.flatten ++ Spec.heldTraces s := by
  have key : ∀ s0, TraceInv max s0 → CalmInv s0 → Spec.calm max s0 ops → play max s0 ops = some s → CalmInv s := by
    clear h hq
    induction ops with
    | nil => intro s0 _ hc _ h; cases h; exact hc
    | cons o ops ih =>
      intro s0 hi hc hq h
      rw [play] at h
      cases hs : step max s0 o with
      | none => rw [hs] at h; cases h
      | some s1 =>
        rw [hs] at h
        exact ih s1 (traceInv_step hi hs) (calm_step hi hc hq.1 hs) (hq.2 s1 hs) h
  exact (key (init p) (traceInv_init max p) ⟨rfl, by intro t rid h e; cases e⟩ hq h).all

/-- A request that the policy wants is recorded, at the end, unless there are already more contexts than configured. -/
theorem trace_recorded (max : Nat) (p : Policy) (ops : List Op) (s s' : St) (h : play max (init p) ops = some s)
    (t rid : Nat) (e : Ext) (n : Nat) (hw : s.policy.wants e n = true)
    (h3 : play max s [.ask t rid e n, .load t, .add t] = some s') :
    (if (Spec.heldTraces s).length ≤ max then ∃ k, Spec.heldTraces s' = Spec.heldTraces s ++ [(k, rid)] ∧ s'.made = s.made ++ [(k, rid)]
      else Spec.heldTraces s' = Spec.heldTraces s ∧ s'.made = s.made) := by
  have hi := traceInv_play (traceInv_init max p) h
  simp only [play, step] at h3
  cases hc : AMap.load s.calls t with
  | some c => rw [hc] at h3; cases h3
  | none =>
    simp only [hc, hw, if_true, Option.bind_some, AMap.load_store_self] at h3
    cases ho : s.once with
    | true =>
      have hne := List.length_pos_iff.mpr (hi.nonempty ho)
      have hcur : s.holders[s.holders.length - 1]?.getD [] = Spec.heldTraces s := by
        rw [Spec.heldTraces, List.getLast?_eq_getElem?]
      simp only [ho, if_true, Option.bind_some, AMap.load_store_self, hcur] at h3
      split at h3
      · rename_i hle
        cases h3
        rw [if_pos hle]
        refine ⟨s.made.length, ?_, rfl⟩
        rw [Spec.heldTraces]
        show (s.holders.set _ _).getLast?.getD [] = _
        rw [last_set _ _ (by omega), if_pos (by omega)]
      · rename_i hle
        cases h3
        rw [if_neg hle]
        exact ⟨rfl, rfl⟩
    | false =>
      obtain ⟨h1, h2, h4⟩ := hi.fresh ho
      have hcur : Spec.heldTraces s = [] := by
        by_cases hne : s.holders = []
        · rw [Spec.heldTraces, hne]; rfl
        · exact h4 _ (current_mem hne)
      have hlast : (s.holders ++ [[]])[s.holders.length]?.getD ([] : List Ctx) = [] := by simp
      simp only [ho, Bool.false_eq_true, if_false, Option.bind_some, AMap.load_store_self, hlast, List.length_nil, Nat.zero_le,
        if_true] at h3
      cases h3
      rw [hcur, if_pos (by simp)]
      refine ⟨s.made.length, ?_, rfl⟩
      rw [Spec.heldTraces]
      show ((s.holders ++ [[]]).set _ _).getLast?.getD [] = _
      rw [last_set _ _ (by simp), if_pos (by simp)]

/-! ## The policy -/

/-- Requests to trace that are properly nested: each one ends after those that began while it was waiting. Nobody else sets
the policy. -/
inductive Spec.Nested : List Op → Prop
  | nil : Spec.Nested []
  | other (o : Op) : (∀ i c, o ≠ .start i c) → (∀ i, o ≠ .restore i) → (∀ p, o ≠ .set p) → Spec.Nested [o]
  | bracket (i : Nat) (c : Custom) (inner : List Op) : Spec.Nested inner → Spec.Nested (.start i c :: inner ++ [.restore i])
  | append (a b : List Op) : Spec.Nested a → Spec.Nested b → Spec.Nested (a ++ b)

theorem play_two {max : Nat} {s s' : St} {a b : List Op} (h : play max s (a ++ b) = some s') :
    ∃ s1, play max s a = some s1 ∧ play max s1 b = some s' := by
  rw [play_append] at h
  cases ha : play max s a with
  | none => rw [ha] at h; cases h
  | some s1 => rw [ha] at h; exact ⟨s1, rfl, h⟩

theorem other_step {max : Nat} {s s' : St} {o : Op} (h1 : ∀ i c, o ≠ .start i c) (h2 : ∀ i, o ≠ .restore i)
    (h3 : ∀ p, o ≠ .set p) (h : step max s o = some s') :
    s'.policy = s.policy ∧ ∀ j old, AMap.load s.tracers j = some (.waiting old) →
      AMap.load s'.tracers j = some (.waiting old) := by
  cases o with
  | start i c => exact absurd rfl (h1 i c)
  | restore i => exact absurd rfl (h2 i)
  | set p => exact absurd rfl (h3 p)
  | collect i =>
    simp only [step] at h
    split at h
    · rename_i hl
      cases h
      refine ⟨rfl, fun j old hj => ?_⟩
      simp only [AMap.load_erase]
      rw [if_neg]
      · exact hj
      · rintro rfl; rw [hl] at hj; cases hj
    · cases h
  | ask t rid e n =>
    simp only [step] at h
    split at h
    · cases h
      split <;> exact ⟨rfl, fun j old hj => hj⟩
    · cases h
  | load t =>
    simp only [step] at h
    (repeat' split at h) <;> cases h <;> exact ⟨rfl, fun j old hj => hj⟩
  | add t =>
    simp only [step] at h
    (repeat' split at h) <;> cases h <;> exact ⟨rfl, fun j old hj => hj⟩

/-- Properly nested requests to trace leave the policy as it was, whatever else goes on. -/
theorem trace_restores (max : Nat) (s s' : St) (ops : List Op) (hn : Spec.Nested ops) (h : play max s ops = some s') :
    s'.policy = s.policy := by
  have key : s'.policy = s.policy ∧ ∀ j old, AMap.load s.tracers j = some (.waiting old) →
      AMap.load s'.tracers j = some (.waiting old) := by
    induction hn generalizing s s' with
    | nil => cases h; exact ⟨rfl, fun j old hj => hj⟩
    | other o h1 h2 h3 =>
      rw [play] at h
      cases hs : step max s o with
      | none => rw [hs] at h; cases h
      | some s1 =>
        rw [hs] at h
        cases h
        exact other_step h1 h2 h3 hs
    | append a b _ _ iha ihb =>
      obtain ⟨s1, ha, hb⟩ := play_two h
      obtain ⟨a1, a2⟩ := iha s s1 ha
      obtain ⟨b1, b2⟩ := ihb s1 s' hb
      exact ⟨b1.trans a1, fun j old hj => b2 j old (a2 j old hj)⟩
    | bracket i c inner _ ih =>
      rw [List.cons_append, play] at h
      cases hs : step max s (.start i c) with
      | none => rw [hs] at h; cases h
      | some s1 =>
        rw [hs] at h
        obtain ⟨s2, h2, h3⟩ := play_two h
        obtain ⟨i1, i2⟩ := ih s1 s2 h2
        simp only [step] at hs
        split at hs
        · rename_i hfree
          cases hs
          have hw := i2 i s.policy (AMap.load_store_self ..)
          simp only [play, step, hw, Option.bind_some] at h3
          cases h3
          refine ⟨rfl, fun j old hj => ?_⟩
          have hne : i ≠ j := by rintro rfl; rw [hfree] at hj; cases hj
          simp only [AMap.load_store_ne _ _ hne]
          exact i2 j old (by simp only [AMap.load_store_ne _ _ hne]; exact hj)
        · cases hs
  exact key.1

/-- While it waits, its own policy is in force. -/
theorem trace_in_force (max : Nat) (s s' : St) (i : Nat) (c : Custom) (ops : List Op) (hn : Spec.Nested ops)
    (h : play max s (.start i c :: ops) = some s') : s'.policy = .custom c := by
  rw [play] at h
  cases hs : step max s (.start i c) with
  | none => rw [hs] at h; cases h
  | some s1 =>
    rw [hs] at h
    rw [trace_restores max s1 s' ops hn h]
    simp only [step] at hs
    split at hs <;> cases hs
    rfl

example (c d : Custom) : Spec.Nested [.start 1 c, .ask 7 70 {} 0, .start 2 d, .restore 2, .collect 2, .load 7, .restore 1] :=
  .bracket 1 c [.ask 7 70 {} 0, .start 2 d, .restore 2, .collect 2, .load 7]
    (.append [.ask 7 70 {} 0] _ (.other _ (by simp) (by simp) (by simp))
      (.append [.start 2 d, .restore 2] [.collect 2, .load 7] (.bracket 2 d [] .nil)
        (.append [.collect 2] [.load 7] (.other _ (by simp) (by simp) (by simp)) (.other _ (by simp) (by simp) (by simp)))))

theorem trace_shows {max : Nat} {s : St} {ops : List Op} {f : St → Bool} (h : (play max s ops).any f = true) :
    ∃ s', play max s ops = some s' ∧ f s' = true := by
  cases hp : play max s ops with
  | none => rw [hp] at h; cases h
  | some s' => rw [hp] at h; exact ⟨s', rfl, h⟩

/-- Full claim (false): when no request to trace is waiting any more, the policy is the one from before. Two that overlap
leave the policy of the first in force for ever. -/
theorem trace_overlap_violated :
    ∃ s, play 10000 (init .off) [.start 1 { group := b!"a" }, .start 2 { group := b!"b" }, .restore 1, .collect 1,
        .restore 2, .collect 2] = some s ∧ s.tracers = [] ∧ s.policy = .custom { group := b!"a" } := by
  obtain ⟨s, h, hf⟩ := trace_shows (f := fun s => s.tracers = [] ∧ s.policy = .custom { group := b!"a" })
    (by decide +kernel : (play 10000 (init .off) [.start 1 { group := b!"a" }, .start 2 { group := b!"b" }, .restore 1,
      .collect 1, .restore 2, .collect 2]).any _ = true)
  exact ⟨s, h, by simpa using hf⟩

/-- Full claim (false): every context made is taken or still held. One that is recorded just when the contexts are taken
gets lost. -/
theorem trace_lost_violated :
    ∃ s, play 10000 (init .off) [.start 1 {}, .ask 7 70 {} 0, .load 7, .restore 1, .collect 1, .add 7] = some s ∧
      s.made = [(0, 70)] ∧ s.taken = [[]] ∧ Spec.heldTraces s = [] := by
  obtain ⟨s, h, hf⟩ := trace_shows (f := fun s => s.made = [(0, 70)] ∧ s.taken = [[]] ∧ s.holders.getLast?.getD [] = [])
    (by decide +kernel : (play 10000 (init .off) [.start 1 {}, .ask 7 70 {} 0, .load 7, .restore 1, .collect 1,
      .add 7]).any _ = true)
  exact ⟨s, h, by simpa [Spec.heldTraces] using hf⟩

/-- A schedule with two contexts in one list, in which nothing is lost. -/
example : ∃ s, play 10000 (init .off) [.start 1 {}, .ask 7 70 {} 0, .ask 8 80 {} 0, .load 8, .load 7, .add 7, .add 8,
    .restore 1, .collect 1] = some s ∧ s.taken = [[(0, 70), (1, 80)]] := by
  obtain ⟨s, h, hf⟩ := trace_shows (f := fun s => s.taken = [[(0, 70), (1, 80)]])
    (by decide +kernel : (play 10000 (init .off) [.start 1 {}, .ask 7 70 {} 0, .ask 8 80 {} 0, .load 8, .load 7, .add 7,
      .add 8, .restore 1, .collect 1]).any _ = true)
  exact ⟨s, h, by simpa using hf⟩

example : Spec.calm 10000 (init .always) [.ask 7 70 {} 0, .load 7, .add 7] := by
  refine ⟨by simp, fun s1 _ => ⟨by simp, fun s2 _ => ⟨by simp, fun _ _ => trivial⟩⟩⟩

/-! ## Durations -/

/-- The time the duration of a span of a request counts from: that of the latest span before with the same address, else of
the latest one without address. -/
def Spec.since (before : List Span) (x : Span) : Option Int :=
  match before.reverse.find? (fun y => y.addr = x.addr) with
  | some y => some y.time
  | none => (before.reverse.find? (fun y => y.addr = [])).map (·.time)

theorem req_go (before rest : List Span) (m : AMap Bytes Int) (last : Int)
    (hm : ∀ a, a ≠ [] → AMap.load m a = (before.reverse.find? (fun y => y.addr = a)).map (·.time))
    (hlast : match before.reverse.find? (fun y => y.addr = []) with
      | some y => last = y.time
      | none => last = 0)
    (hpos : ∀ y ∈ before ++ rest, 0 < y.time) (i : Nat) (x : Span) (hx : rest[i]? = some x) :
    (reqSpans m last rest)[i]? = some { x with
      duration := match Spec.since (before ++ rest.take i) x with | some t => x.time - t | none => 0 } := by
  induction rest generalizing before m last i with
  | nil => cases hx
  | cons z rest ih =>
    have hl2 : ∀ t : Int, (if last > 0 then t - last else 0) = match (before.reverse.find? (fun y => y.addr = [])).map (·.time) with
          | some u => t - u
          | none => 0 := by
      intro t
      cases hf : before.reverse.find? (fun y => y.addr = []) with
      | none =>
        have : last = 0 := by simpa only [hf] using hlast
        rw [this, if_neg (by omega)]
        rfl
      | some y =>
        have e : last = y.time := by simpa only [hf] using hlast
        have : 0 < y.time := hpos y (List.mem_append_left _ (List.mem_reverse.mp (List.mem_of_find?_eq_some hf)))
        rw [e, if_pos this]
        rfl
    cases i with
    | zero =>
      simp only [List.getElem?_cons_zero, Option.some.injEq] at hx
      subst hx
      rw [List.take_zero, List.append_nil, reqSpans, Spec.since]
      by_cases ha : z.addr = []
      · rw [if_pos ha, List.getElem?_cons_zero, hl2, ha]
        cases before.reverse.find? (fun y => y.addr = []) <;> rfl
      · rw [if_neg ha, List.getElem?_cons_zero, hm _ ha]
        cases before.reverse.find? (fun y => y.addr = z.addr) with
        | none => simp only [Option.map_none]; rw [hl2]
        | some y => rfl
    | succ i =>
      simp only [List.getElem?_cons_succ] at hx
      have happ : before ++ (z :: rest).take (i + 1) = (before ++ [z]) ++ rest.take i := by simp
      rw [happ]
      have hrev : (before ++ [z]).reverse = z :: before.reverse := by simp
      rw [reqSpans]
      by_cases ha : z.addr = []
      · rw [if_pos ha, List.getElem?_cons_succ]
        refine ih (before ++ [z]) m z.time ?_ ?_ (by simpa using hpos) i hx
        · intro a hne
          rw [hrev, List.find?_cons]
          have : decide (z.addr = a) = false := by simp [ha]; exact fun e => hne e
          rw [this]; exact hm a hne
        · rw [hrev, List.find?_cons]
          simp [ha]
      · rw [if_neg ha, List.getElem?_cons_succ]
        refine ih (before ++ [z]) (AMap.store m z.addr z.time) last ?_ ?_ (by simpa using hpos) i hx
        · intro a hne
          rw [hrev, List.find?_cons, AMap.load_store]
          by_cases e : z.addr = a
          · simp [e]
          · rw [if_neg e]; simp only [e, decide_false]; exact hm a hne
        · rw [hrev, List.find?_cons]
          simp only [ha, decide_false]
          exact hlast

/-- The duration of a span of a request counts from the latest span before at the same address, else from the latest one
without an address, else it is 0. Names, addresses and times stay. -/
theorem trace_request_spans (req res : List Span) (hpos : ∀ y ∈ req, 0 < y.time) (i : Nat) (x : Span) (hx : req[i]? = some x) :
    (formatTc req res).req[i]? = some { x with
      duration := match Spec.since (req.take i) x with | some t => x.time - t | none => 0 } := by
  have := req_go [] req [] 0 (by intro a _; rfl) rfl (by simpa using hpos) i x hx
  rw [List.nil_append] at this
  exact this

theorem res_go (last : Int) (rest : List Span) (hpos : ∀ y ∈ rest, 0 < y.time) (i : Nat) (x : Span) (hx : rest[i + 1]? = some x)
    (y : Span) (hy : rest[i]? = some y) :
    (resSpans last rest)[i + 1]? = some { x with duration := x.time - y.time } := by
  induction rest generalizing last i with
  | nil => cases hx
  | cons z rest ih =>
    cases i with
    | zero =>
      cases rest with
      | nil => cases hx
      | cons w rest =>
        simp only [List.getElem?_cons_zero, List.getElem?_cons_succ, Option.some.injEq] at hx hy
        subst hx; subst hy
        have : 0 < z.time := hpos z (List.mem_cons_self ..)
        simp only [resSpans, List.getElem?_cons_succ, List.getElem?_cons_zero]
        rw [if_pos this]
    | succ i =>
      simp only [List.getElem?_cons_succ] at hx hy ⊢
      rw [resSpans, List.getElem?_cons_succ]
      exact ih z.time (fun a ha => hpos a (List.mem_cons_of_mem _ ha)) i hx hy

/-- The duration of a span of a response counts from the span before; that of the first is 0. -/
theorem trace_response_spans (req res : List Span) (hpos : ∀ y ∈ res, 0 < y.time) (i : Nat) (x : Span) :
    (res[0]? = some x → (formatTc req res).res[0]? = some { x with duration := 0 }) ∧
    ∀ y, res[i]? = some y → res[i + 1]? = some x →
      (formatTc req res).res[i + 1]? = some { x with duration := x.time - y.time } := by
  constructor
  · intro hx
    cases res with
    | nil => cases hx
    | cons z rest =>
      simp only [List.getElem?_cons_zero, Option.some.injEq] at hx
      subst hx
      simp [formatTc, resSpans]
  · intro y hy hx
    exact res_go 0 res hpos i x hx y hy

theorem res_sum (a : Span) (rest : List Span) (hpos : ∀ y ∈ a :: rest, 0 < y.time) :
    ((resSpans a.time rest).map (·.duration)).sum = ((a :: rest).getLast (by simp)).time - a.time := by
  induction rest generalizing a with
  | nil => simp [resSpans]
  | cons b rest ih =>
    have h := ih b (fun y hy => hpos y (List.mem_cons_of_mem _ hy))
    have ha : 0 < a.time := hpos a (List.mem_cons_self ..)
    rw [resSpans, List.map_cons, List.sum_cons, h, List.getLast_cons (List.cons_ne_nil b rest)]
    simp only [ha, if_true]
    omega

/-- The total time is the time of the request, of the other side and of the response together, from the first span to the
last; the durations of the response add up to its time. The times are given exactly if there are spans of both kinds. -/
theorem trace_times (req res : List Span) (hpos : ∀ y ∈ res, 0 < y.time) :
    match (formatTc req res).times with
    | none => req = [] ∨ res = []
    | some t => ∃ q0 q1 s0 s1, req.head? = some q0 ∧ req.getLast? = some q1 ∧ res.head? = some s0 ∧ res.getLast? = some s1 ∧
        t.request + t.remote + t.response = t.total ∧ t.total = s1.time - q0.time ∧ t.request = q1.time - q0.time ∧
        t.response = ((formatTc req res).res.map (·.duration)).sum := by
  cases req with
  | nil => simp [formatTc]
  | cons q qs =>
    cases res with
    | nil => simp only [formatTc, List.head?_nil]; simp [List.getLast?_eq_some_getLast]
    | cons a rest =>
      have h := res_sum a rest hpos
      have hq := List.getLast?_eq_some_getLast (List.cons_ne_nil q qs)
      have ha := List.getLast?_eq_some_getLast (List.cons_ne_nil a rest)
      simp only [formatTc, List.head?_cons, hq, ha]
      refine ⟨q, _, a, _, rfl, rfl, rfl, rfl, ?_, rfl, rfl, ?_⟩
      · omega
      · rw [resSpans, List.map_cons, List.sum_cons, h]
        simp only [Int.lt_irrefl, gt_iff_lt, if_false]
        omega

example : (formatTc [⟨b!"receive", [], 100, 0⟩, ⟨b!"send", b!"10.0.0.1", 130, 0⟩] [⟨b!"receive", b!"10.0.0.1", 180, 0⟩,
    ⟨b!"encode", [], 190, 0⟩]).times = some ⟨30, 10, 50, 90⟩ := by decide +kernel

end Motan.Props
