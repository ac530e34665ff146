import Verif.Model.Serving

/-!
# C76: the serving status, the registries and the failback agree
-/

namespace Motan.Props

open Motan.Serving

/-! ## Specification -/

/-- The service `k` of the registry `r`. -/
def Spec.serviceAt (s : Serving.St) (r : Nat) (k : Bytes) : Option Entry := (s.regs[r]?).bind fun g => AMap.load g k

/-- Which command a status is about. -/
def Spec.about : Stat → Option Bool
  | .notRegister => none
  | .registered | .registerFailed => some true
  | .unregistered | .unregisterFailed => some false

/-- The last time all services were switched in a schedule. -/
def Spec.lastSwitch : List Serving.Op → Option Bool
  | [] => none
  | op :: ops =>
    match Spec.lastSwitch ops, op with
    | some b, _ => some b
    | none, .switchAll b _ => some b
    | none, _ => none

/-- Each call that switches all services ends (by changing the status) before the next begins. -/
def Spec.SwitchesApart : Bool → List Serving.Op → Prop
  | _, [] => True
  | busy, .switchAll _ _ :: ops => busy = false ∧ Spec.SwitchesApart true ops
  | _, .store _ :: ops => Spec.SwitchesApart false ops
  | busy, _ :: ops => Spec.SwitchesApart busy ops

/-- Nothing but the failback and single services coming and going; commands of the failback succeed. -/
def Spec.QuietOp : Serving.Op → Prop
  | .switchAll _ _ => False
  | .fbAct o => o = .ok
  | _ => True

/-- All services, as the page ranges over them. -/
def Spec.allServices (s : Serving.St) : List Entry := s.regs.flatMap fun g => g.map (·.2)

/-! ## Steps -/

theorem at_set {regs : List Registry} {r0 : Nat} {g : Registry} (r : Nat) (k : Bytes) (h : r0 < regs.length) :
    ((regs.set r0 g)[r]?).bind (fun g => AMap.load g k) = if r = r0 then AMap.load g k else (regs[r]?).bind fun g => AMap.load g k := by
  rw [List.getElem?_set]
  by_cases e : r0 = r
  · subst e; rw [if_pos rfl, if_pos rfl, if_pos h]; rfl
  · rw [if_neg e, if_neg (fun h => e h.symm)]

theorem load_map_command (g : Registry) (f : Bytes → Entry → Entry) (k : Bytes) :
    AMap.load (g.map fun x => (x.1, f x.1 x.2)) k = (AMap.load g k).map (f k) := by
  induction g with
  | nil => rfl
  | cons x g ih =>
    obtain ⟨k', v⟩ := x
    rw [List.map_cons, AMap.load_cons, AMap.load_cons, ih]
    by_cases e : k' = k
    · subst e; simp
    · simp [e]

theorem load_fresh (ks : List (Bytes × Bool)) (m : Registry) (k : Bytes) (e : Entry)
    (h : AMap.load (AMap.storeAll m (ks.map fun k => (k.1, { check := k.2 }))) k = some e) :
    AMap.load m k = some e ∨ e.stat = .notRegister ∧ e.listed = false := by
  induction ks generalizing m with
  | nil => exact .inl h
  | cons x ks ih =>
    rcases ih _ h with h' | h'
    · rw [AMap.load_store] at h'
      split at h'
      · injection h' with h'; subst h'; exact .inr ⟨rfl, rfl⟩
      · exact .inl h'
    · exact .inr h'

/-- What a step does to a service. -/
theorem serving_step {srv : Bool} {s s' : Serving.St} {op : Serving.Op} (h : step srv s op = some s') {r : Nat} {k : Bytes} {e' : Entry}
    (he : Spec.serviceAt s' r k = some e') :
    (Spec.serviceAt s r k = some e' ∧ (∀ b o, op ≠ .switchAll b o) ∧
      ∀ o f st rest cur, op = .fbAct o → s.failback = some f → f.entries = (k, st) :: rest → f.current = r → f.seen = some cur →
        repair cur st = none) ∨
    (e'.stat = .notRegister ∧ e'.listed = false ∧ (∀ b o, op ≠ .switchAll b o) ∧ ∀ o, op ≠ .fbAct o) ∨
    (∃ b o e, op = .switchAll b o ∧ Spec.serviceAt s r k = some e ∧ e' = command b (o r k) e) ∨
    (∃ o f st rest cur b e, op = .fbAct o ∧ s.failback = some f ∧ f.entries = (k, st) :: rest ∧ f.current = r ∧ f.seen = some cur ∧
      repair cur st = some b ∧ Spec.serviceAt s r k = some e ∧ e' = command b o e) := by
  cases op with
  | addRegistry ks =>
    simp only [step, Option.some.injEq] at h
    subst h
    simp only [Spec.serviceAt] at he ⊢
    rw [List.getElem?_append] at he
    split at he
    · exact .inl ⟨he, by simp, by simp⟩
    · rename_i hr
      cases hi : ([AMap.storeAll [] (ks.map fun k => (k.1, ({ check := k.2 } : Entry)))] : List Registry)[r - s.regs.length]? with
      | none => rw [hi] at he; cases he
      | some g =>
        rw [hi] at he
        have : g = AMap.storeAll [] (ks.map fun k => (k.1, ({ check := k.2 } : Entry))) := by
          have := List.mem_of_getElem? hi
          simpa using this
        subst this
        rcases load_fresh ks [] k e' he with h | h
        · cases h
        · exact .inr (.inl ⟨h.1, h.2, by simp, by simp⟩)
  | register r0 k0 c =>
    simp only [step] at h
    split at h
    · cases h
    · rename_i g hg
      injection h with h; subst h
      have hlt : r0 < s.regs.length := by
        rcases Nat.lt_or_ge r0 s.regs.length with h | h
        · exact h
        · rw [List.getElem?_eq_none h] at hg; cases hg
      simp only [Spec.serviceAt] at he ⊢
      rw [at_set r k hlt] at he
      split at he
      · rename_i e; subst e
        rw [AMap.load_store] at he
        split at he
        · injection he with he; subst he; exact .inr (.inl ⟨rfl, rfl, by simp, by simp⟩)
        · exact .inl ⟨by rw [hg]; exact he, by simp, by simp⟩
      · exact .inl ⟨he, by simp, by simp⟩
  | unregister r0 k0 =>
    simp only [step] at h
    split at h
    · cases h
    · rename_i g hg
      injection h with h; subst h
      have hlt : r0 < s.regs.length := by
        rcases Nat.lt_or_ge r0 s.regs.length with h | h
        · exact h
        · rw [List.getElem?_eq_none h] at hg; cases hg
      simp only [Spec.serviceAt] at he ⊢
      rw [at_set r k hlt] at he
      split at he
      · rename_i e; subst e
        rw [AMap.load_erase] at he
        split at he
        · cases he
        · exact .inl ⟨by rw [hg]; exact he, by simp, by simp⟩
      · exact .inl ⟨he, by simp, by simp⟩
  | switchAll b o =>
    simp only [step] at h
    split at h
    · cases h
    · have hr : s'.regs = s.regs.mapIdx fun r g => g.map fun x => (x.1, command b (o r x.1) x.2) := by
        split at h <;> (injection h with h; subst h; rfl)
      refine .inr (.inr (.inl ⟨b, o, ?_⟩))
      simp only [Spec.serviceAt, hr, List.getElem?_mapIdx] at he ⊢
      cases hg : s.regs[r]? with
      | none => rw [hg] at he; cases he
      | some g =>
        rw [hg] at he
        simp only [Option.map_some, Option.bind_some] at he ⊢
        rw [load_map_command g (fun k e => command b (o r k) e) k] at he
        cases hl : AMap.load g k with
        | none => rw [hl] at he; cases he
        | some e =>
          rw [hl] at he
          injection he with he
          exact ⟨e, trivial, rfl, he.symm⟩
  | store i =>
    simp only [step] at h
    split at h
    · cases h
    · injection h with h; subst h; exact .inl ⟨he, by simp, by simp⟩
  | fbStart order =>
    simp only [step] at h
    split at h
    · injection h with h; subst h; exact .inl ⟨he, by simp, by simp⟩
    · cases h
  | fbNext entries =>
    have : s'.regs = s.regs := by
      simp only [step] at h
      split at h
      · cases h
      · split at h
        · cases h
        · split at h
          · injection h with h; subst h; rfl
          · split at h
            · injection h with h; subst h; rfl
            · cases h
    exact .inl ⟨by rw [Spec.serviceAt, ← this]; exact he, by simp, by simp⟩
  | fbRead =>
    have : s'.regs = s.regs := by
      simp only [step] at h
      split at h
      · cases h
      · split at h
        · cases h
        · injection h with h; subst h; rfl
    exact .inl ⟨by rw [Spec.serviceAt, ← this]; exact he, by simp, by simp⟩
  | fbAct o =>
    simp only [step] at h
    split at h
    · cases h
    rename_i f hf
    split at h
    · rename_i k0 st rest cur hfe hfs
      injection h with h; subst h
      cases hrep : repair cur st with
      | none =>
        rw [hrep] at he
        refine .inl ⟨he, by simp, ?_⟩
        intro o' f' st' rest' cur' _ h1 h2 _ h4
        rw [hf] at h1; injection h1 with h1; subst h1
        rw [hfe] at h2; injection h2 with h2 _
        injection h2 with _ h2
        rw [hfs] at h4; injection h4 with h4
        rw [← h2, ← h4]; exact hrep
      | some b =>
        rw [hrep] at he
        simp only [Spec.serviceAt, List.getElem?_modify] at he ⊢
        by_cases hr : f.current = r
        · simp only [if_pos hr] at he
          cases hg : s.regs[r]? with
          | none => rw [hg] at he; cases he
          | some g =>
            rw [hg] at he
            simp only [Option.map_eq_map, Option.map_some, Option.bind_some] at he
            unfold commandOne at he
            cases hl : AMap.load g k0 with
            | none =>
              rw [hl] at he
              simp only at he
              refine .inl ⟨by simpa using he, by simp, ?_⟩
              intro o' f' st' rest' cur' _ h1 h2 _ h4
              rw [hf] at h1; injection h1 with h1; subst h1
              rw [hfe] at h2; injection h2 with h2 _
              injection h2 with h2 _
              rw [h2, he] at hl; cases hl
            | some e =>
              rw [hl] at he
              simp only at he
              rw [AMap.load_store] at he
              split at he
              · rename_i hk
                injection he with he
                refine .inr (.inr (.inr ⟨o, f, st, rest, cur, b, e, rfl, hf, by rw [hfe, hk], hr, hfs, hrep, ?_, he.symm⟩))
                rw [← hk]; simpa using hl
              · rename_i hk
                refine .inl ⟨by simpa using he, by simp, ?_⟩
                intro o' f' st' rest' cur' _ h1 h2 _ h4
                rw [hf] at h1; injection h1 with h1; subst h1
                rw [hfe] at h2; injection h2 with h2 _
                injection h2 with h2 _
                exact absurd h2 hk
        · simp only [if_neg hr] at he
          refine .inl ⟨by simpa using he, by simp, ?_⟩
          intro o' f' st' rest' cur' _ h1 _ h3 _
          rw [hf] at h1; injection h1 with h1; subst h1
          exact absurd h3 hr
    · cases h

/-! ## Invariant -/

/-- What holds while services come and go; `last`: the last switch. -/
structure ServingInv (last : Option Bool) (s : Serving.St) : Prop where
  nodup : ∀ g ∈ s.regs, AMap.NodupKeys g
  stat : ∀ r k e, Spec.serviceAt s r k = some e → e.stat = .notRegister ∨ (last.isSome ∧ Spec.about e.stat = last)
  listed : ∀ r k e, Spec.serviceAt s r k = some e →
    (e.stat = .registered → e.listed = true) ∧ (e.stat = .unregistered ∨ e.stat = .notRegister → e.listed = false)
  keys : ∀ f, s.failback = some f → (f.entries.map (·.1)).Nodup
  known : ∀ f, s.failback = some f → ∀ k st, (k, st) ∈ f.entries →
    (∀ e, Spec.serviceAt s f.current k = some e → e.stat = .notRegister ∨ e.stat = st) ∧
    (st = .notRegister ∨ (last.isSome ∧ Spec.about st = last))

/-- The last switch after one more step. -/
def Spec.lastAfter (last : Option Bool) : Serving.Op → Option Bool
  | .switchAll b _ => some b
  | _ => last

theorem repair_about {cur : Nat} {st : Stat} {b : Bool} (h : repair cur st = some b) : Spec.about st = some b := by
  unfold repair at h
  split at h
  · rename_i e; injection h with h; rw [e.2, ← h]; rfl
  · split at h
    · rename_i e; injection h with h; rw [e.2, ← h]; rfl
    · cases h

theorem command_about (b : Bool) (o : Outcome) (e : Entry) : Spec.about (command b o e).stat = some b := by
  cases b <;> cases o <;> rfl

theorem command_listed (b : Bool) (o : Outcome) (e : Entry) :
    ((command b o e).stat = .registered → (command b o e).listed = true) ∧
    ((command b o e).stat = .unregistered ∨ (command b o e).stat = .notRegister → (command b o e).listed = false) := by
  cases b <;> cases o <;> simp [command]

theorem command_ok (b : Bool) (e : Entry) : (command b .ok e).stat = if b then .registered else .unregistered := by
  cases b <;> rfl

theorem keys_command (g : Registry) (f : Bytes → Entry → Entry) :
    AMap.keys (g.map fun x => (x.1, f x.1 x.2)) = AMap.keys g := by
  simp [AMap.keys]

theorem nodup_commandOne {g : Registry} (h : AMap.NodupKeys g) (k : Bytes) (b : Bool) (o : Outcome) :
    AMap.NodupKeys (commandOne g k b o) := by
  unfold commandOne
  split
  · exact h
  · exact AMap.nodupKeys_store h _ _

theorem serving_nodup {srv : Bool} {s s' : Serving.St} {op : Serving.Op} (hn : ∀ g ∈ s.regs, AMap.NodupKeys g)
    (h : step srv s op = some s') : ∀ g ∈ s'.regs, AMap.NodupKeys g := by
  cases op with
  | addRegistry ks =>
    simp only [step, Option.some.injEq] at h
    subst h
    intro g hg
    rcases List.mem_append.mp hg with hg | hg
    · exact hn g hg
    · rw [List.mem_singleton.mp hg]; exact AMap.nodupKeys_storeAll AMap.nodupKeys_nil _
  | register r0 k0 c =>
    simp only [step] at h
    split at h
    · cases h
    · rename_i g0 hg0
      injection h with h; subst h
      intro g hg
      rcases List.mem_or_eq_of_mem_set hg with hg | hg
      · exact hn g hg
      · rw [hg]; exact AMap.nodupKeys_store (hn g0 (List.mem_of_getElem? hg0)) _ _
  | unregister r0 k0 =>
    simp only [step] at h
    split at h
    · cases h
    · rename_i g0 hg0
      injection h with h; subst h
      intro g hg
      rcases List.mem_or_eq_of_mem_set hg with hg | hg
      · exact hn g hg
      · rw [hg]; exact AMap.nodupKeys_erase (hn g0 (List.mem_of_getElem? hg0)) _
  | switchAll b o =>
    simp only [step] at h
    split at h
    · cases h
    · have hr : s'.regs = s.regs.mapIdx fun r g => g.map fun x => (x.1, command b (o r x.1) x.2) := by
        split at h <;> (injection h with h; subst h; rfl)
      rw [hr]
      intro g hg
      obtain ⟨i, hi, rfl⟩ := List.mem_mapIdx.mp hg
      have := hn _ (List.getElem_mem hi)
      rw [AMap.NodupKeys, keys_command _ (fun k e => command b (o i k) e)]
      exact this
  | store i =>
    simp only [step] at h
    split at h
    · cases h
    · injection h with h; subst h; exact hn
  | fbStart order =>
    simp only [step] at h
    split at h
    · injection h with h; subst h; exact hn
    · cases h
  | fbNext entries =>
    simp only [step] at h
    split at h
    · cases h
    · split at h
      · cases h
      · split at h
        · injection h with h; subst h; exact hn
        · split at h
          · injection h with h; subst h; exact hn
          · cases h
  | fbRead =>
    simp only [step] at h
    split at h
    · cases h
    · split at h
      · cases h
      · injection h with h; subst h; exact hn
  | fbAct o =>
    simp only [step] at h
    split at h
    · cases h
    split at h
    · rename_i k0 st rest cur hfe hfs
      injection h with h; subst h
      cases hrep : repair cur st with
      | none => exact hn
      | some b =>
        intro g hg
        simp only at hg
        obtain ⟨i, hi, rfl⟩ := List.mem_iff_getElem.mp hg
        rw [List.getElem_modify]
        split
        · exact nodup_commandOne (hn _ (List.getElem_mem _)) _ _ _
        · exact hn _ (List.getElem_mem _)
    · cases h

/-- What the round of the failback knows after a step. -/
theorem failback_step {srv : Bool} {s s' : Serving.St} {op : Serving.Op} (h : step srv s op = some s') {f' : Failback}
    (hf : s'.failback = some f') :
    (∃ f, s.failback = some f ∧ f.registries = f'.registries ∧ f.current = f'.current ∧ (∀ b o, op ≠ .switchAll b o) ∧
      ((f.entries = f'.entries ∧ (f'.seen = f.seen ∨ f'.seen = some s.status) ∧ ∀ o, op ≠ .fbAct o) ∨
       (∃ k st cur o, op = .fbAct o ∧ f.entries = (k, st) :: f'.entries ∧ f.seen = some cur ∧ f'.seen = none))) ∨
    (s'.regs = s.regs ∧ f'.entries = [] ∧ f'.seen = none ∧ s.failback = none ∧ (∀ o, op ≠ .fbAct o) ∧ (∀ b o, op ≠ .switchAll b o) ∧
      f'.registries.Perm (List.range s.regs.length)) ∨
    (∃ f, s.failback = some f ∧ s'.regs = s.regs ∧ f.entries = [] ∧ f'.seen = none ∧ f.registries = f'.current :: f'.registries ∧
      f'.entries.Perm (statusMap (s.regs.getD f'.current [])) ∧ (∀ o, op ≠ .fbAct o) ∧ (∀ b o, op ≠ .switchAll b o)) := by
  cases op with
  | addRegistry ks =>
    simp only [step, Option.some.injEq] at h
    subst h
    exact .inl ⟨f', hf, rfl, rfl, by simp, .inl ⟨rfl, .inl rfl, by simp⟩⟩
  | register r0 k0 c =>
    simp only [step] at h
    split at h
    · cases h
    · injection h with h; subst h
      exact .inl ⟨f', hf, rfl, rfl, by simp, .inl ⟨rfl, .inl rfl, by simp⟩⟩
  | unregister r0 k0 =>
    simp only [step] at h
    split at h
    · cases h
    · injection h with h; subst h
      exact .inl ⟨f', hf, rfl, rfl, by simp, .inl ⟨rfl, .inl rfl, by simp⟩⟩
  | switchAll b o =>
    simp only [step] at h
    split at h
    · cases h
    · rename_i hn
      have : s'.failback = s.failback := by split at h <;> (injection h with h; subst h; rfl)
      rw [← this, hf] at hn
      simp at hn
  | store i =>
    simp only [step] at h
    split at h
    · cases h
    · injection h with h; subst h
      exact .inl ⟨f', hf, rfl, rfl, by simp, .inl ⟨rfl, .inl rfl, by simp⟩⟩
  | fbStart order =>
    simp only [step] at h
    split at h
    · rename_i hc
      injection h with h; subst h
      injection hf with hf
      subst hf
      exact .inr (.inl ⟨rfl, rfl, rfl, Option.isNone_iff_eq_none.mp hc.1, by simp, by simp, List.isPerm_iff.mp hc.2⟩)
    · cases h
  | fbNext entries =>
    simp only [step] at h
    split at h
    · cases h
    · rename_i f hf0
      split at h
      · cases h
      · rename_i he
        split at h
        · injection h with h; subst h; cases hf
        · rename_i r rs hrs
          split at h
          · rename_i hp
            injection h with h; subst h
            injection hf with hf
            subst hf
            exact .inr (.inr ⟨f, hf0, rfl, Decidable.not_not.mp he, rfl, hrs, List.isPerm_iff.mp hp, by simp, by simp⟩)
          · cases h
  | fbRead =>
    simp only [step] at h
    split at h
    · cases h
    · rename_i f hf0
      split at h
      · cases h
      · injection h with h; subst h
        injection hf with hf
        subst hf
        exact .inl ⟨f, hf0, rfl, rfl, by simp, .inl ⟨rfl, .inr rfl, by simp⟩⟩
  | fbAct o =>
    simp only [step] at h
    split at h
    · cases h
    rename_i f hf0
    split at h
    · rename_i k0 st rest cur hfe hfs
      injection h with h; subst h
      injection hf with hf
      subst hf
      exact .inl ⟨f, hf0, rfl, rfl, by simp, .inr ⟨k0, st, cur, o, rfl, hfe, hfs, rfl⟩⟩
    · cases h

theorem lastAfter_of {op : Serving.Op} (h : ∀ b o, op ≠ .switchAll b o) (last : Option Bool) : Spec.lastAfter last op = last := by
  cases op with
  | switchAll b o => exact absurd rfl (h b o)
  | _ => rfl

theorem mem_statusMap {s : Serving.St} (hn : ∀ g ∈ s.regs, AMap.NodupKeys g) {r : Nat} {k : Bytes} {st : Stat} :
    (k, st) ∈ statusMap (s.regs.getD r []) ↔ ∃ e, Spec.serviceAt s r k = some e ∧ e.stat = st := by
  unfold statusMap Spec.serviceAt
  rw [List.getD_eq_getElem?_getD]
  cases hg : s.regs[r]? with
  | none => simp
  | some g =>
    have hn := hn g (List.mem_of_getElem? hg)
    simp only [Option.getD_some, List.mem_map, Option.bind_some]
    constructor
    · rintro ⟨⟨k', e⟩, hm, heq⟩
      simp only [Prod.mk.injEq] at heq
      obtain ⟨rfl, h2⟩ := heq
      exact ⟨e, AMap.load_of_mem hn hm, h2⟩
    · rintro ⟨e, h1, h2⟩
      exact ⟨(k, e), AMap.mem_of_load h1, by rw [h2]⟩

theorem nodup_statusMap {s : Serving.St} (hn : ∀ g ∈ s.regs, AMap.NodupKeys g) (r : Nat) :
    ((statusMap (s.regs.getD r [])).map (·.1)).Nodup := by
  rw [List.getD_eq_getElem?_getD]
  cases hg : s.regs[r]? with
  | none => simp [statusMap]
  | some g =>
    have hn := hn g (List.mem_of_getElem? hg)
    simpa [statusMap, AMap.NodupKeys, AMap.keys, List.map_map, Function.comp_def] using hn

theorem serviceAt_congr {s s' : Serving.St} (h : s'.regs = s.regs) (r : Nat) (k : Bytes) :
    Spec.serviceAt s' r k = Spec.serviceAt s r k := by simp [Spec.serviceAt, h]

theorem serving_inv {srv : Bool} {s s' : Serving.St} {op : Serving.Op} {last : Option Bool} (hi : ServingInv last s)
    (h : step srv s op = some s') : ServingInv (Spec.lastAfter last op) s' := by
  have hstat : ∀ r k e, Spec.serviceAt s' r k = some e →
      e.stat = .notRegister ∨ ((Spec.lastAfter last op).isSome ∧ Spec.about e.stat = Spec.lastAfter last op) := by
    intro r k e he
    rcases serving_step h he with ⟨h1, h2, _⟩ | ⟨h1, _⟩ | ⟨b, o, e0, rfl, _, rfl⟩ | ⟨o, f, st, rest, cur, b, e0, rfl, hf, hfe, _, _, hrep, _, rfl⟩
    · rw [lastAfter_of h2]; exact hi.stat r k e h1
    · exact .inl h1
    · exact .inr ⟨rfl, command_about _ _ _⟩
    · have := (hi.known f hf k st (by rw [hfe]; exact .head _)).2
      rcases this with hst | ⟨h1, h2⟩
      · subst hst; have := repair_about hrep; cases this
      · right
        refine ⟨h1, ?_⟩
        rw [command_about, ← repair_about hrep]; exact h2
  refine ⟨serving_nodup hi.nodup h, hstat, ?_, ?_, ?_⟩
  · intro r k e he
    rcases serving_step h he with ⟨h1, h2, _⟩ | ⟨h1, h2, _⟩ | ⟨b, o, e0, rfl, _, rfl⟩ | ⟨o, f, st, rest, cur, b, e0, rfl, hf, hfe, _, _, hrep, _, rfl⟩
    · exact hi.listed r k e h1
    · exact ⟨by rw [h1]; simp, fun _ => h2⟩
    · exact command_listed _ _ _
    · exact command_listed _ _ _
  · intro f' hf'
    rcases failback_step h hf' with ⟨f, hf, _, _, _, h3⟩ | ⟨_, h2, _⟩ | ⟨f, _, _, _, _, _, h5, _⟩
    · have := hi.keys f hf
      rcases h3 with ⟨h3, _⟩ | ⟨k, st, cur, o, _, h3, _⟩
      · rw [← h3]; exact this
      · rw [h3, List.map_cons, List.nodup_cons] at this; exact this.2
    · rw [h2]; exact List.nodup_nil
    · exact (h5.map (·.1)).nodup_iff.mpr (nodup_statusMap hi.nodup _)
  · intro f' hf' k st hm
    rcases failback_step h hf' with ⟨f, hf, _, hcur, hsw, h3⟩ | ⟨_, h2, _⟩ | ⟨f, hf, hregs, _, _, _, h5, _, hsw⟩
    · have hm' : (k, st) ∈ f.entries := by
        rcases h3 with ⟨h3, _⟩ | ⟨k0, st0, cur, o, _, h3, _⟩
        · rw [h3]; exact hm
        · rw [h3]; exact .tail _ hm
      obtain ⟨g1, g2⟩ := hi.known f hf k st hm'
      rw [lastAfter_of hsw]
      refine ⟨?_, g2⟩
      intro e he
      rcases serving_step h he with ⟨h1, h2, _⟩ | ⟨h1, h2, _⟩ | ⟨b, o, e0, heq, _, rfl⟩ | ⟨o, f0, st0, rest, cur, b, e0, heq, hf0, hfe, _, _, hrep, _, rfl⟩
      · rw [← hcur] at h1; exact g1 e h1
      · exact .inl h1
      · exact absurd heq (hsw b o)
      · rw [hf] at hf0; injection hf0 with hf0; subst hf0
        rcases h3 with ⟨_, _, h4⟩ | ⟨k1, st1, cur1, o1, _, h3, _⟩
        · exact absurd heq (h4 o)
        · have hk := hi.keys f hf
          rw [h3] at hfe
          injection hfe with hfe _
          injection hfe with hfe _
          rw [h3, List.map_cons, List.nodup_cons] at hk
          exact absurd (List.mem_map_of_mem (f := (·.1)) hm) (by simpa [hfe] using hk.1)
    · rw [h2] at hm; cases hm
    · rw [lastAfter_of hsw]
      obtain ⟨e, he, hst⟩ := (mem_statusMap hi.nodup).mp (h5.mem_iff.mp hm)
      refine ⟨?_, ?_⟩
      · intro e' he'
        rw [serviceAt_congr hregs, he] at he'
        injection he' with he'
        right; rw [← he']; exact hst
      · rw [← hst]; exact hi.stat _ _ _ he

theorem lastSwitch_cons (op : Serving.Op) (ops : List Serving.Op) (last : Option Bool) :
    (Spec.lastSwitch ops).or (Spec.lastAfter last op) = (Spec.lastSwitch (op :: ops)).or last := by
  cases h : Spec.lastSwitch ops <;> cases op <;> simp [Spec.lastSwitch, Spec.lastAfter, h]

theorem serving_play {srv : Bool} {ops : List Serving.Op} {s s' : Serving.St} {last : Option Bool} (hi : ServingInv last s)
    (h : play srv s ops = some s') : ServingInv ((Spec.lastSwitch ops).or last) s' := by
  induction ops generalizing s last with
  | nil => injection h with h; subst h; exact hi
  | cons op ops ih =>
    rw [play] at h
    cases hs : step srv s op with
    | none => rw [hs] at h; cases h
    | some s1 =>
      rw [hs] at h
      rw [← lastSwitch_cons]
      exact ih (serving_inv hi hs) h

theorem serving_begin (status : Nat) : ServingInv none { status := status } :=
  ⟨by simp, by simp [Spec.serviceAt], by simp [Spec.serviceAt], by simp, by simp⟩

/-! ## The services follow the last switch -/

/-- Whatever the schedule, the orders of ranges and the results of commands, for a server and for an agent: what a registry
was last told about a service is what the last switch says, or the service came after it; and a service whose last command
succeeded is listed exactly if it is to be. So the failback never works against a switch. -/
theorem services_follow_the_last_switch {srv : Bool} {status : Nat} {ops : List Serving.Op} {s : Serving.St}
    (h : play srv { status := status } ops = some s) {r : Nat} {k : Bytes} {e : Entry} (he : Spec.serviceAt s r k = some e) :
    (e.stat = .notRegister ∨ ∃ b, Spec.lastSwitch ops = some b ∧ Spec.about e.stat = some b) ∧
    (e.stat = .registered → e.listed = true) ∧ (e.stat = .unregistered ∨ e.stat = .notRegister → e.listed = false) := by
  have hi := serving_play (serving_begin status) h
  rw [Option.or_none] at hi
  refine ⟨?_, hi.listed r k e he⟩
  rcases hi.stat r k e he with h1 | ⟨h1, h2⟩
  · exact .inl h1
  · obtain ⟨b, hb⟩ := Option.isSome_iff_exists.mp h1
    exact .inr ⟨b, hb, by rw [h2, hb]⟩

/-- A server's status is what the last switch says. -/
theorem server_status_follows {status : Nat} {ops : List Serving.Op} {s : Serving.St} {b : Bool}
    (h : play true { status := status } ops = some s) (hl : Spec.lastSwitch ops = some b) : s.status = code b := by
  suffices ∀ (ops : List Serving.Op) (s0 s : Serving.St) (last : Option Bool), s0.pending = [] → (∀ b, last = some b → s0.status = code b) →
      play true s0 ops = some s → ∀ b, (Spec.lastSwitch ops).or last = some b → s.status = code b from
    this ops _ s none rfl (by simp) h b (by rw [hl]; rfl)
  intro ops
  induction ops with
  | nil => intro s0 s last _ hb h b hl; injection h with h; subst h; exact hb b hl
  | cons op ops ih =>
    intro s0 s last hp hb h b hl
    rw [play] at h
    cases hs : step true s0 op with
    | none => rw [hs] at h; cases h
    | some s1 =>
      rw [hs] at h
      rw [← lastSwitch_cons] at hl
      refine ih s1 s _ ?_ ?_ h b hl
      · cases op <;> simp only [step] at hs <;> (repeat' split at hs) <;> cases hs <;> simp_all
      · intro b' hb'
        clear ih h hl
        have hb := hb b'
        cases op <;> simp only [step] at hs <;> (repeat' split at hs) <;> cases hs <;> simp_all [Spec.lastAfter]

/-- The status of an agent is what the last switch says once that call has ended, if the calls do not overlap. -/
theorem agent_status_follows {status : Nat} {ops : List Serving.Op} {s : Serving.St} {b : Bool}
    (h : play false { status := status } ops = some s) (ha : Spec.SwitchesApart false ops) (hp : s.pending = [])
    (hl : Spec.lastSwitch ops = some b) : s.status = code b := by
  suffices ∀ (ops : List Serving.Op) (busy : Bool) (s0 s : Serving.St) (last : Option Bool),
      (busy = false ∧ s0.pending = [] ∧ (∀ b, last = some b → s0.status = code b) ∨ busy = true ∧ ∃ b, s0.pending = [b] ∧ last = some b) →
      Spec.SwitchesApart busy ops → play false s0 ops = some s → s.pending = [] → ∀ b, (Spec.lastSwitch ops).or last = some b → s.status = code b from
    this ops false _ s none (.inl ⟨rfl, rfl, by simp⟩) ha h hp b (by rw [hl]; rfl)
  intro ops
  induction ops with
  | nil =>
    intro busy s0 s last hb _ h hp b hl
    injection h with h; subst h
    rcases hb with ⟨_, _, hb⟩ | ⟨_, b', hb, _⟩
    · exact hb b hl
    · rw [hp] at hb; cases hb
  | cons op ops ih =>
    intro busy s0 s last hb ha h hp b hl
    rw [play] at h
    cases hs : step false s0 op with
    | none => rw [hs] at h; cases h
    | some s1 =>
      rw [hs] at h
      rw [← lastSwitch_cons] at hl
      cases op with
      | switchAll b' o =>
        rw [Spec.SwitchesApart] at ha
        refine ih true s1 s _ ?_ ha.2 h hp b hl
        rcases hb with ⟨_, hb, _⟩ | ⟨hb, _⟩
        · simp only [step] at hs
          split at hs
          · cases hs
          · injection hs with hs; subst hs
            exact .inr ⟨rfl, b', by simp [hb], rfl⟩
        · rw [ha.1] at hb; cases hb
      | store i =>
        rw [Spec.SwitchesApart] at ha
        refine ih false s1 s _ ?_ ha h hp b hl
        simp only [step] at hs
        rcases hb with ⟨_, hb, _⟩ | ⟨_, b', hb, hlast⟩
        · rw [hb] at hs; simp at hs
        · rw [hb] at hs
          cases i with
          | zero =>
            simp only [List.getElem?_cons_zero, Option.some.injEq] at hs
            subst hs
            refine .inl ⟨rfl, rfl, ?_⟩
            intro b'' hb''
            have : some b' = some b'' := hlast.symm.trans hb''
            injection this with this
            rw [this]
          | succ i => simp at hs
      | _ =>
        refine ih busy s1 s _ ?_ ?_ h hp b hl
        · simp only [step] at hs
          (repeat' split at hs) <;> cases hs <;> exact hb
        · first | exact ha | (rw [Spec.SwitchesApart] at ha <;> first | exact ha | simp)

/-! ## The failback -/

/-- A round of the failback leaves alone every service whose last command succeeded. -/
theorem failback_keeps_the_settled {srv : Bool} {status : Nat} {ops : List Serving.Op} {s s' : Serving.St} {o : Outcome}
    (h : play srv { status := status } ops = some s) (hs : step srv s (.fbAct o) = some s') {r : Nat} {k : Bytes} {e e' : Entry}
    (he : Spec.serviceAt s r k = some e) (hst : e.stat = .registered ∨ e.stat = .unregistered) (he' : Spec.serviceAt s' r k = some e') :
    e' = e := by
  have hi := serving_play (serving_begin status) h
  rcases serving_step hs he' with ⟨h1, _⟩ | ⟨_, _, _, h1⟩ | ⟨b, o, e0, heq, _⟩ | ⟨o1, f, st, rest, cur, b, e0, _, hf, hfe, hc, _, hrep, h0, _⟩
  · rw [he] at h1; injection h1 with h1; exact h1.symm
  · exact absurd rfl (h1 o)
  · cases heq
  · have := (hi.known f hf k st (by rw [hfe]; exact .head _)).1 e (by rw [hc]; exact he)
    have h2 : e.stat = st := by
      rcases this with h3 | h3
      · rcases hst with h4 | h4 <;> rw [h3] at h4 <;> cases h4
      · exact h3
    unfold repair at hrep
    split at hrep
    · rename_i h3; rw [h3.2] at h2; rcases hst with h4 | h4 <;> rw [h2] at h4 <;> cases h4
    · split at hrep
      · rename_i h3; rw [h3.2] at h2; rcases hst with h4 | h4 <;> rw [h2] at h4 <;> cases h4
      · cases hrep

/-- A failed command. -/
def Spec.CommandFailed (e : Entry) : Prop := e.stat = .registerFailed ∨ e.stat = .unregisterFailed

/-- What holds during a quiet round: failed services are still ahead. -/
structure RoundInv (b : Bool) (s : Serving.St) : Prop where
  inv : ServingInv (some b) s
  pending : s.pending = []
  status : s.status = code b
  ahead : ∀ f, s.failback = some f → (∀ cur, f.seen = some cur → cur = code b) ∧
    ∀ r k e, Spec.serviceAt s r k = some e → Spec.CommandFailed e → r ∈ f.registries ∨ (r = f.current ∧ k ∈ f.entries.map (·.1))
  done : s.failback = none → ∀ r k e, Spec.serviceAt s r k = some e → ¬ Spec.CommandFailed e

theorem repair_failed {b : Bool} {st : Stat} (h : Spec.about st = some b) (hr : repair (code b) st = none) :
    st ≠ .registerFailed ∧ st ≠ .unregisterFailed := by
  cases b <;> cases st <;> simp_all [Spec.about, repair, code]

theorem quiet_status {srv : Bool} {s s' : Serving.St} {op : Serving.Op} (hp : s.pending = []) (hq : Spec.QuietOp op)
    (h : step srv s op = some s') : s'.pending = [] ∧ s'.status = s.status := by
  cases op <;> simp only [step] at h <;> (repeat' split at h) <;> cases h <;> simp_all [Spec.QuietOp]

theorem serviceAt_lt {s : Serving.St} {r : Nat} {k : Bytes} {e : Entry} (h : Spec.serviceAt s r k = some e) : r < s.regs.length := by
  rcases Nat.lt_or_ge r s.regs.length with h' | h'
  · exact h'
  · rw [Spec.serviceAt, List.getElem?_eq_none h'] at h; cases h

/-- A quiet step of a round. -/
theorem round_step {srv : Bool} {b : Bool} {s s' : Serving.St} {op : Serving.Op} (hi : RoundInv b s) (hq : Spec.QuietOp op)
    (h : step srv s op = some s') : RoundInv b s' := by
  have hsw : ∀ b o, op ≠ .switchAll b o := by rintro b o rfl; exact hq
  obtain ⟨hp, hst⟩ := quiet_status hi.pending hq h
  have hinv := serving_inv hi.inv h
  rw [lastAfter_of hsw] at hinv
  refine ⟨hinv, hp, hst.trans hi.status, ?_, ?_⟩
  · intro f' hf'
    refine ⟨?_, ?_⟩
    · intro cur hcur
      rcases failback_step h hf' with ⟨f, hf, _, _, _, h3⟩ | ⟨_, _, h3, _⟩ | ⟨f, _, _, _, h3, _⟩
      · rcases h3 with ⟨_, h3, _⟩ | ⟨_, _, _, _, _, _, _, h3⟩
        · rcases h3 with h3 | h3
          · rw [h3] at hcur; exact (hi.ahead f hf).1 cur hcur
          · rw [h3] at hcur; injection hcur with hcur; rw [← hcur]; exact hi.status
        · rw [h3] at hcur; cases hcur
      · rw [h3] at hcur; cases hcur
      · rw [h3] at hcur; cases hcur
    · intro r k e he hfail
      rcases failback_step h hf' with ⟨f, hf, hrg, hcur, _, h3⟩ | ⟨hregs, _, _, hnone, _⟩ | ⟨f, hf, hregs, h1, _, hrg, h5, _⟩
      · rcases serving_step h he with ⟨h1, _, h2⟩ | ⟨h1, _⟩ | ⟨b, o, e0, heq, _⟩ | ⟨o, f0, st, rest, cur, b0, e0, heq, _, _, _, _, _, _, rfl⟩
        · have hd : r ∈ f.registries ∨ (r = f.current ∧ k ∈ f.entries.map (·.1)) := (hi.ahead f hf).2 r k e h1 hfail
          rw [hrg, hcur] at hd
          rcases hd with hd | ⟨hd, hk⟩
          · exact .inl hd
          · refine .inr ⟨hd, ?_⟩
            rcases h3 with ⟨h3, _⟩ | ⟨k0, st0, cur, o, hop, h3, hseen, _⟩
            · rw [← h3]; exact hk
            · rw [h3, List.map_cons] at hk
              rcases List.mem_cons.mp hk with hk | hk
              · exfalso
                simp only at hk
                subst hk
                obtain ⟨g1, g2⟩ := hi.inv.known f hf k st0 (by rw [h3]; exact .head _)
                have hrep := h2 o f st0 _ cur hop hf h3 (hcur.trans hd.symm) hseen
                rw [(hi.ahead f hf).1 cur hseen] at hrep
                rcases g2 with g2 | ⟨_, g2⟩
                · rcases g1 e (by rw [hcur, ← hd]; exact h1) with g1 | g1
                  · rcases hfail with h | h <;> rw [g1] at h <;> cases h
                  · rw [g2] at g1; rcases hfail with h | h <;> rw [g1] at h <;> cases h
                · have := repair_failed g2 hrep
                  rcases g1 e (by rw [hcur, ← hd]; exact h1) with g1 | g1
                  · rcases hfail with h | h <;> rw [g1] at h <;> cases h
                  · rcases hfail with h | h <;> rw [g1] at h
                    · exact this.1 h
                    · exact this.2 h
              · exact hk
        · rcases hfail with h | h <;> rw [h1] at h <;> cases h
        · exact absurd heq (hsw b o)
        · subst heq
          have : o = .ok := hq
          subst this
          rcases hfail with h | h <;> rw [command_ok] at h <;> cases b0 <;> cases h
      · rw [serviceAt_congr hregs] at he
        exact absurd hfail (hi.done hnone r k e he)
      · rw [serviceAt_congr hregs] at he
        rcases (hi.ahead f hf).2 r k e he hfail with hd | ⟨_, hd⟩
        · rw [hrg] at hd
          rcases List.mem_cons.mp hd with hd | hd
          · refine .inr ⟨hd, ?_⟩
            have : (k, e.stat) ∈ f'.entries := by
              rw [h5.mem_iff, mem_statusMap hi.inv.nodup]
              exact ⟨e, by rw [← hd]; exact he, rfl⟩
            exact List.mem_map_of_mem (f := (·.1)) this
          · exact .inl hd
        · rw [h1] at hd; cases hd
  · intro hnone r k e he hfail
    cases hf : s.failback with
    | none =>
      rcases serving_step h he with ⟨h1, _, h2⟩ | ⟨h1, _⟩ | ⟨b, o, e0, heq, _⟩ | ⟨o, f0, st, rest, cur, b0, e0, heq, hf0, _⟩
      · exact hi.done hf r k e h1 hfail
      · rcases hfail with h | h <;> rw [h1] at h <;> cases h
      · exact absurd heq (hsw b o)
      · rw [hf] at hf0; cases hf0
    | some f =>
      have hx : s'.regs = s.regs ∧ f.entries = [] ∧ f.registries = [] := by
        cases op <;> simp only [step, hf] at h <;> (repeat' split at h) <;> cases h <;> simp_all
      obtain ⟨h1, h2, h3⟩ := hx
      rw [serviceAt_congr h1] at he
      have := (hi.ahead f hf).2 r k e he hfail
      rw [h2, h3] at this
      simp at this

theorem round_play {srv : Bool} {b : Bool} {ops : List Serving.Op} {s s' : Serving.St} (hi : RoundInv b s)
    (hq : ∀ op ∈ ops, Spec.QuietOp op) (h : play srv s ops = some s') : RoundInv b s' := by
  induction ops generalizing s with
  | nil => injection h with h; subst h; exact hi
  | cons op ops ih =>
    rw [play] at h
    cases hs : step srv s op with
    | none => rw [hs] at h; cases h
    | some s1 =>
      rw [hs] at h
      exact ih (round_step hi (hq op (.head _)) hs) (fun op hm => hq op (.tail _ hm)) h

/-- Once the last switch has ended and agrees with the status, one round of the failback whose commands succeed puts every
service in order, although single services and registries come and go meanwhile: after it no command stands as failed, and
every service is as the last switch says or came after it. -/
theorem failback_repairs {srv : Bool} {status : Nat} {ops round : List Serving.Op} {s s' : Serving.St} {b : Bool} {order : List Nat}
    (h : play srv { status := status } ops = some s) (hp : s.pending = []) (hl : Spec.lastSwitch ops = some b) (hst : s.status = code b)
    (hr : play srv s (.fbStart order :: round) = some s') (hq : ∀ op ∈ round, Spec.QuietOp op) (hend : s'.failback = none)
    {r : Nat} {k : Bytes} {e : Entry} (he : Spec.serviceAt s' r k = some e) :
    e.stat = .notRegister ∨ (e.stat = (if b then .registered else .unregistered) ∧ e.listed = b) := by
  have hi := serving_play (serving_begin status) h
  rw [hl] at hi
  have hi : ServingInv (some b) s := hi
  rw [play] at hr
  cases hs : step srv s (.fbStart order) with
  | none => rw [hs] at hr; cases hr
  | some s1 =>
    rw [hs] at hr
    have hinv := serving_inv hi hs
    have h1 : RoundInv b s1 := by
      simp only [step] at hs
      split at hs
      · rename_i hc
        injection hs with hs; subst hs
        refine ⟨hinv, hp, hst, ?_, ?_⟩
        · intro f hf
          injection hf with hf; subst hf
          refine ⟨by simp, ?_⟩
          intro r k e he _
          left
          rw [(List.isPerm_iff.mp hc.2).mem_iff, List.mem_range]
          exact serviceAt_lt he
        · intro h; cases h
      · cases hs
    have h2 := round_play h1 hq hr
    have h3 := h2.done hend r k e he
    have h4 := h2.inv.listed r k e he
    rcases h2.inv.stat r k e he with h5 | ⟨_, h5⟩
    · exact .inl h5
    · right
      simp only [Spec.CommandFailed, not_or] at h3
      cases hs : e.stat <;> rw [hs] at h3 h4 h5 <;> simp [Spec.about] at h3 h4 h5 <;> subst h5 <;> simp [h4]

/-! ## The page -/

theorem summary_up (es : List Entry) (res : Stat) (hres : res = .registered ∨ res = .notRegister ∨ res = .registerFailed) :
    es.foldl (fun res e =>
      if e.check then
        if e.stat = .registerFailed then e.stat
        else if e.stat = .notRegister ∧ res ≠ .registerFailed then e.stat
        else res
      else res) res =
    if res = .registerFailed ∨ ∃ e ∈ es, e.check = true ∧ e.stat = .registerFailed then .registerFailed
    else if res = .notRegister ∨ ∃ e ∈ es, e.check = true ∧ e.stat = .notRegister then .notRegister
    else .registered := by
  induction es generalizing res with
  | nil => rcases hres with rfl | rfl | rfl <;> simp
  | cons e es ih =>
    rw [List.foldl_cons]
    by_cases hc : e.check = true
    · rw [if_pos hc]
      by_cases h1 : e.stat = .registerFailed
      · rw [if_pos h1, ih _ (by simp [h1])]
        rw [if_pos (.inl h1), if_pos (.inr ⟨e, .head _, hc, h1⟩)]
      · rw [if_neg h1]
        by_cases h2 : e.stat = .notRegister
        · rcases hres with rfl | rfl | rfl <;> rw [ih _ (by simp [h2])] <;> simp [h1, h2, hc]
        · simp only [h2, false_and, if_false]
          rw [ih _ hres]
          simp [h1, h2]
    · rw [if_neg hc, ih _ hres]
      simp [hc]

theorem summary_down (es : List Entry) (res : Stat) (hres : res = .unregistered ∨ res = .notRegister ∨ res = .unregisterFailed) :
    es.foldl (fun res e =>
      if e.check then
        if e.stat = .unregisterFailed then e.stat
        else if e.stat = .notRegister ∧ res ≠ .unregisterFailed then e.stat
        else res
      else res) res =
    if res = .unregisterFailed ∨ ∃ e ∈ es, e.check = true ∧ e.stat = .unregisterFailed then .unregisterFailed
    else if res = .notRegister ∨ ∃ e ∈ es, e.check = true ∧ e.stat = .notRegister then .notRegister
    else .unregistered := by
  induction es generalizing res with
  | nil => rcases hres with rfl | rfl | rfl <;> simp
  | cons e es ih =>
    rw [List.foldl_cons]
    by_cases hc : e.check = true
    · rw [if_pos hc]
      by_cases h1 : e.stat = .unregisterFailed
      · rw [if_pos h1, ih _ (by simp [h1])]
        rw [if_pos (.inl h1), if_pos (.inr ⟨e, .head _, hc, h1⟩)]
      · rw [if_neg h1]
        by_cases h2 : e.stat = .notRegister
        · rcases hres with rfl | rfl | rfl <;> rw [ih _ (by simp [h2])] <;> simp [h1, h2, hc]
        · simp only [h2, false_and, if_false]
          rw [ih _ hres]
          simp [h1, h2]
    · rw [if_neg hc, ih _ hres]
      simp [hc]

/-- What the page says in sum, in whatever order the services are looked at: the failure if a service to be checked has one,
else that one has not been registered if so, else that all went well. -/
theorem summary_says (b : Bool) (es : List Entry) :
    summary (code b) es =
      if ∃ e ∈ es, e.check = true ∧ e.stat = (if b then .registerFailed else .unregisterFailed) then (if b then .registerFailed else .unregisterFailed)
      else if ∃ e ∈ es, e.check = true ∧ e.stat = .notRegister then .notRegister
      else (if b then .registered else .unregistered) := by
  cases b with
  | true =>
    have := summary_up es .registered (.inl rfl)
    simpa [summary, code] using this
  | false =>
    have := summary_down es .unregistered (.inl rfl)
    simpa [summary, code] using this

/-- When the status agrees with the last switch, the page says that all went well exactly if every service to be checked is
as the last switch says. -/
theorem page_is_right {srv : Bool} {status : Nat} {ops : List Serving.Op} {s : Serving.St} {b : Bool}
    (h : play srv { status := status } ops = some s) (hl : Spec.lastSwitch ops = some b) (hst : s.status = code b) :
    summary s.status (Spec.allServices s) = (if b then .registered else .unregistered) ↔
      ∀ r k e, Spec.serviceAt s r k = some e → e.check = true → e.stat = (if b then .registered else .unregistered) ∧ e.listed = b := by
  have hi := serving_play (serving_begin status) h
  rw [hl] at hi
  have hi : ServingInv (some b) s := hi
  have hmem : ∀ e, e ∈ Spec.allServices s ↔ ∃ r k, Spec.serviceAt s r k = some e := by
    intro e
    unfold Spec.allServices Spec.serviceAt
    rw [List.mem_flatMap]
    constructor
    · rintro ⟨g, hg, he⟩
      obtain ⟨⟨k, e'⟩, hm, rfl⟩ := List.mem_map.mp he
      obtain ⟨r, hr⟩ := List.mem_iff_getElem?.mp hg
      exact ⟨r, k, by rw [hr]; exact AMap.load_of_mem (hi.nodup g hg) hm⟩
    · rintro ⟨r, k, he⟩
      cases hg : s.regs[r]? with
      | none => rw [hg] at he; cases he
      | some g =>
        rw [hg] at he
        exact ⟨g, List.mem_of_getElem? hg, List.mem_map.mpr ⟨(k, e), AMap.mem_of_load he, rfl⟩⟩
  rw [hst, summary_says]
  constructor
  · intro hsum r k e he hc
    have hm := (hmem e).mpr ⟨r, k, he⟩
    have h4 := hi.listed r k e he
    by_cases h1 : ∃ e ∈ Spec.allServices s, e.check = true ∧ e.stat = (if b then Stat.registerFailed else .unregisterFailed)
    · rw [if_pos h1] at hsum; cases b <;> cases hsum
    · rw [if_neg h1] at hsum
      by_cases h2 : ∃ e ∈ Spec.allServices s, e.check = true ∧ e.stat = Stat.notRegister
      · rw [if_pos h2] at hsum; cases b <;> cases hsum
      · have n1 := fun h => h1 ⟨e, hm, hc, h⟩
        have n2 := fun h => h2 ⟨e, hm, hc, h⟩
        rcases hi.stat r k e he with h5 | ⟨_, h5⟩
        · exact absurd h5 n2
        · cases hs : e.stat <;> rw [hs] at n1 n2 h4 h5 <;> simp [Spec.about] at n1 n2 h4 h5 <;> subst h5 <;> simp_all
  · intro hall
    have n1 : ¬ ∃ e ∈ Spec.allServices s, e.check = true ∧ e.stat = (if b then Stat.registerFailed else .unregisterFailed) := by
      rintro ⟨e, hm, hc, hs⟩
      obtain ⟨r, k, he⟩ := (hmem e).mp hm
      have := (hall r k e he hc).1
      rw [hs] at this
      cases b <;> cases this
    have n2 : ¬ ∃ e ∈ Spec.allServices s, e.check = true ∧ e.stat = Stat.notRegister := by
      rintro ⟨e, hm, hc, hs⟩
      obtain ⟨r, k, he⟩ := (hmem e).mp hm
      have := (hall r k e he hc).1
      rw [hs] at this
      cases b <;> cases this
    rw [if_neg n1, if_neg n2]

/-! ## Examples -/

/-- A service of one registry fails to come up, comes up in a round of the failback while another is registered. -/
def Spec.servingOps : List Serving.Op :=
  [.addRegistry [(b!"a", true), (b!"b", false)], .addRegistry [(b!"a", true)],
    .switchAll true (fun r k => if r = 0 ∧ k = b!"a" then .failed false else .ok), .store 0]

def Spec.servingRound : List Serving.Op :=
  [.fbNext [(b!"a", .registered)], .fbRead, .fbAct .ok, .fbNext [(b!"b", .registered), (b!"a", .registerFailed)], .register 0 b!"c" true,
    .fbRead, .fbAct .ok, .fbRead, .fbAct .ok, .fbNext []]

example : (play false {} Spec.servingOps).isSome ∧ Spec.lastSwitch Spec.servingOps = some true ∧ Spec.SwitchesApart false Spec.servingOps ∧
    (∀ op ∈ Spec.servingRound, Spec.QuietOp op) ∧
    ((play false {} Spec.servingOps).map fun s => (s.status, s.pending, summary s.status (Spec.allServices s), Spec.serviceAt s 0 b!"a")) =
      some (200, [], .registerFailed, some { stat := .registerFailed, listed := false, check := true }) ∧
    ((play false {} Spec.servingOps).bind fun s => (play false s (.fbStart [1, 0] :: Spec.servingRound)).map fun s =>
      (s.failback, summary s.status (Spec.allServices s), Spec.serviceAt s 0 b!"a", Spec.serviceAt s 0 b!"c")) =
      some (none, .notRegister, some { stat := .registered, listed := true, check := true }, some { check := true }) := by
  refine ⟨by decide +kernel, by decide +kernel, by simp [Spec.servingOps, Spec.SwitchesApart], by simp [Spec.servingRound, Spec.QuietOp],
    by decide +kernel, by decide +kernel⟩

/-- A server that goes up and down. -/
example : ((play true {} [.addRegistry [(b!"a", true)], .switchAll true (fun _ _ => .ok), .switchAll false (fun _ _ => .ok)]).map fun s =>
    (s.status, summary s.status (Spec.allServices s), Spec.serviceAt s 0 b!"a")) =
    some (503, .unregistered, some { stat := .unregistered, listed := false, check := true }) := by decide +kernel

/-! ## Where it does not hold -/

/-- Two calls to an agent at a time, one that lists and one that withdraws: the services are withdrawn, the status says that
they are listed, and so does the page. -/
theorem agent_status_violated :
    ∃ ops s, play false {} ops = some s ∧ s.pending = [] ∧ Spec.lastSwitch ops = some false ∧ s.status = code true ∧
      summary s.status (Spec.allServices s) = .registered ∧ Spec.allServices s ≠ [] ∧ ∀ e ∈ Spec.allServices s, e.check = true ∧ e.listed = false := by
  refine ⟨[.addRegistry [(b!"a", true)], .switchAll true (fun _ _ => .ok), .switchAll false (fun _ _ => .ok), .store 1, .store 0],
    { status := 200, regs := [[(b!"a", { stat := .unregistered, listed := false, check := true })]] }, ?_⟩
  decide +kernel

/-- A service that is registered while the services are listed stays unlisted until the next switch: no round of the failback
lists it. -/
theorem late_services_wait {srv : Bool} {status : Nat} {ops ops' : List Serving.Op} {s s' : Serving.St} {r : Nat} {k : Bytes} {e : Entry}
    (h : play srv { status := status } ops = some s) (hf : s.failback = none) (he : Spec.serviceAt s r k = some e) (hn : e.stat = .notRegister)
    (h' : play srv s ops' = some s') (hsw : ∀ op ∈ ops', ∀ b o, op ≠ .switchAll b o) {e' : Entry} (he' : Spec.serviceAt s' r k = some e') :
    e'.listed = false := by
  suffices ∀ (ops' : List Serving.Op) (s : Serving.St), (∃ last, ServingInv last s) →
      (∀ e, Spec.serviceAt s r k = some e → e.stat = .notRegister) →
      (∀ f, s.failback = some f → f.current = r → ∀ st, (k, st) ∈ f.entries → st = .notRegister) →
      play srv s ops' = some s' → (∀ op ∈ ops', ∀ b o, op ≠ .switchAll b o) → e'.listed = false from
    this ops' s ⟨_, serving_play (serving_begin status) h⟩ (by intro e1 h1; rw [he] at h1; injection h1 with h1; rw [← h1]; exact hn)
      (by intro f h1; rw [hf] at h1; cases h1) h' hsw
  intro ops'
  induction ops' with
  | nil =>
    rintro s ⟨last, hi⟩ h1 _ h' _
    injection h' with h'; subst h'
    exact (hi.listed r k e' he').2 (.inr (h1 e' he'))
  | cons op ops ih =>
    rintro s ⟨last, hi⟩ h1 h2 h' hsw
    rw [play] at h'
    cases hs : step srv s op with
    | none => rw [hs] at h'; cases h'
    | some s1 =>
      rw [hs] at h'
      have hsw1 := hsw op (.head _)
      have h1' : ∀ e, Spec.serviceAt s1 r k = some e → e.stat = .notRegister := by
        intro e he
        rcases serving_step hs he with ⟨h3, _⟩ | ⟨h3, _⟩ | ⟨b, o, e0, heq, _⟩ | ⟨o1, f, st, rest, cur, b, e0, _, hf, hfe, hc, _, hrep, h0, _⟩
        · exact h1 e h3
        · exact h3
        · exact absurd heq (hsw1 b o)
        · have := h2 f hf hc st (by rw [hfe]; exact .head _)
          rw [this] at hrep
          have := repair_about hrep
          cases this
      refine ih s1 ⟨_, serving_inv hi hs⟩ h1' ?_ h' (fun op hm => hsw op (.tail _ hm))
      intro f' hf' hc st hm
      rcases failback_step hs hf' with ⟨f, hf, _, hcur, _, h3⟩ | ⟨_, h3, _⟩ | ⟨f, _, hregs, _, _, _, h5, _⟩
      · refine h2 f hf (hcur.trans hc) st ?_
        rcases h3 with ⟨h3, _⟩ | ⟨_, _, _, _, _, h3, _⟩
        · rw [h3]; exact hm
        · rw [h3]; exact .tail _ hm
      · rw [h3] at hm; cases hm
      · obtain ⟨e, he, hst⟩ := (mem_statusMap hi.nodup).mp (h5.mem_iff.mp hm)
        rw [hc] at he
        rw [← hst]
        exact h1 e he

example : ((play false {} [.addRegistry [], .switchAll true (fun _ _ => .ok), .store 0, .register 0 b!"c" true]).bind fun s =>
    (play false s [.fbStart [0], .fbNext [(b!"c", .notRegister)], .fbRead, .fbAct .ok, .fbNext []]).map fun s =>
      (s.status, Spec.serviceAt s 0 b!"c")) = some (200, some { check := true }) := by decide +kernel

end Motan.Props
