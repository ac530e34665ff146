import Verif.Model.Told
import Verif.Props.Ext
import Verif.Props.Serving

/-!
# C76, continued: what the failback and the status page know of the registries in the repository
-/

namespace Motan.Props

open Motan.Serving Motan.Told

/-! ## Specification -/

/-- The service `k` of the registry `r`. -/
def Spec.toldAt (s : Told.St) (r : Nat) (k : Bytes) : Option Entry := (s.regs[r]?).bind fun g => AMap.load g.services k

/-- A registry that the library's own extension factory has made: the application registers no type of registry. -/
def Spec.OfTheLibrary (c : Ext.Ctor) : Prop :=
  ∃ (h : List Ext.Op) (u : Url.URL) (x : Ext.Inst), (∀ n c', Ext.Op.regist .registry n c' ∉ h) ∧
    Spec.registryAfter (Ext.defaults ++ h) u = some x ∧ x.ctor = c

/-! ## Proofs -/

theorem library_types {c : Ext.Ctor} (h : Spec.OfTheLibrary c) : c ∈ shipped := by
  obtain ⟨h, u, x, hn, hx, rfl⟩ := h
  obtain ⟨pre, w, post, e, -, -, ⟨p, q, e2, -⟩, -⟩ := registry_made hx
  have hm : Ext.Op.regist .registry w.protocol x.ctor ∈ Ext.defaults ++ h ++ [Ext.Op.getRegistry u] := by
    rw [e, e2]; simp
  rcases List.mem_append.1 hm with hm | hm
  · rcases List.mem_append.1 hm with hm | hm
    · generalize x.ctor = c at hm ⊢
      generalize w.protocol = n at hm
      simp only [Ext.defaults, List.mem_cons, List.not_mem_nil, or_false, Ext.Op.regist.injEq, reduceCtorEq, false_and, and_false,
        false_or, true_and] at hm
      rcases hm with ⟨-, rfl⟩ | ⟨-, rfl⟩ | ⟨-, rfl⟩ | ⟨-, rfl⟩ | ⟨-, rfl⟩ <;> decide +kernel
    · exact absurd hm (hn _ _)
  · simp at hm

theorem shipped_untold (own : List Ext.Ctor) {c : Ext.Ctor} (h : c ∈ shipped) : tells own c = false := by
  simp [tells, h]

theorem round_one_untold {own : List Ext.Ctor} {r : Reg} (h : tells own r.ctor = false) (st : Nat) (o : Bytes → Outcome) :
    roundOne own st o r = r := by
  unfold roundOne; rw [h]; rfl

theorem round_untold {own : List Ext.Ctor} {regs : List Reg} (h : ∀ r ∈ regs, tells own r.ctor = false) (st : Nat)
    (o : Nat → Bytes → Outcome) : (regs.mapIdx fun i r => roundOne own st (o i) r) = regs := by
  apply List.ext_getElem (by simp)
  intro i h1 h2
  rw [List.getElem_mapIdx]
  exact round_one_untold (h _ (List.getElem_mem h2)) _ _

theorem told_untold {own : List Ext.Ctor} {regs : List Reg} (h : ∀ r ∈ regs, tells own r.ctor = false) : told own regs = [] := by
  unfold told
  rw [List.flatMap_eq_nil_iff]
  intro r hr
  rw [h r hr]; rfl

theorem rounds_untold {own : List Ext.Ctor} {s : Told.St} (h : ∀ r ∈ s.regs, tells own r.ctor = false) {ops : List Told.Op}
    (ho : ∀ op ∈ ops, ∃ o, op = .round o) : Told.play own s ops = s := by
  induction ops with
  | nil => rfl
  | cons op ops ih =>
    obtain ⟨o, rfl⟩ := ho op (List.mem_cons_self ..)
    show Told.play own (Told.step own s (.round o)) ops = s
    have e : Told.step own s (.round o) = s := by
      show ({ s with regs := _ } : Told.St) = s
      rw [round_untold h]
    rw [e]
    exact ih fun op hop => ho op (List.mem_cons_of_mem _ hop)

/-- A failed command is repeated by a round of the failback, and a service is left alone otherwise, if and only if the registry
tells statuses. -/
theorem round_one_service {own : List Ext.Ctor} {r : Reg} (hn : r.services.NodupKeys) (st : Nat) (o : Bytes → Outcome) (k : Bytes) :
    AMap.load (roundOne own st o r).services k =
      (AMap.load r.services k).map fun e =>
        if tells own r.ctor = true then
          match repair st e.stat with
          | some b => command b (o k) e
          | none => e
        else e := by
  unfold roundOne
  by_cases ht : tells own r.ctor = true
  · rw [if_pos ht]
    simp only [ht, if_true]
    have key : ∀ (l : List (Bytes × Entry)) (g : Registry), (l.map (·.1)).Nodup → (∀ x ∈ l, AMap.load g x.1 = some x.2) →
        AMap.load ((l.map fun x => (x.1, x.2.stat)).foldl (repeatOne st o) g) k =
          if k ∈ l.map (·.1) then (AMap.load g k).map fun e =>
            match repair st e.stat with
            | some b => command b (o k) e
            | none => e
          else AMap.load g k := by
      intro l
      induction l with
      | nil => intro g _ _; simp
      | cons x l ih =>
        intro g hnd hl
        rw [List.map_cons, List.nodup_cons] at hnd
        have hx := hl x (List.mem_cons_self ..)
        have step : ∀ k', AMap.load (repeatOne st o g (x.1, x.2.stat)) k' = if k' = x.1 then (AMap.load g k').map fun e =>
            match repair st e.stat with
            | some b => command b (o k') e
            | none => e
          else AMap.load g k' := by
          intro k'
          unfold repeatOne
          dsimp only
          cases hr : repair st x.2.stat with
          | none =>
            dsimp only
            by_cases e : k' = x.1
            · subst e; simp [hx, hr]
            · simp [e]
          | some b =>
            dsimp only
            unfold commandOne
            rw [hx]
            dsimp only
            rw [AMap.load_store]
            by_cases e : k' = x.1
            · subst e; simp [hx, hr]
            · rw [if_neg e, if_neg fun e' : x.1 = k' => e e'.symm]
        rw [List.map_cons, List.foldl_cons, ih _ hnd.2]
        · rw [step]
          by_cases e : k = x.1
          · subst e; simp [hnd.1]
          · have hm : (k ∈ (x :: l).map (·.1)) ↔ k ∈ l.map (·.1) := by
              rw [List.map_cons, List.mem_cons]
              exact ⟨fun h => h.resolve_left e, .inr⟩
            by_cases hk : k ∈ l.map (·.1)
            · rw [if_pos hk, if_neg e, if_pos (hm.2 hk)]
            · rw [if_neg hk, if_neg e, if_neg fun h => hk (hm.1 h)]
        · intro y hy
          rw [step]
          have : y.1 ≠ x.1 := fun e => hnd.1 (e ▸ List.mem_map_of_mem hy)
          rw [if_neg this]
          exact hl y (List.mem_cons_of_mem _ hy)
    have h := key r.services r.services hn (fun x hx => AMap.load_of_mem hn hx)
    show AMap.load ((statusMap r.services).foldl (repeatOne st o) r.services) k = _
    unfold statusMap
    rw [h]
    split
    · rfl
    · rename_i hk
      rw [AMap.load_eq_none.2 hk]; rfl
  · rw [if_neg ht]
    simp only [ht]
    simp

/-! ## Properties -/

/-- **C76, which commands are repeated.** One round of the failback, whatever comes of its commands: a service whose registry
tells statuses is told again what it was told, if that failed and the status still says so; every other service is left as it is. -/
theorem failback_round {own : List Ext.Ctor} {s : Told.St} {r : Nat} {g : Reg} (hg : s.regs[r]? = some g)
    (hn : g.services.NodupKeys) {k : Bytes} {e : Entry} (he : Spec.toldAt s r k = some e) (o : Nat → Bytes → Outcome) :
    Spec.toldAt (Told.step own s (.round o)) r k = some
      (if tells own g.ctor = true ∧ s.status = 200 ∧ e.stat = .registerFailed then command true (o r k) e
       else if tells own g.ctor = true ∧ s.status = 503 ∧ e.stat = .unregisterFailed then command false (o r k) e
       else e) := by
  unfold Spec.toldAt at he ⊢
  rw [hg] at he
  have he : AMap.load g.services k = some e := he
  show ((s.regs.mapIdx fun i r => roundOne own s.status (o i) r)[r]?).bind _ = _
  rw [List.getElem?_mapIdx, hg]
  show AMap.load (roundOne own s.status (o r) g).services k = _
  rw [round_one_service hn, he]
  show some _ = some _
  congr 1
  unfold repair
  by_cases ht : tells own g.ctor = true
  · simp only [ht, if_true, true_and]
    by_cases h1 : s.status = 200 ∧ e.stat = .registerFailed
    · simp [h1]
    · by_cases h2 : s.status = 503 ∧ e.stat = .unregisterFailed
      · simp [h2]
      · simp [h1, h2]
  · simp [ht]

/-- **C76, the registries of the repository tell nothing** (a finding). If the application registers no type of registry of its
own, a registration that failed is never repeated: after all services have been switched, any number of rounds of the failback
leaves every service as the switch left it. And the status page says that all went well and lists no service, whatever failed. -/
theorem failback_does_nothing_violated {own : List Ext.Ctor} {s : Told.St} (hl : ∀ g ∈ s.regs, Spec.OfTheLibrary g.ctor) (b : Bool)
    (o : Nat → Bytes → Outcome) {rounds : List Told.Op} (hr : ∀ op ∈ rounds, ∃ o, op = .round o) :
    (∀ r k, Spec.toldAt (Told.play own s (.switchAll b o :: rounds)) r k = (Spec.toldAt s r k).map (command b (o r k))) ∧
    Told.page own (Told.play own s (.switchAll b o :: rounds)) = (if b then .registered else .unregistered, []) := by
  have hs : ∀ g ∈ (Told.step own s (.switchAll b o)).regs, tells own g.ctor = false := by
    intro g hg
    have hg : g ∈ s.regs.mapIdx fun i r => switchOne b (o i) r := hg
    obtain ⟨i, hi, rfl⟩ := List.mem_mapIdx.1 hg
    exact shipped_untold own (library_types (hl (s.regs[i]) (List.getElem_mem hi)))
  have e : Told.play own s (.switchAll b o :: rounds) = Told.step own s (.switchAll b o) := rounds_untold hs hr
  rw [e]
  constructor
  · intro r k
    unfold Spec.toldAt
    show ((s.regs.mapIdx fun i r => switchOne b (o i) r)[r]?).bind _ = _
    rw [List.getElem?_mapIdx]
    cases s.regs[r]? with
    | none => rfl
    | some g =>
      show AMap.load (switchOne b (o r) g).services k = (AMap.load g.services k).map (command b (o r k))
      unfold switchOne
      dsimp only
      generalize g.services = m
      induction m with
      | nil => rfl
      | cons x m ih =>
        rw [List.map_cons, AMap.load_cons, AMap.load_cons, ih]
        by_cases hk : x.1 = k
        · subst hk; simp
        · simp [hk]
  · unfold Told.page
    rw [told_untold hs]
    cases b <;> rfl

/-! ## A case -/

/-- A zookeeper registry with a service to be checked: its registration fails, the failback repeats nothing, and the page says
that it succeeded. With a registry of the application's that tells statuses the failback repeats it and all is well. -/
example : ∃ s : Told.St, s.regs ≠ [] ∧ (∀ g ∈ s.regs, Spec.OfTheLibrary g.ctor) ∧
    Spec.toldAt (Told.play [] s [.switchAll true fun _ _ => .failed false, .round fun _ _ => .ok]) 0 b!"svc" =
      some ⟨.registerFailed, false, true⟩ ∧
    Told.page [] (Told.play [] s [.switchAll true fun _ _ => .failed false, .round fun _ _ => .ok]) = (.registered, []) :=
  ⟨{ regs := [⟨b!"ZkRegistry", [(b!"svc", { check := true })]⟩] }, by decide,
    fun g hg => ⟨[], { protocol := b!"zookeeper", host := b!"zk", port := 2181 },
      ⟨b!"ZkRegistry", { protocol := b!"zookeeper", host := b!"zk", port := 2181 }, 0⟩, by simp, by decide +kernel, by
        rw [List.mem_singleton.1 hg]⟩,
    by decide +kernel, by decide +kernel⟩

example : ∃ s : Told.St,
    Spec.toldAt (Told.play [b!"Mine"] s [.switchAll true fun _ _ => .failed false, .round fun _ _ => .ok]) 0 b!"svc" =
      some ⟨.registered, true, true⟩ ∧
    Told.page [b!"Mine"] (Told.play [b!"Mine"] s [.switchAll true fun _ _ => .failed false]) =
      (.registerFailed, [⟨.registerFailed, false, true⟩]) :=
  ⟨{ regs := [⟨b!"Mine", [(b!"svc", { check := true })]⟩] }, by decide +kernel, by decide +kernel⟩

end Motan.Props
