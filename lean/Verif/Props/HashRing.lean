import Verif.Model.HashRing
import Verif.Props.Select

/-!
# Consistent hashing keeps a key on one server (C69)
-/

namespace Motan.Props

open HashRing

namespace Spec

/-- What is assumed of the library: a ring can only be made of some members, and a key belongs to one of them. -/
structure RingLib {E L : Type} (c : HashRing.Conf E L) : Prop where
  some : ∀ part replica load f, c.make part replica load [] ≠ Option.some f
  range : ∀ part replica load addrs f, c.make part replica load addrs = Option.some f → ∀ key, f key < addrs.length

/-- The order of the members does not matter: a key belongs to the same address. -/
def OrderFree {E L : Type} (c : HashRing.Conf E L) : Prop :=
  ∀ part replica load as bs f g, as.Perm bs → c.make part replica load as = some f → c.make part replica load bs = some g →
    ∀ key, as[f key]? = bs[g key]?

/-- Rings of several members can be made. -/
def Makes {E L : Type} (c : HashRing.Conf E L) : Prop :=
  ∀ (p : HashRing.Params L) (eps : List E), eps ≠ [] → ∃ f, (build c p eps).2 = some f

/-- The last list that is not empty. -/
def lastNonempty {E : Type} (lists : List (List E)) : List E := ((lists.filter (· ≠ [])).getLast?).getD []

/-- The lists of the refreshes that have begun. -/
def refreshes {E : Type} (ops : List (HashRing.Op E)) : List (List E) :=
  ops.filterMap fun o => match o with | .refresh l => some l | _ => none

/-- How many calls of `Select` have begun. -/
def selects {E : Type} (ops : List (HashRing.Op E)) : Nat := (ops.filter fun o => match o with | .call _ => true | _ => false).length

end Spec

namespace Ring

open Spec

variable {E L : Type}

theorem snoc_ind {α : Type} {P : List α → Prop} (h0 : P []) (h1 : ∀ l a, P l → P (l ++ [a])) (l : List α) : P l := by
  have key : ∀ (l acc : List α), P acc → P (acc ++ l) := by
    intro l
    induction l with
    | nil => intro acc h; simpa using h
    | cons a l ih =>
      intro acc h
      have := ih (acc ++ [a]) (h1 acc a h)
      simpa using this
  exact key l [] h0

theorem after_snoc (c : HashRing.Conf E L) (ls : List (List E)) (l : List E) : after c (ls ++ [l]) = refresh c (after c ls) l := by
  simp [after, List.foldl_append]

/-- The ring is that of the endpoints. -/
structure RInv (c : HashRing.Conf E L) (s : HashRing.St E L) : Prop where
  ring : ∀ ms f, s.ring = some (ms, f) → ms = s.eps ∧ ∀ key, f key < ms.length
  many : s.eps.length ≠ 1 → s.eps ≠ [] → s.ring ≠ none
  none : s.eps = [] → s.ring = none

theorem attempt_some {c : HashRing.Conf E L} {part rep : Int} {eps : List E} : ∀ (n : Nat) (load : L) {f l},
    attempt c part rep eps n load = some (f, l) → c.make part rep l (eps.map c.addr) = some f := by
  intro n
  induction n with
  | zero => intro load f l h; cases h
  | succ n ih =>
    intro load f l h
    unfold attempt at h
    cases hm : c.make part rep load (eps.map c.addr) with
    | some g => rw [hm] at h; cases h; exact hm
    | none => rw [hm] at h; exact ih _ h

theorem build_some {c : HashRing.Conf E L} {p : HashRing.Params L} {eps : List E} {f} (h : (build c p eps).2 = some f) :
    ∃ l, (build c p eps).1 = { part := partSize c p.part eps.length, load := some l, replica := replicaOf c p.replica eps.length } ∧
      c.make (partSize c p.part eps.length) (replicaOf c p.replica eps.length) l (eps.map c.addr) = some f := by
  unfold build at h ⊢
  simp only at h ⊢
  cases ha : attempt c (partSize c p.part eps.length) (replicaOf c p.replica eps.length) eps 21 (p.load.getD c.firstLoad) with
  | none => rw [ha] at h; cases h
  | some x =>
    obtain ⟨g, l⟩ := x
    rw [ha] at h
    cases h
    exact ⟨l, rfl, attempt_some 21 _ ha⟩

theorem RInv.refresh {c : HashRing.Conf E L} (hc : RingLib c) {s : HashRing.St E L} (hI : RInv c s) (eps : List E) :
    RInv c (HashRing.refresh c s eps) := by
  unfold HashRing.refresh
  split
  · rename_i h1
    refine ⟨fun _ _ h => by simp at h, fun h => absurd h1 h, fun h => rfl⟩
  · cases hb : (build c s.params eps).2 with
    | none => exact ⟨hI.ring, hI.many, hI.none⟩
    | some f =>
      obtain ⟨l, _, hm⟩ := build_some hb
      refine ⟨?_, fun _ _ => by simp, ?_⟩
      · intro ms g h
        simp only [Option.some.injEq, Prod.mk.injEq] at h
        obtain ⟨rfl, rfl⟩ := h
        refine ⟨rfl, fun key => ?_⟩
        have := hc.range _ _ _ _ _ hm key
        simpa using this
      · intro h0
        simp only at h0
        subst h0
        exact absurd hm (hc.some _ _ _ _)

theorem RInv.after {c : HashRing.Conf E L} (hc : RingLib c) (ls : List (List E)) : RInv c (after c ls) := by
  induction ls using snoc_ind with
  | h0 => exact ⟨fun _ _ h => (by cases h), fun _ h => absurd rfl h, fun _ => rfl⟩
  | h1 ls l ih => rw [after_snoc]; exact ih.refresh hc l

end Ring

open Ring in
/-- **C69.** After any refreshes the endpoints that are chosen from are those of the last list that was not empty. -/
theorem ring_current {E L : Type} (c : HashRing.Conf E L) (hc : Spec.RingLib c) (hm : Spec.Makes c) (ls : List (List E)) :
    (after c ls).eps = Spec.lastNonempty ls := by
  induction ls using snoc_ind with
  | h0 => rfl
  | h1 ls l ih =>
    rw [after_snoc]
    unfold HashRing.refresh
    by_cases h0 : l = []
    · subst h0
      rw [if_neg (by simp)]
      cases hb : (build c (after c ls).params []).2 with
      | some f =>
        obtain ⟨_, _, h⟩ := build_some hb
        exact absurd h (hc.some _ _ _ _)
      | none =>
        simp only
        rw [ih]
        simp [Spec.lastNonempty]
    · have hl : Spec.lastNonempty (ls ++ [l]) = l := by
        simp [Spec.lastNonempty, List.filter_append, h0]
      rw [hl]
      split
      · rfl
      · obtain ⟨f, hf⟩ := hm (after c ls).params l h0
        rw [hf]

open Ring in
/-- **C69.** Between two refreshes a key has a home: an endpoint that is chosen whenever it is available, whatever else is;
and if it is not, another is. -/
theorem ring_home {E L : Type} (c : HashRing.Conf E L) (hc : Spec.RingLib c) (ls : List (List E)) (key : Bytes) (hk : key ≠ [])
    (hne : (after c ls).eps ≠ []) :
    ∃ home ∈ (after c ls).eps,
      (∀ avail r1 r2, avail home = true → HashRing.select (after c ls) avail key r1 r2 = some (some home)) ∧
      (∀ avail r1 r2, (after c ls).eps.length ≠ 1 → avail home = false → (∃ e ∈ (after c ls).eps, avail e = true) →
        ∃ e ∈ (after c ls).eps, avail e = true ∧ HashRing.select (after c ls) avail key r1 r2 = some (some e)) := by
  have hI := RInv.after hc ls
  generalize after c ls = s at hI hne
  by_cases h1 : s.eps.length = 1
  · obtain ⟨e, he⟩ := List.length_eq_one_iff.mp h1
    refine ⟨e, by simp [he], fun avail r1 r2 _ => ?_, fun _ _ _ h => absurd h1 h⟩
    unfold HashRing.select
    rw [if_pos h1, he]
    rfl
  · cases hr : s.ring with
    | none => exact absurd hr (hI.many h1 hne)
    | some x =>
      obtain ⟨ms, f⟩ := x
      obtain ⟨rfl, hlt⟩ := hI.ring ms f hr
      have hsel : ∀ avail r1 r2, HashRing.select s avail key r1 r2 = if avail (s.eps[f key]'(hlt key)) then some (some (s.eps[f key]'(hlt key)))
          else some ((Lb.selectOneAtRandom avail s.eps r1 r2).map Prod.snd) := by
        intro avail r1 r2
        unfold HashRing.select
        rw [if_neg h1, if_neg hk, hr]
        simp only [List.getElem?_eq_getElem (hlt key)]
      refine ⟨s.eps[f key]'(hlt key), List.getElem_mem _, ?_, ?_⟩
      · intro avail r1 r2 ha
        rw [hsel, if_pos ha]
      · intro avail r1 r2 _ ha hex
        rw [hsel, if_neg (by simp [ha])]
        obtain ⟨g1, g2⟩ := (selectOne_good avail s.eps r1 r2).1
        cases hs : (Lb.selectOneAtRandom avail s.eps r1 r2).map Prod.snd with
        | none =>
          obtain ⟨e, he, hae⟩ := hex
          rw [g2 hs e he] at hae
          cases hae
        | some e => exact ⟨e, (g1 e hs).1, (g1 e hs).2, rfl⟩

namespace Ring

open Spec

variable {E L : Type}

/-- The parameters are those of the configuration. -/
structure Fixed (c : HashRing.Conf E L) (s : HashRing.St E L) : Prop where
  part : s.params.part = 0 ∨ s.params.part = c.part
  load : s.params.load.getD c.firstLoad = c.firstLoad
  replica : s.params.replica = 0 ∨ s.params.replica = c.replica
  ring : ∀ ms f, s.ring = some (ms, f) → c.make c.part c.replica c.firstLoad (ms.map c.addr) = some f

theorem attempt_nil {c : HashRing.Conf E L} (hc : RingLib c) (part rep : Int) : ∀ n load, attempt c part rep [] n load = none := by
  intro n
  induction n with
  | zero => intro load; rfl
  | succ n ih =>
    intro load
    unfold attempt
    cases h : c.make part rep load ([].map c.addr) with
    | some f => exact absurd h (hc.some _ _ _ _)
    | none => exact ih _

theorem Fixed.refresh {c : HashRing.Conf E L} (hc : RingLib c) (hrep : 0 < c.replica)
    (hfirst : ∀ eps : List E, eps ≠ [] → eps.length * 2 ≤ c.part → ∃ f, c.make c.part c.replica c.firstLoad (eps.map c.addr) = some f)
    {s : HashRing.St E L} (hI : Fixed c s) (eps : List E) (hn : eps.length * 2 ≤ c.part) : Fixed c (HashRing.refresh c s eps) := by
  have hp : partSize c s.params.part eps.length = c.part := by
    unfold partSize
    simp only
    rcases hI.part with h | h
    · rw [if_pos h, if_neg (by omega)]
    · rw [h]
      split
      · rw [if_neg (by omega)]
      · rw [if_neg (by omega)]
  have hr : replicaOf c s.params.replica eps.length = c.replica := by
    unfold replicaOf
    rcases hI.replica with h | h
    · rw [if_pos h, if_neg (by omega)]
    · rw [h, if_neg (by omega)]
  unfold HashRing.refresh
  split
  · exact ⟨hI.part, hI.load, hI.replica, fun _ _ h => by cases h⟩
  · by_cases h0 : eps = []
    · subst h0
      have hb : build c s.params [] = ({ s.params with load := some (s.params.load.getD c.firstLoad), replica := c.replica }, none) := by
        unfold build
        simp only [attempt_nil hc]
        rw [hr]
      rw [hb]
      exact ⟨hI.part, by simp [hI.load], .inr rfl, hI.ring⟩
    · obtain ⟨f, hf⟩ := hfirst eps h0 hn
      have hb : build c s.params eps = ({ part := c.part, load := some c.firstLoad, replica := c.replica }, some f) := by
        unfold build
        simp only [hp, hr, hI.load]
        unfold attempt
        rw [hf]
      rw [hb]
      refine ⟨.inr rfl, rfl, .inr rfl, ?_⟩
      intro ms g h
      simp only [Option.some.injEq, Prod.mk.injEq] at h
      obtain ⟨rfl, rfl⟩ := h
      exact hf

theorem Fixed.after {c : HashRing.Conf E L} (hc : RingLib c) (hrep : 0 < c.replica)
    (hfirst : ∀ eps : List E, eps ≠ [] → eps.length * 2 ≤ c.part → ∃ f, c.make c.part c.replica c.firstLoad (eps.map c.addr) = some f)
    (ls : List (List E)) (hls : ∀ l ∈ ls, l.length * 2 ≤ c.part) : Fixed c (after c ls) := by
  induction ls using snoc_ind with
  | h0 => exact ⟨.inl rfl, rfl, .inl rfl, fun _ _ h => by cases h⟩
  | h1 ls l ih =>
    rw [after_snoc]
    exact (ih fun x hx => hls x (by simp [hx])).refresh hc hrep hfirst l (hls l (by simp))

end Ring

open Ring in
/-- **C69.** Two clients with the same configuration that know the same addresses now (in any order) send a key to the same
address, if the configuration gives the number of replicas and so many partitions that no list of either needs more, and if a
ring can be made with the configured load. -/
theorem ring_agree {E L : Type} (c : HashRing.Conf E L) (hc : Spec.RingLib c) (ho : Spec.OrderFree c) (hrep : 0 < c.replica)
    (hfirst : ∀ eps : List E, eps ≠ [] → eps.length * 2 ≤ c.part → ∃ f, c.make c.part c.replica c.firstLoad (eps.map c.addr) = some f)
    (ls ls' : List (List E)) (hls : ∀ l ∈ ls, l.length * 2 ≤ c.part) (hls' : ∀ l ∈ ls', l.length * 2 ≤ c.part)
    (hsame : ((after c ls).eps.map c.addr).Perm ((after c ls').eps.map c.addr)) (hne : (after c ls).eps ≠ [])
    (key : Bytes) (hk : key ≠ []) :
    ∃ e e', c.addr e = c.addr e' ∧
      (∀ avail r1 r2, avail e = true → HashRing.select (after c ls) avail key r1 r2 = some (some e)) ∧
      (∀ avail r1 r2, avail e' = true → HashRing.select (after c ls') avail key r1 r2 = some (some e')) := by
  have hI := RInv.after hc ls
  have hI' := RInv.after hc ls'
  have hF := Fixed.after hc hrep hfirst ls hls
  have hF' := Fixed.after hc hrep hfirst ls' hls'
  generalize after c ls = s at *
  generalize after c ls' = s' at *
  have hlen : s.eps.length = s'.eps.length := by simpa using hsame.length_eq
  by_cases h1 : s.eps.length = 1
  · obtain ⟨e, he⟩ := List.length_eq_one_iff.mp h1
    obtain ⟨e', he'⟩ := List.length_eq_one_iff.mp (hlen ▸ h1)
    refine ⟨e, e', ?_, ?_, ?_⟩
    · rw [he, he'] at hsame
      simpa using hsame
    · intro avail r1 r2 _
      unfold HashRing.select
      rw [if_pos h1, he]
      rfl
    · intro avail r1 r2 _
      unfold HashRing.select
      rw [if_pos (hlen ▸ h1), he']
      rfl
  · have hne' : s'.eps ≠ [] := by
      intro h
      rw [h] at hlen
      exact hne (List.eq_nil_of_length_eq_zero hlen)
    have h1' : s'.eps.length ≠ 1 := by rw [← hlen]; exact h1
    cases hr : s.ring with
    | none => exact absurd hr (hI.many h1 hne)
    | some x =>
      cases hr' : s'.ring with
      | none => exact absurd hr' (hI'.many h1' hne')
      | some x' =>
        obtain ⟨ms, f⟩ := x
        obtain ⟨ms', f'⟩ := x'
        obtain ⟨rfl, hlt⟩ := hI.ring ms f hr
        obtain ⟨rfl, hlt'⟩ := hI'.ring ms' f' hr'
        have := ho _ _ _ _ _ f f' hsame (hF.ring _ _ hr) (hF'.ring _ _ hr') key
        refine ⟨s.eps[f key]'(hlt key), s'.eps[f' key]'(hlt' key), ?_, ?_, ?_⟩
        · simpa [List.getElem?_eq_getElem, hlt key, hlt' key] using this
        · intro avail r1 r2 ha
          unfold HashRing.select
          rw [if_neg h1, if_neg hk, hr]
          simp only [List.getElem?_eq_getElem (hlt key), ha, if_true]
        · intro avail r1 r2 ha
          unfold HashRing.select
          rw [if_neg h1', if_neg hk, hr']
          simp only [List.getElem?_eq_getElem (hlt' key), ha, if_true]

/-- **C69.** A refresh changes the number of partitions, on which the home of every key depends, only if there are fewer than
two for each endpoint; and there always are two for each. -/
theorem ring_partitions {E L : Type} (c : HashRing.Conf E L) (s : HashRing.St E L) (l : List E) :
    ((refresh c s l).params.part = s.params.part ∨ s.params.part < l.length * 2 ∨ s.params.part = 0) ∧
    (l.length ≠ 1 → (build c s.params l).2.isSome → l.length * 2 ≤ (refresh c s l).params.part) := by
  unfold refresh
  split
  · rename_i h1
    exact ⟨.inl rfl, fun h => absurd h1 h⟩
  · cases hb : (build c s.params l).2 with
    | none =>
      refine ⟨.inl ?_, fun _ h => by simp at h⟩
      unfold build at hb ⊢
      simp only at hb ⊢
      split at hb
      · cases hb
      · rfl
    | some f =>
      obtain ⟨load, hp, _⟩ := Ring.build_some hb
      simp only [hp]
      refine ⟨?_, fun _ _ => ?_⟩
      · unfold partSize
        simp only
        by_cases h0 : s.params.part = 0
        · exact .inr (.inr h0)
        · rw [if_neg h0]
          split
          · right; left; omega
          · exact .inl rfl
      · unfold partSize
        simp only
        repeat' split
        all_goals omega

/-! ## Callers during a refresh -/

namespace Ring

open Spec

variable {E L : Type}

theorem writes_refresh (c : HashRing.Conf E L) (s : HashRing.St E L) (eps : List E) :
    (writesOf c s eps).foldl Write.apply { s with params := paramsOf c s eps } = refresh c s eps := by
  unfold writesOf paramsOf refresh
  split
  · rfl
  · cases (build c s.params eps).2 <;> rfl

theorem run_snoc_inv (c : HashRing.Conf E L) : ∀ (ops : List (HashRing.Op E)) (m m' : HashRing.M E L) (ls : List (List E)),
    m.writes.foldl Write.apply m.s = after c ls → HashRing.run c m ops = some m' →
    m'.writes.foldl Write.apply m'.s = after c (ls ++ refreshes ops) := by
  intro ops
  induction ops with
  | nil =>
    intro m m' ls h hr
    cases hr
    simpa [refreshes] using h
  | cons op ops ih =>
    intro m m' ls h hr
    obtain ⟨t, ht, hr⟩ := Option.bind_eq_some_iff.mp hr
    have key : t.writes.foldl Write.apply t.s = after c (ls ++ refreshes [op]) := by
      cases op with
      | refresh eps =>
        simp only [HashRing.step] at ht
        cases hw : m.writes with
        | nil =>
          rw [hw] at ht h
          cases ht
          simp only
          rw [writes_refresh]
          simp only [List.foldl_nil] at h
          simp only [refreshes, List.filterMap_cons, List.filterMap_nil]
          rw [after_snoc, h]
        | cons w ws => rw [hw] at ht; cases ht
      | write =>
        simp only [HashRing.step] at ht
        cases hw : m.writes with
        | nil => rw [hw] at ht; cases ht
        | cons w ws =>
          rw [hw] at ht h
          cases ht
          simpa [refreshes] using h
      | call key =>
        cases ht
        simpa [refreshes] using h
      | go i avail r1 r2 =>
        obtain ⟨pc, _, rfl⟩ := Option.map_eq_some_iff.mp ht
        simpa [refreshes] using h
    have := ih t m' _ key hr
    rw [List.append_assoc] at this
    have e : refreshes [op] ++ refreshes ops = refreshes (op :: ops) := by
      unfold refreshes
      rw [← List.filterMap_append]
      rfl
    rwa [e] at this

/-- All that can be chosen is in one of these lists. -/
structure From (A : List (List E)) (n : Nat) (m : HashRing.M E L) : Prop where
  eps : m.s.eps ∈ A
  ring : ∀ ms f, m.s.ring = some (ms, f) → ms ∈ A
  weps : ∀ l, Write.eps l ∈ m.writes → l ∈ A
  wring : ∀ ms f, Write.ring (some (ms, f)) ∈ m.writes → ms ∈ A
  pcs : ∀ (i : Nat) e, n ≤ i → m.pcs[i]? = some (.done (some e)) → ∃ l ∈ A, e ∈ l

theorem mem_writesOf {c : HashRing.Conf E L} {s : HashRing.St E L} {eps : List E} :
    (∀ l, Write.eps l ∈ writesOf c s eps → l = eps) ∧ (∀ ms f, Write.ring (some (ms, f)) ∈ writesOf c s eps → ms = eps ∧ eps.length ≠ 1 ∧ (build c s.params eps).2 = some f) := by
  unfold writesOf
  split
  · simp
  · rename_i h1
    cases hb : (build c s.params eps).2 with
    | none => simp
    | some f =>
      refine ⟨by simp, ?_⟩
      intro ms g h
      simp at h
      obtain ⟨rfl, rfl⟩ := h
      exact ⟨rfl, h1, rfl⟩

theorem From.step {A : List (List E)} {n : Nat} {c : HashRing.Conf E L} {m t : HashRing.M E L} {op : HashRing.Op E}
    (hI : From A n m) (hop : ∀ l ∈ refreshes [op], l ∈ A) (h : HashRing.step c m op = some t) : From A n t := by
  cases op with
  | refresh eps =>
    simp only [HashRing.step] at h
    cases hw : m.writes with
    | cons w ws => rw [hw] at h; cases h
    | nil =>
      rw [hw] at h
      cases h
      have he : eps ∈ A := hop eps (by simp [refreshes])
      refine ⟨hI.eps, hI.ring, ?_, ?_, hI.pcs⟩
      · intro l hl; rw [mem_writesOf.1 l hl]; exact he
      · intro ms f hl; rw [(mem_writesOf.2 ms f hl).1]; exact he
  | write =>
    simp only [HashRing.step] at h
    cases hw : m.writes with
    | nil => rw [hw] at h; cases h
    | cons w ws =>
      rw [hw] at h
      cases h
      refine ⟨?_, ?_, ?_, ?_, hI.pcs⟩
      · cases w with
        | eps l => exact hI.weps l (by simp [hw])
        | ring r => exact hI.eps
      · intro ms f hr
        cases w with
        | eps l => exact hI.ring ms f hr
        | ring r =>
          simp only [Write.apply] at hr
          subst hr
          exact hI.wring ms f (by simp [hw])
      · intro l hl; exact hI.weps l (by simp [hw, hl])
      · intro ms f hl; exact hI.wring ms f (by simp [hw, hl])
  | call key =>
    cases h
    refine ⟨hI.eps, hI.ring, hI.weps, hI.wring, ?_⟩
    intro i e hi h1
    simp only [List.getElem?_append] at h1
    split at h1
    · exact hI.pcs i e hi h1
    · have := List.mem_of_getElem? h1
      simp at this
  | go j avail r1 r2 =>
    obtain ⟨pc, hpc, rfl⟩ := Option.map_eq_some_iff.mp h
    obtain ⟨old, hold, hnext⟩ := Option.bind_eq_some_iff.mp hpc
    refine ⟨hI.eps, hI.ring, hI.weps, hI.wring, ?_⟩
    intro i e hi h1
    simp only [List.getElem?_set] at h1
    split at h1
    · split at h1
      · cases h1
        cases old with
        | start key =>
          simp only [Pc.next, Option.some.injEq] at hnext
          repeat' split at hnext
          all_goals cases hnext
        | single =>
          simp only [Pc.next, Option.some.injEq] at hnext
          split at hnext
          · cases hnext
            rename_i h0
            exact ⟨_, hI.eps, List.mem_of_getElem? h0⟩
          · cases hnext
        | hash key =>
          simp only [Pc.next] at hnext
          split at hnext
          · cases hnext
          · rename_i ms f hr
            split at hnext
            · cases hnext
            · rename_i x hx
              split at hnext
              · cases hnext
                exact ⟨_, hI.ring ms f hr, List.mem_of_getElem? hx⟩
              · cases hnext
        | random =>
          simp only [Pc.next, Option.some.injEq, Pc.done.injEq] at hnext
          exact ⟨_, hI.eps, ((selectOne_good avail m.s.eps r1 r2).1.1 e hnext).1⟩
        | done _ => cases hnext
        | panicked => cases hnext
      · cases h1
    · exact hI.pcs i e hi h1

theorem From.run {A : List (List E)} {n : Nat} {c : HashRing.Conf E L} : ∀ (ops : List (HashRing.Op E)) {m t : HashRing.M E L},
    From A n m → (∀ l ∈ refreshes ops, l ∈ A) → HashRing.run c m ops = some t → From A n t := by
  intro ops
  induction ops with
  | nil => intro m t hI _ h; cases h; exact hI
  | cons op ops ih =>
    intro m t hI hA h
    obtain ⟨u, hu, h⟩ := Option.bind_eq_some_iff.mp h
    have e : refreshes (op :: ops) = refreshes [op] ++ refreshes ops := by
      unfold refreshes
      rw [← List.filterMap_append]
      rfl
    rw [e] at hA
    exact ih (hI.step (fun l hl => hA l (by simp [hl])) hu) (fun l hl => hA l (by simp [hl])) h

/-- There always is a ring. -/
structure Ready (n : Nat) (m : HashRing.M E L) : Prop where
  eps : m.s.eps.length ≠ 1
  ring : ∃ ms f, m.s.ring = some (ms, f) ∧ ∀ key, f key < ms.length
  weps : ∀ l, Write.eps l ∈ m.writes → l.length ≠ 1
  wring : ∀ r, Write.ring r ∈ m.writes → ∃ ms f, r = some (ms, f) ∧ ∀ key, f key < ms.length
  pcs : ∀ (i : Nat) pc, n ≤ i → m.pcs[i]? = some pc → pc ≠ .panicked ∧ pc ≠ .single

theorem Ready.step {n : Nat} {c : HashRing.Conf E L} (hc : RingLib c) {m t : HashRing.M E L} {op : HashRing.Op E}
    (hI : Ready n m) (hop : ∀ l ∈ refreshes [op], l.length ≠ 1) (h : HashRing.step c m op = some t) : Ready n t := by
  cases op with
  | refresh eps =>
    simp only [HashRing.step] at h
    cases hw : m.writes with
    | cons w ws => rw [hw] at h; cases h
    | nil =>
      rw [hw] at h
      cases h
      have he : eps.length ≠ 1 := hop eps (by simp [refreshes])
      refine ⟨hI.eps, hI.ring, ?_, ?_, hI.pcs⟩
      · intro l hl; rw [mem_writesOf.1 l hl]; exact he
      · intro r hl
        cases r with
        | none =>
          exfalso
          unfold writesOf at hl
          rw [if_neg he] at hl
          split at hl <;> simp at hl
        | some x =>
          obtain ⟨ms, f⟩ := x
          obtain ⟨rfl, _, hb⟩ := mem_writesOf.2 ms f hl
          obtain ⟨l, _, hm⟩ := build_some hb
          refine ⟨ms, f, rfl, fun key => ?_⟩
          have := hc.range _ _ _ _ _ hm key
          simpa using this
  | write =>
    simp only [HashRing.step] at h
    cases hw : m.writes with
    | nil => rw [hw] at h; cases h
    | cons w ws =>
      rw [hw] at h
      cases h
      refine ⟨?_, ?_, ?_, ?_, hI.pcs⟩
      · cases w with
        | eps l => exact hI.weps l (by simp [hw])
        | ring r => exact hI.eps
      · cases w with
        | eps l => exact hI.ring
        | ring r => exact hI.wring r (by simp [hw])
      · intro l hl; exact hI.weps l (by simp [hw, hl])
      · intro r hl; exact hI.wring r (by simp [hw, hl])
  | call key =>
    cases h
    refine ⟨hI.eps, hI.ring, hI.weps, hI.wring, ?_⟩
    intro i pc hi h1
    simp only [List.getElem?_append] at h1
    split at h1
    · exact hI.pcs i pc hi h1
    · have := List.mem_of_getElem? h1
      simp at this
      subst this
      simp
  | go j avail r1 r2 =>
    obtain ⟨pc, hpc, rfl⟩ := Option.map_eq_some_iff.mp h
    obtain ⟨old, hold, hnext⟩ := Option.bind_eq_some_iff.mp hpc
    refine ⟨hI.eps, hI.ring, hI.weps, hI.wring, ?_⟩
    intro i pc' hi h1
    simp only [List.getElem?_set] at h1
    split at h1
    · rename_i hij
      subst hij
      split at h1
      · cases h1
        cases old with
        | start key =>
          simp only [Pc.next, if_neg hI.eps, Option.some.injEq] at hnext
          subst hnext
          split <;> simp
        | single => exact absurd rfl (hI.pcs j _ hi hold).2
        | hash key =>
          obtain ⟨ms, f, hr, hlt⟩ := hI.ring
          simp only [Pc.next, hr, List.getElem?_eq_getElem (hlt key), Option.some.injEq] at hnext
          subst hnext
          split <;> simp
        | random =>
          simp only [Pc.next, Option.some.injEq] at hnext
          subst hnext
          simp
        | done _ => cases hnext
        | panicked => cases hnext
      · cases h1
    · exact hI.pcs i pc' hi h1

theorem Ready.run {n : Nat} {c : HashRing.Conf E L} (hc : RingLib c) : ∀ (ops : List (HashRing.Op E)) {m t : HashRing.M E L},
    Ready n m → (∀ l ∈ refreshes ops, l.length ≠ 1) → HashRing.run c m ops = some t → Ready n t := by
  intro ops
  induction ops with
  | nil => intro m t hI _ h; cases h; exact hI
  | cons op ops ih =>
    intro m t hI hA h
    obtain ⟨u, hu, h⟩ := Option.bind_eq_some_iff.mp h
    have e : refreshes (op :: ops) = refreshes [op] ++ refreshes ops := by
      unfold refreshes
      rw [← List.filterMap_append]
      rfl
    rw [e] at hA
    exact ih (hI.step hc (fun l hl => hA l (by simp [hl])) hu) (fun l hl => hA l (by simp [hl])) h

end Ring

open Ring in
/-- **C69.** Calls at the same time as refreshes: when no refresh is under way, the load balancer is as if nobody had called. -/
theorem ring_settled {E L : Type} (c : HashRing.Conf E L) (ops : List (HashRing.Op E)) (m : HashRing.M E L)
    (hr : HashRing.run c {} ops = some m) (hw : m.writes = []) : m.s = after c (Spec.refreshes ops) := by
  have := run_snoc_inv c ops {} m [] rfl hr
  rw [hw] at this
  simpa using this

open Ring in
/-- **C69.** A call that begins after a refresh has ended gets an endpoint of the list used then, or of a later one, whatever is
refreshed while it is under way. -/
theorem ring_not_stale {E L : Type} (c : HashRing.Conf E L) (hc : Spec.RingLib c) (pre post : List (HashRing.Op E))
    (m0 m : HashRing.M E L) (h0 : HashRing.run c {} pre = some m0) (hw : m0.writes = []) (h1 : HashRing.run c m0 post = some m)
    (i : Nat) (e : E) (hi : m0.pcs.length ≤ i) (he : m.pcs[i]? = some (.done (some e))) :
    e ∈ (after c (Spec.refreshes pre)).eps ∨ ∃ l ∈ Spec.refreshes post, e ∈ l := by
  have hs := ring_settled c pre m0 h0 hw
  have hI := RInv.after hc (Spec.refreshes pre)
  rw [← hs] at hI ⊢
  have hF : From (m0.s.eps :: Spec.refreshes post) m0.pcs.length m0 := by
    refine ⟨by simp, ?_, ?_, ?_, ?_⟩
    · intro ms f hr
      rw [(hI.ring ms f hr).1]
      simp
    · intro l hl; rw [hw] at hl; cases hl
    · intro ms f hl; rw [hw] at hl; cases hl
    · intro j e' hj hd
      rw [List.getElem?_eq_none hj] at hd
      cases hd
  obtain ⟨l, hl, hel⟩ := (hF.run post (fun l hl => by simp [hl]) h1).pcs i e hi he
  simp only [List.mem_cons] at hl
  rcases hl with rfl | hl
  · exact .inl hel
  · exact .inr ⟨l, hl, hel⟩

open Ring in
/-- **C69.** And it does not panic, if there are endpoints and no list, then or later, has exactly one. -/
theorem ring_no_panic {E L : Type} (c : HashRing.Conf E L) (hc : Spec.RingLib c) (pre post : List (HashRing.Op E))
    (m0 m : HashRing.M E L) (h0 : HashRing.run c {} pre = some m0) (hw : m0.writes = []) (h1 : HashRing.run c m0 post = some m)
    (hne : (after c (Spec.refreshes pre)).eps ≠ []) (hpre : (after c (Spec.refreshes pre)).eps.length ≠ 1)
    (hpost : ∀ l ∈ Spec.refreshes post, l.length ≠ 1) (i : Nat) (hi : m0.pcs.length ≤ i) :
    m.pcs[i]? ≠ some .panicked := by
  have hs := ring_settled c pre m0 h0 hw
  have hI := RInv.after hc (Spec.refreshes pre)
  rw [← hs] at hI hne hpre
  have hF : Ready m0.pcs.length m0 := by
    refine ⟨hpre, ?_, ?_, ?_, ?_⟩
    · cases hr : m0.s.ring with
      | none => exact absurd hr (hI.many hpre hne)
      | some x => exact ⟨x.1, x.2, rfl, (hI.ring x.1 x.2 hr).2⟩
    · intro l hl; rw [hw] at hl; cases hl
    · intro r hl; rw [hw] at hl; cases hl
    · intro j pc hj hd
      rw [List.getElem?_eq_none hj] at hd
      cases hd
  intro h
  exact ((hF.run hc post hpost h1).pcs i _ hi h).1 rfl

namespace Ring.Ex

/-- A library that gives all keys to the first or the second member, depending on the number of partitions. -/
def conf (part replica : Int) : HashRing.Conf Nat Nat :=
  { addr := fun e => [e.toUInt8], part := part, replica := replica, firstLoad := 11, more := fun l => l + 1,
    make := fun p _ _ as => if as = [] then none else some fun _ => if p < 300 then 0 else as.length - 1 }

theorem lib (part replica : Int) : Spec.RingLib (conf part replica) := by
  constructor
  · intro p r l f h
    simp [conf] at h
  · intro p r l as f h key
    simp only [conf, Option.ite_none_left_eq_some, Option.some.injEq] at h
    obtain ⟨h0, rfl⟩ := h
    have : as.length ≠ 0 := fun h => h0 (List.eq_nil_of_length_eq_zero h)
    simp only
    split <;> omega

theorem makes (part replica : Int) : Spec.Makes (conf part replica) := by
  intro p eps h0
  refine ⟨fun _ => if partSize (conf part replica) p.part eps.length < 300 then 0 else (eps.map (conf part replica).addr).length - 1, ?_⟩
  unfold build
  simp only
  unfold attempt
  simp [conf, h0]

/-- `ring_home` and `ring_agree` are about something: a key has a home among three endpoints. -/
example : (after (conf 100 20) [[1, 2], [1, 2, 3]]).eps = [1, 2, 3] ∧
    HashRing.select (after (conf 100 20) [[1, 2], [1, 2, 3]]) (fun _ => true) b!"k" 2 0 = some (some 1) :=
  ⟨rfl, rfl⟩

/-- A library that gives all keys to the greatest address, if all addresses are one byte. -/
def best (as : List Bytes) : Bytes := [UInt8.ofNat (((as.map fun a => (a.headD 0).toNat).max?).getD 0)]

def conf' : HashRing.Conf Nat Nat :=
  { addr := fun e => [e.toUInt8], part := 100, replica := 20, firstLoad := 11, more := fun l => l + 1,
    make := fun _ _ _ as => if as ≠ [] ∧ ∀ a ∈ as, a.length = 1 then some fun _ => as.idxOf (best as) else none }

theorem best_mem {as : List Bytes} (h0 : as ≠ []) (h : ∀ a ∈ as, a.length = 1) : best as ∈ as ∧ ∀ a ∈ as, a.headD 0 ≤ (best as).headD 0 := by
  unfold best
  cases hm : (as.map fun a => (a.headD 0).toNat).max? with
  | none =>
    rw [List.max?_eq_none_iff] at hm
    exact absurd (List.map_eq_nil_iff.mp hm) h0
  | some x =>
    obtain ⟨h1, h2⟩ := List.max?_eq_some_iff.mp hm
    simp only [Option.getD_some, List.headD_cons]
    obtain ⟨a, ha, rfl⟩ := List.mem_map.mp h1
    simp only [UInt8.ofNat_toNat]
    refine ⟨?_, fun b hb => UInt8.le_iff_toNat_le.mpr (h2 _ (List.mem_map.mpr ⟨b, hb, rfl⟩))⟩
    obtain ⟨y, hy⟩ := List.length_eq_one_iff.mp (h a ha)
    subst hy
    exact ha

theorem lib' : Spec.RingLib conf' ∧ Spec.OrderFree conf' := by
  refine ⟨⟨?_, ?_⟩, ?_⟩
  · intro p r l f h
    simp [conf'] at h
  · intro p r l as f h key
    simp only [conf', Option.ite_none_right_eq_some, Option.some.injEq] at h
    obtain ⟨⟨h0, h1⟩, rfl⟩ := h
    exact List.idxOf_lt_length_of_mem (best_mem h0 h1).1
  · intro p r l as bs f g hp hf hg key
    simp only [conf', Option.ite_none_right_eq_some, Option.some.injEq] at hf hg
    obtain ⟨⟨h0, h1⟩, rfl⟩ := hf
    obtain ⟨⟨h0', h1'⟩, rfl⟩ := hg
    obtain ⟨a1, a2⟩ := best_mem h0 h1
    obtain ⟨b1, b2⟩ := best_mem h0' h1'
    have e : best as = best bs := by
      have e1 := a2 _ (hp.mem_iff.mpr b1)
      have e2 := b2 _ (hp.mem_iff.mp a1)
      have := UInt8.le_antisymm e2 e1
      unfold best at this ⊢
      simp only [List.headD_cons] at this
      rw [this]
    simp only
    rw [List.getElem?_eq_getElem (List.idxOf_lt_length_of_mem a1), List.getElem?_eq_getElem (List.idxOf_lt_length_of_mem b1)]
    simp [e]

/-- The hypotheses of `ring_agree` hold of two clients with different histories. -/
example : Spec.RingLib conf' ∧ Spec.OrderFree conf' ∧ 0 < conf'.replica ∧
    (∀ eps : List Nat, eps ≠ [] → eps.length * 2 ≤ conf'.part →
      ∃ f, conf'.make conf'.part conf'.replica conf'.firstLoad (eps.map conf'.addr) = some f) ∧
    (after conf' [[1, 2, 3], [2, 1]]).eps.Perm (after conf' [[1, 2]]).eps := by
  refine ⟨lib'.1, lib'.2, by decide, ?_, List.Perm.swap _ _ _⟩
  intro eps h _
  exact ⟨_, if_pos ⟨by simpa using h, by simp [conf']⟩⟩

/-- `ring_not_stale` and `ring_no_panic`: a call during a refresh. -/
example : ∃ m0 m, HashRing.run (conf 0 0) {} [.refresh [1, 2], .write, .write] = some m0 ∧ m0.writes = [] ∧
    HashRing.run (conf 0 0) m0 [.call b!"k", .refresh [3, 4], .go 0 (fun _ => true) 0 0, .write, .go 0 (fun _ => true) 0 0] = some m ∧
    m.pcs = [.done (some 3)] :=
  ⟨_, _, rfl, rfl, rfl, rfl⟩

end Ring.Ex

open Ring.Ex in
/-- **C69 fails in this case.** Without a configured number of partitions, two clients that know the same two servers send a key
to different ones for ever, because one of them has known more servers before. -/
theorem ring_history_violated : ∃ (c : HashRing.Conf Nat Nat) (ls ls' : List (List Nat)),
    Spec.RingLib c ∧ Spec.Makes c ∧ (after c ls).eps = [1, 2] ∧ (after c ls').eps = [1, 2] ∧
    (∀ r1 r2, HashRing.select (after c ls) (fun _ => true) b!"k" r1 r2 = some (some 1)) ∧
    (∀ r1 r2, HashRing.select (after c ls') (fun _ => true) b!"k" r1 r2 = some (some 2)) :=
  ⟨conf 0 0, [[1, 2]], [[1, 2, 3, 4, 5, 6, 7, 8, 9], [1, 2]], lib 0 0, makes 0 0, by decide +kernel, by decide +kernel, fun _ _ => rfl,
    fun _ _ => by rfl⟩

open Ring.Ex in
/-- **C69 fails in these cases.** A call panics: if the number of endpoints falls to one while it is under way; and if there
are no endpoints at all (so that it reports an internal error instead of saying so). -/
theorem ring_panic_violated :
    (∃ (ops : List (HashRing.Op Nat)) (m : HashRing.M Nat Nat), (∀ l ∈ Spec.refreshes ops, l ≠ []) ∧
      HashRing.run (conf 0 0) {} ops = some m ∧ m.pcs = [.panicked]) ∧
    (∀ avail r1 r2, HashRing.select (after (conf 0 0) [[]]) avail b!"k" r1 r2 = none) ∧
    (∀ avail r1 r2, HashRing.select (after (conf 0 0) [[]]) avail [] r1 r2 = some none) := by
  refine ⟨⟨[.refresh [1, 2], .write, .write, .call b!"k", .go 0 (fun _ => true) 0 0, .refresh [1], .write, .write,
    .go 0 (fun _ => true) 0 0], _, ?_, rfl, rfl⟩, fun _ _ _ => rfl, fun _ _ _ => rfl⟩
  simp [Spec.refreshes]

end Motan.Props
