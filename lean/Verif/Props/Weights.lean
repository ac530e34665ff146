import Verif.Proof.Weights

/-!
# C64: weighted selection uses the weights the servers announce

A schedule is a list of operations (`Weights.Op`) of the goroutine that refreshes the list of endpoints, of the one that
asks for weights at every tick, and of those that ask the servers, in any order.
-/

namespace Motan.Props

open Motan.Weights

/-! ## Specification -/

/-- The text of the weight in metadata: under the configured prefix, or else under `META_`. -/
def Spec.weightText (envPrefix : Bytes) (m : AMap Bytes Bytes) : Option Bytes :=
  match m.load (envPrefix ++ b!"WEIGHT") with
  | some v => some v
  | none => m.load b!"META_WEIGHT"

/-- The weight that metadata announce: a decimal number, brought into 1..500; nothing if there is no such text. -/
def Spec.weightIn (envPrefix : Bytes) (m : AMap Bytes Bytes) : Option Int :=
  match Spec.weightText envPrefix m with
  | none => none
  | some v => if (parseInt64 v).2 = none then some (max 1 (min 500 (parseInt64 v).1)) else none

/-- The weight an endpoint should have, when its server last answered `m?` (`none`: has not answered): what the server
says, or else what the URL says, or else 10. -/
def Spec.weightDue {E : Type} (env : Env E) (e : E) (m? : Option (AMap Bytes Bytes)) : Int :=
  (m?.bind (Spec.weightIn env.envPrefix)).getD ((Spec.weightIn env.envPrefix (env.params e)).getD 10)

/-- The list of endpoints given last. -/
def Spec.lastList {E : Type} (ops : List (Op E)) : Option (List E) :=
  ops.reverse.findSome? fun | .onRefresh eps => some eps | _ => none

/-- The metadata that came last for the holder `h`. -/
def Spec.lastMeta {E : Type} (ops : List (Op E)) (h : Nat) : Option (AMap Bytes Bytes) :=
  ops.reverse.findSome? fun | .answers _ _ k (.found m) => if k = h then some m else none | _ => none

/-- Nobody is refreshing anything. -/
def Spec.Quiet {E : Type} (s : St E) : Prop := s.refresh = .idle ∧ s.tick = .idle

/-- The endpoint a holder is for. -/
def Spec.epOf {E : Type} (s : St E) (h : Nat) : Option E := (s.heap[h]?).map Holder.ep

/-! ## The metadata -/

theorem load_filter_key {P : Bytes → Bool} : ∀ (m : AMap Bytes Bytes) (k : Bytes), P k = true →
    AMap.load (m.filter fun p => P p.1) k = m.load k
  | [], _, _ => rfl
  | (a, v) :: m, k, hk => by
    by_cases ha : P a = true
    · rw [List.filter_cons_of_pos (a := (a, v)) (p := fun p => P p.1) ha, AMap.load_cons, AMap.load_cons, load_filter_key m k hk]
    · rw [List.filter_cons_of_neg (a := (a, v)) (p := fun p => P p.1) ha, AMap.load_cons, load_filter_key m k hk]
      rw [if_neg]
      rintro rfl; exact ha hk

theorem isPrefixOf_self_append : ∀ (p s : Bytes), p.isPrefixOf (p ++ s) = true
  | [], _ => rfl
  | _ :: p, s => by simp [List.isPrefixOf, isPrefixOf_self_append p s]

theorem getMetaValue_eq (envPrefix : Bytes) (m : AMap Bytes Bytes) :
    getMetaValue envPrefix m weightSuffix = (Spec.weightText envPrefix m).getD [] := by
  have : defaultMetaPrefix ++ weightSuffix = b!"META_WEIGHT" := by decide +kernel
  simp only [getMetaValue, Spec.weightText, this]
  rw [show weightSuffix = b!"WEIGHT" from rfl]
  cases AMap.load m (envPrefix ++ b!"WEIGHT") <;> rfl

theorem adjust_eq (t : Option Bytes) (d : Int) : Lb.adjustWeight (t.getD []) d =
    (match t with
      | none => none
      | some v => if (parseInt64 v).2 = none then some (max 1 (min 500 (parseInt64 v).1)) else none).getD d := by
  have h0 : parseInt64 [] = (0, some .syntax) := rfl
  cases t with
  | none => rfl
  | some v =>
    simp only [Option.getD_some, Lb.adjustWeight]
    by_cases hv : v = []
    · subst hv; rw [if_pos rfl, h0]; rfl
    · rw [if_neg hv]
      cases hp : parseInt64 v with
      | mk n e =>
        cases e with
        | none =>
          simp only [if_true, Option.getD_some]
          by_cases h1 : n < 1
          · rw [if_pos h1]; omega
          · rw [if_neg h1]
            by_cases h2 : n > 500
            · rw [if_pos h2]; omega
            · rw [if_neg h2]; omega
        | some e => simp

/-- **C64.** The weight of an endpoint in its URL. -/
theorem static_weight (envPrefix : Bytes) (params : AMap Bytes Bytes) :
    staticWeight envPrefix params = (Spec.weightIn envPrefix params).getD 10 := by
  have hl : Spec.weightText envPrefix (getEpStaticMeta envPrefix params) = Spec.weightText envPrefix params := by
    have h1 := load_filter_key (P := fun k => defaultMetaPrefix.isPrefixOf k || envPrefix.isPrefixOf k) params
      (envPrefix ++ b!"WEIGHT") (by simp [isPrefixOf_self_append])
    have h2 := load_filter_key (P := fun k => defaultMetaPrefix.isPrefixOf k || envPrefix.isPrefixOf k) params
      b!"META_WEIGHT" (by rw [show (b!"META_WEIGHT" : Bytes) = defaultMetaPrefix ++ weightSuffix from by decide +kernel]
                          simp [isPrefixOf_self_append])
    simp only [Spec.weightText, getEpStaticMeta]
    rw [h1, h2]
  rw [staticWeight, getMetaValue_eq, adjust_eq, hl]
  rfl

/-- **C64.** The weight a server answers, 0 if it says nothing about it. -/
theorem answered_weight (envPrefix : Bytes) (m : AMap Bytes Bytes) :
    dynamicWeight envPrefix m = (Spec.weightIn envPrefix m).getD 0 := by
  rw [dynamicWeight, getMetaValue_eq, adjust_eq]
  rfl

theorem weightIn_range {envPrefix : Bytes} {m : AMap Bytes Bytes} {n : Int} (h : Spec.weightIn envPrefix m = some n) :
    1 ≤ n ∧ n ≤ 500 := by
  simp only [Spec.weightIn] at h
  split at h
  · cases h
  · split at h
    · cases h; omega
    · cases h

/-- Numbers written in decimal are understood. -/
theorem weight_decimal (envPrefix : Bytes) (m : AMap Bytes Bytes) (n : Int) (hlo : -2 ^ 63 ≤ n) (hhi : n < 2 ^ 63)
    (h : Spec.weightText envPrefix m = some (formatInt n)) :
    Spec.weightIn envPrefix m = some (max 1 (min 500 n)) := by
  simp [Spec.weightIn, h, parseInt64_formatInt n hlo hhi]

theorem holder_weight (hd : Holder E) (envPrefix : Bytes) (m? : Option (AMap Bytes Bytes))
    (h : hd.dynamic = (m?.map (dynamicWeight envPrefix)).getD 0) :
    hd.weight = (m?.bind (Spec.weightIn envPrefix)).getD hd.static := by
  simp only [Holder.weight, Lb.holderWeight, h]
  cases m? with
  | none => rfl
  | some m =>
    simp only [Option.map_some, Option.getD_some, Option.bind_some, answered_weight]
    cases hw : Spec.weightIn envPrefix m with
    | none => rfl
    | some n =>
      have := weightIn_range hw
      simp only [Option.getD_some]
      rw [if_pos (by omega)]

/-! ## All schedules -/

variable {E : Type} [DecidableEq E]

omit [DecidableEq E] in
theorem lastMeta_snoc (ops : List (Op E)) (op : Op E) (h : Nat) : Spec.lastMeta (ops ++ [op]) h =
    match op with
    | .answers _ _ k (.found m) => if k = h then some m else Spec.lastMeta ops h
    | _ => Spec.lastMeta ops h := by
  simp only [Spec.lastMeta, List.reverse_append, List.reverse_cons, List.reverse_nil, List.nil_append,
    List.singleton_append, List.findSome?_cons]
  cases op with
  | answers o i k a =>
    cases a with
    | found m =>
      by_cases e : k = h
      · simp [e]
      · simp [e]
    | notSupported => rfl
    | failed => rfl
  | _ => rfl

omit [DecidableEq E] in
theorem lastList_snoc (ops : List (Op E)) (op : Op E) : Spec.lastList (ops ++ [op]) =
    match op with
    | .onRefresh eps => some eps
    | _ => Spec.lastList ops := by
  simp only [Spec.lastList, List.reverse_append, List.reverse_cons, List.reverse_nil, List.nil_append,
    List.singleton_append, List.findSome?_cons]
  cases op <;> rfl

/-- The list is that of some call of `OnRefresh`. -/
def GivenList (ops : List (Op E)) (s : St E) (hs : List Nat) : Prop :=
  ∃ eps, Op.onRefresh eps ∈ ops ∧ hs.map (Spec.epOf s) = eps.map some

/-- Each weight is one its endpoint had. -/
def GivenWeights (env : Env E) (ops : List (Op E)) (s : St E) (hs : List Nat) (ws : List Int) : Prop :=
  ∀ (i h : Nat) (x : Int), hs[i]? = some h → ws[i]? = some x → ∃ e, Spec.epOf s h = some e ∧
    (x = (Spec.weightIn env.envPrefix (env.params e)).getD 10 ∨
      ∃ o j m, Op.answers o j h (.found m) ∈ ops ∧ Spec.weightIn env.envPrefix m = some x)

/-- What holds at every point of every schedule. -/
structure Known (env : Env E) (ops : List (Op E)) (s : St E) : Prop where
  holders : ∀ (h : Nat) hd, s.heap[h]? = some hd →
    hd.static = (Spec.weightIn env.envPrefix (env.params hd.ep)).getD 10 ∧
    hd.dynamic = ((Spec.lastMeta ops h).map (dynamicWeight env.envPrefix)).getD 0
  fresh : ∀ h, s.heap.length ≤ h → Spec.lastMeta ops h = none
  uses : Uses s (GivenList ops s) (GivenWeights env ops s)

omit [DecidableEq E] in
theorem lastMeta_mem {ops : List (Op E)} {h : Nat} {m : AMap Bytes Bytes} (hl : Spec.lastMeta ops h = some m) :
    ∃ o j, Op.answers o j h (.found m) ∈ ops := by
  simp only [Spec.lastMeta] at hl
  obtain ⟨op, hm, hq⟩ := List.exists_of_findSome?_eq_some hl
  cases op with
  | answers o j k a =>
    cases a with
    | found m' =>
      simp only at hq
      split at hq
      · rename_i e; subst e; cases hq
        exact ⟨o, j, List.mem_reverse.1 hm⟩
      · cases hq
    | notSupported => cases hq
    | failed => cases hq
  | _ => cases hq

omit [DecidableEq E] in
theorem given_ids {ops : List (Op E)} {s : St E} {hs : List Nat} (h : GivenList ops s hs) :
    ∀ k ∈ hs, k < s.heap.length := by
  obtain ⟨eps, _, he⟩ := h
  intro k hk
  have : Spec.epOf s k ∈ hs.map (Spec.epOf s) := List.mem_map_of_mem hk
  rw [he] at this
  obtain ⟨e, _, hq⟩ := List.mem_map.1 this
  apply Classical.byContradiction
  intro hn
  rw [Spec.epOf, List.getElem?_eq_none (by omega)] at hq
  cases hq

theorem known_run (env : Env E) : ∀ ops s, run env init ops = some s → Known env ops s := by
  refine run_induct env _ ?_ ?_
  · refine ⟨by intro h hd hh; simp [init] at hh, fun _ _ => rfl, ?_⟩
    constructor <;> intros <;> simp_all [init]
  intro ops s op s' _ kn hst
  have hcur : ∀ cs, s.current = some cs → ∀ k ∈ cs, k < s.heap.length := fun cs hq => given_ids (kn.uses.cur cs hq)
  obtain ⟨hold, hnew⟩ := step_heap hst hcur
  have hlen : s.heap.length ≤ s'.heap.length := by
    by_cases h0 : s.heap.length = 0
    · omega
    · have hx : s.heap.length - 1 < s.heap.length := by omega
      obtain ⟨hd', hq, _⟩ := hold _ _ (List.getElem?_eq_getElem hx)
      have := (List.getElem?_eq_some_iff.1 hq).1
      omega
  have hep : ∀ k, k < s.heap.length → Spec.epOf s' k = Spec.epOf s k := by
    intro k hk
    obtain ⟨hd', hq, he, _⟩ := hold _ _ (List.getElem?_eq_getElem hk)
    simp only [Spec.epOf, hq, List.getElem?_eq_getElem hk, Option.map_some, he]
  have hlist : ∀ hs, GivenList ops s hs → GivenList (ops ++ [op]) s' hs := by
    rintro hs hg
    have hids := given_ids hg
    obtain ⟨eps, hm, he⟩ := hg
    refine ⟨eps, List.mem_append_left _ hm, ?_⟩
    rw [← he]
    exact List.map_congr_left fun k hk => hep k (hids k hk)
  have hwts : ∀ hs ws, GivenWeights env ops s hs ws → GivenWeights env (ops ++ [op]) s' hs ws := by
    intro hs ws hg i h x hi hx
    obtain ⟨e, he, hq⟩ := hg i h x hi hx
    have hlt : h < s.heap.length := by
      apply Classical.byContradiction
      intro hn
      rw [Spec.epOf, List.getElem?_eq_none (by omega)] at he
      cases he
    refine ⟨e, (hep h hlt).trans he, ?_⟩
    rcases hq with hq | ⟨o, j, m, hm, hq⟩
    · exact .inl hq
    · exact .inr ⟨o, j, m, List.mem_append_left _ hm, hq⟩
  -- an answer comes for a holder that exists
  have hans : ∀ o i k m, op = .answers o i k (.found m) → k < s.heap.length := by
    intro o i k m e
    subst e
    simp only [step] at hst
    split at hst
    · cases hst
    · split at hst
      · rename_i hh
        exact (List.getElem?_eq_some_iff.1 hh).1
      · cases hst
  have hfreshL : ∀ h, s.heap.length ≤ h → Spec.lastMeta (ops ++ [op]) h = none := by
    intro h hh
    rw [lastMeta_snoc]
    split
    · rename_i k m
      have := hans _ _ _ _ rfl
      rw [if_neg (by omega)]
      exact kn.fresh h hh
    · exact kn.fresh h hh
  refine ⟨?_, fun h hh => hfreshL h (by omega), ?_⟩
  · intro h hd' hh
    cases hs : s.heap[h]? with
    | some hd =>
      obtain ⟨hd2, h1, h2, h3, h4⟩ := hold h hd hs
      rw [h1] at hh; cases hh
      obtain ⟨k1, k2⟩ := kn.holders h hd hs
      refine ⟨by rw [h2, h3]; exact k1, ?_⟩
      rw [h4, lastMeta_snoc, k2]
      cases op with
      | answers o i k a =>
        cases a with
        | found m =>
          simp only [dynAfter]
          by_cases e : k = h
          · simp [e]
          · simp [e]
        | notSupported => rfl
        | failed => rfl
      | _ => rfl
    | none =>
      have := hnew h hd' hh hs
      rw [hfreshL h (List.getElem?_eq_none_iff.1 hs)]
      rw [this]
      exact ⟨static_weight _ _, rfl⟩
  · -- first along the new list of operations, in the old state; then in the new one
    have hu : Uses s (GivenList (ops ++ [op]) s') (GivenWeights env (ops ++ [op]) s') :=
      kn.uses.mono hlist (fun hs ws _ => hwts hs ws)
    refine step_uses hst hu ?_ ?_ ?_
    · intro eps e heap all new hb
      subst e
      have hold' : ∀ k ∈ s.current.getD [], k < s.heap.length := by
        intro k hm
        cases hq : s.current with
        | none => rw [hq] at hm; cases hm
        | some cs => rw [hq] at hm; exact hcur cs hq k hm
      obtain ⟨_, h2, _⟩ := build_spec env _ eps s.heap hold' _ _ _ hb
      refine ⟨eps, List.mem_append_right _ (List.mem_singleton.2 rfl), ?_⟩
      have : s'.heap = heap := by
        simp only [step] at hst
        split at hst
        · cases hst
        rw [hb] at hst
        simp only [Option.some.injEq] at hst
        rw [← hst]
      rw [← h2]
      simp only [← this]
      rfl
    · intro hs _ i h x _ hx; simp at hx
    · intro hs ws k hd _ hq hk hh
      refine snoc_right (P := fun h x => ∃ e, Spec.epOf s' h = some e ∧
        (x = (Spec.weightIn env.envPrefix (env.params e)).getD 10 ∨
          ∃ o j m, Op.answers o j h (.found m) ∈ ops ++ [op] ∧ Spec.weightIn env.envPrefix m = some x)) hk ?_ hq
      obtain ⟨k1, k2⟩ := kn.holders k hd hh
      have hlt := (List.getElem?_eq_some_iff.1 hh).1
      refine ⟨hd.ep, by rw [hep k hlt]; simp [Spec.epOf, hh], ?_⟩
      rw [holder_weight hd env.envPrefix _ k2]
      cases hm : Spec.lastMeta ops k with
      | none => exact .inl k1
      | some m =>
        simp only [Option.bind_some]
        cases hw : Spec.weightIn env.envPrefix m with
        | none => exact .inl k1
        | some n =>
          obtain ⟨o, j, hmem⟩ := lastMeta_mem hm
          exact .inr ⟨o, j, m, List.mem_append_left _ hmem, hw⟩

/-- The holders of the list given last: those that `OnRefresh` is about to store, or those stored. -/
def pendingList (s : St E) : Option (List Nat) :=
  match s.refresh with
  | .fetching all _ => some all
  | .storing all => some all
  | _ => s.current

omit [DecidableEq E] in
theorem pendingList_setTasks (s : St E) (ts : List Task) (f : Bool) (o : Owner) : pendingList (s.setTasks ts f o) = pendingList s := by
  cases o with
  | stray => rfl
  | of w =>
    simp only [St.setTasks]
    split
    · rename_i all b hf
      cases w with
      | refresh => simp only [St.phase] at hf; simp [pendingList, St.setPhase, hf]
      | tick => rfl
    · rfl

/-- Only `OnRefresh` changes the list. -/
theorem step_pendingList {env : Env E} {s s' : St E} {op : Op E} (h : step env s op = some s')
    (hop : ∀ eps, op ≠ .onRefresh eps) : pendingList s' = pendingList s := by
  cases op with
  | onRefresh eps => exact absurd rfl (hop eps)
  | tick =>
    simp only [step] at h
    split at h
    · cases h
    · rw [Option.some.injEq] at h; subst h; rfl
  | reads o i k =>
    simp only [step] at h
    split at h
    · cases h
    split at h
    · split at h
      · rw [Option.some.injEq] at h; subst h; exact pendingList_setTasks _ _ _ _
      · cases h
    · cases h
  | answers o i k a =>
    simp only [step] at h
    split at h
    · cases h
    split at h
    · split at h
      · cases a <;> (simp only [Option.some.injEq] at h; subst h; exact (pendingList_setTasks _ _ _ _))
      · cases h
    · cases h
  | compares o i k =>
    simp only [step] at h
    split at h
    · cases h
    split at h
    · split at h
      · rw [Option.some.injEq] at h; subst h; exact pendingList_setTasks _ _ _ _
      · cases h
    · cases h
  | waited w =>
    simp only [step] at h
    split at h
    · cases h
    split at h
    · rename_i all b hf
      split at h
      · rw [Option.some.injEq] at h; subst h
        cases w with
        | refresh => simp only [St.phase] at hf; simp [pendingList, St.setPhase, hf]
        | tick => rfl
      · cases h
    · cases h
  | finish w =>
    simp only [step] at h
    split at h
    · cases h
    split at h
    · rename_i all b hf
      split at h
      · rw [Option.some.injEq] at h; subst h
        cases w with
        | refresh => simp only [St.phase] at hf; simp [pendingList, St.setPhase, after, hf]
        | tick => rfl
      · cases h
    · cases h
  | timeout w =>
    simp only [step] at h
    split at h
    · cases h
    split at h
    · rename_i all b hf
      split at h
      · rw [Option.some.injEq] at h; subst h; rfl
      · rw [Option.some.injEq] at h; subst h
        cases w with
        | refresh => simp only [St.phase] at hf; simp [pendingList, St.setPhase, after, hf]
        | tick => rfl
    · cases h
  | stores =>
    simp only [step] at h
    split at h
    · cases h
    split at h
    · rename_i all hf
      rw [Option.some.injEq] at h; subst h
      simp [pendingList, hf]
    · cases h
  | locks w =>
    simp only [step] at h
    split at h
    · cases h
    split at h
    · cases h
    · rename_i hl _
      split at h
      · rw [Option.some.injEq] at h; subst h
        cases w with
        | refresh => simp only [St.phase] at hl; simp [pendingList, St.setPhase, hl]
        | tick => rfl
      · rw [Option.some.injEq] at h; subst h
        cases w with
        | refresh => simp only [St.phase] at hl; simp [pendingList, St.setPhase, hl]
        | tick => rfl
    · cases h
  | readsWeight w =>
    simp only [step] at h
    split at h
    · cases h
    split at h
    · rename_i hs ws hf
      split at h
      · split at h
        · rw [Option.some.injEq] at h; subst h
          cases w with
          | refresh => simp only [St.phase] at hf; simp [pendingList, St.setPhase, hf]
          | tick => rfl
        · cases h
      · cases h
    · cases h
  | sets w =>
    simp only [step] at h
    split at h
    · cases h
    split at h
    · rename_i hs ws hf
      split at h
      · rw [Option.some.injEq] at h; subst h
        cases w with
        | refresh => simp only [St.phase] at hf; simp [pendingList, St.setPhase, hf]
        | tick => rfl
      · cases h
    · cases h

theorem pendingList_onRefresh {env : Env E} {s s' : St E} {eps : List E} (h : step env s (.onRefresh eps) = some s') :
    pendingList s' = some (build env (s.current.getD []) eps s.heap).2.1 ∧
      s'.heap = (build env (s.current.getD []) eps s.heap).1 ∧ s.refresh = .idle := by
  simp only [step] at h
  split at h
  · cases h
  rename_i hc
  refine ⟨?_, ?_, ?_⟩
  · rw [Option.some.injEq] at h; subst h
    by_cases hn : (build env (s.current.getD []) eps s.heap).2.2 = []
    · simp [pendingList, hn]
    · simp [pendingList, hn]
  · rw [Option.some.injEq] at h; subst h; rfl
  · apply Classical.byContradiction; intro hx; exact hc (.inr hx)

/-- The list given last is the one stored or about to be. -/
theorem latest_run (env : Env E) : ∀ ops s, run env init ops = some s →
    (pendingList s).map (List.map (Spec.epOf s)) = (Spec.lastList ops).map (List.map some) := by
  refine run_induct env _ rfl ?_
  intro ops s op s' hr ih hst
  have kn := known_run env ops s hr
  have hcur : ∀ cs, s.current = some cs → ∀ k ∈ cs, k < s.heap.length := fun cs hq => given_ids (kn.uses.cur cs hq)
  by_cases hop : ∃ eps, op = .onRefresh eps
  · obtain ⟨eps, rfl⟩ := hop
    obtain ⟨h1, h2, _⟩ := pendingList_onRefresh hst
    have hold' : ∀ k ∈ s.current.getD [], k < s.heap.length := by
      intro k hm
      cases hq : s.current with
      | none => rw [hq] at hm; cases hm
      | some cs => rw [hq] at hm; exact hcur cs hq k hm
    obtain ⟨_, hb, _⟩ := build_spec env _ eps s.heap hold' _ _ _ rfl
    rw [lastList_snoc, h1]
    simp only [Option.map_some, Option.some.injEq]
    rw [← hb]
    refine List.map_congr_left fun k _ => ?_
    rw [Spec.epOf, h2]
  · have hop' : ∀ eps, op ≠ .onRefresh eps := fun eps e => hop ⟨eps, e⟩
    have hL : Spec.lastList (ops ++ [op]) = Spec.lastList ops := by
      rw [lastList_snoc]
      split
      · rename_i eps; exact absurd rfl (hop' eps)
      · rfl
    rw [hL, ← ih, step_pendingList hst hop']
    obtain ⟨hold, _⟩ := step_heap hst hcur
    cases hp : pendingList s with
    | none => rfl
    | some hs =>
      simp only [Option.map_some, Option.some.injEq]
      refine List.map_congr_left fun k hk => ?_
      have hlt : k < s.heap.length := by
        have hgl : GivenList ops s hs := by
          simp only [pendingList] at hp
          split at hp
          · rename_i hf; cases hp; exact kn.uses.fetch _ _ hf
          · rename_i hf; cases hp; exact kn.uses.store _ hf
          · exact kn.uses.cur _ hp
        exact given_ids hgl k hk
      obtain ⟨hd', hq, he, _⟩ := hold _ _ (List.getElem?_eq_getElem hlt)
      simp only [Spec.epOf, hq, List.getElem?_eq_getElem hlt, Option.map_some, he]

/-- **C64.** At every moment of every schedule, slow and failing servers included, the selector holds the endpoints of one
list that was given, in its order, and for each a weight between 1 and 500, which is the one in its URL or one that its
server announced. -/
theorem weights_always_valid (env : Env E) (ops : List (Op E)) (s : St E) (hr : run env init ops = some s)
    (hs : List Nat) (ws : List Int) (hsel : s.selector = some (hs, ws)) :
    ws.length = hs.length ∧ (∃ eps, Op.onRefresh eps ∈ ops ∧ hs.map (Spec.epOf s) = eps.map some) ∧
    ∀ (i h : Nat) (x : Int), hs[i]? = some h → ws[i]? = some x → 1 ≤ x ∧ x ≤ 500 ∧ ∃ e, Spec.epOf s h = some e ∧
      (x = (Spec.weightIn env.envPrefix (env.params e)).getD 10 ∨
        ∃ o j m, Op.answers o j h (.found m) ∈ ops ∧ Spec.weightIn env.envPrefix m = some x) := by
  obtain ⟨h1, h2, h3⟩ := (known_run env ops s hr).uses.sel hs ws hsel
  refine ⟨h3, h1, ?_⟩
  intro i h x hi hx
  obtain ⟨e, he, hq⟩ := h2 i h x hi hx
  have hrange : 1 ≤ x ∧ x ≤ 500 := by
    rcases hq with hq | ⟨_, _, m, _, hq⟩
    · cases hw : Spec.weightIn env.envPrefix (env.params e) with
      | none => rw [hw] at hq; simp only [Option.getD_none] at hq; omega
      | some n => rw [hw] at hq; have := weightIn_range hw; simp only [Option.getD_some] at hq; omega
    · exact weightIn_range hq
  exact ⟨hrange.1, hrange.2, e, he, hq⟩

/-- **C64.** If no call for weights has given up and nobody is refreshing, the selector holds exactly the endpoints given
last, in their order, each with the weight its server announced last, or else that of its URL, or else 10. -/
theorem weights_settle (env : Env E) (ops : List (Op E)) (s : St E) (hr : run env init ops = some s)
    (ht : ∀ w, Op.timeout w ∉ ops) (hd : ∀ eps, Op.onRefresh eps ∈ ops → eps.Nodup) (hq : Spec.Quiet s)
    (eps : List E) (hl : Spec.lastList ops = some eps) :
    ∃ hs ws, s.selector = some (hs, ws) ∧ ws.length = hs.length ∧ hs.map (Spec.epOf s) = eps.map some ∧
      ∀ (i h : Nat) (e : E), hs[i]? = some h → eps[i]? = some e →
        ws[i]? = some (Spec.weightDue env e (Spec.lastMeta ops h)) := by
  have inv := inv_run env ops s hr ht hd
  have kn := known_run env ops s hr
  have hlat := latest_run env ops s hr
  rw [hl, show pendingList s = s.current from by simp [pendingList, hq.1]] at hlat
  cases hc : s.current with
  | none => rw [hc] at hlat; cases hlat
  | some hs =>
    rw [hc] at hlat
    simp only [Option.map_some, Option.some.injEq] at hlat
    rcases inv.hasSel hs hc with h | ⟨_, h⟩ | ⟨ws, h⟩
    · rw [hq.1] at h; cases h
    · rw [hq.1] at h; cases h
    · have hlen := inv.selLen hs ws h
      refine ⟨hs, ws, h, hlen, hlat, ?_⟩
      intro i k e hi he
      have hilt := (List.getElem?_eq_some_iff.1 hi).1
      have hx : ws[i]? = some ws[i] := List.getElem?_eq_getElem (by omega)
      rw [hx]
      have hep : Spec.epOf s k = some e := by
        have := congrArg (fun l => l[i]?) hlat
        simp only [List.getElem?_map, hi, he, Option.map_some, Option.some.injEq] at this
        exact this
      rcases inv.right hs ws h i k _ hi hx with hw | ⟨_, _, hw, _⟩ | hw
      · simp only [Spec.epOf] at hep
        cases hh : s.heap[k]? with
        | none => rw [hh] at hep; cases hep
        | some hd =>
          rw [hh] at hep
          simp only [Option.map_some, Option.some.injEq] at hep
          obtain ⟨k1, k2⟩ := kn.holders k hd hh
          simp only [W, hh, Option.map_some, Option.some.injEq] at hw
          rw [← hw, holder_weight hd env.envPrefix _ k2, k1, hep]
          rfl
      · rw [hq.2] at hw; cases hw
      · rcases hw with hw | hw | ⟨_, _, hw⟩ | ⟨_, _, hw⟩
        · rw [hq.1] at hw; cases hw
        · rw [hq.2] at hw; cases hw
        · rw [hq.1] at hw; cases hw
        · rw [hq.2] at hw; cases hw

/-- **C64.** An endpoint that is in two lists given one after the other keeps its holder, hence the weight announced for it,
whatever happens in between. -/
theorem weights_kept (env : Env E) (ops ops' : List (Op E)) (eps : List E) (s s' : St E)
    (hr : run env init ops = some s) (hr' : run env s (.onRefresh eps :: ops') = some s')
    (hd : ∀ eps, Op.onRefresh eps ∈ ops → eps.Nodup) (hops : ∀ eps', Op.onRefresh eps' ∉ ops') (cs : List Nat)
    (hc : s.current = some cs) (hq : s'.refresh = .idle) :
    ∃ cs', s'.current = some cs' ∧
      ∀ (i : Nat) (e : E) (k : Nat), eps[i]? = some e → k ∈ cs → Spec.epOf s k = some e → cs'[i]? = some k := by
  have kn := known_run env ops s hr
  have hids : ∀ k ∈ cs, k < s.heap.length := given_ids (kn.uses.cur cs hc)
  have hn : ∀ k k' e, k ∈ cs → k' ∈ cs → Spec.epOf s k = some e → Spec.epOf s k' = some e → k = k' := by
    obtain ⟨eps0, hm0, he0⟩ := kn.uses.cur cs hc
    have hnd : (cs.map (Spec.epOf s)).Nodup := by
      rw [he0]
      exact List.Pairwise.map some (fun a b hab hq => hab (Option.some.inj hq)) (hd eps0 hm0)
    intro k k' e hk hk' he he'
    obtain ⟨i, hi, rfl⟩ := List.mem_iff_getElem.1 hk
    obtain ⟨j, hj, rfl⟩ := List.mem_iff_getElem.1 hk'
    have hnn := List.pairwise_iff_getElem.1 hnd
    rcases Nat.lt_trichotomy i j with hlt | heq | hlt
    · exact (hnn i j (by simpa using hi) (by simpa using hj) hlt (by simp [he, he'])).elim
    · subst heq; rfl
    · exact (hnn j i (by simpa using hj) (by simpa using hi) hlt (by simp [he, he'])).elim
  simp only [run] at hr'
  cases hst : step env s (.onRefresh eps) with
  | none => rw [hst] at hr'; cases hr'
  | some s1 =>
    rw [hst] at hr'
    obtain ⟨h1, h2, _⟩ := pendingList_onRefresh hst
    rw [hc] at h1
    have hstable : ∀ (l : List (Op E)) (a b : St E), (∀ e', Op.onRefresh e' ∉ l) → run env a l = some b →
        pendingList b = pendingList a := by
      intro l
      induction l with
      | nil => intro a b _ h; simp only [run, Option.some.injEq] at h; rw [h]
      | cons op l ih =>
        intro a b hno h
        simp only [run] at h
        cases ho : step env a op with
        | none => rw [ho] at h; cases h
        | some a1 =>
          rw [ho] at h
          rw [ih a1 b (fun e' hm => hno e' (List.mem_cons_of_mem _ hm)) h]
          exact step_pendingList ho (fun e' he => hno e' (by simp [he]))
    have hp := hstable ops' s1 s' hops hr'
    rw [h1, show pendingList s' = s'.current from by simp [pendingList, hq]] at hp
    refine ⟨_, hp, ?_⟩
    intro i e k he hk hke
    refine build_kept env cs eps s.heap hids _ _ _ rfl i e he k ?_
    unfold findHolder
    cases hf : cs.find? (fun i => decide ((s.heap[i]?).map Holder.ep = some e)) with
    | none =>
      have := List.find?_eq_none.1 hf k hk
      simp only [decide_eq_true_eq] at this
      exact absurd hke this
    | some k' =>
      have h3 := List.find?_some hf
      simp only [decide_eq_true_eq] at h3
      rw [hn k' k e (List.mem_of_find?_eq_some hf) hk h3 hke]

/-! ## Servers are asked before their endpoints are used -/

/-- Somebody has asked for the weight of the holder, and got an answer or an error. -/
def AskedFor (ops : List (Op E)) (h : Nat) : Prop := ∃ o i a, Op.answers o i h a ∈ ops

/-- The holders whose endpoints want to be asked have been. -/
def AllAsked (env : Env E) (ops : List (Op E)) (s : St E) (hs : List Nat) : Prop :=
  ∀ h ∈ hs, ∀ e, Spec.epOf s h = some e → env.supports e = true → AskedFor ops h

structure AskInv (env : Env E) (ops : List (Op E)) (s : St E) : Prop where
  cur : ∀ cs, s.current = some cs → AllAsked env ops s cs
  sel : ∀ hs ws, s.selector = some (hs, ws) → AllAsked env ops s hs
  readR : ∀ hs ws, s.refresh = .reading hs ws → AllAsked env ops s hs
  readT : ∀ hs ws, s.tick = .reading hs ws → AllAsked env ops s hs
  store : ∀ all, s.refresh = .storing all → AllAsked env ops s all
  fetch : ∀ all b, s.refresh = .fetching all b → ∀ h ∈ all, ∀ e, Spec.epOf s h = some e → env.supports e = true →
    AskedFor ops h ∨ ∃ t ∈ b.tasks, t.holder = h
  tasks : ∀ all b, s.refresh = .fetching all b → ∀ t ∈ b.tasks, (t.prog = .done ∨ ∃ old, t.prog = .wrote old) →
    AskedFor ops t.holder
  sending : ∀ all b, s.refresh = .fetching all b → b.sending = true → ∀ t ∈ b.tasks, t.prog = .done

omit [DecidableEq E] in
theorem AskedFor.mono {ops : List (Op E)} {h : Nat} (ha : AskedFor ops h) (op : Op E) : AskedFor (ops ++ [op]) h := by
  obtain ⟨o, i, a, hm⟩ := ha
  exact ⟨o, i, a, List.mem_append_left _ hm⟩

omit [DecidableEq E] in
/-- A step of a goroutine that asks leaves the holders of the others as they are. -/
theorem ask_set {env : Env E} {ops : List (Op E)} {s : St E} (inv : AskInv env ops s) (o : Owner) {i k : Nat} {p p' : Prog}
    (ht : (s.tasks o)[i]? = some ⟨k, p⟩) (hp : p ≠ .done)
    (hd : o = .of .refresh → (p' = .done ∨ ∃ old, p' = .wrote old) → AskedFor ops k) (f : Bool) :
    AskInv env ops (s.setTasks ((s.tasks o).set i ⟨k, p'⟩) f o) := by
  cases o with
  | stray => exact ⟨inv.cur, inv.sel, inv.readR, inv.readT, inv.store, inv.fetch, inv.tasks, inv.sending⟩
  | of w =>
    cases w with
    | tick =>
      simp only [St.setTasks]
      split
      · exact ⟨inv.cur, inv.sel, inv.readR, fun _ _ hq => (by cases hq), inv.store, inv.fetch, inv.tasks, inv.sending⟩
      · exact inv
    | refresh =>
      cases hf : s.refresh with
      | fetching all b =>
        have htk : s.tasks (.of .refresh) = b.tasks := by simp [St.tasks, St.phase, hf]
        rw [htk] at ht ⊢
        rw [setTasks_refresh hf]
        refine ⟨inv.cur, inv.sel, fun _ _ hq => (by cases hq), inv.readT, fun _ hq => (by cases hq), ?_, ?_, ?_⟩
        · intro a b' hq h hm e he hs
          cases hq
          rcases inv.fetch all b hf h hm e he hs with h1 | ⟨t, htm, h1⟩
          · exact .inl h1
          · right
            rcases mem_set_other (t' := ⟨k, p'⟩) ht htm with rfl | htm'
            · refine ⟨⟨k, p'⟩, ?_, h1⟩
              refine List.mem_of_getElem? (i := i) ?_
              rw [List.getElem?_set, if_pos rfl, if_pos (List.getElem?_eq_some_iff.1 ht).1]
            · exact ⟨t, htm', h1⟩
        · intro a b' hq t htm hpr
          cases hq
          rcases mem_set_task htm with rfl | htm
          · exact hd rfl hpr
          · exact inv.tasks all b hf t htm hpr
        · intro a b' hq hs t htm
          cases hq
          exact absurd (inv.sending all b hf hs _ (List.mem_of_getElem? ht)) hp
      | idle => simp [St.tasks, St.phase, hf] at ht
      | storing all => simp [St.tasks, St.phase, hf] at ht
      | locking => simp [St.tasks, St.phase, hf] at ht
      | reading hs ws => simp [St.tasks, St.phase, hf] at ht

theorem ask_run (env : Env E) : ∀ ops s, run env init ops = some s → (∀ w, Op.timeout w ∉ ops) → AskInv env ops s := by
  refine run_induct env _ ?_ ?_
  · intro _
    constructor <;> intros <;> simp_all [init]
  intro ops s op s' hr ih hst ht
  have inv0 := ih (fun w hm => ht w (List.mem_append_left _ hm))
  have kn := known_run env ops s hr
  have kn' : Known env (ops ++ [op]) s' := known_run env _ _ (by rw [run_append, hr]; simp [run, hst])
  have hcur : ∀ cs, s.current = some cs → ∀ k ∈ cs, k < s.heap.length := fun cs hq => given_ids (kn.uses.cur cs hq)
  obtain ⟨hold, hnew⟩ := step_heap hst hcur
  have hep : ∀ k, k < s.heap.length → Spec.epOf s' k = Spec.epOf s k := by
    intro k hk
    obtain ⟨hd', hq, he, _⟩ := hold _ _ (List.getElem?_eq_getElem hk)
    simp only [Spec.epOf, hq, List.getElem?_eq_getElem hk, Option.map_some, he]
  -- the invariant for the longer schedule, in the old state
  have inv : AskInv env (ops ++ [op]) s := by
    have hm : ∀ hs, AllAsked env ops s hs → AllAsked env (ops ++ [op]) s hs :=
      fun hs h k hk e he hs' => (h k hk e he hs').mono op
    refine ⟨fun a b => hm _ (inv0.cur a b), fun a b c => hm _ (inv0.sel a b c), fun a b c => hm _ (inv0.readR a b c),
      fun a b c => hm _ (inv0.readT a b c), fun a b => hm _ (inv0.store a b), ?_, ?_, inv0.sending⟩
    · intro a b hq h hh e he hs
      rcases inv0.fetch a b hq h hh e he hs with h1 | h1
      · exact .inl (h1.mono op)
      · exact .inr h1
    · intro a b hq t htm hp
      exact (inv0.tasks a b hq t htm hp).mono op
  clear inv0 ih
  generalize hops : ops ++ [op] = opsL at inv kn' ht ⊢
  cases op with
  | onRefresh eps =>
    have hA : ∀ hs, (∀ k ∈ hs, k < s.heap.length) → AllAsked env opsL s hs → AllAsked env opsL s' hs := by
      intro hs hi h k hk e he
      rw [hep k (hi k hk)] at he
      exact h k hk e he
    obtain ⟨h1, h2, h3⟩ := pendingList_onRefresh hst
    have hold' : ∀ k ∈ s.current.getD [], k < s.heap.length := by
      intro k hm
      cases hq : s.current with
      | none => rw [hq] at hm; cases hm
      | some cs => rw [hq] at hm; exact hcur cs hq k hm
    simp only [step] at hst
    split at hst
    · cases hst
    obtain ⟨⟨ext, e1⟩, b2, b3, b4, b5, b6, b7, b8⟩ := build_spec env _ eps s.heap hold' _ _ _ rfl
    rw [Option.some.injEq] at hst
    subst hst
    have hkept : ∀ k ∈ (build env (s.current.getD []) eps s.heap).2.1, k ∉ (build env (s.current.getD []) eps s.heap).2.2 →
        ∀ e, Spec.epOf s k = some e → env.supports e = true → AskedFor opsL k := by
      intro k hk hn e he hs
      rcases b5 k hk with hk | hk
      · cases hq : s.current with
        | none => rw [hq] at hk; cases hk
        | some cs => rw [hq] at hk; exact inv.cur cs hq k hk e he hs
      · exact absurd hk hn
    have hlt : ∀ k ∈ (build env (s.current.getD []) eps s.heap).2.1, k ∉ (build env (s.current.getD []) eps s.heap).2.2 →
        k < s.heap.length := by
      intro k hk hn
      rcases b5 k hk with hk | hk
      · exact hold' k hk
      · exact absurd hk hn
    refine ⟨fun a b => hA _ (hcur a b) (inv.cur a b), fun a b c => hA _ (given_ids (kn.uses.sel a b c).1) (inv.sel a b c),
      ?_, fun a b c => hA _ (given_ids (kn.uses.readT a b c).1) (inv.readT a b c), ?_, ?_, ?_, ?_⟩
    · intro _ _ hq; simp only at hq; split at hq <;> cases hq
    · intro all hq
      simp only at hq
      split at hq
      · rename_i hn
        cases hq
        intro k hk e he hs
        have hk' : k ∉ (build env (s.current.getD []) eps s.heap).2.2 := by rw [hn]; simp
        rw [hep k (hlt k hk hk')] at he
        exact hkept k hk hk' e he hs
      · cases hq
    · intro all b hq k hk e he hs
      simp only at hq
      split at hq
      · cases hq
      · cases hq
        by_cases hk' : k ∈ (build env (s.current.getD []) eps s.heap).2.2
        · right
          refine ⟨⟨k, .start⟩, ?_, rfl⟩
          simp only [launch, List.mem_map, List.mem_filter]
          refine ⟨k, ⟨hk', ?_⟩, rfl⟩
          simp only [Spec.epOf] at he
          cases hh : (build env (s.current.getD []) eps s.heap).1[k]? with
          | none => rw [hh] at he; cases he
          | some hd =>
            rw [hh] at he
            obtain ⟨e', _, hd'⟩ := b8 k hd (b4 k hk').1 hh
            subst hd'
            simp only [Option.map_some, Option.some.injEq, newHolder] at he ⊢
            subst he
            simpa using hs
        · left
          rw [hep k (hlt k hk hk')] at he
          exact hkept k hk hk' e he hs
    · intro all b hq t htm hp
      simp only at hq
      split at hq
      · cases hq
      · cases hq
        simp only [launch, List.mem_map] at htm
        obtain ⟨j, _, rfl⟩ := htm
        rcases hp with hp | ⟨_, hp⟩ <;> cases hp
    · intro all b hq hs
      simp only at hq
      split at hq
      · cases hq
      · cases hq; simp [launch] at hs
  | tick =>
    simp only [step] at hst
    split at hst
    · cases hst
    · rw [Option.some.injEq] at hst; subst hst
      exact ⟨inv.cur, inv.sel, inv.readR, fun _ _ hq => (by cases hq), inv.store, inv.fetch, inv.tasks, inv.sending⟩
  | reads o i k =>
    simp only [step] at hst
    split at hst
    · cases hst
    split at hst
    · rename_i h' hd ht1 hh
      split at hst
      · rename_i e; subst e
        rw [Option.some.injEq] at hst; subst hst
        exact ask_set inv o ht1 (by simp) (by rintro _ (h | ⟨_, h⟩) <;> cases h) _
      · cases hst
    · cases hst
  | answers o i k a =>
    simp only [step] at hst
    split at hst
    · cases hst
    split at hst
    · rename_i h' old hd ht1 hh
      split at hst
      · rename_i e; subst e
        have hasked : AskedFor opsL h' := ⟨o, i, a, by rw [← hops]; simp⟩
        have hlt := (List.getElem?_eq_some_iff.1 hh).1
        -- the endpoints of the holders are the same
        have hheap : ∀ hd', hd'.ep = hd.ep → AskInv env opsL { s with heap := s.heap.set h' hd' } := by
          intro hd' he'
          have hepE : ∀ k, Spec.epOf { s with heap := s.heap.set h' hd' } k = Spec.epOf s k := by
            intro k
            simp only [Spec.epOf, List.getElem?_set]
            split
            · rename_i e; subst e
              rw [hh]; simp [he']
            · rfl
          have hm : ∀ hs, AllAsked env opsL s hs → AllAsked env opsL { s with heap := s.heap.set h' hd' } hs := by
            intro hs h k hk e he
            rw [hepE] at he
            exact h k hk e he
          refine ⟨fun a b => hm _ (inv.cur a b), fun a b c => hm _ (inv.sel a b c), fun a b c => hm _ (inv.readR a b c),
            fun a b c => hm _ (inv.readT a b c), fun a b => hm _ (inv.store a b), ?_, inv.tasks, inv.sending⟩
          intro a b hq k hk e he
          rw [hepE] at he
          exact inv.fetch a b hq k hk e he
        cases a with
        | found m =>
          simp only [Option.some.injEq] at hst; subst hst
          exact ask_set (hheap { hd with dynamic := dynamicWeight env.envPrefix m } rfl) o ht1 (by simp) (fun _ _ => hasked) _
        | notSupported =>
          simp only [Option.some.injEq] at hst; subst hst
          exact ask_set (hheap { hd with support := false } rfl) o ht1 (by simp) (fun _ _ => hasked) _
        | failed =>
          simp only [Option.some.injEq] at hst; subst hst
          exact ask_set inv o ht1 (by simp) (fun _ _ => hasked) _
      · cases hst
    · cases hst
  | compares o i k =>
    simp only [step] at hst
    split at hst
    · cases hst
    split at hst
    · rename_i h' old hd ht1 hh
      split at hst
      · rename_i e; subst e
        rw [Option.some.injEq] at hst; subst hst
        refine ask_set inv o ht1 (by simp) ?_ _
        intro ho _
        subst ho
        cases hf : s.refresh with
        | fetching all b =>
          simp only [St.tasks, St.phase, hf] at ht1
          exact inv.tasks all b hf _ (List.mem_of_getElem? ht1) (.inr ⟨old, rfl⟩)
        | idle => simp [St.tasks, St.phase, hf] at ht1
        | storing all => simp [St.tasks, St.phase, hf] at ht1
        | locking => simp [St.tasks, St.phase, hf] at ht1
        | reading hs ws => simp [St.tasks, St.phase, hf] at ht1
      · cases hst
    · cases hst
  | waited w =>
    simp only [step] at hst
    split at hst
    · cases hst
    split at hst
    · rename_i all b hf
      split at hst
      · rename_i hc
        rw [Option.some.injEq] at hst; subst hst
        cases w with
        | refresh =>
          refine ⟨inv.cur, inv.sel, fun _ _ hq => (by cases hq), inv.readT, fun _ hq => (by cases hq), ?_, ?_, ?_⟩
          · intro a b' hq; cases hq; exact inv.fetch all b hf
          · intro a b' hq; cases hq; exact inv.tasks all b hf
          · intro a b' hq _ t htm; cases hq
            have := List.all_eq_true.1 hc.2 t htm
            simpa using this
        | tick => exact ⟨inv.cur, inv.sel, inv.readR, fun _ _ hq => (by cases hq), inv.store, inv.fetch, inv.tasks, inv.sending⟩
      · cases hst
    · cases hst
  | finish w =>
    simp only [step] at hst
    split at hst
    · cases hst
    split at hst
    · rename_i all b hf
      split at hst
      · rename_i hc
        rw [Option.some.injEq] at hst; subst hst
        cases w with
        | refresh =>
          simp only [St.phase] at hf
          refine ⟨inv.cur, inv.sel, fun _ _ hq => (by cases hq), inv.readT, ?_, fun _ _ hq => (by cases hq),
            fun _ _ hq => (by cases hq), fun _ _ hq => (by cases hq)⟩
          intro a hq
          cases hq
          intro k hk e he hs
          rcases inv.fetch all b hf k hk e he hs with h1 | ⟨t, htm, rfl⟩
          · exact h1
          · exact inv.tasks all b hf t htm (.inl (inv.sending all b hf hc t htm))
        | tick =>
          refine ⟨inv.cur, inv.sel, inv.readR, fun _ _ hq => ?_, inv.store, inv.fetch, inv.tasks, inv.sending⟩
          simp only [St.setPhase, after] at hq
          split at hq <;> cases hq
      · cases hst
    · cases hst
  | timeout w => exact absurd (by rw [← hops]; simp) (ht w)
  | stores =>
    simp only [step] at hst
    split at hst
    · cases hst
    split at hst
    · rename_i all hf
      rw [Option.some.injEq] at hst; subst hst
      exact ⟨fun _ hq => (by cases hq; exact inv.store all hf), inv.sel, fun _ _ hq => (by cases hq), inv.readT,
        fun _ hq => (by cases hq), fun _ _ hq => (by cases hq), fun _ _ hq => (by cases hq), fun _ _ hq => (by cases hq)⟩
    · cases hst
  | locks w =>
    simp only [step] at hst
    split at hst
    · cases hst
    split at hst
    · cases hst
    · split at hst
      · rw [Option.some.injEq] at hst; subst hst
        cases w with
        | refresh =>
          exact ⟨inv.cur, inv.sel, fun _ _ hq => (by cases hq), inv.readT,
            fun _ hq => (by cases hq), fun _ _ hq => (by cases hq), fun _ _ hq => (by cases hq), fun _ _ hq => (by cases hq)⟩
        | tick => exact ⟨inv.cur, inv.sel, inv.readR, fun _ _ hq => (by cases hq), inv.store, inv.fetch, inv.tasks, inv.sending⟩
      · rename_i hs hc
        rw [Option.some.injEq] at hst; subst hst
        have hp := inv.cur hs hc
        cases w with
        | refresh =>
          exact ⟨inv.cur, inv.sel, fun _ _ hq => (by cases hq; exact hp), inv.readT,
            fun _ hq => (by cases hq), fun _ _ hq => (by cases hq), fun _ _ hq => (by cases hq), fun _ _ hq => (by cases hq)⟩
        | tick =>
          exact ⟨inv.cur, inv.sel, inv.readR, fun _ _ hq => (by cases hq; exact hp), inv.store, inv.fetch, inv.tasks,
            inv.sending⟩
    · cases hst
  | readsWeight w =>
    simp only [step] at hst
    split at hst
    · cases hst
    split at hst
    · rename_i hs ws hf
      split at hst
      · split at hst
        · rw [Option.some.injEq] at hst; subst hst
          cases w with
          | refresh =>
            exact ⟨inv.cur, inv.sel, fun _ _ hq => (by cases hq; exact inv.readR hs ws hf), inv.readT,
              fun _ hq => (by cases hq), fun _ _ hq => (by cases hq), fun _ _ hq => (by cases hq), fun _ _ hq => (by cases hq)⟩
          | tick =>
            exact ⟨inv.cur, inv.sel, inv.readR, fun _ _ hq => (by cases hq; exact inv.readT hs ws hf), inv.store, inv.fetch,
              inv.tasks, inv.sending⟩
        · cases hst
      · cases hst
    · cases hst
  | sets w =>
    simp only [step] at hst
    split at hst
    · cases hst
    split at hst
    · rename_i hs ws hf
      split at hst
      · rw [Option.some.injEq] at hst; subst hst
        cases w with
        | refresh =>
          exact ⟨inv.cur, fun _ _ hq => (by cases hq; exact inv.readR hs ws hf), fun _ _ hq => (by cases hq), inv.readT,
            fun _ hq => (by cases hq), fun _ _ hq => (by cases hq), fun _ _ hq => (by cases hq), fun _ _ hq => (by cases hq)⟩
        | tick =>
          exact ⟨inv.cur, fun _ _ hq => (by cases hq; exact inv.readT hs ws hf), inv.readR, fun _ _ hq => (by cases hq),
            inv.store, inv.fetch, inv.tasks, inv.sending⟩
      · cases hst
    · cases hst

/-- **C64.** Unless a call for weights has given up, an endpoint is not used before its server has been asked for its weight
and has answered, or could not be reached. -/
theorem asked_before_use (env : Env E) (ops : List (Op E)) (s : St E) (hr : run env init ops = some s)
    (ht : ∀ w, Op.timeout w ∉ ops) (hs : List Nat) (ws : List Int) (hsel : s.selector = some (hs, ws)) (h : Nat) (e : E)
    (hm : h ∈ hs) (he : Spec.epOf s h = some e) (hsup : env.supports e = true) :
    ∃ o i a, Op.answers o i h a ∈ ops :=
  (ask_run env ops s hr ht).sel hs ws hsel h hm e he hsup

/-! ## Cases -/

/-- Two endpoints with weights in their URLs (one too great), others without. -/
def weightsEnv : Env Nat where
  envPrefix := b!"PROD_"
  params := fun e => if e = 1 then [(b!"META_WEIGHT", b!"20")]
    else if e = 2 then [(b!"META_WEIGHT", b!"30"), (b!"PROD_WEIGHT", b!"9000")] else [(b!"group", b!"g")]
  supports := fun _ => true
  dynamicOn := true

def weightAnswer (t : Bytes) : Answer := .found [(b!"META_WEIGHT", t)]

/-- `OnRefresh` with the endpoints 1 and 3; the server of 3 says 40, that of 1 has no such service. -/
def weightsFirst : List (Op Nat) :=
  [.onRefresh [1, 3], .reads (.of .refresh) 1 1, .reads (.of .refresh) 0 0,
    .answers (.of .refresh) 1 1 (weightAnswer b!"40"), .answers (.of .refresh) 0 0 .notSupported,
    .compares (.of .refresh) 1 1, .waited .refresh, .finish .refresh, .stores, .locks .refresh, .readsWeight .refresh,
    .readsWeight .refresh, .sets .refresh]

/-- A tick, during which the endpoint 1 is replaced by 2 and the server of 3 changes its mind: the weight is written after
`OnRefresh` has read it, and the tick notifies. -/
def weightsSecond : List (Op Nat) :=
  [.tick, .reads (.of .tick) 0 1, .onRefresh [3, 2], .reads (.of .refresh) 0 2,
    .answers (.of .refresh) 0 2 .failed, .waited .refresh, .finish .refresh, .stores, .locks .refresh, .readsWeight .refresh,
    .answers (.of .tick) 0 1 (weightAnswer b!"0"), .readsWeight .refresh, .compares (.of .tick) 0 1, .waited .tick,
    .finish .tick, .sets .refresh, .locks .tick, .readsWeight .tick, .readsWeight .tick, .sets .tick]

/-- The hypotheses of `weights_settle` are met, twice. -/
example : (run weightsEnv init weightsFirst).map (fun s => (s.selector, s.refresh, s.tick)) =
    some (some ([0, 1], [20, 40]), .idle, .idle) := by decide +kernel
example : (run weightsEnv init (weightsFirst ++ weightsSecond)).map (fun s => (s.selector, s.refresh, s.tick)) =
    some (some ([1, 2], [1, 500]), .idle, .idle) := by decide +kernel
example : (∀ w, Op.timeout w ∉ weightsFirst ++ weightsSecond) ∧
    (∀ eps, Op.onRefresh eps ∈ weightsFirst ++ weightsSecond → eps.Nodup) ∧
    Spec.lastList (weightsFirst ++ weightsSecond) = some [3, 2] := by
  refine ⟨?_, ?_, by decide +kernel⟩
  · intro w h; simp [weightsFirst, weightsSecond] at h
  · intro eps h
    simp [weightsFirst, weightsSecond] at h
    rcases h with rfl | rfl <;> decide
/-- Those of `asked_before_use`: both endpoints want to be asked. -/
example : (run weightsEnv init (weightsFirst ++ weightsSecond)).map (fun s => (Spec.epOf s 1, Spec.epOf s 2)) =
    some (some 3, some 2) ∧ weightsEnv.supports 3 = true := by decide +kernel
/-- And of `weights_kept`: the endpoint 3 is in both lists, and is the holder 1 in both. -/
example : (run weightsEnv init weightsFirst).map (fun s => (s.current, Spec.epOf s 1)) = some (some [0, 1], some 3) ∧
    (run weightsEnv init (weightsFirst ++ weightsSecond)).map (fun s => s.current) = some (some [1, 2]) := by
  decide +kernel
/-- Before the tick has notified, the weight that the other goroutine had read is used. -/
example : (run weightsEnv init (weightsFirst ++ weightsSecond.take 16)).map (fun s => s.selector) =
    some (some ([1, 2], [40, 500])) := by decide +kernel

/-! ## What does not hold -/

/-- The server of endpoint 3 takes longer than the 15 seconds that `OnRefresh` waits. -/
def weightsLate : List (Op Nat) :=
  [.onRefresh [1, 3], .reads (.of .refresh) 0 0, .reads (.of .refresh) 1 1, .answers (.of .refresh) 0 0 (weightAnswer b!"20"),
    .compares (.of .refresh) 0 0, .timeout .refresh, .stores, .locks .refresh, .readsWeight .refresh, .readsWeight .refresh,
    .sets .refresh, .answers .stray 1 1 (weightAnswer b!"40"), .compares .stray 1 1]

/-- A tick at which both servers answer at once. -/
def weightsTick : List (Op Nat) :=
  [.tick, .reads (.of .tick) 0 0, .answers (.of .tick) 0 0 (weightAnswer b!"20"), .compares (.of .tick) 0 0,
    .reads (.of .tick) 1 1, .answers (.of .tick) 1 1 (weightAnswer b!"40"), .compares (.of .tick) 1 1, .waited .tick,
    .finish .tick]

/-- The state after `weightsLate`. -/
def weightsStuck : St Nat :=
  ⟨[⟨1, 20, true, 20⟩, ⟨3, 10, true, 40⟩], some [0, 1], some ([0, 1], [20, 10]), .idle, .idle,
    [⟨0, .done⟩, ⟨1, .done⟩], false⟩

theorem weightsStuck_reached : run weightsEnv init weightsLate = some weightsStuck := by decide +kernel
theorem weightsStuck_tick : run weightsEnv weightsStuck weightsTick = some weightsStuck := by decide +kernel

/-- **C64 fails with a slow server.** The goroutine that asks it goes on after the caller has given up and writes the weight,
which nobody is told. At every later tick the server answers the same, so the weight does not change, and the load balancer is
never told: the endpoint is used with weight 10 although its server announces 40 every time it is asked, for any number of
ticks. -/
theorem late_weight_never_used_violated (n : Nat) :
    ∃ s, run weightsEnv init (weightsLate ++ (List.replicate n weightsTick).flatten) = some s ∧ Spec.Quiet s ∧
      s.selector = some ([0, 1], [20, 10]) ∧ Spec.epOf s 1 = some 3 ∧
      Spec.lastMeta (weightsLate ++ (List.replicate n weightsTick).flatten) 1 = some [(b!"META_WEIGHT", b!"40")] := by
  refine ⟨weightsStuck, ?_, ⟨rfl, rfl⟩, rfl, rfl, ?_⟩
  · rw [run_append, weightsStuck_reached, Option.bind_some]
    induction n with
    | zero => rfl
    | succ n ih => rw [List.replicate_succ, List.flatten_cons, run_append, weightsStuck_tick, Option.bind_some]; exact ih
  · have key : ∀ (m : Nat) (l : List (Op Nat)), Spec.lastMeta l 1 = some [(b!"META_WEIGHT", b!"40")] →
        Spec.lastMeta (l ++ (List.replicate m weightsTick).flatten) 1 = some [(b!"META_WEIGHT", b!"40")] := by
      intro m
      induction m with
      | zero => intro l h; simpa using h
      | succ m ih =>
        intro l h
        rw [List.replicate_succ, List.flatten_cons, ← List.append_assoc]
        apply ih
        simp only [Spec.lastMeta, List.reverse_append, List.findSome?_append] at h ⊢
        simp [weightsTick, weightAnswer]
    exact key n weightsLate (by decide +kernel)

/-- **The process can die of a slow server.** The last answer comes just when the caller gives up: the goroutine that has
waited for it is sending on the channel that the caller closes, and panics; nothing recovers. -/
theorem late_answer_crashes_violated :
    (run weightsEnv init [.onRefresh [1], .reads (.of .refresh) 0 0, .answers (.of .refresh) 0 0 (weightAnswer b!"20"),
      .compares (.of .refresh) 0 0, .waited .refresh, .timeout .refresh]).map St.crashed = some true := by decide +kernel

/-- **A server that once had no metadata service is not asked again**, although the refusal is remembered for 30 seconds only
(meta/meta.go:147): the tick starts no goroutine for the endpoint 1. -/
theorem unsupported_for_ever_violated :
    (run weightsEnv init (weightsFirst ++ [.tick])).map (fun s => s.tick) =
      some (.fetching [] ⟨[⟨1, .start⟩], false, false⟩) := by decide +kernel

/-- **A refresh period of 0, or a negative one, makes the process die**, and so does one that is too long for 64 bits of
nanoseconds; others do not. -/
theorem refresh_period_panics_violated : tickerPanics 0 = true ∧ tickerPanics (-1) = true ∧
    tickerPanics 9223372037#64 = true := by decide +kernel

theorem refresh_period_ok (n : Nat) (h0 : 1 ≤ n) (h1 : n ≤ 9223372036) : tickerPanics (BitVec.ofNat 64 n) = false := by
  simp only [tickerPanics, decide_eq_false_iff_not, Int.not_le]
  have : (BitVec.ofNat 64 n * 1000000000#64) = BitVec.ofNat 64 (n * 1000000000) := by
    rw [BitVec.ofNat_mul]
  have ht : (BitVec.ofNat 64 (n * 1000000000)).toNat = n * 1000000000 := by
    rw [BitVec.toNat_ofNat]; omega
  rw [this, BitVec.toInt_eq_toNat_of_lt (by omega), ht]
  omega

end Motan.Props
