import Verif.Model.Filters

/-!
# C30: filters run in index order
-/

namespace Motan.Props

open Motan.Filters Motan.Strings
open Motan.Url (URL)

/-- The names in the `filter` parameter: separated by commas, white space around them and empty ones ignored. -/
def Spec.filterNames (u : URL) : List Bytes :=
  match u.param b!"filter" with
  | none => []
  | some s => ((split b!"," s).map trimSpace).filter (· ≠ [])

/-- The cluster filters configured: one for every mention of a registered cluster filter that agrees to be made. -/
def Spec.clusterFilters {H : Type} (f : Factory H) (u : URL) : List (Inst H) :=
  (Spec.filterNames u).filterMap fun n =>
    match f n with
    | some p => if p.cluster then p.newFilter u else none
    | none => none

/-- The registered filters mentioned that are endpoint filters. -/
def Spec.endpointProtos {H : Type} (f : Factory H) (u : URL) : List (Proto H) :=
  (Spec.filterNames u).filterMap fun n =>
    match f n with
    | some p => if p.cluster then none else some p
    | none => none

/-- The endpoint filter made from one for a URL (of the endpoint or provider wrapped), if it makes one. -/
def Spec.made {H : Type} (epUrl : URL) (p : Proto H) : Option (Inst H) :=
  (p.newFilter epUrl).filter (·.implEndpoint)

/-- What `sort.Sort` promises. -/
def Spec.Sorts (s : Sorter) : Prop :=
  ∀ (α : Type) (key : α → Int) (l : List α), (s.sort key l).Perm l ∧ (s.sort key l).Pairwise (fun a b => key a ≥ key b)

/-- Filters around a handler, the first one outermost. -/
def Spec.nest {H : Type} (l : List (Inst H)) (h : H) : H := l.foldr (fun f h => f.body h) h

private theorem collect_eq {H : Type} (f : Factory H) (u : URL) (ns : List Bytes) :
    collect f u ns =
      (ns.filterMap (fun n => match f n with
        | some p => if p.cluster then p.newFilter u else none
        | none => none),
       ns.filterMap (fun n => match f n with
        | some p => if p.cluster then none else some p
        | none => none)) := by
  induction ns with
  | nil => rfl
  | cons n ns ih =>
    rw [collect]
    simp only [List.filterMap_cons, ih]
    cases f n with
    | none => rfl
    | some p =>
      simp only
      cases hc : p.cluster with
      | true =>
        simp only [if_true]
        cases p.newFilter u <;> rfl
      | false => simp

private theorem linkCluster_eq {H : Type} (l : List (Inst H)) (last : Chain H) :
    linkCluster l last = if l.all (·.implCluster) then some (l.foldl (fun c f => .node f c) last) else none := by
  induction l generalizing last with
  | nil => rfl
  | cons a l ih =>
    rw [linkCluster]
    cases ha : a.implCluster with
    | true => simp [ha, ih]
    | false => simp [ha]

private theorem run_foldl {H : Type} (l : List (Inst H)) (c : Chain H) (h : H) :
    (l.foldl (fun c f => Chain.node f c) c).run h = Spec.nest l.reverse (c.run h) := by
  induction l generalizing c with
  | nil => rfl
  | cons a l ih =>
    rw [List.foldl_cons, ih]
    simp [Spec.nest, Chain.run]

private theorem filters_value {H : Type} (sorter : Sorter) (hs : Spec.Sorts sorter) (u : URL) (f : Factory H) :
    ∃ cs es, cs.Perm (Spec.clusterFilters f u) ∧ cs.Pairwise (fun a b => a.index ≥ b.index) ∧
      es.Perm (Spec.endpointProtos f u) ∧ es.Pairwise (fun a b => a.index ≥ b.index) ∧
      getURLFilters sorter u f =
        if cs.all (·.implCluster) then
          some (if cs = [] then none else some (cs.foldl (fun c f => Chain.node f c) .last), es)
        else none := by
  unfold getURLFilters Spec.clusterFilters Spec.endpointProtos Spec.filterNames
  cases hp : u.param b!"filter" with
  | none => exact ⟨[], [], .nil, .nil, .nil, .nil, rfl⟩
  | some s =>
    simp only [collect_eq, trimSplit_eq s b!"," (by decide)]
    generalize List.filterMap _ _ = cs0
    generalize List.filterMap _ _ = es0
    obtain ⟨hsc, hso⟩ := hs _ (fun x : Inst H => x.index) cs0
    have hes : ∃ es, es.Perm es0 ∧ es.Pairwise (fun a b => a.index ≥ b.index) ∧
        (if es0.length > 0 then sorter.sort (fun x : Proto H => x.index) es0 else es0) = es := by
      by_cases hl : es0.length > 0
      · exact ⟨_, (hs _ (fun x : Proto H => x.index) es0).1, (hs _ (fun x : Proto H => x.index) es0).2, by rw [if_pos hl]⟩
      · refine ⟨es0, .refl _, ?_, by rw [if_neg hl]⟩
        have : es0 = [] := by cases es0 with | nil => rfl | cons a l => simp at hl
        subst this; exact .nil
    obtain ⟨es, he1, he2, he3⟩ := hes
    rw [he3]
    by_cases hl : cs0.length > 0
    · refine ⟨sorter.sort (fun x => x.index) cs0, es, hsc, hso, he1, he2, ?_⟩
      rw [if_pos hl, linkCluster_eq]
      have hne : sorter.sort (fun x : Inst H => x.index) cs0 ≠ [] := by
        intro h0; rw [h0] at hsc
        rw [← hsc.length_eq] at hl; simp at hl
      cases hall : (sorter.sort (fun x : Inst H => x.index) cs0).all (fun x => x.implCluster) with
      | true => simp [hne]
      | false => simp
    · have : cs0 = [] := by cases cs0 with | nil => rfl | cons a l => simp at hl
      subst this
      exact ⟨[], es, .nil, .nil, he1, he2, by simp⟩

private theorem all_perm {α : Type} {a b : List α} (h : a.Perm b) (p : α → Bool) : a.all p = b.all p := by
  rw [Bool.eq_iff_iff, List.all_eq_true, List.all_eq_true]
  exact ⟨fun H x hx => H x (h.mem_iff.mpr hx), fun H x hx => H x (h.mem_iff.mp hx)⟩

/-- **C30, cluster.** The filters of a cluster are in place unless a configured filter calls itself a cluster filter
without being one (a panic). They then run around the HA strategy, every configured one exactly once, nested in
ascending order of index from the outside in. -/
theorem cluster_filters_nested {H : Type} (sorter : Sorter) (hs : Spec.Sorts sorter) (u : URL) (f : Factory H) :
    (initFilters sorter u f = none ↔ ∃ i ∈ Spec.clusterFilters f u, i.implCluster = false) ∧
    ∀ chain protos, initFilters sorter u f = some (chain, protos) →
      ∃ l, l.Perm (Spec.clusterFilters f u) ∧ l.Pairwise (fun a b => a.index ≤ b.index) ∧
        ∀ ha, clusterCall chain ha = Spec.nest l ha := by
  obtain ⟨cs, es, h1, h2, h3, h4, h5⟩ := filters_value sorter hs u f
  unfold initFilters
  rw [h5, all_perm h1]
  cases hall : (Spec.clusterFilters f u).all (·.implCluster) with
  | false =>
    refine ⟨⟨fun _ => ?_, fun _ => by simp⟩, fun c p h => by simp at h⟩
    obtain ⟨i, hi, hf⟩ := List.all_eq_false.mp hall
    exact ⟨i, hi, by simpa using hf⟩
  | true =>
    refine ⟨⟨fun h => by simp at h, fun ⟨i, hi, hf⟩ => ?_⟩, fun c p h => ?_⟩
    · have := List.all_eq_true.mp hall i hi; simp [hf] at this
    · refine ⟨cs.reverse, (List.reverse_perm cs).trans h1, List.pairwise_reverse.mpr (h2.imp (fun h => h)), fun ha => ?_⟩
      simp only [if_true] at h
      have hc : (if cs = [] then none else some (cs.foldl (fun c f => Chain.node f c) Chain.last)).getD .last =
          cs.foldl (fun c f => Chain.node f c) Chain.last := by
        by_cases he : cs = []
        · subst he; rfl
        · rw [if_neg he]; rfl
      have h' := Option.some.inj h
      have : c = cs.foldl (fun c f => Chain.node f c) Chain.last := by
        rw [← hc]; exact (congrArg Prod.fst h').symm
      rw [this, clusterCall, run_foldl]; rfl

private theorem linkEndpoint_eq {H : Type} (u : URL) (ps : List (Proto H)) (c : Chain H) (st : List Bool) :
    linkEndpoint u ps c st =
      ((ps.filterMap (Spec.made u)).foldl (fun c f => .node f c) c,
       st ++ (ps.filterMap (Spec.made u)).filterMap (·.status)) := by
  induction ps generalizing c st with
  | nil => simp [linkEndpoint]
  | cons p ps ih =>
    rw [linkEndpoint]
    cases hn : p.newFilter u with
    | none => simp [ih, List.filterMap_cons, Spec.made, hn]
    | some i =>
      cases hi : i.implEndpoint with
      | false => simp [ih, List.filterMap_cons, Spec.made, hn, hi]
      | true =>
        simp only [if_true, ih]
        have : Spec.made u p = some i := by simp [Spec.made, hn, hi, Option.filter]
        simp only [List.filterMap_cons, this, List.foldl_cons]
        cases i.status <;> simp [hi]

/-- **C30, endpoint.** Around every endpoint of the cluster each configured endpoint filter runs exactly once (provided
it is willing to be made for the endpoint's URL), nested in ascending order of index from the outside in. The endpoint
counts as available exactly when it is itself and each of these filters that has a say agrees. -/
theorem endpoint_filters_nested {H : Type} (sorter : Sorter) (hs : Spec.Sorts sorter) (u epUrl : URL) (f : Factory H)
    (chain : Chain H) (protos : List (Proto H)) (h : initFilters sorter u f = some (chain, protos)) :
    ∃ ps : List (Proto H), ps.Perm (Spec.endpointProtos f u) ∧ ps.Pairwise (fun a b => a.index ≤ b.index) ∧
      (∀ call, (addFilter epUrl protos).call call = Spec.nest (ps.filterMap (Spec.made epUrl)) call) ∧
      ∀ up, (addFilter epUrl protos).isAvailable up = true ↔
        up = true ∧ ∀ i ∈ ps.filterMap (Spec.made epUrl), i.status ≠ some false := by
  obtain ⟨cs, es, h1, h2, h3, h4, h5⟩ := filters_value sorter hs u f
  have hp : protos = es := by
    unfold initFilters at h
    rw [h5] at h
    split at h
    · simp at h
    · rename_i c es' heq
      split at heq
      · have e1 : es = es' := congrArg Prod.snd (Option.some.inj heq)
        have e2 : es' = protos := congrArg Prod.snd (Option.some.inj h)
        exact (e1.trans e2).symm
      · simp at heq
  subst hp
  refine ⟨protos.reverse, (List.reverse_perm _).trans h3, List.pairwise_reverse.mpr (h4.imp (fun h => h)),
    fun call => ?_, fun up => ?_⟩
  · rw [FilterEndPoint.call, addFilter, linkEndpoint_eq]
    simp only [run_foldl, List.filterMap_reverse]
    rfl
  · have hall : ∀ l : List Bool, allStatus l = true ↔ ∀ b ∈ l, b = true := by
      intro l
      induction l with
      | nil => simp [allStatus]
      | cons b l ih => cases b <;> simp [allStatus, ih]
    rw [FilterEndPoint.isAvailable, addFilter, linkEndpoint_eq]
    simp only [List.nil_append]
    generalize hL : List.filterMap (Spec.made epUrl) protos = L
    have hL' : List.filterMap (Spec.made epUrl) protos.reverse = L.reverse := by rw [List.filterMap_reverse, hL]
    rw [hL']
    have key : allStatus (List.filterMap (fun x : Inst H => x.status) L).reverse = true ↔
        ∀ i ∈ L.reverse, i.status ≠ some false := by
      rw [hall]
      constructor
      · intro H i hi hf
        have := H false (by simp only [List.mem_reverse, List.mem_filterMap]; exact ⟨i, by simpa using hi, hf⟩)
        simp at this
      · intro H b hb
        simp only [List.mem_reverse, List.mem_filterMap] at hb
        obtain ⟨i, hi, hs⟩ := hb
        cases b with
        | true => rfl
        | false => exact absurd hs (H i (by simpa using hi))
    rw [← key]
    split
    · rename_i hb
      simp only [Bool.not_eq_true'] at hb
      simp [hb]
    · rename_i hb
      simp only [Bool.not_eq_true', Bool.not_eq_false] at hb
      simp [hb]

/-- **C30, server.** The same around an exported provider, whose URL configures the filters and is what they are made
for. -/
theorem provider_filters_nested {H : Type} (sorter : Sorter) (hs : Spec.Sorts sorter) (u : URL) (f : Factory H)
    (chain : Chain H) (h : wrapWithFilter sorter u f = some chain) :
    ∃ ps : List (Proto H), ps.Perm (Spec.endpointProtos f u) ∧ ps.Pairwise (fun a b => a.index ≤ b.index) ∧
      ∀ call, chain.run call = Spec.nest (ps.filterMap (Spec.made u)) call := by
  unfold wrapWithFilter at h
  cases hg : getURLFilters sorter u f with
  | none => rw [hg] at h; simp at h
  | some r =>
    obtain ⟨c, es⟩ := r
    rw [hg] at h; simp at h
    have hi : initFilters sorter u f = some (c.getD .last, es) := by rw [initFilters, hg]
    obtain ⟨ps, h1, h2, h3, _⟩ := endpoint_filters_nested sorter hs u u f _ _ hi
    refine ⟨ps, h1, h2, fun call => ?_⟩
    rw [← h3, ← h]; rfl

/-! A cluster with filters "b", "a" and an unknown one; what runs is recorded. -/

private def rec (name : Nat) (idx : Int) : Inst (List Nat) := ⟨idx, true, true, none, fun h => name :: h ++ [name]⟩
private def reg : AMap Bytes (Proto (List Nat)) :=
  [(b!"a", ⟨1, true, fun _ => some (rec 1 1)⟩), (b!"b", ⟨5, true, fun _ => some (rec 2 5)⟩),
   (b!"e", ⟨3, false, fun _ => some (rec 3 3)⟩), (b!"g", ⟨2, false, fun _ => some (rec 4 2)⟩)]
private def cfg : URL := { params := some [(b!"filter", b!" b ,zz,, a,e,g")] }

def insDesc {α : Type} (key : α → Int) (a : α) : List α → List α
  | [] => [a]
  | b :: l => if key b ≤ key a then a :: b :: l else b :: insDesc key a l

/-- There is such a sort. -/
def insSorter : Sorter := ⟨fun key l => l.foldr (insDesc key) []⟩

theorem insDesc_perm {α : Type} (key : α → Int) (a : α) (l : List α) : (insDesc key a l).Perm (a :: l) := by
  induction l with
  | nil => exact .refl _
  | cons b l ih =>
    rw [insDesc]; split
    · exact .refl _
    · exact (ih.cons b).trans (.swap a b l)

theorem insDesc_sorted {α : Type} (key : α → Int) (a : α) (l : List α) (h : l.Pairwise (fun a b => key a ≥ key b)) :
    (insDesc key a l).Pairwise (fun a b => key a ≥ key b) := by
  induction l with
  | nil => simp [insDesc]
  | cons b l ih =>
    rw [insDesc]; split
    · rename_i hle
      refine .cons (fun x hx => ?_) h
      cases hx with
      | head => exact hle
      | tail _ hx => exact Int.le_trans (List.rel_of_pairwise_cons h hx) hle
    · rename_i hle
      refine .cons (fun x hx => ?_) (ih h.of_cons)
      cases (insDesc_perm key a l).mem_iff.mp hx with
      | head => omega
      | tail _ hx => exact List.rel_of_pairwise_cons h hx

theorem insSorter_sorts : Spec.Sorts insSorter := by
  intro α key l
  induction l with
  | nil => exact ⟨.nil, .nil⟩
  | cons a l ih => exact ⟨(insDesc_perm key a _).trans (ih.1.cons a), insDesc_sorted key a _ ih.2⟩

example : Spec.filterNames cfg = [b!"b", b!"zz", b!"a", b!"e", b!"g"] := by decide +kernel

example : (Spec.clusterFilters (getFilter reg) cfg).map (·.index) = [5, 1] := by decide +kernel

example : ((initFilters insSorter cfg (getFilter reg)).map fun x => clusterCall x.1 [0]) = some [1, 2, 0, 2, 1] := by
  decide +kernel

example : ((initFilters insSorter cfg (getFilter reg)).map fun x => (addFilter cfg x.2).call [0]) = some [4, 3, 0, 3, 4] := by
  decide +kernel

example : ((wrapWithFilter insSorter cfg (getFilter reg)).map fun x => x.run [0]) = some [4, 3, 0, 3, 4] := by
  decide +kernel

end Motan.Props
