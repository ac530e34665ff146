import Verif.Model.Request

/-!
# C48: cloned requests are isolated
-/

namespace Motan.Props

open Request (Heap Req Ctx Msg Slice Op)

variable {V : Type}

/-! ## Requests as values -/

/-- What the API shows of a request: the attachments are a function (empty if not there). -/
structure Spec.ReqView where
  requestID : UInt64
  serviceName : Bytes
  method : Bytes
  methodDesc : Bytes
  attachment : Bytes → Bytes
  hasContext : Bool

/-- Requests, each with its own contents, and those in the pool. -/
structure Spec.ReqWorld where
  reqs : List Spec.ReqView := []
  free : List Nat := []

/-- What operations do to requests that share nothing. -/
def Spec.reqStep (s : Spec.ReqWorld) : Op V → Spec.ReqWorld
  | .new id service method desc _ att ctx =>
    { s with reqs := s.reqs ++ [⟨id, service, method, desc, fun k => (att.bind (AMap.load · k)).getD [], ctx⟩] }
  | .receive reuse id service method desc md _ _ _ _ =>
    let r : Spec.ReqView := ⟨id, service, method, desc, fun k => (AMap.load md k).getD [], true⟩
    match reuse with
    | some i =>
      if i ∈ s.free ∧ i < s.reqs.length then { reqs := s.reqs.set i r, free := s.free.erase i }
      else { s with reqs := s.reqs ++ [r] }
    | none => { s with reqs := s.reqs ++ [r] }
  | .clone i => { s with reqs := s.reqs ++ s.reqs[i]?.toList }
  | .set i k v =>
    { s with reqs := s.reqs.modify i fun r => { r with attachment := fun k' => if k = k' then v else r.attachment k' } }
  | .delete i k =>
    { s with reqs := s.reqs.modify i fun r => { r with attachment := fun k' => if k = k' then [] else r.attachment k' } }
  | .touch _ | .setArguments _ _ | .forward _ _ => s
  | .addHandler i _ => { s with reqs := s.reqs.modify i fun r => { r with hasContext := true } }
  | .release i =>
    match s.reqs[i]? with
    | none => s
    | some r => if r.hasContext then { reqs := s.reqs.set i ⟨0, [], [], [], fun _ => [], true⟩, free := i :: s.free } else s

/-- What is seen of a request in memory. -/
def Spec.viewReq (h : Heap V) (r : Req V) : Spec.ReqView :=
  ⟨r.requestID, r.serviceName, r.method, r.methodDesc, Request.getAttachment h r, r.rpcContext.isSome⟩

/-- What is seen of a state. -/
def Spec.viewWorld (s : Request.St V) : Spec.ReqWorld := { reqs := s.reqs.map (Spec.viewReq s.heap), free := s.free }

/-! ## The maps of a request -/

/-- The addresses of the maps of a request. -/
def owned (r : Req V) : List Nat :=
  r.attachment.toList ++ ((r.rpcContext.bind Ctx.originalMessage).bind Msg.metadata).toList

structure ReqInv (s : Request.St V) : Prop where
  bound : ∀ (i : Nat) r, s.reqs[i]? = some r → ∀ a ∈ owned r, a < s.heap.maps.length
  own : ∀ (i j : Nat) r r', s.reqs[i]? = some r → s.reqs[j]? = some r' → i ≠ j → ∀ a ∈ owned r, a ∉ owned r'

theorem att_owned {r : Req V} {a : Nat} (h : r.attachment = some a) : a ∈ owned r := by
  rw [owned, h]; exact List.mem_append_left _ List.mem_cons_self

/-- What is seen depends on the map of the attachments only. -/
theorem view_congr {h h' : Heap V} {r : Req V} (hm : ∀ a ∈ owned r, h'.map a = h.map a) : Spec.viewReq h' r = Spec.viewReq h r := by
  have : Request.getAttachment h' r = Request.getAttachment h r := by
    funext k
    rw [Request.getAttachment, Request.getAttachment]
    split
    · rfl
    · rename_i a ha; rw [hm a (att_owned ha)]
  rw [Spec.viewReq, Spec.viewReq, this]

theorem map_newMap {h : Heap V} {a : Nat} (ha : a < h.maps.length) (m : AMap Bytes Bytes) : (h.newMap m).map a = h.map a := by
  rw [Heap.map, Heap.map, Heap.newMap, List.getElem?_append_left ha]

theorem map_newMap_self (h : Heap V) (m : AMap Bytes Bytes) : (h.newMap m).map h.maps.length = m := by
  rw [Heap.map, Heap.newMap, List.getElem?_append_right (Nat.le_refl _), Nat.sub_self]; rfl

theorem length_newMap (h : Heap V) (m : AMap Bytes Bytes) : (h.newMap m).maps.length = h.maps.length + 1 := by
  rw [Heap.newMap, List.length_append, List.length_singleton]

theorem map_update_ne {h : Heap V} {a b : Nat} (hne : a ≠ b) (f : AMap Bytes Bytes → AMap Bytes Bytes) :
    (h.update (some a) f).map b = h.map b := by
  rw [Heap.map, Heap.map, Heap.update, List.getElem?_modify]
  simp [hne]

theorem map_update_self {h : Heap V} {a : Nat} (ha : a < h.maps.length) (f : AMap Bytes Bytes → AMap Bytes Bytes) :
    (h.update (some a) f).map a = f (h.map a) := by
  rw [Heap.map, Heap.map, Heap.update, List.getElem?_modify]
  simp [List.getElem?_eq_getElem ha]

theorem length_update (h : Heap V) (a : Option Nat) (f : AMap Bytes Bytes → AMap Bytes Bytes) :
    (h.update a f).maps.length = h.maps.length := by
  cases a with
  | none => rfl
  | some a => rw [Heap.update, List.length_modify]

theorem maps_append (h : Heap V) (zero : V) (spare : Nat) (s : Slice) (v : V) : (h.append zero spare s v).1.maps = h.maps := by
  rw [Heap.append]
  split
  · split <;> rfl
  · rfl

theorem map_of_maps {h h' : Heap V} (e : h'.maps = h.maps) (a : Nat) : h'.map a = h.map a := by rw [Heap.map, Heap.map, e]

/-! ## One request replaced, or one more -/

theorem inv_set {s : Request.St V} (hi : ReqInv s) {i : Nat} {r r' : Req V} {h' : Heap V} {free : List Nat}
    (hr : s.reqs[i]? = some r) (hlen : s.heap.maps.length ≤ h'.maps.length)
    (hown : ∀ a ∈ owned r', a ∈ owned r ∨ (s.heap.maps.length ≤ a ∧ a < h'.maps.length)) :
    ReqInv { heap := h', reqs := s.reqs.set i r', free := free } := by
  have hlt := (List.getElem?_eq_some_iff.mp hr).1
  refine ⟨fun j q hq a ha => ?_, fun j k q q' hq hq' hne a ha ha' => ?_⟩
  · simp only [List.getElem?_set] at hq
    by_cases e : i = j
    · subst e
      rw [if_pos rfl, if_pos hlt] at hq
      cases hq
      rcases hown a ha with h | h
      · exact Nat.lt_of_lt_of_le (hi.bound i r hr a h) hlen
      · exact h.2
    · rw [if_neg e] at hq
      exact Nat.lt_of_lt_of_le (hi.bound j q hq a ha) hlen
  · simp only [List.getElem?_set] at hq hq'
    by_cases e : i = j
    · subst e
      rw [if_pos rfl, if_pos hlt] at hq
      rw [if_neg hne] at hq'
      cases hq
      rcases hown a ha with h | h
      · exact hi.own i k r q' hr hq' hne a h ha'
      · exact absurd (hi.bound k q' hq' a ha') (Nat.not_lt.mpr h.1)
    · rw [if_neg e] at hq
      by_cases e' : i = k
      · subst e'
        rw [if_pos rfl, if_pos hlt] at hq'
        cases hq'
        rcases hown a ha' with h | h
        · exact hi.own j i q r hq hr hne a ha h
        · exact absurd (hi.bound j q hq a ha) (Nat.not_lt.mpr h.1)
      · rw [if_neg e'] at hq'
        exact hi.own j k q q' hq hq' hne a ha ha'

theorem inv_snoc {s : Request.St V} (hi : ReqInv s) {r' : Req V} {h' : Heap V} {free : List Nat}
    (hlen : s.heap.maps.length ≤ h'.maps.length)
    (hown : ∀ a ∈ owned r', s.heap.maps.length ≤ a ∧ a < h'.maps.length) :
    ReqInv { heap := h', reqs := s.reqs ++ [r'], free := free } := by
  have hget : ∀ j q, (s.reqs ++ [r'])[j]? = some q → s.reqs[j]? = some q ∨ (j = s.reqs.length ∧ q = r') := by
    intro j q hq
    by_cases hj : j < s.reqs.length
    · rw [List.getElem?_append_left hj] at hq; exact .inl hq
    · have hlt := (List.getElem?_eq_some_iff.mp hq).1
      rw [List.length_append, List.length_singleton] at hlt
      have : j = s.reqs.length := by omega
      subst this
      rw [List.getElem?_append_right (Nat.le_refl _), Nat.sub_self] at hq
      cases hq
      exact .inr ⟨rfl, rfl⟩
  refine ⟨fun j q hq a ha => ?_, fun j k q q' hq hq' hne a ha ha' => ?_⟩
  · rcases hget j q hq with hq | ⟨_, rfl⟩
    · exact Nat.lt_of_lt_of_le (hi.bound j q hq a ha) hlen
    · exact (hown a ha).2
  · rcases hget j q hq with g | ⟨e1, e2⟩ <;> rcases hget k q' hq' with g' | ⟨e3, e4⟩
    · exact hi.own j k q q' g g' hne a ha ha'
    · exact absurd (hi.bound j q g a ha) (Nat.not_lt.mpr (hown a (e4 ▸ ha')).1)
    · exact absurd (hi.bound k q' g' a ha') (Nat.not_lt.mpr (hown a (e2 ▸ ha)).1)
    · exact hne (e1.trans e3.symm)

/-- The others are seen as before. -/
theorem view_set {s : Request.St V} (hi : ReqInv s) {i : Nat} {r r' : Req V} {h' : Heap V}
    (hr : s.reqs[i]? = some r) (hmap : ∀ a, a < s.heap.maps.length → a ∉ owned r → h'.map a = s.heap.map a) :
    (s.reqs.set i r').map (Spec.viewReq h') = (s.reqs.map (Spec.viewReq s.heap)).set i (Spec.viewReq h' r') := by
  apply List.ext_getElem?
  intro j
  rw [List.getElem?_map, List.getElem?_set, List.getElem?_set, List.length_map]
  by_cases e : i = j
  · subst e
    have hlt := (List.getElem?_eq_some_iff.mp hr).1
    simp [hlt]
  · rw [if_neg e, if_neg e, List.getElem?_map]
    cases hq : s.reqs[j]? with
    | none => rfl
    | some q =>
      simp only [Option.map_some, Option.some.injEq]
      exact view_congr fun a ha => hmap a (hi.bound j q hq a ha) (fun h => hi.own i j r q hr hq e a h ha)

theorem view_snoc {s : Request.St V} (hi : ReqInv s) {r' : Req V} {h' : Heap V}
    (hmap : ∀ a, a < s.heap.maps.length → h'.map a = s.heap.map a) :
    (s.reqs ++ [r']).map (Spec.viewReq h') = s.reqs.map (Spec.viewReq s.heap) ++ [Spec.viewReq h' r'] := by
  rw [List.map_append]
  congr 1
  apply List.ext_getElem?
  intro j
  rw [List.getElem?_map, List.getElem?_map]
  cases hq : s.reqs[j]? with
  | none => rfl
  | some q => simp only [Option.map_some, Option.some.injEq]; exact view_congr fun a ha => hmap a (hi.bound j q hq a ha)

theorem modify_eq_set {α : Type} {l : List α} {i : Nat} {a : α} (h : l[i]? = some a) (f : α → α) : l.modify i f = l.set i (f a) := by
  apply List.ext_getElem?
  intro j
  rw [List.getElem?_modify, List.getElem?_set]
  have hlt := (List.getElem?_eq_some_iff.mp h).1
  by_cases e : i = j
  · subst e; rw [if_pos rfl, if_pos hlt, h]; simp
  · rw [if_neg e]; simp [e]

theorem modify_none {α : Type} {l : List α} {i : Nat} (h : l[i]? = none) (f : α → α) : l.modify i f = l := by
  apply List.ext_getElem?
  intro j
  rw [List.getElem?_modify]
  by_cases e : i = j
  · subst e; rw [h]; rfl
  · simp [e]

theorem set_self {α : Type} {l : List α} {i : Nat} {a : α} (h : l[i]? = some a) : l.set i a = l := by
  apply List.ext_getElem?
  intro j
  rw [List.getElem?_set]
  have hlt := (List.getElem?_eq_some_iff.mp h).1
  by_cases e : i = j
  · subst e; rw [if_pos rfl, if_pos hlt, h]
  · rw [if_neg e]

/-! ## Operations -/

theorem getAttachments_spec {h : Heap V} {r : Req V} (hb : ∀ a ∈ owned r, a < h.maps.length) :
    ∃ a, (Request.getAttachments h r).2 = { r with attachment := some a } ∧
      a < (Request.getAttachments h r).1.maps.length ∧
      h.maps.length ≤ (Request.getAttachments h r).1.maps.length ∧
      (∀ b, b < h.maps.length → (Request.getAttachments h r).1.map b = h.map b) ∧
      (∀ k, (AMap.load ((Request.getAttachments h r).1.map a) k).getD [] = Request.getAttachment h r k) ∧
      (r.attachment = some a ∨ h.maps.length ≤ a) := by
  obtain ⟨id, sv, m, d, args, att, ctx⟩ := r
  cases att with
  | some a =>
    exact ⟨a, rfl, hb a (att_owned rfl), Nat.le_refl _, fun _ _ => rfl, fun _ => rfl, .inl rfl⟩
  | none =>
    refine ⟨h.maps.length, rfl, ?_, ?_, fun b hb => map_newMap hb _, fun k => ?_, .inr (Nat.le_refl _)⟩
    · simp only [Request.getAttachments, length_newMap]; omega
    · simp only [Request.getAttachments, length_newMap]; omega
    · simp only [Request.getAttachments, map_newMap_self, AMap.load_nil, Request.getAttachment, Option.getD_none]

theorem update_sim {s : Request.St V} (hi : ReqInv s) (i : Nat) (f : AMap Bytes Bytes → AMap Bytes Bytes)
    (g : (Bytes → Bytes) → Bytes → Bytes) (hg : ∀ m k, (AMap.load (f m) k).getD [] = g (fun k => (AMap.load m k).getD []) k) :
    ReqInv (Request.update s i f) ∧ Spec.viewWorld (Request.update s i f) =
      { Spec.viewWorld s with reqs := (Spec.viewWorld s).reqs.modify i fun r => { r with attachment := g r.attachment } } := by
  rw [Request.update]
  cases hr : s.reqs[i]? with
  | none =>
    refine ⟨hi, ?_⟩
    simp only [Spec.viewWorld]
    rw [modify_none (by rw [List.getElem?_map, hr]; rfl)]
  | some r =>
    obtain ⟨a, h1, h2, h3, h4, h5, h6⟩ := getAttachments_spec (hi.bound i r hr)
    simp only
    generalize (Request.getAttachments s.heap r).1 = h' at *
    rw [h1]
    have hown : ∀ b ∈ owned { r with attachment := some a }, b ∈ owned r ∨ (s.heap.maps.length ≤ b ∧ b < h'.maps.length) := by
      intro b hb
      rcases List.mem_append.mp hb with hb | hb
      · have : b = a := by simpa using hb
        subst this
        rcases h6 with h6 | h6
        · exact .inl (att_owned h6)
        · exact .inr ⟨h6, h2⟩
      · exact .inl (List.mem_append_right _ hb)
    refine ⟨inv_set hi hr (by rw [length_update]; exact h3) (by rw [length_update]; exact hown), ?_⟩
    simp only [Spec.viewWorld]
    rw [view_set hi hr, modify_eq_set (a := Spec.viewReq s.heap r) (by rw [List.getElem?_map, hr]; rfl)]
    · congr 2
      simp only [Spec.viewReq, Spec.ReqView.mk.injEq, true_and, and_true]
      funext k
      show ((AMap.load ((h'.update (some a) f).map a) k).getD []) = _
      rw [map_update_self h2, hg]
      congr 1
      funext k
      exact h5 k
    · intro b hb hnb
      rw [map_update_ne, h4 b hb]
      intro e
      subst e
      rcases h6 with h6 | h6
      · exact hnb (att_owned h6)
      · omega

theorem copyMap_spec (h : Heap V) (a : Option Nat) (ha : ∀ b ∈ a, b < h.maps.length) :
    h.maps.length ≤ (h.copyMap a).1.maps.length ∧
    (∀ b, b < h.maps.length → (h.copyMap a).1.map b = h.map b) ∧
    (∀ b ∈ (h.copyMap a).2, h.maps.length ≤ b ∧ b < (h.copyMap a).1.maps.length) ∧
    ((h.copyMap a).2.map (h.copyMap a).1.map = a.map h.map) ∧ (h.copyMap a).1.arrays = h.arrays := by
  cases a with
  | none => exact ⟨Nat.le_refl _, fun _ _ => rfl, (fun b hb => by cases hb), rfl, rfl⟩
  | some a =>
    refine ⟨?_, fun b hb => map_newMap hb _, fun b hb => ?_, ?_, rfl⟩
    · simp only [Heap.copyMap, length_newMap]; omega
    · cases hb; simp only [Heap.copyMap, length_newMap]; omega
    · simp only [Heap.copyMap, Option.map_some, map_newMap_self]

theorem getAttachment_map (h : Heap V) (r : Req V) (k : Bytes) :
    Request.getAttachment h r k = ((r.attachment.map h.map).bind (AMap.load · k)).getD [] := by
  rw [Request.getAttachment]
  cases r.attachment <;> rfl

theorem cloneCtx_spec {h : Heap V} {c : Ctx V} (hb : ∀ m ∈ c.originalMessage, ∀ a ∈ m.metadata, a < h.maps.length) :
    h.maps.length ≤ (Request.cloneCtx h c).1.maps.length ∧
    (∀ b, b < h.maps.length → (Request.cloneCtx h c).1.map b = h.map b) ∧
    (∀ b ∈ ((Request.cloneCtx h c).2.originalMessage.bind Msg.metadata).toList,
      h.maps.length ≤ b ∧ b < (Request.cloneCtx h c).1.maps.length) ∧
    (Request.cloneCtx h c).1.arrays = h.arrays := by
  obtain ⟨ef, om⟩ := c
  cases om with
  | none => exact ⟨Nat.le_refl _, fun _ _ => rfl, (fun b hb => by cases hb), rfl⟩
  | some m =>
    obtain ⟨k1, k2, k3, k4, k5⟩ := copyMap_spec h m.metadata fun a ha => hb m rfl a ha
    exact ⟨k1, k2, fun b hb' => k3 b (by simpa [Request.cloneCtx, Request.cloneMsg] using hb'), k5⟩

theorem clone_spec {h : Heap V} {r : Req V} (hb : ∀ a ∈ owned r, a < h.maps.length) :
    h.maps.length ≤ (Request.clone h r).1.maps.length ∧
    (∀ b, b < h.maps.length → (Request.clone h r).1.map b = h.map b) ∧
    (∀ b ∈ owned (Request.clone h r).2, h.maps.length ≤ b ∧ b < (Request.clone h r).1.maps.length) ∧
    Spec.viewReq (Request.clone h r).1 (Request.clone h r).2 = Spec.viewReq h r ∧
    (Request.clone h r).1.arrays = h.arrays := by
  obtain ⟨k1, k2, k3, k4, k5⟩ := copyMap_spec h r.attachment fun b hb' => hb b (List.mem_append_left _ (by simpa using hb'))
  have hview : ∀ {h' : Heap V} {r' : Req V}, r'.requestID = r.requestID → r'.serviceName = r.serviceName →
      r'.method = r.method → r'.methodDesc = r.methodDesc → r'.attachment = (h.copyMap r.attachment).2 →
      (∀ b, b < (h.copyMap r.attachment).1.maps.length → h'.map b = (h.copyMap r.attachment).1.map b) →
      r'.rpcContext.isSome = r.rpcContext.isSome → Spec.viewReq h' r' = Spec.viewReq h r := by
    intro h' r' e1 e2 e3 e4 e5 e6 e7
    rw [Spec.viewReq, Spec.viewReq, e1, e2, e3, e4, e7]
    congr 1
    funext k
    rw [getAttachment_map, getAttachment_map, ← k4, e5]
    cases hc : (h.copyMap r.attachment).2 with
    | none => rfl
    | some a => simp only [Option.map_some]; rw [e6 a (k3 a hc).2]
  obtain ⟨id, sv, m, d, args, att, ctx⟩ := r
  cases ctx with
  | none =>
    refine ⟨k1, k2, fun b hb' => ?_, hview rfl rfl rfl rfl rfl (fun _ _ => rfl) rfl, k5⟩
    exact k3 b (by simpa [owned, Request.clone] using hb')
  | some c =>
    obtain ⟨c1, c2, c3, c4⟩ := cloneCtx_spec (h := (h.copyMap att).1) (c := c) fun m hm a ha =>
      Nat.lt_of_lt_of_le (hb a (List.mem_append_right _ (by
        have hm : c.originalMessage = some m := hm
        have ha : m.metadata = some a := ha
        simp [hm, ha]))) k1
    refine ⟨Nat.le_trans k1 c1, fun b hb' => (c2 b (Nat.lt_of_lt_of_le hb' k1)).trans (k2 b hb'), fun b hb' => ?_,
      hview rfl rfl rfl rfl rfl c2 rfl, c4.trans k5⟩
    rcases List.mem_append.mp hb' with hb' | hb'
    · have := k3 b (by simpa [Request.clone] using hb')
      exact ⟨this.1, Nat.lt_of_lt_of_le this.2 c1⟩
    · have := c3 b (by simpa [Request.clone] using hb')
      exact ⟨Nat.le_trans k1 this.1, this.2⟩

theorem fill_spec (h : Heap V) (zero : V) (spare : Nat) (r : Req V) (id : UInt64) (service method desc : Bytes)
    (md : AMap Bytes Bytes) (header body : V) (proxy : Bool) (arg : Option V) :
    let f := Request.fill h zero spare r id service method desc md header body proxy arg
    f.1.maps.length = h.maps.length + 1 ∧ (∀ b, b < h.maps.length → f.1.map b = h.map b) ∧
    (∀ b ∈ owned f.2, b = h.maps.length) ∧
    Spec.viewReq f.1 f.2 = ⟨id, service, method, desc, fun k => (AMap.load md k).getD [], true⟩ := by
  have key : ∀ (h' : Heap V), h'.maps = (h.newMap md).maps →
      h'.maps.length = h.maps.length + 1 ∧ (∀ b, b < h.maps.length → h'.map b = h.map b) ∧ h'.map h.maps.length = md := by
    intro h' e
    refine ⟨by rw [e, length_newMap], fun b hb => ?_, ?_⟩
    · rw [map_of_maps e, map_newMap hb]
    · rw [map_of_maps e, map_newMap_self]
  cases arg with
  | none =>
    obtain ⟨e1, e2, e3⟩ := key (h.newMap md) rfl
    refine ⟨e1, e2, fun b hb => ?_, ?_⟩
    · simpa [owned, Request.fill] using hb
    · simp only [Spec.viewReq, Request.fill, Option.isSome_some, Spec.ReqView.mk.injEq, true_and, and_true]
      funext k
      simp only [Request.getAttachment, e3]
  | some v =>
    obtain ⟨e1, e2, e3⟩ := key _ (maps_append (h.newMap md) zero spare r.arguments v)
    refine ⟨e1, e2, fun b hb => ?_, ?_⟩
    · simpa [owned, Request.fill] using hb
    · simp only [Spec.viewReq, Request.fill, Option.isSome_some, Spec.ReqView.mk.injEq, true_and, and_true]
      funext k
      simp only [Request.getAttachment, e3]

/-- One operation on requests in memory is the operation on requests that share nothing. -/
theorem req_step_sim (zero : V) (spare : Nat) {s : Request.St V} (hi : ReqInv s) (op : Op V) :
    ReqInv (Request.step zero spare s op) ∧
    Spec.viewWorld (Request.step zero spare s op) = Spec.reqStep (Spec.viewWorld s) op := by
  cases op with
  | new id service method desc args att ctx =>
    cases att with
    | none =>
      refine ⟨inv_snoc hi (Nat.le_refl _) (fun a ha => ?_), ?_⟩
      · cases ctx <;> simp [owned] at ha
      · simp only [Request.step, Spec.viewWorld, Spec.reqStep]
        rw [view_snoc hi (h' := (s.heap.slice args).1) fun a _ => rfl]
        cases ctx <;> rfl
    | some m =>
      refine ⟨inv_snoc hi ?_ (fun a ha => ?_), ?_⟩
      · simp only [length_newMap, Heap.slice]; omega
      · have : a = s.heap.maps.length := by cases ctx <;> simpa [owned, Heap.slice] using ha
        subst this
        simp only [length_newMap, Heap.slice]; omega
      · simp only [Request.step, Spec.viewWorld, Spec.reqStep]
        rw [view_snoc hi (h' := (s.heap.slice args).1.newMap m) fun a ha => map_newMap ha m]
        congr 3
        simp only [Spec.viewReq, Spec.ReqView.mk.injEq, true_and, Option.map_some]
        refine ⟨?_, by cases ctx <;> rfl⟩
        funext k
        simp only [Request.getAttachment, map_newMap_self]
        rfl
  | receive reuse id service method desc md header body proxy arg =>
    have hnew : ∀ free f, f =
          Request.fill s.heap zero spare { rpcContext := some {} } id service method desc md header body proxy arg →
        ReqInv ⟨f.1, s.reqs ++ [f.2], free⟩ ∧ (s.reqs ++ [f.2]).map (Spec.viewReq f.1) =
          s.reqs.map (Spec.viewReq s.heap) ++ [⟨id, service, method, desc, fun k => (AMap.load md k).getD [], true⟩] := by
      intro free f hf
      subst hf
      obtain ⟨f1, f2, f3, f4⟩ := fill_spec s.heap zero spare { rpcContext := some {} } id service method desc md header body proxy arg
      refine ⟨inv_snoc hi (by rw [f1]; omega) (fun a ha => ?_), ?_⟩
      · have := f3 a ha
        subst this
        rw [f1]; omega
      · rw [view_snoc hi f2, f4]
    rw [Request.step]
    cases reuse with
    | none =>
      obtain ⟨h1, h2⟩ := hnew s.free _ rfl
      refine ⟨h1, ?_⟩
      simp only [Option.bind_none, Spec.viewWorld, Spec.reqStep, h2]
    | some i =>
      simp only [Option.bind_some, Spec.reqStep]
      by_cases hf : i ∈ s.free
      · rw [if_pos hf]
        cases hr : s.reqs[i]? with
        | none =>
          obtain ⟨h1, h2⟩ := hnew s.free _ rfl
          have hge : ¬ i < s.reqs.length := Nat.not_lt.mpr (List.getElem?_eq_none_iff.mp hr)
          refine ⟨h1, ?_⟩
          simp only [Option.map_none, Spec.viewWorld, List.length_map, hge, and_false, if_false, h2]
        | some r =>
          have hlt := (List.getElem?_eq_some_iff.mp hr).1
          obtain ⟨f1, f2, f3, f4⟩ := fill_spec s.heap zero spare r id service method desc md header body proxy arg
          refine ⟨inv_set hi hr (by rw [f1]; omega) (fun a ha => ?_), ?_⟩
          · have := f3 a ha
            subst this
            rw [f1]; right; omega
          · simp only [Option.map_some, Spec.viewWorld, List.length_map, hlt, hf, and_self, if_true]
            rw [view_set hi hr fun a ha _ => f2 a ha, f4]
      · rw [if_neg hf]
        obtain ⟨h1, h2⟩ := hnew s.free _ rfl
        refine ⟨h1, ?_⟩
        simp only [Spec.viewWorld, hf, false_and, if_false, h2]
  | clone i =>
    rw [Request.step]
    cases hr : s.reqs[i]? with
    | none =>
      refine ⟨hi, ?_⟩
      simp only [Spec.viewWorld, Spec.reqStep, List.getElem?_map, hr, Option.map_none, Option.toList_none, List.append_nil]
    | some r =>
      obtain ⟨k1, k2, k3, k4, _⟩ := clone_spec (hi.bound i r hr)
      refine ⟨inv_snoc hi k1 k3, ?_⟩
      simp only [Spec.viewWorld, Spec.reqStep, List.getElem?_map, hr, Option.map_some, Option.toList_some]
      rw [view_snoc hi k2, k4]
  | set i k v =>
    refine update_sim hi i _ (fun a k' => if k = k' then v else a k') fun m k' => ?_
    rw [AMap.load_store]
    split <;> rfl
  | delete i k =>
    refine update_sim hi i _ (fun a k' => if k = k' then [] else a k') fun m k' => ?_
    rw [AMap.load_erase]
    split <;> rfl
  | touch i =>
    obtain ⟨h1, h2⟩ := update_sim hi i id (fun a => a) fun m k' => rfl
    refine ⟨h1, h2.trans ?_⟩
    simp only [Spec.reqStep]
    congr 1
    apply List.ext_getElem?
    intro j
    rw [List.getElem?_modify]
    show _ = (s.reqs.map (Spec.viewReq s.heap))[j]?
    split <;> simp [Spec.viewWorld]
  | setArguments i vs =>
    cases hr : s.reqs[i]? with
    | none =>
      have e : Request.step zero spare s (.setArguments i vs) = { s with heap := (s.heap.slice vs).1 } := by
        rw [Request.step, modify_none hr]
      rw [e]
      exact ⟨⟨hi.bound, hi.own⟩, rfl⟩
    | some r =>
      have e : Request.step zero spare s (.setArguments i vs) =
          { s with heap := (s.heap.slice vs).1, reqs := s.reqs.set i { r with arguments := (s.heap.slice vs).2 } } := by
        rw [Request.step, modify_eq_set hr]
      rw [e]
      refine ⟨inv_set hi hr (Nat.le_refl _) fun a ha => .inl ha, ?_⟩
      simp only [Spec.viewWorld, Spec.reqStep]
      rw [view_set hi (h' := (s.heap.slice vs).1) hr fun a _ _ => rfl, set_self]
      rw [List.getElem?_map, hr]
      rfl
  | addHandler i v =>
    rw [Request.step]
    cases hr : s.reqs[i]? with
    | none =>
      refine ⟨hi, ?_⟩
      simp only [Spec.viewWorld, Spec.reqStep]
      rw [modify_none (by rw [List.getElem?_map, hr]; rfl)]
    | some r =>
      have hm := maps_append s.heap zero spare (r.rpcContext.getD {}).finishHandlers v
      refine ⟨inv_set hi hr (by rw [hm]; exact Nat.le_refl _) fun a ha => .inl ?_, ?_⟩
      · obtain ⟨_, _, _, _, _, _, ctx⟩ := r
        cases ctx <;> exact ha
      · simp only [Spec.viewWorld, Spec.reqStep]
        rw [view_set hi hr fun a _ _ => map_of_maps hm a, modify_eq_set (a := Spec.viewReq s.heap r) (by rw [List.getElem?_map, hr]; rfl)]
        congr 2
        simp only [Spec.viewReq, Option.isSome_some, Spec.ReqView.mk.injEq, true_and, and_true]
        funext k
        rw [getAttachment_map, getAttachment_map]
        cases r.attachment with
        | none => rfl
        | some a => simp only [Option.map_some, map_of_maps hm a]
  | forward i group =>
    rw [Request.step]
    cases hr : s.reqs[i]? with
    | none => exact ⟨hi, rfl⟩
    | some r =>
      simp only
      cases hm : r.rpcContext.bind Ctx.originalMessage with
      | none => exact ⟨hi, rfl⟩
      | some m =>
        simp only
        cases ha : m.metadata with
        | none => exact ⟨hi, rfl⟩
        | some a =>
          have hown : a ∈ owned r := List.mem_append_right _ (by simp [hm, ha])
          have hlt := hi.bound i r hr a hown
          have e : s.reqs = s.reqs.set i r := (set_self hr).symm
          have h1 := inv_set (free := s.free) (r' := r) (h' := s.heap.update (some a) (·.store group (Request.getAttachment s.heap r group))) hi hr
            (by rw [length_update]; exact Nat.le_refl _) (fun b hb => .inl hb)
          rw [← e] at h1
          refine ⟨h1, ?_⟩
          have hv := view_set hi (r' := r) hr (h' := s.heap.update (some a) (·.store group (Request.getAttachment s.heap r group)))
            fun b _ hnb => map_update_ne (fun (e : a = b) => hnb (e ▸ hown)) _
          rw [← e] at hv
          simp only [Spec.viewWorld, Spec.reqStep]
          rw [hv, set_self]
          rw [List.getElem?_map, hr, Option.map_some, Option.some.injEq]
          simp only [Spec.viewReq, Spec.ReqView.mk.injEq, true_and, and_true]
          funext k
          rw [getAttachment_map, getAttachment_map]
          cases hat : r.attachment with
          | none => rfl
          | some b =>
            simp only [Option.map_some, Option.bind_some]
            by_cases hab : a = b
            · subst hab
              rw [map_update_self hlt, AMap.load_store]
              split
              · rename_i e; subst e; simp only [Request.getAttachment, hat, Option.getD_some]
              · rfl
            · rw [map_update_ne hab]
  | release i =>
    rw [Request.step]
    cases hr : s.reqs[i]? with
    | none =>
      refine ⟨hi, ?_⟩
      simp only [Spec.viewWorld, Spec.reqStep, List.getElem?_map, hr, Option.map_none]
    | some r =>
      simp only
      cases hc : r.rpcContext with
      | none =>
        refine ⟨hi, ?_⟩
        simp [Spec.viewWorld, Spec.reqStep, List.getElem?_map, hr, Spec.viewReq, hc]
      | some c =>
        refine ⟨inv_set hi hr (Nat.le_refl _) (fun a ha => by simp [owned, Request.reset] at ha), ?_⟩
        simp only [Spec.viewWorld, Spec.reqStep, List.getElem?_map, hr, Option.map_some, Spec.viewReq, hc, Option.isSome_some,
          if_true]
        have := view_set hi (r' := Request.reset r c) (h' := s.heap) hr fun _ _ _ => rfl
        simp only [Spec.viewReq] at this
        rw [this]
        rfl

/-- C48: whatever is done to requests, their clones and the clones of those, in any order, with releases into and
requests out of the pool in between, each of them shows what has been done to it (and, for a clone, to the cloned one
before), and nothing else. -/
theorem clones_isolated (zero : V) (spare : Nat) (ops : List (Op V)) :
    Spec.viewWorld (Request.run zero spare {} ops) = ops.foldl Spec.reqStep {} := by
  have gen : ∀ (ops : List (Op V)) (s : Request.St V), ReqInv s →
      Spec.viewWorld (Request.run zero spare s ops) = ops.foldl Spec.reqStep (Spec.viewWorld s) := by
    intro ops
    induction ops with
    | nil => intro s _; rfl
    | cons op ops ih =>
      intro s hs
      have := req_step_sim zero spare hs op
      rw [Request.run, List.foldl_cons]
      exact (ih _ this.1).trans (by rw [this.2]; rfl)
  exact gen ops {} ⟨(fun i r h => by cases h), fun i j r r' h => by cases h⟩

theorem run_inv (zero : V) (spare : Nat) (ops : List (Op V)) : ReqInv (Request.run zero spare {} ops) := by
  have gen : ∀ (ops : List (Op V)) (s : Request.St V), ReqInv s → ReqInv (Request.run zero spare s ops) := by
    intro ops
    induction ops with
    | nil => intro s h; exact h
    | cons op ops ih => intro s h; exact ih _ (req_step_sim zero spare h op).1
  exact gen ops {} ⟨(fun i r h => by cases h), fun i j r r' h => by cases h⟩

/-- C48: at the time of cloning, the clone equals the original in number, names, arguments and attachments, and it has
the same finish handlers, flags and original message. -/
theorem clone_equal (zero : V) (spare : Nat) (ops : List (Op V)) {i : Nat} {r : Req V}
    (hr : (Request.run zero spare {} ops).reqs[i]? = some r) :
    let s := Request.run zero spare {} ops
    ∃ r', (Request.step zero spare s (.clone i)).reqs[s.reqs.length]? = some r' ∧
      let h' := (Request.step zero spare s (.clone i)).heap
      r'.requestID = r.requestID ∧ r'.serviceName = r.serviceName ∧ r'.method = r.method ∧ r'.methodDesc = r.methodDesc ∧
      h'.get r'.arguments = s.heap.get r.arguments ∧
      (∀ k, Request.getAttachment h' r' k = Request.getAttachment s.heap r k) ∧
      (∀ c, r.rpcContext = some c → ∃ c', r'.rpcContext = some c' ∧ h'.get c'.finishHandlers = s.heap.get c.finishHandlers ∧
        c'.proxy = c.proxy ∧ c'.oneway = c.oneway ∧ c'.serialized = c.serialized ∧ c'.serializeNum = c.serializeNum ∧
        c'.originalMessage.map (fun m => (m.header, m.body, m.type)) = c.originalMessage.map fun m => (m.header, m.body, m.type)) := by
  intro s
  have hi := run_inv zero spare ops
  obtain ⟨k1, k2, k3, k4, k5⟩ := clone_spec (hi.bound i r hr)
  have hstep : Request.step zero spare s (.clone i) =
      { s with heap := (Request.clone s.heap r).1, reqs := s.reqs ++ [(Request.clone s.heap r).2] } := by
    show (match s.reqs[i]? with | none => s | some r => _) = _
    rw [show s.reqs[i]? = some r from hr]
  rw [hstep]
  refine ⟨(Request.clone s.heap r).2, by simp, ?_⟩
  have hget : ∀ sl, (Request.clone s.heap r).1.get sl = s.heap.get sl := by
    intro sl; rw [Heap.get, Heap.get, k5]
  simp only [Spec.viewReq, Spec.ReqView.mk.injEq] at k4
  obtain ⟨e1, e2, e3, e4, e5, _⟩ := k4
  refine ⟨e1, e2, e3, e4, ?_, fun k => congrFun e5 k, fun c hc => ?_⟩
  · rw [hget]
    congr 1
    rw [Request.clone]
    cases r.rpcContext <;> rfl
  · refine ⟨(Request.cloneCtx (s.heap.copyMap r.attachment).1 c).2, ?_, ?_, ?_⟩
    · simp only [Request.clone, hc]
    · rw [hget]
      congr 1
      rw [Request.cloneCtx]
      cases c.originalMessage <;> rfl
    · rw [Request.cloneCtx]
      cases c.originalMessage <;> exact ⟨rfl, rfl, rfl, rfl, rfl⟩

/-! ## A history -/

def exCloneHistory : List (Op Nat) :=
  [.receive none 1 b!"svc" b!"m" [] [(b!"k", b!"v")] 0 0 true (some 7), .clone 0, .set 1 b!"k" b!"w", .clone 1, .set 0 b!"x" b!"y",
   .delete 2 b!"k", .release 0, .receive (some 0) 2 b!"svc2" b!"n" [] [(b!"z", b!"1")] 0 0 true (some 8)]

example : (exCloneHistory.foldl Spec.reqStep {}).reqs.map (fun r => (r.serviceName, r.attachment b!"k", r.attachment b!"x", r.attachment b!"z")) =
    [(b!"svc2", [], [], b!"1"), (b!"svc", b!"w", [], []), (b!"svc", [], [], [])] := by decide +kernel

/-! ## What is shared -/

/-- C48, exhibited: a clone shares the array of its arguments with the original: when the original is released and used
for the next request, the clone has the argument of that request. -/
theorem clone_arguments_overwritten_violated :
    let s := Request.run 0 3 {} [.receive none 1 b!"svc" b!"m" [] [] 0 0 true (some 7), .clone 0]
    let s' := Request.run 0 3 s [.release 0, .receive (some 0) 2 b!"svc" b!"m" [] [] 0 0 true (some 8)]
    s.reqs[1]?.map (fun r => s.heap.get r.arguments) = some [7] ∧
    s'.reqs[1]?.map (fun r => s'.heap.get r.arguments) = some [8] := by
  decide +kernel

/-- C48, exhibited: a finish handler added to a clone replaces the one that was added to the original. -/
theorem clone_handler_overwritten_violated :
    let s := Request.run 0 3 {} [.new 1 b!"svc" b!"m" [] [] none true, .addHandler 0 1, .clone 0, .addHandler 0 2]
    let s' := Request.run 0 3 s [.addHandler 1 3]
    s.reqs[0]?.bind (fun r => r.rpcContext.map fun c => s.heap.get c.finishHandlers) = some [1, 2] ∧
    s'.reqs[0]?.bind (fun r => r.rpcContext.map fun c => s'.heap.get c.finishHandlers) = some [1, 3] := by
  decide +kernel

/-- C48, exhibited: an attachment set on a request that is forwarded is sent; set on its clone it is not. -/
theorem clone_attachment_not_sent_violated :
    let s := Request.run 0 3 {} [.receive none 1 b!"svc" b!"m" [] [] 0 0 true (some 7), .clone 0, .set 0 b!"k" b!"v", .set 1 b!"k" b!"v"]
    s.reqs.map (fun r => Request.getAttachment s.heap r b!"k") = [b!"v", b!"v"] ∧
    s.reqs.map (fun r => AMap.load (Request.sentMetadata s.heap r) b!"k") = [some b!"v", none] := by
  decide +kernel

/-- C48, exhibited: a clone does not know its caller's address, nor that it is asynchronous or came by the first protocol. -/
theorem clone_drops_fields_violated (h : Heap V) (r : Req V) (c : Ctx V) (hc : r.rpcContext = some c) :
    (Request.clone h r).2.rpcContext.map (fun c => (c.remoteAddr, c.isMotanV1, c.asyncCall, c.bodySize)) =
      some ([], false, false, 0) := by
  rw [Request.clone, hc]
  simp only [Option.map_some, Request.cloneCtx]
  cases c.originalMessage <;> rfl

end Motan.Props
