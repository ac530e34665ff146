import Verif.Model.Snapshot

/-!
# C89: snapshot files show what the registries found last
-/

namespace Motan.Props

open Motan.Snapshot

/-- What a registry found last for a key. -/
def Spec.lastSaved (r k : Bytes) (ops : List Snapshot.Op) : Option Snapshot.Service :=
  (ops.reverse.findSome? fun o =>
    match o with
    | .save r' g p ns => if r' = r ∧ g ++ b!"_" ++ p = k then some ⟨g, p, ns⟩ else none
    | _ => none)

/-- What is in memory. -/
def inMemory (s : Snapshot.St) (r k : Bytes) : Option Snapshot.Service := (AMap.load s.memory r).bind fun m => AMap.load m k

structure MemOk (s : Snapshot.St) : Prop where
  outer : AMap.NodupKeys s.memory
  inner : ∀ r m, AMap.load s.memory r = some m → AMap.NodupKeys m ∧ m ≠ []

theorem memOk_save {s : Snapshot.St} (h : MemOk s) (r g p : Bytes) (ns : List Bytes) : MemOk (save s r g p ns) := by
  refine ⟨AMap.nodupKeys_store h.outer _ _, fun r' m hm => ?_⟩
  simp only [save, AMap.load_store] at hm
  split at hm
  · cases hm
    refine ⟨AMap.nodupKeys_store ?_ _ _, ?_⟩
    · cases e : AMap.load s.memory r with
      | none => exact AMap.nodupKeys_nil
      | some m => exact (h.inner r m e).1
    · intro e
      have := congrArg (fun m => AMap.load m (nodeKey g p)) e
      simp at this
  · exact h.inner r' m hm

theorem inMemory_save (s : Snapshot.St) (r g p : Bytes) (ns : List Bytes) (r' k : Bytes) :
    inMemory (save s r g p ns) r' k = if r = r' ∧ nodeKey g p = k then some ⟨g, p, ns⟩ else inMemory s r' k := by
  simp only [inMemory, save, AMap.load_store]
  by_cases e : r = r'
  · subst e
    simp only [if_true, Option.bind_some, AMap.load_store, true_and]
    split
    · rfl
    · cases AMap.load s.memory r <;> simp
  · simp [e]

theorem snap_play_snoc {json : Snapshot.Service → Bytes} {s s' : Snapshot.St} {ops : List Snapshot.Op} {o : Snapshot.Op} :
    Snapshot.play json s (ops ++ [o]) = some s' ↔ ∃ m, Snapshot.play json s ops = some m ∧ Snapshot.step json m o = some s' := by
  induction ops generalizing s with
  | nil => simp [Snapshot.play]
  | cons a ops ih =>
    simp only [List.cons_append, Snapshot.play]
    cases Snapshot.step json s a with
    | none => simp
    | some m => simpa using ih

theorem memory_follows {json : Snapshot.Service → Bytes} (ops : List Snapshot.Op) (s : Snapshot.St)
    (h : Snapshot.play json {} ops = some s) : MemOk s ∧ ∀ r k, inMemory s r k = Spec.lastSaved r k ops := by
  suffices H : ∀ rs : List Snapshot.Op, ∀ s, Snapshot.play json {} rs.reverse = some s →
      MemOk s ∧ ∀ r k, inMemory s r k = Spec.lastSaved r k rs.reverse by
    simpa using H ops.reverse s (by simpa using h)
  clear h ops s
  intro rs
  induction rs with
  | nil =>
    intro s h
    simp [Snapshot.play] at h
    subst h
    exact ⟨⟨AMap.nodupKeys_nil, by simp⟩, by simp [inMemory, Spec.lastSaved]⟩
  | cons o rs ih =>
    intro s h
    rw [List.reverse_cons] at h ⊢
    obtain ⟨m, h1, h2⟩ := snap_play_snoc.mp h
    obtain ⟨i1, i2⟩ := ih m h1
    cases o with
    | save r g p ns =>
      cases h2
      refine ⟨memOk_save i1 r g p ns, fun r' k => ?_⟩
      rw [inMemory_save, i2]
      simp only [Spec.lastSaved, List.reverse_append, List.reverse_cons, List.reverse_nil, List.nil_append, List.singleton_append,
        List.findSome?_cons, nodeKey]
      by_cases e : r = r' ∧ g ++ b!"_" ++ p = k
      · simp only [if_pos e]; exact if_pos e
      · simp only [if_neg e]; exact if_neg e
    | flush order outcome =>
      simp only [Snapshot.step] at h2
      split at h2
      · cases h2
        refine ⟨⟨i1.outer, i1.inner⟩, fun r' k => ?_⟩
        have : Spec.lastSaved r' k (rs.reverse ++ [.flush order outcome]) = Spec.lastSaved r' k rs.reverse := by
          simp [Spec.lastSaved]
        rw [this, ← i2]; rfl
      · cases h2

/-- Two entries of the same key. -/
def joined (a : Option Snapshot.Service) (v : Snapshot.Service) : Option Snapshot.Service :=
  match a with
  | some n => some { n with nodes := n.nodes ++ v.nodes }
  | none => some v

theorem load_add (m : AMap Bytes Snapshot.Service) (p : Bytes × Snapshot.Service) (k : Bytes) :
    AMap.load (add m p) k = if p.1 = k then joined (AMap.load m k) p.2 else AMap.load m k := by
  unfold add joined
  split <;> rename_i h <;> rw [AMap.load_store] <;> split <;> rename_i e
  · subst e; rw [h]
  · rfl
  · subst e; rw [h]
  · rfl

theorem load_inner (inner : AMap Bytes Snapshot.Service) (hn : AMap.NodupKeys inner) (m : AMap Bytes Snapshot.Service) (k : Bytes) :
    AMap.load (inner.foldl add m) k =
      match AMap.load inner k with | some v => joined (AMap.load m k) v | none => AMap.load m k := by
  induction inner generalizing m with
  | nil => rfl
  | cons p inner ih =>
    obtain ⟨k', v⟩ := p
    have hn' : AMap.NodupKeys inner := (List.nodup_cons.mp hn).2
    have hk : k' ∉ AMap.keys inner := (List.nodup_cons.mp hn).1
    rw [List.foldl_cons, ih hn', AMap.load_cons, load_add]
    by_cases e : k' = k
    · subst e
      rw [AMap.load_eq_none.mpr hk]; simp
    · simp [e]

theorem nodup_add {m : AMap Bytes Snapshot.Service} (h : AMap.NodupKeys m) (p : Bytes × Snapshot.Service) : AMap.NodupKeys (add m p) := by
  unfold add; split <;> exact AMap.nodupKeys_store h _ _

theorem nodup_inner (inner : AMap Bytes Snapshot.Service) {m : AMap Bytes Snapshot.Service} (h : AMap.NodupKeys m) :
    AMap.NodupKeys (inner.foldl add m) := by
  induction inner generalizing m with
  | nil => exact h
  | cons p inner ih => exact ih (nodup_add h p)

theorem load_outer (order : AMap Bytes (AMap Bytes Snapshot.Service)) (hn : ∀ x ∈ order, AMap.NodupKeys x.2)
    (m : AMap Bytes Snapshot.Service) (k : Bytes) :
    AMap.load (order.foldl (fun m r => r.2.foldl add m) m) k =
      (order.filterMap fun x => AMap.load x.2 k).foldl (fun a v => joined a v) (AMap.load m k) := by
  induction order generalizing m with
  | nil => rfl
  | cons x order ih =>
    rw [List.foldl_cons, ih (fun y hy => hn y (List.mem_cons_of_mem _ hy)), load_inner _ (hn x (by simp)), List.filterMap_cons]
    cases AMap.load x.2 k <;> rfl

theorem nodup_outer (order : AMap Bytes (AMap Bytes Snapshot.Service)) {m : AMap Bytes Snapshot.Service} (h : AMap.NodupKeys m) :
    AMap.NodupKeys (order.foldl (fun m r => r.2.foldl add m) m) := by
  induction order generalizing m with
  | nil => exact h
  | cons p order ih => exact ih (nodup_inner _ h)

theorem joined_fold (f : Snapshot.Service) (rest : List Snapshot.Service) :
    rest.foldl (fun a v => joined a v) (some f) = some { f with nodes := f.nodes ++ rest.flatMap (·.nodes) } := by
  induction rest generalizing f with
  | nil => simp
  | cons v rest ih =>
    rw [List.foldl_cons]
    show rest.foldl _ (some { f with nodes := f.nodes ++ v.nodes }) = _
    rw [ih]; simp

theorem load_writeAll (json : Snapshot.Service → Bytes) (outcome : Bytes → Write) (nodes : AMap Bytes Snapshot.Service)
    (hn : AMap.NodupKeys nodes) (files : AMap Bytes Bytes) (k : Bytes) :
    AMap.load (writeAll json outcome files nodes) k =
      match AMap.load nodes k with
      | none => AMap.load files k
      | some v => match outcome k with | .done => some (json v) | .failed b => b := by
  unfold writeAll
  induction nodes generalizing files with
  | nil => rfl
  | cons p nodes ih =>
    obtain ⟨k', v⟩ := p
    have hn' : AMap.NodupKeys nodes := (List.nodup_cons.mp hn).2
    have hk : k' ∉ AMap.keys nodes := (List.nodup_cons.mp hn).1
    rw [List.foldl_cons, ih hn', AMap.load_cons]
    by_cases e : k' = k
    · subst e
      rw [AMap.load_eq_none.mpr hk]
      simp only [if_true]
      cases outcome k' with
      | done => simp
      | failed b => cases b <;> simp [AMap.load_erase]
    · simp only [if_neg e]
      have : ∀ x, AMap.load (match outcome k' with
          | .done => AMap.store files k' (json v)
          | .failed (some b) => AMap.store files k' b
          | .failed none => AMap.erase files k') k = x ↔ AMap.load files k = x := by
        intro x
        cases outcome k' with
        | done => simp [AMap.load_store, e]
        | failed b => cases b <;> simp [AMap.load_store, AMap.load_erase, e]
      cases AMap.load nodes k with
      | none => exact (this _).mpr rfl
      | some v => rfl

/-! ## The property -/

/-- C89: after a tick, in any history. `rs` is the order in which the tick saw the registries: exactly those that found something,
each once. The file of a key holds, if it could be written, the nodes found last by each registry for the key, one registry after
another; if no registry found anything for the key, nothing happened to the file. -/
theorem snapshot_files {json : Snapshot.Service → Bytes} {ops : List Snapshot.Op} {s s' : Snapshot.St}
    {order : AMap Bytes (AMap Bytes Snapshot.Service)} {outcome : Bytes → Write} (h : Snapshot.play json {} ops = some s)
    (hf : Snapshot.step json s (.flush order outcome) = some s') :
    ∃ rs : List Bytes, rs.Nodup ∧ (∀ r, r ∈ rs ↔ ∃ k, (Spec.lastSaved r k ops).isSome = true) ∧
      ∀ k, (∀ r, Spec.lastSaved r k ops = none) ∧ AMap.load s'.files k = AMap.load s.files k ∨
        ∃ f rest, rs.filterMap (fun r => Spec.lastSaved r k ops) = f :: rest ∧
          (outcome k = .done →
            AMap.load s'.files k = some (json { f with nodes := f.nodes ++ rest.flatMap (·.nodes) })) ∧
          ∀ b, outcome k = .failed b → AMap.load s'.files k = b := by
  obtain ⟨ok, hmem⟩ := memory_follows ops s h
  simp only [Snapshot.step] at hf
  split at hf
  · rename_i hperm
    cases hf
    have hnd : AMap.NodupKeys order := (hperm.map Prod.fst).nodup_iff.mpr ok.outer
    have hload : ∀ x ∈ order, AMap.load s.memory x.1 = some x.2 := fun x hx =>
      AMap.load_of_mem ok.outer (hperm.mem_iff.mp hx)
    have hrs : ∀ r, r ∈ AMap.keys order ↔ ∃ k, (Spec.lastSaved r k ops).isSome = true := by
      intro r
      constructor
      · intro hr
        obtain ⟨x, hx, rfl⟩ := List.mem_map.mp hr
        obtain ⟨_, hne⟩ := ok.inner x.1 x.2 (hload x hx)
        cases e : x.2 with
        | nil => exact absurd e hne
        | cons y ys =>
          refine ⟨y.1, ?_⟩
          rw [← hmem, inMemory, hload x hx, e]
          simp [AMap.load]
      · rintro ⟨k, hk⟩
        rw [← hmem, inMemory] at hk
        cases e : AMap.load s.memory r with
        | none => rw [e] at hk; cases hk
        | some m =>
          exact List.mem_map.mpr ⟨(r, m), hperm.mem_iff.mpr (AMap.mem_of_load e), rfl⟩
    refine ⟨AMap.keys order, hnd, hrs, fun k => ?_⟩
    have hfm : (order.filterMap fun x => AMap.load x.2 k) = (AMap.keys order).filterMap fun r => Spec.lastSaved r k ops := by
      have hg : ∀ l : AMap Bytes (AMap Bytes Snapshot.Service), (∀ x ∈ l, x ∈ order) →
          (l.filterMap fun x => AMap.load x.2 k) = (l.map Prod.fst).filterMap fun r => Spec.lastSaved r k ops := by
        intro l hl
        induction l with
        | nil => rfl
        | cons x l ih =>
          have hx : AMap.load x.2 k = Spec.lastSaved x.1 k ops := by
            rw [← hmem, inMemory, hload x (hl x (by simp))]; rfl
          rw [List.map_cons, List.filterMap_cons, List.filterMap_cons, hx, ih (fun y hy => hl y (List.mem_cons_of_mem _ hy))]
      exact hg order (fun _ hx => hx)
    have hcol : AMap.load (collect order) k =
        ((AMap.keys order).filterMap fun r => Spec.lastSaved r k ops).foldl (fun a v => joined a v) none := by
      rw [collect, load_outer order (fun x hx => (ok.inner x.1 x.2 (hload x hx)).1), hfm]; rfl
    have hw := load_writeAll json outcome (collect order) (nodup_outer order AMap.nodupKeys_nil) s.files k
    cases e : (AMap.keys order).filterMap fun r => Spec.lastSaved r k ops with
    | nil =>
      left
      rw [e] at hcol
      refine ⟨fun r => ?_, by simpa [hcol] using hw⟩
      cases hl : Spec.lastSaved r k ops with
      | none => rfl
      | some v =>
        have : v ∈ (AMap.keys order).filterMap fun r => Spec.lastSaved r k ops :=
          List.mem_filterMap.mpr ⟨r, (hrs r).mpr ⟨k, by simp [hl]⟩, hl⟩
        rw [e] at this; cases this
    | cons f rest =>
      right
      rw [e] at hcol
      have hcol' : AMap.load (collect order) k = some { f with nodes := f.nodes ++ rest.flatMap (·.nodes) } := by
        rw [hcol, List.foldl_cons]; exact joined_fold f rest
      rw [hcol'] at hw
      refine ⟨f, rest, rfl, fun ho => ?_, fun b ho => ?_⟩
      · simpa [ho] using hw
      · simpa [ho] using hw
  · cases hf

/-- C89: with no underscore in the paths, services have different keys. -/
theorem snapshot_keys {g p g' p' : Bytes} (hp : (95 : UInt8) ∉ p) (hp' : (95 : UInt8) ∉ p') (h : nodeKey g p = nodeKey g' p') :
    g = g' ∧ p = p' := by
  have hr := congrArg List.reverse h
  simp only [nodeKey, List.reverse_append, List.append_assoc] at hr
  have key : ∀ (a b x y : Bytes), (95 : UInt8) ∉ a → (95 : UInt8) ∉ b → a ++ (95 :: x) = b ++ (95 :: y) → a = b ∧ x = y := by
    intro a
    induction a with
    | nil =>
      intro b x y _ hb e
      cases b with
      | nil => simpa using e
      | cons c b => simp only [List.nil_append, List.cons_append, List.cons.injEq] at e; exact absurd e.1 (by intro e'; subst e'; simp at hb)
    | cons c a ih =>
      intro b x y ha hb e
      cases b with
      | nil => simp only [List.nil_append, List.cons_append, List.cons.injEq] at e; exact absurd e.1 (by intro e'; subst e'; simp at ha)
      | cons d b =>
        simp only [List.cons_append, List.cons.injEq, List.mem_cons, not_or] at e ha hb
        obtain ⟨h1, h2⟩ := ih b x y ha.2 hb.2 e.2
        exact ⟨by rw [e.1, h1], h2⟩
  obtain ⟨h1, h2⟩ := key p.reverse p'.reverse g.reverse g'.reverse (by simpa using hp) (by simpa using hp') hr
  exact ⟨List.reverse_inj.mp h2, List.reverse_inj.mp h1⟩

/-- What a registry found last for a service. -/
def Spec.lastNodes (r g p : Bytes) (ops : List Snapshot.Op) : Option (List Bytes) :=
  (ops.reverse.findSome? fun o =>
    match o with
    | .save r' g' p' ns => if r' = r ∧ g' = g ∧ p' = p then some ns else none
    | _ => none)

/-- C89: with no underscore in the paths the file of a service shows what was found for this service. -/
theorem snapshot_service (r g p : Bytes) (ops : List Snapshot.Op) (hp : (95 : UInt8) ∉ p)
    (hops : ∀ r' g' p' ns, Snapshot.Op.save r' g' p' ns ∈ ops → (95 : UInt8) ∉ p') :
    Spec.lastSaved r (g ++ b!"_" ++ p) ops = (Spec.lastNodes r g p ops).map fun ns => ⟨g, p, ns⟩ := by
  unfold Spec.lastSaved Spec.lastNodes
  have hops' : ∀ r' g' p' ns, Snapshot.Op.save r' g' p' ns ∈ ops.reverse → (95 : UInt8) ∉ p' := by simpa using hops
  generalize ops.reverse = l at hops'
  induction l with
  | nil => rfl
  | cons o l ih =>
    have ih := ih (fun r' g' p' ns hm => hops' r' g' p' ns (List.mem_cons_of_mem _ hm))
    cases o with
    | flush => simpa [List.findSome?_cons] using ih
    | save r' g' p' ns =>
      have hk : (r' = r ∧ g' ++ b!"_" ++ p' = g ++ b!"_" ++ p) ↔ (r' = r ∧ g' = g ∧ p' = p) := by
        constructor
        · rintro ⟨h1, h2⟩; exact ⟨h1, snapshot_keys (hops' r' g' p' ns (by simp)) hp h2⟩
        · rintro ⟨h1, rfl, rfl⟩; exact ⟨h1, rfl⟩
      simp only [List.findSome?_cons]
      by_cases e : r' = r ∧ g' = g ∧ p' = p
      · rw [if_pos e, if_pos (hk.mpr e)]
        obtain ⟨_, rfl, rfl⟩ := e; rfl
      · rw [if_neg e, if_neg (fun x => e (hk.mp x))]; exact ih

/-- C89 (false of the code): "the files show every service found" — two services of one registry can share a key, and then only the one
saved last is written. -/
theorem snapshot_collision_violated (json : Snapshot.Service → Bytes) : ∃ s, Snapshot.play json {}
      [.save b!"zk" b!"a_b" b!"c" [b!"10.0.0.1:80"], .save b!"zk" b!"a" b!"b_c" [b!"10.0.0.2:80"],
       .flush [(b!"zk", [(b!"a_b_c", ⟨b!"a", b!"b_c", [b!"10.0.0.2:80"]⟩)])] (fun _ => .done)] = some s ∧
    s.files = [(b!"a_b_c", json ⟨b!"a", b!"b_c", [b!"10.0.0.2:80"]⟩)] := ⟨_, rfl, rfl⟩

/-! ## Cases -/

/-- Two registries know one service; the file has the nodes of both. -/
example (json : Snapshot.Service → Bytes) : ∃ s, Snapshot.play json {}
      [.save b!"zk1" b!"g" b!"p" [b!"old"], .save b!"zk2" b!"g" b!"p" [b!"b"], .save b!"zk1" b!"g" b!"p" [b!"a"],
       .flush [(b!"zk2", [(b!"g_p", ⟨b!"g", b!"p", [b!"b"]⟩)]), (b!"zk1", [(b!"g_p", ⟨b!"g", b!"p", [b!"a"]⟩)])]
         (fun _ => .done)] = some s ∧
    s.files = [(b!"g_p", json ⟨b!"g", b!"p", [b!"b", b!"a"]⟩)] := ⟨_, rfl, rfl⟩

end Motan.Props
