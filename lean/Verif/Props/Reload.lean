import Verif.Model.Reload
import Verif.Props.Url

/-!
# C61: hot reload of the agent's clusters

A reload replaces the table of clusters by one that serves exactly the references of the new configuration and of the
dynamic subscriptions. A cluster whose reference is unchanged stays, one whose reference is gone is destroyed, and
whatever happens, in whatever order, no request is sent to a destroyed cluster. A second reload of the same references
changes nothing. Each of these needs what is said in its hypotheses: see the `_violated` theorems at the end.
-/

namespace Motan.Props

open Motan.Strings Motan.Url Motan.Reload Motan.Routing

/-! ## Specification -/

/-- The references a reload looks at: the dynamic subscriptions and the new configuration. -/
def Spec.references (s : Reload.St) (ids : List Bytes) (refs : List URL) : List URL :=
  ids.filterMap (fun id => AMap.load s.subs id) ++ refs

/-- The items of a service. -/
def Spec.itemsOf (t : Table) (p : Bytes) : List (Item Nat) := (AMap.load t p).getD []

/-- The item is in the table. -/
def Spec.InTable (t : Table) (i : Item Nat) : Prop := ∃ p, i ∈ Spec.itemsOf t p

/-- Building a cluster for this reference leaves the string it is recognised by unchanged. -/
def Spec.Stays (E : Reload.Env) (u : URL) : Prop := ext (made E (fill E u)) = ext (fill E u)

/-! ## The effects on a URL -/

theorem fill_path (E : Reload.Env) (u : URL) : (fill E u).path = u.path := by
  rw [fill]; split <;> rfl

theorem haEffect_path (u : URL) : (haEffect u).path = u.path := by
  rw [haEffect]; repeat' split
  all_goals rfl

theorem subscribeEffect_path (E : Reload.Env) (k : RegKind) (u : URL) : (subscribeEffect E k u).path = u.path := by
  cases k with
  | zookeeper => rw [subscribeEffect]; split <;> rfl
  | other => rfl

theorem registryEffect_path (E : Reload.Env) (u : URL) (r : Bytes) : (registryEffect E u r).path = u.path := by
  rw [registryEffect]; split
  · rw [subscribeEffect_path]; rfl
  · rfl

theorem made_path (E : Reload.Env) (u : URL) : (made E u).path = u.path := by
  have hf : ∀ (l : List Bytes) (v : URL), (l.foldl (registryEffect E) v).path = v.path := by
    intro l
    induction l with
    | nil => intro v; rfl
    | cons r l ih => intro v; rw [List.foldl_cons, ih, registryEffect_path]
  rw [made]
  split
  · rw [hf, haEffect_path]
  · rw [haEffect_path]

/-! ## An uninterrupted reload -/

/-- The items a reload gives the references, in order. -/
def planned (E : Reload.Env) (t : Table) : Nat → List URL → List (Bytes × Item Nat)
  | _, [] => []
  | n, u :: us =>
    match lookup t (fill E u) with
    | some i => (u.path, i) :: planned E t n us
    | none => (u.path, ⟨made E (fill E u), n⟩) :: planned E t (n + 1) us

/-- How many clusters it creates. -/
def created (E : Reload.Env) (t : Table) (us : List URL) : Nat := us.countP fun u => (lookup t (fill E u)).isNone

theorem itemsOf_add (t : Table) (p q : Bytes) (i : Item Nat) :
    Spec.itemsOf (t.add p i) q = Spec.itemsOf t q ++ if p = q then [i] else [] := by
  rw [Spec.itemsOf, Table.add, AMap.load_store]
  split
  · rename_i h; subst h; rfl
  · simp [Spec.itemsOf]

theorem known_add (t : Table) (p q : Bytes) (i : Item Nat) :
    (AMap.load (t.add p i) q).isSome ↔ (AMap.load t q).isSome ∨ p = q := by
  rw [Table.add, AMap.load_store]
  split
  · rename_i h; simp [h]
  · rename_i h; simp [h]

/-- Adding many. -/
def addAll (t : Table) (l : List (Bytes × Item Nat)) : Table := l.foldl (fun t x => t.add x.1 x.2) t

theorem itemsOf_addAll (l : List (Bytes × Item Nat)) (t : Table) (q : Bytes) :
    Spec.itemsOf (addAll t l) q = Spec.itemsOf t q ++ (l.filter (·.1 = q)).map (·.2) := by
  induction l generalizing t with
  | nil => simp [addAll]
  | cons x l ih =>
    rw [show addAll t (x :: l) = addAll (t.add x.1 x.2) l from rfl, ih, itemsOf_add, List.filter_cons, List.append_assoc]
    by_cases h : x.1 = q <;> simp [h]

theorem known_addAll (l : List (Bytes × Item Nat)) (t : Table) (q : Bytes) :
    (AMap.load (addAll t l) q).isSome ↔ (AMap.load t q).isSome ∨ ∃ x ∈ l, x.1 = q := by
  induction l generalizing t with
  | nil => simp [addAll]
  | cons x l ih =>
    rw [show addAll t (x :: l) = addAll (t.add x.1 x.2) l from rfl, ih, known_add]
    simp [or_assoc]

/-- The strings kept. -/
def kept (E : Reload.Env) (t : Table) (us : List URL) : List Bytes :=
  (us.filter fun u => (lookup t (fill E u)).isSome).map fun u => ext (fill E u)

theorem run_next (E : Reload.Env) (todo : List (Option Bytes × URL)) (s : Reload.St) (t : Table) (k : List Bytes)
    (hp : s.pending = some ⟨todo, t, k⟩) :
    ∃ s', (List.replicate todo.length ()).foldl (fun s _ => Reload.next E s) s = s' ∧
      s'.table = s.table ∧ s'.destroyed = s.destroyed ∧ s'.next = s.next + created E s.table (todo.map (·.2)) ∧
      s'.pending = some ⟨[], addAll t (planned E s.table s.next (todo.map (·.2))),
        (kept E s.table (todo.map (·.2))).reverse ++ k⟩ := by
  induction todo generalizing s t k with
  | nil => exact ⟨s, rfl, rfl, rfl, rfl, hp⟩
  | cons x todo ih =>
    obtain ⟨id, u⟩ := x
    rw [List.length_cons, List.replicate_succ, List.foldl_cons]
    cases hl : lookup s.table (fill E u) with
    | some i =>
      have hn : Reload.next E s = { s with
          subs := writeBack s.subs id (fill E u)
          pending := some { todo := todo, table := t.add (fill E u).path i, keep := ext (fill E u) :: k } } := by
        rw [Reload.next, hp]; simp only [hl]
      have hq := congrArg Reload.St.pending hn
      have ht := congrArg Reload.St.table hn
      have hd := congrArg Reload.St.destroyed hn
      have hx := congrArg Reload.St.next hn
      simp only at hq ht hd hx
      obtain ⟨s', h1, h2, h3, h4, h5⟩ := ih (Reload.next E s) _ _ hq
      rw [ht] at h2 h4 h5; rw [hd] at h3; rw [hx] at h4 h5
      refine ⟨s', h1, h2, h3, ?_, ?_⟩
      · rw [h4]; simp [created, hl]
      · rw [h5]; simp [planned, hl, addAll, kept, fill_path]
    | none =>
      have hn : Reload.next E s = { s with
          subs := writeBack s.subs id (made E (fill E u))
          next := s.next + 1
          pending := some { todo := todo, table := t.add (fill E u).path ⟨made E (fill E u), s.next⟩, keep := k } } := by
        rw [Reload.next, hp]; simp only [hl]
      have hq := congrArg Reload.St.pending hn
      have ht := congrArg Reload.St.table hn
      have hd := congrArg Reload.St.destroyed hn
      have hx := congrArg Reload.St.next hn
      simp only at hq ht hd hx
      obtain ⟨s', h1, h2, h3, h4, h5⟩ := ih (Reload.next E s) _ _ hq
      rw [ht] at h2 h4 h5; rw [hd] at h3; rw [hx] at h4 h5
      refine ⟨s', h1, h2, h3, ?_, ?_⟩
      · rw [h4]; simp [created, hl]; omega
      · rw [h5]; simp [planned, hl, addAll, kept, fill_path]

/-- What a reload comes to. -/
theorem reload_eq (E : Reload.Env) (s : Reload.St) (hp : s.pending = none) (ids : List Bytes) (refs : List URL) :
    let us := Spec.references s ids refs
    (reload E s ids refs).table = addAll [] (planned E s.table s.next us) ∧
    (reload E s ids refs).next = s.next + created E s.table us ∧
    (reload E s ids refs).pending = none ∧
    (reload E s ids refs).destroyed =
      s.destroyed ++ (s.table.items.filter fun i => ext i.url ∉ kept E s.table us).map (·.cluster) := by
  intro us
  generalize ht : (ids.filterMap fun id => (AMap.load s.subs id).map fun u => (some id, u)) ++
      refs.map (fun u => ((none : Option Bytes), u)) = todo
  have hb : Reload.begin s ids refs = { s with pending := some ⟨todo, [], []⟩ } := by
    rw [Reload.begin, hp, ← ht]
  have hus : todo.map (·.2) = us := by
    rw [← ht, List.map_append, List.map_filterMap, List.map_map]
    simp [us, Spec.references, Function.comp_def]
  obtain ⟨s', h1, h2, h3, h4, h5⟩ := run_next E todo { s with pending := some ⟨todo, [], []⟩ } _ _ rfl
  rw [reload, hb]
  simp only [Option.map_some, Option.getD_some]
  rw [h1, swap, h5]
  rw [hus] at h4 h5 ⊢
  refine ⟨rfl, h4, rfl, ?_⟩
  rw [h2, h3]; simp

theorem planned_length (E : Reload.Env) (t : Table) (n : Nat) (us : List URL) (p : Bytes) :
    ((planned E t n us).filter (·.1 = p)).length = us.countP (·.path = p) := by
  induction us generalizing n with
  | nil => rfl
  | cons u us ih =>
    rw [planned]
    split <;> (rw [List.filter_cons]; by_cases h : u.path = p <;> simp [h, ih])

theorem planned_mem {E : Reload.Env} {t : Table} {n : Nat} {us : List URL} {x : Bytes × Item Nat}
    (h : x ∈ planned E t n us) :
    ∃ u ∈ us, u.path = x.1 ∧ (lookup t (fill E u) = some x.2 ∨
      (lookup t (fill E u) = none ∧ x.2.url = made E (fill E u) ∧ n ≤ x.2.cluster ∧ x.2.cluster < n + created E t us)) := by
  induction us generalizing n with
  | nil => simp [planned] at h
  | cons u us ih =>
    rw [planned] at h
    split at h
    · rename_i i hl
      rcases List.mem_cons.mp h with rfl | h
      · exact ⟨u, by simp, rfl, .inl hl⟩
      · obtain ⟨v, hv, h1, h2⟩ := ih h
        refine ⟨v, by simp [hv], h1, ?_⟩
        simpa [created, hl] using h2
    · rename_i hl
      rcases List.mem_cons.mp h with rfl | h
      · exact ⟨u, by simp, rfl, .inr ⟨hl, rfl, Nat.le_refl _, by simp [created, hl]⟩⟩
      · obtain ⟨v, hv, h1, h2⟩ := ih h
        refine ⟨v, by simp [hv], h1, h2.imp id fun ⟨a, b, c, d⟩ => ⟨a, b, by omega, ?_⟩⟩
        simp [created, hl] at d ⊢; omega

theorem mem_planned {E : Reload.Env} {t : Table} {n : Nat} {us : List URL} {u : URL} (h : u ∈ us) :
    ∃ i, (u.path, i) ∈ planned E t n us ∧ (lookup t (fill E u) = some i ∨
      (lookup t (fill E u) = none ∧ i.url = made E (fill E u) ∧ n ≤ i.cluster)) := by
  induction us generalizing n with
  | nil => simp at h
  | cons v us ih =>
    rw [planned]
    rcases List.mem_cons.mp h with rfl | h
    · cases hl : lookup t (fill E u) with
      | some i => exact ⟨i, by simp, .inl rfl⟩
      | none => exact ⟨⟨made E (fill E u), n⟩, by simp, .inr ⟨rfl, rfl, Nat.le_refl _⟩⟩
    · split
      · obtain ⟨i, h1, h2⟩ := ih (n := n) h
        exact ⟨i, by simp [h1], h2⟩
      · obtain ⟨i, h1, h2⟩ := ih (n := n + 1) h
        exact ⟨i, by simp [h1], h2.imp id fun ⟨a, b, c⟩ => ⟨a, b, by omega⟩⟩

theorem lookup_some {t : Table} {u : URL} {i : Item Nat} (h : lookup t u = some i) :
    i ∈ Spec.itemsOf t u.path ∧ ext u = ext i.url :=
  ⟨List.mem_of_find?_eq_some h, by simpa using List.find?_some h⟩

theorem lookup_none {t : Table} {u : URL} : lookup t u = none ↔ ∀ i ∈ Spec.itemsOf t u.path, ext u ≠ ext i.url := by
  rw [lookup, List.find?_eq_none]; simp [Spec.itemsOf]

theorem itemsOf_reload (E : Reload.Env) (s : Reload.St) (hp : s.pending = none) (ids : List Bytes) (refs : List URL)
    (p : Bytes) : Spec.itemsOf (reload E s ids refs).table p =
      ((planned E s.table s.next (Spec.references s ids refs)).filter (·.1 = p)).map (·.2) := by
  rw [(reload_eq E s hp ids refs).1, itemsOf_addAll]; simp [Spec.itemsOf, AMap.load]

theorem mem_itemsOf_reload {E : Reload.Env} {s : Reload.St} (hp : s.pending = none) {ids : List Bytes}
    {refs : List URL} {p : Bytes} {i : Item Nat} : i ∈ Spec.itemsOf (reload E s ids refs).table p ↔
      (p, i) ∈ planned E s.table s.next (Spec.references s ids refs) := by
  rw [itemsOf_reload E s hp, List.mem_map]
  constructor
  · rintro ⟨⟨q, j⟩, h, rfl⟩
    obtain ⟨h1, h2⟩ := List.mem_filter.mp h
    simp only [decide_eq_true_eq] at h2
    subst h2; exact h1
  · exact fun h => ⟨(p, i), by simp [h], rfl⟩

/-- C61: after a reload, a service is known exactly if some reference of the new configuration or of a dynamic
subscription is to it, with one item for each. -/
theorem reload_known (E : Reload.Env) (s : Reload.St) (hp : s.pending = none) (ids : List Bytes) (refs : List URL)
    (p : Bytes) :
    ((AMap.load (reload E s ids refs).table p).isSome ↔ ∃ u ∈ Spec.references s ids refs, u.path = p) ∧
    (Spec.itemsOf (reload E s ids refs).table p).length = (Spec.references s ids refs).countP (·.path = p) := by
  refine ⟨?_, by rw [itemsOf_reload E s hp, List.length_map, planned_length]⟩
  rw [(reload_eq E s hp ids refs).1, known_addAll]
  constructor
  · rintro (h | ⟨x, hx, rfl⟩)
    · simp [AMap.load] at h
    · obtain ⟨u, hu, h, _⟩ := planned_mem hx
      exact ⟨u, hu, h⟩
  · rintro ⟨u, hu, rfl⟩
    obtain ⟨i, hi, _⟩ := mem_planned (E := E) (t := s.table) (n := s.next) hu
    exact .inr ⟨_, hi, rfl⟩

/-- C61: every item after a reload belongs to a reference to its service: it is the item this reference had before, or
a new cluster for it. -/
theorem reload_items (E : Reload.Env) (s : Reload.St) (hp : s.pending = none) (ids : List Bytes) (refs : List URL)
    (p : Bytes) (i : Item Nat) (h : i ∈ Spec.itemsOf (reload E s ids refs).table p) :
    ∃ u ∈ Spec.references s ids refs, u.path = p ∧
      ((i ∈ Spec.itemsOf s.table p ∧ ext i.url = ext (fill E u)) ∨
       (i.url = made E (fill E u) ∧ s.next ≤ i.cluster ∧ i.cluster < (reload E s ids refs).next)) := by
  obtain ⟨u, hu, h1, h2⟩ := planned_mem ((mem_itemsOf_reload hp).mp h)
  simp only at h1 h2
  subst h1
  refine ⟨u, hu, rfl, h2.imp (fun h => ?_) fun ⟨_, a, b, c⟩ => ⟨a, b, by rw [(reload_eq E s hp ids refs).2.1]; exact c⟩⟩
  obtain ⟨h3, h4⟩ := lookup_some h
  rw [fill_path] at h3
  exact ⟨h3, h4.symm⟩

theorem made_param (E : Reload.Env) (u : URL) (k : Bytes) (h1 : k ≠ b!"filter") (h2 : k ≠ b!"nodeType") :
    (made E u).param k = u.param k := by
  have ha : (haEffect u).param k = u.param k := by
    rw [haEffect]; repeat' split
    all_goals first | rfl | (rw [putParam_param, if_neg (Ne.symm h1)])
  have hs : ∀ (kd : RegKind) (v : URL), (subscribeEffect E kd v).param k = v.param k := by
    intro kd v
    cases kd with
    | zookeeper =>
      have := putParam_param v b!"nodeType" b!"referer" k
      rw [if_neg (Ne.symm h2)] at this
      rw [subscribeEffect]
      split <;> exact this
    | other => rfl
  have hr : ∀ (v : URL) (r : Bytes), (registryEffect E v r).param k = v.param k := by
    intro v r
    rw [registryEffect]; split
    · rw [hs]; rfl
    · rfl
  have hf : ∀ (l : List Bytes) (v : URL), (l.foldl (registryEffect E) v).param k = v.param k := by
    intro l
    induction l with
    | nil => intro v; rfl
    | cons r l ih => intro v; rw [List.foldl_cons, ih, hr]
  rw [made]
  split
  · rw [hf, ha]
  · exact ha

/-- What a reference sets for a key: its own value; for the application that of the agent, if it has none. -/
def Spec.referenceSetting (E : Reload.Env) (u : URL) (k : Bytes) : Option Bytes :=
  if k = b!"application" ∧ (u.param k = none ∨ u.param k = some []) then some E.application else u.param k

theorem fill_param (E : Reload.Env) (u : URL) (k : Bytes) :
    (fill E u).param k = Spec.referenceSetting E u k := by
  unfold fill Spec.referenceSetting
  by_cases hk : k = b!"application"
  · subst hk
    cases h : u.param b!"application" with
    | none => simp [URL.param]
    | some v => cases v <;> simp [URL.param] <;> simpa [URL.param] using h
  · have hn : ¬ (k = b!"application" ∧ (u.param k = none ∨ u.param k = some [])) := fun h => hk h.1
    rw [if_neg hn]
    split
    · show (some (AMap.store (u.params.getD []) b!"application" E.application)).bind (fun m => AMap.load m k) = _
      rw [Option.bind_some, AMap.load_store_ne _ _ (Ne.symm hk)]
      unfold URL.param
      cases u.params <;> rfl
    · rfl

/-- C61: the cluster made for a reference has the settings of the reference, and the application of the agent if the
reference names none. (The list of filters and the type of the node are set by the cluster itself.) -/
theorem reload_settings (E : Reload.Env) (s : Reload.St) (hp : s.pending = none) (ids : List Bytes) (refs : List URL)
    (p : Bytes) (i : Item Nat) (h : i ∈ Spec.itemsOf (reload E s ids refs).table p) (hn : i ∉ Spec.itemsOf s.table p) :
    ∃ u ∈ Spec.references s ids refs, u.path = p ∧ i.url.path = p ∧
      ∀ k, k ≠ b!"filter" → k ≠ b!"nodeType" → i.url.param k = Spec.referenceSetting E u k := by
  obtain ⟨u, hu, h1, h2⟩ := reload_items E s hp ids refs p i h
  rcases h2 with h2 | h2
  · exact absurd h2.1 hn
  · refine ⟨u, hu, h1, by rw [h2.1, made_path, fill_path, h1], fun k a b => ?_⟩
    rw [h2.1, made_param E _ k a b, fill_param]

/-- C61: the same for the clusters made at the start and for subscriptions. -/
theorem start_settings (E : Reload.Env) (s : Reload.St) (u : URL) :
    ∃ i ∈ Spec.itemsOf (initCluster E s u).1.table u.path, i.cluster = s.next ∧ i.url.path = u.path ∧
      ∀ k, k ≠ b!"filter" → k ≠ b!"nodeType" → i.url.param k = Spec.referenceSetting E u k := by
  refine ⟨⟨made E (fill E u), s.next⟩, ?_, rfl, by rw [made_path, fill_path], fun k a b => by
    rw [made_param E _ k a b, fill_param]⟩
  have : (made E (fill E u)).path = u.path := by rw [made_path, fill_path]
  unfold initCluster
  simp only
  rw [itemsOf_add, this]
  simp

/-- C61: every reference has an item after a reload: the first one with its string if there was one before, otherwise a
new cluster. -/
theorem reload_serves (E : Reload.Env) (s : Reload.St) (hp : s.pending = none) (ids : List Bytes) (refs : List URL)
    (u : URL) (hu : u ∈ Spec.references s ids refs) :
    (∀ a i b, Spec.itemsOf s.table u.path = a ++ i :: b → ext i.url = ext (fill E u) →
      (∀ j ∈ a, ext j.url ≠ ext (fill E u)) → i ∈ Spec.itemsOf (reload E s ids refs).table u.path) ∧
    ((∀ j ∈ Spec.itemsOf s.table u.path, ext j.url ≠ ext (fill E u)) →
      ∃ i ∈ Spec.itemsOf (reload E s ids refs).table u.path, i.url = made E (fill E u) ∧ s.next ≤ i.cluster) := by
  obtain ⟨i, hi, h⟩ := mem_planned (E := E) (t := s.table) (n := s.next) hu
  refine ⟨fun a j b he hj ha => ?_, fun hno => ?_⟩
  · have hl : lookup s.table (fill E u) = some j := by
      rw [lookup, fill_path, show (AMap.load s.table u.path).getD [] = a ++ j :: b from he, List.find?_append,
        List.find?_eq_none.mpr (by intro k hk; simpa using fun e => ha k hk e.symm)]
      simp [hj]
    rw [hl] at h
    rcases h with h | ⟨h, _⟩
    · cases h; exact (mem_itemsOf_reload hp).mpr hi
    · cases h
  · have hl : lookup s.table (fill E u) = none := by
      rw [lookup_none, fill_path]; exact fun j hj e => hno j hj e.symm
    rw [hl] at h
    rcases h with h | ⟨_, h1, h2⟩
    · cases h
    · exact ⟨i, (mem_itemsOf_reload hp).mpr hi, h1, h2⟩

/-! ## All histories -/

theorem add_nodup {t : Table} (h : AMap.NodupKeys t) (p : Bytes) (i : Item Nat) : AMap.NodupKeys (t.add p i) :=
  AMap.nodupKeys_store h _ _

theorem addAll_nodup (l : List (Bytes × Item Nat)) {t : Table} (h : AMap.NodupKeys t) : AMap.NodupKeys (addAll t l) := by
  induction l generalizing t with
  | nil => exact h
  | cons x l ih => exact ih (add_nodup h _ _)

theorem mem_items {t : Table} (h : AMap.NodupKeys t) (i : Item Nat) : i ∈ t.items ↔ Spec.InTable t i := by
  rw [Table.items, List.mem_flatMap]
  constructor
  · rintro ⟨⟨p, l⟩, hx, hi⟩
    exact ⟨p, by rw [Spec.itemsOf, AMap.load_of_mem h hx]; exact hi⟩
  · rintro ⟨p, hi⟩
    rw [Spec.itemsOf] at hi
    cases hl : AMap.load t p with
    | none => rw [hl] at hi; simp at hi
    | some l => rw [hl] at hi; exact ⟨(p, l), AMap.mem_of_load hl, hi⟩

theorem inTable_add {t : Table} {p : Bytes} {i j : Item Nat} :
    Spec.InTable (t.add p i) j ↔ Spec.InTable t j ∨ j = i := by
  constructor
  · rintro ⟨q, h⟩
    rw [itemsOf_add] at h
    rcases List.mem_append.mp h with h | h
    · exact .inl ⟨q, h⟩
    · split at h <;> simp at h; exact .inr h
  · rintro (⟨q, h⟩ | rfl)
    · exact ⟨q, by rw [itemsOf_add]; simp [h]⟩
    · exact ⟨p, by rw [itemsOf_add]; simp⟩

/-- The item is in the table or in the one being built. -/
def Held (s : Reload.St) (i : Item Nat) : Prop :=
  Spec.InTable s.table i ∨ ∃ p, s.pending = some p ∧ Spec.InTable p.table i

/-- What holds after every history. -/
structure ReloadInv (s : Reload.St) : Prop where
  nodup : AMap.NodupKeys s.table
  path : ∀ p i, i ∈ Spec.itemsOf s.table p → i.url.path = p
  nodupP : ∀ p, s.pending = some p → AMap.NodupKeys p.table
  pathP : ∀ p, s.pending = some p → ∀ q i, i ∈ Spec.itemsOf p.table q → i.url.path = q
  lt : ∀ i, Held s i → i.cluster < s.next
  alive : ∀ i, Held s i → i.cluster ∉ s.destroyed
  uniq : ∀ i j, Held s i → Held s j → i.cluster = j.cluster → i = j
  gone : ∀ c ∈ s.destroyed, c < s.next
  keep : ∀ p, s.pending = some p → ∀ i, Spec.InTable p.table i → Spec.InTable s.table i → ext i.url ∈ p.keep

theorem path_add {t : Table} (h : ∀ p i, i ∈ Spec.itemsOf t p → i.url.path = p) {p : Bytes} {i : Item Nat}
    (hi : i.url.path = p) : ∀ q j, j ∈ Spec.itemsOf (t.add p i) q → j.url.path = q := by
  intro q j hj
  rw [itemsOf_add] at hj
  rcases List.mem_append.mp hj with hj | hj
  · exact h q j hj
  · split at hj
    · rename_i e; simp at hj; subst hj; rw [hi, e]
    · simp at hj

theorem ReloadInv.empty : ReloadInv {} := by
  have h : ∀ i, ¬ Held {} i := by
    rintro i (⟨p, h⟩ | ⟨p, h, _⟩)
    · simp [Spec.itemsOf, AMap.load] at h
    · cases h
  exact ⟨.nil, (fun p i hi => by simp [Spec.itemsOf, AMap.load] at hi), (fun _ hp => by cases hp),
    (fun _ hp => by cases hp), fun i hi => (h i hi).elim, fun i hi => (h i hi).elim, fun i _ hi => (h i hi).elim,
    (fun c hc => by simp at hc), (fun _ hp => by cases hp)⟩

/-- `subscribeNodes` does not matter. -/
theorem ReloadInv.subs {s : Reload.St} (h : ReloadInv s) (m : AMap Bytes URL) : ReloadInv { s with subs := m } :=
  ⟨h.nodup, h.path, h.nodupP, h.pathP, h.lt, h.alive, h.uniq, h.gone, h.keep⟩

theorem ReloadInv.init {s : Reload.St} (h : ReloadInv s) (E : Reload.Env) (u : URL) :
    ReloadInv (Reload.initCluster E s u).1 := by
  rw [Reload.initCluster]
  generalize made E (fill E u) = v
  have hh : ∀ i, Held { s with table := s.table.add v.path ⟨v, s.next⟩, next := s.next + 1 } i →
      Held s i ∨ i = ⟨v, s.next⟩ := by
    rintro i (hi | ⟨p, hp, hi⟩)
    · exact (inTable_add.mp hi).imp .inl id
    · exact .inl (.inr ⟨p, hp, hi⟩)
  refine ⟨add_nodup h.nodup _ _, path_add h.path rfl, h.nodupP, h.pathP, fun i hi => ?_, fun i hi => ?_,
    fun i j hi hj e => ?_, fun c hc => Nat.lt_succ_of_lt (h.gone c hc), fun p hp i h1 h2 => ?_⟩
  · rcases hh i hi with hi | rfl
    · exact Nat.lt_succ_of_lt (h.lt i hi)
    · exact Nat.lt_succ_self _
  · rcases hh i hi with hi | rfl
    · exact h.alive i hi
    · exact fun hc => Nat.lt_irrefl _ (h.gone _ hc)
  · rcases hh i hi with hi | rfl <;> rcases hh j hj with hj | rfl
    · exact h.uniq i j hi hj e
    · exact absurd (h.lt i hi) (by rw [e]; exact Nat.lt_irrefl _)
    · exact absurd (h.lt j hj) (by rw [← e]; exact Nat.lt_irrefl _)
    · rfl
  · rcases inTable_add.mp h2 with h2 | rfl
    · exact h.keep p hp i h1 h2
    · exact absurd (h.lt _ (.inr ⟨p, hp, h1⟩)) (Nat.lt_irrefl _)

theorem ReloadInv.begin {s : Reload.St} (h : ReloadInv s) (ids : List Bytes) (refs : List URL) :
    ReloadInv (Reload.begin s ids refs) := by
  rw [Reload.begin]
  split
  · exact h
  · dsimp only
    generalize (ids.filterMap fun id => (AMap.load s.subs id).map fun u => (some id, u)) ++
      refs.map (fun u => ((none : Option Bytes), u)) = todo
    have he : ∀ i, ¬ Spec.InTable [] i := by
      rintro i ⟨p, hi⟩; simp [Spec.itemsOf, AMap.load] at hi
    have hh : ∀ i, Held { s with pending := some { todo := todo } } i → Held s i := by
      rintro i (hi | ⟨p, hp, hi⟩)
      · exact .inl hi
      · cases hp; exact (he i hi).elim
    exact ⟨h.nodup, h.path, (fun p hp => by cases hp; exact .nil),
      (fun p hp q i hi => by cases hp; exact (he i ⟨q, hi⟩).elim), fun i hi => h.lt i (hh i hi),
      fun i hi => h.alive i (hh i hi), fun i j hi hj => h.uniq i j (hh i hi) (hh j hj), h.gone,
      (fun p hp i hi => by cases hp; exact (he i hi).elim)⟩

theorem ReloadInv.next {s : Reload.St} (h : ReloadInv s) (E : Reload.Env) : ReloadInv (Reload.next E s) := by
  rw [Reload.next]
  split
  · exact h
  · rename_i p hp
    split
    · exact h
    · rename_i id u rest ht
      dsimp only
      split
      · rename_i i hl
        obtain ⟨hi, he⟩ := lookup_some hl
        have hin : Spec.InTable s.table i := ⟨_, hi⟩
        have hh : ∀ j, Held { s with
            subs := writeBack s.subs id (fill E u)
            pending := some { todo := rest, table := p.table.add (fill E u).path i, keep := ext (fill E u) :: p.keep } } j →
            Held s j := by
          rintro j (hj | ⟨q, hq, hj⟩)
          · exact .inl hj
          · cases hq
            rcases inTable_add.mp hj with hj | rfl
            · exact .inr ⟨p, hp, hj⟩
            · exact .inl hin
        refine ⟨h.nodup, h.path, (fun q hq => ?_), (fun q hq => ?_), fun j hj => h.lt j (hh j hj),
          fun j hj => h.alive j (hh j hj), fun j k hj hk => h.uniq j k (hh j hj) (hh k hk), h.gone,
          (fun q hq j hj1 hj2 => ?_)⟩
        · cases hq; exact add_nodup (h.nodupP p hp) _ _
        · cases hq; exact path_add (h.pathP p hp) (h.path _ _ hi)
        · cases hq
          rcases inTable_add.mp hj1 with hj1 | rfl
          · exact List.mem_cons_of_mem _ (h.keep p hp j hj1 hj2)
          · rw [← he]; exact List.mem_cons_self
      · rename_i hl
        have hh : ∀ j, Held { s with
            subs := writeBack s.subs id (made E (fill E u))
            next := s.next + 1
            pending := some { todo := rest, table := p.table.add (fill E u).path ⟨made E (fill E u), s.next⟩, keep := p.keep } } j →
            Held s j ∨ j = ⟨made E (fill E u), s.next⟩ := by
          rintro j (hj | ⟨q, hq, hj⟩)
          · exact .inl (.inl hj)
          · cases hq
            exact (inTable_add.mp hj).imp (fun hj => .inr ⟨p, hp, hj⟩) (fun e => e)
        refine ⟨h.nodup, h.path, (fun q hq => ?_), (fun q hq => ?_), fun j hj => ?_, fun j hj => ?_,
          fun j k hj hk e => ?_, fun c hc => Nat.lt_succ_of_lt (h.gone c hc), (fun q hq j hj1 hj2 => ?_)⟩
        · cases hq; exact add_nodup (h.nodupP p hp) _ _
        · cases hq; exact path_add (h.pathP p hp) (made_path E _)
        · rcases hh j hj with hj | rfl
          · exact Nat.lt_succ_of_lt (h.lt j hj)
          · exact Nat.lt_succ_self _
        · rcases hh j hj with hj | rfl
          · exact h.alive j hj
          · exact fun hc => Nat.lt_irrefl _ (h.gone _ hc)
        · rcases hh j hj with hj | rfl <;> rcases hh k hk with hk | rfl
          · exact h.uniq j k hj hk e
          · exact absurd (h.lt j hj) (by rw [e]; exact Nat.lt_irrefl _)
          · exact absurd (h.lt k hk) (by rw [← e]; exact Nat.lt_irrefl _)
          · rfl
        · cases hq
          rcases inTable_add.mp hj1 with hj1 | rfl
          · exact h.keep p hp j hj1 hj2
          · exact absurd (h.lt _ (.inl hj2)) (Nat.lt_irrefl _)

theorem ReloadInv.swap {s : Reload.St} (h : ReloadInv s) : ReloadInv (Reload.swap s) := by
  rw [Reload.swap]
  split
  · exact h
  · rename_i p hp
    split
    · have hh : ∀ {j : Item Nat} {d : List Nat},
          Held { s with table := p.table, destroyed := d, pending := none } j → Spec.InTable p.table j := by
        rintro j d (hj | ⟨q, hq, _⟩)
        · exact hj
        · cases hq
      have hs : ∀ {j : Item Nat}, Spec.InTable p.table j → Held s j := fun hj => .inr ⟨p, hp, hj⟩
      refine ⟨h.nodupP p hp, h.pathP p hp, fun _ hq => (by cases hq), fun _ hq => (by cases hq),
        fun j hj => h.lt j (hs (hh hj)), fun j hj hc => ?_,
        fun j k hj hk => h.uniq j k (hs (hh hj)) (hs (hh hk)), fun c hc => ?_, fun _ hq => (by cases hq)⟩
      · rcases List.mem_append.mp hc with hc | hc
        · exact h.alive j (hs (hh hj)) hc
        · obtain ⟨k, hk, e⟩ := List.mem_map.mp hc
          obtain ⟨hk, hk2⟩ := List.mem_filter.mp hk
          have hk := (mem_items h.nodup k).mp hk
          have := h.uniq k j (.inl hk) (hs (hh hj)) e
          subst this
          simp only [decide_not, Bool.not_eq_eq_eq_not, Bool.not_true, decide_eq_false_iff_not] at hk2
          exact hk2 (h.keep p hp k (hh hj) hk)
      · rcases List.mem_append.mp hc with hc | hc
        · exact h.gone c hc
        · obtain ⟨k, hk, rfl⟩ := List.mem_map.mp hc
          exact h.lt k (.inl ((mem_items h.nodup k).mp (List.mem_filter.mp hk).1))
    · exact h

theorem ReloadInv.step {s : Reload.St} (h : ReloadInv s) (E : Reload.Env) (o : Reload.Op) :
    ReloadInv (Reload.step E s o) := by
  cases o with
  | init u => exact h.init E u
  | note u =>
    rw [Reload.step, Reload.note]; dsimp only
    split
    · exact h
    · exact h.subs _
  | attach id =>
    rw [Reload.step, Reload.attach]
    split
    · exact h
    · exact (h.init E _).subs _
  | begin ids refs => exact h.begin ids refs
  | next => exact h.next E
  | swap => exact h.swap

theorem reloadInv_run (E : Reload.Env) (os : List Reload.Op) {s : Reload.St} (h : ReloadInv s) :
    ReloadInv (Reload.run E s os) := by
  induction os generalizing s with
  | nil => exact h
  | cons o os ih => exact ih (h.step E o)

/-- A state some history leads to. -/
def Spec.Reached (E : Reload.Env) (s : Reload.St) : Prop := ∃ os, Reload.run E {} os = s

theorem Spec.Reached.inv {E : Reload.Env} {s : Reload.St} (h : Spec.Reached E s) : ReloadInv s := by
  obtain ⟨os, rfl⟩ := h; exact reloadInv_run E os .empty

/-- C61: whatever the history of starts, subscriptions and reloads, however they interleave, no request is given a
destroyed cluster. -/
theorem routed_alive (E : Reload.Env) (os : List Reload.Op) (r : Routing.Req) (c : Nat)
    (h : findCluster (Reload.run E {} os).table r = .ok c) : c ∉ (Reload.run E {} os).destroyed := by
  have hi : ∃ i, Spec.InTable (Reload.run E {} os).table i ∧ i.cluster = c := by
    obtain ⟨_, ⟨it, h, e⟩ | ⟨pre, it, post, h, _, _, e, _⟩⟩ := (find_cluster_spec _ r c).mp h
    · exact ⟨it, ⟨_, by rw [Spec.itemsOf, h]; simp⟩, e⟩
    · exact ⟨it, ⟨_, by rw [Spec.itemsOf, h]; simp⟩, e⟩
  obtain ⟨i, hi, rfl⟩ := hi
  exact (reloadInv_run E os .empty).alive i (.inl hi)

/-! ## Which clusters a reload destroys -/

theorem mem_kept {E : Reload.Env} {t : Table} {us : List URL} {e : Bytes} :
    e ∈ kept E t us ↔ ∃ u ∈ us, (∃ i, lookup t (fill E u) = some i) ∧ ext (fill E u) = e := by
  rw [kept, List.mem_map]
  constructor
  · rintro ⟨u, hu, rfl⟩
    obtain ⟨h1, h2⟩ := List.mem_filter.mp hu
    exact ⟨u, h1, Option.isSome_iff_exists.mp h2, rfl⟩
  · rintro ⟨u, hu, h2, rfl⟩
    exact ⟨u, List.mem_filter.mpr ⟨hu, Option.isSome_iff_exists.mpr h2⟩, rfl⟩

theorem destroyed_iff {E : Reload.Env} {s : Reload.St} (h : ReloadInv s) (hp : s.pending = none) (ids : List Bytes)
    (refs : List URL) {i : Item Nat} (hi : Spec.InTable s.table i) :
    i.cluster ∈ (reload E s ids refs).destroyed ↔ ext i.url ∉ kept E s.table (Spec.references s ids refs) := by
  rw [(reload_eq E s hp ids refs).2.2.2, List.mem_append, List.mem_map]
  constructor
  · rintro (hc | ⟨j, hj, e⟩)
    · exact absurd hc (h.alive i (.inl hi))
    · obtain ⟨hj, hk⟩ := List.mem_filter.mp hj
      have := h.uniq j i (.inl ((mem_items h.nodup j).mp hj)) (.inl hi) e
      subst this; simpa using hk
  · exact fun hk => .inr ⟨i, List.mem_filter.mpr ⟨(mem_items h.nodup i).mpr hi, by simpa using hk⟩, rfl⟩

/-- C61: a reload destroys the cluster of an item exactly if no reference to its service has its string. The strings
are assumed to tell services apart. -/
theorem reload_destroys (E : Reload.Env) (s : Reload.St) (h : Spec.Reached E s) (hp : s.pending = none)
    (ids : List Bytes) (refs : List URL)
    (hd : ∀ i j, Spec.InTable s.table i → Spec.InTable s.table j → ext i.url = ext j.url → i.url.path = j.url.path)
    (i : Item Nat) (hi : Spec.InTable s.table i) :
    i.cluster ∈ (reload E s ids refs).destroyed ↔
      ∀ u ∈ Spec.references s ids refs, u.path = i.url.path → ext (fill E u) ≠ ext i.url := by
  rw [destroyed_iff h.inv hp ids refs hi, mem_kept]
  constructor
  · intro hk u hu hpath he
    refine hk ⟨u, hu, ?_, he⟩
    cases hl : lookup s.table (fill E u) with
    | some j => exact ⟨j, rfl⟩
    | none =>
      exfalso
      refine (lookup_none.mp hl) i ?_ he
      obtain ⟨p, hip⟩ := hi
      rw [fill_path, hpath, h.inv.path p i hip]; exact hip
  · rintro hk ⟨u, hu, ⟨j, hl⟩, he⟩
    obtain ⟨hj, hje⟩ := lookup_some hl
    refine hk u hu ?_ he
    rw [← fill_path E u, ← h.inv.path _ _ hj]
    exact hd j i ⟨_, hj⟩ hi (by rw [← hje, he])

/-- The strings of clean URLs do tell services apart. -/
theorem ext_path {u v : URL} (hu : Spec.Clean u) (hv : Spec.Clean v)
    (hmu : ∀ m, u.params = some m → m.NodupKeys) (hmv : ∀ m, v.params = some m → m.NodupKeys)
    (hpu : u.portStrC = none ∨ u.portStrC = some (formatInt u.port))
    (hpv : v.portStrC = none ∨ v.portStrC = some (formatInt v.port)) (e : ext u = ext v) : u.path = v.path := by
  obtain ⟨a, ha, _, _, _, h1, _⟩ := extinfo_roundtrip u hu hmu hpu
  obtain ⟨b, hb, _, _, _, h2, _⟩ := extinfo_roundtrip v hv hmv hpv
  rw [show (toExtInfo u).1 = (toExtInfo v).1 from e, hb] at ha
  cases ha
  rw [← h1, h2]

/-- Every cluster ever created is in the table or destroyed. -/
def Spec.Accounted (s : Reload.St) : Prop :=
  ∀ c, c < s.next → (∃ i, Spec.InTable s.table i ∧ i.cluster = c) ∨ c ∈ s.destroyed

theorem planned_fresh (E : Reload.Env) (t : Table) (n : Nat) (us : List URL) (c : Nat) (h1 : n ≤ c)
    (h2 : c < n + created E t us) : ∃ x ∈ planned E t n us, x.2.cluster = c := by
  induction us generalizing n with
  | nil => simp [created] at h2; omega
  | cons u us ih =>
    rw [planned]
    cases hl : lookup t (fill E u) with
    | some i =>
      obtain ⟨x, hx, e⟩ := ih n h1 (by simpa [created, hl] using h2)
      exact ⟨x, by simp [hx], e⟩
    | none =>
      by_cases hc : c = n
      · exact ⟨_, List.mem_cons_self, hc.symm⟩
      · obtain ⟨x, hx, e⟩ := ih (n + 1) (by omega) (by simp [created, hl] at h2; simp [created]; omega)
        exact ⟨x, by simp [hx], e⟩

/-- C61: when no two items share a string, a reload leaks no cluster: each one there is is in use or destroyed. -/
theorem reload_no_leak (E : Reload.Env) (s : Reload.St) (h : Spec.Reached E s) (hp : s.pending = none)
    (ids : List Bytes) (refs : List URL)
    (hd : ∀ i j, Spec.InTable s.table i → Spec.InTable s.table j → ext i.url = ext j.url → i = j)
    (ha : Spec.Accounted s) : Spec.Accounted (reload E s ids refs) := by
  intro c hc
  rw [(reload_eq E s hp ids refs).2.1] at hc
  by_cases hn : c < s.next
  · rcases ha c hn with ⟨i, hi, rfl⟩ | hc
    · by_cases hk : ext i.url ∈ kept E s.table (Spec.references s ids refs)
      · obtain ⟨u, hu, ⟨j, hl⟩, he⟩ := mem_kept.mp hk
        obtain ⟨hj, hje⟩ := lookup_some hl
        have := hd j i ⟨_, hj⟩ hi (by rw [← hje, he])
        subst this
        refine .inl ⟨j, ⟨u.path, (mem_itemsOf_reload hp).mpr ?_⟩, rfl⟩
        obtain ⟨k, hk, h3 | ⟨h3, _⟩⟩ := mem_planned (E := E) (t := s.table) (n := s.next) hu
        · rw [hl] at h3; cases h3; exact hk
        · rw [hl] at h3; cases h3
      · exact .inr ((destroyed_iff h.inv hp ids refs hi).mpr hk)
    · exact .inr (by rw [(reload_eq E s hp ids refs).2.2.2]; simp [hc])
  · obtain ⟨⟨p, i⟩, hx, e⟩ := planned_fresh E s.table s.next _ c (by omega) hc
    exact .inl ⟨i, ⟨p, (mem_itemsOf_reload hp).mpr hx⟩, e⟩

/-! ## Reloading again -/

theorem planned_keys (E : Reload.Env) (t : Table) (n : Nat) (us : List URL) (hs : ∀ u ∈ us, Spec.Stays E u) :
    (planned E t n us).map (fun x => (x.1, ext x.2.url)) = us.map fun u => (u.path, ext (fill E u)) := by
  induction us generalizing n with
  | nil => rfl
  | cons u us ih =>
    rw [planned]
    cases hl : lookup t (fill E u) with
    | some i =>
      simp only [List.map_cons, (lookup_some hl).2]
      rw [ih n fun v hv => hs v (by simp [hv])]
    | none =>
      simp only [List.map_cons]
      rw [ih (n + 1) fun v hv => hs v (by simp [hv]), hs u (by simp)]

theorem inj_of_nodup_map {α β : Type} {f : α → β} {l : List α} (h : (l.map f).Nodup) {x y : α} (hx : x ∈ l) (hy : y ∈ l)
    (e : f x = f y) : x = y := by
  induction l with
  | nil => simp at hx
  | cons a l ih =>
    rw [List.map_cons, List.nodup_cons] at h
    rcases List.mem_cons.mp hx with rfl | hx <;> rcases List.mem_cons.mp hy with rfl | hy
    · rfl
    · exact absurd (List.mem_map.mpr ⟨y, hy, e.symm⟩) h.1
    · exact absurd (List.mem_map.mpr ⟨x, by assumption, e⟩) h.1
    · exact ih h.2 hx hy

theorem nodup_of_map {α β : Type} {f : α → β} {l : List α} (h : (l.map f).Nodup) : l.Nodup := by
  induction l with
  | nil => exact .nil
  | cons a l ih =>
    rw [List.map_cons, List.nodup_cons] at h
    exact List.nodup_cons.mpr ⟨fun ha => h.1 (List.mem_map.mpr ⟨a, ha, rfl⟩), ih h.2⟩

/-- The service and the string of each reference. -/
def Spec.strings (E : Reload.Env) (us : List URL) : List (Bytes × Bytes) := us.map fun u => (u.path, ext (fill E u))

/-- C61: a second reload of the same references, in any order, creates no cluster, destroys none, and leaves every
service its items, provided building a cluster leaves the string of its reference alone and no two references to a
service share one. -/
theorem reload_twice (E : Reload.Env) (s : Reload.St) (hp : s.pending = none) (ids ids' : List Bytes)
    (refs refs' : List URL) (hs : ∀ u ∈ Spec.references s ids refs, Spec.Stays E u)
    (hn : (Spec.strings E (Spec.references s ids refs)).Nodup)
    (hsame : (Spec.strings E (Spec.references (reload E s ids refs) ids' refs')).Perm
      (Spec.strings E (Spec.references s ids refs))) :
    let s1 := reload E s ids refs
    let s2 := reload E s1 ids' refs'
    s2.next = s1.next ∧ s2.destroyed = s1.destroyed ∧
      ∀ p, (Spec.itemsOf s2.table p).Perm (Spec.itemsOf s1.table p) := by
  intro s1 s2
  obtain ⟨ht, hx, hp1, hdest⟩ := reload_eq E s hp ids refs
  obtain ⟨ht2, hx2, _, hdest2⟩ := reload_eq E s1 hp1 ids' refs'
  generalize hus : Spec.references s ids refs = us at *
  generalize hus' : Spec.references s1 ids' refs' = us' at *
  generalize hP : planned E s.table s.next us = P at *
  have hK : P.map (fun x => (x.1, ext x.2.url)) = Spec.strings E us := by rw [← hP]; exact planned_keys E _ _ us hs
  have hPn : (P.map fun x => (x.1, ext x.2.url)).Nodup := by rw [hK]; exact hn
  have hmem : ∀ {q i}, i ∈ Spec.itemsOf s1.table q ↔ (q, i) ∈ P := by
    intro q i; rw [← hP, ← hus]; exact mem_itemsOf_reload hp
  have hlook : ∀ u ∈ us', ∃ i, lookup s1.table (fill E u) = some i := by
    intro u hu
    have : (u.path, ext (fill E u)) ∈ Spec.strings E us := hsame.mem_iff.mp (List.mem_map.mpr ⟨u, hu, rfl⟩)
    rw [← hK] at this
    obtain ⟨⟨q, i⟩, hx, e⟩ := List.mem_map.mp this
    simp only [Prod.mk.injEq] at e
    cases hl : lookup s1.table (fill E u) with
    | some i => exact ⟨i, rfl⟩
    | none => exact ((lookup_none.mp hl) i (by rw [fill_path, ← e.1]; exact hmem.mpr hx) e.2.symm).elim
  have hc0 : created E s1.table us' = 0 := by
    rw [created, List.countP_eq_zero]
    intro u hu
    obtain ⟨i, hi⟩ := hlook u hu
    rw [hi]; simp
  have hplan : ∀ (n : Nat) (vs : List URL), (∀ u ∈ vs, u ∈ us') →
      (planned E s1.table n vs).map (fun x => (x.1, ext x.2.url)) = Spec.strings E vs ∧
      ∀ x ∈ planned E s1.table n vs, x ∈ P := by
    intro n vs
    induction vs with
    | nil => intro _; exact ⟨rfl, fun x hx => by simp [planned] at hx⟩
    | cons u vs ih =>
      intro hv
      obtain ⟨i, hi⟩ := hlook u (hv u (by simp))
      obtain ⟨h1, h2⟩ := ih fun w hw => hv w (by simp [hw])
      obtain ⟨hl1, hl2⟩ := lookup_some hi
      rw [planned, hi]
      refine ⟨?_, fun x hx => ?_⟩
      · simp only [List.map_cons, Spec.strings, ← hl2]
        rw [h1]; rfl
      · rcases List.mem_cons.mp hx with rfl | hx
        · rw [fill_path] at hl1; exact hmem.mp hl1
        · exact h2 x hx
  obtain ⟨hK2, hsub⟩ := hplan s1.next us' fun u hu => hu
  have hn2 : ((planned E s1.table s1.next us').map fun x => (x.1, ext x.2.url)).Nodup := by
    rw [hK2]; exact hsame.nodup_iff.mpr hn
  have hperm : (planned E s1.table s1.next us').Perm P := by
    rw [List.perm_ext_iff_of_nodup (nodup_of_map hn2) (nodup_of_map hPn)]
    refine fun x => ⟨hsub x, fun hx => ?_⟩
    have : (x.1, ext x.2.url) ∈ Spec.strings E us := by rw [← hK]; exact List.mem_map.mpr ⟨x, hx, rfl⟩
    have := hsame.mem_iff.mpr this
    rw [← hK2] at this
    obtain ⟨y, hy, e⟩ := List.mem_map.mp this
    rw [← inj_of_nodup_map hPn (hsub y hy) hx e]; exact hy
  refine ⟨by rw [hx2, hc0]; rfl, ?_, fun p => ?_⟩
  · rw [hdest2]
    rw [List.filter_eq_nil_iff.mpr, List.map_nil, List.append_nil]
    intro i hi
    have hnd : AMap.NodupKeys s1.table := by
      rw [ht]; exact addAll_nodup _ .nil
    obtain ⟨q, hq⟩ := (mem_items hnd i).mp hi
    have hx := hperm.mem_iff.mpr (hmem.mp hq)
    simp only [decide_not, Bool.not_eq_eq_eq_not, Bool.not_true, decide_eq_false_iff_not, Decidable.not_not]
    have : (q, ext i.url) ∈ Spec.strings E us' := by rw [← hK2]; exact List.mem_map.mpr ⟨_, hx, rfl⟩
    obtain ⟨u, hu, e⟩ := List.mem_map.mp this
    simp only [Prod.mk.injEq] at e
    exact mem_kept.mpr ⟨u, hu, hlook u hu, e.2⟩
  · have e2 := itemsOf_reload E s1 hp1 ids' refs' p
    have e1 := itemsOf_reload E s hp ids refs p
    rw [hus'] at e2
    rw [hus, hP] at e1
    rw [e1, e2]
    exact (hperm.filter _).map _

/-! ## References that stay -/

theorem ext_eq {u v : URL} (hu : u.portStrC = none ∨ u.portStrC = some (formatInt u.port))
    (hv : v.portStrC = none ∨ v.portStrC = some (formatInt v.port)) (h : SameFields u v) : ext u = ext v := by
  obtain ⟨h1, h2, h3, h4, h5, h6⟩ := h
  have hs : sorted u = sorted v := by simp only [sorted, URL.param, h6]
  rw [ext, ext, toExtInfo_eq u hu, toExtInfo_eq v hv, h1, h2, h3, h4, h5, hs]

theorem fill_fields (E : Reload.Env) (u : URL) :
    (fill E u).group = u.group ∧ (fill E u).port = u.port ∧ (fill E u).portStrC = u.portStrC ∧
      ∀ k, k ≠ b!"application" → (fill E u).param k = u.param k := by
  rw [fill]
  split
  · refine ⟨rfl, rfl, rfl, fun k hk => ?_⟩
    show AMap.load (AMap.store _ _ _) k = _
    rw [AMap.load_store_ne _ _ (Ne.symm hk)]
    cases h : u.params <;> simp [URL.param, h, AMap.load]
  · exact ⟨rfl, rfl, rfl, fun _ _ => rfl⟩

/-- A reference stays if its group has no placeholder, its strategy is not the backup request, and none of its
registries is zookeeper. -/
theorem stays_of (E : Reload.Env) (u : URL) (hport : u.portStrC = none ∨ u.portStrC = some (formatInt u.port))
    (hg : Strings.contains u.group b!"${idc}" = false) (hha : u.param b!"haStrategy" ≠ some b!"backupRequest")
    (hr : ∀ rs, u.param b!"registry" = some rs → ∀ r ∈ trimSplit rs b!",", AMap.load E.registries r ≠ some .zookeeper) :
    Spec.Stays E u := by
  obtain ⟨h1, h2, h3, h4⟩ := fill_fields E u
  rw [← h4 _ (by decide)] at hha
  simp only [← h4 b!"registry" (by decide)] at hr
  rw [← h1] at hg
  rw [← h2, ← h3] at hport
  rw [Spec.Stays]
  generalize fill E u = v at *
  have hh : haEffect v = v := by
    rw [haEffect, if_neg]
    intro e
    rw [getParam] at e
    cases hp : v.param b!"haStrategy" with
    | none => rw [hp] at e; simp at e
    | some x =>
      rw [hp] at e hha
      dsimp only [Option.getD_some] at e
      split at e
      · revert e; decide
      · exact hha (by rw [e])
  have hfold : ∀ (l : List Bytes) (w : URL), (∀ r ∈ l, AMap.load E.registries r ≠ some .zookeeper) →
      SameFields w v → (w.portStrC = none ∨ w.portStrC = some (formatInt w.port)) →
      SameFields (l.foldl (registryEffect E) w) v ∧
        ((l.foldl (registryEffect E) w).portStrC = none ∨
          (l.foldl (registryEffect E) w).portStrC = some (formatInt (l.foldl (registryEffect E) w).port)) := by
    intro l
    induction l with
    | nil => exact fun w _ hs hp => ⟨hs, hp⟩
    | cons r l ih =>
      intro w hl hs hp
      rw [List.foldl_cons]
      have hr := hl r (by simp)
      refine ih _ (fun x hx => hl x (by simp [hx])) ?_ ?_ <;>
      · rw [registryEffect]
        split
        · rename_i k hk
          cases k with
          | zookeeper => exact (hr hk).elim
          | other =>
            have hgw : w.group = v.group := hs.group
            rw [subscribeEffect, hgw, hg]
            obtain ⟨a, b, c, d, e, f⟩ := hs
            first
            | exact .inl rfl
            | exact ⟨a, b, c, d, rfl, f⟩
        · assumption
  rw [made, hh]
  split
  · rename_i rs hrs
    obtain ⟨h5, h6⟩ := hfold _ v (hr rs hrs) ⟨rfl, rfl, rfl, rfl, rfl, rfl⟩ hport
    exact ext_eq h6 hport h5
  · rfl

theorem reload_reached {E : Reload.Env} {s : Reload.St} (h : Spec.Reached E s) (ids : List Bytes) (refs : List URL) :
    Spec.Reached E (reload E s ids refs) := by
  obtain ⟨os, rfl⟩ := h
  generalize hn : ((Reload.begin (Reload.run E {} os) ids refs).pending.map fun p => p.todo.length).getD 0 = n
  refine ⟨os ++ (.begin ids refs :: (List.replicate n .next ++ [.swap])), ?_⟩
  have hr : ∀ (m : Nat) (s : Reload.St), Reload.run E s (List.replicate m .next) =
      (List.replicate m ()).foldl (fun s _ => Reload.next E s) s := by
    intro m
    induction m with
    | zero => intro s; rfl
    | succ m ih => intro s; exact ih (Reload.next E s)
  have ha : ∀ (a b : List Reload.Op) (s : Reload.St), Reload.run E s (a ++ b) = Reload.run E (Reload.run E s a) b :=
    fun a b s => List.foldl_append
  rw [ha, show ∀ s o os, Reload.run E s (o :: os) = Reload.run E (Reload.step E s o) os from fun _ _ _ => rfl, ha, hr,
    reload, hn]
  rfl

/-- C61: the cluster of an unchanged reference survives the reload: its item is the same and it is not destroyed. -/
theorem reload_keeps (E : Reload.Env) (s : Reload.St) (h : Spec.Reached E s) (hp : s.pending = none)
    (ids : List Bytes) (refs : List URL) (u : URL) (hu : u ∈ Spec.references s ids refs) (i : Item Nat)
    (hi : i ∈ Spec.itemsOf s.table u.path) (he : ext i.url = ext (fill E u))
    (hone : ∀ j ∈ Spec.itemsOf s.table u.path, ext j.url = ext (fill E u) → j = i) :
    i ∈ Spec.itemsOf (reload E s ids refs).table u.path ∧ i.cluster ∉ (reload E s ids refs).destroyed := by
  have hin : i ∈ Spec.itemsOf (reload E s ids refs).table u.path := by
    obtain ⟨k, hk, h1 | ⟨h1, _⟩⟩ := mem_planned (E := E) (t := s.table) (n := s.next) hu
    · obtain ⟨h2, h3⟩ := lookup_some h1
      rw [fill_path] at h2
      rw [← hone k h2 h3.symm]; exact (mem_itemsOf_reload hp).mpr hk
    · exact ((lookup_none.mp h1) i (by rw [fill_path]; exact hi) he.symm).elim
  exact ⟨hin, (reload_reached h ids refs).inv.alive i (.inl ⟨_, hin⟩)⟩

/-! ## Cases that meet the hypotheses -/

/-- A reference of the configuration. -/
def exRef (path group : Bytes) : URL :=
  { protocol := b!"motan2", path := path, group := group, params := some [(b!"registry", b!"r"), (b!"application", b!"app")] }

/-- An agent whose registry is not zookeeper. -/
def exReloadEnv : Reload.Env := { application := b!"app", localIP := b!"10.0.0.1", registries := [(b!"r", .other)] }

/-- Two services, one of them in two groups. -/
def exOps : List Reload.Op := [.init (exRef b!"a" b!"g"), .init (exRef b!"b" b!"g"), .init (exRef b!"b" b!"h")]

/-- A reload that drops one group of the second service and adds a third service: the first two clusters stay. -/
example : let s := reload exReloadEnv (Reload.run exReloadEnv {} exOps) [] [exRef b!"a" b!"g", exRef b!"b" b!"h", exRef b!"c" b!"g"]
    s.destroyed = [1] ∧ s.table.items.map (·.cluster) = [0, 2, 3] := by decide +kernel

example : Spec.Reached exReloadEnv (Reload.run exReloadEnv {} exOps) ∧
    (Reload.run exReloadEnv {} exOps).pending = none := ⟨⟨_, rfl⟩, rfl⟩

theorem exOps_items : (Reload.run exReloadEnv {} exOps).table.items.map (fun i => (i.cluster, ext i.url)) =
    [(0, ext (exRef b!"a" b!"g")), (1, ext (exRef b!"b" b!"g")), (2, ext (exRef b!"b" b!"h"))] := by decide +kernel

/-- The strings of this agent's items are distinct, as `reload_no_leak` and `reload_destroys` ask. -/
example (i j : Item Nat) (hi : Spec.InTable (Reload.run exReloadEnv {} exOps).table i)
    (hj : Spec.InTable (Reload.run exReloadEnv {} exOps).table j) (e : ext i.url = ext j.url) : i = j := by
  have hinv := reloadInv_run exReloadEnv exOps .empty
  refine hinv.uniq i j (.inl hi) (.inl hj) ?_
  have h1 := List.mem_map_of_mem (f := fun i : Item Nat => (i.cluster, ext i.url)) ((mem_items hinv.nodup i).mpr hi)
  have h2 := List.mem_map_of_mem (f := fun i : Item Nat => (i.cluster, ext i.url)) ((mem_items hinv.nodup j).mpr hj)
  rw [exOps_items] at h1 h2
  rw [e] at h1
  generalize ext j.url = x at h1 h2
  generalize i.cluster = a at h1
  generalize j.cluster = b at h2
  simp only [List.mem_cons, Prod.mk.injEq, List.not_mem_nil, or_false] at h1 h2
  have d1 : ext (exRef b!"a" b!"g") ≠ ext (exRef b!"b" b!"g") := by decide +kernel
  have d2 : ext (exRef b!"a" b!"g") ≠ ext (exRef b!"b" b!"h") := by decide +kernel
  have d3 : ext (exRef b!"b" b!"g") ≠ ext (exRef b!"b" b!"h") := by decide +kernel
  rcases h1 with ⟨rfl, rfl⟩ | ⟨rfl, rfl⟩ | ⟨rfl, rfl⟩ <;> rcases h2 with ⟨rfl, e⟩ | ⟨rfl, e⟩ | ⟨rfl, e⟩ <;>
    first
    | rfl
    | exact absurd e (by assumption)
    | exact absurd e.symm (by assumption)

/-- Its clusters are all accounted for. -/
example : Spec.Accounted (Reload.run exReloadEnv {} exOps) := by
  intro c hc
  have hinv := reloadInv_run exReloadEnv exOps .empty
  have hn : (Reload.run exReloadEnv {} exOps).next = 3 := rfl
  have hm : ∀ c < 3, c ∈ (Reload.run exReloadEnv {} exOps).table.items.map (·.cluster) := by decide +kernel
  obtain ⟨i, hi, e⟩ := List.mem_map.mp (hm c (by omega))
  exact .inl ⟨i, (mem_items hinv.nodup i).mp hi, e⟩

/-- The hypotheses of `reload_twice`. -/
example : let refs := [exRef b!"a" b!"g", exRef b!"b" b!"h", exRef b!"c" b!"g"]
    (∀ u ∈ Spec.references (Reload.run exReloadEnv {} exOps) [] refs, Spec.Stays exReloadEnv u) ∧
    (Spec.strings exReloadEnv (Spec.references (Reload.run exReloadEnv {} exOps) [] refs)).Nodup ∧
    (Spec.strings exReloadEnv (Spec.references (reload exReloadEnv (Reload.run exReloadEnv {} exOps) [] refs) [] refs.reverse)).Perm
      (Spec.strings exReloadEnv (Spec.references (Reload.run exReloadEnv {} exOps) [] refs)) := by
  refine ⟨?_, by decide +kernel, ?_⟩
  · intro u hu
    rw [Spec.references] at hu
    simp only [List.filterMap_nil, List.nil_append, List.mem_cons, List.not_mem_nil, or_false] at hu
    rcases hu with rfl | rfl | rfl <;> (rw [Spec.Stays]; decide +kernel)
  · exact (List.reverse_perm _).map _

/-! ## Where the agent falls short -/

/-- A request for the service, naming no group. -/
def exPlain (service : Bytes) : Routing.Req := { service := service, group := [], version := [], protocol := [] }

/-- Reloading an unchanged configuration replaces the cluster of every reference to a zookeeper registry: the
subscription wrote `nodeType` and the host into the URL, so the new configuration does not look the same. -/
theorem reload_zookeeper_violated :
    let E := { exReloadEnv with registries := [(b!"r", RegKind.zookeeper)] }
    let s := Reload.run E {} [.init (exRef b!"a" b!"g")]
    let s' := reload E s [] [exRef b!"a" b!"g"]
    findCluster s.table (exPlain b!"a") = .ok 0 ∧ findCluster s'.table (exPlain b!"a") = .ok 1 ∧ s'.destroyed = [0] := by decide +kernel

/-- The same for a group with a placeholder, whatever the registry. -/
theorem reload_placeholder_violated :
    let E := { exReloadEnv with resolve := fun _ => b!"g-tc" }
    let s := Reload.run E {} [.init (exRef b!"a" b!"g-${idc}")]
    let s' := reload E s [] [exRef b!"a" b!"g-${idc}"]
    findCluster s.table (exPlain b!"a") = .ok 0 ∧ findCluster s'.table (exPlain b!"a") = .ok 1 ∧ s'.destroyed = [0] := by decide +kernel

/-- A dynamic subscription to a configured reference is refused but remembered. The next reload counts the service twice,
and requests that name no group, answered before, are refused. -/
theorem reload_refused_subscription_violated :
    let s := Reload.run exReloadEnv {} [.init (exRef b!"a" b!"g"), .note (exRef b!"a" b!"g")]
    let s' := reload exReloadEnv s (s.subs.keys) [exRef b!"a" b!"g"]
    findCluster s.table (exPlain b!"a") = .ok 0 ∧ findCluster s'.table (exPlain b!"a") = .error .emptyGroup := by decide +kernel

/-- A subscription made while a reload runs is lost: its cluster is destroyed and the service is unknown, although the
subscription is remembered. -/
theorem reload_lost_subscription_violated :
    let id := (getIdentity (exRef b!"a" b!"g")).1
    let s := Reload.run exReloadEnv {} [.begin [] [], .note (exRef b!"a" b!"g"), .attach id, .swap]
    s.subs.keys = [id] ∧ findCluster s.table (exPlain b!"a") = .error .noService ∧ s.destroyed = [0] := by
  decide +kernel

/-- A reload between the two halves of a subscription gives the service two clusters; the next reload drops the second
one without destroying it. -/
theorem reload_leak_violated :
    let id := (getIdentity (exRef b!"a" b!"g")).1
    let s := Reload.run exReloadEnv {} [.note (exRef b!"a" b!"g"), .begin [id] [], .next, .swap, .attach id]
    let s' := reload exReloadEnv s [id] []
    s.table.items.map (·.cluster) = [0, 1] ∧ s'.table.items.map (·.cluster) = [0] ∧ s'.destroyed = [] := by
  decide +kernel

end Motan.Props
