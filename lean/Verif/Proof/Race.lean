import Verif.Model.Race

/-!
# How programs keep out of each other's way

Two checkers and why they can be believed: `points` lists with which locks held a program performs its actions, and
`runsB` recognises executions.
-/

namespace Motan.Race

variable {L V : Type} [DecidableEq L] [DecidableEq V]

/-! ## Every action of a program, with the locks held -/

/-- The locks held after a program, and before each of its actions; none if it is not always the same. -/
def points (h : List (L × Bool)) : Prog L V → Option (List (L × Bool) × List (Act L V × List (L × Bool)))
  | .skip => some (h, [])
  | .act a => some (held1 h a, [(a, h)])
  | .seq p q =>
    match points h p with
    | none => none
    | some (h1, ps) =>
      match points h1 q with
      | none => none
      | some (h2, qs) => some (h2, ps ++ qs)
  | .alt p q =>
    match points h p, points h q with
    | some (h1, ps), some (h2, qs) => if h1 = h2 then some (h1, ps ++ qs) else none
    | _, _ => none
  | .star p =>
    match points h p with
    | none => none
    | some (h1, ps) => if h1 = h then some (h, ps) else none

omit [DecidableEq V] in
theorem points_spec {p : Prog L V} {u : List (Act L V)} (hd : Does p u) :
    ∀ {h h' ps}, points h p = some (h', ps) →
      u.foldl held1 h = h' ∧ ∀ v a w, u = v ++ a :: w → (a, v.foldl held1 h) ∈ ps := by
  induction hd with
  | skip =>
    intro h h' ps hp
    simp only [points, Option.some.injEq, Prod.mk.injEq] at hp
    refine ⟨hp.1, fun v a w e => ?_⟩
    cases v <;> simp at e
  | act a =>
    intro h h' ps hp
    simp only [points, Option.some.injEq, Prod.mk.injEq] at hp
    obtain ⟨rfl, rfl⟩ := hp
    refine ⟨rfl, fun v b w e => ?_⟩
    cases v with
    | nil => simp at e; simp [e.1]
    | cons c v => simp at e
  | seq hp hq ihp ihq =>
    intro h h' ps hp
    simp only [points] at hp
    split at hp
    · cases hp
    · rename_i h1 ps1 e1
      split at hp
      · cases hp
      · rename_i h2 ps2 e2
        simp only [Option.some.injEq, Prod.mk.injEq] at hp
        obtain ⟨rfl, rfl⟩ := hp
        obtain ⟨a1, b1⟩ := ihp e1
        obtain ⟨a2, b2⟩ := ihq e2
        refine ⟨by rw [List.foldl_append, a1, a2], fun v a w e => ?_⟩
        rcases List.append_eq_append_iff.1 e with ⟨z, hv, hz⟩ | ⟨z, hu, hz⟩
        · rw [hv, List.foldl_append, a1]
          exact List.mem_append_right _ (b2 _ _ _ hz)
        · cases z with
          | nil =>
            simp only [List.append_nil] at hu
            simp only [List.nil_append] at hz
            subst hu
            rw [a1]
            exact List.mem_append_right _ (b2 [] a w hz.symm)
          | cons c z =>
            simp only [List.cons_append, List.cons.injEq] at hz
            obtain ⟨rfl, rfl⟩ := hz
            exact List.mem_append_left _ (b1 _ _ _ hu)
  | altL hp ih =>
    intro h h' ps hp
    simp only [points] at hp
    split at hp
    · split at hp
      · rename_i _ _ _ _ _ _ e1 e2 hh
        simp only [Option.some.injEq, Prod.mk.injEq] at hp
        obtain ⟨rfl, rfl⟩ := hp
        exact ⟨(ih e1).1, fun v a w e => List.mem_append_left _ ((ih e1).2 v a w e)⟩
      · cases hp
    · cases hp
  | altR hp ih =>
    intro h h' ps hp
    simp only [points] at hp
    split at hp
    · split at hp
      · rename_i _ _ _ _ _ _ e1 e2 hh
        simp only [Option.some.injEq, Prod.mk.injEq] at hp
        obtain ⟨rfl, rfl⟩ := hp
        exact ⟨hh ▸ (ih e2).1, fun v a w e => List.mem_append_right _ ((ih e2).2 v a w e)⟩
      · cases hp
    · cases hp
  | done =>
    intro h h' ps hp
    simp only [points] at hp
    split at hp
    · cases hp
    · split at hp
      · simp only [Option.some.injEq, Prod.mk.injEq] at hp
        refine ⟨hp.1, fun v a w e => ?_⟩
        cases v <;> simp at e
      · cases hp
  | more hp hq ihp ihq =>
    intro h h' ps hs
    have hs' := hs
    simp only [points] at hs
    split at hs
    · cases hs
    · rename_i h1 ps1 e1
      split at hs
      · rename_i hh
        subst hh
        simp only [Option.some.injEq, Prod.mk.injEq] at hs
        obtain ⟨rfl, rfl⟩ := hs
        obtain ⟨a1, b1⟩ := ihp e1
        obtain ⟨a2, b2⟩ := ihq hs'
        refine ⟨by rw [List.foldl_append, a1, a2], fun v a w e => ?_⟩
        rcases List.append_eq_append_iff.1 e with ⟨z, hv, hz⟩ | ⟨z, hu, hz⟩
        · rw [hv, List.foldl_append, a1]
          exact b2 _ _ _ hz
        · cases z with
          | nil =>
            simp only [List.append_nil] at hu
            simp only [List.nil_append] at hz
            subst hu
            rw [a1]
            exact b2 [] a w hz.symm
          | cons c z =>
            simp only [List.cons_append, List.cons.injEq] at hz
            obtain ⟨rfl, rfl⟩ := hz
            exact b1 _ _ _ hu
      · cases hs

/-! ## Executions -/

omit [DecidableEq L] [DecidableEq V] in
theorem own_append (e f : List (Nat × Act L V)) (t : Nat) : own (e ++ f) t = own e t ++ own f t := by
  simp [own]

omit [DecidableEq L] [DecidableEq V] in
theorem own_one (s t : Nat) (a : Act L V) : own [(s, a)] t = if s = t then [a] else [] := by
  by_cases h : s = t <;> simp [own, h]

omit [DecidableEq V] in
theorem held_snoc (u : List (Act L V)) (a : Act L V) : held (u ++ [a]) = held1 (held u) a := by
  simp [held]

omit [DecidableEq V] in
theorem held1_mem {h : List (L × Bool)} {a : Act L V} {l : L} {b : Bool} (hm : (l, b) ∈ held1 h a) :
    (l, b) ∈ h ∨ (b = true ∧ a = .lock l) ∨ (b = false ∧ a = .rlock l) := by
  cases a with
  | lock k =>
    rcases List.mem_cons.1 hm with e | e
    · cases e; exact .inr (.inl ⟨rfl, rfl⟩)
    · exact .inl e
  | rlock k =>
    rcases List.mem_cons.1 hm with e | e
    · cases e; exact .inr (.inr ⟨rfl, rfl⟩)
    · exact .inl e
  | unlock k => exact .inl (List.mem_of_mem_erase hm)
  | runlock k => exact .inl (List.mem_of_mem_erase hm)
  | read => exact .inl hm
  | write => exact .inl hm
  | aread => exact .inl hm
  | awrite => exact .inl hm

omit [DecidableEq V] in
theorem held1_keeps {h : List (L × Bool)} {a : Act L V} {l : L} {b : Bool} (hm : (l, b) ∈ h)
    (hu : b = true → a ≠ .unlock l) (hr : b = false → a ≠ .runlock l) : (l, b) ∈ held1 h a := by
  cases a with
  | lock k => exact List.mem_cons_of_mem _ hm
  | rlock k => exact List.mem_cons_of_mem _ hm
  | unlock k =>
    refine (List.mem_erase_of_ne ?_).2 hm
    intro e; cases e; exact hu rfl rfl
  | runlock k =>
    refine (List.mem_erase_of_ne ?_).2 hm
    intro e; cases e; exact hr rfl rfl
  | read => exact hm
  | write => exact hm
  | aread => exact hm
  | awrite => exact hm

omit [DecidableEq V] in
/-- Nobody holds a lock that another one holds exclusively. -/
theorem exclusive {e : List (Nat × Act L V)} (ho : Ordered e) :
    ∀ {t t' l b}, t ≠ t' → (l, true) ∈ held (own e t) → (l, b) ∉ held (own e t') := by
  induction ho with
  | nil => intro t t' l b _ h; simp [own, held] at h
  | @snoc e s a _ hf ih =>
    intro t t' l b hne h h'
    rw [own_append, own_one] at h h'
    by_cases h1 : s = t
    · have h2 : s ≠ t' := fun x => hne (h1.symm.trans x)
      rw [if_pos h1, held_snoc] at h
      rw [if_neg h2, List.append_nil] at h'
      rcases held1_mem h with g | ⟨_, g⟩ | ⟨g, _⟩
      · exact ih hne g h'
      · subst g; exact hf t' b h'
      · cases g
    · rw [if_neg h1, List.append_nil] at h
      by_cases h2 : s = t'
      · rw [if_pos h2, held_snoc] at h'
        rcases held1_mem h' with g | ⟨_, g⟩ | ⟨_, g⟩
        · exact ih hne h g
        · subst g; exact hf t true h
        · subst g; exact hf t h
      · rw [if_neg h2, List.append_nil] at h'
        exact ih hne h h'

omit [DecidableEq V] in
theorem ordered_prefix {e f : List (Nat × Act L V)} (ho : Ordered (e ++ f)) : Ordered e := by
  generalize hg : e ++ f = g at ho
  induction ho generalizing f with
  | nil => simp at hg; rw [hg.1]; exact .nil
  | @snoc g s a hg1 hf ih =>
    rcases List.eq_nil_or_concat f with rfl | ⟨f', c, rfl⟩
    · rw [List.append_nil] at hg
      rw [hg]
      exact .snoc s hg1 hf
    · rw [List.concat_eq_append, ← List.append_assoc] at hg
      exact ih (List.append_inj' hg rfl).1

/-- All actions of the goroutines of a role, with the locks held. -/
def Role.points (r : Role L V) : Option (List (Act L V × List (L × Bool))) := (Race.points [] r.prog).map Prod.snd

omit [DecidableEq V] in
/-- What a goroutine does in an execution is one of the points of its role. -/
theorem at_point {S : List (Role L V)} {role : Nat → Nat} {e f : List (Nat × Act L V)} {t : Nat} {a : Act L V}
    (hr : Runs S role (e ++ (t, a) :: f)) (hall : ∀ r ∈ S, r.points ≠ none) :
    ∃ r ps, S[role t]? = some r ∧ r.points = some ps ∧ (a, held (own e t)) ∈ ps := by
  have ho : own (e ++ (t, a) :: f) t = own e t ++ a :: own f t := by
    rw [own_append]; simp [own]
  obtain ⟨r, hr1, rest, hd⟩ := hr.follows t (by rw [ho]; simp)
  cases hp : Race.points [] r.prog with
  | none =>
    exact absurd (show r.points = none by simp [Role.points, hp]) (hall r (List.mem_of_getElem? hr1))
  | some q =>
    obtain ⟨h', ps⟩ := q
    refine ⟨r, ps, hr1, by simp [Role.points, hp], ?_⟩
    exact (points_spec hd hp).2 (own e t) a (own f t ++ rest) (by rw [ho]; simp)

/-! ## Accesses that exclude each other -/

/-- Whether an action is an access to a field: whether it writes, and whether it is a plain one. -/
def access (x : V) : Act L V → Option (Bool × Bool)
  | .read y => if x = y then some (false, true) else none
  | .write y => if x = y then some (true, true) else none
  | .aread y => if x = y then some (false, false) else none
  | .awrite y => if x = y then some (true, false) else none
  | _ => none

/-- The accesses to a field among points: writes, plain, locks held. -/
def accesses (x : V) (ps : List (Act L V × List (L × Bool))) : List ((Bool × Bool) × List (L × Bool)) :=
  ps.filterMap fun p => (access x p.1).map fun w => (w, p.2)

/-- A lock that both hold, one of them exclusively. -/
def common (h h' : List (L × Bool)) : Bool :=
  h.any fun p => if p.2 then h'.any fun q => p.1 = q.1 else h'.contains (p.1, true)

/-- Two accesses that must not happen at the same time: one writes, one is plain. -/
def clash (w w' : Bool × Bool) : Bool := (w.1 || w'.1) && (w.2 || w'.2)

/-- Any two accesses that must not happen at the same time are kept apart. -/
def kept (S : List (Role L V)) (x : V) : Bool :=
  S.all (fun r => r.points.isSome) &&
    S.zipIdx.all fun p =>
      let ps := accesses x (p.1.points.getD [])
      S.zipIdx.all fun q =>
        (p.2 == q.2 && p.1.single) ||
          (accesses x (q.1.points.getD [])).all fun b => ps.all fun a => !clash a.1 b.1 || common a.2 b.2

omit [DecidableEq V] in
theorem common_spec {h h' : List (L × Bool)} (hc : common h h' = true) :
    ∃ l b b', (l, b) ∈ h ∧ (l, b') ∈ h' ∧ (b = true ∨ b' = true) := by
  simp only [common, List.any_eq_true] at hc
  obtain ⟨⟨l, b⟩, hm, hq⟩ := hc
  cases b with
  | true =>
    simp only [if_true, List.any_eq_true, decide_eq_true_eq] at hq
    obtain ⟨⟨l', b'⟩, hm', e⟩ := hq
    cases e
    exact ⟨_, _, _, hm, hm', .inl rfl⟩
  | false =>
    simp only [Bool.false_eq_true, if_false, List.contains_iff_mem] at hq
    exact ⟨_, _, _, hm, hq, .inr rfl⟩

theorem accesses_mem {x : V} {ps : List (Act L V × List (L × Bool))} {a : Act L V} {h : List (L × Bool)} {w : Bool × Bool}
    (hm : (a, h) ∈ ps) (hw : access x a = some w) : (w, h) ∈ accesses x ps := by
  simp only [accesses, List.mem_filterMap]
  exact ⟨_, hm, by simp [hw]⟩

/-- Taking and giving back a lock, exclusively or shared. -/
def acquire (b : Bool) (l : L) : Act L V := if b then .lock l else .rlock l
def release (b : Bool) (l : L) : Act L V := if b then .unlock l else .runlock l

omit [DecidableEq V] in
/-- Who holds a lock that they did not hold has taken it. -/
theorem acquired {t : Nat} {l : L} {b : Bool} : ∀ {f e : List (Nat × Act L V)}, (l, b) ∉ held (own e t) →
    (l, b) ∈ held (own (e ++ f) t) → ∃ f1 f2, f = f1 ++ (t, acquire b l) :: f2
  | [], e, hn, h => by rw [List.append_nil] at h; exact absurd h hn
  | (s, a) :: f, e, hn, h => by
    have h' : (l, b) ∈ held (own ((e ++ [(s, a)]) ++ f) t) := by simpa using h
    by_cases hm : (l, b) ∈ held (own (e ++ [(s, a)]) t)
    · refine ⟨[], f, ?_⟩
      rw [own_append, own_one] at hm
      by_cases hs : s = t
      · rw [if_pos hs, held_snoc] at hm
        rcases held1_mem hm with g | ⟨rfl, rfl⟩ | ⟨rfl, rfl⟩
        · exact absurd g hn
        · simp [acquire, hs]
        · simp [acquire, hs]
      · rw [if_neg hs, List.append_nil] at hm
        exact absurd hm hn
    · obtain ⟨f1, f2, rfl⟩ := acquired hm h'
      exact ⟨(s, a) :: f1, f2, rfl⟩

omit [DecidableEq V] in
/-- Who does not hold a lock that they held has given it back. -/
theorem released {t : Nat} {l : L} {b : Bool} : ∀ {f e : List (Nat × Act L V)}, (l, b) ∈ held (own e t) →
    (l, b) ∉ held (own (e ++ f) t) → ∃ f1 f2, f = f1 ++ (t, release b l) :: f2
  | [], e, h, hn => by rw [List.append_nil] at hn; exact absurd h hn
  | (s, a) :: f, e, h, hn => by
    have hn' : (l, b) ∉ held (own ((e ++ [(s, a)]) ++ f) t) := by simpa using hn
    by_cases hm : (l, b) ∈ held (own (e ++ [(s, a)]) t)
    · obtain ⟨f1, f2, rfl⟩ := released hm hn'
      exact ⟨(s, a) :: f1, f2, rfl⟩
    · refine ⟨[], f, ?_⟩
      rw [own_append, own_one] at hm
      by_cases hs : s = t
      · rw [if_pos hs, held_snoc] at hm
        by_cases hr : a = release b l
        · rw [hr, hs]; rfl
        · refine absurd (held1_keeps h ?_ ?_) hm
          · rintro rfl rfl; exact hr rfl
          · rintro rfl rfl; exact hr rfl
      · rw [if_neg hs, List.append_nil] at hm
        exact absurd h hm

omit [DecidableEq V] in
theorem ordered_free {e f : List (Nat × Act L V)} {t : Nat} {a : Act L V} (ho : Ordered (e ++ (t, a) :: f)) : Free e a := by
  have h1 : Ordered (e ++ [(t, a)]) := ordered_prefix (f := f) (by simpa using ho)
  generalize hg : e ++ [(t, a)] = g at h1
  cases h1 with
  | nil => simp at hg
  | @snoc g s b _ hf =>
    obtain ⟨rfl, h2⟩ := List.append_inj' hg rfl
    simp only [List.cons.injEq, Prod.mk.injEq, and_true] at h2
    rw [h2.2]
    exact hf

omit [DecidableEq V] in
/-- If one goroutine holds a lock and later another one does, and not both share it, then it has been given back and
taken in between. -/
theorem handed {e f : List (Nat × Act L V)} {t t' : Nat} {l : L} {b b' : Bool} (ho : Ordered (e ++ f)) (hne : t ≠ t')
    (h : (l, b) ∈ held (own e t)) (h' : (l, b') ∈ held (own (e ++ f) t')) (hx : b = true ∨ b' = true) :
    ∃ f1 f2 f3, f = f1 ++ (t, release b l) :: (f2 ++ (t', acquire b' l) :: f3) := by
  have he : Ordered e := ordered_prefix ho
  have hn : (l, b') ∉ held (own e t') := by
    rcases hx with rfl | rfl
    · exact exclusive he hne h
    · exact fun g => exclusive he hne.symm g h
  obtain ⟨g1, g2, rfl⟩ := acquired hn h'
  have hf : Free (e ++ g1) (acquire b' l : Act L V) := ordered_free (t := t') (f := g2) (by simpa using ho)
  have hn2 : (l, b) ∉ held (own (e ++ g1) t) := by
    cases b' with
    | true => exact hf t b
    | false =>
      rcases hx with rfl | hx
      · exact hf t
      · cases hx
  obtain ⟨f1, f2, rfl⟩ := released h hn2
  exact ⟨f1, f2, g2, by simp⟩

theorem kept_spec {S : List (Role L V)} {x : V} (hk : kept S x = true) {role : Nat → Nat} {e f g : List (Nat × Act L V)}
    {t t' : Nat} {a b : Act L V} (hne : t ≠ t') (hr : Runs S role (e ++ (t, a) :: (f ++ (t', b) :: g))) {w w' : Bool × Bool}
    (ha : access x a = some w) (hb : access x b = some w') (hc : clash w w' = true) :
    ∃ l m m' f1 f2 f3, (m = true ∨ m' = true) ∧
      f = f1 ++ (t, release m l) :: (f2 ++ (t', acquire m' l) :: f3) := by
  simp only [kept, Bool.and_eq_true, List.all_eq_true] at hk
  obtain ⟨hall, hk⟩ := hk
  have hall' : ∀ r ∈ S, r.points ≠ none := fun r hm hn => by
    have := hall r hm
    rw [hn] at this
    cases this
  obtain ⟨r, ps, hr1, hp1, hm1⟩ := at_point hr hall'
  have hr' : Runs S role ((e ++ (t, a) :: f) ++ (t', b) :: g) := by simpa using hr
  obtain ⟨r', ps', hr2, hp2, hm2⟩ := at_point hr' hall'
  have hz1 : (r, role t) ∈ S.zipIdx := List.mk_mem_zipIdx_iff_getElem?.2 hr1
  have hz2 : (r', role t') ∈ S.zipIdx := List.mk_mem_zipIdx_iff_getElem?.2 hr2
  have hh := hk _ hz1 _ hz2
  simp only [Bool.or_eq_true, Bool.and_eq_true, beq_iff_eq] at hh
  rcases hh with ⟨h1, h2⟩ | h3
  · exfalso
    refine hne (hr.once t t' r hr1 h2 h1.symm ?_ ?_).symm
    · rw [own_append]; simp [own]
    · rw [show e ++ (t, a) :: (f ++ (t', b) :: g) = (e ++ (t, a) :: f) ++ (t', b) :: g by simp, own_append,
        show own ((t', b) :: g) t' = b :: own g t' by simp [own]]
      simp
  · rw [hp1, hp2] at h3
    simp only [Option.getD_some] at h3
    have h4 := List.all_eq_true.1 (List.all_eq_true.1 h3 _ (accesses_mem hm2 hb)) _ (accesses_mem hm1 ha)
    simp only [hc, Bool.not_true, Bool.false_or] at h4
    obtain ⟨l, m, m', m1, m2, hx⟩ := common_spec h4
    obtain ⟨f1, f2, f3, hf⟩ := handed (ordered_prefix hr'.ordered) hne m1 m2 hx
    cases f1 with
    | nil =>
      exfalso
      simp only [List.nil_append, List.cons.injEq, Prod.mk.injEq, true_and] at hf
      rw [hf.1] at ha
      cases m <;> simp [release, access] at ha
    | cons c f1 =>
      simp only [List.cons_append, List.cons.injEq] at hf
      exact ⟨l, m, m', f1, f2, f3, hx, hf.2⟩

/-! ## Sections under a lock -/

/-- All accesses to the field are made with the lock held, and writes with the lock held exclusively. -/
def guarded (S : List (Role L V)) (x : V) (l : L) : Bool :=
  S.all fun r =>
    match r.points with
    | none => false
    | some ps => (accesses x ps).all fun a => a.2.contains (l, true) || (!a.1.1 && a.2.contains (l, false))

theorem guarded_spec {S : List (Role L V)} {x : V} {l : L} (hg : guarded S x l = true) {role : Nat → Nat}
    {e f : List (Nat × Act L V)} {t : Nat} {a : Act L V} (hr : Runs S role (e ++ (t, a) :: f)) {w : Bool × Bool}
    (ha : access x a = some w) :
    (l, true) ∈ held (own e t) ∨ (w.1 = false ∧ (l, false) ∈ held (own e t)) := by
  simp only [guarded, List.all_eq_true] at hg
  have hall : ∀ r ∈ S, r.points ≠ none := fun r hm hn => by
    have := hg r hm
    rw [hn] at this
    cases this
  obtain ⟨r, ps, hr1, hp1, hm1⟩ := at_point hr hall
  have h1 := hg r (List.mem_of_getElem? hr1)
  simp only [hp1, List.all_eq_true] at h1
  have h2 := h1 _ (accesses_mem hm1 ha)
  simpa [List.contains_iff_mem] using h2

omit [DecidableEq V] in
theorem held_keeps {t : Nat} {l : L} {b : Bool} : ∀ {f e : List (Nat × Act L V)}, (l, b) ∈ held (own e t) →
    (∀ p ∈ f, (b = true → p ≠ (t, .unlock l)) ∧ (b = false → p ≠ (t, .runlock l))) → (l, b) ∈ held (own (e ++ f) t)
  | [], e, hm, _ => by simpa using hm
  | (s, a) :: f, e, hm, hf => by
    have h1 : (l, b) ∈ held (own (e ++ [(s, a)]) t) := by
      rw [own_append, own_one]
      by_cases hs : s = t
      · subst hs
        rw [if_pos rfl, held_snoc]
        have h2 := hf (s, a) (by simp)
        exact held1_keeps hm (fun hb e => h2.1 hb (by rw [e])) (fun hb e => h2.2 hb (by rw [e]))
      · rw [if_neg hs, List.append_nil]
        exact hm
    have := held_keeps h1 fun p hp => hf p (List.mem_cons_of_mem _ hp)
    simpa using this

/-! ## Recognising executions -/

/-- The program may end here. -/
def ends : Prog L V → Bool
  | .skip => true
  | .act _ => false
  | .seq p q => ends p && ends q
  | .alt p q => ends p || ends q
  | .star _ => true

/-- What may remain of a program after an action. -/
def after (a : Act L V) : Prog L V → List (Prog L V)
  | .skip => []
  | .act b => if a = b then [.skip] else []
  | .seq p q => (after a p).map (fun p' => .seq p' q) ++ (if ends p then after a q else [])
  | .alt p q => after a p ++ after a q
  | .star p => (after a p).map (fun p' => .seq p' (.star p))

/-- … after some actions. -/
def afters : List (Act L V) → List (Prog L V) → List (Prog L V)
  | [], ps => ps
  | a :: u, ps => afters u (ps.flatMap (after a))

omit [DecidableEq L] [DecidableEq V] in
theorem ends_spec : ∀ {p : Prog L V}, ends p = true → Does p []
  | .skip, _ => .skip
  | .seq p q, h => by
    simp only [ends, Bool.and_eq_true] at h
    exact .seq (ends_spec h.1) (ends_spec h.2)
  | .alt p q, h => by
    simp only [ends, Bool.or_eq_true] at h
    rcases h with h | h
    · exact .altL (ends_spec h)
    · exact .altR (ends_spec h)
  | .star p, _ => .done

theorem after_spec {a : Act L V} : ∀ {p q : Prog L V} {u}, q ∈ after a p → Does q u → Does p (a :: u)
  | .skip, q, u, h, _ => by simp [after] at h
  | .act b, q, u, h, hd => by
    simp only [after] at h
    split at h
    · rename_i e
      subst e
      simp only [List.mem_singleton] at h
      subst h
      cases hd
      exact .act a
    · cases h
  | .seq p p2, q, u, h, hd => by
    simp only [after, List.mem_append, List.mem_map] at h
    rcases h with ⟨p', hp', rfl⟩ | h
    · cases hd with
      | seq h1 h2 => exact .seq (after_spec hp' h1) h2
    · split at h
      · rename_i he
        exact .seq (ends_spec he) (after_spec h hd)
      · cases h
  | .alt p p2, q, u, h, hd => by
    simp only [after, List.mem_append] at h
    rcases h with h | h
    · exact .altL (after_spec h hd)
    · exact .altR (after_spec h hd)
  | .star p, q, u, h, hd => by
    simp only [after, List.mem_map] at h
    obtain ⟨p', hp', rfl⟩ := h
    cases hd with
    | seq h1 h2 => exact .more (after_spec hp' h1) h2

omit [DecidableEq L] [DecidableEq V] in
theorem does_some : ∀ p : Prog L V, ∃ u, Does p u
  | .skip => ⟨_, .skip⟩
  | .act a => ⟨_, .act a⟩
  | .seq p q => let ⟨_, h⟩ := does_some p; let ⟨_, h'⟩ := does_some q; ⟨_, .seq h h'⟩
  | .alt p _ => let ⟨_, h⟩ := does_some p; ⟨_, .altL h⟩
  | .star _ => ⟨_, .done⟩

theorem afters_spec : ∀ {u : List (Act L V)} {ps : List (Prog L V)}, afters u ps ≠ [] →
    ∃ p ∈ ps, ∃ rest, Does p (u ++ rest)
  | [], ps, h => by
    obtain ⟨p, hp⟩ := List.exists_mem_of_ne_nil ps h
    obtain ⟨u, hu⟩ := does_some p
    exact ⟨p, hp, u, hu⟩
  | a :: u, ps, h => by
    obtain ⟨q, hq, rest, hd⟩ := afters_spec (u := u) h
    obtain ⟨p, hp, hq'⟩ := List.mem_flatMap.1 hq
    exact ⟨p, hp, rest, after_spec hq' hd⟩

/-- Whether the locks admit an action. -/
def freeB (e : List (Nat × Act L V)) : Act L V → Bool
  | .lock l => e.all fun p => !(held (own e p.1)).contains (l, true) && !(held (own e p.1)).contains (l, false)
  | .rlock l => e.all fun p => !(held (own e p.1)).contains (l, true)
  | _ => true

/-- Whether the locks admit an order, after what has happened. -/
def orderedB (e : List (Nat × Act L V)) : List (Nat × Act L V) → Bool
  | [] => true
  | (t, a) :: f => freeB e a && orderedB (e ++ [(t, a)]) f

omit [DecidableEq L] [DecidableEq V] in
theorem own_nil {e : List (Nat × Act L V)} {t : Nat} (h : ∀ p ∈ e, p.1 ≠ t) : own e t = [] := by
  simp only [own, List.map_eq_nil_iff, List.filter_eq_nil_iff, beq_iff_eq]
  exact h

omit [DecidableEq V] in
theorem freeB_spec {e : List (Nat × Act L V)} {a : Act L V} (h : freeB e a = true) : Free e a := by
  cases a with
  | lock l =>
    intro t b hm
    by_cases ht : ∃ p ∈ e, p.1 = t
    · obtain ⟨p, hp, rfl⟩ := ht
      simp only [freeB, List.all_eq_true, Bool.and_eq_true, Bool.not_eq_true'] at h
      have h1 := h p hp
      cases b with
      | true => rw [List.contains_iff_mem.2 hm] at h1; cases h1.1
      | false => rw [List.contains_iff_mem.2 hm] at h1; cases h1.2
    · rw [own_nil fun p hp hpt => ht ⟨p, hp, hpt⟩] at hm
      simp [held] at hm
  | rlock l =>
    intro t hm
    by_cases ht : ∃ p ∈ e, p.1 = t
    · obtain ⟨p, hp, rfl⟩ := ht
      simp only [freeB, List.all_eq_true, Bool.not_eq_true'] at h
      have h1 := h p hp
      rw [List.contains_iff_mem.2 hm] at h1
      cases h1
    · rw [own_nil fun p hp hpt => ht ⟨p, hp, hpt⟩] at hm
      simp [held] at hm
  | unlock => trivial
  | runlock => trivial
  | read => trivial
  | write => trivial
  | aread => trivial
  | awrite => trivial

omit [DecidableEq V] in
theorem orderedB_spec : ∀ {f e : List (Nat × Act L V)}, Ordered e → orderedB e f = true → Ordered (e ++ f)
  | [], e, he, _ => by simpa using he
  | (t, a) :: f, e, he, h => by
    simp only [orderedB, Bool.and_eq_true] at h
    have := orderedB_spec (f := f) (.snoc t he (freeB_spec h.1)) h.2
    simpa using this

/-- Whether this is an execution. -/
def runsB (S : List (Role L V)) (role : Nat → Nat) (e : List (Nat × Act L V)) : Bool :=
  orderedB [] e &&
    (e.all fun p =>
      match S[role p.1]? with
      | none => false
      | some r =>
        !(afters (own e p.1) [r.prog]).isEmpty && (!r.single || e.all fun q => role q.1 != role p.1 || q.1 == p.1))

omit [DecidableEq L] [DecidableEq V] in
theorem own_mem {e : List (Nat × Act L V)} {t : Nat} (h : own e t ≠ []) : ∃ p ∈ e, p.1 = t := by
  refine Classical.byContradiction fun hn => h (own_nil fun p hp hpt => hn ⟨p, hp, hpt⟩)

theorem runsB_spec {S : List (Role L V)} {role : Nat → Nat} {e : List (Nat × Act L V)} (h : runsB S role e = true) :
    Runs S role e := by
  simp only [runsB, Bool.and_eq_true, List.all_eq_true] at h
  obtain ⟨h1, h2⟩ := h
  refine ⟨fun t ht => ?_, fun t t' r hr hs hrole ht ht' => ?_, by simpa using orderedB_spec .nil h1⟩
  · obtain ⟨p, hp, rfl⟩ := own_mem ht
    have h3 := h2 p hp
    split at h3
    · cases h3
    · rename_i r hr
      simp only [Bool.and_eq_true, Bool.not_eq_true', List.isEmpty_eq_false_iff] at h3
      obtain ⟨q, hq, rest, hd⟩ := afters_spec h3.1
      simp only [List.mem_singleton] at hq
      subst hq
      exact ⟨r, hr, rest, hd⟩
  · obtain ⟨p, hp, rfl⟩ := own_mem ht
    obtain ⟨q, hq, rfl⟩ := own_mem ht'
    have h3 := h2 p hp
    rw [hr] at h3
    simp only [hs, Bool.not_true, Bool.false_or, Bool.and_eq_true, List.all_eq_true] at h3
    have h4 := h3.2 q hq
    simp only [Bool.or_eq_true, bne_iff_ne, ne_eq, beq_iff_eq] at h4
    rcases h4 with h4 | h4
    · exact absurd hrole h4
    · exact h4

end Motan.Race
