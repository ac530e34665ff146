import Verif.Model.ZkTree

/-!
# C103: the nodes above a service's node

Registering creates the missing nodes above the service's node, and no others; unless one of them cannot be created, in
which case the process dies. The commands of a service are those of its group.
-/

namespace Motan.Props

open Strings ZkTree

/-! ### Specification -/

/-- `q` is a node on the way from the root to `p`. -/
def Spec.Above (q p : Bytes) : Prop := q ≠ [] ∧ ∃ r, p = q ++ b!"/" ++ r

/-- In a tree every node has all the nodes above it. -/
def Spec.IsTree (t : List Bytes) : Prop := ∀ p ∈ t, ∀ q, Spec.Above q p → q ∈ t

/-! ### Paths -/

theorem parentOf_snoc (a r : Bytes) (h : (47 : UInt8) ∉ r) : parentOf (a ++ 47 :: r) = a := by
  unfold parentOf
  have e : (a ++ 47 :: r).reverse = r.reverse ++ 47 :: a.reverse := by simp
  rw [e, List.dropWhile_append_of_pos (by
    intro x hx
    have : x ∈ r := by simpa using hx
    simp only [ne_eq, decide_not, Bool.not_eq_eq_eq_not, Bool.not_true, decide_eq_false_iff_not]
    rintro rfl
    exact h this)]
  simp

theorem parentOf_none (p : Bytes) (h : (47 : UInt8) ∉ p) : parentOf p = [] := by
  unfold parentOf
  have : p.reverse.dropWhile (· ≠ 47) = [] := by
    have := List.dropWhile_append_of_pos (p := fun x : UInt8 => decide (x ≠ 47)) (l₁ := p.reverse) (l₂ := []) (by
      intro x hx
      have : x ∈ p := by simpa using hx
      simp only [ne_eq, decide_not, Bool.not_eq_eq_eq_not, Bool.not_true, decide_eq_false_iff_not]
      rintro rfl
      exact h this)
    simpa using this
  rw [this]
  rfl

theorem last_slash (p : Bytes) : (47 : UInt8) ∉ p ∨ ∃ a r, p = a ++ 47 :: r ∧ (47 : UInt8) ∉ r := by
  induction p with
  | nil => exact .inl (by simp)
  | cons x p ih =>
    rcases ih with h | ⟨a, r, rfl, h⟩
    · by_cases e : x = 47
      · exact .inr ⟨[], p, by simp [e], h⟩
      · exact .inl (by simp only [List.mem_cons, not_or]; exact ⟨fun c => e c.symm, h⟩)
    · exact .inr ⟨x :: a, r, by simp, h⟩

theorem above_parent {q p : Bytes} (h : Spec.Above q p) : q = parentOf p ∨ Spec.Above q (parentOf p) := by
  obtain ⟨hq, r, rfl⟩ := h
  rcases last_slash r with hr | ⟨a, r', rfl, hr⟩
  · left
    have e : q ++ b!"/" ++ r = q ++ 47 :: r := by simp [show b!"/" = [47] from rfl]
    rw [e, parentOf_snoc q r hr]
  · right
    have e : q ++ b!"/" ++ (a ++ 47 :: r') = (q ++ b!"/" ++ a) ++ 47 :: r' := by simp
    rw [e, parentOf_snoc _ r' hr]
    exact ⟨hq, a, rfl⟩

theorem above_of_parent {p : Bytes} (h : parentOf p ≠ []) :
    Spec.Above (parentOf p) p ∧ (parentOf p).length < p.length ∧ ∀ q, Spec.Above q (parentOf p) → Spec.Above q p := by
  rcases last_slash p with hp | ⟨a, r, rfl, hr⟩
  · exact absurd (parentOf_none p hp) h
  · rw [parentOf_snoc a r hr] at h ⊢
    refine ⟨⟨h, r, by simp [show b!"/" = [47] from rfl]⟩, by simp, ?_⟩
    rintro q ⟨hq, s, rfl⟩
    exact ⟨hq, s ++ 47 :: r, by simp⟩

/-- The code's way to find the parent is the server's. -/
theorem parentPath_eq (p : Bytes) : parentPath p = parentOf p := by
  unfold parentPath
  have hb : b!"/" = [47] := rfl
  rcases last_slash p with hp | ⟨a, r, rfl, hr⟩
  · rw [parentOf_none p hp, hb, split_single hp]
    rfl
  · rw [parentOf_snoc a r hr]
    have : ∀ n (a : Bytes), a.length = n → split [47] (a ++ 47 :: r) = split [47] a ++ [r] := by
      intro n
      induction n using Nat.strongRecOn with
      | _ n ih =>
        intro a hn
        have first : (47 : UInt8) ∉ a ∨ ∃ x y, a = x ++ 47 :: y ∧ (47 : UInt8) ∉ x := by
          clear ih hn
          induction a with
          | nil => exact .inl (by simp)
          | cons c a ih =>
            by_cases e : c = 47
            · exact .inr ⟨[], a, by simp [e], by simp⟩
            · rcases ih with h | ⟨x, y, rfl, h⟩
              · exact .inl (by simp only [List.mem_cons, not_or]; exact ⟨fun c => e c.symm, h⟩)
              · exact .inr ⟨c :: x, y, rfl, by simp only [List.mem_cons, not_or]; exact ⟨fun c => e c.symm, h⟩⟩
        have cons : ∀ x y : Bytes, (47 : UInt8) ∉ x → split [47] (x ++ 47 :: y) = x :: split [47] y := by
          intro x y hx
          have := split_cons (sep := []) (r := y) hx
          simpa using this
        rcases first with h | ⟨x, y, rfl, h⟩
        · rw [cons a r h, split_single hr, split_single h]
          rfl
        · have e : x ++ 47 :: y ++ 47 :: r = x ++ 47 :: (y ++ 47 :: r) := by simp
          rw [e, cons x _ h, cons x y h, ih y.length (by simp at hn; omega) y rfl]
          rfl
    rw [hb, this _ a rfl, List.dropLast_concat, join_split]

/-! ### Creating -/

theorem create_tree {env : ZkTree.Env} {t t' : List Bytes} {p : Bytes} (ht : Spec.IsTree t)
    (h : ZkTree.create env t p = .ok t') : Spec.IsTree t' ∧ t' = p :: t ∧ env.refuse p = false := by
  unfold ZkTree.create at h
  split at h
  · cases h
  split at h
  · cases h
  split at h
  · cases h
  split at h
  · cases h
  rename_i hv hp hr hm
  cases h
  refine ⟨?_, rfl, by simpa using hr⟩
  intro x hx q hq
  rcases List.mem_cons.mp hx with rfl | hx
  · refine List.mem_cons_of_mem _ ?_
    have hne : parentOf x ≠ [] := by
      rcases above_parent hq with e | e
      · rw [← e]; exact hq.1
      · obtain ⟨h1, r, e⟩ := e; rw [e]; simp [show b!"/" = [47] from rfl]
    have hin : parentOf x ∈ t := by
      by_cases hc : parentOf x ∈ t
      · exact hc
      · exact absurd ⟨hne, hc⟩ hp
    rcases above_parent hq with e | e
    · rw [e]; exact hin
    · exact ht _ hin q e
  · exact List.mem_cons_of_mem _ (ht x hx q hq)

/-- Whatever is created, a tree stays a tree, nothing is lost, and nothing refused is there. -/
theorem createPersistent_tree (env : ZkTree.Env) (b : Bool) (n : Nat) : ∀ (t : List Bytes) (p : Bytes) (t' : List Bytes),
    Spec.IsTree t → createPersistent env b n t p = some t' →
    Spec.IsTree t' ∧ (∀ q ∈ t, q ∈ t') ∧ ∀ q ∈ t', q ∈ t ∨ env.refuse q = false := by
  induction n with
  | zero => intro t p t' _ h; cases h
  | succ n ih =>
    intro t p t' ht h
    unfold createPersistent at h
    split at h
    · rename_i t1 hc
      cases h
      obtain ⟨h1, rfl, h3⟩ := create_tree ht hc
      refine ⟨h1, fun q hq => List.mem_cons_of_mem _ hq, fun q hq => ?_⟩
      rcases List.mem_cons.mp hq with rfl | hq
      · exact .inr h3
      · exact .inl hq
    · split at h
      · cases h1 : createPersistent env b n t (parentPath p) with
        | none => rw [h1] at h; cases h
        | some t1 =>
          rw [h1] at h
          obtain ⟨a1, a2, a3⟩ := ih t _ t1 ht h1
          obtain ⟨b1, b2, b3⟩ := ih t1 p t' a1 h
          refine ⟨b1, fun q hq => b2 q (a2 q hq), fun q hq => ?_⟩
          rcases b3 q hq with h | h
          · exact a3 q h
          · exact .inr h
      · cases h
        exact ⟨ht, fun q hq => hq, fun q hq => .inl hq⟩

/-- C103: if no node on the way is refused, the node and all nodes above it are there afterwards, and no other node is
created; the calls are no deeper than the path is long. -/
theorem parents_created (env : ZkTree.Env) (p : Bytes) (t : List Bytes) (ht : Spec.IsTree t)
    (hok : ∀ q, q = p ∨ Spec.Above q p → env.valid q = true ∧ env.refuse q = false) :
    ∃ t', (∀ n, p.length < n → createPersistent env true n t p = some t') ∧
      ∀ q, q ∈ t' ↔ q ∈ t ∨ q = p ∨ Spec.Above q p := by
  have main : ∀ k (p : Bytes) (t : List Bytes), p.length ≤ k → Spec.IsTree t →
      (∀ q, q = p ∨ Spec.Above q p → env.valid q = true ∧ env.refuse q = false) →
      ∃ t', (∀ n, p.length < n → createPersistent env true n t p = some t') ∧
        ∀ q, q ∈ t' ↔ q ∈ t ∨ q = p ∨ Spec.Above q p := by
    intro k
    induction k with
    | zero =>
      intro p t hk ht hok
      have hp : p = [] := List.length_eq_zero_iff.mp (by omega)
      subst hp
      refine ⟨if [] ∈ t then t else [] :: t, ?_, ?_⟩
      · intro n hn
        obtain ⟨m, rfl⟩ : ∃ m, n = m + 1 := ⟨n - 1, by omega⟩
        have h1 := hok [] (.inl rfl)
        have hpar : parentOf [] = [] := rfl
        unfold createPersistent ZkTree.create
        rw [h1.1, h1.2, hpar]
        by_cases hm : [] ∈ t <;> simp [hm]
      · intro q
        have hna : ¬ Spec.Above q [] := by
          rintro ⟨h, r, e⟩
          simp [show b!"/" = [47] from rfl] at e
        by_cases hm : [] ∈ t
        · simp only [hm, if_true, hna, or_false]
          constructor
          · exact .inl
          · rintro (h | rfl)
            · exact h
            · exact hm
        · simp only [hm, if_false, List.mem_cons, hna, or_false]
          exact or_comm
    | succ k ih =>
      intro p t hk ht hok
      obtain ⟨hv, hr⟩ := hok p (.inl rfl)
      by_cases hpar : parentOf p = [] ∨ parentOf p ∈ t
      · -- the parent is there
        have habove : ∀ q, Spec.Above q p → q ∈ t := by
          intro q hq
          rcases hpar with h | h
          · rcases above_parent hq with e | e
            · exact absurd (e.trans h) hq.1
            · obtain ⟨_, r, e⟩ := e
              rw [h] at e
              simp [show b!"/" = [47] from rfl] at e
          · rcases above_parent hq with e | e
            · rw [e]; exact h
            · exact ht _ h q e
        have hpar' : ¬ (parentOf p ≠ [] ∧ parentOf p ∉ t) := by
          rintro ⟨h1, h2⟩
          rcases hpar with h | h
          · exact h1 h
          · exact h2 h
        refine ⟨if p ∈ t then t else p :: t, ?_, ?_⟩
        · intro n hn
          obtain ⟨m, rfl⟩ : ∃ m, n = m + 1 := ⟨n - 1, by omega⟩
          unfold createPersistent ZkTree.create
          rw [hv, hr, if_neg hpar']
          by_cases hm : p ∈ t <;> simp [hm]
        · intro q
          by_cases hm : p ∈ t
          · simp only [hm, if_true]
            constructor
            · exact .inl
            · rintro (h | rfl | h)
              · exact h
              · exact hm
              · exact habove q h
          · simp only [hm, if_false, List.mem_cons]
            constructor
            · rintro (h | h)
              · exact .inr (.inl h)
              · exact .inl h
            · rintro (h | h | h)
              · exact .inr h
              · exact .inl h
              · exact .inr (habove q h)
      · have hne : parentOf p ≠ [] := fun e => hpar (.inl e)
        have hni : parentOf p ∉ t := fun e => hpar (.inr e)
        obtain ⟨hab, hlen, htrans⟩ := above_of_parent hne
        obtain ⟨t1, h1, h2⟩ := ih (parentOf p) t (by omega) ht (fun q hq => hok q (.inr (by
          rcases hq with rfl | hq
          · exact hab
          · exact htrans q hq)))
        have hpn : p ∉ t := fun h => hni (ht p h _ hab)
        have hp1 : p ∉ t1 := by
          intro h
          rcases (h2 p).mp h with h | h | ⟨_, r, h⟩
          · exact hpn h
          · have := congrArg List.length h; omega
          · have := congrArg List.length h
            simp at this; omega
        refine ⟨p :: t1, ?_, ?_⟩
        · intro n hn
          obtain ⟨m, rfl⟩ : ∃ m, n = m + 1 := ⟨n - 1, by omega⟩
          have hm : 0 < m := by omega
          obtain ⟨m', rfl⟩ : ∃ m', m = m' + 1 := ⟨m - 1, by omega⟩
          have c1 : ZkTree.create env t p = .error .noNode := by
            unfold ZkTree.create
            rw [if_neg (by simp [hv]), if_pos ⟨hne, hni⟩]
          have c2 : ZkTree.create env t1 p = .ok (p :: t1) := by
            unfold ZkTree.create
            have : parentOf p ∈ t1 := (h2 _).mpr (.inr (.inl rfl))
            simp [hv, hr, this, hp1]
          have r1 : createPersistent env true (m' + 1) t (parentPath p) = some t1 := by
            rw [parentPath_eq]
            exact h1 _ (by omega)
          have r2 : createPersistent env true (m' + 1) t1 p = some (p :: t1) := by
            unfold createPersistent
            rw [c2]
          rw [createPersistent, c1]
          simp only [true_and, if_true, r1, Option.bind_some, r2]
        · intro q
          simp only [List.mem_cons, h2 q]
          constructor
          · rintro (h | h | rfl | h)
            · exact .inr (.inl h)
            · exact .inl h
            · exact .inr (.inr hab)
            · exact .inr (.inr (htrans q h))
          · rintro (h | h | h)
            · exact .inr (.inl h)
            · exact .inl h
            · rcases above_parent h with e | e
              · exact .inr (.inr (.inl e))
              · exact .inr (.inr (.inr e))
  exact main p.length p t (Nat.le_refl _) ht hok

/-- C103 fails if a missing node on the way cannot be created: the function calls itself without end, which the process
does not survive. -/
theorem parents_refused_violated (env : ZkTree.Env) (p q : Bytes) (hv : env.valid p = true) (hq : Spec.Above q p)
    (hr : env.refuse q = true) (n : Nat) : ∀ t, Spec.IsTree t → q ∉ t → createPersistent env true n t p = none := by
  induction n with
  | zero => intro t _ _; rfl
  | succ n ih =>
    intro t ht hqt
    have hne : parentOf p ≠ [] := by
      rcases above_parent hq with e | e
      · rw [← e]; exact hq.1
      · obtain ⟨h1, r, e⟩ := e; rw [e]; simp [show b!"/" = [47] from rfl]
    have hni : parentOf p ∉ t := by
      intro h
      rcases above_parent hq with e | e
      · exact hqt (by rw [e]; exact h)
      · exact hqt (ht _ h q e)
    have c1 : ZkTree.create env t p = .error .noNode := by
      unfold ZkTree.create
      rw [if_neg (by simp [hv]), if_pos ⟨hne, hni⟩]
    rw [createPersistent, c1]
    simp only [true_and, if_true]
    cases h1 : createPersistent env true n t (parentPath p) with
    | none => rfl
    | some t1 =>
      obtain ⟨a1, _, a3⟩ := createPersistent_tree env true n t _ t1 ht h1
      refine ih t1 a1 ?_
      intro h
      rcases a3 q h with h | h
      · exact hqt h
      · rw [hr] at h; cases h

/-- C103: without the order to create parents, as for a command node, the node is created if its parent is there, and
otherwise nothing is done. -/
theorem command_node_created (env : ZkTree.Env) (p : Bytes) (t : List Bytes) (n : Nat) (hv : env.valid p = true)
    (hr : env.refuse p = false) (hp : p ∉ t) :
    createPersistent env false (n + 1) t p =
      some (if parentOf p = [] ∨ parentOf p ∈ t then p :: t else t) := by
  unfold createPersistent ZkTree.create
  by_cases h : parentOf p = [] ∨ parentOf p ∈ t
  · have h' : ¬ (parentOf p ≠ [] ∧ parentOf p ∉ t) := by
      rintro ⟨h1, h2⟩
      rcases h with h | h
      · exact h1 h
      · exact h2 h
    simp [hv, hr, h', hp, h]
  · have h' : parentOf p ≠ [] ∧ parentOf p ∉ t := ⟨fun e => h (.inl e), fun e => h (.inr e)⟩
    simp [hv, h', h]

/-! ### Commands -/

/-- C103: services of one group have one command, services of different groups different ones; and the command of an
agent is that of its application. -/
theorem command_of_group (u v : Url.URL) (hu : Zk.isAgent u = false) (hv : Zk.isAgent v = false) :
    commandPath u = commandPath v ↔ u.group = v.group := by
  simp [commandPath, hu, hv, Zk.groupPath]

theorem command_of_application (u v : Url.URL) (hu : Zk.isAgent u = true) (hv : Zk.isAgent v = true) :
    commandPath u = commandPath v ↔ Url.getParam u b!"application" [] = Url.getParam v b!"application" [] := by
  simp [commandPath, hu, hv, agentRoot]

/-- C103: where a command is: below the group, or for an agent below its application. An agent and a service read the same node only if the
group is named after the agent's application, with a slash in it. -/
theorem command_place (u : Url.URL) :
    (Zk.isAgent u = false → commandPath u = b!"/motan/" ++ u.group ++ b!"/command") ∧
    (Zk.isAgent u = true → commandPath u = b!"/motan/agent/" ++ Url.getParam u b!"application" [] ++ b!"/command") ∧
    ∀ v, Zk.isAgent u = true → Zk.isAgent v = false →
      (commandPath u = commandPath v ↔ v.group = b!"agent/" ++ Url.getParam u b!"application" []) := by
  have h1 : ∀ v : Url.URL, Zk.isAgent v = false → commandPath v = b!"/motan/" ++ v.group ++ b!"/command" :=
    fun v h => by
      simp only [commandPath, h, Bool.false_eq_true, if_false, Zk.groupPath]
      rfl
  have h2 : Zk.isAgent u = true → commandPath u = b!"/motan/agent/" ++ Url.getParam u b!"application" [] ++ b!"/command" :=
    fun h => by
      simp only [commandPath, h, if_true, agentRoot]
      rfl
  refine ⟨h1 u, h2, fun v hu hv => ?_⟩
  rw [h2 hu, h1 v hv, show b!"/motan/agent/" = b!"/motan/" ++ b!"agent/" from rfl, List.append_assoc b!"/motan/",
    List.append_left_inj, List.append_right_inj]
  exact eq_comm

/-- C103: the command found is the text of that node, without the header that Java writes; there is none if the registry
is not connected or the node is not there. -/
theorem command_found (get : Bytes → Option Bytes) (u : Url.URL) :
    discoverCommand false get u = [] ∧
    (get (commandPath u) = none → discoverCommand true get u = []) ∧
    (∀ d, get (commandPath u) = some d → d.take 2 ≠ [0xac, 0xed] → discoverCommand true get u = d) ∧
    ∀ a b c c' d, d ≠ [] → get (commandPath u) = some ([0xac, 0xed, a, b, 0x74, c, c'] ++ d) →
      discoverCommand true get u = d := by
  refine ⟨rfl, fun h => by simp [discoverCommand, h], fun d h hd => ?_, fun a b c c' d hd h => ?_⟩
  · simp [discoverCommand, h, Zk.getNodeInfo, hd]
  · have : 0 < d.length := List.length_pos_iff.mpr hd
    simp [discoverCommand, h, Zk.getNodeInfo, this]

/-! ### Examples -/

/-- Nothing is refused. -/
def exOpen : ZkTree.Env := ⟨fun _ => true, fun _ => false⟩

/-- Two nodes are missing and are created. -/
example : createPersistent exOpen true 20 [b!"/motan"] b!"/motan/g/svc" =
    some [b!"/motan/g/svc", b!"/motan/g", b!"/motan"] := by decide +kernel

example : Spec.IsTree [b!"/motan"] := by
  intro p hp q hq
  simp only [List.mem_singleton] at hp
  subst hp
  rcases above_parent hq with e | e
  · exact absurd (e.trans (show parentOf b!"/motan" = [] by decide +kernel)) hq.1
  · obtain ⟨h1, r, e⟩ := e
    have : parentOf b!"/motan" = [] := by decide +kernel
    rw [this] at e
    simp [show b!"/" = [47] from rfl] at e

/-- The node of the group may not be created. -/
example : createPersistent ⟨fun _ => true, fun p => p = b!"/motan/g"⟩ true 50 [b!"/motan"] b!"/motan/g/svc" = none := by
  decide +kernel

example : createPersistent exOpen false 1 [b!"/motan"] b!"/motan/g/command" = some [b!"/motan"] := by decide +kernel

example : discoverCommand true (fun p => if p = b!"/motan/g/command" then some b!"{}" else none)
    { protocol := b!"motan2", path := b!"svc", group := b!"g", params := some [] } = b!"{}" := by decide +kernel

example : commandPath { protocol := b!"agent", path := b!"svc", group := b!"g", params := some [(b!"nodeType", b!"agent"), (b!"application", b!"app")] } =
    b!"/motan/agent/app/command" := by decide +kernel

end Motan.Props
