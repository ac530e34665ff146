import Verif.Model.Workers

/-!
# C99: a request that was read is handled, and once

Up to 1024 connections no request is lost, however many requests there are and however long they take. With one
connection more a request can be dropped: the server says nothing of it and its caller is never answered.
-/

namespace Motan.Props

open Workers

/-! ## Specification -/

/-- The requests a history reads: those whose connection does not wait at that time. -/
def Spec.reads (max : Nat) : Workers.St → List Workers.Op → List Workers.Req
  | _, [] => []
  | s, op :: ops =>
    (match op with
      | .read r => if s.waiting.any (fun w => w.conn = r.conn) then [] else [r]
      | _ => []) ++ Spec.reads max (Workers.step max s op) ops

/-- The requests come from these connections. -/
def Spec.From (conns : List Nat) (ops : List Workers.Op) : Prop := ∀ r, .read r ∈ ops → r.conn ∈ conns

/-- Where a request is. -/
def Spec.places (s : Workers.St) : List Workers.Req := s.running ++ s.waiting ++ s.handled ++ s.dropped

/-- The largest size the pool has during a history that begins with size `n`. -/
def Spec.largest (n : Nat) (ops : List Workers.Op) : Nat :=
  ops.foldl (fun m op => match op with | .resize k => Nat.max m k.toNat | _ => m) n

/-! ## Each request is at one place -/

theorem workers_append (max : Nat) (s : Workers.St) (xs ys : List Workers.Op) :
    Workers.run max s (xs ++ ys) = Workers.run max (Workers.run max s xs) ys := by
  simp [Workers.run]

theorem workers_one (max : Nat) (s : Workers.St) (op : Workers.Op) : Workers.run max s [op] = Workers.step max s op := rfl

theorem submit_places (max : Nat) (s : Workers.St) (r : Workers.Req) :
    List.Perm (Spec.places (Workers.submit max s r)) (r :: Spec.places s) := by
  unfold Workers.submit Spec.places
  split
  · exact List.perm_iff_count.2 fun a => by simp [List.count_cons]; omega
  · split
    · exact List.perm_iff_count.2 fun a => by simp [List.count_cons]; omega
    · exact List.perm_iff_count.2 fun a => by simp [List.count_cons]; omega

theorem step_places (max : Nat) (s : Workers.St) (op : Workers.Op) :
    List.Perm (Spec.places (Workers.step max s op))
      ((match op with
        | .read r => if s.waiting.any (fun w => w.conn = r.conn) then [] else [r]
        | _ => []) ++ Spec.places s) := by
  cases op with
  | read r =>
    have e : (s.waiting.any (fun w => decide (w.conn = r.conn)) = true) ↔ r.conn ∈ s.waiting.map Req.conn := by
      simp only [List.any_eq_true, decide_eq_true_eq, List.mem_map]
    simp only [Workers.step]
    by_cases h : r.conn ∈ s.waiting.map Req.conn
    · rw [if_pos h, if_pos (e.2 h)]; exact List.Perm.refl _
    · rw [if_neg h, if_neg (fun h' => h (e.1 h'))]; exact submit_places max s r
  | finish r =>
    simp only [Workers.step, List.nil_append]
    split
    · rename_i h
      refine List.perm_iff_count.2 fun a => ?_
      have := (List.perm_cons_erase h).count_eq a
      simp only [Spec.places, List.count_append, List.count_cons] at *
      simp only [List.count_nil]
      omega
    · exact List.Perm.refl _
  | wake r =>
    simp only [Workers.step, List.nil_append]
    split
    · rename_i h
      refine (submit_places max _ r).trans (List.perm_iff_count.2 fun a => ?_)
      have := (List.perm_cons_erase h).count_eq a
      simp only [Spec.places, List.count_append, List.count_cons] at *
      omega
    · exact List.Perm.refl _
  | resize n =>
    simp only [Workers.step, List.nil_append]
    split <;> exact List.Perm.refl _

/-- C99: at every time each request that was read is at exactly one place: it is being handled, its connection waits
with it, it has been handled, or it was dropped. -/
theorem request_once (max : Nat) (ops : List Workers.Op) (s : Workers.St) :
    List.Perm (Spec.places (Workers.run max s ops)) (Spec.reads max s ops ++ Spec.places s) := by
  induction ops generalizing s with
  | nil => exact List.Perm.refl _
  | cons op ops ih =>
    refine (ih (Workers.step max s op)).trans ?_
    show List.Perm _ ((_ ++ Spec.reads max (Workers.step max s op) ops) ++ _)
    refine ((List.Perm.refl _).append (step_places max s op)).trans ?_
    refine List.perm_iff_count.2 fun a => ?_
    simp only [List.count_append]
    omega

/-! ## None is dropped while there are few connections -/

/-- A connection waits with at most one request, and only connections there are wait. -/
structure WorkersInv (conns : List Nat) (s : Workers.St) : Prop where
  nodup : (s.waiting.map Req.conn).Nodup
  sub : ∀ r ∈ s.waiting, r.conn ∈ conns
  none : s.dropped = []

theorem nodup_sub_length {α : Type} [DecidableEq α] : ∀ (xs ys : List α), xs.Nodup → (∀ x ∈ xs, x ∈ ys) → xs.length ≤ ys.length
  | [], _, _, _ => Nat.zero_le _
  | x :: xs, ys, h, hs => by
    have hx := hs x (List.mem_cons_self ..)
    have hn := List.nodup_cons.1 h
    have := nodup_sub_length xs (ys.erase x) hn.2 fun y hy => by
      have hne : y ≠ x := fun e => hn.1 (e ▸ hy)
      exact (List.mem_erase_of_ne hne).2 (hs y (List.mem_cons_of_mem _ hy))
    have hl := List.length_erase_of_mem hx
    have : 0 < ys.length := List.length_pos_of_mem hx
    simp only [List.length_cons]
    omega

theorem submit_workersInv {conns : List Nat} {max : Nat} (hc : conns.length ≤ max) {s : Workers.St} (h : WorkersInv conns s)
    {r : Workers.Req} (hr : r.conn ∈ conns) (hw : r.conn ∉ s.waiting.map Req.conn) : WorkersInv conns (Workers.submit max s r) := by
  have hn : (r.conn :: s.waiting.map Req.conn).Nodup := List.nodup_cons.2 ⟨hw, h.nodup⟩
  have hl := nodup_sub_length _ conns hn (by
    intro x hx
    rcases List.mem_cons.1 hx with rfl | hx
    · exact hr
    · obtain ⟨w, hw, rfl⟩ := List.mem_map.1 hx; exact h.sub w hw)
  simp only [List.length_cons, List.length_map] at hl
  unfold Workers.submit
  split
  · exact ⟨h.nodup, h.sub, h.none⟩
  · rw [if_neg (by omega)]
    refine ⟨?_, ?_, h.none⟩
    · simp only [List.map_append, List.map_cons, List.map_nil]
      refine List.nodup_append.2 ⟨h.nodup, by simp, ?_⟩
      intro a ha b hb e
      simp only [List.mem_singleton] at hb
      subst hb; subst e; exact hw ha
    · intro w hw'
      rcases List.mem_append.1 hw' with hw' | hw'
      · exact h.sub w hw'
      · simp only [List.mem_singleton] at hw'; subst hw'; exact hr

theorem erase_conn_nodup : ∀ (ws : List Workers.Req) (r : Workers.Req), r ∈ ws → (ws.map Req.conn).Nodup →
    ((ws.erase r).map Req.conn).Nodup ∧ r.conn ∉ (ws.erase r).map Req.conn
  | [], _, h, _ => absurd h (by simp)
  | w :: ws, r, h, hn => by
    have hn := List.nodup_cons.1 hn
    by_cases e : w = r
    · subst e; simp only [List.erase_cons_head]; exact ⟨hn.2, hn.1⟩
    · have hr : r ∈ ws := by
        rcases List.mem_cons.1 h with h | h
        · exact absurd h.symm e
        · exact h
      have ih := erase_conn_nodup ws r hr hn.2
      rw [List.erase_cons_tail (by simpa using e)]
      refine ⟨List.nodup_cons.2 ⟨?_, ih.1⟩, ?_⟩
      · intro hm
        obtain ⟨x, hx, he⟩ := List.mem_map.1 hm
        exact hn.1 (List.mem_map.2 ⟨x, List.mem_of_mem_erase hx, he⟩)
      · intro hm
        rcases List.mem_cons.1 hm with hm | hm
        · exact hn.1 (List.mem_map.2 ⟨r, hr, hm⟩)
        · exact ih.2 hm

theorem step_workersInv {conns : List Nat} {max : Nat} (hc : conns.length ≤ max) {s : Workers.St} (h : WorkersInv conns s)
    (op : Workers.Op) (ho : ∀ r, op = .read r → r.conn ∈ conns) : WorkersInv conns (Workers.step max s op) := by
  cases op with
  | read r =>
    simp only [Workers.step]
    split
    · exact h
    · rename_i hw; exact submit_workersInv hc h (ho r rfl) hw
  | finish r =>
    simp only [Workers.step]
    split
    · exact ⟨h.nodup, h.sub, h.none⟩
    · exact h
  | wake r =>
    simp only [Workers.step]
    split
    · rename_i hr
      obtain ⟨h1, h2⟩ := erase_conn_nodup s.waiting r hr h.nodup
      exact submit_workersInv (s := { s with waiting := s.waiting.erase r }) hc
        ⟨h1, fun w hw => h.sub w (List.mem_of_mem_erase hw), h.none⟩ (h.sub r hr) h2
    · exact h
  | resize n =>
    simp only [Workers.step]
    split
    · exact ⟨h.nodup, h.sub, h.none⟩
    · exact h

theorem run_workersInv {conns : List Nat} {max : Nat} (hc : conns.length ≤ max) : ∀ (ops : List Workers.Op) (s : Workers.St),
    WorkersInv conns s → Spec.From conns ops → WorkersInv conns (Workers.run max s ops)
  | [], _, h, _ => h
  | op :: ops, _, h, hf =>
    run_workersInv hc ops _ (step_workersInv hc h op fun r e => hf r (by rw [e]; exact List.mem_cons_self ..))
      fun r hr => hf r (List.mem_cons_of_mem _ hr)

/-- C99: if the requests come from at most 1024 connections, none is dropped, whatever the size of the pool, however
many requests there are, however long they take and whoever changes the size meanwhile. -/
theorem none_dropped (conns : List Nat) (hc : conns.length ≤ 1024) (n : Nat) (ops : List Workers.Op) (hf : Spec.From conns ops) :
    (Workers.run maxBlocking { size := n } ops).dropped = [] :=
  (run_workersInv (max := maxBlocking) hc ops { size := n } ⟨List.nodup_nil, fun _ h => absurd h (by simp), rfl⟩ hf).none

/-- C99: so, once no request is being handled and no connection waits, the requests that were handled are those that
were read, each once. -/
theorem all_handled (conns : List Nat) (hc : conns.length ≤ 1024) (n : Nat) (ops : List Workers.Op) (hf : Spec.From conns ops)
    (hr : (Workers.run maxBlocking { size := n } ops).running = []) (hw : (Workers.run maxBlocking { size := n } ops).waiting = []) :
    List.Perm (Workers.run maxBlocking { size := n } ops).handled (Spec.reads maxBlocking { size := n } ops) := by
  have h := request_once maxBlocking ops { size := n }
  have hd := none_dropped conns hc n ops hf
  unfold Spec.places at h
  rw [hr, hw, hd] at h
  simpa using h

/-! ## How many are handled at a time -/

theorem largest_ge (n : Nat) (ops : List Workers.Op) : n ≤ Spec.largest n ops := by
  induction ops generalizing n with
  | nil => exact Nat.le_refl _
  | cons op ops ih =>
    unfold Spec.largest at ih ⊢
    simp only [List.foldl_cons]
    refine Nat.le_trans ?_ (ih _)
    split
    · exact Nat.le_max_left _ _
    · exact Nat.le_refl _

theorem submit_running {max : Nat} {s : Workers.St} {r : Workers.Req} {m : Nat} (hm : s.size ≤ m) (h : s.running.length ≤ m) :
    (Workers.submit max s r).running.length ≤ m ∧ (Workers.submit max s r).size ≤ m := by
  unfold Workers.submit
  split
  · simp only [List.length_append, List.length_cons, List.length_nil]; omega
  · split <;> exact ⟨h, hm⟩

/-- C99: at no time more requests are handled than the largest size the pool has had. -/
theorem workers_bounded (max : Nat) (ops : List Workers.Op) (s : Workers.St) (m : Nat) (hm : s.size ≤ m)
    (h : s.running.length ≤ m) : (Workers.run max s ops).running.length ≤ Spec.largest m ops := by
  induction ops generalizing s m with
  | nil => exact h
  | cons op ops ih =>
    show (Workers.run max (Workers.step max s op) ops).running.length ≤ _
    cases op with
    | read r =>
      refine ih _ m ?_ ?_ <;> simp only [Workers.step] <;> split <;>
        first | exact hm | exact h | exact (submit_running hm h).1 | exact (submit_running hm h).2
    | finish r =>
      have := List.length_erase_le (a := r) (l := s.running)
      refine ih _ m ?_ ?_ <;> simp only [Workers.step] <;> split <;>
        first | exact hm | exact h | (dsimp only; omega)
    | wake r =>
      refine ih _ m ?_ ?_ <;> simp only [Workers.step] <;> split <;>
        first
          | exact hm
          | exact h
          | exact (submit_running (s := { s with waiting := s.waiting.erase r }) hm h).1
          | exact (submit_running (s := { s with waiting := s.waiting.erase r }) hm h).2
    | resize n =>
      have h1 : s.size ≤ Nat.max m n.toNat := Nat.le_trans hm (Nat.le_max_left _ _)
      have h2 : s.running.length ≤ Nat.max m n.toNat := Nat.le_trans h (Nat.le_max_left _ _)
      refine ih _ (Nat.max m n.toNat) ?_ ?_ <;> simp only [Workers.step] <;> split <;>
        first | exact h1 | exact h2 | exact Nat.le_max_right _ _

/-- The positive sizes that were asked for, in their order. -/
def Spec.sizes (ops : List Workers.Op) : List Int :=
  (ops.filterMap fun op => match op with | .resize n => some n | _ => none).filter (fun n => decide (0 < n))

/-- C99: the pool has the last positive size asked for, and the first one if there was none. -/
theorem pool_size (max : Nat) (ops : List Workers.Op) (s : Workers.St) :
    ((Workers.run max s ops).size : Int) = (Spec.sizes ops).getLastD s.size := by
  have hs : ∀ (s : Workers.St) r, (Workers.submit max s r).size = s.size := by
    intro s r; unfold Workers.submit; split <;> first | rfl | (split <;> rfl)
  induction ops generalizing s with
  | nil => rfl
  | cons op ops ih =>
    show ((Workers.run max (Workers.step max s op) ops).size : Int) = _
    rw [ih]
    have he : (∀ n, op ≠ .resize n) → (Workers.step max s op).size = s.size ∧ Spec.sizes (op :: ops) = Spec.sizes ops := by
      intro hn
      cases op with
      | read r => exact ⟨by simp only [Workers.step]; split; · rfl
                            · exact hs _ _, rfl⟩
      | finish r => exact ⟨by simp only [Workers.step]; split <;> rfl, rfl⟩
      | wake r => exact ⟨by simp only [Workers.step]; split; · exact hs _ _
                            · rfl, rfl⟩
      | resize n => exact absurd rfl (hn n)
    cases op with
    | resize n =>
      simp only [Workers.step]
      by_cases hn : 0 < n
      · have e : Spec.sizes (.resize n :: ops) = n :: Spec.sizes ops := by simp [Spec.sizes, hn]
        rw [if_pos hn, e, List.getLastD_cons]
        congr 1
        show ((n.toNat : Nat) : Int) = n
        omega
      · have e : Spec.sizes (.resize n :: ops) = Spec.sizes ops := by simp [Spec.sizes, hn]
        rw [if_neg hn, e]
    | _ => obtain ⟨h1, h2⟩ := he (by simp); rw [h1, h2]

/-! ## A request is taken up -/

/-- C99: while a worker is free, a request that is read is handled at once, and so is one with which a connection waits
as soon as it is woken. -/
theorem taken_up (max : Nat) (s : Workers.St) (r : Workers.Req) (h : s.running.length < s.size) :
    (r.conn ∉ s.waiting.map Req.conn → r ∈ (Workers.step max s (.read r)).running) ∧
      (r ∈ s.waiting → r ∈ (Workers.step max s (.wake r)).running) := by
  refine ⟨fun hr => ?_, fun hr => ?_⟩
  · simp only [Workers.step]; rw [if_neg hr]; simp [Workers.submit, h]
  · simp only [Workers.step]; rw [if_pos hr]; simp [Workers.submit, h]

/-! ## With one connection more a request can be lost -/

/-- Connections `0 … k - 1` each read a request. -/
def Spec.eachReads (k : Nat) : List Workers.Op := (List.range k).map fun c => .read ⟨c, 0⟩

theorem eachReads_waiting (max n : Nat) (rs : List Workers.Req) (hr : n ≤ rs.length) (k : Nat) (hk : k ≤ max) :
    Workers.run max { size := n, running := rs } (Spec.eachReads k) =
      { size := n, running := rs, waiting := (List.range k).map fun c => ⟨c, 0⟩ } := by
  induction k with
  | zero => rfl
  | succ k ih =>
    have e : Spec.eachReads (k + 1) = Spec.eachReads k ++ [.read ⟨k, 0⟩] := by
      simp [Spec.eachReads, List.range_succ]
    rw [e, workers_append, ih (by omega), workers_one]
    simp only [Workers.step]
    rw [if_neg (by simp)]
    unfold Workers.submit
    rw [if_neg (Nat.not_lt.2 hr), if_neg (by simp; omega)]
    simp [List.range_succ]

theorem fill_running (max n c : Nat) : ∀ k, k ≤ n →
    Workers.run max { size := n } ((List.range k).map fun i => .read ⟨c, i⟩) =
      { size := n, running := (List.range k).map fun i => ⟨c, i⟩ } := by
  intro k hk
  induction k with
  | zero => rfl
  | succ k ih =>
    rw [List.range_succ, List.map_append, workers_append, ih (by omega), List.map_cons, List.map_nil, workers_one]
    simp only [Workers.step]
    rw [if_neg (by simp)]
    unfold Workers.submit
    rw [if_pos (by simp; omega)]
    simp

theorem drop_state (max n : Nat) :
    Workers.run max { size := n } (((List.range n).map fun i => .read ⟨max, i⟩) ++ (Spec.eachReads max ++ [.read ⟨max, n⟩])) =
      { size := n, running := (List.range n).map fun i => ⟨max, i⟩, waiting := (List.range max).map fun c => ⟨c, 0⟩,
        dropped := [⟨max, n⟩] } := by
  rw [workers_append, fill_running _ _ _ _ (Nat.le_refl n), workers_append,
    eachReads_waiting max n _ (by simp) max (Nat.le_refl _), workers_one]
  simp only [Workers.step]
  rw [if_neg (by simp only [List.map_map, List.mem_map, List.mem_range, Function.comp]; intro ⟨c, h, e⟩; omega)]
  unfold Workers.submit
  rw [if_neg (by simp), if_pos (by simp)]
  rfl

theorem drop_reachable (max n : Nat) :
    ∃ ops, Spec.From (List.range (max + 1)) ops ∧ (Workers.run max { size := n } ops).dropped = [⟨max, n⟩] ∧
      ⟨max, n⟩ ∈ Spec.reads max { size := n } ops := by
  refine ⟨((List.range n).map fun i => .read ⟨max, i⟩) ++ (Spec.eachReads max ++ [.read ⟨max, n⟩]), ?_, ?_, ?_⟩
  · intro r hr
    simp only [Spec.eachReads, List.mem_append, List.mem_map, List.mem_range, List.mem_singleton, Workers.Op.read.injEq] at hr ⊢
    rcases hr with ⟨i, -, e⟩ | ⟨i, hi, e⟩ | e <;> subst e <;> dsimp only <;> omega
  · rw [drop_state]
  · have h := (request_once max _ { size := n }).mem_iff.1 (show (⟨max, n⟩ : Workers.Req) ∈ Spec.places (Workers.run max
        { size := n } (((List.range n).map fun i => .read ⟨max, i⟩) ++ (Spec.eachReads max ++ [.read ⟨max, n⟩]))) by
      rw [drop_state]; simp [Spec.places])
    simpa [Spec.places] using h

/-- C99 fails with 1025 connections, whatever the size of the pool: while the requests of one of them keep all workers
busy the others wait, and its next request is dropped without an answer. (`Submit` returns an error that the loop
ignores.) -/
theorem dropped_violated (n : Nat) :
    ∃ ops, Spec.From (List.range 1025) ops ∧ (Workers.run maxBlocking { size := n } ops).dropped = [⟨1024, n⟩] ∧
      ⟨1024, n⟩ ∈ Spec.reads maxBlocking { size := n } ops :=
  drop_reachable maxBlocking n

/-! ## A case -/

def workersExample : List Workers.Op :=
  [.resize 1, .read ⟨1, 1⟩, .read ⟨2, 2⟩, .read ⟨2, 3⟩, .read ⟨1, 4⟩, .finish ⟨1, 1⟩, .wake ⟨2, 2⟩, .finish ⟨2, 2⟩, .wake ⟨1, 4⟩,
    .finish ⟨1, 4⟩, .resize 0]

/-- One worker and two connections: a request that finds no worker makes its connection wait, and it is handled later. -/
example : (Workers.run maxBlocking {} workersExample).handled = [⟨1, 1⟩, ⟨2, 2⟩, ⟨1, 4⟩] ∧
    (Workers.run maxBlocking {} workersExample).running = [] ∧ (Workers.run maxBlocking {} workersExample).waiting = [] ∧
    Spec.From [1, 2] workersExample ∧ Spec.reads maxBlocking {} workersExample = [⟨1, 1⟩, ⟨2, 2⟩, ⟨1, 4⟩] := by
  refine ⟨by decide +kernel, by decide +kernel, by decide +kernel, ?_, by decide +kernel⟩
  intro r hr
  simp [workersExample] at hr
  rcases hr with rfl | rfl | rfl | rfl <;> simp

end Motan.Props
