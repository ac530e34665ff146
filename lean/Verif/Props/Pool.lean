import Verif.Model.Pool

/-!
# C47: pooled requests and responses carry nothing over
-/

namespace Motan.Props

open Pool (Ctx Req Res HttpRes Msg)

variable {V : Type}

/-- A context as good as new, but for the asynchronous flag and the time stamps. -/
def Spec.CleanCtx (c : Ctx V) : Prop :=
  c.extFactory = none ∧ c.originalMessage = none ∧ c.oneway = false ∧ c.proxy = false ∧ c.gzipSize = 0 ∧ c.bodySize = 0 ∧
  c.serializeNum = 0 ∧ c.serialized = false ∧ c.result = none ∧ c.reply = none ∧ c.finishHandlers = [] ∧ c.tc = none ∧
  c.isMotanV1 = false ∧ c.remoteAddr = []

/-- A request that shows nothing of a call before. -/
def Spec.CleanReq (r : Req V) : Prop :=
  r.requestID = 0 ∧ r.serviceName = [] ∧ r.method = [] ∧ r.methodDesc = [] ∧ r.arguments = [] ∧ r.attachment = none ∧
  ∃ c, r.rpcContext = some c ∧ Spec.CleanCtx c

/-- A response that shows nothing of a call before. -/
def Spec.CleanRes (r : Res V) : Prop :=
  r.requestID = 0 ∧ r.value = none ∧ r.exception = none ∧ r.processTime = 0 ∧ r.attachment = none ∧
  ∃ c, r.rpcContext = some c ∧ Spec.CleanCtx c

/-- A message that shows nothing of a message before, but for its encoding buffer. -/
def Spec.CleanMsg (m : Msg) : Prop :=
  m.magic = 0 ∧ m.msgType = 0 ∧ m.versionStatus = 0 ∧ m.serialize = 0 ∧ m.requestID = 0 ∧ m.metadata = [] ∧ m.body = [] ∧
  m.type = 0 ∧ m.canRelease = false

/-- What `Get` may return in a state: an object of the pool, or a new one. -/
def Spec.Gets {α : Type} (new : α) (s : Pool.St α) (i : Nat) (x : α) : Prop :=
  (i ∈ s.free ∧ s.objs[i]? = some x) ∨ (i = s.objs.length ∧ x = new)

/-! ## The pool -/

structure PoolInv {α : Type} (Clean : α → Prop) (s : Pool.St α) : Prop where
  nodup : (s.free ++ s.held).Nodup
  bound : ∀ i ∈ s.free ++ s.held, i < s.objs.length
  clean : ∀ i ∈ s.free, ∀ x, s.objs[i]? = some x → Clean x

theorem poolInv_step {α : Type} {Clean : α → Prop} {new : α} {reset : α → Option α}
    (hreset : ∀ a b, reset a = some b → Clean b) {s : Pool.St α} (h : PoolInv Clean s) (op : Pool.Op α) :
    PoolInv Clean (Pool.step new reset s op) := by
  obtain ⟨hn, hb, hc⟩ := h
  rw [List.nodup_append] at hn
  obtain ⟨hf, hh, hd⟩ := hn
  cases op with
  | make =>
    refine ⟨?_, ?_, ?_⟩
    · refine List.nodup_append.mpr ⟨hf, List.nodup_cons.mpr ⟨fun hm => ?_, hh⟩, ?_⟩
      · exact Nat.lt_irrefl _ (hb _ (List.mem_append_right _ hm))
      · intro a ha b hb' e
        rcases List.mem_cons.mp hb' with rfl | hb'
        · exact Nat.lt_irrefl _ (e ▸ hb _ (List.mem_append_left _ ha))
        · exact hd a ha b hb' e
    · intro i hi
      simp only [Pool.step, List.length_append, List.length_singleton]
      rcases List.mem_append.mp hi with hi | hi
      · exact Nat.lt_succ_of_lt (hb i (List.mem_append_left _ hi))
      · rcases List.mem_cons.mp hi with rfl | hi
        · exact Nat.lt_succ_self _
        · exact Nat.lt_succ_of_lt (hb i (List.mem_append_right _ hi))
    · intro i hi x hx
      simp only [Pool.step] at hx
      rw [List.getElem?_append_left (hb i (List.mem_append_left _ hi))] at hx
      exact hc i hi x hx
  | take i =>
    rw [Pool.step]
    split
    · rename_i hi
      refine ⟨List.nodup_append.mpr ⟨hf.erase i, List.nodup_cons.mpr ⟨fun hm => hd i hi i hm rfl, hh⟩, ?_⟩, ?_, ?_⟩
      · intro a ha b hb' e
        rcases List.mem_cons.mp hb' with rfl | hb'
        · exact (hf.mem_erase_iff.mp ha).1 e
        · exact hd a (List.mem_of_mem_erase ha) b hb' e
      · intro j hj
        rcases List.mem_append.mp hj with hj | hj
        · exact hb j (List.mem_append_left _ (List.mem_of_mem_erase hj))
        · rcases List.mem_cons.mp hj with rfl | hj
          · exact hb j (List.mem_append_left _ hi)
          · exact hb j (List.mem_append_right _ hj)
      · intro j hj x hx
        exact hc j (List.mem_of_mem_erase hj) x hx
    · exact ⟨List.nodup_append.mpr ⟨hf, hh, hd⟩, hb, hc⟩
  | write i f =>
    rw [Pool.step]
    split
    · rename_i hi
      refine ⟨List.nodup_append.mpr ⟨hf, hh, hd⟩, fun j hj => ?_, fun j hj x hx => ?_⟩
      · simp only [List.length_modify]; exact hb j hj
      · simp only [List.getElem?_modify] at hx
        have hne : ¬ i = j := fun e => hd j hj i hi e.symm
        simp only [if_neg hne] at hx
        exact hc j hj x (by simpa using hx)
    · exact ⟨List.nodup_append.mpr ⟨hf, hh, hd⟩, hb, hc⟩
  | put i =>
    rw [Pool.step]
    split
    · rename_i hi
      split
      · refine ⟨List.nodup_append.mpr ⟨hf, hh.erase i, fun a ha b hb' => hd a ha b (List.mem_of_mem_erase hb')⟩, ?_, hc⟩
        intro j hj
        rcases List.mem_append.mp hj with hj | hj
        · exact hb j (List.mem_append_left _ hj)
        · exact hb j (List.mem_append_right _ (List.mem_of_mem_erase hj))
      · rename_i y hy
        obtain ⟨a, _, ha⟩ := Option.bind_eq_some_iff.mp hy
        have hy := hreset a y ha
        refine ⟨List.nodup_append.mpr ⟨List.nodup_cons.mpr ⟨fun hm => hd i hm i hi rfl, hf⟩, hh.erase i, ?_⟩, ?_, ?_⟩
        · intro b hb' c hc' e
          rcases List.mem_cons.mp hb' with rfl | hb'
          · exact (hh.mem_erase_iff.mp hc').1 e.symm
          · exact hd b hb' c (List.mem_of_mem_erase hc') e
        · intro j hj
          simp only [List.length_set]
          rcases List.mem_append.mp hj with hj | hj
          · rcases List.mem_cons.mp hj with rfl | hj
            · exact hb j (List.mem_append_right _ hi)
            · exact hb j (List.mem_append_left _ hj)
          · exact hb j (List.mem_append_right _ (List.mem_of_mem_erase hj))
        · intro j hj x hx
          simp only [List.getElem?_set] at hx
          split at hx
          · split at hx
            · cases hx; exact hy
            · cases hx
          · rename_i hne
            exact hc j ((List.mem_cons.mp hj).resolve_left (Ne.symm hne)) x hx
    · exact ⟨List.nodup_append.mpr ⟨hf, hh, hd⟩, hb, hc⟩
  | forget i =>
    rw [Pool.step]
    refine ⟨List.nodup_append.mpr ⟨hf.erase i, hh, fun a ha b hb' => hd a (List.mem_of_mem_erase ha) b hb'⟩, ?_, ?_⟩
    · intro j hj
      rcases List.mem_append.mp hj with hj | hj
      · exact hb j (List.mem_append_left _ (List.mem_of_mem_erase hj))
      · exact hb j (List.mem_append_right _ hj)
    · intro j hj x hx
      exact hc j (List.mem_of_mem_erase hj) x hx

theorem poolInv_run {α : Type} {Clean : α → Prop} {new : α} {reset : α → Option α}
    (hreset : ∀ a b, reset a = some b → Clean b) (ops : List (Pool.Op α)) : PoolInv Clean (Pool.run new reset ops) := by
  have gen : ∀ (ops : List (Pool.Op α)) s, PoolInv Clean s → PoolInv Clean (ops.foldl (Pool.step new reset) s) := by
    intro ops
    induction ops with
    | nil => intro s h; exact h
    | cons op ops ih => intro s h; exact ih _ (poolInv_step hreset h op)
  exact gen ops _ ⟨List.nodup_nil, (fun i hi => by cases hi), fun i hi => by cases hi⟩

/-- What `Get` returns is clean, and nobody else holds it, if `Reset` cleans. -/
theorem pool_gets_clean {α : Type} {Clean : α → Prop} {new : α} {reset : α → Option α} (hnew : Clean new)
    (hreset : ∀ a b, reset a = some b → Clean b) (ops : List (Pool.Op α)) {i : Nat} {x : α}
    (h : Spec.Gets new (Pool.run new reset ops) i x) : Clean x ∧ i ∉ (Pool.run new reset ops).held := by
  have inv := poolInv_run (new := new) hreset ops
  rcases h with ⟨hi, hx⟩ | ⟨rfl, rfl⟩
  · exact ⟨inv.clean i hi x hx, fun hm => (List.nodup_append.mp inv.nodup).2.2 i hi i hm rfl⟩
  · exact ⟨hnew, fun hm => Nat.lt_irrefl _ (inv.bound _ (List.mem_append_right _ hm))⟩

/-! ## The objects -/

theorem ctx_reset_clean (c : Ctx V) : Spec.CleanCtx c.reset :=
  ⟨rfl, rfl, rfl, rfl, rfl, rfl, rfl, rfl, rfl, rfl, rfl, rfl, rfl, rfl⟩

/-- C47: after any history of the pool, a request it returns shows nothing of any call before and is nobody else's. -/
theorem acquired_request_clean (ops : List (Pool.Op (Req V))) {i : Nat} {r : Req V}
    (h : Spec.Gets Req.new (Pool.run Req.new Req.reset ops) i r) :
    Spec.CleanReq r ∧ i ∉ (Pool.run Req.new Req.reset ops).held := by
  refine pool_gets_clean ⟨rfl, rfl, rfl, rfl, rfl, rfl, _, rfl, rfl, rfl, rfl, rfl, rfl, rfl, rfl, rfl, rfl, rfl, rfl, rfl, rfl, rfl⟩
    (fun a b hab => ?_) ops h
  rw [Req.reset] at hab
  split at hab
  · cases hab
  · cases hab
    exact ⟨rfl, rfl, rfl, rfl, rfl, rfl, _, rfl, ctx_reset_clean _⟩

theorem res_reset_clean {a b : Res V} (hab : a.reset = some b) : Spec.CleanRes b := by
  rw [Res.reset] at hab
  split at hab
  · cases hab
  · cases hab
    exact ⟨rfl, rfl, rfl, rfl, rfl, _, rfl, ctx_reset_clean _⟩

/-- C47: the same of responses. -/
theorem acquired_response_clean (ops : List (Pool.Op (Res V))) {i : Nat} {r : Res V}
    (h : Spec.Gets Res.new (Pool.run Res.new Res.reset ops) i r) :
    Spec.CleanRes r ∧ i ∉ (Pool.run Res.new Res.reset ops).held :=
  pool_gets_clean ⟨rfl, rfl, rfl, rfl, rfl, _, rfl, rfl, rfl, rfl, rfl, rfl, rfl, rfl, rfl, rfl, rfl, rfl, rfl, rfl, rfl⟩
    (fun _ _ hab => res_reset_clean hab) ops h

/-- C47: the same of the responses of the HTTP provider. -/
theorem acquired_http_response_clean (ops : List (Pool.Op (HttpRes V))) {i : Nat} {r : HttpRes V}
    (h : Spec.Gets HttpRes.new (Pool.run HttpRes.new HttpRes.reset ops) i r) :
    (Spec.CleanRes r.base ∧ r.httpResponse = none) ∧ i ∉ (Pool.run HttpRes.new HttpRes.reset ops).held := by
  refine pool_gets_clean (Clean := fun r : HttpRes V => Spec.CleanRes r.base ∧ r.httpResponse = none)
    ⟨⟨rfl, rfl, rfl, rfl, rfl, _, rfl, rfl, rfl, rfl, rfl, rfl, rfl, rfl, rfl, rfl, rfl, rfl, rfl, rfl, rfl⟩, rfl⟩
    (fun a b hab => ?_) ops h
  rw [HttpRes.reset] at hab
  obtain ⟨c, hc, rfl⟩ := Option.map_eq_some_iff.mp hab
  exact ⟨res_reset_clean hc, rfl⟩

/-- C47: the same of messages, but for the encoding buffer. -/
theorem acquired_message_clean (ops : List (Pool.Op Msg)) {i : Nat} {m : Msg}
    (h : Spec.Gets Msg.new (Pool.run Msg.new Msg.reset ops) i m) :
    Spec.CleanMsg m ∧ i ∉ (Pool.run Msg.new Msg.reset ops).held := by
  refine pool_gets_clean ⟨rfl, rfl, rfl, rfl, rfl, rfl, rfl, rfl, rfl⟩ (fun a b hab => ?_) ops h
  rw [Msg.reset] at hab
  split at hab
  · cases hab; exact ⟨rfl, rfl, rfl, rfl, rfl, rfl, rfl, rfl, rfl⟩
  · cases hab

/-- A message still to be sent is not put back. -/
theorem unsent_message_kept {m : Msg} (h : m.canRelease = false) : m.reset = none := by
  rw [Msg.reset, if_neg (by rw [h]; decide)]

/-- One call with a name, an argument and an attachment, its release, and what the next one gets. -/
example :
    let s := Pool.run (α := Req Nat) Req.new Req.reset
      [.make, .write 0 fun r => { r with method := b!"m", arguments := [7], attachment := some [(b!"k", b!"v")] }, .put 0]
    s.free = [0] ∧ s.objs[0]?.map (fun r => (r.method, r.arguments, r.attachment.isSome)) = some ([], [], false) := by
  decide +kernel

/-- C47, exhibited: the asynchronous flag and the time stamps of a call are still there in the next. -/
theorem async_flag_survives_violated :
    let s := Pool.run (α := Req Nat) Req.new Req.reset
      [.make, .write 0 fun r => { r with rpcContext := r.rpcContext.map fun c =>
        { c with asyncCall := true, requestSendTime := 5, requestReceiveTime := 6, responseSendTime := 7, responseReceiveTime := 8 } },
       .put 0, .take 0]
    s.held = [0] ∧ s.objs[0]?.bind (fun r => r.rpcContext.map fun c =>
      (c.asyncCall, c.requestSendTime, c.requestReceiveTime, c.responseSendTime, c.responseReceiveTime)) =
        some (true, 5, 6, 7, 8) := by
  decide +kernel

/-- C47, exhibited: the encoding of a message is still there in the next, until that is encoded. -/
theorem encoding_survives_violated :
    let s := Pool.run Msg.new Msg.reset
      [.make, .write 0 fun m => { m with bytesBuffer := some b!"old", canRelease := true }, .put 0, .take 0]
    s.held = [0] ∧ s.objs[0]?.bind Msg.bytesBuffer = some b!"old" := by
  decide +kernel

end Motan.Props
