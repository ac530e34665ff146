import Verif.Model.Reply
import Verif.Props.Rotation

/-!
# C109 After a call the reply holds the answer
-/

namespace Motan.Props

open Convert (Lib Request Response Err Arg simpleSer convertToResMessage)
open Motan2 (Reusable encode)
open Simple (Val Hint Ty assign norm)
open Server (finishRes)
open Call
open Retry (Round requestAt Net)
open Reply (stored storedAt contentAfter baseCall)

namespace Spec

/-- What a variable of type `t` holds after the value `v` has been read into it: the value, if it is of this type (an `int`
and an `int64` are read into each other, a string also into a byte slice). Nothing is read from a null, from an empty map or
slice, or from a value of another type. -/
def readInto : Ty → Val → Option Val
  | .bytes, .str s => some (.bytes s)
  | .int, .i64 n => some (.int n)
  | .i64, .int n => some (.i64 n)
  | t, v => if typeOf v = t ∧ t ≠ .other ∧ emptyContainer v = false then some (viaPointer v) else none

end Spec

theorem assign_readInto (t : Ty) (v : Val) (h : ∀ s, v = .str s → t ≠ .bytes) : assign t (norm v) = Spec.readInto t v := by
  by_cases hty : typeOf v = t
  · by_cases ho : t = .other
    · subst ho
      cases v <;> simp [typeOf] at hty <;> simp [assign, Spec.readInto, norm]
    · have hn : v ≠ .null := by rintro rfl; exact ho hty.symm
      have ho' : v ≠ .other := by rintro rfl; exact ho hty.symm
      cases he : emptyContainer v with
      | false =>
        subst hty
        rw [assign_typeOf v hn ho' he]
        cases v <;> simp [Spec.readInto, typeOf, viaPointer, norm, emptyContainer] at *
        all_goals exact he
      | true =>
        subst hty
        cases v <;> simp [emptyContainer] at he <;> subst he <;> simp [assign, Spec.readInto, typeOf, norm, emptyContainer, Simple.normP, Simple.normL]
  · cases v <;> cases t <;> simp [typeOf] at hty <;> simp [assign, Spec.readInto, norm, typeOf] at h ⊢

/-- A value written and read into a variable of type `t`. -/
theorem simple_readInto (size : Nat) (v : Val) (t : Ty) (hsup : Simple.supported v = true) (hst : Simple.storable v = true)
    (hlen : ∀ bs, Simple.serialize size v = .ok bs → bs.length < 2 ^ 32) :
    ∃ bs w, Simple.serialize size v = .ok bs ∧ bs ≠ [] ∧
      Simple.deSerialize bs (.ptr t) = .ok (w, Spec.readInto t v) := by
  by_cases h : ∃ s, v = .str s ∧ t = .bytes
  · obtain ⟨s, rfl, rfl⟩ := h
    obtain ⟨b, hb⟩ := (supported_serialize (.new size .big) (.str s)).1 rfl
    have hser : Simple.serialize size (.str s) = .ok b.bytes := by rw [Simple.serialize, hb]
    have w := serialize_wire hser hst (hlen _ hser)
    have hl : s.length + 5 < 2 ^ 32 := by
      have h1 := hlen _ hser
      have h2 : b.bytes = 1 :: Simple.lp s := by
        simp only [norm] at w
        generalize b.bytes = bb at w
        cases w; rfl
      have h3 : (Simple.lp s).length = s.length + 4 := by simp [Simple.lp]; omega
      rw [h2, List.length_cons, h3] at h1
      omega
    obtain ⟨bs, h1, h2, -⟩ := simple_string_as_bytes size s hl
    refine ⟨bs, _, h1, ?_, h2⟩
    rw [hser] at h1
    cases h1
    intro h0
    have := Simple.wire_ne_nil w
    rw [h0] at this; exact absurd this (by decide)
  · have h' : ∀ s, v = .str s → t ≠ .bytes := fun s e1 e2 => h ⟨s, e1, e2⟩
    obtain ⟨b, hb⟩ := (supported_serialize (.new size .big) v).1 hsup
    have hser : Simple.serialize size v = .ok b.bytes := by rw [Simple.serialize, hb]
    have w := serialize_wire hser hst (hlen _ hser)
    have hpos := Simple.wire_ne_nil w
    refine ⟨b.bytes, norm v, hser, by intro h0; rw [h0] at hpos; exact absurd hpos (by decide), ?_⟩
    rw [Simple.deSerialize, if_neg (by omega), Simple.deSerializeHint]
    have hd := deSerializeBuf_wire (tl := []) (create_full b.bytes) rfl w (by simp [create_rest])
    cases hbytes : b.bytes with
    | nil => rw [hbytes] at hpos; simp at hpos
    | cons c tl =>
      rw [hbytes] at hd w
      rw [BytesBuffer.readByte_rest (c := c) (tl := tl) (by rw [create_rest])]
      simp only []
      rw [if_neg]
      · simp [hd, Except.map, assign_readInto t v h']
      · rintro ⟨hc, hh⟩
        simp only [Hint.ptr.injEq, reduceCtorEq, false_or] at hh
        have hv : ∃ s, norm v = .str s := by
          have hc' : c = 1 := hc
          clear hd hc
          subst hc'
          generalize norm v = nv at w
          cases w
          exact ⟨_, rfl⟩
        obtain ⟨s, hs⟩ := hv
        cases v <;> simp [norm] at hs
        exact h' _ rfl hh

/-- The exchange with a server: the handler is given the caller's request, and this is what the client finds in the answer. -/
theorem exchange_answer {p : Peer} {ep : Ep} {streamId : UInt64} {req : Request} {vs : List Val}
    (hp : Spec.PlainCall p ep streamId req vs) (buf : Option BytesBuffer) (hr : Reusable buf) (hpb : Reusable p.buf)
    (maxLen : Nat) (h32 : maxLen < 2 ^ 32) (errText : Err → Bytes) :
    ∃ r, Spec.Sees ep p.ip streamId req vs r ∧
      (∀ res, p.handler r = .returned (some res) → Spec.Answerable p maxLen res.r →
        ∃ got, exchange p errText ep maxLen buf streamId req = .answered (.v2 got) ∧
          (notify p.env.lib ep req (.v2 got)).exception = res.r.exception ∧
          (res.r.exception.isSome = true ∨ res.r.value = none → (notify p.env.lib ep req (.v2 got)).value = none) ∧
          ∀ v, res.r.exception = none → res.r.value = some (.val v) → ∃ bs, Simple.serialize 2048 v = .ok bs ∧
            (notify p.env.lib ep req (.v2 got)).value = some (.deser bs (some simpleSer))) ∧
      (p.handler r = .panicked → exchange p errText ep maxLen buf streamId req = .failed b!"timeout") := by
  obtain ⟨msg, got, r, h1, h2, h3, h4, h5, h6, h7⟩ := request_arrives hp buf hr
  have hex : exchange p errText ep maxLen buf streamId req =
      match p.handler r with
      | .panicked => .failed b!"timeout"
      | .returned res => receive maxLen streamId (encode p.buf
          (Server.withId (Server.answerMessage p.env (some simpleSer) p.pt streamId res) streamId)) := by
    rw [exchange, h1]
    simp only [h2, Server.process]
    rw [processV2_call h3, h5, hp.registered, h6, h4]
    simp only
    cases p.handler r <;> rfl
  refine ⟨r, h7, ?_, ?_⟩
  · intro res hres ha
    rw [hres] at hex
    simp only [Server.answerMessage, hp.server] at hex
    obtain ⟨f1, f2, f3, f4, f5, f6, -⟩ := finishRes_facts false p.pt res.r
    have hrel : ¬ Relayed (finishRes false p.pt res.r).rc := by rintro ⟨h, -⟩; rw [f4] at h; cases h
    have hs : (Convert.exceptionRC (finishRes false p.pt res.r)).serialized = false := by
      rw [exceptionRC_serialized, effSerialized, f3, f4, ha.raw]; simp
    have hbody : ∃ bs, Convert.responseBody (some simpleSer) (Convert.exceptionRC (finishRes false p.pt res.r))
        (finishRes false p.pt res.r).value = .ok bs := by
      rw [f2, Convert.responseBody.eq_def]
      cases hv : res.r.value with
      | none => exact ⟨_, rfl⟩
      | some x =>
        obtain ⟨v, rfl, v2, v3, v4⟩ := ha.value x hv
        obtain ⟨bs, b1, -⟩ := simple_value v v2 v3 v4
        simp only [hs, Bool.false_eq_true, if_false]
        have b1' : simpleSer.serialize (Arg.toVal (.val v)) = .ok bs := b1
        rw [b1']
        exact ⟨bs, rfl⟩
    obtain ⟨m0, hm0⟩ : ∃ m0, convertToResMessage p.env.lib (some simpleSer) (finishRes false p.pt res.r) = .ok m0 := by
      rw [convertToResMessage_fresh _ _ _ hrel]
      obtain ⟨bs, hb⟩ := hbody
      rw [Convert.serialNum.eq_def, hs]
      simp only [Bool.false_eq_true, if_false, hb]
      exact ⟨_, rfl⟩
    rw [hm0] at hex
    simp only at hex
    obtain ⟨got2, body, a1, a2, a3, a4, -⟩ := answer_arrives hp.gzip hp.client hp.serialization req (f4) (f6 ha.attachments)
      (by intro e he; rw [f1] at he; exact ha.exception e he) hm0 streamId p.buf hpb maxLen (ha.fits m0 hm0) h32
    rw [a1] at hex
    rw [f1] at a3 a4
    rw [f2, f3] at a2
    refine ⟨got2, hex, a3, ?_, ?_⟩
    · rintro (h | h)
      · rw [a4, if_pos (.inl h)]
      · rw [h] at a2
        cases a2 with
        | none _ => rw [a4, if_pos (.inr rfl)]
        | raw b _ hb => cases hb
        | enc s v b _ hb => cases hb
    · intro v he hv
      obtain ⟨v', e', v2, v3, v4⟩ := ha.value _ hv
      simp only [Arg.val.injEq] at e'
      subst e'
      obtain ⟨bs, b1, b2, -⟩ := simple_value v v2 v3 v4
      have hbs : body = bs := by
        rw [hv] at a2
        cases a2 with
        | none hb => cases hb
        | raw b hb _ => rw [ha.raw] at hb; cases hb
        | enc s w b _ hb hs hd =>
          simp only [Option.some.injEq] at hb hs
          subst hb; subst hs
          have hd' : Simple.serialize 2048 v = .ok body := hd
          rw [b1] at hd'
          simpa using hd'.symm
      subst hbs
      refine ⟨body, b1, ?_⟩
      rw [a4, if_neg]
      rintro (h | h)
      · rw [he] at h; cases h
      · exact b2 h
  · intro hpan
    rw [hpan] at hex
    exact hex

private theorem finish_exception {errText : Err → Bytes} {ep : Ep} {req : Request} {reply : Hint} {r : Response} {bs : Bytes}
    {x : Val × Option Val} (hp : ep.proxy = false) (hv : r.value = some (.deser bs (some simpleSer)))
    (hd : Simple.deSerialize bs reply = .ok x) : (finish errText ep req reply r).exception = r.exception := by
  have : r.processDeserializable reply = .ok { r with value := some (.val x.1) } := by
    unfold Convert.Response.processDeserializable
    rw [hv]
    have hd' : simpleSer.deSerialize bs reply = .ok x := hd
    simp only [hd']
  rw [finish, hp, this]
  rfl

private theorem reply_fails {lib : Lib} {errText : Err → Bytes} {version : Nat → Int} {req : Request} {vs : List Val} {reply : Hint}
    (hn : req.rc.original = none) {rounds : Nat → Round} {k : Nat} (hc : Spec.Callable lib req vs rounds k)
    (hf : Spec.RoundFails req vs (rounds k)) :
    Spec.Failed (Reply.resultAt lib errText version req reply rounds k).resp ∧
    storedAt lib errText req reply rounds k = none := by
  cases hs : (rounds k).net with
  | down c =>
    rw [Spec.RoundFails, hs] at hf
    rw [Reply.resultAt, storedAt, Round.chan, hs]
    cases c with
    | null => exact ⟨⟨_, rfl, by decide⟩, rfl⟩
    | refused => exact ⟨⟨_, rfl, by decide⟩, rfl⟩
    | failed err => exact ⟨⟨_, rfl, by show (1 : Int) ≠ 2; decide⟩, rfl⟩
    | answered got => exact absurd rfl (hf got)
  | server p buf maxLen =>
    obtain ⟨c1, c2, c3, c4, c5, c6⟩ := hc p buf maxLen hs
    subst c2
    rw [Spec.RoundFails, hs] at hf
    obtain ⟨r, h1, h2, h3⟩ := exchange_answer (plain_tried c1 hn _ c6) buf c3 c4 maxLen c5 errText
    rw [Reply.resultAt, storedAt, Round.chan, hs]
    simp only [requestAt]
    rcases hf r (sees_tried _ hn _ h1) with g | ⟨res, g1, g2, e, g3, g4⟩
    · rw [h3 g]
      exact ⟨⟨_, rfl, by show (1 : Int) ≠ 2; decide⟩, rfl⟩
    · obtain ⟨got, a1, a2, a3, -⟩ := h2 res g1 g2
      have hv := a3 (.inl (by rw [g3]; rfl))
      rw [a1]
      refine ⟨⟨e, ?_, g4⟩, ?_⟩
      · rw [call_of_answered.1, finish_noValue _ _ _ _ _ hv, a2, g3]
      · rw [stored, hv]; split <;> rfl

private theorem reply_answers {lib : Lib} {errText : Err → Bytes} {version : Nat → Int} {req : Request} {vs : List Val} {t : Ty}
    (hn : req.rc.original = none) {rounds : Nat → Round} {k : Nat} (hc : Spec.Callable lib req vs rounds k)
    {p : Peer} {buf : Option Motan.BytesBuffer} {maxLen : Nat} (hs : (rounds k).net = .server p buf maxLen) :
    ∃ r, Spec.Sees (rounds k).ep p.ip (rounds k).streamId req vs r ∧
      ∀ res, p.handler r = .returned (some res) → Spec.Answerable p maxLen res.r →
        (Reply.resultAt lib errText version req (.ptr t) rounds k).resp.exception = res.r.exception ∧
        (res.r.exception.isSome = true ∨ res.r.value = none → storedAt lib errText req (.ptr t) rounds k = none) ∧
        ∀ v, res.r.exception = none → res.r.value = some (.val v) →
          storedAt lib errText req (.ptr t) rounds k = Spec.readInto t v := by
  obtain ⟨c1, c2, c3, c4, c5, c6⟩ := hc p buf maxLen hs
  subst c2
  obtain ⟨r, h1, h2, -⟩ := exchange_answer (plain_tried c1 hn _ c6) buf c3 c4 maxLen c5 errText
  refine ⟨r, sees_tried _ hn _ h1, ?_⟩
  intro res g1 g2
  obtain ⟨got, a1, a2, a3, a4⟩ := h2 res g1 g2
  rw [Reply.resultAt, storedAt, Round.chan, hs]
  simp only [requestAt]
  rw [a1, call_of_answered.1]
  have hval : ∀ v, res.r.exception = none → res.r.value = some (.val v) → ∃ bs w,
      (notify p.env.lib (rounds k).ep (Retry.tried p.env.lib req (List.map (fun i => (rounds i).attempt) (List.range k))) (.v2 got)).value
        = some (.deser bs (some simpleSer)) ∧ Simple.deSerialize bs (.ptr t) = .ok (w, Spec.readInto t v) := by
    intro v he hv
    obtain ⟨bs, b1, b2⟩ := a4 v he hv
    obtain ⟨v', e', v2, v3, v4⟩ := g2.value _ hv
    simp only [Arg.val.injEq] at e'
    subst e'
    obtain ⟨bs', w, d1, -, d3⟩ := simple_readInto 2048 v t v2 v3 v4
    rw [b1] at d1
    cases d1
    exact ⟨bs, w, b2, d3⟩
  refine ⟨?_, ?_, ?_⟩
  · by_cases h : res.r.exception.isSome = true ∨ res.r.value = none
    · rw [finish_noValue _ _ _ _ _ (a3 h), a2]
    · simp only [not_or] at h
      have he : res.r.exception = none := by
        cases hx : res.r.exception with
        | none => rfl
        | some e => rw [hx] at h; exact absurd rfl h.1
      obtain ⟨x, hx⟩ := Option.ne_none_iff_exists'.mp h.2
      obtain ⟨v, rfl, -⟩ := g2.value x hx
      obtain ⟨bs, w, d1, d2⟩ := hval v he hx
      rw [finish_exception c1.client d1 d2, a2]
  · intro h
    rw [stored, a3 h]; split <;> rfl
  · intro v he hv
    obtain ⟨bs, w, d1, d2⟩ := hval v he hv
    rw [stored, c1.client, d1]
    have d2' : simpleSer.deSerialize bs (.ptr t) = .ok (w, Spec.readInto t v) := d2
    simp only [Bool.false_eq_true, if_false, d2']

private theorem content_none {lib : Lib} {errText : Err → Bytes} {req : Request} {reply : Hint} {rounds : Nat → Round} (c : Val) :
    ∀ n, (∀ j, j < n → storedAt lib errText req reply rounds j = none) →
      contentAfter lib errText req reply rounds c n = c := by
  intro n
  induction n with
  | zero => intro _; rfl
  | succ n ih =>
    intro h
    rw [contentAfter, h n (Nat.lt_succ_self n), ih fun j hj => h j (by omega)]
    rfl

/-- **C109.** A client calls through failover with a variable of type `t` for the reply. The first `k` servers asked fail, and
the handler of the next one answers, with a value or with a business exception. Then the call of the client ends without an
error exactly if the handler gave a value, and with the handler's message otherwise; the variable holds the handler's value
afterwards, and what it held before if there is none or none that can be read into it. -/
theorem client_reply {lib : Lib} (errText : Err → Bytes) (version : Nat → Int) (u : Url.URL) {req : Request}
    {vs : List Simple.Val} (t : Ty) (c : Val) (hn : req.rc.original = none) (rounds : Nat → Round) {k n : Nat}
    (hr : Ha.failoverRetries u req.method req.desc = n) (hkn : k ≤ n)
    (hc : ∀ j, j ≤ k → Spec.Callable lib req vs rounds j)
    (hf : ∀ j, j < k → Spec.RoundFails req vs (rounds j))
    {p : Peer} {buf : Option Motan.BytesBuffer} {maxLen : Nat} (hs : (rounds k).net = .server p buf maxLen)
    (ha : ∀ r, Spec.Sees (rounds k).ep p.ip (rounds k).streamId req vs r →
      ∃ res, p.handler r = .returned (some res) ∧ Spec.Answerable p maxLen res.r ∧ ¬ Spec.Failed res.r) :
    ∃ r res, Spec.Sees (rounds k).ep p.ip (rounds k).streamId req vs r ∧ p.handler r = .returned (some res) ∧
      (∀ e, res.r.exception = some e → baseCall lib errText version u req (.ptr t) rounds c = (some e.errMsg, c)) ∧
      (∀ v, res.r.exception = none → res.r.value = some (.val v) →
        baseCall lib errText version u req (.ptr t) rounds c = (none, (Spec.readInto t v).getD c)) ∧
      (res.r.exception = none → res.r.value = none → baseCall lib errText version u req (.ptr t) rounds c = (none, c)) := by
  obtain ⟨r, h1, h2⟩ := reply_answers (errText := errText) (version := version) (t := t) hn (hc k (Nat.le_refl _)) hs
  obtain ⟨res, g1, g2, g3⟩ := ha r h1
  obtain ⟨e1, e2, e3⟩ := h2 res g1 g2
  have hgood : Spec.GoodResponse (Reply.resultAt lib errText version req (.ptr t) rounds k).resp := by
    cases he : res.r.exception with
    | none => exact .inl (e1.trans he)
    | some e => exact .inr ⟨e, e1.trans he, Classical.byContradiction fun h => g3 ⟨e, he, h⟩⟩
  have hfail : ∀ j, j < k → _ := fun j hj =>
    reply_fails (errText := errText) (version := version) (reply := .ptr t) hn (hc j (Nat.le_of_lt hj)) (hf j hj)
  have hx : Reply.failover lib errText version u req (.ptr t) rounds
      = ((Reply.resultAt lib errText version req (.ptr t) rounds k).resp, (List.range (k + 1)).map fun j => (rounds j).ep) :=
    failover_first u req.method req.desc req.id _ (fun j => (rounds j).ep)
      (fun j => (Reply.resultAt lib errText version req (.ptr t) rounds j).resp) hr hkn (fun _ _ => rfl) hgood
      fun j hj => not_good (hfail j hj).1
  have hb : baseCall lib errText version u req (.ptr t) rounds c
      = (res.r.exception.map (·.errMsg), (storedAt lib errText req (.ptr t) rounds k).getD c) := by
    rw [baseCall, hx]
    simp only [e1, List.length_map, List.length_range, contentAfter]
    rw [content_none c k fun j hj => (hfail j hj).2]
  refine ⟨r, res, h1, g1, ?_, ?_, ?_⟩
  · intro e he
    rw [hb, e2 (.inl (by rw [he]; rfl)), he]; rfl
  · intro v he hv
    rw [hb, e3 v he hv, he]; rfl
  · intro he hv
    rw [hb, e2 (.inr hv), he]; rfl

/-- **C109.** If all servers asked fail the call ends with an error and the variable holds what it held before. -/
theorem client_reply_fails {lib : Lib} (errText : Err → Bytes) (version : Nat → Int) (u : Url.URL) {req : Request}
    {vs : List Simple.Val} (t : Ty) (c : Val) (hn : req.rc.original = none) (rounds : Nat → Round) {n : Nat}
    (hr : Ha.failoverRetries u req.method req.desc = n)
    (hc : ∀ j, j ≤ n → Spec.Callable lib req vs rounds j) (hf : ∀ j, j ≤ n → Spec.RoundFails req vs (rounds j)) :
    ∃ text, baseCall lib errText version u req (.ptr t) rounds c = (some text, c) := by
  have hfail : ∀ j, j ≤ n → _ := fun j hj =>
    reply_fails (errText := errText) (version := version) (reply := .ptr t) hn (hc j hj) (hf j hj)
  have spec := failover_spec u req.method req.desc req.id
    (fun j => Ha.Attempt.call (rounds j).ep (some (Reply.resultAt lib errText version req (.ptr t) rounds j).resp)) n hr
  have hx : Ha.failoverCall u req.method req.desc req.id
    (fun j => Ha.Attempt.call (rounds j).ep (some (Reply.resultAt lib errText version req (.ptr t) rounds j).resp))
    = Reply.failover lib errText version u req (.ptr t) rounds := rfl
  rw [hx] at spec
  rw [baseCall]
  generalize Reply.failover lib errText version u req (.ptr t) rounds = x at spec
  obtain ⟨x1, x2⟩ := x
  obtain ⟨s1, -, -, s4⟩ := spec
  simp only at s1
  have hcont : contentAfter lib errText req (.ptr t) rounds c x2.length = c :=
    content_none c _ fun j hj => (hfail j (by omega)).2
  simp only [hcont]
  rcases s4 with ⟨m, ep, r', t1, t2, t3, -⟩ | ⟨m, -, -, t3, -⟩ | ⟨t1, -, t3⟩
  · simp only [Ha.Attempt.call.injEq, Option.some.injEq] at t2
    have hm : m ≤ n := by simp only at t1 s1; omega
    exact absurd (by rw [t2.2]; exact t3) (not_good (hfail m hm).1)
  · cases t3
  · rcases t3 with ⟨ep, r', t4, t5⟩ | ⟨ep, t4, -⟩
    · simp only [Ha.Attempt.call.injEq, Option.some.injEq] at t4
      have e1 : x1 = r' := t5
      obtain ⟨e, he, -⟩ := (hfail n (Nat.le_refl _)).1
      refine ⟨e.errMsg, ?_⟩
      rw [e1, ← t4.2, he]; rfl
    · simp only [Ha.Attempt.call.injEq] at t4
      cases t4.2

/-! ### Backup requests -/

section Hedged

variable {E V : Type} {write : Response → Option V} {id : UInt64} {retries : Nat} {ep0 : E} {v0 : V}

private theorem ha_calls {s s' : Ha.St E} {w : Ha.Who} (h : Ha.Step id retries ep0 s w s') : s.calls.length ≤ s'.calls.length := by
  cases h with
  | issueFirst => simp
  | skip => exact Nat.le_refl _
  | noPermit => exact Nat.le_refl _
  | issue => simp
  | exit => exact Nat.le_refl _
  | finish out _ _ =>
    cases out with
    | none => simp
    | some r => simp only; split <;> simp
  | recvSuccess => exact Nat.le_refl _
  | recvError _ h _ => simp [h]
  | recvErrorFinal _ h _ => simp [h]
  | delayOver => exact Nat.le_refl _
  | deadline => exact Nat.le_refl _

private theorem ha_done {s s' : Ha.St E} {w : Ha.Who} {r : Response} (h : Ha.Step id retries ep0 s w s') (hd : s.pc = .done r) :
    s'.pc = .done r ∧ s'.calls.length = s.calls.length := by
  cases h with
  | issueFirst h => rw [hd] at h; cases h
  | skip h => rw [hd] at h; cases h
  | noPermit h => rw [hd] at h; cases h
  | issue _ h => rw [hd] at h; cases h
  | exit h => rw [hd] at h; cases h
  | finish out _ _ =>
    cases out with
    | none => exact ⟨hd, by simp⟩
    | some r => simp only; split <;> exact ⟨hd, by simp⟩
  | recvSuccess h => rcases h with ⟨i, h⟩ | h <;> rw [hd] at h <;> cases h
  | recvError h => rw [hd] at h; cases h
  | recvErrorFinal h => rw [hd] at h; cases h
  | delayOver h => rw [hd] at h; cases h
  | deadline h => rcases h with ⟨i, h⟩ | h <;> rw [hd] at h <;> cases h

private theorem shared_ha {x : Reply.Shared E V} (h : Reply.Reach write id retries ep0 v0 x) : Ha.Reach id retries ep0 x.s := by
  induction h with
  | init => exact .init
  | step _ hs ih =>
    cases hs with
    | returns => exact ih
    | strategy h _ => exact .step ih h

private theorem shared_inv {x : Reply.Shared E V} (h : Reply.Reach write id retries ep0 v0 x) :
    (∀ k, x.got k ≠ none → k < x.s.calls.length) ∧
    (∀ k c, x.s.calls[k]? = some c → ∀ r, c.result = some r → x.got k = some r) ∧
    (((∀ k r, x.got k = some r → write r = none) ∧ x.content = v0) ∨ ∃ k r, x.got k = some r ∧ write r = some x.content) := by
  induction h with
  | init => exact ⟨fun k h => absurd rfl h, fun k c h => by simp [Ha.init] at h, .inl ⟨fun k r h => (by cases h), rfl⟩⟩
  | step _ hs ih =>
    obtain ⟨i1, i2, i3⟩ := ih
    cases hs with
    | @returns k c r hk he hg =>
      refine ⟨?_, ?_, ?_⟩
      · intro j hj
        simp only at hj ⊢
        by_cases h : j = k
        · subst h; exact (List.getElem?_eq_some_iff.mp hk).1
        · rw [if_neg h] at hj; exact i1 j hj
      · intro j c' hj r' hr'
        simp only at hj ⊢
        by_cases h : j = k
        · subst h
          have := i2 j c' hj r' hr'
          rw [hg] at this; cases this
        · rw [if_neg h]; exact i2 j c' hj r' hr'
      · simp only
        cases hw : write r with
        | some v => exact .inr ⟨k, r, by simp, by simp [hw]⟩
        | none =>
          rcases i3 with ⟨h1, h2⟩ | ⟨j, r', h1, h2⟩
          · refine .inl ⟨?_, h2⟩
            intro j r' hj
            by_cases h : j = k
            · subst h; rw [if_pos rfl] at hj; cases hj; exact hw
            · rw [if_neg h] at hj; exact h1 j r' hj
          · refine .inr ⟨j, r', ?_, h2⟩
            have : j ≠ k := by rintro rfl; rw [hg] at h1; cases h1
            rw [if_neg this]; exact h1
    | strategy hh hc => exact ⟨fun k hk => Nat.lt_of_lt_of_le (i1 k hk) (ha_calls hh), hc, i3⟩

/-- **C109, backup requests.** When a hedged call has ended, with an answer `r`: this answer was returned by one of the calls
made for it, or it is the error of the deadline. The variable holds what one of the answers that these calls returned leaves
in it, or, if none leaves anything, what it held before. -/
theorem hedged_reply {x : Reply.Shared E V} (h : Reply.Reach write id retries ep0 v0 x) {r : Response} (hd : x.s.pc = .done r) :
    ((∃ k, k < x.s.calls.length ∧ x.got k = some r ∧ Spec.GoodResponse r) ∨ Spec.OwnError id 400 r) ∧
    (((∀ k r', x.got k = some r' → write r' = none) ∧ x.content = v0) ∨
      ∃ k r', k < x.s.calls.length ∧ x.got k = some r' ∧ write r' = some x.content) := by
  obtain ⟨i1, i2, i3⟩ := shared_inv h
  refine ⟨?_, ?_⟩
  · rcases backup_answer_real (shared_ha h) hd with ⟨g, c, hc, hr⟩ | h
    · obtain ⟨k, hk, hkc⟩ := List.mem_iff_getElem.mp hc
      exact .inl ⟨k, hk, i2 k c (by rw [← hkc]; exact List.getElem?_eq_getElem hk) r hr, g⟩
    · exact .inr h
  · rcases i3 with h | ⟨k, r', h1, h2⟩
    · exact .inl h
    · exact .inr ⟨k, r', i1 k (by rw [h1]; simp), h1, h2⟩

/-- **C109, backup requests.** If the answer came before a second server was asked, the variable holds it. -/
theorem hedged_reply_single {x : Reply.Shared E V} (h : Reply.Reach write id retries ep0 v0 x) {r : Response}
    (hd : x.s.pc = .done r) (hr : ¬ Spec.OwnError id 400 r) (hone : x.s.calls.length = 1) :
    x.content = (write r).getD v0 := by
  obtain ⟨h1, h2⟩ := hedged_reply h hd
  rcases h1 with ⟨k, hk, hg, -⟩ | h1
  · have hk0 : k = 0 := by omega
    subst hk0
    rcases h2 with ⟨a, b⟩ | ⟨j, r', hj, hg', hw⟩
    · rw [a 0 r hg, b]; rfl
    · have hj0 : j = 0 := by omega
      subst hj0
      rw [hg] at hg'; cases hg'
      rw [hw]; rfl
  · exact absurd h1 hr

/-- What can happen from a state on. -/
inductive Spec.Later (write : Response → Option V) (id : UInt64) (retries : Nat) (ep0 : E) (x : Reply.Shared E V) :
    Reply.Shared E V → Prop
  | refl : Spec.Later write id retries ep0 x x
  | step {y z} : Spec.Later write id retries ep0 x y → Reply.Step write id retries ep0 y z → Spec.Later write id retries ep0 x z

/-- **C109, backup requests.** The variable does not change any more after the end of a hedged call if all servers that were
asked have answered by then. -/
theorem hedged_reply_stable {x y : Reply.Shared E V} {r : Response} (hd : x.s.pc = .done r)
    (hall : ∀ k, k < x.s.calls.length → x.got k ≠ none) (h : Spec.Later write id retries ep0 x y) : y.content = x.content := by
  suffices H : y.content = x.content ∧ y.s.pc = .done r ∧ ∀ k, k < y.s.calls.length → y.got k ≠ none from H.1
  induction h with
  | refl => exact ⟨rfl, hd, hall⟩
  | step _ hs ih =>
    obtain ⟨i1, i2, i3⟩ := ih
    cases hs with
    | returns r' hk he hg => exact absurd hg (i3 _ (List.getElem?_eq_some_iff.mp hk).1)
    | strategy hh _ =>
      obtain ⟨d1, d2⟩ := ha_done hh i2
      exact ⟨i1, d1, fun k hk => i3 k (by rw [← d2]; exact hk)⟩

end Hedged

namespace ReplyEx

/-- An answer that leaves `n` in the variable. -/
def answer (n : Int) : Response := { id := 7, value := none, exception := none, processTime := n, attachment := [] }
def write (r : Response) : Option Int := some r.processTime

/-- Two servers, 0 and 1, have been asked. -/
def asked : Reply.Shared Nat Int := ⟨⟨[⟨0, false, none, none⟩, ⟨1, false, none, none⟩], [], .waiting 1⟩, fun _ => none, 0⟩

end ReplyEx

open ReplyEx in
private theorem asked_reach : Reply.Reach write 7 1 0 0 asked := by
  refine .step (.step (.step .init (.strategy (.issueFirst rfl) ?_)) (.strategy (.delayOver (i := 0) rfl) ?_))
    (.strategy (.issue (i := 0) 1 rfl (by decide)) ?_)
  all_goals
    intro k c' h r hr
    have hm := List.mem_of_getElem? h
    simp [Ha.init] at hm
    rcases hm with rfl | rfl <;> cases hr

open ReplyEx in
/-- Server 0 has answered, and its answer has been taken. -/
private theorem taken (x : Reply.Shared Nat Int) (hx : x.s = asked.s) (hg : x.got 0 = some (answer 10))
    (h : Reply.Reach write 7 1 0 0 x) :
    Reply.Reach write 7 1 0 0 { x with s := ⟨[⟨0, true, some (answer 10), none⟩, ⟨1, false, none, none⟩], [], .done (answer 10)⟩ } := by
  have side : ∀ (k : Nat) (c' : Ha.Issued Nat),
      [⟨0, true, some (answer 10), none⟩, (⟨1, false, none, none⟩ : Ha.Issued Nat)][k]? = some c' →
      ∀ r, c'.result = some r → x.got k = some r := by
    intro k c' h r hr
    match k, h with
    | 0, h => simp only [List.getElem?_cons_zero, Option.some.injEq] at h; subst h; rw [hg]; exact hr
    | 1, h => simp only [List.getElem?_cons_succ, List.getElem?_cons_zero, Option.some.injEq] at h; subst h; cases hr
    | k + 2, h => simp at h
  have h1 : Reply.Reach write 7 1 0 0
      { x with s := ⟨[⟨0, true, some (answer 10), none⟩, ⟨1, false, none, none⟩], [answer 10], .waiting 1⟩ } := by
    refine .step h (.strategy (w := .goroutine) ?_ side)
    rw [hx]
    exact Ha.Step.finish (s := asked.s) (k := 0) (some (answer 10)) rfl rfl
  exact .step h1 (.strategy (w := .caller) (Ha.Step.recvSuccess (.inl ⟨1, rfl⟩) rfl) side)

open ReplyEx in
/-- **C109, where it fails.** All backup requests write the caller's one variable. The answer of the call can be that of one
server while the variable holds that of another. -/
theorem hedged_reply_other_violated : ∃ (x : Reply.Shared Nat Int) (r : Response), Reply.Reach write 7 1 0 0 x ∧
    x.s.pc = .done r ∧ Spec.GoodResponse r ∧ write r = some 10 ∧ x.content = 20 := by
  refine ⟨_, answer 10, taken
    ⟨asked.s, fun j => if j = 1 then some (answer 20) else if j = 0 then some (answer 10) else none, 20⟩ rfl rfl ?_,
    rfl, .inl rfl, rfl, rfl⟩
  exact .step (.step asked_reach (.returns (k := 0) (answer 10) rfl rfl rfl)) (.returns (k := 1) (answer 20) rfl rfl rfl)

open ReplyEx in
/-- **C109, where it fails.** The variable can change after the call has returned to its caller, when a server that was asked
later answers. -/
theorem hedged_reply_late_violated : ∃ (x y : Reply.Shared Nat Int) (r : Response), Reply.Reach write 7 1 0 0 x ∧
    x.s.pc = .done r ∧ write r = some 10 ∧ x.content = 10 ∧ Reply.Step write 7 1 0 x y ∧ y.content = 20 := by
  refine ⟨_, _, answer 10, taken ⟨asked.s, fun j => if j = 0 then some (answer 10) else none, 10⟩ rfl rfl
    (.step asked_reach (.returns (k := 0) (answer 10) rfl rfl rfl)), rfl, rfl, rfl, .returns (k := 1) (answer 20) rfl rfl rfl, rfl⟩

open ReplyEx in
/-- **C109, where it fails.** The same after a call that ended with an error. -/
theorem hedged_reply_error_violated : ∃ (x y : Reply.Shared Nat Int) (r : Response), Reply.Reach write 7 1 0 0 x ∧
    x.s.pc = .done r ∧ r.exception.isSome = true ∧ x.content = 0 ∧ Reply.Step write 7 1 0 x y ∧ y.content = 20 := by
  refine ⟨_, _, Ha.timeoutError 7, .step asked_reach (.strategy (w := .deadline) (Ha.Step.deadline (.inl ⟨1, rfl⟩)) ?_), rfl,
    rfl, rfl, .returns (k := 1) (answer 20) rfl rfl rfl, rfl⟩
  intro k c' h r hr
  have hm := List.mem_of_getElem? h
  simp [asked] at hm
  rcases hm with rfl | rfl <;> cases hr

/-! ### Cases -/

namespace ReplyEx

def say (t : Ty) (c : Val) : Option Bytes × Val :=
  baseCall toyLib (fun _ => []) (fun _ => -1) { params := some [(b!"retries", b!"1")] } { sampleRequest with method := b!"say" }
    (.ptr t) RetryEx.rounds c

end ReplyEx

/-- The hypotheses of `client_reply` are those of `failover_end_to_end`, which are met by these rounds (beside that theorem).
The handler answers the string "world": read into a string, and into a byte slice. -/
example : ReplyEx.say .str (.str b!"old") = (none, .str b!"world") ∧
    ReplyEx.say .bytes (.bytes b!"old") = (none, .bytes b!"world") := by decide +kernel

/-- **C109, where it fails.** The handler answers a string and the caller's variable is a number: the call ends without an
error, and the variable keeps what it held. -/
theorem client_reply_type_violated : ReplyEx.say .i64 (.i64 5) = (none, .i64 5) := by decide +kernel

/-- Without a retry the call fails, and the variable is left alone. -/
example : baseCall toyLib (fun _ => []) (fun _ => -1) {} { sampleRequest with method := b!"say" } (.ptr .str) RetryEx.rounds
    (.str b!"old") = (some b!"can not get a channel", .str b!"old") := by decide +kernel

example : Spec.readInto .str (.str b!"a") = some (.str b!"a") ∧ Spec.readInto .strMap (.strMap []) = none ∧
    Spec.readInto .int (.int 3) = some (.int 3) ∧ Spec.readInto .str .null = none := by decide +kernel

/-- The hypotheses of `hedged_reply_single` and `hedged_reply_stable`: one server was asked, and it has answered. -/
example : ∃ x : Reply.Shared Nat Int, Reply.Reach ReplyEx.write 7 1 0 0 x ∧ x.s.pc = .done (ReplyEx.answer 10) ∧
    ¬ Spec.OwnError 7 400 (ReplyEx.answer 10) ∧ x.s.calls.length = 1 ∧ (∀ k, k < x.s.calls.length → x.got k ≠ none) ∧
    x.content = 10 := by
  have h1 : Reply.Reach ReplyEx.write 7 1 0 0
      (⟨⟨[⟨0, false, none, none⟩], [], .waiting 0⟩, fun j => if j = 0 then some (ReplyEx.answer 10) else none, 10⟩ : Reply.Shared Nat Int) := by
    refine .step (.step .init (.strategy (.issueFirst rfl) ?_)) (.returns (k := 0) (ReplyEx.answer 10) rfl rfl rfl)
    intro k c' h r hr
    have hm := List.mem_of_getElem? h
    simp [Ha.init] at hm
    subst hm; cases hr
  have side : ∀ (k : Nat) (c' : Ha.Issued Nat), [(⟨0, true, some (ReplyEx.answer 10), none⟩ : Ha.Issued Nat)][k]? = some c' →
      ∀ r, c'.result = some r → (if k = 0 then some (ReplyEx.answer 10) else none) = some r := by
    intro k c' h r hr
    match k, h with
    | 0, h => simp only [List.getElem?_cons_zero, Option.some.injEq] at h; subst h; exact hr
    | k + 1, h => simp at h
  refine ⟨⟨⟨[⟨0, true, some (ReplyEx.answer 10), none⟩], [], .done (ReplyEx.answer 10)⟩,
    fun j => if j = 0 then some (ReplyEx.answer 10) else none, 10⟩,
    .step (.step h1 (.strategy (w := .goroutine) (Ha.Step.finish (k := 0) (some (ReplyEx.answer 10)) rfl rfl) side))
      (.strategy (w := .caller) (Ha.Step.recvSuccess (.inl ⟨0, rfl⟩) rfl) side), rfl, ?_, rfl, ?_, rfl⟩
  · rintro ⟨-, e, h, -⟩; cases h
  · intro k hk
    have : k = 0 := by simpa using hk
    subst this
    simp

end Motan.Props
