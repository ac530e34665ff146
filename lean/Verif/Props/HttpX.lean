import Verif.Model.HttpX
import Verif.Props.HttpProvider
import Verif.Props.Cgi

/-!
# C78: The second HTTP client and the RPC door of the proxy

What the `httpx` provider sends upstream and what it answers; which call of the mesh a request to `/proxy_to_rpc` becomes
and what the HTTP client gets back.
-/

namespace Motan.Props

open HttpProvider (Req Resp Lib HttpReq HttpRes Arg Value)
open HttpX (Settings Form MeshReq MeshResp MeshValue Answer)

/-! ## Specification -/

/-- `k'` is `k` with every `M_` replaced by `MOTAN-`. -/
inductive Spec.Renamed : Bytes → Bytes → Prop
  | nil : Spec.Renamed [] []
  | hit {s s'} : Spec.Renamed s s' → Spec.Renamed (b!"M_" ++ s) (b!"MOTAN-" ++ s')
  | keep {c s s'} : ¬ b!"M_" <+: c :: s → Spec.Renamed s s' → Spec.Renamed (c :: s) (c :: s')

/-- How a call of the client ends. -/
inductive Spec.HttpXOutcome (r : Req) (up : HttpReq → Option HttpRes) (o : HttpProvider.Out) : Prop
  /-- the arguments cannot be read: nothing is sent, and the response does not even carry the request's identifier -/
  | unreadable : r.args = none → o.sent = [] → o.resp = some { requestID := 0, exception := some ⟨503, 503⟩ } →
      Spec.HttpXOutcome r up o
  /-- the URL of the service is wrong: nothing is sent -/
  | refused : o.sent = [] → o.resp = some { requestID := r.requestID, exception := some ⟨503, 503⟩ } →
      Spec.HttpXOutcome r up o
  /-- there is no argument at all: the call panics, nothing is sent -/
  | panicked : r.args = some [] → o.sent = [] → o.resp = none → Spec.HttpXOutcome r up o
  /-- the exchange failed -/
  | broken {q} : o.sent = [q] → up q = none →
      o.resp = some { requestID := r.requestID, exception := some ⟨503, 503⟩ } → Spec.HttpXOutcome r up o
  /-- the upstream answered: its body is the value, its headers win over the caller's attachments -/
  | answered {q res resp} : o.sent = [q] → up q = some res → o.resp = some resp → resp.requestID = r.requestID →
      resp.exception = none → resp.value = some (.str res.body) →
      (r.attachments.NodupKeys → res.headers.NodupKeys → ∀ k, resp.attachments.load k =
        match res.headers.load k with
        | some v => some v
        | none => r.attachments.load k) → Spec.HttpXOutcome r up o

/-- The call of the mesh a form asks for: one string argument, the form's service and method, and as attachments the
headers that are not empty and, for the names no header has, the group, service, method and protocol. -/
structure Spec.AsksFor (f : Form) (q : MeshReq) : Prop where
  service : q.service = f.service
  method : q.method = f.method
  arg : q.arg = f.arg
  header : ∀ k v, (k, v) ∈ f.headers → v ≠ [] → q.attachments.load k = some v
  group : (∀ v, (b!"M_g", v) ∈ f.headers → v = []) → q.attachments.load b!"M_g" = some f.group
  path : (∀ v, (b!"M_p", v) ∈ f.headers → v = []) → q.attachments.load b!"M_p" = some f.service
  name : (∀ v, (b!"M_m", v) ∈ f.headers → v = []) → q.attachments.load b!"M_m" = some f.method
  protocol : (∀ v, (b!"M_pp", v) ∈ f.headers → v = []) → q.attachments.load b!"M_pp" = some b!"motan2"
  nothing_else : ∀ k v, q.attachments.load k = some v →
    ((k, v) ∈ f.headers ∧ v ≠ []) ∨ k ∈ [b!"M_g", b!"M_p", b!"M_m", b!"M_pp"]

/-! ## The client -/

theorem replaceM_spec (k : Bytes) : Spec.Renamed k (HttpProvider.replaceM k) := by
  fun_induction HttpProvider.replaceM k with
  | case1 s ih => exact .hit ih
  | case2 c s h ih =>
    refine .keep ?_ ih
    rintro ⟨t, e⟩
    rw [show (b!"M_" ++ t : Bytes) = 77 :: 95 :: t from rfl] at e
    injection e with e1 e2
    exact h _ e1.symm e2.symm
  | case3 => exact .nil

theorem renamed_unique {k a : Bytes} (h : Spec.Renamed k a) : a = HttpProvider.replaceM k := by
  induction h with
  | nil => rfl
  | hit _ ih =>
    rw [show ∀ s : Bytes, (b!"M_" ++ s : Bytes) = 77 :: 95 :: s from fun _ => rfl, HttpProvider.replaceM, ← ih]
  | @keep c s s' hn _ ih =>
    rw [HttpProvider.replaceM.eq_def]
    split
    · rename_i heq
      injection heq with h1 h2
      subst h1 h2
      exact absurd ⟨_, rfl⟩ hn
    · rename_i heq
      injection heq with h1 h2
      subst h1 h2
      rw [← ih]
    · rename_i heq; cases heq

/-- **C78, the client's outcome.** A call sends at most one request. Whatever the upstream answers is the value of the
response; every failure before or during the exchange is an exception, or a panic when there is no argument. -/
theorem httpx_settled (lib : Lib) (c : Settings) (r : Req) (up : HttpReq → Option HttpRes) :
    Spec.HttpXOutcome r up (HttpX.call lib c r up) := by
  unfold HttpX.call
  split
  · rename_i h; exact .unreadable h rfl rfl
  · rename_i args hargs
    split
    · exact .refused rfl rfl
    · split
      · rename_i hq
        refine .panicked ?_ rfl rfl
        rw [hargs]
        unfold HttpProvider.buildQuery at hq
        simp only at hq
        split at hq <;> first | rfl | cases hq
      · cases hup : up _ with
        | none => exact .broken rfl hup (by simp only [hup]; rfl)
        | some res =>
          refine .answered rfl hup (by simp only [hup]; rfl) rfl rfl rfl ?_
          intro h1 h2 k
          show (AMap.storeAll (AMap.storeAll [] r.attachments) res.headers).load k = _
          rw [AMap.load_storeAll _ _ h2, AMap.load_storeAll _ _ h1]
          cases res.headers.load k with
          | some _ => rfl
          | none => cases r.attachments.load k <;> rfl

theorem httpx_sent {lib : Lib} {c : Settings} {r : Req} {up : HttpReq → Option HttpRes} {q : HttpReq}
    (hq : q ∈ (HttpX.call lib c r up).sent) : ∃ args url method query, r.args = some args ∧
      HttpProvider.buildURL lib c.toConf r = some (url, method) ∧
      HttpProvider.buildQuery r args c.mixVars = some query ∧ q = HttpX.request lib r url method query := by
  unfold HttpX.call at hq
  split at hq
  · simp at hq
  · rename_i args hargs
    split at hq
    · simp at hq
    · rename_i url method hu
      split at hq
      · simp at hq
      · rename_i query hquery
        exact ⟨args, url, method, query, hargs, hu, hquery, List.mem_singleton.1 hq⟩

/-- **C78, the client's headers.** Every attachment is sent as a header, under its name with `M_` turned into `MOTAN-`,
except the one that is called `host` then; `X-Forwarded-For` is the caller's address unless an attachment is that header;
a POST has the type of a form; and nothing else is sent. -/
theorem httpx_headers {lib : Lib} {c : Settings} {r : Req} {up : HttpReq → Option HttpRes} {q : HttpReq}
    (hq : q ∈ (HttpX.call lib c r up).sent) :
    (∀ n v, (n, v) ∈ q.headers ↔
      (∃ k k', (k, v) ∈ r.attachments ∧ Spec.Renamed k k' ∧ k' ≠ b!"host" ∧ n = lib.norm k') ∨
      (q.method = b!"POST" ∧ n = lib.norm b!"Content-Type" ∧ v = b!"application/x-www-form-urlencoded") ∨
      (n = lib.norm b!"X-Forwarded-For" ∧ v = Spec.callerIP r ∧
        (∀ k v k', (k, v) ∈ r.attachments → Spec.Renamed k k' → k' ≠ b!"host" → lib.norm k' ≠ n) ∧
        (q.method = b!"POST" → lib.norm b!"Content-Type" ≠ n))) := by
  obtain ⟨args, url, method, query, h1, h2, h3, rfl⟩ := httpx_sent hq
  intro n v
  have hbase : ∀ n v, (n, v) ∈ HttpX.headers lib r method ↔
      (∃ k k', (k, v) ∈ r.attachments ∧ Spec.Renamed k k' ∧ k' ≠ b!"host" ∧ n = lib.norm k') ∨
      (method = b!"POST" ∧ n = lib.norm b!"Content-Type" ∧ v = b!"application/x-www-form-urlencoded") := by
    intro n v
    unfold HttpX.headers
    rw [List.mem_append, List.mem_filterMap, or_comm]
    refine or_congr ?_ ?_
    · constructor
      · rintro ⟨⟨k, w⟩, hm, e⟩
        unfold HttpX.attHeader at e
        split at e
        · cases e
        · rename_i hh
          injection e with e
          injection e with e1 e2
          have e2 : w = v := e2
          subst e2
          exact ⟨k, _, hm, replaceM_spec k, hh, e1.symm⟩
      · rintro ⟨k, k', hm, hr, hh, rfl⟩
        refine ⟨(k, v), hm, ?_⟩
        rw [renamed_unique hr] at hh ⊢
        exact if_neg hh
    · by_cases hp : method = b!"POST"
      · rw [if_pos hp, List.mem_singleton]
        constructor
        · intro e; injection e with e1 e2; exact ⟨hp, e1, e2⟩
        · rintro ⟨_, rfl, rfl⟩; rfl
      · rw [if_neg hp]
        exact ⟨fun h => absurd h List.not_mem_nil, fun h => absurd h.1 hp⟩
  show (n, v) ∈ HttpX.forwarded lib (HttpX.headers lib r method) (HttpProvider.clientIP r) ↔ _ ∨ (method = _ ∧ _) ∨ (_ ∧ _ ∧ _ ∧ (method = _ → _))
  unfold HttpX.forwarded
  cases hl : (HttpX.headers lib r method).load (lib.norm HttpProvider.xffKey) with
  | some w =>
    rw [hbase, ← or_assoc]
    constructor
    · exact .inl
    · rintro (h | ⟨rfl, _, ha, hc⟩)
      · exact h
      · have hm := AMap.mem_of_load hl
        rcases (hbase _ _).1 hm with ⟨k, k', hk, hr, hh, e⟩ | ⟨hp, e, _⟩
        · exact absurd e.symm (ha _ _ _ hk hr hh)
        · exact absurd e.symm (hc hp)
  | none =>
    simp only
    rw [List.mem_append, hbase, List.mem_singleton, or_assoc]
    have hno : ∀ w, (lib.norm HttpProvider.xffKey, w) ∉ HttpX.headers lib r method := by
      intro w hw
      have : (lib.norm HttpProvider.xffKey) ∈ AMap.keys (HttpX.headers lib r method) := List.mem_map.2 ⟨_, hw, rfl⟩
      rw [← AMap.load_isSome, hl] at this
      cases this
    refine or_congr Iff.rfl (or_congr Iff.rfl ?_)
    constructor
    · intro e
      injection e with e1 e2
      refine ⟨e1, by rw [e2, clientIP_eq], ?_, ?_⟩
      · intro k w k' hk hr hh e
        exact hno w ((hbase _ _).2 (.inl ⟨k, k', hk, hr, hh, by rw [e, e1]⟩))
      · intro hp e
        exact hno _ ((hbase _ _).2 (.inr ⟨hp, by rw [e, e1], rfl⟩))
    · rintro ⟨rfl, rfl, _⟩
      rw [clientIP_eq]; rfl

/-- **C78, the client's parameters.** A map argument reaches the server as parameters: in the query string of a GET, in
the form of a POST. For each name the server reads the identifier of the request, the entry of the map or, for a configured
name the map does not have, the attachment. -/
theorem httpx_params {lib : Lib} {c : Settings} {r : Req} {up : HttpReq → Option HttpRes} {q : HttpReq}
    {m : AMap Bytes Bytes} (hargs : r.args = some [.strMap m]) (hn : m.NodupKeys) (hm : ∀ p ∈ m, Spec.plainName p.1)
    (hv : ∀ k ∈ c.mixVars, Spec.plainName k) (hq : q ∈ (HttpX.call lib c r up).sent) :
    ∃ p : AMap Bytes Bytes, p.NodupKeys ∧
      (∀ k, p.load k = match m.load k with
        | some v => some v
        | none => if k ∈ c.mixVars then r.attachments.load k else none) ∧
      (q.method = b!"GET" → q.body = [] ∧ ∃ url s, q.path = url ++ b!"?" ++ s ∧
        Spec.formParams s = (b!"requestIdFromClient", natDigits r.requestID) :: p) ∧
      (q.method = b!"POST" → ∀ k, Query.values (Spec.formParams q.body) k =
        Query.values ((b!"requestIdFromClient", natDigits r.requestID) :: p) k) := by
  obtain ⟨args, url, method, query, h1, h2, h3, rfl⟩ := httpx_sent hq
  rw [hargs] at h1
  cases h1
  obtain ⟨s, p, e1, e2, e3, e4⟩ := http_query (r := r) (rest := []) hn hm hv
  rw [e1] at h3
  cases h3
  refine ⟨p, e3, e4, ?_, ?_⟩
  · intro hg
    have hg : method = b!"GET" := hg
    refine ⟨?_, url, _, by simp only [HttpX.request, HttpProvider.formatURL, if_pos hg], e2⟩
    show (if method = b!"POST" then _ else _) = _
    rw [hg]; rfl
  · intro hg k
    have hg : method = b!"POST" := hg
    show Query.values (Query.parse (if method = b!"POST" then _ else _)) k = _
    rw [if_pos hg, Query.values_parse_encode, show Query.parse query = _ from e2]

/-- **C78, the client's URL.** The configuration of the called method decides the URL and the HTTP method; where it is
silent the parameters of the service do, and GET is the last resort. The attachment `HTTP_Method` wins over all of them.
The URL of anything but a GET is sent as it is, that of a GET followed by `?` and the parameters. -/
theorem httpx_url {lib : Lib} {c : Settings} {r : Req} {up : HttpReq → Option HttpRes} {q : HttpReq}
    {conf : AMap Bytes (AMap Bytes Bytes)} {s : AMap Bytes Bytes}
    (hc : c.conf = some conf) (hs : conf.load r.method = some s) (hq : q ∈ (HttpX.call lib c r up).sent) :
    (∀ v, r.attachments.load b!"HTTP_Method" = some v → q.method = v) ∧
    (r.attachments.load b!"HTTP_Method" = none → ∀ v, s.load b!"HTTP_REQUEST_METHOD" = some v → q.method = v) ∧
    (r.attachments.load b!"HTTP_Method" = none → s.load b!"HTTP_REQUEST_METHOD" = none →
      (∀ v, c.method = some v → q.method = v) ∧ (c.method = none → q.method = b!"GET")) ∧
    (∀ u, (s.load b!"URL_FORMAT" = some u ∨ (s.load b!"URL_FORMAT" = none ∧ c.urlFormat = u)) → (37 : UInt8) ∉ u →
      (q.method ≠ b!"GET" → q.path = u) ∧ (q.method = b!"GET" → u ++ b!"?" <+: q.path)) := by
  obtain ⟨args, url, method, query, h1, h2, h3, rfl⟩ := httpx_sent hq
  obtain ⟨hu, ha, hb, hd⟩ := http_url (c := c.toConf) hc hs h2
  refine ⟨ha, hb, ?_, ?_⟩
  · intro e1 e2
    have := hd e1 e2
    constructor
    · intro v hv
      show method = v
      rw [this]; show c.method.getD _ = v; rw [hv]; rfl
    · intro hv
      show method = _
      rw [this]; show c.method.getD _ = _; rw [hv]; rfl
  · intro u he hno
    have := (hu u he).1 hno
    subst this
    constructor
    · intro hg
      exact if_neg hg
    · intro hg
      show _ <+: HttpProvider.formatURL url method query
      rw [HttpProvider.formatURL, if_pos (show method = _ from hg)]
      exact List.prefix_append _ _

/-- The status of the upstream's answer is lost: an answer 500 is a success of the call, and no attachment tells. -/
theorem httpx_status_lost_violated : ∃ (c : Settings) (r : Req) (resp : Resp),
    (HttpX.call exHttpLib c r fun _ => some ⟨500, [], b!"oops", true⟩).resp = some resp ∧ resp.exception = none ∧
    (HttpX.call exHttpLib c r fun _ => some ⟨200, [], b!"oops", true⟩).resp = some resp :=
  ⟨{ urlFormat := b!"http://h/" }, exHttpReq [] [.strMap [(b!"a", b!"1")]], _, rfl, rfl, rfl⟩

example : ∃ q ∈ (HttpX.call exHttpLib { urlFormat := b!"http://h/" }
    (exHttpReq [(b!"M_s", b!"app"), (b!"host", b!"10.0.0.1"), (b!"HTTP_Method", b!"POST")] [.strMap [(b!"a", b!"1")]])
    fun _ => none).sent, q.method = b!"POST" ∧ q.path = b!"http://h/" ∧
    q.headers = [(b!"Content-Type", b!"application/x-www-form-urlencoded"), (b!"MOTAN-s", b!"app"),
      (b!"HTTP_Method", b!"POST"), (b!"X-Forwarded-For", b!"10.0.0.1")] :=
  ⟨_, List.mem_singleton.2 rfl, rfl, rfl, by decide⟩

/-! ## The RPC door -/

theorem storeAll_source (m ps : AMap Bytes Bytes) (k v : Bytes) (h : (m.storeAll ps).load k = some v) :
    (k, v) ∈ ps ∨ ((∀ w, (k, w) ∉ ps) ∧ m.load k = some v) := by
  induction ps generalizing m with
  | nil => exact .inr ⟨fun _ => List.not_mem_nil, h⟩
  | cons p ps ih =>
    rcases ih (m.store p.1 p.2) h with h' | ⟨hno, h'⟩
    · exact .inl (List.mem_cons_of_mem _ h')
    · rw [AMap.load_store] at h'
      split at h'
      · rename_i e; subst e; cases h'; exact .inl (List.mem_cons_self ..)
      · rename_i e
        refine .inr ⟨?_, h'⟩
        intro w hw
        rcases List.mem_cons.1 hw with rfl | hw
        · exact e rfl
        · exact hno w hw

/-- **C78, the call.** A form without service or method, or with an argument that is not declared a string, is refused
with 400 and nothing is called. Any other form is exactly one call of the mesh, the one it asks for. -/
theorem door_calls (norm : Bytes → Bytes) (f : Form) (mesh : MeshReq → MeshResp) (hn : f.headers.NodupKeys) :
    (f.service = [] ∨ f.method = [] ∨ f.argType ≠ b!"string" →
      (HttpX.door norm f mesh).1 = [] ∧ (HttpX.door norm f mesh).2.status = 400) ∧
    (f.service ≠ [] → f.method ≠ [] → f.argType = b!"string" →
      ∃ q, (HttpX.door norm f mesh).1 = [q] ∧ Spec.AsksFor f q) := by
  unfold HttpX.door
  constructor
  · intro h
    by_cases h1 : f.service = [] ∨ f.method = []
    · rw [if_pos h1]; exact ⟨rfl, rfl⟩
    · rw [if_neg h1, if_pos]
      · exact ⟨rfl, rfl⟩
      · rcases h with h | h | h
        · exact absurd (.inl h) h1
        · exact absurd (.inr h) h1
        · exact h
  · intro h1 h2 h3
    rw [if_neg (not_or.2 ⟨h1, h2⟩), if_neg (not_not_intro h3)]
    refine ⟨_, rfl, ?_⟩
    have hn' : AMap.NodupKeys (f.headers.filter fun p => decide (p.2 ≠ [])) := AMap.nodupKeys_filter hn _
    have hnot : ∀ k, (∀ v, (k, v) ∈ f.headers → v = []) →
        k ∉ (f.headers.filter fun p => decide (p.2 ≠ [])).map Prod.fst := by
      intro k hk hm
      obtain ⟨p, hp, rfl⟩ := List.mem_map.1 hm
      obtain ⟨hp, hv⟩ := List.mem_filter.1 hp
      exact (of_decide_eq_true hv) (hk _ hp)
    refine ⟨rfl, rfl, rfl, ?_, ?_, ?_, ?_, ?_, ?_⟩
    · intro k v hm hv
      show (AMap.storeAll _ (f.headers.filter fun p => decide (p.2 ≠ []))).load k = _
      have := (AMap.mem_iff_load hn').1 (List.mem_filter.2 ⟨hm, decide_eq_true (p := v ≠ []) hv⟩)
      rw [AMap.load_storeAll _ _ hn', this]
    all_goals try (intro hk; exact (AMap.load_storeAll_of_not_mem _ _ _ (hnot _ hk)).trans rfl)
    · intro k v hl
      rcases storeAll_source _ _ _ _ hl with h | ⟨_, h⟩
      · obtain ⟨h, hv⟩ := List.mem_filter.1 h
        exact .inl ⟨h, of_decide_eq_true hv⟩
      · refine .inr ?_
        exact (List.mem_map.2 ⟨_, AMap.mem_of_load h, rfl⟩ : k ∈ List.map Prod.fst [_, _, _, _])

/-- **C78, the answer.** The client gets 200 exactly when the call succeeded with bytes or a string, and then exactly
these bytes, as plain text, with the attachments of the response as headers. An exception is answered with 502 and its
message, everything else with 502. -/
theorem door_answers (norm : Bytes → Bytes) (f : Form) (mesh : MeshReq → MeshResp) {q : MeshReq} {a : Answer}
    (h : HttpX.door norm f mesh = ([q], a)) :
    (∀ b, a.status = 200 ∧ a.body = some b ↔ (mesh q).exception = none ∧ (mesh q).value = some (.bytes b)) ∧
    (∀ msg, (mesh q).exception = some msg → a = { status := 502, headers := [], body := some msg }) ∧
    (a.status = 200 ∨ a.status = 502) ∧ (a.status = 200 → a.body.isSome) ∧
    (a.status = 200 → ∀ n, a.headers.load n = some b!"text/plain" ∨ n ≠ norm b!"Content-Type") ∧
    (a.status = 200 → ∀ k v, (mesh q).attachments.load k = some v → norm k ≠ norm b!"Content-Type" →
      (∀ k' w, (k', w) ∈ (mesh q).attachments → norm k' = norm k → w = v) → a.headers.load (norm k) = some v) ∧
    (a.status = 200 → ∀ n v, a.headers.load n = some v → n = norm b!"Content-Type" ∨
      ∃ k, (k, v) ∈ (mesh q).attachments ∧ n = norm k) := by
  have ha : a = HttpX.answer norm (mesh q) := by
    unfold HttpX.door at h
    split at h
    · cases h
    · split at h
      · cases h
      · cases h; rfl
  subst ha
  have hh : ∀ atts : AMap Bytes Bytes,
      (∀ n, (HttpX.answerHeaders norm atts).load n = some b!"text/plain" ∨ n ≠ norm b!"Content-Type") ∧
      (∀ k v, atts.load k = some v → norm k ≠ norm b!"Content-Type" →
        (∀ k' w, (k', w) ∈ atts → norm k' = norm k → w = v) → (HttpX.answerHeaders norm atts).load (norm k) = some v) ∧
      (∀ n v, (HttpX.answerHeaders norm atts).load n = some v → n = norm b!"Content-Type" ∨
        ∃ k, (k, v) ∈ atts ∧ n = norm k) := by
    intro atts
    refine ⟨?_, ?_, ?_⟩
    · intro n
      by_cases e : n = norm b!"Content-Type"
      · subst e; exact .inl (AMap.load_store_self _ _ _)
      · exact .inr e
    · intro k v hk hne hu
      unfold HttpX.answerHeaders
      rw [AMap.load_store_ne _ _ (Ne.symm hne)]
      cases hl : (AMap.storeAll [] (atts.map fun p => (norm p.1, p.2))).load (norm k) with
      | none =>
        exfalso
        have hmem : norm k ∈ (atts.map fun p => (norm p.1, p.2)).map Prod.fst :=
          List.mem_map.2 ⟨(norm k, v), List.mem_map.2 ⟨(k, v), AMap.mem_of_load hk, rfl⟩, rfl⟩
        revert hl hmem
        generalize (atts.map fun p => (norm p.1, p.2)) = ps
        generalize ([] : AMap Bytes Bytes) = m
        intro hl hmem
        have : ∀ (ps m : AMap Bytes Bytes) (n : Bytes), (n ∈ ps.map Prod.fst ∨ (m.load n).isSome) →
            ((m.storeAll ps).load n).isSome := by
          intro ps
          induction ps with
          | nil => intro m n h; rcases h with h | h
                   · simp at h
                   · exact h
          | cons p ps ih =>
            intro m n h
            refine ih (m.store p.1 p.2) n ?_
            rw [AMap.load_store]
            by_cases e : p.1 = n
            · right; rw [if_pos e]; rfl
            · rw [if_neg e]
              rcases h with h | h
              · rw [List.map_cons, List.mem_cons] at h
                exact .inl (h.resolve_left fun h => e h.symm)
              · exact .inr h
        have := this ps m _ (.inl hmem)
        rw [hl] at this
        cases this
      | some w =>
        rcases storeAll_source _ _ _ _ hl with h | ⟨_, h⟩
        · obtain ⟨⟨k', w'⟩, hm, e⟩ := List.mem_map.1 h
          injection e with e1 e2
          rw [← e2, hu k' w' hm e1]
        · cases h
    · intro n v hl
      unfold HttpX.answerHeaders at hl
      rw [AMap.load_store] at hl
      split at hl
      · rename_i e; exact .inl e.symm
      · rcases storeAll_source _ _ _ _ hl with h | ⟨_, h⟩
        · obtain ⟨⟨k', w'⟩, hm, e⟩ := List.mem_map.1 h
          injection e with e1 e2
          have e2 : w' = v := e2
          subst e2
          exact .inr ⟨k', hm, e1.symm⟩
        · cases h
  obtain ⟨g1, g2, g3⟩ := hh (mesh q).attachments
  unfold HttpX.answer
  cases he : (mesh q).exception with
  | some msg => simp
  | none =>
    cases hv : (mesh q).value with
    | none => simp
    | some v =>
      cases v with
      | bytes b =>
        refine ⟨?_, by simp, .inl rfl, fun _ => rfl, fun _ => g1, fun _ => g2, fun _ => g3⟩
        intro b'
        simp
      | nil => simp
      | other => simp

/-- A header can redirect the call: the group of the form is not the group the mesh is asked for. -/
theorem door_header_wins_violated : ∃ f : Form, f.group = b!"mine" ∧ ∀ norm mesh,
    ∃ q, (HttpX.door norm f mesh).1 = [q] ∧ q.attachments.load b!"M_g" = some b!"other" :=
  ⟨{ service := b!"s", method := b!"m", group := b!"mine", argType := b!"string", headers := [(b!"M_g", b!"other")] }, rfl,
    fun _ _ => ⟨_, rfl, by decide⟩⟩

/-- A call that succeeds without a value (a service that returns nothing) is answered like a broken proxy, after the call
was made. -/
theorem door_no_value_violated : ∃ f : Form, ∀ norm, ∃ mesh : MeshReq → MeshResp, (∀ q, (mesh q).exception = none) ∧
    (HttpX.door norm f mesh).1.length = 1 ∧ (HttpX.door norm f mesh).2.status = 502 :=
  ⟨{ service := b!"s", method := b!"m", argType := b!"string" }, fun _ => ⟨fun _ => {}, fun _ => rfl, rfl, rfl⟩⟩

example : ∃ q a, HttpX.door id
    { service := b!"s", method := b!"m", argType := b!"string", arg := b!"hi",
      headers := [(b!"Accept", b!"*"), (b!"X-Empty", [])] }
    (fun q => { value := some (.bytes q.arg), attachments := [(b!"k", b!"v")] }) = ([q], a) ∧ a.status = 200 ∧
    a.body = some b!"hi" ∧ a.headers.load b!"k" = some b!"v" ∧ q.attachments.load b!"Accept" = some b!"*" ∧
    q.attachments.load b!"X-Empty" = none :=
  ⟨_, _, rfl, rfl, rfl, by decide, by decide, by decide⟩

end Motan.Props
