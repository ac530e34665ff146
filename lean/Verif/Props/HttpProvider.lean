import Verif.Model.HttpProvider
import Verif.Model.HttpProxy

/-!
# C60: a Motan request reaches the HTTP server as the HTTP request it stands for
-/

namespace Motan.Props

open Motan.HttpProvider Strings

/-! ## Specification -/

/-- The parameters an HTTP server reads from a form or a query string (`url.ParseQuery`). -/
abbrev Spec.formParams (s : Bytes) : List (Bytes × Bytes) := Query.parse s

/-- A parameter name without `&`, `;`, `=`, `%` and `+`. -/
def Spec.plainName (k : Bytes) : Prop := ∀ c ∈ k, c ≠ 38 ∧ c ≠ 59 ∧ c ≠ 61 ∧ c ≠ 37 ∧ c ≠ 43

instance (k : Bytes) : Decidable (Spec.plainName k) := inferInstanceAs (Decidable (∀ c ∈ k, _))

/-- The table of the attributes Motan adds to a request and the header each is sent as. -/
def Spec.motanHeaders : List (Bytes × Bytes) :=
  [b!"p", b!"m", b!"md", b!"g", b!"pp", b!"v", b!"mdu", b!"s", b!"rid", b!"tmo"].map fun s =>
    (b!"M_" ++ s, b!"MOTAN-" ++ s)

/-- The attachments that steer the proxy itself, and are no headers. -/
def Spec.steering : List Bytes := [b!"HTTP_PROXY", b!"HTTP_Method", b!"HTTP_QueryString", b!"host", b!"Host"]

/-- The header an attachment is meant for: Motan's own attributes by the table; none for the steering
attachments; otherwise the attachment's name, without one leading `http_`. -/
inductive Spec.meantFor : Bytes → Bytes → Prop
  | motan {k h} : (k, h) ∈ Spec.motanHeaders → Spec.meantFor k h
  | host : Spec.meantFor b!"http_host" b!"Host"
  | contentType : Spec.meantFor b!"content-type" b!"Content-Type"
  | prefixed {h} : h ≠ b!"host" → Spec.meantFor (b!"http_" ++ h) h
  | plain {k} : (∀ h, k ≠ b!"http_" ++ h) → (∀ h, (k, h) ∉ Spec.motanHeaders) → k ∉ Spec.steering →
      k ≠ b!"content-type" → Spec.meantFor k k

/-- A request asks for the transparent proxy with one of the words `strconv.ParseBool` takes for true. -/
def Spec.asksProxy (r : Req) : Prop :=
  ∃ v ∈ [b!"1", b!"t", b!"T", b!"true", b!"TRUE", b!"True"], r.attachments.load b!"HTTP_PROXY" = some v

/-- `name` is `k` with every `M_` in it replaced by `MOTAN-`: cut at its `M_`s, and joined again with `MOTAN-`. -/
def Spec.renamed (k name : Bytes) : Prop :=
  ∃ parts : List Bytes, parts ≠ [] ∧ (∀ p ∈ parts, ¬ b!"M_" <:+: p) ∧ k = join b!"M_" parts ∧ name = join b!"MOTAN-" parts

theorem asksProxy_iff (r : Req) : parseTrue (r.attachment proxyKey) = true ↔ Spec.asksProxy r := by
  unfold Spec.asksProxy Req.attachment proxyKey parseTrue
  cases h : r.attachments.load b!"HTTP_PROXY" with
  | none => simp
  | some v => simp only [Option.getD_some]; simp [or_assoc]

/-! ## Headers -/

theorem mem_innerMap (k h : Bytes) : innerMap.load k = some h ↔ (k, h) ∈ Spec.motanHeaders := by
  have hn : innerMap.NodupKeys := by decide
  rw [show Spec.motanHeaders = innerMap from rfl, AMap.mem_iff_load hn]

theorem inner_none {k : Bytes} : innerMap.load k = none ↔ ∀ h, (k, h) ∉ Spec.motanHeaders := by
  constructor
  · intro h h' hm
    rw [(mem_innerMap k h').2 hm] at h
    cases h
  · intro h
    cases hl : innerMap.load k with
    | none => rfl
    | some h' => exact absurd ((mem_innerMap k h').1 hl) (h h')

theorem hasPrefix_iff (s p : Bytes) : hasPrefix s p = true ↔ ∃ r, s = p ++ r := by
  unfold hasPrefix
  rw [List.isPrefixOf_iff_prefix]
  constructor
  · rintro ⟨r, rfl⟩; exact ⟨r, rfl⟩
  · rintro ⟨r, rfl⟩; exact ⟨r, rfl⟩

theorem headerOf_iff (k h : Bytes) : headerOf k = some h ↔ Spec.meantFor k h := by
  constructor
  · intro hk
    unfold headerOf at hk
    split at hk
    · rename_i k' hl
      cases hk
      exact .motan ((mem_innerMap _ _).1 hl)
    · rename_i hl
      by_cases h1 : k ∈ specified
      · rw [if_pos h1] at hk; cases hk
      · rw [if_neg h1] at hk
        by_cases h2 : k = b!"http_" ++ hostKey ∨ k = b!"http_" ++ b!"Host"
        · rw [if_pos h2] at hk
          cases hk
          rcases h2 with rfl | rfl
          · exact .host
          · exact .prefixed (by decide)
        · rw [if_neg h2] at hk
          by_cases h3 : k = b!"Content-Type" ∨ k = b!"content-type"
          · rw [if_pos h3] at hk
            cases hk
            rcases h3 with rfl | rfl
            · exact .plain (by intro h e; injection e with e _; revert e; decide) (inner_none.1 hl) (by decide) (by decide)
            · exact .contentType
          · rw [if_neg h3] at hk
            rw [not_or] at h2 h3
            by_cases h4 : hasPrefix k b!"http_" = true
            · rw [if_pos h4] at hk
              obtain ⟨r, rfl⟩ := (hasPrefix_iff _ _).1 h4
              cases hk
              exact .prefixed fun e => h2.1 (by rw [show r = b!"host" from e]; rfl)
            · rw [if_neg h4] at hk
              cases hk
              exact .plain (fun r e => h4 ((hasPrefix_iff _ _).2 ⟨r, e⟩)) (inner_none.1 hl) h1 h3.2
  · intro hk
    cases hk with
    | motan hm => simp only [headerOf, (mem_innerMap _ _).2 hm]
    | host => rfl
    | contentType => rfl
    | prefixed hh =>
      have h0 : innerMap.load (b!"http_" ++ h) = none := by simp [innerMap, AMap.load]
      have h1 : ¬ b!"http_" ++ h ∈ specified := by
        simp [specified, proxyKey, methodKey, queryKey, hostKey]
      have h3 : ¬ (b!"http_" ++ h = b!"Content-Type" ∨ b!"http_" ++ h = b!"content-type") := by simp
      have h4 : hasPrefix (b!"http_" ++ h) b!"http_" = true := (hasPrefix_iff _ _).2 ⟨h, rfl⟩
      simp only [headerOf, h0]
      rw [if_neg h1]
      by_cases h2 : b!"http_" ++ h = b!"http_" ++ hostKey ∨ b!"http_" ++ h = b!"http_" ++ b!"Host"
      · rw [if_pos h2]
        rcases h2 with e | e
        · exact absurd (List.append_cancel_left e) hh
        · rw [List.append_cancel_left e]
      · rw [if_neg h2, if_neg h3, if_pos h4]; rfl
    | plain hp hm hs hc =>
      simp only [headerOf, inner_none.2 hm]
      rw [if_neg (show ¬ k ∈ specified from hs), if_neg (fun e => e.elim (hp _) (hp _))]
      by_cases h3 : k = b!"Content-Type" ∨ k = b!"content-type"
      · rw [if_pos h3]
        rcases h3 with rfl | rfl
        · rfl
        · exact absurd rfl hc
      · rw [if_neg h3, if_neg fun h => ?_]
        obtain ⟨r, e⟩ := (hasPrefix_iff _ _).1 h
        exact hp r e

theorem setHeaders_untouched (lib : Lib) (n : Bytes) : ∀ (atts h : AMap Bytes Bytes),
    (∀ k v name, (k, v) ∈ atts → headerOf k = some name → lib.norm name ≠ n) →
    (setHeaders lib h atts).load n = h.load n := by
  intro atts
  induction atts with
  | nil => intro h _; rfl
  | cons p atts ih =>
    intro h hno
    show (setHeaders lib (setOne lib h p) atts).load n = _
    rw [ih _ fun k v name hm => hno k v name (List.mem_cons_of_mem _ hm)]
    unfold setOne
    split
    · rename_i name hname
      exact AMap.load_store_ne _ _ (hno p.1 p.2 name (by simp) hname)
    · rfl

theorem setHeaders_append (lib : Lib) (h a b : AMap Bytes Bytes) :
    setHeaders lib h (a ++ b) = setHeaders lib (setHeaders lib h a) b := List.foldl_append

theorem setHeaders_forwarded (lib : Lib) {h atts : AMap Bytes Bytes} {k v name : Bytes} (hn : atts.NodupKeys)
    (hm : (k, v) ∈ atts) (hk : headerOf k = some name)
    (hd : ∀ k' v' name', (k', v') ∈ atts → headerOf k' = some name' → lib.norm name' = lib.norm name → k' = k) :
    (setHeaders lib h atts).load (lib.norm name) = some v := by
  obtain ⟨a, b, rfl⟩ := List.append_of_mem hm
  rw [setHeaders_append]
  show (setHeaders lib (setOne lib (setHeaders lib h a) (k, v)) b).load _ = _
  rw [setHeaders_untouched]
  · simp only [setOne, hk]
    exact AMap.load_store_self _ _ _
  · intro k' v' name' hm' hk' e
    have := hd k' v' name' (by simp [hm']) hk' e
    subst this
    unfold AMap.NodupKeys AMap.keys at hn
    rw [List.map_append, List.nodup_append] at hn
    have h2 := hn.2.1
    rw [List.map_cons, List.nodup_cons] at h2
    exact h2.1 (List.mem_map.2 ⟨_, hm', rfl⟩)

theorem setHeaders_sourced (lib : Lib) {n v : Bytes} : ∀ (atts h : AMap Bytes Bytes),
    (setHeaders lib h atts).load n = some v →
    h.load n = some v ∨ ∃ k name, (k, v) ∈ atts ∧ headerOf k = some name ∧ lib.norm name = n := by
  intro atts
  induction atts with
  | nil => intro h hl; exact .inl hl
  | cons p atts ih =>
    intro h hl
    rcases ih _ hl with h1 | ⟨k, name, hm, h2⟩
    · revert h1
      unfold setOne
      split
      · rename_i name hname
        intro h1
        unfold setHeader at h1
        rw [AMap.load_store] at h1
        by_cases e : lib.norm name = n
        · rw [if_pos e] at h1
          cases h1
          exact .inr ⟨p.1, name, by simp, hname, e⟩
        · rw [if_neg e] at h1
          exact .inl h1
      · exact .inl
    · exact .inr ⟨k, name, List.mem_cons_of_mem _ hm, h2⟩

/-- The headers of a converted request before a form's content type is set. -/
abbrev baseHeaders (lib : Lib) (r : Req) : AMap Bytes Bytes :=
  (setHeaders lib [] r.attachments).erase (lib.norm b!"Connection")

theorem toHttp_headers {lib : Lib} {r : Req} {args : List Arg} {dm : Bytes} {q : HttpReq}
    (h : toHttp lib r args dm = some q) : q.headers = baseHeaders lib r ∨
      (∃ m, args = [.strMap m] ∧ m ≠ [] ∧ q.body = formBody m) ∧
        q.headers = (baseHeaders lib r).store (lib.norm b!"Content-Type") formType := by
  unfold toHttp at h
  simp only at h
  split at h
  case h_3 m =>
    split at h
    · cases h; exact .inl rfl
    · split at h
      · cases h; exact .inl rfl
      · rename_i hm; cases h; exact .inr ⟨⟨m, rfl, hm, rfl⟩, rfl⟩
  all_goals first | cases h; exact .inl rfl | cases h

/-- **C60, headers.** In the HTTP request made of a Motan request, whatever the order in which its attachments
are visited, the header an attachment is meant for has the attachment's value, provided no other attachment is
meant for the same header. Excepted are `Connection`, which is never forwarded, and the content type of a form. -/
theorem http_headers {lib : Lib} {r : Req} {args : List Arg} {dm : Bytes} {q : HttpReq}
    (h : toHttp lib r args dm = some q) (hn : r.attachments.NodupKeys) {k v name : Bytes}
    (hm : (k, v) ∈ r.attachments) (hk : Spec.meantFor k name)
    (hd : ∀ k' v' name', (k', v') ∈ r.attachments → Spec.meantFor k' name' → lib.norm name' = lib.norm name → k' = k)
    (hc : lib.norm name ≠ lib.norm b!"Connection")
    (hf : lib.norm name = lib.norm b!"Content-Type" → ∀ m, args ≠ [.strMap m]) :
    q.headers.load (lib.norm name) = some v := by
  have hb : (baseHeaders lib r).load (lib.norm name) = some v := by
    rw [AMap.load_erase, if_neg fun e => hc e.symm]
    exact setHeaders_forwarded lib hn hm ((headerOf_iff _ _).2 hk) fun k' v' name' h1 h2 h3 =>
      hd k' v' name' h1 ((headerOf_iff _ _).1 h2) h3
  rcases toHttp_headers h with e | ⟨⟨m, hargs, _⟩, e⟩
  · rw [e, hb]
  · rw [e, AMap.load_store_ne _ _ (fun e => hf e.symm m hargs), hb]

/-- **C60, no other headers.** Every header of the HTTP request is that of an attachment meant for it, or the
content type of a form: the steering attachments and `Connection` are never sent. -/
theorem http_headers_only {lib : Lib} {r : Req} {args : List Arg} {dm : Bytes} {q : HttpReq}
    (h : toHttp lib r args dm = some q) {n v : Bytes} (hl : q.headers.load n = some v) :
    (n ≠ lib.norm b!"Connection" ∧ ∃ k name, (k, v) ∈ r.attachments ∧ Spec.meantFor k name ∧ lib.norm name = n) ∨
    (n = lib.norm b!"Content-Type" ∧ v = b!"application/x-www-form-urlencoded" ∧ ∃ m, args = [.strMap m]) := by
  have hb : ∀ v, (baseHeaders lib r).load n = some v → n ≠ lib.norm b!"Connection" ∧
      ∃ k name, (k, v) ∈ r.attachments ∧ Spec.meantFor k name ∧ lib.norm name = n := by
    intro v hb
    rw [AMap.load_erase] at hb
    by_cases e : n = lib.norm b!"Connection"
    · rw [if_pos (by first | exact e | exact e.symm)] at hb; cases hb
    · rw [if_neg (by first | exact e | exact fun h => e h.symm)] at hb
      rcases setHeaders_sourced lib _ _ hb with h1 | ⟨k, name, h1, h2, h3⟩
      · cases h1
      · exact ⟨e, k, name, h1, (headerOf_iff _ _).1 h2, h3⟩
  rcases toHttp_headers h with e | ⟨⟨m, hargs, _⟩, e⟩
  · rw [e] at hl; exact .inl (hb _ hl)
  · rw [e, AMap.load_store] at hl
    by_cases e' : lib.norm b!"Content-Type" = n
    · rw [if_pos e'] at hl
      cases hl
      exact .inr ⟨e'.symm, rfl, m, hargs⟩
    · rw [if_neg e'] at hl
      exact .inl (hb _ hl)

/-! ## Method, query and body -/

/-- **C60, method.** The HTTP method is that of the attachment, or the provider's default when there is none. -/
theorem http_method {lib : Lib} {r : Req} {args : List Arg} {dm : Bytes} {q : HttpReq}
    (h : toHttp lib r args dm = some q) :
    (∀ m, r.attachments.load b!"HTTP_Method" = some m → m ≠ [] → q.method = m) ∧
    (r.attachments.load b!"HTTP_Method" = none → q.method = dm) := by
  have hm : q.method = httpMethod r dm := by
    unfold toHttp at h
    simp only at h
    split at h
    case h_3 m =>
      split at h
      · cases h; rfl
      · split at h <;> (cases h; rfl)
    all_goals first | cases h; rfl | cases h
  rw [hm]
  unfold httpMethod Req.attachment methodKey
  constructor
  · intro m hl hne
    rw [hl]; exact if_neg hne
  · intro hl
    rw [hl]; rfl

/-- **C60, body.** A string or byte argument is the body, unchanged, and the query string is the one given. -/
theorem http_body {lib : Lib} {r : Req} {dm s : Bytes} {a : Arg} (ha : a = .str s ∨ a = .bytes s) :
    ∃ q, toHttp lib r [a] dm = some q ∧ q.body = s ∧
      q.query = (r.attachments.load b!"HTTP_QueryString").getD [] := by
  rcases ha with rfl | rfl <;> exact ⟨_, rfl, rfl, rfl⟩

theorem plainName_byte {k : Bytes} (h : Spec.plainName k) : ∀ c ∈ k, Query.nameByte c = true := by
  intro c hc
  obtain ⟨h1, h2, h3, h4, h5⟩ := h c hc
  simp [Query.nameByte, h1, h2, h3, h4, h5]

theorem parse_pair {k : Bytes} (v : Bytes) (h : Spec.plainName k) :
    Query.parsePiece (k ++ b!"=" ++ Query.escape v) = some (k, v) :=
  Query.parsePiece_pair v (fun hm => (h _ hm).2.1 rfl) (fun hm => (h _ hm).2.2.1 rfl)
    (Query.unescape_name (plainName_byte h))

theorem pair_no_amp {k : Bytes} (v : Bytes) (h : Spec.plainName k) :
    (38 : UInt8) ∉ k ++ b!"=" ++ Query.escape v := by
  simp only [List.mem_append, not_or]
  exact ⟨⟨fun hm => (h _ hm).1 rfl, by decide⟩, (Query.not_mem_escape v).1⟩

theorem parse_form {m : AMap Bytes Bytes} (hp : ∀ p ∈ m, Spec.plainName p.1) : Query.parse (formBody m) = m := by
  refine Query.parse_join ?_ ?_
  · intro p hm
    obtain ⟨x, hx, rfl⟩ := List.mem_map.1 hm
    exact pair_no_amp _ (hp x hx)
  · rw [List.map_map]
    exact List.map_congr_left fun x hx => parse_pair _ (hp x hx)

/-- **C60, form.** A map argument of a request other than GET is sent as a form: the server reads back exactly
its entries, whatever bytes the values hold, provided the names hold no `&`, `;`, `=`, `%` or `+`. -/
theorem http_form {lib : Lib} {r : Req} {dm : Bytes} {m : AMap Bytes Bytes} {q : HttpReq}
    (h : toHttp lib r [.strMap m] dm = some q) (hg : q.method ≠ b!"GET") (hp : ∀ p ∈ m, Spec.plainName p.1) :
    Spec.formParams q.body = m ∧
      (m ≠ [] → q.headers.load (lib.norm b!"Content-Type") = some b!"application/x-www-form-urlencoded") := by
  unfold toHttp at h
  simp only at h
  split at h
  · rename_i hget; cases h; exact absurd hget hg
  · split at h
    · rename_i hm
      cases h
      subst hm
      exact ⟨by show Query.parse (join b!"&" []) = []; exact Query.parse_join (by simp) rfl, fun h => absurd rfl h⟩
    · cases h
      exact ⟨parse_form hp, fun _ => AMap.load_store_self _ _ _⟩

/-- **C60, what is refused.** A request is not converted exactly when it has several arguments or one of another
type than a map, a string or bytes. -/
theorem http_refused (lib : Lib) (r : Req) (args : List Arg) (dm : Bytes) :
    toHttp lib r args dm = none ↔ 1 < args.length ∨ args = [.other] := by
  match args with
  | [] => simp [toHttp]
  | [.nil] => simp [toHttp]
  | [.strMap m] =>
    simp only [toHttp]
    constructor
    · intro h
      split at h
      · cases h
      · split at h <;> cases h
    · simp
  | [.str s] => simp [toHttp]
  | [.bytes s] => simp [toHttp]
  | [.other] => simp [toHttp]
  | a :: b :: l => simp [toHttp]

/-! ## The query of the ordinary client -/

theorem mix_load (atts : AMap Bytes Bytes) (k : Bytes) : ∀ (vars : List Bytes) (m : AMap Bytes Bytes),
    (mix vars atts m).load k = match m.load k with
      | some v => some v
      | none => if k ∈ vars then atts.load k else none := by
  intro vars
  induction vars with
  | nil => intro m; show m.load k = _; cases m.load k <;> simp
  | cons x vars ih =>
    intro m
    show (mix vars atts (mixOne atts m x)).load k = _
    rw [ih]
    have hone : (mixOne atts m x).load k = match m.load k with
        | some v => some v
        | none => if k = x then atts.load k else none := by
      unfold mixOne
      split
      · rename_i v hv
        cases hk : m.load k with
        | some _ => rfl
        | none =>
          have : ¬ k = x := by rintro rfl; rw [hk] at hv; cases hv
          simp only [if_neg this]
      · rename_i hv
        split
        · rename_i v ha
          rw [AMap.load_store]
          by_cases e : x = k
          · subst e; rw [if_pos rfl, hv]; simp only [if_true, ha]
          · rw [if_neg e]
            cases m.load k with
            | some _ => rfl
            | none => simp only [if_neg fun h : k = x => e h.symm]
        · rename_i ha
          cases hk : m.load k with
          | some _ => rfl
          | none =>
            by_cases e : k = x
            · subst e; simp only [if_true, ha]
            · simp only [if_neg e]
    rw [hone]
    cases m.load k with
    | some _ => rfl
    | none =>
      by_cases e : k = x
      · subst e
        simp only [if_true, List.mem_cons, true_or]
        cases h : atts.load k with
        | some _ => rfl
        | none => simp
      · simp only [e, if_false, List.mem_cons, false_or]

theorem mix_names {atts : AMap Bytes Bytes} : ∀ {vars : List Bytes} {m : AMap Bytes Bytes}, m.NodupKeys →
    (mix vars atts m).NodupKeys ∧ ∀ k ∈ (mix vars atts m).keys, k ∈ m.keys ∨ k ∈ vars := by
  intro vars
  induction vars with
  | nil => intro m hn; exact ⟨hn, fun k hk => .inl hk⟩
  | cons x vars ih =>
    intro m hn
    have hone : (mixOne atts m x).NodupKeys ∧ ∀ k ∈ (mixOne atts m x).keys, k ∈ m.keys ∨ k = x := by
      unfold mixOne
      split
      · exact ⟨hn, fun k hk => .inl hk⟩
      · split
        · refine ⟨AMap.nodupKeys_store hn _ _, fun k hk => ?_⟩
          rw [AMap.keys_store] at hk
          split at hk
          · exact .inl hk
          · rw [List.mem_append] at hk
            rcases hk with h | h
            · exact .inl h
            · exact .inr (by simpa using h)
        · exact ⟨hn, fun k hk => .inl hk⟩
    obtain ⟨h1, h2⟩ := ih (m := mixOne atts m x) hone.1
    refine ⟨h1, fun k hk => ?_⟩
    rcases h2 k hk with h | h
    · rcases hone.2 k h with h | rfl
      · exact .inl h
      · exact .inr (by simp)
    · exact .inr (by simp [h])

theorem join_flatMap (sep x : Bytes) (f : Bytes × Bytes → Bytes) (l : List (Bytes × Bytes)) :
    x ++ l.flatMap (fun p => sep ++ f p) = join sep (x :: l.map f) := by
  induction l generalizing x with
  | nil => simp [join]
  | cons p l ih =>
    have := ih (f p)
    simp only [List.flatMap_cons, List.map_cons]
    rw [show join sep (x :: f p :: l.map f) = x ++ sep ++ join sep (f p :: l.map f) from rfl, ← this]
    simp [List.append_assoc]

theorem digits_plain (n : Nat) : Query.escape (natDigits n) = natDigits n := by
  have : ∀ s : Bytes, (∀ c ∈ s, 48 ≤ c ∧ c ≤ 57) → Query.escape s = s := by
    intro s
    induction s with
    | nil => intro _; rfl
    | cons c s ih =>
      intro h
      show Query.escapeByte c ++ Query.escape s = _
      rw [ih fun d hd => h d (by simp [hd])]
      have hc := h c (by simp)
      have : Query.keep c = true := by simp [Query.keep, hc.1, hc.2]
      simp [Query.escapeByte, this]
  exact this _ (natDigits_digit n)

/-- **C60, query.** The query string built from a map argument holds, for the server that parses it, the
identifier of the request followed by exactly the entries of the map and, for each configured name the map does
not have, the attachment of that name. -/
theorem http_query {r : Req} {m : AMap Bytes Bytes} {rest : List Arg} {vars : List Bytes}
    (hn : m.NodupKeys) (hp : ∀ p ∈ m, Spec.plainName p.1) (hv : ∀ k ∈ vars, Spec.plainName k) :
    ∃ s p, buildQuery r (.strMap m :: rest) vars = some s ∧
      Spec.formParams s = (b!"requestIdFromClient", natDigits r.requestID) :: p ∧ AMap.NodupKeys p ∧
      ∀ k, AMap.load p k = match m.load k with
        | some v => some v
        | none => if k ∈ vars then r.attachments.load k else none := by
  refine ⟨_, mix vars r.attachments m, rfl, ?_, (mix_names hn).1, fun k => mix_load _ _ _ _⟩
  have hmix : ∀ p ∈ mix vars r.attachments m, Spec.plainName p.1 := by
    intro p hpm
    rcases (mix_names (atts := r.attachments) (vars := vars) hn).2 p.1 (List.mem_map.2 ⟨p, hpm, rfl⟩) with h | h
    · obtain ⟨x, hx, e⟩ := List.mem_map.1 h
      rw [← e]; exact hp x hx
    · exact hv _ h
  have hrid : b!"requestIdFromClient=" ++ natDigits r.requestID =
      b!"requestIdFromClient" ++ b!"=" ++ Query.escape (natDigits r.requestID) := by rw [digits_plain]; rfl
  have hpl : Spec.plainName b!"requestIdFromClient" := by decide
  rw [hrid, show (fun p : Bytes × Bytes => b!"&" ++ p.1 ++ b!"=" ++ Query.escape p.2) =
    fun p => b!"&" ++ (p.1 ++ b!"=" ++ Query.escape p.2) from funext fun p => by simp only [List.append_assoc],
    join_flatMap]
  refine Query.parse_join ?_ ?_
  · intro p hm
    rcases List.mem_cons.1 hm with rfl | hm
    · exact pair_no_amp _ hpl
    · obtain ⟨x, hx, rfl⟩ := List.mem_map.1 hm
      exact pair_no_amp _ (hmix x hx)
  · rw [List.map_cons, List.map_map, List.map_cons, parse_pair _ hpl]
    congr 1
    exact List.map_congr_left fun x hx => parse_pair _ (hmix x hx)

/-! ## The answer -/

/-- The bytes of a response's value that are the upstream's body. -/
def Spec.answerBody : Value → Bytes
  | .bytes s => s
  | .str s => s
  | .pair _ s => s

/-- What a call comes to: at most one request is sent; the response is the upstream's answer to it, or an
exception that says what happened. -/
inductive Spec.HttpOutcome (c : Conf) (r : Req) (up : HttpReq → Option HttpRes) (out : Out) : Prop
  /-- the provider could not make an HTTP request of it: nothing was sent -/
  | refused {resp e} : out.sent = [] → out.resp = some resp → resp.exception = some e → resp.value = none →
      (e.code = 400 ∨ e.code = 404 ∨ e.code = 503) → HttpOutcome c r up out
  /-- the exchange failed -/
  | broken {q resp e} : out.sent = [q] → up q = none → out.resp = some resp → resp.exception = some e →
      resp.value = none → e.code = 503 → HttpOutcome c r up out
  /-- the upstream's body could not be read, or its answer is an error the provider is set to report as one -/
  | reported {q res resp e} : out.sent = [q] → up q = some res → out.resp = some resp →
      resp.exception = some e → resp.value = none → e.code = res.status →
      (res.readable = false ∨ (c.httpException = true ∧ 400 ≤ res.status)) → HttpOutcome c r up out
  /-- the upstream's answer -/
  | answered {q res resp v} : out.sent = [q] → up q = some res → out.resp = some resp → resp.exception = none →
      resp.value = some v → Spec.answerBody v = res.body →
      resp.attachments.load b!"upstreamCode" = some (natDigits res.status) →
      (c.httpException = true → res.status < 400) → HttpOutcome c r up out
  /-- the provider panicked before anything was sent -/
  | panicked : out.sent = [] → out.resp = none → r.args = some [] → HttpOutcome c r up out

theorem transparent_settled (lib : Lib) (c : Conf) (r : Req) (ip : Bytes) (up : HttpReq → Option HttpRes) :
    Spec.HttpOutcome c r up (transparent lib c r ip up) := by
  unfold transparent
  split
  · exact .refused rfl rfl rfl rfl (.inl rfl)
  · simp only
    split
    · exact .refused rfl rfl rfl rfl (.inr (.inl rfl))
    · split
      · rename_i hup
        exact .broken rfl hup rfl rfl rfl rfl
      · rename_i res hup
        split
        · rename_i h
          exact .reported rfl hup rfl rfl rfl rfl (.inr h)
        · rename_i h
          exact .answered rfl hup rfl rfl rfl rfl (by rfl) fun he => by
            rw [he] at h; simp only [true_and, Nat.not_le] at h; exact h

theorem proxy_settled (lib : Lib) (c : Conf) (r : Req) (ip : Bytes) (up : HttpReq → Option HttpRes) :
    Spec.HttpOutcome c r up (proxy lib c r ip up) := by
  unfold proxy
  split
  · exact .refused rfl rfl rfl rfl (.inl rfl)
  · split
    · exact .refused rfl rfl rfl rfl (.inl rfl)
    · split
      · exact .refused rfl rfl rfl rfl (.inr (.inl rfl))
      · simp only
        split
        · rename_i hup
          exact .broken rfl hup rfl rfl rfl rfl
        · rename_i res hup
          split
          · rename_i h
            exact .reported rfl hup rfl rfl rfl rfl (.inr h)
          · rename_i h
            exact .answered rfl hup rfl rfl rfl rfl (AMap.load_store_self _ _ _) fun he => by
              rw [he] at h; simp only [true_and, Nat.not_le] at h; exact h

theorem format_settled (lib : Lib) (c : Conf) (r : Req) (ip : Bytes) (up : HttpReq → Option HttpRes) :
    Spec.HttpOutcome c r up (HttpProvider.format lib c r ip up) := by
  unfold HttpProvider.format
  split
  · exact .refused rfl rfl rfl rfl (.inl rfl)
  · rename_i args hargs
    split
    · exact .refused rfl rfl rfl rfl (.inr (.inr rfl))
    · split
      · rename_i hq
        refine .panicked rfl rfl ?_
        rw [hargs]
        unfold buildQuery at hq
        simp only at hq
        split at hq <;> first | rfl | cases hq
      · split
        · exact .refused rfl rfl rfl rfl (.inr (.inr rfl))
        · split
          · rename_i hup
            exact .broken rfl hup rfl rfl rfl rfl
          · rename_i res hup
            split
            · rename_i h
              exact .reported rfl hup rfl rfl rfl rfl (.inl h)
            · split
              · rename_i h
                exact .reported rfl hup rfl rfl rfl rfl (.inr h)
              · rename_i h
                exact .answered rfl hup rfl rfl rfl rfl (AMap.load_store_self _ _ _) fun he => by
                  rw [he] at h; simp only [true_and, Nat.not_le] at h; exact h

/-- **C60, the answer.** Whatever the upstream does, a call sends at most one HTTP request, and its response is
the upstream's answer (its body, with its status as an attachment) or an exception whose code says whether the
request was refused before it was sent (400, 404, 503), the exchange failed (503) or the upstream answered an
error (its status). -/
theorem http_settled (lib : Lib) (c : Conf) (r : Req) (up : HttpReq → Option HttpRes) :
    Spec.HttpOutcome c r up (call lib c r up) := by
  unfold call
  split
  · exact transparent_settled ..
  · split
    · exact proxy_settled ..
    · exact format_settled ..

/-- **C60, cut answers.** An answer whose body could not be read to its end is never taken for the answer. -/
theorem http_cut_reported {lib : Lib} {c : Conf} {r : Req} {up : HttpReq → Option HttpRes}
    (ha : c.proxyAddr = []) (hp : ¬ Spec.asksProxy r)
    (hup : ∀ q res, up q = some res → res.readable = false) {resp : Resp}
    (h : (call lib c r up).resp = some resp) : resp.exception.isSome ∧ resp.value = none := by
  have hc : call lib c r up = HttpProvider.format lib c r (clientIP r) up := by
    unfold call
    rw [if_neg (fun h => hp ((asksProxy_iff r).1 h)), if_neg (by simp [ha])]
  rw [hc] at h
  unfold HttpProvider.format at h
  split at h
  · cases h; exact ⟨rfl, rfl⟩
  · split at h
    · cases h; exact ⟨rfl, rfl⟩
    · split at h
      · cases h
      · split at h
        · cases h; exact ⟨rfl, rfl⟩
        · split at h
          · cases h; exact ⟨rfl, rfl⟩
          · rename_i res hres
            rw [if_pos (hup _ _ hres)] at h
            cases h; exact ⟨rfl, rfl⟩

/-! ## The forwarded request -/

theorem setInner_untouched (lib : Lib) (n : Bytes) : ∀ (atts h : AMap Bytes Bytes),
    (∀ k v name, (k, v) ∈ atts → (k, name) ∈ Spec.motanHeaders → lib.norm name ≠ n) →
    (setInner lib h atts).load n = h.load n := by
  intro atts
  induction atts with
  | nil => intro h _; rfl
  | cons p atts ih =>
    intro h hno
    show (setInner lib (setInnerOne lib h p) atts).load n = _
    rw [ih _ fun k v name hm => hno k v name (List.mem_cons_of_mem _ hm)]
    unfold setInnerOne
    split
    · rename_i name hname
      exact AMap.load_store_ne _ _ (hno p.1 p.2 name (by simp) ((mem_innerMap _ _).1 hname))
    · rfl

theorem forwardedFor_load (lib : Lib) (h : AMap Bytes Bytes) (ip n : Bytes) :
    (forwardedFor lib h ip).load n =
      if n = lib.norm b!"X-Forwarded-For" ∧ h.load n = none then some ip else h.load n := by
  unfold forwardedFor
  by_cases e : n = lib.norm b!"X-Forwarded-For"
  · subst e
    split
    · rename_i v hv
      have hv : h.load (lib.norm b!"X-Forwarded-For") = some v := hv
      rw [hv]; simp
    · rename_i hv
      have hv : h.load (lib.norm b!"X-Forwarded-For") = none := hv
      rw [hv]
      simp only [and_self, if_true]
      exact AMap.load_store_self _ _ _
  · simp only [e, false_and, if_false]
    split
    · rfl
    · exact AMap.load_store_ne _ _ fun h => e h.symm

/-- The address the caller is known by. -/
def Spec.callerIP (r : Req) : Bytes :=
  (r.attachments.load b!"remoteIP").getD ((r.attachments.load b!"host").getD [])

theorem clientIP_eq (r : Req) : clientIP r = Spec.callerIP r := by
  unfold clientIP Spec.callerIP remoteIPKey
  cases r.attachments.load b!"remoteIP" <;> rfl

/-- **C60, transparent proxy.** The request sent has the method, query string and body the caller sent, the path
the rewriting gives, and each header of the caller, except `Connection`, those Motan's own attributes are sent
as, and `X-Forwarded-For`, which becomes the caller's address when it was absent. -/
theorem http_transparent {lib : Lib} {c : Conf} {r : Req} {up : HttpReq → Option HttpRes} {header body : Bytes}
    {q : HttpReq} (hp : Spec.asksProxy r) (hr : r.raw = some (header, body))
    (hq : q ∈ (call lib c r up).sent) :
    q.method = (lib.readHeader header).method ∧ q.query = (lib.readHeader header).query ∧ q.body = body ∧
    lib.rewrite r.method q.query = some q.path ∧
    ∀ n, n ≠ lib.norm b!"Connection" →
      (∀ k name, (k, name) ∈ Spec.motanHeaders → lib.norm name = n → r.attachments.load k = none) →
      r.attachments.NodupKeys →
      q.headers.load n = if n = lib.norm b!"X-Forwarded-For" ∧ (lib.readHeader header).headers.load n = none
        then some (Spec.callerIP r) else (lib.readHeader header).headers.load n := by
  have hc : call lib c r up = transparent lib c r (clientIP r) up := by
    unfold call
    rw [if_pos ((asksProxy_iff r).2 hp)]
  rw [hc] at hq
  simp only [transparent, hr] at hq
  split at hq
  · simp at hq
  · rename_i path hpath
    have : q = { lib.readHeader header with
        path := path
        headers := forwardedFor lib ((setInner lib (lib.readHeader header).headers r.attachments).erase
          (lib.norm b!"Connection")) (clientIP r)
        body := body } := by
      revert hq
      split
      · intro hq; simpa using hq
      · split <;> (intro hq; simpa using hq)
    subst this
    refine ⟨rfl, rfl, rfl, hpath, fun n hn hmot hnd => ?_⟩
    have : ((setInner lib (lib.readHeader header).headers r.attachments).erase (lib.norm b!"Connection")).load n =
        (lib.readHeader header).headers.load n := by
      rw [AMap.load_erase, if_neg fun e => hn e.symm]
      refine setInner_untouched lib n _ _ fun k v name hm hk e => ?_
      have := hmot k name hk e
      rw [AMap.load_of_mem hnd hm] at this
      cases this
    show (forwardedFor lib _ _).load n = _
    rw [forwardedFor_load, this, clientIP_eq]

theorem transparent_sent {lib : Lib} {c : Conf} {r : Req} {ip : Bytes} {up : HttpReq → Option HttpRes} {q : HttpReq}
    (hq : q ∈ (transparent lib c r ip up).sent) : ∃ h, q.headers = forwardedFor lib h ip := by
  unfold transparent at hq
  split at hq
  · simp at hq
  · simp only at hq
    split at hq
    · simp at hq
    · split at hq
      · exact ⟨_, by rw [List.mem_singleton.1 hq]⟩
      · split at hq <;> exact ⟨_, by rw [List.mem_singleton.1 hq]⟩

theorem proxy_sent {lib : Lib} {c : Conf} {r : Req} {ip : Bytes} {up : HttpReq → Option HttpRes} {q : HttpReq}
    (hq : q ∈ (proxy lib c r ip up).sent) : ∃ args h, r.args = some args ∧ toHttp lib r args c.defaultMethod = some h ∧
      lib.rewrite r.method (r.attachment queryKey) = some q.path ∧ q.method = h.method ∧ q.query = h.query ∧ q.body = h.body ∧
      q.headers = forwardedFor lib (if (h.headers.load (lib.norm b!"Host")).getD [] = []
        then h.headers.store (lib.norm b!"Host") c.domain else h.headers) ip := by
  unfold proxy at hq
  split at hq
  · simp at hq
  · rename_i args hargs
    split at hq
    · simp at hq
    · rename_i h hh
      split at hq
      · simp at hq
      · rename_i path hpath
        have : q = { h with
            path := path
            headers := forwardedFor lib (if (h.headers.load (lib.norm b!"Host")).getD [] = []
              then h.headers.store (lib.norm b!"Host") c.domain else h.headers) ip } := by
          revert hq
          simp only
          split
          · intro hq; exact List.mem_singleton.1 hq
          · split <;> (intro hq; exact List.mem_singleton.1 hq)
        subst this
        exact ⟨args, h, hargs, hh, hpath, rfl, rfl, rfl, rfl⟩

theorem format_sent {lib : Lib} {c : Conf} {r : Req} {ip : Bytes} {up : HttpReq → Option HttpRes} {q : HttpReq}
    (hq : q ∈ (HttpProvider.format lib c r ip up).sent) : ∃ args url method query, r.args = some args ∧
      buildURL lib c r = some (url, method) ∧ buildQuery r args c.mixVars = some query ∧
      formatReq lib r ip url method query = some q := by
  unfold HttpProvider.format at hq
  split at hq
  · simp at hq
  · rename_i args hargs
    split at hq
    · simp at hq
    · rename_i url method hu
      split at hq
      · simp at hq
      · rename_i query hquery
        split at hq
        · simp at hq
        · rename_i q' hq'
          have : q = q' := by
            revert hq
            split
            · intro hq; exact List.mem_singleton.1 hq
            · split
              · intro hq; exact List.mem_singleton.1 hq
              · split <;> (intro hq; exact List.mem_singleton.1 hq)
          subst this
          exact ⟨args, url, method, query, hargs, hu, hquery, hq'⟩

/-- **C60, caller's address.** Every request sent carries `X-Forwarded-For`. -/
theorem http_forwarded_for {lib : Lib} {c : Conf} {r : Req} {up : HttpReq → Option HttpRes} {q : HttpReq}
    (hq : q ∈ (call lib c r up).sent) : (q.headers.load (lib.norm b!"X-Forwarded-For")).isSome := by
  have hff : ∀ h ip, ((forwardedFor lib h ip).load (lib.norm b!"X-Forwarded-For")).isSome := by
    intro h ip
    rw [forwardedFor_load]
    split
    · rfl
    · rename_i hne
      cases hl : h.load (lib.norm b!"X-Forwarded-For") with
      | some _ => rfl
      | none => exact absurd ⟨rfl, hl⟩ hne
  unfold call at hq
  split at hq
  · obtain ⟨h, e⟩ := transparent_sent hq
    rw [e]; exact hff _ _
  · split at hq
    · obtain ⟨_, h, _, _, _, _, _, _, e⟩ := proxy_sent hq
      rw [e]; exact hff _ _
    · obtain ⟨_, url, method, query, _, _, _, e⟩ := format_sent hq
      unfold formatReq at e
      split at e
      · cases e
        show ((addForwardedFor lib _ _).load _).isSome
        unfold addForwardedFor
        split
        · rw [AMap.load_isSome]
          unfold AMap.keys
          rw [List.map_append]
          exact List.mem_append.2 (.inr (by simp [xffKey]))
        · rename_i hne
          have hne : ¬ ((addHeaders lib r).load (lib.norm b!"X-Forwarded-For")).getD [] = [] := hne
          cases hl : (addHeaders lib r).load (lib.norm b!"X-Forwarded-For") with
          | some _ => rfl
          | none => rw [hl] at hne; exact absurd rfl hne
      · cases e

/-- **C60, proxied call.** With a proxy address, the request sent is the conversion of the Motan request (see
`http_headers`, `http_method`, `http_body`, `http_form`), on the path the rewriting gives for the attached query
string, to the provider's domain when the request names no host. -/
theorem http_proxied {lib : Lib} {c : Conf} {r : Req} {up : HttpReq → Option HttpRes} {q : HttpReq}
    (ha : c.proxyAddr ≠ []) (hp : ¬ Spec.asksProxy r) (hq : q ∈ (call lib c r up).sent)
    (hx : lib.norm b!"Host" ≠ lib.norm b!"X-Forwarded-For") :
    ∃ args h, r.args = some args ∧ toHttp lib r args c.defaultMethod = some h ∧
      lib.rewrite r.method ((r.attachments.load b!"HTTP_QueryString").getD []) = some q.path ∧ q.method = h.method ∧ q.query = h.query ∧ q.body = h.body ∧
      (∀ n v, h.headers.load n = some v → v ≠ [] → q.headers.load n = some v) ∧
      (h.headers.load (lib.norm b!"Host") = none → q.headers.load (lib.norm b!"Host") = some c.domain) ∧
      (h.headers.load (lib.norm b!"X-Forwarded-For") = none →
        q.headers.load (lib.norm b!"X-Forwarded-For") = some (Spec.callerIP r)) := by
  have hc : call lib c r up = proxy lib c r (clientIP r) up := by
    unfold call
    rw [if_neg (fun h => hp ((asksProxy_iff r).1 h)), if_pos ha]
  rw [hc] at hq
  obtain ⟨args, h, h1, h2, h3, h4, h5, h6, h7⟩ := proxy_sent hq
  refine ⟨args, h, h1, h2, h3, h4, h5, h6, ?_, ?_, ?_⟩
  · intro n v hl hv
    have hb : (if (h.headers.load (lib.norm b!"Host")).getD [] = []
        then h.headers.store (lib.norm b!"Host") c.domain else h.headers).load n = some v := by
      split
      · rename_i hh
        rw [AMap.load_store]
        by_cases e : lib.norm b!"Host" = n
        · rw [e, hl] at hh; exact absurd hh hv
        · rw [if_neg e, hl]
      · exact hl
    rw [h7, forwardedFor_load, hb]
    simp
  · intro hl
    rw [h7, forwardedFor_load, if_neg (fun e => hx e.1), hl]
    exact AMap.load_store_self _ _ _
  · intro hl
    have hb : (if (h.headers.load (lib.norm b!"Host")).getD [] = []
        then h.headers.store (lib.norm b!"Host") c.domain else h.headers).load (lib.norm b!"X-Forwarded-For") = none := by
      split
      · rw [AMap.load_store_ne _ _ hx]; exact hl
      · exact hl
    rw [h7, forwardedFor_load, if_pos ⟨rfl, hb⟩, clientIP_eq]

/-- **C60, ordinary client.** Without a proxy address, a map argument reaches the server as parameters: in the
query string of a GET, in the form of a POST. For each name the server reads the identifier of the request, the
entry of the map or, for a configured name the map does not have, the attachment. -/
theorem http_params {lib : Lib} {c : Conf} {r : Req} {up : HttpReq → Option HttpRes} {q : HttpReq}
    {m : AMap Bytes Bytes} (ha : c.proxyAddr = []) (hp : ¬ Spec.asksProxy r)
    (hargs : r.args = some [.strMap m]) (hn : m.NodupKeys) (hm : ∀ p ∈ m, Spec.plainName p.1)
    (hv : ∀ k ∈ c.mixVars, Spec.plainName k) (hq : q ∈ (call lib c r up).sent) :
    ∃ p : AMap Bytes Bytes, p.NodupKeys ∧
      (∀ k, p.load k = match m.load k with
        | some v => some v
        | none => if k ∈ c.mixVars then r.attachments.load k else none) ∧
      (q.method = b!"GET" → ∃ url s, q.path = url ++ b!"?" ++ s ∧
        Spec.formParams s = (b!"requestIdFromClient", natDigits r.requestID) :: p) ∧
      (q.method = b!"POST" → ∀ k, Query.values (Spec.formParams q.body) k =
        Query.values ((b!"requestIdFromClient", natDigits r.requestID) :: p) k) := by
  have hc : call lib c r up = HttpProvider.format lib c r (clientIP r) up := by
    unfold call
    rw [if_neg (fun h => hp ((asksProxy_iff r).1 h)), if_neg (by simp [ha])]
  rw [hc] at hq
  obtain ⟨args, url, method, query, h1, h2, h3, h4⟩ := format_sent hq
  rw [hargs] at h1
  cases h1
  obtain ⟨s, p, e1, e2, e3, e4⟩ := http_query (r := r) (rest := []) hn hm hv
  rw [e1] at h3
  cases h3
  refine ⟨p, e3, e4, ?_, ?_⟩
  · intro hg
    unfold formatReq at h4
    split at h4
    · cases h4
      have hg : method = b!"GET" := hg
      exact ⟨url, _, by simp only [formatURL, if_pos hg], e2⟩
    · cases h4
  · intro hg k
    unfold formatReq at h4
    split at h4
    · cases h4
      have hg : method = b!"POST" := hg
      show Query.values (Query.parse (if method = b!"POST" then _ else _)) k = _
      rw [if_pos hg, Query.values_parse_encode, show Query.parse query = _ from e2]
    · cases h4

/-! ## The URL of the ordinary client -/

theorem replaceM_cons {c : UInt8} {s : Bytes} (h : ¬ b!"M_" <+: c :: s) : replaceM (c :: s) = c :: replaceM s := by
  rw [replaceM]
  intro t h1 h2
  subst h1 h2
  exact h ⟨t, rfl⟩

theorem replaceM_part (p s : Bytes) (h : ¬ b!"M_" <:+: p) :
    replaceM (p ++ b!"M_" ++ s) = p ++ b!"MOTAN-" ++ replaceM s ∧ replaceM p = p := by
  induction p with
  | nil => exact ⟨rfl, rfl⟩
  | cons c p ih =>
    obtain ⟨i1, i2⟩ := ih fun h' => h (h'.trans (List.suffix_cons c p).isInfix)
    have hn : ¬ b!"M_" <+: c :: p := fun h' => h h'.isInfix
    constructor
    · have : ¬ b!"M_" <+: c :: (p ++ b!"M_" ++ s) := by
        intro hp
        cases p with
        | nil =>
          obtain ⟨t, ht⟩ := hp
          simp only [List.nil_append, List.cons_append] at ht
          injection ht with _ ht
          injection ht with ht _
          revert ht; decide
        | cons d p =>
          obtain ⟨t, ht⟩ := hp
          simp only [List.cons_append, List.nil_append] at ht
          injection ht with h1 ht
          injection ht with h2 ht
          exact hn ⟨p, by rw [← h1, ← h2]; rfl⟩
      show replaceM (c :: (p ++ b!"M_" ++ s)) = c :: (p ++ b!"MOTAN-" ++ replaceM s)
      rw [replaceM_cons this, i1]
    · rw [replaceM_cons hn, i2]

/-- The code's replacement is the renaming. -/
theorem renamed_iff (k name : Bytes) : Spec.renamed k name ↔ name = replaceM k := by
  constructor
  · rintro ⟨parts, hne, hp, rfl, rfl⟩
    induction parts with
    | nil => exact absurd rfl hne
    | cons a r ih =>
      cases r with
      | nil => exact (replaceM_part a [] (hp a (by simp))).2.symm
      | cons b r =>
        show a ++ b!"MOTAN-" ++ join _ (b :: r) = replaceM (a ++ b!"M_" ++ join _ (b :: r))
        rw [(replaceM_part a _ (hp a (by simp))).1, ih (by simp) fun p hm => hp p (by simp [hm])]
  · rintro rfl
    have : ∀ n (k : Bytes), k.length ≤ n → Spec.renamed k (replaceM k) := by
      intro n
      induction n with
      | zero =>
        intro k hk
        obtain rfl : k = [] := List.eq_nil_of_length_eq_zero (Nat.le_zero.1 hk)
        exact ⟨[[]], by simp, by decide, rfl, rfl⟩
      | succ n ih =>
        intro k hk
        cases k with
        | nil => exact ⟨[[]], by simp, by decide, rfl, rfl⟩
        | cons c s =>
          by_cases h : b!"M_" <+: c :: s
          · obtain ⟨t, ht⟩ := h
            obtain ⟨parts, hne, hp, e1, e2⟩ := ih t (by
              have := congrArg List.length ht
              simp at this hk; omega)
            cases parts with
            | nil => exact absurd rfl hne
            | cons a r =>
              refine ⟨[] :: a :: r, by simp, ?_, ?_, ?_⟩
              · intro p hm
                rcases List.mem_cons.1 hm with rfl | hm
                · decide
                · exact hp p hm
              · rw [← ht, e1]; rfl
              · rw [← ht]
                show b!"MOTAN-" ++ replaceM t = _
                rw [e2]; rfl
          · rw [replaceM_cons h]
            obtain ⟨parts, hne, hp, e1, e2⟩ := ih s (by simp at hk; omega)
            rw [e2]
            cases parts with
            | nil => exact absurd rfl hne
            | cons a r =>
              refine ⟨(c :: a) :: r, by simp, ?_, ?_, ?_⟩
              · intro p hm
                rcases List.mem_cons.1 hm with rfl | hm
                · intro hi
                  rcases List.infix_cons_iff.1 hi with hi | hi
                  · refine h (hi.trans ?_)
                    rw [e1]
                    cases r with
                    | nil => exact List.prefix_refl _
                    | cons b r => exact ⟨b!"M_" ++ join b!"M_" (b :: r), by simp [join]⟩
                  · exact hp a (by simp) hi
                · exact hp p (by simp [hm])
              · rw [e1]; cases r <;> simp [join]
              · cases r <;> simp [join]
    exact this _ k (Nat.le_refl _)

/-- **C60, headers of the ordinary client.** Without a proxy address the request carries the content type of a form, one header
for each attachment, named after it with `MOTAN-` for `M_`, and the caller's address, and no other header. -/
theorem http_plain_headers {lib : Lib} {c : Conf} {r : Req} {up : HttpReq → Option HttpRes} {q : HttpReq}
    (ha : c.proxyAddr = []) (hp : ¬ Spec.asksProxy r) (hq : q ∈ (call lib c r up).sent) :
    (lib.norm b!"Content-Type", b!"application/x-www-form-urlencoded") ∈ q.headers ∧
    (∀ k v name, (k, v) ∈ r.attachments → Spec.renamed k name → (lib.norm name, v) ∈ q.headers) ∧
    (∀ n v, (n, v) ∈ q.headers → (n = lib.norm b!"Content-Type" ∧ v = b!"application/x-www-form-urlencoded") ∨
      (∃ k name, (k, v) ∈ r.attachments ∧ Spec.renamed k name ∧ n = lib.norm name) ∨
      (n = lib.norm b!"X-Forwarded-For" ∧ v = Spec.callerIP r)) := by
  have hc : call lib c r up = HttpProvider.format lib c r (clientIP r) up := by
    unfold call
    rw [if_neg (fun h => hp ((asksProxy_iff r).1 h)), if_neg (by simp [ha])]
  rw [hc] at hq
  obtain ⟨_, url, method, query, _, _, _, e⟩ := format_sent hq
  unfold formatReq at e
  split at e
  · cases e
    have sub : ∀ x, x ∈ addHeaders lib r → x ∈ addForwardedFor lib (addHeaders lib r) (clientIP r) := by
      intro x hx
      unfold addForwardedFor
      split
      · exact List.mem_append.2 (.inl hx)
      · exact hx
    refine ⟨sub _ (List.mem_cons_self ..), fun k v name hm hr => ?_, fun n v hm => ?_⟩
    · rw [renamed_iff] at hr
      subst hr
      exact sub _ (List.mem_cons_of_mem _ (List.mem_map.2 ⟨(k, v), hm, rfl⟩))
    · have hm : (n, v) ∈ addForwardedFor lib (addHeaders lib r) (clientIP r) := hm
      have key : (n, v) ∈ addHeaders lib r ∨ (n = lib.norm b!"X-Forwarded-For" ∧ v = Spec.callerIP r) := by
        unfold addForwardedFor at hm
        split at hm
        · rcases List.mem_append.1 hm with hm | hm
          · exact .inl hm
          · simp only [List.mem_singleton, Prod.mk.injEq] at hm
            exact .inr ⟨hm.1, by rw [hm.2, clientIP_eq]⟩
        · exact .inl hm
      rcases key with hm | hm
      · rcases List.mem_cons.1 hm with hm | hm
        · cases hm; exact .inl ⟨rfl, rfl⟩
        · obtain ⟨p, hp, e⟩ := List.mem_map.1 hm
          cases e
          exact .inr (.inl ⟨p.1, replaceM p.1, hp, (renamed_iff _ _).2 rfl, rfl⟩)
      · exact .inr (.inr hm)
  · cases e

theorem countVerb_cons {c d : UInt8} (s : Bytes) (h : ¬ (c = 37 ∧ d = 115)) : countVerb (c :: d :: s) = countVerb (d :: s) := by
  rw [countVerb.eq_def]
  split
  · rename_i heq; injection heq with h1 h2; injection h2 with h2 h3; exact absurd ⟨h1, h2⟩ h
  · rename_i heq; injection heq with h1 h2; subst h2; rfl
  · rename_i heq; cases heq

theorem countVerb_append (a s : Bytes) : countVerb (a ++ 37 :: 115 :: s) = countVerb a + 1 + countVerb s := by
  fun_induction countVerb a with
  | case1 a ih => show countVerb (37 :: 115 :: (a ++ _)) = _; rw [countVerb, ih]; omega
  | case2 c a h ih =>
    rw [← ih]
    cases a with
    | nil =>
      rw [List.cons_append, List.nil_append, countVerb_cons _ (by simp)]
    | cons d a =>
      rw [List.cons_append, List.cons_append, countVerb_cons]
      rintro ⟨rfl, rfl⟩
      exact h _ rfl rfl
  | case3 => show countVerb (37 :: 115 :: s) = _; rw [countVerb]; omega

/-- **C60, URL.** The configuration of the called method decides the URL and the HTTP method; where it is silent
the provider's own parameters do. The attachment `HTTP_Method` wins over both, and a URL with several `%s` is
refused. -/
theorem http_url {lib : Lib} {c : Conf} {r : Req} {conf : AMap Bytes (AMap Bytes Bytes)} {s : AMap Bytes Bytes}
    (hc : c.conf = some conf) (hs : conf.load r.method = some s) {url method : Bytes}
    (h : buildURL lib c r = some (url, method)) :
    (∀ u, (s.load b!"URL_FORMAT" = some u ∨ (s.load b!"URL_FORMAT" = none ∧ c.urlFormat = u)) →
      ((37 : UInt8) ∉ u → url = u) ∧
      (∀ a b, u = a ++ b!"%s" ++ b → (37 : UInt8) ∉ a → (37 : UInt8) ∉ b → url = lib.sprintf u r.method) ∧
      (∀ a b d, u ≠ a ++ b!"%s" ++ b ++ b!"%s" ++ d)) ∧
    (∀ v, r.attachments.load b!"HTTP_Method" = some v → method = v) ∧
    (r.attachments.load b!"HTTP_Method" = none → ∀ v, s.load b!"HTTP_REQUEST_METHOD" = some v → method = v) ∧
    (r.attachments.load b!"HTTP_Method" = none → s.load b!"HTTP_REQUEST_METHOD" = none → method = c.defaultMethod) := by
  have hcount : ∀ u : Bytes, (37 : UInt8) ∉ u → countVerb u = 0 := by
    intro u
    fun_induction countVerb u with
    | case1 s ih => intro h; simp at h
    | case2 _ s _ ih => intro h; exact ih fun hm => h (by simp [hm])
    | case3 => intro _; rfl
  unfold buildURL at h
  simp only [hc, hs, methodKey] at h
  refine ⟨?_, ?_, ?_, ?_⟩
  · intro u hu
    have hf : (s.load b!"URL_FORMAT").getD c.urlFormat = u := by
      rcases hu with hu | ⟨h1, h2⟩
      · rw [hu]; rfl
      · rw [h1]; exact h2
    rw [hf] at h
    have hone : ∀ a b : Bytes, u = a ++ b!"%s" ++ b → (37 : UInt8) ∉ a → (37 : UInt8) ∉ b → countVerb u = 1 := by
      rintro a b rfl ha hb
      rw [List.append_assoc, show (b!"%s" ++ b : Bytes) = 37 :: 115 :: b from rfl, countVerb_append, hcount a ha,
        hcount b hb]
    have htwo : ∀ a b d : Bytes, u = a ++ b!"%s" ++ b ++ b!"%s" ++ d → 1 < countVerb u := by
      rintro a b d rfl
      rw [List.append_assoc _ _ d, show (b!"%s" ++ d : Bytes) = 37 :: 115 :: d from rfl, countVerb_append,
        List.append_assoc a, show (b!"%s" ++ b : Bytes) = 37 :: 115 :: b from rfl, countVerb_append]
      omega
    split at h
    · cases h
    · rename_i hle
      refine ⟨?_, ?_, fun a b d e => hle (htwo a b d e)⟩
      · intro hno
        rw [hcount u hno] at h
        cases h; rfl
      · intro a b e ha hb
        rw [hone a b e ha hb] at h
        cases h; rfl
  all_goals
    split at h
    · cases h
    · split at h <;>
      · cases h
        simp_all

/-! ## Where the provider does not keep what it seems to promise -/

/-- A library for the examples: canonical names are the names, and everything is accepted. -/
def exHttpLib : Lib where
  norm := id
  addArgs q m := q ++ formBody m
  readHeader _ := {}
  writeHeader _ _ := []
  rewrite p _ := some p
  sprintf f _ := f
  validURL _ _ := true

def exHttpReq (atts : AMap Bytes Bytes) (args : List Arg) : Req :=
  { requestID := 7, method := b!"/a", attachments := atts, args := some args, raw := some (b!"h", b!"b") }

/-- Two attachments meant for the same header: the value sent depends on the order in which the map is visited. -/
theorem http_header_clash_violated :
    ∃ (a b : AMap Bytes Bytes) (q1 q2 : HttpReq), a.Perm b ∧ a.NodupKeys ∧
      toHttp exHttpLib (exHttpReq a []) [] b!"GET" = some q1 ∧
      toHttp exHttpLib (exHttpReq b []) [] b!"GET" = some q2 ∧
      q1.headers.load b!"foo" = some b!"2" ∧ q2.headers.load b!"foo" = some b!"1" :=
  ⟨[(b!"http_foo", b!"1"), (b!"foo", b!"2")], [(b!"foo", b!"2"), (b!"http_foo", b!"1")], _, _,
    List.Perm.swap _ _ _, by decide, rfl, rfl, by decide, by decide⟩

/-- The names of a form's entries are not escaped: a name can add a parameter of its own. -/
theorem http_form_name_injected_violated :
    ∃ q, toHttp exHttpLib (exHttpReq [] []) [.strMap [(b!"a&admin", b!"1")]] b!"POST" = some q ∧
      Spec.formParams q.body = [(b!"a", b!""), (b!"admin", b!"1")] :=
  ⟨_, rfl, by
    show Query.parse b!"a&admin=1" = _
    have : (b!"a&admin=1" : Bytes) = join b!"&" [b!"a", b!"admin=1"] := rfl
    rw [this]
    exact Query.parse_join (by decide) rfl⟩

/-- Without any argument, the ordinary client panics. -/
theorem http_no_argument_panics_violated :
    ∃ (c : Conf) (r : Req), c.proxyAddr = [] ∧ r.args = some [] ∧ ∀ up, (call exHttpLib c r up).resp = none :=
  ⟨⟨[], [], b!"GET", false, b!"http://h/", none, []⟩, exHttpReq [] [], rfl, rfl, fun _ => rfl⟩

/-- A failed exchange is reported as an exception of the service itself (type 2), like an answer of the service. -/
theorem http_failure_as_biz_violated :
    ∃ (c : Conf) (r : Req) (resp : Resp), (call exHttpLib c r fun _ => none).resp = some resp ∧
      resp.exception = some ⟨503, 2⟩ :=
  ⟨⟨b!"127.0.0.1:80", [], b!"GET", false, [], none, []⟩, exHttpReq [] [], _, rfl, rfl⟩

theorem call_proxied_sent (lib : Lib) (c : Conf) (r : Req) (up : HttpReq → Option HttpRes) (args : List Arg)
    (h q : HttpReq) (h1 : parseTrue (r.attachment proxyKey) = false) (h2 : c.proxyAddr ≠ []) (ha : r.args = some args)
    (hh : toHttp lib r args c.defaultMethod = some h)
    (hp : lib.rewrite r.method (r.attachment queryKey) = some q.path)
    (hq : { h with
      path := q.path
      headers := forwardedFor lib (if (h.headers.load (lib.norm b!"Host")).getD [] = []
        then setHeader lib h.headers b!"Host" c.domain else h.headers) (clientIP r) } = q) :
    (call lib c r up).sent = [q] := by
  simp only [call, h1, h2, proxy, ha, hh, hp, hq, ne_eq, not_false_eq_true, if_true, Bool.false_eq_true, if_false]
  cases up q with
  | none => rfl
  | some res => dsimp only; split <;> rfl

/-- Matching and rewriting with a single rule, `regexpVar .* .* /users/{uid}`: everything matches, and the template has no
references to submatches. Of queries only `uid=7` is read. -/
def exVarLib : HttpProxy.Lib Unit Unit where
  compile _ := some ()
  isMatch _ _ := true
  find _ _ := some ()
  expand _ t _ _ := t
  query q k := if q = b!"uid=7" ∧ k = b!"uid" then b!"7" else []

/-- The locations with that rule. -/
def exVarMatcher : HttpProxy.Matcher Unit :=
  HttpProxy.newMatcher exVarLib
    [{ upstream := b!"s", «match» := b!"/u", rules := [b!"regexpVar .* .* /users/{uid}"] }]

/-- The same with this rewriting; added arguments are written as `k=v`. -/
def exVarHttpLib : Lib :=
  { exHttpLib with rewrite := HttpProxy.providerRewrite exVarLib true exVarMatcher }

/-- A rule that puts a query variable into the path does not see the arguments of a GET, although they are sent as the
query: with the variable in the attached query string the path is `/users/7`, with the same variable as argument the
same query is sent to `/users/{uid}`. -/
theorem http_rewrite_misses_arguments_violated :
    ∃ (c : Conf) (q1 q2 : HttpReq), c.proxyAddr ≠ [] ∧
      (∀ up, (call exVarHttpLib c { exHttpReq [(b!"HTTP_QueryString", b!"uid=7")] [] with method := b!"/u/x" } up).sent = [q1]) ∧
      (∀ up, (call exVarHttpLib c { exHttpReq [] [.strMap [(b!"uid", b!"7")]] with method := b!"/u/x" } up).sent = [q2]) ∧
      q1.query = b!"uid=7" ∧ q2.query = b!"uid=7" ∧ q1.path = b!"/users/7" ∧ q2.path = b!"/users/{uid}" := by
  refine ⟨⟨b!"127.0.0.1:80", [], b!"GET", false, [], none, []⟩,
    { method := b!"GET", path := b!"/users/7", query := b!"uid=7",
      headers := [(b!"Host", []), (b!"X-Forwarded-For", [])] },
    { method := b!"GET", path := b!"/users/{uid}", query := b!"uid=7",
      headers := [(b!"Host", []), (b!"X-Forwarded-For", [])] }, by decide, ?_, ?_, rfl, rfl, rfl, rfl⟩
  · exact fun up => call_proxied_sent _ _ _ up [] { method := b!"GET", query := b!"uid=7" } _ (by decide +kernel)
      (by decide +kernel) rfl (by decide +kernel) (by decide +kernel) (by decide +kernel)
  · exact fun up => call_proxied_sent _ _ _ up [.strMap [(b!"uid", b!"7")]] { method := b!"GET", query := b!"uid=7" } _
      (by decide +kernel) (by decide +kernel) rfl (by decide +kernel) (by decide +kernel) (by decide +kernel)

/-! ## The hypotheses are met -/

example : ∃ q, toHttp exHttpLib (exHttpReq [(b!"M_g", b!"grp"), (b!"http_X-A", b!"1"), (b!"HTTP_Method", b!"PUT")] [])
    [.strMap [(b!"a", b!"x y&z"), (b!"b", b!"")]] b!"GET" = some q ∧ q.method = b!"PUT" ∧
    q.headers.load b!"MOTAN-g" = some b!"grp" ∧ q.headers.load b!"X-A" = some b!"1" ∧
    q.body = b!"a=x+y%26z&b=" :=
  ⟨_, rfl, by decide, by decide, by decide, by decide⟩

example : Spec.asksProxy (exHttpReq [(b!"HTTP_PROXY", b!"T")] []) ∧ ¬ Spec.asksProxy (exHttpReq [(b!"HTTP_PROXY", b!"yes")] []) ∧
    Spec.renamed b!"M_aMM_b" b!"MOTAN-aMMOTAN-b" := by
  refine ⟨(asksProxy_iff _).1 (by decide), fun h => absurd ((asksProxy_iff _).2 h) (by decide), (renamed_iff _ _).2 (by decide)⟩

example : Spec.meantFor b!"http_X-A" b!"X-A" := .prefixed (by decide)

example : ∃ q ∈ (call exHttpLib ⟨[], [], b!"GET", true, b!"http://h/%s", none, [b!"u"]⟩
    (exHttpReq [(b!"u", b!"v"), (b!"host", b!"10.0.0.1")] [.strMap [(b!"a", b!"1")]])
    fun _ => some ⟨200, [], b!"ok", true⟩).sent,
    q.path = b!"http://h/%s?requestIdFromClient=" ++ natDigits 7 ++ b!"&a=1&u=v" ∧
    q.headers.load b!"X-Forwarded-For" = some b!"10.0.0.1" :=
  ⟨_, List.mem_singleton.2 rfl, rfl, by decide⟩

end Motan.Props
