import Verif.Proof.Simple3

/-!
# C08, C09, C10: the simple serialization

The grammar `Wire`, `norm` (an `int` comes back as `int64`), `storable` (maps are Go maps) and
`supported` are in `Verif/Spec/Simple.lean`.
-/

namespace Motan.Props

open Motan Motan.Simple BytesBuffer

theorem create_full (bs : Bytes) : (BytesBuffer.create bs .big).Full := by
  simp [Full, create]

theorem create_rest (bs : Bytes) : (BytesBuffer.create bs .big).rest = bs := by
  simp [BytesBuffer.rest, create]

theorem deSerializeBuf_wire {b : BytesBuffer} {p tl : Bytes} {v : Val} (hf : b.Full) (ho : b.order = .big)
    (h : Wire p v) (hr : b.rest = p ++ tl) : deSerializeBuf b = .ok (v, b.skip p.length) := by
  rw [deSerializeBuf]
  refine decVal_complete h b tl _ hf ho hr ?_
  have : b.rest.length = b.buf.length - b.rpos := by simp [BytesBuffer.rest]
  rw [← this, hr]; simp; omega

theorem deSerializeBuf_sound {b b' : BytesBuffer} {v : Val} (hf : b.Full) (ho : b.order = .big)
    (h : deSerializeBuf b = .ok (v, b')) : ∃ p, Took b p b' ∧ Wire p v :=
  (decode_sound_all _).1 b v b' hf ho h

theorem deSerializeBuf_fuel {b : BytesBuffer} (hf : b.Full) (ho : b.order = .big) :
    deSerializeBuf b ≠ .error .fuel := by
  apply (fuel_all _).1 b hf ho
  simp [BytesBuffer.rest]

theorem serialize_wire {size : Nat} {v : Val} {bs : Bytes} (h : serialize size v = .ok bs) (hs : storable v = true)
    (hl : bs.length < 2 ^ 32) : Wire bs (norm v) := by
  rw [serialize] at h
  split at h
  · simp at h
  · rename_i b hb
    simp only [Except.ok.injEq] at h
    subst h
    obtain ⟨p, e, w⟩ := serializeBuf_wire (new_wf size .big) rfl hb
    have hp : b.bytes = p := by rw [e.bytes]; simp [BytesBuffer.bytes, BytesBuffer.new]
    rw [hp] at hl ⊢
    exact w hl hs

theorem supported_serialize (b : BytesBuffer) (v : Val) :
    (supported v = true → ∃ b', serializeBuf b v = .ok b') ∧
    (supported v = false → serializeBuf b v = .error .notSupport) := by
  have h := serElem_ok b v
  cases v <;> first
    | (simp only [supported, serializeBuf]; exact h)
    | simp [supported, serializeBuf]

/-! ## C08 -/

/-- **C08.** Every supported value serializes, and (below 4 GiB) deserializing the bytes yields the value
back. -/
theorem simple_roundtrip (size : Nat) (v : Val) (hsup : supported v = true) (hst : storable v = true) :
    ∃ bs, serialize size v = .ok bs ∧
      (bs.length < 2 ^ 32 → deSerialize bs .none = .ok (norm v, none)) := by
  obtain ⟨b, hb⟩ := (supported_serialize (.new size .big) v).1 hsup
  have hser : serialize size v = .ok b.bytes := by rw [serialize, hb]
  refine ⟨b.bytes, hser, fun hl => ?_⟩
  have w := serialize_wire hser hst hl
  have hpos := wire_ne_nil w
  rw [deSerialize, if_neg (by omega), deSerializeHint]
  have hd := deSerializeBuf_wire (tl := []) (create_full b.bytes) rfl w (by simp [create_rest])
  cases hrb : (BytesBuffer.create b.bytes .big).readByte with
  | error e =>
    exfalso
    cases hbytes : b.bytes with
    | nil => rw [hbytes] at hpos; simp at hpos
    | cons c tl =>
      rw [readByte_rest (c := c) (tl := tl) (by rw [create_rest, hbytes])] at hrb
      simp at hrb
  | ok x =>
    obtain ⟨tp, b'⟩ := x
    simp [hd, Except.map]

/-- **C08.** A value with an unsupported part (a nil or an unsupported kind inside a generic
container, an unsupported kind, a NaN map key) is refused, not silently altered. -/
theorem simple_unsupported (size : Nat) (v : Val) (h : supported v = false) :
    serialize size v = .error .notSupport := by
  rw [serialize, (supported_serialize _ v).2 h]

/-- Nesting, an `int`, an empty and a non-empty map: the hypotheses are met and the value comes back. -/
example :
    let v : Val := .arr [.map [(.str b!"k", .arr [.i32 0xffffffff, .f64 0]), (.i16 3, .bytes [1, 2])], .strMap [(b!"a", b!"b")], .map []]
    supported v = true ∧ storable v = true ∧
      (match serialize 4 v with
        | .error _ => none
        | .ok bs => some (deSerialize bs .none)) = some (.ok (v, none)) := by
  refine ⟨by decide +kernel, by decide +kernel, by decide +kernel⟩

/-- A nil nested in a generic container is refused. -/
example : serialize 10 (.arr [.null]) = .error .notSupport := by decide +kernel

/-- The Go type of a value. -/
def typeOf : Val → Ty
  | .null | .other => .other
  | .str _ => .str
  | .strMap _ => .strMap
  | .bytes _ => .bytes
  | .strArr _ => .strArr
  | .bool _ => .bool
  | .byte _ => .byte
  | .i16 _ => .i16
  | .i32 _ => .i32
  | .i64 _ => .i64
  | .int _ => .int
  | .f32 _ => .f32
  | .f64 _ => .f64
  | .map _ => .map
  | .arr _ => .arr

/-- An empty container. -/
def emptyContainer : Val → Bool
  | .strMap m => m.isEmpty
  | .strArr l => l.isEmpty
  | .map m => m.isEmpty
  | .arr l => l.isEmpty
  | _ => false

/-- What the variable behind a `*T` hint holds: the value itself, an `int` as an `int`. -/
def viaPointer : Val → Val
  | .int v => .int v
  | v => norm v

theorem assign_typeOf (v : Val) (hn : v ≠ .null) (ho : v ≠ .other) (he : emptyContainer v = false) :
    assign (typeOf v) (norm v) = some (viaPointer v) := by
  cases v <;> simp [typeOf, norm, assign, viaPointer, emptyContainer] at *
  · exact he
  · exact he
  · rename_i m
    cases m with
    | nil => simp at he
    | cons p m => obtain ⟨k, v⟩ := p; simp [normP]
  · rename_i l
    cases l with
    | nil => simp at he
    | cons p m => simp [normL]

/-- **C08, typed targets.** Deserializing into a variable of the value's own type stores the value there
(for every non-nil value that is not an empty container). -/
theorem simple_typed_target (size : Nat) (v : Val) (hsup : supported v = true) (hst : storable v = true)
    (hn : v ≠ .null) (he : emptyContainer v = false) :
    ∃ bs, serialize size v = .ok bs ∧
      (bs.length < 2 ^ 32 → deSerialize bs (.ptr (typeOf v)) = .ok (norm v, some (viaPointer v))) := by
  obtain ⟨b, hb⟩ := (supported_serialize (.new size .big) v).1 hsup
  have hser : serialize size v = .ok b.bytes := by rw [serialize, hb]
  refine ⟨b.bytes, hser, fun hl => ?_⟩
  have w := serialize_wire hser hst hl
  have hpos := wire_ne_nil w
  have hother : v ≠ .other := by intro h; subst h; simp [supported, supportedIn] at hsup
  rw [deSerialize, if_neg (by omega), deSerializeHint]
  have hd := deSerializeBuf_wire (tl := []) (create_full b.bytes) rfl w (by simp [create_rest])
  cases hbytes : b.bytes with
  | nil => rw [hbytes] at hpos; simp at hpos
  | cons c tl =>
    rw [hbytes] at hd w
    rw [readByte_rest (c := c) (tl := tl) (by rw [create_rest])]
    simp only []
    rw [if_neg]
    · simp [hd, Except.map, assign_typeOf v hn hother he]
    · rintro ⟨hc, hh⟩
      simp only [Hint.ptr.injEq, reduceCtorEq, false_or] at hh
      have hv : ∃ s, v = .bytes s := by
        cases v <;> simp [typeOf] at hh
        exact ⟨_, rfl⟩
      obtain ⟨s, rfl⟩ := hv
      have : c = 3 := by
        simp only [norm] at w
        cases w
        rfl
      subst this
      simp [sString] at hc

/-- **C08, compatibility.** A string can be read into a byte slice. -/
theorem simple_string_as_bytes (size : Nat) (s : Bytes) (hl : s.length + 5 < 2 ^ 32) :
    ∃ bs, serialize size (.str s) = .ok bs ∧ deSerialize bs (.ptr .bytes) = .ok (.bytes s, some (.bytes s)) ∧
      deSerialize bs .byteSliceType = .ok (.bytes s, none) := by
  obtain ⟨b, hb⟩ := (supported_serialize (.new size .big) (.str s)).1 rfl
  have hser : serialize size (.str s) = .ok b.bytes := by rw [serialize, hb]
  refine ⟨b.bytes, hser, ?_⟩
  have hbytes : b.bytes = 1 :: lp s := by
    simp only [serializeBuf, serElem, encodeFlat, Except.ok.injEq] at hb
    subst hb
    have h1 := ext_writeByte (new_wf size .big) sString
    have h2 := h1.trans (ext_strNoTag h1.wf (by rw [h1.order]; rfl) s)
    rw [h2.bytes]
    simp [BytesBuffer.bytes, BytesBuffer.new, sString]
  have hf := create_full b.bytes
  have hr : (BytesBuffer.create b.bytes .big).rest = [1] ++ (lp s ++ []) := by rw [create_rest, hbytes]; simp
  have hd := decodeString_lp (full_skip hf hr) rfl (by omega) (rest_skip hr)
  have hlen : b.bytes.length ≠ 0 := by rw [hbytes]; simp
  have hb1 := readByte_rest (b := BytesBuffer.create b.bytes .big) (c := 1) (tl := lp s ++ [])
    (by rw [hr]; rfl)
  simp only [List.length_singleton] at hd
  constructor <;>
  · rw [deSerialize, if_neg hlen, deSerializeHint, hb1]
    simp [sString, hd, Except.map]

/-- Finding: an empty container does not reach a typed target, which keeps its old content. -/
theorem simple_empty_target_counterexample :
    serialize 10 (.strMap []) = .ok [2, 0, 0, 0, 0] ∧
    deSerialize [2, 0, 0, 0, 0] (.ptr .strMap) = .ok (.strMap [], none) := by decide +kernel

/-- Finding: a generic map with the `int` key 1 and the `int64` key 1 loses an entry. -/
theorem simple_int_keys_counterexample :
    (match serialize 10 (.map [(.int 1, .str b!"a"), (.i64 1, .str b!"b")]) with
      | .error _ => none
      | .ok bs => some (deSerialize bs .none)) = some (.ok (.map [(.i64 1, .str b!"b")], none)) := by decide +kernel

/-! ## C09 -/

/-- **C09.** Exactly the byte strings of the grammar are accepted: `DeSerialize` reads a value from the
front of the bytes if and only if some prefix is an encoding of it; no byte after that prefix has been
looked at for the result (it is the same whatever follows). In particular every container's announced
size is exactly the size of its elements. -/
theorem simple_decode_iff (bs : Bytes) (v : Val) (n : Nat) :
    (∃ b', deSerializeBuf (.create bs .big) = .ok (v, b') ∧ b'.rpos = n) ↔
      (n ≤ bs.length ∧ Wire (bs.take n) v) := by
  constructor
  · rintro ⟨b', h, hn⟩
    obtain ⟨p, t, w⟩ := deSerializeBuf_sound (create_full bs) rfl h
    have hr := t.rest
    rw [create_rest] at hr
    have hp : n = p.length := by have := t.rpos; simp [create] at this; omega
    subst hp
    rw [hr, List.take_left' rfl]
    exact ⟨by simp, w⟩
  · rintro ⟨hn, w⟩
    have := deSerializeBuf_wire (tl := bs.drop n) (create_full bs) rfl w (by rw [create_rest, List.take_append_drop])
    refine ⟨_, this, ?_⟩
    simp [skip, create]; omega

/-- **C09.** Deserializing any bytes ends with a value or one of the code's own errors (or the panic
below); the model's recursion bound is never reached. -/
theorem simple_decode_total (bs : Bytes) : deSerializeBuf (.create bs .big) ≠ .error .fuel :=
  deSerializeBuf_fuel (create_full bs) rfl

theorem map_panic {α β : Type} {r : Except Err α} {g : α → β} (h : r.map g = .error .panic) : r = .error .panic := by
  cases r with
  | error e => simpa [Except.map] using h
  | ok x => simp [Except.map] at h

theorem decodeString_panic (b : BytesBuffer) : decodeString b ≠ .error .panic := by
  rw [decodeString]
  split
  · simp
  · split <;> simp

theorem decStrs_panic : ∀ (f : Nat) (b : BytesBuffer) (e : Nat) (a : List Bytes), decStrs f b e a ≠ .error .panic := by
  intro f
  induction f with
  | zero => simp [decStrs]
  | succ f ih =>
    intro b e a
    rw [decStrs]
    split
    · split
      · rename_i e' he; intro hc; simp only [Except.error.injEq] at hc; subst hc; exact decodeString_panic b he
      · exact ih _ _ _
    · split <;> simp

theorem decStrMap_panic : ∀ (f : Nat) (b : BytesBuffer) (e : Nat) (a : AMap Bytes Bytes),
    decStrMap f b e a ≠ .error .panic := by
  intro f
  induction f with
  | zero => simp [decStrMap]
  | succ f ih =>
    intro b e a
    rw [decStrMap]
    split
    · split
      · rename_i e' he; intro hc; simp only [Except.error.injEq] at hc; subst hc; exact decodeString_panic b he
      · rename_i s b1 h1
        split
        · rename_i e' he; intro hc; simp only [Except.error.injEq] at hc; subst hc; exact decodeString_panic b1 he
        · exact ih _ _ _
    · split <;> simp

theorem decScalar_panic {b : BytesBuffer} {tp : UInt8} {r : Except Err (Val × BytesBuffer)}
    (h : decScalar b tp = some r) : r ≠ .error .panic := by
  have hrd : ∀ {α : Type} (r : Except BufErr (α × BytesBuffer)), rd r ≠ .error .panic := by
    intro α r; cases r <;> simp [rd]
  simp only [decScalar] at h
  repeat' split at h
  all_goals first
    | (simp only [Option.some.injEq] at h; subst h; first | exact fun hp => hrd _ (map_panic hp) | simp)
    | simp at h

/-- The decoder panics only while reading a generic map (tag 20) with an unhashable key, which starts with
one of the container or byte-array tags. -/
theorem panic_all : ∀ f : Nat,
    (∀ b : BytesBuffer, b.Full → b.order = .big → decVal f b = .error .panic →
      ∃ pre p k tl, b.rest = pre ++ p ++ tl ∧ (20 : UInt8) ∈ pre ∧ Wire p k ∧ hashable k = false) ∧
    (∀ (b : BytesBuffer) (e : Nat) (a : List Val), b.Full → b.order = .big →
      decElems f b e a = .error .panic →
      ∃ pre p k tl, b.rest = pre ++ p ++ tl ∧ (20 : UInt8) ∈ pre ∧ Wire p k ∧ hashable k = false) ∧
    (∀ (b : BytesBuffer) (e : Nat) (a : List (Val × Val)), b.Full → b.order = .big →
      decPairs f b e a = .error .panic →
      ∃ pre p k tl, b.rest = pre ++ p ++ tl ∧ Wire p k ∧ hashable k = false) := by
  intro f
  have shift : ∀ {b b1 : BytesBuffer} {q : Bytes}, Took b q b1 →
      (∃ pre p k tl, b1.rest = pre ++ p ++ tl ∧ (20 : UInt8) ∈ pre ∧ Wire p k ∧ hashable k = false) →
      (∃ pre p k tl, b.rest = pre ++ p ++ tl ∧ (20 : UInt8) ∈ pre ∧ Wire p k ∧ hashable k = false) := by
    rintro b b1 q t ⟨pre, p, k, tl, h1, h2, h3, h4⟩
    exact ⟨q ++ pre, p, k, tl, by rw [t.rest, h1]; simp, List.mem_append_right _ h2, h3, h4⟩
  have shift2 : ∀ {b b1 : BytesBuffer} {q : Bytes}, Took b q b1 →
      (∃ pre p k tl, b1.rest = pre ++ p ++ tl ∧ Wire p k ∧ hashable k = false) →
      (∃ pre p k tl, b.rest = pre ++ p ++ tl ∧ Wire p k ∧ hashable k = false) := by
    rintro b b1 q t ⟨pre, p, k, tl, h1, h3, h4⟩
    exact ⟨q ++ pre, p, k, tl, by rw [t.rest, h1]; simp, h3, h4⟩
  induction f with
  | zero => simp [decVal, decElems, decPairs]
  | succ f ih =>
    obtain ⟨ih1, ih2, ih3⟩ := ih
    refine ⟨?_, ?_, ?_⟩
    · intro b hf ho h
      rw [decVal] at h
      split at h
      · simp at h
      · rename_i tp b1 h1
        have t1 := readByte_took h1
        split at h
        · rename_i r hr; exact absurd h (decScalar_panic hr)
        · split at h
          · exact absurd (map_panic h) (decodeString_panic _)
          split at h
          · exact absurd (map_panic h) (decodeString_panic _)
          split at h
          · split at h
            · simp at h
            · rename_i total b2 h2
              obtain ⟨t2, _⟩ := readInt_took (t1.full hf) (t1.order.trans ho) h2
              have t12 := t1.trans t2
              have hf2 := t12.full hf
              have ho2 := t12.order.trans ho
              simp only at h
              split at h
              · split at h
                · simp at h
                · exact absurd (map_panic h) (decStrMap_panic _ _ _ _)
              split at h
              · split at h
                · simp at h
                · exact absurd (map_panic h) (decStrs_panic _ _ _ _)
              split at h
              · rename_i htp
                split at h
                · simp at h
                · obtain ⟨pre, p, k, tl, g1, g3, g4⟩ := ih3 _ _ _ hf2 ho2 (map_panic h)
                  refine ⟨[tp] ++ beBytes 4 total ++ pre, p, k, tl, by rw [t12.rest, g1]; simp, ?_, g3, g4⟩
                  rw [htp]; simp [sMap]
              · split at h
                · simp at h
                · exact shift t12 (ih2 _ _ _ hf2 ho2 (map_panic h))
          · simp at h
    · intro b e a hf ho h
      rw [decElems] at h
      split at h
      · split at h
        · rename_i e' he; simp only [Except.error.injEq] at h; subst h
          exact ih1 b hf ho he
        · rename_i v b1 h1
          obtain ⟨p, t1, w⟩ := (decode_sound_all f).1 _ _ _ hf ho h1
          exact shift t1 (ih2 _ _ _ (t1.full hf) (t1.order.trans ho) h)
      · split at h <;> simp at h
    · intro b e a hf ho h
      rw [decPairs] at h
      split at h
      · split at h
        · rename_i e' he; simp only [Except.error.injEq] at h; subst h
          obtain ⟨pre, p, k, tl, g1, _, g3, g4⟩ := ih1 b hf ho he
          exact ⟨pre, p, k, tl, g1, g3, g4⟩
        · rename_i v b1 h1
          obtain ⟨p, t1, w⟩ := (decode_sound_all f).1 _ _ _ hf ho h1
          split at h
          · rename_i e' he; simp only [Except.error.injEq] at h; subst h
            obtain ⟨pre, p, k, tl, g1, _, g3, g4⟩ := ih1 b1 (t1.full hf) (t1.order.trans ho) he
            exact shift2 t1 ⟨pre, p, k, tl, g1, g3, g4⟩
          · rename_i v2 b2 h2
            obtain ⟨p2, t2, w2⟩ := (decode_sound_all f).1 _ _ _ (t1.full hf) (t1.order.trans ho) h2
            split at h
            · exact shift2 (t1.trans t2) (ih3 _ _ _ ((t1.trans t2).full hf) ((t1.trans t2).order.trans ho) h)
            · rename_i hk
              exact ⟨[], p, v, b1.rest, by rw [t1.rest]; rfl, w, by simpa using hk⟩
      · split at h <;> simp at h

/-- **C09.** The only way to make the decoder panic is a complete encoding of an unhashable value (byte array,
string array, string map, map, array) after a map tag; any other bytes give a value or an error. -/
theorem simple_decode_panic (bs : Bytes) (h : deSerializeBuf (.create bs .big) = .error .panic) :
    ∃ pre p k tl, bs = pre ++ p ++ tl ∧ (20 : UInt8) ∈ pre ∧ Wire p k ∧ hashable k = false := by
  have := (panic_all _).1 _ (create_full bs) rfl h
  rwa [create_rest] at this

/-- Finding: such bytes exist (a map with one entry whose key is an empty byte array). -/
theorem simple_decode_panic_counterexample :
    deSerialize [20, 0, 0, 0, 6, 3, 0, 0, 0, 0, 0] .none = .error .panic := by decide +kernel

/-- An element that crosses the announced end of its container is an error. -/
example : deSerialize [21, 0, 0, 0, 2, 7, 0, 1] .none = .error .wrongSize := by decide +kernel

/-! ## C10 -/

theorem serializeAll_wire (vs : List Val) : ∀ {b b' : BytesBuffer}, b.WF → b.order = .big →
    (∀ v ∈ vs, storable v = true) → serializeAll b vs = .ok b' →
    ∃ xs : List (Bytes × Val), Ext b (xs.map Prod.fst).flatten b' ∧
      ((xs.map Prod.fst).flatten.length < 2 ^ 32 → (∀ x ∈ xs, Wire x.1 x.2) ∧ xs.map Prod.snd = vs.map norm) := by
  induction vs with
  | nil =>
    intro b b' hw ho _ h
    simp only [serializeAll, Except.ok.injEq] at h
    subst h
    exact ⟨[], ext_refl hw, fun _ => ⟨by simp, rfl⟩⟩
  | cons v vs ih =>
    intro b b' hw ho hst h
    simp only [serializeAll] at h
    split at h
    · simp at h
    · rename_i b1 h1
      obtain ⟨p, e1, w1⟩ := serializeBuf_wire hw ho h1
      obtain ⟨xs, e2, w2⟩ := ih e1.wf (e1.order.trans ho) (fun v hv => hst v (List.mem_cons_of_mem _ hv)) h
      refine ⟨(p, norm v) :: xs, e1.trans e2, fun hl => ?_⟩
      simp only [List.map_cons, List.flatten_cons, List.length_append] at hl
      obtain ⟨g1, g2⟩ := w2 (by omega)
      refine ⟨?_, by simp [g2]⟩
      intro x hx
      rcases List.mem_cons.mp hx with rfl | hx
      · exact w1 (by omega) (hst v (List.mem_cons_self ..))
      · exact g1 x hx

theorem multiLoop_ok (xs : List (Bytes × Val)) : ∀ (b : BytesBuffer) (f : Nat) (ret : List Val), b.Full → b.order = .big →
    (∀ x ∈ xs, Wire x.1 x.2) → b.rest = (xs.map Prod.fst).flatten → b.rest.length + 1 ≤ f →
    multiLoop f b ret = .ok (ret ++ xs.map Prod.snd) := by
  induction xs with
  | nil =>
    intro b f ret hf ho _ hr hfu
    obtain ⟨f, rfl⟩ : ∃ g, f = g + 1 := ⟨f - 1, by omega⟩
    have : b.remain = 0 := by rw [remain_full hf, hr]; rfl
    simp [multiLoop, this]
  | cons x xs ih =>
    intro b f ret hf ho hw hr hfu
    obtain ⟨f, rfl⟩ : ∃ g, f = g + 1 := ⟨f - 1, by omega⟩
    simp only [List.map_cons, List.flatten_cons] at hr
    have w := hw x (List.mem_cons_self ..)
    have hpos := wire_ne_nil w
    have hlen : b.rest.length = x.1.length + (xs.map Prod.fst).flatten.length := by rw [hr]; simp
    have hrem : b.remain > 0 := by rw [remain_full hf]; omega
    rw [multiLoop, if_pos hrem, deSerializeBuf_wire hf ho w hr]
    have h2 := rest_skip hr
    simp only []
    rw [ih _ f _ (full_skip hf hr) ho (fun x hx => hw x (List.mem_cons_of_mem _ hx)) h2 (by rw [h2]; omega)]
    simp

theorem serializeAll_ok (vs : List Val) : ∀ b : BytesBuffer, (∀ v ∈ vs, supported v = true) →
    ∃ b', serializeAll b vs = .ok b' := by
  induction vs with
  | nil => intro b _; exact ⟨b, rfl⟩
  | cons v vs ih =>
    intro b h
    obtain ⟨b1, h1⟩ := (supported_serialize b v).1 (h v (List.mem_cons_self ..))
    rw [serializeAll, h1]
    exact ih b1 fun v hv => h v (List.mem_cons_of_mem _ hv)

theorem serializeMulti_wire {size : Nat} {vs : List Val} (hsup : ∀ v ∈ vs, supported v = true)
    (hst : ∀ v ∈ vs, storable v = true) :
    ∃ bs, serializeMulti size vs = .ok bs ∧ ∃ xs : List (Bytes × Val), bs = (xs.map Prod.fst).flatten ∧
      (bs.length < 2 ^ 32 → (∀ x ∈ xs, Wire x.1 x.2) ∧ xs.map Prod.snd = vs.map norm) := by
  rw [serializeMulti]
  split
  · rename_i h0
    have hv : vs = [] := List.length_eq_zero_iff.mp h0
    subst hv
    exact ⟨[], rfl, [], rfl, fun _ => ⟨by simp, rfl⟩⟩
  · obtain ⟨b, hb⟩ := serializeAll_ok vs (.new size .big) hsup
    obtain ⟨xs, e, w⟩ := serializeAll_wire vs (new_wf size .big) rfl hst hb
    rw [hb]
    have hp : b.bytes = (xs.map Prod.fst).flatten := by rw [e.bytes]; simp [BytesBuffer.bytes, BytesBuffer.new]
    exact ⟨_, rfl, xs, hp, fun hl => w (by rwa [hp] at hl)⟩

/-- **C10.** A list of supported arguments serializes, and reading the bytes without hints returns the list,
in order and with its length. -/
theorem simple_multi_roundtrip (size : Nat) (vs : List Val) (hsup : ∀ v ∈ vs, supported v = true)
    (hst : ∀ v ∈ vs, storable v = true) :
    ∃ bs, serializeMulti size vs = .ok bs ∧
      (bs.length < 2 ^ 32 → deSerializeMulti bs none = .ok (vs.map fun v => (norm v, none))) := by
  obtain ⟨bs, h1, xs, h2, h3⟩ := serializeMulti_wire (size := size) hsup hst
  refine ⟨bs, h1, fun hl => ?_⟩
  obtain ⟨w, hx⟩ := h3 hl
  have := multiLoop_ok xs (.create bs .big) (bs.length + 1) [] (create_full bs) rfl w
    (by rw [create_rest, h2]) (by rw [create_rest]; omega)
  rw [deSerializeMulti, this, hx]
  simp [Except.map, Function.comp_def]

theorem multiHints_ok (xs : List (Bytes × Val)) : ∀ (b : BytesBuffer), b.Full → b.order = .big →
    (∀ x ∈ xs, Wire x.1 x.2) → b.rest = (xs.map Prod.fst).flatten →
    multiHints b (List.replicate xs.length .none) = .ok (xs.map fun x => (x.2, none)) := by
  induction xs with
  | nil => intro b _ _ _ _; rfl
  | cons x xs ih =>
    intro b hf ho hw hr
    simp only [List.map_cons, List.flatten_cons] at hr
    have w := hw x (List.mem_cons_self ..)
    have hpos := wire_ne_nil w
    obtain ⟨c, tl, hc⟩ : ∃ c tl, b.rest = c :: tl := by
      cases hr' : b.rest with
      | nil => rw [hr'] at hr; simp at hr; rw [hr.1] at hpos; simp at hpos
      | cons c tl => exact ⟨c, tl, rfl⟩
    have h2 := rest_skip hr
    simp only [List.length_cons, List.replicate_succ, multiHints, deSerializeHint, readByte_rest hc,
      deSerializeBuf_wire hf ho w hr]
    have := ih _ (full_skip hf hr) ho (fun x hx => hw x (List.mem_cons_of_mem _ hx)) h2
    simp [Except.map, this]

/-- **C10.** The same with as many (untyped) hints as arguments. -/
theorem simple_multi_roundtrip_hints (size : Nat) (vs : List Val) (hsup : ∀ v ∈ vs, supported v = true)
    (hst : ∀ v ∈ vs, storable v = true) :
    ∃ bs, serializeMulti size vs = .ok bs ∧
      (bs.length < 2 ^ 32 →
        deSerializeMulti bs (some (List.replicate vs.length .none)) = .ok (vs.map fun v => (norm v, none))) := by
  obtain ⟨bs, h1, xs, h2, h3⟩ := serializeMulti_wire (size := size) hsup hst
  refine ⟨bs, h1, fun hl => ?_⟩
  obtain ⟨w, hx⟩ := h3 hl
  have hlen : xs.length = vs.length := by have := congrArg List.length hx; simpa using this
  have := multiHints_ok xs (.create bs .big) (create_full bs) rfl w (by rw [create_rest, h2])
  rw [hlen] at this
  rw [deSerializeMulti]
  simp only [this]
  have e : (xs.map fun x => ((x.2, none) : Val × Option Val)) = (xs.map Prod.snd).map fun v => (v, none) := by simp
  rw [e, hx]; simp

example : supported (.arr [.i64 5]) = true ∧ storable (.arr [.i64 5]) = true ∧
    serializeMulti 3 [.null, .arr [.i64 5], .str b!"x"] = .ok [0, 21, 0, 0, 0, 2, 9, 10, 1, 0, 0, 0, 1, 120] ∧
    deSerializeMulti [0, 21, 0, 0, 0, 2, 9, 10, 1, 0, 0, 0, 1, 120] none
      = .ok [(.null, none), (.arr [.i64 5], none), (.str b!"x", none)] := by decide +kernel

/-- Finding: a byte string cut inside the last argument can be accepted as a shorter list: the truncated
second argument (an array cut after its first element) vanishes without an error. -/
theorem simple_multi_truncated_counterexample :
    serializeMulti 10 [.bool true, .arr [.byte 7, .byte 8]] = .ok [5, 1, 21, 0, 0, 0, 4, 6, 7, 6, 8] ∧
    deSerializeMulti [5, 1, 21, 0, 0, 0, 4, 6, 7] none = .ok [(.bool true, none)] := by decide +kernel

end Motan.Props
