import Verif.Model.Convert

/-!
# Model of `protocol/motan1Protocol.go`

The motan1 frame, the Java object stream inside it, requests, responses and the built-in answers.

Simplifications: the read position of an object stream (`bytes`, `pos`) is represented by the unread
part `bytes[pos:]`; a position past the end, which only the unchecked skip at 741 produces, is
represented by the empty rest (every later read then sees no bytes, as in the code). The `BytesBuffer`
that collects output is represented by the bytes written so far: that writes append is what C01 proves.
-/

namespace Motan.Motan1

open Motan2 (Meta readAtLeast)
open Convert (Lib Exn toInt64)

/-- protocol/motan1Protocol.go:13-37 and 72. -/
def InnerMotanMagic : Nat := 0xf0f0
def V1L1HeaderLength : Nat := 16
def V1AllHeaderLength : Nat := 32
def versionV1Compress : UInt8 := 0x02
def OS_MAGIC : Nat := 0xaced
def OS_VERSION : Nat := 0x0005
def GZIP_MAGIC : Nat := 0x1f8b
def TC_ARRAY : UInt8 := 0x75
def TC_CLASSDESC : UInt8 := 0x72
def TC_NULL : UInt8 := 0x70
def TC_REFERENCE : UInt8 := 0x71
def TC_BLOCKDATA : UInt8 := 0x77
def TC_BLOCKDATALONG : UInt8 := 0x7A
def MAX_BLOCK_SIZE : Nat := 1024

/-- protocol/motan1Protocol.go:48-55, the flags `parseRes` looks at. -/
def FLAG_RESPONSE : UInt8 := 0x01
def FLAG_RESPONSE_EXCEPTION : UInt8 := 0x05

/-- The errors (protocol/motan1Protocol.go:85-91, protocol/motanProtocol.go:128-138, `io`), and panics. -/
inductive Err where
  | eof | overSize | magicNum | wrongSize | osVersion | unsupported | parseAttachment | notV1 | gzip
  | panic
  deriving DecidableEq, Repr

/-- protocol/motan1Protocol.go:93-100 `MotanV1Message`. -/
structure Msg where
  origin : Bytes
  innerVersion : UInt8
  flag : UInt8
  rid : UInt64
  innerLength : Nat
  deriving DecidableEq, Repr

/-- protocol/motan1Protocol.go:171-203 `ReadV1Message` on a connection whose remaining input is `s`:
the result and the unread input. The time stamp is not modelled. -/
def readV1Message (maxLen : Nat) (s : Bytes) : Except Err Msg × Bytes :=
  if s.length < V1L1HeaderLength then (.error .eof, s)
  else
    let length := V1L1HeaderLength + beVal ((s.drop 12).take 4)
    if length < V1AllHeaderLength ∨ length > V1L1HeaderLength + maxLen then (.error .overSize, s)
    else
      match readAtLeast length s with
      | (.error _, s) => (.error .eof, s)
      | (.ok ori, s) =>
        if beVal ((ori.drop 16).take 2) ≠ InnerMotanMagic then (.error .magicNum, s)
        else
          let innerLength := beVal ((ori.drop 28).take 4)
          if innerLength + V1AllHeaderLength ≠ length then (.error .wrongSize, s)
          else
            (.ok { origin := ori, innerVersion := ori.getD 18 0, flag := ori.getD 19 0,
                   rid := UInt64.ofNat (beVal ((ori.drop 20).take 8)), innerLength := innerLength }, s)

/-! ### Patching frames -/

/-- protocol/motan1Protocol.go:337-344 `writeV1Rid`. -/
def writeV1Rid (b : Bytes) (rid : UInt64) : Bytes :=
  if b.length ≥ V1AllHeaderLength then
    copyAt (copyAt b 4 (beBytes 8 rid.toNat)) 20 (beBytes 8 rid.toNat)
  else b

/-- protocol/motan1Protocol.go:346-353 `writeV1InnerLength` (`innerLength` is a `uint32`; so is the sum). -/
def writeV1InnerLength (b : Bytes) (innerLength : UInt32) : Bytes :=
  if b.length ≥ V1AllHeaderLength then
    copyAt (copyAt b 12 (beBytes 4 (innerLength + 16).toNat)) 28 (beBytes 4 innerLength.toNat)
  else b

/-! ### Blocks -/

/-- protocol/motan1Protocol.go:395-403 `writeBlockHeader`: the bytes it writes. -/
def writeBlockHeader (l : Nat) : Bytes :=
  if l ≤ 0xff then [TC_BLOCKDATA, UInt8.ofNat l]
  else TC_BLOCKDATALONG :: beBytes 4 l

/-- The local variables of `writeBlock` (protocol/motan1Protocol.go:356-364) and the output. -/
structure WB where
  out : Bytes
  first : Bool
  last : Bool
  blockPos : Nat
  tRemain : Nat
  deriving DecidableEq, Repr

/-- protocol/motan1Protocol.go:372-381: start a new block if needed. -/
def newBlock (st : WB) : WB :=
  if st.first || st.blockPos ≥ MAX_BLOCK_SIZE then
    { out := st.out ++ writeBlockHeader (min st.tRemain MAX_BLOCK_SIZE), first := false,
      last := if st.tRemain ≤ MAX_BLOCK_SIZE then true else st.last, blockPos := 0, tRemain := st.tRemain }
  else st

theorem newBlock_pos (st : WB) : (newBlock st).blockPos < MAX_BLOCK_SIZE := by
  rw [newBlock]; split
  · show 0 < MAX_BLOCK_SIZE; decide
  · rename_i h; simp only [ge_iff_le, Bool.or_eq_true, decide_eq_true_eq, not_or, Nat.not_le] at h; exact h.2

/-- protocol/motan1Protocol.go:370-390: the inner loop; `b` is the part of the slice not yet written.
(`ws > 0` always holds, see `newBlock_pos`.) -/
def writeChunk (b : Bytes) (st : WB) : WB :=
  if h : b = [] then st
  else
    let st1 := newBlock st
    let ws := min b.length (MAX_BLOCK_SIZE - st1.blockPos)
    writeChunk (b.drop ws)
      { st1 with out := st1.out ++ b.take ws, blockPos := st1.blockPos + ws, tRemain := st1.tRemain - ws }
termination_by b.length
decreasing_by
  have h1 := newBlock_pos st
  have h2 : 0 < b.length := List.length_pos_iff.mpr h
  simp only [List.length_drop]
  omega

/-- protocol/motan1Protocol.go:365-392: the outer loop. -/
def writeChunks (st : WB) : List Bytes → WB
  | [] => st
  | b :: bs =>
    if st.last then writeChunks { st with out := st.out ++ b, tRemain := st.tRemain - b.length } bs
    else writeChunks (writeChunk b st) bs

/-- protocol/motan1Protocol.go:355-393 `writeBlock`: the bytes it writes. -/
def writeBlock (bs : List Bytes) : Bytes :=
  (writeChunks ⟨[], true, false, 0, (bs.map List.length).sum⟩ bs).out

/-- protocol/motan1Protocol.go:756-768 (and 799-811): the length of a block after its type byte `t`. -/
def blockLen (t : UInt8) (s : Bytes) : Option (Except Err (Nat × Bytes)) :=
  if t = TC_BLOCKDATA then
    match s with
    | [] => some (.error .panic)
    | c :: s => some (.ok (c.toNat, s))
  else if t = TC_BLOCKDATALONG then
    if s.length < 4 then some (.error .eof) else some (.ok (beVal (s.take 4), s.drop 4))
  else none

theorem blockLen_le {t : UInt8} {s : Bytes} {l : Nat} {r : Bytes} (h : blockLen t s = some (.ok (l, r))) :
    r.length ≤ s.length := by
  rw [blockLen.eq_def] at h
  split at h
  · split at h <;> simp at h
    rw [← h.2]; simp
  · split at h
    · split at h <;> simp at h
      rw [← h.2]; simp
    · simp at h

/-- protocol/motan1Protocol.go:790-822 `appendBlockBytes`. A byte that starts no block has been consumed
when the loop ends on it. -/
def appendBlockBytes (acc : Bytes) (s : Bytes) : Except Err (Bytes × Bytes) :=
  match s with
  | [] => .ok (acc, [])
  | t :: s =>
    match _h : blockLen t s with
    | none => .ok (acc, s)
    | some (.error e) => .error e
    | some (.ok (l, s)) =>
      if s.length < l then .error .eof
      else if l ≠ MAX_BLOCK_SIZE then .ok (acc ++ s.take l, s.drop l)
      else appendBlockBytes (acc ++ s.take l) (s.drop l)
termination_by s.length
decreasing_by
  have := blockLen_le _h
  simp only [List.length_drop, List.length_cons]; omega

/-- protocol/motan1Protocol.go:747-788 `getBlock`: the content and the unread rest. -/
def getBlock (s : Bytes) : Except Err (Bytes × Bytes) :=
  if s.length < 2 then .error .eof
  else
    match s with
    | [] => .error .eof
    | t :: s =>
      match blockLen t s with
      | none => .error .unsupported
      | some (.error e) => .error e
      | some (.ok (l, s)) =>
        if s.length < l then .error .eof
        else
          let content := s.take l
          let rest := s.drop l
          if l = MAX_BLOCK_SIZE then
            match rest with
            | [] => .ok (content, rest)
            | nt :: _ =>
              if nt = TC_BLOCKDATA ∨ nt = TC_BLOCKDATALONG then appendBlockBytes content rest
              else .ok (content, rest)
          else .ok (content, rest)

/-! ### Reading from a block: the functions get and return the unread part of the block -/

/-- protocol/motan1Protocol.go:631-638 `readInt16FromBlock`: the value is an `int16`. -/
def readInt16 (b : Bytes) : Except Err (Int × Bytes) :=
  if b.length < 2 then .error .eof
  else
    let u := beVal (b.take 2)
    .ok (if u < 32768 then (u : Int) else (u : Int) - 65536, b.drop 2)

/-- protocol/motan1Protocol.go:649-656 `readIntFromBlock`. -/
def readInt (b : Bytes) : Except Err (Nat × Bytes) :=
  if b.length < 4 then .error .eof else .ok (beVal (b.take 4), b.drop 4)

/-- protocol/motan1Protocol.go:667-674 `readLongFromBlock`. -/
def readLong (b : Bytes) : Except Err (Int × Bytes) :=
  if b.length < 8 then .error .eof else .ok (toInt64 (UInt64.ofNat (beVal (b.take 8))), b.drop 8)

/-- protocol/motan1Protocol.go:606-620 `readUtfFromBlock`. -/
def readUtf (b : Bytes) : Except Err (Bytes × Bytes) :=
  match readInt16 b with
  | .error e => .error e
  | .ok (l, b) =>
    if l > 0 then
      if b.length < l.toNat then .error .eof else .ok (b.take l.toNat, b.drop l.toNat)
    else .ok ([], b)

/-- protocol/motan1Protocol.go:692-705: the loop of `readAttachments`. -/
def readPairs : Nat → Meta → Bytes → Except Err Meta
  | 0, m, _ => .ok m
  | n + 1, m, b =>
    match readUtf b with
    | .error e => .error e
    | .ok (k, b) =>
      match readUtf b with
      | .error e => .error e
      | .ok (v, b) => readPairs n (m.store k v) b

/-- protocol/motan1Protocol.go:677-709 `readAttachments`. -/
def readAttachments (version : UInt8) (b : Bytes) : Except Err Meta :=
  let size : Except Err (Int × Bytes) :=
    if version = versionV1Compress then readInt16 b
    else (readInt b).map fun (n, b) => ((n : Int), b)
  match size with
  | .error e => .error e
  | .ok (n, b) => readPairs n.toNat [] b

/-! ### Object streams -/

/-- protocol/motan1Protocol.go:441-451 `newObjectStream`: the stream and whether it was compressed.
`lib.gunzip` is `DecodeGzip` of a non-empty slice. -/
def newObjectStream (lib : Lib) (msg : Msg) : Except Err (Bytes × Bool) :=
  if msg.innerVersion = 0x02 ∧ msg.origin.length > 34 ∧ beVal ((msg.origin.drop 32).take 2) = GZIP_MAGIC then
    match lib.gunzip (msg.origin.drop 32) with
    | none => .error .gzip
    | some d => .ok (d, true)
  else .ok (msg.origin.drop V1AllHeaderLength, false)

/-- protocol/motan1Protocol.go:571-588 `checkObjectStream`: the first block and the rest. -/
def checkObjectStream (s : Bytes) : Except Err (Bytes × Bytes) :=
  if s.length < 4 then .error .osVersion
  else if beVal (s.take 2) ≠ OS_MAGIC ∨ beVal ((s.drop 2).take 2) ≠ OS_VERSION then .error .osVersion
  else getBlock (s.drop 4)

/-- protocol/motan1Protocol.go:713-744 `skipByteArray`, on a stream whose next byte is the array type:
the content (only read if `withContent`) and the rest. With content, the slice expression at 739 panics
if the announced length exceeds the stream (its capacity equals its length; a decompressed stream may have
more capacity, and then the code may take the bytes behind it instead of panicking, which is not modelled);
without, the position may pass the end. -/
def skipByteArray (withContent : Bool) (s : Bytes) : Except Err (Bytes × Bytes) :=
  if s.length < 10 then .error .eof
  else
    let t := s.getD 1 0
    let skip : Except Err Bytes :=
      if t = TC_CLASSDESC then
        if s.length < 23 then .error .eof else .ok (s.drop 19)
      else if t = TC_REFERENCE then .ok (s.drop 6)
      else .error .unsupported
    match skip with
    | .error e => .error e
    | .ok s =>
      if s.length < 4 then .error .eof
      else
        let length := beVal (s.take 4)
        let s := s.drop 4
        if withContent then
          if length > s.length then .error .panic else .ok (s.take length, s.drop length)
        else .ok ([], s.drop length)

theorem skipByteArray_lt {w : Bool} {s c r : Bytes} (h : skipByteArray w s = .ok (c, r)) :
    r.length < s.length := by
  rw [skipByteArray] at h
  split at h
  · simp at h
  · rename_i hs
    simp only at h
    split at h
    · simp at h
    · rename_i s1 h1
      have hs1 : s1.length ≤ s.length := by
        split at h1
        · split at h1 <;> simp at h1
          rw [← h1]; simp
        · split at h1 <;> simp at h1
          rw [← h1]; simp
      split at h
      · simp at h
      · split at h
        · split at h <;> simp at h
          rw [← h.2]; simp only [List.length_drop]; omega
        · simp at h
          rw [← h.2]; simp only [List.length_drop]; omega

/-- protocol/motan1Protocol.go:484-509: the argument loop: the number of arguments, the rest where the
arguments end, and the attachment block. -/
def parseArgs (n : Nat) (s : Bytes) : Except Err (Nat × Bytes × Bytes) :=
  match s with
  | [] => .error .eof
  | t :: r =>
    if t = TC_NULL then parseArgs (n + 1) r
    else if t = TC_ARRAY then
      match _h : skipByteArray false (t :: r) with
      | .error e => .error e
      | .ok (_, r') => parseArgs (n + 1) r'
    else if t = TC_BLOCKDATA ∨ t = TC_BLOCKDATALONG then
      match getBlock (t :: r) with
      | .error e => .error e
      | .ok (a, _) => .ok (n, t :: r, a)
    else .error .unsupported
termination_by s.length
decreasing_by
  · simp
  · exact skipByteArray_lt _h

/-- What `parseReq` leaves in the `simpleObjectStream` (protocol/motan1Protocol.go:412-439).
`argBytes` is `bytes[argStart:argEnd]`; `attachmentPos` is 0 unless the attachments are in `sBlock`. -/
structure ReqStream where
  bytes : Bytes
  version : UInt8
  isGzip : Bool
  sBlock : Bytes
  attachmentPos : Nat
  argSize : Nat
  argBytes : Bytes
  service : Bytes
  method : Bytes
  desc : Bytes
  attachment : Meta
  deriving DecidableEq, Repr

/-- protocol/motan1Protocol.go:459-479: service, method, description and the rest of the block. -/
def readInfos (b : Bytes) : Except Err (Bytes × Bytes × Bytes × Bytes) :=
  match readUtf b with
  | .error e => .error e
  | .ok (i0, b) =>
    if i0 = b!"1" then
      match readUtf b with
      | .error e => .error e
      | .ok (sign, b) => .ok (b!"v1compressMethodSign", sign, [], b)
    else
      match readUtf b with
      | .error e => .error e
      | .ok (i1, b) =>
        match readUtf b with
        | .error e => .error e
        | .ok (i2, b) => .ok (i0, i1, i2, b)

/-- protocol/motan1Protocol.go:453-525 `parseReq`. -/
def parseReq (stream : Bytes) (version : UInt8) (isGzip : Bool) : Except Err ReqStream :=
  match checkObjectStream stream with
  | .error e => .error e
  | .ok (sBlock, rest) =>
    match readInfos sBlock with
    | .error e => .error e
    | .ok (service, method, desc, b) =>
      if b.length = 0 then
        match parseArgs 0 rest with
        | .error e => .error e
        | .ok (n, argEnd, aBlock) =>
          match readAttachments version aBlock with
          | .error e => .error e
          | .ok att =>
            .ok { bytes := stream, version := version, isGzip := isGzip, sBlock := sBlock, attachmentPos := 0,
                  argSize := n, argBytes := rest.take (rest.length - argEnd.length), service := service,
                  method := method, desc := desc, attachment := att }
      else
        match readAttachments version b with
        | .error e => .error e
        | .ok att =>
          .ok { bytes := stream, version := version, isGzip := isGzip, sBlock := sBlock,
                attachmentPos := sBlock.length - b.length, argSize := 0, argBytes := [], service := service,
                method := method, desc := desc, attachment := att }

/-- protocol/motan1Protocol.go:102-122 `DecodeMotanV1Request`: the parsed stream (the request has the id
of the frame and the names and attachments of the stream). -/
def decodeRequest (lib : Lib) (msg : Msg) : Except Err ReqStream :=
  match newObjectStream lib msg with
  | .error e => .error e
  | .ok (s, z) => parseReq s msg.innerVersion z

/-! ### Re-encoding a request -/

/-- protocol/motan1Protocol.go:332-335 `writeUtfStr`. -/
def writeUtfStr (s : Bytes) : Bytes := beBytes 2 (UInt16.ofNat s.length).toNat ++ s

/-- protocol/motan1Protocol.go:312-330 `encodeMotanV1Attachment` (the map in its iteration order). -/
def encodeAttachment (att : Meta) (version : UInt8) : Bytes :=
  (if version = versionV1Compress then beBytes 2 (UInt16.ofNat att.length).toNat
    else beBytes 4 (UInt32.ofNat att.length).toNat) ++
  (att.map fun p => writeUtfStr p.1 ++ writeUtfStr p.2).flatten

/-- protocol/motan1Protocol.go:280-309 `encodeMotanV1`. -/
def encodeMotanV1 (msg : Msg) (st : ReqStream) (att : Meta) (rid : UInt64) : Bytes :=
  let attBytes := encodeAttachment att msg.innerVersion
  let body :=
    if st.argSize = 0 then writeBlock [st.sBlock.take st.attachmentPos, attBytes]
    else writeBlock [st.sBlock] ++ st.argBytes ++ writeBlock [attBytes]
  let ret := msg.origin.take V1AllHeaderLength ++ st.bytes.take 4 ++ body
  writeV1InnerLength (writeV1Rid ret rid) (UInt32.ofNat (ret.length - V1AllHeaderLength))

/-! ### Responses -/

/-- What `parseRes` leaves in the stream (protocol/motan1Protocol.go:433-438). -/
structure ResStream where
  processTime : Int
  hasException : Bool
  cName : Bytes
  heartbeat : Bool
  deriving DecidableEq, Repr

/-- protocol/motan1Protocol.go:78 `hessian2HeartbeatBytes`. -/
def hessian2HeartbeatBytes : Bytes := [9, 104, 101, 97, 114, 116, 98, 101, 97, 116]

/-- protocol/motan1Protocol.go:527-569 `parseRes`. The value is the heartbeat string or nothing. An error
of the class name or of the value is not reported (lines 540, 548-549, 567-568; the variable `err` is not
returned). -/
def parseRes (stream : Bytes) (flag : UInt8) : Except Err ResStream :=
  match checkObjectStream stream with
  | .error e => .error e
  | .ok (sBlock, rest) =>
    match readLong sBlock with
    | .error e => .error e
    | .ok (pt, b) =>
      if flag = FLAG_RESPONSE_EXCEPTION then
        .ok ⟨pt, true, match readUtf b with | .ok (c, _) => c | .error _ => [], false⟩
      else if flag = FLAG_RESPONSE then
        match readUtf b with
        | .error _ => .ok ⟨pt, false, [], false⟩
        | .ok (c, _) =>
          if c = b!"java.lang.String" then
            match skipByteArray true rest with
            | .error .panic => .error .panic
            | .error _ => .ok ⟨pt, false, c, false⟩
            | .ok (content, _) => .ok ⟨pt, false, c, content = hessian2HeartbeatBytes⟩
          else .ok ⟨pt, false, c, false⟩
      else .ok ⟨pt, false, [], false⟩

/-- core/constants.go: error types used at 147 and 149 (`ServiceException`, `BizException`). -/
inductive ExnKind where
  | service
  | biz
  deriving DecidableEq, Repr

/-- protocol/motan1Protocol.go:131-159 `DecodeMotanV1Response`: process time, exception and heartbeat value;
the id is the one of the frame. -/
structure Res where
  id : UInt64
  processTime : Int
  exception : Option (ExnKind × Bytes)
  heartbeat : Bool
  deriving DecidableEq, Repr

/-- protocol/motan1Protocol.go:131-159 `DecodeMotanV1Response`. -/
def decodeResponse (lib : Lib) (msg : Msg) : Except Err Res :=
  match newObjectStream lib msg with
  | .error e => .error e
  | .ok (s, _) =>
    match parseRes s msg.flag with
    | .error e => .error e
    | .ok r =>
      .ok { id := msg.rid, processTime := r.processTime,
            exception :=
              if r.hasException then
                if r.cName = b!"com.weibo.api.motan.exception.MotanBizException" then
                  some (.biz, b!"v1: has biz exception")
                else some (.service, b!"v1: has exception, class:" ++ r.cName)
              else none,
            heartbeat := r.heartbeat }

/-! ### Built-in frames -/

/-- protocol/motan1Protocol.go:76 `baseV1HeartbeatReq`. -/
def baseV1HeartbeatReq : Bytes := [241, 241, 0, 0, 24, 44, 223, 176, 126, 80, 0, 96, 0, 0, 0, 78, 240, 240, 1, 0, 24, 44, 223, 176, 126, 80, 0, 96, 0, 0, 0, 62, 172, 237, 0, 5, 119, 56, 0, 33, 99, 111, 109, 46, 119, 101, 105, 98, 111, 46, 97, 112, 105, 46, 109, 111, 116, 97, 110, 46, 114, 112, 99, 46, 104, 101, 97, 114, 116, 98, 101, 97, 116, 0, 9, 104, 101, 97, 114, 116, 98, 101, 97, 116, 0, 4, 118, 111, 105, 100, 0, 0, 0, 0]

/-- protocol/motan1Protocol.go:77 `baseV1HeartbeatRes`. -/
def baseV1HeartbeatRes : Bytes := [241, 241, 0, 1, 24, 44, 226, 160, 201, 25, 2, 108, 0, 0, 0, 81, 240, 240, 1, 1, 24, 44, 226, 160, 201, 25, 2, 108, 0, 0, 0, 65, 172, 237, 0, 5, 119, 26, 0, 0, 0, 0, 0, 0, 0, 0, 0, 16, 106, 97, 118, 97, 46, 108, 97, 110, 103, 46, 83, 116, 114, 105, 110, 103, 117, 114, 0, 2, 91, 66, 172, 243, 23, 248, 6, 8, 84, 224, 2, 0, 0, 120, 112, 0, 0, 0, 10, 9, 104, 101, 97, 114, 116, 98, 101, 97, 116]

/-- protocol/motan1Protocol.go:79 `baseV1ExceptionRes`. -/
def baseV1ExceptionRes : Bytes := [241, 241, 0, 1, 24, 46, 120, 216, 224, 128, 0, 1, 0, 0, 1, 70, 240, 240, 1, 5, 24, 46, 120, 216, 224, 128, 0, 1, 0, 0, 1, 54]

/-- protocol/motan1Protocol.go:80 `baseV1ResObjectStream`. -/
def baseV1ResObjectStream : Bytes := [172, 237, 0, 5, 119, 61, 0, 0, 0, 0, 0, 0, 0, 2, 0, 51, 99, 111, 109, 46, 119, 101, 105, 98, 111, 46, 97, 112, 105, 46, 109, 111, 116, 97, 110, 46, 101, 120, 99, 101, 112, 116, 105, 111, 110, 46, 77, 111, 116, 97, 110, 83, 101, 114, 118, 105, 99, 101, 69, 120, 99, 101, 112, 116, 105, 111, 110, 117, 114, 0, 2, 91, 66, 172, 243, 23, 248, 6, 8, 84, 224, 2, 0, 0, 120, 112]

/-- protocol/motan1Protocol.go:81 `h_exceptionDesc`. -/
def hExceptionDesc : Bytes := [67, 48, 51, 99, 111, 109, 46, 119, 101, 105, 98, 111, 46, 97, 112, 105, 46, 109, 111, 116, 97, 110, 46, 101, 120, 99, 101, 112, 116, 105, 111, 110, 46, 77, 111, 116, 97, 110, 83, 101, 114, 118, 105, 99, 101, 69, 120, 99, 101, 112, 116, 105, 111, 110, 150, 8, 101, 114, 114, 111, 114, 77, 115, 103, 13, 100, 101, 116, 97, 105, 108, 77, 101, 115, 115, 97, 103, 101, 5, 99, 97, 117, 115, 101, 13, 109, 111, 116, 97, 110, 69, 114, 114, 111, 114, 77, 115, 103, 10, 115, 116, 97, 99, 107, 84, 114, 97, 99, 101, 20, 115, 117, 112, 112, 114, 101, 115, 115, 101, 100, 69, 120, 99, 101, 112, 116, 105, 111, 110, 115, 96]

/-- protocol/motan1Protocol.go:82 `h_motanErrorMsgDesc`. -/
def hMotanErrorMsgDesc : Bytes := [67, 48, 43, 99, 111, 109, 46, 119, 101, 105, 98, 111, 46, 97, 112, 105, 46, 109, 111, 116, 97, 110, 46, 101, 120, 99, 101, 112, 116, 105, 111, 110, 46, 77, 111, 116, 97, 110, 69, 114, 114, 111, 114, 77, 115, 103, 147, 6, 115, 116, 97, 116, 117, 115, 9, 101, 114, 114, 111, 114, 99, 111, 100, 101, 7, 109, 101, 115, 115, 97, 103, 101, 97]

/-- protocol/motan1Protocol.go:222-227 `BuildV1HeartbeatReq`. -/
def buildHeartbeatReq (rid : UInt64) : Bytes := writeV1Rid baseV1HeartbeatReq rid

/-- protocol/motan1Protocol.go:229-234 `BuildV1HeartbeatRes`. -/
def buildHeartbeatRes (rid : UInt64) : Bytes := writeV1Rid baseV1HeartbeatRes rid

/-- protocol/motan1Protocol.go:848-862 `writeHessianString`: the bytes it writes. -/
def hessianString (s : Bytes) : Bytes :=
  let n := s.length
  (if n ≤ 0x1f then [UInt8.ofNat n]
   else if n ≤ 0x3ff then [UInt8.ofNat (0x30 + n / 256), UInt8.ofNat n]
   else [83, UInt8.ofNat (n / 256), UInt8.ofNat n]) ++ s

/-- protocol/motan1Protocol.go:250-256: the serialized exception object. -/
def exceptionObject (errMsg : Bytes) : Bytes :=
  hExceptionDesc ++ b!"NNN" ++ hMotanErrorMsgDesc ++ [201, 247, 212, 39, 17] ++ hessianString errMsg ++ b!"NN"

/-- protocol/motan1Protocol.go:236-278 `BuildV1ExceptionResponse`. The three lengths are patched in after
everything has been written. -/
def buildExceptionResponse (rid : UInt64) (errMsg : Bytes) : Bytes :=
  if errMsg ≠ [] then
    let head := writeV1Rid baseV1ExceptionRes rid ++ baseV1ResObjectStream
    let obj := exceptionObject errMsg
    let all := head ++ [0, 0, 0, 0] ++ obj
    let wpos := all.length
    let all := copyAt all head.length (beBytes 4 (UInt32.ofNat (wpos - head.length - 4)).toNat)
    let all := copyAt all 28 (beBytes 4 (UInt32.ofNat (wpos - 32)).toNat)
    copyAt all 12 (beBytes 4 (UInt32.ofNat (wpos - 16)).toNat)
  else []

/-- protocol/motan1Protocol.go:205-211 `IsV1HeartbeatReq` and 57-61. -/
def isHeartbeatReq (service method : Bytes) : Bool :=
  service = b!"com.weibo.api.motan.rpc.heartbeat" && method = b!"heartbeat"

/-- protocol/motan1Protocol.go:161-169 `EncodeMotanV1Response`: with the original v1 message it is sent with
the id replaced, otherwise an exception answer is built. -/
def encodeResponse (original : Option Msg) (id : UInt64) (exnMsg : Option Bytes) : Except Err Bytes :=
  match original with
  | some msg => .ok (writeV1Rid msg.origin id)
  | none =>
    match exnMsg with
    | some m => .ok (buildExceptionResponse id (b!"build v1 exception res. org err:" ++ m))
    | none => .error .notV1

end Motan.Motan1
