import Verif.Model.Tlv
import Verif.Model.F64

/-!
# Core objects: `ccnpy/core/{TlvType,Name,HashValue,HashTlvType,KeyId,Link,KeyLink,ContentObject,…}.py`
-/

namespace Ccnpy

/-- core/Tlv.py:121-132 `flatten` on a list of TLV-like members: the concatenation of their serializations. -/
def concatTlvs : List Tlv → Py Bytes
  | [] => .ok []
  | t :: l => do
    let a ← t.serialize
    let b ← concatTlvs l
    return a ++ b

/-- An optional member of a list given to `Tlv(type, [...])`; `None` is skipped by `flatten` (core/Tlv.py:126). -/
def optTlv {α : Type} (f : α → Py Tlv) : Option α → Py (List Tlv)
  | none => .ok []
  | some a => do return [← f a]

/-- A list-valued member. -/
def listTlv {α : Type} (f : α → Py Tlv) : List α → Py (List Tlv)
  | [] => .ok []
  | a :: l => do
    let t ← f a
    let r ← listTlv f l
    return t :: r

/-- `cls(...)` at the end of a `parse` method: the object is built, which serializes it and may raise. -/
def construct {α : Type} (tlv : α → Py Tlv) (x : α) : Py α := do
  let _ ← tlv x
  return x

/-- `Tlv(type, [members])`. -/
def container (type : Nat) (members : List Tlv) : Py Tlv := do
  mkTlv type (← concatTlvs members)

/-! ## Integer and octet TLVs (core/TlvType.py:117-207) -/

/-- core/TlvType.py:124-127 -/
def intTlv (type : Nat) (n : Nat) : Py Tlv := createVarint type n

/-- core/TlvType.py:143-148 -/
def intParse (type : Nat) (t : Tlv) : Py Nat :=
  if t.type ≠ type then .error .cannotParseError
  else construct (intTlv type) t.valueAsNumber

/-- core/TlvType.py:157-180 (value already a byte string) -/
def octetTlv (type : Nat) (v : Bytes) : Py Tlv := mkTlv type v

/-- core/TlvType.py:202-207 -/
def octetParse (type : Nat) (t : Tlv) : Py Bytes :=
  if t.type ≠ type then .error .cannotParseError
  else construct (octetTlv type) t.value

/-! ## Names (core/Name.py) -/

/-- core/Name.py:23-75.  A name component is a TLV.  `isArray` records whether the value is held as an
`array('B')` (as `create_chunk_segment`/`create_manifest_id` do) or as a `bytes` object; this matters only for `==`. -/
structure NameComponent where
  type : Nat
  value : Bytes
  isArray : Bool := false
  deriving DecidableEq, Repr

/-- core/Name.py:53-54 -/
def NameComponent.tlv (c : NameComponent) : Py Tlv := mkTlv c.type c.value

/-- core/Name.py:24-27 -/
def T_NAMESEGMENT : Nat := 0x0001
def T_IPID : Nat := 0x0002
def T_CHUNKID : Nat := 0x0005
def T_MANIFESTID : Nat := 0x0010

/-- core/Name.py:37-39 `create_name_segment` with a `bytes` value -/
def NameComponent.nameSegment (v : Bytes) : NameComponent := ⟨T_NAMESEGMENT, v, false⟩

/-- core/Name.py:45-47 `create_chunk_segment` -/
def NameComponent.chunk (n : Int) : Py NameComponent := do
  construct NameComponent.tlv ⟨T_CHUNKID, ← numberToArray n, true⟩

/-- core/Name.py:49-51 `create_manifest_id` -/
def NameComponent.manifestId (n : Int) : Py NameComponent := do
  construct NameComponent.tlv ⟨T_MANIFESTID, ← numberToArray n, true⟩

/-- core/Tlv.py:96-102 `__eq__` on name components: length, then `value() == value()`, which in Python is False when
one side is an `array` and the other `bytes`. -/
def NameComponent.pyEq (a b : NameComponent) : Bool :=
  a.value.length == b.value.length && (a.isArray == b.isArray && a.value == b.value)

/-- core/Name.py:78-92.  `components=None` is not distinguished from the empty list. -/
structure Name where
  components : List NameComponent
  deriving DecidableEq, Repr

def T_NAME : Nat := 0x0000

/-- core/Name.py:85-92, 145-146: construct and serialize. -/
def Name.tlv (n : Name) : Py Tlv := do
  container T_NAME (← listTlv NameComponent.tlv n.components)

/-- core/Name.py:97-98 `__eq__`: compares `__dict__`, i.e. the component lists (element-wise Python `==`) and the outer
TLVs (`Tlv.__eq__`, whose values are flattened arrays).  A name that cannot be serialized does not exist. -/
def Name.pyEq (a b : Name) : Bool :=
  a.components.length == b.components.length &&
  (a.components.zip b.components).all (fun p => p.1.pyEq p.2) &&
  match a.tlv, b.tlv with
  | .ok s, .ok t => s.pyEq t
  | _, _ => false

/-- core/Name.py:122-131 `append` -/
def Name.append (n : Name) (c : NameComponent) : Py Name :=
  construct Name.tlv ⟨n.components ++ [c]⟩

/-- core/Name.py:133-137 -/
def Name.appendChunkId (n : Name) (i : Int) : Py Name := do n.append (← NameComponent.chunk i)

/-- core/Name.py:139-143 -/
def Name.appendManifestId (n : Name) (i : Int) : Py Name := do n.append (← NameComponent.manifestId i)

/-- core/Name.py:173-186: loop body; the value is converted to `bytes`. -/
def Name.parseStep (acc : List NameComponent) (t : Tlv) : Py (List NameComponent) := do
  let c ← construct NameComponent.tlv ⟨t.type, t.value, false⟩
  return acc ++ [c]

/-- core/Name.py:165-188 -/
def Name.parse (t : Tlv) : Py Name := do
  if t.type ≠ T_NAME then .error .runtimeError
  else
    let cs ← tlvLoop Name.parseStep t.value []
    construct Name.tlv ⟨cs⟩

/-! ## Hash values (core/HashValue.py, core/HashTlvType.py, core/KeyId.py) -/

/-- core/HashValue.py:27-54 -/
structure HashValue where
  alg : Nat
  value : Bytes
  deriving DecidableEq, Repr

def T_SHA_256 : Nat := 0x0001

/-- core/HashValue.py:40-54 -/
def HashValue.tlv (h : HashValue) : Py Tlv := mkTlv h.alg h.value

/-- core/HashValue.py:28-30 `create_sha256` -/
def HashValue.sha256 (v : Bytes) : HashValue := ⟨T_SHA_256, v⟩

/-- core/HashValue.py:100-104 -/
def HashValue.parse (t : Tlv) : Py HashValue := construct HashValue.tlv ⟨t.type, t.value⟩

/-- core/HashValue.py:106-123 -/
def HashValue.deserialize (buf : Bytes) : Py HashValue := do HashValue.parse (← Tlv.deserialize buf)

/-- core/HashValue.py:82-85 `__eq__` (through `Tlv.__eq__`: ignores the algorithm) -/
def HashValue.pyEq (a b : HashValue) : Bool := Tlv.pyEq ⟨a.alg, a.value⟩ ⟨b.alg, b.value⟩

/-- core/HashTlvType.py:26-36: a TLV of the given type around a hash value. -/
def hashTlv (type : Nat) (h : HashValue) : Py Tlv := do
  container type [← h.tlv]

/-- core/HashTlvType.py:52-59: bytes after the inner TLV are ignored. -/
def hashParse (type : Nat) (t : Tlv) : Py HashValue :=
  if t.type ≠ type then .error .cannotParseError
  else do
    let h ← HashValue.parse (← Tlv.deserialize t.value)
    construct (hashTlv type) h

/-- core/KeyId.py:19-23 -/
def T_KEYID : Nat := 0x0009

/-! ## Links (core/Link.py, core/KeyLink.py) -/

/-- core/Link.py:23-69 -/
structure Link where
  name : Option Name := none
  keyid : Option HashValue := none
  digest : Option HashValue := none
  deriving DecidableEq, Repr

def T_KEYIDRESTR : Nat := 0x0002
def T_OBJHASHRESTR : Nat := 0x0003

/-- core/Link.py:61-69: the members, in order. -/
def Link.members (l : Link) : Py (List Tlv) := do
  let a ← optTlv Name.tlv l.name
  let b ← optTlv (hashTlv T_KEYIDRESTR) l.keyid
  let c ← optTlv (hashTlv T_OBJHASHRESTR) l.digest
  return a ++ b ++ c

/-- core/Link.py:61-69, 101-102: the wire format (a link has no outer TLV). -/
def Link.wire (l : Link) : Py Bytes := do concatTlvs (← l.members)

/-- core/Link.py:115-130: loop body. -/
def Link.parseStep (s : Link) (t : Tlv) : Py Link :=
  if t.type = T_NAME then do
    pyAssert s.name.isNone
    return { s with name := some (← Name.parse t) }
  else if t.type = T_KEYIDRESTR then do
    pyAssert s.keyid.isNone
    return { s with keyid := some (← HashValue.parse (← Tlv.deserialize t.value)) }
  else if t.type = T_OBJHASHRESTR then do
    pyAssert s.digest.isNone
    return { s with digest := some (← HashValue.parse (← Tlv.deserialize t.value)) }
  else .error .valueError

/-- core/Link.py:104-131 -/
def Link.deserialize (buf : Bytes) : Py Link := do
  let l ← tlvLoop Link.parseStep buf {}
  let _ ← l.wire
  return l

/-- core/KeyLink.py:22-31 (and the same shape at core/ValidationAlg.py:134) -/
def T_KEYLINK : Nat := 0x000E

/-- core/KeyLink.py:28-31, flic/tlvs/Locator.py: `Tlv(type, link)` -/
def linkTlv (type : Nat) (l : Link) : Py Tlv := do mkTlv type (← l.wire)

/-- core/KeyLink.py:45-51 -/
def KeyLink.parse (t : Tlv) : Py Link :=
  if t.type ≠ T_KEYLINK then .error .typeError
  else do
    let l ← Link.deserialize t.value
    construct (linkTlv T_KEYLINK) l

/-! ## Timestamps (core/Timestamp.py, core/ExpiryTime.py, core/SignatureTime.py) -/

def T_EXPIRY : Nat := 0x0006
def T_SIGTIME : Nat := 0x000F

/-- core/Timestamp.py:33-40.  `self.timestamp() * 1000` beyond the largest float is `inf`, whose `int` raises. -/
def timestampTlv (type : Nat) (ts : F64) : Py Tlv :=
  if f64Overflow ≤ ts.milliseconds then .error .overflowError
  else createUint64 type ts.milliseconds

/-- core/ExpiryTime.py:32-39, core/SignatureTime.py:31-38.  `msec / 1000.0` raises when `msec` is too large for a
float. -/
def timestampParse (type : Nat) (t : Tlv) : Py F64 :=
  if t.type ≠ type then .error .runtimeError
  else if f64Overflow ≤ (fl t.valueAsNumber 1).toInt then .error .overflowError
  else construct (timestampTlv type) (secondsOfMsec t.valueAsNumber)

/-! ## Content object fields -/

def T_PAYLDTYPE : Nat := 0x0005
def T_PAYLOAD : Nat := 0x0001
def T_FINAL_CHUNK_ID : Nat := 0x0007

/-- core/PayloadType.py:41-44 -/
def payloadTypeTlv (n : Nat) : Py Tlv := createUint8 T_PAYLDTYPE n

/-- core/PayloadType.py:55-60 -/
def payloadTypeParse (t : Tlv) : Py Nat :=
  if t.type ≠ T_PAYLDTYPE then .error .runtimeError
  else construct payloadTypeTlv t.valueAsNumber

/-- core/PayloadType.py:21-24 -/
def PT_DATA : Nat := 0
def PT_KEY : Nat := 1
def PT_LINK : Nat := 2
def PT_MANIFEST : Nat := 3

/-- core/FinalChunkId.py:26-29 -/
def finalChunkIdTlv (n : Nat) : Py Tlv := createVarint T_FINAL_CHUNK_ID n

/-- core/FinalChunkId.py:46-51 -/
def finalChunkIdParse (t : Tlv) : Py Nat :=
  if t.type ≠ T_FINAL_CHUNK_ID then .error .runtimeError
  else construct finalChunkIdTlv t.valueAsNumber

/-! ## Content objects (core/ContentObject.py) -/

/-- core/ContentObject.py:120-141 -/
structure ContentObject where
  name : Option Name := none
  payloadType : Option Nat := none
  payload : Option Bytes := none
  expiryTime : Option F64 := none
  finalChunkId : Option Nat := none
  deriving DecidableEq, Repr

def T_OBJECT : Nat := 0x0002

/-- core/ContentObject.py:142-146: members in wire order. -/
def ContentObject.members (c : ContentObject) : Py (List Tlv) := do
  let a ← optTlv Name.tlv c.name
  let b ← optTlv (timestampTlv T_EXPIRY) c.expiryTime
  let d ← optTlv payloadTypeTlv c.payloadType
  let e ← optTlv (octetTlv T_PAYLOAD) c.payload
  let f ← optTlv finalChunkIdTlv c.finalChunkId
  return a ++ b ++ d ++ e ++ f

/-- core/ContentObject.py:120-146, 222-223 -/
def ContentObject.tlv (c : ContentObject) : Py Tlv := do container T_OBJECT (← c.members)

/-- core/ContentObject.py:202-218: loop body. -/
def ContentObject.parseStep (s : ContentObject) (t : Tlv) : Py ContentObject :=
  if t.type = T_NAME then do
    pyAssert s.name.isNone
    return { s with name := some (← Name.parse t) }
  else if t.type = T_PAYLDTYPE then do
    pyAssert s.payloadType.isNone
    return { s with payloadType := some (← payloadTypeParse t) }
  else if t.type = T_PAYLOAD then do
    pyAssert s.payload.isNone
    return { s with payload := some (← octetParse T_PAYLOAD t) }
  else if t.type = T_EXPIRY then do
    pyAssert s.expiryTime.isNone
    return { s with expiryTime := some (← timestampParse T_EXPIRY t) }
  else if t.type = T_FINAL_CHUNK_ID then do
    pyAssert s.finalChunkId.isNone
    return { s with finalChunkId := some (← finalChunkIdParse t) }
  else .error .valueError

/-- core/ContentObject.py:191-220 -/
def ContentObject.parse (t : Tlv) : Py ContentObject :=
  if t.type ≠ T_OBJECT then .error .runtimeError
  else do
    let c ← tlvLoop ContentObject.parseStep t.value {}
    construct ContentObject.tlv c

/-- core/ContentObject.py:39-70 `create_data` (expiry already an `ExpiryTime`). -/
def ContentObject.createData (name : Option Name) (payload : Option Bytes) (expiry : Option F64)
    (finalChunkId : Option Nat) : Py ContentObject :=
  construct ContentObject.tlv
    { name := name, payloadType := payload.map (fun _ => PT_DATA), payload := payload, expiryTime := expiry,
      finalChunkId := finalChunkId }

/-- core/ContentObject.py:72-92 `create_manifest`, the manifest given by its wire bytes. -/
def ContentObject.createManifest (manifest : Bytes) (name : Option Name) (expiry : Option F64) : Py ContentObject :=
  construct ContentObject.tlv
    { name := name, payloadType := some PT_MANIFEST, payload := some manifest, expiryTime := expiry }

/-! ## Validation sections (core/ValidationAlg.py, core/ValidationPayload.py) -/

/-- core/ValidationAlg.py:66-76 and 101-150.  `public_key` is not modelled: with a public key the constructor calls
`public_key.der()` (line 131), which `RsaKey` does not define. -/
inductive ValidationAlg where
  | crc32c
  | rsaSha256 (keyid : HashValue) (keyLink : Option Link) (signatureTime : F64)
  deriving DecidableEq, Repr

def T_VALIDATION_ALG : Nat := 0x0003
def T_CRC32C : Nat := 0x0002
def T_RSA_SHA256 : Nat := 0x0004
def T_PUBLICKEY : Nat := 0x000B

/-- core/ValidationAlg.py:75-76 and 121-146 -/
def ValidationAlg.tlv : ValidationAlg → Py Tlv
  | .crc32c => do container T_VALIDATION_ALG [← mkTlv T_CRC32C []]
  | .rsaSha256 keyid keyLink st => do
    let a ← hashTlv T_KEYID keyid
    let b ← optTlv (linkTlv T_KEYLINK) keyLink
    let c ← timestampTlv T_SIGTIME st
    container T_VALIDATION_ALG [← container T_RSA_SHA256 ([a] ++ b ++ [c])]

/-- core/ValidationAlg.py:184-198: loop body; repeated fields overwrite, unknown ones are skipped. -/
def ValidationAlg.rsaStep (s : Option HashValue × Option F64) (t : Tlv) : Py (Option HashValue × Option F64) :=
  if t.type = T_KEYID then do return (some (← hashParse T_KEYID t), s.2)
  else if t.type = T_SIGTIME then do return (s.1, some (← timestampParse T_SIGTIME t))
  else if t.type = T_PUBLICKEY then .error .runtimeError
  else if t.type = T_KEYLINK then .error .runtimeError
  else .ok s

/-- core/ValidationAlg.py:176-199, with `now` standing for `datetime.now(UTC)` at line 137 (used when the signature time
is absent) and 125-126 for a missing key id. -/
def ValidationAlg.rsaParse (now : F64) (t : Tlv) : Py ValidationAlg :=
  if t.type ≠ T_RSA_SHA256 then .error .valueError
  else do
    let s ← tlvLoop ValidationAlg.rsaStep t.value (none, none)
    match s.1 with
    | none => .error .valueError
    | some keyid => construct ValidationAlg.tlv (.rsaSha256 keyid none (s.2.getD now))

/-- core/ValidationAlg.py:46-59 and 87-95 -/
def ValidationAlg.parse (now : F64) (t : Tlv) : Py ValidationAlg :=
  if t.type ≠ T_VALIDATION_ALG then .error .valueError
  else do
    let inner ← Tlv.deserialize t.value
    if inner.type = T_RSA_SHA256 then ValidationAlg.rsaParse now inner
    else if inner.type = T_CRC32C then
      if inner.length ≠ 0 then .error .valueError
      else construct ValidationAlg.tlv .crc32c
    else .error .valueError

def T_VALIDATION_PAYLOAD : Nat := 0x0004

/-- core/ValidationPayload.py:26-31 -/
def valPayloadTlv (p : Bytes) : Py Tlv := mkTlv T_VALIDATION_PAYLOAD p

/-- core/ValidationPayload.py:42-47 -/
def valPayloadParse (t : Tlv) : Py Bytes :=
  if t.type ≠ T_VALIDATION_PAYLOAD then .error .runtimeError
  else construct valPayloadTlv t.value

end Ccnpy
