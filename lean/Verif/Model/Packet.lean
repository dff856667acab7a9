import Verif.Model.Core

/-!
# Packets: `ccnpy/core/{FixedHeader,Packet}.py`
-/

namespace Ccnpy

/-- core/FixedHeader.py:27-46.  The three header bytes are kept as bytes. -/
structure FixedHeader where
  ver : Nat := 1
  packetType : Nat := 0
  packetLength : Nat := 8
  f0 : UInt8 := 0
  f1 : UInt8 := 0
  f2 : UInt8 := 0
  headerLength : Nat := 8
  deriving DecidableEq, Repr

/-- core/FixedHeader.py:22-24 -/
def PT_INTEREST : Nat := 0x00
def PT_CONTENT : Nat := 0x01

/-- One `B` item of `struct.pack`. -/
def packB (n : Nat) : Py Bytes := if n ≤ 0xFF then .ok [UInt8.ofNat n] else .error .structError

/-- One `H` item of `struct.pack` in network order. -/
def packH (n : Nat) : Py Bytes :=
  if n ≤ 0xFFFF then .ok [UInt8.ofNat (n / 256), UInt8.ofNat (n % 256)] else .error .structError

/-- core/FixedHeader.py:76-85 -/
def FixedHeader.serialize (h : FixedHeader) : Py Bytes := do
  let a ← packB h.ver
  let b ← packB h.packetType
  let c ← packH h.packetLength
  let d ← packB h.headerLength
  return a ++ b ++ c ++ [h.f0, h.f1, h.f2] ++ d

/-- core/FixedHeader.py:87-108 -/
def FixedHeader.deserialize (buf : Bytes) : Py FixedHeader :=
  match buf with
  | b0 :: b1 :: b2 :: b3 :: b4 :: b5 :: b6 :: b7 :: _ =>
    let ver := b0.toNat
    let packetLength := b2.toNat * 256 + b3.toNat
    let headerLength := b7.toNat
    if ver ≠ 1 then .error .valueError
    else if packetLength < 8 then .error .valueError
    else if headerLength < 8 then .error .valueError
    else .ok { ver := ver, packetType := b1.toNat, packetLength := packetLength, f0 := b4, f1 := b5, f2 := b6,
               headerLength := headerLength }
  | _ => .error .runtimeError

/-- core/FixedHeader.py:114-116 -/
def FixedHeader.contentObject (packetLength : Nat) : FixedHeader :=
  { packetType := PT_CONTENT, packetLength := packetLength }

/-- core/Packet.py:59-81.  Only content object bodies: `Interest.serialize` returns `None` (core/Interest.py:50-51), so
`byte_list.extend(None)` raises `TypeError` for every Interest packet (see `Packet.interestPacket`). -/
structure Packet where
  header : FixedHeader
  body : ContentObject
  alg : Option ValidationAlg := none
  payload : Option Bytes := none
  deriving DecidableEq, Repr

/-- The serialized bytes of a member. -/
def wireOf {α : Type} (tlv : α → Py Tlv) (x : α) : Py Bytes := do (← tlv x).serialize

/-- Read an object from the start of a buffer: `X.parse(Tlv.deserialize(buffer))`. -/
def ofWire {α : Type} (parse : Tlv → Py α) (buf : Bytes) : Py α := do parse (← Tlv.deserialize buf)

/-- The serialized bytes of an optional member, nothing for `None`. -/
def optWire {α : Type} (tlv : α → Py Tlv) : Option α → Py Bytes
  | none => .ok []
  | some x => wireOf tlv x

/-- core/Packet.py:83-90 and 136-137 -/
def Packet.serialize (p : Packet) : Py Bytes := do
  let h ← p.header.serialize
  let b ← wireOf ContentObject.tlv p.body
  let a ← optWire ValidationAlg.tlv p.alg
  let v ← optWire valPayloadTlv p.payload
  return h ++ b ++ a ++ v

/-- core/Packet.py:98-99 -/
def Packet.len (p : Packet) : Py Nat := do return (← p.serialize).length

/-- core/Packet.py:155-163: the bytes fed to SHA-256 by `_compute_hash`. -/
def Packet.hashInput (p : Packet) : Py Bytes := do
  let b ← wireOf ContentObject.tlv p.body
  let a ← optWire ValidationAlg.tlv p.alg
  let v ← optWire valPayloadTlv p.payload
  return b ++ a ++ v

/-- core/Packet.py:155-166 `content_object_hash`; SHA-256 is the parameter `sha`. -/
def Packet.hash (sha : Bytes → Bytes) (p : Packet) : Py HashValue := do
  return HashValue.sha256 (sha (← p.hashInput))

/-- core/Packet.py:59-81: the checks of the constructor, then eager serialization. -/
def mkPacket (header : FixedHeader) (body : ContentObject) (alg : Option ValidationAlg) (payload : Option Bytes) :
    Py Packet :=
  if alg.isSome ≠ payload.isSome then .error .typeError
  else do
    let p : Packet := ⟨header, body, alg, payload⟩
    let _ ← p.serialize
    return p

/-- core/Packet.py:39-43 -/
def Packet.createContentObject (body : ContentObject) : Py Packet := do
  let n := (← body.tlv).len
  mkPacket (FixedHeader.contentObject (8 + n)) body none none

/-- core/Packet.py:52-57 -/
def Packet.createSigned (body : ContentObject) (alg : ValidationAlg) (payload : Bytes) : Py Packet := do
  let n := (← body.tlv).len
  let m := (← alg.tlv).len
  let k := (← valPayloadTlv payload).len
  mkPacket (FixedHeader.contentObject (8 + n + m + k)) body (some alg) (some payload)

/-- core/Packet.py:33-37 with core/Interest.py:50-51: the header is built (its own serialization may fail first), then
the body's `None` serialization raises. -/
def Packet.interestPacket (bodyLength : Nat) (hopLimit : UInt8) : Py Packet := do
  let h : FixedHeader := { packetType := PT_INTEREST, packetLength := 8 + bodyLength, f0 := hopLimit }
  let _ ← h.serialize
  .error .typeError

/-- The local variables of `Packet.deserialize`. -/
structure PacketState where
  body : Option ContentObject := none
  alg : Option ValidationAlg := none
  payload : Option Bytes := none

def T_INTEREST : Nat := 0x0001

/-- core/Packet.py:110-127: loop body.  `Interest.parse` returns `None` (core/Interest.py:46-48), so an Interest TLV
leaves `body` unset. -/
def Packet.parseStep (now : F64) (s : PacketState) (t : Tlv) : Py PacketState :=
  if t.type = T_OBJECT then do
    pyAssert s.body.isNone
    return { s with body := some (← ContentObject.parse t) }
  else if t.type = T_INTEREST then do
    pyAssert s.body.isNone
    return s
  else if t.type = T_VALIDATION_ALG then do
    pyAssert s.alg.isNone
    return { s with alg := some (← ValidationAlg.parse now t) }
  else if t.type = T_VALIDATION_PAYLOAD then do
    pyAssert s.alg.isSome
    pyAssert s.payload.isNone
    return { s with payload := some (← valPayloadParse t) }
  else .error .runtimeError

/-- core/Packet.py:101-129 -/
def Packet.deserialize (now : F64) (buf : Bytes) : Py Packet := do
  let header ← FixedHeader.deserialize buf
  let s ← tlvLoop (Packet.parseStep now) (buf.drop header.headerLength) {}
  match s.body with
  | none => .error .typeError
  | some body => mkPacket header body s.alg s.payload

end Ccnpy
