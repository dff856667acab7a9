import Verif.Model.Traversal

/-!
# Python `==` between protocol objects

Most classes compare `__dict__`: the attributes are compared in the order in which the constructor sets them, and the comparison stops
at the first attribute that differs.  An attribute that is `None` on one side only is compared by the `__eq__` of the other side with
`None`; some classes answer False, the others read an attribute of `None` and raise AttributeError.

Simplified: both objects are of the class named (a comparison with an object of an unrelated class is not modelled) and both were built
(an object whose TLV cannot be made does not exist); byte strings are arrays except in name components; no HashValue, Timestamp or Tlv
inside is `==`-relevant through its iteration state, because their `__eq__` does not look at it.
-/

namespace Ccnpy

/-- Comparison of `__dict__`s with the same keys: first to last, stopping at the first difference. -/
def dictEqual : List (Py Bool) → Py Bool
  | [] => .ok true
  | x :: xs => do
    if ← x then dictEqual xs else return false

/-- An attribute whose class raises AttributeError when compared with `None`: `other.__dict__`, `other.timestamp()`,
`other.payload()` with `other = None`. -/
def eqOrRaise {α : Type} (eq : α → α → Py Bool) : Option α → Option α → Py Bool
  | none, none => .ok true
  | some x, some y => eq x y
  | _, _ => .error .attributeError

/-- An attribute whose class answers False when compared with `None` (`isinstance` check). -/
def eqOrFalse {α : Type} (eq : α → α → Bool) : Option α → Option α → Py Bool
  | none, none => .ok true
  | some x, some y => .ok (eq x y)
  | _, _ => .ok false

/-- `self._tlv == other._tlv` for `_tlv` attributes of the same type, core/Tlv.py:96-102. -/
def tlvEqual (a b : Py Tlv) : Py Bool := do return (← a).pyEq (← b)

/-- `self._wire_format == other._wire_format` -/
def wireEqual (a b : Py Bytes) : Py Bool := do return (← a) == (← b)

/-- `==` of two lists: the lengths, then the items in order up to the first difference. -/
def listEqual {α : Type} (eq : α → α → Py Bool) (xs ys : List α) : Py Bool :=
  if xs.length = ys.length then dictEqual ((xs.zip ys).map (fun p => eq p.1 p.2)) else .ok false

/-! ## Core classes -/

/-- core/Timestamp.py:42-43: the floats are compared. -/
def F64.pyEq (a b : F64) : Bool := a.num * b.den == b.num * a.den

/-- core/FixedHeader.py:53-56 -/
def FixedHeader.pyEq (a b : FixedHeader) : Bool :=
  a.ver == b.ver && a.packetType == b.packetType && a.packetLength == b.packetLength &&
  [a.f0, a.f1, a.f2] == [b.f0, b.f1, b.f2] && a.headerLength == b.headerLength

/-- core/ContentObject.py:166-167; attributes in the order of 136-146.  `Name`, `PayloadType` (core/PayloadType.py:52-53) and
`ExpiryTime` raise for `None`, `Payload` (core/TlvType.py:185-188) and `FinalChunkId` (core/FinalChunkId.py:37-41) do not. -/
def ContentObject.pyEq (c d : ContentObject) : Py Bool :=
  dictEqual [
    eqOrRaise (fun a b => .ok (Name.pyEq a b)) c.name d.name,
    eqOrRaise (fun a b => dictEqual [.ok (a == b), tlvEqual (payloadTypeTlv a) (payloadTypeTlv b)]) c.payloadType d.payloadType,
    eqOrFalse (fun a b => a == b) c.payload d.payload,
    eqOrRaise (fun a b => .ok (F64.pyEq a b)) c.expiryTime d.expiryTime,
    eqOrFalse (fun a b => a == b) c.finalChunkId d.finalChunkId,
    tlvEqual c.tlv d.tlv]

/-- core/ValidationAlg.py:78-79 (`__dict__` has the one key `_tlv`; an RSA algorithm has five) and 152-155. -/
def ValidationAlg.pyEq : ValidationAlg → ValidationAlg → Py Bool
  | .crc32c, .crc32c => tlvEqual ValidationAlg.crc32c.tlv ValidationAlg.crc32c.tlv
  | .rsaSha256 k l s, .rsaSha256 k' l' s' => tlvEqual (ValidationAlg.rsaSha256 k l s).tlv (ValidationAlg.rsaSha256 k' l' s').tlv
  | _, _ => .ok false

/-- The attribute `_validation_alg`: `ValidationAlg_Crc32c.__eq__(None)` raises, `ValidationAlg_RsaSha256.__eq__(None)` is False. -/
def algEqual : Option ValidationAlg → Option ValidationAlg → Py Bool
  | none, none => .ok true
  | some a, some b => a.pyEq b
  | some .crc32c, none => .error .attributeError
  | none, some .crc32c => .error .attributeError
  | _, _ => .ok false

/-- core/Packet.py:92-93; attributes in the order of 76-81.  `ValidationPayload` compares payloads (core/ValidationPayload.py:33-34).
SHA-256 is the parameter `sha`. -/
def Packet.pyEq (sha : Bytes → Bytes) (p q : Packet) : Py Bool :=
  dictEqual [
    .ok (p.header.pyEq q.header),
    p.body.pyEq q.body,
    algEqual p.alg q.alg,
    eqOrRaise (fun a b => .ok (a == b)) p.payload q.payload,
    wireEqual p.serialize q.serialize,
    do return (← p.hash sha).pyEq (← q.hash sha)]

/-- flic/tree/TreeIO.py:114-117: memory writers compare their lists of packets.  Simplified: a packet object that is in both lists at
the same place is compared with itself. -/
def MemoryStore.pyEq (sha : Bytes → Bytes) (s t : MemoryStore) : Py Bool := listEqual (Packet.pyEq sha) s.packets t.packets

/-- core/Link.py:71-72, attributes in the order of 52-57: `_offset` is the position of the last iteration over the link (58-70, 77-87). -/
def Link.dictEq (a : Link) (oa : Nat) (b : Link) (ob : Nat) : Py Bool :=
  dictEqual [
    eqOrRaise (fun x y => .ok (Name.pyEq x y)) a.name b.name,
    eqOrFalse HashValue.pyEq a.keyid b.keyid,
    eqOrFalse HashValue.pyEq a.digest b.digest,
    .ok (oa == ob),
    wireEqual a.wire b.wire]

/-- The `_offset` of a link after `Tlv(type, link)` (core/KeyLink.py:30-31, core/ValidationAlg.py:133-134): `Tlv._serialize` extends its
buffer by iterating over the link to the end. -/
def Link.usedOffset (l : Link) : Py Nat := do return (← l.wire).length

/-- core/KeyLink.py:33-34 -/
def keyLinkEqual (a b : Link) : Py Bool := do
  let oa ← a.usedOffset
  let ob ← b.usedOffset
  dictEqual [a.dictEq oa b ob, tlvEqual (linkTlv T_KEYLINK a) (linkTlv T_KEYLINK b)]

/-! ## FLIC classes -/

/-- flic/tlvs/GroupData.py:78-79; no attribute class raises for `None` (core/TlvType.py:132-135, core/HashTlvType.py:44-47). -/
def GroupData.pyEq (g h : GroupData) : Py Bool :=
  dictEqual [
    eqOrFalse (fun a b => a == b) g.subtreeSize h.subtreeSize,
    eqOrFalse HashValue.pyEq g.subtreeDigest h.subtreeDigest,
    eqOrFalse (fun a b => a == b) g.leafSize h.leafSize,
    eqOrFalse HashValue.pyEq g.leafDigest h.leafDigest,
    eqOrFalse (fun a b => a == b) g.ncId h.ncId,
    eqOrFalse (fun a b => a == b) g.startSegmentId h.startSegmentId,
    tlvEqual g.tlv h.tlv]

/-- flic/tlvs/Pointers.py:53-54.  `_offset` exists only after the first `iter()` on the object (62-64): an object that has it and one
that does not have different keys. -/
def pointersEqual (a : List HashValue) (oa : Option Nat) (b : List HashValue) (ob : Option Nat) : Py Bool :=
  if oa.isSome ≠ ob.isSome then .ok false
  else dictEqual [
    listEqual (fun x y => .ok (HashValue.pyEq x y)) a b,
    tlvEqual (pointersTlv a) (pointersTlv b),
    .ok (oa == ob)]

/-- flic/tlvs/HashGroup.py:44-47 -/
def HashGroup.pyEq (g h : HashGroup) : Py Bool := tlvEqual g.tlv h.tlv

/-- flic/tlvs/Locator.py:66-67.  Simplified: the link of a locator is not iterated over. -/
def locatorEqual (a b : Link) : Py Bool := dictEqual [a.dictEq 0 b 0, tlvEqual (locatorTlv a) (locatorTlv b)]

/-- flic/tlvs/Locators.py:71-74 -/
def locatorsEqual (a b : List Link) : Py Bool :=
  dictEqual [listEqual locatorEqual a b, tlvEqual (locatorsTlv a) (locatorsTlv b)]

/-- flic/tlvs/Vendor.py:48-51 -/
def Vendor.pyEq (a b : Vendor) : Py Bool := dictEqual [.ok (a.payload == b.payload), .ok (a.pen == b.pen), tlvEqual a.tlv b.tlv]

/-- flic/tlvs/NcDef.py:54-57 -/
def NcDef.pyEq (a b : NcDef) : Py Bool := tlvEqual a.tlv b.tlv

/-- flic/tlvs/SuffixComponentType.py:45-46 -/
def suffixEqual (a b : Nat) : Py Bool := dictEqual [.ok (a == b), tlvEqual (suffixTlv a) (suffixTlv b)]

/-- flic/tlvs/NcSchema.py:34-35 for hash and segmented schemas (attributes in the order in which the constructors 55-58, 88-92, 145-149,
225-228 set them first) and 206-209 for prefix schemas.  Schemas of different classes have different keys. -/
def NcSchema.pyEq : NcSchema → NcSchema → Py Bool
  | .hash l f, .hash l' f' =>
    dictEqual [eqOrRaise locatorsEqual l l', eqOrFalse (fun a b => a == b) f f', tlvEqual (NcSchema.hash l f).tlv (NcSchema.hash l' f').tlv]
  | .prefixed n l f, .prefixed n' l' f' => tlvEqual (NcSchema.prefixed n l f).tlv (NcSchema.prefixed n' l' f').tlv
  | .segmented n s l f, .segmented n' s' l' f' =>
    dictEqual [
      eqOrRaise (fun a b => .ok (Name.pyEq a b)) n n',
      eqOrRaise locatorsEqual l l',
      eqOrFalse (fun a b => a == b) f f',
      tlvEqual (NcSchema.segmented n s l f).tlv (NcSchema.segmented n' s' l' f').tlv,
      eqOrRaise suffixEqual s s']
  | _, _ => .ok false

/-- flic/tlvs/NodeData.py:97-98, attributes in the order of 70-90; an empty list of vendors is stored as `None` (67-68), and a list
compared with `None` is different. -/
def NodeData.pyEq (a b : NodeData) : Py Bool :=
  dictEqual [
    eqOrFalse (fun x y => x == y) a.subtreeSize b.subtreeSize,
    eqOrFalse HashValue.pyEq a.subtreeDigest b.subtreeDigest,
    eqOrRaise locatorsEqual a.locators b.locators,
    listEqual Vendor.pyEq a.vendors b.vendors,
    listEqual NcDef.pyEq a.ncDefs b.ncDefs,
    tlvEqual a.tlv b.tlv]

/-- flic/tlvs/Node.py:115-118; `pad_length` is not an attribute. -/
def Node.pyEq (a b : Node) : Py Bool :=
  dictEqual [
    eqOrRaise NodeData.pyEq a.nodeData b.nodeData,
    listEqual HashGroup.pyEq a.hashGroups b.hashGroups,
    tlvEqual a.tlv b.tlv]

/-- flic/aeadctx/AeadData.py:50-53 -/
def AeadData.pyEq (a b : AeadData) : Py Bool := wireEqual (do concatTlvs (← a.members)) (do concatTlvs (← b.members))

/-- flic/tlvs/AeadCtx.py:52-55, flic/tlvs/RsaOaepCtx.py:58-61 -/
def SecurityCtx.pyEq : SecurityCtx → SecurityCtx → Py Bool
  | .aead d, .aead e => d.pyEq e
  | .rsaOaep d w, .rsaOaep d' w' => tlvEqual (SecurityCtx.rsaOaep d w).tlv (SecurityCtx.rsaOaep d' w').tlv
  | _, _ => .ok false

/-- flic/tlvs/Manifest.py:74-77 -/
def Manifest.pyEq (a b : Manifest) : Py Bool := wireEqual a.serialize b.serialize

end Ccnpy
