import Verif.Model.Flic
import Verif.Model.Uri

/-!
# Showing packets: the `__repr__` methods of `ccnpy/core` and `ccnpy/flic/tlvs`

Only whether a `__repr__` raises, and which exception, is modelled; the text is dropped.  The methods that cannot raise on objects that
exist (hash values, octets, payload types, vendors, the fixed header, integers in hexadecimal) are left out.  A `%` tuple is formatted from left to right.
-/

namespace Ccnpy

/-- Format the members of a list, in order. -/
def showAll {α : Type} (f : α → Py Unit) : List α → Py Unit
  | [] => .ok ()
  | a :: l => do
    f a
    showAll f l

/-- Format a value that may be `None`. -/
def showOpt {α : Type} (f : α → Py Unit) : Option α → Py Unit
  | none => .ok ()
  | some a => f a

/-- `%r` of an integer, in flic/tlvs/SubtreeSize.py:29-30, LeafSize.py:31-32, NcId.py:28-29, StartSegmentId.py:34-35, KeyNumber.py:38-39,
KdfAlg.py:42-43, flic/RsaOaepCtx/HashAlg.py:32-33 and core/FinalChunkId.py:34-35: one with too many digits raises (see `decimal`). -/
def showInt (n : Nat) : Py Unit := do
  let _ ← decimal n
  return ()

/-- core/Timestamp.py:45-46 and 81-85.  `datetime.fromtimestamp` is library code, here as CPython on 64 bits with glibc: a year after 9999
raises ValueError, which is caught; a year too large for the C structure `tm`, from 67768036191676800 seconds on, raises OSError; seconds
that do not fit 64 bits with a sign raise OverflowError. -/
def showTime (t : F64) : Py Unit :=
  if t.toInt < 67768036191676800 then .ok ()
  else if t.toInt < 2 ^ 63 then .error .osError
  else .error .overflowError

/-- core/Name.py:56-66 and 103-104 -/
def Name.display (n : Name) : Py Unit :=
  showAll (fun c => do let _ ← NameComponent.repr (fun _ => []) c; return ()) n.components

/-- core/Link.py:74-75; also flic/tlvs/Locator.py:69-70 and core/KeyLink.py:36-37 around it. -/
def Link.display (l : Link) : Py Unit := showOpt Name.display l.name

/-- flic/tlvs/AeadMode.py:33-42 and 79-80 -/
def aeadModeDisplay (m : Nat) : Py Unit :=
  if m = 1 then .ok () else if m = 2 then .ok () else if m = 3 then .ok () else if m = 4 then .ok () else .error .valueError

/-- flic/aeadctx/AeadData.py:55-56, flic/tlvs/KdfData.py:62-63 -/
def AeadData.display (d : AeadData) : Py Unit := do
  showInt d.keyNumber
  showOpt aeadModeDisplay d.mode
  showOpt (fun k => showInt k.kdfAlg) d.kdfData

/-- flic/RsaOaepCtx/RsaOaepWrapper.py:68-69 -/
def RsaOaepWrapper.display (w : RsaOaepWrapper) : Py Unit := do
  showOpt Link.display w.keyLink
  showOpt showInt w.hashAlg

/-- flic/tlvs/AeadCtx.py:60-61, flic/tlvs/RsaOaepCtx.py:66-67 -/
def SecurityCtx.display : SecurityCtx → Py Unit
  | .aead d => d.display
  | .rsaOaep d w => do
    d.display
    showOpt RsaOaepWrapper.display w

/-- flic/tlvs/Locators.py:76-77 -/
def locatorsDisplay (ls : List Link) : Py Unit := showAll Link.display ls

/-- flic/tlvs/NcSchema.py:203-204, 231-232, 282-283: the name is formatted with `str`, which cannot raise (core/Name.py:100-101), the
locators with `repr`. -/
def NcSchema.display : NcSchema → Py Unit
  | .hash locators _ => showOpt locatorsDisplay locators
  | .prefixed _ locators _ => showOpt locatorsDisplay locators
  | .segmented _ _ locators _ => showOpt locatorsDisplay locators

/-- flic/tlvs/NcDef.py:51-52 -/
def NcDef.display (d : NcDef) : Py Unit := do
  showOpt showInt d.ncId
  showOpt NcSchema.display d.schema

/-- flic/tlvs/NodeData.py:100-101 -/
def NodeData.display (d : NodeData) : Py Unit := do
  showOpt showInt d.subtreeSize
  showOpt locatorsDisplay d.locators
  showAll NcDef.display d.ncDefs

/-- flic/tlvs/GroupData.py:81-85 -/
def GroupData.display (g : GroupData) : Py Unit := do
  showOpt showInt g.subtreeSize
  showOpt showInt g.leafSize
  showOpt showInt g.ncId
  showOpt showInt g.startSegmentId

/-- flic/tlvs/HashGroup.py:49-50; the pointers (Pointers.py:56-57) cannot raise. -/
def HashGroup.display (g : HashGroup) : Py Unit := showOpt GroupData.display g.groupData

/-- flic/tlvs/Node.py:168-170: iterating over the pointers of a group; `None` is not iterable. -/
def HashGroup.listPointers (g : HashGroup) : Py Unit :=
  match g.pointers with
  | none => .error .typeError
  | some _ => .ok ()

/-- flic/tlvs/Node.py:120-122 -/
def Node.display (n : Node) : Py Unit := do
  showAll HashGroup.listPointers n.hashGroups
  showOpt NodeData.display n.nodeData
  showAll HashGroup.display n.hashGroups

/-- flic/tlvs/Manifest.py:71-72 -/
def Manifest.display (m : Manifest) : Py Unit := do
  showOpt SecurityCtx.display m.securityCtx
  match m.node with
  | .plain n => n.display
  | .encrypted _ => .ok ()

/-- core/ContentObject.py:164: name, expiry time, payload and final chunk id are formatted in this order; `payload` formats the payload. -/
def ContentObject.displayFields (c : ContentObject) (payload : Py Unit) : Py Unit := do
  showOpt Name.display c.name
  showOpt showTime c.expiryTime
  payload
  showOpt showInt c.finalChunkId

/-- core/ContentObject.py:148-164; `brief` is `USE_BRIEF_OUTPUT`.  The payload is decoded before anything is formatted.
A payload that is `None` has no `value()` (AttributeError) and no length (TypeError). -/
def ContentObject.display (brief : Bool) (c : ContentObject) : Py Unit :=
  if c.payloadType = some PT_MANIFEST then
    match c.payload with
    | none => .error .attributeError
    | some b =>
      match Manifest.deserialize b with
      | .ok m => c.displayFields m.display
      | .error .parseError => c.displayFields (.ok ())
      | .error e => .error e
  else if c.payloadType = some PT_LINK then
    match c.payload with
    | none => .error .attributeError
    | some b => do
      let l ← Link.deserialize b
      c.displayFields l.display
  else if brief && c.payload.isNone then .error .typeError
  else c.displayFields (.ok ())

/-- core/ValidationAlg.py:84-85, 160-162 -/
def ValidationAlg.display : ValidationAlg → Py Unit
  | .crc32c => .ok ()
  | .rsaSha256 _ link time => do
    showOpt Link.display link
    showTime time

/-- core/Packet.py:95-96 -/
def Packet.display (brief : Bool) (p : Packet) : Py Unit := do
  p.body.display brief
  showOpt ValidationAlg.display p.alg

end Ccnpy
