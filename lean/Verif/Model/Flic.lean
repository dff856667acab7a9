import Verif.Model.Packet

/-!
# FLIC TLVs: `ccnpy/flic/tlvs/*.py`, `flic/aeadctx/AeadData.py`, `flic/RsaOaepCtx/{HashAlg,RsaOaepWrapper}.py`

Type errors caused by passing objects of a wrong Python class are not modelled (the Lean types rule them out).
-/

namespace Ccnpy

/-! ## `TlvType.auto_parse` -/

/-- One `(argument name, class)` pair of core/TlvType.py:83-88: its TLV type, whether `values[arg]` is set, and
`values[arg] = clazz.parse(tlv)`. -/
structure AutoField (σ : Type) where
  type : Nat
  isSet : σ → Bool
  parse : σ → Tlv → Py σ

/-- Build an `AutoField` from accessors. -/
def autoField {σ α : Type} (type : Nat) (get : σ → Option α) (set : σ → α → σ) (parse : Tlv → Py α) : AutoField σ where
  type := type
  isSet s := (get s).isSome
  parse s t := do return set s (← parse t)

/-- core/TlvType.py:87, 90-112, the body of the loop of `auto_value_parse` as it is written: `parser_lookup` is a dictionary, in which a
later class of the same type replaces an earlier one, and the `except KeyError` surrounds the lookup and also `clazz.parse`, so that a
KeyError raised while an element is parsed would make it an unknown element. -/
def autoStepCatch {σ : Type} (skipUnknown : Bool) (fields : List (AutoField σ)) (s : σ) (t : Tlv) : Py σ :=
  let tried : Py σ :=
    match fields.reverse.find? (fun f => f.type == t.type) with
    | none => .error .keyError
    | some f => if f.isSet s then .error .parseError else f.parse s t
  match tried with
  | .error .keyError => if skipUnknown then .ok s else .error .parseError
  | r => r

/-- core/TlvType.py:100-112, the body of the loop of `auto_value_parse` with `skip_unknown=True` (the only use in the
code base).  Simplified: no parser raises KeyError and no two classes of a list have the same type (`C80_auto_parse` shows that this is
`autoStepCatch`). -/
def autoStep {σ : Type} (fields : List (AutoField σ)) (s : σ) (t : Tlv) : Py σ :=
  match fields.find? (fun f => f.type == t.type) with
  | none => .ok s
  | some f => if f.isSet s then .error .parseError else f.parse s t

/-- core/TlvType.py:82-114 `auto_value_parse` -/
def autoValueParse {σ : Type} (fields : List (AutoField σ)) (init : σ) (value : Bytes) : Py σ :=
  tlvLoop (autoStep fields) value init

/-- core/TlvType.py:57-80 `auto_parse` -/
def autoParse {σ : Type} (type : Nat) (fields : List (AutoField σ)) (init : σ) (t : Tlv) : Py σ :=
  if t.type ≠ type then .error .cannotParseError
  else autoValueParse fields init t.value

/-! ## Type numbers (flic/tlvs/TlvNumbers.py:27-77; `T_KEYID` and `T_KEYLINK` are shared with core) -/

def T_SECURITY_CTX : Nat := 0x0000
def T_NODE : Nat := 0x0001
def T_ENCRYPTED_NODE : Nat := 0x0002
def T_AUTH_TAG : Nat := 0x0003
def T_AEAD_CTX : Nat := 0x0000
def T_RSAOAEP_CTX : Nat := 0x0001
def T_NODE_DATA : Nat := 0x0000
def T_HASH_GROUP : Nat := 0x0001
def T_SUBTREE_SIZE : Nat := 0x0002
def T_SUBTREE_DIGEST : Nat := 0x0003
def T_NCDEF : Nat := 0x0004
def T_NCID : Nat := 0x0005
def T_LOCATORS : Nat := 0x0006
def T_PTRS : Nat := 0x0007
def T_GROUP_DATA : Nat := 0x000B
def T_HashSchema : Nat := 0x0010
def T_PrefixSchema : Nat := 0x0011
def T_SegmentedSchema : Nat := 0x0012
def T_ORG : Nat := 0x0FFF
def T_PROTOCOL_FLAGS : Nat := 0x0001
def T_SUFFIX_TYPE : Nat := 0x0002
def T_LINK : Nat := 0x000D
def T_LEAF_SIZE : Nat := 0x0000
def T_LEAF_DIGEST : Nat := 0x0001
def T_START_SEGMENT_ID : Nat := 0x0004
def T_KEYNUM : Nat := 0x0000
def T_NONCE : Nat := 0x0001
def T_AEADMode : Nat := 0x0002
def T_HASH_ALG : Nat := 0x0003
def T_WRAPPED_KEY : Nat := 0x0004
def T_KDF_DATA : Nat := 0x0005
def T_KDF_ALG : Nat := 0x0006
def T_KDF_INFO : Nat := 0x0007
/-- core/Pad.py:24 -/
def T_PAD : Nat := 0x0FFE

/-! ## Hash groups -/

/-- flic/tlvs/GroupData.py:38-67.  `SubtreeSize`, `LeafSize`, `NcId`, `StartSegmentId` are integer TLVs
(core/TlvType.py:117-151), `SubtreeDigest`, `LeafDigest` hash TLVs (core/HashTlvType.py). -/
structure GroupData where
  subtreeSize : Option Nat := none
  subtreeDigest : Option HashValue := none
  leafSize : Option Nat := none
  leafDigest : Option HashValue := none
  ncId : Option Nat := none
  startSegmentId : Option Nat := none
  deriving DecidableEq, Repr

/-- flic/tlvs/GroupData.py:70-72 -/
def GroupData.members (g : GroupData) : Py (List Tlv) := do
  let a ← optTlv (intTlv T_SUBTREE_SIZE) g.subtreeSize
  let b ← optTlv (hashTlv T_SUBTREE_DIGEST) g.subtreeDigest
  let c ← optTlv (intTlv T_LEAF_SIZE) g.leafSize
  let d ← optTlv (hashTlv T_LEAF_DIGEST) g.leafDigest
  let e ← optTlv (intTlv T_NCID) g.ncId
  let f ← optTlv (intTlv T_START_SEGMENT_ID) g.startSegmentId
  return a ++ b ++ c ++ d ++ e ++ f

/-- flic/tlvs/GroupData.py:70-73 -/
def GroupData.tlv (g : GroupData) : Py Tlv := do container T_GROUP_DATA (← g.members)

/-- flic/tlvs/GroupData.py:112-117 -/
def GroupData.fields : List (AutoField GroupData) :=
  [ autoField T_SUBTREE_SIZE GroupData.subtreeSize (fun s v => { s with subtreeSize := some v }) (intParse T_SUBTREE_SIZE),
    autoField T_SUBTREE_DIGEST GroupData.subtreeDigest (fun s v => { s with subtreeDigest := some v })
      (hashParse T_SUBTREE_DIGEST),
    autoField T_LEAF_SIZE GroupData.leafSize (fun s v => { s with leafSize := some v }) (intParse T_LEAF_SIZE),
    autoField T_LEAF_DIGEST GroupData.leafDigest (fun s v => { s with leafDigest := some v }) (hashParse T_LEAF_DIGEST),
    autoField T_NCID GroupData.ncId (fun s v => { s with ncId := some v }) (intParse T_NCID),
    autoField T_START_SEGMENT_ID GroupData.startSegmentId (fun s v => { s with startSegmentId := some v })
      (intParse T_START_SEGMENT_ID) ]

/-- flic/tlvs/GroupData.py:108-120 -/
def GroupData.parse (t : Tlv) : Py GroupData := do
  construct GroupData.tlv (← autoParse T_GROUP_DATA GroupData.fields {} t)

/-- flic/tlvs/Pointers.py:42-48 -/
def pointersTlv (ptrs : List HashValue) : Py Tlv := do container T_PTRS (← listTlv HashValue.tlv ptrs)

/-- flic/tlvs/Pointers.py:82-84; `HashValue.deserialize` reads one TLV and wraps it. -/
def pointersStep (acc : List HashValue) (t : Tlv) : Py (List HashValue) := do return acc ++ [← HashValue.parse t]

/-- flic/tlvs/Pointers.py:74-85 -/
def pointersParse (t : Tlv) : Py (List HashValue) :=
  if t.type ≠ T_PTRS then .error .valueError
  else do construct pointersTlv (← tlvLoop pointersStep t.value [])

/-- flic/tlvs/HashGroup.py:29-37 -/
structure HashGroup where
  groupData : Option GroupData := none
  pointers : Option (List HashValue) := none
  deriving DecidableEq, Repr

def HashGroup.members (g : HashGroup) : Py (List Tlv) := do
  let a ← optTlv GroupData.tlv g.groupData
  let b ← optTlv pointersTlv g.pointers
  return a ++ b

/-- flic/tlvs/HashGroup.py:39 -/
def HashGroup.tlv (g : HashGroup) : Py Tlv := do container T_HASH_GROUP (← g.members)

/-- flic/tlvs/HashGroup.py:68-69 -/
def HashGroup.fields : List (AutoField HashGroup) :=
  [ autoField T_GROUP_DATA HashGroup.groupData (fun s v => { s with groupData := some v }) GroupData.parse,
    autoField T_PTRS HashGroup.pointers (fun s v => { s with pointers := some v }) pointersParse ]

/-- flic/tlvs/HashGroup.py:65-71 -/
def HashGroup.parse (t : Tlv) : Py HashGroup := do
  construct HashGroup.tlv (← autoParse T_HASH_GROUP HashGroup.fields {} t)

/-! ## Locators, name constructors, vendors, node data -/

/-- flic/tlvs/Locator.py:47-61: a link with a mandatory name inside a TLV. -/
def locatorTlv (l : Link) : Py Tlv :=
  match l.name with
  | none => .error .valueError
  | some _ => linkTlv T_LINK l

/-- flic/tlvs/Locator.py:78-84 -/
def locatorParse (t : Tlv) : Py Link :=
  if t.type ≠ T_LINK then .error .cannotParseError
  else do construct locatorTlv (← Link.deserialize t.value)

/-- flic/tlvs/Locators.py:54-66 -/
def locatorsTlv (ls : List Link) : Py Tlv := do
  let m ← listTlv locatorTlv ls
  if ls.length = 0 then .error .runtimeError else container T_LOCATORS m

def locatorsStep (acc : List Link) (t : Tlv) : Py (List Link) := do return acc ++ [← locatorParse t]

/-- flic/tlvs/Locators.py:98-115 -/
def locatorsParse (t : Tlv) : Py (List Link) :=
  if t.type ≠ T_LOCATORS then .error .runtimeError
  else do construct locatorsTlv (← tlvLoop locatorsStep t.value [])

/-- flic/tlvs/SuffixComponentType.py:32-37 (values are non-negative here) -/
def suffixTlv (n : Nat) : Py Tlv := if n ≤ 0xFFFF then createUint16 T_SUFFIX_TYPE n else .error .valueError

/-- flic/tlvs/SuffixComponentType.py:54-59 -/
def suffixParse (t : Tlv) : Py Nat :=
  if t.type ≠ T_SUFFIX_TYPE then .error .cannotParseError
  else construct suffixTlv t.valueAsNumber

/-- flic/tlvs/NcSchema.py:195-283: the three concrete name constructor schemas.  All fields may be `None`, as after
parsing a schema without them.  `flags` is the byte string of `ProtocolFlags`. -/
structure NcSchemaFields where
  name : Option Name := none
  suffixType : Option Nat := none
  locators : Option (List Link) := none
  flags : Option Bytes := none
  deriving DecidableEq, Repr

inductive NcSchema where
  | hash (locators : Option (List Link)) (flags : Option Bytes)
  | prefixed (name : Option Name) (locators : Option (List Link)) (flags : Option Bytes)
  | segmented (name : Option Name) (suffixType : Option Nat) (locators : Option (List Link)) (flags : Option Bytes)
  deriving DecidableEq, Repr

/-- flic/tlvs/NcSchema.py:55-58: `ProtocolFlagsSchema.__init__` builds `Tlv(type, flags)`; iterating a `ProtocolFlags`
object raises TypeError, so no schema with flags can be built. -/
def flagsCheck : Option Bytes → Py Unit
  | none => .ok ()
  | some _ => .error .typeError

/-- flic/tlvs/NcSchema.py:92-96, 149-152, 225-228: wire order name, suffix type, locators, (flags). -/
def NcSchema.tlv : NcSchema → Py Tlv
  | .hash locators flags => do
    let l ← optTlv locatorsTlv locators
    let _ ← flagsCheck flags
    container T_HashSchema l
  | .prefixed name locators flags => do
    let n ← optTlv Name.tlv name
    let l ← optTlv locatorsTlv locators
    let _ ← flagsCheck flags
    container T_PrefixSchema (n ++ l)
  | .segmented name suffix locators flags => do
    let n ← optTlv Name.tlv name
    let s ← optTlv suffixTlv suffix
    let l ← optTlv locatorsTlv locators
    let _ ← flagsCheck flags
    container T_SegmentedSchema (n ++ s ++ l)

def ncNameField : AutoField NcSchemaFields :=
  autoField T_NAME NcSchemaFields.name (fun s v => { s with name := some v }) Name.parse
def ncSuffixField : AutoField NcSchemaFields :=
  autoField T_SUFFIX_TYPE NcSchemaFields.suffixType (fun s v => { s with suffixType := some v }) suffixParse
def ncLocatorsField : AutoField NcSchemaFields :=
  autoField T_LOCATORS NcSchemaFields.locators (fun s v => { s with locators := some v }) locatorsParse
def ncFlagsField : AutoField NcSchemaFields :=
  autoField T_PROTOCOL_FLAGS NcSchemaFields.flags (fun s v => { s with flags := some v }) (octetParse T_PROTOCOL_FLAGS)

/-- flic/tlvs/NcSchema.py:163-171 for `PrefixSchema` -/
def NcSchema.parsePrefix (t : Tlv) : Py NcSchema := do
  let v ← autoParse T_PrefixSchema [ncNameField, ncLocatorsField, ncFlagsField] {} t
  construct NcSchema.tlv (.prefixed v.name v.locators v.flags)

/-- flic/tlvs/NcSchema.py:237-245 -/
def NcSchema.parseSegmented (t : Tlv) : Py NcSchema := do
  let v ← autoParse T_SegmentedSchema [ncNameField, ncSuffixField, ncLocatorsField, ncFlagsField] {} t
  construct NcSchema.tlv (.segmented v.name v.suffixType v.locators v.flags)

/-- flic/tlvs/NcSchema.py:116-123 for `HashSchema` -/
def NcSchema.parseHash (t : Tlv) : Py NcSchema := do
  let v ← autoParse T_HashSchema [ncLocatorsField, ncFlagsField] {} t
  construct NcSchema.tlv (.hash v.locators v.flags)

/-- `try: return a  except CannotParseError: b` -/
def orElseCannotParse {α : Type} (a b : Py α) : Py α :=
  match a with
  | .error .cannotParseError => b
  | r => r

/-- flic/tlvs/NcSchema.py:37-48 -/
def NcSchema.parse (t : Tlv) : Py NcSchema :=
  orElseCannotParse (NcSchema.parsePrefix t)
    (orElseCannotParse (NcSchema.parseSegmented t)
      (orElseCannotParse (NcSchema.parseHash t) (.error .cannotParseError)))

/-- flic/tlvs/NcDef.py:36-40; both parts may be absent after parsing an incomplete TLV. -/
structure NcDef where
  ncId : Option Nat := none
  schema : Option NcSchema := none
  deriving DecidableEq, Repr

def NcDef.members (d : NcDef) : Py (List Tlv) := do
  let a ← optTlv (intTlv T_NCID) d.ncId
  let b ← optTlv NcSchema.tlv d.schema
  return a ++ b

/-- flic/tlvs/NcDef.py:40 -/
def NcDef.tlv (d : NcDef) : Py Tlv := do container T_NCDEF (← d.members)

/-- flic/tlvs/NcDef.py:73-78 -/
def NcDef.parseStep (s : NcDef) (t : Tlv) : Py NcDef :=
  if t.type = T_NCID then do
    pyAssert s.ncId.isNone
    return { s with ncId := some (← intParse T_NCID t) }
  else do
    pyAssert s.schema.isNone
    return { s with schema := some (← NcSchema.parse t) }

/-- flic/tlvs/NcDef.py:59-80 -/
def NcDef.parse (t : Tlv) : Py NcDef :=
  if t.type ≠ T_NCDEF then .error .cannotParseError
  else do construct NcDef.tlv (← tlvLoop NcDef.parseStep t.value {})

/-- flic/tlvs/Vendor.py:29-39 -/
structure Vendor where
  pen : Nat
  payload : Bytes
  deriving DecidableEq, Repr

/-- flic/tlvs/Vendor.py:32-43 -/
def Vendor.tlv (v : Vendor) : Py Tlv :=
  if v.pen > 0xFFFFFF then .error .valueError
  else do mkTlv T_ORG ((← uint24ToArray v.pen) ++ v.payload)

/-- flic/tlvs/Vendor.py:65-76.  The check `len(tlv) < 3` never fires because `len(tlv)` includes the 4 header bytes. -/
def Vendor.parse (t : Tlv) : Py Vendor :=
  if t.type ≠ T_ORG then .error .cannotParseError
  else if t.len < 3 then .error .valueError
  else construct Vendor.tlv ⟨arrayToNumber (t.value.take 3), t.value.drop 3⟩

/-- flic/tlvs/NodeData.py:40-74; `vendors = None` and `vendors = []` are the same (67-68). -/
structure NodeData where
  subtreeSize : Option Nat := none
  subtreeDigest : Option HashValue := none
  locators : Option (List Link) := none
  vendors : List Vendor := []
  ncDefs : List NcDef := []
  deriving DecidableEq, Repr

/-- flic/tlvs/NodeData.py:76-90 -/
def NodeData.members (d : NodeData) : Py (List Tlv) := do
  let a ← optTlv (intTlv T_SUBTREE_SIZE) d.subtreeSize
  let b ← optTlv (hashTlv T_SUBTREE_DIGEST) d.subtreeDigest
  let c ← optTlv locatorsTlv d.locators
  let e ← listTlv NcDef.tlv d.ncDefs
  let f ← listTlv Vendor.tlv d.vendors
  return a ++ b ++ c ++ e ++ f

/-- flic/tlvs/NodeData.py:92 -/
def NodeData.tlv (d : NodeData) : Py Tlv := do container T_NODE_DATA (← d.members)

/-- flic/tlvs/NodeData.py:135-149 -/
def NodeData.parseStep (s : NodeData) (t : Tlv) : Py NodeData :=
  if t.type = T_SUBTREE_SIZE then do
    pyAssert s.subtreeSize.isNone
    return { s with subtreeSize := some (← intParse T_SUBTREE_SIZE t) }
  else if t.type = T_SUBTREE_DIGEST then do
    pyAssert s.subtreeDigest.isNone
    return { s with subtreeDigest := some (← hashParse T_SUBTREE_DIGEST t) }
  else if t.type = T_LOCATORS then do
    pyAssert s.locators.isNone
    return { s with locators := some (← locatorsParse t) }
  else if t.type = T_NCDEF then do
    return { s with ncDefs := s.ncDefs ++ [← NcDef.parse t] }
  else if t.type = T_ORG then do
    return { s with vendors := s.vendors ++ [← Vendor.parse t] }
  else .error .parseError

/-- flic/tlvs/NodeData.py:121-152 -/
def NodeData.parse (t : Tlv) : Py NodeData :=
  if t.type ≠ T_NODE_DATA then .error .cannotParseError
  else do construct NodeData.tlv (← tlvLoop NodeData.parseStep t.value {})

/-! ## Nodes -/

/-- flic/tlvs/Node.py:79-99.  `hash_groups=None` (ValueError) is not representable. -/
structure Node where
  nodeData : Option NodeData := none
  hashGroups : List HashGroup
  padLength : Option Int := none
  deriving DecidableEq, Repr

/-- core/Pad.py:30-36 (`length >= 0` at the only call, flic/tlvs/Node.py:107-108) -/
def padTlv (length : Nat) : Py Tlv := octetTlv T_PAD (List.replicate length 0)

def Node.members (n : Node) : Py (List Tlv) := do
  let a ← optTlv NodeData.tlv n.nodeData
  let b ← listTlv HashGroup.tlv n.hashGroups
  return a ++ b

/-- flic/tlvs/Node.py:96-110 `__init__`, `_create_padded_tlv` -/
def Node.tlv (n : Node) : Py Tlv := do
  let m ← n.members
  if n.hashGroups.length = 0 then .error .typeError
  else
    let value ← concatTlvs m
    match n.padLength with
    | none => mkTlv T_NODE value
    | some pad =>
      let deficit : Int := pad - (4 + value.length)
      if deficit ≥ 4 then
        mkTlv T_NODE (← concatTlvs (m ++ [← padTlv (deficit - 4).toNat]))
      else mkTlv T_NODE value

/-- The locals of `Node.parse`. -/
structure NodeState where
  nodeData : Option NodeData := none
  hashGroups : List HashGroup := []

/-- flic/tlvs/Node.py:189-200 -/
def Node.parseStep (s : NodeState) (t : Tlv) : Py NodeState :=
  if t.type = T_NODE_DATA then do
    pyAssert s.nodeData.isNone
    return { s with nodeData := some (← NodeData.parse t) }
  else if t.type = T_HASH_GROUP then do
    return { s with hashGroups := s.hashGroups ++ [← HashGroup.parse t] }
  else if t.type = T_PAD then .ok s
  else .error .parseError

/-- flic/tlvs/Node.py:173-202 -/
def Node.parse (t : Tlv) : Py Node :=
  if t.type ≠ T_NODE then .error .cannotParseError
  else do
    let s ← tlvLoop Node.parseStep t.value {}
    construct Node.tlv { nodeData := s.nodeData, hashGroups := s.hashGroups }

/-- flic/tlvs/Node.py:139-146 `serialized_value` -/
def Node.serializedValue (n : Node) : Py Bytes := do return (← n.tlv).value

/-- flic/tlvs/Node.py:40-43 `HashIteratorValue` -/
structure HashIteratorValue where
  ncId : Nat
  hashValue : HashValue
  segmentId : Option Nat
  deriving DecidableEq, Repr

/-- flic/tlvs/Node.py:45-49 `NodeIterator.__init__` -/
structure NodeIterator where
  groups : List HashGroup
  groupIndex : Nat := 0
  ptrIndex : Nat := 0

/-- flic/tlvs/Node.py:69-73 `_get_segment_id` -/
def NodeIterator.segmentId (hg : HashGroup) (offset : Nat) : Option Nat :=
  match hg.groupData with
  | none => none
  | some gd => match gd.startSegmentId with
    | none => none
    | some start => some (start + offset)

/-- flic/tlvs/Node.py:51-67 `__next__`; `ok none` is StopIteration.  The recursion of line 58 is on the number of groups
left (Python's recursion limit is not modelled). -/
def NodeIterator.next (it : NodeIterator) : Py (Option (HashIteratorValue × NodeIterator)) :=
  if h : it.groupIndex ≥ it.groups.length then .ok none
  else
    let hg := it.groups[it.groupIndex]
    match hg.pointers with
    | none => .error .typeError
    | some ptrs =>
      if h2 : it.ptrIndex ≥ ptrs.length then
        NodeIterator.next { it with ptrIndex := 0, groupIndex := it.groupIndex + 1 }
      else
        match hg.groupData with
        | none => .error .valueError
        | some gd => match gd.ncId with
          | none => .error .valueError
          | some nc => .ok (some (⟨nc, ptrs[it.ptrIndex], NodeIterator.segmentId hg it.ptrIndex⟩,
              { it with ptrIndex := it.ptrIndex + 1 }))
termination_by it.groups.length - it.groupIndex
decreasing_by simp_wf; omega

/-- flic/tlvs/Node.py:124-125 `__iter__` -/
def Node.iter (n : Node) : NodeIterator := { groups := n.hashGroups }

/-! ## Security contexts -/

/-- flic/tlvs/KdfData.py:43-50: `KdfAlg` is an integer TLV, `KdfInfo` an octet TLV. -/
structure KdfData where
  kdfAlg : Nat
  kdfInfo : Option Bytes := none
  deriving DecidableEq, Repr

/-- flic/tlvs/KdfData.py:52 -/
def KdfData.tlv (d : KdfData) : Py Tlv := do
  let a ← intTlv T_KDF_ALG d.kdfAlg
  let b ← optTlv (octetTlv T_KDF_INFO) d.kdfInfo
  container T_KDF_DATA ([a] ++ b)

/-- The dictionary filled by `auto_parse` for `KdfData`. -/
structure KdfDataFields where
  kdfAlg : Option Nat := none
  kdfInfo : Option Bytes := none

def KdfData.fields : List (AutoField KdfDataFields) :=
  [ autoField T_KDF_ALG KdfDataFields.kdfAlg (fun s v => { s with kdfAlg := some v }) (intParse T_KDF_ALG),
    autoField T_KDF_INFO KdfDataFields.kdfInfo (fun s v => { s with kdfInfo := some v }) (octetParse T_KDF_INFO) ]

/-- flic/tlvs/KdfData.py:74-83; the constructor asserts that the algorithm is present (47). -/
def KdfData.parse (t : Tlv) : Py KdfData := do
  let v ← autoParse T_KDF_DATA KdfData.fields {} t
  match v.kdfAlg with
  | none => .error .assertionError
  | some a => construct KdfData.tlv ⟨a, v.kdfInfo⟩

/-- flic/aeadctx/AeadData.py:36-47.  `mode` may be `None` after parsing. -/
structure AeadData where
  keyNumber : Nat
  nonce : Bytes
  mode : Option Nat
  kdfData : Option KdfData := none
  deriving DecidableEq, Repr

/-- flic/aeadctx/AeadData.py:48 -/
def AeadData.members (d : AeadData) : Py (List Tlv) := do
  let a ← intTlv T_KEYNUM d.keyNumber
  let b ← octetTlv T_NONCE d.nonce
  let c ← optTlv (intTlv T_AEADMode) d.mode
  let e ← optTlv KdfData.tlv d.kdfData
  return [a, b] ++ c ++ e

/-- The dictionary filled by `auto_value_parse` for `AeadData`. -/
structure AeadDataFields where
  keyNumber : Option Nat := none
  nonce : Option Bytes := none
  mode : Option Nat := none
  kdfData : Option KdfData := none

def AeadData.fields : List (AutoField AeadDataFields) :=
  [ autoField T_KEYNUM AeadDataFields.keyNumber (fun s v => { s with keyNumber := some v }) (intParse T_KEYNUM),
    autoField T_NONCE AeadDataFields.nonce (fun s v => { s with nonce := some v }) (octetParse T_NONCE),
    autoField T_AEADMode AeadDataFields.mode (fun s v => { s with mode := some v }) (intParse T_AEADMode),
    autoField T_KDF_DATA AeadDataFields.kdfData (fun s v => { s with kdfData := some v }) KdfData.parse ]

/-- flic/aeadctx/AeadData.py:81-96.  Missing key number: `KeyNumber(None)` compares `None < 0x100` (TypeError); missing
nonce: `Nonce(None)` (ValueError). -/
def AeadData.parse (value : Bytes) : Py AeadData := do
  let v ← autoValueParse AeadData.fields {} value
  match v.keyNumber, v.nonce with
  | none, _ => .error .typeError
  | some _, none => .error .valueError
  | some k, some n =>
    let d : AeadData := ⟨k, n, v.mode, v.kdfData⟩
    let _ ← concatTlvs (← d.members)
    return d

/-- flic/RsaOaepCtx/RsaOaepWrapper.py:45-57.  `HashAlg` is an integer TLV (RsaOaepCtx/HashAlg.py), `WrappedKey` an octet
TLV (RsaOaepCtx/WrappedKey.py:31-93), the key link a `KeyLink`. -/
structure RsaOaepWrapper where
  keyId : HashValue
  keyLink : Option Link := none
  hashAlg : Option Nat
  wrappedKey : Option Bytes
  deriving DecidableEq, Repr

/-- flic/RsaOaepCtx/RsaOaepWrapper.py:58 -/
def RsaOaepWrapper.members (w : RsaOaepWrapper) : Py (List Tlv) := do
  let a ← hashTlv T_KEYID w.keyId
  let b ← optTlv (linkTlv T_KEYLINK) w.keyLink
  let c ← optTlv (intTlv T_HASH_ALG) w.hashAlg
  let d ← optTlv (octetTlv T_WRAPPED_KEY) w.wrappedKey
  return [a] ++ b ++ c ++ d

structure RsaOaepWrapperFields where
  keyId : Option HashValue := none
  keyLink : Option Link := none
  hashAlg : Option Nat := none
  wrappedKey : Option Bytes := none

def RsaOaepWrapper.fields : List (AutoField RsaOaepWrapperFields) :=
  [ autoField T_KEYID RsaOaepWrapperFields.keyId (fun s v => { s with keyId := some v }) (hashParse T_KEYID),
    autoField T_KEYLINK RsaOaepWrapperFields.keyLink (fun s v => { s with keyLink := some v }) KeyLink.parse,
    autoField T_HASH_ALG RsaOaepWrapperFields.hashAlg (fun s v => { s with hashAlg := some v }) (intParse T_HASH_ALG),
    autoField T_WRAPPED_KEY RsaOaepWrapperFields.wrappedKey (fun s v => { s with wrappedKey := some v })
      (octetParse T_WRAPPED_KEY) ]

/-- flic/RsaOaepCtx/RsaOaepWrapper.py:89-112: `None` when no field is present; the constructor asserts a key id (52). -/
def RsaOaepWrapper.parse (value : Bytes) : Py (Option RsaOaepWrapper) := do
  let v ← autoValueParse RsaOaepWrapper.fields {} value
  match v.keyId with
  | none =>
    if v.keyLink.isNone && v.hashAlg.isNone && v.wrappedKey.isNone then return none else .error .assertionError
  | some k =>
    let w : RsaOaepWrapper := ⟨k, v.keyLink, v.hashAlg, v.wrappedKey⟩
    let _ ← concatTlvs (← w.members)
    return some w

/-- flic/tlvs/AeadCtx.py:41-50, flic/tlvs/RsaOaepCtx.py:47-56 -/
inductive SecurityCtx where
  | aead (data : AeadData)
  | rsaOaep (data : AeadData) (wrapper : Option RsaOaepWrapper)
  deriving DecidableEq, Repr

/-- flic/tlvs/SecurityCtx.py:85-86 `aead_data` -/
def SecurityCtx.aeadData : SecurityCtx → AeadData
  | .aead d => d
  | .rsaOaep d _ => d

/-- The optional wrapper in the list at flic/tlvs/RsaOaepCtx.py:56. -/
def wrapperMembers : Option RsaOaepWrapper → Py (List Tlv)
  | none => .ok []
  | some w => w.members

/-- flic/tlvs/AeadCtx.py:49-50, flic/tlvs/RsaOaepCtx.py:55-56 -/
def SecurityCtx.tlv : SecurityCtx → Py Tlv
  | .aead d => do container T_SECURITY_CTX [← container T_AEAD_CTX (← d.members)]
  | .rsaOaep d w => do
    let a ← d.members
    let b ← wrapperMembers w
    container T_SECURITY_CTX [← container T_RSAOAEP_CTX (a ++ b)]

/-- flic/tlvs/SecurityCtx.py:48-66, AeadCtx.py:63-74, RsaOaepCtx.py:69-84 (the type checks of the two subclasses repeat
those of the dispatcher). -/
def SecurityCtx.parse (t : Tlv) : Py SecurityCtx :=
  if t.type ≠ T_SECURITY_CTX then .error .cannotParseError
  else do
    let inner ← Tlv.deserialize t.value
    if inner.type = T_AEAD_CTX then do
      construct SecurityCtx.tlv (.aead (← AeadData.parse inner.value))
    else if inner.type = T_RSAOAEP_CTX then do
      let d ← AeadData.parse inner.value
      let w ← RsaOaepWrapper.parse inner.value
      construct SecurityCtx.tlv (.rsaOaep d w)
    else .error .parseError

/-! ## Manifests -/

/-- The `node` of a manifest: a `Node` or an `EncryptedNode` (octet TLV, flic/tlvs/EncryptedNode.py). -/
inductive ManifestNode where
  | plain (node : Node)
  | encrypted (ciphertext : Bytes)
  deriving DecidableEq, Repr

def ManifestNode.tlv : ManifestNode → Py Tlv
  | .plain n => n.tlv
  | .encrypted c => octetTlv T_ENCRYPTED_NODE c

/-- flic/tlvs/Manifest.py:50-62; the auth tag is an octet TLV (flic/tlvs/AuthTag.py).  `node=None` (ValueError) is not
representable. -/
structure Manifest where
  securityCtx : Option SecurityCtx := none
  node : ManifestNode
  authTag : Option Bytes := none
  deriving DecidableEq, Repr

/-- flic/tlvs/Manifest.py:64-69, 110-111 -/
def Manifest.members (m : Manifest) : Py (List Tlv) := do
  let a ← optTlv SecurityCtx.tlv m.securityCtx
  let b ← m.node.tlv
  let c ← optTlv (octetTlv T_AUTH_TAG) m.authTag
  return a ++ [b] ++ c

/-- flic/tlvs/Manifest.py:64-69, 110-111: the wire format. -/
def Manifest.serialize (m : Manifest) : Py Bytes := do concatTlvs (← m.members)

/-- The locals of `Manifest.deserialize`. -/
structure ManifestState where
  securityCtx : Option SecurityCtx := none
  node : Option ManifestNode := none
  authTag : Option Bytes := none

/-- flic/tlvs/Manifest.py:93-105 -/
def Manifest.parseStep (s : ManifestState) (t : Tlv) : Py ManifestState :=
  if t.type = T_SECURITY_CTX then do
    pyAssert s.securityCtx.isNone
    return { s with securityCtx := some (← SecurityCtx.parse t) }
  else if t.type = T_NODE then do
    pyAssert s.node.isNone
    return { s with node := some (.plain (← Node.parse t)) }
  else if t.type = T_ENCRYPTED_NODE then do
    pyAssert s.node.isNone
    return { s with node := some (.encrypted (← octetParse T_ENCRYPTED_NODE t)) }
  else if t.type = T_AUTH_TAG then do
    return { s with authTag := some (← octetParse T_AUTH_TAG t) }
  else .error .valueError

/-- flic/tlvs/Manifest.py:82-108 -/
def Manifest.deserialize (buf : Bytes) : Py Manifest := do
  let s ← tlvLoop Manifest.parseStep buf {}
  match s.node with
  | none => .error .valueError
  | some n =>
    let m : Manifest := ⟨s.securityCtx, n, s.authTag⟩
    let _ ← m.serialize
    return m

/-- flic/tlvs/Manifest.py:37-48; `payload_type()` or `payload()` being `None` raises AttributeError. -/
def Manifest.fromContentObject (co : ContentObject) : Py Manifest :=
  match co.payloadType with
  | none => .error .attributeError
  | some ty =>
    if ty ≠ PT_MANIFEST then .error .valueError
    else match co.payload with
      | none => .error .attributeError
      | some p => Manifest.deserialize p

/-- flic/tlvs/Manifest.py:129-134 -/
def Manifest.contentObject (m : Manifest) (name : Option Name) (expiry : Option F64) : Py ContentObject := do
  construct ContentObject.tlv
    { name := name, payloadType := some PT_MANIFEST, payload := some (← m.serialize), expiryTime := expiry }

/-- flic/tlvs/Manifest.py:136-138 -/
def Manifest.packet (m : Manifest) (name : Option Name) (expiry : Option F64) : Py Packet := do
  Packet.createContentObject (← m.contentObject name expiry)

/-- flic/tlvs/Manifest.py:126-127 -/
def Manifest.isEncrypted (m : Manifest) : Bool :=
  match m.node with
  | .encrypted _ => true
  | .plain _ => false

/-- flic/tlvs/Manifest.py:140-149 `hash_values` -/
def Manifest.hashValues (m : Manifest) : Py NodeIterator :=
  match m.node with
  | .encrypted _ => .error .typeError
  | .plain n => .ok n.iter

end Ccnpy
