import Verif.Model.Flic

/-!
# Name constructor schemas and chunking: `ccnpy/flic/name_constructor/*.py`
-/

namespace Ccnpy

/-- flic/name_constructor/SchemaImpl.py:37 -/
def MAX_CHUNK_ID : Nat := 0xFFFFFF

/-- flic/name_constructor/SchemaImpl.py:39-44: an id and a schema.  The chunk counter is state of `chunkData`, the tree
options are arguments. -/
structure SchemaImpl where
  ncId : Nat
  schema : NcSchema
  deriving DecidableEq, Repr

/-- flic/tlvs/NcSchema.py:107-114 `count` -/
def NcSchema.locatorCount : NcSchema → Nat
  | .hash l _ => (l.map List.length).getD 0
  | .prefixed _ l _ => (l.map List.length).getD 0
  | .segmented _ _ l _ => (l.map List.length).getD 0

/-- The checks of flic/name_constructor/HashSchemaImpl.py:33, PrefixSchemaImpl.py:36-37, SegmentedSchemaImpl.py:41-42. -/
def NcSchema.implCheck (s : NcSchema) : Py Unit :=
  match s with
  | .hash _ _ => pyAssert (s.locatorCount == 1)
  | .prefixed _ _ _ => if s.locatorCount > 0 then .error .valueError else .ok ()
  | .segmented _ _ _ _ => if s.locatorCount > 0 then .error .valueError else .ok ()

/-- flic/name_constructor/SchemaImpl.py:43 `nc_def` -/
def SchemaImpl.ncDef (i : SchemaImpl) : NcDef := { ncId := some i.ncId, schema := some i.schema }

/-- flic/name_constructor/SchemaImpl.py:39-44 and the constructors of the three subclasses.  The assertion of
PrefixSchemaImpl.py:34 on the options' schema type holds at both calls (SchemaImplFactory.py:61, 81). -/
def SchemaImpl.create (ncId : Nat) (schema : NcSchema) : Py SchemaImpl := do
  let _ ← intTlv T_NCID ncId
  let _ ← schema.tlv
  let i : SchemaImpl := ⟨ncId, schema⟩
  let _ ← i.ncDef.tlv
  schema.implCheck
  return i

/-- flic/name_constructor/SchemaImplFactory.py:73-83; `nc_id()` or `schema()` may be `None` after parsing: a
missing id has raised AttributeError before this is called (flic/tree/Traversal.py:53, `NcDef.announce`), a missing schema raises
ValueError. -/
def SchemaImpl.ofNcDef (d : NcDef) : Py SchemaImpl :=
  match d.ncId with
  | none => .error .attributeError
  | some id =>
    match d.schema with
    | none => .error .valueError
    | some s => SchemaImpl.create id s

/-- flic/tlvs/SuffixComponentType.py:51-52 `create_name_component`; `NameComponent.__init__` encodes the component. -/
def suffixComponent (suffixType : Nat) (id : Int) : Py NameComponent := do
  construct NameComponent.tlv ⟨suffixType, ← numberToArray id, true⟩

/-- `get_name`: flic/name_constructor/HashSchemaImpl.py:35-39, PrefixSchemaImpl.py:40-44, SegmentedSchemaImpl.py:49-53.
The argument may be `None` in `Traversal._fetch_packet` (`number_to_array(None)` raises TypeError); a schema parsed without
name or suffix type holds `None` (AttributeError). -/
def SchemaImpl.getName (i : SchemaImpl) (id : Option Int) : Py (Option Name) :=
  match i.schema with
  | .hash _ _ => .ok none
  | .prefixed name _ _ => .ok name
  | .segmented name suffix _ _ =>
    match name, suffix with
    | some n, some s =>
      match id with
      | none => .error .typeError
      | some id => do return some (← n.append (← suffixComponent s id))
    | _, _ => .error .attributeError

/-- `uses_name_id`: flic/name_constructor/SchemaImpl.py:78-80, SegmentedSchemaImpl.py:62-63 -/
def SchemaImpl.usesNameId (i : SchemaImpl) : Bool :=
  match i.schema with
  | .segmented _ _ _ _ => true
  | _ => false

/-- `uses_final_chunk_id`: flic/name_constructor/SchemaImpl.py:83-85, SegmentedSchemaImpl.py:65-66 -/
def SchemaImpl.usesFinalChunkId (i : SchemaImpl) : Bool :=
  match i.schema with
  | .segmented _ s _ _ => s == some T_CHUNKID
  | _ => false

/-! ## The context -/

/-- flic/name_constructor/SchemaType.py -/
inductive SchemaType where
  | hashed
  | prefixed
  | segmented
  deriving DecidableEq, Repr

/-- flic/name_constructor/NameConstructorContext.py:26-33.  `shared` says that both fields are the same object, which is
what `==` compares (`SchemaImpl` defines no `__eq__`). -/
structure NameCtx where
  manifest : SchemaImpl
  data : SchemaImpl
  shared : Bool
  deriving DecidableEq, Repr

/-- flic/name_constructor/NameConstructorContext.py:41-46 `nc_def` -/
def NameCtx.ncDefs (c : NameCtx) : List NcDef :=
  if c.shared then [c.manifest.ncDef] else [c.manifest.ncDef, c.data.ncDef]

/-- flic/name_constructor/SchemaImplFactory.py:52-70 -/
def schemaFor (ty : SchemaType) (locators : Option (List Link)) (name : Option Name) (forManifest : Bool) : NcSchema :=
  match ty with
  | .hashed => .hash locators none
  | .prefixed => .prefixed name none none
  | .segmented => .segmented name (some (if forManifest then T_MANIFESTID else T_CHUNKID)) none none

/-- `Link.__eq__`, core/Link.py:71-72: names, restrictions and wire formats (of existing links). -/
def Link.pyEq (a b : Link) : Bool :=
  (match a.name, b.name with
    | none, none => true
    | some x, some y => x.pyEq y
    | _, _ => false) &&
  (match a.keyid, b.keyid with
    | none, none => true
    | some x, some y => x.pyEq y
    | _, _ => false) &&
  (match a.digest, b.digest with
    | none, none => true
    | some x, some y => x.pyEq y
    | _, _ => false) &&
  a.wire.toOption == b.wire.toOption

/-- `Locators.__eq__`, flic/tlvs/Locators.py:71-74 with Locator.py:66-67: element-wise. -/
def locatorsPyEq (a b : List Link) : Bool :=
  a.length == b.length && (a.zip b).all (fun p => p.1.pyEq p.2)

/-- flic/name_constructor/NameConstructorContext.py:83-103 `_create_named`; the id counter of the factory
(SchemaImplFactory.py:38-49) starts at `nextId`. -/
def NameCtx.createNamed (ty : SchemaType) (nextId : Nat) (manifestPrefix dataPrefix : Option Name) (same : Bool) :
    Py NameCtx :=
  if same then do
    let i ← SchemaImpl.create nextId (schemaFor ty none manifestPrefix false)
    return ⟨i, i, true⟩
  else do
    let m ← SchemaImpl.create nextId (schemaFor ty none manifestPrefix true)
    let d ← SchemaImpl.create (nextId + 1) (schemaFor ty none dataPrefix false)
    return ⟨m, d, false⟩

/-- `a == b` for two names or two `None`s. -/
def optNamePyEq : Option Name → Option Name → Bool
  | none, none => true
  | some a, some b => a.pyEq b
  | _, _ => false

/-- flic/name_constructor/NameConstructorContext.py:60-80 `_create_hashed`; `Locators.from_name(None)` raises ValueError
(flic/tlvs/Locator.py:57-58). -/
def NameCtx.createHashed (nextId : Nat) (name : Option Name) (manifestLocators dataLocators : Option (List Link)) :
    Py NameCtx := do
  let root ← construct locatorsTlv [{ name := name }]
  let m := manifestLocators.getD root
  let d := dataLocators.getD root
  if locatorsPyEq m d then
    let i ← SchemaImpl.create nextId (.hash (some m) none)
    return ⟨i, i, true⟩
  else
    let i ← SchemaImpl.create nextId (.hash (some m) none)
    let j ← SchemaImpl.create (nextId + 1) (.hash (some d) none)
    return ⟨i, j, false⟩

/-- flic/name_constructor/NameConstructorContext.py:49-57, 106-121 `create`.  Comparing a name with `None` raises AttributeError
(core/Name.py:97-98). -/
def NameCtx.create (ty : SchemaType) (nextId : Nat) (name manifestPrefix dataPrefix : Option Name)
    (manifestLocators dataLocators : Option (List Link)) : Py NameCtx :=
  match ty with
  | .hashed => NameCtx.createHashed nextId name manifestLocators dataLocators
  | .prefixed =>
    let m := if manifestPrefix.isNone then name else manifestPrefix
    let d := if dataPrefix.isNone then name else dataPrefix
    if m.isSome != d.isSome then .error .attributeError
    else NameCtx.createNamed .prefixed nextId m d (optNamePyEq m d)
  | .segmented =>
    if name.isNone then .error .valueError
    else
      let m := if manifestPrefix.isNone then name else manifestPrefix
      let d := if dataPrefix.isNone then name else dataPrefix
      if optNamePyEq m d then .error .valueError
      else NameCtx.createNamed .segmented nextId m d false

/-! ## Chunking -/

/-- flic/name_constructor/FileMetadata.py:22-32; `name` is never set by `chunk_data`. -/
structure ChunkMetadata where
  chunkNumber : Nat
  payloadBytes : Nat
  hash : HashValue
  deriving DecidableEq, Repr

/-- flic/name_constructor/FileMetadata.py:38-46 -/
structure FileMetadata where
  chunks : List ChunkMetadata
  totalBytes : Nat
  deriving DecidableEq, Repr

/-- An input stream: the bytes left and, for each of the next calls of `read`, how many bytes that call is willing to
return (at least one byte is returned unless the stream is at its end; when the list is used up reads are full). -/
structure Stream where
  rest : Bytes
  schedule : List Nat := []

/-- `data_input.read(n)` -/
def Stream.read (s : Stream) (n : Nat) : Bytes × Stream :=
  let k := match s.schedule with
    | [] => n
    | w :: _ => min n (max 1 w)
  (s.rest.take k, { rest := s.rest.drop k, schedule := s.schedule.tail })

/-- The options used by `SchemaImpl`. -/
structure ChunkOptions where
  dataExpiry : Option F64 := none
  maxPacketSize : Nat

/-- flic/name_constructor/SchemaImpl.py:126-150 `_calculate_data_payload_size` -/
def SchemaImpl.payloadSize (i : SchemaImpl) (o : ChunkOptions) : Py Nat := do
  let fcid := if i.usesNameId then some MAX_CHUNK_ID else none
  let name ← i.getName (some (MAX_CHUNK_ID : Int))
  let body ← ContentObject.createData name (some []) o.dataExpiry fcid
  let p ← Packet.createContentObject body
  let n ← p.len
  if n ≥ o.maxPacketSize then .error .valueError else return o.maxPacketSize - n

/-- flic/name_constructor/SchemaImpl.py:152-161 `_create_data_packet` -/
def SchemaImpl.dataPacket (o : ChunkOptions) (name : Option Name) (payload : Bytes) (fcid : Option Nat) : Py Packet := do
  let body ← ContentObject.createData name (some payload) o.dataExpiry fcid
  let p ← Packet.createContentObject body
  let n ← p.len
  if n > o.maxPacketSize then .error .valueError else return p

/-- The state that `chunk_data` changes: the packets put to the output, and the schema's counter. -/
structure ChunkState where
  output : List Packet := []
  nextChunkId : Nat := 0

/-- flic/name_constructor/SchemaImpl.py:110-113 -/
def SchemaImpl.finalId (i : SchemaImpl) (chunkId : Nat) (next : Bytes) : Option Nat :=
  if i.usesFinalChunkId && next.length == 0 then some chunkId else none

/-- flic/name_constructor/SchemaImpl.py:99-124: the loop.  `payload` has been read already; `meta` and `total` are the
locals.  Each round takes at least one byte from the stream, so the file length is enough fuel. -/
def SchemaImpl.chunkLoop (P : Bytes → Bytes) (i : SchemaImpl) (o : ChunkOptions) (size : Nat) :
    Nat → Bytes → Stream → List ChunkMetadata → Nat → PyS ChunkState FileMetadata
  | fuel, payload, stream, acc, total =>
    if payload.length = 0 then pure ⟨acc, total⟩
    else match fuel with
      | 0 => PyS.lift (.error .nonTermination)
      | fuel + 1 => do
        let total := total + payload.length
        let chunkId := (← PyS.get).nextChunkId
        PyS.modify (fun s => { s with nextChunkId := chunkId + 1 })
        if chunkId > MAX_CHUNK_ID then PyS.lift (.error .valueError)
        else
          let name ← PyS.lift (i.getName (some (chunkId : Int)))
          let r := stream.read size
          let p ← PyS.lift (SchemaImpl.dataPacket o name payload (i.finalId chunkId r.1))
          let h ← PyS.lift (p.hash P)
          PyS.modify (fun s => { s with output := s.output ++ [p] })
          i.chunkLoop P o size fuel r.1 r.2 (acc ++ [⟨chunkId, payload.length, h⟩]) total

/-- flic/name_constructor/SchemaImpl.py:88-124 `chunk_data`; the first argument is SHA-256. -/
def SchemaImpl.chunkData (P : Bytes → Bytes) (i : SchemaImpl) (o : ChunkOptions) (stream : Stream) :
    PyS ChunkState FileMetadata := do
  let size ← PyS.lift (i.payloadSize o)
  let r := stream.read size
  i.chunkLoop P o size stream.rest.length r.1 r.2 [] 0

end Ccnpy
