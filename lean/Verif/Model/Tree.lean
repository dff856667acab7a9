import Verif.Model.Schema
import Verif.Model.Crypto
import Verif.Model.Optimizer
import Verif.Model.Display

/-!
# Building manifest trees

`ccnpy/flic/{HashGroupBuilder,ManifestFactory,ManifestTree,ManifestTreeOptions}.py` and
`ccnpy/flic/tree/{HashGroupBuilderPair,ManifestIdFactory,ManifestSizeCalculator,TreeBuilder,TreeParameters}.py`.

Printing, debugging output and the counters `cnt_manifests`, `cnt_manifest_bytes`, `_leaf_count`, `_internal_count`,
`_manifest_count`, which only feed messages, are not modelled.  The `ManifestGraph` is represented by the list of nodes
handed to `add_manifest` by the tree builder.
-/

namespace Ccnpy

/-! ## Hash group builders -/

/-- flic/HashGroupBuilder.py:33-40; `none` is `math.inf`. -/
structure HashGroupBuilder where
  pointers : List HashValue := []
  directSize : Nat := 0
  indirectSize : Nat := 0
  directCount : Nat := 0
  indirectCount : Nat := 0
  maxDirect : Option Nat := none
  maxIndirect : Option Nat := none
  deriving DecidableEq, Repr

/-- `count >= max` -/
def limitReached (count : Nat) : Option Nat → Bool
  | none => false
  | some m => m ≤ count

/-- flic/HashGroupBuilder.py:42-43 -/
def HashGroupBuilder.isDirectFull (b : HashGroupBuilder) : Bool := limitReached b.directCount b.maxDirect

/-- flic/HashGroupBuilder.py:73-74 -/
def HashGroupBuilder.isIndirectFull (b : HashGroupBuilder) : Bool := limitReached b.indirectCount b.maxIndirect

/-- flic/HashGroupBuilder.py:45-57 -/
def HashGroupBuilder.appendDirect (b : HashGroupBuilder) (h : HashValue) (size : Option Nat) : Py HashGroupBuilder := do
  pyAssert (!b.isDirectFull)
  return { b with pointers := b.pointers ++ [h], directCount := b.directCount + 1,
                  directSize := b.directSize + size.getD 0 }

/-- flic/HashGroupBuilder.py:59-71 -/
def HashGroupBuilder.prependDirect (b : HashGroupBuilder) (h : HashValue) (size : Option Nat) : Py HashGroupBuilder := do
  pyAssert (!b.isDirectFull)
  return { b with pointers := h :: b.pointers, directCount := b.directCount + 1,
                  directSize := b.directSize + size.getD 0 }

/-- flic/HashGroupBuilder.py:76-88 -/
def HashGroupBuilder.appendIndirect (b : HashGroupBuilder) (h : HashValue) (size : Option Nat) : Py HashGroupBuilder := do
  pyAssert (!b.isIndirectFull)
  return { b with pointers := b.pointers ++ [h], indirectCount := b.indirectCount + 1,
                  indirectSize := b.indirectSize + size.getD 0 }

/-- flic/HashGroupBuilder.py:90-102 -/
def HashGroupBuilder.prependIndirect (b : HashGroupBuilder) (h : HashValue) (size : Option Nat) :
    Py HashGroupBuilder := do
  pyAssert (!b.isIndirectFull)
  return { b with pointers := h :: b.pointers, indirectCount := b.indirectCount + 1,
                  indirectSize := b.indirectSize + size.getD 0 }

/-- flic/HashGroupBuilder.py:129-155; the constructors encode their parts. -/
def HashGroupBuilder.hashGroup (b : HashGroupBuilder) (ncId startSegmentId : Option Nat)
    (includeLeafSize includeSubtreeSize : Bool) : Py HashGroup := do
  let gd : Option GroupData :=
    if includeLeafSize || includeSubtreeSize || ncId.isSome || startSegmentId.isSome then
      some { ncId := ncId, startSegmentId := startSegmentId,
             subtreeSize := if includeSubtreeSize then some (b.indirectSize + b.directSize) else none,
             leafSize := if includeLeafSize then some b.directSize else none }
    else none
  construct HashGroup.tlv { groupData := gd, pointers := some b.pointers }

/-- flic/tree/HashGroupBuilderPair.py:30-39: two builders, or (`shared`) one object in both roles, kept in `direct`. -/
structure BuilderPair where
  shared : Bool
  direct : HashGroupBuilder
  indirect : HashGroupBuilder
  deriving DecidableEq, Repr

/-- flic/tree/HashGroupBuilderPair.py:30-39 -/
def BuilderPair.new (ctx : NameCtx) (maxDirect maxIndirect : Nat) : BuilderPair :=
  if ctx.shared then
    ⟨true, { maxDirect := some maxDirect, maxIndirect := some maxIndirect }, {}⟩
  else
    ⟨false, { maxDirect := some maxDirect, maxIndirect := some 0 }, { maxDirect := some 0, maxIndirect := some maxIndirect }⟩

/-- `self.indirect_builder` -/
def BuilderPair.indirectBuilder (b : BuilderPair) : HashGroupBuilder := if b.shared then b.direct else b.indirect

/-- Update of `self.indirect_builder`. -/
def BuilderPair.setIndirect (b : BuilderPair) (x : HashGroupBuilder) : BuilderPair :=
  if b.shared then { b with direct := x } else { b with indirect := x }

/-- flic/tree/HashGroupBuilderPair.py:41-42 -/
def BuilderPair.prependDirect (b : BuilderPair) (h : HashValue) (size : Option Nat) : Py BuilderPair := do
  return { b with direct := ← b.direct.prependDirect h size }

/-- flic/tree/HashGroupBuilderPair.py:44-45 -/
def BuilderPair.appendIndirect (b : BuilderPair) (h : HashValue) (size : Option Nat) : Py BuilderPair := do
  return b.setIndirect (← b.indirectBuilder.appendIndirect h size)

/-- flic/tree/HashGroupBuilderPair.py:53-54 -/
def BuilderPair.prependIndirect (b : BuilderPair) (h : HashValue) (size : Option Nat) : Py BuilderPair := do
  return b.setIndirect (← b.indirectBuilder.prependIndirect h size)

/-- flic/tree/HashGroupBuilderPair.py:62-88 -/
def BuilderPair.hashGroups (b : BuilderPair) (ctx : NameCtx) (includeLeafSize includeSubtreeSize : Bool)
    (directStart indirectStart : Option Nat) : Py (List HashGroup) :=
  if ctx.shared then do
    pyAssert directStart.isNone
    pyAssert indirectStart.isNone
    return [← b.direct.hashGroup (some ctx.manifest.ncId) none includeLeafSize includeSubtreeSize]
  else do
    let d ← b.direct.hashGroup (some ctx.data.ncId) directStart includeLeafSize includeSubtreeSize
    let i ← b.indirectBuilder.hashGroup (some ctx.manifest.ncId) indirectStart includeLeafSize includeSubtreeSize
    return [d, i]

/-! ## Options and the manifest factory -/

/-- The signers of the package (crypto/Crc32c.py, crypto/RsaSha256.py); an RSA signer reads the clock when it makes its
`ValidationAlg`, the time is part of the model's signer. -/
inductive Signer where
  | crc32c
  | rsa (key : RsaKey) (keyLink : Option Link) (time : F64)

/-- The two manifest encryptors (flic/aeadctx/AeadEncryptor.py, flic/RsaOaepCtx/RsaOaepEncryptor.py). -/
inductive Encryptor where
  | aead (params : AeadParams)
  | oaep (params : AeadParams) (wrapper : RsaOaepWrapper)

/-- flic/ManifestTreeOptions.py:48-71.  The digest options are not used by any code. -/
structure TreeOptions where
  name : Option Name
  schemaType : SchemaType
  signer : Option Signer := none
  manifestPrefix : Option Name := none
  dataPrefix : Option Name := none
  manifestLocators : Option (List Link) := none
  dataLocators : Option (List Link) := none
  rootExpiry : Option F64 := none
  manifestExpiry : Option F64 := none
  dataExpiry : Option F64 := none
  encryptor : Option Encryptor := none
  addNodeSubtreeSize : Bool := false
  addGroupSubtreeSize : Bool := false
  addGroupLeafSize : Bool := false
  maxTreeDegree : Option Nat := none
  maxPacketSize : Nat := 1500

/-- State of the process while manifests are made. -/
structure BState where
  /-- packets put to `packet_output`, in order -/
  output : List Packet := []
  /-- nodes given to `ManifestGraph.add_manifest`, with the hash of their packet -/
  graph : List (HashValue × Node) := []
  /-- how many nonces have been drawn -/
  nonces : Nat := 0
  /-- flic/tree/ManifestIdFactory.py:27 `_next_ids` -/
  nextIds : List Int := []
  /-- flic/tree/TreeBuilder.py:219 `_last_manifest_id` -/
  lastId : Option Nat := none

/-- What the environment provides: primitives and the sequence of random nonces. -/
structure Env where
  prims : Prims
  nonce : Nat → Bytes

/-- flic/ManifestFactory.py:232-242: `_build_from_node`, `_encrypt`; `full` is `include_full_security_context`. -/
def buildManifest (E : Env) (o : TreeOptions) (node : Node) (full : Bool) : PyS BState Manifest :=
  match o.encryptor with
  | none => do
    let m : Manifest := { node := .plain node }
    let _ ← PyS.lift m.serialize
    return m
  | some (.aead params) => do
    let i := (← PyS.get).nonces
    PyS.modify (fun s => { s with nonces := i + 1 })
    PyS.lift (do (← aeadEncrypt E.prims params (E.nonce i) node).manifest)
  | some (.oaep params wrapper) => do
    let i := (← PyS.get).nonces
    PyS.modify (fun s => { s with nonces := i + 1 })
    PyS.lift (do (← oaepEncrypt E.prims params (some wrapper) full (E.nonce i) node).manifest)

/-- flic/ManifestFactory.py:101-106: sign, or not. -/
def signPacket (P : Prims) (signer : Option Signer) (body : ContentObject) : Py Packet :=
  match signer with
  | none => Packet.createContentObject body
  | some .crc32c => crcSignedPacket body
  | some (.rsa key link time) => rsaSignedPacket P key link time body

/-- flic/ManifestFactory.py:184-185: the message of the ValueError shows the manifest, and that may raise another exception. -/
def Manifest.tooLarge {α : Type} (m : Manifest) : Py α := do
  m.display
  .error .valueError

/-- flic/ManifestFactory.py:65-114 `build_packet` and 116-186 `_build` for a `Node` source: the encoded node has been
checked by its constructor. -/
def buildFromNode (E : Env) (o : TreeOptions) (node : Node) (name : Option Name) (expiry : Option F64)
    (signer : Option Signer) (full : Bool) : PyS BState Packet := do
  let m ← buildManifest E o node full
  let n := (← PyS.lift m.serialize).length
  if n > o.maxPacketSize then PyS.lift m.tooLarge
  else
    let body ← PyS.lift (m.contentObject name expiry)
    PyS.lift (signPacket E.prims signer body)

/-- flic/ManifestFactory.py:216-230 `_build_node_from_hashgroups`, with the option filter of lines 144-145. -/
def nodeFromGroups (o : TreeOptions) (groups : List HashGroup) (ncDefs : Option (List NcDef))
    (nodeSubtreeSize : Option Nat) : Py Node := do
  let size := if o.addNodeSubtreeSize then nodeSubtreeSize else none
  let nd ← optM (construct NodeData.tlv)
    (if size.isSome || ncDefs.isSome then some { subtreeSize := size, ncDefs := ncDefs.getD [] } else none)
  construct Node.tlv { nodeData := nd, hashGroups := groups }

/-! ## Size calculation -/

/-- flic/tree/ManifestSizeCalculator.py:87-88: `prepend_direct(hv)` that many times. -/
def prependMany (b : BuilderPair) (hv : HashValue) : Nat → Py BuilderPair
  | 0 => .ok b
  | n + 1 => do prependMany (← b.prependDirect hv none) hv n

/-- flic/tree/ManifestSizeCalculator.py:83-109 `_build_manifest_packet` -/
def sizingPacket (E : Env) (o : TreeOptions) (ctx : NameCtx) (totalBytes numHashes : Nat) : PyS BState Packet := do
  let hv := HashValue.sha256 (List.replicate 32 0)
  let groups ← PyS.lift (do
    let b ← prependMany (BuilderPair.new ctx (numHashes - 1) 1) hv (numHashes - 1)
    let b ← b.prependIndirect hv none
    b.hashGroups ctx true true (if ctx.data.usesNameId then some MAX_CHUNK_ID else none)
      (if ctx.manifest.usesNameId then some MAX_CHUNK_ID else none))
  let node ← PyS.lift (nodeFromGroups o groups none (some totalBytes))
  buildFromNode E o node none none none false

/-- flic/tree/ManifestSizeCalculator.py:43-81 `calculate_max_pointers`; `len(hv)` is 36. -/
def calculateMaxPointers (E : Env) (o : TreeOptions) (ctx : NameCtx) (totalBytes : Nat) : PyS BState Nat := do
  let p ← sizingPacket E o ctx totalBytes 1
  let length ← PyS.lift p.len
  if length ≥ o.maxPacketSize then PyS.lift (.error .valueError)
  else
    let num := (fl (o.maxPacketSize - length) 36).toInt + 1
    let p ← sizingPacket E o ctx totalBytes num
    let length ← PyS.lift p.len
    if length > o.maxPacketSize then PyS.lift (.error .valueError)
    else if num < 2 then PyS.lift (.error .valueError)
    else return num

/-- flic/tree/TreeParameters.py:32-60 `create_optimized_tree` -/
def createOptimizedTree (E : Env) (L : FloatLog) (o : TreeOptions) (ctx : NameCtx) (file : FileMetadata) :
    PyS BState OptimizerResult := do
  let p ← calculateMaxPointers E o ctx file.totalBytes
  if p < 2 then PyS.lift (.error .valueError)
  else
    let p := match o.maxTreeDegree with
      | none => p
      | some k => min p k
    PyS.lift (minimizeKMinWaste L file.chunks.length p)

/-! ## Manifest ids -/

/-- flic/tree/ManifestIdFactory.py:29-39: `int(a / b - 1)` in floating point. -/
def lastIdForHeight (k h : Nat) : Py Int :=
  if k = 1 then .ok h
  else do
    pyAssert (k > 1)
    let q := fl (k ^ (h + 1) - 1) (k - 1)
    if f64Overflow ≤ q.toInt then .error .overflowError
    else .ok ((fl (q.num - q.den) q.den).toInt : Int)

/-- flic/tree/ManifestIdFactory.py:27, `range(0, max_height + 1)` -/
def initialIds (k : Nat) (maxHeight : Int) : Py (List Int) :=
  (List.range (maxHeight + 1).toNat).mapM (lastIdForHeight k)

/-- flic/tree/ManifestIdFactory.py:41-47 `get_next_id` for an index within the list.  Its OverflowError is `idsExhausted`. -/
def getNextId (height : Nat) : PyS BState Nat := fun s =>
  match s.nextIds[height]? with
  | none => (.error .indexError, s)
  | some id =>
    if id < 0 then (.error .idsExhausted, s)
    else (.ok id.toNat, { s with nextIds := s.nextIds.set height (id - 1) })

/-! ## The tree builder -/

/-- flic/tree/TreeBuilder.py:143-191 `Segment`: chunks `head .. tail-1` are still to be placed. -/
structure Segment where
  head : Nat
  tail : Nat
  deriving DecidableEq, Repr

/-- flic/tree/TreeBuilder.py:172-175 with the checks of 159-164 -/
def Segment.decrementTail (s : Segment) (count : Nat) : Py Segment :=
  if s.tail < count then .error .valueError
  else if s.tail - count < s.head then .error .valueError
  else .ok { s with tail := s.tail - count }

/-- flic/tree/TreeBuilder.py:177-180 -/
def Segment.incrementHead (s : Segment) (count : Nat) : Py Segment :=
  if s.tail < s.head + count then .error .valueError else .ok { s with head := s.head + count }

/-- flic/tree/TreeBuilder.py:182-185 -/
def Segment.decrementHead (s : Segment) (count : Nat) : Py Segment :=
  if s.head < count then .error .valueError else .ok { s with head := s.head - count }

/-- flic/tree/TreeBuilder.py:187-188 -/
def Segment.empty (s : Segment) : Bool := s.head == s.tail

/-- flic/tree/TreeBuilder.py:190-191 (never negative because of the checks) -/
def Segment.length (s : Segment) : Nat := s.tail - s.head

/-- The parameters of a `TreeBuilder`. -/
structure TreeEnv where
  env : Env
  opts : TreeOptions
  ctx : NameCtx
  chunks : List ChunkMetadata
  /-- `internal_direct_per_node()` -/
  direct : Nat
  /-- `internal_indirect_per_node()` -/
  indirect : Nat
  height : Int

/-- flic/tree/TreeParameters.py:70 `num_pointers_per_node()` -/
def TreeEnv.pointers (T : TreeEnv) : Nat := T.indirect + T.direct

/-- flic/tree/TreeBuilder.py:27-31 `TreeBuilderReturnValue` -/
structure Built where
  packet : Packet
  node : Node
  deriving DecidableEq, Repr

/-- `self._file_metadata[i]` -/
def TreeEnv.chunk (T : TreeEnv) (i : Nat) : Py ChunkMetadata :=
  match T.chunks[i]? with
  | some c => .ok c
  | none => .error .indexError

/-- flic/tree/TreeBuilder.py:266-285: `_get_height`, `_get_next_manifest_name` -/
def nextManifestName (T : TreeEnv) (level : Nat) : PyS BState (Option Name) := do
  let h := T.height - level
  PyS.lift (pyAssert (0 ≤ h))
  let id ← getNextId h.toNat
  PyS.modify (fun s => { s with lastId := some id })
  PyS.lift (T.ctx.manifest.getName (some (id : Int)))

/-- flic/tree/TreeBuilder.py:320-331 `_build_packet` -/
def builderPacket (T : TreeEnv) (groups : List HashGroup) (directSize indirectSize level : Nat) : PyS BState Built := do
  let nd ← PyS.lift (optM (construct NodeData.tlv)
    (if T.opts.addNodeSubtreeSize then some { subtreeSize := some (directSize + indirectSize) } else none))
  let node ← PyS.lift (construct Node.tlv { nodeData := nd, hashGroups := groups })
  let name ← nextManifestName T level
  let p ← buildFromNode T.env T.opts node name T.opts.manifestExpiry none false
  return ⟨p, node⟩

/-- flic/tree/TreeBuilder.py:387, 407 and 450-454: record in the graph, put to the output. -/
def putBuilt (T : TreeEnv) (b : Built) : PyS BState Unit := do
  let h ← PyS.lift (b.packet.hash T.env.prims.sha256)
  PyS.modify (fun s => { s with graph := s.graph ++ [(h, b.node)], output := s.output ++ [b.packet] })

/-- flic/tree/TreeBuilder.py:340-343: `append_direct` for the chunks `i .. i+n-1`. -/
def appendChunks (T : TreeEnv) (b : HashGroupBuilder) (i : Nat) : Nat → Py HashGroupBuilder
  | 0 => .ok b
  | n + 1 => do
    let c ← T.chunk i
    appendChunks T (← b.appendDirect c.hash (some c.payloadBytes)) (i + 1) n

/-- flic/tree/TreeBuilder.py:314-318 `_get_start_segment_id` -/
def startSegmentId (T : TreeEnv) (head : Nat) : Py (Option Nat) :=
  if T.ctx.manifest.usesNameId then do return some (← T.chunk head).chunkNumber else .ok none

/-- flic/tree/TreeBuilder.py:333-352 `_build_leaf_packet` -/
def leafPacket (T : TreeEnv) (head tail level : Nat) : PyS BState Built := do
  PyS.lift (pyAssert (tail > head))
  let count := tail - head
  let b ← PyS.lift (appendChunks T { maxDirect := some count, maxIndirect := some 0 } head count)
  let start ← PyS.lift (startSegmentId T head)
  let g ← PyS.lift (b.hashGroup (some T.ctx.data.ncId) start T.opts.addGroupLeafSize T.opts.addGroupSubtreeSize)
  builderPacket T [g] b.directSize b.indirectSize level

/-- flic/tree/TreeBuilder.py:374-387 `_leaf_manifest`.  The segment is a mutable argument in Python; here the new segment is
returned. -/
def leafManifest (T : TreeEnv) (seg : Segment) (level : Nat) : PyS BState (Built × Segment) := do
  let start := max seg.head (seg.tail - T.pointers)
  let b ← leafPacket T start seg.tail level
  let seg ← PyS.lift (seg.decrementTail (seg.tail - start))
  putBuilt T b
  return (b, seg)

/-- flic/tree/TreeBuilder.py:444-448 `_get_optional_subtree_size`; an absent node data or size raises AttributeError. -/
def optionalSubtreeSize (T : TreeEnv) (node : Node) : Py (Option Nat) :=
  if T.opts.addNodeSubtreeSize then
    match node.nodeData with
    | none => .error .attributeError
    | some d =>
      match d.subtreeSize with
      | none => .error .attributeError
      | some n => .ok (some n)
  else .ok none

/-- flic/tree/TreeBuilder.py:411-414 -/
def addRightMostChild (T : TreeEnv) (b : BuilderPair) : Option Built → Py BuilderPair
  | none => .ok b
  | some child => do
    let h ← child.packet.hash T.env.prims.sha256
    let size ← optionalSubtreeSize T child.node
    b.appendIndirect h size

/-- flic/tree/TreeBuilder.py:422-425: the loop of `_interior_add_indirect`; `child` is `_bottom_up_preorder` one level
down.  Each round fills one indirect slot, so `max_indirect` rounds are enough. -/
def addIndirectLoop (T : TreeEnv) (child : Segment → PyS BState (Built × Segment)) :
    Nat → BuilderPair → Segment → PyS BState (BuilderPair × Segment)
  | fuel, b, seg =>
    if b.indirectBuilder.isIndirectFull || seg.empty then pure (b, seg)
    else match fuel with
      | 0 => PyS.lift (.error .nonTermination)
      | fuel + 1 => do
        let (c, seg) ← child seg
        let b ← PyS.lift (do
          let h ← c.packet.hash T.env.prims.sha256
          let size ← optionalSubtreeSize T c.node
          b.prependIndirect h size)
        addIndirectLoop T child fuel b seg

/-- flic/tree/TreeBuilder.py:416-428 `_interior_add_indirect` -/
def addIndirect (T : TreeEnv) (child : Segment → PyS BState (Built × Segment)) (b : BuilderPair) (seg : Segment) :
    PyS BState (BuilderPair × Segment) := do
  let reserve := min T.direct seg.length
  let seg ← PyS.lift (seg.incrementHead reserve)
  let (b, seg) ← addIndirectLoop T child T.indirect b seg
  let seg ← PyS.lift (seg.decrementHead reserve)
  return (b, seg)

/-- flic/tree/TreeBuilder.py:430-442 `_interior_add_direct`; each round fills one direct slot. -/
def addDirectLoop (T : TreeEnv) : Nat → BuilderPair → Segment → Option Nat → Py (BuilderPair × Segment × Option Nat)
  | fuel, b, seg, least =>
    if b.direct.isDirectFull || seg.empty then .ok (b, seg, least)
    else match fuel with
      | 0 => .error .nonTermination
      | fuel + 1 => do
        let c ← T.chunk (seg.tail - 1)
        let b ← b.prependDirect c.hash (some c.payloadBytes)
        let seg ← seg.decrementTail 1
        addDirectLoop T fuel b seg (some c.chunkNumber)

/-- flic/tree/TreeBuilder.py:354-372 `_interior_packet`; `StartSegmentId(None)` raises TypeError. -/
def interiorPacket (T : TreeEnv) (b : BuilderPair) (directStart : Option Nat) (level : Nat) : PyS BState Built := do
  let indirectStart ← (if T.ctx.manifest.usesNameId then do
      match (← PyS.get).lastId with
      | none => PyS.lift (.error .typeError)
      | some i => pure (some i)
    else pure none : PyS BState (Option Nat))
  let directStart := if T.ctx.data.usesNameId then directStart else none
  let groups ← PyS.lift (b.hashGroups T.ctx T.opts.addGroupLeafSize T.opts.addGroupSubtreeSize directStart indirectStart)
  builderPacket T groups b.direct.directSize b.indirectBuilder.indirectSize level

/-- flic/tree/TreeBuilder.py:389-409 `_interior_manifest` -/
def interiorManifest (T : TreeEnv) (child : Segment → PyS BState (Built × Segment)) (seg : Segment) (level : Nat)
    (rightMost : Option Built) : PyS BState (Built × Segment) := do
  let b ← PyS.lift (addRightMostChild T (BuilderPair.new T.ctx T.direct T.indirect) rightMost)
  let (b, seg) ← addIndirect T child b seg
  let (b, seg, least) ← PyS.lift (addDirectLoop T T.direct b seg none)
  let r ← interiorPacket T b least level
  putBuilt T r
  return (r, seg)

/-- flic/tree/TreeBuilder.py:294-312 `_bottom_up_preorder` -/
def bottomUp (T : TreeEnv) : Nat → Segment → Option Built → PyS BState (Built × Segment)
  | 0, seg, rightMost => do
    PyS.lift (pyAssert rightMost.isNone)
    leafManifest T seg 0
  | level + 1, seg, rightMost =>
    if rightMost.isNone && decide (seg.length ≤ T.pointers) then leafManifest T seg (level + 1)
    else interiorManifest T (fun seg => bottomUp T level seg none) seg (level + 1) rightMost

/-- flic/tree/TreeBuilder.py:253-255: the loop of `build`.  A level above the tree height fails an assertion, so
`height + 1` rounds are enough. -/
def buildLoop (T : TreeEnv) : Nat → Nat → Segment → Built → PyS BState Built
  | fuel, level, seg, root =>
    if seg.empty then pure root
    else match fuel with
      | 0 => PyS.lift (.error .nonTermination)
      | fuel + 1 => do
        let (root, seg) ← bottomUp T (level + 1) seg (some root)
        buildLoop T fuel (level + 1) seg root

/-- flic/tree/TreeBuilder.py:193-222 `__init__` and 233-257 `build` -/
def buildTree (T : TreeEnv) : PyS BState Built := do
  let ids ← PyS.lift (initialIds T.indirect T.height)
  PyS.modify (fun s => { s with nextIds := ids, lastId := none })
  let (root, seg) ← leafManifest T ⟨0, T.chunks.length⟩ 0
  buildLoop T (T.height.toNat + 1) 0 seg root

/-! ## The manifest tree -/

/-- flic/ManifestTree.py:92-130 `_create_root_manifest`, flic/ManifestFactory.py:144-157, 188-214 -/
def rootPacket (E : Env) (o : TreeOptions) (ctx : NameCtx) (totalBytes : Nat) (top : HashValue) :
    PyS BState (Built) := do
  let start := if ctx.manifest.usesNameId then some 0 else none
  let gd : GroupData :=
    { subtreeSize := if o.addGroupSubtreeSize then some totalBytes else none, ncId := some ctx.manifest.ncId,
      startSegmentId := start }
  let g ← PyS.lift (construct HashGroup.tlv { groupData := some gd, pointers := some [top] })
  let node ← PyS.lift (nodeFromGroups o [g] (some ctx.ncDefs) (some totalBytes))
  let p ← buildFromNode E o node o.name o.rootExpiry o.signer true
  return ⟨p, node⟩

/-- flic/ManifestTree.py:63-90 `build`: `build_top`, `build_root`. -/
def buildRooted (T : TreeEnv) (totalBytes : Nat) : PyS BState Packet := do
  let top ← buildTree T
  let h ← PyS.lift (top.packet.hash T.env.prims.sha256)
  let r ← rootPacket T.env T.opts T.ctx totalBytes h
  PyS.modify (fun s => { s with output := s.output ++ [r.packet] })
  return r.packet

/-- The chunking options among the tree options. -/
def TreeOptions.chunk (o : TreeOptions) : ChunkOptions := ⟨o.dataExpiry, o.maxPacketSize⟩

/-- flic/ManifestTree.py:48-57 and 63-76: `ManifestTree(data_input, packet_output, tree_options).build()` on an empty
output; the result and the packets put to the output.  `nextNcId` is the factory's counter. -/
def manifestTree (E : Env) (L : FloatLog) (o : TreeOptions) (nextNcId : Nat) (input : Stream) : Py Packet × List Packet :=
  match NameCtx.create o.schemaType nextNcId o.name o.manifestPrefix o.dataPrefix o.manifestLocators o.dataLocators with
  | .error e => (.error e, [])
  | .ok ctx =>
    match ctx.data.chunkData E.prims.sha256 o.chunk input {} with
    | (.error e, s) => (.error e, s.output)
    | (.ok file, s) =>
      match createOptimizedTree E L o ctx file { output := s.output } with
      | (.error e, s) => (.error e, s.output)
      | (.ok r, s) =>
        match buildRooted ⟨E, o, ctx, file.chunks, r.direct, r.indirect, r.height⟩ file.totalBytes s with
        | (.error e, s) => (.error e, s.output)
        | (.ok p, s) => (.ok p, s.output)

end Ccnpy
