import Verif.Model.Factory

/-!
# Building a tree while being watched: the `debug` option, a `manifest_graph`, no `packet_output`, an input that is cut already

`Model/Tree.lean` is the case without `debug` and graph, with an output and a stream (theorem C110_plain).  The same functions again, on a
state that has the graph and the counters of the factory, with what they print and tell the graph.
-/

namespace Ccnpy

/-- How the build is watched: `tree_options.debug`, `packet_output is not None`, `ContentObject.USE_BRIEF_OUTPUT`; `R` renders name
components of other types for the labels (see `NameComponent.repr`). -/
structure Watch where
  debug : Bool
  hasOutput : Bool
  brief : Bool
  R : NameComponent → Text

/-- `if self._tree_options.debug: print(…)`: showing the object may raise. -/
def Watch.say (W : Watch) (x : Py Unit) : PyS FState Unit := if W.debug then PyS.lift x else pure ()

/-- The node without its numbers. -/
def Node.withoutNumbers (n : Node) : Node :=
  { n with nodeData := n.nodeData.map ({ · with subtreeSize := none }), hashGroups := n.hashGroups.map ({ · with groupData := none }) }

/-- flic/tree/TreeBuildReturnValue.py:22-31: the `repr` of a data class shows its fields in order; the manifest is None here.  Simplified:
the sizes and ids in the node, which the builder has computed, are taken to have at most 4300 digits, so that they can be shown. -/
def Built.display (brief : Bool) (b : Built) : Py Unit := do
  b.node.withoutNumbers.display
  b.packet.display brief

/-- flic/tree/TreeBuilder.py:456-460 `_add_data_to_graph`.  Simplified: `name` is None, since `chunk_data` gives the metadata of a chunk
no name (flic/name_constructor/SchemaImpl.py:116-118). -/
def Watch.noteChunk (W : Watch) (T : TreeEnv) (c : ChunkMetadata) : PyS FState Unit :=
  (ManifestGraph.addData T.env.prims W.R c.hash none).onGraph

/-- flic/tree/TreeBuilder.py:287-292 `_write_packet` and 259-264 `_debug_packet`; the name is shown with `str`, which cannot raise. -/
def Watch.write (W : Watch) (T : TreeEnv) (b : Built) : PyS FState Unit := do
  W.say (do let _ ← b.packet.hash T.env.prims.sha256; return ())
  if W.hasOutput then (putBuilt T b).onBase else pure ()

/-- flic/tree/TreeBuilder.py:320-331 `_build_packet`: the factory tells the graph (flic/ManifestFactory.py:108-111). -/
def Watch.builderPacket (W : Watch) (T : TreeEnv) (groups : List HashGroup) (directSize indirectSize level : Nat) : PyS FState Built := do
  let nd ← PyS.lift (optM (construct NodeData.tlv)
    (if T.opts.addNodeSubtreeSize then some { subtreeSize := some (directSize + indirectSize) } else none))
  let node ← PyS.lift (construct Node.tlv { nodeData := nd, hashGroups := groups })
  let name ← (nextManifestName T level).onBase
  let p ← buildPacket T.env W.R T.opts (.node node) { name := name, expiryTime := T.opts.manifestExpiry }
  return ⟨p, node⟩

/-- flic/tree/TreeBuilder.py:384-387 and 403-407: show what was built, tell the graph (450-454), write. -/
def Watch.finish (W : Watch) (T : TreeEnv) (b : Built) : PyS FState Unit := do
  W.say (b.display W.brief)
  recordManifest T.env.prims W.R b.packet b.node
  W.write T b

/-- flic/tree/TreeBuilder.py:340-343 -/
def Watch.appendChunks (W : Watch) (T : TreeEnv) (b : HashGroupBuilder) (i : Nat) : Nat → PyS FState HashGroupBuilder
  | 0 => pure b
  | n + 1 => do
    let c ← PyS.lift (T.chunk i)
    W.noteChunk T c
    let b ← PyS.lift (b.appendDirect c.hash (some c.payloadBytes))
    W.appendChunks T b (i + 1) n

/-- flic/tree/TreeBuilder.py:333-352 `_build_leaf_packet` -/
def Watch.leafPacket (W : Watch) (T : TreeEnv) (head tail level : Nat) : PyS FState Built := do
  PyS.lift (pyAssert (tail > head))
  let count := tail - head
  let b ← W.appendChunks T { maxDirect := some count, maxIndirect := some 0 } head count
  let start ← PyS.lift (startSegmentId T head)
  let g ← PyS.lift (b.hashGroup (some T.ctx.data.ncId) start T.opts.addGroupLeafSize T.opts.addGroupSubtreeSize)
  W.builderPacket T [g] b.directSize b.indirectSize level

/-- flic/tree/TreeBuilder.py:374-387 `_leaf_manifest` -/
def Watch.leafManifest (W : Watch) (T : TreeEnv) (seg : Segment) (level : Nat) : PyS FState (Built × Segment) := do
  let start := max seg.head (seg.tail - T.pointers)
  let b ← W.leafPacket T start seg.tail level
  let seg ← PyS.lift (seg.decrementTail (seg.tail - start))
  W.finish T b
  return (b, seg)

/-- flic/tree/TreeBuilder.py:422-425 -/
def Watch.addIndirectLoop (W : Watch) (T : TreeEnv) (child : Segment → PyS FState (Built × Segment)) :
    Nat → BuilderPair → Segment → PyS FState (BuilderPair × Segment)
  | fuel, b, seg =>
    if b.indirectBuilder.isIndirectFull || seg.empty then pure (b, seg)
    else match fuel with
      | 0 => PyS.lift (.error .nonTermination)
      | fuel + 1 => do
        let (c, seg) ← child seg
        let b ← PyS.lift (do
          let h ← c.packet.hash T.env.prims.sha256
          let size ← optionalSubtreeSize T c.node
          b.prependIndirect h size)
        W.addIndirectLoop T child fuel b seg

/-- flic/tree/TreeBuilder.py:416-428 `_interior_add_indirect` -/
def Watch.addIndirect (W : Watch) (T : TreeEnv) (child : Segment → PyS FState (Built × Segment)) (b : BuilderPair) (seg : Segment) :
    PyS FState (BuilderPair × Segment) := do
  let reserve := min T.direct seg.length
  let seg ← PyS.lift (seg.incrementHead reserve)
  let (b, seg) ← W.addIndirectLoop T child T.indirect b seg
  let seg ← PyS.lift (seg.decrementHead reserve)
  return (b, seg)

/-- flic/tree/TreeBuilder.py:430-442 `_interior_add_direct` -/
def Watch.addDirectLoop (W : Watch) (T : TreeEnv) : Nat → BuilderPair → Segment → Option Nat →
    PyS FState (BuilderPair × Segment × Option Nat)
  | fuel, b, seg, least =>
    if b.direct.isDirectFull || seg.empty then pure (b, seg, least)
    else match fuel with
      | 0 => PyS.lift (.error .nonTermination)
      | fuel + 1 => do
        let c ← PyS.lift (T.chunk (seg.tail - 1))
        W.noteChunk T c
        let b ← PyS.lift (b.prependDirect c.hash (some c.payloadBytes))
        let seg ← PyS.lift (seg.decrementTail 1)
        W.addDirectLoop T fuel b seg (some c.chunkNumber)

/-- flic/tree/TreeBuilder.py:354-372 `_interior_packet` -/
def Watch.interiorPacket (W : Watch) (T : TreeEnv) (b : BuilderPair) (directStart : Option Nat) (level : Nat) : PyS FState Built := do
  let indirectStart ← (if T.ctx.manifest.usesNameId then do
      match (← PyS.get).lastId with
      | none => PyS.lift (.error .typeError)
      | some i => pure (some i)
    else pure none : PyS BState (Option Nat)).onBase
  let directStart := if T.ctx.data.usesNameId then directStart else none
  let groups ← PyS.lift (b.hashGroups T.ctx T.opts.addGroupLeafSize T.opts.addGroupSubtreeSize directStart indirectStart)
  W.builderPacket T groups b.direct.directSize b.indirectBuilder.indirectSize level

/-- flic/tree/TreeBuilder.py:389-409 `_interior_manifest` -/
def Watch.interiorManifest (W : Watch) (T : TreeEnv) (child : Segment → PyS FState (Built × Segment)) (seg : Segment) (level : Nat)
    (rightMost : Option Built) : PyS FState (Built × Segment) := do
  let b ← PyS.lift (addRightMostChild T (BuilderPair.new T.ctx T.direct T.indirect) rightMost)
  let (b, seg) ← W.addIndirect T child b seg
  let (b, seg, least) ← W.addDirectLoop T T.direct b seg none
  let r ← W.interiorPacket T b least level
  W.finish T r
  return (r, seg)

/-- flic/tree/TreeBuilder.py:294-312 `_bottom_up_preorder` -/
def Watch.bottomUp (W : Watch) (T : TreeEnv) : Nat → Segment → Option Built → PyS FState (Built × Segment)
  | 0, seg, rightMost => do
    PyS.lift (pyAssert rightMost.isNone)
    W.leafManifest T seg 0
  | level + 1, seg, rightMost =>
    if rightMost.isNone && decide (seg.length ≤ T.pointers) then W.leafManifest T seg (level + 1)
    else W.interiorManifest T (fun seg => W.bottomUp T level seg none) seg (level + 1) rightMost

/-- flic/tree/TreeBuilder.py:253-255 -/
def Watch.buildLoop (W : Watch) (T : TreeEnv) : Nat → Nat → Segment → Built → PyS FState Built
  | fuel, level, seg, root =>
    if seg.empty then pure root
    else match fuel with
      | 0 => PyS.lift (.error .nonTermination)
      | fuel + 1 => do
        let (root, seg) ← W.bottomUp T (level + 1) seg (some root)
        W.buildLoop T fuel (level + 1) seg root

/-- flic/tree/TreeBuilder.py:193-222 `__init__` and 233-257 `build` -/
def Watch.buildTree (W : Watch) (T : TreeEnv) : PyS FState Built := do
  (do
    let ids ← PyS.lift (initialIds T.indirect T.height)
    PyS.modify (fun s => { s with nextIds := ids, lastId := none }) : PyS BState Unit).onBase
  let (root, seg) ← W.leafManifest T ⟨0, T.chunks.length⟩ 0
  W.buildLoop T (T.height.toNat + 1) 0 seg root

/-! ## The manifest tree -/

/-- flic/ManifestTree.py:111-121: the arguments of `build_packet` for the root. -/
def rootArgs (o : TreeOptions) (ctx : NameCtx) (totalBytes : Nat) : BuildArgs :=
  { ncDefs := some ctx.ncDefs, nodeSubtreeSize := some totalBytes, groupSubtreeSize := some totalBytes, ncId := some ctx.manifest.ncId,
    startSegmentId := if ctx.manifest.usesNameId then some 0 else none, name := o.name, expiryTime := o.rootExpiry,
    signer := o.signer, full := true }

/-- flic/ManifestTree.py:63-90 and 103-130: `build`, `build_top`, `build_root`, `_create_root_manifest`.  A packet that is too long is only
reported.  Without an output `None.put` raises AttributeError. -/
def Watch.buildRooted (W : Watch) (T : TreeEnv) (totalBytes : Nat) : PyS FState Packet := do
  let top ← W.buildTree T
  let h ← PyS.lift (top.packet.hash T.env.prims.sha256)
  let p ← buildPacket T.env W.R T.opts (.pointers [h]) (rootArgs T.opts T.ctx totalBytes)
  W.say (p.display W.brief)
  if W.hasOutput then (PyS.modify (fun s => { s with output := s.output ++ [p] })).onBase
  else PyS.lift (.error .attributeError)
  return p

/-- flic/tree/ManifestSizeCalculator.py:83-109 `_build_manifest_packet` -/
def Watch.sizingPacket (W : Watch) (E : Env) (o : TreeOptions) (ctx : NameCtx) (totalBytes numHashes : Nat) : PyS FState Packet := do
  let hv := HashValue.sha256 (List.replicate 32 0)
  let groups ← PyS.lift (do
    let b ← prependMany (BuilderPair.new ctx (numHashes - 1) 1) hv (numHashes - 1)
    let b ← b.prependIndirect hv none
    b.hashGroups ctx true true (if ctx.data.usesNameId then some MAX_CHUNK_ID else none)
      (if ctx.manifest.usesNameId then some MAX_CHUNK_ID else none))
  buildPacket E W.R o (.groups groups) { nodeSubtreeSize := some totalBytes }

/-- flic/tree/ManifestSizeCalculator.py:43-81 `calculate_max_pointers` -/
def Watch.calculateMaxPointers (W : Watch) (E : Env) (o : TreeOptions) (ctx : NameCtx) (totalBytes : Nat) : PyS FState Nat := do
  let p ← W.sizingPacket E o ctx totalBytes 1
  let length ← PyS.lift p.len
  if length ≥ o.maxPacketSize then PyS.lift (.error .valueError)
  else
    let num := (fl (o.maxPacketSize - length) 36).toInt + 1
    let p ← W.sizingPacket E o ctx totalBytes num
    let length ← PyS.lift p.len
    if length > o.maxPacketSize then PyS.lift (.error .valueError)
    else if num < 2 then PyS.lift (.error .valueError)
    else return num

/-- flic/tree/TreeParameters.py:32-60 `create_optimized_tree` -/
def Watch.createOptimizedTree (W : Watch) (E : Env) (L : FloatLog) (o : TreeOptions) (ctx : NameCtx) (file : FileMetadata) :
    PyS FState OptimizerResult := do
  let p ← W.calculateMaxPointers E o ctx file.totalBytes
  if p < 2 then PyS.lift (.error .valueError)
  else
    let p := match o.maxTreeDegree with
      | none => p
      | some k => min p k
    PyS.lift (minimizeKMinWaste L file.chunks.length p)

/-- flic/tree/ManifestGraph.py:58-63 `pause`, `resume` -/
def setPaused (paused : Bool) : PyS FState Unit := (PyS.modify (fun g => { g with paused := paused })).onGraph

/-- flic/ManifestTree.py:142-150 `_calculate_optimal_tree`: the graph is paused meanwhile.  An exception leaves it paused. -/
def Watch.optimalTree (W : Watch) (E : Env) (L : FloatLog) (o : TreeOptions) (ctx : NameCtx) (file : FileMetadata) :
    PyS FState OptimizerResult := do
  setPaused true
  let r ← W.createOptimizedTree E L o ctx file
  setPaused false
  return r

/-- `data_input` (flic/ManifestTree.py:52-55): something to read from, or the metadata of a file that is cut already. -/
inductive DataInput where
  | stream (s : Stream)
  | cut (f : FileMetadata)

/-- flic/ManifestTree.py:52-55: cut the input, unless it is cut.  Without an output the first `put` is on None: AttributeError, if cutting
gets as far as a first packet. -/
def Watch.chunk (W : Watch) (E : Env) (o : TreeOptions) (ctx : NameCtx) : DataInput → Py FileMetadata × List Packet
  | .cut f => (.ok f, [])
  | .stream input =>
    let r := ctx.data.chunkData E.prims.sha256 o.chunk input {}
    if W.hasOutput then (r.1, r.2.output)
    else if r.2.output.isEmpty then (r.1, []) else (.error .attributeError, [])

/-- flic/ManifestTree.py:33-57 and 63-76: `ManifestTree(data_input, packet_output, tree_options, manifest_graph, name_context).build()` on
an empty output: the result, the packets put to the output, the graph and the counters of the factory. -/
def Watch.manifestTree (W : Watch) (E : Env) (L : FloatLog) (o : TreeOptions) (nextNcId : Nat) (nameCtx : Option NameCtx)
    (input : DataInput) (graph : Option ManifestGraph) : Py Packet × FState :=
  match (match nameCtx with
    | some ctx => .ok ctx
    | none => NameCtx.create o.schemaType nextNcId o.name o.manifestPrefix o.dataPrefix o.manifestLocators o.dataLocators : Py NameCtx) with
  | .error e => (.error e, { graph := graph })
  | .ok ctx =>
    match W.chunk E o ctx input with
    | (.error e, out) => (.error e, { base := { output := out }, graph := graph })
    | (.ok file, out) =>
      match W.optimalTree E L o ctx file { base := { output := out }, graph := graph } with
      | (.error e, s) => (.error e, s)
      | (.ok r, s) => W.buildRooted ⟨E, o, ctx, file.chunks, r.direct, r.indirect, r.height⟩ file.totalBytes s

end Ccnpy
