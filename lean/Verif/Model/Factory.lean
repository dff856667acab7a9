import Verif.Model.Graph

/-!
# The manifest factory with all its sources: `ccnpy/flic/ManifestFactory.py`

`Model/Tree.lean` has the cases that the tree builder uses; here is the whole class.
-/

namespace Ccnpy

/-- What may be passed as `source` (flic/ManifestFactory.py:159-182); `other` is a value of any other type.  Simplified: a list is a
list of hash groups. -/
inductive Source where
  | pointers (hashValues : List HashValue)
  | group (g : HashGroup)
  | groups (gs : List HashGroup)
  | node (n : Node)
  | other

/-- The optional arguments of `build_packet` (65-75).  Sizes are given as integers; a `SubtreeSize` object is such an integer. -/
structure BuildArgs where
  ncDefs : Option (List NcDef) := none
  nodeSubtreeSize : Option Nat := none
  groupSubtreeSize : Option Nat := none
  groupLeafSize : Option Nat := none
  ncId : Option Nat := none
  startSegmentId : Option Nat := none
  name : Option Name := none
  expiryTime : Option F64 := none
  signer : Option Signer := none
  full : Bool := false

/-- The state of the factory (55-60), with the state of the process. -/
structure FState where
  base : BState := {}
  graph : Option ManifestGraph := none
  cntManifests : Nat := 0
  cntManifestBytes : Nat := 0

/-- A computation on the state of the process. -/
def PyS.onBase {α : Type} (x : PyS BState α) : PyS FState α := fun s =>
  match x s.base with
  | (r, b) => (r, { s with base := b })

/-- A computation on the graph, if there is one. -/
def PyS.onGraph (x : PyS ManifestGraph Unit) : PyS FState Unit := fun s =>
  match s.graph with
  | none => (.ok (), s)
  | some g =>
    match x g with
    | (r, g) => (r, { s with graph := some g })

/-- flic/ManifestFactory.py:143-157 for one size: dropped if the option is off, else made an integer TLV, which may raise. -/
def sizeArg (option : Bool) (type : Nat) (size : Option Nat) : Py (Option Nat) :=
  if option then optM (construct (intTlv type)) size else .ok none

/-- flic/ManifestFactory.py:216-230 `_build_node_from_hashgroups`: the node. -/
def groupsNode (groups : List HashGroup) (ncDefs : Option (List NcDef)) (nodeSubtreeSize : Option Nat) : Py Node := do
  let nd ← optM (construct NodeData.tlv)
    (if nodeSubtreeSize.isSome || ncDefs.isSome then some { subtreeSize := nodeSubtreeSize, ncDefs := ncDefs.getD [] } else none)
  construct Node.tlv { nodeData := nd, hashGroups := groups }

/-- flic/ManifestFactory.py:188-214 `_build_from_pointers`: the hash group. -/
def pointersGroup (hashValues : List HashValue) (groupSubtreeSize groupLeafSize ncId startSegmentId : Option Nat) : Py HashGroup := do
  let gd ← optM (construct GroupData.tlv)
    (if groupSubtreeSize.isSome || groupLeafSize.isSome || ncId.isSome || startSegmentId.isSome then
      some { subtreeSize := groupSubtreeSize, leafSize := groupLeafSize, ncId := ncId, startSegmentId := startSegmentId }
    else none)
  construct HashGroup.tlv { groupData := gd, pointers := some hashValues }

/-- flic/ManifestFactory.py:142-182: the node made of the source. -/
def sourceNode (o : TreeOptions) (source : Source) (a : BuildArgs) : Py Node := do
  let ns ← sizeArg o.addNodeSubtreeSize T_SUBTREE_SIZE a.nodeSubtreeSize
  let gs ← sizeArg o.addGroupSubtreeSize T_SUBTREE_SIZE a.groupSubtreeSize
  let gl ← sizeArg o.addGroupLeafSize T_LEAF_SIZE a.groupLeafSize
  match source with
  | .pointers hs => do groupsNode [← pointersGroup hs gs gl a.ncId a.startSegmentId] a.ncDefs ns
  | .group g => groupsNode [g] a.ncDefs ns
  | .groups l => groupsNode l a.ncDefs ns
  | .node n => .ok n
  | .other => .error .typeError

/-- flic/ManifestFactory.py:116-186 `_build` and 232-242: the manifest and its node. -/
def factoryBuild (E : Env) (o : TreeOptions) (source : Source) (a : BuildArgs) : PyS FState (Manifest × Node) := do
  let node ← PyS.lift (sourceNode o source a)
  let m ← (buildManifest E o node a.full).onBase
  let n := (← PyS.lift m.serialize).length
  if n > o.maxPacketSize then PyS.lift m.tooLarge
  else return (m, node)

/-- flic/ManifestFactory.py:101-106: the argument `signer` only says that the packet is to be signed, the signer of the options
signs; without one `None.validation_alg` raises AttributeError. -/
def factorySign (P : Prims) (o : TreeOptions) (signer : Option Signer) (body : ContentObject) : Py Packet :=
  match signer with
  | none => Packet.createContentObject body
  | some _ =>
    match o.signer with
    | none => .error .attributeError
    | some s => signPacket P (some s) body

/-- flic/ManifestFactory.py:108-111: record the manifest, if there is a graph. -/
def recordManifest (P : Prims) (R : NameComponent → Text) (p : Packet) (node : Node) : PyS FState Unit := fun s =>
  if s.graph.isNone then (.ok (), s)
  else
    match p.hash P.sha256 with
    | .error e => (.error e, s)
    | .ok h => (ManifestGraph.addManifest P R h node p.body.name).onGraph s

/-- flic/ManifestFactory.py:65-114 `build_packet` -/
def buildPacket (E : Env) (R : NameComponent → Text) (o : TreeOptions) (source : Source) (a : BuildArgs) : PyS FState Packet := do
  let (m, node) ← factoryBuild E o source a
  let body ← PyS.lift (m.contentObject a.name a.expiryTime)
  let p ← PyS.lift (factorySign E.prims o a.signer body)
  recordManifest E.prims R p node
  let n ← PyS.lift p.len
  PyS.modify (fun s => { s with cntManifests := s.cntManifests + 1, cntManifestBytes := s.cntManifestBytes + n })
  return p

/-- Several calls of `build_packet`, going on after exceptions; the packets made. -/
def buildPackets (E : Env) (R : NameComponent → Text) (o : TreeOptions) : List (Source × BuildArgs) → FState → List Packet × FState
  | [], s => ([], s)
  | c :: cs, s =>
    match buildPacket E R o c.1 c.2 s with
    | (.ok p, s) => ((p :: (buildPackets E R o cs s).1), (buildPackets E R o cs s).2)
    | (.error _, s) => buildPackets E R o cs s

end Ccnpy
