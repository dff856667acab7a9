import Verif.Model.Traversal
import Verif.Model.Tree

/-!
# Traversal and tree builder in a bounded call stack: `ccnpy/flic/tree/{Traversal,TreeBuilder}.py` and `ccnpy/flic/tlvs/Node.py`

Python raises RecursionError when too many calls are nested.  Here the calls of `preorder`, `_visit_children` and
`NodeIterator.__next__` are counted, which are those that nest as deep as the input makes them.  Simplified: the other calls, whose
nesting is bounded by the program text, take no room (in particular printing an error does not).  In the tree builder the calls of
`_bottom_up_preorder`, `_interior_manifest` and `_interior_add_indirect` are counted in the same way.
-/

namespace Ccnpy

/-- flic/tlvs/Node.py:51-67 `__next__` with room for so many calls of itself.  RecursionError is `nonTermination`. -/
def NodeIterator.nextIn : Nat → NodeIterator → Py (Option (HashIteratorValue × NodeIterator))
  | 0, _ => .error .nonTermination
  | room + 1, it =>
    if h : it.groupIndex ≥ it.groups.length then .ok none
    else
      let hg := it.groups[it.groupIndex]
      match hg.pointers with
      | none => .error .typeError
      | some ptrs =>
        if h2 : it.ptrIndex ≥ ptrs.length then
          NodeIterator.nextIn room { it with ptrIndex := 0, groupIndex := it.groupIndex + 1 }
        else
          match hg.groupData with
          | none => .error .valueError
          | some gd => match gd.ncId with
            | none => .error .valueError
            | some nc => .ok (some (⟨nc, ptrs[it.ptrIndex], NodeIterator.segmentId hg it.ptrIndex⟩,
                { it with ptrIndex := it.ptrIndex + 1 }))

/-- flic/tree/Traversal.py:156-170: the loop of `_visit_children` (Model/Traversal.lean) with room for so many calls of `__next__`. -/
def TravEnv.visitLoopIn (T : TravEnv) (visit : Packet → PyS TState Unit) (nc : NcCache) (room : Nat) :
    Nat → NodeIterator → PyS TState Unit
  | fuel, it => do
    match ← PyS.lift (it.nextIn room) with
    | none => pure ()
    | some (v, it) =>
      match fuel with
      | 0 => PyS.lift (.error .nonTermination)
      | fuel + 1 => do
        let p ← PyS.lift (T.fetch nc v)
        PyS.lift (validatePacket T.prims T.keystore p)
        visit p
        T.visitLoopIn visit nc room fuel it

/-- flic/tree/Traversal.py:93-138 `preorder`, the call of `_visit_children` being a parameter. -/
def TravEnv.preorderWith (T : TravEnv) (children : NcCache → Node → PyS TState Unit) (nc : NcCache) (p : Packet) :
    PyS TState Unit := do
  let _ ← PyS.lift (p.hash T.prims.sha256)
  PyS.modify (fun s => { s with count := s.count + 1 })
  match p.body.payloadType with
  | none => PyS.lift (.error .attributeError)
  | some ty =>
    if ty = PT_MANIFEST then do
      let m ← PyS.lift (Manifest.fromContentObject p.body)
      let m ← T.decrypt m
      match m.node with
      | .encrypted _ => PyS.lift (.error .attributeError)
      | .plain node => do
        let nc ← PyS.lift (updateNcCache nc node)
        reportError m (children nc node)
    else if ty = PT_DATA then writeData p.body.payload
    else PyS.lift (unsupportedPayload p.body)

/-- flic/tree/Traversal.py:93-138 `preorder` and 145-174 `_visit_children` with room for so many calls: one for `preorder`, one for
`_visit_children`, and the rest for the calls that the latter makes one after the other. -/
def TravEnv.preorderIn (T : TravEnv) : Nat → NcCache → Packet → PyS TState Unit
  | 0, _, _ => PyS.lift (.error .nonTermination)
  | 1, nc, p => T.preorderWith (fun _ _ => PyS.lift (.error .nonTermination)) nc p
  | room + 2, nc, p =>
    T.preorderWith (fun nc node =>
      T.visitLoopIn (fun q => T.preorderIn room nc q) nc room node.pointerCount node.iter) nc p

/-- flic/tree/Traversal.py:82-91 `traverse` with room for so many calls. -/
def TravEnv.traverseIn (T : TravEnv) (room : Nat) (rootName : Option Name) (hash : Option HashValue) : PyS TState Unit := do
  let p ← PyS.lift (T.reader rootName hash)
  PyS.lift (validatePacket T.prims T.keystore p)
  T.preorderIn room [] p

/-! ## The tree builder -/

/-- flic/tree/TreeBuilder.py:389-409 `_interior_manifest`, the call of `_interior_add_indirect` being a parameter. -/
def interiorManifestWith (T : TreeEnv) (addIndirect : BuilderPair → Segment → PyS BState (BuilderPair × Segment)) (seg : Segment)
    (level : Nat) (rightMost : Option Built) : PyS BState (Built × Segment) := do
  let b ← PyS.lift (addRightMostChild T (BuilderPair.new T.ctx T.direct T.indirect) rightMost)
  let (b, seg) ← addIndirect b seg
  let (b, seg, least) ← PyS.lift (addDirectLoop T T.direct b seg none)
  let r ← interiorPacket T b least level
  putBuilt T r
  return (r, seg)

/-- flic/tree/TreeBuilder.py:294-312 `_bottom_up_preorder`, the call of `_interior_manifest` being a parameter that gets the level
minus one. -/
def bottomUpWith (T : TreeEnv) (interior : Nat → Segment → Option Built → PyS BState (Built × Segment)) :
    Nat → Segment → Option Built → PyS BState (Built × Segment)
  | 0, seg, rightMost => do
    PyS.lift (pyAssert rightMost.isNone)
    leafManifest T seg 0
  | level + 1, seg, rightMost =>
    if rightMost.isNone && decide (seg.length ≤ T.pointers) then leafManifest T seg (level + 1)
    else interior level seg rightMost

/-- flic/tree/TreeBuilder.py:294-312, 389-409, 416-428 with room for so many calls: one for `_bottom_up_preorder`, one for
`_interior_manifest`, one for `_interior_add_indirect`, and the rest for the calls of `_bottom_up_preorder` that the last one makes one
after the other.  RecursionError is `nonTermination`. -/
def bottomUpIn (T : TreeEnv) : Nat → Nat → Segment → Option Built → PyS BState (Built × Segment)
  | 0, _, _, _ => PyS.lift (.error .nonTermination)
  | 1, level, seg, rightMost => bottomUpWith T (fun _ _ _ => PyS.lift (.error .nonTermination)) level seg rightMost
  | 2, level, seg, rightMost =>
    bottomUpWith T (fun level seg rightMost =>
      interiorManifestWith T (fun _ _ => PyS.lift (.error .nonTermination)) seg (level + 1) rightMost) level seg rightMost
  | room + 3, level, seg, rightMost =>
    bottomUpWith T (fun level seg rightMost =>
      interiorManifestWith T (addIndirect T (fun seg => bottomUpIn T room level seg none)) seg (level + 1) rightMost)
      level seg rightMost

/-- flic/tree/TreeBuilder.py:253-255: the loop of `build` (Model/Tree.lean) with room for so many calls. -/
def buildLoopIn (T : TreeEnv) (room : Nat) : Nat → Nat → Segment → Built → PyS BState Built
  | fuel, level, seg, root =>
    if seg.empty then pure root
    else match fuel with
      | 0 => PyS.lift (.error .nonTermination)
      | fuel + 1 => do
        let (root, seg) ← bottomUpIn T room (level + 1) seg (some root)
        buildLoopIn T room fuel (level + 1) seg root

/-- flic/tree/TreeBuilder.py:193-222, 233-257 `build` with room for so many calls. -/
def buildTreeIn (T : TreeEnv) (room : Nat) : PyS BState Built := do
  let ids ← PyS.lift (initialIds T.indirect T.height)
  PyS.modify (fun s => { s with nextIds := ids, lastId := none })
  let (root, seg) ← leafManifest T ⟨0, T.chunks.length⟩ 0
  buildLoopIn T room (T.height.toNat + 1) 0 seg root

/-- flic/ManifestTree.py:63-90 `build` with room for so many calls. -/
def buildRootedIn (T : TreeEnv) (room totalBytes : Nat) : PyS BState Packet := do
  let top ← buildTreeIn T room
  let h ← PyS.lift (top.packet.hash T.env.prims.sha256)
  let r ← rootPacket T.env T.opts T.ctx totalBytes h
  PyS.modify (fun s => { s with output := s.output ++ [r.packet] })
  return r.packet

/-- flic/ManifestTree.py:48-57 and 63-76 (`manifestTree` in Model/Tree.lean) with room for so many calls. -/
def manifestTreeIn (room : Nat) (E : Env) (L : FloatLog) (o : TreeOptions) (nextNcId : Nat) (input : Stream) :
    Py Packet × List Packet :=
  match NameCtx.create o.schemaType nextNcId o.name o.manifestPrefix o.dataPrefix o.manifestLocators o.dataLocators with
  | .error e => (.error e, [])
  | .ok ctx =>
    match ctx.data.chunkData E.prims.sha256 o.chunk input {} with
    | (.error e, s) => (.error e, s.output)
    | (.ok file, s) =>
      match createOptimizedTree E L o ctx file { output := s.output } with
      | (.error e, s) => (.error e, s.output)
      | (.ok r, s) =>
        match buildRootedIn ⟨E, o, ctx, file.chunks, r.direct, r.indirect, r.height⟩ room file.totalBytes s with
        | (.error e, s) => (.error e, s.output)
        | (.ok p, s) => (.ok p, s.output)

end Ccnpy
