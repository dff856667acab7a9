import Verif.Model.Traversal
import Verif.Model.Graph

/-!
# `ccnpy/flic/tree/Traversal.py` with its two options: the data writer may be missing, and a graph may be built

Model/Traversal.lean is the case with a data writer and without a graph (theorem C94_plain).
-/

namespace Ccnpy

/-- flic/tree/Traversal.py:56-70: what a `Traversal` object is made with.  `R` renders name components of other types for the labels
(see `NameComponent.repr`). -/
structure FullEnv extends TravEnv where
  /-- `data_writer is not None` -/
  hasWriter : Bool
  /-- `build_graph` -/
  buildGraph : Bool
  R : NameComponent → Text

/-- State of a traversal: the one of Model/Traversal.lean and `_manifest_graph`. -/
structure FullState where
  base : TState
  graph : ManifestGraph := {}

/-- A computation on the first part of the state. -/
def PyS.onWalk {α : Type} (x : PyS TState α) : PyS FullState α := fun s =>
  match x s.base with
  | (r, b) => (r, { s with base := b })

/-- A computation on the graph. -/
def PyS.onPicture {α : Type} (x : PyS ManifestGraph α) : PyS FullState α := fun s =>
  match x s.graph with
  | (r, g) => (r, { s with graph := g })

/-- flic/tree/Traversal.py:140-143 `_write_data`: without a writer the payload is not looked at. -/
def FullEnv.writeData (F : FullEnv) (payload : Option Bytes) : PyS FullState Unit :=
  if F.hasWriter then (Ccnpy.writeData payload).onWalk else pure ()

/-- flic/tree/Traversal.py:112-113: the graph is told of a manifest. -/
def FullEnv.noteManifest (F : FullEnv) (h : HashValue) (node : Node) (name : Option Name) : PyS FullState Unit :=
  if F.buildGraph then (ManifestGraph.addManifest F.prims F.R h node name).onPicture else pure ()

/-- flic/tree/Traversal.py:132-133: the graph is told of a data object. -/
def FullEnv.noteData (F : FullEnv) (h : HashValue) (name : Option Name) : PyS FullState Unit :=
  if F.buildGraph then (ManifestGraph.addData F.prims F.R h name).onPicture else pure ()

/-- flic/tree/Traversal.py:156-170: the loop of `_visit_children`; `visit` is `preorder`.  The number of pointers left is
the fuel. -/
def FullEnv.visitLoop (F : FullEnv) (visit : Packet → PyS FullState Unit) (nc : NcCache) :
    Nat → NodeIterator → PyS FullState Unit
  | fuel, it => do
    match ← PyS.lift it.next with
    | none => pure ()
    | some (v, it) =>
      match fuel with
      | 0 => PyS.lift (.error .nonTermination)
      | fuel + 1 => do
        let p ← PyS.lift (F.fetch nc v)
        PyS.lift (validatePacket F.prims F.keystore p)
        visit p
        F.visitLoop visit nc fuel it

/-- flic/tree/Traversal.py:123-127 (as `reportError`). -/
def reportFull (m : Manifest) (x : PyS FullState Unit) : PyS FullState Unit := fun s =>
  match x s with
  | (.ok (), s) => (.ok (), s)
  | (.error e, s) => (do m.display; .error e, s)

/-- flic/tree/Traversal.py:93-138 `preorder` and 145-174 `_visit_children` (as `TravEnv.preorder`).  The graph is told of a manifest
before its definitions are read, of a data object before its payload is written.  An encrypted node has no
`hash_values`: AttributeError, with or without a graph. -/
def FullEnv.preorder (F : FullEnv) : Nat → NcCache → Packet → PyS FullState Unit
  | 0, _, _ => PyS.lift (.error .nonTermination)
  | depth + 1, nc, p => do
    let h ← PyS.lift (p.hash F.prims.sha256)
    (PyS.modify (fun s => { s with count := s.count + 1 })).onWalk
    match p.body.payloadType with
    | none => PyS.lift (.error .attributeError)
    | some ty =>
      if ty = PT_MANIFEST then do
        let m ← PyS.lift (Manifest.fromContentObject p.body)
        let m ← (F.decrypt m).onWalk
        match m.node with
        | .encrypted _ => PyS.lift (.error .attributeError)
        | .plain node => do
          F.noteManifest h node p.body.name
          let nc ← PyS.lift (updateNcCache nc node)
          reportFull m (F.visitLoop (fun q => F.preorder depth nc q) nc node.pointerCount node.iter)
      else if ty = PT_DATA then do
        F.noteData h p.body.name
        F.writeData p.body.payload
      else PyS.lift (unsupportedPayload p.body)

/-- flic/tree/Traversal.py:82-91 `traverse` -/
def FullEnv.traverse (F : FullEnv) (depth : Nat) (rootName : Option Name) (hash : Option HashValue) : PyS FullState Unit := do
  let p ← PyS.lift (F.reader rootName hash)
  PyS.lift (validatePacket F.prims F.keystore p)
  F.preorder depth [] p

/-- A `Traversal` object just created (66-70). -/
def FullState.new (ks : Option Keystore) : FullState := { base := TState.new ks }

end Ccnpy
