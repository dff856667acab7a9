import Verif.Model.Tree

/-!
# Reading packets back: `ccnpy/flic/tree/TreeIO.py` (in-memory classes) and `ccnpy/flic/tree/Traversal.py`
-/

namespace Ccnpy

/-! ## The in-memory store -/

/-- flic/tree/TreeIO.py:65-97, 99-127: the packet list and the dictionary by hash (in insertion order; keys are never
assigned twice). -/
structure MemoryStore where
  packets : List Packet := []
  byHash : List (HashValue × Packet) := []
  totalBytesByPacket : Nat := 0
  totalBytesByHash : Nat := 0

/-- `self.by_hash[h]`, `h in self.by_hash` -/
def MemoryStore.find (P : Prims) (s : MemoryStore) (h : HashValue) : Option Packet :=
  (s.byHash.find? (fun e => h.dictEq P e.1)).map (·.2)

/-- flic/tree/TreeIO.py:122-127 `put` -/
def MemoryStore.put (P : Prims) (s : MemoryStore) (p : Packet) : Py MemoryStore := do
  let n ← p.len
  let h ← p.hash P.sha256
  let s := { s with totalBytesByPacket := s.totalBytesByPacket + n, packets := s.packets ++ [p] }
  if (s.find P h).isSome then return s
  else return { s with totalBytesByHash := s.totalBytesByHash + n, byHash := s.byHash ++ [(h, p)] }

/-- A sequence of `put`s. -/
def MemoryStore.putAll (P : Prims) (s : MemoryStore) (ps : List Packet) : Py MemoryStore := ps.foldlM (MemoryStore.put P) s

/-- flic/tree/TreeIO.py:111-112 `__len__` -/
def MemoryStore.len (s : MemoryStore) : Nat := s.byHash.length

/-- flic/tree/TreeIO.py:88-94 `get`: KeyError for an unknown hash; a named packet must be asked for by its name
(`None != name` calls `Name.__eq__(name, None)`, core/Name.py:97-98, which raises AttributeError). -/
def MemoryStore.get (P : Prims) (s : MemoryStore) (name : Option Name) (h : HashValue) : Py Packet :=
  match s.find P h with
  | none => .error .keyError
  | some p =>
    match p.body.name with
    | none => .ok p
    | some n =>
      match name with
      | none => .error .attributeError
      | some m => if m.pyEq n then .ok p else .error .valueError

/-- flic/tree/TreeIO.py:79-86: a `PacketMemoryReader` made from a list of packets.  Every packet assigns its hash, so a later
packet replaces an earlier one; the association list holds the latest assignment first. -/
def MemoryStore.ofPackets (P : Prims) (ps : List Packet) : Py MemoryStore :=
  ps.foldlM (fun s p => do
    let h ← p.hash P.sha256
    return { s with byHash := (h, p) :: s.byHash }) { packets := ps }

/-! ## Traversal -/

/-- flic/tree/Traversal.py:40-54: the dictionary from name constructor ids to schemas, latest assignment first. -/
abbrev NcCache := List (Nat × SchemaImpl)

/-- flic/tree/Traversal.py:53: the definition is printed; `nc_id()` being `None` raises AttributeError, showing the locators of the
schema may raise (Model/Display.lean).  Simplified: the standard output takes any text. -/
def NcDef.announce (d : NcDef) : Py Unit :=
  match d.ncId with
  | none => .error .attributeError
  | some _ => d.display

/-- flic/tree/Traversal.py:51-54 `update` -/
def NcCache.update (c : NcCache) : List NcDef → Py NcCache
  | [] => .ok c
  | d :: ds => do
    d.announce
    let i ← SchemaImpl.ofNcDef d
    NcCache.update ((i.ncId, i) :: c) ds

/-- flic/name_constructor/NameConstructorContext.py:35-39 `hash_group_count` -/
def NameCtx.hashGroupCount (c : NameCtx) : Nat := if c.shared then 1 else 2

/-- flic/name_constructor/NameConstructorContext.py:123-128 `export_schemas`, latest assignment first. -/
def NameCtx.exportSchemas (c : NameCtx) : NcCache :=
  let d : NcCache := [(c.manifest.ncId, c.manifest)]
  if c.hashGroupCount = 2 then (c.data.ncId, c.data) :: d else d

/-- `nc_cache.cache[nc_id]` -/
def NcCache.find (c : NcCache) (id : Nat) : Py SchemaImpl :=
  match c.find? (fun e => e.1 == id) with
  | some e => .ok e.2
  | none => .error .keyError

/-- flic/tree/Traversal.py:195-209 `_update_nc_cache` for a decrypted manifest. -/
def updateNcCache (c : NcCache) (node : Node) : Py NcCache :=
  match node.nodeData with
  | none => .ok c
  | some d => if d.ncDefs.length > 0 then NcCache.update c d.ncDefs else .ok c

/-- A packet reader: `packet_input.get(name, hash_restriction)`. -/
abbrev Reader := Option Name → Option HashValue → Py Packet

/-- State of a traversal: `_count`, the calls of `data_writer.write`, the decryptor cache. -/
structure TState where
  count : Nat := 0
  writes : List Bytes := []
  cache : DecryptorCache

/-- flic/tree/Traversal.py:56-70: keystore for validation and decryption (possibly `None`), and the reader.  The data writer
is present; graph building is off. -/
structure TravEnv where
  prims : Prims
  reader : Reader
  keystore : Option Keystore

/-- flic/tree/Traversal.py:180-192 `_decrypt`.  Without a keystore `None.get_aes_key` raises AttributeError. -/
def TravEnv.decrypt (T : TravEnv) (m : Manifest) : PyS TState Manifest := fun s =>
  if T.keystore.isNone && m.isEncrypted && m.securityCtx.isSome then (.error .attributeError, s)
  else
    match s.cache.open T.prims m with
    | (r, c) => (r, { s with cache := c })

/-- flic/tree/Traversal.py:211-215 `_fetch_packet` -/
def TravEnv.fetch (T : TravEnv) (nc : NcCache) (v : HashIteratorValue) : Py Packet := do
  let i ← nc.find v.ncId
  let name ← i.getName (v.segmentId.map Int.ofNat)
  T.reader name (some v.hashValue)

/-- flic/tree/Traversal.py:140-143; `None.value()` raises AttributeError. -/
def writeData (payload : Option Bytes) : PyS TState Unit :=
  match payload with
  | none => PyS.lift (.error .attributeError)
  | some b => PyS.modify (fun s => { s with writes := s.writes ++ [b] })

/-- flic/tree/Traversal.py:156-170: the loop of `_visit_children`; `visit` is `preorder`.  The number of pointers left is
the fuel. -/
def TravEnv.visitLoop (T : TravEnv) (visit : Packet → PyS TState Unit) (nc : NcCache) :
    Nat → NodeIterator → PyS TState Unit
  | fuel, it => do
    match ← PyS.lift it.next with
    | none => pure ()
    | some (v, it) =>
      match fuel with
      | 0 => PyS.lift (.error .nonTermination)
      | fuel + 1 => do
        let p ← PyS.lift (T.fetch nc v)
        PyS.lift (validatePacket T.prims T.keystore p)
        visit p
        T.visitLoop visit nc fuel it

/-- The number of pointers of a node. -/
def Node.pointerCount (n : Node) : Nat := (n.hashGroups.map (fun g => (g.pointers.getD []).length)).sum

/-- flic/tree/Traversal.py:123-127: an exception from below is printed together with the manifest and raised again; if showing the
manifest raises, that exception takes its place.  Simplified: the text of the exception can be made, the standard output takes it, and
a RecursionError leaves room for printing. -/
def reportError (m : Manifest) (x : PyS TState Unit) : PyS TState Unit := fun s =>
  match x s with
  | (.ok (), s) => (.ok (), s)
  | (.error e, s) => (do m.display; .error e, s)

/-- flic/tree/Traversal.py:138; the message shows the content object (`USE_BRIEF_OUTPUT` is off), and that may raise another
exception. -/
def unsupportedPayload (c : ContentObject) : Py Unit := do
  c.display false
  .error .valueError

/-- flic/tree/Traversal.py:93-138 `preorder` and 145-174 `_visit_children`.  The recursion depth is limited by `depth`
(Python's own recursion limit raises RecursionError, here `nonTermination`).  Line 102 computes the hash of the packet for
the log. -/
def TravEnv.preorder (T : TravEnv) : Nat → NcCache → Packet → PyS TState Unit
  | 0, _, _ => PyS.lift (.error .nonTermination)
  | depth + 1, nc, p => do
    let _ ← PyS.lift (p.hash T.prims.sha256)
    PyS.modify (fun s => { s with count := s.count + 1 })
    match p.body.payloadType with
    | none => PyS.lift (.error .attributeError)
    | some ty =>
      if ty = PT_MANIFEST then do
        let m ← PyS.lift (Manifest.fromContentObject p.body)
        let m ← T.decrypt m
        match m.node with
        | .encrypted _ => PyS.lift (.error .attributeError)
        | .plain node => do
          let nc ← PyS.lift (updateNcCache nc node)
          reportError m (T.visitLoop (fun q => T.preorder depth nc q) nc node.pointerCount node.iter)
      else if ty = PT_DATA then writeData p.body.payload
      else PyS.lift (unsupportedPayload p.body)

/-- flic/tree/Traversal.py:82-91 `traverse` -/
def TravEnv.traverse (T : TravEnv) (depth : Nat) (rootName : Option Name) (hash : Option HashValue) : PyS TState Unit := do
  let p ← PyS.lift (T.reader rootName hash)
  PyS.lift (validatePacket T.prims T.keystore p)
  T.preorder depth [] p

/-- A `Traversal` object just created (66-68). -/
def TState.new (ks : Option Keystore) : TState := { cache := { oaep := { keystore := ks.getD {} } } }

/-- The reader made of a memory store; `by_hash[None]` raises KeyError. -/
def MemoryStore.reader (P : Prims) (s : MemoryStore) : Reader := fun name h =>
  match h with
  | none => .error .keyError
  | some h => s.get P name h

end Ccnpy
