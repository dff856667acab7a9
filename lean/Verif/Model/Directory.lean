import Verif.Model.Uri
import Verif.Model.Traversal

/-!
# Packets in a directory: `ccnpy/flic/tree/TreeIO.py` (`DirectoryBase`, `PacketDirectoryWriter`, `PacketDirectoryReader`)

The file system is a map from paths (below the directory of the object) to contents.  Not modelled: limits on the length of file
names, missing permissions, other processes, the existence check of the directory in the constructors.
-/

namespace Ccnpy

/-- The files below a directory, latest write first. -/
structure Directory where
  files : List (List Text × Bytes) := []

/-- `open(path, 'wb')` and `write`: an existing file is replaced. -/
def Directory.write (d : Directory) (path : List Text) (b : Bytes) : Directory := ⟨(path, b) :: d.files⟩

/-- The content of a file. -/
def Directory.read (d : Directory) (path : List Text) : Option Bytes := (d.files.find? (fun f => f.1 == path)).map (·.2)

/-- A digit of `bytes.hex()`. -/
def hexDigit (n : Nat) : Char := if n < 10 then Char.ofNat (48 + n) else Char.ofNat (87 + n)

/-- `bytes.hex()` -/
def hexText (b : Bytes) : Text := b.flatMap (fun x => [hexDigit (x.toNat / 16), hexDigit (x.toNat % 16)])

/-- flic/tree/SizedPointer.py:35-37 `file_name` and flic/tree/TreeIO.py:134-135: the file name of a hash value. -/
def hashFileName (h : HashValue) : Text := hexText h.value

/-- flic/tree/TreeIO.py:141-148 (end of `to_path`): two levels of directories if `nested`. -/
def toPath (filename : Text) (nested : Bool) : List Text :=
  if nested then [filename.take 2, (filename.drop 2).take 2, filename] else [filename]

/-- core/Packet.py:131-134 `load` -/
def Directory.load (now : F64) (d : Directory) (path : List Text) : Py Packet :=
  match d.read path with
  | none => .error .fileNotFoundError
  | some b => Packet.deserialize now b

/-- flic/tree/TreeIO.py:155-170: the parameters of the writer. -/
structure DirWriter where
  linkNamedObjects : Bool := false
  signer : Option Signer := none
  nested : Bool := false

/-- The directory and the fields of the writer (172-177).  `packets` is never changed by the code and left out. -/
structure DirState where
  dir : Directory := {}
  byHash : List (HashValue × Packet) := []
  totalBytesByPacket : Nat := 0
  totalBytesByHash : Nat := 0
  cntManifest : Nat := 0
  cntData : Nat := 0
  bytesManifest : Nat := 0
  bytesData : Nat := 0

/-- core/ContentObject.py:94-118 `create_link` without expiry time; the link and the name are given. -/
def ContentObject.createLink (link : Link) (name : Name) : Py ContentObject := do
  let b ← link.wire
  construct ContentObject.tlv { name := some name, payloadType := some PT_LINK, payload := some b }

/-- flic/tree/TreeIO.py:193-196 `_create_link` and 206-214 `_create_signed_packet`; `h` is the hash of the packet. -/
def DirWriter.createLink (P : Prims) (w : DirWriter) (name : Name) (h : HashValue) : Py Packet := do
  let c ← ContentObject.createLink { name := some name, digest := some h } name
  signPacket P (some (w.signer.getD .crc32c)) c

/-- flic/tree/TreeIO.py:198-204 `_write_link`; the path of the link is never nested. -/
def DirWriter.writeLink (P : Prims) (R : NameComponent → Text) (w : DirWriter) (p : Packet) (h : HashValue) : PyS DirState Unit :=
  if w.linkNamedObjects then
    match p.body.name with
    | none => pure ()
    | some n => do
      let l ← PyS.lift (w.createLink P n h)
      let f ← PyS.lift (linkName R n)
      let b ← PyS.lift l.serialize
      PyS.modify (fun s => { s with dir := s.dir.write (toPath f false) b })
  else pure ()

/-- `h in self.by_hash` -/
def DirState.has (P : Prims) (s : DirState) (h : HashValue) : Bool := s.byHash.any (fun e => h.dictEq P e.1)

/-- flic/tree/TreeIO.py:179-191 `put` -/
def DirWriter.put (P : Prims) (R : NameComponent → Text) (w : DirWriter) (p : Packet) : PyS DirState Unit := do
  let n ← PyS.lift p.len
  PyS.modify (fun s => { s with totalBytesByPacket := s.totalBytesByPacket + n })
  let h ← PyS.lift (p.hash P.sha256)
  let b ← PyS.lift p.serialize
  PyS.modify (fun s => { s with dir := s.dir.write (toPath (hashFileName h) w.nested) b })
  w.writeLink P R p h
  PyS.modify (fun s =>
    if s.has P h then s
    else
      let s := { s with totalBytesByHash := s.totalBytesByHash + n, byHash := s.byHash ++ [(h, p)] }
      if p.body.payloadType = some PT_MANIFEST then { s with cntManifest := s.cntManifest + 1, bytesManifest := s.bytesManifest + n }
      else { s with cntData := s.cntData + 1, bytesData := s.bytesData + n })

/-- A sequence of `put`s. -/
def DirWriter.putAll (P : Prims) (R : NameComponent → Text) (w : DirWriter) : List Packet → PyS DirState Unit
  | [] => pure ()
  | p :: ps => do
    w.put P R p
    w.putAll P R ps

/-- flic/tree/TreeIO.py:263-273 `_get_by_link`.  The variable `filename` in the message does not exist, so NameError is raised
after the target has been loaded, and also when the file is not a link. -/
def Directory.getByLink (now : F64) (R : NameComponent → Text) (d : Directory) (name : Name) : Py Packet := do
  let f ← linkName R name
  let p ← d.load now (toPath f false)
  if p.body.payloadType = some PT_LINK then
    match p.body.payload with
    | none => .error .attributeError
    | some b => do
      let link ← Link.deserialize b
      match link.digest with
      | none => .error .typeError
      | some h => do
        let _ ← d.load now (toPath (hashFileName h) false)
        .error .nameError
  else .error .nameError

/-- flic/tree/TreeIO.py:249-261 `_get_by_name` -/
def Directory.getByName (now : F64) (R : NameComponent → Text) (d : Directory) (name : Name) : Py Packet :=
  match d.getByLink now R name with
  | .error .fileNotFoundError => .error .notImplementedError
  | r => r

/-- flic/tree/TreeIO.py:237-247 `get`.  Without name and hash `to_path(None)` raises TypeError; `None != name` raises AttributeError
(core/Name.py:97-98).  Simplified: a hash value of no bytes names the directory itself, here a missing file. -/
def Directory.reader (now : F64) (R : NameComponent → Text) (d : Directory) : Reader := fun name h =>
  match h with
  | none =>
    match name with
    | some n => d.getByName now R n
    | none => .error .typeError
  | some h => do
    let p ← d.load now (toPath (hashFileName h) false)
    match p.body.name with
    | none => return p
    | some n =>
      match name with
      | none => .error .attributeError
      | some m => if m.pyEq n then return p else .error .valueError

end Ccnpy
