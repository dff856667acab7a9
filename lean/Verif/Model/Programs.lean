import Verif.Model.Apps
import Verif.Model.Network

/-!
# Whole runs of the programs: `ccnpy/apps/manifest_writer.py`, `packet_reader.py` and `manifest_reader.py` (`run`)

The arguments are those after parsing.  Not modelled: `argparse`, the password prompt (apps/cli_utils.py:157-168), what is printed, errors
of the file system and of the network other than a missing file or directory.
-/

namespace Ccnpy

/-- What one run of the program takes from outside: besides the arguments, the cryptography, clock and random numbers (`cli`, `tree`), the
logarithm, `datetime.fromisoformat`, Python's `hash`, the `repr` of name components in file names and the class counter of name
constructor contexts, which is 1 in a new process. -/
structure WriterWorld where
  cli : CliEnv
  tree : Env
  log : FloatLog
  iso : Text → Py F64
  hashOf : Bytes → Int
  names : NameComponent → Text
  counter : Nat := 1

/-- apps/manifest_writer.py:38-46 and 94-106: the options are made, the file is opened (`none`: there is no such file) and the tree is
built.  The packets are in the order in which the build gives them to the packet writer, up to the exception if there is one. -/
def WriterWorld.build (W : WriterWorld) (a : WriterArgs) (file : Option Stream) : Py Packet × List Packet :=
  match treeOptionsFromCli W.cli W.iso a with
  | .error e => (.error e, [])
  | .ok o =>
    match file with
    | none => (.error .fileNotFoundError, [])
    | some input => manifestTree W.tree W.log o W.counter input

/-- apps/manifest_writer.py:152-154 -/
def WriterWorld.args (W : WriterWorld) (a : WriterArgs) : WriterArgs := { a with toCliArgs := defaultKeyNum W.hashOf a.toCliArgs }

/-- apps/manifest_writer.py:152-176 without `-T`, in the directory `d` (`isdir`: it exists).  The build takes nothing from the packet
writer but its exceptions: an exception of `put` ends the build at that packet, so the packets can be put after the build.
`close` does nothing (flic/tree/TreeIO.py:216-217). -/
def WriterWorld.runDirectory (W : WriterWorld) (a : WriterArgs) (links isdir : Bool) (file : Option Stream) (d : Directory) :
    Py Packet × Directory :=
  let a := W.args a
  match signerFromCli W.cli a.toCliArgs with
  | .error e => (.error e, d)
  | .ok signer =>
    if isdir then
      match prefixCheck a with
      | .error e => (.error e, d)
      | .ok () =>
        let b := W.build a file
        match DirWriter.putAll W.tree.prims W.names { linkNamedObjects := links, signer := signer } b.2 { dir := d } with
        | (.error e, s) => (.error e, s.dir)
        | (.ok (), s) => (b.1, s.dir)
    else (.error .runtimeError, d)

/-- apps/manifest_writer.py:152-176 with `-T`, after the connection is made.  The check of the prefixes (163-167) is not inside the `try`,
so if it fails the socket is not closed. -/
def WriterWorld.runNetwork (W : WriterWorld) (a : WriterArgs) (file : Option Stream) : Py Packet × NetworkWriter :=
  let a := W.args a
  match prefixCheck a with
  | .error e => (.error e, {})
  | .ok () =>
    let b := W.build a file
    match NetworkWriter.putAll b.2 {} with
    | (.error e, s) => (.error e, (NetworkWriter.close s).2)
    | (.ok (), s) => (b.1, (NetworkWriter.close s).2)

/-! ## apps/packet_reader.py -/

/-- apps/cli_utils.py:122-125 `aead_decryptor_from_cli_args`.  The decryptor is never used, so only the exceptions are kept. -/
def aeadDecryptorFromCli (E : CliEnv) (a : CliArgs) : Py Unit :=
  match a.encKey with
  | none => .ok ()
  | some _ => do
    let _ ← aeadParametersFromCli E a
    return ()

/-- apps/packet_reader.py:71-87 with 30-41 and 50-68.  The file is one in the directory of `-i`; what is printed is in order. -/
def packetReaderRun (E : CliEnv) (a : CliArgs) (prettify : Bool) (d : Directory) (path : List Text) : Py Unit × List Shown :=
  match createKeystore E a with
  | .error e => (.error e, [])
  | .ok ks =>
    match aeadDecryptorFromCli E a with
    | .error e => (.error e, [])
    | .ok () =>
      let r := packetReaderRead E.prims E.now prettify d path { keystore := ks }
      (r.1, r.2.shown)

/-! ## apps/manifest_reader.py -/

/-- The arguments of apps/manifest_reader.py:121-133 after parsing, besides those for keys; `--name` is required. -/
structure ReaderArgs extends CliArgs where
  name : Text
  hash : Option Text := none
  useTcp : Bool := false
  /-- is `--output` given? -/
  toFile : Bool := false

/-- apps/manifest_reader.py:114-148 with 66-78 and 91-110.  `isdir`: the input directory exists; `file` is what is in the file of `--output`
before (`none`: there is no such file), the result what is in it afterwards.  `ManifestNetworkReader` is abstract, so with `-T` the
constructor raises TypeError.  The steps are in the order of the code: the output file is opened, and thereby emptied, before the
traversal begins. -/
def manifestReaderRun (E : CliEnv) (a : ReaderArgs) (R : NameComponent → Text) (isdir : Bool) (d : Directory) (depth : Nat)
    (file : Option Bytes) : Py Unit × Option Bytes :=
  match createKeystore E a.toCliArgs with
  | .error e => (.error e, file)
  | .ok ks =>
    if a.useTcp then (.error .typeError, file)
    else
      match Name.fromUri (some a.name) with
      | .error e => (.error e, file)
      | .ok _ =>
        if isdir then
          let r := manifestReaderRead E.prims E.now R d ks depth a.name a.hash (TState.new (some ks))
          (r.1, if a.toFile then some r.2.writes.flatten else file)
        else (.error .runtimeError, file)

end Ccnpy
