import Verif.Model.Display
import Verif.Model.Directory
import Verif.Model.Traversal

/-!
# The command line programs: `ccnpy/apps/*.py`

`argparse` and the password prompts are not modelled: the arguments are those after parsing.  What is printed is modelled as the list of
the lines' meanings (`Shown`), not their text.
-/

namespace Ccnpy

/-! ## apps/packet_utils.py and apps/packet_reader.py -/

/-- What the programs print. -/
inductive Shown where
  /-- packet_reader.py:54 -/
  | packet (p : Packet)
  /-- packet_utils.py:40: no RSA key for the key id, nothing was validated -/
  | noRsaKey
  /-- packet_utils.py:52 -/
  | verified
  /-- packet_reader.py:59 -/
  | notValidated
  /-- packet_utils.py:60 -/
  | noAesKey
  /-- packet_utils.py:80 -/
  | noContext
  /-- packet_utils.py:86 -/
  | notDecrypted
  /-- packet_reader.py:68; `none` is Python's `None` -/
  | manifest (m : Option Manifest)
  deriving DecidableEq

/-- What has been printed, and the keystore of the program, which the RSA-OAEP decryptor extends. -/
structure AppState where
  shown : List Shown := []
  keystore : Keystore := {}

def tell (x : Shown) : PyS AppState Unit := PyS.modify fun s => { s with shown := s.shown ++ [x] }

/-- apps/packet_utils.py:48-53: the end of `validate_packet`, after the verifier has answered. -/
def appVerdict (r : Py Bool) : PyS AppState Unit := do
  if ← PyS.lift r then tell .verified else PyS.lift (.error .valueError)

/-- apps/packet_utils.py:27-53 `validate_packet` -/
def appValidate (P : Prims) (p : Packet) : PyS AppState Unit :=
  match p.alg with
  | none => pure ()
  | some .crc32c => do
    let b ← PyS.lift (wireOf ContentObject.tlv p.body)
    let a ← PyS.lift (wireOf ValidationAlg.tlv .crc32c)
    appVerdict (crcVerify [b, a] p.payload)
  | some (.rsaSha256 keyid link time) => do
    let s ← PyS.get
    match s.keystore.getRsa P (.hash keyid) with
    | .error .keyIdNotFound => tell .noRsaKey
    | .error e => PyS.lift (.error e)
    | .ok key => do
      let b ← PyS.lift (wireOf ContentObject.tlv p.body)
      let a ← PyS.lift (wireOf ValidationAlg.tlv (.rsaSha256 keyid link time))
      appVerdict (rsaVerify P key [b, a] p.payload)

/-- apps/packet_utils.py:83-86: the end of `decrypt_manifest`; after the notice the function falls off its end, which returns `None`. -/
def appDecrypted (r : Py Manifest) : PyS AppState (Option Manifest) :=
  match r with
  | .ok m => pure (some m)
  | .error .decryptionError => do
    tell .notDecrypted
    pure none
  | .error e => PyS.lift (.error e)

/-- apps/packet_utils.py:56-86 `decrypt_manifest` with `_get_aead_decryptor` and `_get_oaep_decryptor`: a missing AES key makes the
decryptor `None`, whose `decrypt_manifest` raises AttributeError. -/
def appDecrypt (P : Prims) (m : Manifest) : PyS AppState (Option Manifest) :=
  if m.isEncrypted then
    match m.securityCtx with
    | some (.aead d) => do
      let s ← PyS.get
      match s.keystore.getAesKey d.keyNumber with
      | .ok p => appDecrypted (aeadDecryptManifest P p m)
      | .error .keyNumberNotFound => do
        PyS.lift (showInt d.keyNumber)
        tell .noAesKey
        PyS.lift (.error .attributeError)
      | .error e => PyS.lift (.error e)
    | some (.rsaOaep _ _) => fun s =>
      let (r, o) := OaepDecryptor.decryptManifest P { keystore := s.keystore } m
      appDecrypted r { s with keystore := o.keystore }
    | none => do
      tell .noContext
      pure none
  else pure (some m)

/-- apps/packet_reader.py:43-48 `_output`; formatting may raise, then nothing is printed. -/
def appOutput (formatted : Py Unit) (x : Shown) : PyS AppState Unit := do
  PyS.lift formatted
  tell x

/-- apps/packet_reader.py:63-68: the end of `read`. -/
def readManifest (P : Prims) (p : Packet) : PyS AppState Unit :=
  if p.body.payloadType = some PT_MANIFEST then do
    let m ← PyS.lift (Manifest.fromContentObject p.body)
    if m.isEncrypted then do
      let r ← appDecrypt P m
      appOutput (showOpt Manifest.display r) (.manifest r)
    else pure ()
  else pure ()

/-- apps/packet_reader.py:55-68: validation with its handler, then the manifest. -/
def readValidated (P : Prims) (p : Packet) : PyS AppState Unit := fun s =>
  match appValidate P p s with
  | (.error .keyError, s) => tell .notValidated s
  | (.error e, s) => (.error e, s)
  | (.ok _, s) => readManifest P p s

/-- apps/packet_reader.py:50-68 `read`, the file being read already.  `prettify` makes the output full instead of brief; the formatting
of jsbeautifier is not modelled. -/
def readPacket (P : Prims) (prettify : Bool) (p : Packet) : PyS AppState Unit := do
  appOutput (p.display (!prettify)) (.packet p)
  readValidated P p

/-- apps/packet_reader.py:50-68 `read` -/
def packetReaderRead (P : Prims) (now : F64) (prettify : Bool) (d : Directory) (path : List Text) : PyS AppState Unit := do
  let p ← PyS.lift (d.load now path)
  readPacket P prettify p

/-! ## apps/cli_utils.py -/

/-- The value of a hexadecimal digit. -/
def hexVal (c : Char) : Option Nat :=
  if '0' ≤ c ∧ c ≤ '9' then some (c.toNat - 48)
  else if 'a' ≤ c ∧ c ≤ 'f' then some (c.toNat - 87)
  else if 'A' ≤ c ∧ c ≤ 'F' then some (c.toNat - 55)
  else none

/-- The characters that `bytes.fromhex` skips between bytes. -/
def hexSpace (c : Char) : Bool := c == ' ' || (9 ≤ c.toNat && c.toNat ≤ 13)

/-- `bytes.fromhex` (library code): pairs of digits, with white space allowed before and after each pair. -/
def bytesFromHex : Text → Py Bytes
  | [] => .ok []
  | [c] => if hexSpace c then .ok [] else .error .valueError
  | c :: d :: r =>
    if hexSpace c then bytesFromHex (d :: r)
    else
      match hexVal c, hexVal d with
      | some x, some y => do return UInt8.ofNat (16 * x + y) :: (← bytesFromHex r)
      | _, _ => .error .valueError

/-- apps/cli_utils.py:38-48 `_str_to_array` -/
def strToArray (t : Text) : Py Bytes :=
  match t with
  | '0' :: 'x' :: r => bytesFromHex r
  | _ => bytesFromHex t

/-- flic/tlvs/KdfInfo.py:29-32 and core/TlvType.py:157-180 for a `str` -/
def kdfInfoOfText (t : Text) : Py Bytes :=
  match t with
  | '0' :: 'x' :: r => do construct (octetTlv T_KDF_INFO) (← bytesFromHex r)
  | _ => construct (octetTlv T_KDF_INFO) (utf8Encode t)

/-- flic/tlvs/KeyNumber.py:31-36 for an `int` -/
def keyNumberOf (n : Int) : Py Nat := do
  let _ ← createVarint T_KEYNUM n
  return n.toNat

/-- What the programs take from outside: `RsaKey.load_pem_key`, `uuid.uuid1().bytes`, the random content key, salt and key number of
`RsaOaepEncryptor.create_with_new_content_key` and the seed of the wrapping. -/
structure CliEnv where
  prims : Prims
  load : Text → Option Text → Py RsaKey
  uuid : Bytes
  newKey : Bytes
  newSalt : Bytes
  newNumber : Bytes
  seed : Bytes
  now : F64

/-- apps/cli_utils.py:50-82 after parsing: `aesMode` is GCM or CCM by its `choices`; `keyNum` is the number in the `KeyNumber`, or the
`int` that manifest_writer.py:154 puts in its place. -/
structure CliArgs where
  keyFile : Option Text := none
  keyPass : Option Text := none
  wrapKey : Option Text := none
  wrapPass : Option Text := none
  encKey : Option Bytes := none
  aesMode : AeadAlg := .gcm
  keyNum : Option Int := none
  salt : Option Int := none
  kdfAlg : Option Nat := none
  kdfInfo : Option Bytes := none
  kdfUuid : Bool := false
  kdfSalt : Option Int := none

/-- apps/cli_utils.py:84-93 `aes_key_from_cli_args` -/
def aesKeyFromCli (a : CliArgs) : Py (Option AeadKey) := optM (AeadKey.create a.aesMode) a.encKey

/-- apps/cli_utils.py:95-102 `kdf_data_from_cli` -/
def kdfDataFromCli (E : CliEnv) (a : CliArgs) : Py (Option KdfData) := do
  let info := if a.kdfUuid then some E.uuid else a.kdfInfo
  let _ ← optM (octetTlv T_KDF_INFO) info
  optM (fun k => construct KdfData.tlv ⟨k, info⟩) a.kdfAlg

/-- `AeadParameters` (flic/aeadctx/AeadParameters.py:22-50) whose key number may be `None`, as apps/cli_utils.py makes it. -/
structure CliParams where
  key : Option AeadKey
  keyNumber : Option Nat
  aeadSalt : Option Nat
  kdfData : Option KdfData
  kdfSalt : Option Nat
  deriving DecidableEq

/-- apps/cli_utils.py:104-115 `aead_parameters_from_cli` -/
def aeadParametersFromCli (E : CliEnv) (a : CliArgs) : Py CliParams := do
  let key ← aesKeyFromCli a
  let kdf ← kdfDataFromCli E a
  let number ← optM keyNumberOf a.keyNum
  let salt ← saltCheck a.salt
  let kdfSalt ← saltCheck a.kdfSalt
  return ⟨key, number, salt, kdf, kdfSalt⟩

/-- Use of the key number: `None` has neither `value()` nor `serialize()`. -/
def CliParams.params (p : CliParams) : Py AeadParams :=
  match p.keyNumber with
  | none => .error .attributeError
  | some n => .ok ⟨p.key, n, p.aeadSalt, p.kdfData, p.kdfSalt⟩

/-- apps/cli_utils.py:117-120 `aead_encryptor_from_cli_args`.  Simplified: an encryptor without a key number is an error here; in the code it
raises TypeError when it is first used. -/
def aeadEncryptorFromCli (E : CliEnv) (a : CliArgs) : Py (Option Encryptor) :=
  match a.encKey with
  | none => .ok none
  | some _ => do
    let p ← aeadParametersFromCli E a
    return some (.aead (← p.params))

/-- flic/RsaOaepCtx/RsaOaepEncryptor.py:56-59 -/
def oaepEncryptor (E : CliEnv) (rsa : RsaKey) (p : AeadParams) : Py Encryptor := do
  return .oaep p (← oaepWrapper E.prims rsa E.seed p)

/-- flic/RsaOaepCtx/RsaOaepEncryptor.py:37-54 `create_with_new_content_key` -/
def oaepWithNewKey (E : CliEnv) (rsa : RsaKey) (kdf : Option KdfData) : Py Encryptor := do
  let k ← AeadKey.create .gcm E.newKey
  let p ← AeadParams.create (some k) (arrayToNumber E.newNumber) (some (arrayToNumber E.newSalt : Int)) kdf none
  oaepEncryptor E rsa p

/-- apps/cli_utils.py:127-137 `rsa_oaep_encryptor_from_cli_args` and 139-143 `encryptor_from_cli_args`.  The content key's salt is needed
before its number (flic/RsaOaepCtx/WrappedKey.py:53-78), so a missing number is reported after `wrapKey` has looked at the salt.
Simplified: for a 24 byte key without number the code raises the ValueError of `AeadMode.from_key` instead. -/
def encryptorFromCli (E : CliEnv) (a : CliArgs) : Py (Option Encryptor) :=
  match a.wrapKey with
  | none => aeadEncryptorFromCli E a
  | some file => do
    let rsa ← E.load file a.wrapPass
    match a.encKey with
    | none => do
      let kdf ← kdfDataFromCli E a
      return some (← oaepWithNewKey E rsa kdf)
    | some _ => do
      let p ← aeadParametersFromCli E a
      if p.aeadSalt.isNone then .error .typeError
      else return some (← oaepEncryptor E rsa (← p.params))

/-- crypto/RsaSha256.py:29-37 -/
def rsaSigner (E : CliEnv) (k : RsaKey) : Py Signer := if k.hasPrivate then .ok (.rsa k none E.now) else .error .runtimeError

/-- apps/cli_utils.py:145-149 `rsa_signer_from_cli_args` -/
def signerFromCli (E : CliEnv) (a : CliArgs) : Py (Option Signer) :=
  optM (fun f => do rsaSigner E (← E.load f a.keyPass)) a.keyFile

/-- apps/cli_utils.py:176-180: adding the key of a file under a name, if the file is given. -/
def addKeyFile (E : CliEnv) (name : String) (file pass : Option Text) (ks : Keystore) : Py Keystore :=
  match file with
  | none => .ok ks
  | some f => do return ks.addRsaKey E.prims (.text name) (← E.load f pass)

/-- apps/cli_utils.py:171-174: the new keystore with the AES key, if there is one. -/
def CliParams.keystore (p : CliParams) : Py Keystore :=
  match p.key with
  | none => .ok {}
  | some _ => do return ({} : Keystore).addAesKey (← p.params)

/-- apps/cli_utils.py:170-182 `create_keystore` -/
def createKeystore (E : CliEnv) (a : CliArgs) : Py Keystore := do
  let p ← aeadParametersFromCli E a
  let ks ← p.keystore
  let ks ← addKeyFile E "default" a.keyFile a.keyPass ks
  addKeyFile E "wrap" a.wrapKey a.wrapPass ks

/-! ## apps/manifest_writer.py -/

/-- flic/name_constructor/SchemaType.py:22-31 `parse` -/
def SchemaType.parseText (t : Text) : Py SchemaType :=
  let v := t.map Char.toLower
  if v = ['h', 'a', 's', 'h', 'e', 'd'] then .ok .hashed
  else if v = ['p', 'r', 'e', 'f', 'i', 'x'] then .ok .prefixed
  else if v = ['s', 'e', 'g', 'm', 'e', 'n', 't', 'e', 'd'] then .ok .segmented
  else .error .valueError

/-- flic/tlvs/Locators.py:36-45 and flic/tlvs/Locator.py:34-38 `from_uri` -/
def locatorsFromUri : Option Text → Py (Option (List Link))
  | none => .ok none
  | some u => do
    let n ← Name.fromUri (some u)
    let l ← construct locatorTlv { name := n }
    let ls ← construct locatorsTlv [l]
    return some ls

/-- The arguments of apps/manifest_writer.py:115-147 after parsing.  Simplified: `-s` and `-d` are natural numbers. -/
structure WriterArgs extends CliArgs where
  schema : Text := ['H', 'a', 's', 'h', 'e', 'd']
  name : Option Text
  manifestLocator : Option Text := none
  dataLocator : Option Text := none
  manifestPrefix : Option Text := none
  dataPrefix : Option Text := none
  treeDegree : Option Nat := none
  maxSize : Nat := 1500
  rootExpiry : Option Text := none
  nodeExpiry : Option Text := none
  dataExpiry : Option Text := none

/-- apps/manifest_writer.py:81-92 `_parse_time`; `iso` is `datetime.fromisoformat` followed by `round(dt.timestamp(), 3)`
(core/Timestamp.py:30-31). -/
def parseTime (iso : Text → Py F64) : Option Text → Py (Option F64) := optM (fun t => do construct (timestampTlv T_EXPIRY) (← iso t))

/-- apps/manifest_writer.py:48-69 `_create_tree_options` -/
def treeOptionsFromCli (E : CliEnv) (iso : Text → Py F64) (a : WriterArgs) : Py TreeOptions := do
  let name ← Name.fromUri a.name
  let schema ← SchemaType.parseText a.schema
  let signer ← signerFromCli E a.toCliArgs
  let mp ← Name.fromUri a.manifestPrefix
  let dp ← Name.fromUri a.dataPrefix
  let ml ← locatorsFromUri a.manifestLocator
  let dl ← locatorsFromUri a.dataLocator
  let rt ← parseTime iso a.rootExpiry
  let mt ← parseTime iso a.nodeExpiry
  let dt ← parseTime iso a.dataExpiry
  let enc ← encryptorFromCli E a.toCliArgs
  return { name := name, schemaType := schema, signer := signer, manifestPrefix := mp, dataPrefix := dp, manifestLocators := ml, dataLocators := dl,
           rootExpiry := rt, manifestExpiry := mt, dataExpiry := dt, encryptor := enc, addNodeSubtreeSize := true,
           maxTreeDegree := a.treeDegree, maxPacketSize := a.maxSize }

/-- apps/manifest_writer.py:152-154: the default key number; `hashOf` is Python's `hash` of the key bytes, which differs from process to
process and may be negative. -/
def defaultKeyNum (hashOf : Bytes → Int) (a : CliArgs) : CliArgs :=
  match a.encKey, a.keyNum with
  | some k, none => { a with keyNum := some (hashOf k) }
  | _, _ => a

/-- apps/manifest_writer.py:163-167 -/
def prefixCheck (a : WriterArgs) : Py Unit :=
  if a.schema = ['S', 'e', 'g', 'm', 'e', 'n', 't', 'e', 'd'] then
    if a.manifestPrefix.isNone || a.dataPrefix.isNone then .error .valueError else .ok ()
  else if a.manifestPrefix.isSome || a.dataPrefix.isSome then .error .valueError
  else .ok ()

/-- apps/manifest_writer.py:152-170: from the parsed arguments to the options.  The writer of packets is made in between (156-161): the
directory writer needs the signer too, which is loaded first. -/
def writerOptions (E : CliEnv) (iso : Text → Py F64) (hashOf : Bytes → Int) (a : WriterArgs) : Py TreeOptions := do
  let a := { a with toCliArgs := defaultKeyNum hashOf a.toCliArgs }
  let _ ← signerFromCli E a.toCliArgs
  prefixCheck a
  treeOptionsFromCli E iso a

/-! ## apps/manifest_reader.py -/

/-- apps/manifest_reader.py:72-73 and 99-107: the hash restriction is the text of the argument, for which `to_path` raises TypeError
(flic/tree/TreeIO.py:137-138).  The chunks that are written to the output are those in the state. -/
def manifestReaderRead (P : Prims) (now : F64) (R : NameComponent → Text) (d : Directory) (ks : Keystore) (depth : Nat) (uri : Text)
    (hash : Option Text) : PyS TState Unit := do
  let name ← PyS.lift (Name.fromUri (some uri))
  match hash with
  | some _ => PyS.lift (.error .typeError)
  | none => TravEnv.traverse ⟨P, d.reader now R, some ks⟩ depth name none

/-- `bytes.decode('utf-8', errors='ignore')`; the number of bytes is the fuel.  Python drops the longest start of a sequence that is
cut or wrong at once; what follows the first byte in it are continuation bytes, which are no first bytes of anything, so dropping
byte by byte comes to the same. -/
def utf8IgnoreLoop : Nat → Bytes → Text
  | 0, _ => []
  | _ + 1, [] => []
  | fuel + 1, x :: b =>
    match ByteArray.utf8DecodeChar? (x :: b).toByteArray 0 with
    | none => utf8IgnoreLoop fuel b
    | some c => c :: utf8IgnoreLoop fuel ((x :: b).drop c.utf8Size)

/-- apps/manifest_reader.py:52-55 `StdOutWrapper.write`, for the payload of a data object (not a `str`): the text that is passed on to
standard output. -/
def stdOutWrite (b : Bytes) : Text := utf8IgnoreLoop b.length b

/-- apps/manifest_reader.py:91-97 and 52-55: without an output file, the text on standard output after these writes. -/
def stdOut (writes : List Bytes) : Text := writes.flatMap stdOutWrite

end Ccnpy
