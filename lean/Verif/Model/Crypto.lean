import Verif.Model.Flic
import Verif.Model.Crc32c

/-!
# Keys, keystore, packet validation and manifest encryption

`ccnpy/crypto/{AeadKey,RsaKey,RsaSha256,InsecureKeystore,KDF}.py`, `ccnpy/core/PacketValidator.py`,
`ccnpy/flic/aeadctx/*.py`, `ccnpy/flic/RsaOaepCtx/*.py`, `ccnpy/flic/tree/DecryptorCache.py`.

The primitives of the `cryptography` and `hashlib` packages, which are not in /repo, are the fields of `Prims`; theorems
quantify over them and state what they assume of them.  Random numbers (nonces, OAEP seeds) are arguments.
-/

namespace Ccnpy

/-- The two subclasses of `AeadKey` (crypto/AeadKey.py:137-181). -/
inductive AeadAlg where
  | gcm
  | ccm
  deriving DecidableEq, Repr

/-- External primitives. -/
structure Prims where
  /-- `hashlib.sha256(...).digest()` -/
  sha256 : Bytes → Bytes
  /-- Python's `hash(str(wire_format))` for the wire format of a `HashValue` -/
  strHash : Bytes → Nat
  /-- `AESGCM(key).encrypt(iv, plaintext, aad)`, `AESCCM(key).encrypt(...)` -/
  aeadSeal : AeadAlg → (key iv plaintext aad : Bytes) → Py Bytes
  /-- `AESGCM(key).decrypt(iv, data, aad)`, `AESCCM(key).decrypt(...)`; failure is `InvalidTag` or another exception -/
  aeadOpen : AeadAlg → (key iv data aad : Bytes) → Py Bytes
  /-- RSA private key `sign` with PKCS1v15 of a SHA-256 digest; the key is named by its public DER encoding -/
  rsaSign : (der digest : Bytes) → Bytes
  /-- RSA public key `verify` (`False` for `InvalidSignature`) -/
  rsaVerify : (der digest signature : Bytes) → Bool
  /-- RSA-OAEP-SHA256 encryption with the given random seed -/
  oaepEncrypt : (der seed plaintext label : Bytes) → Bytes
  /-- RSA-OAEP-SHA256 decryption -/
  oaepDecrypt : (der ciphertext label : Bytes) → Py Bytes
  /-- `HKDF(algorithm, length, salt, info).derive(key)` for SHA-256, SHA-384 or SHA-512 (1, 2, 3) -/
  hkdf : (alg : Nat) → (key : Bytes) → (length : Nat) → (info : Bytes) → (salt : Option Nat) → Py Bytes

/-! ## Keys -/

/-- crypto/AeadKey.py:29-48 -/
structure AeadKey where
  alg : AeadAlg
  key : Bytes
  deriving DecidableEq, Repr

/-- crypto/AeadKey.py:36-48: `algo(key)` raises ValueError unless the key has 16, 24 or 32 bytes. -/
def AeadKey.create (alg : AeadAlg) (key : Bytes) : Py AeadKey :=
  if key.length = 16 ∨ key.length = 24 ∨ key.length = 32 then .ok ⟨alg, key⟩ else .error .valueError

/-- crypto/AeadKey.py:50-51 `__len__`: bits -/
def AeadKey.bits (k : AeadKey) : Nat := k.key.length * 8

/-- crypto/AeadKey.py:80-100: `(ciphertext, authtag)`, the tag being the last 16 bytes. -/
def AeadKey.encrypt (P : Prims) (k : AeadKey) (iv plaintext aad : Bytes) : Py (Bytes × Bytes) := do
  let output ← P.aeadSeal k.alg k.key iv plaintext aad
  let ciphertext := output.take (output.length - 16)
  return (ciphertext, output.drop ciphertext.length)

/-- crypto/AeadKey.py:102-133 -/
def AeadKey.decrypt (P : Prims) (k : AeadKey) (iv ciphertext aad authTag : Bytes) : Py Bytes :=
  match P.aeadOpen k.alg k.key iv (ciphertext ++ authTag) aad with
  | .ok p => .ok p
  | .error .invalidTag => .error .decryptionError
  | .error e => .error e

/-- crypto/RsaKey.py:40-81: the public key in DER form, whether the private key is present, and the size in bits.  The
public key is always present.  Loading and generating keys is not modelled. -/
structure RsaKey where
  der : Bytes
  hasPrivate : Bool
  bits : Nat
  deriving DecidableEq, Repr

/-- crypto/RsaKey.py:284-294 (a 32-byte digest always fits a TLV, so the constructor does not raise) -/
def RsaKey.keyid (P : Prims) (k : RsaKey) : HashValue := HashValue.sha256 (P.sha256 k.der)

/-- crypto/RsaKey.py:156-177: the hasher is fed the buffers one after the other. -/
def RsaKey.sign (P : Prims) (k : RsaKey) (buffers : List Bytes) : Py Bytes :=
  if k.hasPrivate then .ok (P.rsaSign k.der (P.sha256 buffers.flatten)) else .error .valueError

/-- crypto/RsaKey.py:179-205 -/
def RsaKey.verify (P : Prims) (k : RsaKey) (buffers : List Bytes) (signature : Bytes) : Bool :=
  P.rsaVerify k.der (P.sha256 buffers.flatten) signature

/-- crypto/RsaKey.py:207-232; `math.ceil(bits / 8) - 66` -/
def RsaKey.encryptOaep (P : Prims) (k : RsaKey) (seed plaintext label : Bytes) : Py Bytes :=
  if ((k.bits + 7) / 8 : Nat) - (66 : Int) < plaintext.length then .error .valueError
  else .ok (P.oaepEncrypt k.der seed plaintext label)

/-- crypto/RsaKey.py:234-253; `None.decrypt` raises AttributeError without a private key. -/
def RsaKey.decryptOaep (P : Prims) (k : RsaKey) (ciphertext label : Bytes) : Py Bytes :=
  if k.hasPrivate then P.oaepDecrypt k.der ciphertext label else .error .attributeError

/-- crypto/RsaSha256.py:29-42 `RsaSha256Signer(key).sign(*buffers)` -/
def rsaSign (P : Prims) (k : RsaKey) (buffers : List Bytes) : Py Bytes :=
  if k.hasPrivate then do construct valPayloadTlv (← k.sign P buffers) else .error .runtimeError

/-- crypto/RsaSha256.py:75-97 `RsaSha256Verifier(key).verify(...)` -/
def rsaVerify (P : Prims) (k : RsaKey) (buffers : List Bytes) (payload : Option Bytes) : Py Bool :=
  match payload with
  | none => .error .valueError
  | some sig => .ok (k.verify P buffers sig)

/-! ## AEAD parameters and the keystore -/

/-- flic/aeadctx/AeadParameters.py:22-38 after `__post_init__`; salts lie in `[0, 2^32)`. -/
structure AeadParams where
  key : Option AeadKey
  keyNumber : Nat
  aeadSalt : Option Nat := none
  kdfData : Option KdfData := none
  kdfSalt : Option Nat := none
  deriving DecidableEq, Repr

/-- `int.to_bytes(4, byteorder='big')` -/
def saltBytes (n : Nat) : Bytes :=
  [UInt8.ofNat (n / 2 ^ 24 % 256), UInt8.ofNat (n / 2 ^ 16 % 256), UInt8.ofNat (n / 2 ^ 8 % 256), UInt8.ofNat (n % 256)]

/-- `to_bytes` raises OverflowError for values that do not fit. -/
def saltCheck : Option Int → Py (Option Nat)
  | none => .ok none
  | some n => if 0 ≤ n ∧ n < 2 ^ 32 then .ok (some n.toNat) else .error .overflowError

/-- flic/aeadctx/AeadParameters.py:40-50 -/
def AeadParams.create (key : Option AeadKey) (keyNumber : Nat) (aeadSalt : Option Int) (kdfData : Option KdfData)
    (kdfSalt : Option Int) : Py AeadParams := do
  let _ ← intTlv T_KEYNUM keyNumber
  return ⟨key, keyNumber, ← saltCheck aeadSalt, kdfData, ← saltCheck kdfSalt⟩

/-- What may be passed as a name or key id to `get_rsa`: a string, or a `HashValue` (a `KeyId` is replaced by its digest,
crypto/InsecureKeystore.py:63-64). -/
inductive RsaName where
  | text (s : String)
  | hash (h : HashValue)
  deriving DecidableEq, Repr

/-- Dictionary key comparison of two `HashValue`s: `hash()` equal (core/HashValue.py:78-80) and then `==` (73-76), which
compares lengths and values but not algorithms. -/
def HashValue.dictEq (P : Prims) (a b : HashValue) : Bool :=
  P.strHash ((wireOf HashValue.tlv a).toOption.getD []) == P.strHash ((wireOf HashValue.tlv b).toOption.getD []) &&
    a.pyEq b

def RsaName.dictEq (P : Prims) : RsaName → RsaName → Bool
  | .text a, .text b => a == b
  | .hash a, .hash b => a.dictEq P b
  | _, _ => false

/-- crypto/InsecureKeystore.py:38-41.  A dictionary is an association list, the latest assignment first. -/
structure Keystore where
  byName : List (RsaName × RsaKey) := []
  byKeyid : List (HashValue × RsaKey) := []
  byKeynum : List (Nat × AeadParams) := []

/-- crypto/InsecureKeystore.py:43-48 -/
def Keystore.addRsaKey (P : Prims) (ks : Keystore) (name : RsaName) (key : RsaKey) : Keystore :=
  { ks with byName := (name, key) :: ks.byName, byKeyid := (key.keyid P, key) :: ks.byKeyid }

/-- crypto/InsecureKeystore.py:50-54 -/
def Keystore.addAesKey (ks : Keystore) (params : AeadParams) : Keystore :=
  { ks with byKeynum := (params.keyNumber, params) :: ks.byKeynum }

/-- crypto/InsecureKeystore.py:56-60 -/
def Keystore.getAesKey (ks : Keystore) (keyNum : Nat) : Py AeadParams :=
  match ks.byKeynum.find? (fun e => e.1 == keyNum) with
  | some e => .ok e.2
  | none => .error .keyNumberNotFound

/-- `name_or_keyid in self._asymmetric_by_keyid` and the lookup (65-66): a string never equals a `HashValue`. -/
def Keystore.findKeyid (P : Prims) (ks : Keystore) : RsaName → Option RsaKey
  | .text _ => none
  | .hash h => (ks.byKeyid.find? (fun e => h.dictEq P e.1)).map (·.2)

/-- crypto/InsecureKeystore.py:62-75 -/
def Keystore.getRsa (P : Prims) (ks : Keystore) (q : RsaName) : Py RsaKey :=
  match ks.findKeyid P q with
  | some k => .ok k
  | none =>
    match ks.byName.find? (fun e => q.dictEq P e.1) with
    | some e => .ok e.2
    | none => .error .keyIdNotFound

/-- crypto/InsecureKeystore.py:77-85 (every `RsaKey` has a public key) -/
def Keystore.getRsaPubKey (P : Prims) (ks : Keystore) (h : HashValue) : Py RsaKey :=
  match ks.findKeyid P (.hash h) with
  | some k => .ok k
  | none => .error .keyIdNotFound

/-! ## Packet validation -/

/-- core/PacketValidator.py:26-57; `ok ()` means that it returns, `printed` messages are dropped. -/
def validatePacket (P : Prims) (ks : Option Keystore) (p : Packet) : Py Unit :=
  match p.alg with
  | none => .ok ()
  | some .crc32c => do
    let b ← wireOf ContentObject.tlv p.body
    let a ← wireOf ValidationAlg.tlv .crc32c
    if ← crcVerify [b, a] p.payload then return () else .error .valueError
  | some (.rsaSha256 keyid link time) =>
    match ks with
    | none => .ok ()
    | some ks => do
      let key ← ks.getRsa P (.hash keyid)
      let b ← wireOf ContentObject.tlv p.body
      let a ← wireOf ValidationAlg.tlv (.rsaSha256 keyid link time)
      if ← rsaVerify P key [b, a] p.payload then return () else .error .valueError

/-- What `ManifestFactory.build_packet` (flic/ManifestFactory.py:98-111) and `TreeIO` (flic/tree/TreeIO.py:208-215) do to
sign with an RSA key: the algorithm from the signer, the signature over body and algorithm. -/
def rsaSignedPacket (P : Prims) (key : RsaKey) (keyLink : Option Link) (time : F64) (body : ContentObject) :
    Py Packet := do
  let alg ← construct ValidationAlg.tlv (.rsaSha256 (key.keyid P) keyLink time)
  let b ← wireOf ContentObject.tlv body
  let a ← wireOf ValidationAlg.tlv alg
  let v ← rsaSign P key [b, a]
  Packet.createSigned body alg v

/-- The same with a `Crc32cSigner`. -/
def crcSignedPacket (body : ContentObject) : Py Packet := do
  let alg ← construct ValidationAlg.tlv .crc32c
  let b ← wireOf ContentObject.tlv body
  let a ← wireOf ValidationAlg.tlv alg
  let v ← crcSign [b, a]
  Packet.createSigned body alg v

/-! ## AEAD manifest encryption -/

/-- flic/tlvs/AeadMode.py:27-30 -/
def AEAD_AES_128_GCM : Nat := 1
def AEAD_AES_256_GCM : Nat := 2
def AEAD_AES_128_CCM : Nat := 3
def AEAD_AES_256_CCM : Nat := 4

/-- flic/tlvs/AeadMode.py:64-74 and flic/aeadctx/AeadImpl.py:86-107 -/
def AeadKey.mode (k : AeadKey) : Py Nat :=
  match k.alg with
  | .gcm => if k.bits = 128 then .ok AEAD_AES_128_GCM else if k.bits = 256 then .ok AEAD_AES_256_GCM else .error .valueError
  | .ccm => if k.bits = 128 then .ok AEAD_AES_128_CCM else if k.bits = 256 then .ok AEAD_AES_256_CCM else .error .valueError

/-- flic/aeadctx/AeadImpl.py:190-195, flic/RsaOaepCtx/RsaOaepImpl.py:173-179: is the mode one of the key's family? -/
def AeadAlg.hasMode : AeadAlg → Nat → Bool
  | .gcm, m => m == AEAD_AES_128_GCM || m == AEAD_AES_256_GCM
  | .ccm, m => m == AEAD_AES_128_CCM || m == AEAD_AES_256_CCM

/-- flic/aeadctx/AeadImpl.py:81-84 -/
def AeadParams.iv (p : AeadParams) (nonce : Bytes) : Bytes :=
  match p.aeadSalt with
  | none => nonce
  | some s => saltBytes s ++ nonce

/-- flic/aeadctx/AeadImpl.py:74-79: the number of random bytes drawn for a nonce -/
def AeadParams.nonceLength (p : AeadParams) : Nat :=
  match p.aeadSalt with
  | none => 96 / 8
  | some s => (96 - (saltBytes s).length * 8) / 8

/-- flic/aeadctx/AeadImpl.py:102-113; `AeadData.__init__` encodes its members. -/
def AeadParams.aeadData (p : AeadParams) (nonce : Bytes) : Py AeadData :=
  match p.key with
  | none => .error .valueError
  | some k => do
    let mode ← k.mode
    let d : AeadData := ⟨p.keyNumber, nonce, some mode, p.kdfData⟩
    let _ ← concatTlvs (← d.members)
    return d

/-- The result of `encrypt`: `(security_ctx, encrypted_node, auth_tag)`. -/
structure Sealed where
  ctx : SecurityCtx
  ciphertext : Bytes
  authTag : Bytes
  deriving DecidableEq, Repr

/-- flic/aeadctx/AeadImpl.py:131-150 -/
def AeadParams.encryptWithCtx (P : Prims) (p : AeadParams) (node : Node) (ctx : SecurityCtx) : Py Sealed :=
  match p.key with
  | none => .error .attributeError
  | some k => do
    let plaintext ← node.serializedValue
    let aad ← wireOf SecurityCtx.tlv ctx
    let (c, a) ← k.encrypt P (p.iv ctx.aeadData.nonce) plaintext aad
    return ⟨ctx, ← construct (octetTlv T_ENCRYPTED_NODE) c, ← construct (octetTlv T_AUTH_TAG) a⟩

/-- flic/aeadctx/AeadImpl.py:118-129 with the drawn nonce as argument -/
def aeadEncrypt (P : Prims) (p : AeadParams) (nonce : Bytes) (node : Node) : Py Sealed := do
  let ctx ← construct SecurityCtx.tlv (.aead (← p.aeadData nonce))
  p.encryptWithCtx P node ctx

/-- flic/RsaOaepCtx/RsaOaepImpl.py:117-131 -/
def oaepEncrypt (P : Prims) (p : AeadParams) (wrapper : Option RsaOaepWrapper) (includeWrapper : Bool) (nonce : Bytes)
    (node : Node) : Py Sealed := do
  let d ← p.aeadData nonce
  let ctx ← construct SecurityCtx.tlv (.rsaOaep d (if includeWrapper then wrapper else none))
  p.encryptWithCtx P node ctx

/-- flic/aeadctx/AeadImpl.py:153-162, flic/RsaOaepCtx/RsaOaepImpl.py:133-143: the manifest of an encryption result; its
constructor encodes it. -/
def Sealed.manifest (s : Sealed) : Py Manifest := do
  let m : Manifest := ⟨some s.ctx, .encrypted s.ciphertext, some s.authTag⟩
  let _ ← m.serialize
  return m

/-- flic/aeadctx/AeadImpl.py:164-204 (and, identically, flic/RsaOaepCtx/RsaOaepImpl.py:145-188).  `mode()` being `None`
raises AttributeError. -/
def AeadParams.decryptNode (P : Prims) (p : AeadParams) (ctx : SecurityCtx) (ciphertext authTag : Bytes) : Py Node :=
  if ctx.aeadData.keyNumber ≠ p.keyNumber then .error .valueError
  else match p.key with
    | none => .error .attributeError
    | some k =>
      match ctx.aeadData.mode with
      | none => .error .attributeError
      | some mode =>
        if k.alg.hasMode mode then do
          let aad ← wireOf SecurityCtx.tlv ctx
          let plaintext ← k.decrypt P (p.iv ctx.aeadData.nonce) ciphertext aad authTag
          Node.parse (← mkTlv T_NODE plaintext)
        else .error .decryptionError

/-- flic/aeadctx/AeadImpl.py:206-240 -/
def aeadDecryptManifest (P : Prims) (p : AeadParams) (m : Manifest) : Py Manifest :=
  match m.node with
  | .plain _ => .error .typeError
  | .encrypted c =>
    match m.securityCtx with
    | none => .error .valueError
    | some (.rsaOaep _ _) => .error .typeError
    | some (.aead d) =>
      match m.authTag with
      | none => .error .valueError
      | some tag => do
        let node ← p.decryptNode P (.aead d) c tag
        return { node := .plain node }

/-- flic/RsaOaepCtx/RsaOaepImpl.py:190-226 -/
def oaepDecryptManifest (P : Prims) (p : AeadParams) (m : Manifest) : Py Manifest :=
  match m.node with
  | .plain _ => .error .typeError
  | .encrypted c =>
    match m.securityCtx with
    | none => .error .valueError
    | some (.aead _) => .error .typeError
    | some (.rsaOaep d w) =>
      match m.authTag with
      | none => .error .valueError
      | some tag => do
        let node ← p.decryptNode P (.rsaOaep d w) c tag
        return { node := .plain node }

/-! ## Key derivation -/

/-- `kdf_id == HpkeKdfIdentifiers.HKDF_SHA256` (crypto/KDF.py:39-46).  `KdfAlg.value()` is always an `int`
(flic/tlvs/KdfAlg.py:35-38), `HpkeKdfIdentifiers` is a plain `Enum` (crypto/HpkeKdfIdentifiers.py:17): an `int` is never
equal to a member. -/
def kdfMemberEq (_kdfId _member : Nat) : Bool := false

/-- crypto/KDF.py:24-52 for an integer `kdf_id` -/
def kdfDerive (P : Prims) (kdfId : Nat) (key : Bytes) (length : Nat) (info : Bytes) (salt : Option Nat) : Py Bytes :=
  if kdfMemberEq kdfId 1 then P.hkdf 1 key length info salt
  else if kdfMemberEq kdfId 2 then P.hkdf 2 key length info salt
  else if kdfMemberEq kdfId 3 then P.hkdf 3 key length info salt
  else .error .valueError

/-- flic/aeadctx/AeadImpl.py:49-69 `_derive_key`, which nothing calls. -/
def AeadParams.deriveKey (P : Prims) (p : AeadParams) (k : AeadKey) : Py AeadKey :=
  match p.kdfData with
  | none => .ok k
  | some d =>
    match d.kdfInfo with
    | none => .error .assertionError
    | some info => do
      let mode ← k.mode
      let a ← wireOf (intTlv T_KEYNUM) p.keyNumber
      let b ← wireOf (intTlv T_AEADMode) mode
      let c ← wireOf (octetTlv T_KDF_INFO) info
      let fixed := [70, 76, 73, 67] ++ a ++ b ++ c
      let derived ← kdfDerive P d.kdfAlg k.key ((k.bits + 7) / 8) fixed p.kdfSalt
      AeadKey.create k.alg derived

/-! ## RSA-OAEP key wrapping -/

/-- `b'FLIC RSA-OAEP'` (flic/RsaOaepCtx/WrappedKey.py:45) -/
def oaepPrefix : Bytes := [70, 76, 73, 67, 32, 82, 83, 65, 45, 79, 65, 69, 80]

/-- flic/RsaOaepCtx/WrappedKey.py:40-43: `kdf_info()` being `None` raises AttributeError. -/
def kdfLabel : Option KdfData → Py Bytes
  | none => .ok []
  | some d =>
    match d.kdfInfo with
    | none => .error .attributeError
    | some info => wireOf (octetTlv T_KDF_INFO) info

/-- flic/RsaOaepCtx/WrappedKey.py:36-51; the hash algorithm is SHA-256 in both uses (76, 104); `mode` `None` raises
AttributeError. -/
def oaepLabel (P : Prims) (rsa : RsaKey) (keyNumber : Nat) (mode : Option Nat) (kdf : Option KdfData) : Py Bytes := do
  let k ← kdfLabel kdf
  let a ← wireOf (intTlv T_KEYNUM) keyNumber
  match mode with
  | none => .error .attributeError
  | some m =>
    let b ← wireOf (intTlv T_AEADMode) m
    let i ← wireOf (hashTlv T_KEYID) (rsa.keyid P)
    let h ← wireOf (intTlv T_HASH_ALG) T_SHA_256
    return oaepPrefix ++ a ++ b ++ k ++ i ++ h

/-- flic/RsaOaepCtx/WrappedKey.py:53-78; a missing salt makes `None >> 24` raise TypeError, a missing key AttributeError. -/
def wrapKey (P : Prims) (rsa : RsaKey) (seed : Bytes) (p : AeadParams) : Py Bytes :=
  match p.aeadSalt with
  | none => .error .typeError
  | some salt =>
    if 0xFFFFFFFF < salt then .error .valueError
    else do
      let s ← uint32ToArray salt
      match p.key with
      | none => .error .attributeError
      | some k =>
        let mode ← k.mode
        let label ← oaepLabel P rsa p.keyNumber (some mode) p.kdfData
        let c ← rsa.encryptOaep P seed (s ++ k.key) label
        construct (octetTlv T_WRAPPED_KEY) c

/-- flic/RsaOaepCtx/WrappedKey.py:95-113: `(salt, key)` -/
def unwrapKey (P : Prims) (rsa : RsaKey) (wrapped : Bytes) (d : AeadData) : Py (Nat × Bytes) := do
  let label ← oaepLabel P rsa d.keyNumber d.mode d.kdfData
  let plaintext ← rsa.decryptOaep P wrapped label
  if plaintext.length < 20 then .error .valueError
  else return (arrayToNumber (plaintext.take 4), plaintext.drop 4)

/-- flic/RsaOaepCtx/RsaOaepEncryptor.py:56-58: the wrapper that the encryptor may put in the context. -/
def oaepWrapper (P : Prims) (rsa : RsaKey) (seed : Bytes) (p : AeadParams) : Py RsaOaepWrapper := do
  let c ← wrapKey P rsa seed p
  let w : RsaOaepWrapper := ⟨rsa.keyid P, none, some T_SHA_256, some c⟩
  let _ ← concatTlvs (← w.members)
  return w

/-- flic/RsaOaepCtx/RsaOaepImpl.py:68-75 -/
def oaepAeadKey (mode : Option Nat) (key : Bytes) : Py AeadKey :=
  match mode with
  | none => .error .attributeError
  | some m =>
    if m = AEAD_AES_128_GCM ∨ m = AEAD_AES_256_GCM then AeadKey.create .gcm key
    else if m = AEAD_AES_128_CCM ∨ m = AEAD_AES_256_CCM then AeadKey.create .ccm key
    else .error .valueError

/-- flic/RsaOaepCtx/RsaOaepImpl.py:77-106; `wrapped_key()` being `None` raises AttributeError.  Returns the parameters and
the keystore with them added. -/
def oaepCreateByWrappedKey (P : Prims) (ks : Keystore) (d : AeadData) (w : Option RsaOaepWrapper) :
    Py (AeadParams × Keystore) :=
  match w with
  | none => .error .valueError
  | some w => do
    let rsa ← ks.getRsa P (.hash w.keyId)
    if !rsa.hasPrivate then .error .valueError
    else match w.wrappedKey with
      | none => .error .attributeError
      | some c => do
        let (salt, key) ← unwrapKey P rsa c d
        let k ← oaepAeadKey d.mode key
        let params ← AeadParams.create (some k) d.keyNumber (some (salt : Int)) d.kdfData none
        return (params, ks.addAesKey params)

/-- flic/RsaOaepCtx/RsaOaepImpl.py:41-61 and 63-66 -/
def oaepCreate (P : Prims) (ks : Keystore) (d : AeadData) (w : Option RsaOaepWrapper) : Py (AeadParams × Keystore) :=
  match ks.getAesKey d.keyNumber with
  | .ok p => .ok (p, ks)
  | .error _ => oaepCreateByWrappedKey P ks d w

/-! ## Decryptors -/

/-- flic/RsaOaepCtx/RsaOaepDecryptor.py:28-40: the cache, keyed by key id (or `None`) and key number, and the shared
keystore. -/
structure OaepDecryptor where
  keystore : Keystore
  cache : List ((Option HashValue × Nat) × AeadParams) := []

/-- flic/RsaOaepCtx/RsaOaepDecryptor.py:42-51.  Key ids compare by their encoding (core/HashTlvType.py), that is by
algorithm and digest, key numbers by value. -/
def OaepDecryptor.getImpl (P : Prims) (s : OaepDecryptor) (d : AeadData) (w : Option RsaOaepWrapper) :
    Py (AeadParams × OaepDecryptor) :=
  let id := (w.map (·.keyId), d.keyNumber)
  match s.cache.find? (fun e => e.1 == id) with
  | some e => .ok (e.2, s)
  | none => do
    let (p, ks) ← oaepCreate P s.keystore d w
    return (p, { keystore := ks, cache := (id, p) :: s.cache })

/-- flic/RsaOaepCtx/RsaOaepDecryptor.py:53-55.  A manifest without an RSA-OAEP context has no `key_id()`
(AttributeError).  The state changes even when the decryption then fails. -/
def OaepDecryptor.decryptManifest (P : Prims) (s : OaepDecryptor) (m : Manifest) : Py Manifest × OaepDecryptor :=
  match m.securityCtx with
  | some (.rsaOaep d w) =>
    match s.getImpl P d w with
    | .error e => (.error e, s)
    | .ok (p, s') => (oaepDecryptManifest P p m, s')
  | _ => (.error .attributeError, s)

/-- The two kinds of decryptor that `DecryptorCache._create` returns. -/
inductive Decryptor where
  | aead (params : AeadParams)
  | oaep
  deriving DecidableEq, Repr

/-- flic/tree/DecryptorCache.py:32-36 -/
structure DecryptorCache where
  lastKeyNum : Option Nat := none
  lastDecryptor : Option Decryptor := none
  oaep : OaepDecryptor

/-- flic/tree/DecryptorCache.py:47-54 -/
def DecryptorCache.create (c : DecryptorCache) : SecurityCtx → Py Decryptor
  | .aead d => do return .aead (← c.oaep.keystore.getAesKey d.keyNumber)
  | .rsaOaep _ _ => .ok .oaep

/-- flic/tree/DecryptorCache.py:38-45: the key number is remembered before `_create` runs, which may raise. -/
def DecryptorCache.getOrCreate (c : DecryptorCache) (ctx : SecurityCtx) : Py (Option Decryptor) × DecryptorCache :=
  if c.lastKeyNum = some ctx.aeadData.keyNumber then (.ok c.lastDecryptor, c)
  else
    let c := { c with lastKeyNum := some ctx.aeadData.keyNumber }
    match c.create ctx with
    | .error e => (.error e, c)
    | .ok d => (.ok (some d), { c with lastDecryptor := some d })

/-- flic/aeadctx/AeadDecryptor.py:25-26, flic/RsaOaepCtx/RsaOaepDecryptor.py:53-55: `decryptor.decrypt_manifest(m)` on a
decryptor obtained from the cache; `None.decrypt_manifest` raises AttributeError. -/
def DecryptorCache.decrypt (P : Prims) (c : DecryptorCache) (d : Option Decryptor) (m : Manifest) :
    Py Manifest × DecryptorCache :=
  match d with
  | none => (.error .attributeError, c)
  | some (.aead p) => (aeadDecryptManifest P p m, c)
  | some .oaep =>
    let (r, o) := c.oaep.decryptManifest P m
    (r, { c with oaep := o })

/-- flic/tree/Traversal.py:180-192 `_decrypt` -/
def DecryptorCache.open (P : Prims) (c : DecryptorCache) (m : Manifest) : Py Manifest × DecryptorCache :=
  if m.isEncrypted then
    match m.securityCtx with
    | none => (.error .valueError, c)
    | some ctx =>
      match c.getOrCreate ctx with
      | (.error e, c) => (.error e, c)
      | (.ok d, c) => c.decrypt P d m
  else (.ok m, c)

end Ccnpy
