import Verif.Model.Programs

/-!
# Functions that no other code in `ccnpy/` calls

They are part of the interface of the library.  What they return is proved in `Props/UnusedProps.lean`.
-/

namespace Ccnpy

/-! ## Interests -/

/-- core/Interest.py:25-38.  The two restrictions are given as the TLVs that they serialize to. -/
structure Interest where
  name : Option Name := none
  keyIdRestr : Option Tlv := none
  hashRestr : Option Tlv := none
  deriving DecidableEq, Repr

/-- core/Interest.py:38: the TLV is built, though core/Interest.py:50-51 `serialize` returns `None`. -/
def Interest.tlv (i : Interest) : Py Tlv := do
  let n ← optTlv Name.tlv i.name
  container T_INTEREST (n ++ i.keyIdRestr.toList ++ i.hashRestr.toList)

/-- core/FixedHeader.py:110-112: `array.array("B", [hop_limit, 0, 0])` -/
def hopField (hopLimit : Int) : Py UInt8 := byte hopLimit

/-- core/Packet.py:33-37 `create_interest` -/
def Packet.createInterest (body : Interest) (hopLimit : Int) : Py Packet := do
  let n := (← body.tlv).len
  Packet.interestPacket n (← hopField hopLimit)

/-- core/Packet.py:45-50 `create_signed_interest` -/
def Packet.createSignedInterest (body : Interest) (hopLimit : Int) (alg : ValidationAlg) (payload : Bytes) : Py Packet := do
  let n := (← body.tlv).len
  let m := (← alg.tlv).len
  let k := (← valPayloadTlv payload).len
  Packet.interestPacket (n + m + k) (← hopField hopLimit)

/-- flic/tlvs/Node.py:148-160 `node_locator`: `Locators` has no method `final`. -/
def Node.nodeLocator (n : Node) : Py (Option Link × Option Bool) :=
  match n.nodeData with
  | none => .ok (none, none)
  | some d =>
    match d.locators with
    | none => .ok (none, none)
    | some _ => .error .attributeError

/-- flic/tlvs/Manifest.py:151-166 `interest_list`: neither `Node` nor `EncryptedNode` has a method `locator`; after it `hash_values` is
called, and then RuntimeError is raised. -/
def Manifest.interestList (m : Manifest) (final : Bool) : Py (List Interest) := do
  if !final then .error .attributeError
  let _ ← m.hashValues
  .error .runtimeError

/-! ## Padding -/

/-- core/Pad.py:30-36 on the value that core/TlvType.py:203-207 hands over: `array >= 0` raises TypeError. -/
def padOfArray (_value : Bytes) : Py Bytes := .error .typeError

/-- core/Pad.py:42-47 `parse`, with core/TlvType.py:202-207 -/
def padParse (t : Tlv) : Py Bytes :=
  if t.type ≠ T_PAD then .error .cannotParseError
  else do
    let v ← padOfArray t.value
    if v.all (· == 0) then return v else .error .valueError

/-! ## Keys -/

/-- flic/tlvs/AeadMode.py:81-91: the four questions `is_aes_…` -/
def isMode (mode m : Nat) : Bool := mode == m

/-- flic/tlvs/AeadMode.py:93-98 `key_bits` -/
def aeadKeyBits (mode : Nat) : Py Nat :=
  if isMode mode AEAD_AES_128_GCM || isMode mode AEAD_AES_128_CCM then .ok 128
  else if isMode mode AEAD_AES_256_GCM || isMode mode AEAD_AES_256_CCM then .ok 256
  else .error .valueError

/-- flic/RsaOaepCtx/RsaOaepDecryptor.py:57-59 `decrypt_node`: the context is called like a function before anything else happens. -/
def OaepDecryptor.decryptNode (s : OaepDecryptor) (_ctx : AeadData × Option RsaOaepWrapper) (_node _tag : Bytes) :
    Py Node × OaepDecryptor := (.error .typeError, s)

/-- flic/tlvs/KdfData.py:37-41 `copy_with_name` -/
def KdfData.copyWithName (d : KdfData) (name : Name) : Py KdfData := do
  let info ← construct (octetTlv T_KDF_INFO) (← wireOf Name.tlv name)
  construct KdfData.tlv ⟨d.kdfAlg, some info⟩

/-- apps/cli_utils.py:151-155 `rsa_verifier_from_cli_args` with crypto/RsaSha256.py:76-81; a loaded key always has its public half. -/
def verifierFromCli (E : CliEnv) (a : CliArgs) : Py (Option RsaKey) := optM (fun f => E.load f a.keyPass) a.keyFile

end Ccnpy
