import Verif.Lemmas.Keys
import Verif.Model.Crypto
import Verif.Props.PacketProps
import Verif.Props.CrcProps

/-!
# Properties C24-C25: packet validation and keystore histories
-/

namespace Ccnpy

/-! ## C25 -/

/-- One call on a keystore. -/
inductive KsOp where
  | addAes (params : AeadParams)
  | addRsa (name : RsaName) (key : RsaKey)
  deriving DecidableEq, Repr

def KsOp.apply (P : Prims) (ks : Keystore) : KsOp → Keystore
  | .addAes p => ks.addAesKey p
  | .addRsa n k => ks.addRsaKey P n k

/-- The keystore after a history of calls on a new one. -/
def Keystore.after (P : Prims) (ops : List KsOp) : Keystore := ops.foldl (KsOp.apply P) {}

/-- Specification: the parameters added under a key number, oldest first. -/
def aesAdded (keyNum : Nat) (ops : List KsOp) : List AeadParams :=
  ops.filterMap fun
    | .addAes p => if p.keyNumber = keyNum then some p else none
    | .addRsa _ _ => none

/-- Specification: the RSA keys added whose SHA-256 key id is `digest`, oldest first. -/
def rsaAddedById (P : Prims) (digest : Bytes) (ops : List KsOp) : List RsaKey :=
  ops.filterMap fun
    | .addAes _ => none
    | .addRsa _ k => if P.sha256 k.der = digest then some k else none

/-- Specification: the RSA keys added under a name, oldest first. -/
def rsaAddedByName (name : RsaName) (ops : List KsOp) : List RsaKey :=
  ops.filterMap fun
    | .addAes _ => none
    | .addRsa n k => if n = name then some k else none

theorem after_append (P : Prims) (ops : List KsOp) (op : KsOp) :
    Keystore.after P (ops ++ [op]) = op.apply P (Keystore.after P ops) := by
  simp [Keystore.after]

theorem getLast?_filterMap_append {α β : Type} (f : α → Option β) (l : List α) (a : α) :
    ((l ++ [a]).filterMap f).getLast? = (f a).or (l.filterMap f).getLast? := by
  rw [List.filterMap_append, List.getLast?_append]
  cases h : f a <;> simp [h]

/-- C25: `get_aes_key` returns the parameters most recently added under the key number. -/
theorem C25_get_aes_key (P : Prims) (ops : List KsOp) (n : Nat) :
    (Keystore.after P ops).getAesKey n = match (aesAdded n ops).getLast? with
      | some p => .ok p
      | none => .error .keyNumberNotFound := by
  have : ((Keystore.after P ops).byKeynum.find? (fun e => e.1 == n)).map (·.2) = (aesAdded n ops).getLast? := by
    refine reverse_induction (motive := fun ops =>
      ((Keystore.after P ops).byKeynum.find? (fun e => e.1 == n)).map (·.2) = (aesAdded n ops).getLast?) rfl ?_ ops
    intro l a ih
    rw [after_append, aesAdded, getLast?_filterMap_append]
    cases a with
    | addAes p =>
      dsimp only
      by_cases hp : p.keyNumber = n
      · simp [KsOp.apply, Keystore.addAesKey, hp]
      · rw [if_neg hp, Option.none_or]
        have : (p.keyNumber == n) = false := by simpa using hp
        simp only [KsOp.apply, Keystore.addAesKey, List.find?_cons, this]
        exact ih
    | addRsa m k => exact ih
  rw [← this, Keystore.getAesKey]
  cases (Keystore.after P ops).byKeynum.find? (fun e => e.1 == n) <;> rfl

theorem findKeyid_after (P : Prims) (ops : List KsOp) (digest : Bytes) :
    (Keystore.after P ops).findKeyid P (.hash (HashValue.sha256 digest)) = (rsaAddedById P digest ops).getLast? := by
  refine reverse_induction (motive := fun ops =>
    (Keystore.after P ops).findKeyid P (.hash (HashValue.sha256 digest)) = (rsaAddedById P digest ops).getLast?)
    rfl ?_ ops
  intro l a ih
  rw [after_append, rsaAddedById, getLast?_filterMap_append]
  cases a with
  | addAes p => exact ih
  | addRsa m k =>
    have hk := HashValue.dictEq_same_alg P (HashValue.sha256 digest) (k.keyid P) rfl
    dsimp only
    by_cases hd : P.sha256 k.der = digest
    · rw [if_pos hd]
      have : (HashValue.sha256 digest).dictEq P (k.keyid P) = true := hk.mpr (by rw [RsaKey.keyid, hd])
      simp [KsOp.apply, Keystore.addRsaKey, Keystore.findKeyid, this]
    · rw [if_neg hd, Option.none_or]
      have : (HashValue.sha256 digest).dictEq P (k.keyid P) = false := by
        rw [← Bool.not_eq_true, hk]
        intro h
        exact hd (congrArg HashValue.value h).symm
      simp only [KsOp.apply, Keystore.addRsaKey, Keystore.findKeyid, List.find?_cons, this] at ih ⊢
      exact ih

/-- The names under which keys were added that compare as dictionary keys with `q` just when equal. -/
def PlainNames (P : Prims) (q : RsaName) (ops : List KsOp) : Prop :=
  ∀ n k, KsOp.addRsa n k ∈ ops → (q.dictEq P n = true ↔ n = q)

/-- Names that are strings are plain for every query, and so are SHA-256 hash values. -/
theorem plainNames_of {P : Prims} {q : RsaName} {ops : List KsOp}
    (hq : ∀ h, q = .hash h → h.alg = T_SHA_256)
    (h : ∀ n k, KsOp.addRsa n k ∈ ops → ∀ v, n = .hash v → v.alg = T_SHA_256) : PlainNames P q ops := by
  intro n k hm
  have h1 := h n k hm
  cases q with
  | text s =>
    cases n with
    | text t => rw [RsaName.dictEq, beq_iff_eq, RsaName.text.injEq]; exact eq_comm
    | hash v => simp [RsaName.dictEq]
  | hash u =>
    cases n with
    | text t => simp [RsaName.dictEq]
    | hash v =>
      have := HashValue.dictEq_same_alg P u v ((hq u rfl).trans (h1 v rfl).symm)
      rw [RsaName.dictEq, this, RsaName.hash.injEq]
      exact eq_comm

theorem byName_after (P : Prims) (q : RsaName) (ops : List KsOp) (hp : PlainNames P q ops) :
    ((Keystore.after P ops).byName.find? (fun e => q.dictEq P e.1)).map (·.2) = (rsaAddedByName q ops).getLast? := by
  revert hp
  refine reverse_induction (motive := fun ops => PlainNames P q ops →
    ((Keystore.after P ops).byName.find? (fun e => q.dictEq P e.1)).map (·.2) = (rsaAddedByName q ops).getLast?)
    (fun _ => rfl) ?_ ops
  intro l a ih hp
  have ih := ih (fun n k hm => hp n k (List.mem_append_left _ hm))
  rw [after_append, rsaAddedByName, getLast?_filterMap_append]
  cases a with
  | addAes p => exact ih
  | addRsa m k =>
    have h1 := hp m k (by simp)
    dsimp only
    by_cases hd : m = q
    · rw [if_pos hd]
      simp [KsOp.apply, Keystore.addRsaKey, h1.mpr hd]
    · rw [if_neg hd, Option.none_or]
      have : q.dictEq P m = false := by rw [← Bool.not_eq_true, h1]; exact hd
      simp only [KsOp.apply, Keystore.addRsaKey, List.find?_cons, this]
      exact ih

/-- C25: `get_rsa` with a SHA-256 key id returns the key most recently added with that id, else the key most recently
added under that hash as a name, else raises. -/
theorem C25_get_rsa_keyid (P : Prims) (ops : List KsOp) (digest : Bytes)
    (hp : PlainNames P (.hash (HashValue.sha256 digest)) ops) :
    (Keystore.after P ops).getRsa P (.hash (HashValue.sha256 digest)) = match (rsaAddedById P digest ops).getLast? with
      | some k => .ok k
      | none => match (rsaAddedByName (.hash (HashValue.sha256 digest)) ops).getLast? with
        | some k => .ok k
        | none => .error .keyIdNotFound := by
  rw [Keystore.getRsa, findKeyid_after, ← byName_after P _ ops hp]
  cases (rsaAddedById P digest ops).getLast? with
  | some k => rfl
  | none => cases List.find? _ (Keystore.after P ops).byName <;> rfl

/-- C25: `get_rsa` with a string returns the key most recently added under that name, else raises. -/
theorem C25_get_rsa_name (P : Prims) (ops : List KsOp) (name : String) :
    (Keystore.after P ops).getRsa P (.text name) = match (rsaAddedByName (.text name) ops).getLast? with
      | some k => .ok k
      | none => .error .keyIdNotFound := by
  have hp : PlainNames P (.text name) ops := by
    intro n k _
    cases n with
    | text t => rw [RsaName.dictEq, beq_iff_eq, RsaName.text.injEq]; exact eq_comm
    | hash v => simp [RsaName.dictEq]
  rw [Keystore.getRsa, ← byName_after P _ ops hp, Keystore.findKeyid]
  cases List.find? _ (Keystore.after P ops).byName <;> rfl

/-- C25: `get_rsa_pub_key` finds keys by id only. -/
theorem C25_get_rsa_pub_key (P : Prims) (ops : List KsOp) (digest : Bytes) :
    (Keystore.after P ops).getRsaPubKey P (HashValue.sha256 digest) = match (rsaAddedById P digest ops).getLast? with
      | some k => .ok k
      | none => .error .keyIdNotFound := by
  rw [Keystore.getRsaPubKey, findKeyid_after]
  cases (rsaAddedById P digest ops).getLast? <;> rfl

/-- Toy primitives: everything is transparent.  Used only to exhibit concrete cases. -/
def toyPrims : Prims where
  sha256 b := b
  strHash b := b.length
  aeadSeal _ _ iv p aad := .ok (p ++ (iv ++ aad ++ List.replicate 16 0).take 16)
  aeadOpen _ _ iv c aad :=
    if c.drop (c.length - 16) = (iv ++ aad ++ List.replicate 16 0).take 16 then .ok (c.take (c.length - 16))
    else .error .invalidTag
  rsaSign _ d := d
  rsaVerify _ d s := d == s
  oaepEncrypt _ _ p l := UInt8.ofNat l.length :: (l ++ p)
  oaepDecrypt _ c l := if c.take (l.length + 1) = UInt8.ofNat l.length :: l then .ok (c.drop (l.length + 1))
    else .error .valueError
  hkdf _ k _ _ _ := .ok k

/-- A history in which a name is reused with another key, one key is added twice and a key number is overwritten. -/
def exampleOps : List KsOp :=
  [.addRsa (.text "a") ⟨[1], true, 2048⟩, .addAes { key := none, keyNumber := 7, aeadSalt := some 1 },
   .addRsa (.text "a") ⟨[2], false, 2048⟩, .addAes { key := none, keyNumber := 7, aeadSalt := some 2 },
   .addRsa (.text "b") ⟨[1], false, 2048⟩]

example : (aesAdded 7 exampleOps).length = 2 ∧ (rsaAddedById toyPrims [1] exampleOps).length = 2 ∧
    (rsaAddedByName (.text "a") exampleOps).length = 2 := by decide
example : (Keystore.after toyPrims exampleOps).getAesKey 7 = .ok { key := none, keyNumber := 7, aeadSalt := some 2 } ∧
    (Keystore.after toyPrims exampleOps).getRsa toyPrims (.text "a") = .ok ⟨[2], false, 2048⟩ ∧
    (Keystore.after toyPrims exampleOps).getRsa toyPrims (.hash (.sha256 [1])) = .ok ⟨[1], false, 2048⟩ ∧
    (Keystore.after toyPrims exampleOps).getAesKey 8 = .error .keyNumberNotFound := by
  refine ⟨?_, ?_, ?_, ?_⟩
  · rw [C25_get_aes_key]; rfl
  · rw [C25_get_rsa_name]; rfl
  · rw [C25_get_rsa_keyid _ _ _ (plainNames_of (fun h e => by cases e; rfl) ?_)]
    · rfl
    · intro n k hm v hv
      subst hv
      simp [exampleOps] at hm
  · rw [C25_get_aes_key]; rfl

/-! ## C24 -/

/-- C24: unsigned packets are accepted, whatever the keystore. -/
theorem C24_unsigned (P : Prims) (ks : Option Keystore) (p : Packet) (h : p.alg = none) :
    validatePacket P ks p = .ok () := by rw [validatePacket, h]

/-- C24: a CRC-32C packet is accepted just when its payload is the 4 bytes of the checksum over the encodings of body and
algorithm; otherwise ValueError is raised.  The keystore does not matter. -/
theorem C24_crc (P : Prims) (ks : Option Keystore) (p : Packet) (h : p.alg = some .crc32c) (b a v : Bytes)
    (hb : wireOf ContentObject.tlv p.body = .ok b) (ha : wireOf ValidationAlg.tlv .crc32c = .ok a)
    (hv : p.payload = some v) :
    (v.length = 4 ∧ arrayToNumber v = crc32c (b ++ a) 0 → validatePacket P ks p = .ok ()) ∧
    (¬ (v.length = 4 ∧ arrayToNumber v = crc32c (b ++ a) 0) → validatePacket P ks p = .error .valueError) := by
  have he := C22_verify_exact [b, a] v
  obtain ⟨r, hr⟩ := (C22_verify_total [b, a]).2 v
  have hf : [b, a].flatten = b ++ a := by simp
  rw [hf] at he
  simp only [validatePacket, h, hb, ha, hv, hr, ok_bind] at he ⊢
  rw [← he]
  cases r <;> simp

/-- C24: an RSA packet is accepted unchecked when there is no keystore. -/
theorem C24_rsa_no_keystore (P : Prims) (p : Packet) (k : HashValue) (l : Option Link) (t : F64)
    (h : p.alg = some (.rsaSha256 k l t)) : validatePacket P none p = .ok () := by rw [validatePacket, h]

/-- C24: with a keystore in which no key was added that has the packet's key id (and none under that hash as a name),
`KeyIdNotFoundError` is raised. -/
theorem C24_rsa_unknown_key (P : Prims) (ops : List KsOp) (p : Packet) (digest : Bytes) (l : Option Link) (t : F64)
    (h : p.alg = some (.rsaSha256 (.sha256 digest) l t))
    (h1 : ∀ n k, KsOp.addRsa n k ∈ ops → P.sha256 k.der ≠ digest)
    (h2 : ∀ n k, KsOp.addRsa n k ∈ ops → ∃ s, n = .text s) :
    validatePacket P (some (Keystore.after P ops)) p = .error .keyIdNotFound := by
  have e1 : rsaAddedById P digest ops = [] := by
    rw [rsaAddedById, List.filterMap_eq_nil_iff]
    intro o ho
    cases o with
    | addAes _ => rfl
    | addRsa n k => simp [h1 n k ho]
  have e2 : rsaAddedByName (.hash (.sha256 digest)) ops = [] := by
    rw [rsaAddedByName, List.filterMap_eq_nil_iff]
    intro o ho
    cases o with
    | addAes _ => rfl
    | addRsa n k =>
      obtain ⟨s, rfl⟩ := h2 n k ho
      simp
  have hp : PlainNames P (.hash (.sha256 digest)) ops := plainNames_of
    (fun h e => by cases e; rfl) (fun n k hm v hv => by obtain ⟨s, hs⟩ := h2 n k hm; rw [hs] at hv; cases hv)
  have := C25_get_rsa_keyid P ops digest hp
  rw [e1, e2] at this
  simp only [validatePacket, h, this, List.getLast?_nil]
  rfl

/-- C24: with a keystore holding a key with the packet's key id, the packet is accepted just when the signature verifies
under the most recently added such key over the encodings of body and algorithm; otherwise ValueError is raised. -/
theorem C24_rsa (P : Prims) (ops : List KsOp) (p : Packet) (digest : Bytes) (l : Option Link) (t : F64)
    (h : p.alg = some (.rsaSha256 (.sha256 digest) l t)) (key : RsaKey)
    (hk : (rsaAddedById P digest ops).getLast? = some key) (b a v : Bytes)
    (hb : wireOf ContentObject.tlv p.body = .ok b)
    (ha : wireOf ValidationAlg.tlv (.rsaSha256 (.sha256 digest) l t) = .ok a) (hv : p.payload = some v) :
    (P.rsaVerify key.der (P.sha256 (b ++ a)) v = true →
      validatePacket P (some (Keystore.after P ops)) p = .ok ()) ∧
    (P.rsaVerify key.der (P.sha256 (b ++ a)) v = false →
      validatePacket P (some (Keystore.after P ops)) p = .error .valueError) := by
  have hg : (Keystore.after P ops).getRsa P (.hash (HashValue.sha256 digest)) = .ok key := by
    rw [Keystore.getRsa, findKeyid_after, hk]
  have hf : [b, a].flatten = b ++ a := by simp
  simp only [validatePacket, h, hb, ha, hv, hg, ok_bind, rsaVerify, RsaKey.verify, hf]
  constructor <;> intro hr <;> simp [hr]

/-- C24: a signed packet that is checked and accepted has a payload, and the payload is right: there is no way past the check without one. -/
theorem C24_needs_payload (P : Prims) (ks : Option Keystore) (p : Packet) (a : ValidationAlg) (h : p.alg = some a)
    (hk : a = .crc32c ∨ ks ≠ none) (hv : validatePacket P ks p = .ok ()) : p.payload ≠ none := by
  intro hn
  cases a with
  | crc32c =>
    simp only [validatePacket, h] at hv
    obtain ⟨b, _, hv⟩ := bind_eq_ok.mp hv
    obtain ⟨a, _, hv⟩ := bind_eq_ok.mp hv
    obtain ⟨r, hr, hv⟩ := bind_eq_ok.mp hv
    rw [hn] at hr
    cases hr
  | rsaSha256 k l t =>
    rcases hk with hk | hk
    · cases hk
    · cases ks with
      | none => exact hk rfl
      | some ks =>
        simp only [validatePacket, h] at hv
        obtain ⟨key, _, hv⟩ := bind_eq_ok.mp hv
        obtain ⟨b, _, hv⟩ := bind_eq_ok.mp hv
        obtain ⟨a, _, hv⟩ := bind_eq_ok.mp hv
        obtain ⟨r, hr, hv⟩ := bind_eq_ok.mp hv
        rw [hn] at hr
        cases hr

theorem createSigned_fields {b : ContentObject} {a : ValidationAlg} {v : Bytes} {p : Packet}
    (h : Packet.createSigned b a v = .ok p) : p.body = b ∧ p.alg = some a ∧ p.payload = some v := by
  obtain ⟨tb, htb, h⟩ := bind_eq_ok.mp h
  obtain ⟨ta, hta, h⟩ := bind_eq_ok.mp h
  obtain ⟨tv, htv, h⟩ := bind_eq_ok.mp h
  simp only [mkPacket, Option.isSome_some, ne_eq, not_true, if_false] at h
  obtain ⟨w, hw, h⟩ := bind_eq_ok.mp h
  cases h
  exact ⟨rfl, rfl, rfl⟩

theorem validatePacket_toBytes (P : Prims) (ks : Option Keystore) (p : Packet) :
    validatePacket P ks p.toBytes = validatePacket P ks p := by
  simp only [validatePacket, Packet.toBytes, wireOf, ContentObject.tlv_toBytes]

theorem Packet.deserialize_created (now : F64) (p : Packet)
    (hp : (∃ b, Packet.createContentObject b = .ok p) ∨ (∃ b a v, Packet.createSigned b a v = .ok p))
    (hs : p.WholeSeconds) (hk : ∀ k l s, p.alg = some (.rsaSha256 k l s) → l = none) (w : Bytes)
    (hw : p.serialize = .ok w) : Packet.deserialize now w = .ok p.toBytes := by
  obtain ⟨h1, h2, _, h3, w', hw', h4⟩ := Packet.created hp
  rw [hw] at hw'
  cases hw'
  have hlen : 8 ≤ w.length := by
    obtain ⟨hb, tb', la, lp, h1, _, _, _, _, _, _, rfl, _⟩ := Packet.serialize_ok hw
    obtain ⟨_, _, _, _, rfl⟩ := FixedHeader.serialize_ok h1
    simp
  exact packet_RT now hw h1 h2 (by omega) h3 (Packet.stable_of_whole hs) (Packet.readable_of_whole hs hk)

/-- C24: what a CRC-32C signer signs is accepted, also after the packet has been sent (whole-second times). -/
theorem C24_crc_signed_accepted (P : Prims) (ks : Option Keystore) (body : ContentObject) (p : Packet)
    (h : crcSignedPacket body = .ok p) :
    validatePacket P ks p = .ok () ∧
    ∀ now w, p.WholeSeconds → p.serialize = .ok w →
      ∃ p', Packet.deserialize now w = .ok p' ∧ validatePacket P ks p' = .ok () := by
  obtain ⟨alg, halg, h⟩ := bind_eq_ok.mp h
  obtain ⟨rfl, _⟩ := construct_inv halg
  obtain ⟨b, hb, h⟩ := bind_eq_ok.mp h
  obtain ⟨a, ha, h⟩ := bind_eq_ok.mp h
  obtain ⟨v, hv, hcs⟩ := bind_eq_ok.mp h
  obtain ⟨h1, h2, h3⟩ := createSigned_fields hcs
  have hval : validatePacket P ks p = .ok () := by
    obtain ⟨v', hv', _, hok⟩ := C22_sign_verify [b, a]
    rw [hv] at hv'
    cases hv'
    simp only [validatePacket, h1, h2, h3, hb, ha, hok, ok_bind]
    rfl
  refine ⟨hval, fun now w hs hw => ⟨p.toBytes, ?_, by rw [validatePacket_toBytes, hval]⟩⟩
  exact Packet.deserialize_created now p (.inr ⟨_, _, _, hcs⟩) hs (by simp [h2]) w hw

/-- C24: what an RSA signer signs is accepted with any keystore whose latest key of that id is the signer's, also after the
packet has been sent (whole-second times, no key link), provided RSA verification accepts RSA signatures. -/
theorem C24_rsa_signed_accepted (P : Prims) (hP : ∀ der d, P.rsaVerify der d (P.rsaSign der d) = true)
    (ops : List KsOp) (key pub : RsaKey) (hpub : pub.der = key.der)
    (hk : (rsaAddedById P (P.sha256 key.der) ops).getLast? = some pub)
    (link : Option Link) (time : F64) (body : ContentObject) (p : Packet)
    (h : rsaSignedPacket P key link time body = .ok p) :
    validatePacket P (some (Keystore.after P ops)) p = .ok () ∧
    ∀ now w, link = none → p.WholeSeconds → p.serialize = .ok w →
      ∃ p', Packet.deserialize now w = .ok p' ∧ validatePacket P (some (Keystore.after P ops)) p' = .ok () := by
  obtain ⟨alg, halg, h⟩ := bind_eq_ok.mp h
  obtain ⟨rfl, _⟩ := construct_inv halg
  obtain ⟨b, hb, h⟩ := bind_eq_ok.mp h
  obtain ⟨a, ha, h⟩ := bind_eq_ok.mp h
  obtain ⟨v, hv, hcs⟩ := bind_eq_ok.mp h
  obtain ⟨h1, h2, h3⟩ := createSigned_fields hcs
  have hval : validatePacket P (some (Keystore.after P ops)) p = .ok () := by
    refine (C24_rsa P ops p (P.sha256 key.der) link time h2 pub hk b a v (by rw [h1]; exact hb) ha h3).1 ?_
    unfold rsaSign at hv
    split at hv
    · rename_i hp
      obtain ⟨s, hs, hv⟩ := bind_eq_ok.mp hv
      obtain ⟨rfl, _⟩ := construct_inv hv
      rw [RsaKey.sign, if_pos hp] at hs
      rw [hpub, ← Except.ok.inj hs]
      simp only [List.flatten_cons, List.flatten_nil, List.append_nil]
      exact hP _ _
    · cases hv
  refine ⟨hval, fun now w hl hs hw => ⟨p.toBytes, ?_, by rw [validatePacket_toBytes, hval]⟩⟩
  refine Packet.deserialize_created now p (.inr ⟨_, _, _, hcs⟩) hs ?_ w hw
  intro k l s hh
  rw [h2] at hh
  cases hh
  exact hl

/-- Concrete signed packets; the toy primitives satisfy the assumption on RSA. -/
def exampleBody : ContentObject :=
  { name := some ⟨[.nameSegment [97]]⟩, payloadType := some PT_DATA, payload := some [104, 105],
    expiryTime := some (F64.ofNat 1700000000) }

example : ((crcSignedPacket exampleBody).bind Packet.serialize).map List.length = .ok 60 ∧
    ((rsaSignedPacket toyPrims ⟨[1], true, 2048⟩ none (F64.ofNat 1700000000) exampleBody).bind
      Packet.serialize).map List.length = .ok 142 := by decide +kernel
example : ∀ der d, toyPrims.rsaVerify der d (toyPrims.rsaSign der d) = true := by simp [toyPrims]

/-- The exchange of the next theorem, as one computation. -/
def rejectedExchange (body : ContentObject) : Py (Packet × Bytes × Packet × Py Unit) := do
  let p ← crcSignedPacket body
  validatePacket toyPrims none p
  let w ← p.serialize
  let p' ← Packet.deserialize (F64.ofNat 0) w
  return (p, w, p', validatePacket toyPrims none p')

/-- C24, where the code falls short: the accepted packet of a signer can be rejected after it has been sent.  The body's
expiry is 1.0015 s, which is written as 1001 ms, read back as the float 1.001 and re-encoded as 1000 ms; the receiver
computes the checksum over that re-encoding. -/
theorem C24_signed_packet_rejected_after_sending : ∃ (body : ContentObject) (p p' : Packet) (w : Bytes),
    crcSignedPacket body = .ok p ∧ validatePacket toyPrims none p = .ok () ∧ p.serialize = .ok w ∧
    Packet.deserialize (F64.ofNat 0) w = .ok p' ∧ validatePacket toyPrims none p' = .error .valueError := by
  have h : (rejectedExchange { exampleBody with expiryTime := some (fl 10015 10000) }).map (·.2.2.2)
      = .ok (.error .valueError) := by decide +kernel
  refine ⟨{ exampleBody with expiryTime := some (fl 10015 10000) }, ?_⟩
  generalize ({ exampleBody with expiryTime := some (fl 10015 10000) } : ContentObject) = body at h
  cases hr : rejectedExchange body with
  | error e => rw [hr] at h; cases h
  | ok r =>
    rw [hr] at h
    obtain ⟨p, h1, hr⟩ := bind_eq_ok.mp hr
    obtain ⟨u, h2, hr⟩ := bind_eq_ok.mp hr
    obtain ⟨w, h3, hr⟩ := bind_eq_ok.mp hr
    obtain ⟨p', h4, hr⟩ := bind_eq_ok.mp hr
    cases hr
    exact ⟨p, p', w, h1, h2, h3, h4, Except.ok.inj h⟩

end Ccnpy
