import Verif.Model.Unused
import Verif.Props.CliProps
import Verif.Props.ValidateProps
import Verif.Props.CoreProps

/-!
# C115: functions that nothing in the code calls
-/

namespace Ccnpy

/-! ## Interests -/

theorem interestPacket_eq (n : Nat) (hop : UInt8) :
    Packet.interestPacket n hop = .error (if 8 + n ≤ 0xFFFF then .typeError else .structError) := by
  unfold Packet.interestPacket FixedHeader.serialize packB packH
  by_cases h : 8 + n ≤ 0xFFFF <;> simp [PT_INTEREST, h, pure, Except.pure, bind, Except.bind]

theorem hopField_ok {hop : Int} (h : 0 ≤ hop ∧ hop ≤ 255) : ∃ b, hopField hop = .ok b := ⟨_, by rw [hopField, byte, if_pos h]⟩

/-- C115: no packet with an Interest can be made, whether it is signed or not, whatever the Interest and the hop limit.  A complete Interest,
with a hop limit of one byte, that fits into a packet is refused with TypeError. -/
theorem C115_no_interest (i : Interest) (hop : Int) :
    (∀ p, Packet.createInterest i hop ≠ .ok p) ∧
    (∀ alg payload p, Packet.createSignedInterest i hop alg payload ≠ .ok p) ∧
    (∀ t, i.tlv = .ok t → 0 ≤ hop → hop ≤ 255 → 8 + t.len ≤ 0xFFFF → Packet.createInterest i hop = .error .typeError) ∧
    (∀ t alg ta payload tp, i.tlv = .ok t → alg.tlv = .ok ta → valPayloadTlv payload = .ok tp → 0 ≤ hop → hop ≤ 255 →
      8 + (t.len + ta.len + tp.len) ≤ 0xFFFF → Packet.createSignedInterest i hop alg payload = .error .typeError) := by
  refine ⟨fun p h => ?_, fun alg payload p h => ?_, fun t ht h0 h1 hl => ?_, fun t alg ta payload tp ht ha hp h0 h1 hl => ?_⟩
  · obtain ⟨t, _, h⟩ := bind_eq_ok.mp h
    obtain ⟨b, _, h⟩ := bind_eq_ok.mp h
    rw [interestPacket_eq] at h
    cases h
  · obtain ⟨t, _, h⟩ := bind_eq_ok.mp h
    obtain ⟨ta, _, h⟩ := bind_eq_ok.mp h
    obtain ⟨tp, _, h⟩ := bind_eq_ok.mp h
    obtain ⟨b, _, h⟩ := bind_eq_ok.mp h
    rw [interestPacket_eq] at h
    cases h
  · obtain ⟨b, hb⟩ := hopField_ok ⟨h0, h1⟩
    simp only [Packet.createInterest, ht, hb, ok_bind, interestPacket_eq, if_pos hl]
  · obtain ⟨b, hb⟩ := hopField_ok ⟨h0, h1⟩
    simp only [Packet.createSignedInterest, ht, ha, hp, hb, ok_bind, interestPacket_eq, if_pos hl]

/-- An Interest with a name and a restriction that fits. -/
example : ∃ t, ({ name := some ⟨[.nameSegment [97]]⟩, hashRestr := some ⟨1, [7]⟩ } : Interest).tlv = .ok t ∧ 8 + t.len ≤ 0xFFFF ∧
    t.value = [0, 0, 0, 5, 0, 1, 0, 1, 97, 0, 1, 0, 1, 7] := ⟨_, rfl, by decide, rfl⟩

/-- C115: no manifest gives its list of Interests.  Without `final` the call fails on the manifest's node; with it, it fails as a request
for the hashes of an encrypted manifest does (TypeError), or because it is not implemented. -/
theorem C115_interest_list (m : Manifest) (final : Bool) :
    (∀ l, m.interestList final ≠ .ok l) ∧
    m.interestList final = .error (if final = false then .attributeError else if m.isEncrypted then .typeError else .runtimeError) := by
  have h : m.interestList final =
      .error (if final = false then .attributeError else if m.isEncrypted then .typeError else .runtimeError) := by
    obtain ⟨s, n, a⟩ := m
    rcases final with _ | _ <;> rcases n with n | n <;> rfl
  exact ⟨fun l hl => (by rw [h] at hl; cases hl), h⟩

/-- C115: the short-cut to the first locator of a node never returns a locator: it raises AttributeError for all nodes that have some. -/
theorem C115_node_locator (n : Node) :
    (∀ l f, n.nodeLocator ≠ .ok (some l, f)) ∧
    ((∃ d ls, n.nodeData = some d ∧ d.locators = some ls) ↔ n.nodeLocator = .error .attributeError) := by
  obtain ⟨d, g, p⟩ := n
  rcases d with _ | ⟨s, dg, l, v, nc⟩
  · refine ⟨fun l f h => (by cases h), ⟨?_, fun h => (by cases h)⟩⟩
    rintro ⟨d, ls, h, _⟩
    cases h
  rcases l with _ | l
  · refine ⟨fun l f h => (by cases h), ⟨?_, fun h => (by cases h)⟩⟩
    rintro ⟨d, ls, h, h'⟩
    cases h
    cases h'
  · exact ⟨fun l f h => (by cases h), fun _ => rfl, fun _ => ⟨_, l, rfl, rfl⟩⟩

/-! ## Padding -/

/-- C115: `Pad.parse` accepts nothing, not even what `Pad` itself has written, of any length. -/
theorem C115_pad : (∀ t v, padParse t ≠ .ok v) ∧ ∀ n t, padTlv n = .ok t → padParse t = .error .typeError := by
  constructor
  · intro t v h
    unfold padParse at h
    split at h
    · cases h
    · cases h
  · intro n t h
    obtain ⟨rfl, _⟩ := mkTlv_ok h
    rfl

example : padTlv 3 = .ok ⟨T_PAD, [0, 0, 0]⟩ := by decide

/-! ## Keys -/

/-- C115: the mode that is written for a key tells its length, and the length can be asked of these modes only. -/
theorem C115_key_bits (m b : Nat) : aeadKeyBits m = .ok b ↔ ∃ k : AeadKey, k.mode = .ok m ∧ k.bits = b := by
  constructor
  · intro h
    unfold aeadKeyBits isMode at h
    split at h
    · rename_i hm
      cases h
      rcases (by simpa using hm : m = AEAD_AES_128_GCM ∨ m = AEAD_AES_128_CCM) with rfl | rfl
      · exact ⟨⟨.gcm, List.replicate 16 0⟩, by decide, by decide⟩
      · exact ⟨⟨.ccm, List.replicate 16 0⟩, by decide, by decide⟩
    split at h
    · rename_i hm
      cases h
      rcases (by simpa using hm : m = AEAD_AES_256_GCM ∨ m = AEAD_AES_256_CCM) with rfl | rfl
      · exact ⟨⟨.gcm, List.replicate 32 0⟩, by decide, by decide⟩
      · exact ⟨⟨.ccm, List.replicate 32 0⟩, by decide, by decide⟩
    · cases h
  · rintro ⟨k, hk, rfl⟩
    unfold AeadKey.mode at hk
    split at hk
    all_goals
      split at hk
      · rename_i h
        cases hk
        rw [h]
        rfl
      split at hk
      · rename_i h
        cases hk
        rw [h]
        rfl
      · cases hk

/-- C115: whatever `RsaOaepDecryptor.decrypt_manifest` makes of a manifest, `decrypt_node` refuses its parts with TypeError, and changes
neither keystore nor cache. -/
theorem C115_decrypt_node (s : OaepDecryptor) (ctx : AeadData × Option RsaOaepWrapper) (node tag : Bytes) :
    (∀ n, (s.decryptNode ctx node tag).1 ≠ .ok n) ∧ (s.decryptNode ctx node tag).2 = s :=
  ⟨fun n h => (by cases h), rfl⟩

/-- C115: key derivation data copied with a name keep the algorithm, and their info is the wire form of the name: the name can be read from
it, other names give other data, and the data are read back from their own wire form.  Copying works for all names whose encoding
leaves room for them. -/
theorem C115_copy_with_name (d : KdfData) (name : Name) :
    (∀ e, d.copyWithName name = .ok e →
      e.kdfAlg = d.kdfAlg ∧
      (∃ w, e.kdfInfo = some w ∧ wireOf Name.tlv name = .ok w ∧ ∃ n', ofWire Name.parse w = .ok n' ∧ n'.view = name.view) ∧
      (∀ other, d.copyWithName other = .ok e → other.view = name.view) ∧
      (d.kdfAlg < 2 ^ 64 → ∀ w rest, wireOf KdfData.tlv e = .ok w → ofWire KdfData.parse (w ++ rest) = .ok e)) ∧
    (∀ w, wireOf Name.tlv name = .ok w → w.length + 16 ≤ 0xFFFF → ∃ e, d.copyWithName name = .ok e) := by
  have inv : ∀ {n e}, d.copyWithName n = .ok e → ∃ w, wireOf Name.tlv n = .ok w ∧ e = ⟨d.kdfAlg, some w⟩ := by
    intro n e h
    obtain ⟨w, hw, h⟩ := bind_eq_ok.mp h
    obtain ⟨i, hi, h2⟩ := bind_eq_ok.mp h
    obtain ⟨rfl, _⟩ := construct_inv hi
    obtain ⟨rfl, _⟩ := construct_inv h2
    exact ⟨_, hw, rfl⟩
  constructor
  · intro e h
    obtain ⟨w, hw, rfl⟩ := inv h
    refine ⟨rfl, ⟨w, rfl, hw, ?_⟩, ?_, ?_⟩
    · obtain ⟨n', h1, h2⟩ := C09_name_roundtrip name w hw []
      exact ⟨n', by rwa [List.append_nil] at h1, h2⟩
    · intro other ho
      obtain ⟨w', hw', he⟩ := inv ho
      cases he
      exact C09_name_injective _ _ _ hw' hw
    · intro hd w' rest hw'
      exact ofWire_of_RT (kdfData_RT (d := ⟨d.kdfAlg, some w⟩) hd) hw' rest
  · intro w hw hl
    have h1 : octetTlv T_KDF_INFO w = .ok ⟨T_KDF_INFO, w⟩ :=
      mkTlv_of_valid (t := ⟨T_KDF_INFO, w⟩) ⟨(by decide : T_KDF_INFO ≤ 0xFFFF), by show w.length ≤ 0xFFFF; omega⟩
    have hn : (beBytes (numWidth d.kdfAlg) d.kdfAlg).length ≤ 8 := by
      rw [beBytes_length]
      unfold numWidth
      (repeat' split) <;> omega
    have hc : ∃ t, container T_KDF_DATA [⟨T_KDF_ALG, beBytes (numWidth d.kdfAlg) d.kdfAlg⟩, ⟨T_KDF_INFO, w⟩] = .ok t := by
      refine ⟨_, container_of_valid ?_ ⟨(by decide : T_KDF_DATA ≤ 0xFFFF), ?_⟩⟩
      · intro x hx
        rcases List.mem_cons.mp hx with rfl | hx
        · exact ⟨(by decide : T_KDF_ALG ≤ 0xFFFF), by show (beBytes _ _).length ≤ 0xFFFF; omega⟩
        rcases List.mem_cons.mp hx with rfl | hx
        · exact ⟨(by decide : T_KDF_INFO ≤ 0xFFFF), by show w.length ≤ 0xFFFF; omega⟩
        · cases hx
      · simp only [bytesAll_cons, bytesAll_nil, List.length_append, Tlv.bytes_length, Tlv.len, Tlv.length, List.length_nil]
        omega
    obtain ⟨t, hc⟩ := hc
    refine ⟨⟨d.kdfAlg, some w⟩, ?_⟩
    simp only [KdfData.copyWithName, hw, ok_bind, construct, h1, KdfData.tlv, intTlv_eq (by decide : T_KDF_ALG ≤ 0xFFFF), optTlv,
      pure_eq_ok, List.singleton_append, hc]

/-- A name of one segment as info of the first algorithm. -/
example : (KdfData.mk 1 none).copyWithName ⟨[.nameSegment [97]]⟩ = .ok ⟨1, some [0, 0, 0, 5, 0, 1, 0, 1, 97]⟩ := by decide

/-- C115: with the same arguments as the signer, the verifier of the command line holds the signer's key and accepts every packet that the
signer has signed.  It can be made from a public key, from which no signer can be made. -/
theorem C115_verifier (E : CliEnv) (a : CliArgs) (hP : ∀ der d, E.prims.rsaVerify der d (E.prims.rsaSign der d) = true) :
    (∀ s, signerFromCli E a = .ok (some s) → ∃ k, verifierFromCli E a = .ok (some k) ∧ s = .rsa k none E.now ∧
      ∀ body p b al, rsaSignedPacket E.prims k none E.now body = .ok p → wireOf ContentObject.tlv p.body = .ok b →
        (∃ x, p.alg = some x ∧ wireOf ValidationAlg.tlv x = .ok al) → rsaVerify E.prims k [b, al] p.payload = .ok true) ∧
    (∀ k, verifierFromCli E a = .ok (some k) → k.hasPrivate = false → signerFromCli E a = .error .runtimeError) := by
  constructor
  · intro s hs
    rcases signerFromCli_ok hs with ⟨_, h⟩ | ⟨f, k, hf, hk, h⟩
    · cases h
    cases h
    refine ⟨k, by simp only [verifierFromCli, hf, optM, hk], rfl, fun body p b al hp hb ⟨x, hx, hal⟩ => ?_⟩
    obtain ⟨alg, halg, hp⟩ := bind_eq_ok.mp hp
    obtain ⟨b', hb', hp⟩ := bind_eq_ok.mp hp
    obtain ⟨a', ha', hp⟩ := bind_eq_ok.mp hp
    obtain ⟨v, hv, hp⟩ := bind_eq_ok.mp hp
    obtain ⟨h1, h2, h3⟩ := createSigned_fields hp
    rw [h1, hb'] at hb
    cases hb
    rw [h2] at hx
    cases hx
    rw [ha'] at hal
    cases hal
    unfold rsaSign at hv
    split at hv
    · rename_i hpr
      obtain ⟨s, hs, hv⟩ := bind_eq_ok.mp hv
      obtain ⟨rfl, _⟩ := construct_inv hv
      rw [RsaKey.sign, if_pos hpr] at hs
      rw [h3, rsaVerify, RsaKey.verify, ← Except.ok.inj hs, hP]
    · cases hv
  · intro k hk hpr
    rcases optM_ok hk with ⟨_, h⟩ | ⟨f, k', hf, hl, h⟩
    · cases h
    cases h
    simp [signerFromCli, hf, optM, hl, rsaSigner, hpr]

/-- The toy environment loads a private key, and its primitives satisfy the hypothesis. -/
example : (∃ s, signerFromCli Toy.cli { keyFile := some ['k'] } = .ok (some s)) ∧
    ∀ der d, Toy.cli.prims.rsaVerify der d (Toy.cli.prims.rsaSign der d) = true := by
  refine ⟨⟨_, rfl⟩, fun der d => ?_⟩
  simp [Toy.cli, Toy.prims]

end Ccnpy
