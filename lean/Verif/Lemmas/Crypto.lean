import Verif.Model.Crypto
import Verif.Lemmas.Flic

/-!
# Facts about manifest encryption
-/

namespace Ccnpy

theorem AeadParams.aeadData_ok {p : AeadParams} {nonce : Bytes} {d : AeadData} (h : p.aeadData nonce = .ok d) :
    ∃ k mode, p.key = some k ∧ k.mode = .ok mode ∧ d = ⟨p.keyNumber, nonce, some mode, p.kdfData⟩ := by
  unfold AeadParams.aeadData at h
  split at h
  · cases h
  · rename_i k hk
    obtain ⟨mode, hm, h⟩ := bind_eq_ok.mp h
    obtain ⟨ms, _, h⟩ := bind_eq_ok.mp h
    obtain ⟨_, _, h⟩ := bind_eq_ok.mp h
    exact ⟨k, mode, hk, hm, (Except.ok.inj h).symm⟩

theorem AeadKey.mode_cases {k : AeadKey} {m : Nat} (h : k.mode = .ok m) :
    k.alg.hasMode m = true ∧ m ≤ 4 ∧ (k.key.length = 16 ∨ k.key.length = 32) ∧
      (m = AEAD_AES_128_GCM ∨ m = AEAD_AES_256_GCM → k.alg = .gcm) ∧
      (m = AEAD_AES_128_CCM ∨ m = AEAD_AES_256_CCM → k.alg = .ccm) ∧
      (m = AEAD_AES_128_GCM ∨ m = AEAD_AES_256_GCM ∨ m = AEAD_AES_128_CCM ∨ m = AEAD_AES_256_CCM) := by
  have hb : k.bits = k.key.length * 8 := rfl
  unfold AeadKey.mode at h
  by_cases h1 : k.bits = 128
  · have h2 : k.key.length = 16 := by omega
    cases ha : k.alg <;> simp only [ha, if_pos h1] at h <;> cases h <;>
      refine ⟨rfl, by decide, .inl h2, ?_, ?_, ?_⟩ <;> decide
  · by_cases h2 : k.bits = 256
    · have h3 : k.key.length = 32 := by omega
      cases ha : k.alg <;> simp only [ha, if_neg h1, if_pos h2] at h <;> cases h <;>
        refine ⟨rfl, by decide, .inr h3, ?_, ?_, ?_⟩ <;> decide
    · cases ha : k.alg <;> simp only [ha, if_neg h1, if_neg h2] at h <;> cases h

/-- What `encrypt` passed to the primitive. -/
theorem encryptWithCtx_ok {P : Prims} {p : AeadParams} {node : Node} {ctx : SecurityCtx} {s : Sealed}
    (h : p.encryptWithCtx P node ctx = .ok s) :
    ∃ k t aad, p.key = some k ∧ node.tlv = .ok t ∧ wireOf SecurityCtx.tlv ctx = .ok aad ∧ s.ctx = ctx ∧
      P.aeadSeal k.alg k.key (p.iv ctx.aeadData.nonce) t.value aad = .ok (s.ciphertext ++ s.authTag) ∧
      s.authTag.length = min 16 (s.ciphertext ++ s.authTag).length := by
  unfold AeadParams.encryptWithCtx at h
  split at h
  · cases h
  · rename_i k hk
    obtain ⟨pt, hpt, h⟩ := bind_eq_ok.mp h
    obtain ⟨t, ht, hpt⟩ := bind_eq_ok.mp hpt
    cases hpt
    obtain ⟨aad, haad, h⟩ := bind_eq_ok.mp h
    obtain ⟨⟨c, a⟩, hca, h1⟩ := bind_eq_ok.mp h
    obtain ⟨c', hc', h2⟩ := bind_eq_ok.mp h1
    obtain ⟨a', ha', h3⟩ := bind_eq_ok.mp h2
    obtain ⟨rfl, _⟩ := construct_inv hc'
    obtain ⟨rfl, _⟩ := construct_inv ha'
    obtain ⟨out, hout, hca⟩ := bind_eq_ok.mp hca
    cases hca
    cases h3
    refine ⟨k, t, aad, hk, ht, haad, rfl, ?_, ?_⟩
    · simp only [List.length_take]
      rw [hout, Nat.min_eq_left (by omega), List.take_append_drop]
    · simp only [List.length_append, List.length_take, List.length_drop]
      omega

/-- Two sets of parameters that decrypt alike. -/
def AeadParams.SameCipher (p q : AeadParams) : Prop :=
  p.key = q.key ∧ p.keyNumber = q.keyNumber ∧ p.aeadSalt = q.aeadSalt

theorem AeadParams.decryptNode_congr {P : Prims} {p q : AeadParams} (h : p.SameCipher q) :
    p.decryptNode P = q.decryptNode P := by
  obtain ⟨h1, h2, h3⟩ := h
  funext ctx c t
  have : p.iv = q.iv := by funext n; simp [AeadParams.iv, h3]
  simp only [AeadParams.decryptNode, h1, h2, this]

theorem SecurityCtx.aeadData_toBytes (ctx : SecurityCtx) : ctx.toBytes.aeadData = ctx.aeadData := by cases ctx <;> rfl

theorem SecurityCtx.wire_toBytes (ctx : SecurityCtx) :
    wireOf SecurityCtx.tlv ctx.toBytes = wireOf SecurityCtx.tlv ctx := by simp only [wireOf, SecurityCtx.tlv_toBytes]

theorem decryptNode_toBytes (P : Prims) (p : AeadParams) (ctx : SecurityCtx) :
    p.decryptNode P ctx.toBytes = p.decryptNode P ctx := by
  funext c t
  rw [AeadParams.decryptNode, AeadParams.decryptNode, SecurityCtx.aeadData_toBytes, SecurityCtx.wire_toBytes]

/-- The AEAD primitive decrypts what it encrypted. -/
def Prims.AeadLaw (P : Prims) : Prop :=
  ∀ alg key iv pt aad c, P.aeadSeal alg key iv pt aad = .ok c → P.aeadOpen alg key iv c aad = .ok pt

theorem decryptNode_of_encrypt {P : Prims} (hP : P.AeadLaw) {p : AeadParams} {node : Node} (hn : node.Fits)
    {nonce : Bytes} {ctx : SecurityCtx} (hd : p.aeadData nonce = .ok ctx.aeadData) {s : Sealed}
    (h : p.encryptWithCtx P node ctx = .ok s) : p.decryptNode P ctx s.ciphertext s.authTag = .ok node.toBytes := by
  obtain ⟨k, t, aad, hk, ht, haad, hctx, hseal, _⟩ := encryptWithCtx_ok h
  obtain ⟨k', mode, hk', hmode, hdd⟩ := AeadParams.aeadData_ok hd
  rw [hk] at hk'
  cases hk'
  obtain ⟨hty, hv, hparse⟩ := node_RT hn t ht
  have hfam := (AeadKey.mode_cases hmode).1
  have hmk : mkTlv T_NODE t.value = .ok t := by rw [← hty]; exact mkTlv_of_valid hv
  have h1 : ctx.aeadData.keyNumber = p.keyNumber := by rw [hdd]
  have h2 : ctx.aeadData.mode = some mode := by rw [hdd]
  rw [AeadParams.decryptNode, if_neg (by simp [h1]), hk]
  simp only [h2, hfam, if_true, haad, ok_bind, AeadKey.decrypt, hP _ _ _ _ _ _ hseal, hmk, hparse]

theorem Sealed.manifest_ok {s : Sealed} {m : Manifest} (h : s.manifest = .ok m) :
    m = ⟨some s.ctx, .encrypted s.ciphertext, some s.authTag⟩ ∧ ∃ w, m.serialize = .ok w := by
  obtain ⟨w, hw, h⟩ := bind_eq_ok.mp h
  cases h
  exact ⟨rfl, w, hw⟩

theorem aeadEncrypt_ok {P : Prims} {p : AeadParams} {nonce : Bytes} {node : Node} {s : Sealed}
    (h : aeadEncrypt P p nonce node = .ok s) :
    ∃ d, p.aeadData nonce = .ok d ∧ p.encryptWithCtx P node (.aead d) = .ok s := by
  obtain ⟨d, hd, h⟩ := bind_eq_ok.mp h
  obtain ⟨ctx, hctx, h⟩ := bind_eq_ok.mp h
  obtain ⟨rfl, _⟩ := construct_inv hctx
  exact ⟨d, hd, h⟩

theorem oaepEncrypt_ok {P : Prims} {p : AeadParams} {w : Option RsaOaepWrapper} {inc : Bool} {nonce : Bytes}
    {node : Node} {s : Sealed} (h : oaepEncrypt P p w inc nonce node = .ok s) :
    ∃ d, p.aeadData nonce = .ok d ∧
      p.encryptWithCtx P node (.rsaOaep d (if inc then w else none)) = .ok s := by
  obtain ⟨d, hd, h⟩ := bind_eq_ok.mp h
  obtain ⟨ctx, hctx, h⟩ := bind_eq_ok.mp h
  obtain ⟨rfl, _⟩ := construct_inv hctx
  exact ⟨d, hd, h⟩

/-- Equal wire forms of contexts whose integers fit 64 bits mean equal contexts. -/
theorem SecurityCtx.wire_inj {a b : SecurityCtx} (ha : a.Fits) (hb : b.Fits) {w : Bytes}
    (h1 : wireOf SecurityCtx.tlv a = .ok w) (h2 : wireOf SecurityCtx.tlv b = .ok w) : a.toBytes = b.toBytes := by
  obtain ⟨t, ht, hv, rfl⟩ := wireOf_ok h1
  obtain ⟨u, hu, hv', he⟩ := wireOf_ok h2
  have := bytesAll_inj (l := [t]) (m := [u]) (by simpa using hv) (by simpa using hv') (by simpa using he)
  cases this
  have e1 := (securityCtx_RT ha t ht).2.2
  have e2 := (securityCtx_RT hb t hu).2.2
  rw [e1] at e2
  exact Except.ok.inj e2

/-! ## The OAEP label -/

theorem kdfLabel_ok {o : Option KdfData} {l : Bytes} (h : kdfLabel o = .ok l) :
    ∃ kl : List Tlv, (∀ t ∈ kl, t.Valid) ∧ l = bytesAll kl ∧
      (o = none ∧ kl = [] ∨ ∃ d info, o = some d ∧ d.kdfInfo = some info ∧ kl = [⟨T_KDF_INFO, info⟩]) := by
  cases o with
  | none => cases h; exact ⟨[], by simp, rfl, .inl ⟨rfl, rfl⟩⟩
  | some d =>
    cases hi : d.kdfInfo with
    | none => simp [kdfLabel, hi] at h
    | some info =>
      simp only [kdfLabel, hi] at h
      obtain ⟨t, ht, hv, rfl⟩ := wireOf_ok h
      obtain ⟨rfl, _⟩ := mkTlv_ok ht
      exact ⟨[⟨T_KDF_INFO, info⟩], by simpa using hv, by simp, .inr ⟨d, info, rfl, hi, rfl⟩⟩

theorem oaepLabel_ok {P : Prims} {rsa : RsaKey} {n : Nat} {mode : Option Nat} {kdf : Option KdfData} {l : Bytes}
    (h : oaepLabel P rsa n mode kdf = .ok l) :
    ∃ m kl ki ta tb th, mode = some m ∧
      (kdf = none ∧ kl = [] ∨ ∃ d info, kdf = some d ∧ d.kdfInfo = some info ∧ kl = [⟨T_KDF_INFO, info⟩]) ∧
      intTlv T_KEYNUM n = .ok ta ∧ intTlv T_AEADMode m = .ok tb ∧ hashTlv T_KEYID (rsa.keyid P) = .ok ki ∧
      intTlv T_HASH_ALG T_SHA_256 = .ok th ∧ (∀ t ∈ [ta, tb] ++ kl ++ [ki, th], t.Valid) ∧
      l = oaepPrefix ++ bytesAll ([ta, tb] ++ kl ++ [ki, th]) := by
  obtain ⟨k, hk, h⟩ := bind_eq_ok.mp h
  obtain ⟨a, ha, h⟩ := bind_eq_ok.mp h
  cases mode with
  | none => cases h
  | some m =>
    obtain ⟨b, hb, h⟩ := bind_eq_ok.mp h
    obtain ⟨i, hi, h⟩ := bind_eq_ok.mp h
    obtain ⟨hh, hhh, h⟩ := bind_eq_ok.mp h
    obtain ⟨kl, hkv, rfl, hkl⟩ := kdfLabel_ok hk
    obtain ⟨ta, hta, hav, rfl⟩ := wireOf_ok ha
    obtain ⟨tb, htb, hbv, rfl⟩ := wireOf_ok hb
    obtain ⟨ti, hti, hiv, rfl⟩ := wireOf_ok hi
    obtain ⟨th, hth, hhv, rfl⟩ := wireOf_ok hhh
    refine ⟨m, kl, ti, ta, tb, th, rfl, hkl, hta, htb, hti, hth, ?_, ?_⟩
    · intro t ht
      simp only [List.mem_append, List.mem_cons, List.not_mem_nil, or_false] at ht
      rcases ht with ((rfl | rfl) | ht) | (rfl | rfl) <;> first | assumption | exact hkv _ ht
    · rw [← Except.ok.inj h]; simp

/-- The label determines the key number, mode and KDF info (integers below 2^64) and the digest of the RSA key. -/
theorem oaepLabel_inj {P : Prims} {rsa rsa' : RsaKey} {n n' : Nat} {mode mode' : Option Nat} {kdf kdf' : Option KdfData}
    {l : Bytes} (hn : n < 2 ^ 64) (hn' : n' < 2 ^ 64) (hm : ∀ m, mode = some m → m < 2 ^ 64)
    (hm' : ∀ m, mode' = some m → m < 2 ^ 64) (h : oaepLabel P rsa n mode kdf = .ok l)
    (h' : oaepLabel P rsa' n' mode' kdf' = .ok l) :
    n = n' ∧ mode = mode' ∧ kdf.map (·.kdfInfo) = kdf'.map (·.kdfInfo) ∧ P.sha256 rsa.der = P.sha256 rsa'.der := by
  obtain ⟨m, kl, ki, ta, tb, th, rfl, hkl, hta, htb, hki, hth, hv, rfl⟩ := oaepLabel_ok h
  obtain ⟨m', kl', ki', ta', tb', th', rfl, hkl', hta', htb', hki', hth', hv', he⟩ := oaepLabel_ok h'
  have he := bytesAll_inj hv hv' (List.append_cancel_left he)
  have hcore : ta = ta' ∧ tb = tb' ∧ ki = ki' ∧ kdf.map (·.kdfInfo) = kdf'.map (·.kdfInfo) := by
    rcases hkl with ⟨rfl, rfl⟩ | ⟨d, info, rfl, hd, rfl⟩ <;> rcases hkl' with ⟨rfl, rfl⟩ | ⟨d', info', rfl, hd', rfl⟩ <;>
      simp at he
    · exact ⟨he.1, he.2.1, he.2.2.1, rfl⟩
    · exact ⟨he.1, he.2.1, he.2.2.2.1, by simp [hd, hd', he.2.2.1]⟩
  obtain ⟨rfl, rfl, rfl, hk⟩ := hcore
  refine ⟨?_, ?_, hk, ?_⟩
  · have e1 := (int_RT (by decide : T_KEYNUM ≤ 0xFFFF) hn ta hta).2.2
    have e2 := (int_RT (by decide : T_KEYNUM ≤ 0xFFFF) hn' ta hta').2.2
    rw [e1] at e2
    exact Except.ok.inj e2
  · have e1 := (int_RT (by decide : T_AEADMode ≤ 0xFFFF) (hm m rfl) tb htb).2.2
    have e2 := (int_RT (by decide : T_AEADMode ≤ 0xFFFF) (hm' m' rfl) tb htb').2.2
    rw [e1] at e2
    rw [Except.ok.inj e2]
  · have e1 := (hash_RT (ty := T_KEYID) (rsa.keyid P) ki hki).2.2
    have e2 := (hash_RT (ty := T_KEYID) (rsa'.keyid P) ki hki').2.2
    rw [e1] at e2
    exact congrArg HashValue.value (Except.ok.inj e2)

end Ccnpy
