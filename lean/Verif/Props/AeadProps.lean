import Verif.Lemmas.Nonces
import Verif.Lemmas.ToyFile
import Verif.Props.CryptoProps
import Verif.Props.ContainerProps
import Verif.Props.OptimizerProps

/-!
# C72 and C73: what the AEAD cipher is given, and which nonce seals which manifest
-/

namespace Ccnpy

/-! ## C72 -/

/-- Specification of the initialization vector: the nonce, after the salt in four big-endian bytes if there is one. -/
def Spec.IsIv (salt : Option Nat) (nonce iv : Bytes) : Prop :=
  match salt with
  | none => iv = nonce
  | some n => ∃ a b c d : UInt8, iv = [a, b, c, d] ++ nonce ∧
      n = a.toNat * 2 ^ 24 + b.toNat * 2 ^ 16 + c.toNat * 2 ^ 8 + d.toNat

/-- The salt of parameters that the constructor accepted. -/
def Spec.SaltOk (p : AeadParams) : Prop := ∀ n, p.aeadSalt = some n → n < 2 ^ 32

/-- C72: the constructor of the parameters accepts only salts of four bytes, and keeps them. -/
theorem C72_create (key : Option AeadKey) (num : Nat) (salt kdfSalt : Option Int) (kdf : Option KdfData) (p : AeadParams)
    (h : AeadParams.create key num salt kdf kdfSalt = .ok p) :
    Spec.SaltOk p ∧ p.aeadSalt.map Int.ofNat = salt ∧ p.key = key ∧ p.keyNumber = num := by
  obtain ⟨_, _, h1⟩ := bind_eq_ok.mp h
  obtain ⟨a, ha, h2⟩ := bind_eq_ok.mp h1
  obtain ⟨b, hb, h3⟩ := bind_eq_ok.mp h2
  cases h3
  clear h h1 h2
  unfold saltCheck at ha
  unfold Spec.SaltOk
  split at ha
  · cases ha
    simp
  · rename_i n
    split at ha
    · cases ha
      rename_i hn
      refine ⟨?_, ?_, rfl, rfl⟩
      · intro m hm
        simp only [Option.some.injEq] at hm
        omega
      · simp only [Option.map_some, Option.some.injEq]
        show (n.toNat : Int) = n
        omega
    · cases ha

theorem iv_spec {p : AeadParams} (hp : Spec.SaltOk p) (nonce : Bytes) : Spec.IsIv p.aeadSalt nonce (p.iv nonce) := by
  unfold Spec.IsIv AeadParams.iv
  cases h : p.aeadSalt with
  | none => rfl
  | some n =>
    have := hp n h
    refine ⟨_, _, _, _, rfl, ?_⟩
    simp only [toNat_ofNat]
    omega

/-- C72 (encryption): the cipher is called with the configured key, the salt followed by the nonce that the context shows as
initialization vector, the node's value as plaintext and the serialized context as associated data; what it returns is the
ciphertext followed by the 16-byte tag.  The salt is not in the manifest. -/
theorem C72_encryption (P : Prims) (p : AeadParams) (hp : Spec.SaltOk p) (nonce : Bytes) (node : Node) (s : Sealed)
    (h : aeadEncrypt P p nonce node = .ok s ∨ ∃ w inc, oaepEncrypt P p w inc nonce node = .ok s) :
    ∃ k iv t aad, p.key = some k ∧ Spec.IsIv p.aeadSalt nonce iv ∧ node.tlv = .ok t ∧ s.ctx.aeadData.nonce = nonce ∧
      wireOf SecurityCtx.tlv s.ctx = .ok aad ∧ P.aeadSeal k.alg k.key iv t.value aad = .ok (s.ciphertext ++ s.authTag) ∧
      s.authTag.length = min 16 (s.ciphertext ++ s.authTag).length := by
  have : ∃ ctx, p.aeadData nonce = .ok ctx.aeadData ∧ p.encryptWithCtx P node ctx = .ok s := by
    rcases h with h | ⟨w, inc, h⟩
    · obtain ⟨d, h1, h2⟩ := aeadEncrypt_ok h
      exact ⟨.aead d, h1, h2⟩
    · obtain ⟨d, h1, h2⟩ := oaepEncrypt_ok h
      exact ⟨.rsaOaep d _, h1, h2⟩
  obtain ⟨ctx, hd, h⟩ := this
  obtain ⟨k, t, aad, hk, ht, haad, rfl, hseal, hlen⟩ := encryptWithCtx_ok h
  obtain ⟨_, mode, _, _, hdd⟩ := AeadParams.aeadData_ok hd
  rw [hdd] at hseal
  exact ⟨k, _, t, aad, hk, iv_spec hp nonce, ht, by rw [hdd], haad, hseal, hlen⟩

/-- C72 (decryption): a node is returned only if the cipher opened ciphertext and tag with the configured key, the salt
followed by the context's nonce and the context as associated data, and the node is what the plaintext parses to. -/
theorem C72_decryption (P : Prims) (p : AeadParams) (hp : Spec.SaltOk p) (ctx : SecurityCtx) (c tag : Bytes) (node : Node)
    (h : p.decryptNode P ctx c tag = .ok node) :
    ∃ k iv aad pt, p.key = some k ∧ Spec.IsIv p.aeadSalt ctx.aeadData.nonce iv ∧ wireOf SecurityCtx.tlv ctx = .ok aad ∧
      P.aeadOpen k.alg k.key iv (c ++ tag) aad = .ok pt ∧ Node.parse ⟨T_NODE, pt⟩ = .ok node ∧
      ctx.aeadData.keyNumber = p.keyNumber := by
  unfold AeadParams.decryptNode at h
  split at h
  · cases h
  · rename_i hkn
    split at h
    · cases h
    · rename_i k hk
      split at h
      · cases h
      · rename_i mode hmode
        split at h
        · obtain ⟨aad, haad, h⟩ := bind_eq_ok.mp h
          obtain ⟨pt, hpt, h⟩ := bind_eq_ok.mp h
          obtain ⟨t, ht, h⟩ := bind_eq_ok.mp h
          refine ⟨k, _, aad, pt, hk, iv_spec hp _, haad, ?_, ?_, by simpa using hkn⟩
          · unfold AeadKey.decrypt at hpt
            split at hpt
            · rename_i q hq
              cases hpt
              exact hq
            · cases hpt
            · cases hpt
          · rw [mkTlv_eq] at ht
            split at ht
            · cases ht
              exact h
            · cases ht
        · cases h

/-- C72 (length): with a nonce of the length that is drawn, the initialization vector has 96 bits. -/
theorem C72_iv_length (p : AeadParams) (nonce iv : Bytes) (hn : nonce.length = p.nonceLength)
    (hiv : Spec.IsIv p.aeadSalt nonce iv) : iv.length * 8 = 96 := by
  unfold AeadParams.nonceLength at hn
  unfold Spec.IsIv at hiv
  split at hn <;> rename_i h <;> rw [h] at hiv <;> simp only at hiv
  · rw [hiv, hn]
  · obtain ⟨a, b, c, d, rfl, _⟩ := hiv
    simp [hn, saltBytes]

/-- C72 (uniqueness): under one salt different nonces give different initialization vectors, and under different salts all
initialization vectors differ. -/
theorem C72_iv_injective (salt salt' : Option Nat) (hs : salt.isSome = salt'.isSome) (nonce nonce' iv : Bytes)
    (h : Spec.IsIv salt nonce iv) (h' : Spec.IsIv salt' nonce' iv) : salt = salt' ∧ nonce = nonce' := by
  unfold Spec.IsIv at h h'
  cases salt with
  | none =>
    cases salt' with
    | none => exact ⟨rfl, by rw [← h, ← h']⟩
    | some m => cases hs
  | some n =>
    cases salt' with
    | none => cases hs
    | some m =>
      obtain ⟨a, b, c, d, rfl, rfl⟩ := h
      obtain ⟨a', b', c', d', e, rfl⟩ := h'
      simp only [List.cons_append, List.nil_append, List.cons.injEq] at e
      obtain ⟨rfl, rfl, rfl, rfl, rfl⟩ := e
      exact ⟨rfl, rfl⟩

/-- The parameters of the C33 example come from the constructor, and have a salt; the nonce drawn for them has 8 bytes. -/
example : AeadParams.create exampleParams.key 500 (some 0x01020304) exampleParams.kdfData (some 5) = .ok exampleParams ∧
    exampleParams.nonceLength = 8 ∧ exampleParams2.nonceLength = 12 ∧
    Spec.IsIv exampleParams.aeadSalt [9, 8] [1, 2, 3, 4, 9, 8] ∧
    (aeadEncrypt toyPrims exampleParams (List.replicate 8 3) exampleNode).isOk := by
  refine ⟨by decide +kernel, by decide, by decide, ⟨1, 2, 3, 4, rfl, by decide⟩, by decide +kernel⟩

/-! ## C73 -/

/-- The nonce of the manifest in a packet, as a reader sees it. -/
def Spec.NonceIn (p : Packet) (nonce : Bytes) : Prop :=
  ∃ m ctx, Manifest.fromContentObject p.body = .ok m ∧ m.securityCtx = some ctx ∧ ctx.aeadData.nonce = nonce

/-- The parameters of an encryptor. -/
def Encryptor.Fits64 : Encryptor → Prop
  | .aead p => p.Fits64
  | .oaep p w => p.Fits64 ∧ ∀ a, w.hashAlg = some a → a < 2 ^ 64

theorem SealedWith.nonceIn {E : Env} {o : TreeOptions} {p : Packet} {i : Nat} (h : SealedWith E o p i)
    (hf : ∀ e, o.encryptor = some e → e.Fits64) : Spec.NonceIn p (E.nonce i) := by
  obtain ⟨node, sl, m, w, h, hm, hw, hty, hp⟩ := h
  obtain ⟨rfl, _⟩ := Sealed.manifest_ok hm
  have key : sl.ctx.Fits ∧ sl.ctx.aeadData.nonce = E.nonce i := by
    rcases h with ⟨params, he, h⟩ | ⟨params, wr, full, he, h⟩
    · have hf := hf _ he
      obtain ⟨d, h1, h2⟩ := aeadEncrypt_ok h
      obtain ⟨_, _, _, _, _, _, hctx, _⟩ := encryptWithCtx_ok h2
      obtain ⟨_, _, _, _, hdd⟩ := AeadParams.aeadData_ok h1
      rw [hctx]
      refine ⟨AeadParams.aeadData_fits hf h1, ?_⟩
      show d.nonce = _
      rw [hdd]
    · have hf := hf _ he
      obtain ⟨d, h1, h2⟩ := oaepEncrypt_ok h
      obtain ⟨_, _, _, _, _, _, hctx, _⟩ := encryptWithCtx_ok h2
      obtain ⟨_, _, _, _, hdd⟩ := AeadParams.aeadData_ok h1
      rw [hctx]
      refine ⟨⟨AeadParams.aeadData_fits hf.1 h1, ?_⟩, ?_⟩
      · intro x hx
        cases full with
        | false => cases hx
        | true =>
          simp only [if_true, Option.some.injEq] at hx
          subst hx
          exact hf.2
      · show d.nonce = _
        rw [hdd]
  have hRT := manifest_RT (m := ⟨some sl.ctx, .encrypted sl.ciphertext, some sl.authTag⟩)
    ⟨by rintro c ⟨⟩; exact key.1, trivial⟩ hw
  refine ⟨_, _, (C66_from_content_object _ _).mpr ⟨hty, w, hp, hRT⟩, rfl, ?_⟩
  rw [← key.2]
  cases sl.ctx <;> rfl

/-- C73: whatever the outcome of a build with encrypted manifests, the packets written are data objects followed by
manifests, and the nonce in the `k`-th manifest is draw `k + 2`: the first two draws are used for the sizing packets. -/
theorem C73_draws (E : Env) (L : FloatLog) (o : TreeOptions) (nc : Nat) (input : Stream) (e : Encryptor)
    (he : o.encryptor = some e) (hf : e.Fits64) :
    ∃ data ms, (manifestTree E L o nc input).2 = data ++ ms ∧ (∀ p ∈ data, p.body.payloadType = some PT_DATA) ∧
      ∀ k p, ms[k]? = some p → Spec.NonceIn p (E.nonce (k + 2)) := by
  obtain ⟨data, ms, h1, h2, h3⟩ := manifestTree_sealed (E := E) (o := o) (by rw [he]; rfl) L nc input
  refine ⟨data, ms, h1, h2, fun k p hk => ?_⟩
  rw [Nat.add_comm]
  exact (h3 k p hk).nonceIn (by rintro e' h; rw [he] at h; cases h; exact hf)

/-- C73: as long as the random draws differ, no two manifests of a build, finished or not, have the same nonce. -/
theorem C73_no_nonce_reuse (E : Env) (L : FloatLog) (o : TreeOptions) (nc : Nat) (input : Stream) (e : Encryptor)
    (he : o.encryptor = some e) (hf : e.Fits64) (out : List Packet) (hout : (manifestTree E L o nc input).2 = out)
    (hn : ∀ i j, i < out.length + 2 → j < out.length + 2 → E.nonce i = E.nonce j → i = j)
    (i j : Nat) (p q : Packet) (hi : out[i]? = some p) (hj : out[j]? = some q) (nonce : Bytes)
    (hp : Spec.NonceIn p nonce) (hq : Spec.NonceIn q nonce) : i = j := by
  obtain ⟨data, ms, h1, h2, h3⟩ := C73_draws E L o nc input e he hf
  rw [hout] at h1
  subst h1
  have side : ∀ i p, (data ++ ms)[i]? = some p → Spec.NonceIn p nonce →
      ∃ k, i = data.length + k ∧ k < ms.length ∧ nonce = E.nonce (k + 2) := by
    intro i p hi hp
    rw [List.getElem?_append] at hi
    split at hi
    · obtain ⟨m, ctx, h4, _⟩ := hp
      have h5 := ((C66_from_content_object _ _).mp h4).1
      rw [h2 p (List.mem_of_getElem? hi)] at h5
      cases h5
    · rename_i hge
      refine ⟨i - data.length, by omega, (List.getElem?_eq_some_iff.mp hi).1, ?_⟩
      obtain ⟨m, ctx, a1, a2, a3⟩ := h3 _ p hi
      obtain ⟨m', ctx', b1, b2, b3⟩ := hp
      rw [a1] at b1
      cases b1
      rw [a2] at b2
      cases b2
      rw [← a3, ← b3]
  obtain ⟨k, rfl, hk, e1⟩ := side i p hi hp
  obtain ⟨k', rfl, hk', e2⟩ := side j q hj hq
  have := hn (k + 2) (k' + 2) (by simp; omega) (by simp; omega) (by rw [← e1, ← e2])
  omega

set_option maxRecDepth 100000 in
/-- A file of 600 bytes with encrypted manifests makes eight packets; the ten first draws of the toy environment differ. -/
example : ((manifestTree Toy.env Spec.exactLog (Toy.options .segmented true) 1 (Toy.input 600)).2.length = 8) ∧
    (Toy.options .segmented true).encryptor = some (.aead Toy.key) ∧ (Encryptor.aead Toy.key).Fits64 ∧
    (∀ i j, i < 10 → j < 10 → Toy.env.nonce i = Toy.env.nonce j → i = j) := by
  refine ⟨by decide +kernel, rfl, ⟨by decide, by rintro _ ⟨⟩⟩, ?_⟩
  have : ∀ i : Fin 10, ∀ j : Fin 10, Toy.env.nonce i = Toy.env.nonce j → i = j := by decide +kernel
  intro i j hi hj h
  exact congrArg Fin.val (this ⟨i, hi⟩ ⟨j, hj⟩ h)

end Ccnpy
