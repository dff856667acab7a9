import Verif.Lemmas.Crypto
import Verif.Props.FlicProps
import Verif.Props.ValidateProps

/-!
# Properties C33-C37: manifest encryption, key wrapping, decryptor histories and key derivation
-/

namespace Ccnpy

/-! ## C33 -/

/-- Specification: the unencrypted manifest holding the node's data (names held as bytes) and hash groups. -/
def recovered (node : Node) : Manifest :=
  { securityCtx := none, authTag := none,
    node := .plain { nodeData := node.nodeData.map NodeData.toBytes, hashGroups := node.hashGroups, padLength := none } }

/-- The integers of the parameters fit 64 bits. -/
def AeadParams.Fits64 (p : AeadParams) : Prop :=
  p.keyNumber < 2 ^ 64 ∧ ∀ d, p.kdfData = some d → d.kdfAlg < 2 ^ 64

theorem AeadParams.aeadData_fits {p : AeadParams} (hp : p.Fits64) {nonce : Bytes} {d : AeadData}
    (h : p.aeadData nonce = .ok d) : d.Fits := by
  obtain ⟨k, mode, _, hm, rfl⟩ := AeadParams.aeadData_ok h
  refine ⟨hp.1, ?_, hp.2⟩
  intro n hn
  cases hn
  have := (AeadKey.mode_cases hm).2.1
  omega

/-- C33: decrypting an AEAD manifest with parameters that have the same key, key number and salt returns the node, both
directly and after the manifest has been serialized and parsed. -/
theorem C33_aead_roundtrip (P : Prims) (hP : P.AeadLaw) (p q : AeadParams) (hq : q.SameCipher p) (nonce : Bytes)
    (node : Node) (hn : node.Fits64) (s : Sealed) (h : aeadEncrypt P p nonce node = .ok s) (m : Manifest)
    (hm : s.manifest = .ok m) :
    aeadDecryptManifest P q m = .ok (recovered node) ∧
    (p.Fits64 → ∃ w m', m.serialize = .ok w ∧ Manifest.deserialize w = .ok m' ∧
      aeadDecryptManifest P q m' = .ok (recovered node)) := by
  obtain ⟨d, hd, h⟩ := aeadEncrypt_ok h
  have hdec := decryptNode_of_encrypt hP hn (ctx := .aead d) hd h
  obtain ⟨_, _, _, _, _, _, hctx, _⟩ := encryptWithCtx_ok h
  obtain ⟨rfl, w, hw⟩ := Sealed.manifest_ok hm
  have hr : aeadDecryptManifest P q ⟨some s.ctx, .encrypted s.ciphertext, some s.authTag⟩ = .ok (recovered node) := by
    simp only [aeadDecryptManifest, hctx, AeadParams.decryptNode_congr hq, hdec, ok_bind]
    rfl
  refine ⟨hr, fun hf => ⟨w, _, hw, manifest_RT ?_ hw, ?_⟩⟩
  · refine ⟨?_, trivial⟩
    intro c hc
    simp only [hctx, Option.some.injEq] at hc
    subst hc
    exact AeadParams.aeadData_fits hf hd
  · simp only [Manifest.toBytes, hctx, Option.map_some, SecurityCtx.toBytes, ManifestNode.toBytes]
    rw [hctx] at hr
    exact hr

/-- C33: the same for the RSA-OAEP form of context, with or without the key wrapper in it. -/
theorem C33_oaep_roundtrip (P : Prims) (hP : P.AeadLaw) (p q : AeadParams) (hq : q.SameCipher p)
    (wrapper : Option RsaOaepWrapper) (inc : Bool) (nonce : Bytes)
    (node : Node) (hn : node.Fits64) (s : Sealed) (h : oaepEncrypt P p wrapper inc nonce node = .ok s) (m : Manifest)
    (hm : s.manifest = .ok m) :
    oaepDecryptManifest P q m = .ok (recovered node) ∧
    (p.Fits64 → (∀ x a, wrapper = some x → x.hashAlg = some a → a < 2 ^ 64) →
      ∃ w m', m.serialize = .ok w ∧ Manifest.deserialize w = .ok m' ∧ oaepDecryptManifest P q m' = .ok (recovered node)) := by
  obtain ⟨d, hd, h⟩ := oaepEncrypt_ok h
  have hdec := decryptNode_of_encrypt hP hn (ctx := .rsaOaep d (if inc then wrapper else none)) hd h
  obtain ⟨_, _, _, _, _, _, hctx, _⟩ := encryptWithCtx_ok h
  obtain ⟨rfl, w, hw⟩ := Sealed.manifest_ok hm
  have hr : oaepDecryptManifest P q ⟨some s.ctx, .encrypted s.ciphertext, some s.authTag⟩ = .ok (recovered node) := by
    simp only [oaepDecryptManifest, hctx, AeadParams.decryptNode_congr hq, hdec, ok_bind]
    rfl
  refine ⟨hr, fun hf hx => ⟨w, _, hw, manifest_RT ?_ hw, ?_⟩⟩
  · refine ⟨?_, trivial⟩
    intro c hc
    simp only [hctx, Option.some.injEq] at hc
    subst hc
    refine ⟨AeadParams.aeadData_fits hf hd, ?_⟩
    intro x hxx a ha
    cases inc with
    | true => exact hx x a hxx ha
    | false => cases hxx
  · have e := decryptNode_toBytes P q (.rsaOaep d (if inc then wrapper else none))
    simp only [SecurityCtx.toBytes] at e
    simp only [Manifest.toBytes, hctx, Option.map_some, SecurityCtx.toBytes, ManifestNode.toBytes, oaepDecryptManifest, e,
      AeadParams.decryptNode_congr hq, hdec, ok_bind]
    rfl

/-- C33: AES-192 keys can be configured but not used: the encryption raises ValueError, in either form of context. -/
theorem C33_aes192_unusable (P : Prims) (p : AeadParams) (k : AeadKey) (hk : p.key = some k) (h : k.key.length = 24)
    (nonce : Bytes) (node : Node) :
    aeadEncrypt P p nonce node = .error .valueError ∧
    ∀ w inc, oaepEncrypt P p w inc nonce node = .error .valueError := by
  have hb : k.bits = 192 := by rw [AeadKey.bits, h]
  have : k.mode = .error .valueError := by
    unfold AeadKey.mode
    cases k.alg <;> simp [hb]
  simp [aeadEncrypt, oaepEncrypt, AeadParams.aeadData, hk, this]

/-- A concrete encryption: salted AES-128-GCM and unsalted AES-256-CCM parameters, a node with two hash groups. -/
def exampleParams : AeadParams :=
  { key := some ⟨.gcm, List.replicate 16 7⟩, keyNumber := 500, aeadSalt := some 0x01020304,
    kdfData := some ⟨1, some [9, 9]⟩, kdfSalt := some 5 }
def exampleParams2 : AeadParams := { key := some ⟨.ccm, List.replicate 32 7⟩, keyNumber := 501 }

theorem toyPrims_aeadLaw : toyPrims.AeadLaw := by
  intro alg key iv pt aad c h
  have h : pt ++ (iv ++ aad ++ List.replicate 16 0).take 16 = c := Except.ok.inj h
  show (if c.drop (c.length - 16) = (iv ++ aad ++ List.replicate 16 0).take 16 then .ok (c.take (c.length - 16))
    else .error .invalidTag : Py Bytes) = _
  have e : (List.take 16 (iv ++ aad ++ List.replicate 16 (0 : UInt8))).length = 16 := by simp; omega
  generalize List.take 16 (iv ++ aad ++ List.replicate 16 (0 : UInt8)) = tag at e h
  subst h
  have h1 : (pt ++ tag).length - 16 = pt.length := by simp [e]
  rw [h1]
  simp

example : ((aeadEncrypt toyPrims exampleParams (List.replicate 8 3) exampleNode).bind Sealed.manifest).isOk ∧
    ((aeadEncrypt toyPrims exampleParams2 (List.replicate 12 3) exampleNode).bind Sealed.manifest).isOk ∧
    ((oaepEncrypt toyPrims exampleParams none false (List.replicate 8 3) exampleNode).bind Sealed.manifest).isOk := by
  decide +kernel

/-! ## C34 -/

/-- Assumption on the primitive: with this key it opens only what was sealed in `L` (unforgeability as far as the history
of the key goes). -/
def OnlyOpens (P : Prims) (p : AeadParams) (k : AeadKey) (L : List Sealed) : Prop :=
  ∀ iv data aad pt, P.aeadOpen k.alg k.key iv data aad = .ok pt →
    ∃ s ∈ L, wireOf SecurityCtx.tlv s.ctx = .ok aad ∧ s.ciphertext ++ s.authTag = data ∧
      p.iv s.ctx.aeadData.nonce = iv

theorem decryptNode_inv {P : Prims} {p : AeadParams} {ctx : SecurityCtx} {c t : Bytes} {n : Node}
    (h : p.decryptNode P ctx c t = .ok n) :
    ∃ k aad pt, p.key = some k ∧ wireOf SecurityCtx.tlv ctx = .ok aad ∧ ctx.aeadData.keyNumber = p.keyNumber ∧
      P.aeadOpen k.alg k.key (p.iv ctx.aeadData.nonce) (c ++ t) aad = .ok pt ∧ (mkTlv T_NODE pt >>= Node.parse) = .ok n := by
  unfold AeadParams.decryptNode at h
  split at h
  · cases h
  · rename_i hkn
    split at h
    · cases h
    · rename_i k hk
      split at h
      · cases h
      · split at h
        · obtain ⟨aad, haad, h⟩ := bind_eq_ok.mp h
          obtain ⟨pt, hpt, h⟩ := bind_eq_ok.mp h
          refine ⟨k, aad, pt, hk, haad, by simpa using hkn, ?_, h⟩
          unfold AeadKey.decrypt at hpt
          split at hpt
          · rename_i hopen
            rw [hopen]
            exact hpt
          · cases hpt
          · cases hpt
        · cases h

/-- The encrypted parts of a manifest. -/
def Manifest.parts (m : Manifest) : Option (SecurityCtx × Bytes × Bytes) :=
  match m.securityCtx, m.node, m.authTag with
  | some x, .encrypted c, some t => some (x, c, t)
  | _, _, _ => none

theorem aeadDecrypt_parts {P : Prims} {p : AeadParams} {m m' : Manifest} (h : aeadDecryptManifest P p m = .ok m') :
    ∃ d c t n, m.parts = some (.aead d, c, t) ∧ p.decryptNode P (.aead d) c t = .ok n ∧ m' = { node := .plain n } := by
  obtain ⟨sc, node, tag⟩ := m
  cases node with
  | plain n => cases h
  | encrypted c =>
    cases sc with
    | none => cases h
    | some x =>
      cases x with
      | rsaOaep d w => cases h
      | aead d =>
        cases tag with
        | none => cases h
        | some t =>
          obtain ⟨n, hn, h⟩ := bind_eq_ok.mp h
          exact ⟨d, c, t, n, rfl, hn, (Except.ok.inj h).symm⟩

theorem oaepDecrypt_parts {P : Prims} {p : AeadParams} {m m' : Manifest} (h : oaepDecryptManifest P p m = .ok m') :
    ∃ d w c t n, m.parts = some (.rsaOaep d w, c, t) ∧ p.decryptNode P (.rsaOaep d w) c t = .ok n ∧ m' = { node := .plain n } := by
  obtain ⟨sc, node, tag⟩ := m
  cases node with
  | plain n => cases h
  | encrypted c =>
    cases sc with
    | none => cases h
    | some x =>
      cases x with
      | aead d => cases h
      | rsaOaep d w =>
        cases tag with
        | none => cases h
        | some t =>
          obtain ⟨n, hn, h⟩ := bind_eq_ok.mp h
          exact ⟨d, w, c, t, n, rfl, hn, (Except.ok.inj h).symm⟩

/-- C34: a manifest that decrypts (in either form of context) carries the security context (up to the representation of
names) and, put together, the ciphertext and tag of one that was issued under the key. -/
theorem C34_only_issued (P : Prims) (p : AeadParams) (k : AeadKey) (hk : p.key = some k) (L : List Sealed)
    (hP : OnlyOpens P p k L) (hL : ∀ s ∈ L, s.ctx.Fits) (m m' : Manifest)
    (hm : ∀ x, m.securityCtx = some x → x.Fits)
    (h : aeadDecryptManifest P p m = .ok m' ∨ oaepDecryptManifest P p m = .ok m') :
    ∃ s ∈ L, ∃ x c t, m.parts = some (x, c, t) ∧ x.toBytes = s.ctx.toBytes ∧ c ++ t = s.ciphertext ++ s.authTag := by
  have : ∃ x c t n, m.parts = some (x, c, t) ∧ p.decryptNode P x c t = .ok n := by
    rcases h with h | h
    · obtain ⟨d, c, t, n, h1, h2, _⟩ := aeadDecrypt_parts h
      exact ⟨_, c, t, n, h1, h2⟩
    · obtain ⟨d, w, c, t, n, h1, h2, _⟩ := oaepDecrypt_parts h
      exact ⟨_, c, t, n, h1, h2⟩
  obtain ⟨x, c, t, n, hparts, hd⟩ := this
  have hx : m.securityCtx = some x := by
    unfold Manifest.parts at hparts
    split at hparts
    · rename_i h _ _; rw [h]; cases hparts; rfl
    · cases hparts
  obtain ⟨k', aad, pt, hk', haad, _, hopen, _⟩ := decryptNode_inv hd
  rw [hk] at hk'
  cases hk'
  obtain ⟨s, hs, h1, h2, _⟩ := hP _ _ _ _ hopen
  exact ⟨s, hs, x, c, t, hparts, SecurityCtx.wire_inj (hm x hx) (hL s hs) haad h1, h2.symm⟩

/-- C34: and it gives the node that was sealed.  `L` holds what was made by the two encryptors with these parameters; the primitive, if it
opens what was sealed, opens it to what was sealed. -/
theorem C34_gives_the_sealed_node (P : Prims) (p : AeadParams) (k : AeadKey) (hk : p.key = some k) (L : List Sealed)
    (hP : OnlyOpens P p k L)
    (hlaw : ∀ alg key iv pt aad c pt', P.aeadSeal alg key iv pt aad = .ok c → P.aeadOpen alg key iv c aad = .ok pt' → pt' = pt)
    (hmade : ∀ s ∈ L, ∃ nonce node, node.Fits64 ∧
      (aeadEncrypt P p nonce node = .ok s ∨ ∃ w inc, oaepEncrypt P p w inc nonce node = .ok s))
    (m m' : Manifest) (h : aeadDecryptManifest P p m = .ok m' ∨ oaepDecryptManifest P p m = .ok m') :
    ∃ s ∈ L, ∃ nonce node, (aeadEncrypt P p nonce node = .ok s ∨ ∃ w inc, oaepEncrypt P p w inc nonce node = .ok s) ∧
      m' = recovered node := by
  have : ∃ x c t n, p.decryptNode P x c t = .ok n ∧ m' = { node := .plain n } := by
    rcases h with h | h
    · obtain ⟨d, c, t, n, _, h2, h3⟩ := aeadDecrypt_parts h
      exact ⟨_, c, t, n, h2, h3⟩
    · obtain ⟨d, w, c, t, n, _, h2, h3⟩ := oaepDecrypt_parts h
      exact ⟨_, c, t, n, h2, h3⟩
  obtain ⟨x, c, t, n, hd, rfl⟩ := this
  obtain ⟨k', aad, pt, hk', haad, _, hopen, hparse⟩ := decryptNode_inv hd
  rw [hk] at hk'
  cases hk'
  obtain ⟨s, hs, h1, h2, h3⟩ := hP _ _ _ _ hopen
  obtain ⟨nonce, node, hn, he⟩ := hmade s hs
  refine ⟨s, hs, nonce, node, he, ?_⟩
  have : ∃ ctx, p.encryptWithCtx P node ctx = .ok s := by
    rcases he with h | ⟨w, inc, h⟩
    · obtain ⟨d, _, h2⟩ := aeadEncrypt_ok h
      exact ⟨.aead d, h2⟩
    · obtain ⟨d, _, h2⟩ := oaepEncrypt_ok h
      exact ⟨.rsaOaep d _, h2⟩
  obtain ⟨ctx, he⟩ := this
  obtain ⟨k', u, aad', hk', hu, haad', rfl, hseal, _⟩ := encryptWithCtx_ok he
  rw [hk] at hk'
  cases hk'
  rw [h1] at haad'
  cases haad'
  rw [h2, h3] at hseal
  obtain rfl := hlaw _ _ _ _ _ _ _ hseal hopen
  obtain ⟨hty, hv, hrt⟩ := node_RT hn u hu
  rw [show mkTlv T_NODE u.value = .ok u by rw [← hty]; exact mkTlv_of_valid hv, ok_bind, hrt] at hparse
  cases hparse
  rfl

/-- C34: if one manifest was issued under the key, then a manifest with a different key number, nonce, mode or KDF data, or
with the same tag and a different ciphertext, or with the same ciphertext and a different tag, or truncated or extended,
does not decrypt. -/
theorem C34_altered_rejected (P : Prims) (p : AeadParams) (k : AeadKey) (hk : p.key = some k) (s : Sealed)
    (hP : OnlyOpens P p k [s]) (d0 : AeadData) (hs : s.ctx = .aead d0) (hf0 : d0.Fits) (d : AeadData) (hf : d.Fits)
    (c t : Bytes)
    (h : d.keyNumber ≠ d0.keyNumber ∨ d.nonce ≠ d0.nonce ∨ d.mode ≠ d0.mode ∨ d.kdfData ≠ d0.kdfData ∨
      (t = s.authTag ∧ c ≠ s.ciphertext) ∨ (c = s.ciphertext ∧ t ≠ s.authTag) ∨
      c.length + t.length ≠ s.ciphertext.length + s.authTag.length) :
    ∃ e, aeadDecryptManifest P p ⟨some (.aead d), .encrypted c, some t⟩ = .error e := by
  cases hr : aeadDecryptManifest P p ⟨some (.aead d), .encrypted c, some t⟩ with
  | error e => exact ⟨e, rfl⟩
  | ok m' =>
    exfalso
    obtain ⟨s', hs', x, c', t', hparts, hx, hct⟩ := C34_only_issued P p k hk [s] hP
      (by intro s' hs'; rw [List.mem_singleton.mp hs', hs]; exact hf0) _ m'
      (by intro x hx; cases hx; exact hf) (.inl hr)
    have hs' := List.mem_singleton.mp hs'
    subst hs'
    cases hparts
    rw [hs] at hx
    cases hx
    have hl := congrArg List.length hct
    simp only [List.length_append] at hl
    rcases h with h | h | h | h | ⟨rfl, h⟩ | ⟨rfl, h⟩ | h
    · exact h rfl
    · exact h rfl
    · exact h rfl
    · exact h rfl
    · exact h (List.append_cancel_right hct)
    · exact h (List.append_cancel_left hct)
    · exact h hl

/-- C34: the same for the RSA-OAEP form of context, where the key wrapper is protected as well: leaving it out, adding one, or changing
its key id, key link, hash algorithm or wrapped key makes the decryption raise. -/
theorem C34_altered_rejected_oaep (P : Prims) (p : AeadParams) (k : AeadKey) (hk : p.key = some k) (s : Sealed)
    (hP : OnlyOpens P p k [s]) (d0 : AeadData) (w0 : Option RsaOaepWrapper) (hs : s.ctx = .rsaOaep d0 w0)
    (hf0 : (SecurityCtx.rsaOaep d0 w0).Fits) (d : AeadData) (w : Option RsaOaepWrapper) (hf : (SecurityCtx.rsaOaep d w).Fits)
    (c t : Bytes)
    (h : d.keyNumber ≠ d0.keyNumber ∨ d.nonce ≠ d0.nonce ∨ d.mode ≠ d0.mode ∨ d.kdfData ≠ d0.kdfData ∨
      w.isSome ≠ w0.isSome ∨
      (∃ x x0, w = some x ∧ w0 = some x0 ∧ (x.keyId ≠ x0.keyId ∨ x.hashAlg ≠ x0.hashAlg ∨ x.wrappedKey ≠ x0.wrappedKey ∨
        x.keyLink.map Link.toBytes ≠ x0.keyLink.map Link.toBytes)) ∨
      (t = s.authTag ∧ c ≠ s.ciphertext) ∨ (c = s.ciphertext ∧ t ≠ s.authTag) ∨
      c.length + t.length ≠ s.ciphertext.length + s.authTag.length) :
    ∃ e, oaepDecryptManifest P p ⟨some (.rsaOaep d w), .encrypted c, some t⟩ = .error e := by
  cases hr : oaepDecryptManifest P p ⟨some (.rsaOaep d w), .encrypted c, some t⟩ with
  | error e => exact ⟨e, rfl⟩
  | ok m' =>
    exfalso
    obtain ⟨s', hs', x, c', t', hparts, hx, hct⟩ := C34_only_issued P p k hk [s] hP
      (by intro s' hs'; rw [List.mem_singleton.mp hs', hs]; exact hf0) _ m'
      (by intro x hx; cases hx; exact hf) (.inr hr)
    have hs' := List.mem_singleton.mp hs'
    subst hs'
    cases hparts
    rw [hs] at hx
    simp only [SecurityCtx.toBytes, SecurityCtx.rsaOaep.injEq] at hx
    obtain ⟨rfl, hw⟩ := hx
    have hl := congrArg List.length hct
    simp only [List.length_append] at hl
    rcases h with h | h | h | h | h | ⟨x, x0, rfl, rfl, h⟩ | ⟨rfl, h⟩ | ⟨rfl, h⟩ | h
    · exact h rfl
    · exact h rfl
    · exact h rfl
    · exact h rfl
    · have := congrArg Option.isSome hw
      simp only [Option.isSome_map] at this
      exact h this
    · simp only [Option.map_some, Option.some.injEq] at hw
      rcases h with h | h | h | h
      · have e := congrArg RsaOaepWrapper.keyId hw
        exact h e
      · have e := congrArg RsaOaepWrapper.hashAlg hw
        exact h e
      · have e := congrArg RsaOaepWrapper.wrappedKey hw
        exact h e
      · exact h (congrArg RsaOaepWrapper.keyLink hw)
    · exact h (List.append_cancel_right hct)
    · exact h (List.append_cancel_left hct)
    · exact h hl

/-- Is the context an RSA-OAEP one? -/
def SecurityCtx.isOaep : SecurityCtx → Bool
  | .aead _ => false
  | .rsaOaep _ _ => true

/-- C34: the form of the context is protected too: what was sealed with one form does not decrypt when presented in the other. -/
theorem C34_form_protected (P : Prims) (p : AeadParams) (k : AeadKey) (hk : p.key = some k) (s : Sealed)
    (hP : OnlyOpens P p k [s]) (hs : s.ctx.Fits) (x : SecurityCtx) (hx : x.Fits) (hform : x.isOaep ≠ s.ctx.isOaep) (c t : Bytes) :
    (∃ e, aeadDecryptManifest P p ⟨some x, .encrypted c, some t⟩ = .error e) ∧
    ∃ e, oaepDecryptManifest P p ⟨some x, .encrypted c, some t⟩ = .error e := by
  have key : ∀ m', ¬ (aeadDecryptManifest P p ⟨some x, .encrypted c, some t⟩ = .ok m' ∨
      oaepDecryptManifest P p ⟨some x, .encrypted c, some t⟩ = .ok m') := by
    intro m' hr
    obtain ⟨s', hs', x', c', t', hparts, hx', -⟩ := C34_only_issued P p k hk [s] hP
      (by intro s' hs'; rw [List.mem_singleton.mp hs']; exact hs) _ m'
      (by intro y hy; cases hy; exact hx) hr
    have hs' := List.mem_singleton.mp hs'
    subst hs'
    cases hparts
    apply hform
    cases x <;> cases hc : s'.ctx <;> rw [hc] at hx' <;> first | rfl | cases hx'
  constructor
  · cases hr : aeadDecryptManifest P p ⟨some x, .encrypted c, some t⟩ with
    | error e => exact ⟨e, rfl⟩
    | ok m' => exact absurd (.inl hr) (key m')
  · cases hr : oaepDecryptManifest P p ⟨some x, .encrypted c, some t⟩ with
    | error e => exact ⟨e, rfl⟩
    | ok m' => exact absurd (.inr hr) (key m')

/-- C34: a decryptor whose key number differs raises ValueError without using the key, whatever the primitive does. -/
theorem C34_wrong_key_number (P : Prims) (p : AeadParams) (d : AeadData) (c t : Bytes)
    (h : d.keyNumber ≠ p.keyNumber) :
    aeadDecryptManifest P p ⟨some (.aead d), .encrypted c, some t⟩ = .error .valueError ∧
    ∀ w, oaepDecryptManifest P p ⟨some (.rsaOaep d w), .encrypted c, some t⟩ = .error .valueError := by
  simp [aeadDecryptManifest, oaepDecryptManifest, AeadParams.decryptNode, SecurityCtx.aeadData, h]

/-- C34: a decryptor whose key is of the other family (GCM or CCM) than the advertised mode raises DecryptionError without
using the key, whatever the primitive does. -/
theorem C34_wrong_family (P : Prims) (p : AeadParams) (k : AeadKey) (hk : p.key = some k) (d : AeadData) (c t : Bytes)
    (hn : d.keyNumber = p.keyNumber) (m : Nat) (hm : d.mode = some m)
    (h : (k.alg = .gcm ∧ m ≠ 1 ∧ m ≠ 2) ∨ (k.alg = .ccm ∧ m ≠ 3 ∧ m ≠ 4)) :
    aeadDecryptManifest P p ⟨some (.aead d), .encrypted c, some t⟩ = .error .decryptionError ∧
    ∀ w, oaepDecryptManifest P p ⟨some (.rsaOaep d w), .encrypted c, some t⟩ = .error .decryptionError := by
  have hf : k.alg.hasMode m = false := by
    rcases h with ⟨h1, h2, h3⟩ | ⟨h1, h2, h3⟩ <;>
      simp [h1, AeadAlg.hasMode, AEAD_AES_128_GCM, AEAD_AES_256_GCM, AEAD_AES_128_CCM, AEAD_AES_256_CCM, h2, h3]
  simp [aeadDecryptManifest, oaepDecryptManifest, AeadParams.decryptNode, SecurityCtx.aeadData, hn, hk, hm, hf]

/-- C34: which bytes belong to the ciphertext and which to the tag is not protected: moving bytes across that boundary
changes nothing. -/
theorem C34_boundary_unprotected (P : Prims) (p : AeadParams) (d : AeadData) (c t c' t' : Bytes)
    (h : c ++ t = c' ++ t') :
    aeadDecryptManifest P p ⟨some (.aead d), .encrypted c, some t⟩ =
      aeadDecryptManifest P p ⟨some (.aead d), .encrypted c', some t'⟩ ∧
    ∀ w, oaepDecryptManifest P p ⟨some (.rsaOaep d w), .encrypted c, some t⟩ =
      oaepDecryptManifest P p ⟨some (.rsaOaep d w), .encrypted c', some t'⟩ := by
  simp only [aeadDecryptManifest, oaepDecryptManifest, AeadParams.decryptNode, AeadKey.decrypt, h, implies_true, and_self]

/-- The primitive of the example opens exactly one triple. -/
def oneShot (P : Prims) (p : AeadParams) (s : Sealed) : Prims :=
  { P with aeadOpen := fun alg key iv data aad =>
      if wireOf SecurityCtx.tlv s.ctx = .ok aad ∧ s.ciphertext ++ s.authTag = data ∧ p.iv s.ctx.aeadData.nonce = iv
      then P.aeadOpen alg key iv data aad else .error .invalidTag }

/-- Such primitives exist, and they still open what was issued. -/
example : ∃ s, aeadEncrypt toyPrims exampleParams (List.replicate 8 3) exampleNode = .ok s ∧
    OnlyOpens (oneShot toyPrims exampleParams s) exampleParams ⟨.gcm, List.replicate 16 7⟩ [s] ∧
    (∀ alg key iv pt aad c pt', (oneShot toyPrims exampleParams s).aeadSeal alg key iv pt aad = .ok c →
      (oneShot toyPrims exampleParams s).aeadOpen alg key iv c aad = .ok pt' → pt' = pt) ∧
    aeadEncrypt (oneShot toyPrims exampleParams s) exampleParams (List.replicate 8 3) exampleNode = .ok s ∧
    (aeadDecryptManifest (oneShot toyPrims exampleParams s) exampleParams
      ⟨some s.ctx, .encrypted s.ciphertext, some s.authTag⟩).isOk = true := by
  have h : (aeadEncrypt toyPrims exampleParams (List.replicate 8 3) exampleNode).map (fun s =>
    (aeadDecryptManifest (oneShot toyPrims exampleParams s) exampleParams
      ⟨some s.ctx, .encrypted s.ciphertext, some s.authTag⟩).isOk) = .ok true := by decide +kernel
  cases hs : aeadEncrypt toyPrims exampleParams (List.replicate 8 3) exampleNode with
  | error e => rw [hs] at h; cases h
  | ok s =>
    rw [hs] at h
    refine ⟨s, rfl, ?_, ?_, hs, Except.ok.inj h⟩
    rotate_left
    · intro alg key iv pt aad c pt' h1 h2
      have h3 := toyPrims_aeadLaw alg key iv pt aad c h1
      simp only [oneShot] at h2
      split at h2
      · rw [h3] at h2
        exact (Except.ok.inj h2).symm
      · cases h2
    intro iv data aad pt ho
    simp only [oneShot] at ho
    split at ho
    · rename_i hc
      exact ⟨s, by simp, hc⟩
    · cases ho

/-- The same in the RSA-OAEP form of context, with a key wrapper in it. -/
def exampleWrapper34 : RsaOaepWrapper := { keyId := ⟨1, List.replicate 32 5⟩, hashAlg := some 1, wrappedKey := some [1, 2, 3] }
example : ∃ s, oaepEncrypt toyPrims exampleParams (some exampleWrapper34) true (List.replicate 8 3) exampleNode = .ok s ∧
    OnlyOpens (oneShot toyPrims exampleParams s) exampleParams ⟨.gcm, List.replicate 16 7⟩ [s] ∧
    (oaepDecryptManifest (oneShot toyPrims exampleParams s) exampleParams
      ⟨some s.ctx, .encrypted s.ciphertext, some s.authTag⟩).isOk = true := by
  have h : (oaepEncrypt toyPrims exampleParams (some exampleWrapper34) true (List.replicate 8 3) exampleNode).map (fun s =>
    (oaepDecryptManifest (oneShot toyPrims exampleParams s) exampleParams
      ⟨some s.ctx, .encrypted s.ciphertext, some s.authTag⟩).isOk) = .ok true := by decide +kernel
  cases hs : oaepEncrypt toyPrims exampleParams (some exampleWrapper34) true (List.replicate 8 3) exampleNode with
  | error e => rw [hs] at h; cases h
  | ok s =>
    rw [hs] at h
    refine ⟨s, rfl, ?_, Except.ok.inj h⟩
    intro iv data aad pt ho
    simp only [oneShot] at ho
    split at ho
    · rename_i hc
      exact ⟨s, by simp, hc⟩
    · cases ho

/-! ## C37 -/

/-- C37: what is encrypted is the node's value, under the configured key itself, with the serialized context (which
advertises the KDF) as associated data. -/
theorem C37_configured_key_used (P : Prims) (p : AeadParams) (nonce : Bytes) (node : Node) (s : Sealed)
    (h : aeadEncrypt P p nonce node = .ok s ∨ ∃ w inc, oaepEncrypt P p w inc nonce node = .ok s) :
    ∃ k aad pt, p.key = some k ∧ node.serializedValue = .ok pt ∧ wireOf SecurityCtx.tlv s.ctx = .ok aad ∧
      s.ctx.aeadData.kdfData = p.kdfData ∧
      P.aeadSeal k.alg k.key (p.iv nonce) pt aad = .ok (s.ciphertext ++ s.authTag) := by
  have : ∃ ctx, p.aeadData nonce = .ok ctx.aeadData ∧ p.encryptWithCtx P node ctx = .ok s := by
    rcases h with h | ⟨w, inc, h⟩
    · obtain ⟨d, h1, h2⟩ := aeadEncrypt_ok h
      exact ⟨.aead d, h1, h2⟩
    · obtain ⟨d, h1, h2⟩ := oaepEncrypt_ok h
      exact ⟨.rsaOaep d _, h1, h2⟩
  obtain ⟨ctx, hd, h⟩ := this
  obtain ⟨k, t, aad, hk, ht, haad, rfl, hseal, _⟩ := encryptWithCtx_ok h
  obtain ⟨_, mode, _, _, hdd⟩ := AeadParams.aeadData_ok hd
  rw [hdd] at hseal
  exact ⟨k, aad, t.value, hk, by simp [Node.serializedValue, ht], haad, by rw [hdd], hseal⟩

/-- C37: neither the derivation function nor the configured KDF salt has any effect on encryption or decryption. -/
theorem C37_kdf_irrelevant (P : Prims) (h : Nat → Bytes → Nat → Bytes → Option Nat → Py Bytes) (salt : Option Nat)
    (p : AeadParams) (nonce : Bytes) (node : Node) (m : Manifest) :
    aeadEncrypt { P with hkdf := h } { p with kdfSalt := salt } nonce node = aeadEncrypt P p nonce node ∧
    aeadDecryptManifest { P with hkdf := h } { p with kdfSalt := salt } m = aeadDecryptManifest P p m ∧
    (∀ w inc, oaepEncrypt { P with hkdf := h } { p with kdfSalt := salt } w inc nonce node = oaepEncrypt P p w inc nonce node) ∧
    oaepDecryptManifest { P with hkdf := h } { p with kdfSalt := salt } m = oaepDecryptManifest P p m :=
  ⟨rfl, rfl, fun _ _ => rfl, rfl⟩

/-- C37: a reader that decrypts with a derived key `k'` different from the configured key `k` does not recover the node,
given that the primitive opens what was sealed under `k` with no other key. -/
theorem C37_derived_key_fails (P : Prims) (p : AeadParams) (s : Sealed) (k k' : AeadKey) (hne : k'.key ≠ k.key)
    (hP : ∀ alg key iv aad pt, P.aeadOpen alg key iv (s.ciphertext ++ s.authTag) aad = .ok pt → key = k.key)
    (m : Manifest) (hm : s.manifest = .ok m) :
    (∃ e, aeadDecryptManifest P { p with key := some k' } m = .error e) ∧
    ∃ e, oaepDecryptManifest P { p with key := some k' } m = .error e := by
  constructor
  · cases hr : aeadDecryptManifest P { p with key := some k' } m with
    | error e => exact ⟨e, rfl⟩
    | ok m' =>
      exfalso
      obtain ⟨rfl, _⟩ := Sealed.manifest_ok hm
      obtain ⟨d, c, t, n, hparts, hd⟩ := aeadDecrypt_parts hr
      cases hs : s.ctx with
      | rsaOaep d w => rw [hs] at hparts; cases hparts
      | aead d0 =>
        rw [hs] at hparts
        cases hparts
        obtain ⟨k2, aad, pt, hk2, _, _, hopen, _⟩ := decryptNode_inv hd.1
        cases hk2
        exact hne (hP _ _ _ _ _ hopen)
  · cases hr : oaepDecryptManifest P { p with key := some k' } m with
    | error e => exact ⟨e, rfl⟩
    | ok m' =>
      exfalso
      obtain ⟨rfl, _⟩ := Sealed.manifest_ok hm
      obtain ⟨d, w, c, t, n, hparts, hd⟩ := oaepDecrypt_parts hr
      cases hs : s.ctx with
      | aead d => rw [hs] at hparts; cases hparts
      | rsaOaep d0 w0 =>
        rw [hs] at hparts
        cases hparts
        obtain ⟨k2, aad, pt, hk2, _, _, hopen, _⟩ := decryptNode_inv hd.1
        cases hk2
        exact hne (hP _ _ _ _ _ hopen)

/-- C37: were the (uncalled) derivation function called with a KDF configured, it would raise for every KDF identifier. -/
theorem C37_derivation_always_raises (P : Prims) (p : AeadParams) (k : AeadKey) (d : KdfData) (h : p.kdfData = some d) :
    ∃ e, p.deriveKey P k = .error e := by
  cases hr : p.deriveKey P k with
  | error e => exact ⟨e, rfl⟩
  | ok k' =>
    exfalso
    simp only [AeadParams.deriveKey, h] at hr
    cases hi : d.kdfInfo with
    | none => rw [hi] at hr; cases hr
    | some info =>
      rw [hi] at hr
      obtain ⟨_, _, hr⟩ := bind_eq_ok.mp hr
      obtain ⟨_, _, hr⟩ := bind_eq_ok.mp hr
      obtain ⟨_, _, hr⟩ := bind_eq_ok.mp hr
      obtain ⟨_, _, hr⟩ := bind_eq_ok.mp hr
      obtain ⟨_, hk, _⟩ := bind_eq_ok.mp hr
      cases hk

/-! ## C35 -/

/-- C37 (exactly): the derivation function returns in one case only, when no KDF is configured, and then the key it is given. -/
theorem C37_derivation_returns (P : Prims) (p : AeadParams) (k k' : AeadKey) :
    p.deriveKey P k = .ok k' ↔ p.kdfData = none ∧ k' = k := by
  cases h : p.kdfData with
  | none =>
    simp only [AeadParams.deriveKey, h, true_and]
    exact ⟨fun he => (Except.ok.inj he).symm, fun he => by rw [he]⟩
  | some d =>
    obtain ⟨e, he⟩ := C37_derivation_always_raises P p k d h
    rw [he]
    simp

/-- OAEP decryption undoes OAEP encryption under the same label. -/
def Prims.OaepLaw (P : Prims) : Prop := ∀ der seed pt label, P.oaepDecrypt der (P.oaepEncrypt der seed pt label) label = .ok pt

theorem wrapKey_ok {P : Prims} {rsa : RsaKey} {seed : Bytes} {p : AeadParams} {c : Bytes}
    (h : wrapKey P rsa seed p = .ok c) :
    ∃ salt k mode label, p.aeadSalt = some salt ∧ salt < 2 ^ 32 ∧ p.key = some k ∧ k.mode = .ok mode ∧
      oaepLabel P rsa p.keyNumber (some mode) p.kdfData = .ok label ∧
      c = P.oaepEncrypt rsa.der seed (beBytes 4 salt ++ k.key) label := by
  unfold wrapKey at h
  split at h
  · cases h
  · rename_i salt hs
    split at h
    · cases h
    · rename_i hsalt
      have hlt : salt < 2 ^ 32 := by omega
      rw [uint32ToArray_nat _ hlt] at h
      simp only [ok_bind] at h
      split at h
      · cases h
      · rename_i k hk
        obtain ⟨mode, hm, h⟩ := bind_eq_ok.mp h
        obtain ⟨label, hl, h⟩ := bind_eq_ok.mp h
        obtain ⟨e, he, h⟩ := bind_eq_ok.mp h
        obtain ⟨rfl, _⟩ := construct_inv h
        unfold RsaKey.encryptOaep at he
        split at he
        · cases he
        · exact ⟨salt, k, mode, label, hs, hlt, hk, hm, hl, (Except.ok.inj he).symm⟩

theorem oaepLabel_congr (P : Prims) {rsa rsa' : RsaKey} {n : Nat} {mode : Option Nat} {kdf kdf' : Option KdfData}
    (h : rsa'.der = rsa.der) (hk : kdf'.map (·.kdfInfo) = kdf.map (·.kdfInfo)) :
    oaepLabel P rsa' n mode kdf' = oaepLabel P rsa n mode kdf := by
  have h1 : rsa'.keyid P = rsa.keyid P := by simp [RsaKey.keyid, h]
  have h2 : kdfLabel kdf' = kdfLabel kdf := by
    cases kdf <;> cases kdf' <;> simp at hk
    · rfl
    · simp [kdfLabel, hk]
  simp only [oaepLabel, h1, h2]

/-- C35: unwrapping with the private key and the same key number, mode and KDF info gives back the salt and the key. -/
theorem C35_unwrap (P : Prims) (hP : P.OaepLaw) (rsa priv : RsaKey) (hder : priv.der = rsa.der)
    (hpriv : priv.hasPrivate = true) (seed : Bytes) (p : AeadParams) (c : Bytes) (h : wrapKey P rsa seed p = .ok c)
    (k : AeadKey) (hk : p.key = some k) (d : AeadData) (hn : d.keyNumber = p.keyNumber)
    (hm : ∃ m, k.mode = .ok m ∧ d.mode = some m) (hd : d.kdfData.map (·.kdfInfo) = p.kdfData.map (·.kdfInfo)) :
    ∃ salt, p.aeadSalt = some salt ∧ unwrapKey P priv c d = .ok (salt, k.key) := by
  obtain ⟨salt, k', mode, label, hs, hlt, hk', hmode, hl, rfl⟩ := wrapKey_ok h
  rw [hk] at hk'
  cases hk'
  obtain ⟨m, hm1, hm2⟩ := hm
  rw [hmode] at hm1
  cases hm1
  have hlen : 16 ≤ k.key.length := by
    rcases (AeadKey.mode_cases hmode).2.2.1 with h | h <;> omega
  have h20 : ¬ (beBytes 4 salt ++ k.key).length < 20 := by simp; omega
  have e1 : (beBytes 4 salt ++ k.key).take 4 = beBytes 4 salt := List.take_left' (by simp)
  have e2 : (beBytes 4 salt ++ k.key).drop 4 = k.key := List.drop_left' (by simp)
  refine ⟨salt, hs, ?_⟩
  simp only [unwrapKey, hn, hm2, oaepLabel_congr P hder hd, hl, ok_bind, RsaKey.decryptOaep, hpriv, if_true, hder,
    hP rsa.der seed _ label, h20, if_false, e1, e2, arrayToNumber_beBytes]
  rw [Nat.mod_eq_of_lt (by simpa using hlt)]
  rfl

/-- C35: if the wrapped key opens under one label only, then unwrapping succeeds only with the key number, mode and KDF info
it was wrapped with, and with an RSA key of the same SHA-256 key id. -/
theorem C35_label_binding (P : Prims) (rsa priv : RsaKey) (seed : Bytes) (p : AeadParams) (hp : p.keyNumber < 2 ^ 64)
    (c : Bytes) (h : wrapKey P rsa seed p = .ok c)
    (hP : ∀ l l' pt pt', P.oaepDecrypt rsa.der c l = .ok pt → P.oaepDecrypt priv.der c l' = .ok pt' → l = l')
    (hopen : ∀ l k mode, p.key = some k → k.mode = .ok mode → oaepLabel P rsa p.keyNumber (some mode) p.kdfData = .ok l →
      ∃ pt, P.oaepDecrypt rsa.der c l = .ok pt)
    (d : AeadData) (hd : d.keyNumber < 2 ^ 64) (hdm : ∀ m, d.mode = some m → m < 2 ^ 64) (r : Nat × Bytes)
    (hr : unwrapKey P priv c d = .ok r) :
    d.keyNumber = p.keyNumber ∧ (∃ k m, p.key = some k ∧ k.mode = .ok m ∧ d.mode = some m) ∧
      d.kdfData.map (·.kdfInfo) = p.kdfData.map (·.kdfInfo) ∧ P.sha256 priv.der = P.sha256 rsa.der := by
  obtain ⟨salt, k, mode, label, hs, hlt, hk, hmode, hl, hc⟩ := wrapKey_ok h
  obtain ⟨label', hl', hr⟩ := bind_eq_ok.mp hr
  obtain ⟨pt', hpt', hr⟩ := bind_eq_ok.mp hr
  unfold RsaKey.decryptOaep at hpt'
  split at hpt'
  · obtain ⟨pt, hpt⟩ := hopen label k mode hk hmode hl
    have hll := hP _ _ _ _ hpt hpt'
    subst hll
    have hmm := (AeadKey.mode_cases hmode).2.1
    obtain ⟨h1, h2, h3, h4⟩ := oaepLabel_inj hp hd (by intro m hm; cases hm; omega) hdm hl hl'
    exact ⟨h1.symm, ⟨k, mode, hk, hmode, h2.symm⟩, h3.symm, h4.symm⟩
  · cases hpt'

/-- C35: without a salt the key cannot be wrapped; without a private key it cannot be unwrapped. -/
theorem C35_requirements (P : Prims) (rsa : RsaKey) (seed : Bytes) (p : AeadParams) (c : Bytes) (d : AeadData) :
    (p.aeadSalt = none → wrapKey P rsa seed p = .error .typeError) ∧
    (rsa.hasPrivate = false → ∃ e, unwrapKey P rsa c d = .error e) := by
  refine ⟨fun h => by rw [wrapKey, h], fun h => ?_⟩
  cases hr : unwrapKey P rsa c d with
  | error e => exact ⟨e, rfl⟩
  | ok r =>
    obtain ⟨l, _, hr⟩ := bind_eq_ok.mp hr
    obtain ⟨pt, hpt, _⟩ := bind_eq_ok.mp hr
    simp [RsaKey.decryptOaep, h] at hpt

/-- C35: parameters with a salt of 32 bits and a key of a supported size are wrapped exactly if the salt and the key, `4 + 16` or `4 + 32`
octets, fit in the RSA modulus less the 66 octets of OAEP with SHA-256; otherwise ValueError. -/
theorem C35_key_fits (P : Prims) (rsa : RsaKey) (seed : Bytes) (p : AeadParams) (salt : Nat) (k : AeadKey) (mode : Nat) (label : Bytes)
    (hs : p.aeadSalt = some salt) (hlt : salt < 2 ^ 32) (hk : p.key = some k) (hm : k.mode = .ok mode)
    (hl : oaepLabel P rsa p.keyNumber (some mode) p.kdfData = .ok label)
    (hc : (P.oaepEncrypt rsa.der seed (beBytes 4 salt ++ k.key) label).length ≤ 0xFFFF) :
    (70 + k.key.length ≤ (rsa.bits + 7) / 8 → ∃ c, wrapKey P rsa seed p = .ok c) ∧
    ((rsa.bits + 7) / 8 < 70 + k.key.length → wrapKey P rsa seed p = .error .valueError) := by
  have hlen : (beBytes 4 salt ++ k.key).length = 4 + k.key.length := by simp
  unfold wrapKey
  simp only [hs, hk]
  rw [if_neg (by omega), uint32ToArray_nat _ hlt, ok_bind, hm, ok_bind, hl, ok_bind]
  unfold RsaKey.encryptOaep
  rw [hlen]
  refine ⟨fun h => ?_, fun h => ?_⟩
  · rw [if_neg (by omega), ok_bind]
    exact ⟨_, construct_ok (mkTlv_of_valid (t := ⟨T_WRAPPED_KEY, _⟩) ⟨show T_WRAPPED_KEY ≤ 0xFFFF by decide, hc⟩)⟩
  · rw [if_pos (by omega)]
    rfl

/-! ### A consumer holding only the RSA private key -/

/-- Decrypting a sequence of manifests with one `RsaOaepDecryptor`. -/
def OaepDecryptor.decryptAll (P : Prims) : OaepDecryptor → List Manifest → List (Py Manifest)
  | _, [] => []
  | s, m :: ms => let (r, s') := s.decryptManifest P m; r :: s'.decryptAll P ms

/-- Every AES entry for the key number, cached or in the keystore, decrypts like the producer's parameters. -/
def OaepDecryptor.Agrees (s : OaepDecryptor) (p : AeadParams) : Prop :=
  (∀ e ∈ s.cache, e.1.2 = p.keyNumber → e.2.SameCipher p) ∧
  ∀ q, s.keystore.getAesKey p.keyNumber = .ok q → q.SameCipher p

/-- The wrapper can be opened with a key in the keystore, giving the producer's key and salt. -/
def OaepDecryptor.CanUnwrap (P : Prims) (s : OaepDecryptor) (w : RsaOaepWrapper) (p : AeadParams) : Prop :=
  ∃ rsa c k m salt, s.keystore.getRsa P (.hash w.keyId) = .ok rsa ∧ rsa.hasPrivate = true ∧ w.wrappedKey = some c ∧
    p.key = some k ∧ k.mode = .ok m ∧ p.aeadSalt = some salt ∧ salt < 2 ^ 32 ∧
    ∀ nonce, unwrapKey P rsa c ⟨p.keyNumber, nonce, some m, p.kdfData⟩ = .ok (salt, k.key)

theorem getAesKey_add (ks : Keystore) (q : AeadParams) (n : Nat) :
    (ks.addAesKey q).getAesKey n = if q.keyNumber = n then .ok q else ks.getAesKey n := by
  unfold Keystore.getAesKey Keystore.addAesKey
  by_cases h : q.keyNumber = n
  · simp [h]
  · have : (q.keyNumber == n) = false := by simpa using h
    simp only [List.find?_cons, this, if_neg h]

theorem AeadKey.create_of_mode {k : AeadKey} {m : Nat} (h : k.mode = .ok m) : oaepAeadKey (some m) k.key = .ok k := by
  obtain ⟨_, _, hlen, hg, hc, hall⟩ := AeadKey.mode_cases h
  have e : ∀ alg, AeadKey.create alg k.key = .ok ⟨alg, k.key⟩ := by
    intro alg
    rw [AeadKey.create, if_pos (by omega)]
  unfold oaepAeadKey
  by_cases h1 : m = AEAD_AES_128_GCM ∨ m = AEAD_AES_256_GCM
  · simp only [if_pos h1, e]
    rw [← hg h1]
  · have h2 : m = AEAD_AES_128_CCM ∨ m = AEAD_AES_256_CCM := by
      rcases hall with h | h | h | h
      · exact absurd (.inl h) h1
      · exact absurd (.inr h) h1
      · exact .inl h
      · exact .inr h
    simp only [if_neg h1, if_pos h2, e]
    rw [← hc h2]

theorem AeadParams.create_ok (k : Option AeadKey) (n salt : Nat) (kd : Option KdfData) (h : salt < 2 ^ 32) :
    AeadParams.create k n (some (salt : Int)) kd none = .ok ⟨k, n, some salt, kd, none⟩ := by
  have h1 : saltCheck (some (salt : Int)) = .ok (some salt) := by
    rw [saltCheck, if_pos (by omega)]
    simp
  simp only [AeadParams.create, intTlv_eq (by decide : T_KEYNUM ≤ 0xFFFF), ok_bind, h1]
  rfl

theorem getImpl_agrees {P : Prims} {s : OaepDecryptor} {p : AeadParams} (ha : s.Agrees p)
    (hc : (∃ e ∈ s.cache, e.1.2 = p.keyNumber) → ∃ q, s.keystore.getAesKey p.keyNumber = .ok q) {d : AeadData}
    {w : Option RsaOaepWrapper} {nonce : Bytes} (hd : p.aeadData nonce = .ok d)
    (hw : (∃ q, s.keystore.getAesKey p.keyNumber = .ok q) ∨ ∃ x, w = some x ∧ s.CanUnwrap P x p) :
    ∃ q s', s.getImpl P d w = .ok (q, s') ∧ q.SameCipher p ∧ s'.Agrees p ∧
      (∃ q', s'.keystore.getAesKey p.keyNumber = .ok q') ∧
      (∀ x, s.CanUnwrap P x p → s'.CanUnwrap P x p) := by
  obtain ⟨k, m, hk, hm, rfl⟩ := AeadParams.aeadData_ok hd
  unfold OaepDecryptor.getImpl
  simp only
  split
  · rename_i e he
    have hmem := List.mem_of_find?_eq_some he
    have hp := List.find?_some he
    simp only [beq_iff_eq] at hp
    exact ⟨e.2, s, rfl, ha.1 e hmem (by rw [hp]), ha, hc ⟨e, hmem, by rw [hp]⟩, fun _ h => h⟩
  · rename_i hnone
    have hcr : ∃ q ks, oaepCreate P s.keystore ⟨p.keyNumber, nonce, some m, p.kdfData⟩ w = .ok (q, ks) ∧
        q.SameCipher p ∧ ks.getAesKey p.keyNumber = .ok q ∧ ks.byKeyid = s.keystore.byKeyid ∧
        ks.byName = s.keystore.byName := by
      cases hg : s.keystore.getAesKey p.keyNumber with
      | ok q => exact ⟨q, s.keystore, by simp [oaepCreate, hg], ha.2 q hg, hg, rfl, rfl⟩
      | error e =>
        rcases hw with ⟨q, hq⟩ | ⟨x, rfl, hx⟩
        · rw [hg] at hq; cases hq
        · obtain ⟨rsa, c, k', m', salt, h1, h2, h3, h4, h5, h6, h7, h8⟩ := hx
          rw [hk] at h4
          cases h4
          rw [hm] at h5
          cases h5
          refine ⟨⟨some k, p.keyNumber, some salt, p.kdfData, none⟩,
            s.keystore.addAesKey ⟨some k, p.keyNumber, some salt, p.kdfData, none⟩, ?_, ⟨hk.symm, rfl, h6.symm⟩, ?_, rfl,
            rfl⟩
          · simp only [oaepCreate, hg, oaepCreateByWrappedKey, h1, ok_bind, h2, h3, h8, AeadKey.create_of_mode hm,
              AeadParams.create_ok _ _ _ _ h7]
            rfl
          · rw [getAesKey_add, if_pos rfl]
    obtain ⟨q, ks, h1, h2, h3, h4, h5⟩ := hcr
    refine ⟨q, _, by rw [h1]; rfl, h2, ⟨?_, ?_⟩, ⟨q, h3⟩, ?_⟩
    · intro e he hn
      rcases List.mem_cons.mp he with rfl | he
      · exact h2
      · exact ha.1 e he hn
    · intro q' hq'
      simp only [h3] at hq'
      cases hq'
      exact h2
    · rintro x ⟨rsa, c, k', m', salt, g1, g⟩
      refine ⟨rsa, c, k', m', salt, ?_, g⟩
      have : ks.getRsa P (.hash x.keyId) = s.keystore.getRsa P (.hash x.keyId) := by
        simp only [Keystore.getRsa, Keystore.findKeyid, h4, h5]
      simp only [this, g1]

theorem decryptAll_agrees {P : Prims} (hA : P.AeadLaw) {p : AeadParams} {w : RsaOaepWrapper}
    (items : List (Bool × Bytes × Node × Manifest))
    (hi : ∀ i ∈ items, i.2.2.1.Fits64 ∧
      ∃ s, oaepEncrypt P p (some w) i.1 i.2.1 i.2.2.1 = .ok s ∧ s.manifest = .ok i.2.2.2)
    (s : OaepDecryptor) (ha : s.Agrees p) (hu : s.CanUnwrap P w p)
    (hc : (∃ e ∈ s.cache, e.1.2 = p.keyNumber) → ∃ q, s.keystore.getAesKey p.keyNumber = .ok q)
    (hfirst : (∃ q, s.keystore.getAesKey p.keyNumber = .ok q) ∨ ∀ i, items.head? = some i → i.1 = true) :
    s.decryptAll P (items.map (·.2.2.2)) = items.map (fun i => .ok (recovered i.2.2.1)) := by
  induction items generalizing s with
  | nil => rfl
  | cons i items ih =>
    obtain ⟨inc, nonce, node, m⟩ := i
    obtain ⟨hn, x, hx, hm⟩ := hi _ (List.mem_cons_self)
    simp only at hn hx hm
    obtain ⟨d, hd, henc⟩ := oaepEncrypt_ok hx
    obtain ⟨_, _, _, _, _, _, hctx, _⟩ := encryptWithCtx_ok henc
    have hw : (∃ q, s.keystore.getAesKey p.keyNumber = .ok q) ∨
        ∃ y, (if inc then some w else none) = some y ∧ s.CanUnwrap P y p := by
      rcases hfirst with h | h
      · exact .inl h
      · right
        have := h _ rfl
        simp only at this
        subst this
        exact ⟨w, rfl, hu⟩
    obtain ⟨q, s', h1, h2, h3, h4, h5⟩ := getImpl_agrees ha hc hd hw
    have hdec := (C33_oaep_roundtrip P hA p q h2 (some w) inc nonce node hn x hx m hm).1
    obtain ⟨hme, _⟩ := Sealed.manifest_ok hm
    have hsc : m.securityCtx = some (.rsaOaep d (if inc then some w else none)) := by rw [hme, hctx]
    have hstep : s.decryptManifest P m = (.ok (recovered node), s') := by
      simp only [OaepDecryptor.decryptManifest, hsc, h1, hdec]
    simp only [List.map_cons, OaepDecryptor.decryptAll, hstep]
    rw [ih (fun i hi' => hi i (List.mem_cons_of_mem _ hi')) s' h3 (h5 w hu) (fun _ => h4) (.inl h4)]

theorem oaepWrapper_ok {P : Prims} {rsa : RsaKey} {seed : Bytes} {p : AeadParams} {w : RsaOaepWrapper}
    (h : oaepWrapper P rsa seed p = .ok w) :
    ∃ c, wrapKey P rsa seed p = .ok c ∧ w = ⟨rsa.keyid P, none, some T_SHA_256, some c⟩ := by
  obtain ⟨c, hc, h⟩ := bind_eq_ok.mp h
  obtain ⟨_, _, h⟩ := bind_eq_ok.mp h
  obtain ⟨_, _, h⟩ := bind_eq_ok.mp h
  exact ⟨c, hc, (Except.ok.inj h).symm⟩

/-- C35 end to end: a consumer whose keystore holds the RSA private key, and no AES key of that number, decrypts a
sequence of manifests of which the first carries the key wrapper and the others may or may not; every node comes back. -/
theorem C35_consumer_with_private_key (P : Prims) (hA : P.AeadLaw) (hO : P.OaepLaw) (p : AeadParams) (rsa : RsaKey)
    (seed : Bytes) (w : RsaOaepWrapper) (hw : oaepWrapper P rsa seed p = .ok w) (ops : List KsOp) (priv : RsaKey)
    (hder : priv.der = rsa.der) (hpriv : priv.hasPrivate = true)
    (hkey : (rsaAddedById P (P.sha256 rsa.der) ops).getLast? = some priv) (hno : aesAdded p.keyNumber ops = [])
    (items : List (Bool × Bytes × Node × Manifest))
    (hi : ∀ i ∈ items, i.2.2.1.Fits64 ∧
      ∃ s, oaepEncrypt P p (some w) i.1 i.2.1 i.2.2.1 = .ok s ∧ s.manifest = .ok i.2.2.2)
    (hfirst : ∀ i, items.head? = some i → i.1 = true) :
    OaepDecryptor.decryptAll P { keystore := Keystore.after P ops } (items.map (·.2.2.2)) =
      items.map (fun i => .ok (recovered i.2.2.1)) := by
  obtain ⟨c, hc, rfl⟩ := oaepWrapper_ok hw
  have hga : (Keystore.after P ops).getAesKey p.keyNumber = .error .keyNumberNotFound := by
    rw [C25_get_aes_key, hno]; rfl
  refine decryptAll_agrees hA items hi _ ⟨by simp, ?_⟩ ?_ (by simp) (.inr hfirst)
  · intro q hq
    simp only [hga] at hq
    cases hq
  · obtain ⟨salt, k, mode, label, hs, hlt, hk, hmode, hl, hce⟩ := wrapKey_ok hc
    refine ⟨priv, c, k, mode, salt, ?_, hpriv, rfl, hk, hmode, hs, hlt, ?_⟩
    · have : (Keystore.after P ops).getRsa P (.hash (HashValue.sha256 (P.sha256 rsa.der))) = .ok priv := by
        rw [Keystore.getRsa, findKeyid_after, hkey]
      exact this
    · intro nonce
      obtain ⟨salt', hs', hun⟩ := C35_unwrap P hO rsa priv hder hpriv seed p c hc k hk
        ⟨p.keyNumber, nonce, some mode, p.kdfData⟩ rfl ⟨mode, hmode, rfl⟩ rfl
      rw [hs] at hs'
      cases hs'
      exact hun

/-- The manifests of such a producer are read back from the wire unchanged, so the consumer may have received them. -/
theorem C35_manifest_wire (P : Prims) (p : AeadParams) (hf : p.Fits64) (rsa : RsaKey) (seed : Bytes)
    (w : RsaOaepWrapper) (hw : oaepWrapper P rsa seed p = .ok w) (inc : Bool) (nonce : Bytes) (node : Node) (s : Sealed)
    (h : oaepEncrypt P p (some w) inc nonce node = .ok s) (m : Manifest) (hm : s.manifest = .ok m) :
    ∃ b, m.serialize = .ok b ∧ Manifest.deserialize b = .ok m := by
  obtain ⟨c, _, rfl⟩ := oaepWrapper_ok hw
  obtain ⟨d, hd, h⟩ := oaepEncrypt_ok h
  obtain ⟨_, _, _, _, _, _, hctx, _⟩ := encryptWithCtx_ok h
  obtain ⟨rfl, b, hb⟩ := Sealed.manifest_ok hm
  refine ⟨b, hb, ?_⟩
  rw [manifest_RT ?_ hb]
  · simp only [Manifest.toBytes, hctx, Option.map_some, SecurityCtx.toBytes, ManifestNode.toBytes]
    cases inc <;> rfl
  · refine ⟨?_, trivial⟩
    intro x hx
    simp only [hctx, Option.some.injEq] at hx
    subst hx
    refine ⟨AeadParams.aeadData_fits hf hd, ?_⟩
    intro y hy
    cases inc with
    | true => cases hy; intro a ha; cases ha; decide
    | false => cases hy

theorem toyPrims_oaepLaw : toyPrims.OaepLaw := by
  intro der seed pt label
  show (if (UInt8.ofNat label.length :: (label ++ pt)).take (label.length + 1) = UInt8.ofNat label.length :: label
    then .ok ((UInt8.ofNat label.length :: (label ++ pt)).drop (label.length + 1)) else .error .valueError : Py Bytes) = _
  simp

/-- A concrete run: the wrapper goes into the first manifest only, the KDF data into the label. -/
example : ((do
    let rsa : RsaKey := ⟨[1, 2, 3], true, 2048⟩
    let w ← oaepWrapper toyPrims rsa [] exampleParams
    let m1 ← (← oaepEncrypt toyPrims exampleParams (some w) true (List.replicate 8 3) exampleNode).manifest
    let m2 ← (← oaepEncrypt toyPrims exampleParams (some w) false (List.replicate 8 4) exampleNode).manifest
    return (OaepDecryptor.decryptAll toyPrims { keystore := Keystore.after toyPrims [.addRsa (.text "k") rsa] }
      [m1, m2]).map Except.isOk) : Py (List Bool)) = .ok [true, true] := by decide +kernel

/-- A key of 16 octets is wrapped by an RSA key of 688 bits, and not by one of 680 bits. -/
example : exampleParams.aeadSalt.isSome ∧ (exampleParams.key.map (·.key.length)) = some 16 ∧
    (wrapKey toyPrims ⟨[1, 2, 3], true, 688⟩ [] exampleParams).toBool = true ∧
    (wrapKey toyPrims ⟨[1, 2, 3], true, 680⟩ [] exampleParams).toBool = false := by decide +kernel

/-! ## C36 -/

/-- Calls of `get_or_create` one after the other. -/
def DecryptorCache.lookups (c : DecryptorCache) : List SecurityCtx → List (Py (Option Decryptor)) × DecryptorCache
  | [] => ([], c)
  | x :: xs =>
    let (r, c') := c.getOrCreate x
    let (rs, c'') := c'.lookups xs
    (r :: rs, c'')

/-- Specification: the right answer to a lookup. -/
def rightDecryptor (ks : Keystore) : SecurityCtx → Py (Option Decryptor)
  | .aead d => (ks.getAesKey d.keyNumber).map (fun p => some (.aead p))
  | .rsaOaep _ _ => .ok (some .oaep)

theorem getOrCreate_right {c : DecryptorCache} {x : SecurityCtx}
    (hk : ∀ d, x = .aead d → ∃ p, c.oaep.keystore.getAesKey d.keyNumber = .ok p)
    (hc : ∀ n, c.lastKeyNum = some n → n = x.aeadData.keyNumber →
      .ok c.lastDecryptor = rightDecryptor c.oaep.keystore x) :
    ∃ c', c.getOrCreate x = (rightDecryptor c.oaep.keystore x, c') ∧ c'.oaep = c.oaep ∧
      c'.lastKeyNum = some x.aeadData.keyNumber ∧ .ok c'.lastDecryptor = rightDecryptor c.oaep.keystore x := by
  unfold DecryptorCache.getOrCreate
  split
  · rename_i h
    have := hc _ h rfl
    exact ⟨c, by rw [this], rfl, h, this⟩
  · cases x with
    | aead d =>
      obtain ⟨p, hp⟩ := hk d rfl
      exact ⟨⟨some d.keyNumber, some (.aead p), c.oaep⟩,
        by simp [DecryptorCache.create, SecurityCtx.aeadData, hp, rightDecryptor, Except.map], rfl, rfl,
        by simp [rightDecryptor, hp, Except.map]⟩
    | rsaOaep d w => exact ⟨⟨some d.keyNumber, some .oaep, c.oaep⟩, rfl, rfl, rfl, rfl⟩

/-- C36: if every AEAD context looked up has its key in the keystore and no key number is used with both kinds of context,
every lookup of a new cache returns the decryptor for that context. -/
theorem C36_lookups_right (ks : Keystore) (xs : List SecurityCtx)
    (hk : ∀ d, .aead d ∈ xs → ∃ p, ks.getAesKey d.keyNumber = .ok p)
    (hkind : ∀ x ∈ xs, ∀ y ∈ xs, x.aeadData.keyNumber = y.aeadData.keyNumber → x.isOaep = y.isOaep) :
    (DecryptorCache.lookups { oaep := { keystore := ks } } xs).1 = xs.map (rightDecryptor ks) := by
  suffices H : ∀ (ys zs : List SecurityCtx) (c : DecryptorCache), ys ++ zs = xs → c.oaep.keystore = ks →
      (∀ n, c.lastKeyNum = some n → ∃ y ∈ ys, y.aeadData.keyNumber = n ∧ .ok c.lastDecryptor = rightDecryptor ks y) →
      (c.lookups zs).1 = zs.map (rightDecryptor ks) from H [] xs _ rfl rfl (by simp)
  intro ys zs
  induction zs generalizing ys with
  | nil => intros; rfl
  | cons x zs ih =>
    intro c hxs hks hinv
    have hx : x ∈ xs := by rw [← hxs]; simp
    obtain ⟨c', h1, h2, h3, h4⟩ := getOrCreate_right (c := c) (x := x)
      (by intro d hd; subst hd; rw [hks]; exact hk d hx)
      (by
        intro n hn hnx
        obtain ⟨y, hy, hyn, hyd⟩ := hinv n hn
        rw [hks, hyd]
        have hy' : y ∈ xs := by rw [← hxs]; exact List.mem_append_left _ hy
        have hkd := hkind x hx y hy' (by rw [hyn, hnx])
        have hnn : x.aeadData.keyNumber = y.aeadData.keyNumber := by rw [hyn, hnx]
        cases x <;> cases y <;> simp [SecurityCtx.isOaep] at hkd <;> simp [SecurityCtx.aeadData] at hnn <;>
          simp [rightDecryptor, hnn])
    rw [hks] at h1 h4
    simp only [DecryptorCache.lookups, h1, List.map_cons]
    rw [ih (ys ++ [x]) c' (by simpa using hxs) (by rw [h2, hks]) ?_]
    intro n hn
    rw [h3] at hn
    cases hn
    exact ⟨x, by simp, rfl, h4⟩

/-- C36, where the code falls short: after a failed lookup of key number `n2`, a second lookup of `n2` does not raise but
returns the decryptor of the previously used key number `n1`. -/
theorem C36_stale_after_failed_lookup (ks : Keystore) (d1 d2 : AeadData) (p1 : AeadParams)
    (h1 : ks.getAesKey d1.keyNumber = .ok p1) (e : PyErr) (h2 : ks.getAesKey d2.keyNumber = .error e) :
    (DecryptorCache.lookups { oaep := { keystore := ks } } [.aead d1, .aead d2, .aead d2]).1 =
      [.ok (some (.aead p1)), .error e, .ok (some (.aead p1))] := by
  have hne : d1.keyNumber ≠ d2.keyNumber := by
    intro h
    rw [h, h2] at h1
    cases h1
  simp [DecryptorCache.lookups, DecryptorCache.getOrCreate, DecryptorCache.create, SecurityCtx.aeadData, h1, h2, hne]

/-- C36: decrypting with the stale decryptor raises (ValueError), so the defect shows as an exception, never as data
decrypted under the wrong key. -/
theorem C36_stale_decryptor_raises (P : Prims) (p1 : AeadParams) (d2 : AeadData) (c t : Bytes)
    (h : d2.keyNumber ≠ p1.keyNumber) :
    aeadDecryptManifest P p1 ⟨some (.aead d2), .encrypted c, some t⟩ = .error .valueError :=
  (C34_wrong_key_number P p1 d2 c t h).1

/-- C36: with one key number used by both kinds of context, the second lookup returns a decryptor of the wrong kind. -/
theorem C36_mixed_kinds_wrong (ks : Keystore) (d : AeadData) (w : Option RsaOaepWrapper) (p : AeadParams)
    (h : ks.getAesKey d.keyNumber = .ok p) :
    (DecryptorCache.lookups { oaep := { keystore := ks } } [.aead d, .rsaOaep d w]).1 =
      [.ok (some (.aead p)), .ok (some (.aead p))] := by
  simp [DecryptorCache.lookups, DecryptorCache.getOrCreate, DecryptorCache.create, SecurityCtx.aeadData, h]

/-- A concrete history that meets the hypotheses of `C36_lookups_right` and switches between three key numbers. -/
example : (∀ d, .aead d ∈ [SecurityCtx.aead ⟨500, [], none, none⟩, .rsaOaep ⟨9, [], none, none⟩ none,
      .aead ⟨501, [], none, none⟩, .aead ⟨500, [], none, none⟩] →
    ∃ p, (Keystore.after toyPrims [.addAes exampleParams, .addAes exampleParams2]).getAesKey d.keyNumber = .ok p) := by
  intro d hd
  simp only [List.mem_cons, SecurityCtx.aead.injEq, reduceCtorEq, List.not_mem_nil, or_false, false_or] at hd
  rcases hd with rfl | rfl | rfl <;> exact ⟨_, rfl⟩

end Ccnpy
