import Verif.Props.EndToEndProps

/-!
# C108: who can read a published file
-/

namespace Ccnpy

open Spec

/-! ## Specification -/

/-- Ideal cryptography: what was made with one key is accepted with no other key (for AEAD: nor with another initialization vector). -/
structure Spec.Binding (P : Prims) : Prop where
  aead : ∀ {alg key iv pt aad c alg' key' iv' aad' pt'}, P.aeadSeal alg key iv pt aad = .ok c →
    P.aeadOpen alg' key' iv' c aad' = .ok pt' → alg' = alg ∧ key' = key ∧ iv' = iv
  oaep : ∀ {der seed pt label der' label' pt'}, P.oaepDecrypt der' (P.oaepEncrypt der seed pt label) label' = .ok pt' → der' = der
  rsa : ∀ {der d der' d'}, P.rsaVerify der' d' (P.rsaSign der d) = true → der' = der

/-- Numbers that an `AeadParameters` object can hold (`to_bytes(4)`). -/
def Spec.SaltFits (p : AeadParams) : Prop := ∀ n, p.aeadSalt = some n → n < 2 ^ 32

/-- The publisher's encryptor is one that the constructors make: numbers that fit, and for RSA-OAEP a content key wrapped for an RSA
key. -/
def Spec.ProperEncryptor (P : Prims) : Option Encryptor → Prop
  | none => True
  | some (.aead p) => p.Fits64 ∧ Spec.SaltFits p
  | some (.oaep p w) => p.Fits64 ∧ Spec.SaltFits p ∧ ∃ rsa seed, oaepWrapper P rsa seed p = .ok w

/-- The reader's AES keys are ones that the constructor makes. -/
def Spec.ProperKeys (ks : Option Keystore) : Prop := ∀ s n q, ks = some s → s.getAesKey n = .ok q → Spec.SaltFits q

/-- The traversal raises, and has written nothing. -/
def Spec.LockedOut (E : Env) (o : TreeOptions) (rd : Reader) (ks : Option Keystore) (depth : Nat) (hv : HashValue) : Prop :=
  ∃ e s, TravEnv.traverse ⟨E.prims, rd, ks⟩ depth o.name (some hv) (TState.new ks) = (.error e, s) ∧ s.writes = [] ∧ s.count ≤ 1

/-! ## Helpers -/

theorem saltBytes_inj {a b : Nat} (ha : a < 2 ^ 32) (hb : b < 2 ^ 32) (h : saltBytes a = saltBytes b) : a = b := by
  simp only [saltBytes, List.cons.injEq, and_true] at h
  obtain ⟨h1, h2, h3, h4⟩ := h
  have e : ∀ {x y : Nat}, UInt8.ofNat (x % 256) = UInt8.ofNat (y % 256) → x % 256 = y % 256 := by
    intro x y h
    have := congrArg UInt8.toNat h
    simpa using this
  have h1 := e h1
  have h2 := e h2
  have h3 := e h3
  have h4 := e h4
  omega

theorem sameCipher_of_iv {p q : AeadParams} (hp : Spec.SaltFits p) (hq : Spec.SaltFits q) {nonce : Bytes}
    (h : q.iv nonce = p.iv nonce) : q.aeadSalt = p.aeadSalt := by
  unfold AeadParams.iv at h
  cases h1 : q.aeadSalt with
  | none =>
    cases h2 : p.aeadSalt with
    | none => rfl
    | some b =>
      rw [h1, h2] at h
      have := congrArg List.length h
      simp only [saltBytes, List.length_append, List.length_cons, List.length_nil] at this
      omega
  | some a =>
    cases h2 : p.aeadSalt with
    | none =>
      rw [h1, h2] at h
      have := congrArg List.length h
      simp only [saltBytes, List.length_append, List.length_cons, List.length_nil] at this
      omega
    | some b =>
      rw [h1, h2] at h
      rw [saltBytes_inj (hq a h1) (hp b h2) (List.append_cancel_right h)]

/-- A key that opens what was sealed with the publisher's key is that key. -/
theorem sameCipher_of_opens {P : Prims} (hB : Spec.Binding P) {p q : AeadParams} (hp : Spec.SaltFits p) (hq : Spec.SaltFits q)
    {node : Node} {nonce : Bytes} {ctx ctx' : SecurityCtx} (hd : p.aeadData nonce = .ok ctx.aeadData)
    (hctx : ctx'.aeadData = ctx.aeadData) {sl : Sealed}
    (he : p.encryptWithCtx P node ctx = .ok sl) {n : Node} (h : q.decryptNode P ctx' sl.ciphertext sl.authTag = .ok n) : q.SameCipher p := by
  obtain ⟨k, t, aad, hk, _, _, _, hseal, _⟩ := encryptWithCtx_ok he
  obtain ⟨k', aad', pt, hk', _, hnum, hopen, _⟩ := decryptNode_inv h
  rw [hctx] at hnum hopen
  obtain ⟨e1, e2, e3⟩ := hB.aead hseal hopen
  obtain ⟨_, _, _, _, hdd⟩ := AeadParams.aeadData_ok hd
  refine ⟨?_, ?_, sameCipher_of_iv hp hq e3⟩
  · rw [hk, hk']
    cases k
    cases k'
    cases e1
    cases e2
    rfl
  · rw [← hnum, hdd]

/-- What validating a signed root needs. -/
theorem verify_needs {P : Prims} (hB : Spec.Binding P) {ks : Option Keystore} {sg : Option Signer} {b : ContentObject} {p : Packet}
    (h : signPacket P sg b = .ok p) (hv : validatePacket P ks p = .ok ()) : Spec.CanVerify P ks sg := by
  cases sg with
  | none => trivial
  | some sg =>
    cases sg with
    | crc32c => trivial
    | rsa key link time =>
      rintro s rfl
      obtain ⟨alg, halg, h⟩ := bind_eq_ok.mp h
      obtain ⟨rfl, _⟩ := construct_inv halg
      obtain ⟨b', hb, h⟩ := bind_eq_ok.mp h
      obtain ⟨a, ha, h⟩ := bind_eq_ok.mp h
      obtain ⟨v, hsig, h⟩ := bind_eq_ok.mp h
      obtain ⟨_, rfl⟩ := createSigned_inv h
      unfold rsaSign at hsig
      split at hsig
      · rename_i hp
        obtain ⟨sig, hs, hsig⟩ := bind_eq_ok.mp hsig
        obtain ⟨rfl, _⟩ := construct_inv hsig
        rw [RsaKey.sign, if_pos hp] at hs
        cases Except.ok.inj hs
        simp only [validatePacket] at hv
        obtain ⟨pub, hpub, hv⟩ := bind_eq_ok.mp hv
        obtain ⟨b2, _, hv⟩ := bind_eq_ok.mp hv
        obtain ⟨a2, _, hv⟩ := bind_eq_ok.mp hv
        obtain ⟨r, hr, hv⟩ := bind_eq_ok.mp hv
        refine ⟨pub, hpub, ?_⟩
        cases r with
        | false => cases hv
        | true =>
          simp only [rsaVerify, RsaKey.verify] at hr
          exact hB.rsa (Except.ok.inj hr)
      · cases hsig

/-- What opening the root manifest needs. -/
theorem decrypt_needs {E : Env} (hB : Spec.Binding E.prims) {o : TreeOptions} (he : Spec.ProperEncryptor E.prims o.encryptor)
    {ks : Option Keystore} (hks : Spec.ProperKeys ks) {node : Node} {name : Option Name} {x : Option F64}
    {sg : Option Signer} {s s' : BState} {p : Packet} (h : buildFromNode E o node name x sg true s = (.ok p, s'))
    {rd : Reader} {t t' : TState} (ht : t.cache = (TState.new ks).cache) {m m' : Manifest}
    (hparse : Manifest.fromContentObject p.body = .ok m) (hd : TravEnv.decrypt ⟨E.prims, rd, ks⟩ m t = (.ok m', t')) :
    Spec.CanDecrypt E.prims ks o.encryptor := by
  obtain ⟨m0, s1, w, hm, hw, _, hbody, _, _⟩ := buildFromNode_inv h
  have hread : ∀ m1, Manifest.deserialize w = .ok m1 → m = m1 := by
    intro m1 h1
    rw [hbody] at hparse
    exact Except.ok.inj (hparse.symm.trans h1)
  unfold buildManifest at hm
  cases ho : o.encryptor with
  | none => trivial
  | some enc =>
    rw [ho] at he
    cases enc with
    | aead q0 =>
      obtain ⟨hfit, hsalt⟩ := he
      simp only [ho] at hm
      rw [PyS.bind_run] at hm
      simp only [PyS.get_run] at hm
      rw [PyS.bind_run] at hm
      simp only [PyS.modify_run] at hm
      obtain ⟨hm, _⟩ := PyS.lift_ok hm
      obtain ⟨sl, hsl, hm⟩ := bind_eq_ok.mp hm
      obtain ⟨d, hdd, henc⟩ := aeadEncrypt_ok hsl
      obtain ⟨_, _, _, _, _, _, hctx, _⟩ := encryptWithCtx_ok henc
      obtain ⟨rfl, _⟩ := Sealed.manifest_ok hm
      rw [hctx] at hw
      have hnum : d.keyNumber = q0.keyNumber := by
        obtain ⟨k, md, _, _, rfl⟩ := AeadParams.aeadData_ok hdd
        rfl
      have hRT := manifest_RT (m := ⟨some (.aead d), .encrypted sl.ciphertext, some sl.authTag⟩)
        ⟨by rintro c ⟨⟩; exact AeadParams.aeadData_fits hfit hdd, trivial⟩ hw
      have e : m = ⟨some (.aead d), .encrypted sl.ciphertext, some sl.authTag⟩ := hread _ hRT
      subst e
      refine ⟨hfit, ?_⟩
      cases ks with
      | none => simp [TravEnv.decrypt, Manifest.isEncrypted] at hd
      | some k =>
        simp only [TravEnv.decrypt, Option.isNone_some, Bool.false_and, Bool.false_eq_true, if_false, ht, TState.new, DecryptorCache.open,
          Manifest.isEncrypted, if_true, DecryptorCache.getOrCreate, reduceCtorEq, DecryptorCache.create, Option.getD_some,
          SecurityCtx.aeadData, hnum] at hd
        cases hq : k.getAesKey q0.keyNumber with
        | error e => simp [hq, bind, Except.bind] at hd
        | ok q =>
          simp only [hq, ok_bind] at hd
          have hd : aeadDecryptManifest E.prims q ⟨some (.aead d), .encrypted sl.ciphertext, some sl.authTag⟩ = .ok m' :=
            congrArg Prod.fst hd
          obtain ⟨d', c', t', n, hparts, hn, _⟩ := aeadDecrypt_parts hd
          cases hparts
          exact ⟨k, q, rfl, hq, sameCipher_of_opens hB hsalt (hks k _ q rfl hq) (ctx := .aead d) hdd rfl henc hn⟩
    | oaep q0 wr =>
      obtain ⟨hfit, hsalt, rsa, seed, hwr⟩ := he
      obtain ⟨c0, hc0, hwr'⟩ := oaepWrapper_ok hwr
      simp only [ho] at hm
      rw [PyS.bind_run] at hm
      simp only [PyS.get_run] at hm
      rw [PyS.bind_run] at hm
      simp only [PyS.modify_run] at hm
      obtain ⟨hm, _⟩ := PyS.lift_ok hm
      obtain ⟨sl, hsl, hm⟩ := bind_eq_ok.mp hm
      obtain ⟨d, hdd, henc⟩ := oaepEncrypt_ok hsl
      obtain ⟨_, _, _, _, _, _, hctx, _⟩ := encryptWithCtx_ok henc
      obtain ⟨rfl, _⟩ := Sealed.manifest_ok hm
      simp only [if_true] at hctx henc
      rw [hctx] at hw
      have hnum : d.keyNumber = q0.keyNumber := by
        obtain ⟨k, md, _, _, rfl⟩ := AeadParams.aeadData_ok hdd
        rfl
      have halg : ∀ a, wr.hashAlg = some a → a < 2 ^ 64 := by
        rw [hwr']
        rintro a ⟨⟩
        decide
      have hRT := manifest_RT (m := ⟨some (.rsaOaep d (some wr)), .encrypted sl.ciphertext, some sl.authTag⟩)
        ⟨by rintro c ⟨⟩; exact ⟨AeadParams.aeadData_fits hfit hdd, by rintro y ⟨⟩; exact halg⟩, trivial⟩ hw
      have e : m = ⟨some (.rsaOaep d (some wr.toBytes)), .encrypted sl.ciphertext, some sl.authTag⟩ := hread _ hRT
      subst e
      refine ⟨hfit, halg, ?_⟩
      cases ks with
      | none => simp [TravEnv.decrypt, Manifest.isEncrypted] at hd
      | some k =>
        refine ⟨k, rfl, ?_⟩
        simp only [TravEnv.decrypt, Option.isNone_some, Bool.false_and, Bool.false_eq_true, if_false, ht, TState.new, DecryptorCache.open,
          Manifest.isEncrypted, if_true, DecryptorCache.getOrCreate, reduceCtorEq, DecryptorCache.create, Option.getD_some,
          DecryptorCache.decrypt, OaepDecryptor.decryptManifest, OaepDecryptor.getImpl, List.find?_nil] at hd
        cases hcr : oaepCreate E.prims k d (some wr.toBytes) with
        | error e => simp [hcr, bind, Except.bind] at hd
        | ok r =>
          obtain ⟨q, k'⟩ := r
          simp only [hcr, ok_bind] at hd
          have hd : oaepDecryptManifest E.prims q ⟨some (.rsaOaep d (some wr.toBytes)), .encrypted sl.ciphertext, some sl.authTag⟩ = .ok m' :=
            congrArg Prod.fst hd
          obtain ⟨d', w', c', t', n, hparts, hn, _⟩ := oaepDecrypt_parts hd
          cases hparts
          unfold oaepCreate at hcr
          rw [hnum] at hcr
          cases hq : k.getAesKey q0.keyNumber with
          | ok q' =>
            rw [hq] at hcr
            cases Except.ok.inj hcr
            have e2 : (SecurityCtx.rsaOaep d (some wr.toBytes)).aeadData = (SecurityCtx.rsaOaep d (some wr)).aeadData := by
              simp only [SecurityCtx.aeadData]
            exact .inl ⟨q, rfl, sameCipher_of_opens hB hsalt (hks k _ q rfl hq) (ctx := .rsaOaep d (some wr)) hdd e2 henc hn⟩
          | error e =>
            rw [hq] at hcr
            right
            refine ⟨⟨e, rfl⟩, rsa, seed, ?_⟩
            subst hwr'
            simp only [oaepCreateByWrappedKey, RsaOaepWrapper.toBytes] at hcr
            obtain ⟨priv, hpriv, hcr⟩ := bind_eq_ok.mp hcr
            split at hcr
            · cases hcr
            · rename_i hp
              obtain ⟨⟨salt, key⟩, hun, hcr⟩ := bind_eq_ok.mp hcr
              obtain ⟨label, _, hun⟩ := bind_eq_ok.mp hun
              obtain ⟨pt, hpt, hun⟩ := bind_eq_ok.mp hun
              obtain ⟨_, _, _, label0, _, _, _, _, _, hce⟩ := wrapKey_ok hc0
              have hp : priv.hasPrivate = true := by simpa using hp
              refine ⟨priv, hwr, hpriv, ?_, hp⟩
              rw [RsaKey.decryptOaep, if_pos hp] at hpt
              have hpt : E.prims.oaepDecrypt priv.der c0 label = .ok pt := hpt
              rw [hce] at hpt
              exact hB.oaep hpt

/-- An encrypted manifest is read back as an encrypted manifest. -/
theorem sealed_parse {E : Env} {o : TreeOptions} (he : Spec.ProperEncryptor E.prims o.encryptor) (henc : o.encryptor ≠ none)
    {node : Node} {name : Option Name} {x : Option F64}
    {sg : Option Signer} {s s' : BState} {p : Packet} (h : buildFromNode E o node name x sg true s = (.ok p, s')) :
    ∃ ctx c t, Manifest.fromContentObject p.body = .ok ⟨some ctx, .encrypted c, some t⟩ := by
  obtain ⟨m0, s1, w, hm, hw, _, hbody, _, _⟩ := buildFromNode_inv h
  have hread : ∀ m1, Manifest.deserialize w = .ok m1 → Manifest.fromContentObject p.body = .ok m1 := by
    intro m1 h1
    rw [hbody]
    exact h1
  unfold buildManifest at hm
  cases ho : o.encryptor with
  | none => exact absurd ho henc
  | some enc =>
    rw [ho] at he
    cases enc with
    | aead q0 =>
      simp only [ho] at hm
      rw [PyS.bind_run] at hm
      simp only [PyS.get_run] at hm
      rw [PyS.bind_run] at hm
      simp only [PyS.modify_run] at hm
      obtain ⟨hm, _⟩ := PyS.lift_ok hm
      obtain ⟨sl, hsl, hm⟩ := bind_eq_ok.mp hm
      obtain ⟨d, hdd, henc⟩ := aeadEncrypt_ok hsl
      obtain ⟨_, _, _, _, _, _, hctx, _⟩ := encryptWithCtx_ok henc
      obtain ⟨rfl, _⟩ := Sealed.manifest_ok hm
      rw [hctx] at hw
      exact ⟨_, _, _, hread _ (manifest_RT (m := ⟨some (.aead d), .encrypted sl.ciphertext, some sl.authTag⟩)
        ⟨by rintro c ⟨⟩; exact AeadParams.aeadData_fits he.1 hdd, trivial⟩ hw)⟩
    | oaep q0 wr =>
      obtain ⟨hfit, hsalt, rsa, seed, hwr⟩ := he
      obtain ⟨c0, hc0, rfl⟩ := oaepWrapper_ok hwr
      simp only [ho] at hm
      rw [PyS.bind_run] at hm
      simp only [PyS.get_run] at hm
      rw [PyS.bind_run] at hm
      simp only [PyS.modify_run] at hm
      obtain ⟨hm, _⟩ := PyS.lift_ok hm
      obtain ⟨sl, hsl, hm⟩ := bind_eq_ok.mp hm
      obtain ⟨d, hdd, henc⟩ := oaepEncrypt_ok hsl
      obtain ⟨_, _, _, _, _, _, hctx, _⟩ := encryptWithCtx_ok henc
      obtain ⟨rfl, _⟩ := Sealed.manifest_ok hm
      simp only [if_true] at hctx
      rw [hctx] at hw
      exact ⟨_, _, _, hread _ (manifest_RT (m := ⟨some (.rsaOaep d (some _)), .encrypted sl.ciphertext, some sl.authTag⟩)
        ⟨by rintro c ⟨⟩; exact ⟨AeadParams.aeadData_fits hfit hdd, by rintro y ⟨⟩; rintro a ⟨⟩; decide⟩, trivial⟩ hw)⟩

theorem TravEnv.decrypt_frame (T : TravEnv) (m : Manifest) (t : TState) :
    (T.decrypt m t).2.writes = t.writes ∧ (T.decrypt m t).2.count = t.count := by
  unfold TravEnv.decrypt
  split
  · exact ⟨rfl, rfl⟩
  · exact ⟨rfl, rfl⟩

variable {E : Env} {L : FloatLog} {o : TreeOptions} {nc : Nat} {input : Stream} {root : Packet} {out : List Packet}
  {store : MemoryStore} {ks : Option Keystore}

/-- The root, as it was made. -/
theorem FileRun.root_made (R : FileRun E L o nc input root out) :
    ∃ node s s', buildFromNode E o node o.name o.rootExpiry o.signer true s = (.ok root, s') := by
  have hroot := R.root_ok
  unfold rootPacket at hroot
  obtain ⟨g, hg, hroot⟩ := PyS.liftBind_ok hroot
  obtain ⟨node, hn, hroot⟩ := PyS.liftBind_ok hroot
  obtain ⟨p, s1, hp, hroot⟩ := PyS.bind_ok hroot
  have e : p = root := by
    have := congrArg (fun x => x.1) hroot
    cases this
    rfl
  subst e
  exact ⟨node, _, _, hp⟩

/-! ## C108 -/

/-- C108: a reader that does not have what is needed to verify the root's signature and to decrypt its node gets an exception and not
one byte of the file, whatever else it is given: the traversal stops at the root at the latest. -/
theorem C108_locked_out (h : manifestTree E L o nc input = (.ok root, out)) (hB : Spec.Binding E.prims)
    (he : Spec.ProperEncryptor E.prims o.encryptor) (hks : Spec.ProperKeys ks)
    (hno : ¬ (Spec.CanVerify E.prims ks o.signer ∧ Spec.CanDecrypt E.prims ks o.encryptor)) {hv : HashValue} {rd : Reader}
    (hrd : rd o.name (some hv) = .ok root) (depth : Nat) : Spec.LockedOut E o rd ks depth hv := by
  obtain ⟨R⟩ := manifestTree_ok h
  obtain ⟨node, s, s', hb⟩ := R.root_made
  obtain ⟨_, _, w, _, _, _, hbody, hsign, _⟩ := buildFromNode_inv hb
  have htype : root.body.payloadType = some PT_MANIFEST := by rw [hbody]; rfl
  unfold Spec.LockedOut TravEnv.traverse
  rw [PyS.liftBind_run hrd]
  cases hval : validatePacket E.prims ks root with
  | error e => exact ⟨e, TState.new ks, PyS.bind_of_error rfl, rfl, Nat.zero_le _⟩
  | ok u =>
    have hver := verify_needs hB hsign hval
    have hdec : ¬ Spec.CanDecrypt E.prims ks o.encryptor := fun h => hno ⟨hver, h⟩
    rw [PyS.liftBind_run rfl]
    cases depth with
    | zero => exact ⟨.nonTermination, TState.new ks, rfl, rfl, Nat.zero_le _⟩
    | succ depth =>
      unfold TravEnv.preorder
      cases hh : root.hash E.prims.sha256 with
      | error e => exact ⟨e, TState.new ks, PyS.bind_of_error rfl, rfl, Nat.zero_le _⟩
      | ok hv' =>
        rw [PyS.liftBind_run rfl]
        rw [PyS.bind_run, PyS.modify_run]
        simp only [htype, if_true]
        cases hm : Manifest.fromContentObject root.body with
        | error e => exact ⟨e, _, PyS.bind_of_error rfl, rfl, Nat.le_refl _⟩
        | ok m =>
          rw [PyS.liftBind_run rfl, PyS.bind_run]
          have hf := TravEnv.decrypt_frame ⟨E.prims, rd, ks⟩ m { TState.new ks with count := (TState.new ks).count + 1 }
          cases hd : TravEnv.decrypt ⟨E.prims, rd, ks⟩ m { TState.new ks with count := (TState.new ks).count + 1 } with
          | mk r t =>
            rw [hd] at hf
            cases r with
            | error e => exact ⟨e, t, rfl, hf.1, Nat.le_of_eq hf.2⟩
            | ok m' => exact absurd (decrypt_needs hB he hks hb (t := { TState.new ks with count := (TState.new ks).count + 1 }) rfl hm hd) hdec

/-- C108: with hashed or prefix names, of the readers that have all packets exactly those with the keys read the file; the others get
nothing. -/
theorem C108_exactly (hty : o.schemaType ≠ .segmented) (h : manifestTree E L o nc input = (.ok root, out)) (hB : Spec.Binding E.prims)
    (hA : E.prims.AeadLaw) (hO : E.prims.OaepLaw) (hR : E.prims.RsaLaw)
    (he : Spec.ProperEncryptor E.prims o.encryptor) (hks : Spec.ProperKeys ks) (hn : Spec.PlainNames o) (hc : nc + 1 < 2 ^ 64)
    (ht : Spec.TextLocators o) (hs : Spec.Holds E.prims out store) (hcol : Spec.NoCollision E.prims out) :
    ∃ hv, root.hash E.prims.sha256 = .ok hv ∧ ∀ depth, out.length ≤ depth →
      (Spec.CanVerify E.prims ks o.signer ∧ Spec.CanDecrypt E.prims ks o.encryptor →
        Spec.Returned E o out store ks depth hv input.rest) ∧
      (¬ (Spec.CanVerify E.prims ks o.signer ∧ Spec.CanDecrypt E.prims ks o.encryptor) →
        Spec.LockedOut E o (store.reader E.prims) ks depth hv) := by
  obtain ⟨R⟩ := manifestTree_ok h
  obtain ⟨hv, hh⟩ := R.root_hash
  refine ⟨hv, hh, fun depth hd => ⟨?_, ?_⟩⟩
  · rintro ⟨h1, h2⟩
    obtain ⟨hv', hh', hw⟩ := C49_file_returned hty h ⟨⟨⟨hA, hO, hR, h1, h2, hn, hc⟩, ht⟩, hs, hcol⟩
    cases Except.ok.inj (hh.symm.trans hh')
    exact hw depth hd
  · intro hno
    exact C108_locked_out h hB he hks hno (R.root_served (R.servedBy (hs.serves hcol) ks) hv hh) depth

/-- C108: so such a reader ends with the whole file or with nothing of it. -/
theorem C108_all_or_nothing (hty : o.schemaType ≠ .segmented) (h : manifestTree E L o nc input = (.ok root, out))
    (hB : Spec.Binding E.prims) (hA : E.prims.AeadLaw) (hO : E.prims.OaepLaw) (hR : E.prims.RsaLaw)
    (he : Spec.ProperEncryptor E.prims o.encryptor) (hks : Spec.ProperKeys ks) (hn : Spec.PlainNames o) (hc : nc + 1 < 2 ^ 64)
    (ht : Spec.TextLocators o) (hs : Spec.Holds E.prims out store) (hcol : Spec.NoCollision E.prims out) :
    ∃ hv, root.hash E.prims.sha256 = .ok hv ∧ ∀ depth, out.length ≤ depth → ∀ r t,
      TravEnv.traverse ⟨E.prims, store.reader E.prims, ks⟩ depth o.name (some hv) (TState.new ks) = (r, t) →
        (r = .ok () ∧ t.writes.flatten = input.rest) ∨ ((∃ e, r = .error e) ∧ t.writes = []) := by
  obtain ⟨hv, hh, hw⟩ := C108_exactly hty h hB hA hO hR he hks hn hc ht hs hcol
  refine ⟨hv, hh, fun depth hd r t hrun => ?_⟩
  by_cases hk : Spec.CanVerify E.prims ks o.signer ∧ Spec.CanDecrypt E.prims ks o.encryptor
  · obtain ⟨t', h1, h2, _⟩ := (hw depth hd).1 hk
    obtain ⟨rfl, rfl⟩ := Prod.mk.inj (hrun.symm.trans h1)
    exact .inl ⟨rfl, h2⟩
  · obtain ⟨e, t', h1, h2, _⟩ := (hw depth hd).2 hk
    obtain ⟨rfl, rfl⟩ := Prod.mk.inj (hrun.symm.trans h1)
    exact .inr ⟨⟨e, rfl⟩, h2⟩

/-- C108: a reader without a keystore verifies no RSA signature, but it cannot open an encrypted tree either: AttributeError at the root. -/
theorem C108_no_keystore (h : manifestTree E L o nc input = (.ok root, out)) (hR : E.prims.RsaLaw)
    (he : Spec.ProperEncryptor E.prims o.encryptor) (henc : o.encryptor ≠ none) {hv : HashValue} {rd : Reader}
    (hrd : rd o.name (some hv) = .ok root) (depth : Nat) :
    ∃ s, TravEnv.traverse ⟨E.prims, rd, none⟩ (depth + 1) o.name (some hv) (TState.new none) = (.error .attributeError, s) ∧
      s.writes = [] ∧ s.count = 1 := by
  obtain ⟨R⟩ := manifestTree_ok h
  obtain ⟨node, s, s', hb⟩ := R.root_made
  obtain ⟨_, _, w, _, _, _, hbody, hsign, _⟩ := buildFromNode_inv hb
  have htype : root.body.payloadType = some PT_MANIFEST := by rw [hbody]; rfl
  have hval : validatePacket E.prims none root = .ok () := signPacket_valid hR (by
    unfold Spec.CanVerify
    split
    · rintro s ⟨⟩
    · trivial) hsign
  obtain ⟨hv', hh⟩ := R.root_hash
  obtain ⟨ctx, c, t, hm⟩ := sealed_parse he henc hb
  unfold TravEnv.traverse
  rw [PyS.liftBind_run hrd, PyS.liftBind_run hval]
  unfold TravEnv.preorder
  rw [PyS.liftBind_run hh, PyS.bind_run, PyS.modify_run]
  simp only [htype, if_true]
  rw [PyS.liftBind_run hm]
  exact ⟨_, PyS.bind_of_error rfl, rfl, rfl⟩

/-! ## The hypotheses can be met -/

namespace Toy

/-- A code of byte strings in which no code word begins another. -/
def code (b : Bytes) : Bytes := b.flatMap (fun x => [1, x]) ++ [0]

theorem code_inj : ∀ {a b x y : Bytes}, code a ++ x = code b ++ y → a = b ∧ x = y
  | [], [], x, y, h => ⟨rfl, by simpa [code] using h⟩
  | [], c :: b, x, y, h => by simp [code] at h
  | c :: a, [], x, y, h => by simp [code] at h
  | c :: a, d :: b, x, y, h => by
    simp only [code, List.flatMap_cons, List.cons_append, List.nil_append, List.append_assoc, List.cons.injEq, true_and] at h
    obtain ⟨rfl, h⟩ := h
    obtain ⟨rfl, rfl⟩ := code_inj (a := a) (b := b) (x := x) (y := y) (by simpa [code] using h)
    exact ⟨rfl, rfl⟩

/-- The mark that sealing leaves. -/
def mark (alg : AeadAlg) (key iv : Bytes) : Bytes := code [if alg = .gcm then 1 else 2] ++ (code key ++ code iv)

/-- What follows the given beginning. -/
def after (m c : Bytes) : Py Bytes := if m.isPrefixOf c then .ok (c.drop m.length) else .error .invalidTag

theorem after_append (m x : Bytes) : after m (m ++ x) = .ok x := by simp [after]

theorem after_ok {m c x : Bytes} (h : after m c = .ok x) : c = m ++ x := by
  unfold after at h
  split at h
  · rename_i hp
    obtain ⟨y, rfl⟩ := List.isPrefixOf_iff_prefix.mp hp
    cases Except.ok.inj h
    simp
  · cases h

/-- Toy primitives that bind: every output shows the key it was made with. -/
def bound : Prims := { prims with
  aeadSeal := fun alg key iv p _ => .ok (mark alg key iv ++ p)
  aeadOpen := fun alg key iv c _ => after (mark alg key iv) c
  rsaSign := fun der d => code der ++ d
  rsaVerify := fun der d s => s == code der ++ d
  oaepEncrypt := fun der _ p _ => code der ++ p
  oaepDecrypt := fun der c _ => after (code der) c }

theorem bound_binding : Spec.Binding bound where
  aead := by
    intro alg key iv pt aad c alg' key' iv' aad' pt' h1 h2
    cases Except.ok.inj h1
    have h2 := after_ok h2
    simp only [mark, List.append_assoc] at h2
    obtain ⟨e1, h2⟩ := code_inj h2
    obtain ⟨e2, h2⟩ := code_inj h2
    obtain ⟨e3, _⟩ := code_inj h2
    refine ⟨?_, e2.symm, e3.symm⟩
    cases alg <;> cases alg' <;> first | rfl | (revert e1; decide)
  oaep := by
    intro der seed pt label der' label' pt' h
    exact (code_inj (after_ok h)).1.symm
  rsa := by
    intro der d der' d' h
    exact (code_inj (beq_iff_eq.mp h)).1.symm

theorem bound_aead : bound.AeadLaw := by
  intro alg key iv pt aad c h
  cases Except.ok.inj h
  exact after_append _ _

theorem bound_oaep : bound.OaepLaw := fun _ _ _ _ => after_append _ _

theorem bound_rsa : bound.RsaLaw := fun der d => beq_self_eq_true (code der ++ d)

def boundEnv : Env := { env with prims := bound }

/-- RSA signature, AEAD encryption, prefix names. -/
def lockedOptions : TreeOptions :=
  { options .prefixed true with signer := some (.rsa rsa none (F64.ofNat 0)), maxPacketSize := 350 }

/-- The keystore of a reader that is let in. -/
def goodKeys : Keystore := (Keystore.addAesKey {} key).addRsaKey bound (.text "k") rsa

/-- A keystore with another AES key under the number. -/
def wrongKeys : Keystore := (Keystore.addAesKey {} { key with key := some ⟨.gcm, List.replicate 16 2⟩ }).addRsaKey bound (.text "k") rsa

/-- A keystore without the signer's key. -/
def strangerKeys : Keystore := Keystore.addAesKey {} key

/-- The build returns, the packets go into a store, their hashes differ, and `n` of them are data objects. -/
def boundPublished (o : TreeOptions) (input : Stream) (n : Nat) : Bool :=
  match manifestTree boundEnv Spec.exactLog o 1 input with
  | (.ok _, out) => (MemoryStore.putAll bound {} out).isOk && (Spec.dataOf out).length == n &&
      decide ((out.map (fun p => (p.hash bound.sha256).toOption)).Nodup)
  | _ => false

theorem lockedProper : Spec.ProperEncryptor bound lockedOptions.encryptor := ⟨⟨by decide, fun _ h => by cases h⟩, fun _ h => by cases h⟩

theorem properKeys {s : Keystore} (h : ∀ e ∈ s.byKeynum, e.2.aeadSalt = none) : Spec.ProperKeys (some s) := by
  rintro _ n q ⟨⟩ hq k hk
  unfold Keystore.getAesKey at hq
  split at hq
  · rename_i e he
    cases Except.ok.inj hq
    rw [h e (List.mem_of_find?_eq_some he)] at hk
    cases hk
  · cases hq

theorem goodVerify : Spec.CanVerify bound (some goodKeys) lockedOptions.signer := by
  rintro s ⟨⟩
  exact ⟨rsa, by decide +kernel, rfl⟩

theorem goodDecrypt : Spec.CanDecrypt bound (some goodKeys) lockedOptions.encryptor :=
  ⟨⟨by decide, fun _ h => by cases h⟩, goodKeys, key, rfl, rfl, rfl, rfl, rfl⟩

theorem wrongDecrypt : ¬ Spec.CanDecrypt bound (some wrongKeys) lockedOptions.encryptor := by
  rintro ⟨_, s, q, ⟨⟩, h1, h2, _⟩
  have : wrongKeys.getAesKey key.keyNumber = .ok { key with key := some ⟨.gcm, List.replicate 16 2⟩ } := rfl
  cases Except.ok.inj (h1.symm.trans this)
  revert h2
  decide

theorem strangerVerify : ¬ Spec.CanVerify bound (some strangerKeys) lockedOptions.signer := by
  intro h
  obtain ⟨pub, h, _⟩ := h strangerKeys rfl
  have : strangerKeys.getRsa bound (.hash (rsa.keyid bound)) = .error .keyIdNotFound := by decide +kernel
  cases this.symm.trans h

/-- One build, any readers. -/
theorem boundExactly {o : TreeOptions} {n : Nat} (hty : o.schemaType ≠ .segmented) (hp : Spec.ProperEncryptor bound o.encryptor)
    (hn : Spec.PlainNames o) (ht : Spec.TextLocators o) (h : boundPublished o (shortReads 32) n = true) :
    ∃ root out store hv, manifestTree boundEnv Spec.exactLog o 1 (shortReads 32) = (.ok root, out) ∧ (Spec.dataOf out).length = n ∧
      ∀ ks, Spec.ProperKeys ks →
        (Spec.CanVerify bound ks o.signer ∧ Spec.CanDecrypt bound ks o.encryptor →
          Spec.Returned boundEnv o out store ks out.length hv (bytes 32)) ∧
        (¬ (Spec.CanVerify bound ks o.signer ∧ Spec.CanDecrypt bound ks o.encryptor) →
          Spec.LockedOut boundEnv o (store.reader bound) ks out.length hv) := by
  unfold boundPublished at h
  rcases hm : manifestTree boundEnv Spec.exactLog o 1 (shortReads 32) with ⟨e | root, out⟩
  · rw [hm] at h
    cases h
  · rw [hm] at h
    simp only [Bool.and_eq_true, beq_iff_eq, decide_eq_true_eq] at h
    obtain ⟨⟨h1, h2⟩, h3⟩ := h
    cases hs : MemoryStore.putAll bound {} out with
    | error e => rw [hs] at h1; cases h1
    | ok store =>
      have hcol : Spec.NoCollision boundEnv.prims out := by
        intro p hp q hq hv h1 h2
        exact List.inj_on_of_nodup_map h3 hp hq (congrArg Except.toOption (h1.trans h2.symm))
      obtain ⟨R⟩ := manifestTree_ok hm
      obtain ⟨hv, hh⟩ := R.root_hash
      refine ⟨root, out, store, hv, rfl, h2, fun ks hks => ?_⟩
      obtain ⟨hv', hh', k⟩ := C108_exactly (E := boundEnv) (ks := ks) (store := store)
        hty hm bound_binding bound_aead bound_oaep bound_rsa hp hks hn (by decide) ht (.inl hs) hcol
      cases Except.ok.inj (hh.symm.trans hh')
      exact k _ (Nat.le_refl _)

set_option maxRecDepth 100000 in
/-- C108: a signed and encrypted tree of several manifests, and four readers: one has both keys, one another AES key under the same
number, one has only the AES key, one has no keystore.  The first reads the file, the others nothing. -/
example : ∃ root out store hv, manifestTree boundEnv Spec.exactLog lockedOptions 1 (shortReads 32) = (.ok root, out) ∧
    (Spec.dataOf out).length = 8 ∧ Spec.Returned boundEnv lockedOptions out store (some goodKeys) out.length hv (bytes 32) ∧
    Spec.LockedOut boundEnv lockedOptions (store.reader bound) (some wrongKeys) out.length hv ∧
    Spec.LockedOut boundEnv lockedOptions (store.reader bound) (some strangerKeys) out.length hv ∧
    Spec.LockedOut boundEnv lockedOptions (store.reader bound) none out.length hv := by
  obtain ⟨root, out, store, hv, h1, h2, k⟩ := boundExactly (o := lockedOptions) (n := 8) (fun h => by cases h) lockedProper
    (plain ⟨rfl, rfl, rfl⟩) (text rfl rfl rfl) (by decide +kernel)
  refine ⟨root, out, store, hv, h1, h2, (k _ (properKeys (by decide))).1 ⟨goodVerify, goodDecrypt⟩,
    (k _ (properKeys (by decide))).2 fun h => wrongDecrypt h.2, (k _ (properKeys (by decide))).2 fun h => strangerVerify h.1,
    (k _ (by rintro s n q ⟨⟩)).2 ?_⟩
  rintro ⟨_, _, s, q, ⟨⟩, _⟩

/-- The salted key, wrapped. -/
def boundWrapper : RsaOaepWrapper :=
  ⟨rsa.keyid bound, none, some T_SHA_256, some (code rsa.der ++ ([0, 0, 0, 9] ++ List.replicate 16 1))⟩

/-- CRC-32C signature, RSA-OAEP encryption, hashed names. -/
def wrappedTree : TreeOptions := { options .hashed false with maxPacketSize := 350, encryptor := some (.oaep saltedKey boundWrapper) }

/-- A keystore with the private RSA key, and one with the public key only. -/
def privateKey : Keystore := Keystore.addRsaKey bound {} (.text "k") rsa
def publicKey : Keystore := Keystore.addRsaKey bound {} (.text "k") { rsa with hasPrivate := false }

set_option maxRecDepth 100000 in
/-- C108: RSA-OAEP; the private key opens the tree, the public key does not. -/
example : ∃ root out store hv, manifestTree boundEnv Spec.exactLog wrappedTree 1 (shortReads 32) = (.ok root, out) ∧
    (Spec.dataOf out).length = 8 ∧ Spec.Returned boundEnv wrappedTree out store (some privateKey) out.length hv (bytes 32) ∧
    Spec.LockedOut boundEnv wrappedTree (store.reader bound) (some publicKey) out.length hv := by
  have hfit : saltedKey.Fits64 := ⟨by decide, fun _ h => by cases h⟩
  have hw : oaepWrapper bound rsa [] saltedKey = .ok boundWrapper := by decide +kernel
  obtain ⟨root, out, store, hv, h1, h2, k⟩ := boundExactly (o := wrappedTree) (n := 8) (fun h => by cases h)
    ⟨hfit, by rintro n ⟨⟩; decide, rsa, [], hw⟩ (plain ⟨rfl, rfl, rfl⟩) (text rfl rfl rfl) (by decide +kernel)
  have hno : privateKey.getAesKey 5 = .error .keyNumberNotFound := by decide +kernel
  have hno' : publicKey.getAesKey 5 = .error .keyNumberNotFound := by decide +kernel
  have hget : privateKey.getRsa bound (.hash (rsa.keyid bound)) = .ok rsa := by decide +kernel
  have hget' : publicKey.getRsa bound (.hash (rsa.keyid bound)) = .ok { rsa with hasPrivate := false } := by decide +kernel
  refine ⟨root, out, store, hv, h1, h2, (k _ (properKeys (by decide))).1 ⟨trivial, hfit, ?_, privateKey, rfl,
    .inr ⟨⟨_, hno⟩, rsa, [], rsa, hw, hget, rfl, rfl⟩⟩, (k _ (properKeys (by decide))).2 ?_⟩
  · rintro a ⟨⟩
    decide
  · rintro ⟨_, _, _, s, ⟨⟩, ⟨q, hq, _⟩ | ⟨_, r, seed, priv, hr, hp, _, hpriv⟩⟩
    · cases hno'.symm.trans hq
    · obtain ⟨c, hc, e⟩ := oaepWrapper_ok hr
      have : r.keyid bound = rsa.keyid bound := (congrArg RsaOaepWrapper.keyId e).symm
      rw [this] at hp
      cases Except.ok.inj (hget'.symm.trans hp)
      cases hpriv

end Toy

end Ccnpy
