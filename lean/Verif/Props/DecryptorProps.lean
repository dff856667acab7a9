import Verif.Props.CryptoProps

/-!
# C76: unwrapping content keys, and the cache of the RSA-OAEP decryptor
-/

namespace Ccnpy

/-- C76 (unwrapping): a wrapped key is accepted exactly if the RSA key has its private part and the ciphertext opens under the label to
a four-byte big-endian salt followed by at least 16 bytes, which are the content key. -/
theorem C76_unwrap (P : Prims) (rsa : RsaKey) (c : Bytes) (d : AeadData) (salt : Nat) (key : Bytes) :
    unwrapKey P rsa c d = .ok (salt, key) ↔
      rsa.hasPrivate = true ∧ ∃ label s, oaepLabel P rsa d.keyNumber d.mode d.kdfData = .ok label ∧
        P.oaepDecrypt rsa.der c label = .ok (s ++ key) ∧ s.length = 4 ∧ salt = arrayToNumber s ∧ 16 ≤ key.length := by
  constructor
  · intro h
    obtain ⟨label, hl, h⟩ := bind_eq_ok.mp h
    obtain ⟨pt, hpt, h⟩ := bind_eq_ok.mp h
    unfold RsaKey.decryptOaep at hpt
    split at hpt
    · rename_i hp
      split at h
      · cases h
      · cases h
        rename_i hlen
        refine ⟨hp, label, pt.take 4, hl, by rw [List.take_append_drop]; exact hpt, ?_, rfl, ?_⟩
        · rw [List.length_take]; omega
        · rw [List.length_drop]; omega
    · cases hpt
  · rintro ⟨hp, label, s, hl, hd, hs, rfl, hk⟩
    unfold unwrapKey
    rw [hl, ok_bind]
    unfold RsaKey.decryptOaep
    rw [if_pos hp, hd, ok_bind]
    have : ¬ (s ++ key).length < 20 := by rw [List.length_append]; omega
    rw [if_neg this, List.take_left' hs, List.drop_left' hs]
    rfl

/-- C76 (new key): a context whose key number is not in the keystore is served exactly if its wrapper holds a wrapped key for an RSA key
in the keystore that opens as above, with a content key of 16, 24 or 32 bytes and a mode that is GCM or CCM.  The key, salt and key number
are then filed in the keystore, and nothing else changes there. -/
theorem C76_new_key (P : Prims) (ks ks' : Keystore) (d : AeadData) (w : Option RsaOaepWrapper) (p : AeadParams) :
    oaepCreateByWrappedKey P ks d w = .ok (p, ks') ↔
      ∃ x rsa c salt key alg, w = some x ∧ x.wrappedKey = some c ∧ ks.getRsa P (.hash x.keyId) = .ok rsa ∧
        unwrapKey P rsa c d = .ok (salt, key) ∧ (key.length = 16 ∨ key.length = 24 ∨ key.length = 32) ∧
        ((alg = .gcm ∧ (d.mode = some AEAD_AES_128_GCM ∨ d.mode = some AEAD_AES_256_GCM)) ∨
         (alg = .ccm ∧ (d.mode = some AEAD_AES_128_CCM ∨ d.mode = some AEAD_AES_256_CCM))) ∧
        p = ⟨some ⟨alg, key⟩, d.keyNumber, some salt, d.kdfData, none⟩ ∧
        ks' = { ks with byKeynum := (d.keyNumber, p) :: ks.byKeynum } := by
  have hkey : ∀ mode key k, oaepAeadKey mode key = .ok k ↔
      (key.length = 16 ∨ key.length = 24 ∨ key.length = 32) ∧ ∃ alg, k = ⟨alg, key⟩ ∧
        ((alg = .gcm ∧ (mode = some AEAD_AES_128_GCM ∨ mode = some AEAD_AES_256_GCM)) ∨
         (alg = .ccm ∧ (mode = some AEAD_AES_128_CCM ∨ mode = some AEAD_AES_256_CCM))) := by
    intro mode key k
    unfold oaepAeadKey AeadKey.create
    cases mode with
    | none => simp
    | some m =>
      simp only [Option.some.injEq]
      by_cases h1 : m = AEAD_AES_128_GCM ∨ m = AEAD_AES_256_GCM
      · have h2 : ¬ (m = AEAD_AES_128_CCM ∨ m = AEAD_AES_256_CCM) := by
          rcases h1 with rfl | rfl <;> decide
        rw [if_pos h1]
        by_cases h3 : key.length = 16 ∨ key.length = 24 ∨ key.length = 32
        · rw [if_pos h3]
          simp only [Except.ok.injEq, h3, h1, h2, and_true, and_false, or_false, true_and]
          exact ⟨fun h => ⟨_, h.symm, rfl⟩, by rintro ⟨_, rfl, rfl⟩; rfl⟩
        · rw [if_neg h3]
          simp [h3]
      · rw [if_neg h1]
        by_cases h2 : m = AEAD_AES_128_CCM ∨ m = AEAD_AES_256_CCM
        · rw [if_pos h2]
          by_cases h3 : key.length = 16 ∨ key.length = 24 ∨ key.length = 32
          · rw [if_pos h3]
            simp only [Except.ok.injEq, h3, h1, h2, and_true, and_false, false_or, true_and]
            exact ⟨fun h => ⟨_, h.symm, rfl⟩, by rintro ⟨_, rfl, rfl⟩; rfl⟩
          · rw [if_neg h3]
            simp [h3]
        · rw [if_neg h2]
          simp [h1, h2]
  have hsalt : ∀ {rsa c salt key}, unwrapKey P rsa c d = .ok (salt, key) → salt < 2 ^ 32 := by
    intro rsa c salt key h
    obtain ⟨_, _, s, _, _, hs, rfl, _⟩ := (C76_unwrap P rsa c d salt key).1 h
    have := arrayToNumber_lt s
    rw [hs] at this
    exact this
  have hcreate : ∀ (k : AeadKey) (salt : Nat), salt < 2 ^ 32 →
      AeadParams.create (some k) d.keyNumber (some (salt : Int)) d.kdfData none = .ok ⟨some k, d.keyNumber, some salt, d.kdfData, none⟩ := by
    intro k salt h
    unfold AeadParams.create
    rw [intTlv_eq (by decide), ok_bind]
    have : (0 : Int) ≤ (salt : Int) ∧ (salt : Int) < 2 ^ 32 := by omega
    simp only [saltCheck, this, and_self, if_true, ok_bind, Int.toNat_natCast]
    rfl
  constructor
  · intro h
    unfold oaepCreateByWrappedKey at h
    cases w with
    | none => cases h
    | some x =>
      obtain ⟨rsa, hr, h⟩ := bind_eq_ok.mp h
      split at h
      · cases h
      · cases hc : x.wrappedKey with
        | none => rw [hc] at h; cases h
        | some c =>
          rw [hc] at h
          obtain ⟨⟨salt, key⟩, hu, h⟩ := bind_eq_ok.mp h
          obtain ⟨k, hk, h⟩ := bind_eq_ok.mp h
          obtain ⟨hlen, alg, rfl, hm⟩ := (hkey _ _ _).1 hk
          rw [hcreate _ _ (hsalt hu), ok_bind] at h
          cases h
          exact ⟨x, rsa, c, salt, key, alg, rfl, hc, hr, hu, hlen, hm, rfl, rfl⟩
  · rintro ⟨x, rsa, c, salt, key, alg, rfl, hc, hr, hu, hlen, hm, rfl, rfl⟩
    have hp := ((C76_unwrap P rsa c d salt key).1 hu).1
    unfold oaepCreateByWrappedKey
    simp only [hr, ok_bind, hp, Bool.not_true, Bool.false_eq_true, if_false, hc, hu, (hkey d.mode key _).2 ⟨hlen, alg, rfl, hm⟩,
      hcreate _ _ (hsalt hu)]
    rfl

/-- A decryptor without cache: the content key filed under the key number, or else the one in the wrapper, which is then filed. -/
def Spec.openAll (P : Prims) : Keystore → List Manifest → List (Py Manifest)
  | _, [] => []
  | ks, m :: ms =>
    match m.securityCtx with
    | some (.rsaOaep d w) =>
      match ks.getAesKey d.keyNumber with
      | .ok p => oaepDecryptManifest P p m :: Spec.openAll P ks ms
      | .error _ =>
        match oaepCreateByWrappedKey P ks d w with
        | .ok (p, ks') => oaepDecryptManifest P p m :: Spec.openAll P ks' ms
        | .error e => .error e :: Spec.openAll P ks ms
    | _ => .error .attributeError :: Spec.openAll P ks ms

/-- What the cache holds is filed in the keystore. -/
def OaepDecryptor.Faithful (s : OaepDecryptor) : Prop := ∀ e ∈ s.cache, s.keystore.getAesKey e.1.2 = .ok e.2

theorem getAesKey_filed (ks : Keystore) (n m : Nat) (p : AeadParams) :
    ({ ks with byKeynum := (n, p) :: ks.byKeynum } : Keystore).getAesKey m = if n = m then .ok p else ks.getAesKey m := by
  unfold Keystore.getAesKey
  by_cases h : n = m
  · simp [h]
  · have : (n == m) = false := by simpa using h
    simp [this, h]

/-- One manifest: the key that the cache gives is the one filed, or the new one. -/
theorem getImpl_cases {P : Prims} {s : OaepDecryptor} (hs : s.Faithful) (d : AeadData) (w : Option RsaOaepWrapper) :
    (∃ p s', s.getImpl P d w = .ok (p, s') ∧ s'.Faithful ∧
      ((s.keystore.getAesKey d.keyNumber = .ok p ∧ s'.keystore = s.keystore) ∨
       ((∃ e, s.keystore.getAesKey d.keyNumber = .error e) ∧ oaepCreateByWrappedKey P s.keystore d w = .ok (p, s'.keystore)))) ∨
    ∃ e e', s.getImpl P d w = .error e ∧ s.keystore.getAesKey d.keyNumber = .error e' ∧
      oaepCreateByWrappedKey P s.keystore d w = .error e := by
  unfold OaepDecryptor.getImpl
  simp only []
  cases hf : s.cache.find? (fun e => e.1 == (w.map (·.keyId), d.keyNumber)) with
  | some e =>
    refine .inl ⟨e.2, s, rfl, hs, .inl ⟨?_, rfl⟩⟩
    have h1 := List.find?_some hf
    have h2 := hs e (List.mem_of_find?_eq_some hf)
    have h3 : e.1 = (w.map (·.keyId), d.keyNumber) := by simpa using h1
    rw [h3] at h2
    exact h2
  | none =>
    simp only []
    unfold oaepCreate
    cases hg : s.keystore.getAesKey d.keyNumber with
    | ok p =>
      refine .inl ⟨p, _, rfl, ?_, .inl ⟨rfl, rfl⟩⟩
      intro e he
      rcases List.mem_cons.1 he with rfl | he
      · exact hg
      · exact hs e he
    | error e' =>
      cases hc : oaepCreateByWrappedKey P s.keystore d w with
      | error e => exact .inr ⟨e, e', rfl, rfl, rfl⟩
      | ok r =>
        obtain ⟨p, ks'⟩ := r
        refine .inl ⟨p, _, rfl, ?_, .inr ⟨⟨e', rfl⟩, rfl⟩⟩
        obtain ⟨x, rsa, c, salt, key, alg, _, _, _, _, _, _, _, rfl⟩ := (C76_new_key P _ _ d w p).1 hc
        intro e he
        simp only at he ⊢
        rw [getAesKey_filed]
        rcases List.mem_cons.1 he with rfl | he
        · simp
        · have := hs e he
          split
          · rename_i hn
            rw [← hn, hg] at this
            cases this
          · exact this

/-- C76 (cache): the cache of a decryptor cannot be seen: any sequence of manifests is decrypted as without it. -/
theorem C76_cache (P : Prims) (ks : Keystore) (ms : List Manifest) :
    OaepDecryptor.decryptAll P { keystore := ks } ms = Spec.openAll P ks ms := by
  suffices H : ∀ (ms : List Manifest) (s : OaepDecryptor), s.Faithful → s.decryptAll P ms = Spec.openAll P s.keystore ms from
    H ms _ (by intro e he; cases he)
  intro ms
  induction ms with
  | nil => intro s _; rfl
  | cons m ms ih =>
    intro s hs
    unfold OaepDecryptor.decryptAll Spec.openAll OaepDecryptor.decryptManifest
    cases hm : m.securityCtx with
    | none => simp only [ih s hs]
    | some ctx =>
      cases ctx with
      | aead d => simp only [ih s hs]
      | rsaOaep d w =>
        simp only []
        rcases getImpl_cases (P := P) hs d w with ⟨p, s', h1, h2, h3⟩ | ⟨e, e', h1, h2, h3⟩
        · rcases h3 with ⟨h3, h4⟩ | ⟨⟨e, h3⟩, h4⟩
          · simp only [h1, h3, ih s' h2, h4]
          · simp only [h1, h3, h4, ih s' h2]
        · simp only [h1, h2, h3, ih s hs]

/-- The decryptor after a sequence of manifests. -/
def OaepDecryptor.afterAll (P : Prims) : OaepDecryptor → List Manifest → OaepDecryptor
  | s, [] => s
  | s, m :: ms => (s.decryptManifest P m).2.afterAll P ms

/-- C76 (keys are kept): a content key that is filed under a number is not replaced by any later manifest, whatever its wrapper holds. -/
theorem C76_kept (P : Prims) (ks : Keystore) (ms ms' : List Manifest) (n : Nat) (p : AeadParams)
    (h : (OaepDecryptor.afterAll P { keystore := ks } ms).keystore.getAesKey n = .ok p) :
    (OaepDecryptor.afterAll P { keystore := ks } (ms ++ ms')).keystore.getAesKey n = .ok p := by
  have step : ∀ (s : OaepDecryptor) (m : Manifest), s.Faithful → (s.decryptManifest P m).2.Faithful ∧
      ∀ n p, s.keystore.getAesKey n = .ok p → (s.decryptManifest P m).2.keystore.getAesKey n = .ok p := by
    intro s m hs
    unfold OaepDecryptor.decryptManifest
    split
    · rename_i d w hm
      rcases getImpl_cases (P := P) hs d w with ⟨p, s', h1, h2, h3⟩ | ⟨e, e', h1, h2, h3⟩
      · simp only [h1]
        refine ⟨h2, ?_⟩
        rcases h3 with ⟨h3, h4⟩ | ⟨⟨e, h3⟩, h4⟩
        · rw [h4]; exact fun _ _ h => h
        · obtain ⟨x, rsa, c, salt, key, alg, _, _, _, _, _, _, _, hk⟩ := (C76_new_key P _ _ d w p).1 h4
          intro n q hq
          rw [hk, getAesKey_filed]
          split
          · rename_i hn
            rw [← hn, h3] at hq
            cases hq
          · exact hq
      · simp only [h1]
        exact ⟨hs, fun _ _ h => h⟩
    · exact ⟨hs, fun _ _ h => h⟩
  have all : ∀ (l : List Manifest) (s : OaepDecryptor), s.Faithful → (s.afterAll P l).Faithful ∧
      ∀ n p, s.keystore.getAesKey n = .ok p → (s.afterAll P l).keystore.getAesKey n = .ok p := by
    intro l
    induction l with
    | nil => intro s hs; exact ⟨hs, fun _ _ h => h⟩
    | cons m l ih =>
      intro s hs
      obtain ⟨h1, h2⟩ := step s m hs
      obtain ⟨h3, h4⟩ := ih _ h1
      exact ⟨h3, fun n p h => h4 n p (h2 n p h)⟩
  have happ : ∀ (l l' : List Manifest) (s : OaepDecryptor), s.afterAll P (l ++ l') = (s.afterAll P l).afterAll P l' := by
    intro l
    induction l with
    | nil => intro l' s; rfl
    | cons m l ih => intro l' s; exact ih l' _
  rw [happ]
  exact (all ms' _ (all ms _ (by intro e he; cases he)).1).2 n p h

/-- Two manifests whose wrappers carry different content keys under one key number, and one with another number: the first key stays,
the second is never filed, and the keys have the lengths and salts that were wrapped. -/
example : ((do
    let rsa : RsaKey := ⟨[1, 2, 3], true, 2048⟩
    let other : AeadParams := { exampleParams with key := some ⟨.gcm, List.replicate 16 8⟩ }
    let third : AeadParams := { exampleParams2 with aeadSalt := some 9 }
    let w1 ← oaepWrapper toyPrims rsa [] exampleParams
    let w2 ← oaepWrapper toyPrims rsa [] other
    let w3 ← oaepWrapper toyPrims rsa [] third
    let m1 ← (← oaepEncrypt toyPrims exampleParams (some w1) true (List.replicate 8 3) exampleNode).manifest
    let m2 ← (← oaepEncrypt toyPrims other (some w2) true (List.replicate 8 4) exampleNode).manifest
    let m3 ← (← oaepEncrypt toyPrims third (some w3) true (List.replicate 8 4) exampleNode).manifest
    let s := OaepDecryptor.afterAll toyPrims { keystore := Keystore.after toyPrims [.addRsa (.text "k") rsa] } [m1, m2, m3]
    return s.keystore.byKeynum.map fun e => (e.1, e.2.key, e.2.aeadSalt)) : Py (List (Nat × Option AeadKey × Option Nat))) =
    .ok [(501, some ⟨.ccm, List.replicate 32 7⟩, some 9), (500, some ⟨.gcm, List.replicate 16 7⟩, some 0x01020304)] := by
  decide +kernel

end Ccnpy
