import Verif.Props.AccessProps
import Verif.Props.AgainProps
import Verif.Props.DecryptorProps

/-!
# C109: wrapped content keys are filed by their number only
-/

namespace Ccnpy

open Spec

/-! ## Specification -/

/-- The key number that the manifests show. -/
def Encryptor.keyNumber : Encryptor → Nat
  | .aead p => p.keyNumber
  | .oaep p _ => p.keyNumber

/-- Two encryptors with one key number: both take the key from the keystore, or both wrap the same key. -/
def Spec.Agree : Encryptor → Encryptor → Prop
  | .aead _, .aead _ => True
  | .oaep p _, .oaep q _ => p.SameCipher q
  | _, _ => False

/-- Among the files, one key number means one thing. -/
def Spec.OneMeaning (bs : List Spec.Publication) : Prop :=
  ∀ a ∈ bs, ∀ b ∈ bs, ∀ x y, a.options.encryptor = some x → b.options.encryptor = some y → x.keyNumber = y.keyNumber → Spec.Agree x y

/-! ## Helpers -/

/-- What opening manifests with one key number does to a decryptor cache: it remembers the number, and files at most a key of that number. -/
structure DecryptorCache.Later (n : Nat) (c c' : DecryptorCache) : Prop where
  last : c'.lastKeyNum = some n
  byKeyid : c'.oaep.keystore.byKeyid = c.oaep.keystore.byKeyid
  byName : c'.oaep.keystore.byName = c.oaep.keystore.byName
  kept : ∀ k x, c.oaep.keystore.getAesKey k = .ok x → c'.oaep.keystore.getAesKey k = .ok x
  other : ∀ k x, k ≠ n → c'.oaep.keystore.getAesKey k = .ok x → c.oaep.keystore.getAesKey k = .ok x
  faithful : c'.oaep.Faithful

theorem DecryptorCache.Later.trans {n : Nat} {a b c : DecryptorCache} (h : a.Later n b) (k : b.Later n c) : a.Later n c :=
  ⟨k.last, k.byKeyid.trans h.byKeyid, k.byName.trans h.byName, fun i x hx => k.kept i x (h.kept i x hx),
    fun i x hi hx => h.other i x hi (k.other i x hi hx), k.faithful⟩

theorem oaep_later {P : Prims} {s s' : OaepDecryptor} (hs : s.Faithful) {m r : Manifest} (h : s.decryptManifest P m = (.ok r, s')) :
    ∃ d w, m.securityCtx = some (.rsaOaep d w) ∧ s'.keystore.byKeyid = s.keystore.byKeyid ∧ s'.keystore.byName = s.keystore.byName ∧
      (∀ k x, s.keystore.getAesKey k = .ok x → s'.keystore.getAesKey k = .ok x) ∧
      (∀ k x, k ≠ d.keyNumber → s'.keystore.getAesKey k = .ok x → s.keystore.getAesKey k = .ok x) ∧ s'.Faithful := by
  unfold OaepDecryptor.decryptManifest at h
  split at h
  · rename_i d w hm
    refine ⟨d, w, hm, ?_⟩
    rcases getImpl_cases (P := P) hs d w with ⟨p, t, h1, h2, h3⟩ | ⟨e, e', h1, h2, h3⟩
    · rw [h1] at h
      cases (Prod.mk.inj h).2
      rcases h3 with ⟨_, h4⟩ | ⟨⟨e, h3⟩, h4⟩
      · rw [h4]
        exact ⟨rfl, rfl, fun _ _ h => h, fun _ _ _ h => h, h2⟩
      · obtain ⟨x, rsa, c, salt, key, alg, _, _, _, _, _, _, _, hk⟩ := (C76_new_key P _ _ d w p).1 h4
        rw [hk]
        refine ⟨rfl, rfl, fun k x hx => ?_, fun k x hn hx => ?_, h2⟩
        · rw [getAesKey_filed]
          split
          · rename_i hn
            rw [← hn, h3] at hx
            cases hx
          · exact hx
        · rw [getAesKey_filed, if_neg (Ne.symm hn)] at hx
          exact hx
    · rw [h1] at h
      cases h
  · cases h

theorem open_later {P : Prims} {enc : Encryptor} {m r : Manifest} {c c' : DecryptorCache} (hs : SealedFor (some enc) m)
    (hf : c.oaep.Faithful) (ho : c.open P m = (.ok r, c')) : c.Later enc.keyNumber c' := by
  have hdec : ∀ (c1 : DecryptorCache) (dec : Option Decryptor), c1.oaep = c.oaep → c1.lastKeyNum = some enc.keyNumber →
      c1.decrypt P dec m = (.ok r, c') → c.Later enc.keyNumber c' := by
    intro c1 dec e1 e2 h
    unfold DecryptorCache.decrypt at h
    split at h
    · cases h
    · cases (Prod.mk.inj h).2
      rw [← e1] at hf
      exact ⟨e2, by rw [e1], by rw [e1], by rw [e1]; exact fun _ _ h => h, by rw [e1]; exact fun _ _ _ h => h, hf⟩
    · rcases hd : c1.oaep.decryptManifest P m with ⟨r', s'⟩
      rw [hd] at h
      obtain ⟨rfl, rfl⟩ := Prod.mk.inj h
      rw [e1] at hd
      obtain ⟨d, w, h1, h2, h3, h4, h5, h6⟩ := oaep_later hf hd
      have hn : d.keyNumber = enc.keyNumber := by
        cases enc with
        | aead p =>
          obtain ⟨_, d', hd', _⟩ := hs
          rw [h1] at hd'
          cases hd'
        | oaep p w' =>
          obtain ⟨_, d', x, hd', hn⟩ := hs
          rw [h1] at hd'
          cases hd'
          exact hn
      rw [hn] at h5
      exact ⟨e2, h2, h3, h4, h5, h6⟩
  have hs' : m.isEncrypted = true ∧ ∃ ctx, m.securityCtx = some ctx ∧ ctx.aeadData.keyNumber = enc.keyNumber := by
    cases enc with
    | aead p => obtain ⟨h1, d, h2, h3⟩ := hs; exact ⟨h1, _, h2, h3⟩
    | oaep p w => obtain ⟨h1, d, x, h2, h3⟩ := hs; exact ⟨h1, _, h2, h3⟩
  obtain ⟨he, ctx, hctx, hn⟩ := hs'
  unfold DecryptorCache.open at ho
  rw [he, hctx] at ho
  simp only [if_true] at ho
  unfold DecryptorCache.getOrCreate at ho
  rw [hn] at ho
  by_cases hl : c.lastKeyNum = some enc.keyNumber
  · rw [if_pos hl] at ho
    exact hdec c _ rfl hl ho
  · rw [if_neg hl] at ho
    cases hg : DecryptorCache.create { c with lastKeyNum := some enc.keyNumber } ctx with
    | error e =>
      simp only [hg] at ho
      cases ho
    | ok d =>
      simp only [hg] at ho
      exact hdec { c with lastKeyNum := some enc.keyNumber, lastDecryptor := some d } _ rfl rfl ho

/-- A decryptor cache after some of the files: keys were only added, each the content key of one of the files, and the decryptor at hand
is right for the number remembered. -/
structure DecryptorCache.Consistent (K : Keystore) (bs : List Spec.Publication) (c : DecryptorCache) : Prop where
  byKeyid : c.oaep.keystore.byKeyid = K.byKeyid
  byName : c.oaep.keystore.byName = K.byName
  kept : ∀ k x, K.getAesKey k = .ok x → c.oaep.keystore.getAesKey k = .ok x
  filed : ∀ k x, c.oaep.keystore.getAesKey k = .ok x → K.getAesKey k = .ok x ∨
    ∃ b ∈ bs, ∃ p w, b.options.encryptor = some (.oaep p w) ∧ p.keyNumber = k ∧ x.SameCipher p
  faithful : c.oaep.Faithful
  last : ∀ n, c.lastKeyNum = some n → ∃ b ∈ bs, ∃ enc, b.options.encryptor = some enc ∧ enc.keyNumber = n ∧
    match enc with
    | .aead _ => ∃ q, c.oaep.keystore.getAesKey n = .ok q ∧ c.lastDecryptor = some (.aead q)
    | .oaep _ _ => c.lastDecryptor = some .oaep

theorem AeadParams.SameCipher.symm {p q : AeadParams} (h : p.SameCipher q) : q.SameCipher p := ⟨h.1.symm, h.2.1.symm, h.2.2.symm⟩

theorem AeadParams.SameCipher.trans {p q r : AeadParams} (h : p.SameCipher q) (k : q.SameCipher r) : p.SameCipher r :=
  ⟨h.1.trans k.1, h.2.1.trans k.2.1, h.2.2.trans k.2.2⟩

/-- Such a cache is ready for each of the files. -/
theorem DecryptorCache.Consistent.ready {P : Prims} (hO : P.OaepLaw) {ks : Option Keystore} {bs : List Spec.Publication}
    (h1 : Spec.OneMeaning bs) {c : DecryptorCache} (hc : c.Consistent (ks.getD {}) bs) {b : Spec.Publication} (hb : b ∈ bs)
    (hk : Spec.CanDecrypt P ks b.options.encryptor) : c.Ready P b.options.encryptor true := by
  cases he : b.options.encryptor with
  | none => trivial
  | some enc =>
    rw [he] at hk
    cases enc with
    | aead p =>
      obtain ⟨_, s, q, rfl, g1, g2⟩ := hk
      refine ⟨q, hc.kept _ _ g1, g2, fun hl => ?_⟩
      obtain ⟨b', hb', enc', he', hn, hm⟩ := hc.last _ hl
      have ha := h1 b hb b' hb' _ _ he he' hn.symm
      cases enc' with
      | aead p' =>
        obtain ⟨q', hq1, hq2⟩ := hm
        cases Except.ok.inj (hq1.symm.trans (hc.kept _ _ g1))
        exact hq2
      | oaep p' w' => exact ha.elim
    | oaep p w =>
      have hfiled : ∀ x, c.oaep.keystore.getAesKey p.keyNumber = .ok x → x.SameCipher p := by
        intro x hx
        rcases hc.filed _ _ hx with hx | ⟨b', hb', p', w', he', hn, hsame⟩
        · obtain ⟨_, _, s, rfl, hk⟩ := hk
          rcases hk with ⟨q, g1, g2⟩ | ⟨⟨e, g1⟩, _⟩
          · cases Except.ok.inj (g1.symm.trans hx)
            exact g2
          · cases g1.symm.trans hx
        · exact hsame.trans (h1 b' hb' b hb _ _ he' he hn)
      refine ⟨⟨fun e hm hn => ?_, hfiled⟩, fun ⟨e, hm, hn⟩ => ⟨e.2, hn ▸ hc.faithful e hm⟩, fun hl => ?_, ?_⟩
      · exact hfiled _ (hn ▸ hc.faithful e hm)
      · obtain ⟨b', hb', enc', he', hn, hm⟩ := hc.last _ hl
        have ha := h1 b hb b' hb' _ _ he he' hn.symm
        cases enc' with
        | aead p' => exact ha.elim
        | oaep p' w' => exact hm
      · obtain ⟨_, _, s, rfl, hk⟩ := hk
        rcases hk with ⟨q, g1, g2⟩ | ⟨_, rsa, seed, priv, hw, hg, hder, hpriv⟩
        · exact .inl ⟨q, hc.kept _ _ g1⟩
        · right
          refine ⟨rfl, ?_⟩
          have hg' : c.oaep.keystore.getRsa P (.hash (rsa.keyid P)) = .ok priv := by
            simp only [Keystore.getRsa, Keystore.findKeyid, hc.byKeyid, hc.byName] at hg ⊢
            exact hg
          have := oaepWrapper_opens hO hw (s := c.oaep) hg' hder hpriv
          obtain ⟨c', _, rfl⟩ := oaepWrapper_ok hw
          exact this

/-- It stays so when one of the files was read. -/
theorem DecryptorCache.Consistent.next {P : Prims} {ks : Option Keystore} {bs : List Spec.Publication} {c c' : DecryptorCache}
    (hc : c.Consistent (ks.getD {}) bs) {b : Spec.Publication} (hb : b ∈ bs) {enc : Encryptor} (he : b.options.encryptor = some enc)
    (hk : Spec.CanDecrypt P ks (some enc)) (hl : c.Later enc.keyNumber c') (hr : c'.Ready P (some enc) false) :
    c'.Consistent (ks.getD {}) bs := by
  refine ⟨hl.byKeyid.trans hc.byKeyid, hl.byName.trans hc.byName, fun k x h => hl.kept _ _ (hc.kept _ _ h), fun k x h => ?_, hl.faithful,
    fun n hn => ?_⟩
  · by_cases hn : k = enc.keyNumber
    · subst hn
      cases enc with
      | oaep p w => exact .inr ⟨b, hb, p, w, he, rfl, hr.1.2 _ h⟩
      | aead p =>
        obtain ⟨_, s, q, rfl, g1, _⟩ := hk
        cases Except.ok.inj (h.symm.trans (hl.kept _ _ (hc.kept _ _ g1)))
        exact .inl g1
    · exact hc.filed _ _ (hl.other _ _ hn h)
  · cases Option.some.inj (hl.last.symm.trans hn)
    refine ⟨b, hb, enc, he, rfl, ?_⟩
    cases enc with
    | aead p =>
      obtain ⟨q, g1, g2, g3⟩ := hr
      exact ⟨q, g1, g3 hn⟩
    | oaep p w => exact hr.2.2.1 hn

/-- A decryptor cache in which the number of `p` stands for `p`. -/
structure DecryptorCache.Holds (c : DecryptorCache) (p : AeadParams) : Prop where
  agrees : c.oaep.Agrees p
  filed : ∃ x, c.oaep.keystore.getAesKey p.keyNumber = .ok x
  last : c.lastKeyNum = some p.keyNumber → c.lastDecryptor = some .oaep

theorem DecryptorCache.Ready.holds {P : Prims} {p : AeadParams} {w : RsaOaepWrapper} {c : DecryptorCache}
    (h : c.Ready P (some (.oaep p w)) false) : c.Holds p := by
  obtain ⟨h1, _, h3, h4⟩ := h
  refine ⟨h1, ?_, h3⟩
  rcases h4 with h4 | ⟨h4, _⟩
  · exact h4
  · cases h4

/-- The keystore alone: a new traversal with it. -/
theorem DecryptorCache.Holds.new {p : AeadParams} {c : DecryptorCache} (h : c.Holds p) :
    (TState.new (some c.oaep.keystore)).cache.Holds p :=
  ⟨⟨by simp [TState.new], h.agrees.2⟩, h.filed, by simp [TState.new]⟩

/-- Whatever such a cache uses for the number is `p`. -/
theorem DecryptorCache.Holds.impl {P : Prims} {p : AeadParams} {c : DecryptorCache} (h : c.Holds p) {d : AeadData}
    (hd : d.keyNumber = p.keyNumber) {w : Option RsaOaepWrapper} {x : AeadParams} {s' : OaepDecryptor}
    (hg : c.oaep.getImpl P d w = .ok (x, s')) : x.SameCipher p := by
  obtain ⟨y, hy⟩ := h.filed
  unfold OaepDecryptor.getImpl at hg
  simp only at hg
  split at hg
  · rename_i e he
    have hmem := List.mem_of_find?_eq_some he
    have hp := List.find?_some he
    simp only [beq_iff_eq] at hp
    cases Except.ok.inj hg
    exact h.agrees.1 e hmem (by rw [hp]; exact hd)
  · simp only [oaepCreate, hd, hy, ok_bind] at hg
    cases Except.ok.inj hg
    exact h.agrees.2 x hy

/-- A cache in which the number stands for another key does not open the manifest. -/
theorem decrypt_taken {E : Env} (hB : Spec.Binding E.prims) {o : TreeOptions} {q : AeadParams} {wr : RsaOaepWrapper}
    (ho : o.encryptor = some (.oaep q wr)) (he : Spec.ProperEncryptor E.prims o.encryptor)
    {p : AeadParams} (hp : Spec.SaltFits p) (hn : q.keyNumber = p.keyNumber) (hne : ¬ p.SameCipher q)
    {node : Node} {name : Option Name} {x : Option F64}
    {sg : Option Signer} {s s' : BState} {r : Packet} (h : buildFromNode E o node name x sg true s = (.ok r, s'))
    {T : TravEnv} (hT : T.prims = E.prims) {t : TState} (ht : t.cache.Holds p) {m : Manifest}
    (hparse : Manifest.fromContentObject r.body = .ok m) : ∃ e t', T.decrypt m t = (.error e, t') := by
  obtain ⟨P, rd, ks⟩ := T
  cases hT
  rcases hd : TravEnv.decrypt ⟨E.prims, rd, ks⟩ m t with ⟨e | m', t'⟩
  · exact ⟨e, t', rfl⟩
  · exfalso
    obtain ⟨m0, s1, w, hm, hw, _, hbody, _, _⟩ := buildFromNode_inv h
    have hread : ∀ m1, Manifest.deserialize w = .ok m1 → m = m1 := by
      intro m1 h1
      rw [hbody] at hparse
      exact Except.ok.inj (hparse.symm.trans h1)
    rw [ho] at he
    obtain ⟨hfit, hsalt, rsa, seed, hwr⟩ := he
    obtain ⟨c0, hc0, hwr'⟩ := oaepWrapper_ok hwr
    unfold buildManifest at hm
    simp only [ho] at hm
    rw [PyS.bind_run] at hm
    simp only [PyS.get_run] at hm
    rw [PyS.bind_run] at hm
    simp only [PyS.modify_run] at hm
    obtain ⟨hm, _⟩ := PyS.lift_ok hm
    obtain ⟨sl, hsl, hm⟩ := bind_eq_ok.mp hm
    obtain ⟨d, hdd, henc⟩ := oaepEncrypt_ok hsl
    obtain ⟨_, _, _, _, _, _, hctx, _⟩ := encryptWithCtx_ok henc
    obtain ⟨rfl, _⟩ := Sealed.manifest_ok hm
    simp only [if_true] at hctx henc
    rw [hctx] at hw
    have hnum : d.keyNumber = p.keyNumber := by
      obtain ⟨k, md, _, _, rfl⟩ := AeadParams.aeadData_ok hdd
      exact hn
    have halg : ∀ a, wr.hashAlg = some a → a < 2 ^ 64 := by
      rw [hwr']
      rintro a ⟨⟩
      decide
    have hRT := manifest_RT (m := ⟨some (.rsaOaep d (some wr)), .encrypted sl.ciphertext, some sl.authTag⟩)
      ⟨by rintro c ⟨⟩; exact ⟨AeadParams.aeadData_fits hfit hdd, by rintro y ⟨⟩; exact halg⟩, trivial⟩ hw
    have e : m = ⟨some (.rsaOaep d (some wr.toBytes)), .encrypted sl.ciphertext, some sl.authTag⟩ := hread _ hRT
    subst e
    cases ks with
    | none => simp [TravEnv.decrypt, Manifest.isEncrypted] at hd
    | some k =>
      have key : ∀ c : DecryptorCache, c.Holds p → ∀ c',
          c.decrypt E.prims (some .oaep) ⟨some (.rsaOaep d (some wr.toBytes)), .encrypted sl.ciphertext, some sl.authTag⟩ ≠
            (.ok m', c') := by
        intro c hc c' hdec
        simp only [DecryptorCache.decrypt, OaepDecryptor.decryptManifest] at hdec
        cases hg : c.oaep.getImpl E.prims d (some wr.toBytes) with
        | error e =>
          rw [hg] at hdec
          cases hdec
        | ok y =>
          obtain ⟨y, s'⟩ := y
          rw [hg] at hdec
          have hy := hc.impl hnum hg
          have hdec : oaepDecryptManifest E.prims y ⟨some (.rsaOaep d (some wr.toBytes)), .encrypted sl.ciphertext, some sl.authTag⟩ =
              .ok m' := congrArg Prod.fst hdec
          obtain ⟨d', w', c', t', n, hparts, hn, _⟩ := oaepDecrypt_parts hdec
          cases hparts
          rw [AeadParams.decryptNode_congr hy] at hn
          have e2 : (SecurityCtx.rsaOaep d (some wr.toBytes)).aeadData = (SecurityCtx.rsaOaep d (some wr)).aeadData := by
            simp only [SecurityCtx.aeadData]
          exact hne (sameCipher_of_opens hB hsalt hp (ctx := .rsaOaep d (some wr)) hdd e2 henc hn)
      simp only [TravEnv.decrypt, Option.isNone_some, Bool.false_and, Bool.false_eq_true, if_false, DecryptorCache.open,
        Manifest.isEncrypted, if_true, DecryptorCache.getOrCreate, SecurityCtx.aeadData, hnum] at hd
      by_cases hl : t.cache.lastKeyNum = some p.keyNumber
      · rw [if_pos hl] at hd
        simp only [ht.last hl] at hd
        exact key _ ht _ (Prod.ext (Prod.mk.inj hd).1 rfl)
      · rw [if_neg hl] at hd
        simp only [DecryptorCache.create] at hd
        exact key { t.cache with lastKeyNum := some p.keyNumber, lastDecryptor := some .oaep } ⟨ht.agrees, ht.filed, fun _ => rfl⟩ _
          (Prod.ext (Prod.mk.inj hd).1 rfl)

/-- A traversal in such a state gets nothing of the file. -/
theorem traverse_taken {E : Env} (hB : Spec.Binding E.prims) {b : Spec.Publication}
    (hpub : manifestTree E b.log b.options b.counter b.input = (.ok b.root, b.out)) {q : AeadParams} {wr : RsaOaepWrapper}
    (ho : b.options.encryptor = some (.oaep q wr)) (he : Spec.ProperEncryptor E.prims b.options.encryptor)
    {p : AeadParams} (hp : Spec.SaltFits p) (hn : q.keyNumber = p.keyNumber) (hne : ¬ p.SameCipher q)
    {T : TravEnv} (hT : T.prims = E.prims) {hv : HashValue} (hrd : T.reader b.options.name (some hv) = .ok b.root) (depth : Nat)
    {t : TState} (ht : t.cache.Holds p) :
    ∃ e s, T.traverse depth b.options.name (some hv) t = (.error e, s) ∧ s.writes = t.writes := by
  obtain ⟨R⟩ := manifestTree_ok hpub
  obtain ⟨node, s, s', hb⟩ := R.root_made
  obtain ⟨_, _, w, _, _, _, hbody, hsign, _⟩ := buildFromNode_inv hb
  have htype : b.root.body.payloadType = some PT_MANIFEST := by rw [hbody]; rfl
  unfold TravEnv.traverse
  rw [PyS.liftBind_run hrd]
  cases hval : validatePacket T.prims T.keystore b.root with
  | error e => exact ⟨e, t, PyS.bind_of_error rfl, rfl⟩
  | ok u =>
    rw [PyS.liftBind_run rfl]
    cases depth with
    | zero => exact ⟨.nonTermination, t, rfl, rfl⟩
    | succ depth =>
      unfold TravEnv.preorder
      cases hh : b.root.hash T.prims.sha256 with
      | error e => exact ⟨e, t, PyS.bind_of_error rfl, rfl⟩
      | ok hv' =>
        rw [PyS.liftBind_run rfl, PyS.bind_run, PyS.modify_run]
        simp only [htype, if_true]
        cases hm : Manifest.fromContentObject b.root.body with
        | error e => exact ⟨e, _, PyS.bind_of_error rfl, rfl⟩
        | ok m =>
          rw [PyS.liftBind_run rfl, PyS.bind_run]
          have hf := TravEnv.decrypt_frame T m { t with count := t.count + 1 }
          obtain ⟨e, t', hd⟩ := decrypt_taken hB ho he hp hn hne hb hT (t := { t with count := t.count + 1 }) ht hm
          rw [hd] at hf
          rw [hd]
          exact ⟨e, t', rfl, hf.1⟩

variable {E : Env} {ks : Option Keystore} {rd : Reader}

/-! ## C109 -/

/-- C109: files of any kind, some not encrypted, some encrypted with keys of the keystore, some with wrapped keys of various numbers, read
one after the other with one `Traversal` object: if among them one key number means one thing, all are written, in the order asked. -/
theorem C109_one_meaning {bs : List Spec.Publication} (hb : ∀ b ∈ bs, b.Readable E ks rd) (h1 : Spec.OneMeaning bs) :
    ∃ rs, Spec.Roots E.prims bs rs ∧ ∀ depth, (∀ b ∈ bs, b.out.length ≤ depth) →
      ∃ s, TravEnv.traverseAll ⟨E.prims, rd, ks⟩ depth rs (TState.new ks) = (.ok (), s) ∧ Spec.AllReturned bs (TState.new ks) s := by
  obtain ⟨rs, hr⟩ := Spec.Publication.Readable.roots hb
  refine ⟨rs, hr, fun depth hd => ?_⟩
  have step : ∀ b ∈ bs, ∀ t : TState, t.cache.Consistent (ks.getD {}) bs → ∃ hv, b.root.hash E.prims.sha256 = .ok hv ∧
      ∃ s, TravEnv.traverse ⟨E.prims, rd, ks⟩ depth b.options.name (some hv) t = (.ok (), s) ∧
        s.writes.flatten = t.writes.flatten ++ b.input.rest ∧ s.count = t.count + b.out.length ∧
        s.cache.Consistent (ks.getD {}) bs := by
    intro b hm t ht
    have hk := (hb b hm).equipped.decrypt
    have hready := ht.ready (hb b hm).equipped.oaep h1 hm hk
    cases he : b.options.encryptor with
    | none =>
      obtain ⟨hv, a, c⟩ := (hb b hm).read hready (J := fun c => c = t.cache)
        (by rw [he]
            intro m c r c' hs hc ho
            rw [open_plain _ hs] at ho
            cases ho
            exact hc)
        (by rw [he]
            intro m r c' hs ho
            rw [open_plain _ hs] at ho
            cases ho
            rfl)
      obtain ⟨s, s1, s2, s3, _, s5⟩ := c depth (hd b hm)
      exact ⟨hv, a, s, s1, s2, s3, s5.symm ▸ ht⟩
    | some enc =>
      obtain ⟨hv, a, c⟩ := (hb b hm).read hready (J := fun c => t.cache.Later enc.keyNumber c)
        (by rw [he]
            exact fun m c r c' hs hc ho => hc.trans (open_later hs hc.faithful ho))
        (by rw [he]
            exact fun m r c' hs ho => open_later hs ht.faithful ho)
      obtain ⟨s, s1, s2, s3, s4, s5⟩ := c depth (hd b hm)
      rw [he] at s4 hk
      exact ⟨hv, a, s, s1, s2, s3, ht.next hm he hk s5 s4⟩
  have all : ∀ (l : List Spec.Publication) (rs : List (Option Name × HashValue)), (∀ b ∈ l, b ∈ bs) → Spec.Roots E.prims l rs →
      ∀ t : TState, t.cache.Consistent (ks.getD {}) bs →
        ∃ s, TravEnv.traverseAll ⟨E.prims, rd, ks⟩ depth rs t = (.ok (), s) ∧ Spec.AllReturned l t s := by
    intro l rs hl hr
    induction hr with
    | nil => exact fun t _ => ⟨t, rfl, by simp, by simp⟩
    | @cons b r l rs hx _ ih =>
      intro t ht
      obtain ⟨name, h⟩ := r
      obtain ⟨rfl, hh⟩ := hx
      obtain ⟨hv, a, s, s1, s2, s3, s4⟩ := step b (hl b (by simp)) t ht
      cases Except.ok.inj (hh.symm.trans a)
      obtain ⟨u, u1, v1, v2⟩ := ih (fun b h => hl b (by simp [h])) s s4
      refine ⟨u, ?_, ?_, ?_⟩
      · unfold TravEnv.traverseAll
        rw [PyS.bind_of_ok s1]
        exact u1
      · rw [v1, s2]
        simp
      · rw [v2, s3]
        simp only [List.map_cons, List.sum_cons]
        omega
  exact all bs rs (fun _ h => h) hr _ ⟨rfl, rfl, fun _ _ h => h, fun _ _ h => .inl h, by rintro e ⟨⟩, by simp [TState.new]⟩

/-- C109: two files whose different content keys carry one number.  Each can be read by this reader.  A `Traversal` object that has read
the first raises on the second, and writes nothing of it; so does any later `Traversal` object with the same keystore object, into which
the first content key was filed; so do all other traversals of the second file, at any depth bound. -/
theorem C109_taken {a b : Spec.Publication} (ha : a.Readable E ks rd) (hb : b.Readable E ks rd) {p q : AeadParams}
    {v w : RsaOaepWrapper} (hae : a.options.encryptor = some (.oaep p v)) (hbe : b.options.encryptor = some (.oaep q w))
    (hB : Spec.Binding E.prims) (hpa : Spec.ProperEncryptor E.prims a.options.encryptor)
    (hpb : Spec.ProperEncryptor E.prims b.options.encryptor)
    (hn : p.keyNumber = q.keyNumber) (hne : ¬ p.SameCipher q) :
    ∃ ra rb, Spec.Roots E.prims [a, b] [ra, rb] ∧ ∀ depth, a.out.length ≤ depth → b.out.length ≤ depth →
      (∃ s, TravEnv.traverseAll ⟨E.prims, rd, ks⟩ depth [rb] (TState.new ks) = (.ok (), s) ∧ s.writes.flatten = b.input.rest) ∧
      ∃ s, TravEnv.traverseAll ⟨E.prims, rd, ks⟩ depth [ra] (TState.new ks) = (.ok (), s) ∧ s.writes.flatten = a.input.rest ∧
        (∃ e s', TravEnv.traverseAll ⟨E.prims, rd, ks⟩ depth [ra, rb] (TState.new ks) = (.error e, s') ∧ s'.writes = s.writes) ∧
        ∀ depth' , ∃ e s', TravEnv.traverseAll ⟨E.prims, rd, some s.cache.oaep.keystore⟩ depth' [rb]
          (TState.new (some s.cache.oaep.keystore)) = (.error e, s') ∧ s'.writes = [] := by
  obtain ⟨va, hva, ga⟩ := ha.read (t := TState.new ks) (ready_new ha.equipped.oaep ha.equipped.decrypt)
    (J := fun _ => True) (fun _ _ _ _ _ _ _ => trivial) (fun _ _ _ _ _ => trivial)
  obtain ⟨vb, hvb, gb⟩ := hb.read (t := TState.new ks) (ready_new hb.equipped.oaep hb.equipped.decrypt)
    (J := fun _ => True) (fun _ _ _ _ _ _ _ => trivial) (fun _ _ _ _ _ => trivial)
  have hsalt : Spec.SaltFits p := by
    rw [hae] at hpa
    exact hpa.2.1
  obtain ⟨R⟩ := manifestTree_ok hb.published
  have hget : rd b.options.name (some vb) = .ok b.root := R.root_served (R.servedBy hb.served ks) vb hvb
  refine ⟨(a.options.name, va), (b.options.name, vb), .cons ⟨rfl, hva⟩ (.cons ⟨rfl, hvb⟩ .nil), fun depth hda hdb => ?_⟩
  obtain ⟨s, s1, s2, s3, s4, _⟩ := ga depth hda
  obtain ⟨u, u1, u2, _⟩ := gb depth hdb
  rw [hae] at s4
  have hold := s4.holds
  refine ⟨⟨u, ?_, by simpa [TState.new] using u2⟩, s, ?_, by simpa [TState.new] using s2, ?_, fun depth' => ?_⟩
  · unfold TravEnv.traverseAll
    rw [PyS.bind_of_ok u1]
    rfl
  · unfold TravEnv.traverseAll
    rw [PyS.bind_of_ok s1]
    rfl
  · obtain ⟨e, s', x1, x2⟩ := traverse_taken hB hb.published hbe hpb hsalt hn.symm hne (T := ⟨E.prims, rd, ks⟩) rfl hget depth hold
    refine ⟨e, s', ?_, x2⟩
    unfold TravEnv.traverseAll
    rw [PyS.bind_of_ok s1]
    unfold TravEnv.traverseAll
    exact PyS.bind_of_error x1
  · obtain ⟨e, s', x1, x2⟩ := traverse_taken hB hb.published hbe hpb hsalt hn.symm hne
      (T := ⟨E.prims, rd, some s.cache.oaep.keystore⟩) rfl hget depth' hold.new
    refine ⟨e, s', ?_, x2⟩
    unfold TravEnv.traverseAll
    exact PyS.bind_of_error x1

/-! ## The hypotheses can be met -/

namespace Toy

/-- Another content key of the same number. -/
def otherKey : AeadParams := { saltedKey with aeadSalt := some 10, key := some ⟨.gcm, List.replicate 16 7⟩ }

/-- It, wrapped for the same reader. -/
def otherWrapper : RsaOaepWrapper :=
  ⟨rsa.keyid bound, none, some T_SHA_256, some (code rsa.der ++ ([0, 0, 0, 10] ++ List.replicate 16 7))⟩

/-- CRC-32C signature, RSA-OAEP encryption, prefix names. -/
def otherTree : TreeOptions := { options .prefixed false with maxPacketSize := 350, encryptor := some (.oaep otherKey otherWrapper) }

set_option maxRecDepth 100000 in
theorem twoPublished : (match manifestTree boundEnv Spec.exactLog wrappedTree 1 (shortReads 32),
      manifestTree boundEnv Spec.exactLog otherTree 1 (shortReads 28) with
    | (.ok _, a), (.ok _, b) => (Spec.dataOf a).length == 8 && (Spec.dataOf b).length == 7 &&
      decide (((a ++ b).map (fun p => (p.hash bound.sha256).toOption)).Nodup)
    | _, _ => false) = true := by
  decide +kernel

/-- A reader with the private key is equipped for a file whose content key is wrapped for it. -/
theorem privateEquipped {K : Keystore} {o : TreeOptions} {p : AeadParams} {w : RsaOaepWrapper} (ho : o.encryptor = some (.oaep p w))
    (hsig : o.signer = none ∨ o.signer = some .crc32c) (hfit : p.Fits64) (hno : K.getAesKey p.keyNumber = .error .keyNumberNotFound)
    (hget : K.getRsa bound (.hash (rsa.keyid bound)) = .ok rsa)
    (hw : oaepWrapper bound rsa [] p = .ok w) (hn : Spec.PlainNames o) (ht : Spec.TextLocators o) :
    Spec.Equipped boundEnv o 1 (some K) := by
  obtain ⟨c, _, rfl⟩ := oaepWrapper_ok hw
  refine ⟨⟨bound_aead, bound_oaep, bound_rsa, ?_, ?_, hn, by decide⟩, ht⟩
  · rcases hsig with h | h <;> rw [h] <;> trivial
  · rw [ho]
    refine ⟨hfit, ?_, K, rfl, .inr ⟨⟨_, hno⟩, rsa, [], rsa, hw, hget, rfl, rfl⟩⟩
    rintro a ⟨⟩
    decide

/-- C109: two files of several manifests, wrapped for one reader. -/
example : ∃ rd a b, Spec.Publication.Readable boundEnv (some privateKey) rd a ∧ Spec.Publication.Readable boundEnv (some privateKey) rd b ∧
    a.options.encryptor = some (.oaep saltedKey boundWrapper) ∧ b.options.encryptor = some (.oaep otherKey otherWrapper) ∧
    Spec.ProperEncryptor bound a.options.encryptor ∧ Spec.ProperEncryptor bound b.options.encryptor ∧ Spec.Binding bound ∧
    saltedKey.keyNumber = otherKey.keyNumber ∧ ¬ saltedKey.SameCipher otherKey ∧
    (Spec.dataOf a.out).length = 8 ∧ (Spec.dataOf b.out).length = 7 := by
  have h := twoPublished
  rcases h1 : manifestTree boundEnv Spec.exactLog wrappedTree 1 (shortReads 32) with ⟨e | ra, oa⟩
  · rw [h1] at h; cases h
  rcases g1 : manifestTree boundEnv Spec.exactLog otherTree 1 (shortReads 28) with ⟨e | rb, ob⟩
  · rw [h1, g1] at h; cases h
  rw [h1, g1] at h
  simp only [Bool.and_eq_true, beq_iff_eq, decide_eq_true_eq] at h
  obtain ⟨⟨h2, g2⟩, hd⟩ := h
  have hc : Spec.NoCollision bound (oa ++ ob) := fun _ hp _ hq _ h1 h2 =>
    List.inj_on_of_nodup_map hd hp hq (congrArg Except.toOption (h1.trans h2.symm))
  have hs := idealReader_serves hc
  have hfit : saltedKey.Fits64 := ⟨by decide, fun _ h => by cases h⟩
  have hfit' : otherKey.Fits64 := ⟨by decide, fun _ h => by cases h⟩
  have hw : oaepWrapper bound rsa [] saltedKey = .ok boundWrapper := by decide +kernel
  have hw' : oaepWrapper bound rsa [] otherKey = .ok otherWrapper := by decide +kernel
  have hget : privateKey.getRsa bound (.hash (rsa.keyid bound)) = .ok rsa := by decide +kernel
  refine ⟨idealReader bound (oa ++ ob), ⟨Spec.exactLog, wrappedTree, 1, shortReads 32, ra, oa⟩,
    ⟨Spec.exactLog, otherTree, 1, shortReads 28, rb, ob⟩,
    ⟨h1, (fun h => by cases h), privateEquipped rfl (.inr rfl) hfit rfl hget hw (plain ⟨rfl, rfl, rfl⟩) (text rfl rfl rfl),
      fun p hp => hs.get p (List.mem_append_left _ hp), hs.hashes⟩,
    ⟨g1, (fun h => by cases h), privateEquipped rfl (.inr rfl) hfit' rfl hget hw' (plain ⟨rfl, rfl, rfl⟩) (text rfl rfl rfl),
      fun p hp => hs.get p (List.mem_append_right _ hp), hs.hashes⟩, rfl, rfl,
    ⟨hfit, by rintro n ⟨⟩; decide, rsa, [], hw⟩, ⟨hfit', by rintro n ⟨⟩; decide, rsa, [], hw'⟩, bound_binding, rfl, ?_, h2, g2⟩
  rintro ⟨_, _, h⟩
  cases h

/-- Other bytes. -/
def readsFrom (k n : Nat) : Stream := ⟨(List.range n).map (fun i => UInt8.ofNat (i + k)), [3]⟩

/-- A key of the keystore, number 7. -/
def seventh : AeadParams := { key with keyNumber := 7 }

/-- The private RSA key and that key. -/
def mixedKeys : Keystore := privateKey.addAesKey seventh

/-- A wrapped content key of number 6. -/
def sixth : AeadParams := { otherKey with keyNumber := 6 }

/-- A file for each, and one that is not encrypted. -/
def sixthTree : TreeOptions := { otherTree with encryptor := some (.oaep sixth otherWrapper) }
def seventhTree : TreeOptions := { otherTree with encryptor := some (.aead seventh) }
def openTree : TreeOptions := { otherTree with encryptor := none }

set_option maxRecDepth 100000 in
theorem fourPublished : (match manifestTree boundEnv Spec.exactLog wrappedTree 1 (shortReads 32),
      manifestTree boundEnv Spec.exactLog sixthTree 1 (readsFrom 40 28), manifestTree boundEnv Spec.exactLog seventhTree 1 (readsFrom 80 24),
      manifestTree boundEnv Spec.exactLog openTree 1 (readsFrom 120 20) with
    | (.ok _, a), (.ok _, b), (.ok _, c), (.ok _, d) =>
      decide (((a ++ b ++ c ++ d).map (fun p => (p.hash bound.sha256).toOption)).Nodup)
    | _, _, _, _ => false) = true := by
  decide +kernel

/-- C109: four files, two with wrapped keys, one with a key of the keystore, one not encrypted; and the first again. -/
example : ∃ rd a b c d, (∀ x ∈ [a, b, c, d, a], Spec.Publication.Readable boundEnv (some mixedKeys) rd x) ∧
    a.options.encryptor = some (.oaep saltedKey boundWrapper) ∧ b.options.encryptor = some (.oaep sixth otherWrapper) ∧
    c.options.encryptor = some (.aead seventh) ∧ d.options.encryptor = none ∧ Spec.OneMeaning [a, b, c, d, a] ∧
    a.input = shortReads 32 ∧ b.input = readsFrom 40 28 ∧ c.input = readsFrom 80 24 ∧ d.input = readsFrom 120 20 := by
  have h := fourPublished
  rcases h1 : manifestTree boundEnv Spec.exactLog wrappedTree 1 (shortReads 32) with ⟨e | r1, o1⟩
  · rw [h1] at h; cases h
  rcases h2 : manifestTree boundEnv Spec.exactLog sixthTree 1 (readsFrom 40 28) with ⟨e | r2, o2⟩
  · rw [h1, h2] at h; cases h
  rcases h3 : manifestTree boundEnv Spec.exactLog seventhTree 1 (readsFrom 80 24) with ⟨e | r3, o3⟩
  · rw [h1, h2, h3] at h; cases h
  rcases h4 : manifestTree boundEnv Spec.exactLog openTree 1 (readsFrom 120 20) with ⟨e | r4, o4⟩
  · rw [h1, h2, h3, h4] at h; cases h
  rw [h1, h2, h3, h4] at h
  simp only [decide_eq_true_eq] at h
  have hc : Spec.NoCollision bound (o1 ++ o2 ++ o3 ++ o4) := fun _ hp _ hq _ h1 h2 =>
    List.inj_on_of_nodup_map h hp hq (congrArg Except.toOption (h1.trans h2.symm))
  have hs := idealReader_serves hc
  have hserve : ∀ l : List Packet, (∀ p ∈ l, p ∈ o1 ++ o2 ++ o3 ++ o4) → Serves bound l (idealReader bound (o1 ++ o2 ++ o3 ++ o4)) :=
    fun l hl => ⟨fun p hp => hs.get p (hl p hp), hs.hashes⟩
  have hget : mixedKeys.getRsa bound (.hash (rsa.keyid bound)) = .ok rsa := by decide +kernel
  have e1 : Spec.Equipped boundEnv wrappedTree 1 (some mixedKeys) := privateEquipped rfl (.inr rfl)
    ⟨by decide, fun _ h => by cases h⟩ rfl hget (by decide +kernel : oaepWrapper bound rsa [] saltedKey = .ok boundWrapper)
    (plain ⟨rfl, rfl, rfl⟩) (text rfl rfl rfl)
  have e2 : Spec.Equipped boundEnv sixthTree 1 (some mixedKeys) := privateEquipped rfl (.inr rfl)
    ⟨by decide, fun _ h => by cases h⟩ rfl hget (by decide +kernel : oaepWrapper bound rsa [] sixth = .ok otherWrapper)
    (plain ⟨rfl, rfl, rfl⟩) (text rfl rfl rfl)
  have e3 : Spec.Equipped boundEnv seventhTree 1 (some mixedKeys) := ⟨⟨bound_aead, bound_oaep, bound_rsa, trivial,
    ⟨⟨by decide, fun _ h => by cases h⟩, mixedKeys, seventh, rfl, rfl, rfl, rfl, rfl⟩, plain ⟨rfl, rfl, rfl⟩, by decide⟩, text rfl rfl rfl⟩
  have e4 : Spec.Equipped boundEnv openTree 1 (some mixedKeys) := ⟨⟨bound_aead, bound_oaep, bound_rsa, trivial,
    trivial, plain ⟨rfl, rfl, rfl⟩, by decide⟩, text rfl rfl rfl⟩
  refine ⟨idealReader bound (o1 ++ o2 ++ o3 ++ o4), ⟨Spec.exactLog, wrappedTree, 1, shortReads 32, r1, o1⟩,
    ⟨Spec.exactLog, sixthTree, 1, readsFrom 40 28, r2, o2⟩, ⟨Spec.exactLog, seventhTree, 1, readsFrom 80 24, r3, o3⟩,
    ⟨Spec.exactLog, openTree, 1, readsFrom 120 20, r4, o4⟩, ?_, rfl, rfl, rfl, rfl, ?_, rfl, rfl, rfl, rfl⟩
  · have f1 : Spec.Publication.Readable boundEnv (some mixedKeys) (idealReader bound (o1 ++ o2 ++ o3 ++ o4))
        ⟨Spec.exactLog, wrappedTree, 1, shortReads 32, r1, o1⟩ := ⟨h1, (fun h => by cases h), e1, hserve _ (fun p hp => by simp [hp])⟩
    have f2 : Spec.Publication.Readable boundEnv (some mixedKeys) (idealReader bound (o1 ++ o2 ++ o3 ++ o4))
        ⟨Spec.exactLog, sixthTree, 1, readsFrom 40 28, r2, o2⟩ := ⟨h2, (fun h => by cases h), e2, hserve _ (fun p hp => by simp [hp])⟩
    have f3 : Spec.Publication.Readable boundEnv (some mixedKeys) (idealReader bound (o1 ++ o2 ++ o3 ++ o4))
        ⟨Spec.exactLog, seventhTree, 1, readsFrom 80 24, r3, o3⟩ := ⟨h3, (fun h => by cases h), e3, hserve _ (fun p hp => by simp [hp])⟩
    have f4 : Spec.Publication.Readable boundEnv (some mixedKeys) (idealReader bound (o1 ++ o2 ++ o3 ++ o4))
        ⟨Spec.exactLog, openTree, 1, readsFrom 120 20, r4, o4⟩ := ⟨h4, (fun h => by cases h), e4, hserve _ (fun p hp => by simp [hp])⟩
    intro x hx
    simp only [List.mem_cons, List.not_mem_nil, or_false] at hx
    rcases hx with rfl | rfl | rfl | rfl | rfl <;> assumption
  · intro x hx y hy ex ey k1 k2 hn
    have cases4 : ∀ {x : Spec.Publication} {ex : Encryptor}, x ∈ [⟨Spec.exactLog, wrappedTree, 1, shortReads 32, r1, o1⟩,
        ⟨Spec.exactLog, sixthTree, 1, readsFrom 40 28, r2, o2⟩, ⟨Spec.exactLog, seventhTree, 1, readsFrom 80 24, r3, o3⟩,
        ⟨Spec.exactLog, openTree, 1, readsFrom 120 20, r4, o4⟩, ⟨Spec.exactLog, wrappedTree, 1, shortReads 32, r1, o1⟩] →
        x.options.encryptor = some ex → ex = .oaep saltedKey boundWrapper ∨ ex = .oaep sixth otherWrapper ∨ ex = .aead seventh := by
      intro x ex hx k
      simp only [List.mem_cons, List.not_mem_nil, or_false] at hx
      rcases hx with rfl | rfl | rfl | rfl | rfl
      · exact .inl (Option.some.inj (k.symm.trans (rfl : wrappedTree.encryptor = _)))
      · exact .inr (.inl (Option.some.inj (k.symm.trans (rfl : sixthTree.encryptor = _))))
      · exact .inr (.inr (Option.some.inj (k.symm.trans (rfl : seventhTree.encryptor = _))))
      · cases k.symm.trans (rfl : openTree.encryptor = none)
      · exact .inl (Option.some.inj (k.symm.trans (rfl : wrappedTree.encryptor = _)))
    rcases cases4 hx k1 with rfl | rfl | rfl <;> rcases cases4 hy k2 with rfl | rfl | rfl <;>
      first
        | exact absurd hn (by decide)
        | exact True.intro
        | exact ⟨rfl, rfl, rfl⟩

end Toy

end Ccnpy
