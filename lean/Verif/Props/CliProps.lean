import Verif.Props.DirectoryProps
import Verif.Model.Apps

/-!
# The arguments of the programs (C82, C83, C84)

What the writer puts in its options and what the reader puts in its keystore, from the same arguments.
-/

namespace Ccnpy

variable {E E' : CliEnv} {a b : CliArgs}

/-! ## What the functions of cli_utils.py make -/

theorem optM_ok {α β : Type} {f : α → Py β} {o : Option α} {p : Option β} (h : optM f o = .ok p) :
    (o = none ∧ p = none) ∨ ∃ x y, o = some x ∧ f x = .ok y ∧ p = some y := by
  cases o with
  | none => cases h; exact .inl ⟨rfl, rfl⟩
  | some x =>
    unfold optM at h
    cases hf : f x with
    | error e => simp [hf] at h
    | ok y =>
      simp only [hf] at h
      cases h
      exact .inr ⟨x, y, rfl, hf, rfl⟩

theorem aesKeyFromCli_ok {k : Option AeadKey} (h : aesKeyFromCli a = .ok k) : k = a.encKey.map (AeadKey.mk a.aesMode) := by
  rcases optM_ok h with ⟨h1, h2⟩ | ⟨x, y, h1, h2, h3⟩
  · rw [h1, h2]; rfl
  · rw [h1, h3]
    unfold AeadKey.create at h2
    split at h2
    · cases h2; rfl
    · cases h2

theorem kdfDataFromCli_ok {d : Option KdfData} (h : kdfDataFromCli E a = .ok d) : d.map (·.kdfAlg) = a.kdfAlg := by
  unfold kdfDataFromCli at h
  obtain ⟨_, _, h⟩ := bind_eq_ok.mp h
  rcases optM_ok h with ⟨h1, h2⟩ | ⟨x, y, h1, h2, h3⟩
  · rw [h1, h2]; rfl
  · rw [h1, h3]
    obtain ⟨h2, _⟩ := construct_inv h2
    rw [h2]; rfl

theorem saltCheck_ok {s : Option Int} {t : Option Nat} (h : saltCheck s = .ok t) : t = s.map Int.toNat := by
  cases s with
  | none => cases h; rfl
  | some n =>
    simp only [saltCheck] at h
    split at h
    · cases h; rfl
    · cases h

theorem byteArray_neg {n : Int} (h : n < 0) : byteArray [n] = .error .overflowError ∨ ∃ e, byteArray [n] = .error e := by
  cases hr : byteArray [n] with
  | error e => exact .inr ⟨e, rfl⟩
  | ok v =>
    exfalso
    simp only [byteArray, byte, List.mapM_cons, List.mapM_nil] at hr
    rw [if_neg (by omega)] at hr
    cases hr

theorem keyNumberOf_ok {n : Int} {m : Nat} (h : keyNumberOf n = .ok m) : 0 ≤ n ∧ m = n.toNat := by
  unfold keyNumberOf at h
  obtain ⟨t, ht, h⟩ := bind_eq_ok.mp h
  cases h
  refine ⟨?_, rfl⟩
  rcases Int.lt_or_le n 0 with hn | hn
  · exfalso
    unfold createVarint at ht
    obtain ⟨v, hv, _⟩ := bind_eq_ok.mp ht
    unfold numberToArray at hv
    rw [if_pos (by omega)] at hv
    rcases byteArray_neg hn with h | ⟨e, h⟩ <;> rw [h] at hv <;> cases hv
  · exact hn

theorem aeadParametersFromCli_ok {p : CliParams} (h : aeadParametersFromCli E a = .ok p) :
    p.key = a.encKey.map (AeadKey.mk a.aesMode) ∧ p.keyNumber = a.keyNum.map Int.toNat ∧ (∀ n, a.keyNum = some n → 0 ≤ n) ∧
    p.aeadSalt = a.salt.map Int.toNat ∧ p.kdfData.map (·.kdfAlg) = a.kdfAlg := by
  unfold aeadParametersFromCli at h
  obtain ⟨k, hk, h⟩ := bind_eq_ok.mp h
  obtain ⟨d, hd, h⟩ := bind_eq_ok.mp h
  obtain ⟨n, hn, h⟩ := bind_eq_ok.mp h
  obtain ⟨s, hs, h⟩ := bind_eq_ok.mp h
  obtain ⟨t, ht, h⟩ := bind_eq_ok.mp h
  cases h
  refine ⟨aesKeyFromCli_ok hk, ?_, ?_, saltCheck_ok hs, kdfDataFromCli_ok hd⟩
  · rcases optM_ok hn with ⟨h1, h2⟩ | ⟨x, y, h1, h2, h3⟩
    · rw [h1, h2]; rfl
    · rw [h1, h3, (keyNumberOf_ok h2).2]; rfl
  · intro m hm
    rcases optM_ok hn with ⟨h1, h2⟩ | ⟨x, y, h1, h2, h3⟩
    · rw [h1] at hm; cases hm
    · rw [h1] at hm; cases hm
      exact (keyNumberOf_ok h2).1

/-- Parameters made from a key on the command line. -/
structure FromArgs (a : CliArgs) (p : AeadParams) : Prop where
  key : ∃ k, a.encKey = some k ∧ p.key = some ⟨a.aesMode, k⟩
  number : ∃ n, a.keyNum = some n ∧ 0 ≤ n ∧ p.keyNumber = n.toNat
  salt : p.aeadSalt = a.salt.map Int.toNat
  kdf : p.kdfData.map (·.kdfAlg) = a.kdfAlg

theorem params_fromArgs {p : CliParams} {q : AeadParams} (h : aeadParametersFromCli E a = .ok p) (hq : p.params = .ok q) {k : Bytes}
    (hk : a.encKey = some k) : FromArgs a q := by
  obtain ⟨h1, h2, h3, h4, h5⟩ := aeadParametersFromCli_ok h
  unfold CliParams.params at hq
  split at hq
  · cases hq
  · rename_i n hn
    cases hq
    rw [hn] at h2
    cases hm : a.keyNum with
    | none => rw [hm] at h2; cases h2
    | some m =>
      rw [hm] at h2
      cases h2
      exact ⟨⟨k, hk, by rw [h1, hk]; rfl⟩, ⟨m, hm, h3 m hm, rfl⟩, h4, h5⟩

/-- Two programs with the same AES arguments have the same cipher. -/
theorem FromArgs.sameCipher {p q : AeadParams} (hp : FromArgs a p) (hq : FromArgs b q) (h1 : b.encKey = a.encKey)
    (h2 : b.aesMode = a.aesMode) (h3 : b.keyNum = a.keyNum) (h4 : b.salt = a.salt) : q.SameCipher p := by
  obtain ⟨k, hk, hpk⟩ := hp.key
  obtain ⟨k', hk', hqk⟩ := hq.key
  obtain ⟨n, hn, _, hpn⟩ := hp.number
  obtain ⟨n', hn', _, hqn⟩ := hq.number
  rw [h1, hk] at hk'
  cases hk'
  rw [h3, hn] at hn'
  cases hn'
  exact ⟨by rw [hpk, hqk, h2], by rw [hpn, hqn], by rw [hp.salt, hq.salt, h4]⟩

theorem addKeyFile_ok {name : String} {file pass : Option Text} {ks ks' : Keystore} (h : addKeyFile E name file pass ks = .ok ks') :
    (file = none ∧ ks' = ks) ∨ ∃ f k, file = some f ∧ E.load f pass = .ok k ∧ ks' = ks.addRsaKey E.prims (.text name) k := by
  unfold addKeyFile at h
  split at h
  · cases h; exact .inl ⟨rfl, rfl⟩
  · obtain ⟨k, hk, h⟩ := bind_eq_ok.mp h
    cases h
    exact .inr ⟨_, k, rfl, hk, rfl⟩

/-- The calls that `create_keystore` makes. -/
def cliOps (q : Option AeadParams) (kf wf : Option RsaKey) : List KsOp :=
  (q.map KsOp.addAes).toList ++ (kf.map (KsOp.addRsa (.text "default"))).toList ++ (wf.map (KsOp.addRsa (.text "wrap"))).toList

/-- The key in a file argument. -/
def LoadedFrom (E : CliEnv) (file pass : Option Text) (k : Option RsaKey) : Prop :=
  (file = none ∧ k = none) ∨ ∃ f x, file = some f ∧ E.load f pass = .ok x ∧ k = some x

theorem createKeystore_ok {ks : Keystore} (h : createKeystore E b = .ok ks) :
    ∃ q kf wf, ks = Keystore.after E.prims (cliOps q kf wf) ∧
      ((b.encKey = none ∧ q = none) ∨ ∃ p, q = some p ∧ FromArgs b p) ∧
      LoadedFrom E b.keyFile b.keyPass kf ∧ LoadedFrom E b.wrapKey b.wrapPass wf := by
  unfold createKeystore at h
  obtain ⟨p, hp, h⟩ := bind_eq_ok.mp h
  obtain ⟨k1, h1, h⟩ := bind_eq_ok.mp h
  obtain ⟨k2, h2, h⟩ := bind_eq_ok.mp h
  have hkey := (aeadParametersFromCli_ok hp).1
  have ⟨q, e1, hq⟩ : ∃ q, k1 = Keystore.after E.prims ((q.map KsOp.addAes).toList) ∧
      ((b.encKey = none ∧ q = none) ∨ ∃ p, q = some p ∧ FromArgs b p) := by
    unfold CliParams.keystore at h1
    split at h1
    · rename_i hn
      cases h1
      rw [hkey] at hn
      refine ⟨none, rfl, .inl ⟨?_, rfl⟩⟩
      cases he : b.encKey with
      | none => rfl
      | some k => rw [he] at hn; cases hn
    · rename_i k hk
      obtain ⟨q, hq, h1⟩ := bind_eq_ok.mp h1
      cases h1
      cases he : b.encKey with
      | none => rw [hkey, he] at hk; cases hk
      | some k' => exact ⟨some q, rfl, .inr ⟨q, rfl, params_fromArgs hp hq he⟩⟩
  have ⟨kf, e2, hkf⟩ : ∃ kf : Option RsaKey, k2 = Keystore.after E.prims ((q.map KsOp.addAes).toList ++
      (kf.map (KsOp.addRsa (.text "default"))).toList) ∧ LoadedFrom E b.keyFile b.keyPass kf := by
    rcases addKeyFile_ok h2 with ⟨hf, rfl⟩ | ⟨f, k, hf, hl, rfl⟩
    · exact ⟨none, by rw [e1]; simp, .inl ⟨hf, rfl⟩⟩
    · refine ⟨some k, ?_, .inr ⟨f, k, hf, hl, rfl⟩⟩
      show _ = Keystore.after _ (_ ++ [_])
      rw [after_append, ← e1]
      rfl
  rcases addKeyFile_ok h with ⟨hf, rfl⟩ | ⟨f, k, hf, hl, rfl⟩
  · exact ⟨q, kf, none, by rw [e2]; simp [cliOps], hq, hkf, .inl ⟨hf, rfl⟩⟩
  · refine ⟨q, kf, some k, ?_, hq, hkf, .inr ⟨f, k, hf, hl, rfl⟩⟩
    show _ = Keystore.after _ (_ ++ [_])
    rw [after_append, ← e2]
    rfl

theorem aes_of_cliOps (P : Prims) (q : Option AeadParams) (kf wf : Option RsaKey) (n : Nat) :
    (Keystore.after P (cliOps q kf wf)).getAesKey n =
      match q with
      | some p => if p.keyNumber = n then .ok p else .error .keyNumberNotFound
      | none => .error .keyNumberNotFound := by
  rw [C25_get_aes_key]
  have : aesAdded n (cliOps q kf wf) = match q with
      | some p => if p.keyNumber = n then [p] else []
      | none => [] := by
    unfold aesAdded cliOps
    cases q with
    | none => cases kf <;> cases wf <;> simp
    | some p => by_cases hp : p.keyNumber = n <;> cases kf <;> cases wf <;> simp [hp]
  rw [this]
  cases q with
  | none => rfl
  | some p =>
    by_cases hp : p.keyNumber = n <;> simp [hp]

theorem rsa_of_cliOps (P : Prims) (q : Option AeadParams) (kf wf : Option RsaKey) (digest : Bytes) :
    (Keystore.after P (cliOps q kf wf)).getRsa P (.hash (.sha256 digest)) =
      match wf.filter (fun k => P.sha256 k.der = digest), kf.filter (fun k => P.sha256 k.der = digest) with
      | some k, _ => .ok k
      | none, some k => .ok k
      | none, none => .error .keyIdNotFound := by
  have hn : ∀ n k, KsOp.addRsa n k ∈ cliOps q kf wf → ∃ s, n = .text s := by
    intro n k h
    unfold cliOps at h
    cases kf <;> cases wf <;> cases q <;> simp at h <;> grind
  have hp : PlainNames P (.hash (.sha256 digest)) (cliOps q kf wf) :=
    plainNames_of (fun h e => by cases e; rfl) fun n k h v e => by
      obtain ⟨s, hs⟩ := hn n k h
      rw [hs] at e
      cases e
  rw [C25_get_rsa_keyid P _ _ hp]
  have h2 : rsaAddedByName (.hash (.sha256 digest)) (cliOps q kf wf) = [] := by
    rw [rsaAddedByName, List.filterMap_eq_nil_iff]
    intro o ho
    cases o with
    | addAes _ => rfl
    | addRsa n k =>
      obtain ⟨s, rfl⟩ := hn n k ho
      simp
  have h1 : rsaAddedById P digest (cliOps q kf wf) =
      (kf.filter (fun k => P.sha256 k.der = digest)).toList ++ (wf.filter (fun k => P.sha256 k.der = digest)).toList := by
    unfold rsaAddedById cliOps
    cases q <;> cases kf <;> cases wf <;> simp [List.filterMap_cons, Option.filter] <;> repeat' split
    all_goals first | rfl | simp_all
  rw [h1, h2]
  cases wf.filter (fun k => P.sha256 k.der = digest) <;> cases kf.filter (fun k => P.sha256 k.der = digest) <;> rfl

theorem encryptorFromCli_ok {enc : Option Encryptor} (h : encryptorFromCli E a = .ok enc) :
    (enc = none ∧ a.wrapKey = none ∧ a.encKey = none) ∨
    (∃ p, enc = some (.aead p) ∧ a.wrapKey = none ∧ FromArgs a p) ∨
    ∃ p w f rsa, enc = some (.oaep p w) ∧ a.wrapKey = some f ∧ E.load f a.wrapPass = .ok rsa ∧
      oaepWrapper E.prims rsa E.seed p = .ok w ∧
      ((a.encKey = none ∧ p.keyNumber = arrayToNumber E.newNumber ∧ p.kdfData.map (·.kdfAlg) = a.kdfAlg) ∨ FromArgs a p) := by
  unfold encryptorFromCli at h
  split at h
  · rename_i hw
    unfold aeadEncryptorFromCli at h
    split at h
    · rename_i hk
      cases h
      exact .inl ⟨rfl, hw, hk⟩
    · rename_i k hk
      obtain ⟨p, hp, h⟩ := bind_eq_ok.mp h
      obtain ⟨q, hq, h⟩ := bind_eq_ok.mp h
      cases h
      exact .inr (.inl ⟨q, rfl, hw, params_fromArgs hp hq hk⟩)
  · rename_i f hw
    obtain ⟨rsa, hr, h⟩ := bind_eq_ok.mp h
    split at h
    · rename_i hk
      obtain ⟨d, hd, h⟩ := bind_eq_ok.mp h
      obtain ⟨x, hx, h⟩ := bind_eq_ok.mp h
      cases h
      unfold oaepWithNewKey at hx
      obtain ⟨k, _, hx⟩ := bind_eq_ok.mp hx
      obtain ⟨p, hp, hx⟩ := bind_eq_ok.mp hx
      obtain ⟨w, hw', hx⟩ := bind_eq_ok.mp hx
      cases hx
      refine .inr (.inr ⟨p, w, f, rsa, rfl, hw, hr, hw', .inl ⟨hk, ?_⟩⟩)
      unfold AeadParams.create at hp
      obtain ⟨_, _, hp⟩ := bind_eq_ok.mp hp
      obtain ⟨_, _, hp⟩ := bind_eq_ok.mp hp
      obtain ⟨_, _, hp⟩ := bind_eq_ok.mp hp
      cases hp
      exact ⟨rfl, kdfDataFromCli_ok hd⟩
    · rename_i k hk
      obtain ⟨p, hp, h⟩ := bind_eq_ok.mp h
      split at h
      · cases h
      · obtain ⟨q, hq, h⟩ := bind_eq_ok.mp h
        obtain ⟨x, hx, h⟩ := bind_eq_ok.mp h
        cases h
        obtain ⟨w, hw', hx⟩ := bind_eq_ok.mp hx
        cases hx
        exact .inr (.inr ⟨q, w, f, rsa, rfl, hw, hr, hw', .inr (params_fromArgs hp hq hk)⟩)

theorem signerFromCli_ok {sg : Option Signer} (h : signerFromCli E a = .ok sg) :
    (a.keyFile = none ∧ sg = none) ∨ ∃ f k, a.keyFile = some f ∧ E.load f a.keyPass = .ok k ∧ sg = some (.rsa k none E.now) := by
  rcases optM_ok h with ⟨h1, h2⟩ | ⟨f, s, h1, h2, h3⟩
  · exact .inl ⟨h1, h2⟩
  · obtain ⟨k, hk, h2⟩ := bind_eq_ok.mp h2
    unfold rsaSigner at h2
    split at h2
    · cases h2
      exact .inr ⟨f, k, h1, hk, h3⟩
    · cases h2

/-! ## C82 -/

/-- Specification: the reader's arguments go with the writer's.  The AES arguments are the same; the file with the signing key may be the
public key; the file with the wrapping key must be the private key if the content key is not given.  Two different keys among the
reader's do not have the same key id. -/
structure Spec.ReaderFor (E : CliEnv) (a : CliArgs) (E' : CliEnv) (b : CliArgs) : Prop where
  prims : E'.prims = E.prims
  encKey : b.encKey = a.encKey
  aesMode : b.aesMode = a.aesMode
  keyNum : b.keyNum = a.keyNum
  salt : b.salt = a.salt
  sign : ∀ f k, a.keyFile = some f → E.load f a.keyPass = .ok k →
    ∃ f' k', b.keyFile = some f' ∧ E'.load f' b.keyPass = .ok k' ∧ k'.der = k.der
  wrap : ∀ f k, a.wrapKey = some f → E.load f a.wrapPass = .ok k →
    ∃ f' k', b.wrapKey = some f' ∧ E'.load f' b.wrapPass = .ok k' ∧ k'.der = k.der ∧ (a.encKey = none → k'.hasPrivate = true)
  distinct : ∀ f g k l, b.keyFile = some f → b.wrapKey = some g → E'.load f b.keyPass = .ok k → E'.load g b.wrapPass = .ok l →
    E.prims.sha256 k.der = E.prims.sha256 l.der → k.der = l.der

/-- Specification: numbers that fit their fields: a key number below 2^64, the KDF algorithm, and four random bytes for a new number. -/
structure Spec.Ranges (E : CliEnv) (a : CliArgs) : Prop where
  keyNum : ∀ n, a.keyNum = some n → n < 2 ^ 64
  kdf : ∀ k, a.kdfAlg = some k → k < 2 ^ 64
  newNumber : E.newNumber.length ≤ 8

theorem kdf_lt {d : Option KdfData} {o : Option Nat} (h : d.map (·.kdfAlg) = o) (ho : ∀ k, o = some k → k < 2 ^ 64) :
    ∀ x, d = some x → x.kdfAlg < 2 ^ 64 := by
  rintro x rfl
  exact ho _ (by rw [← h]; rfl)

theorem FromArgs.fits {p : AeadParams} (h : FromArgs a p) (hr : Spec.Ranges E a) : p.Fits64 := by
  obtain ⟨n, hn, h0, hp⟩ := h.number
  have := hr.keyNum n hn
  exact ⟨by rw [hp]; omega, kdf_lt h.kdf hr.kdf⟩

/-- C82 (keys): the keystore that a reader makes of arguments that go with the writer's can verify and decrypt what the writer signs and
encrypts. -/
theorem C82_keys {sg : Option Signer} {enc : Option Encryptor} {ks : Keystore} (hb : Spec.ReaderFor E a E' b) (hr : Spec.Ranges E a)
    (hsg : signerFromCli E a = .ok sg) (henc : encryptorFromCli E a = .ok enc) (hks : createKeystore E' b = .ok ks) :
    Spec.CanVerify E.prims (some ks) sg ∧ Spec.CanDecrypt E.prims (some ks) enc := by
  obtain ⟨q, kf, wf, rfl, hq, hkf, hwf⟩ := createKeystore_ok hks
  have hdist : ∀ k l, kf = some k → wf = some l → E.prims.sha256 k.der = E.prims.sha256 l.der → k.der = l.der := by
    intro k l hk hl hh
    rcases hkf with ⟨_, h⟩ | ⟨f, x, h1, h2, h3⟩
    · rw [h] at hk; cases hk
    rcases hwf with ⟨_, h⟩ | ⟨g, y, h4, h5, h6⟩
    · rw [h] at hl; cases hl
    rw [h3] at hk; cases hk
    rw [h6] at hl; cases hl
    exact hb.distinct f g _ _ h1 h4 h2 h5 hh
  rw [hb.prims]
  constructor
  · rcases signerFromCli_ok hsg with ⟨_, rfl⟩ | ⟨f, k, hf, hl, rfl⟩
    · trivial
    · rintro s hs
      cases hs
      obtain ⟨f', k', hf', hl', hd⟩ := hb.sign f k hf hl
      have hkf' : kf = some k' := by
        rcases hkf with ⟨h, _⟩ | ⟨f2, x, h1, h2, h3⟩
        · rw [hf'] at h; cases h
        · rw [hf'] at h1; cases h1
          rw [hl'] at h2; cases h2
          exact h3
      rw [RsaKey.keyid, rsa_of_cliOps, hkf', ← hd]
      simp only [Option.filter, decide_true, if_true]
      cases wf with
      | none => exact ⟨k', rfl, rfl⟩
      | some w =>
        by_cases hw : E.prims.sha256 w.der = E.prims.sha256 k'.der
        · simp only [hw, decide_true, if_true]
          exact ⟨w, rfl, (hdist k' w hkf' rfl hw.symm).symm⟩
        · simp only [hw, decide_false, Bool.false_eq_true, if_false]
          exact ⟨k', rfl, rfl⟩
  · rcases encryptorFromCli_ok henc with ⟨rfl, _, _⟩ | ⟨p, rfl, _, hp⟩ | ⟨p, w, f, rsa, rfl, hf, hl, hw, hp⟩
    · trivial
    · refine ⟨hp.fits hr, ?_⟩
      rcases hq with ⟨h, _⟩ | ⟨p', rfl, hp'⟩
      · obtain ⟨k, hk, _⟩ := hp.key
        rw [hb.encKey, hk] at h
        cases h
      · have hs := hp.sameCipher hp' hb.encKey hb.aesMode hb.keyNum hb.salt
        exact ⟨_, p', rfl, by rw [aes_of_cliOps]; simp [hs.2.1], hs⟩
    · obtain ⟨c, _, hwe⟩ := oaepWrapper_ok hw
      have hwalg : ∀ x, w.hashAlg = some x → x < 2 ^ 64 := by
        rw [hwe]
        rintro x hx
        cases hx
        decide
      rcases hp with ⟨hk, hn, hkdf⟩ | hp
      · refine ⟨⟨?_, kdf_lt hkdf hr.kdf⟩, hwalg, _, rfl, .inr ⟨?_, ?_⟩⟩
        · rw [hn]
          have h1 := arrayToNumber_lt E.newNumber
          have h2 : 256 ^ E.newNumber.length ≤ 256 ^ 8 := Nat.pow_le_pow_right (by decide) hr.newNumber
          omega
        · rcases hq with ⟨_, rfl⟩ | ⟨p', rfl, hp'⟩
          · exact ⟨_, by rw [aes_of_cliOps]⟩
          · obtain ⟨k, hk', _⟩ := hp'.key
            rw [hb.encKey, hk] at hk'
            cases hk'
        · obtain ⟨f', k', hf', hl', hd, hpriv⟩ := hb.wrap f rsa hf hl
          have hwf' : wf = some k' := by
            rcases hwf with ⟨h, _⟩ | ⟨f2, x, h1, h2, h3⟩
            · rw [hf'] at h; cases h
            · rw [hf'] at h1; cases h1
              rw [hl'] at h2; cases h2
              exact h3
          refine ⟨rsa, E.seed, k', hw, ?_, hd, hpriv hk⟩
          rw [RsaKey.keyid, rsa_of_cliOps, hwf', ← hd]
          simp [Option.filter]
      · refine ⟨hp.fits hr, hwalg, _, rfl, .inl ?_⟩
        rcases hq with ⟨h, _⟩ | ⟨p', rfl, hp'⟩
        · obtain ⟨k, hk, _⟩ := hp.key
          rw [hb.encKey, hk] at h
          cases h
        · have hs := hp.sameCipher hp' hb.encKey hb.aesMode hb.keyNum hb.salt
          exact ⟨p', by rw [aes_of_cliOps]; simp [hs.2.1], hs⟩

theorem fromUri_components {u : Option Text} {n : Name} (h : Name.fromUri u = .ok (some n)) :
    ∀ c ∈ n.components, (c.isArray = false ∧ ∃ t : Text, utf8Encode t = c.value) ∧ c.type = 1 := by
  unfold Name.fromUri at h
  split at h
  · cases h
  · obtain ⟨_, _, h⟩ := bind_eq_ok.mp h
    obtain ⟨cs, hcs, h⟩ := bind_eq_ok.mp h
    obtain ⟨m, hm, h⟩ := bind_eq_ok.mp h
    cases h
    obtain ⟨rfl, _⟩ := construct_inv hm
    clear hm
    intro c hc
    have : ∀ (l : List Text) (cs : List NameComponent),
        l.mapM (fun c => construct NameComponent.tlv (.nameSegment (utf8Encode c))) = .ok cs →
        ∀ c ∈ cs, (c.isArray = false ∧ ∃ t : Text, utf8Encode t = c.value) ∧ c.type = 1 := by
      intro l
      induction l with
      | nil => intro cs h; cases h; simp
      | cons x l ih =>
        intro cs h
        rw [List.mapM_cons] at h
        obtain ⟨y, hy, h⟩ := bind_eq_ok.mp h
        obtain ⟨ys, hys, h⟩ := bind_eq_ok.mp h
        cases h
        obtain ⟨rfl, _⟩ := construct_inv hy
        intro c hc
        rcases List.mem_cons.mp hc with rfl | hc
        · exact ⟨⟨rfl, x, rfl⟩, rfl⟩
        · exact ih ys hys c hc
    exact this _ _ hcs c hc

theorem fromUri_plain {u : Option Text} {n : Name} (h : Name.fromUri u = .ok (some n)) : ∀ c ∈ n.components, c.isArray = false :=
  fun c hc => (fromUri_components h c hc).1.1

theorem fromUri_text {u : Option Text} {n : Name} (h : Name.fromUri u = .ok (some n)) : Spec.TextName n :=
  fun c hc => ⟨fun _ => (fromUri_components h c hc).1.2, fun h5 => by rw [(fromUri_components h c hc).2] at h5; omega⟩

theorem fromUri_locators {o : TreeOptions} {u um ud : Option Text} (h : Name.fromUri u = .ok o.name)
    (hm : locatorsFromUri um = .ok o.manifestLocators) (hd : locatorsFromUri ud = .ok o.dataLocators) : Spec.TextLocators o := by
  have key : ∀ {v : Option Text} {r : Option (List Link)}, locatorsFromUri v = .ok r →
      ∀ l ∈ r.getD [{ name := o.name }], ∀ n, l.name = some n → Spec.TextName n := by
    intro v r hr l hl n hn
    cases v with
    | none =>
      cases hr
      cases List.mem_singleton.1 hl
      have hn : o.name = some n := hn
      exact fromUri_text (hn ▸ h)
    | some v =>
      obtain ⟨m, h1, hr⟩ := bind_eq_ok.mp hr
      obtain ⟨l', h2, hr⟩ := bind_eq_ok.mp hr
      obtain ⟨ls, h3, hr⟩ := bind_eq_ok.mp hr
      cases hr
      obtain ⟨rfl, _⟩ := construct_inv h2
      obtain ⟨rfl, _⟩ := construct_inv h3
      cases List.mem_singleton.1 hl
      have hn : m = some n := hn
      exact fromUri_text (hn ▸ h1)
  rintro _ ls (rfl | rfl)
  · exact key hm
  · exact key hd

/-- What `_create_tree_options` and its prelude make. -/
theorem writerOptions_ok {iso : Text → Py F64} {hashOf : Bytes → Int} {w : WriterArgs} {o : TreeOptions}
    (h : writerOptions E iso hashOf w = .ok o) :
    prefixCheck w = .ok () ∧ Name.fromUri w.name = .ok o.name ∧ SchemaType.parseText w.schema = .ok o.schemaType ∧
    signerFromCli E (defaultKeyNum hashOf w.toCliArgs) = .ok o.signer ∧
    Name.fromUri w.manifestPrefix = .ok o.manifestPrefix ∧ Name.fromUri w.dataPrefix = .ok o.dataPrefix ∧
    locatorsFromUri w.manifestLocator = .ok o.manifestLocators ∧ locatorsFromUri w.dataLocator = .ok o.dataLocators ∧
    parseTime iso w.rootExpiry = .ok o.rootExpiry ∧ parseTime iso w.nodeExpiry = .ok o.manifestExpiry ∧
    parseTime iso w.dataExpiry = .ok o.dataExpiry ∧
    encryptorFromCli E (defaultKeyNum hashOf w.toCliArgs) = .ok o.encryptor ∧ o.addNodeSubtreeSize = true ∧
    o.maxTreeDegree = w.treeDegree ∧ o.maxPacketSize = w.maxSize := by
  unfold writerOptions at h
  obtain ⟨_, _, h⟩ := bind_eq_ok.mp h
  obtain ⟨_, hp, h⟩ := bind_eq_ok.mp h
  unfold treeOptionsFromCli at h
  obtain ⟨n, h1, h⟩ := bind_eq_ok.mp h
  obtain ⟨sc, h2, h⟩ := bind_eq_ok.mp h
  obtain ⟨sg, h3, h⟩ := bind_eq_ok.mp h
  obtain ⟨mp, h4, h⟩ := bind_eq_ok.mp h
  obtain ⟨dp, h5, h⟩ := bind_eq_ok.mp h
  obtain ⟨ml, h6, h⟩ := bind_eq_ok.mp h
  obtain ⟨dl, h7, h⟩ := bind_eq_ok.mp h
  obtain ⟨rt, h8, h⟩ := bind_eq_ok.mp h
  obtain ⟨mt, h9, h⟩ := bind_eq_ok.mp h
  obtain ⟨dt, h10, h⟩ := bind_eq_ok.mp h
  obtain ⟨en, h11, h⟩ := bind_eq_ok.mp h
  cases h
  exact ⟨hp, h1, h2, h3, h4, h5, h6, h7, h8, h9, h10, h11, rfl, rfl, rfl⟩

theorem parseTime_whole {iso : Text → Py F64} (hiso : ∀ t x, iso t = .ok x → ∃ n, n < 2 ^ 40 ∧ x = F64.ofNat n) {t : Option Text} {x : F64}
    (h : parseTime iso t = .ok (some x)) : ∃ n, n < 2 ^ 40 ∧ x = F64.ofNat n := by
  rcases optM_ok h with ⟨_, h⟩ | ⟨u, y, _, h2, h3⟩
  · cases h
  · cases h3
    obtain ⟨z, hz, h2⟩ := bind_eq_ok.mp h2
    obtain ⟨rfl, _⟩ := construct_inv h2
    exact hiso u _ hz

/-- Specification: the choices of `--schema`. -/
def Spec.choice : SchemaType → Text
  | .hashed => ['H', 'a', 's', 'h', 'e', 'd']
  | .prefixed => ['P', 'r', 'e', 'f', 'i', 'x']
  | .segmented => ['S', 'e', 'g', 'm', 'e', 'n', 't', 'e', 'd']

theorem writer_equipped {iso : Text → Py F64} {hashOf : Bytes → Int} {w : WriterArgs} {o : TreeOptions} {ks : Keystore}
    {T : Env} {nc : Nat} (ho : writerOptions E iso hashOf w = .ok o) (hks : createKeystore E' b = .ok ks)
    (hb : Spec.ReaderFor E (defaultKeyNum hashOf w.toCliArgs) E' b) (hr : Spec.Ranges E (defaultKeyNum hashOf w.toCliArgs))
    (hT : T.prims = E.prims) (ha : E.prims.AeadLaw) (hO : E.prims.OaepLaw) (hR : E.prims.RsaLaw) (hnc : nc + 1 < 2 ^ 64)
    (hiso : ∀ t x, iso t = .ok x → ∃ n, n < 2 ^ 40 ∧ x = F64.ofNat n) (hnow : ∃ n, n < 2 ^ 40 ∧ E.now = F64.ofNat n) :
    Spec.Equipped T o nc (some ks) ∧ Spec.WholeOptions o := by
  obtain ⟨h0, h1, h2, h3, h4, h5, h6, h7, h8, h9, h10, h11, _⟩ := writerOptions_ok ho
  have hkeys := C82_keys hb hr h3 h11 hks
  refine ⟨⟨⟨hT ▸ ha, hT ▸ hO, hT ▸ hR, hT ▸ hkeys.1, hT ▸ hkeys.2, ?_, hnc⟩, fromUri_locators h1 h6 h7⟩, ⟨?_, ?_⟩⟩
  · rintro n (hn | hn | hn)
    · exact fromUri_plain (hn ▸ h1)
    · exact fromUri_plain (hn ▸ h4)
    · exact fromUri_plain (hn ▸ h5)
  · rintro e (he | he | he)
    · exact parseTime_whole hiso (he ▸ h8)
    · exact parseTime_whole hiso (he ▸ h9)
    · exact parseTime_whole hiso (he ▸ h10)
  · intro key link t hk
    rcases signerFromCli_ok h3 with ⟨_, h⟩ | ⟨f, k, _, _, h⟩
    · rw [h] at hk; cases hk
    · rw [h] at hk; cases hk
      exact ⟨rfl, hnow⟩

theorem writer_schema {iso : Text → Py F64} {hashOf : Bytes → Int} {w : WriterArgs} {o : TreeOptions}
    (ho : writerOptions E iso hashOf w = .ok o) (hty : w.schema = Spec.choice .hashed ∨ w.schema = Spec.choice .prefixed) :
    o.schemaType ≠ .segmented := by
  obtain ⟨h0, h1, h2, _⟩ := writerOptions_ok ho
  have e1 : SchemaType.parseText (Spec.choice .hashed) = .ok .hashed := by decide +kernel
  have e2 : SchemaType.parseText (Spec.choice .prefixed) = .ok .prefixed := by decide +kernel
  intro hs
  rw [hs] at h2
  rcases hty with h | h <;> rw [h] at h2
  · rw [e1] at h2; cases h2
  · rw [e2] at h2; cases h2

/-- C82 (a written file can be read): a file written by the manifest writer with a Hashed or Prefix schema into a flat directory is returned
by a traversal of that directory from the root's name and hash, with the keystore that the reader's program makes of arguments that go with
the writer's.  The expiry times and the signing time are whole seconds, and the cryptography works. -/
theorem C82_file {iso : Text → Py F64} {hashOf : Bytes → Int} {w : WriterArgs} {o : TreeOptions} {ks : Keystore}
    {T : Env} {L : FloatLog} {nc : Nat} {input : Stream} {root : Packet} {out : List Packet}
    (ho : writerOptions E iso hashOf w = .ok o) (hks : createKeystore E' b = .ok ks)
    (hb : Spec.ReaderFor E (defaultKeyNum hashOf w.toCliArgs) E' b) (hr : Spec.Ranges E (defaultKeyNum hashOf w.toCliArgs))
    (hT : T.prims = E.prims) (ha : E.prims.AeadLaw) (hO : E.prims.OaepLaw) (hR : E.prims.RsaLaw) (hnc : nc + 1 < 2 ^ 64)
    (hiso : ∀ t x, iso t = .ok x → ∃ n, n < 2 ^ 40 ∧ x = F64.ofNat n) (hnow : ∃ n, n < 2 ^ 40 ∧ E.now = F64.ofNat n)
    (hty : w.schema = Spec.choice .hashed ∨ w.schema = Spec.choice .prefixed)
    (h : manifestTree T L o nc input = (.ok root, out)) (hc : Spec.NoCollision T.prims out)
    (now : F64) (F : NameComponent → Text) {d : DirWriter} (hn : d.nested = false) {s : DirState}
    (hs : d.putAll T.prims F out {} = (.ok (), s)) :
    ∃ hv, root.hash T.prims.sha256 = .ok hv ∧ ∀ depth, out.length ≤ depth →
      Spec.ReturnedBy T o out (s.dir.reader now F) (some ks) depth hv input.rest := by
  obtain ⟨he, hw⟩ := writer_equipped ho hks hb hr hT ha hO hR hnc hiso hnow
  exact C64_file_in_directory now F (writer_schema ho hty) h he hw hc hn hs

/-! ## C83: the manifest reader program -/

/-- C83: the manifest reader program raises for every directory, keystore, name and hash argument, and writes nothing: without a hash no
packet is found by name (C61), and with one the text of the argument is not a hash value. -/
theorem C83_reader_never_reads (P : Prims) (now : F64) (R : NameComponent → Text) (d : Directory) (ks : Keystore) (depth : Nat) (uri : Text)
    (hash : Option Text) (s : TState) : ∃ e, manifestReaderRead P now R d ks depth uri hash s = (.error e, s) := by
  unfold manifestReaderRead
  cases hn : Name.fromUri (some uri) with
  | error e => exact ⟨e, rfl⟩
  | ok name =>
    rw [PyS.liftBind_run rfl]
    have ⟨n, hname⟩ : ∃ n, name = some n := by
      unfold Name.fromUri at hn
      obtain ⟨_, _, hn⟩ := bind_eq_ok.mp hn
      obtain ⟨_, _, hn⟩ := bind_eq_ok.mp hn
      obtain ⟨m, _, hn⟩ := bind_eq_ok.mp hn
      cases hn
      exact ⟨m, rfl⟩
    subst hname
    cases hash with
    | some t => exact ⟨_, rfl⟩
    | none =>
      obtain ⟨e, he⟩ := C61_by_name_never_returns now R d n
      refine ⟨e, ?_⟩
      show TravEnv.traverse _ depth (some n) none s = _
      unfold TravEnv.traverse
      dsimp only
      rw [he]
      rfl

/-! ## C84: what the writer's arguments must be -/

/-- C84 (prefixes): with a schema among the choices, the options have that schema, and both prefixes if it is Segmented and no prefix
otherwise. -/
theorem C84_prefixes {iso : Text → Py F64} {hashOf : Bytes → Int} {w : WriterArgs} {o : TreeOptions} (ty : SchemaType)
    (hty : w.schema = Spec.choice ty) (h : writerOptions E iso hashOf w = .ok o) :
    o.schemaType = ty ∧ (ty = .segmented → o.manifestPrefix ≠ none ∧ o.dataPrefix ≠ none) ∧
    (ty ≠ .segmented → o.manifestPrefix = none ∧ o.dataPrefix = none) := by
  obtain ⟨h0, _, h2, _, h4, h5, _⟩ := writerOptions_ok h
  have hsome : ∀ {u : Option Text} {r : Option Name}, Name.fromUri u = .ok r → (r = none ↔ u = none) := by
    intro u r h
    cases u with
    | none => cases h; simp
    | some x =>
      unfold Name.fromUri at h
      obtain ⟨_, _, h⟩ := bind_eq_ok.mp h
      obtain ⟨_, _, h⟩ := bind_eq_ok.mp h
      obtain ⟨m, _, h⟩ := bind_eq_ok.mp h
      cases h
      simp
  have hp : SchemaType.parseText (Spec.choice ty) = .ok ty := by cases ty <;> decide +kernel
  rw [hty, hp] at h2
  cases h2
  refine ⟨rfl, ?_, ?_⟩
  · intro hseg
    rw [Ne, hsome h4, Ne, hsome h5]
    unfold prefixCheck at h0
    rw [hty, hseg, if_pos (by rfl)] at h0
    split at h0
    · cases h0
    · rename_i hb
      simpa using hb
  · intro hseg
    rw [hsome h4, hsome h5]
    unfold prefixCheck at h0
    have hne : w.schema ≠ ['S', 'e', 'g', 'm', 'e', 'n', 't', 'e', 'd'] := by
      rw [hty]
      generalize o.schemaType = ty at hseg
      cases ty
      · decide
      · decide
      · exact absurd rfl hseg
    rw [if_neg hne] at h0
    split at h0
    · cases h0
    · rename_i hb
      simpa using hb

/-- C84 (the rest): the packet size, degree and name are those given; the options always ask for subtree sizes; there are expiry
times, an encryptor and a signer exactly if there are arguments for them. -/
theorem C84_passed_on {iso : Text → Py F64} {hashOf : Bytes → Int} {w : WriterArgs} {o : TreeOptions}
    (h : writerOptions E iso hashOf w = .ok o) :
    o.maxPacketSize = w.maxSize ∧ o.maxTreeDegree = w.treeDegree ∧ o.addNodeSubtreeSize = true ∧
    Name.fromUri w.name = .ok o.name ∧
    (o.rootExpiry.isSome ↔ w.rootExpiry.isSome) ∧ (o.manifestExpiry.isSome ↔ w.nodeExpiry.isSome) ∧
    (o.dataExpiry.isSome ↔ w.dataExpiry.isSome) ∧
    (o.encryptor = none ↔ w.encKey = none ∧ w.wrapKey = none) ∧
    (o.signer = none ↔ w.keyFile = none) := by
  obtain ⟨_, h1, _, h3, _, _, _, _, h8, h9, h10, h11, h12, h13, h14⟩ := writerOptions_ok h
  have ht : ∀ {t : Option Text} {x : Option F64}, parseTime iso t = .ok x → (x.isSome ↔ t.isSome) := by
    intro t x h
    rcases optM_ok h with ⟨h1, h2⟩ | ⟨u, y, h1, _, h2⟩ <;> rw [h1, h2] <;> simp
  have hd : ∀ c : CliArgs, (defaultKeyNum hashOf c).encKey = c.encKey ∧ (defaultKeyNum hashOf c).wrapKey = c.wrapKey ∧
      (defaultKeyNum hashOf c).keyFile = c.keyFile := by
    intro c
    unfold defaultKeyNum
    split <;> exact ⟨rfl, rfl, rfl⟩
  obtain ⟨d1, d2, d3⟩ := hd w.toCliArgs
  refine ⟨h14, h13, h12, h1, ht h8, ht h9, ht h10, ?_, ?_⟩
  · rw [← d1, ← d2]
    rcases encryptorFromCli_ok h11 with ⟨h, hw, hk⟩ | ⟨p, h, _, hp⟩ | ⟨p, x, f, rsa, h, hf, _⟩
    · simp [h, hw, hk]
    · obtain ⟨k, hk, _⟩ := hp.key
      simp [h, hk]
    · simp [h, hf]
  · rw [← d3]
    rcases signerFromCli_ok h3 with ⟨hf, h⟩ | ⟨f, k, hf, _, h⟩ <;> simp [h, hf]

/-- C84 (key numbers): without `--key-num` the writer takes Python's hash of the key.  If that is negative no options are made; if not, it is
the key number, which the reader must be told: a reader with `--enc-key` but no `--key-num` makes no keystore. -/
theorem C84_key_number {iso : Text → Py F64} {hashOf : Bytes → Int} {w : WriterArgs} {k : Bytes} (hk : w.encKey = some k)
    (hn : w.keyNum = none) :
    (hashOf k < 0 → ∀ o, writerOptions E iso hashOf w ≠ .ok o) ∧
    (∀ o p, writerOptions E iso hashOf w = .ok o → (o.encryptor = some (.aead p) ∨ ∃ x, o.encryptor = some (.oaep p x)) →
      (p.keyNumber : Int) = hashOf k ∧ p.key = some ⟨w.aesMode, k⟩) ∧
    (∀ E' : CliEnv, ∀ ks, createKeystore E' w.toCliArgs ≠ .ok ks) := by
  have hd : (defaultKeyNum hashOf w.toCliArgs).keyNum = some (hashOf k) ∧ (defaultKeyNum hashOf w.toCliArgs).encKey = some k ∧
      (defaultKeyNum hashOf w.toCliArgs).aesMode = w.aesMode := by
    unfold defaultKeyNum
    rw [hk, hn]
    exact ⟨rfl, rfl, rfl⟩
  have hfrom : ∀ o, writerOptions E iso hashOf w = .ok o → ∃ p, FromArgs (defaultKeyNum hashOf w.toCliArgs) p ∧
      (o.encryptor = some (.aead p) ∨ ∃ x, o.encryptor = some (.oaep p x)) := by
    intro o ho
    obtain ⟨_, _, _, _, _, _, _, _, _, _, _, h11, _⟩ := writerOptions_ok ho
    rcases encryptorFromCli_ok h11 with ⟨_, _, h⟩ | ⟨p, h, _, hp⟩ | ⟨p, x, f, rsa, h, _, _, _, hp⟩
    · rw [hd.2.1] at h; cases h
    · exact ⟨p, hp, .inl h⟩
    · rcases hp with ⟨h', _⟩ | hp
      · rw [hd.2.1] at h'; cases h'
      · exact ⟨p, hp, .inr ⟨x, h⟩⟩
  refine ⟨?_, ?_, ?_⟩
  · intro hneg o ho
    obtain ⟨p, hp, _⟩ := hfrom o ho
    obtain ⟨n, h1, h2, _⟩ := hp.number
    rw [hd.1] at h1
    cases h1
    omega
  · intro o p ho he
    obtain ⟨q, hq, he'⟩ := hfrom o ho
    have : p = q := by
      rcases he with h | ⟨x, h⟩ <;> rcases he' with h' | ⟨y, h'⟩ <;> rw [h] at h' <;> cases h' <;> rfl
    subst this
    obtain ⟨n, h1, h2, h3⟩ := hq.number
    obtain ⟨k', h4, h5⟩ := hq.key
    rw [hd.1] at h1
    cases h1
    rw [hd.2.1] at h4
    cases h4
    exact ⟨by rw [h3]; omega, by rw [h5, hd.2.2]⟩
  · intro E' ks hks
    obtain ⟨q, kf, wf, _, hq, _⟩ := createKeystore_ok hks
    rcases hq with ⟨h, _⟩ | ⟨p, _, hp⟩
    · rw [hk] at h; cases h
    · obtain ⟨n, h, _⟩ := hp.number
      rw [hn] at h; cases h

/-- C84 (salt): wrapping a given content key needs a salt; with AEAD alone it does not. -/
theorem C84_wrap_needs_salt {f : Text} {k : Bytes} (hw : a.wrapKey = some f) (hk : a.encKey = some k) (hs : a.salt = none) :
    ∀ enc, encryptorFromCli E a ≠ .ok enc := by
  intro enc h
  rcases encryptorFromCli_ok h with ⟨_, h, _⟩ | ⟨p, _, h, _⟩ | ⟨p, w, f', rsa, _, _, _, hx, hp⟩
  · rw [hw] at h; cases h
  · rw [hw] at h; cases h
  · rcases hp with ⟨h, _⟩ | hp
    · rw [hk] at h; cases h
    · obtain ⟨c, hc, _⟩ := oaepWrapper_ok hx
      obtain ⟨s, _, _, _, hsalt, _⟩ := wrapKey_ok hc
      rw [hp.salt, hs] at hsalt
      cases hsalt

/-- The KDF data that the arguments ask for: the UUID replaces the info. -/
def Spec.kdfOf (E : CliEnv) (w : CliArgs) : Option KdfData :=
  w.kdfAlg.map fun k => ⟨k, if w.kdfUuid then some E.uuid else w.kdfInfo⟩

/-- The parameters for a content key `k` that is given, and for a new one. -/
def Spec.paramsOf (E : CliEnv) (hashOf : Bytes → Int) (w : CliArgs) : AeadParams :=
  match w.encKey with
  | some k => ⟨some ⟨w.aesMode, k⟩, (w.keyNum.getD (hashOf k)).toNat, w.salt.map Int.toNat, Spec.kdfOf E w, w.kdfSalt.map Int.toNat⟩
  | none => ⟨some ⟨.gcm, E.newKey⟩, arrayToNumber E.newNumber, some (arrayToNumber E.newSalt), Spec.kdfOf E w, none⟩

/-- A single locator with the name of a URI, or none. -/
def Spec.LocatorOf (u : Option Text) (ls : Option (List Link)) : Prop :=
  match u with
  | none => ls = none
  | some u => ∃ n, Name.fromUri (some u) = .ok (some n) ∧ ls = some [{ name := some n }]

/-- The time that a text stands for, or none. -/
def Spec.TimeOf (iso : Text → Py F64) (t : Option Text) (x : Option F64) : Prop :=
  match t with
  | none => x = none
  | some t => ∃ y, iso t = .ok y ∧ x = some y

theorem kdfDataFromCli_eq {d : Option KdfData} (h : kdfDataFromCli E a = .ok d) : d = Spec.kdfOf E a := by
  unfold kdfDataFromCli at h
  obtain ⟨_, _, h⟩ := bind_eq_ok.mp h
  unfold Spec.kdfOf
  rcases optM_ok h with ⟨h1, h2⟩ | ⟨x, y, h1, h2, h3⟩
  · rw [h1, h2]; rfl
  · rw [h1, h3, (construct_inv h2).1]; rfl

theorem aeadParametersFromCli_eq {p : CliParams} {q : AeadParams} {hashOf : Bytes → Int} {k : Bytes} (hk : a.encKey = some k)
    (h : aeadParametersFromCli E (defaultKeyNum hashOf a) = .ok p) (hq : p.params = .ok q) : q = Spec.paramsOf E hashOf a := by
  have hd : (defaultKeyNum hashOf a).encKey = a.encKey ∧ (defaultKeyNum hashOf a).keyNum = some (a.keyNum.getD (hashOf k)) ∧
      (defaultKeyNum hashOf a).salt = a.salt ∧ (defaultKeyNum hashOf a).kdfSalt = a.kdfSalt ∧
      (defaultKeyNum hashOf a).aesMode = a.aesMode ∧ Spec.kdfOf E (defaultKeyNum hashOf a) = Spec.kdfOf E a := by
    unfold defaultKeyNum
    rw [hk]
    cases hn : a.keyNum <;> simp [hk, hn, Spec.kdfOf]
  obtain ⟨d1, d2, d3, d4, d5, d6⟩ := hd
  obtain ⟨h1, h2, _, h4, _⟩ := aeadParametersFromCli_ok h
  unfold aeadParametersFromCli at h
  obtain ⟨_, _, h⟩ := bind_eq_ok.mp h
  obtain ⟨d, hd, h⟩ := bind_eq_ok.mp h
  obtain ⟨_, _, h⟩ := bind_eq_ok.mp h
  obtain ⟨_, _, h⟩ := bind_eq_ok.mp h
  obtain ⟨t, ht, h⟩ := bind_eq_ok.mp h
  cases h
  simp only at h1 h2 h4
  unfold CliParams.params at hq
  rw [h2, d2] at hq
  cases hq
  unfold Spec.paramsOf
  rw [hk, h1, h4, d1, d3, d5, kdfDataFromCli_eq hd, d6, saltCheck_ok ht, d4, hk]
  rfl

/-- C84 (exactly): locators, prefixes, times and signer. -/
theorem C84_exact {iso : Text → Py F64} {hashOf : Bytes → Int} {w : WriterArgs} {o : TreeOptions}
    (h : writerOptions E iso hashOf w = .ok o) :
    Name.fromUri w.manifestPrefix = .ok o.manifestPrefix ∧ Name.fromUri w.dataPrefix = .ok o.dataPrefix ∧
    Spec.LocatorOf w.manifestLocator o.manifestLocators ∧ Spec.LocatorOf w.dataLocator o.dataLocators ∧
    Spec.TimeOf iso w.rootExpiry o.rootExpiry ∧ Spec.TimeOf iso w.nodeExpiry o.manifestExpiry ∧
    Spec.TimeOf iso w.dataExpiry o.dataExpiry ∧
    (∀ f, w.keyFile = some f → ∃ k, E.load f w.keyPass = .ok k ∧ k.hasPrivate = true ∧ o.signer = some (.rsa k none E.now)) := by
  obtain ⟨_, _, _, h3, h4, h5, h6, h7, h8, h9, h10, _⟩ := writerOptions_ok h
  have ht : ∀ {t : Option Text} {x : Option F64}, parseTime iso t = .ok x → Spec.TimeOf iso t x := by
    intro t x h
    rcases optM_ok h with ⟨h1, h2⟩ | ⟨u, y, h1, h2, h3⟩
    · rw [h1, h2]; rfl
    · obtain ⟨z, hz, h2⟩ := bind_eq_ok.mp h2
      rw [h1, h3, (construct_inv h2).1]
      exact ⟨z, hz, rfl⟩
  have hl : ∀ {u : Option Text} {r : Option (List Link)}, locatorsFromUri u = .ok r → Spec.LocatorOf u r := by
    intro u r h
    cases u with
    | none => cases h; rfl
    | some u =>
      obtain ⟨m, h1, h⟩ := bind_eq_ok.mp h
      obtain ⟨l, hl, h⟩ := bind_eq_ok.mp h
      obtain ⟨ls, hls, h⟩ := bind_eq_ok.mp h
      cases h
      have h1' := h1
      unfold Name.fromUri at h1'
      obtain ⟨_, _, h1'⟩ := bind_eq_ok.mp h1'
      obtain ⟨_, _, h1'⟩ := bind_eq_ok.mp h1'
      obtain ⟨n, _, h1'⟩ := bind_eq_ok.mp h1'
      cases h1'
      exact ⟨n, h1, by rw [(construct_inv hls).1, (construct_inv hl).1]⟩
  refine ⟨h4, h5, hl h6, hl h7, ht h8, ht h9, ht h10, fun f hf => ?_⟩
  have hd : (defaultKeyNum hashOf w.toCliArgs).keyFile = w.keyFile ∧ (defaultKeyNum hashOf w.toCliArgs).keyPass = w.keyPass := by
    unfold defaultKeyNum
    split <;> exact ⟨rfl, rfl⟩
  unfold signerFromCli at h3
  rw [hd.1, hd.2, hf] at h3
  rcases optM_ok h3 with ⟨h1, _⟩ | ⟨g, s, h1, h2, h3⟩
  · cases h1
  · cases h1
    obtain ⟨k, hk, h2⟩ := bind_eq_ok.mp h2
    unfold rsaSigner at h2
    split at h2
    · next hp =>
      cases h2
      exact ⟨k, hk, hp, h3⟩
    · cases h2

/-- C84 (exactly): the encryptor. -/
theorem C84_encryptor {iso : Text → Py F64} {hashOf : Bytes → Int} {w : WriterArgs} {o : TreeOptions}
    (h : writerOptions E iso hashOf w = .ok o) :
    (w.wrapKey = none → o.encryptor = w.encKey.map fun _ => .aead (Spec.paramsOf E hashOf w.toCliArgs)) ∧
    (∀ f, w.wrapKey = some f → ∃ rsa x, E.load f w.wrapPass = .ok rsa ∧
      oaepWrapper E.prims rsa E.seed (Spec.paramsOf E hashOf w.toCliArgs) = .ok x ∧
      o.encryptor = some (.oaep (Spec.paramsOf E hashOf w.toCliArgs) x)) := by
  obtain ⟨_, _, _, _, _, _, _, _, _, _, _, h11, _⟩ := writerOptions_ok h
  have hd : (defaultKeyNum hashOf w.toCliArgs).encKey = w.encKey ∧ (defaultKeyNum hashOf w.toCliArgs).wrapKey = w.wrapKey ∧
      (defaultKeyNum hashOf w.toCliArgs).wrapPass = w.wrapPass ∧
      Spec.kdfOf E (defaultKeyNum hashOf w.toCliArgs) = Spec.kdfOf E w.toCliArgs := by
    unfold defaultKeyNum
    split <;> exact ⟨rfl, rfl, rfl, rfl⟩
  obtain ⟨d1, d2, d3, d4⟩ := hd
  unfold encryptorFromCli at h11
  rw [d2, d3] at h11
  constructor
  · intro hw
    rw [hw] at h11
    simp only [aeadEncryptorFromCli] at h11
    rw [d1] at h11
    cases hk : w.encKey with
    | none => rw [hk] at h11; exact (Except.ok.inj h11).symm
    | some k =>
      rw [hk] at h11
      obtain ⟨p, hp, h11⟩ := bind_eq_ok.mp h11
      obtain ⟨q, hq, h11⟩ := bind_eq_ok.mp h11
      rw [← aeadParametersFromCli_eq hk hp hq]
      exact (Except.ok.inj h11).symm
  · intro f hf
    rw [hf] at h11
    obtain ⟨rsa, hr, h11⟩ := bind_eq_ok.mp h11
    rw [d1] at h11
    cases hk : w.encKey with
    | none =>
      rw [hk] at h11
      obtain ⟨d, hd, h11⟩ := bind_eq_ok.mp h11
      obtain ⟨x, hx, h11⟩ := bind_eq_ok.mp h11
      unfold oaepWithNewKey at hx
      obtain ⟨k, hk', hx⟩ := bind_eq_ok.mp hx
      obtain ⟨p, hp, hx⟩ := bind_eq_ok.mp hx
      obtain ⟨y, hy, hx⟩ := bind_eq_ok.mp hx
      have ep : p = Spec.paramsOf E hashOf w.toCliArgs := by
        unfold AeadParams.create at hp
        obtain ⟨_, _, hp⟩ := bind_eq_ok.mp hp
        obtain ⟨s, hs, hp⟩ := bind_eq_ok.mp hp
        obtain ⟨t, ht, hp⟩ := bind_eq_ok.mp hp
        cases hp
        have hk2 : k = ⟨.gcm, E.newKey⟩ := by
          have := aesKeyFromCli_ok (a := { encKey := some E.newKey }) (k := some k) (by unfold aesKeyFromCli optM; simp only [hk'])
          exact Option.some.inj this
        unfold Spec.paramsOf
        rw [hk, kdfDataFromCli_eq hd, d4, saltCheck_ok hs, saltCheck_ok ht, hk2]
        rfl
      rw [ep] at hy hx
      exact ⟨rsa, y, hr, hy, by rw [← Except.ok.inj h11, ← Except.ok.inj hx]⟩
    | some k =>
      rw [hk] at h11
      obtain ⟨p, hp, h11⟩ := bind_eq_ok.mp h11
      split at h11
      · cases h11
      · obtain ⟨q, hq, h11⟩ := bind_eq_ok.mp h11
        obtain ⟨x, hx, h11⟩ := bind_eq_ok.mp h11
        obtain ⟨y, hy, hx⟩ := bind_eq_ok.mp hx
        have ep := aeadParametersFromCli_eq hk hp hq
        rw [ep] at hy hx
        exact ⟨rsa, y, hr, hy, by rw [← Except.ok.inj h11, ← Except.ok.inj hx]⟩

/-! ## The hypotheses can be met -/

/-- Two key files; a name "r"; random bytes. -/
def Toy.cli : CliEnv where
  prims := Toy.prims
  load := fun f _ => if f = ['k'] then .ok Toy.rsa else if f = ['w'] then .ok ⟨[4, 5], true, 2048⟩ else .error .fileNotFoundError
  uuid := []
  newKey := List.replicate 32 1
  newSalt := [0, 0, 0, 9]
  newNumber := [1, 2, 3, 4]
  seed := []
  now := F64.ofNat 3

/-- Signed and encrypted under a new content key, which is wrapped. -/
def Toy.writerArgs : WriterArgs :=
  { schema := ['P', 'r', 'e', 'f', 'i', 'x'], name := some ['c', 'c', 'n', 'x', ':', '/', 'r'], maxSize := 400,
    keyFile := some ['k'], wrapKey := some ['w'] }

/-- Nine data packets with these arguments, of hashes that differ, and a keystore. -/
def Toy.runs (w : WriterArgs) : Bool :=
  (createKeystore Toy.cli w.toCliArgs).toBool &&
  match writerOptions Toy.cli (fun _ => .error .valueError) (fun _ => 0) w with
  | .ok o => Toy.distinct o (Toy.shortReads 36) 9
  | .error _ => false

set_option maxRecDepth 100000 in
/-- C82: a signed and encrypted tree of nine data packets, in a directory, and a reader with the same key files.  All the hypotheses of
`C82_file` hold. -/
example : ∃ o root out ks s, writerOptions Toy.cli (fun _ => .error .valueError) (fun _ => 0) Toy.writerArgs = .ok o ∧
    o.signer.isSome ∧ o.encryptor.isSome ∧
    manifestTree Toy.env Spec.exactLog o 1 (Toy.shortReads 36) = (.ok root, out) ∧ (Spec.dataOf out).length = 9 ∧
    Spec.NoCollision Toy.prims out ∧ createKeystore Toy.cli Toy.writerArgs.toCliArgs = .ok ks ∧
    Spec.ReaderFor Toy.cli (defaultKeyNum (fun _ => 0) Toy.writerArgs.toCliArgs) Toy.cli Toy.writerArgs.toCliArgs ∧
    Spec.Ranges Toy.cli (defaultKeyNum (fun _ => 0) Toy.writerArgs.toCliArgs) ∧
    DirWriter.putAll Toy.prims (fun _ => []) { linkNamedObjects := false } out {} = (.ok (), s) := by
  have h : Toy.runs Toy.writerArgs = true := by decide +kernel
  have hb : Spec.ReaderFor Toy.cli (defaultKeyNum (fun _ => 0) Toy.writerArgs.toCliArgs) Toy.cli Toy.writerArgs.toCliArgs := by
    refine ⟨rfl, rfl, rfl, rfl, rfl, fun f k h1 h2 => ⟨f, k, h1, h2, rfl⟩, ?_, ?_⟩
    · intro f k h1 h2
      cases h1
      cases h2
      exact ⟨_, _, rfl, rfl, rfl, fun _ => rfl⟩
    · intro f g k l h1 h2 h3 h4 h5
      cases h1; cases h2; cases h3; cases h4
      exact absurd h5 (by decide +kernel)
  have hr : Spec.Ranges Toy.cli (defaultKeyNum (fun _ => 0) Toy.writerArgs.toCliArgs) :=
    ⟨fun _ h => (by cases h), fun _ h => (by cases h), by decide⟩
  unfold Toy.runs at h
  rw [Bool.and_eq_true] at h
  obtain ⟨hk, h⟩ := h
  cases hks : createKeystore Toy.cli Toy.writerArgs.toCliArgs with
  | error e => rw [hks] at hk; cases hk
  | ok ks =>
    cases ho : writerOptions Toy.cli (fun _ => .error .valueError) (fun _ => 0) Toy.writerArgs with
    | error e => rw [ho] at h; cases h
    | ok o =>
      rw [ho] at h
      dsimp only at h
      obtain ⟨_, h1, _, h3, h4, h5, hl1, hl2, _, _, _, h11, _⟩ := writerOptions_ok ho
      have hkeys := C82_keys hb hr h3 h11 hks
      obtain ⟨root, out, h6, h7, _, h8⟩ := Toy.equipped hkeys.1 hkeys.2 (by
        rintro n (hn | hn | hn)
        · exact fromUri_plain (hn ▸ h1)
        · exact fromUri_plain (hn ▸ h4)
        · exact fromUri_plain (hn ▸ h5)) (fromUri_locators h1 hl1 hl2) h
      obtain ⟨s, hs⟩ := C64_written (fun _ => []) h6 (w := { linkNamedObjects := false }) rfl
      have h15 := (C84_passed_on ho).2.2.2.2.2.2.2
      refine ⟨o, root, out, ks, s, rfl, ?_, ?_, h6, h7, h8, rfl, hb, hr, hs⟩
      · rw [Option.isSome_iff_ne_none, Ne, h15.2]
        simp [Toy.writerArgs]
      · rw [Option.isSome_iff_ne_none, Ne, h15.1]
        simp [Toy.writerArgs]

/-- C83: the name parses, and reading it fails. -/
example : (Name.fromUri (some ['c', 'c', 'n', 'x', ':', '/', 'r'])).toBool = true := by decide +kernel

/-- C84: arguments with a schema of each kind. -/
example : ([(SchemaType.hashed, none), (.prefixed, none), (.segmented, some ['c', 'c', 'n', 'x', ':', '/', 'm'])].map (fun (ty, p) =>
    (writerOptions Toy.cli (fun _ => .error .valueError) (fun _ => 0)
      { Toy.writerArgs with schema := Spec.choice ty, manifestPrefix := p, dataPrefix := p }).toBool)) = [true, true, true] := by
  decide +kernel

/-- C84: a key without number, whose hash is 7 or -7; wrapped, with salt and without. -/
example : ([((7 : Int), some (9 : Int)), (-7, some 9), (7, none)].map (fun (h, s) =>
    (writerOptions Toy.cli (fun _ => .error .valueError) (fun _ => h)
      { Toy.writerArgs with encKey := some (List.replicate 16 1), salt := s }).toBool)) = [true, false, false] := by
  decide +kernel

end Ccnpy
