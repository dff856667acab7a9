import Verif.Props.ProgramProps
import Verif.Props.ReaderProps
import Verif.Props.TopProps

/-!
# C101: the reader programs, from their arguments to what they print and write
-/

namespace Ccnpy

/-! ## Specification -/

/-- What the packet reader prints for a packet of a file, and how it ends.  `sealed`: manifests are encrypted; `opens`: this one can be
opened with the arguments; `node` is what was encrypted. -/
def Spec.reading (p : Packet) (sealed opens : Bool) (node : Node) : Py Unit × List Shown :=
  let lines := Shown.packet p :: (if p.alg.isSome then [.verified] else [])
  if sealed then
    if opens then (.ok (), lines ++ [.manifest (some { node := .plain node })])
    else (.error .valueError, lines)
  else (.ok (), lines)

/-! ## Names that can be shown -/

/-- The names in the options are text. -/
def Spec.TextNames (o : TreeOptions) : Prop :=
  ∀ n, (o.name = some n ∨ o.manifestPrefix = some n ∨ o.dataPrefix = some n) → Spec.TextName n

theorem nameCtx_prefix {o : TreeOptions} {nc : Nat} {ctx : NameCtx} (hs : o.schemaType ≠ .segmented)
    (h : NameCtx.create o.schemaType nc o.name o.manifestPrefix o.dataPrefix o.manifestLocators o.dataLocators = .ok ctx)
    {i : SchemaImpl} (hi : i = ctx.manifest ∨ i = ctx.data) {j : Nat} {n : Name} (hn : i.getName (some (j : Int)) = .ok (some n)) :
    o.name = some n ∨ o.manifestPrefix = some n ∨ o.dataPrefix = some n := by
  have one : ∀ {id : Nat} {s : NcSchema}, SchemaImpl.create id s = .ok i →
      (∃ l f, s = .hash l f) ∨ (∃ p l f, s = .prefixed p l f ∧ (o.name = p ∨ o.manifestPrefix = p ∨ o.dataPrefix = p)) →
      o.name = some n ∨ o.manifestPrefix = some n ∨ o.dataPrefix = some n := by
    intro id s hi hsc
    rw [schemaCreate_inv hi] at hn
    rcases getName_inv hn with ⟨_, _, _, h⟩ | ⟨l, f, h⟩ | ⟨_, _, _, _, h, _⟩
    · cases h
    · rcases hsc with ⟨_, _, rfl⟩ | ⟨p, _, _, rfl, hp⟩
      · cases h
      · cases h
        exact hp
    · rcases hsc with ⟨_, _, rfl⟩ | ⟨p, _, _, rfl, hp⟩ <;> cases h
  unfold NameCtx.create at h
  cases hty : o.schemaType with
  | hashed =>
    rw [hty] at h
    simp only at h
    unfold NameCtx.createHashed at h
    obtain ⟨root, _, h⟩ := bind_eq_ok.mp h
    simp only at h
    split at h
    · obtain ⟨x, hx, h⟩ := bind_eq_ok.mp h
      cases h
      rcases hi with rfl | rfl <;> exact one hx (.inl ⟨_, _, rfl⟩)
    · obtain ⟨x, hx, h⟩ := bind_eq_ok.mp h
      obtain ⟨y, hy, h⟩ := bind_eq_ok.mp h
      cases h
      rcases hi with rfl | rfl
      · exact one hx (.inl ⟨_, _, rfl⟩)
      · exact one hy (.inl ⟨_, _, rfl⟩)
  | prefixed =>
    rw [hty] at h
    simp only at h
    have hm : ∀ p : Option Name, (if p.isNone = true then o.name else p) = o.name ∨ (if p.isNone = true then o.name else p) = p := by
      intro p; split <;> simp
    have hM := hm o.manifestPrefix
    have hD := hm o.dataPrefix
    generalize (if o.manifestPrefix.isNone = true then o.name else o.manifestPrefix) = m at h hM
    generalize (if o.dataPrefix.isNone = true then o.name else o.dataPrefix) = d at h hD
    split at h
    · cases h
    · unfold NameCtx.createNamed at h
      have hM : o.name = m ∨ o.manifestPrefix = m ∨ o.dataPrefix = m := by
        rcases hM with h | h
        · exact .inl h.symm
        · exact .inr (.inl h.symm)
      have hD : o.name = d ∨ o.manifestPrefix = d ∨ o.dataPrefix = d := by
        rcases hD with h | h
        · exact .inl h.symm
        · exact .inr (.inr h.symm)
      split at h
      · obtain ⟨x, hx, h⟩ := bind_eq_ok.mp h
        cases h
        rcases hi with rfl | rfl <;> exact one hx (.inr ⟨_, _, _, rfl, hM⟩)
      · obtain ⟨x, hx, h⟩ := bind_eq_ok.mp h
        obtain ⟨y, hy, h⟩ := bind_eq_ok.mp h
        cases h
        rcases hi with rfl | rfl
        · exact one hx (.inr ⟨_, _, _, rfl, hM⟩)
        · exact one hy (.inr ⟨_, _, _, rfl, hD⟩)
  | segmented => exact absurd hty hs

/-- The names that a segmented schema makes. -/
theorem nameCtx_segment {o : TreeOptions} {nc : Nat} {ctx : NameCtx} (hs : o.schemaType = .segmented)
    (h : NameCtx.create o.schemaType nc o.name o.manifestPrefix o.dataPrefix o.manifestLocators o.dataLocators = .ok ctx)
    {i : SchemaImpl} (hi : i = ctx.manifest ∨ i = ctx.data) {j : Nat} {n : Name} (hn : i.getName (some (j : Int)) = .ok (some n)) :
    ∃ p st, (o.name = some p ∨ o.manifestPrefix = some p ∨ o.dataPrefix = some p) ∧ st ≠ 1 ∧ n = segName p st j := by
  have one : ∀ {id : Nat} {p : Option Name} {b : Bool}, SchemaImpl.create id (schemaFor .segmented none p b) = .ok i →
      (o.name = p ∨ o.manifestPrefix = p ∨ o.dataPrefix = p) →
      ∃ p st, (o.name = some p ∨ o.manifestPrefix = some p ∨ o.dataPrefix = some p) ∧ st ≠ 1 ∧ n = segName p st j := by
    intro id p b hi hp
    rw [schemaCreate_inv hi] at hn
    rcases getName_inv hn with ⟨_, _, h, _⟩ | ⟨l, f, h⟩ | ⟨q, st, _, _, h, _, hm, _⟩
    · cases h
    · cases h
    · cases h
      cases hm
      exact ⟨q, _, hp, by cases b <;> decide, rfl⟩
  rw [hs] at h
  unfold NameCtx.create at h
  simp only at h
  split at h
  · cases h
  · have hm : ∀ p : Option Name, (if p.isNone = true then o.name else p) = o.name ∨ (if p.isNone = true then o.name else p) = p := by
      intro p; split <;> simp
    have hM := hm o.manifestPrefix
    have hD := hm o.dataPrefix
    generalize (if o.manifestPrefix.isNone = true then o.name else o.manifestPrefix) = m at h hM
    generalize (if o.dataPrefix.isNone = true then o.name else o.dataPrefix) = d at h hD
    split at h
    · cases h
    · unfold NameCtx.createNamed at h
      simp only [Bool.false_eq_true, if_false] at h
      obtain ⟨x, hx, h⟩ := bind_eq_ok.mp h
      obtain ⟨y, hy, h⟩ := bind_eq_ok.mp h
      cases h
      rcases hi with rfl | rfl
      · exact one hx (by rcases hM with h | h <;> simp [h])
      · exact one hy (by rcases hD with h | h <;> simp [h])

theorem readable_of_text {n : Name} (hp : ∀ c ∈ n.components, c.isArray = false) (ht : Spec.TextName n) : Spec.ReadableName n :=
  fun c hc => ⟨fun h1 => ⟨hp c hc, (ht c hc).1 h1⟩, (ht c hc).2⟩

/-- A name with a number appended can be shown when it has been read. -/
theorem readable_segment {p : Name} (ht : Spec.TextName p) {st : Nat} (hst : st ≠ 1) (j : Nat) :
    Spec.ReadableName ⟨(segName p st j).components.map (fun c => { c with isArray := false })⟩ := by
  intro c hc
  obtain ⟨c', hc', rfl⟩ := List.mem_map.1 hc
  rcases List.mem_append.1 (show c' ∈ p.components ++ [segComponent st j] from hc') with h | h
  · exact ⟨fun h1 => ⟨rfl, (ht c' h).1 h1⟩, (ht c' h).2⟩
  · cases List.mem_singleton.1 h
    refine ⟨fun h1 => absurd h1 hst, fun _ => short_of_lt ?_⟩
    show arrayToNumber (beBytes (numWidth j) j) < _
    rw [arrayToNumber_beBytes]
    exact Nat.lt_of_lt_of_le (Nat.mod_lt _ (Nat.pow_pos (by decide)))
      (Nat.le_trans (Nat.pow_le_pow_right (by decide) (numWidth_le j)) (by decide : 256 ^ 8 ≤ 2 ^ 64))

/-- Times of whole seconds and chunk ids of 64 bits can be shown. -/
theorem whole_shown {p : Packet} (h : p.WholeSeconds) :
    (∀ t, p.body.expiryTime = some t → Spec.ShowableTime t) ∧ (∀ k, p.body.finalChunkId = some k → Spec.ShortNumber k) ∧
    ∀ k l t, p.alg = some (.rsaSha256 k l t) → Spec.ShowableTime t := by
  have time : ∀ {t : F64}, (∃ n, n < 2 ^ 40 ∧ t = F64.ofNat n) → Spec.ShowableTime t := by
    rintro _ ⟨n, hn, rfl⟩
    have : (F64.ofNat n).toInt = n := fl_nat_toInt n (by omega)
    unfold Spec.ShowableTime
    rw [this]
    omega
  exact ⟨fun t ht => time (h.1 t ht), fun k hk => short_of_lt (h.2.1 k hk), fun k l t ha => time (h.2.2 k l t ha)⟩

/-! ## Manifests that can be shown -/

/-- The encryptor's wrapper has no key link, as the constructor makes it. -/
def NoKeyLink (enc : Option Encryptor) : Prop := ∀ p w, enc = some (.oaep p w) → w.keyLink = none

/-- How the reader finds a manifest that the encryptor made. -/
def SealedAs (enc : Option Encryptor) (full : Bool) (m : Manifest) : Prop :=
  match enc with
  | none => m.isEncrypted = false
  | some (.aead p) => m.isEncrypted = true ∧ ∃ d, m.securityCtx = some (.aead d) ∧ d.keyNumber = p.keyNumber
  | some (.oaep p w) => m.isEncrypted = true ∧
      ∃ d, m.securityCtx = some (.rsaOaep d (if full then some w.toBytes else none)) ∧ d.keyNumber = p.keyNumber

theorem aead_numbers {d : AeadData} (h : d.Fits) : ∀ n ∈ Spec.aeadNumbers d, n < 2 ^ 64 := by
  intro n hn
  rcases List.mem_cons.1 hn with rfl | hn
  · exact h.1
  · obtain ⟨k, hk, rfl⟩ := Option.map_eq_some_iff.1 (Option.mem_toList.1 hn)
    exact h.2.2 k hk

theorem read_shown {E : Env} {o : TreeOptions} {ks : Option Keystore} (hk : Spec.CanDecrypt E.prims ks o.encryptor)
    (hlink : NoKeyLink o.encryptor) {node : Node}
    (hn : node.Fits64) {name : Option Name} {x : Option F64} {sg : Option Signer} {full : Bool} {s s' : BState} {p : Packet}
    (h : buildFromNode E o node name x sg full s = (.ok p, s'))
    (hshow : Manifest.display { node := .plain node.toBytes } = .ok ()) :
    ∃ m' w, p.body.payload = some w ∧ Manifest.deserialize w = .ok m' ∧ m'.display = .ok () ∧ SealedAs o.encryptor full m' := by
  obtain ⟨m, s1, w, hm, hw, _, hbody, _, _⟩ := buildFromNode_inv h
  have hpay : p.body.payload = some w := by rw [hbody]; rfl
  have hmode : ∀ {q : AeadParams} {nonce : Bytes} {d : AeadData}, q.Fits64 → q.aeadData nonce = .ok d → d.display = .ok () := by
    intro q nonce d hq hd
    obtain ⟨k, md, _, hmd, rfl⟩ := AeadParams.aeadData_ok hd
    obtain ⟨_, _, _, _, _, h⟩ := AeadKey.mode_cases hmd
    have hkdf : showOpt (fun k : KdfData => showInt k.kdfAlg) q.kdfData = .ok () := by
      cases hk : q.kdfData with
      | none => rfl
      | some k => exact showInt_ok.2 (short_of_lt (hq.2 k hk))
    unfold AeadData.display
    simp only [showInt_ok.2 (short_of_lt hq.1), hkdf, ok_bind]
    rcases h with rfl | rfl | rfl | rfl <;> rfl
  unfold buildManifest at hm
  cases ho : o.encryptor with
  | none =>
    simp only [ho] at hm
    obtain ⟨v, hv, hm⟩ := PyS.liftBind_ok hm
    cases hm
    have hfit : ({ node := .plain node } : Manifest).Fits := ⟨by simp, hn⟩
    exact ⟨_, w, hpay, manifest_RT hfit hw, hshow, rfl⟩
  | some enc =>
    rw [ho] at hk hlink
    cases enc with
    | aead q0 =>
      simp only [ho] at hm
      rw [PyS.bind_run] at hm
      simp only [PyS.get_run] at hm
      rw [PyS.bind_run] at hm
      simp only [PyS.modify_run] at hm
      obtain ⟨hm, _⟩ := PyS.lift_ok hm
      obtain ⟨sl, hsl, hm⟩ := bind_eq_ok.mp hm
      obtain ⟨hfit, _⟩ := hk
      obtain ⟨d, hd, henc⟩ := aeadEncrypt_ok hsl
      obtain ⟨_, _, _, _, _, _, hctx, _⟩ := encryptWithCtx_ok henc
      obtain ⟨rfl, _⟩ := Sealed.manifest_ok hm
      rw [hctx] at hw
      have hnum : d.keyNumber = q0.keyNumber := by
        obtain ⟨k, md, _, _, rfl⟩ := AeadParams.aeadData_ok hd
        rfl
      refine ⟨_, w, hpay, manifest_RT (m := ⟨some (.aead d), .encrypted sl.ciphertext, some sl.authTag⟩)
        ⟨by rintro c ⟨⟩; exact AeadParams.aeadData_fits hfit hd, trivial⟩ hw, ?_, rfl, d, rfl, hnum⟩
      show (d.display >>= fun _ => _) = _
      rw [hmode hfit hd]
      rfl
    | oaep q0 wr =>
      simp only [ho] at hm
      rw [PyS.bind_run] at hm
      simp only [PyS.get_run] at hm
      rw [PyS.bind_run] at hm
      simp only [PyS.modify_run] at hm
      obtain ⟨hm, _⟩ := PyS.lift_ok hm
      obtain ⟨sl, hsl, hm⟩ := bind_eq_ok.mp hm
      obtain ⟨hfit, hwr, _⟩ := hk
      obtain ⟨d, hd, henc⟩ := oaepEncrypt_ok hsl
      obtain ⟨_, _, _, _, _, _, hctx, _⟩ := encryptWithCtx_ok henc
      obtain ⟨rfl, _⟩ := Sealed.manifest_ok hm
      rw [hctx] at hw
      have hnum : d.keyNumber = q0.keyNumber := by
        obtain ⟨k, md, _, _, rfl⟩ := AeadParams.aeadData_ok hd
        rfl
      have hwfit : ∀ y, (if full then some wr else none) = some y → y.Fits := by
        intro y hy
        cases full with
        | true => cases hy; exact hwr
        | false => cases hy
      have hl := hlink q0 wr rfl
      refine ⟨_, w, hpay, manifest_RT (m := ⟨some (.rsaOaep d (if full then some wr else none)), .encrypted sl.ciphertext, some sl.authTag⟩)
        ⟨by rintro c ⟨⟩; exact ⟨AeadParams.aeadData_fits hfit hd, hwfit⟩, trivial⟩ hw, ?_, rfl, d, ?_, hnum⟩
      · rw [C77_manifest]
        refine ⟨?_, ?_, nofun, nofun, ?_, nofun⟩
        rotate_left 2
        · rintro c ⟨⟩ n hn
          refine short_of_lt ?_
          have hd' := AeadParams.aeadData_fits hfit hd
          rcases List.mem_append.1 (show n ∈ Spec.aeadNumbers d ++ (Option.bind ((if full then some wr else none).map RsaOaepWrapper.toBytes)
            (·.hashAlg)).toList from hn) with hn | hn
          · exact aead_numbers hd' n hn
          · cases full with
            | true => exact hwr n (Option.mem_toList.1 hn)
            | false => cases hn
        · rintro c ⟨⟩ n hn
          have : Spec.ctxLinks (SecurityCtx.toBytes (.rsaOaep d (if full then some wr else none))) = [] := by
            cases full
            · rfl
            · simp [Spec.ctxLinks, SecurityCtx.toBytes, RsaOaepWrapper.toBytes, hl]
          rw [this] at hn
          cases hn
        · rintro c k ⟨⟩ hk
          obtain ⟨key, md, _, hmd, rfl⟩ := AeadParams.aeadData_ok hd
          cases hk
          obtain ⟨_, _, _, _, _, h⟩ := AeadKey.mode_cases hmd
          rcases h with rfl | rfl | rfl | rfl <;> decide
      · cases full <;> rfl

/-! ## The packet reader on one packet -/

theorem appValidate_signed {P : Prims} {p : Packet} {ks : Keystore} (h : validatePacket P (some ks) p = .ok ()) (l : List Shown) :
    appValidate P p ⟨l, ks⟩ = (.ok (), ⟨l ++ (if p.alg.isSome then [.verified] else []), ks⟩) := by
  cases ha : p.alg with
  | none => rw [C78_unsigned P p _ ha]; simp
  | some a =>
    have hu : ¬ Spec.UnknownSigner P ks p := by
      intro hu
      have := (C78_unknown_signer P p ⟨l, ks⟩ hu).2
      rw [this] at h
      cases h
    rw [C78_checked P p _ (by rw [ha]; nofun) hu, h]
    rfl

/-- The new traversal's decryption is what the program does on its own. -/
theorem libraryOpen_of_decrypt {P : Prims} {T : TravEnv} (hT : T.prims = P) {ks : Keystore} {m r : Manifest} {t' : TState}
    (h : T.decrypt m (TState.new (some ks)) = (.ok r, t')) : (Spec.libraryOpen P ks m).1 = .ok r := by
  have := opened hT h rfl
  unfold Spec.libraryOpen
  show ((TState.new (some ks)).cache.open P m).1 = _
  rw [this]

theorem readManifest_sealed {P : Prims} {p : Packet} {m r : Manifest} {s : AppState} (hty : p.body.payloadType = some PT_MANIFEST)
    (hm : Manifest.fromContentObject p.body = .ok m) (he : m.isEncrypted = true) (ho : (Spec.libraryOpen P s.keystore m).1 = .ok r)
    (hr : r.display = .ok ()) : ∃ ks, readManifest P p s = (.ok (), ⟨s.shown ++ [.manifest (some r)], ks⟩) := by
  have h1 := (C79_agrees P m r s).mpr ho
  obtain ⟨l, hl, hx⟩ := appDecrypt_shown P m s
  have hc : m.securityCtx ≠ none := by
    intro hc
    rw [(C79_no_context P m s he hc).1] at h1
    cases h1
  have hk : ¬ Spec.UnknownAes s.keystore m := by
    intro hk
    obtain ⟨_, _, hr, _⟩ := unknownKey_raises P m s he hk
    rw [hr] at h1
    cases h1
  have h2 := C79_decrypts P m s he hc hk
  rcases hlo : Spec.libraryOpen P s.keystore m with ⟨x, ks⟩
  rw [hlo] at ho h2
  cases ho
  refine ⟨ks, ?_⟩
  unfold readManifest
  rw [if_pos hty, hm, PyS.liftBind_run rfl, he, if_pos rfl, PyS.bind_of_ok h2, appOutput_run]
  rw [show showOpt Manifest.display (some r) = .ok () from hr]
  rfl

theorem readManifest_plain {P : Prims} {p : Packet} {m : Manifest} {s : AppState} (hty : p.body.payloadType = some PT_MANIFEST)
    (hm : Manifest.fromContentObject p.body = .ok m) (he : m.isEncrypted = false) : readManifest P p s = (.ok (), s) := by
  unfold readManifest
  rw [if_pos hty, hm, PyS.liftBind_run rfl, he]
  rfl

theorem readManifest_data {P : Prims} {p : Packet} {s : AppState} (hty : p.body.payloadType = some PT_DATA) :
    readManifest P p s = (.ok (), s) := by
  unfold readManifest
  rw [if_neg (by rw [hty]; decide)]
  rfl

/-- Without the content key a manifest that does not carry it wrapped cannot be opened. -/
theorem readManifest_unwrapped {P : Prims} {p : Packet} {m : Manifest} {s : AppState} {d : AeadData} {e : PyErr}
    (hty : p.body.payloadType = some PT_MANIFEST) (hm : Manifest.fromContentObject p.body = .ok m) (he : m.isEncrypted = true)
    (hc : m.securityCtx = some (.rsaOaep d none)) (hk : s.keystore.getAesKey d.keyNumber = .error e) :
    readManifest P p s = (.error .valueError, s) := by
  have : appDecrypt P m s = (.error .valueError, s) := by
    unfold appDecrypt
    rw [he, if_pos rfl, hc]
    dsimp only
    have : OaepDecryptor.decryptManifest P { keystore := s.keystore } m = (.error .valueError, { keystore := s.keystore }) := by
      unfold OaepDecryptor.decryptManifest OaepDecryptor.getImpl
      rw [hc]
      simp only [List.find?_nil, oaepCreate, hk, oaepCreateByWrappedKey]
      rfl
    rw [this]
    rfl
  unfold readManifest
  rw [if_pos hty, hm, PyS.liftBind_run rfl, he, if_pos rfl, PyS.bind_of_error this]

theorem fromContentObject_of {c : ContentObject} {w : Bytes} {m : Manifest} (hty : c.payloadType = some PT_MANIFEST)
    (hp : c.payload = some w) (hm : Manifest.deserialize w = .ok m) : Manifest.fromContentObject c = .ok m := by
  unfold Manifest.fromContentObject
  rw [hty, hp]
  exact hm

/-- A data object that is shown. -/
theorem read_data {P : Prims} {pr : Bool} {p : Packet} {ks : Keystore} (hty : p.body.payloadType = some PT_DATA) (ha : p.alg = none)
    {b : Bytes} (hb : p.body.payload = some b) (hn : ∀ n, p.body.name = some n → Spec.ReadableName n) (hw : p.WholeSeconds) :
    readPacket P pr p ⟨[], ks⟩ = (.ok (), ⟨[.packet p], ks⟩) := by
  have hd : p.display (!pr) = .ok () := by
    rw [C77_packet]
    refine ⟨⟨hn, (whole_shown hw).1, (whole_shown hw).2.1, .inr (.inr ⟨by rw [hty]; decide, by rw [hty]; decide, by rw [hb]; simp⟩)⟩, ?_⟩
    intro k l t he
    rw [ha] at he
    cases he
  rw [readPacket_run P pr p _ hd, C78_unsigned P p _ ha]
  exact readManifest_data hty

/-- A manifest of the build that is shown; its name may be held in another way than it was built. -/
theorem read_built {E : Env} {o : TreeOptions} {ks : Keystore} (hA : E.prims.AeadLaw) (hO : E.prims.OaepLaw)
    (hk : Spec.CanDecrypt E.prims (some ks) o.encryptor)
    (hlink : NoKeyLink o.encryptor) {node : Node} (hfit : node.Fits64) {name : Option Name} {x : Option F64} {sg : Option Signer} {full : Bool}
    {s s' : BState} {p0 p : Packet} (h : buildFromNode E o node name x sg full s = (.ok p0, s'))
    (hp : p = { p0 with body := { p0.body with name := p.body.name } })
    (hshow : Manifest.display { node := .plain node.toBytes } = .ok ())
    (hn : ∀ n, p.body.name = some n → Spec.ReadableName n) (hl : ∀ k l t, p.alg = some (.rsaSha256 k l t) → l = none)
    (hwhole : p.WholeSeconds) (hv : validatePacket E.prims (some ks) p = .ok ()) (pr : Bool) {given : Bool}
    (hgiven : ∀ q w, o.encryptor = some (.oaep q w) → (given = true ↔ ∃ r, ks.getAesKey q.keyNumber = .ok r))
    (haead : ∀ q, o.encryptor = some (.aead q) → given = true) :
    ((readPacket E.prims pr p ⟨[], ks⟩).1, (readPacket E.prims pr p ⟨[], ks⟩).2.shown) =
      Spec.reading p o.encryptor.isSome (full || given) node.toBytes := by
  obtain ⟨m, w, hpay0, hdes, hmd, hsealed⟩ := read_shown hk hlink hfit h hshow
  obtain ⟨_, _, _, _, _, _, hbody, _, _⟩ := buildFromNode_inv h
  have hty0 : p0.body.payloadType = some PT_MANIFEST := by rw [hbody]; rfl
  have hty : p.body.payloadType = some PT_MANIFEST := by rw [hp]; exact hty0
  have hpay : p.body.payload = some w := by rw [hp]; exact hpay0
  have hm0 := fromContentObject_of hty0 hpay0 hdes
  have hm := fromContentObject_of hty hpay hdes
  have hd : p.display (!pr) = .ok () := by
    rw [C77_packet]
    refine ⟨⟨hn, (whole_shown hwhole).1, (whole_shown hwhole).2.1, .inl ⟨hty, w, hpay, .inr ⟨m, hdes, (C77_manifest m).mp hmd⟩⟩⟩, ?_⟩
    intro k l t he
    obtain rfl := hl _ _ _ he
    exact ⟨nofun, (whole_shown hwhole).2.2 _ _ _ he⟩
  rw [readPacket_run E.prims pr p _ hd]
  rw [show (AppState.with ⟨[], ks⟩ (.packet p)) = ⟨[.packet p], ks⟩ from rfl, appValidate_signed hv]
  dsimp only
  have hopen : (TState.new (some ks)).cache.Ready E.prims o.encryptor full → ∃ r,
      r = ({ node := .plain node.toBytes } : Manifest) ∧ (Spec.libraryOpen E.prims ks m).1 = .ok r := by
    intro hr
    obtain ⟨m1, m', c, r1, r2, r3, _⟩ := read_manifest hA hk hfit h (T := ⟨E.prims, fun _ _ => .error .keyError, some ks⟩) rfl rfl hr
    cases Except.ok.inj (hm0.symm.trans r1)
    exact ⟨m', r3, libraryOpen_of_decrypt (T := ⟨E.prims, fun _ _ => .error .keyError, some ks⟩) rfl r2⟩
  have hnew := ready_new hO hk
  unfold SealedAs at hsealed
  have shown : m.isEncrypted = true → o.encryptor.isSome = true → (full || given) = true →
      (TState.new (some ks)).cache.Ready E.prims o.encryptor full →
      ((readManifest E.prims p ⟨[.packet p] ++ (if p.alg.isSome then [.verified] else []), ks⟩).1,
        (readManifest E.prims p ⟨[.packet p] ++ (if p.alg.isSome then [.verified] else []), ks⟩).2.shown) =
      Spec.reading p o.encryptor.isSome (full || given) node.toBytes := by
    intro he hs hg hr
    obtain ⟨_, rfl, ho⟩ := hopen hr
    obtain ⟨ks', hrd⟩ := readManifest_sealed (s := ⟨[.packet p] ++ (if p.alg.isSome then [.verified] else []), ks⟩) hty hm he ho hshow
    rw [hrd, hs, hg]
    rfl
  cases ho : o.encryptor with
  | none =>
    rw [ho] at hsealed
    rw [readManifest_plain hty hm hsealed]
    rfl
  | some enc =>
    rw [ho] at hsealed hnew shown
    cases enc with
    | aead q =>
      exact shown hsealed.1 rfl (by rw [haead q ho]; simp) hnew
    | oaep q wr =>
      obtain ⟨he, d, hc, hnum⟩ := hsealed
      have hready : (∃ r, ks.getAesKey q.keyNumber = .ok r) → (TState.new (some ks)).cache.Ready E.prims (some (.oaep q wr)) full :=
        fun hr => ⟨hnew.1, hnew.2.1, hnew.2.2.1, .inl hr⟩
      cases full with
      | true => exact shown he rfl rfl hnew
      | false =>
        cases hgv : given with
        | true => rw [hgv] at shown; exact shown he rfl rfl (hready ((hgiven q wr ho).mp hgv))
        | false =>
          cases hga : ks.getAesKey q.keyNumber with
          | ok r => rw [(hgiven q wr ho).mpr ⟨r, hga⟩] at hgv; cases hgv
          | error e =>
            have := readManifest_unwrapped (P := E.prims) (s := ⟨[.packet p] ++ (if p.alg.isSome then [.verified] else []), ks⟩) hty hm he hc
              (by rw [hnum]; exact hga)
            rw [this]
            rfl

/-- Specification: what the packet reader makes of a packet of the build, in the file named by its hash.  `full`: the manifest carries the
content key, if that is wrapped; `given`: the content key is among the reader's arguments.  The packet is shown as it was read: with the
segmented schema its name is held as `bytes`. -/
def Spec.Reported (E : Env) (o : TreeOptions) (run : HashValue → Py Unit × List Shown) (given full : Bool) (p : Packet) : Prop :=
  ∃ hv, p.hash E.prims.sha256 = .ok hv ∧
    (p.body.payloadType = some PT_DATA ∧ run hv = (.ok (), [.packet (Spec.asRead p)]) ∨
     ∃ node name expiry signer s s', buildFromNode E o node name expiry signer full s = (.ok p, s') ∧
       run hv = Spec.reading (Spec.asRead p) o.encryptor.isSome (full || given) node.toBytes)

theorem file_reported {E : Env} {L : FloatLog} {o : TreeOptions} {nc : Nat} {input : Stream} {root : Packet} {out : List Packet}
    (h : manifestTree E L o nc input = (.ok root, out)) {ks : Keystore} (he : Spec.Equipped E o nc (some ks)) (hw : Spec.WholeOptions o)
    (ht : Spec.TextNames o) (hlink : NoKeyLink o.encryptor) (hs : o.schemaType = .segmented → L.NotHigh) (pr : Bool) {given : Bool}
    (hgiven : ∀ q w, o.encryptor = some (.oaep q w) → (given = true ↔ ∃ r, ks.getAesKey q.keyNumber = .ok r))
    (haead : ∀ q, o.encryptor = some (.aead q) → given = true)
    {run : HashValue → Py Unit × List Shown} (hrun : ∀ p ∈ out, ∀ hv, p.hash E.prims.sha256 = .ok hv →
      run hv = ((readPacket E.prims pr (Spec.asRead p) ⟨[], ks⟩).1, (readPacket E.prims pr (Spec.asRead p) ⟨[], ks⟩).2.shown)) :
    ∃ init, out = init ++ [root] ∧ (∀ p ∈ init, Spec.Reported E o run given false p) ∧ Spec.Reported E o run given true root := by
  obtain ⟨R⟩ := manifestTree_ok h
  obtain ⟨ids, level, i, kids, h1, h2, h3, h4, h5, h6, h7, hout⟩ := R.forest
  have hname : ∀ {j : SchemaImpl}, (j = R.ctx.manifest ∨ j = R.ctx.data) → ∀ {k : Nat} {nm : Option Name},
      j.getName (some (k : Int)) = .ok nm → ∀ {p : Packet}, p.body.name = nm → ∀ n, (Spec.asRead p).body.name = some n →
        Spec.ReadableName n := by
    rintro j hj k nm hn p hp n hr
    cases hnm : nm with
    | none =>
      unfold Spec.asRead at hr
      rw [hp, hnm] at hr
      cases hr
    | some n0 =>
      have hr : some (⟨n0.components.map (fun c => { c with isArray := false })⟩ : Name) = some n := by
        rw [← hr]
        unfold Spec.asRead
        rw [hp, hnm]
        rfl
      cases hr
      rw [hnm] at hn
      by_cases hs' : o.schemaType = .segmented
      · obtain ⟨q, st, hq, hst, rfl⟩ := nameCtx_segment hs' R.ctx_ok hj hn
        exact readable_segment (ht q hq) hst k
      · have := nameCtx_prefix hs' R.ctx_ok hj hn
        refine readable_of_text ?_ ?_
        · intro c hc
          obtain ⟨_, _, rfl⟩ := List.mem_map.1 hc
          rfl
        · intro c hc
          obtain ⟨c', hc', rfl⟩ := List.mem_map.1 hc
          exact ht n0 this c' hc'
  obtain ⟨hg, hn1, hn2⟩ := nameCtx_good R.ctx_ok
  obtain ⟨hb, hnum, _⟩ := R.fits
  have hnc := he.counter
  have hfits := forest_fits hnum hb (by show R.ctx.manifest.ncId < _; omega) (by show R.ctx.data.ncId < _; omega) h2
    (fun hu => R.ids_fit (hs ((nameCtx_inv R.ctx_ok).2.2.mp hu)) h1 h3)
  refine ⟨_, hout, ?_, ?_⟩
  · intro p hp
    rcases List.mem_append.mp hp with hp | hp
    · have hmem : p ∈ out := by rw [hout]; simp [hp]
      obtain ⟨k, hk, rfl⟩ := List.getElem_of_mem hp
      obtain ⟨c1, c2, c3⟩ := chunked_get R.chunked
      obtain ⟨q, b, q1, _, _, _, q5, q6, q7, q8, q9⟩ := c3 k _ (List.getElem?_eq_getElem (by omega))
      rw [List.getElem?_eq_getElem hk] at q1
      cases q1
      refine ⟨_, q5, .inl ⟨q7, ?_⟩⟩
      rw [hrun _ hmem _ q5, read_data (p := Spec.asRead R.ps[k]) q7 q8 q6 (hname (.inr rfl) q9 rfl) (all_readBack R he.names hw _ hmem).1.whole]
    · have hmem : p ∈ out := by rw [hout]; exact List.mem_append_left _ (List.mem_append_right _ hp)
      obtain ⟨j, hj, rfl⟩ := List.mem_map.mp hp
      obtain ⟨hh, name, s, s', hnm, hbd⟩ := h2.made j hj
      obtain ⟨_, _, w, _, _, _, hbody, hsg, _⟩ := buildFromNode_inv hbd
      have halg : j.packet.alg = none := by
        obtain ⟨_, _, he⟩ := createContentObject_inv hsg
        rw [he]
      refine ⟨_, hh, .inr ⟨_, _, _, _, _, _, hbd, ?_⟩⟩
      refine (hrun _ hmem _ hh).trans ?_
      refine read_built (p := Spec.asRead j.packet) he.aead he.oaep he.decrypt hlink (hfits j hj).1 hbd rfl ?_ ?_ ?_ (all_readBack R he.names hw _ hmem).1.whole
        (C24_unsigned _ _ (Spec.asRead j.packet) halg) pr hgiven haead
      · exact manifest_shown (Forest.Valid.locators h2 j hj) (hfits j hj).2 (numbers_short (hfits j hj).1)
      · exact hname (.inl rfl) hnm (by rw [hbody]; rfl)
      · intro k l t ha
        rw [show (Spec.asRead j.packet).alg = j.packet.alg from rfl, halg] at ha
        cases ha
  · have hmem : root ∈ out := by rw [hout]; simp
    obtain ⟨hv, c, node, m, H⟩ := R.root_read he.aead he.oaep he.rsa he.verify he.decrypt hnc
    have hprint := (nameCtx_printable hnc R.ctx_ok).2 he.text
    obtain ⟨n, name, x, sg, s, s', hbd, rfl, hfit⟩ := H.made
    have hshow := manifest_shown H.locators ⟨H.groups, by rw [H.defs]; exact fun d hd => ⟨H.schemas d hd, hprint d hd⟩⟩ H.short
    refine ⟨hv, H.hash, .inr ⟨_, _, _, _, _, _, hbd, ?_⟩⟩
    refine (hrun _ hmem _ H.hash).trans ?_
    rw [(root_readsBack R he.names hw).2]
    refine read_built he.aead he.oaep he.decrypt hlink hfit hbd rfl hshow ?_ ?_ (all_readBack R he.names hw _ hmem).1.whole H.valid pr hgiven haead
    · intro n hn
      obtain ⟨_, _, hb⟩ := R.root_signed
      rw [hb] at hn
      exact readable_of_text (he.names n (.inl hn)) (ht n (.inl hn))
    · exact (root_readsBack R he.names hw).1.nolink

/-- The reader's keystore has the content key exactly if it is among the arguments. -/
theorem keystore_has {E E' : CliEnv} {a b : CliArgs} {ks : Keystore} {enc : Option Encryptor} (hb : Spec.ReaderFor E a E' b)
    (hks : createKeystore E' b = .ok ks) (henc : encryptorFromCli E a = .ok enc) :
    (∀ q w, enc = some (.oaep q w) → (b.encKey.isSome = true ↔ ∃ r, ks.getAesKey q.keyNumber = .ok r)) ∧
    (∀ q, enc = some (.aead q) → b.encKey.isSome = true) ∧ NoKeyLink enc := by
  obtain ⟨q0, kf, wf, rfl, hq, _, _⟩ := createKeystore_ok hks
  refine ⟨?_, ?_, ?_⟩
  · rintro q w rfl
    rcases encryptorFromCli_ok henc with ⟨h, _⟩ | ⟨p, h, _⟩ | ⟨p, w', f, rsa, h, hf, hl, hw, hp⟩
    · cases h
    · cases h
    · cases h
      rw [aes_of_cliOps]
      rcases hp with ⟨hk, _⟩ | hp
      · rcases hq with ⟨hn, rfl⟩ | ⟨p', rfl, hp'⟩
        · simp [hn]
        · obtain ⟨k, hk', _⟩ := hp'.key
          rw [hb.encKey, hk] at hk'
          cases hk'
      · rcases hq with ⟨h, _⟩ | ⟨p', rfl, hp'⟩
        · obtain ⟨k, hk, _⟩ := hp.key
          rw [hb.encKey, hk] at h
          cases h
        · have hs := hp.sameCipher hp' hb.encKey hb.aesMode hb.keyNum hb.salt
          obtain ⟨k, hk, _⟩ := hp'.key
          simp [hk, hs.2.1]
  · rintro q rfl
    rcases encryptorFromCli_ok henc with ⟨h, _⟩ | ⟨p, h, _, hp⟩ | ⟨p, w', f, rsa, h, _⟩
    · cases h
    · obtain ⟨k, hk, _⟩ := hp.key
      rw [hb.encKey, hk]
      rfl
    · cases h
  · rintro q w rfl
    rcases encryptorFromCli_ok henc with ⟨h, _⟩ | ⟨p, h, _, hp⟩ | ⟨p, w', f, rsa, h, _, _, hw, _⟩
    · cases h
    · cases h
    · cases h
      obtain ⟨c, _, rfl⟩ := oaepWrapper_ok hw
      rfl

theorem aeadDecryptorFromCli_ok {E : CliEnv} {b : CliArgs} {ks : Keystore} (h : createKeystore E b = .ok ks) :
    aeadDecryptorFromCli E b = .ok () := by
  unfold createKeystore at h
  obtain ⟨p, hp, h⟩ := bind_eq_ok.mp h
  unfold aeadDecryptorFromCli
  split
  · rfl
  · rw [hp]
    rfl

/-! ## C101 -/

/-- C101 (packets): the packet reader, run on the file of any packet that the writer program has put, with arguments that go with the
writer's, shows the packet (as it was put, but for the way in which the Segmented schema holds names) and, if it is signed, that it is
verified.  An encrypted manifest it then shows decrypted, except that a manifest which is not the root cannot be opened if the content key was wrapped and is not among the
arguments: the program ends with ValueError. -/
theorem C101_packets {W : WriterWorld} {a : WriterArgs} {links isdir : Bool} {file : Option Stream} {d d' d'' : Directory}
    {root : Packet} {E' : CliEnv} {b : CliArgs} {ks : Keystore} {qs : List Packet}
    (hks : createKeystore E' b = .ok ks) (hb : Spec.ReaderFor W.cli (W.args a).toCliArgs E' b) (hr : Spec.Ranges W.cli (W.args a).toCliArgs)
    (hT : W.tree.prims = W.cli.prims) (ha : W.cli.prims.AeadLaw) (hO : W.cli.prims.OaepLaw) (hR : W.cli.prims.RsaLaw)
    (hnc : W.counter + 1 < 2 ^ 64) (hiso : ∀ t x, W.iso t = .ok x → ∃ n, n < 2 ^ 40 ∧ x = F64.ofNat n)
    (hnow : ∃ n, n < 2 ^ 40 ∧ W.cli.now = F64.ofNat n) 
    (hty : a.schema = Spec.choice .hashed ∨ a.schema = Spec.choice .prefixed ∨ W.log.NotHigh)
    (h : W.runDirectory a links isdir file d = (.ok root, d')) (hl : Spec.Sessions W.tree.prims qs d' d'')
    (hc : Spec.Apart W.tree.prims (W.build (W.args a) file).2 ((W.build (W.args a) file).2 ++ qs)) (pretty : Bool) :
    ∃ o init, writerOptions W.cli W.iso W.hashOf a = .ok o ∧ (W.build (W.args a) file).2 = init ++ [root] ∧
      (∀ p ∈ init, Spec.Reported W.tree o (fun hv => packetReaderRun E' b pretty d'' [hexText hv.value]) b.encKey.isSome false p) ∧
      Spec.Reported W.tree o (fun hv => packetReaderRun E' b pretty d'' [hexText hv.value]) b.encKey.isSome true root ∧
      (a.schema = Spec.choice .hashed ∨ a.schema = Spec.choice .prefixed → ∀ p ∈ init ++ [root], Spec.asRead p = p) := by
  obtain ⟨_, o, input, out, s, ho, rfl, hm, hs, rfl⟩ := run_ok.mp h
  have hout : (W.build (W.args a) (some input)).2 = out := by
    unfold writerOptions at ho
    have ho : (signerFromCli W.cli (W.args a).toCliArgs >>= fun _ => prefixCheck (W.args a) >>= fun _ =>
                treeOptionsFromCli W.cli W.iso (W.args a)) = .ok o := ho
    obtain ⟨sg, _, ho⟩ := bind_eq_ok.mp ho
    obtain ⟨_, hp, ho⟩ := bind_eq_ok.mp ho
    unfold WriterWorld.build
    rw [ho]
    dsimp only
    rw [hm]
  rw [hout] at hc ⊢
  obtain ⟨he, hw⟩ := writer_equipped ho hks hb hr hT ha hO hR hnc hiso hnow
  have hopt := writerOptions_ok ho
  obtain ⟨hg1, hg2, hg3⟩ := keystore_has hb hks hopt.2.2.2.2.2.2.2.2.2.2.2.1
  have hseg : o.schemaType = .segmented → W.log.NotHigh := by
    intro h
    rcases hty with h1 | h1 | h1
    · exact absurd h (writer_schema ho (.inl h1))
    · exact absurd h (writer_schema ho (.inr h1))
    · exact h1
  have htext : Spec.TextNames o := by
    rintro n (hn | hn | hn)
    · exact fromUri_text (hn ▸ hopt.2.1)
    · exact fromUri_text (hn ▸ hopt.2.2.2.2.1)
    · exact fromUri_text (hn ▸ hopt.2.2.2.2.2.1)
  have hcont := C98_kept (w := { linkNamedObjects := links, signer := o.signer }) rfl hs hl (fun _ h => h) hc
  obtain ⟨R⟩ := manifestTree_ok hm
  obtain ⟨init, hi, h1, h2⟩ := file_reported hm he hw htext hg3 hseg pretty hg1 hg2
    (run := fun hv => packetReaderRun E' b pretty d'' [hexText hv.value]) (by
      intro p hp hv hh
      obtain ⟨hv', bs, g1, g2, g3⟩ := hcont p hp
      cases Except.ok.inj (hh.symm.trans g1)
      obtain ⟨hrb, has⟩ := all_readBack R he.names hw p hp
      have hload : d''.load E'.now [hexText hv.value] = .ok (Spec.asRead p) := by
        unfold Directory.load
        rw [g3]
        dsimp only
        rw [hrb.load E'.now g2]
      unfold packetReaderRun
      rw [hks]
      dsimp only
      rw [aeadDecryptorFromCli_ok hks]
      dsimp only
      unfold packetReaderRead
      rw [PyS.liftBind_run hload, hb.prims, ← hT])
  exact ⟨o, init, ho, hi, h1, h2, fun h p hp => (all_readBack R he.names hw p (hi ▸ hp)).2 (writer_schema ho h)⟩

/-! ## C100 with links -/

/-- The names of the packets of a build whose options are made of the arguments have URIs. -/
theorem linkName_built {E : Env} {L : FloatLog} {o : TreeOptions} {nc : Nat} {input : Stream} {root : Packet} {out : List Packet}
    (h : manifestTree E L o nc input = (.ok root, out)) (ht : Spec.TextNames o) (hp : Spec.PlainNames o) (F : NameComponent → Text) :
    ∀ p ∈ out, ∀ n, p.body.name = some n → ∃ f, linkName F n = .ok f := by
  have plain : ∀ {n}, (o.name = some n ∨ o.manifestPrefix = some n ∨ o.dataPrefix = some n) → ∀ c ∈ n.components,
      (c.type = T_NAMESEGMENT → c.isArray = false ∧ ∃ t, c.value = utf8Encode t) ∧
      (c.type = T_CHUNKID ∨ c.type = T_MANIFESTID → (Nat.toDigits 10 (arrayToNumber c.value)).length ≤ 4300) := by
    intro n hn c hc
    refine ⟨fun h1 => ⟨hp n hn c hc, ?_⟩, (ht n hn c hc).2⟩
    obtain ⟨t, ht⟩ := (ht n hn c hc).1 h1
    exact ⟨t, ht.symm⟩
  have named : ∀ {n}, (∃ u, n.asUri F = .ok u) → ∃ f, linkName F n = .ok f := by
    rintro n ⟨u, hu⟩
    unfold linkName
    rw [hu]
    exact ⟨_, rfl⟩
  obtain ⟨R⟩ := manifestTree_ok h
  obtain ⟨ids, level, i, kids, _, h2, _, _, _, _, _, hout⟩ := R.forest
  have hget : ∀ {j : SchemaImpl}, (j = R.ctx.manifest ∨ j = R.ctx.data) → ∀ {k : Nat} {n : Name},
      j.getName (some (k : Int)) = .ok (some n) → ∃ f, linkName F n = .ok f := by
    intro j hj k n hn
    refine named ((C58_has_uri F n).mpr ?_)
    by_cases hs : o.schemaType = .segmented
    · obtain ⟨q, st, hq, hst, rfl⟩ := nameCtx_segment hs R.ctx_ok hj hn
      intro c hc
      rcases List.mem_append.1 (show c ∈ q.components ++ [segComponent st k] from hc) with hc | hc
      · exact plain hq c hc
      · cases List.mem_singleton.1 hc
        refine ⟨fun h1 => absurd h1 hst, fun h5 => ?_⟩
        exact (readable_segment (ht q hq) hst k ⟨st, beBytes (numWidth k) k, false⟩
          (List.mem_map.2 ⟨segComponent st k, List.mem_append_right _ hc, rfl⟩)).2 h5
    · exact plain (nameCtx_prefix hs R.ctx_ok hj hn)
  intro p hp' n hn
  rw [hout] at hp'
  rcases List.mem_append.mp hp' with hm | hm
  · rcases List.mem_append.mp hm with hm | hm
    · obtain ⟨k, hk, rfl⟩ := List.getElem_of_mem hm
      obtain ⟨c1, c2, c3⟩ := chunked_get R.chunked
      obtain ⟨q, b, q1, _, _, _, q5, q6, q7, q8, q9⟩ := c3 k _ (List.getElem?_eq_getElem (by omega))
      rw [List.getElem?_eq_getElem hk] at q1
      cases q1
      rw [hn] at q9
      exact hget (.inr rfl) q9
    · obtain ⟨j, hj, rfl⟩ := List.mem_map.mp hm
      obtain ⟨_, name, s, s', hnm, hbd⟩ := h2.made j hj
      obtain ⟨_, _, w, _, _, _, hbody, _, _⟩ := buildFromNode_inv hbd
      have : name = some n := by rw [← hn, hbody]; rfl
      rw [this] at hnm
      exact hget (.inl rfl) hnm
  · cases List.mem_singleton.mp hm
    obtain ⟨_, _, hb⟩ := R.root_signed
    rw [hb] at hn
    exact named ((C58_has_uri F n).mpr (plain (.inl hn)))

theorem put_linked {P : Prims} {F : NameComponent → Text} {w : DirWriter} {p : Packet} (hc : Spec.Created p)
    (hl : w.linkNamedObjects = true) (hf : ∀ n, p.body.name = some n → ∃ f, linkName F n = .ok f) (m : DirState) :
    (∃ s, w.put P F p m = (.ok (), s)) ↔
      ∀ n, p.body.name = some n → ∃ hv c, p.hash P.sha256 = .ok hv ∧ Spec.IsLink P w.signer n hv c := by
  constructor
  · rintro ⟨s, h⟩ n hn
    obtain ⟨b, hv, ls, _, hh, hls, _⟩ := DirWriter.put_ok h
    match ls, hls with
    | [], h =>
      rcases h with h | h
      · rw [hl] at h; cases h
      · rw [hn] at h; cases h
    | [(path, c)], ⟨n', l, f, _, h2, h3, _, h5, _⟩ =>
      rw [hn] at h2
      cases h2
      exact ⟨hv, c, hh, l, h3, h5⟩
  · intro h
    obtain ⟨_, _, _, _, b, hb, _⟩ := Packet.created hc
    obtain ⟨hv, hh⟩ := Packet.hash_of_serialize (sha := P.sha256) hb
    have hlen : p.len = .ok b.length := by unfold Packet.len; rw [hb]; rfl
    have hwl : ∀ m, ∃ s, w.writeLink P F p hv m = (.ok (), s) := by
      intro m
      unfold DirWriter.writeLink
      rw [if_pos hl]
      cases hn : p.body.name with
      | none => exact ⟨_, rfl⟩
      | some n =>
        obtain ⟨hv', c, hh', l, h1, h2⟩ := h n hn
        cases Except.ok.inj (hh.symm.trans hh')
        obtain ⟨f, hf⟩ := hf n hn
        dsimp only
        have h1 : w.createLink P n hv = .ok l := h1
        rw [h1, PyS.liftBind_run rfl, hf, PyS.liftBind_run rfl, h2, PyS.liftBind_run rfl]
        exact ⟨_, rfl⟩
    unfold DirWriter.put
    rw [PyS.liftBind_run hlen, PyS.bind_of_ok (PyS.modify_run _ _), PyS.liftBind_run hh, PyS.liftBind_run hb,
      PyS.bind_of_ok (PyS.modify_run _ _)]
    obtain ⟨s, hs⟩ := hwl { m with totalBytesByPacket := m.totalBytesByPacket + b.length, dir := m.dir.write (toPath (hashFileName hv) w.nested) b }
    rw [PyS.bind_of_ok hs]
    exact ⟨_, rfl⟩

theorem putAll_linked {P : Prims} {F : NameComponent → Text} {w : DirWriter} {out : List Packet} (hc : ∀ p ∈ out, Spec.Created p)
    (hl : w.linkNamedObjects = true) (hf : ∀ p ∈ out, ∀ n, p.body.name = some n → ∃ f, linkName F n = .ok f) (m : DirState) :
    (∃ s, w.putAll P F out m = (.ok (), s)) ↔
      ∀ p ∈ out, ∀ n, p.body.name = some n → ∃ hv c, p.hash P.sha256 = .ok hv ∧ Spec.IsLink P w.signer n hv c := by
  induction out generalizing m with
  | nil => exact ⟨fun _ => by simp, fun _ => ⟨m, rfl⟩⟩
  | cons p ps ih =>
    have h1 := put_linked (P := P) (hc p (by simp)) hl (hf p (by simp)) m
    have ih := ih (fun q hq => hc q (by simp [hq])) (fun q hq => hf q (by simp [hq]))
    constructor
    · rintro ⟨s, h⟩
      obtain ⟨_, k, h2, h3⟩ := PyS.bind_ok (show (w.put P F p >>= fun _ => w.putAll P F ps) m = _ from h)
      intro q hq
      rcases List.mem_cons.1 hq with rfl | hq
      · exact h1.mp ⟨k, h2⟩
      · exact (ih k).mp ⟨s, h3⟩ q hq
    · intro h
      obtain ⟨k, hk⟩ := h1.mpr (h p (by simp))
      obtain ⟨s, hs⟩ := (ih k).mpr (fun q hq => h q (by simp [hq]))
      exact ⟨s, (PyS.bind_of_ok hk).trans hs⟩

/-- C100 (when it returns with links): with `--link` a run into a directory returns a packet exactly if it would without, and for every
packet of the build that has a name a link to it can be made and encoded.  The file name of the link can always be made. -/
theorem C100_links_iff {W : WriterWorld} {a : WriterArgs} {isdir : Bool} {file : Option Stream} {d : Directory} {root : Packet} :
    (∃ d', W.runDirectory a true isdir file d = (.ok root, d')) ↔
    isdir = true ∧ ∃ o input out, writerOptions W.cli W.iso W.hashOf a = .ok o ∧ file = some input ∧
      manifestTree W.tree W.log o W.counter input = (.ok root, out) ∧
      ∀ p ∈ out, ∀ n, p.body.name = some n → ∃ hv c, p.hash W.tree.prims.sha256 = .ok hv ∧ Spec.IsLink W.tree.prims o.signer n hv c := by
  have key : ∀ {o input out}, writerOptions W.cli W.iso W.hashOf a = .ok o →
      manifestTree W.tree W.log o W.counter input = (.ok root, out) → ∀ p ∈ out, ∀ n, p.body.name = some n →
        ∃ f, linkName W.names n = .ok f := by
    intro o input out ho hm
    have hopt := writerOptions_ok ho
    refine linkName_built hm ?_ ?_ W.names
    · rintro n (hn | hn | hn)
      · exact fromUri_text (hn ▸ hopt.2.1)
      · exact fromUri_text (hn ▸ hopt.2.2.2.2.1)
      · exact fromUri_text (hn ▸ hopt.2.2.2.2.2.1)
    · rintro n (hn | hn | hn)
      · exact fromUri_plain (hn ▸ hopt.2.1)
      · exact fromUri_plain (hn ▸ hopt.2.2.2.2.1)
      · exact fromUri_plain (hn ▸ hopt.2.2.2.2.2.1)
  constructor
  · rintro ⟨d', h⟩
    obtain ⟨h1, o, input, out, s, h2, h3, h4, h5, _⟩ := run_ok.mp h
    exact ⟨h1, o, input, out, h2, h3, h4,
      (putAll_linked (w := { linkNamedObjects := true, signer := o.signer }) (out_created h4) rfl (key h2 h4) _).mp ⟨s, h5⟩⟩
  · rintro ⟨h1, o, input, out, h2, h3, h4, h5⟩
    obtain ⟨s, hs⟩ := (putAll_linked (w := { linkNamedObjects := true, signer := o.signer }) (out_created h4) rfl (key h2 h4)
      { dir := d }).mpr h5
    exact ⟨s.dir, run_ok.mpr ⟨h1, o, input, out, s, h2, h3, h4, hs, rfl⟩⟩

theorem hashTlv_eq (ty : Nat) (hty : ty ≤ 0xFFFF) {hv : HashValue} (ha : hv.alg ≤ 0xFFFF) :
    hashTlv ty hv = if hv.value.length + 4 ≤ 0xFFFF then .ok ⟨ty, (⟨hv.alg, hv.value⟩ : Tlv).bytes⟩ else .error .overflowError := by
  unfold hashTlv HashValue.tlv
  rw [mkTlv_eq]
  by_cases h : hv.value.length ≤ 0xFFFF
  · rw [if_pos ⟨ha, h⟩, ok_bind]
    unfold container
    rw [concatTlvs_of_valid (by simpa [Tlv.Valid] using ⟨ha, h⟩), ok_bind, mkTlv_eq]
    have : (bytesAll [(⟨hv.alg, hv.value⟩ : Tlv)]) = (⟨hv.alg, hv.value⟩ : Tlv).bytes := by simp
    rw [this]
    by_cases h2 : hv.value.length + 4 ≤ 0xFFFF
    · rw [if_pos h2, if_pos ⟨hty, by simp [Tlv.len, Tlv.length]; omega⟩]
    · rw [if_neg h2, if_neg (by simp [Tlv.len, Tlv.length]; omega)]
  · rw [if_neg (fun h' => h h'.2), if_neg (by omega)]
    rfl

theorem linkBody_tlv {n : Name} {t : Tlv} (ht : n.tlv = .ok t) (lw : Bytes) :
    ∃ v : Bytes, v.length = 13 + t.value.length + lw.length ∧
    ContentObject.tlv { name := some n, payloadType := some PT_LINK, payload := some lw } =
      if v.length ≤ 0xFFFF then .ok ⟨T_OBJECT, v⟩ else .error .overflowError := by
  obtain ⟨_, _, _, _, htv⟩ := Name.tlv_ok ht
  have hp : payloadTypeTlv PT_LINK = .ok ⟨T_PAYLDTYPE, [2]⟩ := by decide
  refine ⟨bytesAll [t, ⟨T_PAYLDTYPE, [2]⟩, ⟨T_PAYLOAD, lw⟩], by simp [bytesAll, Tlv.len, Tlv.length]; omega, ?_⟩
  have hlen : (bytesAll [t, ⟨T_PAYLDTYPE, [2]⟩, ⟨T_PAYLOAD, lw⟩]).length = 13 + t.value.length + lw.length := by
    simp [bytesAll, Tlv.len, Tlv.length]; omega
  unfold ContentObject.tlv ContentObject.members
  simp only [optTlv, ht, hp, octetTlv, mkTlv_eq, ok_bind]
  by_cases h : lw.length ≤ 0xFFFF
  · rw [if_pos ⟨by decide, h⟩]
    show container T_OBJECT [t, ⟨T_PAYLDTYPE, [2]⟩, ⟨T_PAYLOAD, lw⟩] = _
    unfold container
    rw [concatTlvs_of_valid (by
      intro x hx
      simp only [List.mem_cons, List.not_mem_nil, or_false] at hx
      rcases hx with rfl | rfl | rfl
      · exact htv
      · exact ⟨by decide, by decide⟩
      · exact ⟨by show T_PAYLOAD ≤ _; decide, h⟩), ok_bind, mkTlv_eq]
    by_cases h2 : (bytesAll [t, ⟨T_PAYLDTYPE, [2]⟩, ⟨T_PAYLOAD, lw⟩]).length ≤ 0xFFFF
    · rw [if_pos ⟨by decide, h2⟩, if_pos h2]
    · rw [if_neg (fun h => h2 h.2), if_neg h2]
  · rw [if_neg (fun h' => h h'.2), if_neg (by omega)]
    rfl

/-- A packet with a checksum exists just if the whole is short enough. -/
theorem crcSigned_room {b : ContentObject} {t : Tlv} (ht : b.tlv = .ok t) :
    (∃ p, crcSignedPacket b = .ok p) ↔ t.value.length + 28 ≤ 0xFFFF := by
  have halg : ValidationAlg.tlv .crc32c = .ok ⟨T_VALIDATION_ALG, [0, 2, 0, 0]⟩ := by decide
  have hv := (ContentObject.tlv_ok ht).2
  have hb : wireOf ContentObject.tlv b = .ok t.bytes := by
    unfold wireOf; rw [ht, ok_bind, Tlv.serialize_of_valid hv]
  have ha : wireOf ValidationAlg.tlv .crc32c = .ok (⟨T_VALIDATION_ALG, [0, 2, 0, 0]⟩ : Tlv).bytes := by decide
  unfold crcSignedPacket
  rw [construct_ok halg, ok_bind, hb, ok_bind, ha, ok_bind, crcSign_eq, ok_bind]
  generalize hk : beBytes 4 _ = k
  have hkl : k.length = 4 := by rw [← hk]; simp
  have hpl : valPayloadTlv k = .ok ⟨T_VALIDATION_PAYLOAD, k⟩ := by
    unfold valPayloadTlv; rw [mkTlv_eq, if_pos ⟨by decide, by omega⟩]
  have hpw : wireOf valPayloadTlv k = .ok (⟨T_VALIDATION_PAYLOAD, k⟩ : Tlv).bytes := by
    unfold wireOf; rw [hpl, ok_bind, Tlv.serialize_of_valid ⟨by show T_VALIDATION_PAYLOAD ≤ _; decide, by show k.length ≤ _; omega⟩]
  unfold Packet.createSigned
  rw [ht, ok_bind, halg, ok_bind, hpl, ok_bind]
  unfold mkPacket
  rw [if_neg (by simp)]
  unfold Packet.serialize
  simp only [hb, ok_bind, optWire, ha, hpw]
  have hlen : 8 + t.len + (⟨T_VALIDATION_ALG, [0, 2, 0, 0]⟩ : Tlv).len + (⟨T_VALIDATION_PAYLOAD, k⟩ : Tlv).len = t.value.length + 28 := by
    simp [Tlv.len, Tlv.length, hkl]; omega
  rw [hlen]
  have hB : ∀ {k : Nat}, k ≤ 0xFF → ∃ x, packB k = .ok x := fun h => ⟨_, if_pos h⟩
  unfold FixedHeader.serialize FixedHeader.contentObject
  obtain ⟨x, hx⟩ := hB (k := 1) (by decide)
  obtain ⟨y, hy⟩ := hB (k := PT_CONTENT) (by decide)
  obtain ⟨z, hz⟩ := hB (k := 8) (by decide)
  simp only [hx, hy, hz, ok_bind]
  unfold packH
  by_cases h : t.value.length + 28 ≤ 0xFFFF
  · rw [if_pos h]
    exact ⟨fun _ => h, fun _ => ⟨_, rfl⟩⟩
  · rw [if_neg h]
    exact ⟨fun h' => (by obtain ⟨_, h'⟩ := h'; cases h'), fun h' => absurd h' h⟩

/-- A link that is not signed with a key can be made and encoded just if the two copies of the name leave room. -/
theorem link_room {P : Prims} {n : Name} {t : Tlv} {hv : HashValue} (ht : n.tlv = .ok t) (ha : hv.alg ≤ 0xFFFF) :
    (∃ c, Spec.IsLink P none n hv c) ↔ 2 * t.value.length + hv.value.length + 53 ≤ 0xFFFF := by
  obtain ⟨_, _, _, _, htv⟩ := Name.tlv_ok ht
  have hserial : ∀ {b p}, crcSignedPacket b = .ok p → ∃ c, p.serialize = .ok c := by
    intro b p h
    obtain ⟨_, _, _, _, w, hw, _⟩ := Packet.created (signPacket_created (P := P) (signer := some .crc32c) (body := b) h)
    exact ⟨w, hw⟩
  have hwire : Link.wire { name := some n, digest := some hv } = if hv.value.length + 4 ≤ 0xFFFF then
      .ok (t.bytes ++ (⟨T_OBJHASHRESTR, (⟨hv.alg, hv.value⟩ : Tlv).bytes⟩ : Tlv).bytes) else .error .overflowError := by
    unfold Link.wire Link.members
    simp only [optTlv, ht, ok_bind, hashTlv_eq T_OBJHASHRESTR (by decide) ha]
    by_cases h : hv.value.length + 4 ≤ 0xFFFF
    · rw [if_pos h, if_pos h]
      show concatTlvs [t, ⟨T_OBJHASHRESTR, (⟨hv.alg, hv.value⟩ : Tlv).bytes⟩] = _
      rw [concatTlvs_of_valid]
      · simp [bytesAll]
      · intro x hx
        simp only [List.mem_cons, List.not_mem_nil, or_false] at hx
        rcases hx with rfl | rfl
        · exact htv
        · exact ⟨by show T_OBJHASHRESTR ≤ _; decide, by simp [Tlv.len, Tlv.length]; omega⟩
    · rw [if_neg h, if_neg h]
      rfl
  have hcreate : ∀ {l}, DirWriter.createLink P { signer := none } n hv = .ok l ↔
      (ContentObject.createLink { name := some n, digest := some hv } n >>= crcSignedPacket) = .ok l := Iff.rfl
  constructor
  · rintro ⟨c, l, hl, _⟩
    obtain ⟨co, hco, hs⟩ := bind_eq_ok.mp (hcreate.mp hl)
    obtain ⟨lw, hlw, hco⟩ := bind_eq_ok.mp hco
    obtain ⟨rfl, tb, htb⟩ := construct_inv hco
    have := (crcSigned_room htb).mp ⟨l, hs⟩
    obtain ⟨v, hv1, hv2⟩ := linkBody_tlv ht lw
    rw [htb] at hv2
    split at hv2
    · cases hv2
      rw [hwire] at hlw
      split at hlw
      · cases hlw
        simp [Tlv.len, Tlv.length] at hv1 this
        omega
      · cases hlw
    · cases hv2
  · intro hle
    rw [if_pos (by omega)] at hwire
    generalize hlw : t.bytes ++ (⟨T_OBJHASHRESTR, (⟨hv.alg, hv.value⟩ : Tlv).bytes⟩ : Tlv).bytes = lw at hwire
    have hl : lw.length = t.value.length + hv.value.length + 12 := by
      rw [← hlw]; simp [Tlv.len, Tlv.length]; omega
    obtain ⟨v, hv1, hv2⟩ := linkBody_tlv ht lw
    rw [if_pos (by omega)] at hv2
    obtain ⟨p, hp⟩ := (crcSigned_room hv2).mpr (by show v.length + 28 ≤ _; omega)
    obtain ⟨c, hc⟩ := hserial hp
    refine ⟨c, p, hcreate.mpr ?_, hc⟩
    unfold ContentObject.createLink
    rw [hwire, ok_bind, construct_ok hv2, ok_bind, hp]

/-- Specification: the number of bytes of the components of a name. -/
def Spec.nameLength (n : Name) : Nat := (n.components.map (fun c => 4 + c.value.length)).sum

theorem nameLength_tlv {n : Name} {t : Tlv} (h : n.tlv = .ok t) : t.value.length = Spec.nameLength n := by
  obtain ⟨_, _, rfl⟩ := Name.tlv_iff.mp h
  unfold Spec.nameLength
  dsimp only
  generalize n.components = cs
  induction cs with
  | nil => rfl
  | cons c cs ih =>
    simp only [List.map_cons, List.sum_cons, bytesAll_cons, List.length_append, ih, Tlv.bytes_length]
    rfl

/-- C100 (links without a key): without a key file a run with `--link` returns a packet exactly if it would without `--link`, and the
components of the name of every packet of the build take up to 32725 bytes: a link has the name twice. -/
theorem C100_links_room {W : WriterWorld} {a : WriterArgs} {isdir : Bool} {file : Option Stream} {d : Directory} {root : Packet}
    (hsha : ∀ b, (W.tree.prims.sha256 b).length = 32) (hk : a.keyFile = none) :
    (∃ d', W.runDirectory a true isdir file d = (.ok root, d')) ↔
    (∃ d', W.runDirectory a false isdir file d = (.ok root, d')) ∧
      ∀ p ∈ (W.build (W.args a) file).2, ∀ n, p.body.name = some n → Spec.nameLength n ≤ 32725 := by
  have hbuild : ∀ {o input out}, writerOptions W.cli W.iso W.hashOf a = .ok o → file = some input →
      manifestTree W.tree W.log o W.counter input = (.ok root, out) → (W.build (W.args a) file).2 = out := by
    rintro o input out ho rfl hm
    unfold writerOptions at ho
    have ho : (signerFromCli W.cli (W.args a).toCliArgs >>= fun _ => prefixCheck (W.args a) >>= fun _ =>
                treeOptionsFromCli W.cli W.iso (W.args a)) = .ok o := ho
    obtain ⟨sg, _, ho⟩ := bind_eq_ok.mp ho
    obtain ⟨_, hp, ho⟩ := bind_eq_ok.mp ho
    unfold WriterWorld.build
    rw [ho]
    dsimp only
    rw [hm]
  have hroom : ∀ {o input out}, writerOptions W.cli W.iso W.hashOf a = .ok o →
      manifestTree W.tree W.log o W.counter input = (.ok root, out) → ∀ p ∈ out, ∀ n, p.body.name = some n →
        ((∃ hv c, p.hash W.tree.prims.sha256 = .ok hv ∧ Spec.IsLink W.tree.prims o.signer n hv c) ↔ Spec.nameLength n ≤ 32725) := by
    intro o input out ho hm p hp n hn
    have hsg : o.signer = none := by
      rcases signerFromCli_ok (writerOptions_ok ho).2.2.2.1 with ⟨_, h⟩ | ⟨f, k, h, _⟩
      · exact h
      · have : a.keyFile = some f := by
          rw [← h]
          unfold defaultKeyNum
          split <;> rfl
        rw [hk] at this
        cases this
    obtain ⟨_, _, _, _, b, hb, _⟩ := Packet.created (out_created hm p hp)
    obtain ⟨hv, hh⟩ := Packet.hash_of_serialize (sha := W.tree.prims.sha256) hb
    obtain ⟨_, tb, _, _, _, htb, _⟩ := Packet.serialize_ok hb
    obtain ⟨ms, hms, _⟩ := bind_eq_ok.mp htb
    unfold ContentObject.members at hms
    rw [hn] at hms
    obtain ⟨x, hx, _⟩ := bind_eq_ok.mp hms
    obtain ⟨t, ht, _⟩ := bind_eq_ok.mp hx
    have hr := link_room (P := W.tree.prims) (hv := hv) ht (by rw [Packet.hash_alg hh]; decide)
    have hl : hv.value.length = 32 := by
      unfold Packet.hash at hh
      obtain ⟨y, _, hy⟩ := bind_eq_ok.mp hh
      cases Except.ok.inj hy
      exact hsha _
    rw [nameLength_tlv ht, hl] at hr
    rw [hsg]
    constructor
    · rintro ⟨hv', c, h1, h2⟩
      cases Except.ok.inj (hh.symm.trans h1)
      have := hr.mp ⟨c, h2⟩
      omega
    · intro h
      obtain ⟨c, hc⟩ := hr.mpr (by omega)
      exact ⟨hv, c, hh, hc⟩
  rw [C100_links_iff, C100_returns_iff]
  constructor
  · rintro ⟨h1, o, input, out, h2, h3, h4, h5⟩
    refine ⟨⟨h1, o, input, out, h2, h3, h4⟩, ?_⟩
    rw [hbuild h2 h3 h4]
    exact fun p hp n hn => (hroom h2 h4 p hp n hn).mp (h5 p hp n hn)
  · rintro ⟨⟨h1, o, input, out, h2, h3, h4⟩, h5⟩
    rw [hbuild h2 h3 h4] at h5
    exact ⟨h1, o, input, out, h2, h3, h4, fun p hp n hn => (hroom h2 h4 p hp n hn).mpr (h5 p hp n hn)⟩

/-- Specification: the manifest reader comes as far as opening its output file. -/
def Spec.OpensOutput (E : CliEnv) (a : ReaderArgs) (isdir : Bool) : Prop :=
  (∃ ks, createKeystore E a.toCliArgs = .ok ks) ∧ a.useTcp = false ∧ (∃ n, Name.fromUri (some a.name) = .ok n) ∧ isdir = true ∧ a.toFile = true

/-- C101 (output file): the manifest reader raises whatever its arguments and its directory are, and the file of `--output` is empty
afterwards if it was opened, whatever was in it before, and unchanged otherwise. -/
theorem C101_output (E : CliEnv) (a : ReaderArgs) (R : NameComponent → Text) (isdir : Bool) (d : Directory) (depth : Nat)
    (file : Option Bytes) :
    (∃ e, (manifestReaderRun E a R isdir d depth file).1 = .error e) ∧
    (Spec.OpensOutput E a isdir → (manifestReaderRun E a R isdir d depth file).2 = some []) ∧
    (¬ Spec.OpensOutput E a isdir → (manifestReaderRun E a R isdir d depth file).2 = file) := by
  unfold manifestReaderRun Spec.OpensOutput
  cases hk : createKeystore E a.toCliArgs with
  | error e => simp
  | ok ks =>
    cases ht : a.useTcp with
    | true => simp
    | false =>
      cases hn : Name.fromUri (some a.name) with
      | error e => simp
      | ok n =>
        cases isdir with
        | false => simp
        | true =>
          obtain ⟨e, he⟩ := C83_reader_never_reads E.prims E.now R d ks depth a.name a.hash (TState.new (some ks))
          simp only [he, Bool.false_eq_true, if_false, if_true]
          cases hf : a.toFile <;> simp [TState.new]

/-! ## Cases -/

set_option maxRecDepth 100000 in
/-- C100: a run without a key file, with links, returns; so all links of `C100_links_iff` can be made, and no name is too long. -/
example : ∃ root d, Toy.world.runDirectory { Toy.writerArgs with keyFile := none } true true (some (Toy.shortReads 36)) Toy.used = (.ok root, d) ∧
    d.files.length = 25 ∧ ∀ p ∈ (Toy.world.build (Toy.world.args { Toy.writerArgs with keyFile := none }) (some (Toy.shortReads 36))).2,
      ∀ n, p.body.name = some n → Spec.nameLength n ≤ 32725 := by
  obtain ⟨root, d, h, hl⟩ := Toy.ok_of_eval (f := fun d : Directory => d.files.length) (n := 25)
    (x := Toy.world.runDirectory { Toy.writerArgs with keyFile := none } true true (some (Toy.shortReads 36)) Toy.used) (by decide +kernel)
  exact ⟨root, d, h, hl, ((C100_links_room (a := { Toy.writerArgs with keyFile := none }) Toy.sha_length rfl).mp ⟨d, h⟩).2⟩

/-- How the packet reader ends on each file of the directory, newest first, and how many things it shows. -/
def Toy.reports (a : WriterArgs) : List (Bool × Nat) :=
  let d := (Toy.world.runDirectory a false true (some (Toy.shortReads 36)) {}).2
  d.files.map fun f =>
    let r := packetReaderRun Toy.cli a.toCliArgs false d f.1
    (r.1.toBool, r.2.length)

set_option maxRecDepth 100000 in
/-- C101: the file of the first case of C100, where the hypotheses of `C101_packets` are shown to hold.  Its content key is wrapped: of the
twelve packets the reader shows the root, verified and decrypted, and the nine data packets, and fails on the two other manifests. -/
example : Toy.reports Toy.writerArgs = [(true, 3), (false, 1), (false, 1)] ++ List.replicate 9 (true, 1) := by decide +kernel

set_option maxRecDepth 100000 in
/-- C101: the same file with segmented names, which the traversal refuses (C98): packet by packet it is shown as the other one.  The
logarithm of the case is never high. -/
example : Toy.world.log.NotHigh ∧
    Toy.reports { Toy.writerArgs with schema := Spec.choice .segmented, manifestPrefix := some "ccnx:/m".toList, dataPrefix := some "ccnx:/d".toList } =
      [(true, 3), (false, 1), (false, 1)] ++ List.replicate 9 (true, 1) := ⟨exactLog_notHigh, by decide +kernel⟩

set_option maxRecDepth 100000 in
/-- C101: with the same arguments the manifest reader fails, and empties the file that it was to write. -/
example : Spec.OpensOutput Toy.cli { Toy.writerArgs.toCliArgs with name := ['c', 'c', 'n', 'x', ':', '/', 'r'], toFile := true } true ∧
    (manifestReaderRun Toy.cli { Toy.writerArgs.toCliArgs with name := ['c', 'c', 'n', 'x', ':', '/', 'r'], toFile := true } (fun _ => []) true
      (Toy.world.runDirectory Toy.writerArgs true true (some (Toy.shortReads 36)) {}).2 5 (some [1, 2])).2 = some [] := by
  have h : Spec.OpensOutput Toy.cli { Toy.writerArgs.toCliArgs with name := ['c', 'c', 'n', 'x', ':', '/', 'r'], toFile := true } true :=
    ⟨Toy.ok_of_isOk (by decide +kernel), rfl, Toy.ok_of_isOk (by decide +kernel), rfl, rfl⟩
  exact ⟨h, (C101_output _ _ _ _ _ _ _).2.1 h⟩

end Ccnpy
