import Verif.Props.TraversalProps
import Verif.Props.CryptoProps
import Verif.Props.FileProps
import Verif.Lemmas.TreeSize

/-!
# Reading back what the tree builder wrote
-/

namespace Ccnpy

/-! ## Names -/

theorem Tlv.pyEq_refl (t : Tlv) : t.pyEq t = true := by simp [Tlv.pyEq]

theorem Name.pyEq_refl {n : Name} {t : Tlv} (h : n.tlv = .ok t) : n.pyEq n = true := by
  simp only [Name.pyEq, h, Tlv.pyEq_refl, beq_self_eq_true, Bool.true_and, Bool.and_true, List.all_eq_true]
  rintro ⟨a, b⟩ hp
  have : ∀ (l : List NameComponent) (a b : NameComponent), (a, b) ∈ l.zip l → a = b := by
    intro l
    induction l with
    | nil => intro a b h; simp at h
    | cons c l ih =>
      intro a b h
      simp only [List.zip_cons_cons, List.mem_cons, Prod.mk.injEq] at h
      rcases h with ⟨rfl, rfl⟩ | h
      · rfl
      · exact ih a b h
  rw [this _ _ _ hp]
  simp [NameComponent.pyEq]

/-- The name of a schema, if any, is held as `bytes`. -/
def NcSchema.PlainName (s : NcSchema) : Prop :=
  match s with
  | .hash _ _ => True
  | .prefixed n _ _ => n.map Name.toBytes = n
  | .segmented n _ _ _ => n.map Name.toBytes = n

theorem getName_toBytes {id : Nat} {s : NcSchema} (h : s.PlainName) (k : Option Int) :
    SchemaImpl.getName ⟨id, s.toBytes⟩ k = SchemaImpl.getName ⟨id, s⟩ k := by
  cases s with
  | hash l f => rfl
  | prefixed n l f => simp only [NcSchema.PlainName] at h; simp only [SchemaImpl.getName, NcSchema.toBytes, h]
  | segmented n st l f => simp only [NcSchema.PlainName] at h; simp only [SchemaImpl.getName, NcSchema.toBytes, h]

theorem NcSchema.locatorCount_toBytes (s : NcSchema) : s.toBytes.locatorCount = s.locatorCount := by
  cases s <;> simp [NcSchema.toBytes, NcSchema.locatorCount] <;> (rename_i l _; cases l <;> simp)

theorem NcSchema.implCheck_toBytes (s : NcSchema) : s.toBytes.implCheck = s.implCheck := by
  have h := NcSchema.locatorCount_toBytes s
  cases s <;> simp only [NcSchema.toBytes] at h <;> simp only [NcSchema.toBytes, NcSchema.implCheck, h]

theorem create_toBytes {id : Nat} {s : NcSchema} {i : SchemaImpl} (h : SchemaImpl.create id s = .ok i) :
    SchemaImpl.create id s.toBytes = .ok ⟨id, s.toBytes⟩ := by
  unfold SchemaImpl.create at h ⊢
  obtain ⟨a, ha, h⟩ := bind_eq_ok.mp h
  obtain ⟨b, hb, h⟩ := bind_eq_ok.mp h
  obtain ⟨c, hc, h⟩ := bind_eq_ok.mp h
  obtain ⟨d, hd, h⟩ := bind_eq_ok.mp h
  have e : (⟨id, s.toBytes⟩ : SchemaImpl).ncDef = (⟨id, s⟩ : SchemaImpl).ncDef.toBytes := rfl
  simp only [ha, ok_bind, NcSchema.tlv_toBytes, hb, e, NcDef.tlv_toBytes, NcSchema.implCheck_toBytes]
  rw [hc]
  simp only [ok_bind, hd]
  rfl

/-- The parsed definition makes the schema that the builder used, up to the representation of names. -/
theorem ofNcDef_toBytes {i : SchemaImpl} (h : SchemaImpl.create i.ncId i.schema = .ok i) :
    SchemaImpl.ofNcDef i.ncDef.toBytes = .ok ⟨i.ncId, i.schema.toBytes⟩ := create_toBytes h

/-! ## The name contexts -/

/-- What the contexts have in common: both schemas can be made, are the same if shared, and have different ids otherwise. -/
structure NameCtx.Good (c : NameCtx) : Prop where
  manifest : SchemaImpl.create c.manifest.ncId c.manifest.schema = .ok c.manifest
  data : SchemaImpl.create c.data.ncId c.data.schema = .ok c.data
  shared : c.shared = true → c.data = c.manifest ∧ c.manifest.usesNameId = false
  apart : c.shared = false → c.data.ncId ≠ c.manifest.ncId
  uses : c.data.usesNameId = c.manifest.usesNameId

/-- The ids of a context. -/
theorem nameCtx_good {ty : SchemaType} {nc : Nat} {name mp dp : Option Name} {ml dl : Option (List Link)} {ctx : NameCtx}
    (h : NameCtx.create ty nc name mp dp ml dl = .ok ctx) :
    ctx.Good ∧ ctx.manifest.ncId ≤ nc + 1 ∧ ctx.data.ncId ≤ nc + 1 := by
  have h0 := nameCtx_inv h
  have one : ∀ {id : Nat} {s : NcSchema} {i : SchemaImpl}, SchemaImpl.create id s = .ok i →
      SchemaImpl.create i.ncId i.schema = .ok i := by
    intro id s i hi
    have := schemaCreate_inv hi
    subst this
    exact hi
  have key : (∃ i s, SchemaImpl.create nc s = .ok i ∧ ctx = ⟨i, i, true⟩) ∨
      ∃ i j s t, SchemaImpl.create nc s = .ok i ∧ SchemaImpl.create (nc + 1) t = .ok j ∧ ctx = ⟨i, j, false⟩ := by
    have named : ∀ {ty : SchemaType} {m d : Option Name} {b : Bool}, NameCtx.createNamed ty nc m d b = .ok ctx →
        (∃ i s, SchemaImpl.create nc s = .ok i ∧ ctx = ⟨i, i, true⟩) ∨
        ∃ i j s t, SchemaImpl.create nc s = .ok i ∧ SchemaImpl.create (nc + 1) t = .ok j ∧ ctx = ⟨i, j, false⟩ := by
      intro ty m d b h
      unfold NameCtx.createNamed at h
      split at h
      · obtain ⟨i, hi, h⟩ := bind_eq_ok.mp h
        cases h
        exact .inl ⟨i, _, hi, rfl⟩
      · obtain ⟨i, hi, h⟩ := bind_eq_ok.mp h
        obtain ⟨j, hj, h⟩ := bind_eq_ok.mp h
        cases h
        exact .inr ⟨i, j, _, _, hi, hj, rfl⟩
    unfold NameCtx.create at h
    cases ty with
    | hashed =>
      simp only at h
      unfold NameCtx.createHashed at h
      obtain ⟨root, _, h⟩ := bind_eq_ok.mp h
      simp only at h
      split at h
      · obtain ⟨i, hi, h⟩ := bind_eq_ok.mp h
        cases h
        exact .inl ⟨i, _, hi, rfl⟩
      · obtain ⟨i, hi, h⟩ := bind_eq_ok.mp h
        obtain ⟨j, hj, h⟩ := bind_eq_ok.mp h
        cases h
        exact .inr ⟨i, j, _, _, hi, hj, rfl⟩
    | prefixed =>
      simp only at h
      generalize (if mp.isNone = true then name else mp) = m at h
      generalize (if dp.isNone = true then name else dp) = d at h
      split at h
      · cases h
      · exact named h
    | segmented =>
      simp only at h
      split at h
      · cases h
      · generalize (if mp.isNone = true then name else mp) = m at h
        generalize (if dp.isNone = true then name else dp) = d at h
        split at h
        · cases h
        · exact named h
  rcases key with ⟨i, s, hi, rfl⟩ | ⟨i, j, s, t, hi, hj, rfl⟩
  · have e := schemaCreate_inv hi
    exact ⟨⟨one hi, one hi, h0.1, by simp, h0.2.1⟩, by simp [e], by simp [e]⟩
  · have e := schemaCreate_inv hi
    have e' := schemaCreate_inv hj
    exact ⟨⟨one hi, one hj, h0.1, by simp [e, e'], h0.2.1⟩, by simp [e], by simp [e']⟩

/-- The definitions as a reader gets them. -/
def NameCtx.readDefs (c : NameCtx) : List NcDef := c.ncDefs.map NcDef.toBytes

theorem NameCtx.Good.lookup_manifest {c : NameCtx} (h : c.Good) :
    Spec.lookup c.readDefs c.manifest.ncId = some c.manifest.ncDef.toBytes := by
  unfold Spec.lookup NameCtx.readDefs NameCtx.ncDefs
  cases hs : c.shared with
  | true => simp [SchemaImpl.ncDef, NcDef.toBytes]
  | false => simp [SchemaImpl.ncDef, NcDef.toBytes, h.apart hs]

theorem NameCtx.Good.lookup_data {c : NameCtx} (h : c.Good) :
    Spec.lookup c.readDefs c.data.ncId = some c.data.ncDef.toBytes := by
  cases hs : c.shared with
  | true => rw [(h.shared hs).1]; exact h.lookup_manifest
  | false =>
    unfold Spec.lookup NameCtx.readDefs NameCtx.ncDefs
    simp [SchemaImpl.ncDef, NcDef.toBytes, hs, (h.apart hs).symm]

/-- The names of both schemas are held as `bytes`. -/
def NameCtx.Plain (c : NameCtx) : Prop := c.manifest.schema.PlainName ∧ c.data.schema.PlainName

theorem asks_of {c : NameCtx} {i : SchemaImpl} (hc : SchemaImpl.create i.ncId i.schema = .ok i)
    (hl : Spec.lookup c.readDefs i.ncId = some i.ncDef.toBytes) (hp : i.schema.PlainName) {h : HashValue} {seg : Option Nat}
    {name : Option Name} (hn : i.getName (seg.map Int.ofNat) = .ok name) :
    Spec.Asks c.readDefs ⟨i.ncId, h, seg⟩ (name, some h) :=
  ⟨rfl, _, _, hl, ofNcDef_toBytes hc, by rw [getName_toBytes hp]; exact hn⟩

/-- Without segment ids in names the id does not matter. -/
theorem getName_any {i : SchemaImpl} (h : i.usesNameId = false) (a b : Option Int) : i.getName a = i.getName b := by
  unfold SchemaImpl.usesNameId at h
  unfold SchemaImpl.getName
  cases hs : i.schema with
  | hash l f => rfl
  | prefixed n l f => rfl
  | segmented n st l f => rw [hs] at h; cases h

/-! ## The reader -/

/-- Specification: no two different packets have the same hash. -/
def Spec.NoCollision (P : Prims) (ps : List Packet) : Prop :=
  ∀ p ∈ ps, ∀ q ∈ ps, ∀ h, p.hash P.sha256 = .ok h → q.hash P.sha256 = .ok h → p = q

/-- Specification: a memory store, or a memory reader, that holds the packets. -/
def Spec.Holds (P : Prims) (ps : List Packet) (store : MemoryStore) : Prop :=
  MemoryStore.putAll P {} ps = .ok store ∨ MemoryStore.ofPackets P ps = .ok store

theorem Spec.Holds.filed {P : Prims} {ps : List Packet} {store : MemoryStore} (h : Spec.Holds P ps store) : store.Filed P := by
  rcases h with h | h
  · exact putAll_filed (by intro e he; simp at he) h
  · exact ofPackets_filed h

theorem putAll_hashes {P : Prims} {ps : List Packet} {a b : MemoryStore} (h : a.putAll P ps = .ok b) :
    ∀ q ∈ ps, ∃ hv, q.hash P.sha256 = .ok hv := by
  unfold MemoryStore.putAll at h
  induction ps generalizing a with
  | nil => simp
  | cons x qs ih =>
    intro q hq
    rw [List.foldlM_cons] at h
    obtain ⟨m, hm, h⟩ := bind_eq_ok.mp h
    rcases List.mem_cons.mp hq with rfl | hq
    · obtain ⟨_, hv, _, hh, _⟩ := MemoryStore.put_ok hm
      exact ⟨hv, hh⟩
    · exact ih h q hq

theorem ofPackets_entries {P : Prims} {ps : List Packet} {s : MemoryStore} (h : MemoryStore.ofPackets P ps = .ok s) :
    (∀ e ∈ s.byHash, e.2 ∈ ps) ∧ ∀ q ∈ ps, ∃ hv, (hv, q) ∈ s.byHash ∧ q.hash P.sha256 = .ok hv := by
  unfold MemoryStore.ofPackets at h
  have key : ∀ (qs : List Packet) (s0 s1 : MemoryStore),
      qs.foldlM (fun s p => do
        let h ← p.hash P.sha256
        return { s with byHash := (h, p) :: s.byHash }) s0 = .ok s1 →
      (∀ e ∈ s1.byHash, e ∈ s0.byHash ∨ e.2 ∈ qs) ∧ (∀ e ∈ s0.byHash, e ∈ s1.byHash) ∧
        ∀ q ∈ qs, ∃ hv, (hv, q) ∈ s1.byHash ∧ q.hash P.sha256 = .ok hv := by
    intro qs
    induction qs with
    | nil => intro s0 s1 h; cases Except.ok.inj h; exact ⟨fun _ h => .inl h, fun _ h => h, by simp⟩
    | cons q qs ih =>
      intro s0 s1 h
      rw [List.foldlM_cons] at h
      obtain ⟨m, hm, h⟩ := bind_eq_ok.mp h
      obtain ⟨hv, hh, hm⟩ := bind_eq_ok.mp hm
      cases Except.ok.inj hm
      obtain ⟨h0, h1, h2⟩ := ih _ _ h
      refine ⟨fun e he => ?_, fun e he => h1 e (List.mem_cons_of_mem _ he), fun x hx => ?_⟩
      · rcases h0 e he with h | h
        · rcases List.mem_cons.mp h with rfl | h
          · exact .inr (List.mem_cons_self ..)
          · exact .inl h
        · exact .inr (List.mem_cons_of_mem _ h)
      · rcases List.mem_cons.mp hx with rfl | hx
        · exact ⟨hv, h1 _ (List.mem_cons_self ..), hh⟩
        · exact h2 x hx
  obtain ⟨h0, _, h2⟩ := key ps _ s h
  refine ⟨fun e he => ?_, h2⟩
  rcases h0 e he with h | h
  · simp at h
  · exact h

theorem Packet.hash_sha {sha : Bytes → Bytes} {p : Packet} {hv : HashValue} (h : p.hash sha = .ok hv) : hv.alg = T_SHA_256 := by
  unfold Packet.hash at h
  obtain ⟨b, _, h⟩ := bind_eq_ok.mp h
  cases Except.ok.inj h
  rfl

theorem Spec.Holds.find {P : Prims} {ps : List Packet} {store : MemoryStore} (h : Spec.Holds P ps store)
    (hc : Spec.NoCollision P ps) {p : Packet} (hp : p ∈ ps) : ∃ hv, p.hash P.sha256 = .ok hv ∧ store.find P hv = some p := by
  rcases h with h | h
  · obtain ⟨hv, hh⟩ := putAll_hashes h p hp
    refine ⟨hv, hh, ?_⟩
    rw [(store_inv P ps store h).2.1 hv (Packet.hash_sha hh)]
    cases hf : ps.find? (Spec.hasHash P hv) with
    | none => exact absurd (List.find?_eq_none.mp hf p hp) (by simp [Spec.hasHash, hh])
    | some q =>
      have h1 : q.hash P.sha256 = .ok hv := by simpa [Spec.hasHash] using List.find?_some hf
      rw [hc p hp q (List.mem_of_find?_eq_some hf) hv hh h1]
  · obtain ⟨h0, h1⟩ := ofPackets_entries h
    obtain ⟨hv, he, hh⟩ := h1 p hp
    refine ⟨hv, hh, ?_⟩
    unfold MemoryStore.find
    cases hf : store.byHash.find? (fun e => hv.dictEq P e.1) with
    | none =>
      exact absurd ((HashValue.dictEq_same_alg P hv hv rfl).mpr rfl) (by simpa using List.find?_eq_none.mp hf _ he)
    | some y =>
      have hy : hv.dictEq P y.1 = true := by simpa using List.find?_some hf
      have hm := List.mem_of_find?_eq_some hf
      have hfy := ofPackets_filed h y hm
      have : hv = y.1 := (HashValue.dictEq_same_alg P hv y.1 (by rw [Packet.hash_sha hh, Packet.hash_sha hfy])).mp hy
      simp only [Option.map_some, Option.some.injEq]
      exact (hc p hp y.2 (h0 y hm) hv hh (by rw [this]; exact hfy)).symm

theorem Packet.hash_name {sha : Bytes → Bytes} {p : Packet} {hv : HashValue} (h : p.hash sha = .ok hv) {n : Name}
    (hn : p.body.name = some n) : ∃ t, n.tlv = .ok t := by
  unfold Packet.hash at h
  obtain ⟨b, hb, _⟩ := bind_eq_ok.mp h
  obtain ⟨x, hx, _⟩ := bind_eq_ok.mp hb
  obtain ⟨t, ht, _⟩ := wireOf_ok hx
  obtain ⟨ms, hms, _⟩ := bind_eq_ok.mp ht
  obtain ⟨a, ha, _⟩ := bind_eq_ok.mp hms
  rw [hn] at ha
  obtain ⟨u, hu, _⟩ := optTlv_some ha
  exact ⟨u, hu⟩

/-- A packet asked for by its hash and its name is obtained. -/
theorem Spec.Holds.reader {P : Prims} {ps : List Packet} {store : MemoryStore} (h : Spec.Holds P ps store)
    (hc : Spec.NoCollision P ps) {p : Packet} (hp : p ∈ ps) {hv : HashValue} (hh : p.hash P.sha256 = .ok hv) :
    store.reader P p.body.name (some hv) = .ok p := by
  obtain ⟨hv', hh', hf⟩ := h.find hc hp
  cases Except.ok.inj (hh.symm.trans hh')
  show store.get P p.body.name hv = .ok p
  rw [get_eq_answer, hf]
  unfold Spec.answer
  cases hn : p.body.name with
  | none => simp [hn]
  | some n =>
    obtain ⟨t, ht⟩ := Packet.hash_name hh hn
    simp [hn, Name.pyEq_refl ht]

theorem Spec.Holds.hashes {P : Prims} {ps : List Packet} {store : MemoryStore} (h : Spec.Holds P ps store)
    (name : Option Name) (hash : Option HashValue) (p : Packet) (hr : store.reader P name hash = .ok p) :
    ∃ hv, p.hash P.sha256 = .ok hv := by
  cases hash with
  | none => cases hr
  | some x =>
    obtain ⟨g, hg, _⟩ := h.filed.reader hr
    exact ⟨g, hg⟩

/-- A reader that returns each of the packets when asked by name and hash, and only packets that have a hash. -/
structure Serves (P : Prims) (ps : List Packet) (rd : Reader) : Prop where
  get : ∀ p ∈ ps, ∀ hv, p.hash P.sha256 = .ok hv → rd p.body.name (some hv) = .ok p
  hashes : ∀ name h p, rd name h = .ok p → ∃ hv, p.hash P.sha256 = .ok hv

theorem Spec.Holds.serves {P : Prims} {ps : List Packet} {store : MemoryStore} (h : Spec.Holds P ps store)
    (hc : Spec.NoCollision P ps) : Serves P ps (store.reader P) :=
  ⟨fun _ hp _ hh => h.reader hc hp hh, h.hashes⟩

theorem Packet.hash_of_serialize {sha : Bytes → Bytes} {p : Packet} {w : Bytes} (h : p.serialize = .ok w) :
    ∃ hv, p.hash sha = .ok hv := by
  unfold Packet.serialize at h
  obtain ⟨_, _, h⟩ := bind_eq_ok.mp h
  obtain ⟨b, hb, h⟩ := bind_eq_ok.mp h
  obtain ⟨a, ha, h⟩ := bind_eq_ok.mp h
  obtain ⟨v, hv, _⟩ := bind_eq_ok.mp h
  exact ⟨_, by unfold Packet.hash Packet.hashInput; rw [hb, ok_bind, ha, ok_bind, hv]; rfl⟩

/-! ## Reading manifests -/

/-- The law of the signature scheme: a signature verifies. -/
def Prims.RsaLaw (P : Prims) : Prop := ∀ der d, P.rsaVerify der d (P.rsaSign der d) = true

/-- Specification: if there is a keystore, it has the public part of the signer's RSA key. -/
def Spec.CanVerify (P : Prims) (ks : Option Keystore) : Option Signer → Prop
  | some (.rsa key _ _) => ∀ s, ks = some s → ∃ pub, s.getRsa P (.hash (key.keyid P)) = .ok pub ∧ pub.der = key.der
  | _ => True

/-- Specification: the keystore has what is needed to decrypt.  For AEAD contexts: an AES key of that number with the same key
and salt.  For RSA-OAEP contexts: such a key, or no AES key of that number and the RSA private key for which the content key was
wrapped. -/
def Spec.CanDecrypt (P : Prims) (ks : Option Keystore) : Option Encryptor → Prop
  | none => True
  | some (.aead p) => p.Fits64 ∧ ∃ s q, ks = some s ∧ s.getAesKey p.keyNumber = .ok q ∧ q.SameCipher p
  | some (.oaep p w) => p.Fits64 ∧ (∀ a, w.hashAlg = some a → a < 2 ^ 64) ∧ ∃ s, ks = some s ∧
      ((∃ q, s.getAesKey p.keyNumber = .ok q ∧ q.SameCipher p) ∨
        (∃ e, s.getAesKey p.keyNumber = .error e) ∧ ∃ rsa seed priv, oaepWrapper P rsa seed p = .ok w ∧
          s.getRsa P (.hash (rsa.keyid P)) = .ok priv ∧ priv.der = rsa.der ∧ priv.hasPrivate = true)

theorem signPacket_valid {P : Prims} (hP : P.RsaLaw) {ks : Option Keystore} {sg : Option Signer} (hk : Spec.CanVerify P ks sg)
    {b : ContentObject} {p : Packet} (h : signPacket P sg b = .ok p) : validatePacket P ks p = .ok () := by
  cases sg with
  | none =>
    obtain ⟨_, _, rfl⟩ := createContentObject_inv h
    exact C24_unsigned P ks _ rfl
  | some sg =>
    cases sg with
    | crc32c => exact (C24_crc_signed_accepted P ks b p h).1
    | rsa key link time =>
      cases ks with
      | none =>
        obtain ⟨alg, halg, h⟩ := bind_eq_ok.mp h
        obtain ⟨rfl, _⟩ := construct_inv halg
        obtain ⟨_, _, h⟩ := bind_eq_ok.mp h
        obtain ⟨_, _, h⟩ := bind_eq_ok.mp h
        obtain ⟨_, _, h⟩ := bind_eq_ok.mp h
        obtain ⟨_, rfl⟩ := createSigned_inv h
        rfl
      | some s =>
        obtain ⟨pub, hg, hder⟩ := hk s rfl
        obtain ⟨alg, halg, h⟩ := bind_eq_ok.mp h
        obtain ⟨rfl, _⟩ := construct_inv halg
        obtain ⟨b', hb, h⟩ := bind_eq_ok.mp h
        obtain ⟨a, ha, h⟩ := bind_eq_ok.mp h
        obtain ⟨v, hv, h⟩ := bind_eq_ok.mp h
        obtain ⟨_, rfl⟩ := createSigned_inv h
        unfold rsaSign at hv
        split at hv
        · rename_i hp
          obtain ⟨sig, hs, hv⟩ := bind_eq_ok.mp hv
          obtain ⟨rfl, _⟩ := construct_inv hv
          rw [RsaKey.sign, if_pos hp] at hs
          cases Except.ok.inj hs
          simp only [validatePacket, hg, hb, ha, ok_bind, rsaVerify, RsaKey.verify, hder]
          rw [hP]
          rfl
        · cases hv

/-- The decryptor cache can open the manifests; `full` says whether the next manifest carries the whole security context. -/
def DecryptorCache.Ready (P : Prims) (enc : Option Encryptor) (full : Bool) (c : DecryptorCache) : Prop :=
  match enc with
  | none => True
  | some (.aead p) => ∃ q, c.oaep.keystore.getAesKey p.keyNumber = .ok q ∧ q.SameCipher p ∧
      (c.lastKeyNum = some p.keyNumber → c.lastDecryptor = some (.aead q))
  | some (.oaep p w) => c.oaep.Agrees p ∧
      ((∃ e ∈ c.oaep.cache, e.1.2 = p.keyNumber) → ∃ q, c.oaep.keystore.getAesKey p.keyNumber = .ok q) ∧
      (c.lastKeyNum = some p.keyNumber → c.lastDecryptor = some .oaep) ∧
      ((∃ q, c.oaep.keystore.getAesKey p.keyNumber = .ok q) ∨ (full = true ∧ c.oaep.CanUnwrap P w.toBytes p))

theorem oaepWrapper_opens {P : Prims} (hO : P.OaepLaw) {rsa priv : RsaKey} {seed : Bytes} {p : AeadParams} {w : RsaOaepWrapper}
    (hw : oaepWrapper P rsa seed p = .ok w) {s : OaepDecryptor} (hg : s.keystore.getRsa P (.hash (rsa.keyid P)) = .ok priv)
    (hder : priv.der = rsa.der) (hpriv : priv.hasPrivate = true) : s.CanUnwrap P w p := by
  obtain ⟨c, hc, rfl⟩ := oaepWrapper_ok hw
  obtain ⟨salt, k, mode, label, hs, hlt, hk, hmode, hl, hce⟩ := wrapKey_ok hc
  refine ⟨priv, c, k, mode, salt, hg, hpriv, rfl, hk, hmode, hs, hlt, ?_⟩
  intro nonce
  obtain ⟨salt', hs', hun⟩ := C35_unwrap P hO rsa priv hder hpriv seed p c hc k hk
    ⟨p.keyNumber, nonce, some mode, p.kdfData⟩ rfl ⟨mode, hmode, rfl⟩ rfl
  rw [hs] at hs'
  cases hs'
  exact hun

/-- A new cache is ready for the root. -/
theorem ready_new {P : Prims} (hO : P.OaepLaw) {ks : Option Keystore} {enc : Option Encryptor} (h : Spec.CanDecrypt P ks enc) :
    (TState.new ks).cache.Ready P enc true := by
  unfold DecryptorCache.Ready
  cases enc with
  | none => trivial
  | some enc =>
    cases enc with
    | aead p =>
      obtain ⟨_, s, q, rfl, h1, h2⟩ := h
      exact ⟨q, h1, h2, by simp [TState.new]⟩
    | oaep p w =>
      obtain ⟨_, _, s, rfl, h⟩ := h
      refine ⟨⟨by simp [TState.new], ?_⟩, by simp [TState.new], by simp [TState.new], ?_⟩
      · intro q hq
        rcases h with ⟨q', h1, h2⟩ | ⟨⟨e, he⟩, _⟩
        · cases Except.ok.inj (hq.symm.trans h1)
          exact h2
        · exact absurd (hq.symm.trans he) (by simp)
      · rcases h with ⟨q', h1, h2⟩ | ⟨_, rsa, seed, priv, hw, hg, hder, hpriv⟩
        · exact .inl ⟨q', h1⟩
        · right
          refine ⟨rfl, ?_⟩
          have := oaepWrapper_opens hO hw (s := (TState.new (some s)).cache.oaep) hg hder hpriv
          obtain ⟨c, _, rfl⟩ := oaepWrapper_ok hw
          exact this

/-- A manifest packet of the factory is read back as its node. -/
theorem read_manifest {E : Env} (hA : E.prims.AeadLaw) {o : TreeOptions} {ks : Option Keystore}
    (hk : Spec.CanDecrypt E.prims ks o.encryptor) {node : Node} (hn : node.Fits64) {name : Option Name} {x : Option F64}
    {sg : Option Signer} {full : Bool} {s s' : BState} {p : Packet} (h : buildFromNode E o node name x sg full s = (.ok p, s'))
    {T : TravEnv} (hT : T.prims = E.prims) (hks : T.keystore = ks) {t : TState} (ht : t.cache.Ready E.prims o.encryptor full) :
    ∃ m m' c, Manifest.fromContentObject p.body = .ok m ∧ T.decrypt m t = (.ok m', { t with cache := c }) ∧
      m' = { node := .plain node.toBytes } ∧ c.Ready E.prims o.encryptor false := by
  obtain ⟨m, s1, w, hm, hw, _, hbody, _, _⟩ := buildFromNode_inv h
  have hread : ∀ m', Manifest.deserialize w = .ok m' → Manifest.fromContentObject p.body = .ok m' := by
    intro m' hm'
    rw [hbody]
    exact hm'
  unfold buildManifest at hm
  cases ho : o.encryptor with
  | none =>
    simp only [ho] at hm
    obtain ⟨v, hv, hm⟩ := PyS.liftBind_ok hm
    cases hm
    have hfit : ({ node := .plain node } : Manifest).Fits := ⟨by simp, hn⟩
    refine ⟨Manifest.toBytes { node := .plain node }, Manifest.toBytes { node := .plain node }, t.cache,
      hread _ (manifest_RT hfit hw), ?_, rfl, trivial⟩
    simp [TravEnv.decrypt, DecryptorCache.open, Manifest.isEncrypted, Manifest.toBytes, ManifestNode.toBytes]
  | some enc =>
    rw [ho] at hk ht
    cases enc with
    | aead q0 =>
      simp only [ho] at hm
      rw [PyS.bind_run] at hm
      simp only [PyS.get_run] at hm
      rw [PyS.bind_run] at hm
      simp only [PyS.modify_run] at hm
      obtain ⟨hm, _⟩ := PyS.lift_ok hm
      obtain ⟨sl, hsl, hm⟩ := bind_eq_ok.mp hm
      obtain ⟨hfit, ks', q', hks', _, _⟩ := hk
      obtain ⟨q, hq1, hq2, hq3⟩ := ht
      have hdec := (C33_aead_roundtrip E.prims hA q0 q hq2 _ node hn sl hsl m hm).1
      obtain ⟨d, hd, henc⟩ := aeadEncrypt_ok hsl
      obtain ⟨_, _, _, _, _, _, hctx, _⟩ := encryptWithCtx_ok henc
      obtain ⟨rfl, _⟩ := Sealed.manifest_ok hm
      rw [hctx] at hw hdec
      have hnum : d.keyNumber = q0.keyNumber := by
        obtain ⟨k, md, _, _, rfl⟩ := AeadParams.aeadData_ok hd
        rfl
      have hRT := manifest_RT (m := ⟨some (.aead d), .encrypted sl.ciphertext, some sl.authTag⟩)
        ⟨by rintro c ⟨⟩; exact AeadParams.aeadData_fits hfit hd, trivial⟩ hw
      obtain ⟨c', hc1, hc2, hc3, hc4⟩ := getOrCreate_right (c := t.cache) (x := .aead d)
        (by rintro d' ⟨⟩; rw [hnum]; exact ⟨q, hq1⟩)
        (by
          intro n hn1 hn2
          simp only [SecurityCtx.aeadData, hnum] at hn2
          subst hn2
          simp only [rightDecryptor, hnum, hq1, hq3 hn1]
          rfl)
      have hright : rightDecryptor t.cache.oaep.keystore (.aead d) = .ok (some (.aead q)) := by
        simp only [rightDecryptor, hnum, hq1]
        rfl
      rw [hright] at hc1 hc4
      refine ⟨⟨some (.aead d), .encrypted sl.ciphertext, some sl.authTag⟩, recovered node, c', hread _ hRT, ?_, rfl, q, ?_, hq2, ?_⟩
      · simp [TravEnv.decrypt, hks, hks', DecryptorCache.open, Manifest.isEncrypted, hc1, DecryptorCache.decrypt, hT, hdec]
      · rw [hc2]; exact hq1
      · intro _
        exact Except.ok.inj hc4
    | oaep q0 wr =>
      simp only [ho] at hm
      rw [PyS.bind_run] at hm
      simp only [PyS.get_run] at hm
      rw [PyS.bind_run] at hm
      simp only [PyS.modify_run] at hm
      obtain ⟨hm, _⟩ := PyS.lift_ok hm
      obtain ⟨sl, hsl, hm⟩ := bind_eq_ok.mp hm
      obtain ⟨hfit, hwr, ks', hks', _⟩ := hk
      obtain ⟨ha1, ha2, ha3, ha4⟩ := ht
      obtain ⟨d, hd, henc⟩ := oaepEncrypt_ok hsl
      obtain ⟨_, _, _, _, _, _, hctx, _⟩ := encryptWithCtx_ok henc
      have hdn := decryptNode_of_encrypt hA hn (ctx := .rsaOaep d (if full then some wr else none)) hd henc
      obtain ⟨rfl, _⟩ := Sealed.manifest_ok hm
      rw [hctx] at hw
      have hnum : d.keyNumber = q0.keyNumber := by
        obtain ⟨k, md, _, _, rfl⟩ := AeadParams.aeadData_ok hd
        rfl
      have hwfit : ∀ y, (if full then some wr else none) = some y → y.Fits := by
        intro y hy
        cases full with
        | true => cases hy; exact hwr
        | false => cases hy
      have hRT := manifest_RT (m := ⟨some (.rsaOaep d (if full then some wr else none)), .encrypted sl.ciphertext, some sl.authTag⟩)
        ⟨by rintro c ⟨⟩; exact ⟨AeadParams.aeadData_fits hfit hd, hwfit⟩, trivial⟩ hw
      obtain ⟨c', hc1, hc2, hc3, hc4⟩ := getOrCreate_right (c := t.cache)
        (x := .rsaOaep d ((if full then some wr else none).map RsaOaepWrapper.toBytes))
        (by rintro d' ⟨⟩)
        (by
          intro n hn1 hn2
          simp only [SecurityCtx.aeadData, hnum] at hn2
          subst hn2
          simp only [rightDecryptor, ha3 hn1])
      obtain ⟨q, o', g1, g2, g3, g4, _⟩ := getImpl_agrees (P := E.prims) ha1 ha2 hd
        (w := (if full then some wr else none).map RsaOaepWrapper.toBytes) (by
          rcases ha4 with hx | ⟨hf, hx⟩
          · exact .inl hx
          · rw [hf]; exact .inr ⟨_, rfl, hx⟩)
      have e := decryptNode_toBytes E.prims q (.rsaOaep d (if full then some wr else none))
      simp only [SecurityCtx.toBytes] at e
      refine ⟨⟨some (.rsaOaep d ((if full then some wr else none).map RsaOaepWrapper.toBytes)), .encrypted sl.ciphertext,
        some sl.authTag⟩, recovered node, { c' with oaep := o' }, hread _ hRT, ?_, rfl, g3, fun _ => g4, ?_, .inl g4⟩
      · have hdec : oaepDecryptManifest E.prims q ⟨some (.rsaOaep d ((if full then some wr else none).map RsaOaepWrapper.toBytes)),
            .encrypted sl.ciphertext, some sl.authTag⟩ = .ok (recovered node) := by
          simp only [oaepDecryptManifest, e, AeadParams.decryptNode_congr g2, hdn, ok_bind]
          rfl
        simp only [rightDecryptor] at hc1
        simp only [TravEnv.decrypt, hks, hks', DecryptorCache.open, Manifest.isEncrypted, hc1, DecryptorCache.decrypt, hT,
          OaepDecryptor.decryptManifest, hc2, g1, hdec]
        rfl
      · intro _
        exact Except.ok.inj hc4

/-- How a manifest is protected: as the encryptor does it. -/
def SealedFor (enc : Option Encryptor) (m : Manifest) : Prop :=
  match enc with
  | none => m.isEncrypted = false
  | some (.aead p) => m.isEncrypted = true ∧ ∃ d, m.securityCtx = some (.aead d) ∧ d.keyNumber = p.keyNumber
  | some (.oaep p _) => m.isEncrypted = true ∧ ∃ d w, m.securityCtx = some (.rsaOaep d w) ∧ d.keyNumber = p.keyNumber

theorem read_sealed {E : Env} {o : TreeOptions} {ks : Option Keystore} (hk : Spec.CanDecrypt E.prims ks o.encryptor) {node : Node}
    (hn : node.Fits64) {name : Option Name} {x : Option F64} {sg : Option Signer} {full : Bool} {s s' : BState} {p : Packet}
    (h : buildFromNode E o node name x sg full s = (.ok p, s')) {m' : Manifest} (hm' : Manifest.fromContentObject p.body = .ok m') :
    SealedFor o.encryptor m' := by
  obtain ⟨m, s1, w, hm, hw, _, hbody, _, _⟩ := buildFromNode_inv h
  have hread : ∀ m1, Manifest.deserialize w = .ok m1 → m' = m1 := by
    intro m1 h1
    rw [hbody] at hm'
    exact Except.ok.inj (hm'.symm.trans h1)
  unfold buildManifest at hm
  cases ho : o.encryptor with
  | none =>
    simp only [ho] at hm
    obtain ⟨v, hv, hm⟩ := PyS.liftBind_ok hm
    cases hm
    have hfit : ({ node := .plain node } : Manifest).Fits := ⟨by simp, hn⟩
    rw [hread _ (manifest_RT hfit hw)]
    rfl
  | some enc =>
    rw [ho] at hk
    cases enc with
    | aead q0 =>
      simp only [ho] at hm
      rw [PyS.bind_run] at hm
      simp only [PyS.get_run] at hm
      rw [PyS.bind_run] at hm
      simp only [PyS.modify_run] at hm
      obtain ⟨hm, _⟩ := PyS.lift_ok hm
      obtain ⟨sl, hsl, hm⟩ := bind_eq_ok.mp hm
      obtain ⟨hfit, _⟩ := hk
      obtain ⟨d, hd, henc⟩ := aeadEncrypt_ok hsl
      obtain ⟨_, _, _, _, _, _, hctx, _⟩ := encryptWithCtx_ok henc
      obtain ⟨rfl, _⟩ := Sealed.manifest_ok hm
      rw [hctx] at hw
      have hnum : d.keyNumber = q0.keyNumber := by
        obtain ⟨k, md, _, _, rfl⟩ := AeadParams.aeadData_ok hd
        rfl
      rw [hread _ (manifest_RT (m := ⟨some (.aead d), .encrypted sl.ciphertext, some sl.authTag⟩)
        ⟨by rintro c ⟨⟩; exact AeadParams.aeadData_fits hfit hd, trivial⟩ hw)]
      exact ⟨rfl, d, rfl, hnum⟩
    | oaep q0 wr =>
      simp only [ho] at hm
      rw [PyS.bind_run] at hm
      simp only [PyS.get_run] at hm
      rw [PyS.bind_run] at hm
      simp only [PyS.modify_run] at hm
      obtain ⟨hm, _⟩ := PyS.lift_ok hm
      obtain ⟨sl, hsl, hm⟩ := bind_eq_ok.mp hm
      obtain ⟨hfit, hwr, _⟩ := hk
      obtain ⟨d, hd, henc⟩ := oaepEncrypt_ok hsl
      obtain ⟨_, _, _, _, _, _, hctx, _⟩ := encryptWithCtx_ok henc
      obtain ⟨rfl, _⟩ := Sealed.manifest_ok hm
      rw [hctx] at hw
      have hnum : d.keyNumber = q0.keyNumber := by
        obtain ⟨k, md, _, _, rfl⟩ := AeadParams.aeadData_ok hd
        rfl
      have hwfit : ∀ y, (if full then some wr else none) = some y → y.Fits := by
        intro y hy
        cases full with
        | true => cases hy; exact hwr
        | false => cases hy
      rw [hread _ (manifest_RT (m := ⟨some (.rsaOaep d (if full then some wr else none)), .encrypted sl.ciphertext, some sl.authTag⟩)
        ⟨by rintro c ⟨⟩; exact ⟨AeadParams.aeadData_fits hfit hd, hwfit⟩, trivial⟩ hw)]
      exact ⟨rfl, d, _, rfl, hnum⟩

/-- What decrypting a manifest that is protected so does not change in the decryptor cache. -/
def Undisturbed (P : Prims) (enc : Option Encryptor) (J : DecryptorCache → Prop) : Prop :=
  ∀ m c r c', SealedFor enc m → J c → c.open P m = (.ok r, c') → J c'

theorem opened {P : Prims} {T : TravEnv} (hT : T.prims = P) {m r : Manifest} {t t' : TState} {c : DecryptorCache}
    (h : T.decrypt m t = (.ok r, t')) (hc : t'.cache = c) : t.cache.open P m = (.ok r, c) := by
  unfold TravEnv.decrypt at h
  split at h
  · cases h
  · rw [hT] at h
    rcases hop : t.cache.open P m with ⟨r', c'⟩
    rw [hop] at h
    cases h
    exact hc ▸ rfl

end Ccnpy
