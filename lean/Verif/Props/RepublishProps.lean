import Verif.Props.IntegrityProps

/-!
# C102: publishing a file again
-/

namespace Ccnpy

/-! ## Specification -/

/-- The options that say how data packets are made and named. -/
structure Spec.SameData (o o' : TreeOptions) : Prop where
  schemaType : o'.schemaType = o.schemaType
  name : o'.name = o.name
  manifestPrefix : o'.manifestPrefix = o.manifestPrefix
  dataPrefix : o'.dataPrefix = o.dataPrefix
  expiry : o'.dataExpiry = o.dataExpiry
  size : o'.maxPacketSize = o.maxPacketSize

/-- The bytes of the two packets that are hashed differ. -/
def Spec.Differ (p q : Packet) : Prop := ∃ x y, p.hashInput = .ok x ∧ q.hashInput = .ok y ∧ x ≠ y

/-! ## Data packets -/

/-- The schemas name data packets in the same way. -/
def SchemaImpl.NamesAs (i j : SchemaImpl) : Prop :=
  i.getName = j.getName ∧ i.usesNameId = j.usesNameId ∧ i.usesFinalChunkId = j.usesFinalChunkId

theorem NamesAs.of_schema {i j : SchemaImpl} (h : i.schema = j.schema) : i.NamesAs j := by
  refine ⟨?_, ?_, ?_⟩
  · funext id; unfold SchemaImpl.getName; rw [h]
  · unfold SchemaImpl.usesNameId; rw [h]
  · unfold SchemaImpl.usesFinalChunkId; rw [h]

theorem NamesAs.hashes {i j : SchemaImpl} {a b : Option (List Link)} {c d : Option Bytes} (hi : i.schema = .hash a c) (hj : j.schema = .hash b d) :
    i.NamesAs j := by
  refine ⟨?_, ?_, ?_⟩
  · funext id; unfold SchemaImpl.getName; rw [hi, hj]
  · unfold SchemaImpl.usesNameId; rw [hi, hj]
  · unfold SchemaImpl.usesFinalChunkId; rw [hi, hj]

theorem NamesAs.chunkLoop {i j : SchemaImpl} (h : i.NamesAs j) (P : Bytes → Bytes) (o : ChunkOptions) (size fuel : Nat) :
    i.chunkLoop P o size fuel = j.chunkLoop P o size fuel := by
  obtain ⟨h1, h2, h3⟩ := h
  have hf : i.finalId = j.finalId := by
    funext a b
    unfold SchemaImpl.finalId
    rw [h3]
  induction fuel with
  | zero => funext a b c d; unfold SchemaImpl.chunkLoop; rfl
  | succ fuel ih =>
    funext a b c d
    unfold SchemaImpl.chunkLoop
    simp only [h1, hf, ih]

theorem NamesAs.chunkData {i j : SchemaImpl} (h : i.NamesAs j) (P : Bytes → Bytes) (o : ChunkOptions) (input : Stream) :
    i.chunkData P o input = j.chunkData P o input := by
  have hp : i.payloadSize o = j.payloadSize o := by
    unfold SchemaImpl.payloadSize
    rw [h.1, h.2.1]
  unfold SchemaImpl.chunkData
  simp only [hp, NamesAs.chunkLoop h]

theorem namesAs_of_create {o o' : TreeOptions} {nc nc' : Nat} {ctx ctx' : NameCtx} (ho : Spec.SameData o o')
    (h : NameCtx.create o.schemaType nc o.name o.manifestPrefix o.dataPrefix o.manifestLocators o.dataLocators = .ok ctx)
    (h' : NameCtx.create o'.schemaType nc' o'.name o'.manifestPrefix o'.dataPrefix o'.manifestLocators o'.dataLocators = .ok ctx') :
    ctx.data.NamesAs ctx'.data := by
  rw [ho.schemaType, ho.name, ho.manifestPrefix, ho.dataPrefix] at h'
  have named : ∀ {ty : SchemaType} {m d : Option Name} {b : Bool}, NameCtx.createNamed ty nc m d b = .ok ctx →
      NameCtx.createNamed ty nc' m d b = .ok ctx' → ctx.data.NamesAs ctx'.data := by
    intro ty m d b h h'
    unfold NameCtx.createNamed at h h'
    cases b with
    | true =>
      obtain ⟨i, hi, h⟩ := bind_eq_ok.mp h
      obtain ⟨j, hj, h'⟩ := bind_eq_ok.mp h'
      cases h
      cases h'
      exact NamesAs.of_schema (by rw [schemaCreate_inv hi, schemaCreate_inv hj])
    | false =>
      obtain ⟨_, _, h⟩ := bind_eq_ok.mp h
      obtain ⟨_, _, h'⟩ := bind_eq_ok.mp h'
      obtain ⟨i, hi, h⟩ := bind_eq_ok.mp h
      obtain ⟨j, hj, h'⟩ := bind_eq_ok.mp h'
      cases h
      cases h'
      exact NamesAs.of_schema (by rw [schemaCreate_inv hi, schemaCreate_inv hj])
  unfold NameCtx.create at h h'
  cases hty : o.schemaType with
  | hashed =>
    have hashed : ∀ {nc : Nat} {n : Option Name} {a b : Option (List Link)} {ctx : NameCtx}, NameCtx.createHashed nc n a b = .ok ctx →
        ∃ l, ctx.data.schema = .hash l none := by
      intro nc n a b ctx h
      unfold NameCtx.createHashed at h
      obtain ⟨root, _, h⟩ := bind_eq_ok.mp h
      simp only at h
      split at h
      · obtain ⟨i, hi, h⟩ := bind_eq_ok.mp h
        cases h
        exact ⟨_, by rw [schemaCreate_inv hi]⟩
      · obtain ⟨_, _, h⟩ := bind_eq_ok.mp h
        obtain ⟨i, hi, h⟩ := bind_eq_ok.mp h
        cases h
        exact ⟨_, by rw [schemaCreate_inv hi]⟩
    rw [hty] at h h'
    obtain ⟨_, e⟩ := hashed h
    obtain ⟨_, e'⟩ := hashed h'
    exact NamesAs.hashes e e'
  | prefixed =>
    rw [hty] at h h'
    simp only at h h'
    generalize (if o.manifestPrefix.isNone = true then o.name else o.manifestPrefix) = m at h h'
    generalize (if o.dataPrefix.isNone = true then o.name else o.dataPrefix) = d at h h'
    split at h
    · cases h
    · rename_i hc
      rw [if_neg hc] at h'
      exact named h h'
  | segmented =>
    rw [hty] at h h'
    simp only at h h'
    generalize (if o.manifestPrefix.isNone = true then o.name else o.manifestPrefix) = m at h h'
    generalize (if o.dataPrefix.isNone = true then o.name else o.dataPrefix) = d at h h'
    split at h
    · cases h
    · rename_i hc
      rw [if_neg hc] at h'
      split at h
      · cases h
      · rename_i hd
        rw [if_neg hd] at h'
        exact named h h'

/-- C102: the data packets depend on the file, how it was read, its names, the expiry time of data and the packet size, and on nothing else:
not on the keys, the signer, the shape of the tree, or what was published before. -/
theorem C102_data {E E' : Env} {L L' : FloatLog} {o o' : TreeOptions} {nc nc' : Nat} {input : Stream} {root root' : Packet}
    {out out' : List Packet} (hE : E'.prims.sha256 = E.prims.sha256) (ho : Spec.SameData o o')
    (h : manifestTree E L o nc input = (.ok root, out)) (h' : manifestTree E' L' o' nc' input = (.ok root', out')) :
    Spec.dataOf out' = Spec.dataOf out := by
  obtain ⟨R⟩ := manifestTree_ok h
  obtain ⟨R'⟩ := manifestTree_ok h'
  rw [R.data, R'.data]
  have hn := namesAs_of_create ho R.ctx_ok R'.ctx_ok
  have ho' : o'.chunk = o.chunk := by unfold TreeOptions.chunk; rw [ho.expiry, ho.size]
  rw [← R.put, ← R'.put, hE, ho', NamesAs.chunkData hn]

/-! ## Manifests -/

/-- The number of the name constructor of the first hash group. -/
def Node.firstNc (n : Node) : Option Nat := (n.hashGroups.head?.bind (·.groupData)).bind (·.ncId)

theorem nameCtx_ids {ty : SchemaType} {nc : Nat} {name mp dp : Option Name} {ml dl : Option (List Link)} {ctx : NameCtx}
    (h : NameCtx.create ty nc name mp dp ml dl = .ok ctx) :
    ctx.manifest.ncId = nc ∧ ctx.data.ncId + 1 = nc + ctx.ncDefs.length := by
  have one : ∀ {i : SchemaImpl} {s : NcSchema} {k : Nat}, SchemaImpl.create k s = .ok i → i.ncId = k := by
    intro i s k hi
    rw [schemaCreate_inv hi]
  have named : ∀ {ty : SchemaType} {m d : Option Name} {b : Bool}, NameCtx.createNamed ty nc m d b = .ok ctx →
      ctx.manifest.ncId = nc ∧ ctx.data.ncId + 1 = nc + ctx.ncDefs.length := by
    intro ty m d b h
    unfold NameCtx.createNamed at h
    split at h
    · obtain ⟨i, hi, h⟩ := bind_eq_ok.mp h
      cases h
      exact ⟨one hi, by simp [NameCtx.ncDefs, one hi]⟩
    · obtain ⟨i, hi, h⟩ := bind_eq_ok.mp h
      obtain ⟨j, hj, h⟩ := bind_eq_ok.mp h
      cases h
      exact ⟨one hi, by simp [NameCtx.ncDefs, one hj]⟩
  unfold NameCtx.create at h
  cases ty with
  | hashed =>
    simp only at h
    unfold NameCtx.createHashed at h
    obtain ⟨root, _, h⟩ := bind_eq_ok.mp h
    simp only at h
    split at h
    · obtain ⟨i, hi, h⟩ := bind_eq_ok.mp h
      cases h
      exact ⟨one hi, by simp [NameCtx.ncDefs, one hi]⟩
    · obtain ⟨i, hi, h⟩ := bind_eq_ok.mp h
      obtain ⟨j, hj, h⟩ := bind_eq_ok.mp h
      cases h
      exact ⟨one hi, by simp [NameCtx.ncDefs, one hj]⟩
  | prefixed =>
    simp only at h
    generalize (if mp.isNone = true then name else mp) = m at h
    generalize (if dp.isNone = true then name else dp) = d at h
    split at h
    · cases h
    · exact named h
  | segmented =>
    simp only at h
    generalize (if mp.isNone = true then name else mp) = m at h
    generalize (if dp.isNone = true then name else dp) = d at h
    split at h
    · cases h
    · split at h
      · cases h
      · exact named h

theorem Ready.weaken {P : Prims} {enc : Option Encryptor} {c : DecryptorCache} (h : c.Ready P enc false) : c.Ready P enc true := by
  unfold DecryptorCache.Ready at h ⊢
  cases enc with
  | none => trivial
  | some enc =>
    cases enc with
    | aead p => exact h
    | oaep p w =>
      obtain ⟨h1, h2, h3, h4⟩ := h
      refine ⟨h1, h2, h3, ?_⟩
      rcases h4 with h4 | ⟨h4, _⟩
      · exact .inl h4
      · cases h4

theorem firstNc_shape {T : TreeEnv} (hs : T.ctx.shared = true → T.ctx.data = T.ctx.manifest) {f : Forest} {lo hi level : Nat}
    (h : f.Valid T lo hi level) : ∀ i ∈ f.written, i.node.firstNc = some T.ctx.data.ncId := by
  induction f generalizing lo hi level with
  | nil => simp [Forest.written]
  | cons i kids rest ih1 ih2 =>
    obtain ⟨_, _, h3, h4, h5, h6⟩ := h
    intro j hj
    simp only [Forest.written, List.mem_append, List.mem_singleton] at hj
    rcases hj with (hj | hj) | rfl
    · exact ih2 h6 j hj
    · exact ih1 h5 j hj
    · obtain ⟨_, ⟨_, _, hn⟩ | ⟨_, _, _, _, hn⟩⟩ := h4
      · rw [hn]; rfl
      · rw [hn]
        unfold TreeEnv.interiorNode TreeEnv.interiorGroups Node.firstNc
        split
        · rename_i hsh
          simp [TreeEnv.group, hs hsh]
        · simp [TreeEnv.group]

/-- The root of a build, opened. -/
theorem FileRun.opens_root {E : Env} {L : FloatLog} {o : TreeOptions} {nc : Nat} {input : Stream} {root : Packet} {out : List Packet}
    (R : FileRun E L o nc input root out) {ks : Option Keystore} (hk : Spec.HasKeys E o nc ks) :
    ∃ n name x sg s s', buildFromNode E o n name x sg true s = (.ok root, s') ∧ n.Fits64 ∧ n.firstNc = some nc := by
  obtain ⟨hv, c, node, m, H⟩ := R.root_read hk.aead hk.oaep hk.rsa hk.verify hk.decrypt hk.counter
  obtain ⟨n, name, x, sg, s, s', hbd, rfl, hfit⟩ := H.made
  obtain ⟨gd, ps, f1, f2⟩ := H.first
  refine ⟨_, _, _, _, _, _, hbd, hfit, ?_⟩
  have e : n.hashGroups = n.toBytes.hashGroups := rfl
  unfold Node.firstNc
  rw [e, f1]
  exact f2.trans (congrArg some (nameCtx_ids R.ctx_ok).1)

/-- The manifests of a build, opened. -/
theorem FileRun.opens {E : Env} {L : FloatLog} {o : TreeOptions} {nc : Nat} {input : Stream} {root : Packet} {out : List Packet}
    (R : FileRun E L o nc input root out) {ks : Option Keystore} (hk : Spec.HasKeys E o nc ks) (hty : o.schemaType ≠ .segmented)
    {p : Packet} (hp : p ∈ out) (hm : p.body.payloadType = some PT_MANIFEST) :
    ∃ n name x sg full s s', buildFromNode E o n name x sg full s = (.ok p, s') ∧ n.Fits64 ∧
      ∃ k, n.firstNc = some k ∧ nc ≤ k ∧ k < nc + R.ctx.ncDefs.length := by
  obtain ⟨ids, level, i, kids, h1, h2, h3, h4, h5, h6, h7, hout⟩ := R.forest
  obtain ⟨hg, hn1, hn2⟩ := nameCtx_good R.ctx_ok
  obtain ⟨hb, hnum, _⟩ := R.fits
  have hnc := hk.counter
  obtain ⟨g1, g2⟩ := nameCtx_ids R.ctx_ok
  have hseg : R.ctx.manifest.usesNameId = false := by
    simpa using fun hu => hty ((nameCtx_inv R.ctx_ok).2.2.mp hu)
  have hlen : 1 ≤ R.ctx.ncDefs.length := by
    unfold NameCtx.ncDefs
    split <;> simp
  rw [hout] at hp
  rcases List.mem_append.mp hp with hp | hp
  · rcases List.mem_append.mp hp with hp | hp
    · obtain ⟨k, hk, rfl⟩ := List.getElem_of_mem hp
      obtain ⟨c1, c2, c3⟩ := chunked_get R.chunked
      obtain ⟨q, b, q1, _, _, _, q5, q6, q7, q8, q9⟩ := c3 k _ (List.getElem?_eq_getElem (by omega))
      rw [List.getElem?_eq_getElem hk] at q1
      cases q1
      rw [q7] at hm
      cases hm
    · have hfits := forest_fits hnum hb (by show R.ctx.manifest.ncId < _; omega) (by show R.ctx.data.ncId < _; omega) h2
        (fun hu => by rw [show R.env.ctx.manifest.usesNameId = false from hseg] at hu; cases hu)
      obtain ⟨j, hj, rfl⟩ := List.mem_map.mp hp
      obtain ⟨hh, name, s, s', hnm, hbd⟩ := h2.made j hj
      refine ⟨_, _, _, _, _, _, _, hbd, (hfits j hj).1, _, firstNc_shape (fun h => ((nameCtx_inv R.ctx_ok).1 h).1) h2 j hj, ?_, ?_⟩
      · show nc ≤ R.ctx.data.ncId
        omega
      · show R.ctx.data.ncId < _
        omega
  · cases List.mem_singleton.mp hp
    obtain ⟨n, name, x, sg, s, s', hbd, hfit, hf⟩ := R.opens_root hk
    exact ⟨_, _, _, _, _, _, _, hbd, hfit, nc, hf, by omega, by omega⟩

/-- Two manifests of the same bytes, encrypted alike, were made from the same node. -/
theorem same_node {E E' : Env} {o o' : TreeOptions} {ks : Option Keystore} (hE : E'.prims = E.prims) (hA : E.prims.AeadLaw)
    (he : o'.encryptor = o.encryptor) (hd : Spec.CanDecrypt E.prims ks o.encryptor) {t : TState} (ht : t.cache.Ready E.prims o.encryptor false)
    {p q : Packet} {n n' : Node} {name name' : Option Name} {x x' : Option F64} {sg sg' : Option Signer} {full full' : Bool} {s s' u u' : BState}
    (hp : buildFromNode E o n name x sg full s = (.ok p, s')) (hq : buildFromNode E' o' n' name' x' sg' full' u = (.ok q, u'))
    (hn : n.Fits64) (hn' : n'.Fits64) (h : Alike p q) : n.toBytes = n'.toBytes := by
  have hr : ∀ b, t.cache.Ready E.prims o.encryptor b := fun b => by
    cases b
    · exact ht
    · exact Ready.weaken ht
  obtain ⟨m, m', c, r1, r2, rfl, _⟩ := read_manifest hA hd hn hp (T := ⟨E.prims, fun _ _ => .error .keyError, ks⟩) rfl rfl (hr full)
  obtain ⟨k, k', d, l1, l2, rfl, _⟩ := read_manifest (E := E') (o := o') (by rw [hE]; exact hA) (by rw [hE, he]; exact hd) hn' hq
    (T := ⟨E.prims, fun _ _ => .error .keyError, ks⟩) hE.symm rfl (t := t) (by rw [hE, he]; exact hr full')
  have hmk : m = k := by
    unfold Manifest.fromContentObject at r1 l1
    rw [h.1, h.2] at r1
    exact Except.ok.inj (r1.symm.trans l1)
  subst hmk
  rw [r2] at l2
  exact ManifestNode.plain.inj (congrArg Manifest.node (Except.ok.inj (Prod.mk.inj l2).1))

/-- Reading the root leaves a cache that opens every manifest of the file. -/
theorem FileRun.cache {E : Env} {L : FloatLog} {o : TreeOptions} {nc : Nat} {input : Stream} {root : Packet} {out : List Packet}
    (R : FileRun E L o nc input root out) {ks : Option Keystore} (hk : Spec.HasKeys E o nc ks) :
    ∃ t : TState, t.cache.Ready E.prims o.encryptor false := by
  obtain ⟨hv, c, node, m, H⟩ := R.root_read hk.aead hk.oaep hk.rsa hk.verify hk.decrypt hk.counter
  exact ⟨{ TState.new ks with cache := c }, H.ready⟩

theorem built_hash {E : Env} {o : TreeOptions} {n : Node} {name : Option Name} {x : Option F64} {sg : Option Signer} {full : Bool} {s s' : BState}
    {p : Packet} (h : buildFromNode E o n name x sg full s = (.ok p, s')) : ∃ hv, p.hash E.prims.sha256 = .ok hv := by
  obtain ⟨_, _, w, _, _, _, _, hs, _⟩ := buildFromNode_inv h
  obtain ⟨_, _, _, _, w, hw, _⟩ := Packet.created (signPacket_created hs)
  exact Packet.hash_of_serialize hw

theorem differ_of {P : Prims} {p q : Packet} {hv hv' : HashValue} (hp : p.hash P.sha256 = .ok hv) (hq : q.hash P.sha256 = .ok hv')
    (h : ¬ Alike p q) : Spec.Differ p q := by
  obtain ⟨x, hx, _⟩ := hash_input hp
  obtain ⟨y, hy, _⟩ := hash_input hq
  refine ⟨x, y, hx, hy, ?_⟩
  rintro rfl
  exact h (alike_of_hashInput hx hy)

/-- C102: the root manifest contains the number of the name constructor, which is a counter of the process.  So two builds with different
counters, of the same file with the same options or of different ones, never have the same root, with whatever schemas. -/
theorem C102_root {E E' : Env} {L L' : FloatLog} {o o' : TreeOptions} {nc nc' : Nat} {input input' : Stream} {root root' : Packet}
    {out out' : List Packet} {ks : Option Keystore} (hE : E'.prims = E.prims) (he : o'.encryptor = o.encryptor)
    (h : manifestTree E L o nc input = (.ok root, out)) (h' : manifestTree E' L' o' nc' input' = (.ok root', out'))
    (hk : Spec.HasKeys E o nc ks) (hk' : Spec.HasKeys E' o' nc' ks) (hnc : nc ≠ nc') : Spec.Differ root root' := by
  obtain ⟨R⟩ := manifestTree_ok h
  obtain ⟨R'⟩ := manifestTree_ok h'
  obtain ⟨n, name, x, sg, s, s', b, f, e⟩ := R.opens_root hk
  obtain ⟨n', name', x', sg', u, u', b', f', e'⟩ := R'.opens_root hk'
  obtain ⟨t, ht⟩ := R.cache hk
  obtain ⟨hv, hh⟩ := R.root_hash
  obtain ⟨hv', hh'⟩ := R'.root_hash
  refine differ_of hh (by rw [← hE]; exact hh') fun ha => hnc ?_
  have hnn := same_node hE hk.aead he hk.decrypt ht b b' f f' ha
  have : n.toBytes.hashGroups = n'.toBytes.hashGroups := by rw [hnn]
  change n.hashGroups = n'.hashGroups at this
  unfold Node.firstNc at e e'
  rw [this] at e
  exact Option.some.inj (e.symm.trans e')

/-- C102: with the Hashed or Prefix schemas every manifest contains such a number.  So if the second build comes after the name constructors
of the first have been numbered, no manifest of one build is a manifest of the other, while the data packets, by `C102_data`, are the same
if the file is. -/
theorem C102_manifests {E E' : Env} {L L' : FloatLog} {o o' : TreeOptions} {nc nc' : Nat} {input input' : Stream} {root root' : Packet}
    {out out' : List Packet} {ks : Option Keystore} (hE : E'.prims = E.prims) (he : o'.encryptor = o.encryptor)
    (hty : o.schemaType ≠ .segmented) (hty' : o'.schemaType ≠ .segmented)
    (h : manifestTree E L o nc input = (.ok root, out)) (h' : manifestTree E' L' o' nc' input' = (.ok root', out'))
    (hk : Spec.HasKeys E o nc ks) (hk' : Spec.HasKeys E' o' nc' ks)
    (hnc : ∀ ctx, NameCtx.create o.schemaType nc o.name o.manifestPrefix o.dataPrefix o.manifestLocators o.dataLocators = .ok ctx →
      nc + ctx.ncDefs.length ≤ nc') :
    ∀ p ∈ out, p.body.payloadType = some PT_MANIFEST → ∀ q ∈ out', q.body.payloadType = some PT_MANIFEST → Spec.Differ p q := by
  obtain ⟨R⟩ := manifestTree_ok h
  obtain ⟨R'⟩ := manifestTree_ok h'
  obtain ⟨t, ht⟩ := R.cache hk
  intro p hp hpm q hq hqm
  obtain ⟨n, name, x, sg, full, s, s', b, f, k, e, k1, k2⟩ := R.opens hk hty hp hpm
  obtain ⟨n', name', x', sg', full', u, u', b', f', k', e', k1', k2'⟩ := R'.opens hk' hty' hq hqm
  obtain ⟨hv, hh⟩ := built_hash b
  obtain ⟨hv', hh'⟩ := built_hash b'
  refine differ_of hh (by rw [← hE]; exact hh') fun ha => ?_
  have hnn := same_node hE hk.aead he hk.decrypt ht b b' f f' ha
  have : n.toBytes.hashGroups = n'.toBytes.hashGroups := by rw [hnn]
  change n.hashGroups = n'.hashGroups at this
  unfold Node.firstNc at e e'
  rw [this] at e
  have := Option.some.inj (e.symm.trans e')
  have := hnc _ R.ctx_ok
  omega

/-! ## The hypotheses can be met -/

/-- Two runs, with how many data packets each and how many manifests. -/
def Toy.twice : Option (Nat × Nat × Nat × Nat) :=
  match manifestTree Toy.env Spec.exactLog (Toy.options .prefixed true) 1 (Toy.shortReads 32),
    manifestTree Toy.env Spec.exactLog (Toy.options .prefixed true) 3 (Toy.shortReads 32) with
  | (.ok _, out), (.ok _, out') => some ((Spec.dataOf out).length, out.length, (Spec.dataOf out').length, out'.length)
  | _, _ => none

set_option maxRecDepth 100000 in
/-- C102: an encrypted file of eight data packets and several manifests, published twice by one process. -/
example : ∃ root out root' out', manifestTree Toy.env Spec.exactLog (Toy.options .prefixed true) 1 (Toy.shortReads 32) = (.ok root, out) ∧
    manifestTree Toy.env Spec.exactLog (Toy.options .prefixed true) 3 (Toy.shortReads 32) = (.ok root', out') ∧
    (Spec.dataOf out).length = 8 ∧ 10 < out.length ∧ Spec.SameData (Toy.options .prefixed true) (Toy.options .prefixed true) ∧
    Spec.HasKeys Toy.env (Toy.options .prefixed true) 1 (some Toy.aesKeys) ∧
    Spec.HasKeys Toy.env (Toy.options .prefixed true) 3 (some Toy.aesKeys) ∧
    ∀ ctx, NameCtx.create .prefixed 1 (Toy.options .prefixed true).name (Toy.options .prefixed true).manifestPrefix
      (Toy.options .prefixed true).dataPrefix (Toy.options .prefixed true).manifestLocators
      (Toy.options .prefixed true).dataLocators = .ok ctx → 1 + ctx.ncDefs.length ≤ 3 := by
  have hk : ∀ nc, nc + 1 < 2 ^ 64 → Spec.HasKeys Toy.env (Toy.options .prefixed true) nc (some Toy.aesKeys) := fun nc hnc =>
    ⟨Toy.aeadLaw, fun _ _ _ _ => rfl, fun der d => by show (d == d) = true; exact beq_self_eq_true d, trivial, Toy.canDecrypt,
      Toy.plain ⟨rfl, rfl, rfl⟩, hnc⟩
  have hm : (Toy.twice.map fun x => x.1 == 8 && decide (10 < x.2.1)) = some true := by decide +kernel
  unfold Toy.twice at hm
  rcases h : manifestTree Toy.env Spec.exactLog (Toy.options .prefixed true) 1 (Toy.shortReads 32) with ⟨e | root, out⟩
  · rw [h] at hm
    cases hm
  · rcases h' : manifestTree Toy.env Spec.exactLog (Toy.options .prefixed true) 3 (Toy.shortReads 32) with ⟨e | root', out'⟩
    · rw [h, h'] at hm
      cases hm
    · rw [h, h'] at hm
      simp only [Option.map_some, Option.some.injEq, Bool.and_eq_true, beq_iff_eq, decide_eq_true_eq] at hm
      refine ⟨root, out, root', out', rfl, rfl, hm.1, hm.2, ⟨rfl, rfl, rfl, rfl, rfl, rfl⟩, hk 1 (by decide), hk 3 (by decide), ?_⟩
      intro ctx _
      unfold NameCtx.ncDefs
      split <;> simp

end Ccnpy
