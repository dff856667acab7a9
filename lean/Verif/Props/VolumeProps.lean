import Verif.Props.RunProps
import Verif.Props.StorageProps
import Verif.Props.ContextProps
import Verif.Props.CountProps

/-!
# C119: what publishing a file costs in bytes

With hashed or prefix names and no size annotations, the bytes of everything a build writes below the root manifest follow from
four numbers: the length of the file, its chunks, its manifests and their hash groups.
-/

namespace Ccnpy

/-! ## Specification -/

/-- The bytes of the name field of a packet: type and length, then type, length and value of every component. -/
def Spec.nameField (n : Option Name) : Nat :=
  match n with
  | none => 0
  | some n => 4 + (n.components.map (fun c => 4 + c.value.length)).sum

/-- The bytes of an expiry time: type, length, 64 bits. -/
def Spec.expiryField (x : Option F64) : Nat := if x.isSome then 12 else 0

/-- The bytes of some packets. -/
def Spec.volume (ps : List Packet) : Nat := (ps.map Spec.size).sum

/-! ## Helpers -/

theorem nameField_tlvs {n : Option Name} {l : List Tlv} (h : optTlv Name.tlv n = .ok l) : (bytesAll l).length = Spec.nameField n := by
  cases n with
  | none => cases h; rfl
  | some n =>
    obtain ⟨t, ht, rfl⟩ := optTlv_some h
    have := nameLength_tlv ht
    unfold Spec.nameLength at this
    simp only [bytesAll_cons, bytesAll_nil, List.append_nil, Tlv.bytes_length, Tlv.len, Tlv.length, Spec.nameField, this]

theorem nameField_wire {n : Option Name} {w : Bytes} (h : optWire Name.tlv n = .ok w) : w.length = Spec.nameField n := by
  obtain ⟨l, hl, _, rfl⟩ := optWire_ok h
  exact nameField_tlvs hl

theorem size_of_len {p : Packet} {n : Nat} (h : p.len = .ok n) : Spec.size p = n := by
  unfold Packet.len at h
  obtain ⟨v, hv, h⟩ := bind_eq_ok.mp h
  unfold Spec.size
  rw [hv]
  exact Except.ok.inj h

theorem dataObject_size {p : Packet} {name : Option Name} {b : Bytes} {x : Option F64} (hb : p.body = dataBody name b x none)
    (h : Packet.createContentObject p.body = .ok p) :
    Spec.size p = 21 + Spec.nameField name + Spec.expiryField x + b.length := by
  obtain ⟨t, ht, _⟩ := createContentObject_inv h
  have hcd : ContentObject.createData name (some b) x none = .ok p.body := by
    rw [createData_eq, hb]
    rw [hb] at ht
    exact construct_ok ht
  obtain ⟨_, _, _, _, hl, ⟨l, hn⟩, l', hx⟩ := createDataPacket hcd h
  rw [size_of_len hl]
  unfold dataLen
  rw [optLen_ok hn, optLen_ok hx, nameField_tlvs hn, expiry_len hx]
  show _ + 0 = _
  unfold Spec.expiryField
  omega

/-- How much longer a manifest is than its node: a number that depends on the keys only. -/
theorem buildManifest_extra {E : Env} (o : TreeOptions) (hR : o.encryptor ≠ none → Regular E) :
    ∃ c, (o.encryptor = none → c = 0) ∧ ∀ (node : Node) (s s1 : BState) (m : Manifest) (w : Bytes) (t : Tlv),
      buildManifest E o node false s = (.ok m, s1) → m.serialize = .ok w → node.tlv = .ok t → w.length = t.len + c := by
  have hge : ∀ (node : Node) (s s1 : BState) (m : Manifest) (w : Bytes) (t : Tlv),
      buildManifest E o node false s = (.ok m, s1) → m.serialize = .ok w → node.tlv = .ok t →
      t.len ≤ w.length ∧ (o.encryptor = none → w.length = t.len) := by
    intro node s s1 m w t h hw ht
    unfold buildManifest at h
    cases ho : o.encryptor with
    | none =>
      simp only [ho] at h
      obtain ⟨_, _, h⟩ := PyS.liftBind_ok h
      cases h
      obtain ⟨ms, hms, hv⟩ := bind_eq_ok.mp hw
      obtain ⟨_, rfl⟩ := concatTlvs_ok hv
      obtain ⟨l1, h1, hms⟩ := bind_eq_ok.mp hms
      obtain ⟨t2, h2, hms⟩ := bind_eq_ok.mp hms
      obtain ⟨l3, h3, hms⟩ := bind_eq_ok.mp hms
      cases hms
      cases h1
      cases h3
      have h2 : node.tlv = .ok t2 := h2
      rw [ht] at h2
      cases h2
      simp [Tlv.bytes_length]
    | some enc =>
      refine ⟨?_, fun h => by cases h⟩
      cases enc with
      | aead params =>
        simp only [ho] at h
        obtain ⟨_, _, _, h⟩ := PyS.bind_ok h
        obtain ⟨_, _, _, h⟩ := PyS.bind_ok h
        obtain ⟨h, _⟩ := PyS.lift_ok h
        obtain ⟨x, hx, h⟩ := bind_eq_ok.mp h
        obtain ⟨d, hd, hx⟩ := aeadEncrypt_ok hx
        obtain ⟨_, tc, htc, e1⟩ := encryptWithCtx_len (hR (by rw [ho]; exact nofun)).tag hx h hw ht
        omega
      | oaep params wrapper =>
        simp only [ho] at h
        obtain ⟨_, _, _, h⟩ := PyS.bind_ok h
        obtain ⟨_, _, _, h⟩ := PyS.bind_ok h
        obtain ⟨h, _⟩ := PyS.lift_ok h
        obtain ⟨x, hx, h⟩ := bind_eq_ok.mp h
        obtain ⟨d, hd, hx⟩ := oaepEncrypt_ok hx
        obtain ⟨_, tc, htc, e1⟩ := encryptWithCtx_len (hR (by rw [ho]; exact nofun)).tag hx h hw ht
        omega
  by_cases hex : ∃ (node : Node) (s s1 : BState) (m : Manifest) (w : Bytes) (t : Tlv),
      buildManifest E o node false s = (.ok m, s1) ∧ m.serialize = .ok w ∧ node.tlv = .ok t
  · obtain ⟨node, s, s1, m, w, t, a1, a2, a3⟩ := hex
    obtain ⟨g1, g2⟩ := hge node s s1 m w t a1 a2 a3
    refine ⟨w.length - t.len, fun h => by have := g2 h; omega, ?_⟩
    intro node' s' s1' m' w' t' b1 b2 b3
    by_cases ho : o.encryptor = none
    · have := g2 ho
      have := (hge node' s' s1' m' w' t' b1 b2 b3).2 ho
      omega
    · have := buildManifest_len (hR ho) a1 b1 a2 b2 a3 b3
      omega
  · refine ⟨0, fun _ => rfl, ?_⟩
    intro node s s1 m w t a1 a2 a3
    exact absurd ⟨node, s, s1, m, w, t, a1, a2, a3⟩ hex

theorem plainGroup_len {T : TreeEnv} (h1 : T.opts.addGroupSubtreeSize = false) (h2 : T.opts.addGroupLeafSize = false) {nc direct indirect : Nat}
    (hnc : nc < 256) {ps : List HashValue} {t : Tlv} (hp : ∀ h ∈ ps, h.value.length = 32)
    (h : (T.group nc none direct indirect ps).tlv = .ok t) : t.len = 17 + 36 * ps.length := by
  have := hashGroup_len hp h
  rw [this]
  have hw : numWidth nc = 1 := by unfold numWidth; rw [if_pos (by omega)]
  simp only [groupLen, intLen, h1, h2, Bool.false_eq_true, if_false, hw]

/-- The bytes of the node of one manifest of the tree. -/
theorem plainNode_len {T : TreeEnv} {i : Info} {kids : Forest} {level : Nat} {t : Tlv}
    (h0 : T.opts.addNodeSubtreeSize = false) (h1 : T.opts.addGroupSubtreeSize = false) (h2 : T.opts.addGroupLeafSize = false)
    (hum : T.ctx.manifest.usesNameId = false) (hud : T.ctx.data.usesNameId = false)
    (hmi : T.ctx.manifest.ncId < 256) (hdi : T.ctx.data.ncId < 256)
    (hsha : ∀ b, (T.env.prims.sha256 b).length = 32) (hch : ∀ c ∈ T.chunks, c.hash.value.length = 32)
    (hs : i.Shape T kids) (hv : kids.Valid T (i.lo + i.count) i.hi level) (hhi : i.hi ≤ T.chunks.length) (ht : i.node.tlv = .ok t) :
    t.len = 4 + 17 * i.node.hashGroups.length + 36 * (i.count + kids.roots.length) := by
  have hle := hv.le
  have hslice : ∀ a b, ∀ h ∈ T.sliceHashes a b, h.value.length = 32 := by
    intro a b h hh
    obtain ⟨c, hc, rfl⟩ := List.mem_map.mp hh
    exact hch c (List.mem_of_mem_drop (List.mem_of_mem_take hc))
  have hlen : (T.sliceHashes i.lo (i.lo + i.count)).length = i.count := by
    unfold TreeEnv.sliceHashes
    rw [List.length_map, slice_length T (by omega)]
    omega
  have hsd : ∀ x, (T.sizeData x) = (none : Option Nat).map (fun n => { subtreeSize := some n }) := by
    intro x
    unfold TreeEnv.sizeData
    rw [h0]
    rfl
  obtain ⟨_, ⟨rfl, _, hnode⟩ | ⟨_, _, _, _, hnode⟩⟩ := hs
  · rw [hnode] at ht ⊢
    unfold TreeEnv.leafNode at ht ⊢
    rw [hsd, hum] at ht
    obtain ⟨l, hl, e⟩ := node_len ht
    obtain ⟨t1, r, ht1, hr, rfl⟩ := listTlv_cons_ok hl
    cases hr
    have g1 := plainGroup_len h1 h2 hdi (hslice _ _) ht1
    rw [hlen] at g1
    simp only [bytesAll_cons, bytesAll_nil, List.append_nil, Tlv.bytes_length] at e
    simp only [List.length_cons, List.length_nil, Forest.roots, dataLenOf] at e ⊢
    omega
  · have hkh : ∀ h ∈ kids.roots.map (·.hash), h.value.length = 32 := by
      intro h hh
      obtain ⟨k, hk', rfl⟩ := List.mem_map.mp hh
      exact packetHash_len hsha (hv.made k (Forest.roots_mem hk')).1
    rw [hnode] at ht ⊢
    unfold TreeEnv.interiorNode at ht ⊢
    simp only at ht ⊢
    rw [hsd] at ht
    obtain ⟨l, hl, e⟩ := node_len ht
    unfold TreeEnv.interiorGroups at hl ⊢
    cases hsh : T.ctx.shared with
    | true =>
      rw [hsh] at hl
      obtain ⟨t1, r, ht1, hr, rfl⟩ := listTlv_cons_ok hl
      cases hr
      have g1 := plainGroup_len h1 h2 hmi (by
        intro h hh
        rcases List.mem_append.mp hh with hh | hh
        · exact hslice _ _ h hh
        · exact hkh h hh) ht1
      rw [List.length_append, hlen, List.length_map] at g1
      simp only [bytesAll_cons, bytesAll_nil, List.append_nil, Tlv.bytes_length] at e
      simp only [if_true, List.length_cons, List.length_nil, dataLenOf] at e ⊢
      omega
    | false =>
      rw [hsh, hum, hud] at hl
      obtain ⟨t1, r, ht1, hr, rfl⟩ := listTlv_cons_ok hl
      obtain ⟨t2, r2, ht2, hr2, rfl⟩ := listTlv_cons_ok hr
      cases hr2
      have g1 := plainGroup_len h1 h2 hdi (hslice _ _) ht1
      have g2 := plainGroup_len h1 h2 hmi hkh ht2
      rw [hlen] at g1
      rw [List.length_map] at g2
      simp only [bytesAll_cons, bytesAll_nil, List.append_nil, Tlv.bytes_length, List.length_append] at e
      simp only [Bool.false_eq_true, if_false, List.length_cons, List.length_nil, dataLenOf] at e ⊢
      omega

/-- The bytes of a forest of manifests, if each has `a` bytes apart from its groups and pointers. -/
theorem Forest.Valid.volume {T : TreeEnv} {a : Nat} {f : Forest} {lo hi level : Nat} (h : f.Valid T lo hi level)
    (hn : hi ≤ T.chunks.length)
    (hone : ∀ (i : Info) (kids : Forest) (level : Nat), i.Made T → i.Shape T kids → kids.Valid T (i.lo + i.count) i.hi level →
      i.hi ≤ T.chunks.length → Spec.size i.packet = a + 17 * i.node.hashGroups.length + 36 * (i.count + kids.roots.length)) :
    Spec.volume (f.written.map (·.packet)) + 36 * f.roots.length =
      f.written.length * (a + 36) + 36 * (hi - lo) + 17 * (f.written.map (fun i => i.node.hashGroups.length)).sum := by
  induction f generalizing lo hi level with
  | nil =>
    have h : lo = hi := h
    subst h
    simp [Forest.written, Forest.roots, Spec.volume]
  | cons i kids rest ihk ihr =>
    obtain ⟨_, rfl, h3, h4, h5, h6⟩ := h
    have l5 := h5.le
    have l6 := h6.le
    have e1 := ihk h5 (by omega)
    have e2 := ihr h6 hn
    have e3 := hone i kids _ h3 h4 h5 (by omega)
    unfold Spec.volume at e1 e2 ⊢
    simp only [Forest.written, Forest.roots, List.map_append, List.sum_append, List.map_cons, List.map_nil, List.sum_cons, List.sum_nil,
      List.length_append, List.length_cons, List.length_nil, Nat.add_zero, Nat.zero_add, Nat.add_mul, Nat.one_mul, Nat.mul_add, e3] at e1 e2 ⊢
    omega

theorem chunked_volume {sha : Bytes → Bytes} {i : SchemaImpl} {x : Option F64} {dn : Option Name} {k : Nat} {bs : List Bytes} {ps : List Packet}
    {ms : List ChunkMetadata} (hi : Spec.chunkIdSchema i.schema = false) (hn : ∀ (j : Nat) nm, i.getName (some (j : Int)) = .ok nm → nm = dn)
    (h : Spec.Chunked sha i x k bs ps ms) : (∀ p ∈ ps, p.body.name = dn) ∧
      Spec.volume ps = bs.flatten.length + ps.length * (21 + Spec.nameField dn + Spec.expiryField x) := by
  induction bs generalizing k ps ms with
  | nil => cases ps <;> cases ms <;> simp_all [Spec.Chunked, Spec.volume]
  | cons b bs ih =>
    cases ps <;> cases ms <;> simp only [Spec.Chunked] at h
    rename_i p ps m ms
    obtain ⟨_, _, _, _, h5, h6, h7, _, ⟨_, h9⟩, h10, h11, h12⟩ := h
    obtain ⟨i1, i2⟩ := ih h12
    have hname := hn _ _ h10
    have hbody : p.body = dataBody dn b x none := by
      rw [hi] at h11
      simp only [Bool.false_eq_true, and_false, if_false] at h11
      rw [← hname, ← h7]
      unfold dataBody
      rw [← h5, ← h6, ← h11]
    have hs := dataObject_size hbody h9
    refine ⟨?_, ?_⟩
    · intro q hq
      rcases List.mem_cons.mp hq with rfl | hq
      · exact hname
      · exact i1 q hq
    · unfold Spec.volume at i2 ⊢
      simp only [List.map_cons, List.sum_cons, List.flatten_cons, List.length_append, List.length_cons, Nat.add_mul, Nat.one_mul, hs, i2]
      omega

/-- The one name of a schema without ids. -/
theorem getName_const {i : SchemaImpl} (hu : i.usesNameId = false) :
    ∃ dn, ∀ (j : Nat) nm, i.getName (some (j : Int)) = .ok nm → nm = dn := by
  cases hs : i.schema with
  | hash l f =>
    refine ⟨none, fun j nm h => ?_⟩
    rcases getName_inv h with ⟨_, _, _, e⟩ | ⟨_, _, e⟩ | ⟨_, _, _, _, e, _⟩
    · exact e
    · rw [hs] at e; cases e
    · rw [hs] at e; cases e
  | prefixed p l f =>
    refine ⟨p, fun j nm h => ?_⟩
    rcases getName_inv h with ⟨_, _, e, _⟩ | ⟨_, _, e⟩ | ⟨_, _, _, _, e, _⟩
    · rw [hs] at e; cases e
    · rw [hs] at e; cases e; rfl
    · rw [hs] at e; cases e
  | segmented p st l f =>
    unfold SchemaImpl.usesNameId at hu
    rw [hs] at hu
    cases hu

/-! ## The property -/

/-- C119: what a build writes below the root, with hashed or prefix names, no size annotations and name constructor ids of one byte: the
file; for each chunk 21 bytes, the name and the expiry time; for each manifest 25 bytes, the name, the expiry time and a number `c`
that depends on the keys only and is zero without encryption; 17 bytes for each hash group, of which a manifest has one or two; and 36
bytes for each chunk and each manifest but the top one. -/
theorem C119_volume (E : Env) (o : TreeOptions) (hsha : ∀ b, (E.prims.sha256 b).length = 32) (hreg : o.encryptor ≠ none → Regular E)
    (hty : o.schemaType ≠ .segmented) (hann : o.addNodeSubtreeSize = false ∧ o.addGroupSubtreeSize = false ∧ o.addGroupLeafSize = false) :
    ∃ c, (o.encryptor = none → c = 0) ∧ ∀ (L : FloatLog) (nc : Nat) (input : Stream) (root : Packet) (out : List Packet),
      nc + 1 < 256 → manifestTree E L o nc input = (.ok root, out) →
      ∃ (data : List Packet) (made : List Built) (dn mn : Option Name), out = data ++ made.map (·.packet) ++ [root] ∧
        1 ≤ data.length ∧ 1 ≤ made.length ∧
        (∀ p ∈ data, p.body.payloadType = some PT_DATA ∧ p.body.name = dn) ∧
        (∀ b ∈ made, b.packet.body.payloadType = some PT_MANIFEST ∧ b.packet.body.name = mn ∧
          (b.node.hashGroups.length = 1 ∨ b.node.hashGroups.length = 2) ∧
          ∃ s s', buildFromNode E o b.node mn o.manifestExpiry none false s = (.ok b.packet, s')) ∧
        (o.schemaType = .hashed → dn = none ∧ mn = none) ∧
        (o.schemaType = .hashed → o.manifestLocators = o.dataLocators → ∀ b ∈ made, b.node.hashGroups.length = 1) ∧
        Spec.volume out + 36 = Spec.size root + input.rest.length +
          data.length * (21 + Spec.nameField dn + Spec.expiryField o.dataExpiry + 36) +
          made.length * (25 + Spec.nameField mn + Spec.expiryField o.manifestExpiry + c + 36) +
          17 * (made.map (fun b => b.node.hashGroups.length)).sum := by
  obtain ⟨c, hc0, hc⟩ := buildManifest_extra o hreg
  refine ⟨c, hc0, ?_⟩
  intro L nc input root out hnc h
  obtain ⟨R⟩ := manifestTree_ok h
  obtain ⟨ids, level, i, kids, _, h2, _, _, _, _, _, hout⟩ := R.forest
  have hi := nameCtx_inv R.ctx_ok
  have hum : R.ctx.manifest.usesNameId = false := by simpa using fun hu => hty (hi.2.2.mp hu)
  have hud : R.ctx.data.usesNameId = false := hi.2.1.trans hum
  obtain ⟨_, hmi, hdi⟩ := nameCtx_good R.ctx_ok
  obtain ⟨dn, hdn⟩ := getName_const hud
  obtain ⟨mn, hmn⟩ := getName_const hum
  have hcs : Spec.chunkIdSchema R.ctx.data.schema = false := by
    rw [← usesFinalChunkId_eq]
    unfold SchemaImpl.usesNameId at hud
    unfold SchemaImpl.usesFinalChunkId
    split at hud <;> simp_all
  obtain ⟨d1, d2⟩ := chunked_volume hcs hdn R.chunked
  obtain ⟨cl1, cl2, _⟩ := chunked_get R.chunked
  have hone : ∀ (i : Info) (kids : Forest) (level : Nat), i.Made R.env → i.Shape R.env kids →
      kids.Valid R.env (i.lo + i.count) i.hi level → i.hi ≤ R.env.chunks.length →
      Spec.size i.packet = (25 + Spec.nameField mn + Spec.expiryField o.manifestExpiry + c) + 17 * i.node.hashGroups.length +
        36 * (i.count + kids.roots.length) := by
    intro i kids level hm hs hv hhi
    obtain ⟨_, name, s, s', hname, hb⟩ := hm
    obtain ⟨m, s1, w, n, hbm, hw, hnw, _, hl⟩ := buildFromNode_len hb
    obtain ⟨t, ht⟩ := buildManifest_node hbm
    have e1 := hc _ _ _ _ _ _ hbm hw ht
    have e2 := plainNode_len (T := R.env) hann.1 hann.2.1 hann.2.2 hum hud (by simp only [FileRun.env]; omega)
      (by simp only [FileRun.env]; omega) hsha (by
        intro ch hch
        obtain ⟨p, _, hp⟩ := chunked_hashes R.chunked ch hch
        exact packetHash_len hsha hp) hs hv hhi ht
    have e3 := nameField_wire hnw
    rw [hmn _ _ hname] at e3
    rw [size_of_len hl]
    have e4 : (if R.env.opts.manifestExpiry.isSome = true then 12 else 0) = Spec.expiryField o.manifestExpiry := rfl
    rw [e4]
    omega
  have hvol := h2.volume (Nat.le_refl _) hone
  refine ⟨R.ps, (kids.written ++ [i]).map Info.built, dn, mn, ?_, ?_, ?_, ?_, ?_, ?_, ?_, ?_⟩
  · exact hout.trans (by rw [List.map_map]; rfl)
  · have := R.nonempty; omega
  · simp
  · exact fun p hp => ⟨chunked_type R.chunked p hp, d1 p hp⟩
  · intro b hb
    obtain ⟨j, hj, rfl⟩ := List.mem_map.mp hb
    have hj' : j ∈ (Forest.cons i kids .nil).written := by simpa [Forest.written] using hj
    obtain ⟨_, name, s, s', hname, hbuild⟩ := h2.made j hj'
    obtain ⟨ks, l, hs, _⟩ := h2.each j hj'
    obtain rfl := hmn _ _ hname
    obtain ⟨_, _, w, _, _, _, hbody, _⟩ := buildFromNode_inv hbuild
    refine ⟨?_, ?_, ?_, s, s', hbuild⟩
    · show j.packet.body.payloadType = _
      rw [hbody]; rfl
    · show j.packet.body.name = _
      rw [hbody]; rfl
    · obtain ⟨_, ⟨_, _, hnode⟩ | ⟨_, _, _, _, hnode⟩⟩ := hs
      · simp [Info.built, hnode, TreeEnv.leafNode]
      · simp only [Info.built, hnode, TreeEnv.interiorNode, TreeEnv.interiorGroups]
        split <;> simp
  · intro hh
    have hctx := R.ctx_ok
    rw [hh] at hctx
    obtain ⟨⟨l, hl⟩, l', hl'⟩ := nameCtx_hashed hctx
    constructor
    · exact (hdn 0 none (by unfold SchemaImpl.getName; rw [hl'])).symm
    · exact (hmn 0 none (by unfold SchemaImpl.getName; rw [hl])).symm
  · intro hh hl b hb
    have hctx := R.ctx_ok
    rw [hh] at hctx
    obtain ⟨n, t, x, y, _, _, hx, hy, _, hsh⟩ := (C71_hashed ..).mp hctx
    rw [hl] at hx
    have hxy : x = y := by
      rw [hx] at hy
      exact (List.cons.inj hy).1
    have hsh : R.ctx.shared = true := by
      rcases hsh with ⟨_, e⟩ | ⟨e, _⟩
      · rw [e]
      · exact absurd hxy e
    obtain ⟨j, hj, rfl⟩ := List.mem_map.mp hb
    obtain ⟨ks, l, hs, _⟩ := h2.each j (by simpa [Forest.written] using hj)
    obtain ⟨_, ⟨_, _, hnode⟩ | ⟨_, _, _, _, hnode⟩⟩ := hs
    · simp [Info.built, hnode, TreeEnv.leafNode]
    · simp only [Info.built, hnode, TreeEnv.interiorNode, TreeEnv.interiorGroups, FileRun.env, hsh, if_true, List.length_cons, List.length_nil]
  · have hb := R.bytes
    rw [hb] at d2
    have ho := congrArg Spec.volume hout
    rw [ho]
    unfold Spec.volume at d2 hvol ⊢
    simp only [Forest.written, Forest.roots, List.nil_append, List.length_cons, List.length_nil, Nat.sub_zero, List.length_append,
      Nat.zero_add, Nat.mul_one] at hvol
    have hg : (((kids.written ++ [i]).map Info.built).map (fun b => b.node.hashGroups.length)) =
      (kids.written ++ [i]).map (fun i => i.node.hashGroups.length) := by rw [List.map_map]; rfl
    rw [hg]
    simp only [List.map_append, List.sum_append, List.map_cons, List.map_nil, List.sum_cons, List.sum_nil, List.length_map,
      List.length_append, List.length_cons, List.length_nil, Nat.add_zero, Nat.zero_add, Nat.mul_add, Nat.add_mul, Nat.one_mul] at d2 hvol ⊢
    have hps : R.ps.length = R.file.chunks.length := cl2
    rw [← hps] at hvol
    omega

/-- C119 in the plainest case, hashed names with one set of locators, no expiry times and no encryption: 57 bytes for each chunk and 78
for each manifest, less 36. -/
theorem C119_plain (E : Env) (L : FloatLog) (o : TreeOptions) (nc : Nat) (input : Stream) (root : Packet) (out : List Packet)
    (hsha : ∀ b, (E.prims.sha256 b).length = 32) (hty : o.schemaType = .hashed) (hloc : o.manifestLocators = o.dataLocators)
    (hann : o.addNodeSubtreeSize = false ∧ o.addGroupSubtreeSize = false ∧ o.addGroupLeafSize = false)
    (hexp : o.dataExpiry = none ∧ o.manifestExpiry = none) (henc : o.encryptor = none) (hnc : nc + 1 < 256)
    (h : manifestTree E L o nc input = (.ok root, out)) :
    ∃ n m, (Spec.dataOf out).length = n ∧ out.length = n + m + 1 ∧ 1 ≤ n ∧ 1 ≤ m ∧
      Spec.volume out + 36 = Spec.size root + input.rest.length + 57 * n + 78 * m := by
  obtain ⟨c, hc, hall⟩ := C119_volume E o hsha (fun h => absurd henc h) (by rw [hty]; decide) hann
  obtain ⟨data, made, dn, mn, hout, h1, h2, hd, hm, hn, hg, hv⟩ := hall L nc input root out hnc h
  obtain ⟨rfl, rfl⟩ := hn hty
  obtain rfl := hc henc
  have hr : root.body.payloadType = some PT_MANIFEST := by
    obtain ⟨R⟩ := manifestTree_ok h
    obtain ⟨_, _, hb⟩ := rootPacket_inv R.root_ok
    obtain ⟨_, _, w, _, _, _, hbody, _⟩ := buildFromNode_inv hb
    rw [show root.body = _ from hbody]
    rfl
  have hsum : (made.map (fun b => b.node.hashGroups.length)).sum = made.length := by
    have : made.map (fun b => b.node.hashGroups.length) = made.map (fun _ => 1) := List.map_congr_left (hg hty hloc)
    rw [this]
    simp
  refine ⟨data.length, made.length, ?_, ?_, h1, h2, ?_⟩
  · rw [hout]
    unfold Spec.dataOf
    rw [List.filter_append, List.filter_append, List.filter_eq_self.mpr, List.filter_eq_nil_iff.mpr, List.filter_eq_nil_iff.mpr]
    · simp
    · intro p hp
      rw [List.mem_singleton.mp hp, hr]
      decide
    · intro p hp
      obtain ⟨b, hb, rfl⟩ := List.mem_map.mp hp
      rw [(hm b hb).1]
      decide
    · intro p hp
      rw [(hd p hp).1]
      decide
  · rw [hout]
    simp only [List.length_append, List.length_map, List.length_cons, List.length_nil]
  · rw [hsum, hexp.1, hexp.2] at hv
    simp only [Spec.nameField, Spec.expiryField, Option.isSome_none, Bool.false_eq_true, if_false] at hv
    omega

/-! ## The hypotheses can be met -/

set_option maxRecDepth 100000 in
/-- 800 bytes in thirteen chunks under three manifests and a root of 137 bytes: 1876 bytes in all. -/
example : ∃ root out, manifestTree Toy.env Spec.exactLog { Toy.options .hashed false with addNodeSubtreeSize := false } 1
    (Toy.shortReads 800) = (.ok root, out) ∧ Spec.volume out = 1876 :=
  Toy.ok_of_eval (f := Spec.volume) (by decide +kernel)

set_option maxRecDepth 100000 in
/-- The same file with prefix names, encrypted manifests and an expiry time for them. -/
example : ∃ root out, manifestTree Toy.env Spec.exactLog
    { Toy.options .prefixed true with addNodeSubtreeSize := false, manifestExpiry := some (F64.ofNat 5) } 1 (Toy.shortReads 800) = (.ok root, out) ∧
    Spec.volume out = 2949 :=
  Toy.ok_of_eval (f := Spec.volume) (by decide +kernel)

example : 137 + 800 + 57 * 13 + 78 * 3 = 1876 + 36 := by decide

end Ccnpy
