import Verif.Props.LengthProps
import Verif.Props.RunProps

/-!
# C123: when a root manifest can be made

C120 to C122 leave one condition that is stated by running the code: a root manifest of the size of the file can be made.  Without encryption
it is a sum of lengths.
-/

namespace Ccnpy

/-! ## Specification -/

/-- The bytes of a root manifest over a hash of 32 bytes, in the terms of the documented format: node, node data, hash group, group data,
pointers and the number of the name constructor have 60 bytes of headers and hash; then the definitions of the name constructors, the number,
the size of the file as often as asked for, and the start id 0 of segmented names. -/
def Spec.rootBytes (o : TreeOptions) (ctx : NameCtx) (total : Nat) : Nat :=
  60 + (Spec.each Spec.Wire.ncDef ctx.ncDefs).length + (Spec.integer ctx.manifest.ncId).length +
    (if o.addNodeSubtreeSize then 4 + (Spec.integer total).length else 0) +
    (if o.addGroupSubtreeSize then 4 + (Spec.integer total).length else 0) + (if o.schemaType = .segmented then 5 else 0)

/-- What the signer adds to a packet has at most `r` bytes: nothing, the 16 bytes of a CRC32C, or the validation algorithm with key id, key
link and time, which must have an encoding, and the signature of a private key with its header of four bytes. -/
def Spec.Signs (P : Prims) (signer : Option Signer) (r : Nat) : Prop :=
  match signer with
  | none => True
  | some .crc32c => 16 ≤ r
  | some (.rsa key link time) => key.hasPrivate = true ∧ ∃ a, wireOf ValidationAlg.tlv (.rsaSha256 (key.keyid P) link time) = .ok a ∧
      ∀ m, a.length + 4 + (P.rsaSign key.der (P.sha256 m)).length ≤ r

/-! ## Lemmas -/

/-- A body that leaves room for what the signer adds can be signed. -/
theorem signPacket_ok {P : Prims} {signer : Option Signer} {r : Nat} (hs : Spec.Signs P signer r) {b : ContentObject} {t : Tlv}
    (ht : b.tlv = .ok t) (hfit : 8 + t.len + r ≤ 0xFFFF) : ∃ p, signPacket P signer b = .ok p := by
  have htl : t.len = 4 + t.value.length := by simp only [Tlv.len, Tlv.length]
  match signer, hs with
  | none, _ =>
    have := createContentObject_eq ht
    rw [if_pos (by omega)] at this
    exact ⟨_, this⟩
  | some .crc32c, hs =>
    have hs : 16 ≤ r := hs
    exact (crcSigned_room ht).mpr (by omega)
  | some (.rsa key link time), hs =>
    obtain ⟨hk, a, ha, hlen⟩ := hs
    show ∃ p, rsaSignedPacket P key link time b = .ok p
    have hv := (ContentObject.tlv_ok ht).2
    have hb : wireOf ContentObject.tlv b = .ok t.bytes := by
      unfold wireOf; rw [ht, ok_bind, Tlv.serialize_of_valid hv]
    have ha' := ha
    unfold wireOf at ha'
    obtain ⟨ta, hta, hsa⟩ := bind_eq_ok.mp ha'
    obtain ⟨_, hsa⟩ := Tlv.serialize_ok hsa
    have hal : a.length = ta.len := by rw [hsa, Tlv.bytes_length]
    unfold rsaSignedPacket
    rw [construct_ok hta, ok_bind, hb, ok_bind, ha, ok_bind]
    unfold rsaSign RsaKey.sign
    rw [if_pos hk, if_pos hk, ok_bind]
    have hl := hlen [t.bytes, a].flatten
    generalize P.rsaSign key.der (P.sha256 [t.bytes, a].flatten) = k at hl
    have hpl : valPayloadTlv k = .ok ⟨T_VALIDATION_PAYLOAD, k⟩ := by
      unfold valPayloadTlv; rw [mkTlv_eq, if_pos ⟨by decide, by omega⟩]
    have hpw : wireOf valPayloadTlv k = .ok (⟨T_VALIDATION_PAYLOAD, k⟩ : Tlv).bytes := by
      unfold wireOf; rw [hpl, ok_bind, Tlv.serialize_of_valid ⟨by show T_VALIDATION_PAYLOAD ≤ _; decide, by show k.length ≤ _; omega⟩]
    rw [construct_ok hpl, ok_bind]
    unfold Packet.createSigned
    rw [ht, ok_bind, hta, ok_bind, hpl, ok_bind]
    unfold mkPacket
    rw [if_neg (by simp)]
    unfold Packet.serialize
    simp only [hb, ok_bind, optWire, ha, hpw]
    have hB : ∀ {k : Nat}, k ≤ 0xFF → ∃ x, packB k = .ok x := fun h => ⟨_, if_pos h⟩
    unfold FixedHeader.serialize FixedHeader.contentObject
    obtain ⟨x, hx⟩ := hB (k := 1) (by decide)
    obtain ⟨y, hy⟩ := hB (k := PT_CONTENT) (by decide)
    obtain ⟨z, hz⟩ := hB (k := 8) (by decide)
    simp only [hx, hy, hz, ok_bind]
    unfold packH
    rw [if_pos (by simp only [Tlv.len, Tlv.length] at *; omega)]
    exact ⟨_, rfl⟩

theorem box_length (t : Nat) (v : Bytes) : (Spec.box t v).length = 4 + v.length := by
  simp only [Spec.box, List.length_append, specNumber_eq, beBytes_length]

/-- Accepted names have definitions with an encoding. -/
theorem ncDefs_ok {ty : SchemaType} {nc : Nat} {name mp dp : Option Name} {ml dl : Option (List Link)} {ctx : NameCtx}
    (h : NameCtx.create ty nc name mp dp ml dl = .ok ctx) : ∃ l, listTlv NcDef.tlv ctx.ncDefs = .ok l ∧ ∀ t ∈ l, t.Valid := by
  have one : ∀ {k : Nat} {sc : NcSchema} {i : SchemaImpl}, SchemaImpl.create k sc = .ok i → ∃ t, i.ncDef.tlv = .ok t ∧ t.Valid := by
    intro k sc i hi
    unfold SchemaImpl.create at hi
    obtain ⟨_, _, hi⟩ := bind_eq_ok.mp hi
    obtain ⟨_, _, hi⟩ := bind_eq_ok.mp hi
    obtain ⟨t, ht, hi⟩ := bind_eq_ok.mp hi
    obtain ⟨_, _, hi⟩ := bind_eq_ok.mp hi
    cases hi
    exact ⟨t, ht, (laid_ncDef _ _ ht).1⟩
  have shared : ∀ {k : Nat} {sc : NcSchema}, (do let i ← SchemaImpl.create k sc; return ⟨i, i, true⟩ : Py NameCtx) = .ok ctx →
      ∃ l, listTlv NcDef.tlv ctx.ncDefs = .ok l ∧ ∀ t ∈ l, t.Valid := by
    intro k sc hh
    obtain ⟨i, hi, hh⟩ := bind_eq_ok.mp hh
    cases hh
    obtain ⟨t, ht, hv⟩ := one hi
    exact ⟨[t], listTlv_one ht, by simpa using hv⟩
  have two : ∀ {k k' : Nat} {sc sc' : NcSchema}, (do
      let i ← SchemaImpl.create k sc
      let j ← SchemaImpl.create k' sc'
      return ⟨i, j, false⟩ : Py NameCtx) = .ok ctx → ∃ l, listTlv NcDef.tlv ctx.ncDefs = .ok l ∧ ∀ t ∈ l, t.Valid := by
    intro k k' sc sc' hh
    obtain ⟨i, hi, hh⟩ := bind_eq_ok.mp hh
    obtain ⟨j, hj, hh⟩ := bind_eq_ok.mp hh
    cases hh
    obtain ⟨t, ht, hv⟩ := one hi
    obtain ⟨u, hu, hv'⟩ := one hj
    exact ⟨[t, u], listTlv_two ht hu, by simpa using ⟨hv, hv'⟩⟩
  have named : ∀ {ty k m d same}, NameCtx.createNamed ty k m d same = .ok ctx →
      ∃ l, listTlv NcDef.tlv ctx.ncDefs = .ok l ∧ ∀ t ∈ l, t.Valid := by
    intro ty k m d same hh
    unfold NameCtx.createNamed at hh
    split at hh
    · exact shared hh
    · exact two hh
  unfold NameCtx.create at h
  cases ty with
  | hashed =>
    simp only at h
    unfold NameCtx.createHashed at h
    obtain ⟨root, _, h⟩ := bind_eq_ok.mp h
    simp only at h
    split at h
    · exact shared h
    · exact two h
  | prefixed =>
    simp only at h
    generalize (if mp.isNone = true then name else mp) = m at h
    generalize (if dp.isNone = true then name else dp) = d at h
    split at h
    · cases h
    · exact named h
  | segmented =>
    simp only at h
    split at h
    · cases h
    · generalize (if mp.isNone = true then name else mp) = m at h
      generalize (if dp.isNone = true then name else dp) = d at h
      split at h
      · cases h
      · exact named h

/-- The hash group of a root manifest (flic/ManifestTree.py:92-130), as `rootPacket` builds it. -/
def rootGroup (o : TreeOptions) (ctx : NameCtx) (total : Nat) (b : Bytes) : HashGroup :=
  { groupData := some
      { subtreeSize := if o.addGroupSubtreeSize then some total else none
        ncId := some ctx.manifest.ncId
        startSegmentId := if ctx.manifest.usesNameId then some 0 else none }
    pointers := some [.sha256 b] }

/-- The node of a root manifest (flic/ManifestTree.py:92-130). -/
def rootNode (o : TreeOptions) (ctx : NameCtx) (total : Nat) (b : Bytes) : Node :=
  { nodeData := some { subtreeSize := if o.addNodeSubtreeSize then some total else none, ncDefs := ctx.ncDefs },
    hashGroups := [rootGroup o ctx total b] }

theorem rootNode_length {o : TreeOptions} {nc : Nat} {ctx : NameCtx}
    (hctx : NameCtx.create o.schemaType nc o.name o.manifestPrefix o.dataPrefix o.manifestLocators o.dataLocators = .ok ctx)
    (total : Nat) {b : Bytes} (hb : b.length = 32) : (Spec.Wire.node (rootNode o ctx total b)).length = Spec.rootBytes o ctx total := by
  obtain ⟨_, _, g3⟩ := nameCtx_inv hctx
  have h0 : (Spec.integer 0).length = 1 := by decide
  have hs : (if ctx.manifest.usesNameId then 5 else 0) = if o.schemaType = .segmented then 5 else 0 := by
    by_cases h : ctx.manifest.usesNameId = true
    · rw [if_pos h, if_pos (g3.mp h)]
    · rw [if_neg h, if_neg (fun h' => h (g3.mpr h'))]
  unfold Spec.rootBytes
  rw [← hs]
  simp only [Spec.Wire.node, Spec.Wire.nodeParts, rootNode, rootGroup, Spec.Wire.padding, Spec.maybe, Spec.Wire.nodeData,
    HashValue.sha256, box_length, List.length_append, List.append_nil]
  cases o.addNodeSubtreeSize <;> cases o.addGroupSubtreeSize <;> cases ctx.manifest.usesNameId <;>
    simp [Spec.each, box_length, hb, h0, Spec.Wire.hash, Spec.Wire.hashGroup, Spec.Wire.groupData, Spec.Wire.pointers, Spec.maybe] <;> omega

variable {E : Env} {L : FloatLog} {o : TreeOptions} {nc : Nat} {input : Stream}

/-- The node can be encoded if its bytes are not too many. -/
theorem rootNode_ok {ctx : NameCtx}
    (hctx : NameCtx.create o.schemaType nc o.name o.manifestPrefix o.dataPrefix o.manifestLocators o.dataLocators = .ok ctx)
    {total : Nat} {b : Bytes} (hb : b.length = 32) (hfit : Spec.rootBytes o ctx total ≤ 0xFFFF) :
    (∃ t, (rootNode o ctx total b).tlv = .ok t ∧ t.Valid) ∧
    ∃ g, construct HashGroup.tlv (rootGroup o ctx total b) = .ok g ∧ nodeFromGroups o [g] (some ctx.ncDefs) (some total) = .ok (rootNode o ctx total b) := by
  obtain ⟨_, _, g3⟩ := nameCtx_inv hctx
  obtain ⟨ld, hld, hlv⟩ := ncDefs_ok hctx
  have hll : (bytesAll ld).length = (Spec.each Spec.Wire.ncDef ctx.ncDefs).length := by rw [laid_ncDef.list hld]
  have hsub : intLen (if o.addGroupSubtreeSize then some total else none) = if o.addGroupSubtreeSize then 4 + numWidth total else 0 := by
    cases o.addGroupSubtreeSize <;> rfl
  have hsz : intLen (if o.addNodeSubtreeSize then some total else none) = if o.addNodeSubtreeSize then 4 + numWidth total else 0 := by
    cases o.addNodeSubtreeSize <;> rfl
  have hst : intLen (if ctx.manifest.usesNameId then some 0 else none) = if o.schemaType = .segmented then 5 else 0 := by
    by_cases h : ctx.manifest.usesNameId = true
    · rw [if_pos h, if_pos (g3.mp h)]; rfl
    · rw [if_neg h, if_neg (fun h' => h (g3.mpr h'))]; rfl
  have hw : ∀ k, (Spec.integer k).length = numWidth k := fun k => by rw [specInteger_eq, beBytes_length]
  unfold Spec.rootBytes at hfit
  simp only [hw] at hfit
  have hg : groupLen (if o.addGroupSubtreeSize then some total else none) none (some ctx.manifest.ncId)
      (if ctx.manifest.usesNameId then some 0 else none) 1 = 52 + numWidth ctx.manifest.ncId +
        (if o.addGroupSubtreeSize then 4 + numWidth total else 0) + if o.schemaType = .segmented then 5 else 0 := by
    unfold groupLen
    rw [hsub, hst]
    simp only [intLen]
    omega
  obtain ⟨tg, htg, hgv, hgl⟩ := hashGroup_ok (sub := if o.addGroupSubtreeSize then some total else none) (leaf := none)
    (nc := some ctx.manifest.ncId) (st := if ctx.manifest.usesNameId then some 0 else none) (ps := [.sha256 b])
    (by intro h hh; rw [List.mem_singleton.mp hh]; exact ⟨(by decide : T_SHA_256 ≤ 0xFFFF), hb⟩)
    (by rw [List.length_singleton, hg]; omega)
  rw [List.length_singleton, hg] at hgl
  obtain ⟨a, ha, va, la⟩ := optInt_ok (ty := T_SUBTREE_SIZE) (by decide) (if o.addNodeSubtreeSize then some total else none)
  rw [hsz] at la
  have hnd : NodeData.tlv { subtreeSize := if o.addNodeSubtreeSize then some total else none, ncDefs := ctx.ncDefs } =
      .ok ⟨T_NODE_DATA, bytesAll (a ++ ld)⟩ := by
    unfold NodeData.tlv NodeData.members
    simp only [ha, hld, ok_bind, optTlv_absent, listTlv, pure_eq_ok, List.append_nil]
    refine container_of_valid ?_ ⟨by show T_NODE_DATA ≤ _; decide, ?_⟩
    · intro x hx
      rcases List.mem_append.mp hx with hx | hx
      · exact va x hx
      · exact hlv x hx
    · show (bytesAll (a ++ ld)).length ≤ _
      rw [bytesAll_append, List.length_append]
      omega
  have hval : ∀ x ∈ [(⟨T_NODE_DATA, bytesAll (a ++ ld)⟩ : Tlv)] ++ [tg], x.Valid := by
    intro x hx
    simp only [List.cons_append, List.nil_append, List.mem_cons, List.not_mem_nil, or_false] at hx
    rcases hx with rfl | rfl
    · refine ⟨by show T_NODE_DATA ≤ _; decide, ?_⟩
      show (bytesAll (a ++ ld)).length ≤ _
      rw [bytesAll_append, List.length_append]
      omega
    · exact hgv
  have hlen : (bytesAll ([(⟨T_NODE_DATA, bytesAll (a ++ ld)⟩ : Tlv)] ++ [tg])).length ≤ 0xFFFF := by
    have e : (⟨T_NODE_DATA, bytesAll (a ++ ld)⟩ : Tlv).len = 4 + ((bytesAll a).length + (bytesAll ld).length) := by
      simp only [Tlv.len, Tlv.length, bytesAll_append, List.length_append]
    simp only [List.cons_append, List.nil_append, bytesAll_cons, bytesAll_nil, List.length_append, Tlv.bytes_length, List.length_nil]
    omega
  have ht : (rootNode o ctx total b).tlv = .ok ⟨T_NODE, bytesAll ([(⟨T_NODE_DATA, bytesAll (a ++ ld)⟩ : Tlv)] ++ [tg])⟩ := by
    have h1 : optTlv NodeData.tlv (rootNode o ctx total b).nodeData = .ok [⟨T_NODE_DATA, bytesAll (a ++ ld)⟩] := by
      simp only [rootNode, optTlv, hnd, ok_bind, pure_eq_ok]
    have h2 : listTlv HashGroup.tlv (rootNode o ctx total b).hashGroups = .ok [tg] := listTlv_one htg
    unfold Node.tlv Node.members
    rw [h1, ok_bind, h2]
    simp only [ok_bind, pure_eq_ok, concatTlvs_of_valid hval]
    rw [if_neg (by simp [rootNode])]
    show mkTlv T_NODE _ = _
    rw [mkTlv_eq, if_pos ⟨by decide, hlen⟩]
  refine ⟨⟨_, ht, by show T_NODE ≤ _; decide, hlen⟩, _, construct_ok htg, ?_⟩
  unfold nodeFromGroups
  simp only [Option.isSome_some, Bool.or_true, if_true, Option.getD_some, optM, construct_ok hnd, ok_bind]
  exact construct_ok ht

/-! ## Theorems -/

/-- C123 (a): a root manifest without encryption can be made over a hash exactly if its bytes are at most `max_packet_size`.  Assumed is that
name and expiry time can be encoded and that the packet size leaves room for them and for what the signer adds. -/
theorem C123_root (henc : o.encryptor = none) {r : Nat} (hsig : Spec.Signs E.prims o.signer r) {ctx : NameCtx}
    (hctx : NameCtx.create o.schemaType nc o.name o.manifestPrefix o.dataPrefix o.manifestLocators o.dataLocators = .ok ctx)
    {n v : Bytes} (hn : optWire Name.tlv o.name = .ok n) (hx : optWire (timestampTlv T_EXPIRY) o.rootExpiry = .ok v)
    (hfit : 33 + r + n.length + o.maxPacketSize ≤ 0xFFFF) (total : Nat) {b : Bytes} (hb : b.length = 32) (s : BState) :
    (∃ sample s', rootPacket E o ctx total (.sha256 b) s = (.ok sample, s')) ↔ Spec.rootBytes o ctx total ≤ o.maxPacketSize := by
  constructor
  · rintro ⟨sample, s', h⟩
    unfold rootPacket at h
    obtain ⟨g, hg, h⟩ := PyS.liftBind_ok h
    obtain ⟨node, hnode, h⟩ := PyS.liftBind_ok h
    obtain ⟨p, s1, hp, h⟩ := PyS.bind_ok h
    obtain ⟨rfl, _⟩ := construct_inv hg
    obtain ⟨hnode, _⟩ := nodeFromGroups_inv hnode
    have hnode : node = rootNode o ctx total b := by
      rw [hnode]
      simp only [Option.isSome_some, Bool.or_true, if_true, Option.getD_some]
      rfl
    subst hnode
    obtain ⟨m, s2, w, hm, hw, hle, _⟩ := buildFromNode_inv hp
    unfold buildManifest at hm
    rw [henc] at hm
    obtain ⟨_, _, hm⟩ := PyS.liftBind_ok hm
    cases hm
    have := C89_manifest hw
    rw [← rootNode_length hctx total hb]
    rw [this] at hle
    simpa [Spec.Wire.manifest, Spec.maybe, Spec.Wire.manifestNode] using hle
  · intro hle
    obtain ⟨⟨t, ht, hv⟩, g, hg, hnode⟩ := rootNode_ok hctx (total := total) hb (by omega)
    have hser : Manifest.serialize { node := .plain (rootNode o ctx total b) } = .ok t.bytes := by
      simp only [Manifest.serialize, Manifest.members, optTlv_absent, ManifestNode.tlv, ht, ok_bind, pure_eq_ok]
      rw [concatTlvs_of_valid (by simpa using hv)]
      simp
    have hwl : t.bytes.length = Spec.rootBytes o ctx total := by
      rw [C89_manifest hser, ← rootNode_length hctx total hb]
      simp [Spec.Wire.manifest, Spec.maybe, Spec.Wire.manifestNode]
    have hbm : buildManifest E o (rootNode o ctx total b) true s = (.ok { node := .plain (rootNode o ctx total b) }, s) := by
      unfold buildManifest
      rw [henc]
      simp only
      rw [PyS.liftBind_run hser]
      rfl
    have hvl : v.length ≤ 12 := by
      obtain ⟨l, hl, _, rfl⟩ := optWire_tlvs hx
      rw [expiry_len hl]
      split <;> omega
    obtain ⟨u, hu⟩ := manifestBody_ok (w := t.bytes) hn hx (by omega)
    obtain ⟨n', hn', hul⟩ := manifestBody_len hu
    rw [hn] at hn'
    cases hn'
    have hul' : u.len ≤ 25 + n.length + t.bytes.length := by
      split at hul <;> omega
    have hc : Manifest.contentObject { node := .plain (rootNode o ctx total b) } o.name o.rootExpiry =
        .ok (manifestBody o.name t.bytes o.rootExpiry) := by
      simp only [Manifest.contentObject, hser, ok_bind]
      exact construct_ok hu
    obtain ⟨p, hp⟩ := signPacket_ok hsig hu (by omega)
    refine ⟨⟨p, rootNode o ctx total b⟩, s, ?_⟩
    unfold rootPacket
    unfold rootGroup at hg
    rw [PyS.liftBind_run hg, PyS.liftBind_run hnode]
    have hbf : buildFromNode E o (rootNode o ctx total b) o.name o.rootExpiry o.signer true s = (.ok p, s) := by
      unfold buildFromNode
      rw [PyS.bind_of_ok hbm, PyS.liftBind_run hser, if_neg (by omega), PyS.liftBind_run hc, hp]
      rfl
    rw [PyS.bind_of_ok hbf]
    rfl

/-- C123 (b): exactly which files are published without encryption, by arithmetic alone. -/
theorem C123_published (hP : Spec.LengthOnly E.prims) (hlow : L.NotLow) (hhigh : L.NotHigh)
    (henc : o.encryptor = none) {r : Nat} (hsig : Spec.Signs E.prims o.signer r)
    (hann : (o.addGroupLeafSize = false ∧ o.addGroupSubtreeSize = false) ∨ input.rest.length < 2 ^ 32)
    {ctx : NameCtx} {size : Nat}
    (hctx : NameCtx.create o.schemaType nc o.name o.manifestPrefix o.dataPrefix o.manifestLocators o.dataLocators = .ok ctx)
    (hnames : Spec.NamesFit ctx.manifest o) {n v : Bytes} (hn : optWire Name.tlv o.name = .ok n)
    (hx : optWire (timestampTlv T_EXPIRY) o.rootExpiry = .ok v) (hfit : 33 + r + n.length + o.maxPacketSize ≤ 0xFFFF)
    (hsize : ctx.data.payloadSize o.chunk = .ok size) :
    (∃ root out, manifestTree E L o nc input = (.ok root, out)) ↔
      input.rest ≠ [] ∧ Spec.chunkCount size input.schedule input.rest.length ≤ 2 ^ 24 ∧
      (∀ k, o.maxTreeDegree = some k → 2 ≤ k) ∧
      Spec.bareBytes o ctx input.rest.length + 72 ≤ o.maxPacketSize ∧
      Spec.rootBytes o ctx input.rest.length ≤ o.maxPacketSize := by
  have hpl := sizing_plain (E := E) henc hctx (total := input.rest.length) (n := 2) (by omega)
  rw [C122_published hP hlow hhigh (fun h => absurd henc h) hann hctx hnames hsize]
  constructor
  · rintro ⟨h1, h2, h3, ⟨l, hl, hle⟩, b, sample, s, s', hb, hr⟩
    have := hpl.1 l hl
    exact ⟨h1, h2, h3, by omega, (C123_root (E := E) henc hsig hctx hn hx hfit _ hb s).mp ⟨_, _, hr⟩⟩
  · rintro ⟨h1, h2, h3, h4, h5⟩
    obtain ⟨sample, s', hr⟩ := (C123_root (E := E) henc hsig hctx hn hx hfit input.rest.length
      (b := List.replicate 32 0) (by simp) {}).mpr h5
    exact ⟨h1, h2, h3, ⟨_, hpl.2 (by omega) (by omega), by omega⟩, _, _, _, _, by simp, hr⟩

/-! ## Instances -/

/-- The bytes of a full chunk, the bare bytes of the manifests and the bytes of the root manifest for a file of `total` bytes. -/
def Toy.rootRoom (o : TreeOptions) (total : Nat) : Option (Nat × Nat × Nat) :=
  match NameCtx.create o.schemaType 1 o.name o.manifestPrefix o.dataPrefix o.manifestLocators o.dataLocators with
  | .error _ => none
  | .ok ctx =>
    match optWire Name.tlv o.name, optWire (timestampTlv T_EXPIRY) o.rootExpiry, ctx.data.payloadSize o.chunk with
    | .ok n, .ok _, .ok size =>
      if 33 + 96 + n.length + o.maxPacketSize ≤ 0xFFFF then some (size, Spec.bareBytes o ctx total, Spec.rootBytes o ctx total) else none
    | _, _, _ => none

theorem Toy.rootRoom_ok {o : TreeOptions} {total a b c : Nat} (h : Toy.rootRoom o total = some (a, b, c)) : ∃ ctx n v,
    NameCtx.create o.schemaType 1 o.name o.manifestPrefix o.dataPrefix o.manifestLocators o.dataLocators = .ok ctx ∧
    optWire Name.tlv o.name = .ok n ∧ optWire (timestampTlv T_EXPIRY) o.rootExpiry = .ok v ∧ 33 + 96 + n.length + o.maxPacketSize ≤ 0xFFFF ∧
    ctx.data.payloadSize o.chunk = .ok a ∧ Spec.bareBytes o ctx total = b ∧ Spec.rootBytes o ctx total = c := by
  unfold Toy.rootRoom at h
  split at h
  · cases h
  · rename_i ctx hctx
    split at h
    · rename_i n v size hn hv hs
      split at h
      · rename_i hfit
        cases h
        exact ⟨ctx, n, v, hctx, hn, hv, hfit, hs, rfl, rfl⟩
      · cases h
    · cases h

set_option maxRecDepth 100000 in
/-- C123 (b): 800 bytes with segmented names and a CRC32C in the root: published, by the lengths of the size calculation and of the root. -/
example : ∃ root out, manifestTree Toy.env Spec.exactLog (Toy.options .segmented false) 1 (Toy.shortReads 800) = (.ok root, out) := by
  obtain ⟨ctx, n, v, g1, g2, g3, g4, g5, g6, g7⟩ := Toy.rootRoom_ok (o := Toy.options .segmented false) (total := 800)
    (a := 206) (b := 103) (c := 128) (by decide +kernel)
  obtain ⟨ctx', _, _, _, _, h1, h2, _⟩ := Toy.stages_ok (n := 800) (b := true) (o := Toy.options .segmented false) (by decide +kernel)
  rw [g1] at h1
  cases h1
  have hs : Spec.Signs Toy.env.prims (Toy.options .segmented false).signer 16 := Nat.le_refl 16
  refine (C123_published (L := Spec.exactLog) Toy.lengthOnly exactLog_notLow exactLog_notHigh rfl hs (.inr (by decide +kernel))
    g1 h2 g2 g3 (by omega) g5).mpr ⟨by decide, by decide +kernel, fun k hk => (by cases hk), ?_, ?_⟩
  · show Spec.bareBytes _ ctx 800 + 72 ≤ 250
    rw [g6]; decide
  · show Spec.rootBytes _ ctx 800 ≤ 250
    rw [g7]; decide

set_option maxRecDepth 100000 in
/-- C123 (b): with two prefixes of 120 bytes the root of a file of 300 bytes has 349 bytes, which is too much for a packet of 250 bytes. -/
example : ¬ ∃ root out, manifestTree Toy.env Spec.exactLog Toy.longPrefixes 1 (Toy.shortReads 300) = (.ok root, out) := by
  obtain ⟨ctx, n, v, g1, g2, g3, g4, g5, g6, g7⟩ := Toy.rootRoom_ok (o := Toy.longPrefixes) (total := 300)
    (a := 101) (b := 89) (c := 349) (by decide +kernel)
  obtain ⟨ctx', _, _, _, _, h1, h2, _⟩ := Toy.stages_ok (n := 300) (b := false) (o := Toy.longPrefixes) (by decide +kernel)
  rw [g1] at h1
  cases h1
  intro h
  have hs : Spec.Signs Toy.env.prims Toy.longPrefixes.signer 16 := Nat.le_refl 16
  have := ((C123_published (L := Spec.exactLog) Toy.lengthOnly exactLog_notLow exactLog_notHigh rfl hs (.inr (by decide +kernel))
    g1 h2 g2 g3 (by omega) g5).mp h).2.2.2.2
  have h250 : Toy.longPrefixes.maxPacketSize = 250 := rfl
  have h300 : (Toy.shortReads 300).rest.length = 300 := by decide +kernel
  rw [h300, g7] at this
  omega

/-- An RSA signer: the algorithm has 60 bytes, the signature of the toy primitives 32. -/
def Toy.rsaRooted : TreeOptions :=
  { Toy.options .prefixed false with signer := some (.rsa ⟨[1], true, 2048⟩ none (F64.ofNat 1700000000)) }

theorem Toy.rsaSigns : Spec.Signs Toy.env.prims Toy.rsaRooted.signer 96 := by
  have h : (wireOf ValidationAlg.tlv (.rsaSha256 ((⟨[1], true, 2048⟩ : RsaKey).keyid Toy.env.prims) none (F64.ofNat 1700000000))).toOption.map
      List.length = some 60 := by decide +kernel
  refine ⟨rfl, ?_⟩
  cases ha : wireOf ValidationAlg.tlv (.rsaSha256 ((⟨[1], true, 2048⟩ : RsaKey).keyid Toy.env.prims) none (F64.ofNat 1700000000)) with
  | error e => rw [ha] at h; cases h
  | ok a =>
    rw [ha] at h
    have h : a.length = 60 := Option.some.inj h
    refine ⟨a, rfl, fun m => ?_⟩
    have : (Toy.env.prims.rsaSign [1] (Toy.env.prims.sha256 m)).length = 32 := Toy.lengthOnly.sha m
    show a.length + 4 + (Toy.env.prims.rsaSign [1] (Toy.env.prims.sha256 m)).length ≤ 96
    omega

set_option maxRecDepth 100000 in
/-- C123 (b): 300 bytes with prefix names and an RSA signature of the root. -/
example : ∃ root out, manifestTree Toy.env Spec.exactLog Toy.rsaRooted 1 (Toy.shortReads 300) = (.ok root, out) := by
  obtain ⟨ctx, n, v, g1, g2, g3, g4, g5, g6, g7⟩ := Toy.rootRoom_ok (o := Toy.rsaRooted) (total := 300)
    (a := 220) (b := 89) (c := 111) (by decide +kernel)
  obtain ⟨ctx', _, _, _, _, h1, h2, _⟩ := Toy.stages_ok (n := 300) (b := true) (o := Toy.rsaRooted) (by decide +kernel)
  rw [g1] at h1
  cases h1
  refine (C123_published (L := Spec.exactLog) Toy.lengthOnly exactLog_notLow exactLog_notHigh rfl Toy.rsaSigns (.inr (by decide +kernel))
    g1 h2 g2 g3 g4 g5).mpr ⟨by decide, by decide +kernel, fun k hk => (by cases hk), ?_, ?_⟩
  · show Spec.bareBytes _ ctx 300 + 72 ≤ 250
    rw [g6]; decide
  · show Spec.rootBytes _ ctx 300 ≤ 250
    rw [g7]; decide

end Ccnpy
