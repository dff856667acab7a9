import Verif.Lemmas.TreeIds
import Verif.Props.SchemaProps

/-!
# The manifest tree of a file
-/

namespace Ccnpy

/-! ## What the factory makes -/

/-- The content object of a manifest. -/
def manifestBody (name : Option Name) (w : Bytes) (x : Option F64) : ContentObject :=
  { name := name, payloadType := some PT_MANIFEST, payload := some w, expiryTime := x }

theorem contentObject_inv {m : Manifest} {name : Option Name} {x : Option F64} {b : ContentObject} (h : m.contentObject name x = .ok b) :
    ∃ w, m.serialize = .ok w ∧ b = manifestBody name w x ∧ ∃ t, b.tlv = .ok t := by
  obtain ⟨w, hw, h⟩ := bind_eq_ok.mp h
  obtain ⟨rfl, ht⟩ := construct_inv h
  exact ⟨w, hw, rfl, ht⟩

theorem mkPacket_inv {hd : FixedHeader} {b : ContentObject} {a : Option ValidationAlg} {pl : Option Bytes} {p : Packet}
    (h : mkPacket hd b a pl = .ok p) : p = ⟨hd, b, a, pl⟩ := by
  unfold mkPacket at h
  split at h
  · cases h
  · obtain ⟨_, _, h⟩ := bind_eq_ok.mp h
    cases h
    rfl

theorem createContentObject_inv {b : ContentObject} {p : Packet} (h : Packet.createContentObject b = .ok p) :
    ∃ t, b.tlv = .ok t ∧ p = ⟨FixedHeader.contentObject (8 + t.len), b, none, none⟩ := by
  obtain ⟨t, ht, h⟩ := bind_eq_ok.mp h
  exact ⟨t, ht, mkPacket_inv h⟩

theorem createSigned_inv {b : ContentObject} {a : ValidationAlg} {pl : Bytes} {p : Packet} (h : Packet.createSigned b a pl = .ok p) :
    ∃ n, p = ⟨FixedHeader.contentObject n, b, some a, some pl⟩ := by
  obtain ⟨_, _, h⟩ := bind_eq_ok.mp h
  obtain ⟨_, _, h⟩ := bind_eq_ok.mp h
  obtain ⟨_, _, h⟩ := bind_eq_ok.mp h
  exact ⟨_, mkPacket_inv h⟩

theorem signPacket_body {P : Prims} {sg : Option Signer} {b : ContentObject} {p : Packet} (h : signPacket P sg b = .ok p) : p.body = b := by
  cases sg with
  | none =>
    obtain ⟨_, _, rfl⟩ := createContentObject_inv h
    rfl
  | some sg =>
    cases sg with
    | crc32c =>
      obtain ⟨_, _, h⟩ := bind_eq_ok.mp h
      obtain ⟨_, _, h⟩ := bind_eq_ok.mp h
      obtain ⟨_, _, h⟩ := bind_eq_ok.mp h
      obtain ⟨_, _, h⟩ := bind_eq_ok.mp h
      obtain ⟨_, rfl⟩ := createSigned_inv h
      rfl
    | rsa k l t =>
      obtain ⟨_, _, h⟩ := bind_eq_ok.mp h
      obtain ⟨_, _, h⟩ := bind_eq_ok.mp h
      obtain ⟨_, _, h⟩ := bind_eq_ok.mp h
      obtain ⟨_, _, h⟩ := bind_eq_ok.mp h
      obtain ⟨_, rfl⟩ := createSigned_inv h
      rfl

/-- A packet of the factory holds the manifest made of the node. -/
theorem buildFromNode_inv {E : Env} {o : TreeOptions} {node : Node} {name : Option Name} {x : Option F64} {sg : Option Signer}
    {full : Bool} {s s' : BState} {p : Packet} (h : buildFromNode E o node name x sg full s = (.ok p, s')) :
    ∃ m s1 w, buildManifest E o node full s = (.ok m, s1) ∧ m.serialize = .ok w ∧ w.length ≤ o.maxPacketSize ∧
      p.body = manifestBody name w x ∧ signPacket E.prims sg (manifestBody name w x) = .ok p ∧ ∃ t, (manifestBody name w x).tlv = .ok t := by
  unfold buildFromNode at h
  obtain ⟨m, s1, hm, h⟩ := PyS.bind_ok h
  obtain ⟨w, hw, h⟩ := PyS.liftBind_ok h
  simp only at h
  split at h
  · exact (Manifest.tooLarge_run h).elim
  · rename_i hlen
    obtain ⟨b, hb, h⟩ := PyS.liftBind_ok h
    obtain ⟨h, _⟩ := PyS.lift_ok h
    obtain ⟨w', hw', rfl, ht⟩ := contentObject_inv hb
    rw [hw] at hw'
    cases hw'
    exact ⟨m, s1, w, hm, hw, by omega, signPacket_body h, h, ht⟩

/-! ## The optimizer's result -/

theorem minimizeKMinWaste_zero (L : FloatLog) (n : Nat) (r : OptimizerResult) : minimizeKMinWaste L n 0 ≠ .ok r := by
  unfold minimizeKMinWaste minimizeK
  simp [bind, Except.bind, pure, Except.pure]

/-- Any result of the optimizer is a tree with at least one pointer of each kind. -/
theorem minimizeKMinWaste_pos {L : FloatLog} {n p : Nat} {r : OptimizerResult} (h : minimizeKMinWaste L n p = .ok r)
    (hn : n < 2 ^ 52) (hp : p < 2 ^ 52) : 1 ≤ n ∧ 2 ≤ p ∧ 1 ≤ r.direct ∧ 1 ≤ r.indirect ∧ r.direct + r.indirect = p := by
  have hp2 : 2 ≤ p := by
    rcases (by omega : p = 0 ∨ p = 1 ∨ 2 ≤ p) with rfl | rfl | h2
    · exact absurd h (minimizeKMinWaste_zero L n r)
    · obtain ⟨e, he⟩ := C40_one_pointer_raises L n
      rw [he] at h
      cases h
    · exact h2
  have hn1 : 1 ≤ n := by
    rcases Nat.eq_zero_or_pos n with rfl | h0
    · rw [C40_empty_file_raises L p (by omega)] at h
      cases h
    · exact h0
  by_cases hnp : p < n
  · obtain ⟨r', h', _, h1, h2, h3, _⟩ := C40_optimizer_minimises_internal_nodes L n p hp2 hnp hn
    rw [h] at h'
    cases h'
    exact ⟨hn1, hp2, h2, h3, h1⟩
  · obtain ⟨r', h', h1, h2, _⟩ := C40_small_files L n p hp2 hp hn1 (by omega)
    rw [h] at h'
    cases h'
    exact ⟨hn1, hp2, by omega, by omega, by omega⟩

/-! ## The size calculation -/

theorem listTlv_bytes_ge {l : List HashValue} {ts : List Tlv} (h : listTlv HashValue.tlv l = .ok ts) :
    4 * l.length ≤ (bytesAll ts).length := by
  induction l generalizing ts with
  | nil => cases h; simp
  | cons x l ih =>
    obtain ⟨t, r, _, hr, rfl⟩ := listTlv_cons_ok h
    have := ih hr
    simp only [bytesAll_cons, List.length_append, List.length_cons, Tlv.bytes_length, Tlv.len]
    omega

theorem hashGroup_pointers_le {g : HashGroup} {ps : List HashValue} {t : Tlv} (hg : g.pointers = some ps) (h : g.tlv = .ok t) :
    ps.length ≤ 0xFFFF := by
  obtain ⟨ms, hm, h⟩ := bind_eq_ok.mp h
  obtain ⟨a, _, hm⟩ := bind_eq_ok.mp hm
  obtain ⟨b, hb, _⟩ := bind_eq_ok.mp hm
  rw [hg] at hb
  obtain ⟨u, hu, _⟩ := optTlv_some hb
  obtain ⟨ts, hts, hu⟩ := bind_eq_ok.mp hu
  obtain ⟨_, rfl, hv⟩ := container_ok hu
  have := listTlv_bytes_ge hts
  have := hv.2
  simp only at this
  omega

theorem builder_hashGroup_le {b : HashGroupBuilder} {nc st : Option Nat} {x y : Bool} {g : HashGroup}
    (h : b.hashGroup nc st x y = .ok g) : b.pointers.length ≤ 0xFFFF := by
  unfold HashGroupBuilder.hashGroup at h
  obtain ⟨rfl, t, ht⟩ := construct_inv h
  exact hashGroup_pointers_le rfl ht

theorem prependMany_length {hv : HashValue} {n : Nat} {b b' : BuilderPair} (h : prependMany b hv n = .ok b') :
    b'.direct.pointers.length = b.direct.pointers.length + n ∧ b'.shared = b.shared := by
  induction n generalizing b with
  | zero => cases h; simp
  | succ n ih =>
    obtain ⟨c, hc, h⟩ := bind_eq_ok.mp h
    obtain ⟨d, hd, hc⟩ := bind_eq_ok.mp hc
    cases hc
    obtain ⟨_, _, hd⟩ := bind_eq_ok.mp hd
    cases hd
    obtain ⟨h1, h2⟩ := ih h
    simp only [List.length_cons] at h1
    exact ⟨by omega, h2⟩

theorem nodeFromGroups_inv {o : TreeOptions} {gs : List HashGroup} {nc : Option (List NcDef)} {n : Option Nat} {node : Node}
    (h : nodeFromGroups o gs nc n = .ok node) :
    node = { nodeData := (if (if o.addNodeSubtreeSize then n else none).isSome || nc.isSome then
        some { subtreeSize := if o.addNodeSubtreeSize then n else none, ncDefs := nc.getD [] } else none), hashGroups := gs } ∧
    ∃ t, node.tlv = .ok t := by
  obtain ⟨nd, hnd, h⟩ := bind_eq_ok.mp h
  obtain ⟨rfl, ht⟩ := construct_inv h
  refine ⟨?_, ht⟩
  rw [optM_construct hnd]

theorem sizingPacket_le {E : Env} {o : TreeOptions} {ctx : NameCtx} {total n : Nat} {s s' : BState} {p : Packet}
    (h : sizingPacket E o ctx total n s = (.ok p, s')) : n ≤ 0x10000 := by
  unfold sizingPacket at h
  obtain ⟨gs, hgs, h⟩ := PyS.liftBind_ok h
  obtain ⟨b, hb, hgs⟩ := bind_eq_ok.mp hgs
  obtain ⟨hlen, hsh⟩ := prependMany_length hb
  obtain ⟨b2, hb2, hgs⟩ := bind_eq_ok.mp hgs
  obtain ⟨x, hx, hb2⟩ := bind_eq_ok.mp hb2
  cases hb2
  obtain ⟨_, _, hx⟩ := bind_eq_ok.mp hx
  cases hx
  have hd : n - 1 ≤ (b.setIndirect { b.indirectBuilder with
      pointers := HashValue.sha256 (List.replicate 32 0) :: b.indirectBuilder.pointers
      indirectCount := b.indirectBuilder.indirectCount + 1
      indirectSize := b.indirectBuilder.indirectSize + 0 }).direct.pointers.length := by
    unfold BuilderPair.setIndirect BuilderPair.indirectBuilder
    cases b.shared <;> simp <;> omega
  unfold BuilderPair.hashGroups at hgs
  split at hgs
  · obtain ⟨_, _, hgs⟩ := bind_eq_ok.mp hgs
    obtain ⟨_, _, hgs⟩ := bind_eq_ok.mp hgs
    obtain ⟨g, hg, _⟩ := bind_eq_ok.mp hgs
    have := builder_hashGroup_le hg
    have := Nat.le_trans hd this
    omega
  · obtain ⟨g, hg, _⟩ := bind_eq_ok.mp hgs
    have := builder_hashGroup_le hg
    have := Nat.le_trans hd this
    omega

theorem sizingPacket_frame (E : Env) (o : TreeOptions) (ctx : NameCtx) (total n : Nat) (s : BState) :
    ∃ k, (sizingPacket E o ctx total n s).2 = { s with nonces := k } := by
  unfold sizingPacket
  rw [PyS.bind_run]
  split
  · rename_i gs s1 h
    obtain ⟨_, rfl⟩ := PyS.lift_ok h
    rw [PyS.bind_run]
    split
    · rename_i node s2 h2
      obtain ⟨_, rfl⟩ := PyS.lift_ok h2
      exact buildFromNode_frame ..
    · rename_i e s2 h2
      obtain ⟨_, rfl⟩ := PyS.lift_error h2
      exact ⟨_, rfl⟩
  · rename_i e s1 h
    obtain ⟨_, rfl⟩ := PyS.lift_error h
    exact ⟨_, rfl⟩

theorem calculateMaxPointers_frame (E : Env) (o : TreeOptions) (ctx : NameCtx) (total : Nat) (s : BState) :
    ∃ k, (calculateMaxPointers E o ctx total s).2 = { s with nonces := k } := by
  unfold calculateMaxPointers
  obtain ⟨k1, hk1⟩ := sizingPacket_frame E o ctx total 1 s
  rw [PyS.bind_run]
  split
  · rename_i p s1 h
    rw [h] at hk1
    simp only at hk1
    subst hk1
    cases hl : p.len with
    | error e => exact ⟨k1, rfl⟩
    | ok len =>
      rw [PyS.liftBind_run rfl]
      split
      · exact ⟨k1, rfl⟩
      · simp only
        obtain ⟨k2, hk2⟩ := sizingPacket_frame E o ctx total ((fl (o.maxPacketSize - len) 36).toInt + 1) { s with nonces := k1 }
        rw [PyS.bind_run]
        split
        · rename_i q s2 h2
          rw [h2] at hk2
          simp only at hk2
          subst hk2
          cases hl2 : q.len with
          | error e => exact ⟨k2, rfl⟩
          | ok len2 =>
            rw [PyS.liftBind_run rfl]
            split
            · exact ⟨k2, rfl⟩
            · split
              · exact ⟨k2, rfl⟩
              · exact ⟨k2, rfl⟩
        · rename_i e s2 h2
          rw [h2] at hk2
          exact ⟨k2, hk2⟩
  · rename_i e s1 h
    rw [h] at hk1
    exact ⟨k1, hk1⟩

/-- The size calculation succeeds only with a sizing packet that fits. -/
theorem calculateMaxPointers_inv {E : Env} {o : TreeOptions} {ctx : NameCtx} {total n : Nat} {s s' : BState}
    (h : calculateMaxPointers E o ctx total s = (.ok n, s')) :
    2 ≤ n ∧ n ≤ 0x10000 ∧ ∃ p s1 s2 len, sizingPacket E o ctx total n s1 = (.ok p, s2) ∧ p.len = .ok len ∧ len ≤ o.maxPacketSize := by
  unfold calculateMaxPointers at h
  obtain ⟨p, s1, _, h⟩ := PyS.bind_ok h
  obtain ⟨len, _, h⟩ := PyS.liftBind_ok h
  split at h
  · cases h
  · simp only at h
    obtain ⟨q, s2, hq, h⟩ := PyS.bind_ok h
    obtain ⟨len2, hlen, h⟩ := PyS.liftBind_ok h
    split at h
    · cases h
    · rename_i hle
      split at h
      · cases h
      · rename_i h2
        cases h
        exact ⟨by omega, sizingPacket_le hq, q, s1, _, len2, hq, hlen, by omega⟩

theorem createOptimizedTree_frame (E : Env) (L : FloatLog) (o : TreeOptions) (ctx : NameCtx) (file : FileMetadata) (s : BState) :
    ∃ k, (createOptimizedTree E L o ctx file s).2 = { s with nonces := k } := by
  unfold createOptimizedTree
  obtain ⟨k, hk⟩ := calculateMaxPointers_frame E o ctx file.totalBytes s
  rw [PyS.bind_run]
  split
  · rename_i p s1 h
    rw [h] at hk
    simp only at hk
    subst hk
    split
    · exact ⟨k, rfl⟩
    · exact ⟨k, rfl⟩
  · rename_i e s1 h
    rw [h] at hk
    exact ⟨k, hk⟩

theorem createOptimizedTree_inv {E : Env} {L : FloatLog} {o : TreeOptions} {ctx : NameCtx} {file : FileMetadata} {s s' : BState}
    {r : OptimizerResult} (h : createOptimizedTree E L o ctx file s = (.ok r, s')) :
    ∃ p q s1, calculateMaxPointers E o ctx file.totalBytes s = (.ok p, s1) ∧ q ≤ p ∧
      q = (match o.maxTreeDegree with | none => p | some k => min p k) ∧ minimizeKMinWaste L file.chunks.length q = .ok r := by
  unfold createOptimizedTree at h
  obtain ⟨p, s1, hp, h⟩ := PyS.bind_ok h
  split at h
  · cases h
  · obtain ⟨h, _⟩ := PyS.lift_ok h
    refine ⟨p, _, s1, hp, ?_, rfl, h⟩
    split <;> omega

/-! ## Chunks -/

theorem chunkData_count {sha : Bytes → Bytes} {i : SchemaImpl} {o : ChunkOptions} {stream : Stream} {st st' : ChunkState}
    {file : FileMetadata} (h : i.chunkData sha o stream st = (.ok file, st')) : file.chunks.length ≤ MAX_CHUNK_ID + 1 := by
  unfold SchemaImpl.chunkData at h
  obtain ⟨size, hsize, h⟩ := PyS.liftBind_ok h
  obtain ⟨_, _, _, hpos, _⟩ := payloadSize_ok hsize
  obtain ⟨bs, ps, ms, _, _, _, h3, h4, _, h6⟩ := chunkLoop_ok hpos (Stream.read_nil stream size hpos)
    (Stream.read_le stream size) h
  have hlen : ms.length = bs.length := by simpa using congrArg List.length h3.sizes
  rw [h4, List.nil_append, hlen]
  by_cases hb : bs = []
  · rw [hb]; exact Nat.zero_le _
  · have := h6 hb
    omega

theorem chunkLoop_data {sha : Bytes → Bytes} {i : SchemaImpl} {o : ChunkOptions} {size fuel : Nat} {payload : Bytes}
    {stream : Stream} {acc : List ChunkMetadata} {total : Nat} {st : ChunkState} (hst : ∀ q ∈ st.output, q.body.payloadType = some PT_DATA) :
    ∀ q ∈ (i.chunkLoop sha o size fuel payload stream acc total st).2.output, q.body.payloadType = some PT_DATA := by
  induction fuel generalizing payload stream acc total st with
  | zero =>
    by_cases hp : payload.length = 0
    · rw [chunkLoop_done hp]
      exact hst
    · rw [SchemaImpl.chunkLoop.eq_def]
      simp only [hp, if_false]
      exact hst
  | succ fuel ih =>
    by_cases hp : payload.length = 0
    · rw [chunkLoop_done hp]
      exact hst
    · rw [chunkLoop_step hp]
      split
      · exact hst
      · split
        · exact hst
        · rename_i p hv hpk
          obtain ⟨nm, hnm, hpk⟩ := bind_eq_ok.mp hpk
          obtain ⟨q, hq, hpk⟩ := bind_eq_ok.mp hpk
          obtain ⟨hq', hhq, hpk⟩ := bind_eq_ok.mp hpk
          cases hpk
          obtain ⟨hbody, _⟩ := dataPacket_ok hq
          refine ih ?_
          intro q hq
          rcases List.mem_append.mp hq with hq | hq
          · exact hst q hq
          · rw [List.mem_singleton.mp hq, hbody]
            rfl

/-- Whatever the outcome, only data objects are written. -/
theorem chunkData_data (sha : Bytes → Bytes) (i : SchemaImpl) (o : ChunkOptions) (stream : Stream) :
    ∀ q ∈ (i.chunkData sha o stream {}).2.output, q.body.payloadType = some PT_DATA := by
  unfold SchemaImpl.chunkData
  cases hs : i.payloadSize o with
  | error e => simp [PyS.bind_run]
  | ok size =>
    rw [PyS.liftBind_run rfl]
    exact chunkLoop_data (by simp)

/-! ## The whole tree -/

/-- The steps of a successful build. -/
structure FileRun (E : Env) (L : FloatLog) (o : TreeOptions) (nc : Nat) (input : Stream) (root : Packet) (out : List Packet) where
  ctx : NameCtx
  file : FileMetadata
  bs : List Bytes
  ps : List Packet
  r : OptimizerResult
  s0 : BState
  top : Built
  s1 : BState
  topHash : HashValue
  rootNode : Node
  s2 : BState
  ctx_ok : NameCtx.create o.schemaType nc o.name o.manifestPrefix o.dataPrefix o.manifestLocators o.dataLocators = .ok ctx
  bytes : bs.flatten = input.rest
  chunked : Spec.Chunked E.prims.sha256 ctx.data o.dataExpiry 0 bs ps file.chunks
  total : file.totalBytes = input.rest.length
  count : file.chunks.length ≤ MAX_CHUNK_ID + 1
  tree : ∃ s, createOptimizedTree E L o ctx file { output := ps } = (.ok r, s)
  s0_out : s0.output = ps
  nonempty : 1 ≤ file.chunks.length
  direct : 1 ≤ r.direct
  indirect : 1 ≤ r.indirect
  pointers : r.direct + r.indirect ≤ 0x10000
  built : buildTree ⟨E, o, ctx, file.chunks, r.direct, r.indirect, r.height⟩ s0 = (.ok top, s1)
  hash : top.packet.hash E.prims.sha256 = .ok topHash
  root_ok : rootPacket E o ctx file.totalBytes topHash s1 = (.ok ⟨root, rootNode⟩, s2)
  out_eq : out = s1.output ++ [root]
  run : ∃ st, ctx.data.chunkData E.prims.sha256 o.chunk input {} = (.ok file, st)
  put : (ctx.data.chunkData E.prims.sha256 o.chunk input {}).2.output = ps

theorem rootPacket_frame (E : Env) (o : TreeOptions) (ctx : NameCtx) (total : Nat) (h : HashValue) (s : BState) :
    ∃ k, (rootPacket E o ctx total h s).2 = { s with nonces := k } := by
  unfold rootPacket
  rw [PyS.bind_run]
  split
  · rename_i g s1 hg
    obtain ⟨_, rfl⟩ := PyS.lift_ok hg
    rw [PyS.bind_run]
    split
    · rename_i node s2 hn
      obtain ⟨_, rfl⟩ := PyS.lift_ok hn
      rw [PyS.bind_run]
      obtain ⟨k, hk⟩ := buildFromNode_frame E o node o.name o.rootExpiry o.signer true s2
      split
      · rename_i p s3 hp
        rw [hp] at hk
        exact ⟨k, hk⟩
      · rename_i e s3 hp
        rw [hp] at hk
        exact ⟨k, hk⟩
    · rename_i e s2 hn
      obtain ⟨_, rfl⟩ := PyS.lift_error hn
      exact ⟨_, rfl⟩
  · rename_i e s1 hg
    obtain ⟨_, rfl⟩ := PyS.lift_error hg
    exact ⟨_, rfl⟩

theorem buildRooted_inv {T : TreeEnv} {total : Nat} {s s' : BState} {p : Packet} (h : buildRooted T total s = (.ok p, s')) :
    ∃ top s1 hv node s2, buildTree T s = (.ok top, s1) ∧ top.packet.hash T.env.prims.sha256 = .ok hv ∧
      rootPacket T.env T.opts T.ctx total hv s1 = (.ok ⟨p, node⟩, s2) ∧ s'.output = s1.output ++ [p] := by
  unfold buildRooted at h
  obtain ⟨top, s1, h1, h⟩ := PyS.bind_ok h
  obtain ⟨hv, h2, h⟩ := PyS.liftBind_ok h
  obtain ⟨⟨q, node⟩, s2, h3, h⟩ := PyS.bind_ok h
  obtain ⟨_, s3, h4, h⟩ := PyS.bind_ok h
  cases h4
  cases h
  refine ⟨top, s1, hv, node, s2, h1, h2, h3, ?_⟩
  obtain ⟨k, hk⟩ := rootPacket_frame T.env T.opts T.ctx total hv s1
  rw [h3] at hk
  simp only at hk
  subst hk
  rfl

theorem tree_pos {E : Env} {L : FloatLog} {o : TreeOptions} {ctx : NameCtx} {file : FileMetadata} {s s' : BState}
    {r : OptimizerResult} (h : createOptimizedTree E L o ctx file s = (.ok r, s')) (hc : file.chunks.length ≤ MAX_CHUNK_ID + 1) :
    1 ≤ file.chunks.length ∧ 1 ≤ r.direct ∧ 1 ≤ r.indirect ∧ r.direct + r.indirect ≤ 0x10000 := by
  obtain ⟨p, q, s1, hp, hq, _, hr⟩ := createOptimizedTree_inv h
  obtain ⟨_, hle, _⟩ := calculateMaxPointers_inv hp
  unfold MAX_CHUNK_ID at hc
  obtain ⟨h1, _, h2, h3, h4⟩ := minimizeKMinWaste_pos hr (by omega) (by omega)
  exact ⟨h1, h2, h3, by omega⟩

theorem manifestTree_ok {E : Env} {L : FloatLog} {o : TreeOptions} {nc : Nat} {input : Stream} {root : Packet} {out : List Packet}
    (h : manifestTree E L o nc input = (.ok root, out)) : Nonempty (FileRun E L o nc input root out) := by
  unfold manifestTree at h
  cases hctx : NameCtx.create o.schemaType nc o.name o.manifestPrefix o.dataPrefix o.manifestLocators o.dataLocators with
  | error e => rw [hctx] at h; cases h
  | ok ctx =>
    simp only [hctx] at h
    rcases hch : ctx.data.chunkData E.prims.sha256 o.chunk input {} with ⟨_ | file, st⟩
    · rw [hch] at h; cases h
    · simp only [hch] at h
      rcases hopt : createOptimizedTree E L o ctx file { output := st.output } with ⟨_ | r, s0⟩
      · rw [hopt] at h; cases h
      · simp only [hopt] at h
        rcases hb : buildRooted ⟨E, o, ctx, file.chunks, r.direct, r.indirect, r.height⟩ file.totalBytes s0 with ⟨_ | p, s3⟩
        · rw [hb] at h; cases h
        · simp only [hb] at h
          cases h
          obtain ⟨top, s1, hv, node, s2, b1, b2, b3, b4⟩ := buildRooted_inv hb
          obtain ⟨bs, ps, c1, c2, c3, c4⟩ := C38_chunks hch
          have hcount := chunkData_count hch
          obtain ⟨p1, p2, p3, p4⟩ := tree_pos hopt hcount
          obtain ⟨k, hk⟩ := createOptimizedTree_frame E L o ctx file { output := st.output }
          rw [hopt] at hk
          simp only at hk
          have hst : st.output = ps := by rw [c4]; rfl
          exact ⟨⟨ctx, file, bs, ps, r, s0, top, s1, hv, node, s2, hctx, c1, c2, c3, hcount, ⟨s0, by rw [← hst]; exact hopt⟩,
            by rw [hk, hst], p1, p2, p3, p4, b1, b2, b3, b4, ⟨st, hch⟩, by rw [hch]; exact hst⟩⟩

end Ccnpy
