import Verif.Props.FileProps
import Verif.Lemmas.TreeSize
import Verif.Lemmas.ToyFile

/-!
# C48: how long manifest packets are

The builder sizes its manifests with a packet that has no name and no expiry time and whose groups carry a leaf size and a
subtree size of one byte each.
-/

namespace Ccnpy

/-- Specification: bytes of the shortest encoding of an unsigned integer. -/
def Spec.intBytes (n : Nat) : Nat :=
  if n < 2 ^ 8 then 1 else if n < 2 ^ 16 then 2 else if n < 2 ^ 24 then 3 else if n < 2 ^ 32 then 4 else 8

theorem intBytes_eq (n : Nat) : Spec.intBytes n = numWidth n := rfl

/-- Specification: the most that the annotations of one hash group take, for a file of `total` bytes. -/
def Spec.annotationBytes (o : TreeOptions) (total : Nat) : Nat :=
  (if o.addGroupLeafSize then 4 + Spec.intBytes total else 0) + (if o.addGroupSubtreeSize then 4 + Spec.intBytes total else 0)

theorem annotationBytes_eq (o : TreeOptions) (total : Nat) : Spec.annotationBytes o total = annotLen o total := rfl

theorem chunked_type {sha : Bytes → Bytes} {i : SchemaImpl} {x : Option F64} {k : Nat} {bs : List Bytes} {ps : List Packet}
    {ms : List ChunkMetadata} (h : Spec.Chunked sha i x k bs ps ms) : ∀ p ∈ ps, p.body.payloadType = some PT_DATA := by
  induction bs generalizing k ps ms with
  | nil => cases ps <;> cases ms <;> simp_all [Spec.Chunked]
  | cons b bs ih =>
    cases ps <;> cases ms <;> simp only [Spec.Chunked] at h
    intro p hp
    rcases List.mem_cons.mp hp with rfl | hp
    · exact h.2.2.2.2.2.1
    · exact ih h.2.2.2.2.2.2.2.2.2.2.2 p hp

/-- C48 in general: by how much a manifest below the root can exceed the maximum packet size.  `k` is the number of hash groups
of its node, one or two.  The excess is at most the name, the expiry time, five bytes for start ids of more than 24 bits, and
what the size annotations of the groups take beyond the ten bytes per group that were planned for. -/
theorem C48_excess (E : Env) (L : FloatLog) (o : TreeOptions) (nextNcId : Nat) (input : Stream) (root : Packet) (out : List Packet)
    (hsha : ∀ b, (E.prims.sha256 b).length = 32) (hreg : Regular E)
    (h : manifestTree E L o nextNcId input = (.ok root, out)) :
    ∃ (data : List Packet) (made : List Built), out = data ++ made.map (·.packet) ++ [root] ∧
      (∀ p ∈ data, p.body.payloadType = some PT_DATA) ∧
      ∀ b ∈ made, ∃ name s s' len wire, buildFromNode E o b.node name o.manifestExpiry none false s = (.ok b.packet, s') ∧
        b.packet.len = .ok len ∧ optWire Name.tlv name = .ok wire ∧
        (o.schemaType = .hashed → name = none) ∧ 1 ≤ b.node.hashGroups.length ∧ b.node.hashGroups.length ≤ 2 ∧
        len + 10 * b.node.hashGroups.length ≤ o.maxPacketSize + wire.length + (if o.manifestExpiry.isSome then 12 else 0) +
          (if o.schemaType = .segmented then 5 else 0) + b.node.hashGroups.length * Spec.annotationBytes o input.rest.length := by
  obtain ⟨R⟩ := manifestTree_ok h
  obtain ⟨ids, level, i, kids, _, h2, h3, _, _, _, _⟩ := buildTree_ok (T := ⟨E, o, R.ctx, R.file.chunks, R.r.direct, R.r.indirect, R.r.height⟩)
    R.direct R.indirect R.nonempty R.built
  have hmade := h2.made
  have heach := h2.each
  simp only [Forest.written, List.nil_append] at hmade heach
  obtain ⟨s0, hopt⟩ := R.tree
  obtain ⟨P, q, s1, hP, hqP, _, hmin⟩ := createOptimizedTree_inv hopt
  obtain ⟨hP2, hPle, pk, s2, s3, plen, hsz, hpl, hfit⟩ := calculateMaxPointers_inv hP
  have hcount := R.count
  obtain ⟨_, _, _, _, hdm⟩ := minimizeKMinWaste_pos hmin (by unfold MAX_CHUNK_ID at hcount; omega) (by omega)
  obtain ⟨snode, st, hst, hsb, hslen⟩ := sizingPacket_node (by omega) hsz
  obtain ⟨sm, _, sw, sn, hsm, hsw, hsn, _, hspl⟩ := buildFromNode_len hsb
  cases hsn
  rw [hpl] at hspl
  have hspl := Except.ok.inj hspl
  obtain ⟨c1, c2, c3⟩ := nameCtx_inv R.ctx_ok
  obtain ⟨t1, t2, _, t4⟩ := R.chunked.sum
  rw [R.bytes] at t1
  refine ⟨R.ps, (kids.written ++ [i]).map Info.built, ?_, chunked_type R.chunked, ?_⟩
  · refine R.out_eq.trans ?_
    rw [h3.wrote.1, List.map_map]
    simp only [startState, R.s0_out]
    rfl
  intro b hb
  obtain ⟨j, hj, rfl⟩ := List.mem_map.mp hb
  obtain ⟨_, name, s, s', hname, hbuild⟩ := hmade j hj
  obtain ⟨m, _, w, wire, hm, hw, hwire, _, hlen⟩ := buildFromNode_len hbuild
  obtain ⟨t, ht⟩ := buildManifest_node hm
  obtain ⟨ks, l, hs, hv, hhi, _⟩ := heach j hj
  have hex := node_excess (T := ⟨E, o, R.ctx, R.file.chunks, R.r.direct, R.r.indirect, R.r.height⟩) (total := input.rest.length) (n := P)
    ⟨c1, c2⟩ hsha (by
      intro c hc
      refine ⟨?_, ?_⟩
      · obtain ⟨p, _, hp⟩ := chunked_hashes R.chunked c hc
        exact packetHash_len hsha hp
      · have : c.chunkNumber ∈ R.file.chunks.map (·.chunkNumber) := List.mem_map_of_mem hc
        have hl := congrArg List.length t2
        rw [t2, List.mem_range'_1] at this
        rw [List.length_map, List.length_range'] at hl
        omega) (Nat.le_of_eq t1) (by simp only; omega) (by omega) hs hv hhi ht
  have hwd := buildManifest_len hreg hm hsm hw hsw ht hst
  refine ⟨name, s, s', _, wire, hbuild, hlen, hwire, ?_, ?_, ?_, ?_⟩
  · intro hty
    have hctx := R.ctx_ok
    rw [hty] at hctx
    obtain ⟨⟨l, hl⟩, _⟩ := nameCtx_hashed hctx
    rcases getName_inv hname with ⟨_, _, _, h⟩ | ⟨_, _, hh⟩ | ⟨_, _, _, _, hh, _⟩
    · exact h
    · simp only [hl] at hh; cases hh
    · simp only [hl] at hh; cases hh
  · obtain ⟨_, ⟨_, _, hnode⟩ | ⟨_, _, _, _, hnode⟩⟩ := hs
    · simp [Info.built, hnode, TreeEnv.leafNode]
    · simp only [Info.built, hnode, TreeEnv.interiorNode, TreeEnv.interiorGroups]
      split <;> simp
  · obtain ⟨_, ⟨_, _, hnode⟩ | ⟨_, _, _, _, hnode⟩⟩ := hs
    · simp [Info.built, hnode, TreeEnv.leafNode]
    · simp only [Info.built, hnode, TreeEnv.interiorNode, TreeEnv.interiorGroups]
      split <;> simp
  · rw [annotationBytes_eq]
    have hu : (if R.ctx.manifest.usesNameId = true then 5 else 0) = (if o.schemaType = .segmented then 5 else 0) := by
      simp only [c3]
    have htot : R.file.totalBytes = input.rest.length := R.total
    rw [htot] at hslen
    simp only [hu, Info.built] at hex ⊢
    simp only [List.length_nil, Option.isSome_none, Bool.false_eq_true, if_false] at hspl
    omega

/-- C48: with the hashed schema, no expiry time for manifests and at most one of the two group annotations (and, if one is on,
a file shorter than 4 GiB) no manifest below the root exceeds the maximum packet size. -/
theorem C48_hashed_bound (E : Env) (L : FloatLog) (o : TreeOptions) (nextNcId : Nat) (input : Stream) (root : Packet) (out : List Packet)
    (hsha : ∀ b, (E.prims.sha256 b).length = 32) (hreg : Regular E)
    (hty : o.schemaType = .hashed) (hexp : o.manifestExpiry = none)
    (hann : (o.addGroupLeafSize = false ∧ o.addGroupSubtreeSize = false) ∨
      ((o.addGroupLeafSize = false ∨ o.addGroupSubtreeSize = false) ∧ input.rest.length < 2 ^ 32))
    (h : manifestTree E L o nextNcId input = (.ok root, out)) (a b : List Packet) (p : Packet) (hsplit : out = a ++ p :: b)
    (hb : b ≠ []) (hp : p.body.payloadType = some PT_MANIFEST) : ∃ len, p.len = .ok len ∧ len ≤ o.maxPacketSize := by
  obtain ⟨data, made, hout, hdata, hall⟩ := C48_excess E L o nextNcId input root out hsha hreg h
  have hmem : p ∈ data ++ made.map (·.packet) := by
    rw [hsplit] at hout
    have hl := congrArg List.dropLast hout
    rw [List.dropLast_concat, List.dropLast_append_of_ne_nil (by simp), List.dropLast_cons_of_ne_nil hb] at hl
    rw [← hl]
    simp
  rcases List.mem_append.mp hmem with hm | hm
  · rw [hdata p hm] at hp
    exact absurd hp (by decide)
  · obtain ⟨q, hq, rfl⟩ := List.mem_map.mp hm
    obtain ⟨name, s, s', len, wire, _, hlen, hwire, hname, hk1, hk2, hle⟩ := hall q hq
    refine ⟨len, hlen, ?_⟩
    cases hname hty
    cases hwire
    simp only [hexp, hty, Option.isSome_none, Bool.false_eq_true, if_false, reduceCtorEq, List.length_nil] at hle
    have ha : Spec.annotationBytes o input.rest.length ≤ 10 := by
      unfold Spec.annotationBytes Spec.intBytes
      rcases hann with ⟨h1, h2⟩ | ⟨h1 | h1, h2⟩
      · simp [h1, h2]
      · rw [h1]
        simp only [Bool.false_eq_true, if_false, h2, if_true]
        repeat' split
        all_goals omega
      · rw [h1]
        simp only [Bool.false_eq_true, if_false, h2, if_true]
        repeat' split
        all_goals omega
    have := Nat.mul_le_mul_left q.node.hashGroups.length ha
    omega

/-! ## The bound does not hold in general -/

/-- Specification: some build with these options leaves a manifest below the root that is longer than the maximum packet size. -/
def Spec.SizeExceeded (o : TreeOptions) : Prop :=
  ∃ (E : Env) (L : FloatLog) (nextNcId : Nat) (input : Stream) (root : Packet) (a : List Packet) (p : Packet) (b : List Packet) (len : Nat),
    (∀ x, (E.prims.sha256 x).length = 32) ∧ Regular E ∧ manifestTree E L o nextNcId input = (.ok root, a ++ p :: b) ∧ b ≠ [] ∧
    p.body.payloadType = some PT_MANIFEST ∧ p.len = .ok len ∧ o.maxPacketSize < len

theorem Toy.sha_length (x : Bytes) : (Toy.env.prims.sha256 x).length = 32 := by
  simp [Toy.env, Toy.prims, Toy.sha]

theorem Toy.regular : Regular Toy.env where
  tag := by
    intro alg key iv pt aad c h
    cases h
    simp
  nonce := by simp [Toy.env]

/-- The packet at position `k` of a build is such a manifest. -/
def tooLongAt (o : TreeOptions) (input : Stream) (k : Nat) : Bool :=
  match manifestTree Toy.env Spec.exactLog o 1 input with
  | (.ok _, out) => (k + 1 < out.length) && match out[k]? with
    | some p => (p.body.payloadType == some PT_MANIFEST) && match p.len with | .ok n => o.maxPacketSize < n | .error _ => false
    | none => false
  | (.error _, _) => false

theorem exceeded_of_eval {o : TreeOptions} {input : Stream} {k : Nat} (h : tooLongAt o input k = true) : Spec.SizeExceeded o := by
  unfold tooLongAt at h
  rcases hm : manifestTree Toy.env Spec.exactLog o 1 input with ⟨e | root, out⟩
  · rw [hm] at h; cases h
  · simp only [hm, Bool.and_eq_true, decide_eq_true_eq] at h
    obtain ⟨hlt, h⟩ := h
    have hk : k < out.length := by omega
    rw [List.getElem?_eq_getElem hk] at h
    simp only [Bool.and_eq_true, beq_iff_eq] at h
    obtain ⟨hp, h⟩ := h
    cases hl : out[k].len with
    | error e => rw [hl] at h; cases h
    | ok len =>
      simp only [hl, decide_eq_true_eq] at h
      refine ⟨Toy.env, Spec.exactLog, 1, input, root, out.take k, out[k], out.drop (k + 1), len, Toy.sha_length, Toy.regular, ?_, ?_, hp, hl, h⟩
      · rw [List.getElem_cons_drop, List.take_append_drop, hm]
      · intro h0
        have := congrArg List.length h0
        simp at this
        omega

/-- The first nine chunks have four bytes, the rest of the file is in larger ones. -/
def Toy.shortReads (n : Nat) : Stream := ⟨Toy.bytes n, List.replicate 9 4⟩

/-- Prefix schema; the manifest prefix is one segment of 24 bytes. -/
def Toy.longPrefix : TreeOptions :=
  { Toy.options .prefixed false with manifestPrefix := Toy.seg (List.replicate 24 109), maxPacketSize := 196 }

/-- Segmented schema with the same prefix. -/
def Toy.longSegment : TreeOptions :=
  { Toy.options .segmented false with manifestPrefix := Toy.seg (List.replicate 24 109), maxPacketSize := 210 }

/-- Hashed schema, expiry time for manifests. -/
def Toy.withExpiry : TreeOptions := { Toy.options .hashed false with manifestExpiry := some (F64.ofNat 5), maxPacketSize := 205 }

/-- Hashed schema, both annotations. -/
def Toy.annotated : TreeOptions :=
  { Toy.options .hashed false with addGroupLeafSize := true, addGroupSubtreeSize := true, maxPacketSize := 206 }

set_option maxRecDepth 100000 in
/-- C48: named manifests of the prefix schema can exceed the maximum packet size. -/
theorem C48_prefix_can_exceed : Spec.SizeExceeded Toy.longPrefix :=
  exceeded_of_eval (input := Toy.shortReads 30) (k := 10) (by decide +kernel)

set_option maxRecDepth 100000 in
/-- C48: so can those of the segmented schema. -/
theorem C48_segmented_can_exceed : Spec.SizeExceeded Toy.longSegment :=
  exceeded_of_eval (input := Toy.shortReads 40) (k := 12) (by decide +kernel)

set_option maxRecDepth 100000 in
/-- C48: hashed manifests with an expiry time can exceed it. -/
theorem C48_expiry_can_exceed : Spec.SizeExceeded Toy.withExpiry :=
  exceeded_of_eval (input := Toy.shortReads 40) (k := 10) (by decide +kernel)

set_option maxRecDepth 100000 in
/-- C48: hashed manifests with both size annotations can exceed it. -/
theorem C48_annotations_can_exceed : Spec.SizeExceeded Toy.annotated :=
  exceeded_of_eval (input := Toy.shortReads 300) (k := 11) (by decide +kernel)

/-! ## The hypotheses can be met -/

/-- Encrypted manifests with leaf sizes. -/
def Toy.leafSizes : TreeOptions := { Toy.options .hashed true with addGroupLeafSize := true, maxPacketSize := 224 }

set_option maxRecDepth 100000 in
example : ∃ root out, manifestTree Toy.env Spec.exactLog Toy.leafSizes 1 (Toy.shortReads 300) = (.ok root, out) ∧
    (out.filter (fun p => p.body.payloadType == some PT_MANIFEST)).length = 6 :=
  Toy.ok_of_eval (f := fun out : List Packet => (out.filter (fun p : Packet => p.body.payloadType == some PT_MANIFEST)).length) (by decide +kernel)

example : (∀ b, (Toy.env.prims.sha256 b).length = 32) ∧ Regular Toy.env := ⟨Toy.sha_length, Toy.regular⟩

end Ccnpy
