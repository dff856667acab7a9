import Verif.Props.TreeProps
import Verif.Lemmas.TreeFile

/-!
# C42 (names), C43 and C46 for whole files, C47: write order
-/

namespace Ccnpy

open Spec

/-! ## C42: names -/

/-- C42 (c): with the segmented schema no two manifests of a build have the same name. -/
theorem C42_segmented_names_distinct (T : TreeEnv) (hd : 1 ≤ T.direct) (hm : 1 ≤ T.indirect) (hn : 1 ≤ T.chunks.length)
    (hex : Spec.IdsExact T) (hsz : Spec.treeNodes T.indirect T.height.toNat ≤ 2 ^ 64)
    (hseg : ∃ p st l f, T.ctx.manifest.schema = .segmented p st l f) (s s' : BState) (r : Built)
    (h : buildTree T s = (.ok r, s')) :
    ∃ packets, s'.output = s.output ++ packets ∧ (packets.map (·.body.name)).Nodup ∧ ∀ p ∈ packets, p.body.name ≠ none := by
  obtain ⟨made, h1, h2, h3, h4⟩ := C42_ids_distinct T hd hm hn hex s s' r h
  have hname : ∀ x ∈ made, T.ctx.manifest.getName (some (x.1 : Int)) = .ok x.2.packet.body.name ∧ x.2.packet.body.name ≠ none ∧
      ∃ n w, x.2.packet.body.name = some n ∧ wireOf Name.tlv n = .ok w := by
    intro x hx
    obtain ⟨name, s0, s1, hg, hb⟩ := h2 x hx
    obtain ⟨_, _, w, _, _, _, hbody, _⟩ := buildFromNode_inv hb
    have hnm : x.2.packet.body.name = name := by rw [hbody]; rfl
    rw [hnm]
    obtain ⟨p, st, l, f, hs⟩ := hseg
    rcases getName_inv hg with ⟨_, _, hh, _⟩ | ⟨_, _, hh⟩ | ⟨_, _, _, _, _, _, rfl, t, ht⟩
    · rw [hs] at hh; cases hh
    · rw [hs] at hh; cases hh
    · obtain ⟨_, hv, _⟩ := Name.tlv_iff.mp ht
      exact ⟨hg, by simp, _, _, rfl, wireOf_of_tlv ht (by have := Name.tlv_ok ht; obtain ⟨_, _, _, _, hv⟩ := this; exact hv)⟩
  refine ⟨made.map (·.2.packet), h1, ?_, ?_⟩
  · rw [List.map_map]
    have h3 := List.pairwise_map.mp h3
    refine List.pairwise_map.mpr (h3.imp_of_mem ?_)
    intro a b ha hb hne he
    obtain ⟨a1, _, n, w, a3, a4⟩ := hname a ha
    obtain ⟨b1, _, _⟩ := hname b hb
    have he : a.2.packet.body.name = b.2.packet.body.name := he
    rw [← he, a3] at b1
    rw [a3] at a1
    have := h4 a ha
    have := h4 b hb
    exact hne (C55_segmented_distinct (by omega) (by omega) hseg a1 b1 a4 a4)
  · intro p hp
    obtain ⟨x, hx, rfl⟩ := List.mem_map.mp hp
    exact (hname x hx).2.1

/-! ## C47: write order -/

/-- Specification: the packet is a data object, or a manifest made by the factory of a node whose pointers all lead to packets
in `before`. -/
def Spec.Supported (E : Env) (o : TreeOptions) (before : List Packet) (p : Packet) : Prop :=
  p.body.payloadType = some PT_DATA ∨
  ∃ node name expiry signer full s s', buildFromNode E o node name expiry signer full s = (.ok p, s') ∧
    ∀ h ∈ Spec.pointers node, ∃ q ∈ before, q.hash E.prims.sha256 = .ok h

/-- Every packet is supported by those before it. -/
def AllSupported (E : Env) (o : TreeOptions) (out : List Packet) : Prop := ∀ a p b, out = a ++ p :: b → Spec.Supported E o a p

theorem AllSupported.nil (E : Env) (o : TreeOptions) : AllSupported E o [] := by
  intro a p b h
  simp at h

theorem AllSupported.snoc {E : Env} {o : TreeOptions} {out : List Packet} {p : Packet} (h : AllSupported E o out)
    (hp : Spec.Supported E o out p) : AllSupported E o (out ++ [p]) := by
  intro a q b hab
  rcases List.append_eq_append_iff.mp hab with ⟨c, h1, h2⟩ | ⟨c, h1, h2⟩
  · cases c with
    | nil =>
      simp only [List.nil_append, List.cons.injEq] at h2
      obtain ⟨rfl, _⟩ := h2
      rw [h1, List.append_nil]
      exact hp
    | cons x c =>
      simp at h2
  · cases c with
    | nil =>
      simp only [List.nil_append, List.cons.injEq] at h2
      obtain ⟨rfl, _⟩ := h2
      rw [List.append_nil] at h1
      rw [← h1]
      exact hp
    | cons x c =>
      simp only [List.cons_append, List.cons.injEq] at h2
      obtain ⟨rfl, _⟩ := h2
      exact h a q c h1

theorem allSupported_data {E : Env} {o : TreeOptions} {ps : List Packet} (h : ∀ p ∈ ps, p.body.payloadType = some PT_DATA) :
    AllSupported E o ps := by
  intro a p b hab
  exact .inl (h p (by rw [hab]; simp))

theorem allSupported_made {T : TreeEnv} {l : List Info} {out : List Packet} {known : List HashValue}
    (h : AllSupported T.env T.opts out) (hk : ∀ x ∈ known, ∃ q ∈ out, q.hash T.env.prims.sha256 = .ok x) (hc : Closed known l)
    (hm : ∀ i ∈ l, i.Made T) : AllSupported T.env T.opts (out ++ l.map (·.packet)) := by
  induction l generalizing out known with
  | nil => simpa using h
  | cons i l ih =>
    rw [List.map_cons, List.append_cons]
    obtain ⟨hh, name, s, s', _, hb⟩ := hm i (by simp)
    refine ih (known := known ++ [i.hash]) (h.snoc (.inr ⟨i.node, name, _, _, _, s, s', hb, ?_⟩)) ?_ hc.2 (fun j hj => hm j (by simp [hj]))
    · intro x hx
      rw [pointers_eq] at hx
      exact hk x (hc.1 x hx)
    · intro x hx
      rcases List.mem_append.mp hx with hx | hx
      · obtain ⟨q, hq, hqh⟩ := hk x hx
        exact ⟨q, by simp [hq], hqh⟩
      · exact ⟨i.packet, by simp, by rw [List.mem_singleton.mp hx]; exact hh⟩

theorem chunked_hashes {sha : Bytes → Bytes} {i : SchemaImpl} {x : Option F64} {k : Nat} {bs : List Bytes} {ps : List Packet}
    {ms : List ChunkMetadata} (h : Spec.Chunked sha i x k bs ps ms) : ∀ m ∈ ms, ∃ q ∈ ps, q.hash sha = .ok m.hash := by
  induction bs generalizing k ps ms with
  | nil => cases ps <;> cases ms <;> simp_all [Spec.Chunked]
  | cons b bs ih =>
    cases ps <;> cases ms <;> simp only [Spec.Chunked] at h
    intro m hm
    rcases List.mem_cons.mp hm with rfl | hm
    · exact ⟨_, List.mem_cons_self .., h.2.2.2.1⟩
    · obtain ⟨q, hq, hqh⟩ := ih h.2.2.2.2.2.2.2.2.2.2.2 m hm
      exact ⟨q, List.mem_cons_of_mem _ hq, hqh⟩

/-- The root manifest has one pointer, to the top of the tree. -/
theorem rootPacket_inv {E : Env} {o : TreeOptions} {ctx : NameCtx} {total : Nat} {hv : HashValue} {s s' : BState} {r : Built}
    (h : rootPacket E o ctx total hv s = (.ok r, s')) :
    Spec.pointers r.node = [hv] ∧ ∃ s1, buildFromNode E o r.node o.name o.rootExpiry o.signer true s = (.ok r.packet, s1) := by
  unfold rootPacket at h
  obtain ⟨g, hg, h⟩ := PyS.liftBind_ok h
  obtain ⟨node, hn, h⟩ := PyS.liftBind_ok h
  obtain ⟨p, s1, hp, h⟩ := PyS.bind_ok h
  cases h
  obtain ⟨rfl, _⟩ := construct_inv hg
  obtain ⟨hnode, _⟩ := nodeFromGroups_inv hn
  refine ⟨?_, _, hp⟩
  simp only [hnode, Spec.pointers]
  rfl

/-- C47: however the build of a file ends, with a result or with an exception at any point, every packet written is a data
object or a manifest whose pointers all lead to packets written before it.  (An interrupted build has written an initial part
of such a list.) -/
theorem C47_no_dangling_pointers (E : Env) (L : FloatLog) (o : TreeOptions) (nextNcId : Nat) (input : Stream) (r : Py Packet)
    (out : List Packet) (h : manifestTree E L o nextNcId input = (r, out)) (a b : List Packet) (p : Packet)
    (hsplit : out = a ++ p :: b) : Spec.Supported E o a p := by
  suffices AllSupported E o out from this a p b hsplit
  unfold manifestTree at h
  cases hctx : NameCtx.create o.schemaType nextNcId o.name o.manifestPrefix o.dataPrefix o.manifestLocators o.dataLocators with
  | error e => rw [hctx] at h; cases h; exact .nil E o
  | ok ctx =>
    simp only [hctx] at h
    have hdata := chunkData_data E.prims.sha256 ctx.data o.chunk input
    rcases hch : ctx.data.chunkData E.prims.sha256 o.chunk input {} with ⟨e | file, st⟩
    · simp only [hch] at h hdata
      cases h
      exact allSupported_data hdata
    · simp only [hch] at h hdata
      obtain ⟨k, hk⟩ := createOptimizedTree_frame E L o ctx file { output := st.output }
      rcases hopt : createOptimizedTree E L o ctx file { output := st.output } with ⟨e | r, s0⟩
      · simp only [hopt] at h hk
        cases h
        subst hk
        exact allSupported_data hdata
      · simp only [hopt] at h hk
        obtain ⟨bs, ps, c1, c2, c3, c4⟩ := C38_chunks hch
        obtain ⟨p1, p2, p3, p4⟩ := tree_pos hopt (chunkData_count hch)
        have hout : s0.output = st.output := by rw [hk]
        have hst : st.output = ps := by rw [c4]; rfl
        have hrun := buildTree_any (T := ⟨E, o, ctx, file.chunks, r.direct, r.indirect, r.height⟩) p2 p3 p1 s0
        have hknown : ∀ x ∈ file.chunks.map (·.hash), ∃ q ∈ s0.output, q.hash E.prims.sha256 = .ok x := by
          intro x hx
          obtain ⟨m, hm, rfl⟩ := List.mem_map.mp hx
          rw [hout, hst]
          exact chunked_hashes c2 m hm
        have hbase : AllSupported E o s0.output := by rw [hout]; exact allSupported_data hdata
        rcases htree : buildTree ⟨E, o, ctx, file.chunks, r.direct, r.indirect, r.height⟩ s0 with ⟨e | top, s1⟩
        · have hb : buildRooted ⟨E, o, ctx, file.chunks, r.direct, r.indirect, r.height⟩ file.totalBytes s0 = (.error e, s1) := by
            unfold buildRooted
            rw [PyS.bind_run, htree]
          simp only [hb] at h
          cases h
          obtain ⟨_, l, hw, hc, hm⟩ := hrun.2 e s1 htree
          rw [hw.1]
          exact allSupported_made (T := ⟨E, o, ctx, file.chunks, r.direct, r.indirect, r.height⟩) hbase hknown hc hm
        · obtain ⟨ids, level, i, kids, _, h2, h3, h4, _, _, rfl, _⟩ := hrun.1 top s1 htree
          have hmade := h2.made
          simp only [Forest.written, List.nil_append] at hmade
          have hs1 : AllSupported E o s1.output := by
            rw [h3.wrote.1]
            exact allSupported_made (T := ⟨E, o, ctx, file.chunks, r.direct, r.indirect, r.height⟩) hbase hknown h4 hmade
          have hhash : i.packet.hash E.prims.sha256 = .ok i.hash := (hmade i (by simp)).1
          obtain ⟨k2, hk2⟩ := rootPacket_frame E o ctx file.totalBytes i.hash s1
          rcases hroot : rootPacket E o ctx file.totalBytes i.hash s1 with ⟨e | rb, s2⟩
          · have hb : buildRooted ⟨E, o, ctx, file.chunks, r.direct, r.indirect, r.height⟩ file.totalBytes s0 = (.error e, s2) := by
              unfold buildRooted
              rw [PyS.bind_run, htree]
              simp only
              rw [PyS.liftBind_run hhash, PyS.bind_run, hroot]
            simp only [hb] at h
            cases h
            rw [hroot] at hk2
            simp only at hk2
            subst hk2
            exact hs1
          · have hb : buildRooted ⟨E, o, ctx, file.chunks, r.direct, r.indirect, r.height⟩ file.totalBytes s0 =
                (.ok rb.packet, { s2 with output := s2.output ++ [rb.packet] }) := by
              unfold buildRooted
              rw [PyS.bind_run, htree]
              simp only
              rw [PyS.liftBind_run hhash, PyS.bind_run, hroot]
              rfl
            simp only [hb] at h
            cases h
            rw [hroot] at hk2
            simp only at hk2
            subst hk2
            obtain ⟨hptr, s3, hbuild⟩ := rootPacket_inv hroot
            refine hs1.snoc (.inr ⟨rb.node, _, _, _, _, s1, s3, hbuild, ?_⟩)
            intro x hx
            rw [hptr, List.mem_singleton] at hx
            subst hx
            exact ⟨i.packet, by rw [h3.wrote.1]; simp, hhash⟩

/-- C47: the root manifest is the last packet of a completed build, its only pointer leads to the packet written just before
it, and no earlier packet is the root. -/
theorem C47_root_last (E : Env) (L : FloatLog) (o : TreeOptions) (nextNcId : Nat) (input : Stream) (root : Packet)
    (out : List Packet) (h : manifestTree E L o nextNcId input = (.ok root, out)) :
    ∃ (before : List Packet) (top : Packet) (node : Node) (hv : HashValue) (s s' : BState), out = before ++ [top, root] ∧
      top.hash E.prims.sha256 = .ok hv ∧ Spec.pointers node = [hv] ∧
      buildFromNode E o node o.name o.rootExpiry o.signer true s = (.ok root, s') := by
  obtain ⟨R⟩ := manifestTree_ok h
  obtain ⟨hptr, s3, hb⟩ := rootPacket_inv R.root_ok
  obtain ⟨ids, level, i, kids, _, h2, h3, _, _, _, hr, _⟩ := buildTree_ok (T := ⟨E, o, R.ctx, R.file.chunks, R.r.direct, R.r.indirect, R.r.height⟩)
    R.direct R.indirect R.nonempty R.built
  refine ⟨R.s0.output ++ kids.written.map (·.packet), R.top.packet, R.rootNode, R.topHash, R.s1, s3, ?_, R.hash, hptr, hb⟩
  refine R.out_eq.trans ?_
  rw [h3.wrote.1, hr]
  simp [startState, Info.built]

/-! ## C43 for files -/

/-- C43 for a file: the packets written are the data packets, whose payloads make up the file, then the manifests, the root
last; walking from the root in pre-order visits the chunks of the file in order. -/
theorem C43_file (E : Env) (L : FloatLog) (o : TreeOptions) (nextNcId : Nat) (input : Stream) (root : Packet)
    (out : List Packet) (h : manifestTree E L o nextNcId input = (.ok root, out)) :
    ∃ (data : List Packet) (made : List Built) (rootNode : Node) (chunks : List ChunkMetadata) (depth : Nat),
      out = data ++ made.map (·.packet) ++ [root] ∧
      (data.map (fun p => p.body.payload.getD [])).flatten = input.rest ∧
      data.map (fun p => p.hash E.prims.sha256) = chunks.map (fun c => .ok c.hash) ∧
      (∀ b ∈ ⟨root, rootNode⟩ :: made, ∃ name expiry signer full s s', buildFromNode E o b.node name expiry signer full s = (.ok b.packet, s')) ∧
      Spec.Walk E.prims.sha256 made depth rootNode chunks := by
  obtain ⟨R⟩ := manifestTree_ok h
  obtain ⟨hptr, s3, hb⟩ := rootPacket_inv R.root_ok
  obtain ⟨made, h1, h2, h3, depth, h4⟩ := C43_preorder ⟨E, o, R.ctx, R.file.chunks, R.r.direct, R.r.indirect, R.r.height⟩
    R.direct R.indirect R.nonempty R.s0 R.s1 R.top R.built
  obtain ⟨_, _, hpay, hhash⟩ := R.chunked.sum
  refine ⟨R.ps, made, R.rootNode, R.file.chunks, depth + 1, ?_, ?_, ?_, ?_, ?_⟩
  · refine R.out_eq.trans ?_
    rw [h1, R.s0_out]
  · rw [← R.bytes]
    have := congrArg (List.map (fun o : Option Bytes => o.getD [])) hpay
    simp only [List.map_map, Function.comp_def, Option.getD_some, List.map_id'] at this
    rw [this]
  · exact hhash.symm
  · intro b hb'
    rcases List.mem_cons.mp hb' with rfl | hb'
    · exact ⟨_, _, _, _, _, _, hb⟩
    · obtain ⟨id, name, s, s', _, hbb⟩ := h3 b hb'
      exact ⟨_, _, _, _, _, _, hbb⟩
  · have := Spec.Walk.visit (sha := E.prims.sha256) (made := made) depth R.rootNode [] [⟨R.top, R.topHash, R.file.chunks⟩]
      (by rw [hptr]; rfl)
      (by
        intro k hk
        cases List.mem_singleton.mp hk
        exact ⟨List.mem_of_getLast? h2, R.hash⟩)
      (by
        intro k hk
        cases List.mem_singleton.mp hk
        exact h4)
    simpa using this

/-! ## C46 for files -/

/-- The packet holds the chunk: it has the hash and as many payload bytes as recorded. -/
def Spec.HoldsChunk (sha : Bytes → Bytes) (p : Packet) (c : ChunkMetadata) : Prop :=
  p.hash sha = .ok c.hash ∧ ∃ b, p.body.payload = some b ∧ c.payloadBytes = b.length

theorem Spec.Chunked.holds {sha : Bytes → Bytes} {i : SchemaImpl} {x : Option F64} {k : Nat} {bs : List Bytes}
    {ps : List Packet} {ms : List ChunkMetadata} (h : Spec.Chunked sha i x k bs ps ms) :
    List.Forall₂ (Spec.HoldsChunk sha) ps ms := by
  induction bs generalizing k ps ms with
  | nil => cases ps <;> cases ms <;> simp_all [Spec.Chunked]
  | cons b bs ih =>
    cases ps <;> cases ms <;> simp only [Spec.Chunked] at h
    obtain ⟨_, _, h3, h4, h5, _, _, _, _, _, _, h6⟩ := h
    exact .cons ⟨h4, b, h5, h3⟩ (ih h6)

theorem rootPacket_sizes {E : Env} {o : TreeOptions} {ctx : NameCtx} {total : Nat} {hv : HashValue} {s s' : BState} {r : Built}
    (h : rootPacket E o ctx total hv s = (.ok r, s')) :
    (∃ nd, r.node.nodeData = some nd ∧ nd.subtreeSize = if o.addNodeSubtreeSize then some total else none) ∧
    ∃ g gd, r.node.hashGroups = [g] ∧ g.groupData = some gd ∧ gd.leafSize = none ∧
      gd.subtreeSize = if o.addGroupSubtreeSize then some total else none := by
  unfold rootPacket at h
  obtain ⟨g, hg, h⟩ := PyS.liftBind_ok h
  obtain ⟨node, hn, h⟩ := PyS.liftBind_ok h
  obtain ⟨p, s1, hp, h⟩ := PyS.bind_ok h
  cases h
  obtain ⟨rfl, _⟩ := construct_inv hg
  obtain ⟨hnode, _⟩ := nodeFromGroups_inv hn
  simp only [hnode]
  refine ⟨⟨_, by simp; rfl, by split <;> rfl⟩, _, _, rfl, rfl, rfl, rfl⟩

/-- C46 for a file: the chunks are the data packets, with their payload lengths; the sizes in the manifests are those of the
chunks pointed to and reached, and the root has the length of the file. -/
theorem C46_file (E : Env) (L : FloatLog) (o : TreeOptions) (nextNcId : Nat) (input : Stream) (root : Packet)
    (out : List Packet) (h : manifestTree E L o nextNcId input = (.ok root, out)) :
    ∃ (data : List Packet) (chunks : List ChunkMetadata) (made : List Built) (rootNode : Node),
      out = data ++ made.map (·.packet) ++ [root] ∧ List.Forall₂ (Spec.HoldsChunk E.prims.sha256) data chunks ∧
      (∀ b ∈ made, (∃ name s s', buildFromNode E o b.node name o.manifestExpiry none false s = (.ok b.packet, s')) ∧
        ∃ parts : List Spec.GroupPart, List.Forall₂ (Spec.GroupSizes o) b.node.hashGroups parts ∧
          (∀ part ∈ parts, ∀ k ∈ part.kids, k.built ∈ made ∧ k.built.packet.hash E.prims.sha256 = .ok k.hash ∧
            ∃ depth, Spec.Walk E.prims.sha256 made depth k.built.node k.chunks) ∧
          (∀ part ∈ parts, ∀ c ∈ part.own ++ part.kids.flatMap (·.chunks), c ∈ chunks) ∧
          b.node.nodeData = (if o.addNodeSubtreeSize then
            some { subtreeSize := some (Spec.bytes (parts.flatMap (fun p => p.own ++ p.kids.flatMap (·.chunks)))) } else none)) ∧
      (∃ s s', buildFromNode E o rootNode o.name o.rootExpiry o.signer true s = (.ok root, s')) ∧
      Spec.bytes chunks = input.rest.length ∧
      (∃ nd, rootNode.nodeData = some nd ∧ nd.subtreeSize = if o.addNodeSubtreeSize then some input.rest.length else none) ∧
      ∃ g gd, rootNode.hashGroups = [g] ∧ g.groupData = some gd ∧ gd.leafSize = none ∧
        gd.subtreeSize = if o.addGroupSubtreeSize then some input.rest.length else none := by
  obtain ⟨R⟩ := manifestTree_ok h
  obtain ⟨made, h1, h2⟩ := C46_sizes ⟨E, o, R.ctx, R.file.chunks, R.r.direct, R.r.indirect, R.r.height⟩
    R.direct R.indirect R.nonempty R.s0 R.s1 R.top R.built
  obtain ⟨_, s3, hb⟩ := rootPacket_inv R.root_ok
  have hs := rootPacket_sizes R.root_ok
  rw [R.total] at hs
  refine ⟨R.ps, R.file.chunks, made, R.rootNode, ?_, R.chunked.holds, ?_, ⟨_, _, hb⟩, ?_, hs.1, hs.2⟩
  · refine R.out_eq.trans ?_
    rw [h1, R.s0_out]
  · intro b hb'
    obtain ⟨⟨id, name, s, s', _, hmade⟩, h3⟩ := h2 b hb'
    exact ⟨⟨name, s, s', hmade⟩, h3⟩
  · rw [← R.bytes]
    exact R.chunked.sum.1

/-! ## The hypotheses can be met -/

/-- The tree of the examples has segmented names and few ids. -/
example : Spec.treeNodes Toy.tree.indirect Toy.tree.height.toNat ≤ 2 ^ 64 ∧
    ∃ p st l f, Toy.tree.ctx.manifest.schema = .segmented p st l f :=
  ⟨by decide, _, _, _, _, rfl⟩

set_option maxRecDepth 100000 in
/-- A file of 600 bytes, encrypted manifests, segmented names: eight packets. -/
example : ∃ root out, manifestTree Toy.env Spec.exactLog (Toy.options .segmented true) 1 (Toy.input 600) = (.ok root, out) ∧
    out.length = 8 :=
  Toy.ok_of_eval (f := List.length) (by decide +kernel)

set_option maxRecDepth 100000 in
/-- A build that fails after four data objects (there is no manifest with two pointers that is short enough). -/
example : ∃ e out, manifestTree Toy.env Spec.exactLog { Toy.options .hashed false with maxPacketSize := 120 } 1 (Toy.input 300) =
    (.error e, out) ∧ out.length = 4 :=
  Toy.error_of_eval (f := List.length) (by decide +kernel)

end Ccnpy
