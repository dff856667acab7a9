import Verif.Lemmas.TreeIds
import Verif.Lemmas.ToyFile

/-!
# C42-C46: ids, order, fan-out, depth and sizes of the manifests made by the tree builder

The theorems are about `TreeBuilder.build` with any parameters: any chunk list, any `direct ≥ 1` and `indirect ≥ 1`, any
options (encryption included), any naming context.
-/

namespace Ccnpy

/-- Specification: the pointers of a manifest, in order. -/
def Spec.pointers (n : Node) : List HashValue := (n.hashGroups.map (fun g => g.pointers.getD [])).flatten

/-- Specification: the packet is what the manifest factory makes of the node, under the name of the manifest id. -/
def Spec.MadeFor (T : TreeEnv) (id : Nat) (b : Built) : Prop :=
  ∃ name s s', T.ctx.manifest.getName (some (id : Int)) = .ok name ∧
    buildFromNode T.env T.opts b.node name T.opts.manifestExpiry none false s = (.ok b.packet, s')

/-- A manifest that another one points to: its packet and node, the hash, and the chunks reached through it. -/
structure Spec.Kid where
  built : Built
  hash : HashValue
  chunks : List ChunkMetadata

/-- Specification of walking in pre-order: the manifest has pointers to some chunks, then pointers to some of the manifests
`made`; the walk visits these chunks, then walks through these manifests from left to right.  No path has more than `depth`
manifests. -/
inductive Spec.Walk (sha : Bytes → Bytes) (made : List Built) : (depth : Nat) → Node → List ChunkMetadata → Prop
  | visit (depth : Nat) (node : Node) (own : List ChunkMetadata) (kids : List Spec.Kid)
      (pointers : Spec.pointers node = own.map (·.hash) ++ kids.map (·.hash))
      (known : ∀ k ∈ kids, k.built ∈ made ∧ k.built.packet.hash sha = .ok k.hash)
      (below : ∀ k ∈ kids, Spec.Walk sha made depth k.built.node k.chunks) :
      Spec.Walk sha made (depth + 1) node (own ++ kids.flatMap (·.chunks))

/-- Payload bytes of chunks. -/
def Spec.bytes (l : List ChunkMetadata) : Nat := (l.map (·.payloadBytes)).sum

/-! ## From forests to walks -/

def Info.built (i : Info) : Built := ⟨i.packet, i.node⟩

def Info.kid (T : TreeEnv) (i : Info) : Spec.Kid := ⟨i.built, i.hash, T.slice i.lo i.hi⟩

theorem Info.Made.madeFor {T : TreeEnv} {i : Info} (h : i.Made T) : Spec.MadeFor T i.id i.built := h.2

theorem pointers_eq (n : Node) : Spec.pointers n = n.pointerList := by
  simp [Spec.pointers, Node.pointerList, List.flatMap_def]

theorem Forest.Valid.slices {T : TreeEnv} {f : Forest} {lo hi level : Nat} (h : f.Valid T lo hi level) :
    (f.roots.map (Info.kid T)).flatMap (·.chunks) = T.slice lo hi := by
  induction f generalizing lo hi level with
  | nil => cases h; simp [Forest.roots, slice_self]
  | cons i kids rest _ ih =>
    obtain ⟨_, rfl, _, _, h5, h6⟩ := h
    have a := h5.le
    have b := h6.le
    simp only [Forest.roots, List.map_cons, List.flatMap_cons, ih h6, Info.kid]
    exact slice_append T (by omega) b

theorem Info.Shape.pointers {T : TreeEnv} {i : Info} {kids : Forest} {level : Nat} (h : i.Shape T kids)
    (h5 : kids.Valid T (i.lo + i.count) i.hi level) :
    Spec.pointers i.node = (T.slice i.lo (i.lo + i.count)).map (·.hash) ++ (kids.roots.map (Info.kid T)).map (·.hash) := by
  rw [pointers_eq, List.map_map]
  obtain ⟨_, ⟨rfl, _, hn⟩ | ⟨_, _, _, _, hn⟩⟩ := h
  · rw [hn, leafNode_pointers]
    simp [Forest.roots, TreeEnv.sliceHashes]
  · rw [hn, interiorNode_pointers]
    rfl

theorem Info.walk {T : TreeEnv} {i : Info} {kids : Forest} {made : List Built} {level : Nat}
    (h : i.Shape T kids) (h5 : kids.Valid T (i.lo + i.count) i.hi level) (hmem : ∀ k ∈ kids.written, k.built ∈ made) (depth : Nat)
    (hk : ∀ k ∈ kids.roots, Spec.Walk T.env.prims.sha256 made depth k.node (T.slice k.lo k.hi)) :
    Spec.Walk T.env.prims.sha256 made (depth + 1) i.node (T.slice i.lo i.hi) := by
  have hle := h5.le
  rw [← slice_append T (show i.lo ≤ i.lo + i.count by omega) hle, ← h5.slices]
  refine .visit depth i.node _ _ (h.pointers h5) ?_ ?_
  · intro k hk'
    obtain ⟨j, hj, rfl⟩ := List.mem_map.mp hk'
    exact ⟨hmem j (Forest.roots_mem hj), (h5.made j (Forest.roots_mem hj)).1⟩
  · intro k hk'
    obtain ⟨j, hj, rfl⟩ := List.mem_map.mp hk'
    exact hk j hj

theorem Forest.Valid.walk {T : TreeEnv} {f : Forest} {lo hi level : Nat} (h : f.Valid T lo hi level) {made : List Built}
    (hmem : ∀ k ∈ f.written, k.built ∈ made) :
    ∀ k ∈ f.roots, Spec.Walk T.env.prims.sha256 made (level + 1) k.node (T.slice k.lo k.hi) := by
  induction f generalizing lo hi level with
  | nil => simp [Forest.roots]
  | cons i kids rest ih1 ih2 =>
    obtain ⟨h1, rfl, h3, h4, h5, h6⟩ := h
    intro k hk
    simp only [Forest.written, List.mem_append, List.mem_singleton] at hmem
    simp only [Forest.roots, List.mem_cons] at hk
    rcases hk with rfl | hk
    · obtain ⟨_, ⟨rfl, _, _⟩ | ⟨_, hpos, _⟩⟩ := id h4
      · exact Info.walk h4 h5 (by simp [Forest.written]) level (by simp [Forest.roots])
      · obtain ⟨q, rfl⟩ : ∃ q, level = q + 1 := ⟨level - 1, by omega⟩
        exact Info.walk h4 h5 (fun j hj => hmem j (.inl (.inr hj))) (q + 1) (ih1 h5 (fun j hj => hmem j (.inl (.inr hj))))
    · exact ih2 h6 (fun j hj => hmem j (.inl (.inl hj))) k hk

/-- Every manifest of a valid forest with its children. -/
theorem Forest.Valid.each {T : TreeEnv} {f : Forest} {lo hi level : Nat} (h : f.Valid T lo hi level) :
    ∀ i ∈ f.written, ∃ kids : Forest, ∃ level', i.Shape T kids ∧ kids.Valid T (i.lo + i.count) i.hi level' ∧ i.hi ≤ hi ∧
      ∀ k ∈ kids.written, k ∈ f.written := by
  induction f generalizing lo hi level with
  | nil => simp [Forest.written]
  | cons i kids rest ih1 ih2 =>
    obtain ⟨h1, rfl, h3, h4, h5, h6⟩ := h
    intro k hk
    simp only [Forest.written, List.mem_append, List.mem_singleton] at hk ⊢
    rcases hk with (hk | hk) | rfl
    · obtain ⟨ks, l, a, b, c, d⟩ := ih2 h6 k hk
      exact ⟨ks, l, a, b, c, fun j hj => .inl (.inl (d j hj))⟩
    · obtain ⟨ks, l, a, b, c, d⟩ := ih1 h5 k hk
      exact ⟨ks, l, a, b, Nat.le_trans c h6.le, fun j hj => .inl (.inr (d j hj))⟩
    · exact ⟨kids, _, h4, h5, h6.le, fun j hj => .inl (.inr hj)⟩

theorem slice_all (T : TreeEnv) : T.slice 0 T.chunks.length = T.chunks := by
  simp [TreeEnv.slice]

theorem slice_mem (T : TreeEnv) {a b : Nat} {c : ChunkMetadata} (h : c ∈ T.slice a b) : c ∈ T.chunks :=
  List.mem_of_mem_drop (List.mem_of_mem_take h)

theorem exists_bound (l : List Int) : ∃ B : Int, ∀ v ∈ l, v ≤ B := by
  induction l with
  | nil => exact ⟨0, by simp⟩
  | cons a l ih =>
    obtain ⟨B, hB⟩ := ih
    refine ⟨max a B, fun v hv => ?_⟩
    rcases List.mem_cons.mp hv with rfl | hv
    · omega
    · have := hB v hv; omega

/-- What any build leaves behind. -/
theorem buildTree_any {T : TreeEnv} (hd : 0 < T.direct) (hm : 0 < T.indirect) (hn : 0 < T.chunks.length) (s : BState) :
    PyS.Run (buildTree T) s (fun r s' => ∃ ids level i kids, initialIds T.indirect T.height = .ok ids ∧
        (Forest.cons i kids .nil).Valid T 0 T.chunks.length level ∧ Trace T (startState s ids) (kids.written ++ [i]) s' ∧
        Closed (T.chunks.map (·.hash)) (kids.written ++ [i]) ∧ T.chunks.length ≤ Spec.treeCapacity T.direct T.indirect level ∧
        (∀ l < level, Spec.treeCapacity T.direct T.indirect l < T.chunks.length) ∧ r = ⟨i.packet, i.node⟩ ∧
        (Forest.cons i kids .nil).Packed T)
      (Halted T (fun _ => False) (T.chunks.map (·.hash)) s) := by
  have hf : ¬ IdErr (fun _ => False) := by rintro (h | h | h) <;> exact h
  cases hids : initialIds T.indirect T.height with
  | error e =>
    have := buildTree_run (Rules.none T 0) hd hm hn (known := T.chunks.map (·.hash)) (fun c hc => List.mem_map_of_mem hc) (s := s)
      (fun _ _ => id) (fun ids' h' => by rw [hids] at h'; cases h') (fun hc => absurd hc hf)
    rw [hids] at this
    exact this
  | ok ids =>
    obtain ⟨B, hB⟩ := exists_bound ids
    have := buildTree_run (Rules.none T B) hd hm hn (known := T.chunks.map (·.hash)) (fun c hc => List.mem_map_of_mem hc) (s := s)
      (fun _ _ => id) (fun ids' h' => by rw [hids] at h'; cases h'; exact hB) (fun hc => absurd hc hf)
    rw [hids] at this
    exact this

/-- What a successful build leaves behind. -/
theorem buildTree_ok {T : TreeEnv} (hd : 0 < T.direct) (hm : 0 < T.indirect) (hn : 0 < T.chunks.length) {s s' : BState}
    {r : Built} (h : buildTree T s = (.ok r, s')) :
    ∃ ids level i kids, initialIds T.indirect T.height = .ok ids ∧ (Forest.cons i kids .nil).Valid T 0 T.chunks.length level ∧
      Trace T (startState s ids) (kids.written ++ [i]) s' ∧ Closed (T.chunks.map (·.hash)) (kids.written ++ [i]) ∧
      T.chunks.length ≤ Spec.treeCapacity T.direct T.indirect level ∧
      (∀ l < level, Spec.treeCapacity T.direct T.indirect l < T.chunks.length) ∧ r = i.built ∧
      (level : Int) ≤ T.height := by
  obtain ⟨ids, level, i, kids, h1, h2, h3, h4, h5, h6, h7, _⟩ := (buildTree_any hd hm hn s).1 r s' h
  have hlev := idsFrom_level h3.ids i (by simp)
  rw [h2.1] at hlev
  exact ⟨ids, level, i, kids, h1, h2, h3, h4, h5, h6, h7, hlev⟩

/-! ## C43: order -/

/-- C43: after a successful build there are the manifests written, the returned one last, each made by the factory of its
node, and walking from the returned one in pre-order visits every chunk exactly once in file order. -/
theorem C43_preorder (T : TreeEnv) (hd : 1 ≤ T.direct) (hm : 1 ≤ T.indirect) (hn : 1 ≤ T.chunks.length) (s s' : BState)
    (r : Built) (h : buildTree T s = (.ok r, s')) :
    ∃ made : List Built, s'.output = s.output ++ made.map (·.packet) ∧ made.getLast? = some r ∧
      (∀ b ∈ made, ∃ id, Spec.MadeFor T id b) ∧ ∃ depth, Spec.Walk T.env.prims.sha256 made depth r.node T.chunks := by
  obtain ⟨ids, level, i, kids, _, h2, h3, _, _, _, rfl, _⟩ := buildTree_ok hd hm hn h
  have hmade := h2.made
  simp only [Forest.written, List.nil_append] at hmade
  refine ⟨(kids.written ++ [i]).map Info.built, ?_, by simp, ?_, level + 1, ?_⟩
  · rw [h3.wrote.1, List.map_map]
    rfl
  · intro b hb
    obtain ⟨j, hj, rfl⟩ := List.mem_map.mp hb
    exact ⟨j.id, (hmade j hj).madeFor⟩
  · have := h2.walk (made := (kids.written ++ [i]).map Info.built) (by
      simp only [Forest.written, List.nil_append]
      exact fun k hk => List.mem_map_of_mem hk) i (by simp [Forest.roots])
    obtain ⟨_, h2b, _, _, _, h2f⟩ := h2
    have h2f : i.hi = T.chunks.length := h2f
    rw [h2b, h2f, slice_all] at this
    exact this

/-! ## C44: fan-out -/

/-- C44: every manifest written by the tree builder has either between 1 and `direct + indirect` pointers, all to chunks, or
between 1 and `direct` pointers to chunks followed by between 1 and `indirect` pointers to manifests written. -/
theorem C44_fan_out (T : TreeEnv) (hd : 1 ≤ T.direct) (hm : 1 ≤ T.indirect) (hn : 1 ≤ T.chunks.length) (s s' : BState)
    (r : Built) (h : buildTree T s = (.ok r, s')) :
    ∃ made : List Built, s'.output = s.output ++ made.map (·.packet) ∧
      ∀ b ∈ made, (∃ id, Spec.MadeFor T id b) ∧
        ∃ (own : List ChunkMetadata) (kids : List (Built × HashValue)),
          Spec.pointers b.node = own.map (·.hash) ++ kids.map (·.2) ∧ (∀ c ∈ own, c ∈ T.chunks) ∧
          (∀ k ∈ kids, k.1 ∈ made ∧ k.1.packet.hash T.env.prims.sha256 = .ok k.2) ∧ 1 ≤ own.length ∧
          ((kids = [] ∧ own.length ≤ T.direct + T.indirect) ∨
           (own.length ≤ T.direct ∧ 1 ≤ kids.length ∧ kids.length ≤ T.indirect)) := by
  obtain ⟨ids, level, i, kids, _, h2, h3, _, _, _, rfl, _⟩ := buildTree_ok hd hm hn h
  have hmade := h2.made
  have heach := h2.each
  simp only [Forest.written, List.nil_append] at hmade heach
  refine ⟨(kids.written ++ [i]).map Info.built, by rw [h3.wrote.1, List.map_map]; rfl, ?_⟩
  intro b hb
  obtain ⟨j, hj, rfl⟩ := List.mem_map.mp hb
  obtain ⟨ks, l, hs, hv, hhi, hsub⟩ := heach j hj
  have hle := hv.le
  refine ⟨⟨j.id, (hmade j hj).madeFor⟩, T.slice j.lo (j.lo + j.count), ks.roots.map (fun k => (k.built, k.hash)), ?_,
    fun c hc => slice_mem T hc, ?_, ?_, ?_⟩
  · have := hs.pointers hv
    simpa [List.map_map, Function.comp_def, Info.kid, Info.built] using this
  · intro k hk
    obtain ⟨q, hq, rfl⟩ := List.mem_map.mp hk
    exact ⟨List.mem_map_of_mem (hsub q (Forest.roots_mem hq)), (hv.made q (Forest.roots_mem hq)).1⟩
  · rw [slice_length T (by omega)]
    have := hs.1
    omega
  · rw [slice_length T (by omega), List.length_map]
    obtain ⟨_, ⟨rfl, hc, _⟩ | ⟨hne, _, hc, hk, _⟩⟩ := hs
    · refine .inl ⟨rfl, ?_⟩
      unfold TreeEnv.pointers at hc
      omega
    · exact .inr ⟨by omega, Forest.roots_length_pos hne, hk⟩

/-! ## C45: depth -/

/-- C45: no path from the top manifest has more than `height + 1` manifests; in fact no more than the least number for which a
tree with this fan-out has room. -/
theorem C45_depth (T : TreeEnv) (hd : 1 ≤ T.direct) (hm : 1 ≤ T.indirect) (hn : 1 ≤ T.chunks.length) (s s' : BState)
    (r : Built) (h : buildTree T s = (.ok r, s')) :
    ∃ (made : List Built) (depth : Nat), s'.output = s.output ++ made.map (·.packet) ∧
      Spec.Walk T.env.prims.sha256 made depth r.node T.chunks ∧ (depth : Int) ≤ T.height + 1 ∧
      T.chunks.length ≤ Spec.treeCapacity T.direct T.indirect (depth - 1) ∧
      ∀ l, l + 1 < depth → Spec.treeCapacity T.direct T.indirect l < T.chunks.length := by
  obtain ⟨ids, level, i, kids, _, h2, h3, _, hcap, hleast, rfl, hlev⟩ := buildTree_ok hd hm hn h
  refine ⟨(kids.written ++ [i]).map Info.built, level + 1, by rw [h3.wrote.1, List.map_map]; rfl, ?_, by omega, hcap,
    fun l hl => hleast l (by omega)⟩
  have := h2.walk (made := (kids.written ++ [i]).map Info.built) (by
    simp only [Forest.written, List.nil_append]
    exact fun k hk => List.mem_map_of_mem hk) i (by simp [Forest.roots])
  obtain ⟨_, h2b, _, _, _, h2f⟩ := h2
  have h2f : i.hi = T.chunks.length := h2f
  rw [h2b, h2f, slice_all] at this
  exact this

/-- A tree that does not have room for the chunks is never completed. -/
theorem C45_no_room_no_tree (T : TreeEnv) (hd : 1 ≤ T.direct) (hm : 1 ≤ T.indirect) (hn : 1 ≤ T.chunks.length) (s s' : BState)
    (r : Built) (h : buildTree T s = (.ok r, s')) :
    0 ≤ T.height ∧ T.chunks.length ≤ Spec.treeCapacity T.direct T.indirect T.height.toNat := by
  obtain ⟨ids, level, i, kids, _, _, _, _, hcap, _, rfl, hlev⟩ := buildTree_ok hd hm hn h
  exact ⟨by omega, Nat.le_trans hcap (treeCapacity_le hm (by omega))⟩

/-! ## C46: sizes -/

/-- A group with the chunks and the manifests that its pointers lead to. -/
structure Spec.GroupPart where
  own : List ChunkMetadata
  kids : List Spec.Kid

/-- Specification of a group's annotations: the leaf size is the bytes of the chunks pointed to directly, the subtree size is
the bytes reachable; without node subtree sizes the builder does not know the bytes below other manifests and leaves them
out. -/
def Spec.GroupSizes (o : TreeOptions) (g : HashGroup) (part : Spec.GroupPart) : Prop :=
  g.pointers = some (part.own.map (·.hash) ++ part.kids.map (·.hash)) ∧
  ∃ gd, g.groupData = some gd ∧
    gd.leafSize = (if o.addGroupLeafSize then some (Spec.bytes part.own) else none) ∧
    gd.subtreeSize = (if o.addGroupSubtreeSize then
      some (Spec.bytes part.own + if o.addNodeSubtreeSize then Spec.bytes (part.kids.flatMap (·.chunks)) else 0) else none)

theorem bytes_slice (T : TreeEnv) (a b : Nat) : Spec.bytes (T.slice a b) = T.sliceBytes a b := rfl

/-- C46: the sizes in every manifest written are the true byte counts. -/
theorem C46_sizes (T : TreeEnv) (hd : 1 ≤ T.direct) (hm : 1 ≤ T.indirect) (hn : 1 ≤ T.chunks.length) (s s' : BState)
    (r : Built) (h : buildTree T s = (.ok r, s')) :
    ∃ made : List Built, s'.output = s.output ++ made.map (·.packet) ∧
      ∀ b ∈ made, (∃ id, Spec.MadeFor T id b) ∧ ∃ parts : List Spec.GroupPart,
        List.Forall₂ (Spec.GroupSizes T.opts) b.node.hashGroups parts ∧
        (∀ part ∈ parts, ∀ k ∈ part.kids, k.built ∈ made ∧ k.built.packet.hash T.env.prims.sha256 = .ok k.hash ∧
          ∃ depth, Spec.Walk T.env.prims.sha256 made depth k.built.node k.chunks) ∧
        (∀ part ∈ parts, ∀ c ∈ part.own ++ part.kids.flatMap (·.chunks), c ∈ T.chunks) ∧
        b.node.nodeData = (if T.opts.addNodeSubtreeSize then
          some { subtreeSize := some (Spec.bytes (parts.flatMap (fun p => p.own ++ p.kids.flatMap (·.chunks)))) } else none) := by
  obtain ⟨ids, level, i, kids, _, h2, h3, _, _, _, rfl, _⟩ := buildTree_ok hd hm hn h
  have hmade := h2.made
  have heach := h2.each
  simp only [Forest.written, List.nil_append] at hmade heach
  refine ⟨(kids.written ++ [i]).map Info.built, by rw [h3.wrote.1, List.map_map]; rfl, ?_⟩
  intro b hb
  obtain ⟨j, hj, rfl⟩ := List.mem_map.mp hb
  refine ⟨⟨j.id, (hmade j hj).madeFor⟩, ?_⟩
  obtain ⟨ks, l, hs, hv, hhi, hsub⟩ := heach j hj
  have hle := hv.le
  have hkids : ∀ k ∈ ks.roots.map (Info.kid T), k.built ∈ (kids.written ++ [i]).map Info.built ∧
      k.built.packet.hash T.env.prims.sha256 = .ok k.hash ∧
      ∃ depth, Spec.Walk T.env.prims.sha256 ((kids.written ++ [i]).map Info.built) depth k.built.node k.chunks := by
    intro k hk
    obtain ⟨q, hq, rfl⟩ := List.mem_map.mp hk
    exact ⟨List.mem_map_of_mem (hsub q (Forest.roots_mem hq)), (hv.made q (Forest.roots_mem hq)).1, _,
      hv.walk (fun x hx => List.mem_map_of_mem (hsub x hx)) q hq⟩
  obtain ⟨_, ⟨rfl, _, hnode⟩ | ⟨_, _, _, _, hnode⟩⟩ := hs
  · refine ⟨[⟨T.slice j.lo (j.lo + j.count), []⟩], ?_, by simp, ?_, ?_⟩
    · show List.Forall₂ _ j.node.hashGroups _
      rw [hnode]
      refine .cons ⟨?_, _, rfl, ?_, ?_⟩ .nil <;> simp [TreeEnv.group, TreeEnv.sliceHashes, TreeEnv.sliceBytes, Spec.bytes]
    · intro part hpart c hc
      cases List.mem_singleton.mp hpart
      exact slice_mem T (by simpa using hc)
    · show j.node.nodeData = _
      rw [hnode]
      simp [TreeEnv.leafNode, TreeEnv.sizeData, bytes_slice]
  · have hks := hv.slices
    have hsum : Spec.bytes (T.slice j.lo (j.lo + j.count) ++ T.slice (j.lo + j.count) j.hi) =
        T.sliceBytes j.lo (j.lo + j.count) + T.sliceBytes (j.lo + j.count) j.hi := by
      simp [Spec.bytes, TreeEnv.sliceBytes]
    have hkh : (ks.roots.map (Info.kid T)).map (·.hash) = ks.roots.map (·.hash) := by simp [List.map_map, Function.comp_def, Info.kid]
    show ∃ parts : List Spec.GroupPart, List.Forall₂ _ j.node.hashGroups _ ∧ _ ∧ _ ∧ j.node.nodeData = _
    rw [hnode]
    cases hsh : T.ctx.shared with
    | true =>
      refine ⟨[⟨T.slice j.lo (j.lo + j.count), ks.roots.map (Info.kid T)⟩], ?_, ?_, ?_, ?_⟩
      · simp only [TreeEnv.interiorNode, TreeEnv.interiorGroups, hsh, if_true]
        refine .cons ⟨?_, _, rfl, ?_, ?_⟩ .nil
        · simp only [TreeEnv.group, hkh]; rfl
        · rfl
        · simp only [hks, bytes_slice, TreeEnv.known, Nat.add_comm]
      · intro part hpart
        cases List.mem_singleton.mp hpart
        exact hkids
      · intro part hpart c hc
        cases List.mem_singleton.mp hpart
        rw [hks] at hc
        rcases List.mem_append.mp hc with hc | hc <;> exact slice_mem T hc
      · simp only [TreeEnv.interiorNode, TreeEnv.sizeData, TreeEnv.known, List.flatMap_cons, List.flatMap_nil, List.append_nil, hks, hsum]
        split <;> rfl
    | false =>
      refine ⟨[⟨T.slice j.lo (j.lo + j.count), []⟩, ⟨[], ks.roots.map (Info.kid T)⟩], ?_, ?_, ?_, ?_⟩
      · simp only [TreeEnv.interiorNode, TreeEnv.interiorGroups, hsh, Bool.false_eq_true, if_false]
        refine .cons ⟨?_, _, rfl, ?_, ?_⟩ (.cons ⟨?_, _, rfl, ?_, ?_⟩ .nil)
        · simp [TreeEnv.group, TreeEnv.sliceHashes]
        · rfl
        · simp [TreeEnv.sliceBytes, Spec.bytes]
        · simp only [TreeEnv.group, hkh, List.map_nil, List.nil_append]
        · simp [Spec.bytes]
        · simp only [hks, TreeEnv.known, Spec.bytes, List.map_nil, List.sum_nil, Nat.zero_add, Nat.add_zero]
          rfl
      · intro part hpart
        simp only [List.mem_cons, List.not_mem_nil, or_false] at hpart
        rcases hpart with rfl | rfl
        · simp
        · exact hkids
      · intro part hpart c hc
        simp only [List.mem_cons, List.not_mem_nil, or_false] at hpart
        rcases hpart with rfl | rfl
        · exact slice_mem T (by simpa using hc)
        · rw [hks] at hc
          exact slice_mem T (by simpa using hc)
      · simp only [TreeEnv.interiorNode, TreeEnv.sizeData, TreeEnv.known, List.flatMap_cons, List.flatMap_nil, List.append_nil, hks,
          List.nil_append, hsum]
        split <;> rfl

/-! ## C42: ids -/

/-- The powers used by the id factory fit 53 bits (or the tree is a chain). -/
def Spec.IdsExact (T : TreeEnv) : Prop := T.indirect = 1 ∨ T.indirect ^ (T.height.toNat + 1) ≤ 2 ^ 53

/-- C42 (a): the manifests written have pairwise distinct ids, all in the range of a full tree of the height. -/
theorem C42_ids_distinct (T : TreeEnv) (hd : 1 ≤ T.direct) (hm : 1 ≤ T.indirect) (hn : 1 ≤ T.chunks.length)
    (hex : Spec.IdsExact T) (s s' : BState) (r : Built) (h : buildTree T s = (.ok r, s')) :
    ∃ made : List (Nat × Built), s'.output = s.output ++ made.map (·.2.packet) ∧ (∀ x ∈ made, Spec.MadeFor T x.1 x.2) ∧
      (made.map (·.1)).Nodup ∧ ∀ x ∈ made, x.1 < Spec.treeNodes T.indirect T.height.toNat := by
  obtain ⟨ids, level, i, kids, hids, h2, h3, _, _, _, rfl, hlev⟩ := buildTree_ok hd hm hn h
  have hmade := h2.made
  have hcount := h2.count
  simp only [Forest.written, List.nil_append] at hmade hcount
  refine ⟨(kids.written ++ [i]).map (fun j => (j.id, j.built)), by rw [h3.wrote.1, List.map_map]; rfl, ?_, ?_, ?_⟩
  · intro x hx
    obtain ⟨j, hj, rfl⟩ := List.mem_map.mp hx
    exact (hmade j hj).madeFor
  · rw [List.map_map]
    refine ids_nodup h3.ids (fun j hj => initialIds_get hm hex hids j hj) (fun j hj => ?_)
    have := hcount j
    by_cases hjl : j ≤ level
    · rw [if_pos hjl] at this
      simp only [Forest.roots, List.length_cons, List.length_nil, Nat.zero_add, Nat.one_mul] at this
      exact Nat.le_trans this (Nat.pow_le_pow_right hm (by unfold TreeEnv.heightOf; omega))
    · rw [if_neg hjl] at this
      omega
  · intro x hx
    obtain ⟨j, hj, rfl⟩ := List.mem_map.mp hx
    have := idsFrom_le (initialIds_le hm hex hids) h3.ids j hj
    simp only
    omega

/-- C42 (b): if the tree has room for the chunks, the id factory never raises OverflowError (`idsExhausted`), and the model's
recursion bounds are never reached. -/
theorem C42_ids_suffice (T : TreeEnv) (hd : 1 ≤ T.direct) (hm : 1 ≤ T.indirect) (hn : 1 ≤ T.chunks.length)
    (hex : Spec.IdsExact T) (hh : 0 ≤ T.height) (hcap : T.chunks.length ≤ Spec.treeCapacity T.direct T.indirect T.height.toNat)
    (hP : ∀ alg key iv pt aad, T.env.prims.aeadSeal alg key iv pt aad ≠ .error .idsExhausted ∧
      T.env.prims.aeadSeal alg key iv pt aad ≠ .error .nonTermination)
    (s s' : BState) (e : PyErr) (h : buildTree T s = (.error e, s')) : e ≠ .idsExhausted ∧ e ≠ .nonTermination := by
  have hP' : T.env.prims.SealHonest := fun alg key iv pt aad => ⟨(hP alg key iv pt aad).2, (hP alg key iv pt aad).1⟩
  have := (buildTree_run (Rules.marker T hP' _) hd hm hn (known := T.chunks.map (·.hash)) (fun c hc => List.mem_map_of_mem hc) (s := s)
    (fun e he => by rw [initialIds_exact hm hex] at he; cases he) (fun ids hids => initialIds_le hm hex hids)
    (fun _ ids hids => ⟨goodIds_of_exact hm hex hids, hh, hcap⟩)).2 e s' h
  have := this.1
  exact ⟨fun hc => this (.inr hc), fun hc => this (.inl hc)⟩

/-! ## The hypotheses can be met -/

/-- A build of nine chunks by five manifests on three levels meets the hypotheses of C42 (a), C43, C44, C45 and C46. -/
example : 1 ≤ Toy.tree.direct ∧ 1 ≤ Toy.tree.indirect ∧ 1 ≤ Toy.tree.chunks.length ∧ Spec.IdsExact Toy.tree ∧
    ∃ r s', buildTree Toy.tree {} = (.ok r, s') ∧ s'.output.length = 5 :=
  ⟨by decide, by decide, by decide, .inr (by decide), Toy.tree_builds⟩

/-- The same tree with manifests of at most 180 bytes fails (with ValueError: a manifest is too long), with room for the chunks,
as in C42 (b). -/
example : 0 ≤ Toy.tree.height ∧ Toy.tree.chunks.length ≤ Spec.treeCapacity Toy.tree.direct Toy.tree.indirect Toy.tree.height.toNat ∧
    ∃ e s', buildTree { Toy.tree with opts := { Toy.tree.opts with maxPacketSize := 180 } } {} = (.error e, s') ∧ s'.output.length = 2 :=
  ⟨by decide, by decide, Toy.error_of_eval (f := fun s : BState => s.output.length) (by decide +kernel)⟩

/-- The primitives of the examples never fail with the two markers. -/
example : ∀ alg key iv pt aad, Toy.prims.aeadSeal alg key iv pt aad ≠ .error .idsExhausted ∧
    Toy.prims.aeadSeal alg key iv pt aad ≠ .error .nonTermination :=
  fun _ _ _ _ _ => ⟨by simp [Toy.prims], by simp [Toy.prims]⟩

/-- Without room the ids do run out: nine chunks on one level of three pointers. -/
example : (buildTree { Toy.tree with height := 0 } {}).1.toBool = false := by decide +kernel

end Ccnpy
