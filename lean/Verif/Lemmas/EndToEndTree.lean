import Verif.Lemmas.EndToEnd

/-!
# Walking the forest that the builder left behind
-/

namespace Ccnpy

/-! ## Requests -/

/-- The request for an id and a hash under a schema. -/
def SchemaImpl.request (i : SchemaImpl) (x : Nat × HashValue) : Spec.Request :=
  ((i.getName (some (x.1 : Int))).toOption.getD none, some x.2)

theorem request_name {i : SchemaImpl} {x : Nat × HashValue} {name : Option Name} (h : i.getName (some (x.1 : Int)) = .ok name) :
    i.request x = (name, some x.2) := by
  simp only [SchemaImpl.request, h]
  rfl

theorem asks_group {c : NameCtx} {i : SchemaImpl} (hc : SchemaImpl.create i.ncId i.schema = .ok i)
    (hl : Spec.lookup c.readDefs i.ncId = some i.ncDef.toBytes) (hp : i.schema.PlainName) {start : Option Nat}
    {l : List (Nat × HashValue)} {k : Nat} (hn : ∀ x ∈ l, ∃ n, i.getName (some (x.1 : Int)) = .ok n)
    (hs : i.usesNameId = true → ∀ x ∈ l.head?, start.map (· + k) = some x.1)
    (hcons : i.usesNameId = true → ∀ j x, l[j]? = some x → ∃ y, l[0]? = some y ∧ x.1 = y.1 + j) :
    List.Forall₂ (Spec.Asks c.readDefs) (groupValues i.ncId start k (l.map (·.2))) (l.map i.request) := by
  induction l generalizing k with
  | nil => exact .nil
  | cons x l ih =>
    obtain ⟨name, hname⟩ := hn x (by simp)
    refine .cons ?_ (ih (fun y hy => hn y (by simp [hy])) ?_ ?_)
    · rw [request_name hname]
      refine asks_of hc hl hp ?_
      cases hu : i.usesNameId with
      | false => rw [getName_any hu _ (some (x.1 : Int))]; exact hname
      | true =>
        have := hs hu x (by simp)
        rw [this]
        exact hname
    · intro hu y hy
      have h1 := hs hu x (by simp)
      cases l with
      | nil => simp at hy
      | cons z l =>
        simp only [List.head?_cons, Option.mem_def, Option.some.injEq] at hy
        subst hy
        obtain ⟨w, hw1, hw2⟩ := hcons hu 1 z rfl
        simp only [List.getElem?_cons_zero, Option.some.injEq] at hw1
        subst hw1
        cases start with
        | none => cases h1
        | some s =>
          simp only [Option.map_some, Option.some.injEq] at h1 ⊢
          omega
    · intro hu j y hy
      obtain ⟨w, hw1, hw2⟩ := hcons hu (j + 1) y hy
      simp only [List.getElem?_cons_zero, Option.some.injEq] at hw1
      subst hw1
      cases l with
      | nil => simp at hy
      | cons z l =>
        obtain ⟨w', hw1', hw2'⟩ := hcons hu 1 z rfl
        simp only [List.getElem?_cons_zero, Option.some.injEq] at hw1'
        subst hw1'
        exact ⟨z, rfl, by omega⟩

/-! ## Visited objects -/

theorem Spec.Visited.depth_append (v w : Spec.Visited) : (v.append w).depth = max v.depth w.depth := by
  induction v with
  | nil => simp [Spec.Visited.append, Spec.Visited.depth]
  | data p b rest ih => simp only [Spec.Visited.append, Spec.Visited.depth, ih]; omega
  | manifest p n kids rest _ ih => simp only [Spec.Visited.append, Spec.Visited.depth, ih]; omega

theorem Spec.Visited.depth_le_count (v : Spec.Visited) : v.depth ≤ v.count := by
  induction v with
  | nil => exact Nat.le_refl _
  | data p b rest ih => simp only [Spec.Visited.depth, Spec.Visited.count]; omega
  | manifest p n kids rest ih1 ih2 => simp only [Spec.Visited.depth, Spec.Visited.count]; omega

theorem Spec.Visited.depth_pos {v : Spec.Visited} (h : 1 ≤ v.count) : 1 ≤ v.depth := by
  cases v with
  | nil => exact h
  | data p b rest => simp only [Spec.Visited.depth]; omega
  | manifest p n kids rest => simp only [Spec.Visited.depth]; omega

/-- The data objects in pre-order. -/
def Spec.Visited.datas : Spec.Visited → List Packet
  | .nil => []
  | .data p _ rest => p :: rest.datas
  | .manifest _ _ kids rest => kids.datas ++ rest.datas

/-- The manifests in pre-order. -/
def Spec.Visited.manifests : Spec.Visited → List Packet
  | .nil => []
  | .data _ _ rest => rest.manifests
  | .manifest p _ kids rest => p :: (kids.manifests ++ rest.manifests)

theorem Spec.Visited.datas_append (v w : Spec.Visited) : (v.append w).datas = v.datas ++ w.datas := by
  induction v with
  | nil => rfl
  | data p b rest ih => simp only [Spec.Visited.append, Spec.Visited.datas, ih, List.cons_append]
  | manifest p n kids rest _ ih => simp only [Spec.Visited.append, Spec.Visited.datas, ih, List.append_assoc]

theorem Spec.Visited.manifests_append (v w : Spec.Visited) : (v.append w).manifests = v.manifests ++ w.manifests := by
  induction v with
  | nil => rfl
  | data p b rest ih => simp only [Spec.Visited.append, Spec.Visited.manifests, ih]
  | manifest p n kids rest _ ih => simp only [Spec.Visited.append, Spec.Visited.manifests, ih, List.cons_append, List.append_assoc]

theorem Spec.Visited.packets_perm (v : Spec.Visited) : v.packets.Perm (v.datas ++ v.manifests) := by
  induction v with
  | nil => exact .nil
  | data p b rest ih => exact ih.cons p
  | manifest p n kids rest ih1 ih2 =>
    simp only [Spec.Visited.packets, Spec.Visited.datas, Spec.Visited.manifests]
    refine ((ih1.append ih2).cons p).trans ?_
    refine .trans ?_ List.perm_middle.symm
    refine .cons p ?_
    rw [List.append_assoc, List.append_assoc]
    refine .append_left _ ?_
    rw [← List.append_assoc, ← List.append_assoc]
    exact .append_right _ List.perm_append_comm

/-! ## Chunks -/

/-- The chunk's id and hash. -/
def ChunkMetadata.pair (c : ChunkMetadata) : Nat × HashValue := (c.chunkNumber, c.hash)

/-- The chunks can be read: the payload of the `j`-th is the `j`-th of `bs`. -/
def ChunksReadable (T : TreeEnv) (V : TravEnv) (bs : List Bytes) : Prop :=
  bs.length = T.chunks.length ∧
  ∀ (j : Nat) (c : ChunkMetadata), T.chunks[j]? = some c → c.chunkNumber = j ∧ ∃ (p : Packet) (b : Bytes) (name : Option Name), T.ctx.data.getName (some (j : Int)) = .ok name ∧
    V.reader name (some c.hash) = .ok p ∧ validatePacket V.prims V.keystore p = .ok () ∧ p.body.payloadType = some PT_DATA ∧
    p.body.payload = some b ∧ bs[j]? = some b

/-- The reader returns the packet for a chunk. -/
def ServedFor (T : TreeEnv) (V : TravEnv) (c : ChunkMetadata) (p : Packet) : Prop :=
  ∃ name, T.ctx.data.getName (some (c.chunkNumber : Int)) = .ok name ∧ V.reader name (some c.hash) = .ok p

theorem chunks_lead {T : TreeEnv} {V : TravEnv} {bs : List Bytes} (h : ChunksReadable T V bs) (op : Packet → Node → Prop)
    (scope : List NcDef) {lo : Nat} (n : Nat) (hhi : lo + n ≤ T.chunks.length) :
    ∃ v, Spec.Leads V op scope ((T.slice lo (lo + n)).map (fun c => T.ctx.data.request c.pair)) v ∧
      v.payloads = (bs.drop lo).take n ∧ v.count = n ∧ v.depth ≤ 1 ∧ v.manifests = [] ∧
      List.Forall₂ (ServedFor T V) (T.slice lo (lo + n)) v.datas := by
  induction n generalizing lo with
  | zero =>
    exact ⟨.nil, by rw [Nat.add_zero, slice_self]; exact .nil, by simp [Spec.Visited.payloads], rfl, Nat.zero_le _, rfl,
      by rw [Nat.add_zero, slice_self]; exact .nil⟩
  | succ n ih =>
    obtain ⟨c, hc, _⟩ := chunk_of_lt T (a := lo) (by omega)
    obtain ⟨hnum, p, b, name, h1, h2, h3, h4, h5, h6⟩ := h.2 lo c hc
    obtain ⟨v, g1, g2, g3, g4, g5, g6⟩ := ih (lo := lo + 1) (by omega)
    refine ⟨.data p b v, ?_, ?_, ?_, ?_, g5, ?_⟩
    · rw [slice_cons T hc (by omega), List.map_cons, show lo + (n + 1) = lo + 1 + n by omega]
      have hr : T.ctx.data.request c.pair = (name, some c.hash) :=
        request_name (by show T.ctx.data.getName (some (c.chunkNumber : Int)) = _; rw [hnum]; exact h1)
      rw [hr]
      exact .data h2 h3 h4 h5 g1
    · obtain ⟨hl, hb⟩ := List.getElem?_eq_some_iff.mp h6
      rw [List.drop_eq_getElem_cons hl, hb, List.take_succ_cons]
      simp only [Spec.Visited.payloads, g2]
    · simp only [Spec.Visited.count, g3]; omega
    · simp only [Spec.Visited.depth]; omega
    · rw [slice_cons T hc (by omega), show lo + (n + 1) = lo + 1 + n by omega]
      exact .cons ⟨name, by rw [hnum]; exact h1, h2⟩ g6

theorem ChunksReadable.name {T : TreeEnv} {V : TravEnv} {bs : List Bytes} (h : ChunksReadable T V bs) {lo hi : Nat} :
    ∀ x ∈ (T.slice lo hi).map ChunkMetadata.pair, ∃ n, T.ctx.data.getName (some (x.1 : Int)) = .ok n := by
  intro x hx
  obtain ⟨c, hc, rfl⟩ := List.mem_map.mp hx
  have hm : c ∈ T.chunks := List.mem_of_mem_drop (List.mem_of_mem_take hc)
  obtain ⟨j, hj, rfl⟩ := List.getElem_of_mem hm
  obtain ⟨hnum, p, b, name, h1, _⟩ := h.2 j _ (List.getElem?_eq_getElem hj)
  exact ⟨name, by show T.ctx.data.getName (some ((T.chunks[j].chunkNumber : Nat) : Int)) = _; rw [hnum]; exact h1⟩

theorem ChunksReadable.number {T : TreeEnv} {V : TravEnv} {bs : List Bytes} (h : ChunksReadable T V bs) {lo hi j : Nat}
    {x : Nat × HashValue} (hx : ((T.slice lo hi).map ChunkMetadata.pair)[j]? = some x) : x.1 = lo + j := by
  rw [List.getElem?_map] at hx
  obtain ⟨c, hc, rfl⟩ := Option.map_eq_some_iff.mp hx
  unfold TreeEnv.slice at hc
  rw [List.getElem?_take] at hc
  split at hc
  · rw [List.getElem?_drop] at hc
    exact (h.2 _ c hc).1
  · cases hc

theorem ChunksReadable.at {T : TreeEnv} {V : TravEnv} {bs : List Bytes} (h : ChunksReadable T V bs) {lo : Nat}
    (hlo : lo < T.chunks.length) : T.numberAt lo = some lo := by
  unfold TreeEnv.numberAt
  rw [List.getElem?_eq_getElem hlo]
  simp only [Option.map_some, (h.2 lo _ (List.getElem?_eq_getElem hlo)).1]

/-- The pointers to chunks ask for the chunks. -/
theorem asks_chunks {T : TreeEnv} {V : TravEnv} {bs : List Bytes} (h : ChunksReadable T V bs) (hg : T.ctx.Good)
    (hp : T.ctx.Plain) {start : Option Nat} {lo hi : Nat} (hlt : lo < hi) (hhi : hi ≤ T.chunks.length)
    (hs : T.ctx.manifest.usesNameId = true → start = T.numberAt lo) :
    List.Forall₂ (Spec.Asks T.ctx.readDefs) (groupValues T.ctx.data.ncId start 0 (T.sliceHashes lo hi))
      ((T.slice lo hi).map (fun c => T.ctx.data.request c.pair)) := by
  have := asks_group hg.data hg.lookup_data hp.2 (start := start) (k := 0) (l := (T.slice lo hi).map ChunkMetadata.pair)
    h.name
    (by
      intro hu x hx
      rw [hg.uses] at hu
      rw [hs hu, h.at (by omega)]
      have h0 : ((T.slice lo hi).map ChunkMetadata.pair)[0]? = some x := by
        rw [← List.head?_eq_getElem?]; exact hx
      have := h.number h0
      simp [this])
    (by
      intro _ j x hx
      have h1 := h.number hx
      cases hl : (T.slice lo hi).map ChunkMetadata.pair with
      | nil => rw [hl] at hx; cases hx
      | cons y l =>
        have h0 : ((T.slice lo hi).map ChunkMetadata.pair)[0]? = some y := by rw [hl]; rfl
        have := h.number h0
        exact ⟨y, rfl, by omega⟩)
  rw [List.map_map, List.map_map] at this
  exact this

/-! ## Ids -/

/-- The ids of neighbours are consecutive, at every level. -/
def Forest.IdsOk : Forest → Prop
  | .nil => True
  | .cons i kids rest => (∀ r ∈ rest.roots.head?, r.id = i.id + 1) ∧ kids.IdsOk ∧ rest.IdsOk

theorem Forest.IdsOk.get {f : Forest} (h : f.IdsOk) {j : Nat} {x : Info} (hx : f.roots[j]? = some x) :
    ∃ y, f.roots[0]? = some y ∧ x.id = y.id + j := by
  induction f generalizing j with
  | nil => simp [Forest.roots] at hx
  | cons i kids rest _ ih =>
    cases j with
    | zero => exact ⟨x, hx, rfl⟩
    | succ j =>
      obtain ⟨y, hy, he⟩ := ih h.2.2 (by simpa [Forest.roots] using hx)
      have := h.1 y (by rw [List.head?_eq_getElem?]; exact hy)
      exact ⟨i, rfl, by omega⟩

theorem Forest.Valid.below_level {T : TreeEnv} {f : Forest} {lo hi level : Nat} (h : f.Valid T lo hi level) {j : Nat}
    (hj : level < j) : levelCount f.written j = 0 := by
  have := h.count j
  rw [if_neg (by omega)] at this
  omega

/-- The kids of a manifest take no id of its level. -/
theorem kids_level {T : TreeEnv} {i : Info} {kids : Forest} {lo hi : Nat} (hs : i.Shape T kids)
    (hv : kids.Valid T lo hi (i.level - 1)) : levelCount kids.written i.level = 0 := by
  rcases hs.2 with ⟨rfl, _⟩ | ⟨_, hl, _⟩
  · simp [Forest.written, levelCount]
  · exact hv.below_level (by omega)

/-- Ids taken from the counters right to left are consecutive left to right. -/
theorem idsOk_of_from {T : TreeEnv} {f : Forest} {lo hi level : Nat} (hv : f.Valid T lo hi level) {ids : List Int}
    (hl : (level : Int) ≤ T.height) (h : T.IdsFrom ids f.written) :
    f.IdsOk ∧ ∀ r ∈ f.roots.head?, (T.idsAfter ids f.written)[T.heightOf level]? = some ((r.id : Int) - 1) := by
  induction f generalizing lo hi level ids with
  | nil => exact ⟨trivial, by simp [Forest.roots]⟩
  | cons i kids rest ihk ihr =>
    obtain ⟨h1, h2, h3, h4, h5, h6⟩ := hv
    subst h1
    simp only [Forest.written] at h ⊢
    obtain ⟨ha, hi⟩ := (idsFrom_append ..).mp h
    obtain ⟨hrest, hkids⟩ := (idsFrom_append ..).mp ha
    obtain ⟨r1, r2⟩ := ihr h6 hl hrest
    obtain ⟨k1, _⟩ := ihk h5 (by omega) hkids
    have hcount := kids_level h4 h5
    have hget := idsAfter_get (T := T) (l := kids.written) (ids := T.idsAfter ids rest.written) (idsFrom_level hkids) hl
    rw [hcount] at hget
    have hi2 := hi.2.1
    rw [idsAfter_append, hget] at hi2
    refine ⟨⟨?_, k1, r1⟩, ?_⟩
    · intro r hr
      rw [r2 r hr] at hi2
      simp at hi2
      omega
    · intro r hr
      simp only [Forest.roots, List.head?_cons, Option.mem_def, Option.some.injEq] at hr
      subst hr
      rw [idsAfter_append, idsAfter_get (by simpa using hl) hl, hi.2.1]
      simp [levelCount]

/-! ## The forest -/

/-- The manifest can be read. -/
def ManifestReadable (T : TreeEnv) (V : TravEnv) (op : Packet → Node → Prop) (i : Info) : Prop :=
  ∃ name, T.ctx.manifest.getName (some (i.id : Int)) = .ok name ∧ V.reader name (some i.hash) = .ok i.packet ∧
    validatePacket V.prims V.keystore i.packet = .ok () ∧ i.packet.body.payloadType = some PT_MANIFEST ∧
    op i.packet i.node.toBytes

/-- The manifest's id and hash. -/
def Info.pair (i : Info) : Nat × HashValue := (i.id, i.hash)

/-- The pointers to manifests ask for the manifests. -/
theorem asks_kids {T : TreeEnv} (hg : T.ctx.Good) (hp : T.ctx.Plain) {kids : Forest}
    (hn : ∀ i ∈ kids.roots, ∃ n, T.ctx.manifest.getName (some (i.id : Int)) = .ok n) {start : Option Nat}
    (hids : T.ctx.manifest.usesNameId = true → kids.IdsOk)
    (hs : T.ctx.manifest.usesNameId = true → start = kids.roots.head?.map (·.id)) :
    List.Forall₂ (Spec.Asks T.ctx.readDefs) (groupValues T.ctx.manifest.ncId start 0 (kids.roots.map (·.hash)))
      (kids.roots.map (fun i => T.ctx.manifest.request i.pair)) := by
  have := asks_group hg.manifest hg.lookup_manifest hp.1 (start := start) (k := 0) (l := kids.roots.map Info.pair)
    (by
      intro x hx
      obtain ⟨i, hi, rfl⟩ := List.mem_map.mp hx
      exact hn i hi)
    (by
      intro hu x hx
      rw [hs hu]
      rw [List.head?_map] at hx
      obtain ⟨i, hi, rfl⟩ := Option.map_eq_some_iff.mp hx
      rw [hi]
      rfl)
    (by
      intro hu j x hx
      rw [List.getElem?_map] at hx
      obtain ⟨i, hi, rfl⟩ := Option.map_eq_some_iff.mp hx
      obtain ⟨y, hy, he⟩ := (hids hu).get hi
      exact ⟨y.pair, by rw [List.getElem?_map, hy]; rfl, he⟩)
  rw [List.map_map, List.map_map] at this
  exact this

theorem groupValues_append (nc : Nat) (start : Option Nat) (k : Nat) (a b : List HashValue) :
    groupValues nc start k (a ++ b) = groupValues nc start k a ++ groupValues nc start (k + a.length) b := by
  induction a generalizing k with
  | nil => rfl
  | cons x a ih =>
    simp only [List.cons_append, groupValues, ih, List.length_cons]
    rw [show k + 1 + a.length = k + (a.length + 1) by omega]

theorem groupValues_none (nc : Nat) (k k' : Nat) (a : List HashValue) :
    groupValues nc none k a = groupValues nc none k' a := by
  induction a generalizing k k' with
  | nil => rfl
  | cons x a ih => simp only [groupValues, Option.map_none, ih (k + 1) (k' + 1)]

/-- What the pointers of an interior manifest ask for: its own chunks, then its children. -/
theorem asks_interior {T : TreeEnv} {V : TravEnv} {bs : List Bytes} (h : ChunksReadable T V bs) (hg : T.ctx.Good)
    (hp : T.ctx.Plain) {lo count hi : Nat} (hlt : 0 < count) (hhi : lo + count ≤ T.chunks.length) {kids : Forest}
    (hn : ∀ i ∈ kids.roots, ∃ n, T.ctx.manifest.getName (some (i.id : Int)) = .ok n)
    (hids : T.ctx.manifest.usesNameId = true → kids.IdsOk) :
    List.Forall₂ (Spec.Asks T.ctx.readDefs) ((T.interiorNode lo count hi kids.roots).toBytes.hashGroups.flatMap HashGroup.values)
      ((T.slice lo (lo + count)).map (fun c => T.ctx.data.request c.pair) ++
        kids.roots.map (fun i => T.ctx.manifest.request i.pair)) := by
  simp only [Node.toBytes, TreeEnv.interiorNode, TreeEnv.interiorGroups]
  cases hsh : T.ctx.shared with
  | true =>
    obtain ⟨hd, hu⟩ := hg.shared hsh
    simp only [if_true, List.flatMap_cons, List.flatMap_nil, List.append_nil, TreeEnv.group, HashGroup.values, Option.getD_some]
    rw [groupValues_append, groupValues_none _ (0 + (T.sliceHashes lo (lo + count)).length) 0]
    refine List.rel_append ?_ (asks_kids hg hp hn hids (by simp [hu]))
    have := asks_chunks h hg hp (start := none) (lo := lo) (hi := lo + count) (by omega) hhi (by simp [hu])
    rw [hd] at this ⊢
    exact this
  | false =>
    simp only [Bool.false_eq_true, if_false, List.flatMap_cons, List.flatMap_nil, List.append_nil, TreeEnv.group,
      HashGroup.values, Option.getD_some]
    refine List.rel_append (asks_chunks h hg hp (by omega) hhi ?_) (asks_kids hg hp hn hids ?_)
    · intro hu
      rw [hg.uses, if_pos hu]
    · intro hu
      rw [if_pos hu]

theorem asks_leaf {T : TreeEnv} {V : TravEnv} {bs : List Bytes} (h : ChunksReadable T V bs) (hg : T.ctx.Good)
    (hp : T.ctx.Plain) {lo count : Nat} (hlt : 0 < count) (hhi : lo + count ≤ T.chunks.length) :
    List.Forall₂ (Spec.Asks T.ctx.readDefs) ((T.leafNode lo count).toBytes.hashGroups.flatMap HashGroup.values)
      ((T.slice lo (lo + count)).map (fun c => T.ctx.data.request c.pair)) := by
  simp only [Node.toBytes, TreeEnv.leafNode, List.flatMap_cons, List.flatMap_nil, List.append_nil, TreeEnv.group,
    HashGroup.values, Option.getD_some]
  refine asks_chunks h hg hp (by omega) hhi ?_
  intro hu
  rw [if_pos hu]

theorem sizeData_defs (T : TreeEnv) (n : Nat) (gs : List HashGroup) : (Node.toBytes ⟨T.sizeData n, gs, none⟩).defs = [] := by
  unfold TreeEnv.sizeData
  split <;> rfl

theorem Info.Shape.defs {T : TreeEnv} {i : Info} {kids : Forest} (h : i.Shape T kids) : i.node.toBytes.defs = [] := by
  rcases h.2 with ⟨_, _, hn⟩ | ⟨_, _, _, _, hn⟩
  · rw [hn]; exact sizeData_defs ..
  · rw [hn]; exact sizeData_defs ..

theorem Info.Shape.locators {T : TreeEnv} {i : Info} {kids : Forest} (h : i.Shape T kids) :
    ∀ d, i.node.toBytes.nodeData = some d → d.locators = none := by
  have : ∃ n gs, i.node.toBytes = Node.toBytes ⟨T.sizeData n, gs, none⟩ := by
    rcases h.2 with ⟨_, _, hn⟩ | ⟨_, _, _, _, hn⟩
    · rw [hn]; exact ⟨_, _, rfl⟩
    · rw [hn]; exact ⟨_, _, rfl⟩
  obtain ⟨n, gs, e⟩ := this
  rw [e]
  unfold TreeEnv.sizeData
  split
  · rintro d ⟨⟩; rfl
  · rintro d ⟨⟩

theorem Forest.Valid.locators {T : TreeEnv} {f : Forest} {lo hi level : Nat} (h : f.Valid T lo hi level) :
    ∀ i ∈ f.written, ∀ d, i.node.toBytes.nodeData = some d → d.locators = none := by
  induction f generalizing lo hi level with
  | nil => simp [Forest.written]
  | cons i kids rest ih1 ih2 =>
    obtain ⟨_, _, _, h4, h5, h6⟩ := h
    intro j hj
    simp only [Forest.written, List.mem_append, List.mem_singleton] at hj
    rcases hj with (hj | hj) | rfl
    · exact ih2 h6 j hj
    · exact ih1 h5 j hj
    · exact h4.locators

theorem Info.Shape.groups {T : TreeEnv} {i : Info} {kids : Forest} (h : i.Shape T kids) : i.node.toBytes.hashGroups.length ≤ 2 := by
  rcases h.2 with ⟨_, _, hn⟩ | ⟨_, _, _, _, hn⟩
  · rw [hn]; simp [Node.toBytes, TreeEnv.leafNode]
  · rw [hn]
    simp only [Node.toBytes, TreeEnv.interiorNode, TreeEnv.interiorGroups]
    split <;> simp

theorem Forest.Valid.groups {T : TreeEnv} {f : Forest} {lo hi level : Nat} (h : f.Valid T lo hi level) :
    ∀ i ∈ f.written, i.node.toBytes.hashGroups.length ≤ 2 := by
  induction f generalizing lo hi level with
  | nil => simp [Forest.written]
  | cons i kids rest ih1 ih2 =>
    obtain ⟨_, _, _, h4, h5, h6⟩ := h
    intro j hj
    simp only [Forest.written, List.mem_append, List.mem_singleton] at hj
    rcases hj with (hj | hj) | rfl
    · exact ih2 h6 j hj
    · exact ih1 h5 j hj
    · exact h4.groups

/-- The requests for the trees of a forest lead to the chunks it covers. -/
theorem forest_leads {T : TreeEnv} {V : TravEnv} {op : Packet → Node → Prop} {bs : List Bytes} (hch : ChunksReadable T V bs)
    (hg : T.ctx.Good) (hp : T.ctx.Plain) (hind : 1 ≤ T.indirect) {f : Forest} {lo hi level : Nat} (hv : f.Valid T lo hi level)
    (hhi : hi ≤ T.chunks.length) (hids : T.ctx.manifest.usesNameId = true → f.IdsOk)
    (hm : ∀ i ∈ f.written, ManifestReadable T V op i) :
    ∃ v, Spec.Leads V op T.ctx.readDefs (f.roots.map (fun i => T.ctx.manifest.request i.pair)) v ∧
      v.payloads = (bs.drop lo).take (hi - lo) ∧ v.count = f.written.length + (hi - lo) ∧ v.depth ≤ level + 2 ∧
      v.manifests.Perm (f.written.map (·.packet)) ∧ List.Forall₂ (ServedFor T V) (T.slice lo hi) v.datas ∧
      hi - lo ≤ f.roots.length * Spec.treeCapacity T.direct T.indirect (v.depth - 2) ∧ (f ≠ .nil → 2 ≤ v.depth) := by
  induction f generalizing lo hi level with
  | nil =>
    cases (show lo = hi from hv)
    exact ⟨.nil, .nil, by simp [Spec.Visited.payloads], by simp [Spec.Visited.count, Forest.written], by simp [Spec.Visited.depth],
      .nil, by rw [slice_self]; exact .nil, by simp, by simp⟩
  | cons i kids rest ihk ihr =>
    have hle := hv.le
    obtain ⟨h1, h2, h3, h4, h5, h6⟩ := hv
    subst h1
    subst h2
    have hle1 := h5.le
    have hle2 := h6.le
    have hdefs := h4.defs
    obtain ⟨vk, k1, k2, k3, k4, k5, k6, k7, k8⟩ := ihk h5 (by omega) (fun hu => (hids hu).2.1) (fun j hj => hm j (by simp [Forest.written, hj]))
    obtain ⟨vr, r1, r2, r3, r4, r5, r6, r7, r8⟩ := ihr h6 hhi (fun hu => (hids hu).2.2) (fun j hj => hm j (by simp [Forest.written, hj]))
    obtain ⟨vc, c1, c2, c3, c4, c5, c6⟩ := chunks_lead hch op T.ctx.readDefs (lo := i.lo) i.count (by omega)
    obtain ⟨name, m1, m2, m3, m4, m5⟩ := hm i (by simp [Forest.written])
    have hnames : ∀ j ∈ kids.roots, ∃ n, T.ctx.manifest.getName (some (j.id : Int)) = .ok n := by
      intro j hj
      obtain ⟨n, hn, _⟩ := hm j (by simp [Forest.written, Forest.roots_mem hj])
      exact ⟨n, hn⟩
    have hasks : List.Forall₂ (Spec.Asks T.ctx.readDefs) (i.node.toBytes.hashGroups.flatMap HashGroup.values)
        ((T.slice i.lo (i.lo + i.count)).map (fun c => T.ctx.data.request c.pair) ++
          kids.roots.map (fun i => T.ctx.manifest.request i.pair)) := by
      rcases h4.2 with ⟨hk, _, hn⟩ | ⟨_, _, _, _, hn⟩
      · subst hk
        rw [hn]
        simp only [Forest.roots, List.map_nil, List.append_nil]
        exact asks_leaf hch hg hp h4.1 (by omega)
      · rw [hn]
        exact asks_interior hch hg hp h4.1 (by omega) hnames (fun hu => (hids hu).2.1)
    have hvc : 1 ≤ vc.depth := Spec.Visited.depth_pos (by rw [c3]; exact h4.1)
    refine ⟨.manifest i.packet i.node.toBytes (vc.append vk) vr, ?_, ?_, ?_, ?_, ?_, ?_, ?_, ?_⟩
    · simp only [Forest.roots, List.map_cons]
      rw [show T.ctx.manifest.request i.pair = (name, some i.hash) from request_name m1]
      refine Spec.Leads.manifest (krs := (T.slice i.lo (i.lo + i.count)).map (fun c => T.ctx.data.request c.pair) ++
          kids.roots.map (fun i => T.ctx.manifest.request i.pair)) m2 m3 m4 m5 ?_ ?_ r1
      · rw [hdefs, List.append_nil]; exact hasks
      · rw [hdefs, List.append_nil]; exact c1.append k1
    · simp only [Spec.Visited.payloads, Spec.Visited.payloads_append, c2, k2, r2]
      obtain ⟨a, ha⟩ := Nat.le.dest hle1
      obtain ⟨b, hb⟩ := Nat.le.dest hle2
      rw [show i.hi - (i.lo + i.count) = a by omega, show hi - i.hi = b by omega, show hi - i.lo = i.count + a + b by omega]
      rw [List.take_add, List.take_add, List.drop_drop, List.drop_drop, ← ha, Nat.add_assoc]
    · simp only [Spec.Visited.count, Spec.Visited.count_append, c3, k3, r3, Forest.written, List.length_append,
        List.length_singleton]
      omega
    · simp only [Spec.Visited.depth, Spec.Visited.depth_append]
      have hkd : vk.depth ≤ i.level + 1 := by
        rcases h4.2 with ⟨hk, _⟩ | ⟨_, hl, _⟩
        · subst hk
          cases k1
          simp [Spec.Visited.depth]
        · omega
      omega
    · simp only [Spec.Visited.manifests, Spec.Visited.manifests_append, c5, List.nil_append, Forest.written, List.map_append,
        List.map_cons, List.map_nil]
      refine ((k5.append r5).cons i.packet).trans ?_
      exact .trans (.cons _ List.perm_append_comm) (List.perm_append_singleton _ _).symm
    · simp only [Spec.Visited.datas, Spec.Visited.datas_append]
      rw [← slice_append T (a := i.lo) (b := i.hi) (by omega) hle2, ← slice_append T (Nat.le_add_right i.lo i.count) hle1]
      exact List.rel_append (List.rel_append c6 k6) r6
    · simp only [Spec.Visited.depth, Spec.Visited.depth_append, Forest.roots, List.length_cons, Nat.add_mul, Nat.one_mul]
      have hown : i.hi - i.lo ≤ Spec.treeCapacity T.direct T.indirect (1 + max vc.depth vk.depth - 2) := by
        rcases h4.2 with ⟨hk, hc, _⟩ | ⟨hne, hl, hc, hm', _⟩
        · subst hk
          have : i.lo + i.count = i.hi := h5
          have h0 := treeCapacity_le (d := T.direct) (m := T.indirect) hind (Nat.zero_le (1 + max vc.depth vk.depth - 2))
          unfold TreeEnv.pointers at hc
          simp only [Spec.treeCapacity] at h0
          omega
        · have hd := k8 hne
          obtain ⟨j, hj⟩ : ∃ j, vk.depth = j + 2 := ⟨vk.depth - 2, by omega⟩
          have h0 := treeCapacity_le (d := T.direct) (m := T.indirect) hind
            (show j + 1 ≤ 1 + max vc.depth vk.depth - 2 by omega)
          rw [hj, show j + 2 - 2 = j by omega] at k7
          simp only [Spec.treeCapacity] at h0
          have := Nat.mul_le_mul_right (Spec.treeCapacity T.direct T.indirect j) hm'
          omega
      have hrest := Nat.le_trans r7 (Nat.mul_le_mul_left rest.roots.length (treeCapacity_le (d := T.direct) (m := T.indirect) hind
        (show vr.depth - 2 ≤ max (1 + max vc.depth vk.depth) vr.depth - 2 by omega)))
      have hown' := Nat.le_trans hown (treeCapacity_le (d := T.direct) (m := T.indirect) hind
        (show 1 + max vc.depth vk.depth - 2 ≤ max (1 + max vc.depth vk.depth) vr.depth - 2 by omega))
      omega
    · intro _
      simp only [Spec.Visited.depth, Spec.Visited.depth_append]
      omega

/-! ## Sizes -/

theorem sizeData_fits {T : TreeEnv} {n : Nat} (h : n < 2 ^ 64) : ∀ d, T.sizeData n = some d →
    (∀ k, d.subtreeSize = some k → k < 2 ^ 64) ∧ ∀ c ∈ d.ncDefs, ∀ k, c.ncId = some k → k < 2 ^ 64 := by
  intro d hd
  unfold TreeEnv.sizeData at hd
  split at hd
  · cases hd
    exact ⟨by rintro k ⟨⟩; exact h, by simp⟩
  · cases hd

theorem group_fits {T : TreeEnv} {nc : Nat} {start : Option Nat} {a b : Nat} {ps : List HashValue} (h1 : nc < 2 ^ 64)
    (h2 : ∀ s, start = some s → s < 2 ^ 64) (h3 : b + a < 2 ^ 64) : ∀ d, (T.group nc start a b ps).groupData = some d →
    (∀ k, d.subtreeSize = some k → k < 2 ^ 64) ∧ (∀ k, d.leafSize = some k → k < 2 ^ 64) ∧
    (∀ k, d.ncId = some k → k < 2 ^ 64) ∧ (∀ k, d.startSegmentId = some k → k < 2 ^ 64) := by
  intro d hd
  cases hd
  refine ⟨?_, ?_, ?_, h2⟩
  · intro k hk
    simp only at hk
    split at hk
    · cases hk; exact h3
    · cases hk
  · intro k hk
    simp only at hk
    split at hk
    · cases hk; omega
    · cases hk
  · rintro k ⟨⟩
    exact h1

theorem numberAt_fits {T : TreeEnv} (hnum : ∀ c ∈ T.chunks, c.chunkNumber < 2 ^ 64) (lo : Nat) :
    ∀ s, T.numberAt lo = some s → s < 2 ^ 64 := by
  intro s hs
  obtain ⟨c, hc, rfl⟩ := Option.map_eq_some_iff.mp hs
  exact hnum c (List.mem_of_getElem? hc)

theorem shape_fits {T : TreeEnv} (hnum : ∀ c ∈ T.chunks, c.chunkNumber < 2 ^ 64)
    (hbytes : (T.chunks.map (·.payloadBytes)).sum < 2 ^ 64) (hm : T.ctx.manifest.ncId < 2 ^ 64) (hd : T.ctx.data.ncId < 2 ^ 64)
    {i : Info} {kids : Forest} (hs : i.Shape T kids) (hle : i.lo + i.count ≤ i.hi)
    (hk : T.ctx.manifest.usesNameId = true → ∀ k ∈ kids.roots, k.id < 2 ^ 64) : i.node.Fits64 := by
  rcases hs.2 with ⟨_, _, hn⟩ | ⟨_, _, _, _, hn⟩
  · rw [hn]
    have hb := sliceBytes_le T i.lo (i.lo + i.count)
    refine ⟨sizeData_fits (by omega), ?_⟩
    simp only [TreeEnv.leafNode, List.mem_singleton]
    rintro g rfl
    refine group_fits hd ?_ (by omega)
    intro s hs'
    split at hs'
    · exact numberAt_fits hnum _ s hs'
    · cases hs'
  · rw [hn]
    have hb := sliceBytes_le T i.lo i.hi
    have ha := sliceBytes_append T (show i.lo ≤ i.lo + i.count by omega) hle
    have hkn : T.known (T.sliceBytes (i.lo + i.count) i.hi) ≤ T.sliceBytes (i.lo + i.count) i.hi := by
      unfold TreeEnv.known; split <;> omega
    refine ⟨sizeData_fits (by omega), ?_⟩
    simp only [TreeEnv.interiorNode, TreeEnv.interiorGroups]
    intro g hg
    split at hg
    · rw [List.mem_singleton] at hg
      subst hg
      exact group_fits hm (by simp) (by omega)
    · simp only [List.mem_cons, List.not_mem_nil, or_false] at hg
      rcases hg with rfl | rfl
      · refine group_fits hd ?_ (by omega)
        intro s hs'
        split at hs'
        · exact numberAt_fits hnum _ s hs'
        · cases hs'
      · refine group_fits hm ?_ (by omega)
        intro s hs'
        split at hs'
        · rename_i hu
          obtain ⟨k, hk', rfl⟩ := Option.map_eq_some_iff.mp hs'
          exact hk hu k (List.mem_of_head? hk')
        · cases hs'

/-- Every manifest of the forest fits and can be walked. -/
theorem forest_fits {T : TreeEnv} (hnum : ∀ c ∈ T.chunks, c.chunkNumber < 2 ^ 64)
    (hbytes : (T.chunks.map (·.payloadBytes)).sum < 2 ^ 64) (hm : T.ctx.manifest.ncId < 2 ^ 64) (hd : T.ctx.data.ncId < 2 ^ 64)
    {f : Forest} {lo hi level : Nat} (hv : f.Valid T lo hi level)
    (hk : T.ctx.manifest.usesNameId = true → ∀ k ∈ f.written, k.id < 2 ^ 64) :
    ∀ i ∈ f.written, i.node.Fits64 ∧ Spec.Walkable i.node.toBytes := by
  induction f generalizing lo hi level with
  | nil => simp [Forest.written]
  | cons i kids rest ihk ihr =>
    obtain ⟨h1, h2, h3, h4, h5, h6⟩ := hv
    intro j hj
    simp only [Forest.written, List.mem_append, List.mem_singleton] at hj
    rcases hj with (hj | hj) | rfl
    · exact ihr h6 (fun hu k hk' => hk hu k (by simp [Forest.written, hk'])) j hj
    · exact ihk h5 (fun hu k hk' => hk hu k (by simp [Forest.written, hk'])) j hj
    · refine ⟨shape_fits hnum hbytes hm hd h4 (by have := h5.le; omega)
        (fun hu k hk' => hk hu k (by simp [Forest.written, Forest.roots_mem hk'])), ?_, ?_⟩
      · rcases h4.2 with ⟨_, _, hn⟩ | ⟨_, _, _, _, hn⟩
        · rw [hn]
          simp only [Node.toBytes, TreeEnv.leafNode, List.mem_singleton]
          rintro g rfl
          exact ⟨_, rfl, fun _ => ⟨_, _, rfl, rfl⟩⟩
        · rw [hn]
          simp only [Node.toBytes, TreeEnv.interiorNode, TreeEnv.interiorGroups]
          intro g hg
          split at hg
          · rw [List.mem_singleton] at hg
            subst hg
            exact ⟨_, rfl, fun _ => ⟨_, _, rfl, rfl⟩⟩
          · simp only [List.mem_cons, List.not_mem_nil, or_false] at hg
            rcases hg with rfl | rfl
            · exact ⟨_, rfl, fun _ => ⟨_, _, rfl, rfl⟩⟩
            · exact ⟨_, rfl, fun _ => ⟨_, _, rfl, rfl⟩⟩
      · rw [h4.defs]
        simp

end Ccnpy
