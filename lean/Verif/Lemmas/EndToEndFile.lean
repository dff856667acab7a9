import Verif.Lemmas.EndToEndTree
import Verif.Props.FileProps
import Verif.Props.ContextProps

/-!
# Reading back the packets that a build put to its output
-/

namespace Ccnpy

/-- Specification: the names in the options hold their component values as `bytes`. -/
def Spec.PlainNames (o : TreeOptions) : Prop :=
  ∀ n, (o.name = some n ∨ o.manifestPrefix = some n ∨ o.dataPrefix = some n) → ∀ c ∈ n.components, c.isArray = false

/-- Specification: the name segments (type 1) of a name are UTF-8, its chunk ids (type 5) and manifest ids (type 16) have at most 4300
digits. -/
def Spec.TextName (n : Name) : Prop := ∀ c ∈ n.components,
  (c.type = 1 → ∃ t : Text, utf8Encode t = c.value) ∧ (c.type = 5 ∨ c.type = 16 → Spec.ShortNumber (arrayToNumber c.value))

/-- Specification: with the Hashed schema, the locators of manifests and data, each the root name if not given, are text.  (The other
schemas put no locators into the root manifest.) -/
def Spec.TextLocators (o : TreeOptions) : Prop :=
  o.schemaType = .hashed → ∀ ls, (ls = o.manifestLocators.getD [{ name := o.name }] ∨ ls = o.dataLocators.getD [{ name := o.name }]) →
    ∀ l ∈ ls, ∀ n, l.name = some n → Spec.TextName n

theorem readable_toBytes {n : Name} : Spec.ReadableName n.toBytes ↔ Spec.TextName n := by
  unfold Spec.ReadableName Spec.TextName Name.toBytes
  constructor
  · intro h c hc
    obtain ⟨h1, h2⟩ := h c.toBytes (List.mem_map.2 ⟨c, hc, rfl⟩)
    exact ⟨fun ht => (h1 ht).2, h2⟩
  · intro h c hc
    obtain ⟨c', hc', rfl⟩ := List.mem_map.1 hc
    exact ⟨fun ht => ⟨rfl, (h c' hc').1 ht⟩, (h c' hc').2⟩

private theorem shortId {id : Nat} {s : Option NcSchema} (h : id < 2 ^ 64) :
    ∀ n ∈ (NcDef.toBytes ⟨some id, s⟩).ncId.toList, Spec.ShortNumber n := by
  intro n hn
  simp only [NcDef.toBytes, Option.toList_some, List.mem_singleton] at hn
  exact hn ▸ short_of_lt h

theorem printable_hash {id : Nat} (hid : id < 2 ^ 64) {x : Link} : Spec.Printable (NcDef.toBytes ⟨some id, some (.hash (some [x]) none)⟩) ↔
    ∀ n, x.name = some n → Spec.TextName n := by
  constructor
  · intro h n hn
    have := h.2 _ rfl n.toBytes (by simp [Spec.schemaLocators, NcSchema.toBytes, Spec.linkNames, Link.toBytes, hn])
    exact readable_toBytes.1 this
  · intro h
    refine ⟨shortId hid, ?_⟩
    rintro s ⟨⟩ n hn
    simp only [Spec.schemaLocators, NcSchema.toBytes, Spec.linkNames, Link.toBytes, Option.map_some, List.map_cons, List.map_nil,
      Option.getD_some, List.filterMap_cons, List.filterMap_nil] at hn
    cases hx : x.name with
    | none => rw [hx] at hn; simp at hn
    | some n' =>
      rw [hx] at hn
      simp only [Option.map_some, List.mem_singleton] at hn
      subst hn
      exact readable_toBytes.2 (h n' hx)

theorem printable_named {ty : SchemaType} {p : Option Name} {b : Bool} {id : Nat} (hid : id < 2 ^ 64) (hty : ty ≠ .hashed) :
    Spec.Printable (NcDef.toBytes ⟨some id, some (schemaFor ty none p b)⟩) := by
  cases ty with
  | hashed => exact absurd rfl hty
  | prefixed =>
    refine ⟨shortId hid, ?_⟩
    rintro s ⟨⟩ n hn
    simp [schemaFor, NcSchema.toBytes, Spec.schemaLocators, Spec.linkNames] at hn
  | segmented =>
    refine ⟨shortId hid, ?_⟩
    rintro s ⟨⟩ n hn
    simp [schemaFor, NcSchema.toBytes, Spec.schemaLocators, Spec.linkNames] at hn

/-- Which definitions of a tree can be printed. -/
theorem nameCtx_printable {o : TreeOptions} {nc : Nat} {ctx : NameCtx} (hnc : nc + 1 < 2 ^ 64)
    (h : NameCtx.create o.schemaType nc o.name o.manifestPrefix o.dataPrefix o.manifestLocators o.dataLocators = .ok ctx) :
    (∀ d ∈ ctx.readDefs, Spec.Printable d) ↔ Spec.TextLocators o := by
  have named : ∀ {ty : SchemaType} {m d : Option Name} {b : Bool}, ty ≠ .hashed →
      NameCtx.createNamed ty nc m d b = .ok ctx → ∀ d ∈ ctx.readDefs, Spec.Printable d := by
    intro ty m d b hty h
    unfold NameCtx.createNamed at h
    split at h
    · obtain ⟨i, hi, h⟩ := bind_eq_ok.mp h
      cases h
      rw [schemaCreate_inv hi]
      intro d hd
      simp only [NameCtx.readDefs, NameCtx.ncDefs, if_true, List.map_cons, List.map_nil, List.mem_singleton] at hd
      subst hd
      exact printable_named (show nc < 2 ^ 64 by omega) hty
    · obtain ⟨i, hi, h⟩ := bind_eq_ok.mp h
      obtain ⟨j, hj, h⟩ := bind_eq_ok.mp h
      cases h
      rw [schemaCreate_inv hi, schemaCreate_inv hj]
      intro d hd
      simp only [NameCtx.readDefs, NameCtx.ncDefs, Bool.false_eq_true, if_false, List.map_cons, List.map_nil, List.mem_cons,
        List.not_mem_nil, or_false] at hd
      rcases hd with rfl | rfl
      · exact printable_named (show nc < 2 ^ 64 by omega) hty
      · exact printable_named (show nc + 1 < 2 ^ 64 from hnc) hty
  cases hty : o.schemaType with
  | hashed =>
    rw [hty] at h
    obtain ⟨n, t, x, y, hn, _, hx, hy, _, hc⟩ := (C71_hashed ..).1 h
    have key : Spec.TextLocators o ↔ (∀ n, x.name = some n → Spec.TextName n) ∧ ∀ n, y.name = some n → Spec.TextName n := by
      unfold Spec.TextLocators
      rw [hn, hx, hy]
      constructor
      · intro h
        exact ⟨fun n => h hty _ (.inl rfl) x (by simp) n, fun n => h hty _ (.inr rfl) y (by simp) n⟩
      · rintro ⟨h1, h2⟩ _ ls (rfl | rfl) l hl
        · rw [List.mem_singleton.1 hl]; exact h1
        · rw [List.mem_singleton.1 hl]; exact h2
    rw [key]
    rcases hc with ⟨rfl, rfl⟩ | ⟨_, _, rfl⟩
    · rw [← printable_hash (id := nc) (by omega)]
      simp [NameCtx.readDefs, NameCtx.ncDefs, SchemaImpl.ncDef]
    · rw [← printable_hash (id := nc) (by omega), ← printable_hash (id := nc + 1) hnc]
      simp [NameCtx.readDefs, NameCtx.ncDefs, SchemaImpl.ncDef]
  | prefixed =>
    refine ⟨fun _ h => (by rw [hty] at h; cases h), fun _ => ?_⟩
    rw [hty] at h
    unfold NameCtx.create at h
    simp only at h
    generalize (if o.manifestPrefix.isNone = true then o.name else o.manifestPrefix) = m at h
    generalize (if o.dataPrefix.isNone = true then o.name else o.dataPrefix) = d at h
    split at h
    · cases h
    · exact named (by simp) h
  | segmented =>
    refine ⟨fun _ h => (by rw [hty] at h; cases h), fun _ => ?_⟩
    rw [hty] at h
    unfold NameCtx.create at h
    simp only at h
    split at h
    · cases h
    · generalize (if o.manifestPrefix.isNone = true then o.name else o.manifestPrefix) = m at h
      generalize (if o.dataPrefix.isNone = true then o.name else o.dataPrefix) = d at h
      split at h
      · cases h
      · exact named (by simp) h

theorem Name.toBytes_plain {n : Name} (h : ∀ c ∈ n.components, c.isArray = false) : n.toBytes = n := by
  have : n.components.map NameComponent.toBytes = n.components.map id := by
    refine List.map_congr_left fun c hc => ?_
    have := h c hc
    cases c
    simp only at this
    subst this
    rfl
  unfold Name.toBytes
  rw [this, List.map_id]

theorem nameCtx_plain {o : TreeOptions} {nc : Nat} {ctx : NameCtx} (hp : Spec.PlainNames o)
    (h : NameCtx.create o.schemaType nc o.name o.manifestPrefix o.dataPrefix o.manifestLocators o.dataLocators = .ok ctx) :
    ctx.Plain := by
  have plainFor : ∀ (ty : SchemaType) (p : Option Name) (b : Bool), p.map Name.toBytes = p → (schemaFor ty none p b).PlainName := by
    intro ty p b hp
    cases ty <;> simp [schemaFor, NcSchema.PlainName, hp]
  have named : ∀ {ty : SchemaType} {m d : Option Name} {b : Bool}, m.map Name.toBytes = m → d.map Name.toBytes = d →
      NameCtx.createNamed ty nc m d b = .ok ctx → ctx.Plain := by
    intro ty m d b hm hd h
    unfold NameCtx.createNamed at h
    split at h
    · obtain ⟨i, hi, h⟩ := bind_eq_ok.mp h
      cases h
      rw [schemaCreate_inv hi]
      exact ⟨plainFor _ _ _ hm, plainFor _ _ _ hm⟩
    · obtain ⟨i, hi, h⟩ := bind_eq_ok.mp h
      obtain ⟨j, hj, h⟩ := bind_eq_ok.mp h
      cases h
      rw [schemaCreate_inv hi, schemaCreate_inv hj]
      exact ⟨plainFor _ _ _ hm, plainFor _ _ _ hd⟩
  have hplain : ∀ p : Option Name, (∀ n, p = some n → ∀ c ∈ n.components, c.isArray = false) → p.map Name.toBytes = p := by
    intro p hp
    cases p with
    | none => rfl
    | some n => rw [Option.map_some, Name.toBytes_plain (hp n rfl)]
  have hm : (if o.manifestPrefix.isNone then o.name else o.manifestPrefix).map Name.toBytes =
      (if o.manifestPrefix.isNone then o.name else o.manifestPrefix) := by
    split
    · exact hplain _ (fun n hn => hp n (.inl hn))
    · exact hplain _ (fun n hn => hp n (.inr (.inl hn)))
  have hd : (if o.dataPrefix.isNone then o.name else o.dataPrefix).map Name.toBytes =
      (if o.dataPrefix.isNone then o.name else o.dataPrefix) := by
    split
    · exact hplain _ (fun n hn => hp n (.inl hn))
    · exact hplain _ (fun n hn => hp n (.inr (.inr hn)))
  unfold NameCtx.create at h
  cases hty : o.schemaType with
  | hashed =>
    rw [hty] at h
    simp only at h
    unfold NameCtx.createHashed at h
    obtain ⟨root, _, h⟩ := bind_eq_ok.mp h
    simp only at h
    split at h
    · obtain ⟨i, hi, h⟩ := bind_eq_ok.mp h
      cases h
      rw [schemaCreate_inv hi]
      exact ⟨trivial, trivial⟩
    · obtain ⟨i, hi, h⟩ := bind_eq_ok.mp h
      obtain ⟨j, hj, h⟩ := bind_eq_ok.mp h
      cases h
      rw [schemaCreate_inv hi, schemaCreate_inv hj]
      exact ⟨trivial, trivial⟩
  | prefixed =>
    rw [hty] at h
    simp only at h
    generalize (if o.manifestPrefix.isNone = true then o.name else o.manifestPrefix) = m at h hm
    generalize (if o.dataPrefix.isNone = true then o.name else o.dataPrefix) = d at h hd
    split at h
    · cases h
    · exact named hm hd h
  | segmented =>
    rw [hty] at h
    simp only at h
    split at h
    · cases h
    · generalize (if o.manifestPrefix.isNone = true then o.name else o.manifestPrefix) = m at h hm
      generalize (if o.dataPrefix.isNone = true then o.name else o.dataPrefix) = d at h hd
      split at h
      · cases h
      · exact named hm hd h

/-! ## Chunks -/

theorem chunked_get {sha : Bytes → Bytes} {i : SchemaImpl} {x : Option F64} {k : Nat} {bs : List Bytes} {ps : List Packet}
    {ms : List ChunkMetadata} (h : Spec.Chunked sha i x k bs ps ms) :
    bs.length = ms.length ∧ ps.length = ms.length ∧ ∀ (j : Nat) (c : ChunkMetadata), ms[j]? = some c → ∃ (p : Packet) (b : Bytes),
      ps[j]? = some p ∧ bs[j]? = some b ∧ c.chunkNumber = k + j ∧ c.payloadBytes = b.length ∧ p.hash sha = .ok c.hash ∧
      p.body.payload = some b ∧ p.body.payloadType = some PT_DATA ∧ p.alg = none ∧
      i.getName (some ((k + j : Nat) : Int)) = .ok p.body.name := by
  induction bs generalizing k ps ms with
  | nil => cases ps <;> cases ms <;> simp_all [Spec.Chunked]
  | cons b bs ih =>
    cases ps <;> cases ms <;> simp only [Spec.Chunked] at h
    rename_i p ps m ms
    obtain ⟨_, h2, h3, h4, h5, h6, _, h8, _, h10, _, h12⟩ := h
    obtain ⟨i1, i2, i3⟩ := ih h12
    refine ⟨by simp [i1], by simp [i2], ?_⟩
    intro j c hc
    cases j with
    | zero =>
      cases hc
      exact ⟨p, b, rfl, rfl, h2, h3, h4, h5, h6, h8, h10⟩
    | succ j =>
      obtain ⟨q, b', q1, q2, q3, q4, q5, q6, q7, q8, q9⟩ := i3 j c hc
      refine ⟨q, b', q1, q2, by omega, q4, q5, q6, q7, q8, ?_⟩
      rw [show k + (j + 1) = k + 1 + j by omega]
      exact q9

/-- The payload of a packet that can be hashed is no longer than a TLV can be. -/
theorem Packet.hash_payload {sha : Bytes → Bytes} {p : Packet} {hv : HashValue} (h : p.hash sha = .ok hv) {b : Bytes}
    (hb : p.body.payload = some b) : b.length ≤ 0xFFFF := by
  unfold Packet.hash at h
  obtain ⟨_, h1, _⟩ := bind_eq_ok.mp h
  obtain ⟨x, hx, _⟩ := bind_eq_ok.mp h1
  obtain ⟨t, ht, _⟩ := wireOf_ok hx
  obtain ⟨ms, hms, _⟩ := bind_eq_ok.mp ht
  obtain ⟨_, _, hms⟩ := bind_eq_ok.mp hms
  obtain ⟨_, _, hms⟩ := bind_eq_ok.mp hms
  obtain ⟨_, _, hms⟩ := bind_eq_ok.mp hms
  obtain ⟨e, he, hms⟩ := bind_eq_ok.mp hms
  rw [hb] at he
  obtain ⟨u, hu, _⟩ := optTlv_some he
  obtain ⟨rfl, _, hlen⟩ := mkTlv_ok hu
  exact hlen

theorem chunked_bytes {sha : Bytes → Bytes} {i : SchemaImpl} {x : Option F64} {k : Nat} {bs : List Bytes} {ps : List Packet}
    {ms : List ChunkMetadata} (h : Spec.Chunked sha i x k bs ps ms) : (ms.map (·.payloadBytes)).sum ≤ ms.length * 0xFFFF := by
  obtain ⟨_, _, h3⟩ := chunked_get h
  have : ∀ m ∈ ms, m.payloadBytes ≤ 0xFFFF := by
    intro m hm
    obtain ⟨j, hj, rfl⟩ := List.getElem_of_mem hm
    obtain ⟨p, b, _, _, _, h4, h5, h6, _⟩ := h3 j _ (List.getElem?_eq_getElem hj)
    rw [h4]
    exact Packet.hash_payload h5 h6
  clear h h3
  clear * - this
  induction ms with
  | nil => simp
  | cons m ms ih =>
    have h1 := this m (by simp)
    have h2 := ih (fun m hm => this m (by simp [hm]))
    simp only [List.map_cons, List.sum_cons, List.length_cons]
    omega

/-! ## The run -/

theorem PyS.bind_unit {σ : Type} (x : PyS σ Unit) : (x >>= fun _ => (pure () : PyS σ Unit)) = x := by
  funext s
  rw [PyS.bind_run]
  cases x s with
  | mk r s' => cases r <;> rfl

/-- The tree builder's parameters in the run. -/
def FileRun.env {E : Env} {L : FloatLog} {o : TreeOptions} {nc : Nat} {input : Stream} {root : Packet} {out : List Packet}
    (R : FileRun E L o nc input root out) : TreeEnv := ⟨E, o, R.ctx, R.file.chunks, R.r.direct, R.r.indirect, R.r.height⟩

/-- The tree in the output. -/
theorem FileRun.forest {E : Env} {L : FloatLog} {o : TreeOptions} {nc : Nat} {input : Stream} {root : Packet} {out : List Packet}
    (R : FileRun E L o nc input root out) :
    ∃ ids level i kids, initialIds R.r.indirect R.r.height = .ok ids ∧
      (Forest.cons i kids .nil).Valid R.env 0 R.file.chunks.length level ∧ R.env.IdsFrom ids (kids.written ++ [i]) ∧
      R.file.chunks.length ≤ Spec.treeCapacity R.r.direct R.r.indirect level ∧
      (∀ l < level, Spec.treeCapacity R.r.direct R.r.indirect l < R.file.chunks.length) ∧ (level : Int) ≤ R.r.height ∧
      i.hash = R.topHash ∧ out = R.ps ++ (kids.written ++ [i]).map (·.packet) ++ [root] := by
  obtain ⟨ids, level, i, kids, h1, h2, h3, _, h5, h6, h7, h8⟩ := buildTree_ok (T := R.env) R.direct R.indirect R.nonempty R.built
  refine ⟨ids, level, i, kids, h1, h2, h3.ids, h5, h6, h8, ?_, ?_⟩
  · have hh := (h2.made i (by simp [Forest.written])).1
    have := R.hash
    rw [h7] at this
    exact Except.ok.inj (hh.symm.trans this)
  · refine R.out_eq.trans ?_
    rw [h3.wrote.1]
    simp [startState, R.s0_out]

/-- The manifests of the tree as a reader finds them. -/
def ReadAs (E : Env) (o : TreeOptions) (p : Packet) (node : Node) : Prop :=
  ∃ n name x s s', buildFromNode E o n name x none false s = (.ok p, s') ∧ n.Fits64 ∧ node = n.toBytes ∧ Spec.Walkable node ∧
    (∀ d, node.nodeData = some d → d.locators = none) ∧ node.hashGroups.length ≤ 2

theorem FileRun.fits {E : Env} {L : FloatLog} {o : TreeOptions} {nc : Nat} {input : Stream} {root : Packet} {out : List Packet}
    (R : FileRun E L o nc input root out) :
    (R.file.chunks.map (·.payloadBytes)).sum < 2 ^ 64 ∧ (∀ c ∈ R.file.chunks, c.chunkNumber < 2 ^ 64) ∧
      input.rest.length < 2 ^ 64 := by
  have h1 := chunked_bytes R.chunked
  have h2 := R.count
  have h3 := R.chunked.sum.1
  simp only [MAX_CHUNK_ID] at h2
  have hlt : (R.file.chunks.map (·.payloadBytes)).sum < 2 ^ 64 := by omega
  refine ⟨hlt, ?_, ?_⟩
  · intro c hc
    obtain ⟨j, hj, rfl⟩ := List.getElem_of_mem hc
    obtain ⟨_, _, _, _, h, _⟩ := (chunked_get R.chunked).2.2 j _ (List.getElem?_eq_getElem hj)
    omega
  · rw [← R.bytes]
    omega

/-- The reader returns the manifests of the run and, for the `j`-th chunk, a data object with the `j`-th payload of `bs`. -/
structure FileRun.ServedBy {E : Env} {L : FloatLog} {o : TreeOptions} {nc : Nat} {input : Stream} {root : Packet} {out : List Packet}
    (R : FileRun E L o nc input root out) (rd : Reader) (ks : Option Keystore) (bs : List Bytes) : Prop where
  manifests : ∀ p ∈ out, p.body.payloadType = some PT_MANIFEST → ∀ hv, p.hash E.prims.sha256 = .ok hv →
    rd p.body.name (some hv) = .ok p
  chunks : ChunksReadable R.env ⟨E.prims, rd, ks⟩ bs
  hashes : ∀ name h p, rd name h = .ok p → ∃ hv, p.hash E.prims.sha256 = .ok hv

theorem FileRun.servedBy {E : Env} {L : FloatLog} {o : TreeOptions} {nc : Nat} {input : Stream} {root : Packet} {out : List Packet}
    (R : FileRun E L o nc input root out) {rd : Reader} (hrd : Serves E.prims out rd) (ks : Option Keystore) :
    R.ServedBy rd ks R.bs := by
  obtain ⟨ids, level, i, kids, h1, h2, h3, h4, h5, h6, h7, hout⟩ := R.forest
  obtain ⟨c1, c2, c3⟩ := chunked_get R.chunked
  refine ⟨fun p hp _ hv hh => hrd.get p hp hv hh, ⟨c1, ?_⟩, hrd.hashes⟩
  intro j c hc
  obtain ⟨p, b, h1, h2, h3, h4, h5, h6, h7, h8, h9⟩ := c3 j c hc
  replace h1 := List.mem_of_getElem? h1
  rw [Nat.zero_add] at h9 h3
  exact ⟨h3, p, b, _, h9, hrd.get _ (by rw [hout]; simp [h1]) _ h5, C24_unsigned _ _ _ h8, h7, h6, h2⟩

theorem FileRun.leads {E : Env} {L : FloatLog} {o : TreeOptions} {nc : Nat} {input : Stream} {root : Packet} {out : List Packet}
    (R : FileRun E L o nc input root out) {ks : Option Keystore} (hplain : Spec.PlainNames o) (hnc : nc + 1 < 2 ^ 64)
    {rd : Reader} {bs : List Bytes} (hrd : R.ServedBy rd ks bs) {ids : List Int}
    {level : Nat} {i : Info} {kids : Forest} (hv : (Forest.cons i kids .nil).Valid R.env 0 R.file.chunks.length level)
    (hf : R.env.IdsFrom ids (kids.written ++ [i])) (hlev : (level : Int) ≤ R.r.height)
    (hout : out = R.ps ++ (kids.written ++ [i]).map (·.packet) ++ [root])
    (hfit : R.ctx.manifest.usesNameId = true → ∀ k ∈ kids.written ++ [i], k.id < 2 ^ 64) :
    ∃ v, Spec.Leads ⟨E.prims, rd, ks⟩ (ReadAs E o) R.ctx.readDefs [R.ctx.manifest.request i.pair] v ∧
      v.payloads = bs ∧ v.count + 1 = out.length ∧ v.depth ≤ level + 2 ∧
      v.manifests.Perm ((kids.written ++ [i]).map (·.packet)) ∧
      List.Forall₂ (ServedFor R.env ⟨E.prims, rd, ks⟩) R.file.chunks v.datas ∧
      R.file.chunks.length ≤ Spec.treeCapacity R.r.direct R.r.indirect (v.depth - 2) ∧ 2 ≤ v.depth := by
  obtain ⟨hg, hn1, hn2⟩ := nameCtx_good R.ctx_ok
  have hp := nameCtx_plain hplain R.ctx_ok
  obtain ⟨hb, hnum, _⟩ := R.fits
  obtain ⟨c1, c2, c3⟩ := chunked_get R.chunked
  have hch := hrd.chunks
  have hwr : (Forest.cons i kids .nil).written = kids.written ++ [i] := rfl
  have hfits := forest_fits hnum hb (by show R.ctx.manifest.ncId < _; omega) (by show R.ctx.data.ncId < _; omega) hv
    (by rw [hwr]; exact hfit)
  have hread : ∀ j ∈ (Forest.cons i kids .nil).written,
      ManifestReadable R.env ⟨E.prims, rd, ks⟩ (ReadAs E o) j := by
    intro j hj
    obtain ⟨hh, name, s, s', hname, hb⟩ := hv.made j hj
    obtain ⟨_, _, w, _, _, _, hbody, hs, _⟩ := buildFromNode_inv hb
    have hnm : j.packet.body.name = name := by rw [hbody]; rfl
    have halg : j.packet.alg = none := by
      obtain ⟨_, _, he⟩ := createContentObject_inv hs
      rw [he]
    refine ⟨name, hname, ?_, C24_unsigned _ _ _ halg, by rw [hbody]; rfl, j.node, name, _, s, s', hb, (hfits j hj).1, rfl,
      (hfits j hj).2, Forest.Valid.locators hv j hj, Forest.Valid.groups hv j hj⟩
    rw [← hnm]
    refine hrd.manifests _ ?_ (by rw [hbody]; rfl) _ hh
    rw [hout, ← hwr]
    simp only [List.mem_append, List.mem_map]
    exact .inl (.inr ⟨j, hj, rfl⟩)
  obtain ⟨v, v1, v2, v3, v4, v5, v6, v7, v8⟩ := forest_leads hch hg hp R.indirect hv (Nat.le_refl _) (fun _ => (idsOk_of_from hv hlev (by rw [hwr]; exact hf)).1)
    hread
  refine ⟨v, v1, ?_, ?_, v4, by rw [← hwr]; exact v5, by
    have : R.env.slice 0 R.file.chunks.length = R.file.chunks := by simp [TreeEnv.slice, FileRun.env]
    rw [this] at v6; exact v6, by
    simpa [Forest.roots, FileRun.env] using v7, v8 (fun h => by cases h)⟩
  · rw [v2, List.drop_zero, Nat.sub_zero, ← show bs.length = R.file.chunks.length from hch.1, List.take_length]
  · have hl := congrArg List.length hout
    simp only [List.length_append, List.length_map, List.length_singleton, c2] at hl
    rw [v3, hwr]
    simp only [List.length_append, List.length_singleton]
    omega

theorem signPacket_created {P : Prims} {signer : Option Signer} {body : ContentObject} {p : Packet}
    (h : signPacket P signer body = .ok p) :
    (∃ b, Packet.createContentObject b = .ok p) ∨ (∃ b a v, Packet.createSigned b a v = .ok p) := by
  unfold signPacket at h
  split at h
  · exact .inl ⟨_, h⟩
  · unfold crcSignedPacket at h
    obtain ⟨_, _, h⟩ := bind_eq_ok.mp h
    obtain ⟨_, _, h⟩ := bind_eq_ok.mp h
    obtain ⟨_, _, h⟩ := bind_eq_ok.mp h
    obtain ⟨_, _, h⟩ := bind_eq_ok.mp h
    exact .inr ⟨_, _, _, h⟩
  · unfold rsaSignedPacket at h
    obtain ⟨_, _, h⟩ := bind_eq_ok.mp h
    obtain ⟨_, _, h⟩ := bind_eq_ok.mp h
    obtain ⟨_, _, h⟩ := bind_eq_ok.mp h
    obtain ⟨_, _, h⟩ := bind_eq_ok.mp h
    exact .inr ⟨_, _, _, h⟩

theorem FileRun.root_signed {E : Env} {L : FloatLog} {o : TreeOptions} {nc : Nat} {input : Stream} {root : Packet} {out : List Packet}
    (R : FileRun E L o nc input root out) :
    ∃ m, signPacket E.prims o.signer root.body = .ok root ∧ root.body = ⟨o.name, some PT_MANIFEST, some m, o.rootExpiry, none⟩ := by
  obtain ⟨_, _, hb⟩ := rootPacket_inv R.root_ok
  obtain ⟨_, _, w, _, _, _, hbody, hs, _⟩ := buildFromNode_inv hb
  exact ⟨w, by rw [hbody]; exact hs, hbody⟩

theorem FileRun.root_hash {E : Env} {L : FloatLog} {o : TreeOptions} {nc : Nat} {input : Stream} {root : Packet} {out : List Packet}
    (R : FileRun E L o nc input root out) : ∃ hv, root.hash E.prims.sha256 = .ok hv := by
  obtain ⟨_, hs, _⟩ := R.root_signed
  obtain ⟨_, _, _, _, w, hw, _⟩ := Packet.created (signPacket_created hs)
  exact Packet.hash_of_serialize hw

/-- What the reader finds when it opens the root. -/
structure FileRun.RootRead {E : Env} {L : FloatLog} {o : TreeOptions} {nc : Nat} {input : Stream} {root : Packet} {out : List Packet}
    (R : FileRun E L o nc input root out) (ks : Option Keystore) (t : TState) (hv : HashValue) (c : DecryptorCache)
    (node : Node) (m : Manifest) : Prop where
  hash : root.hash E.prims.sha256 = .ok hv
  ready : c.Ready E.prims o.encryptor false
  defs : node.defs = R.ctx.readDefs
  locators : ∀ d, node.nodeData = some d → d.locators = none
  values : node.hashGroups.flatMap HashGroup.values =
    [⟨R.ctx.manifest.ncId, R.topHash, if R.ctx.manifest.usesNameId then some 0 else none⟩]
  groups : ∀ g ∈ node.hashGroups, g.Iterable
  few : node.hashGroups.length ≤ 2
  schemas : ∀ d ∈ R.ctx.readDefs, ∃ i, SchemaImpl.ofNcDef d = .ok i
  type : root.body.payloadType = some PT_MANIFEST
  parse : Manifest.fromContentObject root.body = .ok m
  decrypt : ∀ rd : Reader, TravEnv.decrypt ⟨E.prims, rd, ks⟩ m { t with count := t.count + 1 } =
    (.ok { node := .plain node }, { t with count := t.count + 1, cache := c })
  valid : validatePacket E.prims ks root = .ok ()
  sealed : SealedFor o.encryptor m
  made : ∃ n name x sg s s', buildFromNode E o n name x sg true s = (.ok root, s') ∧ node = n.toBytes ∧ n.Fits64
  first : ∃ gd ps, node.hashGroups = [{ groupData := some gd, pointers := ps }] ∧ gd.ncId = some R.ctx.manifest.ncId

theorem FileRun.root_read_from {E : Env} {L : FloatLog} {o : TreeOptions} {nc : Nat} {input : Stream} {root : Packet} {out : List Packet}
    (R : FileRun E L o nc input root out) (hA : E.prims.AeadLaw) (hR : E.prims.RsaLaw)
    {ks : Option Keystore} (hver : Spec.CanVerify E.prims ks o.signer) (hdec : Spec.CanDecrypt E.prims ks o.encryptor)
    (hnc : nc + 1 < 2 ^ 64) {t : TState} (ht : t.cache.Ready E.prims o.encryptor true) :
    ∃ hv c node m, R.RootRead ks t hv c node m := by
  have hroot := R.root_ok
  unfold rootPacket at hroot
  obtain ⟨g, hg, hroot⟩ := PyS.liftBind_ok hroot
  obtain ⟨node, hn, hroot⟩ := PyS.liftBind_ok hroot
  obtain ⟨p, s1, hp, hroot⟩ := PyS.bind_ok hroot
  have e : p = root := by
    have := congrArg (fun x => x.1) hroot
    cases this
    rfl
  subst e
  obtain ⟨rfl, _⟩ := construct_inv hg
  obtain ⟨hnode, _⟩ := nodeFromGroups_inv hn
  obtain ⟨hgood, hn1, hn2⟩ := nameCtx_good R.ctx_ok
  obtain ⟨_, _, hlen⟩ := R.fits
  have htot := R.total
  have hfit : node.Fits64 := by
    rw [hnode]
    refine ⟨?_, ?_⟩
    · simp only [Option.isSome_some, Bool.or_true, if_true, Option.getD_some]
      rintro d ⟨⟩
      refine ⟨?_, ?_⟩
      · intro k hk
        simp only at hk
        split at hk
        · cases hk; omega
        · cases hk
      · intro c hc k hk
        simp only [NameCtx.ncDefs] at hc
        split at hc
        · rw [List.mem_singleton] at hc
          subst hc
          cases hk
          omega
        · simp only [List.mem_cons, List.not_mem_nil, or_false] at hc
          rcases hc with rfl | rfl
          · cases hk; omega
          · cases hk; omega
    · simp only [List.mem_singleton]
      rintro g rfl d ⟨⟩
      refine ⟨?_, by simp, ?_, ?_⟩
      · intro k hk
        simp only at hk
        split at hk
        · cases hk; omega
        · cases hk
      · rintro k ⟨⟩
        omega
      · intro k hk
        simp only at hk
        split at hk
        · cases hk; omega
        · cases hk
  have hdefs : node.toBytes.defs = R.ctx.readDefs := by
    rw [hnode]
    simp [Node.toBytes, Node.defs, NodeData.toBytes, NameCtx.readDefs]
  obtain ⟨_, _, w, _, _, _, hbody, hs, _⟩ := buildFromNode_inv hp
  obtain ⟨hv, hh⟩ := R.root_hash
  obtain ⟨m, m', c, r1, r2, r3, r4⟩ := read_manifest hA hdec hfit hp (T := ⟨E.prims, fun _ _ => .error .keyError, ks⟩) rfl rfl
    (t := { t with count := t.count + 1 }) ht
  subst r3
  refine ⟨hv, c, node.toBytes, m, hh, r4, hdefs, ?_, ?_, ?_, by rw [hnode]; simp [Node.toBytes], ?_, by rw [hbody]; rfl, r1, fun _ => r2, signPacket_valid hR hver hs,
    read_sealed hdec hfit hp r1, ⟨node, _, _, _, _, _, hp, rfl, hfit⟩, by rw [hnode]; exact ⟨_, _, rfl, rfl⟩⟩
  · rw [hnode]
    simp only [Node.toBytes, Option.isSome_some, Bool.or_true, if_true, Option.map_some]
    rintro d ⟨⟩
    rfl
  · rw [hnode]
    simp only [Node.toBytes, List.flatMap_cons, List.flatMap_nil, List.append_nil, HashGroup.values, Option.getD_some, groupValues]
    cases R.ctx.manifest.usesNameId <;> rfl
  · rw [hnode]
    simp only [Node.toBytes, List.mem_singleton]
    rintro g rfl
    exact ⟨_, rfl, fun _ => ⟨_, _, rfl, rfl⟩⟩
  · intro d hd
    obtain ⟨d', hd', rfl⟩ := List.mem_map.mp hd
    unfold NameCtx.ncDefs at hd'
    split at hd'
    · rw [List.mem_singleton] at hd'
      subst hd'
      exact ⟨_, ofNcDef_toBytes hgood.manifest⟩
    · simp only [List.mem_cons, List.not_mem_nil, or_false] at hd'
      rcases hd' with rfl | rfl
      · exact ⟨_, ofNcDef_toBytes hgood.manifest⟩
      · exact ⟨_, ofNcDef_toBytes hgood.data⟩

theorem FileRun.root_read {E : Env} {L : FloatLog} {o : TreeOptions} {nc : Nat} {input : Stream} {root : Packet} {out : List Packet}
    (R : FileRun E L o nc input root out) (hA : E.prims.AeadLaw) (hO : E.prims.OaepLaw) (hR : E.prims.RsaLaw)
    {ks : Option Keystore} (hver : Spec.CanVerify E.prims ks o.signer) (hdec : Spec.CanDecrypt E.prims ks o.encryptor)
    (hnc : nc + 1 < 2 ^ 64) : ∃ hv c node m, R.RootRead ks (TState.new ks) hv c node m :=
  R.root_read_from hA hR hver hdec hnc (ready_new hO hdec)

/-- Numbers that fit 64 bits are short. -/
theorem numbers_short {n : Node} (h : n.Fits64) : ∀ k ∈ Spec.nodeNumbers n.toBytes, Spec.ShortNumber k := by
  intro k hk
  refine short_of_lt ?_
  unfold Spec.nodeNumbers Node.toBytes at hk
  simp only at hk
  rcases List.mem_append.1 hk with hk | hk
  · cases hd : n.nodeData with
    | none => rw [hd] at hk; cases hk
    | some d =>
      obtain ⟨h1, h2⟩ := h.1 d hd
      rw [hd] at hk
      simp only [Option.map_some, NodeData.toBytes] at hk
      rcases List.mem_append.1 hk with hk | hk
      · exact h1 k (Option.mem_toList.1 hk)
      · obtain ⟨c, hc, hk⟩ := List.mem_flatMap.1 hk
        obtain ⟨c', hc', rfl⟩ := List.mem_map.1 hc
        exact h2 c' hc' k (Option.mem_toList.1 hk)
  · obtain ⟨g, hg, hk⟩ := List.mem_flatMap.1 hk
    cases hd : g.groupData with
    | none => rw [hd] at hk; cases hk
    | some d =>
      obtain ⟨h1, h2, h3, h4⟩ := h.2 g hg d hd
      rw [hd] at hk
      simp only [Option.map_some, Option.getD_some, Spec.groupNumbers, List.mem_append] at hk
      rcases hk with ((hk | hk) | hk) | hk
      · exact h1 k (Option.mem_toList.1 hk)
      · exact h2 k (Option.mem_toList.1 hk)
      · exact h3 k (Option.mem_toList.1 hk)
      · exact h4 k (Option.mem_toList.1 hk)

theorem FileRun.RootRead.short {E : Env} {L : FloatLog} {o : TreeOptions} {nc : Nat} {input : Stream} {root : Packet} {out : List Packet}
    {R : FileRun E L o nc input root out} {ks : Option Keystore} {t : TState} {hv : HashValue} {c : DecryptorCache} {node : Node} {m : Manifest}
    (H : R.RootRead ks t hv c node m) : ∀ k ∈ Spec.nodeNumbers node, Spec.ShortNumber k := by
  obtain ⟨_, _, _, _, _, _, _, rfl, h⟩ := H.made
  exact numbers_short h

/-- A node that can be walked, has no locators of its own and short numbers, can be shown. -/
theorem manifest_shown {node : Node} (hl : ∀ d, node.nodeData = some d → d.locators = none) (hw : Spec.Walkable node)
    (hn : ∀ k ∈ Spec.nodeNumbers node, Spec.ShortNumber k) : Manifest.display { node := .plain node } = .ok () := by
  rw [C77_manifest]
  refine ⟨fun _ h => (by cases h), fun _ _ h => (by cases h), ?_, ?_, fun _ h => (by cases h), fun d h => (by cases h; exact hn)⟩
  · rintro d ⟨⟩ n hn
    unfold Spec.nodeLinks at hn
    cases hd : node.nodeData with
    | none => rw [hd] at hn; simp [Spec.linkNames] at hn
    | some d =>
      simp only [hd, hl d hd, Option.getD_none, List.nil_append] at hn
      obtain ⟨l, hl, e⟩ := List.mem_filterMap.1 hn
      obtain ⟨x, hx, hl⟩ := List.mem_flatMap.1 hl
      have hx' : x ∈ node.defs := by
        simp only [Node.defs, hd]
        exact hx
      cases hs : x.schema with
      | none => rw [hs] at hl; simp at hl
      | some s =>
        rw [hs] at hl
        exact (hw.2 x hx').2.2 s hs n (List.mem_filterMap.2 ⟨l, hl, e⟩)
  · rintro d ⟨⟩ g hg
    obtain ⟨_, hp, _⟩ := hw.1 g hg
    rw [hp]
    simp

/-- The root manifest is read. -/
theorem FileRun.root_from {E : Env} {L : FloatLog} {o : TreeOptions} {nc : Nat} {input : Stream} {root : Packet} {out : List Packet}
    (R : FileRun E L o nc input root out) (hA : E.prims.AeadLaw) (hR : E.prims.RsaLaw)
    {ks : Option Keystore} (hver : Spec.CanVerify E.prims ks o.signer) (hdec : Spec.CanDecrypt E.prims ks o.encryptor)
    (hnc : nc + 1 < 2 ^ 64) (htext : Spec.TextLocators o) {t : TState} (ht : t.cache.Ready E.prims o.encryptor true) {J : DecryptorCache → Prop}
    (hj : ∀ m r c', SealedFor o.encryptor m → t.cache.open E.prims m = (.ok r, c') → J c') {rd : Reader}
    (hget : ∀ hv, root.hash E.prims.sha256 = .ok hv → rd o.name (some hv) = .ok root) :
    ∃ hv c, root.hash E.prims.sha256 = .ok hv ∧ c.Ready E.prims o.encryptor false ∧ J c ∧ ∀ krs depth,
      List.Forall₂ (Spec.Asks R.ctx.readDefs)
        [⟨R.ctx.manifest.ncId, R.topHash, if R.ctx.manifest.usesNameId then some 0 else none⟩] krs →
      ∃ cache, CacheOf cache R.ctx.readDefs ∧
        TravEnv.traverse ⟨E.prims, rd, ks⟩ (depth + 1) o.name (some hv) t =
          visitRequests ⟨E.prims, rd, ks⟩ (fun q => TravEnv.preorder ⟨E.prims, rd, ks⟩ depth cache q)
            krs { t with count := t.count + 1, cache := c } := by
  obtain ⟨hv, c, node, m, H⟩ := R.root_read_from hA hR hver hdec hnc ht
  have hget := hget hv H.hash
  have hprint := (nameCtx_printable hnc R.ctx_ok).2 htext
  refine ⟨hv, c, H.hash, H.ready, hj _ _ _ H.sealed (opened (T := ⟨E.prims, rd, ks⟩)
    (t := { t with count := t.count + 1 }) (t' := { t with count := t.count + 1, cache := c }) rfl (H.decrypt rd) rfl), ?_⟩
  intro krs depth hasks
  obtain ⟨cache, h1, h2⟩ := preorder_manifest (T := ⟨E.prims, rd, ks⟩) (depth := depth) (nc := []) (scope := [])
    (p := root) (node := node) (s := t) H.hash rfl H.type H.parse (H.decrypt rd) rfl
    ⟨H.groups, by rw [H.defs]; exact fun d hd => ⟨H.schemas d hd, hprint d hd⟩⟩ (krs := krs)
    (by rw [H.defs, H.values]; exact hasks)
  rw [H.defs] at h1
  have hshow := manifest_shown H.locators ⟨H.groups, by rw [H.defs]; exact fun d hd => ⟨H.schemas d hd, hprint d hd⟩⟩ H.short
  rw [reportError_shown hshow] at h2
  refine ⟨cache, h1, ?_⟩
  rw [traverse_eq]
  simp only [visitRequests]
  rw [PyS.liftBind_run hget, PyS.liftBind_run H.valid, PyS.bind_unit, h2]

/-- The root manifest is read by a new traversal. -/
theorem FileRun.root {E : Env} {L : FloatLog} {o : TreeOptions} {nc : Nat} {input : Stream} {root : Packet} {out : List Packet}
    (R : FileRun E L o nc input root out) (hA : E.prims.AeadLaw) (hO : E.prims.OaepLaw) (hR : E.prims.RsaLaw)
    {ks : Option Keystore} (hver : Spec.CanVerify E.prims ks o.signer) (hdec : Spec.CanDecrypt E.prims ks o.encryptor)
    (hnc : nc + 1 < 2 ^ 64) (htext : Spec.TextLocators o) {rd : Reader}
    (hget : ∀ hv, root.hash E.prims.sha256 = .ok hv → rd o.name (some hv) = .ok root) :
    ∃ hv c, root.hash E.prims.sha256 = .ok hv ∧ c.Ready E.prims o.encryptor false ∧ ∀ krs depth,
      List.Forall₂ (Spec.Asks R.ctx.readDefs)
        [⟨R.ctx.manifest.ncId, R.topHash, if R.ctx.manifest.usesNameId then some 0 else none⟩] krs →
      ∃ cache, CacheOf cache R.ctx.readDefs ∧
        TravEnv.traverse ⟨E.prims, rd, ks⟩ (depth + 1) o.name (some hv) (TState.new ks) =
          visitRequests ⟨E.prims, rd, ks⟩ (fun q => TravEnv.preorder ⟨E.prims, rd, ks⟩ depth cache q)
            krs { count := 1, writes := [], cache := c } := 
  let ⟨hv, c, h1, h2, _, h3⟩ := R.root_from hA hR hver hdec hnc htext (ready_new hO hdec) (J := fun _ => True)
    (fun _ _ _ _ _ => trivial) hget
  ⟨hv, c, h1, h2, h3⟩

theorem update_unprintable {ds : List NcDef} (hs : ∀ d ∈ ds, ∃ i, SchemaImpl.ofNcDef d = .ok i) (hp : ¬ ∀ d ∈ ds, Spec.Printable d)
    (hb : ∀ d ∈ ds, ∀ e, d.display = .error e → e = .valueError) (c : NcCache) : NcCache.update c ds = .error .valueError := by
  induction ds generalizing c with
  | nil => exact absurd (by simp) hp
  | cons d ds ih =>
    obtain ⟨i, hi⟩ := hs d (by simp)
    unfold NcCache.update
    by_cases hd : Spec.Printable d
    · rw [announce_ok hd hi, ok_bind, hi, ok_bind]
      refine ih (fun d hd => hs d (by simp [hd])) (fun h => hp ?_) (fun d hd => hb d (by simp [hd])) _
      intro x hx
      rcases List.mem_cons.1 hx with rfl | hx
      · exact hd
      · exact h x hx
    · have : d.announce = .error .valueError := by
        unfold NcDef.announce
        rw [SchemaImpl.ofNcDef_id hi]
        simp only
        cases he : d.display with
        | ok _ => exact absurd (ncDef_show.1 he) hd
        | error e => rw [hb d (by simp) e he]
      rw [this]
      rfl

theorem plain_display {d : NcDef} {e : PyErr} (h : d.toBytes.display = .error e) : e = .valueError := by
  have links : ∀ {ls : Option (List Link)}, showOpt locatorsDisplay (ls.map (·.map Link.toBytes)) = .error e → e = .valueError := by
    intro ls h
    obtain ⟨ls', h1, h⟩ := showOpt_error h
    obtain ⟨l, hl, h⟩ := showAll_error h
    obtain ⟨n, hn, h⟩ := showOpt_error h
    cases ls with
    | none => cases h1
    | some ls0 =>
      cases h1
      obtain ⟨l0, _, rfl⟩ := List.mem_map.1 hl
      simp only [Link.toBytes] at hn
      cases hn0 : l0.name with
      | none => rw [hn0] at hn; cases hn
      | some n0 =>
        rw [hn0] at hn
        cases hn
        obtain ⟨c, hc, h⟩ := showAll_error h
        obtain ⟨c0, _, rfl⟩ := List.mem_map.1 hc
        rcases bind_eq_error.mp h with h | ⟨_, _, h⟩
        · unfold NameComponent.repr at h
          split at h
          · rcases bind_eq_error.mp h with h | ⟨_, _, h⟩
            · exact decimal_error h
            · cases h
          · split at h
            · simp only [NameComponent.toBytes, Bool.false_eq_true, if_false] at h
              rcases bind_eq_error.mp h with h | ⟨_, _, h⟩
              · unfold utf8DecodePy at h
                split at h
                · cases h; rfl
                · cases h
              · cases h
            · split at h
              · rcases bind_eq_error.mp h with h | ⟨_, _, h⟩
                · exact decimal_error h
                · cases h
              · cases h
        · cases h
  rcases bind_eq_error.mp h with h | ⟨_, _, h⟩
  · exact showInts_error h
  obtain ⟨s, hs, h⟩ := showOpt_error h
  simp only [NcDef.toBytes] at hs
  cases hs0 : d.schema with
  | none => rw [hs0] at hs; cases hs
  | some s0 =>
    rw [hs0] at hs
    cases hs
    cases s0 <;> exact links h

/-- The locators of the root manifest cannot be printed. -/
theorem FileRun.root_unprintable {E : Env} {L : FloatLog} {o : TreeOptions} {nc : Nat} {input : Stream} {root : Packet}
    {out : List Packet} (R : FileRun E L o nc input root out) (hA : E.prims.AeadLaw) (hO : E.prims.OaepLaw) (hR : E.prims.RsaLaw)
    {ks : Option Keystore} (hver : Spec.CanVerify E.prims ks o.signer) (hdec : Spec.CanDecrypt E.prims ks o.encryptor)
    (hnc : nc + 1 < 2 ^ 64) (htext : ¬ Spec.TextLocators o) {rd : Reader}
    (hget : ∀ hv, root.hash E.prims.sha256 = .ok hv → rd o.name (some hv) = .ok root) :
    ∃ hv c, root.hash E.prims.sha256 = .ok hv ∧ ∀ depth,
      TravEnv.traverse ⟨E.prims, rd, ks⟩ (depth + 1) o.name (some hv) (TState.new ks) =
        (.error .valueError, { count := 1, writes := [], cache := c }) := by
  obtain ⟨hv, c, node, m, H⟩ := R.root_read hA hO hR hver hdec hnc
  have hprint : ¬ ∀ d ∈ R.ctx.readDefs, Spec.Printable d := fun h => htext ((nameCtx_printable hnc R.ctx_ok).1 h)
  refine ⟨hv, c, H.hash, fun depth => ?_⟩
  have hu : updateNcCache [] node = .error .valueError := by
    rw [updateNcCache_eq, H.defs]
    refine update_unprintable H.schemas hprint ?_ _
    intro d hd e he
    obtain ⟨d', _, rfl⟩ := List.mem_map.1 hd
    exact plain_display he
  unfold TravEnv.traverse
  rw [PyS.liftBind_run (hget hv H.hash), PyS.liftBind_run H.valid, TravEnv.preorder, PyS.liftBind_run H.hash, PyS.bind_run]
  simp only [PyS.modify_run, H.type]
  rw [if_pos trivial, PyS.liftBind_run H.parse]
  refine (PyS.bind_of_ok (H.decrypt rd)).trans ?_
  simp only [PyS.bind_run, PyS.lift_run, hu]
  rfl

end Ccnpy
