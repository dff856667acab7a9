import Verif.Props.TamperProps
import Verif.Props.RepublishProps
import Verif.Props.AeadProps
import Verif.Props.SecrecyProps

/-!
# C114: equal chunks are stored once
-/

namespace Ccnpy

/-! ## Specifications -/

/-- The blocks of `n` bytes of a file, the last one with what is left. -/
def Spec.blocks (n : Nat) (file : Bytes) : List Bytes :=
  (List.range ((file.length + n - 1) / n)).map (fun k => (file.drop (k * n)).take n)

/-- `ds` is what is in `l`, each once. -/
def Spec.Each {α : Type} (l ds : List α) : Prop := ds.Nodup ∧ ∀ x, x ∈ ds ↔ x ∈ l

/-- Packets put out by builds that agree with `o` in the names, the schema, the expiry time of data and the packet size: of one file or
of several, all packets of a build or some, in any order. -/
def Spec.FromBuilds (P : Prims) (o : TreeOptions) (ps : List Packet) : Prop :=
  ∀ p ∈ ps, ∃ E L o' nc input root out, E.prims = P ∧ Spec.SameData o o' ∧ manifestTree E L o' nc input = (.ok root, out) ∧ p ∈ out

/-! ## Helpers -/

variable {E : Env} {L : FloatLog} {o : TreeOptions} {nc : Nat} {input : Stream} {root : Packet} {out : List Packet} {P : Prims}

theorem blocks_cons {n : Nat} (hn : 0 < n) {b rest : Bytes} (hb : b.length = n) : Spec.blocks n (b ++ rest) = b :: Spec.blocks n rest := by
  unfold Spec.blocks
  have e : ((b ++ rest).length + n - 1) / n = (rest.length + n - 1) / n + 1 := by
    rw [List.length_append, show b.length + rest.length + n - 1 = (rest.length + n - 1) + n by omega, Nat.add_div_right _ hn]
  rw [e, List.range_succ_eq_map, List.map_cons, List.map_map]
  congr 1
  · rw [Nat.zero_mul, List.drop_zero, List.take_append_of_le_length (by omega), List.take_of_length_le (by omega)]
  · refine List.map_congr_left fun k _ => ?_
    show (List.drop ((k + 1) * n) (b ++ rest)).take n = _
    rw [Nat.succ_mul, ← hb, List.drop_append, List.drop_eq_nil_of_le (by omega), List.nil_append, Nat.add_sub_cancel]

theorem blocks_eq {n : Nat} (hn : 0 < n) {bs : List Bytes} (h1 : ∀ b ∈ bs, 0 < b.length ∧ b.length ≤ n)
    (h2 : ∀ b ∈ bs.dropLast, b.length = n) : bs = Spec.blocks n bs.flatten := by
  induction bs with
  | nil =>
    unfold Spec.blocks
    rw [List.flatten_nil, List.length_nil, Nat.div_eq_of_lt (by omega)]
    rfl
  | cons b bs ih =>
    cases bs with
    | nil =>
      have := h1 b (by simp)
      unfold Spec.blocks
      rw [List.flatten_cons, List.flatten_nil, List.append_nil]
      have e : (b.length + n - 1) / n = 1 := by
        rw [show b.length + n - 1 = (b.length - 1) + n by omega, Nat.add_div_right _ hn, Nat.div_eq_of_lt (by omega)]
      rw [e]
      show [b] = [(b.drop (0 * n)).take n]
      rw [Nat.zero_mul, List.drop_zero, List.take_of_length_le (by omega)]
    | cons c cs =>
      rw [List.flatten_cons, blocks_cons hn (h2 b (by simp)), ← ih (fun x hx => h1 x (by simp [hx])) (fun x hx => h2 x ?_)]
      rw [List.dropLast_cons_of_ne_nil (by simp)]
      exact List.mem_cons_of_mem _ hx

theorem SameData.trans {o o' o'' : TreeOptions} (h : Spec.SameData o o') (h' : Spec.SameData o o'') : Spec.SameData o' o'' :=
  ⟨h'.schemaType.trans h.schemaType.symm, h'.name.trans h.name.symm, h'.manifestPrefix.trans h.manifestPrefix.symm,
    h'.dataPrefix.trans h.dataPrefix.symm, h'.expiry.trans h.expiry.symm, h'.size.trans h.size.symm⟩

/-- The data objects of a build with hashed or prefix names. -/
theorem dataOf_body (hty : o.schemaType ≠ .segmented) (h : manifestTree E L o nc input = (.ok root, out)) :
    ∃ ctx, NameCtx.create o.schemaType nc o.name o.manifestPrefix o.dataPrefix o.manifestLocators o.dataLocators = .ok ctx ∧
      ∀ p ∈ Spec.dataOf out, ∃ b, p.body =
          { name := (ctx.data.getName none).toOption.getD none, payloadType := some PT_DATA, payload := some b, expiryTime := o.dataExpiry } ∧
        Packet.createContentObject p.body = .ok p := by
  obtain ⟨R⟩ := manifestTree_ok h
  have hu : R.ctx.data.usesNameId = false := by
    have hi := nameCtx_inv R.ctx_ok
    have : R.ctx.manifest.usesNameId = false := by simpa using fun hu => hty (hi.2.2.mp hu)
    exact hi.2.1.trans this
  refine ⟨R.ctx, R.ctx_ok, ?_⟩
  rw [R.data]
  exact chunked_payload hu R.chunked

theorem out_types (h : manifestTree E L o nc input = (.ok root, out)) :
    ∀ p ∈ out, p.body.payloadType = some PT_DATA ∨ p.body.payloadType = some PT_MANIFEST := by
  obtain ⟨R⟩ := manifestTree_ok h
  obtain ⟨ids, level, i, kids, _, h2, _, _, _, _, _, hout⟩ := R.forest
  intro p hp
  rw [hout, List.mem_append, List.mem_append] at hp
  rcases hp with (hp | hp) | hp
  · exact .inl (chunked_type R.chunked p hp)
  · obtain ⟨j, hj, rfl⟩ := List.mem_map.mp hp
    obtain ⟨_, name, s, s', _, hb⟩ := h2.made j (by simpa [Forest.written] using hj)
    obtain ⟨_, _, w, _, _, _, hbody, _⟩ := buildFromNode_inv hb
    rw [hbody]
    exact .inr rfl
  · rw [List.mem_singleton] at hp
    subst hp
    obtain ⟨_, _, hb⟩ := rootPacket_inv R.root_ok
    obtain ⟨_, _, w, _, _, _, hbody, _⟩ := buildFromNode_inv hb
    rw [show p.body = _ from hbody]
    exact .inr rfl

/-- What `Spec.firsts` keeps, without collisions: every packet, once. -/
theorem firsts_each {ps : List Packet} (hc : Spec.NoCollision P ps) (hh : ∀ p ∈ ps, ∃ hv, p.hash P.sha256 = .ok hv) :
    Spec.Each ps (Spec.firsts P ps) := by
  induction ps with
  | nil => exact ⟨List.nodup_nil, fun _ => Iff.rfl⟩
  | cons p ps ih =>
    obtain ⟨n, m⟩ := ih (fun a ha b hb => hc a (by simp [ha]) b (by simp [hb])) (fun a ha => hh a (by simp [ha]))
    unfold Spec.firsts
    refine ⟨List.nodup_cons.mpr ⟨by simp, n.filter _⟩, fun x => ?_⟩
    rw [List.mem_cons, List.mem_cons, List.mem_filter, m, decide_eq_true_eq]
    constructor
    · rintro (rfl | ⟨hx, _⟩)
      · exact .inl rfl
      · exact .inr hx
    · rintro (rfl | hx)
      · exact .inl rfl
      · by_cases e : x.hash P.sha256 = p.hash P.sha256
        · obtain ⟨hv, h1⟩ := hh x (by simp [hx])
          exact .inl (hc x (by simp [hx]) p (by simp) hv h1 (e ▸ h1))
        · exact .inr ⟨hx, e⟩

theorem each_filter {α : Type} {l ds : List α} (h : Spec.Each l ds) (f : α → Bool) : Spec.Each (l.filter f) (ds.filter f) :=
  ⟨h.1.filter f, fun x => by rw [List.mem_filter, List.mem_filter, h.2]⟩

theorem each_map {α β : Type} {l ds : List α} (h : Spec.Each l ds) (f : α → β) (hf : ∀ x ∈ l, ∀ y ∈ l, f x = f y → x = y) :
    Spec.Each (l.map f) (ds.map f) := by
  refine ⟨?_, fun x => by simp only [List.mem_map, h.2]⟩
  refine List.Nodup.map_on (fun x hx y hy => hf x ((h.2 x).mp hx) y ((h.2 y).mp hy)) h.1

theorem each_length {α : Type} {l ds : List α} (h : Spec.Each l ds) (hl : l.Nodup) : ds.length = l.length :=
  ((List.perm_ext_iff_of_nodup h.1 hl).mpr h.2).length_eq

/-! ## C114 -/

/-- C114: a file that is read without short reads is cut at the multiples of a number that depends on the names and on the packet size, not
on the file. -/
theorem C114_blocks {file : Bytes} (h : manifestTree E L o nc { rest := file } = (.ok root, out)) :
    ∃ ctx size, NameCtx.create o.schemaType nc o.name o.manifestPrefix o.dataPrefix o.manifestLocators o.dataLocators = .ok ctx ∧
      ctx.data.payloadSize o.chunk = .ok size ∧ (Spec.dataOf out).map (·.body.payload) = (Spec.blocks size file).map some := by
  obtain ⟨R⟩ := manifestTree_ok h
  obtain ⟨st, hrun⟩ := R.run
  have hrun0 := hrun
  unfold SchemaImpl.chunkData at hrun
  obtain ⟨size, hsize, hrun⟩ := PyS.liftBind_ok hrun
  obtain ⟨_, _, _, hpos, _⟩ := payloadSize_ok hsize
  obtain ⟨bs, ps, ms, h1, h2, h2a, h3, h4, h5, _⟩ := chunkLoop_ok hpos (Stream.read_nil _ size hpos) (Stream.read_le _ size) hrun
  have hfull := Stream.read_full { rest := file } size rfl
  have h2a := h2a hfull.1 hfull.2
  rw [Stream.read_append] at h1
  refine ⟨R.ctx, size, R.ctx_ok, hsize, ?_⟩
  have hps : R.ps = ps := by rw [← R.put, hrun0, h5]; simp
  rw [R.data, hps]
  have hb : bs = Spec.blocks size file := by
    have := blocks_eq hpos (fun b hb => ⟨h3.pos b hb, h2 b hb⟩) h2a
    rw [h1] at this
    exact this
  rw [← hb]
  obtain ⟨c1, c2, c3⟩ := chunked_get h3
  refine List.ext_getElem? fun j => ?_
  rw [List.getElem?_map, List.getElem?_map]
  by_cases hj : j < ms.length
  · obtain ⟨p, b, e1, e2, _, _, _, e3, _⟩ := c3 j _ (List.getElem?_eq_getElem hj)
    rw [e1, e2]
    simp [e3]
  · rw [List.getElem?_eq_none (by omega), List.getElem?_eq_none (by omega)]
    rfl

/-- C114: with hashed or prefix names, two chunks with the same bytes are the same packet, in one file or in two that were published with
the same names and packet size, at whatever time, under whatever keys. -/
theorem C114_same_packet {E' : Env} {L' : FloatLog} {o' : TreeOptions} {nc' : Nat} {input' : Stream} {root' : Packet}
    {out' : List Packet} (hty : o.schemaType ≠ .segmented) (ho : Spec.SameData o o')
    (h : manifestTree E L o nc input = (.ok root, out)) (h' : manifestTree E' L' o' nc' input' = (.ok root', out'))
    {p q : Packet} (hp : p ∈ Spec.dataOf out) (hq : q ∈ Spec.dataOf out') : p = q ↔ p.body.payload = q.body.payload := by
  refine ⟨fun e => by rw [e], fun e => ?_⟩
  obtain ⟨ctx, c1, c2⟩ := dataOf_body hty h
  obtain ⟨ctx', c1', c2'⟩ := dataOf_body (by rw [ho.schemaType]; exact hty) h'
  obtain ⟨b, hb, hpc⟩ := c2 p hp
  obtain ⟨b', hb', hqc⟩ := c2' q hq
  have hn : ctx.data.getName = ctx'.data.getName := (namesAs_of_create ho c1 c1').1
  have hbb : some b = some b' := by rw [hb, hb'] at e; exact e
  have hbody : p.body = q.body := by rw [hb, hb', hn, ho.expiry, hbb]
  rw [hbody, hqc] at hpc
  exact (Except.ok.inj hpc).symm

theorem fromBuilds_payload {ps : List Packet} (hty : o.schemaType ≠ .segmented) (h : Spec.FromBuilds P o ps) :
    ∀ p ∈ Spec.dataOf ps, ∀ q ∈ Spec.dataOf ps, p.body.payload.getD [] = q.body.payload.getD [] → p = q := by
  intro p hp q hq e
  obtain ⟨hp, hpt⟩ := List.mem_filter.mp hp
  obtain ⟨hq, hqt⟩ := List.mem_filter.mp hq
  obtain ⟨E, L, o1, nc, input, root, out, _, ho, hb, hm⟩ := h p hp
  obtain ⟨E', L', o1', nc', input', root', out', _, ho', hb', hm'⟩ := h q hq
  have hp : p ∈ Spec.dataOf out := List.mem_filter.mpr ⟨hm, hpt⟩
  have hq : q ∈ Spec.dataOf out' := List.mem_filter.mpr ⟨hm', hqt⟩
  refine (C114_same_packet (by rw [ho.schemaType]; exact hty) (SameData.trans ho ho') hb hb' hp hq).mpr ?_
  obtain ⟨_, _, c⟩ := dataOf_body (by rw [ho.schemaType]; exact hty) hb
  obtain ⟨_, _, c'⟩ := dataOf_body (by rw [ho'.schemaType]; exact hty) hb'
  obtain ⟨b, hb, _⟩ := c p hp
  obtain ⟨b', hb', _⟩ := c' q hq
  rw [hb, hb'] at e ⊢
  exact congrArg some e

theorem fromBuilds_data {ps : List Packet} (h : Spec.FromBuilds P o ps) :
    ∀ p ∈ ps, (!Spec.isManifest p) = (p.body.payloadType == some PT_DATA) := by
  intro p hp
  obtain ⟨E, L, o1, nc, input, root, out, _, ho, hb, hm⟩ := h p hp
  unfold Spec.isManifest
  rcases out_types hb p hm with e | e <;> rw [e] <;> decide

theorem dirPutAll_hashes {w : DirWriter} {F : NameComponent → Text} {ps : List Packet} {s0 s : DirState}
    (h : w.putAll P F ps s0 = (.ok (), s)) : ∀ p ∈ ps, ∃ hv, p.hash P.sha256 = .ok hv := by
  induction ps generalizing s0 with
  | nil => simp
  | cons p ps ih =>
    unfold DirWriter.putAll at h
    obtain ⟨_, s1, hp, h⟩ := PyS.bind_ok h
    intro q hq
    rcases List.mem_cons.mp hq with rfl | hq
    · unfold DirWriter.put at hp
      obtain ⟨_, _, hp⟩ := PyS.liftBind_ok hp
      obtain ⟨_, _, _, hp⟩ := PyS.bind_ok hp
      obtain ⟨hv, hh, hp⟩ := PyS.liftBind_ok hp
      exact ⟨hv, hh⟩
    · exact ih h q hq

/-- The bytes of a data object: those of its payload and a number that depends on the options. -/
theorem fromBuilds_size {ps : List Packet} (hty : o.schemaType ≠ .segmented) (h : Spec.FromBuilds P o ps) :
    ∃ k, ∀ p ∈ Spec.dataOf ps, Spec.size p = k + (p.body.payload.getD []).length := by
  cases hd : Spec.dataOf ps with
  | nil => exact ⟨0, by simp⟩
  | cons p0 rest =>
    rw [← hd]
    have hp0 : p0 ∈ Spec.dataOf ps := by rw [hd]; simp
    obtain ⟨hp0, hpt0⟩ := List.mem_filter.mp hp0
    obtain ⟨E0, L0, o0, nc0, input0, root0, out0, _, ho0, hb0, hm0⟩ := h p0 hp0
    obtain ⟨ctx0, c1, c2⟩ := dataOf_body (by rw [ho0.schemaType]; exact hty) hb0
    refine ⟨dataLen ((ctx0.data.getName none).toOption.getD none) [] o.dataExpiry none, fun p hp => ?_⟩
    obtain ⟨hp, hpt⟩ := List.mem_filter.mp hp
    obtain ⟨E, L, o1, nc, input, root, out, _, ho, hb, hm⟩ := h p hp
    obtain ⟨ctx, c1', c2'⟩ := dataOf_body (by rw [ho.schemaType]; exact hty) hb
    obtain ⟨b, hbody, hpc⟩ := c2' p (List.mem_filter.mpr ⟨hm, hpt⟩)
    have hn : ctx0.data.getName = ctx.data.getName := (namesAs_of_create (SameData.trans ho0 ho) c1 c1').1
    rw [hn, hbody]
    obtain ⟨t, ht, _⟩ := createContentObject_inv hpc
    have hcd : ContentObject.createData ((ctx.data.getName none).toOption.getD none) (some b) o.dataExpiry none = .ok p.body := by
      rw [createData_eq, hbody, ho.expiry]
      rw [hbody, ho.expiry] at ht
      exact construct_ok ht
    obtain ⟨_, _, _, _, hl, _⟩ := createDataPacket hcd hpc
    unfold Packet.len at hl
    obtain ⟨v, hv, hl⟩ := bind_eq_ok.mp hl
    unfold Spec.size
    rw [hv]
    show v.length = _
    have := Except.ok.inj hl
    unfold dataLen at this ⊢
    simp only [List.length_nil, Option.getD_some]
    omega

/-- C114 (directory): with hashed or prefix names the directory writer counts, of any number of files published through it, every
distinct chunk once; the bytes are those of the distinct chunks and the same number for each. -/
theorem C114_directory {ps : List Packet} (hty : o.schemaType ≠ .segmented) (h : Spec.FromBuilds P o ps)
    (hc : Spec.NoCollision P ps) {w : DirWriter} {F : NameComponent → Text} {s : DirState} (hs : w.putAll P F ps {} = (.ok (), s)) :
    ∃ chunks overhead, Spec.Each ((Spec.dataOf ps).map (fun p => p.body.payload.getD [])) chunks ∧ s.cntData = chunks.length ∧
      s.bytesData = (chunks.map (fun c => overhead + c.length)).sum := by
  obtain ⟨_, _, _, _, _, h6, h7⟩ := C62_counters hs
  have e0 := firsts_each hc (dirPutAll_hashes hs)
  have e := each_filter e0 (fun p => p.body.payloadType == some PT_DATA)
  obtain ⟨k, hk⟩ := fromBuilds_size hty h
  have hf : (Spec.firsts P ps).filter (fun p => !Spec.isManifest p) =
      (Spec.firsts P ps).filter (fun p => p.body.payloadType == some PT_DATA) :=
    List.filter_congr fun p hp => fromBuilds_data h p ((e0.2 p).mp hp)
  refine ⟨_, k, each_map e (fun p => p.body.payload.getD []) (fromBuilds_payload hty h), ?_, ?_⟩
  · rw [h6, List.length_map, hf]
  · rw [h7, hf, List.map_map]
    refine congrArg List.sum (List.map_congr_left fun p hp => ?_)
    exact hk p ((e.2 p).mp hp)

theorem store_each {ps : List Packet} (hc : Spec.NoCollision P ps) {store : MemoryStore} (hs : MemoryStore.putAll P {} ps = .ok store) :
    Spec.Each ps (store.byHash.map (·.2)) := by
  obtain ⟨_, _, h3, h4, _⟩ := store_inv P ps store hs
  have key : ∀ (ps : List Packet) (store : MemoryStore), MemoryStore.putAll P {} ps = .ok store →
      ∀ e ∈ store.byHash, e.2.hash P.sha256 = .ok e.1 ∧ e.2 ∈ ps := by
    intro ps
    induction ps using reverse_induction with
    | nil => intro s h; cases Except.ok.inj h; simp
    | snoc ps p ih =>
      intro s h e he
      obtain ⟨m, hm, hp⟩ := putAll_snoc h
      obtain ⟨n, hv, hn, hh, _, _, hif⟩ := MemoryStore.put_ok hp
      split at hif
      · rw [hif.1] at he
        exact ⟨(ih m hm e he).1, by simp [(ih m hm e he).2]⟩
      · rw [hif.1, List.mem_append, List.mem_singleton] at he
        rcases he with he | rfl
        · exact ⟨(ih m hm e he).1, by simp [(ih m hm e he).2]⟩
        · exact ⟨hh, by simp⟩
  have key := key ps store hs
  refine ⟨?_, fun p => ⟨fun hp => ?_, fun hp => ?_⟩⟩
  · refine List.Nodup.map_on (fun x hx y hy e => ?_) (List.Nodup.of_map _ h3)
    obtain ⟨kx, _⟩ := key x hx
    obtain ⟨ky, _⟩ := key y hy
    rw [e, ky] at kx
    exact Prod.ext (Except.ok.inj kx).symm e
  · obtain ⟨e, he, rfl⟩ := List.mem_map.mp hp
    exact (key e he).2
  · obtain ⟨hv, hh⟩ := putAll_hashes hs p hp
    obtain ⟨e, he, rfl⟩ := List.mem_map.mp ((h4 hv).mpr ⟨p, hp, hh⟩)
    obtain ⟨k1, k2⟩ := key e he
    rw [hc p hp e.2 k2 _ hh k1]
    exact List.mem_map_of_mem he

/-- C114 (memory): and the store in memory keeps every distinct chunk under one hash. -/
theorem C114_memory {ps : List Packet} (hty : o.schemaType ≠ .segmented) (h : Spec.FromBuilds P o ps) (hc : Spec.NoCollision P ps)
    {store : MemoryStore} (hs : MemoryStore.putAll P {} ps = .ok store) :
    ∃ chunks, Spec.Each ((Spec.dataOf ps).map (fun p => p.body.payload.getD [])) chunks ∧
      (Spec.dataOf (store.byHash.map (·.2))).length = chunks.length :=
  ⟨_, each_map (each_filter (store_each hc hs) _) (fun p => p.body.payload.getD []) (fromBuilds_payload hty h), by
    rw [List.length_map]; rfl⟩

/-- C114: with segmented names all data objects of a file are different, whatever their bytes, and all are stored and counted. -/
theorem C114_segmented (hty : o.schemaType = .segmented) (h : manifestTree E L o nc input = (.ok root, out)) :
    (Spec.dataOf out).Nodup ∧ (Spec.NoCollision E.prims out → ∀ w F s, DirWriter.putAll E.prims F w out {} = (.ok (), s) →
      s.cntData = (Spec.dataOf out).length) := by
  obtain ⟨R⟩ := manifestTree_ok h
  have hnd : (Spec.dataOf out).Nodup := by
    rw [R.data]
    have hc := R.ctx_ok
    rw [hty] at hc
    obtain ⟨pre, hsch⟩ := nameCtx_segmented hc
    obtain ⟨c1, c2, c3⟩ := chunked_get R.chunked
    have hcount := R.count
    refine List.nodup_iff_getElem?_ne_getElem?.mpr fun i j hij hj e => ?_
    obtain ⟨p, _, e1, _, _, _, _, _, _, _, n1⟩ := c3 i _ (List.getElem?_eq_getElem (by omega))
    obtain ⟨q, _, e2, _, _, _, _, _, _, _, n2⟩ := c3 j _ (List.getElem?_eq_getElem (by omega))
    rw [e1, e2] at e
    cases e
    have hM : MAX_CHUNK_ID < 2 ^ 64 := by decide
    rcases getName_inv n1 with ⟨_, _, hh, _⟩ | ⟨_, _, hh⟩ | ⟨p', st', _, _, hh, _, he, _⟩
    · rw [hsch] at hh; cases hh
    · rw [hsch] at hh; cases hh
    · obtain ⟨v, hv, hvn, _⟩ := C55_segmented_name hh n1
      obtain ⟨v', hv', hvn', _⟩ := C55_segmented_name hh n2
      rw [hv] at hv'
      have hvv : v = v' := by simpa using hv'
      subst hvv
      have := (hvn (by omega)).symm.trans (hvn' (by omega))
      omega
  refine ⟨hnd, fun hc w F s hs => ?_⟩
  obtain ⟨_, _, _, _, _, h6, _⟩ := C62_counters hs
  have e0 := firsts_each hc (dirPutAll_hashes hs)
  have e := each_filter e0 (fun p => p.body.payloadType == some PT_DATA)
  have hfb : Spec.FromBuilds E.prims o out := fun p hp => ⟨E, L, o, nc, input, root, out, rfl, ⟨rfl, rfl, rfl, rfl, rfl, rfl⟩, h, hp⟩
  rw [h6, List.filter_congr fun p hp => fromBuilds_data hfb p ((e0.2 p).mp hp)]
  exact each_length e hnd

/-- C114: encrypted manifests are never shared: as long as the random draws differ, all manifests of a file are different, stored and
counted. -/
theorem C114_encrypted {en : Encryptor} (he : o.encryptor = some en) (hf : en.Fits64) (h : manifestTree E L o nc input = (.ok root, out))
    (hn : ∀ i j, i < out.length + 2 → j < out.length + 2 → E.nonce i = E.nonce j → i = j) :
    (out.filter Spec.isManifest).Nodup ∧ (Spec.NoCollision E.prims out → ∀ w F s, DirWriter.putAll E.prims F w out {} = (.ok (), s) →
      s.cntManifest = (out.filter Spec.isManifest).length) := by
  have hnd : (out.filter Spec.isManifest).Nodup := by
    obtain ⟨data, ms, h1, h2, h3⟩ := C73_draws E L o nc input en he hf
    rw [h] at h1
    have h1 : out = data ++ ms := h1
    have hd : data.filter Spec.isManifest = [] := by
      rw [List.filter_eq_nil_iff]
      intro p hp
      unfold Spec.isManifest
      rw [h2 p hp]
      decide
    rw [h1, List.filter_append, hd, List.nil_append]
    refine List.Nodup.filter _ (List.nodup_iff_getElem?_ne_getElem?.mpr fun i j hij hj e => ?_)
    have ei := List.getElem?_eq_getElem (l := ms) (i := i) (by omega)
    have ej : ms[j]? = some ms[i] := e.symm.trans ei
    have := C73_no_nonce_reuse E L o nc input en he hf out (by rw [h]) hn (data.length + i) (data.length + j) _ _
      (by rw [h1, List.getElem?_append_right (by omega), Nat.add_sub_cancel_left]; exact ei)
      (by rw [h1, List.getElem?_append_right (by omega), Nat.add_sub_cancel_left]; exact ej) _ (h3 i _ ei) ?_
    · omega
    · have a := h3 i _ ei
      exact a
  refine ⟨hnd, fun hc w F s hs => ?_⟩
  obtain ⟨_, _, _, h4, _⟩ := C62_counters hs
  rw [h4]
  exact each_length (each_filter (firsts_each hc (dirPutAll_hashes hs)) _) hnd

/-! ## Cases -/

namespace Toy

/-- `n` chunks of four zeros. -/
def zeros (n : Nat) : Stream := ⟨List.replicate (4 * n) 0, List.replicate n 4⟩

/-- Eighteen equal chunks, hashed names, not encrypted. -/
def fileC : Py Packet × List Packet := manifestTree env Spec.exactLog (options .hashed false) 1 (zeros 18)

/-- Decides `Spec.NoCollision`. -/
def noCollision (ps : List Packet) : Bool :=
  ps.all (fun p => ps.all (fun q => p == q || decide (p.hash prims.sha256 ≠ q.hash prims.sha256)))

theorem noCollision_spec {ps : List Packet} (h : noCollision ps = true) : Spec.NoCollision prims ps := by
  intro p hp q hq hv h1 h2
  have := List.all_eq_true.mp (List.all_eq_true.mp h p hp) q hq
  rw [Bool.or_eq_true] at this
  rcases this with e | e
  · exact eq_of_beq e
  · rw [decide_eq_true_eq, h1, h2] at e
    exact absurd rfl e

set_option maxRecDepth 100000 in
/-- C114 (directory, memory): two files, the first of eighteen chunks of which all are equal, the second of five that differ; one
manifest of the first is there twice. -/
example : ∃ rootC outC rootB outB s store, fileC = (.ok rootC, outC) ∧ fileB = (.ok rootB, outB) ∧
    Spec.FromBuilds prims (options .hashed false) (outC ++ outB) ∧ Spec.NoCollision prims (outC ++ outB) ∧
    DirWriter.putAll prims (fun _ => []) {} (outC ++ outB) {} = (.ok (), s) ∧ MemoryStore.putAll prims {} (outC ++ outB) = .ok store ∧
    (Spec.dataOf (outC ++ outB)).length = 23 ∧ s.cntData = 6 ∧ outC.length + outB.length = 31 ∧ s.cntManifest = 6 := by
  have hc : noCollision (fileC.2 ++ fileB.2) = true := by decide +kernel
  have hcnt : (match DirWriter.putAll prims (fun _ => []) {} (fileC.2 ++ fileB.2) {} with
    | (.ok (), s) => s.cntData == 6 && s.cntManifest == 6
    | _ => false) = true := by decide +kernel
  obtain ⟨store, hs⟩ := ok_of_isOk (x := MemoryStore.putAll prims {} (fileC.2 ++ fileB.2)) (by decide +kernel)
  have hl : (Spec.dataOf (fileC.2 ++ fileB.2)).length = 23 ∧ fileC.2.length + fileB.2.length = 31 := by decide +kernel
  obtain ⟨rootC, outC, h, _⟩ := ok_of_eval (x := fileC) (f := List.length) (n := 24) (by decide +kernel)
  obtain ⟨rootB, outB, h', _⟩ := ok_of_eval (x := fileB) (f := List.length) (n := 7) (by decide +kernel)
  rw [h, h'] at hc hs hl hcnt
  revert hcnt
  rcases hput : DirWriter.putAll prims (fun _ => []) {} (outC ++ outB) {} with ⟨_ | _, s⟩
  · intro h
    cases h
  · intro hcnt
    obtain ⟨k1, k2⟩ := Bool.and_eq_true_iff.mp hcnt
    refine ⟨rootC, outC, rootB, outB, s, store, h, h', ?_, noCollision_spec hc, hput, hs, hl.1, eq_of_beq k1, hl.2, eq_of_beq k2⟩
    intro p hp
    rcases List.mem_append.mp hp with hp | hp
    · exact ⟨env, Spec.exactLog, _, 1, _, rootC, outC, rfl, ⟨rfl, rfl, rfl, rfl, rfl, rfl⟩, h, hp⟩
    · exact ⟨env, Spec.exactLog, _, 1, _, rootB, outB, rfl, ⟨rfl, rfl, rfl, rfl, rfl, rfl⟩, h', hp⟩

set_option maxRecDepth 100000 in
/-- C114 (segmented): five equal chunks, five packets. -/
example : ∃ root out s, manifestTree env Spec.exactLog (options .segmented false) 1 (zeros 5) = (.ok root, out) ∧
    Spec.NoCollision prims out ∧ DirWriter.putAll prims (fun _ => []) {} out {} = (.ok (), s) ∧ s.cntData = 5 := by
  obtain ⟨root, out, h, hn, _, hc⟩ := equipped (o := options .segmented false) (input := zeros 5) (n := 5) (ks := none)
    trivial trivial (plain ⟨rfl, rfl, rfl⟩) (text rfl rfl rfl) (by decide +kernel)
  obtain ⟨_, s, hs, _⟩ := ok_of_eval (f := fun s : DirState => s.cntData) (n := 5)
    (x := DirWriter.putAll prims (fun _ => []) {} (manifestTree env Spec.exactLog (options .segmented false) 1 (zeros 5)).2 {})
    (by decide +kernel)
  rw [h] at hs
  exact ⟨root, out, s, h, hc, hs, by rw [(C114_segmented rfl h).2 hc _ _ s hs, hn]⟩

theorem nonces {i j : Nat} (hi : i < 256) (hj : j < 256) (h : env.nonce i = env.nonce j) : i = j := by
  have h : UInt8.ofNat i = UInt8.ofNat j := List.replicate_inj.mp h |>.2.resolve_left (by decide)
  have := congrArg UInt8.toNat h
  rw [UInt8.toNat_ofNat', UInt8.toNat_ofNat'] at this
  omega

set_option maxRecDepth 100000 in
/-- C114 (encrypted): eighteen equal chunks; all manifests differ. -/
example : ∃ root out, manifestTree env Spec.exactLog (options .hashed true) 1 (zeros 18) = (.ok root, out) ∧
    Encryptor.Fits64 (.aead key) ∧ (∀ i j, i < out.length + 2 → j < out.length + 2 → env.nonce i = env.nonce j → i = j) ∧
    (Spec.dataOf out).eraseDups.length = 1 ∧ (out.filter Spec.isManifest).length = 10 := by
  obtain ⟨root, out, h, hl⟩ := ok_of_eval (x := manifestTree env Spec.exactLog (options .hashed true) 1 (zeros 18)) (f := List.length)
    (n := 28) (by decide +kernel)
  have hd : (Spec.dataOf (manifestTree env Spec.exactLog (options .hashed true) 1 (zeros 18)).2).eraseDups.length = 1 ∧
      ((manifestTree env Spec.exactLog (options .hashed true) 1 (zeros 18)).2.filter Spec.isManifest).length = 10 := by decide +kernel
  rw [h] at hd
  refine ⟨root, out, h, ⟨by decide, fun _ h => by cases h⟩, fun i j hi hj => nonces (by omega) (by omega), hd.1, hd.2⟩

set_option maxRecDepth 100000 in
/-- C114 (blocks): 480 bytes in blocks of 229. -/
example : ∃ root out, manifestTree env Spec.exactLog (options .hashed false) 1 { rest := List.replicate 480 0 } = (.ok root, out) ∧
    (Spec.dataOf out).length = 3 := by
  obtain ⟨root, out, h, hl⟩ := ok_of_eval (x := manifestTree env Spec.exactLog (options .hashed false) 1 { rest := List.replicate 480 0 })
    (f := fun out => (Spec.dataOf out).length) (n := 3) (by decide +kernel)
  exact ⟨root, out, h, hl⟩

end Toy

end Ccnpy
