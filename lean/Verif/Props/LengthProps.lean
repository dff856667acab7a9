import Verif.Props.RoomProps

/-!
# C122: which files are published, exactly, and how long they can be

C120 and C121 leave open when `SchemaImpl.chunk_data` returns.  It numbers the chunks from 0 and refuses a number above 2^24 - 1, so this is a
question of how many chunks the reads of the input give.
-/

namespace Ccnpy

/-! ## Specification -/

/-- The number of chunks of `len` bytes: `size` bytes per chunk, the last may be shorter.  The first reads return what the schedule says (at
least one byte and at most `size`), and each gives a chunk of its own. -/
def Spec.chunkCount (size : Nat) : List Nat → Nat → Nat
  | [], len => (len + size - 1) / size
  | w :: ws, len => if len = 0 then 0 else 1 + Spec.chunkCount size ws (len - min size (max 1 w))

/-! ## The loop -/

theorem chunkCount_zero {size : Nat} (hs : 0 < size) (ws : List Nat) : Spec.chunkCount size ws 0 = 0 := by
  cases ws with
  | nil => exact Nat.div_eq_of_lt (by omega)
  | cons => simp [Spec.chunkCount]

theorem chunkCount_read {size : Nat} (hs : 0 < size) (s : Stream) (h : s.rest ≠ []) :
    Spec.chunkCount size s.schedule s.rest.length = 1 + Spec.chunkCount size (s.read size).2.schedule (s.read size).2.rest.length := by
  have hpos : 0 < s.rest.length := List.length_pos_iff.mpr h
  cases hw : s.schedule with
  | nil =>
    simp only [Stream.read, hw, List.length_drop, List.tail_nil, Spec.chunkCount]
    rw [show s.rest.length + size - 1 = (s.rest.length - 1) + size by omega, Nat.add_div_right _ hs]
    by_cases hl : size ≤ s.rest.length
    · rw [show s.rest.length - size + size - 1 = s.rest.length - 1 by omega]
      omega
    · rw [Nat.div_eq_of_lt (by omega), Nat.div_eq_of_lt (by omega)]
  | cons w ws =>
    simp only [Stream.read, hw, List.length_drop, List.tail_cons, Spec.chunkCount]
    rw [if_neg (by omega)]

/-- The chunks that the loop still has to make. -/
def toMake (size : Nat) (payload : Bytes) (stream : Stream) : Nat :=
  if payload.length = 0 then 0 else 1 + Spec.chunkCount size stream.schedule stream.rest.length

theorem toMake_read {size : Nat} (hs : 0 < size) (s : Stream) :
    toMake size (s.read size).1 (s.read size).2 = Spec.chunkCount size s.schedule s.rest.length := by
  unfold toMake
  by_cases h : s.rest = []
  · have : (s.read size).1.length = 0 := by simp [Stream.read, h]
    rw [if_pos this, h]
    exact (chunkCount_zero hs _).symm
  · rw [chunkCount_read hs s h, if_neg]
    intro h0
    have := Stream.read_nil s size hs h0
    have e := congrArg List.length (Stream.read_append s size)
    rw [List.length_append, h0, this] at e
    exact h (List.length_eq_zero_iff.mp (by simpa using e.symm))

theorem chunkLoop_counts {sha : Bytes → Bytes} {i : SchemaImpl} {o : ChunkOptions} {size : Nat}
    (hs : i.payloadSize o = .ok size) (hpos : 0 < size) (hmax : o.maxPacketSize ≤ 0xFFFF) {fuel : Nat}
    {payload : Bytes} {stream : Stream} {acc : List ChunkMetadata} {total : Nat} {st : ChunkState} (hst : st.nextChunkId ≤ 2 ^ 24)
    (hlen : payload.length ≤ size) (hfuel : payload.length + stream.rest.length ≤ fuel) :
    (st.nextChunkId + toMake size payload stream ≤ 2 ^ 24 →
      ∃ file st', i.chunkLoop sha o size fuel payload stream acc total st = (.ok file, st')) ∧
    (2 ^ 24 < st.nextChunkId + toMake size payload stream →
      ∃ ps st', i.chunkLoop sha o size fuel payload stream acc total st = (.error .valueError, st') ∧ st'.output = st.output ++ ps ∧
        st.nextChunkId + ps.length = 2 ^ 24) := by
  have hM : MAX_CHUNK_ID = 2 ^ 24 - 1 := by decide
  induction fuel generalizing payload stream acc total st with
  | zero =>
    have hp : payload.length = 0 := by omega
    rw [chunkLoop_done hp]
    refine ⟨fun _ => ⟨_, _, rfl⟩, fun h => ?_⟩
    unfold toMake at h
    rw [if_pos hp] at h
    omega
  | succ fuel ih =>
    by_cases hp : payload.length = 0
    · rw [chunkLoop_done hp]
      refine ⟨fun _ => ⟨_, _, rfl⟩, fun h => ?_⟩
      unfold toMake at h
      rw [if_pos hp] at h
      omega
    · rw [chunkLoop_step hp]
      have hm : toMake size payload stream = 1 + toMake size (stream.read size).1 (stream.read size).2 := by
        rw [toMake_read hpos, toMake, if_neg hp]
      by_cases hid : st.nextChunkId > MAX_CHUNK_ID
      · rw [if_pos hid]
        refine ⟨fun h => ?_, fun _ => ⟨[], _, rfl, by simp, ?_⟩⟩
        · omega
        · simp only [List.length_nil]
          omega
      · rw [if_neg hid]
        obtain ⟨nm, p, hv, h1, h2, h3⟩ := dataPacket_succeeds hs hmax (id := st.nextChunkId) (by omega) (stream.read size).1 payload hlen
        simp only [h1, ok_bind, h2, h3 sha, pure_eq_ok]
        have hr := congrArg List.length (Stream.read_append stream size)
        rw [List.length_append] at hr
        obtain ⟨i1, i2⟩ := ih (acc := acc ++ [⟨st.nextChunkId, payload.length, .sha256 (sha hv)⟩]) (total := total + payload.length)
          (st := ⟨st.output ++ [p], st.nextChunkId + 1⟩) (payload := (stream.read size).1) (stream := (stream.read size).2)
          (by simp only; omega) (Stream.read_le stream size) (by omega)
        refine ⟨fun h => i1 (by simp only; omega), fun h => ?_⟩
        obtain ⟨ps, st', e1, e2, e3⟩ := i2 (by simp only; omega)
        refine ⟨p :: ps, st', e1, by rw [e2]; simp, ?_⟩
        simp only at e3
        simp only [List.length_cons]
        omega

/-! ## Theorems -/

/-- C122 (a): `chunk_data` returns exactly if the last chunk has a number below 2^24. -/
theorem C122_chunks (sha : Bytes → Bytes) {i : SchemaImpl} {o : ChunkOptions} {size : Nat} (hs : i.payloadSize o = .ok size)
    (hmax : o.maxPacketSize ≤ 0xFFFF) (stream : Stream) {st : ChunkState} (hst : st.nextChunkId ≤ 2 ^ 24) :
    (∃ file st', i.chunkData sha o stream st = (.ok file, st')) ↔
      st.nextChunkId + Spec.chunkCount size stream.schedule stream.rest.length ≤ 2 ^ 24 := by
  obtain ⟨_, _, _, hpos, _⟩ := payloadSize_ok hs
  have hr := congrArg List.length (Stream.read_append stream size)
  rw [List.length_append] at hr
  unfold SchemaImpl.chunkData
  rw [PyS.liftBind_run hs]
  obtain ⟨a, b⟩ := chunkLoop_counts (sha := sha) hs hpos hmax (fuel := stream.rest.length) (payload := (stream.read size).1)
    (stream := (stream.read size).2) (acc := []) (total := 0) hst (Stream.read_le stream size) (by omega)
  rw [toMake_read hpos] at a b
  refine ⟨fun ⟨file, st', h⟩ => ?_, a⟩
  by_cases hle : st.nextChunkId + Spec.chunkCount size stream.schedule stream.rest.length ≤ 2 ^ 24
  · exact hle
  · obtain ⟨ps, st'', e, _⟩ := b (by omega)
    have := h.symm.trans e
    cases this

/-- C122 (b): otherwise it raises ValueError, after it has written a data object for every number that was left. -/
theorem C122_too_many (sha : Bytes → Bytes) {i : SchemaImpl} {o : ChunkOptions} {size : Nat} (hs : i.payloadSize o = .ok size)
    (hmax : o.maxPacketSize ≤ 0xFFFF) (stream : Stream) {st : ChunkState} (hst : st.nextChunkId ≤ 2 ^ 24)
    (h : 2 ^ 24 < st.nextChunkId + Spec.chunkCount size stream.schedule stream.rest.length) :
    ∃ ps st', i.chunkData sha o stream st = (.error .valueError, st') ∧ st'.output = st.output ++ ps ∧
      st.nextChunkId + ps.length = 2 ^ 24 := by
  obtain ⟨_, _, _, hpos, _⟩ := payloadSize_ok hs
  have hr := congrArg List.length (Stream.read_append stream size)
  rw [List.length_append] at hr
  unfold SchemaImpl.chunkData
  rw [PyS.liftBind_run hs]
  obtain ⟨_, b⟩ := chunkLoop_counts (sha := sha) hs hpos hmax (fuel := stream.rest.length) (payload := (stream.read size).1)
    (stream := (stream.read size).2) (acc := []) (total := 0) hst (Stream.read_le stream size) (by omega)
  rw [toMake_read hpos] at b
  exact b h

/-- C122 (c): with full reads this is a bound on the length of the file: `size` times 2^24 bytes. -/
theorem C122_full_reads {size : Nat} (hs : 0 < size) (len : Nat) : Spec.chunkCount size [] len ≤ 2 ^ 24 ↔ len ≤ size * 2 ^ 24 := by
  unfold Spec.chunkCount
  rw [← Nat.lt_succ_iff, Nat.div_lt_iff_lt_mul hs, Nat.succ_mul, Nat.mul_comm (2 ^ 24) size]
  omega

/-- C122 (d): an input that returns one byte per read can be no longer than 2^24 bytes, whatever the packet size. -/
theorem C122_byte_reads {size : Nat} (hs : 0 < size) {n len : Nat} (hn : len ≤ n) : Spec.chunkCount size (List.replicate n 1) len = len := by
  induction n generalizing len with
  | zero =>
    have : len = 0 := by omega
    subst this
    exact chunkCount_zero hs _
  | succ n ih =>
    simp only [List.replicate_succ, Spec.chunkCount]
    split
    · omega
    · rw [ih (by omega)]
      omega

variable {E : Env} {L : FloatLog} {o : TreeOptions} {nc : Nat} {input : Stream}

/-- C122 (e): a file with more chunks is never published: ValueError, and 2^24 data objects without any manifest are left behind. -/
theorem C122_left_behind {ctx : NameCtx} {size : Nat}
    (hctx : NameCtx.create o.schemaType nc o.name o.manifestPrefix o.dataPrefix o.manifestLocators o.dataLocators = .ok ctx)
    (hsize : ctx.data.payloadSize o.chunk = .ok size) (hmax : o.maxPacketSize ≤ 0xFFFF)
    (h : 2 ^ 24 < Spec.chunkCount size input.schedule input.rest.length) :
    ∃ out, manifestTree E L o nc input = (.error .valueError, out) ∧ out.length = 2 ^ 24 ∧
      (out.map (fun p => p.body.payload.getD [])).flatten <+: input.rest := by
  obtain ⟨ps, st', h1, h2, h3⟩ := C122_too_many E.prims.sha256 hsize hmax input (st := {}) (by simp) (by simpa using h)
  refine ⟨st'.output, ?_, ?_, ?_⟩
  · unfold manifestTree
    simp only [hctx, h1]
  · rw [h2]
    simpa using h3
  · obtain ⟨qs, q1, q2⟩ := C38_written_is_a_prefix E.prims.sha256 ctx.data o.chunk input {}
    rw [h1] at q1
    simp only [List.nil_append] at q1
    rw [q1]
    exact q2

/-- C122 (f): exactly which files are published. -/
theorem C122_published (hP : Spec.LengthOnly E.prims) (hlow : L.NotLow) (hhigh : L.NotHigh)
    (henc : o.encryptor ≠ none → Spec.Encrypts E)
    (hann : (o.addGroupLeafSize = false ∧ o.addGroupSubtreeSize = false) ∨ input.rest.length < 2 ^ 32)
    {ctx : NameCtx} {size : Nat}
    (hctx : NameCtx.create o.schemaType nc o.name o.manifestPrefix o.dataPrefix o.manifestLocators o.dataLocators = .ok ctx)
    (hnames : Spec.NamesFit ctx.manifest o) (hsize : ctx.data.payloadSize o.chunk = .ok size) :
    (∃ root out, manifestTree E L o nc input = (.ok root, out)) ↔
      input.rest ≠ [] ∧ Spec.chunkCount size input.schedule input.rest.length ≤ 2 ^ 24 ∧
      (∀ k, o.maxTreeDegree = some k → 2 ≤ k) ∧
      (∃ l, Spec.SizingBytes E o ctx input.rest.length 2 l ∧ l ≤ o.maxPacketSize) ∧
      ∃ b sample s s', b.length = 32 ∧ rootPacket E o ctx input.rest.length (.sha256 b) s = (.ok sample, s') := by
  have hmax : o.maxPacketSize + 33 ≤ 0xFFFF := by
    obtain ⟨_, _, _, _, _, h⟩ := hnames
    omega
  have hcount : (∃ file st', ctx.data.chunkData E.prims.sha256 o.chunk input {} = (.ok file, st')) ↔
      Spec.chunkCount size input.schedule input.rest.length ≤ 2 ^ 24 := by
    have := C122_chunks E.prims.sha256 hsize (by show o.maxPacketSize ≤ _; omega) input (st := {}) (by simp)
    simpa using this
  constructor
  · rintro ⟨root, out, h⟩
    obtain ⟨F⟩ := manifestTree_ok h
    have hc := F.ctx_ok
    rw [hctx] at hc
    have hc : ctx = F.ctx := Except.ok.inj hc
    obtain ⟨st, hrun⟩ := F.run
    obtain ⟨_, htree⟩ := F.tree
    have hcnt := F.count
    rw [← hc] at hrun htree
    obtain ⟨_, hdeg, l, hl, hle⟩ := (C121_optimized (L := L) henc hlow hmax hctx (file := F.file)
      (Nat.lt_of_le_of_lt hcnt (by decide)) { output := F.ps }).mp ⟨_, _, htree⟩
    refine ⟨?_, hcount.mp ⟨_, _, hrun⟩, hdeg, ⟨l, by rw [← F.total]; exact hl, hle⟩, ?_⟩
    · intro h0
      have h1 := F.nonempty
      have hb := F.bytes
      rw [h0] at hb
      have hp := F.chunked.pos
      have e := congrArg List.length F.chunked.sum.2.1
      simp only [List.length_map, List.length_range'] at e
      cases hbs : F.bs with
      | nil => rw [hbs] at e; simp only [List.length_nil] at e; omega
      | cons c cs =>
        have := hp c (by rw [hbs]; simp)
        rw [hbs] at hb
        have := congrArg List.length hb
        simp only [List.flatten_cons, List.length_append, List.length_nil] at this
        omega
    · have hr := F.root_ok
      rw [← hc, F.total] at hr
      have hh := Packet.hash_sha F.hash
      have hlen := packetHash_len hP.rel.sha F.hash
      have he : F.topHash = .sha256 F.topHash.value := by
        generalize F.topHash = v at hh
        cases v
        cases hh
        rfl
      rw [he] at hr
      exact ⟨_, _, _, _, hlen, hr⟩
  · rintro ⟨hne, hcnt, hdeg, ⟨l, hl, hle⟩, b, sample, s, s', hb, hroot⟩
    obtain ⟨file, st, hch⟩ := hcount.mpr hcnt
    exact C121_published hP hlow hhigh henc hann hctx hnames hne hch hdeg hl hle hb hroot

/-! ## Instances -/

/-- The number of bytes in a full chunk. -/
def Toy.chunkSize (o : TreeOptions) : Option Nat :=
  match NameCtx.create o.schemaType 1 o.name o.manifestPrefix o.dataPrefix o.manifestLocators o.dataLocators with
  | .error _ => none
  | .ok ctx => (ctx.data.payloadSize o.chunk).toOption

theorem Toy.chunkSize_ok {o : TreeOptions} {n : Nat} (h : Toy.chunkSize o = some n) : ∃ ctx,
    NameCtx.create o.schemaType 1 o.name o.manifestPrefix o.dataPrefix o.manifestLocators o.dataLocators = .ok ctx ∧
    ctx.data.payloadSize o.chunk = .ok n := by
  unfold Toy.chunkSize at h
  split at h
  · cases h
  · rename_i ctx hctx
    refine ⟨ctx, hctx, ?_⟩
    cases hp : ctx.data.payloadSize o.chunk with
    | error e => rw [hp] at h; cases h
    | ok k => rw [hp] at h; cases h; rfl

set_option maxRecDepth 100000 in
/-- C122 (c), (e): with packets of 250 bytes and segmented names a chunk has 206 bytes; a file one byte longer than 206 times 2^24 leaves
2^24 data objects behind. -/
example : ∃ out, manifestTree Toy.env Spec.exactLog (Toy.options .segmented false) 1 ⟨List.replicate (206 * 2 ^ 24 + 1) 0, []⟩ =
    (.error .valueError, out) ∧ out.length = 2 ^ 24 := by
  obtain ⟨ctx, h1, h2⟩ := Toy.chunkSize_ok (o := Toy.options .segmented false) (n := 206) (by decide +kernel)
  obtain ⟨out, h3, h4, _⟩ := C122_left_behind (E := Toy.env) (L := Spec.exactLog) (input := ⟨List.replicate (206 * 2 ^ 24 + 1) 0, []⟩) h1 h2
    (by decide) (by
      have := (C122_full_reads (size := 206) (by decide) (206 * 2 ^ 24 + 1)).not
      rw [List.length_replicate]
      show 2 ^ 24 < Spec.chunkCount 206 [] (206 * 2 ^ 24 + 1)
      omega)
  exact ⟨out, h3, h4⟩

set_option maxRecDepth 100000 in
/-- C122 (d), (e): the same for a file of 2^24 + 1 bytes that comes byte by byte. -/
example : ∃ out, manifestTree Toy.env Spec.exactLog (Toy.options .segmented false) 1
    ⟨List.replicate (2 ^ 24 + 1) 0, List.replicate (2 ^ 24 + 1) 1⟩ = (.error .valueError, out) ∧ out.length = 2 ^ 24 := by
  obtain ⟨ctx, h1, h2⟩ := Toy.chunkSize_ok (o := Toy.options .segmented false) (n := 206) (by decide +kernel)
  obtain ⟨out, h3, h4, _⟩ := C122_left_behind (E := Toy.env) (L := Spec.exactLog)
    (input := ⟨List.replicate (2 ^ 24 + 1) 0, List.replicate (2 ^ 24 + 1) 1⟩) h1 h2 (by decide)
    (by
      rw [List.length_replicate, C122_byte_reads (by decide) (Nat.le_refl _)]
      omega)
  exact ⟨out, h3, h4⟩

set_option maxRecDepth 100000 in
/-- C122 (f): with these options a file of 300 bytes with short reads is published, and an empty file is not. -/
example : (∃ root out, manifestTree Toy.env Spec.exactLog (Toy.options .prefixed true) 1 (Toy.shortReads 300) = (.ok root, out)) ∧
    ¬ ∃ root out, manifestTree Toy.env Spec.exactLog (Toy.options .prefixed true) 1 ⟨[], []⟩ = (.ok root, out) := by
  obtain ⟨ctx, _, _, _, _, h1, h2, _, _, h5⟩ := Toy.stages_ok (n := 300) (b := true) (o := Toy.options .prefixed true) (by decide +kernel)
  obtain ⟨ctx', g1, g2⟩ := Toy.chunkSize_ok (o := Toy.options .prefixed true) (n := 220) (by decide +kernel)
  obtain ⟨ctx'', k1, _, k2⟩ := Toy.room_ok (o := Toy.options .prefixed true) (total := 300) (b := 89) (l := 215) (by decide +kernel)
  rw [h1] at g1 k1
  cases g1
  cases k1
  constructor
  · rcases hr : rootPacket Toy.env (Toy.options .prefixed true) ctx 300 (.sha256 (List.replicate 32 0)) {} with ⟨_ | sample, s'⟩
    · rw [hr] at h5
      cases h5
    · exact (C122_published (L := Spec.exactLog) Toy.lengthOnly exactLog_notLow exactLog_notHigh (fun _ => Toy.encrypts)
        (.inr (by decide +kernel)) h1 h2 g2).mpr
        ⟨by decide, by decide +kernel, fun k hk => (by cases hk), ⟨215, k2, by decide⟩, _, _, _, _, rfl, hr⟩
  · intro h
    exact ((C122_published (L := Spec.exactLog) Toy.lengthOnly exactLog_notLow exactLog_notHigh (fun _ => Toy.encrypts)
      (.inr (by decide)) h1 h2 g2).mp h).1 rfl

end Ccnpy
