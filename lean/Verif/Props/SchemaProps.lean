import Verif.Lemmas.Schema
import Verif.Lemmas.Toy
import Verif.Lemmas.Fold

/-!
# C38, C39: chunking; C55: names
-/

namespace Ccnpy

/-! ## C38 -/

/-- Specification: the schemas whose data names end in a chunk-id segment. -/
def Spec.chunkIdSchema : NcSchema → Bool
  | .segmented _ (some t) _ _ => t == T_CHUNKID
  | _ => false

/-- Specification: a list of payloads `bs` is cut into packets `ps` with metadata `ms`, numbered from `k`.  Each packet is an
unsigned data object with the schema's name for its number; only the last one carries a final chunk id, its own number, and
only if the schema is segmented with chunk ids. -/
def Spec.Chunked (sha : Bytes → Bytes) (i : SchemaImpl) (expiry : Option F64) :
    Nat → List Bytes → List Packet → List ChunkMetadata → Prop
  | _, [], [], [] => True
  | k, b :: bs, p :: ps, m :: ms =>
    0 < b.length ∧ m.chunkNumber = k ∧ m.payloadBytes = b.length ∧ p.hash sha = .ok m.hash ∧
    p.body.payload = some b ∧ p.body.payloadType = some PT_DATA ∧ p.body.expiryTime = expiry ∧
    p.alg = none ∧ (p.payload = none ∧ Packet.createContentObject p.body = .ok p) ∧
    i.getName (some (k : Int)) = .ok p.body.name ∧
    p.body.finalChunkId = (if bs = [] ∧ Spec.chunkIdSchema i.schema = true then some k else none) ∧
    Spec.Chunked sha i expiry (k + 1) bs ps ms
  | _, _, _, _ => False

theorem usesFinalChunkId_eq (i : SchemaImpl) : i.usesFinalChunkId = Spec.chunkIdSchema i.schema := by
  unfold SchemaImpl.usesFinalChunkId Spec.chunkIdSchema
  cases hs : i.schema with
  | hash l f => rfl
  | prefixed n l f => rfl
  | segmented n st l f => cases st <;> rfl

theorem Stream.read_append (s : Stream) (n : Nat) : (s.read n).1 ++ (s.read n).2.rest = s.rest := by
  simp [Stream.read]

theorem Stream.read_le (s : Stream) (n : Nat) : (s.read n).1.length ≤ n := by
  simp only [Stream.read, List.length_take]
  split <;> omega

theorem Stream.read_nil (s : Stream) (n : Nat) (hn : 0 < n) (h : (s.read n).1.length = 0) : (s.read n).2.rest = [] := by
  simp only [Stream.read, List.length_take] at *
  apply List.drop_eq_nil_of_le
  cases hs : s.schedule <;> simp only [hs] at h ⊢ <;> omega

/-- One round of the loop. -/
theorem chunkLoop_step {sha : Bytes → Bytes} {i : SchemaImpl} {o : ChunkOptions} {size fuel : Nat} {payload : Bytes}
    {stream : Stream} {acc : List ChunkMetadata} {total : Nat} {st : ChunkState} (hp : payload.length ≠ 0) :
    i.chunkLoop sha o size (fuel + 1) payload stream acc total st =
      if st.nextChunkId > MAX_CHUNK_ID then (.error .valueError, { st with nextChunkId := st.nextChunkId + 1 })
      else match (do
          let name ← i.getName (some (st.nextChunkId : Int))
          let p ← SchemaImpl.dataPacket o name payload (i.finalId st.nextChunkId (stream.read size).1)
          let h ← p.hash sha
          return (p, h) : Py (Packet × HashValue)) with
        | .error e => (.error e, { st with nextChunkId := st.nextChunkId + 1 })
        | .ok (p, h) => i.chunkLoop sha o size fuel (stream.read size).1 (stream.read size).2
            (acc ++ [⟨st.nextChunkId, payload.length, h⟩]) (total + payload.length)
            ⟨st.output ++ [p], st.nextChunkId + 1⟩ := by
  rw [SchemaImpl.chunkLoop]
  simp only [hp, if_false]
  rw [PyS.bind_of_ok (PyS.get_run st), PyS.bind_of_ok (PyS.modify_run _ _)]
  by_cases hc : st.nextChunkId > MAX_CHUNK_ID
  · rw [if_pos hc, if_pos hc]; rfl
  · rw [if_neg hc, if_neg hc]
    cases hn : i.getName (some (st.nextChunkId : Int)) with
    | error e => rfl
    | ok nm =>
      rw [PyS.liftBind_run rfl]
      cases hd : SchemaImpl.dataPacket o nm payload (i.finalId st.nextChunkId (stream.read size).1) with
      | error e => simp only [ok_bind, hd, error_bind]; rfl
      | ok p =>
        rw [PyS.liftBind_run rfl]
        cases hh : p.hash sha with
        | error e => simp only [ok_bind, hd, hh, error_bind]; rfl
        | ok h =>
          rw [PyS.liftBind_run rfl, PyS.bind_of_ok (PyS.modify_run _ _)]
          simp only [ok_bind, hd, hh, pure_eq_ok]

theorem chunkLoop_done {sha : Bytes → Bytes} {i : SchemaImpl} {o : ChunkOptions} {size fuel : Nat} {payload : Bytes}
    {stream : Stream} {acc : List ChunkMetadata} {total : Nat} {st : ChunkState} (hp : payload.length = 0) :
    i.chunkLoop sha o size fuel payload stream acc total st = (.ok ⟨acc, total⟩, st) := by
  rw [SchemaImpl.chunkLoop.eq_def]
  simp only [hp, if_true]
  rfl

theorem Spec.Chunked.pos {sha : Bytes → Bytes} {i : SchemaImpl} {x : Option F64} {k : Nat} {bs : List Bytes} {ps : List Packet}
    {ms : List ChunkMetadata} (h : Spec.Chunked sha i x k bs ps ms) : ∀ b ∈ bs, 0 < b.length := by
  induction bs generalizing k ps ms with
  | nil => simp
  | cons c bs ih =>
    cases ps <;> cases ms <;> simp only [Spec.Chunked] at h
    intro b hb
    rcases List.mem_cons.mp hb with rfl | hb
    · exact h.1
    · exact ih h.2.2.2.2.2.2.2.2.2.2.2 b hb

/-- A full read: fewer bytes than asked for only at the end. -/
theorem Stream.read_full (s : Stream) (n : Nat) (hs : s.schedule = []) :
    (s.read n).2.schedule = [] ∧ ((s.read n).1.length < n → (s.read n).2.rest = []) := by
  simp only [Stream.read, hs, List.length_take, List.tail_nil, true_and]
  intro h
  apply List.drop_eq_nil_of_le
  omega

theorem chunkLoop_ok {sha : Bytes → Bytes} {i : SchemaImpl} {o : ChunkOptions} {size : Nat} (hsize : 0 < size) {fuel : Nat}
    {payload : Bytes} {stream : Stream} {acc : List ChunkMetadata} {total : Nat} {st st' : ChunkState} {file : FileMetadata}
    (hnil : payload.length = 0 → stream.rest = []) (hlen : payload.length ≤ size)
    (h : i.chunkLoop sha o size fuel payload stream acc total st = (.ok file, st')) :
    ∃ bs ps ms, bs.flatten = payload ++ stream.rest ∧ (∀ b ∈ bs, b.length ≤ size) ∧
      (stream.schedule = [] → (payload.length < size → stream.rest = []) → ∀ b ∈ bs.dropLast, b.length = size) ∧
      Spec.Chunked sha i o.dataExpiry st.nextChunkId bs ps ms ∧
      file = ⟨acc ++ ms, total + (payload ++ stream.rest).length⟩ ∧
      st' = ⟨st.output ++ ps, st.nextChunkId + bs.length⟩ ∧ (bs ≠ [] → st.nextChunkId + bs.length ≤ MAX_CHUNK_ID + 1) := by
  induction fuel generalizing payload stream acc total st with
  | zero =>
    by_cases hp : payload.length = 0
    · rw [chunkLoop_done hp] at h
      cases h
      have : payload = [] := List.length_eq_zero_iff.mp hp
      exact ⟨[], [], [], by simp [hnil hp, this], by simp, by simp, trivial, by simp [hnil hp, this], by simp, by simp⟩
    · rw [SchemaImpl.chunkLoop.eq_def] at h
      simp only [hp, if_false] at h
      cases h
  | succ fuel ih =>
    by_cases hp : payload.length = 0
    · rw [chunkLoop_done hp] at h
      cases h
      have : payload = [] := List.length_eq_zero_iff.mp hp
      exact ⟨[], [], [], by simp [hnil hp, this], by simp, by simp, trivial, by simp [hnil hp, this], by simp, by simp⟩
    · rw [chunkLoop_step hp] at h
      split at h
      · cases h
      · rename_i hid
        split at h
        · cases h
        · rename_i p hv hpk
          obtain ⟨nm, hnm, hpk⟩ := bind_eq_ok.mp hpk
          obtain ⟨q, hq, hpk⟩ := bind_eq_ok.mp hpk
          obtain ⟨hq', hhq, hpk⟩ := bind_eq_ok.mp hpk
          cases hpk
          obtain ⟨hbody, halg, hpay, _⟩ := dataPacket_ok hq
          obtain ⟨bs, ps, ms, h1, h2, h2a, h3, h4, h5, h6⟩ := ih (Stream.read_nil stream size hsize)
            (Stream.read_le stream size) h
          rw [Stream.read_append] at h1 h4
          have hlast : (stream.read size).1.length = 0 ↔ bs = [] := by
            have hr := Stream.read_append stream size
            constructor
            · intro hz
              have h0 := Stream.read_nil stream size hsize hz
              rw [← hr, h0, List.length_eq_zero_iff.mp hz] at h1
              cases bs with
              | nil => rfl
              | cons x xs =>
                have hx := (List.flatten_eq_nil_iff.mp h1) x (by simp)
                exact absurd (h3.pos x (by simp)) (by simp [hx])
            · rintro rfl
              rw [List.flatten_nil] at h1
              rw [← h1] at hr
              simp [List.append_eq_nil_iff.mp hr]
          refine ⟨payload :: bs, p :: ps, ⟨st.nextChunkId, payload.length, hv⟩ :: ms, ?_, ?_, ?_, ?_, ?_, ?_, ?_⟩
          · rw [List.flatten_cons, h1]
          · intro b hb
            rcases List.mem_cons.mp hb with rfl | hb
            · exact hlen
            · exact h2 b hb
          · intro hs hfull b hb
            cases bs with
            | nil => simp at hb
            | cons x xs =>
              rw [List.dropLast_cons_cons] at hb
              rcases List.mem_cons.mp hb with rfl | hb
              · apply Classical.byContradiction
                intro hne
                rw [hfull (by omega)] at h1
                have hx := (List.flatten_eq_nil_iff.mp h1) x (by simp)
                exact absurd (h3.pos x (by simp)) (by simp [hx])
              · exact h2a (Stream.read_full stream size hs).1 (Stream.read_full stream size hs).2 b hb
          · refine ⟨by omega, rfl, rfl, hhq, by rw [hbody]; rfl, by rw [hbody]; rfl, by rw [hbody]; rfl, halg,
              ⟨hpay, dataPacket_created hq⟩,
              by rw [hbody]; exact hnm, ?_, h3⟩
            rw [hbody]
            simp only [dataBody, SchemaImpl.finalId, usesFinalChunkId_eq, Bool.and_eq_true, beq_iff_eq, hlast]
            simp only [and_comm]
          · rw [h4]
            simp [Nat.add_assoc]
          · rw [h5]
            simp only [List.append_assoc, List.cons_append, List.nil_append, List.length_cons, ChunkState.mk.injEq, true_and]
            omega
          · intro _
            by_cases hb : bs = []
            · subst hb; simp; omega
            · have := h6 hb
              simp only [List.length_cons] at this ⊢
              omega

/-- **C38.**  For every file and every schedule of short reads: when `chunk_data` returns, the payloads of the packets it wrote
concatenate to the file, chunk numbers are consecutive from the schema's counter, the recorded sizes and hashes are those of
the packets, `total_bytes` is the file's length, the counter has advanced by the number of packets, and only the last packet
has a final chunk id (`Spec.Chunked`). -/
theorem C38_chunks {sha : Bytes → Bytes} {i : SchemaImpl} {o : ChunkOptions} {stream : Stream} {st st' : ChunkState}
    {file : FileMetadata} (h : i.chunkData sha o stream st = (.ok file, st')) :
    ∃ bs ps, bs.flatten = stream.rest ∧ Spec.Chunked sha i o.dataExpiry st.nextChunkId bs ps file.chunks ∧
      file.totalBytes = stream.rest.length ∧ st' = ⟨st.output ++ ps, st.nextChunkId + bs.length⟩ := by
  unfold SchemaImpl.chunkData at h
  obtain ⟨size, hsize, h⟩ := PyS.liftBind_ok h
  obtain ⟨_, _, _, hpos, _⟩ := payloadSize_ok hsize
  obtain ⟨bs, ps, ms, h1, _, _, h3, h4, h5, _⟩ := chunkLoop_ok hpos (Stream.read_nil stream size hpos)
    (Stream.read_le stream size) h
  rw [Stream.read_append] at h1 h4
  refine ⟨bs, ps, h1, ?_, ?_, h5⟩
  · rw [h4]; simpa using h3
  · rw [h4]; simp

theorem Spec.Chunked.sum {sha : Bytes → Bytes} {i : SchemaImpl} {x : Option F64} {k : Nat} {bs : List Bytes} {ps : List Packet}
    {ms : List ChunkMetadata} (h : Spec.Chunked sha i x k bs ps ms) :
    (ms.map (·.payloadBytes)).sum = bs.flatten.length ∧ ms.map (·.chunkNumber) = List.range' k bs.length ∧
    ps.map (fun p => p.body.payload) = bs.map some ∧
    ms.map (fun m => Except.ok m.hash) = ps.map (fun p => p.hash sha) := by
  induction bs generalizing k ps ms with
  | nil => cases ps <;> cases ms <;> simp_all [Spec.Chunked]
  | cons b bs ih =>
    cases ps <;> cases ms <;> simp only [Spec.Chunked] at h
    obtain ⟨_, h2, h3, h4, h5, _, _, _, _, _, _, h6⟩ := h
    obtain ⟨i1, i2, i3, i4⟩ := ih h6
    refine ⟨?_, ?_, ?_, ?_⟩
    · simp [i1, h3]
    · simp [i2, h2, List.range'_succ]
    · simp [i3, h5]
    · simp [i4, h4]

theorem flatten_length_const {n : Nat} {l : List Bytes} (h : ∀ x ∈ l, x.length = n) : l.flatten.length = l.length * n := by
  induction l with
  | nil => simp
  | cons y ys ih =>
    rw [List.flatten_cons, List.length_append, h y (by simp), ih (fun x hx => h x (by simp [hx])), List.length_cons, Nat.add_mul]
    omega

theorem Spec.Chunked.sizes {sha : Bytes → Bytes} {i : SchemaImpl} {x : Option F64} {k : Nat} {bs : List Bytes}
    {ps : List Packet} {ms : List ChunkMetadata} (h : Spec.Chunked sha i x k bs ps ms) :
    ms.map (·.payloadBytes) = bs.map List.length := by
  induction bs generalizing k ps ms with
  | nil => cases ps <;> cases ms <;> simp_all [Spec.Chunked]
  | cons b bs ih =>
    cases ps <;> cases ms <;> simp only [Spec.Chunked] at h
    obtain ⟨_, _, h3, _, _, _, _, _, _, _, _, h6⟩ := h
    simp [h3, ih h6]

/-- **C38**, in terms of lists: payloads, sizes, numbers and hashes. -/
theorem C38_summary {sha : Bytes → Bytes} {i : SchemaImpl} {o : ChunkOptions} {stream : Stream} {st st' : ChunkState}
    {file : FileMetadata} (h : i.chunkData sha o stream st = (.ok file, st')) :
    ∃ ps, st'.output = st.output ++ ps ∧
      (ps.map (fun p => p.body.payload.getD [])).flatten = stream.rest ∧
      (file.chunks.map (·.payloadBytes)).sum = file.totalBytes ∧ file.totalBytes = stream.rest.length ∧
      file.chunks.map (·.payloadBytes) = ps.map (fun p => (p.body.payload.getD []).length) ∧
      file.chunks.map (·.chunkNumber) = List.range' st.nextChunkId ps.length ∧
      file.chunks.map (fun m => Except.ok m.hash) = ps.map (fun p => p.hash sha) ∧
      st'.nextChunkId = st.nextChunkId + ps.length := by
  obtain ⟨bs, ps, h1, h2, h3, h4⟩ := C38_chunks h
  obtain ⟨s1, s2, s3, s4⟩ := h2.sum
  have hl : ps.length = bs.length := by simpa using congrArg List.length s3
  have hpay : ps.map (fun p => p.body.payload.getD []) = bs := by
    have := congrArg (List.map (fun o : Option Bytes => o.getD [])) s3
    simpa [List.map_map, Function.comp_def] using this
  have hsz := h2.sizes
  refine ⟨ps, by rw [h4], by rw [hpay, h1], by rw [s1, h1, h3], h3, ?_, by rw [s2, hl], s4, by rw [h4, hl]⟩
  rw [hsz, ← hpay, List.map_map]
  rfl

/-- What the loop leaves in the output, whether it returns or raises. -/
theorem chunkLoop_output {sha : Bytes → Bytes} {i : SchemaImpl} {o : ChunkOptions} {size : Nat} {fuel : Nat}
    {payload : Bytes} {stream : Stream} {acc : List ChunkMetadata} {total : Nat} {st : ChunkState} :
    ∃ ps, (i.chunkLoop sha o size fuel payload stream acc total st).2.output = st.output ++ ps ∧
      (∀ p ∈ ps, ∃ n, p.len = .ok n ∧ n ≤ o.maxPacketSize) ∧
      (ps.map (fun p => p.body.payload.getD [])).flatten <+: payload ++ stream.rest := by
  induction fuel generalizing payload stream acc total st with
  | zero =>
    refine ⟨[], ?_, by simp, by simp⟩
    rw [SchemaImpl.chunkLoop.eq_def]
    by_cases hp : payload.length = 0
    · simp only [hp, if_true]; simp
    · simp only [hp, if_false]; simp
  | succ fuel ih =>
    by_cases hp : payload.length = 0
    · rw [chunkLoop_done hp]
      exact ⟨[], by simp, by simp, by simp⟩
    · rw [chunkLoop_step hp]
      split
      · exact ⟨[], by simp, by simp, by simp⟩
      · split
        · exact ⟨[], by simp, by simp, by simp⟩
        · rename_i p hv hpk
          obtain ⟨nm, hnm, hpk⟩ := bind_eq_ok.mp hpk
          obtain ⟨q, hq, hpk⟩ := bind_eq_ok.mp hpk
          obtain ⟨hq', hhq, hpk⟩ := bind_eq_ok.mp hpk
          cases hpk
          obtain ⟨hbody, _, _, hlen, hle⟩ := dataPacket_ok hq
          obtain ⟨ps, h1, h2, h3⟩ := ih (payload := (stream.read size).1) (stream := (stream.read size).2)
            (acc := acc ++ [⟨st.nextChunkId, payload.length, hv⟩]) (total := total + payload.length)
            (st := ⟨st.output ++ [p], st.nextChunkId + 1⟩)
          rw [Stream.read_append] at h3
          refine ⟨p :: ps, by rw [h1]; simp, ?_, ?_⟩
          · intro q hq
            rcases List.mem_cons.mp hq with rfl | hq
            · exact ⟨_, hlen, hle⟩
            · exact h2 q hq
          · rw [List.map_cons, List.flatten_cons, hbody]
            exact (List.prefix_append_right_inj _).mpr h3

/-- **C38**, also when it fails: whatever the outcome of `chunk_data`, the payloads of the packets written so far, in order,
are an initial part of the file, and packets written earlier are untouched. -/
theorem C38_written_is_a_prefix (sha : Bytes → Bytes) (i : SchemaImpl) (o : ChunkOptions) (stream : Stream) (st : ChunkState) :
    ∃ ps, (i.chunkData sha o stream st).2.output = st.output ++ ps ∧
      (ps.map (fun p => p.body.payload.getD [])).flatten <+: stream.rest := by
  unfold SchemaImpl.chunkData
  cases hs : i.payloadSize o with
  | error e => exact ⟨[], by simp [PyS.bind_run], by simp⟩
  | ok size =>
    rw [PyS.liftBind_run rfl]
    obtain ⟨ps, h1, _, h3⟩ := chunkLoop_output (sha := sha) (i := i) (o := o) (size := size) (fuel := stream.rest.length)
      (payload := (stream.read size).1) (stream := (stream.read size).2) (acc := []) (total := 0) (st := st)
    rw [Stream.read_append] at h3
    exact ⟨ps, h1, h3⟩

/-- **C38**: when reads are never short (a regular file), every chunk but the last has exactly the computed payload size. -/
theorem C38_full_reads {sha : Bytes → Bytes} {i : SchemaImpl} {o : ChunkOptions} {b : Bytes} {st st' : ChunkState}
    {file : FileMetadata} {size : Nat} (hs : i.payloadSize o = .ok size)
    (h : i.chunkData sha o { rest := b } st = (.ok file, st')) :
    (∀ m ∈ file.chunks.dropLast, m.payloadBytes = size) ∧ (∀ m ∈ file.chunks, 0 < m.payloadBytes ∧ m.payloadBytes ≤ size) ∧
    file.chunks.length = (b.length + size - 1) / size := by
  unfold SchemaImpl.chunkData at h
  rw [PyS.liftBind_run hs] at h
  obtain ⟨_, _, _, hpos, _⟩ := payloadSize_ok hs
  obtain ⟨bs, ps, ms, h1, h2, h2a, h3, h4, h5, _⟩ := chunkLoop_ok hpos (Stream.read_nil _ size hpos)
    (Stream.read_le _ size) h
  have hfull := Stream.read_full { rest := b } size rfl
  have h2a := h2a hfull.1 hfull.2
  rw [Stream.read_append] at h1
  have hp := h3.pos
  have hsz := h3.sizes
  have hc : file.chunks = ms := by rw [h4]; simp
  have hlen : ms.length = bs.length := by simpa using congrArg List.length hsz
  rw [hc]
  refine ⟨?_, ?_, ?_⟩
  · intro m hm
    have : m.payloadBytes ∈ (ms.dropLast).map (·.payloadBytes) := List.mem_map_of_mem hm
    rw [List.map_dropLast, hsz, ← List.map_dropLast] at this
    obtain ⟨x, hx, hxe⟩ := List.mem_map.mp this
    rw [← hxe]; exact h2a x hx
  · intro m hm
    have : m.payloadBytes ∈ ms.map (·.payloadBytes) := List.mem_map_of_mem hm
    rw [hsz] at this
    obtain ⟨x, hx, hxe⟩ := List.mem_map.mp this
    rw [← hxe]; exact ⟨hp x hx, h2 x hx⟩
  · rw [hlen]
    have hb : b.length = bs.flatten.length := by rw [h1]
    rw [hb]
    clear h h1 h3 h4 h5 hb hfull hsz hlen hc
    rcases List.eq_nil_or_concat bs with rfl | ⟨init, lst, rfl⟩
    · simp only [List.flatten_nil, List.length_nil, Nat.zero_add]
      rw [Nat.div_eq_of_lt (by omega)]
    · have hl := flatten_length_const (l := init) (n := size) (fun x hx => h2a x (by simpa using hx))
      have h1 := hp lst (by simp)
      have h2 := h2 lst (by simp)
      simp only [List.concat_eq_append, List.flatten_append, List.flatten_cons, List.flatten_nil, List.append_nil,
        List.length_append, List.length_cons, List.length_nil, hl]
      have e : init.length * size + lst.length + size - 1 = (lst.length - 1) + (init.length + 1) * size := by
        rw [Nat.add_mul]; omega
      rw [e, Nat.add_mul_div_right _ _ hpos, Nat.div_eq_of_lt (by omega)]
      omega

theorem chunkLoop_succeeds {sha : Bytes → Bytes} {i : SchemaImpl} {o : ChunkOptions} {size : Nat}
    (hs : i.payloadSize o = .ok size) (hmax : o.maxPacketSize ≤ 0xFFFF) {fuel : Nat}
    {payload : Bytes} {stream : Stream} {acc : List ChunkMetadata} {total : Nat} {st : ChunkState}
    (hlen : payload.length ≤ size) (hfuel : payload.length + stream.rest.length ≤ fuel) :
    (∃ file, (i.chunkLoop sha o size fuel payload stream acc total st).1 = .ok file) ∨
    ((i.chunkLoop sha o size fuel payload stream acc total st).1 = .error .valueError ∧
      st.nextChunkId + payload.length + stream.rest.length > MAX_CHUNK_ID + 1) := by
  induction fuel generalizing payload stream acc total st with
  | zero =>
    have hp : payload.length = 0 := by omega
    rw [chunkLoop_done hp]
    exact .inl ⟨_, rfl⟩
  | succ fuel ih =>
    by_cases hp : payload.length = 0
    · rw [chunkLoop_done hp]
      exact .inl ⟨_, rfl⟩
    · rw [chunkLoop_step hp]
      split
      · exact .inr ⟨rfl, by omega⟩
      · rename_i hid
        obtain ⟨nm, p, hv, h1, h2, h3⟩ := dataPacket_succeeds hs hmax (id := st.nextChunkId) (by omega)
          (stream.read size).1 payload hlen
        simp only [h1, ok_bind, h2, h3 sha, pure_eq_ok]
        have hr := congrArg List.length (Stream.read_append stream size)
        rw [List.length_append] at hr
        rcases ih (acc := acc ++ [⟨st.nextChunkId, payload.length, .sha256 (sha hv)⟩]) (total := total + payload.length)
          (st := ⟨st.output ++ [p], st.nextChunkId + 1⟩) (payload := (stream.read size).1) (stream := (stream.read size).2)
          (Stream.read_le stream size) (by omega) with h | ⟨e1, e4⟩
        · exact .inl h
        · refine .inr ⟨e1, ?_⟩
          simp only at e4
          omega

/-- **C38**: `chunk_data` always returns if one byte fits (`_calculate_data_payload_size` succeeds), packets can be at most 65535
bytes long and the chunk numbers do not run out; the only other outcome is the `ValueError` for too many chunks. -/
theorem C38_succeeds (sha : Bytes → Bytes) {i : SchemaImpl} {o : ChunkOptions} {size : Nat} (hs : i.payloadSize o = .ok size)
    (hmax : o.maxPacketSize ≤ 0xFFFF) (stream : Stream) (st : ChunkState) :
    (∃ file st', i.chunkData sha o stream st = (.ok file, st')) ∨
    ((i.chunkData sha o stream st).1 = .error .valueError ∧ st.nextChunkId + stream.rest.length > MAX_CHUNK_ID + 1) := by
  unfold SchemaImpl.chunkData
  rw [PyS.liftBind_run hs]
  have hr := congrArg List.length (Stream.read_append stream size)
  rw [List.length_append] at hr
  rcases chunkLoop_succeeds (sha := sha) hs hmax (fuel := stream.rest.length) (payload := (stream.read size).1)
    (stream := (stream.read size).2) (acc := []) (total := 0) (st := st) (Stream.read_le stream size) (by omega)
    with ⟨f, hf⟩ | ⟨h1, h4⟩
  · exact .inl ⟨f, _, Prod.ext hf rfl⟩
  · exact .inr ⟨h1, by omega⟩

/-! ## C39 -/

/-- **C39.**  Every packet that `chunk_data` writes, also when it raises later, is at most `max_packet_size` long. -/
theorem C39_packets_fit (sha : Bytes → Bytes) (i : SchemaImpl) (o : ChunkOptions) (stream : Stream) (st : ChunkState) :
    ∃ ps, (i.chunkData sha o stream st).2.output = st.output ++ ps ∧
      ∀ p ∈ ps, ∃ w, p.serialize = .ok w ∧ w.length ≤ o.maxPacketSize := by
  unfold SchemaImpl.chunkData
  cases hs : i.payloadSize o with
  | error e => exact ⟨[], by simp [PyS.bind_run], by simp⟩
  | ok size =>
    rw [PyS.liftBind_run rfl]
    obtain ⟨ps, h1, h2, _⟩ := chunkLoop_output (sha := sha) (i := i) (o := o) (size := size) (fuel := stream.rest.length)
      (payload := (stream.read size).1) (stream := (stream.read size).2) (acc := []) (total := 0) (st := st)
    refine ⟨ps, h1, fun p hp => ?_⟩
    obtain ⟨n, hn, hle⟩ := h2 p hp
    unfold Packet.len at hn
    obtain ⟨w, hw, hn⟩ := bind_eq_ok.mp hn
    cases hn
    exact ⟨w, hw, hle⟩

/-- `_create_data_packet` without its size check. -/
def Spec.uncheckedPacket (o : ChunkOptions) (name : Option Name) (payload : Bytes) (fcid : Option Nat) : Py Packet := do
  let body ← ContentObject.createData name (some payload) o.dataExpiry fcid
  Packet.createContentObject body

/-- **C39**: the size check never fires: for every chunk number up to the maximum and every payload up to the computed size,
`_create_data_packet` does what it would do without the check. -/
theorem C39_check_never_fires {i : SchemaImpl} {o : ChunkOptions} {size : Nat} (hs : i.payloadSize o = .ok size)
    {id : Nat} (hid : id ≤ MAX_CHUNK_ID) (next payload : Bytes) (hp : payload.length ≤ size) :
    ∃ nm, i.getName (some (id : Int)) = .ok nm ∧
      SchemaImpl.dataPacket o nm payload (i.finalId id next) = Spec.uncheckedPacket o nm payload (i.finalId id next) := by
  obtain ⟨nm, l, le, h1, h2, h3, h4⟩ := dataLen_le hs hid next payload hp
  refine ⟨nm, h1, ?_⟩
  unfold SchemaImpl.dataPacket Spec.uncheckedPacket
  cases hb : ContentObject.createData nm (some payload) o.dataExpiry (i.finalId id next) with
  | error e => rfl
  | ok b =>
    simp only [ok_bind]
    cases hq : Packet.createContentObject b with
    | error e => rfl
    | ok q =>
      obtain ⟨_, _, _, _, h5, _⟩ := createDataPacket hb hq
      simp only [ok_bind, h5]
      rw [if_neg (by omega)]
      rfl

/-- **C39**: the computed payload size leaves room for exactly that many bytes in the largest numbered packet. -/
theorem C39_size_is_exact {i : SchemaImpl} {o : ChunkOptions} {size : Nat} (hs : i.payloadSize o = .ok size)
    (payload : Bytes) (hp : payload.length = size) (hmax : o.maxPacketSize ≤ 0xFFFF) :
    ∃ nm p, i.getName (some (MAX_CHUNK_ID : Int)) = .ok nm ∧
      SchemaImpl.dataPacket o nm payload (if i.usesNameId then some MAX_CHUNK_ID else none) = .ok p ∧
      p.len = .ok o.maxPacketSize := by
  obtain ⟨nm, h1, hsum, hpos, ⟨l, h2⟩, le, h3⟩ := payloadSize_ok hs
  generalize (if i.usesNameId = true then some MAX_CHUNK_ID else none) = fcid at hsum ⊢
  have h4 : dataLen nm payload o.dataExpiry fcid = o.maxPacketSize := by
    unfold dataLen at hsum ⊢
    simp only [List.length_nil] at hsum
    omega
  obtain ⟨t, ht⟩ := dataBody_tlv_of (payload := payload) (fcid := fcid) h2 h3 (by unfold dataLen at h4; omega)
  obtain ⟨_, _, ht3⟩ := dataBody_tlv ht
  have hfit : 8 + t.len = dataLen nm payload o.dataExpiry fcid := by unfold dataLen; omega
  have hl : 8 + t.len ≤ 0xFFFF := by omega
  refine ⟨nm, ⟨.contentObject (8 + t.len), dataBody nm payload o.dataExpiry fcid, none, none⟩, h1, ?_, ?_⟩
  · unfold SchemaImpl.dataPacket
    rw [createData_eq, construct_ok ht, ok_bind, createContentObject_eq ht, if_pos hl, ok_bind, unsigned_len ht hl, ok_bind,
      if_neg (by omega)]
    rfl
  · rw [unsigned_len ht hl]; congr 1; omega

/-- **C39**: if not even one byte fits, `chunk_data` raises before it writes anything, and before it takes a chunk number. -/
theorem C39_too_small (sha : Bytes → Bytes) {i : SchemaImpl} {o : ChunkOptions} {e : PyErr} (hs : i.payloadSize o = .error e)
    (stream : Stream) (st : ChunkState) : i.chunkData sha o stream st = (.error e, st) := by
  unfold SchemaImpl.chunkData
  rw [PyS.bind_of_error (s' := st) (e := e)]
  rw [hs]; rfl

/-- **C39**: that is the case exactly when an empty packet with the largest number already has `max_packet_size` bytes. -/
theorem C39_too_small_iff {i : SchemaImpl} {o : ChunkOptions} {nm : Option Name} {p : Packet} {n : Nat}
    (hnm : i.getName (some (MAX_CHUNK_ID : Int)) = .ok nm)
    (hp : Spec.uncheckedPacket o nm [] (if i.usesNameId then some MAX_CHUNK_ID else none) = .ok p) (hn : p.len = .ok n) :
    i.payloadSize o = if o.maxPacketSize ≤ n then .error .valueError else .ok (o.maxPacketSize - n) := by
  unfold SchemaImpl.payloadSize
  unfold Spec.uncheckedPacket at hp
  obtain ⟨b, hb, hp⟩ := bind_eq_ok.mp hp
  simp only [hnm, ok_bind, hb, hp, hn, pure_eq_ok]

/-! ### A concrete case -/

/-- A segmented schema with chunk ids under `/a`. -/
def Toy.segmented : SchemaImpl := ⟨1, .segmented (some ⟨[.nameSegment [97]]⟩) (some T_CHUNKID) none none⟩

/-- It chunks: packets of at most 55 bytes leave 11 bytes of payload; a 25 byte file read 11, 4, 1, then 9 bytes. -/
example : ∃ file st', Toy.segmented.chunkData Toy.sha { maxPacketSize := 55 } ⟨List.replicate 25 5, [20, 4, 0]⟩ ⟨[], 7⟩
    = (.ok file, st') := by
  have hs : Toy.segmented.payloadSize { maxPacketSize := 55 } = .ok 11 := by decide +kernel
  rcases C38_succeeds Toy.sha hs (by decide) ⟨List.replicate 25 5, [20, 4, 0]⟩ ⟨[], 7⟩ with h | ⟨_, h⟩
  · exact h
  · exact absurd h (by decide)

example :
    (match (Toy.segmented.chunkData Toy.sha { maxPacketSize := 55 } ⟨List.replicate 25 5, [20, 4, 0]⟩ ⟨[], 7⟩).1 with
      | .ok (f : FileMetadata) => f.chunks.map (fun c => (c.chunkNumber, c.payloadBytes))
      | .error _ => []) = [(7, 11), (8, 4), (9, 1), (10, 9)] ∧
    (Toy.segmented.chunkData Toy.sha { maxPacketSize := 55 } ⟨List.replicate 25 5, [20, 4, 0]⟩ ⟨[], 7⟩).2.output.map
      (fun p => p.body.finalChunkId) = [none, none, none, some 10] := by decide +kernel

/-- Packets of 44 bytes are too small. -/
example : Toy.segmented.payloadSize { maxPacketSize := 44 } = .error .valueError := by decide +kernel

/-! ## C55 -/

/-- Equal wire formats: equal component types and values. -/
theorem Name.wire_inj {n m : Name} {w : Bytes} (hn : wireOf Name.tlv n = .ok w) (hm : wireOf Name.tlv m = .ok w) :
    n.components.map NameComponent.asTlv = m.components.map NameComponent.asTlv := by
  obtain ⟨t, ht, hv, rfl⟩ := wireOf_ok hn
  obtain ⟨u, hu, hv', he⟩ := wireOf_ok hm
  obtain ⟨a1, a2, rfl⟩ := Name.tlv_iff.mp ht
  obtain ⟨b1, b2, rfl⟩ := Name.tlv_iff.mp hu
  have h0 := bytesAll_inj (l := [_]) (m := [_]) (by simpa using hv) (by simpa using hv') (by simpa using he)
  simp only [List.cons.injEq, Tlv.mk.injEq, true_and, and_true] at h0
  exact bytesAll_inj (by simpa using a1) (by simpa using b1) h0

theorem segName_wire {p q : Name} {st st' a b : Nat} {w : Bytes} (hn : wireOf Name.tlv (segName p st a) = .ok w)
    (hm : wireOf Name.tlv (segName q st' b) = .ok w) :
    p.components.map NameComponent.asTlv = q.components.map NameComponent.asTlv ∧ st = st' ∧
      beBytes (numWidth a) a = beBytes (numWidth b) b := by
  have h := Name.wire_inj hn hm
  simp only [segName, List.map_append, List.map_cons, List.map_nil] at h
  obtain ⟨h1, h2⟩ := List.append_inj' h rfl
  simp only [segComponent, NameComponent.asTlv, List.cons.injEq, Tlv.mk.injEq, and_true] at h2
  exact ⟨h1, h2.1, h2.2⟩

/-- **C55.**  Under a segmented schema, distinct ids below 2^64 give names with distinct wire formats. -/
theorem C55_segmented_distinct {i : SchemaImpl} {a b : Nat} {n m : Name} {w : Bytes} (ha : a < 2 ^ 64) (hb : b < 2 ^ 64)
    (hs : ∃ p st l f, i.schema = .segmented p st l f)
    (hn : i.getName (some (a : Int)) = .ok (some n)) (hm : i.getName (some (b : Int)) = .ok (some m))
    (wn : wireOf Name.tlv n = .ok w) (wm : wireOf Name.tlv m = .ok w) : a = b := by
  obtain ⟨p, st, l, f, hs⟩ := hs
  rcases getName_inv hn with ⟨_, _, h, _⟩ | ⟨_, _, h⟩ | ⟨p', st', _, _, h, _, he, _⟩
  · rw [hs] at h; cases h
  · rw [hs] at h; cases h
  · rw [hs] at h; cases h; cases he
    rcases getName_inv hm with ⟨_, _, h, _⟩ | ⟨_, _, h⟩ | ⟨p', st', _, _, h, _, he, _⟩
    · rw [hs] at h; cases h
    · rw [hs] at h; cases h
    · rw [hs] at h; cases h; cases he
      have := congrArg arrayToNumber (segName_wire wn wm).2.2
      rwa [arrayToNumber_numBytes a ha, arrayToNumber_numBytes b hb] at this

/-- **C55**: the names of a segmented schema are the prefix followed by one component with the schema's suffix type, and every
id has a name if the largest one has. -/
theorem C55_segmented_name {i : SchemaImpl} {p : Name} {st : Nat} {l : Option (List Link)} {f : Option Bytes}
    (hs : i.schema = .segmented (some p) (some st) l f) {id : Nat} {n : Option Name}
    (hn : i.getName (some (id : Int)) = .ok n) :
    ∃ v, n = some ⟨p.components ++ [⟨st, v, true⟩]⟩ ∧ (id < 2 ^ 64 → arrayToNumber v = id) ∧
      ∀ id' ≤ id, ∃ n', i.getName (some (id' : Int)) = .ok (some n') := by
  rcases getName_inv hn with ⟨_, _, h, _⟩ | ⟨_, _, h⟩ | ⟨p', st', _, _, h, hst, rfl, t, ht⟩
  · rw [hs] at h; cases h
  · rw [hs] at h; cases h
  · rw [hs] at h; cases h
    refine ⟨_, rfl, arrayToNumber_numBytes id, fun id' hid => ?_⟩
    obtain ⟨t', ht', _⟩ := segName_le ht hid
    exact ⟨_, getName_segmented hs hst id' ht'⟩

/-- **C55**: two segmented schemas whose prefixes or suffix types differ never give the same name. -/
theorem C55_segmented_disjoint {i j : SchemaImpl} {p q : Name} {st st' : Nat} {l l' : Option (List Link)} {f f' : Option Bytes}
    (hi : i.schema = .segmented (some p) (some st) l f) (hj : j.schema = .segmented (some q) (some st') l' f')
    (hd : p.components.map (fun c => (c.type, c.value)) ≠ q.components.map (fun c => (c.type, c.value)) ∨ st ≠ st')
    {a b : Nat} {n m : Name} {w w' : Bytes}
    (hn : i.getName (some (a : Int)) = .ok (some n)) (hm : j.getName (some (b : Int)) = .ok (some m))
    (wn : wireOf Name.tlv n = .ok w) (wm : wireOf Name.tlv m = .ok w') : w ≠ w' := by
  rintro rfl
  rcases getName_inv hn with ⟨_, _, h, _⟩ | ⟨_, _, h⟩ | ⟨p', st', _, _, h, _, he, _⟩
  · rw [hi] at h; cases h
  · rw [hi] at h; cases h
  · rw [hi] at h; cases h; cases he
    rcases getName_inv hm with ⟨_, _, h, _⟩ | ⟨_, _, h⟩ | ⟨p', st', _, _, h, _, he, _⟩
    · rw [hj] at h; cases h
    · rw [hj] at h; cases h
    · rw [hj] at h; cases h; cases he
      obtain ⟨h1, h2, _⟩ := segName_wire wn wm
      rcases hd with hd | hd
      · apply hd
        have := congrArg (List.map (fun t : Tlv => (t.type, t.value))) h1
        simpa [List.map_map, Function.comp_def, NameComponent.asTlv] using this
      · exact hd h2

theorem SchemaImpl.create_ok {k : Nat} {s : NcSchema} {i : SchemaImpl} (h : SchemaImpl.create k s = .ok i) : i = ⟨k, s⟩ := by
  unfold SchemaImpl.create at h
  obtain ⟨_, _, h⟩ := bind_eq_ok.mp h
  obtain ⟨_, _, h⟩ := bind_eq_ok.mp h
  obtain ⟨_, _, h⟩ := bind_eq_ok.mp h
  obtain ⟨_, _, h⟩ := bind_eq_ok.mp h
  cases h
  rfl

/-- **C55**: in every context that `NameConstructorContext.create` makes for the segmented schema, no manifest name equals a
data name. -/
theorem C55_created_context_disjoint {nextId : Nat} {name mp dp : Option Name} {ml dl : Option (List Link)} {c : NameCtx}
    (h : NameCtx.create .segmented nextId name mp dp ml dl = .ok c) {a b : Nat} {n m : Name} {w w' : Bytes}
    (hn : c.manifest.getName (some (a : Int)) = .ok (some n)) (hm : c.data.getName (some (b : Int)) = .ok (some m))
    (wn : wireOf Name.tlv n = .ok w) (wm : wireOf Name.tlv m = .ok w') : w ≠ w' := by
  unfold NameCtx.create at h
  simp only at h
  generalize (if mp.isNone = true then name else mp) = x at h
  generalize (if dp.isNone = true then name else dp) = y at h
  split at h
  · cases h
  · split at h
    · cases h
    · unfold NameCtx.createNamed at h
      simp only [Bool.false_eq_true, if_false] at h
      obtain ⟨i, hi, h⟩ := bind_eq_ok.mp h
      obtain ⟨j, hj, h⟩ := bind_eq_ok.mp h
      cases h
      have ei : i.schema = .segmented x (some T_MANIFESTID) none none := by
        rw [SchemaImpl.create_ok hi]; rfl
      have ej : j.schema = .segmented y (some T_CHUNKID) none none := by
        rw [SchemaImpl.create_ok hj]; rfl
      cases x with
      | none => unfold SchemaImpl.getName at hn; rw [ei] at hn; cases hn
      | some p =>
        cases y with
        | none => unfold SchemaImpl.getName at hm; rw [ej] at hm; cases hm
        | some q => exact C55_segmented_disjoint ei ej (.inr (by decide)) hn hm wn wm

/-- **C55**: under the prefix schema all objects share one name, whatever the id. -/
theorem C55_prefix_one_name {i : SchemaImpl} {n : Option Name} {l : Option (List Link)} {f : Option Bytes}
    (hs : i.schema = .prefixed n l f) (id : Option Int) : i.getName id = .ok n := by
  unfold SchemaImpl.getName; rw [hs]

/-- **C55**: under the hashed schema objects have no name. -/
theorem C55_hashed_no_name {i : SchemaImpl} {l : Option (List Link)} {f : Option Bytes} (hs : i.schema = .hash l f)
    (id : Option Int) : i.getName id = .ok none := by
  unfold SchemaImpl.getName; rw [hs]

/-- **C55**: the bound on the ids is needed: beyond 64 bits two ids share a name. -/
theorem C55_beyond_64_bits_collide : ∃ (i : SchemaImpl) (n : Name),
    i.getName (some (2 ^ 63)) = .ok (some n) ∧ i.getName (some (2 ^ 64 + 2 ^ 63)) = .ok (some n) :=
  ⟨Toy.segmented, ⟨[.nameSegment [97], ⟨T_CHUNKID, [128, 0, 0, 0, 0, 0, 0, 0], true⟩]⟩, by decide +kernel, by decide +kernel⟩

/-- A segmented context exists. -/
example : ∃ c n m, NameCtx.create .segmented 1 (some ⟨[.nameSegment [97]]⟩) (some ⟨[.nameSegment [109]]⟩)
      (some ⟨[.nameSegment [100]]⟩) none none = .ok c ∧
    c.manifest.getName (some 300) = .ok (some n) ∧ c.data.getName (some 300) = .ok (some m) ∧
    (wireOf Name.tlv n).isOk = true ∧ (wireOf Name.tlv m).isOk = true :=
  ⟨⟨⟨1, .segmented (some ⟨[.nameSegment [109]]⟩) (some T_MANIFESTID) none none⟩,
    ⟨2, .segmented (some ⟨[.nameSegment [100]]⟩) (some T_CHUNKID) none none⟩, false⟩,
   ⟨[.nameSegment [109], ⟨T_MANIFESTID, [1, 44], true⟩]⟩, ⟨[.nameSegment [100], ⟨T_CHUNKID, [1, 44], true⟩]⟩,
   by decide +kernel, by decide +kernel, by decide +kernel, by decide +kernel, by decide +kernel⟩

end Ccnpy
