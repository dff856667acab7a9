import Mathlib.Data.List.Induction
import Mathlib.Data.List.Nodup
import Verif.Model.Counter
import Verif.Props.SchemaProps

/-!
C103: one schema object numbers everything it is asked for with one counter, whatever the order of the calls and whether they
return or raise.
-/

namespace Ccnpy

/-- What the loop leaves, whether it returns or raises: packets named by consecutive numbers, all within the limit, and a counter
past them. -/
theorem chunkLoop_names {sha : Bytes → Bytes} {i : SchemaImpl} {o : ChunkOptions} {size : Nat} {fuel : Nat}
    {payload : Bytes} {stream : Stream} {acc : List ChunkMetadata} {total : Nat} {st : ChunkState} :
    ∃ ps, (i.chunkLoop sha o size fuel payload stream acc total st).2.output = st.output ++ ps ∧
      List.Forall₂ (fun n (p : Packet) => n ≤ MAX_CHUNK_ID ∧ i.getName (some ((n : Nat) : Int)) = .ok p.body.name)
        (List.range' st.nextChunkId ps.length) ps ∧
      st.nextChunkId + ps.length ≤ (i.chunkLoop sha o size fuel payload stream acc total st).2.nextChunkId := by
  induction fuel generalizing payload stream acc total st with
  | zero =>
    refine ⟨[], ?_, .nil, ?_⟩
    all_goals
      rw [SchemaImpl.chunkLoop.eq_def]
      by_cases hp : payload.length = 0
      · simp only [hp, if_true]; simp
      · simp only [hp, if_false]; simp
  | succ fuel ih =>
    by_cases hp : payload.length = 0
    · rw [chunkLoop_done hp]
      exact ⟨[], by simp, .nil, by simp⟩
    · rw [chunkLoop_step hp]
      split
      · exact ⟨[], by simp, .nil, by simp⟩
      · rename_i hmax
        split
        · exact ⟨[], by simp, .nil, by simp⟩
        · rename_i p hv hpk
          obtain ⟨nm, hnm, hpk⟩ := bind_eq_ok.mp hpk
          obtain ⟨q, hq, hpk⟩ := bind_eq_ok.mp hpk
          obtain ⟨hq', hhq, hpk⟩ := bind_eq_ok.mp hpk
          cases hpk
          obtain ⟨hbody, _⟩ := dataPacket_ok hq
          obtain ⟨ps, h1, h2, h3⟩ := ih (payload := (stream.read size).1) (stream := (stream.read size).2)
            (acc := acc ++ [⟨st.nextChunkId, payload.length, hv⟩]) (total := total + payload.length)
            (st := ⟨st.output ++ [p], st.nextChunkId + 1⟩)
          refine ⟨p :: ps, by rw [h1]; simp, ?_, ?_⟩
          · rw [List.length_cons, List.range'_succ]
            refine .cons ⟨by omega, ?_⟩ h2
            rw [hnm, hbody]; rfl
          · simp only [List.length_cons]
            simp only at h3
            omega

theorem chunkData_names (sha : Bytes → Bytes) (i : SchemaImpl) (o : ChunkOptions) (stream : Stream) (st : ChunkState) :
    ∃ ps, (i.chunkData sha o stream st).2.output = st.output ++ ps ∧
      List.Forall₂ (fun n (p : Packet) => n ≤ MAX_CHUNK_ID ∧ i.getName (some ((n : Nat) : Int)) = .ok p.body.name)
        (List.range' st.nextChunkId ps.length) ps ∧
      st.nextChunkId + ps.length ≤ (i.chunkData sha o stream st).2.nextChunkId := by
  unfold SchemaImpl.chunkData
  cases hs : i.payloadSize o with
  | error e => exact ⟨[], by simp [PyS.bind_run], .nil, by simp [PyS.bind_run]⟩
  | ok size =>
    rw [PyS.liftBind_run rfl]
    exact chunkLoop_names

/-- The state after any calls: the packets in the output are named by increasing numbers below the counter. -/
def Numbered (i : SchemaImpl) (s : ChunkState) : Prop :=
  ∃ ids : List Nat, ids.Pairwise (· < ·) ∧ (∀ n ∈ ids, n < s.nextChunkId) ∧
    List.Forall₂ (fun n (p : Packet) => n ≤ MAX_CHUNK_ID ∧ i.getName (some ((n : Nat) : Int)) = .ok p.body.name) ids s.output

theorem Numbered.next {i : SchemaImpl} {s : ChunkState} (h : Numbered i s) : Numbered i (i.getNextName s).2 := by
  obtain ⟨ids, h1, h2, h3⟩ := h
  exact ⟨ids, h1, fun n hn => Nat.lt_succ_of_lt (h2 n hn), h3⟩

theorem Numbered.chunk {i : SchemaImpl} {s : ChunkState} (h : Numbered i s) (sha : Bytes → Bytes) (o : ChunkOptions)
    (b : Stream) : Numbered i (i.chunkData sha o b s).2 := by
  obtain ⟨ids, h1, h2, h3⟩ := h
  obtain ⟨ps, g1, g2, g3⟩ := chunkData_names sha i o b s
  refine ⟨ids ++ List.range' s.nextChunkId ps.length, ?_, ?_, ?_⟩
  · rw [List.pairwise_append]
    refine ⟨h1, List.pairwise_lt_range', fun a ha c hc => ?_⟩
    have := h2 a ha
    have := (List.mem_range'_1.mp hc).1
    omega
  · intro n hn
    rcases List.mem_append.mp hn with hn | hn
    · have := h2 n hn; omega
    · have := (List.mem_range'_1.mp hn).2; omega
  · rw [g1]
    exact List.rel_append h3 g2

theorem Numbered.session {i : SchemaImpl} (sha : Bytes → Bytes) (o : ChunkOptions) (cs : List SchemaCall) {s : ChunkState}
    (h : Numbered i s) : Numbered i (i.session sha o cs s).2 := by
  induction cs generalizing s with
  | nil => exact h
  | cons c cs ih =>
    cases c with
    | nextName => exact ih h.next
    | chunk b => exact ih (h.chunk sha o b)

theorem segName_inj {p : Name} {st n m : Nat} (hn : n ≤ MAX_CHUNK_ID) (hm : m ≤ MAX_CHUNK_ID)
    (h : segName p st n = segName p st m) : n = m := by
  have h1 := List.append_cancel_left (congrArg Name.components h)
  have h2 := congrArg NameComponent.value (List.head_eq_of_cons_eq h1)
  have h3 := congrArg arrayToNumber h2
  have g : ∀ k ≤ MAX_CHUNK_ID, k < 256 ^ numWidth k := fun k hk =>
    lt_pow_numWidth k (Nat.lt_of_le_of_lt hk (by decide))
  simpa [segComponent, arrayToNumber_beBytes, Nat.mod_eq_of_lt (g n hn), Nat.mod_eq_of_lt (g m hm)] using h3

/-- **C103.**  Whatever a program asks of a segmented schema, and whatever fails on the way, no two of the data packets that it
has written have the same name. -/
theorem C103_names_distinct (sha : Bytes → Bytes) (i : SchemaImpl) (o : ChunkOptions) (cs : List SchemaCall)
    {p : Option Name} {t : Option Nat} {l : Option (List Link)} {f : Option Bytes} (hs : i.schema = .segmented p t l f) :
    ((i.session sha o cs {}).2.output.map (·.body.name)).Nodup := by
  obtain ⟨ids, h1, h2, h3⟩ := Numbered.session (i := i) sha o cs (s := {}) ⟨[], .nil, by simp, .nil⟩
  clear h2
  generalize (i.session sha o cs {}).2.output = out at h3
  induction h3 with
  | nil => exact List.nodup_nil
  | cons hx hxs ih =>
    rename_i n q ns qs
    rw [List.pairwise_cons] at h1
    rw [List.map_cons, List.nodup_cons]
    refine ⟨fun hm => ?_, ih h1.2⟩
    obtain ⟨r, hr, he⟩ := List.mem_map.mp hm
    obtain ⟨j, hj, hjr⟩ := List.getElem_of_mem hr
    have hlen := hxs.length_eq
    have hrel := hxs.get (by omega : j < ns.length) hj
    simp only [List.get_eq_getElem] at hrel
    rw [hjr, he] at hrel
    have hlt := h1.1 _ (List.getElem_mem (by omega : j < ns.length))
    have e1 := getName_inv hx.2
    have e2 := getName_inv hrel.2
    rw [hs] at e1 e2
    simp only [reduceCtorEq, false_and, exists_false, false_or] at e1 e2
    obtain ⟨p1, t1, l1, f1, g1, _, k1, _⟩ := e1
    obtain ⟨p2, t2, l2, f2, g2, _, k2, _⟩ := e2
    injection g1 with a1 a2 _ _
    injection g2 with b1 b2 _ _
    have hp : p1 = p2 := Option.some.inj (a1.symm.trans b1)
    have ht : t1 = t2 := Option.some.inj (a2.symm.trans b2)
    subst hp ht
    have := segName_inj hx.1 hrel.1 (Option.some.inj (k1.symm.trans k2))
    omega

/-- The counter never goes back. -/
theorem session_counter {i : SchemaImpl} (sha : Bytes → Bytes) (o : ChunkOptions) (cs : List SchemaCall) (s : ChunkState) :
    s.nextChunkId ≤ (i.session sha o cs s).2.nextChunkId := by
  induction cs generalizing s with
  | nil => exact Nat.le_refl _
  | cons c cs ih =>
    cases c with
    | nextName => exact Nat.le_trans (Nat.le_succ _) (ih (i.getNextName s).2)
    | chunk b =>
      obtain ⟨ps, _, _, h⟩ := chunkData_names sha i o b s
      exact Nat.le_trans (by omega) (ih (i.chunkData sha o b s).2)

theorem session_numbers (sha : Bytes → Bytes) (i : SchemaImpl) (o : ChunkOptions) (cs : List SchemaCall) (s : ChunkState) :
    let ns := (i.session sha o cs s).1.flatMap (fun f => f.chunks.map (·.chunkNumber))
    ns.Pairwise (· < ·) ∧ ∀ n ∈ ns, s.nextChunkId ≤ n ∧ n ≤ MAX_CHUNK_ID := by
  induction cs generalizing s with
  | nil => exact ⟨.nil, by simp [SchemaImpl.session]⟩
  | cons c cs ih =>
    cases c with
    | nextName =>
      obtain ⟨h1, h2⟩ := ih (i.getNextName s).2
      refine ⟨h1, fun n hn => ?_⟩
      have := h2 n hn
      simp only [SchemaImpl.getNextName] at this
      omega
    | chunk b =>
      obtain ⟨h1, h2⟩ := ih (i.chunkData sha o b s).2
      obtain ⟨ps, g1, g2, g3⟩ := chunkData_names sha i o b s
      simp only [SchemaImpl.session]
      cases hr : (i.chunkData sha o b s).1 with
      | error e =>
        refine ⟨h1, fun n hn => ?_⟩
        have := h2 n hn
        omega
      | ok f =>
        have hok : i.chunkData sha o b s = (.ok f, (i.chunkData sha o b s).2) := Prod.ext hr rfl
        obtain ⟨qs, k1, _, _, _, _, k6, _, k8⟩ := C38_summary hok
        rw [g1] at k1
        have hq : ps = qs := List.append_cancel_left k1
        subst hq
        rw [List.flatMap_cons, k6]
        refine ⟨?_, fun n hn => ?_⟩
        · rw [List.pairwise_append]
          refine ⟨List.pairwise_lt_range', h1, fun a ha c hc => ?_⟩
          have := (List.mem_range'_1.mp ha).2
          have := (h2 c hc).1
          omega
        · rcases List.mem_append.mp hn with hn | hn
          · refine ⟨(List.mem_range'_1.mp hn).1, ?_⟩
            have hlen := g2.length_eq
            obtain ⟨j, hj, rfl⟩ := List.getElem_of_mem hn
            have := g2.get hj (by omega)
            exact this.1
          · have := h2 n hn
            omega

theorem length_le_of_increasing (ns : List Nat) (m : Nat) (h : ns.Pairwise (· < ·)) (hm : ∀ n ∈ ns, n < m) : ns.length ≤ m := by
  induction ns using List.reverseRecOn generalizing m with
  | nil => simp
  | append_singleton ns a ih =>
    rw [List.pairwise_append] at h
    have := ih a h.1 (fun n hn => h.2.2 n hn a (by simp))
    have := hm a (by simp)
    simp only [List.length_append, List.length_singleton]
    omega

/-- **C103.**  The chunk numbers that a schema object reports, over all the files it chunks, increase strictly and stay within
the limit; so whatever the schema, also one that puts no number in a name, an object chunks at most 2^24 pieces in its life. -/
theorem C103_numbers (sha : Bytes → Bytes) (i : SchemaImpl) (o : ChunkOptions) (cs : List SchemaCall) :
    let ns := (i.session sha o cs {}).1.flatMap (fun f => f.chunks.map (·.chunkNumber))
    ns.Pairwise (· < ·) ∧ (∀ n ∈ ns, n ≤ 0xFFFFFF) ∧ ns.length ≤ 0x1000000 := by
  obtain ⟨h1, h2⟩ := session_numbers sha i o cs {}
  have h3 : ∀ n ∈ (i.session sha o cs {}).1.flatMap (fun f => f.chunks.map (·.chunkNumber)), n ≤ 0xFFFFFF :=
    fun n hn => (h2 n hn).2
  exact ⟨h1, h3, length_le_of_increasing _ _ h1 (fun n hn => Nat.lt_succ_of_le (h3 n hn))⟩

/-- **C103.**  `get_next_name` takes a number whatever happens, writes nothing, and gives no name to tell two calls apart: none
with a hash schema, always the prefix with a prefix schema; with a segmented schema, where the number would matter, it always
raises. -/
theorem C103_next_name (i : SchemaImpl) (s : ChunkState) :
    (i.getNextName s).2 = ⟨s.output, s.nextChunkId + 1⟩ ∧
    (i.getNextName s).1 = (match i.schema with
      | .hash _ _ => .ok none
      | .prefixed n _ _ => .ok n
      | .segmented _ _ _ _ => .error .typeError) := by
  refine ⟨rfl, ?_⟩
  unfold SchemaImpl.getNextName SchemaImpl.getName
  cases i.schema <;> rfl

/-- **C103.**  A schema object whose numbers are used up (by data or by calls of `get_next_name`) cannot chunk a single byte more:
the call raises, and writes nothing. -/
theorem C103_used_up (sha : Bytes → Bytes) (i : SchemaImpl) (o : ChunkOptions) (b : Stream) (s : ChunkState)
    (hs : 0xFFFFFF < s.nextChunkId) (hb : b.rest ≠ []) :
    ∃ e, (i.chunkData sha o b s).1 = .error e ∧ (i.chunkData sha o b s).2.output = s.output := by
  unfold SchemaImpl.chunkData
  cases hp : i.payloadSize o with
  | error e => exact ⟨e, by simp [PyS.bind_run, PyS.lift], by simp [PyS.bind_run]⟩
  | ok size =>
    rw [PyS.liftBind_run rfl]
    obtain ⟨_, _, _, hpos, _⟩ := payloadSize_ok hp
    have hne : (b.read size).1.length ≠ 0 := by
      intro h
      have h1 := Stream.read_nil b size hpos h
      have h2 := Stream.read_append b size
      rw [h1, List.length_eq_zero_iff.mp h] at h2
      exact hb h2.symm
    have hlen : b.rest.length ≠ 0 := fun h => hb (List.length_eq_zero_iff.mp h)
    obtain ⟨k, hk⟩ := Nat.exists_eq_succ_of_ne_zero hlen
    rw [hk, Nat.succ_eq_add_one, chunkLoop_step hne, if_pos (show s.nextChunkId > MAX_CHUNK_ID from hs)]
    exact ⟨_, rfl, rfl⟩

theorem Spec.Chunked.final {sha : Bytes → Bytes} {i : SchemaImpl} {x : Option F64} {k : Nat} {bs : List Bytes} {ps : List Packet}
    {ms : List ChunkMetadata} (h : Spec.Chunked sha i x k bs ps ms) (hne : bs ≠ []) (hc : Spec.chunkIdSchema i.schema = true) :
    ∃ p ∈ ps, p.body.finalChunkId = some (k + bs.length - 1) := by
  induction bs generalizing k ps ms with
  | nil => exact absurd rfl hne
  | cons b bs ih =>
    cases ps <;> cases ms <;> simp only [Spec.Chunked] at h
    rename_i p ps m ms
    cases bs with
    | nil =>
      refine ⟨p, by simp, ?_⟩
      have := h.2.2.2.2.2.2.2.2.2.2.1
      simpa [hc] using this
    | cons c bs =>
      obtain ⟨q, hq, he⟩ := ih h.2.2.2.2.2.2.2.2.2.2.2 (by simp)
      refine ⟨q, by simp [hq], ?_⟩
      rw [he]
      simp only [List.length_cons]
      congr 1
      omega

/-- **C103.**  The final chunk id is final only for one call: when one object with a chunk-id schema chunks two files that are not
empty, one after the other, the first file has a packet that announces a final chunk `n`, and the second file has packets
named under the same prefix by the numbers after it, from `n + 1` on. -/
theorem C103_final_not_final {sha : Bytes → Bytes} {i : SchemaImpl} {o : ChunkOptions} {a b : Stream} {s s1 s2 : ChunkState}
    {f g : FileMetadata} (ha : i.chunkData sha o a s = (.ok f, s1)) (hb : i.chunkData sha o b s1 = (.ok g, s2))
    (ha0 : a.rest ≠ []) (hb0 : b.rest ≠ []) (hc : Spec.chunkIdSchema i.schema = true) :
    ∃ n ps qs, s1.output = s.output ++ ps ∧ s2.output = s1.output ++ qs ∧ (∃ p ∈ ps, p.body.finalChunkId = some n) ∧
      qs ≠ [] ∧ g.chunks.map (·.chunkNumber) = List.range' (n + 1) qs.length ∧
      List.Forall₂ (fun m (q : Packet) => i.getName (some ((m : Nat) : Int)) = .ok q.body.name)
        (List.range' (n + 1) qs.length) qs := by
  obtain ⟨bs, ps, h1, h2, _, h4⟩ := C38_chunks ha
  have hbs : bs ≠ [] := by rintro rfl; exact ha0 h1.symm
  obtain ⟨p, hp, he⟩ := h2.final hbs hc
  have hlen : 0 < bs.length := List.length_pos_iff.mpr hbs
  have hs1 : s1.nextChunkId = s.nextChunkId + bs.length - 1 + 1 := by rw [h4]; simp only; omega
  obtain ⟨qs, g1, g2, _, _, _, g6, _, _⟩ := C38_summary hb
  obtain ⟨rs, k1, k2, _⟩ := chunkData_names sha i o b s1
  rw [hb] at k1
  have hq : qs = rs := List.append_cancel_left (g1.symm.trans k1)
  subst hq
  refine ⟨s.nextChunkId + bs.length - 1, ps, qs, by rw [h4], g1, ⟨p, hp, he⟩, ?_, by rw [g6, hs1], ?_⟩
  · rintro rfl
    exact hb0 (by rw [← g2]; rfl)
  · rw [← hs1]
    exact k2.imp (fun _ _ h => h.2)

/-! ### A concrete case -/

/-- Two files and a call of `get_next_name` between them: three packets, then a number lost, then two packets. -/
example :
    let r := Toy.segmented.session Toy.sha { maxPacketSize := 55 }
      [.chunk { rest := List.replicate 25 5 }, .nextName, .chunk { rest := List.replicate 12 6 }] {}
    r.1.map (fun f => f.chunks.map (·.chunkNumber)) = [[0, 1, 2], [4, 5]] ∧
    r.2.output.map (fun p => p.body.finalChunkId) = [none, none, some 2, none, some 5] := by decide +kernel

end Ccnpy
