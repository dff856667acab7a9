import Verif.Lemmas.PyS
import Verif.Lemmas.Packet
import Verif.Model.Schema

/-!
# Sizes of names and data packets
-/

namespace Ccnpy

/-! ## Names -/

/-- The TLV of a component. -/
def NameComponent.asTlv (c : NameComponent) : Tlv := ⟨c.type, c.value⟩

theorem listTlv_components_iff {cs : List NameComponent} {l : List Tlv} :
    listTlv NameComponent.tlv cs = .ok l ↔ (∀ c ∈ cs, c.asTlv.Valid) ∧ l = cs.map NameComponent.asTlv := by
  induction cs generalizing l with
  | nil => simp [listTlv, eq_comm]
  | cons c cs ih =>
    constructor
    · intro h
      obtain ⟨t, r, ht, hr, rfl⟩ := listTlv_cons_ok h
      obtain ⟨rfl, hv⟩ := mkTlv_ok ht
      obtain ⟨h1, rfl⟩ := ih.mp hr
      exact ⟨by simpa using ⟨hv, h1⟩, rfl⟩
    · rintro ⟨hv, rfl⟩
      have h1 : c.tlv = .ok c.asTlv := by
        have := hv c (by simp)
        unfold NameComponent.tlv
        rw [mkTlv_eq, if_pos (by exact this)]
        rfl
      have h2 := ih.mpr ⟨fun x hx => hv x (by simp [hx]), rfl⟩
      unfold listTlv
      rw [h1, h2]
      rfl

/-- The wire format of a name exists iff every component fits and all together fit. -/
theorem Name.tlv_iff {n : Name} {t : Tlv} :
    n.tlv = .ok t ↔ (∀ c ∈ n.components, c.asTlv.Valid) ∧
      (bytesAll (n.components.map NameComponent.asTlv)).length ≤ 0xFFFF ∧
      t = ⟨T_NAME, bytesAll (n.components.map NameComponent.asTlv)⟩ := by
  constructor
  · intro h
    obtain ⟨l, hl, _, rfl, hv⟩ := Name.tlv_ok h
    obtain ⟨h1, rfl⟩ := listTlv_components_iff.mp hl
    exact ⟨h1, hv.2, rfl⟩
  · rintro ⟨h1, h2, rfl⟩
    have h3 : ∀ x ∈ n.components.map NameComponent.asTlv, x.Valid := by
      intro x hx
      obtain ⟨c, hc, rfl⟩ := List.mem_map.mp hx
      exact h1 c hc
    unfold Name.tlv
    rw [listTlv_components_iff.mpr ⟨h1, rfl⟩, ok_bind]
    exact container_of_valid h3 ⟨Nat.zero_le _, h2⟩

theorem Name.append_iff {n m : Name} {c : NameComponent} :
    n.append c = .ok m ↔ m = ⟨n.components ++ [c]⟩ ∧ ∃ t, m.tlv = .ok t := by
  unfold Name.append
  constructor
  · intro h
    obtain ⟨rfl, h'⟩ := construct_inv h
    exact ⟨rfl, h'⟩
  · rintro ⟨rfl, t, ht⟩
    exact construct_ok ht

theorem suffixComponent_nat {st n : Nat} (hst : st ≤ 0xFFFF) :
    suffixComponent st (n : Int) = .ok ⟨st, beBytes (numWidth n) n, true⟩ := by
  unfold suffixComponent
  rw [numberToArray_nat, ok_bind]
  refine construct_ok (t := ⟨st, beBytes (numWidth n) n⟩) ?_
  have := numWidth_le n
  unfold NameComponent.tlv
  rw [mkTlv_eq, if_pos ⟨hst, by simp; omega⟩]

theorem suffixComponent_inv {st n : Nat} {c : NameComponent} (h : suffixComponent st (n : Int) = .ok c) :
    st ≤ 0xFFFF ∧ c = ⟨st, beBytes (numWidth n) n, true⟩ := by
  unfold suffixComponent at h
  rw [numberToArray_nat, ok_bind] at h
  obtain ⟨rfl, t, ht⟩ := construct_inv h
  obtain ⟨_, hv⟩ := mkTlv_ok ht
  obtain ⟨rfl, _⟩ := mkTlv_ok ht
  exact ⟨hv.1, rfl⟩

/-- Bytes used by an optional field. -/
def optLen {α : Type} (f : α → Py Tlv) (o : Option α) : Nat :=
  match optTlv f o with
  | .ok l => (bytesAll l).length
  | .error _ => 0

theorem optLen_ok {α : Type} {f : α → Py Tlv} {o : Option α} {l : List Tlv} (h : optTlv f o = .ok l) :
    optLen f o = (bytesAll l).length := by unfold optLen; rw [h]

theorem numWidth_mono {a b : Nat} (h : a ≤ b) : numWidth a ≤ numWidth b := by
  unfold numWidth
  (repeat' split) <;> omega

/-- The component that a segmented schema appends. -/
def segComponent (st n : Nat) : NameComponent := ⟨st, beBytes (numWidth n) n, true⟩

/-- The name that a segmented schema makes. -/
def segName (p : Name) (st n : Nat) : Name := ⟨p.components ++ [segComponent st n]⟩

theorem getName_inv {i : SchemaImpl} {n : Nat} {nm : Option Name} (h : i.getName (some (n : Int)) = .ok nm) :
    (∃ l f, i.schema = .hash l f ∧ nm = none) ∨ (∃ l f, i.schema = .prefixed nm l f) ∨
    (∃ p st l f, i.schema = .segmented (some p) (some st) l f ∧ st ≤ 0xFFFF ∧ nm = some (segName p st n) ∧
      ∃ t, (segName p st n).tlv = .ok t) := by
  unfold SchemaImpl.getName at h
  cases hs : i.schema with
  | hash l f => rw [hs] at h; cases h; exact .inl ⟨l, f, rfl, rfl⟩
  | prefixed p l f => rw [hs] at h; cases h; exact .inr (.inl ⟨l, f, rfl⟩)
  | segmented p st l f =>
    rw [hs] at h
    cases p with
    | none => cases h
    | some p =>
      cases st with
      | none => cases h
      | some st =>
        obtain ⟨c, hc, h⟩ := bind_eq_ok.mp h
        obtain ⟨m, hm, h⟩ := bind_eq_ok.mp h
        cases h
        obtain ⟨hst, rfl⟩ := suffixComponent_inv hc
        obtain ⟨rfl, ht⟩ := Name.append_iff.mp hm
        exact .inr (.inr ⟨p, st, l, f, rfl, hst, rfl, ht⟩)

theorem getName_segmented {i : SchemaImpl} {p : Name} {st : Nat} {l : Option (List Link)} {f : Option Bytes}
    (hs : i.schema = .segmented (some p) (some st) l f) (hst : st ≤ 0xFFFF) (n : Nat) {t : Tlv}
    (ht : (segName p st n).tlv = .ok t) : i.getName (some (n : Int)) = .ok (some (segName p st n)) := by
  unfold SchemaImpl.getName
  rw [hs]
  simp only [suffixComponent_nat hst, ok_bind]
  have := Name.append_iff (n := p) (c := segComponent st n) (m := segName p st n)
  rw [show (⟨st, beBytes (numWidth n) n, true⟩ : NameComponent) = segComponent st n from rfl, this.mpr ⟨rfl, t, ht⟩]
  rfl

/-- A smaller id gives a name that is no longer. -/
theorem segName_le {p : Name} {st big id : Nat} {t : Tlv} (ht : (segName p st big).tlv = .ok t) (hid : id ≤ big) :
    ∃ t', (segName p st id).tlv = .ok t' ∧ t'.len ≤ t.len := by
  obtain ⟨h1, h2, rfl⟩ := Name.tlv_iff.mp ht
  have hw := numWidth_mono hid
  have hle : (bytesAll ((segName p st id).components.map NameComponent.asTlv)).length
      ≤ (bytesAll ((segName p st big).components.map NameComponent.asTlv)).length := by
    simp only [segName, segComponent, List.map_append, List.map_cons, List.map_nil, bytesAll_append, bytesAll_cons,
      bytesAll_nil, List.length_append, Tlv.bytes_length, Tlv.len, Tlv.length, NameComponent.asTlv, beBytes_length]
    omega
  refine ⟨_, Name.tlv_iff.mpr ⟨?_, by omega, rfl⟩, ?_⟩
  · intro c hc
    rcases List.mem_append.mp hc with hc | hc
    · exact h1 c (by simp [segName, hc])
    · simp only [List.mem_singleton] at hc
      subst hc
      have hst := (h1 (segComponent st big) (by simp [segName])).1
      have := numWidth_le id
      exact ⟨hst, by simp [NameComponent.asTlv, segComponent]; omega⟩
  · simp only [Tlv.len, Tlv.length]; omega

/-- If the longest id of a schema gives a name with a wire format, every smaller id does, and the name is no longer. -/
theorem getName_le {i : SchemaImpl} {big : Nat} {nm : Option Name} {l : List Tlv}
    (h : i.getName (some (big : Int)) = .ok nm) (hl : optTlv Name.tlv nm = .ok l) (id : Nat) (hid : id ≤ big) :
    ∃ nm' l', i.getName (some (id : Int)) = .ok nm' ∧ optTlv Name.tlv nm' = .ok l' ∧
      (bytesAll l').length ≤ (bytesAll l).length := by
  rcases getName_inv h with ⟨a, b, hs, rfl⟩ | ⟨a, b, hs⟩ | ⟨p, st, a, b, hs, hst, rfl, t, ht⟩
  · exact ⟨none, l, by unfold SchemaImpl.getName; rw [hs], hl, Nat.le_refl _⟩
  · exact ⟨nm, l, by unfold SchemaImpl.getName; rw [hs], hl, Nat.le_refl _⟩
  · obtain ⟨t', ht', hle⟩ := segName_le ht hid
    refine ⟨some (segName p st id), [t'], getName_segmented hs hst id ht', by simp [optTlv, ht'], ?_⟩
    obtain ⟨t2, ht2, rfl⟩ := optTlv_some hl
    rw [ht] at ht2
    cases ht2
    simpa using hle

/-! ## Data packets -/

/-- What a data packet looks like. -/
def dataBody (name : Option Name) (payload : Bytes) (expiry : Option F64) (fcid : Option Nat) : ContentObject :=
  { name := name, payloadType := some PT_DATA, payload := some payload, expiryTime := expiry, finalChunkId := fcid }

theorem createData_eq (name : Option Name) (payload : Bytes) (expiry : Option F64) (fcid : Option Nat) :
    ContentObject.createData name (some payload) expiry fcid = construct ContentObject.tlv (dataBody name payload expiry fcid) :=
  rfl

theorem payloadTypeTlv_data : payloadTypeTlv PT_DATA = .ok ⟨T_PAYLDTYPE, [0]⟩ := by decide

theorem finalChunkIdTlv_eq (n : Nat) : finalChunkIdTlv n = .ok ⟨T_FINAL_CHUNK_ID, beBytes (numWidth n) n⟩ :=
  createVarint_nat _ n (by decide)

/-- The length of the wire format of a data object. -/
theorem dataBody_tlv {name : Option Name} {payload : Bytes} {expiry : Option F64} {fcid : Option Nat} {t : Tlv}
    (h : (dataBody name payload expiry fcid).tlv = .ok t) :
    (∃ l, optTlv Name.tlv name = .ok l) ∧ (∃ l, optTlv (timestampTlv T_EXPIRY) expiry = .ok l) ∧
    t.len = 13 + optLen Name.tlv name + optLen (timestampTlv T_EXPIRY) expiry + payload.length
      + optLen finalChunkIdTlv fcid := by
  unfold ContentObject.tlv at h
  obtain ⟨ms, hms, h⟩ := bind_eq_ok.mp h
  obtain ⟨a, ha, hms⟩ := bind_eq_ok.mp hms
  obtain ⟨b, hb, hms⟩ := bind_eq_ok.mp hms
  obtain ⟨d, hd, hms⟩ := bind_eq_ok.mp hms
  obtain ⟨e, he, hms⟩ := bind_eq_ok.mp hms
  obtain ⟨f, hf, hms⟩ := bind_eq_ok.mp hms
  cases hms
  obtain ⟨_, rfl, _⟩ := container_ok h
  simp only [dataBody] at ha hb hd he hf
  obtain ⟨td, htd, rfl⟩ := optTlv_some hd
  obtain ⟨te, hte, rfl⟩ := optTlv_some he
  rw [payloadTypeTlv_data] at htd
  cases htd
  obtain ⟨rfl, _⟩ := mkTlv_ok hte
  refine ⟨⟨a, ha⟩, ⟨b, hb⟩, ?_⟩
  rw [optLen_ok ha, optLen_ok hb, optLen_ok hf]
  simp only [Tlv.len, Tlv.length, bytesAll_append, bytesAll_cons, bytesAll_nil, List.length_append, Tlv.bytes_length,
    List.length_cons, List.length_nil]
  omega

/-- A data object exists when its parts do and the total length fits. -/
theorem dataBody_tlv_of {name : Option Name} {payload : Bytes} {expiry : Option F64} {fcid : Option Nat}
    {ln le : List Tlv} (hn : optTlv Name.tlv name = .ok ln) (he : optTlv (timestampTlv T_EXPIRY) expiry = .ok le)
    (hlen : 9 + optLen Name.tlv name + optLen (timestampTlv T_EXPIRY) expiry + payload.length
      + optLen finalChunkIdTlv fcid ≤ 0xFFFF) :
    ∃ t, (dataBody name payload expiry fcid).tlv = .ok t := by
  have hp : optTlv (octetTlv T_PAYLOAD) (some payload) = .ok [⟨T_PAYLOAD, payload⟩] := by
    simp only [optTlv, octetTlv, mkTlv_eq]
    rw [if_pos ⟨by decide, by omega⟩]
    rfl
  have hf : ∃ lf, optTlv finalChunkIdTlv fcid = .ok lf ∧ ∀ t ∈ lf, t.Valid := by
    cases fcid with
    | none => exact ⟨[], rfl, by simp⟩
    | some n =>
      have := numWidth_le n
      exact ⟨_, by simp only [optTlv, finalChunkIdTlv_eq, ok_bind]; rfl, by
        intro t ht
        simp only [List.mem_singleton] at ht
        subst ht
        exact ⟨by simp [T_FINAL_CHUNK_ID], by simp; omega⟩⟩
  obtain ⟨lf, hf, hvf⟩ := hf
  have hvn : ∀ t ∈ ln, t.Valid := by
    cases name with
    | none => cases hn; simp
    | some nm =>
      obtain ⟨t, ht, rfl⟩ := optTlv_some hn
      have := Name.tlv_ok ht
      simpa using this.choose_spec.2.2.2
  have hve : ∀ t ∈ le, t.Valid := by
    cases expiry with
    | none => cases he; simp
    | some x =>
      obtain ⟨t, ht, rfl⟩ := optTlv_some he
      simp only [List.mem_singleton, forall_eq]
      unfold timestampTlv at ht
      split at ht
      · cases ht
      · obtain ⟨v, hv, ht⟩ := bind_eq_ok.mp ht
        exact (mkTlv_ok ht).2
  have hm : (dataBody name payload expiry fcid).members
      = .ok (ln ++ le ++ [⟨T_PAYLDTYPE, [0]⟩] ++ [⟨T_PAYLOAD, payload⟩] ++ lf) := by
    unfold ContentObject.members
    simp only [dataBody, hn, he, hp, hf, ok_bind, pure_eq_ok]
    simp only [optTlv, payloadTypeTlv_data, ok_bind, pure_eq_ok]
  rw [optLen_ok hn, optLen_ok he, optLen_ok hf] at hlen
  refine ⟨⟨T_OBJECT, bytesAll (ln ++ le ++ [⟨T_PAYLDTYPE, [0]⟩] ++ [⟨T_PAYLOAD, payload⟩] ++ lf)⟩, ?_⟩
  · unfold ContentObject.tlv
    rw [hm, ok_bind]
    refine container_of_valid ?_ ⟨by simp [T_OBJECT], ?_⟩
    · intro x hx
      simp only [List.mem_append, List.mem_singleton] at hx
      rcases hx with (((hx | hx) | rfl) | rfl) | hx
      · exact hvn x hx
      · exact hve x hx
      · exact ⟨by simp [T_PAYLDTYPE], by simp⟩
      · exact ⟨by simp [T_PAYLOAD], by dsimp only; omega⟩
      · exact hvf x hx
    · simp only [Tlv.len, Tlv.length, bytesAll_append, bytesAll_cons, bytesAll_nil, List.length_append, Tlv.bytes_length,
        List.length_cons, List.length_nil]
      omega

/-- Making an unsigned packet. -/
theorem createContentObject_eq {b : ContentObject} {t : Tlv} (h : b.tlv = .ok t) :
    Packet.createContentObject b = if 8 + t.len ≤ 0xFFFF then .ok ⟨.contentObject (8 + t.len), b, none, none⟩
      else .error .structError := by
  obtain ⟨_, hv⟩ := ContentObject.tlv_ok h
  have wb := wireOf_of_tlv h hv
  simp only [Packet.createContentObject, h, ok_bind, mkPacket, Option.isSome_none, ne_eq, not_true, if_false,
    Packet.serialize, FixedHeader.serialize, FixedHeader.contentObject, wb, optWire]
  by_cases hl : 8 + t.len ≤ 0xFFFF <;> simp [packB, packH, hl, PT_CONTENT]

theorem unsigned_len {b : ContentObject} {t : Tlv} (h : b.tlv = .ok t) (hl : 8 + t.len ≤ 0xFFFF) :
    (⟨.contentObject (8 + t.len), b, none, none⟩ : Packet).len = .ok (8 + t.len) := by
  obtain ⟨_, hv⟩ := ContentObject.tlv_ok h
  have wb := wireOf_of_tlv h hv
  simp only [Packet.len, Packet.serialize, FixedHeader.serialize, FixedHeader.contentObject, wb, optWire, ok_bind, packB, packH,
    PT_CONTENT, hl]
  simp
  omega

/-- Total length of an unsigned data packet. -/
def dataLen (name : Option Name) (payload : Bytes) (expiry : Option F64) (fcid : Option Nat) : Nat :=
  21 + optLen Name.tlv name + optLen (timestampTlv T_EXPIRY) expiry + payload.length + optLen finalChunkIdTlv fcid

/-- Creating a data object and its packet. -/
theorem createDataPacket {name : Option Name} {payload : Bytes} {expiry : Option F64} {fcid : Option Nat} {b : ContentObject}
    {p : Packet} (hb : ContentObject.createData name (some payload) expiry fcid = .ok b)
    (hp : Packet.createContentObject b = .ok p) :
    b = dataBody name payload expiry fcid ∧ p.body = b ∧ p.alg = none ∧ p.payload = none ∧
    p.len = .ok (dataLen name payload expiry fcid) ∧ (∃ l, optTlv Name.tlv name = .ok l) ∧
    (∃ l, optTlv (timestampTlv T_EXPIRY) expiry = .ok l) := by
  rw [createData_eq] at hb
  obtain ⟨rfl, t, ht⟩ := construct_inv hb
  rw [createContentObject_eq ht] at hp
  split at hp
  · rename_i hl
    cases hp
    obtain ⟨h1, h2, h3⟩ := dataBody_tlv ht
    refine ⟨rfl, rfl, rfl, rfl, ?_, h1, h2⟩
    rw [unsigned_len ht hl]
    unfold dataLen
    rw [h3]
    congr 1
    omega
  · cases hp

theorem dataPacket_ok {o : ChunkOptions} {name : Option Name} {payload : Bytes} {fcid : Option Nat} {p : Packet}
    (h : SchemaImpl.dataPacket o name payload fcid = .ok p) :
    p.body = dataBody name payload o.dataExpiry fcid ∧ p.alg = none ∧ p.payload = none ∧
    p.len = .ok (dataLen name payload o.dataExpiry fcid) ∧ dataLen name payload o.dataExpiry fcid ≤ o.maxPacketSize := by
  unfold SchemaImpl.dataPacket at h
  obtain ⟨b, hb, h⟩ := bind_eq_ok.mp h
  obtain ⟨q, hq, h⟩ := bind_eq_ok.mp h
  obtain ⟨n, hn, h⟩ := bind_eq_ok.mp h
  obtain ⟨rfl, h2, h3, h4, h5, _⟩ := createDataPacket hb hq
  rw [h5] at hn
  cases hn
  split at h
  · cases h
  · cases h
    exact ⟨h2, h3, h4, h5, by omega⟩

theorem dataPacket_created {o : ChunkOptions} {name : Option Name} {payload : Bytes} {fcid : Option Nat} {p : Packet}
    (h : SchemaImpl.dataPacket o name payload fcid = .ok p) : Packet.createContentObject p.body = .ok p := by
  unfold SchemaImpl.dataPacket at h
  obtain ⟨b, hb, h⟩ := bind_eq_ok.mp h
  obtain ⟨q, hq, h⟩ := bind_eq_ok.mp h
  obtain ⟨n, hn, h⟩ := bind_eq_ok.mp h
  obtain ⟨_, h2, _⟩ := createDataPacket hb hq
  split at h
  · cases h
  · cases h
    rw [h2]
    exact hq

theorem payloadSize_ok {i : SchemaImpl} {o : ChunkOptions} {size : Nat} (h : i.payloadSize o = .ok size) :
    ∃ nm, i.getName (some (MAX_CHUNK_ID : Int)) = .ok nm ∧
      dataLen nm [] o.dataExpiry (if i.usesNameId then some MAX_CHUNK_ID else none) + size = o.maxPacketSize ∧ 0 < size ∧
      (∃ l, optTlv Name.tlv nm = .ok l) ∧ (∃ l, optTlv (timestampTlv T_EXPIRY) o.dataExpiry = .ok l) := by
  unfold SchemaImpl.payloadSize at h
  simp only at h
  generalize (if i.usesNameId = true then some MAX_CHUNK_ID else none) = fcid at h ⊢
  obtain ⟨nm, hnm, h⟩ := bind_eq_ok.mp h
  obtain ⟨b, hb, h⟩ := bind_eq_ok.mp h
  obtain ⟨q, hq, h⟩ := bind_eq_ok.mp h
  obtain ⟨n, hn, h⟩ := bind_eq_ok.mp h
  obtain ⟨rfl, h2, h3, h4, h5, h6, h7⟩ := createDataPacket hb hq
  rw [h5] at hn
  cases hn
  split at h
  · cases h
  · cases h
    exact ⟨nm, hnm, by omega, by omega, h6, h7⟩

theorem optLen_fcid_le {id : Nat} (h : id ≤ MAX_CHUNK_ID) :
    optLen finalChunkIdTlv (some id) ≤ optLen finalChunkIdTlv (some MAX_CHUNK_ID) := by
  have hw := numWidth_mono h
  simp only [optLen, optTlv, finalChunkIdTlv_eq, ok_bind, pure_eq_ok, bytesAll_cons, bytesAll_nil, List.append_nil,
    Tlv.bytes_length, Tlv.len, Tlv.length, beBytes_length]
  omega

theorem usesFinalChunkId_le {i : SchemaImpl} (h : i.usesFinalChunkId = true) : i.usesNameId = true := by
  unfold SchemaImpl.usesFinalChunkId at h
  unfold SchemaImpl.usesNameId
  cases hs : i.schema <;> simp_all

/-- The packet made for a payload that is not longer than the computed size is never too long. -/
theorem dataLen_le {i : SchemaImpl} {o : ChunkOptions} {size id : Nat} (h : i.payloadSize o = .ok size)
    (hid : id ≤ MAX_CHUNK_ID) (next payload : Bytes) (hp : payload.length ≤ size) :
    ∃ nm l le, i.getName (some (id : Int)) = .ok nm ∧ optTlv Name.tlv nm = .ok l ∧
      optTlv (timestampTlv T_EXPIRY) o.dataExpiry = .ok le ∧
      dataLen nm payload o.dataExpiry (i.finalId id next) ≤ o.maxPacketSize := by
  obtain ⟨big, hbig, hsum, _, ⟨l, hl⟩, le, hle⟩ := payloadSize_ok h
  obtain ⟨nm, l', h1, h2, h3⟩ := getName_le hbig hl id hid
  refine ⟨nm, l', le, h1, h2, hle, ?_⟩
  have hf : optLen finalChunkIdTlv (i.finalId id next)
      ≤ optLen finalChunkIdTlv (if i.usesNameId then some MAX_CHUNK_ID else none) := by
    unfold SchemaImpl.finalId
    split
    · rename_i hc
      simp only [Bool.and_eq_true] at hc
      rw [if_pos (usesFinalChunkId_le hc.1)]
      exact optLen_fcid_le hid
    · simp [optLen, optTlv]
  unfold dataLen at *
  rw [optLen_ok hl] at hsum
  rw [optLen_ok h2]
  simp only [List.length_nil] at hsum
  omega

/-- With a maximum packet size that fits the header's length field, the packet is made. -/
theorem dataPacket_succeeds {i : SchemaImpl} {o : ChunkOptions} {size id : Nat} (h : i.payloadSize o = .ok size)
    (hmax : o.maxPacketSize ≤ 0xFFFF) (hid : id ≤ MAX_CHUNK_ID) (next payload : Bytes) (hp : payload.length ≤ size) :
    ∃ nm p hv, i.getName (some (id : Int)) = .ok nm ∧
      SchemaImpl.dataPacket o nm payload (i.finalId id next) = .ok p ∧ ∀ sha, p.hash sha = .ok (.sha256 (sha hv)) := by
  obtain ⟨nm, l, le, h1, h2, h3, h4⟩ := dataLen_le h hid next payload hp
  obtain ⟨t, ht⟩ := dataBody_tlv_of (payload := payload) (fcid := i.finalId id next) h2 h3 (by unfold dataLen at h4; omega)
  obtain ⟨_, _, ht3⟩ := dataBody_tlv ht
  have hfit : 8 + t.len = dataLen nm payload o.dataExpiry (i.finalId id next) := by unfold dataLen; omega
  have hl : 8 + t.len ≤ 0xFFFF := by omega
  refine ⟨nm, ⟨.contentObject (8 + t.len), dataBody nm payload o.dataExpiry (i.finalId id next), none, none⟩, t.bytes, h1, ?_, ?_⟩
  · unfold SchemaImpl.dataPacket
    rw [createData_eq, construct_ok ht, ok_bind, createContentObject_eq ht, if_pos hl, ok_bind, unsigned_len ht hl, ok_bind,
      if_neg (by omega)]
    rfl
  · intro sha
    unfold Packet.hash Packet.hashInput
    rw [wireOf_of_tlv ht (ContentObject.tlv_ok ht).2]
    simp [optWire]

end Ccnpy
