import Verif.Props.CoreProps

/-!
# Properties C12, C17-C21: fixed headers and packets
-/

namespace Ccnpy

/-! ## C12 -/

/-- C12: a serialized header followed by any bytes reads back, when version is 1 and both lengths are at least 8. -/
theorem C12_header_roundtrip (h : FixedHeader) (w : Bytes) (hw : h.serialize = .ok w) (hv : h.ver = 1)
    (hp : 8 ≤ h.packetLength) (hh : 8 ≤ h.headerLength) (rest : Bytes) :
    FixedHeader.deserialize (w ++ rest) = .ok h ∧ w.length = 8 := by
  refine ⟨FixedHeader.deserialize_serialize hw hv hp hh rest, ?_⟩
  obtain ⟨_, _, _, _, rfl⟩ := FixedHeader.serialize_ok hw
  rfl

/-- C12: a header has a wire form exactly if its fields are in range. -/
theorem C12_header_serializes (h : FixedHeader) :
    (∃ w, h.serialize = .ok w) ↔ h.ver ≤ 255 ∧ h.packetType ≤ 255 ∧ h.packetLength ≤ 65535 ∧ h.headerLength ≤ 255 := by
  constructor
  · rintro ⟨w, hw⟩
    obtain ⟨h1, h2, h3, h4, _⟩ := FixedHeader.serialize_ok hw
    exact ⟨h1, h2, h3, h4⟩
  · rintro ⟨h1, h2, h3, h4⟩
    simp only [FixedHeader.serialize, packB, packH, if_pos h1, if_pos h2, if_pos h3, if_pos h4, ok_bind, pure_eq_ok]
    exact ⟨_, rfl⟩

/-- C12: whatever is accepted has at least 8 bytes, version 1 and both lengths at least 8, and the header read is
exactly what the first 8 bytes say. -/
theorem C12_header_accepts_only (buf : Bytes) (h : FixedHeader) (hd : FixedHeader.deserialize buf = .ok h) :
    8 ≤ buf.length ∧ buf[0]? = some 1 ∧ h.ver = 1 ∧ 8 ≤ h.packetLength ∧ 8 ≤ h.headerLength ∧
      h.serialize = .ok (buf.take 8) := by
  unfold FixedHeader.deserialize at hd
  split at hd
  · rename_i b0 b1 b2 b3 b4 b5 b6 b7 tl
    simp only at hd
    split at hd
    · cases hd
    split at hd
    · cases hd
    split at hd
    · cases hd
    rename_i h1 h2 h3
    cases hd
    have hb0 : b0 = 1 := by
      apply UInt8.toNat_inj.mp; simpa using h1
    refine ⟨by simp, by simp [hb0], by simpa using h1, by simpa using h2, by simpa using h3, ?_⟩
    have l1 := b1.toNat_lt
    have l2 := b2.toNat_lt
    have l3 := b3.toNat_lt
    have l7 := b7.toNat_lt
    have e0 : packB b0.toNat = .ok [b0] := by simp [packB, hb0]
    have e1 : packB b1.toNat = .ok [b1] := by rw [packB, if_pos (by omega)]; simp
    have e7 : packB b7.toNat = .ok [b7] := by rw [packB, if_pos (by omega)]; simp
    have e2 : packH (b2.toNat * 256 + b3.toNat) = .ok [b2, b3] := by
      rw [packH, if_pos (by omega)]
      have x : (b2.toNat * 256 + b3.toNat) / 256 = b2.toNat := by omega
      have y : (b2.toNat * 256 + b3.toNat) % 256 = b3.toNat := by omega
      rw [x, y]; simp
    simp [FixedHeader.serialize, e0, e1, e2, e7]
  · cases hd

/-- C12: rejection in the reader's terms. -/
theorem C12_header_rejects (buf : Bytes) :
    (buf.length < 8 → FixedHeader.deserialize buf = .error .runtimeError) ∧
    (∀ b0 b1 b2 b3 b4 b5 b6 b7 tl, buf = b0 :: b1 :: b2 :: b3 :: b4 :: b5 :: b6 :: b7 :: tl →
      (b0 ≠ 1 ∨ b2.toNat * 256 + b3.toNat < 8 ∨ b7 < 8) → FixedHeader.deserialize buf = .error .valueError) := by
  constructor
  · intro h
    unfold FixedHeader.deserialize
    split
    · simp at h; omega
    · rfl
  · rintro b0 b1 b2 b3 b4 b5 b6 b7 tl rfl h
    have hb0 : b0.toNat = 1 ↔ b0 = 1 := UInt8.toNat_inj (b := 1)
    have hb7 : b7 < 8 ↔ b7.toNat < 8 := UInt8.lt_iff_toNat_lt
    simp only [FixedHeader.deserialize]
    split
    · rfl
    split
    · rfl
    split
    · rfl
    rename_i h1 h2 h3
    rw [hb7, ne_eq, ← hb0] at h
    exfalso
    rcases h with h | h | h
    · exact h1 h
    · exact h2 h
    · exact h3 h

example : FixedHeader.deserialize [1, 1, 0, 20, 0, 0, 0, 8, 99] =
    .ok { packetType := 1, packetLength := 20 } := by decide

/-! ## C17 -/

/-- Expiry and signature times used are whole seconds below 2^40 and chunk numbers are below 2^64. -/
def Packet.WholeSeconds (p : Packet) : Prop :=
  (∀ e, p.body.expiryTime = some e → ∃ n, n < 2 ^ 40 ∧ e = F64.ofNat n) ∧
  (∀ n, p.body.finalChunkId = some n → n < 2 ^ 64) ∧
  (∀ k l s, p.alg = some (.rsaSha256 k l s) → ∃ n, n < 2 ^ 40 ∧ s = F64.ofNat n)

theorem Packet.created {p : Packet} (h : (∃ b, Packet.createContentObject b = .ok p) ∨
    (∃ b a v, Packet.createSigned b a v = .ok p)) :
    p.alg.isSome = p.payload.isSome ∧ p.header.ver = 1 ∧ p.header.packetType = 1 ∧ p.header.headerLength = 8 ∧
    ∃ w, p.serialize = .ok w ∧ p.header.packetLength = w.length := by
  rcases h with ⟨b, h⟩ | ⟨b, a, v, h⟩
  · obtain ⟨tb, htb, h⟩ := bind_eq_ok.mp h
    simp only [mkPacket, Option.isSome_none, ne_eq, not_true, if_false] at h
    obtain ⟨w, hw, h⟩ := bind_eq_ok.mp h
    cases h
    refine ⟨rfl, rfl, rfl, rfl, w, hw, ?_⟩
    obtain ⟨hb, tb', la, lp, h1, h2, h3, h4, h5, h6, h7, rfl, _⟩ := Packet.serialize_ok hw
    obtain ⟨_, _, _, _, rfl⟩ := FixedHeader.serialize_ok h1
    rw [htb] at h2
    cases h2; cases h4; cases h6
    simp [FixedHeader.contentObject]
    omega
  · obtain ⟨tb, htb, h⟩ := bind_eq_ok.mp h
    obtain ⟨ta, hta, h⟩ := bind_eq_ok.mp h
    obtain ⟨tv, htv, h⟩ := bind_eq_ok.mp h
    simp only [mkPacket, Option.isSome_some, ne_eq, not_true, if_false] at h
    obtain ⟨w, hw, h⟩ := bind_eq_ok.mp h
    cases h
    refine ⟨rfl, rfl, rfl, rfl, w, hw, ?_⟩
    obtain ⟨hb, tb', la, lp, h1, h2, h3, h4, h5, h6, h7, rfl, _⟩ := Packet.serialize_ok hw
    obtain ⟨_, _, _, _, rfl⟩ := FixedHeader.serialize_ok h1
    obtain ⟨ta', hta', rfl⟩ := optTlv_some h4
    obtain ⟨tv', htv', rfl⟩ := optTlv_some h6
    simp only at hta' htv' h2
    rw [htb] at h2
    rw [hta] at hta'
    rw [htv] at htv'
    cases h2; cases hta'; cases htv'
    simp [FixedHeader.contentObject]
    omega

theorem Packet.stable_of_whole {p : Packet} (h : p.WholeSeconds) : p.body.Stable := by
  refine ⟨h.2.1, fun e he => ?_⟩
  obtain ⟨n, hn, rfl⟩ := h.1 e he
  exact stable_whole n (by omega)

theorem Packet.readable_of_whole {p : Packet} (h : p.WholeSeconds)
    (hk : ∀ k l s, p.alg = some (.rsaSha256 k l s) → l = none) : ∀ a, p.alg = some a → a.Readable := by
  intro a ha
  cases a with
  | crc32c => trivial
  | rsaSha256 k l s =>
    obtain ⟨n, hn, rfl⟩ := h.2.2 k l s ha
    exact ⟨hk k l _ ha, stable_whole n (by omega)⟩

/-- C17: a packet made by `create_content_object` or `create_signed_content_object` (RSA without a key link) reads back
from its bytes with the same header, body fields, validation sections and content object hash. -/
theorem C17_packet_roundtrip (now : F64) (p : Packet)
    (hp : (∃ b, Packet.createContentObject b = .ok p) ∨ (∃ b a v, Packet.createSigned b a v = .ok p))
    (hs : p.WholeSeconds) (hk : ∀ k l s, p.alg = some (.rsaSha256 k l s) → l = none) (w : Bytes)
    (hw : p.serialize = .ok w) :
    ∃ p', Packet.deserialize now w = .ok p' ∧ p'.header = p.header ∧ p'.alg = p.alg ∧ p'.payload = p.payload ∧
      p'.body.name.map Name.view = p.body.name.map Name.view ∧ p'.body.payloadType = p.body.payloadType ∧
      p'.body.payload = p.body.payload ∧ p'.body.expiryTime = p.body.expiryTime ∧
      p'.body.finalChunkId = p.body.finalChunkId ∧ p'.serialize = .ok w ∧
      ∀ sha : Bytes → Bytes, p'.hash sha = p.hash sha := by
  obtain ⟨h1, h2, _, h3, w', hw', h4⟩ := Packet.created hp
  rw [hw] at hw'
  cases hw'
  have hlen : 8 ≤ w.length := by
    obtain ⟨hb, tb', la, lp, h1, _, _, _, _, _, _, rfl, _⟩ := Packet.serialize_ok hw
    obtain ⟨_, _, _, _, rfl⟩ := FixedHeader.serialize_ok h1
    simp
  refine ⟨p.toBytes, packet_RT now hw h1 h2 (by omega) h3 (Packet.stable_of_whole hs) (Packet.readable_of_whole hs hk),
    rfl, rfl, rfl, ?_, rfl, rfl, rfl, rfl, by rw [Packet.serialize_toBytes, hw], ?_⟩
  · cases hn : p.body.name <;> simp [Packet.toBytes, ContentObject.toBytes, hn, Name.view_toBytes]
  · intro sha
    simp [Packet.hash, Packet.hashInput_toBytes]

theorem rsa_keylink_unparseable (now : F64) (k : HashValue) (l : Link) (s : F64) (t : Tlv)
    (h : ValidationAlg.tlv (.rsaSha256 k (some l) s) = .ok t) :
    ValidationAlg.parse now t = .error .runtimeError := by
  obtain ⟨x, hx, h⟩ := bind_eq_ok.mp h
  obtain ⟨y, hy, h⟩ := bind_eq_ok.mp h
  obtain ⟨z, hz, h⟩ := bind_eq_ok.mp h
  obtain ⟨u, hu, h⟩ := bind_eq_ok.mp h
  obtain ⟨hvu, rfl, hv⟩ := container_ok h
  obtain ⟨hvi, rfl, hvt⟩ := container_ok hu
  obtain ⟨y', hy', rfl⟩ := optTlv_some hy
  obtain ⟨wl, hwl, rfl, _⟩ := linkTlv_ok hy'
  rw [ValidationAlg.parse, if_neg (by simp)]
  have := Tlv.deserialize_bytes _ (hvu _ (List.mem_singleton.mpr rfl)) []
  rw [bytesAll_cons, bytesAll_nil]
  simp only [this, ok_bind]
  rw [if_pos True.intro, ValidationAlg.rsaParse, if_neg (by simp)]
  simp only [tlvLoop_bytesAll _ _ hvi]
  obtain ⟨hxt, _, hxp⟩ := hash_RT (ty := T_KEYID) k x hx
  have e1 : ValidationAlg.rsaStep (none, none) x = .ok (some k, none) := by
    simp [ValidationAlg.rsaStep, hxt, hxp]
  have e2 : ValidationAlg.rsaStep (some k, none) ⟨T_KEYLINK, wl⟩ = .error .runtimeError := by
    simp [ValidationAlg.rsaStep, T_KEYLINK, T_KEYID, T_SIGTIME, T_PUBLICKEY]
  simp only [List.cons_append, List.nil_append, List.foldlM_cons, e1, e2, ok_bind, error_bind]

/-- C17, where the code falls short: an RSA-signed packet that carries a key link can be made and serialized, but its
bytes are never accepted by `deserialize`. -/
theorem C17_keylink_packet_unreadable (now : F64) (b : ContentObject) (k : HashValue) (l : Link) (s : F64) (v : Bytes)
    (p : Packet) (hp : Packet.createSigned b (.rsaSha256 k (some l) s) v = .ok p) (w : Bytes) (hw : p.serialize = .ok w) :
    ∃ e, Packet.deserialize now w = .error e := by
  have hcr := Packet.created (.inr ⟨b, _, v, hp⟩)
  obtain ⟨h1, h2, _, h3, w', hw', h4⟩ := hcr
  rw [hw] at hw'
  cases hw'
  have halg : p.alg = some (.rsaSha256 k (some l) s) := by
    obtain ⟨tb, htb, hp⟩ := bind_eq_ok.mp hp
    obtain ⟨ta, hta, hp⟩ := bind_eq_ok.mp hp
    obtain ⟨tv, htv, hp⟩ := bind_eq_ok.mp hp
    simp only [mkPacket, Option.isSome_some, ne_eq, not_true, if_false] at hp
    obtain ⟨w, hw, hp⟩ := bind_eq_ok.mp hp
    cases hp; rfl
  obtain ⟨hb, tb, la, lp, hhb, htb, hvb, hla, hva, hlp, hvp, rfl, _⟩ := Packet.serialize_ok hw
  rw [halg] at hla
  obtain ⟨ta, hta, rfl⟩ := optTlv_some hla
  obtain ⟨hlen, -⟩ : hb.length = 8 ∧ True := by
    obtain ⟨_, _, _, _, rfl⟩ := FixedHeader.serialize_ok hhb; simp
  have hpl : 8 ≤ p.header.packetLength := by rw [h4, List.length_append]; omega
  have hd := FixedHeader.deserialize_serialize hhb h2 hpl (by omega) (bytesAll ([tb] ++ [ta] ++ lp))
  cases hc : Packet.deserialize now (hb ++ bytesAll ([tb] ++ [ta] ++ lp)) with
  | error e => exact ⟨e, rfl⟩
  | ok p' =>
    exfalso
    rw [Packet.deserialize, hd] at hc
    simp only [ok_bind] at hc
    rw [h3, ← hlen, List.drop_left] at hc
    obtain ⟨st, hst, _⟩ := bind_eq_ok.mp hc
    rw [tlvLoop_bytesAll _ _ (by
      intro t ht
      simp only [List.mem_append, List.mem_singleton] at ht
      rcases ht with (rfl | rfl) | ht
      · exact hvb
      · exact hva _ (by simp)
      · exact hvp t ht)] at hst
    rw [List.foldlM_append, List.foldlM_append] at hst
    obtain ⟨s1, hs1, hst⟩ := bind_eq_ok.mp hst
    obtain ⟨s0, hs0, hs1⟩ := bind_eq_ok.mp hs1
    rw [List.foldlM_cons] at hs1
    obtain ⟨s2, hs2, _⟩ := bind_eq_ok.mp hs1
    have hty := (ValidationAlg.tlv_ok hta).1
    have hpe := rsa_keylink_unparseable now k l s ta hta
    unfold Packet.parseStep at hs2
    rw [if_neg (by rw [hty]; decide), if_neg (by rw [hty]; decide), if_pos hty] at hs2
    obtain ⟨_, _, hs2⟩ := bind_eq_ok.mp hs2
    rw [hpe] at hs2
    cases hs2

/-- A named, CRC-protected example packet. -/
def examplePacket : Packet :=
  { header := { packetType := 1, packetLength := 49 },
    body := { name := some ⟨[⟨1, [97], false⟩]⟩, payloadType := some 0, payload := some [1, 2, 3] },
    alg := some .crc32c, payload := some [1, 2, 3, 4] }

example : Packet.createSigned examplePacket.body .crc32c [1, 2, 3, 4] = .ok examplePacket := by decide +kernel
example : examplePacket.WholeSeconds := ⟨nofun, nofun, nofun⟩
example : Packet.deserialize ⟨0, 1⟩ ((examplePacket.serialize).toOption.getD []) = .ok examplePacket := by decide +kernel

/-! ## C18 -/

/-- C18: the packet length in the header is the number of bytes of the packet, and it fits 16 bits. -/
theorem C18_packet_length (p : Packet)
    (hp : (∃ b, Packet.createContentObject b = .ok p) ∨ (∃ b a v, Packet.createSigned b a v = .ok p)) :
    ∃ w, p.serialize = .ok w ∧ p.header.packetLength = w.length ∧ p.len = .ok w.length ∧ w.length ≤ 0xFFFF := by
  obtain ⟨_, _, _, _, w, hw, h4⟩ := Packet.created hp
  refine ⟨w, hw, h4, by simp [Packet.len, hw], ?_⟩
  obtain ⟨hb, tb', la, lp, h1, _, _, _, _, _, _, rfl, _⟩ := Packet.serialize_ok hw
  obtain ⟨_, _, h, _, _⟩ := FixedHeader.serialize_ok h1
  omega

/-- C18: creation raises exactly when a section cannot be made or the total length does not fit 16 bits. -/
theorem C18_too_long_raises (b : ContentObject) (a : ValidationAlg) (v : Bytes) (tb ta tv : Tlv)
    (htb : b.tlv = .ok tb) (hta : a.tlv = .ok ta) (htv : valPayloadTlv v = .ok tv) :
    ((∃ p, Packet.createContentObject b = .ok p) ↔ 8 + tb.len ≤ 0xFFFF) ∧
    ((∃ p, Packet.createSigned b a v = .ok p) ↔ 8 + tb.len + ta.len + tv.len ≤ 0xFFFF) := by
  obtain ⟨_, hvb⟩ := ContentObject.tlv_ok htb
  obtain ⟨_, hva⟩ := ValidationAlg.tlv_ok hta
  obtain ⟨_, hvv⟩ := mkTlv_ok htv
  have wb := wireOf_of_tlv htb hvb
  have wa := wireOf_of_tlv hta hva
  have wv := wireOf_of_tlv htv hvv
  constructor
  · simp only [Packet.createContentObject, htb, ok_bind, mkPacket, Option.isSome_none, ne_eq, not_true, if_false,
      Packet.serialize, FixedHeader.serialize, FixedHeader.contentObject, wb, optWire]
    by_cases hl : 8 + tb.len ≤ 0xFFFF <;> simp [packB, packH, hl, PT_CONTENT]
  · simp only [Packet.createSigned, htb, hta, htv, ok_bind, mkPacket, Option.isSome_some, ne_eq, not_true, if_false,
      Packet.serialize, FixedHeader.serialize, FixedHeader.contentObject, wb, wa, wv, optWire]
    by_cases hl : 8 + tb.len + ta.len + tv.len ≤ 0xFFFF <;> simp [packB, packH, hl, PT_CONTENT]

/-! ## C19 -/

/-- C19: two packets feed the same bytes to the hash function iff body, validation algorithm and validation payload
have the same bytes. -/
theorem C19_hash_covers_exactly (p q : Packet) (wp wq : Bytes) (hp : p.serialize = .ok wp) (hq : q.serialize = .ok wq) :
    p.hashInput = q.hashInput ↔
      wireOf ContentObject.tlv p.body = wireOf ContentObject.tlv q.body ∧
      optWire ValidationAlg.tlv p.alg = optWire ValidationAlg.tlv q.alg ∧
      optWire valPayloadTlv p.payload = optWire valPayloadTlv q.payload := by
  constructor
  · intro h
    obtain ⟨_, tb, la, lp, _, b1, b2, a1, a2, v1, v2, _, e1⟩ := Packet.serialize_ok hp
    obtain ⟨_, tb', la', lp', _, b1', b2', a1', a2', v1', v2', _, e2⟩ := Packet.serialize_ok hq
    rw [e1, e2] at h
    have h := Except.ok.inj h
    have hval : ∀ (tb : Tlv) (la lp : List Tlv), tb.Valid → (∀ t ∈ la, t.Valid) → (∀ t ∈ lp, t.Valid) →
        ∀ t ∈ [tb] ++ la ++ lp, t.Valid := by
      intro tb la lp h1 h2 h3 t ht
      simp only [List.mem_append, List.mem_singleton] at ht
      rcases ht with (rfl | ht) | ht
      · exact h1
      · exact h2 t ht
      · exact h3 t ht
    have hl := bytesAll_inj (hval tb la lp b2 a2 v2) (hval tb' la' lp' b2' a2' v2') h
    simp only [List.nil_append, List.cons_append, List.cons.injEq] at hl
    obtain ⟨rfl, hl⟩ := hl
    have ta : ∀ {o : Option ValidationAlg} {l : List Tlv}, optTlv ValidationAlg.tlv o = .ok l →
        l.filter (fun t => t.type == T_VALIDATION_ALG) = l := by
      intro o l h
      cases o with
      | none => cases h; rfl
      | some a =>
        obtain ⟨t, ht, rfl⟩ := optTlv_some h
        simp [(ValidationAlg.tlv_ok ht).1]
    have tv : ∀ {o : Option Bytes} {l : List Tlv}, optTlv valPayloadTlv o = .ok l →
        l.filter (fun t => t.type == T_VALIDATION_ALG) = [] := by
      intro o l h
      cases o with
      | none => cases h; rfl
      | some a =>
        obtain ⟨t, ht, rfl⟩ := optTlv_some h
        obtain ⟨rfl, _⟩ := mkTlv_ok ht
        simp [T_VALIDATION_PAYLOAD, T_VALIDATION_ALG]
    have hf := congrArg (List.filter (fun t => t.type == T_VALIDATION_ALG)) hl
    rw [List.filter_append, List.filter_append, ta a1, ta a1', tv v1, tv v1', List.append_nil, List.append_nil] at hf
    subst hf
    have hlp := List.append_cancel_left hl
    subst hlp
    have ow : ∀ {α : Type} {f : α → Py Tlv} {o o' : Option α} {l : List Tlv}, optTlv f o = .ok l → optTlv f o' = .ok l →
        optWire f o = optWire f o' := by
      intro α f o o' l h h'
      cases o <;> cases o'
      · rfl
      · cases h; obtain ⟨_, _, h'⟩ := optTlv_some h'; cases h'
      · cases h'; obtain ⟨_, _, h⟩ := optTlv_some h; cases h
      · obtain ⟨t, ht, rfl⟩ := optTlv_some h
        obtain ⟨t', ht', e⟩ := optTlv_some h'
        cases e
        simp [optWire, wireOf, ht, ht']
    exact ⟨by simp [wireOf, b1, b1'], ow a1 a1', ow v1 v1'⟩
  · rintro ⟨h1, h2, h3⟩
    simp [Packet.hashInput, h1, h2, h3]

/-- C19: the fixed header does not influence the hash. -/
theorem C19_header_not_hashed (p : Packet) (h : FixedHeader) (sha : Bytes → Bytes) :
    ({ p with header := h } : Packet).hash sha = p.hash sha := rfl

example : (examplePacket.hashInput).toOption.isSome = true := by decide +kernel

/-! ## C20 -/

/-- The types of the TLVs read so far determine which locals are set. -/
structure PacketInv (seen : List Nat) (s : PacketState) : Prop where
  known : ∀ t ∈ seen, t ∈ [1, 2, 3, 4]
  body : seen.count 2 = s.body.toList.length
  alg : seen.count 3 = s.alg.toList.length
  payload : seen.count 4 = s.payload.toList.length
  after : ∀ pre post, seen = pre ++ 4 :: post → 3 ∈ pre
  interest : ∀ pre post, seen = pre ++ 1 :: post → 2 ∉ pre

theorem snoc_split {α : Type} {l pre post : List α} {a x : α} (h : l ++ [a] = pre ++ x :: post) :
    (∃ post', l = pre ++ x :: post') ∨ (l = pre ∧ a = x) := by
  rcases List.eq_nil_or_concat post with rfl | ⟨post', b, rfl⟩
  · obtain ⟨rfl, h⟩ := List.append_inj' h rfl
    simp at h
    exact .inr ⟨rfl, h⟩
  · left
    rw [List.concat_eq_append, ← List.cons_append, ← List.append_assoc] at h
    obtain ⟨rfl, _⟩ := List.append_inj' h rfl
    exact ⟨post', rfl⟩

theorem PacketInv.step (now : F64) {seen : List Nat} {s s' : PacketState} {t : Tlv} (hi : PacketInv seen s)
    (h : Packet.parseStep now s t = .ok s') : PacketInv (seen ++ [t.type]) s' := by
  unfold Packet.parseStep at h
  split at h
  · rename_i hty
    obtain ⟨u, hu, h⟩ := bind_eq_ok.mp h
    obtain ⟨v, hv, h⟩ := bind_eq_ok.mp h
    have hu := pyAssert_ok hu
    rw [Option.isNone_iff_eq_none] at hu
    cases h
    rw [hty, T_OBJECT]
    refine ⟨?_, ?_, ?_, ?_, ?_, ?_⟩
    · intro x hx
      rcases List.mem_append.mp hx with hx | hx
      · exact hi.known x hx
      · simp_all
    · simp [List.count_append, hi.body, hu]
    · simp [List.count_append, hi.alg]
    · simp [List.count_append, hi.payload]
    · intro pre post h
      rcases snoc_split h with ⟨p', h⟩ | ⟨heq, h⟩
      · exact hi.after _ _ h
      · exact absurd h (by decide)
    · intro pre post h
      rcases snoc_split h with ⟨p', h⟩ | ⟨heq, h⟩
      · exact hi.interest _ _ h
      · exact absurd h (by decide)
  split at h
  · rename_i hty
    obtain ⟨u, hu, h⟩ := bind_eq_ok.mp h
    have hu := pyAssert_ok hu
    rw [Option.isNone_iff_eq_none] at hu
    cases h
    rw [hty, T_INTEREST]
    refine ⟨?_, ?_, ?_, ?_, ?_, ?_⟩
    · intro x hx
      rcases List.mem_append.mp hx with hx | hx
      · exact hi.known x hx
      · simp_all
    · simp [List.count_append, hi.body]
    · simp [List.count_append, hi.alg]
    · simp [List.count_append, hi.payload]
    · intro pre post h
      rcases snoc_split h with ⟨p', h⟩ | ⟨heq, h⟩
      · exact hi.after _ _ h
      · exact absurd h (by decide)
    · intro pre post h
      rcases snoc_split h with ⟨p', h⟩ | ⟨heq, h⟩
      · exact hi.interest _ _ h
      · have := hi.body
        rw [hu] at this
        rw [← heq]
        exact List.count_eq_zero.mp this
  split at h
  · rename_i hty
    obtain ⟨u, hu, h⟩ := bind_eq_ok.mp h
    obtain ⟨v, hv, h⟩ := bind_eq_ok.mp h
    have hu := pyAssert_ok hu
    rw [Option.isNone_iff_eq_none] at hu
    cases h
    rw [hty, T_VALIDATION_ALG]
    refine ⟨?_, ?_, ?_, ?_, ?_, ?_⟩
    · intro x hx
      rcases List.mem_append.mp hx with hx | hx
      · exact hi.known x hx
      · simp_all
    · simp [List.count_append, hi.body]
    · simp [List.count_append, hi.alg, hu]
    · simp [List.count_append, hi.payload]
    · intro pre post h
      rcases snoc_split h with ⟨p', h⟩ | ⟨heq, h⟩
      · exact hi.after _ _ h
      · exact absurd h (by decide)
    · intro pre post h
      rcases snoc_split h with ⟨p', h⟩ | ⟨heq, h⟩
      · exact hi.interest _ _ h
      · exact absurd h (by decide)
  split at h
  · rename_i hty
    obtain ⟨w, hw, h⟩ := bind_eq_ok.mp h
    obtain ⟨u, hu, h⟩ := bind_eq_ok.mp h
    obtain ⟨v, hv, h⟩ := bind_eq_ok.mp h
    have hu := pyAssert_ok hu
    have hw := pyAssert_ok hw
    rw [Option.isNone_iff_eq_none] at hu
    cases h
    rw [hty, T_VALIDATION_PAYLOAD]
    refine ⟨?_, ?_, ?_, ?_, ?_, ?_⟩
    · intro x hx
      rcases List.mem_append.mp hx with hx | hx
      · exact hi.known x hx
      · simp_all
    · simp [List.count_append, hi.body]
    · simp [List.count_append, hi.alg]
    · simp [List.count_append, hi.payload, hu]
    · intro pre post h
      rcases snoc_split h with ⟨p', h⟩ | ⟨heq, h⟩
      · exact hi.after _ _ h
      · obtain ⟨a, ha⟩ := Option.isSome_iff_exists.mp hw
        have := hi.alg
        rw [ha] at this
        rw [← heq]
        exact List.count_pos_iff.mp (by rw [this]; simp)
    · intro pre post h
      rcases snoc_split h with ⟨p', h⟩ | ⟨heq, h⟩
      · exact hi.interest _ _ h
      · exact absurd h (by decide)
  · cases h

theorem PacketInv.fold (now : F64) {l : List Tlv} {seen : List Nat} {s s' : PacketState} (hi : PacketInv seen s)
    (h : l.foldlM (Packet.parseStep now) s = .ok s') : PacketInv (seen ++ l.map Tlv.type) s' := by
  induction l generalizing seen s with
  | nil => simp at h; subst h; simpa using hi
  | cons t l ih =>
    rw [List.foldlM_cons] at h
    obtain ⟨s1, h1, h⟩ := bind_eq_ok.mp h
    have := ih (hi.step now h1) h
    simpa using this

/-- C20: the shape of every accepted packet. -/
theorem C20_packet_structure (now : F64) (buf : Bytes) (p : Packet) (h : Packet.deserialize now buf = .ok p) :
    p.header.ver = 1 ∧ 8 ≤ p.header.headerLength ∧ p.header.headerLength < buf.length ∧
    p.alg.isSome = p.payload.isSome ∧
    ∃ l : List Tlv, (∀ t ∈ l, t.Valid) ∧ buf.drop p.header.headerLength = bytesAll l ∧
      (∀ t ∈ l, t.type ∈ [1, 2, 3, 4]) ∧
      (l.map Tlv.type).count 2 = 1 ∧
      (l.map Tlv.type).count 3 ≤ 1 ∧ (l.map Tlv.type).count 4 = (l.map Tlv.type).count 3 ∧
      (∀ pre post, l.map Tlv.type = pre ++ 4 :: post → 3 ∈ pre) ∧
      (∀ pre post, l.map Tlv.type = pre ++ 1 :: post → 2 ∉ pre) := by
  obtain ⟨hd, hhd, h⟩ := bind_eq_ok.mp h
  obtain ⟨s, hs, h⟩ := bind_eq_ok.mp h
  obtain ⟨l, hl, hb, hf⟩ := tlvLoop_inv _ _ _ _ hs
  cases hbody : s.body with
  | none => rw [hbody] at h; cases h
  | some body =>
    rw [hbody] at h
    simp only [mkPacket] at h
    split at h
    · cases h
    rename_i hsome
    obtain ⟨w, hw, h⟩ := bind_eq_ok.mp h
    cases h
    obtain ⟨_, _, hv, _, hh, _⟩ := C12_header_accepts_only _ _ hhd
    have inv0 : PacketInv [] {} := by
      refine ⟨by simp, rfl, rfl, rfl, ?_, ?_⟩ <;> intro pre post h <;> simp at h
    have inv := PacketInv.fold now inv0 hf
    rw [List.nil_append] at inv
    have hsome' : s.alg.isSome = s.payload.isSome := by simpa using hsome
    have hcb : (l.map Tlv.type).count 2 = 1 := by rw [inv.body, hbody]; rfl
    have hlne : l ≠ [] := by rintro rfl; simp at hcb
    have hlen : hd.headerLength < buf.length := by
      apply Nat.lt_of_not_le
      intro hle
      rw [List.drop_eq_nil_of_le hle] at hb
      cases l with
      | nil => exact hlne rfl
      | cons t l =>
        have := congrArg List.length hb
        simp [Tlv.len] at this
        omega
    refine ⟨hv, hh, hlen, hsome', l, hl, hb, ?_, hcb, ?_, ?_, inv.after, inv.interest⟩
    · intro t ht
      exact inv.known _ (List.mem_map_of_mem ht)
    · rw [inv.alg]; cases s.alg <;> simp
    · rw [inv.alg, inv.payload]
      cases ha : s.alg <;> cases hp : s.payload <;> simp [ha, hp] at hsome' ⊢

/-- C20: the packet length field is not compared with the buffer: any value of at least 8 is accepted. -/
theorem C20_packet_length_unchecked (now : F64) (p : Packet)
    (hp : (∃ b, Packet.createContentObject b = .ok p) ∨ (∃ b a v, Packet.createSigned b a v = .ok p))
    (hs : p.WholeSeconds) (hk : ∀ k l s, p.alg = some (.rsaSha256 k l s) → l = none)
    (n : Nat) (hn : 8 ≤ n) (hn' : n ≤ 0xFFFF) :
    ∃ w, ({ p with header := { p.header with packetLength := n } } : Packet).serialize = .ok w ∧
      ∃ p', Packet.deserialize now w = .ok p' ∧ p'.header.packetLength = n ∧
        ∀ sha : Bytes → Bytes, p'.hash sha = p.hash sha := by
  obtain ⟨h1, h2, h3', h3, w, hw, h4⟩ := Packet.created hp
  obtain ⟨hb, tb, la, lp, hhb, htb, hvb, hla, hva, hlp, hvp, rfl, hin⟩ := Packet.serialize_ok hw
  obtain ⟨a1, a2, _, a4, _⟩ := FixedHeader.serialize_ok hhb
  have hh : ({ p.header with packetLength := n } : FixedHeader).serialize =
      .ok [UInt8.ofNat p.header.ver, UInt8.ofNat p.header.packetType, UInt8.ofNat (n / 256), UInt8.ofNat (n % 256),
           p.header.f0, p.header.f1, p.header.f2, UInt8.ofNat p.header.headerLength] := by
    simp [FixedHeader.serialize, packB, packH, a1, a2, a4, hn']
  have hser : ∃ w, ({ p with header := { p.header with packetLength := n } } : Packet).serialize = .ok w := by
    obtain ⟨x0, hx0, hw⟩ := bind_eq_ok.mp hw
    obtain ⟨x1, hx1, hw⟩ := bind_eq_ok.mp hw
    obtain ⟨x2, hx2, hw⟩ := bind_eq_ok.mp hw
    obtain ⟨x3, hx3, hw⟩ := bind_eq_ok.mp hw
    simp only [Packet.serialize, hh, hx1, hx2, hx3, ok_bind, pure_eq_ok]
    exact ⟨_, rfl⟩
  obtain ⟨w', hw'⟩ := hser
  refine ⟨w', hw', _, packet_RT now hw' h1 h2 hn h3 (Packet.stable_of_whole hs) (Packet.readable_of_whole hs hk), rfl, ?_⟩
  intro sha
  simp only [Packet.hash, Packet.hashInput_toBytes]
  rfl

/-- C20: an Interest TLV in front of the body is silently dropped. -/
theorem C20_interest_tlv_ignored (now : F64) :
    ∃ p, Packet.deserialize now ([1, 1, 0, 8, 0, 0, 0, 8] ++ [0, 1, 0, 0] ++ [0, 2, 0, 5, 0, 1, 0, 1, 7]) = .ok p ∧
      p.body.payload = some [7] := by
  refine ⟨⟨{ packetType := 1, packetLength := 8 }, { payload := some [7] }, none, none⟩, ?_, rfl⟩
  rfl

/-- C20: Interest TLVs in front are silently dropped: whatever follows, a buffer with any number of them directly after the header
is read as the one without them, with the same result or exception. -/
theorem C20_interests_ignored (now : F64) (b0 b1 b2 b3 b4 b5 b6 b7 : UInt8) (more : Bytes) (hl : b7.toNat = 8 + more.length)
    (vs : List Bytes) (hv : ∀ v ∈ vs, v.length ≤ 0xFFFF) (rest : Bytes) :
    Packet.deserialize now ([b0, b1, b2, b3, b4, b5, b6, b7] ++ more ++
        vs.flatMap (fun v => [0, 1] ++ be16 v.length ++ v) ++ rest) =
      Packet.deserialize now ([b0, b1, b2, b3, b4, b5, b6, b7] ++ more ++ rest) := by
  have hd : ∀ x : Bytes, FixedHeader.deserialize ([b0, b1, b2, b3, b4, b5, b6, b7] ++ more ++ x) =
      FixedHeader.deserialize ([b0, b1, b2, b3, b4, b5, b6, b7] ++ more) := fun x => rfl
  unfold Packet.deserialize
  rw [List.append_assoc ([b0, b1, b2, b3, b4, b5, b6, b7] ++ more), hd, hd]
  cases hh : FixedHeader.deserialize ([b0, b1, b2, b3, b4, b5, b6, b7] ++ more) with
  | error e => rfl
  | ok h =>
    have hlen : h.headerLength = ([b0, b1, b2, b3, b4, b5, b6, b7] ++ more).length := by
      simp only [FixedHeader.deserialize, List.cons_append] at hh
      split at hh
      · cases hh
      split at hh
      · cases hh
      split at hh
      · cases hh
      cases hh
      simp [hl]
      omega
    have loop : tlvLoop (Packet.parseStep now) (vs.flatMap (fun v => [0, 1] ++ be16 v.length ++ v) ++ rest) {} =
        tlvLoop (Packet.parseStep now) rest {} := by
      induction vs with
      | nil => rfl
      | cons v vs ih =>
        have hval : (⟨1, v⟩ : Tlv).Valid := ⟨by show (1 : Nat) ≤ _; decide, hv v (by simp)⟩
        have := tlvLoop_append (Packet.parseStep now) ⟨1, v⟩ hval
          (vs.flatMap (fun v => [0, 1] ++ be16 v.length ++ v) ++ rest) {}
        rw [List.flatMap_cons, List.append_assoc]
        have hb : [0, 1] ++ be16 v.length ++ v = (⟨1, v⟩ : Tlv).bytes := by
          have : be16 1 = [0, 1] := by decide
          simp [Tlv.bytes, Tlv.length, this]
        rw [hb]
        refine Eq.trans this ?_
        show tlvLoop _ _ _ = _
        exact ih (fun v h => hv v (by simp [h]))
    simp only [ok_bind]
    rw [hlen, List.drop_left, List.drop_left, loop]

/-! ## C21 -/

/-- C21: what is accepted as a content object is stable under serialize-and-parse from then on. -/
theorem C21_contentobject_normal_form (buf : Bytes) (c : ContentObject) (h : ofWire ContentObject.parse buf = .ok c)
    (hf : ∀ n, c.finalChunkId = some n → n < 2 ^ 64)
    (he : ∀ e, c.expiryTime = some e → e.milliseconds < 2 ^ 64 ∧ secondsOfMsec e.milliseconds = e) :
    ∃ w, wireOf ContentObject.tlv c = .ok w ∧ ∀ rest, ofWire ContentObject.parse (w ++ rest) = .ok c := by
  obtain ⟨t, ht, h⟩ := bind_eq_ok.mp h
  obtain ⟨_, ⟨u, hu⟩, _⟩ := ContentObject.parse_inv h
  have hw := wireOf_of_tlv hu (ContentObject.tlv_ok hu).2
  refine ⟨_, hw, fun rest => ?_⟩
  have := ofWire_of_RT (contentObject_RT (c := c) ⟨hf, he⟩) hw rest
  rwa [ContentObject.parse_toBytes h] at this

theorem rsaParse_shape {now : F64} {t : Tlv} {a : ValidationAlg} (h : ValidationAlg.parse now t = .ok a) :
    ∀ k l s, a = .rsaSha256 k l s → l = none := by
  intro k l s ha
  subst ha
  unfold ValidationAlg.parse at h
  split at h
  · cases h
  obtain ⟨i, hi, h⟩ := bind_eq_ok.mp h
  split at h
  · unfold ValidationAlg.rsaParse at h
    split at h
    · cases h
    obtain ⟨s', hs, h⟩ := bind_eq_ok.mp h
    split at h
    · cases h
    · obtain ⟨e, _⟩ := construct_inv h
      cases e; rfl
  split at h
  · split at h
    · cases h
    · obtain ⟨e, _⟩ := construct_inv h
      cases e
  · cases h

/-- C21: the same for packets with an 8-byte header. -/
theorem C21_packet_normal_form (now : F64) (buf : Bytes) (p : Packet) (h : Packet.deserialize now buf = .ok p)
    (hh : p.header.headerLength = 8) (hf : ∀ n, p.body.finalChunkId = some n → n < 2 ^ 64)
    (he : ∀ e, p.body.expiryTime = some e → e.milliseconds < 2 ^ 64 ∧ secondsOfMsec e.milliseconds = e)
    (hs : ∀ k l s, p.alg = some (.rsaSha256 k l s) → s.milliseconds < 2 ^ 64 ∧ secondsOfMsec s.milliseconds = s) :
    ∃ w, p.serialize = .ok w ∧ ∀ now', Packet.deserialize now' w = .ok p := by
  obtain ⟨hver, _, _, hpay, _⟩ := C20_packet_structure now buf p h
  obtain ⟨hd, hhd, h⟩ := bind_eq_ok.mp h
  obtain ⟨s, hst, h⟩ := bind_eq_ok.mp h
  obtain ⟨l, hl, hb, hfold⟩ := tlvLoop_inv _ _ _ _ hst
  have inv : (∀ b, s.body = some b → b.toBytes = b) ∧ (∀ k l x, s.alg = some (.rsaSha256 k l x) → l = none) := by
    refine foldlM_inv (fun s : PacketState => (∀ b, s.body = some b → b.toBytes = b) ∧
      (∀ k l x, s.alg = some (.rsaSha256 k l x) → l = none)) ?_ ⟨by simp, by simp⟩ hfold
    intro s t s' hs h
    unfold Packet.parseStep at h
    split at h
    · obtain ⟨u, hu, h⟩ := bind_eq_ok.mp h
      obtain ⟨v, hv, h⟩ := bind_eq_ok.mp h
      cases h
      exact ⟨fun b hb => by cases hb; exact ContentObject.parse_toBytes hv, hs.2⟩
    split at h
    · obtain ⟨u, hu, h⟩ := bind_eq_ok.mp h
      cases h; exact hs
    split at h
    · obtain ⟨u, hu, h⟩ := bind_eq_ok.mp h
      obtain ⟨v, hv, h⟩ := bind_eq_ok.mp h
      cases h
      exact ⟨hs.1, fun k l x e => by cases e; exact rsaParse_shape hv _ _ _ rfl⟩
    split at h
    · obtain ⟨u, hu, h⟩ := bind_eq_ok.mp h
      obtain ⟨u, hu, h⟩ := bind_eq_ok.mp h
      obtain ⟨v, hv, h⟩ := bind_eq_ok.mp h
      cases h
      exact hs
    · cases h
  cases hbody : s.body with
  | none => rw [hbody] at h; cases h
  | some body =>
    rw [hbody] at h
    simp only [mkPacket] at h
    split at h
    · cases h
    obtain ⟨w, hw, h⟩ := bind_eq_ok.mp h
    cases h
    have hpl := (C12_header_accepts_only _ _ hhd).2.2.2.1
    refine ⟨w, hw, fun now' => ?_⟩
    have := packet_RT now' hw hpay hver hpl hh ⟨hf, he⟩ ?_
    · rw [this]
      simp [Packet.toBytes, inv.1 body hbody]
    · intro a ha
      cases a with
      | crc32c => trivial
      | rsaSha256 k l x => exact ⟨inv.2 k l x ha, hs k l x ha⟩

/-- C21, why the header length matters: an accepted packet with a longer header does not re-parse. -/
theorem C21_long_header_not_stable :
    ∃ p w, Packet.deserialize ⟨0, 1⟩ ([1, 1, 0, 21, 0, 0, 0, 12, 9, 9, 9, 9] ++ [0, 2, 0, 5, 0, 1, 0, 1, 7]) = .ok p ∧
      p.serialize = .ok w ∧ Packet.deserialize ⟨0, 1⟩ w = .error .typeError := by
  refine ⟨⟨{ packetType := 1, packetLength := 21, headerLength := 12 }, { payload := some [7] }, none, none⟩,
    [1, 1, 0, 21, 0, 0, 0, 12, 0, 2, 0, 5, 0, 1, 0, 1, 7], ?_, ?_, ?_⟩ <;> decide +kernel

end Ccnpy
