import Verif.Model.Packet
import Verif.Lemmas.Core
import Verif.Lemmas.F64

/-! # Helper lemmas about content objects and packets -/

namespace Ccnpy

theorem f64_no_overflow (n : Nat) (h : n < 2 ^ 64) : ¬ f64Overflow ≤ 2 * n := by
  have : (2 : Nat) ^ 66 ≤ f64Overflow := by
    unfold f64Overflow
    exact Nat.pow_le_pow_right (by decide) (by decide)
  omega

theorem timestampTlv_eq {ty : Nat} (hty : ty ≤ 0xFFFF) {x : F64} (hx : x.milliseconds < 2 ^ 64) :
    timestampTlv ty x = .ok ⟨ty, beBytes 8 x.milliseconds⟩ := by
  have := f64_no_overflow _ hx
  rw [timestampTlv, if_neg (by omega), createUint64_nat ty _ hty]

theorem timestamp_RT {ty : Nat} (hty : ty ≤ 0xFFFF) {x : F64} (hx : x.Stable) :
    RT ty (timestampTlv ty) (timestampParse ty) x x := by
  intro t h
  have h1 := timestampTlv_eq hty hx.1
  rw [h1] at h
  cases h
  refine ⟨rfl, ⟨hty, by simp⟩, ?_⟩
  have hv : Tlv.valueAsNumber ⟨ty, beBytes 8 x.milliseconds⟩ = x.milliseconds := by
    rw [Tlv.valueAsNumber, arrayToNumber_beBytes]
    exact Nat.mod_eq_of_lt hx.1
  rw [timestampParse, if_neg (by simp), hv, if_neg, hx.2]
  · exact construct_ok h1
  · have := f64_no_overflow _ hx.1
    have := fl_toInt_le x.milliseconds
    omega

/-- What parsing the serialization of a content object returns: the same object with name components held as bytes. -/
def ContentObject.toBytes (c : ContentObject) : ContentObject := { c with name := c.name.map Name.toBytes }

theorem ContentObject.members_toBytes (c : ContentObject) : c.toBytes.members = c.members := by
  cases c with
  | mk n p q e f => cases n <;> simp [ContentObject.toBytes, ContentObject.members, optTlv]

theorem ContentObject.tlv_toBytes (c : ContentObject) : c.toBytes.tlv = c.tlv := by
  simp [ContentObject.tlv, ContentObject.members_toBytes]

/-- The integers and times in the object survive encoding. -/
def ContentObject.Stable (c : ContentObject) : Prop :=
  (∀ n, c.finalChunkId = some n → n < 2 ^ 64) ∧ (∀ e, c.expiryTime = some e → e.Stable)

theorem contentObject_RT {c : ContentObject} (hc : c.Stable) :
    RT T_OBJECT ContentObject.tlv ContentObject.parse c c.toBytes := by
  intro t h
  have h0 := h
  obtain ⟨ms, hm, h⟩ := bind_eq_ok.mp h
  obtain ⟨hv, rfl, hvt⟩ := container_ok h
  obtain ⟨a, ha, hm⟩ := bind_eq_ok.mp hm
  obtain ⟨b, hb, hm⟩ := bind_eq_ok.mp hm
  obtain ⟨d, hd, hm⟩ := bind_eq_ok.mp hm
  obtain ⟨e, he, hm⟩ := bind_eq_ok.mp hm
  obtain ⟨f, hf, hm⟩ := bind_eq_ok.mp hm
  cases hm
  refine ⟨rfl, hvt, ?_⟩
  rw [ContentObject.parse, if_neg (by simp)]
  simp only [tlvLoop_bytesAll _ _ hv, List.foldlM_append]
  rw [foldlM_opt (s' := { name := c.name.map Name.toBytes }) ha]
  rotate_left
  · intro hn; simp [hn]
  · intro x t hx ht
    obtain ⟨hty, _, hp⟩ := name_RT x t ht
    simp [ContentObject.parseStep, hty, hp, pyAssert, hx]
  simp only [ok_bind]
  rw [foldlM_opt (s' := { name := c.name.map Name.toBytes, expiryTime := c.expiryTime }) hb]
  rotate_left
  · intro hn; simp [hn]
  · intro x t hx ht
    obtain ⟨hty, _, hp⟩ := timestamp_RT (ty := T_EXPIRY) (by decide) (hc.2 x hx) t ht
    simp only [T_EXPIRY] at hp
    simp [ContentObject.parseStep, hty, hp, pyAssert, hx, T_NAME, T_EXPIRY, T_PAYLDTYPE, T_PAYLOAD]
  simp only [ok_bind]
  rw [foldlM_opt (s' := { name := c.name.map Name.toBytes, expiryTime := c.expiryTime, payloadType := c.payloadType }) hd]
  rotate_left
  · intro hn; simp [hn]
  · intro x t hx ht
    obtain ⟨hty, _, hp⟩ := payloadType_RT x t ht
    simp [ContentObject.parseStep, hty, hp, pyAssert, hx, T_NAME, T_PAYLDTYPE]
  simp only [ok_bind]
  rw [foldlM_opt (s' := { name := c.name.map Name.toBytes, expiryTime := c.expiryTime, payloadType := c.payloadType,
                          payload := c.payload }) he]
  rotate_left
  · intro hn; simp [hn]
  · intro x t hx ht
    obtain ⟨hty, _, hp⟩ := octet_RT (ty := T_PAYLOAD) x t ht
    simp only [T_PAYLOAD] at hp
    simp [ContentObject.parseStep, hty, hp, pyAssert, hx, T_NAME, T_PAYLDTYPE, T_PAYLOAD]
  simp only [ok_bind]
  rw [foldlM_opt (s' := c.toBytes) hf]
  rotate_left
  · intro hn; simp [hn, ContentObject.toBytes]
  · intro x t hx ht
    obtain ⟨hty, _, hp⟩ := finalChunkId_RT (hc.1 x hx) t ht
    simp [ContentObject.parseStep, hty, hp, pyAssert, hx, T_NAME, T_PAYLDTYPE, T_PAYLOAD, T_EXPIRY, T_FINAL_CHUNK_ID,
      ContentObject.toBytes]
  simp only [ok_bind]
  exact construct_ok (by rw [ContentObject.tlv_toBytes]; exact h0)

theorem ContentObject.tlv_ok {c : ContentObject} {t : Tlv} (h : c.tlv = .ok t) : t.type = T_OBJECT ∧ t.Valid := by
  obtain ⟨ms, hm, h⟩ := bind_eq_ok.mp h
  obtain ⟨_, rfl, hv⟩ := container_ok h
  exact ⟨rfl, hv⟩

/-! ## Validation algorithm -/

/-- The validation algorithm can be read back: no key link (reading one is not implemented) and a stable time. -/
def ValidationAlg.Readable : ValidationAlg → Prop
  | .crc32c => True
  | .rsaSha256 _ keyLink st => keyLink = none ∧ st.Stable

theorem ValidationAlg.tlv_ok {a : ValidationAlg} {t : Tlv} (h : a.tlv = .ok t) : t.type = T_VALIDATION_ALG ∧ t.Valid := by
  cases a with
  | crc32c =>
    obtain ⟨u, hu, h⟩ := bind_eq_ok.mp h
    obtain ⟨_, rfl, hv⟩ := container_ok h
    exact ⟨rfl, hv⟩
  | rsaSha256 k l s =>
    obtain ⟨u, hu, h⟩ := bind_eq_ok.mp h
    obtain ⟨u, hu, h⟩ := bind_eq_ok.mp h
    obtain ⟨u, hu, h⟩ := bind_eq_ok.mp h
    obtain ⟨u, hu, h⟩ := bind_eq_ok.mp h
    obtain ⟨_, rfl, hv⟩ := container_ok h
    exact ⟨rfl, hv⟩

theorem validationAlg_RT (now : F64) {a : ValidationAlg} (ha : a.Readable) :
    RT T_VALIDATION_ALG ValidationAlg.tlv (ValidationAlg.parse now) a a := by
  intro t h
  have h0 := h
  cases a with
  | crc32c =>
    obtain ⟨u, hu, h⟩ := bind_eq_ok.mp h
    obtain ⟨hvu, rfl, hv⟩ := container_ok h
    obtain ⟨rfl, _⟩ := mkTlv_ok hu
    refine ⟨rfl, hv, ?_⟩
    rw [ValidationAlg.parse, if_neg (by simp)]
    have := Tlv.deserialize_bytes _ (hvu _ (List.mem_singleton.mpr rfl)) []
    simp only [bytesAll_cons, bytesAll_nil, this, ok_bind]
    rw [if_neg (by decide), if_pos True.intro, if_neg (by simp [Tlv.length])]
    exact construct_ok h0
  | rsaSha256 k l s =>
    obtain ⟨rfl, hs⟩ := ha
    obtain ⟨x, hx, h⟩ := bind_eq_ok.mp h
    obtain ⟨y, hy, h⟩ := bind_eq_ok.mp h
    obtain ⟨z, hz, h⟩ := bind_eq_ok.mp h
    obtain ⟨u, hu, h⟩ := bind_eq_ok.mp h
    obtain ⟨hvu, rfl, hv⟩ := container_ok h
    obtain ⟨hvi, rfl, hvt⟩ := container_ok hu
    have hy' : y = [] := (Except.ok.inj hy).symm
    subst hy'
    refine ⟨rfl, hv, ?_⟩
    rw [ValidationAlg.parse, if_neg (by simp)]
    have := Tlv.deserialize_bytes _ (hvu _ (List.mem_singleton.mpr rfl)) []
    rw [bytesAll_cons, bytesAll_nil]
    simp only [this, ok_bind]
    rw [if_pos True.intro, ValidationAlg.rsaParse, if_neg (by simp)]
    simp only [tlvLoop_bytesAll _ _ hvi]
    obtain ⟨hxt, _, hxp⟩ := hash_RT (ty := T_KEYID) k x hx
    obtain ⟨hzt, _, hzp⟩ := timestamp_RT (ty := T_SIGTIME) (by decide) hs z hz
    have e1 : ValidationAlg.rsaStep (none, none) x = .ok (some k, none) := by
      simp [ValidationAlg.rsaStep, hxt, hxp]
    have e2 : ValidationAlg.rsaStep (some k, none) z = .ok (some k, some s) := by
      simp only [T_SIGTIME] at hzp
      simp [ValidationAlg.rsaStep, hzt, hzp, T_KEYID, T_SIGTIME]
    simp only [List.append_nil, List.singleton_append, List.foldlM_cons, List.foldlM_nil, e1, e2, ok_bind, pure_eq_ok,
      Option.getD_some]
    exact construct_ok h0

theorem valPayload_RT (p : Bytes) : RT T_VALIDATION_PAYLOAD valPayloadTlv valPayloadParse p p := by
  intro t h
  obtain ⟨rfl, hv⟩ := mkTlv_ok h
  refine ⟨rfl, hv, ?_⟩
  rw [valPayloadParse, if_neg (by simp)]
  exact construct_ok h

/-! ## Fixed header -/

theorem packB_ok {n : Nat} {w : Bytes} (h : packB n = .ok w) : n ≤ 0xFF ∧ w = [UInt8.ofNat n] := by
  unfold packB at h
  split at h
  · cases h; exact ⟨by assumption, rfl⟩
  · cases h

theorem packH_ok {n : Nat} {w : Bytes} (h : packH n = .ok w) :
    n ≤ 0xFFFF ∧ w = [UInt8.ofNat (n / 256), UInt8.ofNat (n % 256)] := by
  unfold packH at h
  split at h
  · cases h; exact ⟨by assumption, rfl⟩
  · cases h

theorem FixedHeader.serialize_ok {h : FixedHeader} {w : Bytes} (hw : h.serialize = .ok w) :
    h.ver ≤ 0xFF ∧ h.packetType ≤ 0xFF ∧ h.packetLength ≤ 0xFFFF ∧ h.headerLength ≤ 0xFF ∧
    w = [UInt8.ofNat h.ver, UInt8.ofNat h.packetType, UInt8.ofNat (h.packetLength / 256),
         UInt8.ofNat (h.packetLength % 256), h.f0, h.f1, h.f2, UInt8.ofNat h.headerLength] := by
  obtain ⟨a, ha, hw⟩ := bind_eq_ok.mp hw
  obtain ⟨b, hb, hw⟩ := bind_eq_ok.mp hw
  obtain ⟨c, hc, hw⟩ := bind_eq_ok.mp hw
  obtain ⟨d, hd, hw⟩ := bind_eq_ok.mp hw
  obtain ⟨h1, rfl⟩ := packB_ok ha
  obtain ⟨h2, rfl⟩ := packB_ok hb
  obtain ⟨h3, rfl⟩ := packH_ok hc
  obtain ⟨h4, rfl⟩ := packB_ok hd
  cases hw
  exact ⟨h1, h2, h3, h4, rfl⟩

theorem FixedHeader.deserialize_serialize {h : FixedHeader} {w : Bytes} (hw : h.serialize = .ok w)
    (hv : h.ver = 1) (hp : 8 ≤ h.packetLength) (hh : 8 ≤ h.headerLength) (rest : Bytes) :
    FixedHeader.deserialize (w ++ rest) = .ok h := by
  obtain ⟨h1, h2, h3, h4, rfl⟩ := FixedHeader.serialize_ok hw
  have e1 : h.packetType % 256 = h.packetType := by omega
  have e2 : h.packetLength / 256 % 256 * 256 + h.packetLength % 256 % 256 = h.packetLength := by omega
  have e3 : h.headerLength % 256 = h.headerLength := by omega
  simp only [FixedHeader.deserialize, List.cons_append, List.nil_append, toNat_ofNat, e1, e2, e3, hv]
  rw [if_neg (by decide), if_neg (by omega), if_neg (by omega)]
  cases h
  simp only at hv
  subst hv
  rfl

/-! ## Packets -/

theorem wireOf_ok {α : Type} {tlv : α → Py Tlv} {x : α} {w : Bytes} (h : wireOf tlv x = .ok w) :
    ∃ t, tlv x = .ok t ∧ t.Valid ∧ w = t.bytes := by
  obtain ⟨t, ht, h⟩ := bind_eq_ok.mp h
  obtain ⟨hv, rfl⟩ := Tlv.serialize_ok h
  exact ⟨t, ht, hv, rfl⟩

theorem wireOf_of_tlv {α : Type} {tlv : α → Py Tlv} {x : α} {t : Tlv} (h : tlv x = .ok t) (hv : t.Valid) :
    wireOf tlv x = .ok t.bytes := by
  simp [wireOf, h, Tlv.serialize_of_valid hv]

theorem optWire_ok {α : Type} {tlv : α → Py Tlv} {o : Option α} {w : Bytes} (h : optWire tlv o = .ok w) :
    ∃ l, optTlv tlv o = .ok l ∧ (∀ t ∈ l, t.Valid) ∧ w = bytesAll l := by
  cases o with
  | none => cases h; exact ⟨[], rfl, by simp, rfl⟩
  | some x =>
    obtain ⟨t, ht, hv, rfl⟩ := wireOf_ok h
    exact ⟨[t], by simp [optTlv, ht], by simpa using hv, by simp⟩

/-- The TLVs of a packet after the header. -/
theorem Packet.serialize_ok {p : Packet} {w : Bytes} (h : p.serialize = .ok w) :
    ∃ hb tb la lp, p.header.serialize = .ok hb ∧ p.body.tlv = .ok tb ∧ tb.Valid ∧
      optTlv ValidationAlg.tlv p.alg = .ok la ∧ (∀ t ∈ la, t.Valid) ∧
      optTlv valPayloadTlv p.payload = .ok lp ∧ (∀ t ∈ lp, t.Valid) ∧
      w = hb ++ bytesAll ([tb] ++ la ++ lp) ∧ p.hashInput = .ok (bytesAll ([tb] ++ la ++ lp)) := by
  obtain ⟨hb, hhb, h⟩ := bind_eq_ok.mp h
  obtain ⟨b, hbo, h⟩ := bind_eq_ok.mp h
  obtain ⟨a, haa, h⟩ := bind_eq_ok.mp h
  obtain ⟨v, hvv, h⟩ := bind_eq_ok.mp h
  have e : p.hashInput = .ok (b ++ a ++ v) := by simp [Packet.hashInput, hbo, haa, hvv]
  obtain ⟨tb, htb, hvb, rfl⟩ := wireOf_ok hbo
  obtain ⟨la, hla, hva, rfl⟩ := optWire_ok haa
  obtain ⟨lp, hlp, hvp, rfl⟩ := optWire_ok hvv
  cases h
  exact ⟨hb, tb, la, lp, hhb, htb, hvb, hla, hva, hlp, hvp, by simp, by rw [e]; simp⟩

def Packet.toBytes (p : Packet) : Packet := { p with body := p.body.toBytes }

theorem Packet.serialize_toBytes (p : Packet) : p.toBytes.serialize = p.serialize := by
  simp [Packet.serialize, Packet.toBytes, wireOf, ContentObject.tlv_toBytes]

theorem Packet.hashInput_toBytes (p : Packet) : p.toBytes.hashInput = p.hashInput := by
  simp [Packet.hashInput, Packet.toBytes, wireOf, ContentObject.tlv_toBytes]

theorem packet_loop (now : F64) {p : Packet} {tb : Tlv} {la lp : List Tlv}
    (htb : p.body.tlv = .ok tb) (hla : optTlv ValidationAlg.tlv p.alg = .ok la)
    (hlp : optTlv valPayloadTlv p.payload = .ok lp) (hpay : p.alg.isSome = p.payload.isSome)
    (hbody : p.body.Stable) (halg : ∀ a, p.alg = some a → a.Readable) :
    ([tb] ++ la ++ lp).foldlM (Packet.parseStep now) {} =
      .ok ⟨some p.body.toBytes, p.alg, p.payload⟩ := by
  obtain ⟨hty, _, hp⟩ := contentObject_RT hbody tb htb
  rw [List.foldlM_append, List.foldlM_append]
  have e1 : ([tb]).foldlM (Packet.parseStep now) {} = .ok { body := some p.body.toBytes } := by
    simp [Packet.parseStep, hty, hp, pyAssert]
  simp only [e1, ok_bind]
  rw [foldlM_opt (s' := { body := some p.body.toBytes, alg := p.alg }) hla]
  rotate_left
  · intro hn; simp [hn]
  · intro x t hx ht
    obtain ⟨hty, _, hp⟩ := validationAlg_RT now (halg x hx) t ht
    simp [Packet.parseStep, hty, hp, pyAssert, hx, T_OBJECT, T_INTEREST, T_VALIDATION_ALG]
  simp only [ok_bind]
  rw [foldlM_opt (s' := { body := some p.body.toBytes, alg := p.alg, payload := p.payload }) hlp]
  · intro hn; simp [hn]
  · intro x t hx ht
    obtain ⟨hty, _, hp⟩ := valPayload_RT x t ht
    have : p.alg.isSome = true := by rw [hpay, hx]; rfl
    simp [Packet.parseStep, hty, hp, pyAssert, hx, this, T_OBJECT, T_INTEREST, T_VALIDATION_ALG, T_VALIDATION_PAYLOAD]

theorem packet_RT (now : F64) {p : Packet} {w : Bytes} (h : p.serialize = .ok w)
    (hpay : p.alg.isSome = p.payload.isSome) (hv : p.header.ver = 1) (hp : 8 ≤ p.header.packetLength)
    (hh : p.header.headerLength = 8) (hbody : p.body.Stable) (halg : ∀ a, p.alg = some a → a.Readable) :
    Packet.deserialize now w = .ok p.toBytes := by
  have h0 := h
  obtain ⟨hb, tb, la, lp, hhb, htb, hvb, hla, hva, hlp, hvp, rfl, _⟩ := Packet.serialize_ok h
  have hd := FixedHeader.deserialize_serialize hhb hv hp (by omega) (bytesAll ([tb] ++ la ++ lp))
  rw [Packet.deserialize, hd]
  simp only [ok_bind]
  have hlen : hb.length = p.header.headerLength := by
    obtain ⟨_, _, _, _, rfl⟩ := FixedHeader.serialize_ok hhb
    simp [hh]
  rw [← hlen, List.drop_left]
  rw [tlvLoop_bytesAll]
  · rw [packet_loop now htb hla hlp hpay hbody halg]
    simp only [ok_bind, mkPacket]
    rw [if_neg (by simp [hpay])]
    have := Packet.serialize_toBytes p
    rw [h0] at this
    simp only [Packet.toBytes] at this ⊢
    simp [this]
  · intro t ht
    simp only [List.mem_append, List.mem_singleton] at ht
    rcases ht with (rfl | ht) | ht
    · exact hvb
    · exact hva t ht
    · exact hvp t ht

end Ccnpy
