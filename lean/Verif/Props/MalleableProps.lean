import Verif.Props.ContainerProps
import Verif.Props.PacketProps
import Verif.Props.ValidateProps
import Verif.Lemmas.PacketErrors

/-!
# C95: one packet, many encodings

The hash of a received packet and the bytes its signature is checked against are those of the packet as this library would
encode it, not those that were received.
-/

namespace Ccnpy

/-! ## Specification -/

/-- What a receiver can tell about a packet apart from its header: the fields, the hash that identifies it, and the outcome
of validation. -/
structure Spec.Indistinct (p q : Packet) : Prop where
  body : p.body = q.body
  alg : p.alg = q.alg
  payload : p.payload = q.payload
  hash : ∀ sha : Bytes → Bytes, p.hash sha = q.hash sha
  verdict : ∀ (P : Prims) (ks : Option Keystore), validatePacket P ks p = validatePacket P ks q

/-- The order of the TLVs of a packet: a validation payload (4) comes after the validation algorithm (3), an Interest (1)
comes before the content object (2). -/
def Spec.PacketOrder (l : List Tlv) : Prop :=
  (∀ pre t post, l = pre ++ t :: post → t.type = 4 → ∃ a ∈ pre, a.type = 3) ∧
  (∀ pre t post, l = pre ++ t :: post → t.type = 1 → ∀ b ∈ pre, b.type ≠ 2)

/-- A fixed header, perhaps with hop-by-hop headers behind it: 8 bytes or more, version 1, a packet length of at least 8
(not necessarily the right one), and the right header length.  The packet type and three more bytes are free. -/
def Spec.IsHeader (hd : Bytes) : Prop :=
  ∃ type len1 len0 f0 f1 f2 hlen more, hd = 1 :: type :: len1 :: len0 :: f0 :: f1 :: f2 :: hlen :: more ∧
    8 ≤ len1.toNat * 256 + len0.toNat ∧ hlen.toNat = 8 + more.length

/-- The bytes of one TLV, and of several in a row. -/
def Spec.enc (t : Tlv) : Bytes := be16 t.type ++ be16 t.value.length ++ t.value
def Spec.encs (l : List Tlv) : Bytes := l.flatMap Spec.enc

/-- Type and length fit into two bytes. -/
def Spec.Short (t : Tlv) : Prop := t.type ≤ 0xFFFF ∧ t.value.length ≤ 0xFFFF

/-- Leading zero bytes in front of a number. -/
def Spec.zeros (k : Nat) (v : Bytes) : Bytes := List.replicate k 0 ++ v

/-- Another way to write the members of an RSA-SHA256 section. -/
inductive Spec.RsaRecoded : List Tlv → List Tlv → Prop where
  /-- a TLV of an unknown type (not key id, public key, key link, signature time) anywhere -/
  | unknown (m1 m2 : List Tlv) (x : Tlv) (hx : x.type ∉ [0x9, 0xB, 0xE, 0xF]) : Spec.RsaRecoded (m1 ++ m2) (m1 ++ x :: m2)
  /-- zeros in front of the signature time -/
  | time (m1 m2 : List Tlv) (v : Bytes) (k : Nat) : Spec.RsaRecoded (m1 ++ ⟨0xF, v⟩ :: m2) (m1 ++ ⟨0xF, Spec.zeros k v⟩ :: m2)
  /-- anything after the hash in the key id -/
  | keyid (m1 m2 : List Tlv) (h : Tlv) (tail : Bytes) (hh : Spec.Short h) :
      Spec.RsaRecoded (m1 ++ ⟨0x9, Spec.enc h⟩ :: m2) (m1 ++ ⟨0x9, Spec.enc h ++ tail⟩ :: m2)
  /-- a key id that is followed by another one -/
  | overwritten (m1 m2 : List Tlv) (h : Tlv) (hh : Spec.Short h)
      (hm : ∃ k ∈ m2, k.type = 0x9) : Spec.RsaRecoded (m1 ++ m2) (m1 ++ ⟨0x9, Spec.enc h⟩ :: m2)

/-- Another way to write a TLV of a packet. -/
inductive Spec.TlvRecoded : Tlv → Tlv → Prop where
  /-- the members of the content object in another order -/
  | members (ms ms' : List Tlv) (h : ms.Perm ms') (hs : ∀ x ∈ ms, Spec.Short x) : Spec.TlvRecoded ⟨2, Spec.encs ms⟩ ⟨2, Spec.encs ms'⟩
  /-- zeros in front of payload type (5), expiry time (6) or final chunk id (7) -/
  | number (m1 m2 : List Tlv) (ty : Nat) (hty : ty ∈ [5, 6, 7]) (v : Bytes) (k : Nat)
      (hs : ∀ x ∈ m1 ++ m2, Spec.Short x) (hv : (Spec.zeros k v).length ≤ 0xFFFF) :
      Spec.TlvRecoded ⟨2, Spec.encs (m1 ++ ⟨ty, v⟩ :: m2)⟩ ⟨2, Spec.encs (m1 ++ ⟨ty, Spec.zeros k v⟩ :: m2)⟩
  /-- anything after the first TLV in the validation algorithm -/
  | afterAlg (inner : Tlv) (tail tail' : Bytes) (hi : Spec.Short inner) :
      Spec.TlvRecoded ⟨3, Spec.enc inner ++ tail⟩ ⟨3, Spec.enc inner ++ tail'⟩
  /-- another way to write an RSA-SHA256 section -/
  | rsa (m m' : List Tlv) (h : Spec.RsaRecoded m m') (hs : ∀ x ∈ m ++ m', Spec.Short x)
      (hl : (Spec.encs m).length ≤ 0xFFFF) (hl' : (Spec.encs m').length ≤ 0xFFFF) (tail : Bytes) :
      Spec.TlvRecoded ⟨3, Spec.enc ⟨4, Spec.encs m⟩ ++ tail⟩ ⟨3, Spec.enc ⟨4, Spec.encs m'⟩ ++ tail⟩

/-- Another way to write a packet. -/
inductive Spec.Recoded : Bytes → Bytes → Prop where
  /-- any header -/
  | header (hd hd' rest : Bytes) (h : Spec.IsHeader hd) (h' : Spec.IsHeader hd') : Spec.Recoded (hd ++ rest) (hd' ++ rest)
  /-- an Interest in front of everything -/
  | interest (hd v rest : Bytes) (h : Spec.IsHeader hd) (hv : v.length ≤ 0xFFFF) :
      Spec.Recoded (hd ++ rest) (hd ++ Spec.enc ⟨1, v⟩ ++ rest)
  /-- the sections in another order -/
  | sections (hd : Bytes) (l l' : List Tlv) (h : Spec.IsHeader hd) (hs : ∀ t ∈ l, Spec.Short t) (hp : l.Perm l')
      (ho : Spec.PacketOrder l') : Spec.Recoded (hd ++ Spec.encs l) (hd ++ Spec.encs l')
  /-- another way to write one of the sections -/
  | inside (hd : Bytes) (pre post : List Tlv) (t t' : Tlv) (h : Spec.IsHeader hd)
      (hs : ∀ x ∈ pre ++ t :: t' :: post, Spec.Short x) (ht : Spec.TlvRecoded t t') :
      Spec.Recoded (hd ++ Spec.encs (pre ++ t :: post)) (hd ++ Spec.encs (pre ++ t' :: post))

/-- Any number of such changes. -/
inductive Spec.Recodings : Bytes → Bytes → Prop where
  | same (b : Bytes) : Spec.Recodings b b
  | step (b c d : Bytes) : Spec.Recodings b c → Spec.Recoded c d → Spec.Recodings b d

/-! ## Helpers -/

/-- The loop body of `Packet.deserialize` without the checks of the order. -/
def looseStep (now : F64) (s : PacketState) (t : Tlv) : Py PacketState :=
  if t.type = T_OBJECT then do
    pyAssert s.body.isNone
    return { s with body := some (← ContentObject.parse t) }
  else if t.type = T_VALIDATION_ALG then do
    pyAssert s.alg.isNone
    return { s with alg := some (← ValidationAlg.parse now t) }
  else if t.type = T_VALIDATION_PAYLOAD then do
    pyAssert s.payload.isNone
    return { s with payload := some (← valPayloadParse t) }
  else if t.type = T_INTEREST then .ok s
  else .error .runtimeError

def packetSlots (now : F64) : List (Slot PacketState) :=
  [.one T_OBJECT ContentObject.parse PacketState.body, .one T_VALIDATION_ALG (ValidationAlg.parse now) PacketState.alg,
   .one T_VALIDATION_PAYLOAD valPayloadParse PacketState.payload]

theorem loose_lawful (now : F64) : Lawful (looseStep now) (packetSlots now) (fun t => t.type = T_INTEREST) where
  ok := by
    intro s t s' h
    unfold looseStep at h
    slots_ok [packetSlots, T_OBJECT, T_VALIDATION_ALG, T_VALIDATION_PAYLOAD, T_INTEREST]
  run := by
    intro s t hk hq
    unfold looseStep
    slots_run [packetSlots, T_OBJECT, T_VALIDATION_ALG, T_VALIDATION_PAYLOAD, T_INTEREST]

theorem loose_of_strict {now : F64} {s s' : PacketState} {t : Tlv} (h : Packet.parseStep now s t = .ok s') :
    looseStep now s t = .ok s' := by
  unfold Packet.parseStep at h
  unfold looseStep
  split at h
  · rename_i e; rw [if_pos e]; exact h
  rename_i e1
  rw [if_neg e1]
  split at h
  · rename_i e2
    obtain ⟨u, hu, h⟩ := bind_eq_ok.mp h
    rw [if_neg (by rw [e2]; decide), if_neg (by rw [e2]; decide), if_pos e2]
    exact h
  split at h
  · rename_i e3; rw [if_pos e3]; exact h
  rename_i e3
  rw [if_neg e3]
  split at h
  · rename_i e4
    obtain ⟨u, hu, h⟩ := bind_eq_ok.mp h
    rw [if_pos e4]; exact h
  · cases h

theorem foldlM_loose_of_strict {now : F64} {l : List Tlv} {s s' : PacketState}
    (h : l.foldlM (Packet.parseStep now) s = .ok s') : l.foldlM (looseStep now) s = .ok s' := by
  induction l generalizing s with
  | nil => exact h
  | cons t l ih =>
    rw [List.foldlM_cons] at h ⊢
    obtain ⟨s1, h1, h⟩ := bind_eq_ok.mp h
    rw [loose_of_strict h1]
    exact ih h

theorem Spec.PacketOrder.init {l : List Tlv} {t : Tlv} (h : Spec.PacketOrder (l ++ [t])) : Spec.PacketOrder l := by
  constructor
  · intro pre x post e hx
    exact h.1 pre x (post ++ [t]) (by rw [e]; simp) hx
  · intro pre x post e hx
    exact h.2 pre x (post ++ [t]) (by rw [e]; simp) hx

theorem packetInv_nil : PacketInv [] {} := by
  refine ⟨by simp, rfl, rfl, rfl, ?_, ?_⟩ <;> intro pre post h <;> simp at h

theorem foldlM_strict_of_loose {now : F64} {l : List Tlv} (ho : Spec.PacketOrder l) {s' : PacketState}
    (h : l.foldlM (looseStep now) {} = .ok s') : l.foldlM (Packet.parseStep now) {} = .ok s' := by
  induction l using list_snoc_induction generalizing s' with
  | nil => exact h
  | snoc l t ih =>
    rw [List.foldlM_append] at h ⊢
    obtain ⟨s1, h1, h⟩ := bind_eq_ok.mp h
    have hs := ih ho.init h1
    rw [hs, ok_bind]
    have inv := PacketInv.fold now packetInv_nil hs
    rw [List.nil_append] at inv
    rw [List.foldlM_cons] at h ⊢
    obtain ⟨s2, h2, h⟩ := bind_eq_ok.mp h
    suffices e : Packet.parseStep now s1 t = .ok s2 by
      show ((Packet.parseStep now s1 t) >>= _) = _
      rw [e]; exact h
    unfold looseStep at h2
    unfold Packet.parseStep
    split at h2
    · rename_i e; rw [if_pos e]; exact h2
    rename_i e1
    rw [if_neg e1]
    split at h2
    · rename_i e3
      rw [if_neg (by rw [e3]; decide), if_pos e3]
      exact h2
    rename_i e3
    split at h2
    · rename_i e4
      rw [if_neg (by rw [e4]; decide), if_neg e3, if_pos e4]
      obtain ⟨a, ha, ha3⟩ := ho.1 l t [] rfl e4
      have hc : 0 < (l.map Tlv.type).count 3 := List.count_pos_iff.mpr (List.mem_map.mpr ⟨a, ha, ha3⟩)
      rw [inv.alg] at hc
      have : s1.alg.isSome = true := by
        cases hq : s1.alg with
        | none => rw [hq] at hc; simp at hc
        | some _ => rfl
      rw [this]
      exact h2
    split at h2
    · rename_i e5
      rw [if_pos e5]
      have hc : (l.map Tlv.type).count 2 = 0 := by
        apply List.count_eq_zero.mpr
        intro hm
        obtain ⟨b, hb, hb2⟩ := List.mem_map.mp hm
        exact ho.2 l t [] rfl e5 b hb hb2
      rw [inv.body] at hc
      have : s1.body = none := by
        cases hq : s1.body with
        | none => rfl
        | some _ => rw [hq] at hc; simp at hc
      rw [this]
      cases h2; rfl
    · cases h2

theorem PacketInv.order {l : List Tlv} {s : PacketState} (inv : PacketInv (l.map Tlv.type) s) : Spec.PacketOrder l := by
  constructor
  · intro pre t post e ht
    obtain ⟨a, ha, h3⟩ := List.mem_map.mp (inv.after (pre.map Tlv.type) (post.map Tlv.type) (by rw [e]; simp [ht]))
    exact ⟨a, ha, h3⟩
  · intro pre t post e ht b hb hb2
    exact inv.interest (pre.map Tlv.type) (post.map Tlv.type) (by rw [e]; simp [ht]) (List.mem_map.mpr ⟨b, hb, hb2⟩)

theorem packet_loop_iff (now : F64) (buf : Bytes) (s : PacketState) :
    tlvLoop (Packet.parseStep now) buf {} = .ok s ↔
      ∃ l, Spec.Tiles buf l ∧ Spec.Only l [1, 2, 3, 4] ∧ Spec.PacketOrder l ∧
        Spec.Parsed l 2 ContentObject.parse s.body.toList ∧ Spec.Parsed l 3 (ValidationAlg.parse now) s.alg.toList ∧
        Spec.Parsed l 4 valPayloadParse s.payload.toList := by
  have h0 : ∀ q ∈ packetSlots now, q.get {} = [] := by simp [packetSlots, Slot.one]
  have ext : ∀ s s' : PacketState, (∀ q ∈ packetSlots now, q.get s = q.get s') → s = s' := by
    intro s s' h
    simp only [packetSlots, Slot.one, List.forall_mem_cons] at h
    obtain ⟨a, b, c⟩ := s
    obtain ⟨a', b', c'⟩ := s'
    simp_all [toList_inj]
  have key : ∀ l : List Tlv,
      ((∀ t ∈ l, (∃ q ∈ packetSlots now, q.mine t = true) ∨ t.type = T_INTEREST) ∧
        ∀ q ∈ packetSlots now, ∃ xs, (l.filter q.mine).mapM q.parse = .ok xs ∧ q.get s = q.kind.total xs ∧ q.kind.allowed xs) ↔
      (Spec.Only l [1, 2, 3, 4] ∧ Spec.Parsed l 2 ContentObject.parse s.body.toList ∧
        Spec.Parsed l 3 (ValidationAlg.parse now) s.alg.toList ∧ Spec.Parsed l 4 valPayloadParse s.payload.toList) := by
    intro l
    unfold Spec.Only
    simp only [packetSlots, Slot.one, List.forall_mem_cons, once_iff, Spec.Parsed]
    simp [T_OBJECT, T_VALIDATION_ALG, T_VALIDATION_PAYLOAD, T_INTEREST]
    intro _ _ _
    constructor <;> intro h t ht <;> have := h t ht <;> omega
  constructor
  · intro h
    obtain ⟨l, hl, hb, hf⟩ := tlvLoop_inv _ _ _ _ h
    have inv := PacketInv.fold now packetInv_nil hf
    rw [List.nil_append] at inv
    obtain ⟨k1, k2⟩ := (key l).mp ((loose_lawful now).sound h0 l s (foldlM_loose_of_strict hf))
    exact ⟨l, ⟨hl, hb.trans (bytesAll_tiles l)⟩, k1, inv.order, k2⟩
  · rintro ⟨l, ht, k1, ho, k2⟩
    have hk := (key l).mpr ⟨k1, k2⟩
    have hloop := ((loose_lawful now).loop h0 ext buf s).mpr ⟨l, ht, hk⟩
    rw [ht.2, ← bytesAll_tiles, tlvLoop_bytesAll _ l ht.1] at hloop ⊢
    exact foldlM_strict_of_loose ho hloop

theorem parsed_one {α : Type} {l : List Tlv} {ty : Nat} {parse : Tlv → Py α} {x : α} (h : Spec.Parsed l ty parse [x]) :
    ∃ t ∈ l, t.type = ty ∧ parse t = .ok x := by
  unfold Spec.Parsed at h
  cases hf : l.filter (fun t => t.type == ty) with
  | nil => rw [hf] at h; cases Except.ok.inj h
  | cons t r =>
    rw [hf, List.mapM_cons] at h
    obtain ⟨a, ha, h⟩ := bind_eq_ok.mp h
    obtain ⟨as, _, h⟩ := bind_eq_ok.mp h
    have e := Except.ok.inj h
    injection e with e1 _
    have hm : t ∈ l.filter (fun t => t.type == ty) := by rw [hf]; exact List.mem_cons_self
    obtain ⟨m1, m2⟩ := List.mem_filter.mp hm
    exact ⟨t, m1, by simpa using m2, e1 ▸ ha⟩

theorem mapM_perm {α : Type} {l l' : List Tlv} {f : Tlv → Py α} {o : Option α} (h : l.Perm l') (hm : l.mapM f = .ok o.toList) :
    l'.mapM f = .ok o.toList := by
  have hlen : l.length = o.toList.length := by
    have : ∀ (k : List Tlv) (xs : List α), k.mapM f = .ok xs → k.length = xs.length := by
      intro k
      induction k with
      | nil => intro xs h; cases Except.ok.inj h; rfl
      | cons a k ih =>
        intro xs h
        rw [List.mapM_cons] at h
        obtain ⟨b, _, h⟩ := bind_eq_ok.mp h
        obtain ⟨bs, hbs, h⟩ := bind_eq_ok.mp h
        cases Except.ok.inj h
        simp [ih bs hbs]
    exact this l _ hm
  have : l = l' := by
    match l, h, hlen with
    | [], h, _ => exact (List.nil_perm.mp h).symm
    | [a], h, _ => exact List.singleton_perm.mp h
    | a :: b :: k, _, hlen => cases o <;> simp at hlen
  rw [← this]; exact hm

theorem parsed_perm {α : Type} {l l' : List Tlv} {ty : Nat} {f : Tlv → Py α} {o : Option α} (h : l.Perm l')
    (hm : Spec.Parsed l ty f o.toList) : Spec.Parsed l' ty f o.toList :=
  mapM_perm (h.filter _) hm

theorem ContentObject.fits_of_parse {t : Tlv} {c : ContentObject} (h : ContentObject.parse t = .ok c) : Spec.Fits c.tlv :=
  ((C66_content_object t c).mp h).2.1

theorem ValidationAlg.fits_of_parse {now : F64} {t : Tlv} {a : ValidationAlg} (h : ValidationAlg.parse now t = .ok a) :
    Spec.Fits a.tlv := by
  obtain ⟨_, inner, rest, _, _, _, h⟩ := (C67_validation_alg now t a).mp h
  rcases h with ⟨_, _, rfl⟩ | ⟨_, h⟩
  · exact ⟨_, rfl⟩
  · exact ((C67_rsa now inner a).mp h).2.1

theorem valPayload_fits_of_parse {t : Tlv} {v : Bytes} (h : valPayloadParse t = .ok v) : Spec.Fits (valPayloadTlv v) := by
  unfold valPayloadParse at h
  split at h
  · cases h
  · obtain ⟨rfl, hf⟩ := construct_inv h
    exact hf

theorem optWire_of_fits {α : Type} {tlv : α → Py Tlv} {o : Option α} (hv : ∀ x t, tlv x = .ok t → t.Valid)
    (h : ∀ x, o = some x → Spec.Fits (tlv x)) : ∃ w, optWire tlv o = .ok w := by
  cases o with
  | none => exact ⟨_, rfl⟩
  | some x =>
    obtain ⟨t, ht⟩ := h x rfl
    exact ⟨_, wireOf_of_tlv ht (hv x t ht)⟩

theorem Indistinct.of_fields {p q : Packet} (h1 : p.body = q.body) (h2 : p.alg = q.alg) (h3 : p.payload = q.payload) :
    Spec.Indistinct p q := by
  obtain ⟨h, b, a, v⟩ := p
  obtain ⟨h', b', a', v'⟩ := q
  cases h1; cases h2; cases h3
  exact ⟨rfl, rfl, rfl, fun _ => rfl, fun _ _ => rfl⟩

/-! ## What is accepted as a packet -/

/-- C66: a packet is accepted exactly when its header is, and after the header comes a sequence of TLVs with exactly one
content object, at most one validation algorithm and as many validation payloads, in the right order.  Apart from the
header the result depends on these TLVs only. -/
theorem C66_packet (now : F64) (buf : Bytes) (p : Packet) : Packet.deserialize now buf = .ok p ↔
    FixedHeader.deserialize buf = .ok p.header ∧ p.alg.isSome = p.payload.isSome ∧
    ∃ l, Spec.Tiles (buf.drop p.header.headerLength) l ∧ Spec.Only l [1, 2, 3, 4] ∧ Spec.PacketOrder l ∧
      Spec.Parsed l 2 ContentObject.parse [p.body] ∧ Spec.Parsed l 3 (ValidationAlg.parse now) p.alg.toList ∧
      Spec.Parsed l 4 valPayloadParse p.payload.toList := by
  constructor
  · intro h
    obtain ⟨hd, hhd, h⟩ := bind_eq_ok.mp h
    obtain ⟨s, hs, h⟩ := bind_eq_ok.mp h
    obtain ⟨b, a, v⟩ := s
    cases b with
    | none => cases h
    | some b =>
      simp only [mkPacket] at h
      split at h
      · cases h
      rename_i hsome
      obtain ⟨w, hw, h⟩ := bind_eq_ok.mp h
      cases h
      exact ⟨hhd, by simpa using hsome, (packet_loop_iff now _ _).mp hs⟩
  · rintro ⟨hhd, hsome, l, hl⟩
    obtain ⟨hd, b, a, v⟩ := p
    have hs := (packet_loop_iff now (buf.drop hd.headerLength) ⟨some b, a, v⟩).mpr ⟨l, hl⟩
    obtain ⟨_, _, _, hpb, hpa, hpv⟩ := hl
    unfold Packet.deserialize
    rw [hhd]
    simp only [ok_bind, hs]
    have hser : ∃ w, (⟨hd, b, a, v⟩ : Packet).serialize = .ok w := by
      obtain ⟨w0, h0⟩ := FixedHeader.serialize_of_read hhd
      obtain ⟨tb, _, _, htb⟩ := parsed_one hpb
      obtain ⟨ub, hub⟩ := ContentObject.fits_of_parse htb
      obtain ⟨w2, h2⟩ := optWire_of_fits (tlv := ValidationAlg.tlv) (o := a) (fun x t h => (ValidationAlg.tlv_ok h).2) (by
        rintro x rfl
        obtain ⟨t, _, _, ht⟩ := parsed_one hpa
        exact ValidationAlg.fits_of_parse ht)
      obtain ⟨w3, h3⟩ := optWire_of_fits (tlv := valPayloadTlv) (o := v) (fun x t h => (mkTlv_ok h).2) (by
        rintro x rfl
        obtain ⟨t, _, _, ht⟩ := parsed_one hpv
        exact valPayload_fits_of_parse ht)
      simp only [Packet.serialize]
      simp only at h0
      rw [h0, wireOf_of_tlv hub (ContentObject.tlv_ok hub).2, h2, h3]
      exact ⟨_, rfl⟩
    obtain ⟨w, hw⟩ := hser
    simp only [mkPacket]
    rw [if_neg (by simpa using hsome), hw]
    rfl

/-! ## C95 -/

theorem tiles_encs {l : List Tlv} (h : ∀ x ∈ l, Spec.Short x) : Spec.Tiles (Spec.encs l) l := ⟨h, rfl⟩

theorem tiles_unique {v : Bytes} {l m : List Tlv} (hl : Spec.Tiles v l) (hm : Spec.Tiles v m) : l = m := by
  apply bytesAll_inj hl.1 hm.1
  rw [bytesAll_tiles, bytesAll_tiles, ← hl.2, ← hm.2]

theorem parsed_skip {α : Type} {m1 m2 : List Tlv} {x : Tlv} {ty : Nat} {f : Tlv → Py α} {xs : List α} (h : x.type ≠ ty) :
    Spec.Parsed (m1 ++ x :: m2) ty f xs ↔ Spec.Parsed (m1 ++ m2) ty f xs := by
  simp [Spec.Parsed, List.filter_append, h]

theorem parsed_replace {α : Type} {m1 m2 : List Tlv} {x x' : Tlv} {ty : Nat} {f : Tlv → Py α} {xs : List α}
    (h : x.type = x'.type) (hf : x.type = ty → f x = f x') :
    Spec.Parsed (m1 ++ x :: m2) ty f xs ↔ Spec.Parsed (m1 ++ x' :: m2) ty f xs := by
  by_cases ht : x.type = ty
  · simp [Spec.Parsed, List.filter_append, ← h, ht, hf ht]
  · rw [parsed_skip ht, parsed_skip (h ▸ ht)]

theorem arrayToNumber_zeros (k : Nat) (v : Bytes) : arrayToNumber (Spec.zeros k v) = arrayToNumber v := by
  induction k with
  | zero => rfl
  | succ k ih =>
    have : Spec.zeros (k + 1) v = 0 :: Spec.zeros k v := by simp [Spec.zeros, List.replicate_succ]
    rw [this, arrayToNumber_cons, ih]
    simp

theorem timestampParse_congr {ty : Nat} {t t' : Tlv} (h : t.type = t'.type) (hn : t.valueAsNumber = t'.valueAsNumber) :
    timestampParse ty t = timestampParse ty t' := by
  unfold timestampParse
  rw [h, hn]

theorem only_replace {m1 m2 : List Tlv} {x x' : Tlv} {ts : List Nat} (h : x.type = x'.type) (ho : Spec.Only (m1 ++ x :: m2) ts) :
    Spec.Only (m1 ++ x' :: m2) ts := by
  intro t ht
  rcases List.mem_append.mp ht with ht | ht
  · exact ho t (List.mem_append_left _ ht)
  · rcases List.mem_cons.mp ht with rfl | ht
    · rw [← h]; exact ho x (by simp)
    · exact ho t (by simp [ht])

theorem tlvRecoded_type {t t' : Tlv} (h : Spec.TlvRecoded t t') : t'.type = t.type := by
  cases h <;> rfl

theorem object_recoded {t t' : Tlv} (h : Spec.TlvRecoded t t') {c : ContentObject} (hp : ContentObject.parse t = .ok c) :
    ContentObject.parse t' = .ok c := by
  obtain ⟨hty, hf, l, hl, ho, h1, h2, h3, h4, h5⟩ := (C66_content_object t c).mp hp
  apply (C66_content_object t' c).mpr
  refine ⟨(tlvRecoded_type h).trans hty, hf, ?_⟩
  cases h with
  | members ms ms' hperm hs =>
    cases tiles_unique hl (tiles_encs hs)
    refine ⟨ms', tiles_encs (fun x hx => hs x (hperm.mem_iff.mpr hx)), fun t ht => ho t (hperm.mem_iff.mpr ht),
      parsed_perm hperm h1, parsed_perm hperm h2, parsed_perm hperm h3, parsed_perm hperm h4, parsed_perm hperm h5⟩
  | number m1 m2 ty hn v k hs hv =>
    have hty' : ty ≤ 0xFFFF := by simp at hn; omega
    have hlen : v.length ≤ 0xFFFF := by simp [Spec.zeros] at hv; omega
    have short : ∀ y : Bytes, y.length ≤ 0xFFFF → ∀ x ∈ m1 ++ (⟨ty, y⟩ : Tlv) :: m2, Spec.Short x := by
      intro y hy x hx
      rcases List.mem_append.mp hx with hx | hx
      · exact hs x (List.mem_append_left _ hx)
      · rcases List.mem_cons.mp hx with rfl | hx
        · exact ⟨hty', hy⟩
        · exact hs x (List.mem_append_right _ hx)
    cases tiles_unique hl (tiles_encs (short v hlen))
    refine ⟨_, tiles_encs (short _ hv), only_replace (x := ⟨ty, v⟩) rfl ho, (parsed_replace (x := ⟨ty, v⟩) (x' := ⟨ty, Spec.zeros k v⟩) rfl ?_).mp h1, (parsed_replace (x := ⟨ty, v⟩) (x' := ⟨ty, Spec.zeros k v⟩) rfl ?_).mp h2,
      (parsed_replace (x := ⟨ty, v⟩) (x' := ⟨ty, Spec.zeros k v⟩) rfl ?_).mp h3, (parsed_replace (x := ⟨ty, v⟩) (x' := ⟨ty, Spec.zeros k v⟩) rfl ?_).mp h4, (parsed_replace (x := ⟨ty, v⟩) (x' := ⟨ty, Spec.zeros k v⟩) rfl ?_).mp h5⟩
    · intro e; subst e; simp [T_NAME] at hn
    · intro e
      simp only [payloadTypeParse, Tlv.valueAsNumber, arrayToNumber_zeros]
    · intro e; simp only at e; subst e; simp [T_PAYLOAD] at hn
    · intro e
      exact timestampParse_congr rfl (arrayToNumber_zeros k v).symm
    · intro e
      simp only [finalChunkIdParse, Tlv.valueAsNumber, arrayToNumber_zeros]
  | afterAlg => exact absurd hty (by show (3 : Nat) ≠ 2; decide)
  | rsa => exact absurd hty (by show (3 : Nat) ≠ 2; decide)

theorem deserialize_enc {t : Tlv} (h : Spec.Short t) (rest : Bytes) : Tlv.deserialize (Spec.enc t ++ rest) = .ok t :=
  Tlv.deserialize_bytes t h rest

theorem hashParse_enc {h : Tlv} (hh : Spec.Short h) (tail : Bytes) :
    hashParse T_KEYID ⟨9, Spec.enc h ++ tail⟩ = hashParse T_KEYID ⟨9, Spec.enc h⟩ := by
  unfold hashParse
  have e := deserialize_enc hh []
  rw [List.append_nil] at e
  simp only [deserialize_enc hh tail, e]

theorem mem_mid {m1 m2 : List Tlv} {x y : Tlv} (h : x ∈ m1 ++ m2) : x ∈ m1 ++ y :: m2 := by
  rcases List.mem_append.mp h with h | h <;> simp [h]

theorem rsa_recoded {now : F64} {m m' : List Tlv} (h : Spec.RsaRecoded m m') (hs : ∀ x ∈ m ++ m', Spec.Short x)
    {a : ValidationAlg} (hp : ValidationAlg.rsaParse now ⟨4, Spec.encs m⟩ = .ok a) :
    ValidationAlg.rsaParse now ⟨4, Spec.encs m'⟩ = .ok a := by
  obtain ⟨hty, hf, l, hl, hno, keyids, times, keyid, h1, h2, h3, rfl⟩ := (C67_rsa now _ a).mp hp
  apply (C67_rsa now _ _).mpr
  refine ⟨rfl, hf, m', tiles_encs (fun x hx => hs x (List.mem_append_right _ hx)), ?_⟩
  cases tiles_unique hl (tiles_encs (fun x hx => hs x (List.mem_append_left _ hx)))
  have mid : ∀ {m1 m2 : List Tlv} {y : Tlv} {P : Tlv → Prop}, (∀ x ∈ m1 ++ m2, P x) → P y → ∀ x ∈ m1 ++ y :: m2, P x := by
    intro m1 m2 y P h hy x hx
    rcases List.mem_append.mp hx with hx | hx
    · exact h x (List.mem_append_left _ hx)
    · rcases List.mem_cons.mp hx with rfl | hx
      · exact hy
      · exact h x (List.mem_append_right _ hx)
  cases h with
  | unknown m1 m2 x hx =>
    simp at hx
    refine ⟨mid hno ⟨hx.2.1, hx.2.2.1⟩, keyids, times, keyid, (parsed_skip hx.1).mpr h1, h2, (parsed_skip hx.2.2.2).mpr h3, rfl⟩
  | time m1 m2 v k =>
    refine ⟨mid (fun x hx => hno x (mem_mid hx)) ⟨by show (15 : Nat) ≠ 11; decide, by show (15 : Nat) ≠ 14; decide⟩, keyids, times, keyid, (parsed_replace (x := ⟨15, v⟩) (x' := ⟨15, Spec.zeros k v⟩) rfl ?_).mp h1, h2,
      (parsed_replace (x := ⟨15, v⟩) (x' := ⟨15, Spec.zeros k v⟩) rfl ?_).mp h3, rfl⟩
    · intro e; exact absurd e (by show (15 : Nat) ≠ 9; decide)
    · intro e
      exact timestampParse_congr rfl (arrayToNumber_zeros k v).symm
  | keyid m1 m2 h tail hh =>
    refine ⟨mid (fun x hx => hno x (mem_mid hx)) ⟨by show (9 : Nat) ≠ 11; decide, by show (9 : Nat) ≠ 14; decide⟩, keyids, times, keyid, (parsed_replace (x := ⟨9, Spec.enc h⟩) (x' := ⟨9, Spec.enc h ++ tail⟩) rfl ?_).mp h1, h2,
      (parsed_replace (x := ⟨9, Spec.enc h⟩) (x' := ⟨9, Spec.enc h ++ tail⟩) rfl ?_).mp h3, rfl⟩
    · intro e; exact (hashParse_enc hh tail).symm
    · intro e; exact absurd e (by show (9 : Nat) ≠ 15; decide)
  | overwritten m1 m2 h hh hm =>
    have hv : ∃ v, hashParse T_KEYID ⟨9, Spec.enc h⟩ = .ok v := by
      unfold hashParse
      have e := deserialize_enc hh []
      rw [List.append_nil] at e
      have ho := hs ⟨9, Spec.enc h⟩ (by simp)
      rw [if_neg (by show ¬ ((9 : Nat) ≠ 9); decide)]
      simp only [e, ok_bind]
      have e1 : HashValue.parse h = .ok ⟨h.type, h.value⟩ := construct_ok (mkTlv_of_valid (t := h) hh)
      rw [e1]
      exact ⟨_, construct_ok (t := ⟨9, Spec.enc h⟩) (by
        unfold hashTlv
        show (mkTlv h.type h.value >>= fun x => container T_KEYID [x]) = _
        rw [mkTlv_of_valid (t := h) hh, ok_bind]
        have e2 : bytesAll [h] = Spec.enc h := by rw [bytesAll_cons, bytesAll_nil, List.append_nil]; rfl
        have := container_of_valid (ty := 9) (l := [h]) (fun x hx => by rw [List.mem_singleton.mp hx]; exact hh)
          (by rw [e2]; exact ho)
        rw [show T_KEYID = 9 from rfl, this, e2])⟩
    obtain ⟨v, hv⟩ := hv
    have hk : ∃ keyids', Spec.Parsed (m1 ++ (⟨9, Spec.enc h⟩ : Tlv) :: m2) T_KEYID (hashParse T_KEYID) keyids' ∧ keyids'.getLast? = some keyid := by
      unfold Spec.Parsed at h1 ⊢
      rw [List.filter_append, List.mapM_append] at h1 ⊢
      obtain ⟨as, ha, h1⟩ := bind_eq_ok.mp h1
      obtain ⟨bs, hb, h1⟩ := bind_eq_ok.mp h1
      cases Except.ok.inj h1
      refine ⟨as ++ v :: bs, ?_, ?_⟩
      · rw [ha, List.filter_cons, if_pos (by rfl), List.mapM_cons, hv, hb]; rfl
      · have hne : bs ≠ [] := by
          rintro rfl
          obtain ⟨k, hkm, hk9⟩ := hm
          have hmem : k ∈ m2.filter (fun t => t.type == T_KEYID) := List.mem_filter.mpr ⟨hkm, by simp [hk9, T_KEYID]⟩
          cases hfl : m2.filter (fun t => t.type == T_KEYID) with
          | nil => rw [hfl] at hmem; cases hmem
          | cons y ys =>
            rw [hfl, List.mapM_cons] at hb
            obtain ⟨_, _, hb⟩ := bind_eq_ok.mp hb
            obtain ⟨_, _, hb⟩ := bind_eq_ok.mp hb
            cases Except.ok.inj hb
        obtain ⟨b, bs, rfl⟩ := List.exists_cons_of_ne_nil hne
        rw [← h2]
        simp [List.getLast?_append, List.getLast?_cons]
    obtain ⟨keyids', hk1, hk2⟩ := hk
    exact ⟨mid hno ⟨by show (9 : Nat) ≠ 11; decide, by show (9 : Nat) ≠ 14; decide⟩, keyids', times, keyid, hk1, hk2,
      (parsed_skip (by show (9 : Nat) ≠ 15; decide)).mpr h3, rfl⟩

theorem alg_recoded {now : F64} {t t' : Tlv} (h : Spec.TlvRecoded t t') {a : ValidationAlg}
    (hp : ValidationAlg.parse now t = .ok a) : ValidationAlg.parse now t' = .ok a := by
  have hty : t.type = 3 := ((C67_validation_alg now t a).mp hp).1
  cases h with
  | members => exact absurd hty (by show (2 : Nat) ≠ 3; decide)
  | number => exact absurd hty (by show (2 : Nat) ≠ 3; decide)
  | afterAlg inner tail tail' hi =>
    unfold ValidationAlg.parse at hp ⊢
    simp only [deserialize_enc hi] at hp ⊢
    exact hp
  | rsa m m' hr hs hl hl' tail =>
    have s1 : Spec.Short ⟨4, Spec.encs m⟩ := ⟨by show (4 : Nat) ≤ _; decide, hl⟩
    have s2 : Spec.Short ⟨4, Spec.encs m'⟩ := ⟨by show (4 : Nat) ≤ _; decide, hl'⟩
    unfold ValidationAlg.parse at hp ⊢
    simp only [deserialize_enc s1, deserialize_enc s2] at hp ⊢
    exact rsa_recoded hr hs hp

theorem header_of_isHeader {hd : Bytes} (h : Spec.IsHeader hd) (rest : Bytes) :
    ∃ f : FixedHeader, FixedHeader.deserialize (hd ++ rest) = .ok f ∧ f.headerLength = hd.length := by
  obtain ⟨type, len1, len0, f0, f1, f2, hlen, more, rfl, h1, h2⟩ := h
  refine ⟨{ ver := 1, packetType := type.toNat, packetLength := len1.toNat * 256 + len0.toNat, f0 := f0, f1 := f1, f2 := f2,
            headerLength := hlen.toNat }, ?_, ?_⟩
  · simp only [List.cons_append, FixedHeader.deserialize]
    rw [if_neg (by decide), if_neg (by omega), if_neg (by omega)]
    rfl
  · simp; omega

/-- Splitting off the header: what is accepted after it, and what comes out. -/
theorem deserialize_split {now : F64} {hd rest : Bytes} (h : Spec.IsHeader hd) {f : FixedHeader}
    (hf : FixedHeader.deserialize (hd ++ rest) = .ok f) (p : Packet) :
    Packet.deserialize now (hd ++ rest) = .ok p ↔ p.header = f ∧ p.alg.isSome = p.payload.isSome ∧
      ∃ l, Spec.Tiles rest l ∧ Spec.Only l [1, 2, 3, 4] ∧ Spec.PacketOrder l ∧
        Spec.Parsed l 2 ContentObject.parse [p.body] ∧ Spec.Parsed l 3 (ValidationAlg.parse now) p.alg.toList ∧
        Spec.Parsed l 4 valPayloadParse p.payload.toList := by
  obtain ⟨f', hf', hl⟩ := header_of_isHeader h rest
  cases Except.ok.inj (hf.symm.trans hf')
  rw [C66_packet, hf]
  constructor
  · rintro ⟨e, hs, l, ht, r⟩
    cases Except.ok.inj e
    rw [hl, List.drop_left] at ht
    exact ⟨rfl, hs, l, ht, r⟩
  · rintro ⟨rfl, hs, l, ht, r⟩
    refine ⟨rfl, hs, l, ?_, r⟩
    rw [hl, List.drop_left]
    exact ht

theorem order_interest {l : List Tlv} {v : Bytes} (h : Spec.PacketOrder l) : Spec.PacketOrder (⟨1, v⟩ :: l) := by
  constructor
  · intro pre t post e ht
    cases pre with
    | nil => cases e; exact absurd ht (by show (1 : Nat) ≠ 4; decide)
    | cons x pre =>
      injection e with e1 e2
      obtain ⟨a, ha, h3⟩ := h.1 pre t post e2 ht
      exact ⟨a, List.mem_cons_of_mem _ ha, h3⟩
  · intro pre t post e ht b hb
    cases pre with
    | nil => cases hb
    | cons x pre =>
      injection e with e1 e2
      rcases List.mem_cons.mp hb with rfl | hb
      · rw [← e1]; show (1 : Nat) ≠ 2; decide
      · exact h.2 pre t post e2 ht b hb

theorem order_types {l l' : List Tlv} (h : l.map Tlv.type = l'.map Tlv.type) (ho : Spec.PacketOrder l) : Spec.PacketOrder l' := by
  have split : ∀ {pre post : List Tlv} {t : Tlv}, l' = pre ++ t :: post → ∃ pre' t' post', l = pre' ++ t' :: post' ∧
      pre'.map Tlv.type = pre.map Tlv.type ∧ t'.type = t.type := by
    intro pre post t e
    rw [e, List.map_append, List.map_cons] at h
    obtain ⟨a, b, rfl, ha, hb⟩ := List.map_eq_append_iff.mp h
    obtain ⟨c, d, rfl, hc, hd⟩ := List.map_eq_cons_iff.mp hb
    exact ⟨a, c, d, rfl, ha, hc⟩
  constructor
  · intro pre t post e ht
    obtain ⟨pre', t', post', e', h1, h2⟩ := split e
    obtain ⟨a, ha, h3⟩ := ho.1 pre' t' post' e' (h2.trans ht)
    have : a.type ∈ pre.map Tlv.type := h1 ▸ List.mem_map_of_mem ha
    obtain ⟨b, hb, hb3⟩ := List.mem_map.mp this
    exact ⟨b, hb, hb3.trans h3⟩
  · intro pre t post e ht b hb
    obtain ⟨pre', t', post', e', h1, h2⟩ := split e
    have : b.type ∈ pre'.map Tlv.type := h1 ▸ List.mem_map_of_mem hb
    obtain ⟨a, ha, hat⟩ := List.mem_map.mp this
    rw [← hat]
    exact ho.2 pre' t' post' e' (h2.trans ht) a ha

/-- A TLV replaced by one of the same type that parses to the same. -/
theorem parsed_recode {α : Type} {m1 m2 : List Tlv} {x x' : Tlv} {ty : Nat} {f : Tlv → Py α} {xs : List α}
    (h : x'.type = x.type) (hf : x.type = ty → ∀ a, f x = .ok a → f x' = .ok a) (hp : Spec.Parsed (m1 ++ x :: m2) ty f xs) :
    Spec.Parsed (m1 ++ x' :: m2) ty f xs := by
  by_cases ht : x.type = ty
  · unfold Spec.Parsed at hp ⊢
    rw [List.filter_append, List.filter_cons, if_pos (by simp [ht]), List.mapM_append, List.mapM_cons] at hp
    rw [List.filter_append, List.filter_cons, if_pos (by simp [h, ht]), List.mapM_append, List.mapM_cons]
    obtain ⟨as, ha, hp⟩ := bind_eq_ok.mp hp
    obtain ⟨bs, hb, hp⟩ := bind_eq_ok.mp hp
    obtain ⟨b, hb1, hb⟩ := bind_eq_ok.mp hb
    rw [ha, hf ht b hb1]
    show (_ >>= fun bs => _) = _
    rw [ok_bind, ok_bind, hb, ok_bind]
    exact hp
  · rw [parsed_skip ht] at hp
    rwa [parsed_skip (h ▸ ht)]

/-- C95: a packet written in another way is accepted as the same packet: same fields, same hash, same validation verdict. -/
theorem C95_recoded (now : F64) (b b' : Bytes) (p : Packet) (h : Spec.Recoded b b') (hp : Packet.deserialize now b = .ok p) :
    ∃ q, Packet.deserialize now b' = .ok q ∧ Spec.Indistinct p q := by
  cases h with
  | header hd hd' rest h h' =>
    obtain ⟨f, hf, _⟩ := header_of_isHeader h rest
    obtain ⟨f', hf', _⟩ := header_of_isHeader h' rest
    obtain ⟨rfl, r⟩ := (deserialize_split h hf p).mp hp
    exact ⟨{ p with header := f' }, (deserialize_split h' hf' _).mpr ⟨rfl, r⟩, Indistinct.of_fields rfl rfl rfl⟩
  | interest hd v rest h hv =>
    obtain ⟨f, hf, _⟩ := header_of_isHeader h rest
    obtain ⟨f', hf', _⟩ := header_of_isHeader h (Spec.enc ⟨1, v⟩ ++ rest)
    obtain ⟨rfl, hs, l, ht, ho, hor, r⟩ := (deserialize_split h hf p).mp hp
    rw [List.append_assoc]
    refine ⟨{ p with header := f' }, (deserialize_split h hf' _).mpr ⟨rfl, hs, ⟨1, v⟩ :: l, ?_, ?_, order_interest hor, ?_⟩,
      Indistinct.of_fields rfl rfl rfl⟩
    · refine ⟨?_, ?_⟩
      · intro t htm
        rcases List.mem_cons.mp htm with rfl | htm
        · exact ⟨by show (1 : Nat) ≤ _; decide, hv⟩
        · exact ht.1 t htm
      · rw [List.flatMap_cons, ← ht.2]; rfl
    · intro t htm
      rcases List.mem_cons.mp htm with rfl | htm
      · simp
      · exact ho t htm
    · refine ⟨(parsed_skip (m1 := []) ?_).mpr r.1, (parsed_skip (m1 := []) ?_).mpr r.2.1, (parsed_skip (m1 := []) ?_).mpr r.2.2⟩
      · show (1 : Nat) ≠ 2; decide
      · show (1 : Nat) ≠ 3; decide
      · show (1 : Nat) ≠ 4; decide
  | sections hd l l' h hs hperm ho' =>
    obtain ⟨f, hf, _⟩ := header_of_isHeader h (Spec.encs l)
    obtain ⟨f', hf', _⟩ := header_of_isHeader h (Spec.encs l')
    obtain ⟨rfl, hsm, k, ht, ho, hor, r1, r2, r3⟩ := (deserialize_split h hf p).mp hp
    cases tiles_unique ht (tiles_encs hs)
    exact ⟨{ p with header := f' }, (deserialize_split h hf' _).mpr ⟨rfl, hsm, l',
      tiles_encs (fun x hx => hs x (hperm.mem_iff.mpr hx)), fun x hx => ho x (hperm.mem_iff.mpr hx), ho',
      parsed_perm (o := some p.body) hperm r1, parsed_perm hperm r2, parsed_perm hperm r3⟩, Indistinct.of_fields rfl rfl rfl⟩
  | inside hd pre post t t' h hs htt =>
    obtain ⟨f, hf, _⟩ := header_of_isHeader h (Spec.encs (pre ++ t :: post))
    obtain ⟨f', hf', _⟩ := header_of_isHeader h (Spec.encs (pre ++ t' :: post))
    obtain ⟨rfl, hsm, k, ht, ho, hor, r1, r2, r3⟩ := (deserialize_split h hf p).mp hp
    have s1 : ∀ x ∈ pre ++ t :: post, Spec.Short x := fun x hx => hs x (by
      rcases List.mem_append.mp hx with hx | hx
      · simp [hx]
      · rcases List.mem_cons.mp hx with hx | hx <;> simp [hx])
    have s2 : ∀ x ∈ pre ++ t' :: post, Spec.Short x := fun x hx => hs x (by
      rcases List.mem_append.mp hx with hx | hx
      · simp [hx]
      · rcases List.mem_cons.mp hx with hx | hx <;> simp [hx])
    cases tiles_unique ht (tiles_encs s1)
    have hty := tlvRecoded_type htt
    refine ⟨{ p with header := f' }, (deserialize_split h hf' _).mpr ⟨rfl, hsm, _, tiles_encs s2, only_replace hty.symm ho,
      order_types (by simp [hty]) hor, parsed_recode hty (fun _ a ha => object_recoded htt ha) r1,
      parsed_recode hty (fun _ a ha => alg_recoded htt ha) r2, parsed_recode hty (fun e4 a ha => ?_) r3⟩, Indistinct.of_fields rfl rfl rfl⟩
    exfalso
    cases htt <;> cases e4

theorem Indistinct.trans {p q r : Packet} (h : Spec.Indistinct p q) (h' : Spec.Indistinct q r) : Spec.Indistinct p r :=
  Indistinct.of_fields (h.body.trans h'.body) (h.alg.trans h'.alg) (h.payload.trans h'.payload)

/-- C95: the same after any number of changes. -/
theorem C95_recodings (now : F64) (b b' : Bytes) (p : Packet) (h : Spec.Recodings b b') (hp : Packet.deserialize now b = .ok p) :
    ∃ q, Packet.deserialize now b' = .ok q ∧ Spec.Indistinct p q := by
  induction h with
  | same => exact ⟨p, hp, Indistinct.of_fields rfl rfl rfl⟩
  | step b c _ hs ih =>
    obtain ⟨q, hq, hi⟩ := ih
    obtain ⟨r, hr, hj⟩ := C95_recoded now _ _ q hs hq
    exact ⟨r, hr, Indistinct.trans hi hj⟩

theorem isHeader_of_read {buf : Bytes} {f : FixedHeader} (h : FixedHeader.deserialize buf = .ok f) (hl : f.headerLength ≤ buf.length) :
    Spec.IsHeader (buf.take f.headerLength) := by
  unfold FixedHeader.deserialize at h
  split at h
  · rename_i b0 b1 b2 b3 b4 b5 b6 b7 r
    dsimp only at h
    split at h
    · cases h
    rename_i hv
    split at h
    · cases h
    rename_i hp
    split at h
    · cases h
    rename_i hh
    cases h
    have e0 : b0 = 1 := UInt8.toNat_inj.mp (by simpa using hv)
    subst e0
    simp only at hl ⊢
    obtain ⟨k, hk⟩ : ∃ k, b7.toNat = k + 8 := ⟨b7.toNat - 8, by omega⟩
    refine ⟨b1, b2, b3, b4, b5, b6, b7, r.take k, ?_, by omega, ?_⟩
    · rw [hk]; rfl
    · simp only [List.length_cons] at hl
      rw [List.length_take]
      omega
  · cases h

/-- C95: for every accepted packet there are infinitely many other byte strings that are accepted as the same packet. -/
theorem C95_infinitely_many (now : F64) (buf : Bytes) (p : Packet) (h : Packet.deserialize now buf = .ok p) :
    ∃ f : Nat → Bytes, (∀ m n, f m = f n → m = n) ∧
      ∀ n, ∃ q, Packet.deserialize now (f n) = .ok q ∧ Spec.Indistinct p q := by
  obtain ⟨_, _, hlt, _⟩ := C20_packet_structure now buf p h
  have hhd := ((C66_packet now buf p).mp h).1
  have hd := isHeader_of_read hhd (Nat.le_of_lt hlt)
  let hdr := buf.take p.header.headerLength
  let rest := buf.drop p.header.headerLength
  let f : Nat → Bytes := fun n => hdr ++ (Spec.encs (List.replicate n ⟨1, []⟩) ++ rest)
  refine ⟨f, ?_, ?_⟩
  · intro m n e
    have := congrArg List.length e
    have len : ∀ n, (Spec.encs (List.replicate n (⟨1, []⟩ : Tlv))).length = n * 4 := by
      intro n
      unfold Spec.encs
      rw [List.length_flatMap]
      simp [Spec.enc, be16]
    simp only [f, List.length_append, len] at this
    omega
  · intro n
    apply C95_recodings now buf (f n) p ?_ h
    induction n with
    | zero =>
      have : f 0 = buf := by simp [f, hdr, rest, Spec.encs]
      rw [this]; exact .same _
    | succ n ih =>
      refine .step _ _ _ ih ?_
      have e : f (n + 1) = hdr ++ Spec.enc ⟨1, []⟩ ++ (Spec.encs (List.replicate n ⟨1, []⟩) ++ rest) := by
        simp [f, Spec.encs, List.replicate_succ]
      rw [e]
      exact .interest hdr [] _ hd (by decide)

/-- C95, what the hash does bind: two received packets that feed the same bytes to the hash function agree in all fields,
if their times and final chunk ids are exact (`C16`, `C06`). -/
theorem C95_hash_binds_fields (now now' : F64) (b b' : Bytes) (p q : Packet) (hp : Packet.deserialize now b = .ok p)
    (hq : Packet.deserialize now' b' = .ok q) (hin : p.hashInput = q.hashInput)
    (hpf : ∀ n, p.body.finalChunkId = some n → n < 2 ^ 64) (hqf : ∀ n, q.body.finalChunkId = some n → n < 2 ^ 64)
    (hpe : ∀ e, p.body.expiryTime = some e → e.milliseconds < 2 ^ 64 ∧ secondsOfMsec e.milliseconds = e)
    (hqe : ∀ e, q.body.expiryTime = some e → e.milliseconds < 2 ^ 64 ∧ secondsOfMsec e.milliseconds = e)
    (hps : ∀ k l s, p.alg = some (.rsaSha256 k l s) → s.milliseconds < 2 ^ 64 ∧ secondsOfMsec s.milliseconds = s)
    (hqs : ∀ k l s, q.alg = some (.rsaSha256 k l s) → s.milliseconds < 2 ^ 64 ∧ secondsOfMsec s.milliseconds = s) :
    Spec.Indistinct p q := by
  have ser : ∀ {now : F64} {b : Bytes} {p : Packet}, Packet.deserialize now b = .ok p → ∃ w, p.serialize = .ok w := by
    intro now b p h
    obtain ⟨hd, hhd, h⟩ := bind_eq_ok.mp h
    obtain ⟨s, hs, h⟩ := bind_eq_ok.mp h
    obtain ⟨b, a, v⟩ := s
    cases b with
    | none => cases h
    | some b =>
      simp only [mkPacket] at h
      split at h
      · cases h
      obtain ⟨w, hw, h⟩ := bind_eq_ok.mp h
      cases h
      exact ⟨w, hw⟩
  obtain ⟨wp, hwp⟩ := ser hp
  obtain ⟨wq, hwq⟩ := ser hq
  obtain ⟨e1, e2, e3⟩ := (C19_hash_covers_exactly p q wp wq hwp hwq).mp hin
  obtain ⟨_, _, lp, _, _, _, pb, pa, pv⟩ := (C66_packet now b p).mp hp
  obtain ⟨_, _, lq, _, _, _, qb, qa, qv⟩ := (C66_packet now' b' q).mp hq
  apply Indistinct.of_fields
  · obtain ⟨t, _, _, ht⟩ := parsed_one pb
    obtain ⟨u, _, _, hu⟩ := parsed_one qb
    obtain ⟨wt, hwt⟩ := ContentObject.fits_of_parse ht
    obtain ⟨wu, hwu⟩ := ContentObject.fits_of_parse hu
    have a1 := ofWire_of_RT (contentObject_RT (c := p.body) ⟨hpf, hpe⟩) (wireOf_of_tlv hwt (ContentObject.tlv_ok hwt).2) []
    have a2 := ofWire_of_RT (contentObject_RT (c := q.body) ⟨hqf, hqe⟩) (wireOf_of_tlv hwu (ContentObject.tlv_ok hwu).2) []
    rw [ContentObject.parse_toBytes ht] at a1
    rw [ContentObject.parse_toBytes hu] at a2
    have ew : wt.bytes = wu.bytes := by
      rw [wireOf_of_tlv hwt (ContentObject.tlv_ok hwt).2, wireOf_of_tlv hwu (ContentObject.tlv_ok hwu).2] at e1
      exact Except.ok.inj e1
    rw [ew, a2] at a1
    exact (Except.ok.inj a1).symm
  · have wire : ∀ {a : ValidationAlg} {t : Tlv} {now : F64}, ValidationAlg.parse now t = .ok a →
        (∀ k l s, a = .rsaSha256 k l s → s.milliseconds < 2 ^ 64 ∧ secondsOfMsec s.milliseconds = s) →
        ∃ u, a.tlv = .ok u ∧ u.Valid ∧ ValidationAlg.parse ⟨0, 1⟩ u = .ok a := by
      intro a t now h hst
      obtain ⟨u, hu⟩ := ValidationAlg.fits_of_parse h
      have hr : a.Readable := by
        cases a with
        | crc32c => trivial
        | rsaSha256 k l s => exact ⟨rsaParse_shape h k l s rfl, hst k l s rfl⟩
      obtain ⟨_, _, hpar⟩ := validationAlg_RT ⟨0, 1⟩ hr u hu
      exact ⟨u, hu, (ValidationAlg.tlv_ok hu).2, hpar⟩
    cases ha : p.alg with
    | none =>
      cases hb : q.alg with
      | none => rfl
      | some y =>
        rw [hb] at qa
        obtain ⟨u, _, _, hu⟩ := parsed_one qa
        obtain ⟨u', hu', hv', _⟩ := wire hu (fun k l s e => hqs k l s (by rw [hb, e]))
        rw [ha, hb] at e2
        simp only [optWire] at e2
        rw [wireOf_of_tlv hu' hv'] at e2
        exact absurd (Except.ok.inj e2).symm (tlv_len_pos u')
    | some x =>
      rw [ha] at pa
      obtain ⟨t, _, _, ht⟩ := parsed_one pa
      obtain ⟨t', ht', hv, ht2⟩ := wire ht (fun k l s e => hps k l s (by rw [ha, e]))
      cases hb : q.alg with
      | none =>
        rw [ha, hb] at e2
        simp only [optWire] at e2
        rw [wireOf_of_tlv ht' hv] at e2
        exact absurd (Except.ok.inj e2) (tlv_len_pos t')
      | some y =>
        rw [hb] at qa
        obtain ⟨u, _, _, hu⟩ := parsed_one qa
        obtain ⟨u', hu', hv', hu2⟩ := wire hu (fun k l s e => hqs k l s (by rw [hb, e]))
        rw [ha, hb] at e2
        simp only [optWire] at e2
        rw [wireOf_of_tlv ht' hv, wireOf_of_tlv hu' hv'] at e2
        have d1 := Tlv.deserialize_bytes t' hv []
        have d2 := Tlv.deserialize_bytes u' hv' []
        rw [Except.ok.inj e2, d2] at d1
        cases Except.ok.inj d1
        rw [ht2] at hu2
        rw [Except.ok.inj hu2]
  · have wire : ∀ {v : Bytes} {t : Tlv}, valPayloadParse t = .ok v → wireOf valPayloadTlv v = .ok (Spec.enc ⟨4, v⟩) := by
      intro v t h
      obtain ⟨u, hu⟩ := valPayload_fits_of_parse h
      obtain ⟨rfl, hv⟩ := mkTlv_ok hu
      exact wireOf_of_tlv hu hv
    cases ha : p.payload with
    | none =>
      cases hb : q.payload with
      | none => rfl
      | some y =>
        rw [hb] at qv
        obtain ⟨u, _, _, hu⟩ := parsed_one qv
        rw [ha, hb] at e3
        simp only [optWire] at e3
        rw [wire hu] at e3
        exact absurd (Except.ok.inj e3).symm (tlv_len_pos ⟨4, y⟩)
    | some x =>
      rw [ha] at pv
      obtain ⟨t, _, _, ht⟩ := parsed_one pv
      cases hb : q.payload with
      | none =>
        rw [ha, hb] at e3
        simp only [optWire] at e3
        rw [wire ht] at e3
        exact absurd (Except.ok.inj e3) (tlv_len_pos ⟨4, x⟩)
      | some y =>
        rw [hb] at qv
        obtain ⟨u, _, _, hu⟩ := parsed_one qv
        rw [ha, hb] at e3
        simp only [optWire] at e3
        rw [wire ht, wire hu] at e3
        have s1 : Spec.Short ⟨4, x⟩ := by
          obtain ⟨t1, h1⟩ := valPayload_fits_of_parse ht
          obtain ⟨rfl, hv⟩ := mkTlv_ok h1
          exact hv
        have s2 : Spec.Short ⟨4, y⟩ := by
          obtain ⟨t1, h1⟩ := valPayload_fits_of_parse hu
          obtain ⟨rfl, hv⟩ := mkTlv_ok h1
          exact hv
        have d1 := deserialize_enc s1 []
        have d2 := deserialize_enc s2 []
        rw [Except.ok.inj e3, d2] at d1
        cases Except.ok.inj d1
        rfl

/-- C95: an RSA section without a signature time gets the time of reading; so the same bytes, read at two different
milliseconds, are packets with different hash inputs. -/
theorem C95_no_signature_time (now now' : F64) (hd : Bytes) (l1 l2 m : List Tlv) (tail : Bytes) (p p' : Packet)
    (h : Spec.IsHeader hd) (hs : ∀ x ∈ l1 ++ (⟨3, Spec.enc ⟨4, Spec.encs m⟩ ++ tail⟩ : Tlv) :: l2, Spec.Short x)
    (hm : ∀ x ∈ m, Spec.Short x ∧ x.type ≠ 0xF) (hl : (Spec.encs m).length ≤ 0xFFFF)
    (hp : Packet.deserialize now (hd ++ Spec.encs (l1 ++ ⟨3, Spec.enc ⟨4, Spec.encs m⟩ ++ tail⟩ :: l2)) = .ok p)
    (hp' : Packet.deserialize now' (hd ++ Spec.encs (l1 ++ ⟨3, Spec.enc ⟨4, Spec.encs m⟩ ++ tail⟩ :: l2)) = .ok p') :
    ∃ k, p.alg = some (.rsaSha256 k none now) ∧ p'.alg = some (.rsaSha256 k none now') ∧ p.body = p'.body ∧
      p.payload = p'.payload ∧
      (now.milliseconds < 2 ^ 64 → now'.milliseconds < 2 ^ 64 → now.milliseconds ≠ now'.milliseconds →
        p.hashInput ≠ p'.hashInput) := by
  obtain ⟨f, hf, _⟩ := header_of_isHeader h (Spec.encs (l1 ++ ⟨3, Spec.enc ⟨4, Spec.encs m⟩ ++ tail⟩ :: l2))
  have sh : Spec.Short ⟨4, Spec.encs m⟩ := ⟨by show (4 : Nat) ≤ _; decide, hl⟩
  have key : ∀ {now : F64} {p : Packet},
      Packet.deserialize now (hd ++ Spec.encs (l1 ++ ⟨3, Spec.enc ⟨4, Spec.encs m⟩ ++ tail⟩ :: l2)) = .ok p →
      (l1 ++ (⟨3, Spec.enc ⟨4, Spec.encs m⟩ ++ tail⟩ : Tlv) :: l2).filter (fun t => t.type == 2) ≠ [] ∧
      ((l1 ++ (⟨3, Spec.enc ⟨4, Spec.encs m⟩ ++ tail⟩ : Tlv) :: l2).filter (fun t => t.type == 2)).mapM ContentObject.parse = .ok [p.body] ∧
      ((l1 ++ (⟨3, Spec.enc ⟨4, Spec.encs m⟩ ++ tail⟩ : Tlv) :: l2).filter (fun t => t.type == 4)).mapM valPayloadParse = .ok p.payload.toList ∧
      ∃ k ks, Spec.Parsed m T_KEYID (hashParse T_KEYID) ks ∧ ks.getLast? = some k ∧ p.alg = some (.rsaSha256 k none now) := by
    intro now p hp
    obtain ⟨rfl, hsm, k, ht, ho, hor, r1, r2, r3⟩ := (deserialize_split h hf p).mp hp
    cases tiles_unique ht (tiles_encs hs)
    refine ⟨?_, r1, r3, ?_⟩
    · intro e
      unfold Spec.Parsed at r1
      rw [e] at r1
      cases Except.ok.inj r1
    · cases ha : p.alg with
      | none =>
        rw [ha] at r2
        unfold Spec.Parsed at r2
        rw [List.filter_append, List.filter_cons, if_pos (by rfl), List.mapM_append, List.mapM_cons] at r2
        obtain ⟨as, _, r2⟩ := bind_eq_ok.mp r2
        obtain ⟨bs, hb, r2⟩ := bind_eq_ok.mp r2
        obtain ⟨b, _, hb⟩ := bind_eq_ok.mp hb
        obtain ⟨c, _, hb⟩ := bind_eq_ok.mp hb
        cases Except.ok.inj hb
        have := congrArg List.length (Except.ok.inj r2)
        simp at this
      | some a =>
        rw [ha] at r2
        unfold Spec.Parsed at r2
        rw [List.filter_append, List.filter_cons, if_pos (by rfl), List.mapM_append, List.mapM_cons] at r2
        obtain ⟨as, _, r2⟩ := bind_eq_ok.mp r2
        obtain ⟨bs, hb, r2⟩ := bind_eq_ok.mp r2
        obtain ⟨b, hb1, hb⟩ := bind_eq_ok.mp hb
        obtain ⟨c, _, hb⟩ := bind_eq_ok.mp hb
        cases Except.ok.inj hb
        have e := Except.ok.inj r2
        have eb : b = a := by
          cases as with
          | nil => injection e
          | cons x xs =>
            have := congrArg List.length e
            simp at this
        subst eb
        unfold ValidationAlg.parse at hb1
        simp only [deserialize_enc sh, ok_bind] at hb1
        have hb2 : ValidationAlg.rsaParse now ⟨4, Spec.encs m⟩ = .ok b := hb1
        obtain ⟨_, _, l, hl', hno, ks, ts, k, h1, h2, h3, rfl⟩ := (C67_rsa now _ b).mp hb2
        cases tiles_unique hl' (tiles_encs (fun x hx => (hm x hx).1))
        have hts : ts = [] := by
          unfold Spec.Parsed at h3
          have : m.filter (fun t => t.type == T_SIGTIME) = [] :=
            List.filter_eq_nil_iff.mpr (fun x hx => by simpa [T_SIGTIME] using (hm x hx).2)
          rw [this] at h3
          exact (Except.ok.inj h3).symm
        subst hts
        exact ⟨k, ks, h1, h2, rfl⟩
  obtain ⟨_, b1, v1, k, ks, hk, hkl, ha⟩ := key hp
  obtain ⟨_, b2, v2, k', ks', hk', hkl', ha'⟩ := key hp'
  cases Except.ok.inj (hk.symm.trans hk')
  cases hkl.symm.trans hkl'
  have hbody : p.body = p'.body := by
    have := Except.ok.inj (b1.symm.trans b2)
    injection this
  have hpay : p.payload = p'.payload := toList_inj.mp (Except.ok.inj (v1.symm.trans v2))
  refine ⟨k, ha, ha', hbody, hpay, ?_⟩
  intro n1 n2 hne hin
  have ser : ∀ {now : F64} {b : Bytes} {p : Packet}, Packet.deserialize now b = .ok p → ∃ w, p.serialize = .ok w := by
    intro now b p h
    obtain ⟨hd, hhd, h⟩ := bind_eq_ok.mp h
    obtain ⟨s, hs, h⟩ := bind_eq_ok.mp h
    obtain ⟨b, a, v⟩ := s
    cases b with
    | none => cases h
    | some b =>
      simp only [mkPacket] at h
      split at h
      · cases h
      obtain ⟨w, hw, h⟩ := bind_eq_ok.mp h
      cases h
      exact ⟨w, hw⟩
  obtain ⟨wp, hwp⟩ := ser hp
  obtain ⟨wq, hwq⟩ := ser hp'
  obtain ⟨_, e2, _⟩ := (C19_hash_covers_exactly p p' wp wq hwp hwq).mp hin
  rw [ha, ha'] at e2
  obtain ⟨_, _, la, _, _, _, _, hla, hva, _⟩ := Packet.serialize_ok hwp
  obtain ⟨_, _, la', _, _, _, _, hla', hva', _⟩ := Packet.serialize_ok hwq
  rw [ha] at hla
  rw [ha'] at hla'
  obtain ⟨t, ht, rfl⟩ := optTlv_some hla
  obtain ⟨t', ht', rfl⟩ := optTlv_some hla'
  have hv := hva t (by simp)
  have hv' := hva' t' (by simp)
  simp only [optWire] at e2
  rw [wireOf_of_tlv ht hv, wireOf_of_tlv ht' hv'] at e2
  have ett : t = t' := by
    have d1 := Tlv.deserialize_bytes t hv []
    have d2 := Tlv.deserialize_bytes t' hv' []
    rw [Except.ok.inj e2, d2] at d1
    exact (Except.ok.inj d1).symm
  subst ett
  simp only [ValidationAlg.tlv, optTlv, timestampTlv_eq (ty := T_SIGTIME) (by decide) n1,
    timestampTlv_eq (ty := T_SIGTIME) (by decide) n2] at ht ht'
  obtain ⟨a, ha1, ht⟩ := bind_eq_ok.mp ht
  obtain ⟨a', ha1', ht'⟩ := bind_eq_ok.mp ht'
  cases Except.ok.inj (ha1.symm.trans ha1')
  obtain ⟨o, ho, ht⟩ := bind_eq_ok.mp ht
  obtain ⟨o', ho', ht'⟩ := bind_eq_ok.mp ht'
  cases Except.ok.inj ho
  cases Except.ok.inj ho'
  rw [ok_bind] at ht ht'
  obtain ⟨i, hi, ht⟩ := bind_eq_ok.mp ht
  obtain ⟨i', hi', ht'⟩ := bind_eq_ok.mp ht'
  obtain ⟨c1, rfl, _⟩ := container_ok ht
  obtain ⟨c1', e3, _⟩ := container_ok ht'
  injection e3 with _ e3
  have e4 : i = i' := by
    have := bytesAll_inj c1 c1' e3
    injection this
  subst e4
  obtain ⟨c2, rfl, _⟩ := container_ok hi
  obtain ⟨c2', e5, _⟩ := container_ok hi'
  injection e5 with _ e5
  have e6 := bytesAll_inj c2 c2' e5
  simp only [List.append_nil, List.cons_append, List.nil_append, List.cons.injEq, true_and, and_true, Tlv.mk.injEq] at e6
  have := congrArg arrayToNumber e6
  rw [arrayToNumber_beBytes, arrayToNumber_beBytes] at this
  rw [Nat.mod_eq_of_lt (by simpa using n1), Nat.mod_eq_of_lt (by simpa using n2)] at this
  exact hne this

/-! ### Examples -/

/-- A packet signed with an RSA key: a name, payload type, payload and final chunk id, and a section with key id and time. -/
def signedWire : Bytes :=
  [1, 1, 0, 90, 0, 0, 0, 8] ++ Spec.encs
    [⟨2, Spec.encs [⟨0, Spec.enc ⟨1, [97, 98]⟩⟩, ⟨5, [0]⟩, ⟨1, [1, 2, 3]⟩, ⟨7, [9]⟩]⟩,
     ⟨3, Spec.enc ⟨4, Spec.encs [⟨9, Spec.enc ⟨1, [7, 7]⟩⟩, ⟨15, [0, 0, 1, 0, 0, 0, 0, 0]⟩]⟩⟩,
     ⟨4, [5, 5, 5]⟩]

/-- The same packet with another header (with four bytes of hop-by-hop headers), an Interest, the validation sections in
front, the members of the body in another order, zeros in front of numbers, and rubbish in the RSA section. -/
def recodedWire : Bytes :=
  [1, 200, 255, 255, 1, 2, 3, 12, 4, 5, 6, 7] ++ Spec.encs
    [⟨1, [66]⟩,
     ⟨3, Spec.enc ⟨4, Spec.encs [⟨9, Spec.enc ⟨2, [8]⟩⟩, ⟨77, []⟩, ⟨9, Spec.enc ⟨1, [7, 7]⟩ ++ [1, 1]⟩, ⟨15, [0, 0, 1, 0, 0, 0, 0, 0]⟩]⟩ ++ [0, 0, 0]⟩,
     ⟨4, [5, 5, 5]⟩,
     ⟨2, Spec.encs [⟨7, [0, 0, 9]⟩, ⟨1, [1, 2, 3]⟩, ⟨5, [0, 0]⟩, ⟨0, Spec.enc ⟨1, [97, 98]⟩⟩]⟩]

set_option maxRecDepth 100000 in
example : signedWire ≠ recodedWire ∧
    (Packet.deserialize (F64.ofNat 0) signedWire).map (fun p => (p.body, p.alg, p.payload)) =
      (Packet.deserialize (F64.ofNat 0) recodedWire).map (fun p => (p.body, p.alg, p.payload)) ∧
    (Packet.deserialize (F64.ofNat 0) recodedWire).toOption.isSome = true := by decide +kernel

/-- The first steps from one to the other. -/
example : Spec.Recoded ([1, 1, 0, 90, 0, 0, 0, 8] ++ Spec.enc ⟨2, []⟩) ([1, 200, 255, 255, 1, 2, 3, 12, 4, 5, 6, 7] ++ Spec.enc ⟨2, []⟩) :=
  .header _ _ _ ⟨_, _, _, _, _, _, _, [], rfl, by decide, by decide⟩ ⟨_, _, _, _, _, _, _, [4, 5, 6, 7], rfl, by decide, by decide⟩
example : Spec.TlvRecoded ⟨2, Spec.encs [⟨5, [0]⟩, ⟨1, [1, 2, 3]⟩, ⟨7, [9]⟩]⟩ ⟨2, Spec.encs [⟨1, [1, 2, 3]⟩, ⟨5, [0]⟩, ⟨7, [9]⟩]⟩ :=
  .members _ _ (.swap _ _ _) (by simp [Spec.Short])
example : Spec.TlvRecoded ⟨2, Spec.encs [⟨5, [0]⟩, ⟨7, [9]⟩]⟩ ⟨2, Spec.encs [⟨5, [0]⟩, ⟨7, [0, 0, 9]⟩]⟩ :=
  .number [⟨5, [0]⟩] [] 7 (by simp) [9] 2 (by simp [Spec.Short]) (by simp [Spec.zeros])
example : Spec.RsaRecoded [⟨9, Spec.enc ⟨1, [7, 7]⟩⟩] [⟨9, Spec.enc ⟨2, [8]⟩⟩, ⟨9, Spec.enc ⟨1, [7, 7]⟩⟩] :=
  .overwritten [] _ ⟨2, [8]⟩ (by simp [Spec.Short]) ⟨_, List.mem_cons_self, rfl⟩

/-- A section without a signature time, as in `C95_no_signature_time`. -/
example : (Packet.deserialize (F64.ofNat 5) ([1, 1, 0, 90, 0, 0, 0, 8] ++ Spec.encs
    ([⟨2, Spec.encs [⟨1, [1, 2, 3]⟩]⟩] ++ ⟨3, Spec.enc ⟨4, Spec.encs [⟨9, Spec.enc ⟨1, [7, 7]⟩⟩]⟩ ++ []⟩ :: [⟨4, [5]⟩]))).toOption.isSome = true := by
  decide +kernel

end Ccnpy
