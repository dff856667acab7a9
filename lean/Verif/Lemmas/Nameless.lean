import Verif.Lemmas.EndToEnd

/-!
# Content objects without a name
-/

namespace Ccnpy

/-- A content object that has a payload type and a payload only. -/
def namelessObject (ty : Nat) (w : Bytes) : ContentObject := { payloadType := some ty, payload := some w }

theorem nameless_tlv {ty : Nat} (ht : ty < 256) {w : Bytes} (hw : w.length + 9 ≤ 0xFFFF) :
    ∃ t, (namelessObject ty w).tlv = .ok t ∧ t.Valid ∧ t.len = w.length + 13 := by
  have h1 : payloadTypeTlv ty = .ok ⟨T_PAYLDTYPE, [UInt8.ofNat ty]⟩ := by
    have hb : numberToArray ty = .ok (beBytes 1 ty) := by
      rw [numberToArray_nat]
      simp [numWidth, ht]
    unfold payloadTypeTlv createUint8
    rw [show pyAssert _ = .ok () from if_pos (by simp only [decide_eq_true_eq]; omega), ok_bind, hb, ok_bind]
    rw [show beBytes 1 ty = [UInt8.ofNat ty] by simp [beBytes, Nat.mod_eq_of_lt ht]]
    exact mkTlv_of_valid (t := ⟨T_PAYLDTYPE, _⟩) ⟨by show (5 : Nat) ≤ _; omega, by show (1 : Nat) ≤ _; omega⟩
  have h2 : octetTlv T_PAYLOAD w = .ok ⟨T_PAYLOAD, w⟩ :=
    mkTlv_of_valid (t := ⟨T_PAYLOAD, w⟩) ⟨by show (1 : Nat) ≤ _; omega, by show w.length ≤ _; omega⟩
  have hm : (namelessObject ty w).members = .ok [⟨T_PAYLDTYPE, [UInt8.ofNat ty]⟩, ⟨T_PAYLOAD, w⟩] := by
    unfold ContentObject.members namelessObject
    simp only [optTlv, h1, h2, ok_bind, pure_eq_ok]
    rfl
  have hl : (bytesAll [(⟨T_PAYLDTYPE, [UInt8.ofNat ty]⟩ : Tlv), ⟨T_PAYLOAD, w⟩]).length = w.length + 9 := by
    simp only [bytesAll_cons, bytesAll_nil, List.length_append, Tlv.bytes_length, Tlv.len, Tlv.length, List.length_cons, List.length_nil]
    omega
  have hv : (⟨T_OBJECT, bytesAll [(⟨T_PAYLDTYPE, [UInt8.ofNat ty]⟩ : Tlv), ⟨T_PAYLOAD, w⟩]⟩ : Tlv).Valid := by
    refine ⟨by show (2 : Nat) ≤ _; omega, ?_⟩
    show List.length (bytesAll _) ≤ _
    rw [hl]
    exact hw
  refine ⟨_, ?_, hv, ?_⟩
  · unfold ContentObject.tlv
    rw [hm, ok_bind]
    refine container_of_valid ?_ hv
    intro t ht'
    rcases List.mem_cons.mp ht' with rfl | ht'
    · exact ⟨by show (5 : Nat) ≤ _; omega, by show (1 : Nat) ≤ _; omega⟩
    · rw [List.mem_singleton.mp ht']
      exact ⟨by show (1 : Nat) ≤ _; omega, by show w.length ≤ _; omega⟩
  · show 4 + List.length (bytesAll _) = _
    rw [hl]
    omega

theorem nameless_packet {ty : Nat} (ht : ty < 256) {w : Bytes} (hw : w.length + 21 ≤ 0xFFFF) (sha : Bytes → Bytes) :
    ∃ p hv b, Packet.createContentObject (namelessObject ty w) = .ok p ∧ p.body = namelessObject ty w ∧ p.alg = none ∧
      p.hash sha = .ok hv ∧ p.serialize = .ok b ∧ b.length = w.length + 21 := by
  obtain ⟨t, h1, h2, h3⟩ := nameless_tlv ht (w := w) (by omega)
  have hb : wireOf ContentObject.tlv (namelessObject ty w) = .ok t.bytes := wireOf_of_tlv h1 h2
  have hser : Packet.serialize ⟨FixedHeader.contentObject (8 + t.len), namelessObject ty w, none, none⟩ =
      .ok ([1, 1, UInt8.ofNat ((8 + t.len) / 256), UInt8.ofNat ((8 + t.len) % 256)] ++ [0, 0, 0] ++ [8] ++ t.bytes ++ [] ++ []) := by
    unfold Packet.serialize
    have hh : (FixedHeader.contentObject (8 + t.len)).serialize =
        .ok ([1, 1, UInt8.ofNat ((8 + t.len) / 256), UInt8.ofNat ((8 + t.len) % 256)] ++ [0, 0, 0] ++ [8]) := by
      unfold FixedHeader.serialize FixedHeader.contentObject packH
      rw [if_pos (show 8 + t.len ≤ 0xFFFF by omega)]
      rfl
    simp only [hh, hb, optWire, ok_bind, pure_eq_ok]
  obtain ⟨hv, hhash⟩ := Packet.hash_of_serialize (sha := sha) hser
  refine ⟨⟨FixedHeader.contentObject (8 + t.len), namelessObject ty w, none, none⟩, hv, _, ?_, rfl, rfl, hhash, hser, ?_⟩
  · unfold Packet.createContentObject
    rw [h1, ok_bind]
    unfold mkPacket
    rw [if_neg (by simp)]
    dsimp only
    rw [hser]
    rfl
  · simp only [List.length_append, List.length_cons, List.length_nil, Tlv.bytes_length, h3]
    omega

end Ccnpy
