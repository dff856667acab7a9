import Verif.Lemmas.Tlv
import Verif.Model.Flic

/-!
# The exceptions of reading packets

`PkOnly x`: if `x` is an exception, it is one of six.  The instances follow the structure of the definitions.
-/

namespace Ccnpy

/-- The exceptions that `Packet.deserialize` raises. -/
def PyErr.PkErr (e : PyErr) : Prop :=
  e ∈ [PyErr.parseError, .runtimeError, .valueError, .typeError, .assertionError, .overflowError]

/-- `x` is a value or one of them. -/
class PkOnly {α : Type} (x : Py α) : Prop where
  real : ∀ e, x = .error e → e.PkErr

theorem PkOnly.of {α : Type} {x : Py α} (h : ∀ e, x = .error e → e.PkErr) : PkOnly x := ⟨h⟩

instance {α : Type} (a : α) : PkOnly (.ok a : Py α) := ⟨by simp⟩
instance {α : Type} (a : α) : PkOnly (pure a : Py α) := ⟨fun _ h => by cases h⟩
instance {α : Type} : PkOnly (.error .parseError : Py α) := ⟨fun _ h => by cases h; simp [PyErr.PkErr]⟩
instance {α : Type} : PkOnly (.error .runtimeError : Py α) := ⟨fun _ h => by cases h; simp [PyErr.PkErr]⟩
instance {α : Type} : PkOnly (.error .valueError : Py α) := ⟨fun _ h => by cases h; simp [PyErr.PkErr]⟩
instance {α : Type} : PkOnly (.error .typeError : Py α) := ⟨fun _ h => by cases h; simp [PyErr.PkErr]⟩
instance {α : Type} : PkOnly (.error .assertionError : Py α) := ⟨fun _ h => by cases h; simp [PyErr.PkErr]⟩
instance {α : Type} : PkOnly (.error .overflowError : Py α) := ⟨fun _ h => by cases h; simp [PyErr.PkErr]⟩

instance instPkOnlyBind {α β : Type} (x : Py α) (f : α → Py β) [hx : PkOnly x] [hf : ∀ a, PkOnly (f a)] : PkOnly (x >>= f) := .of (by
  intro e h
  rcases bind_eq_error.mp h with h | ⟨a, _, h⟩
  · exact hx.real e h
  · exact (hf a).real e h)

instance {α : Type} (c : Prop) [Decidable c] (x y : Py α) [PkOnly x] [PkOnly y] : PkOnly (if c then x else y) := by
  split <;> assumption

instance {σ : Type} (step : σ → Tlv → Py σ) [h : ∀ s t, PkOnly (step s t)] (buf : Bytes) (s : σ) :
    PkOnly (tlvLoop step buf s) := .of (by
  intro e he
  by_cases hu : e.PkErr
  · exact hu
  · exfalso
    refine tlvLoop_ne_marker step e ?_ (fun s t hs => hu ((h s t).real e hs)) buf s he
    rintro rfl
    exact hu (by simp [PyErr.PkErr]))

instance (b : Bool) : PkOnly (pyAssert b) := by unfold pyAssert; infer_instance

instance (n : Int) : PkOnly (byte n) := by unfold byte; infer_instance
instance (l : List Int) : PkOnly (byteArray l) := by
  induction l with
  | nil => exact .of (by simp [byteArray, List.mapM_nil])
  | cons a l ih => unfold byteArray at *; rw [List.mapM_cons]; infer_instance

/-! ## TLV level -/

instance (n : Nat) : PkOnly (tlvEncode n) := by unfold tlvEncode; infer_instance
instance (t : Tlv) : PkOnly t.serialize := by unfold Tlv.serialize; infer_instance
instance (a : Nat) (b : Bytes) : PkOnly (mkTlv a b) := by unfold mkTlv; infer_instance
instance (b : Bytes) : PkOnly (Tlv.deserialize b) := by
  refine .of fun e h => ?_
  rw [Tlv.deserialize_error h]
  simp [PyErr.PkErr]
instance (n : Int) : PkOnly (numberToArray n) := by unfold numberToArray; infer_instance
instance (n : Int) : PkOnly (uint64ToArray n) := by unfold uint64ToArray; infer_instance
instance (n : Int) : PkOnly (uint32ToArray n) := by unfold uint32ToArray; infer_instance
instance (n : Int) : PkOnly (uint24ToArray n) := by unfold uint24ToArray; infer_instance
instance (n : Int) : PkOnly (uint16ToArray n) := by unfold uint16ToArray; infer_instance
instance (a : Nat) (n : Int) : PkOnly (createUint64 a n) := by unfold createUint64; infer_instance
instance (a : Nat) (n : Int) : PkOnly (createUint8 a n) := by unfold createUint8; infer_instance
instance (a : Nat) (n : Int) : PkOnly (createUint16 a n) := by unfold createUint16; infer_instance
instance (a : Nat) (n : Int) : PkOnly (createVarint a n) := by unfold createVarint; infer_instance
instance (l : List Tlv) : PkOnly (concatTlvs l) := by
  induction l with
  | nil => unfold concatTlvs; infer_instance
  | cons a l ih => unfold concatTlvs; infer_instance
instance {α : Type} (f : α → Py Tlv) [∀ a, PkOnly (f a)] (o : Option α) : PkOnly (optTlv f o) := by
  cases o <;> (unfold optTlv; infer_instance)
instance {α : Type} (f : α → Py Tlv) [∀ a, PkOnly (f a)] (l : List α) : PkOnly (listTlv f l) := by
  induction l with
  | nil => unfold listTlv; infer_instance
  | cons a l ih => unfold listTlv; infer_instance
instance {α : Type} (f : α → Py Tlv) [∀ a, PkOnly (f a)] (x : α) : PkOnly (construct f x) := by
  unfold construct; infer_instance
instance (a : Nat) (l : List Tlv) : PkOnly (container a l) := by unfold container; infer_instance

/-! ## Core objects -/

instance (a n : Nat) : PkOnly (intTlv a n) := by unfold intTlv; infer_instance
instance (a : Nat) (v : Bytes) : PkOnly (octetTlv a v) := by unfold octetTlv; infer_instance
instance (c : NameComponent) : PkOnly c.tlv := by unfold NameComponent.tlv; infer_instance
instance (n : Name) : PkOnly n.tlv := by unfold Name.tlv; infer_instance
instance (a : List NameComponent) (t : Tlv) : PkOnly (Name.parseStep a t) := by unfold Name.parseStep; infer_instance
instance (t : Tlv) : PkOnly (Name.parse t) := by unfold Name.parse; infer_instance
instance (h : HashValue) : PkOnly h.tlv := by unfold HashValue.tlv; infer_instance
instance (t : Tlv) : PkOnly (HashValue.parse t) := by unfold HashValue.parse; infer_instance
instance (b : Bytes) : PkOnly (HashValue.deserialize b) := by unfold HashValue.deserialize; infer_instance
instance (a : Nat) (h : HashValue) : PkOnly (hashTlv a h) := by unfold hashTlv; infer_instance
instance (l : Link) : PkOnly l.members := by unfold Link.members; infer_instance
instance (l : Link) : PkOnly l.wire := by unfold Link.wire; infer_instance
instance (s : Link) (t : Tlv) : PkOnly (Link.parseStep s t) := by unfold Link.parseStep; infer_instance
instance (b : Bytes) : PkOnly (Link.deserialize b) := by unfold Link.deserialize; infer_instance
instance (a : Nat) (l : Link) : PkOnly (linkTlv a l) := by unfold linkTlv; infer_instance
instance (t : Tlv) : PkOnly (KeyLink.parse t) := by unfold KeyLink.parse; infer_instance
instance (a : Nat) (x : F64) : PkOnly (timestampTlv a x) := by unfold timestampTlv; infer_instance
instance (a : Nat) (t : Tlv) : PkOnly (timestampParse a t) := by unfold timestampParse; infer_instance
instance (n : Nat) : PkOnly (payloadTypeTlv n) := by unfold payloadTypeTlv; infer_instance
instance (t : Tlv) : PkOnly (payloadTypeParse t) := by unfold payloadTypeParse; infer_instance
instance (n : Nat) : PkOnly (finalChunkIdTlv n) := by unfold finalChunkIdTlv; infer_instance
instance (t : Tlv) : PkOnly (finalChunkIdParse t) := by unfold finalChunkIdParse; infer_instance
instance (c : ContentObject) : PkOnly c.members := by unfold ContentObject.members; infer_instance
instance (c : ContentObject) : PkOnly c.tlv := by unfold ContentObject.tlv; infer_instance
instance (s : ContentObject) (t : Tlv) : PkOnly (ContentObject.parseStep s t) := by
  unfold ContentObject.parseStep
  split
  · infer_instance
  · split
    · infer_instance
    · split
      · rename_i h
        have : PkOnly (octetParse T_PAYLOAD t) := by
          unfold octetParse
          rw [if_neg (by simp [h])]
          infer_instance
        infer_instance
      · infer_instance
instance (t : Tlv) : PkOnly (ContentObject.parse t) := by unfold ContentObject.parse; infer_instance
instance (a : ValidationAlg) : PkOnly a.tlv := by cases a <;> (unfold ValidationAlg.tlv; infer_instance)
instance (s : Option HashValue × Option F64) (t : Tlv) : PkOnly (ValidationAlg.rsaStep s t) := by
  unfold ValidationAlg.rsaStep
  split
  · rename_i h
    have : PkOnly (hashParse T_KEYID t) := by
      unfold hashParse
      rw [if_neg (by simp [h])]
      infer_instance
    infer_instance
  · infer_instance
instance (now : F64) (t : Tlv) : PkOnly (ValidationAlg.rsaParse now t) := by
  unfold ValidationAlg.rsaParse
  split
  · infer_instance
  · refine @instPkOnlyBind _ _ _ _ inferInstance ?_
    intro a
    split <;> infer_instance
instance (now : F64) (t : Tlv) : PkOnly (ValidationAlg.parse now t) := by unfold ValidationAlg.parse; infer_instance
instance (v : Bytes) : PkOnly (valPayloadTlv v) := by unfold valPayloadTlv; infer_instance
instance (t : Tlv) : PkOnly (valPayloadParse t) := by unfold valPayloadParse; infer_instance

/-! ## Packets -/

instance (b : Bytes) : PkOnly (FixedHeader.deserialize b) := by
  unfold FixedHeader.deserialize
  split <;> infer_instance
instance {α : Type} (f : α → Py Tlv) [∀ a, PkOnly (f a)] (x : α) : PkOnly (wireOf f x) := by unfold wireOf; infer_instance
instance {α : Type} (f : Tlv → Py α) [∀ a, PkOnly (f a)] (x : Bytes) : PkOnly (ofWire f x) := by unfold ofWire; infer_instance
instance {α : Type} (f : α → Py Tlv) [∀ a, PkOnly (f a)] (o : Option α) : PkOnly (optWire f o) := by
  cases o <;> (unfold optWire; infer_instance)

theorem FixedHeader.serialize_of_read {b : Bytes} {h : FixedHeader} (hd : FixedHeader.deserialize b = .ok h) : ∃ w, h.serialize = .ok w := by
  unfold FixedHeader.deserialize at hd
  split at hd
  · rename_i b0 b1 b2 b3 b4 b5 b6 b7 r
    have l0 := b0.toNat_lt
    have l1 := b1.toNat_lt
    have l2 := b2.toNat_lt
    have l3 := b3.toNat_lt
    have l7 := b7.toNat_lt
    dsimp only at hd
    split at hd
    · cases hd
    · split at hd
      · cases hd
      · split at hd
        · cases hd
        · cases hd
          unfold FixedHeader.serialize packB packH
          rw [if_pos (by show b0.toNat ≤ 0xFF; omega), ok_bind, if_pos (by show b1.toNat ≤ 0xFF; omega), ok_bind,
            if_pos (by show b2.toNat * 256 + b3.toNat ≤ 0xFFFF; omega), ok_bind, if_pos (by show b7.toNat ≤ 0xFF; omega), ok_bind]
          exact ⟨_, rfl⟩
  · cases hd

instance (now : F64) (s : PacketState) (t : Tlv) : PkOnly (Packet.parseStep now s t) := by unfold Packet.parseStep; infer_instance
instance (now : F64) (b : Bytes) : PkOnly (Packet.deserialize now b) := by
  refine .of fun e he => ?_
  rcases bind_eq_error.mp he with he | ⟨h, hh, he⟩
  · exact PkOnly.real e he
  · rcases bind_eq_error.mp he with he | ⟨s, hs, he⟩
    · exact PkOnly.real e he
    · cases hb : s.body with
      | none =>
        rw [hb] at he
        cases he
        simp [PyErr.PkErr]
      | some c =>
        rw [hb] at he
        obtain ⟨w, hw⟩ := FixedHeader.serialize_of_read hh
        have : PkOnly (mkPacket h c s.alg s.payload) := by
          unfold mkPacket Packet.serialize
          dsimp only
          rw [hw]
          simp only [ok_bind]
          infer_instance
        exact this.real e he

end Ccnpy
