import Verif.Lemmas.Tlv
import Verif.Model.Flic

/-!
# The exceptions of encoders and decoders

`Usual x`: if `x` is an exception, it is one of eight.  The instances follow the structure of the definitions.
-/

namespace Ccnpy

/-- The exceptions that encoders and decoders raise. -/
def PyErr.Usual (e : PyErr) : Prop :=
  e ∈ [PyErr.parseError, .cannotParseError, .runtimeError, .valueError, .typeError, .assertionError, .overflowError, .structError]

/-- `x` is a value or one of the usual exceptions. -/
class Usual {α : Type} (x : Py α) : Prop where
  real : ∀ e, x = .error e → e.Usual

theorem Usual.of {α : Type} {x : Py α} (h : ∀ e, x = .error e → e.Usual) : Usual x := ⟨h⟩

instance {α : Type} (a : α) : Usual (.ok a : Py α) := ⟨by simp⟩
instance {α : Type} (a : α) : Usual (pure a : Py α) := ⟨fun _ h => by cases h⟩
instance {α : Type} : Usual (.error .parseError : Py α) := ⟨fun _ h => by cases h; simp [PyErr.Usual]⟩
instance {α : Type} : Usual (.error .cannotParseError : Py α) := ⟨fun _ h => by cases h; simp [PyErr.Usual]⟩
instance {α : Type} : Usual (.error .runtimeError : Py α) := ⟨fun _ h => by cases h; simp [PyErr.Usual]⟩
instance {α : Type} : Usual (.error .valueError : Py α) := ⟨fun _ h => by cases h; simp [PyErr.Usual]⟩
instance {α : Type} : Usual (.error .typeError : Py α) := ⟨fun _ h => by cases h; simp [PyErr.Usual]⟩
instance {α : Type} : Usual (.error .assertionError : Py α) := ⟨fun _ h => by cases h; simp [PyErr.Usual]⟩
instance {α : Type} : Usual (.error .overflowError : Py α) := ⟨fun _ h => by cases h; simp [PyErr.Usual]⟩
instance {α : Type} : Usual (.error .structError : Py α) := ⟨fun _ h => by cases h; simp [PyErr.Usual]⟩

instance instUsualBind {α β : Type} (x : Py α) (f : α → Py β) [hx : Usual x] [hf : ∀ a, Usual (f a)] : Usual (x >>= f) := .of (by
  intro e h
  rcases bind_eq_error.mp h with h | ⟨a, _, h⟩
  · exact hx.real e h
  · exact (hf a).real e h)

instance {α : Type} (c : Prop) [Decidable c] (x y : Py α) [Usual x] [Usual y] : Usual (if c then x else y) := by
  split <;> assumption

instance {σ : Type} (step : σ → Tlv → Py σ) [h : ∀ s t, Usual (step s t)] (buf : Bytes) (s : σ) :
    Usual (tlvLoop step buf s) := .of (by
  intro e he
  by_cases hu : e.Usual
  · exact hu
  · exfalso
    refine tlvLoop_ne_marker step e ?_ (fun s t hs => hu ((h s t).real e hs)) buf s he
    rintro rfl
    exact hu (by simp [PyErr.Usual]))

instance (b : Bool) : Usual (pyAssert b) := by unfold pyAssert; infer_instance

instance (n : Int) : Usual (byte n) := by unfold byte; infer_instance
instance (l : List Int) : Usual (byteArray l) := by
  induction l with
  | nil => exact .of (by simp [byteArray, List.mapM_nil])
  | cons a l ih => unfold byteArray at *; rw [List.mapM_cons]; infer_instance

/-! ## TLV level -/

instance (n : Nat) : Usual (tlvEncode n) := by unfold tlvEncode; infer_instance
instance (t : Tlv) : Usual t.serialize := by unfold Tlv.serialize; infer_instance
instance (a : Nat) (b : Bytes) : Usual (mkTlv a b) := by unfold mkTlv; infer_instance
instance (b : Bytes) : Usual (Tlv.deserialize b) := by
  refine .of fun e h => ?_
  rw [Tlv.deserialize_error h]
  simp [PyErr.Usual]
instance (n : Int) : Usual (numberToArray n) := by unfold numberToArray; infer_instance
instance (n : Int) : Usual (uint64ToArray n) := by unfold uint64ToArray; infer_instance
instance (n : Int) : Usual (uint32ToArray n) := by unfold uint32ToArray; infer_instance
instance (n : Int) : Usual (uint24ToArray n) := by unfold uint24ToArray; infer_instance
instance (n : Int) : Usual (uint16ToArray n) := by unfold uint16ToArray; infer_instance
instance (a : Nat) (n : Int) : Usual (createUint64 a n) := by unfold createUint64; infer_instance
instance (a : Nat) (n : Int) : Usual (createUint8 a n) := by unfold createUint8; infer_instance
instance (a : Nat) (n : Int) : Usual (createUint16 a n) := by unfold createUint16; infer_instance
instance (a : Nat) (n : Int) : Usual (createVarint a n) := by unfold createVarint; infer_instance
instance (l : List Tlv) : Usual (concatTlvs l) := by
  induction l with
  | nil => unfold concatTlvs; infer_instance
  | cons a l ih => unfold concatTlvs; infer_instance
instance {α : Type} (f : α → Py Tlv) [∀ a, Usual (f a)] (o : Option α) : Usual (optTlv f o) := by
  cases o <;> (unfold optTlv; infer_instance)
instance {α : Type} (f : α → Py Tlv) [∀ a, Usual (f a)] (l : List α) : Usual (listTlv f l) := by
  induction l with
  | nil => unfold listTlv; infer_instance
  | cons a l ih => unfold listTlv; infer_instance
instance {α : Type} (f : α → Py Tlv) [∀ a, Usual (f a)] (x : α) : Usual (construct f x) := by
  unfold construct; infer_instance
instance (a : Nat) (l : List Tlv) : Usual (container a l) := by unfold container; infer_instance

/-! ## Core objects -/

instance (a n : Nat) : Usual (intTlv a n) := by unfold intTlv; infer_instance
instance (a : Nat) (t : Tlv) : Usual (intParse a t) := by unfold intParse; infer_instance
instance (a : Nat) (v : Bytes) : Usual (octetTlv a v) := by unfold octetTlv; infer_instance
instance (a : Nat) (t : Tlv) : Usual (octetParse a t) := by unfold octetParse; infer_instance
instance (c : NameComponent) : Usual c.tlv := by unfold NameComponent.tlv; infer_instance
instance (n : Name) : Usual n.tlv := by unfold Name.tlv; infer_instance
instance (a : List NameComponent) (t : Tlv) : Usual (Name.parseStep a t) := by unfold Name.parseStep; infer_instance
instance (t : Tlv) : Usual (Name.parse t) := by unfold Name.parse; infer_instance
instance (h : HashValue) : Usual h.tlv := by unfold HashValue.tlv; infer_instance
instance (t : Tlv) : Usual (HashValue.parse t) := by unfold HashValue.parse; infer_instance
instance (b : Bytes) : Usual (HashValue.deserialize b) := by unfold HashValue.deserialize; infer_instance
instance (a : Nat) (h : HashValue) : Usual (hashTlv a h) := by unfold hashTlv; infer_instance
instance (a : Nat) (t : Tlv) : Usual (hashParse a t) := by unfold hashParse; infer_instance
instance (l : Link) : Usual l.members := by unfold Link.members; infer_instance
instance (l : Link) : Usual l.wire := by unfold Link.wire; infer_instance
instance (s : Link) (t : Tlv) : Usual (Link.parseStep s t) := by unfold Link.parseStep; infer_instance
instance (b : Bytes) : Usual (Link.deserialize b) := by unfold Link.deserialize; infer_instance
instance (a : Nat) (l : Link) : Usual (linkTlv a l) := by unfold linkTlv; infer_instance
instance (t : Tlv) : Usual (KeyLink.parse t) := by unfold KeyLink.parse; infer_instance
instance (a : Nat) (x : F64) : Usual (timestampTlv a x) := by unfold timestampTlv; infer_instance
instance (a : Nat) (t : Tlv) : Usual (timestampParse a t) := by unfold timestampParse; infer_instance
instance (n : Nat) : Usual (payloadTypeTlv n) := by unfold payloadTypeTlv; infer_instance
instance (t : Tlv) : Usual (payloadTypeParse t) := by unfold payloadTypeParse; infer_instance
instance (n : Nat) : Usual (finalChunkIdTlv n) := by unfold finalChunkIdTlv; infer_instance
instance (t : Tlv) : Usual (finalChunkIdParse t) := by unfold finalChunkIdParse; infer_instance
instance (c : ContentObject) : Usual c.members := by unfold ContentObject.members; infer_instance
instance (c : ContentObject) : Usual c.tlv := by unfold ContentObject.tlv; infer_instance
instance (s : ContentObject) (t : Tlv) : Usual (ContentObject.parseStep s t) := by unfold ContentObject.parseStep; infer_instance
instance (t : Tlv) : Usual (ContentObject.parse t) := by unfold ContentObject.parse; infer_instance
instance (a : ValidationAlg) : Usual a.tlv := by cases a <;> (unfold ValidationAlg.tlv; infer_instance)
instance (s : Option HashValue × Option F64) (t : Tlv) : Usual (ValidationAlg.rsaStep s t) := by unfold ValidationAlg.rsaStep; infer_instance
instance (now : F64) (t : Tlv) : Usual (ValidationAlg.rsaParse now t) := by
  unfold ValidationAlg.rsaParse
  split
  · infer_instance
  · refine @instUsualBind _ _ _ _ inferInstance ?_
    intro a
    split <;> infer_instance
instance (now : F64) (t : Tlv) : Usual (ValidationAlg.parse now t) := by unfold ValidationAlg.parse; infer_instance
instance (v : Bytes) : Usual (valPayloadTlv v) := by unfold valPayloadTlv; infer_instance
instance (t : Tlv) : Usual (valPayloadParse t) := by unfold valPayloadParse; infer_instance

/-! ## Packets -/

instance (n : Nat) : Usual (packB n) := by unfold packB; infer_instance
instance (n : Nat) : Usual (packH n) := by unfold packH; infer_instance
instance (h : FixedHeader) : Usual h.serialize := by unfold FixedHeader.serialize; infer_instance
instance (b : Bytes) : Usual (FixedHeader.deserialize b) := by
  unfold FixedHeader.deserialize
  split <;> infer_instance
instance {α : Type} (f : α → Py Tlv) [∀ a, Usual (f a)] (x : α) : Usual (wireOf f x) := by unfold wireOf; infer_instance
instance {α : Type} (f : Tlv → Py α) [∀ a, Usual (f a)] (x : Bytes) : Usual (ofWire f x) := by unfold ofWire; infer_instance
instance {α : Type} (f : α → Py Tlv) [∀ a, Usual (f a)] (o : Option α) : Usual (optWire f o) := by
  cases o <;> (unfold optWire; infer_instance)
instance (p : Packet) : Usual p.serialize := by unfold Packet.serialize; infer_instance
instance (h : FixedHeader) (b : ContentObject) (a : Option ValidationAlg) (p : Option Bytes) : Usual (mkPacket h b a p) := by unfold mkPacket; infer_instance
instance (now : F64) (s : PacketState) (t : Tlv) : Usual (Packet.parseStep now s t) := by unfold Packet.parseStep; infer_instance
instance (now : F64) (b : Bytes) : Usual (Packet.deserialize now b) := by
  unfold Packet.deserialize
  refine @instUsualBind _ _ _ _ inferInstance ?_
  intro h
  refine @instUsualBind _ _ _ _ inferInstance ?_
  intro s
  split <;> infer_instance

/-! ## FLIC objects -/

/-- Every parser of a field table raises usual exceptions only. -/
class UsualFields {σ : Type} (fs : List (AutoField σ)) : Prop where
  out : ∀ f ∈ fs, ∀ s t, Usual (f.parse s t)

instance {σ : Type} : UsualFields ([] : List (AutoField σ)) := ⟨by simp⟩
instance {σ : Type} (f : AutoField σ) (fs : List (AutoField σ)) [h : ∀ s t, Usual (f.parse s t)] [hs : UsualFields fs] :
    UsualFields (f :: fs) := ⟨by
  intro g hg s t
  rcases List.mem_cons.mp hg with rfl | hg
  · exact h s t
  · exact hs.out g hg s t⟩
instance {σ α : Type} (ty : Nat) (get : σ → Option α) (set : σ → α → σ) (parse : Tlv → Py α) [∀ t, Usual (parse t)] (s : σ)
    (t : Tlv) : Usual ((autoField ty get set parse).parse s t) := by
  unfold autoField; infer_instance
instance {σ : Type} (fs : List (AutoField σ)) [h : UsualFields fs] (s : σ) (t : Tlv) : Usual (autoStep fs s t) := by
  unfold autoStep
  split
  · infer_instance
  · rename_i f hf
    have := h.out f (List.mem_of_find?_eq_some hf) s t
    infer_instance
instance {σ : Type} (fs : List (AutoField σ)) [UsualFields fs] (s : σ) (b : Bytes) : Usual (autoValueParse fs s b) := by
  unfold autoValueParse; infer_instance
instance {σ : Type} (a : Nat) (fs : List (AutoField σ)) [UsualFields fs] (s : σ) (t : Tlv) : Usual (autoParse a fs s t) := by
  unfold autoParse; infer_instance
instance (g : GroupData) : Usual g.members := by unfold GroupData.members; infer_instance
instance (g : GroupData) : Usual g.tlv := by unfold GroupData.tlv; infer_instance
instance : UsualFields GroupData.fields := by unfold GroupData.fields; infer_instance
instance (t : Tlv) : Usual (GroupData.parse t) := by unfold GroupData.parse; infer_instance
instance (l : List HashValue) : Usual (pointersTlv l) := by unfold pointersTlv; infer_instance
instance (a : List HashValue) (t : Tlv) : Usual (pointersStep a t) := by unfold pointersStep; infer_instance
instance (t : Tlv) : Usual (pointersParse t) := by unfold pointersParse; infer_instance
instance (g : HashGroup) : Usual g.members := by unfold HashGroup.members; infer_instance
instance (g : HashGroup) : Usual g.tlv := by unfold HashGroup.tlv; infer_instance
instance : UsualFields HashGroup.fields := by unfold HashGroup.fields; infer_instance
instance (t : Tlv) : Usual (HashGroup.parse t) := by unfold HashGroup.parse; infer_instance
instance (l : Link) : Usual (locatorTlv l) := by unfold locatorTlv; split <;> infer_instance
instance (t : Tlv) : Usual (locatorParse t) := by unfold locatorParse; infer_instance
instance (l : List Link) : Usual (locatorsTlv l) := by unfold locatorsTlv; infer_instance
instance (a : List Link) (t : Tlv) : Usual (locatorsStep a t) := by unfold locatorsStep; infer_instance
instance (t : Tlv) : Usual (locatorsParse t) := by unfold locatorsParse; infer_instance
instance (n : Nat) : Usual (suffixTlv n) := by unfold suffixTlv; infer_instance
instance (t : Tlv) : Usual (suffixParse t) := by unfold suffixParse; infer_instance
instance (o : Option Bytes) : Usual (flagsCheck o) := by unfold flagsCheck; split <;> infer_instance
instance (x : NcSchema) : Usual x.tlv := by cases x <;> (unfold NcSchema.tlv; infer_instance)
instance (s : NcSchemaFields) (t : Tlv) : Usual (ncNameField.parse s t) := by unfold ncNameField; infer_instance
instance (s : NcSchemaFields) (t : Tlv) : Usual (ncSuffixField.parse s t) := by unfold ncSuffixField; infer_instance
instance (s : NcSchemaFields) (t : Tlv) : Usual (ncLocatorsField.parse s t) := by unfold ncLocatorsField; infer_instance
instance (s : NcSchemaFields) (t : Tlv) : Usual (ncFlagsField.parse s t) := by unfold ncFlagsField; infer_instance
instance (t : Tlv) : Usual (NcSchema.parsePrefix t) := by unfold NcSchema.parsePrefix; infer_instance
instance (t : Tlv) : Usual (NcSchema.parseSegmented t) := by unfold NcSchema.parseSegmented; infer_instance
instance (t : Tlv) : Usual (NcSchema.parseHash t) := by unfold NcSchema.parseHash; infer_instance
instance {α : Type} (a b : Py α) [ha : Usual a] [hb : Usual b] : Usual (orElseCannotParse a b) := by
  unfold orElseCannotParse; split <;> assumption
instance (t : Tlv) : Usual (NcSchema.parse t) := by unfold NcSchema.parse; infer_instance
instance (d : NcDef) : Usual d.members := by unfold NcDef.members; infer_instance
instance (d : NcDef) : Usual d.tlv := by unfold NcDef.tlv; infer_instance
instance (s : NcDef) (t : Tlv) : Usual (NcDef.parseStep s t) := by unfold NcDef.parseStep; infer_instance
instance (t : Tlv) : Usual (NcDef.parse t) := by unfold NcDef.parse; infer_instance
instance (v : Vendor) : Usual v.tlv := by unfold Vendor.tlv; infer_instance
instance (t : Tlv) : Usual (Vendor.parse t) := by unfold Vendor.parse; infer_instance
instance (d : NodeData) : Usual d.members := by unfold NodeData.members; infer_instance
instance (d : NodeData) : Usual d.tlv := by unfold NodeData.tlv; infer_instance
instance (s : NodeData) (t : Tlv) : Usual (NodeData.parseStep s t) := by unfold NodeData.parseStep; infer_instance
instance (t : Tlv) : Usual (NodeData.parse t) := by unfold NodeData.parse; infer_instance
instance (n : Nat) : Usual (padTlv n) := by unfold padTlv; infer_instance
instance (n : Node) : Usual n.members := by unfold Node.members; infer_instance
instance (n : Node) : Usual n.tlv := by
  unfold Node.tlv
  refine @instUsualBind _ _ _ _ inferInstance ?_
  intro m
  split
  · infer_instance
  · refine @instUsualBind _ _ _ _ inferInstance ?_
    intro v
    split
    · infer_instance
    · dsimp only; infer_instance
instance (s : NodeState) (t : Tlv) : Usual (Node.parseStep s t) := by unfold Node.parseStep; infer_instance
instance (t : Tlv) : Usual (Node.parse t) := by unfold Node.parse; infer_instance
instance (d : KdfData) : Usual d.tlv := by unfold KdfData.tlv; infer_instance
instance : UsualFields KdfData.fields := by unfold KdfData.fields; infer_instance
instance (t : Tlv) : Usual (KdfData.parse t) := by
  unfold KdfData.parse
  refine @instUsualBind _ _ _ _ inferInstance ?_
  intro v
  split <;> infer_instance
instance (d : AeadData) : Usual d.members := by unfold AeadData.members; infer_instance
instance : UsualFields AeadData.fields := by unfold AeadData.fields; infer_instance
instance (b : Bytes) : Usual (AeadData.parse b) := by
  unfold AeadData.parse
  refine @instUsualBind _ _ _ _ inferInstance ?_
  intro v
  split <;> infer_instance
instance (d : RsaOaepWrapper) : Usual d.members := by unfold RsaOaepWrapper.members; infer_instance
instance : UsualFields RsaOaepWrapper.fields := by unfold RsaOaepWrapper.fields; infer_instance
instance (b : Bytes) : Usual (RsaOaepWrapper.parse b) := by
  unfold RsaOaepWrapper.parse
  refine @instUsualBind _ _ _ _ inferInstance ?_
  intro v
  split <;> infer_instance
instance (w : Option RsaOaepWrapper) : Usual (wrapperMembers w) := by cases w <;> (unfold wrapperMembers; infer_instance)
instance (c : SecurityCtx) : Usual c.tlv := by cases c <;> (unfold SecurityCtx.tlv; infer_instance)
instance (t : Tlv) : Usual (SecurityCtx.parse t) := by unfold SecurityCtx.parse; infer_instance
instance (n : ManifestNode) : Usual n.tlv := by cases n <;> (unfold ManifestNode.tlv; infer_instance)
instance (m : Manifest) : Usual m.members := by unfold Manifest.members; infer_instance
instance (m : Manifest) : Usual m.serialize := by unfold Manifest.serialize; infer_instance
instance (s : ManifestState) (t : Tlv) : Usual (Manifest.parseStep s t) := by unfold Manifest.parseStep; infer_instance
instance (b : Bytes) : Usual (Manifest.deserialize b) := by
  unfold Manifest.deserialize
  refine @instUsualBind _ _ _ _ inferInstance ?_
  intro s
  split <;> infer_instance

end Ccnpy
