import Verif.Lemmas.Tlv
import Verif.Model.Flic

/-!
# Parsers never run out of fuel

`Halts x`: the result `x` is not one of the model's markers, for a loop that ran out of fuel and for a counter of manifest ids
that ran out.  The instances follow the structure of the definitions.
-/

namespace Ccnpy

/-- The two markers. -/
def PyErr.Marker (e : PyErr) : Prop := e = .nonTermination ∨ e = .idsExhausted

/-- `x` is a value or an ordinary Python exception. -/
class Halts {α : Type} (x : Py α) : Prop where
  both : x ≠ .error .nonTermination ∧ x ≠ .error .idsExhausted

theorem Halts.out {α : Type} {x : Py α} [h : Halts x] : x ≠ .error .nonTermination := h.both.1

theorem Halts.real {α : Type} {x : Py α} [h : Halts x] (e : PyErr) (he : x = .error e) : ¬ e.Marker := by
  rintro (rfl | rfl)
  · exact h.both.1 he
  · exact h.both.2 he

theorem Halts.of {α : Type} {x : Py α} (h : ∀ e, x = .error e → ¬ e.Marker) : Halts x :=
  ⟨fun he => h _ he (.inl rfl), fun he => h _ he (.inr rfl)⟩

instance {α : Type} (a : α) : Halts (.ok a : Py α) := ⟨by simp⟩
instance {α : Type} (a : α) : Halts (pure a : Py α) := ⟨by simp⟩
instance {α : Type} : Halts (.error .parseError : Py α) := ⟨by simp⟩
instance {α : Type} : Halts (.error .cannotParseError : Py α) := ⟨by simp⟩
instance {α : Type} : Halts (.error .runtimeError : Py α) := ⟨by simp⟩
instance {α : Type} : Halts (.error .valueError : Py α) := ⟨by simp⟩
instance {α : Type} : Halts (.error .typeError : Py α) := ⟨by simp⟩
instance {α : Type} : Halts (.error .assertionError : Py α) := ⟨by simp⟩
instance {α : Type} : Halts (.error .overflowError : Py α) := ⟨by simp⟩
instance {α : Type} : Halts (.error .structError : Py α) := ⟨by simp⟩
instance {α : Type} : Halts (.error .keyError : Py α) := ⟨by simp⟩
instance {α : Type} : Halts (.error .attributeError : Py α) := ⟨by simp⟩
instance {α : Type} : Halts (.error .indexError : Py α) := ⟨by simp⟩
instance {α : Type} : Halts (.error .decryptionError : Py α) := ⟨by simp⟩
instance {α : Type} : Halts (.error .keyNumberNotFound : Py α) := ⟨by simp⟩
instance {α : Type} : Halts (.error .keyIdNotFound : Py α) := ⟨by simp⟩
instance {α : Type} : Halts (.error .zeroDivisionError : Py α) := ⟨by simp⟩
instance {α : Type} : Halts (.error .invalidTag : Py α) := ⟨by simp⟩
instance {α : Type} : Halts (.error .notImplementedError : Py α) := ⟨by simp⟩

instance instHaltsBind {α β : Type} (x : Py α) (f : α → Py β) [hx : Halts x] [hf : ∀ a, Halts (f a)] : Halts (x >>= f) := .of (by
  intro e h
  rcases bind_eq_error.mp h with h | ⟨a, _, h⟩
  · exact hx.real e h
  · exact (hf a).real e h)

instance {α : Type} (c : Prop) [Decidable c] (x y : Py α) [Halts x] [Halts y] : Halts (if c then x else y) := by
  split <;> assumption

instance {σ : Type} (step : σ → Tlv → Py σ) [h : ∀ s t, Halts (step s t)] (buf : Bytes) (s : σ) :
    Halts (tlvLoop step buf s) :=
  ⟨tlvLoop_ne_marker step _ (by decide) (fun s t => (h s t).both.1) buf s,
   tlvLoop_ne_marker step _ (by decide) (fun s t => (h s t).both.2) buf s⟩

instance (b : Bool) : Halts (pyAssert b) := by unfold pyAssert; infer_instance

instance (n : Int) : Halts (byte n) := by unfold byte; infer_instance
instance (l : List Int) : Halts (byteArray l) := by
  induction l with
  | nil => exact ⟨by simp [byteArray, List.mapM_nil]⟩
  | cons a l ih => unfold byteArray at *; rw [List.mapM_cons]; infer_instance

/-! ## TLV level -/

instance (n : Nat) : Halts (tlvEncode n) := by unfold tlvEncode; infer_instance
instance (t : Tlv) : Halts t.serialize := by unfold Tlv.serialize; infer_instance
instance (a : Nat) (b : Bytes) : Halts (mkTlv a b) := by unfold mkTlv; infer_instance
instance (b : Bytes) : Halts (Tlv.deserialize b) := by
  refine .of fun e h => ?_
  rw [Tlv.deserialize_error h]
  simp [PyErr.Marker]
instance (n : Int) : Halts (numberToArray n) := by unfold numberToArray; infer_instance
instance (n : Int) : Halts (uint64ToArray n) := by unfold uint64ToArray; infer_instance
instance (n : Int) : Halts (uint32ToArray n) := by unfold uint32ToArray; infer_instance
instance (n : Int) : Halts (uint24ToArray n) := by unfold uint24ToArray; infer_instance
instance (n : Int) : Halts (uint16ToArray n) := by unfold uint16ToArray; infer_instance
instance (a : Nat) (n : Int) : Halts (createUint64 a n) := by unfold createUint64; infer_instance
instance (a : Nat) (n : Int) : Halts (createUint8 a n) := by unfold createUint8; infer_instance
instance (a : Nat) (n : Int) : Halts (createUint16 a n) := by unfold createUint16; infer_instance
instance (a : Nat) (n : Int) : Halts (createVarint a n) := by unfold createVarint; infer_instance
instance (l : List Tlv) : Halts (concatTlvs l) := by
  induction l with
  | nil => unfold concatTlvs; infer_instance
  | cons a l ih => unfold concatTlvs; infer_instance
instance {α : Type} (f : α → Py Tlv) [∀ a, Halts (f a)] (o : Option α) : Halts (optTlv f o) := by
  cases o <;> (unfold optTlv; infer_instance)
instance {α : Type} (f : α → Py Tlv) [∀ a, Halts (f a)] (l : List α) : Halts (listTlv f l) := by
  induction l with
  | nil => unfold listTlv; infer_instance
  | cons a l ih => unfold listTlv; infer_instance
instance {α : Type} (f : α → Py Tlv) [∀ a, Halts (f a)] (x : α) : Halts (construct f x) := by
  unfold construct; infer_instance
instance (a : Nat) (l : List Tlv) : Halts (container a l) := by unfold container; infer_instance

/-! ## Core objects -/

instance (a n : Nat) : Halts (intTlv a n) := by unfold intTlv; infer_instance
instance (a : Nat) (t : Tlv) : Halts (intParse a t) := by unfold intParse; infer_instance
instance (a : Nat) (v : Bytes) : Halts (octetTlv a v) := by unfold octetTlv; infer_instance
instance (a : Nat) (t : Tlv) : Halts (octetParse a t) := by unfold octetParse; infer_instance
instance (c : NameComponent) : Halts c.tlv := by unfold NameComponent.tlv; infer_instance
instance (n : Name) : Halts n.tlv := by unfold Name.tlv; infer_instance
instance (a : List NameComponent) (t : Tlv) : Halts (Name.parseStep a t) := by unfold Name.parseStep; infer_instance
instance (t : Tlv) : Halts (Name.parse t) := by unfold Name.parse; infer_instance
instance (h : HashValue) : Halts h.tlv := by unfold HashValue.tlv; infer_instance
instance (t : Tlv) : Halts (HashValue.parse t) := by unfold HashValue.parse; infer_instance
instance (b : Bytes) : Halts (HashValue.deserialize b) := by unfold HashValue.deserialize; infer_instance
instance (a : Nat) (h : HashValue) : Halts (hashTlv a h) := by unfold hashTlv; infer_instance
instance (a : Nat) (t : Tlv) : Halts (hashParse a t) := by unfold hashParse; infer_instance
instance (l : Link) : Halts l.members := by unfold Link.members; infer_instance
instance (l : Link) : Halts l.wire := by unfold Link.wire; infer_instance
instance (s : Link) (t : Tlv) : Halts (Link.parseStep s t) := by unfold Link.parseStep; infer_instance
instance (b : Bytes) : Halts (Link.deserialize b) := by unfold Link.deserialize; infer_instance
instance (a : Nat) (l : Link) : Halts (linkTlv a l) := by unfold linkTlv; infer_instance
instance (t : Tlv) : Halts (KeyLink.parse t) := by unfold KeyLink.parse; infer_instance
instance (a : Nat) (x : F64) : Halts (timestampTlv a x) := by unfold timestampTlv; infer_instance
instance (a : Nat) (t : Tlv) : Halts (timestampParse a t) := by unfold timestampParse; infer_instance
instance (n : Nat) : Halts (payloadTypeTlv n) := by unfold payloadTypeTlv; infer_instance
instance (t : Tlv) : Halts (payloadTypeParse t) := by unfold payloadTypeParse; infer_instance
instance (n : Nat) : Halts (finalChunkIdTlv n) := by unfold finalChunkIdTlv; infer_instance
instance (t : Tlv) : Halts (finalChunkIdParse t) := by unfold finalChunkIdParse; infer_instance
instance (c : ContentObject) : Halts c.members := by unfold ContentObject.members; infer_instance
instance (c : ContentObject) : Halts c.tlv := by unfold ContentObject.tlv; infer_instance
instance (s : ContentObject) (t : Tlv) : Halts (ContentObject.parseStep s t) := by unfold ContentObject.parseStep; infer_instance
instance (t : Tlv) : Halts (ContentObject.parse t) := by unfold ContentObject.parse; infer_instance
instance (a : ValidationAlg) : Halts a.tlv := by cases a <;> (unfold ValidationAlg.tlv; infer_instance)
instance (s : Option HashValue × Option F64) (t : Tlv) : Halts (ValidationAlg.rsaStep s t) := by unfold ValidationAlg.rsaStep; infer_instance
instance (now : F64) (t : Tlv) : Halts (ValidationAlg.rsaParse now t) := by
  unfold ValidationAlg.rsaParse
  split
  · infer_instance
  · refine @instHaltsBind _ _ _ _ inferInstance ?_
    intro a
    split <;> infer_instance
instance (now : F64) (t : Tlv) : Halts (ValidationAlg.parse now t) := by unfold ValidationAlg.parse; infer_instance
instance (v : Bytes) : Halts (valPayloadTlv v) := by unfold valPayloadTlv; infer_instance
instance (t : Tlv) : Halts (valPayloadParse t) := by unfold valPayloadParse; infer_instance

/-! ## Packets -/

instance (n : Nat) : Halts (packB n) := by unfold packB; infer_instance
instance (n : Nat) : Halts (packH n) := by unfold packH; infer_instance
instance (h : FixedHeader) : Halts h.serialize := by unfold FixedHeader.serialize; infer_instance
instance (b : Bytes) : Halts (FixedHeader.deserialize b) := by
  unfold FixedHeader.deserialize
  split <;> infer_instance
instance {α : Type} (f : α → Py Tlv) [∀ a, Halts (f a)] (x : α) : Halts (wireOf f x) := by unfold wireOf; infer_instance
instance {α : Type} (f : Tlv → Py α) [∀ a, Halts (f a)] (x : Bytes) : Halts (ofWire f x) := by unfold ofWire; infer_instance
instance {α : Type} (f : α → Py Tlv) [∀ a, Halts (f a)] (o : Option α) : Halts (optWire f o) := by
  cases o <;> (unfold optWire; infer_instance)
instance (p : Packet) : Halts p.serialize := by unfold Packet.serialize; infer_instance
instance (h : FixedHeader) (b : ContentObject) (a : Option ValidationAlg) (p : Option Bytes) : Halts (mkPacket h b a p) := by unfold mkPacket; infer_instance
instance (now : F64) (s : PacketState) (t : Tlv) : Halts (Packet.parseStep now s t) := by unfold Packet.parseStep; infer_instance
instance (now : F64) (b : Bytes) : Halts (Packet.deserialize now b) := by
  unfold Packet.deserialize
  refine @instHaltsBind _ _ _ _ inferInstance ?_
  intro h
  refine @instHaltsBind _ _ _ _ inferInstance ?_
  intro s
  split <;> infer_instance

/-! ## FLIC objects -/

/-- Every parser of a field table halts. -/
class HaltFields {σ : Type} (fs : List (AutoField σ)) : Prop where
  out : ∀ f ∈ fs, ∀ s t, Halts (f.parse s t)

instance {σ : Type} : HaltFields ([] : List (AutoField σ)) := ⟨by simp⟩
instance {σ : Type} (f : AutoField σ) (fs : List (AutoField σ)) [h : ∀ s t, Halts (f.parse s t)] [hs : HaltFields fs] :
    HaltFields (f :: fs) := ⟨by
  intro g hg s t
  rcases List.mem_cons.mp hg with rfl | hg
  · exact h s t
  · exact hs.out g hg s t⟩
instance {σ α : Type} (ty : Nat) (get : σ → Option α) (set : σ → α → σ) (parse : Tlv → Py α) [∀ t, Halts (parse t)] (s : σ)
    (t : Tlv) : Halts ((autoField ty get set parse).parse s t) := by
  unfold autoField; infer_instance
instance {σ : Type} (fs : List (AutoField σ)) [h : HaltFields fs] (s : σ) (t : Tlv) : Halts (autoStep fs s t) := by
  unfold autoStep
  split
  · infer_instance
  · rename_i f hf
    have := h.out f (List.mem_of_find?_eq_some hf) s t
    infer_instance
instance {σ : Type} (fs : List (AutoField σ)) [HaltFields fs] (s : σ) (b : Bytes) : Halts (autoValueParse fs s b) := by
  unfold autoValueParse; infer_instance
instance {σ : Type} (a : Nat) (fs : List (AutoField σ)) [HaltFields fs] (s : σ) (t : Tlv) : Halts (autoParse a fs s t) := by
  unfold autoParse; infer_instance
instance (g : GroupData) : Halts g.members := by unfold GroupData.members; infer_instance
instance (g : GroupData) : Halts g.tlv := by unfold GroupData.tlv; infer_instance
instance : HaltFields GroupData.fields := by unfold GroupData.fields; infer_instance
instance (t : Tlv) : Halts (GroupData.parse t) := by unfold GroupData.parse; infer_instance
instance (l : List HashValue) : Halts (pointersTlv l) := by unfold pointersTlv; infer_instance
instance (a : List HashValue) (t : Tlv) : Halts (pointersStep a t) := by unfold pointersStep; infer_instance
instance (t : Tlv) : Halts (pointersParse t) := by unfold pointersParse; infer_instance
instance (g : HashGroup) : Halts g.members := by unfold HashGroup.members; infer_instance
instance (g : HashGroup) : Halts g.tlv := by unfold HashGroup.tlv; infer_instance
instance : HaltFields HashGroup.fields := by unfold HashGroup.fields; infer_instance
instance (t : Tlv) : Halts (HashGroup.parse t) := by unfold HashGroup.parse; infer_instance
instance (l : Link) : Halts (locatorTlv l) := by unfold locatorTlv; split <;> infer_instance
instance (t : Tlv) : Halts (locatorParse t) := by unfold locatorParse; infer_instance
instance (l : List Link) : Halts (locatorsTlv l) := by unfold locatorsTlv; infer_instance
instance (a : List Link) (t : Tlv) : Halts (locatorsStep a t) := by unfold locatorsStep; infer_instance
instance (t : Tlv) : Halts (locatorsParse t) := by unfold locatorsParse; infer_instance
instance (n : Nat) : Halts (suffixTlv n) := by unfold suffixTlv; infer_instance
instance (t : Tlv) : Halts (suffixParse t) := by unfold suffixParse; infer_instance
instance (o : Option Bytes) : Halts (flagsCheck o) := by unfold flagsCheck; split <;> infer_instance
instance (x : NcSchema) : Halts x.tlv := by cases x <;> (unfold NcSchema.tlv; infer_instance)
instance (s : NcSchemaFields) (t : Tlv) : Halts (ncNameField.parse s t) := by unfold ncNameField; infer_instance
instance (s : NcSchemaFields) (t : Tlv) : Halts (ncSuffixField.parse s t) := by unfold ncSuffixField; infer_instance
instance (s : NcSchemaFields) (t : Tlv) : Halts (ncLocatorsField.parse s t) := by unfold ncLocatorsField; infer_instance
instance (s : NcSchemaFields) (t : Tlv) : Halts (ncFlagsField.parse s t) := by unfold ncFlagsField; infer_instance
instance (t : Tlv) : Halts (NcSchema.parsePrefix t) := by unfold NcSchema.parsePrefix; infer_instance
instance (t : Tlv) : Halts (NcSchema.parseSegmented t) := by unfold NcSchema.parseSegmented; infer_instance
instance (t : Tlv) : Halts (NcSchema.parseHash t) := by unfold NcSchema.parseHash; infer_instance
instance {α : Type} (a b : Py α) [ha : Halts a] [hb : Halts b] : Halts (orElseCannotParse a b) := by
  unfold orElseCannotParse; split <;> assumption
instance (t : Tlv) : Halts (NcSchema.parse t) := by unfold NcSchema.parse; infer_instance
instance (d : NcDef) : Halts d.members := by unfold NcDef.members; infer_instance
instance (d : NcDef) : Halts d.tlv := by unfold NcDef.tlv; infer_instance
instance (s : NcDef) (t : Tlv) : Halts (NcDef.parseStep s t) := by unfold NcDef.parseStep; infer_instance
instance (t : Tlv) : Halts (NcDef.parse t) := by unfold NcDef.parse; infer_instance
instance (v : Vendor) : Halts v.tlv := by unfold Vendor.tlv; infer_instance
instance (t : Tlv) : Halts (Vendor.parse t) := by unfold Vendor.parse; infer_instance
instance (d : NodeData) : Halts d.members := by unfold NodeData.members; infer_instance
instance (d : NodeData) : Halts d.tlv := by unfold NodeData.tlv; infer_instance
instance (s : NodeData) (t : Tlv) : Halts (NodeData.parseStep s t) := by unfold NodeData.parseStep; infer_instance
instance (t : Tlv) : Halts (NodeData.parse t) := by unfold NodeData.parse; infer_instance
instance (n : Nat) : Halts (padTlv n) := by unfold padTlv; infer_instance
instance (n : Node) : Halts n.members := by unfold Node.members; infer_instance
instance (n : Node) : Halts n.tlv := by
  unfold Node.tlv
  refine @instHaltsBind _ _ _ _ inferInstance ?_
  intro m
  split
  · infer_instance
  · refine @instHaltsBind _ _ _ _ inferInstance ?_
    intro v
    split
    · infer_instance
    · dsimp only; infer_instance
instance (s : NodeState) (t : Tlv) : Halts (Node.parseStep s t) := by unfold Node.parseStep; infer_instance
instance (t : Tlv) : Halts (Node.parse t) := by unfold Node.parse; infer_instance
instance (d : KdfData) : Halts d.tlv := by unfold KdfData.tlv; infer_instance
instance : HaltFields KdfData.fields := by unfold KdfData.fields; infer_instance
instance (t : Tlv) : Halts (KdfData.parse t) := by
  unfold KdfData.parse
  refine @instHaltsBind _ _ _ _ inferInstance ?_
  intro v
  split <;> infer_instance
instance (d : AeadData) : Halts d.members := by unfold AeadData.members; infer_instance
instance : HaltFields AeadData.fields := by unfold AeadData.fields; infer_instance
instance (b : Bytes) : Halts (AeadData.parse b) := by
  unfold AeadData.parse
  refine @instHaltsBind _ _ _ _ inferInstance ?_
  intro v
  split <;> infer_instance
instance (d : RsaOaepWrapper) : Halts d.members := by unfold RsaOaepWrapper.members; infer_instance
instance : HaltFields RsaOaepWrapper.fields := by unfold RsaOaepWrapper.fields; infer_instance
instance (b : Bytes) : Halts (RsaOaepWrapper.parse b) := by
  unfold RsaOaepWrapper.parse
  refine @instHaltsBind _ _ _ _ inferInstance ?_
  intro v
  split <;> infer_instance
instance (w : Option RsaOaepWrapper) : Halts (wrapperMembers w) := by cases w <;> (unfold wrapperMembers; infer_instance)
instance (c : SecurityCtx) : Halts c.tlv := by cases c <;> (unfold SecurityCtx.tlv; infer_instance)
instance (t : Tlv) : Halts (SecurityCtx.parse t) := by unfold SecurityCtx.parse; infer_instance
instance (n : ManifestNode) : Halts n.tlv := by cases n <;> (unfold ManifestNode.tlv; infer_instance)
instance (m : Manifest) : Halts m.members := by unfold Manifest.members; infer_instance
instance (m : Manifest) : Halts m.serialize := by unfold Manifest.serialize; infer_instance
instance (s : ManifestState) (t : Tlv) : Halts (Manifest.parseStep s t) := by unfold Manifest.parseStep; infer_instance
instance (b : Bytes) : Halts (Manifest.deserialize b) := by
  unfold Manifest.deserialize
  refine @instHaltsBind _ _ _ _ inferInstance ?_
  intro s
  split <;> infer_instance

end Ccnpy
