import Verif.Lemmas.PyS
import Verif.Model.FullTraversal
import Verif.Model.Directory

/-!
# The exceptions of a traversal

`Among X x`: if `x` is an exception, it is one of thirteen or satisfies `X` (the exceptions of the reader and of the cryptographic
primitives).  The instances follow the structure of the definitions.
-/

namespace Ccnpy

/-- The exceptions that the code of a traversal raises by itself. -/
def PyErr.ReadErr (e : PyErr) : Prop :=
  e ∈ [PyErr.parseError, .cannotParseError, .runtimeError, .valueError, .typeError, .assertionError, .overflowError, .keyError, .attributeError, .decryptionError, .keyNumberNotFound, .keyIdNotFound, .osError]

variable {X : PyErr → Prop}

/-- `x` is a value or one of these exceptions. -/
class Among (X : PyErr → Prop) {α : Type} (x : Py α) : Prop where
  real : ∀ e, x = .error e → e.ReadErr ∨ X e

theorem Among.of {α : Type} {x : Py α} (h : ∀ e, x = .error e → e.ReadErr ∨ X e) : Among X x := ⟨h⟩

instance {α : Type} : Among X (.error .parseError : Py α) := ⟨fun _ h => by cases h; simp [PyErr.ReadErr]⟩
instance {α : Type} : Among X (.error .cannotParseError : Py α) := ⟨fun _ h => by cases h; simp [PyErr.ReadErr]⟩
instance {α : Type} : Among X (.error .runtimeError : Py α) := ⟨fun _ h => by cases h; simp [PyErr.ReadErr]⟩
instance {α : Type} : Among X (.error .valueError : Py α) := ⟨fun _ h => by cases h; simp [PyErr.ReadErr]⟩
instance {α : Type} : Among X (.error .typeError : Py α) := ⟨fun _ h => by cases h; simp [PyErr.ReadErr]⟩
instance {α : Type} : Among X (.error .assertionError : Py α) := ⟨fun _ h => by cases h; simp [PyErr.ReadErr]⟩
instance {α : Type} : Among X (.error .overflowError : Py α) := ⟨fun _ h => by cases h; simp [PyErr.ReadErr]⟩
instance {α : Type} : Among X (.error .keyError : Py α) := ⟨fun _ h => by cases h; simp [PyErr.ReadErr]⟩
instance {α : Type} : Among X (.error .attributeError : Py α) := ⟨fun _ h => by cases h; simp [PyErr.ReadErr]⟩
instance {α : Type} : Among X (.error .decryptionError : Py α) := ⟨fun _ h => by cases h; simp [PyErr.ReadErr]⟩
instance {α : Type} : Among X (.error .keyNumberNotFound : Py α) := ⟨fun _ h => by cases h; simp [PyErr.ReadErr]⟩
instance {α : Type} : Among X (.error .keyIdNotFound : Py α) := ⟨fun _ h => by cases h; simp [PyErr.ReadErr]⟩
instance {α : Type} : Among X (.error .osError : Py α) := ⟨fun _ h => by cases h; simp [PyErr.ReadErr]⟩

instance {α : Type} (a : α) : Among X (.ok a : Py α) := ⟨by simp⟩
instance {α : Type} (a : α) : Among X (pure a : Py α) := ⟨fun _ h => by cases h⟩

instance instAmongBind {α β : Type} (x : Py α) (f : α → Py β) [hx : Among X x] [hf : ∀ a, Among X (f a)] : Among X (x >>= f) := .of (by
  intro e h
  rcases bind_eq_error.mp h with h | ⟨a, _, h⟩
  · exact hx.real e h
  · exact (hf a).real e h)

instance {α : Type} (c : Prop) [Decidable c] (x y : Py α) [Among X x] [Among X y] : Among X (if c then x else y) := by
  split <;> assumption

instance {σ : Type} (step : σ → Tlv → Py σ) [h : ∀ s t, Among X (step s t)] (buf : Bytes) (s : σ) :
    Among X (tlvLoop step buf s) := .of (by
  intro e he
  by_cases hu : e.ReadErr ∨ X e
  · exact hu
  · exfalso
    refine tlvLoop_ne_marker step e ?_ (fun s t hs => hu ((h s t).real e hs)) buf s he
    rintro rfl
    exact hu (by simp [PyErr.ReadErr]))

instance (b : Bool) : Among X (pyAssert b) := by unfold pyAssert; infer_instance

instance (n : Int) : Among X (byte n) := by unfold byte; infer_instance
instance (l : List Int) : Among X (byteArray l) := by
  induction l with
  | nil => exact .of (by simp [byteArray, List.mapM_nil])
  | cons a l ih => unfold byteArray at *; rw [List.mapM_cons]; infer_instance

/-! ## TLV level -/

instance (n : Nat) : Among X (tlvEncode n) := by unfold tlvEncode; infer_instance
instance (t : Tlv) : Among X t.serialize := by unfold Tlv.serialize; infer_instance
instance (a : Nat) (b : Bytes) : Among X (mkTlv a b) := by unfold mkTlv; infer_instance
instance (b : Bytes) : Among X (Tlv.deserialize b) := by
  refine .of fun e h => ?_
  rw [Tlv.deserialize_error h]
  simp [PyErr.ReadErr]
instance (n : Int) : Among X (numberToArray n) := by unfold numberToArray; infer_instance
instance (n : Int) : Among X (uint64ToArray n) := by unfold uint64ToArray; infer_instance
instance (n : Int) : Among X (uint32ToArray n) := by unfold uint32ToArray; infer_instance
instance (n : Int) : Among X (uint24ToArray n) := by unfold uint24ToArray; infer_instance
instance (n : Int) : Among X (uint16ToArray n) := by unfold uint16ToArray; infer_instance
instance (a : Nat) (n : Int) : Among X (createUint64 a n) := by unfold createUint64; infer_instance
instance (a : Nat) (n : Int) : Among X (createUint8 a n) := by unfold createUint8; infer_instance
instance (a : Nat) (n : Int) : Among X (createUint16 a n) := by unfold createUint16; infer_instance
instance (a : Nat) (n : Int) : Among X (createVarint a n) := by unfold createVarint; infer_instance
instance (l : List Tlv) : Among X (concatTlvs l) := by
  induction l with
  | nil => unfold concatTlvs; infer_instance
  | cons a l ih => unfold concatTlvs; infer_instance
instance {α : Type} (f : α → Py Tlv) [∀ a, Among X (f a)] (o : Option α) : Among X (optTlv f o) := by
  cases o <;> (unfold optTlv; infer_instance)
instance {α : Type} (f : α → Py Tlv) [∀ a, Among X (f a)] (l : List α) : Among X (listTlv f l) := by
  induction l with
  | nil => unfold listTlv; infer_instance
  | cons a l ih => unfold listTlv; infer_instance
instance {α : Type} (f : α → Py Tlv) [∀ a, Among X (f a)] (x : α) : Among X (construct f x) := by
  unfold construct; infer_instance
instance (a : Nat) (l : List Tlv) : Among X (container a l) := by unfold container; infer_instance

/-! ## Core objects -/

instance (a n : Nat) : Among X (intTlv a n) := by unfold intTlv; infer_instance
instance (a : Nat) (t : Tlv) : Among X (intParse a t) := by unfold intParse; infer_instance
instance (a : Nat) (v : Bytes) : Among X (octetTlv a v) := by unfold octetTlv; infer_instance
instance (a : Nat) (t : Tlv) : Among X (octetParse a t) := by unfold octetParse; infer_instance
instance (c : NameComponent) : Among X c.tlv := by unfold NameComponent.tlv; infer_instance
instance (n : Name) : Among X n.tlv := by unfold Name.tlv; infer_instance
instance (a : List NameComponent) (t : Tlv) : Among X (Name.parseStep a t) := by unfold Name.parseStep; infer_instance
instance (t : Tlv) : Among X (Name.parse t) := by unfold Name.parse; infer_instance
instance (h : HashValue) : Among X h.tlv := by unfold HashValue.tlv; infer_instance
instance (t : Tlv) : Among X (HashValue.parse t) := by unfold HashValue.parse; infer_instance
instance (b : Bytes) : Among X (HashValue.deserialize b) := by unfold HashValue.deserialize; infer_instance
instance (a : Nat) (h : HashValue) : Among X (hashTlv a h) := by unfold hashTlv; infer_instance
instance (a : Nat) (t : Tlv) : Among X (hashParse a t) := by unfold hashParse; infer_instance
instance (l : Link) : Among X l.members := by unfold Link.members; infer_instance
instance (l : Link) : Among X l.wire := by unfold Link.wire; infer_instance
instance (s : Link) (t : Tlv) : Among X (Link.parseStep s t) := by unfold Link.parseStep; infer_instance
instance (b : Bytes) : Among X (Link.deserialize b) := by unfold Link.deserialize; infer_instance
instance (a : Nat) (l : Link) : Among X (linkTlv a l) := by unfold linkTlv; infer_instance
instance (t : Tlv) : Among X (KeyLink.parse t) := by unfold KeyLink.parse; infer_instance
instance (a : Nat) (x : F64) : Among X (timestampTlv a x) := by unfold timestampTlv; infer_instance
instance (a : Nat) (t : Tlv) : Among X (timestampParse a t) := by unfold timestampParse; infer_instance
instance (n : Nat) : Among X (payloadTypeTlv n) := by unfold payloadTypeTlv; infer_instance
instance (t : Tlv) : Among X (payloadTypeParse t) := by unfold payloadTypeParse; infer_instance
instance (n : Nat) : Among X (finalChunkIdTlv n) := by unfold finalChunkIdTlv; infer_instance
instance (t : Tlv) : Among X (finalChunkIdParse t) := by unfold finalChunkIdParse; infer_instance
instance (c : ContentObject) : Among X c.members := by unfold ContentObject.members; infer_instance
instance (c : ContentObject) : Among X c.tlv := by unfold ContentObject.tlv; infer_instance
instance (s : ContentObject) (t : Tlv) : Among X (ContentObject.parseStep s t) := by unfold ContentObject.parseStep; infer_instance
instance (t : Tlv) : Among X (ContentObject.parse t) := by unfold ContentObject.parse; infer_instance
instance (a : ValidationAlg) : Among X a.tlv := by cases a <;> (unfold ValidationAlg.tlv; infer_instance)
instance (s : Option HashValue × Option F64) (t : Tlv) : Among X (ValidationAlg.rsaStep s t) := by unfold ValidationAlg.rsaStep; infer_instance
instance (now : F64) (t : Tlv) : Among X (ValidationAlg.rsaParse now t) := by
  unfold ValidationAlg.rsaParse
  split
  · infer_instance
  · refine @instAmongBind X _ _ _ _ inferInstance ?_
    intro a
    split <;> infer_instance
instance (now : F64) (t : Tlv) : Among X (ValidationAlg.parse now t) := by unfold ValidationAlg.parse; infer_instance
instance (v : Bytes) : Among X (valPayloadTlv v) := by unfold valPayloadTlv; infer_instance
instance (t : Tlv) : Among X (valPayloadParse t) := by unfold valPayloadParse; infer_instance

/-! ## Packets -/

instance {α : Type} (f : α → Py Tlv) [∀ a, Among X (f a)] (x : α) : Among X (wireOf f x) := by unfold wireOf; infer_instance
instance {α : Type} (f : Tlv → Py α) [∀ a, Among X (f a)] (x : Bytes) : Among X (ofWire f x) := by unfold ofWire; infer_instance
instance {α : Type} (f : α → Py Tlv) [∀ a, Among X (f a)] (o : Option α) : Among X (optWire f o) := by
  cases o <;> (unfold optWire; infer_instance)

/-! ## FLIC objects -/

/-- Every parser of a field table raises these exceptions only. -/
class AmongFields (X : PyErr → Prop) {σ : Type} (fs : List (AutoField σ)) : Prop where
  out : ∀ f ∈ fs, ∀ s t, Among X (f.parse s t)

instance {σ : Type} : AmongFields X ([] : List (AutoField σ)) := ⟨by simp⟩
instance {σ : Type} (f : AutoField σ) (fs : List (AutoField σ)) [h : ∀ s t, Among X (f.parse s t)] [hs : AmongFields X fs] :
    AmongFields X (f :: fs) := ⟨by
  intro g hg s t
  rcases List.mem_cons.mp hg with rfl | hg
  · exact h s t
  · exact hs.out g hg s t⟩
instance {σ α : Type} (ty : Nat) (get : σ → Option α) (set : σ → α → σ) (parse : Tlv → Py α) [∀ t, Among X (parse t)] (s : σ)
    (t : Tlv) : Among X ((autoField ty get set parse).parse s t) := by
  unfold autoField; infer_instance
instance {σ : Type} (fs : List (AutoField σ)) [h : AmongFields X fs] (s : σ) (t : Tlv) : Among X (autoStep fs s t) := by
  unfold autoStep
  split
  · infer_instance
  · rename_i f hf
    have := h.out f (List.mem_of_find?_eq_some hf) s t
    infer_instance
instance {σ : Type} (fs : List (AutoField σ)) [AmongFields X fs] (s : σ) (b : Bytes) : Among X (autoValueParse fs s b) := by
  unfold autoValueParse; infer_instance
instance {σ : Type} (a : Nat) (fs : List (AutoField σ)) [AmongFields X fs] (s : σ) (t : Tlv) : Among X (autoParse a fs s t) := by
  unfold autoParse; infer_instance
instance (g : GroupData) : Among X g.members := by unfold GroupData.members; infer_instance
instance (g : GroupData) : Among X g.tlv := by unfold GroupData.tlv; infer_instance
instance : AmongFields X GroupData.fields := by unfold GroupData.fields; infer_instance
instance (t : Tlv) : Among X (GroupData.parse t) := by unfold GroupData.parse; infer_instance
instance (l : List HashValue) : Among X (pointersTlv l) := by unfold pointersTlv; infer_instance
instance (a : List HashValue) (t : Tlv) : Among X (pointersStep a t) := by unfold pointersStep; infer_instance
instance (t : Tlv) : Among X (pointersParse t) := by unfold pointersParse; infer_instance
instance (g : HashGroup) : Among X g.members := by unfold HashGroup.members; infer_instance
instance (g : HashGroup) : Among X g.tlv := by unfold HashGroup.tlv; infer_instance
instance : AmongFields X HashGroup.fields := by unfold HashGroup.fields; infer_instance
instance (t : Tlv) : Among X (HashGroup.parse t) := by unfold HashGroup.parse; infer_instance
instance (l : Link) : Among X (locatorTlv l) := by unfold locatorTlv; split <;> infer_instance
instance (t : Tlv) : Among X (locatorParse t) := by unfold locatorParse; infer_instance
instance (l : List Link) : Among X (locatorsTlv l) := by unfold locatorsTlv; infer_instance
instance (a : List Link) (t : Tlv) : Among X (locatorsStep a t) := by unfold locatorsStep; infer_instance
instance (t : Tlv) : Among X (locatorsParse t) := by unfold locatorsParse; infer_instance
instance (n : Nat) : Among X (suffixTlv n) := by unfold suffixTlv; infer_instance
instance (t : Tlv) : Among X (suffixParse t) := by unfold suffixParse; infer_instance
instance (o : Option Bytes) : Among X (flagsCheck o) := by unfold flagsCheck; split <;> infer_instance
instance (x : NcSchema) : Among X x.tlv := by cases x <;> (unfold NcSchema.tlv; infer_instance)
instance (s : NcSchemaFields) (t : Tlv) : Among X (ncNameField.parse s t) := by unfold ncNameField; infer_instance
instance (s : NcSchemaFields) (t : Tlv) : Among X (ncSuffixField.parse s t) := by unfold ncSuffixField; infer_instance
instance (s : NcSchemaFields) (t : Tlv) : Among X (ncLocatorsField.parse s t) := by unfold ncLocatorsField; infer_instance
instance (s : NcSchemaFields) (t : Tlv) : Among X (ncFlagsField.parse s t) := by unfold ncFlagsField; infer_instance
instance (t : Tlv) : Among X (NcSchema.parsePrefix t) := by unfold NcSchema.parsePrefix; infer_instance
instance (t : Tlv) : Among X (NcSchema.parseSegmented t) := by unfold NcSchema.parseSegmented; infer_instance
instance (t : Tlv) : Among X (NcSchema.parseHash t) := by unfold NcSchema.parseHash; infer_instance
instance {α : Type} (a b : Py α) [ha : Among X a] [hb : Among X b] : Among X (orElseCannotParse a b) := by
  unfold orElseCannotParse; split <;> assumption
instance (t : Tlv) : Among X (NcSchema.parse t) := by unfold NcSchema.parse; infer_instance
instance (d : NcDef) : Among X d.members := by unfold NcDef.members; infer_instance
instance (d : NcDef) : Among X d.tlv := by unfold NcDef.tlv; infer_instance
instance (s : NcDef) (t : Tlv) : Among X (NcDef.parseStep s t) := by unfold NcDef.parseStep; infer_instance
instance (t : Tlv) : Among X (NcDef.parse t) := by unfold NcDef.parse; infer_instance
instance (v : Vendor) : Among X v.tlv := by unfold Vendor.tlv; infer_instance
instance (t : Tlv) : Among X (Vendor.parse t) := by unfold Vendor.parse; infer_instance
instance (d : NodeData) : Among X d.members := by unfold NodeData.members; infer_instance
instance (d : NodeData) : Among X d.tlv := by unfold NodeData.tlv; infer_instance
instance (s : NodeData) (t : Tlv) : Among X (NodeData.parseStep s t) := by unfold NodeData.parseStep; infer_instance
instance (t : Tlv) : Among X (NodeData.parse t) := by unfold NodeData.parse; infer_instance
instance (n : Nat) : Among X (padTlv n) := by unfold padTlv; infer_instance
instance (n : Node) : Among X n.members := by unfold Node.members; infer_instance
instance (n : Node) : Among X n.tlv := by
  unfold Node.tlv
  refine @instAmongBind X _ _ _ _ inferInstance ?_
  intro m
  split
  · infer_instance
  · refine @instAmongBind X _ _ _ _ inferInstance ?_
    intro v
    split
    · infer_instance
    · dsimp only; infer_instance
instance (s : NodeState) (t : Tlv) : Among X (Node.parseStep s t) := by unfold Node.parseStep; infer_instance
instance (t : Tlv) : Among X (Node.parse t) := by unfold Node.parse; infer_instance
instance (d : KdfData) : Among X d.tlv := by unfold KdfData.tlv; infer_instance
instance : AmongFields X KdfData.fields := by unfold KdfData.fields; infer_instance
instance (t : Tlv) : Among X (KdfData.parse t) := by
  unfold KdfData.parse
  refine @instAmongBind X _ _ _ _ inferInstance ?_
  intro v
  split <;> infer_instance
instance (d : AeadData) : Among X d.members := by unfold AeadData.members; infer_instance
instance : AmongFields X AeadData.fields := by unfold AeadData.fields; infer_instance
instance (b : Bytes) : Among X (AeadData.parse b) := by
  unfold AeadData.parse
  refine @instAmongBind X _ _ _ _ inferInstance ?_
  intro v
  split <;> infer_instance
instance (d : RsaOaepWrapper) : Among X d.members := by unfold RsaOaepWrapper.members; infer_instance
instance : AmongFields X RsaOaepWrapper.fields := by unfold RsaOaepWrapper.fields; infer_instance
instance (b : Bytes) : Among X (RsaOaepWrapper.parse b) := by
  unfold RsaOaepWrapper.parse
  refine @instAmongBind X _ _ _ _ inferInstance ?_
  intro v
  split <;> infer_instance
instance (w : Option RsaOaepWrapper) : Among X (wrapperMembers w) := by cases w <;> (unfold wrapperMembers; infer_instance)
instance (c : SecurityCtx) : Among X c.tlv := by cases c <;> (unfold SecurityCtx.tlv; infer_instance)
instance (t : Tlv) : Among X (SecurityCtx.parse t) := by unfold SecurityCtx.parse; infer_instance
instance (n : ManifestNode) : Among X n.tlv := by cases n <;> (unfold ManifestNode.tlv; infer_instance)
instance (m : Manifest) : Among X m.members := by unfold Manifest.members; infer_instance
instance (m : Manifest) : Among X m.serialize := by unfold Manifest.serialize; infer_instance
instance (s : ManifestState) (t : Tlv) : Among X (Manifest.parseStep s t) := by unfold Manifest.parseStep; infer_instance
instance (b : Bytes) : Among X (Manifest.deserialize b) := by
  unfold Manifest.deserialize
  refine @instAmongBind X _ _ _ _ inferInstance ?_
  intro s
  split <;> infer_instance


/-! ## Showing -/

instance {α : Type} (f : α → Py Unit) [∀ a, Among X (f a)] (l : List α) : Among X (showAll f l) := by
  induction l with
  | nil => unfold showAll; infer_instance
  | cons a l ih => unfold showAll; infer_instance
instance {α : Type} (f : α → Py Unit) [∀ a, Among X (f a)] (o : Option α) : Among X (showOpt f o) := by
  cases o <;> (unfold showOpt; infer_instance)
instance (b : Bytes) : Among X (utf8DecodePy b) := by unfold utf8DecodePy; split <;> infer_instance
instance (n : Nat) : Among X (decimal n) := by unfold decimal; infer_instance
instance (n : Nat) : Among X (showInt n) := by unfold showInt; infer_instance
instance (t : F64) : Among X (showTime t) := by unfold showTime; infer_instance
instance (R : NameComponent → Text) (c : NameComponent) : Among X (NameComponent.repr R c) := by unfold NameComponent.repr; infer_instance
instance (n : Name) : Among X n.display := by unfold Name.display; infer_instance
instance (l : Link) : Among X l.display := by unfold Link.display; infer_instance
instance (m : Nat) : Among X (aeadModeDisplay m) := by unfold aeadModeDisplay; infer_instance
instance (d : AeadData) : Among X d.display := by unfold AeadData.display; infer_instance
instance (w : RsaOaepWrapper) : Among X w.display := by unfold RsaOaepWrapper.display; infer_instance
instance (c : SecurityCtx) : Among X c.display := by cases c <;> (unfold SecurityCtx.display; infer_instance)
instance (l : List Link) : Among X (locatorsDisplay l) := by unfold locatorsDisplay; infer_instance
instance (s : NcSchema) : Among X s.display := by cases s <;> (unfold NcSchema.display; infer_instance)
instance (d : NcDef) : Among X d.display := by unfold NcDef.display; infer_instance
instance (d : NodeData) : Among X d.display := by unfold NodeData.display; infer_instance
instance (g : HashGroup) : Among X g.listPointers := by unfold HashGroup.listPointers; split <;> infer_instance
instance (g : GroupData) : Among X g.display := by unfold GroupData.display; infer_instance
instance (g : HashGroup) : Among X g.display := by unfold HashGroup.display; infer_instance
instance (n : Node) : Among X n.display := by unfold Node.display; infer_instance
instance (m : Manifest) : Among X m.display := by
  unfold Manifest.display
  refine @instAmongBind X _ _ _ _ inferInstance ?_
  intro _
  split <;> infer_instance
instance (c : ContentObject) (x : Py Unit) [Among X x] : Among X (c.displayFields x) := by unfold ContentObject.displayFields; infer_instance
instance (b : Bool) (c : ContentObject) : Among X (c.display b) := by
  unfold ContentObject.display
  split
  · split
    · infer_instance
    · split
      · infer_instance
      · infer_instance
      · rename_i e _ he
        exact .of fun e' h => by
          cases h
          exact Among.real _ he
  · split
    · split <;> infer_instance
    · infer_instance

/-! ## Keys, signatures and decryption -/

instance (bs : List Bytes) (p : Option Bytes) : Among X (crcVerify bs p) := by unfold crcVerify; split <;> infer_instance
instance (P : Prims) (k : RsaKey) (bs : List Bytes) (p : Option Bytes) : Among X (rsaVerify P k bs p) := by
  unfold rsaVerify; split <;> infer_instance
instance (P : Prims) (ks : Keystore) (q : RsaName) : Among X (ks.getRsa P q) := by
  unfold Keystore.getRsa
  split
  · infer_instance
  · split <;> infer_instance
instance (ks : Keystore) (n : Nat) : Among X (ks.getAesKey n) := by unfold Keystore.getAesKey; split <;> infer_instance
instance (P : Prims) (ks : Option Keystore) (p : Packet) : Among X (validatePacket P ks p) := by
  unfold validatePacket
  split
  · infer_instance
  · infer_instance
  · split <;> infer_instance

/-- The exceptions of the primitives used for decryption are among `X`, apart from InvalidTag. -/
class PrimsIn (X : PyErr → Prop) (P : Prims) : Prop where
  aead : ∀ alg key iv data aad e, P.aeadOpen alg key iv data aad = .error e → e = .invalidTag ∨ X e
  oaep : ∀ der c label e, P.oaepDecrypt der c label = .error e → X e

instance (P : Prims) [h : PrimsIn X P] (k : AeadKey) (iv c aad tag : Bytes) : Among X (k.decrypt P iv c aad tag) := by
  unfold AeadKey.decrypt
  split
  · infer_instance
  · infer_instance
  · rename_i e hn he
    refine .of fun e' h' => ?_
    cases h'
    rcases h.aead _ _ _ _ _ _ he with h1 | h1
    · exact absurd h1 hn
    · exact .inr h1
instance (P : Prims) [h : PrimsIn X P] (p : AeadParams) (c : SecurityCtx) (x t : Bytes) : Among X (p.decryptNode P c x t) := by
  unfold AeadParams.decryptNode
  split
  · infer_instance
  · split
    · infer_instance
    · split <;> infer_instance
instance (P : Prims) [h : PrimsIn X P] (p : AeadParams) (m : Manifest) : Among X (aeadDecryptManifest P p m) := by
  unfold aeadDecryptManifest
  split
  · infer_instance
  · split
    · infer_instance
    · infer_instance
    · split <;> infer_instance
instance (P : Prims) [h : PrimsIn X P] (p : AeadParams) (m : Manifest) : Among X (oaepDecryptManifest P p m) := by
  unfold oaepDecryptManifest
  split
  · infer_instance
  · split
    · infer_instance
    · infer_instance
    · split <;> infer_instance
instance (k : Option KdfData) : Among X (kdfLabel k) := by
  unfold kdfLabel
  split
  · infer_instance
  · split <;> infer_instance
instance (P : Prims) (k : RsaKey) (n : Nat) (m : Option Nat) (d : Option KdfData) : Among X (oaepLabel P k n m d) := by
  unfold oaepLabel
  cases m <;> (dsimp only; infer_instance)
instance (P : Prims) [h : PrimsIn X P] (k : RsaKey) (c l : Bytes) : Among X (k.decryptOaep P c l) := by
  unfold RsaKey.decryptOaep
  split
  · exact .of fun e he => .inr (h.oaep _ _ _ _ he)
  · infer_instance
instance (P : Prims) [h : PrimsIn X P] (k : RsaKey) (w : Bytes) (d : AeadData) : Among X (unwrapKey P k w d) := by
  unfold unwrapKey; infer_instance
instance (a : AeadAlg) (k : Bytes) : Among X (AeadKey.create a k) := by unfold AeadKey.create; infer_instance
instance (m : Option Nat) (k : Bytes) : Among X (oaepAeadKey m k) := by unfold oaepAeadKey; split <;> infer_instance
instance (n : Option Int) : Among X (saltCheck n) := by unfold saltCheck; split <;> infer_instance
instance (k : Option AeadKey) (n : Nat) (s : Option Int) (d : Option KdfData) (t : Option Int) :
    Among X (AeadParams.create k n s d t) := by unfold AeadParams.create; infer_instance
instance (P : Prims) [h : PrimsIn X P] (ks : Keystore) (d : AeadData) (w : Option RsaOaepWrapper) :
    Among X (oaepCreateByWrappedKey P ks d w) := by
  unfold oaepCreateByWrappedKey
  split
  · infer_instance
  · refine @instAmongBind X _ _ _ _ inferInstance ?_
    intro k
    split
    · infer_instance
    · split <;> infer_instance
instance (P : Prims) [h : PrimsIn X P] (ks : Keystore) (d : AeadData) (w : Option RsaOaepWrapper) :
    Among X (oaepCreate P ks d w) := by
  unfold oaepCreate; split <;> infer_instance
instance (P : Prims) [h : PrimsIn X P] (s : OaepDecryptor) (d : AeadData) (w : Option RsaOaepWrapper) : Among X (s.getImpl P d w) := by
  unfold OaepDecryptor.getImpl
  dsimp only
  split <;> infer_instance
instance (P : Prims) [h : PrimsIn X P] (s : OaepDecryptor) (m : Manifest) : Among X (s.decryptManifest P m).1 := by
  unfold OaepDecryptor.decryptManifest
  split
  · rename_i d w _
    split
    · rename_i e he
      refine .of fun e' h' => ?_
      cases h'
      exact Among.real _ he
    · infer_instance
  · infer_instance
instance (c : DecryptorCache) (x : SecurityCtx) : Among X (c.create x) := by cases x <;> (unfold DecryptorCache.create; infer_instance)
instance (c : DecryptorCache) (x : SecurityCtx) : Among X (c.getOrCreate x).1 := by
  unfold DecryptorCache.getOrCreate
  split
  · infer_instance
  · dsimp only
    split
    · rename_i e he
      refine .of fun e' h' => ?_
      cases h'
      exact Among.real _ he
    · infer_instance
instance (P : Prims) [h : PrimsIn X P] (c : DecryptorCache) (d : Option Decryptor) (m : Manifest) : Among X (c.decrypt P d m).1 := by
  unfold DecryptorCache.decrypt
  split <;> infer_instance
instance (P : Prims) [h : PrimsIn X P] (c : DecryptorCache) (m : Manifest) : Among X (c.open P m).1 := by
  unfold DecryptorCache.open
  split
  · split
    · infer_instance
    · rename_i ctx _
      split
      · rename_i e c' he
        refine .of fun e' h' => ?_
        cases h'
        exact Among.real (x := (c.getOrCreate ctx).1) _ (by rw [he])
      · infer_instance
  · infer_instance

/-! ## Names -/

instance (s : NcSchema) : Among X s.implCheck := by cases s <;> (unfold NcSchema.implCheck; infer_instance)
instance (n : Nat) (s : NcSchema) : Among X (SchemaImpl.create n s) := by unfold SchemaImpl.create; infer_instance
instance (d : NcDef) : Among X (SchemaImpl.ofNcDef d) := by
  unfold SchemaImpl.ofNcDef
  split
  · infer_instance
  · split <;> infer_instance
instance (n : Nat) (i : Int) : Among X (suffixComponent n i) := by unfold suffixComponent; infer_instance
instance (n : Name) (c : NameComponent) : Among X (n.append c) := by unfold Name.append; infer_instance
instance (s : SchemaImpl) (i : Option Int) : Among X (s.getName i) := by
  unfold SchemaImpl.getName
  split
  · infer_instance
  · infer_instance
  · split
    · split <;> infer_instance
    · infer_instance
instance (d : NcDef) : Among X d.announce := by unfold NcDef.announce; split <;> infer_instance
instance (c : NcCache) (ds : List NcDef) : Among X (c.update ds) := by
  induction ds generalizing c with
  | nil => unfold NcCache.update; infer_instance
  | cons d ds ih => unfold NcCache.update; infer_instance
instance (c : NcCache) (n : Node) : Among X (updateNcCache c n) := by
  unfold updateNcCache
  split <;> infer_instance
instance (c : NcCache) (n : Nat) : Among X (c.find n) := by unfold NcCache.find; split <;> infer_instance
instance (it : NodeIterator) : Among X it.next := by
  induction hn : it.groups.length - it.groupIndex using Nat.strongRecOn generalizing it with
  | _ n ih =>
    unfold NodeIterator.next
    split
    · infer_instance
    · rename_i hg
      dsimp only
      split
      · infer_instance
      · split
        · exact ih _ (by simp only; omega) _ rfl
        · split
          · infer_instance
          · split <;> infer_instance

/-! ## The traversal -/

instance (c : ContentObject) : Among X (Manifest.fromContentObject c) := by
  unfold Manifest.fromContentObject
  split
  · infer_instance
  · split
    · infer_instance
    · split <;> infer_instance
instance (p : Packet) (sha : Bytes → Bytes) : Among X (p.hash sha) := by unfold Packet.hash Packet.hashInput; infer_instance
instance (c : ContentObject) : Among X (unsupportedPayload c) := by unfold unsupportedPayload; infer_instance

/-- The same for code with state. -/
def AmongS (X : PyErr → Prop) {σ α : Type} (x : PyS σ α) : Prop := ∀ s, Among X (x s).1

theorem AmongS.lift {σ α : Type} (x : Py α) [h : Among X x] : AmongS X (PyS.lift x : PyS σ α) := fun _ => h

theorem AmongS.bind {σ α β : Type} {x : PyS σ α} {f : α → PyS σ β} (hx : AmongS X x) (hf : ∀ a, AmongS X (f a)) :
    AmongS X (x >>= f) := by
  intro s
  refine .of fun e he => ?_
  cases hr : x s with
  | mk r s' =>
    cases r with
    | error e' =>
      have h1 : ((x >>= f) s).1 = .error e' := by rw [PyS.bind_run, hr]
      rw [h1] at he
      cases he
      exact (hx s).real e (by rw [hr])
    | ok a =>
      have h1 : (x >>= f) s = f a s' := by rw [PyS.bind_run, hr]
      rw [h1] at he
      exact (hf a s').real e he

theorem AmongS.modify {σ : Type} (f : σ → σ) : AmongS X (PyS.modify f) := fun _ => ⟨fun _ h => by cases h⟩
theorem AmongS.pure {σ α : Type} (a : α) : AmongS X (pure a : PyS σ α) := fun _ => ⟨fun _ h => by cases h⟩

/-! ## The picture -/

instance (l : List HashValue) (g : HashGroup) : Among X (appendPointers l g) := by unfold appendPointers; split <;> infer_instance

theorem among_foldlM {α β : Type} (f : β → α → Py β) [h : ∀ b a, Among X (f b a)] (l : List α) (b : β) : Among X (l.foldlM f b) := by
  induction l generalizing b with
  | nil => rw [List.foldlM_nil]; infer_instance
  | cons a l ih => rw [List.foldlM_cons]; infer_instance

theorem among_mapM {α β : Type} (f : α → Py β) [h : ∀ a, Among X (f a)] (l : List α) : Among X (l.mapM f) := by
  induction l with
  | nil => rw [List.mapM_nil]; infer_instance
  | cons a l ih => rw [List.mapM_cons]; infer_instance

instance (n : Node) : Among X n.hashValues := among_foldlM _ _ _
instance (R : NameComponent → Text) (n : Name) : Among X (n.asUri R) := by
  unfold Name.asUri
  have := among_mapM (X := X) (NameComponent.repr R) n.components
  infer_instance
instance (R : NameComponent → Text) (h : HashValue) (n : Option Name) : Among X (graphLabel R h n) := by
  unfold graphLabel
  split
  · infer_instance
  · rename_i n
    have : Among X (n.component ((n.components.length : Int) - 1)) := by
      unfold Name.component pyAssert
      refine .of fun e he => ?_
      by_cases h0 : n.components.length = 0
      · rw [if_neg (by simp; omega)] at he
        cases he
        simp [PyErr.ReadErr]
      · rw [if_pos (by simp; omega)] at he
        have : ∃ c, pyIndex n.components ((n.components.length : Int) - 1) = .ok c := by
          unfold pyIndex
          dsimp only
          rw [if_neg (by omega), if_neg (by omega), List.getElem?_eq_getElem (by omega)]
          exact ⟨_, rfl⟩
        obtain ⟨c, hc⟩ := this
        rw [ok_bind, hc] at he
        cases he
    infer_instance

end Ccnpy
