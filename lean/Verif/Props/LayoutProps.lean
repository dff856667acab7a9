import Verif.Lemmas.Flic
import Verif.Lemmas.Crypto
import Verif.Lemmas.Packet
import Verif.Model.Directory
import Verif.Props.CryptoProps

/-!
# C89: the wire format, byte for byte

Every number is written out here; nothing in the specification refers to the type constants or the encoders of the model.
-/

namespace Ccnpy

/-! ## The documented format -/

/-- `n` in `w` bytes, most significant first. -/
def Spec.number : Nat → Nat → Bytes
  | 0, _ => []
  | w + 1, n => Spec.number w (n / 256) ++ [UInt8.ofNat (n % 256)]

/-- An integer of the protocol: the shortest of 1, 2, 3, 4 or 8 bytes. -/
def Spec.integer (n : Nat) : Bytes :=
  if n < 256 then Spec.number 1 n else if n < 65536 then Spec.number 2 n else if n < 16777216 then Spec.number 3 n
  else if n < 4294967296 then Spec.number 4 n else Spec.number 8 n

/-- Two bytes of type, two bytes of length, the value. -/
def Spec.box (type : Nat) (value : Bytes) : Bytes := Spec.number 2 type ++ Spec.number 2 value.length ++ value

/-- A part that may be missing. -/
def Spec.maybe {α : Type} (f : α → Bytes) (o : Option α) : Bytes :=
  match o with
  | none => []
  | some x => f x

/-- Parts one after the other. -/
def Spec.each {α : Type} (f : α → Bytes) (l : List α) : Bytes := (l.map f).flatten

namespace Spec.Wire

def name (n : Name) : Bytes := Spec.box 0x0000 (Spec.each (fun c => Spec.box c.type c.value) n.components)

/-- The type is the number of the hash algorithm. -/
def hash (h : HashValue) : Bytes := Spec.box h.alg h.value

def link (l : Link) : Bytes :=
  Spec.maybe name l.name ++ Spec.maybe (fun h => Spec.box 0x0002 (hash h)) l.keyid ++
    Spec.maybe (fun h => Spec.box 0x0003 (hash h)) l.digest

/-- Milliseconds since 1970 in eight bytes. -/
def time (type : Nat) (t : F64) : Bytes := Spec.box type (Spec.number 8 t.milliseconds)

def contentObject (c : ContentObject) : Bytes :=
  Spec.box 0x0002 (Spec.maybe name c.name ++ Spec.maybe (time 0x0006) c.expiryTime ++
    Spec.maybe (fun t => Spec.box 0x0005 [UInt8.ofNat t]) c.payloadType ++ Spec.maybe (Spec.box 0x0001) c.payload ++
    Spec.maybe (fun n => Spec.box 0x0007 (Spec.integer n)) c.finalChunkId)

def validationAlg : ValidationAlg → Bytes
  | .crc32c => Spec.box 0x0003 (Spec.box 0x0002 [])
  | .rsaSha256 keyid keyLink t =>
    Spec.box 0x0003 (Spec.box 0x0004 (Spec.box 0x0009 (hash keyid) ++ Spec.maybe (fun l => Spec.box 0x000E (link l)) keyLink ++
      time 0x000F t))

/-- Everything after the fixed header. -/
def sections (p : Packet) : Bytes :=
  contentObject p.body ++ Spec.maybe validationAlg p.alg ++ Spec.maybe (Spec.box 0x0004) p.payload

/-- The eight bytes of the fixed header of a content object: version 1, packet type 1, the length of the packet, three reserved bytes, the
length of the header. -/
def header (packetLength : Nat) : Bytes := [1, 1] ++ Spec.number 2 packetLength ++ [0, 0, 0, 8]

def groupData (g : GroupData) : Bytes :=
  Spec.box 0x000B (Spec.maybe (fun n => Spec.box 0x0002 (Spec.integer n)) g.subtreeSize ++
    Spec.maybe (fun h => Spec.box 0x0003 (hash h)) g.subtreeDigest ++
    Spec.maybe (fun n => Spec.box 0x0000 (Spec.integer n)) g.leafSize ++
    Spec.maybe (fun h => Spec.box 0x0001 (hash h)) g.leafDigest ++
    Spec.maybe (fun n => Spec.box 0x0005 (Spec.integer n)) g.ncId ++
    Spec.maybe (fun n => Spec.box 0x0004 (Spec.integer n)) g.startSegmentId)

def pointers (ps : List HashValue) : Bytes := Spec.box 0x0007 (Spec.each hash ps)

def hashGroup (g : HashGroup) : Bytes :=
  Spec.box 0x0001 (Spec.maybe groupData g.groupData ++ Spec.maybe pointers g.pointers)

def locators (ls : List Link) : Bytes := Spec.box 0x0006 (Spec.each (fun l => Spec.box 0x000D (link l)) ls)

/-- Schemas with protocol flags cannot be built. -/
def schema : NcSchema → Bytes
  | .hash ls _ => Spec.box 0x0010 (Spec.maybe locators ls)
  | .prefixed n ls _ => Spec.box 0x0011 (Spec.maybe name n ++ Spec.maybe locators ls)
  | .segmented n s ls _ =>
    Spec.box 0x0012 (Spec.maybe name n ++ Spec.maybe (fun t => Spec.box 0x0002 (Spec.number 2 t)) s ++ Spec.maybe locators ls)

def ncDef (d : NcDef) : Bytes :=
  Spec.box 0x0004 (Spec.maybe (fun n => Spec.box 0x0005 (Spec.integer n)) d.ncId ++ Spec.maybe schema d.schema)

/-- A private enterprise number in three bytes, then the payload. -/
def vendor (v : Vendor) : Bytes := Spec.box 0x0FFF (Spec.number 3 v.pen ++ v.payload)

def nodeData (d : NodeData) : Bytes :=
  Spec.box 0x0000 (Spec.maybe (fun n => Spec.box 0x0002 (Spec.integer n)) d.subtreeSize ++
    Spec.maybe (fun h => Spec.box 0x0003 (hash h)) d.subtreeDigest ++ Spec.maybe locators d.locators ++
    Spec.each ncDef d.ncDefs ++ Spec.each vendor d.vendors)

/-- What a node holds before its padding. -/
def nodeParts (n : Node) : Bytes := Spec.maybe nodeData n.nodeData ++ Spec.each hashGroup n.hashGroups

/-- Padding up to the wanted length of the node, if at least four bytes are missing. -/
def padding (size : Nat) : Option Int → Bytes
  | none => []
  | some wanted => if wanted < size + 4 then [] else Spec.box 0x0FFE (List.replicate (wanted - (size + 4)).toNat 0)

def node (n : Node) : Bytes := Spec.box 0x0001 (nodeParts n ++ padding (4 + (nodeParts n).length) n.padLength)

def kdfData (d : KdfData) : Bytes :=
  Spec.box 0x0005 (Spec.box 0x0006 (Spec.integer d.kdfAlg) ++ Spec.maybe (Spec.box 0x0007) d.kdfInfo)

def aeadData (d : AeadData) : Bytes :=
  Spec.box 0x0000 (Spec.integer d.keyNumber) ++ Spec.box 0x0001 d.nonce ++
    Spec.maybe (fun m => Spec.box 0x0002 (Spec.integer m)) d.mode ++ Spec.maybe kdfData d.kdfData

def wrapper (w : RsaOaepWrapper) : Bytes :=
  Spec.box 0x0009 (hash w.keyId) ++ Spec.maybe (fun l => Spec.box 0x000E (link l)) w.keyLink ++
    Spec.maybe (fun n => Spec.box 0x0003 (Spec.integer n)) w.hashAlg ++ Spec.maybe (Spec.box 0x0004) w.wrappedKey

def securityCtx : SecurityCtx → Bytes
  | .aead d => Spec.box 0x0000 (Spec.box 0x0000 (aeadData d))
  | .rsaOaep d w => Spec.box 0x0000 (Spec.box 0x0001 (aeadData d ++ Spec.maybe wrapper w))

def manifestNode : ManifestNode → Bytes
  | .plain n => node n
  | .encrypted c => Spec.box 0x0002 c

def manifest (m : Manifest) : Bytes :=
  Spec.maybe securityCtx m.securityCtx ++ manifestNode m.node ++ Spec.maybe (Spec.box 0x0003) m.authTag

end Spec.Wire

/-! ## Lemmas -/

theorem specNumber_eq (w n : Nat) : Spec.number w n = beBytes w n := by
  induction w generalizing n with
  | zero => rfl
  | succ w ih =>
    rw [Spec.number, ih]
    clear ih
    induction w with
    | zero => simp [beBytes]
    | succ w ih =>
      rw [beBytes, List.cons_append, ih, beBytes, beBytes, Nat.div_div_eq_div_mul, ← Nat.pow_succ']
      rfl

theorem specBox_eq (t : Nat) (v : Bytes) (ht : t ≤ 0xFFFF) (hv : v.length ≤ 0xFFFF) : Spec.box t v = (⟨t, v⟩ : Tlv).bytes := by
  have e (n : Nat) (h : n ≤ 0xFFFF) : Spec.number 2 n = be16 n := by
    rw [specNumber_eq]
    simp only [beBytes, be16, Nat.pow_one, Nat.pow_zero, Nat.div_one, Nat.mod_eq_of_lt (show n / 256 < 256 by omega)]
  simp only [Spec.box, Tlv.bytes, Tlv.length, e t ht, e _ hv]

theorem specInteger_eq (n : Nat) : Spec.integer n = beBytes (numWidth n) n := by
  simp only [Spec.integer, numWidth, specNumber_eq]
  repeat' split
  all_goals rfl

/-- `x` is written as the bytes `L x`, if it can be written. -/
def Laid {α : Type} (tlv : α → Py Tlv) (L : α → Bytes) : Prop := ∀ x t, tlv x = .ok t → t.Valid ∧ t.bytes = L x

theorem Laid.mk {ty : Nat} {v : Bytes} {t : Tlv} (h : mkTlv ty v = .ok t) : t.Valid ∧ t.bytes = Spec.box ty v := by
  obtain ⟨rfl, hv⟩ := mkTlv_ok h
  exact ⟨hv, (specBox_eq _ _ hv.1 hv.2).symm⟩

theorem Laid.container {ty : Nat} {l : List Tlv} {t : Tlv} (h : container ty l = .ok t) :
    t.Valid ∧ t.bytes = Spec.box ty (bytesAll l) := by
  obtain ⟨_, rfl, hv⟩ := container_ok h
  exact ⟨hv, (specBox_eq _ _ hv.1 hv.2).symm⟩

theorem Laid.opt {α : Type} {tlv : α → Py Tlv} {L : α → Bytes} (hl : Laid tlv L) {o : Option α} {l : List Tlv}
    (h : optTlv tlv o = .ok l) : bytesAll l = Spec.maybe L o := by
  cases o with
  | none => cases h; rfl
  | some x =>
    obtain ⟨t, ht, rfl⟩ := optTlv_some h
    simp [Spec.maybe, (hl x t ht).2]

theorem Laid.list {α : Type} {tlv : α → Py Tlv} {L : α → Bytes} (hl : Laid tlv L) {xs : List α} {l : List Tlv}
    (h : listTlv tlv xs = .ok l) : bytesAll l = Spec.each L xs := by
  induction xs generalizing l with
  | nil => cases h; rfl
  | cons x xs ih =>
    obtain ⟨t, r, ht, hr, rfl⟩ := listTlv_cons_ok h
    simp [Spec.each, (hl x t ht).2] at *
    exact ih hr

theorem Laid.wire {α : Type} {tlv : α → Py Tlv} {L : α → Bytes} (hl : Laid tlv L) {x : α} {w : Bytes} (h : wireOf tlv x = .ok w) :
    w = L x := by
  obtain ⟨t, ht, h⟩ := bind_eq_ok.mp h
  rw [(Tlv.serialize_ok h).2, (hl x t ht).2]

theorem Laid.optWire {α : Type} {tlv : α → Py Tlv} {L : α → Bytes} (hl : Laid tlv L) {o : Option α} {w : Bytes}
    (h : optWire tlv o = .ok w) : w = Spec.maybe L o := by
  cases o with
  | none => cases h; rfl
  | some x => exact hl.wire h

theorem laid_component : Laid NameComponent.tlv (fun c => Spec.box c.type c.value) := fun _ _ h => Laid.mk h

theorem laid_name : Laid Name.tlv Spec.Wire.name := by
  intro n t h
  obtain ⟨l, hl, h⟩ := bind_eq_ok.mp h
  rw [Spec.Wire.name, ← laid_component.list hl]
  exact Laid.container h

theorem laid_hash : Laid HashValue.tlv Spec.Wire.hash := fun _ _ h => Laid.mk h

theorem laid_hashTlv (ty : Nat) : Laid (hashTlv ty) (fun h => Spec.box ty (Spec.Wire.hash h)) := by
  intro v t h
  obtain ⟨i, hi, h⟩ := bind_eq_ok.mp h
  simpa [(laid_hash v i hi).2] using Laid.container h

theorem laid_int (ty : Nat) : Laid (intTlv ty) (fun n => Spec.box ty (Spec.integer n)) := by
  intro n t h
  obtain ⟨b, hb, h⟩ := bind_eq_ok.mp h
  have := Laid.mk h
  rw [numberToArray_nat] at hb
  cases hb
  show _ ∧ _ = Spec.box ty (Spec.integer n)
  rwa [specInteger_eq]

theorem laid_octet (ty : Nat) : Laid (octetTlv ty) (Spec.box ty) := fun _ _ h => Laid.mk h

theorem linkWire_eq {l : Link} {w : Bytes} (h : l.wire = .ok w) : w = Spec.Wire.link l := by
  obtain ⟨ms, hm, h⟩ := bind_eq_ok.mp h
  rw [(concatTlvs_ok h).2]
  obtain ⟨a, ha, hm⟩ := bind_eq_ok.mp hm
  obtain ⟨b, hb, hm⟩ := bind_eq_ok.mp hm
  obtain ⟨c, hc, hm⟩ := bind_eq_ok.mp hm
  cases hm
  simp only [bytesAll_append, laid_name.opt ha, (laid_hashTlv _).opt hb, (laid_hashTlv _).opt hc]
  rfl

theorem laid_link (ty : Nat) : Laid (linkTlv ty) (fun l => Spec.box ty (Spec.Wire.link l)) := by
  intro l t h
  obtain ⟨w, hw, h⟩ := bind_eq_ok.mp h
  show _ ∧ _ = Spec.box ty (Spec.Wire.link l)
  rw [← linkWire_eq hw]
  exact Laid.mk h

theorem laid_time (ty : Nat) : Laid (timestampTlv ty) (Spec.Wire.time ty) := by
  intro x t h
  unfold timestampTlv at h
  split at h
  · cases h
  · obtain ⟨b, hb, h⟩ := bind_eq_ok.mp h
    rw [uint64ToArray_nat] at hb
    cases hb
    rw [Spec.Wire.time, specNumber_eq]
    exact Laid.mk h

theorem laid_payloadType : Laid payloadTypeTlv (fun t => Spec.box 0x0005 [UInt8.ofNat t]) := by
  intro n t h
  obtain ⟨u, hu, h⟩ := bind_eq_ok.mp h
  obtain ⟨b, hb, h⟩ := bind_eq_ok.mp h
  have hn : n < 256 := by
    have := pyAssert_ok hu
    simp only [decide_eq_true_eq] at this
    omega
  rw [numberToArray_nat] at hb
  cases hb
  have e : beBytes (numWidth n) n = [UInt8.ofNat n] := by
    have : numWidth n = 1 := by simp [numWidth, hn]
    rw [this]
    simp [beBytes, Nat.mod_eq_of_lt hn]
  rw [e] at h
  exact Laid.mk h

theorem laid_contentObject : Laid ContentObject.tlv Spec.Wire.contentObject := by
  intro c t h
  obtain ⟨ms, hm, h⟩ := bind_eq_ok.mp h
  obtain ⟨a, ha, hm⟩ := bind_eq_ok.mp hm
  obtain ⟨b, hb, hm⟩ := bind_eq_ok.mp hm
  obtain ⟨d, hd, hm⟩ := bind_eq_ok.mp hm
  obtain ⟨e, he, hm⟩ := bind_eq_ok.mp hm
  obtain ⟨f, hf, hm⟩ := bind_eq_ok.mp hm
  cases hm
  have := Laid.container h
  simp only [bytesAll_append, laid_name.opt ha, (laid_time _).opt hb, laid_payloadType.opt hd, (laid_octet _).opt he,
    (laid_int T_FINAL_CHUNK_ID).opt hf] at this
  exact this

theorem laid_validationAlg : Laid ValidationAlg.tlv Spec.Wire.validationAlg := by
  intro a t h
  cases a with
  | crc32c =>
    obtain ⟨i, hi, h⟩ := bind_eq_ok.mp h
    have h1 := Laid.container h
    simp only [bytesAll_cons, bytesAll_nil, List.append_nil, (Laid.mk hi).2] at h1
    exact h1
  | rsaSha256 k l st =>
    obtain ⟨a, ha, h⟩ := bind_eq_ok.mp h
    obtain ⟨b, hb, h⟩ := bind_eq_ok.mp h
    obtain ⟨c, hc, h⟩ := bind_eq_ok.mp h
    obtain ⟨i, hi, h⟩ := bind_eq_ok.mp h
    have h1 := Laid.container h
    have h2 := Laid.container hi
    simp only [bytesAll_append, bytesAll_cons, bytesAll_nil, List.append_nil, h2.2, (laid_hashTlv _ _ _ ha).2, (laid_link _).opt hb,
      (laid_time _ _ _ hc).2] at h1
    exact h1

theorem laid_valPayload : Laid valPayloadTlv (Spec.box 0x0004) := fun _ _ h => Laid.mk h

theorem sections_eq {p : Packet} {w : Bytes} (h : p.hashInput = .ok w) : w = Spec.Wire.sections p := by
  obtain ⟨b, hb, h⟩ := bind_eq_ok.mp h
  obtain ⟨a, ha, h⟩ := bind_eq_ok.mp h
  obtain ⟨v, hv, h⟩ := bind_eq_ok.mp h
  cases h
  rw [laid_contentObject.wire hb, laid_validationAlg.optWire ha, laid_valPayload.optWire hv]
  rfl

theorem laid_groupData : Laid GroupData.tlv Spec.Wire.groupData := by
  intro g t h
  obtain ⟨ms, hm, h⟩ := bind_eq_ok.mp h
  obtain ⟨a, ha, hm⟩ := bind_eq_ok.mp hm
  obtain ⟨b, hb, hm⟩ := bind_eq_ok.mp hm
  obtain ⟨d, hd, hm⟩ := bind_eq_ok.mp hm
  obtain ⟨e, he, hm⟩ := bind_eq_ok.mp hm
  obtain ⟨f, hf, hm⟩ := bind_eq_ok.mp hm
  obtain ⟨k, hk, hm⟩ := bind_eq_ok.mp hm
  cases hm
  have := Laid.container h
  simp only [bytesAll_append, (laid_int _).opt ha, (laid_hashTlv _).opt hb, (laid_int _).opt hd, (laid_hashTlv _).opt he,
    (laid_int _).opt hf, (laid_int _).opt hk] at this
  exact this

theorem laid_pointers : Laid pointersTlv Spec.Wire.pointers := by
  intro ps t h
  obtain ⟨l, hl, h⟩ := bind_eq_ok.mp h
  rw [Spec.Wire.pointers, ← laid_hash.list hl]
  exact Laid.container h

theorem laid_hashGroup : Laid HashGroup.tlv Spec.Wire.hashGroup := by
  intro g t h
  obtain ⟨ms, hm, h⟩ := bind_eq_ok.mp h
  obtain ⟨a, ha, hm⟩ := bind_eq_ok.mp hm
  obtain ⟨b, hb, hm⟩ := bind_eq_ok.mp hm
  cases hm
  have := Laid.container h
  simp only [bytesAll_append, laid_groupData.opt ha, laid_pointers.opt hb] at this
  exact this

theorem laid_locator : Laid locatorTlv (fun l => Spec.box 0x000D (Spec.Wire.link l)) := by
  intro l t h
  unfold locatorTlv at h
  split at h
  · cases h
  · exact laid_link _ _ _ h

theorem laid_locators : Laid locatorsTlv Spec.Wire.locators := by
  intro ls t h
  obtain ⟨l, hl, h⟩ := bind_eq_ok.mp h
  split at h
  · cases h
  · rw [Spec.Wire.locators, ← laid_locator.list hl]
    exact Laid.container h

theorem laid_suffix : Laid suffixTlv (fun t => Spec.box 0x0002 (Spec.number 2 t)) := by
  intro n t h
  unfold suffixTlv at h
  split at h
  · obtain ⟨_, _, h⟩ := bind_eq_ok.mp h
    obtain ⟨b, hb, h⟩ := bind_eq_ok.mp h
    rw [uint16ToArray_nat _ (by omega)] at hb
    cases hb
    show _ ∧ _ = Spec.box 0x0002 (Spec.number 2 n)
    rw [specNumber_eq]
    exact Laid.mk h
  · cases h

theorem laid_schema : Laid NcSchema.tlv Spec.Wire.schema := by
  intro s t h
  cases s with
  | hash ls f =>
    obtain ⟨l, hl, h⟩ := bind_eq_ok.mp h
    obtain ⟨_, _, h⟩ := bind_eq_ok.mp h
    rw [Spec.Wire.schema, ← laid_locators.opt hl]
    exact Laid.container h
  | prefixed n ls f =>
    obtain ⟨m, hm, h⟩ := bind_eq_ok.mp h
    obtain ⟨l, hl, h⟩ := bind_eq_ok.mp h
    obtain ⟨_, _, h⟩ := bind_eq_ok.mp h
    rw [Spec.Wire.schema, ← laid_locators.opt hl, ← laid_name.opt hm, ← bytesAll_append]
    exact Laid.container h
  | segmented n s ls f =>
    obtain ⟨m, hm, h⟩ := bind_eq_ok.mp h
    obtain ⟨k, hk, h⟩ := bind_eq_ok.mp h
    obtain ⟨l, hl, h⟩ := bind_eq_ok.mp h
    obtain ⟨_, _, h⟩ := bind_eq_ok.mp h
    rw [Spec.Wire.schema, ← laid_locators.opt hl, ← laid_name.opt hm, ← laid_suffix.opt hk, ← bytesAll_append, ← bytesAll_append]
    exact Laid.container h

theorem laid_ncDef : Laid NcDef.tlv Spec.Wire.ncDef := by
  intro d t h
  obtain ⟨ms, hm, h⟩ := bind_eq_ok.mp h
  obtain ⟨a, ha, hm⟩ := bind_eq_ok.mp hm
  obtain ⟨b, hb, hm⟩ := bind_eq_ok.mp hm
  cases hm
  have := Laid.container h
  simp only [bytesAll_append, (laid_int _).opt ha, laid_schema.opt hb] at this
  exact this

theorem laid_vendor : Laid Vendor.tlv Spec.Wire.vendor := by
  intro v t h
  unfold Vendor.tlv at h
  split at h
  · cases h
  · obtain ⟨b, hb, h⟩ := bind_eq_ok.mp h
    rw [uint24ToArray_nat _ (by omega)] at hb
    cases hb
    rw [Spec.Wire.vendor, specNumber_eq]
    exact Laid.mk h

theorem laid_nodeData : Laid NodeData.tlv Spec.Wire.nodeData := by
  intro d t h
  obtain ⟨ms, hm, h⟩ := bind_eq_ok.mp h
  obtain ⟨a, ha, hm⟩ := bind_eq_ok.mp hm
  obtain ⟨b, hb, hm⟩ := bind_eq_ok.mp hm
  obtain ⟨c, hc, hm⟩ := bind_eq_ok.mp hm
  obtain ⟨e, he, hm⟩ := bind_eq_ok.mp hm
  obtain ⟨f, hf, hm⟩ := bind_eq_ok.mp hm
  cases hm
  have := Laid.container h
  simp only [bytesAll_append, (laid_int _).opt ha, (laid_hashTlv _).opt hb, laid_locators.opt hc, laid_ncDef.list he,
    laid_vendor.list hf] at this
  exact this

theorem laid_node : Laid Node.tlv Spec.Wire.node := by
  intro n t h
  obtain ⟨ms, hm, h⟩ := bind_eq_ok.mp h
  have hp : bytesAll ms = Spec.Wire.nodeParts n := by
    obtain ⟨a, ha, hm⟩ := bind_eq_ok.mp hm
    obtain ⟨b, hb, hm⟩ := bind_eq_ok.mp hm
    cases hm
    simp only [bytesAll_append, laid_nodeData.opt ha, laid_hashGroup.list hb]
    rfl
  split at h
  · cases h
  · obtain ⟨v, hv, h⟩ := bind_eq_ok.mp h
    have hv := (concatTlvs_ok hv).2
    rw [hp] at hv
    subst hv
    unfold Spec.Wire.node
    cases hpad : n.padLength with
    | none =>
      rw [hpad] at h
      rw [Spec.Wire.padding, List.append_nil]
      exact Laid.mk h
    | some w =>
      rw [hpad] at h
      simp only [ge_iff_le] at h
      split at h
      · rename_i hd
        obtain ⟨p, hpt, h⟩ := bind_eq_ok.mp h
        obtain ⟨v, hv, h⟩ := bind_eq_ok.mp h
        have hv := (concatTlvs_ok hv).2
        have hlen : (w - (4 + ((Spec.Wire.nodeParts n).length : Int)) - 4).toNat
            = (w - (((4 + (Spec.Wire.nodeParts n).length : Nat) : Int) + 4)).toNat := by omega
        rw [bytesAll_append, hp, bytesAll_cons, bytesAll_nil, List.append_nil, (Laid.mk hpt).2, hlen] at hv
        rw [Spec.Wire.padding, if_neg (by omega)]
        subst hv
        exact Laid.mk h
      · rename_i hd
        rw [Spec.Wire.padding, if_pos (by omega), List.append_nil]
        exact Laid.mk h

theorem laid_kdfData : Laid KdfData.tlv Spec.Wire.kdfData := by
  intro d t h
  obtain ⟨a, ha, h⟩ := bind_eq_ok.mp h
  obtain ⟨b, hb, h⟩ := bind_eq_ok.mp h
  have := Laid.container h
  simp only [bytesAll_append, bytesAll_cons, bytesAll_nil, List.append_nil, (laid_int _ _ _ ha).2, (laid_octet _).opt hb] at this
  exact this

theorem aeadMembers_eq {d : AeadData} {l : List Tlv} (h : d.members = .ok l) : bytesAll l = Spec.Wire.aeadData d := by
  obtain ⟨a, ha, h⟩ := bind_eq_ok.mp h
  obtain ⟨b, hb, h⟩ := bind_eq_ok.mp h
  obtain ⟨c, hc, h⟩ := bind_eq_ok.mp h
  obtain ⟨e, he, h⟩ := bind_eq_ok.mp h
  cases h
  simp only [bytesAll_append, bytesAll_cons, bytesAll_nil, List.append_nil, (laid_int _ _ _ ha).2, (laid_octet _ _ _ hb).2,
    (laid_int _).opt hc, laid_kdfData.opt he]
  rfl

theorem wrapperMembers_eq {w : Option RsaOaepWrapper} {l : List Tlv} (h : wrapperMembers w = .ok l) :
    bytesAll l = Spec.maybe Spec.Wire.wrapper w := by
  cases w with
  | none => cases h; rfl
  | some w =>
    obtain ⟨a, ha, h⟩ := bind_eq_ok.mp h
    obtain ⟨b, hb, h⟩ := bind_eq_ok.mp h
    obtain ⟨c, hc, h⟩ := bind_eq_ok.mp h
    obtain ⟨e, he, h⟩ := bind_eq_ok.mp h
    cases h
    simp only [bytesAll_append, bytesAll_cons, bytesAll_nil, List.append_nil, (laid_hashTlv _ _ _ ha).2, (laid_link _).opt hb,
      (laid_int _).opt hc, (laid_octet _).opt he]
    rfl

theorem laid_securityCtx : Laid SecurityCtx.tlv Spec.Wire.securityCtx := by
  intro s t h
  cases s with
  | aead d =>
    obtain ⟨ms, hm, h⟩ := bind_eq_ok.mp h
    obtain ⟨i, hi, h⟩ := bind_eq_ok.mp h
    have h1 := Laid.container h
    have h2 := Laid.container hi
    rw [aeadMembers_eq hm] at h2
    simp only [bytesAll_cons, bytesAll_nil, List.append_nil, h2.2] at h1
    exact h1
  | rsaOaep d w =>
    obtain ⟨ms, hm, h⟩ := bind_eq_ok.mp h
    obtain ⟨ws, hw, h⟩ := bind_eq_ok.mp h
    obtain ⟨i, hi, h⟩ := bind_eq_ok.mp h
    have h1 := Laid.container h
    have h2 := Laid.container hi
    rw [bytesAll_append, aeadMembers_eq hm, wrapperMembers_eq hw] at h2
    simp only [bytesAll_cons, bytesAll_nil, List.append_nil, h2.2] at h1
    exact h1

theorem laid_manifestNode : Laid ManifestNode.tlv Spec.Wire.manifestNode := by
  intro n t h
  cases n with
  | plain n => exact laid_node _ _ h
  | encrypted c => exact Laid.mk h

theorem manifest_eq {m : Manifest} {w : Bytes} (h : m.serialize = .ok w) : w = Spec.Wire.manifest m := by
  obtain ⟨ms, hm, h⟩ := bind_eq_ok.mp h
  rw [(concatTlvs_ok h).2]
  obtain ⟨a, ha, hm⟩ := bind_eq_ok.mp hm
  obtain ⟨b, hb, hm⟩ := bind_eq_ok.mp hm
  obtain ⟨c, hc, hm⟩ := bind_eq_ok.mp hm
  cases hm
  simp only [bytesAll_append, bytesAll_cons, bytesAll_nil, List.append_nil, laid_securityCtx.opt ha, (laid_manifestNode _ _ hb).2,
    (laid_octet _).opt hc]
  rfl

/-! ## The properties -/

/-- A name: type 0, the components in order, each under its own type. -/
theorem C89_name {n : Name} {w : Bytes} (h : wireOf Name.tlv n = .ok w) : w = Spec.Wire.name n := laid_name.wire h

/-- The components a program makes: name segments have type 1, chunk numbers type 5, manifest numbers type 16, and a number is written in
the shortest of the five widths. -/
theorem C89_components (v : Bytes) (i : Nat) :
    NameComponent.nameSegment v = ⟨1, v, false⟩ ∧ (∀ c, NameComponent.chunk i = .ok c → c = ⟨5, Spec.integer i, true⟩) ∧
    (∀ c, NameComponent.manifestId i = .ok c → c = ⟨16, Spec.integer i, true⟩) := by
  refine ⟨rfl, fun c h => ?_, fun c h => ?_⟩
  all_goals
    obtain ⟨b, hb, h⟩ := bind_eq_ok.mp h
    rw [numberToArray_nat] at hb
    cases hb
    rw [specInteger_eq]
    exact (construct_inv h).1

/-- A hash is boxed under the number of its algorithm, and SHA-256 has number 1. -/
theorem C89_hash {h : HashValue} {w : Bytes} (hw : wireOf HashValue.tlv h = .ok w) :
    w = Spec.box h.alg h.value ∧ ∀ d, HashValue.sha256 d = ⟨1, d⟩ := ⟨laid_hash.wire hw, fun _ => rfl⟩

/-- A link. -/
theorem C89_link {l : Link} {w : Bytes} (h : l.wire = .ok w) : w = Spec.Wire.link l := linkWire_eq h

/-- A content object. -/
theorem C89_content_object {c : ContentObject} {w : Bytes} (h : wireOf ContentObject.tlv c = .ok w) : w = Spec.Wire.contentObject c :=
  laid_contentObject.wire h

/-- The payload types the three constructors write: data 0 (only with a payload), links 2, manifests 3. -/
theorem C89_payload_types {c : ContentObject} :
    (∀ n p e f, ContentObject.createData n (some p) e f = .ok c → c = ⟨n, some 0, some p, e, f⟩) ∧
    (∀ n e f, ContentObject.createData n none e f = .ok c → c = ⟨n, none, none, e, f⟩) ∧
    (∀ l n, ContentObject.createLink l n = .ok c → c = ⟨some n, some 2, some (Spec.Wire.link l), none, none⟩) ∧
    (∀ m n e, ContentObject.createManifest m n e = .ok c → c = ⟨n, some 3, some m, e, none⟩) ∧
    (∀ (m : Manifest) n e, m.contentObject n e = .ok c → c = ⟨n, some 3, some (Spec.Wire.manifest m), e, none⟩) := by
  refine ⟨fun n p e f h => (construct_inv h).1, fun n e f h => (construct_inv h).1, fun l n h => ?_,
    fun m n e h => (construct_inv h).1, fun m n e h => ?_⟩
  · obtain ⟨b, hb, h⟩ := bind_eq_ok.mp h
    rw [← linkWire_eq hb]
    exact (construct_inv h).1
  · obtain ⟨b, hb, h⟩ := bind_eq_ok.mp h
    rw [← manifest_eq hb]
    exact (construct_inv h).1

/-- The validation sections of a signed packet. -/
theorem C89_validation {a : ValidationAlg} {p : Bytes} {w v : Bytes} (hw : wireOf ValidationAlg.tlv a = .ok w)
    (hv : wireOf valPayloadTlv p = .ok v) : w = Spec.Wire.validationAlg a ∧ v = Spec.box 0x0004 p :=
  ⟨laid_validationAlg.wire hw, laid_valPayload.wire hv⟩

/-- The packets a program makes, signed or not: the eight bytes of the header, naming the true length of the packet, then the sections. -/
theorem C89_packet {p : Packet} {w : Bytes} (hw : p.serialize = .ok w)
    (hp : (∃ c, Packet.createContentObject c = .ok p) ∨ ∃ c a v, Packet.createSigned c a v = .ok p) :
    w = Spec.Wire.header w.length ++ Spec.Wire.sections p := by
  obtain ⟨hb, tb, la, lp, hh, htb, _, hla, _, hlp, _, rfl, hi⟩ := Packet.serialize_ok hw
  rw [← sections_eq hi]
  congr 1
  have key : p.header = FixedHeader.contentObject (8 + (bytesAll ([tb] ++ la ++ lp)).length) := by
    rcases hp with ⟨c, hc⟩ | ⟨c, a, v, hc⟩
    · obtain ⟨t, ht, hc⟩ := bind_eq_ok.mp hc
      rw [mkPacket, if_neg (by simp)] at hc
      obtain ⟨_, _, hc⟩ := bind_eq_ok.mp hc
      cases hc
      rw [ht] at htb
      cases htb
      cases hla
      cases hlp
      simp [Tlv.len, Tlv.bytes, be16, Tlv.length]
      congr 1
      omega
    · obtain ⟨t, ht, hc⟩ := bind_eq_ok.mp hc
      obtain ⟨ta, hta, hc⟩ := bind_eq_ok.mp hc
      obtain ⟨tv, htv, hc⟩ := bind_eq_ok.mp hc
      rw [mkPacket, if_neg (by simp)] at hc
      obtain ⟨_, _, hc⟩ := bind_eq_ok.mp hc
      cases hc
      rw [ht] at htb
      cases htb
      obtain ⟨_, h1, rfl⟩ := optTlv_some hla
      obtain ⟨_, h2, rfl⟩ := optTlv_some hlp
      rw [hta] at h1
      rw [htv] at h2
      cases h1
      cases h2
      simp [Tlv.len, Tlv.bytes, be16, Tlv.length]
      congr 1
      omega
  obtain ⟨_, _, h3, _, he⟩ := FixedHeader.serialize_ok hh
  rw [key] at h3 he
  simp only [FixedHeader.contentObject] at h3
  subst he
  have e : ∀ k : Nat, 0 + 1 + 1 + 1 + 1 + 1 + 1 + 1 + 1 + k = 8 + k := by omega
  simp only [List.length_append, List.length_cons, List.length_nil, FixedHeader.contentObject, Spec.Wire.header, specNumber_eq, beBytes,
    Nat.pow_one, Nat.pow_zero, Nat.div_one, e]
  rw [Nat.mod_eq_of_lt (show (8 + (bytesAll ([tb] ++ la ++ lp)).length) / 256 < 256 by omega)]
  rfl

/-- The payload of a manifest, all of FLIC included. -/
theorem C89_manifest {m : Manifest} {w : Bytes} (h : m.serialize = .ok w) : w = Spec.Wire.manifest m := manifest_eq h

/-- The bytes that are hashed are the sections, and the hash is marked as SHA-256 (number 1). -/
theorem C89_packet_hash {sha : Bytes → Bytes} {p : Packet} {h : HashValue} (hh : p.hash sha = .ok h) :
    h = ⟨1, sha (Spec.Wire.sections p)⟩ := by
  obtain ⟨b, hb, hh⟩ := bind_eq_ok.mp hh
  rw [← sections_eq hb]
  cases hh
  rfl

/-- What is bound to a wrapped key: the thirteen letters, the key number, the mode, the information for the derivation of keys when there are
data for it, the identifier of the wrapping key, and the number of SHA-256. -/
def Spec.Wire.label (keyNumber mode : Nat) (kdf : Option Bytes) (keyid : HashValue) : Bytes :=
  ['F', 'L', 'I', 'C', ' ', 'R', 'S', 'A', '-', 'O', 'A', 'E', 'P'].map (fun c => UInt8.ofNat c.toNat) ++ Spec.box 0x0000 (Spec.integer keyNumber) ++
    Spec.box 0x0002 (Spec.integer mode) ++ Spec.maybe (Spec.box 0x0007) kdf ++
    Spec.box 0x0009 (Spec.Wire.hash keyid) ++ Spec.box 0x0003 (Spec.integer 1)

theorem oaepLabel_layout {P : Prims} {rsa : RsaKey} {n : Nat} {mode : Option Nat} {kdf : Option KdfData} {label : Bytes}
    (h : oaepLabel P rsa n mode kdf = .ok label) :
    ∃ m info, mode = some m ∧ kdf.map (·.kdfInfo) = info.map some ∧ label = Spec.Wire.label n m info ⟨1, P.sha256 rsa.der⟩ := by
  obtain ⟨k, hk, h⟩ := bind_eq_ok.mp h
  obtain ⟨a, ha, h⟩ := bind_eq_ok.mp h
  cases mode with
  | none => cases h
  | some m =>
    obtain ⟨b, hb, h⟩ := bind_eq_ok.mp h
    obtain ⟨i, hi, h⟩ := bind_eq_ok.mp h
    obtain ⟨j, hj, h⟩ := bind_eq_ok.mp h
    have hinfo : ∃ info, kdf.map (·.kdfInfo) = info.map some ∧ k = Spec.maybe (Spec.box 0x0007) info := by
      cases kdf with
      | none => cases hk; exact ⟨none, rfl, rfl⟩
      | some d =>
        simp only [kdfLabel] at hk
        split at hk
        · cases hk
        · rename_i info hd
          exact ⟨some info, by simp [hd], (laid_octet _).wire hk⟩
    obtain ⟨info, hd, rfl⟩ := hinfo
    refine ⟨m, info, rfl, hd, ?_⟩
    rw [← Except.ok.inj h, (laid_int _).wire ha, (laid_int _).wire hb, (laid_hashTlv _).wire hi, (laid_int _).wire hj]
    rfl

/-- What is encrypted when a content key is wrapped: the four bytes of the salt and the key, under the label. -/
theorem C89_wrapped {P : Prims} {rsa : RsaKey} {seed : Bytes} {p : AeadParams} {c : Bytes} (h : wrapKey P rsa seed p = .ok c) :
    ∃ salt k m info, p.aeadSalt = some salt ∧ p.key = some k ∧ k.mode = .ok m ∧ p.kdfData.map (·.kdfInfo) = info.map some ∧
      c = P.oaepEncrypt rsa.der seed (Spec.number 4 salt ++ k.key) (Spec.Wire.label p.keyNumber m info ⟨1, P.sha256 rsa.der⟩) := by
  obtain ⟨salt, k, m, label, hs, _, hk, hm, hl, rfl⟩ := wrapKey_ok h
  obtain ⟨m', info, hm', hd, rfl⟩ := oaepLabel_layout hl
  cases hm'
  exact ⟨salt, k, m, info, hs, hk, hm, hd, by rw [specNumber_eq]⟩

/-- The reader takes the wrapped key apart in the same way: what it decrypts under that label is four bytes of salt and the key. -/
theorem C89_unwrapped {P : Prims} {rsa : RsaKey} {c : Bytes} {d : AeadData} {salt : Nat} {key : Bytes}
    (h : unwrapKey P rsa c d = .ok (salt, key)) :
    ∃ m info, d.mode = some m ∧ d.kdfData.map (·.kdfInfo) = info.map some ∧ 16 ≤ key.length ∧
      P.oaepDecrypt rsa.der c (Spec.Wire.label d.keyNumber m info ⟨1, P.sha256 rsa.der⟩) = .ok (Spec.number 4 salt ++ key) := by
  obtain ⟨label, hl, h1⟩ := bind_eq_ok.mp h
  obtain ⟨pt, hp, h2⟩ := bind_eq_ok.mp h1
  obtain ⟨m, info, hm, hd, rfl⟩ := oaepLabel_layout hl
  unfold RsaKey.decryptOaep at hp
  split at hp
  · split at h2
    · cases h2
    · rename_i hlen
      have h := Prod.mk.inj (Except.ok.inj h2)
      refine ⟨m, info, hm, hd, by rw [← h.2, List.length_drop]; omega, ?_⟩
      rw [hp, ← h.1, ← h.2, specNumber_eq]
      have : beBytes 4 (arrayToNumber (pt.take 4)) = pt.take 4 := by
        have hl : (pt.take 4).length = 4 := by rw [List.length_take]; omega
        refine arrayToNumber_inj (by rw [hl]; simp) ?_
        rw [arrayToNumber_beBytes, Nat.mod_eq_of_lt]
        have := arrayToNumber_lt (pt.take 4)
        rwa [hl] at this
      rw [this, List.take_append_drop]
  · cases hp

/-- The numbers of the four modes. -/
theorem C89_modes (k : AeadKey) (m : Nat) (h : k.mode = .ok m) :
    (k.alg, k.bits, m) ∈ [(AeadAlg.gcm, 128, 1), (.gcm, 256, 2), (.ccm, 128, 3), (.ccm, 256, 4)] := by
  unfold AeadKey.mode at h
  (repeat' split at h) <;> cases h <;> simp_all [AEAD_AES_128_GCM, AEAD_AES_256_GCM, AEAD_AES_128_CCM, AEAD_AES_256_CCM]

/-! ## Cases -/

/-- `ccnx:/a` with chunk number 300. -/
example : wireOf Name.tlv ⟨[⟨1, [97], false⟩, ⟨5, [1, 44], true⟩]⟩ = .ok [0, 0, 0, 11, 0, 1, 0, 1, 97, 0, 5, 0, 2, 1, 44] := by
  decide +kernel

/-- A link to `ccnx:/a` with a digest. -/
example : Link.wire { name := some ⟨[⟨1, [97], false⟩]⟩, digest := some ⟨1, [9, 9]⟩ } =
    .ok [0, 0, 0, 5, 0, 1, 0, 1, 97, 0, 3, 0, 6, 0, 1, 0, 2, 9, 9] := by decide +kernel

/-- A manifest with all its parts: a key number, a nonce and a mode, a node with a size, a locator, a name constructor, a vendor's field, a
group with its size and a pointer, padding up to 100 bytes, and a tag. -/
def layoutManifest : Manifest where
  securityCtx := some (.rsaOaep ⟨55, [1, 2], some 2, some ⟨1, some [8]⟩⟩ (some ⟨⟨1, [7]⟩, none, some 1, some [6, 6]⟩))
  node := .plain
    { nodeData := some { subtreeSize := some 300, locators := some [{ name := some ⟨[⟨1, [97], false⟩]⟩ }],
                         vendors := [⟨0x010203, [4]⟩], ncDefs := [⟨some 1, some (.segmented (some ⟨[]⟩) (some 5) none none)⟩] }
      hashGroups := [⟨some { leafSize := some 70000, ncId := some 1 }, some [⟨1, [3]⟩]⟩]
      padLength := some 120 }
  authTag := some [5]

set_option maxRecDepth 100000 in
example : layoutManifest.serialize = .ok
    ([0, 0, 0, 54, 0, 1, 0, 50, 0, 0, 0, 1, 55, 0, 1, 0, 2, 1, 2, 0, 2, 0, 1, 2, 0, 5, 0, 10, 0, 6, 0, 1, 1, 0, 7, 0, 1, 8] ++
      [0, 9, 0, 5, 0, 1, 0, 1, 7, 0, 3, 0, 1, 1, 0, 4, 0, 2, 6, 6] ++
      [0, 1, 0, 116, 0, 0, 0, 54, 0, 2, 0, 2, 1, 44, 0, 6, 0, 13, 0, 13, 0, 9, 0, 0, 0, 5, 0, 1, 0, 1, 97] ++
      [0, 4, 0, 19, 0, 5, 0, 1, 1, 0, 18, 0, 10, 0, 0, 0, 0, 0, 2, 0, 2, 0, 5, 15, 255, 0, 4, 1, 2, 3, 4] ++
      [0, 1, 0, 25, 0, 11, 0, 12, 0, 0, 0, 3, 1, 17, 112, 0, 5, 0, 1, 1, 0, 7, 0, 5, 0, 1, 0, 1, 3] ++
      [15, 254, 0, 25] ++ List.replicate 25 0 ++ [0, 3, 0, 1, 5]) := by decide +kernel

/-- A signed packet that expires one second after the epoch, with its last chunk number. -/
example : (Packet.createSigned ⟨none, some 0, some [104, 105], some (F64.ofNat 1), some 256⟩ .crc32c [1, 2, 3, 4] >>= Packet.serialize) =
    .ok ([1, 1, 0, 57, 0, 0, 0, 8] ++
      [0, 2, 0, 29, 0, 6, 0, 8, 0, 0, 0, 0, 0, 0, 3, 232, 0, 5, 0, 1, 0, 0, 1, 0, 2, 104, 105, 0, 7, 0, 2, 1, 0] ++
      [0, 3, 0, 4, 0, 2, 0, 0, 0, 4, 0, 4, 1, 2, 3, 4]) := by decide +kernel

example : (⟨.ccm, List.replicate 32 0⟩ : AeadKey).mode = .ok 4 := by decide

/-- The label of a key that is wrapped under key number 55 with AES-GCM of 256 bits. -/
example : Spec.Wire.label 55 2 none ⟨1, [9, 9]⟩ =
    [70, 76, 73, 67, 32, 82, 83, 65, 45, 79, 65, 69, 80, 0, 0, 0, 1, 55, 0, 2, 0, 1, 2, 0, 9, 0, 6, 0, 1, 0, 2, 9, 9, 0, 3, 0, 1, 1] := by
  decide +kernel

end Ccnpy
