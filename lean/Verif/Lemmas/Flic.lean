import Verif.Model.Flic
import Verif.Lemmas.Packet
import Verif.Lemmas.Fold

/-! # Lemmas about the FLIC TLVs -/

namespace Ccnpy

theorem autoStep_hit {σ : Type} {fields : List (AutoField σ)} {s s' : σ} {t : Tlv} {f : AutoField σ}
    (hf : fields.find? (fun f => f.type == t.type) = some f) (hs : f.isSet s = false) (hp : f.parse s t = .ok s') :
    autoStep fields s t = .ok s' := by
  simp [autoStep, hf, hs, hp]

theorem autoStep_field {σ α : Type} {fields : List (AutoField σ)} {s : σ} {t : Tlv} {ty : Nat} {get : σ → Option α}
    {set : σ → α → σ} {parse : Tlv → Py α} {y : α} (hty : t.type = ty)
    (hf : fields.find? (fun f => f.type == ty) = some (autoField ty get set parse)) (hs : get s = none)
    (hp : parse t = .ok y) : autoStep fields s t = .ok (set s y) := by
  subst hty
  exact autoStep_hit hf (by simp [autoField, hs]) (by simp [autoField, hp])

theorem autoStep_miss {σ : Type} {fields : List (AutoField σ)} {s : σ} {t : Tlv} {ty : Nat} (hty : t.type = ty)
    (hf : fields.find? (fun f => f.type == ty) = none) : autoStep fields s t = .ok s := by
  subst hty
  simp [autoStep, hf]

theorem foldlM_list0 {σ α : Type} {step : σ → Tlv → Py σ} {tlv : α → Py Tlv} {xs : List α} {l : List Tlv} {s : σ}
    (h : listTlv tlv xs = .ok l) (upd : List α → σ) (f : α → α) (h0 : s = upd [])
    (hs : ∀ acc x t, x ∈ xs → tlv x = .ok t → step (upd acc) t = .ok (upd (acc ++ [f x]))) :
    l.foldlM step s = .ok (upd (xs.map f)) := by
  rw [h0, foldlM_list h upd f hs []]; rfl

/-- An optional integer field fits the 64-bit encoding. -/
def OptFits (o : Option Nat) : Prop := ∀ n, o = some n → n < 2 ^ 64

/-! ## Group data, pointers, hash groups -/

def GroupData.Fits (g : GroupData) : Prop :=
  OptFits g.subtreeSize ∧ OptFits g.leafSize ∧ OptFits g.ncId ∧ OptFits g.startSegmentId

theorem groupData_fold {g : GroupData} (hg : g.Fits) {ms : List Tlv} (hm : g.members = .ok ms) :
    ms.foldlM (autoStep GroupData.fields) {} = .ok g := by
  obtain ⟨h1, h2, h3, h4⟩ := hg
  obtain ⟨a, ha, hm⟩ := bind_eq_ok.mp hm
  obtain ⟨b, hb, hm⟩ := bind_eq_ok.mp hm
  obtain ⟨c, hc, hm⟩ := bind_eq_ok.mp hm
  obtain ⟨d, hd, hm⟩ := bind_eq_ok.mp hm
  obtain ⟨e, he, hm⟩ := bind_eq_ok.mp hm
  obtain ⟨f, hf, hm⟩ := bind_eq_ok.mp hm
  cases hm
  simp only [List.foldlM_append]
  rw [foldlM_opt (s' := { subtreeSize := g.subtreeSize }) ha]
  rotate_left
  · intro hn; simp [hn]
  · intro x t hx ht
    obtain ⟨hty, _, hp⟩ := int_RT (ty := T_SUBTREE_SIZE) (by decide) (h1 x hx) t ht
    rw [autoStep_field hty rfl rfl hp, hx]
  simp only [ok_bind]
  rw [foldlM_opt (s' := { subtreeSize := g.subtreeSize, subtreeDigest := g.subtreeDigest }) hb]
  rotate_left
  · intro hn; simp [hn]
  · intro x t hx ht
    obtain ⟨hty, _, hp⟩ := hash_RT (ty := T_SUBTREE_DIGEST) x t ht
    rw [autoStep_field hty rfl rfl hp, hx]
  simp only [ok_bind]
  rw [foldlM_opt (s' := { subtreeSize := g.subtreeSize, subtreeDigest := g.subtreeDigest, leafSize := g.leafSize }) hc]
  rotate_left
  · intro hn; simp [hn]
  · intro x t hx ht
    obtain ⟨hty, _, hp⟩ := int_RT (ty := T_LEAF_SIZE) (by decide) (h2 x hx) t ht
    rw [autoStep_field hty rfl rfl hp, hx]
  simp only [ok_bind]
  rw [foldlM_opt (s' := { g with ncId := none, startSegmentId := none }) hd]
  rotate_left
  · intro hn; simp [hn]
  · intro x t hx ht
    obtain ⟨hty, _, hp⟩ := hash_RT (ty := T_LEAF_DIGEST) x t ht
    rw [autoStep_field hty rfl rfl hp, hx]
  simp only [ok_bind]
  rw [foldlM_opt (s' := { g with startSegmentId := none }) he]
  rotate_left
  · intro hn; simp [hn]
  · intro x t hx ht
    obtain ⟨hty, _, hp⟩ := int_RT (ty := T_NCID) (by decide) (h3 x hx) t ht
    rw [autoStep_field hty rfl rfl hp, hx]
  simp only [ok_bind]
  rw [foldlM_opt (s' := g) hf]
  · intro hn; rw [← hn]
  · intro x t hx ht
    obtain ⟨hty, _, hp⟩ := int_RT (ty := T_START_SEGMENT_ID) (by decide) (h4 x hx) t ht
    rw [autoStep_field hty rfl rfl hp, ← hx]

theorem groupData_RT {g : GroupData} (hg : g.Fits) : RT T_GROUP_DATA GroupData.tlv GroupData.parse g g := by
  intro t h
  have h0 := h
  obtain ⟨ms, hm, h⟩ := bind_eq_ok.mp h
  obtain ⟨hv, rfl, hvt⟩ := container_ok h
  refine ⟨rfl, hvt, ?_⟩
  rw [GroupData.parse, autoParse, if_neg (by simp), autoValueParse]
  simp only [tlvLoop_bytesAll _ _ hv, groupData_fold hg hm, ok_bind]
  exact construct_ok h0

theorem pointers_RT (p : List HashValue) : RT T_PTRS pointersTlv pointersParse p p := by
  intro t h
  have h0 := h
  obtain ⟨ms, hm, h⟩ := bind_eq_ok.mp h
  obtain ⟨hv, rfl, hvt⟩ := container_ok h
  refine ⟨rfl, hvt, ?_⟩
  rw [pointersParse, if_neg (by simp)]
  simp only [tlvLoop_bytesAll _ _ hv]
  rw [foldlM_list hm (upd := fun x => x) (f := fun x => x) (acc := [])]
  · simp only [ok_bind, List.map_id', List.nil_append]
    exact construct_ok h0
  · intro acc x t _ ht
    simp [pointersStep, hashValue_parse ht]

def HashGroup.Fits (g : HashGroup) : Prop := ∀ d, g.groupData = some d → d.Fits

theorem hashGroup_RT {g : HashGroup} (hg : g.Fits) : RT T_HASH_GROUP HashGroup.tlv HashGroup.parse g g := by
  intro t h
  have h0 := h
  obtain ⟨ms, hm, h⟩ := bind_eq_ok.mp h
  obtain ⟨hv, rfl, hvt⟩ := container_ok h
  obtain ⟨a, ha, hm⟩ := bind_eq_ok.mp hm
  obtain ⟨b, hb, hm⟩ := bind_eq_ok.mp hm
  cases hm
  refine ⟨rfl, hvt, ?_⟩
  rw [HashGroup.parse, autoParse, if_neg (by simp), autoValueParse]
  simp only [tlvLoop_bytesAll _ _ hv, List.foldlM_append]
  rw [foldlM_opt (s' := { groupData := g.groupData }) ha]
  rotate_left
  · intro hn; simp [hn]
  · intro x t hx ht
    obtain ⟨hty, _, hp⟩ := groupData_RT (hg x hx) t ht
    rw [autoStep_field hty rfl rfl hp, hx]
  simp only [ok_bind]
  rw [foldlM_opt (s' := g) hb]
  rotate_left
  · intro hn; rw [← hn]
  · intro x t hx ht
    obtain ⟨hty, _, hp⟩ := pointers_RT x t ht
    rw [autoStep_field hty rfl rfl hp, ← hx]
  simp only [ok_bind]
  exact construct_ok h0

/-! ## Locators -/

theorem locatorTlv_toBytes (l : Link) : locatorTlv l.toBytes = locatorTlv l := by
  cases l with
  | mk n k d =>
    have h : linkTlv T_LINK (Link.toBytes ⟨n, k, d⟩) = linkTlv T_LINK ⟨n, k, d⟩ := by
      simp only [linkTlv, Link.wire_toBytes]
    cases n with
    | none => rfl
    | some n => exact h

theorem locator_RT (l : Link) : RT T_LINK locatorTlv locatorParse l l.toBytes := by
  intro t h
  have h0 := h
  have h1 : linkTlv T_LINK l = .ok t := by
    unfold locatorTlv at h
    split at h
    · cases h
    · exact h
  obtain ⟨w, hw, rfl, hv⟩ := linkTlv_ok h1
  refine ⟨rfl, hv, ?_⟩
  rw [locatorParse, if_neg (by simp)]
  simp only [link_RT hw, ok_bind]
  refine construct_ok (t := ⟨T_LINK, w⟩) ?_
  rw [locatorTlv_toBytes, h0]

theorem locatorsTlv_toBytes (ls : List Link) : locatorsTlv (ls.map Link.toBytes) = locatorsTlv ls := by
  unfold locatorsTlv
  rw [← listTlv_congr (f := locatorTlv) (g := locatorTlv) Link.toBytes (fun x _ => (locatorTlv_toBytes x).symm)]
  simp

theorem locatorsTlv_ok {ls : List Link} {t : Tlv} (h : locatorsTlv ls = .ok t) :
    ls ≠ [] ∧ ∃ ms, listTlv locatorTlv ls = .ok ms ∧ (∀ x ∈ ms, x.Valid) ∧ t = ⟨T_LOCATORS, bytesAll ms⟩ ∧ t.Valid := by
  obtain ⟨ms, hm, h⟩ := bind_eq_ok.mp h
  split at h
  · cases h
  · rename_i hne
    obtain ⟨hv, h1, h2⟩ := container_ok h
    exact ⟨by intro h; simp [h] at hne, ms, hm, hv, h1, h2⟩

theorem locators_RT (ls : List Link) : RT T_LOCATORS locatorsTlv locatorsParse ls (ls.map Link.toBytes) := by
  intro t h
  have h0 := h
  obtain ⟨_, ms, hm, hv, rfl, hvt⟩ := locatorsTlv_ok h
  refine ⟨rfl, hvt, ?_⟩
  rw [locatorsParse, if_neg (by simp)]
  simp only [tlvLoop_bytesAll _ _ hv]
  rw [foldlM_list hm (upd := fun x => x) (f := Link.toBytes) (acc := [])]
  · simp only [ok_bind, List.nil_append]
    exact construct_ok (by rw [locatorsTlv_toBytes]; exact h0)
  · intro acc x t _ ht
    obtain ⟨_, _, hp⟩ := locator_RT x t ht
    simp [locatorsStep, hp]

/-! ## Suffix type -/

theorem createUint16_ok {ty n : Nat} {t : Tlv} (h : createUint16 ty (n : Int) = .ok t) :
    n ≤ 0xFFFF ∧ t = ⟨ty, be16 n⟩ ∧ t.Valid := by
  obtain ⟨u, hu, h⟩ := bind_eq_ok.mp h
  have hn : n ≤ 0xFFFF := by
    have := of_decide_eq_true (pyAssert_ok hu); omega
  obtain ⟨v, hv, h⟩ := bind_eq_ok.mp h
  obtain ⟨u', _, hv⟩ := bind_eq_ok.mp hv
  have h2 : tlvEncode n = .ok v := hv
  rw [tlvEncode_eq, if_pos hn] at h2
  cases h2
  obtain ⟨rfl, h3⟩ := mkTlv_ok h
  exact ⟨hn, rfl, h3⟩

theorem suffix_RT (n : Nat) : RT T_SUFFIX_TYPE suffixTlv suffixParse n n := by
  intro t h
  have h0 := h
  unfold suffixTlv at h
  split at h
  · obtain ⟨hn, rfl, hv⟩ := createUint16_ok h
    refine ⟨rfl, hv, ?_⟩
    rw [suffixParse, if_neg (by simp)]
    simp only [Tlv.valueAsNumber, arrayToNumber_be16 n hn]
    exact construct_ok h0
  · cases h

/-! ## Name constructor schemas -/

def NcSchema.toBytes : NcSchema → NcSchema
  | .hash ls f => .hash (ls.map (·.map Link.toBytes)) f
  | .prefixed n ls f => .prefixed (n.map Name.toBytes) (ls.map (·.map Link.toBytes)) f
  | .segmented n s ls f => .segmented (n.map Name.toBytes) s (ls.map (·.map Link.toBytes)) f

theorem optTlv_map {α : Type} {tlv : α → Py Tlv} {f : α → α} (h : ∀ x, tlv (f x) = tlv x) (o : Option α) :
    optTlv tlv (o.map f) = optTlv tlv o := by
  cases o with
  | none => rfl
  | some x => simp [optTlv, h]

theorem NcSchema.tlv_toBytes (s : NcSchema) : s.toBytes.tlv = s.tlv := by
  cases s <;>
    simp only [NcSchema.toBytes, NcSchema.tlv, optTlv_map Name.tlv_toBytes, optTlv_map locatorsTlv_toBytes]

theorem flagsCheck_ok {o : Option Bytes} {u : Unit} (h : flagsCheck o = .ok u) : o = none := by
  cases o with
  | none => rfl
  | some _ => cases h

theorem NcSchema.tlv_ok {s : NcSchema} {t : Tlv} (h : s.tlv = .ok t) :
    t.Valid ∧ t.type = (match s with
      | .hash _ _ => T_HashSchema | .prefixed _ _ _ => T_PrefixSchema | .segmented _ _ _ _ => T_SegmentedSchema) := by
  cases s with
  | hash ls f =>
    obtain ⟨l, hl, h⟩ := bind_eq_ok.mp h
    obtain ⟨u, hu, h⟩ := bind_eq_ok.mp h
    obtain ⟨_, rfl, h2⟩ := container_ok h
    exact ⟨h2, rfl⟩
  | prefixed n ls f =>
    obtain ⟨_, _, h⟩ := bind_eq_ok.mp h
    obtain ⟨l, hl, h⟩ := bind_eq_ok.mp h
    obtain ⟨u, hu, h⟩ := bind_eq_ok.mp h
    obtain ⟨_, rfl, h2⟩ := container_ok h
    exact ⟨h2, rfl⟩
  | segmented n s ls f =>
    obtain ⟨_, _, h⟩ := bind_eq_ok.mp h
    obtain ⟨_, _, h⟩ := bind_eq_ok.mp h
    obtain ⟨l, hl, h⟩ := bind_eq_ok.mp h
    obtain ⟨u, hu, h⟩ := bind_eq_ok.mp h
    obtain ⟨_, rfl, h2⟩ := container_ok h
    exact ⟨h2, rfl⟩

theorem ncSchema_parse {s : NcSchema} {t : Tlv} (h : s.tlv = .ok t) : NcSchema.parse t = .ok s.toBytes := by
  have h0 := h
  cases s with
  | hash ls f =>
    obtain ⟨l, hl, h⟩ := bind_eq_ok.mp h
    obtain ⟨u, hu, h⟩ := bind_eq_ok.mp h
    obtain ⟨hv, rfl, h2⟩ := container_ok h
    have hf := flagsCheck_ok hu
    subst hf
    have h1 : NcSchema.parsePrefix ⟨T_HashSchema, bytesAll l⟩ = .error .cannotParseError := rfl
    have h2 : NcSchema.parseSegmented ⟨T_HashSchema, bytesAll l⟩ = .error .cannotParseError := rfl
    have h3 : NcSchema.parseHash ⟨T_HashSchema, bytesAll l⟩ = .ok (NcSchema.hash ls none).toBytes := by
      rw [NcSchema.parseHash, autoParse, if_neg (by simp), autoValueParse]
      simp only [tlvLoop_bytesAll _ _ hv]
      rw [foldlM_opt (s' := { locators := ls.map (·.map Link.toBytes) }) hl]
      rotate_left
      · intro hn; simp [hn]
      · intro x t hx ht
        obtain ⟨hty, _, hp⟩ := locators_RT x t ht
        rw [autoStep_field hty rfl rfl hp, hx]; rfl
      simp only [ok_bind]
      exact construct_ok (by
        have := NcSchema.tlv_toBytes (NcSchema.hash ls none)
        simp only [NcSchema.toBytes] at this
        rw [this]; exact h0)
    rw [NcSchema.parse, h1, h2, h3]; rfl
  | prefixed n ls f =>
    obtain ⟨a, ha, h⟩ := bind_eq_ok.mp h
    obtain ⟨l, hl, h⟩ := bind_eq_ok.mp h
    obtain ⟨u, hu, h⟩ := bind_eq_ok.mp h
    obtain ⟨hv, rfl, h2⟩ := container_ok h
    have hf := flagsCheck_ok hu
    subst hf
    have h3 : NcSchema.parsePrefix ⟨T_PrefixSchema, bytesAll (a ++ l)⟩ = .ok (NcSchema.prefixed n ls none).toBytes := by
      rw [NcSchema.parsePrefix, autoParse, if_neg (by simp), autoValueParse]
      simp only [tlvLoop_bytesAll _ _ hv, List.foldlM_append]
      rw [foldlM_opt (s' := { name := n.map Name.toBytes }) ha]
      rotate_left
      · intro hn; simp [hn]
      · intro x t hx ht
        obtain ⟨hty, _, hp⟩ := name_RT x t ht
        rw [autoStep_field hty rfl rfl hp, hx]; rfl
      simp only [ok_bind]
      rw [foldlM_opt (s' := { name := n.map Name.toBytes, locators := ls.map (·.map Link.toBytes) }) hl]
      rotate_left
      · intro hn; simp [hn]
      · intro x t hx ht
        obtain ⟨hty, _, hp⟩ := locators_RT x t ht
        rw [autoStep_field hty rfl rfl hp, hx]; rfl
      simp only [ok_bind]
      exact construct_ok (by
        have := NcSchema.tlv_toBytes (NcSchema.prefixed n ls none)
        simp only [NcSchema.toBytes] at this
        rw [this]; exact h0)
    rw [NcSchema.parse, h3]; rfl
  | segmented n s ls f =>
    obtain ⟨a, ha, h⟩ := bind_eq_ok.mp h
    obtain ⟨b, hb, h⟩ := bind_eq_ok.mp h
    obtain ⟨l, hl, h⟩ := bind_eq_ok.mp h
    obtain ⟨u, hu, h⟩ := bind_eq_ok.mp h
    obtain ⟨hv, rfl, h2⟩ := container_ok h
    have hf := flagsCheck_ok hu
    subst hf
    have h1 : NcSchema.parsePrefix ⟨T_SegmentedSchema, bytesAll (a ++ b ++ l)⟩ = .error .cannotParseError := rfl
    have h3 : NcSchema.parseSegmented ⟨T_SegmentedSchema, bytesAll (a ++ b ++ l)⟩
        = .ok (NcSchema.segmented n s ls none).toBytes := by
      rw [NcSchema.parseSegmented, autoParse, if_neg (by simp), autoValueParse]
      simp only [tlvLoop_bytesAll _ _ hv, List.foldlM_append]
      rw [foldlM_opt (s' := { name := n.map Name.toBytes }) ha]
      rotate_left
      · intro hn; simp [hn]
      · intro x t hx ht
        obtain ⟨hty, _, hp⟩ := name_RT x t ht
        rw [autoStep_field hty rfl rfl hp, hx]; rfl
      simp only [ok_bind]
      rw [foldlM_opt (s' := { name := n.map Name.toBytes, suffixType := s }) hb]
      rotate_left
      · intro hn; simp [hn]
      · intro x t hx ht
        obtain ⟨hty, _, hp⟩ := suffix_RT x t ht
        rw [autoStep_field hty rfl rfl hp, hx]
      simp only [ok_bind]
      rw [foldlM_opt (s' := { name := n.map Name.toBytes, suffixType := s, locators := ls.map (·.map Link.toBytes) }) hl]
      rotate_left
      · intro hn; simp [hn]
      · intro x t hx ht
        obtain ⟨hty, _, hp⟩ := locators_RT x t ht
        rw [autoStep_field hty rfl rfl hp, hx]; rfl
      simp only [ok_bind]
      exact construct_ok (by
        have := NcSchema.tlv_toBytes (NcSchema.segmented n s ls none)
        simp only [NcSchema.toBytes] at this
        rw [this]; exact h0)
    rw [NcSchema.parse, h1, h3]; rfl

/-! ## Name constructor definitions, vendors, node data -/

def NcDef.toBytes (d : NcDef) : NcDef := { d with schema := d.schema.map NcSchema.toBytes }
def NcDef.Fits (d : NcDef) : Prop := OptFits d.ncId

theorem NcDef.tlv_toBytes (d : NcDef) : d.toBytes.tlv = d.tlv := by
  simp only [NcDef.tlv, NcDef.members, NcDef.toBytes, optTlv_map NcSchema.tlv_toBytes]

theorem ncDef_RT {d : NcDef} (hd : d.Fits) : RT T_NCDEF NcDef.tlv NcDef.parse d d.toBytes := by
  intro t h
  have h0 := h
  obtain ⟨ms, hm, h⟩ := bind_eq_ok.mp h
  obtain ⟨hv, rfl, hvt⟩ := container_ok h
  obtain ⟨a, ha, hm⟩ := bind_eq_ok.mp hm
  obtain ⟨b, hb, hm⟩ := bind_eq_ok.mp hm
  cases hm
  refine ⟨rfl, hvt, ?_⟩
  rw [NcDef.parse, if_neg (by simp)]
  simp only [tlvLoop_bytesAll _ _ hv, List.foldlM_append]
  rw [foldlM_opt (s' := { ncId := d.ncId }) ha]
  rotate_left
  · intro hn; simp [hn]
  · intro x t hx ht
    obtain ⟨hty, _, hp⟩ := int_RT (ty := T_NCID) (by decide) (hd x hx) t ht
    simp [NcDef.parseStep, hty, hp, pyAssert, hx]
  simp only [ok_bind]
  rw [foldlM_opt (s' := d.toBytes) hb]
  rotate_left
  · intro hn; simp [NcDef.toBytes, hn]
  · intro x t hx ht
    have hp := ncSchema_parse ht
    have hty : t.type ≠ T_NCID := by
      rw [(NcSchema.tlv_ok ht).2]; cases x <;> simp [T_HashSchema, T_PrefixSchema, T_SegmentedSchema, T_NCID]
    simp [NcDef.parseStep, hty, hp, pyAssert, hx, NcDef.toBytes]
  simp only [ok_bind]
  exact construct_ok (by rw [NcDef.tlv_toBytes]; exact h0)

theorem vendor_RT (v : Vendor) : RT T_ORG Vendor.tlv Vendor.parse v v := by
  intro t h
  have h0 := h
  unfold Vendor.tlv at h
  split at h
  · cases h
  · rename_i hp
    rw [uint24ToArray_nat _ (by omega)] at h
    simp only [ok_bind] at h
    obtain ⟨rfl, hv⟩ := mkTlv_ok h
    refine ⟨rfl, hv, ?_⟩
    rw [Vendor.parse, if_neg (by simp), if_neg (by simp [Tlv.len]; omega)]
    have h3 : (beBytes 3 v.pen).length = 3 := by simp
    simp only [List.take_left' h3, List.drop_left' h3, arrayToNumber_beBytes]
    rw [Nat.mod_eq_of_lt (by omega)]
    exact construct_ok h0

def NodeData.toBytes (d : NodeData) : NodeData :=
  { d with locators := d.locators.map (·.map Link.toBytes), ncDefs := d.ncDefs.map NcDef.toBytes }

def NodeData.Fits (d : NodeData) : Prop := OptFits d.subtreeSize ∧ ∀ n ∈ d.ncDefs, n.Fits

theorem NodeData.tlv_toBytes (d : NodeData) : d.toBytes.tlv = d.tlv := by
  simp only [NodeData.tlv, NodeData.members, NodeData.toBytes, optTlv_map locatorsTlv_toBytes]
  rw [← listTlv_congr (f := NcDef.tlv) (g := NcDef.tlv) NcDef.toBytes (fun x _ => (NcDef.tlv_toBytes x).symm)]

theorem nodeData_RT {d : NodeData} (hd : d.Fits) : RT T_NODE_DATA NodeData.tlv NodeData.parse d d.toBytes := by
  intro t h
  have h0 := h
  obtain ⟨ms, hm, h⟩ := bind_eq_ok.mp h
  obtain ⟨hv, rfl, hvt⟩ := container_ok h
  obtain ⟨a, ha, hm⟩ := bind_eq_ok.mp hm
  obtain ⟨b, hb, hm⟩ := bind_eq_ok.mp hm
  obtain ⟨c, hc, hm⟩ := bind_eq_ok.mp hm
  obtain ⟨e, he, hm⟩ := bind_eq_ok.mp hm
  obtain ⟨f, hf, hm⟩ := bind_eq_ok.mp hm
  cases hm
  refine ⟨rfl, hvt, ?_⟩
  rw [NodeData.parse, if_neg (by simp)]
  simp only [tlvLoop_bytesAll _ _ hv, List.foldlM_append]
  rw [foldlM_opt (s' := { subtreeSize := d.subtreeSize }) ha]
  rotate_left
  · intro hn; simp [hn]
  · intro x t hx ht
    obtain ⟨hty, _, hp⟩ := int_RT (ty := T_SUBTREE_SIZE) (by decide) (hd.1 x hx) t ht
    simp [NodeData.parseStep, hty, hp, pyAssert, hx]
  simp only [ok_bind]
  rw [foldlM_opt (s' := { subtreeSize := d.subtreeSize, subtreeDigest := d.subtreeDigest }) hb]
  rotate_left
  · intro hn; simp [hn]
  · intro x t hx ht
    obtain ⟨hty, _, hp⟩ := hash_RT (ty := T_SUBTREE_DIGEST) x t ht
    rw [NodeData.parseStep, if_neg (by rw [hty]; decide), if_pos hty]
    simp [hp, pyAssert, hx]
  simp only [ok_bind]
  rw [foldlM_opt (s' := { subtreeSize := d.subtreeSize, subtreeDigest := d.subtreeDigest,
                          locators := d.locators.map (·.map Link.toBytes) }) hc]
  rotate_left
  · intro hn; simp [hn]
  · intro x t hx ht
    obtain ⟨hty, _, hp⟩ := locators_RT x t ht
    rw [NodeData.parseStep, if_neg (by rw [hty]; decide), if_neg (by rw [hty]; decide), if_pos hty]
    simp [hp, pyAssert, hx]
  simp only [ok_bind]
  rw [foldlM_list0 he (f := NcDef.toBytes)
    (upd := fun x => { subtreeSize := d.subtreeSize, subtreeDigest := d.subtreeDigest,
                       locators := d.locators.map (·.map Link.toBytes), ncDefs := x })]
  rotate_left
  · rfl
  · intro acc x t hx ht
    obtain ⟨hty, _, hp⟩ := ncDef_RT (hd.2 x hx) t ht
    rw [NodeData.parseStep, if_neg (by rw [hty]; decide), if_neg (by rw [hty]; decide), if_neg (by rw [hty]; decide),
      if_pos hty]
    simp [hp]
  simp only [ok_bind]
  rw [foldlM_list0 hf (f := fun x => x)
    (upd := fun x => { subtreeSize := d.subtreeSize, subtreeDigest := d.subtreeDigest,
                       locators := d.locators.map (·.map Link.toBytes), ncDefs := d.ncDefs.map NcDef.toBytes,
                       vendors := x })]
  rotate_left
  · rfl
  · intro acc x t hx ht
    obtain ⟨hty, _, hp⟩ := vendor_RT x t ht
    rw [NodeData.parseStep, if_neg (by rw [hty]; decide), if_neg (by rw [hty]; decide), if_neg (by rw [hty]; decide),
      if_neg (by rw [hty]; decide), if_pos hty]
    simp [hp]
  simp only [ok_bind]
  have := construct_ok (tlv := NodeData.tlv) (x := d.toBytes) (by rw [NodeData.tlv_toBytes]; exact h0)
  simpa [NodeData.toBytes] using this

/-! ## Nodes -/

/-- What parsing gives back: names hold `bytes`, the padding is dropped. -/
def Node.toBytes (n : Node) : Node :=
  { nodeData := n.nodeData.map NodeData.toBytes, hashGroups := n.hashGroups, padLength := none }

def Node.Fits (n : Node) : Prop := (∀ d, n.nodeData = some d → d.Fits) ∧ ∀ g ∈ n.hashGroups, g.Fits

theorem Node.members_toBytes (n : Node) : n.toBytes.members = n.members := by
  simp only [Node.members, Node.toBytes, optTlv_map NodeData.tlv_toBytes]

/-- Shape of a node's TLV: its members, then possibly one pad. -/
theorem Node.tlv_ok {n : Node} {t : Tlv} (h : n.tlv = .ok t) :
    ∃ ms, n.members = .ok ms ∧ n.hashGroups ≠ [] ∧ (∀ x ∈ ms, x.Valid) ∧ t.Valid ∧ t.type = T_NODE ∧
      (t.value = bytesAll ms ∧ (∀ p, n.padLength = some p → p - (4 + (bytesAll ms).length) < 4) ∨
       ∃ p k, n.padLength = some p ∧ p = (8 + (bytesAll ms).length + k : Nat) ∧
         k ≤ 0xFFFF ∧ t.value = bytesAll (ms ++ [⟨T_PAD, List.replicate k 0⟩])) := by
  obtain ⟨ms, hm, h⟩ := bind_eq_ok.mp h
  refine ⟨ms, hm, ?_⟩
  split at h
  · cases h
  · rename_i hne
    refine ⟨by intro h; simp [h] at hne, ?_⟩
    obtain ⟨w, hw, h⟩ := bind_eq_ok.mp h
    obtain ⟨hv, rfl⟩ := concatTlvs_ok hw
    refine ⟨hv, ?_⟩
    split at h
    · rename_i hp
      obtain ⟨rfl, ht⟩ := mkTlv_ok h
      exact ⟨ht, rfl, .inl ⟨rfl, by simp [hp]⟩⟩
    · rename_i p hp
      simp only at h
      split at h
      · rename_i hd
        obtain ⟨pt, hpt, h⟩ := bind_eq_ok.mp h
        obtain ⟨w, hw, h⟩ := bind_eq_ok.mp h
        obtain ⟨rfl, hpv⟩ := mkTlv_ok hpt
        obtain ⟨_, rfl⟩ := concatTlvs_ok hw
        obtain ⟨rfl, ht⟩ := mkTlv_ok h
        have := hpv.2
        simp only [List.length_replicate] at this
        exact ⟨ht, rfl, .inr ⟨p, _, hp, by omega, this, rfl⟩⟩
      · rename_i hd
        obtain ⟨rfl, ht⟩ := mkTlv_ok h
        refine ⟨ht, rfl, .inl ⟨rfl, ?_⟩⟩
        intro q hq
        rw [hp] at hq
        cases hq
        omega

theorem node_fold {n : Node} (hn : n.Fits) {ms : List Tlv} (hm : n.members = .ok ms) :
    ms.foldlM Node.parseStep {} = .ok ⟨n.nodeData.map NodeData.toBytes, n.hashGroups⟩ := by
  obtain ⟨a, ha, hm⟩ := bind_eq_ok.mp hm
  obtain ⟨b, hb, hm⟩ := bind_eq_ok.mp hm
  cases hm
  simp only [List.foldlM_append]
  rw [foldlM_opt (s' := { nodeData := n.nodeData.map NodeData.toBytes }) ha]
  rotate_left
  · intro hn; simp [hn]
  · intro x t hx ht
    obtain ⟨hty, _, hp⟩ := nodeData_RT (hn.1 x hx) t ht
    rw [Node.parseStep, if_pos hty]
    simp [hp, pyAssert, hx]
  simp only [ok_bind]
  rw [foldlM_list0 hb (f := fun x => x)
    (upd := fun x => { nodeData := n.nodeData.map NodeData.toBytes, hashGroups := x })]
  · simp
  · rfl
  · intro acc x t hx ht
    obtain ⟨hty, _, hp⟩ := hashGroup_RT (hn.2 x hx) t ht
    rw [Node.parseStep, if_neg (by rw [hty]; decide), if_pos hty]
    simp [hp]

/-- Removing the padding never makes a node unserializable. -/
theorem Node.tlv_unpadded {n : Node} {t : Tlv} (h : n.tlv = .ok t) :
    ∃ ms, n.members = .ok ms ∧ n.toBytes.tlv = .ok ⟨T_NODE, bytesAll ms⟩ := by
  obtain ⟨ms, hm, hne, hv, htv, hty, hr⟩ := Node.tlv_ok h
  refine ⟨ms, hm, ?_⟩
  have hlen : (bytesAll ms).length ≤ 0xFFFF := by
    have := htv.2
    rcases hr with ⟨hr, _⟩ | ⟨p, k, _, _, _, hr⟩
    · rw [hr] at this; exact this
    · rw [hr] at this; simp at this; omega
  rw [Node.tlv, Node.members_toBytes, hm]
  simp only [ok_bind]
  rw [if_neg (by simpa [Node.toBytes] using hne), concatTlvs_of_valid hv]
  simp only [ok_bind, Node.toBytes, mkTlv_eq]
  exact if_pos ⟨by decide, hlen⟩

theorem node_RT {n : Node} (hn : n.Fits) : RT T_NODE Node.tlv Node.parse n n.toBytes := by
  intro t h
  obtain ⟨ms, hm, hne, hv, htv, hty, hr⟩ := Node.tlv_ok h
  obtain ⟨ms', hm', hu⟩ := Node.tlv_unpadded h
  rw [hm] at hm'
  cases hm'
  refine ⟨hty, htv, ?_⟩
  rw [Node.parse, if_neg (by simp [hty])]
  have hf : tlvLoop Node.parseStep t.value {} = .ok ⟨n.nodeData.map NodeData.toBytes, n.hashGroups⟩ := by
    rcases hr with ⟨hr, _⟩ | ⟨p, k, _, _, hk, hr⟩
    · rw [hr, tlvLoop_bytesAll _ _ hv, node_fold hn hm]
    · rw [hr, tlvLoop_bytesAll, List.foldlM_append, node_fold hn hm]
      · simp only [ok_bind, List.foldlM_cons, List.foldlM_nil]
        rfl
      · intro x hx
        rcases List.mem_append.mp hx with hx | hx
        · exact hv x hx
        · simp only [List.mem_singleton] at hx
          subst hx
          exact ⟨(by decide : T_PAD ≤ 0xFFFF), by simpa using hk⟩
  rw [hf]
  simp only [ok_bind]
  exact construct_ok hu

/-! ## Security contexts -/

def KdfData.Fits (d : KdfData) : Prop := d.kdfAlg < 2 ^ 64

theorem kdfData_RT {d : KdfData} (hd : d.Fits) : RT T_KDF_DATA KdfData.tlv KdfData.parse d d := by
  intro t h
  have h0 := h
  obtain ⟨a, ha, h⟩ := bind_eq_ok.mp h
  obtain ⟨b, hb, h⟩ := bind_eq_ok.mp h
  obtain ⟨hv, rfl, hvt⟩ := container_ok h
  refine ⟨rfl, hvt, ?_⟩
  rw [KdfData.parse, autoParse, if_neg (by simp), autoValueParse]
  rw [tlvLoop_bytesAll _ _ hv]
  simp only [List.cons_append, List.nil_append, List.foldlM_cons]
  obtain ⟨hty, _, hp⟩ := int_RT (ty := T_KDF_ALG) (by decide) hd a ha
  rw [autoStep_field hty rfl rfl hp]
  simp only [ok_bind]
  rw [foldlM_opt (s' := { kdfAlg := some d.kdfAlg, kdfInfo := d.kdfInfo }) hb]
  rotate_left
  · intro hn; simp [hn]
  · intro x t hx ht
    obtain ⟨hty, _, hp⟩ := octet_RT (ty := T_KDF_INFO) x t ht
    rw [autoStep_field hty rfl rfl hp, hx]
  simp only [ok_bind]
  exact construct_ok h0

def AeadData.Fits (d : AeadData) : Prop :=
  d.keyNumber < 2 ^ 64 ∧ OptFits d.mode ∧ ∀ k, d.kdfData = some k → k.Fits

def RsaOaepWrapper.Fits (w : RsaOaepWrapper) : Prop := OptFits w.hashAlg
def RsaOaepWrapper.toBytes (w : RsaOaepWrapper) : RsaOaepWrapper := { w with keyLink := w.keyLink.map Link.toBytes }

theorem linkTlv_toBytes (ty : Nat) (l : Link) : linkTlv ty l.toBytes = linkTlv ty l := by
  simp only [linkTlv, Link.wire_toBytes]

theorem RsaOaepWrapper.members_toBytes (w : RsaOaepWrapper) : w.toBytes.members = w.members := by
  simp only [RsaOaepWrapper.members, RsaOaepWrapper.toBytes, optTlv_map (linkTlv_toBytes T_KEYLINK)]

/-- Folding a loop body that ignores every TLV in the list. -/
theorem foldlM_skip {σ : Type} {step : σ → Tlv → Py σ} {l : List Tlv} {s : σ} (h : ∀ t ∈ l, step s t = .ok s) :
    l.foldlM step s = .ok s := by
  induction l with
  | nil => rfl
  | cons t l ih =>
    rw [List.foldlM_cons, h t (by simp)]
    exact ih (fun t ht => h t (by simp [ht]))

theorem optTlv_types {α : Type} {tlv : α → Py Tlv} {ty : Nat} {o : Option α} {l : List Tlv}
    (hr : ∀ x t, o = some x → tlv x = .ok t → t.type = ty) (h : optTlv tlv o = .ok l) : ∀ t ∈ l, t.type = ty := by
  cases o with
  | none => cases h; simp
  | some x =>
    obtain ⟨t, ht, rfl⟩ := optTlv_some h
    simpa using hr x t rfl ht

theorem aeadData_fold {d : AeadData} (hd : d.Fits) {ms : List Tlv} (hm : d.members = .ok ms) :
    ms.foldlM (autoStep AeadData.fields) {} = .ok ⟨some d.keyNumber, some d.nonce, d.mode, d.kdfData⟩ := by
  obtain ⟨a, ha, hm⟩ := bind_eq_ok.mp hm
  obtain ⟨b, hb, hm⟩ := bind_eq_ok.mp hm
  obtain ⟨c, hc, hm⟩ := bind_eq_ok.mp hm
  obtain ⟨e, he, hm⟩ := bind_eq_ok.mp hm
  cases hm
  simp only [List.cons_append, List.nil_append, List.foldlM_cons, List.foldlM_append]
  obtain ⟨hty, _, hp⟩ := int_RT (ty := T_KEYNUM) (by decide) hd.1 a ha
  rw [autoStep_field hty rfl rfl hp]
  simp only [ok_bind]
  obtain ⟨hty, _, hp⟩ := octet_RT (ty := T_NONCE) d.nonce b hb
  rw [autoStep_field hty rfl rfl hp]
  simp only [ok_bind]
  rw [foldlM_opt (s' := ⟨some d.keyNumber, some d.nonce, d.mode, none⟩) hc]
  rotate_left
  · intro hn; simp [hn]
  · intro x t hx ht
    obtain ⟨hty, _, hp⟩ := int_RT (ty := T_AEADMode) (by decide) (hd.2.1 x hx) t ht
    rw [autoStep_field hty rfl rfl hp, hx]
  simp only [ok_bind]
  rw [foldlM_opt (s' := ⟨some d.keyNumber, some d.nonce, d.mode, d.kdfData⟩) he]
  · intro hn; simp [hn]
  · intro x t hx ht
    obtain ⟨hty, _, hp⟩ := kdfData_RT (hd.2.2 x hx) t ht
    rw [autoStep_field hty rfl rfl hp, hx]

theorem aeadData_types {d : AeadData} (hd : d.Fits) {ms : List Tlv} (hm : d.members = .ok ms) :
    ∀ t ∈ ms, t.type = T_KEYNUM ∨ t.type = T_NONCE ∨ t.type = T_AEADMode ∨ t.type = T_KDF_DATA := by
  obtain ⟨a, ha, hm⟩ := bind_eq_ok.mp hm
  obtain ⟨b, hb, hm⟩ := bind_eq_ok.mp hm
  obtain ⟨c, hc, hm⟩ := bind_eq_ok.mp hm
  obtain ⟨e, he, hm⟩ := bind_eq_ok.mp hm
  cases hm
  have h1 := (int_RT (ty := T_KEYNUM) (by decide) hd.1 a ha).1
  have h2 := (octet_RT (ty := T_NONCE) d.nonce b hb).1
  have h3 := optTlv_types (fun x t hx ht => (int_RT (ty := T_AEADMode) (by decide) (hd.2.1 x hx) t ht).1) hc
  have h4 := optTlv_types (fun x t hx ht => (kdfData_RT (hd.2.2 x hx) t ht).1) he
  intro t ht
  simp only [List.cons_append, List.nil_append, List.mem_cons, List.mem_append] at ht
  rcases ht with rfl | rfl | ht | ht
  · exact .inl h1
  · exact .inr (.inl h2)
  · exact .inr (.inr (.inl (h3 t ht)))
  · exact .inr (.inr (.inr (h4 t ht)))

theorem wrapper_fold {w : RsaOaepWrapper} (hw : w.Fits) {ms : List Tlv} (hm : w.members = .ok ms) :
    ms.foldlM (autoStep RsaOaepWrapper.fields) {}
      = .ok ⟨some w.keyId, w.keyLink.map Link.toBytes, w.hashAlg, w.wrappedKey⟩ := by
  obtain ⟨a, ha, hm⟩ := bind_eq_ok.mp hm
  obtain ⟨b, hb, hm⟩ := bind_eq_ok.mp hm
  obtain ⟨c, hc, hm⟩ := bind_eq_ok.mp hm
  obtain ⟨e, he, hm⟩ := bind_eq_ok.mp hm
  cases hm
  simp only [List.cons_append, List.nil_append, List.foldlM_cons, List.foldlM_append]
  obtain ⟨hty, _, hp⟩ := hash_RT (ty := T_KEYID) w.keyId a ha
  rw [autoStep_field hty rfl rfl hp]
  simp only [ok_bind]
  rw [foldlM_opt (s' := ⟨some w.keyId, w.keyLink.map Link.toBytes, none, none⟩) hb]
  rotate_left
  · intro hn; simp [hn]
  · intro x t hx ht
    obtain ⟨hty, _, hp⟩ := keyLink_RT x t ht
    rw [autoStep_field hty rfl rfl hp, hx]; rfl
  simp only [ok_bind]
  rw [foldlM_opt (s' := ⟨some w.keyId, w.keyLink.map Link.toBytes, w.hashAlg, none⟩) hc]
  rotate_left
  · intro hn; simp [hn]
  · intro x t hx ht
    obtain ⟨hty, _, hp⟩ := int_RT (ty := T_HASH_ALG) (by decide) (hw x hx) t ht
    rw [autoStep_field hty rfl rfl hp, hx]
  simp only [ok_bind]
  rw [foldlM_opt (s' := ⟨some w.keyId, w.keyLink.map Link.toBytes, w.hashAlg, w.wrappedKey⟩) he]
  · intro hn; simp [hn]
  · intro x t hx ht
    obtain ⟨hty, _, hp⟩ := octet_RT (ty := T_WRAPPED_KEY) x t ht
    rw [autoStep_field hty rfl rfl hp, hx]

theorem wrapper_types {w : RsaOaepWrapper} (hw : w.Fits) {ms : List Tlv} (hm : w.members = .ok ms) :
    ∀ t ∈ ms, t.type = T_KEYID ∨ t.type = T_KEYLINK ∨ t.type = T_HASH_ALG ∨ t.type = T_WRAPPED_KEY := by
  obtain ⟨a, ha, hm⟩ := bind_eq_ok.mp hm
  obtain ⟨b, hb, hm⟩ := bind_eq_ok.mp hm
  obtain ⟨c, hc, hm⟩ := bind_eq_ok.mp hm
  obtain ⟨e, he, hm⟩ := bind_eq_ok.mp hm
  cases hm
  have h1 := (hash_RT (ty := T_KEYID) w.keyId a ha).1
  have h2 := optTlv_types (fun x t _ ht => (keyLink_RT x t ht).1) hb
  have h3 := optTlv_types (fun x t hx ht => (int_RT (ty := T_HASH_ALG) (by decide) (hw x hx) t ht).1) hc
  have h4 := optTlv_types (fun x t _ ht => (octet_RT (ty := T_WRAPPED_KEY) x t ht).1) he
  intro t ht
  simp only [List.cons_append, List.nil_append, List.mem_cons, List.mem_append] at ht
  rcases ht with rfl | (ht | ht) | ht
  · exact .inl h1
  · exact .inr (.inl (h2 t ht))
  · exact .inr (.inr (.inl (h3 t ht)))
  · exact .inr (.inr (.inr (h4 t ht)))

theorem aeadData_parse {d : AeadData} (hd : d.Fits) {ms ws : List Tlv} (hm : d.members = .ok ms)
    (hw : ∀ t ∈ ws, t.type = T_KEYID ∨ t.type = T_KEYLINK ∨ t.type = T_HASH_ALG ∨ t.type = T_WRAPPED_KEY)
    (hv : ∀ x ∈ ms ++ ws, x.Valid) : AeadData.parse (bytesAll (ms ++ ws)) = .ok d := by
  rw [AeadData.parse, autoValueParse, tlvLoop_bytesAll _ _ hv, List.foldlM_append, aeadData_fold hd hm]
  simp only [ok_bind]
  rw [foldlM_skip]
  · simp only [ok_bind, hm]
    rw [concatTlvs_of_valid (fun x hx => hv x (by simp [hx]))]
    rfl
  · intro t ht
    rcases hw t ht with h | h | h | h <;> exact autoStep_miss h rfl

theorem wrapper_parse {w : RsaOaepWrapper} (hw : w.Fits) {ms ws : List Tlv} (hm : w.members = .ok ws)
    (hms : ∀ t ∈ ms, t.type = T_KEYNUM ∨ t.type = T_NONCE ∨ t.type = T_AEADMode ∨ t.type = T_KDF_DATA)
    (hv : ∀ x ∈ ms ++ ws, x.Valid) : RsaOaepWrapper.parse (bytesAll (ms ++ ws)) = .ok (some w.toBytes) := by
  rw [RsaOaepWrapper.parse, autoValueParse, tlvLoop_bytesAll _ _ hv, List.foldlM_append, foldlM_skip]
  · simp only [ok_bind, wrapper_fold hw hm]
    have := RsaOaepWrapper.members_toBytes w
    simp only [RsaOaepWrapper.toBytes] at this
    simp only [this, hm, ok_bind]
    rw [concatTlvs_of_valid (fun x hx => hv x (by simp [hx]))]
    rfl
  · intro t ht
    rcases hms t ht with h | h | h | h <;> exact autoStep_miss h rfl

theorem wrapper_parse_none {ms : List Tlv}
    (hms : ∀ t ∈ ms, t.type = T_KEYNUM ∨ t.type = T_NONCE ∨ t.type = T_AEADMode ∨ t.type = T_KDF_DATA)
    (hv : ∀ x ∈ ms, x.Valid) : RsaOaepWrapper.parse (bytesAll ms) = .ok none := by
  rw [RsaOaepWrapper.parse, autoValueParse, tlvLoop_bytesAll _ _ hv, foldlM_skip]
  · rfl
  · intro t ht
    rcases hms t ht with h | h | h | h <;> exact autoStep_miss h rfl

def SecurityCtx.toBytes : SecurityCtx → SecurityCtx
  | .aead d => .aead d
  | .rsaOaep d w => .rsaOaep d (w.map RsaOaepWrapper.toBytes)

def SecurityCtx.Fits : SecurityCtx → Prop
  | .aead d => d.Fits
  | .rsaOaep d w => d.Fits ∧ ∀ x, w = some x → x.Fits

theorem SecurityCtx.tlv_toBytes (s : SecurityCtx) : s.toBytes.tlv = s.tlv := by
  cases s with
  | aead d => rfl
  | rsaOaep d w => cases w <;> simp [SecurityCtx.toBytes, SecurityCtx.tlv, wrapperMembers, RsaOaepWrapper.members_toBytes]

theorem securityCtx_RT {s : SecurityCtx} (hs : s.Fits) :
    RT T_SECURITY_CTX SecurityCtx.tlv SecurityCtx.parse s s.toBytes := by
  intro t h
  have h0 := h
  cases s with
  | aead d =>
    obtain ⟨ms, hm, h⟩ := bind_eq_ok.mp h
    obtain ⟨u, hu, h⟩ := bind_eq_ok.mp h
    obtain ⟨hvm, heq, hvu⟩ := container_ok hu
    obtain ⟨hv, rfl, hvt⟩ := container_ok h
    refine ⟨rfl, hvt, ?_⟩
    rw [SecurityCtx.parse, if_neg (by simp)]
    simp only [bytesAll_cons, Tlv.deserialize_bytes u hvu, ok_bind]
    subst heq
    rw [if_pos rfl]
    have := aeadData_parse hs hm (ws := []) (by simp) (by simpa using hvm)
    simp only [List.append_nil] at this
    simp only [this, ok_bind]
    exact construct_ok h0
  | rsaOaep d w =>
    obtain ⟨ms, hm, h⟩ := bind_eq_ok.mp h
    obtain ⟨ws, hw, h⟩ := bind_eq_ok.mp h
    obtain ⟨u, hu, h⟩ := bind_eq_ok.mp h
    obtain ⟨hvm, heq, hvu⟩ := container_ok hu
    obtain ⟨hv, rfl, hvt⟩ := container_ok h
    refine ⟨rfl, hvt, ?_⟩
    rw [SecurityCtx.parse, if_neg (by simp)]
    simp only [bytesAll_cons, Tlv.deserialize_bytes u hvu, ok_bind]
    subst heq
    rw [if_neg (by simp [T_RSAOAEP_CTX, T_AEAD_CTX]), if_pos rfl]
    cases w with
    | none =>
      cases hw
      simp only [List.append_nil] at hvm hu h0 ⊢
      have := aeadData_parse hs.1 hm (ws := []) (by simp) (by simpa using hvm)
      simp only [List.append_nil] at this
      simp only [this, wrapper_parse_none (aeadData_types hs.1 hm) hvm, ok_bind]
      exact construct_ok h0
    | some w =>
      simp only [aeadData_parse hs.1 hm (wrapper_types (hs.2 w rfl) hw) hvm,
        wrapper_parse (hs.2 w rfl) hw (aeadData_types hs.1 hm) hvm, ok_bind]
      exact construct_ok (by
        have := SecurityCtx.tlv_toBytes (.rsaOaep d (some w))
        simp only [SecurityCtx.toBytes, Option.map] at this
        rw [this]; exact h0)

/-! ## Manifests -/

def ManifestNode.toBytes : ManifestNode → ManifestNode
  | .plain n => .plain n.toBytes
  | .encrypted c => .encrypted c

def ManifestNode.Fits : ManifestNode → Prop
  | .plain n => n.Fits
  | .encrypted _ => True

def Manifest.toBytes (m : Manifest) : Manifest :=
  { m with securityCtx := m.securityCtx.map SecurityCtx.toBytes, node := m.node.toBytes }

def Manifest.Fits (m : Manifest) : Prop := (∀ s, m.securityCtx = some s → s.Fits) ∧ m.node.Fits

theorem Manifest.serialize_ok {m : Manifest} {w : Bytes} (h : m.serialize = .ok w) :
    ∃ a b c, optTlv SecurityCtx.tlv m.securityCtx = .ok a ∧ m.node.tlv = .ok b ∧
      optTlv (octetTlv T_AUTH_TAG) m.authTag = .ok c ∧ (∀ t ∈ a ++ [b] ++ c, t.Valid) ∧ w = bytesAll (a ++ [b] ++ c) := by
  obtain ⟨ms, hm, h⟩ := bind_eq_ok.mp h
  obtain ⟨hv, rfl⟩ := concatTlvs_ok h
  obtain ⟨a, ha, hm⟩ := bind_eq_ok.mp hm
  obtain ⟨b, hb, hm⟩ := bind_eq_ok.mp hm
  obtain ⟨c, hc, hm⟩ := bind_eq_ok.mp hm
  cases hm
  exact ⟨a, b, c, ha, hb, hc, hv, rfl⟩

theorem ManifestNode.toBytes_tlv_ok {n : ManifestNode} {t : Tlv} (h : n.tlv = .ok t) :
    ∃ u, n.toBytes.tlv = .ok u ∧ u.Valid := by
  cases n with
  | plain n =>
    obtain ⟨ms, hm, hu⟩ := Node.tlv_unpadded h
    have : (⟨T_NODE, bytesAll ms⟩ : Tlv).Valid := by
      obtain ⟨_, _, _, _, hv, hty, hr⟩ := Node.tlv_ok hu
      exact hv
    exact ⟨_, hu, this⟩
  | encrypted c => exact ⟨t, h, (mkTlv_ok h).2⟩

theorem manifest_RT {m : Manifest} (hm : m.Fits) {w : Bytes} (h : m.serialize = .ok w) :
    Manifest.deserialize w = .ok m.toBytes := by
  obtain ⟨a, b, c, ha, hb, hc, hv, rfl⟩ := Manifest.serialize_ok h
  rw [Manifest.deserialize, tlvLoop_bytesAll _ _ hv]
  simp only [List.foldlM_append]
  rw [foldlM_opt (s' := { securityCtx := m.securityCtx.map SecurityCtx.toBytes }) ha]
  rotate_left
  · intro hn; simp [hn]
  · intro x t hx ht
    obtain ⟨hty, _, hp⟩ := securityCtx_RT (hm.1 x hx) t ht
    rw [Manifest.parseStep, if_pos hty]
    simp [hp, pyAssert, hx]
  simp only [ok_bind, List.foldlM_cons, List.foldlM_nil]
  have hb' : Manifest.parseStep { securityCtx := m.securityCtx.map SecurityCtx.toBytes } b
      = .ok { securityCtx := m.securityCtx.map SecurityCtx.toBytes, node := some m.node.toBytes } := by
    have hf := hm.2
    cases hn : m.node with
    | plain n =>
      rw [hn] at hb hf
      obtain ⟨hty, _, hp⟩ := node_RT hf b hb
      rw [Manifest.parseStep, if_neg (by rw [hty]; decide), if_pos hty]
      simp [hp, pyAssert, ManifestNode.toBytes]
    | encrypted n =>
      rw [hn] at hb
      obtain ⟨hty, _, hp⟩ := octet_RT (ty := T_ENCRYPTED_NODE) n b hb
      rw [Manifest.parseStep, if_neg (by rw [hty]; decide), if_neg (by rw [hty]; decide), if_pos hty]
      simp [hp, pyAssert, ManifestNode.toBytes]
  rw [hb']
  simp only [ok_bind, pure_eq_ok]
  rw [foldlM_opt (s' := ⟨m.securityCtx.map SecurityCtx.toBytes, some m.node.toBytes, m.authTag⟩) hc]
  rotate_left
  · intro hn; simp [hn]
  · intro x t hx ht
    obtain ⟨hty, _, hp⟩ := octet_RT (ty := T_AUTH_TAG) x t ht
    rw [Manifest.parseStep, if_neg (by rw [hty]; decide), if_neg (by rw [hty]; decide), if_neg (by rw [hty]; decide),
      if_pos hty]
    simp [hp, hx]
  simp only [ok_bind]
  obtain ⟨u, hu, huv⟩ := ManifestNode.toBytes_tlv_ok hb
  have hser : ∃ w, m.toBytes.serialize = .ok w := by
    simp only [Manifest.serialize, Manifest.members, Manifest.toBytes, optTlv_map SecurityCtx.tlv_toBytes, ha, hu, hc,
      ok_bind, pure_eq_ok]
    rw [concatTlvs_of_valid]
    · exact ⟨_, rfl⟩
    · intro x hx
      simp only [List.mem_append, List.mem_singleton] at hx hv
      rcases hx with (hx | rfl) | hx
      · exact hv x (.inl (.inl hx))
      · exact huv
      · exact hv x (.inr hx)
  obtain ⟨w, hw⟩ := hser
  have hw' := hw
  simp only [Manifest.toBytes] at hw'
  simp only [hw', ok_bind]
  rfl

end Ccnpy
