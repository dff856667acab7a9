import Verif.Lemmas.Slots

/-!
# C66, C67: what the container parsers accept, and what they make of it

Every parser of a TLV with inner TLVs is described completely: it succeeds with `x` exactly when the value is a sequence of
TLVs of the known types, each of which parses, every member that is not a list occurs at most once, and `x` has the results
as its members, in order.
-/

namespace Ccnpy

/-! ## Specification -/

/-- `value` is the concatenation of the TLVs `l`, with 2-byte types and 2-byte lengths. -/
def Spec.Tiles (value : Bytes) (l : List Tlv) : Prop :=
  (∀ t ∈ l, t.type ≤ 0xFFFF ∧ t.value.length ≤ 0xFFFF) ∧
  value = l.flatMap (fun t => be16 t.type ++ be16 t.value.length ++ t.value)

/-- The TLVs of type `ty` all parse, with the results `xs` in order. -/
def Spec.Parsed {α : Type} (l : List Tlv) (ty : Nat) (parse : Tlv → Py α) (xs : List α) : Prop :=
  (l.filter (fun t => t.type == ty)).mapM parse = .ok xs

/-- There are only TLVs of these types. -/
def Spec.Only (l : List Tlv) (types : List Nat) : Prop := ∀ t ∈ l, t.type ∈ types

/-- The object has a wire format (its parts are not too long). -/
def Spec.Fits {β : Type} (r : Py β) : Prop := ∃ w, r = .ok w

/-! ## Helpers -/

theorem bytesAll_tiles (l : List Tlv) : bytesAll l = l.flatMap (fun t => be16 t.type ++ be16 t.value.length ++ t.value) := by
  unfold bytesAll
  rw [List.flatMap_def]
  rfl

theorem Lawful.loop {σ : Type} {step : σ → Tlv → Py σ} {slots : List (Slot σ)} {ignored : Tlv → Prop} (L : Lawful step slots ignored)
    {s0 : σ} (h0 : ∀ q ∈ slots, q.get s0 = []) (ext : ∀ s s', (∀ q ∈ slots, q.get s = q.get s') → s = s') (buf : Bytes) (s : σ) :
    tlvLoop step buf s0 = .ok s ↔ ∃ l, Spec.Tiles buf l ∧ (∀ t ∈ l, (∃ q ∈ slots, q.mine t = true) ∨ ignored t) ∧
      ∀ q ∈ slots, ∃ xs, (l.filter q.mine).mapM q.parse = .ok xs ∧ q.get s = q.kind.total xs ∧ q.kind.allowed xs := by
  constructor
  · intro h
    obtain ⟨l, hl, hb, hf⟩ := tlvLoop_inv step buf s0 s h
    exact ⟨l, ⟨hl, hb.trans (bytesAll_tiles l)⟩, L.sound h0 l s hf⟩
  · rintro ⟨l, ⟨hl, hb⟩, hk, hq⟩
    obtain ⟨s', hs'⟩ := L.complete h0 l hk (fun q hqm => by
      obtain ⟨xs, hx, _, ha⟩ := hq q hqm
      exact ⟨xs, hx, ha⟩)
    have : s = s' := by
      apply ext
      intro q hqm
      obtain ⟨xs, hx, hg, _⟩ := hq q hqm
      obtain ⟨xs', hx', hg', _⟩ := (L.sound h0 l s' hs').2 q hqm
      cases Except.ok.inj (hx.symm.trans hx')
      rw [hg, hg']
    subst this
    rw [hb, ← bytesAll_tiles, tlvLoop_bytesAll step l hl]
    exact hs'

theorem once_iff {α : Type} (o : Option α) (r : Py (List α)) :
    (∃ xs, r = .ok xs ∧ o.toList = SlotKind.total .once xs ∧ SlotKind.allowed .once xs) ↔ r = .ok o.toList := by
  constructor
  · rintro ⟨xs, hx, hg, _⟩
    rw [hx, hg]; rfl
  · intro h
    refine ⟨_, h, rfl, ?_⟩
    cases o <;> simp [SlotKind.allowed]

theorem many_iff {α : Type} (ys : List α) (r : Py (List α)) :
    (∃ xs, r = .ok xs ∧ ys = SlotKind.total .many xs ∧ SlotKind.allowed .many xs) ↔ r = .ok ys := by
  constructor
  · rintro ⟨xs, hx, hg, _⟩
    rw [hx, hg]; rfl
  · intro h
    exact ⟨_, h, rfl, trivial⟩

theorem last_iff {α : Type} (o : Option α) (r : Py (List α)) :
    (∃ xs, r = .ok xs ∧ o.toList = SlotKind.total .last xs ∧ SlotKind.allowed .last xs) ↔ ∃ xs, r = .ok xs ∧ xs.getLast? = o := by
  constructor
  · rintro ⟨xs, hx, hg, _⟩
    refine ⟨xs, hx, ?_⟩
    unfold SlotKind.total at hg
    cases o <;> cases h : xs.getLast? <;> simp_all
  · rintro ⟨xs, hx, hg⟩
    exact ⟨xs, hx, by rw [← hg]; rfl, trivial⟩

theorem construct_iff {α : Type} {tlv : α → Py Tlv} {x y : α} : construct tlv x = .ok y ↔ y = x ∧ Spec.Fits (tlv x) := by
  constructor
  · exact construct_inv
  · rintro ⟨rfl, t, ht⟩
    exact construct_ok ht

theorem toList_inj {α : Type} {o p : Option α} : o.toList = p.toList ↔ o = p := by
  cases o <;> cases p <;> simp

theorem onceWire_ok {σ α : Type} {o : Option α} {p : Tlv → Py α} {v : Bytes} {f : α → σ} {s' : σ}
    (h : (pyAssert o.isNone >>= fun _ => Tlv.deserialize v >>= fun t => p t >>= fun a => pure (f a)) = .ok s') :
    o = none ∧ ∃ a, ofWire p v = .ok a ∧ s' = f a := by
  obtain ⟨u, hu, h⟩ := bind_eq_ok.mp h
  obtain ⟨t, ht, h⟩ := bind_eq_ok.mp h
  obtain ⟨a, ha, h⟩ := bind_eq_ok.mp h
  exact ⟨by simpa using pyAssert_ok hu, a, by unfold ofWire; rw [ht]; exact ha, (Except.ok.inj h).symm⟩

theorem once_run {σ α β : Type} {o : Option β} {p : Py α} {f : α → σ} {a : α} (h0 : o = none) (ha : p = .ok a) :
    (pyAssert o.isNone >>= fun _ => p >>= fun a => pure (f a)) = .ok (f a) := by
  subst h0 ha
  rfl

theorem onceWire_run {σ α : Type} {o : Option α} {p : Tlv → Py α} {v : Bytes} {f : α → σ} {a : α} (h0 : o = none)
    (ha : ofWire p v = .ok a) :
    (pyAssert o.isNone >>= fun _ => Tlv.deserialize v >>= fun t => p t >>= fun a => pure (f a)) = .ok (f a) := by
  subst h0
  obtain ⟨t, ht, ha⟩ := bind_eq_ok.mp ha
  rw [ht]
  show (p t >>= _) = _
  rw [ha]
  rfl

theorem put_run {σ α : Type} {p : Py α} {f : α → σ} {a : α} (ha : p = .ok a) :
    (p >>= fun a => pure (f a)) = .ok (f a) := by
  subst ha
  rfl

set_option linter.unusedSimpArgs false

set_option hygiene false in
/-- Prove that an accepted TLV goes into the slot of its type. -/
macro "slots_ok" "[" ls:Lean.Parser.Tactic.simpLemma,* "]" : tactic => `(tactic| (
  repeat' split at h
  all_goals first
    | (obtain ⟨h0, a, ha, rfl⟩ := once_ok h; simp_all [Slot.one, Slot.list, SlotKind.ready, SlotKind.after, $ls,*]; done)
    | (obtain ⟨h0, a, ha, rfl⟩ := onceWire_ok h; simp_all [Slot.one, Slot.list, SlotKind.ready, SlotKind.after, $ls,*]; done)
    | (obtain ⟨a, ha, rfl⟩ := put_ok h; simp_all [Slot.one, Slot.list, SlotKind.ready, SlotKind.after, $ls,*]; done)
    | (cases h; done)
    | (cases Except.ok.inj h; simp_all [Slot.one, Slot.list, SlotKind.ready, SlotKind.after, $ls,*]; done)))

set_option hygiene false in
/-- Prove that a TLV of a known type that parses is accepted. -/
macro "slots_run" "[" ls:Lean.Parser.Tactic.simpLemma,* "]" : tactic => `(tactic| (
  simp [Slot.one, Slot.list, SlotKind.ready, $ls,*] at hk hq
  repeat' rcases hk with hk | hk
  all_goals simp [hk] at hq
  all_goals first
    | (obtain ⟨h0, a, ha⟩ := hq; exact ⟨_, by simp [hk, $ls,*]; exact once_run h0 ha⟩)
    | (obtain ⟨h0, a, ha⟩ := hq; exact ⟨_, by simp [hk, $ls,*]; exact onceWire_run h0 ha⟩)
    | (obtain ⟨a, ha⟩ := hq; exact ⟨_, by simp [hk, $ls,*]; exact put_run ha⟩)
    | (exact ⟨_, by simp [hk, $ls,*]; rfl⟩)))

/-! ## Links -/

def linkSlots : List (Slot Link) :=
  [.one T_NAME Name.parse Link.name, .one T_KEYIDRESTR (fun t => ofWire HashValue.parse t.value) Link.keyid,
   .one T_OBJHASHRESTR (fun t => ofWire HashValue.parse t.value) Link.digest]

theorem link_lawful : Lawful Link.parseStep linkSlots (fun _ => False) where
  ok := by
    intro s t s' h
    unfold Link.parseStep at h
    slots_ok [linkSlots, T_NAME, T_KEYIDRESTR, T_OBJHASHRESTR]
  run := by
    intro s t hk hq
    unfold Link.parseStep
    slots_run [linkSlots, T_NAME, T_KEYIDRESTR, T_OBJHASHRESTR]

/-- C66: a link is accepted exactly when it is a sequence of at most one name, at most one key id restriction and at most
one hash restriction. -/
theorem C66_link (buf : Bytes) (k : Link) : Link.deserialize buf = .ok k ↔
    Spec.Fits k.wire ∧ ∃ l, Spec.Tiles buf l ∧ Spec.Only l [T_NAME, T_KEYIDRESTR, T_OBJHASHRESTR] ∧
      Spec.Parsed l T_NAME Name.parse k.name.toList ∧
      Spec.Parsed l T_KEYIDRESTR (fun t => ofWire HashValue.parse t.value) k.keyid.toList ∧
      Spec.Parsed l T_OBJHASHRESTR (fun t => ofWire HashValue.parse t.value) k.digest.toList := by
  have hl := link_lawful.loop (s0 := {}) (by simp [linkSlots, Slot.one]) (by
    intro s s' h
    simp only [linkSlots, Slot.one, List.forall_mem_cons] at h
    obtain ⟨n, a, b⟩ := s
    obtain ⟨n', a', b'⟩ := s'
    simp_all [toList_inj]) buf k
  have : Link.deserialize buf = .ok k ↔ Spec.Fits k.wire ∧ tlvLoop Link.parseStep buf {} = .ok k := by
    unfold Link.deserialize
    rw [bind_eq_ok]
    constructor
    · rintro ⟨s, hs, h⟩
      obtain ⟨w, hw, h⟩ := bind_eq_ok.mp h
      cases Except.ok.inj h
      exact ⟨⟨w, hw⟩, hs⟩
    · rintro ⟨⟨w, hw⟩, hs⟩
      exact ⟨k, hs, by rw [hw]; rfl⟩
  rw [this, hl]
  simp only [linkSlots, Slot.one, List.forall_mem_cons, once_iff]
  simp [Spec.Only, Spec.Parsed]

/-! ## Content objects -/

def coSlots : List (Slot ContentObject) :=
  [.one T_NAME Name.parse ContentObject.name, .one T_PAYLDTYPE payloadTypeParse ContentObject.payloadType,
   .one T_PAYLOAD (octetParse T_PAYLOAD) ContentObject.payload, .one T_EXPIRY (timestampParse T_EXPIRY) ContentObject.expiryTime,
   .one T_FINAL_CHUNK_ID finalChunkIdParse ContentObject.finalChunkId]

theorem co_lawful : Lawful ContentObject.parseStep coSlots (fun _ => False) where
  ok := by
    intro s t s' h
    unfold ContentObject.parseStep at h
    slots_ok [coSlots, T_NAME, T_PAYLDTYPE, T_PAYLOAD, T_EXPIRY, T_FINAL_CHUNK_ID]
  run := by
    intro s t hk hq
    unfold ContentObject.parseStep
    slots_run [coSlots, T_NAME, T_PAYLDTYPE, T_PAYLOAD, T_EXPIRY, T_FINAL_CHUNK_ID]

theorem container_iff {α : Type} {tlv : α → Py Tlv} {step : α → Tlv → Py α} {ty : Nat} {e : PyErr} {s0 x : α} {t : Tlv} :
    (if t.type ≠ ty then .error e else tlvLoop step t.value s0 >>= fun s => construct tlv s) = .ok x ↔
    t.type = ty ∧ Spec.Fits (tlv x) ∧ tlvLoop step t.value s0 = .ok x := by
  by_cases h : t.type = ty
  · rw [if_neg (by simp [h])]
    constructor
    · intro hx
      obtain ⟨s, hs, hx⟩ := bind_eq_ok.mp hx
      obtain ⟨rfl, w, hw⟩ := construct_inv hx
      exact ⟨h, ⟨w, hw⟩, hs⟩
    · rintro ⟨_, ⟨w, hw⟩, hs⟩
      rw [hs]
      exact construct_ok hw
  · simp [h]

/-- C66: a content object. -/
theorem C66_content_object (t : Tlv) (c : ContentObject) : ContentObject.parse t = .ok c ↔
    t.type = T_OBJECT ∧ Spec.Fits c.tlv ∧
    ∃ l, Spec.Tiles t.value l ∧ Spec.Only l [T_NAME, T_PAYLDTYPE, T_PAYLOAD, T_EXPIRY, T_FINAL_CHUNK_ID] ∧
      Spec.Parsed l T_NAME Name.parse c.name.toList ∧
      Spec.Parsed l T_PAYLDTYPE payloadTypeParse c.payloadType.toList ∧
      Spec.Parsed l T_PAYLOAD (octetParse T_PAYLOAD) c.payload.toList ∧
      Spec.Parsed l T_EXPIRY (timestampParse T_EXPIRY) c.expiryTime.toList ∧
      Spec.Parsed l T_FINAL_CHUNK_ID finalChunkIdParse c.finalChunkId.toList := by
  have hl := co_lawful.loop (s0 := {}) (by simp [coSlots, Slot.one]) (by
    intro s s' h
    simp only [coSlots, Slot.one, List.forall_mem_cons] at h
    obtain ⟨n, a, b, c, d⟩ := s
    obtain ⟨n', a', b', c', d'⟩ := s'
    simp_all [toList_inj]) t.value c
  unfold ContentObject.parse
  rw [container_iff, hl]
  simp only [coSlots, Slot.one, List.forall_mem_cons, once_iff]
  simp [Spec.Only, Spec.Parsed]

/-! ## Name constructor definitions -/

def ncDefSlots : List (Slot NcDef) :=
  [.one T_NCID (intParse T_NCID) NcDef.ncId, ⟨NcSchema, .once, fun t => t.type != T_NCID, NcSchema.parse, fun s => s.schema.toList⟩]

theorem ncDef_lawful : Lawful NcDef.parseStep ncDefSlots (fun _ => False) where
  ok := by
    intro s t s' h
    unfold NcDef.parseStep at h
    slots_ok [ncDefSlots, T_NCID]
  run := by
    intro s t hk hq
    unfold NcDef.parseStep
    by_cases h : t.type = T_NCID
    · simp [ncDefSlots, Slot.one, SlotKind.ready, h] at hq
      obtain ⟨h0, a, ha⟩ := hq
      exact ⟨_, by rw [if_pos h]; exact once_run h0 ha⟩
    · simp [ncDefSlots, Slot.one, SlotKind.ready, h] at hq
      obtain ⟨h0, a, ha⟩ := hq
      exact ⟨_, by rw [if_neg h]; exact once_run h0 ha⟩

/-- C66: a name constructor definition: at most one id, and at most one other TLV, which is the schema. -/
theorem C66_nc_def (t : Tlv) (d : NcDef) : NcDef.parse t = .ok d ↔
    t.type = T_NCDEF ∧ Spec.Fits d.tlv ∧
    ∃ l, Spec.Tiles t.value l ∧ Spec.Parsed l T_NCID (intParse T_NCID) d.ncId.toList ∧
      (l.filter (fun t => t.type != T_NCID)).mapM NcSchema.parse = .ok d.schema.toList := by
  have hl := ncDef_lawful.loop (s0 := {}) (by simp [ncDefSlots, Slot.one]) (by
    intro s s' h
    simp only [ncDefSlots, Slot.one, List.forall_mem_cons] at h
    obtain ⟨n, a⟩ := s
    obtain ⟨n', a'⟩ := s'
    simp_all [toList_inj]) t.value d
  unfold NcDef.parse
  rw [container_iff, hl]
  simp only [ncDefSlots, Slot.one, List.forall_mem_cons, once_iff]
  simp [Spec.Parsed, Decidable.em]

/-! ## Nodes -/

def nodeDataSlots : List (Slot NodeData) :=
  [.one T_SUBTREE_SIZE (intParse T_SUBTREE_SIZE) NodeData.subtreeSize,
   .one T_SUBTREE_DIGEST (hashParse T_SUBTREE_DIGEST) NodeData.subtreeDigest,
   .one T_LOCATORS locatorsParse NodeData.locators, .list T_NCDEF NcDef.parse NodeData.ncDefs,
   .list T_ORG Vendor.parse NodeData.vendors]

theorem nodeData_lawful : Lawful NodeData.parseStep nodeDataSlots (fun _ => False) where
  ok := by
    intro s t s' h
    unfold NodeData.parseStep at h
    slots_ok [nodeDataSlots, T_SUBTREE_SIZE, T_SUBTREE_DIGEST, T_LOCATORS, T_NCDEF, T_ORG]
  run := by
    intro s t hk hq
    unfold NodeData.parseStep
    slots_run [nodeDataSlots, T_SUBTREE_SIZE, T_SUBTREE_DIGEST, T_LOCATORS, T_NCDEF, T_ORG]

/-- C66: node data: at most one size, digest and list of locators, any number of name constructors and vendor TLVs. -/
theorem C66_node_data (t : Tlv) (d : NodeData) : NodeData.parse t = .ok d ↔
    t.type = T_NODE_DATA ∧ Spec.Fits d.tlv ∧
    ∃ l, Spec.Tiles t.value l ∧ Spec.Only l [T_SUBTREE_SIZE, T_SUBTREE_DIGEST, T_LOCATORS, T_NCDEF, T_ORG] ∧
      Spec.Parsed l T_SUBTREE_SIZE (intParse T_SUBTREE_SIZE) d.subtreeSize.toList ∧
      Spec.Parsed l T_SUBTREE_DIGEST (hashParse T_SUBTREE_DIGEST) d.subtreeDigest.toList ∧
      Spec.Parsed l T_LOCATORS locatorsParse d.locators.toList ∧
      Spec.Parsed l T_NCDEF NcDef.parse d.ncDefs ∧
      Spec.Parsed l T_ORG Vendor.parse d.vendors := by
  have hl := nodeData_lawful.loop (s0 := {}) (by simp [nodeDataSlots, Slot.one, Slot.list]) (by
    intro s s' h
    simp only [nodeDataSlots, Slot.one, Slot.list, List.forall_mem_cons] at h
    obtain ⟨n, a, b, c, d⟩ := s
    obtain ⟨n', a', b', c', d'⟩ := s'
    simp_all [toList_inj]) t.value d
  unfold NodeData.parse
  rw [container_iff, hl]
  simp only [nodeDataSlots, Slot.one, Slot.list, List.forall_mem_cons, once_iff, many_iff]
  simp [Spec.Only, Spec.Parsed]

def nodeSlots : List (Slot NodeState) :=
  [.one T_NODE_DATA NodeData.parse NodeState.nodeData, .list T_HASH_GROUP HashGroup.parse NodeState.hashGroups]

theorem node_lawful : Lawful Node.parseStep nodeSlots (fun t => t.type = T_PAD) where
  ok := by
    intro s t s' h
    unfold Node.parseStep at h
    slots_ok [nodeSlots, T_NODE_DATA, T_HASH_GROUP, T_PAD]
  run := by
    intro s t hk hq
    unfold Node.parseStep
    slots_run [nodeSlots, T_NODE_DATA, T_HASH_GROUP, T_PAD]

/-- C66: a node: at most one node data, any number of hash groups, in order; padding is skipped. -/
theorem C66_node (t : Tlv) (n : Node) : Node.parse t = .ok n ↔
    t.type = T_NODE ∧ Spec.Fits n.tlv ∧ n.padLength = none ∧
    ∃ l, Spec.Tiles t.value l ∧ Spec.Only l [T_NODE_DATA, T_HASH_GROUP, T_PAD] ∧
      Spec.Parsed l T_NODE_DATA NodeData.parse n.nodeData.toList ∧
      Spec.Parsed l T_HASH_GROUP HashGroup.parse n.hashGroups := by
  have hl := node_lawful.loop (s0 := {}) (by simp [nodeSlots, Slot.one, Slot.list]) (by
    intro s s' h
    simp only [nodeSlots, Slot.one, Slot.list, List.forall_mem_cons] at h
    obtain ⟨a, b⟩ := s
    obtain ⟨a', b'⟩ := s'
    simp_all [toList_inj]) t.value ⟨n.nodeData, n.hashGroups⟩
  have : Node.parse t = .ok n ↔ t.type = T_NODE ∧ Spec.Fits n.tlv ∧ n.padLength = none ∧
      tlvLoop Node.parseStep t.value {} = .ok ⟨n.nodeData, n.hashGroups⟩ := by
    unfold Node.parse
    by_cases h : t.type = T_NODE
    · rw [if_neg (by simp [h])]
      constructor
      · intro hx
        obtain ⟨s, hs, hx⟩ := bind_eq_ok.mp hx
        obtain ⟨rfl, w, hw⟩ := construct_inv hx
        exact ⟨h, ⟨w, hw⟩, rfl, hs⟩
      · rintro ⟨_, ⟨w, hw⟩, hp, hs⟩
        rw [hs]
        obtain ⟨nd, hg, pad⟩ := n
        cases hp
        exact construct_ok hw
    · simp [h]
  rw [this, hl]
  simp only [nodeSlots, Slot.one, Slot.list, List.forall_mem_cons, once_iff, many_iff]
  simp [Spec.Only, Spec.Parsed, or_assoc]

/-! ## Manifests -/

/-- The node of a manifest, as given or encrypted. -/
def Spec.nodeOf (t : Tlv) : Py ManifestNode :=
  if t.type = T_NODE then (Node.parse t).map .plain else (octetParse T_ENCRYPTED_NODE t).map .encrypted

def manifestSlots : List (Slot ManifestState) :=
  [.one T_SECURITY_CTX SecurityCtx.parse ManifestState.securityCtx,
   ⟨ManifestNode, .once, fun t => t.type == T_NODE || t.type == T_ENCRYPTED_NODE, Spec.nodeOf, fun s => s.node.toList⟩,
   ⟨Bytes, .last, fun t => t.type == T_AUTH_TAG, octetParse T_AUTH_TAG, fun s => s.authTag.toList⟩]

theorem map_ok_inv {α β : Type} {f : α → β} {r : Py α} {b : β} (h : r.map f = .ok b) : ∃ a, r = .ok a := by
  cases r with
  | error e => cases h
  | ok a => exact ⟨a, rfl⟩

theorem manifest_lawful : Lawful Manifest.parseStep manifestSlots (fun _ => False) where
  ok := by
    intro s t s' h
    unfold Manifest.parseStep at h
    slots_ok [manifestSlots, Spec.nodeOf, Except.map, T_SECURITY_CTX, T_NODE, T_ENCRYPTED_NODE, T_AUTH_TAG]
  run := by
    intro s t hk hq
    unfold Manifest.parseStep
    simp [manifestSlots, Slot.one, SlotKind.ready, T_SECURITY_CTX, T_NODE, T_ENCRYPTED_NODE, T_AUTH_TAG] at hk hq
    rcases hk with hk | (hk | hk) | hk
    · simp [hk] at hq
      obtain ⟨h0, a, ha⟩ := hq
      exact ⟨_, by simp [hk, T_SECURITY_CTX]; exact once_run h0 ha⟩
    · simp [hk, Spec.nodeOf, T_NODE] at hq
      obtain ⟨h0, a, ha⟩ := hq
      obtain ⟨n, hn⟩ := map_ok_inv ha
      rw [if_neg (by rw [hk]; decide), if_pos (show t.type = T_NODE from hk)]
      exact ⟨_, once_run h0 hn⟩
    · simp [hk, Spec.nodeOf, T_NODE] at hq
      obtain ⟨h0, a, ha⟩ := hq
      obtain ⟨n, hn⟩ := map_ok_inv ha
      rw [if_neg (by rw [hk]; decide), if_neg (by rw [hk]; decide), if_pos (show t.type = T_ENCRYPTED_NODE from hk)]
      exact ⟨_, once_run h0 hn⟩
    · simp [hk] at hq
      obtain ⟨a, ha⟩ := hq
      exact ⟨_, by simp [hk, T_SECURITY_CTX, T_NODE, T_ENCRYPTED_NODE, T_AUTH_TAG]; exact put_run ha⟩

/-- C66: a manifest: at most one security context, exactly one node, plain or encrypted, and any number of authentication
tags, of which the last one counts. -/
theorem C66_manifest (buf : Bytes) (m : Manifest) : Manifest.deserialize buf = .ok m ↔
    Spec.Fits m.serialize ∧
    ∃ l, Spec.Tiles buf l ∧ Spec.Only l [T_SECURITY_CTX, T_NODE, T_ENCRYPTED_NODE, T_AUTH_TAG] ∧
      Spec.Parsed l T_SECURITY_CTX SecurityCtx.parse m.securityCtx.toList ∧
      (l.filter (fun t => t.type == T_NODE || t.type == T_ENCRYPTED_NODE)).mapM Spec.nodeOf = .ok [m.node] ∧
      ∃ tags, Spec.Parsed l T_AUTH_TAG (octetParse T_AUTH_TAG) tags ∧ tags.getLast? = m.authTag := by
  have hl := manifest_lawful.loop (s0 := {}) (by simp [manifestSlots, Slot.one, Slot.list]) (by
    intro s s' h
    simp only [manifestSlots, Slot.one, Slot.list, List.forall_mem_cons] at h
    obtain ⟨a, b, c⟩ := s
    obtain ⟨a', b', c'⟩ := s'
    simp_all [toList_inj]) buf ⟨m.securityCtx, some m.node, m.authTag⟩
  have : Manifest.deserialize buf = .ok m ↔ Spec.Fits m.serialize ∧
      tlvLoop Manifest.parseStep buf {} = .ok ⟨m.securityCtx, some m.node, m.authTag⟩ := by
    unfold Manifest.deserialize
    constructor
    · intro hx
      obtain ⟨s, hs, hx⟩ := bind_eq_ok.mp hx
      cases hn : s.node with
      | none => rw [hn] at hx; cases hx
      | some n =>
        rw [hn] at hx
        obtain ⟨w, hw, hx⟩ := bind_eq_ok.mp hx
        cases Except.ok.inj hx
        exact ⟨⟨w, hw⟩, by rw [hs, ← hn]⟩
    · rintro ⟨⟨w, hw⟩, hs⟩
      rw [hs]
      show (Manifest.serialize m >>= fun _ => _) = _
      rw [hw]
      rfl
  rw [this, hl]
  simp only [manifestSlots, Slot.one, Slot.list, List.forall_mem_cons, once_iff, many_iff, last_iff]
  simp [Spec.Only, Spec.Parsed, or_assoc]

/-! ## Lists -/

theorem name_lawful : Lawful Name.parseStep
    [⟨NameComponent, .many, fun _ => true, fun t => construct NameComponent.tlv ⟨t.type, t.value, false⟩, id⟩] (fun _ => False) where
  ok := by
    intro s t s' h
    obtain ⟨a, ha, rfl⟩ := put_ok h
    simp [SlotKind.ready, SlotKind.after, ha]
  run := by
    intro s t hk hq
    simp [SlotKind.ready] at hq
    obtain ⟨a, ha⟩ := hq
    exact ⟨_, put_run ha⟩

theorem pointers_lawful : Lawful pointersStep [⟨HashValue, .many, fun _ => true, HashValue.parse, id⟩] (fun _ => False) where
  ok := by
    intro s t s' h
    obtain ⟨a, ha, rfl⟩ := put_ok h
    simp [SlotKind.ready, SlotKind.after, ha]
  run := by
    intro s t hk hq
    simp [SlotKind.ready] at hq
    obtain ⟨a, ha⟩ := hq
    exact ⟨_, put_run ha⟩

theorem locators_lawful : Lawful locatorsStep [⟨Link, .many, fun _ => true, locatorParse, id⟩] (fun _ => False) where
  ok := by
    intro s t s' h
    obtain ⟨a, ha, rfl⟩ := put_ok h
    simp [SlotKind.ready, SlotKind.after, ha]
  run := by
    intro s t hk hq
    simp [SlotKind.ready] at hq
    obtain ⟨a, ha⟩ := hq
    exact ⟨_, put_run ha⟩

theorem filter_all {α : Type} (l : List α) : l.filter (fun _ => true) = l := by
  rw [List.filter_eq_self]
  simp

theorem mapM_pure {α β : Type} {p : α → Py β} {f : α → β} (l : List α) (h : ∀ a ∈ l, p a = .ok (f a)) : l.mapM p = .ok (l.map f) := by
  induction l with
  | nil => rfl
  | cons a l ih =>
    rw [List.mapM_cons, h a (by simp), ok_bind, ih (fun x hx => h x (by simp [hx]))]
    rfl

/-- C66: pointers: every TLV is a hash value, whatever its type. -/
theorem C66_pointers (t : Tlv) (ps : List HashValue) : pointersParse t = .ok ps ↔
    t.type = T_PTRS ∧ Spec.Fits (pointersTlv ps) ∧
    ∃ l, Spec.Tiles t.value l ∧ ps = l.map (fun t => ⟨t.type, t.value⟩) := by
  have hl := pointers_lawful.loop (s0 := []) (by simp) (by simp) t.value ps
  unfold pointersParse
  rw [container_iff, hl]
  simp only [List.forall_mem_cons, many_iff]
  simp
  intro _ _
  refine exists_congr fun l => and_congr_right fun hv => ?_
  rw [filter_all, mapM_pure (f := fun t => (⟨t.type, t.value⟩ : HashValue)) l]
  · exact ⟨fun h => (Except.ok.inj h).symm, fun h => by rw [h]⟩
  · intro a ha
    exact construct_ok (mkTlv_of_valid (t := a) (hv.1 a ha))

/-- C66: locators: at least one link, each with a name. -/
theorem C66_locators (t : Tlv) (ls : List Link) : locatorsParse t = .ok ls ↔
    t.type = T_LOCATORS ∧ Spec.Fits (locatorsTlv ls) ∧
    ∃ l, Spec.Tiles t.value l ∧ l.mapM locatorParse = .ok ls := by
  have hl := locators_lawful.loop (s0 := []) (by simp) (by simp) t.value ls
  unfold locatorsParse
  rw [container_iff, hl]
  simp only [List.forall_mem_cons, many_iff, filter_all]
  simp

/-! ## `auto_parse` -/

def groupDataSlots : List (Slot GroupData) :=
  [.one T_SUBTREE_SIZE (intParse T_SUBTREE_SIZE) GroupData.subtreeSize,
   .one T_SUBTREE_DIGEST (hashParse T_SUBTREE_DIGEST) GroupData.subtreeDigest,
   .one T_LEAF_SIZE (intParse T_LEAF_SIZE) GroupData.leafSize,
   .one T_LEAF_DIGEST (hashParse T_LEAF_DIGEST) GroupData.leafDigest,
   .one T_NCID (intParse T_NCID) GroupData.ncId,
   .one T_START_SEGMENT_ID (intParse T_START_SEGMENT_ID) GroupData.startSegmentId]

set_option hygiene false in
/-- The other fields of `auto_parse` leave this one alone. -/
macro "auto_other" "[" ls:Lean.Parser.Tactic.simpLemma,* "]" : tactic => `(tactic| (
  intro g hg hne s t s' h
  simp only [List.mem_cons, List.not_mem_nil, or_false, $ls,*] at hg
  repeat' rcases hg with hg | hg
  all_goals first
    | exact absurd rfl hne
    | (obtain ⟨a, _, rfl⟩ := put_ok h; rfl)))

/-- Membership in a list of fields. -/
macro "auto_mem" f:ident : tactic => `(tactic| (
  unfold $f
  repeat first | exact List.Mem.head _ | apply List.Mem.tail))

/-- The fields of `auto_parse` as slots. -/
macro "auto_fields" f:ident q:ident : tactic => `(tactic| (
  simp only [$q:ident, List.forall_mem_cons, List.not_mem_nil, false_implies, implies_true, and_true]
  repeat' apply And.intro
  all_goals exact auto_field (by auto_mem $f) (fun _ _ => rfl) (by auto_other [$f:ident])))

theorem groupData_auto : AutoLaw GroupData.fields groupDataSlots where
  slot := by simp [GroupData.fields, groupDataSlots, autoField, Slot.one]
  field := by auto_fields GroupData.fields groupDataSlots
  distinct := by
    simp [GroupData.fields, autoField, T_SUBTREE_SIZE, T_SUBTREE_DIGEST, T_LEAF_SIZE, T_LEAF_DIGEST, T_NCID, T_START_SEGMENT_ID]

theorem autoParse_iff {σ : Type} {ty : Nat} {fields : List (AutoField σ)} {s0 s : σ} {t : Tlv} :
    autoParse ty fields s0 t = .ok s ↔ t.type = ty ∧ tlvLoop (autoStep fields) t.value s0 = .ok s := by
  unfold autoParse autoValueParse
  by_cases h : t.type = ty
  · simp [h]
  · simp [h]

theorem auto_container_iff {α : Type} {tlv : α → Py Tlv} {ty : Nat} {fields : List (AutoField α)} {s0 x : α} {t : Tlv} :
    (autoParse ty fields s0 t >>= fun s => construct tlv s) = .ok x ↔
    t.type = ty ∧ Spec.Fits (tlv x) ∧ tlvLoop (autoStep fields) t.value s0 = .ok x := by
  constructor
  · intro h
    obtain ⟨s, hs, h⟩ := bind_eq_ok.mp h
    obtain ⟨rfl, w, hw⟩ := construct_inv h
    obtain ⟨h1, h2⟩ := autoParse_iff.mp hs
    exact ⟨h1, ⟨w, hw⟩, h2⟩
  · rintro ⟨h1, ⟨w, hw⟩, h2⟩
    rw [autoParse_iff.mpr ⟨h1, h2⟩]
    exact construct_ok hw

/-- The types of the slots and the types of unknown TLVs together are all types. -/
theorem AutoLaw.all {σ : Type} {fields : List (AutoField σ)} {slots : List (Slot σ)} (A : AutoLaw fields slots) (t : Tlv) :
    (∃ q ∈ slots, q.mine t = true) ∨ ∀ f ∈ fields, f.type ≠ t.type := by
  by_cases h : ∃ f ∈ fields, f.type = t.type
  · obtain ⟨f, hf, ht⟩ := h
    obtain ⟨q, hq, hm⟩ := A.slot f hf
    exact .inl ⟨q, hq, by simp [hm, ht]⟩
  · exact .inr fun f hf ht => h ⟨f, hf, ht⟩

theorem AutoLaw.loop {σ : Type} {fields : List (AutoField σ)} {slots : List (Slot σ)} (A : AutoLaw fields slots)
    {s0 : σ} (h0 : ∀ q ∈ slots, q.get s0 = []) (ext : ∀ s s', (∀ q ∈ slots, q.get s = q.get s') → s = s') (buf : Bytes) (s : σ) :
    tlvLoop (autoStep fields) buf s0 = .ok s ↔ ∃ l, Spec.Tiles buf l ∧
      ∀ q ∈ slots, ∃ xs, (l.filter q.mine).mapM q.parse = .ok xs ∧ q.get s = q.kind.total xs ∧ q.kind.allowed xs := by
  rw [A.lawful.loop h0 ext]
  exact exists_congr fun l => and_congr_right fun _ => ⟨fun h => h.2, fun h => ⟨fun t _ => A.all t, h⟩⟩

/-- C66: group data: every known field at most once; unknown TLVs are skipped. -/
theorem C66_group_data (t : Tlv) (g : GroupData) : GroupData.parse t = .ok g ↔
    t.type = T_GROUP_DATA ∧ Spec.Fits g.tlv ∧
    ∃ l, Spec.Tiles t.value l ∧
      Spec.Parsed l T_SUBTREE_SIZE (intParse T_SUBTREE_SIZE) g.subtreeSize.toList ∧
      Spec.Parsed l T_SUBTREE_DIGEST (hashParse T_SUBTREE_DIGEST) g.subtreeDigest.toList ∧
      Spec.Parsed l T_LEAF_SIZE (intParse T_LEAF_SIZE) g.leafSize.toList ∧
      Spec.Parsed l T_LEAF_DIGEST (hashParse T_LEAF_DIGEST) g.leafDigest.toList ∧
      Spec.Parsed l T_NCID (intParse T_NCID) g.ncId.toList ∧
      Spec.Parsed l T_START_SEGMENT_ID (intParse T_START_SEGMENT_ID) g.startSegmentId.toList := by
  have hl := groupData_auto.loop (s0 := {}) (by simp [groupDataSlots, Slot.one]) (by
    intro s s' h
    simp only [groupDataSlots, Slot.one, List.forall_mem_cons] at h
    obtain ⟨a, b, c, d, e, f⟩ := s
    obtain ⟨a', b', c', d', e', f'⟩ := s'
    simp_all [toList_inj]) t.value g
  unfold GroupData.parse
  rw [auto_container_iff, hl]
  simp only [groupDataSlots, Slot.one, List.forall_mem_cons, once_iff]
  simp [Spec.Parsed]

def hashGroupSlots : List (Slot HashGroup) :=
  [.one T_GROUP_DATA GroupData.parse HashGroup.groupData, .one T_PTRS pointersParse HashGroup.pointers]

theorem hashGroup_auto : AutoLaw HashGroup.fields hashGroupSlots where
  slot := by simp [HashGroup.fields, hashGroupSlots, autoField, Slot.one]
  field := by auto_fields HashGroup.fields hashGroupSlots
  distinct := by simp [HashGroup.fields, autoField, T_GROUP_DATA, T_PTRS]

/-- C66: a hash group. -/
theorem C66_hash_group (t : Tlv) (g : HashGroup) : HashGroup.parse t = .ok g ↔
    t.type = T_HASH_GROUP ∧ Spec.Fits g.tlv ∧
    ∃ l, Spec.Tiles t.value l ∧
      Spec.Parsed l T_GROUP_DATA GroupData.parse g.groupData.toList ∧
      Spec.Parsed l T_PTRS pointersParse g.pointers.toList := by
  have hl := hashGroup_auto.loop (s0 := {}) (by simp [hashGroupSlots, Slot.one]) (by
    intro s s' h
    simp only [hashGroupSlots, Slot.one, List.forall_mem_cons] at h
    obtain ⟨a, b⟩ := s
    obtain ⟨a', b'⟩ := s'
    simp_all [toList_inj]) t.value g
  unfold HashGroup.parse
  rw [auto_container_iff, hl]
  simp only [hashGroupSlots, Slot.one, List.forall_mem_cons, once_iff]
  simp [Spec.Parsed]

/-! ## Security contexts -/

def kdfSlots : List (Slot KdfDataFields) :=
  [.one T_KDF_ALG (intParse T_KDF_ALG) KdfDataFields.kdfAlg, .one T_KDF_INFO (octetParse T_KDF_INFO) KdfDataFields.kdfInfo]

theorem kdf_auto : AutoLaw KdfData.fields kdfSlots where
  slot := by simp [KdfData.fields, kdfSlots, autoField, Slot.one]
  field := by auto_fields KdfData.fields kdfSlots
  distinct := by simp [KdfData.fields, autoField, T_KDF_ALG, T_KDF_INFO]

/-- C66: key derivation data: exactly one algorithm. -/
theorem C66_kdf_data (t : Tlv) (d : KdfData) : KdfData.parse t = .ok d ↔
    t.type = T_KDF_DATA ∧ Spec.Fits d.tlv ∧
    ∃ l, Spec.Tiles t.value l ∧ Spec.Parsed l T_KDF_ALG (intParse T_KDF_ALG) [d.kdfAlg] ∧
      Spec.Parsed l T_KDF_INFO (octetParse T_KDF_INFO) d.kdfInfo.toList := by
  have hl := kdf_auto.loop (s0 := {}) (by simp [kdfSlots, Slot.one]) (by
    intro s s' h
    simp only [kdfSlots, Slot.one, List.forall_mem_cons] at h
    obtain ⟨a, b⟩ := s
    obtain ⟨a', b'⟩ := s'
    simp_all [toList_inj]) t.value ⟨some d.kdfAlg, d.kdfInfo⟩
  have : KdfData.parse t = .ok d ↔ t.type = T_KDF_DATA ∧ Spec.Fits d.tlv ∧
      tlvLoop (autoStep KdfData.fields) t.value {} = .ok ⟨some d.kdfAlg, d.kdfInfo⟩ := by
    unfold KdfData.parse
    constructor
    · intro hx
      obtain ⟨s, hs, hx⟩ := bind_eq_ok.mp hx
      obtain ⟨ht, hs⟩ := autoParse_iff.mp hs
      cases ha : s.kdfAlg with
      | none => rw [ha] at hx; cases hx
      | some a =>
        rw [ha] at hx
        obtain ⟨rfl, w, hw⟩ := construct_inv hx
        exact ⟨ht, ⟨w, hw⟩, by rw [hs, ← ha]⟩
    · rintro ⟨ht, ⟨w, hw⟩, hs⟩
      rw [autoParse_iff.mpr ⟨ht, hs⟩, ok_bind]
      exact construct_ok (tlv := KdfData.tlv) (x := d) hw
  rw [this, hl]
  simp only [kdfSlots, Slot.one, List.forall_mem_cons, once_iff]
  simp [Spec.Parsed]

def aeadSlots : List (Slot AeadDataFields) :=
  [.one T_KEYNUM (intParse T_KEYNUM) AeadDataFields.keyNumber, .one T_NONCE (octetParse T_NONCE) AeadDataFields.nonce,
   .one T_AEADMode (intParse T_AEADMode) AeadDataFields.mode, .one T_KDF_DATA KdfData.parse AeadDataFields.kdfData]

theorem aead_auto : AutoLaw AeadData.fields aeadSlots where
  slot := by simp [AeadData.fields, aeadSlots, autoField, Slot.one]
  field := by auto_fields AeadData.fields aeadSlots
  distinct := by simp [AeadData.fields, autoField, T_KEYNUM, T_NONCE, T_AEADMode, T_KDF_DATA]

/-- C66: the key number, nonce and mode of an encrypted node: exactly one number and nonce; the mode may be missing. -/
theorem C66_aead_data (value : Bytes) (d : AeadData) : AeadData.parse value = .ok d ↔
    (∃ m, d.members = .ok m ∧ Spec.Fits (concatTlvs m)) ∧
    ∃ l, Spec.Tiles value l ∧ Spec.Parsed l T_KEYNUM (intParse T_KEYNUM) [d.keyNumber] ∧
      Spec.Parsed l T_NONCE (octetParse T_NONCE) [d.nonce] ∧
      Spec.Parsed l T_AEADMode (intParse T_AEADMode) d.mode.toList ∧
      Spec.Parsed l T_KDF_DATA KdfData.parse d.kdfData.toList := by
  have hl := aead_auto.loop (s0 := {}) (by simp [aeadSlots, Slot.one]) (by
    intro s s' h
    simp only [aeadSlots, Slot.one, List.forall_mem_cons] at h
    obtain ⟨a, b, c, d⟩ := s
    obtain ⟨a', b', c', d'⟩ := s'
    simp_all [toList_inj]) value ⟨some d.keyNumber, some d.nonce, d.mode, d.kdfData⟩
  have : AeadData.parse value = .ok d ↔ (∃ m, d.members = .ok m ∧ Spec.Fits (concatTlvs m)) ∧
      tlvLoop (autoStep AeadData.fields) value {} = .ok ⟨some d.keyNumber, some d.nonce, d.mode, d.kdfData⟩ := by
    unfold AeadData.parse autoValueParse
    constructor
    · intro hx
      obtain ⟨s, hs, hx⟩ := bind_eq_ok.mp hx
      cases ha : s.keyNumber with
      | none => rw [ha] at hx; cases hx
      | some a =>
        cases hn : s.nonce with
        | none => rw [ha, hn] at hx; cases hx
        | some n =>
          rw [ha, hn] at hx
          obtain ⟨m, hm, hx⟩ := bind_eq_ok.mp hx
          obtain ⟨w, hw, hx⟩ := bind_eq_ok.mp hx
          cases Except.ok.inj hx
          exact ⟨⟨m, hm, w, hw⟩, by rw [hs, ← ha, ← hn]⟩
    · rintro ⟨⟨m, hm, w, hw⟩, hs⟩
      rw [hs, ok_bind]
      have hm' : AeadData.members ⟨d.keyNumber, d.nonce, d.mode, d.kdfData⟩ = .ok m := hm
      dsimp only
      rw [hm', ok_bind, hw, ok_bind]
      rfl
  rw [this, hl]
  simp only [aeadSlots, Slot.one, List.forall_mem_cons, once_iff]
  simp [Spec.Parsed]

def wrapperSlots : List (Slot RsaOaepWrapperFields) :=
  [.one T_KEYID (hashParse T_KEYID) RsaOaepWrapperFields.keyId, .one T_KEYLINK KeyLink.parse RsaOaepWrapperFields.keyLink,
   .one T_HASH_ALG (intParse T_HASH_ALG) RsaOaepWrapperFields.hashAlg,
   .one T_WRAPPED_KEY (octetParse T_WRAPPED_KEY) RsaOaepWrapperFields.wrappedKey]

theorem wrapper_auto : AutoLaw RsaOaepWrapper.fields wrapperSlots where
  slot := by simp [RsaOaepWrapper.fields, wrapperSlots, autoField, Slot.one]
  field := by auto_fields RsaOaepWrapper.fields wrapperSlots
  distinct := by simp [RsaOaepWrapper.fields, autoField, T_KEYID, T_KEYLINK, T_HASH_ALG, T_WRAPPED_KEY]

/-- C66: a wrapped key: exactly one key id. -/
theorem C66_wrapped_key (value : Bytes) (w : RsaOaepWrapper) : RsaOaepWrapper.parse value = .ok (some w) ↔
    (∃ m, w.members = .ok m ∧ Spec.Fits (concatTlvs m)) ∧
    ∃ l, Spec.Tiles value l ∧ Spec.Parsed l T_KEYID (hashParse T_KEYID) [w.keyId] ∧
      Spec.Parsed l T_KEYLINK KeyLink.parse w.keyLink.toList ∧
      Spec.Parsed l T_HASH_ALG (intParse T_HASH_ALG) w.hashAlg.toList ∧
      Spec.Parsed l T_WRAPPED_KEY (octetParse T_WRAPPED_KEY) w.wrappedKey.toList := by
  have hl := wrapper_auto.loop (s0 := {}) (by simp [wrapperSlots, Slot.one]) (by
    intro s s' h
    simp only [wrapperSlots, Slot.one, List.forall_mem_cons] at h
    obtain ⟨a, b, c, d⟩ := s
    obtain ⟨a', b', c', d'⟩ := s'
    simp_all [toList_inj]) value ⟨some w.keyId, w.keyLink, w.hashAlg, w.wrappedKey⟩
  have : RsaOaepWrapper.parse value = .ok (some w) ↔ (∃ m, w.members = .ok m ∧ Spec.Fits (concatTlvs m)) ∧
      tlvLoop (autoStep RsaOaepWrapper.fields) value {} = .ok ⟨some w.keyId, w.keyLink, w.hashAlg, w.wrappedKey⟩ := by
    unfold RsaOaepWrapper.parse autoValueParse
    constructor
    · intro hx
      obtain ⟨s, hs, hx⟩ := bind_eq_ok.mp hx
      cases ha : s.keyId with
      | none =>
        rw [ha] at hx
        dsimp only at hx
        split at hx <;> cases hx
      | some a =>
        rw [ha] at hx
        obtain ⟨m, hm, hx⟩ := bind_eq_ok.mp hx
        obtain ⟨b, hb, hx⟩ := bind_eq_ok.mp hx
        cases Except.ok.inj hx
        exact ⟨⟨m, hm, b, hb⟩, by rw [hs, ← ha]⟩
    · rintro ⟨⟨m, hm, b, hb⟩, hs⟩
      rw [hs, ok_bind]
      have hm' : RsaOaepWrapper.members ⟨w.keyId, w.keyLink, w.hashAlg, w.wrappedKey⟩ = .ok m := hm
      dsimp only
      rw [hm', ok_bind, hb, ok_bind]
      rfl
  rw [this, hl]
  simp only [wrapperSlots, Slot.one, List.forall_mem_cons, once_iff]
  simp [Spec.Parsed]

theorem mapM_nil_iff {α β : Type} {p : α → Py β} {l : List α} : l.mapM p = .ok [] ↔ l = [] := by
  cases l with
  | nil => exact ⟨fun _ => rfl, fun _ => rfl⟩
  | cons a l =>
    refine ⟨fun h => ?_, fun h => by cases h⟩
    rw [List.mapM_cons] at h
    obtain ⟨b, _, h⟩ := bind_eq_ok.mp h
    obtain ⟨bs, _, h⟩ := bind_eq_ok.mp h
    cases h

/-- C66: the wrapped key is missing exactly when none of its four fields is there. -/
theorem C66_no_wrapped_key (value : Bytes) : RsaOaepWrapper.parse value = .ok none ↔
    ∃ l, Spec.Tiles value l ∧ ∀ t ∈ l, t.type ∉ [T_KEYID, T_KEYLINK, T_HASH_ALG, T_WRAPPED_KEY] := by
  have hl := wrapper_auto.loop (s0 := {}) (by simp [wrapperSlots, Slot.one]) (by
    intro s s' h
    simp only [wrapperSlots, Slot.one, List.forall_mem_cons] at h
    obtain ⟨a, b, c, d⟩ := s
    obtain ⟨a', b', c', d'⟩ := s'
    simp_all [toList_inj]) value {}
  have : RsaOaepWrapper.parse value = .ok none ↔ tlvLoop (autoStep RsaOaepWrapper.fields) value {} = .ok {} := by
    unfold RsaOaepWrapper.parse autoValueParse
    constructor
    · intro hx
      obtain ⟨s, hs, hx⟩ := bind_eq_ok.mp hx
      cases ha : s.keyId with
      | none =>
        rw [ha] at hx
        dsimp only at hx
        split at hx
        · rename_i hc
          rw [hs]
          obtain ⟨a, b, c, d⟩ := s
          simp_all
        · cases hx
      | some a =>
        rw [ha] at hx
        obtain ⟨m, hm, hx⟩ := bind_eq_ok.mp hx
        obtain ⟨b, hb, hx⟩ := bind_eq_ok.mp hx
        cases hx
    · intro hs
      rw [hs]
      rfl
  rw [this, hl]
  refine exists_congr fun l => and_congr_right fun _ => ?_
  simp only [wrapperSlots, Slot.one, List.forall_mem_cons, once_iff]
  simp only [Option.toList_none, mapM_nil_iff, List.filter_eq_nil_iff]
  constructor
  · rintro ⟨h1, h2, h3, h4, _⟩ t ht
    simp only [beq_iff_eq] at h1 h2 h3 h4
    simp [h1 t ht, h2 t ht, h3 t ht, h4 t ht]
  · intro h
    simp only [List.mem_cons, not_or] at h
    refine ⟨?_, ?_, ?_, ?_, by simp⟩ <;> intro t ht <;> simp [h t ht]

/-- C66: a security context: one TLV says which kind it is; bytes after it are ignored. -/
theorem C66_security_context (t : Tlv) (c : SecurityCtx) : SecurityCtx.parse t = .ok c ↔
    t.type = T_SECURITY_CTX ∧ Spec.Fits c.tlv ∧
    ∃ (inner : Tlv) (rest : Bytes), inner.type ≤ 0xFFFF ∧ inner.value.length ≤ 0xFFFF ∧
      t.value = be16 inner.type ++ be16 inner.value.length ++ inner.value ++ rest ∧
      ((inner.type = T_AEAD_CTX ∧ ∃ d, AeadData.parse inner.value = .ok d ∧ c = .aead d) ∨
       (inner.type = T_RSAOAEP_CTX ∧ ∃ d w, AeadData.parse inner.value = .ok d ∧ RsaOaepWrapper.parse inner.value = .ok w ∧
          c = .rsaOaep d w)) := by
  unfold SecurityCtx.parse
  by_cases ht : t.type = T_SECURITY_CTX
  · rw [if_neg (by simp [ht])]
    constructor
    · intro h
      obtain ⟨inner, hi, h⟩ := bind_eq_ok.mp h
      obtain ⟨hv, hb⟩ := Tlv.deserialize_inv hi
      split at h
      · rename_i hty
        obtain ⟨d, hd, h⟩ := bind_eq_ok.mp h
        obtain ⟨rfl, w, hw⟩ := construct_inv h
        exact ⟨ht, ⟨w, hw⟩, inner, t.value.drop inner.len, hv.1, hv.2, hb, .inl ⟨hty, d, hd, rfl⟩⟩
      · split at h
        · rename_i hty
          obtain ⟨d, hd, h⟩ := bind_eq_ok.mp h
          obtain ⟨k, hk, h⟩ := bind_eq_ok.mp h
          obtain ⟨rfl, w, hw⟩ := construct_inv h
          exact ⟨ht, ⟨w, hw⟩, inner, t.value.drop inner.len, hv.1, hv.2, hb, .inr ⟨hty, d, k, hd, hk, rfl⟩⟩
        · cases h
    · rintro ⟨_, ⟨w, hw⟩, inner, rest, h1, h2, hb, h⟩
      have : Tlv.deserialize t.value = .ok inner := by
        rw [hb]
        exact Tlv.deserialize_bytes inner ⟨h1, h2⟩ rest
      rw [this, ok_bind]
      rcases h with ⟨hty, d, hd, rfl⟩ | ⟨hty, d, k, hd, hk, rfl⟩
      · rw [if_pos hty, hd, ok_bind]
        exact construct_ok hw
      · rw [if_neg (by rw [hty]; decide), if_pos hty, hd, ok_bind, hk, ok_bind]
        exact construct_ok hw
  · simp [ht]

/-! ## Name constructor schemas -/

theorem AutoLaw.loop_ex {σ : Type} {fields : List (AutoField σ)} {slots : List (Slot σ)} (A : AutoLaw fields slots)
    {s0 : σ} (h0 : ∀ q ∈ slots, q.get s0 = []) (buf : Bytes) (s : σ) :
    (∃ s', tlvLoop (autoStep fields) buf s0 = .ok s' ∧ ∀ q ∈ slots, q.get s = q.get s') ↔ ∃ l, Spec.Tiles buf l ∧
      ∀ q ∈ slots, ∃ xs, (l.filter q.mine).mapM q.parse = .ok xs ∧ q.get s = q.kind.total xs ∧ q.kind.allowed xs := by
  constructor
  · rintro ⟨s', h, hg⟩
    obtain ⟨l, hl, hb, hf⟩ := tlvLoop_inv _ buf s0 s' h
    refine ⟨l, ⟨hl, hb.trans (bytesAll_tiles l)⟩, fun q hq => ?_⟩
    obtain ⟨xs, hx, hgx, ha⟩ := (A.lawful.sound h0 l s' hf).2 q hq
    exact ⟨xs, hx, (hg q hq).trans hgx, ha⟩
  · rintro ⟨l, ⟨hl, hb⟩, hq⟩
    obtain ⟨s', hs'⟩ := A.lawful.complete h0 l (fun t _ => A.all t) (fun q hqm => by
      obtain ⟨xs, hx, _, ha⟩ := hq q hqm
      exact ⟨xs, hx, ha⟩)
    refine ⟨s', ?_, ?_⟩
    · rw [hb, ← bytesAll_tiles, tlvLoop_bytesAll _ l hl]
      exact hs'
    · intro q hqm
      obtain ⟨xs, hx, hg, _⟩ := hq q hqm
      obtain ⟨xs', hx', hg', _⟩ := (A.lawful.sound h0 l s' hs').2 q hqm
      cases Except.ok.inj (hx.symm.trans hx')
      rw [hg, hg']

def segmentedFields : List (AutoField NcSchemaFields) := [ncNameField, ncSuffixField, ncLocatorsField, ncFlagsField]
def prefixFields : List (AutoField NcSchemaFields) := [ncNameField, ncLocatorsField, ncFlagsField]
def hashFields : List (AutoField NcSchemaFields) := [ncLocatorsField, ncFlagsField]

def ncName : Slot NcSchemaFields := .one T_NAME Name.parse NcSchemaFields.name
def ncSuffix : Slot NcSchemaFields := .one T_SUFFIX_TYPE suffixParse NcSchemaFields.suffixType
def ncLocators : Slot NcSchemaFields := .one T_LOCATORS locatorsParse NcSchemaFields.locators
def ncFlags : Slot NcSchemaFields := .one T_PROTOCOL_FLAGS (octetParse T_PROTOCOL_FLAGS) NcSchemaFields.flags

theorem segmented_auto : AutoLaw segmentedFields [ncName, ncSuffix, ncLocators, ncFlags] where
  slot := by
    simp [segmentedFields, ncNameField, ncSuffixField, ncLocatorsField, ncFlagsField, ncName, ncSuffix, ncLocators, ncFlags, autoField,
      Slot.one]
  field := by
    simp only [List.forall_mem_cons, List.not_mem_nil, false_implies, implies_true, and_true]
    repeat' apply And.intro
    all_goals exact auto_field (by auto_mem segmentedFields) (fun _ _ => rfl) (by auto_other [segmentedFields, ncNameField, ncSuffixField, ncLocatorsField, ncFlagsField])
  distinct := by
    simp [segmentedFields, ncNameField, ncSuffixField, ncLocatorsField, ncFlagsField, autoField, T_NAME, T_SUFFIX_TYPE, T_LOCATORS,
      T_PROTOCOL_FLAGS]

theorem prefix_auto : AutoLaw prefixFields [ncName, ncLocators, ncFlags] where
  slot := by
    simp [prefixFields, ncNameField, ncLocatorsField, ncFlagsField, ncName, ncLocators, ncFlags, autoField, Slot.one]
  field := by
    simp only [List.forall_mem_cons, List.not_mem_nil, false_implies, implies_true, and_true]
    repeat' apply And.intro
    all_goals exact auto_field (by auto_mem prefixFields) (fun _ _ => rfl) (by auto_other [prefixFields, ncNameField, ncSuffixField, ncLocatorsField, ncFlagsField])
  distinct := by
    simp [prefixFields, ncNameField, ncLocatorsField, ncFlagsField, autoField, T_NAME, T_LOCATORS, T_PROTOCOL_FLAGS]

theorem hash_auto : AutoLaw hashFields [ncLocators, ncFlags] where
  slot := by
    simp [hashFields, ncLocatorsField, ncFlagsField, ncLocators, ncFlags, autoField, Slot.one]
  field := by
    simp only [List.forall_mem_cons, List.not_mem_nil, false_implies, implies_true, and_true]
    repeat' apply And.intro
    all_goals exact auto_field (by auto_mem hashFields) (fun _ _ => rfl) (by auto_other [hashFields, ncNameField, ncSuffixField, ncLocatorsField, ncFlagsField])
  distinct := by
    simp [hashFields, ncLocatorsField, ncFlagsField, autoField, T_LOCATORS, T_PROTOCOL_FLAGS]

/-- The TLVs of a schema: at most one name, suffix type and list of locators, and no protocol flags. -/
def Spec.SchemaTlvs (l : List Tlv) (locators : Option (List Link)) : Prop :=
  Spec.Parsed l T_LOCATORS locatorsParse locators.toList ∧ ∀ t ∈ l, t.type ≠ T_PROTOCOL_FLAGS

theorem schema_flags {c : NcSchema} (h : Spec.Fits c.tlv) :
    match c with | .hash _ f => f = none | .prefixed _ _ f => f = none | .segmented _ _ _ f => f = none := by
  obtain ⟨w, hw⟩ := h
  cases c with
  | hash a f =>
    cases f with
    | none => rfl
    | some f => 
      obtain ⟨_, _, hw⟩ := bind_eq_ok.mp hw
      cases hw
  | prefixed n a f =>
    cases f with
    | none => rfl
    | some f =>
      obtain ⟨_, _, hw⟩ := bind_eq_ok.mp hw
      obtain ⟨_, _, hw⟩ := bind_eq_ok.mp hw
      cases hw
  | segmented n s a f =>
    cases f with
    | none => rfl
    | some f =>
      obtain ⟨_, _, hw⟩ := bind_eq_ok.mp hw
      obtain ⟨_, _, hw⟩ := bind_eq_ok.mp hw
      obtain ⟨_, _, hw⟩ := bind_eq_ok.mp hw
      cases hw

theorem parsePrefix_iff (t : Tlv) (c : NcSchema) : NcSchema.parsePrefix t = .ok c ↔
    t.type = T_PrefixSchema ∧ Spec.Fits c.tlv ∧ ∃ l, Spec.Tiles t.value l ∧
      ∃ name locators, c = .prefixed name locators none ∧ Spec.Parsed l T_NAME Name.parse name.toList ∧ Spec.SchemaTlvs l locators := by
  constructor
  · intro h
    obtain ⟨v, hv, h⟩ := bind_eq_ok.mp h
    obtain ⟨rfl, w, hw⟩ := construct_inv h
    obtain ⟨ht, hv⟩ := autoParse_iff.mp hv
    have hf : v.flags = none := schema_flags ⟨w, hw⟩
    obtain ⟨l, hl, hq⟩ := (prefix_auto.loop_ex (s0 := {}) (by simp [ncName, ncLocators, ncFlags, Slot.one]) t.value v).mp
      ⟨v, hv, fun _ _ => rfl⟩
    simp only [List.forall_mem_cons, ncName, ncLocators, ncFlags, Slot.one, once_iff] at hq
    obtain ⟨h1, h2, h3, _⟩ := hq
    rw [hf, Option.toList_none, mapM_nil_iff, List.filter_eq_nil_iff] at h3
    exact ⟨ht, ⟨w, hw⟩, l, hl, v.name, v.locators, by rw [hf], h1, h2, by simpa using h3⟩
  · rintro ⟨ht, ⟨w, hw⟩, l, hl, name, locators, rfl, h1, h2, h3⟩
    obtain ⟨v, hv, hg⟩ := (prefix_auto.loop_ex (s0 := {}) (by simp [ncName, ncLocators, ncFlags, Slot.one]) t.value
      ⟨name, none, locators, none⟩).mpr ⟨l, hl, by
        simp only [List.forall_mem_cons, ncName, ncLocators, ncFlags, Slot.one, once_iff]
        refine ⟨h1, h2, ?_, by simp⟩
        rw [Option.toList_none, mapM_nil_iff, List.filter_eq_nil_iff]
        simpa using h3⟩
    simp only [List.forall_mem_cons, ncName, ncLocators, ncFlags, Slot.one, toList_inj] at hg
    show (autoParse T_PrefixSchema prefixFields {} t >>= _) = _
    rw [autoParse_iff.mpr ⟨ht, hv⟩, ok_bind, ← hg.1, ← hg.2.1, ← hg.2.2.1]
    exact construct_ok hw

theorem parseSegmented_iff (t : Tlv) (c : NcSchema) : NcSchema.parseSegmented t = .ok c ↔
    t.type = T_SegmentedSchema ∧ Spec.Fits c.tlv ∧ ∃ l, Spec.Tiles t.value l ∧
      ∃ name suffix locators, c = .segmented name suffix locators none ∧ Spec.Parsed l T_NAME Name.parse name.toList ∧
        Spec.Parsed l T_SUFFIX_TYPE suffixParse suffix.toList ∧ Spec.SchemaTlvs l locators := by
  constructor
  · intro h
    obtain ⟨v, hv, h⟩ := bind_eq_ok.mp h
    obtain ⟨rfl, w, hw⟩ := construct_inv h
    obtain ⟨ht, hv⟩ := autoParse_iff.mp hv
    have hf : v.flags = none := schema_flags ⟨w, hw⟩
    obtain ⟨l, hl, hq⟩ := (segmented_auto.loop_ex (s0 := {}) (by simp [ncName, ncSuffix, ncLocators, ncFlags, Slot.one]) t.value v).mp
      ⟨v, hv, fun _ _ => rfl⟩
    simp only [List.forall_mem_cons, ncName, ncSuffix, ncLocators, ncFlags, Slot.one, once_iff] at hq
    obtain ⟨h1, h0, h2, h3, _⟩ := hq
    rw [hf, Option.toList_none, mapM_nil_iff, List.filter_eq_nil_iff] at h3
    exact ⟨ht, ⟨w, hw⟩, l, hl, v.name, v.suffixType, v.locators, by rw [hf], h1, h0, h2, by simpa using h3⟩
  · rintro ⟨ht, ⟨w, hw⟩, l, hl, name, suffix, locators, rfl, h1, h0, h2, h3⟩
    obtain ⟨v, hv, hg⟩ := (segmented_auto.loop_ex (s0 := {}) (by simp [ncName, ncSuffix, ncLocators, ncFlags, Slot.one]) t.value
      ⟨name, suffix, locators, none⟩).mpr ⟨l, hl, by
        simp only [List.forall_mem_cons, ncName, ncSuffix, ncLocators, ncFlags, Slot.one, once_iff]
        refine ⟨h1, h0, h2, ?_, by simp⟩
        rw [Option.toList_none, mapM_nil_iff, List.filter_eq_nil_iff]
        simpa using h3⟩
    simp only [List.forall_mem_cons, ncName, ncSuffix, ncLocators, ncFlags, Slot.one, toList_inj] at hg
    show (autoParse T_SegmentedSchema segmentedFields {} t >>= _) = _
    rw [autoParse_iff.mpr ⟨ht, hv⟩, ok_bind, ← hg.1, ← hg.2.1, ← hg.2.2.1, ← hg.2.2.2.1]
    exact construct_ok hw

theorem parseHash_iff (t : Tlv) (c : NcSchema) : NcSchema.parseHash t = .ok c ↔
    t.type = T_HashSchema ∧ Spec.Fits c.tlv ∧ ∃ l, Spec.Tiles t.value l ∧
      ∃ locators, c = .hash locators none ∧ Spec.SchemaTlvs l locators := by
  constructor
  · intro h
    obtain ⟨v, hv, h⟩ := bind_eq_ok.mp h
    obtain ⟨rfl, w, hw⟩ := construct_inv h
    obtain ⟨ht, hv⟩ := autoParse_iff.mp hv
    have hf : v.flags = none := schema_flags ⟨w, hw⟩
    obtain ⟨l, hl, hq⟩ := (hash_auto.loop_ex (s0 := {}) (by simp [ncLocators, ncFlags, Slot.one]) t.value v).mp
      ⟨v, hv, fun _ _ => rfl⟩
    simp only [List.forall_mem_cons, ncLocators, ncFlags, Slot.one, once_iff] at hq
    obtain ⟨h2, h3, _⟩ := hq
    rw [hf, Option.toList_none, mapM_nil_iff, List.filter_eq_nil_iff] at h3
    exact ⟨ht, ⟨w, hw⟩, l, hl, v.locators, by rw [hf], h2, by simpa using h3⟩
  · rintro ⟨ht, ⟨w, hw⟩, l, hl, locators, rfl, h2, h3⟩
    obtain ⟨v, hv, hg⟩ := (hash_auto.loop_ex (s0 := {}) (by simp [ncLocators, ncFlags, Slot.one]) t.value
      ⟨none, none, locators, none⟩).mpr ⟨l, hl, by
        simp only [List.forall_mem_cons, ncLocators, ncFlags, Slot.one, once_iff]
        refine ⟨h2, ?_, by simp⟩
        rw [Option.toList_none, mapM_nil_iff, List.filter_eq_nil_iff]
        simpa using h3⟩
    simp only [List.forall_mem_cons, ncLocators, ncFlags, Slot.one, toList_inj] at hg
    show (autoParse T_HashSchema hashFields {} t >>= _) = _
    rw [autoParse_iff.mpr ⟨ht, hv⟩, ok_bind, ← hg.1, ← hg.2.1]
    exact construct_ok hw

theorem autoParse_other {σ : Type} {ty : Nat} {fields : List (AutoField σ)} {s0 : σ} {t : Tlv} (h : t.type ≠ ty) :
    autoParse ty fields s0 t = .error .cannotParseError := by
  unfold autoParse
  rw [if_pos h]

theorem schema_parse_iff (t : Tlv) (c : NcSchema) : NcSchema.parse t = .ok c ↔
    NcSchema.parsePrefix t = .ok c ∨ NcSchema.parseSegmented t = .ok c ∨ NcSchema.parseHash t = .ok c := by
  have hp : t.type ≠ T_PrefixSchema → NcSchema.parsePrefix t = .error .cannotParseError := by
    intro h; unfold NcSchema.parsePrefix; rw [autoParse_other h]; rfl
  have hs : t.type ≠ T_SegmentedSchema → NcSchema.parseSegmented t = .error .cannotParseError := by
    intro h; unfold NcSchema.parseSegmented; rw [autoParse_other h]; rfl
  have hh : t.type ≠ T_HashSchema → NcSchema.parseHash t = .error .cannotParseError := by
    intro h; unfold NcSchema.parseHash; rw [autoParse_other h]; rfl
  unfold NcSchema.parse
  have orE : ∀ {a b : Py NcSchema}, orElseCannotParse a b = .ok c → a = .ok c ∨ b = .ok c := by
    intro a b h
    unfold orElseCannotParse at h
    split at h
    · exact .inr h
    · exact .inl h
  constructor
  · intro h
    rcases orE h with h | h
    · exact .inl h
    · rcases orE h with h | h
      · exact .inr (.inl h)
      · rcases orE h with h | h
        · exact .inr (.inr h)
        · cases h
  · rintro (h | h | h)
    · rw [h]; rfl
    · have ht := ((parseSegmented_iff t c).mp h).1
      rw [hp (by rw [ht]; decide), h]; rfl
    · have ht := ((parseHash_iff t c).mp h).1
      rw [hp (by rw [ht]; decide), hs (by rw [ht]; decide), h]; rfl

/-- C66: a name constructor schema: its type says which of the three kinds it is; its fields occur at most once, unknown
TLVs are skipped, and no schema with protocol flags is accepted. -/
theorem C66_schema (t : Tlv) (c : NcSchema) : NcSchema.parse t = .ok c ↔
    Spec.Fits c.tlv ∧ ∃ l, Spec.Tiles t.value l ∧
      ((t.type = T_PrefixSchema ∧ ∃ name locators, c = .prefixed name locators none ∧
          Spec.Parsed l T_NAME Name.parse name.toList ∧ Spec.SchemaTlvs l locators) ∨
       (t.type = T_SegmentedSchema ∧ ∃ name suffix locators, c = .segmented name suffix locators none ∧
          Spec.Parsed l T_NAME Name.parse name.toList ∧ Spec.Parsed l T_SUFFIX_TYPE suffixParse suffix.toList ∧
          Spec.SchemaTlvs l locators) ∨
       (t.type = T_HashSchema ∧ ∃ locators, c = .hash locators none ∧ Spec.SchemaTlvs l locators)) := by
  rw [schema_parse_iff, parsePrefix_iff, parseSegmented_iff, parseHash_iff]
  constructor
  · rintro (⟨h1, h2, l, hl, h3⟩ | ⟨h1, h2, l, hl, h3⟩ | ⟨h1, h2, l, hl, h3⟩)
    · exact ⟨h2, l, hl, .inl ⟨h1, h3⟩⟩
    · exact ⟨h2, l, hl, .inr (.inl ⟨h1, h3⟩)⟩
    · exact ⟨h2, l, hl, .inr (.inr ⟨h1, h3⟩)⟩
  · rintro ⟨h2, l, hl, (⟨h1, h3⟩ | ⟨h1, h3⟩ | ⟨h1, h3⟩)⟩
    · exact .inl ⟨h1, h2, l, hl, h3⟩
    · exact .inr (.inl ⟨h1, h2, l, hl, h3⟩)
    · exact .inr (.inr ⟨h1, h2, l, hl, h3⟩)

/-! ## Names -/

/-- C66: a name: every TLV is a component, whatever its type; the components are byte strings. -/
theorem C66_name (t : Tlv) (n : Name) : Name.parse t = .ok n ↔
    t.type = T_NAME ∧ Spec.Fits n.tlv ∧
    ∃ l, Spec.Tiles t.value l ∧ n.components = l.map (fun t => ⟨t.type, t.value, false⟩) := by
  have hl := name_lawful.loop (s0 := []) (by simp) (by simp) t.value n.components
  have : Name.parse t = .ok n ↔ t.type = T_NAME ∧ Spec.Fits n.tlv ∧ tlvLoop Name.parseStep t.value [] = .ok n.components := by
    unfold Name.parse
    by_cases h : t.type = T_NAME
    · rw [if_neg (by simp [h])]
      constructor
      · intro hx
        obtain ⟨s, hs, hx⟩ := bind_eq_ok.mp hx
        obtain ⟨rfl, w, hw⟩ := construct_inv hx
        exact ⟨h, ⟨w, hw⟩, hs⟩
      · rintro ⟨_, ⟨w, hw⟩, hs⟩
        rw [hs]
        exact construct_ok hw
    · simp [h]
  rw [this, hl]
  simp only [List.forall_mem_cons, many_iff]
  simp
  intro _ _
  refine exists_congr fun l => and_congr_right fun hv => ?_
  rw [filter_all, mapM_pure (f := fun t => (⟨t.type, t.value, false⟩ : NameComponent)) l]
  · exact ⟨fun h => (Except.ok.inj h).symm, fun h => by rw [h]⟩
  · intro a ha
    exact construct_ok (mkTlv_of_valid (t := a) (hv.1 a ha))

/-! ## C67: validation sections -/

def rsaSlots : List (Slot (Option HashValue × Option F64)) :=
  [⟨HashValue, .last, fun t => t.type == T_KEYID, hashParse T_KEYID, fun s => s.1.toList⟩,
   ⟨F64, .last, fun t => t.type == T_SIGTIME, timestampParse T_SIGTIME, fun s => s.2.toList⟩]

theorem rsa_lawful : Lawful ValidationAlg.rsaStep rsaSlots (fun t => t.type ∉ [T_KEYID, T_SIGTIME, T_PUBLICKEY, T_KEYLINK]) where
  ok := by
    intro s t s' h
    unfold ValidationAlg.rsaStep at h
    slots_ok [rsaSlots, T_KEYID, T_SIGTIME, T_PUBLICKEY, T_KEYLINK]
  run := by
    intro s t hk hq
    unfold ValidationAlg.rsaStep
    by_cases h1 : t.type = T_KEYID
    · simp [rsaSlots, SlotKind.ready, h1, T_KEYID, T_SIGTIME] at hq
      obtain ⟨a, ha⟩ := hq
      exact ⟨_, by rw [if_pos h1]; exact put_run ha⟩
    · by_cases h2 : t.type = T_SIGTIME
      · simp [rsaSlots, SlotKind.ready, h2, T_KEYID, T_SIGTIME] at hq
        obtain ⟨a, ha⟩ := hq
        exact ⟨_, by rw [if_neg h1, if_pos h2]; exact put_run ha⟩
      · simp [rsaSlots, h1, h2] at hk
        exact ⟨s, by simp [h1, h2, hk]⟩

/-- C67: the RSA validation section needs a key id; of several key ids or signature times the last one counts; a public key or
key link is never accepted; other TLVs are skipped; a missing signature time is replaced by the time of parsing. -/
theorem C67_rsa (now : F64) (t : Tlv) (a : ValidationAlg) : ValidationAlg.rsaParse now t = .ok a ↔
    t.type = T_RSA_SHA256 ∧ Spec.Fits a.tlv ∧ ∃ l, Spec.Tiles t.value l ∧
      (∀ x ∈ l, x.type ≠ T_PUBLICKEY ∧ x.type ≠ T_KEYLINK) ∧
      ∃ keyids times keyid, Spec.Parsed l T_KEYID (hashParse T_KEYID) keyids ∧ keyids.getLast? = some keyid ∧
        Spec.Parsed l T_SIGTIME (timestampParse T_SIGTIME) times ∧
        a = .rsaSha256 keyid none (times.getLast?.getD now) := by
  have hl := fun s => rsa_lawful.loop (s0 := (none, none)) (by simp [rsaSlots]) (by
    intro s s' h
    simp only [rsaSlots, List.forall_mem_cons] at h
    obtain ⟨a, b⟩ := s
    obtain ⟨a', b'⟩ := s'
    simp_all [toList_inj]) t.value s
  have hknown : ∀ x : Tlv, ((∃ q ∈ rsaSlots, q.mine x = true) ∨ x.type ∉ [T_KEYID, T_SIGTIME, T_PUBLICKEY, T_KEYLINK]) ↔
      (x.type ≠ T_PUBLICKEY ∧ x.type ≠ T_KEYLINK) := by
    intro x
    simp [rsaSlots, T_KEYID, T_SIGTIME, T_PUBLICKEY, T_KEYLINK]
    omega
  simp only [hknown] at hl
  simp only [rsaSlots, List.forall_mem_cons, last_iff] at hl
  unfold ValidationAlg.rsaParse
  by_cases ht : t.type = T_RSA_SHA256
  · rw [if_neg (by simp [ht])]
    constructor
    · intro h
      obtain ⟨s, hs, h⟩ := bind_eq_ok.mp h
      obtain ⟨l, htl, hk, ⟨ks, hks, hlast⟩, ⟨ts, hts, htlast⟩, _⟩ := (hl s).mp hs
      cases hkid : s.1 with
      | none => rw [hkid] at h; cases h
      | some kid =>
        rw [hkid] at h
        obtain ⟨rfl, w, hw⟩ := construct_inv h
        exact ⟨ht, ⟨w, hw⟩, l, htl, hk, ks, ts, kid, hks, hlast.trans hkid, hts, by rw [htlast]⟩
    · rintro ⟨_, ⟨w, hw⟩, l, htl, hk, ks, ts, kid, hks, hlast, hts, rfl⟩
      rw [(hl (some kid, ts.getLast?)).mpr ⟨l, htl, hk, ⟨ks, hks, hlast⟩, ⟨ts, hts, rfl⟩, by simp⟩, ok_bind]
      exact construct_ok hw
  · simp [ht]

/-- C67: a validation section holds one TLV that counts: CRC32C with an empty value, or RSA-SHA256.  Bytes after it are
ignored, every other type is refused. -/
theorem C67_validation_alg (now : F64) (t : Tlv) (a : ValidationAlg) : ValidationAlg.parse now t = .ok a ↔
    t.type = T_VALIDATION_ALG ∧ ∃ (inner : Tlv) (rest : Bytes), inner.type ≤ 0xFFFF ∧ inner.value.length ≤ 0xFFFF ∧
      t.value = be16 inner.type ++ be16 inner.value.length ++ inner.value ++ rest ∧
      ((inner.type = T_CRC32C ∧ inner.value = [] ∧ a = .crc32c) ∨
       (inner.type = T_RSA_SHA256 ∧ ValidationAlg.rsaParse now inner = .ok a)) := by
  unfold ValidationAlg.parse
  by_cases ht : t.type = T_VALIDATION_ALG
  · rw [if_neg (by simp [ht])]
    constructor
    · intro h
      obtain ⟨inner, hi, h⟩ := bind_eq_ok.mp h
      obtain ⟨hv, hb⟩ := Tlv.deserialize_inv hi
      refine ⟨ht, inner, t.value.drop inner.len, hv.1, hv.2, hb, ?_⟩
      split at h
      · rename_i hty
        exact .inr ⟨hty, h⟩
      · split at h
        · rename_i hty
          split at h
          · cases h
          · rename_i hlen
            obtain ⟨rfl, _⟩ := construct_inv h
            exact .inl ⟨hty, List.length_eq_zero_iff.mp (by simpa [Tlv.length] using hlen), rfl⟩
        · cases h
    · rintro ⟨_, inner, rest, h1, h2, hb, h⟩
      have : Tlv.deserialize t.value = .ok inner := by
        rw [hb]
        exact Tlv.deserialize_bytes inner ⟨h1, h2⟩ rest
      rw [this, ok_bind]
      rcases h with ⟨hty, hval, rfl⟩ | ⟨hty, h⟩
      · rw [if_neg (by rw [hty]; decide), if_pos hty, if_neg (by simp [Tlv.length, hval])]
        rfl
      · rw [if_pos hty]; exact h
  · simp [ht]

/-! ## C68: `Tlv.extend` -/

/-- C68: extending a container by a TLV appends that TLV to its members and changes nothing else; it fails exactly when the
value no longer fits into a 16-bit length or the new member cannot be serialized. -/
theorem C68_extend (t other : Tlv) (l : List Tlv) (ht : t.type ≤ 0xFFFF) (hl : Spec.Tiles t.value l) :
    (∀ r, t.extend other = .ok r → r.type = t.type ∧ Spec.Tiles r.value (l ++ [other])) ∧
    (∀ e, t.extend other = .error e → e = .overflowError) ∧
    (Spec.Fits (t.extend other) ↔ other.type ≤ 0xFFFF ∧ t.value.length + 4 + other.value.length ≤ 0xFFFF) := by
  unfold Tlv.extend
  rw [Tlv.serialize_eq]
  by_cases ho : other.Valid
  · rw [if_pos ho, ok_bind, mkTlv_eq]
    have hlen : (t.value ++ other.bytes).length = t.value.length + 4 + other.value.length := by
      simp [Tlv.len, Tlv.length]; omega
    refine ⟨?_, ?_, ?_⟩
    · intro r h
      split at h
      · cases Except.ok.inj h
        refine ⟨rfl, ?_, ?_⟩
        · intro x hx
          rcases List.mem_append.mp hx with hx | hx
          · exact hl.1 x hx
          · rw [List.mem_singleton.mp hx]; exact ho
        · show t.value ++ other.bytes = _
          rw [List.flatMap_append, ← hl.2]
          simp [Tlv.bytes, Tlv.length]
      · cases h
    · intro e h
      split at h
      · cases h
      · exact (Except.error.inj h).symm
    · rw [hlen]
      constructor
      · rintro ⟨w, h⟩
        split at h
        · rename_i hc
          exact ⟨ho.1, hc.2⟩
        · cases h
      · rintro ⟨_, h⟩
        exact ⟨_, by rw [if_pos ⟨ht, h⟩]⟩
  · rw [if_neg ho]
    refine ⟨fun r h => (by cases h), fun e h => (Except.error.inj h).symm, ⟨fun ⟨w, h⟩ => (by cases h), ?_⟩⟩
    rintro ⟨h1, h2⟩
    exact absurd ⟨h1, by omega⟩ ho

/-! ## Concrete cases -/

/-- A link with a name and a hash restriction is accepted; with a second name it is not. -/
example : Link.deserialize [0, 0, 0, 5, 0, 1, 0, 1, 97, 0, 3, 0, 5, 0, 1, 0, 1, 7]
    = .ok ⟨some ⟨[⟨1, [97], false⟩]⟩, none, some ⟨1, [7]⟩⟩ := by decide +kernel
example : Link.deserialize [0, 0, 0, 5, 0, 1, 0, 1, 97, 0, 0, 0, 5, 0, 1, 0, 1, 97] = .error .assertionError := by decide +kernel

/-- A name constructor with one id is accepted, with two it is not. -/
example : NcDef.parse ⟨T_NCDEF, [0, 5, 0, 1, 9]⟩ = .ok ⟨some 9, none⟩ := by decide +kernel
example : NcDef.parse ⟨T_NCDEF, [0, 5, 0, 1, 9, 0, 5, 0, 1, 8]⟩ = .error .assertionError := by decide +kernel

/-- Node data with two name constructors and one size. -/
example : NodeData.parse ⟨T_NODE_DATA, [0, 4, 0, 5, 0, 5, 0, 1, 9, 0, 2, 0, 1, 3, 0, 4, 0, 5, 0, 5, 0, 1, 8]⟩
    = .ok { subtreeSize := some 3, ncDefs := [⟨some 9, none⟩, ⟨some 8, none⟩] } := by decide +kernel

/-- A schema with a name; one with protocol flags is refused. -/
example : NcSchema.parse ⟨T_PrefixSchema, [0, 0, 0, 5, 0, 1, 0, 1, 97]⟩ = .ok (.prefixed (some ⟨[⟨1, [97], false⟩]⟩) none none) := by
  decide +kernel
example : NcSchema.parse ⟨T_HashSchema, [0, 1, 0, 1, 1]⟩ = .error .typeError := by decide +kernel

/-- Group data with an unknown TLV, which is skipped; a second leaf size is refused. -/
example : GroupData.parse ⟨T_GROUP_DATA, [0, 0, 0, 1, 5, 0, 99, 0, 0, 0, 5, 0, 1, 2]⟩
    = .ok { leafSize := some 5, ncId := some 2 } := by decide +kernel
example : GroupData.parse ⟨T_GROUP_DATA, [0, 0, 0, 1, 5, 0, 0, 0, 1, 5]⟩ = .error .parseError := by decide +kernel

/-- An encrypted manifest with two authentication tags: the second one counts.  Two nodes are refused. -/
example : Manifest.deserialize [0, 2, 0, 1, 5, 0, 3, 0, 1, 6, 0, 3, 0, 1, 7] = .ok ⟨none, .encrypted [5], some [7]⟩ := by decide +kernel
example : Manifest.deserialize [0, 2, 0, 1, 5, 0, 2, 0, 1, 6] = .error .assertionError := by decide +kernel

/-- A CRC32C section with trailing bytes inside is accepted, with a body it is not. -/
example : ValidationAlg.parse (secondsOfMsec 0) ⟨T_VALIDATION_ALG, [0, 2, 0, 0, 99]⟩ = .ok .crc32c := by decide +kernel
example : ValidationAlg.parse (secondsOfMsec 0) ⟨T_VALIDATION_ALG, [0, 2, 0, 1, 99]⟩ = .error .valueError := by decide +kernel

/-- An RSA section with two key ids: the second one counts. -/
example : ((ValidationAlg.rsaParse (secondsOfMsec 5000) ⟨T_RSA_SHA256, [0, 9, 0, 5, 0, 1, 0, 1, 7, 0, 9, 0, 5, 0, 1, 0, 1, 8]⟩)
    == .ok (.rsaSha256 ⟨1, [8]⟩ none (secondsOfMsec 5000))) = true := by decide +kernel

/-- A name extended by a component. -/
example : Tlv.extend ⟨0, [0, 1, 0, 1, 97]⟩ ⟨1, [98]⟩ = .ok ⟨0, [0, 1, 0, 1, 97, 0, 1, 0, 1, 98]⟩ := by decide +kernel

/-- Only a content object of payload type Manifest gives a manifest. -/
theorem C66_from_content_object (co : ContentObject) (m : Manifest) : Manifest.fromContentObject co = .ok m ↔
    co.payloadType = some PT_MANIFEST ∧ ∃ p, co.payload = some p ∧ Manifest.deserialize p = .ok m := by
  unfold Manifest.fromContentObject
  cases co.payloadType with
  | none => simp
  | some ty =>
    by_cases h : ty = PT_MANIFEST
    · subst h
      cases co.payload <;> simp
    · simp [h]

end Ccnpy
