import Verif.Lemmas.Flic
import Verif.Props.PacketProps

/-!
# Properties C26-C32: FLIC TLVs on the wire

`toBytes` (on links, schemas, node data, nodes, security contexts, manifests) replaces, in the names inside, components
whose Python value is an `array('B')` by components holding the same octets as `bytes`; nothing else changes, except that
`Node.toBytes` forgets the padding.  See `Name.view_toBytes`.
-/

namespace Ccnpy

/-! ## C26 -/

/-- C26: group data read back from its wire form has the same six fields. -/
theorem C26_groupData_roundtrip (g : GroupData)
    (hsize : ∀ n, g.subtreeSize = some n → n < 2 ^ 64) (hleaf : ∀ n, g.leafSize = some n → n < 2 ^ 64)
    (hnc : ∀ n, g.ncId = some n → n < 2 ^ 64) (hseg : ∀ n, g.startSegmentId = some n → n < 2 ^ 64)
    (w : Bytes) (h : wireOf GroupData.tlv g = .ok w) (rest : Bytes) : ofWire GroupData.parse (w ++ rest) = .ok g :=
  ofWire_of_RT (groupData_RT ⟨hsize, hleaf, hnc, hseg⟩) h rest

/-- C26: a pointer list read back from its wire form is the same list. -/
theorem C26_pointers_roundtrip (p : List HashValue) (w : Bytes) (h : wireOf pointersTlv p = .ok w) (rest : Bytes) :
    ofWire pointersParse (w ++ rest) = .ok p := ofWire_of_RT (pointers_RT p) h rest

/-- C26: a hash group read back from its wire form has the same group data and pointers. -/
theorem C26_hashGroup_roundtrip (g : HashGroup)
    (hg : ∀ d, g.groupData = some d → (∀ n, d.subtreeSize = some n → n < 2 ^ 64) ∧ (∀ n, d.leafSize = some n → n < 2 ^ 64) ∧
      (∀ n, d.ncId = some n → n < 2 ^ 64) ∧ (∀ n, d.startSegmentId = some n → n < 2 ^ 64))
    (w : Bytes) (h : wireOf HashGroup.tlv g = .ok w) (rest : Bytes) : ofWire HashGroup.parse (w ++ rest) = .ok g :=
  ofWire_of_RT (hashGroup_RT hg) h rest

/-- A hash group with every kind of field. -/
def exampleGroup : HashGroup :=
  { groupData := some { subtreeSize := some 70000, subtreeDigest := some ⟨1, [1, 2, 3]⟩, leafSize := some 0,
                        leafDigest := some ⟨1, [9]⟩, ncId := some 1, startSegmentId := some 300 },
    pointers := some [⟨1, [5, 6]⟩, ⟨1, []⟩, ⟨2, [7]⟩] }

example : (wireOf HashGroup.tlv exampleGroup).map List.length = .ok 70 := by decide +kernel

/-! ## C27 -/

/-- The field types recognised by an auto-parser. -/
def autoTypes {σ : Type} (fields : List (AutoField σ)) : List Nat := fields.map (·.type)

theorem autoStep_unknown {σ : Type} {fields : List (AutoField σ)} {t : Tlv} (h : t.type ∉ autoTypes fields) (s : σ) :
    autoStep fields s t = .ok s := by
  have : fields.find? (fun f => f.type == t.type) = none := by
    rw [List.find?_eq_none]
    intro f hf he
    exact h (by simp only [autoTypes, List.mem_map]; exact ⟨f, hf, by simpa using he⟩)
  exact autoStep_miss rfl this

theorem autoValueParse_skip {σ : Type} (fields : List (AutoField σ)) (init : σ) (a b : List Tlv) (u : Tlv)
    (hv : ∀ t ∈ a ++ [u] ++ b, t.Valid) (hu : u.type ∉ autoTypes fields) :
    autoValueParse fields init (bytesAll (a ++ [u] ++ b)) = autoValueParse fields init (bytesAll (a ++ b)) := by
  simp only [autoValueParse]
  rw [tlvLoop_bytesAll _ _ hv, tlvLoop_bytesAll]
  · simp only [List.foldlM_append, List.foldlM_cons, List.foldlM_nil]
    cases a.foldlM (autoStep fields) init with
    | error e => rfl
    | ok s => simp [autoStep_unknown hu]
  · intro t ht
    refine hv t ?_
    simp only [List.mem_append] at ht ⊢
    rcases ht with h | h
    · exact .inl (.inl h)
    · exact .inr h

/-- Setting a field marks it as set and leaves set fields set. -/
structure AutoLawful {σ : Type} (fields : List (AutoField σ)) : Prop where
  sets : ∀ f ∈ fields, ∀ s t s', f.parse s t = .ok s' → f.isSet s' = true
  keeps : ∀ f ∈ fields, ∀ g ∈ fields, ∀ s t s', g.parse s t = .ok s' → f.isSet s = true → f.isSet s' = true

theorem autoStep_cases {σ : Type} {fields : List (AutoField σ)} {s s' : σ} {t : Tlv} (h : autoStep fields s t = .ok s') :
    (t.type ∉ autoTypes fields ∧ s' = s) ∨
    ∃ f, fields.find? (fun f => f.type == t.type) = some f ∧ f ∈ fields ∧ f.isSet s = false ∧ f.parse s t = .ok s' := by
  unfold autoStep at h
  split at h
  · rename_i hf
    rw [List.find?_eq_none] at hf
    refine .inl ⟨?_, (Except.ok.inj h).symm⟩
    intro hm
    simp only [autoTypes, List.mem_map] at hm
    obtain ⟨f, hf1, hf2⟩ := hm
    exact hf f hf1 (by simpa using hf2)
  · rename_i f hf
    split at h
    · cases h
    · rename_i hs
      exact .inr ⟨f, hf, List.mem_of_find?_eq_some hf, by simpa using hs, h⟩

theorem auto_keeps {σ : Type} {fields : List (AutoField σ)} (hl : AutoLawful fields) {f : AutoField σ} (hf : f ∈ fields)
    {l : List Tlv} {s s' : σ} (h : l.foldlM (autoStep fields) s = .ok s') (hs : f.isSet s = true) : f.isSet s' = true := by
  refine foldlM_inv (fun s => f.isSet s = true) ?_ hs h
  intro s t s' hs hst
  rcases autoStep_cases hst with ⟨_, rfl⟩ | ⟨g, _, hg, _, hp⟩
  · exact hs
  · exact hl.keeps f hf g hg s t s' hp hs

theorem autoValueParse_dup {σ : Type} {fields : List (AutoField σ)} (hl : AutoLawful fields) (init : σ)
    (a b c : List Tlv) (x y : Tlv) (hxy : x.type = y.type) (hx : x.type ∈ autoTypes fields)
    (hv : ∀ t ∈ a ++ [x] ++ b ++ [y] ++ c, t.Valid) :
    ∃ e, autoValueParse fields init (bytesAll (a ++ [x] ++ b ++ [y] ++ c)) = .error e := by
  cases h : autoValueParse fields init (bytesAll (a ++ [x] ++ b ++ [y] ++ c)) with
  | error e => exact ⟨e, rfl⟩
  | ok s' =>
    exfalso
    rw [autoValueParse, tlvLoop_bytesAll _ _ hv] at h
    simp only [List.foldlM_append, List.foldlM_cons, List.foldlM_nil] at h
    obtain ⟨s4, h, _⟩ := bind_eq_ok.mp h
    obtain ⟨s3, h, h4⟩ := bind_eq_ok.mp h
    obtain ⟨s2, h, h3⟩ := bind_eq_ok.mp h
    obtain ⟨s1, _, h2⟩ := bind_eq_ok.mp h
    obtain ⟨s2', h2, e2⟩ := bind_eq_ok.mp h2
    cases e2
    obtain ⟨s4', h4, e4⟩ := bind_eq_ok.mp h4
    cases e4
    rcases autoStep_cases h2 with ⟨hn, _⟩ | ⟨f, hf, hfm, _, hp⟩
    · exact hn hx
    · have hset := auto_keeps hl hfm h3 (hl.sets f hfm _ _ _ hp)
      rcases autoStep_cases h4 with ⟨hn, _⟩ | ⟨g, hg, _, hgs, _⟩
      · rw [← hxy] at hn; exact hn hx
      · rw [← hxy, hf] at hg
        cases hg
        rw [hset] at hgs
        cases hgs

theorem autoField_sets {σ α : Type} {ty : Nat} {get : σ → Option α} {set : σ → α → σ} {parse : Tlv → Py α}
    (h : ∀ s v, (get (set s v)).isSome = true) (s : σ) (t : Tlv) (s' : σ)
    (hp : (autoField ty get set parse).parse s t = .ok s') : (get s').isSome = true := by
  obtain ⟨v, _, hp⟩ := bind_eq_ok.mp hp
  cases hp
  exact h s v

theorem autoField_keeps {σ α β : Type} {ty : Nat} {get : σ → Option α} {set : σ → β → σ} {get' : σ → Option β}
    {parse : Tlv → Py β} (h : ∀ s v, (get s).isSome = true → (get (set s v)).isSome = true) (s : σ) (t : Tlv) (s' : σ)
    (hp : (autoField ty get' set parse).parse s t = .ok s') (hs : (get s).isSome = true) : (get s').isSome = true := by
  obtain ⟨v, _, hp⟩ := bind_eq_ok.mp hp
  cases hp
  exact h s v hs

theorem groupData_lawful : AutoLawful GroupData.fields := by
  constructor
  · intro f hf
    simp only [GroupData.fields, List.mem_cons, List.not_mem_nil, or_false] at hf
    rcases hf with rfl | rfl | rfl | rfl | rfl | rfl <;> exact autoField_sets (fun _ _ => rfl)
  · intro f hf g hg
    simp only [GroupData.fields, List.mem_cons, List.not_mem_nil, or_false] at hf hg
    rcases hf with rfl | rfl | rfl | rfl | rfl | rfl <;> rcases hg with rfl | rfl | rfl | rfl | rfl | rfl <;>
      first | exact autoField_keeps (fun _ _ h => h) | exact autoField_keeps (fun _ _ _ => rfl)

theorem hashGroup_lawful : AutoLawful HashGroup.fields := by
  constructor
  · intro f hf
    simp only [HashGroup.fields, List.mem_cons, List.not_mem_nil, or_false] at hf
    rcases hf with rfl | rfl <;> exact autoField_sets (fun _ _ => rfl)
  · intro f hf g hg
    simp only [HashGroup.fields, List.mem_cons, List.not_mem_nil, or_false] at hf hg
    rcases hf with rfl | rfl <;> rcases hg with rfl | rfl <;>
      first | exact autoField_keeps (fun _ _ h => h) | exact autoField_keeps (fun _ _ _ => rfl)

theorem kdfData_lawful : AutoLawful KdfData.fields := by
  constructor
  · intro f hf
    simp only [KdfData.fields, List.mem_cons, List.not_mem_nil, or_false] at hf
    rcases hf with rfl | rfl <;> exact autoField_sets (fun _ _ => rfl)
  · intro f hf g hg
    simp only [KdfData.fields, List.mem_cons, List.not_mem_nil, or_false] at hf hg
    rcases hf with rfl | rfl <;> rcases hg with rfl | rfl <;>
      first | exact autoField_keeps (fun _ _ h => h) | exact autoField_keeps (fun _ _ _ => rfl)

theorem aeadData_lawful : AutoLawful AeadData.fields := by
  constructor
  · intro f hf
    simp only [AeadData.fields, List.mem_cons, List.not_mem_nil, or_false] at hf
    rcases hf with rfl | rfl | rfl | rfl <;> exact autoField_sets (fun _ _ => rfl)
  · intro f hf g hg
    simp only [AeadData.fields, List.mem_cons, List.not_mem_nil, or_false] at hf hg
    rcases hf with rfl | rfl | rfl | rfl <;> rcases hg with rfl | rfl | rfl | rfl <;>
      first | exact autoField_keeps (fun _ _ h => h) | exact autoField_keeps (fun _ _ _ => rfl)

/-- C27: a TLV whose type is none of the six field types may stand anywhere in a `GroupData` without changing the outcome
of parsing (the fields read, or the exception). -/
theorem C27_groupData_ignores_unknown (a b : List Tlv) (u : Tlv) (hv : ∀ t ∈ a ++ [u] ++ b, t.Valid)
    (hu : u.type ∉ [0x0000, 0x0001, 0x0002, 0x0003, 0x0004, 0x0005]) :
    GroupData.parse ⟨0x000B, bytesAll (a ++ [u] ++ b)⟩ = GroupData.parse ⟨0x000B, bytesAll (a ++ b)⟩ := by
  have h := autoValueParse_skip GroupData.fields {} a b u hv (by
    simp only [List.mem_cons, List.not_mem_nil, or_false, not_or] at hu
    simp [autoTypes, GroupData.fields, autoField, T_SUBTREE_SIZE, T_SUBTREE_DIGEST, T_LEAF_SIZE, T_LEAF_DIGEST, T_NCID,
      T_START_SEGMENT_ID, hu])
  simp only [GroupData.parse, autoParse, T_GROUP_DATA, h]
  rfl

/-- C27: the same for a `HashGroup`, whose fields have types 0x0B (group data) and 7 (pointers). -/
theorem C27_hashGroup_ignores_unknown (a b : List Tlv) (u : Tlv) (hv : ∀ t ∈ a ++ [u] ++ b, t.Valid)
    (hu : u.type ∉ [0x000B, 0x0007]) :
    HashGroup.parse ⟨0x0001, bytesAll (a ++ [u] ++ b)⟩ = HashGroup.parse ⟨0x0001, bytesAll (a ++ b)⟩ := by
  have h := autoValueParse_skip HashGroup.fields {} a b u hv (by
    simp only [List.mem_cons, List.not_mem_nil, or_false, not_or] at hu
    simp [autoTypes, HashGroup.fields, autoField, T_GROUP_DATA, T_PTRS, hu])
  simp only [HashGroup.parse, autoParse, T_HASH_GROUP, h]
  rfl

/-- C27: a `GroupData` with a repeated field, wherever the two occurrences are and whatever they contain, is rejected. -/
theorem C27_groupData_rejects_duplicates (a b c : List Tlv) (x y : Tlv) (hxy : x.type = y.type)
    (hx : x.type ∈ [0x0000, 0x0001, 0x0002, 0x0003, 0x0004, 0x0005])
    (hv : ∀ t ∈ a ++ [x] ++ b ++ [y] ++ c, t.Valid) :
    ∃ e, GroupData.parse ⟨0x000B, bytesAll (a ++ [x] ++ b ++ [y] ++ c)⟩ = .error e := by
  obtain ⟨e, h⟩ := autoValueParse_dup groupData_lawful {} a b c x y hxy (by
    simp only [List.mem_cons, List.not_mem_nil, or_false] at hx
    simp only [autoTypes, GroupData.fields, autoField, List.map_cons, List.map_nil, List.mem_cons, List.not_mem_nil,
      or_false, T_SUBTREE_SIZE, T_SUBTREE_DIGEST, T_LEAF_SIZE, T_LEAF_DIGEST, T_NCID, T_START_SEGMENT_ID]
    omega) hv
  exact ⟨e, by simp only [GroupData.parse, autoParse, T_GROUP_DATA, ne_eq, not_true, if_false, h, error_bind]⟩

/-- C27: a `HashGroup` with two group data or two pointer lists is rejected. -/
theorem C27_hashGroup_rejects_duplicates (a b c : List Tlv) (x y : Tlv) (hxy : x.type = y.type)
    (hx : x.type ∈ [0x000B, 0x0007]) (hv : ∀ t ∈ a ++ [x] ++ b ++ [y] ++ c, t.Valid) :
    ∃ e, HashGroup.parse ⟨0x0001, bytesAll (a ++ [x] ++ b ++ [y] ++ c)⟩ = .error e := by
  obtain ⟨e, h⟩ := autoValueParse_dup hashGroup_lawful {} a b c x y hxy (by
    simp only [List.mem_cons, List.not_mem_nil, or_false] at hx
    simp only [autoTypes, HashGroup.fields, autoField, List.map_cons, List.map_nil, List.mem_cons, List.not_mem_nil,
      or_false, T_GROUP_DATA, T_PTRS]
    omega) hv
  exact ⟨e, by simp only [HashGroup.parse, autoParse, T_HASH_GROUP, ne_eq, not_true, if_false, h, error_bind]⟩

/-- C27: an AEAD context with a repeated key number, nonce, mode or KDF field is rejected. -/
theorem C27_aeadData_rejects_duplicates (a b c : List Tlv) (x y : Tlv) (hxy : x.type = y.type)
    (hx : x.type ∈ [0x0000, 0x0001, 0x0002, 0x0005]) (hv : ∀ t ∈ a ++ [x] ++ b ++ [y] ++ c, t.Valid) :
    ∃ e, AeadData.parse (bytesAll (a ++ [x] ++ b ++ [y] ++ c)) = .error e := by
  obtain ⟨e, h⟩ := autoValueParse_dup aeadData_lawful {} a b c x y hxy (by
    simp only [List.mem_cons, List.not_mem_nil, or_false] at hx
    simp only [autoTypes, AeadData.fields, autoField, List.map_cons, List.map_nil, List.mem_cons, List.not_mem_nil,
      or_false, T_KEYNUM, T_NONCE, T_AEADMode, T_KDF_DATA]
    omega) hv
  exact ⟨e, by simp only [AeadData.parse, h, error_bind]⟩

-- an unknown TLV between two fields is skipped, a second pointer list is not accepted
example : HashGroup.parse ⟨1, bytesAll ([⟨0x0B, []⟩] ++ [⟨0x77, [1, 2]⟩] ++ [⟨7, [0, 1, 0, 1, 9]⟩])⟩
    = .ok ⟨some {}, some [⟨1, [9]⟩]⟩ := by decide
example : HashGroup.parse ⟨1, bytesAll ([] ++ [⟨7, []⟩] ++ [⟨0x0B, []⟩] ++ [⟨7, []⟩] ++ [])⟩ = .error .parseError := by
  decide

/-! ## C28 -/

/-- The integers in a node fit 64 bits. -/
def Node.Fits64 (n : Node) : Prop :=
  (∀ d, n.nodeData = some d →
    (∀ k, d.subtreeSize = some k → k < 2 ^ 64) ∧ ∀ c ∈ d.ncDefs, ∀ k, c.ncId = some k → k < 2 ^ 64) ∧
  ∀ g ∈ n.hashGroups, ∀ d, g.groupData = some d →
    (∀ k, d.subtreeSize = some k → k < 2 ^ 64) ∧ (∀ k, d.leafSize = some k → k < 2 ^ 64) ∧
    (∀ k, d.ncId = some k → k < 2 ^ 64) ∧ (∀ k, d.startSegmentId = some k → k < 2 ^ 64)

/-- C28: a node read back from its wire form has the same node data and hash groups. -/
theorem C28_node_roundtrip (n : Node) (hn : n.Fits64) (w : Bytes) (h : wireOf Node.tlv n = .ok w) (rest : Bytes) :
    ∃ n', ofWire Node.parse (w ++ rest) = .ok n' ∧ n'.hashGroups = n.hashGroups ∧
      n'.nodeData = n.nodeData.map NodeData.toBytes :=
  ⟨n.toBytes, ofWire_of_RT (node_RT hn) h rest, rfl, rfl⟩

/-- `it` yields exactly the values `xs` and then stops (`none`) or raises (`some e`). -/
inductive NodeIterator.Run : NodeIterator → List HashIteratorValue → Option PyErr → Prop
  | stop {it} : it.next = .ok none → Run it [] none
  | raise {it e} : it.next = .error e → Run it [] (some e)
  | yield {it v it' xs r} : it.next = .ok (some (v, it')) → Run it' xs r → Run it (v :: xs) r

/-- Specification: the values of one group, `i` being the position of the first pointer listed. -/
def groupValues (nc : Nat) (start : Option Nat) : Nat → List HashValue → List HashIteratorValue
  | _, [] => []
  | i, h :: l => ⟨nc, h, start.map (· + i)⟩ :: groupValues nc start (i + 1) l

/-- Specification: a group's values in terms of its fields. -/
def HashGroup.values (g : HashGroup) : List HashIteratorValue :=
  match g.groupData, g.pointers with
  | some d, some ps => groupValues (d.ncId.getD 0) d.startSegmentId 0 ps
  | _, _ => []

/-- Groups that can be iterated: they have a list of pointers, and if it is not empty then group data with a name constructor id. -/
def HashGroup.Iterable (g : HashGroup) : Prop :=
  ∃ ps, g.pointers = some ps ∧ (ps ≠ [] → ∃ d nc, g.groupData = some d ∧ d.ncId = some nc)

theorem run_group {gs : List HashGroup} {i : Nat} (hi : i < gs.length) {d : GroupData} {nc : Nat} {ps : List HashValue}
    (hd : gs[i].groupData = some d) (hnc : d.ncId = some nc) (hps : gs[i].pointers = some ps)
    {xs : List HashIteratorValue} {r : Option PyErr} (hr : NodeIterator.Run ⟨gs, i + 1, 0⟩ xs r) (j : Nat)
    (hj : j ≤ ps.length) :
    NodeIterator.Run ⟨gs, i, j⟩ (groupValues nc d.startSegmentId j (ps.drop j) ++ xs) r := by
  by_cases hjl : j = ps.length
  · subst hjl
    have e : NodeIterator.next ⟨gs, i, ps.length⟩ = NodeIterator.next ⟨gs, i + 1, 0⟩ := by
      rw [NodeIterator.next]
      simp only
      rw [dif_neg (by omega), hps]
      simp
    simp only [List.drop_length, groupValues, List.nil_append]
    cases hr with
    | stop h => exact .stop (by rw [e, h])
    | raise h => exact .raise (by rw [e, h])
    | yield h h' => exact .yield (by rw [e, h]) h'
  · have hjlt : j < ps.length := by omega
    have e : NodeIterator.next ⟨gs, i, j⟩ =
        .ok (some (⟨nc, ps[j], d.startSegmentId.map (· + j)⟩, ⟨gs, i, j + 1⟩)) := by
      rw [NodeIterator.next]
      simp only
      rw [dif_neg (by omega), hps]
      simp only
      rw [dif_neg (by omega), hd]
      simp only [hnc, NodeIterator.segmentId, hd]
      cases d.startSegmentId <;> rfl
    rw [List.drop_eq_getElem_cons hjlt]
    exact .yield e (run_group hi hd hnc hps hr (j + 1) (by omega))
termination_by ps.length - j

theorem run_iterable {gs : List HashGroup} {i : Nat} (hi : i < gs.length) (hg : gs[i].Iterable)
    {xs : List HashIteratorValue} {r : Option PyErr} (hr : NodeIterator.Run ⟨gs, i + 1, 0⟩ xs r) :
    NodeIterator.Run ⟨gs, i, 0⟩ (gs[i].values ++ xs) r := by
  obtain ⟨ps, hps, hd⟩ := hg
  cases ps with
  | nil =>
    have hv : gs[i].values = [] := by
      unfold HashGroup.values
      rw [hps]
      cases gs[i].groupData <;> rfl
    have e : NodeIterator.next ⟨gs, i, 0⟩ = NodeIterator.next ⟨gs, i + 1, 0⟩ := by
      rw [NodeIterator.next]
      simp only
      rw [dif_neg (by omega), hps]
      simp
    rw [hv, List.nil_append]
    cases hr with
    | stop h => exact .stop (by rw [e, h])
    | raise h => exact .raise (by rw [e, h])
    | yield h h' => exact .yield (by rw [e, h]) h'
  | cons p ps =>
    obtain ⟨d, nc, hd, hnc⟩ := hd (by simp)
    have := run_group hi hd hnc hps hr 0 (by omega)
    simpa [HashGroup.values, hd, hps, hnc] using this

theorem run_groups {pre post : List HashGroup} (hg : ∀ g ∈ pre, g.Iterable) {xs : List HashIteratorValue} {r : Option PyErr}
    {gs : List HashGroup} {i : Nat} (hgs : gs.drop i = pre ++ post) (hi : i ≤ gs.length)
    (h : NodeIterator.Run ⟨gs, i + pre.length, 0⟩ xs r) :
    NodeIterator.Run ⟨gs, i, 0⟩ (pre.flatMap HashGroup.values ++ xs) r := by
  induction pre generalizing i with
  | nil => exact h
  | cons g pre ih =>
    have hlt : i < gs.length := by
      rcases Nat.lt_or_ge i gs.length with h | h
      · exact h
      · rw [List.drop_eq_nil_of_le h] at hgs; cases hgs
    rw [List.drop_eq_getElem_cons hlt, List.cons_append] at hgs
    injection hgs with h1 h2
    rw [List.flatMap_cons, List.append_assoc, ← h1]
    refine run_iterable hlt (by rw [h1]; exact hg g (by simp)) (ih (fun g h => hg g (by simp [h])) h2 hlt ?_)
    have : i + (g :: pre).length = i + 1 + pre.length := by simp only [List.length_cons]; omega
    rw [← this]; exact h

/-- C28: iterating a node yields every pointer of every group, in order and exactly once, each with its group's name
constructor id and the segment id `start + position` (`None` without a start segment id), and then stops. -/
theorem C28_iteration (n : Node) (hg : ∀ g ∈ n.hashGroups, g.Iterable) :
    NodeIterator.Run n.iter (n.hashGroups.flatMap HashGroup.values) none := by
  have := run_groups (post := []) hg (gs := n.hashGroups) (i := 0) (by simp) (by omega) (.stop (by
    rw [NodeIterator.next, dif_pos (by simp)]))
  rw [List.append_nil] at this
  exact this

/-- C28: at the first group that cannot be iterated the iterator raises, having yielded the pointers of the groups before: TypeError
without a list of pointers, otherwise ValueError. -/
theorem C28_iteration_raises (n : Node) (pre post : List HashGroup) (bad : HashGroup) (h : n.hashGroups = pre ++ bad :: post)
    (hg : ∀ g ∈ pre, g.Iterable) (hb : ¬ bad.Iterable) :
    NodeIterator.Run n.iter (pre.flatMap HashGroup.values) (some (if bad.pointers = none then .typeError else .valueError)) := by
  have := run_groups (post := bad :: post) hg (gs := n.hashGroups) (i := 0) h (by omega) (xs := [])
    (r := some (if bad.pointers = none then .typeError else .valueError)) (.raise (by
      have hlt : 0 + pre.length < n.hashGroups.length := by rw [h]; simp
      have hget : n.hashGroups[0 + pre.length] = bad := by simp [h]
      rw [NodeIterator.next]
      dsimp only
      rw [dif_neg (by omega), hget]
      cases hp : bad.pointers with
      | none => simp
      | some ps =>
        have hne : ps ≠ [] := fun hn => hb ⟨ps, hp, fun h => absurd hn h⟩
        have hpos : ps.length ≠ 0 := fun h => hne (List.eq_nil_of_length_eq_zero h)
        dsimp only
        rw [dif_neg (by omega), if_neg (by simp)]
        cases hd : bad.groupData with
        | none => rfl
        | some d =>
          cases hn : d.ncId with
          | none => simp only [hn]
          | some nc => exact absurd ⟨ps, hp, fun _ => ⟨d, nc, hd, hn⟩⟩ hb))
  rw [List.append_nil] at this
  exact this

/-- C28: in particular the hashes come out as the concatenation of the groups' pointer lists. -/
theorem C28_iteration_hashes (gs : List HashGroup) (hg : ∀ g ∈ gs, g.Iterable) :
    (gs.flatMap HashGroup.values).map (·.hashValue) = gs.flatMap (fun g => g.pointers.getD []) := by
  have aux : ∀ nc st (l : List HashValue) i, (groupValues nc st i l).map (·.hashValue) = l := by
    intro nc st l
    induction l with
    | nil => intro i; rfl
    | cons h l ih => intro i; simp [groupValues, ih]
  induction gs with
  | nil => rfl
  | cons g gs ih =>
    obtain ⟨ps, hps, hd⟩ := hg g (by simp)
    rw [List.flatMap_cons, List.flatMap_cons, List.map_append, ih (fun g h => hg g (by simp [h]))]
    cases ps with
    | nil =>
      unfold HashGroup.values
      rw [hps]
      cases g.groupData <;> simp [groupValues]
    | cons p ps =>
      obtain ⟨d, nc, hd, hnc⟩ := hd (by simp)
      simp [HashGroup.values, hd, hps, aux]

/-- C28: the run of an iterator is unique, so nothing else can be yielded. -/
theorem C28_iteration_unique {it : NodeIterator} {xs ys : List HashIteratorValue} {r s : Option PyErr}
    (h1 : it.Run xs r) (h2 : it.Run ys s) : xs = ys ∧ r = s := by
  induction h1 generalizing ys s with
  | stop h => cases h2 <;> simp_all
  | raise h => cases h2 <;> simp_all
  | yield h _ ih =>
    cases h2 with
    | stop h' => simp_all
    | raise h' => simp_all
    | yield h' h2 =>
      rw [h] at h'
      cases h'
      obtain ⟨rfl, rfl⟩ := ih h2
      exact ⟨rfl, rfl⟩

/-- C28: `hash_values` of a manifest iterates its node so; of an encrypted manifest there is nothing to iterate, and it raises
TypeError instead of yielding nothing. -/
theorem C28_hash_values (m : Manifest) :
    (∀ c, m.node = .encrypted c → m.hashValues = .error .typeError) ∧
    ∀ n, m.node = .plain n → ∃ it, m.hashValues = .ok it ∧
      ((∀ g ∈ n.hashGroups, g.Iterable) → it.Run (n.hashGroups.flatMap HashGroup.values) none) ∧
      ∀ pre bad post, n.hashGroups = pre ++ bad :: post → (∀ g ∈ pre, g.Iterable) → ¬ bad.Iterable →
        it.Run (pre.flatMap HashGroup.values) (some (if bad.pointers = none then .typeError else .valueError)) := by
  refine ⟨fun c h => by simp [Manifest.hashValues, h], fun n h => ⟨n.iter, by simp [Manifest.hashValues, h], C28_iteration n, ?_⟩⟩
  intro pre bad post
  exact C28_iteration_raises n pre post bad

/-- A node with an empty group between two others. -/
def exampleNode : Node :=
  { nodeData := some { subtreeSize := some 12345, vendors := [⟨77, [1, 2, 3]⟩] },
    hashGroups := [exampleGroup, { groupData := some { ncId := some 2 }, pointers := some [] },
                   { groupData := some { ncId := some 3 }, pointers := some [⟨1, [8]⟩] }] }

example : exampleNode.hashGroups.flatMap HashGroup.values =
    [⟨1, ⟨1, [5, 6]⟩, some 300⟩, ⟨1, ⟨1, []⟩, some 301⟩, ⟨1, ⟨2, [7]⟩, some 302⟩, ⟨3, ⟨1, [8]⟩, none⟩] := by decide

example : exampleNode.Fits64 ∧ (∀ g ∈ exampleNode.hashGroups, g.Iterable) ∧
    (wireOf Node.tlv exampleNode).map List.length = .ok 133 := by
  refine ⟨⟨?_, ?_⟩, ?_, by decide +kernel⟩
  · intro d hd; cases hd; exact ⟨by intro k hk; cases hk; decide, by simp⟩
  · intro g hg d hd
    simp only [exampleNode, List.mem_cons, List.not_mem_nil, or_false] at hg
    rcases hg with rfl | rfl | rfl <;> cases hd <;> refine ⟨?_, ?_, ?_, ?_⟩ <;> intro k hk <;> cases hk <;> decide
  · intro g hg
    simp only [exampleNode, List.mem_cons, List.not_mem_nil, or_false] at hg
    rcases hg with rfl | rfl | rfl
    · exact ⟨_, rfl, fun _ => ⟨_, _, rfl, rfl⟩⟩
    · exact ⟨_, rfl, fun h => absurd rfl h⟩
    · exact ⟨_, rfl, fun _ => ⟨_, _, rfl, rfl⟩⟩

/-- The third group has pointers but no group data; the second needs none. -/
example : NodeIterator.Run (Node.iter { hashGroups := [exampleGroup, { pointers := some [] }, { pointers := some [⟨1, [8]⟩] },
      { groupData := some { ncId := some 3 }, pointers := some [⟨1, [9]⟩] }] }) (exampleGroup.values ++ ([] ++ [])) (some .valueError) :=
  C28_iteration_raises _ [exampleGroup, { pointers := some [] }] _ { pointers := some [⟨1, [8]⟩] } rfl (by
    intro g hg
    simp only [List.mem_cons, List.not_mem_nil, or_false] at hg
    rcases hg with rfl | rfl
    · exact ⟨_, rfl, fun _ => ⟨_, _, rfl, rfl⟩⟩
    · exact ⟨_, rfl, fun h => absurd rfl h⟩) (by
    rintro ⟨ps, hps, h⟩
    cases hps
    obtain ⟨d, _, hd, _⟩ := h (by simp)
    cases hd)

/-! ## C29 -/

/-- C29: with `pad_length = L`, a node whose unpadded size is at most `L - 4` serializes to exactly `L` bytes, any other
node serializes as without padding. (`L - 4 ≤ 65535`, the largest value of a TLV.) -/
theorem C29_padded_size (n : Node) (w0 : Bytes) (h0 : wireOf Node.tlv { n with padLength := none } = .ok w0) (L : Nat)
    (hL : L ≤ 65539) :
    ∃ w, wireOf Node.tlv { n with padLength := some (L : Int) } = .ok w ∧
      if w0.length + 4 ≤ L then w.length = L else w = w0 := by
  obtain ⟨t, ht, hv, rfl⟩ := wireOf_ok h0
  obtain ⟨ms, hm, hne, hvm, _, hty, hr⟩ := Node.tlv_ok ht
  have hval : t.value = bytesAll ms := by
    rcases hr with ⟨hr, _⟩ | ⟨p, k, hp, _⟩
    · exact hr
    · cases hp
  have hm' : Node.members { n with padLength := some (L : Int) } = .ok ms := hm
  have hlen : t.bytes.length = 4 + (bytesAll ms).length := by
    rw [Tlv.bytes_length, Tlv.len, Tlv.length, hval]
  have hsmall : (bytesAll ms).length ≤ 0xFFFF := by have := hv.2; rw [hval] at this; exact this
  by_cases hd : t.bytes.length + 4 ≤ L
  · have hk : ((L : Int) - (4 + ((bytesAll ms).length : Nat)) - 4).toNat = L - 8 - (bytesAll ms).length := by omega
    have hpad : padTlv (L - 8 - (bytesAll ms).length)
        = .ok ⟨T_PAD, List.replicate (L - 8 - (bytesAll ms).length) 0⟩ := by
      rw [padTlv, octetTlv, mkTlv_eq, if_pos ⟨by decide, by rw [List.length_replicate]; omega⟩]
    have hcat : concatTlvs (ms ++ [⟨T_PAD, List.replicate (L - 8 - (bytesAll ms).length) 0⟩])
        = .ok (bytesAll (ms ++ [⟨T_PAD, List.replicate (L - 8 - (bytesAll ms).length) 0⟩])) := by
      apply concatTlvs_of_valid
      intro x hx
      rcases List.mem_append.mp hx with hx | hx
      · exact hvm x hx
      · simp only [List.mem_singleton] at hx
        subst hx
        exact ⟨(by decide : T_PAD ≤ 0xFFFF), by show (List.replicate _ _).length ≤ _; rw [List.length_replicate]; omega⟩
    have hlen2 : (bytesAll (ms ++ [⟨T_PAD, List.replicate (L - 8 - (bytesAll ms).length) 0⟩])).length = L - 4 := by
      simp [Tlv.len, Tlv.length]; omega
    have ht2 : Node.tlv { n with padLength := some (L : Int) } =
        .ok ⟨T_NODE, bytesAll (ms ++ [⟨T_PAD, List.replicate (L - 8 - (bytesAll ms).length) 0⟩])⟩ := by
      rw [Node.tlv, hm']
      simp only [ok_bind]
      rw [if_neg (by simpa using hne), concatTlvs_of_valid hvm]
      simp only [ok_bind]
      rw [if_pos (by omega), hk, hpad]
      simp only [ok_bind, hcat, mkTlv_eq]
      exact if_pos ⟨by decide, by omega⟩
    refine ⟨_, wireOf_of_tlv ht2 ⟨(by decide : T_NODE ≤ 0xFFFF), by show (bytesAll _).length ≤ _; omega⟩, ?_⟩
    rw [if_pos hd, Tlv.bytes_length, Tlv.len, Tlv.length, hlen2]
    omega
  · have ht2 : Node.tlv { n with padLength := some (L : Int) } = .ok t := by
      rw [Node.tlv, hm']
      simp only [ok_bind]
      rw [if_neg (by simpa using hne), concatTlvs_of_valid hvm]
      simp only [ok_bind]
      rw [if_neg (by omega), mkTlv_eq, if_pos ⟨by decide, hsmall⟩]
      cases t
      simp only at hval hty
      subst hval hty
      rfl
    exact ⟨t.bytes, wireOf_of_tlv ht2 hv, by rw [if_neg hd]⟩

/-- C29: parsing the padded bytes and the unpadded bytes gives the same node. -/
theorem C29_padding_transparent (n : Node) (hn : n.Fits64) (L : Int) (w0 w : Bytes)
    (h0 : wireOf Node.tlv { n with padLength := none } = .ok w0)
    (h : wireOf Node.tlv { n with padLength := some L } = .ok w) :
    ofWire Node.parse w = ofWire Node.parse w0 := by
  have a := ofWire_of_RT (node_RT (n := { n with padLength := none }) hn) h0 []
  have b := ofWire_of_RT (node_RT (n := { n with padLength := some L }) hn) h []
  simp only [List.append_nil] at a b
  rw [a, b]
  rfl

/-- C29: padding is lost by a round trip: re-serializing what was parsed from padded bytes gives the unpadded bytes. -/
theorem C29_padding_not_preserved (n : Node) (hn : n.Fits64) (hb : n.nodeData.map NodeData.toBytes = n.nodeData) (L : Int)
    (w0 w : Bytes) (h0 : wireOf Node.tlv { n with padLength := none } = .ok w0)
    (h : wireOf Node.tlv { n with padLength := some L } = .ok w) :
    ∃ n', ofWire Node.parse w = .ok n' ∧ wireOf Node.tlv n' = .ok w0 := by
  have b := ofWire_of_RT (node_RT (n := { n with padLength := some L }) hn) h []
  simp only [List.append_nil] at b
  refine ⟨_, b, ?_⟩
  simp only [Node.toBytes, hb]
  exact h0

-- the unpadded size of the example node is 133; boundary cases 136 (no pad), 137 (empty pad), 200
example : (wireOf Node.tlv { exampleNode with padLength := some 136 }).map List.length = .ok 133 := by decide +kernel
example : (wireOf Node.tlv { exampleNode with padLength := some 137 }).map List.length = .ok 137 := by decide +kernel
example : (wireOf Node.tlv { exampleNode with padLength := some 200 }).map List.length = .ok 200 := by decide +kernel

/-! ## C30 -/

/-- C30: locators read back from the wire are the same links in the same order. -/
theorem C30_locators_roundtrip (ls : List Link) (w : Bytes) (h : wireOf locatorsTlv ls = .ok w) (rest : Bytes) :
    ofWire locatorsParse (w ++ rest) = .ok (ls.map Link.toBytes) := ofWire_of_RT (locators_RT ls) h rest

/-- C30: a vendor TLV reads back with the same enterprise number and payload. -/
theorem C30_vendor_roundtrip (v : Vendor) (w : Bytes) (h : wireOf Vendor.tlv v = .ok w) (rest : Bytes) :
    ofWire Vendor.parse (w ++ rest) = .ok v := ofWire_of_RT (vendor_RT v) h rest

/-- C30: a name constructor definition reads back with the same id and schema (hash, prefix or segmented, with its name,
suffix type and locators). -/
theorem C30_ncDef_roundtrip (d : NcDef) (hd : ∀ k, d.ncId = some k → k < 2 ^ 64) (w : Bytes)
    (h : wireOf NcDef.tlv d = .ok w) (rest : Bytes) :
    ∃ d', ofWire NcDef.parse (w ++ rest) = .ok d' ∧ d'.ncId = d.ncId ∧ d'.schema = d.schema.map NcSchema.toBytes :=
  ⟨d.toBytes, ofWire_of_RT (ncDef_RT hd) h rest, rfl, rfl⟩

/-- C30: node data reads back with the same size, digest, locators, definitions and vendors, lists in order. -/
theorem C30_nodeData_roundtrip (d : NodeData) (hs : ∀ k, d.subtreeSize = some k → k < 2 ^ 64)
    (hd : ∀ c ∈ d.ncDefs, ∀ k, c.ncId = some k → k < 2 ^ 64) (w : Bytes) (h : wireOf NodeData.tlv d = .ok w)
    (rest : Bytes) :
    ∃ d', ofWire NodeData.parse (w ++ rest) = .ok d' ∧ d'.subtreeSize = d.subtreeSize ∧
      d'.subtreeDigest = d.subtreeDigest ∧ d'.locators = d.locators.map (·.map Link.toBytes) ∧
      d'.ncDefs = d.ncDefs.map NcDef.toBytes ∧ d'.vendors = d.vendors :=
  ⟨d.toBytes, ofWire_of_RT (nodeData_RT ⟨hs, hd⟩) h rest, rfl, rfl, rfl, rfl, rfl⟩

/-- C30: a schema with protocol flags cannot even be built. -/
theorem C30_flags_unbuildable (ls : Option (List Link)) (n : Option Name) (s : Option Nat) (f : Bytes) (t : Tlv) :
    NcSchema.tlv (.hash ls (some f)) ≠ .ok t ∧ NcSchema.tlv (.prefixed n ls (some f)) ≠ .ok t ∧
    NcSchema.tlv (.segmented n s ls (some f)) ≠ .ok t := by
  refine ⟨fun h => ?_, fun h => ?_, fun h => ?_⟩
  · obtain ⟨_, _, h⟩ := bind_eq_ok.mp h
    cases h
  · obtain ⟨_, _, h⟩ := bind_eq_ok.mp h
    obtain ⟨_, _, h⟩ := bind_eq_ok.mp h
    cases h
  · obtain ⟨_, _, h⟩ := bind_eq_ok.mp h
    obtain ⟨_, _, h⟩ := bind_eq_ok.mp h
    obtain ⟨_, _, h⟩ := bind_eq_ok.mp h
    cases h

/-- Node data with everything in it. -/
def exampleNodeData : NodeData :=
  { subtreeSize := some 5000, subtreeDigest := some ⟨1, [1, 2]⟩,
    locators := some [{ name := some ⟨[.nameSegment [97]]⟩ }, { name := some ⟨[⟨5, [1], true⟩]⟩, digest := some ⟨1, [3]⟩ }],
    ncDefs := [⟨some 1, some (.hash none none)⟩, ⟨some 2, some (.prefixed (some ⟨[.nameSegment [98]]⟩) none none)⟩,
               ⟨some 3, some (.segmented (some ⟨[.nameSegment [98]]⟩) (some 5) none none)⟩],
    vendors := [⟨77, [1, 2, 3]⟩, ⟨0xFFFFFF, []⟩] }

example : (wireOf NodeData.tlv exampleNodeData).map List.length = .ok 139 := by decide +kernel

/-! ## C32 -/

/-- C32: an AEAD context reads back with the same key number, nonce, mode and KDF data. -/
theorem C32_aeadCtx_roundtrip (d : AeadData) (hk : d.keyNumber < 2 ^ 64) (hm : ∀ m, d.mode = some m → m < 2 ^ 64)
    (hkdf : ∀ k, d.kdfData = some k → k.kdfAlg < 2 ^ 64) (w : Bytes)
    (h : wireOf SecurityCtx.tlv (.aead d) = .ok w) (rest : Bytes) :
    ofWire SecurityCtx.parse (w ++ rest) = .ok (.aead d) :=
  ofWire_of_RT (securityCtx_RT (s := .aead d) ⟨hk, hm, hkdf⟩) h rest

/-- C32: an RSA-OAEP context without a key wrapper reads back with the same fields and without a wrapper. -/
theorem C32_rsaOaepCtx_roundtrip_no_wrapper (d : AeadData) (hk : d.keyNumber < 2 ^ 64)
    (hm : ∀ m, d.mode = some m → m < 2 ^ 64) (hkdf : ∀ k, d.kdfData = some k → k.kdfAlg < 2 ^ 64)
    (bytes : Bytes) (h : wireOf SecurityCtx.tlv (.rsaOaep d none) = .ok bytes) (rest : Bytes) :
    ofWire SecurityCtx.parse (bytes ++ rest) = .ok (.rsaOaep d none) :=
  ofWire_of_RT (securityCtx_RT (s := .rsaOaep d none) ⟨⟨hk, hm, hkdf⟩, by simp⟩) h rest

/-- C32: an RSA-OAEP context with a key wrapper reads back with the same AEAD fields, key id, key link, hash algorithm and
wrapped key. -/
theorem C32_rsaOaepCtx_roundtrip (d : AeadData) (w : RsaOaepWrapper) (hk : d.keyNumber < 2 ^ 64)
    (hm : ∀ m, d.mode = some m → m < 2 ^ 64) (hkdf : ∀ k, d.kdfData = some k → k.kdfAlg < 2 ^ 64)
    (hw : ∀ a, w.hashAlg = some a → a < 2 ^ 64) (bytes : Bytes)
    (h : wireOf SecurityCtx.tlv (.rsaOaep d (some w)) = .ok bytes) (rest : Bytes) :
    ∃ w', ofWire SecurityCtx.parse (bytes ++ rest) = .ok (.rsaOaep d (some w')) ∧ w'.keyId = w.keyId ∧
      w'.keyLink = w.keyLink.map Link.toBytes ∧ w'.hashAlg = w.hashAlg ∧ w'.wrappedKey = w.wrappedKey :=
  ⟨w.toBytes, ofWire_of_RT (securityCtx_RT (s := .rsaOaep d (some w)) ⟨⟨hk, hm, hkdf⟩, fun x hx => by cases hx; exact hw⟩)
    h rest, rfl, rfl, rfl, rfl⟩

/-- A context with every field. -/
def exampleCtx : SecurityCtx :=
  .rsaOaep ⟨500, [1, 2, 3, 4, 5, 6, 7, 8], some 4, some ⟨1, some [9, 9]⟩⟩
    (some ⟨⟨1, [7, 7, 7]⟩, some { name := some ⟨[.nameSegment [107]]⟩ }, some 1, some [3, 1, 4, 1, 5]⟩)

example : (wireOf SecurityCtx.tlv exampleCtx).map List.length = .ok 84 := by decide +kernel

/-! ## C31 -/

/-- The integers of a manifest fit 64 bits. -/
def Manifest.Fits64 (m : Manifest) : Prop :=
  (∀ s, m.securityCtx = some s → s.aeadData.keyNumber < 2 ^ 64 ∧ (∀ k, s.aeadData.mode = some k → k < 2 ^ 64) ∧
    (∀ k, s.aeadData.kdfData = some k → k.kdfAlg < 2 ^ 64) ∧
    ∀ d w k, s = .rsaOaep d (some w) → w.hashAlg = some k → k < 2 ^ 64) ∧
  ∀ n, m.node = .plain n → n.Fits64

theorem Manifest.fits_of_fits64 {m : Manifest} (h : m.Fits64) : m.Fits := by
  refine ⟨fun s hs => ?_, ?_⟩
  · obtain ⟨h1, h2, h3, h4⟩ := h.1 s hs
    cases s with
    | aead d => exact ⟨h1, h2, h3⟩
    | rsaOaep d w =>
      refine ⟨⟨h1, h2, h3⟩, fun x hx => ?_⟩
      subst hx
      exact fun k hk => h4 d x k rfl hk
  · have := h.2
    cases hn : m.node with
    | plain n => exact this n hn
    | encrypted c => trivial

/-- The node was built without `pad_length`. -/
def Manifest.Unpadded (m : Manifest) : Prop := ∀ n, m.node = .plain n → n.padLength = none

theorem Node.tlv_toBytes {n : Node} (h : n.padLength = none) : n.toBytes.tlv = n.tlv := by
  rw [Node.tlv, Node.members_toBytes, Node.tlv, h]
  rfl

theorem Manifest.serialize_toBytes {m : Manifest} (h : m.Unpadded) : m.toBytes.serialize = m.serialize := by
  have hn : m.node.toBytes.tlv = m.node.tlv := by
    cases hm : m.node with
    | plain n => exact Node.tlv_toBytes (h n hm)
    | encrypted c => rfl
  simp only [Manifest.serialize, Manifest.members, Manifest.toBytes, optTlv_map SecurityCtx.tlv_toBytes, hn]

/-- C31: a manifest put in a packet (with any name and whole-second expiry), serialized and read back, yields a manifest
with the same security context, auth tag, encrypted node or node data and hash groups; it is `==` to the original (same
wire bytes) when the node was built without padding. -/
theorem C31_manifest_roundtrip (now : F64) (m : Manifest) (hm : m.Fits64) (name : Option Name) (expiry : Option F64)
    (he : ∀ e, expiry = some e → ∃ n, n < 2 ^ 40 ∧ e = F64.ofNat n) (p : Packet) (hp : m.packet name expiry = .ok p)
    (w : Bytes) (hw : p.serialize = .ok w) :
    ∃ p' m', Packet.deserialize now w = .ok p' ∧ Manifest.fromContentObject p'.body = .ok m' ∧
      m'.securityCtx = m.securityCtx.map SecurityCtx.toBytes ∧ m'.authTag = m.authTag ∧
      (∀ c, m.node = .encrypted c → m'.node = .encrypted c) ∧
      (∀ n, m.node = .plain n → m'.node = .plain ⟨n.nodeData.map NodeData.toBytes, n.hashGroups, none⟩) ∧
      (m.Unpadded → m'.serialize = m.serialize) := by
  obtain ⟨co, hco, hpk⟩ := bind_eq_ok.mp hp
  obtain ⟨mw, hmw, hc⟩ := bind_eq_ok.mp hco
  obtain ⟨rfl, _⟩ := construct_inv hc
  have hpb : p.body = { name := name, payloadType := some PT_MANIFEST, payload := some mw, expiryTime := expiry } := by
    obtain ⟨tb, htb, h⟩ := bind_eq_ok.mp hpk
    simp only [mkPacket, Option.isSome_none, ne_eq, not_true, if_false] at h
    obtain ⟨w, hw, h⟩ := bind_eq_ok.mp h
    cases h
    rfl
  have hpa : p.alg = none := by
    obtain ⟨tb, htb, h⟩ := bind_eq_ok.mp hpk
    simp only [mkPacket, Option.isSome_none, ne_eq, not_true, if_false] at h
    obtain ⟨w, hw, h⟩ := bind_eq_ok.mp h
    cases h
    rfl
  have hs : p.WholeSeconds := by
    rw [Packet.WholeSeconds, hpb, hpa]
    exact ⟨he, by simp, by simp⟩
  obtain ⟨p', hd, _, _, _, _, hpt, hpl, _⟩ :=
    C17_packet_roundtrip now p (.inl ⟨_, hpk⟩) hs (by simp [hpa]) w hw
  have hr := manifest_RT (Manifest.fits_of_fits64 hm) hmw
  refine ⟨p', m.toBytes, hd, ?_, rfl, rfl, ?_, ?_, fun h => Manifest.serialize_toBytes h⟩
  · rw [hpb] at hpt hpl
    simp [Manifest.fromContentObject, hpt, hpl, hr]
  · intro c hc; simp [Manifest.toBytes, hc, ManifestNode.toBytes]
  · intro n hn; simp [Manifest.toBytes, hn, ManifestNode.toBytes, Node.toBytes]

/-- C31: with padding the manifest read back is not `==` to the original, although it has the same contents. -/
theorem C31_padded_manifest_differs (n : Node) (L : Nat) (hL : L ≤ 65539) (w0 : Bytes)
    (h0 : wireOf Node.tlv { n with padLength := none } = .ok w0) (hlen : w0.length + 4 ≤ L) (hf : n.Fits64) :
    ∃ w m', Manifest.serialize { node := .plain { n with padLength := some (L : Int) } } = .ok w ∧
      Manifest.deserialize w = .ok m' ∧ m'.serialize ≠ .ok w := by
  obtain ⟨w, hw, hlen'⟩ := C29_padded_size n w0 h0 L hL
  rw [if_pos hlen] at hlen'
  obtain ⟨t, ht, hv, rfl⟩ := wireOf_ok hw
  have hser : Manifest.serialize { node := .plain { n with padLength := some (L : Int) } } = .ok t.bytes := by
    simp only [Manifest.serialize, Manifest.members, optTlv, ManifestNode.tlv, ht, ok_bind, pure_eq_ok]
    rw [concatTlvs_of_valid (by simpa using hv)]
    simp
  have hr := manifest_RT (m := { node := .plain { n with padLength := some (L : Int) } }) ⟨by simp, hf⟩ hser
  refine ⟨t.bytes, _, hser, hr, ?_⟩
  intro hbad
  obtain ⟨t0, ht0, hv0, rfl⟩ := wireOf_ok h0
  have e1 : Node.toBytes { n with padLength := some (L : Int) } = Node.toBytes { n with padLength := none } := rfl
  simp only [Manifest.toBytes, ManifestNode.toBytes, Option.map_none, e1] at hbad
  simp only [Manifest.serialize, Manifest.members, optTlv, ManifestNode.tlv,
    Node.tlv_toBytes (n := { n with padLength := none }) rfl, ht0, ok_bind, pure_eq_ok] at hbad
  rw [concatTlvs_of_valid (by simpa using hv0)] at hbad
  have := congrArg List.length (Except.ok.inj hbad)
  simp at this hlen' hlen
  omega

/-- An encrypted manifest with context and tag. -/
def exampleManifest : Manifest := { securityCtx := some exampleCtx, node := .encrypted [1, 2, 3], authTag := some [4, 5] }

example : ((exampleManifest.packet (some ⟨[.nameSegment [97]]⟩) (some (F64.ofNat 1700000000))).bind
    Packet.serialize).map List.length = .ok 139 := by decide +kernel

end Ccnpy
