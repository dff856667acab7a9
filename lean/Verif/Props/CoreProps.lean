import Verif.Lemmas.Fold

/-!
# Properties C09-C16: names, hash values, links, content objects, timestamps
-/

namespace Ccnpy

/-- What a reader can observe of a name apart from the Python container type: type and bytes of each component. -/
def Name.view (n : Name) : List (Nat × Bytes) := n.components.map (fun c => (c.type, c.value))

theorem Name.view_toBytes (n : Name) : n.toBytes.view = n.view := by
  simp [Name.view, Name.toBytes, NameComponent.toBytes]

theorem ofWire_of_RT {α : Type} {ty : Nat} {tlv : α → Py Tlv} {parse : Tlv → Py α} {x y : α} (hrt : RT ty tlv parse x y)
    {w : Bytes} (h : wireOf tlv x = .ok w) (rest : Bytes) : ofWire parse (w ++ rest) = .ok y := by
  obtain ⟨t, ht, hv, rfl⟩ := wireOf_ok h
  obtain ⟨_, _, hp⟩ := hrt t ht
  simp [ofWire, Tlv.deserialize_bytes t hv, hp]

/-! ## C09 -/

/-- C09: a name read back from its wire form (with anything after it) has the same components in order. -/
theorem C09_name_roundtrip (n : Name) (w : Bytes) (h : wireOf Name.tlv n = .ok w) (rest : Bytes) :
    ∃ n', ofWire Name.parse (w ++ rest) = .ok n' ∧ n'.view = n.view :=
  ⟨n.toBytes, ofWire_of_RT (name_RT n) h rest, Name.view_toBytes n⟩

/-- C09: names with different component lists have different wire bytes. -/
theorem C09_name_injective (a b : Name) (w : Bytes) (ha : wireOf Name.tlv a = .ok w) (hb : wireOf Name.tlv b = .ok w) :
    a.view = b.view := by
  obtain ⟨a', h1, e1⟩ := C09_name_roundtrip a w ha []
  obtain ⟨b', h2, e2⟩ := C09_name_roundtrip b w hb []
  rw [h1] at h2
  cases h2
  rw [← e1, e2]

/-- The encoded size of a list of components. -/
def componentsSize : List NameComponent → Nat
  | [] => 0
  | c :: l => 4 + c.value.length + componentsSize l

theorem name_listTlv (l : List NameComponent) (h : ∀ c ∈ l, c.type ≤ 0xFFFF) (hs : componentsSize l ≤ 0xFFFF) :
    ∃ ts, listTlv NameComponent.tlv l = .ok ts ∧ (∀ t ∈ ts, t.Valid) ∧ (bytesAll ts).length = componentsSize l := by
  induction l with
  | nil => exact ⟨[], rfl, by simp, rfl⟩
  | cons c l ih =>
    simp only [componentsSize] at hs
    obtain ⟨ts, h1, h2, h3⟩ := ih (fun c hc => h c (by simp [hc])) (by omega)
    have hv : (⟨c.type, c.value⟩ : Tlv).Valid := ⟨h c (by simp), by show c.value.length ≤ 0xFFFF; omega⟩
    have hc : NameComponent.tlv c = .ok ⟨c.type, c.value⟩ := mkTlv_of_valid (t := ⟨c.type, c.value⟩) hv
    refine ⟨⟨c.type, c.value⟩ :: ts, by simp [listTlv, hc, h1], by simpa using ⟨hv, h2⟩, ?_⟩
    simp [h3, componentsSize, Tlv.len, Tlv.length]

/-- C09: every list of components with 16-bit types whose encoding fits can be made into a name. -/
theorem C09_name_constructible (n : Name) (ht : ∀ c ∈ n.components, c.type ≤ 0xFFFF)
    (hs : componentsSize n.components ≤ 0xFFFF) :
    ∃ w, wireOf Name.tlv n = .ok w ∧ w.length = 4 + componentsSize n.components := by
  obtain ⟨ts, h1, h2, h3⟩ := name_listTlv _ ht hs
  have hv : (⟨T_NAME, bytesAll ts⟩ : Tlv).Valid := ⟨(by decide : T_NAME ≤ 0xFFFF), by show (bytesAll ts).length ≤ 0xFFFF; omega⟩
  have : n.tlv = .ok ⟨T_NAME, bytesAll ts⟩ := by
    simp only [Name.tlv, h1, ok_bind]; exact container_of_valid h2 hv
  exact ⟨_, wireOf_of_tlv this hv, by simp [Tlv.len, Tlv.length, h3]⟩

example : wireOf Name.tlv ⟨[⟨1, [97], false⟩, ⟨5, [3], true⟩]⟩ = .ok [0, 0, 0, 10, 0, 1, 0, 1, 97, 0, 5, 0, 1, 3] := by
  decide

/-! ## C10 -/

/-- C10: `append` adds exactly the given component at the end and keeps the others in order. -/
theorem C10_append (n n' : Name) (c : NameComponent) (h : n.append c = .ok n') :
    n'.components = n.components ++ [c] := by
  obtain ⟨rfl, _⟩ := construct_inv h
  rfl

theorem listTlv_components_size {l : List NameComponent} {ts : List Tlv} (h : listTlv NameComponent.tlv l = .ok ts) :
    (∀ c ∈ l, c.type ≤ 0xFFFF) ∧ (bytesAll ts).length = componentsSize l := by
  induction l generalizing ts with
  | nil => cases h; exact ⟨by simp, rfl⟩
  | cons c l ih =>
    obtain ⟨t, ht, h⟩ := bind_eq_ok.mp h
    obtain ⟨us, hus, h⟩ := bind_eq_ok.mp h
    cases h
    obtain ⟨rfl, hv⟩ := mkTlv_ok ht
    obtain ⟨h1, h2⟩ := ih hus
    refine ⟨by simpa using ⟨hv.1, h1⟩, ?_⟩
    simp [h2, componentsSize, Tlv.len, Tlv.length]

/-- C10: `append` succeeds exactly if all types have at most 16 bits and the components, each with four bytes in front, take at
most 65535 bytes. -/
theorem C10_append_succeeds (n : Name) (c : NameComponent) :
    (∃ n', n.append c = .ok n') ↔
      (∀ d ∈ n.components ++ [c], d.type ≤ 0xFFFF) ∧ ((n.components ++ [c]).map (fun d => 4 + d.value.length)).sum ≤ 0xFFFF := by
  have hsum : ∀ l : List NameComponent, (l.map (fun d => 4 + d.value.length)).sum = componentsSize l := by
    intro l
    induction l with
    | nil => rfl
    | cons d l ih => simp [componentsSize, ih]
  rw [hsum]
  constructor
  · rintro ⟨n', h⟩
    obtain ⟨rfl, t, ht⟩ := construct_inv h
    obtain ⟨l, hl, _, rfl, hv⟩ := Name.tlv_ok ht
    obtain ⟨h1, h2⟩ := listTlv_components_size hl
    exact ⟨h1, h2 ▸ hv.2⟩
  · rintro ⟨h1, h2⟩
    obtain ⟨w, hw, _⟩ := C09_name_constructible ⟨n.components ++ [c]⟩ h1 h2
    obtain ⟨t, ht, _⟩ := bind_eq_ok.mp hw
    exact ⟨_, construct_ok ht⟩

theorem chunk_ok {i : Nat} {c : NameComponent} (h : NameComponent.chunk i = .ok c) :
    c = ⟨T_CHUNKID, beBytes (numWidth i) i, true⟩ := by
  simp only [NameComponent.chunk, numberToArray_nat, ok_bind] at h
  exact (construct_inv h).1

theorem manifestId_ok {i : Nat} {c : NameComponent} (h : NameComponent.manifestId i = .ok c) :
    c = ⟨T_MANIFESTID, beBytes (numWidth i) i, true⟩ := by
  simp only [NameComponent.manifestId, numberToArray_nat, ok_bind] at h
  exact (construct_inv h).1

/-- C10: the two id-appending functions add one component of their own type holding the id, and keep the others. -/
theorem C10_append_id (n n' : Name) (i : Nat) (hi : i < 2 ^ 64) :
    (n.appendChunkId i = .ok n' → ∃ v, n'.view = n.view ++ [(5, v)] ∧ arrayToNumber v = i) ∧
    (n.appendManifestId i = .ok n' → ∃ v, n'.view = n.view ++ [(16, v)] ∧ arrayToNumber v = i) := by
  constructor
  · intro h
    obtain ⟨c, hc, h⟩ := bind_eq_ok.mp h
    rw [Name.view, C10_append n n' c h, chunk_ok hc]
    exact ⟨_, by simp [Name.view, T_CHUNKID], arrayToNumber_numBytes i hi⟩
  · intro h
    obtain ⟨c, hc, h⟩ := bind_eq_ok.mp h
    rw [Name.view, C10_append n n' c h, manifestId_ok hc]
    exact ⟨_, by simp [Name.view, T_MANIFESTID], arrayToNumber_numBytes i hi⟩

/-- C10: different ids below 2^64 give names with different wire bytes, for both kinds of id. -/
theorem C10_append_distinct (n a b : Name) (i j : Nat) (hi : i < 2 ^ 64) (hj : j < 2 ^ 64) (hij : i ≠ j)
    (h : (n.appendChunkId i = .ok a ∧ n.appendChunkId j = .ok b) ∨
         (n.appendManifestId i = .ok a ∧ n.appendManifestId j = .ok b)) (w : Bytes)
    (ha : wireOf Name.tlv a = .ok w) : wireOf Name.tlv b ≠ .ok w := by
  intro hb
  have hv := C09_name_injective a b w ha hb
  rcases h with ⟨h1, h2⟩ | ⟨h1, h2⟩
  · obtain ⟨v, e1, n1⟩ := (C10_append_id n a i hi).1 h1
    obtain ⟨u, e2, n2⟩ := (C10_append_id n b j hj).1 h2
    rw [e1, e2] at hv
    simp at hv
    exact hij (by rw [← n1, ← n2, hv])
  · obtain ⟨v, e1, n1⟩ := (C10_append_id n a i hi).2 h1
    obtain ⟨u, e2, n2⟩ := (C10_append_id n b j hj).2 h2
    rw [e1, e2] at hv
    simp at hv
    exact hij (by rw [← n1, ← n2, hv])

/-- C10: a chunk id and a manifest id never give the same name, whatever the ids. -/
theorem C10_append_kinds_distinct (n a b : Name) (i j : Nat) (h1 : n.appendChunkId i = .ok a)
    (h2 : n.appendManifestId j = .ok b) (w : Bytes) (ha : wireOf Name.tlv a = .ok w) : wireOf Name.tlv b ≠ .ok w := by
  intro hb
  have hv := C09_name_injective a b w ha hb
  obtain ⟨c, hc, h1⟩ := bind_eq_ok.mp h1
  obtain ⟨d, hd, h2⟩ := bind_eq_ok.mp h2
  rw [Name.view, Name.view, C10_append n a c h1, C10_append n b d h2, chunk_ok hc, manifestId_ok hd] at hv
  simp [T_CHUNKID, T_MANIFESTID] at hv

example : (⟨[⟨1, [97], false⟩]⟩ : Name).appendChunkId 300 = .ok ⟨[⟨1, [97], false⟩, ⟨5, [1, 44], true⟩]⟩ := by decide

/-! ## C11 -/

theorem pyEq_components (l : List NameComponent) :
    ((l.zip (l.map NameComponent.toBytes)).all (fun p => p.1.pyEq p.2)) = l.all (fun c => !c.isArray) := by
  induction l with
  | nil => rfl
  | cons c l ih =>
    simp only [List.map_cons, List.zip_cons_cons, List.all_cons, ih]
    congr 1
    cases h : c.isArray <;> simp [NameComponent.pyEq, NameComponent.toBytes, h]

/-- C11: a constructible name compares equal to its parsed copy exactly when none of its components is held as an
`array`; the wire bytes agree in every case. -/
theorem C11_name_eq_after_roundtrip (n n' : Name) (w : Bytes) (h : wireOf Name.tlv n = .ok w)
    (hp : ofWire Name.parse w = .ok n') :
    (n.pyEq n' = true ↔ ∀ c ∈ n.components, c.isArray = false) ∧ wireOf Name.tlv n' = .ok w := by
  have h1 := ofWire_of_RT (name_RT n) h []
  rw [List.append_nil, hp] at h1
  cases h1
  obtain ⟨t, ht, hv, rfl⟩ := wireOf_ok h
  refine ⟨?_, by simpa [wireOf] using h⟩
  simp only [Name.pyEq, Name.tlv_toBytes, ht]
  rw [Name.toBytes]
  simp only [List.length_map, BEq.rfl, Bool.true_and, pyEq_components]
  simp [Tlv.pyEq]

/-- C11: in particular a locally made chunk name never equals its parsed copy. -/
theorem C11_chunk_name_never_equal (n a b : Name) (i : Nat) (w : Bytes) (ha : n.appendChunkId i = .ok a)
    (h : wireOf Name.tlv a = .ok w) (hp : ofWire Name.parse w = .ok b) : a.pyEq b = false := by
  obtain ⟨c, hc, ha⟩ := bind_eq_ok.mp ha
  have hm : c ∈ a.components := by rw [C10_append n a c ha]; simp
  cases hq : a.pyEq b with
  | false => rfl
  | true =>
    have := (C11_name_eq_after_roundtrip a b w h hp).1.mp hq c hm
    rw [chunk_ok hc] at this
    cases this

example : (⟨[⟨1, [97], false⟩]⟩ : Name).pyEq ⟨[⟨1, [97], false⟩]⟩ = true := by decide
example : (⟨[⟨5, [7], true⟩]⟩ : Name).pyEq ⟨[⟨5, [7], false⟩]⟩ = false := by decide

/-! ## C13 -/

/-- C13: hash values. -/
theorem C13_hashvalue_roundtrip (h : HashValue) (w : Bytes) (hw : wireOf HashValue.tlv h = .ok w) (rest : Bytes) :
    HashValue.deserialize (w ++ rest) = .ok h := by
  obtain ⟨t, ht, hv, rfl⟩ := wireOf_ok hw
  simp [HashValue.deserialize, Tlv.deserialize_bytes t hv, hashValue_parse ht]

/-- C13: key ids and every other TLV that carries a hash value (any TLV type). -/
theorem C13_hashtlv_roundtrip (ty : Nat) (h : HashValue) (w : Bytes) (hw : wireOf (hashTlv ty) h = .ok w)
    (rest : Bytes) : ofWire (hashParse ty) (w ++ rest) = .ok h :=
  ofWire_of_RT (hash_RT h) hw rest

/-- C13: links with any combination of fields. -/
theorem C13_link_roundtrip (l : Link) (w : Bytes) (hw : l.wire = .ok w) :
    ∃ l', Link.deserialize w = .ok l' ∧ l'.name.map Name.view = l.name.map Name.view ∧
      l'.keyid = l.keyid ∧ l'.digest = l.digest := by
  refine ⟨l.toBytes, link_RT hw, ?_, rfl, rfl⟩
  cases hn : l.name <;> simp [Link.toBytes, hn, Name.view_toBytes]

/-- C13: key links. -/
theorem C13_keylink_roundtrip (l : Link) (w : Bytes) (hw : wireOf (linkTlv T_KEYLINK) l = .ok w) (rest : Bytes) :
    ∃ l', ofWire KeyLink.parse (w ++ rest) = .ok l' ∧ l'.name.map Name.view = l.name.map Name.view ∧
      l'.keyid = l.keyid ∧ l'.digest = l.digest := by
  refine ⟨l.toBytes, ofWire_of_RT (keyLink_RT l) hw rest, ?_, rfl, rfl⟩
  cases hn : l.name <;> simp [Link.toBytes, hn, Name.view_toBytes]

example : (Link.mk (some ⟨[⟨1, [97], false⟩]⟩) none (some ⟨1, [9]⟩)).wire =
    .ok [0, 0, 0, 5, 0, 1, 0, 1, 97, 0, 3, 0, 5, 0, 1, 0, 1, 9] := by decide
example : wireOf (hashTlv T_KEYID) ⟨1, [1, 2]⟩ = .ok [0, 9, 0, 6, 0, 1, 0, 2, 1, 2] := by decide

/-! ## C14 -/

/-- C14: all fields of a content object survive the wire, in every combination of presence and absence. -/
theorem C14_contentobject_roundtrip (c : ContentObject) (w : Bytes) (hw : wireOf ContentObject.tlv c = .ok w)
    (he : ∀ e, c.expiryTime = some e → ∃ n, n < 2 ^ 40 ∧ e = F64.ofNat n)
    (hf : ∀ n, c.finalChunkId = some n → n < 2 ^ 64) (rest : Bytes) :
    ∃ c', ofWire ContentObject.parse (w ++ rest) = .ok c' ∧
      c'.name.map Name.view = c.name.map Name.view ∧ c'.payloadType = c.payloadType ∧ c'.payload = c.payload ∧
      c'.expiryTime = c.expiryTime ∧ c'.finalChunkId = c.finalChunkId := by
  have hs : c.Stable := by
    refine ⟨hf, fun e h => ?_⟩
    obtain ⟨n, hn, rfl⟩ := he e h
    exact stable_whole n (by omega)
  refine ⟨c.toBytes, ofWire_of_RT (contentObject_RT hs) hw rest, ?_, rfl, rfl, rfl, rfl⟩
  cases hn : c.name <;> simp [ContentObject.toBytes, hn, Name.view_toBytes]

/-- C14: content objects with different observable fields have different bytes (same hypotheses). -/
theorem C14_contentobject_injective (c d : ContentObject) (w : Bytes) (hc : wireOf ContentObject.tlv c = .ok w)
    (hd : wireOf ContentObject.tlv d = .ok w)
    (he : ∀ e, c.expiryTime = some e ∨ d.expiryTime = some e → ∃ n, n < 2 ^ 40 ∧ e = F64.ofNat n)
    (hf : ∀ n, c.finalChunkId = some n ∨ d.finalChunkId = some n → n < 2 ^ 64) :
    c.name.map Name.view = d.name.map Name.view ∧ c.payloadType = d.payloadType ∧ c.payload = d.payload ∧
      c.expiryTime = d.expiryTime ∧ c.finalChunkId = d.finalChunkId := by
  obtain ⟨c', h1, a1, a2, a3, a4, a5⟩ := C14_contentobject_roundtrip c w hc (fun e h => he e (.inl h))
    (fun n h => hf n (.inl h)) []
  obtain ⟨d', h2, b1, b2, b3, b4, b5⟩ := C14_contentobject_roundtrip d w hd (fun e h => he e (.inr h))
    (fun n h => hf n (.inr h)) []
  rw [h1] at h2
  cases h2
  exact ⟨a1.symm.trans b1, a2.symm.trans b2, a3.symm.trans b3, a4.symm.trans b4, a5.symm.trans b5⟩

example : (wireOf ContentObject.tlv
    { name := some ⟨[⟨1, [97], false⟩]⟩, payloadType := some 0, payload := some [1, 2, 3],
      expiryTime := some (F64.ofNat 1700000000), finalChunkId := some 9 }).toOption.isSome = true := by decide +kernel

/-! ## C15 -/

/-- C15: an accepted content object contains only known field types, each at most once. -/
theorem C15_no_duplicates_no_unknown (l : List Tlv) (hl : ∀ t ∈ l, t.Valid) (ty : Nat) (c : ContentObject)
    (h : ContentObject.parse ⟨ty, bytesAll l⟩ = .ok c) :
    (∀ t ∈ l, t.type ∈ [0, 5, 1, 6, 7]) ∧ (l.map Tlv.type).Nodup := by
  obtain ⟨_, _, l', hl', hb, hf⟩ := ContentObject.parse_inv h
  have : l = l' := bytesAll_inj hl hl' hb
  subst this
  obtain ⟨h1, h2, _⟩ := foldlM_nodup (fun ty => ty ∈ [T_NAME, T_PAYLDTYPE, T_PAYLOAD, T_EXPIRY, T_FINAL_CHUNK_ID])
    ContentObject.has ContentObject.step_spec hf
  exact ⟨fun t ht => (h1 t ht).1, h2⟩

/-- C15, as the reader sees it: a field repeated anywhere, or an unknown field anywhere, means rejection. -/
theorem C15_rejects (pre mid post : List Tlv) (a b : Tlv) (ty : Nat)
    (hl : ∀ t ∈ pre ++ [a] ++ mid ++ [b] ++ post, t.Valid)
    (hab : a.type = b.type ∨ a.type ∉ [0, 5, 1, 6, 7] ∨ b.type ∉ [0, 5, 1, 6, 7]) :
    ∃ e, ContentObject.parse ⟨ty, bytesAll (pre ++ [a] ++ mid ++ [b] ++ post)⟩ = .error e := by
  cases h : ContentObject.parse ⟨ty, bytesAll (pre ++ [a] ++ mid ++ [b] ++ post)⟩ with
  | error e => exact ⟨e, rfl⟩
  | ok c =>
    exfalso
    obtain ⟨h1, h2⟩ := C15_no_duplicates_no_unknown _ hl ty c h
    rcases hab with hab | hab | hab
    · simp only [List.map_append, List.map_cons, List.map_nil, hab] at h2
      rw [List.nodup_append] at h2
      have h3 := h2.1
      rw [List.nodup_append] at h3
      exact h3.2.2 b.type (by simp) b.type (by simp) rfl
    · exact hab (h1 a (by simp))
    · exact hab (h1 b (by simp))

example : ContentObject.parse ⟨2, bytesAll [⟨5, [0]⟩, ⟨5, [0]⟩]⟩ = .error .assertionError := by decide
example : ContentObject.parse ⟨2, bytesAll [⟨5, [0]⟩, ⟨1, [8, 9]⟩]⟩ =
    .ok { payloadType := some 0, payload := some [8, 9] } := by decide

/-! ## C16 -/

/-- The millisecond count written again by a node that parsed a timestamp TLV carrying `ms`. -/
def rewritten (ty : Nat) (ms : Nat) : Py Nat := do
  let t ← createUint64 ty ms
  let x ← timestampParse ty t
  let t' ← timestampTlv ty x
  return t'.valueAsNumber

theorem valueAsNumber_be8 (ty n : Nat) (h : n < 2 ^ 64) : Tlv.valueAsNumber ⟨ty, beBytes 8 n⟩ = n := by
  rw [Tlv.valueAsNumber, arrayToNumber_beBytes]; exact Nat.mod_eq_of_lt h

theorem rewritten_eq (ty ms : Nat) (hty : ty ≤ 0xFFFF) (h : ms < 2 ^ 64) (h2 : (secondsOfMsec ms).milliseconds < 2 ^ 64) :
    rewritten ty ms = .ok (secondsOfMsec ms).milliseconds := by
  have e1 := createUint64_nat ty ms hty
  have e2 := timestampTlv_eq hty h2
  have e3 : timestampParse ty ⟨ty, beBytes 8 ms⟩ = .ok (secondsOfMsec ms) := by
    rw [timestampParse, if_neg (by simp), valueAsNumber_be8 _ _ h, if_neg]
    · exact construct_ok e2
    · have := f64_no_overflow _ h
      have := fl_toInt_le ms
      omega
  simp only [rewritten, e1, e2, e3, ok_bind, pure_eq_ok, valueAsNumber_be8 _ _ h2]

/-- C16: whole seconds are exact. -/
theorem C16_whole_seconds_exact (ty n : Nat) (hty : ty ≤ 0xFFFF) (h : n * 1000 < 2 ^ 53) :
    rewritten ty (n * 1000) = .ok (n * 1000) := by
  have e : (secondsOfMsec (n * 1000)).milliseconds = n * 1000 := by
    rw [secondsOfMsec_whole n h, milliseconds_whole n h]
  rw [rewritten_eq ty _ hty (by omega) (by rw [e]; omega), e]

/-- C16: in general at most one millisecond is lost per hop, and none is ever gained. -/
theorem C16_loses_at_most_one (ty ms : Nat) (hty : ty ≤ 0xFFFF) (h : ms < 2 ^ 50) :
    rewritten ty ms = .ok ms ∨ (0 < ms ∧ rewritten ty ms = .ok (ms - 1)) := by
  rcases hop_bound ms h with e | e
  · left; rw [rewritten_eq ty _ hty (by omega) (by omega), e]
  · right
    refine ⟨by omega, ?_⟩
    rw [rewritten_eq ty _ hty (by omega) (by omega)]
    congr 1; omega

/-- C16: a millisecond is lost for some timestamps, and repeated hops can lose more. -/
theorem C16_not_always_exact :
    rewritten T_EXPIRY 1001 = .ok 1000 ∧ rewritten T_EXPIRY 128004 = .ok 128003 ∧
      rewritten T_EXPIRY 128003 = .ok 128002 := by
  have h1 : (secondsOfMsec 1001).milliseconds = 1000 := by decide +kernel
  have h2 : (secondsOfMsec 128004).milliseconds = 128003 := by decide +kernel
  have h3 : (secondsOfMsec 128003).milliseconds = 128002 := by decide +kernel
  refine ⟨?_, ?_, ?_⟩
  · rw [rewritten_eq _ _ (by decide) (by decide) (by rw [h1]; decide), h1]
  · rw [rewritten_eq _ _ (by decide) (by decide) (by rw [h2]; decide), h2]
  · rw [rewritten_eq _ _ (by decide) (by decide) (by rw [h3]; decide), h3]

end Ccnpy
