import Verif.Model.Core
import Verif.Lemmas.Num

/-! # Helper lemmas about containers and core objects -/

namespace Ccnpy

/-- `x` is written as a TLV of type `ty` that parses to `y`. -/
def RT {α : Type} (ty : Nat) (tlv : α → Py Tlv) (parse : Tlv → Py α) (x y : α) : Prop :=
  ∀ t, tlv x = .ok t → t.type = ty ∧ t.Valid ∧ parse t = .ok y

theorem construct_ok {α : Type} {tlv : α → Py Tlv} {x : α} {t : Tlv} (h : tlv x = .ok t) :
    construct tlv x = .ok x := by simp [construct, h]

theorem construct_inv {α : Type} {tlv : α → Py Tlv} {x y : α} (h : construct tlv x = .ok y) :
    y = x ∧ ∃ t, tlv x = .ok t := by
  obtain ⟨t, ht, h⟩ := bind_eq_ok.mp h
  cases h
  exact ⟨rfl, t, ht⟩

theorem Tlv.serialize_ok {t : Tlv} {w : Bytes} (h : t.serialize = .ok w) : t.Valid ∧ w = t.bytes := by
  rw [Tlv.serialize_eq] at h
  split at h
  · rename_i hv; cases h; exact ⟨hv, rfl⟩
  · cases h

theorem Tlv.serialize_of_valid {t : Tlv} (h : t.Valid) : t.serialize = .ok t.bytes := by
  rw [Tlv.serialize_eq, if_pos h]

theorem concatTlvs_ok {l : List Tlv} {w : Bytes} (h : concatTlvs l = .ok w) :
    (∀ t ∈ l, t.Valid) ∧ w = bytesAll l := by
  induction l generalizing w with
  | nil => cases h; simp
  | cons t l ih =>
    obtain ⟨a, ha, h⟩ := bind_eq_ok.mp h
    obtain ⟨b, hb, h⟩ := bind_eq_ok.mp h
    obtain ⟨h1, rfl⟩ := ih hb
    obtain ⟨hv, rfl⟩ := Tlv.serialize_ok ha
    cases h
    exact ⟨by simpa using ⟨hv, h1⟩, rfl⟩

theorem concatTlvs_of_valid {l : List Tlv} (h : ∀ t ∈ l, t.Valid) : concatTlvs l = .ok (bytesAll l) := by
  induction l with
  | nil => rfl
  | cons t l ih =>
    simp only [concatTlvs, Tlv.serialize_of_valid (h t (by simp)), ih (fun t ht => h t (by simp [ht])), ok_bind,
      pure_eq_ok, bytesAll_cons]

theorem container_ok {ty : Nat} {l : List Tlv} {t : Tlv} (h : container ty l = .ok t) :
    (∀ x ∈ l, x.Valid) ∧ t = ⟨ty, bytesAll l⟩ ∧ t.Valid := by
  obtain ⟨w, hw, h⟩ := bind_eq_ok.mp h
  obtain ⟨hl, rfl⟩ := concatTlvs_ok hw
  obtain ⟨rfl, hv⟩ := mkTlv_ok h
  exact ⟨hl, rfl, hv⟩

theorem container_of_valid {ty : Nat} {l : List Tlv} (hl : ∀ x ∈ l, x.Valid) (hv : (⟨ty, bytesAll l⟩ : Tlv).Valid) :
    container ty l = .ok ⟨ty, bytesAll l⟩ := by
  obtain ⟨h1, h2⟩ := hv
  simp only [container, concatTlvs_of_valid hl, ok_bind, mkTlv_eq]
  exact if_pos ⟨h1, h2⟩

theorem tlv_len_pos (t : Tlv) : t.bytes ≠ [] := by
  intro h
  have := congrArg List.length h
  simp [Tlv.len] at this

theorem optTlv_some {α : Type} {tlv : α → Py Tlv} {x : α} {l : List Tlv} (h : optTlv tlv (some x) = .ok l) :
    ∃ t, tlv x = .ok t ∧ l = [t] := by
  obtain ⟨t, ht, h⟩ := bind_eq_ok.mp h
  cases h
  exact ⟨t, ht, rfl⟩

/-- Folding a loop body over the TLV of an optional field. -/
theorem foldlM_opt {σ α : Type} {step : σ → Tlv → Py σ} {tlv : α → Py Tlv} {o : Option α} {l : List Tlv} {s s' : σ}
    (h : optTlv tlv o = .ok l) (hn : o = none → s' = s)
    (hs : ∀ x t, o = some x → tlv x = .ok t → step s t = .ok s') : l.foldlM step s = .ok s' := by
  cases o with
  | none => cases h; simp [hn rfl]
  | some x =>
    obtain ⟨t, ht, rfl⟩ := optTlv_some h
    simp [List.foldlM_cons, hs x t rfl ht]

/-- Folding a loop body over the TLVs of a list field. -/
theorem foldlM_list {σ α : Type} {step : σ → Tlv → Py σ} {tlv : α → Py Tlv} {xs : List α} {l : List Tlv}
    (h : listTlv tlv xs = .ok l) (upd : List α → σ) (f : α → α)
    (hs : ∀ acc x t, x ∈ xs → tlv x = .ok t → step (upd acc) t = .ok (upd (acc ++ [f x]))) (acc : List α) :
    l.foldlM step (upd acc) = .ok (upd (acc ++ xs.map f)) := by
  induction xs generalizing l acc with
  | nil => cases h; simp
  | cons x xs ih =>
    obtain ⟨t, ht, h⟩ := bind_eq_ok.mp h
    obtain ⟨r, hr, h⟩ := bind_eq_ok.mp h
    cases h
    rw [List.foldlM_cons, hs acc x t (by simp) ht]
    simp only [ok_bind]
    rw [ih hr (fun acc x t hx => hs acc x t (by simp [hx]))]
    simp

theorem listTlv_cons_ok {α : Type} {tlv : α → Py Tlv} {x : α} {xs : List α} {l : List Tlv}
    (h : listTlv tlv (x :: xs) = .ok l) : ∃ t r, tlv x = .ok t ∧ listTlv tlv xs = .ok r ∧ l = t :: r := by
  obtain ⟨t, ht, h⟩ := bind_eq_ok.mp h
  obtain ⟨r, hr, h⟩ := bind_eq_ok.mp h
  cases h
  exact ⟨t, r, ht, hr, rfl⟩

theorem listTlv_congr {α : Type} {f g : α → Py Tlv} {xs : List α} (k : α → α) (h : ∀ x ∈ xs, f x = g (k x)) :
    listTlv f xs = listTlv g (xs.map k) := by
  induction xs with
  | nil => rfl
  | cons x xs ih =>
    simp only [listTlv, List.map_cons, h x (by simp), ih (fun x hx => h x (by simp [hx]))]

/-! ## Integers and octets -/

theorem intTlv_eq {ty n : Nat} (hty : ty ≤ 0xFFFF) : intTlv ty n = .ok ⟨ty, beBytes (numWidth n) n⟩ :=
  createVarint_nat ty n hty

theorem int_RT {ty n : Nat} (hty : ty ≤ 0xFFFF) (hn : n < 2 ^ 64) : RT ty (intTlv ty) (intParse ty) n n := by
  intro t h
  have h1 := intTlv_eq (n := n) hty
  rw [h1] at h
  cases h
  have := numWidth_le n
  refine ⟨rfl, ⟨hty, by simp; omega⟩, ?_⟩
  rw [intParse, if_neg (by simp)]
  simp only [Tlv.valueAsNumber, arrayToNumber_numBytes n hn]
  exact construct_ok h1

theorem octet_RT {ty : Nat} (v : Bytes) : RT ty (octetTlv ty) (octetParse ty) v v := by
  intro t h
  obtain ⟨rfl, hv⟩ := mkTlv_ok h
  refine ⟨rfl, hv, ?_⟩
  rw [octetParse, if_neg (by simp)]
  exact construct_ok h

/-! ## Names -/

/-- The name with every component held as `bytes`, as parsing produces. -/
def NameComponent.toBytes (c : NameComponent) : NameComponent := { c with isArray := false }

/-- The name with every component held as `bytes`, as parsing produces. -/
def Name.toBytes (n : Name) : Name := ⟨n.components.map NameComponent.toBytes⟩

@[simp] theorem NameComponent.tlv_toBytes (c : NameComponent) : c.toBytes.tlv = c.tlv := rfl

@[simp] theorem Name.tlv_toBytes (n : Name) : n.toBytes.tlv = n.tlv := by
  unfold Name.tlv Name.toBytes
  rw [← listTlv_congr (f := NameComponent.tlv) (g := NameComponent.tlv) NameComponent.toBytes (fun _ _ => rfl)]

theorem Name.tlv_ok {n : Name} {t : Tlv} (h : n.tlv = .ok t) :
    ∃ l, listTlv NameComponent.tlv n.components = .ok l ∧ (∀ x ∈ l, x.Valid) ∧ t = ⟨T_NAME, bytesAll l⟩ ∧ t.Valid := by
  obtain ⟨l, hl, h⟩ := bind_eq_ok.mp h
  obtain ⟨h1, h2, h3⟩ := container_ok h
  exact ⟨l, hl, h1, h2, h3⟩

theorem name_RT (n : Name) : RT T_NAME Name.tlv Name.parse n n.toBytes := by
  intro t h
  obtain ⟨l, hl, hv, rfl, hvt⟩ := Name.tlv_ok h
  refine ⟨rfl, hvt, ?_⟩
  rw [Name.parse, if_neg (by simp)]
  simp only [tlvLoop_bytesAll _ _ hv]
  rw [foldlM_list hl (fun x => x) NameComponent.toBytes (acc := [])]
  · simp only [ok_bind, List.nil_append]
    exact construct_ok (t := ⟨T_NAME, bytesAll l⟩) (by rw [← h]; exact Name.tlv_toBytes n)
  · intro acc x t hx ht
    obtain ⟨rfl, _⟩ := mkTlv_ok ht
    simp only [Name.parseStep]
    rw [construct_ok (x := (⟨x.type, x.value, false⟩ : NameComponent)) ht]
    rfl

/-! ## Hash values -/

theorem HashValue.tlv_ok {h : HashValue} {t : Tlv} (ht : h.tlv = .ok t) : t = ⟨h.alg, h.value⟩ ∧ t.Valid := mkTlv_ok ht

theorem hashValue_parse {h : HashValue} {t : Tlv} (ht : h.tlv = .ok t) : HashValue.parse t = .ok h := by
  obtain ⟨rfl, hv⟩ := mkTlv_ok ht
  exact construct_ok ht

theorem hashTlv_ok {ty : Nat} {h : HashValue} {t : Tlv} (ht : hashTlv ty h = .ok t) :
    ∃ u, h.tlv = .ok u ∧ u.Valid ∧ t = ⟨ty, u.bytes⟩ ∧ t.Valid := by
  obtain ⟨u, hu, ht⟩ := bind_eq_ok.mp ht
  obtain ⟨h1, h2, h3⟩ := container_ok ht
  exact ⟨u, hu, h1 u (by simp), by simpa using h2, h3⟩

theorem hash_inner {ty : Nat} {h : HashValue} {t : Tlv} (ht : hashTlv ty h = .ok t) :
    (do HashValue.parse (← Tlv.deserialize t.value)) = .ok h := by
  obtain ⟨u, hu, hv, rfl, _⟩ := hashTlv_ok ht
  have := Tlv.deserialize_bytes u hv []
  simp only [List.append_nil] at this
  simp only [this, ok_bind]
  exact hashValue_parse hu

theorem hash_RT {ty : Nat} (h : HashValue) : RT ty (hashTlv ty) (hashParse ty) h h := by
  intro t ht
  have hin := hash_inner ht
  have ht' := ht
  obtain ⟨u, hu, hv, rfl, hvt⟩ := hashTlv_ok ht
  refine ⟨rfl, hvt, ?_⟩
  rw [hashParse, if_neg (by simp)]
  obtain ⟨a, ha, hb⟩ := bind_eq_ok.mp hin
  simp only [ha, hb, ok_bind]
  exact construct_ok ht'

/-! ## Links -/

def Link.toBytes (l : Link) : Link := { l with name := l.name.map Name.toBytes }

theorem Link.members_toBytes (l : Link) : l.toBytes.members = l.members := by
  cases l with
  | mk n k d => cases n <;> simp [Link.toBytes, Link.members, optTlv]

theorem Link.wire_toBytes (l : Link) : l.toBytes.wire = l.wire := by
  simp [Link.wire, Link.members_toBytes]

theorem link_RT {l : Link} {w : Bytes} (h : l.wire = .ok w) : Link.deserialize w = .ok l.toBytes := by
  have h0 := h
  obtain ⟨ms, hm, h⟩ := bind_eq_ok.mp h
  obtain ⟨hv, rfl⟩ := concatTlvs_ok h
  obtain ⟨a, ha, hm⟩ := bind_eq_ok.mp hm
  obtain ⟨b, hb, hm⟩ := bind_eq_ok.mp hm
  obtain ⟨c, hc, hm⟩ := bind_eq_ok.mp hm
  cases hm
  rw [Link.deserialize, tlvLoop_bytesAll _ _ hv, List.foldlM_append, List.foldlM_append]
  rw [foldlM_opt (s' := { name := l.name.map Name.toBytes }) ha]
  · simp only [ok_bind]
    rw [foldlM_opt (s' := { name := l.name.map Name.toBytes, keyid := l.keyid }) hb]
    · simp only [ok_bind]
      rw [foldlM_opt (s' := l.toBytes) hc]
      · simp only [ok_bind]
        rw [Link.wire_toBytes, h0]; rfl
      · intro hn; simp [Link.toBytes, hn]
      · intro x t hx ht
        have := hash_inner ht
        obtain ⟨a, ha, hb⟩ := bind_eq_ok.mp this
        obtain ⟨hty, _, _⟩ := hash_RT x t ht
        simp [Link.parseStep, hty, T_NAME, T_KEYIDRESTR, T_OBJHASHRESTR, pyAssert, ha, hb, Link.toBytes, hx]
    · intro hn; simp [hn]
    · intro x t hx ht
      have := hash_inner ht
      obtain ⟨a, ha, hb⟩ := bind_eq_ok.mp this
      obtain ⟨hty, _, _⟩ := hash_RT x t ht
      simp [Link.parseStep, hty, T_NAME, T_KEYIDRESTR, pyAssert, ha, hb, hx]
  · intro hn; simp [hn]
  · intro x t hx ht
    obtain ⟨hty, _, hp⟩ := name_RT x t ht
    simp [Link.parseStep, hty, hp, pyAssert, hx]

theorem linkTlv_ok {ty : Nat} {l : Link} {t : Tlv} (h : linkTlv ty l = .ok t) :
    ∃ w, l.wire = .ok w ∧ t = ⟨ty, w⟩ ∧ t.Valid := by
  obtain ⟨w, hw, h⟩ := bind_eq_ok.mp h
  obtain ⟨rfl, hv⟩ := mkTlv_ok h
  exact ⟨w, hw, rfl, hv⟩

theorem keyLink_RT (l : Link) : RT T_KEYLINK (linkTlv T_KEYLINK) KeyLink.parse l l.toBytes := by
  intro t h
  have h0 := h
  obtain ⟨w, hw, rfl, hv⟩ := linkTlv_ok h
  refine ⟨rfl, hv, ?_⟩
  rw [KeyLink.parse, if_neg (by simp)]
  simp only [link_RT hw, ok_bind]
  refine construct_ok (t := ⟨T_KEYLINK, w⟩) ?_
  rw [← h0]
  simp [linkTlv, Link.wire_toBytes]

/-! ## Payload type, final chunk id -/

theorem payloadType_RT (n : Nat) : RT T_PAYLDTYPE payloadTypeTlv payloadTypeParse n n := by
  intro t h
  have h0 := h
  obtain ⟨u, hu, h⟩ := bind_eq_ok.mp h
  have hn : n < 2 ^ 64 := by
    simp only [pyAssert] at hu
    split at hu
    · rename_i hd; simp at hd; omega
    · cases hu
  simp only [numberToArray_nat, ok_bind] at h
  obtain ⟨rfl, hv⟩ := mkTlv_ok h
  refine ⟨rfl, hv, ?_⟩
  rw [payloadTypeParse, if_neg (by simp)]
  simp only [Tlv.valueAsNumber, arrayToNumber_numBytes n hn]
  exact construct_ok h0

theorem finalChunkId_RT {n : Nat} (hn : n < 2 ^ 64) : RT T_FINAL_CHUNK_ID finalChunkIdTlv finalChunkIdParse n n := by
  intro t h
  have h1 := createVarint_nat T_FINAL_CHUNK_ID n (by decide)
  have h0 := h
  rw [finalChunkIdTlv, h1] at h
  cases h
  have := numWidth_le n
  refine ⟨rfl, ⟨(by decide : T_FINAL_CHUNK_ID ≤ 0xFFFF), by simp; omega⟩, ?_⟩
  rw [finalChunkIdParse, if_neg (by simp)]
  simp only [Tlv.valueAsNumber, arrayToNumber_numBytes n hn]
  exact construct_ok h0

end Ccnpy
