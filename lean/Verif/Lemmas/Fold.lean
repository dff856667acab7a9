import Verif.Lemmas.Packet

/-! # Invariants of parser loops -/

namespace Ccnpy

theorem foldlM_inv {σ : Type} {step : σ → Tlv → Py σ} (P : σ → Prop)
    (hstep : ∀ s t s', P s → step s t = .ok s' → P s') {l : List Tlv} {s s' : σ} (hs : P s)
    (h : l.foldlM step s = .ok s') : P s' := by
  induction l generalizing s with
  | nil => simp at h; exact h ▸ hs
  | cons t l ih =>
    rw [List.foldlM_cons] at h
    obtain ⟨s1, h1, h⟩ := bind_eq_ok.mp h
    exact ih (hstep s t s1 hs h1) h

/-- A loop body that refuses to set a field twice accepts each recognised type at most once. -/
theorem foldlM_nodup {σ : Type} {step : σ → Tlv → Py σ} (known : Nat → Prop) (has : σ → Nat → Bool)
    (hstep : ∀ s t s', step s t = .ok s' →
      known t.type ∧ has s t.type = false ∧ ∀ ty, has s' ty = (has s ty || ty == t.type))
    {l : List Tlv} {s s' : σ} (h : l.foldlM step s = .ok s') :
    (∀ t ∈ l, known t.type ∧ has s t.type = false) ∧ (l.map Tlv.type).Nodup ∧
    ∀ ty, has s' ty = (has s ty || (l.map Tlv.type).contains ty) := by
  induction l generalizing s with
  | nil => simp at h; subst h; simp
  | cons t l ih =>
    rw [List.foldlM_cons] at h
    obtain ⟨s1, h1, h⟩ := bind_eq_ok.mp h
    obtain ⟨hk, hn, hu⟩ := hstep s t s1 h1
    obtain ⟨a, b, c⟩ := ih h
    refine ⟨?_, ?_, ?_⟩
    · intro x hx
      rcases List.mem_cons.mp hx with rfl | hx
      · exact ⟨hk, hn⟩
      · obtain ⟨h1, h2⟩ := a x hx
        rw [hu] at h2
        simp at h2
        exact ⟨h1, h2.1⟩
    · rw [List.map_cons, List.nodup_cons]
      refine ⟨?_, b⟩
      intro hm
      obtain ⟨x, hx, hxt⟩ := List.mem_map.mp hm
      have := (a x hx).2
      rw [hu, hxt] at this
      simp at this
    · intro ty
      rw [c, hu, List.map_cons, List.contains_cons, Bool.or_assoc]

theorem pyAssert_ok {b : Bool} {u : Unit} (h : pyAssert b = .ok u) : b = true := by
  unfold pyAssert at h
  split at h
  · assumption
  · cases h

theorem Name.parse_toBytes {t : Tlv} {n : Name} (h : Name.parse t = .ok n) : n.toBytes = n := by
  unfold Name.parse at h
  split at h
  · cases h
  · obtain ⟨cs, hcs, h⟩ := bind_eq_ok.mp h
    obtain ⟨rfl, _⟩ := construct_inv h
    obtain ⟨l, _, _, hf⟩ := tlvLoop_inv _ _ _ _ hcs
    have := foldlM_inv (fun cs : List NameComponent => cs.map NameComponent.toBytes = cs) ?_ rfl hf
    · simp [Name.toBytes, this]
    · intro s t s' hs hst
      obtain ⟨c, hc, hst⟩ := bind_eq_ok.mp hst
      obtain ⟨rfl, _⟩ := construct_inv hc
      cases hst
      simp [hs, NameComponent.toBytes]

/-- Which content object field a TLV type sets, and whether it is set. -/
def ContentObject.has (c : ContentObject) (ty : Nat) : Bool :=
  (ty == T_NAME && c.name.isSome) || (ty == T_PAYLDTYPE && c.payloadType.isSome) ||
  (ty == T_PAYLOAD && c.payload.isSome) || (ty == T_EXPIRY && c.expiryTime.isSome) ||
  (ty == T_FINAL_CHUNK_ID && c.finalChunkId.isSome)

theorem ContentObject.step_spec (s : ContentObject) (t : Tlv) (s' : ContentObject)
    (h : ContentObject.parseStep s t = .ok s') :
    t.type ∈ [T_NAME, T_PAYLDTYPE, T_PAYLOAD, T_EXPIRY, T_FINAL_CHUNK_ID] ∧ s.has t.type = false ∧
      ∀ ty, s'.has ty = (s.has ty || ty == t.type) := by
  unfold ContentObject.parseStep at h
  split at h
  · rename_i hty
    obtain ⟨u, hu, h⟩ := bind_eq_ok.mp h
    obtain ⟨v, hv, h⟩ := bind_eq_ok.mp h
    have hu := pyAssert_ok hu
    cases h
    rw [Option.isNone_iff_eq_none] at hu
    refine ⟨by simp [hty], by simp [ContentObject.has, hty, hu, T_NAME, T_PAYLDTYPE, T_PAYLOAD, T_EXPIRY, T_FINAL_CHUNK_ID], ?_⟩
    intro ty
    simp [ContentObject.has, hty, hu]
    cases (ty == T_NAME) <;> simp
  split at h
  · rename_i hty
    obtain ⟨u, hu, h⟩ := bind_eq_ok.mp h
    obtain ⟨v, hv, h⟩ := bind_eq_ok.mp h
    have hu := pyAssert_ok hu
    cases h
    rw [Option.isNone_iff_eq_none] at hu
    refine ⟨by simp [hty], by simp [ContentObject.has, hty, hu, T_NAME, T_PAYLDTYPE, T_PAYLOAD, T_EXPIRY, T_FINAL_CHUNK_ID], ?_⟩
    intro ty
    simp [ContentObject.has, hty, hu]
    cases (ty == T_PAYLDTYPE) <;> simp
  split at h
  · rename_i hty
    obtain ⟨u, hu, h⟩ := bind_eq_ok.mp h
    obtain ⟨v, hv, h⟩ := bind_eq_ok.mp h
    have hu := pyAssert_ok hu
    cases h
    rw [Option.isNone_iff_eq_none] at hu
    refine ⟨by simp [hty], by simp [ContentObject.has, hty, hu, T_NAME, T_PAYLDTYPE, T_PAYLOAD, T_EXPIRY, T_FINAL_CHUNK_ID], ?_⟩
    intro ty
    simp [ContentObject.has, hty, hu]
    cases (ty == T_PAYLOAD) <;> simp
  split at h
  · rename_i hty
    obtain ⟨u, hu, h⟩ := bind_eq_ok.mp h
    obtain ⟨v, hv, h⟩ := bind_eq_ok.mp h
    have hu := pyAssert_ok hu
    cases h
    rw [Option.isNone_iff_eq_none] at hu
    refine ⟨by simp [hty], by simp [ContentObject.has, hty, hu, T_NAME, T_PAYLDTYPE, T_PAYLOAD, T_EXPIRY, T_FINAL_CHUNK_ID], ?_⟩
    intro ty
    simp [ContentObject.has, hty, hu]
    cases (ty == T_EXPIRY) <;> simp
  split at h
  · rename_i hty
    obtain ⟨u, hu, h⟩ := bind_eq_ok.mp h
    obtain ⟨v, hv, h⟩ := bind_eq_ok.mp h
    have hu := pyAssert_ok hu
    cases h
    rw [Option.isNone_iff_eq_none] at hu
    refine ⟨by simp [hty], by simp [ContentObject.has, hty, hu, T_NAME, T_PAYLDTYPE, T_PAYLOAD, T_EXPIRY, T_FINAL_CHUNK_ID], ?_⟩
    intro ty
    simp [ContentObject.has, hty, hu]
  · cases h

/-- The content of an accepted content object TLV. -/
theorem ContentObject.parse_inv {t : Tlv} {c : ContentObject} (h : ContentObject.parse t = .ok c) :
    t.type = T_OBJECT ∧ (∃ u, c.tlv = .ok u) ∧
    ∃ l, (∀ x ∈ l, x.Valid) ∧ t.value = bytesAll l ∧ l.foldlM ContentObject.parseStep {} = .ok c := by
  unfold ContentObject.parse at h
  split at h
  · cases h
  · rename_i hty
    obtain ⟨c', hc, h⟩ := bind_eq_ok.mp h
    obtain ⟨rfl, u, hu⟩ := construct_inv h
    obtain ⟨l, hl, hb, hf⟩ := tlvLoop_inv _ _ _ _ hc
    exact ⟨by simpa using hty, ⟨u, hu⟩, l, hl, hb, hf⟩

theorem ContentObject.parse_toBytes {t : Tlv} {c : ContentObject} (h : ContentObject.parse t = .ok c) :
    c.toBytes = c := by
  obtain ⟨_, _, l, _, _, hf⟩ := ContentObject.parse_inv h
  have : c.name.map Name.toBytes = c.name := by
    refine foldlM_inv (fun s : ContentObject => s.name.map Name.toBytes = s.name) ?_ rfl hf
    intro s t s' hs hst
    unfold ContentObject.parseStep at hst
    (repeat' split at hst)
    · obtain ⟨u, hu, hst⟩ := bind_eq_ok.mp hst
      obtain ⟨v, hv, hst⟩ := bind_eq_ok.mp hst
      cases hst
      simp [Name.parse_toBytes hv]
    all_goals first
      | cases hst; done
      | (obtain ⟨u, hu, hst⟩ := bind_eq_ok.mp hst
         obtain ⟨v, hv, hst⟩ := bind_eq_ok.mp hst
         cases hst
         exact hs)
  simp [ContentObject.toBytes, this]

theorem bytesAll_inj {l m : List Tlv} (hl : ∀ t ∈ l, t.Valid) (hm : ∀ t ∈ m, t.Valid)
    (h : bytesAll l = bytesAll m) : l = m := by
  have aux : ∀ (l acc : List Tlv), l.foldlM (fun acc t => (.ok (acc ++ [t]) : Py (List Tlv))) acc = .ok (acc ++ l) := by
    intro l
    induction l with
    | nil => simp
    | cons t l ih => intro acc; rw [List.foldlM_cons]; simp [ih]
  have e1 := tlvLoop_bytesAll (fun acc t => (.ok (acc ++ [t]) : Py (List Tlv))) l hl []
  have e2 := tlvLoop_bytesAll (fun acc t => (.ok (acc ++ [t]) : Py (List Tlv))) m hm []
  rw [aux] at e1 e2
  rw [h, e2] at e1
  simpa using (Except.ok.inj e1).symm

end Ccnpy
