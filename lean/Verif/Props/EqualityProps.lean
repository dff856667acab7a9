import Verif.Lemmas.Equality
import Verif.Props.PacketProps
import Verif.Props.DirectoryProps

/-!
# C87: Python `==` between protocol objects
-/

namespace Ccnpy

/-- Two optional times are the same number, or both absent. -/
def Spec.SameTime : Option F64 → Option F64 → Prop
  | none, none => True
  | some x, some y => x.num * y.den = y.num * x.den
  | _, _ => False

/-- The expiry time, if any, is a float: a fraction with a denominator. -/
def Spec.FloatExpiry (c : ContentObject) : Prop := ∀ e, c.expiryTime = some e → 0 < e.den

/-- The fields of two content objects agree: names to the last component (and in what kind of buffer holds it), times as numbers. -/
def Spec.SameBody (c d : ContentObject) : Prop :=
  c.name = d.name ∧ c.payloadType = d.payloadType ∧ c.payload = d.payload ∧ Spec.SameTime c.expiryTime d.expiryTime ∧
    c.finalChunkId = d.finalChunkId

/-- One of the two is there and the other is not. -/
def Spec.OneSided {α : Type} (a b : Option α) : Prop := a.isSome ≠ b.isSome

/-! ## Content objects -/

theorem ContentObject.members_ok {c : ContentObject} {t : Tlv} (h : c.tlv = .ok t) :
    ∃ a b d e f, optTlv Name.tlv c.name = .ok a ∧ optTlv (timestampTlv T_EXPIRY) c.expiryTime = .ok b ∧
      optTlv payloadTypeTlv c.payloadType = .ok d ∧ optTlv (octetTlv T_PAYLOAD) c.payload = .ok e ∧
      optTlv finalChunkIdTlv c.finalChunkId = .ok f ∧ (∀ x ∈ a ++ b ++ d ++ e ++ f, x.Valid) ∧
      t = ⟨T_OBJECT, bytesAll (a ++ b ++ d ++ e ++ f)⟩ := by
  obtain ⟨ms, hm, h⟩ := bind_eq_ok.mp h
  obtain ⟨a, ha, hm⟩ := bind_eq_ok.mp hm
  obtain ⟨b, hb, hm⟩ := bind_eq_ok.mp hm
  obtain ⟨d, hd, hm⟩ := bind_eq_ok.mp hm
  obtain ⟨e, he, hm⟩ := bind_eq_ok.mp hm
  obtain ⟨f, hf, hm⟩ := bind_eq_ok.mp hm
  cases hm
  obtain ⟨hv, rfl, _⟩ := container_ok h
  exact ⟨a, b, d, e, f, ha, hb, hd, he, hf, hv, rfl⟩

theorem ContentObject.name_tlv {c : ContentObject} {t : Tlv} {n : Name} (h : c.tlv = .ok t) (hn : c.name = some n) :
    ∃ u, n.tlv = .ok u := by
  obtain ⟨a, _, _, _, _, ha, _⟩ := ContentObject.members_ok h
  rw [hn] at ha
  obtain ⟨u, hu, _⟩ := optTlv_some ha
  exact ⟨u, hu⟩

theorem ContentObject.payloadType_tlv {c : ContentObject} {t : Tlv} {n : Nat} (h : c.tlv = .ok t) (hn : c.payloadType = some n) :
    ∃ u, payloadTypeTlv n = .ok u := by
  obtain ⟨_, _, d, _, _, _, _, hd, _⟩ := ContentObject.members_ok h
  rw [hn] at hd
  obtain ⟨u, hu, _⟩ := optTlv_some hd
  exact ⟨u, hu⟩

private theorem name_field {c d : ContentObject} {tc : Tlv} (hc : c.tlv = .ok tc) :
    eqOrRaise (fun a b => .ok (Name.pyEq a b)) c.name d.name = .ok true ↔ c.name = d.name := by
  rw [eqOrRaise_true]
  constructor
  · rintro (⟨h1, h2⟩ | ⟨x, y, h1, h2, h⟩)
    · rw [h1, h2]
    · rw [h1, h2, Name.pyEq_eq (Except.ok.inj h)]
  · intro h
    cases hn : d.name with
    | none => exact .inl ⟨h.trans hn, rfl⟩
    | some y =>
      obtain ⟨u, hu⟩ := ContentObject.name_tlv hc (h.trans hn)
      exact .inr ⟨y, y, h.trans hn, rfl, by rw [Name.pyEq_refl hu]⟩

private theorem type_field {c d : ContentObject} {tc : Tlv} (hc : c.tlv = .ok tc) :
    eqOrRaise (fun a b => dictEqual [.ok (a == b), tlvEqual (payloadTypeTlv a) (payloadTypeTlv b)]) c.payloadType d.payloadType
      = .ok true ↔ c.payloadType = d.payloadType := by
  rw [eqOrRaise_true]
  constructor
  · rintro (⟨h1, h2⟩ | ⟨x, y, h1, h2, h⟩)
    · rw [h1, h2]
    · have := (dictEqual_true.mp h) (.ok (x == y)) (by simp)
      rw [h1, h2, beq_iff_eq.mp (Except.ok.inj this)]
  · intro h
    cases hn : d.payloadType with
    | none => exact .inl ⟨h.trans hn, rfl⟩
    | some y =>
      obtain ⟨u, hu⟩ := ContentObject.payloadType_tlv hc (h.trans hn)
      refine .inr ⟨y, y, h.trans hn, rfl, ?_⟩
      rw [dictEqual_true]
      intro x hx
      simp only [beq_self_eq_true, hu, tlvEqual_ok, List.mem_cons, List.not_mem_nil, or_false, Tlv.pyEq_refl] at hx
      rcases hx with rfl | rfl <;> rfl

private theorem time_field {a b : Option F64} :
    eqOrRaise (fun a b => .ok (F64.pyEq a b)) a b = .ok true ↔ Spec.SameTime a b := by
  rw [eqOrRaise_true]
  cases a <;> cases b <;> simp [Spec.SameTime, F64.pyEq]

private theorem type_field_error {a b : Option Nat} {e : PyErr} {ta tb : Tlv}
    (ha : ∀ n, a = some n → payloadTypeTlv n = .ok ta) (hb : ∀ n, b = some n → payloadTypeTlv n = .ok tb) :
    eqOrRaise (fun a b => dictEqual [.ok (a == b), tlvEqual (payloadTypeTlv a) (payloadTypeTlv b)]) a b = .error e ↔
      Spec.OneSided a b ∧ e = .attributeError := by
  rw [eqOrRaise_error]
  constructor
  · rintro (h | ⟨x, y, rfl, rfl, h⟩)
    · exact h
    · exfalso
      rw [ha x rfl, hb y rfl, tlvEqual_ok] at h
      obtain ⟨pre, post, h, _⟩ := dictEqual_error.mp h
      have : (Except.error e : Py Bool) ∈ [(.ok (x == y) : Py Bool), .ok (ta.pyEq tb)] := by rw [h]; simp
      simp at this
  · exact .inl

/-- C87: two content objects are equal exactly when all their fields are. -/
theorem C87_contentobject (c d : ContentObject) (tc td : Tlv) (hc : c.tlv = .ok tc) (hd : d.tlv = .ok td)
    (fc : Spec.FloatExpiry c) (fd : Spec.FloatExpiry d) : c.pyEq d = .ok true ↔ Spec.SameBody c d := by
  unfold ContentObject.pyEq
  rw [dictEqual_true]
  simp only [List.mem_cons, List.not_mem_nil, or_false, forall_eq_or_imp, forall_eq]
  rw [name_field hc, type_field hc, time_field, eqOrFalse_beq, eqOrFalse_beq, hc, hd,
    tlvEqual_true ((ContentObject.tlv_ok hc).1.trans (ContentObject.tlv_ok hd).1.symm)]
  constructor
  · rintro ⟨h1, h2, h3, h4, h5, _⟩
    exact ⟨h1, h2, h3, h4, h5⟩
  · rintro ⟨h1, h2, h3, h4, h5⟩
    refine ⟨h1, h2, h3, h4, h5, ?_⟩
    have he : optTlv (timestampTlv T_EXPIRY) c.expiryTime = optTlv (timestampTlv T_EXPIRY) d.expiryTime := by
      cases hx : c.expiryTime with
      | none =>
        cases hy : d.expiryTime with
        | none => rfl
        | some y => rw [hx, hy] at h4; exact h4.elim
      | some x =>
        cases hy : d.expiryTime with
        | none => rw [hx, hy] at h4; exact h4.elim
        | some y =>
          rw [hx, hy] at h4
          have := milliseconds_congr (fc x hx) (fd y hy) (by simpa [F64.pyEq, Spec.SameTime] using h4)
          simp only [optTlv, timestampTlv, this]
    have : c.tlv = d.tlv := by
      unfold ContentObject.tlv ContentObject.members
      rw [h1, h2, h3, h5, he]
    rw [hc, hd] at this
    exact Except.ok.inj this

/-- C87: the comparison of two content objects raises, and then AttributeError, exactly when the first field that differs is a name,
a payload type or an expiry time that only one of them has.  (A payload or final chunk number on one side only means different.) -/
theorem C87_contentobject_raises (c d : ContentObject) (tc td : Tlv) (hc : c.tlv = .ok tc) (hd : d.tlv = .ok td) (e : PyErr) :
    c.pyEq d = .error e ↔ e = .attributeError ∧
      (Spec.OneSided c.name d.name ∨
        (c.name = d.name ∧ Spec.OneSided c.payloadType d.payloadType) ∨
        (c.name = d.name ∧ c.payloadType = d.payloadType ∧ c.payload = d.payload ∧
          Spec.OneSided c.expiryTime d.expiryTime)) := by
  have hn : ∀ e, eqOrRaise (fun a b => .ok (Name.pyEq a b)) c.name d.name = .error e ↔
      Spec.OneSided c.name d.name ∧ e = .attributeError := by
    intro e
    rw [eqOrRaise_error]
    simp [Spec.OneSided]
  have ht : ∀ e, eqOrRaise (fun a b => dictEqual [.ok (a == b), tlvEqual (payloadTypeTlv a) (payloadTypeTlv b)]) c.payloadType
      d.payloadType = .error e ↔ Spec.OneSided c.payloadType d.payloadType ∧ e = .attributeError := by
    intro e
    cases h1 : c.payloadType with
    | none =>
      cases h2 : d.payloadType <;> simp [eqOrRaise, Spec.OneSided, eq_comm]
    | some x =>
      obtain ⟨u, hu⟩ := ContentObject.payloadType_tlv hc h1
      cases h2 : d.payloadType with
      | none => simp [eqOrRaise, Spec.OneSided, eq_comm]
      | some y =>
        obtain ⟨v, hv⟩ := ContentObject.payloadType_tlv hd h2
        exact type_field_error (ta := u) (tb := v) (by rintro n ⟨⟩; exact hu) (by rintro n ⟨⟩; exact hv)
  have hx : ∀ e, eqOrRaise (fun a b => .ok (F64.pyEq a b)) c.expiryTime d.expiryTime = .error e ↔
      Spec.OneSided c.expiryTime d.expiryTime ∧ e = .attributeError := by
    intro e
    rw [eqOrRaise_error]
    simp [Spec.OneSided]
  have hn1 := name_field (d := d) hc
  have ht1 := type_field (d := d) hc
  unfold ContentObject.pyEq
  rw [hc, hd, tlvEqual_ok]
  have hp1 := @eqOrFalse_beq Bytes _ _ c.payload d.payload
  have hp2 := fun e => @eqOrFalse_error Bytes (fun a b => a == b) c.payload d.payload e
  have hf2 := fun e => @eqOrFalse_error Nat (fun a b => a == b) c.finalChunkId d.finalChunkId e
  revert hn ht hx hn1 ht1 hp1 hp2 hf2
  generalize eqOrRaise (fun a b => .ok (Name.pyEq a b)) c.name d.name = a1
  generalize eqOrRaise (fun a b => dictEqual [.ok (a == b), tlvEqual (payloadTypeTlv a) (payloadTypeTlv b)]) c.payloadType
    d.payloadType = a2
  generalize eqOrFalse (fun a b => a == b) c.payload d.payload = a3
  generalize eqOrRaise (fun a b => .ok (F64.pyEq a b)) c.expiryTime d.expiryTime = a4
  generalize eqOrFalse (fun a b => a == b) c.finalChunkId d.finalChunkId = a5
  intro hn ht hx hn1 ht1 hp1 hp2 hf2
  have notErr : ∀ {b : Bool} {q : Prop} (_ : ∀ e, (.ok b : Py Bool) = .error e ↔ q ∧ e = PyErr.attributeError), ¬ q :=
    fun h hq => by cases (h .attributeError).mpr ⟨hq, rfl⟩
  have isErr : ∀ {e : PyErr} {q : Prop} (_ : ∀ e', (.error e : Py Bool) = .error e' ↔ q ∧ e' = PyErr.attributeError),
      q ∧ e = .attributeError := fun h => (h _).mp rfl
  have notTrue : ∀ {q : Prop}, ((.ok false : Py Bool) = .ok true ↔ q) → ¬ q := fun h hq => by cases h.mpr hq
  rcases a1 with e1 | (_ | _)
  · obtain ⟨q, rfl⟩ := isErr hn
    simp only [dictEqual_cons_error, Except.error.injEq]
    exact ⟨fun h => ⟨h.symm, .inl q⟩, fun h => h.1.symm⟩
  · simp only [dictEqual_cons_false]
    refine ⟨(fun h => by cases h), ?_⟩
    rintro ⟨_, h | h | h⟩
    · exact absurd h (notErr hn)
    · exact absurd h.1 (notTrue hn1)
    · exact absurd h.1 (notTrue hn1)
  have m1 := notErr hn
  have h1 := hn1.mp rfl
  rcases a2 with e2 | (_ | _)
  · obtain ⟨q, rfl⟩ := isErr ht
    simp only [dictEqual_cons_true, dictEqual_cons_error, Except.error.injEq]
    exact ⟨fun h => ⟨h.symm, .inr (.inl ⟨h1, q⟩)⟩, fun h => h.1.symm⟩
  · simp only [dictEqual_cons_true, dictEqual_cons_false]
    refine ⟨(fun h => by cases h), ?_⟩
    rintro ⟨_, h | h | h⟩
    · exact absurd h m1
    · exact absurd h.2 (notErr ht)
    · exact absurd h.2.1 (notTrue ht1)
  have m2 := notErr ht
  rcases a3 with e3 | (_ | _)
  · exact absurd rfl (hp2 e3)
  · simp only [dictEqual_cons_true, dictEqual_cons_false]
    refine ⟨(fun h => by cases h), ?_⟩
    rintro ⟨_, h | h | h⟩
    · exact absurd h m1
    · exact absurd h.2 m2
    · exact absurd h.2.2.1 (notTrue hp1)
  rcases a4 with e4 | b4
  · obtain ⟨q, rfl⟩ := isErr hx
    simp only [dictEqual_cons_true, dictEqual_cons_error, Except.error.injEq]
    exact ⟨fun h => ⟨h.symm, .inr (.inr ⟨h1, ht1.mp rfl, hp1.mp rfl, q⟩)⟩, fun h => h.1.symm⟩
  have m4 := notErr hx
  have never : ¬ (e = .attributeError ∧ (Spec.OneSided c.name d.name ∨ (c.name = d.name ∧ Spec.OneSided c.payloadType d.payloadType) ∨
      (c.name = d.name ∧ c.payloadType = d.payloadType ∧ c.payload = d.payload ∧ Spec.OneSided c.expiryTime d.expiryTime))) := by
    rintro ⟨_, h | h | h⟩
    · exact m1 h
    · exact m2 h.2
    · exact m4 h.2.2.2
  refine ⟨fun h => ?_, fun h => absurd h never⟩
  rcases a5 with e5 | b5
  · exact absurd rfl (hf2 e5)
  · cases b4
    · cases h
    · cases b5
      · cases h
      · cases hq : tc.pyEq td <;> rw [hq] at h <;> cases h

/-! ## Packets -/

private theorem crc_tlv : ValidationAlg.crc32c.tlv = .ok ⟨T_VALIDATION_ALG, (⟨T_CRC32C, []⟩ : Tlv).bytes⟩ := by decide

private theorem rsa_tlv {k : HashValue} {l : Option Link} {s : F64} {t : Tlv} (h : (ValidationAlg.rsaSha256 k l s).tlv = .ok t) :
    ∃ u : Tlv, u.Valid ∧ u.type = T_RSA_SHA256 ∧ t = ⟨T_VALIDATION_ALG, u.bytes⟩ := by
  obtain ⟨a, _, h⟩ := bind_eq_ok.mp h
  obtain ⟨b, _, h⟩ := bind_eq_ok.mp h
  obtain ⟨c, _, h⟩ := bind_eq_ok.mp h
  obtain ⟨u, hu, h⟩ := bind_eq_ok.mp h
  obtain ⟨_, rfl, hv⟩ := container_ok hu
  obtain ⟨_, rfl, _⟩ := container_ok h
  exact ⟨_, hv, rfl, by simp⟩

private theorem crc_ne_rsa {k : HashValue} {l : Option Link} {s : F64} {t u : Tlv} (h : (ValidationAlg.rsaSha256 k l s).tlv = .ok t)
    (hc : ValidationAlg.crc32c.tlv = .ok u) : t ≠ u := by
  obtain ⟨v, hv, hty, rfl⟩ := rsa_tlv h
  rw [crc_tlv] at hc
  cases hc
  intro he
  have he : v.bytes = (⟨T_CRC32C, []⟩ : Tlv).bytes := congrArg Tlv.value he
  have := bytesAll_inj (l := [v]) (m := [⟨T_CRC32C, []⟩]) (by simpa using hv) (by simp [Tlv.Valid, T_CRC32C])
    (by simpa using he)
  simp only [List.cons.injEq, and_true] at this
  rw [this] at hty
  cases hty

/-- The sections of a validated packet agree byte by byte. -/
private theorem alg_field {a b : Option ValidationAlg} {la lb : List Tlv} (ha : optTlv ValidationAlg.tlv a = .ok la)
    (hb : optTlv ValidationAlg.tlv b = .ok lb) :
    algEqual a b = .ok true ↔ optWire ValidationAlg.tlv a = optWire ValidationAlg.tlv b := by
  have wr : ∀ {x : ValidationAlg} {t : Tlv}, x.tlv = .ok t → optWire ValidationAlg.tlv (some x) = .ok t.bytes := by
    intro x t h
    exact wireOf_of_tlv h (ValidationAlg.tlv_ok h).2
  have ne : ∀ {x : ValidationAlg} {t : Tlv}, x.tlv = .ok t →
      ¬ optWire ValidationAlg.tlv (some x) = optWire ValidationAlg.tlv none := by
    intro x t h
    rw [wr h]
    simp [optWire, Tlv.bytes, be16]
  have eqv : ∀ {x y : ValidationAlg} {t u : Tlv}, x.tlv = .ok t → y.tlv = .ok u →
      (optWire ValidationAlg.tlv (some x) = optWire ValidationAlg.tlv (some y) ↔ t = u) := by
    intro x y t u hx hy
    rw [wr hx, wr hy, Except.ok.injEq]
    constructor
    · intro h
      have := bytesAll_inj (l := [t]) (m := [u]) (by simpa using (ValidationAlg.tlv_ok hx).2)
        (by simpa using (ValidationAlg.tlv_ok hy).2) (by simpa using h)
      simpa using this
    · rintro rfl; rfl
  cases a with
  | none =>
    cases b with
    | none => simp [algEqual]
    | some y =>
      obtain ⟨u, hu, _⟩ := optTlv_some hb
      refine ⟨fun h => ?_, fun h => absurd h.symm (ne hu)⟩
      cases y <;> cases h
  | some x =>
    obtain ⟨t, ht, _⟩ := optTlv_some ha
    cases b with
    | none =>
      refine ⟨fun h => ?_, fun h => absurd h (ne ht)⟩
      cases x <;> cases h
    | some y =>
      obtain ⟨u, hu, _⟩ := optTlv_some hb
      rw [eqv ht hu]
      have hty := (ValidationAlg.tlv_ok ht).1.trans (ValidationAlg.tlv_ok hu).1.symm
      cases x with
      | crc32c =>
        cases y with
        | crc32c =>
          rw [ht] at hu
          cases hu
          simp [algEqual, ValidationAlg.pyEq, ht, tlvEqual_ok, Tlv.pyEq_refl]
        | rsaSha256 k l s =>
          refine ⟨fun h => ?_, fun h => absurd h.symm (crc_ne_rsa hu ht)⟩
          cases h
      | rsaSha256 k l s =>
        cases y with
        | crc32c =>
          refine ⟨fun h => ?_, fun h => absurd h (crc_ne_rsa ht hu)⟩
          cases h
        | rsaSha256 k' l' s' =>
          simp only [algEqual, ValidationAlg.pyEq, ht, hu]
          exact tlvEqual_true hty

private theorem payload_field {a b : Option Bytes} : eqOrRaise (fun a b => .ok (a == b)) a b = .ok true ↔ a = b := by
  rw [eqOrRaise_true]
  cases a <;> cases b <;> simp

/-- C87: two packets are equal exactly when their headers, the fields of their bodies, the bytes of their validation algorithms and
their validation payloads are. -/
theorem C87_packet (sha : Bytes → Bytes) (p q : Packet) (wp wq : Bytes) (hp : p.serialize = .ok wp) (hq : q.serialize = .ok wq)
    (fp : Spec.FloatExpiry p.body) (fq : Spec.FloatExpiry q.body) :
    p.pyEq sha q = .ok true ↔ p.header = q.header ∧ Spec.SameBody p.body q.body ∧
      optWire ValidationAlg.tlv p.alg = optWire ValidationAlg.tlv q.alg ∧ p.payload = q.payload := by
  obtain ⟨hb, tb, la, lp, h1, h2, _, h3, _, h4, _, _, h5⟩ := Packet.serialize_ok hp
  obtain ⟨hb', tb', la', lp', h1', h2', _, h3', _, h4', _, _, h5'⟩ := Packet.serialize_ok hq
  unfold Packet.pyEq
  rw [dictEqual_true]
  simp only [List.mem_cons, List.not_mem_nil, or_false, forall_eq_or_imp, forall_eq]
  rw [C87_contentobject _ _ _ _ h2 h2' fp fq, alg_field h3 h3', payload_field, Except.ok.injEq, FixedHeader.pyEq_iff]
  constructor
  · rintro ⟨e1, e2, e3, e4, _⟩
    exact ⟨e1, e2, e3, e4⟩
  · rintro ⟨e1, e2, e3, e4⟩
    have hbody : p.body.tlv = q.body.tlv := by
      have := (C87_contentobject _ _ _ _ h2 h2' fp fq).mpr e2
      have := (dictEqual_true.mp this) (tlvEqual p.body.tlv q.body.tlv) (by simp)
      rw [h2, h2'] at this ⊢
      rw [(tlvEqual_true ((ContentObject.tlv_ok h2).1.trans (ContentObject.tlv_ok h2').1.symm)).mp this]
    have hin : p.hashInput = q.hashInput := by
      unfold Packet.hashInput wireOf
      rw [hbody, e3, e4]
    have hser : p.serialize = q.serialize := by
      unfold Packet.serialize wireOf
      rw [e1, hbody, e3, e4]
    refine ⟨e1, e2, e3, e4, ?_, ?_⟩
    · rw [hser, hq]
      exact wireEqual_true.mpr rfl
    · simp only [Packet.hash, hin, h5', ok_bind, pure_eq_ok]
      rw [HashValue.pyEq_iff.mpr rfl]

/-- C87: equal packets have the same bytes and the same content object hash. -/
theorem C87_packet_same_bytes (sha : Bytes → Bytes) (p q : Packet) (wp wq : Bytes) (hp : p.serialize = .ok wp)
    (hq : q.serialize = .ok wq) (h : p.pyEq sha q = .ok true) : wp = wq ∧ ∀ sha', p.hash sha' = q.hash sha' := by
  have h := dictEqual_true.mp h
  have hw := h (wireEqual p.serialize q.serialize) (by simp)
  rw [hp, hq, wireEqual_true] at hw
  subst hw
  obtain ⟨hb, tb, la, lp, h1, _, _, _, _, _, _, h4, h5⟩ := Packet.serialize_ok hp
  obtain ⟨hb', tb', la', lp', h1', _, _, _, _, _, _, h4', h5'⟩ := Packet.serialize_ok hq
  obtain ⟨_, _, _, _, rfl⟩ := FixedHeader.serialize_ok h1
  obtain ⟨_, _, _, _, rfl⟩ := FixedHeader.serialize_ok h1'
  rw [h4] at h4'
  have := (List.append_inj h4' rfl).2
  refine ⟨rfl, fun sha' => ?_⟩
  simp only [Packet.hash, h5, h5', this]

/-- C87: every packet is equal to itself. -/
theorem C87_packet_refl (sha : Bytes → Bytes) (p : Packet) (w : Bytes) (h : p.serialize = .ok w) (f : Spec.FloatExpiry p.body) :
    p.pyEq sha p = .ok true := by
  refine (C87_packet sha p p w w h h f f).mpr ⟨rfl, ⟨rfl, rfl, rfl, ?_, rfl⟩, rfl, rfl⟩
  cases p.body.expiryTime <;> simp [Spec.SameTime]

private theorem alg_comm {a b : Option ValidationAlg} {la lb : List Tlv} (ha : optTlv ValidationAlg.tlv a = .ok la)
    (hb : optTlv ValidationAlg.tlv b = .ok lb) : algEqual a b = algEqual b a := by
  cases a with
  | none =>
    cases b with
    | none => rfl
    | some y => cases y <;> rfl
  | some x =>
    cases b with
    | none => cases x <;> rfl
    | some y =>
      obtain ⟨t, ht, _⟩ := optTlv_some ha
      obtain ⟨u, hu, _⟩ := optTlv_some hb
      cases x <;> cases y <;> first | rfl | exact tlvEqual_comm ht hu

/-- C87: the order of the two packets does not matter, neither for the answer nor for the exception. -/
theorem C87_packet_symm (sha : Bytes → Bytes) (p q : Packet) (wp wq : Bytes) (hp : p.serialize = .ok wp)
    (hq : q.serialize = .ok wq) : p.pyEq sha q = q.pyEq sha p := by
  obtain ⟨hb, tb, la, lp, h1, h2, _, h3, _, h4, _, _, h5⟩ := Packet.serialize_ok hp
  obtain ⟨hb', tb', la', lp', h1', h2', _, h3', _, h4', _, _, h5'⟩ := Packet.serialize_ok hq
  have e1 : p.header.pyEq q.header = q.header.pyEq p.header := by
    rw [Bool.eq_iff_iff, FixedHeader.pyEq_iff, FixedHeader.pyEq_iff]
    exact eq_comm
  have e2 : p.body.pyEq q.body = q.body.pyEq p.body := by
    unfold ContentObject.pyEq
    rw [tlvEqual_comm h2 h2', eqOrRaise_comm (a := p.body.name) (fun x y => by rw [Name.pyEq_comm]),
      eqOrFalse_comm (a := p.body.payload) (fun x y => Bool.beq_comm),
      eqOrRaise_comm (a := p.body.expiryTime) (fun x y => by rw [F64.pyEq_comm]),
      eqOrFalse_comm (a := p.body.finalChunkId) (fun x y => Bool.beq_comm)]
    have : eqOrRaise (fun a b => dictEqual [.ok (a == b), tlvEqual (payloadTypeTlv a) (payloadTypeTlv b)]) p.body.payloadType
        q.body.payloadType = eqOrRaise (fun a b => dictEqual [.ok (a == b), tlvEqual (payloadTypeTlv a) (payloadTypeTlv b)])
        q.body.payloadType p.body.payloadType := by
      cases hx : p.body.payloadType with
      | none => cases q.body.payloadType <;> rfl
      | some x =>
        cases hy : q.body.payloadType with
        | none => rfl
        | some y =>
          obtain ⟨u, hu⟩ := ContentObject.payloadType_tlv h2 hx
          obtain ⟨v, hv⟩ := ContentObject.payloadType_tlv h2' hy
          simp only [eqOrRaise]
          rw [tlvEqual_comm hu hv, Bool.beq_comm]
    rw [this]
  unfold Packet.pyEq
  rw [e1, e2, alg_comm h3 h3', eqOrRaise_comm (a := p.payload) (fun x y => by rw [Bool.beq_comm]), wireEqual_comm hp hq]
  simp only [Packet.hash, h5, h5', ok_bind, pure_eq_ok]
  rw [HashValue.pyEq_comm]

private theorem answers_noError (l : List Bool) {e : PyErr} : ¬ dictEqual (l.map .ok) = .error e := by
  induction l with
  | nil => simp
  | cons b l ih =>
    cases b with
    | false => simp
    | true => simpa using ih

/-- C87: the comparison of two packets raises, and then AttributeError, exactly when the headers agree and either the bodies cannot be
compared, or they are equal and one packet has a CRC32C where the other has no validation. -/
theorem C87_packet_raises (sha : Bytes → Bytes) (p q : Packet) (wp wq : Bytes) (hp : p.serialize = .ok wp)
    (hq : q.serialize = .ok wq) (ap : p.alg.isSome = p.payload.isSome) (aq : q.alg.isSome = q.payload.isSome)
    (fp : Spec.FloatExpiry p.body) (fq : Spec.FloatExpiry q.body) (e : PyErr) :
    p.pyEq sha q = .error e ↔ e = .attributeError ∧ p.header = q.header ∧
      ((∃ e', p.body.pyEq q.body = .error e') ∨
        Spec.SameBody p.body q.body ∧
          ((p.alg = some .crc32c ∧ q.alg = none) ∨ (p.alg = none ∧ q.alg = some .crc32c))) := by
  obtain ⟨hb, tb, la, lp, h1, h2, _, h3, _, h4, _, _, h5⟩ := Packet.serialize_ok hp
  obtain ⟨hb', tb', la', lp', h1', h2', _, h3', _, h4', _, _, h5'⟩ := Packet.serialize_ok hq
  have hbody := C87_contentobject _ _ _ _ h2 h2' fp fq
  have hraise := fun e => (C87_contentobject_raises _ _ _ _ h2 h2' e).mp
  unfold Packet.pyEq
  rw [hp, hq]
  simp only [Packet.hash, h5, h5', ok_bind, pure_eq_ok, wireEqual]
  by_cases hh : p.header = q.header
  · rw [FixedHeader.pyEq_iff.mpr hh, dictEqual_cons_true]
    simp only [hh, true_and]
    cases hx : p.body.pyEq q.body with
    | error e' =>
      have := (hraise e' hx).1
      subst this
      rw [dictEqual_cons_error, Except.error.injEq]
      exact ⟨fun h => ⟨h.symm, .inl ⟨_, rfl⟩⟩, fun h => h.1.symm⟩
    | ok b =>
      rw [hx] at hbody
      cases b with
      | false =>
        rw [dictEqual_cons_false]
        refine ⟨(fun h => by cases h), ?_⟩
        rintro ⟨_, ⟨_, h⟩ | ⟨h, _⟩⟩
        · cases h
        · cases hbody.mpr h
      | true =>
        have hsame := hbody.mp rfl
        rw [dictEqual_cons_true]
        cases hpa : p.alg with
        | none =>
          cases hqa : q.alg with
          | none =>
            have : p.payload = none := by rw [hpa] at ap; cases hpp : p.payload <;> simp_all
            have : q.payload = none := by rw [hqa] at aq; cases hpp : q.payload <;> simp_all
            simp only [*, algEqual, eqOrRaise, dictEqual_cons_true]
            constructor
            · intro h
              exact absurd h (answers_noError [_, _])
            · rintro ⟨_, ⟨_, h⟩ | ⟨_, h⟩⟩
              · cases h
              · simp at h
          | some y =>
            cases y with
            | crc32c =>
              simp only [algEqual, dictEqual_cons_error, Except.error.injEq]
              exact ⟨fun h => ⟨h.symm, .inr ⟨hsame, .inr ⟨by trivial, by trivial⟩⟩⟩, fun h => h.1.symm⟩
            | rsaSha256 k l s => simp [algEqual]
        | some x =>
          cases hqa : q.alg with
          | none =>
            cases x with
            | crc32c =>
              simp only [algEqual, dictEqual_cons_error, Except.error.injEq]
              exact ⟨fun h => ⟨h.symm, .inr ⟨hsame, .inl ⟨by trivial, by trivial⟩⟩⟩, fun h => h.1.symm⟩
            | rsaSha256 k l s => simp [algEqual]
          | some y =>
            have hr : ¬ (e = .attributeError ∧ ((∃ e', (.ok true : Py Bool) = .error e') ∨ Spec.SameBody p.body q.body ∧
                ((some x = some ValidationAlg.crc32c ∧ some y = none) ∨ (some x = none ∧ some y = some ValidationAlg.crc32c)))) := by
              rintro ⟨_, ⟨_, h⟩ | ⟨_, h⟩⟩
              · cases h
              · simp at h
            refine ⟨fun h => ?_, fun h => absurd h hr⟩
            have : p.payload.isSome = true := by rw [← ap, hpa]; rfl
            obtain ⟨vp, hvp⟩ := Option.isSome_iff_exists.mp this
            have : q.payload.isSome = true := by rw [← aq, hqa]; rfl
            obtain ⟨vq, hvq⟩ := Option.isSome_iff_exists.mp this
            obtain ⟨t, ht, _⟩ := optTlv_some (hpa ▸ h3)
            obtain ⟨u, hu, _⟩ := optTlv_some (hqa ▸ h3')
            have : ∃ b, algEqual (some x) (some y) = .ok b := by
              cases x <;> cases y <;> simp only [algEqual, ValidationAlg.pyEq, ht, hu, tlvEqual_ok, Except.ok.injEq, exists_eq']
            obtain ⟨b, hb⟩ := this
            simp only [hb, hvp, hvq, eqOrRaise] at h
            cases b
            · cases h
            · rw [dictEqual_cons_true] at h
              exact absurd h (answers_noError [_, _, _])
  · have : p.header.pyEq q.header = false := by
      cases hq : p.header.pyEq q.header with
      | false => rfl
      | true => exact absurd (FixedHeader.pyEq_iff.mp hq) hh
    rw [this, dictEqual_cons_false]
    refine ⟨(fun h => by cases h), fun h => absurd h.2.1 hh⟩

/-- C87: a packet that comes back from its bytes is equal to the packet read exactly when no component of its name is held as an
`array`; otherwise the two are different although their bytes are the same. -/
theorem C87_reread (sha : Bytes → Bytes) (now : F64) (p p' : Packet) (w : Bytes) (hp : Spec.ReadsBack p) (hw : p.serialize = .ok w)
    (hr : Packet.deserialize now w = .ok p') :
    p'.serialize = .ok w ∧
    (p'.pyEq sha p = .ok true ↔ ∀ n, p.body.name = some n → ∀ c ∈ n.components, c.isArray = false) ∧
    (p'.pyEq sha p = .ok false ↔ ∃ n, p.body.name = some n ∧ ∃ c ∈ n.components, c.isArray = true) := by
  obtain ⟨h1, h2, _, h3, w', hw', h4⟩ := Packet.created hp.created
  rw [hw] at hw'
  cases hw'
  have hlen : 8 ≤ w.length := by
    obtain ⟨hb, tb', la, lp, h1, _, _, _, _, _, _, rfl, _⟩ := Packet.serialize_ok hw
    obtain ⟨_, _, _, _, rfl⟩ := FixedHeader.serialize_ok h1
    simp
  have := packet_RT now hw h1 h2 (by omega) h3 (Packet.stable_of_whole hp.whole) (Packet.readable_of_whole hp.whole hp.nolink)
  rw [hr] at this
  cases this
  have hs : p.toBytes.serialize = .ok w := by rw [Packet.serialize_toBytes, hw]
  refine ⟨hs, ?_⟩
  have fl : Spec.FloatExpiry p.body := by
    intro e he
    obtain ⟨n, hn, rfl⟩ := hp.whole.1 e he
    unfold F64.ofNat fl
    split
    · simp
    · split
      · simp only
        exact Nat.pow_pos (by decide)
      · simp
  have fl' : Spec.FloatExpiry p.toBytes.body := fl
  have htrue : p.toBytes.pyEq sha p = .ok true ↔ ∀ n, p.body.name = some n → ∀ c ∈ n.components, c.isArray = false := by
    rw [C87_packet sha _ _ _ _ hs hw fl' fl]
    constructor
    · rintro ⟨_, ⟨hn, _⟩, _⟩ n hname c hc
      simp only [Packet.toBytes, ContentObject.toBytes, hname, Option.map_some, Option.some.injEq, Name.toBytes] at hn
      have hcs : n.components.map NameComponent.toBytes = n.components := congrArg Name.components hn
      rw [← hcs, List.mem_map] at hc
      obtain ⟨d, _, rfl⟩ := hc
      rfl
    · intro h
      refine ⟨rfl, ⟨?_, rfl, rfl, ?_, rfl⟩, rfl, rfl⟩
      · simp only [Packet.toBytes, ContentObject.toBytes]
        cases hn : p.body.name with
        | none => rfl
        | some n =>
          obtain ⟨l⟩ := n
          have h := h _ hn
          simp only [Option.map_some, Name.toBytes, Option.some.injEq, Name.mk.injEq]
          calc l.map NameComponent.toBytes = l.map id := by
                apply List.map_congr_left
                intro c hc
                have := h c hc
                obtain ⟨ty, v, a⟩ := c
                simp only at this
                subst this
                rfl
            _ = l := by simp
      · simp only [Packet.toBytes, ContentObject.toBytes]
        cases p.body.expiryTime <;> simp [Spec.SameTime]
  refine ⟨htrue, ?_⟩
  have hno : ∀ e, ¬ p.toBytes.pyEq sha p = .error e := by
    intro e he
    rw [C87_packet_raises sha _ _ _ _ hs hw h1 h1 fl' fl] at he
    obtain ⟨_, _, ⟨e', he⟩ | ⟨_, h⟩⟩ := he
    · obtain ⟨_, tb, _, _, _, hb, _⟩ := Packet.serialize_ok hw
      obtain ⟨_, tb', _, _, _, hb', _⟩ := Packet.serialize_ok hs
      rw [C87_contentobject_raises _ _ _ _ hb' hb] at he
      simp [Spec.OneSided, Packet.toBytes, ContentObject.toBytes] at he
    · simp only [Packet.toBytes] at h
      rcases h with ⟨a, b⟩ | ⟨a, b⟩ <;> rw [a] at b <;> cases b
  constructor
  · intro h
    have : ¬ ∀ n, p.body.name = some n → ∀ c ∈ n.components, c.isArray = false := by
      rw [← htrue, h]
      simp
    simpa using this
  · rintro ⟨n, hn, c, hc, ha⟩
    cases hq : p.toBytes.pyEq sha p with
    | error e => exact absurd hq (hno e)
    | ok b =>
      cases b with
      | false => rfl
      | true =>
        have := htrue.mp hq n hn c hc
        rw [ha] at this
        cases this

/-! ## Same bytes -/

private theorem pick {a b l r : List Tlv} {ty : Nat} (ha : ∀ t ∈ a, t.type = ty) (hb : ∀ t ∈ b, t.type = ty)
    (h : l = r) (hl : l.filter (fun t => t.type == ty) = a.filter (fun t => t.type == ty))
    (hr : r.filter (fun t => t.type == ty) = b.filter (fun t => t.type == ty)) : a = b := by
  have e1 : a.filter (fun t => t.type == ty) = a := List.filter_eq_self.mpr (fun t ht => by simp [ha t ht])
  have e2 : b.filter (fun t => t.type == ty) = b := List.filter_eq_self.mpr (fun t ht => by simp [hb t ht])
  rw [← e1, ← e2, ← hl, ← hr, h]

private theorem filter_other {a : List Tlv} {ty ty' : Nat} (ha : ∀ t ∈ a, t.type = ty') (h : ty' ≠ ty) :
    a.filter (fun t => t.type == ty) = [] := List.filter_eq_nil_iff.mpr (fun t ht => by simp [ha t ht, h])

private theorem opt_sided {α : Type} {tlv : α → Py Tlv} {a b : Option α} {l : List Tlv} (ha : optTlv tlv a = .ok l)
    (hb : optTlv tlv b = .ok l) : a.isSome = b.isSome := by
  cases a with
  | none =>
    cases ha
    cases b with
    | none => rfl
    | some y => obtain ⟨_, _, h⟩ := optTlv_some hb; cases h
  | some x =>
    obtain ⟨_, _, rfl⟩ := optTlv_some ha
    cases b with
    | none => cases hb
    | some y => rfl

private theorem opt_same {α : Type} {tlv : α → Py Tlv} {a b : Option α} {l : List Tlv} {ty : Nat} {parse : Tlv → Py α} {f : α → α}
    (ra : ∀ x, a = some x → RT ty tlv parse x (f x)) (rb : ∀ x, b = some x → RT ty tlv parse x (f x))
    (ha : optTlv tlv a = .ok l) (hb : optTlv tlv b = .ok l) : a.map f = b.map f := by
  have hs := opt_sided ha hb
  cases a with
  | none => cases b <;> simp at hs ⊢
  | some x =>
    cases b with
    | none => simp at hs
    | some y =>
      obtain ⟨t, ht, rfl⟩ := optTlv_some ha
      obtain ⟨u, hu, h⟩ := optTlv_some hb
      cases h
      have h1 := (ra x rfl t ht).2.2
      have h2 := (rb y rfl t hu).2.2
      rw [h1] at h2
      simp [Except.ok.inj h2]

private theorem timestamp_type {e : F64} {t : Tlv} (h : timestampTlv T_EXPIRY e = .ok t) : t.type = T_EXPIRY := by
  unfold timestampTlv at h
  split at h
  · cases h
  · obtain ⟨b, _, h⟩ := bind_eq_ok.mp h
    obtain ⟨rfl, _⟩ := mkTlv_ok h
    rfl

private theorem finalChunkId_type {n : Nat} {t : Tlv} (h : finalChunkIdTlv n = .ok t) : t.type = T_FINAL_CHUNK_ID := by
  obtain ⟨v, _, h⟩ := bind_eq_ok.mp h
  rw [(mkTlv_ok h).1]

/-- Content objects with the same bytes have the same members. -/
private theorem same_members {c d : ContentObject} {t : Tlv} (hc : c.tlv = .ok t) (hd : d.tlv = .ok t) :
    ∃ a1 a2 a3 a4 a5, (optTlv Name.tlv c.name = .ok a1 ∧ optTlv Name.tlv d.name = .ok a1) ∧
      (optTlv (timestampTlv T_EXPIRY) c.expiryTime = .ok a2 ∧ optTlv (timestampTlv T_EXPIRY) d.expiryTime = .ok a2) ∧
      (optTlv payloadTypeTlv c.payloadType = .ok a3 ∧ optTlv payloadTypeTlv d.payloadType = .ok a3) ∧
      (optTlv (octetTlv T_PAYLOAD) c.payload = .ok a4 ∧ optTlv (octetTlv T_PAYLOAD) d.payload = .ok a4) ∧
      optTlv finalChunkIdTlv c.finalChunkId = .ok a5 ∧ optTlv finalChunkIdTlv d.finalChunkId = .ok a5 := by
  obtain ⟨a1, a2, a3, a4, a5, h1, h2, h3, h4, h5, hv, rfl⟩ := ContentObject.members_ok hc
  obtain ⟨b1, b2, b3, b4, b5, k1, k2, k3, k4, k5, kv, he⟩ := ContentObject.members_ok hd
  have he := bytesAll_inj hv kv (congrArg Tlv.value he)
  have A1 := optTlv_types (ty := T_NAME) (fun x t _ h => (name_RT x t h).1) h1
  have B1 := optTlv_types (ty := T_NAME) (fun x t _ h => (name_RT x t h).1) k1
  have A2 := optTlv_types (ty := T_EXPIRY) (fun x t _ h => timestamp_type h) h2
  have B2 := optTlv_types (ty := T_EXPIRY) (fun x t _ h => timestamp_type h) k2
  have A3 := optTlv_types (ty := T_PAYLDTYPE) (fun x t _ h => (payloadType_RT x t h).1) h3
  have B3 := optTlv_types (ty := T_PAYLDTYPE) (fun x t _ h => (payloadType_RT x t h).1) k3
  have A4 := optTlv_types (ty := T_PAYLOAD) (fun x t _ h => (octet_RT x t h).1) h4
  have B4 := optTlv_types (ty := T_PAYLOAD) (fun x t _ h => (octet_RT x t h).1) k4
  have A5 := optTlv_types (ty := T_FINAL_CHUNK_ID) (fun x t _ h => finalChunkId_type h) h5
  have B5 := optTlv_types (ty := T_FINAL_CHUNK_ID) (fun x t _ h => finalChunkId_type h) k5
  have e1 : a1 = b1 := pick A1 B1 he
    (by simp only [List.filter_append, filter_other A2 (by decide : T_EXPIRY ≠ T_NAME), filter_other A3 (by decide : T_PAYLDTYPE ≠ T_NAME),
          filter_other A4 (by decide : T_PAYLOAD ≠ T_NAME), filter_other A5 (by decide : T_FINAL_CHUNK_ID ≠ T_NAME), List.append_nil])
    (by simp only [List.filter_append, filter_other B2 (by decide : T_EXPIRY ≠ T_NAME), filter_other B3 (by decide : T_PAYLDTYPE ≠ T_NAME),
          filter_other B4 (by decide : T_PAYLOAD ≠ T_NAME), filter_other B5 (by decide : T_FINAL_CHUNK_ID ≠ T_NAME), List.append_nil])
  subst e1
  simp only [List.append_assoc, List.append_cancel_left_eq] at he
  have e2 : a2 = b2 := pick A2 B2 he
    (by simp only [List.filter_append, filter_other A3 (by decide : T_PAYLDTYPE ≠ T_EXPIRY),
          filter_other A4 (by decide : T_PAYLOAD ≠ T_EXPIRY), filter_other A5 (by decide : T_FINAL_CHUNK_ID ≠ T_EXPIRY), List.append_nil])
    (by simp only [List.filter_append, filter_other B3 (by decide : T_PAYLDTYPE ≠ T_EXPIRY),
          filter_other B4 (by decide : T_PAYLOAD ≠ T_EXPIRY), filter_other B5 (by decide : T_FINAL_CHUNK_ID ≠ T_EXPIRY), List.append_nil])
  subst e2
  simp only [List.append_cancel_left_eq] at he
  have e3 : a3 = b3 := pick A3 B3 he
    (by simp only [List.filter_append,
          filter_other A4 (by decide : T_PAYLOAD ≠ T_PAYLDTYPE), filter_other A5 (by decide : T_FINAL_CHUNK_ID ≠ T_PAYLDTYPE), List.append_nil])
    (by simp only [List.filter_append,
          filter_other B4 (by decide : T_PAYLOAD ≠ T_PAYLDTYPE), filter_other B5 (by decide : T_FINAL_CHUNK_ID ≠ T_PAYLDTYPE), List.append_nil])
  subst e3
  simp only [List.append_cancel_left_eq] at he
  have e4 : a4 = b4 := pick A4 B4 he
    (by simp only [List.filter_append, filter_other A5 (by decide : T_FINAL_CHUNK_ID ≠ T_PAYLOAD), List.append_nil])
    (by simp only [List.filter_append, filter_other B5 (by decide : T_FINAL_CHUNK_ID ≠ T_PAYLOAD), List.append_nil])
  subst e4
  simp only [List.append_cancel_left_eq] at he
  subst he
  exact ⟨_, _, _, _, _, ⟨h1, k1⟩, ⟨h2, k2⟩, ⟨h3, k3⟩, ⟨h4, k4⟩, h5, k5⟩

/-- Content objects with the same bytes have the same payload type and payload. -/
theorem ContentObject.same_payload {c d : ContentObject} {t : Tlv} (hc : c.tlv = .ok t) (hd : d.tlv = .ok t) :
    c.payloadType = d.payloadType ∧ c.payload = d.payload := by
  obtain ⟨a1, a2, a3, a4, a5, _, _, ⟨h3, k3⟩, ⟨h4, k4⟩, _⟩ := same_members hc hd
  have r3 := opt_same (f := id) (fun x _ => payloadType_RT x) (fun x _ => payloadType_RT x) h3 k3
  have r4 := opt_same (f := id) (fun x _ => octet_RT x) (fun x _ => octet_RT x) h4 k4
  simpa only [Option.map_id, id] using And.intro r3 r4

/-- Content objects with the same bytes: everything but the exact time and the buffers of the name is the same. -/
private theorem body_same_bytes {c d : ContentObject} {t : Tlv} (hc : c.tlv = .ok t) (hd : d.tlv = .ok t)
    (nc : ∀ n, c.finalChunkId = some n → n < 2 ^ 64) (nd : ∀ n, d.finalChunkId = some n → n < 2 ^ 64) :
    c.name.map Name.toBytes = d.name.map Name.toBytes ∧ c.payloadType = d.payloadType ∧ c.payload = d.payload ∧
    c.expiryTime.isSome = d.expiryTime.isSome ∧ c.finalChunkId = d.finalChunkId := by
  obtain ⟨a1, a2, a3, a4, a5, ⟨h1, k1⟩, ⟨h2, k2⟩, ⟨h3, k3⟩, ⟨h4, k4⟩, h5, k5⟩ := same_members hc hd
  have r3 := opt_same (f := id) (fun x _ => payloadType_RT x) (fun x _ => payloadType_RT x) h3 k3
  have r4 := opt_same (f := id) (fun x _ => octet_RT x) (fun x _ => octet_RT x) h4 k4
  have r5 := opt_same (f := id) (fun x hx => finalChunkId_RT (nc x hx)) (fun x hx => finalChunkId_RT (nd x hx)) h5 k5
  simp only [Option.map_id, id] at r3 r4 r5
  exact ⟨opt_same (fun x _ => name_RT x) (fun x _ => name_RT x) h1 k1, r3, r4, opt_sided h2 k2, r5⟩

private theorem header_inj {g h : FixedHeader} {w : Bytes} (hg : g.serialize = .ok w) (hh : h.serialize = .ok w) : g = h := by
  obtain ⟨a1, a2, a3, a4, rfl⟩ := FixedHeader.serialize_ok hg
  obtain ⟨b1, b2, b3, b4, he⟩ := FixedHeader.serialize_ok hh
  have inj : ∀ {x y : Nat}, x ≤ 0xFF → y ≤ 0xFF → UInt8.ofNat x = UInt8.ofNat y → x = y := by
    intro x y hx hy h
    have := congrArg UInt8.toNat h
    simpa [Nat.mod_eq_of_lt (by omega : x < 256), Nat.mod_eq_of_lt (by omega : y < 256)] using this
  simp only [List.cons.injEq, and_true] at he
  obtain ⟨c1, c2, c3, c4, c5, c6, c7, c8⟩ := he
  obtain ⟨v, t, l, x, y, z, k⟩ := g
  obtain ⟨v', t', l', x', y', z', k'⟩ := h
  simp only at *
  have d1 := inj a1 b1 c1
  have d2 := inj a2 b2 c2
  have d3 := inj (by omega) (by omega) c3
  have d4 := inj (by omega) (by omega) c4
  have d5 := inj a4 b4 c8
  have d6 : l = l' := by omega
  subst d1 d2 d5 d6 c5 c6 c7
  rfl

/-- C87: two packets with the same bytes are compared without exception, and can differ in two ways only: in the floats behind their
expiry times (the wire has whole milliseconds) and in the buffers that hold the components of their names. -/
theorem C87_same_bytes (sha : Bytes → Bytes) (p q : Packet) (w : Bytes) (hp : p.serialize = .ok w) (hq : q.serialize = .ok w)
    (ap : p.alg.isSome = p.payload.isSome) (aq : q.alg.isSome = q.payload.isSome)
    (fp : Spec.FloatExpiry p.body) (fq : Spec.FloatExpiry q.body)
    (np : ∀ n, p.body.finalChunkId = some n → n < 2 ^ 64) (nq : ∀ n, q.body.finalChunkId = some n → n < 2 ^ 64) :
    (p.pyEq sha q = .ok true ↔ p.body.name = q.body.name ∧ Spec.SameTime p.body.expiryTime q.body.expiryTime) ∧
    (∀ e, p.pyEq sha q ≠ .error e) ∧
    p.body.name.map (fun n => n.components.map (fun c => (c.type, c.value))) =
      q.body.name.map (fun n => n.components.map (fun c => (c.type, c.value))) := by
  obtain ⟨hb, tb, la, lp, h1, h2, v2, h3, v3, h4, v4, hw, h5⟩ := Packet.serialize_ok hp
  obtain ⟨hb', tb', la', lp', h1', h2', v2', h3', v3', h4', v4', hw', h5'⟩ := Packet.serialize_ok hq
  have hl : ∀ {g : FixedHeader} {b : Bytes}, g.serialize = .ok b → b.length = 8 := by
    intro g b h
    obtain ⟨_, _, _, _, rfl⟩ := FixedHeader.serialize_ok h
    rfl
  obtain ⟨eh, er⟩ := List.append_inj (hw.symm.trans hw') ((hl h1).trans (hl h1').symm)
  subst eh
  have ehead := header_inj h1 h1'
  replace er := bytesAll_inj (by grind) (by grind) er
  simp only [List.cons_append, List.nil_append, List.cons.injEq] at er
  obtain ⟨et, es⟩ := er
  subst et
  have A3 := optTlv_types (ty := T_VALIDATION_ALG) (fun x t _ h => (ValidationAlg.tlv_ok h).1) h3
  have B3 := optTlv_types (ty := T_VALIDATION_ALG) (fun x t _ h => (ValidationAlg.tlv_ok h).1) h3'
  have A4 := optTlv_types (ty := T_VALIDATION_PAYLOAD) (fun x t _ h => (octet_RT x t h).1) h4
  have B4 := optTlv_types (ty := T_VALIDATION_PAYLOAD) (fun x t _ h => (octet_RT x t h).1) h4'
  have e3 : la = la' := pick A3 B3 es
    (by simp only [List.filter_append, filter_other A4 (by decide : T_VALIDATION_PAYLOAD ≠ T_VALIDATION_ALG), List.append_nil])
    (by simp only [List.filter_append, filter_other B4 (by decide : T_VALIDATION_PAYLOAD ≠ T_VALIDATION_ALG), List.append_nil])
  subst e3
  simp only [List.append_cancel_left_eq] at es
  subst es
  have r4 := opt_same (f := id) (fun x _ => octet_RT x) (fun x _ => octet_RT x) h4 h4'
  simp only [Option.map_id, id] at r4
  have r3 : optWire ValidationAlg.tlv p.alg = optWire ValidationAlg.tlv q.alg := by
    have hs := opt_sided h3 h3'
    cases hpa : p.alg with
    | none => cases hqa : q.alg <;> simp_all
    | some x =>
      cases hqa : q.alg with
      | none => simp_all
      | some y =>
        rw [hpa] at h3
        rw [hqa] at h3'
        obtain ⟨t, ht, rfl⟩ := optTlv_some h3
        obtain ⟨u, hu, h⟩ := optTlv_some h3'
        cases h
        simp only [optWire, wireOf, ht, hu]
  obtain ⟨b1, b2, b3, b4, b5⟩ := body_same_bytes h2 h2' np nq
  refine ⟨?_, ?_, ?_⟩
  · rw [C87_packet sha p q w w hp hq fp fq]
    constructor
    · rintro ⟨_, ⟨hn, _, _, ht, _⟩, _⟩
      exact ⟨hn, ht⟩
    · rintro ⟨hn, ht⟩
      exact ⟨ehead, ⟨hn, b2, b3, ht, b5⟩, r3, r4⟩
  · intro e he
    rw [C87_packet_raises sha p q w w hp hq ap aq fp fq] at he
    have bn : p.body.name.isSome = q.body.name.isSome := by simpa using congrArg Option.isSome b1
    obtain ⟨_, _, ⟨e', he⟩ | ⟨_, h⟩⟩ := he
    · rw [C87_contentobject_raises _ _ _ _ h2 h2'] at he
      obtain ⟨_, h | h | h⟩ := he
      · exact h bn
      · exact h.2 (by rw [b2])
      · exact h.2.2.2 b4
    · have := opt_sided h3 h3'
      rcases h with ⟨x, y⟩ | ⟨x, y⟩ <;> simp [x, y] at this
  · have : ∀ n : Name, n.components.map (fun c => (c.type, c.value)) = n.toBytes.components.map (fun c => (c.type, c.value)) := by
      intro n
      simp [Name.toBytes, NameComponent.toBytes, Function.comp_def]
    have h := congrArg (Option.map (fun n : Name => n.components.map (fun c => (c.type, c.value)))) b1
    simpa [Option.map_map, Function.comp_def, ← this] using h

/-! ## Links and pointers -/

private theorem hash_field {a : Option HashValue} : eqOrFalse HashValue.pyEq a a = .ok true := by
  rw [eqOrFalse_true]
  cases a with
  | none => exact .inl ⟨rfl, rfl⟩
  | some x => exact .inr ⟨x, x, rfl, rfl, HashValue.pyEq_iff.mpr rfl⟩

private theorem link_name_tlv {l : Link} {w : Bytes} {n : Name} (h : l.wire = .ok w) (hn : l.name = some n) : ∃ u, n.tlv = .ok u := by
  obtain ⟨ms, hm, _⟩ := bind_eq_ok.mp h
  obtain ⟨a, ha, _⟩ := bind_eq_ok.mp hm
  rw [hn] at ha
  obtain ⟨u, hu, _⟩ := optTlv_some ha
  exact ⟨u, hu⟩

/-- C87: hash values are equal exactly when their digests are: the algorithm is not looked at. -/
theorem C87_hash (a b : HashValue) : a.pyEq b = true ↔ a.value = b.value := HashValue.pyEq_iff

/-- C87: two links are equal exactly when name, keyid and digest are the same, algorithms included, and iteration over them stopped at
the same place. -/
theorem C87_link (a b : Link) (oa ob : Nat) (wa wb : Bytes) (ha : a.wire = .ok wa) (hb : b.wire = .ok wb) :
    a.dictEq oa b ob = .ok true ↔ a = b ∧ oa = ob := by
  unfold Link.dictEq
  rw [dictEqual_true]
  simp only [List.mem_cons, List.not_mem_nil, or_false, forall_eq_or_imp, forall_eq, Except.ok.injEq, beq_iff_eq]
  constructor
  · rintro ⟨h1, _, _, h4, h5⟩
    refine ⟨?_, h4⟩
    rw [ha, hb, wireEqual_true] at h5
    subst h5
    have e := link_RT ha
    rw [link_RT hb] at e
    have e := Except.ok.inj e
    have en : a.name = b.name := by
      rcases eqOrRaise_true.mp h1 with ⟨h1, h2⟩ | ⟨x, y, h1, h2, h⟩
      · rw [h1, h2]
      · rw [h1, h2, Name.pyEq_eq (Except.ok.inj h)]
    obtain ⟨n, k, d⟩ := a
    obtain ⟨n', k', d'⟩ := b
    simp only [Link.toBytes, Link.mk.injEq] at e en
    rw [en, e.2.1, e.2.2]
  · rintro ⟨rfl, rfl⟩
    refine ⟨?_, hash_field, hash_field, rfl, by rw [ha]; exact wireEqual_true.mpr rfl⟩
    rw [eqOrRaise_true]
    cases hn : a.name with
    | none => exact .inl ⟨rfl, rfl⟩
    | some n =>
      obtain ⟨u, hu⟩ := link_name_tlv ha hn
      exact .inr ⟨n, n, rfl, rfl, by rw [Name.pyEq_refl hu]⟩

/-- C87: once a link has been put into a key link (or a signature's key locator) it is no longer equal to a link with the same fields that
has not, unless both are empty. -/
theorem C87_link_used (l : Link) (w : Bytes) (h : l.wire = .ok w) :
    (∃ n, l.usedOffset = .ok n ∧ (l.dictEq n l 0 = .ok true ↔ w = []) ∧ (l.dictEq n l 0 = .ok false ↔ w ≠ [])) := by
  refine ⟨w.length, by simp [Link.usedOffset, h], ?_⟩
  have h1 := C87_link l l w.length 0 w w h h
  have h2 := C87_link l l 0 0 w w h h
  cases w with
  | nil =>
    have h2 := h2.mpr ⟨rfl, rfl⟩
    simp [h2]
  | cons b w =>
    refine ⟨by simpa using h1, by simp, fun _ => ?_⟩
    have h2 := dictEqual_true.mp (h2.mpr ⟨rfl, rfl⟩)
    simp only [List.mem_cons, List.not_mem_nil, or_false, forall_eq_or_imp, forall_eq] at h2
    unfold Link.dictEq
    rw [h2.1, h2.2.1, h2.2.2.1]
    rfl

/-- C87: two key links are equal exactly when the links in them are the same. -/
theorem C87_keylink (a b : Link) (ta tb : Tlv) (ha : linkTlv T_KEYLINK a = .ok ta) (hb : linkTlv T_KEYLINK b = .ok tb) :
    keyLinkEqual a b = .ok true ↔ a = b := by
  obtain ⟨wa, hwa, _⟩ := bind_eq_ok.mp ha
  obtain ⟨wb, hwb, _⟩ := bind_eq_ok.mp hb
  unfold keyLinkEqual Link.usedOffset
  simp only [hwa, hwb, ok_bind, pure_eq_ok]
  rw [dictEqual_true]
  simp only [List.mem_cons, List.not_mem_nil, or_false, forall_eq_or_imp, forall_eq]
  rw [C87_link a b _ _ _ _ hwa hwb]
  constructor
  · exact fun h => h.1.1
  · rintro rfl
    rw [hwa] at hwb
    cases hwb
    exact ⟨⟨rfl, rfl⟩, by rw [ha]; exact (tlvEqual_true rfl).mpr rfl⟩

private theorem hash_list_refl (l : List HashValue) : listEqual (fun x y => .ok (HashValue.pyEq x y)) l l = .ok true :=
  listEqual_refl (fun x _ => by rw [HashValue.pyEq_iff.mpr rfl])

/-- C87: two lists of pointers are equal exactly when they hold the same pointers, algorithms included, and both were left at the same
point of the iteration over them; a list that has been iterated over differs from one that has not. -/
theorem C87_pointers (a b : List HashValue) (oa ob : Option Nat) (ta tb : Tlv) (ha : pointersTlv a = .ok ta)
    (hb : pointersTlv b = .ok tb) : pointersEqual a oa b ob = .ok true ↔ a = b ∧ oa = ob := by
  unfold pointersEqual
  split
  · rename_i h
    constructor
    · intro h; cases h
    · rintro ⟨_, rfl⟩; exact absurd rfl h
  · rw [dictEqual_true]
    simp only [List.mem_cons, List.not_mem_nil, or_false, forall_eq_or_imp, forall_eq, Except.ok.injEq, beq_iff_eq]
    constructor
    · rintro ⟨_, h2, h3⟩
      rw [ha, hb, tlvEqual_true ((pointers_RT a ta ha).1.trans (pointers_RT b tb hb).1.symm)] at h2
      subst h2
      have e := (pointers_RT a ta ha).2.2
      rw [(pointers_RT b ta hb).2.2] at e
      exact ⟨(Except.ok.inj e).symm, h3⟩
    · rintro ⟨rfl, rfl⟩
      exact ⟨hash_list_refl a, by rw [ha]; exact (tlvEqual_true rfl).mpr rfl, rfl⟩

/-! ## Groups, nodes, schemas -/

/-- C87: two group data are equal exactly when all their fields are. -/
theorem C87_groupdata (g h : GroupData) (tg th : Tlv) (fg : g.Fits) (fh : h.Fits) (hg : g.tlv = .ok tg) (hh : h.tlv = .ok th) :
    g.pyEq h = .ok true ↔ g = h := by
  unfold GroupData.pyEq
  rw [dictEqual_true]
  simp only [List.mem_cons, List.not_mem_nil, or_false, forall_eq_or_imp, forall_eq]
  constructor
  · rintro ⟨_, _, _, _, _, _, h7⟩
    rw [hg, hh, tlvEqual_true ((groupData_RT fg tg hg).1.trans (groupData_RT fh th hh).1.symm)] at h7
    subst h7
    have e := (groupData_RT fg tg hg).2.2
    rw [(groupData_RT fh tg hh).2.2] at e
    exact (Except.ok.inj e).symm
  · rintro rfl
    exact ⟨eqOrFalse_beq.mpr rfl, hash_field, eqOrFalse_beq.mpr rfl, hash_field, eqOrFalse_beq.mpr rfl, eqOrFalse_beq.mpr rfl,
      by rw [hg]; exact (tlvEqual_true rfl).mpr rfl⟩

/-- C87: two hash groups are equal exactly when group data and pointers are. -/
theorem C87_hashgroup (g h : HashGroup) (tg th : Tlv) (fg : g.Fits) (fh : h.Fits) (hg : g.tlv = .ok tg) (hh : h.tlv = .ok th) :
    g.pyEq h = .ok true ↔ g = h := by
  unfold HashGroup.pyEq
  rw [hg, hh, tlvEqual_true ((hashGroup_RT fg tg hg).1.trans (hashGroup_RT fh th hh).1.symm)]
  constructor
  · rintro rfl
    have e := (hashGroup_RT fg tg hg).2.2
    rw [(hashGroup_RT fh tg hh).2.2] at e
    exact (Except.ok.inj e).symm
  · rintro rfl
    rw [hg] at hh
    exact Except.ok.inj hh

private theorem listTlv_mem {α : Type} {tlv : α → Py Tlv} {xs : List α} {l : List Tlv} (h : listTlv tlv xs = .ok l) :
    ∀ x ∈ xs, ∃ t, tlv x = .ok t := by
  induction xs generalizing l with
  | nil => simp
  | cons x xs ih =>
    obtain ⟨t, r, ht, hr, _⟩ := listTlv_cons_ok h
    intro y hy
    rcases List.mem_cons.mp hy with rfl | hy
    · exact ⟨t, ht⟩
    · exact ih hr y hy

private theorem locator_wire {l : Link} {t : Tlv} (h : locatorTlv l = .ok t) : (∃ n, l.name = some n) ∧ ∃ w, l.wire = .ok w := by
  unfold locatorTlv at h
  split at h
  · cases h
  · rename_i n hn
    obtain ⟨w, hw, _⟩ := bind_eq_ok.mp h
    exact ⟨⟨n, hn⟩, w, hw⟩

private theorem locator_eq {a b : Link} {ta tb : Tlv} (ha : locatorTlv a = .ok ta) (hb : locatorTlv b = .ok tb) :
    locatorEqual a b = .ok true ↔ a = b := by
  obtain ⟨_, wa, hwa⟩ := locator_wire ha
  obtain ⟨_, wb, hwb⟩ := locator_wire hb
  unfold locatorEqual
  rw [dictEqual_true]
  simp only [List.mem_cons, List.not_mem_nil, or_false, forall_eq_or_imp, forall_eq]
  rw [C87_link a b _ _ _ _ hwa hwb]
  constructor
  · exact fun h => h.1.1
  · rintro rfl
    exact ⟨⟨rfl, rfl⟩, by rw [ha]; exact (tlvEqual_true rfl).mpr rfl⟩

/-- C87: two lists of locators are equal exactly when they are the same, link by link. -/
theorem C87_locators (a b : List Link) (ta tb : Tlv) (ha : locatorsTlv a = .ok ta) (hb : locatorsTlv b = .ok tb) :
    locatorsEqual a b = .ok true ↔ a = b := by
  obtain ⟨_, ma, hma, _⟩ := locatorsTlv_ok ha
  obtain ⟨_, mb, hmb, _⟩ := locatorsTlv_ok hb
  unfold locatorsEqual
  rw [dictEqual_true]
  simp only [List.mem_cons, List.not_mem_nil, or_false, forall_eq_or_imp, forall_eq]
  constructor
  · rintro ⟨h, _⟩
    refine listEqual_eq h (fun x hx y hy => ?_)
    obtain ⟨u, hu⟩ := listTlv_mem hma x hx
    obtain ⟨v, hv⟩ := listTlv_mem hmb y hy
    exact (locator_eq hu hv).mp
  · rintro rfl
    refine ⟨listEqual_refl (fun x hx => ?_), by rw [ha]; exact (tlvEqual_true rfl).mpr rfl⟩
    obtain ⟨u, hu⟩ := listTlv_mem hma x hx
    exact (locator_eq hu hu).mpr rfl

private theorem answer_of_noError {x : Py Bool} (h : ∀ e, x ≠ .error e) : ∃ b, x = .ok b := by
  cases x with
  | error e => exact absurd rfl (h e)
  | ok b => exact ⟨b, rfl⟩

private theorem dict_noError {l : List (Py Bool)} (h : ∀ x ∈ l, ∀ e, x ≠ .error e) (e : PyErr) : dictEqual l ≠ .error e := by
  intro he
  obtain ⟨pre, post, rfl, _⟩ := dictEqual_error.mp he
  exact h (.error e) (by simp) e rfl

private theorem list_noError {α : Type} {eq : α → α → Py Bool} {a b : List α} (h : ∀ x ∈ a, ∀ y ∈ b, ∀ e, eq x y ≠ .error e) (e : PyErr) :
    listEqual eq a b ≠ .error e := by
  unfold listEqual
  split
  · refine dict_noError (fun x hx e => ?_) e
    obtain ⟨p, hp, rfl⟩ := List.mem_map.mp hx
    have hp : (p.1, p.2) ∈ a.zip b := hp
    exact h _ (List.of_mem_zip hp).1 _ (List.of_mem_zip hp).2 e
  · simp

private theorem tlv_noError {s t : Tlv} (e : PyErr) : tlvEqual (.ok s) (.ok t) ≠ .error e := by simp [tlvEqual_ok]

private theorem locators_noError {a b : List Link} {ta tb : Tlv} (ha : locatorsTlv a = .ok ta) (hb : locatorsTlv b = .ok tb) (e : PyErr) :
    locatorsEqual a b ≠ .error e := by
  obtain ⟨_, ma, hma, _⟩ := locatorsTlv_ok ha
  obtain ⟨_, mb, hmb, _⟩ := locatorsTlv_ok hb
  refine dict_noError (fun x hx e => ?_) e
  simp only [List.mem_cons, List.not_mem_nil, or_false] at hx
  rcases hx with rfl | rfl
  · refine list_noError (fun x hx y hy e => ?_) e
    obtain ⟨u, hu⟩ := listTlv_mem hma x hx
    obtain ⟨v, hv⟩ := listTlv_mem hmb y hy
    obtain ⟨⟨n, hn⟩, w, hw⟩ := locator_wire hu
    obtain ⟨⟨n', hn'⟩, w', hw'⟩ := locator_wire hv
    refine dict_noError (fun z hz e => ?_) e
    simp only [List.mem_cons, List.not_mem_nil, or_false] at hz
    rcases hz with rfl | rfl
    · refine dict_noError (fun z hz e => ?_) e
      simp only [List.mem_cons, List.not_mem_nil, or_false] at hz
      rcases hz with rfl | rfl | rfl | rfl | rfl
      · rw [hn, hn']; simp [eqOrRaise]
      · exact eqOrFalse_error
      · exact eqOrFalse_error
      · simp
      · rw [hw, hw']; simp [wireEqual]
    · rw [hu, hv]; exact tlv_noError e
  · rw [ha, hb]; exact tlv_noError e

/-- What a node data holds has TLVs. -/
private theorem NodeData.parts {d : NodeData} {t : Tlv} (h : d.tlv = .ok t) :
    t.type = T_NODE_DATA ∧ (∀ l, d.locators = some l → ∃ u, locatorsTlv l = .ok u) ∧ (∀ x ∈ d.ncDefs, ∃ u, x.tlv = .ok u) ∧
    (∀ x ∈ d.vendors, ∃ u, x.tlv = .ok u) := by
  obtain ⟨ms, hm, h⟩ := bind_eq_ok.mp h
  obtain ⟨_, rfl, _⟩ := container_ok h
  obtain ⟨a, ha, hm⟩ := bind_eq_ok.mp hm
  obtain ⟨b, hb, hm⟩ := bind_eq_ok.mp hm
  obtain ⟨c, hc, hm⟩ := bind_eq_ok.mp hm
  obtain ⟨e, he, hm⟩ := bind_eq_ok.mp hm
  obtain ⟨f, hf, hm⟩ := bind_eq_ok.mp hm
  refine ⟨rfl, ?_, listTlv_mem he, listTlv_mem hf⟩
  intro l hl
  rw [hl] at hc
  obtain ⟨u, hu, _⟩ := optTlv_some hc
  exact ⟨u, hu⟩

private theorem locs_field {a b : Option (List Link)} (ha : ∀ l, a = some l → ∃ u, locatorsTlv l = .ok u)
    (hb : ∀ l, b = some l → ∃ u, locatorsTlv l = .ok u) : eqOrRaise locatorsEqual a b = .ok true ↔ a = b := by
  cases a with
  | none => cases b <;> simp [eqOrRaise]
  | some x =>
    cases b with
    | none => simp [eqOrRaise]
    | some y =>
      obtain ⟨u, hu⟩ := ha x rfl
      obtain ⟨v, hv⟩ := hb y rfl
      simpa [eqOrRaise] using C87_locators x y u v hu hv

private theorem locs_error {a b : Option (List Link)} (ha : ∀ l, a = some l → ∃ u, locatorsTlv l = .ok u)
    (hb : ∀ l, b = some l → ∃ u, locatorsTlv l = .ok u) (e : PyErr) :
    eqOrRaise locatorsEqual a b = .error e ↔ Spec.OneSided a b ∧ e = .attributeError := by
  rw [eqOrRaise_error]
  constructor
  · rintro (h | ⟨x, y, rfl, rfl, h⟩)
    · exact h
    · obtain ⟨u, hu⟩ := ha x rfl
      obtain ⟨v, hv⟩ := hb y rfl
      exact absurd h (locators_noError hu hv e)
  · exact .inl

/-- C87: two node data are equal exactly when their TLVs are the same and their locators are held alike. -/
theorem C87_nodedata (a b : NodeData) (ta tb : Tlv) (fa : a.Fits) (fb : b.Fits) (ha : a.tlv = .ok ta) (hb : b.tlv = .ok tb) :
    a.pyEq b = .ok true ↔ ta = tb ∧ a.locators = b.locators := by
  obtain ⟨ya, la, na, va⟩ := NodeData.parts ha
  obtain ⟨yb, lb, nb, vb⟩ := NodeData.parts hb
  unfold NodeData.pyEq
  rw [dictEqual_true]
  simp only [List.mem_cons, List.not_mem_nil, or_false, forall_eq_or_imp, forall_eq]
  rw [ha, hb, tlvEqual_true (ya.trans yb.symm), locs_field la lb]
  constructor
  · rintro ⟨_, _, h3, _, _, h6⟩
    exact ⟨h6, h3⟩
  · rintro ⟨h6, h3⟩
    subst h6
    have e := (nodeData_RT fa ta ha).2.2
    rw [(nodeData_RT fb ta hb).2.2] at e
    have e := (Except.ok.inj e).symm
    simp only [NodeData.toBytes, NodeData.mk.injEq] at e
    obtain ⟨e1, e2, _, e4, e5⟩ := e
    refine ⟨by rw [e1]; exact eqOrFalse_beq.mpr rfl, by rw [e2]; exact hash_field, h3, ?_, ?_, rfl⟩
    · rw [e4]
      refine listEqual_refl (fun x hx => ?_)
      obtain ⟨u, hu⟩ := vb x hx
      rw [Vendor.pyEq, hu, tlvEqual_ok, Tlv.pyEq_refl]
      simp
    · rw [listEqual_true]
      have hl : a.ncDefs.length = b.ncDefs.length := by simpa using congrArg List.length e5
      refine ⟨hl, fun p hp => ?_⟩
      obtain ⟨i, hi, rfl⟩ := List.getElem_of_mem hp
      rw [List.getElem_zip]
      have hi1 : i < a.ncDefs.length := by simp at hi; omega
      have hi2 : i < b.ncDefs.length := by omega
      have ei : (a.ncDefs[i]).toBytes = (b.ncDefs[i]).toBytes := by
        have := congrArg (fun l : List NcDef => l[i]?) e5
        simpa [hi1, hi2] using this
      have et : (a.ncDefs[i]).tlv = (b.ncDefs[i]).tlv := by rw [← NcDef.tlv_toBytes, ei, NcDef.tlv_toBytes]
      obtain ⟨u, hu⟩ := nb _ (List.getElem_mem hi2)
      simp only [NcDef.pyEq]
      rw [et, hu]
      exact (tlvEqual_true rfl).mpr rfl

/-- C87: the comparison of two node data raises, and then AttributeError, exactly when they have the same size and digest (but for the
hash algorithm) and locators on one side only. -/
theorem C87_nodedata_raises (a b : NodeData) (ta tb : Tlv) (ha : a.tlv = .ok ta) (hb : b.tlv = .ok tb) (e : PyErr) :
    a.pyEq b = .error e ↔ e = .attributeError ∧ a.subtreeSize = b.subtreeSize ∧
      a.subtreeDigest.map HashValue.value = b.subtreeDigest.map HashValue.value ∧ Spec.OneSided a.locators b.locators := by
  obtain ⟨ya, la, na, va⟩ := NodeData.parts ha
  obtain ⟨yb, lb, nb, vb⟩ := NodeData.parts hb
  have h1 := @eqOrFalse_beq Nat _ _ a.subtreeSize b.subtreeSize
  have h2 : eqOrFalse HashValue.pyEq a.subtreeDigest b.subtreeDigest = .ok true ↔
      a.subtreeDigest.map HashValue.value = b.subtreeDigest.map HashValue.value := by
    cases a.subtreeDigest <;> cases b.subtreeDigest <;> simp [eqOrFalse, HashValue.pyEq_iff]
  have h3 := locs_error la lb
  have h5 : ∀ e, dictEqual [listEqual Vendor.pyEq a.vendors b.vendors, listEqual NcDef.pyEq a.ncDefs b.ncDefs, tlvEqual a.tlv b.tlv] ≠
      .error e := by
    refine dict_noError (fun z hz e => ?_)
    simp only [List.mem_cons, List.not_mem_nil, or_false] at hz
    rcases hz with rfl | rfl | rfl
    · refine list_noError (fun x hx y hy e => ?_) e
      obtain ⟨u, hu⟩ := va x hx
      obtain ⟨v, hv⟩ := vb y hy
      refine dict_noError (fun z hz e => ?_) e
      simp only [List.mem_cons, List.not_mem_nil, or_false] at hz
      rcases hz with rfl | rfl | rfl
      · simp
      · simp
      · rw [hu, hv]; exact tlv_noError e
    · refine list_noError (fun x hx y hy e => ?_) e
      obtain ⟨u, hu⟩ := na x hx
      obtain ⟨v, hv⟩ := nb y hy
      rw [NcDef.pyEq, hu, hv]
      exact tlv_noError e
    · rw [ha, hb]; exact tlv_noError e
  unfold NodeData.pyEq
  obtain ⟨b1, hb1⟩ := answer_of_noError (fun e => @eqOrFalse_error Nat (fun x y => x == y) a.subtreeSize b.subtreeSize e)
  obtain ⟨b2, hb2⟩ := answer_of_noError (fun e => @eqOrFalse_error HashValue HashValue.pyEq a.subtreeDigest b.subtreeDigest e)
  rw [hb1] at h1 ⊢
  rw [hb2] at h2 ⊢
  cases b1 with
  | false =>
    refine ⟨(fun h => by cases h), fun h => by cases h1.mpr h.2.1⟩
  | true =>
    rw [dictEqual_cons_true]
    cases b2 with
    | false =>
      refine ⟨(fun h => by cases h), fun h => by cases h2.mpr h.2.2.1⟩
    | true =>
      rw [dictEqual_cons_true]
      have h1 := h1.mp rfl
      have h2 := h2.mp rfl
      cases hx : eqOrRaise locatorsEqual a.locators b.locators with
      | error e' =>
        obtain ⟨k1, rfl⟩ := (h3 e').mp hx
        rw [dictEqual_cons_error, Except.error.injEq]
        exact ⟨fun h => ⟨h.symm, h1, h2, k1⟩, fun h => h.1.symm⟩
      | ok c =>
        have hno : ¬ Spec.OneSided a.locators b.locators := fun h => by
          have := (h3 .attributeError).mpr ⟨h, rfl⟩
          rw [hx] at this
          cases this
        refine ⟨fun h => ?_, fun h => absurd h.2.2.2 hno⟩
        cases c with
        | false => cases h
        | true =>
          rw [dictEqual_cons_true] at h
          exact absurd h (h5 e)

private theorem Node.parts {n : Node} {t : Tlv} (h : n.tlv = .ok t) :
    t.type = T_NODE ∧ (∀ d, n.nodeData = some d → ∃ u, d.tlv = .ok u) ∧ ∀ g ∈ n.hashGroups, ∃ u, g.tlv = .ok u := by
  obtain ⟨ms, hm, _, _, _, hy, _⟩ := Node.tlv_ok h
  obtain ⟨a, ha, hm⟩ := bind_eq_ok.mp hm
  obtain ⟨b, hb, hm⟩ := bind_eq_ok.mp hm
  refine ⟨hy, ?_, listTlv_mem hb⟩
  intro d hd
  rw [hd] at ha
  obtain ⟨u, hu, _⟩ := optTlv_some ha
  exact ⟨u, hu⟩

/-- C87: two nodes are equal exactly when their TLVs (padding included) are the same and their locators are held alike. -/
theorem C87_node (a b : Node) (ta tb : Tlv) (fa : a.Fits) (fb : b.Fits) (ha : a.tlv = .ok ta) (hb : b.tlv = .ok tb) :
    a.pyEq b = .ok true ↔ ta = tb ∧ a.nodeData.bind NodeData.locators = b.nodeData.bind NodeData.locators := by
  obtain ⟨ya, da, ga⟩ := Node.parts ha
  obtain ⟨yb, db, gb⟩ := Node.parts hb
  unfold Node.pyEq
  rw [dictEqual_true]
  simp only [List.mem_cons, List.not_mem_nil, or_false, forall_eq_or_imp, forall_eq]
  rw [ha, hb, tlvEqual_true (ya.trans yb.symm)]
  constructor
  · rintro ⟨h1, _, h3⟩
    refine ⟨h3, ?_⟩
    rcases eqOrRaise_true.mp h1 with ⟨h1, h2⟩ | ⟨x, y, h1, h2, h⟩
    · rw [h1, h2]
    · obtain ⟨u, hu⟩ := da x h1
      obtain ⟨v, hv⟩ := db y h2
      rw [h1, h2]
      exact ((C87_nodedata x y u v (fa.1 x h1) (fb.1 y h2) hu hv).mp h).2
  · rintro ⟨h1, h2⟩
    subst h1
    have e := (node_RT fa ta ha).2.2
    rw [(node_RT fb ta hb).2.2] at e
    have e := (Except.ok.inj e).symm
    simp only [Node.toBytes, Node.mk.injEq, and_true] at e
    obtain ⟨e1, e2⟩ := e
    refine ⟨?_, ?_, rfl⟩
    · rw [eqOrRaise_true]
      cases hx : a.nodeData with
      | none =>
        cases hy : b.nodeData with
        | none => exact .inl ⟨rfl, rfl⟩
        | some y => rw [hx, hy] at e1; cases e1
      | some x =>
        cases hy : b.nodeData with
        | none => rw [hx, hy] at e1; cases e1
        | some y =>
          refine .inr ⟨x, y, rfl, rfl, ?_⟩
          obtain ⟨u, hu⟩ := da x hx
          obtain ⟨v, hv⟩ := db y hy
          rw [hx, hy] at e1 h2
          refine (C87_nodedata x y u v (fa.1 x hx) (fb.1 y hy) hu hv).mpr ⟨?_, h2⟩
          have : x.toBytes = y.toBytes := Option.some.inj e1
          have : x.tlv = y.tlv := by rw [← NodeData.tlv_toBytes, this, NodeData.tlv_toBytes]
          rw [hu, hv] at this
          exact Except.ok.inj this
    · rw [e2]
      refine listEqual_refl (fun x hx => ?_)
      obtain ⟨u, hu⟩ := gb x hx
      rw [HashGroup.pyEq, hu]
      exact (tlvEqual_true rfl).mpr rfl

/-- C87: the comparison of two nodes raises, and then AttributeError, exactly when only one has node data, or both do and these cannot be
compared. -/
theorem C87_node_raises (a b : Node) (ta tb : Tlv) (ha : a.tlv = .ok ta) (hb : b.tlv = .ok tb) (e : PyErr) :
    a.pyEq b = .error e ↔ e = .attributeError ∧
      (Spec.OneSided a.nodeData b.nodeData ∨ ∃ x y, a.nodeData = some x ∧ b.nodeData = some y ∧ x.subtreeSize = y.subtreeSize ∧
        x.subtreeDigest.map HashValue.value = y.subtreeDigest.map HashValue.value ∧ Spec.OneSided x.locators y.locators) := by
  obtain ⟨ya, da, ga⟩ := Node.parts ha
  obtain ⟨yb, db, gb⟩ := Node.parts hb
  have h5 : ∀ e, dictEqual [listEqual HashGroup.pyEq a.hashGroups b.hashGroups, tlvEqual a.tlv b.tlv] ≠ .error e := by
    refine dict_noError (fun z hz e => ?_)
    simp only [List.mem_cons, List.not_mem_nil, or_false] at hz
    rcases hz with rfl | rfl
    · refine list_noError (fun x hx y hy e => ?_) e
      obtain ⟨u, hu⟩ := ga x hx
      obtain ⟨v, hv⟩ := gb y hy
      rw [HashGroup.pyEq, hu, hv]
      exact tlv_noError e
    · rw [ha, hb]; exact tlv_noError e
  have h1 : ∀ e, eqOrRaise NodeData.pyEq a.nodeData b.nodeData = .error e ↔ e = .attributeError ∧
      (Spec.OneSided a.nodeData b.nodeData ∨ ∃ x y, a.nodeData = some x ∧ b.nodeData = some y ∧ x.subtreeSize = y.subtreeSize ∧
        x.subtreeDigest.map HashValue.value = y.subtreeDigest.map HashValue.value ∧ Spec.OneSided x.locators y.locators) := by
    intro e
    rw [eqOrRaise_error]
    constructor
    · rintro (h | ⟨x, y, h1, h2, h⟩)
      · exact ⟨h.2, .inl h.1⟩
      · obtain ⟨u, hu⟩ := da x h1
        obtain ⟨v, hv⟩ := db y h2
        obtain ⟨k1, k2⟩ := (C87_nodedata_raises x y u v hu hv e).mp h
        exact ⟨k1, .inr ⟨x, y, h1, h2, k2⟩⟩
    · rintro ⟨h, k | ⟨x, y, h1, h2, k⟩⟩
      · exact .inl ⟨k, h⟩
      · obtain ⟨u, hu⟩ := da x h1
        obtain ⟨v, hv⟩ := db y h2
        exact .inr ⟨x, y, h1, h2, (C87_nodedata_raises x y u v hu hv e).mpr ⟨h, k⟩⟩
  rw [← h1 e]
  unfold Node.pyEq
  cases hx : eqOrRaise NodeData.pyEq a.nodeData b.nodeData with
  | error e' => simp
  | ok c =>
    cases c with
    | false => simp
    | true =>
      rw [dictEqual_cons_true]
      exact ⟨fun h => absurd h (h5 e), (fun h => by cases h)⟩

/-- C87: vendor data are equal exactly when number and payload are. -/
theorem C87_vendor (a b : Vendor) (ta tb : Tlv) (ha : a.tlv = .ok ta) (hb : b.tlv = .ok tb) : a.pyEq b = .ok true ↔ a = b := by
  unfold Vendor.pyEq
  rw [dictEqual_true]
  simp only [List.mem_cons, List.not_mem_nil, or_false, forall_eq_or_imp, forall_eq, Except.ok.injEq, beq_iff_eq]
  constructor
  · rintro ⟨h1, h2, _⟩
    obtain ⟨p, x⟩ := a
    obtain ⟨q, y⟩ := b
    simp only at h1 h2
    rw [h1, h2]
  · rintro rfl
    exact ⟨rfl, rfl, by rw [ha]; exact (tlvEqual_true rfl).mpr rfl⟩

private theorem opt_loc {o : Option (List Link)} {l : List Tlv} (h : optTlv locatorsTlv o = .ok l) :
    ∀ x, o = some x → ∃ u, locatorsTlv x = .ok u := by
  rintro x rfl
  obtain ⟨u, hu, _⟩ := optTlv_some h
  exact ⟨u, hu⟩

private theorem opt_name {o : Option Name} {l : List Tlv} (h : optTlv Name.tlv o = .ok l) {p : Option Name} :
    eqOrRaise (fun a b => .ok (Name.pyEq a b)) o p = .ok true ↔ o = p := by
  cases o with
  | none => cases p <;> simp [eqOrRaise]
  | some x =>
    obtain ⟨u, hu, _⟩ := optTlv_some h
    cases p with
    | none => simp [eqOrRaise]
    | some y => simp [eqOrRaise, Name.pyEq_true hu]

/-- C87: two name constructor schemas are equal exactly when their TLVs are the same and, except for prefix schemas, their names and
locators are held alike. -/
theorem C87_schema (a b : NcSchema) (ta tb : Tlv) (ha : a.tlv = .ok ta) (hb : b.tlv = .ok tb) :
    a.pyEq b = .ok true ↔ ta = tb ∧
      (match a, b with
        | .hash l _, .hash l' _ => l = l'
        | .segmented n _ l _, .segmented n' _ l' _ => n = n' ∧ l = l'
        | _, _ => True) := by
  have ya := (NcSchema.tlv_ok ha).2
  have yb := (NcSchema.tlv_ok hb).2
  cases a with
  | hash l f =>
    cases b with
    | hash l' f' =>
      simp only [NcSchema.pyEq]
      rw [dictEqual_true]
      simp only [List.mem_cons, List.not_mem_nil, or_false, forall_eq_or_imp, forall_eq]
      obtain ⟨ls, hls, h1⟩ := bind_eq_ok.mp ha
      obtain ⟨u, hu, _⟩ := bind_eq_ok.mp h1
      obtain ⟨ls', hls', h1'⟩ := bind_eq_ok.mp hb
      obtain ⟨u', hu', _⟩ := bind_eq_ok.mp h1'
      rw [flagsCheck_ok hu] at ha ⊢
      rw [flagsCheck_ok hu'] at hb ⊢
      rw [ha, hb, tlvEqual_true (ya.trans yb.symm), locs_field (opt_loc hls) (opt_loc hls')]
      simp only [eqOrFalse, true_and, and_comm]
    | prefixed n' l' f' =>
      simp only [NcSchema.pyEq, and_true]
      refine ⟨(fun h => by cases h), ?_⟩
      rintro rfl
      rw [ya] at yb
      cases yb
    | segmented n' s' l' f' =>
      simp only [NcSchema.pyEq, and_true]
      refine ⟨(fun h => by cases h), ?_⟩
      rintro rfl
      rw [ya] at yb
      cases yb
  | prefixed n l f =>
    cases b with
    | hash l' f' =>
      simp only [NcSchema.pyEq, and_true]
      refine ⟨(fun h => by cases h), ?_⟩
      rintro rfl
      rw [ya] at yb
      cases yb
    | prefixed n' l' f' =>
      simp only [NcSchema.pyEq, and_true]
      rw [ha, hb, tlvEqual_true (ya.trans yb.symm)]
    | segmented n' s' l' f' =>
      simp only [NcSchema.pyEq, and_true]
      refine ⟨(fun h => by cases h), ?_⟩
      rintro rfl
      rw [ya] at yb
      cases yb
  | segmented n s l f =>
    cases b with
    | hash l' f' =>
      simp only [NcSchema.pyEq, and_true]
      refine ⟨(fun h => by cases h), ?_⟩
      rintro rfl
      rw [ya] at yb
      cases yb
    | prefixed n' l' f' =>
      simp only [NcSchema.pyEq, and_true]
      refine ⟨(fun h => by cases h), ?_⟩
      rintro rfl
      rw [ya] at yb
      cases yb
    | segmented n' s' l' f' =>
      simp only [NcSchema.pyEq]
      rw [dictEqual_true]
      simp only [List.mem_cons, List.not_mem_nil, or_false, forall_eq_or_imp, forall_eq]
      obtain ⟨ns, hns, h1⟩ := bind_eq_ok.mp ha
      obtain ⟨ss, hss, h1⟩ := bind_eq_ok.mp h1
      obtain ⟨ls, hls, h1⟩ := bind_eq_ok.mp h1
      obtain ⟨u, hu, h1⟩ := bind_eq_ok.mp h1
      obtain ⟨ns', hns', h1'⟩ := bind_eq_ok.mp hb
      obtain ⟨ss', hss', h1'⟩ := bind_eq_ok.mp h1'
      obtain ⟨ls', hls', h1'⟩ := bind_eq_ok.mp h1'
      obtain ⟨u', hu', h1'⟩ := bind_eq_ok.mp h1'
      have hs : ta = tb → s = s' := by
        rintro rfl
        obtain ⟨v1, e1, _⟩ := container_ok h1
        obtain ⟨v2, e2, _⟩ := container_ok h1'
        have he := bytesAll_inj v1 v2 (congrArg Tlv.value (e1.symm.trans e2))
        have A1 := optTlv_types (ty := T_NAME) (fun x t _ h => (name_RT x t h).1) hns
        have B1 := optTlv_types (ty := T_NAME) (fun x t _ h => (name_RT x t h).1) hns'
        have A2 := optTlv_types (ty := T_SUFFIX_TYPE) (fun x t _ h => (suffix_RT x t h).1) hss
        have B2 := optTlv_types (ty := T_SUFFIX_TYPE) (fun x t _ h => (suffix_RT x t h).1) hss'
        have A3 := optTlv_types (ty := T_LOCATORS) (fun x t _ h => (locators_RT x t h).1) hls
        have B3 := optTlv_types (ty := T_LOCATORS) (fun x t _ h => (locators_RT x t h).1) hls'
        have e : ss = ss' := pick A2 B2 he
          (by simp only [List.filter_append, filter_other A1 (by decide : T_NAME ≠ T_SUFFIX_TYPE),
                filter_other A3 (by decide : T_LOCATORS ≠ T_SUFFIX_TYPE), List.append_nil, List.nil_append])
          (by simp only [List.filter_append, filter_other B1 (by decide : T_NAME ≠ T_SUFFIX_TYPE),
                filter_other B3 (by decide : T_LOCATORS ≠ T_SUFFIX_TYPE), List.append_nil, List.nil_append])
        subst e
        simpa using opt_same (f := id) (fun x _ => suffix_RT x) (fun x _ => suffix_RT x) hss hss'
      have hse : s = s' → eqOrRaise suffixEqual s s' = .ok true := by
        rintro rfl
        cases hx : s with
        | none => rfl
        | some x =>
          rw [hx] at hss
          obtain ⟨v, hv, _⟩ := optTlv_some hss
          simp only [eqOrRaise, suffixEqual, hv, tlvEqual_ok, Tlv.pyEq_refl, beq_self_eq_true, dictEqual_cons_true, dictEqual_nil]
      rw [flagsCheck_ok hu] at ha ⊢
      rw [flagsCheck_ok hu'] at hb ⊢
      rw [ha, hb, tlvEqual_true (ya.trans yb.symm), locs_field (opt_loc hls) (opt_loc hls'), opt_name hns]
      constructor
      · rintro ⟨k1, k2, _, k3, _⟩
        exact ⟨k3, k1, k2⟩
      · rintro ⟨k3, k1, k2⟩
        exact ⟨k1, k2, rfl, k3, hse (hs k3)⟩

/-- C87: AEAD parameters are equal exactly when all their fields are. -/
theorem C87_aead (d e : AeadData) (ms ns : List Tlv) (fd : d.Fits) (fe : e.Fits) (hd : d.members = .ok ms) (he : e.members = .ok ns)
    (vm : ∀ t ∈ ms, t.Valid) (vn : ∀ t ∈ ns, t.Valid) : d.pyEq e = .ok true ↔ d = e := by
  have cat : ∀ {l : List Tlv}, (∀ t ∈ l, t.Valid) → concatTlvs l = .ok (bytesAll l) := fun h => concatTlvs_of_valid h
  unfold AeadData.pyEq
  simp only [hd, he, ok_bind]
  rw [cat vm, cat vn, wireEqual_true]
  constructor
  · intro h
    have h1 := aeadData_parse (ws := []) fd hd (by simp) (by simpa using vm)
    have h2 := aeadData_parse (ws := []) fe he (by simp) (by simpa using vn)
    simp only [List.append_nil] at h1 h2
    rw [h, h2] at h1
    exact (Except.ok.inj h1).symm
  · rintro rfl
    rw [hd] at he
    cases he
    rfl

/-- C87: comparing two security contexts never raises; they are equal exactly when they have the same bytes (so that an AEAD context
differs from an RSA-OAEP context, and the wrapped key counts), and then they differ at most in the buffers of names. -/
theorem C87_security (a b : SecurityCtx) (ta tb : Tlv) (fa : a.Fits) (fb : b.Fits) (ha : a.tlv = .ok ta) (hb : b.tlv = .ok tb) :
    (a.pyEq b = .ok true ↔ ta = tb) ∧ (ta ≠ tb → a.pyEq b = .ok false) ∧ (a.pyEq b = .ok true → a.toBytes = b.toBytes) := by
  have inner : ∀ {ty : Nat} {l : List Tlv} {t u : Tlv}, container ty l = .ok t → container T_SECURITY_CTX [t] = .ok u →
      (∀ x ∈ l, x.Valid) ∧ t.Valid ∧ t = ⟨ty, bytesAll l⟩ ∧ u = ⟨T_SECURITY_CTX, t.bytes⟩ := by
    intro ty l t u h1 h2
    obtain ⟨v1, rfl, w1⟩ := container_ok h1
    obtain ⟨v2, rfl, w2⟩ := container_ok h2
    refine ⟨v1, w1, rfl, ?_⟩
    simp
  have key : (a.pyEq b = .ok true ↔ ta = tb) ∧ ∃ v, a.pyEq b = .ok v := by
    cases a with
    | aead d =>
      cases b with
      | aead e =>
        obtain ⟨ms, hms, ha⟩ := bind_eq_ok.mp ha
        obtain ⟨i, hi, ha⟩ := bind_eq_ok.mp ha
        obtain ⟨ns, hns, hb⟩ := bind_eq_ok.mp hb
        obtain ⟨j, hj, hb⟩ := bind_eq_ok.mp hb
        obtain ⟨v1, w1, rfl, rfl⟩ := inner hi ha
        obtain ⟨v2, w2, rfl, rfl⟩ := inner hj hb
        simp only [SecurityCtx.pyEq, AeadData.pyEq, hms, hns, ok_bind, concatTlvs_of_valid v1, concatTlvs_of_valid v2]
        refine ⟨?_, _, rfl⟩
        rw [wireEqual_true]
        constructor
        · intro h
          rw [h]
        · intro h
          have h := (Tlv.mk.inj h).2
          have := bytesAll_inj (l := [_]) (m := [_]) (by simpa using w1) (by simpa using w2) (by simpa [bytesAll] using h)
          exact (Tlv.mk.inj (List.cons.inj this).1).2
      | rsaOaep e w =>
        obtain ⟨ms, hms, ha⟩ := bind_eq_ok.mp ha
        obtain ⟨i, hi, ha⟩ := bind_eq_ok.mp ha
        obtain ⟨ns, hns, hb⟩ := bind_eq_ok.mp hb
        obtain ⟨ws, hws, hb⟩ := bind_eq_ok.mp hb
        obtain ⟨j, hj, hb⟩ := bind_eq_ok.mp hb
        obtain ⟨v1, w1, rfl, rfl⟩ := inner hi ha
        obtain ⟨v2, w2, rfl, rfl⟩ := inner hj hb
        refine ⟨?_, _, rfl⟩
        constructor
        · intro h
          cases h
        · intro h
          have h := (Tlv.mk.inj h).2
          have := bytesAll_inj (l := [_]) (m := [_]) (by simpa using w1) (by simpa using w2) (by simpa [bytesAll] using h)
          exact absurd (Tlv.mk.inj (List.cons.inj this).1).1 (by decide)
    | rsaOaep d w =>
      cases b with
      | aead e =>
        obtain ⟨ms, hms, ha⟩ := bind_eq_ok.mp ha
        obtain ⟨ws, hws, ha⟩ := bind_eq_ok.mp ha
        obtain ⟨i, hi, ha⟩ := bind_eq_ok.mp ha
        obtain ⟨ns, hns, hb⟩ := bind_eq_ok.mp hb
        obtain ⟨j, hj, hb⟩ := bind_eq_ok.mp hb
        obtain ⟨v1, w1, rfl, rfl⟩ := inner hi ha
        obtain ⟨v2, w2, rfl, rfl⟩ := inner hj hb
        refine ⟨?_, _, rfl⟩
        constructor
        · intro h
          cases h
        · intro h
          have h := (Tlv.mk.inj h).2
          have := bytesAll_inj (l := [_]) (m := [_]) (by simpa using w1) (by simpa using w2) (by simpa [bytesAll] using h)
          exact absurd (Tlv.mk.inj (List.cons.inj this).1).1 (by decide)
      | rsaOaep e w' =>
        have hty : ta.type = tb.type := by
          rw [(securityCtx_RT fa ta ha).1, (securityCtx_RT fb tb hb).1]
        refine ⟨?_, ta.pyEq tb, ?_⟩
        · show tlvEqual _ _ = _ ↔ _
          rw [ha, hb, tlvEqual_true hty]
        · show tlvEqual _ _ = _
          rw [ha, hb, tlvEqual_ok]
  obtain ⟨h1, v, hv⟩ := key
  refine ⟨h1, fun hne => ?_, fun he => ?_⟩
  · cases v with
    | true => exact absurd (h1.mp hv) hne
    | false => exact hv
  · have := h1.mp he
    subst this
    have e1 := (securityCtx_RT fa ta ha).2.2
    rw [(securityCtx_RT fb ta hb).2.2] at e1
    exact (Except.ok.inj e1).symm

/-- C87: equal manifests have the same bytes, and differ at most in the buffers of names and in padding that the bytes do not show. -/
theorem C87_manifest (a b : Manifest) (wa wb : Bytes) (fa : a.Fits) (fb : b.Fits) (ha : a.serialize = .ok wa) (hb : b.serialize = .ok wb) :
    (a.pyEq b = .ok true ↔ wa = wb) ∧ (a.pyEq b = .ok true → a.toBytes = b.toBytes) := by
  have h : a.pyEq b = .ok true ↔ wa = wb := by
    unfold Manifest.pyEq
    rw [ha, hb, wireEqual_true]
  refine ⟨h, fun hq => ?_⟩
  have := h.mp hq
  subst this
  have h1 := manifest_RT fa ha
  rw [manifest_RT fb hb] at h1
  exact (Except.ok.inj h1).symm

/-! ## Memory writers -/

/-- C87: comparing two memory writers can raise: when the first packet in which they differ cannot be compared.  If it does not raise,
equal writers hold the same bytes, packet by packet. -/
theorem C87_memory (sha : Bytes → Bytes) (s t : MemoryStore) (hs : ∀ p ∈ s.packets, ∃ w, p.serialize = .ok w)
    (ht : ∀ p ∈ t.packets, ∃ w, p.serialize = .ok w) :
    (s.pyEq sha t = .ok true → s.packets.map Packet.serialize = t.packets.map Packet.serialize) ∧
    (∀ e, s.pyEq sha t = .error e ↔ s.packets.length = t.packets.length ∧
      ∃ (i : Nat) (p q : Packet), s.packets[i]? = some p ∧ t.packets[i]? = some q ∧ p.pyEq sha q = .error e ∧
        ∀ (j : Nat) (p' q' : Packet), j < i → s.packets[j]? = some p' → t.packets[j]? = some q' → p'.pyEq sha q' = .ok true) := by
  unfold MemoryStore.pyEq
  constructor
  · intro h
    rw [listEqual_true] at h
    obtain ⟨hl, h⟩ := h
    apply List.ext_getElem (by simpa using hl)
    intro i h1 h2
    simp only [List.length_map] at h1 h2
    simp only [List.getElem_map]
    have hz := h (s.packets[i], t.packets[i]) (List.mem_of_getElem? (i := i) (by simp [h1, h2]))
    obtain ⟨w, hw⟩ := hs _ (List.getElem_mem h1)
    obtain ⟨w', hw'⟩ := ht _ (List.getElem_mem h2)
    rw [hw, hw', (C87_packet_same_bytes sha _ _ w w' hw hw' hz).1]
  · intro e
    unfold listEqual
    split
    · rename_i hl
      simp only [hl, true_and]
      rw [dictEqual_error]
      constructor
      · rintro ⟨pre, post, he, hpre⟩
        have hi : ∀ i : Nat, ((s.packets.zip t.packets).map (fun p => Packet.pyEq sha p.1 p.2))[i]? = (pre ++ .error e :: post)[i]? :=
          fun i => by rw [he]
        have hlen : pre.length < (s.packets.zip t.packets).length := by
          have := congrArg List.length he
          simp only [List.length_map, List.length_append, List.length_cons] at this
          omega
        have h1 : pre.length < s.packets.length := by simp at hlen; omega
        have h2 : pre.length < t.packets.length := by simp at hlen; omega
        refine ⟨pre.length, s.packets[pre.length], t.packets[pre.length], by simp [h1], by simp [h2], ?_, ?_⟩
        · have := hi pre.length
          simpa [h1, h2] using this
        · intro j p' q' hj hp hq
          have := hi j
          have hz : (s.packets.zip t.packets)[j]? = some (p', q') := List.getElem?_zip_eq_some.mpr ⟨hp, hq⟩
          rw [List.getElem?_append_left hj, List.getElem?_map, hz, Option.map_some] at this
          exact hpre _ (List.mem_of_getElem? this.symm)
      · rintro ⟨i, p, q, hp, hq, he, hpre⟩
        have hz : (s.packets.zip t.packets)[i]? = some (p, q) := List.getElem?_zip_eq_some.mpr ⟨hp, hq⟩
        have hm : ((s.packets.zip t.packets).map (fun p => Packet.pyEq sha p.1 p.2))[i]? = some (.error e) := by
          rw [List.getElem?_map, hz, Option.map_some, he]
        have hlen : i < ((s.packets.zip t.packets).map (fun p => Packet.pyEq sha p.1 p.2)).length := by
          rcases Nat.lt_or_ge i ((s.packets.zip t.packets).map (fun p => Packet.pyEq sha p.1 p.2)).length with h | h
          · exact h
          · rw [List.getElem?_eq_none h] at hm; cases hm
        have hg := (List.getElem?_eq_some_iff.mp hm).2
        refine ⟨((s.packets.zip t.packets).map (fun p => Packet.pyEq sha p.1 p.2)).take i,
          ((s.packets.zip t.packets).map (fun p => Packet.pyEq sha p.1 p.2)).drop (i + 1), ?_, ?_⟩
        · rw [← hg, List.getElem_cons_drop, List.take_append_drop]
        · intro x hx
          obtain ⟨j, hj, rfl⟩ := List.getElem_of_mem hx
          simp only [List.length_take] at hj
          have hj1 : j < s.packets.length := by simp at hj; omega
          have hj2 : j < t.packets.length := by simp at hj; omega
          simp only [List.getElem_take, List.getElem_map, List.getElem_zip]
          exact hpre j _ _ (by omega) (by simp [hj1]) (by simp [hj2])
    · rename_i hl
      simp [hl]

/-! ## Padding is not read back -/

/-- C87: a node read from the TLV of a node (whose locators hold `bytes`) is equal to it exactly when no padding was added, that is when
the length asked for is less than four more than the node needs. -/
theorem C87_node_reread (n n' : Node) (t u : Tlv) (fn : n.Fits) (h : n.tlv = .ok t) (hr : Node.parse t = .ok n') (hu : n'.tlv = .ok u)
    (hl : ∀ d ls, n.nodeData = some d → d.locators = some ls → ls.map Link.toBytes = ls) :
    n'.pyEq n = .ok true ↔ ∀ p, n.padLength = some p → p < (u.bytes.length : Int) + 4 := by
  have := (node_RT fn t h).2.2
  rw [hr] at this
  cases this
  have fn' : n.toBytes.Fits := by
    refine ⟨?_, fn.2⟩
    intro d hd
    simp only [Node.toBytes, Option.map_eq_some_iff] at hd
    obtain ⟨d0, h0, rfl⟩ := hd
    refine ⟨(fn.1 d0 h0).1, ?_⟩
    intro x hx
    simp only [NodeData.toBytes, List.mem_map] at hx
    obtain ⟨y, hy, rfl⟩ := hx
    exact (fn.1 d0 h0).2 y hy
  rw [C87_node _ _ _ _ fn' fn hu h]
  have hloc : n.toBytes.nodeData.bind NodeData.locators = n.nodeData.bind NodeData.locators := by
    simp only [Node.toBytes]
    cases hd : n.nodeData with
    | none => rfl
    | some d =>
      simp only [Option.map_some, Option.bind_some, NodeData.toBytes]
      cases hx : d.locators with
      | none => rfl
      | some ls => rw [Option.map_some, hl d ls hd hx]
  simp only [hloc, and_true]
  obtain ⟨ms, hm, _, hv, htv, hty, hr⟩ := Node.tlv_ok h
  obtain ⟨ms', hm', hu'⟩ := Node.tlv_unpadded h
  rw [hm] at hm'
  cases hm'
  rw [hu] at hu'
  cases hu'
  have hlen : ((⟨T_NODE, bytesAll ms⟩ : Tlv).bytes.length : Int) = 4 + (bytesAll ms).length := by
    rw [Tlv.bytes_length, Tlv.len]
    simp only [Tlv.length]
    omega
  rw [hlen]
  rcases hr with ⟨hr, hp⟩ | ⟨p, k, hp, hk, _, hr⟩
  · constructor
    · intro _ p hpp
      have := hp p hpp
      omega
    · intro _
      obtain ⟨ty, v⟩ := t
      simp only at hr hty
      subst hr hty
      rfl
  · constructor
    · rintro rfl
      simp only [bytesAll_append] at hr
      have := congrArg List.length hr
      simp [Tlv.len] at this
    · intro hh
      have := hh p hp
      omega

/-! ## Non-vacuity, and the surprises -/

namespace Toy

/-- The packet of `body`, as the constructor makes it. -/
def packetOf (body : ContentObject) : Packet := (Packet.createContentObject body).toOption.getD (Toy.packet [])

def eqName (b : Bool) : Name := ⟨[⟨T_NAMESEGMENT, [97], b⟩]⟩
def eqBody (b : Bool) (e : F64) : ContentObject :=
  { name := some (eqName b), payloadType := some 0, payload := some [1, 2], expiryTime := some e, finalChunkId := some 7 }
def eqPacket (b : Bool) (e : F64) : Packet := packetOf (eqBody b e)

def eqLink : Link := { name := some (eqName false), keyid := some ⟨T_SHA_256, [1]⟩ }
def eqNodeData (ls : Option (List Link)) : NodeData := { subtreeSize := some 10, locators := ls, vendors := [⟨5, [1]⟩] }
def eqNode (d : Option NodeData) (pad : Option Int) : Node := ⟨d, [⟨some { leafSize := some 3 }, some [⟨T_SHA_256, [1, 2]⟩]⟩], pad⟩

end Toy

open Toy in
/-- The hypotheses of the packet theorems are met: 1 s and 4097/4096 s (= 1000.24 ms) have the same bytes. -/
example : ((eqPacket false ⟨1, 1⟩).serialize).toOption.isSome = true ∧
    (eqPacket false ⟨1, 1⟩).serialize = (eqPacket false ⟨4097, 4096⟩).serialize ∧
    (eqPacket false ⟨1, 1⟩).pyEq Toy.prims.sha256 (eqPacket false ⟨4097, 4096⟩) = .ok false ∧
    (eqPacket false ⟨1, 1⟩).pyEq Toy.prims.sha256 (eqPacket false ⟨2, 2⟩) = .ok true ∧
    (eqPacket false ⟨1, 1⟩).pyEq Toy.prims.sha256 (eqPacket true ⟨1, 1⟩) = .ok false ∧
    (eqPacket true ⟨1, 1⟩).pyEq Toy.prims.sha256 (eqPacket true ⟨1, 1⟩) = .ok true ∧
    (eqPacket false ⟨1, 1⟩).alg.isSome = (eqPacket false ⟨1, 1⟩).payload.isSome := by decide +kernel

open Toy in
example : Spec.FloatExpiry (eqPacket false ⟨4097, 4096⟩).body := by
  intro e h
  have : (eqPacket false ⟨4097, 4096⟩).body.expiryTime = some ⟨4097, 4096⟩ := by decide +kernel
  rw [this] at h
  cases h
  decide

open Toy in
/-- A named and a nameless packet cannot be compared, in whichever order; nor can a packet with a CRC32C and one without. -/
example : (Toy.named [97] [1]).pyEq Toy.prims.sha256 { Toy.packet [1] with header := (Toy.named [97] [1]).header } = .error .attributeError ∧
    (eqBody false ⟨1, 1⟩).pyEq { eqBody false ⟨1, 1⟩ with name := none } = .error .attributeError ∧
    ({ eqBody false ⟨1, 1⟩ with name := none } : ContentObject).pyEq (eqBody false ⟨1, 1⟩) = .error .attributeError ∧
    (eqBody false ⟨1, 1⟩).pyEq { eqBody false ⟨1, 1⟩ with payload := none } = .ok false ∧
    ({ Toy.packet [1] with alg := some .crc32c, payload := some [0, 0, 0, 0] } : Packet).pyEq Toy.prims.sha256 (Toy.packet [1]) =
      .error .attributeError := by decide +kernel

open Toy in
/-- Hash values with different algorithms are equal; a link that was used is not equal to one that was not; pointers that were iterated
over are not equal to pointers that were not. -/
example : (⟨T_SHA_256, [1]⟩ : HashValue).pyEq ⟨9, [1]⟩ = true ∧
    (linkTlv T_KEYLINK eqLink).toOption.isSome = true ∧ keyLinkEqual eqLink eqLink = .ok true ∧
    keyLinkEqual eqLink { eqLink with keyid := some ⟨9, [1]⟩ } = .ok false ∧
    eqLink.usedOffset = .ok 18 ∧ eqLink.dictEq 18 eqLink 0 = .ok false ∧
    (pointersTlv [⟨T_SHA_256, [1]⟩]).toOption.isSome = true ∧
    pointersEqual [⟨T_SHA_256, [1]⟩] none [⟨T_SHA_256, [1]⟩] none = .ok true ∧
    pointersEqual [⟨T_SHA_256, [1]⟩] (some 1) [⟨T_SHA_256, [1]⟩] none = .ok false := by decide +kernel

/-- Security contexts: the wrapped key counts. -/
example :
    let d : AeadData := ⟨5, [1, 2, 3], some 1, none⟩
    ((SecurityCtx.rsaOaep d (some ⟨⟨T_SHA_256, [7]⟩, none, some T_SHA_256, some [9]⟩)).tlv).toOption.isSome = true ∧
    (SecurityCtx.rsaOaep d (some ⟨⟨T_SHA_256, [7]⟩, none, some T_SHA_256, some [9]⟩)).pyEq (.rsaOaep d (some ⟨⟨T_SHA_256, [7]⟩, none, some T_SHA_256, some [8]⟩)) =
      .ok false ∧
    (SecurityCtx.aead d).pyEq (.aead d) = .ok true ∧ (SecurityCtx.aead d).pyEq (.rsaOaep d none) = .ok false := by decide +kernel

open Toy in
/-- Nodes: with locators on one side only, or node data on one side only, the comparison raises; a padded node is not equal to what is
read from it. -/
example : ((eqNode (some (eqNodeData (some [eqLink]))) (some 200)).tlv).toOption.isSome = true ∧
    (eqNode (some (eqNodeData (some [eqLink]))) none).pyEq (eqNode (some (eqNodeData (some [eqLink]))) none) = .ok true ∧
    (eqNode (some (eqNodeData (some [eqLink]))) none).pyEq (eqNode (some (eqNodeData none)) none) = .error .attributeError ∧
    (eqNode (some (eqNodeData none)) none).pyEq (eqNode none none) = .error .attributeError ∧
    (eqNode (some (eqNodeData none)) none).pyEq (eqNode (some { eqNodeData none with subtreeSize := some 11 }) none) = .ok false ∧
    (do (← Node.parse (← (eqNode (some (eqNodeData none)) (some 200)).tlv)).pyEq (eqNode (some (eqNodeData none)) (some 200))) = .ok false ∧
    (do (← Node.parse (← (eqNode (some (eqNodeData none)) none).tlv)).pyEq (eqNode (some (eqNodeData none)) none)) = .ok true := by
  decide +kernel

open Toy in
example : (eqNode (some (eqNodeData (some [eqLink]))) (some 200)).Fits := by
  refine ⟨?_, ?_⟩
  · rintro d ⟨⟩
    refine ⟨?_, by simp [eqNodeData]⟩
    rintro n ⟨⟩
    decide
  · intro g hg d hd
    simp only [eqNode, List.mem_singleton] at hg
    subst hg
    cases hd
    refine ⟨nofun, ?_, nofun, nofun⟩
    rintro n ⟨⟩
    decide

open Toy in
/-- Two memory writers that raise, two that are equal. -/
example : ({ packets := [eqPacket false ⟨1, 1⟩, Toy.packet [1]] } : MemoryStore).pyEq Toy.prims.sha256
      { packets := [eqPacket false ⟨1, 1⟩, { Toy.packet [1] with alg := some .crc32c, payload := some [0, 0, 0, 0] }] } = .error .attributeError ∧
    ({ packets := [eqPacket false ⟨1, 1⟩, Toy.packet [1]] } : MemoryStore).pyEq Toy.prims.sha256 { packets := [eqPacket false ⟨1, 1⟩, Toy.packet [1]] } = .ok true := by
  decide +kernel

end Ccnpy
