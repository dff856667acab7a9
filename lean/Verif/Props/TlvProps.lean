import Verif.Lemmas.Num

/-!
# Properties C01-C08: the TLV layer (`ccnpy/core/Tlv.py`)
-/

namespace Ccnpy

/-! ## C01 -/

/-- C01: a constructible TLV survives serialization followed by arbitrary trailing bytes, and reports as its total
length exactly the number of serialized bytes (so the trailing bytes are what remains). -/
theorem C01_tlv_roundtrip (type : Nat) (v : Bytes) (x : Tlv) (hx : mkTlv type v = .ok x) (rest : Bytes) :
    ∃ w, x.serialize = .ok w ∧ Tlv.deserialize (w ++ rest) = .ok ⟨type, v⟩ ∧
      x.len = w.length ∧ (w ++ rest).drop x.len = rest := by
  obtain ⟨rfl, hv⟩ := mkTlv_ok hx
  refine ⟨_, by rw [Tlv.serialize_eq, if_pos hv], Tlv.deserialize_bytes _ hv rest, by simp, ?_⟩
  rw [← Tlv.bytes_length]; simp

example : mkTlv 5 [1, 2, 3] = .ok ⟨5, [1, 2, 3]⟩ := by decide
example : (⟨0x102, [7, 8]⟩ : Tlv).serialize = .ok [1, 2, 0, 2, 7, 8] := by decide

/-! ## C02 -/

/-- C02: every strict prefix of a serialized TLV is rejected with `ParseError`. -/
theorem C02_truncated_rejected (t : Tlv) (w : Bytes) (hw : t.serialize = .ok w) (p : Bytes)
    (hp : p <+: w) (hlt : p ≠ w) : Tlv.deserialize p = .error .parseError := by
  rw [Tlv.serialize_eq] at hw
  split at hw
  · rename_i hv
    cases hw
    cases h : Tlv.deserialize p with
    | error e => rw [Tlv.deserialize_error h]
    | ok t' =>
      exfalso
      obtain ⟨hv', hb⟩ := Tlv.deserialize_inv h
      obtain ⟨r, hr⟩ := hp
      have h1 := Tlv.deserialize_bytes t' hv' (p.drop t'.len ++ r)
      rw [← List.append_assoc, ← hb, hr] at h1
      have h2 := Tlv.deserialize_bytes t hv []
      rw [List.append_nil, h1] at h2
      cases h2
      have hlen := congrArg List.length hr
      have hlen2 := congrArg List.length hb
      simp only [List.length_append, Tlv.bytes_length, List.length_drop] at hlen hlen2
      have : r = [] := List.length_eq_zero_iff.mp (by omega)
      subst this
      simp at hr
      exact hlt hr
  · cases hw

example : Tlv.deserialize [0, 5, 0, 3, 1, 2] = .error .parseError :=
  C02_truncated_rejected ⟨5, [1, 2, 3]⟩ [0, 5, 0, 3, 1, 2, 3] (by decide) _ ⟨[3], rfl⟩ (by decide)

/-! ## C03 -/

/-- C03: construction succeeds exactly for representable type and value length; otherwise it raises. -/
theorem C03_oversize_never_truncated (type : Nat) (v : Bytes) :
    (type ≤ 0xFFFF ∧ v.length ≤ 0xFFFF → mkTlv type v = .ok ⟨type, v⟩) ∧
    (¬ (type ≤ 0xFFFF ∧ v.length ≤ 0xFFFF) →
      mkTlv type v = .error .overflowError ∧ Tlv.serialize ⟨type, v⟩ = .error .overflowError) := by
  constructor
  · intro h; rw [mkTlv_eq, if_pos h]
  · intro h
    have h' : ¬ (⟨type, v⟩ : Tlv).Valid := h
    rw [mkTlv_eq, if_neg h, Tlv.serialize_eq, if_neg h']; exact ⟨rfl, rfl⟩

example : mkTlv 0 (List.replicate 0x10000 0) = .error .overflowError :=
  ((C03_oversize_never_truncated 0 _).2 (by rw [List.length_replicate]; decide)).1

/-! ## C04 -/

/-- C04: whatever `deserialize` accepts re-encodes to exactly the consumed initial segment of the buffer. -/
theorem C04_parse_lossless (buf : Bytes) (t : Tlv) (h : Tlv.deserialize buf = .ok t) :
    t.serialize = .ok (buf.take t.len) ∧ t.len ≤ buf.length := by
  obtain ⟨hv, hb⟩ := Tlv.deserialize_inv h
  have hl := congrArg List.length hb
  simp only [List.length_append, Tlv.bytes_length, List.length_drop] at hl
  refine ⟨?_, by omega⟩
  rw [Tlv.serialize_eq, if_pos hv]
  conv => rhs; rw [hb, ← Tlv.bytes_length, List.take_left]

/-- C04, second half: buffers that decode to the same TLV start with the same bytes. -/
theorem C04_same_tlv_same_bytes (b₁ b₂ : Bytes) (t : Tlv) (h₁ : Tlv.deserialize b₁ = .ok t)
    (h₂ : Tlv.deserialize b₂ = .ok t) : b₁.take t.len = b₂.take t.len := by
  have e1 := (C04_parse_lossless b₁ t h₁).1
  have e2 := (C04_parse_lossless b₂ t h₂).1
  rw [e1] at e2
  exact Except.ok.inj e2

example : Tlv.deserialize [0, 5, 0, 2, 9, 8, 7] = .ok ⟨5, [9, 8]⟩ := by decide

/-! ## C05 -/

/-- Read TLVs one after another until the buffer is exhausted, collecting them in order. -/
def readTlvs (buf : Bytes) : Py (List Tlv) := tlvLoop (fun acc t => .ok (acc ++ [t])) buf []

/-- Serialize a list of TLVs one after another. -/
def writeTlvs : List Tlv → Py Bytes
  | [] => .ok []
  | t :: l => do
    let a ← t.serialize
    let b ← writeTlvs l
    return a ++ b

theorem foldlM_snoc (l acc : List Tlv) :
    l.foldlM (fun acc t => (.ok (acc ++ [t]) : Py (List Tlv))) acc = .ok (acc ++ l) := by
  induction l generalizing acc with
  | nil => simp
  | cons t l ih => rw [List.foldlM_cons]; simp [ih]

theorem writeTlvs_ok {l : List Tlv} {w : Bytes} (h : writeTlvs l = .ok w) :
    (∀ t ∈ l, t.Valid) ∧ w = bytesAll l := by
  induction l generalizing w with
  | nil => cases h; simp
  | cons t l ih =>
    obtain ⟨a, ha, h⟩ := bind_eq_ok.mp h
    obtain ⟨b, hb, h⟩ := bind_eq_ok.mp h
    obtain ⟨h1, rfl⟩ := ih hb
    rw [Tlv.serialize_eq] at ha
    split at ha
    · rename_i hv
      cases ha; cases h
      exact ⟨by simpa using ⟨hv, h1⟩, rfl⟩
    · cases ha

/-- C05: concatenated TLVs decode to exactly the list that was written. -/
theorem C05_concat_decodes (l : List Tlv) (w : Bytes) (h : writeTlvs l = .ok w) : readTlvs w = .ok l := by
  obtain ⟨hv, rfl⟩ := writeTlvs_ok h
  rw [readTlvs, tlvLoop_bytesAll _ _ hv, foldlM_snoc]
  simp

/-- C05: different lists never have the same concatenated bytes. -/
theorem C05_concat_injective (l₁ l₂ : List Tlv) (w : Bytes) (h₁ : writeTlvs l₁ = .ok w) (h₂ : writeTlvs l₂ = .ok w) :
    l₁ = l₂ := by
  have e1 := C05_concat_decodes _ _ h₁
  rw [C05_concat_decodes _ _ h₂] at e1
  cases e1; rfl

example : writeTlvs [⟨1, [2]⟩, ⟨3, []⟩] = .ok [0, 1, 0, 1, 2, 0, 3, 0, 0] := by decide

/-! ## C06 -/

/-- C06: exact round trip below 2^64. -/
theorem C06_varint_roundtrip (n : Nat) (h : n < 2 ^ 64) :
    ∃ b, numberToArray n = .ok b ∧ arrayToNumber b = n :=
  ⟨_, numberToArray_nat n, arrayToNumber_numBytes n h⟩

/-- C06: distinct numbers below 2^64 have distinct encodings. -/
theorem C06_varint_injective (m n : Nat) (hm : m < 2 ^ 64) (hn : n < 2 ^ 64)
    (h : numberToArray m = numberToArray n) : m = n := by
  obtain ⟨b, hb, hbm⟩ := C06_varint_roundtrip m hm
  obtain ⟨c, hc, hcn⟩ := C06_varint_roundtrip n hn
  rw [hb, hc] at h
  cases h
  omega

/-- C06: the length is one of 1, 2, 3, 4, 8 and is the least of those that can hold the number. -/
theorem C06_varint_shortest (n : Nat) (h : n < 2 ^ 64) (b : Bytes) (hb : numberToArray n = .ok b) :
    b.length ∈ [1, 2, 3, 4, 8] ∧ ∀ w ∈ [1, 2, 3, 4, 8], n < 256 ^ w → b.length ≤ w := by
  rw [numberToArray_nat] at hb
  cases hb
  rw [beBytes_length]
  unfold numWidth
  constructor
  · (repeat' split) <;> simp
  · intro w hw hn
    simp only [List.mem_cons, List.not_mem_nil, or_false] at hw
    rcases hw with rfl | rfl | rfl | rfl | rfl <;> (repeat' split) <;> omega

/-- C06: at and above 2^64 no error is raised; the encoding silently wraps modulo 2^64. -/
theorem C06_varint_wraps (n : Nat) (h : 2 ^ 64 ≤ n) :
    ∃ b, numberToArray n = .ok b ∧ arrayToNumber b = n % 2 ^ 64 ∧ arrayToNumber b ≠ n := by
  have hw : numWidth n = 8 := by unfold numWidth; (repeat' split) <;> omega
  have e : arrayToNumber (beBytes (numWidth n) n) = n % 2 ^ 64 := by
    rw [hw, arrayToNumber_beBytes]
  refine ⟨_, numberToArray_nat n, e, ?_⟩
  rw [e]
  have := Nat.mod_lt n (show 2 ^ 64 > 0 by decide)
  omega

/-- C06: negative numbers raise `OverflowError`. -/
theorem C06_varint_negative (n : Int) (h : n < 0) : numberToArray n = .error .overflowError := by
  unfold numberToArray
  rw [if_pos (by omega)]
  simp [byte_neg n h]

example : numberToArray 0x1234567 = .ok [1, 0x23, 0x45, 0x67] := by decide
example : numberToArray 0x123456789 = .ok [0, 0, 0, 1, 0x23, 0x45, 0x67, 0x89] := by decide
example : numberToArray (2 ^ 64 + 5) = .ok [0, 0, 0, 0, 0, 0, 0, 5] := by decide

/-! ## C07 -/

/-- C07: 16-bit encoder. -/
theorem C07_uint16 (n : Int) :
    (0 ≤ n ∧ n < 2 ^ 16 → ∃ b, uint16ToArray n = .ok b ∧ b.length = 2 ∧ (arrayToNumber b : Int) = n) ∧
    (n < 0 ∨ 2 ^ 16 ≤ n → uint16ToArray n = .error .assertionError) := by
  refine ⟨fun ⟨h0, h1⟩ => ?_, uint16ToArray_big n⟩
  obtain ⟨m, rfl⟩ := Int.eq_ofNat_of_zero_le h0
  have hm : m < 2 ^ 16 := by omega
  refine ⟨_, uint16ToArray_nat m hm, by simp, ?_⟩
  rw [arrayToNumber_beBytes, Nat.mod_eq_of_lt (by omega)]

/-- C07: 24-bit encoder. -/
theorem C07_uint24 (n : Int) :
    (0 ≤ n ∧ n < 2 ^ 24 → ∃ b, uint24ToArray n = .ok b ∧ b.length = 3 ∧ (arrayToNumber b : Int) = n) ∧
    (n < 0 ∨ 2 ^ 24 ≤ n → uint24ToArray n = .error .overflowError) := by
  refine ⟨fun ⟨h0, h1⟩ => ?_, uint24ToArray_big n⟩
  obtain ⟨m, rfl⟩ := Int.eq_ofNat_of_zero_le h0
  have hm : m < 2 ^ 24 := by omega
  refine ⟨_, uint24ToArray_nat m hm, by simp, ?_⟩
  rw [arrayToNumber_beBytes, Nat.mod_eq_of_lt (by omega)]

/-- C07: 32-bit encoder. -/
theorem C07_uint32 (n : Int) :
    (0 ≤ n ∧ n < 2 ^ 32 → ∃ b, uint32ToArray n = .ok b ∧ b.length = 4 ∧ (arrayToNumber b : Int) = n) ∧
    (n < 0 ∨ 2 ^ 32 ≤ n → uint32ToArray n = .error .overflowError) := by
  refine ⟨fun ⟨h0, h1⟩ => ?_, uint32ToArray_big n⟩
  obtain ⟨m, rfl⟩ := Int.eq_ofNat_of_zero_le h0
  have hm : m < 2 ^ 32 := by omega
  refine ⟨_, uint32ToArray_nat m hm, by simp, ?_⟩
  rw [arrayToNumber_beBytes, Nat.mod_eq_of_lt (by omega)]

theorem uint64ToArray_mod (n : Int) : uint64ToArray n = uint64ToArray (n % 2 ^ 64) := by
  simp only [uint64ToArray, maskFF, Int.shiftRight_eq_div_pow]
  have h0 : n % 256 = n % 2 ^ 64 % 256 := by omega
  have h1 : n / ((2 ^ 8 : Nat) : Int) % 256 = n % 2 ^ 64 / ((2 ^ 8 : Nat) : Int) % 256 := by omega
  have h2 : n / ((2 ^ 16 : Nat) : Int) % 256 = n % 2 ^ 64 / ((2 ^ 16 : Nat) : Int) % 256 := by omega
  have h3 : n / ((2 ^ 24 : Nat) : Int) % 256 = n % 2 ^ 64 / ((2 ^ 24 : Nat) : Int) % 256 := by omega
  have h4 : n / ((2 ^ 32 : Nat) : Int) % 256 = n % 2 ^ 64 / ((2 ^ 32 : Nat) : Int) % 256 := by omega
  have h5 : n / ((2 ^ 40 : Nat) : Int) % 256 = n % 2 ^ 64 / ((2 ^ 40 : Nat) : Int) % 256 := by omega
  have h6 : n / ((2 ^ 48 : Nat) : Int) % 256 = n % 2 ^ 64 / ((2 ^ 48 : Nat) : Int) % 256 := by omega
  have h7 : n / ((2 ^ 56 : Nat) : Int) % 256 = n % 2 ^ 64 / ((2 ^ 56 : Nat) : Int) % 256 := by omega
  rw [h0, h1, h2, h3, h4, h5, h6, h7]

/-- C07: the 64-bit encoder never raises; it is exact on its range and reduces modulo 2^64 outside it, negative
numbers included. -/
theorem C07_uint64 (n : Int) :
    ∃ b, uint64ToArray n = .ok b ∧ b.length = 8 ∧ (arrayToNumber b : Int) = n % 2 ^ 64 ∧
      (0 ≤ n ∧ n < 2 ^ 64 ↔ (arrayToNumber b : Int) = n) := by
  obtain ⟨m, hm⟩ := Int.eq_ofNat_of_zero_le (show 0 ≤ n % 2 ^ 64 by omega)
  have hlt : m < 2 ^ 64 := by omega
  have e : arrayToNumber (beBytes 8 m) = m := by
    rw [arrayToNumber_beBytes, Nat.mod_eq_of_lt (by omega)]
  refine ⟨beBytes 8 m, ?_, by simp, ?_, ?_⟩
  · rw [uint64ToArray_mod, hm]; exact uint64ToArray_nat m
  · rw [e, hm]
  · rw [e]; omega

example : uint64ToArray (-1) = .ok [255, 255, 255, 255, 255, 255, 255, 255] := by decide
example : uint24ToArray 0x1000000 = .error .overflowError := by decide

/-! ## C08 -/

/-- C08: equal hash input (wire bytes) implies Python equality. -/
theorem C08_hash_eq_imp_eq (a b : Tlv) (w : Bytes) (ha : a.hashInput = .ok w) (hb : b.hashInput = .ok w) :
    a.pyEq b = true := by
  have h1 := C05_concat_injective [a] [b] w (by simp [writeTlvs, Tlv.hashInput] at *; simp [ha])
    (by simp [writeTlvs, Tlv.hashInput] at *; simp [hb])
  cases h1
  simp [Tlv.pyEq]

/-- C08: but for every value there are two constructible TLVs comparing equal with different hash input: the
`__eq__`/`__hash__` contract is violated. -/
theorem C08_eq_not_imp_hash_eq (v : Bytes) (hv : v.length ≤ 0xFFFF) :
    ∃ a b : Tlv, mkTlv a.type v = .ok a ∧ mkTlv b.type v = .ok b ∧ a.pyEq b = true ∧ a.hashInput ≠ b.hashInput := by
  refine ⟨⟨0, v⟩, ⟨1, v⟩, by rw [mkTlv_eq, if_pos ⟨by simp, hv⟩], by rw [mkTlv_eq, if_pos ⟨by simp, hv⟩],
    by simp [Tlv.pyEq, Tlv.len, Tlv.length], ?_⟩
  simp only [Tlv.hashInput, Tlv.serialize_eq]
  rw [if_pos ⟨by simp, hv⟩, if_pos ⟨by simp, hv⟩]
  simp [Tlv.bytes, be16]

/-- C08: for constructible TLVs of the same type, Python equality is exactly equality of wire bytes. -/
theorem C08_same_type_eq_iff (type : Nat) (v w : Bytes) (a b : Tlv) (ha : mkTlv type v = .ok a)
    (hb : mkTlv type w = .ok b) : a.pyEq b = true ↔ a.serialize = b.serialize := by
  obtain ⟨rfl, hva⟩ := mkTlv_ok ha
  obtain ⟨rfl, hvb⟩ := mkTlv_ok hb
  rw [Tlv.serialize_eq, Tlv.serialize_eq, if_pos hva, if_pos hvb]
  constructor
  · intro h
    simp [Tlv.pyEq] at h
    simp [h.2]
  · intro h
    have h1 := Tlv.deserialize_bytes _ hva []
    have h2 := Tlv.deserialize_bytes _ hvb []
    simp only [Except.ok.injEq] at h
    rw [h, h2] at h1
    cases h1
    simp [Tlv.pyEq]

end Ccnpy
