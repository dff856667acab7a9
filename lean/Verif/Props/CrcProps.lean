import Verif.Lemmas.Crc32c

/-!
# Properties C22-C23: CRC-32C signing, verification and burst detection
-/

namespace Ccnpy

/-- The published check value of CRC-32C, so the model computes the right function. -/
example : crc32c [0x31, 0x32, 0x33, 0x34, 0x35, 0x36, 0x37, 0x38, 0x39] 0 = 0xE3069283 := by decide +kernel

/-- C22: whatever the signer produces, the verifier accepts over the same buffers. -/
theorem C22_sign_verify (buffers : List Bytes) :
    ∃ p, crcSign buffers = .ok p ∧ p.length = 4 ∧ crcVerify buffers (some p) = .ok true :=
  ⟨_, crcSign_eq buffers, by simp, by rw [crcVerify_some]; simp⟩

/-- C22: only the concatenation of the buffers matters. -/
theorem C22_concatenation (bs cs : List Bytes) (h : bs.flatten = cs.flatten) :
    crcSign bs = crcSign cs ∧ ∀ p, crcVerify bs p = crcVerify cs p := by
  have e : crcBuffers bs = crcBuffers cs := by rw [crcBuffers_eq, crcBuffers_eq, h]
  refine ⟨by rw [crcSign, crcSign, e], fun p => ?_⟩
  cases p <;> simp [crcVerify, e]

/-- C22: the verifier accepts exactly the 4 bytes whose big-endian value is the checksum of the concatenation. -/
theorem C22_verify_exact (buffers : List Bytes) (p : Bytes) :
    crcVerify buffers (some p) = .ok true ↔ p.length = 4 ∧ arrayToNumber p = crc32c buffers.flatten 0 := by
  rw [crcVerify_some, ← crcBuffers_eq]
  have hlt : crcBuffers buffers < 256 ^ 4 := crcBuffers_lt buffers
  have hn : arrayToNumber (beBytes 4 (crcBuffers buffers)) = crcBuffers buffers := by
    rw [arrayToNumber_beBytes, Nat.mod_eq_of_lt hlt]
  constructor
  · intro h
    have h := beq_iff_eq.mp (Except.ok.inj h)
    subst h
    exact ⟨by simp, hn⟩
  · rintro ⟨h1, h2⟩
    congr 1
    rw [beq_iff_eq]
    exact arrayToNumber_inj (by simp [h1]) (by rw [hn, h2])

/-- C22: a missing payload is an error, and the verifier otherwise never raises. -/
theorem C22_verify_total (buffers : List Bytes) :
    crcVerify buffers none = .error .valueError ∧ ∀ p, ∃ b, crcVerify buffers (some p) = .ok b :=
  ⟨rfl, fun p => ⟨_, crcVerify_some buffers p⟩⟩

/-- Bit `i` of a message in transmission order (least significant bit of each byte first); `false` past the end. -/
def bitAt (m : Bytes) (i : Nat) : Bool := (m.getD (i / 8) 0).toNat.testBit (i % 8)

theorem msgBits_get (m : Bytes) (i : Nat) (h : i < 8 * m.length) : (msgBits m)[i]? = some (bitAt m i) := by
  induction m generalizing i with
  | nil => simp at h
  | cons b m ih =>
    rw [msgBits, List.flatMap_cons]
    by_cases hi : i < 8
    · rw [List.getElem?_append_left (by simpa using hi), lowBits_get _ _ _ hi]
      have h1 : i / 8 = 0 := by omega
      have h2 : i % 8 = i := by omega
      simp [bitAt, h1, h2]
    · rw [List.getElem?_append_right (by simpa using hi)]
      simp only [lowBits_length]
      have := ih (i - 8) (by simp at h; omega)
      rw [msgBits] at this
      rw [this]
      have h1 : i / 8 = (i - 8) / 8 + 1 := by omega
      have h2 : i % 8 = (i - 8) % 8 := by omega
      simp [bitAt, h1, h2]

theorem bitAt_ext {m m' : Bytes} (hl : m.length = m'.length) (h : ∀ i, i < 8 * m.length → bitAt m i = bitAt m' i) :
    m = m' := by
  apply List.ext_getElem hl
  intro k h1 h2
  apply UInt8.toNat_inj.mp
  apply Nat.eq_of_testBit_eq
  intro j
  by_cases hj : j < 8
  · have := h (8 * k + j) (by omega)
    have e1 : (8 * k + j) / 8 = k := by omega
    have e2 : (8 * k + j) % 8 = j := by omega
    simpa [bitAt, e1, e2, h1, h2] using this
  · have hp : (2 : Nat) ^ 8 ≤ 2 ^ j := Nat.pow_le_pow_right (by decide) (by omega)
    have l1 := (m[k]).toNat_lt
    have l2 := (m'[k]).toNat_lt
    rw [Nat.testBit_lt_two_pow (by omega), Nat.testBit_lt_two_pow (by omega)]

/-- C23: two messages of equal length whose differing bits all lie in a window of 32 consecutive bit positions, and
that do differ, have different checksums (also when the checksum continues an earlier one `v`). -/
theorem C23_burst_detected (m m' : Bytes) (hl : m.length = m'.length) (hne : m ≠ m') (s : Nat)
    (hb : ∀ i, bitAt m i ≠ bitAt m' i → s ≤ i ∧ i < s + 32) (v : Nat) :
    crc32c m v ≠ crc32c m' v := by
  intro heq
  apply hne
  apply bitAt_ext hl
  intro i hi
  have h1 : m.foldl crcByte (v ^^^ 0xFFFFFFFF) = m'.foldl crcByte (v ^^^ 0xFFFFFFFF) := by
    have := congrArg (· ^^^ 0xFFFFFFFF) heq
    simpa only [crc32c, xor_cancel] using this
  rw [foldl_crcByte, foldl_crcByte] at h1
  have h2 := foldl_crcBit_xor (msgBits m) (msgBits m') (by simp [hl]) (v ^^^ 0xFFFFFFFF) (v ^^^ 0xFFFFFFFF)
  rw [h1, Nat.xor_self, Nat.xor_self] at h2
  have hget : ∀ i (hi : i < (List.zipWith (· ^^ ·) (msgBits m) (msgBits m')).length),
      (List.zipWith (· ^^ ·) (msgBits m) (msgBits m'))[i] = (bitAt m i ^^ bitAt m' i) := by
    intro i hi
    simp only [List.length_zipWith, msgBits_length] at hi
    rw [List.getElem_zipWith]
    have e1 := msgBits_get m i (by omega)
    have e2 := msgBits_get m' i (by omega)
    rw [List.getElem?_eq_getElem (by simp; omega)] at e1 e2
    rw [Option.some.inj e1, Option.some.inj e2]
  have h3 := burst_main _ s (fun i hi ht => hb i (by rw [hget] at ht; simpa using ht)) h2.symm
  have hi' : i < (List.zipWith (· ^^ ·) (msgBits m) (msgBits m')).length := by simp; omega
  have h4 := h3 _ (List.getElem_mem hi')
  rw [hget] at h4
  simpa using h4

/-- C23: so the verifier rejects a signature over corrupted buffers. -/
theorem C23_corrupted_never_verifies (bs cs : List Bytes) (p : Bytes) (hp : crcSign bs = .ok p)
    (hl : bs.flatten.length = cs.flatten.length) (hne : bs.flatten ≠ cs.flatten) (s : Nat)
    (hb : ∀ i, bitAt bs.flatten i ≠ bitAt cs.flatten i → s ≤ i ∧ i < s + 32) :
    crcVerify cs (some p) = .ok false := by
  cases hv : crcVerify cs (some p) with
  | error e => rw [crcVerify_some] at hv; cases hv
  | ok b =>
    cases b with
    | false => rfl
    | true =>
      obtain ⟨h1, h2⟩ := (C22_verify_exact cs p).mp hv
      obtain ⟨q, hq, _, hvq⟩ := C22_sign_verify bs
      rw [hp] at hq
      cases hq
      obtain ⟨_, h3⟩ := (C22_verify_exact bs p).mp hvq
      exact absurd (h3.symm.trans h2) (C23_burst_detected _ _ hl hne s hb 0)

/-- A 32-bit burst that starts inside a byte. -/
example : ∀ i, bitAt [1, 2, 3, 4, 5, 6] i ≠ bitAt [1, 0x82, 0xFC, 0xFB, 0x7A, 6] i → 15 ≤ i ∧ i < 15 + 32 := by
  intro i
  by_cases h : i < 48
  · revert i; decide
  · intro hne
    exfalso; apply hne
    have h1 : 6 ≤ i / 8 := by omega
    simp [bitAt, List.getD_eq_getElem?_getD, h1]

/-- A 33-bit burst can go unnoticed: the bound is tight. -/
theorem C23_bound_tight : ∃ m m' : Bytes, m.length = m'.length ∧ m ≠ m' ∧
    (∀ i, bitAt m i ≠ bitAt m' i → 0 ≤ i ∧ i < 33) ∧ crc32c m 0 = crc32c m' 0 := by
  refine ⟨[0, 0, 0, 0, 0], [0xF1, 0x76, 0xEC, 0x05, 0x01], rfl, by decide, ?_, by decide⟩
  intro i
  by_cases h : i < 40
  · revert i; decide
  · intro hne
    exfalso; apply hne
    have h1 : 5 ≤ i / 8 := by omega
    simp [bitAt, List.getD_eq_getElem?_getD, h1]

end Ccnpy
