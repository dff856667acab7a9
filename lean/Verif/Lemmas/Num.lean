import Verif.Lemmas.Tlv

/-!
# Helper lemmas about integer encodings
-/

namespace Ccnpy

/-- Big-endian bytes of `n` in exactly `w` bytes (reduced modulo `256^w`). -/
def beBytes : Nat → Nat → Bytes
  | 0, _ => []
  | w + 1, n => UInt8.ofNat (n / 256 ^ w % 256) :: beBytes w n

@[simp] theorem beBytes_length (w n : Nat) : (beBytes w n).length = w := by
  induction w with
  | zero => rfl
  | succ w ih => simp [beBytes, ih]

theorem arrayToNumber_beBytes (w n : Nat) : arrayToNumber (beBytes w n) = n % 256 ^ w := by
  induction w with
  | zero => simp [beBytes, Nat.mod_one]
  | succ w ih =>
    rw [beBytes, arrayToNumber_cons, ih, beBytes_length, toNat_ofNat, Nat.mod_mod, Nat.pow_succ,
      Nat.mod_mul, Nat.mul_comm, Nat.add_comm]

/-- The number of bytes chosen by `number_to_array` (core/Tlv.py:202-213). -/
def numWidth (n : Nat) : Nat :=
  if n < 0x100 then 1 else if n < 0x10000 then 2 else if n < 0x1000000 then 3 else if n < 0x100000000 then 4 else 8

theorem byte_mask (n k : Nat) : byte (maskFF ((n : Int) >>> k)) = .ok (UInt8.ofNat (n / 2 ^ k % 256)) := by
  rw [int_shr, maskFF_nat, byte_nat _ (Nat.mod_lt _ (by decide))]

theorem byte_mask0 (n : Nat) : byte (maskFF (n : Int)) = .ok (UInt8.ofNat (n % 256)) := by
  rw [maskFF_nat, byte_nat _ (Nat.mod_lt _ (by decide))]

theorem byte_shr (n k : Nat) (h : n / 2 ^ k < 256) :
    byte ((n : Int) >>> k) = .ok (UInt8.ofNat (n / 2 ^ k % 256)) := by
  rw [int_shr, byte_nat _ h, Nat.mod_eq_of_lt h]

theorem uint64ToArray_nat (n : Nat) : uint64ToArray n = .ok (beBytes 8 n) := by
  simp only [uint64ToArray, byteArray_cons, byteArray_nil, byte_mask, byte_mask0, ok_bind, pure_eq_ok, beBytes]
  simp

theorem uint32ToArray_nat (n : Nat) (h : n < 2 ^ 32) : uint32ToArray n = .ok (beBytes 4 n) := by
  simp only [uint32ToArray, byteArray_cons, byteArray_nil, byte_mask, byte_mask0, ok_bind, pure_eq_ok, beBytes,
    byte_shr n 24 (by omega)]
  simp

theorem uint24ToArray_nat (n : Nat) (h : n < 2 ^ 24) : uint24ToArray n = .ok (beBytes 3 n) := by
  simp only [uint24ToArray, byteArray_cons, byteArray_nil, byte_mask, byte_mask0, ok_bind, pure_eq_ok, beBytes,
    byte_shr n 16 (by omega)]
  simp

theorem uint16ToArray_nat (n : Nat) (h : n < 2 ^ 16) : uint16ToArray n = .ok (beBytes 2 n) := by
  have : (0 : Int) ≤ n ∧ (n : Int) ≤ 0xFFFF := by omega
  simp only [uint16ToArray, this, pyAssert, byteArray_cons, byteArray_nil, byte_mask0, ok_bind, pure_eq_ok,
    beBytes, byte_shr n 8 (by omega)]
  simp

theorem uint16ToArray_big (n : Int) (h : n < 0 ∨ 2 ^ 16 ≤ n) : uint16ToArray n = .error .assertionError := by
  have : ¬ ((0 : Int) ≤ n ∧ (n : Int) ≤ 0xFFFF) := by omega
  simp only [uint16ToArray, this, pyAssert]
  simp

theorem shr_big (n : Nat) (k : Nat) (h : 256 * 2 ^ k ≤ n) : (256 : Int) ≤ (n : Int) >>> k := by
  rw [int_shr]
  have : 256 ≤ n / 2 ^ k := (Nat.le_div_iff_mul_le (Nat.two_pow_pos k)).mpr h
  omega

theorem shr_neg (n : Int) (k : Nat) (h : n < 0) : n >>> k < 0 := by
  rw [Int.shiftRight_eq_div_pow]
  exact Int.ediv_neg_of_neg_of_pos h (by exact_mod_cast Nat.two_pow_pos k)

theorem uint32ToArray_big (n : Int) (h : n < 0 ∨ 2 ^ 32 ≤ n) : uint32ToArray n = .error .overflowError := by
  have : byte (n >>> 24) = .error .overflowError := by
    rcases h with h | h
    · exact byte_neg _ (shr_neg _ _ h)
    · obtain ⟨m, rfl⟩ := Int.eq_ofNat_of_zero_le (show 0 ≤ n by omega)
      exact byte_big _ (shr_big _ _ (by omega))
  simp only [uint32ToArray, byteArray_cons, this, error_bind]

theorem uint24ToArray_big (n : Int) (h : n < 0 ∨ 2 ^ 24 ≤ n) : uint24ToArray n = .error .overflowError := by
  have : byte (n >>> 16) = .error .overflowError := by
    rcases h with h | h
    · exact byte_neg _ (shr_neg _ _ h)
    · obtain ⟨m, rfl⟩ := Int.eq_ofNat_of_zero_le (show 0 ≤ n by omega)
      exact byte_big _ (shr_big _ _ (by omega))
  simp only [uint24ToArray, byteArray_cons, this, error_bind]

theorem numberToArray_nat (n : Nat) : numberToArray n = .ok (beBytes (numWidth n) n) := by
  unfold numberToArray numWidth
  have e1 : ((n : Int) < 0x100) ↔ n < 0x100 := by omega
  have e2 : ((n : Int) < 0x10000) ↔ n < 0x10000 := by omega
  have e3 : ((n : Int) < 0x1000000) ↔ n < 0x1000000 := by omega
  have e4 : ((n : Int) < 0x100000000) ↔ n < 0x100000000 := by omega
  simp only [e1, e2, e3, e4]
  split
  · rename_i h
    simp [byte_nat n h, beBytes, Nat.mod_eq_of_lt h]
  split
  · simp only [byteArray_cons, byteArray_nil, byte_mask0, ok_bind, pure_eq_ok, beBytes,
      byte_shr n 8 (by omega)]
    simp
  split
  · simp only [byteArray_cons, byteArray_nil, byte_mask, byte_mask0, ok_bind, pure_eq_ok, beBytes,
      byte_shr n 16 (by omega)]
    simp
  split
  · simp only [byteArray_cons, byteArray_nil, byte_mask, byte_mask0, ok_bind, pure_eq_ok, beBytes,
      byte_shr n 24 (by omega)]
    simp
  · exact uint64ToArray_nat n

theorem numWidth_le (n : Nat) : numWidth n ≤ 8 := by
  unfold numWidth; (repeat' split) <;> omega

theorem lt_pow_numWidth (n : Nat) (h : n < 2 ^ 64) : n < 256 ^ numWidth n := by
  unfold numWidth; (repeat' split) <;> omega

theorem arrayToNumber_numBytes (n : Nat) (h : n < 2 ^ 64) : arrayToNumber (beBytes (numWidth n) n) = n := by
  rw [arrayToNumber_beBytes, Nat.mod_eq_of_lt (lt_pow_numWidth n h)]

theorem createVarint_nat (t n : Nat) (ht : t ≤ 0xFFFF) :
    createVarint t n = .ok ⟨t, beBytes (numWidth n) n⟩ := by
  have := numWidth_le n
  simp only [createVarint, numberToArray_nat, ok_bind, mkTlv_eq, beBytes_length]
  rw [if_pos (by omega)]

theorem createUint64_nat (t n : Nat) (ht : t ≤ 0xFFFF) :
    createUint64 t n = .ok ⟨t, beBytes 8 n⟩ := by
  simp only [createUint64, uint64ToArray_nat, ok_bind, mkTlv_eq, beBytes_length]
  rw [if_pos (by omega)]

end Ccnpy
