import Verif.Model.Crc32c
import Verif.Lemmas.Packet

/-! # Lemmas about CRC-32C: linearity and the burst argument -/

namespace Ccnpy

theorem crcPoly_lt : crcPoly < 2 ^ 32 := by decide

theorem crcShift_lt {c : Nat} (h : c < 2 ^ 32) : crcShift c < 2 ^ 32 := by
  unfold crcShift
  split
  · exact Nat.xor_lt_two_pow (by omega) crcPoly_lt
  · omega

theorem byte_lt (b : UInt8) : b.toNat < 2 ^ 32 := Nat.lt_of_lt_of_le b.toNat_lt (by decide)

theorem crcByte_lt {c : Nat} (h : c < 2 ^ 32) (b : UInt8) : crcByte c b < 2 ^ 32 := by
  unfold crcByte
  repeat apply crcShift_lt
  exact Nat.xor_lt_two_pow h (byte_lt b)

theorem crcFold_lt (data : Bytes) {c : Nat} (h : c < 2 ^ 32) : data.foldl crcByte c < 2 ^ 32 := by
  induction data generalizing c with
  | nil => exact h
  | cons b l ih => exact ih (crcByte_lt h b)

theorem crc32c_lt (data : Bytes) {v : Nat} (h : v < 2 ^ 32) : crc32c data v < 2 ^ 32 :=
  Nat.xor_lt_two_pow (crcFold_lt data (Nat.xor_lt_two_pow h (by decide))) (by decide)

theorem xor_cancel (a b : Nat) : (a ^^^ b) ^^^ b = a := by rw [Nat.xor_assoc, Nat.xor_self, Nat.xor_zero]

theorem crc32c_append (a b : Bytes) (v : Nat) : crc32c b (crc32c a v) = crc32c (a ++ b) v := by
  simp only [crc32c, xor_cancel, List.foldl_append]

theorem crc32c_nil (v : Nat) : crc32c [] v = v := by simp [crc32c, xor_cancel]

theorem crcBuffers_from (bs : List Bytes) (v : Nat) :
    bs.foldl (fun checksum buffer => crc32c buffer checksum) v = crc32c bs.flatten v := by
  induction bs generalizing v with
  | nil => simp [crc32c_nil]
  | cons b bs ih => rw [List.foldl_cons, ih, List.flatten_cons, crc32c_append]

theorem crcBuffers_eq (bs : List Bytes) : crcBuffers bs = crc32c bs.flatten 0 := crcBuffers_from bs 0

theorem crcBuffers_lt (bs : List Bytes) : crcBuffers bs < 2 ^ 32 := by
  rw [crcBuffers_eq]; exact crc32c_lt _ (by decide)

theorem mkPayload_ok (w : Bytes) (h : w.length ≤ 0xFFFF) : construct valPayloadTlv w = .ok w := by
  have : valPayloadTlv w = .ok ⟨T_VALIDATION_PAYLOAD, w⟩ := by
    rw [valPayloadTlv, mkTlv_eq, if_pos ⟨(by decide : T_VALIDATION_PAYLOAD ≤ 0xFFFF), h⟩]
  exact construct_ok this

theorem crcSign_eq (bs : List Bytes) : crcSign bs = .ok (beBytes 4 (crcBuffers bs)) := by
  have := uint32ToArray_nat _ (crcBuffers_lt bs)
  rw [crcSign, this, ok_bind, mkPayload_ok]
  simp

theorem crcVerify_some (bs : List Bytes) (p : Bytes) :
    crcVerify bs (some p) = .ok (beBytes 4 (crcBuffers bs) == p) := by
  have := uint32ToArray_nat _ (crcBuffers_lt bs)
  simp only [crcVerify, this, ok_bind]
  rw [mkPayload_ok]
  · rfl
  · simp

/-! ## Linearity -/

theorem xor_mod_two (a b : Nat) : (a ^^^ b) % 2 = (a + b) % 2 := by
  have h1 := @Nat.xor_mod_two_eq_one a b
  have h2 := Nat.mod_two_eq_zero_or_one (a ^^^ b)
  have h3 := Nat.mod_two_eq_zero_or_one (a + b)
  omega

theorem xor_div_two (a b : Nat) : (a ^^^ b) / 2 = a / 2 ^^^ b / 2 := by
  have := Nat.xor_div_two_pow (a := a) (b := b) (n := 1)
  simpa using this

theorem crcShift_xor (a b : Nat) : crcShift (a ^^^ b) = crcShift a ^^^ crcShift b := by
  unfold crcShift
  rw [xor_mod_two, xor_div_two]
  rcases Nat.mod_two_eq_zero_or_one a with ha | ha <;> rcases Nat.mod_two_eq_zero_or_one b with hb | hb
  · rw [if_neg (by omega), if_neg (by omega), if_neg (by omega)]
  · rw [if_pos (by omega), if_neg (by omega), if_pos hb, Nat.xor_assoc]
  · rw [if_pos (by omega), if_pos ha, if_neg (by omega), Nat.xor_assoc, Nat.xor_assoc, Nat.xor_comm (b / 2)]
  · rw [if_neg (by omega), if_pos ha, if_pos hb, Nat.xor_assoc, Nat.xor_comm (b / 2) crcPoly,
      ← Nat.xor_assoc crcPoly, Nat.xor_self, Nat.zero_xor]

/-- Processing one bit. -/
def crcBit (c : Nat) (x : Bool) : Nat := crcShift (c ^^^ x.toNat)

theorem toNat_xor (x y : Bool) : (x ^^ y).toNat = x.toNat ^^^ y.toNat := by cases x <;> cases y <;> rfl

theorem crcBit_xor (c d : Nat) (x y : Bool) : crcBit c x ^^^ crcBit d y = crcBit (c ^^^ d) (x ^^ y) := by
  rw [crcBit, crcBit, crcBit, ← crcShift_xor, toNat_xor]
  congr 1
  rw [Nat.xor_assoc, Nat.xor_assoc, ← Nat.xor_assoc x.toNat, Nat.xor_comm x.toNat d, Nat.xor_assoc d]

/-- The `k` low bits of a number, least significant first. -/
def lowBits : Nat → Nat → List Bool
  | 0, _ => []
  | k + 1, b => b.testBit 0 :: lowBits k (b / 2)

@[simp] theorem lowBits_length (k b : Nat) : (lowBits k b).length = k := by
  induction k generalizing b with
  | zero => rfl
  | succ k ih => simp [lowBits, ih]

theorem lowBits_get (k b i : Nat) (h : i < k) : (lowBits k b)[i]? = some (b.testBit i) := by
  induction k generalizing b i with
  | zero => omega
  | succ k ih =>
    cases i with
    | zero => simp [lowBits]
    | succ i =>
      simp only [lowBits, List.getElem?_cons_succ]
      rw [ih _ _ (by omega), Nat.testBit_succ]

def crcShiftN : Nat → Nat → Nat
  | 0, c => c
  | k + 1, c => crcShiftN k (crcShift c)

theorem crcShift_double (y : Nat) : crcShift (2 * y) = y := by
  unfold crcShift
  rw [if_neg (by omega)]
  omega

theorem crcShiftN_bits (k c b : Nat) (h : b < 2 ^ k) : crcShiftN k (c ^^^ b) = (lowBits k b).foldl crcBit c := by
  induction k generalizing c b with
  | zero =>
    have : b = 0 := by simpa using h
    subst this
    simp [crcShiftN, lowBits]
  | succ k ih =>
    have hb : b = (b.testBit 0).toNat ^^^ 2 * (b / 2) := by
      have h1 : (b.testBit 0).toNat = b % 2 := by
        rw [Nat.testBit_zero]
        rcases Nat.mod_two_eq_zero_or_one b with h | h <;> simp [h]
      rw [h1]
      apply Nat.eq_of_testBit_eq
      intro i
      rw [Nat.testBit_xor]
      cases i with
      | zero => simp [Nat.testBit_zero]
      | succ i =>
        rw [Nat.testBit_succ, Nat.testBit_succ, Nat.testBit_succ]
        have h2 : b % 2 / 2 = 0 := by omega
        have h3 : 2 * (b / 2) / 2 = b / 2 := by omega
        rw [h2, h3, Nat.zero_testBit, Bool.false_xor]
    simp only [crcShiftN, lowBits, List.foldl_cons]
    have : crcShift (c ^^^ b) = crcBit c (b.testBit 0) ^^^ b / 2 := by
      conv => lhs; rw [hb]
      rw [← Nat.xor_assoc, crcShift_xor, crcShift_double, crcBit]
    rw [this, ih]
    rw [Nat.pow_succ] at h
    omega

theorem crcByte_bits (c : Nat) (b : UInt8) : crcByte c b = (lowBits 8 b.toNat).foldl crcBit c :=
  crcShiftN_bits 8 c b.toNat b.toNat_lt

/-- The bits of a message in transmission order. -/
def msgBits (m : Bytes) : List Bool := m.flatMap (fun b => lowBits 8 b.toNat)

@[simp] theorem msgBits_length (m : Bytes) : (msgBits m).length = 8 * m.length := by
  induction m with
  | nil => rfl
  | cons b m ih => simp [msgBits] at ih ⊢; omega

theorem foldl_crcByte (m : Bytes) (c : Nat) : m.foldl crcByte c = (msgBits m).foldl crcBit c := by
  induction m generalizing c with
  | nil => rfl
  | cons b m ih =>
    rw [List.foldl_cons, ih, crcByte_bits, ← List.foldl_append]
    rfl

theorem foldl_crcBit_xor (xs ys : List Bool) (h : xs.length = ys.length) (c d : Nat) :
    xs.foldl crcBit c ^^^ ys.foldl crcBit d = (List.zipWith (· ^^ ·) xs ys).foldl crcBit (c ^^^ d) := by
  induction xs generalizing ys c d with
  | nil =>
    cases ys with
    | nil => rfl
    | cons y ys => simp at h
  | cons x xs ih =>
    cases ys with
    | nil => simp at h
    | cons y ys =>
      simp only [List.foldl_cons, List.zipWith_cons_cons]
      rw [ih ys (by simpa using h), crcBit_xor]

/-! ## The burst argument -/

theorem crcPoly_bit : crcPoly.testBit 31 = true := by decide

/-- If the register is small after a bit, nothing was fed back: the bit equalled the register's low bit. -/
theorem crcBit_small {c : Nat} {x : Bool} {j : Nat} (hc : c < 2 ^ 32) (hj : j ≤ 31) (h : crcBit c x < 2 ^ j) :
    x = c.testBit 0 ∧ c < 2 ^ (j + 1) ∧ crcBit c x = c / 2 := by
  have hx : (c ^^^ x.toNat) / 2 = c / 2 := by
    rw [xor_div_two]
    cases x <;> simp
  unfold crcBit crcShift at h ⊢
  rw [hx] at h ⊢
  split at h
  · exfalso
    have hb : (c / 2 ^^^ crcPoly).testBit 31 = true := by
      rw [Nat.testBit_xor, crcPoly_bit, Nat.testBit_lt_two_pow (by omega)]
      rfl
    rw [Nat.testBit_lt_two_pow (Nat.lt_of_lt_of_le h (Nat.pow_le_pow_right (by decide) hj))] at hb
    cases hb
  · rename_i hodd
    rw [if_neg hodd]
    refine ⟨?_, by rw [Nat.pow_succ]; omega, rfl⟩
    rw [xor_mod_two] at hodd
    rw [Nat.testBit_zero]
    cases x <;> simp at hodd ⊢ <;> omega

theorem crcBit_lt {c : Nat} (h : c < 2 ^ 32) (x : Bool) : crcBit c x < 2 ^ 32 :=
  crcShift_lt (Nat.xor_lt_two_pow h (by cases x <;> decide))

theorem burst_bits (xs : List Bool) (c j : Nat) (hc : c < 2 ^ 32) (hl : j + xs.length ≤ 32)
    (h : xs.foldl crcBit c < 2 ^ j) : c < 2 ^ (j + xs.length) ∧ ∀ i (hi : i < xs.length), xs[i] = c.testBit i := by
  induction xs generalizing c with
  | nil => exact ⟨by simpa using h, by simp⟩
  | cons x xs ih =>
    simp only [List.length_cons] at hl
    obtain ⟨h1, h2⟩ := ih (crcBit c x) (crcBit_lt hc x) (by omega) h
    obtain ⟨h3, h4, h5⟩ := crcBit_small hc (by omega) h1
    refine ⟨by simpa [Nat.add_assoc] using h4, ?_⟩
    intro i hi
    cases i with
    | zero => simpa using h3
    | succ i =>
      rw [List.getElem_cons_succ, h2, h5, Nat.testBit_succ]

theorem burst_zero (xs : List Bool) (hl : xs.length ≤ 32) (h : xs.foldl crcBit 0 = 0) : ∀ x ∈ xs, x = false := by
  intro x hx
  obtain ⟨i, hi, rfl⟩ := List.getElem_of_mem hx
  have := (burst_bits xs 0 0 (by decide) (by omega) (by rw [h]; decide)).2 i hi
  simpa using this

theorem foldl_false_zero (xs : List Bool) (h : ∀ x ∈ xs, x = false) : xs.foldl crcBit 0 = 0 := by
  induction xs with
  | nil => rfl
  | cons x xs ih =>
    have : x = false := h x (by simp)
    subst this
    exact ih (fun x hx => h x (by simp [hx]))

theorem foldl_false_inj (xs : List Bool) (h : ∀ x ∈ xs, x = false) {c : Nat} (hc : c < 2 ^ 32)
    (hz : xs.foldl crcBit c = 0) : c = 0 := by
  induction xs generalizing c with
  | nil => exact hz
  | cons x xs ih =>
    have hx : x = false := h x (by simp)
    subst hx
    have h0 := ih (fun x hx => h x (by simp [hx])) (crcBit_lt hc false) hz
    obtain ⟨h1, h2, _⟩ := crcBit_small (j := 0) hc (by decide) (by rw [h0]; decide)
    rw [Nat.testBit_zero] at h1
    have : ¬ c % 2 = 1 := by simpa using h1
    omega

theorem burst_main (xs : List Bool) (s : Nat) (h : ∀ i (hi : i < xs.length), xs[i] = true → s ≤ i ∧ i < s + 32)
    (hz : xs.foldl crcBit 0 = 0) : ∀ x ∈ xs, x = false := by
  have hsplit : xs = xs.take s ++ ((xs.drop s).take 32 ++ (xs.drop s).drop 32) := by
    rw [List.take_append_drop, List.take_append_drop]
  have h1 : ∀ x ∈ xs.take s, x = false := by
    intro x hx
    obtain ⟨i, hi, rfl⟩ := List.getElem_of_mem hx
    rw [List.getElem_take]
    rw [List.length_take] at hi
    cases hb : xs[i] with
    | false => rfl
    | true => have := (h i (by omega) hb).1; omega
  have h3 : ∀ x ∈ (xs.drop s).drop 32, x = false := by
    intro x hx
    obtain ⟨i, hi, rfl⟩ := List.getElem_of_mem hx
    rw [List.getElem_drop, List.getElem_drop]
    rw [List.length_drop, List.length_drop] at hi
    cases hb : xs[s + (32 + i)] with
    | false => rfl
    | true => have := (h _ (by omega) hb).2; omega
  rw [hsplit, List.foldl_append, List.foldl_append, foldl_false_zero _ h1] at hz
  have hlt : ∀ (l : List Bool) (c : Nat), c < 2 ^ 32 → l.foldl crcBit c < 2 ^ 32 := by
    intro l
    induction l with
    | nil => intro c hc; exact hc
    | cons x l ih => intro c hc; exact ih _ (crcBit_lt hc x)
  have hm := foldl_false_inj _ h3 (hlt _ 0 (by decide)) hz
  have h2 := burst_zero _ (by rw [List.length_take]; omega) hm
  intro x hx
  rw [hsplit] at hx
  rcases List.mem_append.mp hx with hx | hx
  · exact h1 x hx
  rcases List.mem_append.mp hx with hx | hx
  · exact h2 x hx
  · exact h3 x hx

end Ccnpy
