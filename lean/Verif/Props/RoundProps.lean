import Verif.Lemmas.F64
import Mathlib.Algebra.Order.Field.Basic
import Mathlib.Algebra.Order.Field.Power
import Mathlib.Algebra.Order.Field.Rat
import Mathlib.Tactic.FieldSimp
import Mathlib.Tactic.Linarith
import Mathlib.Tactic.Ring

/-!
# Properties of the float arithmetic of timestamps: C70
-/

namespace Ccnpy

/-! ## Specification -/

/-- `x` is the binary floating-point number with the 53-bit significand `m` and the exponent `e`. -/
def Spec.Float53 (x : ℚ) (m : ℕ) (e : ℤ) : Prop := 2 ^ 52 ≤ m ∧ m < 2 ^ 53 ∧ x = m * 2 ^ e

/-- `x` is `q` correctly rounded: the nearest number with a 53-bit significand, or the one of the two nearest whose
significand is even. -/
def Spec.CorrectlyRounded (x q : ℚ) : Prop :=
  ∃ m e, Spec.Float53 x m e ∧
    ∀ y m' e', Spec.Float53 y m' e' → |x - q| ≤ |y - q| ∧ (|x - q| = |y - q| → y ≠ x → Even m)

/-- The rational number a modelled float stands for. -/
def F64.toRat (x : F64) : ℚ := x.num / x.den

/-! ## C70 -/

private theorem roundHalfEven_nearest (a b : ℕ) (hb : 0 < b) (z : ℤ) :
    |(roundHalfEven a b : ℤ) * b - a| ≤ |z * b - a| ∧
      (|(roundHalfEven a b : ℤ) * b - a| = |z * b - a| → z ≠ roundHalfEven a b → Even (roundHalfEven a b)) := by
  have h := Nat.div_add_mod a b
  have hlt := Nat.mod_lt a hb
  have ha : (a : ℤ) = (a / b : ℕ) * b + (a % b : ℕ) := by
    have : a = a / b * b + a % b := by rw [Nat.mul_comm]; exact h.symm
    exact_mod_cast this
  have hz : ∀ c : ℤ, c * b - a = (c - (a / b : ℕ)) * b - (a % b : ℕ) := by intro c; rw [ha]; ring
  have hlo : ∀ c : ℤ, c ≤ (a / b : ℕ) - 1 → (c - (a / b : ℕ)) * (b : ℤ) ≤ -b := by
    intro c hc
    nlinarith
  have hhi : ∀ c : ℤ, (a / b : ℕ) + 2 ≤ c → 2 * (b : ℤ) ≤ (c - (a / b : ℕ)) * (b : ℤ) := by
    intro c hc
    nlinarith
  have hM : roundHalfEven a b = a / b ∧ 2 * (a % b) ≤ b ∧ (2 * (a % b) = b → Even (a / b)) ∨
      roundHalfEven a b = a / b + 1 ∧ b ≤ 2 * (a % b) ∧ (2 * (a % b) = b → Even (a / b + 1)) := by
    unfold roundHalfEven
    split
    · left; exact ⟨rfl, by omega, fun h => by omega⟩
    · split
      · right; exact ⟨rfl, by omega, fun h => by omega⟩
      · split
        · rename_i h; left; exact ⟨rfl, by omega, fun _ => Nat.even_iff.mpr h⟩
        · rename_i h; right; exact ⟨rfl, by omega, fun _ => Nat.even_iff.mpr (by omega)⟩
  have hcase : z ≤ (a / b : ℕ) - 1 ∨ z = (a / b : ℕ) ∨ z = (a / b : ℕ) + 1 ∨ (a / b : ℕ) + 2 ≤ z := by omega
  have e0 : (((a / b : ℕ) : ℤ) - (a / b : ℕ)) * (b : ℤ) = 0 := by ring
  have e1 : (((a / b : ℕ) : ℤ) + 1 - (a / b : ℕ)) * (b : ℤ) = b := by ring
  rw [hz, hz]
  rcases hM with ⟨hM, hr, ht⟩ | ⟨hM, hr, ht⟩ <;> rw [hM] <;> push_cast
  · rw [show ((a : ℤ) / b) = ((a / b : ℕ) : ℤ) by push_cast; rfl, show ((a : ℤ) % b) = ((a % b : ℕ) : ℤ) by push_cast; rfl]
    rw [e0]
    rcases hcase with hc | hc | hc | hc
    · have := hlo z hc
      rw [abs_of_nonpos (by omega), abs_of_nonpos (by omega)]
      exact ⟨by omega, fun h => by omega⟩
    · subst hc
      rw [e0]
      exact ⟨le_refl _, fun _ h => absurd rfl h⟩
    · subst hc
      rw [e1, abs_of_nonpos (by omega), abs_of_nonneg (by omega)]
      exact ⟨by omega, fun h _ => ht (by omega)⟩
    · have := hhi z hc
      rw [abs_of_nonpos (by omega), abs_of_nonneg (by omega)]
      exact ⟨by omega, fun h => by omega⟩
  · rw [show ((a : ℤ) / b) = ((a / b : ℕ) : ℤ) by push_cast; rfl, show ((a : ℤ) % b) = ((a % b : ℕ) : ℤ) by push_cast; rfl]
    rw [e1]
    rcases hcase with hc | hc | hc | hc
    · have := hlo z hc
      rw [abs_of_nonneg (by omega), abs_of_nonpos (by omega)]
      exact ⟨by omega, fun h => by omega⟩
    · subst hc
      rw [e0, abs_of_nonneg (by omega), abs_of_nonpos (by omega)]
      exact ⟨by omega, fun h _ => ht (by omega)⟩
    · subst hc
      rw [e1]
      exact ⟨le_refl _, fun _ h => absurd rfl h⟩
    · have := hhi z hc
      rw [abs_of_nonneg (by omega), abs_of_nonneg (by omega)]
      exact ⟨by omega, fun h => by omega⟩

/-- Rounding a quotient in `[2^52, 2^53)` to an integer, then scaling by a power of two. -/
private theorem rounded_scale (a b : ℕ) (e : ℤ) (hb : 0 < b) (h1 : b * 2 ^ 52 ≤ a) (h2 : a < b * 2 ^ 53) :
    Spec.CorrectlyRounded ((roundHalfEven a b : ℚ) * 2 ^ e) ((a / b : ℚ) * 2 ^ e) := by
  have hbq : (0 : ℚ) < b := by exact_mod_cast hb
  have hE : (0 : ℚ) < 2 ^ e := zpow_pos (by norm_num) e
  have h1q : (2 : ℚ) ^ 52 ≤ a / b := by
    rw [le_div_iff₀ hbq]
    have : (b : ℚ) * 2 ^ 52 ≤ a := by exact_mod_cast h1
    linarith
  -- the significand before normalisation
  obtain ⟨g1, g2⟩ := roundHalfEven_bounds a b hb
  have hM1 : 2 ^ 52 ≤ roundHalfEven a b := by
    by_contra hc
    have : roundHalfEven a b + 1 ≤ 2 ^ 52 := by omega
    have := Nat.mul_le_mul_right b this
    rw [Nat.add_mul, Nat.one_mul, Nat.mul_comm (2 ^ 52) b] at this
    omega
  have hM2 : roundHalfEven a b ≤ 2 ^ 53 := by
    by_contra hc
    have : 2 ^ 53 + 1 ≤ roundHalfEven a b := by omega
    have := Nat.mul_le_mul_right b this
    rw [Nat.add_mul, Nat.one_mul, Nat.mul_comm (2 ^ 53) b] at this
    omega
  -- distances, to integers
  have hint : ∀ z : ℤ, |(roundHalfEven a b : ℚ) - a / b| ≤ |(z : ℚ) - a / b| ∧
      (|(roundHalfEven a b : ℚ) - a / b| = |(z : ℚ) - a / b| → z ≠ roundHalfEven a b → Even (roundHalfEven a b)) := by
    intro z
    obtain ⟨k1, k2⟩ := roundHalfEven_nearest a b hb z
    have conv : ∀ c : ℤ, |(c : ℚ) - a / b| = ((|c * b - a| : ℤ) : ℚ) / b := by
      intro c
      rw [Int.cast_abs, ← abs_of_pos hbq, ← abs_div, abs_of_pos hbq]
      congr 1
      push_cast
      field_simp
    have cM := conv (roundHalfEven a b)
    rw [Int.cast_natCast] at cM
    rw [cM, conv z]
    constructor
    · exact div_le_div_of_nonneg_right (by exact_mod_cast k1) hbq.le
    · intro heq hne
      refine k2 ?_ hne
      rw [div_left_inj' hbq.ne'] at heq
      exact_mod_cast heq
  have hdist : ∀ c : ℚ, |c * 2 ^ e - a / b * 2 ^ e| = |c - a / b| * 2 ^ e := by
    intro c
    rw [← sub_mul, abs_mul, abs_of_pos hE]
  have key : ∀ y m' e', Spec.Float53 y m' e' →
      |(roundHalfEven a b : ℚ) * 2 ^ e - a / b * 2 ^ e| ≤ |y - a / b * 2 ^ e| ∧
      (|(roundHalfEven a b : ℚ) * 2 ^ e - a / b * 2 ^ e| = |y - a / b * 2 ^ e| → y ≠ (roundHalfEven a b : ℚ) * 2 ^ e →
        Even (roundHalfEven a b)) := by
    rintro y m' e' ⟨hm1, hm2, rfl⟩
    rw [hdist]
    by_cases he : e ≤ e'
    · obtain ⟨d, rfl⟩ := Int.le.dest he
      have hy : (m' : ℚ) * 2 ^ (e + d) = ((m' * 2 ^ d : ℕ) : ℤ) * 2 ^ e := by
        rw [zpow_add₀ (by norm_num), zpow_natCast]; push_cast; ring
      rw [hy, hdist]
      obtain ⟨k1, k2⟩ := hint ((m' * 2 ^ d : ℕ) : ℤ)
      refine ⟨mul_le_mul_of_nonneg_right k1 hE.le, fun heq hne => k2 ((mul_left_inj' hE.ne').mp heq) ?_⟩
      intro hc
      apply hne
      rw [hc]; push_cast; rfl
    · -- `y` is below `2^52 * 2^e`, which is nearer
      have hy : (m' : ℚ) * 2 ^ e' < 2 ^ 52 * 2 ^ e := by
        have c1 : (2 : ℚ) ^ e' ≤ 2 ^ (e - 1) := zpow_le_zpow_right₀ (by norm_num) (by omega)
        have c2 : (m' : ℚ) < 2 ^ 53 := by exact_mod_cast hm2
        have c3 : (2 : ℚ) ^ e = 2 ^ (e - 1) * 2 := by
          rw [← zpow_add_one₀ (by norm_num)]; congr 1; ring
        have c4 : (0 : ℚ) < 2 ^ e' := zpow_pos (by norm_num) e'
        have c5 : (m' : ℚ) * 2 ^ e' < 2 ^ 53 * 2 ^ e' := mul_lt_mul_of_pos_right c2 c4
        have c6 : (2 : ℚ) ^ 53 * 2 ^ e' ≤ 2 ^ 53 * 2 ^ (e - 1) := mul_le_mul_of_nonneg_left c1 (by norm_num)
        rw [c3]
        linarith
      have hq : (2 : ℚ) ^ 52 * 2 ^ e ≤ a / b * 2 ^ e := mul_le_mul_of_nonneg_right h1q hE.le
      obtain ⟨k1, _⟩ := hint (2 ^ 52)
      have k1 := mul_le_mul_of_nonneg_right k1 hE.le
      have k2 : |((2 ^ 52 : ℤ) : ℚ) - a / b| * 2 ^ e = a / b * 2 ^ e - 2 ^ 52 * 2 ^ e := by
        push_cast
        rw [abs_of_nonpos (by linarith)]
        ring
      rw [k2] at k1
      have k3 : |(m' : ℚ) * 2 ^ e' - a / b * 2 ^ e| = a / b * 2 ^ e - m' * 2 ^ e' := by
        rw [abs_of_nonpos (by linarith)]; ring
      rw [k3]
      exact ⟨by linarith, fun heq => by linarith⟩
  by_cases hM : roundHalfEven a b < 2 ^ 53
  · exact ⟨_, e, ⟨hM1, hM, rfl⟩, key⟩
  · have hM : roundHalfEven a b = 2 ^ 53 := by omega
    refine ⟨2 ^ 52, e + 1, ⟨le_refl _, by norm_num, ?_⟩, fun y m' e' hy => ⟨(key y m' e' hy).1, fun _ _ => by decide⟩⟩
    rw [hM, zpow_add₀ (by norm_num)]
    push_cast
    ring

/-- The model's rounding is the rounding of IEEE-754 binary64, away from the ends of the exponent range. -/
theorem C70_rounding (a b : ℕ) (ha : 0 < a) (hb : 0 < b) : Spec.CorrectlyRounded (fl a b).toRat (a / b) := by
  rw [fl_eq, if_neg (by omega)]
  have hbq : (b : ℚ) ≠ 0 := by exact_mod_cast hb.ne'
  split
  · rename_i hlt
    obtain ⟨h1, h2⟩ := flScale_spec a b ha
    have h3 : a * 2 ^ flScale a b < b * 2 ^ 53 := by
      rcases Nat.eq_zero_or_pos (flScale a b) with h0 | h0
      · rw [h0]; simpa using hlt
      · have := h2 (flScale a b - 1) (by omega)
        have e : (2 : ℕ) ^ flScale a b = 2 ^ (flScale a b - 1) * 2 := by rw [← Nat.pow_succ]; congr 1; omega
        rw [e, ← Nat.mul_assoc]
        omega
    have := rounded_scale (a * 2 ^ flScale a b) b (-(flScale a b : ℤ)) hb h1 h3
    have e1 : (((a * 2 ^ flScale a b : ℕ) : ℚ) / b) * 2 ^ (-(flScale a b : ℤ)) = a / b := by
      rw [zpow_neg, zpow_natCast]; push_cast; field_simp
    have e2 : (⟨roundHalfEven (a * 2 ^ flScale a b) b, 2 ^ flScale a b⟩ : F64).toRat =
        (roundHalfEven (a * 2 ^ flScale a b) b : ℚ) * 2 ^ (-(flScale a b : ℤ)) := by
      unfold F64.toRat
      rw [zpow_neg, zpow_natCast]; push_cast; field_simp
    rw [e2, ← e1]
    exact this
  · rename_i hge
    have hq : 2 ^ 53 ≤ a / b := (Nat.le_div_iff_mul_le hb).mpr (by rw [Nat.mul_comm]; omega)
    have hl : 2 ^ Nat.log2 (a / b) ≤ a / b := Nat.log2_self_le (by omega)
    have hl2 : a / b < 2 ^ (Nat.log2 (a / b) + 1) := Nat.lt_log2_self
    have hl52 : 53 ≤ Nat.log2 (a / b) := (Nat.le_log2 (by omega)).mpr hq
    generalize hd : Nat.log2 (a / b) - 52 = d at *
    have hpow : (2 : Nat) ^ Nat.log2 (a / b) = 2 ^ d * 2 ^ 52 := by
      rw [← Nat.pow_add]; congr 1; omega
    have hpow2 : (2 : Nat) ^ (Nat.log2 (a / b) + 1) = 2 ^ d * 2 ^ 53 := by
      rw [← Nat.pow_add]; congr 1; omega
    have h5 : b * 2 ^ d * 2 ^ 52 ≤ a := by
      rw [Nat.mul_assoc, ← hpow]
      calc b * 2 ^ Nat.log2 (a / b) ≤ b * (a / b) := Nat.mul_le_mul_left _ hl
        _ ≤ a := Nat.mul_div_le _ _
    have h6 : a < b * 2 ^ d * 2 ^ 53 := by
      rw [Nat.mul_assoc, ← hpow2]
      have := (Nat.div_lt_iff_lt_mul hb).mp hl2
      rwa [Nat.mul_comm] at this
    have := rounded_scale a (b * 2 ^ d) d (Nat.mul_pos hb (Nat.two_pow_pos _)) h5 h6
    have e1 : ((a : ℚ) / (b * 2 ^ d : ℕ)) * 2 ^ (d : ℤ) = a / b := by
      rw [zpow_natCast]; push_cast; field_simp
    have e2 : (⟨roundHalfEven a (b * 2 ^ d) * 2 ^ d, 1⟩ : F64).toRat =
        (roundHalfEven a (b * 2 ^ d) : ℚ) * 2 ^ (d : ℤ) := by
      unfold F64.toRat
      rw [zpow_natCast]; push_cast; simp
    rw [e2, ← e1]
    exact this

private theorem float53_next {x y : ℚ} {m m' : ℕ} {e e' : ℤ} (hx : Spec.Float53 x m e) (hy : Spec.Float53 y m' e')
    (h : x < y) : x + 2 ^ e ≤ y ∧ (m + 1 < 2 ^ 53 → y = x + 2 ^ e → m' = m + 1) := by
  obtain ⟨hm1, hm2, rfl⟩ := hx
  obtain ⟨hm1', hm2', rfl⟩ := hy
  have hE : (0 : ℚ) < 2 ^ e := zpow_pos (by norm_num) e
  by_cases he : e ≤ e'
  · obtain ⟨d, rfl⟩ := Int.le.dest he
    have hy : (m' : ℚ) * 2 ^ (e + d) = ((m' * 2 ^ d : ℕ) : ℚ) * 2 ^ e := by
      rw [zpow_add₀ (by norm_num), zpow_natCast]; push_cast; ring
    have hx1 : (m : ℚ) * 2 ^ e + 2 ^ e = ((m + 1 : ℕ) : ℚ) * 2 ^ e := by push_cast; ring
    rw [hy] at h ⊢
    rw [hx1]
    have hlt : m < m' * 2 ^ d := by exact_mod_cast lt_of_mul_lt_mul_right h hE.le
    refine ⟨mul_le_mul_of_nonneg_right (by exact_mod_cast hlt) hE.le, fun hlt2 heq => ?_⟩
    have heq : m' * 2 ^ d = m + 1 := by exact_mod_cast (mul_left_inj' hE.ne').mp heq
    rcases Nat.eq_zero_or_pos d with rfl | hd
    · simpa using heq
    · exfalso
      have : m' * 2 ^ 1 ≤ m' * 2 ^ d := Nat.mul_le_mul_left _ (Nat.pow_le_pow_right (by omega) hd)
      omega
  · exfalso
    have c1 : (2 : ℚ) ^ e' ≤ 2 ^ (e - 1) := zpow_le_zpow_right₀ (by norm_num) (by omega)
    have c2 : (m' : ℚ) < 2 ^ 53 := by exact_mod_cast hm2'
    have c3 : (2 : ℚ) ^ e = 2 ^ (e - 1) * 2 := by
      rw [← zpow_add_one₀ (by norm_num)]; congr 1; ring
    have c4 : (0 : ℚ) < 2 ^ e' := zpow_pos (by norm_num) e'
    have c5 : (m' : ℚ) * 2 ^ e' < 2 ^ 53 * 2 ^ e' := mul_lt_mul_of_pos_right c2 c4
    have c6 : (2 : ℚ) ^ 53 * 2 ^ e' ≤ 2 ^ 53 * 2 ^ (e - 1) := mul_le_mul_of_nonneg_left c1 (by norm_num)
    have c7 : (2 : ℚ) ^ 52 * 2 ^ e ≤ m * 2 ^ e := mul_le_mul_of_nonneg_right (by exact_mod_cast hm1) hE.le
    rw [c3] at c7 h
    linarith

private theorem rounded_not_lt {x y q : ℚ} (hx : Spec.CorrectlyRounded x q) (hy : Spec.CorrectlyRounded y q) :
    ¬ x < y := by
  intro h
  obtain ⟨m, e, hxf, hxn⟩ := hx
  obtain ⟨m', e', hyf, hyn⟩ := hy
  have d1 := hxn y m' e' hyf
  have d2 := hyn x m e hxf
  have heq : |x - q| = |y - q| := le_antisymm d1.1 d2.1
  have ev := d1.2 heq h.ne'
  have ev' := d2.2 heq.symm h.ne
  obtain ⟨hm1, hm2, hxe⟩ := hxf
  have hE : (0 : ℚ) < 2 ^ e := zpow_pos (by norm_num) e
  have hm3 : m + 1 < 2 ^ 53 := by
    rw [Nat.even_iff] at ev; omega
  obtain ⟨n1, n2⟩ := float53_next ⟨hm1, hm2, hxe⟩ hyf h
  have hz : Spec.Float53 (x + 2 ^ e) (m + 1) e := ⟨by omega, hm3, by rw [hxe]; push_cast; ring⟩
  have d3 := (hxn _ _ _ hz).1
  have hq : x - q = -(y - q) := by
    rcases abs_eq_abs.mp heq with h' | h'
    · exact absurd (by linarith : x = y) h.ne
    · exact h'
  have hlt : x < q := by linarith
  rw [abs_of_neg (by linarith)] at d3
  have hyz : y ≤ x + 2 ^ e := by
    rcases le_abs.mp d3 with h' | h' <;> linarith
  have := n2 hm3 (le_antisymm hyz n1)
  rw [Nat.even_iff] at ev ev'
  omega

/-- The specification of rounding leaves no choice. -/
theorem C70_unique (x y q : ℚ) (hx : Spec.CorrectlyRounded x q) (hy : Spec.CorrectlyRounded y q) : x = y :=
  le_antisymm (not_lt.mp (rounded_not_lt hy hx)) (not_lt.mp (rounded_not_lt hx hy))

/-- A parsed `ExpiryTime` or `SignatureTime` holds its number of milliseconds over a thousand, correctly rounded. -/
theorem C70_seconds (ms : ℕ) (h0 : 0 < ms) (h : ms < 2 ^ 53) :
    Spec.CorrectlyRounded (secondsOfMsec ms).toRat (ms / 1000) := by
  rw [secondsOfMsec_eq ms h]
  exact_mod_cast C70_rounding ms 1000 h0 (by norm_num)

/-- From `2^53` milliseconds on it is rounded twice: once to a float, once by the division. -/
theorem C70_seconds_large (ms : ℕ) (h0 : 0 < ms) :
    ∃ x, Spec.CorrectlyRounded x ms ∧ Spec.CorrectlyRounded (secondsOfMsec ms).toRat (x / 1000) := by
  have h1 := C70_rounding ms 1 h0 (by norm_num)
  refine ⟨(fl ms 1).toRat, by simpa using h1, ?_⟩
  have hden := fl_den_pos ms 1
  have hnum : 0 < (fl ms 1).num := by
    obtain ⟨m, e, ⟨hm1, _, hx⟩, _⟩ := h1
    by_contra hc
    have : (fl ms 1).num = 0 := by omega
    unfold F64.toRat at hx
    rw [this] at hx
    have hE : (0 : ℚ) < 2 ^ e := zpow_pos (by norm_num) e
    have hm : (0 : ℚ) < m := by exact_mod_cast (by omega : 0 < m)
    have := mul_pos hm hE
    rw [Nat.cast_zero, zero_div] at hx
    linarith
  have := C70_rounding (fl ms 1).num ((fl ms 1).den * 1000) hnum (by omega)
  unfold secondsOfMsec
  have e : (((fl ms 1).num : ℚ) / (((fl ms 1).den * 1000 : ℕ) : ℚ)) = (fl ms 1).toRat / 1000 := by
    unfold F64.toRat
    rw [div_div]; push_cast; rfl
  rw [← e]
  exact this

/-- `milliseconds()` rounds the product with a thousand correctly and drops the fraction. -/
theorem C70_milliseconds (x : F64) (h0 : 0 < x.num) (hd : 0 < x.den) :
    ∃ y : ℚ, Spec.CorrectlyRounded y (x.toRat * 1000) ∧ (x.milliseconds : ℚ) ≤ y ∧ y < x.milliseconds + 1 := by
  have h := C70_rounding (x.num * 1000) x.den (by omega) hd
  have e : (((x.num * 1000 : ℕ) : ℚ) / x.den) = x.toRat * 1000 := by
    unfold F64.toRat
    push_cast; ring
  rw [e] at h
  refine ⟨_, h, ?_, ?_⟩
  all_goals
    have hden : (0 : ℚ) < (fl (x.num * 1000) x.den).den := by exact_mod_cast fl_den_pos _ _
    unfold F64.milliseconds F64.mulNat F64.toInt F64.toRat
    generalize fl (x.num * 1000) x.den = y at *
    have hden' : 0 < y.den := by exact_mod_cast hden
  · rw [le_div_iff₀ hden]
    exact_mod_cast Nat.div_mul_le_self _ _
  · rw [div_lt_iff₀ hden]
    have := Nat.lt_div_mul_add (a := y.num) hden'
    have : y.num < (y.num / y.den + 1) * y.den := by rw [Nat.add_mul, Nat.one_mul]; exact this
    exact_mod_cast this

/-- Both directions of a tie: `2^53 + 1` goes down to `2^53` and `2^53 + 3` up to `2^53 + 4`; a tenth of a second is not
exact. -/
example : fl (2 ^ 53 + 1) 1 = ⟨2 ^ 53, 1⟩ ∧ fl (2 ^ 53 + 3) 1 = ⟨2 ^ 53 + 4, 1⟩ ∧
    secondsOfMsec 100 = ⟨7205759403792794, 2 ^ 56⟩ ∧ 7205759403792794 * 1000 ≠ 100 * 2 ^ 56 := by decide +kernel

end Ccnpy
