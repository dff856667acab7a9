import Verif.Model.F64

/-! # Rounding lemmas for the binary64 model -/

namespace Ccnpy

theorem roundHalfEven_bounds (a b : Nat) (hb : 0 < b) :
    2 * (roundHalfEven a b * b) ≤ 2 * a + b ∧ 2 * a ≤ 2 * (roundHalfEven a b * b) + b := by
  have h := Nat.div_add_mod a b
  have hm : a / b * b = b * (a / b) := Nat.mul_comm _ _
  have hlt := Nat.mod_lt a hb
  unfold roundHalfEven
  have e : (a / b + 1) * b = a / b * b + b := by rw [Nat.add_mul, Nat.one_mul]
  (repeat' split) <;> (try rw [e]) <;> omega

theorem roundHalfEven_exact (q b : Nat) (hb : 0 < b) : roundHalfEven (q * b) b = q := by
  unfold roundHalfEven
  rw [Nat.mul_mod_left, Nat.mul_div_cancel _ hb, if_pos (by omega)]

theorem roundHalfEven_scale (a b k : Nat) (hk : 0 < k) : roundHalfEven (a * k) (b * k) = roundHalfEven a b := by
  unfold roundHalfEven
  rw [Nat.mul_mod_mul_right, Nat.mul_div_mul_right _ _ hk, ← Nat.mul_assoc]
  have h1 : 2 * (a % b) * k < b * k ↔ 2 * (a % b) < b := Nat.mul_lt_mul_right hk
  have h2 : b * k < 2 * (a % b) * k ↔ b < 2 * (a % b) := Nat.mul_lt_mul_right hk
  simp only [h1, h2]

theorem scaleUp_spec (a b fuel s : Nat) (h : b * 2 ^ 52 ≤ a * 2 ^ (s + fuel)) :
    s ≤ scaleUp a b fuel s ∧ b * 2 ^ 52 ≤ a * 2 ^ scaleUp a b fuel s ∧
      ∀ r, s ≤ r → r < scaleUp a b fuel s → a * 2 ^ r < b * 2 ^ 52 := by
  induction fuel generalizing s with
  | zero => exact ⟨Nat.le_refl _, h, fun r h1 h2 => by simp [scaleUp] at h2; omega⟩
  | succ f ih =>
    unfold scaleUp
    split
    · rename_i h1
      exact ⟨Nat.le_refl _, h1, fun r h2 h3 => by omega⟩
    · rename_i h1
      obtain ⟨h2, h3, h4⟩ := ih (s + 1) (by rw [show s + 1 + f = s + (f + 1) by omega]; exact h)
      refine ⟨by omega, h3, fun r h5 h6 => ?_⟩
      by_cases hr : r = s
      · subst hr; omega
      · exact h4 r (by omega) h6

theorem scale_exists (a b : Nat) (ha : 0 < a) : b * 2 ^ 52 ≤ a * 2 ^ (0 + (Nat.log2 b + 53)) := by
  have h1 : b < 2 ^ (Nat.log2 b + 1) := Nat.lt_log2_self
  have h2 : (2 : Nat) ^ (0 + (Nat.log2 b + 53)) = 2 ^ (Nat.log2 b + 1) * 2 ^ 52 := by
    rw [← Nat.pow_add]; congr 1; omega
  rw [h2]
  have h3 : b * 2 ^ 52 ≤ 2 ^ (Nat.log2 b + 1) * 2 ^ 52 := Nat.mul_le_mul_right _ (Nat.le_of_lt h1)
  calc b * 2 ^ 52 ≤ 1 * (2 ^ (Nat.log2 b + 1) * 2 ^ 52) := by omega
    _ ≤ a * (2 ^ (Nat.log2 b + 1) * 2 ^ 52) := Nat.mul_le_mul_right _ ha

/-- The exponent chosen for `a / b`. -/
def flScale (a b : Nat) : Nat := scaleUp a b (Nat.log2 b + 53) 0

theorem flScale_spec (a b : Nat) (ha : 0 < a) :
    b * 2 ^ 52 ≤ a * 2 ^ flScale a b ∧ ∀ r, r < flScale a b → a * 2 ^ r < b * 2 ^ 52 := by
  obtain ⟨_, h2, h3⟩ := scaleUp_spec a b _ 0 (scale_exists a b ha)
  exact ⟨h2, fun r hr => h3 r (by omega) hr⟩

theorem flScale_unique (a b s : Nat) (ha : 0 < a) (h1 : b * 2 ^ 52 ≤ a * 2 ^ s)
    (h2 : ∀ r, r < s → a * 2 ^ r < b * 2 ^ 52) : flScale a b = s := by
  obtain ⟨h3, h4⟩ := flScale_spec a b ha
  rcases Nat.lt_trichotomy (flScale a b) s with h | h | h
  · have := h2 _ h; omega
  · exact h
  · have := h4 _ h; omega

theorem fl_eq (a b : Nat) : fl a b =
    if a = 0 then ⟨0, 1⟩
    else if a < b * 2 ^ 53 then ⟨roundHalfEven (a * 2 ^ flScale a b) b, 2 ^ flScale a b⟩
    else ⟨roundHalfEven a (b * 2 ^ (Nat.log2 (a / b) - 52)) * 2 ^ (Nat.log2 (a / b) - 52), 1⟩ := rfl

/-- Rounding depends only on the ratio. -/
theorem fl_scale (a b k : Nat) (hk : 0 < k) : fl (a * k) (b * k) = fl a b := by
  rw [fl_eq, fl_eq]
  by_cases ha : a = 0
  · simp [ha]
  · have ha' : 0 < a := Nat.pos_of_ne_zero ha
    have hak : a * k ≠ 0 := by
      have := Nat.mul_pos ha' hk; omega
    rw [if_neg ha, if_neg hak]
    have e1 : a * k < b * k * 2 ^ 53 ↔ a < b * 2 ^ 53 := by
      rw [Nat.mul_right_comm]; exact Nat.mul_lt_mul_right hk
    have es : flScale (a * k) (b * k) = flScale a b := by
      obtain ⟨h1, h2⟩ := flScale_spec a b ha'
      apply flScale_unique _ _ _ (Nat.mul_pos ha' hk)
      · rw [Nat.mul_right_comm, Nat.mul_right_comm a]; exact Nat.mul_le_mul_right _ h1
      · intro r hr
        rw [Nat.mul_right_comm, Nat.mul_right_comm b]; exact Nat.mul_lt_mul_of_pos_right (h2 r hr) hk
    simp only [e1, es, Nat.mul_div_mul_right _ _ hk]
    split
    · rw [Nat.mul_right_comm, roundHalfEven_scale _ _ _ hk]
    · rw [Nat.mul_right_comm b k, roundHalfEven_scale _ _ _ hk]

theorem fl_den_pos (a b : Nat) : 0 < (fl a b).den := by
  rw [fl_eq]
  (repeat' split)
  · exact Nat.one_pos
  · exact Nat.two_pow_pos _
  · exact Nat.one_pos

/-- The relative rounding error is at most 2^-53. -/
theorem fl_error (a b : Nat) (hb : 0 < b) :
    2 ^ 53 * ((fl a b).num * b) ≤ (2 ^ 53 + 1) * (a * (fl a b).den) ∧
    (2 ^ 53 - 1) * (a * (fl a b).den) ≤ 2 ^ 53 * ((fl a b).num * b) := by
  rw [fl_eq]
  split
  · rename_i h; subst h; simp
  · rename_i ha
    have ha' : 0 < a := Nat.pos_of_ne_zero ha
    split
    · obtain ⟨h1, _⟩ := flScale_spec a b ha'
      obtain ⟨h3, h4⟩ := roundHalfEven_bounds (a * 2 ^ flScale a b) b hb
      simp only
      generalize roundHalfEven (a * 2 ^ flScale a b) b * b = X at *
      generalize a * 2 ^ flScale a b = Y at *
      omega
    · rename_i hge
      simp only
      have hq : 2 ^ 53 ≤ a / b := (Nat.le_div_iff_mul_le hb).mpr (by rw [Nat.mul_comm]; omega)
      have hl : 2 ^ Nat.log2 (a / b) ≤ a / b := Nat.log2_self_le (by omega)
      have hl52 : 53 ≤ Nat.log2 (a / b) := (Nat.le_log2 (by omega)).mpr hq
      have hpow : (2 : Nat) ^ Nat.log2 (a / b) = 2 ^ (Nat.log2 (a / b) - 52) * 2 ^ 52 := by
        rw [← Nat.pow_add]; congr 1; omega
      obtain ⟨h3, h4⟩ := roundHalfEven_bounds a (b * 2 ^ (Nat.log2 (a / b) - 52))
        (Nat.mul_pos hb (Nat.two_pow_pos _))
      have h5 : b * 2 ^ (Nat.log2 (a / b) - 52) * 2 ^ 52 ≤ a := by
        rw [Nat.mul_assoc, ← hpow]
        calc b * 2 ^ Nat.log2 (a / b) ≤ b * (a / b) := Nat.mul_le_mul_left _ hl
          _ ≤ a := Nat.mul_div_le _ _
      have e : roundHalfEven a (b * 2 ^ (Nat.log2 (a / b) - 52)) * 2 ^ (Nat.log2 (a / b) - 52) * b =
          roundHalfEven a (b * 2 ^ (Nat.log2 (a / b) - 52)) * (b * 2 ^ (Nat.log2 (a / b) - 52)) := by
        rw [Nat.mul_assoc, Nat.mul_comm _ b]
      rw [e, Nat.mul_one]
      generalize roundHalfEven a (b * 2 ^ (Nat.log2 (a / b) - 52)) * (b * 2 ^ (Nat.log2 (a / b) - 52)) = X at *
      generalize b * 2 ^ (Nat.log2 (a / b) - 52) = Z at *
      omega

/-- Integers below 2^53 are exact. -/
theorem fl_nat (n : Nat) (h : n < 2 ^ 53) : ∃ s, fl n 1 = ⟨n * 2 ^ s, 2 ^ s⟩ := by
  rw [fl_eq]
  split
  · rename_i h0; subst h0; exact ⟨0, by simp⟩
  · refine ⟨flScale n 1, ?_⟩
    congr 1
    have := roundHalfEven_exact (n * 2 ^ flScale n 1) 1 (by decide)
    rwa [Nat.mul_one] at this

theorem fl_nat_toInt (n : Nat) (h : n < 2 ^ 53) : (fl n 1).toInt = n := by
  obtain ⟨s, hs⟩ := fl_nat n h
  rw [hs, F64.toInt]
  exact Nat.mul_div_cancel _ (Nat.two_pow_pos _)

theorem secondsOfMsec_eq (ms : Nat) (h : ms < 2 ^ 53) : secondsOfMsec ms = fl ms 1000 := by
  obtain ⟨s, hs⟩ := fl_nat ms h
  rw [secondsOfMsec, hs]
  simp only
  rw [Nat.mul_comm (2 ^ s)]
  exact fl_scale _ _ _ (Nat.two_pow_pos _)

/-- The value of a converted integer is at most twice the integer. -/
theorem fl_toInt_le (a : Nat) : (fl a 1).toInt ≤ 2 * a := by
  obtain ⟨h1, _⟩ := fl_error a 1 (by decide)
  have hd := fl_den_pos a 1
  rw [F64.toInt]
  apply Nat.div_le_of_le_mul
  rw [Nat.mul_one] at h1
  rw [← Nat.mul_assoc, Nat.mul_comm _ 2, Nat.mul_assoc, Nat.mul_comm _ a]
  omega

/-- Whole seconds are exact in both directions. -/
theorem secondsOfMsec_whole (n : Nat) (h : n * 1000 < 2 ^ 53) : secondsOfMsec (n * 1000) = F64.ofNat n := by
  rw [secondsOfMsec_eq _ h]
  have := fl_scale n 1 1000 (by decide)
  rwa [Nat.one_mul] at this

theorem milliseconds_whole (n : Nat) (h : n * 1000 < 2 ^ 53) : (F64.ofNat n).milliseconds = n * 1000 := by
  obtain ⟨s, hs⟩ := fl_nat n (by omega)
  rw [F64.milliseconds, F64.mulNat, F64.ofNat, hs]
  simp only
  have := fl_scale (n * 1000) 1 (2 ^ s) (Nat.two_pow_pos _)
  rw [Nat.one_mul] at this
  rw [Nat.mul_right_comm, this]
  exact fl_nat_toInt _ h

/-- A timestamp that equals what a reader obtains from its own wire form. -/
def F64.Stable (x : F64) : Prop := x.milliseconds < 2 ^ 64 ∧ secondsOfMsec x.milliseconds = x

theorem stable_whole (n : Nat) (h : n * 1000 < 2 ^ 53) : (F64.ofNat n).Stable := by
  refine ⟨by rw [milliseconds_whole n h]; omega, ?_⟩
  rw [milliseconds_whole n h, secondsOfMsec_whole n h]

/-- One hop keeps the millisecond count or loses exactly one. -/
theorem hop_bound (ms : Nat) (h : ms < 2 ^ 50) :
    (secondsOfMsec ms).milliseconds = ms ∨ (secondsOfMsec ms).milliseconds + 1 = ms := by
  rw [secondsOfMsec_eq ms (by omega), F64.milliseconds, F64.mulNat, F64.toInt]
  obtain ⟨h1, h2⟩ := fl_error ms 1000 (by decide)
  have hd := fl_den_pos ms 1000
  generalize fl ms 1000 = x at *
  obtain ⟨h3, h4⟩ := fl_error (x.num * 1000) x.den hd
  have hD := fl_den_pos (x.num * 1000) x.den
  generalize fl (x.num * 1000) x.den = y at *
  -- eliminate `x`
  have up : 2 ^ 106 * y.num ≤ (2 ^ 53 + 1) * ((2 ^ 53 + 1) * (ms * y.den)) := by
    have a1 := Nat.mul_le_mul_left (2 ^ 53) h3
    have a2 := Nat.mul_le_mul_left (2 ^ 53 + 1) (Nat.mul_le_mul_right y.den h1)
    have : (2 ^ 106 * y.num) * x.den ≤ ((2 ^ 53 + 1) * ((2 ^ 53 + 1) * (ms * y.den))) * x.den := by
      grind
    exact Nat.le_of_mul_le_mul_right this hd
  have lo : (2 ^ 53 - 1) * ((2 ^ 53 - 1) * (ms * y.den)) ≤ 2 ^ 106 * y.num := by
    have a1 := Nat.mul_le_mul_left (2 ^ 53) h4
    have a2 := Nat.mul_le_mul_left (2 ^ 53 - 1) (Nat.mul_le_mul_right y.den h2)
    have : ((2 ^ 53 - 1) * ((2 ^ 53 - 1) * (ms * y.den))) * x.den ≤ (2 ^ 106 * y.num) * x.den := by
      grind
    exact Nat.le_of_mul_le_mul_right this hd
  have hb : ms * y.den ≤ 2 ^ 50 * y.den := Nat.mul_le_mul_right _ (by omega)
  have hup : y.num < (ms + 1) * y.den := by
    rw [Nat.add_mul, Nat.one_mul]
    omega
  have hlo : (ms - 1) * y.den ≤ y.num := by
    rw [Nat.sub_mul, Nat.one_mul]
    omega
  have q1 : y.num / y.den < ms + 1 := (Nat.div_lt_iff_lt_mul hD).mpr hup
  have q2 : ms - 1 ≤ y.num / y.den := (Nat.le_div_iff_mul_le hD).mpr hlo
  omega

end Ccnpy
