import Verif.Model.Base

/-!
# Non-negative IEEE-754 binary64 numbers, as used by `ccnpy/core/Timestamp.py`

Python floats that hold timestamps are modelled as exact non-negative rationals `num / den` that are the result of
rounding to 53 significant bits, round-half-to-even.  The exponent range is unbounded above here (users of these
functions compare with `f64Overflow`); subnormal numbers cannot occur for `msec / 1000.0` and are not modelled.
-/

namespace Ccnpy

/-- A non-negative finite binary64 value `num / den`. -/
structure F64 where
  num : Nat
  den : Nat
  deriving DecidableEq, Repr

/-- Quotient rounded to the nearest integer, ties to even. -/
def roundHalfEven (a b : Nat) : Nat :=
  if 2 * (a % b) < b then a / b
  else if b < 2 * (a % b) then a / b + 1
  else if a / b % 2 = 0 then a / b else a / b + 1

/-- The least `s` (starting the search at `s`) with `b * 2^52 ≤ a * 2^s`. -/
def scaleUp (a b : Nat) : Nat → Nat → Nat
  | 0, s => s
  | fuel + 1, s => if b * 2 ^ 52 ≤ a * 2 ^ s then s else scaleUp a b fuel (s + 1)

/-- The binary64 nearest to the rational `a / b` (ties to even): the significand has 53 bits.
For `a / b < 2^53` the exponent is `-s`; otherwise the significand is scaled up by `2^d`. -/
def fl (a b : Nat) : F64 :=
  if a = 0 then ⟨0, 1⟩
  else if a < b * 2 ^ 53 then
    let s := scaleUp a b (Nat.log2 b + 53) 0
    ⟨roundHalfEven (a * 2 ^ s) b, 2 ^ s⟩
  else
    let d := Nat.log2 (a / b) - 52
    ⟨roundHalfEven a (b * 2 ^ d) * 2 ^ d, 1⟩

/-- One more than the largest binary exponent of a finite binary64. -/
def f64Exp : Nat := 1024

/-- Results of rounding at or above this are infinite in binary64. -/
@[irreducible] def f64Overflow : Nat := 2 ^ f64Exp

/-- Float multiplication by an integer constant: exact product, then rounded. -/
def F64.mulNat (x : F64) (k : Nat) : F64 := fl (x.num * k) x.den

/-- `int(x)` for a non-negative float. -/
def F64.toInt (x : F64) : Nat := x.num / x.den

/-- core/ExpiryTime.py:37-38, core/SignatureTime.py:36-37: `msec / 1000.0`.  (The conversion of the int `msec` to a
float is exact below 2^53; above that Python's int/float division first rounds the int, which the model includes.) -/
def secondsOfMsec (msec : Nat) : F64 :=
  let m := fl msec 1
  fl m.num (m.den * 1000)

/-- core/Timestamp.py:73-79 `milliseconds`: `int(self.timestamp() * 1000)` -/
def F64.milliseconds (x : F64) : Nat := (x.mulNat 1000).toInt

/-- A timestamp given as a whole number of seconds (a Python float with integral value). -/
def F64.ofNat (n : Nat) : F64 := fl n 1

end Ccnpy
