import Verif.Lemmas.Core
import Verif.Lemmas.Directory
import Verif.Model.Apps

/-!
# Hexadecimal arguments (C81)
-/

namespace Ccnpy

/-- Specification: the hexadecimal digits in order. -/
def Spec.lowerDigits : List Char := ['0', '1', '2', '3', '4', '5', '6', '7', '8', '9', 'a', 'b', 'c', 'd', 'e', 'f']
def Spec.upperDigits : List Char := ['0', '1', '2', '3', '4', '5', '6', '7', '8', '9', 'A', 'B', 'C', 'D', 'E', 'F']

/-- Specification: the character is a digit of that value. -/
def Spec.IsDigit (c : Char) (x : Nat) : Prop := Spec.lowerDigits[x]? = some c ∨ Spec.upperDigits[x]? = some c

/-- Specification: ASCII white space. -/
def Spec.whiteSpace : List Char := [' ', '\t', '\n', '\x0b', '\x0c', '\r']

/-- Specification: the text writes the bytes in hexadecimal, two digits for each byte, with white space anywhere but inside a byte. -/
inductive Spec.HexOf : Text → Bytes → Prop
  | nil : HexOf [] []
  | space {c t b} : c ∈ Spec.whiteSpace → HexOf t b → HexOf (c :: t) b
  | byte {c d x y t b} : Spec.IsDigit c x → Spec.IsDigit d y → HexOf t b → HexOf (c :: d :: t) (UInt8.ofNat (16 * x + y) :: b)

theorem char_of_toNat {c : Char} {n : Nat} (h : c.toNat = n) : c = Char.ofNat n := by
  rw [← h, Char.ofNat_toNat]

theorem hexVal_some {c : Char} {x : Nat} (h : hexVal c = some x) : Spec.IsDigit c x := by
  have key : ∀ (lo hi : Nat), lo ≤ c.toNat → c.toNat ≤ hi → ∃ k, k ≤ hi - lo ∧ c = Char.ofNat (lo + k) := fun lo hi h1 h2 =>
    ⟨c.toNat - lo, by omega, char_of_toNat (by omega)⟩
  unfold hexVal at h
  split at h
  · rename_i hc
    have hx : x = c.toNat - 48 := (Option.some.inj h).symm
    obtain ⟨k, hk, rfl⟩ := key 48 57 hc.1 hc.2
    have : k = 0 ∨ k = 1 ∨ k = 2 ∨ k = 3 ∨ k = 4 ∨ k = 5 ∨ k = 6 ∨ k = 7 ∨ k = 8 ∨ k = 9 := by omega
    subst hx
    clear hc h key
    rcases this with rfl | rfl | rfl | rfl | rfl | rfl | rfl | rfl | rfl | rfl <;> exact .inl (by decide)
  · split at h
    · rename_i hc
      have hx : x = c.toNat - 87 := (Option.some.inj h).symm
      obtain ⟨k, hk, rfl⟩ := key 97 102 hc.1 hc.2
      have : k = 0 ∨ k = 1 ∨ k = 2 ∨ k = 3 ∨ k = 4 ∨ k = 5 := by omega
      subst hx
      rcases this with rfl | rfl | rfl | rfl | rfl | rfl <;> exact .inl (by decide)
    · split at h
      · rename_i hc
        have hx : x = c.toNat - 55 := (Option.some.inj h).symm
        obtain ⟨k, hk, rfl⟩ := key 65 70 hc.1 hc.2
        have : k = 0 ∨ k = 1 ∨ k = 2 ∨ k = 3 ∨ k = 4 ∨ k = 5 := by omega
        subst hx
        rcases this with rfl | rfl | rfl | rfl | rfl | rfl <;> exact .inr (by decide)
      · cases h

theorem hexVal_of_digit {c : Char} {x : Nat} (h : Spec.IsDigit c x) : hexVal c = some x := by
  have hx : x < 16 := by
    rcases h with h | h
    · exact (List.getElem?_eq_some_iff.mp h).1
    · exact (List.getElem?_eq_some_iff.mp h).1
  have : x = 0 ∨ x = 1 ∨ x = 2 ∨ x = 3 ∨ x = 4 ∨ x = 5 ∨ x = 6 ∨ x = 7 ∨ x = 8 ∨ x = 9 ∨ x = 10 ∨ x = 11 ∨ x = 12 ∨ x = 13 ∨ x = 14 ∨
    x = 15 := by omega
  rcases this with rfl | rfl | rfl | rfl | rfl | rfl | rfl | rfl | rfl | rfl | rfl | rfl | rfl | rfl | rfl | rfl <;>
    rcases h with h | h <;> (cases h; decide)

theorem hexSpace_iff (c : Char) : hexSpace c = true ↔ c ∈ Spec.whiteSpace := by
  constructor
  · intro h
    simp only [hexSpace, Bool.or_eq_true, Bool.and_eq_true, decide_eq_true_eq, beq_iff_eq] at h
    rcases h with rfl | ⟨h1, h2⟩
    · decide
    · have hc : c = Char.ofNat c.toNat := char_of_toNat rfl
      have : c.toNat = 9 ∨ c.toNat = 10 ∨ c.toNat = 11 ∨ c.toNat = 12 ∨ c.toNat = 13 := by omega
      rcases this with h | h | h | h | h <;> (rw [h] at hc; subst hc; decide)
  · intro h
    simp only [Spec.whiteSpace, List.mem_cons, List.not_mem_nil, or_false] at h
    rcases h with rfl | rfl | rfl | rfl | rfl | rfl <;> decide

theorem space_not_digit {c : Char} {x : Nat} (hs : c ∈ Spec.whiteSpace) : ¬ Spec.IsDigit c x := fun hd => by
  have := hexVal_of_digit hd
  simp only [Spec.whiteSpace, List.mem_cons, List.not_mem_nil, or_false] at hs
  rcases hs with rfl | rfl | rfl | rfl | rfl | rfl <;> cases this

/-- `bytes.fromhex` as modelled reads exactly the texts of the specification. -/
theorem bytesFromHex_iff (t : Text) (b : Bytes) : bytesFromHex t = .ok b ↔ Spec.HexOf t b := by
  constructor
  · intro h
    induction t using bytesFromHex.induct generalizing b with
    | case1 => cases h; exact .nil
    | case2 c hc => 
      rw [bytesFromHex, if_pos hc] at h
      cases h
      exact .space ((hexSpace_iff c).mp hc) .nil
    | case3 c hc =>
      rw [bytesFromHex, if_neg hc] at h
      cases h
    | case4 c d r hc ih =>
      rw [bytesFromHex, if_pos hc] at h
      exact .space ((hexSpace_iff c).mp hc) (ih _ h)
    | case5 c d r hc x y hx hy ih =>
      rw [bytesFromHex, if_neg hc, hx, hy] at h
      obtain ⟨b', hb, h⟩ := bind_eq_ok.mp h
      cases h
      exact .byte (hexVal_some hy) (hexVal_some hx) (ih _ hb)
    | case6 c d r hc hno =>
      rw [bytesFromHex, if_neg hc] at h
      split at h
      · rename_i x y hx hy
        exact absurd hy (hno x y hx)
      · cases h
  · intro h
    induction h with
    | nil => rfl
    | @space c t b hc _ ih =>
      have hc := (hexSpace_iff c).mpr hc
      cases t with
      | nil =>
        rw [bytesFromHex, if_pos hc]
        exact ih
      | cons d r =>
        rw [bytesFromHex, if_pos hc]
        exact ih
    | @byte c d x y t b hc hd _ ih =>
      have hs : ¬ hexSpace c = true := fun h => space_not_digit ((hexSpace_iff c).mp h) hc
      rw [bytesFromHex, if_neg hs, hexVal_of_digit hc, hexVal_of_digit hd]
      simp only [ih, ok_bind]
      rfl

/-- C81 (hexadecimal arguments): the accepted texts are the hexadecimal ones, with or without a leading `0x`, and mean those bytes. -/
theorem C81_hex (t : Text) (b : Bytes) :
    strToArray t = .ok b ↔ (∃ r, t = '0' :: 'x' :: r ∧ Spec.HexOf r b) ∨ Spec.HexOf t b := by
  unfold strToArray
  split
  · rename_i r
    rw [bytesFromHex_iff]
    constructor
    · exact fun h => .inl ⟨r, rfl, h⟩
    · rintro (⟨r', h, h'⟩ | h)
      · cases h
        exact h'
      · cases h with
        | space hc _ => exact absurd hc (by decide)
        | @byte _ _ x y _ _ _ hd _ =>
          have := hexVal_of_digit hd
          revert this
          simp [show hexVal 'x' = none by decide]
  · rename_i hne
    rw [bytesFromHex_iff]
    constructor
    · exact .inr
    · rintro (⟨r', h, _⟩ | h)
      · exact absurd h (hne r')
      · exact h

theorem hexDigit_isDigit {n : Nat} (h : n < 16) : Spec.IsDigit (hexDigit n) n := by
  have : n = 0 ∨ n = 1 ∨ n = 2 ∨ n = 3 ∨ n = 4 ∨ n = 5 ∨ n = 6 ∨ n = 7 ∨ n = 8 ∨ n = 9 ∨ n = 10 ∨ n = 11 ∨ n = 12 ∨ n = 13 ∨ n = 14 ∨
    n = 15 := by omega
  rcases this with rfl | rfl | rfl | rfl | rfl | rfl | rfl | rfl | rfl | rfl | rfl | rfl | rfl | rfl | rfl | rfl <;> exact .inl (by decide)

theorem hexText_hexOf (b : Bytes) : Spec.HexOf (hexText b) b := by
  induction b with
  | nil => exact .nil
  | cons x b ih =>
    rw [hexText_cons]
    have hx : x.toNat < 256 := x.toNat_lt
    have := Spec.HexOf.byte (hexDigit_isDigit (n := x.toNat / 16) (by omega)) (hexDigit_isDigit (n := x.toNat % 16) (by omega)) ih
    rwa [show 16 * (x.toNat / 16) + x.toNat % 16 = x.toNat by omega, UInt8.ofNat_toNat] at this

/-- C81 (round trip): the key that `bytes.hex()` prints is read back, with and without `0x`. -/
theorem C81_hex_roundtrip (b : Bytes) : strToArray (hexText b) = .ok b ∧ strToArray ('0' :: 'x' :: hexText b) = .ok b :=
  ⟨(C81_hex _ b).mpr (.inr (hexText_hexOf b)), (C81_hex _ b).mpr (.inl ⟨_, rfl, hexText_hexOf b⟩)⟩

/-- C81 (one value): a text means at most one sequence of bytes, and one that is not hexadecimal raises ValueError. -/
theorem C81_hex_errors (t : Text) : (∃ b, strToArray t = .ok b) ∨ strToArray t = .error .valueError := by
  have h : ∀ t, (∃ b, bytesFromHex t = .ok b) ∨ bytesFromHex t = .error .valueError := by
    intro t
    induction t using bytesFromHex.induct with
    | case1 => exact .inl ⟨_, rfl⟩
    | case2 c hc => exact .inl ⟨_, by rw [bytesFromHex, if_pos hc]⟩
    | case3 c hc => exact .inr (by rw [bytesFromHex, if_neg hc])
    | case4 c d r hc ih => rwa [bytesFromHex, if_pos hc]
    | case5 c d r hc x y hx hy ih =>
      rw [bytesFromHex, if_neg hc, hx, hy]
      dsimp only
      rcases ih with ⟨b, hb⟩ | hb
      · exact .inl ⟨_, by rw [hb]; rfl⟩
      · exact .inr (by rw [hb]; rfl)
    | case6 c d r hc hno =>
      rw [bytesFromHex, if_neg hc]
      split
      · rename_i x y hx hy
        exact absurd hy (hno x y hx)
      · exact .inr rfl
  unfold strToArray
  split <;> exact h _

/-- C81 (KDF info): a text with leading `0x` is read as hexadecimal, any other stands for its UTF-8 encoding; either way at most 65535
bytes. -/
theorem C81_kdf_info (t : Text) (b : Bytes) : kdfInfoOfText t = .ok b ↔
    b.length ≤ 0xFFFF ∧ ((∃ r, t = '0' :: 'x' :: r ∧ Spec.HexOf r b) ∨ (¬ ∃ r, t = '0' :: 'x' :: r) ∧ b = utf8Encode t) := by
  have hc : ∀ v : Bytes, construct (octetTlv T_KDF_INFO) v = .ok b ↔ b.length ≤ 0xFFFF ∧ v = b := by
    intro v
    unfold construct octetTlv
    rw [mkTlv_eq]
    by_cases hv : v.length ≤ 0xFFFF
    · rw [if_pos ⟨by decide, hv⟩]
      exact ⟨fun h => by cases h; exact ⟨hv, rfl⟩, fun h => by rw [h.2]; rfl⟩
    · rw [if_neg (fun h => hv h.2)]
      exact ⟨fun h => (by cases h), fun h => (by rw [h.2] at hv; exact absurd h.1 hv)⟩
  unfold kdfInfoOfText
  split
  · rename_i r
    constructor
    · intro h
      obtain ⟨v, hv, h⟩ := bind_eq_ok.mp h
      obtain ⟨h1, rfl⟩ := (hc v).mp h
      exact ⟨h1, .inl ⟨r, rfl, (bytesFromHex_iff _ _).mp hv⟩⟩
    · rintro ⟨h1, ⟨r', h, h'⟩ | ⟨h, _⟩⟩
      · cases h
        rw [(bytesFromHex_iff _ _).mpr h', ok_bind]
        exact (hc b).mpr ⟨h1, rfl⟩
      · exact absurd ⟨r, rfl⟩ h
  · rename_i hne
    rw [hc]
    constructor
    · rintro ⟨h1, h2⟩
      exact ⟨h1, .inr ⟨fun ⟨r, h⟩ => hne r h, h2.symm⟩⟩
    · rintro ⟨h1, ⟨r', h, _⟩ | ⟨_, h⟩⟩
      · exact absurd h (hne r')
      · exact ⟨h1, h.symm⟩

/-- Upper and lower case, a prefix and white space between bytes; and what is refused. -/
example : strToArray ['0', 'x', 'A', 'b', ' ', '0', '1', '\n'] = .ok [0xab, 1] ∧ strToArray ['a', ' ', 'b'] = .error .valueError ∧
    strToArray ['0', 'X', 'a', 'b'] = .error .valueError ∧ strToArray ['a', 'b', 'c'] = .error .valueError ∧ strToArray [] = .ok [] ∧
    kdfInfoOfText ['0', 'x', 'f', 'F'] = .ok [255] ∧ kdfInfoOfText ['f', 'F'] = .ok [102, 70] := by decide +kernel

end Ccnpy
