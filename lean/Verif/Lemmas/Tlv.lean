import Verif.Model.Tlv

/-!
# Helper lemmas about TLVs and the generic TLV loop
-/

namespace Ccnpy

@[simp] theorem ok_bind {ε α β : Type} (a : α) (f : α → Except ε β) : (Except.ok a >>= f) = f a := rfl
@[simp] theorem error_bind {ε α β : Type} (e : ε) (f : α → Except ε β) : ((Except.error e : Except ε α) >>= f) = .error e := rfl
@[simp] theorem pure_eq_ok {ε α : Type} (a : α) : (pure a : Except ε α) = .ok a := rfl

theorem bind_eq_ok {ε α β : Type} {x : Except ε α} {f : α → Except ε β} {b : β} :
    (x >>= f) = .ok b ↔ ∃ a, x = .ok a ∧ f a = .ok b := by
  cases x <;> simp

theorem bind_eq_error {ε α β : Type} {x : Except ε α} {f : α → Except ε β} {e : ε} :
    (x >>= f) = .error e ↔ x = .error e ∨ ∃ a, x = .ok a ∧ f a = .error e := by
  cases x <;> simp

/-- Total byte encoding used by the proofs. -/
def be16 (n : Nat) : Bytes := [UInt8.ofNat (n / 256), UInt8.ofNat (n % 256)]

@[simp] theorem be16_length (n : Nat) : (be16 n).length = 2 := rfl

/-- Representable TLVs. -/
def Tlv.Valid (t : Tlv) : Prop := t.type ≤ 0xFFFF ∧ t.value.length ≤ 0xFFFF

instance (t : Tlv) : Decidable t.Valid := inferInstanceAs (Decidable (_ ∧ _))

/-- Total serialization used by the proofs. -/
def Tlv.bytes (t : Tlv) : Bytes := be16 t.type ++ be16 t.length ++ t.value

@[simp] theorem Tlv.bytes_length (t : Tlv) : t.bytes.length = t.len := by
  simp [Tlv.bytes, Tlv.len, Tlv.length]; omega

theorem byte_nat (n : Nat) (h : n < 256) : byte (n : Int) = .ok (UInt8.ofNat n) := by
  have : (n : Int) ≤ 255 := by omega
  simp [byte, this]

theorem byte_big (n : Int) (h : 256 ≤ n) : byte n = .error .overflowError := by
  have : ¬ (0 ≤ n ∧ n ≤ 255) := by omega
  simp only [byte, this, if_false]

theorem byte_neg (n : Int) (h : n < 0) : byte n = .error .overflowError := by
  have : ¬ (0 ≤ n ∧ n ≤ 255) := by omega
  simp only [byte, this, if_false]

theorem int_shr (n k : Nat) : ((n : Int) >>> k) = ((n / 2 ^ k : Nat) : Int) := by
  rw [Int.shiftRight_eq_div_pow]
  norm_cast

theorem maskFF_nat (n : Nat) : maskFF (n : Int) = ((n % 256 : Nat) : Int) := by
  simp [maskFF]

@[simp] theorem byteArray_nil : byteArray [] = .ok [] := rfl
@[simp] theorem byteArray_cons (x : Int) (l : List Int) :
    byteArray (x :: l) = (do let b ← byte x; let r ← byteArray l; return b :: r) := by
  simp [byteArray, List.mapM_cons]

theorem tlvEncode_eq (n : Nat) :
    tlvEncode n = if n ≤ 0xFFFF then .ok (be16 n) else .error .overflowError := by
  unfold tlvEncode
  rw [int_shr, maskFF_nat]
  split
  · rename_i h
    have h1 : n / 2 ^ 8 < 256 := by omega
    have h2 : n % 256 < 256 := by omega
    simp only [byteArray_cons, byteArray_nil, byte_nat _ h1, byte_nat _ h2, be16, ok_bind, pure_eq_ok]
  · rename_i h
    have : (256 : Int) ≤ ((n / 2 ^ 8 : Nat) : Int) := by omega
    simp only [byteArray_cons, byte_big _ this, error_bind]

theorem Tlv.serialize_eq (t : Tlv) :
    t.serialize = if t.Valid then .ok t.bytes else .error .overflowError := by
  unfold Tlv.serialize Tlv.Valid
  rw [tlvEncode_eq, tlvEncode_eq]
  by_cases h1 : t.type ≤ 0xFFFF <;> by_cases h2 : t.value.length ≤ 0xFFFF <;>
    simp [h1, h2, Tlv.length, Tlv.bytes]

theorem mkTlv_eq (type : Nat) (v : Bytes) :
    mkTlv type v = if type ≤ 0xFFFF ∧ v.length ≤ 0xFFFF then .ok ⟨type, v⟩ else .error .overflowError := by
  unfold mkTlv
  rw [Tlv.serialize_eq]
  by_cases h : type ≤ 0xFFFF ∧ v.length ≤ 0xFFFF
  · simp [Tlv.Valid, h]
  · simp [Tlv.Valid, h]

theorem mkTlv_ok {type : Nat} {v : Bytes} {t : Tlv} (h : mkTlv type v = .ok t) :
    t = ⟨type, v⟩ ∧ t.Valid := by
  rw [mkTlv_eq] at h
  split at h
  · cases h; rename_i h; exact ⟨rfl, h⟩
  · cases h

theorem mkTlv_of_valid {t : Tlv} (h : t.Valid) : mkTlv t.type t.value = .ok t := by
  rw [mkTlv_eq]; simp only [Tlv.Valid] at h; simp [h]

theorem shiftLeft_or (n : Nat) (b : UInt8) : (n <<< 8) ||| b.toNat = 256 * n + b.toNat := by
  have hb : b.toNat < 2 ^ 8 := b.toNat_lt
  rw [← Nat.shiftLeft_add_eq_or_of_lt hb, Nat.shiftLeft_eq]
  omega

theorem foldl_num (a : Bytes) (n : Nat) :
    a.foldl (fun n b => (n <<< 8) ||| b.toNat) n = n * 256 ^ a.length + arrayToNumber a := by
  unfold arrayToNumber
  induction a generalizing n with
  | nil => simp
  | cons b l ih =>
    simp only [List.foldl_cons, List.length_cons]
    rw [ih, ih ((0 <<< 8) ||| b.toNat), shiftLeft_or, shiftLeft_or, Nat.pow_succ]
    simp only [Nat.mul_zero, Nat.zero_add]
    rw [Nat.add_mul, Nat.add_assoc, Nat.mul_comm 256 n, Nat.mul_assoc, Nat.mul_comm 256]

@[simp] theorem arrayToNumber_nil : arrayToNumber [] = 0 := rfl

theorem arrayToNumber_cons (b : UInt8) (l : Bytes) :
    arrayToNumber (b :: l) = b.toNat * 256 ^ l.length + arrayToNumber l := by
  rw [arrayToNumber, List.foldl_cons, foldl_num, shiftLeft_or]
  simp

theorem arrayToNumber_lt (l : Bytes) : arrayToNumber l < 256 ^ l.length := by
  induction l with
  | nil => simp
  | cons b l ih =>
    rw [arrayToNumber_cons, List.length_cons, Nat.pow_succ]
    have hb : b.toNat < 256 := b.toNat_lt
    have : b.toNat * 256 ^ l.length + 256 ^ l.length ≤ 256 ^ l.length * 256 := by
      have : b.toNat * 256 ^ l.length + 256 ^ l.length = (b.toNat + 1) * 256 ^ l.length := by
        rw [Nat.add_mul, Nat.one_mul]
      rw [this, Nat.mul_comm]
      exact Nat.mul_le_mul_left _ hb
    omega

theorem arrayToNumber_inj {a b : Bytes} (hl : a.length = b.length) (h : arrayToNumber a = arrayToNumber b) :
    a = b := by
  induction a generalizing b with
  | nil => cases b with | nil => rfl | cons => simp at hl
  | cons x a ih =>
    cases b with
    | nil => simp at hl
    | cons y b =>
      simp only [List.length_cons, Nat.add_right_cancel_iff] at hl
      rw [arrayToNumber_cons, arrayToNumber_cons, hl] at h
      have ha := arrayToNumber_lt a
      have hb := arrayToNumber_lt b
      rw [hl] at ha
      generalize 256 ^ b.length = P at *
      have hP : 0 < P := by omega
      have hxy : x.toNat = y.toNat := by
        have h1 : (x.toNat * P + arrayToNumber a) / P = x.toNat := by
          rw [Nat.mul_comm, Nat.mul_add_div hP, Nat.div_eq_of_lt ha]; simp
        have h2 : (y.toNat * P + arrayToNumber b) / P = y.toNat := by
          rw [Nat.mul_comm, Nat.mul_add_div hP, Nat.div_eq_of_lt hb]; simp
        rw [← h1, ← h2, h]
      have : arrayToNumber a = arrayToNumber b := by rw [hxy] at h; omega
      rw [ih hl this, UInt8.toNat_inj.mp hxy]

@[simp] theorem toNat_ofNat (n : Nat) : (UInt8.ofNat n).toNat = n % 256 := by simp

theorem arrayToNumber_be16 (n : Nat) (h : n ≤ 0xFFFF) : arrayToNumber (be16 n) = n := by
  simp only [be16, arrayToNumber_cons, arrayToNumber_nil, toNat_ofNat, List.length_cons, List.length_nil]
  omega

theorem be16_arrayToNumber (a : Bytes) (h : a.length = 2) : be16 (arrayToNumber a) = a := by
  have hlt := arrayToNumber_lt a
  rw [h] at hlt
  apply arrayToNumber_inj (by simp [h])
  exact arrayToNumber_be16 _ (by omega)

theorem Tlv.deserialize_bytes (t : Tlv) (h : t.Valid) (rest : Bytes) :
    Tlv.deserialize (t.bytes ++ rest) = .ok t := by
  have h1 : (t.bytes ++ rest).take 2 = be16 t.type := by
    simp [Tlv.bytes, be16, List.take]
  have h2 : ((t.bytes ++ rest).drop 2).take 2 = be16 t.length := by
    simp [Tlv.bytes, be16, List.take]
  have h3 : ((t.bytes ++ rest).drop 4).take t.length = t.value := by
    simp [Tlv.bytes, be16, Tlv.length]
  unfold Tlv.deserialize
  have h4 : ¬ (t.bytes ++ rest).length < 4 := by simp [Tlv.len]; omega
  simp only [h4, if_false]
  rw [h1, h2, arrayToNumber_be16 _ h.1, arrayToNumber_be16 t.length h.2, h3]
  simp only [Tlv.length, ne_eq, not_true_eq_false, if_false]
  exact mkTlv_of_valid h

theorem Tlv.deserialize_inv {buf : Bytes} {t : Tlv} (h : Tlv.deserialize buf = .ok t) :
    t.Valid ∧ buf = t.bytes ++ buf.drop t.len := by
  unfold Tlv.deserialize at h
  split at h
  · cases h
  · rename_i hlen
    simp only at h
    split at h
    · cases h
    · rename_i hv
      obtain ⟨ht, hvalid⟩ := mkTlv_ok h
      refine ⟨hvalid, ?_⟩
      simp only [ne_eq, Decidable.not_not] at hv
      have hl2 : (buf.take 2).length = 2 := by simp; omega
      have hl3 : ((buf.drop 2).take 2).length = 2 := by simp; omega
      subst ht
      simp only [Tlv.bytes, Tlv.len, Tlv.length]
      rw [← hv, be16_arrayToNumber _ hl2, be16_arrayToNumber _ hl3]
      conv => lhs; rw [← List.take_append_drop 2 buf, ← List.take_append_drop 2 (buf.drop 2)]
      rw [List.append_assoc, List.append_assoc]
      congr 2
      rw [List.drop_drop]
      rw [show 2 + 2 = 4 from rfl, ← List.drop_drop, List.take_append_drop]

/-- Concatenated serialization of a list of TLVs. -/
def bytesAll (l : List Tlv) : Bytes := (l.map Tlv.bytes).flatten

@[simp] theorem bytesAll_nil : bytesAll [] = [] := rfl
@[simp] theorem bytesAll_cons (t : Tlv) (l : List Tlv) : bytesAll (t :: l) = t.bytes ++ bytesAll l := rfl
@[simp] theorem bytesAll_append (l m : List Tlv) : bytesAll (l ++ m) = bytesAll l ++ bytesAll m := by
  simp [bytesAll]

theorem tlvLoopAux_fuel {σ : Type} (step : σ → Tlv → Py σ) (f g : Nat) (buf : Bytes) (s : σ)
    (hf : buf.length ≤ f) (hg : buf.length ≤ g) : tlvLoopAux step f buf s = tlvLoopAux step g buf s := by
  induction f generalizing g buf s with
  | zero =>
    have : buf = [] := List.length_eq_zero_iff.mp (by omega)
    subst this
    unfold tlvLoopAux; simp
  | succ f ih =>
    cases g with
    | zero =>
      have : buf = [] := List.length_eq_zero_iff.mp (by omega)
      subst this
      unfold tlvLoopAux; simp
    | succ g =>
      unfold tlvLoopAux
      split
      · rfl
      · simp only
        cases hd : Tlv.deserialize buf with
        | error e => rfl
        | ok t =>
          simp only
          cases hs : step s t with
          | error e => rfl
          | ok s' =>
            have : 4 ≤ t.len := by simp [Tlv.len]
            simp only
            exact ih _ _ _ (by simp; omega) (by simp; omega)

@[simp] theorem tlvLoop_nil {σ : Type} (step : σ → Tlv → Py σ) (s : σ) : tlvLoop step [] s = .ok s := by
  simp [tlvLoop, tlvLoopAux]

theorem tlvLoop_unfold {σ : Type} (step : σ → Tlv → Py σ) (buf : Bytes) (s : σ) (h : buf ≠ []) :
    tlvLoop step buf s = (do
      let t ← Tlv.deserialize buf
      let s' ← step s t
      tlvLoop step (buf.drop t.len) s') := by
  have hl : buf.length ≠ 0 := by simpa using h
  unfold tlvLoop
  obtain ⟨n, hn⟩ := Nat.exists_eq_succ_of_ne_zero hl
  rw [hn]
  conv => lhs; unfold tlvLoopAux
  simp only [hl, if_false]
  cases hd : Tlv.deserialize buf with
  | error e => rfl
  | ok t =>
    simp only [ok_bind]
    cases hs : step s t with
    | error e => rfl
    | ok s' =>
      have : 4 ≤ t.len := by simp [Tlv.len]
      simp only [ok_bind]
      exact tlvLoopAux_fuel _ _ _ _ _ (by simp; omega) (by simp)

theorem tlvLoop_append {σ : Type} (step : σ → Tlv → Py σ) (t : Tlv) (ht : t.Valid) (rest : Bytes) (s : σ) :
    tlvLoop step (t.bytes ++ rest) s = (do let s' ← step s t; tlvLoop step rest s') := by
  have hne : t.bytes ++ rest ≠ [] := by
    intro h
    have := congrArg List.length h
    simp [Tlv.len] at this
  rw [tlvLoop_unfold _ _ _ hne, Tlv.deserialize_bytes t ht]
  simp only [ok_bind]
  rw [show (t.bytes ++ rest).drop t.len = rest by rw [← Tlv.bytes_length]; simp]

theorem tlvLoop_bytesAll {σ : Type} (step : σ → Tlv → Py σ) (l : List Tlv) (hl : ∀ t ∈ l, t.Valid) (s : σ) :
    tlvLoop step (bytesAll l) s = l.foldlM step s := by
  induction l generalizing s with
  | nil => simp
  | cons t l ih =>
    rw [bytesAll_cons, tlvLoop_append _ _ (hl t (by simp)), List.foldlM_cons]
    congr; funext s'
    exact ih (fun t ht => hl t (by simp [ht])) s'

/-- A loop that accepts has read a list of complete TLVs covering the whole buffer. -/
theorem tlvLoop_inv {σ : Type} (step : σ → Tlv → Py σ) (buf : Bytes) (s s' : σ)
    (h : tlvLoop step buf s = .ok s') :
    ∃ l, (∀ t ∈ l, t.Valid) ∧ buf = bytesAll l ∧ l.foldlM step s = .ok s' := by
  induction hn : buf.length using Nat.strongRecOn generalizing buf s with
  | _ n ih =>
    by_cases hb : buf = []
    · subst hb
      simp at h
      exact ⟨[], by simp, by simp, by simp [h]⟩
    · rw [tlvLoop_unfold _ _ _ hb] at h
      obtain ⟨t, ht, h⟩ := bind_eq_ok.mp h
      obtain ⟨s1, hs1, h⟩ := bind_eq_ok.mp h
      obtain ⟨hv, hbuf⟩ := Tlv.deserialize_inv ht
      have : 4 ≤ t.len := by simp [Tlv.len]
      have hpos : 0 < buf.length := List.length_pos_iff.mpr hb
      obtain ⟨l, hl, hdrop, hfold⟩ := ih (buf.drop t.len).length (by simp; omega) _ _ h rfl
      refine ⟨t :: l, by simpa using ⟨hv, hl⟩, ?_, ?_⟩
      · rw [bytesAll_cons, ← hdrop]; exact hbuf
      · rw [List.foldlM_cons, hs1]; exact hfold

theorem Tlv.deserialize_error {buf : Bytes} {e : PyErr} (h : Tlv.deserialize buf = .error e) : e = .parseError := by
  unfold Tlv.deserialize at h
  split at h
  · cases h; rfl
  · rename_i hlen
    simp only at h
    split at h
    · cases h; rfl
    · rename_i hv
      rw [mkTlv_eq] at h
      have h1 := arrayToNumber_lt (buf.take 2)
      have h2 := arrayToNumber_lt ((buf.drop 2).take 2)
      have hl2 : (buf.take 2).length = 2 := by simp; omega
      have hl3 : ((buf.drop 2).take 2).length = 2 := by simp; omega
      rw [hl2] at h1
      rw [hl3] at h2
      simp only [ne_eq, Decidable.not_not] at hv
      rw [← hv] at h
      rw [if_pos (by omega)] at h
      cases h

/-- If the loop body never reports a marker, neither does the loop. -/
theorem tlvLoop_ne_marker {σ : Type} (step : σ → Tlv → Py σ) (m : PyErr) (hm : m ≠ .parseError)
    (hstep : ∀ s t, step s t ≠ .error m) (buf : Bytes) (s : σ) : tlvLoop step buf s ≠ .error m := by
  induction hn : buf.length using Nat.strongRecOn generalizing buf s with
  | _ n ih =>
    by_cases hb : buf = []
    · subst hb; simp
    · rw [tlvLoop_unfold _ _ _ hb]
      intro h
      rcases bind_eq_error.mp h with h | ⟨t, ht, h⟩
      · exact hm (Tlv.deserialize_error h)
      · rcases bind_eq_error.mp h with h | ⟨s1, hs1, h⟩
        · exact hstep _ _ h
        · have : 4 ≤ t.len := by simp [Tlv.len]
          have hpos : 0 < buf.length := List.length_pos_iff.mpr hb
          exact ih (buf.drop t.len).length (by simp; omega) _ _ rfl h

end Ccnpy
