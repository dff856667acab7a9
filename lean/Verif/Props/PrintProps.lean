import Verif.Props.CliProps

/-!
# What the manifest reader prints (C92)

Without `--output` the payloads are decoded one by one, and bytes that cannot be decoded are dropped.
-/

namespace Ccnpy

/-! ## The specification -/

/-- Where the pieces end, the first one starting at `p`. -/
def Spec.ends : Nat → List Bytes → List Nat
  | _, [] => []
  | p, w :: ws => (p + w.length) :: Spec.ends (p + w.length) ws

/-- The characters of a text, encoded from position `p` on, that have no cut inside. -/
def Spec.uncut (cuts : List Nat) : Nat → Text → Text
  | _, [] => []
  | p, c :: t =>
    if ∃ x ∈ cuts, p < x ∧ x < p + c.utf8Size then Spec.uncut cuts (p + c.utf8Size) t
    else c :: Spec.uncut cuts (p + c.utf8Size) t

/-! ## Decoding one piece -/

theorem utf8IgnoreLoop_fuel {n : Nat} {b : Bytes} (h : b.length ≤ n) : utf8IgnoreLoop n b = stdOutWrite b := by
  suffices ∀ n m (b : Bytes), b.length ≤ n → b.length ≤ m → utf8IgnoreLoop n b = utf8IgnoreLoop m b from this _ _ _ h (Nat.le_refl _)
  intro n
  induction n with
  | zero =>
    intro m b hn _
    cases b with
    | nil => cases m <;> rfl
    | cons _ _ => simp at hn
  | succ n ih =>
    intro m b hn hm
    cases b with
    | nil => cases m <;> rfl
    | cons x b =>
      cases m with
      | zero => simp at hm
      | succ m =>
        simp only [List.length_cons] at hn hm
        unfold utf8IgnoreLoop
        split
        · exact ih m b (by omega) (by omega)
        · next c hc =>
          have := c.utf8Size_pos
          rw [ih m _ (by simp; omega) (by simp; omega)]

theorem stdOutWrite_char (c : Char) (b : Bytes) : stdOutWrite (String.utf8EncodeChar c ++ b) = c :: stdOutWrite b := by
  obtain ⟨x, xs, hx⟩ := List.exists_cons_of_ne_nil (utf8EncodeChar_ne_nil c)
  have hd : ByteArray.utf8DecodeChar? (String.utf8EncodeChar c ++ b).toByteArray 0 = some c := by
    rw [List.toByteArray_append]
    exact ByteArray.utf8DecodeChar?_utf8EncodeChar_append
  have hl := String.length_utf8EncodeChar c
  have e : String.utf8EncodeChar c ++ b = x :: (xs ++ b) := by rw [hx]; rfl
  conv => lhs; unfold stdOutWrite; rw [e, List.length_cons]
  unfold utf8IgnoreLoop
  rw [← e, hd]
  simp only
  rw [← hl, List.drop_left, utf8IgnoreLoop_fuel (by simp)]

theorem stdOutWrite_text (t : Text) (b : Bytes) : stdOutWrite (utf8Encode t ++ b) = t ++ stdOutWrite b := by
  induction t with
  | nil => rfl
  | cons c t ih =>
    show stdOutWrite ((String.utf8EncodeChar c ++ utf8Encode t) ++ b) = _
    rw [List.append_assoc, stdOutWrite_char, ih]
    rfl

/-- A byte that starts no character is dropped. -/
theorem stdOutWrite_drop {x : UInt8} (hx : ¬ x.IsUTF8FirstByte) (b : Bytes) : stdOutWrite (x :: b) = stdOutWrite b := by
  have e : stdOutWrite (x :: b) = (match ByteArray.utf8DecodeChar? (x :: b).toByteArray 0 with
      | none => stdOutWrite b
      | some c => c :: utf8IgnoreLoop b.length ((x :: b).drop c.utf8Size)) := rfl
  rw [e]
  split
  · rfl
  · next c hc =>
    have h := ByteArray.isUTF8FirstByte_of_isSome_utf8DecodeChar? (b := (x :: b).toByteArray) (i := 0) (by rw [hc]; rfl)
    rw [List.getElem_toByteArray] at h
    exact absurd h hx

theorem stdOutWrite_rest {p : Bytes} (hp : ∀ x ∈ p, ¬ x.IsUTF8FirstByte) (b : Bytes) : stdOutWrite (p ++ b) = stdOutWrite b := by
  induction p with
  | nil => rfl
  | cons x p ih => rw [List.cons_append, stdOutWrite_drop (hp x (by simp)), ih (fun y hy => hp y (by simp [hy]))]

theorem encodeChar_tail (c : Char) {k : Nat} (hk : 0 < k) : ∀ x ∈ (String.utf8EncodeChar c).drop k, ¬ x.IsUTF8FirstByte := by
  intro x hx
  obtain ⟨i, hi, rfl⟩ := List.mem_iff_getElem.mp hx
  rw [List.getElem_drop]
  intro h
  have := UInt8.isUTF8FirstByte_getElem_utf8EncodeChar.mp h
  omega

/-- The start of a character that is cut is dropped. -/
theorem stdOutWrite_start (c : Char) {k : Nat} (hk : k < c.utf8Size) : stdOutWrite ((String.utf8EncodeChar c).take k) = [] := by
  have hl := String.length_utf8EncodeChar c
  cases k with
  | zero => rfl
  | succ k =>
    obtain ⟨x, xs, hx⟩ := List.exists_cons_of_ne_nil (utf8EncodeChar_ne_nil c)
    have ht : ∀ y ∈ xs.take k, ¬ y.IsUTF8FirstByte := by
      intro y hy
      refine encodeChar_tail c (k := 1) (by omega) y ?_
      rw [hx]
      exact List.mem_of_mem_take hy
    have hno : ByteArray.utf8DecodeChar? ((String.utf8EncodeChar c).take (k + 1)).toByteArray 0 = none := by
      cases hd : ByteArray.utf8DecodeChar? ((String.utf8EncodeChar c).take (k + 1)).toByteArray 0 with
      | none => rfl
      | some d =>
        have h1 := ByteArray.utf8DecodeChar?_append_eq_some hd ((String.utf8EncodeChar c).drop (k + 1)).toByteArray
        rw [← List.toByteArray_append, List.take_append_drop] at h1
        have h2 : ByteArray.utf8DecodeChar? (String.utf8EncodeChar c ++ []).toByteArray 0 = some c := by
          rw [List.toByteArray_append]
          exact ByteArray.utf8DecodeChar?_utf8EncodeChar_append
        rw [List.append_nil, h1] at h2
        cases h2
        have h3 := ByteArray.le_size_of_utf8DecodeChar?_eq_some hd
        simp at h3
        omega
    rw [hx] at hno ⊢
    rw [List.take_succ_cons] at hno ⊢
    conv => lhs; unfold stdOutWrite; rw [List.length_cons]
    unfold utf8IgnoreLoop
    rw [hno]
    simp only
    rw [utf8IgnoreLoop_fuel (Nat.le_refl _)]
    have := stdOutWrite_rest ht []
    rwa [List.append_nil] at this

/-! ## Decoding all the pieces -/

theorem utf8Encode_append (t u : Text) : utf8Encode (t ++ u) = utf8Encode t ++ utf8Encode u := by
  simp [utf8Encode]

theorem uncut_append (cuts : List Nat) (p : Nat) (t u : Text) :
    Spec.uncut cuts p (t ++ u) = Spec.uncut cuts p t ++ Spec.uncut cuts (p + (utf8Encode t).length) u := by
  induction t generalizing p with
  | nil => rfl
  | cons c t ih =>
    have e : (utf8Encode (c :: t)).length = c.utf8Size + (utf8Encode t).length := by
      show (String.utf8EncodeChar c ++ utf8Encode t).length = _
      rw [List.length_append, String.length_utf8EncodeChar]
    rw [List.cons_append, e, ← Nat.add_assoc]
    have hu : ∀ t, Spec.uncut cuts p (c :: t) = if ∃ x ∈ cuts, p < x ∧ x < p + c.utf8Size then Spec.uncut cuts (p + c.utf8Size) t
      else c :: Spec.uncut cuts (p + c.utf8Size) t := fun _ => rfl
    rw [hu, hu, ih]
    split <;> rfl

/-- Cuts before or at the start do not matter. -/
theorem uncut_before {cuts : List Nat} {x p : Nat} (h : x ≤ p) (t : Text) : Spec.uncut (x :: cuts) p t = Spec.uncut cuts p t := by
  induction t generalizing p with
  | nil => rfl
  | cons c t ih =>
    unfold Spec.uncut
    rw [ih (by omega)]
    have : (∃ y ∈ x :: cuts, p < y ∧ y < p + c.utf8Size) ↔ ∃ y ∈ cuts, p < y ∧ y < p + c.utf8Size := by
      simp only [List.mem_cons]
      constructor
      · rintro ⟨y, rfl | hy, h1, h2⟩
        · omega
        · exact ⟨y, hy, h1, h2⟩
      · rintro ⟨y, hy, h⟩
        exact ⟨y, .inr hy, h⟩
    simp only [this]

/-- A text that ends before the first cut is not cut. -/
theorem uncut_all {cuts : List Nat} {p : Nat} {t : Text} (h : ∀ x ∈ cuts, p + (utf8Encode t).length ≤ x) :
    Spec.uncut cuts p t = t := by
  induction t generalizing p with
  | nil => rfl
  | cons c t ih =>
    have e : (utf8Encode (c :: t)).length = c.utf8Size + (utf8Encode t).length := by
      show (String.utf8EncodeChar c ++ utf8Encode t).length = _
      rw [List.length_append, String.length_utf8EncodeChar]
    rw [e] at h
    unfold Spec.uncut
    rw [if_neg, ih (fun x hx => by have := h x hx; omega)]
    rintro ⟨x, hx, h1, h2⟩
    have := h x hx
    omega

theorem ends_le {p : Nat} {ws : List Bytes} : ∀ x ∈ Spec.ends p ws, p ≤ x := by
  induction ws generalizing p with
  | nil => intro x hx; cases hx
  | cons w ws ih =>
    intro x hx
    rcases List.mem_cons.mp hx with rfl | hx
    · omega
    · have := ih x hx
      omega

/-- The first `n` bytes of an encoded text hold whole characters and perhaps the start of one that is cut. -/
theorem split_text (t : Text) (n : Nat) (h : n ≤ (utf8Encode t).length) :
    ∃ t1 t2 : Text, t = t1 ++ t2 ∧ ((utf8Encode t1).length = n ∨
      ∃ c t3, t2 = c :: t3 ∧ (utf8Encode t1).length < n ∧ n < (utf8Encode t1).length + c.utf8Size) := by
  induction t generalizing n with
  | nil => exact ⟨[], [], rfl, .inl (by simp [utf8Encode] at h ⊢; omega)⟩
  | cons c t ih =>
    have e : ∀ t : Text, (utf8Encode (c :: t)).length = c.utf8Size + (utf8Encode t).length := fun t => by
      show (String.utf8EncodeChar c ++ utf8Encode t).length = _
      rw [List.length_append, String.length_utf8EncodeChar]
    rw [e] at h
    by_cases h0 : n = 0
    · exact ⟨[], c :: t, rfl, .inl (by rw [h0]; rfl)⟩
    by_cases h1 : n < c.utf8Size
    · exact ⟨[], c :: t, rfl, .inr ⟨c, t, rfl, by show 0 < n; omega, by show n < 0 + _; omega⟩⟩
    · obtain ⟨t1, t2, rfl, h2⟩ := ih (n - c.utf8Size) (by omega)
      refine ⟨c :: t1, t2, rfl, ?_⟩
      rw [e]
      rcases h2 with h2 | ⟨d, t3, rfl, h3, h4⟩
      · exact .inl (by omega)
      · exact .inr ⟨d, t3, rfl, by omega, by omega⟩

theorem printed (pieces : List Bytes) : ∀ (pre : Bytes) (t : Text) (p : Nat), (∀ x ∈ pre, ¬ x.IsUTF8FirstByte) →
    pieces.flatten = pre ++ utf8Encode t → stdOut pieces = Spec.uncut (Spec.ends p pieces) (p + pre.length) t := by
  induction pieces with
  | nil =>
    intro pre t p _ h
    obtain ⟨rfl, ht⟩ : pre = [] ∧ utf8Encode t = [] := List.append_eq_nil_iff.mp h.symm
    cases t with
    | nil => rfl
    | cons c t =>
      exact absurd (List.append_eq_nil_iff.mp (show String.utf8EncodeChar c ++ utf8Encode t = [] from ht)).1 (utf8EncodeChar_ne_nil c)
  | cons w ws ih =>
    intro pre t p hpre h
    have hout : stdOut (w :: ws) = stdOutWrite w ++ stdOut ws := rfl
    rw [hout]
    rw [List.flatten_cons] at h
    show _ = Spec.uncut ((p + w.length) :: Spec.ends (p + w.length) ws) _ _
    by_cases hw : w.length ≤ pre.length
    · -- the piece is inside a character
      have h1 : w = pre.take w.length := by
        have := congrArg (List.take w.length) h
        rwa [List.take_left, List.take_append_of_le_length hw] at this
      have h2 : ws.flatten = pre.drop w.length ++ utf8Encode t := by
        have := congrArg (List.drop w.length) h
        rwa [List.drop_left, List.drop_append_of_le_length hw] at this
      have h3 : stdOutWrite w = [] := by
        have := stdOutWrite_rest (p := w) (fun x hx => hpre x (List.mem_of_mem_take (by rw [← h1]; exact hx))) []
        rwa [List.append_nil] at this
      rw [h3, List.nil_append, uncut_before (by omega), ih _ t (p + w.length) (fun x hx => hpre x (List.mem_of_mem_drop hx)) h2]
      simp only [List.length_drop]
      rw [show p + w.length + (pre.length - w.length) = p + pre.length by omega]
    · obtain ⟨w', rfl⟩ : ∃ w', w = pre ++ w' := by
        refine ⟨w.drop pre.length, ?_⟩
        have := congrArg (List.take pre.length) h
        rw [List.take_left, List.take_append_of_le_length (by omega)] at this
        conv => lhs; rw [← List.take_append_drop pre.length w]
        rw [this]
      rw [List.append_assoc] at h
      have h := List.append_cancel_left h
      rw [stdOutWrite_rest hpre]
      obtain ⟨t1, t2, rfl, hc⟩ := split_text t w'.length (by rw [← h]; simp)
      rw [utf8Encode_append] at h
      rw [uncut_append, List.length_append]
      rw [show Spec.uncut ((p + (pre.length + w'.length)) :: Spec.ends (p + (pre.length + w'.length)) ws) (p + pre.length) t1 = t1 from
        uncut_all (by
          intro x hx
          have : p + (pre.length + w'.length) ≤ x := by
            rcases List.mem_cons.mp hx with rfl | hx
            · exact Nat.le_refl _
            · exact ends_le x hx
          omega)]
      rcases hc with hc | ⟨c, t3, rfl, hc1, hc2⟩
      · -- the piece ends where a character ends
        obtain ⟨rfl, hws⟩ := List.append_inj h hc.symm
        rw [uncut_before (by omega), ih [] t2 (p + (pre.length + (utf8Encode t1).length)) (by simp) hws]
        have := stdOutWrite_text t1 []
        rw [List.append_nil] at this
        rw [this]
        simp only [stdOutWrite, utf8IgnoreLoop, List.length_nil, List.append_nil, Nat.add_zero, Nat.add_assoc]
      · -- the piece ends inside the character `c`
        obtain ⟨k, hk⟩ : ∃ k, w'.length = (utf8Encode t1).length + k := ⟨_, (Nat.add_sub_cancel' (Nat.le_of_lt hc1)).symm⟩
        have e : utf8Encode (c :: t3) = String.utf8EncodeChar c ++ utf8Encode t3 := rfl
        have hcl := String.length_utf8EncodeChar c
        rw [e, ← List.append_assoc] at h
        have h1 : w' = utf8Encode t1 ++ (String.utf8EncodeChar c).take k := by
          have := congrArg (List.take w'.length) h
          rw [List.take_left, hk, List.take_append_of_le_length (by simp; omega), List.take_length_add_append] at this
          exact this
        have h2 : ws.flatten = (String.utf8EncodeChar c).drop k ++ utf8Encode t3 := by
          have := congrArg (List.drop w'.length) h
          rw [List.drop_left, hk, List.drop_append_of_le_length (by simp; omega), List.drop_length_add_append] at this
          exact this
        have h3 : stdOutWrite w' = t1 := by
          rw [h1, stdOutWrite_text, stdOutWrite_start c (by omega), List.append_nil]
        rw [h3]
        congr 1
        rw [show Spec.uncut ((p + (pre.length + w'.length)) :: Spec.ends (p + (pre.length + w'.length)) ws)
            (p + pre.length + (utf8Encode t1).length) (c :: t3) =
            Spec.uncut ((p + (pre.length + w'.length)) :: Spec.ends (p + (pre.length + w'.length)) ws)
            (p + pre.length + (utf8Encode t1).length + c.utf8Size) t3 from if_pos ⟨_, List.mem_cons_self, by omega, by omega⟩]
        rw [uncut_before (by omega), ih _ t3 (p + (pre.length + w'.length)) (encodeChar_tail c (by omega)) h2]
        simp only [List.length_drop, hcl]
        rw [show p + (pre.length + w'.length) + (c.utf8Size - k) = p + pre.length + (utf8Encode t1).length + c.utf8Size by omega]

/-- C92: whatever the pieces in which a text arrives, the characters that are printed are those that lie in one piece. -/
theorem C92_printed (pieces : List Bytes) (t : Text) (h : pieces.flatten = utf8Encode t) :
    stdOut pieces = Spec.uncut (Spec.ends 0 pieces) 0 t := printed pieces [] t 0 (by simp) h

/-- What is left of a text is the text only if nothing was cut. -/
theorem uncut_eq (cuts : List Nat) (p : Nat) (t : Text) : (Spec.uncut cuts p t).length ≤ t.length ∧ (Spec.uncut cuts p t = t ↔
    ∀ t1 c t2, t = t1 ++ c :: t2 → ∀ x ∈ cuts, ¬ (p + (utf8Encode t1).length < x ∧ x < p + (utf8Encode t1).length + c.utf8Size)) := by
  induction t generalizing p with
  | nil => exact ⟨Nat.le_refl _, ⟨fun _ t1 c t2 h => (by cases t1 <;> cases h), fun _ => rfl⟩⟩
  | cons d t ih =>
    obtain ⟨h1, h2⟩ := ih (p + d.utf8Size)
    have e : ∀ t : Text, (utf8Encode (d :: t)).length = d.utf8Size + (utf8Encode t).length := fun t => by
      show (String.utf8EncodeChar d ++ utf8Encode t).length = _
      rw [List.length_append, String.length_utf8EncodeChar]
    have hu : Spec.uncut cuts p (d :: t) = if ∃ x ∈ cuts, p < x ∧ x < p + d.utf8Size then Spec.uncut cuts (p + d.utf8Size) t
      else d :: Spec.uncut cuts (p + d.utf8Size) t := rfl
    rw [hu]
    split
    · next hc =>
      refine ⟨by simp only [List.length_cons]; omega, ⟨fun h => ?_, fun h => ?_⟩⟩
      · have := congrArg List.length h
        simp only [List.length_cons] at this
        omega
      · obtain ⟨x, hx, h3⟩ := hc
        exact absurd h3 (h [] d t rfl x hx)
    · next hc =>
      refine ⟨by simp only [List.length_cons]; omega, ⟨fun h t1 c t2 ht x hx h3 => ?_, fun h => ?_⟩⟩
      · cases t1 with
        | nil =>
          cases ht
          exact hc ⟨x, hx, h3⟩
        | cons _ t1 =>
          cases ht
          have h4 := h2.mp (List.cons.inj h).2 t1 c t2 rfl x hx
          rw [e] at h3
          exact h4 (by omega)
      · rw [h2.mpr (fun t1 c t2 ht x hx h3 => h (d :: t1) c t2 (by rw [ht]; rfl) x hx (by rw [e]; omega))]

/-- C92: a text is printed completely exactly when no piece ends inside a character. -/
theorem C92_complete (pieces : List Bytes) (t : Text) (h : pieces.flatten = utf8Encode t) :
    stdOut pieces = t ↔ ∀ t1 c t2, t = t1 ++ c :: t2 → ∀ x ∈ Spec.ends 0 pieces,
      ¬ ((utf8Encode t1).length < x ∧ x < (utf8Encode t1).length + c.utf8Size) := by
  rw [C92_printed pieces t h, (uncut_eq _ 0 t).2]
  simp only [Nat.zero_add]

/-- C92: so ASCII text is always printed completely. -/
theorem C92_ascii (pieces : List Bytes) (t : Text) (h : pieces.flatten = utf8Encode t) (ha : ∀ c ∈ t, c.utf8Size = 1) :
    stdOut pieces = t := by
  refine (C92_complete pieces t h).mpr fun t1 c t2 ht x _ h1 => ?_
  rw [ha c (by rw [ht]; simp)] at h1
  omega

/-! ## Published files -/

/-- Only the cuts inside the text matter. -/
theorem uncut_congr {cuts cuts' : List Nat} {p : Nat} {t : Text}
    (h : ∀ x, p < x → x < p + (utf8Encode t).length → (x ∈ cuts ↔ x ∈ cuts')) : Spec.uncut cuts p t = Spec.uncut cuts' p t := by
  induction t generalizing p with
  | nil => rfl
  | cons c t ih =>
    have e : (utf8Encode (c :: t)).length = c.utf8Size + (utf8Encode t).length := by
      show (String.utf8EncodeChar c ++ utf8Encode t).length = _
      rw [List.length_append, String.length_utf8EncodeChar]
    rw [e] at h
    have hi : (∃ x ∈ cuts, p < x ∧ x < p + c.utf8Size) ↔ ∃ x ∈ cuts', p < x ∧ x < p + c.utf8Size :=
      ⟨fun ⟨x, hx, h1, h2⟩ => ⟨x, (h x h1 (by omega)).mp hx, h1, h2⟩, fun ⟨x, hx, h1, h2⟩ => ⟨x, (h x h1 (by omega)).mpr hx, h1, h2⟩⟩
    have hs := ih (p := p + c.utf8Size) fun x h1 h2 => h x (by omega) (by omega)
    show (if _ then _ else _) = (if _ then _ else _)
    simp only [hi, hs]

/-- Where pieces of one size end. -/
theorem ends_even {size : Nat} (hs : 0 < size) {ws : List Bytes} {k : Nat} (h1 : ∀ w ∈ ws.dropLast, w.length = size)
    (h2 : ∀ w ∈ ws, w.length ≤ size) {x : Nat} (h3 : k * size < x) (h4 : x < k * size + ws.flatten.length) :
    x ∈ Spec.ends (k * size) ws ↔ ∃ j, x = j * size := by
  induction ws generalizing k with
  | nil => simp at h4; omega
  | cons w ws ih =>
    have e : (k + 1) * size = k * size + size := Nat.succ_mul _ _
    show x ∈ (k * size + w.length) :: Spec.ends (k * size + w.length) ws ↔ _
    cases ws with
    | nil =>
      have := h2 w (by simp)
      simp only [List.flatten_cons, List.flatten_nil, List.append_nil] at h4
      simp only [Spec.ends, List.mem_singleton]
      constructor
      · intro h; omega
      · rintro ⟨j, rfl⟩
        exfalso
        have a : k < j := Nat.lt_of_mul_lt_mul_right h3
        have b : j < k + 1 := Nat.lt_of_mul_lt_mul_right (a := size) (by omega)
        omega
    | cons w' ws =>
      have hw : w.length = size := h1 w (by simp)
      rw [hw, ← e, List.mem_cons]
      rw [List.flatten_cons, List.length_append, hw] at h4
      by_cases hx : x ≤ (k + 1) * size
      · constructor
        · rintro (rfl | h)
          · exact ⟨_, rfl⟩
          · have := ends_le x h
            exact ⟨k + 1, by omega⟩
        · rintro ⟨j, rfl⟩
          left
          have a : k < j := Nat.lt_of_mul_lt_mul_right h3
          have b : j ≤ k + 1 := Nat.le_of_mul_le_mul_right hx hs
          rw [show j = k + 1 by omega]
      · rw [← ih (k := k + 1) (fun v hv => h1 v (by rw [List.dropLast_cons_of_ne_nil (by simp)]; simp [hv]))
          (fun v hv => h2 v (by simp [hv])) (by omega) (by omega)]
        constructor
        · rintro (rfl | h)
          · omega
          · exact h
        · exact .inr

/-- C92: a text file published with hashed or prefix names: the reader prints the characters that do not lie across a multiple of the
payload size. -/
theorem C92_published {E : Env} {L : FloatLog} {o : TreeOptions} {nc : Nat} {root : Packet} {out : List Packet} {store : MemoryStore}
    {ks : Option Keystore} (t : Text) (hty : o.schemaType ≠ .segmented)
    (h : manifestTree E L o nc { rest := utf8Encode t } = (.ok root, out)) (hr : Spec.CanRead E o nc out store ks) :
    ∃ ctx size hv, NameCtx.create o.schemaType nc o.name o.manifestPrefix o.dataPrefix o.manifestLocators o.dataLocators = .ok ctx ∧
      ctx.data.payloadSize o.chunk = .ok size ∧ root.hash E.prims.sha256 = .ok hv ∧ ∀ depth, out.length ≤ depth →
        ∃ s, TravEnv.traverse ⟨E.prims, store.reader E.prims, ks⟩ depth o.name (some hv) (TState.new ks) = (.ok (), s) ∧
          stdOut s.writes = Spec.uncut ((List.range (utf8Encode t).length).map (· * size)) 0 t := by
  obtain ⟨R⟩ := manifestTree_ok h
  obtain ⟨hv, a, b⟩ := C49_file_returned hty h hr
  obtain ⟨st, hrun⟩ := R.run
  obtain ⟨size, hsize, _⟩ := PyS.liftBind_ok hrun
  obtain ⟨_, _, _, hpos, _⟩ := payloadSize_ok hsize
  obtain ⟨f1, f2, _⟩ := C38_full_reads hsize hrun
  refine ⟨R.ctx, size, hv, R.ctx_ok, hsize, a, fun depth hd => ?_⟩
  obtain ⟨s, s1, s2, s3, _⟩ := b depth hd
  refine ⟨s, s1, ?_⟩
  have hw : s.writes = R.bs := by
    have := (R.chunked.sum).2.2.1
    rw [R.data, this] at s3
    exact List.map_inj_right (fun _ _ h => Option.some.inj h) |>.mp s3
  have hl := R.chunked.sizes
  rw [C92_printed _ t s2, hw]
  refine uncut_congr fun x x1 x2 => ?_
  have e := ends_even hpos (ws := R.bs) (k := 0) (x := x) ?_ ?_ (by omega) (by rw [← hw, s2]; show x < 0 * size + (utf8Encode t).length; omega)
  · rw [Nat.zero_mul] at e
    rw [e]
    simp only [List.mem_map, List.mem_range]
    constructor
    · rintro ⟨j, rfl⟩
      exact ⟨j, by have := Nat.le_mul_of_pos_right j hpos; omega, rfl⟩
    · rintro ⟨j, _, rfl⟩
      exact ⟨j, rfl⟩
  · intro w hmem
    have : w.length ∈ (R.bs.map List.length).dropLast := by rw [← List.map_dropLast]; exact List.mem_map_of_mem hmem
    rw [← hl, ← List.map_dropLast] at this
    obtain ⟨m, hm, e⟩ := List.mem_map.mp this
    rw [← e, f1 m hm]
  · intro w hmem
    have : w.length ∈ R.bs.map List.length := List.mem_map_of_mem hmem
    rw [← hl] at this
    obtain ⟨m, hm, e⟩ := List.mem_map.mp this
    rw [← e]
    exact (f2 m hm).2

/-- C92: five characters of two bytes each in two pieces of five bytes: the one across the cut is not printed. -/
example : stdOut [[195, 164, 195, 182, 195], [188, 195, 159, 195, 169]] = ['ä', 'ö', 'ß', 'é'] ∧
    ([[195, 164, 195, 182, 195], [188, 195, 159, 195, 169]] : List Bytes).flatten = utf8Encode ['ä', 'ö', 'ü', 'ß', 'é'] := by
  decide +kernel

set_option maxRecDepth 100000 in
/-- C92: prefix names, a text of 120 characters of two bytes. -/
example : ∃ root out store, manifestTree Toy.env Spec.exactLog (Toy.options .prefixed true) 1 { rest := utf8Encode (List.replicate 120 'é') } =
    (.ok root, out) ∧ (Spec.dataOf out).length = 2 ∧ Spec.CanRead Toy.env (Toy.options .prefixed true) 1 out store (some Toy.aesKeys) := by
  have e : utf8Encode (List.replicate 120 'é') = (List.replicate 120 [195, 169]).flatten := by
    rw [utf8Encode, List.flatMap_def, List.map_replicate]
    rw [show String.utf8EncodeChar 'é' = [195, 169] by decide +kernel]
  rw [e]
  exact Toy.canRead trivial Toy.canDecrypt (Toy.plain ⟨rfl, rfl, rfl⟩) (Toy.text rfl rfl rfl) (by decide +kernel)

end Ccnpy
