import Verif.Model.Uri
import Verif.Lemmas.Schema
import Verif.Lemmas.TreeIds

/-!
# Lemmas about texts, URIs and paths
-/

namespace Ccnpy

/-! ## UTF-8 -/

theorem utf8EncodeChar_ne_nil (c : Char) : String.utf8EncodeChar c ≠ [] := by
  intro h
  have := String.length_utf8EncodeChar c
  have := c.utf8Size_pos
  rw [h] at *
  simp at *
  omega

theorem utf8DecodeLoop_encode (t : Text) (fuel : Nat) (h : (utf8Encode t).length ≤ fuel) :
    utf8DecodeLoop fuel (utf8Encode t) = some t := by
  induction t generalizing fuel with
  | nil => cases fuel <;> rfl
  | cons c t ih =>
    have hc := String.length_utf8EncodeChar c
    have hp := c.utf8Size_pos
    have e : utf8Encode (c :: t) = String.utf8EncodeChar c ++ utf8Encode t := rfl
    rw [e, List.length_append] at h
    obtain ⟨b, bs, hb⟩ : ∃ b bs, utf8Encode (c :: t) = b :: bs := by
      cases hh : utf8Encode (c :: t) with
      | nil =>
        rw [e] at hh
        exact absurd (List.append_eq_nil_iff.mp hh).1 (utf8EncodeChar_ne_nil c)
      | cons b bs => exact ⟨b, bs, rfl⟩
    cases fuel with
    | zero => omega
    | succ fuel =>
      rw [hb]
      unfold utf8DecodeLoop
      rw [← hb]
      have hd : ByteArray.utf8DecodeChar? (utf8Encode (c :: t)).toByteArray 0 = some c := by
        rw [e, List.toByteArray_append]
        exact ByteArray.utf8DecodeChar?_utf8EncodeChar_append
      rw [hd]
      simp only
      rw [e, ← hc, List.drop_left, ih fuel (by omega)]
      rfl

theorem utf8Decode_encode (t : Text) : utf8Decode (utf8Encode t) = some t := utf8DecodeLoop_encode t _ (Nat.le_refl _)

theorem utf8DecodeLoop_sound {fuel : Nat} {b : Bytes} {t : Text} (h : utf8DecodeLoop fuel b = some t) : utf8Encode t = b := by
  induction fuel generalizing b t with
  | zero =>
    cases b with
    | nil => cases Option.some.inj h; rfl
    | cons x b => cases h
  | succ fuel ih =>
    cases b with
    | nil => cases Option.some.inj h; rfl
    | cons x b =>
      unfold utf8DecodeLoop at h
      split at h
      · cases h
      · next c hc =>
        obtain ⟨l, hl⟩ := ByteArray.exists_of_utf8DecodeChar?_eq_some hc
        obtain ⟨r, hr, rfl⟩ := Option.map_eq_some_iff.mp h
        have hb : x :: b = String.utf8EncodeChar c ++ l.data.toList := by
          have := congrArg (fun y : ByteArray => y.data.toList) hl
          simpa using this
        rw [hb, ← String.length_utf8EncodeChar, List.drop_left] at hr
        rw [hb, ← ih hr]
        rfl

theorem utf8Encode_of_decode {b : Bytes} {t : Text} (h : utf8Decode b = some t) : utf8Encode t = b := utf8DecodeLoop_sound h

/-! ## Splitting and joining -/

theorem splitOn_noSep {sep : Char} {x : Text} (h : sep ∉ x) : splitOn sep x = [x] := by
  induction x with
  | nil => rfl
  | cons c x ih =>
    simp only [List.mem_cons, not_or] at h
    unfold splitOn
    rw [ih h.2, if_neg (by simpa using fun e => h.1 e.symm)]

theorem splitOn_append {sep : Char} {x y : Text} (h : sep ∉ x) : splitOn sep (x ++ sep :: y) = x :: splitOn sep y := by
  induction x with
  | nil => simp [splitOn]
  | cons c x ih =>
    simp only [List.mem_cons, not_or] at h
    rw [List.cons_append, splitOn, ih h.2, if_neg (by simpa using fun e => h.1 e.symm)]

theorem splitOn_join {sep : Char} {l : List Text} (hne : l ≠ []) (h : ∀ x ∈ l, sep ∉ x) : splitOn sep (joinWith sep l) = l := by
  induction l with
  | nil => exact absurd rfl hne
  | cons x l ih =>
    cases l with
    | nil => exact splitOn_noSep (h x (by simp))
    | cons y l =>
      rw [joinWith, splitOn_append (h x (by simp)), ih (by simp) (fun z hz => h z (by simp [hz]))]

theorem mem_joinWith {sep c : Char} {l : List Text} (h : c ∈ joinWith sep l) : c = sep ∨ ∃ x ∈ l, c ∈ x := by
  induction l with
  | nil => simp [joinWith] at h
  | cons x l ih =>
    cases l with
    | nil => exact .inr ⟨x, by simp, h⟩
    | cons y l =>
      simp only [joinWith, List.mem_append, List.mem_cons] at h
      rcases h with h | h | h
      · exact .inr ⟨x, by simp, h⟩
      · exact .inl h
      · rcases ih h with h | ⟨z, hz, h⟩
        · exact .inl h
        · exact .inr ⟨z, by simp [hz], h⟩

theorem takeWhile_all {α : Type} {p : α → Bool} {l : List α} (h : ∀ a ∈ l, p a = true) : l.takeWhile p = l := by
  induction l with
  | nil => rfl
  | cons a l ih => rw [List.takeWhile_cons, h a (by simp), if_pos rfl, ih (fun b hb => h b (by simp [hb]))]

/-! ## urlparse -/

/-- Removal of tabs and line ends. -/
def noBreaks (u : Text) : Text := u.filter (fun c => !(c == '\t' || c == '\r' || c == '\n'))

/-- The text before the first `?` or `#`. -/
def beforeQuery (u : Text) : Text := u.takeWhile (fun c => !(c == '?' || c == '#'))

/-- The text after a network location. -/
def afterAuthority (u : Text) : Text :=
  match u with
  | '/' :: '/' :: r => r.dropWhile (fun c => !(c == '/' || c == '?' || c == '#'))
  | _ => u

theorem urlParse_ccnx (r : Text) :
    urlParse ('c' :: 'c' :: 'n' :: 'x' :: ':' :: r) = (['c', 'c', 'n', 'x'], beforeQuery (afterAuthority (noBreaks r))) := by
  have h1 : ('c' :: 'c' :: 'n' :: 'x' :: ':' :: r).dropWhile (fun c => decide (c.toNat ≤ 32)) =
      'c' :: 'c' :: 'n' :: 'x' :: ':' :: r := by simp
  have h2 : ('c' :: 'c' :: 'n' :: 'x' :: ':' :: r).filter (fun c => !(c == '\t' || c == '\r' || c == '\n')) =
      'c' :: 'c' :: 'n' :: 'x' :: ':' :: noBreaks r := by simp [noBreaks]
  have h3 : ∀ s : Text, splitScheme ('c' :: 'c' :: 'n' :: 'x' :: ':' :: s) = (['c', 'c', 'n', 'x'], s) := by
    intro s
    have : ('c' :: 'c' :: 'n' :: 'x' :: ':' :: s).takeWhile (· != ':') = ['c', 'c', 'n', 'x'] := by simp
    unfold splitScheme
    simp only [this]
    have e : (['c', 'c', 'n', 'x'].map Char.toLower) = ['c', 'c', 'n', 'x'] := by decide
    have e2 : (['c', 'c', 'n', 'x'].all schemeChar) = true := by decide
    have e3 : ('c').isAlpha = true := by decide
    simp [e, e2, e3]
  unfold urlParse
  simp only [h1, h2, h3]
  rfl

theorem noBreaks_id {u : Text} (h : ∀ c ∈ u, c ≠ '\t' ∧ c ≠ '\r' ∧ c ≠ '\n') : noBreaks u = u := by
  unfold noBreaks
  refine List.filter_eq_self.mpr fun c hc => ?_
  obtain ⟨a, b, d⟩ := h c hc
  simp [a, b, d]

theorem beforeQuery_id {u : Text} (h : ∀ c ∈ u, c ≠ '?' ∧ c ≠ '#') : beforeQuery u = u := by
  refine takeWhile_all fun c hc => ?_
  obtain ⟨a, b⟩ := h c hc
  simp [a, b]

theorem noBreaks_append (u v : Text) : noBreaks (u ++ v) = noBreaks u ++ noBreaks v := by simp [noBreaks]

end Ccnpy
