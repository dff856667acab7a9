import Verif.Lemmas.Core
import Verif.Model.Tree

/-!
# Which exceptions showing a value can raise
-/

namespace Ccnpy

/-- The exceptions of showing things that exist. -/
def PyErr.OfShow (e : PyErr) : Prop := e = .attributeError ∨ e = .valueError ∨ e = .typeError

theorem showAll_error {α : Type} {f : α → Py Unit} {l : List α} {e : PyErr} (h : showAll f l = .error e) :
    ∃ a ∈ l, f a = .error e := by
  induction l with
  | nil => cases h
  | cons a l ih =>
    rcases bind_eq_error.mp h with h | ⟨_, _, h⟩
    · exact ⟨a, by simp, h⟩
    · obtain ⟨b, hb, h⟩ := ih h
      exact ⟨b, by simp [hb], h⟩

theorem showOpt_error {α : Type} {f : α → Py Unit} {o : Option α} {e : PyErr} (h : showOpt f o = .error e) :
    ∃ a, o = some a ∧ f a = .error e := by
  cases o with
  | none => cases h
  | some a => exact ⟨a, rfl, h⟩

theorem digits_iff {n : Nat} : (Nat.toDigits 10 n).length ≤ 4300 ↔ n < strLimit := by
  unfold strLimit
  exact Nat.length_toDigits_le_iff (by decide) (by decide)

theorem decimal_eq (n : Nat) : decimal n = if (Nat.toDigits 10 n).length ≤ 4300 then .ok (Nat.toDigits 10 n) else .error .valueError := by
  unfold decimal
  by_cases h : n < strLimit
  · rw [if_pos h, if_pos (digits_iff.2 h)]
  · rw [if_neg h, if_neg (fun h' => h (digits_iff.1 h'))]

theorem digits_small {n : Nat} (h : n < 2 ^ 64) : (Nat.toDigits 10 n).length ≤ 4300 := by
  have h2 : (Nat.toDigits 10 (2 ^ 64)).length ≤ 4300 := by decide +kernel
  exact digits_iff.2 (Nat.lt_trans h (digits_iff.1 h2))

theorem decimal_small {n : Nat} (h : n < 2 ^ 64) : decimal n = .ok (Nat.toDigits 10 n) := if_pos (digits_iff.1 (digits_small h))

theorem decimal_error {n : Nat} {e : PyErr} (h : decimal n = .error e) : e = .valueError := by
  unfold decimal at h
  split at h <;> cases h
  rfl

theorem showInt_error {n : Nat} {e : PyErr} (h : showInt n = .error e) : e = .valueError := by
  rcases bind_eq_error.mp h with h | ⟨_, _, h⟩
  · exact decimal_error h
  · cases h

theorem showInts_error {o : Option Nat} {e : PyErr} (h : showOpt showInt o = .error e) : e = .valueError := by
  obtain ⟨n, _, h⟩ := showOpt_error h
  exact showInt_error h

theorem Name.display_error {n : Name} {e : PyErr} (h : n.display = .error e) : e = .attributeError ∨ e = .valueError := by
  obtain ⟨c, _, h⟩ := showAll_error h
  rcases bind_eq_error.mp h with h | ⟨_, _, h⟩
  · unfold NameComponent.repr at h
    split at h
    · rcases bind_eq_error.mp h with h | ⟨_, _, h⟩
      · exact .inr (decimal_error h)
      · cases h
    · split at h
      · split at h
        · cases h; exact .inl rfl
        · rcases bind_eq_error.mp h with h | ⟨_, _, h⟩
          · unfold utf8DecodePy at h
            split at h
            · cases h; exact .inr rfl
            · cases h
          · cases h
      · split at h
        · rcases bind_eq_error.mp h with h | ⟨_, _, h⟩
          · exact .inr (decimal_error h)
          · cases h
        · cases h
  · cases h

theorem Link.display_error {l : Link} {e : PyErr} (h : l.display = .error e) : e = .attributeError ∨ e = .valueError := by
  obtain ⟨n, _, h⟩ := showOpt_error h
  exact Name.display_error h

theorem locatorsDisplay_error {o : Option (List Link)} {e : PyErr} (h : showOpt locatorsDisplay o = .error e) :
    e = .attributeError ∨ e = .valueError := by
  obtain ⟨ls, _, h⟩ := showOpt_error h
  obtain ⟨l, _, h⟩ := showAll_error h
  exact Link.display_error h

theorem NcDef.display_error {d : NcDef} {e : PyErr} (h : d.display = .error e) : e = .attributeError ∨ e = .valueError := by
  rcases bind_eq_error.mp h with h | ⟨_, _, h⟩
  · exact .inr (showInts_error h)
  · obtain ⟨s, _, h⟩ := showOpt_error h
    cases s <;> exact locatorsDisplay_error h

theorem AeadData.display_error {d : AeadData} {e : PyErr} (h : d.display = .error e) : e = .valueError := by
  rcases bind_eq_error.mp h with h | ⟨_, _, h⟩
  · exact showInt_error h
  rcases bind_eq_error.mp h with h | ⟨_, _, h⟩
  · obtain ⟨m, _, h⟩ := showOpt_error h
    unfold aeadModeDisplay at h
    repeat' split at h
    all_goals first | (cases h; done) | (cases h; rfl)
  · obtain ⟨k, _, h⟩ := showOpt_error h
    exact showInt_error h

theorem SecurityCtx.display_error {c : SecurityCtx} {e : PyErr} (h : c.display = .error e) :
    e = .attributeError ∨ e = .valueError := by
  cases c with
  | aead d => exact .inr (AeadData.display_error h)
  | rsaOaep d w =>
    rcases bind_eq_error.mp h with h | ⟨_, _, h⟩
    · exact .inr (AeadData.display_error h)
    · obtain ⟨w, _, h⟩ := showOpt_error h
      rcases bind_eq_error.mp h with h | ⟨_, _, h⟩
      · obtain ⟨l, _, h⟩ := showOpt_error h
        exact Link.display_error h
      · exact .inr (showInts_error h)

theorem GroupData.display_error {g : GroupData} {e : PyErr} (h : g.display = .error e) : e = .valueError := by
  rcases bind_eq_error.mp h with h | ⟨_, _, h⟩
  · exact showInts_error h
  rcases bind_eq_error.mp h with h | ⟨_, _, h⟩
  · exact showInts_error h
  rcases bind_eq_error.mp h with h | ⟨_, _, h⟩
  · exact showInts_error h
  · exact showInts_error h

theorem Node.display_error {n : Node} {e : PyErr} (h : n.display = .error e) : e.OfShow := by
  rcases bind_eq_error.mp h with h | ⟨_, _, h⟩
  · obtain ⟨g, _, h⟩ := showAll_error h
    unfold HashGroup.listPointers at h
    split at h
    · cases h; exact .inr (.inr rfl)
    · cases h
  rcases bind_eq_error.mp h with h | ⟨_, _, h⟩
  · obtain ⟨d, _, h⟩ := showOpt_error h
    have : e = .attributeError ∨ e = .valueError := by
      rcases bind_eq_error.mp h with h | ⟨_, _, h⟩
      · exact .inr (showInts_error h)
      rcases bind_eq_error.mp h with h | ⟨_, _, h⟩
      · exact locatorsDisplay_error h
      · obtain ⟨d, _, h⟩ := showAll_error h
        exact NcDef.display_error h
    rcases this with rfl | rfl
    · exact .inl rfl
    · exact .inr (.inl rfl)
  · obtain ⟨g, _, h⟩ := showAll_error h
    obtain ⟨g, _, h⟩ := showOpt_error h
    exact .inr (.inl (GroupData.display_error h))

theorem Manifest.display_error {m : Manifest} {e : PyErr} (h : m.display = .error e) : e.OfShow := by
  rcases bind_eq_error.mp h with h | ⟨_, _, h⟩
  · obtain ⟨c, _, h⟩ := showOpt_error h
    rcases SecurityCtx.display_error h with rfl | rfl
    · exact .inl rfl
    · exact .inr (.inl rfl)
  · split at h
    · exact Node.display_error h
    · cases h

theorem Manifest.tooLarge_error {α : Type} (m : Manifest) : ∃ e, (m.tooLarge : Py α) = .error e ∧ e.OfShow := by
  unfold Manifest.tooLarge
  cases h : m.display with
  | error e => exact ⟨e, rfl, Manifest.display_error h⟩
  | ok _ => exact ⟨_, rfl, .inr (.inl rfl)⟩

theorem Manifest.tooLarge_both {α β : Type} (m : Manifest) : ∃ e, (m.tooLarge : Py α) = .error e ∧ (m.tooLarge : Py β) = .error e := by
  unfold Manifest.tooLarge
  cases m.display with
  | error e => exact ⟨e, rfl, rfl⟩
  | ok _ => exact ⟨_, rfl, rfl⟩

theorem Manifest.tooLarge_run {σ α : Type} {m : Manifest} {s s' : σ} {a : α} (h : PyS.lift m.tooLarge s = (.ok a, s')) : False := by
  obtain ⟨e, he, _⟩ := m.tooLarge_error (α := α)
  rw [he] at h
  cases h

end Ccnpy
