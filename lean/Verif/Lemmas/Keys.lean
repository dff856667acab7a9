import Verif.Model.Crypto

/-!
# Dictionary keys and induction from the right
-/

namespace Ccnpy

theorem HashValue.dictEq_same_alg (P : Prims) (a b : HashValue) (h : a.alg = b.alg) : a.dictEq P b = true ↔ a = b := by
  cases a; cases b
  simp only at h
  subst h
  simp only [HashValue.dictEq, HashValue.pyEq, Tlv.pyEq, Bool.and_eq_true, beq_iff_eq, HashValue.mk.injEq, true_and]
  constructor
  · exact fun h => h.2.2
  · rintro rfl; simp

theorem reverse_induction {α : Type} {motive : List α → Prop} (nil : motive [])
    (snoc : ∀ l a, motive l → motive (l ++ [a])) (l : List α) : motive l := by
  have : ∀ l : List α, motive l.reverse := by
    intro l
    induction l with
    | nil => exact nil
    | cons a l ih => rw [List.reverse_cons]; exact snoc _ _ ih
  simpa using this l.reverse

end Ccnpy
