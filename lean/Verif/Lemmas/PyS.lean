import Verif.Model.Base
import Verif.Lemmas.Tlv

/-!
# Computations with state
-/

namespace Ccnpy

variable {σ α β : Type}

@[simp] theorem PyS.pure_run (a : α) (s : σ) : (pure a : PyS σ α) s = (.ok a, s) := rfl
@[simp] theorem PyS.get_run (s : σ) : (PyS.get : PyS σ σ) s = (.ok s, s) := rfl
@[simp] theorem PyS.modify_run (f : σ → σ) (s : σ) : PyS.modify f s = (.ok (), f s) := rfl
@[simp] theorem PyS.lift_run (x : Py α) (s : σ) : PyS.lift x s = (x, s) := rfl

theorem PyS.bind_run (x : PyS σ α) (f : α → PyS σ β) (s : σ) :
    (x >>= f) s = match x s with
      | (.ok a, s') => f a s'
      | (.error e, s') => (.error e, s') := rfl

theorem PyS.bind_of_ok {x : PyS σ α} {f : α → PyS σ β} {s s' : σ} {a : α} (h : x s = (.ok a, s')) :
    (x >>= f) s = f a s' := by rw [PyS.bind_run, h]

theorem PyS.bind_of_error {x : PyS σ α} {f : α → PyS σ β} {s s' : σ} {e : PyErr} (h : x s = (.error e, s')) :
    (x >>= f) s = (.error e, s') := by rw [PyS.bind_run, h]

theorem PyS.bind_ok {x : PyS σ α} {f : α → PyS σ β} {s s' : σ} {b : β} (h : (x >>= f) s = (.ok b, s')) :
    ∃ a m, x s = (.ok a, m) ∧ f a m = (.ok b, s') := by
  rw [PyS.bind_run] at h
  split at h
  · rename_i a m hx
    exact ⟨a, m, hx, h⟩
  · cases h

theorem PyS.bind_error {x : PyS σ α} {f : α → PyS σ β} {s s' : σ} {e : PyErr} (h : (x >>= f) s = (.error e, s')) :
    x s = (.error e, s') ∨ ∃ a m, x s = (.ok a, m) ∧ f a m = (.error e, s') := by
  rw [PyS.bind_run] at h
  split at h
  · rename_i a m hx
    exact .inr ⟨a, m, hx, h⟩
  · rename_i e' m hx
    cases h
    exact .inl hx

theorem PyS.lift_ok {x : Py α} {s s' : σ} {a : α} (h : PyS.lift x s = (.ok a, s')) : x = .ok a ∧ s' = s := by
  cases h
  exact ⟨rfl, rfl⟩

theorem PyS.lift_error {x : Py α} {s s' : σ} {e : PyErr} (h : PyS.lift x s = (.error e, s')) : x = .error e ∧ s' = s := by
  cases h
  exact ⟨rfl, rfl⟩

/-- A lifted step first: on success the rest runs in the same state. -/
theorem PyS.liftBind_ok {x : Py α} {f : α → PyS σ β} {s s' : σ} {b : β} (h : (PyS.lift x >>= f) s = (.ok b, s')) :
    ∃ a, x = .ok a ∧ f a s = (.ok b, s') := by
  obtain ⟨a, m, h1, h2⟩ := PyS.bind_ok h
  obtain ⟨hx, rfl⟩ := PyS.lift_ok h1
  exact ⟨a, hx, h2⟩

theorem PyS.liftBind_error {x : Py α} {f : α → PyS σ β} {s s' : σ} {e : PyErr} (h : (PyS.lift x >>= f) s = (.error e, s')) :
    (x = .error e ∧ s' = s) ∨ ∃ a, x = .ok a ∧ f a s = (.error e, s') := by
  rcases PyS.bind_error h with h | ⟨a, m, h1, h2⟩
  · exact .inl (PyS.lift_error h)
  · obtain ⟨hx, rfl⟩ := PyS.lift_ok h1
    exact .inr ⟨a, hx, h2⟩

theorem PyS.liftBind_run {x : Py α} {f : α → PyS σ β} {s : σ} {a : α} (h : x = .ok a) : (PyS.lift x >>= f) s = f a s := by
  subst h; rfl

/-- `x` keeps the invariant `I`, whether it returns or raises. -/
def PyS.Keeps (I : σ → Prop) (x : PyS σ α) : Prop := ∀ s, I s → I (x s).2

theorem PyS.Keeps.bind {I : σ → Prop} {x : PyS σ α} {f : α → PyS σ β} (hx : PyS.Keeps I x) (hf : ∀ a, PyS.Keeps I (f a)) :
    PyS.Keeps I (x >>= f) := by
  intro s hs
  rw [PyS.bind_run]
  have := hx s hs
  split
  · rename_i a m h
    rw [h] at this
    exact hf a m this
  · rename_i e m h
    rw [h] at this
    exact this

theorem PyS.Keeps.lift {I : σ → Prop} (x : Py α) : PyS.Keeps I (PyS.lift x) := fun _ hs => hs
theorem PyS.Keeps.pure {I : σ → Prop} (a : α) : PyS.Keeps I (pure a : PyS σ α) := fun _ hs => hs
theorem PyS.Keeps.get {I : σ → Prop} : PyS.Keeps I (PyS.get : PyS σ σ) := fun _ hs => hs
theorem PyS.Keeps.modify {I : σ → Prop} {f : σ → σ} (h : ∀ s, I s → I (f s)) : PyS.Keeps I (PyS.modify f) := fun s hs => h s hs

end Ccnpy
