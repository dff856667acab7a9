import Verif.Lemmas.PyS

/-!
# Outcomes of computations with state
-/

namespace Ccnpy

variable {σ α β : Type}

/-- Started in `s`, the computation returns with `Q` or raises with `E`. -/
def PyS.Run (x : PyS σ α) (s : σ) (Q : α → σ → Prop) (E : PyErr → σ → Prop) : Prop :=
  (∀ a s', x s = (.ok a, s') → Q a s') ∧ (∀ e s', x s = (.error e, s') → E e s')

theorem PyS.Run.mono {x : PyS σ α} {s : σ} {Q Q' : α → σ → Prop} {E E' : PyErr → σ → Prop} (h : PyS.Run x s Q E)
    (hQ : ∀ a s', Q a s' → Q' a s') (hE : ∀ e s', E e s' → E' e s') : PyS.Run x s Q' E' :=
  ⟨fun a s' hx => hQ a s' (h.1 a s' hx), fun e s' hx => hE e s' (h.2 e s' hx)⟩

theorem PyS.Run.pure {a : α} {s : σ} {Q : α → σ → Prop} {E : PyErr → σ → Prop} (h : Q a s) :
    PyS.Run (Pure.pure a : PyS σ α) s Q E :=
  ⟨fun a s' hx => by cases hx; exact h, fun e s' hx => by cases hx⟩

theorem PyS.Run.bind {x : PyS σ α} {f : α → PyS σ β} {s : σ} {Q : β → σ → Prop} {E : PyErr → σ → Prop}
    (h : PyS.Run x s (fun a s' => PyS.Run (f a) s' Q E) E) : PyS.Run (x >>= f) s Q E := by
  constructor
  · intro b s' hx
    obtain ⟨a, m, h1, h2⟩ := PyS.bind_ok hx
    exact (h.1 a m h1).1 b s' h2
  · intro e s' hx
    rcases PyS.bind_error hx with hx | ⟨a, m, h1, h2⟩
    · exact h.2 e s' hx
    · exact (h.1 a m h1).2 e s' h2

theorem PyS.Run.lift {x : Py α} {s : σ} {Q : α → σ → Prop} {E : PyErr → σ → Prop} (h1 : ∀ a, x = .ok a → Q a s)
    (h2 : ∀ e, x = .error e → E e s) : PyS.Run (PyS.lift x) s Q E :=
  ⟨fun a s' hx => by obtain ⟨h, rfl⟩ := PyS.lift_ok hx; exact h1 a h,
   fun e s' hx => by obtain ⟨h, rfl⟩ := PyS.lift_error hx; exact h2 e h⟩

theorem PyS.Run.liftBind {x : Py α} {f : α → PyS σ β} {s : σ} {Q : β → σ → Prop} {E : PyErr → σ → Prop}
    (h1 : ∀ a, x = .ok a → PyS.Run (f a) s Q E) (h2 : ∀ e, x = .error e → E e s) : PyS.Run (PyS.lift x >>= f) s Q E :=
  PyS.Run.bind (PyS.Run.lift h1 h2)

/-- A lifted step that is known to succeed. -/
theorem PyS.Run.step {x : Py α} {a : α} (hx : x = .ok a) {f : α → PyS σ β} {s : σ} {Q : β → σ → Prop} {E : PyErr → σ → Prop}
    (h : PyS.Run (f a) s Q E) : PyS.Run (PyS.lift x >>= f) s Q E := by
  subst hx
  exact PyS.Run.liftBind (fun b hb => by cases hb; exact h) (fun e he => by cases he)

theorem PyS.Run.getBind {f : σ → PyS σ β} {s : σ} {Q : β → σ → Prop} {E : PyErr → σ → Prop} (h : PyS.Run (f s) s Q E) :
    PyS.Run (PyS.get >>= f) s Q E :=
  PyS.Run.bind ⟨fun a s' hx => by cases hx; exact h, fun e s' hx => by cases hx⟩

theorem PyS.Run.modifyBind {g : σ → σ} {f : Unit → PyS σ β} {s : σ} {Q : β → σ → Prop} {E : PyErr → σ → Prop}
    (h : PyS.Run (f ()) (g s) Q E) : PyS.Run (PyS.modify g >>= f) s Q E :=
  PyS.Run.bind ⟨fun a s' hx => by cases hx; exact h, fun e s' hx => by cases hx⟩

theorem PyS.Run.modify {g : σ → σ} {s : σ} {Q : Unit → σ → Prop} {E : PyErr → σ → Prop}
    (h : Q () (g s)) : PyS.Run (PyS.modify g) s Q E :=
  ⟨fun a s' hx => by cases hx; exact h, fun e s' hx => by cases hx⟩

/-- Both facts about one run. -/
theorem PyS.Run.and {x : PyS σ α} {s : σ} {Q Q' : α → σ → Prop} {E E' : PyErr → σ → Prop} (h : PyS.Run x s Q E)
    (h' : PyS.Run x s Q' E') : PyS.Run x s (fun a s' => Q a s' ∧ Q' a s') (fun e s' => E e s' ∧ E' e s') :=
  ⟨fun a s' hx => ⟨h.1 a s' hx, h'.1 a s' hx⟩, fun e s' hx => ⟨h.2 e s' hx, h'.2 e s' hx⟩⟩

end Ccnpy
