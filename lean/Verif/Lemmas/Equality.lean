import Verif.Model.Equality
import Verif.Lemmas.Packet
import Verif.Lemmas.Flic
import Verif.Lemmas.EndToEnd
import Verif.Props.ContextProps

/-! # Helper lemmas about Python equality -/

namespace Ccnpy

/-! ## Comparison of attributes -/

@[simp] theorem dictEqual_nil : dictEqual [] = .ok true := rfl
@[simp] theorem dictEqual_cons_true (l : List (Py Bool)) : dictEqual (.ok true :: l) = dictEqual l := rfl
@[simp] theorem dictEqual_cons_false (l : List (Py Bool)) : dictEqual (.ok false :: l) = .ok false := rfl
@[simp] theorem dictEqual_cons_error (e : PyErr) (l : List (Py Bool)) : dictEqual (.error e :: l) = .error e := rfl

theorem dictEqual_true {l : List (Py Bool)} : dictEqual l = .ok true ↔ ∀ x ∈ l, x = .ok true := by
  induction l with
  | nil => simp [dictEqual]
  | cons x l ih =>
    unfold dictEqual
    cases x with
    | error e => simp [bind, Except.bind]
    | ok b =>
      cases b
      · simp [bind, Except.bind, pure, Except.pure]
      · simpa [bind, Except.bind] using ih

theorem dictEqual_error {l : List (Py Bool)} {e : PyErr} :
    dictEqual l = .error e ↔ ∃ pre post, l = pre ++ .error e :: post ∧ ∀ x ∈ pre, x = .ok true := by
  induction l with
  | nil => simp [dictEqual]
  | cons x l ih =>
    unfold dictEqual
    cases x with
    | error e' =>
      constructor
      · intro h
        cases h
        exact ⟨[], l, rfl, by simp⟩
      · rintro ⟨pre, post, h, hp⟩
        cases pre with
        | nil => simp only [List.nil_append, List.cons.injEq] at h; rw [h.1]; rfl
        | cons y pre =>
          simp only [List.cons_append, List.cons.injEq] at h
          have := hp y (by simp)
          rw [← h.1] at this
          cases this
    | ok b =>
      cases b
      · constructor
        · intro h; cases h
        · rintro ⟨pre, post, h, hp⟩
          cases pre with
          | nil => simp at h
          | cons y pre =>
            simp only [List.cons_append, List.cons.injEq] at h
            have := hp y (by simp)
            rw [← h.1] at this
            cases this
      · have : (do if ← (Except.ok true : Py Bool) then dictEqual l else return false : Py Bool) = dictEqual l := rfl
        rw [this, ih]
        constructor
        · rintro ⟨pre, post, rfl, hp⟩
          exact ⟨.ok true :: pre, post, rfl, by simpa using hp⟩
        · rintro ⟨pre, post, h, hp⟩
          cases pre with
          | nil => simp at h
          | cons y pre =>
            simp only [List.cons_append, List.cons.injEq] at h
            exact ⟨pre, post, h.2, fun x hx => hp x (by simp [hx])⟩

theorem eqOrRaise_true {α : Type} {eq : α → α → Py Bool} {a b : Option α} : eqOrRaise eq a b = .ok true ↔
    (a = none ∧ b = none) ∨ ∃ x y, a = some x ∧ b = some y ∧ eq x y = .ok true := by
  cases a <;> cases b <;> simp [eqOrRaise]

theorem eqOrRaise_error {α : Type} {eq : α → α → Py Bool} {a b : Option α} {e : PyErr} : eqOrRaise eq a b = .error e ↔
    (a.isSome ≠ b.isSome ∧ e = .attributeError) ∨ ∃ x y, a = some x ∧ b = some y ∧ eq x y = .error e := by
  cases a <;> cases b <;> simp [eqOrRaise, eq_comm]

theorem eqOrFalse_true {α : Type} {eq : α → α → Bool} {a b : Option α} : eqOrFalse eq a b = .ok true ↔
    (a = none ∧ b = none) ∨ ∃ x y, a = some x ∧ b = some y ∧ eq x y = true := by
  cases a <;> cases b <;> simp [eqOrFalse]

theorem eqOrFalse_error {α : Type} {eq : α → α → Bool} {a b : Option α} {e : PyErr} : ¬ eqOrFalse eq a b = .error e := by
  cases a <;> cases b <;> simp [eqOrFalse]

theorem eqOrFalse_beq {α : Type} [BEq α] [LawfulBEq α] {a b : Option α} :
    eqOrFalse (fun x y => x == y) a b = .ok true ↔ a = b := by
  rw [eqOrFalse_true]
  cases a <;> cases b <;> simp

theorem eqOrRaise_comm {α : Type} {eq : α → α → Py Bool} {a b : Option α} (h : ∀ x y, eq x y = eq y x) :
    eqOrRaise eq a b = eqOrRaise eq b a := by
  cases a <;> cases b <;> simp [eqOrRaise, h]

theorem eqOrFalse_comm {α : Type} {eq : α → α → Bool} {a b : Option α} (h : ∀ x y, eq x y = eq y x) :
    eqOrFalse eq a b = eqOrFalse eq b a := by
  cases a <;> cases b <;> simp [eqOrFalse, h]

theorem tlvEqual_ok {s t : Tlv} : tlvEqual (.ok s) (.ok t) = .ok (s.pyEq t) := rfl

theorem Tlv.pyEq_iff {s t : Tlv} : s.pyEq t = true ↔ s.value = t.value := by
  simp only [Tlv.pyEq, Bool.and_eq_true, beq_iff_eq]
  constructor
  · exact fun h => h.2
  · intro h
    exact ⟨by simp [Tlv.len, Tlv.length, h], h⟩

/-- `_tlv` attributes of one type are equal when the TLVs are. -/
theorem tlvEqual_true {s t : Tlv} (h : s.type = t.type) : tlvEqual (.ok s) (.ok t) = .ok true ↔ s = t := by
  rw [tlvEqual_ok, Except.ok.injEq, Tlv.pyEq_iff]
  cases s
  cases t
  simp_all

theorem wireEqual_true {a b : Bytes} : wireEqual (.ok a) (.ok b) = .ok true ↔ a = b := by
  simp [wireEqual, bind, Except.bind, pure, Except.pure]

theorem Tlv.pyEq_comm (s t : Tlv) : s.pyEq t = t.pyEq s := by
  rw [Bool.eq_iff_iff, Tlv.pyEq_iff, Tlv.pyEq_iff]
  exact eq_comm

theorem HashValue.pyEq_iff {a b : HashValue} : a.pyEq b = true ↔ a.value = b.value := Tlv.pyEq_iff

theorem HashValue.pyEq_comm (a b : HashValue) : a.pyEq b = b.pyEq a := Tlv.pyEq_comm _ _

theorem tlvEqual_comm {a b : Py Tlv} {s t : Tlv} (ha : a = .ok s) (hb : b = .ok t) : tlvEqual a b = tlvEqual b a := by
  subst ha hb
  rw [tlvEqual_ok, tlvEqual_ok, Tlv.pyEq_comm]

theorem wireEqual_comm {a b : Py Bytes} {s t : Bytes} (ha : a = .ok s) (hb : b = .ok t) : wireEqual a b = wireEqual b a := by
  subst ha hb
  simp only [wireEqual, ok_bind]
  rw [Bool.beq_comm]

theorem listEqual_true {α : Type} {eq : α → α → Py Bool} {a b : List α} :
    listEqual eq a b = .ok true ↔ a.length = b.length ∧ ∀ p ∈ a.zip b, eq p.1 p.2 = .ok true := by
  unfold listEqual
  split
  · rename_i h
    rw [dictEqual_true]
    simp only [List.mem_map, forall_exists_index, and_imp, forall_apply_eq_imp_iff₂, h, true_and]
  · rename_i h
    simp [h]

theorem listEqual_refl {α : Type} {eq : α → α → Py Bool} {a : List α} (h : ∀ x ∈ a, eq x x = .ok true) :
    listEqual eq a a = .ok true := by
  rw [listEqual_true]
  refine ⟨rfl, fun p hp => ?_⟩
  have : p.1 ∈ a ∧ p.1 = p.2 := by
    obtain ⟨i, hi, rfl⟩ := List.getElem_of_mem hp
    rw [List.getElem_zip]
    exact ⟨List.getElem_mem _, rfl⟩
  rw [← this.2]
  exact h _ this.1

theorem listEqual_eq {α : Type} {eq : α → α → Py Bool} {a b : List α} (h : listEqual eq a b = .ok true)
    (he : ∀ x ∈ a, ∀ y ∈ b, eq x y = .ok true → x = y) : a = b := by
  rw [listEqual_true] at h
  obtain ⟨hl, h⟩ := h
  apply List.ext_getElem hl
  intro i h1 h2
  exact he _ (List.getElem_mem _) _ (List.getElem_mem _) (h (a[i], b[i])
    (List.mem_of_getElem? (i := i) (by simp [h1, h2])))

/-! ## Names and floats -/

theorem NameComponent.pyEq_comm (a b : NameComponent) : a.pyEq b = b.pyEq a := by
  simp only [NameComponent.pyEq]
  rw [Bool.beq_comm (a := a.value.length), Bool.beq_comm (a := a.isArray), Bool.beq_comm (a := a.value)]

theorem components_pyEq_comm (a b : List NameComponent) :
    (a.zip b).all (fun p => p.1.pyEq p.2) = (b.zip a).all (fun p => p.1.pyEq p.2) := by
  induction a generalizing b with
  | nil => cases b <;> rfl
  | cons c a ih =>
    cases b with
    | nil => rfl
    | cons d b => simp only [List.zip_cons_cons, List.all_cons, ih b, NameComponent.pyEq_comm c d]

theorem Name.pyEq_comm (a b : Name) : a.pyEq b = b.pyEq a := by
  unfold Name.pyEq
  rw [components_pyEq_comm, Bool.beq_comm (a := a.components.length)]
  congr 1
  cases a.tlv <;> cases b.tlv <;> simp [Tlv.pyEq_comm]

theorem Name.pyEq_true {a b : Name} {t : Tlv} (ha : a.tlv = .ok t) : a.pyEq b = true ↔ a = b := by
  constructor
  · exact Name.pyEq_eq
  · rintro rfl
    exact Name.pyEq_refl ha

theorem F64.pyEq_comm (a b : F64) : a.pyEq b = b.pyEq a := by
  unfold F64.pyEq
  exact Bool.beq_comm

theorem FixedHeader.pyEq_iff {a b : FixedHeader} : a.pyEq b = true ↔ a = b := by
  cases a
  cases b
  simp [FixedHeader.pyEq]
  grind

/-! ## Equal floats are serialized alike -/

theorem fl_congr {a b c d : Nat} (hb : 0 < b) (hd : 0 < d) (h : a * d = c * b) : fl a b = fl c d := by
  rw [← fl_scale a b d hd, ← fl_scale c d b hb, h, Nat.mul_comm b d]

/-- Equal floats have the same number of milliseconds. -/
theorem milliseconds_congr {x y : F64} (hx : 0 < x.den) (hy : 0 < y.den) (h : x.pyEq y = true) : x.milliseconds = y.milliseconds := by
  simp only [F64.pyEq, beq_iff_eq] at h
  unfold F64.milliseconds F64.mulNat
  rw [fl_congr hx hy (show x.num * 1000 * y.den = y.num * 1000 * x.den by
    rw [Nat.mul_right_comm, h, Nat.mul_right_comm])]

end Ccnpy
