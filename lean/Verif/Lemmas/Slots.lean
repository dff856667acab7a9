import Verif.Lemmas.Fold
import Verif.Model.Flic

/-!
# Loop bodies of container parsers, seen as slots

A loop body of a container parser sorts the TLVs it meets into members.  `Lawful` says that a body does just that, and
`Lawful.sound`, `Lawful.complete` turn it into a description of the whole loop.
-/

namespace Ccnpy

/-- How a member collects the TLVs that belong to it: at most one, all of them, or the last one. -/
inductive SlotKind where
  | once | many | last

def SlotKind.ready {α : Type} : SlotKind → List α → Prop
  | .once, xs => xs = []
  | _, _ => True

def SlotKind.after {α : Type} : SlotKind → List α → α → List α
  | .last, _, a => [a]
  | _, xs, a => xs ++ [a]

def SlotKind.total {α : Type} : SlotKind → List α → List α
  | .last, xs => xs.getLast?.toList
  | _, xs => xs

def SlotKind.allowed {α : Type} : SlotKind → List α → Prop
  | .once, xs => xs.length ≤ 1
  | _, _ => True

/-- A member of a container: which TLVs belong to it, how one is parsed, and where the result goes. -/
structure Slot (σ : Type) where
  α : Type
  kind : SlotKind
  mine : Tlv → Bool
  parse : Tlv → Py α
  get : σ → List α

/-- Helper: a member holding at most one object. -/
def Slot.one {σ α : Type} (ty : Nat) (parse : Tlv → Py α) (get : σ → Option α) : Slot σ :=
  ⟨α, .once, fun t => t.type == ty, parse, fun s => (get s).toList⟩

def Slot.list {σ α : Type} (ty : Nat) (parse : Tlv → Py α) (get : σ → List α) : Slot σ :=
  ⟨α, .many, fun t => t.type == ty, parse, get⟩

structure Lawful {σ : Type} (step : σ → Tlv → Py σ) (slots : List (Slot σ)) (ignored : Tlv → Prop) : Prop where
  ok : ∀ s t s', step s t = .ok s' → ((∃ q ∈ slots, q.mine t = true) ∨ ignored t) ∧
    ∀ q ∈ slots, if q.mine t = true then q.kind.ready (q.get s) ∧ ∃ a, q.parse t = .ok a ∧ q.get s' = q.kind.after (q.get s) a
      else q.get s' = q.get s
  run : ∀ s t, ((∃ q ∈ slots, q.mine t = true) ∨ ignored t) →
    (∀ q ∈ slots, q.mine t = true → q.kind.ready (q.get s) ∧ ∃ a, q.parse t = .ok a) → ∃ s', step s t = .ok s'

theorem list_snoc_induction {α : Type} {P : List α → Prop} (l : List α) (nil : P []) (snoc : ∀ l a, P l → P (l ++ [a])) : P l := by
  have : ∀ k : List α, P k.reverse := by
    intro k
    induction k with
    | nil => exact nil
    | cons a k ih => rw [List.reverse_cons]; exact snoc _ _ ih
  have h := this l.reverse
  rwa [List.reverse_reverse] at h

theorem mapM_snoc {α β : Type} {f : α → Py β} {l : List α} {a : α} {ys : List β} :
    (l ++ [a]).mapM f = .ok ys ↔ ∃ xs b, l.mapM f = .ok xs ∧ f a = .ok b ∧ ys = xs ++ [b] := by
  rw [List.mapM_append]
  constructor
  · intro h
    obtain ⟨xs, hx, h⟩ := bind_eq_ok.mp h
    obtain ⟨zs, hz, h⟩ := bind_eq_ok.mp h
    cases Except.ok.inj h
    rw [List.mapM_cons] at hz
    obtain ⟨b, hb, hz⟩ := bind_eq_ok.mp hz
    rw [List.mapM_nil] at hz
    cases Except.ok.inj hz
    exact ⟨xs, b, hx, hb, rfl⟩
  · rintro ⟨xs, b, hx, hb, rfl⟩
    simp [hx, hb]

theorem filter_snoc {α : Type} (p : α → Bool) (l : List α) (a : α) :
    (l ++ [a]).filter p = if p a = true then l.filter p ++ [a] else l.filter p := by
  rw [List.filter_append]
  split <;> simp_all

theorem Lawful.sound {σ : Type} {step : σ → Tlv → Py σ} {slots : List (Slot σ)} {ignored : Tlv → Prop} (L : Lawful step slots ignored)
    {s0 : σ} (h0 : ∀ q ∈ slots, q.get s0 = []) (l : List Tlv) : ∀ s', l.foldlM step s0 = .ok s' →
      (∀ t ∈ l, (∃ q ∈ slots, q.mine t = true) ∨ ignored t) ∧
      ∀ q ∈ slots, ∃ xs, (l.filter q.mine).mapM q.parse = .ok xs ∧ q.get s' = q.kind.total xs ∧ q.kind.allowed xs := by
  induction l using list_snoc_induction with
  | nil =>
    intro s' h
    cases Except.ok.inj h
    refine ⟨by simp, fun q hq => ⟨[], rfl, ?_, ?_⟩⟩
    · rw [h0 q hq]; cases q.kind <;> rfl
    · cases q.kind <;> simp [SlotKind.allowed]
  | snoc l t ih =>
    intro s' h
    rw [List.foldlM_append] at h
    obtain ⟨s1, h1, h⟩ := bind_eq_ok.mp h
    obtain ⟨hk, hq⟩ := ih s1 h1
    rw [List.foldlM_cons] at h
    obtain ⟨s2, h2, h⟩ := bind_eq_ok.mp h
    cases Except.ok.inj h
    obtain ⟨hk2, hq2⟩ := L.ok s1 t s' h2
    refine ⟨?_, fun q hqm => ?_⟩
    · intro x hx
      rcases List.mem_append.mp hx with hx | hx
      · exact hk x hx
      · rw [List.mem_singleton.mp hx]; exact hk2
    · obtain ⟨xs, hx, hg, ha⟩ := hq q hqm
      have := hq2 q hqm
      rw [filter_snoc]
      split at this
      · rename_i hm
        obtain ⟨hr, a, hpa, hga⟩ := this
        rw [if_pos hm]
        refine ⟨xs ++ [a], mapM_snoc.mpr ⟨xs, a, hx, hpa, rfl⟩, ?_, ?_⟩
        · rw [hga, hg]; cases q.kind <;> simp [SlotKind.after, SlotKind.total]
        · rw [hg] at hr
          revert hr
          cases q.kind <;> simp [SlotKind.ready, SlotKind.total, SlotKind.allowed]
      · rename_i hm
        rw [if_neg hm]
        exact ⟨xs, hx, by rw [this, hg], ha⟩

theorem Lawful.complete {σ : Type} {step : σ → Tlv → Py σ} {slots : List (Slot σ)} {ignored : Tlv → Prop} (L : Lawful step slots ignored)
    {s0 : σ} (h0 : ∀ q ∈ slots, q.get s0 = []) (l : List Tlv) : (∀ t ∈ l, (∃ q ∈ slots, q.mine t = true) ∨ ignored t) →
      (∀ q ∈ slots, ∃ xs, (l.filter q.mine).mapM q.parse = .ok xs ∧ q.kind.allowed xs) → ∃ s', l.foldlM step s0 = .ok s' := by
  induction l using list_snoc_induction with
  | nil => exact fun _ _ => ⟨s0, rfl⟩
  | snoc l t ih =>
    intro hk hq
    have hstep : ∀ q ∈ slots, (∃ xs, (l.filter q.mine).mapM q.parse = .ok xs ∧ q.kind.allowed xs ∧
        (q.mine t = true → q.kind.ready (q.kind.total xs) ∧ ∃ a, q.parse t = .ok a)) := by
      intro q hqm
      obtain ⟨xs, hx, ha⟩ := hq q hqm
      rw [filter_snoc] at hx
      by_cases hm : q.mine t = true
      · rw [if_pos hm] at hx
        obtain ⟨ys, a, hy, hpa, rfl⟩ := mapM_snoc.mp hx
        refine ⟨ys, hy, ?_, fun _ => ⟨?_, a, hpa⟩⟩
        · revert ha
          cases q.kind <;> simp [SlotKind.allowed]
          intro h; simp [h]
        · revert ha
          cases q.kind <;> simp [SlotKind.allowed, SlotKind.ready, SlotKind.total]
      · rw [if_neg hm] at hx
        exact ⟨xs, hx, ha, fun h => absurd h hm⟩
    obtain ⟨s1, h1⟩ := ih (fun x hx => hk x (List.mem_append_left _ hx)) (fun q hqm => by
      obtain ⟨xs, hx, ha, _⟩ := hstep q hqm
      exact ⟨xs, hx, ha⟩)
    obtain ⟨s2, h2⟩ := L.run s1 t (hk t (by simp)) (by
      intro q hqm hm
      obtain ⟨xs, hx, ha, hr⟩ := hstep q hqm
      obtain ⟨xs', hx', hg, _⟩ := (L.sound h0 l s1 h1).2 q hqm
      cases Except.ok.inj (hx.symm.trans hx')
      rw [hg]
      exact hr hm)
    refine ⟨s2, ?_⟩
    rw [List.foldlM_append, h1, ok_bind, List.foldlM_cons, h2]
    rfl

/-! ## Steps -/

theorem once_ok {σ α β : Type} {o : Option β} {p : Py α} {f : α → σ} {s' : σ}
    (h : (pyAssert o.isNone >>= fun _ => p >>= fun a => pure (f a)) = .ok s') : o = none ∧ ∃ a, p = .ok a ∧ s' = f a := by
  obtain ⟨u, hu, h⟩ := bind_eq_ok.mp h
  obtain ⟨a, ha, h⟩ := bind_eq_ok.mp h
  exact ⟨by simpa using pyAssert_ok hu, a, ha, (Except.ok.inj h).symm⟩

theorem put_ok {σ α : Type} {p : Py α} {f : α → σ} {s' : σ}
    (h : (p >>= fun a => pure (f a)) = .ok s') : ∃ a, p = .ok a ∧ s' = f a := by
  obtain ⟨a, ha, h⟩ := bind_eq_ok.mp h
  exact ⟨a, ha, (Except.ok.inj h).symm⟩

/-! ### `auto_value_parse` -/

/-- A field of `auto_value_parse` is a member holding at most one object. -/
structure AutoLaw {σ : Type} (fields : List (AutoField σ)) (slots : List (Slot σ)) : Prop where
  /-- Every field has its slot, which is filled by the field and by no other one. -/
  slot : ∀ f ∈ fields, ∃ q ∈ slots, q.mine = fun t => t.type == f.type
  field : ∀ q ∈ slots, ∃ ty, (q.mine = fun t => t.type == ty) ∧ q.kind = .once ∧ ∃ f ∈ fields, f.type = ty ∧
    (∀ s, f.isSet s = false ↔ q.get s = []) ∧
    (∀ s t s', q.get s = [] → f.parse s t = .ok s' → ∃ a, q.parse t = .ok a ∧ q.get s' = q.get s ++ [a]) ∧
    (∀ s t a, q.parse t = .ok a → ∃ s', f.parse s t = .ok s') ∧
    ∀ g ∈ fields, g.type ≠ ty → ∀ s t s', g.parse s t = .ok s' → q.get s' = q.get s
  distinct : ∀ f ∈ fields, ∀ g ∈ fields, f.type = g.type → f = g

theorem auto_field {σ α : Type} {fields : List (AutoField σ)} {ty : Nat} {get : σ → Option α} {set : σ → α → σ}
    {parse : Tlv → Py α} (hm : autoField ty get set parse ∈ fields) (hset : ∀ s v, get (set s v) = some v)
    (hother : ∀ g ∈ fields, g.type ≠ ty → ∀ s t s', g.parse s t = .ok s' → get s' = get s) :
    ∃ ty', ((Slot.one ty parse get).mine = fun t => t.type == ty') ∧ (Slot.one ty parse get).kind = .once ∧
      ∃ f ∈ fields, f.type = ty' ∧
      (∀ s, f.isSet s = false ↔ (Slot.one ty parse get).get s = []) ∧
      (∀ s t s', (Slot.one ty parse get).get s = [] → f.parse s t = .ok s' →
        ∃ a, (Slot.one ty parse get).parse t = .ok a ∧ (Slot.one ty parse get).get s' = (Slot.one ty parse get).get s ++ [a]) ∧
      (∀ s t a, (Slot.one ty parse get).parse t = .ok a → ∃ s', f.parse s t = .ok s') ∧
      ∀ g ∈ fields, g.type ≠ ty' → ∀ s t s', g.parse s t = .ok s' → (Slot.one ty parse get).get s' = (Slot.one ty parse get).get s := by
  refine ⟨ty, rfl, rfl, _, hm, rfl, ?_, ?_, ?_, ?_⟩
  · intro s
    simp [autoField, Slot.one]
  · intro s t s' h0 h
    obtain ⟨a, ha, rfl⟩ := put_ok h
    refine ⟨a, ha, ?_⟩
    rw [h0]
    show (get (set s a)).toList = [a]
    rw [hset]
    rfl
  · intro s t a ha
    exact ⟨set s a, by show (parse t >>= fun v => pure (set s v)) = _; rw [show parse t = .ok a from ha]; rfl⟩
  · intro g hg hne s t s' h
    show (get s').toList = (get s).toList
    rw [hother g hg hne s t s' h]

theorem AutoLaw.lawful {σ : Type} {fields : List (AutoField σ)} {slots : List (Slot σ)} (A : AutoLaw fields slots) :
    Lawful (autoStep fields) slots (fun t => ∀ f ∈ fields, f.type ≠ t.type) where
  ok := by
    intro s t s' h
    unfold autoStep at h
    cases hf : fields.find? (fun f => f.type == t.type) with
    | none =>
      rw [hf] at h
      cases Except.ok.inj h
      have hn : ∀ f ∈ fields, f.type ≠ t.type := by
        intro f hfm
        have := List.find?_eq_none.mp hf f hfm
        simpa using this
      refine ⟨.inr hn, fun q hq => ?_⟩
      obtain ⟨ty, hm, _, f, hfm, hty, _⟩ := A.field q hq
      rw [if_neg]
      rw [hm]
      simp only [beq_iff_eq]
      intro h
      exact hn f hfm (hty.trans h.symm)
    | some f =>
      rw [hf] at h
      have hfm := List.mem_of_find?_eq_some hf
      have hft : f.type = t.type := by simpa using List.find?_some hf
      dsimp only at h
      split at h
      · cases h
      · rename_i hset
        obtain ⟨q0, hq0, hm0⟩ := A.slot f hfm
        refine ⟨.inl ⟨q0, hq0, by simp [hm0, hft]⟩, fun q hq => ?_⟩
        obtain ⟨ty, hm, hk, g, hgm, hty, hs, hp, _, hother⟩ := A.field q hq
        split
        · rename_i hmine
          rw [hm] at hmine
          simp only [beq_iff_eq] at hmine
          cases A.distinct f hfm g hgm (by rw [hft, hty, hmine])
          have hnone := (hs s).mp (by simpa using hset)
          rw [hk]
          exact ⟨hnone, hp s t s' hnone h⟩
        · rename_i hmine
          rw [hm] at hmine
          simp only [beq_iff_eq] at hmine
          exact hother f hfm (by rw [hft]; exact hmine) s t s' h
  run := by
    intro s t hk hq
    unfold autoStep
    cases hf : fields.find? (fun f => f.type == t.type) with
    | none => exact ⟨s, rfl⟩
    | some f =>
      have hfm := List.mem_of_find?_eq_some hf
      have hft : f.type = t.type := by simpa using List.find?_some hf
      obtain ⟨q, hqm, hm⟩ := A.slot f hfm
      obtain ⟨ty, hm', hk', g, hgm, hty, hs, _, hrun, _⟩ := A.field q hqm
      obtain ⟨hr, a, ha⟩ := hq q hqm (by simp [hm, hft])
      have : ty = t.type := by
        have := congrFun hm' t
        rw [hm] at this
        exact (by simpa [hft] using this : t.type = ty).symm
      cases A.distinct f hfm g hgm (by rw [hft, hty, this])
      rw [hk'] at hr
      dsimp only
      rw [(hs s).mpr hr]
      exact hrun s t a ha

end Ccnpy
