import Verif.Lemmas.Schema
import Verif.Lemmas.EndToEnd
import Verif.Props.CoreProps

/-!
# Properties of name constructor contexts: C71
-/

namespace Ccnpy

/-! ## Specification -/

/-- How many locators a schema may have: exactly one under the hashed schema, none under the others. -/
def Spec.LocatorsAllowed : NcSchema → Prop
  | .hash l _ => ∃ x, l = some [x]
  | .prefixed _ l _ => l = none
  | .segmented _ _ l _ => l = none

/-- The definition with this id and schema can be encoded. -/
def Spec.DefFits (id : Nat) (s : NcSchema) : Prop := ∃ t, (⟨some id, some s⟩ : NcDef).tlv = .ok t

/-- A segmented schema whose names are `n` followed by a component of type `ty`. -/
def Spec.segmentedOf (n : Name) (ty : Nat) : NcSchema := .segmented (some n) (some ty) none none

/-! ## C71 -/

private theorem components_pyEq {a b : List NameComponent} (hl : a.length = b.length)
    (hz : (a.zip b).all (fun p => p.1.pyEq p.2) = true)
    (hv : a.map (fun c => (c.type, c.value)) = b.map (fun c => (c.type, c.value))) : a = b := by
  induction a generalizing b with
  | nil => cases b with
    | nil => rfl
    | cons _ _ => simp at hl
  | cons c a ih =>
    cases b with
    | nil => simp at hl
    | cons d b =>
      simp only [List.zip_cons_cons, List.all_cons, Bool.and_eq_true] at hz
      simp only [List.map_cons, List.cons.injEq, Prod.mk.injEq] at hv
      rw [ih (by simpa using hl) hz.2 hv.2]
      obtain ⟨⟨h1, h2⟩, _⟩ := hv
      have h3 := hz.1
      simp only [NameComponent.pyEq, Bool.and_eq_true, beq_iff_eq] at h3
      obtain ⟨ct, cv, ca⟩ := c
      obtain ⟨dt, dv, da⟩ := d
      simp only at h1 h2 h3
      rw [h1, h2, h3.2.1]

theorem Name.pyEq_eq {a b : Name} (h : a.pyEq b = true) : a = b := by
  simp only [Name.pyEq, Bool.and_eq_true, beq_iff_eq] at h
  obtain ⟨⟨hl, hz⟩, ht⟩ := h
  cases ha : a.tlv with
  | error e => simp [ha] at ht
  | ok s =>
    cases hb : b.tlv with
    | error e => simp [ha, hb] at ht
    | ok t =>
      simp only [ha, hb, Tlv.pyEq, Bool.and_eq_true, beq_iff_eq] at ht
      have hst : s = t := by
        obtain ⟨_, _, _, e1, _⟩ := Name.tlv_ok ha
        obtain ⟨_, _, _, e2, _⟩ := Name.tlv_ok hb
        subst e1 e2
        exact congrArg _ ht.2
      subst hst
      obtain ⟨_, _, _, _, hv⟩ := Name.tlv_ok ha
      have w1 : wireOf Name.tlv a = .ok s.bytes := by
        unfold wireOf; rw [ha, ok_bind, Tlv.serialize_eq, if_pos hv]
      have w2 : wireOf Name.tlv b = .ok s.bytes := by
        unfold wireOf; rw [hb, ok_bind, Tlv.serialize_eq, if_pos hv]
      have := C09_name_injective a b _ w1 w2
      obtain ⟨ac⟩ := a
      obtain ⟨bc⟩ := b
      exact congrArg _ (components_pyEq hl hz this)

theorem Link.pyEq_eq {a b : Link} {w : Bytes} (hw : a.wire = .ok w) (h : a.pyEq b = true) : a = b := by
  obtain ⟨an, ak, ad⟩ := a
  obtain ⟨bn, bk, bd⟩ := b
  unfold Link.pyEq at h
  simp only [Bool.and_eq_true, beq_iff_eq] at h
  obtain ⟨⟨⟨hn, _⟩, _⟩, hwire⟩ := h
  have hb : (⟨bn, bk, bd⟩ : Link).wire = .ok w := by
    rw [hw] at hwire
    cases hb : (⟨bn, bk, bd⟩ : Link).wire with
    | error e => rw [hb] at hwire; cases hwire
    | ok w' => rw [hb] at hwire; rw [Option.some.inj hwire]
  have h1 := link_RT hw
  rw [link_RT hb] at h1
  have h1 := Except.ok.inj h1
  simp only [Link.toBytes, Link.mk.injEq] at h1
  have hn : an = bn := by
    cases an with
    | none => cases bn with
      | none => rfl
      | some _ => cases hn
    | some x => cases bn with
      | none => cases hn
      | some y => rw [Name.pyEq_eq hn]
  rw [hn, h1.2.1, h1.2.2]

theorem Link.pyEq_refl {a : Link} {w : Bytes} (hw : a.wire = .ok w) : a.pyEq a = true := by
  have hn : ∀ n, a.name = some n → n.pyEq n = true := by
    intro n hn
    obtain ⟨l, hl, _⟩ := bind_eq_ok.mp hw
    unfold Link.members at hl
    obtain ⟨l1, h1, _⟩ := bind_eq_ok.mp hl
    rw [hn] at h1
    obtain ⟨t, ht, _⟩ := optTlv_some h1
    exact Name.pyEq_refl ht
  unfold Link.pyEq
  simp only [Bool.and_eq_true, beq_self_eq_true, and_true]
  refine ⟨⟨?_, ?_⟩, ?_⟩
  · cases h : a.name with
    | none => rfl
    | some n => exact hn n h
  · cases a.keyid with
    | none => rfl
    | some k => exact Tlv.pyEq_refl _
  · cases a.digest with
    | none => rfl
    | some k => exact Tlv.pyEq_refl _

private theorem create_iff {id : Nat} {s : NcSchema} {i : SchemaImpl} :
    SchemaImpl.create id s = .ok i ↔ i = ⟨id, s⟩ ∧ Spec.DefFits id s ∧ Spec.LocatorsAllowed s := by
  unfold SchemaImpl.create Spec.DefFits
  constructor
  · intro h
    obtain ⟨a, ha, h⟩ := bind_eq_ok.mp h
    obtain ⟨b, hb, h⟩ := bind_eq_ok.mp h
    obtain ⟨c, hc, h⟩ := bind_eq_ok.mp h
    obtain ⟨d, hd, h⟩ := bind_eq_ok.mp h
    cases h
    refine ⟨rfl, ⟨c, hc⟩, ?_⟩
    have none_of : ∀ l : Option (List Link), (∃ x, optTlv locatorsTlv l = .ok x) →
        ¬ (l.map List.length).getD 0 > 0 → l = none := by
      rintro (_ | _ | ⟨x, l⟩) ⟨y, hy⟩ hlen
      · rfl
      · obtain ⟨t, ht, _⟩ := optTlv_some hy
        cases ht
      · simp at hlen
    cases s with
    | hash l f =>
      have h : ((l.map List.length).getD 0 == 1) = true := pyAssert_ok hd
      rcases l with _ | _ | ⟨x, _ | _⟩
      · cases h
      · cases h
      · exact ⟨x, rfl⟩
      · simp at h
    | prefixed n l f =>
      obtain ⟨_, _, hb⟩ := bind_eq_ok.mp hb
      obtain ⟨x, hx, _⟩ := bind_eq_ok.mp hb
      change (if (l.map List.length).getD 0 > 0 then Except.error PyErr.valueError else Except.ok ()) = _ at hd
      split at hd
      · cases hd
      · rename_i hc
        exact none_of l ⟨x, hx⟩ hc
    | segmented n sf l f =>
      obtain ⟨_, _, hb⟩ := bind_eq_ok.mp hb
      obtain ⟨_, _, hb⟩ := bind_eq_ok.mp hb
      obtain ⟨x, hx, _⟩ := bind_eq_ok.mp hb
      change (if (l.map List.length).getD 0 > 0 then Except.error PyErr.valueError else Except.ok ()) = _ at hd
      split at hd
      · cases hd
      · rename_i hc
        exact none_of l ⟨x, hx⟩ hc
  · rintro ⟨rfl, ⟨t, ht⟩, hl⟩
    have hm := ht
    unfold NcDef.tlv NcDef.members at hm
    obtain ⟨m, hm, _⟩ := bind_eq_ok.mp hm
    obtain ⟨a, ha, hm⟩ := bind_eq_ok.mp hm
    obtain ⟨b, hb, _⟩ := bind_eq_ok.mp hm
    obtain ⟨a', ha', _⟩ := optTlv_some ha
    obtain ⟨b', hb', _⟩ := optTlv_some hb
    rw [ha', ok_bind, hb', ok_bind]
    have ht' : (SchemaImpl.mk id s).ncDef.tlv = .ok t := ht
    simp only [ht', ok_bind]
    have hc : s.implCheck = .ok () := by
      cases s with
      | hash l f =>
        obtain ⟨x, rfl⟩ := hl
        rfl
      | prefixed n l f =>
        have : l = none := hl
        subst this
        rfl
      | segmented n sf l f =>
        have : l = none := hl
        subst this
        rfl
    rw [hc]
    rfl

/-- Which parsed name constructor definitions can be used. -/
theorem C71_schema_accepted (d : NcDef) (i : SchemaImpl) : SchemaImpl.ofNcDef d = .ok i ↔
    ∃ id s, d = ⟨some id, some s⟩ ∧ i = ⟨id, s⟩ ∧ Spec.DefFits id s ∧ Spec.LocatorsAllowed s := by
  unfold SchemaImpl.ofNcDef
  obtain ⟨oid, os⟩ := d
  cases oid with
  | none => exact ⟨fun h => (by cases h), by rintro ⟨_, _, h, _⟩; cases h⟩
  | some id =>
    cases os with
    | none => exact ⟨fun h => (by cases h), by rintro ⟨_, _, h, _⟩; cases h⟩
    | some s =>
      simp only [create_iff]
      constructor
      · rintro ⟨h1, h2, h3⟩
        exact ⟨id, s, rfl, h1, h2, h3⟩
      · rintro ⟨id', s', h, h1, h2, h3⟩
        cases h
        exact ⟨h1, h2, h3⟩

/-- C71: a definition without an id raises AttributeError, one without a schema ValueError.  If it has both and can be encoded, locators
where there should be none raise ValueError, and another number than one of them in a hash schema AssertionError. -/
theorem C71_schema_refused (d : NcDef) :
    (d.ncId = none → SchemaImpl.ofNcDef d = .error .attributeError) ∧
    (d.ncId.isSome → d.schema = none → SchemaImpl.ofNcDef d = .error .valueError) ∧
    ∀ id s, d = ⟨some id, some s⟩ → Spec.DefFits id s → ¬ Spec.LocatorsAllowed s →
      SchemaImpl.ofNcDef d = .error (match s with | .hash _ _ => .assertionError | _ => .valueError) := by
  obtain ⟨oid, os⟩ := d
  refine ⟨?_, ?_, ?_⟩
  · intro h
    cases h
    rfl
  · intro h1 h2
    cases h2
    cases oid with
    | none => cases h1
    | some id => rfl
  · intro id s h hf hl
    cases h
    show SchemaImpl.create id s = _
    cases hc : SchemaImpl.create id s with
    | ok i => exact absurd (create_iff.mp hc).2.2 hl
    | error e =>
      obtain ⟨t, ht⟩ := hf
      have hm := ht
      unfold NcDef.tlv NcDef.members at hm
      obtain ⟨m, hm, _⟩ := bind_eq_ok.mp hm
      obtain ⟨a, ha, hm⟩ := bind_eq_ok.mp hm
      obtain ⟨b, hb, _⟩ := bind_eq_ok.mp hm
      obtain ⟨a', ha', _⟩ := optTlv_some ha
      obtain ⟨b', hb', _⟩ := optTlv_some hb
      unfold SchemaImpl.create at hc
      have ht' : (SchemaImpl.mk id s).ncDef.tlv = .ok t := ht
      rw [ha', ok_bind, hb', ok_bind] at hc
      simp only [ht', ok_bind] at hc
      rcases bind_eq_error.mp hc with hc | ⟨_, _, hc⟩
      · unfold NcSchema.implCheck at hc
        cases s with
        | hash l f =>
          dsimp only at hc ⊢
          unfold pyAssert at hc
          split at hc
          · cases hc
          · cases hc; rfl
        | prefixed n l f =>
          dsimp only at hc ⊢
          split at hc
          · cases hc; rfl
          · cases hc
        | segmented n sf l f =>
          dsimp only at hc ⊢
          split at hc
          · cases hc; rfl
          · cases hc
      · cases hc

/-- C71: a parsed definition without a schema, and a prefix schema with a locator. -/
example : SchemaImpl.ofNcDef ⟨some 1, none⟩ = .error .valueError ∧
    (∃ d, NcDef.parse ⟨T_NCDEF, (⟨T_NCID, [1]⟩ : Tlv).bytes⟩ = .ok d ∧ d.schema = none ∧ d.ncId.isSome) ∧
    Spec.DefFits 1 (.hash none none) ∧ ¬ Spec.LocatorsAllowed (.hash none none) := by
  refine ⟨rfl, ⟨⟨some 1, none⟩, by decide, rfl, rfl⟩, ⟨(⟨some 1, some (.hash none none)⟩ : NcDef).tlv.toOption.getD ⟨0, []⟩, by decide⟩, ?_⟩
  rintro ⟨x, h⟩
  cases h

private theorem named_of_fits {id : Nat} {n : Name} {ty : Nat} (h : Spec.DefFits id (Spec.segmentedOf n ty)) :
    ∃ t, n.tlv = .ok t := by
  obtain ⟨t, ht⟩ := h
  unfold NcDef.tlv NcDef.members at ht
  obtain ⟨m, hm, _⟩ := bind_eq_ok.mp ht
  obtain ⟨a, ha, hm⟩ := bind_eq_ok.mp hm
  obtain ⟨b, hb, _⟩ := bind_eq_ok.mp hm
  obtain ⟨b', hb', _⟩ := optTlv_some hb
  obtain ⟨x, hx, _⟩ := bind_eq_ok.mp hb'
  obtain ⟨y, hy, _⟩ := optTlv_some hx
  exact ⟨y, hy⟩

/-- The segmented schema: a name is needed, and the manifests and the data must get different prefixes. -/
theorem C71_segmented (nextId : Nat) (name mp dp : Option Name) (ml dl : Option (List Link)) (c : NameCtx) :
    NameCtx.create .segmented nextId name mp dp ml dl = .ok c ↔
      ∃ n, name = some n ∧ mp.getD n ≠ dp.getD n ∧
        Spec.DefFits nextId (Spec.segmentedOf (mp.getD n) T_MANIFESTID) ∧
        Spec.DefFits (nextId + 1) (Spec.segmentedOf (dp.getD n) T_CHUNKID) ∧
        c = ⟨⟨nextId, Spec.segmentedOf (mp.getD n) T_MANIFESTID⟩, ⟨nextId + 1, Spec.segmentedOf (dp.getD n) T_CHUNKID⟩, false⟩ := by
  unfold NameCtx.create
  cases name with
  | none => exact ⟨fun h => (by cases h), by rintro ⟨_, h, _⟩; cases h⟩
  | some n =>
    have e1 : (if mp.isNone = true then some n else mp) = some (mp.getD n) := by cases mp <;> rfl
    have e2 : (if dp.isNone = true then some n else dp) = some (dp.getD n) := by cases dp <;> rfl
    simp only [Option.isNone_some, Bool.false_eq_true, if_false, e1, e2, optNamePyEq]
    constructor
    · intro h
      generalize hm : mp.getD n = m at h
      generalize hd : dp.getD n = d at h
      split at h
      · cases h
      · rename_i hne
        unfold NameCtx.createNamed at h
        simp only [Bool.false_eq_true, if_false] at h
        obtain ⟨i, hi, h⟩ := bind_eq_ok.mp h
        obtain ⟨j, hj, h⟩ := bind_eq_ok.mp h
        cases h
        obtain ⟨rfl, f1, _⟩ := create_iff.mp hi
        obtain ⟨rfl, f2, _⟩ := create_iff.mp hj
        subst hm hd
        refine ⟨n, rfl, ?_, f1, f2, rfl⟩
        intro heq
        rw [← heq] at hne
        obtain ⟨t, ht⟩ := named_of_fits f1
        exact hne (Name.pyEq_refl ht)
    · rintro ⟨n', hn, hne, f1, f2, rfl⟩
      cases hn
      generalize mp.getD n = m at *
      generalize dp.getD n = d at *
      have : ¬ m.pyEq d = true := fun h => hne (Name.pyEq_eq h)
      rw [if_neg this]
      unfold NameCtx.createNamed
      simp only [Bool.false_eq_true, if_false]
      have h1 : SchemaImpl.create nextId (schemaFor .segmented none (some m) true) = .ok ⟨nextId, Spec.segmentedOf m T_MANIFESTID⟩ :=
        create_iff.mpr ⟨rfl, f1, rfl⟩
      have h2 : SchemaImpl.create (nextId + 1) (schemaFor .segmented none (some d) false) =
          .ok ⟨nextId + 1, Spec.segmentedOf d T_CHUNKID⟩ := create_iff.mpr ⟨rfl, f2, rfl⟩
      rw [h1, ok_bind, h2, ok_bind]
      rfl

/-- The refusals the segmented schema makes by design are `ValueError`s. -/
theorem C71_segmented_refused (nextId : Nat) (mp dp : Option Name) (ml dl : Option (List Link)) :
    NameCtx.create .segmented nextId none mp dp ml dl = .error .valueError ∧
    ∀ n t, (mp.getD n).tlv = .ok t → mp.getD n = dp.getD n →
      NameCtx.create .segmented nextId (some n) mp dp ml dl = .error .valueError := by
  refine ⟨rfl, fun n t ht heq => ?_⟩
  unfold NameCtx.create
  have e1 : (if mp.isNone = true then some n else mp) = some (mp.getD n) := by cases mp <;> rfl
  have e2 : (if dp.isNone = true then some n else dp) = some (dp.getD n) := by cases dp <;> rfl
  simp only [Option.isNone_some, Bool.false_eq_true, if_false, e1, e2, optNamePyEq]
  rw [← heq, if_pos (Name.pyEq_refl ht)]

/-- The prefix schema: one shared schema when manifests and data get the same prefix, else two. -/
theorem C71_prefixed (nextId : Nat) (name mp dp : Option Name) (ml dl : Option (List Link)) (c : NameCtx) :
    NameCtx.create .prefixed nextId name mp dp ml dl = .ok c ↔
      (mp.or name = dp.or name ∧ Spec.DefFits nextId (.prefixed (mp.or name) none none) ∧
        c = ⟨⟨nextId, .prefixed (mp.or name) none none⟩, ⟨nextId, .prefixed (mp.or name) none none⟩, true⟩) ∨
      (∃ m d, mp.or name = some m ∧ dp.or name = some d ∧ m ≠ d ∧ Spec.DefFits nextId (.prefixed (some m) none none) ∧
        Spec.DefFits (nextId + 1) (.prefixed (some d) none none) ∧
        c = ⟨⟨nextId, .prefixed (some m) none none⟩, ⟨nextId + 1, .prefixed (some d) none none⟩, false⟩) := by
  have fits_tlv : ∀ {id n}, Spec.DefFits id (.prefixed (some n) none none) → ∃ t, n.tlv = .ok t := by
    rintro id n ⟨t, ht⟩
    unfold NcDef.tlv NcDef.members at ht
    obtain ⟨m, hm, _⟩ := bind_eq_ok.mp ht
    obtain ⟨a, ha, hm⟩ := bind_eq_ok.mp hm
    obtain ⟨b, hb, _⟩ := bind_eq_ok.mp hm
    obtain ⟨b', hb', _⟩ := optTlv_some hb
    obtain ⟨x, hx, _⟩ := bind_eq_ok.mp hb'
    obtain ⟨y, hy, _⟩ := optTlv_some hx
    exact ⟨y, hy⟩
  unfold NameCtx.create
  have e1 : (if mp.isNone = true then name else mp) = mp.or name := by cases mp <;> rfl
  have e2 : (if dp.isNone = true then name else dp) = dp.or name := by cases dp <;> rfl
  simp only [e1, e2]
  generalize mp.or name = m
  generalize dp.or name = d
  cases m with
  | none =>
    cases d with
    | none =>
      show NameCtx.createNamed .prefixed nextId none none true = .ok c ↔ _
      unfold NameCtx.createNamed
      rw [if_pos rfl]
      constructor
      · intro h
        obtain ⟨i, hi, h⟩ := bind_eq_ok.mp h
        cases h
        obtain ⟨rfl, f1, _⟩ := create_iff.mp hi
        exact .inl ⟨rfl, f1, rfl⟩
      · rintro (⟨_, f1, rfl⟩ | ⟨_, _, h, _⟩)
        · have h1 : SchemaImpl.create nextId (schemaFor .prefixed none none false) = .ok ⟨nextId, .prefixed none none none⟩ :=
            create_iff.mpr ⟨rfl, f1, rfl⟩
          rw [h1, ok_bind]
          rfl
        · cases h
    | some d =>
      exact ⟨fun h => (by cases h), by rintro (⟨h, _⟩ | ⟨_, _, h, _⟩) <;> cases h⟩
  | some m =>
    cases d with
    | none =>
      exact ⟨fun h => (by cases h), by rintro (⟨h, _⟩ | ⟨_, _, _, h, _⟩) <;> cases h⟩
    | some d =>
      show NameCtx.createNamed .prefixed nextId (some m) (some d) (m.pyEq d) = .ok c ↔ _
      unfold NameCtx.createNamed
      constructor
      · intro h
        split at h
        · rename_i heq
          obtain rfl := Name.pyEq_eq heq
          obtain ⟨i, hi, h⟩ := bind_eq_ok.mp h
          cases h
          obtain ⟨rfl, f1, _⟩ := create_iff.mp hi
          exact .inl ⟨rfl, f1, rfl⟩
        · rename_i hne
          obtain ⟨i, hi, h⟩ := bind_eq_ok.mp h
          obtain ⟨j, hj, h⟩ := bind_eq_ok.mp h
          cases h
          obtain ⟨rfl, f1, _⟩ := create_iff.mp hi
          obtain ⟨rfl, f2, _⟩ := create_iff.mp hj
          refine .inr ⟨m, d, rfl, rfl, ?_, f1, f2, rfl⟩
          rintro rfl
          obtain ⟨t, ht⟩ := fits_tlv f1
          exact hne (Name.pyEq_refl ht)
      · rintro (⟨heq, f1, rfl⟩ | ⟨m', d', h1, h2, hne, f1, f2, rfl⟩)
        · cases heq
          obtain ⟨t, ht⟩ := fits_tlv f1
          rw [if_pos (Name.pyEq_refl ht)]
          have h1 : SchemaImpl.create nextId (schemaFor .prefixed none (some m) false) = .ok ⟨nextId, .prefixed (some m) none none⟩ :=
            create_iff.mpr ⟨rfl, f1, rfl⟩
          rw [h1, ok_bind]
          rfl
        · cases h1
          cases h2
          rw [if_neg (fun h => hne (Name.pyEq_eq h))]
          have h1 : SchemaImpl.create nextId (schemaFor .prefixed none (some m) true) = .ok ⟨nextId, .prefixed (some m) none none⟩ :=
            create_iff.mpr ⟨rfl, f1, rfl⟩
          have h2 : SchemaImpl.create (nextId + 1) (schemaFor .prefixed none (some d) false) =
              .ok ⟨nextId + 1, .prefixed (some d) none none⟩ := create_iff.mpr ⟨rfl, f2, rfl⟩
          rw [h1, ok_bind, h2, ok_bind]
          rfl

private theorem wire_of_fits {id : Nat} {x : Link} (h : Spec.DefFits id (.hash (some [x]) none)) : ∃ w, x.wire = .ok w := by
  obtain ⟨t, ht⟩ := h
  unfold NcDef.tlv NcDef.members at ht
  obtain ⟨m, hm, _⟩ := bind_eq_ok.mp ht
  obtain ⟨a, ha, hm⟩ := bind_eq_ok.mp hm
  obtain ⟨b, hb, _⟩ := bind_eq_ok.mp hm
  obtain ⟨b', hb', _⟩ := optTlv_some hb
  obtain ⟨y, hy, _⟩ := bind_eq_ok.mp hb'
  obtain ⟨z, hz, _⟩ := optTlv_some hy
  obtain ⟨l, hl, _⟩ := bind_eq_ok.mp hz
  obtain ⟨u, _, hu, _⟩ := listTlv_cons_ok hl
  unfold locatorTlv at hu
  split at hu
  · cases hu
  · obtain ⟨w, hw, _⟩ := linkTlv_ok hu
    exact ⟨w, hw⟩

/-- The hashed schema: a name is needed even if it is not used; each side has one locator, the name if none is given; one
shared schema when the locators are the same, else two. -/
theorem C71_hashed (nextId : Nat) (name mp dp : Option Name) (ml dl : Option (List Link)) (c : NameCtx) :
    NameCtx.create .hashed nextId name mp dp ml dl = .ok c ↔
      ∃ n t x y, name = some n ∧ locatorsTlv [{ name := some n }] = .ok t ∧
        ml.getD [{ name := some n }] = [x] ∧ dl.getD [{ name := some n }] = [y] ∧
        Spec.DefFits nextId (.hash (some [x]) none) ∧
        ((x = y ∧ c = ⟨⟨nextId, .hash (some [x]) none⟩, ⟨nextId, .hash (some [x]) none⟩, true⟩) ∨
          (x ≠ y ∧ Spec.DefFits (nextId + 1) (.hash (some [y]) none) ∧
            c = ⟨⟨nextId, .hash (some [x]) none⟩, ⟨nextId + 1, .hash (some [y]) none⟩, false⟩)) := by
  show NameCtx.createHashed nextId name ml dl = .ok c ↔ _
  unfold NameCtx.createHashed
  constructor
  · intro h
    obtain ⟨root, hroot, h⟩ := bind_eq_ok.mp h
    obtain ⟨t, ht, hr⟩ := bind_eq_ok.mp hroot
    cases hr
    cases name with
    | none => cases ht
    | some n =>
      simp only at h
      split at h
      · rename_i heq
        obtain ⟨i, hi, h⟩ := bind_eq_ok.mp h
        cases h
        obtain ⟨rfl, f1, ⟨x, hx⟩⟩ := create_iff.mp hi
        cases hx' : ml.getD [{ name := some n }] with
        | nil => rw [hx'] at hx; cases hx
        | cons x' r =>
          rw [hx'] at hx f1 heq
          cases hx
          cases hy' : dl.getD [{ name := some n }] with
          | nil => rw [hy'] at heq; simp [locatorsPyEq] at heq
          | cons y' r' =>
            rw [hy'] at heq
            have hr' : r' = [] := by
              simp only [locatorsPyEq, Bool.and_eq_true, beq_iff_eq, List.length_cons] at heq
              exact List.length_eq_zero_iff.mp (by simpa using heq.1.symm)
            subst hr'
            obtain ⟨w, hw⟩ := wire_of_fits f1
            have hp : x.pyEq y' = true := by simpa [locatorsPyEq] using heq
            obtain rfl := Link.pyEq_eq hw hp
            exact ⟨n, t, x, x, rfl, ht, hx', hy', f1, .inl ⟨rfl, rfl⟩⟩
      · rename_i hne
        obtain ⟨i, hi, h⟩ := bind_eq_ok.mp h
        obtain ⟨j, hj, h⟩ := bind_eq_ok.mp h
        cases h
        obtain ⟨rfl, f1, ⟨x, hx⟩⟩ := create_iff.mp hi
        obtain ⟨rfl, f2, ⟨y, hy⟩⟩ := create_iff.mp hj
        have hx := Option.some.inj hx
        have hy := Option.some.inj hy
        rw [hx] at f1
        rw [hy] at f2
        refine ⟨n, t, x, y, rfl, ht, hx, hy, f1, .inr ⟨?_, f2, by rw [hx, hy]⟩⟩
        rintro rfl
        obtain ⟨w, hw⟩ := wire_of_fits f1
        apply hne
        rw [hx, hy]
        simp [locatorsPyEq, Link.pyEq_refl hw]
  · rintro ⟨n, t, x, y, rfl, ht, hx, hy, f1, h⟩
    have hr : construct locatorsTlv [{ name := some n }] = .ok [{ name := some n }] := by
      unfold construct; rw [ht, ok_bind]; rfl
    rw [hr, ok_bind]
    simp only [hx, hy]
    obtain ⟨w, hw⟩ := wire_of_fits f1
    have h1 : SchemaImpl.create nextId (.hash (some [x]) none) = .ok ⟨nextId, .hash (some [x]) none⟩ :=
      create_iff.mpr ⟨rfl, f1, x, rfl⟩
    rcases h with ⟨rfl, rfl⟩ | ⟨hne, f2, rfl⟩
    · rw [if_pos (by simp [locatorsPyEq, Link.pyEq_refl hw]), h1, ok_bind]
      rfl
    · have h2 : SchemaImpl.create (nextId + 1) (.hash (some [y]) none) = .ok ⟨nextId + 1, .hash (some [y]) none⟩ :=
        create_iff.mpr ⟨rfl, f2, y, rfl⟩
      have : ¬ locatorsPyEq [x] [y] = true := by
        intro h
        exact hne (Link.pyEq_eq hw (by simpa [locatorsPyEq] using h))
      rw [if_neg this, h1, ok_bind, h2, ok_bind]
      rfl

/-- The hypotheses are met: two prefixes under the segmented schema; one prefix for both is refused there and shared under
the prefix schema; two locators on one side are refused under the hashed schema. -/
example :
    let a : Name := ⟨[⟨1, [97], false⟩]⟩
    let b : Name := ⟨[⟨1, [98], false⟩]⟩
    (NameCtx.create .segmented 1 (some a) none (some b) none none).map (·.ncDefs.length) = .ok 2 ∧
    (NameCtx.create .segmented 1 (some a) none none none none) = .error .valueError ∧
    (NameCtx.create .prefixed 1 (some a) none (some a) none none).map (·.ncDefs.length) = .ok 1 ∧
    (NameCtx.create .prefixed 1 none none (some a) none none) = .error .attributeError ∧
    (NameCtx.create .hashed 1 (some a) none none none (some [{ name := some b }])).map (·.ncDefs.length) = .ok 2 ∧
    (NameCtx.create .hashed 1 (some a) none none none (some [{ name := some b }, { name := some a }])) =
      .error .assertionError := by decide +kernel

end Ccnpy
