import Verif.Lemmas.Display
import Verif.Lemmas.TreeRun
import Verif.Lemmas.Halts

/-!
# Manifest ids: the initial counters, distinctness, and the exceptions of the builder
-/

namespace Ccnpy

/-! ## The builder's own steps raise no markers -/

/-- The AEAD primitive raises only ordinary exceptions. -/
def Prims.SealHonest (P : Prims) : Prop := ∀ alg key iv pt aad, Halts (P.aeadSeal alg key iv pt aad)

instance (i : Name) (c : NameComponent) : Halts (i.append c) := by unfold Name.append; infer_instance
instance (a : Nat) (n : Int) : Halts (suffixComponent a n) := by unfold suffixComponent; infer_instance
instance (i : SchemaImpl) (id : Option Int) : Halts (i.getName id) := by
  unfold SchemaImpl.getName
  split
  · infer_instance
  · infer_instance
  · split
    · split <;> infer_instance
    · infer_instance
instance (n : Node) : Halts n.serializedValue := by unfold Node.serializedValue; infer_instance
instance (k : AeadKey) : Halts k.mode := by unfold AeadKey.mode; split <;> infer_instance
instance (p : AeadParams) (n : Bytes) : Halts (p.aeadData n) := by
  unfold AeadParams.aeadData
  split <;> infer_instance

theorem encryptWithCtx_halts {P : Prims} (hP : P.SealHonest) (p : AeadParams) (node : Node) (c : SecurityCtx) :
    Halts (p.encryptWithCtx P node c) := by
  unfold AeadParams.encryptWithCtx
  split
  · infer_instance
  · rename_i k hk
    have : ∀ iv pt aad, Halts (k.encrypt P iv pt aad) := by
      intro iv pt aad
      unfold AeadKey.encrypt
      have := hP k.alg k.key iv pt aad
      infer_instance
    infer_instance

theorem aeadEncrypt_halts {P : Prims} (hP : P.SealHonest) (p : AeadParams) (nonce : Bytes) (node : Node) :
    Halts (aeadEncrypt P p nonce node) := by
  unfold aeadEncrypt
  have := encryptWithCtx_halts hP p node
  infer_instance

theorem oaepEncrypt_halts {P : Prims} (hP : P.SealHonest) (p : AeadParams) (w : Option RsaOaepWrapper) (b : Bool) (nonce : Bytes) (node : Node) :
    Halts (oaepEncrypt P p w b nonce node) := by
  unfold oaepEncrypt
  have := encryptWithCtx_halts hP p node
  infer_instance

instance (s : Sealed) : Halts s.manifest := by unfold Sealed.manifest; infer_instance
instance (m : Manifest) (n : Option Name) (x : Option F64) : Halts (m.contentObject n x) := by
  unfold Manifest.contentObject; infer_instance
instance (b : ContentObject) : Halts (Packet.createContentObject b) := by unfold Packet.createContentObject; infer_instance

theorem buildManifest_halts {E : Env} (hP : E.prims.SealHonest) {o : TreeOptions} {node : Node} {full : Bool} {s s' : BState}
    {e : PyErr} (h : buildManifest E o node full s = (.error e, s')) : ¬ e.Marker := by
  unfold buildManifest at h
  cases ho : o.encryptor with
  | none =>
    simp only [ho] at h
    rcases PyS.liftBind_error h with ⟨h, _⟩ | ⟨_, _, h⟩
    · exact Halts.real e h
    · cases h
  | some enc =>
    cases enc with
    | aead p =>
      simp only [ho] at h
      rcases PyS.bind_error h with h | ⟨_, _, _, h⟩
      · cases h
      · rcases PyS.bind_error h with h | ⟨_, _, _, h⟩
        · cases h
        · obtain ⟨h, _⟩ := PyS.lift_error h
          have := aeadEncrypt_halts hP
          exact Halts.real e h
    | oaep p w =>
      simp only [ho] at h
      rcases PyS.bind_error h with h | ⟨_, _, _, h⟩
      · cases h
      · rcases PyS.bind_error h with h | ⟨_, _, _, h⟩
        · cases h
        · obtain ⟨h, _⟩ := PyS.lift_error h
          have := oaepEncrypt_halts hP
          exact Halts.real e h

theorem buildFromNode_halts {E : Env} (hP : E.prims.SealHonest) {o : TreeOptions} {node : Node} {name : Option Name}
    {x : Option F64} {full : Bool} {s s' : BState} {e : PyErr}
    (h : buildFromNode E o node name x none full s = (.error e, s')) : ¬ e.Marker := by
  unfold buildFromNode at h
  rcases PyS.bind_error h with h | ⟨m, s1, _, h⟩
  · exact buildManifest_halts hP h
  · rcases PyS.liftBind_error h with ⟨h, _⟩ | ⟨w, _, h⟩
    · exact Halts.real e h
    · simp only at h
      split at h
      · obtain ⟨h, _⟩ := PyS.lift_error h
        obtain ⟨e', he, hs⟩ := m.tooLarge_error (α := Packet)
        rw [he] at h
        cases h
        rcases hs with rfl | rfl | rfl <;> rintro (h | h) <;> cases h
      · rcases PyS.liftBind_error h with ⟨h, _⟩ | ⟨b, _, h⟩
        · exact Halts.real e h
        · obtain ⟨h, _⟩ := PyS.lift_error h
          simp only [signPacket] at h
          exact Halts.real e h

/-- Making manifests never raises the markers. -/
theorem Rules.marker (T : TreeEnv) (hP : T.env.prims.SealHonest) (B : Int) : Rules T PyErr.Marker B where
  groups := fun _ _ _ _ e h => Halts.real e h
  data := fun _ _ _ _ e h => Halts.real e h
  node := fun _ _ e h => Halts.real e h
  name := fun _ _ e h => Halts.real e h
  build := fun _ _ _ _ _ _ _ _ _ h => buildFromNode_halts hP h
  ctx := fun _ _ => by rintro (h | h) <;> cases h

/-! ## Initial counters -/

theorem treeNodes_eq (m h : Nat) : Spec.treeNodes m (h + 1) = Spec.treeNodes m h + m ^ (h + 1) := by
  induction h with
  | zero => simp [Spec.treeNodes]
  | succ h ih =>
    have h1 : Spec.treeNodes m (h + 1 + 1) = 1 + m * Spec.treeNodes m (h + 1) := rfl
    have h2 : Spec.treeNodes m (h + 1) = 1 + m * Spec.treeNodes m h := rfl
    have h3 : m * Spec.treeNodes m (h + 1) = m * Spec.treeNodes m h + m * m ^ (h + 1) := by rw [ih, Nat.mul_add]
    rw [h1, h3, Nat.pow_succ m (h + 1), Nat.mul_comm (m ^ (h + 1)) m]
    omega

theorem treeNodes_pos (m h : Nat) : 1 ≤ Spec.treeNodes m h := by
  cases h <;> simp [Spec.treeNodes]

theorem treeNodes_mono (m : Nat) {a b : Nat} (h : a ≤ b) : Spec.treeNodes m a ≤ Spec.treeNodes m b := by
  induction b with
  | zero => rw [Nat.le_zero.mp h]
  | succ b ih =>
    rcases Nat.lt_or_eq_of_le h with h | rfl
    · have := ih (by omega)
      rw [treeNodes_eq]
      omega
    · exact Nat.le_refl _

/-- The counter of a height is exact while the powers fit 53 bits. -/
theorem lastIdForHeight_exact {k h : Nat} (hk : 1 ≤ k) (hex : k = 1 ∨ k ^ (h + 1) ≤ 2 ^ 53) :
    lastIdForHeight k h = .ok ((Spec.treeNodes k h : Int) - 1) := by
  unfold lastIdForHeight
  by_cases h1 : k = 1
  · subst h1
    rw [if_pos rfl]
    have : Spec.treeNodes 1 h = h + 1 := by
      induction h with
      | zero => rfl
      | succ h ih => rw [Spec.treeNodes, ih (.inl rfl)]; omega
    rw [this]
    congr 1
    omega
  · rw [if_neg h1]
    have hex : k ^ (h + 1) ≤ 2 ^ 53 := hex.resolve_left h1
    have hpow := pow_eq_treeNodes k h hk
    have hN := treeNodes_pos k h
    obtain ⟨N, hN'⟩ : ∃ N, Spec.treeNodes k h = N + 1 := ⟨Spec.treeNodes k h - 1, by omega⟩
    have hle : (N + 1) * 1 ≤ (k - 1) * (N + 1) := by
      rw [Nat.mul_comm]; exact Nat.mul_le_mul_right _ (by omega)
    rw [hN'] at hpow ⊢
    rw [show pyAssert (decide (k > 1)) = .ok () by unfold pyAssert; rw [decide_eq_true (by omega)]; rfl, ok_bind]
    have hq : k ^ (h + 1) - 1 = (N + 1) * (k - 1) := by rw [hpow, Nat.mul_comm]; omega
    have e1 := fl_scale (N + 1) 1 (k - 1) (by omega)
    rw [Nat.one_mul] at e1
    obtain ⟨s, hs⟩ := fl_nat (N + 1) (by omega)
    have hfl : fl (k ^ (h + 1) - 1) (k - 1) = ⟨(N + 1) * 2 ^ s, 2 ^ s⟩ := by rw [hq, e1, hs]
    have hpos : 0 < 2 ^ s := Nat.two_pow_pos s
    have hno : ¬ f64Overflow ≤ N + 1 := by
      have := f64_no_overflow (N + 1) (by omega)
      omega
    rw [hfl]
    simp only [F64.toInt, Nat.mul_div_cancel _ hpos]
    rw [if_neg hno]
    have e2 := fl_scale N 1 (2 ^ s) hpos
    rw [Nat.one_mul] at e2
    have : (N + 1) * 2 ^ s - 2 ^ s = N * 2 ^ s := by rw [Nat.succ_mul]; omega
    rw [this, e2]
    have e3 := fl_nat_toInt N (by omega)
    rw [F64.toInt] at e3
    rw [e3]
    congr 1
    omega

theorem mapM_ok_of {α β : Type} {f : α → Py β} {g : α → β} {l : List α} (h : ∀ a ∈ l, f a = .ok (g a)) : l.mapM f = .ok (l.map g) := by
  induction l with
  | nil => rfl
  | cons a l ih =>
    rw [List.mapM_cons, h a (by simp), ok_bind, ih (fun x hx => h x (by simp [hx])), ok_bind]
    rfl

/-- The powers fit 53 bits, or the tree is a chain. -/
def ExactIds (T : TreeEnv) : Prop := T.indirect = 1 ∨ T.indirect ^ (T.height.toNat + 1) ≤ 2 ^ 53

theorem initialIds_exact {T : TreeEnv} (hm : 0 < T.indirect) (hex : ExactIds T) :
    initialIds T.indirect T.height =
      .ok ((List.range (T.height + 1).toNat).map (fun h => (Spec.treeNodes T.indirect h : Int) - 1)) := by
  unfold initialIds
  refine mapM_ok_of fun h hh => lastIdForHeight_exact hm ?_
  rw [List.mem_range] at hh
  rcases hex with h1 | hex
  · exact .inl h1
  · exact .inr (Nat.le_trans (Nat.pow_le_pow_right hm (by omega)) hex)

theorem initialIds_get {T : TreeEnv} (hm : 0 < T.indirect) (hex : ExactIds T) {ids : List Int}
    (h : initialIds T.indirect T.height = .ok ids) (j : Nat) (hj : (j : Int) ≤ T.height) :
    ids[T.heightOf j]? = some ((Spec.treeNodes T.indirect (T.heightOf j) : Int) - 1) := by
  rw [initialIds_exact hm hex] at h
  cases h
  rw [List.getElem?_map, List.getElem?_range (by unfold TreeEnv.heightOf; omega)]
  rfl

theorem goodIds_of_exact {T : TreeEnv} (hm : 0 < T.indirect) (hex : ExactIds T) {ids : List Int}
    (h : initialIds T.indirect T.height = .ok ids) : GoodIds T ids :=
  fun j hj => ⟨_, initialIds_get hm hex h j hj, by omega⟩

theorem initialIds_le {T : TreeEnv} (hm : 0 < T.indirect) (hex : ExactIds T) {ids : List Int}
    (h : initialIds T.indirect T.height = .ok ids) : ∀ v ∈ ids, v ≤ (Spec.treeNodes T.indirect T.height.toNat : Int) - 1 := by
  rw [initialIds_exact hm hex] at h
  cases h
  intro v hv
  obtain ⟨k, hk, rfl⟩ := List.mem_map.mp hv
  rw [List.mem_range] at hk
  have := treeNodes_mono T.indirect (show k ≤ T.height.toNat by omega)
  omega

/-! ## Distinctness -/

/-- Later manifests of the same level have smaller ids, and every id is within the counter's range. -/
theorem idsFrom_range {T : TreeEnv} {l : List Info} {ids : List Int} (h : T.IdsFrom ids l) :
    ∀ i ∈ l, ∃ v, ids[T.heightOf i.level]? = some v ∧ (i.id : Int) ≤ v ∧ v - (levelCount l i.level : Int) < i.id := by
  induction l generalizing ids with
  | nil => simp
  | cons k l ih =>
    intro i hi
    obtain ⟨h1, h2, h3⟩ := h
    rcases List.mem_cons.mp hi with rfl | hi
    · refine ⟨_, h2, Int.le_refl _, ?_⟩
      simp only [levelCount, List.countP_cons, beq_self_eq_true, if_true]
      omega
    · obtain ⟨v, hv, hle, hlt⟩ := ih h3 i hi
      rw [List.getElem?_modify] at hv
      obtain ⟨w, hw, rfl⟩ := Option.map_eq_some_iff.mp hv
      refine ⟨w, hw, ?_, ?_⟩
      · revert hle; split <;> (intros; omega)
      · simp only [levelCount, List.countP_cons, beq_iff_eq] at hlt ⊢
        by_cases hlev : k.level = i.level
        · rw [if_pos (by rw [hlev])] at hlt
          rw [if_pos hlev]
          omega
        · rw [if_neg (fun hc => hlev (heightOf_inj h1 (idsFrom_level h3 i hi) hc))] at hlt
          rw [if_neg hlev]
          omega

theorem idsFrom_pairwise {T : TreeEnv} {l : List Info} {ids : List Int} (h : T.IdsFrom ids l) :
    l.Pairwise (fun a b => a.level = b.level → b.id < a.id) := by
  induction l generalizing ids with
  | nil => exact .nil
  | cons k l ih =>
    obtain ⟨h1, h2, h3⟩ := h
    refine List.pairwise_cons.mpr ⟨fun i hi hlev => ?_, ih h3⟩
    obtain ⟨v, hv, hle, _⟩ := idsFrom_range h3 i hi
    rw [← hlev, List.getElem?_modify, h2] at hv
    simp at hv
    omega

/-- With exact counters and no more than `m ^ h` manifests at each height all ids are different. -/
theorem ids_nodup {T : TreeEnv} {l : List Info} {ids : List Int} (h : T.IdsFrom ids l)
    (hids : ∀ j : Nat, (j : Int) ≤ T.height → ids[T.heightOf j]? = some ((Spec.treeNodes T.indirect (T.heightOf j) : Int) - 1))
    (hcount : ∀ j : Nat, (j : Int) ≤ T.height → levelCount l j ≤ T.indirect ^ (T.heightOf j)) : (l.map (·.id)).Nodup := by
  have hp := idsFrom_pairwise h
  have hr := idsFrom_range h
  have hl := idsFrom_level h
  rw [List.Nodup, List.pairwise_map]
  -- each id lies between the full trees of its own and the next lower height
  have hrange : ∀ i ∈ l, (i.id : Int) < Spec.treeNodes T.indirect (T.heightOf i.level) ∧
      ∀ j : Nat, (j : Int) ≤ T.height → T.heightOf j < T.heightOf i.level → (Spec.treeNodes T.indirect (T.heightOf j) : Int) ≤ i.id := by
    intro i hi
    obtain ⟨v, hv, hle, hlt⟩ := hr i hi
    have hlev := hl i hi
    rw [hids _ hlev] at hv
    have hv := Option.some.inj hv
    have hc := hcount _ hlev
    refine ⟨by omega, fun j hj hlt' => ?_⟩
    obtain ⟨q, hq⟩ : ∃ q, T.heightOf i.level = q + 1 := ⟨T.heightOf i.level - 1, by omega⟩
    have hm := treeNodes_mono T.indirect (show T.heightOf j ≤ q by omega)
    have he := treeNodes_eq T.indirect q
    rw [hq] at hv hc
    omega
  refine List.Pairwise.imp_of_mem ?_ hp
  intro a b ha hb hab
  by_cases hlev : a.level = b.level
  · have := hab hlev
    omega
  · obtain ⟨ha1, ha2⟩ := hrange a ha
    obtain ⟨hb1, hb2⟩ := hrange b hb
    have hne : T.heightOf a.level ≠ T.heightOf b.level := fun hc => hlev (heightOf_inj (hl a ha) (hl b hb) hc)
    rcases Nat.lt_or_gt_of_ne hne with hlt | hlt
    · have := hb2 a.level (hl a ha) hlt
      omega
    · have := ha2 b.level (hl b hb) hlt
      omega

end Ccnpy
