import Verif.Lemmas.Optimizer
import Mathlib.Tactic.Ring

/-!
# Properties of the tree optimizer: C40, C41
-/

namespace Ccnpy

/-! ## Specification -/

/-- Number of data pointers held by `k` internal manifests that are all full, with their leaf manifests all full. -/
def Spec.formulaCapacity (k : Int) (d m : Nat) : Int := k * (m * ((d : Int) + m - 1)) + d + m

/-- Number of data pointers held by a full tree: a leaf holds `d + m`, an interior manifest `d` and `m` subtrees. -/
def Spec.treeCapacity (d m : Nat) : Nat → Nat
  | 0 => d + m
  | h + 1 => d + m * Spec.treeCapacity d m h

/-- Number of manifests in a full tree. -/
def Spec.treeNodes (m : Nat) : Nat → Nat
  | 0 => 1
  | h + 1 => 1 + m * Spec.treeNodes m h

/-- `ceilLogMinus1 x b` is at least the exact `⌈log_b x - 1⌉`. -/
def FloatLog.NotLow (L : FloatLog) : Prop :=
  ∀ x b, 2 ≤ b → 2 ≤ x → 0 ≤ L.ceilLogMinus1 x b ∧ x ≤ b ^ ((L.ceilLogMinus1 x b).toNat + 1)

/-- `ceilLogMinus1 x b` is at most the exact `⌈log_b x - 1⌉`. -/
def FloatLog.NotHigh (L : FloatLog) : Prop :=
  ∀ x b, 2 ≤ b → 2 ≤ x → b ^ (L.ceilLogMinus1 x b).toNat < x

/-! ## C40 -/

theorem C40_optimizer_minimises_internal_nodes (L : FloatLog) (n p : Nat) (hp : 2 ≤ p) (hnp : p < n) (hn : n < 2 ^ 52) :
    ∃ r, minimizeKMinWaste L n p = .ok r ∧ r.numDataObjects = n ∧
      r.direct + r.indirect = p ∧ 1 ≤ r.direct ∧ 1 ≤ r.indirect ∧
      (n : Int) - p ≤ r.internalNodes * ((p : Int) - 1) ^ 2 ∧ (r.internalNodes - 1) * ((p : Int) - 1) ^ 2 < (n : Int) - p ∧
      n ≤ Spec.formulaCapacity r.internalNodes r.direct r.indirect ∧
      r.waste = Spec.formulaCapacity r.internalNodes r.direct r.indirect - n ∧
      (∀ (d m : Nat) (k : Int), d + m = p → 1 ≤ d → n ≤ Spec.formulaCapacity k d m → r.internalNodes ≤ k) ∧
      (∀ d m : Nat, d + m = p → 1 ≤ d → n ≤ Spec.formulaCapacity r.internalNodes d m →
        r.waste ≤ Spec.formulaCapacity r.internalNodes d m - n) := by
  obtain ⟨r, m0, hr, hm0, hsol, hbest⟩ := minimizeKMinWaste_selects L n p (by omega) hp hn (by omega)
  have hm1 : 1 ≤ m0 := by
    rcases Nat.eq_zero_or_pos m0 with rfl | h
    · obtain ⟨o, ho, hnone, _⟩ := solutionFor_zero L n p (by omega) hp hn
      rw [ho, hnone hnp] at hsol
      cases hsol
    · exact h
  obtain ⟨r', t, hs', hk, hform, ht, h1, h2⟩ := solutionFor_pos L n p m0 (by omega) hp hm1 hm0 hn (by omega)
  rw [hs'] at hsol
  cases hsol
  have hd : r.direct = p - m0 := by rw [hform]
  have hi : r.indirect = m0 := by rw [hform]
  have hnn : r.numDataObjects = n := by rw [hform]
  have hcapP : ∀ (d m : Nat) (k : Int), d + m = p → Spec.formulaCapacity k d m = k * (m * (p - 1) : Nat) + p := by
    intro d m k h
    unfold Spec.formulaCapacity
    have e : ((p - 1 : Nat) : Int) = (d : Int) + m - 1 := by omega
    push_cast
    rw [e]
    have e2 : (p : Int) = d + m := by omega
    rw [e2]; ring
  have hw : r.waste = r.internalNodes * (m0 * (p - 1) : Nat) + p - n := by
    have : r.waste = calculateWaste n r.internalNodes (p - m0) m0 := by rw [hform]
    rw [this]
    unfold calculateWaste calculateN
    have e : ((p - m0 : Nat) : Int) = p - m0 := by omega
    have e2 : ((p - 1 : Nat) : Int) = p - 1 := by omega
    push_cast
    rw [e, e2]; ring
  -- every split that holds `n` has a solution at least as good
  have hsplit : ∀ (d m : Nat) (k : Int), d + m = p → 1 ≤ d → n ≤ Spec.formulaCapacity k d m →
      ∃ r', solutionFor L n p m = .ok (some r') ∧ m < p ∧ r'.internalNodes ≤ k ∧
        r'.waste = Spec.formulaCapacity r'.internalNodes d m - n := by
    intro d m k hdm hd1 hc
    have hm1 : 1 ≤ m := by
      rcases Nat.eq_zero_or_pos m with rfl | h
      · rw [hcapP d 0 k hdm] at hc; simp at hc; omega
      · exact h
    obtain ⟨r', t', hs', hk', hform', ht', h1', h2'⟩ := solutionFor_pos L n p m (by omega) hp hm1 (by omega) hn (by omega)
    refine ⟨r', hs', by omega, ?_, ?_⟩
    · rw [hcapP d m k hdm] at hc
      have hlt : (r'.internalNodes - 1) * (m * (p - 1) : Nat) < k * (m * (p - 1) : Nat) := by omega
      have := Int.lt_of_mul_lt_mul_right hlt (by omega)
      omega
    · have : r'.waste = calculateWaste n r'.internalNodes (p - m) m := by rw [hform']
      rw [this, show p - m = d by omega]
      unfold calculateWaste calculateN Spec.formulaCapacity
      ring
  have hleast : ∀ (d m : Nat) (k : Int), d + m = p → 1 ≤ d → n ≤ Spec.formulaCapacity k d m → r.internalNodes ≤ k := by
    intro d m k hdm hd1 hc
    obtain ⟨r', hs', hmp, hle, _⟩ := hsplit d m k hdm hd1 hc
    have := (hbest m r' hmp hs').1
    omega
  have hcap0 : n ≤ Spec.formulaCapacity r.internalNodes r.direct r.indirect := by
    rw [hcapP _ _ _ (by omega), hi]; omega
  -- the split with one direct pointer attains the bound `⌈(n - p)/(p - 1)²⌉`
  obtain ⟨r1, _, hs1, _, _, _, h11, h12⟩ := solutionFor_pos L n p (p - 1) (by omega) hp (by omega) (by omega) hn (by omega)
  have hsq : (((p - 1) * (p - 1) : Nat) : Int) = ((p : Int) - 1) ^ 2 := by
    have e2 : ((p - 1 : Nat) : Int) = p - 1 := by omega
    push_cast; rw [e2]; ring
  rw [hsq] at h11 h12
  have hle1 : r.internalNodes ≤ r1.internalNodes := (hbest (p - 1) r1 (by omega) hs1).1
  have hk1 : 0 ≤ r.internalNodes := by
    by_contra hneg
    have : r.internalNodes * (m0 * (p - 1) : Nat) ≤ 0 * (m0 * (p - 1) : Nat) :=
      Int.mul_le_mul_of_nonneg_right (by omega) (by omega)
    omega
  have hup : (n : Int) - p ≤ r.internalNodes * ((p : Int) - 1) ^ 2 := by
    refine Int.le_trans h1 (Int.mul_le_mul_of_nonneg_left ?_ hk1)
    rw [← hsq]
    have : m0 * (p - 1) ≤ (p - 1) * (p - 1) := Nat.mul_le_mul_right _ (by omega)
    omega
  refine ⟨r, hr, hnn, by omega, by omega, by omega, hup, ?_, hcap0, ?_, hleast, ?_⟩
  · refine Int.lt_of_le_of_lt (Int.mul_le_mul_of_nonneg_right ?_ ?_) h12
    · omega
    · rw [← hsq]; omega
  · rw [hw, hcapP _ _ _ (by omega), hi]
  · intro d m hdm hd1 hc
    obtain ⟨r', hs', hmp, hle, hw'⟩ := hsplit d m _ hdm hd1 hc
    have hb := hbest m r' hmp hs'
    have : r'.internalNodes = r.internalNodes := by omega
    have := (hb.2 this).1
    rw [hw'] at this
    rename_i e
    rw [e] at this
    exact this

/-- Ties in waste do not occur for more than one manifest of data, so the smallest workable fan-out is taken. -/
theorem C40_smallest_fan_out (L : FloatLog) (n p : Nat) (hp : 2 ≤ p) (hnp : p < n) (hn : n < 2 ^ 52) :
    ∃ r, minimizeKMinWaste L n p = .ok r ∧
      ∀ d m : Nat, d + m = p → 1 ≤ d → n ≤ Spec.formulaCapacity r.internalNodes d m → r.indirect ≤ m := by
  obtain ⟨r, hr, _, hdm, _, _, hsq1, _, _, hw, _, hmin⟩ := C40_optimizer_minimises_internal_nodes L n p hp hnp hn
  refine ⟨r, hr, fun d m h hd hc => ?_⟩
  have := hmin d m h hd hc
  rw [hw] at this
  have hk : 0 < r.internalNodes := by
    by_contra hneg
    have := Int.mul_le_mul_of_nonneg_right (a := r.internalNodes) (b := 0) (c := ((p : Int) - 1) ^ 2) (by omega)
      (by rw [pow_two]; exact Int.mul_nonneg (by omega) (by omega))
    omega
  unfold Spec.formulaCapacity at this
  rw [show (r.direct : Int) + r.indirect - 1 = p - 1 by omega, show (d : Int) + m - 1 = p - 1 by omega] at this
  have h' : (r.internalNodes * (p - 1)) * r.indirect ≤ (r.internalNodes * (p - 1)) * m := by
    have e1 : (r.internalNodes * (p - 1)) * r.indirect = r.internalNodes * (r.indirect * (p - 1)) := by ring
    have e2 : (r.internalNodes * (p - 1)) * (m : Int) = r.internalNodes * (m * (p - 1)) := by ring
    omega
  have := Int.le_of_mul_le_mul_left h' (Int.mul_pos hk (by omega))
  omega

/-- One manifest's worth of data still gets a fan-out of one child manifest per interior manifest. -/
theorem C40_small_files (L : FloatLog) (n p : Nat) (hp : 2 ≤ p) (hp2 : p < 2 ^ 52) (h1 : 1 ≤ n) (hnp : n ≤ p) :
    ∃ r, minimizeKMinWaste L n p = .ok r ∧ r.direct = p - 1 ∧ r.indirect = 1 ∧ r.leafNodes = 1 ∧
      r.internalNodes = (if n = 1 then -1 else 0) ∧ r.height = (if n = 1 then 0 else 1) := by
  have hn2 : n < 2 ^ 52 := by omega
  obtain ⟨r, m0, hr, hm0, hsol, hbest⟩ := minimizeKMinWaste_selects L n p h1 hp hn2 hp2
  -- every fan-out `m ≥ 1` has `k = 0`, but for `m = n = 1`
  have hk : ∀ m r', 1 ≤ m → m < p → solutionFor L n p m = .ok (some r') →
      r'.internalNodes = (if n = 1 ∧ m = 1 then -1 else 0) ∧ (¬ (n = 1 ∧ m = 1) → r'.waste = p - n) := by
    intro m r' hm hmp hs
    obtain ⟨r'', t, hs', _, hform, _, g1, g2⟩ := solutionFor_pos L n p m h1 hp hm hmp hn2 hp2
    rw [hs] at hs'
    cases hs'
    have hk : r'.internalNodes = (if n = 1 ∧ m = 1 then -1 else 0) := by
      refine ceil_unique g1 g2 ?_ ?_
      · split
        · rename_i h; obtain ⟨h, rfl⟩ := h; omega
        · omega
      · split
        · rename_i h; obtain ⟨h, rfl⟩ := h; omega
        · rename_i h
          by_cases hm' : m = 1
          · subst hm'; omega
          · have : 2 * (p - 1) ≤ m * (p - 1) := Nat.mul_le_mul_right _ (by omega)
            omega
    refine ⟨hk, fun hne => ?_⟩
    rw [hform]
    simp only [hk, if_neg hne]
    unfold calculateWaste calculateN
    omega
  obtain ⟨r1, t1, hs1, _, hform1, ht1, _, _⟩ := solutionFor_pos L n p 1 h1 hp (by omega) (by omega) hn2 hp2
  have hk1 := hk 1 r1 (by omega) (by omega) hs1
  have hm1 : m0 = 1 := by
    have hb := hbest 1 r1 (by omega) hs1
    rcases Nat.eq_zero_or_pos m0 with rfl | hpos
    · obtain ⟨o, ho, _, hz⟩ := solutionFor_zero L n p h1 hp hn2
      obtain ⟨r0, rfl, hz⟩ := hz hnp
      rw [ho] at hsol
      cases hsol
      have := hk1.1
      split at this <;> omega
    · by_contra hne
      have hk0 := hk m0 r hpos hm0 hsol
      rw [if_neg (by omega)] at hk0
      by_cases hn1 : n = 1
      · rw [if_pos ⟨hn1, rfl⟩] at hk1; omega
      · rw [if_neg (by omega)] at hk1
        have := (hb.2 (by omega)).2 (by omega)
        have h2 := hk0.2 (by omega)
        have h3 := hk1.2 (by omega)
        omega
  subst hm1
  rw [hs1] at hsol
  cases hsol
  have hkv : r.internalNodes = (if n = 1 then -1 else 0) := by rw [hk1.1]; simp
  have hleaf : numLeafNodes n p (p - 1) r.internalNodes = 1 := by
    have e : (n : Int) - r.internalNodes * (p - 1 : Nat) = if n = 1 then (p : Int) else n := by
      rw [hkv]; split <;> omega
    obtain ⟨_, g2, g3⟩ := numLeafNodes_spec n p (p - 1) r.internalNodes (by omega) (by rw [e]; split <;> omega)
    rw [e] at g2 g3
    exact ceil_unique g2 (g3 (by split <;> omega)) (by split <;> omega) (by split <;> omega)
  refine ⟨r, hr, by rw [hform1], by rw [hform1], by rw [hform1]; exact hleaf, hkv, ?_⟩
  rw [hleaf] at ht1
  unfold calcTreeHeight at ht1
  rw [if_pos rfl] at ht1
  have : r.height = t1 := by rw [hform1]
  rw [this, ← Except.ok.inj ht1, hkv]
  split <;> rfl

/-- Exactly when the optimizer builds a chain (one child per interior manifest). -/
theorem C40_chain_iff (L : FloatLog) (n p : Nat) (hp : 2 ≤ p) (h1 : 1 ≤ n) (hn : n < 2 ^ 52) (hp2 : p < 2 ^ 52) :
    ∃ r, minimizeKMinWaste L n p = .ok r ∧ (r.indirect = 1 ↔ p = 2 ∨ n ≤ 2 * p - 1) := by
  by_cases hnp : p < n
  · obtain ⟨r, hr, _, hdm, hd1, hm1, hk1, hk2, hc, hw, hleast, hmin⟩ :=
      C40_optimizer_minimises_internal_nodes L n p hp hnp hn
    refine ⟨r, hr, ?_⟩
    constructor
    · intro hi
      by_contra hno
      -- one internal manifest per `(p - 1)²` chunks would do, a chain needs one per `p - 1`
      unfold Spec.formulaCapacity at hc
      rw [hi, show (r.direct : Int) + (1 : Nat) - 1 = p - 1 by omega] at hc
      have hc2 : (n : Int) - p ≤ r.internalNodes * (p - 1) := by
        have : r.internalNodes * (((1 : Nat) : Int) * ((p : Int) - 1)) = r.internalNodes * (p - 1) := by push_cast; ring
        omega
      have hkk : 2 ≤ r.internalNodes := by
        by_contra h
        have : r.internalNodes * ((p : Int) - 1) ≤ 1 * ((p : Int) - 1) := Int.mul_le_mul_of_nonneg_right (by omega) (by omega)
        omega
      have hlt : ((r.internalNodes - 1) * ((p : Int) - 1)) * ((p : Int) - 1) < r.internalNodes * ((p : Int) - 1) := by
        have : ((r.internalNodes - 1) * ((p : Int) - 1)) * ((p : Int) - 1) = (r.internalNodes - 1) * ((p : Int) - 1) ^ 2 := by
          ring
        omega
      have hlt := Int.lt_of_mul_lt_mul_right hlt (by omega)
      have : (r.internalNodes - 1) * 2 ≤ (r.internalNodes - 1) * ((p : Int) - 1) :=
        Int.mul_le_mul_of_nonneg_left (by omega) (by omega)
      omega
    · rintro h
      have hone : n ≤ Spec.formulaCapacity r.internalNodes (p - 1) 1 := by
        unfold Spec.formulaCapacity
        rw [show ((p - 1 : Nat) : Int) + (1 : Nat) - 1 = p - 1 by omega]
        rcases h with rfl | h
        · norm_num at hk1 ⊢; omega
        · have hkk : 1 ≤ r.internalNodes := by
            by_contra hneg
            have := Int.mul_le_mul_of_nonneg_right (a := r.internalNodes) (b := 0) (c := ((p : Int) - 1) ^ 2) (by omega)
              (by rw [pow_two]; exact Int.mul_nonneg (by omega) (by omega))
            omega
          have : 1 * ((p : Int) - 1) ≤ r.internalNodes * ((p : Int) - 1) := Int.mul_le_mul_of_nonneg_right hkk (by omega)
          have : r.internalNodes * (((1 : Nat) : Int) * ((p : Int) - 1)) = r.internalNodes * (p - 1) := by push_cast; ring
          omega
      obtain ⟨r', hr', hsm⟩ := C40_smallest_fan_out L n p hp hnp hn
      rw [hr] at hr'
      cases hr'
      have := hsm (p - 1) 1 (by omega) (by omega) hone
      omega
  · obtain ⟨r, hr, _, hi, _⟩ := C40_small_files L n p hp hp2 h1 (by omega)
    exact ⟨r, hr, by omega⟩

/-- With nothing to store the optimizer takes the logarithm of zero. -/
theorem C40_empty_file_raises (L : FloatLog) (p : Nat) (hp : 1 ≤ p) : minimizeKMinWaste L 0 p = .error .valueError := by
  obtain ⟨q, rfl⟩ : ∃ q, p = q + 1 := ⟨p - 1, by omega⟩
  unfold minimizeKMinWaste minimizeK
  rw [List.range_succ_eq_map, List.foldlM_cons]
  have : minimizeKStep L 0 (q + 1) {} 0 = .error .valueError := by
    unfold minimizeKStep calculateK
    simp [OptimizerResult.create, calcTreeHeight, mathLog, bind, Except.bind]
  rw [this]
  rfl

/-- With room for one pointer per manifest the optimizer always raises. -/
theorem C40_one_pointer_raises (L : FloatLog) (n : Nat) :
    ∃ e, minimizeKMinWaste L n 1 = .error e := by
  rcases Nat.lt_or_ge 1 n with h | h
  · refine ⟨.assertionError, ?_⟩
    unfold minimizeKMinWaste minimizeK
    simp [List.range_succ, minimizeKStep, calculateK, h, bind, Except.bind, pure, Except.pure]
  · rcases (by omega : n = 0 ∨ n = 1) with rfl | rfl
    · exact ⟨_, C40_empty_file_raises L 1 (by omega)⟩
    · refine ⟨.zeroDivisionError, ?_⟩
      unfold minimizeKMinWaste minimizeK
      simp [List.range_succ, minimizeKStep, calculateK, OptimizerResult.create, calcTreeHeight, mathLog, bind, Except.bind]

/-- The hypotheses are met: 100 chunks, 10 pointers per manifest; a file of 19 is a chain and one of 20 is not. -/
example : (2 ≤ 10 ∧ 10 < 100 ∧ 100 < 2 ^ 52) ∧
    (minimizeKMinWaste ⟨fun _ _ => 0, fun _ _ => 0⟩ 100 10).map (fun r => (r.direct, r.indirect, r.internalNodes)) =
      .ok (5, 5, 2) ∧
    (minimizeKMinWaste ⟨fun _ _ => 0, fun _ _ => 0⟩ 19 10).map (·.indirect) = .ok 1 ∧
    (minimizeKMinWaste ⟨fun _ _ => 0, fun _ _ => 0⟩ 20 10).map (·.indirect) = .ok 2 := by decide +kernel

/-! ## C41 -/

theorem treeNodes_pow (m h : Nat) : Spec.treeNodes m h * m + 1 = Spec.treeNodes m (h + 1) := by
  rw [Spec.treeNodes, Nat.mul_comm, Nat.add_comm]

theorem pow_eq_treeNodes (m h : Nat) (hm : 1 ≤ m) : m ^ (h + 1) = (m - 1) * Spec.treeNodes m h + 1 := by
  obtain ⟨q, rfl⟩ : ∃ q, m = q + 1 := ⟨m - 1, by omega⟩
  simp only [Nat.add_sub_cancel]
  induction h with
  | zero => simp [Spec.treeNodes]
  | succ h ih => rw [pow_succ, ih, Spec.treeNodes]; ring

/-- `d` per interior manifest, `p` per leaf. -/
theorem treeCapacity_succ (d m h : Nat) (hm : 1 ≤ m) :
    Spec.treeCapacity d m (h + 1) = Spec.treeNodes m h * (m * (d + m - 1)) + (d + m) := by
  obtain ⟨q, rfl⟩ : ∃ q, m = q + 1 := ⟨m - 1, by omega⟩
  rw [show d + (q + 1) - 1 = d + q by omega]
  induction h with
  | zero => simp only [Spec.treeCapacity, Spec.treeNodes]; ring
  | succ h ih => rw [Spec.treeCapacity, ih, Spec.treeNodes]; ring

theorem treeCapacity_zero (d m : Nat) : Spec.treeCapacity d m 0 = d + m := rfl

/-- The result `r` is what the minimizers make for the split `(d, m)`. -/
def Spec.ResultFor (L : FloatLog) (n d m : Nat) (r : OptimizerResult) : Prop :=
  ∃ k, calculateK n d m = .ok (some k) ∧ OptimizerResult.create L n (d + m) d m k (calculateWaste n k d m) = .ok r

theorem resultFor_fields {L : FloatLog} {n d m : Nat} {r : OptimizerResult} (hr : Spec.ResultFor L n d m r)
    (hn1 : 1 ≤ n) (hd : 1 ≤ d) (hm : 1 ≤ m) (hn : n < 2 ^ 52) (hp : d + m < 2 ^ 52) :
    calcTreeHeight L n d m (r.internalNodes + r.leafNodes) = .ok r.height ∧
      (n : Int) - (d + m : Nat) ≤ r.internalNodes * (m * (d + m - 1) : Nat) ∧
      (r.internalNodes - 1) * (m * (d + m - 1) : Nat) < (n : Int) - (d + m : Nat) ∧
      0 ≤ r.leafNodes ∧ (n : Int) - r.internalNodes * d ≤ r.leafNodes * (d + m : Nat) ∧
      (0 < (n : Int) - r.internalNodes * d → (r.leafNodes - 1) * (d + m : Nat) < (n : Int) - r.internalNodes * d) := by
  obtain ⟨k, hk, hc⟩ := hr
  obtain ⟨k', hk', h1, h2⟩ := calculateK_spec n (d + m) m (by omega) hm (by omega) hn hp
  rw [show d + m - m = d by omega, hk] at hk'
  cases hk'
  obtain ⟨t, ht, _, _, rfl⟩ := create_fields hc
  have hk1 := k_ge hn1 (by omega) hm h1
  have hdk : (n : Int) - k * d < 2 ^ 53 := by
    have : (-1) * (d : Int) ≤ k * (d : Int) := Int.mul_le_mul_of_nonneg_right hk1 (by omega)
    omega
  obtain ⟨h3, h4, h5⟩ := numLeafNodes_spec n (d + m) d k (by omega) hdk
  exact ⟨ht, h1, h2, h3, h4, h5⟩

/-- With `m ≥ 2`, `T` manifests fit a tree of height `h` exactly when its capacity is `n`. -/
theorem total_le_iff {n d m h : Nat} {k l : Int} (hd : 1 ≤ d) (hm : 2 ≤ m) (hn1 : 1 ≤ n)
    (h1 : (n : Int) - (d + m : Nat) ≤ k * (m * (d + m - 1) : Nat))
    (h2 : (k - 1) * (m * (d + m - 1) : Nat) < (n : Int) - (d + m : Nat))
    (h4 : (n : Int) - k * d ≤ l * (d + m : Nat))
    (h5 : 0 < (n : Int) - k * d → (l - 1) * (d + m : Nat) < (n : Int) - k * d) :
    (k + l ≤ Spec.treeNodes m h ↔ n ≤ Spec.treeCapacity d m h) := by
  have hk0 : 0 ≤ k := k_nonneg hn1 (by omega) hm h1
  have e : ((d + m - 1 : Nat) : Int) = d + m - 1 := by omega
  push_cast at *
  rw [e] at h1 h2
  -- there is always data left for the leaf manifests
  have hlow : 1 ≤ k → (k - 1) * (m - 1) * ((d : Int) + m) + m < (n : Int) - k * d := by
    intro _
    have e2 : (k - 1) * (m - 1) * ((d : Int) + m) + m =
        (k - 1) * (m * ((d : Int) + m - 1)) + (d + m) - k * d := by ring
    omega
  have hpos : 0 < (n : Int) - k * d := by
    rcases (by omega : k = 0 ∨ 1 ≤ k) with rfl | hk1
    · simp; omega
    · have := hlow hk1
      have : 0 ≤ (k - 1) * (m - 1) * ((d : Int) + m) :=
        Int.mul_nonneg (Int.mul_nonneg (by omega) (by omega)) (by omega)
      omega
  have h5 := h5 hpos
  have hu : k + l ≤ k * m + 1 := by
    have hle : (l - 1) * ((d : Int) + m) < (k * (m - 1) + 1) * ((d : Int) + m) := by
      have e2 : (k * (m - 1) + 1) * ((d : Int) + m) = k * (m * ((d : Int) + m - 1)) + (d + m) - k * d := by ring
      omega
    have := Int.lt_of_mul_lt_mul_right hle (by omega)
    have e3 : k * ((m : Int) - 1) = k * m - k := by ring
    omega
  have hl : 1 ≤ k → (k - 1) * m + 2 ≤ k + l := by
    intro hk1
    have hlt : (k - 1) * (m - 1) * ((d : Int) + m) < l * ((d : Int) + m) := by have := hlow hk1; omega
    have := Int.lt_of_mul_lt_mul_right hlt (by omega)
    have e3 : (k - 1) * ((m : Int) - 1) = (k - 1) * m - k + 1 := by ring
    omega
  cases h with
  | zero =>
    simp only [Spec.treeNodes, Spec.treeCapacity]
    have hl1 : 1 ≤ l := by
      have : 0 * ((d : Int) + m) < l * ((d : Int) + m) := by omega
      have := Int.lt_of_mul_lt_mul_right this (by omega)
      omega
    constructor
    · intro h
      have hk : k = 0 := by omega
      subst hk
      omega
    · intro h
      have : (k - 1) * (m * ((d : Int) + m - 1)) < 0 * (m * ((d : Int) + m - 1)) := by omega
      have := Int.lt_of_mul_lt_mul_right this (Int.mul_nonneg (by omega) (by omega))
      have hk : k = 0 := by omega
      subst hk
      omega
  | succ h =>
    rw [treeCapacity_succ d m h (by omega), Spec.treeNodes]
    have hcap : (n : Int) ≤ (Spec.treeNodes m h * (m * (d + m - 1)) + (d + m) : Nat) ↔ k ≤ Spec.treeNodes m h := by
      push_cast
      rw [e]
      constructor
      · intro hc
        have : (k - 1) * (m * ((d : Int) + m - 1)) < Spec.treeNodes m h * (m * ((d : Int) + m - 1)) := by omega
        have := Int.lt_of_mul_lt_mul_right this (Int.mul_nonneg (by omega) (by omega))
        omega
      · intro hc
        have : k * (m * ((d : Int) + m - 1)) ≤ Spec.treeNodes m h * (m * ((d : Int) + m - 1)) :=
          Int.mul_le_mul_of_nonneg_right hc (Int.mul_nonneg (by omega) (by omega))
        omega
    rw [← Int.ofNat_le, hcap]
    push_cast
    constructor
    · intro ht
      rcases (by omega : k = 0 ∨ 1 ≤ k) with rfl | hk1
      · omega
      · have hl := hl hk1
        have : (k - 1) * m < Spec.treeNodes m h * m := by
          have : (m : Int) * Spec.treeNodes m h = Spec.treeNodes m h * m := by ring
          omega
        have := Int.lt_of_mul_lt_mul_right this (by omega)
        omega
    · intro hc
      have : k * m ≤ Spec.treeNodes m h * m := Int.mul_le_mul_of_nonneg_right hc (by omega)
      have : (m : Int) * Spec.treeNodes m h = Spec.treeNodes m h * m := by ring
      omega

/-- The argument of the logarithm, compared with powers of the fan-out. -/
theorem log_arg_le_iff {m h : Nat} {T : Int} (hm : 2 ≤ m) (hT : 0 ≤ T) :
    (((m : Int) - 1) * T + 1).toNat ≤ m ^ (h + 1) ↔ T ≤ Spec.treeNodes m h := by
  obtain ⟨t, rfl⟩ := Int.eq_ofNat_of_zero_le hT
  rw [pow_eq_treeNodes m h (by omega)]
  have e : (((m : Int) - 1) * t + 1).toNat = (m - 1) * t + 1 := by
    have : ((m : Int) - 1) * t + 1 = (((m - 1) * t + 1 : Nat) : Int) := by
      have : ((m - 1 : Nat) : Int) = m - 1 := by omega
      push_cast; rw [this]
    rw [this, Int.toNat_natCast]
  rw [e]
  constructor
  · intro h'
    have : (m - 1) * t ≤ (m - 1) * Spec.treeNodes m h := by omega
    have := Nat.le_of_mul_le_mul_left this (by omega)
    omega
  · intro h'
    have := Nat.mul_le_mul_left (m - 1) (show t ≤ Spec.treeNodes m h by omega)
    omega

theorem leaf_pos {n d m : Nat} {k l : Int} (hd : 1 ≤ d) (hm : 2 ≤ m) (hn1 : 1 ≤ n)
    (h1 : (n : Int) - (d + m : Nat) ≤ k * (m * (d + m - 1) : Nat)) (h3 : 0 ≤ l)
    (h4 : (n : Int) - k * d ≤ l * (d + m : Nat)) : 1 ≤ k + l := by
  have hk0 : 0 ≤ k := k_nonneg hn1 (by omega) hm h1
  by_contra h
  have hk : k = 0 := by omega
  have hl : l = 0 := by omega
  subst hk hl
  omega

/-- With `m ≥ 2` the computed height is enough for all the chunks, provided the C library's logarithm does not come out
too small. -/
theorem C41_height_suffices (L : FloatLog) (hL : L.NotLow) (n d m : Nat) (r : OptimizerResult)
    (hr : Spec.ResultFor L n d m r) (hn1 : 1 ≤ n) (hd : 1 ≤ d) (hm : 2 ≤ m) (hn : n < 2 ^ 52) (hp : d + m < 2 ^ 52) :
    0 ≤ r.height ∧ n ≤ Spec.treeCapacity d m r.height.toNat := by
  obtain ⟨ht, h1, h2, h3, h4, h5⟩ := resultFor_fields hr hn1 hd (by omega) hn hp
  have hT := leaf_pos hd hm hn1 h1 h3 h4
  have hmul : 1 * 1 ≤ ((m : Int) - 1) * (r.internalNodes + r.leafNodes) := Int.mul_le_mul (by omega) hT (by omega) (by omega)
  unfold calcTreeHeight at ht
  rw [if_neg (by omega), if_neg (by omega), mathLog_ok _ _ _ (by omega) (by omega)] at ht
  obtain ⟨hl1, hl2⟩ := hL (((m : Int) - 1) * (r.internalNodes + r.leafNodes) + 1).toNat m hm (by omega)
  rw [Except.ok.inj ht] at hl1 hl2
  exact ⟨hl1, (total_le_iff hd hm hn1 h1 h2 h4 h5).mp ((log_arg_le_iff hm (by omega)).mp hl2)⟩

/-- With `m ≥ 2` no smaller height is enough, provided the C library's logarithm does not come out too large. -/
theorem C41_height_least (L : FloatLog) (hL : L.NotHigh) (n d m : Nat) (r : OptimizerResult)
    (hr : Spec.ResultFor L n d m r) (hn1 : 1 ≤ n) (hd : 1 ≤ d) (hm : 2 ≤ m) (hn : n < 2 ^ 52) (hp : d + m < 2 ^ 52)
    (h : Nat) (hlt : (h : Int) < r.height) : Spec.treeCapacity d m h < n := by
  obtain ⟨ht, h1, h2, h3, h4, h5⟩ := resultFor_fields hr hn1 hd (by omega) hn hp
  have hT := leaf_pos hd hm hn1 h1 h3 h4
  have hmul : 1 * 1 ≤ ((m : Int) - 1) * (r.internalNodes + r.leafNodes) := Int.mul_le_mul (by omega) hT (by omega) (by omega)
  unfold calcTreeHeight at ht
  rw [if_neg (by omega), if_neg (by omega), mathLog_ok _ _ _ (by omega) (by omega)] at ht
  have hl := hL (((m : Int) - 1) * (r.internalNodes + r.leafNodes) + 1).toNat m hm (by omega)
  rw [Except.ok.inj ht] at hl
  by_contra hc
  have hfit := (log_arg_le_iff (h := h) hm (by omega)).mpr ((total_le_iff hd hm hn1 h1 h2 h4 h5).mpr (by omega))
  have : m ^ (h + 1) ≤ m ^ r.height.toNat := Nat.pow_le_pow_right (by omega) (by omega)
  omega

/-- With `m = 1` the computed height is one more than the least sufficient height. -/
theorem C41_chain_height (L : FloatLog) (n d : Nat) (r : OptimizerResult) (hr : Spec.ResultFor L n d 1 r)
    (hn1 : 2 ≤ n) (hd : 1 ≤ d) (hn : n < 2 ^ 52) (hp : d + 1 < 2 ^ 52) :
    ∃ h : Nat, r.height = h + 1 ∧ n ≤ Spec.treeCapacity d 1 h ∧ ∀ h' < h, Spec.treeCapacity d 1 h' < n := by
  obtain ⟨ht, h1, h2, h3, h4, h5⟩ := resultFor_fields hr (by omega) hd (by omega) hn hp
  have hcap : ∀ h, Spec.treeCapacity d 1 h = h * d + (d + 1) := by
    intro h
    induction h with
    | zero => simp [Spec.treeCapacity]
    | succ h ih => rw [Spec.treeCapacity, ih]; ring
  unfold calcTreeHeight at ht
  rw [if_pos rfl] at ht
  have ht := Except.ok.inj ht
  generalize r.internalNodes = k at *
  generalize r.leafNodes = l at *
  rw [show d + 1 - 1 = d by omega, Nat.one_mul] at h1 h2
  have hk0 : 0 ≤ k := by
    by_contra h
    have : k * (d : Int) ≤ (-1) * d := Int.mul_le_mul_of_nonneg_right (by omega) (by omega)
    omega
  have e1 : (k - 1) * (d : Int) = k * d - d := by ring
  have hl : l = 1 := by
    have h5 := h5 (by omega)
    exact ceil_unique (b := d + 1) h4 h5 (by push_cast; omega) (by push_cast; omega)
  obtain ⟨h, rfl⟩ := Int.eq_ofNat_of_zero_le hk0
  refine ⟨h, by omega, ?_, ?_⟩
  · rw [hcap]; have : ((h * d : Nat) : Int) = (h : Int) * d := by push_cast; rfl
    push_cast at h1; omega
  · intro h' hlt
    rw [hcap]
    have : (h' + 1) * d ≤ h * d := Nat.mul_le_mul_right _ hlt
    have e2 : (h' + 1) * d = h' * d + d := by ring
    have : ((h * d : Nat) : Int) = (h : Int) * d := by push_cast; rfl
    push_cast at h2; omega

/-- The tree the optimizer selects has room for the whole file at the height it reports. -/
theorem C41_selected_tree_has_room (L : FloatLog) (hL : L.NotLow) (n p : Nat) (hp : 2 ≤ p) (h1 : 1 ≤ n) (hn : n < 2 ^ 52)
    (hp2 : p < 2 ^ 52) :
    ∃ r, minimizeKMinWaste L n p = .ok r ∧ 1 ≤ r.direct ∧ 1 ≤ r.indirect ∧ r.direct + r.indirect = p ∧ 0 ≤ r.height ∧
      n ≤ Spec.treeCapacity r.direct r.indirect r.height.toNat := by
  by_cases hnp : p < n
  · obtain ⟨r, m0, hr, hm0, hsol, _⟩ := minimizeKMinWaste_selects L n p h1 hp hn hp2
    obtain ⟨r', hr', _, hdm, hd1, hm1, _⟩ := C40_optimizer_minimises_internal_nodes L n p hp hnp hn
    rw [hr] at hr'
    cases hr'
    have hres : Spec.ResultFor L n r.direct r.indirect r := by
      unfold solutionFor at hsol
      obtain ⟨v, hv, hsol⟩ := bind_eq_ok.mp hsol
      cases v with
      | none => cases hsol
      | some k =>
        obtain ⟨r', hr', hsol⟩ := bind_eq_ok.mp hsol
        cases hsol
        obtain ⟨t, _, _, _, hf⟩ := create_fields hr'
        have e1 : r.direct = p - m0 := by rw [hf]
        have e2 : r.indirect = m0 := by rw [hf]
        refine ⟨k, by rw [e1, e2]; exact hv, ?_⟩
        rw [hdm, e1, e2]; exact hr'
    refine ⟨r, hr, hd1, hm1, hdm, ?_⟩
    rcases (by omega : r.indirect = 1 ∨ 2 ≤ r.indirect) with hi | hi
    · rw [hi] at hres ⊢
      obtain ⟨h, hh, hc, _⟩ := C41_chain_height L n r.direct r hres (by omega) hd1 hn (by omega)
      refine ⟨by omega, ?_⟩
      rw [show r.height.toNat = h + 1 by omega, Spec.treeCapacity]
      omega
    · exact C41_height_suffices L hL n r.direct r.indirect r hres h1 hd1 hi hn (by omega)
  · obtain ⟨r, hr, hd, hi, _, _, hh⟩ := C40_small_files L n p hp hp2 h1 (by omega)
    refine ⟨r, hr, by omega, by omega, by omega, by rw [hh]; split <;> omega, ?_⟩
    have : n ≤ Spec.treeCapacity r.direct r.indirect 0 := by rw [Spec.treeCapacity]; omega
    rw [hh, hi] at *
    split
    · exact this
    · show n ≤ Spec.treeCapacity r.direct 1 1
      rw [Spec.treeCapacity]; omega

/-- An exact logarithm: the least `c` with `x ≤ b^(c+1)`, searched from `c` up with fuel. -/
def Spec.exactLogFrom (x b : Nat) : Nat → Nat → Nat
  | 0, c => c
  | fuel + 1, c => if x ≤ b ^ (c + 1) then c else Spec.exactLogFrom x b fuel (c + 1)

theorem exactLogFrom_spec (x b : Nat) (hb : 2 ≤ b) (fuel c : Nat) (hf : x ≤ fuel + c) (hlow : b ^ c < x) :
    x ≤ b ^ (Spec.exactLogFrom x b fuel c + 1) ∧ b ^ (Spec.exactLogFrom x b fuel c) < x := by
  induction fuel generalizing c with
  | zero =>
    refine ⟨?_, hlow⟩
    have := Nat.lt_pow_self (n := c + 1) (a := b) (by omega)
    show x ≤ b ^ (c + 1)
    omega
  | succ fuel ih =>
    rw [Spec.exactLogFrom]
    split
    · rename_i h; exact ⟨h, hlow⟩
    · rename_i h; exact ih (c + 1) (by omega) (by omega)

/-- The exact `⌈log_b x - 1⌉`. -/
def Spec.exactLog : FloatLog := ⟨fun _ _ => 0, fun x b => Spec.exactLogFrom x b x 0⟩

/-- Both hypotheses on the logarithm are met by exact arithmetic. -/
theorem exactLog_notLow : Spec.exactLog.NotLow :=
  fun x b hb hx => ⟨Int.natCast_nonneg _, (exactLogFrom_spec x b hb x 0 (by omega) (by simp; omega)).1⟩

theorem exactLog_notHigh : Spec.exactLog.NotHigh :=
  fun x b hb hx => (exactLogFrom_spec x b hb x 0 (by omega) (by simp; omega)).2

/-- 1000 chunks, 5 direct and 5 indirect pointers: height 3, capacity 1405, against 280 for height 2. -/
example : ∃ r, Spec.ResultFor Spec.exactLog 1000 5 5 r ∧ r.height = 3 ∧ Spec.treeCapacity 5 5 3 = 1405 ∧
    Spec.treeCapacity 5 5 2 = 280 :=
  ⟨⟨1000, 10, 5, 5, 22, 0, 89, 3⟩, ⟨22, by decide +kernel, by decide +kernel⟩, rfl, rfl, rfl⟩

/-- The library's logarithm can come out too large (`math.log(125, 5)` is a little more than 3): the tree is then built one
level higher than needed. -/
example : ∃ r, Spec.ResultFor ⟨fun _ _ => 0, fun x b => if x = 125 ∧ b = 5 then 3 else Spec.exactLogFrom x b x 0⟩ 280 5 5 r ∧
    r.height = 3 ∧ 280 ≤ Spec.treeCapacity 5 5 2 :=
  ⟨⟨280, 10, 5, 5, 6, 0, 25, 3⟩, ⟨6, by decide +kernel, by decide +kernel⟩, rfl, by decide⟩

end Ccnpy
