import Verif.Lemmas.OptimizerWaste
import Verif.Props.OptimizerProps
import Mathlib.Tactic.Ring

/-!
# Properties of the least-waste tree optimizer: C69
-/

namespace Ccnpy

/-! ## Specification -/

/-- `w` data pointers stay unused when `n` of them are put in a tree of `k` internal manifests that each have `d` direct
and `m` indirect pointers, `p` together. -/
def Spec.Wastes (n p d m : Nat) (k w : Int) : Prop :=
  d + m = p ∧ 1 ≤ d ∧ 0 ≤ w ∧ n + w = Spec.formulaCapacity k d m

/-! ## C69 -/

private theorem wastes_of_solution {L : FloatLog} {n p m : Nat} {r : OptimizerResult} (hn : 1 ≤ n) (hp : 2 ≤ p)
    (hn2 : n < 2 ^ 52) (hp2 : p < 2 ^ 52) (hm : m < p) (h : solutionFor L n p m = .ok (some r)) :
    r.indirect = m ∧ r.numDataObjects = n ∧ Spec.Wastes n p r.direct r.indirect r.internalNodes r.waste ∧
      ∀ d k w, Spec.Wastes n p d m k w → r.waste ≤ w := by
  have hform : r.direct = p - m ∧ r.indirect = m ∧ r.numDataObjects = n ∧
      r.waste = Spec.formulaCapacity r.internalNodes r.direct r.indirect - n := by
    unfold solutionFor at h
    obtain ⟨v, _, h⟩ := bind_eq_ok.mp h
    cases v with
    | none => cases h
    | some k =>
      obtain ⟨r', hr', h⟩ := bind_eq_ok.mp h
      cases h
      obtain ⟨t, _, _, _, rfl⟩ := create_fields hr'
      refine ⟨rfl, rfl, rfl, ?_⟩
      show calculateWaste n k (p - m) m = Spec.formulaCapacity k (p - m) m - n
      unfold calculateWaste calculateN Spec.formulaCapacity
      ring
  obtain ⟨hd, hi, hnn, hw⟩ := hform
  have hcapP : ∀ (d m : Nat) (k : Int), d + m = p → Spec.formulaCapacity k d m = k * (m * (p - 1) : Nat) + p := by
    intro d m k h
    unfold Spec.formulaCapacity
    have e : ((p - 1 : Nat) : Int) = (d : Int) + m - 1 := by omega
    push_cast
    rw [e]
    have e2 : (p : Int) = d + m := by omega
    rw [e2]; ring
  have hcap := hcapP r.direct r.indirect r.internalNodes (by omega)
  rw [hi] at hcap
  refine ⟨hi, hnn, ⟨by omega, by omega, ?_, by omega⟩, ?_⟩
  · rcases Nat.eq_zero_or_pos m with rfl | h0
    · obtain ⟨o, ho, hnone, _⟩ := solutionFor_zero L n p hn hp hn2
      have : n ≤ p := by
        by_contra hc
        rw [ho, hnone (by omega)] at h
        cases h
      rw [hw, hi, hcap]
      simp; omega
    · obtain ⟨r', t, hs', _, _, _, h1, _⟩ := solutionFor_pos L n p m hn hp h0 hm hn2 hp2
      rw [hs'] at h
      cases h
      rw [hw, hi, hcap]
      omega
  · rintro d k w ⟨hdm, hd1, hw0, hw1⟩
    rw [hcapP d m k hdm] at hw1
    rw [hw, hi, hcap]
    rcases Nat.eq_zero_or_pos m with rfl | h0
    · simp at *; omega
    · obtain ⟨r', t, hs', _, _, _, h1, h2⟩ := solutionFor_pos L n p m hn hp h0 hm hn2 hp2
      rw [hs'] at h
      cases h
      have hlt : (r.internalNodes - 1) * (m * (p - 1) : Nat) < k * (m * (p - 1) : Nat) := by omega
      have hle : r.internalNodes ≤ k := by
        have := Int.lt_of_mul_lt_mul_right hlt (by omega)
        omega
      have := Int.mul_le_mul_of_nonneg_right hle (Int.natCast_nonneg (m * (p - 1)))
      omega

/-- `minimize_waste` lists exactly the splits of least waste, one per fan-out, in order of fan-out. -/
theorem C69_least_waste (L : FloatLog) (n p : Nat) (hn : 1 ≤ n) (hp : 2 ≤ p) (hn2 : n < 2 ^ 52) (hp2 : p < 2 ^ 52) :
    ∃ rs, minimizeWaste L n p = .ok rs ∧ rs ≠ [] ∧ rs.Pairwise (fun a b => a.indirect < b.indirect) ∧
      ∀ r ∈ rs, r.numDataObjects = n ∧ Spec.Wastes n p r.direct r.indirect r.internalNodes r.waste ∧
        ∀ d m k w, Spec.Wastes n p d m k w → r.waste ≤ w ∧ (r.waste = w → ∃ r' ∈ rs, r'.direct = d ∧ r'.indirect = m) := by
  obtain ⟨rs, w0, hrs, hne, hsort, hmem, hleast⟩ := minimizeWaste_selects L n p hn hp hn2 hp2
  refine ⟨rs, hrs, hne, hsort, fun r hr => ?_⟩
  obtain ⟨m0, hm0, hs0, hw0⟩ := (hmem r).mp hr
  obtain ⟨_, hnn, hwst, _⟩ := wastes_of_solution hn hp hn2 hp2 hm0 hs0
  refine ⟨hnn, hwst, fun d m k w hspec => ?_⟩
  have hmp : m < p := by obtain ⟨h1, h2, _⟩ := hspec; omega
  -- the fan-out has a solution, as it can hold `n`
  have hsol : ∃ r', solutionFor L n p m = .ok (some r') := by
    rcases Nat.eq_zero_or_pos m with rfl | h0
    · obtain ⟨o, ho, _, hsome⟩ := solutionFor_zero L n p hn hp hn2
      have : n ≤ p := by
        obtain ⟨h1, h2, h3, h4⟩ := hspec
        unfold Spec.formulaCapacity at h4
        simp at h4; omega
      obtain ⟨r', ho', _⟩ := hsome this
      exact ⟨r', by rw [ho, ho']⟩
    · obtain ⟨r', _, hs', _⟩ := solutionFor_pos L n p m hn hp h0 hmp hn2 hp2
      exact ⟨r', hs'⟩
  obtain ⟨r', hs'⟩ := hsol
  obtain ⟨hi', _, hwst', hmin'⟩ := wastes_of_solution hn hp hn2 hp2 hmp hs'
  have h1 := hmin' d k w hspec
  have h2 := hleast m r' hmp hs'
  refine ⟨by omega, fun heq => ⟨r', (hmem r').mpr ⟨m, hmp, hs', by omega⟩, ?_, hi'⟩⟩
  obtain ⟨h3, _⟩ := hspec
  obtain ⟨h4, _⟩ := hwst'
  omega

/-- `minimize_waste_min_height` takes, of those, the lowest tree, and of the lowest the one of smallest fan-out; but it
gives up when all of them are `0xFFFFFFFF` high or more. -/
theorem C69_least_waste_then_height (L : FloatLog) (n p : Nat) (hn : 1 ≤ n) (hp : 2 ≤ p) (hn2 : n < 2 ^ 52)
    (hp2 : p < 2 ^ 52) :
    ∃ rs, minimizeWaste L n p = .ok rs ∧
      (minimizeWasteMinHeight L n p = .error .assertionError ∧ (∀ r ∈ rs, 0xFFFFFFFF ≤ r.height) ∨
        ∃ r ∈ rs, minimizeWasteMinHeight L n p = .ok r ∧ r.height < 0xFFFFFFFF ∧
          ∀ r' ∈ rs, r.height ≤ r'.height ∧ (r'.height = r.height → r.indirect ≤ r'.indirect)) := by
  obtain ⟨rs, w0, hrs, hne, hsort, hmem, hleast⟩ := minimizeWaste_selects L n p hn hp hn2 hp2
  refine ⟨rs, hrs, ?_⟩
  unfold minimizeWasteMinHeight
  rw [hrs]
  simp only [ok_bind]
  rcases foldl_minHeight rs with ⟨h, hf⟩ | ⟨r, as, bs, hf, rfl, hlt, has, hbs⟩
  · exact .inl ⟨by rw [hf], h⟩
  · refine .inr ⟨r, by simp, by rw [hf]; rfl, hlt, fun r' hr' => ?_⟩
    rw [List.pairwise_append, List.pairwise_cons] at hsort
    rcases List.mem_append.mp hr' with h | h
    · have := has r' h
      exact ⟨by omega, fun heq => by omega⟩
    · rcases List.mem_cons.mp h with rfl | h
      · exact ⟨by omega, fun _ => Nat.le_refl _⟩
      · exact ⟨hbs r' h, fun _ => Nat.le_of_lt (hsort.2.1.1 r' h)⟩

/-- With two pointers per manifest the only tree is a chain, so long files get no answer. -/
theorem C69_long_chain_fails (L : FloatLog) (n : Nat) (hn : 2 ^ 32 ≤ n) (hn2 : n < 2 ^ 52) :
    minimizeWasteMinHeight L n 2 = .error .assertionError := by
  obtain ⟨rs, hrs, h⟩ := C69_least_waste_then_height L n 2 (by omega) (by omega) hn2 (by omega)
  rcases h with ⟨h, _⟩ | ⟨r, hr, _, hlt, _⟩
  · exact h
  · exfalso
    obtain ⟨rs', w0, hrs', hne, _, hmem, _⟩ := minimizeWaste_selects L n 2 (by omega) (by omega) hn2 (by omega)
    rw [hrs] at hrs'
    cases hrs'
    obtain ⟨m, hm, hs, _⟩ := (hmem r).mp hr
    have hm1 : m = 1 := by
      rcases Nat.eq_zero_or_pos m with rfl | h0
      · obtain ⟨o, ho, hnone, _⟩ := solutionFor_zero L n 2 (by omega) (by omega) hn2
        rw [ho, hnone (by omega)] at hs
        cases hs
      · omega
    subst hm1
    obtain ⟨r', t, hs', _, hform, ht, h1, _⟩ := solutionFor_pos L n 2 1 (by omega) (by omega) (by omega) hm hn2 (by omega)
    rw [hs'] at hs
    cases hs
    have hh : r.height = t := by rw [hform]
    have hk : (n : Int) - r.internalNodes * (2 - 1 : Nat) < 2 ^ 53 := by simp at h1 ⊢; omega
    obtain ⟨h2, h3, _⟩ := numLeafNodes_spec n 2 (2 - 1) r.internalNodes (by omega) hk
    have : t = r.internalNodes + numLeafNodes n 2 (2 - 1) r.internalNodes := by
      unfold calcTreeHeight at ht
      rw [if_pos rfl] at ht
      exact (Except.ok.inj ht).symm
    simp at h1 h3 this
    omega

/-- The hypotheses are met: of 100 chunks and 10 pointers, the splits that waste nothing have fan-out 1, 2 and 5; the
first of least height is taken. -/
example : (minimizeWaste Spec.exactLog 100 10).map (·.map fun r => (r.direct, r.indirect, r.internalNodes, r.waste, r.height)) =
      .ok [(9, 1, 10, 0, 11), (8, 2, 5, 0, 3), (5, 5, 2, 0, 2)] ∧
    (minimizeWasteMinHeight Spec.exactLog 100 10).map (fun r => (r.direct, r.indirect)) = .ok (5, 5) ∧
    (minimizeWasteMinHeight Spec.exactLog (2 ^ 33) 2).map (·.waste) = .error .assertionError := by decide +kernel

end Ccnpy
