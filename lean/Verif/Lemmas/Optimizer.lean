import Verif.Model.Optimizer
import Verif.Lemmas.F64
import Verif.Lemmas.Fold
import Mathlib.Tactic.Linarith

namespace Ccnpy

theorem fl_between (a b : Nat) (hb : 0 < b) (ha : a < 2 ^ 53) :
    (∀ q, a = q * b → ∃ s, fl a b = ⟨q * 2 ^ s, 2 ^ s⟩) ∧
    (∀ q, q * b < a → q * (fl a b).den < (fl a b).num) ∧
    (∀ q, a < q * b → (fl a b).num < q * (fl a b).den) := by
  have hd := fl_den_pos a b
  obtain ⟨h1, h2⟩ := fl_error a b hb
  refine ⟨?_, ?_, ?_⟩
  · intro q hq
    have hq53 : q < 2 ^ 53 := by
      have : q * 1 ≤ q * b := Nat.mul_le_mul_left q hb
      omega
    obtain ⟨s, hs⟩ := fl_nat q hq53
    refine ⟨s, ?_⟩
    rw [hq]
    have := fl_scale q 1 b hb
    rw [Nat.one_mul] at this
    rw [this, hs]
  · intro q hq
    -- q*b + 1 ≤ a
    apply Nat.lt_of_mul_lt_mul_right (a := 2 ^ 53 * b)
    generalize (fl a b).den = D at *
    generalize (fl a b).num = N at *
    have e1 : q * D * (2 ^ 53 * b) = 2 ^ 53 * (q * b * D) := by
      simp only [Nat.mul_comm, Nat.mul_left_comm, Nat.mul_assoc]
    have e2 : N * (2 ^ 53 * b) = 2 ^ 53 * (N * b) := by
      simp only [Nat.mul_comm, Nat.mul_left_comm, Nat.mul_assoc]
    rw [e1, e2]
    have h3 : (q * b + 1) * D ≤ a * D := Nat.mul_le_mul_right D hq
    rw [Nat.add_mul, Nat.one_mul] at h3
    have h4 : a * D < 2 ^ 53 * D := Nat.mul_lt_mul_of_pos_right ha hd
    generalize q * b * D = X at *
    generalize a * D = Y at *
    generalize N * b = Z at *
    omega
  · intro q hq
    apply Nat.lt_of_mul_lt_mul_right (a := 2 ^ 53 * b)
    generalize (fl a b).den = D at *
    generalize (fl a b).num = N at *
    have e1 : q * D * (2 ^ 53 * b) = 2 ^ 53 * (q * b * D) := by
      simp only [Nat.mul_comm, Nat.mul_left_comm, Nat.mul_assoc]
    have e2 : N * (2 ^ 53 * b) = 2 ^ 53 * (N * b) := by
      simp only [Nat.mul_comm, Nat.mul_left_comm, Nat.mul_assoc]
    rw [e1, e2]
    have h3 : (a + 1) * D ≤ q * b * D := Nat.mul_le_mul_right D hq
    rw [Nat.add_mul, Nat.one_mul] at h3
    have h4 : a * D < 2 ^ 53 * D := Nat.mul_lt_mul_of_pos_right ha hd
    generalize q * b * D = X at *
    generalize a * D = Y at *
    generalize N * b = Z at *
    omega

/-- The float quotient of ints below 2^53 has the right floor. -/
theorem fl_floor (a b : Nat) (hb : 0 < b) (ha : a < 2 ^ 53) : (fl a b).toInt = a / b := by
  obtain ⟨h1, h2, h3⟩ := fl_between a b hb ha
  have hd := fl_den_pos a b
  have hdm := Nat.div_add_mod a b
  have hlt := Nat.mod_lt a hb
  have hc : b * (a / b) = a / b * b := Nat.mul_comm _ _
  have hup := h3 (a / b + 1) (by rw [Nat.add_mul]; omega)
  rw [F64.toInt]
  by_cases h0 : a % b = 0
  · obtain ⟨s, hs⟩ := h1 (a / b) (by omega)
    rw [hs]
    exact Nat.mul_div_cancel _ (Nat.two_pow_pos _)
  · have hlo := h2 (a / b) (by omega)
    apply Nat.le_antisymm
    · exact Nat.lt_succ_iff.mp ((Nat.div_lt_iff_lt_mul hd).mpr hup)
    · exact (Nat.le_div_iff_mul_le hd).mpr (by omega)

/-- The float quotient of ints below 2^53 has the right ceiling. -/
theorem fl_ceil (a b : Nat) (hb : 0 < b) (ha : a < 2 ^ 53) : (fl a b).ceil = (a + b - 1) / b := by
  obtain ⟨h1, h2, h3⟩ := fl_between a b hb ha
  have hd := fl_den_pos a b
  have hdm := Nat.div_add_mod a b
  have hlt := Nat.mod_lt a hb
  have hc : b * (a / b) = a / b * b := Nat.mul_comm _ _
  rw [F64.ceil]
  by_cases h0 : a % b = 0
  · obtain ⟨s, hs⟩ := h1 (a / b) (by omega)
    rw [hs]
    simp only
    have hp := Nat.two_pow_pos s
    have e1 : (a / b * 2 ^ s + 2 ^ s - 1) / 2 ^ s = a / b := by
      apply Nat.div_eq_of_lt_le
      · omega
      · rw [Nat.add_mul]; omega
    have e2 : (a + b - 1) / b = a / b := by
      apply Nat.div_eq_of_lt_le
      · omega
      · rw [Nat.add_mul]; omega
    rw [e1, e2]
  · have hlo := h2 (a / b) (by omega)
    have hup := h3 (a / b + 1) (by rw [Nat.add_mul]; omega)
    have e2 : (a + b - 1) / b = a / b + 1 := by
      apply Nat.div_eq_of_lt_le
      · rw [Nat.add_mul]; omega
      · rw [Nat.add_mul, Nat.add_mul]; omega
    rw [e2]
    apply Nat.div_eq_of_lt_le
    · rw [Nat.add_mul] at *; omega
    · rw [Nat.add_mul, Nat.add_mul] at *; omega

/-- `math.ceil(a / b)` is the integer ceiling for numerators below 2^53. -/
theorem ceilDiv_spec (a : Int) (b : Nat) (hb : 0 < b) (h1 : -(2 ^ 53) < a) (h2 : a < 2 ^ 53) :
    a ≤ ceilDiv a b * b ∧ (ceilDiv a b - 1) * b < a := by
  unfold ceilDiv
  split
  · rename_i h
    obtain ⟨a, rfl⟩ := Int.eq_ofNat_of_zero_le h
    rw [Int.toNat_natCast, fl_ceil a b hb (by omega)]
    have hdm := Nat.div_add_mod (a + b - 1) b
    have hlt := Nat.mod_lt (a + b - 1) hb
    have hc : b * ((a + b - 1) / b) = (a + b - 1) / b * b := Nat.mul_comm _ _
    generalize (a + b - 1) / b = q at *
    have : (q * b : Nat) = (q : Int) * b := by push_cast; rfl
    rw [Int.sub_mul, Int.one_mul]
    omega
  · rename_i h
    obtain ⟨c, hc⟩ := Int.eq_ofNat_of_zero_le (a := -a) (by omega)
    rw [hc, Int.toNat_natCast, fl_floor c b hb (by omega)]
    have hdm := Nat.div_add_mod c b
    have hlt := Nat.mod_lt c hb
    have hcm : b * (c / b) = c / b * b := Nat.mul_comm _ _
    generalize c / b = q at *
    have : (q * b : Nat) = (q : Int) * b := by push_cast; rfl
    rw [Int.sub_mul, Int.one_mul, Int.neg_mul]
    omega

theorem ceil_unique {a : Int} {b : Nat} {c c' : Int} (h1 : a ≤ c * b) (h2 : (c - 1) * b < a) (h1' : a ≤ c' * b)
    (h2' : (c' - 1) * b < a) : c = c' := by
  have hb : 0 < (b : Int) := by
    rcases Nat.eq_zero_or_pos b with h | h
    · subst h; simp at *; omega
    · omega
  have k1 : c - 1 < c' := Int.lt_of_mul_lt_mul_right (a := (b : Int)) (by omega) (by omega)
  have k2 : c' - 1 < c := Int.lt_of_mul_lt_mul_right (a := (b : Int)) (by omega) (by omega)
  omega

/-- The solution for one fan-out, or nothing when its `k` is infinite. -/
def solutionFor (L : FloatLog) (n p m : Nat) : Py (Option OptimizerResult) := do
  match ← calculateK n (p - m) m with
  | none => return none
  | some k => return some (← OptimizerResult.create L n p (p - m) m k (calculateWaste n k (p - m) m))

/-- Pure form of the body of `minimize_k`. -/
def bestUpdate (s : BestState) (r : OptimizerResult) : BestState :=
  match s.best with
  | none => ⟨some r.internalNodes, [r]⟩
  | some b =>
    if r.internalNodes < b then ⟨some r.internalNodes, [r]⟩
    else if r.internalNodes = b then ⟨some b, s.solutions ++ [r]⟩
    else s

theorem create_fields {L : FloatLog} {n p d m : Nat} {k w : Int} {r : OptimizerResult}
    (h : OptimizerResult.create L n p d m k w = .ok r) :
    ∃ t, calcTreeHeight L n d m (k + numLeafNodes n p d k) = .ok t ∧ d + m = p ∧ n ≤ numLeafNodes n p d k * p + k * d ∧
      r = ⟨n, p, d, m, k, w, numLeafNodes n p d k, t⟩ := by
  obtain ⟨t, ht, h⟩ := bind_eq_ok.mp h
  split at h
  · cases h
  · split at h
    · cases h
    · exact ⟨t, ht, by omega, by omega, (Except.ok.inj h).symm⟩

/-- `bestUpdate` for a fan-out that may have no solution. -/
def bestUpdate? (s : BestState) : Option OptimizerResult → BestState
  | none => s
  | some r => bestUpdate s r

theorem minimizeKStep_eq {L : FloatLog} {n p m : Nat} {o : Option OptimizerResult} (h : solutionFor L n p m = .ok o)
    (s : BestState) : minimizeKStep L n p s m = .ok (bestUpdate? s o) := by
  unfold solutionFor at h
  unfold minimizeKStep
  cases hk : calculateK n (p - m) m with
  | error e => rw [hk] at h; cases h
  | ok v =>
    rw [hk] at h
    simp only [hk]
    cases v with
    | none => cases h; rfl
    | some k =>
      change (do return some (← OptimizerResult.create L n p (p - m) m k (calculateWaste n k (p - m) m)) : Py _) = .ok o at h
      obtain ⟨r, hr, h⟩ := bind_eq_ok.mp h
      cases h
      obtain ⟨t, _, _, _, hf⟩ := create_fields hr
      have hrk : r.internalNodes = k := by rw [hf]
      show (do
        let solution ← OptimizerResult.create L n p (p - m) m k (calculateWaste n k (p - m) m)
        match s.best with
          | none => return ⟨some k, [solution]⟩
          | some b =>
            if k < b then return ⟨some k, [solution]⟩
            else if k = b then return ⟨some b, s.solutions ++ [solution]⟩
            else return s : Py BestState) = _
      rw [hr]
      show (match s.best with
          | none => .ok ⟨some k, [r]⟩
          | some b =>
            if k < b then .ok ⟨some k, [r]⟩
            else if k = b then .ok ⟨some b, s.solutions ++ [r]⟩
            else .ok s : Py BestState) = _
      unfold bestUpdate? bestUpdate
      simp only [hrk]
      cases s.best with
      | none => rfl
      | some b =>
        simp only
        split
        · rfl
        · split <;> rfl

theorem foldlM_bestUpdate {L : FloatLog} {n p : Nat} (R : Nat → Option OptimizerResult) (l : List Nat)
    (h : ∀ m ∈ l, solutionFor L n p m = .ok (R m)) (s : BestState) :
    l.foldlM (minimizeKStep L n p) s = .ok ((l.filterMap R).foldl bestUpdate s) := by
  induction l generalizing s with
  | nil => rfl
  | cons m l ih =>
    rw [List.foldlM_cons, minimizeKStep_eq (h m (List.mem_cons_self)) s]
    show l.foldlM (minimizeKStep L n p) _ = _
    rw [ih (fun m' hm' => h m' (List.mem_cons_of_mem _ hm'))]
    rw [List.filterMap_cons]
    cases R m <;> rfl

theorem foldl_bestUpdate (xs : List OptimizerResult) :
    (xs = [] ∧ (xs.foldl bestUpdate {}).solutions = []) ∨
    ∃ b, (xs.foldl bestUpdate {}).best = some b ∧
      (xs.foldl bestUpdate {}).solutions = xs.filter (fun r => r.internalNodes == b) ∧
      (∀ x ∈ xs, b ≤ x.internalNodes) ∧ ∃ x ∈ xs, x.internalNodes = b := by
  suffices H : ∀ (ys zs : List OptimizerResult) (s : BestState),
      (∃ b, s.best = some b ∧ s.solutions = ys.filter (fun r => r.internalNodes == b) ∧
        (∀ x ∈ ys, b ≤ x.internalNodes) ∧ ∃ x ∈ ys, x.internalNodes = b) →
      (∃ b, (zs.foldl bestUpdate s).best = some b ∧
        (zs.foldl bestUpdate s).solutions = (ys ++ zs).filter (fun r => r.internalNodes == b) ∧
        (∀ x ∈ ys ++ zs, b ≤ x.internalNodes) ∧ ∃ x ∈ ys ++ zs, x.internalNodes = b) by
    cases xs with
    | nil => exact .inl ⟨rfl, rfl⟩
    | cons x xs =>
      right
      exact H [x] xs ⟨some x.internalNodes, [x]⟩ ⟨x.internalNodes, rfl, by simp, by simp, by simp⟩
  intro ys zs
  induction zs generalizing ys with
  | nil => intro s h; simpa using h
  | cons z zs ih =>
    intro s ⟨b, hb, hs, hle, y, hy, hyb⟩
    rw [List.foldl_cons]
    have happ : ys ++ z :: zs = (ys ++ [z]) ++ zs := by simp
    rw [happ]
    apply ih
    unfold bestUpdate
    rw [hb]
    simp only
    split
    · rename_i h
      refine ⟨z.internalNodes, rfl, ?_, ?_, z, by simp, rfl⟩
      · rw [List.filter_append]
        have : ys.filter (fun r => r.internalNodes == z.internalNodes) = [] := by
          rw [List.filter_eq_nil_iff]
          intro x hx
          have := hle x hx
          simp; omega
        simp [this]
      · intro x hx
        rcases List.mem_append.mp hx with hx | hx
        · have := hle x hx; omega
        · simp at hx; subst hx; exact Int.le_refl _
    · split
      · rename_i h1 h2
        refine ⟨b, rfl, ?_, ?_, y, by simp [hy], hyb⟩
        · rw [List.filter_append, ← hs]; simp [h2]
        · intro x hx
          rcases List.mem_append.mp hx with hx | hx
          · exact hle x hx
          · simp at hx; subst hx; omega
      · rename_i h1 h2
        refine ⟨b, hb, ?_, ?_, y, by simp [hy], hyb⟩
        · rw [List.filter_append, ← hs]; simp [h2]
        · intro x hx
          rcases List.mem_append.mp hx with hx | hx
          · exact hle x hx
          · simp at hx; subst hx; omega

theorem foldl_minWaste (xs : List OptimizerResult) :
    (xs = [] ∧ xs.foldl minWasteStep none = none) ∨
    ∃ r as bs, xs.foldl minWasteStep none = some r ∧ xs = as ++ r :: bs ∧ (∀ a ∈ as, r.waste < a.waste) ∧
      ∀ b ∈ bs, r.waste ≤ b.waste := by
  suffices H : ∀ (zs as bs : List OptimizerResult) (r : OptimizerResult),
      (∀ a ∈ as, r.waste < a.waste) → (∀ b ∈ bs, r.waste ≤ b.waste) →
      ∃ r' as' bs', zs.foldl minWasteStep (some r) = some r' ∧ as ++ r :: bs ++ zs = as' ++ r' :: bs' ∧
        (∀ a ∈ as', r'.waste < a.waste) ∧ ∀ b ∈ bs', r'.waste ≤ b.waste by
    cases xs with
    | nil => exact .inl ⟨rfl, rfl⟩
    | cons x xs => right; exact H xs [] [] x (by simp) (by simp)
  intro zs
  induction zs with
  | nil => intro as bs r h1 h2; exact ⟨r, as, bs, rfl, by simp, h1, h2⟩
  | cons z zs ih =>
    intro as bs r h1 h2
    rw [List.foldl_cons]
    show ∃ r' as' bs', zs.foldl minWasteStep (if z.waste < r.waste then some z else some r) = some r' ∧ _
    split
    · rename_i h
      obtain ⟨r', as', bs', h3, h4, h5⟩ := ih (as ++ r :: bs) [] z (by
        intro a ha
        rcases List.mem_append.mp ha with ha | ha
        · have := h1 a ha; omega
        · rcases List.mem_cons.mp ha with rfl | ha
          · exact h
          · have := h2 a ha; omega) (by simp)
      exact ⟨r', as', bs', h3, by simpa using h4, h5⟩
    · rename_i h
      obtain ⟨r', as', bs', h3, h4, h5⟩ := ih as (bs ++ [z]) r h1 (by
        intro b hb
        rcases List.mem_append.mp hb with hb | hb
        · exact h2 b hb
        · simp at hb; subst hb; omega)
      exact ⟨r', as', bs', h3, by simpa using h4, h5⟩

/-! ## The formulas, in exact arithmetic -/

theorem numLeafNodes_spec (n p d : Nat) (k : Int) (hp : 0 < p) (h : (n : Int) - k * d < 2 ^ 53) :
    0 ≤ numLeafNodes n p d k ∧ (n : Int) - k * d ≤ numLeafNodes n p d k * p ∧
      (0 < (n : Int) - k * d → (numLeafNodes n p d k - 1) * p < (n : Int) - k * d) := by
  unfold numLeafNodes
  simp only
  split
  · rename_i h0
    refine ⟨Int.le_refl _, by omega, fun h1 => by omega⟩
  · rename_i h0
    obtain ⟨h1, h2⟩ := ceilDiv_spec ((n : Int) - k * d) p hp (by omega) h
    refine ⟨?_, h1, fun _ => h2⟩
    have : 0 < ceilDiv ((n : Int) - k * d) p * p := by omega
    have := Int.pos_of_mul_pos_left this (by omega)
    omega

theorem calculateK_spec (n p m : Nat) (hp : 2 ≤ p) (hm : 1 ≤ m) (hmp : m < p) (hn : n < 2 ^ 52) (hp2 : p < 2 ^ 52) :
    ∃ k, calculateK n (p - m) m = .ok (some k) ∧ (n : Int) - p ≤ k * (m * (p - 1) : Nat) ∧
      (k - 1) * (m * (p - 1) : Nat) < (n : Int) - p := by
  have e : p - m + m - 1 = p - 1 := by omega
  have hpos : 0 < m * (p - 1) := Nat.mul_pos (by omega) (by omega)
  unfold calculateK
  rw [if_neg (by omega), e, if_neg (by omega)]
  refine ⟨_, rfl, ?_⟩
  have e2 : (n : Int) - (p - m : Nat) - m = n - p := by omega
  rw [e2]
  exact ceilDiv_spec _ _ hpos (by omega) (by omega)

theorem mathLog_ok (f : Nat → Nat → Int) (x : Int) (b : Nat) (hx : 0 < x) (hb : 2 ≤ b) :
    mathLog f x b = .ok (f x.toNat b) := by
  unfold mathLog
  rw [if_neg (by omega), if_neg (by omega), if_neg (by omega)]

theorem create_of {L : FloatLog} {n p d m : Nat} {k w t : Int}
    (ht : calcTreeHeight L n d m (k + numLeafNodes n p d k) = .ok t) (hd : d + m = p)
    (hc : n ≤ numLeafNodes n p d k * p + k * d) :
    OptimizerResult.create L n p d m k w = .ok ⟨n, p, d, m, k, w, numLeafNodes n p d k, t⟩ := by
  unfold OptimizerResult.create
  simp only [ht, bind, Except.bind]
  rw [if_neg (by omega), if_neg (by omega)]
  rfl

/-- Every fan-out has a solution, except 0 when the data does not fit one manifest. -/
theorem solutionFor_zero (L : FloatLog) (n p : Nat) (hn : 1 ≤ n) (hp : 2 ≤ p) (hn2 : n < 2 ^ 52) :
    ∃ o, solutionFor L n p 0 = .ok o ∧ (p < n → o = none) ∧
      (n ≤ p → ∃ r, o = some r ∧ r.internalNodes = 1) := by
  unfold solutionFor calculateK
  rw [if_pos rfl]
  by_cases h : p < n
  · rw [if_pos (by omega)]
    exact ⟨none, rfl, fun _ => rfl, fun h' => by omega⟩
  · rw [if_neg (by omega)]
    have hcreate : OptimizerResult.create L n p (p - 0) 0 1 (calculateWaste n 1 (p - 0) 0) =
        .ok ⟨n, p, p - 0, 0, 1, calculateWaste n 1 (p - 0) 0, numLeafNodes n p (p - 0) 1, L.ceilLog n p⟩ := by
      have hl : numLeafNodes n p (p - 0) 1 = 0 := by
        unfold numLeafNodes
        simp only [Nat.sub_zero, Int.one_mul]
        rw [if_pos (by omega)]
      refine create_of ?_ (by omega) (by rw [hl]; omega)
      unfold calcTreeHeight
      rw [if_neg (by decide), if_pos rfl, mathLog_ok _ _ _ (by omega) (by omega)]
      rfl
    refine ⟨some ⟨n, p, p - 0, 0, 1, calculateWaste n 1 (p - 0) 0, numLeafNodes n p (p - 0) 1, L.ceilLog n p⟩, ?_,
      fun h' => absurd h' h, fun _ => ⟨_, rfl, rfl⟩⟩
    show (do return some (← OptimizerResult.create L n p (p - 0) 0 1 (calculateWaste n 1 (p - 0) 0)) : Py _) = _
    rw [hcreate]
    rfl

theorem k_nonneg {n p m : Nat} {k : Int} (hn : 1 ≤ n) (hp : 2 ≤ p) (hm : 2 ≤ m)
    (h : (n : Int) - p ≤ k * (m * (p - 1) : Nat)) : 0 ≤ k := by
  by_contra hk
  have h1 : k * (m * (p - 1) : Nat) ≤ (-1) * (m * (p - 1) : Nat) :=
    Int.mul_le_mul_of_nonneg_right (by omega) (by omega)
  have h2 : 2 * (p - 1) ≤ m * (p - 1) := Nat.mul_le_mul_right _ hm
  omega

theorem k_ge {n p m : Nat} {k : Int} (hn : 1 ≤ n) (hp : 2 ≤ p) (hm : 1 ≤ m)
    (h : (n : Int) - p ≤ k * (m * (p - 1) : Nat)) : -1 ≤ k := by
  by_contra hk
  have h1 : k * (m * (p - 1) : Nat) ≤ (-2) * (m * (p - 1) : Nat) :=
    Int.mul_le_mul_of_nonneg_right (by omega) (by omega)
  have h2 : 1 * (p - 1) ≤ m * (p - 1) := Nat.mul_le_mul_right _ hm
  omega

theorem solutionFor_pos (L : FloatLog) (n p m : Nat) (hn : 1 ≤ n) (hp : 2 ≤ p) (hm : 1 ≤ m) (hmp : m < p)
    (hn2 : n < 2 ^ 52) (hp2 : p < 2 ^ 52) :
    ∃ r t, solutionFor L n p m = .ok (some r) ∧ calculateK n (p - m) m = .ok (some r.internalNodes) ∧
      r = ⟨n, p, p - m, m, r.internalNodes, calculateWaste n r.internalNodes (p - m) m,
        numLeafNodes n p (p - m) r.internalNodes, t⟩ ∧
      calcTreeHeight L n (p - m) m (r.internalNodes + numLeafNodes n p (p - m) r.internalNodes) = .ok t ∧
      (n : Int) - p ≤ r.internalNodes * (m * (p - 1) : Nat) ∧
      (r.internalNodes - 1) * (m * (p - 1) : Nat) < (n : Int) - p := by
  obtain ⟨k, hk, h1, h2⟩ := calculateK_spec n p m hp hm hmp hn2 hp2
  have hk1 := k_ge hn hp hm h1
  have hdk : (n : Int) - k * (p - m : Nat) < 2 ^ 53 := by
    have : (-1) * ((p - m : Nat) : Int) ≤ k * ((p - m : Nat) : Int) := Int.mul_le_mul_of_nonneg_right hk1 (by omega)
    omega
  obtain ⟨h3, h4, h5⟩ := numLeafNodes_spec n p (p - m) k (by omega) hdk
  have hh : ∃ t, calcTreeHeight L n (p - m) m (k + numLeafNodes n p (p - m) k) = .ok t := by
    unfold calcTreeHeight
    by_cases hm1 : m = 1
    · rw [if_pos hm1]; exact ⟨_, rfl⟩
    · rw [if_neg hm1, if_neg (by omega)]
      have hk0 := k_nonneg hn hp (by omega) h1
      have : 0 ≤ ((m : Int) - 1) * (k + numLeafNodes n p (p - m) k) := Int.mul_nonneg (by omega) (by omega)
      rw [mathLog_ok _ _ _ (by omega) (by omega)]
      exact ⟨_, rfl⟩
  obtain ⟨t, ht⟩ := hh
  refine ⟨⟨n, p, p - m, m, k, calculateWaste n k (p - m) m, numLeafNodes n p (p - m) k, t⟩, t, ?_, hk, rfl, ht, h1, h2⟩
  unfold solutionFor
  rw [hk]
  show (do return some (← OptimizerResult.create L n p (p - m) m k (calculateWaste n k (p - m) m)) : Py _) = _
  rw [create_of ht (by omega) (by omega)]
  rfl

/-- What `minimize_k_min_waste` selects: the first, in order of fan-out, among the solutions with least `k` and, among
those, least waste. -/
theorem minimizeKMinWaste_selects (L : FloatLog) (n p : Nat) (hn : 1 ≤ n) (hp : 2 ≤ p) (hn2 : n < 2 ^ 52)
    (hp2 : p < 2 ^ 52) :
    ∃ r m0, minimizeKMinWaste L n p = .ok r ∧ m0 < p ∧ solutionFor L n p m0 = .ok (some r) ∧
      ∀ m' r', m' < p → solutionFor L n p m' = .ok (some r') →
        r.internalNodes ≤ r'.internalNodes ∧
        (r'.internalNodes = r.internalNodes → r.waste ≤ r'.waste ∧ (m' < m0 → r.waste < r'.waste)) := by
  have hsol : ∀ m, ∃ o, m < p → solutionFor L n p m = .ok o := by
    intro m
    by_cases hm : m < p
    · rcases Nat.eq_zero_or_pos m with rfl | h0
      · obtain ⟨o, ho, _⟩ := solutionFor_zero L n p hn hp hn2; exact ⟨o, fun _ => ho⟩
      · obtain ⟨r, t, h, _⟩ := solutionFor_pos L n p m hn hp h0 hm hn2 hp2; exact ⟨some r, fun _ => h⟩
    · exact ⟨none, fun h => absurd h hm⟩
  obtain ⟨R, hR⟩ := Classical.axiomOfChoice hsol
  have hind : ∀ m r, m < p → R m = some r → r.indirect = m := by
    intro m r hm h
    have := hR m hm
    rw [h] at this
    unfold solutionFor at this
    obtain ⟨v, _, this⟩ := bind_eq_ok.mp this
    cases v with
    | none => cases this
    | some k =>
      obtain ⟨r', hr', this⟩ := bind_eq_ok.mp this
      cases this
      obtain ⟨t, _, _, _, rfl⟩ := create_fields hr'
      rfl
  have hfold := foldlM_bestUpdate R (List.range p) (fun m hm => hR m (List.mem_range.mp hm)) {}
  have hmem : ∀ x, x ∈ (List.range p).filterMap R ↔ ∃ m, m < p ∧ R m = some x := by
    intro x; simp [List.mem_filterMap]
  have hsorted : ((List.range p).filterMap R).Pairwise (fun a b => a.indirect < b.indirect) := by
    rw [List.pairwise_filterMap]
    have : (List.range p).Pairwise (fun a b => a < b ∧ a < p ∧ b < p) := by
      apply List.Pairwise.imp_of_mem _ List.pairwise_lt_range
      intro a b ha hb h
      exact ⟨h, List.mem_range.mp ha, List.mem_range.mp hb⟩
    refine this.imp ?_
    intro a b ⟨h, ha, hb⟩ x hx y hy
    rw [hind a x ha hx, hind b y hb hy]
    exact h
  have h1 : ∃ r, R 1 = some r := by
    obtain ⟨r, t, h, _⟩ := solutionFor_pos L n p 1 hn hp (by omega) (by omega) hn2 hp2
    have := hR 1 (by omega)
    rw [h] at this
    exact ⟨r, (Except.ok.inj this).symm⟩
  generalize hxs : (List.range p).filterMap R = xs at *
  rcases foldl_bestUpdate xs with ⟨h, _⟩ | ⟨b, hb, hs, hle, y, hy, hyb⟩
  · obtain ⟨r, hr⟩ := h1
    have := (hmem r).mpr ⟨1, by omega, hr⟩
    rw [h] at this; cases this
  · rcases foldl_minWaste (xs.filter (fun r => r.internalNodes == b)) with ⟨h, _⟩ | ⟨r, as, bs, hf, hsplit, has, hbs⟩
    · have : y ∈ xs.filter (fun r => r.internalNodes == b) := by simp [hy, hyb]
      rw [h] at this; cases this
    · have hrmem : r ∈ xs.filter (fun r => r.internalNodes == b) := by rw [hsplit]; simp
      have hrx := List.mem_filter.mp hrmem
      obtain ⟨m0, hm0, hr0⟩ := (hmem r).mp hrx.1
      have hrb : r.internalNodes = b := by simpa using hrx.2
      refine ⟨r, m0, ?_, hm0, by rw [hR m0 hm0, hr0], ?_⟩
      · unfold minimizeKMinWaste minimizeK
        rw [hfold]
        simp only [bind, Except.bind, pure, Except.pure, hs, hf]
      · intro m' r' hm' hr'
        rw [hR m' hm'] at hr'
        have hr' := Except.ok.inj hr'
        have hx' := (hmem r').mpr ⟨m', hm', hr'⟩
        refine ⟨by rw [hrb]; exact hle r' hx', fun heq => ?_⟩
        have : r' ∈ as ++ r :: bs := by rw [← hsplit]; simp [hx', heq, hrb]
        have hp := (hsorted.sublist List.filter_sublist : (xs.filter (fun r => r.internalNodes == b)).Pairwise _)
        rw [hsplit, List.pairwise_append, List.pairwise_cons] at hp
        rcases List.mem_append.mp this with h | h
        · exact ⟨Int.le_of_lt (has r' h), fun _ => has r' h⟩
        · rcases List.mem_cons.mp h with rfl | h
          · refine ⟨Int.le_refl _, fun hlt => ?_⟩
            have e1 := hind m' r' hm' hr'
            have e2 := hind m0 r' hm0 hr0
            omega
          · refine ⟨hbs r' h, fun hlt => ?_⟩
            have e1 := hind m' r' hm' hr'
            have e2 := hind m0 r hm0 hr0
            have := hp.2.1.1 r' h
            omega

end Ccnpy
