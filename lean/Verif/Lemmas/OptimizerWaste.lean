import Verif.Lemmas.Optimizer

/-!
# Lemmas about `minimize_waste`

The loops of `minimize_waste` and `minimize_waste_min_height`, as selections from the list of solutions for each fan-out.
-/

namespace Ccnpy

/-- Pure form of the body of `minimize_waste`. -/
def wasteUpdate (s : BestState) (r : OptimizerResult) : BestState :=
  match s.best with
  | none => ⟨some r.waste, [r]⟩
  | some b =>
    if r.waste < b then ⟨some r.waste, [r]⟩
    else if r.waste = b then ⟨some b, s.solutions ++ [r]⟩
    else s

/-- `wasteUpdate` for a fan-out that may have no solution. -/
def wasteUpdate? (s : BestState) : Option OptimizerResult → BestState
  | none => s
  | some r => wasteUpdate s r

theorem minimizeWasteStep_eq {L : FloatLog} {n p m : Nat} {o : Option OptimizerResult}
    (h : solutionFor L n p m = .ok o) (s : BestState) : minimizeWasteStep L n p s m = .ok (wasteUpdate? s o) := by
  unfold solutionFor at h
  unfold minimizeWasteStep
  cases hk : calculateK n (p - m) m with
  | error e => rw [hk] at h; cases h
  | ok v =>
    rw [hk] at h
    simp only [hk]
    cases v with
    | none => cases h; rfl
    | some k =>
      change (do return some (← OptimizerResult.create L n p (p - m) m k (calculateWaste n k (p - m) m)) : Py _) = .ok o at h
      obtain ⟨r, hr, h⟩ := bind_eq_ok.mp h
      cases h
      obtain ⟨t, _, _, _, hf⟩ := create_fields hr
      have hrw : calculateWaste n k (p - m) m = r.waste := by rw [hf]
      rw [hrw] at hr
      simp only [ok_bind, hrw, hr]
      unfold wasteUpdate? wasteUpdate
      cases s.best with
      | none => rfl
      | some b =>
        simp only
        split
        · rfl
        · split <;> rfl

theorem foldlM_wasteUpdate {L : FloatLog} {n p : Nat} (R : Nat → Option OptimizerResult) (l : List Nat)
    (h : ∀ m ∈ l, solutionFor L n p m = .ok (R m)) (s : BestState) :
    l.foldlM (minimizeWasteStep L n p) s = .ok ((l.filterMap R).foldl wasteUpdate s) := by
  induction l generalizing s with
  | nil => rfl
  | cons m l ih =>
    rw [List.foldlM_cons, minimizeWasteStep_eq (h m (List.mem_cons_self)) s]
    show l.foldlM (minimizeWasteStep L n p) _ = _
    rw [ih (fun m' hm' => h m' (List.mem_cons_of_mem _ hm'))]
    rw [List.filterMap_cons]
    cases R m <;> rfl

theorem foldl_wasteUpdate (xs : List OptimizerResult) :
    (xs = [] ∧ (xs.foldl wasteUpdate {}).solutions = []) ∨
    ∃ b, (xs.foldl wasteUpdate {}).best = some b ∧
      (xs.foldl wasteUpdate {}).solutions = xs.filter (fun r => r.waste == b) ∧
      (∀ x ∈ xs, b ≤ x.waste) ∧ ∃ x ∈ xs, x.waste = b := by
  suffices H : ∀ (ys zs : List OptimizerResult) (s : BestState),
      (∃ b, s.best = some b ∧ s.solutions = ys.filter (fun r => r.waste == b) ∧
        (∀ x ∈ ys, b ≤ x.waste) ∧ ∃ x ∈ ys, x.waste = b) →
      (∃ b, (zs.foldl wasteUpdate s).best = some b ∧
        (zs.foldl wasteUpdate s).solutions = (ys ++ zs).filter (fun r => r.waste == b) ∧
        (∀ x ∈ ys ++ zs, b ≤ x.waste) ∧ ∃ x ∈ ys ++ zs, x.waste = b) by
    cases xs with
    | nil => exact .inl ⟨rfl, rfl⟩
    | cons x xs =>
      right
      exact H [x] xs ⟨some x.waste, [x]⟩ ⟨x.waste, rfl, by simp, by simp, by simp⟩
  intro ys zs
  induction zs generalizing ys with
  | nil => intro s h; simpa using h
  | cons z zs ih =>
    intro s ⟨b, hb, hs, hle, y, hy, hyb⟩
    rw [List.foldl_cons]
    have happ : ys ++ z :: zs = (ys ++ [z]) ++ zs := by simp
    rw [happ]
    apply ih
    unfold wasteUpdate
    rw [hb]
    simp only
    split
    · rename_i h
      refine ⟨z.waste, rfl, ?_, ?_, z, by simp, rfl⟩
      · rw [List.filter_append]
        have : ys.filter (fun r => r.waste == z.waste) = [] := by
          rw [List.filter_eq_nil_iff]
          intro x hx
          have := hle x hx
          simp; omega
        simp [this]
      · intro x hx
        rcases List.mem_append.mp hx with hx | hx
        · have := hle x hx; omega
        · simp at hx; subst hx; exact Int.le_refl _
    · split
      · rename_i h1 h2
        refine ⟨b, rfl, ?_, ?_, y, by simp [hy], hyb⟩
        · rw [List.filter_append, ← hs]; simp [h2]
        · intro x hx
          rcases List.mem_append.mp hx with hx | hx
          · exact hle x hx
          · simp at hx; subst hx; omega
      · rename_i h1 h2
        refine ⟨b, hb, ?_, ?_, y, by simp [hy], hyb⟩
        · rw [List.filter_append, ← hs]; simp [h2]
        · intro x hx
          rcases List.mem_append.mp hx with hx | hx
          · exact hle x hx
          · simp at hx; subst hx; omega

theorem foldl_minHeight (xs : List OptimizerResult) :
    ((∀ x ∈ xs, 0xFFFFFFFF ≤ x.height) ∧ xs.foldl minHeightStep none = none) ∨
    ∃ r as bs, xs.foldl minHeightStep none = some r ∧ xs = as ++ r :: bs ∧ r.height < 0xFFFFFFFF ∧
      (∀ a ∈ as, r.height < a.height) ∧ ∀ b ∈ bs, r.height ≤ b.height := by
  have H : ∀ (zs as bs : List OptimizerResult) (r : OptimizerResult), r.height < 0xFFFFFFFF →
      (∀ a ∈ as, r.height < a.height) → (∀ b ∈ bs, r.height ≤ b.height) →
      ∃ r' as' bs', zs.foldl minHeightStep (some r) = some r' ∧ as ++ r :: bs ++ zs = as' ++ r' :: bs' ∧
        r'.height < 0xFFFFFFFF ∧ (∀ a ∈ as', r'.height < a.height) ∧ ∀ b ∈ bs', r'.height ≤ b.height := by
    intro zs
    induction zs with
    | nil => intro as bs r h0 h1 h2; exact ⟨r, as, bs, rfl, by simp, h0, h1, h2⟩
    | cons z zs ih =>
      intro as bs r h0 h1 h2
      rw [List.foldl_cons]
      show ∃ r' as' bs', zs.foldl minHeightStep (if z.height < r.height then some z else some r) = some r' ∧ _
      split
      · rename_i h
        obtain ⟨r', as', bs', h3, h4, h5⟩ := ih (as ++ r :: bs) [] z (by omega) (by
          intro a ha
          rcases List.mem_append.mp ha with ha | ha
          · have := h1 a ha; omega
          · rcases List.mem_cons.mp ha with rfl | ha
            · exact h
            · have := h2 a ha; omega) (by simp)
        exact ⟨r', as', bs', h3, by simpa using h4, h5⟩
      · rename_i h
        obtain ⟨r', as', bs', h3, h4, h5⟩ := ih as (bs ++ [z]) r h0 h1 (by
          intro b hb
          rcases List.mem_append.mp hb with hb | hb
          · exact h2 b hb
          · simp at hb; subst hb; omega)
        exact ⟨r', as', bs', h3, by simpa using h4, h5⟩
  have G : ∀ zs as : List OptimizerResult, (∀ a ∈ as, 0xFFFFFFFF ≤ a.height) →
      ((∀ x ∈ as ++ zs, 0xFFFFFFFF ≤ x.height) ∧ zs.foldl minHeightStep none = none) ∨
      ∃ r as' bs, zs.foldl minHeightStep none = some r ∧ as ++ zs = as' ++ r :: bs ∧ r.height < 0xFFFFFFFF ∧
        (∀ a ∈ as', r.height < a.height) ∧ ∀ b ∈ bs, r.height ≤ b.height := by
    intro zs
    induction zs with
    | nil => intro as h; exact .inl ⟨by simpa using h, rfl⟩
    | cons z zs ih =>
      intro as h
      rw [List.foldl_cons]
      by_cases hz : z.height < 0xFFFFFFFF
      · right
        have e : minHeightStep none z = some z := if_pos hz
        rw [e]
        obtain ⟨r', as', bs', h3, h4, h5⟩ := H zs as [] z hz (fun a ha => by have := h a ha; omega) (by simp)
        exact ⟨r', as', bs', h3, by simpa using h4, h5⟩
      · have e : minHeightStep none z = none := if_neg hz
        rw [e]
        have := ih (as ++ [z]) (by
          intro a ha
          rcases List.mem_append.mp ha with ha | ha
          · exact h a ha
          · simp at ha; subst ha; omega)
        simpa using this
  exact G xs [] (by simp)

/-- What `minimize_waste` returns: the solutions of least waste, in order of fan-out. -/
theorem minimizeWaste_selects (L : FloatLog) (n p : Nat) (hn : 1 ≤ n) (hp : 2 ≤ p) (hn2 : n < 2 ^ 52)
    (hp2 : p < 2 ^ 52) :
    ∃ rs w, minimizeWaste L n p = .ok rs ∧ rs ≠ [] ∧ rs.Pairwise (fun a b => a.indirect < b.indirect) ∧
      (∀ r, r ∈ rs ↔ ∃ m, m < p ∧ solutionFor L n p m = .ok (some r) ∧ r.waste = w) ∧
      ∀ m r, m < p → solutionFor L n p m = .ok (some r) → w ≤ r.waste := by
  have hsol : ∀ m, ∃ o, m < p → solutionFor L n p m = .ok o := by
    intro m
    by_cases hm : m < p
    · rcases Nat.eq_zero_or_pos m with rfl | h0
      · obtain ⟨o, ho, _⟩ := solutionFor_zero L n p hn hp hn2; exact ⟨o, fun _ => ho⟩
      · obtain ⟨r, t, h, _⟩ := solutionFor_pos L n p m hn hp h0 hm hn2 hp2; exact ⟨some r, fun _ => h⟩
    · exact ⟨none, fun h => absurd h hm⟩
  obtain ⟨R, hR⟩ := Classical.axiomOfChoice hsol
  have hind : ∀ m r, m < p → R m = some r → r.indirect = m := by
    intro m r hm h
    have := hR m hm
    rw [h] at this
    unfold solutionFor at this
    obtain ⟨v, _, this⟩ := bind_eq_ok.mp this
    cases v with
    | none => cases this
    | some k =>
      obtain ⟨r', hr', this⟩ := bind_eq_ok.mp this
      cases this
      obtain ⟨t, _, _, _, rfl⟩ := create_fields hr'
      rfl
  have hfold := foldlM_wasteUpdate R (List.range p) (fun m hm => hR m (List.mem_range.mp hm)) {}
  have hmem : ∀ x, x ∈ (List.range p).filterMap R ↔ ∃ m, m < p ∧ R m = some x := by
    intro x; simp [List.mem_filterMap]
  have hsorted : ((List.range p).filterMap R).Pairwise (fun a b => a.indirect < b.indirect) := by
    rw [List.pairwise_filterMap]
    have : (List.range p).Pairwise (fun a b => a < b ∧ a < p ∧ b < p) := by
      apply List.Pairwise.imp_of_mem _ List.pairwise_lt_range
      intro a b ha hb h
      exact ⟨h, List.mem_range.mp ha, List.mem_range.mp hb⟩
    refine this.imp ?_
    intro a b ⟨h, ha, hb⟩ x hx y hy
    rw [hind a x ha hx, hind b y hb hy]
    exact h
  have h1 : ∃ r, R 1 = some r := by
    obtain ⟨r, t, h, _⟩ := solutionFor_pos L n p 1 hn hp (by omega) (by omega) hn2 hp2
    have := hR 1 (by omega)
    rw [h] at this
    exact ⟨r, (Except.ok.inj this).symm⟩
  generalize hxs : (List.range p).filterMap R = xs at *
  rcases foldl_wasteUpdate xs with ⟨h, _⟩ | ⟨b, hb, hs, hle, y, hy, hyb⟩
  · obtain ⟨r, hr⟩ := h1
    have := (hmem r).mpr ⟨1, by omega, hr⟩
    rw [h] at this; cases this
  · refine ⟨xs.filter (fun r => r.waste == b), b, ?_, ?_, hsorted.sublist List.filter_sublist, ?_, ?_⟩
    · unfold minimizeWaste
      rw [hfold]
      simp only [bind, Except.bind, pure, Except.pure, hs]
    · intro h
      have : y ∈ xs.filter (fun r => r.waste == b) := by simp [hy, hyb]
      rw [h] at this; cases this
    · intro r
      rw [List.mem_filter, hmem]
      constructor
      · rintro ⟨⟨m, hm, hr⟩, hw⟩
        exact ⟨m, hm, by rw [hR m hm, hr], by simpa using hw⟩
      · rintro ⟨m, hm, hr, hw⟩
        rw [hR m hm] at hr
        exact ⟨⟨m, hm, Except.ok.inj hr⟩, by simpa using hw⟩
    · intro m r hm hr
      rw [hR m hm] at hr
      exact hle r ((hmem r).mpr ⟨m, hm, Except.ok.inj hr⟩)

end Ccnpy
