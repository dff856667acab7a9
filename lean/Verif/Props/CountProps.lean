import Verif.Props.EndToEndProps

/-!
# C97: how many manifests a tree takes

The optimizer promises a number of manifests (`total_nodes`), the builder writes the manifests.  `Spec.Grove` says which numbers
of manifests and chunks a tree with a given fan-out can have at all.
-/

namespace Ccnpy

/-- `trees` trees with `manifests` manifests and `chunks` chunks in all: a leaf manifest has at most `d + m` chunks, an interior
manifest has at most `d` chunks and at most `m` child trees. -/
inductive Spec.Grove (d m : Nat) : (trees manifests chunks : Nat) → Prop
  | none : Spec.Grove d m 0 0 0
  | leaf {k M n : Nat} (c : Nat) (rest : Spec.Grove d m k M n) (h : c ≤ d + m) : Spec.Grove d m (k + 1) (M + 1) (n + c)
  | node {k M n k' M' n' : Nat} (c : Nat) (rest : Spec.Grove d m k M n) (kids : Spec.Grove d m k' M' n') (h : c ≤ d)
      (h' : k' ≤ m) : Spec.Grove d m (k + 1) (M + M' + 1) (n + n' + c)

/-! ## Trees in general -/

/-- Counting the pointers of a grove with `I` interior manifests. -/
theorem Spec.Grove.pointers {d m k M n : Nat} (h : Spec.Grove d m k M n) :
    ∃ I, I ≤ M ∧ n + I * m ≤ M * (d + m) ∧ M ≤ I * m + k := by
  induction h with
  | none => exact ⟨0, by omega, by omega, by omega⟩
  | leaf c rest h ih =>
    obtain ⟨I, h1, h2, h3⟩ := ih
    refine ⟨I, by omega, ?_, by omega⟩
    rw [Nat.succ_mul]
    omega
  | node c rest kids h h' ih ih' =>
    obtain ⟨I, h1, h2, h3⟩ := ih
    obtain ⟨I', h1', h2', h3'⟩ := ih'
    refine ⟨I + I' + 1, by omega, ?_, ?_⟩
    · simp only [Nat.add_mul, Nat.one_mul] at *
      omega
    · simp only [Nat.add_mul, Nat.one_mul] at *
      omega

/-- No tree with `M` manifests of at most `d + m` pointers has more than `M (d + m - 1) + 1` chunks. -/
theorem C97_pointers_limit_chunks {d m M n : Nat} (h : Spec.Grove d m 1 M n) : n + M ≤ M * (d + m) + 1 := by
  obtain ⟨I, _, h2, h3⟩ := h.pointers
  omega

theorem resultFor_leaf {L : FloatLog} {n d m : Nat} {r : OptimizerResult} (hr : Spec.ResultFor L n d m r)
    (h : (n : Int) - r.internalNodes * d ≤ 0) : r.leafNodes = 0 := by
  obtain ⟨k, _, hc⟩ := hr
  obtain ⟨t, _, _, _, rfl⟩ := create_fields hc
  unfold numLeafNodes
  exact if_pos h

/-- C97: the optimizer's total is a lower bound: no tree with that fan-out holds the chunks in fewer manifests. -/
theorem C97_total_is_least {L : FloatLog} {n d m : Nat} {r : OptimizerResult} (hr : Spec.ResultFor L n d m r) (hn1 : 1 ≤ n)
    (hd : 1 ≤ d) (hm : 1 ≤ m) (hn : n < 2 ^ 52) (hp : d + m < 2 ^ 52) {M : Nat} (h : Spec.Grove d m 1 M n) :
    r.totalNodes ≤ M := by
  obtain ⟨I, hI, h2, h3⟩ := h.pointers
  obtain ⟨_, _, g2, g3, _, g5⟩ := resultFor_fields hr hn1 hd hm hn hp
  unfold OptimizerResult.totalNodes
  obtain ⟨q, hq⟩ : ∃ q, d + m = q + 1 := ⟨d + m - 1, by omega⟩
  rw [hq] at g2 g5 h2
  rw [show q + 1 - 1 = q from rfl] at g2
  have hk : r.internalNodes ≤ I := by
    by_contra hc
    have a1 : (I : Int) * (m * q : Nat) ≤ (r.internalNodes - 1) * (m * q : Nat) :=
      Int.mul_le_mul_of_nonneg_right (by omega) (by omega)
    have a2 : M * q ≤ (I * m + 1) * q := Nat.mul_le_mul_right _ h3
    have a3 : (I * m + 1) * q = I * (m * q) + q := by rw [Nat.add_mul, Nat.mul_assoc, Nat.one_mul]
    have a4 : M * (q + 1) = M * q + M := Nat.mul_succ _ _
    have a5 : (I : Int) * (m * q : Nat) = (I * (m * q) : Nat) := by push_cast; ring
    omega
  by_cases hrem : (n : Int) - r.internalNodes * d ≤ 0
  · have := resultFor_leaf hr hrem
    omega
  · have g5 := g5 (by omega)
    have a1 : r.internalNodes * (m : Int) ≤ (I : Int) * m := Int.mul_le_mul_of_nonneg_right hk (by omega)
    have a2 : (I : Int) * m = (I * m : Nat) := by push_cast; ring
    have a3 : r.internalNodes * ((q + 1 : Nat) : Int) = r.internalNodes * d + r.internalNodes * m := by
      rw [← hq]; push_cast; ring
    have a4 : (r.internalNodes + r.leafNodes - 1) * ((q + 1 : Nat) : Int) < (M : Int) * ((q + 1 : Nat) : Int) := by
      have e1 : (r.internalNodes + r.leafNodes - 1) * ((q + 1 : Nat) : Int) =
          r.internalNodes * ((q + 1 : Nat) : Int) + (r.leafNodes - 1) * ((q + 1 : Nat) : Int) := by ring
      have e2 : (M : Int) * ((q + 1 : Nat) : Int) = (M * (q + 1) : Nat) := by push_cast; ring
      omega
    have := Int.lt_of_mul_lt_mul_right a4 (by omega)
    omega

/-- Fewer chunks fit in the same manifests. -/
theorem Spec.Grove.fewer {d m k M n n' : Nat} (h : Spec.Grove d m k M n) (hn : n' ≤ n) : Spec.Grove d m k M n' := by
  induction h generalizing n' with
  | none =>
    rw [show n' = 0 by omega]
    exact .none
  | @leaf k M n c rest h ih =>
    rw [show n' = min n n' + (n' - min n n') by omega]
    exact .leaf _ (ih (by omega)) (by omega)
  | @node k M n k2 M2 n2 c rest kids h h' ih ih' =>
    rw [show n' = min n n' + min n2 (n' - min n n') + (n' - min n n' - min n2 (n' - min n n')) by omega]
    exact .node _ (ih (by omega)) (ih' (by omega)) (by omega) h'

theorem Spec.Grove.leaves {d m k M n : Nat} (h : Spec.Grove d m k M n) (j : Nat) :
    Spec.Grove d m (k + j) (M + j) (n + j * (d + m)) := by
  induction j with
  | zero => simpa using h
  | succ j ih =>
    have := Spec.Grove.leaf (d + m) ih (Nat.le_refl _)
    rw [Nat.succ_mul, ← Nat.add_assoc, ← Nat.add_assoc, ← Nat.add_assoc]
    exact this

/-- `k` interior manifests can be put above up to `k (m - 1) + 1` leaves. -/
theorem Spec.Grove.full {d m : Nat} (hm : 1 ≤ m) (k leaf : Nat) (h1 : 1 ≤ leaf) (h : leaf ≤ k * (m - 1) + 1) :
    Spec.Grove d m 1 (k + leaf) (k * d + leaf * (d + m)) := by
  induction k generalizing leaf with
  | zero =>
    rw [show leaf = 1 by omega]
    simpa using Spec.Grove.leaves (d := d) (m := m) .none 1
  | succ k ih =>
    rw [Nat.succ_mul] at h
    obtain ⟨a, b, rfl, ha1, ha, hb⟩ : ∃ a b, leaf = a + b ∧ 1 ≤ a ∧ a ≤ k * (m - 1) + 1 ∧ b ≤ m - 1 :=
      ⟨min leaf (k * (m - 1) + 1), leaf - min leaf (k * (m - 1) + 1), by omega, by omega, by omega, by omega⟩
    have := Spec.Grove.node d .none ((ih a ha1 ha).leaves b) (Nat.le_refl _) (show 1 + b ≤ m by omega)
    have e1 : 0 + (k + a + b) + 1 = k + 1 + (a + b) := by omega
    have e2 : 0 + (k * d + a * (d + m) + b * (d + m)) + d = (k + 1) * d + (a + b) * (d + m) := by ring
    rw [e1, e2] at this
    exact this

/-- C97: the optimizer's total is attained: some tree with that fan-out holds the chunks in exactly that many manifests. -/
theorem C97_total_attained {L : FloatLog} {n d m : Nat} {r : OptimizerResult} (hr : Spec.ResultFor L n d m r) (hn1 : 2 ≤ n)
    (hd : 1 ≤ d) (hm : 1 ≤ m) (hn : n < 2 ^ 52) (hp : d + m < 2 ^ 52) :
    ∃ M : Nat, r.totalNodes = M ∧ Spec.Grove d m 1 M n := by
  obtain ⟨_, g1, g2, g3, g4, g5⟩ := resultFor_fields hr (by omega) hd hm hn hp
  obtain ⟨q, hq⟩ : ∃ q, d + m = q + 1 := ⟨d + m - 1, by omega⟩
  rw [hq] at g1 g2 g4 g5
  rw [show q + 1 - 1 = q from rfl] at g1 g2
  have hmq : 1 * q ≤ m * q := Nat.mul_le_mul_right _ hm
  have hk : 0 ≤ r.internalNodes := by
    by_contra hc
    have : r.internalNodes * (m * q : Nat) ≤ (-1) * (m * q : Nat) := Int.mul_le_mul_of_nonneg_right (by omega) (by omega)
    omega
  obtain ⟨k, hk⟩ := Int.eq_ofNat_of_zero_le hk
  obtain ⟨leaf, hl⟩ := Int.eq_ofNat_of_zero_le g3
  rw [hk] at g1 g2 g4 g5
  rw [hl] at g4 g5
  have e1 : (k : Int) * (m * q : Nat) = (k * (m * q) : Nat) := by push_cast; ring
  have e2 : ((k : Int) - 1) * (m * q : Nat) = (k * (m * q) : Nat) - (m * q : Nat) := by push_cast; ring
  have e3 : (k : Int) * d = (k * d : Nat) := by push_cast; ring
  rw [e1] at g1
  rw [e2] at g2
  rw [e3] at g4 g5
  have hrem : 0 < (n : Int) - (k * d : Nat) := by
    rcases Nat.eq_zero_or_pos k with rfl | hk0
    · simp; omega
    · by_contra hc
      obtain ⟨x, hx⟩ : ∃ x, m * q = d + x := ⟨m * q - d, by omega⟩
      have e4 : k * (m * q) = k * d + k * x := by rw [hx]; ring
      have : 1 * x ≤ k * x := Nat.mul_le_mul_right _ hk0
      omega
  have g5 := g5 hrem
  have e5 : ((leaf : Int) - 1) * (q + 1 : Nat) = (leaf * (q + 1) : Nat) - (q + 1 : Nat) := by push_cast; ring
  have e6 : (leaf : Int) * (q + 1 : Nat) = (leaf * (q + 1) : Nat) := by push_cast; ring
  rw [e5] at g5
  rw [e6] at g4
  have hleaf : 1 ≤ leaf := by
    by_contra hc
    rw [show leaf = 0 by omega, Nat.zero_mul] at g4
    omega
  refine ⟨k + leaf, by unfold OptimizerResult.totalNodes; omega, ?_⟩
  refine (Spec.Grove.full hm k leaf hleaf ?_).fewer (by rw [hq]; omega)
  -- (leaf - 1) p < n - k d ≤ k m (p - 1) + p - k d
  have h7 : leaf * (q + 1) < (k * (m - 1) + 2) * (q + 1) := by
    obtain ⟨m', rfl⟩ : ∃ m', m = m' + 1 := ⟨m - 1, by omega⟩
    rw [Nat.add_sub_cancel]
    have e7 : k * ((m' + 1) * q) = k * m' * q + k * q := by ring
    have e8 : (k * m' + 2) * (q + 1) = k * m' * q + k * m' + 2 * q + 2 := by ring
    have e9 : k * q = k * d + k * m' := by rw [show q = d + m' by omega]; ring
    omega
  have := Nat.lt_of_mul_lt_mul_right h7
  omega

/-- The optimizer's total leaves no more than one chunk without a pointer. -/
theorem total_enough {L : FloatLog} {n d m : Nat} {r : OptimizerResult} (hr : Spec.ResultFor L n d m r) (hn1 : 1 ≤ n)
    (hd : 1 ≤ d) (hm : 1 ≤ m) (hn : n < 2 ^ 52) (hp : d + m < 2 ^ 52) : (n : Int) - 1 ≤ r.totalNodes * ((d : Int) + m - 1) := by
  obtain ⟨_, g1, _, g3, g4, _⟩ := resultFor_fields hr hn1 hd hm hn hp
  unfold OptimizerResult.totalNodes
  obtain ⟨q, hq⟩ : ∃ q, d + m = q + 1 := ⟨d + m - 1, by omega⟩
  rw [hq] at g1 g4
  rw [show q + 1 - 1 = q from rfl] at g1
  rw [show (d : Int) + m - 1 = q by omega]
  -- (total * (q+1)) * q >= (n + k m) q >= n q + n - (q+1) = (n-1)(q+1)
  have e1 : (n : Int) + r.internalNodes * m ≤ (r.internalNodes + r.leafNodes) * ((q + 1 : Nat) : Int) := by
    have : r.internalNodes * ((q + 1 : Nat) : Int) = r.internalNodes * d + r.internalNodes * m := by rw [← hq]; push_cast; ring
    have : (r.internalNodes + r.leafNodes) * ((q + 1 : Nat) : Int) =
      r.internalNodes * ((q + 1 : Nat) : Int) + r.leafNodes * ((q + 1 : Nat) : Int) := by ring
    omega
  have e2 := Int.mul_le_mul_of_nonneg_right e1 (Int.natCast_nonneg q)
  have e3 : ((n : Int) + r.internalNodes * m) * q = n * q + r.internalNodes * (m * q : Nat) := by push_cast; ring
  have e4 : (r.internalNodes + r.leafNodes) * ((q + 1 : Nat) : Int) * q = ((r.internalNodes + r.leafNodes) * q) * ((q + 1 : Nat) : Int) := by
    ring
  have e5 : ((n : Int) - 1) * ((q + 1 : Nat) : Int) = n * q + n - (q + 1 : Nat) := by push_cast; ring
  have e6 : ((n : Int) - 1) * ((q + 1 : Nat) : Int) ≤ ((r.internalNodes + r.leafNodes) * q) * ((q + 1 : Nat) : Int) := by omega
  exact Int.le_of_mul_le_mul_right e6 (by omega)

/-! ## The builder's trees -/

theorem Forest.Valid.grove {T : TreeEnv} {f : Forest} {lo hi level : Nat} (h : f.Valid T lo hi level) :
    Spec.Grove T.direct T.indirect f.roots.length f.written.length (hi - lo) := by
  induction f generalizing lo hi level with
  | nil =>
    have h : lo = hi := h
    subst h
    rw [Nat.sub_self]
    exact .none
  | cons i kids rest ihk ihr =>
    obtain ⟨_, h2, _, ⟨_, h4⟩, h5, h6⟩ := h
    have hr := ihr h6
    have hle5 := h5.le
    have hle6 := h6.le
    rcases h4 with ⟨rfl, hc, _⟩ | ⟨_, _, hc, hk, _⟩
    · have h5 : lo + i.count = i.hi := h5
      have := Spec.Grove.leaf i.count hr (by unfold TreeEnv.pointers at hc; omega)
      simp only [Forest.roots, Forest.written, List.length_cons, List.length_append, List.length_nil, Nat.add_zero, Nat.zero_add] at this ⊢
      rwa [show hi - lo = hi - i.hi + i.count by omega]
    · have := Spec.Grove.node i.count hr (ihk h5) hc hk
      simp only [Forest.roots, Forest.written, List.length_cons, List.length_append, List.length_nil, Nat.zero_add] at this ⊢
      rwa [show hi - lo = hi - i.hi + (i.hi - (lo + i.count)) + i.count by omega]

theorem Forest.Valid.span_le {T : TreeEnv} (hm : 1 ≤ T.indirect) {f : Forest} {lo hi level : Nat} (h : f.Valid T lo hi level) :
    hi ≤ lo + f.roots.length * Spec.treeCapacity T.direct T.indirect level := by
  induction f generalizing lo hi level with
  | nil => have h : lo = hi := h; omega
  | cons i kids rest ihk ihr =>
    obtain ⟨_, h2, _, ⟨_, h4⟩, h5, h6⟩ := h
    have hr := ihr h6
    have hk5 := ihk h5
    have hle := h5.le
    simp only [Forest.roots, List.length_cons, Nat.succ_mul]
    generalize rest.roots.length * Spec.treeCapacity T.direct T.indirect level = X at hr ⊢
    have hi' : i.hi ≤ lo + Spec.treeCapacity T.direct T.indirect level := by
      rcases h4 with ⟨rfl, hc, _⟩ | ⟨_, hl, hc, hk, _⟩
      · have h5 : lo + i.count = i.hi := h5
        have := treeCapacity_mono T.direct T.indirect level hm
        unfold TreeEnv.pointers at hc
        omega
      · obtain ⟨l, rfl⟩ : ∃ l, level = l + 1 := ⟨level - 1, by omega⟩
        rw [Nat.add_sub_cancel] at hk5
        rw [Spec.treeCapacity]
        have := Nat.mul_le_mul_right (Spec.treeCapacity T.direct T.indirect l) hk
        omega
    omega

/-- A forest with as many chunks as there is room for consists of full trees. -/
theorem Forest.Valid.all_full {T : TreeEnv} (hm : 1 ≤ T.indirect) {f : Forest} {lo hi level : Nat} (h : f.Valid T lo hi level)
    (hs : hi = lo + f.roots.length * Spec.treeCapacity T.direct T.indirect level) : ∀ k ∈ f.roots, k.Full T := by
  induction f generalizing lo hi level with
  | nil => simp [Forest.roots]
  | cons i kids rest _ ihr =>
    have hv : (Forest.cons i kids .nil).Valid T lo i.hi level := ⟨h.1, h.2.1, h.2.2.1, h.2.2.2.1, h.2.2.2.2.1, rfl⟩
    have h1 := hv.span_le hm
    have h6 := h.2.2.2.2.2
    have h2 := h6.span_le hm
    simp only [Forest.roots, List.length_cons, List.length_nil, Nat.zero_add, Nat.succ_mul] at h1 hs
    intro k hk
    rcases List.mem_cons.mp hk with rfl | hk
    · unfold Info.Full
      rw [h.1, h.2.1]
      omega
    · exact ihr h6 (by omega) k hk

/-- Counting the pointers of a packed forest: full trees have no unused pointers; if only the leftmost tree is not full, the
unused pointers are at most `indirect - 1` per level and `p - 1` in a leaf. -/
theorem Forest.Valid.packed_count {T : TreeEnv} (hd : 1 ≤ T.direct) (hm : 1 ≤ T.indirect) {f : Forest} {lo hi level q : Nat}
    (hq : T.direct + T.indirect = q + 1) (h : f.Valid T lo hi level) (hpk : f.Packed T) :
    ((∀ k ∈ f.roots, k.Full T) → lo + f.written.length * q + f.roots.length = hi) ∧
    ((∀ k ∈ f.roots.tail, k.Full T) → lo + f.written.length * q + f.roots.length ≤ hi + level * (T.indirect - 1) + q) := by
  induction f generalizing lo hi level with
  | nil => have h : lo = hi := h; simp [Forest.written, Forest.roots]; omega
  | cons i kids rest ihk ihr =>
    have hv : (Forest.cons i kids .nil).Valid T lo i.hi level := ⟨h.1, h.2.1, h.2.2.1, h.2.2.2.1, h.2.2.2.2.1, rfl⟩
    obtain ⟨h1, h2, _, ⟨h3, h4⟩, h5, h6⟩ := h
    obtain ⟨p1, p2, p3⟩ := hpk
    have hkids := ihk h5 p2
    have hrest := (ihr h6 p3).1
    have hle5 := h5.le
    -- the tree of `i` alone
    have hone : (i.Full T → lo + (kids.written.length + 1) * q + 1 = i.hi) ∧
        lo + (kids.written.length + 1) * q + 1 ≤ i.hi + level * (T.indirect - 1) + q := by
      rcases h4 with ⟨rfl, hc, _⟩ | ⟨hne, hl, hc, hk, _⟩
      · have h5 : lo + i.count = i.hi := h5
        have := treeCapacity_mono T.direct T.indirect level hm
        unfold TreeEnv.pointers at hc
        simp only [Forest.written, List.length_nil, Nat.zero_add, Nat.one_mul]
        refine ⟨fun hf => ?_, ?_⟩
        · unfold Info.Full at hf
          rw [h1, h2] at hf
          omega
        · omega
      · obtain ⟨l, rfl⟩ : ∃ l, level = l + 1 := ⟨level - 1, by omega⟩
        rw [Nat.add_sub_cancel] at hkids h5
        have hkp := Forest.roots_length_pos hne
        rw [Nat.succ_mul, Nat.succ_mul]
        refine ⟨fun hf => ?_, ?_⟩
        · unfold Info.Full at hf
          rw [h1, h2, Spec.treeCapacity] at hf
          have hsp := h5.span_le hm
          have hmul := Nat.mul_le_mul_right (Spec.treeCapacity T.direct T.indirect l) hk
          have hall := hkids.1 (h5.all_full hm (by omega))
          have hcount : i.count = T.direct := by omega
          have hkm : kids.roots.length = T.indirect := by
            apply Nat.le_antisymm hk
            have hc0 := treeCapacity_mono T.direct T.indirect l hm
            exact Nat.le_of_mul_le_mul_right (show T.indirect * Spec.treeCapacity T.direct T.indirect l ≤
              kids.roots.length * Spec.treeCapacity T.direct T.indirect l by omega) (by omega)
          omega
        · obtain ⟨hfull, hcnt⟩ := p1 hne
          rcases hcnt with hcnt | ⟨k, hr, hkf⟩
          · have := hkids.2 hfull
            omega
          · have := hkids.1 (by rw [hr]; intro k' hk'; rw [List.mem_singleton.mp hk']; exact hkf)
            rw [hr] at this
            simp only [List.length_cons, List.length_nil] at this
            omega
    simp only [Forest.written, Forest.roots, List.length_append, List.length_cons, List.length_nil, Nat.zero_add, List.tail_cons]
    have e : (rest.written.length + kids.written.length + 1) * q = rest.written.length * q + (kids.written.length + 1) * q := by ring
    rw [e]
    refine ⟨fun hf => ?_, fun hf => ?_⟩
    · have a1 := hone.1 (hf i (by simp))
      have a2 := hrest (fun k hk => hf k (by simp [hk]))
      omega
    · have a2 := hrest hf
      have := hone.2
      omega

/-- What a build leaves behind, with its shape. -/
theorem buildTree_packed {T : TreeEnv} (hd : 1 ≤ T.direct) (hm : 1 ≤ T.indirect) (hn : 1 ≤ T.chunks.length) {s s' : BState}
    {r : Built} (h : buildTree T s = (.ok r, s')) :
    ∃ level i kids, (Forest.cons i kids .nil).Valid T 0 T.chunks.length level ∧ (Forest.cons i kids .nil).Packed T ∧
      s'.output = s.output ++ (Forest.cons i kids .nil).written.map (·.packet) ∧
      T.chunks.length ≤ Spec.treeCapacity T.direct T.indirect level ∧
      (∀ l < level, Spec.treeCapacity T.direct T.indirect l < T.chunks.length) ∧ (level : Int) ≤ T.height := by
  obtain ⟨ids, level, i, kids, _, h2, h3, _, h5, h6, _, h8⟩ := (buildTree_any hd hm hn s).1 r s' h
  have hlev := idsFrom_level h3.ids i (by simp)
  rw [h2.1] at hlev
  refine ⟨level, i, kids, h2, h8, ?_, h5, h6, hlev⟩
  rw [h3.wrote.1]
  simp [Forest.written, startState]

/-- C97: a build of `n` chunks writes at least the manifests needed for that many pointers, and leaves at most `indirect - 1`
pointers unused on each level above the lowest and `direct + indirect - 1` pointers in one leaf.  The tree has the least number
of levels with room for the chunks. -/
theorem C97_manifests_written (T : TreeEnv) (hd : 1 ≤ T.direct) (hm : 1 ≤ T.indirect) (hn : 1 ≤ T.chunks.length)
    (s s' : BState) (r : Built) (h : buildTree T s = (.ok r, s')) :
    ∃ (made : List Packet) (level : Nat), s'.output = s.output ++ made ∧
      Spec.Grove T.direct T.indirect 1 made.length T.chunks.length ∧
      T.chunks.length + made.length ≤ made.length * (T.direct + T.indirect) + 1 ∧
      made.length * (T.direct + T.indirect) + 1 ≤
        T.chunks.length + made.length + level * (T.indirect - 1) + (T.direct + T.indirect - 1) ∧
      (level = 0 → made.length = 1) ∧
      T.chunks.length ≤ Spec.treeCapacity T.direct T.indirect level ∧
      (∀ l < level, Spec.treeCapacity T.direct T.indirect l < T.chunks.length) ∧ (level : Int) ≤ T.height := by
  obtain ⟨level, i, kids, h1, h2, h3, h4, h5, h6⟩ := buildTree_packed hd hm hn h
  obtain ⟨q, hq⟩ : ∃ q, T.direct + T.indirect = q + 1 := ⟨T.direct + T.indirect - 1, by omega⟩
  have hg := h1.grove
  have hc := (h1.packed_count hd hm hq h2).2 (by simp [Forest.roots])
  refine ⟨_, level, h3, ?_, ?_, ?_, ?_, h4, h5, h6⟩
  · rw [List.length_map]
    exact hg
  · rw [List.length_map]
    simpa using C97_pointers_limit_chunks hg
  · rw [List.length_map, hq, Nat.mul_succ]
    have : (Forest.cons i kids .nil).roots.length = 1 := rfl
    omega
  · rintro rfl
    rcases h1.2.2.2.1.2 with ⟨rfl, _⟩ | ⟨_, hl, _⟩
    · rfl
    · have := h1.1
      omega

/-- The optimizer's choice is a result for its own split. -/
theorem selected_resultFor {L : FloatLog} {n p : Nat} {r : OptimizerResult} (h : minimizeKMinWaste L n p = .ok r)
    (hn : n < 2 ^ 52) (hp : p < 2 ^ 52) : Spec.ResultFor L n r.direct r.indirect r := by
  obtain ⟨hn1, hp2, _, _, hdm⟩ := minimizeKMinWaste_pos h hn hp
  obtain ⟨r', m0, hr, hm0, hsol, _⟩ := minimizeKMinWaste_selects L n p hn1 hp2 hn hp
  rw [h] at hr
  cases hr
  unfold solutionFor at hsol
  obtain ⟨v, hv, hsol⟩ := bind_eq_ok.mp hsol
  cases v with
  | none => cases hsol
  | some k =>
    obtain ⟨r', hr', hsol⟩ := bind_eq_ok.mp hsol
    cases hsol
    obtain ⟨t, _, _, _, hf⟩ := create_fields hr'
    have e1 : r.direct = p - m0 := by rw [hf]
    have e2 : r.indirect = m0 := by rw [hf]
    refine ⟨k, by rw [e1, e2]; exact hv, ?_⟩
    rw [hdm, e1, e2]; exact hr'

/-- C97: a build with the optimizer's split writes at least the number of manifests the optimizer promised, and at most one more
for every level above the lowest. -/
theorem C97_promised_and_written (T : TreeEnv) (L : FloatLog) (opt : OptimizerResult)
    (hr : Spec.ResultFor L T.chunks.length T.direct T.indirect opt) (hd : 1 ≤ T.direct) (hm : 1 ≤ T.indirect)
    (hn : 2 ≤ T.chunks.length) (hn2 : T.chunks.length < 2 ^ 52) (hp : T.direct + T.indirect < 2 ^ 52)
    (s s' : BState) (r : Built) (h : buildTree T s = (.ok r, s')) :
    ∃ (made : List Packet) (level : Nat), s'.output = s.output ++ made ∧
      opt.totalNodes ≤ made.length ∧ made.length ≤ opt.totalNodes + level ∧
      T.chunks.length ≤ Spec.treeCapacity T.direct T.indirect level ∧
      (∀ l < level, Spec.treeCapacity T.direct T.indirect l < T.chunks.length) ∧ (level : Int) ≤ T.height := by
  obtain ⟨made, level, h1, h2, _, h4, hone, h5, h6, h7⟩ := C97_manifests_written T hd hm (by omega) s s' r h
  refine ⟨made, level, h1, C97_total_is_least hr (by omega) hd hm hn2 hp h2, ?_, h5, h6, h7⟩
  have ht := total_enough hr (by omega) hd hm hn2 hp
  obtain ⟨q, hq⟩ : ∃ q, T.direct + T.indirect = q + 1 := ⟨T.direct + T.indirect - 1, by omega⟩
  have hqm : T.indirect ≤ q := by omega
  rw [hq, Nat.mul_succ] at h4
  rw [show (T.direct : Int) + T.indirect - 1 = q by omega] at ht
  -- made * q ≤ (n - 1) + level * (m - 1) + q
  have a1 : (made.length : Int) * q ≤ (opt.totalNodes + 1) * q + level * (T.indirect - 1 : Nat) := by
    have e1 : (made.length : Int) * q = (made.length * q : Nat) := by push_cast; ring
    have e2 : (opt.totalNodes + 1) * q = opt.totalNodes * q + q := by ring
    have e3 : (level : Int) * (T.indirect - 1 : Nat) = (level * (T.indirect - 1) : Nat) := by push_cast; ring
    omega
  have hq0 : (0 : Int) < q := by omega
  rcases Nat.eq_zero_or_pos level with rfl | hl
  · have := hone rfl
    by_contra hc
    have : opt.totalNodes * q ≤ 0 * q := Int.mul_le_mul_of_nonneg_right (by omega) (by omega)
    omega
  · have a2 : (level : Int) * (T.indirect - 1 : Nat) < level * q := Int.mul_lt_mul_of_pos_left (by omega) (by omega)
    have a3 : (made.length : Int) * q < (opt.totalNodes + 1 + level) * q := by
      have : (opt.totalNodes + 1 + level) * q = (opt.totalNodes + 1) * q + level * q := by ring
      omega
    have := Int.lt_of_mul_lt_mul_right a3 (by omega)
    omega

/-- C97 for a published file of `n` chunks with `p` pointers per manifest: besides the data objects and the root manifest there
are `M` manifests.  `M` is at least the number the optimizer promised and at most one more per level above the lowest; no tree with
`p` pointers per manifest has fewer than `(n - 1) / (p - 1)`, and `M` exceeds that by at most one per level. -/
theorem C97_file {E : Env} {L : FloatLog} {o : TreeOptions} {nc : Nat} {input : Stream} {root : Packet} {out : List Packet}
    (h : manifestTree E L o nc input = (.ok root, out)) :
    ∃ (p M level : Nat) (r : OptimizerResult), Spec.PointersFor E o nc input.rest.length (Spec.dataOf out) p ∧
      minimizeKMinWaste L (Spec.dataOf out).length p = .ok r ∧ out.length = (Spec.dataOf out).length + M + 1 ∧
      r.totalNodes ≤ M ∧ (M : Int) ≤ max 1 (r.totalNodes + level) ∧
      (Spec.dataOf out).length ≤ M * (p - 1) + 1 ∧ M * (p - 1) + 1 ≤ (Spec.dataOf out).length + (level + 1) * (p - 1) ∧
      (∀ l < level, Spec.treeCapacity r.direct r.indirect l < (Spec.dataOf out).length) ∧ (level : Int) ≤ r.height := by
  obtain ⟨R⟩ := manifestTree_ok h
  obtain ⟨p, hp, hmin⟩ := R.pointersFor
  have hlen : (Spec.dataOf out).length = R.file.chunks.length := by rw [R.data, (chunked_get R.chunked).2.1]
  have hcount := R.count
  unfold MAX_CHUNK_ID at hcount
  have hple : p < 2 ^ 52 := by
    obtain ⟨ctx, p0, s, _, h1, rfl⟩ := hp
    have := (calculateMaxPointers_inv h1).2.1
    split <;> omega
  rw [hlen] at hmin ⊢
  obtain ⟨_, _, _, _, hdm⟩ := minimizeKMinWaste_pos hmin (by omega) hple
  have hres := selected_resultFor hmin (by omega) hple
  have hd := R.direct
  have hi := R.indirect
  have hn := R.nonempty
  let T : TreeEnv := ⟨E, o, R.ctx, R.file.chunks, R.r.direct, R.r.indirect, R.r.height⟩
  obtain ⟨made, level, h1, h2, h3, h4, h5, h6, h7, h8⟩ := C97_manifests_written T hd hi hn R.s0 R.s1 R.top R.built
  simp only [T, hdm] at h3 h4 h6 h7 h8 h2
  obtain ⟨q, rfl⟩ : ∃ q, p = q + 1 := ⟨p - 1, by omega⟩
  rw [Nat.mul_succ] at h3 h4
  refine ⟨_, made.length, level, R.r, hp, hmin, ?_, ?_, ?_, by rw [Nat.add_sub_cancel]; omega, ?_, h7, h8⟩
  · have e : out.length = (R.s0.output ++ made ++ [root]).length := by rw [← h1]; exact congrArg List.length R.out_eq
    rw [e, R.s0_out, List.length_append, List.length_append, ← hlen, R.data]
    rfl
  · exact C97_total_is_least hres (by omega) hd hi (by omega) (by omega) h2
  · by_cases hn2 : 2 ≤ R.file.chunks.length
    · obtain ⟨made', level', g1, _, g3, g4, g5, _⟩ := C97_promised_and_written T L R.r hres hd hi hn2
        (show R.file.chunks.length < 2 ^ 52 by omega) (show R.r.direct + R.r.indirect < 2 ^ 52 by omega) R.s0 R.s1 R.top R.built
      have hl : level' = level := by
        rcases Nat.lt_trichotomy level' level with hlt | he | hlt
        · have := h7 _ hlt
          simp only [T] at g4
          omega
        · exact he
        · have := g5 _ hlt
          simp only [T] at this
          omega
      have hmm : made' = made := List.append_cancel_left (g1.symm.trans h1)
      subst hl hmm
      omega
    · have hl : level = 0 := by
        by_contra hc
        have := h7 0 (by omega)
        rw [Spec.treeCapacity] at this
        omega
      have := h5 hl
      omega
  · have : level * (R.r.indirect - 1) ≤ level * q := Nat.mul_le_mul_left _ (by omega)
    rw [Nat.add_sub_cancel, Nat.succ_mul]
    omega

/-! ## The hypotheses can be met -/

/-- Twenty chunks, one direct and three indirect pointers, height 2: the optimizer's split for four pointers. -/
def Toy.twenty : TreeEnv :=
  { Toy.tree with chunks := (List.range 20).map (fun i => ⟨i, 3, .sha256 (Toy.sha [UInt8.ofNat i])⟩), direct := 1, indirect := 3, height := 2 }

set_option maxRecDepth 100000 in
/-- The promise can be missed: for twenty chunks and four pointers per manifest the optimizer promises seven manifests on three
levels, and the builder writes eight. -/
example : ∃ opt, minimizeKMinWaste Spec.exactLog 20 4 = .ok opt ∧ opt.totalNodes = 7 ∧ opt.direct = 1 ∧ opt.indirect = 3 ∧
    opt.height = 2 ∧ Spec.ResultFor Spec.exactLog Toy.twenty.chunks.length Toy.twenty.direct Toy.twenty.indirect opt ∧
    ∃ r s', buildTree Toy.twenty {} = (.ok r, s') ∧ s'.output.length = 8 :=
  ⟨⟨20, 4, 1, 3, 2, 2, 5, 2⟩, by decide +kernel, rfl, rfl, rfl, rfl, ⟨2, by decide +kernel, by decide +kernel⟩,
    Toy.ok_of_eval (f := fun s : BState => s.output.length) (by decide +kernel)⟩

/-- Seven manifests would do: two interior ones and five leaves hold twenty-two chunks. -/
example : Spec.Grove 1 3 1 7 20 := by
  have l3 : Spec.Grove 1 3 3 3 12 := .leaf 4 (.leaf 4 (.leaf 4 .none (by omega)) (by omega)) (by omega)
  have i1 : Spec.Grove 1 3 1 4 13 := .node 1 .none l3 (by omega) (by omega)
  have l5 : Spec.Grove 1 3 3 6 19 := .leaf 2 (.leaf 4 i1 (by omega)) (by omega)
  exact .node 1 .none l5 (by omega) (by omega)

set_option maxRecDepth 100000 in
/-- A published file: nine chunks, four pointers. -/
example : ∃ root out, manifestTree Toy.env Spec.exactLog Toy.wideOptions 1 (Toy.shortReads 36) = (.ok root, out) ∧
    out.length = 13 ∧ (Spec.dataOf out).length = 9 := by
  have h : (match manifestTree Toy.env Spec.exactLog Toy.wideOptions 1 (Toy.shortReads 36) with
    | (.ok _, out) => out.length == 13 && (Spec.dataOf out).length == 9
    | _ => false) = true := by decide +kernel
  rcases hm : manifestTree Toy.env Spec.exactLog Toy.wideOptions 1 (Toy.shortReads 36) with ⟨e | root, out⟩
  · rw [hm] at h
    cases h
  · rw [hm] at h
    simp only [Bool.and_eq_true, beq_iff_eq] at h
    exact ⟨root, out, rfl, h.1, h.2⟩

end Ccnpy
