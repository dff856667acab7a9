import Verif.Model.Frames
import Verif.Props.FramesProps

/-!
# C118: how deep the calls of a build nest
-/

namespace Ccnpy

/-! ## Specification -/

/-- How many calls of `_bottom_up_preorder`, `_interior_manifest` and `_interior_add_indirect` nest while a subtree is made at the
given level of the last of `x` chunks: one for a leaf, otherwise three and what the first (rightmost) child needs, for which all but
`d` chunks are left. -/
def Spec.nested (d p : Nat) : Nat → Nat → Nat
  | 0, _ => 1
  | level + 1, x => if x ≤ p then 1 else 3 + Spec.nested d p level (x - d)

/-- The same for a manifest whose rightmost child, at the given level, exists already, with `x` chunks left. -/
def Spec.nestedTop (d m level x : Nat) : Nat := if 2 ≤ m ∧ d < x then 3 + Spec.nested d (d + m) level (x - d) else 3

/-! ## Arithmetic -/

theorem nested_pos (d p level x : Nat) : 1 ≤ Spec.nested d p level x := by
  cases level with
  | zero => exact Nat.le_refl _
  | succ level =>
    rw [Spec.nested]
    split
    · exact Nat.le_refl _
    · omega

theorem nested_mono (d p level : Nat) {x y : Nat} (h : x ≤ y) : Spec.nested d p level x ≤ Spec.nested d p level y := by
  induction level generalizing x y with
  | zero => exact Nat.le_refl _
  | succ level ih =>
    rw [Spec.nested, Spec.nested]
    have := ih (x := x - d) (y := y - d) (by omega)
    split <;> split <;> omega

theorem nested_le (d p level x : Nat) : Spec.nested d p level x ≤ 3 * level + 1 := by
  induction level generalizing x with
  | zero => exact Nat.le_refl _
  | succ level ih =>
    rw [Spec.nested]
    have := ih (x - d)
    split <;> omega

theorem nestedTop_le (d m level x : Nat) : Spec.nestedTop d m level x ≤ 3 * level + 4 := by
  unfold Spec.nestedTop
  have := nested_le d (d + m) level (x - d)
  split <;> omega

/-! ## Segments only lose their end -/

/-- Of the segment only the end is used. -/
def Keeps (child : Segment → PyS BState (Built × Segment)) : Prop :=
  ∀ seg s c seg' s', child seg s = (.ok (c, seg'), s') → seg'.head = seg.head ∧ seg'.tail ≤ seg.tail

theorem decrementTail_keeps {seg seg' : Segment} {n : Nat} (h : seg.decrementTail n = .ok seg') :
    seg'.head = seg.head ∧ seg'.tail ≤ seg.tail := by
  unfold Segment.decrementTail at h
  split at h
  · cases h
  · split at h
    · cases h
    · cases h
      exact ⟨rfl, Nat.sub_le _ _⟩

theorem leafManifest_keeps (T : TreeEnv) (level : Nat) : Keeps (fun seg => leafManifest T seg level) := by
  intro seg s c seg' s' h
  simp only [leafManifest] at h
  obtain ⟨b, s1, _, h⟩ := PyS.bind_ok h
  obtain ⟨seg1, h1, h⟩ := PyS.liftBind_ok h
  obtain ⟨_, s2, _, h⟩ := PyS.bind_ok h
  cases h
  exact decrementTail_keeps h1

theorem addIndirectLoop_keeps {T : TreeEnv} {child : Segment → PyS BState (Built × Segment)} (hc : Keeps child) {fuel : Nat}
    {b b' : BuilderPair} {seg seg' : Segment} {s s' : BState} (h : addIndirectLoop T child fuel b seg s = (.ok (b', seg'), s')) :
    seg'.head = seg.head ∧ seg'.tail ≤ seg.tail := by
  induction fuel generalizing b seg s with
  | zero =>
    rw [addIndirectLoop.eq_def] at h
    simp only at h
    split at h
    · cases h
      exact ⟨rfl, Nat.le_refl _⟩
    · cases h
  | succ fuel ih =>
    rw [addIndirectLoop.eq_def] at h
    simp only at h
    split at h
    · cases h
      exact ⟨rfl, Nat.le_refl _⟩
    · obtain ⟨⟨c, seg1⟩, s1, h1, h⟩ := PyS.bind_ok h
      obtain ⟨b1, _, h⟩ := PyS.liftBind_ok h
      obtain ⟨a1, a2⟩ := hc _ _ _ _ _ h1
      obtain ⟨a3, a4⟩ := ih h
      exact ⟨a3.trans a1, Nat.le_trans a4 a2⟩

theorem addIndirect_keeps {T : TreeEnv} {child : Segment → PyS BState (Built × Segment)} (hc : Keeps child)
    {b b' : BuilderPair} {seg seg' : Segment} {s s' : BState} (h : addIndirect T child b seg s = (.ok (b', seg'), s')) :
    seg'.head = seg.head ∧ seg'.tail ≤ seg.tail := by
  simp only [addIndirect] at h
  obtain ⟨seg1, h1, h⟩ := PyS.liftBind_ok h
  obtain ⟨⟨b1, seg2⟩, s1, h2, h⟩ := PyS.bind_ok h
  obtain ⟨seg3, h3, h⟩ := PyS.liftBind_ok h
  cases h
  obtain ⟨a1, a2⟩ := addIndirectLoop_keeps hc h2
  unfold Segment.incrementHead at h1
  unfold Segment.decrementHead at h3
  split at h1
  · cases h1
  split at h3
  · cases h3
  cases h1
  cases h3
  simp only at *
  omega

theorem addDirectLoop_keeps {T : TreeEnv} {fuel : Nat} {b b' : BuilderPair} {seg seg' : Segment} {l l' : Option Nat}
    (h : addDirectLoop T fuel b seg l = .ok (b', seg', l')) : seg'.head = seg.head ∧ seg'.tail ≤ seg.tail := by
  induction fuel generalizing b seg l with
  | zero =>
    rw [addDirectLoop.eq_def] at h
    simp only at h
    split at h
    · cases h
      exact ⟨rfl, Nat.le_refl _⟩
    · cases h
  | succ fuel ih =>
    rw [addDirectLoop.eq_def] at h
    simp only at h
    split at h
    · cases h
      exact ⟨rfl, Nat.le_refl _⟩
    · obtain ⟨c, _, h⟩ := bind_eq_ok.mp h
      obtain ⟨b1, _, h⟩ := bind_eq_ok.mp h
      obtain ⟨seg1, h1, h⟩ := bind_eq_ok.mp h
      have := decrementTail_keeps h1
      have := ih h
      omega

theorem interiorManifest_keeps {T : TreeEnv} {child : Segment → PyS BState (Built × Segment)} (hc : Keeps child) (level : Nat)
    (rm : Option Built) : Keeps (fun seg => interiorManifest T child seg level rm) := by
  intro seg s c seg' s' h
  simp only [interiorManifest] at h
  obtain ⟨b, _, h⟩ := PyS.liftBind_ok h
  obtain ⟨⟨b1, seg1⟩, s1, h1, h⟩ := PyS.bind_ok h
  obtain ⟨⟨b2, seg2, least⟩, h2, h⟩ := PyS.liftBind_ok h
  obtain ⟨r, s2, _, h⟩ := PyS.bind_ok h
  obtain ⟨_, s3, _, h⟩ := PyS.bind_ok h
  cases h
  obtain ⟨a1, a2⟩ := addIndirect_keeps hc h1
  obtain ⟨a3, a4⟩ := addDirectLoop_keeps h2
  exact ⟨a3.trans a1, Nat.le_trans a4 a2⟩

theorem bottomUp_keeps (T : TreeEnv) (level : Nat) (rm : Option Built) : Keeps (fun seg => bottomUp T level seg rm) := by
  induction level generalizing rm with
  | zero =>
    intro seg s c seg' s' h
    simp only [bottomUp] at h
    obtain ⟨_, _, h⟩ := PyS.liftBind_ok h
    exact leafManifest_keeps T 0 _ _ _ _ _ h
  | succ level ih =>
    intro seg s c seg' s' h
    simp only [bottomUp] at h
    split at h
    · exact leafManifest_keeps T _ _ _ _ _ _ h
    · exact interiorManifest_keeps (ih none) _ _ _ _ _ _ _ h

/-! ## Enough room -/

theorem PyS.bind_congr {σ α β : Type} {x y : PyS σ α} {f g : α → PyS σ β} (h : x = y)
    (hf : ∀ a s s', y s = (.ok a, s') → f a = g a) : x >>= f = y >>= g := by
  subst h
  funext s
  rw [PyS.bind_run, PyS.bind_run]
  split
  · rename_i a s' hx
    rw [hf a s s' hx]
  · rfl

theorem addIndirectLoop_congr {T : TreeEnv} {c1 c2 : Segment → PyS BState (Built × Segment)} (hk : Keeps c2) (fuel : Nat)
    (b : BuilderPair) (seg : Segment) (hc : ∀ seg' : Segment, seg'.head = seg.head → seg'.tail ≤ seg.tail → c1 seg' = c2 seg') :
    addIndirectLoop T c1 fuel b seg = addIndirectLoop T c2 fuel b seg := by
  induction fuel generalizing b seg with
  | zero =>
    rw [addIndirectLoop.eq_def, addIndirectLoop.eq_def]
  | succ fuel ih =>
    rw [addIndirectLoop.eq_def, addIndirectLoop.eq_def T c2]
    simp only
    split
    · rfl
    · refine PyS.bind_congr (hc seg rfl (Nat.le_refl _)) fun ⟨c, seg1⟩ s s' h1 => ?_
      have := hk _ _ _ _ _ h1
      refine PyS.bind_congr rfl fun b1 _ _ _ => ?_
      exact ih b1 seg1 fun seg' h2 h3 => hc seg' (by omega) (by omega)

theorem addIndirect_congr {T : TreeEnv} {c1 c2 : Segment → PyS BState (Built × Segment)} (hk : Keeps c2) (b : BuilderPair)
    (seg : Segment) (hx : T.direct ≤ seg.length)
    (hc : ∀ seg' : Segment, seg'.length ≤ seg.length - T.direct → c1 seg' = c2 seg') :
    addIndirect T c1 b seg = addIndirect T c2 b seg := by
  simp only [addIndirect]
  refine PyS.bind_congr rfl fun seg1 s s' h1 => ?_
  have h1 := (PyS.lift_ok h1).1
  unfold Segment.incrementHead at h1
  split at h1
  · cases h1
  cases h1
  refine PyS.bind_congr (addIndirectLoop_congr hk _ _ _ fun seg' h2 h3 => hc seg' ?_) fun _ _ _ _ => rfl
  simp only [Segment.length] at *
  omega

theorem interiorManifest_with (T : TreeEnv) (child : Segment → PyS BState (Built × Segment)) (seg : Segment) (level : Nat)
    (rm : Option Built) : interiorManifest T child seg level rm = interiorManifestWith T (addIndirect T child) seg level rm := rfl

theorem interiorManifestWith_congr {T : TreeEnv} {a1 a2 : BuilderPair → Segment → PyS BState (BuilderPair × Segment)} (seg : Segment)
    (level : Nat) (rm : Option Built)
    (h : ∀ b, addRightMostChild T (BuilderPair.new T.ctx T.direct T.indirect) rm = .ok b → a1 b seg = a2 b seg) :
    interiorManifestWith T a1 seg level rm = interiorManifestWith T a2 seg level rm := by
  simp only [interiorManifestWith]
  refine PyS.bind_congr rfl fun b _ _ hb => ?_
  exact PyS.bind_congr (h b (PyS.lift_ok hb).1) fun _ _ _ _ => rfl

theorem bottomUpIn_three (T : TreeEnv) (room level : Nat) (seg : Segment) (rm : Option Built) :
    bottomUpIn T (room + 3) level seg rm = bottomUpWith T (fun level seg rightMost =>
      interiorManifestWith T (addIndirect T (fun seg => bottomUpIn T room level seg none)) seg (level + 1) rightMost) level seg rm := rfl

/-- Without a rightmost child. -/
theorem bottomUpIn_enough (T : TreeEnv) (level : Nat) (room : Nat) (seg : Segment)
    (h : Spec.nested T.direct (T.direct + T.indirect) level seg.length ≤ room) :
    bottomUpIn T room level seg none = bottomUp T level seg none := by
  induction level generalizing room seg with
  | zero =>
    have := nested_pos T.direct (T.direct + T.indirect) 0 seg.length
    match room, this, h with
    | 0, h1, h2 => omega
    | 1, _, _ => rfl
    | 2, _, _ => rfl
    | room + 3, _, _ => rfl
  | succ level ih =>
    rw [Spec.nested] at h
    by_cases hx : seg.length ≤ T.direct + T.indirect
    · rw [if_pos hx] at h
      have hp : (Option.isNone (none : Option Built) && decide (seg.length ≤ T.pointers)) = true := by
        have : seg.length ≤ T.pointers := by unfold TreeEnv.pointers; omega
        simpa using this
      have hr : bottomUp T (level + 1) seg none = leafManifest T seg (level + 1) := by rw [bottomUp, if_pos hp]
      rw [hr]
      match room, h with
      | 1, _ => rw [bottomUpIn, bottomUpWith, if_pos hp]
      | 2, _ => rw [bottomUpIn, bottomUpWith, if_pos hp]
      | room + 3, _ => rw [bottomUpIn, bottomUpWith, if_pos hp]
    · rw [if_neg hx] at h
      obtain ⟨r, rfl⟩ : ∃ r, room = r + 3 := ⟨room - 3, by omega⟩
      have hp : ¬ (Option.isNone (none : Option Built) && decide (seg.length ≤ T.pointers)) = true := by
        have : ¬ seg.length ≤ T.pointers := by unfold TreeEnv.pointers; omega
        simpa using this
      rw [bottomUpIn_three, bottomUpWith, bottomUp, if_neg hp, if_neg hp, interiorManifest_with]
      refine interiorManifestWith_congr _ _ _ fun b _ => addIndirect_congr (bottomUp_keeps T level none) _ _ (by omega) fun seg' hs => ?_
      exact ih r seg' (by have := nested_mono T.direct (T.direct + T.indirect) level hs; omega)

theorem addRightMost_count {T : TreeEnv} {root : Built} {b : BuilderPair}
    (h : addRightMostChild T (BuilderPair.new T.ctx T.direct T.indirect) (some root) = .ok b) :
    b.indirectBuilder.isIndirectFull = decide (T.indirect ≤ 1) := by
  simp only [addRightMostChild, BuilderPair.appendIndirect] at h
  obtain ⟨_, _, h⟩ := bind_eq_ok.mp h
  obtain ⟨_, _, h⟩ := bind_eq_ok.mp h
  obtain ⟨x, h1, h⟩ := bind_eq_ok.mp h
  simp only [HashGroupBuilder.appendIndirect] at h1
  obtain ⟨_, _, h1⟩ := bind_eq_ok.mp h1
  cases h
  cases h1
  unfold BuilderPair.new
  split
  · simp [BuilderPair.setIndirect, BuilderPair.indirectBuilder, HashGroupBuilder.isIndirectFull, limitReached]
  · simp [BuilderPair.setIndirect, BuilderPair.indirectBuilder, HashGroupBuilder.isIndirectFull, limitReached]

/-- The loop does nothing if there is no free slot or no chunk left. -/
theorem addIndirectLoop_done {T : TreeEnv} {child : Segment → PyS BState (Built × Segment)} {fuel : Nat} {b : BuilderPair} {seg : Segment}
    (h : (b.indirectBuilder.isIndirectFull || seg.empty) = true) : addIndirectLoop T child fuel b seg = pure (b, seg) := by
  rw [addIndirectLoop.eq_def]
  simp only
  rw [if_pos h]

/-- With a rightmost child. -/
theorem bottomUpIn_top (T : TreeEnv) (level room : Nat) (seg : Segment) (root : Built)
    (h : Spec.nestedTop T.direct T.indirect level seg.length ≤ room) :
    bottomUpIn T room (level + 1) seg (some root) = bottomUp T (level + 1) seg (some root) := by
  have h3 : 3 ≤ room := by
    unfold Spec.nestedTop at h
    split at h <;> omega
  obtain ⟨r, rfl⟩ : ∃ r, room = r + 3 := ⟨room - 3, by omega⟩
  have hp : ¬ (Option.isNone (some root) && decide (seg.length ≤ T.pointers)) = true := by simp
  rw [bottomUpIn_three, bottomUpWith, bottomUp, if_neg hp, if_neg hp, interiorManifest_with]
  refine interiorManifestWith_congr _ _ _ fun b hb => ?_
  have hfull := addRightMost_count hb
  by_cases hc : 2 ≤ T.indirect ∧ T.direct < seg.length
  · rw [Spec.nestedTop, if_pos hc] at h
    refine addIndirect_congr (bottomUp_keeps T level none) _ _ (by omega) fun seg' hs => ?_
    exact bottomUpIn_enough T level r seg' (by have := nested_mono T.direct (T.direct + T.indirect) level hs; omega)
  · simp only [addIndirect]
    refine PyS.bind_congr rfl fun seg1 s s' h1 => ?_
    have h1 := (PyS.lift_ok h1).1
    unfold Segment.incrementHead at h1
    split at h1
    · cases h1
    cases h1
    have hdone : (b.indirectBuilder.isIndirectFull || Segment.empty { seg with head := seg.head + min T.direct seg.length }) = true := by
      rw [hfull]
      simp only [Segment.empty, Bool.or_eq_true, decide_eq_true_eq, beq_iff_eq, Segment.length] at *
      omega
    rw [addIndirectLoop_done hdone, addIndirectLoop_done hdone]

/-! ## Too little room -/

theorem addIndirect_child {T : TreeEnv} {child : Segment → PyS BState (Built × Segment)} {b : BuilderPair} {seg : Segment} {s : BState}
    (hm : 1 ≤ T.indirect) (hfull : b.indirectBuilder.isIndirectFull = false) (hx : T.direct < seg.length)
    (hc : ∀ seg' : Segment, seg'.length = seg.length - T.direct → child seg' s = (.error .nonTermination, s)) :
    addIndirect T child b seg s = (.error .nonTermination, s) := by
  simp only [addIndirect]
  have hmin : min T.direct seg.length = T.direct := by omega
  rw [hmin]
  have h1 : seg.incrementHead T.direct = .ok { seg with head := seg.head + T.direct } := by
    unfold Segment.incrementHead
    unfold Segment.length at hx
    rw [if_neg (by omega)]
  rw [PyS.liftBind_run h1]
  apply PyS.bind_of_error
  obtain ⟨k, hk⟩ : ∃ k, T.indirect = k + 1 := ⟨T.indirect - 1, by omega⟩
  rw [hk, addIndirectLoop.eq_def]
  simp only
  have hne : ¬ (b.indirectBuilder.isIndirectFull || Segment.empty { seg with head := seg.head + T.direct }) = true := by
    rw [hfull]
    simp only [Segment.empty, Bool.false_or, beq_iff_eq, Segment.length] at *
    omega
  rw [if_neg hne]
  apply PyS.bind_of_error
  apply hc
  simp only [Segment.length]
  omega

theorem bottomUpIn_short (T : TreeEnv) (hm : 1 ≤ T.indirect) (level room : Nat) (seg : Segment) (s : BState)
    (h : room < Spec.nested T.direct (T.direct + T.indirect) level seg.length) :
    bottomUpIn T room level seg none s = (.error .nonTermination, s) := by
  induction level generalizing room seg with
  | zero =>
    rw [Spec.nested] at h
    obtain rfl : room = 0 := by omega
    rfl
  | succ level ih =>
    rw [Spec.nested] at h
    match room with
    | 0 => rfl
    | room + 1 =>
      have hx : ¬ seg.length ≤ T.direct + T.indirect := by
        intro hx
        rw [if_pos hx] at h
        omega
      rw [if_neg hx] at h
      have hp : ¬ (Option.isNone (none : Option Built) && decide (seg.length ≤ T.pointers)) = true := by
        have : ¬ seg.length ≤ T.pointers := by unfold TreeEnv.pointers; omega
        simpa using this
      match room with
      | 0 => rw [bottomUpIn, bottomUpWith, if_neg hp]; rfl
      | 1 => rw [bottomUpIn, bottomUpWith, if_neg hp]; rfl
      | room + 2 =>
        rw [bottomUpIn_three, bottomUpWith, if_neg hp, interiorManifestWith]
        rw [PyS.liftBind_run (show addRightMostChild T (BuilderPair.new T.ctx T.direct T.indirect) none = .ok _ from rfl)]
        apply PyS.bind_of_error
        refine addIndirect_child hm ?_ (by omega) fun seg' hs => ih room seg' (by rw [hs]; omega)
        unfold BuilderPair.new
        split
        · simp [BuilderPair.indirectBuilder, HashGroupBuilder.isIndirectFull, limitReached]; omega
        · simp [BuilderPair.indirectBuilder, HashGroupBuilder.isIndirectFull, limitReached]; omega

theorem bottomUpIn_top_short (T : TreeEnv) (level room : Nat) (seg : Segment) (root : Built) (s : BState) {b : BuilderPair}
    (hb : addRightMostChild T (BuilderPair.new T.ctx T.direct T.indirect) (some root) = .ok b)
    (h : room < Spec.nestedTop T.direct T.indirect level seg.length) :
    bottomUpIn T room (level + 1) seg (some root) s = (.error .nonTermination, s) := by
  have hp : ¬ (Option.isNone (some root) && decide (seg.length ≤ T.pointers)) = true := by simp
  match room with
  | 0 => rfl
  | 1 => rw [bottomUpIn, bottomUpWith, if_neg hp]; rfl
  | 2 =>
    rw [bottomUpIn, bottomUpWith, if_neg hp, interiorManifestWith, PyS.liftBind_run hb]
    rfl
  | room + 3 =>
    by_cases hc : 2 ≤ T.indirect ∧ T.direct < seg.length
    · rw [Spec.nestedTop, if_pos hc] at h
      rw [bottomUpIn_three, bottomUpWith, if_neg hp, interiorManifestWith, PyS.liftBind_run hb]
      apply PyS.bind_of_error
      refine addIndirect_child (by omega) ?_ hc.2 fun seg' hs => bottomUpIn_short T (by omega) level room seg' s (by rw [hs]; omega)
      rw [addRightMost_count hb]
      simp only [decide_eq_false_iff_not]
      omega
    · rw [Spec.nestedTop, if_neg hc] at h
      omega

/-- With any room: what happens without a limit, or RecursionError and nothing done. -/
theorem bottomUpIn_or (T : TreeEnv) (level room : Nat) (seg : Segment) (root : Built) (s : BState) :
    bottomUpIn T room (level + 1) seg (some root) s = bottomUp T (level + 1) seg (some root) s ∨
    bottomUpIn T room (level + 1) seg (some root) s = (.error .nonTermination, s) := by
  have hp : ¬ (Option.isNone (some root) && decide (seg.length ≤ T.pointers)) = true := by simp
  rcases Nat.lt_or_ge room (Spec.nestedTop T.direct T.indirect level seg.length) with h | h
  · cases hb : addRightMostChild T (BuilderPair.new T.ctx T.direct T.indirect) (some root) with
    | ok b => exact .inr (bottomUpIn_top_short T level room seg root s hb h)
    | error e =>
      match room with
      | 0 => exact .inr rfl
      | 1 => exact .inr (by rw [bottomUpIn, bottomUpWith, if_neg hp]; rfl)
      | 2 =>
        left
        rw [bottomUpIn, bottomUpWith, bottomUp, if_neg hp, if_neg hp, interiorManifest, interiorManifestWith, hb]
        rfl
      | room + 3 =>
        left
        rw [bottomUpIn, bottomUpWith, bottomUp, if_neg hp, if_neg hp, interiorManifest, interiorManifestWith, hb]
        rfl
  · exact .inl (by rw [bottomUpIn_top T level room seg root h])

theorem buildLoopIn_or (T : TreeEnv) (room fuel level : Nat) (seg : Segment) (root : Built) (s : BState) :
    buildLoopIn T room fuel level seg root s = buildLoop T fuel level seg root s ∨
    ∃ s', buildLoopIn T room fuel level seg root s = (.error .nonTermination, s') := by
  induction fuel generalizing level seg root s with
  | zero =>
    exact .inl (by rw [buildLoopIn.eq_def, buildLoop.eq_def])
  | succ fuel ih =>
    rw [buildLoopIn.eq_def, buildLoop.eq_def]
    simp only
    split
    · exact .inl rfl
    · rw [PyS.bind_run, PyS.bind_run]
      rcases bottomUpIn_or T level room seg root s with h | h
      · rw [h]
        rcases bottomUp T (level + 1) seg (some root) s with ⟨_ | ⟨r, seg1⟩, s1⟩
        · exact .inl rfl
        · exact ih (level + 1) seg1 r s1
      · rw [h]
        exact .inr ⟨s, rfl⟩

/-! ## The levels of a build -/

theorem topTree_step {T : TreeEnv} (hd : 0 < T.direct) (hm : 0 < T.indirect) {known : List HashValue}
    (hk : ∀ c ∈ T.chunks, c.hash ∈ known) {s0 : BState} {level : Nat} {i : Info} {kids : Forest} {seg : Segment} {s : BState}
    (h : TopTree T known s0 level i kids seg s) (hne : seg.head < seg.tail) {r : Built} {seg1 : Segment} {s1 : BState}
    (hrun : bottomUp T (level + 1) seg (some ⟨i.packet, i.node⟩) s = (.ok (r, seg1), s1)) :
    ∃ i1 kids1, r = ⟨i1.packet, i1.node⟩ ∧ TopTree T known s0 (level + 1) i1 kids1 seg1 s1 ∧ s.output <+: s1.output := by
  have hf : ¬ IdErr (fun _ => False) := by rintro (h | h | h) <;> exact h
  obtain ⟨B, hB⟩ := exists_bound s0.nextIds
  have R := Rules.none T B
  have hused := h.used
  have hlt : Spec.treeCapacity T.direct T.indirect level < T.chunks.length := by omega
  have hle := h.trace.le hB
  have hkn : ∀ c ∈ T.chunks, c.hash ∈ known ++ (kids.written ++ [i]).map (·.hash) := fun c hc => List.mem_append_left _ (hk c hc)
  have hroots : (Forest.cons i kids .nil).roots.length = 1 := rfl
  have hbot : bottomUp T (level + 1) seg (some ⟨i.packet, i.node⟩) =
      interiorManifest T (fun seg => bottomUp T level seg none) seg (level + 1) (some ⟨i.packet, i.node⟩) := by
    simp [bottomUp]
  rw [hbot] at hrun
  obtain ⟨i1, newf, h1, h2, h3, h4, h5, h6, h7, h8⟩ := (interiorManifest_run R (bottomUp_run R hd hm level)
    (known := known ++ (kids.written ++ [i]).map (·.hash))
    (base := .cons i kids .nil) (HI := T.chunks.length) (s := s) (seg := seg) (rightMost := some ⟨i.packet, i.node⟩)
    ⟨h.valid, .inr ⟨i, kids, rfl, rfl, by rw [h.trace.last]; simp, by simp, hle.2 i (by simp)⟩⟩
    (fun hb => absurd hb hf)
    hle.1 hne (Nat.le_refl _) hd hm (fun hc => by cases hc) hkn
    (fun k hk => by
      simp only [Forest.roots, List.mem_singleton] at hk
      subst hk
      obtain ⟨g1, g2, _, _, _, g6⟩ := h.valid
      have g6 : k.hi = T.chunks.length := g6
      unfold Info.Full
      rw [g1, g2, g6]
      omega)).1 _ _ hrun
  simp only at h1 h2 h3 h4
  have hw : (newf.append (.cons i kids .nil)).written = kids.written ++ [i] ++ newf.written := by
    rw [Forest.append_written]; simp [Forest.written]
  refine ⟨i1, newf.append (.cons i kids .nil), h2, ⟨h1, ?_, ?_, by rw [h3, h.head], ?_, ?_,
    h7, Forest.packed_append h8 h.packed, trivial⟩, ?_⟩
  · rw [hw, List.append_assoc]
    exact h.trace.trans h5
  · rw [hw, List.append_assoc]
    exact closed_append.mpr ⟨h.closed, h6⟩
  · rw [Spec.treeCapacity]
    rw [hroots, Nat.sub_mul, Nat.one_mul] at h4
    have hmul := Nat.mul_le_mul_right (Spec.treeCapacity T.direct T.indirect level) hm
    rw [Nat.one_mul] at hmul
    have := h.head
    generalize T.indirect * Spec.treeCapacity T.direct T.indirect level = X at *
    omega
  · intro l hl
    rcases Nat.lt_or_eq_of_le (Nat.lt_succ_iff.mp hl) with hl | rfl
    · exact h.least l hl
    · exact hlt
  · rw [h5.wrote.1]
    exact List.prefix_append _ _

theorem topTree_left {T : TreeEnv} {known : List HashValue} {s0 : BState} {level : Nat} {i : Info} {kids : Forest} {seg : Segment}
    {s : BState} (h : TopTree T known s0 level i kids seg s) (hne : ¬ seg.empty = true) :
    seg.head < seg.tail ∧ Spec.treeCapacity T.direct T.indirect level < T.chunks.length ∧
      seg.length = T.chunks.length - Spec.treeCapacity T.direct T.indirect level := by
  have h1 := h.head
  have h2 := h.used
  simp only [Segment.empty, beq_iff_eq] at hne
  unfold Segment.length
  omega

theorem buildLoop_grows {T : TreeEnv} (hd : 0 < T.direct) (hm : 0 < T.indirect) {known : List HashValue}
    (hk : ∀ c ∈ T.chunks, c.hash ∈ known) {s0 : BState} {fuel level : Nat} {i : Info} {kids : Forest} {seg : Segment} {s : BState}
    (h : TopTree T known s0 level i kids seg s) {r : Built} {s' : BState}
    (hok : buildLoop T fuel level seg ⟨i.packet, i.node⟩ s = (.ok r, s')) : s.output <+: s'.output := by
  induction fuel generalizing level i kids seg s with
  | zero =>
    rw [buildLoop.eq_def] at hok
    simp only at hok
    split at hok
    · cases hok
      exact List.prefix_refl _
    · cases hok
  | succ fuel ih =>
    rw [buildLoop.eq_def] at hok
    simp only at hok
    split at hok
    · cases hok
      exact List.prefix_refl _
    · rename_i hne
      obtain ⟨h1, _, _⟩ := topTree_left h hne
      obtain ⟨⟨r1, seg1⟩, s1, hb, hok⟩ := PyS.bind_ok hok
      obtain ⟨i1, kids1, rfl, ht, hpre⟩ := topTree_step hd hm hk h h1 hb
      exact hpre.trans (ih ht hok)

/-- What every level of a build of `n` chunks needs. -/
def Spec.RoomFor (d m n room : Nat) : Prop :=
  ∀ level, Spec.treeCapacity d m level < n → Spec.nestedTop d m level (n - Spec.treeCapacity d m level) ≤ room

theorem buildLoopIn_same {T : TreeEnv} (hd : 0 < T.direct) (hm : 0 < T.indirect) {known : List HashValue}
    (hk : ∀ c ∈ T.chunks, c.hash ∈ known) {s0 : BState} {room : Nat} (hr : Spec.RoomFor T.direct T.indirect T.chunks.length room)
    (fuel : Nat) {level : Nat} {i : Info} {kids : Forest} {seg : Segment} {s : BState} (h : TopTree T known s0 level i kids seg s) :
    buildLoopIn T room fuel level seg ⟨i.packet, i.node⟩ s = buildLoop T fuel level seg ⟨i.packet, i.node⟩ s := by
  induction fuel generalizing level i kids seg s with
  | zero => rw [buildLoopIn.eq_def, buildLoop.eq_def]
  | succ fuel ih =>
    rw [buildLoopIn.eq_def, buildLoop.eq_def]
    simp only
    split
    · rfl
    · rename_i hne
      obtain ⟨h1, h2, h3⟩ := topTree_left h hne
      rw [bottomUpIn_top T level room seg _ (by rw [h3]; exact hr level h2), PyS.bind_run, PyS.bind_run]
      rcases hb : bottomUp T (level + 1) seg (some ⟨i.packet, i.node⟩) s with ⟨_ | ⟨r, seg1⟩, s1⟩
      · rfl
      · obtain ⟨i1, kids1, rfl, ht, _⟩ := topTree_step hd hm hk h h1 hb
        exact ih ht

theorem buildLoopIn_short {T : TreeEnv} (hd : 0 < T.direct) (hm : 0 < T.indirect) {known : List HashValue}
    (hk : ∀ c ∈ T.chunks, c.hash ∈ known) {s0 : BState} {room : Nat} (hr : ¬ Spec.RoomFor T.direct T.indirect T.chunks.length room)
    (fuel : Nat) {level : Nat} {i : Info} {kids : Forest} {seg : Segment} {s : BState} (h : TopTree T known s0 level i kids seg s)
    (hl : ∀ l < level, Spec.nestedTop T.direct T.indirect l (T.chunks.length - Spec.treeCapacity T.direct T.indirect l) ≤ room)
    {r : Built} {s' : BState} (hok : buildLoop T fuel level seg ⟨i.packet, i.node⟩ s = (.ok r, s')) :
    ∃ s1, buildLoopIn T room fuel level seg ⟨i.packet, i.node⟩ s = (.error .nonTermination, s1) ∧ s1.output <+: s'.output := by
  induction fuel generalizing level i kids seg s with
  | zero =>
    exfalso
    rw [buildLoop.eq_def] at hok
    simp only at hok
    split at hok
    · rename_i he
      refine hr fun l hl' => ?_
      rcases Nat.lt_or_ge l level with hlt | hge
      · exact hl l hlt
      · have h1 := h.head
        have h2 := h.used
        simp only [Segment.empty, beq_iff_eq] at he
        have := treeCapacity_le (d := T.direct) hm hge
        omega
    · cases hok
  | succ fuel ih =>
    rw [buildLoop.eq_def] at hok
    rw [buildLoopIn.eq_def]
    simp only at hok ⊢
    split at hok
    · rename_i he
      exfalso
      refine hr fun l hl' => ?_
      rcases Nat.lt_or_ge l level with hlt | hge
      · exact hl l hlt
      · have h1 := h.head
        have h2 := h.used
        simp only [Segment.empty, beq_iff_eq] at he
        have := treeCapacity_le (d := T.direct) hm hge
        omega
    · rename_i hne
      rw [if_neg hne]
      obtain ⟨h1, h2, h3⟩ := topTree_left h hne
      obtain ⟨⟨r1, seg1⟩, s1, hb, hok⟩ := PyS.bind_ok hok
      obtain ⟨i1, kids1, rfl, ht, hpre⟩ := topTree_step hd hm hk h h1 hb
      rcases Nat.lt_or_ge room (Spec.nestedTop T.direct T.indirect level seg.length) with hlt | hge
      · have hadd : ∃ b, addRightMostChild T (BuilderPair.new T.ctx T.direct T.indirect) (some ⟨i.packet, i.node⟩) = .ok b := by
          have hbot : bottomUp T (level + 1) seg (some ⟨i.packet, i.node⟩) =
              interiorManifest T (fun seg => bottomUp T level seg none) seg (level + 1) (some ⟨i.packet, i.node⟩) := by
            simp [bottomUp]
          rw [hbot, interiorManifest] at hb
          obtain ⟨b, hb1, _⟩ := PyS.liftBind_ok hb
          exact ⟨b, hb1⟩
        obtain ⟨b, hadd⟩ := hadd
        refine ⟨s, PyS.bind_of_error (bottomUpIn_top_short T level room seg _ s hadd hlt), hpre.trans ?_⟩
        exact buildLoop_grows hd hm hk ht hok
      · rw [bottomUpIn_top T level room seg _ hge, PyS.bind_of_ok hb]
        refine ih ht (fun l hl' => ?_) hok
        rcases Nat.lt_or_eq_of_le (Nat.lt_succ_iff.mp hl') with hl' | rfl
        · exact hl l hl'
        · rw [← h3]; exact hge

/-- The first manifest of a build. -/
theorem topTree_start {T : TreeEnv} (hd : 0 < T.direct) (hm : 0 < T.indirect) (hn : 0 < T.chunks.length) {ids : List Int}
    {s s1 : BState} {r : Built} {seg : Segment} (h : leafManifest T ⟨0, T.chunks.length⟩ 0 (startState s ids) = (.ok (r, seg), s1)) :
    ∃ i kids, r = ⟨i.packet, i.node⟩ ∧ TopTree T (T.chunks.map (·.hash)) (startState s ids) 0 i kids seg s1 := by
  have hf : ¬ IdErr (fun _ => False) := by rintro (h | h | h) <;> exact h
  obtain ⟨B, hB⟩ := exists_bound ids
  obtain ⟨i, kids, h1, h2, h3, h4, h5, h6, h7⟩ := (leafManifest_run (Rules.none T B) (s := startState s ids) (level := 0)
    (seg := ⟨0, T.chunks.length⟩) (known := T.chunks.map (·.hash)) (fun hb => absurd hb hf) hB hn (Nat.le_refl _) hd hm (.inl rfl)
    (fun c hc => List.mem_map_of_mem hc)).1 _ _ h
  exact ⟨i, kids, h2, ⟨h1, h5, h6, h3, by simpa using h4, by simp, h7⟩⟩

/-- C118: with room for as many nested calls as the levels of the tree need, a build does what it does without a limit, whatever that
is. -/
theorem C118_same (T : TreeEnv) (hd : 1 ≤ T.direct) (hm : 1 ≤ T.indirect) (hn : 1 ≤ T.chunks.length) (room : Nat)
    (hr : Spec.RoomFor T.direct T.indirect T.chunks.length room) (s : BState) : buildTreeIn T room s = buildTree T s := by
  unfold buildTreeIn buildTree
  cases hi : initialIds T.indirect T.height with
  | error e => rfl
  | ok ids =>
    show (leafManifest T ⟨0, T.chunks.length⟩ 0 >>= fun x => buildLoopIn T room (T.height.toNat + 1) 0 x.2 x.1) (startState s ids) =
      (leafManifest T ⟨0, T.chunks.length⟩ 0 >>= fun x => buildLoop T (T.height.toNat + 1) 0 x.2 x.1) (startState s ids)
    rw [PyS.bind_run, PyS.bind_run]
    rcases h : leafManifest T ⟨0, T.chunks.length⟩ 0 (startState s ids) with ⟨_ | ⟨r, seg⟩, s1⟩
    · rfl
    · obtain ⟨i, kids, rfl, ht⟩ := topTree_start hd hm hn h
      exact buildLoopIn_same hd hm (fun c hc => List.mem_map_of_mem hc) hr _ ht

/-- C118: with less room a build that would succeed raises RecursionError; what it had written by then is the beginning of what the
successful build writes. -/
theorem C118_exceeded (T : TreeEnv) (hd : 1 ≤ T.direct) (hm : 1 ≤ T.indirect) (hn : 1 ≤ T.chunks.length) (room : Nat)
    (hr : ¬ Spec.RoomFor T.direct T.indirect T.chunks.length room) (s s' : BState) (r : Built) (h : buildTree T s = (.ok r, s')) :
    ∃ s1, buildTreeIn T room s = (.error .nonTermination, s1) ∧ s1.output <+: s'.output := by
  unfold buildTree at h
  unfold buildTreeIn
  obtain ⟨ids, hi, h⟩ := PyS.liftBind_ok h
  rw [PyS.liftBind_run hi]
  have h : (leafManifest T ⟨0, T.chunks.length⟩ 0 >>= fun x => buildLoop T (T.height.toNat + 1) 0 x.2 x.1) (startState s ids) =
    (.ok r, s') := h
  show ∃ s1, (leafManifest T ⟨0, T.chunks.length⟩ 0 >>= fun x => buildLoopIn T room (T.height.toNat + 1) 0 x.2 x.1)
    (startState s ids) = (.error .nonTermination, s1) ∧ _
  obtain ⟨⟨r1, seg⟩, s1, hleaf, h⟩ := PyS.bind_ok h
  obtain ⟨i, kids, rfl, ht⟩ := topTree_start hd hm hn hleaf
  rw [PyS.bind_of_ok hleaf]
  exact buildLoopIn_short hd hm (fun c hc => List.mem_map_of_mem hc) hr _ ht (by simp) h

/-- C118: with any room a build does what it does without a limit, or raises RecursionError. -/
theorem C118_or_raises (T : TreeEnv) (room : Nat) (s : BState) :
    buildTreeIn T room s = buildTree T s ∨ ∃ s1, buildTreeIn T room s = (.error .nonTermination, s1) := by
  unfold buildTreeIn buildTree
  cases hi : initialIds T.indirect T.height with
  | error e => exact .inl rfl
  | ok ids =>
    show (leafManifest T ⟨0, T.chunks.length⟩ 0 >>= fun x => buildLoopIn T room (T.height.toNat + 1) 0 x.2 x.1) (startState s ids) =
      (leafManifest T ⟨0, T.chunks.length⟩ 0 >>= fun x => buildLoop T (T.height.toNat + 1) 0 x.2 x.1) (startState s ids) ∨
      ∃ s1, (leafManifest T ⟨0, T.chunks.length⟩ 0 >>= fun x => buildLoopIn T room (T.height.toNat + 1) 0 x.2 x.1)
        (startState s ids) = (.error .nonTermination, s1)
    rw [PyS.bind_run, PyS.bind_run]
    rcases h : leafManifest T ⟨0, T.chunks.length⟩ 0 (startState s ids) with ⟨_ | ⟨r, seg⟩, s1⟩
    · exact .inl rfl
    · exact buildLoopIn_or T room _ 0 seg r s1

/-! ## Bounds -/

/-- C118: with one indirect pointer per manifest, three nested calls are enough, however long the chain. -/
theorem C118_chain (d n : Nat) : Spec.RoomFor d 1 n 3 := by
  intro level _
  rw [Spec.nestedTop, if_neg (by omega)]

/-- C118: three calls for every level below the top and four for the top are enough. -/
theorem C118_levels (d m n h : Nat) (hm : 1 ≤ m) (hc : n ≤ Spec.treeCapacity d m h) : Spec.RoomFor d m n (3 * h + 1) := by
  intro level hlt
  have h1 := nestedTop_le d m level (n - Spec.treeCapacity d m level)
  have : level < h := Nat.lt_of_not_le fun hge => by
    have := treeCapacity_le (d := d) hm hge
    omega
  omega

theorem roomFor_mono {d m n a b : Nat} (h : Spec.RoomFor d m n a) (hab : a ≤ b) : Spec.RoomFor d m n b :=
  fun level hlt => Nat.le_trans (h level hlt) hab

theorem roomFor_70 {d m n : Nat} (hm : 1 ≤ m) (hn : n ≤ 2 ^ 24) : Spec.RoomFor d m n 70 := by
  rcases Nat.lt_or_ge m 2 with h | h
  · obtain rfl : m = 1 := by omega
    exact roomFor_mono (C118_chain d n) (by omega)
  · refine C118_levels d m n 23 hm ?_
    have h2 := treeCapacity_pow d m 23
    have h3 : 2 ^ (23 + 1) ≤ m ^ (23 + 1) := Nat.pow_le_pow_left h _
    omega

theorem manifestTreeIn_same (room : Nat) (E : Env) (L : FloatLog) (o : TreeOptions) (nc : Nat) (input : Stream)
    (h : ∀ ctx file st r s0, NameCtx.create o.schemaType nc o.name o.manifestPrefix o.dataPrefix o.manifestLocators o.dataLocators = .ok ctx →
      ctx.data.chunkData E.prims.sha256 o.chunk input {} = (.ok file, st) →
      createOptimizedTree E L o ctx file { output := st.output } = (.ok r, s0) →
      Spec.RoomFor r.direct r.indirect file.chunks.length room) :
    manifestTreeIn room E L o nc input = manifestTree E L o nc input := by
  unfold manifestTreeIn manifestTree
  cases hctx : NameCtx.create o.schemaType nc o.name o.manifestPrefix o.dataPrefix o.manifestLocators o.dataLocators with
  | error e => rfl
  | ok ctx =>
    simp only
    rcases hch : ctx.data.chunkData E.prims.sha256 o.chunk input {} with ⟨_ | file, st⟩
    · rfl
    · simp only
      rcases hopt : createOptimizedTree E L o ctx file { output := st.output } with ⟨_ | r, s0⟩
      · rfl
      · obtain ⟨p1, p2, p3, _⟩ := tree_pos hopt (chunkData_count hch)
        have : buildRootedIn ⟨E, o, ctx, file.chunks, r.direct, r.indirect, r.height⟩ room file.totalBytes s0 =
            buildRooted ⟨E, o, ctx, file.chunks, r.direct, r.indirect, r.height⟩ file.totalBytes s0 := by
          unfold buildRootedIn buildRooted
          rw [PyS.bind_run, PyS.bind_run, C118_same ⟨E, o, ctx, file.chunks, r.direct, r.indirect, r.height⟩ p2 p3 p1 room
            (h ctx file st r s0 hctx hch hopt) s0]
        simp only
        rw [this]
        rcases buildRooted ⟨E, o, ctx, file.chunks, r.direct, r.indirect, r.height⟩ file.totalBytes s0 with ⟨_ | _, _⟩ <;> rfl

/-- C118: with room for 70 nested calls the tree of every file is built as without a limit: the same packets, or the same exception. -/
theorem C118_file (room : Nat) (h : 70 ≤ room) (E : Env) (L : FloatLog) (o : TreeOptions) (nc : Nat) (input : Stream) :
    manifestTreeIn room E L o nc input = manifestTree E L o nc input := by
  refine manifestTreeIn_same room E L o nc input fun ctx file st r s0 _ hch hopt => ?_
  have hc := chunkData_count hch
  obtain ⟨_, _, p3, _⟩ := tree_pos hopt hc
  exact roomFor_mono (roomFor_70 p3 (by unfold MAX_CHUNK_ID at hc; omega)) h

/-- C118: publishing needs less room than retrieving.  With two pointers per manifest the tree is a chain, and the file of `n` chunks is
published with room for three nested calls; to retrieve it, room for `2 n + 2` is needed. -/
theorem C118_unreadable {E : Env} {L : FloatLog} {o : TreeOptions} {nc : Nat} {input : Stream} {root : Packet} {out : List Packet}
    {store : MemoryStore} {ks : Option Keystore}
    (hty : o.schemaType ≠ .segmented) (h : manifestTree E L o nc input = (.ok root, out)) (hr : Spec.CanRead E o nc out store ks)
    (hn : 2 ≤ (Spec.dataOf out).length) (hp : Spec.PointersFor E o nc input.rest.length (Spec.dataOf out) 2) :
    manifestTreeIn 3 E L o nc input = (.ok root, out) ∧
    ∃ hv, root.hash E.prims.sha256 = .ok hv ∧ ∀ room, room < 2 * (Spec.dataOf out).length + 2 → ∃ s,
      TravEnv.traverseIn ⟨E.prims, store.reader E.prims, ks⟩ room o.name (some hv) (TState.new ks) = (.error .nonTermination, s) := by
  have hfun : ∀ p, Spec.PointersFor E o nc input.rest.length (Spec.dataOf out) p → p = 2 := by
    rintro p ⟨ctx', p0', s', a', b', c'⟩
    obtain ⟨ctx, p0, s, a, b, c⟩ := hp
    cases Except.ok.inj (a.symm.trans a')
    cases (Prod.mk.inj (b.symm.trans b')).1
    rw [c', c]
  constructor
  · rw [← h]
    refine manifestTreeIn_same 3 E L o nc input fun ctx file st r s0 hctx hch hopt => ?_
    obtain ⟨R⟩ := manifestTree_ok h
    obtain ⟨p, hp', _, _, hone, _⟩ := R.chosen
    cases Except.ok.inj (hctx.symm.trans R.ctx_ok)
    obtain ⟨_, hrun⟩ := R.run
    cases Except.ok.inj (Prod.mk.inj (hch.symm.trans hrun)).1
    obtain ⟨_, htree⟩ := R.tree
    rw [← R.put, hch] at htree
    cases Except.ok.inj (Prod.mk.inj (hopt.symm.trans htree)).1
    rw [hone.mpr (.inl (hfun p hp'))]
    exact C118_chain _ _
  · obtain ⟨p, hv, hp', hh, hc⟩ := C90_chain hty h hr hn
    exact ⟨hv, hh, fun room hroom => (hc (hfun p hp') room).2 hroom⟩

/-! ## A tree of nine chunks, one direct and two indirect pointers -/

example : Spec.RoomFor Toy.tree.direct Toy.tree.indirect Toy.tree.chunks.length 4 := by
  intro level h
  rw [Spec.nestedTop]
  split
  · match level, h with
    | 0, _ => decide
    | 1, _ => decide
    | level + 2, h =>
      have := treeCapacity_le (d := 1) (m := 2) (by omega) (Nat.le_add_left 2 level)
      have h15 : Spec.treeCapacity 1 2 2 = 15 := by decide
      have h9 : Toy.tree.chunks.length = 9 := by decide
      simp only [Toy.tree] at h h9
      omega
  · omega

example : ¬ Spec.RoomFor Toy.tree.direct Toy.tree.indirect Toy.tree.chunks.length 3 :=
  fun h => absurd (h 0 (by decide)) (by decide)

example : 1 ≤ Toy.tree.direct ∧ 1 ≤ Toy.tree.indirect ∧ 1 ≤ Toy.tree.chunks.length := by decide

/-- The build succeeds, so with room for three calls it raises RecursionError, after its first manifest. -/
example : ∃ s1, buildTreeIn Toy.tree 3 {} = (.error .nonTermination, s1) := by
  obtain ⟨r, s', h, _⟩ := Toy.tree_builds
  obtain ⟨s1, h1, _⟩ := C118_exceeded Toy.tree (by decide) (by decide) (by decide) 3
    (fun h => absurd (h 0 (by decide)) (by decide)) {} s' r h
  exact ⟨s1, h1⟩

set_option maxRecDepth 100000 in
example : (buildTreeIn Toy.tree 3 {}).2.output.length = 1 ∧ (buildTreeIn Toy.tree 4 {}).2.output.length = 5 := by decide +kernel

/-- The largest file, with one direct and two indirect pointers, needs room for 67 calls. -/
example : ¬ Spec.RoomFor 1 2 (2 ^ 24) 66 := fun h => absurd (h 21 (by decide +kernel)) (by decide +kernel)

set_option maxRecDepth 100000 in
/-- Prefix names, encrypted, eight chunks, two pointers: published within three calls, not retrieved within 17. -/
example : ∃ root out store, manifestTreeIn 3 Toy.env Spec.exactLog Toy.chainOptions 1 (Toy.shortReads 32) = (.ok root, out) ∧
    ∃ hv s, TravEnv.traverseIn ⟨Toy.env.prims, MemoryStore.reader Toy.env.prims store, some Toy.aesKeys⟩ 17 Toy.chainOptions.name
      (some hv) (TState.new (some Toy.aesKeys)) = (.error .nonTermination, s) := by
  obtain ⟨root, out, store, h, hn, hr⟩ := Toy.canRead (o := Toy.chainOptions) (input := Toy.shortReads 32) (n := 8)
    trivial Toy.canDecrypt (Toy.plain ⟨rfl, rfl, rfl⟩) (Toy.text rfl rfl rfl) (by decide +kernel)
  obtain ⟨ctx, p, s, h1, h2, h3⟩ := Toy.pointersFor' (p := 3) (by decide +kernel) h
  obtain ⟨a, hv, _, b⟩ := C118_unreadable (by decide) h hr (by rw [hn]; decide) ⟨ctx, p, s, h1, h2, by rw [h3]; rfl⟩
  obtain ⟨s, c⟩ := b 17 (by rw [hn]; decide)
  exact ⟨root, out, store, a, hv, s, c⟩

end Ccnpy
