import Verif.Lemmas.Tree

/-!
# The tree builder: its runs
-/

namespace Ccnpy

/-! ## Halted runs -/

/-- The run stopped with an exception that is not bad; the manifests written before point to known hashes or earlier
manifests. -/
def Halted (T : TreeEnv) (Bad : PyErr → Prop) (known : List HashValue) (s : BState) (e : PyErr) (s' : BState) : Prop :=
  ¬ Bad e ∧ ∃ l, Wrote s l s' ∧ Closed known l ∧ ∀ i ∈ l, i.Made T

theorem Halted.now {T : TreeEnv} {Bad : PyErr → Prop} {known : List HashValue} {s s' : BState} {e : PyErr} (h : ¬ Bad e)
    (ho : s'.output = s.output) (hg : s'.graph = s.graph) : Halted T Bad known s e s' :=
  ⟨h, [], ⟨by simp [ho], by simp [hg]⟩, trivial, by simp⟩

theorem Halted.after {T : TreeEnv} {Bad : PyErr → Prop} {known : List HashValue} {s m s' : BState} {e : PyErr} {a : List Info}
    (hw : Wrote s a m) (hc : Closed known a) (hm : ∀ i ∈ a, i.Made T)
    (h : Halted T Bad (known ++ a.map (·.hash)) m e s') : Halted T Bad known s e s' := by
  obtain ⟨hb, l, h1, h2, h3⟩ := h
  refine ⟨hb, a ++ l, hw.trans h1, closed_append.mpr ⟨hc, h2⟩, ?_⟩
  intro i hi
  rcases List.mem_append.mp hi with hi | hi
  · exact hm i hi
  · exact h3 i hi

/-! ## Forests -/

/-- The tree under the manifest has as many chunks as there is room for on its level. -/
def Info.Full (T : TreeEnv) (i : Info) : Prop := i.hi = i.lo + Spec.treeCapacity T.direct T.indirect i.level

/-- All children but the leftmost are full, and either the manifest has all its own chunks or it has just one child, a full one. -/
def Info.Packed (T : TreeEnv) (i : Info) (kids : Forest) : Prop :=
  kids ≠ .nil → (∀ k ∈ kids.roots.tail, k.Full T) ∧ (i.count = T.direct ∨ ∃ k, kids.roots = [k] ∧ k.Full T)

/-- Every manifest of the forest is packed. -/
def Forest.Packed (T : TreeEnv) : Forest → Prop
  | .nil => True
  | .cons i kids rest => i.Packed T kids ∧ kids.Packed T ∧ rest.Packed T

/-- The trees of both. -/
def Forest.append : Forest → Forest → Forest
  | .nil, g => g
  | .cons i kids rest, g => .cons i kids (rest.append g)

theorem Forest.append_nil (f : Forest) : f.append .nil = f := by
  induction f with
  | nil => rfl
  | cons i kids rest _ ih => rw [Forest.append, ih]

theorem Forest.append_written (f g : Forest) : (f.append g).written = g.written ++ f.written := by
  induction f with
  | nil => simp [Forest.append, Forest.written]
  | cons i kids rest _ ih => simp [Forest.append, Forest.written, ih]

theorem Forest.append_roots (f g : Forest) : (f.append g).roots = f.roots ++ g.roots := by
  induction f with
  | nil => rfl
  | cons i kids rest _ ih => simp [Forest.append, Forest.roots, ih]

theorem Forest.valid_append {T : TreeEnv} {f g : Forest} {lo mid hi level : Nat} (hf : f.Valid T lo mid level)
    (hg : g.Valid T mid hi level) : (f.append g).Valid T lo hi level := by
  induction f generalizing lo with
  | nil => cases hf; exact hg
  | cons i kids rest _ ih =>
    obtain ⟨h1, h2, h3, h4, h5, h6⟩ := hf
    exact ⟨h1, h2, h3, h4, h5, ih h6⟩

theorem Forest.packed_append {T : TreeEnv} {f g : Forest} (hf : f.Packed T) (hg : g.Packed T) : (f.append g).Packed T := by
  induction f with
  | nil => exact hg
  | cons i kids rest _ ih => exact ⟨hf.1, hf.2.1, ih hf.2.2⟩

theorem Forest.Valid.le {T : TreeEnv} {f : Forest} {lo hi level : Nat} (h : f.Valid T lo hi level) : lo ≤ hi := by
  induction f generalizing lo hi level with
  | nil => exact Nat.le_of_eq h
  | cons i kids rest ih1 ih2 =>
    obtain ⟨_, _, _, _, h5, h6⟩ := h
    have := ih1 h5
    have := ih2 h6
    omega

theorem Forest.Valid.made {T : TreeEnv} {f : Forest} {lo hi level : Nat} (h : f.Valid T lo hi level) :
    ∀ i ∈ f.written, i.Made T := by
  induction f generalizing lo hi level with
  | nil => simp [Forest.written]
  | cons i kids rest ih1 ih2 =>
    obtain ⟨_, _, h3, _, h5, h6⟩ := h
    intro j hj
    simp only [Forest.written, List.mem_append, List.mem_singleton] at hj
    rcases hj with (hj | hj) | rfl
    · exact ih2 h6 j hj
    · exact ih1 h5 j hj
    · exact h3

theorem Forest.roots_length_pos {f : Forest} (h : f ≠ .nil) : 0 < f.roots.length := by
  cases f with
  | nil => exact absurd rfl h
  | cons i kids rest => simp [Forest.roots]

/-- The size that a valid tree's root hands to its parent. -/
theorem subtreeSize_of_valid {T : TreeEnv} {i : Info} {kids : Forest} {lo hi level : Nat}
    (h : (Forest.cons i kids .nil).Valid T lo hi level) :
    optionalSubtreeSize T i.node = .ok (if T.opts.addNodeSubtreeSize then some (T.sliceBytes lo hi) else none) := by
  obtain ⟨_, rfl, _, ⟨_, hs⟩, h5, h6⟩ := h
  cases h6
  have hle := h5.le
  unfold optionalSubtreeSize
  split
  · rename_i ha
    rcases hs with ⟨rfl, _, hn⟩ | ⟨_, _, _, _, hn⟩
    · rw [hn]
      have h5 : i.lo + i.count = i.hi := h5
      simp [TreeEnv.leafNode, TreeEnv.sizeData, ha, h5]
    · rw [hn]
      simp only [TreeEnv.interiorNode, TreeEnv.sizeData, TreeEnv.known, ha, if_true]
      rw [sliceBytes_append T (by omega) hle]
  · rfl

/-! ## Id counters -/

theorem mem_modify_le {B : Int} {l : List Int} {k : Nat} (h : ∀ v ∈ l, v ≤ B) : ∀ v ∈ l.modify k (· - 1), v ≤ B := by
  intro v hv
  obtain ⟨j, hj⟩ := List.getElem?_of_mem hv
  rw [List.getElem?_modify] at hj
  obtain ⟨w, hw, rfl⟩ := Option.map_eq_some_iff.mp hj
  have := h w (List.mem_of_getElem? hw)
  split <;> simp <;> omega

theorem idsAfter_le {T : TreeEnv} {B : Int} {l : List Info} {ids : List Int} (h : ∀ v ∈ ids, v ≤ B) :
    ∀ v ∈ T.idsAfter ids l, v ≤ B := by
  induction l generalizing ids with
  | nil => exact h
  | cons i l ih => exact ih (mem_modify_le h)

theorem idsFrom_le {T : TreeEnv} {B : Int} {l : List Info} {ids : List Int} (h : ∀ v ∈ ids, v ≤ B) (hf : T.IdsFrom ids l) :
    ∀ i ∈ l, (i.id : Int) ≤ B := by
  induction l generalizing ids with
  | nil => simp
  | cons i l ih =>
    intro j hj
    rcases List.mem_cons.mp hj with rfl | hj
    · exact h _ (List.mem_of_getElem? hf.2.1)
    · exact ih (mem_modify_le h) hf.2.2 j hj

theorem Trace.le {T : TreeEnv} {B : Int} {l : List Info} {s s' : BState} (h : Trace T s l s') (hB : ∀ v ∈ s.nextIds, v ≤ B) :
    (∀ v ∈ s'.nextIds, v ≤ B) ∧ ∀ i ∈ l, (i.id : Int) ≤ B :=
  ⟨by rw [h.next]; exact idsAfter_le hB, idsFrom_le hB h.ids⟩

/-! ## Writing -/

theorem buildFromNode_hash {E : Env} {o : TreeOptions} {node : Node} {name : Option Name} {x : Option F64} {full : Bool}
    {s s' : BState} {p : Packet} (h : buildFromNode E o node name x none full s = (.ok p, s')) :
    ∃ hv, p.hash E.prims.sha256 = .ok hv := by
  unfold buildFromNode at h
  obtain ⟨m, s1, _, h⟩ := PyS.bind_ok h
  obtain ⟨w, _, h⟩ := PyS.liftBind_ok h
  simp only at h
  split at h
  · exact (Manifest.tooLarge_run h).elim
  · obtain ⟨b, _, h⟩ := PyS.liftBind_ok h
    obtain ⟨h, _⟩ := PyS.lift_ok h
    simp only [signPacket] at h
    obtain ⟨t, ht, _⟩ := bind_eq_ok.mp h
    rw [createContentObject_eq ht] at h
    split at h
    · cases h
      obtain ⟨_, hv⟩ := ContentObject.tlv_ok ht
      simp only [Packet.hash, Packet.hashInput, wireOf_of_tlv ht hv, optWire, ok_bind]
      exact ⟨_, rfl⟩
    · cases h

/-- The packet that `builderPacket` returned in state `m`, not yet written. -/
def Fresh (T : TreeEnv) (B : Int) (level : Nat) (node : Node) (s : BState) (b : Built) (m : BState) : Prop :=
  b.node = node ∧ ∃ id : Nat, (level : Int) ≤ T.height ∧ s.nextIds[T.heightOf level]? = some (id : Int) ∧ (id : Int) ≤ B ∧
    (∃ name s0 s1, T.ctx.manifest.getName (some (id : Int)) = .ok name ∧
      buildFromNode T.env T.opts node name T.opts.manifestExpiry none false s0 = (.ok b.packet, s1)) ∧
    m.output = s.output ∧ m.graph = s.graph ∧ m.nextIds = s.nextIds.modify (T.heightOf level) (· - 1) ∧ m.lastId = some id

/-- Writing it. -/
theorem putBuilt_run {T : TreeEnv} {B : Int} {level : Nat} {node : Node} {s m : BState} {b : Built}
    (h : Fresh T B level node s b m) (lo count hi : Nat) :
    ∃ i : Info, ∃ s', putBuilt T b m = (.ok (), s') ∧ Trace T s [i] s' ∧ i.Made T ∧ i.node = node ∧ i.level = level ∧ i.lo = lo ∧
      i.count = count ∧ i.hi = hi ∧ b = ⟨i.packet, i.node⟩ := by
  obtain ⟨h1, id, h2, h3, h4, ⟨name, s0, s1, h5, h6⟩, h7, h8, h9, h10⟩ := h
  obtain ⟨hv, hh⟩ := buildFromNode_hash h6
  refine ⟨⟨b.packet, node, hv, id, level, lo, count, hi⟩, { m with graph := m.graph ++ [(hv, b.node)], output := m.output ++ [b.packet] },
    ?_, ?_, ⟨hh, name, s0, s1, h5, h6⟩, rfl, rfl, rfl, rfl, rfl, ?_⟩
  · unfold putBuilt
    rw [hh]
    rfl
  · exact ⟨⟨by simp [h7], by simp [h8, h1]⟩, ⟨h2, h3, trivial⟩, h9, h10⟩
  · rw [← h1]

/-! ## Leaf manifests -/

theorem appendDirect_ok {b : HashGroupBuilder} {M : Nat} (hM : b.maxDirect = some M) (h : b.directCount < M) (hv : HashValue) (n : Nat) :
    b.appendDirect hv (some n) =
      .ok { b with
        pointers := b.pointers ++ [hv]
        directCount := b.directCount + 1
        directSize := b.directSize + n } := by
  unfold HashGroupBuilder.appendDirect HashGroupBuilder.isDirectFull limitReached
  rw [hM]
  simp only [pyAssert, show ¬ M ≤ b.directCount by omega, decide_false, Bool.not_false, if_true, ok_bind]
  rfl

theorem appendChunks_ok {T : TreeEnv} {n : Nat} {b : HashGroupBuilder} {M i : Nat} (hM : b.maxDirect = some M)
    (h : b.directCount + n ≤ M) (hi : i + n ≤ T.chunks.length) :
    appendChunks T b i n =
      .ok { b with
        pointers := b.pointers ++ T.sliceHashes i (i + n)
        directCount := b.directCount + n
        directSize := b.directSize + T.sliceBytes i (i + n) } := by
  induction n generalizing b i with
  | zero => simp [appendChunks, TreeEnv.sliceHashes, TreeEnv.sliceBytes, slice_self]
  | succ n ih =>
    obtain ⟨c, hc, hc'⟩ := chunk_of_lt T (a := i) (by omega)
    rw [appendChunks, hc', ok_bind, appendDirect_ok hM (by omega), ok_bind, ih (by exact hM) (by simp only; omega) (by omega)]
    have e : i + 1 + n = i + (n + 1) := by omega
    have hs := slice_cons T hc (show i < i + (n + 1) by omega)
    rw [e]
    simp only [TreeEnv.sliceHashes, TreeEnv.sliceBytes, hs, List.map_cons, List.sum_cons, List.append_assoc, List.singleton_append]
    congr 2
    · omega
    · omega

theorem hashGroup_eq (b : HashGroupBuilder) (ncId : Nat) (start : Option Nat) (l t : Bool) :
    b.hashGroup (some ncId) start l t = construct HashGroup.tlv
      { groupData := some
          { ncId := some ncId, startSegmentId := start,
            subtreeSize := if t then some (b.indirectSize + b.directSize) else none,
            leafSize := if l then some b.directSize else none },
        pointers := some b.pointers } := by
  unfold HashGroupBuilder.hashGroup
  simp

/-- What one call makes: a tree that ends at `seg.tail`, and takes as many chunks as a tree of this level can hold. -/
def TreeOut (T : TreeEnv) (known : List HashValue) (level : Nat) (seg : Segment) (s : BState) (r : Built × Segment) (s' : BState) :
    Prop :=
  ∃ i kids, (Forest.cons i kids .nil).Valid T r.2.tail seg.tail level ∧ r.1 = ⟨i.packet, i.node⟩ ∧ r.2.head = seg.head ∧
    r.2.tail + min (seg.tail - seg.head) (Spec.treeCapacity T.direct T.indirect level) = seg.tail ∧
    Trace T s (kids.written ++ [i]) s' ∧ Closed known (kids.written ++ [i]) ∧ (Forest.cons i kids .nil).Packed T

theorem treeCapacity_mono (d m h : Nat) (hm : 1 ≤ m) : d + m ≤ Spec.treeCapacity d m h := by
  induction h with
  | zero => exact Nat.le_refl _
  | succ h ih =>
    rw [Spec.treeCapacity]
    have := Nat.mul_le_mul_right (Spec.treeCapacity d m h) hm
    omega

theorem leafNode_pointers (T : TreeEnv) (lo count : Nat) : (T.leafNode lo count).pointerList = T.sliceHashes lo (lo + count) := by
  simp [Node.pointerList, TreeEnv.leafNode, TreeEnv.group]

theorem leafManifest_run {T : TreeEnv} {Bad : PyErr → Prop} {B : Int} (R : Rules T Bad B) {s : BState} {level : Nat} {seg : Segment}
    {known : List HashValue} (hav : IdErr Bad → Avail T s level) (hB : ∀ v ∈ s.nextIds, v ≤ B) (hne : seg.head < seg.tail)
    (htl : seg.tail ≤ T.chunks.length) (hp : 0 < T.direct) (hm : 0 < T.indirect)
    (hcap : level = 0 ∨ seg.tail - seg.head ≤ T.pointers) (hk : ∀ c ∈ T.chunks, c.hash ∈ known) :
    PyS.Run (leafManifest T seg level) s (TreeOut T known level seg s) (Halted T Bad known s) := by
  have hpp : 0 < T.pointers := by unfold TreeEnv.pointers; omega
  obtain ⟨count, hcount⟩ : ∃ count, count = min (seg.tail - seg.head) T.pointers := ⟨_, rfl⟩
  have hstart : max seg.head (seg.tail - T.pointers) = seg.tail - count := by omega
  obtain ⟨lo, hlo⟩ : ∃ lo, seg.tail = lo + count := ⟨seg.tail - count, by omega⟩
  have hc0 : 0 < count := by omega
  unfold leafManifest
  simp only
  rw [hstart, hlo, show lo + count - count = lo by omega]
  have hb := appendChunks_ok (T := T) (n := count) (b := { maxDirect := some count, maxIndirect := some 0 }) (M := count) (i := lo)
    rfl (by simp) (by omega)
  have hperm : Permitted T B (T.leafNode lo count) := .inl ⟨lo, count, hc0, by omega, by omega, rfl⟩
  have hst : startSegmentId T lo = .ok (if T.ctx.manifest.usesNameId then T.numberAt lo else none) := by
    unfold startSegmentId TreeEnv.numberAt
    obtain ⟨c, hc, hc'⟩ := chunk_of_lt T (a := lo) (by omega)
    rw [hc, hc']
    split <;> rfl
  have hleaf : PyS.Run (leafPacket T lo (lo + count) level) s (Fresh T B level (T.leafNode lo count) s) (Halted T Bad known s) := by
    unfold leafPacket
    refine PyS.Run.step (show pyAssert _ = .ok () by unfold pyAssert; rw [decide_eq_true (by omega)]; rfl) ?_
    simp only
    rw [show lo + count - lo = count by omega]
    refine PyS.Run.step hb (PyS.Run.step hst ?_)
    simp only [List.nil_append, Nat.zero_add]
    rw [hashGroup_eq]
    refine PyS.Run.liftBind ?_ ?_
    · intro g hg
      obtain ⟨rfl, _⟩ := construct_inv hg
      exact (builderPacket_run (ks := 0) R hperm hav hB).mono (fun _ _ h => h) (fun _ _ h => Halted.now h.1 h.2.1 h.2.2)
    · intro e he
      exact Halted.now (R.groups _ hperm _ (by simp [TreeEnv.leafNode, TreeEnv.group]) e (construct_error he)) rfl rfl
  refine PyS.Run.bind (hleaf.mono ?_ (fun _ _ h => h))
  intro b m hfresh
  obtain ⟨i, s', hput, htr, hmade, hnode, hlev, hilo, hic, hihi, hbi⟩ := putBuilt_run hfresh lo count (lo + count)
  refine PyS.Run.step (a := ⟨seg.head, lo⟩) ?_ ?_
  · unfold Segment.decrementTail
    rw [if_neg (by omega), if_neg (by omega)]
    congr 2
    omega
  · refine PyS.Run.bind ⟨?_, ?_⟩
    · intro u s2 h2
      rw [hput] at h2
      cases h2
      apply PyS.Run.pure
      refine ⟨i, .nil, ⟨hlev, hilo, hmade, ⟨by omega, .inl ⟨rfl, by omega, by rw [hnode, hilo, hic]⟩⟩, ?_, ?_⟩, hbi, rfl, ?_, htr, ?_⟩
      · show lo + i.count = i.hi
        omega
      · show i.hi = seg.tail
        omega
      · simp only
        rcases hcap with rfl | hcap
        · simp only [Spec.treeCapacity]
          unfold TreeEnv.pointers at hcount
          omega
        · have := treeCapacity_mono T.direct T.indirect level hm
          unfold TreeEnv.pointers at hcount hcap
          omega
      · refine ⟨⟨?_, trivial⟩, fun hc => absurd rfl hc, trivial, trivial⟩
        rw [hnode, leafNode_pointers]
        intro h hh
        have := sliceHashes_mem T hh
        obtain ⟨c, hc, rfl⟩ := List.mem_map.mp this
        exact hk c hc
    · intro e s2 h2
      rw [hput] at h2
      cases h2

/-! ## The pair of builders -/

/-- The builders with the given chunk hashes and child hashes. -/
def TreeEnv.pair (T : TreeEnv) (dh : List HashValue) (ds : Nat) (kh : List HashValue) (ks : Nat) : BuilderPair :=
  if T.ctx.shared then
    ⟨true,
      { pointers := dh ++ kh, directSize := ds, indirectSize := ks, directCount := dh.length, indirectCount := kh.length,
        maxDirect := some T.direct, maxIndirect := some T.indirect }, {}⟩
  else
    ⟨false,
      { pointers := dh, directSize := ds, indirectSize := 0, directCount := dh.length, indirectCount := 0,
        maxDirect := some T.direct, maxIndirect := some 0 },
      { pointers := kh, directSize := 0, indirectSize := ks, directCount := 0, indirectCount := kh.length,
        maxDirect := some 0, maxIndirect := some T.indirect }⟩

theorem pair_new (T : TreeEnv) : BuilderPair.new T.ctx T.direct T.indirect = T.pair [] 0 [] 0 := by
  unfold BuilderPair.new TreeEnv.pair
  cases T.ctx.shared <;> rfl

theorem pair_indirectFull (T : TreeEnv) (dh : List HashValue) (ds : Nat) (kh : List HashValue) (ks : Nat) :
    (T.pair dh ds kh ks).indirectBuilder.isIndirectFull = decide (T.indirect ≤ kh.length) := by
  unfold TreeEnv.pair BuilderPair.indirectBuilder HashGroupBuilder.isIndirectFull limitReached
  cases T.ctx.shared <;> rfl

theorem pair_directFull (T : TreeEnv) (dh : List HashValue) (ds : Nat) (kh : List HashValue) (ks : Nat) :
    (T.pair dh ds kh ks).direct.isDirectFull = decide (T.direct ≤ dh.length) := by
  unfold TreeEnv.pair HashGroupBuilder.isDirectFull limitReached
  cases T.ctx.shared <;> rfl

theorem pair_directSize (T : TreeEnv) (dh : List HashValue) (ds : Nat) (kh : List HashValue) (ks : Nat) :
    (T.pair dh ds kh ks).direct.directSize = ds := by
  unfold TreeEnv.pair
  cases T.ctx.shared <;> rfl

theorem pair_indirectSize (T : TreeEnv) (dh : List HashValue) (ds : Nat) (kh : List HashValue) (ks : Nat) :
    (T.pair dh ds kh ks).indirectBuilder.indirectSize = ks := by
  unfold TreeEnv.pair BuilderPair.indirectBuilder
  cases T.ctx.shared <;> rfl

theorem pair_prependIndirect (T : TreeEnv) (kh : List HashValue) (ks : Nat) (h : HashValue) (n : Option Nat)
    (hl : kh.length < T.indirect) :
    (T.pair [] 0 kh ks).prependIndirect h n = .ok (T.pair [] 0 (h :: kh) (ks + n.getD 0)) := by
  unfold TreeEnv.pair BuilderPair.prependIndirect BuilderPair.indirectBuilder BuilderPair.setIndirect
    HashGroupBuilder.prependIndirect HashGroupBuilder.isIndirectFull limitReached
  have : ¬ T.indirect ≤ kh.length := by omega
  cases T.ctx.shared <;> simp [pyAssert, this]

theorem pair_appendIndirect (T : TreeEnv) (h : HashValue) (n : Option Nat) (hl : 0 < T.indirect) :
    (T.pair [] 0 [] 0).appendIndirect h n = .ok (T.pair [] 0 [h] (n.getD 0)) := by
  unfold TreeEnv.pair BuilderPair.appendIndirect BuilderPair.indirectBuilder BuilderPair.setIndirect
    HashGroupBuilder.appendIndirect HashGroupBuilder.isIndirectFull limitReached
  have : T.indirect ≠ 0 := by omega
  cases T.ctx.shared <;> simp [pyAssert, this]

theorem pair_prependDirect (T : TreeEnv) (dh : List HashValue) (ds : Nat) (kh : List HashValue) (ks : Nat) (h : HashValue) (n : Nat)
    (hl : dh.length < T.direct) :
    (T.pair dh ds kh ks).prependDirect h (some n) = .ok (T.pair (h :: dh) (ds + n) kh ks) := by
  unfold TreeEnv.pair BuilderPair.prependDirect HashGroupBuilder.prependDirect HashGroupBuilder.isDirectFull limitReached
  have : ¬ T.direct ≤ dh.length := by omega
  cases T.ctx.shared <;> simp [pyAssert, this]

theorem pyAssert_error {b : Bool} {e : PyErr} (h : pyAssert b = .error e) : e = .assertionError ∧ b = false := by
  cases b <;> cases h
  exact ⟨rfl, rfl⟩

/-- The groups made from the builders, or the exception of a group that cannot be encoded, or of ids given to a shared
context. -/
theorem pair_hashGroups (T : TreeEnv) (dh : List HashValue) (ds : Nat) (kh : List HashValue) (ks : Nat) (a b : Option Nat) (r : Py (List HashGroup))
    (hr : (T.pair dh ds kh ks).hashGroups T.ctx T.opts.addGroupLeafSize T.opts.addGroupSubtreeSize
      (if T.ctx.data.usesNameId then a else none) (if T.ctx.manifest.usesNameId then b else none) = r) :
    (∀ g, r = .ok g → g = T.interiorGroups dh ds a kh ks b) ∧
    (∀ e, r = .error e →
      (e = .assertionError ∧ T.ctx.shared = true ∧ (T.ctx.manifest.usesNameId = true ∨ T.ctx.data.usesNameId = true)) ∨
      ∃ g ∈ T.interiorGroups dh ds a kh ks b, g.tlv = .error e) := by
  unfold BuilderPair.hashGroups at hr
  cases hs : T.ctx.shared with
  | true =>
    have e1 : (T.pair dh ds kh ks).direct.hashGroup (some T.ctx.manifest.ncId) none T.opts.addGroupLeafSize T.opts.addGroupSubtreeSize =
        construct HashGroup.tlv (T.group T.ctx.manifest.ncId none ds ks (dh ++ kh)) := by
      rw [hashGroup_eq]
      simp [TreeEnv.pair, TreeEnv.group, hs]
    simp only [hs, if_true, e1] at hr
    have hg : T.interiorGroups dh ds a kh ks b = [T.group T.ctx.manifest.ncId none ds ks (dh ++ kh)] := by
      simp [TreeEnv.interiorGroups, hs]
    subst hr
    constructor
    · intro g hr
      obtain ⟨_, h1, hr⟩ := bind_eq_ok.mp hr
      obtain ⟨_, h2, hr⟩ := bind_eq_ok.mp hr
      obtain ⟨x, h3, hr⟩ := bind_eq_ok.mp hr
      cases hr
      rw [(construct_inv h3).1, hg]
    · intro e hr
      rcases bind_eq_error.mp hr with h | ⟨_, _, hr⟩
      · left
        obtain ⟨rfl, hn⟩ := pyAssert_error h
        refine ⟨rfl, rfl, .inr ?_⟩
        cases hu : T.ctx.data.usesNameId with
        | true => rfl
        | false => simp [hu] at hn
      · rcases bind_eq_error.mp hr with h | ⟨_, _, hr⟩
        · left
          obtain ⟨rfl, hn⟩ := pyAssert_error h
          refine ⟨rfl, rfl, .inl ?_⟩
          cases hu : T.ctx.manifest.usesNameId with
          | true => rfl
          | false => simp [hu] at hn
        · right
          rcases bind_eq_error.mp hr with h | ⟨_, _, hr⟩
          · exact ⟨_, by rw [hg]; simp, construct_error h⟩
          · cases hr
  | false =>
    have e1 : (T.pair dh ds kh ks).direct.hashGroup (some T.ctx.data.ncId) (if T.ctx.data.usesNameId then a else none)
        T.opts.addGroupLeafSize T.opts.addGroupSubtreeSize =
        construct HashGroup.tlv (T.group T.ctx.data.ncId (if T.ctx.data.usesNameId then a else none) ds 0 dh) := by
      rw [hashGroup_eq]
      simp [TreeEnv.pair, TreeEnv.group, hs]
    have e2 : (T.pair dh ds kh ks).indirectBuilder.hashGroup (some T.ctx.manifest.ncId) (if T.ctx.manifest.usesNameId then b else none)
        T.opts.addGroupLeafSize T.opts.addGroupSubtreeSize =
        construct HashGroup.tlv (T.group T.ctx.manifest.ncId (if T.ctx.manifest.usesNameId then b else none) 0 ks kh) := by
      rw [hashGroup_eq]
      simp [TreeEnv.pair, TreeEnv.group, BuilderPair.indirectBuilder, hs]
    simp only [hs, Bool.false_eq_true, if_false, e1, e2] at hr
    have hg : T.interiorGroups dh ds a kh ks b =
        [T.group T.ctx.data.ncId (if T.ctx.data.usesNameId then a else none) ds 0 dh,
         T.group T.ctx.manifest.ncId (if T.ctx.manifest.usesNameId then b else none) 0 ks kh] := by
      simp [TreeEnv.interiorGroups, hs]
    subst hr
    constructor
    · intro g hr
      obtain ⟨x, h1, hr⟩ := bind_eq_ok.mp hr
      obtain ⟨y, h2, hr⟩ := bind_eq_ok.mp hr
      cases hr
      rw [(construct_inv h1).1, (construct_inv h2).1, hg]
    · intro e hr
      right
      rcases bind_eq_error.mp hr with h | ⟨_, _, hr⟩
      · exact ⟨_, by rw [hg]; simp, construct_error h⟩
      · rcases bind_eq_error.mp hr with h | ⟨_, _, hr⟩
        · exact ⟨_, by rw [hg]; simp, construct_error h⟩
        · cases hr

/-! ## Enough ids -/

/-- How many of the manifests are at the level. -/
def levelCount (l : List Info) (j : Nat) : Nat := l.countP (fun i => i.level == j)

theorem heightOf_inj {T : TreeEnv} {a b : Nat} (ha : (a : Int) ≤ T.height) (hb : (b : Int) ≤ T.height)
    (h : T.heightOf a = T.heightOf b) : a = b := by
  unfold TreeEnv.heightOf at h; omega

theorem idsAfter_get {T : TreeEnv} {l : List Info} {ids : List Int} {j : Nat} (hl : ∀ i ∈ l, (i.level : Int) ≤ T.height)
    (hj : (j : Int) ≤ T.height) :
    (T.idsAfter ids l)[T.heightOf j]? = (ids[T.heightOf j]?).map (· - (levelCount l j : Int)) := by
  induction l generalizing ids with
  | nil => simp [TreeEnv.idsAfter, levelCount]
  | cons i l ih =>
    have hi := hl i (by simp)
    have := ih (ids := ids.modify (T.heightOf i.level) (· - 1)) (fun k hk => hl k (by simp [hk]))
    show (T.idsAfter (ids.modify (T.heightOf i.level) (· - 1)) l)[T.heightOf j]? = _
    rw [this, List.getElem?_modify]
    simp only [levelCount, List.countP_cons, beq_iff_eq]
    by_cases hij : i.level = j
    · subst hij
      cases ids[T.heightOf i.level]? <;> simp
      omega
    · have hne : T.heightOf i.level ≠ T.heightOf j := fun hc => hij (heightOf_inj hi hj hc)
      cases ids[T.heightOf j]? <;> simp [hij, hne]

theorem idsFrom_level {T : TreeEnv} {l : List Info} {ids : List Int} (h : T.IdsFrom ids l) : ∀ i ∈ l, (i.level : Int) ≤ T.height := by
  induction l generalizing ids with
  | nil => simp
  | cons i l ih =>
    intro j hj
    rcases List.mem_cons.mp hj with rfl | hj
    · exact h.1
    · exact ih h.2.2 j hj

theorem levelCount_append (a b : List Info) (j : Nat) : levelCount (a ++ b) j = levelCount a j + levelCount b j := List.countP_append ..

/-- A forest with `r` trees has at most `r * m ^ (level - j)` manifests at level `j`. -/
theorem Forest.Valid.count {T : TreeEnv} {f : Forest} {lo hi level : Nat} (h : f.Valid T lo hi level) (j : Nat) :
    levelCount f.written j ≤ if j ≤ level then f.roots.length * T.indirect ^ (level - j) else 0 := by
  induction f generalizing lo hi level with
  | nil => simp [Forest.written, levelCount]
  | cons i kids rest ih1 ih2 =>
    obtain ⟨h1, h2, h3, h4, h5, h6⟩ := h
    have a := ih1 h5
    have b := ih2 h6
    simp only [Forest.written, levelCount_append, Forest.roots, List.length_cons]
    have hi : levelCount [i] j = if level = j then 1 else 0 := by simp [levelCount, h1]
    rw [hi]
    have hkids : levelCount kids.written j + (if level = j then 1 else 0) ≤ if j ≤ level then T.indirect ^ (level - j) else 0 := by
      obtain ⟨_, ⟨rfl, _⟩ | ⟨_, hpos, _, hlen, _⟩⟩ := h4
      · simp only [Forest.written, levelCount, List.countP_nil]
        by_cases hlj : level = j
        · subst hlj; simp
        · rw [if_neg hlj]; omega
      · rw [h1] at hpos
        by_cases hlj : level = j
        · subst hlj
          rw [if_neg (by omega)] at a
          simp; omega
        · rw [if_neg hlj]
          by_cases hle : j ≤ level
          · rw [if_pos hle]
            rw [if_pos (by omega)] at a
            have := Nat.mul_le_mul_right (T.indirect ^ (level - 1 - j)) hlen
            have e : T.indirect ^ (level - j) = T.indirect * T.indirect ^ (level - 1 - j) := by
              rw [show level - j = level - 1 - j + 1 by omega, Nat.pow_succ, Nat.mul_comm]
            omega
          · rw [if_neg hle]
            rw [if_neg (by omega)] at a
            omega
    by_cases hle : j ≤ level
    · simp only [if_pos hle] at b hkids ⊢
      rw [Nat.succ_mul]
      omega
    · simp only [if_neg hle] at b hkids ⊢
      omega

/-- The counters allow `K` full trees of the level. -/
def Enough (T : TreeEnv) (K level : Nat) (ids : List Int) : Prop :=
  (level : Int) ≤ T.height ∧ ∀ j ≤ level, ∃ v, ids[T.heightOf j]? = some v ∧ ((K * T.indirect ^ (level - j) : Nat) : Int) ≤ v + 1

theorem Enough.avail {T : TreeEnv} {level : Nat} {s : BState} (h : Enough T 1 level s.nextIds) : Avail T s level := by
  obtain ⟨h1, h2⟩ := h
  obtain ⟨v, hv, hle⟩ := h2 level (Nat.le_refl _)
  refine ⟨h1, v, hv, ?_⟩
  simp at hle
  omega

theorem Enough.mono {T : TreeEnv} {K K' level : Nat} {ids : List Int} (h : Enough T K level ids) (hk : K' ≤ K) :
    Enough T K' level ids := by
  refine ⟨h.1, fun j hj => ?_⟩
  obtain ⟨v, hv, hle⟩ := h.2 j hj
  refine ⟨v, hv, ?_⟩
  have := Nat.mul_le_mul_right (T.indirect ^ (level - j)) hk
  omega

theorem Enough.kids {T : TreeEnv} {level : Nat} {ids : List Int} (h : Enough T 1 (level + 1) ids) :
    Enough T T.indirect level ids := by
  refine ⟨by have := h.1; push_cast at this; omega, fun j hj => ?_⟩
  obtain ⟨v, hv, hle⟩ := h.2 j (by omega)
  refine ⟨v, hv, ?_⟩
  rw [Nat.one_mul, show level + 1 - j = level - j + 1 by omega, Nat.pow_succ, Nat.mul_comm] at hle
  exact hle

theorem Enough.after {T : TreeEnv} {K level lo hi : Nat} {ids : List Int} {f : Forest} (h : Enough T (K + f.roots.length) level ids)
    (hf : f.Valid T lo hi level) (hids : T.IdsFrom ids f.written) : Enough T K level (T.idsAfter ids f.written) := by
  refine ⟨h.1, fun j hj => ?_⟩
  obtain ⟨v, hv, hle⟩ := h.2 j hj
  have hc := hf.count j
  rw [if_pos hj] at hc
  rw [idsAfter_get (idsFrom_level hids) (by have := h.1; omega), hv]
  refine ⟨_, rfl, ?_⟩
  rw [Nat.add_mul] at hle
  simp only
  omega

theorem Avail.after {T : TreeEnv} {level lo hi : Nat} {s s' : BState} {f : Forest} (h : Avail T s (level + 1))
    (hf : f.Valid T lo hi level) (ht : Trace T s f.written s') : Avail T s' (level + 1) := by
  obtain ⟨h1, v, hv, h0⟩ := h
  refine ⟨h1, v, ?_, h0⟩
  have hc := hf.count (level + 1)
  rw [if_neg (by omega)] at hc
  rw [ht.next, idsAfter_get (idsFrom_level ht.ids) h1, hv]
  simp; omega

/-! ## Interior manifests -/

/-- A call that makes one tree of the level. -/
def ChildOk (T : TreeEnv) (Bad : PyErr → Prop) (B : Int) (level : Nat) (child : Segment → PyS BState (Built × Segment)) : Prop :=
  ∀ seg s known, (IdErr Bad → Enough T 1 level s.nextIds) → (∀ v ∈ s.nextIds, v ≤ B) → seg.head < seg.tail →
    seg.tail ≤ T.chunks.length → (∀ c ∈ T.chunks, c.hash ∈ known) →
    PyS.Run (child seg) s (TreeOut T known level seg s) (Halted T Bad known s)

/-- The state of `_interior_add_indirect` after the children `newf`; `base` is the rightmost child given by the caller. -/
structure Kids (T : TreeEnv) (known : List HashValue) (level : Nat) (base newf : Forest) (HI : Nat) (s0 : BState) (seg0 : Segment)
    (b : BuilderPair) (seg : Segment) (s : BState) : Prop where
  valid : newf.Valid T seg.tail seg0.tail level
  pair : b = T.pair [] 0 ((newf.append base).roots.map (·.hash)) (T.known (T.sliceBytes seg.tail HI))
  trace : Trace T s0 newf.written s
  closed : Closed known newf.written
  head : seg.head = seg0.head
  le : seg.head ≤ seg.tail
  used : seg.tail + min (seg0.tail - seg0.head) (newf.roots.length * Spec.treeCapacity T.direct T.indirect level) = seg0.tail
  room : newf.roots.length + base.roots.length ≤ T.indirect
  packed : newf.Packed T
  full : ∀ k ∈ newf.roots.tail, k.Full T
  more : seg.head < seg.tail → ∀ k ∈ newf.roots, k.Full T

theorem addIndirectLoop_run {T : TreeEnv} {Bad : PyErr → Prop} {B : Int} {level : Nat}
    {child : Segment → PyS BState (Built × Segment)} (hchild : ChildOk T Bad B level child) {known : List HashValue}
    {base : Forest} {HI : Nat} {s0 : BState} {seg0 : Segment} (hB : ∀ v ∈ s0.nextIds, v ≤ B)
    (hen : IdErr Bad → Enough T (T.indirect - base.roots.length) level s0.nextIds) (hHI : seg0.tail ≤ HI)
    (htl : seg0.tail ≤ T.chunks.length) (hk : ∀ c ∈ T.chunks, c.hash ∈ known) {fuel : Nat} {newf : Forest}
    {b : BuilderPair} {seg : Segment} {s : BState} (h : Kids T known level base newf HI s0 seg0 b seg s)
    (hfuel : T.indirect ≤ fuel + newf.roots.length + base.roots.length) :
    PyS.Run (addIndirectLoop T child fuel b seg) s
      (fun r s' => ∃ newf, Kids T known level base newf HI s0 seg0 r.1 r.2 s' ∧
        (newf.roots.length + base.roots.length = T.indirect ∨ r.2.head = r.2.tail))
      (Halted T Bad known s0) := by
  induction fuel generalizing newf b seg s with
  | zero =>
    rw [addIndirectLoop.eq_def]
    simp only
    have hfull : b.indirectBuilder.isIndirectFull = true := by
      rw [h.pair, pair_indirectFull, decide_eq_true_eq, List.length_map, Forest.append_roots, List.length_append]
      omega
    rw [hfull, Bool.true_or, if_pos rfl]
    have := h.room
    exact PyS.Run.pure ⟨newf, h, .inl (by omega)⟩
  | succ fuel ih =>
    rw [addIndirectLoop.eq_def]
    simp only
    by_cases hstop : (b.indirectBuilder.isIndirectFull || seg.empty) = true
    · rw [if_pos hstop]
      refine PyS.Run.pure ⟨newf, h, ?_⟩
      rcases Bool.or_eq_true _ _ ▸ hstop with hf | he
      · rw [h.pair, pair_indirectFull, decide_eq_true_eq, List.length_map, Forest.append_roots, List.length_append] at hf
        have := h.room
        exact .inl (by omega)
      · exact .inr (by simpa [Segment.empty] using he)
    · rw [if_neg hstop]
      have hnf : newf.roots.length + base.roots.length < T.indirect := by
        apply Nat.lt_of_not_le
        intro hc
        apply hstop
        rw [h.pair, pair_indirectFull, decide_eq_true (by rw [List.length_map, Forest.append_roots, List.length_append]; exact hc),
          Bool.true_or]
      have hne : seg.head < seg.tail := by
        have := h.le
        apply Nat.lt_of_le_of_ne this
        intro hc
        apply hstop
        simp [Segment.empty, hc]
      have hsub : ∀ c ∈ T.chunks, c.hash ∈ known ++ newf.written.map (·.hash) :=
        fun c hc => List.mem_append_left _ (hk c hc)
      have hen' : IdErr Bad → Enough T 1 level s.nextIds := by
        intro hb
        rw [h.trace.next]
        exact Enough.after (Enough.mono (hen hb) (by omega)) h.valid h.trace.ids
      refine PyS.Run.bind ((hchild seg s _ hen' (h.trace.le hB).1 hne (by have := h.used; omega) hsub).mono ?_
        (fun e s' he => he.after h.trace.wrote h.closed h.valid.made))
      rintro ⟨c, seg1⟩ s1 ⟨i, kids, hv, hc, hhead, hused, htr, hcl, hpk⟩
      simp only at hv hc hhead hused
      subst hc
      have hsz := subtreeSize_of_valid hv
      have hh : i.packet.hash T.env.prims.sha256 = .ok i.hash := hv.2.2.1.1
      have hle1 := hv.le
      refine PyS.Run.step (a := T.pair [] 0 ((Forest.cons i kids (newf.append base)).roots.map (·.hash))
        (T.known (T.sliceBytes seg1.tail HI))) ?_ ?_
      · simp only [hh, hsz, ok_bind, h.pair]
        rw [pair_prependIndirect _ _ _ _ _ (by rw [List.length_map, Forest.append_roots, List.length_append]; exact hnf)]
        simp only [Forest.roots, List.map_cons]
        congr 2
        have := h.used
        rw [← sliceBytes_append T hle1 (show seg.tail ≤ HI by omega)]
        unfold TreeEnv.known
        split <;> simp
        omega
      · refine ih (newf := .cons i kids newf) ⟨?_, rfl, ?_, ?_, by rw [hhead, h.head], ?_, ?_, ?_, ⟨hpk.1, hpk.2.1, h.packed⟩, h.more hne, ?_⟩ ?_
        · obtain ⟨g1, g2, g3, g4, g5, g6⟩ := hv
          have g6 : i.hi = seg.tail := g6
          exact ⟨g1, g2, g3, g4, g5, by rw [g6]; exact h.valid⟩
        · have := h.trace.trans htr
          simpa [Forest.written] using this
        · have := closed_append.mpr ⟨h.closed, hcl⟩
          simpa [Forest.written] using this
        · simp only; have := h.le; omega
        · have h1 := h.used
          have h2 := h.head
          simp only [Forest.roots, List.length_cons]
          rw [Nat.succ_mul]
          generalize Spec.treeCapacity T.direct T.indirect level = C at *
          generalize newf.roots.length * C = X at *
          omega
        · simp only [Forest.roots, List.length_cons]; omega
        · intro hlt k hk
          rcases List.mem_cons.mp hk with rfl | hk
          · obtain ⟨g1, g2, _, _, _, g6⟩ := hv
            have g6 : k.hi = seg.tail := g6
            unfold Info.Full
            rw [g1, g2, g6]
            simp only at hlt
            omega
          · exact h.more hne k hk
        · simp only [Forest.roots, List.length_cons]; omega

theorem addDirectLoop_ok {T : TreeEnv} {fuel head tail T0 : Nat} {least : Option Nat} {kh : List HashValue} {ks : Nat} (h1 : head ≤ tail)
    (h2 : tail ≤ T0) (h3 : T0 ≤ T.chunks.length) (h4 : T0 - tail ≤ T.direct) (h5 : T.direct ≤ fuel + (T0 - tail)) :
    addDirectLoop T fuel (T.pair (T.sliceHashes tail T0) (T.sliceBytes tail T0) kh ks) ⟨head, tail⟩ least =
      .ok (T.pair (T.sliceHashes (max head (T0 - T.direct)) T0) (T.sliceBytes (max head (T0 - T.direct)) T0) kh ks,
        ⟨head, max head (T0 - T.direct)⟩, if max head (T0 - T.direct) < tail then T.numberAt (max head (T0 - T.direct)) else least) := by
  have hlen : ∀ a, (T.sliceHashes a T0).length = T0 - a := by
    intro a
    rw [TreeEnv.sliceHashes, List.length_map, slice_length T h3]
  induction fuel generalizing tail least with
  | zero =>
    rw [addDirectLoop.eq_def]
    simp only
    rw [pair_directFull, hlen, decide_eq_true (by omega), Bool.true_or, if_pos rfl]
    rw [show max head (T0 - T.direct) = tail by omega, if_neg (by omega)]
  | succ fuel ih =>
    rw [addDirectLoop.eq_def]
    simp only
    rw [pair_directFull, hlen]
    by_cases hstop : (decide (T.direct ≤ T0 - tail) || (⟨head, tail⟩ : Segment).empty) = true
    · rw [if_pos hstop]
      have : max head (T0 - T.direct) = tail := by
        simp [Segment.empty] at hstop
        omega
      rw [this, if_neg (by omega)]
    · rw [if_neg hstop]
      have hne : T0 - tail < T.direct ∧ head ≠ tail := by
        simp [Segment.empty] at hstop
        omega
      obtain ⟨t, rfl⟩ : ∃ t, tail = t + 1 := ⟨tail - 1, by omega⟩
      obtain ⟨c, hc, hc'⟩ := chunk_of_lt T (a := t) (by omega)
      simp only [Nat.add_sub_cancel, hc', ok_bind]
      rw [pair_prependDirect _ _ _ _ _ _ _ (by rw [hlen]; omega), ok_bind]
      have hd : (⟨head, t + 1⟩ : Segment).decrementTail 1 = .ok ⟨head, t⟩ := by
        unfold Segment.decrementTail
        rw [if_neg (by simp only; omega), if_neg (by simp only; omega)]
        rfl
      rw [hd, ok_bind]
      have e := slice_cons T hc (show t < T0 by omega)
      have e1 : c.hash :: T.sliceHashes (t + 1) T0 = T.sliceHashes t T0 := by simp [TreeEnv.sliceHashes, e]
      have e2 : T.sliceBytes (t + 1) T0 + c.payloadBytes = T.sliceBytes t T0 := by
        simp only [TreeEnv.sliceBytes, e, List.map_cons, List.sum_cons]; omega
      rw [e1, e2, ih (by omega) (by omega) (by omega) (by omega)]
      congr 3
      by_cases hl : max head (T0 - T.direct) < t
      · rw [if_pos hl, if_pos (by omega)]
      · rw [if_neg hl, if_pos (by omega), show max head (T0 - T.direct) = t by omega]
        simp [TreeEnv.numberAt, hc]

theorem interiorNode_pointers (T : TreeEnv) (lo count hi : Nat) (kids : List Info) :
    (T.interiorNode lo count hi kids).pointerList = T.sliceHashes lo (lo + count) ++ kids.map (·.hash) := by
  unfold Node.pointerList TreeEnv.interiorNode TreeEnv.interiorGroups TreeEnv.group
  cases T.ctx.shared <;> simp

/-- The children are below, to the left of the ones given by the caller. -/
def InteriorOut (T : TreeEnv) (known : List HashValue) (level : Nat) (base : Forest) (HI : Nat) (seg : Segment) (s : BState)
    (r : Built × Segment) (s' : BState) : Prop :=
  ∃ (i : Info) (newf : Forest), (Forest.cons i (newf.append base) .nil).Valid T r.2.tail HI (level + 1) ∧ r.1 = ⟨i.packet, i.node⟩ ∧ r.2.head = seg.head ∧
    r.2.tail + min (seg.tail - seg.head)
      (T.direct + (T.indirect - base.roots.length) * Spec.treeCapacity T.direct T.indirect level) = seg.tail ∧
    Trace T s (newf.written ++ [i]) s' ∧ Closed known (newf.written ++ [i]) ∧ i.Packed T (newf.append base) ∧ newf.Packed T

theorem interiorPacket_run {T : TreeEnv} {Bad : PyErr → Prop} {B : Int} (R : Rules T Bad B) {s : BState} {level lo count hi : Nat}
    {kids : List Info} {known : List HashValue} (hav : IdErr Bad → Avail T s level) (hB : ∀ v ∈ s.nextIds, v ≤ B)
    (hperm : Permitted T B (T.interiorNode lo count hi kids)) (hkids : 0 < kids.length) (hlast : s.lastId = kids.head?.map (·.id)) :
    PyS.Run (interiorPacket T (T.pair (T.sliceHashes lo (lo + count)) (T.sliceBytes lo (lo + count)) (kids.map (·.hash))
        (T.known (T.sliceBytes (lo + count) hi))) (T.numberAt lo) level) s
      (Fresh T B level (T.interiorNode lo count hi kids) s) (Halted T Bad known s) := by
  unfold interiorPacket
  obtain ⟨k, ks, rfl⟩ : ∃ k ks, kids = k :: ks := by
    cases kids with
    | nil => simp at hkids
    | cons k ks => exact ⟨k, ks, rfl⟩
  simp only [List.head?_cons, Option.map_some] at hlast
  refine PyS.Run.bind (PyS.Run.mono (Q := fun a s' => a = (if T.ctx.manifest.usesNameId then some k.id else none) ∧ s' = s)
    (E := fun _ _ => False) ?_ ?_ (fun _ _ h => h.elim))
  · split
    · refine PyS.Run.getBind ?_
      rw [hlast]
      exact PyS.Run.pure ⟨rfl, rfl⟩
    · exact PyS.Run.pure ⟨rfl, rfl⟩
  · rintro a s' ⟨rfl, rfl⟩
    simp only
    have hg := pair_hashGroups T (T.sliceHashes lo (lo + count)) (T.sliceBytes lo (lo + count)) ((k :: ks).map (·.hash))
      (T.known (T.sliceBytes (lo + count) hi)) (T.numberAt lo) (some k.id) _ rfl
    refine PyS.Run.liftBind ?_ ?_
    · intro g hgo
      have := hg.1 g hgo
      subst this
      rw [pair_directSize, pair_indirectSize]
      exact (builderPacket_run R (groups := T.interiorGroups _ _ _ _ _ _) hperm hav hB).mono (fun _ _ h => h)
        (fun _ _ h => Halted.now h.1 h.2.1 h.2.2)
    · intro e he
      refine Halted.now ?_ rfl rfl
      rcases hg.2 e he with ⟨rfl, h1, h2⟩ | ⟨g, h1, h2⟩
      · exact R.ctx h1 h2
      · exact R.groups _ hperm g h1 e h2

theorem Forest.written_getLast (i : Info) (kids rest : Forest) : (Forest.cons i kids rest).written.getLast? = some i := by
  simp [Forest.written]

/-- The rightmost child given by the caller. -/
structure Base (T : TreeEnv) (B : Int) (known : List HashValue) (level : Nat) (base : Forest) (HI tail : Nat) (s : BState)
    (rightMost : Option Built) : Prop where
  valid : base.Valid T tail HI level
  right : (base = .nil ∧ rightMost = none) ∨
    (∃ i kids, base = .cons i kids .nil ∧ rightMost = some ⟨i.packet, i.node⟩ ∧ s.lastId = some i.id ∧ i.hash ∈ known ∧ (i.id : Int) ≤ B)

theorem interiorManifest_run {T : TreeEnv} {Bad : PyErr → Prop} {B : Int} (R : Rules T Bad B) {level : Nat}
    {child : Segment → PyS BState (Built × Segment)} (hchild : ChildOk T Bad B level child) {known : List HashValue}
    {base : Forest} {HI : Nat} {s : BState} {seg : Segment} {rightMost : Option Built}
    (hbase : Base T B known level base HI seg.tail s rightMost)
    (hav : IdErr Bad → Avail T s (level + 1) ∧ Enough T (T.indirect - base.roots.length) level s.nextIds)
    (hB : ∀ v ∈ s.nextIds, v ≤ B) (hne : seg.head < seg.tail) (htl : HI ≤ T.chunks.length)
    (hd : 0 < T.direct) (hm : 0 < T.indirect) (hcap : base = .nil → T.pointers < seg.tail - seg.head)
    (hk : ∀ c ∈ T.chunks, c.hash ∈ known) (hfull : ∀ k ∈ base.roots, k.Full T) :
    PyS.Run (interiorManifest T child seg (level + 1) rightMost) s (InteriorOut T known level base HI seg s) (Halted T Bad known s) := by
  have hbl : base.roots.length ≤ 1 := by
    rcases hbase.right with ⟨rfl, _⟩ | ⟨i, kids, rfl, _⟩ <;> simp [Forest.roots]
  have htHI := hbase.valid.le
  unfold interiorManifest
  have hadd : addRightMostChild T (BuilderPair.new T.ctx T.direct T.indirect) rightMost =
      .ok (T.pair [] 0 (base.roots.map (·.hash)) (T.known (T.sliceBytes seg.tail HI))) := by
    rw [pair_new]
    rcases hbase.right with ⟨rfl, rfl⟩ | ⟨i, kids, rfl, rfl, _⟩
    · have : seg.tail = HI := hbase.valid
      rw [this]
      simp [addRightMostChild, Forest.roots, TreeEnv.known, TreeEnv.sliceBytes, slice_self]
    · have hsz := subtreeSize_of_valid hbase.valid
      have hh : i.packet.hash T.env.prims.sha256 = .ok i.hash := hbase.valid.2.2.1.1
      simp only [addRightMostChild, hh, hsz, ok_bind]
      rw [pair_appendIndirect _ _ _ hm]
      simp only [Forest.roots, List.map_cons, List.map_nil, TreeEnv.known]
      split <;> rfl
  refine PyS.Run.step hadd ?_
  -- children
  obtain ⟨reserve, hres⟩ : ∃ r, r = min T.direct (seg.tail - seg.head) := ⟨_, rfl⟩
  have hinc : seg.incrementHead reserve = .ok ⟨seg.head + reserve, seg.tail⟩ := by
    unfold Segment.incrementHead
    rw [if_neg (by omega)]
  have hkids0 : Kids T known level base .nil HI s ⟨seg.head + reserve, seg.tail⟩
      (T.pair [] 0 (base.roots.map (·.hash)) (T.known (T.sliceBytes seg.tail HI))) ⟨seg.head + reserve, seg.tail⟩ s :=
    ⟨rfl, rfl, Trace.refl T s, trivial, rfl, by simp only; omega, by simp [Forest.roots], by simp [Forest.roots]; omega,
      trivial, by simp [Forest.roots], by simp [Forest.roots]⟩
  have hloop := addIndirectLoop_run hchild (seg0 := ⟨seg.head + reserve, seg.tail⟩) hB (fun h => (hav h).2) htHI
    (show seg.tail ≤ T.chunks.length by omega) hk (fuel := T.indirect) hkids0 (by omega)
  refine PyS.Run.bind (PyS.Run.mono (Q := fun r s' => ∃ newf, Kids T known level base newf HI s ⟨seg.head + reserve, seg.tail⟩ r.1
      ⟨r.2.head + reserve, r.2.tail⟩ s' ∧ (newf.roots.length + base.roots.length = T.indirect ∨ r.2.head + reserve = r.2.tail))
    (E := Halted T Bad known s) ?_ ?_ (fun _ _ h => h))
  · unfold addIndirect
    simp only
    rw [show min T.direct seg.length = reserve from hres.symm]
    refine PyS.Run.step hinc (PyS.Run.bind (hloop.mono ?_ (fun _ _ h => h)))
    rintro ⟨b, seg1⟩ s1 ⟨newf, hkf, hend⟩
    simp only at hkf hend
    have h1 := hkf.head
    simp only at h1
    refine PyS.Run.step (a := ⟨seg.head, seg1.tail⟩) ?_ (PyS.Run.pure ⟨newf, ?_, ?_⟩)
    · unfold Segment.decrementHead
      rw [if_neg (by simp only; omega), h1]
      simp
    · obtain ⟨hd1, tl1⟩ := seg1
      simp only at h1
      subst h1
      exact hkf
    · simp only
      rw [← h1]
      exact hend
  rintro ⟨b, seg1⟩ s1 ⟨newf, hkf, hend⟩
  obtain ⟨hd1, tl1⟩ := seg1
  obtain ⟨k1, k2, k3, k4, k5, k6, k7, k8, k9, k10, _⟩ := hkf
  simp only at hend k1 k2 k5 k6 k7
  have hhd : hd1 = seg.head := by omega
  subst hhd
  subst k2
  -- own chunks
  have hdir := addDirectLoop_ok (T := T) (fuel := T.direct) (head := seg.head) (tail := tl1) (T0 := tl1) (least := none)
    (kh := (newf.append base).roots.map (·.hash)) (ks := T.known (T.sliceBytes tl1 HI)) (by omega) (Nat.le_refl _) (by omega)
    (by omega) (by omega)
  obtain ⟨lo, hlo⟩ : ∃ lo, lo = max seg.head (tl1 - T.direct) := ⟨_, rfl⟩
  rw [← hlo, show T.sliceHashes tl1 tl1 = [] by simp [TreeEnv.sliceHashes, slice_self],
    show T.sliceBytes tl1 tl1 = 0 by simp [TreeEnv.sliceBytes, slice_self], if_pos (by omega)] at hdir
  refine PyS.Run.step hdir ?_
  obtain ⟨count, rfl⟩ : ∃ count, tl1 = lo + count := ⟨tl1 - lo, by omega⟩
  have hkne : newf.append base ≠ .nil := by
    intro hc
    have e := congrArg (fun f => f.roots.length) hc
    simp only [Forest.append_roots, List.length_append, Forest.roots, List.length_nil] at e
    have hb : base = .nil := by
      rcases hbase.right with ⟨h, _⟩ | ⟨i, kids, rfl, _⟩
      · exact h
      · simp [Forest.roots] at e
    have := hcap hb
    unfold TreeEnv.pointers at this
    have e0 : newf.roots.length = 0 := by omega
    rw [e0, Nat.zero_mul] at k7
    omega
  have hperm : Permitted T B (T.interiorNode lo count HI (newf.append base).roots) := by
    refine .inr ⟨lo, count, HI, _, by omega, by omega, ?_, htl, Forest.roots_length_pos hkne, ?_, ?_, rfl⟩
    · have := k1.le
      omega
    · rw [Forest.append_roots, List.length_append]; omega
    · intro k hk
      rw [Forest.append_roots] at hk
      rcases List.mem_append.mp hk with hk | hk
      · have hk := Forest.roots_mem hk
        exact ⟨k1.made k hk, (k3.le hB).2 k hk⟩
      · refine ⟨hbase.valid.made k (Forest.roots_mem hk), ?_⟩
        rcases hbase.right with ⟨rfl, _⟩ | ⟨i, kids, rfl, _, _, _, hid⟩
        · simp [Forest.roots] at hk
        · simp only [Forest.roots, List.mem_singleton] at hk
          subst hk
          exact hid
  have hlast : s1.lastId = (newf.append base).roots.head?.map (·.id) := by
    rw [k3.last]
    cases newf with
    | nil =>
      rcases hbase.right with ⟨rfl, _⟩ | ⟨i, kids, rfl, _, hl, _⟩
      · exact absurd rfl hkne
      · simp [Forest.written, Forest.append, Forest.roots, hl]
    | cons i kids rest => simp [Forest.written_getLast, Forest.append, Forest.roots]
  have hpk := interiorPacket_run (known := known ++ newf.written.map (·.hash)) R
    (fun h => Avail.after (hav h).1 k1 k3) (k3.le hB).1 hperm (Forest.roots_length_pos hkne) hlast
  refine PyS.Run.bind (hpk.mono ?_ (fun e s' he => he.after k3.wrote k4 k1.made))
  intro r m hfresh
  obtain ⟨i, s', hput, htr, hmade, hnode, hlev, hilo, hic, hihi, hbi⟩ := putBuilt_run hfresh lo count HI
  refine PyS.Run.bind ⟨?_, ?_⟩
  · intro u s2 h2
    rw [hput] at h2
    cases h2
    apply PyS.Run.pure
    refine ⟨i, newf, ⟨hlev, hilo, hmade, ⟨by omega, .inr ⟨hkne, by omega, by omega, ?_, by rw [hnode, hilo, hic, hihi]⟩⟩, ?_, ?_⟩,
      hbi, rfl, ?_, k3.trans htr, ?_⟩
    · rw [Forest.append_roots, List.length_append]; omega
    · simp only
      rw [hic, hihi, Nat.add_sub_cancel]
      exact Forest.valid_append k1 hbase.valid
    · exact hihi
    · simp only
      have hC : newf.roots.length * Spec.treeCapacity T.direct T.indirect level ≤
          (T.indirect - base.roots.length) * Spec.treeCapacity T.direct T.indirect level := Nat.mul_le_mul_right _ (by omega)
      rcases hend with hend | hend
      · rw [show T.indirect - base.roots.length = newf.roots.length by omega]
        generalize newf.roots.length * Spec.treeCapacity T.direct T.indirect level = X at *
        omega
      · generalize newf.roots.length * Spec.treeCapacity T.direct T.indirect level = X at *
        generalize (T.indirect - base.roots.length) * Spec.treeCapacity T.direct T.indirect level = Y at *
        omega
    · refine ⟨closed_append.mpr ⟨k4, ?_, trivial⟩, fun _ => ⟨?_, ?_⟩, k9⟩
      rotate_left
      · intro k hk
        rw [Forest.append_roots] at hk
        cases hr : newf.roots with
        | nil =>
          rw [hr] at hk
          exact hfull k (List.mem_of_mem_tail hk)
        | cons a l =>
          rw [hr] at hk k10
          rcases List.mem_append.mp hk with hk | hk
          · exact k10 k hk
          · exact hfull k hk
      · by_cases hlen : T.direct ≤ seg.tail - seg.head
        · exact .inl (by omega)
        · have hnil : newf = .nil := by
            cases newf with
            | nil => rfl
            | cons j ks rest =>
              obtain ⟨_, g2, _, g4, g5, g6⟩ := k1
              have := g4.1
              have := g5.le
              have := g6.le
              omega
          subst hnil
          rcases hbase.right with ⟨rfl, _⟩ | ⟨j, kids, rfl, _⟩
          · have := hcap rfl
            unfold TreeEnv.pointers at this
            omega
          · exact .inr ⟨j, rfl, hfull j (by simp [Forest.roots])⟩
      rw [hnode, interiorNode_pointers]
      intro h hh
      rcases List.mem_append.mp hh with hh | hh
      · obtain ⟨c, hc, rfl⟩ := List.mem_map.mp (sliceHashes_mem T hh)
        exact List.mem_append_left _ (hk c hc)
      · rw [Forest.append_roots, List.map_append] at hh
        rcases List.mem_append.mp hh with hh | hh
        · obtain ⟨k, hk', rfl⟩ := List.mem_map.mp hh
          exact List.mem_append_right _ (List.mem_map_of_mem (Forest.roots_mem hk'))
        · rcases hbase.right with ⟨rfl, _⟩ | ⟨j, kids, rfl, _, _, hin, _⟩
          · simp [Forest.roots] at hh
          · simp only [Forest.roots, List.map_cons, List.map_nil, List.mem_singleton] at hh
            subst hh
            exact List.mem_append_left _ hin
  · intro e s2 h2
    rw [hput] at h2
    cases h2

/-- `_bottom_up_preorder` without a rightmost child. -/
theorem bottomUp_run {T : TreeEnv} {Bad : PyErr → Prop} {B : Int} (R : Rules T Bad B) (hd : 0 < T.direct) (hm : 0 < T.indirect)
    (level : Nat) : ChildOk T Bad B level (fun seg => bottomUp T level seg none) := by
  induction level with
  | zero =>
    intro seg s known hen hB hne htl hk
    simp only [bottomUp]
    exact PyS.Run.step rfl (leafManifest_run R (fun h => (hen h).avail) hB hne htl hd hm (.inl rfl) hk)
  | succ level ih =>
    intro seg s known hen hB hne htl hk
    simp only [bottomUp, Option.isNone_none, Bool.true_and]
    by_cases hle : seg.length ≤ T.pointers
    · rw [if_pos (by simpa using hle)]
      exact leafManifest_run R (fun h => (hen h).avail) hB hne htl hd hm (.inr hle) hk
    · rw [if_neg (by simpa using hle)]
      refine (interiorManifest_run R ih (base := .nil) (HI := seg.tail) ⟨rfl, .inl ⟨rfl, rfl⟩⟩
        (fun h => ⟨(hen h).avail, by simpa [Forest.roots] using (hen h).kids⟩) hB hne htl hd hm
        (fun _ => by unfold Segment.length at hle; omega) hk (by simp [Forest.roots])).mono ?_ (fun _ _ h => h)
      rintro r s' ⟨i, newf, h1, h2, h3, h4, h5, h6, h7, h8⟩
      rw [Forest.append_nil] at h1 h7
      exact ⟨i, newf, h1, h2, h3, by simpa [Forest.roots, Spec.treeCapacity] using h4, h5, h6, h7, h8, trivial⟩

/-! ## The whole tree -/

/-- The counters allow a full tree. -/
def GoodIds (T : TreeEnv) (ids : List Int) : Prop :=
  ∀ j : Nat, (j : Int) ≤ T.height → ∃ v, ids[T.heightOf j]? = some v ∧ (Spec.treeNodes T.indirect (T.heightOf j) : Int) ≤ v + 1

theorem treeCapacity_le {d m a b : Nat} (hm : 1 ≤ m) (h : a ≤ b) : Spec.treeCapacity d m a ≤ Spec.treeCapacity d m b := by
  induction b with
  | zero => rw [Nat.le_zero.mp h]
  | succ b ih =>
    rcases Nat.lt_or_eq_of_le h with h | rfl
    · have := ih (by omega)
      rw [Spec.treeCapacity]
      have := Nat.mul_le_mul_right (Spec.treeCapacity d m b) hm
      omega
    · exact Nat.le_refl _

theorem pow_le_treeNodes (m h : Nat) : m ^ h ≤ Spec.treeNodes m h := by
  induction h with
  | zero => simp [Spec.treeNodes]
  | succ h ih =>
    rw [Spec.treeNodes, Nat.pow_succ, Nat.mul_comm]
    have := Nat.mul_le_mul_left m ih
    omega

/-- What the builder has made after level `level`: one tree with the last chunks. -/
structure TopTree (T : TreeEnv) (known : List HashValue) (s0 : BState) (level : Nat) (i : Info) (kids : Forest) (seg : Segment)
    (s : BState) : Prop where
  valid : (Forest.cons i kids .nil).Valid T seg.tail T.chunks.length level
  trace : Trace T s0 (kids.written ++ [i]) s
  closed : Closed known (kids.written ++ [i])
  head : seg.head = 0
  used : seg.tail + min T.chunks.length (Spec.treeCapacity T.direct T.indirect level) = T.chunks.length
  least : ∀ l < level, Spec.treeCapacity T.direct T.indirect l < T.chunks.length
  packed : (Forest.cons i kids .nil).Packed T

theorem next_level_ids {T : TreeEnv} {ids : List Int} {level lo hi : Nat} {i : Info} {kids : Forest} (hm : 0 < T.indirect)
    (hg : GoodIds T ids) (hv : (Forest.cons i kids .nil).Valid T lo hi level) (hl : ((level + 1 : Nat) : Int) ≤ T.height) {s0 s : BState}
    (hids : s0.nextIds = ids) (htr : Trace T s0 (kids.written ++ [i]) s) :
    Avail T s (level + 1) ∧ Enough T (T.indirect - 1) level s.nextIds := by
  have hw : (Forest.cons i kids .nil).written = kids.written ++ [i] := by simp [Forest.written]
  subst hids
  have hlev := idsFrom_level htr.ids
  refine ⟨⟨hl, ?_⟩, by push_cast at hl; omega, fun j hj => ?_⟩
  · obtain ⟨v, hv', hle⟩ := hg (level + 1) hl
    have hc := hv.count (level + 1)
    rw [if_neg (by omega), hw] at hc
    have := pow_le_treeNodes T.indirect (T.heightOf (level + 1))
    have := Nat.pow_pos (n := T.heightOf (level + 1)) hm
    rw [htr.next, idsAfter_get hlev hl, hv']
    refine ⟨_, rfl, ?_⟩
    simp only
    omega
  · push_cast at hl
    obtain ⟨v, hv', hle⟩ := hg j (by omega)
    have hc := hv.count j
    rw [if_pos hj, hw] at hc
    simp only [Forest.roots, List.length_cons, List.length_nil, Nat.zero_add, Nat.one_mul] at hc
    have h1 := pow_le_treeNodes T.indirect (T.heightOf j)
    have h2 : T.indirect ^ (level - j + 1) ≤ T.indirect ^ (T.heightOf j) := by
      apply Nat.pow_le_pow_right hm
      unfold TreeEnv.heightOf
      omega
    rw [htr.next, idsAfter_get hlev (by omega), hv']
    refine ⟨_, rfl, ?_⟩
    rw [Nat.pow_succ, Nat.mul_comm] at h2
    rw [Nat.sub_mul, Nat.one_mul]
    have h3 := Nat.mul_le_mul_right (T.indirect ^ (level - j)) hm
    rw [Nat.succ_mul, Nat.zero_mul, Nat.zero_add] at h3
    simp only
    omega

theorem buildLoop_run {T : TreeEnv} {Bad : PyErr → Prop} {B : Int} (R : Rules T Bad B) (hd : 0 < T.direct) (hm : 0 < T.indirect)
    {known : List HashValue} (hk : ∀ c ∈ T.chunks, c.hash ∈ known) {s0 : BState} (hB : ∀ v ∈ s0.nextIds, v ≤ B)
    (hid : IdErr Bad → GoodIds T s0.nextIds ∧ 0 ≤ T.height ∧ T.chunks.length ≤ Spec.treeCapacity T.direct T.indirect T.height.toNat)
    {fuel level : Nat} {i : Info} {kids : Forest} {seg : Segment} {s : BState} (h : TopTree T known s0 level i kids seg s)
    (hfuel : T.height.toNat + 1 ≤ fuel + level) :
    PyS.Run (buildLoop T fuel level seg ⟨i.packet, i.node⟩) s
      (fun r s' => ∃ level i kids seg', TopTree T known s0 level i kids seg' s' ∧ seg'.tail = 0 ∧ r = ⟨i.packet, i.node⟩)
      (Halted T Bad known s0) := by
  induction fuel generalizing level i kids seg s with
  | zero =>
    exfalso
    have := idsFrom_level h.trace.ids i (by simp)
    rw [h.valid.1] at this
    omega
  | succ fuel ih =>
    rw [buildLoop.eq_def]
    simp only
    by_cases hstop : seg.empty = true
    · rw [if_pos hstop]
      refine PyS.Run.pure ⟨level, i, kids, seg, h, ?_, rfl⟩
      have := h.head
      simp [Segment.empty] at hstop
      omega
    · rw [if_neg hstop]
      have hne : seg.head < seg.tail := by
        have := h.head
        simp [Segment.empty] at hstop
        omega
      have hused := h.used
      have hlt : Spec.treeCapacity T.direct T.indirect level < T.chunks.length := by omega
      have hle := h.trace.le hB
      have hkn : ∀ c ∈ T.chunks, c.hash ∈ known ++ (kids.written ++ [i]).map (·.hash) := fun c hc => List.mem_append_left _ (hk c hc)
      have hroots : (Forest.cons i kids .nil).roots.length = 1 := rfl
      have hrun := interiorManifest_run R (bottomUp_run R hd hm level) (known := known ++ (kids.written ++ [i]).map (·.hash))
        (base := .cons i kids .nil) (HI := T.chunks.length) (s := s) (seg := seg) (rightMost := some ⟨i.packet, i.node⟩)
        ⟨h.valid, .inr ⟨i, kids, rfl, rfl, by rw [h.trace.last]; simp, by simp, hle.2 i (by simp)⟩⟩
        (fun hb => by
          obtain ⟨g1, g0, g2⟩ := hid hb
          rw [hroots]
          refine next_level_ids hm g1 h.valid ?_ rfl h.trace
          apply Int.not_lt.mp
          intro hc
          have : Spec.treeCapacity T.direct T.indirect T.height.toNat ≤ Spec.treeCapacity T.direct T.indirect level :=
            treeCapacity_le hm (by omega)
          omega)
        hle.1 hne (Nat.le_refl _) hd hm (fun hc => by cases hc) hkn
        (fun k hk => by
          simp only [Forest.roots, List.mem_singleton] at hk
          subst hk
          obtain ⟨g1, g2, _, _, _, g6⟩ := h.valid
          have g6 : k.hi = T.chunks.length := g6
          unfold Info.Full
          rw [g1, g2, g6]
          omega)
      have hbot : bottomUp T (level + 1) seg (some ⟨i.packet, i.node⟩) =
          interiorManifest T (fun seg => bottomUp T level seg none) seg (level + 1) (some ⟨i.packet, i.node⟩) := by
        simp [bottomUp]
      rw [hbot]
      refine PyS.Run.bind (hrun.mono ?_ (fun e s' he => he.after h.trace.wrote h.closed (by
        have := h.valid.made
        simpa [Forest.written] using this)))
      rintro ⟨r, seg1⟩ s1 ⟨i1, newf, h1, h2, h3, h4, h5, h6, h7, h8⟩
      simp only at h1 h2 h3 h4
      subst h2
      have hw : (newf.append (.cons i kids .nil)).written = kids.written ++ [i] ++ newf.written := by
        rw [Forest.append_written]; simp [Forest.written]
      refine ih (i := i1) (kids := newf.append (.cons i kids .nil)) ⟨h1, ?_, ?_, by rw [h3, h.head], ?_, ?_,
        h7, Forest.packed_append h8 h.packed, trivial⟩ (by omega)
      · rw [hw, List.append_assoc]
        exact h.trace.trans h5
      · rw [hw, List.append_assoc]
        exact closed_append.mpr ⟨h.closed, h6⟩
      · rw [Spec.treeCapacity]
        rw [hroots, Nat.sub_mul, Nat.one_mul] at h4
        have hmul := Nat.mul_le_mul_right (Spec.treeCapacity T.direct T.indirect level) hm
        rw [Nat.one_mul] at hmul
        have := h.head
        simp only
        generalize T.indirect * Spec.treeCapacity T.direct T.indirect level = X at *
        omega
      · intro l hl
        rcases Nat.lt_or_eq_of_le (Nat.lt_succ_iff.mp hl) with hl | rfl
        · exact h.least l hl
        · exact hlt

/-- The state in which the first manifest is made. -/
def startState (s : BState) (ids : List Int) : BState := { s with nextIds := ids, lastId := none }

theorem buildTree_run {T : TreeEnv} {Bad : PyErr → Prop} {B : Int} (R : Rules T Bad B) (hd : 0 < T.direct) (hm : 0 < T.indirect)
    (hn : 0 < T.chunks.length) {known : List HashValue} (hk : ∀ c ∈ T.chunks, c.hash ∈ known) {s : BState}
    (hierr : ∀ e, initialIds T.indirect T.height = .error e → ¬ Bad e)
    (hB : ∀ ids, initialIds T.indirect T.height = .ok ids → ∀ v ∈ ids, v ≤ B)
    (hid : IdErr Bad → ∀ ids, initialIds T.indirect T.height = .ok ids →
      GoodIds T ids ∧ 0 ≤ T.height ∧ T.chunks.length ≤ Spec.treeCapacity T.direct T.indirect T.height.toNat) :
    PyS.Run (buildTree T) s
      (fun r s' => ∃ ids level i kids, initialIds T.indirect T.height = .ok ids ∧
        (Forest.cons i kids .nil).Valid T 0 T.chunks.length level ∧ Trace T (startState s ids) (kids.written ++ [i]) s' ∧
        Closed known (kids.written ++ [i]) ∧ T.chunks.length ≤ Spec.treeCapacity T.direct T.indirect level ∧
        (∀ l < level, Spec.treeCapacity T.direct T.indirect l < T.chunks.length) ∧ r = ⟨i.packet, i.node⟩ ∧
        (Forest.cons i kids .nil).Packed T)
      (Halted T Bad known s) := by
  unfold buildTree
  refine PyS.Run.liftBind ?_ (fun e he => Halted.now (hierr e he) rfl rfl)
  intro ids hids
  refine PyS.Run.modifyBind ?_
  have hE : ∀ e s', Halted T Bad known (startState s ids) e s' → Halted T Bad known s e s' := fun e s' h => h
  have hid := fun hb => hid hb ids hids
  refine PyS.Run.bind ((leafManifest_run R (s := startState s ids) (level := 0) (seg := ⟨0, T.chunks.length⟩) (known := known)
    (fun hb => ?_) (hB ids hids) hn (Nat.le_refl _) hd hm (.inl rfl) hk).mono ?_ (fun e s' he => hE e s' he))
  · obtain ⟨g1, g0, _⟩ := hid hb
    obtain ⟨v, hv, hle⟩ := g1 0 (by simpa using g0)
    have := pow_le_treeNodes T.indirect (T.heightOf 0)
    have := Nat.pow_pos (n := T.heightOf 0) hm
    exact ⟨by simpa using g0, v, hv, by omega⟩
  · rintro ⟨r, seg⟩ s1 ⟨i, kids, h1, h2, h3, h4, h5, h6, h7⟩
    simp only at h1 h2 h3 h4
    subst h2
    refine (buildLoop_run R hd hm hk (s0 := startState s ids) (hB ids hids) hid
      ⟨h1, h5, h6, h3, by simpa using h4, by simp, h7⟩ (by omega)).mono ?_ (fun e s' he => hE e s' he)
    rintro r s' ⟨level, i, kids, seg', ht, htail, rfl⟩
    refine ⟨ids, level, i, kids, hids, ?_, ht.trace, ht.closed, ?_, ht.least, rfl, ht.packed⟩
    · have := ht.valid
      rwa [htail] at this
    · have := ht.used
      omega

end Ccnpy
