import Verif.Lemmas.Display
import Verif.Lemmas.Run
import Verif.Lemmas.Schema
import Verif.Lemmas.Toy
import Verif.Props.OptimizerProps

/-!
# The tree builder: what a run leaves behind

Every run of the builder is described by a forest of manifests: which chunks each manifest points to, its children, its id and
the packets in the order of writing.
-/

namespace Ccnpy

/-! ## Manifests and forests -/

/-- One manifest made by the tree builder: direct pointers to the chunks `lo .. lo+count-1`, children that cover the chunks
up to `hi`. -/
structure Info where
  packet : Packet
  node : Node
  hash : HashValue
  id : Nat
  level : Nat
  lo : Nat
  count : Nat
  hi : Nat

/-- A list of trees: the first tree's root, its children, the other trees. -/
inductive Forest where
  | nil
  | cons (i : Info) (kids rest : Forest)

/-- The manifests in the order they are written: right to left, children before parents. -/
def Forest.written : Forest → List Info
  | .nil => []
  | .cons i kids rest => rest.written ++ kids.written ++ [i]

/-- The roots, left to right. -/
def Forest.roots : Forest → List Info
  | .nil => []
  | .cons i _ rest => i :: rest.roots

/-- Chunks `lo .. hi-1`. -/
def TreeEnv.slice (T : TreeEnv) (lo hi : Nat) : List ChunkMetadata := (T.chunks.drop lo).take (hi - lo)

/-- Their hashes. -/
def TreeEnv.sliceHashes (T : TreeEnv) (lo hi : Nat) : List HashValue := (T.slice lo hi).map (·.hash)

/-- Their payload bytes. -/
def TreeEnv.sliceBytes (T : TreeEnv) (lo hi : Nat) : Nat := ((T.slice lo hi).map (·.payloadBytes)).sum

/-- The number of the chunk at an index. -/
def TreeEnv.numberAt (T : TreeEnv) (lo : Nat) : Option Nat := (T.chunks[lo]?).map (·.chunkNumber)

/-- A hash group as the builder makes it. -/
def TreeEnv.group (T : TreeEnv) (ncId : Nat) (start : Option Nat) (direct indirect : Nat) (pointers : List HashValue) : HashGroup :=
  { groupData := some
      { ncId := some ncId, startSegmentId := start,
        subtreeSize := if T.opts.addGroupSubtreeSize then some (indirect + direct) else none,
        leafSize := if T.opts.addGroupLeafSize then some direct else none },
    pointers := some pointers }

/-- The node data with the subtree size. -/
def TreeEnv.sizeData (T : TreeEnv) (n : Nat) : Option NodeData :=
  if T.opts.addNodeSubtreeSize then some { subtreeSize := some n } else none

/-- The node of a leaf manifest. -/
def TreeEnv.leafNode (T : TreeEnv) (lo count : Nat) : Node :=
  { nodeData := T.sizeData (T.sliceBytes lo (lo + count)),
    hashGroups := [T.group T.ctx.data.ncId (if T.ctx.manifest.usesNameId then T.numberAt lo else none)
      (T.sliceBytes lo (lo + count)) 0 (T.sliceHashes lo (lo + count))] }

/-- The groups of an interior manifest: own chunks, then children. -/
def TreeEnv.interiorGroups (T : TreeEnv) (dh : List HashValue) (ds : Nat) (dstart : Option Nat) (kh : List HashValue) (ks : Nat)
    (kstart : Option Nat) : List HashGroup :=
  if T.ctx.shared then [T.group T.ctx.manifest.ncId none ds ks (dh ++ kh)]
  else [T.group T.ctx.data.ncId (if T.ctx.data.usesNameId then dstart else none) ds 0 dh,
        T.group T.ctx.manifest.ncId (if T.ctx.manifest.usesNameId then kstart else none) 0 ks kh]

/-- The bytes of the children, as far as the builder knows them. -/
def TreeEnv.known (T : TreeEnv) (n : Nat) : Nat := if T.opts.addNodeSubtreeSize then n else 0

/-- The node of an interior manifest with the given children. -/
def TreeEnv.interiorNode (T : TreeEnv) (lo count hi : Nat) (kids : List Info) : Node :=
  let ds := T.sliceBytes lo (lo + count)
  let ks := T.known (T.sliceBytes (lo + count) hi)
  { nodeData := T.sizeData (ds + ks),
    hashGroups := T.interiorGroups (T.sliceHashes lo (lo + count)) ds (T.numberAt lo) (kids.map (·.hash)) ks
      (kids.head?.map (·.id)) }

/-- The packet is what the factory makes of the node and the id's name, and `hash` is its hash. -/
def Info.Made (T : TreeEnv) (i : Info) : Prop :=
  i.packet.hash T.env.prims.sha256 = .ok i.hash ∧
  ∃ name s s', T.ctx.manifest.getName (some (i.id : Int)) = .ok name ∧
    buildFromNode T.env T.opts i.node name T.opts.manifestExpiry none false s = (.ok i.packet, s')

/-- A leaf or an interior manifest within the limits, whose node is determined by its chunks and its children. -/
def Info.Shape (T : TreeEnv) (i : Info) (kids : Forest) : Prop :=
  0 < i.count ∧
  ((kids = .nil ∧ i.count ≤ T.pointers ∧ i.node = T.leafNode i.lo i.count) ∨
   (kids ≠ .nil ∧ 0 < i.level ∧ i.count ≤ T.direct ∧ kids.roots.length ≤ T.indirect ∧
     i.node = T.interiorNode i.lo i.count i.hi kids.roots))

/-- The trees of the forest are at the given level and cover the chunks `lo .. hi-1` from left to right. -/
def Forest.Valid (T : TreeEnv) : Forest → (lo hi level : Nat) → Prop
  | .nil, lo, hi, _ => lo = hi
  | .cons i kids rest, lo, hi, level =>
    i.level = level ∧ i.lo = lo ∧ i.Made T ∧ i.Shape T kids ∧ kids.Valid T (lo + i.count) i.hi (level - 1) ∧
    rest.Valid T i.hi hi level

/-! ## Traces -/

/-- flic/tree/TreeBuilder.py:266-270 `_get_height` -/
def TreeEnv.heightOf (T : TreeEnv) (level : Nat) : Nat := (T.height - level).toNat

/-- The counters after the manifests `l`. -/
def TreeEnv.idsAfter (T : TreeEnv) (ids : List Int) (l : List Info) : List Int :=
  l.foldl (fun ids i => ids.modify (T.heightOf i.level) (· - 1)) ids

/-- The manifests `l` took their ids from the counters. -/
def TreeEnv.IdsFrom (T : TreeEnv) : List Int → List Info → Prop
  | _, [] => True
  | ids, i :: l => (i.level : Int) ≤ T.height ∧ ids[T.heightOf i.level]? = some (i.id : Int) ∧
      T.IdsFrom (ids.modify (T.heightOf i.level) (· - 1)) l

/-- Between `s` and `s'` exactly the manifests `l` were written. -/
def Wrote (s : BState) (l : List Info) (s' : BState) : Prop :=
  s'.output = s.output ++ l.map (·.packet) ∧ s'.graph = s.graph ++ l.map (fun i => (i.hash, i.node))

/-- Between `s` and `s'` exactly the manifests `l` were made. -/
structure Trace (T : TreeEnv) (s : BState) (l : List Info) (s' : BState) : Prop where
  wrote : Wrote s l s'
  ids : T.IdsFrom s.nextIds l
  next : s'.nextIds = T.idsAfter s.nextIds l
  last : s'.lastId = match l.getLast? with
    | some i => some i.id
    | none => s.lastId

/-- The pointers of a node, in order. -/
def Node.pointerList (n : Node) : List HashValue := n.hashGroups.flatMap (fun g => g.pointers.getD [])

/-- Every manifest points to known hashes or manifests earlier in the list. -/
def Closed : List HashValue → List Info → Prop
  | _, [] => True
  | known, i :: l => (∀ h ∈ i.node.pointerList, h ∈ known) ∧ Closed (known ++ [i.hash]) l

theorem idsAfter_append (T : TreeEnv) (ids : List Int) (a b : List Info) :
    T.idsAfter ids (a ++ b) = T.idsAfter (T.idsAfter ids a) b := List.foldl_append ..

theorem idsFrom_append (T : TreeEnv) (ids : List Int) (a b : List Info) :
    T.IdsFrom ids (a ++ b) ↔ T.IdsFrom ids a ∧ T.IdsFrom (T.idsAfter ids a) b := by
  induction a generalizing ids with
  | nil => simp [TreeEnv.IdsFrom, TreeEnv.idsAfter]
  | cons i a ih =>
    simp only [List.cons_append, TreeEnv.IdsFrom, ih, and_assoc]
    rfl

theorem closed_mono {k k' : List HashValue} (h : ∀ x ∈ k, x ∈ k') {l : List Info} (hc : Closed k l) : Closed k' l := by
  induction l generalizing k k' with
  | nil => trivial
  | cons i l ih =>
    refine ⟨fun x hx => h x (hc.1 x hx), ih (k := k ++ [i.hash]) ?_ hc.2⟩
    intro x hx
    rcases List.mem_append.mp hx with hx | hx
    · exact List.mem_append_left _ (h x hx)
    · exact List.mem_append_right _ hx

theorem closed_append {k : List HashValue} {a b : List Info} :
    Closed k (a ++ b) ↔ Closed k a ∧ Closed (k ++ a.map (·.hash)) b := by
  induction a generalizing k with
  | nil => simp [Closed]
  | cons i a ih => simp [Closed, ih, and_assoc]

theorem Wrote.refl (s : BState) : Wrote s [] s := by simp [Wrote]

theorem Wrote.trans {s s' s'' : BState} {a b : List Info} (h : Wrote s a s') (h' : Wrote s' b s'') : Wrote s (a ++ b) s'' := by
  obtain ⟨h1, h2⟩ := h
  obtain ⟨h3, h4⟩ := h'
  exact ⟨by rw [h3, h1]; simp, by rw [h4, h2]; simp⟩

theorem Trace.refl (T : TreeEnv) (s : BState) : Trace T s [] s := ⟨Wrote.refl s, trivial, rfl, rfl⟩

theorem Trace.trans {T : TreeEnv} {s s' s'' : BState} {a b : List Info} (h : Trace T s a s') (h' : Trace T s' b s'') :
    Trace T s (a ++ b) s'' where
  wrote := h.wrote.trans h'.wrote
  ids := (idsFrom_append ..).mpr ⟨h.ids, by rw [← h.next]; exact h'.ids⟩
  next := by rw [h'.next, h.next, idsAfter_append]
  last := by
    rw [h'.last, h.last, List.getLast?_append]
    cases b.getLast? <;> rfl

theorem Forest.roots_mem {f : Forest} {i : Info} (h : i ∈ f.roots) : i ∈ f.written := by
  induction f with
  | nil => simp [Forest.roots] at h
  | cons j kids rest _ ihr =>
    simp only [Forest.roots, List.mem_cons] at h
    simp only [Forest.written, List.mem_append, List.mem_singleton]
    rcases h with rfl | h
    · exact .inr rfl
    · exact .inl (.inl (ihr h))

/-! ## Slices -/

theorem slice_append (T : TreeEnv) {a b c : Nat} (h1 : a ≤ b) (h2 : b ≤ c) : T.slice a b ++ T.slice b c = T.slice a c := by
  unfold TreeEnv.slice
  obtain ⟨x, rfl⟩ := Nat.le.dest h1
  obtain ⟨y, rfl⟩ := Nat.le.dest h2
  rw [show a + x - a = x by omega, show a + x + y - (a + x) = y by omega, show a + x + y - a = x + y by omega,
    List.take_add, List.drop_drop]

theorem slice_length (T : TreeEnv) {a b : Nat} (h : b ≤ T.chunks.length) : (T.slice a b).length = b - a := by
  simp only [TreeEnv.slice, List.length_take, List.length_drop]; omega

theorem slice_self (T : TreeEnv) (a : Nat) : T.slice a a = [] := by simp [TreeEnv.slice]

theorem slice_succ (T : TreeEnv) {a : Nat} {c : ChunkMetadata} (h : T.chunks[a]? = some c) : T.slice a (a + 1) = [c] := by
  obtain ⟨ha, hc⟩ := List.getElem?_eq_some_iff.mp h
  unfold TreeEnv.slice
  rw [List.drop_eq_getElem_cons ha, show a + 1 - a = 1 by omega, hc]
  rfl

theorem slice_cons (T : TreeEnv) {a b : Nat} {c : ChunkMetadata} (h : T.chunks[a]? = some c) (hab : a < b) :
    T.slice a b = c :: T.slice (a + 1) b := by
  rw [← slice_append T (Nat.le_succ a) hab, slice_succ T h]; rfl

theorem slice_snoc (T : TreeEnv) {a b : Nat} {c : ChunkMetadata} (h : T.chunks[b]? = some c) (hab : a ≤ b) :
    T.slice a (b + 1) = T.slice a b ++ [c] := by
  rw [← slice_append T hab (Nat.le_succ b), slice_succ T h]

theorem sliceHashes_append (T : TreeEnv) {a b c : Nat} (h1 : a ≤ b) (h2 : b ≤ c) :
    T.sliceHashes a b ++ T.sliceHashes b c = T.sliceHashes a c := by
  unfold TreeEnv.sliceHashes; rw [← List.map_append, slice_append T h1 h2]

theorem sliceBytes_append (T : TreeEnv) {a b c : Nat} (h1 : a ≤ b) (h2 : b ≤ c) :
    T.sliceBytes a b + T.sliceBytes b c = T.sliceBytes a c := by
  unfold TreeEnv.sliceBytes; rw [← List.sum_append, ← List.map_append, slice_append T h1 h2]

theorem sliceHashes_mem (T : TreeEnv) {a b : Nat} {h : HashValue} (hm : h ∈ T.sliceHashes a b) : h ∈ T.chunks.map (·.hash) := by
  unfold TreeEnv.sliceHashes TreeEnv.slice at hm
  obtain ⟨c, hc, rfl⟩ := List.mem_map.mp hm
  exact List.mem_map_of_mem (List.mem_of_mem_drop (List.mem_of_mem_take hc))

theorem chunk_of_lt (T : TreeEnv) {a : Nat} (h : a < T.chunks.length) :
    ∃ c, T.chunks[a]? = some c ∧ T.chunk a = .ok c :=
  ⟨T.chunks[a], List.getElem?_eq_getElem h, by unfold TreeEnv.chunk; rw [List.getElem?_eq_getElem h]⟩

/-! ## Making one manifest -/

/-- The nodes that the builder may make; `B` bounds the ids. -/
def Permitted (T : TreeEnv) (B : Int) (node : Node) : Prop :=
  (∃ lo count, 0 < count ∧ count ≤ T.pointers ∧ lo + count ≤ T.chunks.length ∧ node = T.leafNode lo count) ∨
  (∃ lo count hi kids, 0 < count ∧ count ≤ T.direct ∧ lo + count ≤ hi ∧ hi ≤ T.chunks.length ∧ 0 < kids.length ∧
    kids.length ≤ T.indirect ∧ (∀ k ∈ kids, k.Made T ∧ (k.id : Int) ≤ B) ∧ node = T.interiorNode lo count hi kids)

/-- Making a permitted manifest does not raise the exceptions in `Bad`. -/
structure Rules (T : TreeEnv) (Bad : PyErr → Prop) (B : Int) : Prop where
  groups : ∀ node, Permitted T B node → ∀ g ∈ node.hashGroups, ∀ e, g.tlv = .error e → ¬ Bad e
  data : ∀ node, Permitted T B node → ∀ d, node.nodeData = some d → ∀ e, d.tlv = .error e → ¬ Bad e
  node : ∀ node, Permitted T B node → ∀ e, node.tlv = .error e → ¬ Bad e
  name : ∀ id : Nat, (id : Int) ≤ B → ∀ e, T.ctx.manifest.getName (some (id : Int)) = .error e → ¬ Bad e
  build : ∀ node, Permitted T B node → ∀ name (id : Nat), (id : Int) ≤ B → T.ctx.manifest.getName (some (id : Int)) = .ok name →
    ∀ s e s', buildFromNode T.env T.opts node name T.opts.manifestExpiry none false s = (.error e, s') → ¬ Bad e
  ctx : T.ctx.shared = true → (T.ctx.manifest.usesNameId = true ∨ T.ctx.data.usesNameId = true) → ¬ Bad .assertionError

/-- No assumption is needed if no exception is bad. -/
theorem Rules.none (T : TreeEnv) (B : Int) : Rules T (fun _ => False) B :=
  ⟨by simp, by simp, by simp, by simp, by simp, by simp⟩

theorem buildManifest_frame (E : Env) (o : TreeOptions) (node : Node) (full : Bool) (s : BState) :
    ∃ k, (buildManifest E o node full s).2 = { s with nonces := k } := by
  unfold buildManifest
  cases o.encryptor with
  | none =>
    simp only
    cases hm : (Manifest.serialize { node := .plain node }) with
    | error e => exact ⟨s.nonces, by simp [PyS.bind_run]⟩
    | ok w => exact ⟨s.nonces, by simp [PyS.bind_run]⟩
  | some enc =>
    cases enc with
    | aead p => exact ⟨s.nonces + 1, by simp [PyS.bind_run]⟩
    | oaep p w => exact ⟨s.nonces + 1, by simp [PyS.bind_run]⟩

/-- The factory changes nothing but the number of nonces. -/
theorem buildFromNode_frame (E : Env) (o : TreeOptions) (node : Node) (name : Option Name) (x : Option F64) (sg : Option Signer)
    (full : Bool) (s : BState) : ∃ k, (buildFromNode E o node name x sg full s).2 = { s with nonces := k } := by
  unfold buildFromNode
  obtain ⟨k, hk⟩ := buildManifest_frame E o node full s
  rw [PyS.bind_run]
  split
  · rename_i m s' h
    rw [h] at hk
    subst hk
    refine ⟨k, ?_⟩
    cases m.serialize with
    | error e => rfl
    | ok w =>
      rw [PyS.liftBind_run rfl]
      split
      · rfl
      · cases m.contentObject name x with
        | error e => rfl
        | ok b => rw [PyS.liftBind_run rfl]; rfl
  · rename_i e s' h
    rw [h] at hk
    exact ⟨k, hk⟩

theorem set_eq_modify {l : List Int} {k : Nat} {v : Int} (h : l[k]? = some v) : l.set k (v - 1) = l.modify k (· - 1) := by
  apply List.ext_getElem?
  intro j
  obtain ⟨hk, hv⟩ := List.getElem?_eq_some_iff.mp h
  rw [List.getElem?_set, List.getElem?_modify]
  split
  · rename_i hj
    subst hj
    simp [hk, hv]
  · simp

/-- One of the exceptions that a shortage of ids or levels would raise. -/
def IdErr (Bad : PyErr → Prop) : Prop := Bad .assertionError ∨ Bad .indexError ∨ Bad .idsExhausted

/-- There is an id left at the level. -/
def Avail (T : TreeEnv) (s : BState) (level : Nat) : Prop :=
  (level : Int) ≤ T.height ∧ ∃ v, s.nextIds[T.heightOf level]? = some v ∧ 0 ≤ v

theorem nextManifestName_run {T : TreeEnv} {Bad : PyErr → Prop} {B : Int} (R : Rules T Bad B) {s : BState} {level : Nat}
    (hav : IdErr Bad → Avail T s level) (hB : ∀ v ∈ s.nextIds, v ≤ B) :
    PyS.Run (nextManifestName T level) s
      (fun name s' => ∃ id : Nat, (level : Int) ≤ T.height ∧ s.nextIds[T.heightOf level]? = some (id : Int) ∧ (id : Int) ≤ B ∧
        T.ctx.manifest.getName (some (id : Int)) = .ok name ∧
        s' = { s with nextIds := s.nextIds.modify (T.heightOf level) (· - 1), lastId := some id })
      (fun e s' => ¬ Bad e ∧ s'.output = s.output ∧ s'.graph = s.graph) := by
  unfold nextManifestName
  simp only
  refine PyS.Run.liftBind ?_ ?_
  · intro _ hle
    have hle : (level : Int) ≤ T.height := by
      unfold pyAssert at hle
      simp only [decide_eq_true_eq] at hle
      split at hle
      · omega
      · cases hle
    refine PyS.Run.bind ⟨?_, ?_⟩
    · intro id s1 hid
      unfold getNextId at hid
      cases hv : s.nextIds[(T.height - (level : Int)).toNat]? with
      | none => rw [hv] at hid; cases hid
      | some v =>
        simp only [hv] at hid
        split at hid
        · cases hid
        · rename_i hneg
          cases hid
          obtain ⟨n, rfl⟩ := Int.eq_ofNat_of_zero_le (Int.not_lt.mp hneg)
          refine PyS.Run.modifyBind (PyS.Run.lift ?_ ?_)
          · intro name hn
            have hmem : (n : Int) ∈ s.nextIds := List.mem_of_getElem? hv
            refine ⟨n, hle, hv, hB _ hmem, hn, ?_⟩
            rw [set_eq_modify hv]
            rfl
          · intro e he
            exact ⟨R.name n (hB _ (List.mem_of_getElem? hv)) e he, rfl, rfl⟩
    · intro e s1 hid
      have hs : s1 = s ∧ (e = .indexError ∨ e = .idsExhausted) ∧
          ((∃ v, s.nextIds[T.heightOf level]? = some v ∧ 0 ≤ v) → False) := by
        unfold getNextId at hid
        unfold TreeEnv.heightOf
        cases hv : s.nextIds[(T.height - (level : Int)).toNat]? with
        | none =>
          rw [hv] at hid; cases hid
          exact ⟨rfl, .inl rfl, by simp⟩
        | some v =>
          simp only [hv] at hid
          split at hid
          · cases hid
            refine ⟨rfl, .inr rfl, ?_⟩
            rintro ⟨w, hw, h0⟩
            cases hw
            omega
          · cases hid
      obtain ⟨rfl, he, hs⟩ := hs
      refine ⟨fun hb => hs (hav ?_).2, rfl, rfl⟩
      rcases he with rfl | rfl
      · exact .inr (.inl hb)
      · exact .inr (.inr hb)
  · intro e he
    refine ⟨fun hb => ?_, rfl, rfl⟩
    unfold pyAssert at he
    split at he
    · cases he
    · rename_i hn
      cases he
      have := (hav (.inl hb)).1
      simp only [decide_eq_true_eq] at hn
      omega

theorem optM_construct {α : Type} {tlv : α → Py Tlv} {o p : Option α} (h : optM (construct tlv) o = .ok p) : p = o := by
  cases o with
  | none => cases h; rfl
  | some a =>
    simp only [optM] at h
    split at h
    · rename_i b hb
      cases h
      rw [(construct_inv hb).1]
    · cases h

theorem optM_construct_error {α : Type} {tlv : α → Py Tlv} {o : Option α} {e : PyErr} (h : optM (construct tlv) o = .error e) :
    ∃ a, o = some a ∧ tlv a = .error e := by
  cases o with
  | none => cases h
  | some a =>
    simp only [optM] at h
    split at h
    · cases h
    · rename_i e' hb
      cases h
      refine ⟨a, rfl, ?_⟩
      rcases bind_eq_error.mp hb with hb | ⟨_, _, hb⟩
      · exact hb
      · cases hb

theorem construct_error {α : Type} {tlv : α → Py Tlv} {x : α} {e : PyErr} (h : construct tlv x = .error e) : tlv x = .error e := by
  rcases bind_eq_error.mp h with h | ⟨_, _, h⟩
  · exact h
  · cases h

theorem builderPacket_run {T : TreeEnv} {Bad : PyErr → Prop} {B : Int} (R : Rules T Bad B) {s : BState} {level : Nat}
    {groups : List HashGroup} {ds ks : Nat} (hperm : Permitted T B { nodeData := T.sizeData (ds + ks), hashGroups := groups })
    (hav : IdErr Bad → Avail T s level) (hB : ∀ v ∈ s.nextIds, v ≤ B) :
    PyS.Run (builderPacket T groups ds ks level) s
      (fun b s' => b.node = { nodeData := T.sizeData (ds + ks), hashGroups := groups } ∧ ∃ id : Nat, (level : Int) ≤ T.height ∧
        s.nextIds[T.heightOf level]? = some (id : Int) ∧ (id : Int) ≤ B ∧
        (∃ name s0 s1, T.ctx.manifest.getName (some (id : Int)) = .ok name ∧
          buildFromNode T.env T.opts { nodeData := T.sizeData (ds + ks), hashGroups := groups } name T.opts.manifestExpiry none false s0 = (.ok b.packet, s1)) ∧
        s'.output = s.output ∧ s'.graph = s.graph ∧ s'.nextIds = s.nextIds.modify (T.heightOf level) (· - 1) ∧
        s'.lastId = some id)
      (fun e s' => ¬ Bad e ∧ s'.output = s.output ∧ s'.graph = s.graph) := by
  unfold builderPacket
  refine PyS.Run.liftBind ?_ ?_
  · intro nd hnd
    have := optM_construct hnd
    subst this
    refine PyS.Run.liftBind ?_ ?_
    · intro node hnode
      obtain ⟨rfl, _⟩ := construct_inv hnode
      refine PyS.Run.bind ((nextManifestName_run R hav hB).mono ?_ (fun _ _ h => h))
      rintro name s1 ⟨id, h1, h2, h3, h4, rfl⟩
      obtain ⟨k, hk⟩ := buildFromNode_frame T.env T.opts { nodeData := T.sizeData (ds + ks), hashGroups := groups } name T.opts.manifestExpiry none false
        { s with nextIds := s.nextIds.modify (T.heightOf level) (· - 1), lastId := some id }
      refine PyS.Run.bind ⟨?_, ?_⟩
      · intro p s2 hp
        apply PyS.Run.pure
        refine ⟨rfl, id, h1, h2, h3, ⟨name, _, _, h4, hp⟩, ?_⟩
        unfold TreeEnv.sizeData at hk
        rw [hp] at hk
        simp only at hk
        subst hk
        exact ⟨rfl, rfl, rfl, rfl⟩
      · intro e s2 hp
        unfold TreeEnv.sizeData at hk
        rw [hp] at hk
        simp only at hk
        subst hk
        exact ⟨R.build _ hperm name id h3 h4 _ e _ hp, rfl, rfl⟩
    · intro e he
      exact ⟨R.node _ hperm e (construct_error he), rfl, rfl⟩
  · intro e he
    obtain ⟨d, hd, he⟩ := optM_construct_error he
    exact ⟨R.data _ hperm d hd e he, rfl, rfl⟩

end Ccnpy
