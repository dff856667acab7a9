import Verif.Props.WatchedProps
import Verif.Props.RepublishProps
import Verif.Props.AccessProps

/-!
# C111: the picture of a build

A build that is watched with a `ManifestGraph`.  `Truthful` is kept by every function of the builder; at the end every record is about a
packet of the tree (`Pictured.told`).  What the packets say is taken from their bytes (`Spec.NodeOf`), not from the builder.
-/

namespace Ccnpy

/-! ## What the graph holds -/

/-- The hash is a key of the dictionary of the graph. -/
def ManifestGraph.Knows (g : ManifestGraph) (h : HashValue) : Prop := ∃ e ∈ g.entries, e.1.value = h.value

def FState.Knows (s : FState) (h : HashValue) : Prop := ∃ g, s.graph = some g ∧ g.Knows h

theorem mem_dictSet_pair {α : Type} {P : Prims} {d : List (HashValue × α)} {k : HashValue} {v : α} {x : HashValue × α}
    (h : x ∈ dictSet P d k v) : x ∈ d ∨ (x.2 = v ∧ x.1.value = k.value) := by
  unfold dictSet at h
  split at h
  · obtain ⟨y, hy, rfl⟩ := List.mem_map.1 h
    split
    · rename_i hk
      exact .inr ⟨rfl, dictEq_value hk⟩
    · exact .inl hy
  · rcases List.mem_append.1 h with h | h
    · exact .inl h
    · rw [List.mem_singleton] at h
      subst h
      exact .inr ⟨rfl, rfl⟩

theorem dictSet_keeps {α : Type} {P : Prims} {d : List (HashValue × α)} (k : HashValue) (v : α) {x : HashValue × α} (h : x ∈ d) :
    ∃ y ∈ dictSet P d k v, y.1 = x.1 := by
  unfold dictSet
  split
  · refine ⟨_, List.mem_map.2 ⟨x, h, rfl⟩, ?_⟩
    split <;> rfl
  · exact ⟨x, List.mem_append_left _ h, rfl⟩

theorem dictSet_has {α : Type} (P : Prims) (d : List (HashValue × α)) (k : HashValue) (v : α) :
    ∃ y ∈ dictSet P d k v, y.1.value = k.value := by
  unfold dictSet
  split
  · rename_i h
    obtain ⟨e, he, hk⟩ := List.any_eq_true.1 h
    refine ⟨_, List.mem_map.2 ⟨e, he, rfl⟩, ?_⟩
    rw [if_pos hk]
    exact dictEq_value hk
  · exact ⟨(k, v), by simp, rfl⟩

variable {W : Watch} {T : TreeEnv} {z : Nat}

/-- The manifests put after the first `z` packets, with their hashes and nodes. -/
def BState.put (z : Nat) (s : BState) : List (Packet × HashValue × Node) := (s.output.drop z).zip s.graph

/-- The record is about a chunk, or about a manifest that was put with this node, or about the one that is being made. -/
def RecordOf (W : Watch) (T : TreeEnv) (z : Nat) (s : BState) (X : Option Built) (r : EntryRecord) : Prop :=
  (∃ c ∈ T.chunks, r = ⟨true, c.hash, hashToName c.hash, []⟩) ∨
  ∃ p node h l cs, p.hash T.env.prims.sha256 = .ok h ∧ graphLabel W.R h p.body.name = .ok l ∧ node.hashValues = .ok cs ∧
    r = ⟨false, h, l, cs⟩ ∧ ((p, h, node) ∈ s.put z ∨ X = some ⟨p, node⟩)

theorem RecordOf.mono {s s' : BState} {X X' : Option Built} {r : EntryRecord} (h : RecordOf W T z s X r) (ho : ∀ p ∈ s.put z, p ∈ s'.put z)
    (hx : ∀ b, X = some b → X' = some b) : RecordOf W T z s' X' r := by
  rcases h with h | ⟨p, node, h, l, cs, h1, h2, h3, h4, h5 | h5⟩
  · exact .inl h
  · exact .inr ⟨p, node, h, l, cs, h1, h2, h3, h4, .inl (ho _ h5)⟩
  · exact .inr ⟨p, node, h, l, cs, h1, h2, h3, h4, .inr (hx _ h5)⟩

/-- The graph tells the truth about what was put, and knows all manifests that were put; `X` is being made. -/
structure Truthful (W : Watch) (T : TreeEnv) (z : Nat) (X : Option Built) (s : FState) (g : ManifestGraph) : Prop where
  graph : s.graph = some g
  running : g.paused = false
  fresh : g.graph = none
  keys : ∀ e ∈ g.entries, e.1.value = e.2.parent.value
  records : ∀ e ∈ g.entries, RecordOf W T z s.base X e.2
  known : ∀ x ∈ s.base.graph, g.Knows x.1
  aligned : s.base.output.length = z + s.base.graph.length

/-- A run from `s` to `s'` that forgets nothing. -/
structure Draws (W : Watch) (T : TreeEnv) (z : Nat) (X' : Option Built) (s s' : FState) : Prop where
  truthful : ∃ g, Truthful W T z X' s' g
  mono : ∀ h, s.Knows h → s'.Knows h

theorem Draws.trans {X Y : Option Built} {s s' s'' : FState} (h : Draws W T z X s s') (h' : Draws W T z Y s' s'') : Draws W T z Y s s'' :=
  ⟨h'.truthful, fun x hx => h'.mono x (h.mono x hx)⟩

theorem Draws.refl {X : Option Built} {s : FState} (h : ∃ g, Truthful W T z X s g) : Draws W T z X s s := ⟨h, fun _ h => h⟩

/-- A change of the rest of the state that puts nothing. -/
theorem Draws.frame {X : Option Built} {s s' : FState} (h : ∃ g, Truthful W T z X s g) (hg : s'.graph = s.graph)
    (ho : s'.base.output = s.base.output) (hb : s'.base.graph = s.base.graph) : Draws W T z X s s' := by
  obtain ⟨g, h⟩ := h
  refine ⟨⟨g, hg.trans h.graph, h.running, h.fresh, h.keys, fun e he => (h.records e he).mono ?_ fun _ h => h, ?_, ?_⟩, ?_⟩
  · unfold BState.put; rw [ho, hb]; exact fun _ h => h
  · rw [hb]; exact h.known
  · rw [ho, hb]; exact h.aligned
  · rintro x ⟨g', h1, h2⟩
    exact ⟨g', hg.trans h1, h2⟩

/-- Chunks `a .. b-1` are known. -/
def Covers (T : TreeEnv) (s : FState) (a b : Nat) : Prop := ∀ i c, a ≤ i → i < b → T.chunks[i]? = some c → s.Knows c.hash

theorem Covers.mono {s s' : FState} {a b : Nat} (h : Covers T s a b) (hm : ∀ h, s.Knows h → s'.Knows h) : Covers T s' a b :=
  fun i c h1 h2 h3 => hm _ (h i c h1 h2 h3)

theorem Covers.append {s : FState} {a b c : Nat} (h : Covers T s a b) (h' : Covers T s b c) : Covers T s a c := by
  intro i x h1 h2 h3
  by_cases hb : i < b
  · exact h i x h1 hb h3
  · exact h' i x (by omega) h2 h3

theorem Covers.nil (s : FState) (a : Nat) : Covers T s a a := fun i _ h1 h2 _ => by omega

theorem chunk_mem {i : Nat} {c : ChunkMetadata} (h : T.chunk i = .ok c) : T.chunks[i]? = some c := by
  unfold TreeEnv.chunk at h
  split at h
  · rename_i c' hc
    cases h
    exact hc
  · cases h

/-- One more record. -/
theorem Truthful.add {X X' : Option Built} {s : FState} {g : ManifestGraph} (h : Truthful W T z X s g) (hx : ∀ b, X = some b → X' = some b)
    {k : HashValue} {r : EntryRecord} (hr : r.parent = k) (hrec : RecordOf W T z s.base X' r) :
    Draws W T z X' s { s with graph := some { g with graph := none, entries := dictSet T.env.prims g.entries k r } } ∧
      FState.Knows { s with graph := some { g with graph := none, entries := dictSet T.env.prims g.entries k r } } k := by
  have hm : ∀ x, g.Knows x → ManifestGraph.Knows { g with graph := none, entries := dictSet T.env.prims g.entries k r } x := by
    rintro x ⟨e, he, hv⟩
    obtain ⟨y, hy, hk⟩ := dictSet_keeps (P := T.env.prims) k r he
    exact ⟨y, hy, by rw [hk]; exact hv⟩
  refine ⟨⟨⟨_, rfl, h.running, rfl, ?_, ?_, ?_, h.aligned⟩, ?_⟩, _, rfl, dictSet_has _ _ _ _⟩
  · intro e he
    rcases mem_dictSet_pair he with he | ⟨h1, h2⟩
    · exact h.keys e he
    · rw [h1, h2, hr]
  · intro e he
    rcases mem_dictSet_pair he with he | ⟨h1, h2⟩
    · exact (h.records e he).mono (fun _ h => h) hx
    · rw [h1]; exact hrec
  · exact fun x hx => hm _ (h.known x hx)
  · rintro x ⟨g', h1, h2⟩
    obtain rfl := Option.some.inj (h.graph.symm.trans h1)
    exact ⟨_, rfl, hm x h2⟩

theorem noteChunk_draws {X : Option Built} {c : ChunkMetadata} {i : Nat} (hc : T.chunk i = .ok c) {s s' : FState} {u : Unit}
    (hs : ∃ g, Truthful W T z X s g) (h : W.noteChunk T c s = (.ok u, s')) : Draws W T z X s s' ∧ s'.Knows c.hash := by
  obtain ⟨g, hs⟩ := hs
  have e : ManifestGraph.addData T.env.prims W.R c.hash none g =
      (.ok (), { g with graph := none, entries := dictSet T.env.prims g.entries c.hash ⟨true, c.hash, hashToName c.hash, []⟩ }) := by
    unfold ManifestGraph.addData
    rw [if_neg (by rw [hs.running]; decide)]
    rfl
  unfold Watch.noteChunk PyS.onGraph at h
  simp only [hs.graph, e] at h
  obtain rfl := (Prod.mk.inj h).2
  exact hs.add (fun _ h => h) rfl (.inl ⟨c, List.mem_of_getElem? (chunk_mem hc), rfl⟩)

theorem record_draws {X : Option Built} {p : Packet} {node : Node} (hx : ∀ b, X = some b → b = ⟨p, node⟩) {s s' : FState} {u : Unit}
    (hs : ∃ g, Truthful W T z X s g) (h : recordManifest T.env.prims W.R p node s = (.ok u, s')) :
    Draws W T z (some ⟨p, node⟩) s s' ∧ s'.base = s.base ∧ ∃ hv, p.hash T.env.prims.sha256 = .ok hv ∧ s'.Knows hv := by
  obtain ⟨g, hs⟩ := hs
  unfold recordManifest at h
  simp only [hs.graph, Option.isNone_some, Bool.false_eq_true, if_false] at h
  cases hh : p.hash T.env.prims.sha256 with
  | error e => rw [hh] at h; cases h
  | ok hv =>
    rw [hh] at h
    simp only [PyS.onGraph, hs.graph] at h
    unfold ManifestGraph.addManifest at h
    simp only [hs.running, Bool.false_eq_true, if_false] at h
    cases hn : node.hashValues with
    | error e =>
      simp only [hn, bind, Except.bind] at h
      cases (Prod.mk.inj h).1
    | ok cs =>
      cases hl : graphLabel W.R hv p.body.name with
      | error e =>
        simp only [hn, hl, bind, Except.bind] at h
        cases (Prod.mk.inj h).1
      | ok l =>
        simp only [hn, hl, bind, Except.bind, pure, Except.pure] at h
        obtain rfl := (Prod.mk.inj h).2
        obtain ⟨h1, h2⟩ := hs.add (X' := some ⟨p, node⟩) (fun b hb => by rw [hx b hb]) (k := hv) (r := ⟨false, hv, l, cs⟩) rfl
          (.inr ⟨p, node, hv, l, cs, hh, hl, hn, rfl, .inr rfl⟩)
        rw [hs.running] at h1 h2
        exact ⟨h1, rfl, hv, rfl, h2⟩

/-! ## The tree -/

theorem bind_graph {α β : Type} {y : PyS BState α} {g : α → PyS BState β} (h : ∀ b, (y b).2.graph = b.graph)
    (hg : ∀ a b, (g a b).2.graph = b.graph) (b : BState) : ((y >>= g) b).2.graph = b.graph := by
  have := h b
  rw [PyS.bind_run]
  cases hy : y b with
  | mk r b1 =>
    rw [hy] at this
    cases r with
    | error e => exact this
    | ok a => exact (hg a b1).trans this

theorem nextManifestName_graph (T : TreeEnv) (level : Nat) (b : BState) : (nextManifestName T level b).2.graph = b.graph := by
  unfold nextManifestName
  refine bind_graph (fun _ => rfl) (fun _ => bind_graph ?_ (fun _ => bind_graph (fun _ => rfl) (fun _ _ => rfl))) b
  intro b
  unfold getNextId
  split
  · rfl
  · split <;> rfl

theorem onBase_inv {α : Type} {y : PyS BState α} {s s' : FState} {a : α} (h : y.onBase s = (.ok a, s')) :
    y s.base = (.ok a, s'.base) ∧ s' = { s with base := s'.base } := by
  unfold PyS.onBase at h
  cases hy : y s.base with
  | mk r b =>
    rw [hy] at h
    cases h
    exact ⟨rfl, rfl⟩

/-- What `build_packet` does to the graph. -/
theorem buildPacket_draws {src : Source} {a : BuildArgs} (ha : a.signer.isSome → T.opts.signer.isSome) {s s' : FState} {p : Packet}
    (hs : ∃ g, Truthful W T z none s g) (h : buildPacket T.env W.R T.opts src a s = (.ok p, s')) :
    ∃ node, sourceNode T.opts src a = .ok node ∧ Draws W T z (some ⟨p, node⟩) s s' ∧ s'.base.output = s.base.output ∧
      s'.base.graph = s.base.graph ∧ (∃ hv, p.hash T.env.prims.sha256 = .ok hv ∧ s'.Knows hv) ∧
      ∃ b', buildFromNode T.env T.opts node a.name a.expiryTime (a.effectiveSigner T.opts) a.full s.base = (.ok p, b') := by
  rw [buildPacket_run T.env W.R T.opts src a s ha] at h
  cases hn : sourceNode T.opts src a with
  | error e => rw [hn] at h; cases h
  | ok node =>
    rw [hn] at h
    simp only at h
    cases hb : buildFromNode T.env T.opts node a.name a.expiryTime (a.effectiveSigner T.opts) a.full s.base with
    | mk r b1 =>
      rw [hb] at h
      cases r with
      | error e => cases h
      | ok q =>
        simp only at h
        obtain ⟨k, hk⟩ := buildFromNode_frame T.env T.opts node a.name a.expiryTime (a.effectiveSigner T.opts) a.full s.base
        rw [hb] at hk
        simp only at hk
        unfold factoryFinish at h
        obtain ⟨u, s2, h2, h⟩ := PyS.bind_ok h
        obtain ⟨n, _, h⟩ := PyS.liftBind_ok h
        have d1 : Draws W T z none s { s with base := b1 } := .frame hs rfl (by rw [hk]) (by rw [hk])
        obtain ⟨d2, hb2, hv, hh, hkn⟩ := record_draws (X := none) (fun b hb => by cases hb) d1.truthful h2
        cases h
        have d3 := d1.trans d2
        refine ⟨node, rfl, d3.trans (.frame d3.truthful rfl rfl rfl), ?_, ?_, ⟨hv, hh, hkn⟩, b1, hb⟩
        · show s2.base.output = _
          rw [hb2, hk]
        · show s2.base.graph = _
          rw [hb2, hk]

theorem builderPacket_draws {groups : List HashGroup} {ds is level : Nat} {s s' : FState} {b : Built}
    (hs : ∃ g, Truthful W T z none s g) (h : W.builderPacket T groups ds is level s = (.ok b, s')) :
    Draws W T z (some b) s s' := by
  unfold Watch.builderPacket at h
  obtain ⟨nd, _, h⟩ := PyS.liftBind_ok h
  obtain ⟨node, _, h⟩ := PyS.liftBind_ok h
  obtain ⟨name, s1, h1, h⟩ := PyS.bind_ok h
  obtain ⟨p, s2, h2, h⟩ := PyS.bind_ok h
  cases h
  obtain ⟨h3, h4⟩ := onBase_inv h1
  have d1 : Draws W T z none s s1 := .frame hs (by rw [h4]) (by
    have := nextManifestName_output T level s.base; rw [h3] at this; exact this) (by
    have := nextManifestName_graph T level s.base; rw [h3] at this; exact this)
  obtain ⟨n, hn, d2, _⟩ := buildPacket_draws (fun h => by cases h) d1.truthful h2
  have e : n = node := by
    have := hn
    simp only [sourceNode, sizeArg, optM, ite_self, ok_bind] at this
    exact (Except.ok.inj this).symm
  subst e
  exact d1.trans d2

theorem appendChunks_draws : ∀ (n : Nat) {b : HashGroupBuilder} {i : Nat} {s s' : FState} {r : HashGroupBuilder},
    (∃ g, Truthful W T z none s g) → W.appendChunks T b i n s = (.ok r, s') → Draws W T z none s s' ∧ Covers T s' i (i + n)
  | 0, b, i, s, s', r, hs, h => by
    cases h
    exact ⟨.refl hs, .nil _ _⟩
  | n + 1, b, i, s, s', r, hs, h => by
    unfold Watch.appendChunks at h
    obtain ⟨c, hc, h⟩ := PyS.liftBind_ok h
    obtain ⟨_, s1, h1, h⟩ := PyS.bind_ok h
    obtain ⟨b', _, h⟩ := PyS.liftBind_ok h
    obtain ⟨d1, k1⟩ := noteChunk_draws hc hs h1
    obtain ⟨d2, c2⟩ := appendChunks_draws n d1.truthful h
    refine ⟨d1.trans d2, ?_⟩
    intro j x h1 h2 h3
    by_cases hj : j = i
    · subst hj
      rw [chunk_mem hc] at h3
      cases h3
      exact d2.mono _ k1
    · exact c2 j x (by omega) (by omega) h3

theorem leafPacket_draws {head tail level : Nat} {s s' : FState} {b : Built} (hs : ∃ g, Truthful W T z none s g)
    (h : W.leafPacket T head tail level s = (.ok b, s')) : Draws W T z (some b) s s' ∧ Covers T s' head tail := by
  unfold Watch.leafPacket at h
  obtain ⟨_, ha, h⟩ := PyS.liftBind_ok h
  obtain ⟨bd, s1, h1, h⟩ := PyS.bind_ok h
  obtain ⟨_, _, h⟩ := PyS.liftBind_ok h
  obtain ⟨_, _, h⟩ := PyS.liftBind_ok h
  obtain ⟨d1, c1⟩ := appendChunks_draws _ hs h1
  have d2 := builderPacket_draws d1.truthful h
  have hlt : head < tail := by
    unfold pyAssert at ha
    split at ha
    · rename_i h; simpa using h
    · cases ha
  rw [show head + (tail - head) = tail by omega] at c1
  exact ⟨d1.trans d2, c1.mono d2.mono⟩

theorem say_inv {x : Py Unit} {s s' : FState} {u : Unit} (h : W.say x s = (.ok u, s')) : s' = s := by
  have := (say_run W x s).1
  rw [h] at this
  exact this

theorem finish_draws (hout : W.hasOutput = true) {b : Built} {s s' : FState} {u : Unit} (hs : ∃ g, Truthful W T z (some b) s g)
    (h : W.finish T b s = (.ok u, s')) : Draws W T z none s s' := by
  unfold Watch.finish at h
  obtain ⟨_, s1, h1, h0⟩ := PyS.bind_ok h
  clear h
  obtain rfl := say_inv h1
  obtain ⟨_, s2, h2, h⟩ := PyS.bind_ok h0
  clear h0
  obtain ⟨d1, hb, hv, hh, hkn⟩ := record_draws (fun b' hb' => (Option.some.inj hb').symm) hs h2
  unfold Watch.write at h
  obtain ⟨_, s3, h3, h0⟩ := PyS.bind_ok h
  clear h
  obtain rfl := say_inv h3
  have h := h0
  clear h0
  rw [if_pos hout] at h
  obtain ⟨h4, h5⟩ := onBase_inv h
  unfold putBuilt at h4
  rw [PyS.liftBind_run hh] at h4
  have h6 : s'.base = { s3.base with graph := s3.base.graph ++ [(hv, b.node)], output := s3.base.output ++ [b.packet] } := (Prod.mk.inj h4).2.symm
  obtain ⟨g, hg⟩ := d1.truthful
  have hput : s'.base.put z = s3.base.put z ++ [(b.packet, hv, b.node)] := by
    unfold BState.put
    rw [h6]
    simp only
    rw [List.drop_append_of_le_length (by have := hg.aligned; omega), List.zip_append (by
      have := hg.aligned; rw [List.length_drop]; omega)]
    rfl
  refine d1.trans ⟨⟨g, by rw [h5]; exact hg.graph, hg.running, hg.fresh, hg.keys, ?_, ?_, ?_⟩, ?_⟩
  · intro e he
    unfold RecordOf
    rw [hput]
    rcases hg.records e he with h | ⟨p, node, h, l, cs, r1, r2, r3, r4, r5 | r5⟩
    · exact .inl h
    · exact .inr ⟨p, node, h, l, cs, r1, r2, r3, r4, .inl (List.mem_append_left _ r5)⟩
    · cases r5
      refine .inr ⟨b.packet, b.node, h, l, cs, r1, r2, r3, r4, .inl ?_⟩
      cases Except.ok.inj (hh.symm.trans r1)
      simp
  · intro x hx
    rw [h6] at hx
    rcases List.mem_append.1 hx with hx | hx
    · exact hg.known x hx
    · rw [List.mem_singleton] at hx
      subst hx
      obtain ⟨g', k1, k2⟩ := hkn
      obtain rfl := Option.some.inj (hg.graph.symm.trans k1)
      exact k2
  · rw [h6]
    have := hg.aligned
    simp only [List.length_append, List.length_singleton]
    omega
  · rintro x ⟨g', k1, k2⟩
    exact ⟨g', by rw [h5]; exact k1, k2⟩

/-- What building a part of the tree does: the chunks that are taken from the segment are known. -/
structure Takes (W : Watch) (T : TreeEnv) (z : Nat) (seg seg' : Segment) (s s' : FState) : Prop where
  draws : Draws W T z none s s'
  head : seg'.head = seg.head
  tail : seg'.tail ≤ seg.tail
  covers : Covers T s' seg'.tail seg.tail

theorem Takes.trans {a b c : Segment} {s s' s'' : FState} (h : Takes W T z a b s s') (h' : Takes W T z b c s' s'') : Takes W T z a c s s'' :=
  ⟨h.draws.trans h'.draws, h'.head.trans h.head, h'.tail.trans h.tail, h'.covers.append (h.covers.mono h'.draws.mono)⟩

theorem Takes.refl {a : Segment} {s : FState} (h : ∃ g, Truthful W T z none s g) : Takes W T z a a s s :=
  ⟨.refl h, rfl, Nat.le_refl _, .nil _ _⟩

theorem decrementTail_inv {seg seg' : Segment} {n : Nat} (h : seg.decrementTail n = .ok seg') :
    n ≤ seg.tail ∧ seg' = { seg with tail := seg.tail - n } := by
  unfold Segment.decrementTail at h
  split at h
  · cases h
  · split at h
    · cases h
    · cases h
      exact ⟨by omega, rfl⟩

theorem leafManifest_draws (hout : W.hasOutput = true) {seg seg' : Segment} {level : Nat} {s s' : FState} {b : Built} (hs : ∃ g, Truthful W T z none s g)
    (h : W.leafManifest T seg level s = (.ok (b, seg'), s')) : Takes W T z seg seg' s s' := by
  unfold Watch.leafManifest at h
  obtain ⟨b1, s1, h1, h⟩ := PyS.bind_ok h
  obtain ⟨sg, hsg, h⟩ := PyS.liftBind_ok h
  obtain ⟨_, s2, h2, h⟩ := PyS.bind_ok h
  cases h
  obtain ⟨d1, c1⟩ := leafPacket_draws hs h1
  have d2 := finish_draws hout d1.truthful h2
  obtain ⟨hle, rfl⟩ := decrementTail_inv hsg
  refine ⟨d1.trans d2, rfl, Nat.sub_le _ _, ?_⟩
  have := c1.mono d2.mono
  intro i c hi hi2 hc
  refine this i c ?_ hi2 hc
  simp only at hi hi2
  omega

theorem addIndirectLoop_draws {child : Segment → PyS FState (Built × Segment)}
    (hc : ∀ seg seg' s s' b, (∃ g, Truthful W T z none s g) → child seg s = (.ok (b, seg'), s') → Takes W T z seg seg' s s') :
    ∀ (fuel : Nat) {b b' : BuilderPair} {seg seg' : Segment} {s s' : FState}, (∃ g, Truthful W T z none s g) →
      W.addIndirectLoop T child fuel b seg s = (.ok (b', seg'), s') → Takes W T z seg seg' s s'
  | fuel, b, b', seg, seg', s, s', hs, h => by
    unfold Watch.addIndirectLoop at h
    split at h
    · cases h
      exact .refl hs
    · cases fuel with
      | zero => cases h
      | succ fuel =>
        simp only at h
        obtain ⟨⟨c, sg⟩, s1, h1, h⟩ := PyS.bind_ok h
        simp only at h
        obtain ⟨_, _, h⟩ := PyS.liftBind_ok h
        have t1 := hc _ _ _ _ _ hs h1
        exact t1.trans (addIndirectLoop_draws hc fuel t1.draws.truthful h)

theorem addIndirect_draws {child : Segment → PyS FState (Built × Segment)}
    (hc : ∀ seg seg' s s' b, (∃ g, Truthful W T z none s g) → child seg s = (.ok (b, seg'), s') → Takes W T z seg seg' s s')
    {b b' : BuilderPair} {seg seg' : Segment} {s s' : FState} (hs : ∃ g, Truthful W T z none s g)
    (h : W.addIndirect T child b seg s = (.ok (b', seg'), s')) : Takes W T z seg seg' s s' := by
  unfold Watch.addIndirect at h
  obtain ⟨sg, hsg, h⟩ := PyS.liftBind_ok h
  obtain ⟨⟨b1, sg1⟩, s1, h1, h⟩ := PyS.bind_ok h
  obtain ⟨sg2, hsg2, h⟩ := PyS.liftBind_ok h
  cases h
  have t := addIndirectLoop_draws hc _ hs h1
  unfold Segment.incrementHead at hsg
  split at hsg
  · cases hsg
  · cases hsg
    unfold Segment.decrementHead at hsg2
    split at hsg2
    · cases hsg2
    · cases hsg2
      refine ⟨t.draws, ?_, t.tail, t.covers⟩
      have := t.head
      simp only at this ⊢
      omega

theorem addDirectLoop_draws : ∀ (fuel : Nat) {b b' : BuilderPair} {seg seg' : Segment} {l l' : Option Nat} {s s' : FState},
    (∃ g, Truthful W T z none s g) → W.addDirectLoop T fuel b seg l s = (.ok (b', seg', l'), s') → Takes W T z seg seg' s s'
  | fuel, b, b', seg, seg', l, l', s, s', hs, h => by
    unfold Watch.addDirectLoop at h
    split at h
    · cases h
      exact .refl hs
    · cases fuel with
      | zero => cases h
      | succ fuel =>
        simp only at h
        obtain ⟨c, hc, h⟩ := PyS.liftBind_ok h
        obtain ⟨_, s1, h1, h⟩ := PyS.bind_ok h
        obtain ⟨_, _, h⟩ := PyS.liftBind_ok h
        obtain ⟨sg, hsg, h⟩ := PyS.liftBind_ok h
        obtain ⟨d1, k1⟩ := noteChunk_draws hc hs h1
        obtain ⟨hle, rfl⟩ := decrementTail_inv hsg
        refine Takes.trans (b := { seg with tail := seg.tail - 1 }) ⟨d1, rfl, Nat.sub_le _ _, ?_⟩ (addDirectLoop_draws fuel d1.truthful h)
        intro i x h1 h2 h3
        simp only at h1
        have : i = seg.tail - 1 := by omega
        subst this
        rw [chunk_mem hc] at h3
        cases h3
        exact k1

theorem interiorManifest_draws (hout : W.hasOutput = true) {child : Segment → PyS FState (Built × Segment)}
    (hc : ∀ seg seg' s s' b, (∃ g, Truthful W T z none s g) → child seg s = (.ok (b, seg'), s') → Takes W T z seg seg' s s')
    {seg seg' : Segment} {level : Nat} {rm : Option Built} {s s' : FState} {b : Built} (hs : ∃ g, Truthful W T z none s g)
    (h : W.interiorManifest T child seg level rm s = (.ok (b, seg'), s')) : Takes W T z seg seg' s s' := by
  unfold Watch.interiorManifest at h
  obtain ⟨_, _, h⟩ := PyS.liftBind_ok h
  obtain ⟨⟨b1, sg1⟩, s1, h1, h⟩ := PyS.bind_ok h
  obtain ⟨⟨b2, sg2, l⟩, s2, h2, h⟩ := PyS.bind_ok h
  obtain ⟨r, s3, h3, h⟩ := PyS.bind_ok h
  obtain ⟨_, s4, h4, h⟩ := PyS.bind_ok h
  cases h
  have t1 := addIndirect_draws hc hs h1
  have t2 := t1.trans (addDirectLoop_draws _ t1.draws.truthful h2)
  rw [watch_interiorPacket_eq] at h3
  obtain ⟨i, s5, h5, h8⟩ := PyS.bind_ok h3
  clear h3
  obtain ⟨gs, _, h9⟩ := PyS.liftBind_ok h8
  obtain ⟨h6, h7⟩ := onBase_inv h5
  have e5 : s5 = s2 := by
    have := lastIdOf_state T s2.base
    rw [h6] at this
    rw [h7]
    simp only at this
    rw [this]
  subst e5
  have d3 := builderPacket_draws t2.draws.truthful h9
  have d4 := finish_draws hout d3.truthful h4
  have d5 := d3.trans d4
  exact ⟨t2.draws.trans d5, t2.head, t2.tail, t2.covers.mono d5.mono⟩

theorem bottomUp_draws (hout : W.hasOutput = true) : ∀ (level : Nat) {seg seg' : Segment} {rm : Option Built} {s s' : FState} {b : Built},
    (∃ g, Truthful W T z none s g) → W.bottomUp T level seg rm s = (.ok (b, seg'), s') → Takes W T z seg seg' s s'
  | 0, seg, seg', rm, s, s', b, hs, h => by
    unfold Watch.bottomUp at h
    obtain ⟨_, _, h⟩ := PyS.liftBind_ok h
    exact leafManifest_draws hout hs h
  | level + 1, seg, seg', rm, s, s', b, hs, h => by
    unfold Watch.bottomUp at h
    split at h
    · exact leafManifest_draws hout hs h
    · exact interiorManifest_draws hout (fun _ _ _ _ _ hs h => bottomUp_draws hout level hs h) hs h

theorem buildLoop_draws (hout : W.hasOutput = true) : ∀ (fuel : Nat) {level : Nat} {seg : Segment} {root b : Built} {s s' : FState},
    (∃ g, Truthful W T z none s g) → W.buildLoop T fuel level seg root s = (.ok b, s') →
      ∃ seg' : Segment, seg'.empty = true ∧ Takes W T z seg seg' s s'
  | fuel, level, seg, root, b, s, s', hs, h => by
    unfold Watch.buildLoop at h
    split at h
    · rename_i he
      cases h
      exact ⟨seg, he, .refl hs⟩
    · cases fuel with
      | zero => cases h
      | succ fuel =>
        simp only at h
        obtain ⟨⟨r, sg⟩, s1, h1, h⟩ := PyS.bind_ok h
        have t1 := bottomUp_draws hout _ hs h1
        obtain ⟨sg', he, t2⟩ := buildLoop_draws hout fuel t1.draws.truthful h
        exact ⟨sg', he, t1.trans t2⟩

/-- After the tree is built, all chunks are known. -/
theorem buildTree_draws (hout : W.hasOutput = true) {s s' : FState} {b : Built} (hs : ∃ g, Truthful W T z none s g)
    (h : W.buildTree T s = (.ok b, s')) : Draws W T z none s s' ∧ ∀ c ∈ T.chunks, s'.Knows c.hash := by
  unfold Watch.buildTree at h
  obtain ⟨_, s1, h1, h⟩ := PyS.bind_ok h
  obtain ⟨⟨r, sg⟩, s2, h2, h⟩ := PyS.bind_ok h
  obtain ⟨h3, h4⟩ := onBase_inv h1
  obtain ⟨ids, _, h3⟩ := PyS.liftBind_ok h3
  have h5 : s1.base = { s.base with nextIds := ids, lastId := none } := (Prod.mk.inj h3).2.symm
  have d1 : Draws W T z none s s1 := .frame hs (by rw [h4]) (by rw [h5]) (by rw [h5])
  have t1 := leafManifest_draws hout d1.truthful h2
  obtain ⟨sg', he, t2⟩ := buildLoop_draws hout _ t1.draws.truthful h
  have t := t1.trans t2
  refine ⟨d1.trans t.draws, fun c hc => ?_⟩
  obtain ⟨i, hi, rfl⟩ := List.getElem_of_mem hc
  refine t.covers i _ ?_ hi (List.getElem?_eq_getElem hi)
  have h6 := t.head
  unfold Segment.empty at he
  simp only [beq_iff_eq] at he
  rw [← he, h6]
  exact Nat.zero_le _

/-! ## The root and the whole -/

/-- What is known when the root has been put. -/
structure Pictured (W : Watch) (T : TreeEnv) (z : Nat) (s1 : BState) (topHash : HashValue) (root : Packet) (g : ManifestGraph) : Prop where
  running : g.paused = false
  fresh : g.graph = none
  keys : ∀ e ∈ g.entries, e.1.value = e.2.parent.value
  records : ∃ node, Spec.pointers node = [topHash] ∧ (∀ x ∈ node.hashGroups, x.pointers.isSome) ∧
    ∀ e ∈ g.entries, RecordOf W T z s1 (some ⟨root, node⟩) e.2
  known : ∀ x ∈ s1.graph, g.Knows x.1
  chunks : ∀ c ∈ T.chunks, g.Knows c.hash
  root : ∃ hv, root.hash T.env.prims.sha256 = .ok hv ∧ g.Knows hv

theorem buildRooted_draws (hout : W.hasOutput = true) {total : Nat} {s s' : FState} {root : Packet} (hs : ∃ g, Truthful W T z none s g)
    (h : W.buildRooted T total s = (.ok root, s')) :
    ∃ top s1 hv g, buildTree T s.base = (.ok top, s1) ∧ top.packet.hash T.env.prims.sha256 = .ok hv ∧ s'.graph = some g ∧
      Pictured W T z s1 hv root g := by
  unfold Watch.buildRooted at h
  obtain ⟨top, s1, h1, h⟩ := PyS.bind_ok h
  obtain ⟨hv, h2, h⟩ := PyS.liftBind_ok h
  obtain ⟨p, s2, h3, h⟩ := PyS.bind_ok h
  obtain ⟨_, s3, h4, h0⟩ := PyS.bind_ok h
  clear h
  obtain rfl := say_inv h4
  rw [if_pos hout] at h0
  obtain ⟨_, s4, h5, h6⟩ := PyS.bind_ok h0
  cases h6
  obtain ⟨h7, h8⟩ := onBase_inv h5
  obtain ⟨d1, hc⟩ := buildTree_draws hout hs h1
  obtain ⟨node, hn, d2, ho2, hg2, ⟨hr, hh, hk⟩, _⟩ := buildPacket_draws (by exact id) d1.truthful h3
  obtain ⟨g1, hg1⟩ := hs
  have hready : s.Ready True := ⟨by rw [hg1.graph]; simp, fun g h => by
    obtain rfl := Option.some.inj (hg1.graph.symm.trans h); exact hg1.running⟩
  have hplain : buildTree T s.base = (.ok top, s1.base) := by
    rcases ((buildTree_tracks W True T hout).2 s hready).2 with ⟨a, b, _⟩ | ⟨⟨e, a⟩, _⟩
    · rw [h1] at a b
      exact Prod.ext a.symm b.symm
    · rw [h1] at a
      cases a
  obtain ⟨g, ht⟩ := d2.truthful
  refine ⟨top, s1.base, hv, g, hplain, h2, by rw [h8]; exact ht.graph, ht.running, ht.fresh, ht.keys, ⟨node, ?_, ?_, ?_⟩, ?_, ?_, hr, hh, ?_⟩
  · obtain ⟨x, hx, hm⟩ := sourceNode_ok hn
    unfold Spec.pointers
    rw [hm.groups]
    simp [hx.pointers]
  · obtain ⟨x, hx, hm⟩ := sourceNode_ok hn
    rw [hm.groups]
    simp [hx.pointers]
  · intro e he
    exact (ht.records e he).mono (by
      unfold BState.put
      rw [hg2, ho2]
      exact fun _ h => h) (fun _ h => h)
  · rw [← hg2]; exact ht.known
  · intro c hc'
    obtain ⟨g', k1, k2⟩ := d2.mono _ (hc c hc')
    obtain rfl := Option.some.inj (ht.graph.symm.trans k1)
    exact k2
  · obtain ⟨g', k1, k2⟩ := hk
    obtain rfl := Option.some.inj (ht.graph.symm.trans k1)
    exact k2

variable {E : Env} {L : FloatLog} {o : TreeOptions} {nc : Nat} {input : Stream} {root : Packet}

theorem watched_plain (hout : W.hasOutput = true) {graph : Option ManifestGraph} {s : FState}
    (h : W.manifestTree E L o nc none (.stream input) graph = (.ok root, s)) :
    manifestTree E L o nc input = (.ok root, s.base.output) := by
  obtain ⟨_, h2⟩ := C110_same W hout E L o nc none (.stream input) graph
  obtain ⟨h3, h4⟩ := h2 root (by rw [h])
  rw [← C110_plain (Spec.unwatched W) rfl hout E L o nc input, h3, ← h4, h]

theorem manifestTree_draws (hout : W.hasOutput = true) {s : FState}
    (h : W.manifestTree E L o nc none (.stream input) (some {}) = (.ok root, s)) :
    ∃ R : FileRun E L o nc input root s.base.output, R.s0.graph = [] ∧
      ∃ g, s.graph = some g ∧ Pictured W R.env R.ps.length R.s1 R.topHash root g := by
  have hp := watched_plain hout h
  rw [manifestTree_watched] at h
  unfold manifestTree at hp
  simp only at h
  cases hctx : NameCtx.create o.schemaType nc o.name o.manifestPrefix o.dataPrefix o.manifestLocators o.dataLocators with
  | error e => rw [hctx] at h; cases h
  | ok ctx =>
    simp only [hctx, Watch.chunk, hout, if_true] at h hp
    rcases hch : ctx.data.chunkData E.prims.sha256 o.chunk input {} with ⟨_ | file, st⟩
    · rw [hch] at h; cases h
    · simp only [hch] at h hp
      unfold Watch.run at h
      obtain ⟨o1, o2, o3⟩ := optimalTree_run W E L o ctx file { base := { output := st.output }, graph := some {} }
      obtain ⟨k, hk⟩ := createOptimizedTree_frame E L o ctx file { output := st.output }
      rcases hopt : createOptimizedTree E L o ctx file { output := st.output } with ⟨_ | r, s0⟩
      · rw [hopt] at hp; cases hp
      · rcases hw : W.optimalTree E L o ctx file { base := { output := st.output }, graph := some {} } with ⟨x, s0'⟩
        rw [hw] at h o1 o2 o3
        rw [hopt] at o1 o2 o3 hk
        simp only at o1 o2 o3 hk
        subst o1
        simp only at h
        simp only [hopt] at hp
        rcases hb : buildRooted ⟨E, o, ctx, file.chunks, r.direct, r.indirect, r.height⟩ file.totalBytes s0 with ⟨_ | p, s3⟩
        · rw [hb] at hp; cases hp
        · simp only [hb] at hp
          obtain ⟨top, s1, hv, node, s2, b1, b2, b3, b4⟩ := buildRooted_inv hb
          obtain ⟨bs, ps, c1, c2, c3, c4⟩ := C38_chunks hch
          have hcount := chunkData_count hch
          obtain ⟨p1, p2, p3, p4⟩ := tree_pos hopt hcount
          have hst : st.output = ps := by rw [c4]; rfl
          have e1 : p = root := Except.ok.inj (Prod.mk.inj hp).1
          have e2 : s3.output = s.base.output := (Prod.mk.inj hp).2
          subst e1
          rw [hst] at hopt
          let R : FileRun E L o nc input p s.base.output := ⟨ctx, file, bs, ps, r, s0, top, s1, hv, node, s2, hctx, c1, c2, c3, hcount,
            ⟨s0, hopt⟩, by rw [hk, hst], p1, p2, p3, p4, b1, b2, b3, by rw [← e2]; exact b4, ⟨st, hch⟩, by rw [hch]; exact hst⟩
          have ht : Truthful W R.env R.ps.length none s0' {} := by
            refine ⟨o3, rfl, rfl, nofun, nofun, ?_, ?_⟩
            · rw [o2, hk]; exact fun x hx => by cases hx
            · rw [o2, hk]; exact congrArg List.length hst
          obtain ⟨top', s1', hv', g, t1, t2, t3, t4⟩ := buildRooted_draws hout ⟨_, ht⟩ h
          have e3 := t1
          rw [o2] at e3
          have e4 := (show buildTree R.env s0 = (.ok top, s1) from b1).symm.trans e3
          obtain ⟨e5, e6⟩ := Prod.mk.inj e4
          have e5 := Except.ok.inj e5
          subst e5 e6
          have e7 := Except.ok.inj ((show top.packet.hash R.env.env.prims.sha256 = .ok hv from b2).symm.trans t2)
          subst e7
          exact ⟨R, by show s0.graph = []; rw [hk], g, t3, t4⟩

/-- A packet of the run, by what is known about it. -/
theorem Pictured.told {out : List Packet} (R : FileRun E L o nc input root out) (hs0 : R.s0.graph = []) {g : ManifestGraph}
    (hg : Pictured W R.env R.ps.length R.s1 R.topHash root g) :
    ∃ ids level i kids, initialIds R.r.indirect R.r.height = .ok ids ∧
      (Forest.cons i kids .nil).Valid R.env 0 R.file.chunks.length level ∧ R.env.IdsFrom ids (kids.written ++ [i]) ∧
      (level : Int) ≤ R.r.height ∧ i.hash = R.topHash ∧
      out = R.ps ++ (kids.written ++ [i]).map (·.packet) ++ [root] ∧
      Closed (R.file.chunks.map (·.hash)) (kids.written ++ [i]) ∧
      (∀ j ∈ kids.written ++ [i], g.Knows j.hash) ∧
      ∀ e ∈ g.entries, (∃ c ∈ R.file.chunks, e.2 = ⟨true, c.hash, hashToName c.hash, []⟩) ∨
        (∃ j ∈ kids.written ++ [i], ∃ l, graphLabel W.R j.hash j.packet.body.name = .ok l ∧ e.2 = ⟨false, j.hash, l, Spec.pointers j.node⟩) ∨
        ∃ h l, root.hash E.prims.sha256 = .ok h ∧ graphLabel W.R h root.body.name = .ok l ∧ e.2 = ⟨false, h, l, [R.topHash]⟩ := by
  obtain ⟨ids, level, i, kids, h1, h2, h3, h4, h5, h6, h7, h8⟩ := buildTree_ok (T := R.env) R.direct R.indirect R.nonempty R.built
  have hgr : R.s1.graph = (kids.written ++ [i]).map (fun j => (j.hash, j.node)) := by
    rw [h3.wrote.2]
    simp [startState, hs0]
  have hout : R.s1.output = R.ps ++ (kids.written ++ [i]).map (·.packet) := by
    rw [h3.wrote.1]
    simp [startState, R.s0_out]
  have hput : R.s1.put R.ps.length = (kids.written ++ [i]).map (fun j => (j.packet, j.hash, j.node)) := by
    unfold BState.put
    rw [hout, hgr, List.drop_left, List.zip_map']
  refine ⟨ids, level, i, kids, h1, h2, h3.ids, h8, ?_, ?_, h4, ?_, ?_⟩
  · have hh := (h2.made i (by simp [Forest.written])).1
    have := R.hash
    rw [h7] at this
    exact Except.ok.inj (hh.symm.trans this)
  · exact R.out_eq.trans (by rw [hout])
  · intro j hj
    refine hg.known (j.hash, j.node) ?_
    rw [hgr]
    exact List.mem_map.2 ⟨j, hj, rfl⟩
  · obtain ⟨node, n1, n2, n3⟩ := hg.records
    intro e he
    rcases n3 e he with hc | ⟨p, nd, h, l, cs, r1, r2, r3, r4, r5 | r5⟩
    · exact .inl hc
    · rw [hput] at r5
      obtain ⟨j, hj, hje⟩ := List.mem_map.1 r5
      cases hje
      refine .inr (.inl ⟨j, hj, l, r2, ?_⟩)
      rw [r4]
      rw [C74_hash_values] at r3
      split at r3
      · cases r3
      · rw [← Except.ok.inj r3]
        rfl
    · cases r5
      refine .inr (.inr ⟨h, l, r1, r2, ?_⟩)
      rw [r4, ← n1]
      rw [hashValues_of_some n2] at r3
      rw [← Except.ok.inj r3, List.flatMap_def]
      rfl

/-! ## The property -/

/-- Specification: the record says what the packet is.  A data object: no pointers, named by its hash.  A manifest: the pointers that are
in its node, in their order, and labelled with its name. -/
def Spec.Told (P : Prims) (R : NameComponent → Text) (p : Packet) (r : EntryRecord) : Prop :=
  p.hash P.sha256 = .ok r.parent ∧
  ((p.body.payloadType = some PT_DATA ∧ r.isData = true ∧ r.parentName = hashToName r.parent ∧ r.children = []) ∨
   (p.body.payloadType = some PT_MANIFEST ∧ r.isData = false ∧ graphLabel R r.parent p.body.name = .ok r.parentName ∧
     ∃ node, Spec.NodeOf P p node ∧ r.children = Spec.pointers node))

theorem decrypt_nodeOf {T : TravEnv} {p : Packet} {m m' : Manifest} {t t' : TState} {node : Node}
    (hp : Manifest.fromContentObject p.body = .ok m) (h : T.decrypt m t = (.ok m', t')) (hn : m'.node = .plain node) :
    Spec.NodeOf T.prims p node := ⟨m, hp, (decrypt_reads h hn).2.2⟩

/-- The node of a manifest of the tree, as the bytes of its packet tell it. -/
theorem FileRun.nodeOf {out : List Packet} (R : FileRun E L o nc input root out) {ks : Option Keystore} (hk : Spec.HasKeys E o nc ks)
    (hL : o.schemaType = .segmented → L.NotHigh) {ids : List Int} {level : Nat} {i : Info} {kids : Forest}
    (hids : initialIds R.r.indirect R.r.height = .ok ids) (hv : (Forest.cons i kids .nil).Valid R.env 0 R.file.chunks.length level)
    (hf : R.env.IdsFrom ids (kids.written ++ [i])) {j : Info} (hj : j ∈ kids.written ++ [i]) :
    Spec.NodeOf E.prims j.packet j.node.toBytes ∧ j.packet.body.payloadType = some PT_MANIFEST := by
  obtain ⟨hb, hnum, _⟩ := R.fits
  obtain ⟨g1, g2⟩ := nameCtx_ids R.ctx_ok
  obtain ⟨hg, hn1, hn2⟩ := nameCtx_good R.ctx_ok
  have hnc := hk.counter
  have hjw : j ∈ (Forest.cons i kids .nil).written := by simpa [Forest.written] using hj
  have hfit := (forest_fits (T := R.env) hnum hb (by show R.ctx.manifest.ncId < _; omega) (by show R.ctx.data.ncId < _; omega) hv
    (fun hu k hkw => R.ids_fit (hL ((nameCtx_inv R.ctx_ok).2.2.mp hu)) hids hf k (by simpa [Forest.written] using hkw)) j hjw).1
  obtain ⟨_, name, s, s', _, hbd⟩ := hv.made j hjw
  obtain ⟨t, ht⟩ := R.cache hk
  obtain ⟨m, m', c, r1, r2, r3, _⟩ := read_manifest hk.aead hk.decrypt hfit hbd (T := ⟨E.prims, fun _ _ => .error .keyError, ks⟩) rfl rfl (t := t)
    ht
  refine ⟨decrypt_nodeOf r1 r2 (by rw [r3]), ?_⟩
  obtain ⟨_, _, w, _, _, _, hbody, _⟩ := buildFromNode_inv hbd
  rw [hbody]
  rfl

theorem FileRun.nodeOf_root {out : List Packet} (R : FileRun E L o nc input root out) {ks : Option Keystore} (hk : Spec.HasKeys E o nc ks) :
    ∃ node, Spec.NodeOf E.prims root node ∧ Spec.pointers node = [R.topHash] ∧ root.body.payloadType = some PT_MANIFEST := by
  obtain ⟨hv, c, node, m, H⟩ := R.root_read hk.aead hk.oaep hk.rsa hk.verify hk.decrypt hk.counter
  refine ⟨node, decrypt_nodeOf H.parse (H.decrypt fun _ _ => .error .keyError) rfl, ?_, H.type⟩
  show (node.hashGroups.map _).flatten = _
  rw [← List.flatMap_def, ← C28_iteration_hashes _ H.groups, H.values]
  rfl

/-- C111: the graph of a build that returns says of every packet that was published what it is, and says nothing else. -/
theorem C111_records (hout : W.hasOutput = true) {s : FState} {ks : Option Keystore} (hk : Spec.HasKeys E o nc ks)
    (hL : o.schemaType = .segmented → L.NotHigh)
    (h : W.manifestTree E L o nc none (.stream input) (some {}) = (.ok root, s)) :
    ∃ g, s.graph = some g ∧ (∀ e ∈ g.entries, e.1.value = e.2.parent.value ∧ ∃ p ∈ s.base.output, Spec.Told E.prims W.R p e.2) ∧
      ∀ p ∈ s.base.output, ∃ hv, p.hash E.prims.sha256 = .ok hv ∧ ∃ e ∈ g.entries, e.1.value = hv.value := by
  obtain ⟨R, hs0, g, hg, hp⟩ := manifestTree_draws hout h
  obtain ⟨ids, level, i, kids, h1, h2, h3, h4, h5, h6, h7, h8, h9⟩ := hp.told R hs0
  obtain ⟨c1, c2, c3⟩ := chunked_get R.chunked
  refine ⟨g, hg, fun e he => ⟨hp.keys e he, ?_⟩, ?_⟩
  · rcases h9 e he with ⟨c, hc, e1⟩ | ⟨j, hj, l, hl, e1⟩ | ⟨hv, l, hh, hl, e1⟩
    · obtain ⟨k, hk', rfl⟩ := List.getElem_of_mem hc
      obtain ⟨p, b, p1, p2, p3, p4, p5, p6, p7, _⟩ := c3 k _ (List.getElem?_eq_getElem hk')
      refine ⟨p, ?_, ?_⟩
      · rw [show s.base.output = _ from h6]
        simp [List.mem_of_getElem? p1]
      · rw [e1]
        exact ⟨p5, .inl ⟨p7, rfl, rfl, rfl⟩⟩
    · obtain ⟨n1, n2⟩ := R.nodeOf hk hL h1 h2 h3 hj
      refine ⟨j.packet, ?_, ?_⟩
      · rw [show s.base.output = _ from h6]
        exact List.mem_append_left _ (List.mem_append_right _ (List.mem_map.2 ⟨j, hj, rfl⟩))
      · rw [e1]
        exact ⟨(h2.made j (by simpa [Forest.written] using hj)).1, .inr ⟨n2, rfl, hl, _, n1, rfl⟩⟩
    · obtain ⟨node, n1, n2, n3⟩ := R.nodeOf_root hk
      refine ⟨root, ?_, ?_⟩
      · rw [show s.base.output = _ from h6]
        simp
      · rw [e1]
        exact ⟨hh, .inr ⟨n3, rfl, hl, _, n1, n2.symm⟩⟩
  · intro p hpo
    rw [show s.base.output = _ from h6] at hpo
    simp only [List.mem_append, List.mem_singleton, List.mem_map] at hpo
    rcases hpo with (hpo | ⟨j, hj, rfl⟩) | rfl
    · obtain ⟨k, hk', rfl⟩ := List.getElem_of_mem hpo
      have hk2 : k < R.file.chunks.length := by omega
      obtain ⟨p, b, p1, p2, p3, p4, p5, p6, p7, _⟩ := c3 k _ (List.getElem?_eq_getElem hk2)
      obtain ⟨_, p1⟩ := List.getElem?_eq_some_iff.mp p1
      rw [p1]
      exact ⟨_, p5, hp.chunks _ (List.getElem_mem hk2)⟩
    · have hj : j ∈ kids.written ++ [i] := by simpa using hj
      exact ⟨_, (h2.made j (by simpa [Forest.written] using hj)).1, h8 j hj⟩
    · exact hp.root

theorem createGraph_colors {g : ManifestGraph}
    (h : ∀ e ∈ g.entries, ∀ c ∈ e.2.children, ∃ e' ∈ g.entries, e'.2.parent.value = c.value) : ∃ cs, g.createGraph.colors = .ok cs := by
  refine (colors_ok _).2 fun a ha => ?_
  have hnd : g.createGraph.names.Nodup := foldl_addEntry_nodup _ (by simp [DiGraph.names])
  have ha' := (DiGraph.attr_mem hnd a none).1 ha
  have hsome : (g.createGraph.attr a).isSome = true := by rw [ha']; rfl
  unfold ManifestGraph.createGraph at ha' hsome
  have hno := ((foldl_addEntry_attr (g.entries.map (·.2)) {} a).2 ha').1
  rcases (foldl_addEntry_isSome (g.entries.map (·.2)) {} a).1 hsome with h1 | ⟨e, he, h1 | ⟨c, hc, h1⟩⟩
  · cases h1
  · exact hno e he h1
  · obtain ⟨x, hx, rfl⟩ := List.mem_map.1 he
    obtain ⟨e', he', h2⟩ := h x hx c hc
    refine hno e'.2 (List.mem_map.2 ⟨e', he', rfl⟩) ?_
    rw [← h1, hashToName_inj, h2]

/-- Every pointer in a record is the hash of a record. -/
theorem Pictured.closed {out : List Packet} (R : FileRun E L o nc input root out) (hs0 : R.s0.graph = []) {g : ManifestGraph}
    (hp : Pictured W R.env R.ps.length R.s1 R.topHash root g) :
    ∀ e ∈ g.entries, ∀ c ∈ e.2.children, ∃ e' ∈ g.entries, e'.2.parent.value = c.value := by
  obtain ⟨ids, level, i, kids, h1, h2, h3, h4, h5, h6, h7, h8, h9⟩ := hp.told R hs0
  have hkey : ∀ {x}, g.Knows x → ∃ e' ∈ g.entries, e'.2.parent.value = x.value := fun ⟨e', he', hv⟩ => ⟨e', he', by rw [← hp.keys e' he', hv]⟩
  have hcl : ∀ (l : List Info) (known : List HashValue), Closed known l → (∀ x ∈ known, g.Knows x) → (∀ j ∈ l, g.Knows j.hash) →
      ∀ j ∈ l, ∀ c ∈ Spec.pointers j.node, g.Knows c := by
    intro l
    induction l with
    | nil => intro _ _ _ _ j hj; cases hj
    | cons a l ih =>
      intro known hc hk hl j hj
      rcases List.mem_cons.1 hj with rfl | hj
      · intro c hcm
        refine hk c (hc.1 c ?_)
        rw [Node.pointerList, List.flatMap_def]
        exact hcm
      · refine ih _ hc.2 ?_ (fun j hj => hl j (List.mem_cons_of_mem _ hj)) j hj
        intro x hx
        rcases List.mem_append.1 hx with hx | hx
        · exact hk x hx
        · rw [List.mem_singleton] at hx
          subst hx
          exact hl a (List.mem_cons_self ..)
  have hall := hcl _ _ h7 (fun x hx => by obtain ⟨c, hc, rfl⟩ := List.mem_map.1 hx; exact hp.chunks c hc) h8
  intro e he c hc
  rcases h9 e he with ⟨c', hc', e1⟩ | ⟨j, hj, l, hl, e1⟩ | ⟨hv, l, hh, hl, e1⟩
  · rw [e1] at hc; cases hc
  · rw [e1] at hc
    exact hkey (hall j hj c hc)
  · rw [e1] at hc
    obtain rfl := List.mem_singleton.1 hc
    rw [← h5]
    exact hkey (h8 i (by simp))

/-- C111: the graph of a build that returns can be drawn and plotted: every node has its colour (compare C74_plot: a pointer to an object
that was not recorded makes `plot` raise KeyError).  No key is needed for it. -/
theorem C111_plot (hout : W.hasOutput = true) {s : FState}
    (h : W.manifestTree E L o nc none (.stream input) (some {}) = (.ok root, s)) :
    ∃ g d cs, s.graph = some g ∧ (ManifestGraph.draw g).1 = .ok d ∧ d.colors = .ok cs := by
  obtain ⟨R, hs0, g, hg, hp⟩ := manifestTree_draws hout h
  obtain ⟨cs, hcs⟩ := createGraph_colors (hp.closed R hs0)
  refine ⟨g, _, cs, hg, ?_, hcs⟩
  unfold ManifestGraph.draw
  rw [hp.fresh]

theorem Packet.hash_value {sha : Bytes → Bytes} {p q : Packet} {x y : HashValue} (hp : p.hash sha = .ok x) (hq : q.hash sha = .ok y)
    (h : x.value = y.value) : x = y := by
  have h1 := Packet.hash_alg hp
  have h2 := Packet.hash_alg hq
  cases x
  cases y
  simp_all

/-- What an encrypted manifest holds was sealed. -/
theorem sealed_made {E : Env} {o : TreeOptions} (he : Spec.ProperEncryptor E.prims o.encryptor) (henc : o.encryptor ≠ none)
    {node : Node} {name : Option Name} {x : Option F64}
    {sg : Option Signer} {full : Bool} {s s' : BState} {p : Packet} (h : buildFromNode E o node name x sg full s = (.ok p, s')) :
    ∃ ctx c t, Manifest.fromContentObject p.body = .ok ⟨some ctx, .encrypted c, some t⟩ ∧
      ∃ alg key iv pt aad, E.prims.aeadSeal alg key iv pt aad = .ok (c ++ t) := by
  obtain ⟨m0, s1, w, hm, hw, _, hbody, _, _⟩ := buildFromNode_inv h
  have hread : ∀ m1, Manifest.deserialize w = .ok m1 → Manifest.fromContentObject p.body = .ok m1 := by
    intro m1 h1
    rw [hbody]
    exact h1
  unfold buildManifest at hm
  cases ho : o.encryptor with
  | none => exact absurd ho henc
  | some enc =>
    rw [ho] at he
    cases enc with
    | aead q0 =>
      simp only [ho] at hm
      rw [PyS.bind_run] at hm
      simp only [PyS.get_run] at hm
      rw [PyS.bind_run] at hm
      simp only [PyS.modify_run] at hm
      obtain ⟨hm, _⟩ := PyS.lift_ok hm
      obtain ⟨sl, hsl, hm⟩ := bind_eq_ok.mp hm
      obtain ⟨d, hdd, henc⟩ := aeadEncrypt_ok hsl
      obtain ⟨_, _, _, _, _, _, hctx, hseal, _⟩ := encryptWithCtx_ok henc
      obtain ⟨rfl, _⟩ := Sealed.manifest_ok hm
      rw [hctx] at hw
      exact ⟨_, _, _, hread _ (manifest_RT (m := ⟨some (.aead d), .encrypted sl.ciphertext, some sl.authTag⟩)
        ⟨by rintro c ⟨⟩; exact AeadParams.aeadData_fits he.1 hdd, trivial⟩ hw), _, _, _, _, _, hseal⟩
    | oaep q0 wr =>
      obtain ⟨hfit, hsalt, rsa, seed, hwr⟩ := he
      obtain ⟨c0, hc0, rfl⟩ := oaepWrapper_ok hwr
      simp only [ho] at hm
      rw [PyS.bind_run] at hm
      simp only [PyS.get_run] at hm
      rw [PyS.bind_run] at hm
      simp only [PyS.modify_run] at hm
      obtain ⟨hm, _⟩ := PyS.lift_ok hm
      obtain ⟨sl, hsl, hm⟩ := bind_eq_ok.mp hm
      obtain ⟨d, hdd, henc⟩ := oaepEncrypt_ok hsl
      obtain ⟨_, _, _, _, _, _, hctx, hseal, _⟩ := encryptWithCtx_ok henc
      obtain ⟨rfl, _⟩ := Sealed.manifest_ok hm
      cases full with
      | true =>
        simp only [if_true] at hctx
        rw [hctx] at hw
        exact ⟨_, _, _, hread _ (manifest_RT (m := ⟨some (.rsaOaep d (some _)), .encrypted sl.ciphertext, some sl.authTag⟩)
          ⟨by rintro c ⟨⟩; exact ⟨AeadParams.aeadData_fits hfit hdd, by rintro y ⟨⟩; rintro a ⟨⟩; decide⟩, trivial⟩ hw), _, _, _, _, _, hseal⟩
      | false =>
        simp only [Bool.false_eq_true, if_false] at hctx
        rw [hctx] at hw
        exact ⟨_, _, _, hread _ (manifest_RT (m := ⟨some (.rsaOaep d none), .encrypted sl.ciphertext, some sl.authTag⟩)
          ⟨by rintro c ⟨⟩; exact ⟨AeadParams.aeadData_fits hfit hdd, by rintro y ⟨⟩⟩, trivial⟩ hw), _, _, _, _, _, hseal⟩

/-- With ideal cryptography the bytes of a manifest tell one node at most. -/
theorem node_unique {E : Env} {o : TreeOptions} {ks : Option Keystore} (hd : Spec.CanDecrypt E.prims ks o.encryptor)
    (he : Spec.ProperEncryptor E.prims o.encryptor) (hB : o.encryptor = none ∨ Spec.Binding E.prims)
    {node : Node} (hfit : node.Fits64) {name : Option Name} {x : Option F64} {sg : Option Signer} {full : Bool} {s s' : BState} {p : Packet}
    (h : buildFromNode E o node name x sg full s = (.ok p, s')) {n n' : Node} (hn : Spec.NodeOf E.prims p n)
    (hn' : Spec.NodeOf E.prims p n') : n = n' := by
  obtain ⟨m, hm, hc⟩ := hn
  obtain ⟨m', hm', hc'⟩ := hn'
  obtain rfl := Except.ok.inj (hm.symm.trans hm')
  rcases hc with hc | ⟨ctx, c, t, q, rfl, hc⟩
  · rcases hc' with hc' | ⟨ctx, c, t, q, rfl, hc'⟩
    · exact ManifestNode.plain.inj (hc.symm.trans hc')
    · cases hc
  · rcases hc' with hc' | ⟨ctx', c', t', q', e, hc'⟩
    · cases hc'
    · cases e
      rcases hB with hB | hB
      · have := read_sealed hd hfit h hm
        rw [hB] at this
        cases this
      · by_cases ho : o.encryptor = none
        · have := read_sealed hd hfit h hm
          rw [ho] at this
          cases this
        · obtain ⟨ctx', c', t', hm2, alg, key, iv, pt, aad, hseal⟩ := sealed_made he ho h
          cases Except.ok.inj (hm.symm.trans hm2)
          obtain ⟨k1, a1, p1, _, w1, _, o1, r1⟩ := decryptNode_inv hc
          obtain ⟨k2, a2, p2, _, w2, _, o2, r2⟩ := decryptNode_inv hc'
          obtain ⟨x1, x2, x3⟩ := hB.aead hseal o1
          obtain ⟨y1, y2, y3⟩ := hB.aead hseal o2
          obtain rfl := Except.ok.inj (w1.symm.trans w2)
          rw [x1, x2, x3] at o1
          rw [y1, y2, y3] at o2
          obtain rfl := Except.ok.inj (o1.symm.trans o2)
          exact Except.ok.inj (r1.symm.trans r2)

/-- Every manifest of a build, as it was made. -/
theorem FileRun.made {out : List Packet} (R : FileRun E L o nc input root out) {ks : Option Keystore} (hk : Spec.HasKeys E o nc ks)
    (hL : o.schemaType = .segmented → L.NotHigh) {p : Packet} (hp : p ∈ out) (hm : p.body.payloadType = some PT_MANIFEST) :
    ∃ n name x sg full s s', buildFromNode E o n name x sg full s = (.ok p, s') ∧ n.Fits64 := by
  obtain ⟨ids, level, i, kids, h1, h2, h3, h4, h5, h6, h7, hout⟩ := R.forest
  obtain ⟨hb, hnum, _⟩ := R.fits
  obtain ⟨g1, g2⟩ := nameCtx_ids R.ctx_ok
  obtain ⟨hg, hn1, hn2⟩ := nameCtx_good R.ctx_ok
  have hnc := hk.counter
  have hpo := hp
  rw [hout] at hpo
  simp only [List.mem_append, List.mem_singleton, List.mem_map] at hpo
  rcases hpo with (hpo | ⟨j, hj, rfl⟩) | rfl
  · exfalso
    obtain ⟨c1, c2, c3⟩ := chunked_get R.chunked
    obtain ⟨k, hk', rfl⟩ := List.getElem_of_mem hpo
    obtain ⟨q, b, p1, p2, p3, p4, p5, p6, p7, _⟩ := c3 k _ (List.getElem?_eq_getElem (by omega))
    obtain ⟨_, p1⟩ := List.getElem?_eq_some_iff.mp p1
    rw [p1, p7] at hm
    cases hm
  · have hj : j ∈ kids.written ++ [i] := by simpa using hj
    have hjw : j ∈ (Forest.cons i kids .nil).written := by simpa [Forest.written] using hj
    have hfit := (forest_fits (T := R.env) hnum hb (by show R.ctx.manifest.ncId < _; omega) (by show R.ctx.data.ncId < _; omega) h2
      (fun hu k hkw => R.ids_fit (hL ((nameCtx_inv R.ctx_ok).2.2.mp hu)) h1 h3 k (by simpa [Forest.written] using hkw)) j hjw).1
    obtain ⟨_, name, s, s', _, hbd⟩ := h2.made j hjw
    exact ⟨_, _, _, _, _, _, _, hbd, hfit⟩
  · obtain ⟨n, name, x, sg, s, s', hbd, hfit, _⟩ := R.opens_root hk
    exact ⟨_, _, _, _, _, _, _, hbd, hfit⟩

theorem FileRun.one_node {out : List Packet} (R : FileRun E L o nc input root out) {ks : Option Keystore} (hk : Spec.HasKeys E o nc ks)
    (hL : o.schemaType = .segmented → L.NotHigh) (he : Spec.ProperEncryptor E.prims o.encryptor)
    (hB : o.encryptor = none ∨ Spec.Binding E.prims) : ∀ p ∈ out, ∀ n n', Spec.NodeOf E.prims p n → Spec.NodeOf E.prims p n' → n = n' := by
  intro p hp n n' hn hn'
  have hm : p.body.payloadType = some PT_MANIFEST := by
    obtain ⟨m, hm, _⟩ := hn
    unfold Manifest.fromContentObject at hm
    split at hm
    · cases hm
    · rename_i ty hty
      split at hm
      · cases hm
      · rename_i hne
        rw [hty, Decidable.not_not.mp hne]
  obtain ⟨_, _, _, _, _, _, _, hbd, hfit⟩ := R.made hk hL hp hm
  exact node_unique hk.decrypt he hB hfit hbd hn hn'

/-- C111: the edges of the picture are the pointers in the manifests that were published, and its nodes the packets that were published,
each by the name made of its hash; if the packets have different hashes, and for an encrypted file only one key opens a manifest. -/
theorem C111_edges (hout : W.hasOutput = true) {s : FState} {ks : Option Keystore} (hk : Spec.HasKeys E o nc ks)
    (hL : o.schemaType = .segmented → L.NotHigh)
    (h : W.manifestTree E L o nc none (.stream input) (some {}) = (.ok root, s)) (hc : Spec.NoCollision E.prims s.base.output)
    (he : Spec.ProperEncryptor E.prims o.encryptor) (hB : o.encryptor = none ∨ Spec.Binding E.prims) :
    ∃ g d, s.graph = some g ∧ (ManifestGraph.draw g).1 = .ok d ∧
      (∀ a b, (a, b) ∈ d.edges ↔ ∃ p ∈ s.base.output, ∃ hv node, p.hash E.prims.sha256 = .ok hv ∧
        p.body.payloadType = some PT_MANIFEST ∧ Spec.NodeOf E.prims p node ∧ a = hashToName hv ∧ ∃ c ∈ Spec.pointers node, b = hashToName c) ∧
      ∀ a, a ∈ d.names ↔ ∃ p ∈ s.base.output, ∃ hv, p.hash E.prims.sha256 = .ok hv ∧ a = hashToName hv := by
  obtain ⟨R, hs0, g, hg, hp⟩ := manifestTree_draws hout h
  obtain ⟨g', hg', hrec, hall⟩ := C111_records hout hk hL h
  obtain rfl := Option.some.inj (hg.symm.trans hg')
  have hcl := hp.closed R hs0
  have hu := R.one_node hk hL he hB
  refine ⟨g, g.createGraph, hg, by unfold ManifestGraph.draw; rw [hp.fresh], ?_, ?_⟩
  · intro a b
    refine (foldl_addEntry_edges (g.entries.map (·.2)) {} (a, b)).trans ?_
    constructor
    · rintro (h1 | ⟨e, he, c, hcm, h1⟩)
      · cases h1
      · obtain ⟨x, hx, rfl⟩ := List.mem_map.1 he
        obtain ⟨_, p, hpo, hh, ⟨_, _, _, h2⟩ | ⟨ht, _, _, node, hn, h2⟩⟩ := hrec x hx
        · rw [h2] at hcm; cases hcm
        · cases h1
          exact ⟨p, hpo, _, node, hh, ht, hn, rfl, c, h2 ▸ hcm, rfl⟩
    · rintro ⟨p, hpo, hv, node, hh, ht, hn, rfl, c, hcm, rfl⟩
      obtain ⟨hv', hh', e, he, hev⟩ := hall p hpo
      obtain rfl := Except.ok.inj (hh.symm.trans hh')
      obtain ⟨hkey, q, hq, hqh, hcase⟩ := hrec e he
      have hx : e.2.parent = hv := Packet.hash_value hqh hh (hkey.symm.trans hev)
      have hpq : q = p := hc q hq p hpo _ hqh (hx ▸ hh)
      subst hpq
      rcases hcase with ⟨h2, _⟩ | ⟨_, _, _, node', hn', h2⟩
      · rw [h2] at ht; cases ht
      · obtain rfl := hu q hq _ _ hn hn'
        exact .inr ⟨e.2, List.mem_map.2 ⟨e, he, rfl⟩, c, h2 ▸ hcm, by rw [hx]⟩
  · intro a
    rw [← DiGraph.any_names, ← DiGraph.attr_isSome]
    refine (foldl_addEntry_isSome (g.entries.map (·.2)) {} a).trans ?_
    have key : (∃ e ∈ g.entries, hashToName e.2.parent = a) ↔ ∃ p ∈ s.base.output, ∃ hv, p.hash E.prims.sha256 = .ok hv ∧ a = hashToName hv := by
      constructor
      · rintro ⟨e, he, rfl⟩
        obtain ⟨_, p, hpo, hh, _⟩ := hrec e he
        exact ⟨p, hpo, _, hh, rfl⟩
      · rintro ⟨p, hpo, hv, hh, rfl⟩
        obtain ⟨hv', hh', e, he, hev⟩ := hall p hpo
        obtain rfl := Except.ok.inj (hh.symm.trans hh')
        refine ⟨e, he, ?_⟩
        rw [hashToName_inj, ← hp.keys e he, hev]
    rw [← key]
    constructor
    · rintro (h1 | ⟨e, he, h1 | ⟨c, hcm, h1⟩⟩)
      · cases h1
      · obtain ⟨x, hx, rfl⟩ := List.mem_map.1 he
        exact ⟨x, hx, h1⟩
      · obtain ⟨x, hx, rfl⟩ := List.mem_map.1 he
        obtain ⟨e', he', h2⟩ := hcl x hx c hcm
        exact ⟨e', he', by rw [← h1, hashToName_inj, h2]⟩
    · rintro ⟨e, he, h1⟩
      exact .inr ⟨e.2, List.mem_map.2 ⟨e, he, rfl⟩, .inl h1⟩

/-! ### The picture of the reader -/

/-- What a record has to say for the edges of the picture. -/
def RecordFor (P : Prims) (p : Packet) (r : EntryRecord) : Prop :=
  p.hash P.sha256 = .ok r.parent ∧
  ((p.body.payloadType = some PT_DATA ∧ r.children = []) ∨
   (p.body.payloadType = some PT_MANIFEST ∧ ∃ node, Spec.NodeOf P p node ∧ r.children = Spec.pointers node))

theorem picture_edges {P : Prims} {out : List Packet} (hc : Spec.NoCollision P out)
    (hu : ∀ p ∈ out, ∀ n n', Spec.NodeOf P p n → Spec.NodeOf P p n' → n = n') {S : EntryRecord → Prop}
    (hrec : ∀ e, S e → ∃ p ∈ out, RecordFor P p e) (hall : ∀ p ∈ out, ∃ hv, p.hash P.sha256 = .ok hv ∧ ∃ e, S e ∧ e.parent.value = hv.value)
    (a b : Text) :
    (∃ e, S e ∧ a = hashToName e.parent ∧ ∃ c ∈ e.children, b = hashToName c) ↔
      ∃ p ∈ out, ∃ hv node, p.hash P.sha256 = .ok hv ∧
        p.body.payloadType = some PT_MANIFEST ∧ Spec.NodeOf P p node ∧ a = hashToName hv ∧ ∃ c ∈ Spec.pointers node, b = hashToName c := by
  constructor
  · rintro ⟨e, he, rfl, c, hcm, rfl⟩
    obtain ⟨p, hpo, hh, ⟨_, h2⟩ | ⟨ht, node, hn, h2⟩⟩ := hrec e he
    · rw [h2] at hcm; cases hcm
    · exact ⟨p, hpo, _, node, hh, ht, hn, rfl, c, h2 ▸ hcm, rfl⟩
  · rintro ⟨p, hpo, hv, node, hh, ht, hn, rfl, c, hcm, rfl⟩
    obtain ⟨hv', hh', e, he, hev⟩ := hall p hpo
    obtain rfl := Except.ok.inj (hh.symm.trans hh')
    obtain ⟨q, hq, hqh, hcase⟩ := hrec e he
    have hx : e.parent = hv := Packet.hash_value hqh hh hev
    have hpq : q = p := hc q hq p hpo _ hqh (hx ▸ hh)
    subst hpq
    rcases hcase with ⟨h2, _⟩ | ⟨_, node', hn', h2⟩
    · rw [h2] at ht; cases ht
    · obtain rfl := hu q hq _ _ hn hn'
      exact ⟨e, he, by rw [hx], c, h2 ▸ hcm, rfl⟩

theorem picture_names {P : Prims} {out : List Packet} {S : EntryRecord → Prop}
    (hrec : ∀ e, S e → ∃ p ∈ out, RecordFor P p e) (hall : ∀ p ∈ out, ∃ hv, p.hash P.sha256 = .ok hv ∧ ∃ e, S e ∧ e.parent.value = hv.value)
    (hcl : ∀ e, S e → ∀ c ∈ e.children, ∃ e', S e' ∧ e'.parent.value = c.value) (a : Text) :
    (∃ e, S e ∧ (a = hashToName e.parent ∨ ∃ c ∈ e.children, a = hashToName c)) ↔
      ∃ p ∈ out, ∃ hv, p.hash P.sha256 = .ok hv ∧ a = hashToName hv := by
  have key : ∀ e, S e → ∃ p ∈ out, ∃ hv, p.hash P.sha256 = .ok hv ∧ hashToName e.parent = hashToName hv := fun e he => by
    obtain ⟨p, hp, hh, _⟩ := hrec e he
    exact ⟨p, hp, _, hh, rfl⟩
  constructor
  · rintro ⟨e, he, rfl | ⟨c, hc, rfl⟩⟩
    · exact key e he
    · obtain ⟨e', he', h⟩ := hcl e he c hc
      obtain ⟨p, hp, hv, hh, h2⟩ := key e' he'
      refine ⟨p, hp, hv, hh, ?_⟩
      rw [← h2, hashToName_inj, h]
  · rintro ⟨p, hp, hv, hh, rfl⟩
    obtain ⟨hv', hh', e, he, hev⟩ := hall p hp
    obtain rfl := Except.ok.inj (hh.symm.trans hh')
    exact ⟨e, he, .inl (by rw [hashToName_inj, hev])⟩

theorem asks_one {scope : List NcDef} {v : HashIteratorValue} {r r' : Spec.Request} (h : Spec.Asks scope v r) (h' : Spec.Asks scope v r') :
    r = r' := by
  obtain ⟨h1, d, i, h2, h3, h4⟩ := h
  obtain ⟨h1', d', i', h2', h3', h4'⟩ := h'
  obtain rfl := Option.some.inj (h2.symm.trans h2')
  obtain rfl := Except.ok.inj (h3.symm.trans h3')
  exact Prod.ext (Except.ok.inj (h4.symm.trans h4')) (h1.trans h1'.symm)

theorem asks_same {scope : List NcDef} {l : List HashIteratorValue} {rs rs' : List Spec.Request} (h : List.Forall₂ (Spec.Asks scope) l rs)
    (h' : List.Forall₂ (Spec.Asks scope) l rs') : rs = rs' := by
  induction h generalizing rs' with
  | nil => cases h'; rfl
  | cons h _ ih =>
    cases h' with
    | cons h1 h2 => rw [asks_one h h1, ih h2]

/-- What is visited is determined, if the bytes determine the node. -/
theorem leads_same {T : TravEnv} {op op' : Packet → Node → Prop}
    (hop : ∀ p n n', (∃ name h, T.reader name h = .ok p) → op p n → op' p n' → n = n') {scope : List NcDef} {rs : List Spec.Request}
    {v v' : Spec.Visited} (h : Spec.Leads T op scope rs v) (h' : Spec.Leads T op' scope rs v') : v = v' := by
  induction h generalizing v' with
  | nil => cases h'; rfl
  | data got valid type payload after ih =>
    cases h' with
    | data got' valid' type' payload' after' =>
      obtain rfl := Except.ok.inj (got.symm.trans got')
      obtain rfl := Option.some.inj (payload.symm.trans payload')
      rw [ih after']
    | manifest got' valid' type' read' asks' below' after' =>
      obtain rfl := Except.ok.inj (got.symm.trans got')
      rw [type] at type'
      cases type'
  | manifest got valid type read asks below after ih1 ih2 =>
    cases h' with
    | data got' valid' type' payload' after' =>
      obtain rfl := Except.ok.inj (got.symm.trans got')
      rw [type] at type'
      cases type'
    | manifest got' valid' type' read' asks' below' after' =>
      obtain rfl := Except.ok.inj (got.symm.trans got')
      obtain rfl := hop _ _ _ ⟨_, _, got⟩ read read'
      obtain rfl := asks_same asks asks'
      rw [ih1 below', ih2 after']

theorem leads_mono {T : TravEnv} {op op' : Packet → Node → Prop} (hop : ∀ p n, op p n → op' p n) {scope : List NcDef} {rs : List Spec.Request}
    {v : Spec.Visited} (h : Spec.Leads T op scope rs v) : Spec.Leads T op' scope rs v := by
  induction h with
  | nil => exact .nil
  | data h1 h2 h3 h4 _ ih => exact .data h1 h2 h3 h4 ih
  | manifest h1 h2 h3 h4 h5 _ _ ih1 ih2 => exact .manifest h1 h2 h3 (hop _ _ h4) h5 ih1 ih2

/-- The records of a visit are about packets that the reader gave, and there is one about each packet visited. -/
theorem drawn_records {T : TravEnv} {R : NameComponent → Text} {scope : List NcDef} {rs : List Spec.Request} {v : Spec.Visited}
    (hL : Spec.Leads T (Spec.Read T.prims) scope rs v) : ∀ {log : List EntryRecord}, Spec.Drawn T.prims.sha256 R v log →
      (∀ e ∈ log, ∃ p, (∃ name h, T.reader name h = .ok p) ∧ RecordFor T.prims p e) ∧
      ∀ p ∈ v.datas ++ v.manifests, ∃ hv, p.hash T.prims.sha256 = .ok hv ∧ ∃ e ∈ log, e.parent = hv := by
  induction hL with
  | nil => intro log h; cases h; exact ⟨nofun, nofun⟩
  | @data scope r rs p b rest got valid type payload after ih =>
    rintro log ⟨h, l, lg, e1, e2, e3, rfl⟩
    obtain ⟨h1, h2⟩ := ih e3
    refine ⟨fun e he => ?_, fun q hq => ?_⟩
    · rcases List.mem_cons.1 he with rfl | he
      · exact ⟨p, ⟨_, _, got⟩, e1, .inl ⟨type, rfl⟩⟩
      · exact h1 e he
    · simp only [Spec.Visited.datas, Spec.Visited.manifests, List.cons_append] at hq
      rcases List.mem_cons.1 hq with rfl | hq
      · exact ⟨h, e1, _, List.mem_cons_self .., rfl⟩
      · obtain ⟨hv, hh, e, he, hev⟩ := h2 q hq
        exact ⟨hv, hh, e, List.mem_cons_of_mem _ he, hev⟩
  | @manifest scope r rs krs p node kids rest got valid type read asks below after ih1 ih2 =>
    rintro log ⟨h, l, ks, lg, e1, e2, e3, e4, rfl⟩
    obtain ⟨h1, h2⟩ := ih1 e3
    obtain ⟨h3, h4⟩ := ih2 e4
    refine ⟨fun e he => ?_, fun q hq => ?_⟩
    · rcases List.mem_cons.1 he with rfl | he
      · exact ⟨p, ⟨_, _, got⟩, e1, .inr ⟨type, node, read.1, by rw [List.flatMap_def]; rfl⟩⟩
      · rcases List.mem_append.1 he with he | he
        · exact h1 e he
        · exact h3 e he
    · have hq' : q = p ∨ q ∈ kids.datas ++ kids.manifests ∨ q ∈ rest.datas ++ rest.manifests := by
        simp only [Spec.Visited.datas, Spec.Visited.manifests, List.mem_append, List.mem_cons] at hq ⊢
        grind
      rcases hq' with rfl | hq | hq
      · exact ⟨h, e1, _, List.mem_cons_self .., rfl⟩
      · obtain ⟨hv, hh, e, he, hev⟩ := h2 q hq
        exact ⟨hv, hh, e, by simp [he], hev⟩
      · obtain ⟨hv, hh, e, he, hev⟩ := h4 q hq
        exact ⟨hv, hh, e, by simp [he], hev⟩

/-- The whole visit of a published file: every packet. -/
theorem FileRun.visit {out : List Packet} (R : FileRun E L o nc input root out) {store : MemoryStore} {ks : Option Keystore}
    (hty : o.schemaType ≠ .segmented) (hr : Spec.CanRead E o nc out store ks) :
    ∃ hv v, root.hash E.prims.sha256 = .ok hv ∧
      Spec.Leads ⟨E.prims, store.reader E.prims, ks⟩ (Spec.NodeOf E.prims) [] [(o.name, some hv)] v ∧
      ∀ p ∈ out, p ∈ v.datas ++ v.manifests := by
  obtain ⟨ids, level, i, kids, h1, h2, h3, h4, h5, h6, h7, hout⟩ := R.forest
  have hu : R.ctx.manifest.usesNameId ≠ true := fun hu => hty ((nameCtx_inv R.ctx_ok).2.2.mp hu)
  have hserves := hr.store.serves hr.distinct
  obtain ⟨v, v1, v2, v3, v4, v5, v6, _⟩ := R.leads (ks := ks) hr.names hr.counter (R.servedBy hserves ks) h2 h3 h6 hout (fun h => absurd h hu)
  obtain ⟨hv, c, node, m, H⟩ := R.root_read hr.aead hr.oaep hr.rsa hr.verify hr.decrypt hr.counter
  obtain ⟨hgood, _, _⟩ := nameCtx_good R.ctx_ok
  have hv1 : Spec.Leads ⟨E.prims, store.reader E.prims, ks⟩ (Spec.NodeOf E.prims) R.ctx.readDefs [R.ctx.manifest.request i.pair] v := by
    obtain ⟨t, ht⟩ := R.cache hr.toHasKeys
    refine leads_mono ?_ v1
    rintro p n ⟨n0, name, x, s0, s1, hb, hn, rfl, _⟩
    obtain ⟨m, m', c, r1, r2, r3, _⟩ := read_manifest hr.aead hr.decrypt hn hb (T := ⟨E.prims, fun _ _ => .error .keyError, ks⟩) rfl rfl (t := t) ht
    exact decrypt_nodeOf r1 r2 (by rw [r3])
  obtain ⟨_, name, _, _, hname, _⟩ := h2.made i (by simp [Forest.written])
  have hname : R.ctx.manifest.getName (some (i.id : Int)) = .ok name := hname
  refine ⟨hv, .manifest root node v .nil, H.hash, .manifest (R.root_served (R.servedBy hserves ks) hv H.hash) H.valid H.type
    (decrypt_nodeOf H.parse (H.decrypt fun _ _ => .error .keyError) rfl) (krs := [R.ctx.manifest.request i.pair]) ?_ ?_ .nil, ?_⟩
  · rw [List.nil_append, H.defs, H.values, request_name (x := i.pair) hname]
    have : R.ctx.manifest.usesNameId = false := by simpa using hu
    rw [this, ← h7]
    refine .cons (asks_of hgood.manifest hgood.lookup_manifest (nameCtx_plain hr.names R.ctx_ok).1 ?_) .nil
    rw [getName_any this _ (some (i.id : Int))]
    exact hname
  · rw [List.nil_append, H.defs]
    exact hv1
  · intro p hp
    rw [hout] at hp
    simp only [Spec.Visited.datas, Spec.Visited.manifests, List.append_nil, List.mem_append, List.mem_cons]
    rw [List.mem_append, List.mem_append, List.mem_singleton] at hp
    rcases hp with (hp | hp) | hp
    · left
      obtain ⟨c1, c2, c3⟩ := chunked_get R.chunked
      have hl := v6.length_eq
      obtain ⟨j, hj, rfl⟩ := List.getElem_of_mem hp
      obtain ⟨q, b, p1, p2, p3, p4, p5, p6, p7, p8, p9⟩ := c3 j _ (List.getElem?_eq_getElem (by omega))
      obtain ⟨_, p1⟩ := List.getElem?_eq_some_iff.mp p1
      obtain ⟨name, hn, hq⟩ := v6.get (i := j) (by omega) (by omega)
      have hn : R.ctx.data.getName (some (R.file.chunks[j].chunkNumber : Int)) = .ok name := hn
      rw [p3] at hn
      obtain rfl := Except.ok.inj (hn.symm.trans p9)
      have hq : store.reader E.prims q.body.name (some R.file.chunks[j].hash) = .ok v.datas[j] := hq
      have hs := hserves.get q (by rw [hout]; simp [← p1]) _ p5
      rw [p1, ← Except.ok.inj (hq.symm.trans hs)]
      exact List.getElem_mem _
    · exact .inr (.inr (v5.mem_iff.2 hp))
    · exact .inr (.inl hp)

/-- C111: the picture that a build draws of a file, and the picture that a reader draws of the file it retrieves, have the same nodes and
the same edges. -/
theorem C111_same_picture (hout : W.hasOutput = true) {s : FState} {store : MemoryStore} {ks : Option Keystore}
    (hty : o.schemaType ≠ .segmented) (h : W.manifestTree E L o nc none (.stream input) (some {}) = (.ok root, s))
    (hr : Spec.CanRead E o nc s.base.output store ks) (he : Spec.ProperEncryptor E.prims o.encryptor)
    (hB : o.encryptor = none ∨ Spec.Binding E.prims) (R : NameComponent → Text) (hl : ∀ p ∈ s.base.output, Spec.Labelled p.body.name) :
    ∃ g d hv t d', s.graph = some g ∧ (ManifestGraph.draw g).1 = .ok d ∧ root.hash E.prims.sha256 = .ok hv ∧
      FullEnv.traverse ⟨⟨E.prims, store.reader E.prims, ks⟩, true, true, R⟩ s.base.output.length o.name (some hv) (FullState.new ks) = (.ok (), t) ∧
      (ManifestGraph.draw t.graph).1 = .ok d' ∧ (∀ x, x ∈ d.edges ↔ x ∈ d'.edges) ∧ ∀ a, a ∈ d.names ↔ a ∈ d'.names := by
  obtain ⟨g, d, hg, hd, hde, hdn⟩ := C111_edges hout hr.toHasKeys (fun h => absurd h hty) h hr.distinct he hB
  obtain ⟨hv, hh, hrun⟩ := C94_published hty (watched_plain hout h) hr R hl
  obtain ⟨⟨t, _, _, ht, _⟩, _⟩ := hrun _ (Nat.le_refl _)
  obtain ⟨F⟩ := manifestTree_ok (watched_plain hout h)
  have hu := F.one_node hr.toHasKeys (fun h => absurd h hty) he hB
  obtain ⟨hv', v0, hh', hL0, hv0⟩ := F.visit hty hr
  obtain rfl := Except.ok.inj (hh.symm.trans hh')
  have ht' := ht
  unfold FullEnv.traverse at ht
  obtain ⟨p, hp, ht⟩ := PyS.liftBind_ok ht
  obtain ⟨_, hval, ht⟩ := PyS.liftBind_ok ht
  obtain ⟨v, log, h1, h2, h3, h4, h5⟩ := full_sound _ rfl rfl _ (scope := []) rfl rfl ht (r := (o.name, some hv)) hp hval
  obtain ⟨ops, a1, a2, a3⟩ := h2.calls (P := E.prims) (fun p node ho g hg => by
    obtain ⟨ps, hps, _⟩ := ho.2.1 g hg; rw [hps]; rfl) h1
  obtain ⟨d', hd', he'⟩ := C74_edges E.prims R ops
  obtain ⟨_, hn', _⟩ := C74_nodes E.prims R ops d' hd'
  rw [graphLog_told a1, a2] at he' hn'
  obtain ⟨_, hcl⟩ := h2.closed (P := E.prims) (fun p node ho => ho.2.1) h1 (h1.hashed (fun n x p hp => hr.store.filed.reader hp))
  have hvv : v0 = v := leads_same (op := Spec.NodeOf E.prims) (op' := Spec.Read E.prims)
    (fun p n n' ⟨name, x, hx⟩ hn hn' => hu p (hr.store.only hx) n n' hn hn'.1) hL0 h1
  subst hvv
  obtain ⟨hrec, hall⟩ := drawn_records h1 h2
  have hrec' : ∀ e, Spec.Latest E.prims log e → ∃ p ∈ s.base.output, RecordFor E.prims p e := fun e he => by
    obtain ⟨p, ⟨name, x, hx⟩, hp⟩ := hrec e he.mem
    exact ⟨p, hr.store.only hx, hp⟩
  have hall' : ∀ p ∈ s.base.output, ∃ hv, p.hash E.prims.sha256 = .ok hv ∧ ∃ e, Spec.Latest E.prims log e ∧ e.parent.value = hv.value := fun p hp => by
    obtain ⟨hv, hh, e, he, rfl⟩ := hall p (hv0 p hp)
    obtain ⟨e', he', hev⟩ := exists_latest (P := E.prims) log e he
    exact ⟨_, hh, e', he', hev⟩
  have hcl' : ∀ e, Spec.Latest E.prims log e → ∀ c ∈ e.children, ∃ e', Spec.Latest E.prims log e' ∧ e'.parent.value = c.value := fun e he c hc => by
    obtain ⟨r, hr, hrv⟩ := hcl e he.mem c hc
    obtain ⟨r', hr', hrv'⟩ := exists_latest (P := E.prims) log r hr
    exact ⟨r', hr', hrv'.trans hrv⟩
  refine ⟨g, d, hv, t, d', hg, hd, hh, ht', ?_, ?_, ?_⟩
  · have : t.graph = ops.foldl (ManifestGraph.step E.prims R) {} := by rw [h5, a3 _ rfl]; rfl
    rw [this]
    exact hd'
  · rintro ⟨a, b⟩
    rw [hde, he', picture_edges hr.distinct hu hrec' hall']
  · intro a
    rw [hdn]
    exact ((hn' a).trans (picture_names hrec' hall' hcl' a)).symm

/-! ## The hypotheses can be met -/

namespace Toy

/-- The watched build returns, its packets go into a store, their hashes differ, their names can be shown, and there are `n` of them. -/
def pictured (E : Env) (o : TreeOptions) (n : Nat) : Bool :=
  match (⟨false, true, false, fun _ => []⟩ : Watch).manifestTree E Spec.exactLog o 1 none (.stream (shortReads 32)) (some {}) with
  | (.ok _, s) => (MemoryStore.putAll E.prims {} s.base.output).isOk && s.base.output.length == n &&
      decide ((s.base.output.map (fun p => (p.hash E.prims.sha256).toOption)).Nodup) && s.base.output.all (fun p =>
        (graphLabel (fun _ => []) ⟨T_SHA_256, []⟩ p.body.name).isOk)
  | _ => false

theorem pictured_run {E : Env} {o : TreeOptions} {n : Nat} (h : pictured E o n = true) :
    ∃ root s store, (⟨false, true, false, fun _ => []⟩ : Watch).manifestTree E Spec.exactLog o 1 none (.stream (shortReads 32)) (some {}) =
        (.ok root, s) ∧ s.base.output.length = n ∧ MemoryStore.putAll E.prims {} s.base.output = .ok store ∧
      Spec.NoCollision E.prims s.base.output ∧ ∀ p ∈ s.base.output, Spec.Labelled p.body.name := by
  unfold pictured at h
  rcases hm : (⟨false, true, false, fun _ => []⟩ : Watch).manifestTree E Spec.exactLog o 1 none (.stream (shortReads 32)) (some {}) with ⟨e | root, s⟩
  · rw [hm] at h
    cases h
  · rw [hm] at h
    simp only [Bool.and_eq_true, beq_iff_eq, decide_eq_true_eq] at h
    obtain ⟨⟨⟨h1, h2⟩, h3⟩, h4⟩ := h
    cases hs : MemoryStore.putAll E.prims {} s.base.output with
    | error e => rw [hs] at h1; cases h1
    | ok store =>
      refine ⟨root, s, store, rfl, h2, hs, ?_, ?_⟩
      · intro p hp q hq hv h1 h2
        exact List.inj_on_of_nodup_map h3 hp hq (congrArg Except.toOption (h1.trans h2.symm))
      · intro p hp
        have := List.all_eq_true.mp h4 p hp
        refine (C94_labels (fun _ => []) ⟨T_SHA_256, []⟩ _).1 ?_
        cases hg : graphLabel (fun _ => []) ⟨T_SHA_256, []⟩ p.body.name with
        | ok l => exact ⟨l, rfl⟩
        | error e => rw [hg] at this; cases this

set_option maxRecDepth 100000 in
/-- C111: a signed and encrypted file of eight chunks, with ideal cryptography. -/
example : ∃ root s store, (⟨false, true, false, fun _ => []⟩ : Watch).manifestTree boundEnv Spec.exactLog lockedOptions 1 none
      (.stream (shortReads 32)) (some {}) = (.ok root, s) ∧ s.base.output.length = 12 ∧
    Spec.CanRead boundEnv lockedOptions 1 s.base.output store (some goodKeys) ∧ Spec.Binding boundEnv.prims ∧
    Spec.ProperEncryptor bound lockedOptions.encryptor ∧ ∀ p ∈ s.base.output, Spec.Labelled p.body.name := by
  obtain ⟨root, s, store, h1, h2, h3, h4, h5⟩ := pictured_run (E := boundEnv) (o := lockedOptions) (n := 12) (by decide +kernel)
  exact ⟨root, s, store, h1, h2, ⟨⟨⟨bound_aead, bound_oaep, bound_rsa, goodVerify, goodDecrypt, plain ⟨rfl, rfl, rfl⟩, by decide⟩, text rfl rfl rfl⟩,
    .inl h3, h4⟩, bound_binding, lockedProper, h5⟩

set_option maxRecDepth 100000 in
/-- C111: the same without encryption, signed with CRC-32C, hashed names. -/
example : ∃ root s store, (⟨false, true, false, fun _ => []⟩ : Watch).manifestTree env Spec.exactLog (options .hashed false) 1 none
      (.stream (shortReads 32)) (some {}) = (.ok root, s) ∧ s.base.output.length = 11 ∧
    Spec.CanRead env (options .hashed false) 1 s.base.output store none ∧ ∀ p ∈ s.base.output, Spec.Labelled p.body.name := by
  obtain ⟨root, s, store, h1, h2, h3, h4, h5⟩ := pictured_run (E := env) (o := options .hashed false) (n := 11) (by decide +kernel)
  obtain ⟨_, _, _, _, he, _⟩ := equipped (o := options .hashed false) (input := shortReads 32) (n := 8) (ks := none)
    trivial trivial (plain ⟨rfl, rfl, rfl⟩) (text rfl rfl rfl) (by decide +kernel)
  exact ⟨root, s, store, h1, h2, ⟨he, .inl h3, h4⟩, h5⟩

end Toy

end Ccnpy
