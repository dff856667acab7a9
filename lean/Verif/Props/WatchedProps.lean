import Verif.Model.Watched
import Verif.Props.FullTraversalProps
import Verif.Props.FactoryProps
import Verif.Props.TopProps
import Verif.Props.RunProps

/-!
# C110: watching a build
-/

namespace Ccnpy

/-- The packet can be shown (C77_packet). -/
def Spec.PacketShowable (brief : Bool) (p : Packet) : Prop :=
  Spec.ContentShowable brief p.body ∧
  ∀ k l t, p.alg = some (.rsaSha256 k l t) → (∀ l' n, l = some l' → l'.name = some n → Spec.ReadableName n) ∧ Spec.ShowableTime t

/-- A manifest can be watched: with `debug` it can be shown, with a graph its name makes a label. -/
def Spec.Watchable (W : Watch) (drawn : Prop) (p : Packet) : Prop :=
  (W.debug = true → Spec.PacketShowable W.brief p) ∧ (drawn → Spec.Labelled p.body.name)

/-! ## Side by side with the build that is not watched -/

/-- Some manifest that is written cannot be watched. -/
def Lost (W : Watch) (drawn : Prop) (b : BState) : Prop :=
  ∃ p ∈ b.output, p.body.payloadType = some PT_MANIFEST ∧ ¬ Spec.Watchable W drawn p

theorem Lost.mono {W : Watch} {drawn : Prop} {b b' : BState} (h : Lost W drawn b) (hg : b.output <+: b'.output) : Lost W drawn b' := by
  obtain ⟨p, h1, h2⟩ := h
  exact ⟨p, hg.subset h1, h2⟩

/-- There is a graph or not, and it is not paused. -/
def FState.Ready (drawn : Prop) (s : FState) : Prop := (s.graph.isSome ↔ drawn) ∧ ∀ g, s.graph = some g → g.paused = false

/-- What was put stays put. -/
def Puts {α : Type} (y : PyS BState α) : Prop := ∀ b, b.output <+: (y b).2.output

/-- The watched program does the same, and then all that it put could be watched; or it raises where the other goes on: then it is
watched, what it has put is the beginning, and if the other returns, its result is `Bad`. -/
def Tracks (W : Watch) (drawn : Prop) {α : Type} (Bad : α → BState → Prop) (x : PyS FState α) (y : PyS BState α) : Prop :=
  Puts y ∧ ∀ s : FState, s.Ready drawn → (x s).2.Ready drawn ∧
    (((x s).1 = (y s.base).1 ∧ (x s).2.base = (y s.base).2 ∧ ∀ a, (y s.base).1 = .ok a → Lost W drawn (y s.base).2 → Lost W drawn s.base) ∨
     ((∃ e, (x s).1 = .error e) ∧ (W.debug = true ∨ drawn) ∧ (x s).2.base.output <+: (y s.base).2.output ∧
      ∀ a, (y s.base).1 = .ok a → Bad a (y s.base).2))

theorem Puts.bind {α β : Type} {y : PyS BState α} {g : α → PyS BState β} (h : Puts y) (hg : ∀ a, Puts (g a)) : Puts (y >>= g) := by
  intro b
  have := h b
  rw [PyS.bind_run]
  cases hy : y b with
  | mk r b1 =>
    rw [hy] at this
    cases r with
    | error e => exact this
    | ok a => exact this.trans (hg a b1)

theorem Puts.lift {α : Type} (z : Py α) : Puts (PyS.lift z) := fun _ => List.prefix_refl _

theorem Puts.same {α : Type} {y : PyS BState α} (h : ∀ b, (y b).2.output = b.output) : Puts y := fun b => h b ▸ List.prefix_refl _

namespace Tracks

variable {W : Watch} {drawn : Prop} {α β : Type} {Bad : α → BState → Prop} {Bad' : β → BState → Prop}

/-- The first part returns only what is `Good`. -/
theorem bindGood {Good : α → Prop} {x : PyS FState α} {y : PyS BState α} {f : α → PyS FState β} {g : α → PyS BState β}
    (h : Tracks W drawn Bad x y) (hgood : ∀ b a, (y b).1 = .ok a → Good a) (hg : ∀ a, Puts (g a))
    (hf : ∀ a, Good a → Tracks W drawn Bad' (f a) (g a))
    (hb : ∀ a b c, Good a → Bad a b → (g a b).1 = .ok c → Bad' c (g a b).2) : Tracks W drawn Bad' (x >>= f) (y >>= g) := by
  obtain ⟨h1, h2⟩ := h
  refine ⟨h1.bind hg, ?_⟩
  intro s hs
  have h2 := h2 s hs
  have hgood := hgood s.base
  rw [PyS.bind_run, PyS.bind_run]
  revert h2 hgood
  cases x s with | mk r s' => cases y s.base with | mk q b' =>
  rintro ⟨hd, ⟨rfl, rfl, hl⟩ | ⟨⟨e, rfl⟩, hw, hp, hbad⟩⟩ hgood
  · cases r with
    | error e => exact ⟨hd, .inl ⟨rfl, rfl, nofun⟩⟩
    | ok a =>
      refine ⟨((hf a (hgood a rfl)).2 s' hd).1, ?_⟩
      rcases ((hf a (hgood a rfl)).2 s' hd).2 with ⟨h1, h2, h3⟩ | h
      · exact .inl ⟨h1, h2, fun c hc hlost => hl a rfl (h3 c hc hlost)⟩
      · exact .inr h
  · refine ⟨hd, .inr ⟨⟨e, rfl⟩, hw, ?_, ?_⟩⟩
    · cases q with
      | error e => exact hp
      | ok a => exact hp.trans (hg a b')
    · intro c hc
      cases q with
      | error e => cases hc
      | ok a => exact hb a b' c (hgood a rfl) (hbad a rfl) hc

theorem bind {x : PyS FState α} {y : PyS BState α} {f : α → PyS FState β} {g : α → PyS BState β} (h : Tracks W drawn Bad x y)
    (hf : ∀ a, Tracks W drawn Bad' (f a) (g a))
    (hb : ∀ a b c, Bad a b → (g a b).1 = .ok c → Bad' c (g a b).2) : Tracks W drawn Bad' (x >>= f) (y >>= g) :=
  h.bindGood (Good := fun _ => True) (fun _ _ _ => trivial) (fun a => (hf a).1) (fun a _ => hf a) (fun a b c _ => hb a b c)

theorem lift (z : Py α) : Tracks W drawn Bad (PyS.lift z) (PyS.lift z) :=
  ⟨.lift z, fun _ hs => ⟨hs, .inl ⟨rfl, rfl, fun _ _ h => h⟩⟩⟩

theorem pure (a : α) : Tracks W drawn Bad (Pure.pure a) (Pure.pure a) := lift (.ok a)

theorem onBase {y : PyS BState α} (hg : ∀ b, (y b).2.output = b.output) : Tracks W drawn Bad y.onBase y := by
  refine ⟨.same hg, fun s hs => ⟨hs, .inl ⟨rfl, rfl, fun _ _ h => ?_⟩⟩⟩
  obtain ⟨p, h1, h2⟩ := h
  exact ⟨p, hg s.base ▸ h1, h2⟩

theorem liftBind {z : Py α} {f : α → PyS FState β} {g : α → PyS BState β} (hf : ∀ a, Tracks W drawn Bad' (f a) (g a)) :
    Tracks W drawn Bad' (PyS.lift z >>= f) (PyS.lift z >>= g) :=
  bind (Bad := fun _ _ => False) (lift z) hf (by rintro _ _ _ ⟨⟩)

/-- An observation that does not raise, before the rest. -/
theorem note {note : PyS FState Unit} {x : PyS FState α} {y : PyS BState α} (h : Tracks W drawn Bad x y)
    (hn : ∀ s, (note s).1 = .ok () ∧ (note s).2.base = s.base ∧ (s.Ready drawn → (note s).2.Ready drawn)) :
    Tracks W drawn Bad (note >>= fun _ => x) y := by
  refine ⟨h.1, fun s hs => ?_⟩
  have hn := hn s
  rw [PyS.bind_run]
  revert hn
  cases note s with | mk r s' =>
  rintro ⟨rfl, h1, h2⟩
  have := h.2 s' (h2 hs)
  simp only at h1
  rw [h1] at this
  exact this

end Tracks

/-! ### The observations -/

theorem recordManifest_base (P : Prims) (R : NameComponent → Text) (p : Packet) (node : Node) (s : FState) :
    (recordManifest P R p node s).2.base = s.base := by
  unfold recordManifest
  split
  · rfl
  · split
    · rfl
    · unfold PyS.onGraph
      cases h : s.graph <;> rfl

theorem recordManifest_ready {drawn : Prop} (P : Prims) (R : NameComponent → Text) (p : Packet) (node : Node) {s : FState}
    (hs : s.Ready drawn) : (recordManifest P R p node s).2.Ready drawn := by
  unfold recordManifest
  split
  · exact hs
  · split
    · exact hs
    · unfold PyS.onGraph
      cases h : s.graph with
      | none => exact hs
      | some g =>
        refine ⟨⟨fun _ => hs.1.1 (by rw [h]; rfl), fun _ => rfl⟩, ?_⟩
        intro g' hg'
        obtain rfl := Option.some.inj hg'
        have hp := hs.2 g h
        unfold ManifestGraph.addManifest
        simp only [hp, Bool.false_eq_true, if_false]
        split <;> rfl

/-- Telling the graph of a manifest that has a hash raises just if there is a graph and the pointers cannot be listed or there is no
label. -/
theorem recordManifest_result {drawn : Prop} {P : Prims} {R : NameComponent → Text} {p : Packet} {node : Node} {s : FState}
    (hh : ∃ h, p.hash P.sha256 = .ok h) (hs : s.Ready drawn) :
    (recordManifest P R p node s).1 = .ok () ↔ (drawn → (∃ cs, node.hashValues = .ok cs) ∧ Spec.Labelled p.body.name) := by
  obtain ⟨hv, hh⟩ := hh
  unfold recordManifest
  cases hg : s.graph with
  | none =>
    have : ¬ drawn := fun h => by simpa [hg] using hs.1.2 h
    simp [this]
  | some g =>
    have : drawn := hs.1.1 (by rw [hg]; rfl)
    have hp := hs.2 g hg
    rw [← C94_labels R hv]
    simp only [Option.isNone_some, Bool.false_eq_true, if_false, hh, PyS.onGraph, hg, this, true_imp_iff]
    unfold ManifestGraph.addManifest
    simp only [hp, Bool.false_eq_true, if_false]
    cases node.hashValues with
    | error e => simp [bind, Except.bind]
    | ok cs =>
      cases graphLabel R hv p.body.name with
      | error e => simp [bind, Except.bind]
      | ok l => simp [bind, Except.bind, pure, Except.pure]

theorem noteChunk_run (W : Watch) (drawn : Prop) (T : TreeEnv) (c : ChunkMetadata) (s : FState) :
    (W.noteChunk T c s).1 = .ok () ∧ (W.noteChunk T c s).2.base = s.base ∧ (s.Ready drawn → (W.noteChunk T c s).2.Ready drawn) := by
  unfold Watch.noteChunk PyS.onGraph
  cases h : s.graph with
  | none => exact ⟨rfl, rfl, id⟩
  | some g =>
    have e : ManifestGraph.addData T.env.prims W.R c.hash none g =
        if g.paused then (.ok (), g) else
          (.ok (), { g with graph := none, entries := dictSet T.env.prims g.entries c.hash ⟨true, c.hash, hashToName c.hash, []⟩ }) := by
      unfold ManifestGraph.addData
      split <;> rfl
    refine ⟨?_, rfl, fun hs => ?_⟩
    · simp only [e]
      split <;> rfl
    · refine ⟨⟨fun _ => hs.1.1 (by rw [h]; rfl), fun _ => rfl⟩, ?_⟩
      intro g' hg'
      obtain rfl := Option.some.inj hg'
      simp only [e, hs.2 g h, Bool.false_eq_true, if_false]

theorem Tracks.noteChunk {drawn : Prop} {α : Type} {Bad : α → BState → Prop} (W : Watch) (T : TreeEnv) (c : ChunkMetadata)
    {x : PyS FState α} {y : PyS BState α} (h : Tracks W drawn Bad x y) :
    Tracks W drawn Bad (W.noteChunk T c >>= fun _ => x) y := h.note (noteChunk_run W drawn T c)

theorem say_run (W : Watch) (z : Py Unit) (s : FState) :
    (W.say z s).2 = s ∧ ((W.say z s).1 = .ok () ↔ (W.debug = true → z = .ok ())) ∧ (∀ e, (W.say z s).1 = .error e → W.debug = true) := by
  unfold Watch.say
  cases hd : W.debug with
  | false => simp
  | true => simp

/-! ### The builder -/

/-- What the builders make: a manifest, with a node that can be shown and listed. -/
def Built.Fine (P : Prims) (b : Built) : Prop :=
  b.node.withoutNumbers.display = .ok () ∧ (∃ cs, b.node.hashValues = .ok cs) ∧ b.packet.body.payloadType = some PT_MANIFEST ∧
    ∃ h, b.packet.hash P.sha256 = .ok h

/-- `Bad` for programs that put what they make. -/
abbrev LostBy (W : Watch) (drawn : Prop) {α : Type} : α → BState → Prop := fun _ b => Lost W drawn b

theorem Tracks.bindLost {W : Watch} {drawn : Prop} {α β : Type} {x : PyS FState α} {y : PyS BState α}
    {f : α → PyS FState β} {g : α → PyS BState β} (h : Tracks W drawn (LostBy W drawn) x y)
    (hf : ∀ a, Tracks W drawn (LostBy W drawn) (f a) (g a)) : Tracks W drawn (LostBy W drawn) (x >>= f) (y >>= g) :=
  h.bind hf (fun a b _ hl _ => hl.mono ((hf a).1 b))

theorem bind_output {α β : Type} {y : PyS BState α} {g : α → PyS BState β} (h : ∀ b, (y b).2.output = b.output)
    (hg : ∀ a b, (g a b).2.output = b.output) (b : BState) : ((y >>= g) b).2.output = b.output := by
  have := h b
  rw [PyS.bind_run]
  cases hy : y b with
  | mk r b1 =>
    rw [hy] at this
    cases r with
    | error e => exact this
    | ok a => exact (hg a b1).trans this

theorem nextManifestName_output (T : TreeEnv) (level : Nat) (b : BState) : (nextManifestName T level b).2.output = b.output := by
  unfold nextManifestName
  refine bind_output (fun _ => rfl) (fun _ => bind_output ?_ (fun _ => bind_output (fun _ => rfl) (fun _ _ => rfl))) b
  intro b
  unfold getNextId
  split
  · rfl
  · split <;> rfl

theorem buildFromNode_output (E : Env) (o : TreeOptions) (node : Node) (name : Option Name) (x : Option F64) (sg : Option Signer) (full : Bool)
    (b : BState) : (buildFromNode E o node name x sg full b).2.output = b.output := by
  obtain ⟨k, hk⟩ := buildFromNode_frame E o node name x sg full b
  rw [hk]

/-- A packet of the factory has a hash. -/
theorem built_has_hash {E : Env} {o : TreeOptions} {node : Node} {name : Option Name} {x : Option F64} {sg : Option Signer} {full : Bool}
    {b b' : BState} {p : Packet} (h : buildFromNode E o node name x sg full b = (.ok p, b')) : ∃ hv, p.hash E.prims.sha256 = .ok hv := by
  obtain ⟨_, _, _, _, _, _, _, hsig, _⟩ := buildFromNode_inv h
  obtain ⟨w, hw⟩ := (signPacket_len hsig).2
  exact ⟨_, by rw [Packet.hash, hw]; rfl⟩

/-- The factory without its graph and counters. -/
def factoryBase (E : Env) (o : TreeOptions) (src : Source) (a : BuildArgs) : PyS BState Packet := do
  buildFromNode E o (← PyS.lift (sourceNode o src a)) a.name a.expiryTime (a.effectiveSigner o) a.full

theorem factoryBase_output (E : Env) (o : TreeOptions) (src : Source) (a : BuildArgs) (b : BState) :
    (factoryBase E o src a b).2.output = b.output :=
  bind_output (fun _ => rfl) (fun _ => buildFromNode_output _ _ _ _ _ _ _) b

theorem factoryBase_ok {E : Env} {o : TreeOptions} {src : Source} {a : BuildArgs} {b : BState} {p : Packet}
    (h : (factoryBase E o src a b).1 = .ok p) :
    p.body.payloadType = some PT_MANIFEST ∧ (∃ hv, p.hash E.prims.sha256 = .ok hv) ∧ ∃ node, sourceNode o src a = .ok node := by
  obtain ⟨s', h⟩ : ∃ s', factoryBase E o src a b = (.ok p, s') := ⟨_, Prod.ext h rfl⟩
  obtain ⟨node, hn, h⟩ := PyS.liftBind_ok h
  obtain ⟨_, _, _, _, _, _, hbody, _⟩ := buildFromNode_inv h
  exact ⟨by rw [hbody]; rfl, built_has_hash h, node, hn⟩

/-- The factory with a graph, next to the one without. -/
theorem buildPacket_watch {drawn : Prop} (E : Env) (R : NameComponent → Text) (o : TreeOptions) (src : Source) (a : BuildArgs)
    (ha : a.signer.isSome → o.signer.isSome) (s : FState) (hs : s.Ready drawn) :
    (buildPacket E R o src a s).2.Ready drawn ∧ (buildPacket E R o src a s).2.base = (factoryBase E o src a s.base).2 ∧
    (((buildPacket E R o src a s).1 = (factoryBase E o src a s.base).1 ∧
        ∀ p, (factoryBase E o src a s.base).1 = .ok p → drawn → Spec.Labelled p.body.name) ∨
     ((∃ e, (buildPacket E R o src a s).1 = .error e) ∧ drawn ∧ ∃ p node, (factoryBase E o src a s.base).1 = .ok p ∧ sourceNode o src a = .ok node ∧
        ¬ ((∃ cs, node.hashValues = .ok cs) ∧ Spec.Labelled p.body.name))) := by
  unfold factoryBase
  rw [buildPacket_run E R o src a s ha, PyS.bind_run, PyS.lift_run]
  cases hn : sourceNode o src a with
  | error e => exact ⟨hs, rfl, .inl ⟨rfl, nofun⟩⟩
  | ok node =>
    simp only
    cases hb : buildFromNode E o node a.name a.expiryTime (a.effectiveSigner o) a.full s.base with
    | mk r b1 =>
      cases r with
      | error e => exact ⟨hs, rfl, .inl ⟨rfl, nofun⟩⟩
      | ok p =>
        simp only
        obtain ⟨m, s1, w, hm, hw, hlen, hbody, hsig, hx⟩ := buildFromNode_inv hb
        obtain ⟨k, hk⟩ := (signPacket_len hsig).1
        have hs1 : FState.Ready drawn { s with base := b1 } := hs
        have h1 := recordManifest_base E.prims R p node { s with base := b1 }
        have h2 := recordManifest_ready E.prims R p node hs1
        have h3 := recordManifest_result (R := R) (node := node) (built_has_hash hb) hs1
        revert h1 h2 h3
        cases hr : recordManifest E.prims R p node { s with base := b1 } with
        | mk q s2 =>
          intro h1 h2 h3
          cases q with
          | ok u =>
            simp only [factoryFinish, PyS.bind_run, hr, PyS.lift_run, hk, PyS.modify_run, PyS.pure_run]
            refine ⟨h2, h1, .inl ⟨trivial, ?_⟩⟩
            rintro p' ⟨⟩ hd
            exact (h3.1 rfl hd).2
          | error e =>
            simp only [factoryFinish, PyS.bind_run, hr]
            have h3 : ¬ (drawn → (∃ cs, node.hashValues = .ok cs) ∧ Spec.Labelled p.body.name) := fun h => by cases h3.2 h
            have hd : drawn := Classical.byContradiction fun hd => h3 (fun h => absurd h hd)
            exact ⟨h2, h1, .inr ⟨⟨e, rfl⟩, hd, p, node, rfl, rfl, fun h => h3 (fun _ => h)⟩⟩

theorem nodeSource (o : TreeOptions) (n : Node) (name : Option Name) (x : Option F64) :
    sourceNode o (.node n) { name := name, expiryTime := x } = .ok n := by
  unfold sourceNode
  simp only [sizeArg_eq _ (show T_SUBTREE_SIZE ≤ 0xFFFF by decide), sizeArg_eq _ (show T_LEAF_SIZE ≤ 0xFFFF by decide), ok_bind]

variable (W : Watch) (drawn : Prop) (T : TreeEnv)

theorem builderPacket_output (groups : List HashGroup) (d i level : Nat) (b : BState) :
    (builderPacket T groups d i level b).2.output = b.output := by
  unfold builderPacket
  exact bind_output (fun _ => rfl) (fun _ => bind_output (fun _ => rfl) (fun _ => bind_output (nextManifestName_output T level)
    (fun _ => bind_output (buildFromNode_output _ _ _ _ _ _ _) (fun _ _ => rfl)))) b

theorem builderPacket_tracks (groups : List HashGroup) (hg : ∀ g ∈ groups, g.pointers.isSome) (d i level : Nat) :
    Tracks W drawn (fun b _ => ¬ Spec.Watchable W drawn b.packet) (W.builderPacket T groups d i level) (builderPacket T groups d i level) := by
  unfold Watch.builderPacket builderPacket
  refine .liftBind fun nd => ?_
  refine Tracks.bindGood (Bad := fun _ _ => False) (Good := fun n => n.hashGroups = groups) (.lift _) ?_ ?_ ?_ (by rintro _ _ _ _ ⟨⟩)
  · intro b n h
    obtain ⟨rfl, _⟩ := construct_inv h
    rfl
  · exact fun _ => .same (bind_output (nextManifestName_output T level) (fun _ => bind_output (buildFromNode_output _ _ _ _ _ _ _) (fun _ _ => rfl)))
  · intro node hn
    refine Tracks.bind (Bad := fun _ _ => False) (.onBase (nextManifestName_output T level)) (fun name => ?_) (by rintro _ _ _ ⟨⟩)
    refine Tracks.bind (Bad := fun p _ => ¬ (drawn → Spec.Labelled p.body.name)) ⟨.same (buildFromNode_output _ _ _ _ _ _ _), fun s hs => ?_⟩
      (fun p => .pure _) ?_
    · have e : factoryBase T.env T.opts (.node node) { name := name, expiryTime := T.opts.manifestExpiry } =
          buildFromNode T.env T.opts node name T.opts.manifestExpiry none false := by
        unfold factoryBase
        rw [nodeSource]
        rfl
      have ho := buildFromNode_output T.env T.opts node name T.opts.manifestExpiry none false s.base
      obtain ⟨h1, h2, h⟩ := buildPacket_watch (drawn := drawn) T.env W.R T.opts (.node node) { name := name, expiryTime := T.opts.manifestExpiry }
        (by simp) s hs
      rw [e] at h2 h
      refine ⟨h1, ?_⟩
      rcases h with ⟨h, _⟩ | ⟨he, hd, p, n, hp, hn', hbad⟩
      · exact .inl ⟨h, h2, fun _ _ ⟨p, h1, h2⟩ => ⟨p, ho ▸ h1, h2⟩⟩
      · refine .inr ⟨he, .inr hd, h2 ▸ List.prefix_refl _, ?_⟩
        intro a ha hw
        rw [nodeSource] at hn'
        obtain rfl := Except.ok.inj hn'
        rw [hp] at ha
        obtain rfl := Except.ok.inj ha
        exact hbad ⟨⟨_, hashValues_of_some (hn ▸ hg)⟩, hw hd⟩
    · rintro p b c hbad hc
      cases hc
      exact fun h => hbad h.2

theorem builderPacket_fine {T : TreeEnv} {groups : List HashGroup} (hg : ∀ g ∈ groups, g.pointers.isSome) {d i level : Nat} {s : BState}
    {b : Built} (h : (builderPacket T groups d i level s).1 = .ok b) : b.Fine T.env.prims := by
  obtain ⟨s', h⟩ : ∃ s', builderPacket T groups d i level s = (.ok b, s') := ⟨_, Prod.ext h rfl⟩
  unfold builderPacket at h
  obtain ⟨nd, hnd, h⟩ := PyS.liftBind_ok h
  obtain ⟨node, hnode, h⟩ := PyS.liftBind_ok h
  obtain ⟨name, s1, hname, h⟩ := PyS.bind_ok h
  obtain ⟨p, s2, hp, h⟩ := PyS.bind_ok h
  obtain ⟨h, _⟩ := PyS.lift_ok (x := .ok _) h
  obtain rfl := Except.ok.inj h
  obtain ⟨rfl, _⟩ := construct_inv hnode
  obtain ⟨_, _, _, _, _, _, hbody, _⟩ := buildFromNode_inv hp
  refine ⟨?_, ⟨_, hashValues_of_some hg⟩, by rw [hbody]; rfl, built_has_hash hp⟩
  have hd : ∀ x, nd = some x → x.locators = none ∧ x.ncDefs = [] := by
    rintro x rfl
    have hx := optM_construct hnd
    split at hx
    · cases hx
      exact ⟨rfl, rfl⟩
    · cases hx
  show Manifest.display { node := .plain (Node.withoutNumbers { nodeData := nd, hashGroups := groups }) } = .ok ()
  rw [C77_manifest]
  refine ⟨fun _ h => (by cases h), fun _ _ h => (by cases h), ?_, ?_, fun _ h => (by cases h), ?_⟩
  · rintro d ⟨⟩ n hn
    unfold Spec.nodeLinks at hn
    cases nd with
    | none => simp [Spec.linkNames, Node.withoutNumbers] at hn
    | some x => simp [(hd x rfl).1, (hd x rfl).2, Spec.linkNames, Node.withoutNumbers] at hn
  · rintro d ⟨⟩ g hmem hnone
    obtain ⟨g', hg', rfl⟩ := List.mem_map.1 hmem
    have := hg g' hg'
    rw [show g'.pointers = none from hnone] at this
    cases this
  · rintro d ⟨⟩ n hn
    unfold Spec.nodeNumbers at hn
    cases nd with
    | none => simp [Node.withoutNumbers] at hn
    | some x => simp [(hd x rfl).2, Node.withoutNumbers] at hn

theorem putBuilt_puts (b : Built) : Puts (putBuilt T b) := by
  unfold putBuilt
  refine Puts.bind (.lift _) (fun h s => ?_)
  exact List.prefix_append _ _

/-- What is put. -/
theorem putBuilt_ok {T : TreeEnv} {b : Built} {s : BState} {u : Unit} (h : (putBuilt T b s).1 = .ok u) :
    (putBuilt T b s).2.output = s.output ++ [b.packet] ∧ ∃ h, b.packet.hash T.env.prims.sha256 = .ok h := by
  unfold putBuilt at h ⊢
  cases hh : b.packet.hash T.env.prims.sha256 with
  | error e => rw [hh] at h; cases h
  | ok hv => exact ⟨rfl, hv, rfl⟩

theorem putBuilt_lost {W : Watch} {drawn : Prop} {T : TreeEnv} {b : Built} {s : BState} {u : Unit} (h : (putBuilt T b s).1 = .ok u)
    (hf : b.Fine T.env.prims) (hb : ¬ Spec.Watchable W drawn b.packet) : Lost W drawn (putBuilt T b s).2 := by
  refine ⟨b.packet, ?_, hf.2.2.1, hb⟩
  rw [(putBuilt_ok h).1]
  simp

theorem Built.display_fine {P : Prims} {b : Built} (hf : b.Fine P) (brief : Bool) : b.display brief = .ok () ↔ Spec.PacketShowable brief b.packet := by
  unfold Built.display
  rw [hf.1]
  exact C77_packet _ _

theorem finish_tracks (hout : W.hasOutput = true) (b : Built) (hf : b.Fine T.env.prims) :
    Tracks W drawn (LostBy W drawn) (W.finish T b) (putBuilt T b) := by
  refine ⟨putBuilt_puts T b, fun s hs => ?_⟩
  unfold Watch.finish
  rw [PyS.bind_run]
  obtain ⟨h1, h2, h3⟩ := say_run W (b.display W.brief) s
  revert h1 h2 h3
  cases W.say (b.display W.brief) s with | mk r s1 =>
  simp only
  rintro rfl h2 h3
  cases r with
  | error e =>
    refine ⟨hs, .inr ⟨⟨e, rfl⟩, .inl (h3 e rfl), putBuilt_puts T b _, ?_⟩⟩
    intro a ha
    refine putBuilt_lost ha hf fun hw => ?_
    have := h2.2 (fun hd => (Built.display_fine hf _).2 (hw.1 hd))
    cases this
  | ok u =>
    have hshow : W.debug = true → Spec.PacketShowable W.brief b.packet := fun hd => (Built.display_fine hf _).1 (h2.1 rfl hd)
    simp only
    rw [PyS.bind_run]
    have hh : ∃ h, b.packet.hash T.env.prims.sha256 = .ok h := hf.2.2.2
    · have g1 := recordManifest_base T.env.prims W.R b.packet b.node s1
      have g2 := recordManifest_ready T.env.prims W.R b.packet b.node hs
      have g3 := recordManifest_result (R := W.R) (node := b.node) hh hs
      revert g1 g2 g3
      cases recordManifest T.env.prims W.R b.packet b.node s1 with | mk q s2 =>
      simp only
      intro g1 g2 g3
      cases q with
      | error e =>
        have g3 : ¬ (drawn → (∃ cs, b.node.hashValues = .ok cs) ∧ Spec.Labelled b.packet.body.name) := fun h => by cases g3.2 h
        have hd : drawn := Classical.byContradiction fun hd => g3 (fun h => absurd h hd)
        refine ⟨g2, .inr ⟨⟨e, rfl⟩, .inr hd, ?_, ?_⟩⟩
        · show s2.base.output <+: _
          rw [g1]
          exact putBuilt_puts T b _
        · exact fun a ha => putBuilt_lost ha hf fun hw => g3 (fun hd => ⟨hf.2.1, hw.2 hd⟩)
      | ok u =>
        have hlabel : drawn → Spec.Labelled b.packet.body.name := fun hd => (g3.1 rfl hd).2
        simp only
        obtain ⟨hv, hh⟩ := hh
        have hw : W.write T b s2 = ((putBuilt T b).onBase) s2 := by
          unfold Watch.write
          rw [PyS.bind_run]
          obtain ⟨h1, h2, _⟩ := say_run W (do let _ ← b.packet.hash T.env.prims.sha256; return ()) s2
          have h2 := h2.2 (fun _ => by rw [hh]; rfl)
          revert h1 h2
          cases W.say (do let _ ← b.packet.hash T.env.prims.sha256; return ()) s2 with | mk r s3 =>
          rintro rfl rfl
          simp [hout]
        rw [hw]
        simp only [PyS.onBase, g1]
        refine ⟨g2, .inl ⟨trivial, trivial, ?_⟩⟩
        rintro a ha ⟨p, hp, hm, hbad⟩
        rw [(putBuilt_ok ha).1, List.mem_append, List.mem_singleton] at hp
        rcases hp with hp | rfl
        · exact ⟨p, hp, hm, hbad⟩
        · exact absurd ⟨hshow, hlabel⟩ hbad

theorem appendChunks_tracks (Bad : HashGroupBuilder → BState → Prop) : ∀ (n : Nat) (b : HashGroupBuilder) (i : Nat),
    Tracks W drawn Bad (W.appendChunks T b i n) (PyS.lift (appendChunks T b i n)) := by
  intro n
  induction n with
  | zero => intro b i; exact .pure b
  | succ n ih =>
    intro b i
    have h : Tracks W drawn Bad (W.appendChunks T b i (n + 1))
        (do let c ← PyS.lift (T.chunk i); let b ← PyS.lift (b.appendDirect c.hash (some c.payloadBytes)); PyS.lift (appendChunks T b (i + 1) n)) :=
      .liftBind fun c => .noteChunk W T c (.liftBind fun b => ih b (i + 1))
    have e : (PyS.lift (appendChunks T b i (n + 1)) : PyS BState _) =
        (do let c ← PyS.lift (T.chunk i); let b ← PyS.lift (b.appendDirect c.hash (some c.payloadBytes)); PyS.lift (appendChunks T b (i + 1) n)) := by
      funext s
      simp only [appendChunks, PyS.bind_run, PyS.lift_run]
      cases T.chunk i with
      | error e => rfl
      | ok c => simp only [ok_bind]; cases b.appendDirect c.hash (some c.payloadBytes) <;> rfl
    rw [e]
    exact h

theorem hashGroup_pointers {b : HashGroupBuilder} {i j : Option Nat} {l t : Bool} {g : HashGroup} (h : b.hashGroup i j l t = .ok g) :
    g.pointers.isSome := by
  unfold HashGroupBuilder.hashGroup at h
  obtain ⟨rfl, _⟩ := construct_inv h
  rfl

theorem hashGroups_pointers {b : BuilderPair} {ctx : NameCtx} {l t : Bool} {i j : Option Nat} {gs : List HashGroup}
    (h : b.hashGroups ctx l t i j = .ok gs) : ∀ g ∈ gs, g.pointers.isSome := by
  unfold BuilderPair.hashGroups at h
  split at h
  · obtain ⟨_, _, h⟩ := bind_eq_ok.mp h
    obtain ⟨_, _, h⟩ := bind_eq_ok.mp h
    obtain ⟨g, hg, h⟩ := bind_eq_ok.mp h
    obtain rfl := Except.ok.inj h
    simpa using hashGroup_pointers hg
  · obtain ⟨g, hg, h⟩ := bind_eq_ok.mp h
    obtain ⟨g', hg', h⟩ := bind_eq_ok.mp h
    obtain rfl := Except.ok.inj h
    simpa using ⟨hashGroup_pointers hg, hashGroup_pointers hg'⟩

theorem leafPacket_tracks (head tail level : Nat) :
    Tracks W drawn (fun b _ => ¬ Spec.Watchable W drawn b.packet) (W.leafPacket T head tail level) (leafPacket T head tail level) := by
  unfold Watch.leafPacket leafPacket
  refine .liftBind fun _ => ?_
  refine Tracks.bind (Bad := fun _ _ => False) (appendChunks_tracks W drawn T _ _ _ _) (fun b => ?_) (by rintro _ _ _ ⟨⟩)
  refine .liftBind fun _ => ?_
  refine Tracks.bindGood (Bad := fun _ _ => False) (Good := fun g => g.pointers.isSome) (.lift _) (fun _ _ h => hashGroup_pointers h)
    (fun _ => .same (builderPacket_output T _ _ _ _)) (fun g hg => ?_) (by rintro _ _ _ _ ⟨⟩)
  exact builderPacket_tracks W drawn T _ (by simpa using hg) _ _ _

theorem leafPacket_fine {T : TreeEnv} {head tail level : Nat} {s : BState} {b : Built} (h : (leafPacket T head tail level s).1 = .ok b) :
    b.Fine T.env.prims := by
  obtain ⟨s', h⟩ : ∃ s', leafPacket T head tail level s = (.ok b, s') := ⟨_, Prod.ext h rfl⟩
  unfold leafPacket at h
  obtain ⟨_, _, h⟩ := PyS.liftBind_ok h
  obtain ⟨_, _, h⟩ := PyS.liftBind_ok h
  obtain ⟨_, _, h⟩ := PyS.liftBind_ok h
  obtain ⟨g, hg, h⟩ := PyS.liftBind_ok h
  exact builderPacket_fine (by simpa using hashGroup_pointers hg) (congrArg Prod.fst h)

theorem leafManifest_tracks (hout : W.hasOutput = true) (seg : Segment) (level : Nat) :
    Tracks W drawn (LostBy W drawn) (W.leafManifest T seg level) (leafManifest T seg level) := by
  unfold Watch.leafManifest leafManifest
  refine Tracks.bindGood (leafPacket_tracks W drawn T _ _ _) (fun _ _ h => leafPacket_fine h) ?_ (fun b hb => ?_) ?_
  · exact fun b => .bind (.lift _) (fun _ => .bind (putBuilt_puts T b) (fun _ => .lift (.ok _)))
  · exact .liftBind fun seg => (finish_tracks W drawn T hout b hb).bindLost (fun _ => .pure _)
  · intro b s c hf hbad h
    rw [PyS.bind_run, PyS.lift_run] at h ⊢
    cases hd : seg.decrementTail (seg.tail - max seg.head (seg.tail - T.pointers)) with
    | error e => rw [hd] at h; cases h
    | ok seg' =>
      simp only [hd, PyS.bind_run] at h ⊢
      have hl : ∀ u, (putBuilt T b s).1 = .ok u → _ := fun u h => putBuilt_lost (W := W) (drawn := drawn) h hf hbad
      revert h hl
      cases putBuilt T b s with | mk r s' =>
      cases r with
      | error e => intro h; cases h
      | ok u => exact fun _ hl => hl u rfl

theorem addIndirectLoop_tracks {child : Segment → PyS FState (Built × Segment)} {child' : Segment → PyS BState (Built × Segment)}
    (hc : ∀ seg, Tracks W drawn (LostBy W drawn) (child seg) (child' seg)) : ∀ (fuel : Nat) (b : BuilderPair) (seg : Segment),
    Tracks W drawn (LostBy W drawn) (W.addIndirectLoop T child fuel b seg) (addIndirectLoop T child' fuel b seg) := by
  intro fuel
  induction fuel with
  | zero =>
    intro b seg
    unfold Watch.addIndirectLoop addIndirectLoop
    split
    · exact .pure _
    · exact .lift _
  | succ n ih =>
    intro b seg
    unfold Watch.addIndirectLoop addIndirectLoop
    split
    · exact .pure _
    · exact (hc seg).bindLost fun c => .liftBind fun b => ih b _

theorem addIndirect_tracks {child : Segment → PyS FState (Built × Segment)} {child' : Segment → PyS BState (Built × Segment)}
    (hc : ∀ seg, Tracks W drawn (LostBy W drawn) (child seg) (child' seg)) (b : BuilderPair) (seg : Segment) :
    Tracks W drawn (LostBy W drawn) (W.addIndirect T child b seg) (addIndirect T child' b seg) := by
  unfold Watch.addIndirect addIndirect
  exact .liftBind fun _ => (addIndirectLoop_tracks W drawn T hc _ _ _).bindLost fun _ => .liftBind fun _ => .pure _

theorem addDirectLoop_tracks (Bad : BuilderPair × Segment × Option Nat → BState → Prop) :
    ∀ (fuel : Nat) (b : BuilderPair) (seg : Segment) (least : Option Nat),
    Tracks W drawn Bad (W.addDirectLoop T fuel b seg least) (PyS.lift (addDirectLoop T fuel b seg least)) := by
  intro fuel
  induction fuel with
  | zero =>
    intro b seg least
    unfold Watch.addDirectLoop addDirectLoop
    split
    · exact .pure _
    · exact .lift _
  | succ n ih =>
    intro b seg least
    unfold Watch.addDirectLoop addDirectLoop
    split
    · exact .pure _
    · have h := fun c : ChunkMetadata => Tracks.noteChunk W T c (Tracks.liftBind (z := b.prependDirect c.hash (some c.payloadBytes)) fun b =>
        Tracks.liftBind (z := seg.decrementTail 1) fun seg => ih b seg (some c.chunkNumber))
      have h := Tracks.liftBind (z := T.chunk (seg.tail - 1)) h
      refine (congrArg (Tracks W drawn Bad _) ?_).mp h
      funext s
      simp only [PyS.bind_run, PyS.lift_run]
      cases T.chunk (seg.tail - 1) with
      | error e => rfl
      | ok c =>
        simp only [ok_bind]
        cases b.prependDirect c.hash (some c.payloadBytes) with
        | error e => rfl
        | ok b =>
          simp only [ok_bind]
          cases seg.decrementTail 1 <;> rfl

/-- The start segment id of an interior packet. -/
def lastIdOf : PyS BState (Option Nat) :=
  if T.ctx.manifest.usesNameId then do
      match (← PyS.get).lastId with
      | none => PyS.lift (.error .typeError)
      | some i => pure (some i)
    else pure none

theorem lastIdOf_state (s : BState) : (lastIdOf T s).2 = s := by
  unfold lastIdOf
  split
  · rw [PyS.bind_run, PyS.get_run]
    simp only
    cases s.lastId <;> rfl
  · rfl

theorem interiorPacket_eq (b : BuilderPair) (directStart : Option Nat) (level : Nat) : interiorPacket T b directStart level = (do
  let indirectStart ← lastIdOf T
  let groups ← PyS.lift (b.hashGroups T.ctx T.opts.addGroupLeafSize T.opts.addGroupSubtreeSize
    (if T.ctx.data.usesNameId then directStart else none) indirectStart)
  builderPacket T groups b.direct.directSize b.indirectBuilder.indirectSize level) := rfl

theorem watch_interiorPacket_eq (b : BuilderPair) (directStart : Option Nat) (level : Nat) : W.interiorPacket T b directStart level = (do
  let indirectStart ← (lastIdOf T).onBase
  let groups ← PyS.lift (b.hashGroups T.ctx T.opts.addGroupLeafSize T.opts.addGroupSubtreeSize
    (if T.ctx.data.usesNameId then directStart else none) indirectStart)
  W.builderPacket T groups b.direct.directSize b.indirectBuilder.indirectSize level) := rfl

theorem interiorPacket_tracks (b : BuilderPair) (directStart : Option Nat) (level : Nat) :
    Tracks W drawn (fun b _ => ¬ Spec.Watchable W drawn b.packet) (W.interiorPacket T b directStart level) (interiorPacket T b directStart level) := by
  rw [interiorPacket_eq, watch_interiorPacket_eq]
  refine Tracks.bind (Bad := fun _ _ => False) (.onBase fun s => by rw [lastIdOf_state]) (fun start => ?_) (by rintro _ _ _ ⟨⟩)
  refine Tracks.bindGood (Bad := fun _ _ => False) (Good := fun gs => ∀ g ∈ gs, g.pointers.isSome) (.lift _) (fun _ _ h => hashGroups_pointers h)
    (fun _ => .same (builderPacket_output T _ _ _ _)) (fun g hg => ?_) (by rintro _ _ _ _ ⟨⟩)
  exact builderPacket_tracks W drawn T _ hg _ _ _

theorem interiorPacket_fine {T : TreeEnv} {b : BuilderPair} {directStart : Option Nat} {level : Nat} {s : BState} {r : Built}
    (h : (interiorPacket T b directStart level s).1 = .ok r) : r.Fine T.env.prims := by
  obtain ⟨s', h⟩ : ∃ s', interiorPacket T b directStart level s = (.ok r, s') := ⟨_, Prod.ext h rfl⟩
  rw [interiorPacket_eq] at h
  obtain ⟨_, _, _, h⟩ := PyS.bind_ok h
  obtain ⟨g, hg, h⟩ := PyS.liftBind_ok h
  exact builderPacket_fine (hashGroups_pointers hg) (congrArg Prod.fst h)

theorem interiorManifest_tracks (hout : W.hasOutput = true) {child : Segment → PyS FState (Built × Segment)}
    {child' : Segment → PyS BState (Built × Segment)} (hc : ∀ seg, Tracks W drawn (LostBy W drawn) (child seg) (child' seg))
    (seg : Segment) (level : Nat) (rightMost : Option Built) :
    Tracks W drawn (LostBy W drawn) (W.interiorManifest T child seg level rightMost) (interiorManifest T child' seg level rightMost) := by
  unfold Watch.interiorManifest interiorManifest
  refine .liftBind fun b => (addIndirect_tracks W drawn T hc b seg).bindLost fun x => ?_
  refine (addDirectLoop_tracks W drawn T _ _ _ _ _).bindLost fun y => ?_
  refine Tracks.bindGood (interiorPacket_tracks W drawn T _ _ _) (fun _ _ h => interiorPacket_fine h) ?_ (fun b hb => ?_) ?_
  · exact fun b => .bind (putBuilt_puts T b) (fun _ => .lift (.ok _))
  · exact (finish_tracks W drawn T hout b hb).bindLost (fun _ => .pure _)
  · intro b s c hf hbad h
    simp only [PyS.bind_run] at h ⊢
    have hl : ∀ u, (putBuilt T b s).1 = .ok u → _ := fun u h => putBuilt_lost (W := W) (drawn := drawn) h hf hbad
    revert h hl
    cases putBuilt T b s with | mk r s' =>
    cases r with
    | error e => intro h; cases h
    | ok u => exact fun _ hl => hl u rfl

theorem bottomUp_tracks (hout : W.hasOutput = true) : ∀ (level : Nat) (seg : Segment) (rightMost : Option Built),
    Tracks W drawn (LostBy W drawn) (W.bottomUp T level seg rightMost) (bottomUp T level seg rightMost) := by
  intro level
  induction level with
  | zero => exact fun seg rightMost => .liftBind fun _ => leafManifest_tracks W drawn T hout seg 0
  | succ n ih =>
    intro seg rightMost
    unfold Watch.bottomUp bottomUp
    split
    · exact leafManifest_tracks W drawn T hout seg _
    · exact interiorManifest_tracks W drawn T hout (fun seg => ih seg none) seg _ rightMost

theorem buildLoop_tracks (hout : W.hasOutput = true) : ∀ (fuel level : Nat) (seg : Segment) (root : Built),
    Tracks W drawn (LostBy W drawn) (W.buildLoop T fuel level seg root) (buildLoop T fuel level seg root) := by
  intro fuel
  induction fuel with
  | zero =>
    intro level seg root
    unfold Watch.buildLoop buildLoop
    split
    · exact .pure _
    · exact .lift _
  | succ n ih =>
    intro level seg root
    unfold Watch.buildLoop buildLoop
    split
    · exact .pure _
    · exact (bottomUp_tracks W drawn T hout _ _ _).bindLost fun x => ih _ _ _

/-- The ids of a new tree builder. -/
def startIds : PyS BState Unit := do
  let ids ← PyS.lift (initialIds T.indirect T.height)
  PyS.modify (fun s => { s with nextIds := ids, lastId := none })

theorem buildTree_eq : buildTree T = (do
    startIds T
    let (root, seg) ← leafManifest T ⟨0, T.chunks.length⟩ 0
    buildLoop T (T.height.toNat + 1) 0 seg root) := by
  funext s
  unfold buildTree startIds
  simp only [PyS.bind_run, PyS.lift_run]
  cases initialIds T.indirect T.height <;> rfl

theorem buildTree_tracks (hout : W.hasOutput = true) : Tracks W drawn (LostBy W drawn) (W.buildTree T) (buildTree T) := by
  rw [buildTree_eq]
  show Tracks W drawn (LostBy W drawn) (do
    (startIds T).onBase
    let (root, seg) ← W.leafManifest T ⟨0, T.chunks.length⟩ 0
    W.buildLoop T (T.height.toNat + 1) 0 seg root) _
  refine Tracks.bindLost (.onBase ?_) fun _ => ?_
  · exact bind_output (fun _ => rfl) (fun _ _ => rfl)
  · exact (leafManifest_tracks W drawn T hout _ _).bindLost fun x => buildLoop_tracks W drawn T hout _ _ _ _

/-! ### The root -/

/-- The last part of `build`: make the root and put it. -/
def rootLast (total : Nat) (h : HashValue) : PyS BState Packet := do
  let r ← rootPacket T.env T.opts T.ctx total h
  PyS.modify (fun s => { s with output := s.output ++ [r.packet] })
  return r.packet

theorem buildRooted_eq (total : Nat) : buildRooted T total = (do
    let top ← buildTree T
    let h ← PyS.lift (top.packet.hash T.env.prims.sha256)
    rootLast T total h) := rfl

theorem factoryBase_root (total : Nat) (h : HashValue) : factoryBase T.env T.opts (.pointers [h]) (rootArgs T.opts T.ctx total) =
    (do return (← rootPacket T.env T.opts T.ctx total h).packet) := by
  funext b
  have h1 := C75_tree_root T.env (fun _ => []) T.opts T.ctx total h b
  obtain ⟨_, h2, h3⟩ := buildPacket_watch (drawn := False) T.env (fun _ => []) T.opts (.pointers [h]) (rootArgs T.opts T.ctx total) id { base := b }
    ⟨⟨(fun h => by cases h), False.elim⟩, nofun⟩
  rw [← h1]
  rcases h3 with ⟨h3, _⟩ | ⟨_, h, _⟩
  · exact Prod.ext h3.symm h2.symm
  · exact h.elim

theorem rootLast_eq (total : Nat) (h : HashValue) : rootLast T total h = (do
    let p ← factoryBase T.env T.opts (.pointers [h]) (rootArgs T.opts T.ctx total)
    PyS.modify (fun s => { s with output := s.output ++ [p] })
    return p) := by
  rw [factoryBase_root]
  funext s
  unfold rootLast
  simp only [PyS.bind_run]
  cases rootPacket T.env T.opts T.ctx total h s with
  | mk r s' => cases r <;> rfl

/-- The last part, watched. -/
def Watch.rootLast (total : Nat) (h : HashValue) : PyS FState Packet := do
  let p ← buildPacket T.env W.R T.opts (.pointers [h]) (rootArgs T.opts T.ctx total)
  W.say (p.display W.brief)
  if W.hasOutput then (PyS.modify (fun s => { s with output := s.output ++ [p] })).onBase
  else PyS.lift (.error .attributeError)
  return p

theorem rootLast_tracks (hout : W.hasOutput = true) (total : Nat) (h : HashValue) :
    Tracks W drawn (LostBy W drawn) (W.rootLast T total h) (rootLast T total h) := by
  rw [rootLast_eq]
  unfold Watch.rootLast
  refine ⟨.bind (.same (factoryBase_output _ _ _ _)) (fun p b => List.prefix_append _ _), fun s hs => ?_⟩
  have hout' := factoryBase_output T.env T.opts (.pointers [h]) (rootArgs T.opts T.ctx total) s.base
  obtain ⟨h1, h2, h3⟩ := buildPacket_watch T.env W.R T.opts (.pointers [h]) (rootArgs T.opts T.ctx total) id s hs
  have hok := fun p => factoryBase_ok (E := T.env) (o := T.opts) (src := .pointers [h]) (a := rootArgs T.opts T.ctx total) (b := s.base) (p := p)
  rw [PyS.bind_run, PyS.bind_run]
  revert h1 h2 h3 hok hout'
  cases buildPacket T.env W.R T.opts (.pointers [h]) (rootArgs T.opts T.ctx total) s with | mk x s1 =>
  cases factoryBase T.env T.opts (.pointers [h]) (rootArgs T.opts T.ctx total) s.base with | mk y b1 =>
  simp only
  rintro ho h1 rfl h3 hok
  rcases h3 with ⟨rfl, hl⟩ | ⟨⟨e, rfl⟩, hd, p, node, rfl, hn, hbad⟩
  · cases x with
    | error e => exact ⟨h1, .inl ⟨rfl, rfl, nofun⟩⟩
    | ok p =>
      simp only
      rw [PyS.bind_run]
      obtain ⟨g1, g2, g3⟩ := say_run W (p.display W.brief) s1
      revert g1 g2 g3
      cases W.say (p.display W.brief) s1 with | mk r s2 =>
      simp only
      rintro rfl g2 g3
      cases r with
      | error e =>
        refine ⟨h1, .inr ⟨⟨e, rfl⟩, .inl (g3 e rfl), List.prefix_append _ _, ?_⟩⟩
        rintro a ⟨⟩
        refine ⟨p, List.mem_append_right _ (List.mem_singleton.2 rfl), (hok p rfl).1, fun hw => ?_⟩
        have := g2.2 (fun hd => (C77_packet _ _).2 (hw.1 hd))
        cases this
      | ok u =>
        simp only [hout, if_true]
        refine ⟨h1, .inl ⟨rfl, rfl, ?_⟩⟩
        rintro a _ ⟨q, hq, hm, hbad⟩
        have hq : q ∈ s2.base.output ++ [p] := hq
        rw [List.mem_append, List.mem_singleton, ho] at hq
        rcases hq with hq | rfl
        · exact ⟨q, hq, hm, hbad⟩
        · exact absurd ⟨fun hd => (C77_packet _ _).1 (g2.1 rfl hd), fun hd => hl q rfl hd⟩ hbad
  · refine ⟨h1, .inr ⟨⟨e, rfl⟩, .inr hd, List.prefix_append _ _, ?_⟩⟩
    rintro a ⟨⟩
    refine ⟨p, List.mem_append_right _ (List.mem_singleton.2 rfl), (hok p rfl).1, fun hw => hbad ⟨?_, hw.2 hd⟩⟩
    obtain ⟨g, hg, hm⟩ := sourceNode_ok hn
    exact ⟨_, hashValues_of_some (by rw [hm.groups]; simp [hg.pointers])⟩

theorem buildRooted_tracks (hout : W.hasOutput = true) (total : Nat) :
    Tracks W drawn (LostBy W drawn) (W.buildRooted T total) (buildRooted T total) := by
  rw [buildRooted_eq]
  exact (buildTree_tracks W drawn T hout).bindLost fun top => .liftBind fun h => rootLast_tracks W drawn T hout total h

/-! ### The optimisation, with a paused graph -/

/-- With a paused graph, or none, the same happens and the graph stays as it is. -/
def Quiet {α : Type} (x : PyS FState α) (y : PyS BState α) : Prop :=
  ∀ s : FState, (∀ g, s.graph = some g → g.paused = true) →
    (x s).1 = (y s.base).1 ∧ (x s).2.base = (y s.base).2 ∧ (x s).2.graph = s.graph

theorem Quiet.bind {α β : Type} {x : PyS FState α} {y : PyS BState α} {f : α → PyS FState β} {g : α → PyS BState β} (h : Quiet x y)
    (hf : ∀ a, Quiet (f a) (g a)) : Quiet (x >>= f) (y >>= g) := by
  intro s hs
  have h := h s hs
  rw [PyS.bind_run, PyS.bind_run]
  revert h
  cases x s with | mk r s' => cases y s.base with | mk q b' =>
  rintro ⟨rfl, rfl, hg⟩
  cases r with
  | error e => exact ⟨rfl, rfl, hg⟩
  | ok a =>
    obtain ⟨h1, h2, h3⟩ := hf a s' (fun g h => hs g (by rw [← hg]; exact h))
    exact ⟨h1, h2, h3.trans hg⟩

theorem Quiet.lift {α : Type} (z : Py α) : Quiet (PyS.lift z) (PyS.lift z) := fun _ _ => ⟨rfl, rfl, rfl⟩

theorem buildPacket_quiet (E : Env) (R : NameComponent → Text) (o : TreeOptions) (src : Source) (a : BuildArgs)
    (ha : a.signer.isSome → o.signer.isSome) : Quiet (buildPacket E R o src a) (factoryBase E o src a) := by
  intro s hs
  unfold factoryBase
  rw [buildPacket_run E R o src a s ha, PyS.bind_run, PyS.lift_run]
  cases hn : sourceNode o src a with
  | error e => exact ⟨rfl, rfl, rfl⟩
  | ok node =>
    simp only
    cases hb : buildFromNode E o node a.name a.expiryTime (a.effectiveSigner o) a.full s.base with
    | mk r b1 =>
      cases r with
      | error e => exact ⟨rfl, rfl, rfl⟩
      | ok p =>
        simp only
        obtain ⟨m, s1, w, hm, hw, hlen, hbody, hsig, hx⟩ := buildFromNode_inv hb
        obtain ⟨k, hk⟩ := (signPacket_len hsig).1
        obtain ⟨hv, hh⟩ := built_has_hash hb
        have hr : recordManifest E.prims R p node { s with base := b1 } = (.ok (), { s with base := b1 }) := by
          unfold recordManifest
          cases hg : s.graph with
          | none => simp
          | some g =>
            have hp := hs g hg
            simp [hh, PyS.onGraph, ManifestGraph.addManifest, hp]
        simp only [factoryFinish, PyS.bind_run, hr, PyS.lift_run, hk, PyS.modify_run, PyS.pure_run]
        exact ⟨trivial, trivial, trivial⟩

theorem sizingPacket_quiet (E : Env) (o : TreeOptions) (ctx : NameCtx) (total n : Nat) :
    Quiet (W.sizingPacket E o ctx total n) (sizingPacket E o ctx total n) := by
  unfold Watch.sizingPacket sizingPacket
  refine Quiet.bind (.lift _) fun gs => ?_
  have h := buildPacket_quiet E W.R o (.groups gs) { nodeSubtreeSize := some total } (by simp)
  have hn : sourceNode o (.groups gs) { nodeSubtreeSize := some total } = nodeFromGroups o gs none (some total) := by
    unfold sourceNode
    simp only [sizeArg_eq _ (show T_SUBTREE_SIZE ≤ 0xFFFF by decide), sizeArg_eq _ (show T_LEAF_SIZE ≤ 0xFFFF by decide), ok_bind,
      nodeFromGroups_eq]
  unfold factoryBase at h
  rw [hn] at h
  exact h

theorem calculateMaxPointers_quiet (E : Env) (o : TreeOptions) (ctx : NameCtx) (total : Nat) :
    Quiet (W.calculateMaxPointers E o ctx total) (calculateMaxPointers E o ctx total) := by
  unfold Watch.calculateMaxPointers calculateMaxPointers
  refine Quiet.bind (sizingPacket_quiet W E o ctx total 1) fun p => Quiet.bind (.lift _) fun length => ?_
  split
  · exact .lift _
  · refine Quiet.bind (sizingPacket_quiet W E o ctx total _) fun p => Quiet.bind (.lift _) fun length => ?_
    split
    · exact .lift _
    · split
      · exact .lift _
      · exact .lift (.ok _)

theorem createOptimizedTree_quiet (E : Env) (L : FloatLog) (o : TreeOptions) (ctx : NameCtx) (file : FileMetadata) :
    Quiet (W.createOptimizedTree E L o ctx file) (createOptimizedTree E L o ctx file) := by
  unfold Watch.createOptimizedTree createOptimizedTree
  refine Quiet.bind (calculateMaxPointers_quiet W E o ctx _) fun p => ?_
  split
  · exact .lift _
  · exact .lift _

/-- The optimisation gives the same; the graph is as before, but not paused if it returns and paused if it raises. -/
theorem optimalTree_run (E : Env) (L : FloatLog) (o : TreeOptions) (ctx : NameCtx) (file : FileMetadata) (s : FState) :
    (W.optimalTree E L o ctx file s).1 = (createOptimizedTree E L o ctx file s.base).1 ∧
    (W.optimalTree E L o ctx file s).2.base = (createOptimizedTree E L o ctx file s.base).2 ∧
    (W.optimalTree E L o ctx file s).2.graph =
      s.graph.map (fun g => { g with paused := !(createOptimizedTree E L o ctx file s.base).1.isOk }) := by
  have hp : ∀ b (t : FState), setPaused b t = (.ok (), { t with graph := t.graph.map (fun g => { g with paused := b }) }) := by
    intro b t
    unfold setPaused PyS.onGraph
    cases h : t.graph with
    | none => simp only [Option.map_none]; rw [← h]
    | some g => rfl
  have h := createOptimizedTree_quiet W E L o ctx file { s with graph := s.graph.map (fun g => { g with paused := true }) } (by
    intro g hg
    cases hs : s.graph with
    | none => simp [hs] at hg
    | some g0 => simp only [hs, Option.map_some, Option.some.injEq] at hg; rw [← hg])
  unfold Watch.optimalTree
  simp only [PyS.bind_run, hp]
  revert h
  cases W.createOptimizedTree E L o ctx file { s with graph := s.graph.map (fun g => { g with paused := true }) } with | mk r s' =>
  simp only
  cases createOptimizedTree E L o ctx file s.base with | mk q b' =>
  rintro ⟨rfl, rfl, hg⟩
  cases r with
  | error e => exact ⟨rfl, rfl, by rw [hg]; rfl⟩
  | ok a =>
    refine ⟨rfl, rfl, ?_⟩
    simp only [PyS.pure_run, hg]
    cases s.graph <;> rfl

/-! ### The whole -/

/-- The part after the chunking, not watched. -/
def plainRun (E : Env) (L : FloatLog) (o : TreeOptions) (ctx : NameCtx) (file : FileMetadata) (out : List Packet) : Py Packet × BState :=
  match createOptimizedTree E L o ctx file { output := out } with
  | (.error e, b) => (.error e, b)
  | (.ok r, b) => buildRooted ⟨E, o, ctx, file.chunks, r.direct, r.indirect, r.height⟩ file.totalBytes b

/-- The part after the chunking, watched. -/
def Watch.run (E : Env) (L : FloatLog) (o : TreeOptions) (ctx : NameCtx) (file : FileMetadata) (out : List Packet)
    (graph : Option ManifestGraph) : Py Packet × FState :=
  match W.optimalTree E L o ctx file { base := { output := out }, graph := graph } with
  | (.error e, s) => (.error e, s)
  | (.ok r, s) => W.buildRooted ⟨E, o, ctx, file.chunks, r.direct, r.indirect, r.height⟩ file.totalBytes s

theorem run_tracks {W : Watch} (hout : W.hasOutput = true) (E : Env) (L : FloatLog) (o : TreeOptions) (ctx : NameCtx) (file : FileMetadata)
    {out : List Packet} (hdata : ∀ q ∈ out, q.body.payloadType = some PT_DATA) (graph : Option ManifestGraph) :
    ((W.run E L o ctx file out graph).1 = (plainRun E L o ctx file out).1 ∧
      (W.run E L o ctx file out graph).2.base = (plainRun E L o ctx file out).2 ∧
      ∀ a, (plainRun E L o ctx file out).1 = .ok a → ¬ Lost W graph.isSome (plainRun E L o ctx file out).2) ∨
    ((∃ e, (W.run E L o ctx file out graph).1 = .error e) ∧ (W.debug = true ∨ graph.isSome) ∧
      (W.run E L o ctx file out graph).2.base.output <+: (plainRun E L o ctx file out).2.output ∧
      ∀ a, (plainRun E L o ctx file out).1 = .ok a → Lost W graph.isSome (plainRun E L o ctx file out).2) := by
  unfold Watch.run plainRun
  obtain ⟨h1, h2, h3⟩ := optimalTree_run W E L o ctx file { base := { output := out }, graph := graph }
  obtain ⟨k, hk⟩ := createOptimizedTree_frame E L o ctx file { output := out }
  revert h1 h2 h3 hk
  cases W.optimalTree E L o ctx file { base := { output := out }, graph := graph } with | mk x s =>
  simp only
  cases createOptimizedTree E L o ctx file { output := out } with | mk y b =>
  rintro rfl rfl hg hk
  cases x with
  | error e => exact .inl ⟨rfl, rfl, nofun⟩
  | ok r =>
    simp only at hg hk ⊢
    have hnot : ∀ D, ¬ Lost W D s.base := by
      rintro D ⟨p, hp, hm, _⟩
      rw [hk] at hp
      rw [hdata p hp] at hm
      exact absurd hm (by decide)
    have hs : s.Ready graph.isSome := by
      refine ⟨by rw [hg]; cases graph <;> simp, ?_⟩
      intro g h
      rw [hg] at h
      cases graph with
      | none => cases h
      | some g0 =>
        simp only [Option.map_some, Option.some.injEq] at h
        rw [← h]
        rfl
    rcases ((buildRooted_tracks W graph.isSome ⟨E, o, ctx, file.chunks, r.direct, r.indirect, r.height⟩ hout file.totalBytes).2 s hs).2
      with ⟨h1, h2, h3⟩ | h
    · exact .inl ⟨h1, h2, fun a ha hl => hnot _ (h3 a ha hl)⟩
    · exact .inr h

theorem manifestTree_watched (E : Env) (L : FloatLog) (o : TreeOptions) (nc : Nat) (nameCtx : Option NameCtx) (input : DataInput)
    (graph : Option ManifestGraph) : W.manifestTree E L o nc nameCtx input graph =
    match (match nameCtx with
      | some ctx => .ok ctx
      | none => NameCtx.create o.schemaType nc o.name o.manifestPrefix o.dataPrefix o.manifestLocators o.dataLocators : Py NameCtx) with
    | .error e => (.error e, { graph := graph })
    | .ok ctx =>
      match W.chunk E o ctx input with
      | (.error e, out) => (.error e, { base := { output := out }, graph := graph })
      | (.ok file, out) => W.run E L o ctx file out graph := rfl

theorem chunk_data {W : Watch} {E : Env} {o : TreeOptions} {ctx : NameCtx} {input : DataInput} :
    ∀ q ∈ (W.chunk E o ctx input).2, q.body.payloadType = some PT_DATA := by
  cases input with
  | cut f => exact fun q h => by cases h
  | stream i =>
    unfold Watch.chunk
    simp only
    split
    · exact chunkData_data _ _ _ _
    · split <;> exact fun q h => by cases h

/-- The build that is not watched: no `debug`, no graph. -/
def Spec.unwatched (W : Watch) : Watch := { W with debug := false }

/-! ## The theorems -/

/-- C110: without `debug` and graph, with an output and a stream, this is the build of the other properties. -/
theorem C110_plain (W : Watch) (hd : W.debug = false) (hout : W.hasOutput = true) (E : Env) (L : FloatLog) (o : TreeOptions) (nc : Nat)
    (input : Stream) :
    ((W.manifestTree E L o nc none (.stream input) none).1, (W.manifestTree E L o nc none (.stream input) none).2.base.output) =
      manifestTree E L o nc input := by
  rw [manifestTree_watched]
  unfold manifestTree
  simp only
  cases NameCtx.create o.schemaType nc o.name o.manifestPrefix o.dataPrefix o.manifestLocators o.dataLocators with
  | error e => rfl
  | ok ctx =>
    have hc := chunk_data (W := W) (E := E) (o := o) (ctx := ctx) (input := .stream input)
    simp only [Watch.chunk, hout, if_true] at hc ⊢
    cases hr : ctx.data.chunkData E.prims.sha256 o.chunk input {} with
    | mk r st =>
      rw [hr] at hc
      cases r with
      | error e => rfl
      | ok file =>
        simp only at hc ⊢
        rcases run_tracks hout E L o ctx file hc none with ⟨h1, h2, _⟩ | ⟨_, h, _⟩
        · rw [h1, h2]
          unfold plainRun
          cases createOptimizedTree E L o ctx file { output := st.output } with
          | mk x b =>
            cases x with
            | error e => rfl
            | ok r =>
              simp only
              cases buildRooted ⟨E, o, ctx, file.chunks, r.direct, r.indirect, r.height⟩ file.totalBytes b with
              | mk y b => cases y <;> rfl
        · rw [hd] at h
          simp at h

/-- C110: a watched build puts the packets of the one that is not watched, in that order; it may stop earlier.  If it returns, the other
returns the same packet and has put the same packets. -/
theorem C110_same (W : Watch) (hout : W.hasOutput = true) (E : Env) (L : FloatLog) (o : TreeOptions) (nc : Nat) (ctx : Option NameCtx)
    (input : DataInput) (graph : Option ManifestGraph) :
    (W.manifestTree E L o nc ctx input graph).2.base.output <+:
      ((Spec.unwatched W).manifestTree E L o nc ctx input none).2.base.output ∧
    ∀ p, (W.manifestTree E L o nc ctx input graph).1 = .ok p →
      ((Spec.unwatched W).manifestTree E L o nc ctx input none).1 = .ok p ∧
      (W.manifestTree E L o nc ctx input graph).2.base.output = ((Spec.unwatched W).manifestTree E L o nc ctx input none).2.base.output := by
  rw [manifestTree_watched, manifestTree_watched]
  generalize (match ctx with
      | some ctx => Except.ok ctx
      | none => NameCtx.create o.schemaType nc o.name o.manifestPrefix o.dataPrefix o.manifestLocators o.dataLocators : Py NameCtx) = z
  cases z with
  | error e => exact ⟨List.prefix_refl _, nofun⟩
  | ok ctx =>
    have he : (Spec.unwatched W).chunk E o ctx input = W.chunk E o ctx input := rfl
    have hc := chunk_data (W := W) (E := E) (o := o) (ctx := ctx) (input := input)
    simp only [he]
    revert hc
    cases W.chunk E o ctx input with | mk r out =>
    intro hc
    cases r with
    | error e => exact ⟨List.prefix_refl _, nofun⟩
    | ok file =>
      simp only
      rcases run_tracks (W := Spec.unwatched W) hout E L o ctx file hc none with ⟨u1, u2, _⟩ | ⟨_, h, _⟩
      · rw [u1, u2]
        rcases run_tracks hout E L o ctx file hc graph with ⟨h1, h2, _⟩ | ⟨⟨e, h1⟩, _, h2, _⟩
        · rw [h1, h2]
          exact ⟨List.prefix_refl _, fun p hp => ⟨hp, rfl⟩⟩
        · rw [h1]
          exact ⟨h2, nofun⟩
      · simp [Spec.unwatched] at h

/-- C110 (exactly when): if the build that is not watched returns, the watched one does just if each manifest that is put can be watched. -/
theorem C110_exact (W : Watch) (hout : W.hasOutput = true) (E : Env) (L : FloatLog) (o : TreeOptions) (nc : Nat) (ctx : Option NameCtx)
    (input : DataInput) (graph : Option ManifestGraph) (p : Packet)
    (h : ((Spec.unwatched W).manifestTree E L o nc ctx input none).1 = .ok p) :
    (W.manifestTree E L o nc ctx input graph).1 = .ok p ↔
      ∀ q ∈ ((Spec.unwatched W).manifestTree E L o nc ctx input none).2.base.output, q.body.payloadType = some PT_MANIFEST →
        Spec.Watchable W graph.isSome q := by
  rw [manifestTree_watched] at h ⊢
  rw [manifestTree_watched]
  revert h
  generalize (match ctx with
      | some ctx => Except.ok ctx
      | none => NameCtx.create o.schemaType nc o.name o.manifestPrefix o.dataPrefix o.manifestLocators o.dataLocators : Py NameCtx) = z
  cases z with
  | error e => intro h; cases h
  | ok ctx =>
    have he : (Spec.unwatched W).chunk E o ctx input = W.chunk E o ctx input := rfl
    have hc := chunk_data (W := W) (E := E) (o := o) (ctx := ctx) (input := input)
    simp only [he]
    revert hc
    cases W.chunk E o ctx input with | mk r out =>
    intro hc
    cases r with
    | error e => intro h; cases h
    | ok file =>
      simp only
      rcases run_tracks (W := Spec.unwatched W) hout E L o ctx file hc none with ⟨u1, u2, _⟩ | ⟨_, h, _⟩
      · rw [u1, u2]
        intro h
        rcases run_tracks hout E L o ctx file hc graph with ⟨h1, h2, h3⟩ | ⟨⟨e, h1⟩, _, h2, h3⟩
        · rw [h1]
          refine iff_of_true h fun q hq hm => Classical.byContradiction fun hw => h3 p h ⟨q, hq, hm, hw⟩
        · rw [h1]
          refine iff_of_false nofun fun hall => ?_
          obtain ⟨q, hq, hm, hw⟩ := h3 p h
          exact hw (hall q hq hm)
      · simp [Spec.unwatched] at h

/-- C110: without an output nothing is built, although the tree builder does without one (TreeBuilder.py:287-292). -/
theorem C110_no_output (W : Watch) (hout : W.hasOutput = false) (E : Env) (L : FloatLog) (o : TreeOptions) (nc : Nat) (ctx : Option NameCtx)
    (input : DataInput) (graph : Option ManifestGraph) (p : Packet) : (W.manifestTree E L o nc ctx input graph).1 ≠ .ok p := by
  have key : ∀ T total s, (W.buildRooted T total s).1 ≠ .ok p := by
    intro T total s h
    obtain ⟨s', h⟩ : ∃ s', W.buildRooted T total s = (.ok p, s') := ⟨_, Prod.ext h rfl⟩
    unfold Watch.buildRooted at h
    obtain ⟨_, _, _, h⟩ := PyS.bind_ok h
    obtain ⟨_, _, h⟩ := PyS.liftBind_ok h
    obtain ⟨_, _, _, h⟩ := PyS.bind_ok h
    obtain ⟨_, _, _, h⟩ := PyS.bind_ok h
    simp only [hout, Bool.false_eq_true, if_false] at h
    obtain ⟨_, h', _⟩ := PyS.liftBind_ok h
    cases h'
  rw [manifestTree_watched]
  intro h
  split at h
  · cases h
  · split at h
    · cases h
    · unfold Watch.run at h
      split at h
      · cases h
      · exact key _ _ _ h

/-- C110: if the optimisation raises, the graph stays paused: what is told to it from then on is not drawn, until someone resumes it. -/
theorem C110_paused (W : Watch) (E : Env) (L : FloatLog) (o : TreeOptions) (nc : Nat) (ctx : NameCtx) (file : FileMetadata) (g : ManifestGraph)
    (e : PyErr) (h : (createOptimizedTree E L o ctx file {}).1 = .error e) :
    (W.manifestTree E L o nc (some ctx) (.cut file) (some g)).1 = .error e ∧
    (W.manifestTree E L o nc (some ctx) (.cut file) (some g)).2.graph = some { g with paused := true } ∧
    ∀ P R hv name, ManifestGraph.step P R { g with paused := true } (.data hv name) = { g with paused := true } ∧
      ∀ node, ManifestGraph.step P R { g with paused := true } (.manifest hv node name) = { g with paused := true } := by
  refine ⟨?_, ?_, fun P R hv name => ⟨rfl, fun node => rfl⟩⟩
  all_goals
    rw [manifestTree_watched]
    simp only [Watch.chunk, Watch.run]
    obtain ⟨h1, h2, h3⟩ := optimalTree_run W E L o ctx file { base := {}, graph := some g }
    revert h1 h2 h3
    cases W.optimalTree E L o ctx file { base := {}, graph := some g } with | mk x s =>
    simp only [h]
    rintro rfl _ h3
    simp [h3, Except.isOk, Except.toBool]

/-! ## Builds that can be watched -/

/-- The names of the manifests of the tree make labels, if the names in the options do. -/
theorem manifest_labelled {o : TreeOptions} {nc : Nat} {ctx : NameCtx}
    (h : NameCtx.create o.schemaType nc o.name o.manifestPrefix o.dataPrefix o.manifestLocators o.dataLocators = .ok ctx)
    (hl : ∀ n, (o.name = some n ∨ o.manifestPrefix = some n ∨ o.dataPrefix = some n) → Spec.Labelled (some n)) {j : Nat} {nm : Option Name}
    (hn : ctx.manifest.getName (some (j : Int)) = .ok nm) : Spec.Labelled nm := by
  by_cases hs : o.schemaType = .segmented
  · rw [hs] at h
    unfold NameCtx.create at h
    simp only at h
    split at h
    · cases h
    · generalize (if o.manifestPrefix.isNone = true then o.name else o.manifestPrefix) = m at h
      generalize (if o.dataPrefix.isNone = true then o.name else o.dataPrefix) = d at h
      split at h
      · cases h
      · unfold NameCtx.createNamed at h
        simp only [Bool.false_eq_true, if_false] at h
        obtain ⟨x, hx, h⟩ := bind_eq_ok.mp h
        obtain ⟨y, hy, h⟩ := bind_eq_ok.mp h
        cases h
        have hx := schemaCreate_inv hx
        simp only [hx] at hn
        rcases getName_inv hn with ⟨_, _, h, _⟩ | ⟨_, _, h⟩ | ⟨p, st, l, f, h, _, rfl, _⟩
        · cases h
        · cases h
        · simp only [schemaFor, if_true, NcSchema.segmented.injEq, Option.some.injEq] at h
          obtain ⟨_, rfl, _⟩ := h
          rintro m ⟨⟩
          refine ⟨p.components, segComponent T_MANIFESTID j, rfl, .inl ⟨.inr rfl, short_of_lt ?_⟩⟩
          show arrayToNumber (beBytes (numWidth j) j) < _
          rw [arrayToNumber_beBytes]
          exact Nat.lt_of_lt_of_le (Nat.mod_lt _ (Nat.pow_pos (by decide)))
            (Nat.le_trans (Nat.pow_le_pow_right (by decide) (numWidth_le j)) (by decide : 256 ^ 8 ≤ 2 ^ 64))
  · cases nm with
    | none => exact nofun
    | some n => exact hl n (nameCtx_prefix hs h (.inl rfl) hn)

/-- C110: a graph alone stops no build, if the names in the options make labels (are not empty, and text up to a last number). -/
theorem C110_drawn (W : Watch) (hd : W.debug = false) (hout : W.hasOutput = true) (E : Env) (L : FloatLog) (o : TreeOptions) (nc : Nat)
    (input : Stream) (graph : Option ManifestGraph) (root : Packet) (out : List Packet) (h : manifestTree E L o nc input = (.ok root, out))
    (hl : ∀ n, (o.name = some n ∨ o.manifestPrefix = some n ∨ o.dataPrefix = some n) → Spec.Labelled (some n)) :
    (W.manifestTree E L o nc none (.stream input) graph).1 = .ok root ∧
    (W.manifestTree E L o nc none (.stream input) graph).2.base.output = out := by
  have hp := C110_plain (Spec.unwatched W) rfl hout E L o nc input
  rw [h] at hp
  obtain ⟨h1, h2⟩ := Prod.ext_iff.1 hp
  have hret := (C110_exact W hout E L o nc none (.stream input) graph root h1).2 (by
    intro q hq hm
    refine ⟨(fun h => by rw [hd] at h; cases h), fun _ => ?_⟩
    simp only at h2
    rw [h2] at hq
    obtain ⟨R⟩ := manifestTree_ok h
    obtain ⟨ids, level, i, kids, _, hv, _, _, _, _, _, ho⟩ := R.forest
    rw [ho] at hq
    rcases List.mem_append.1 hq with hq | hq
    · rcases List.mem_append.1 hq with hq | hq
      · have := chunkData_data E.prims.sha256 R.ctx.data o.chunk input q (R.put ▸ hq)
        rw [this] at hm
        exact absurd hm (by decide)
      · obtain ⟨j, hj, rfl⟩ := List.mem_map.mp hq
        obtain ⟨hh, name, s, s', hnm, hbd⟩ := hv.made j hj
        obtain ⟨_, _, w, _, _, _, hbody, hsg, _⟩ := buildFromNode_inv hbd
        have : j.packet.body.name = name := by rw [hbody]; rfl
        rw [this]
        exact manifest_labelled R.ctx_ok hl hnm
    · obtain rfl := List.mem_singleton.1 hq
      obtain ⟨_, _, hb⟩ := R.root_signed
      have : q.body.name = o.name := by rw [hb]
      rw [this]
      cases hn : o.name with
      | none => exact nofun
      | some n => exact hl n (.inl hn))
  exact ⟨hret, ((C110_same W hout E L o nc none (.stream input) graph).2 root hret).2.trans h2⟩

/-- C110: with `debug` too, if the manifests can be shown: the names and locators are text, no key link is sent (neither by the signer nor
by the encryptor), and the numbers fit (`Spec.Equipped` of some reader). -/
theorem C110_shown (W : Watch) (hout : W.hasOutput = true) (E : Env) (L : FloatLog) (o : TreeOptions) (nc : Nat)
    (input : Stream) (graph : Option ManifestGraph) (root : Packet) (out : List Packet) (h : manifestTree E L o nc input = (.ok root, out))
    (ks : Keystore) (he : Spec.Equipped E o nc (some ks)) (hw : Spec.WholeOptions o)
    (ht : Spec.TextNames o) (hlink : NoKeyLink o.encryptor) (hs : o.schemaType ≠ .segmented)
    (hl : ∀ n, (o.name = some n ∨ o.manifestPrefix = some n ∨ o.dataPrefix = some n) → n.components ≠ []) :
    (W.manifestTree E L o nc none (.stream input) graph).1 = .ok root ∧
    (W.manifestTree E L o nc none (.stream input) graph).2.base.output = out := by
  have hp := C110_plain (Spec.unwatched W) rfl hout E L o nc input
  rw [h] at hp
  obtain ⟨h1, h2⟩ := Prod.ext_iff.1 hp
  have hlabel : ∀ n, (o.name = some n ∨ o.manifestPrefix = some n ∨ o.dataPrefix = some n) → Spec.Labelled (some n) := by
    rintro n hn m ⟨⟩
    rcases List.eq_nil_or_concat n.components with h0 | ⟨cs, c, hc⟩
    · exact absurd h0 (hl n hn)
    · refine ⟨cs, c, by rw [hc]; simp, .inr fun x hx => ⟨fun hx1 => ⟨he.names n hn x hx, ?_⟩, (ht n hn x hx).2⟩⟩
      obtain ⟨t, ht⟩ := (ht n hn x hx).1 hx1
      exact ⟨t, ht.symm⟩
  have hret := (C110_exact W hout E L o nc none (.stream input) graph root h1).2 (by
    intro q hq hm
    simp only at h2
    rw [h2] at hq
    obtain ⟨R⟩ := manifestTree_ok h
    obtain ⟨ids, level, i, kids, _, hv, _, _, _, _, _, ho⟩ := R.forest
    have hseg : R.ctx.manifest.usesNameId = false := by
      simpa using fun hu => hs ((nameCtx_inv R.ctx_ok).2.2.mp hu)
    have hshown := whole_shown (all_readBack R he.names hw q hq).1.whole
    rw [ho] at hq
    obtain ⟨hg, hn1, hn2⟩ := nameCtx_good R.ctx_ok
    obtain ⟨hb, hnum, _⟩ := R.fits
    have hnc := he.counter
    have hfits := forest_fits hnum hb (by show R.ctx.manifest.ncId < _; omega) (by show R.ctx.data.ncId < _; omega) hv
      (fun hu => by rw [show R.env.ctx.manifest.usesNameId = false from hseg] at hu; cases hu)
    rcases List.mem_append.1 hq with hq | hq
    · rcases List.mem_append.1 hq with hq | hq
      · have := chunkData_data E.prims.sha256 R.ctx.data o.chunk input q (R.put ▸ hq)
        rw [this] at hm
        exact absurd hm (by decide)
      · obtain ⟨j, hj, rfl⟩ := List.mem_map.mp hq
        obtain ⟨hh, name, s, s', hnm, hbd⟩ := hv.made j hj
        obtain ⟨_, _, w, _, _, _, hbody, hsg, _⟩ := buildFromNode_inv hbd
        have hname : j.packet.body.name = name := by rw [hbody]; rfl
        have halg : j.packet.alg = none := by
          obtain ⟨_, _, he⟩ := createContentObject_inv hsg
          rw [he]
        refine ⟨fun _ => ⟨⟨?_, hshown.1, hshown.2.1, .inl ⟨hm, ?_⟩⟩, fun k l t ha => by rw [halg] at ha; cases ha⟩, fun _ => ?_⟩
        · rintro n hn
          rw [hname] at hn
          subst hn
          have := nameCtx_prefix hs R.ctx_ok (.inl rfl) hnm
          exact readable_of_text (he.names n this) (ht n this)
        · obtain ⟨m', w, hw, hdes, hdis, _⟩ := read_shown he.decrypt hlink (hfits j hj).1 hbd
            (manifest_shown (Forest.Valid.locators hv j hj) (hfits j hj).2 (numbers_short (hfits j hj).1))
          exact ⟨w, hw, .inr ⟨m', hdes, (C77_manifest m').1 hdis⟩⟩
        · rw [hname]
          exact manifest_labelled R.ctx_ok hlabel hnm
    · obtain rfl := List.mem_singleton.1 hq
      obtain ⟨_, _, hb⟩ := R.root_signed
      have hname : q.body.name = o.name := by rw [hb]
      obtain ⟨hv, c, node, m, H⟩ := R.root_read he.aead he.oaep he.rsa he.verify he.decrypt hnc
      have hprint := (nameCtx_printable hnc R.ctx_ok).2 he.text
      obtain ⟨n, name, x, sg, s, s', hbd, rfl, hfit⟩ := H.made
      have hshow := manifest_shown H.locators ⟨H.groups, by rw [H.defs]; exact fun d hd => ⟨H.schemas d hd, hprint d hd⟩⟩ H.short
      refine ⟨fun _ => ⟨⟨?_, hshown.1, hshown.2.1, .inl ⟨hm, ?_⟩⟩, ?_⟩, fun _ => ?_⟩
      · intro n hn
        rw [hname] at hn
        exact readable_of_text (he.names n (.inl hn)) (ht n (.inl hn))
      · obtain ⟨m', w, hw, hdes, hdis, _⟩ := read_shown he.decrypt hlink hfit hbd hshow
        exact ⟨w, hw, .inr ⟨m', hdes, (C77_manifest m').1 hdis⟩⟩
      · intro k l t ha
        obtain rfl := (root_readsBack R he.names hw).1.nolink k _ t ha
        exact ⟨nofun, hshown.2.2 _ _ _ ha⟩
      · rw [hname]
        cases hn : o.name with
        | none => exact nofun
        | some n => exact hlabel n (.inl hn))
  exact ⟨hret, ((C110_same W hout E L o nc none (.stream input) graph).2 root hret).2.trans h2⟩

/-! ## Examples -/

namespace Toy

def watch (debug : Bool) : Watch := ⟨debug, true, false, fun _ => []⟩

/-- What a watched build of eight chunks comes to: whether it returns, how many packets it has put, how many hashes are in the picture, how
many packets the factory has counted. -/
def watched (debug : Bool) (graph : Option ManifestGraph) (o : TreeOptions) : Bool × Nat × Option Nat × Nat :=
  let x := (watch debug).manifestTree env Spec.exactLog o 1 none (.stream (shortReads 32)) graph
  (x.1.toBool, x.2.base.output.length, x.2.graph.map (·.entries.length), x.2.cntManifests)

end Toy

set_option maxRecDepth 100000 in
/-- C110_plain, C110_same, C110_exact: shown and drawn, an encrypted file of eight chunks and five manifests is published as unwatched; two
more manifests were counted, the ones the optimisation built for their size. -/
example : Toy.watched true (some {}) (Toy.options .prefixed true) = (true, 13, some 13, 7) ∧
    Toy.watched false none (Toy.options .prefixed true) = (true, 13, none, 7) := by decide +kernel

set_option maxRecDepth 100000 in
/-- C110_exact: a manifest prefix that is not UTF-8.  The build publishes thirteen packets; with `debug` it stops at the first manifest with
eight, with a graph as well; if only the name of the root is not UTF-8 it stops before the root is put. -/
example : let o := { Toy.options .prefixed true with manifestPrefix := Toy.seg [255] }
    Toy.watched false none o = (true, 13, none, 7) ∧ Toy.watched true none o = (false, 8, none, 3) ∧
      Toy.watched false (some {}) o = (false, 8, some 3, 2) := by decide +kernel

set_option maxRecDepth 100000 in
example : let o := { Toy.options .prefixed true with name := Toy.seg [255] }
    Toy.watched false none o = (true, 13, none, 7) ∧ Toy.watched true none o = (false, 12, none, 7) := by decide +kernel

set_option maxRecDepth 100000 in
/-- C110_drawn needs the names to be non-empty: an empty root name (`ccnx:/`) is published, and shown, but cannot be drawn. -/
example : let o := { Toy.options .prefixed true with name := some ⟨[]⟩ }
    Toy.watched true none o = (true, 13, none, 7) ∧ Toy.watched false (some {}) o = (false, 12, some 12, 6) := by decide +kernel

set_option maxRecDepth 100000 in
/-- The hypotheses of C110_shown and C110_drawn: the encrypted file of eight chunks. -/
example : ∃ root out, manifestTree Toy.env Spec.exactLog (Toy.options .prefixed true) 1 (Toy.shortReads 32) = (.ok root, out) ∧
    Spec.Equipped Toy.env (Toy.options .prefixed true) 1 (some Toy.aesKeys) ∧ Spec.WholeOptions (Toy.options .prefixed true) ∧
    Spec.TextNames (Toy.options .prefixed true) ∧ NoKeyLink (Toy.options .prefixed true).encryptor ∧
    (∀ n, ((Toy.options .prefixed true).name = some n ∨ (Toy.options .prefixed true).manifestPrefix = some n ∨
      (Toy.options .prefixed true).dataPrefix = some n) → n.components ≠ [] ∧ Spec.Labelled (some n)) := by
  obtain ⟨root, out, h, _, he, _⟩ := Toy.equipped (o := Toy.options .prefixed true) (input := Toy.shortReads 32) (n := 8)
    trivial Toy.canDecrypt (Toy.plain ⟨rfl, rfl, rfl⟩) (Toy.text rfl rfl rfl) (by decide +kernel)
  have ht : Spec.TextNames (Toy.options .prefixed true) := by
    rintro n (h | h | h) <;> cases h <;> rintro c hc <;> obtain rfl := List.mem_singleton.1 hc <;>
      refine ⟨fun _ => ?_, fun h => absurd h (by decide)⟩
    · exact ⟨['r'], by decide⟩
    · exact ⟨['m'], by decide⟩
    · exact ⟨['d'], by decide⟩
  refine ⟨root, out, h, he, Toy.whole _ _, ht, nofun, fun n hn => ?_⟩
  have hr : Spec.ReadableName n := readable_of_text (he.names n hn) (ht n hn)
  rcases hn with h | h | h <;> cases h <;> exact ⟨by simp, fun m hm => by cases hm; exact ⟨[], _, rfl, .inr fun x hx => ⟨fun h1 => ⟨((hr x hx).1 h1).1, ((hr x hx).1 h1).2.imp fun _ => Eq.symm⟩, (hr x hx).2⟩⟩⟩

/-- C110_no_output: without an output the same options do not get past the first data packet. -/
example : ((⟨false, false, false, fun _ => []⟩ : Watch).manifestTree Toy.env Spec.exactLog (Toy.options .prefixed true) 1 none
    (.stream (Toy.shortReads 32)) none).1.toBool = false := by decide +kernel

set_option maxRecDepth 100000 in
/-- C110_paused: a packet size that holds no pointer. -/
example : ∃ e, (createOptimizedTree Toy.env Spec.exactLog { Toy.options .prefixed true with maxPacketSize := 60 }
    ⟨⟨1, schemaFor .prefixed none (Toy.seg [109]) true⟩, ⟨2, schemaFor .prefixed none (Toy.seg [100]) false⟩, false⟩
    ⟨[⟨0, 3, .sha256 (Toy.sha [1])⟩], 3⟩ {}).1 = .error e := by
  obtain ⟨e, s, h, _⟩ := Toy.error_of_eval (x := createOptimizedTree Toy.env Spec.exactLog { Toy.options .prefixed true with maxPacketSize := 60 }
    ⟨⟨1, schemaFor .prefixed none (Toy.seg [109]) true⟩, ⟨2, schemaFor .prefixed none (Toy.seg [100]) false⟩, false⟩
    ⟨[⟨0, 3, .sha256 (Toy.sha [1])⟩], 3⟩ {}) (f := fun _ => 0) (n := 0) (by decide +kernel)
  exact ⟨e, by rw [h]⟩

end Ccnpy
