import Verif.Lemmas.TreeFile

/-!
# Which nonce seals which manifest
-/

namespace Ccnpy

/-- `x`, run in a state with `I`, returns a value and a state with `J`, or raises in a state with `W`. -/
structure PyS.Tri {σ α : Type} (I : σ → Prop) (x : PyS σ α) (J : α → σ → Prop) (W : σ → Prop) : Prop where
  run : ∀ s, I s → match x s with
    | (.ok a, s') => J a s'
    | (.error _, s') => W s'

variable {σ α β : Type} {I : σ → Prop} {W : σ → Prop}

theorem PyS.Tri.bind {x : PyS σ α} {f : α → PyS σ β} {J : α → σ → Prop} {K : β → σ → Prop} (hx : PyS.Tri I x J W)
    (hf : ∀ a, PyS.Tri (J a) (f a) K W) : PyS.Tri I (x >>= f) K W := by
  refine ⟨fun s hs => ?_⟩
  have h := hx.run s hs
  rw [PyS.bind_run]
  cases hxs : x s with
  | mk r s' =>
    rw [hxs] at h
    cases r with
    | ok a => exact (hf a).run s' h
    | error e => exact h

theorem PyS.Tri.pure {J : α → σ → Prop} (a : α) (h : ∀ s, I s → J a s) : PyS.Tri I (pure a : PyS σ α) J W :=
  ⟨fun s hs => h s hs⟩

theorem PyS.Tri.lift (hw : ∀ s, I s → W s) (x : Py α) : PyS.Tri I (PyS.lift x) (fun _ => I) W := by
  refine ⟨fun s hs => ?_⟩
  rw [PyS.lift_run]
  cases x with
  | ok a => exact hs
  | error e => exact hw s hs

theorem PyS.Tri.get : PyS.Tri I (PyS.get : PyS σ σ) (fun _ => I) W := ⟨fun _ hs => hs⟩

theorem PyS.Tri.modify {J : Unit → σ → Prop} {f : σ → σ} (h : ∀ s, I s → J () (f s)) : PyS.Tri I (PyS.modify f) J W :=
  ⟨fun s hs => h s hs⟩

/-- The payload is the encryption of some node under draw `i`. -/
def SealedWith (E : Env) (o : TreeOptions) (p : Packet) (i : Nat) : Prop :=
  ∃ node sl m w, ((∃ params, o.encryptor = some (.aead params) ∧ aeadEncrypt E.prims params (E.nonce i) node = .ok sl) ∨
      (∃ params wr full, o.encryptor = some (.oaep params wr) ∧
        oaepEncrypt E.prims params (some wr) full (E.nonce i) node = .ok sl)) ∧
    sl.manifest = .ok m ∧ m.serialize = .ok w ∧ p.body.payloadType = some PT_MANIFEST ∧ p.body.payload = some w

/-- The packets written after `base` are sealed with the draws `c`, `c + 1`, and so on. -/
def SealedFrom (E : Env) (o : TreeOptions) (base : List Packet) (c : Nat) (s : BState) : Prop :=
  ∃ ms, s.output = base ++ ms ∧ ∀ k p, ms[k]? = some p → SealedWith E o p (c + k)

/-- … and the next draw is the next number. -/
def Drawn (E : Env) (o : TreeOptions) (base : List Packet) (c : Nat) (s : BState) : Prop :=
  ∃ ms, s.output = base ++ ms ∧ (∀ k p, ms[k]? = some p → SealedWith E o p (c + k)) ∧ s.nonces = c + ms.length

/-- … and a manifest has been made with the last draw. -/
def Pending (E : Env) (o : TreeOptions) (base : List Packet) (c : Nat) (p : Packet) (s : BState) : Prop :=
  ∃ ms, s.output = base ++ ms ∧ (∀ k p, ms[k]? = some p → SealedWith E o p (c + k)) ∧ s.nonces = c + ms.length + 1 ∧
    SealedWith E o p (c + ms.length)

variable {E : Env} {o : TreeOptions} {base : List Packet} {c : Nat}

theorem Drawn.weak {s : BState} (h : Drawn E o base c s) : SealedFrom E o base c s := by
  obtain ⟨ms, h1, h2, _⟩ := h
  exact ⟨ms, h1, h2⟩

theorem Pending.weak {p : Packet} {s : BState} (h : Pending E o base c p s) : SealedFrom E o base c s := by
  obtain ⟨ms, h1, h2, _⟩ := h
  exact ⟨ms, h1, h2⟩

/-- Making a manifest draws once, whatever the outcome. -/
theorem buildManifest_draw (henc : o.encryptor.isSome) (node : Node) (full : Bool) (s : BState) :
    (buildManifest E o node full s).2 = { s with nonces := s.nonces + 1 } := by
  unfold buildManifest
  cases he : o.encryptor with
  | none => rw [he] at henc; cases henc
  | some enc => cases enc <;> simp [PyS.bind_run]

theorem buildManifest_sealed {node : Node} {full : Bool} {s s' : BState} {m : Manifest} (henc : o.encryptor.isSome)
    (h : buildManifest E o node full s = (.ok m, s')) :
    ∃ sl, ((∃ params, o.encryptor = some (.aead params) ∧ aeadEncrypt E.prims params (E.nonce s.nonces) node = .ok sl) ∨
      (∃ params wr full, o.encryptor = some (.oaep params wr) ∧
        oaepEncrypt E.prims params (some wr) full (E.nonce s.nonces) node = .ok sl)) ∧ sl.manifest = .ok m := by
  unfold buildManifest at h
  cases he : o.encryptor with
  | none => rw [he] at henc; cases henc
  | some enc =>
    rw [he] at h
    cases enc with
    | aead p =>
      have h := congrArg Prod.fst h
      obtain ⟨sl, h1, h2⟩ := bind_eq_ok.mp h
      exact ⟨sl, .inl ⟨p, rfl, h1⟩, h2⟩
    | oaep p w =>
      have h := congrArg Prod.fst h
      obtain ⟨sl, h1, h2⟩ := bind_eq_ok.mp h
      exact ⟨sl, .inr ⟨p, w, full, rfl, h1⟩, h2⟩

theorem buildFromNode_draw (henc : o.encryptor.isSome) (node : Node) (name : Option Name) (x : Option F64) (sg : Option Signer)
    (full : Bool) (s : BState) : (buildFromNode E o node name x sg full s).2 = { s with nonces := s.nonces + 1 } := by
  unfold buildFromNode
  have hk := buildManifest_draw (E := E) henc node full s
  rw [PyS.bind_run]
  split
  · rename_i m s' h
    rw [h] at hk
    subst hk
    cases m.serialize with
    | error e => rfl
    | ok w =>
      rw [PyS.liftBind_run rfl]
      split
      · rfl
      · cases m.contentObject name x with
        | error e => rfl
        | ok b => rw [PyS.liftBind_run rfl]; rfl
  · rename_i e s' h
    rw [h] at hk
    exact hk

theorem buildFromNode_tri (henc : o.encryptor.isSome) (node : Node) (name : Option Name) (x : Option F64) (sg : Option Signer)
    (full : Bool) : PyS.Tri (Drawn E o base c) (buildFromNode E o node name x sg full) (Pending E o base c)
      (SealedFrom E o base c) := by
  refine ⟨fun s hs => ?_⟩
  have hd := buildFromNode_draw (E := E) henc node name x sg full s
  obtain ⟨ms, h1, h2, h3⟩ := hs
  cases hb : buildFromNode E o node name x sg full s with
  | mk r s' =>
    rw [hb] at hd
    subst hd
    cases r with
    | error e => exact ⟨ms, h1, h2⟩
    | ok p =>
      obtain ⟨m, s1, w, hm, hw, _, hbody, _⟩ := buildFromNode_inv hb
      obtain ⟨sl, h4, h5⟩ := buildManifest_sealed henc hm
      refine ⟨ms, h1, h2, by simp [h3], node, sl, m, w, ?_, h5, hw, by rw [hbody]; rfl, by rw [hbody]; rfl⟩
      rw [← h3]
      exact h4

variable {T : TreeEnv}

theorem nextManifestName_tri (level : Nat) : PyS.Tri (Drawn E o base c) (nextManifestName T level) (fun _ => Drawn E o base c)
    (SealedFrom E o base c) := by
  unfold nextManifestName
  refine .bind (.lift (fun _ h => h.weak) _) fun _ => .bind (J := fun _ => Drawn E o base c) ?_ fun id => ?_
  · refine ⟨fun s hs => ?_⟩
    unfold getNextId
    split
    · rename_i h
      split at h
      · cases h
      · split at h
        · cases h
        · cases h; exact hs
    · rename_i h
      split at h
      · cases h; exact hs.weak
      · split at h
        · cases h; exact hs.weak
        · cases h
  · exact .bind (.modify (J := fun _ => Drawn E o base c) fun _ h => h) fun _ => .lift (fun _ h => h.weak) _

theorem builderPacket_tri (henc : T.opts.encryptor.isSome) (groups : List HashGroup) (a b level : Nat) :
    PyS.Tri (Drawn T.env T.opts base c) (builderPacket T groups a b level) (fun r => Pending T.env T.opts base c r.packet)
      (SealedFrom T.env T.opts base c) := by
  unfold builderPacket
  refine .bind (.lift (fun _ h => h.weak) _) fun _ => .bind (.lift (fun _ h => h.weak) _) fun _ =>
    .bind (nextManifestName_tri level) fun _ => .bind (buildFromNode_tri henc _ _ _ _ _) fun p => .pure _ fun _ h => h

theorem pending_put {p : Packet} {s : BState} {g : List (HashValue × Node)} (h : Pending E o base c p s) :
    Drawn E o base c { s with graph := g, output := s.output ++ [p] } := by
  obtain ⟨ms, h1, h2, h3, h4⟩ := h
  refine ⟨ms ++ [p], by simp [h1], ?_, by simp [h3]; omega⟩
  intro k q hq
  rw [List.getElem?_append] at hq
  split at hq
  · exact h2 k q hq
  · rename_i hk
    have : k = ms.length := by
      have := (List.getElem?_eq_some_iff.mp hq).1
      simp at this
      omega
    subst this
    simp at hq
    subst hq
    exact h4

theorem putBuilt_tri (b : Built) : PyS.Tri (Pending T.env T.opts base c b.packet) (putBuilt T b)
    (fun _ => Drawn T.env T.opts base c) (SealedFrom T.env T.opts base c) := by
  unfold putBuilt
  exact .bind (.lift (fun _ h => h.weak) _) fun _ => .modify fun _ h => pending_put h

theorem leafManifest_tri (henc : T.opts.encryptor.isSome) (seg : Segment) (level : Nat) :
    PyS.Tri (Drawn T.env T.opts base c) (leafManifest T seg level) (fun _ => Drawn T.env T.opts base c)
      (SealedFrom T.env T.opts base c) := by
  unfold leafManifest
  refine .bind (J := fun r => Pending T.env T.opts base c r.packet) ?_ fun b => .bind (.lift (fun _ h => h.weak) _) fun _ =>
    .bind (putBuilt_tri b) fun _ => .pure _ fun _ h => h
  unfold leafPacket
  exact .bind (.lift (fun _ h => h.weak) _) fun _ => .bind (.lift (fun _ h => h.weak) _) fun _ =>
    .bind (.lift (fun _ h => h.weak) _) fun _ => .bind (.lift (fun _ h => h.weak) _) fun _ => builderPacket_tri henc ..

theorem addIndirectLoop_tri {child : Segment → PyS BState (Built × Segment)}
    (hc : ∀ seg, PyS.Tri (Drawn T.env T.opts base c) (child seg) (fun _ => Drawn T.env T.opts base c)
      (SealedFrom T.env T.opts base c)) (fuel : Nat) (b : BuilderPair) (seg : Segment) :
    PyS.Tri (Drawn T.env T.opts base c) (addIndirectLoop T child fuel b seg) (fun _ => Drawn T.env T.opts base c)
      (SealedFrom T.env T.opts base c) := by
  induction fuel generalizing b seg with
  | zero =>
    rw [addIndirectLoop.eq_def]
    simp only []
    split
    · exact .pure _ fun _ h => h
    · exact .lift (fun _ h => h.weak) _
  | succ fuel ih =>
    rw [addIndirectLoop.eq_def]
    simp only []
    split
    · exact .pure _ fun _ h => h
    · exact .bind (hc seg) fun _ => .bind (.lift (fun _ h => h.weak) _) fun _ => ih _ _

theorem interiorPacket_tri (henc : T.opts.encryptor.isSome) (b : BuilderPair) (st : Option Nat) (level : Nat) :
    PyS.Tri (Drawn T.env T.opts base c) (interiorPacket T b st level) (fun r => Pending T.env T.opts base c r.packet)
      (SealedFrom T.env T.opts base c) := by
  unfold interiorPacket
  refine .bind (J := fun _ => Drawn T.env T.opts base c) ?_ fun _ => .bind (.lift (fun _ h => h.weak) _) fun _ =>
    builderPacket_tri henc ..
  split
  · refine .bind .get fun s => ?_
    split
    · exact .lift (fun _ h => h.weak) _
    · exact .pure _ fun _ h => h
  · exact .pure _ fun _ h => h

theorem interiorManifest_tri (henc : T.opts.encryptor.isSome) {child : Segment → PyS BState (Built × Segment)}
    (hc : ∀ seg, PyS.Tri (Drawn T.env T.opts base c) (child seg) (fun _ => Drawn T.env T.opts base c)
      (SealedFrom T.env T.opts base c)) (seg : Segment) (level : Nat) (rm : Option Built) :
    PyS.Tri (Drawn T.env T.opts base c) (interiorManifest T child seg level rm) (fun _ => Drawn T.env T.opts base c)
      (SealedFrom T.env T.opts base c) := by
  unfold interiorManifest addIndirect
  refine .bind (.lift (fun _ h => h.weak) _) fun _ => .bind (J := fun _ => Drawn T.env T.opts base c) ?_ fun _ =>
    .bind (.lift (fun _ h => h.weak) _) fun _ => .bind (interiorPacket_tri henc ..) fun r =>
    .bind (putBuilt_tri r) fun _ => .pure _ fun _ h => h
  exact .bind (.lift (fun _ h => h.weak) _) fun _ => .bind (addIndirectLoop_tri hc ..) fun _ =>
    .bind (.lift (fun _ h => h.weak) _) fun _ => .pure _ fun _ h => h

theorem bottomUp_tri (henc : T.opts.encryptor.isSome) (level : Nat) (seg : Segment) (rm : Option Built) :
    PyS.Tri (Drawn T.env T.opts base c) (bottomUp T level seg rm) (fun _ => Drawn T.env T.opts base c)
      (SealedFrom T.env T.opts base c) := by
  induction level generalizing seg rm with
  | zero =>
    unfold bottomUp
    exact .bind (.lift (fun _ h => h.weak) _) fun _ => leafManifest_tri henc ..
  | succ level ih =>
    unfold bottomUp
    split
    · exact leafManifest_tri henc ..
    · exact interiorManifest_tri henc (fun seg => ih seg none) ..

theorem buildLoop_tri (henc : T.opts.encryptor.isSome) (fuel level : Nat) (seg : Segment) (root : Built) :
    PyS.Tri (Drawn T.env T.opts base c) (buildLoop T fuel level seg root) (fun _ => Drawn T.env T.opts base c)
      (SealedFrom T.env T.opts base c) := by
  induction fuel generalizing level seg root with
  | zero =>
    rw [buildLoop.eq_def]
    simp only []
    split
    · exact .pure _ fun _ h => h
    · exact .lift (fun _ h => h.weak) _
  | succ fuel ih =>
    rw [buildLoop.eq_def]
    simp only []
    split
    · exact .pure _ fun _ h => h
    · exact .bind (bottomUp_tri henc ..) fun _ => ih ..

theorem buildTree_tri (henc : T.opts.encryptor.isSome) :
    PyS.Tri (Drawn T.env T.opts base c) (buildTree T) (fun _ => Drawn T.env T.opts base c)
      (SealedFrom T.env T.opts base c) := by
  unfold buildTree
  exact .bind (.lift (fun _ h => h.weak) _) fun _ => .bind (.modify (J := fun _ => Drawn T.env T.opts base c) fun _ h => h) fun _ =>
    .bind (leafManifest_tri henc ..) fun _ => buildLoop_tri henc ..

theorem rootPacket_tri (henc : o.encryptor.isSome) (ctx : NameCtx) (total : Nat) (top : HashValue) :
    PyS.Tri (Drawn E o base c) (rootPacket E o ctx total top) (fun r => Pending E o base c r.packet)
      (SealedFrom E o base c) := by
  unfold rootPacket
  exact .bind (.lift (fun _ h => h.weak) _) fun _ => .bind (.lift (fun _ h => h.weak) _) fun _ =>
    .bind (buildFromNode_tri henc ..) fun _ => .pure _ fun _ h => h

theorem buildRooted_tri (henc : T.opts.encryptor.isSome) (total : Nat) :
    PyS.Tri (Drawn T.env T.opts base c) (buildRooted T total) (fun _ => Drawn T.env T.opts base c)
      (SealedFrom T.env T.opts base c) := by
  unfold buildRooted
  exact .bind (buildTree_tri henc) fun _ => .bind (.lift (fun _ h => h.weak) _) fun _ => .bind (rootPacket_tri henc ..) fun r =>
    .bind (.modify (J := fun _ => Drawn T.env T.opts base c) fun s h => pending_put (g := s.graph) h) fun _ => .pure _ fun _ h => h

/-- A sizing packet takes one draw and is not written. -/
theorem sizingPacket_draw (henc : o.encryptor.isSome) (ctx : NameCtx) (total n k : Nat) (ps : List Packet) :
    PyS.Tri (fun s => s.output = ps ∧ s.nonces = k) (sizingPacket E o ctx total n)
      (fun _ s => s.output = ps ∧ s.nonces = k + 1) (fun s => s.output = ps) := by
  unfold sizingPacket
  refine .bind (.lift (fun _ h => h.1) _) fun _ => .bind (.lift (fun _ h => h.1) _) fun node => ?_
  refine ⟨fun s hs => ?_⟩
  have hd := buildFromNode_draw (E := E) henc node none none none false s
  cases hb : buildFromNode E o node none none none false s with
  | mk r s' =>
    rw [hb] at hd
    subst hd
    cases r with
    | ok p => exact ⟨hs.1, by simp [hs.2]⟩
    | error e => exact hs.1

theorem createOptimizedTree_draw (henc : o.encryptor.isSome) (L : FloatLog) (ctx : NameCtx) (file : FileMetadata) (ps : List Packet) :
    PyS.Tri (fun s => s.output = ps ∧ s.nonces = 0) (createOptimizedTree E L o ctx file)
      (fun _ s => s.output = ps ∧ s.nonces = 2) (fun s => s.output = ps) := by
  unfold createOptimizedTree
  refine .bind (J := fun _ s => s.output = ps ∧ s.nonces = 2) ?_ fun p => ?_
  · unfold calculateMaxPointers
    refine .bind (sizingPacket_draw henc ..) fun _ => .bind (.lift (fun _ h => h.1) _) fun len => ?_
    split
    · exact ⟨fun s hs => hs.1⟩
    · refine .bind (sizingPacket_draw henc ..) fun _ => .bind (.lift (fun _ h => h.1) _) fun len => ?_
      split
      · exact ⟨fun s hs => hs.1⟩
      · split
        · exact ⟨fun s hs => hs.1⟩
        · exact ⟨fun s hs => hs⟩
  · split
    · exact ⟨fun s hs => hs.1⟩
    · exact .lift (fun _ h => h.1) _

/-- The output of a build with encrypted manifests. -/
theorem manifestTree_sealed (henc : o.encryptor.isSome) (L : FloatLog) (nc : Nat) (input : Stream) :
    ∃ data ms, (manifestTree E L o nc input).2 = data ++ ms ∧ (∀ p ∈ data, p.body.payloadType = some PT_DATA) ∧
      ∀ k p, ms[k]? = some p → SealedWith E o p (2 + k) := by
  unfold manifestTree
  split
  · exact ⟨[], [], rfl, by simp, by simp⟩
  · rename_i ctx hctx
    have hdata := chunkData_data E.prims.sha256 ctx.data o.chunk input
    split
    · rename_i e s h
      rw [h] at hdata
      exact ⟨s.output, [], by simp, hdata, by simp⟩
    · rename_i file s h
      rw [h] at hdata
      have h1 := createOptimizedTree_draw (E := E) henc L ctx file s.output |>.run { output := s.output } ⟨rfl, rfl⟩
      split
      · rename_i e s1 he
        rw [he] at h1
        exact ⟨s.output, [], by simpa using h1, hdata, by simp⟩
      · rename_i r s1 he
        rw [he] at h1
        have h2 := buildRooted_tri (T := ⟨E, o, ctx, file.chunks, r.direct, r.indirect, r.height⟩) (base := s.output) (c := 2) henc
          file.totalBytes |>.run s1 ⟨[], by simp [h1.1], by simp, by simp [h1.2]⟩
        split
        · rename_i e s2 hb
          rw [hb] at h2
          obtain ⟨ms, a, b⟩ := h2
          exact ⟨s.output, ms, a, hdata, b⟩
        · rename_i p s2 hb
          rw [hb] at h2
          obtain ⟨ms, a, b⟩ := h2.weak
          exact ⟨s.output, ms, a, hdata, b⟩

end Ccnpy
