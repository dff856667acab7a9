import Verif.Props.EndToEndProps

/-!
# C107: reading from the top manifest with the schemas of the writer

`NameConstructorContext.export_schemas` gives the name constructors of a build as a `Traversal.NameConstructorCache`, so that
`Traversal.preorder` can start at the top manifest instead of the root.
-/

namespace Ccnpy

/-! ## Specification -/

/-- The name that a pointer asks for. -/
def Spec.nameFor (nc : NcCache) (id : Nat) (k : Option Int) : Py (Option Name) := do
  let i ← nc.find id
  i.getName k

/-- Two dictionaries of name constructors give the same names (or exceptions) for all pointers. -/
def Spec.SameNames (c d : NcCache) : Prop := ∀ id k, Spec.nameFor c id k = Spec.nameFor d id k

/-- The reader has the content key under its number beforehand, if the key is wrapped. -/
def Spec.HoldsContentKey (ks : Option Keystore) (enc : Option Encryptor) : Prop :=
  match enc with
  | some (.oaep p _) => ∃ s q, ks = some s ∧ s.getAesKey p.keyNumber = .ok q
  | _ => True

/-! ## Helpers -/

theorem Spec.SameNames.refl (c : NcCache) : Spec.SameNames c c := fun _ _ => rfl

theorem Spec.SameNames.cons {c d : NcCache} (h : Spec.SameNames c d) (e : Nat × SchemaImpl) : Spec.SameNames (e :: c) (e :: d) := by
  intro id k
  have := h id k
  unfold Spec.nameFor NcCache.find at this ⊢
  simp only [List.find?_cons]
  cases e.1 == id with
  | true => rfl
  | false => exact this

theorem Spec.SameNames.update {c d : NcCache} (h : Spec.SameNames c d) (ds : List NcDef) :
    (∃ c' d', NcCache.update c ds = .ok c' ∧ NcCache.update d ds = .ok d' ∧ Spec.SameNames c' d') ∨
    ∃ e, NcCache.update c ds = .error e ∧ NcCache.update d ds = .error e := by
  induction ds generalizing c d with
  | nil => exact .inl ⟨c, d, rfl, rfl, h⟩
  | cons x ds ih =>
    simp only [NcCache.update]
    cases x.announce with
    | error e => exact .inr ⟨e, rfl, rfl⟩
    | ok u =>
      simp only [ok_bind]
      cases SchemaImpl.ofNcDef x with
      | error e => exact .inr ⟨e, rfl, rfl⟩
      | ok i => exact ih (h.cons _)

theorem Spec.SameNames.updateNcCache {c d : NcCache} (h : Spec.SameNames c d) (n : Node) :
    (∃ c' d', Ccnpy.updateNcCache c n = .ok c' ∧ Ccnpy.updateNcCache d n = .ok d' ∧ Spec.SameNames c' d') ∨
    ∃ e, Ccnpy.updateNcCache c n = .error e ∧ Ccnpy.updateNcCache d n = .error e := by
  unfold Ccnpy.updateNcCache
  cases n.nodeData with
  | none => exact .inl ⟨c, d, rfl, rfl, h⟩
  | some x =>
    simp only
    split
    · exact h.update _
    · exact .inl ⟨c, d, rfl, rfl, h⟩

theorem Spec.SameNames.fetch {c d : NcCache} (h : Spec.SameNames c d) (T : TravEnv) (v : HashIteratorValue) :
    T.fetch c v = T.fetch d v := by
  have := h v.ncId (v.segmentId.map Int.ofNat)
  unfold Spec.nameFor at this
  unfold TravEnv.fetch
  rw [← bind_assoc, ← bind_assoc, this]

theorem visitLoop_step (T : TravEnv) (visit : Packet → PyS TState Unit) (nc : NcCache) (fuel : Nat) (it : NodeIterator) :
    T.visitLoop visit nc fuel it = (do
      match ← PyS.lift it.next with
      | none => pure ()
      | some (v, it) =>
        match fuel with
        | 0 => PyS.lift (.error .nonTermination)
        | fuel + 1 => do
          let p ← PyS.lift (T.fetch nc v)
          PyS.lift (validatePacket T.prims T.keystore p)
          visit p
          T.visitLoop visit nc fuel it) := by
  rw [TravEnv.visitLoop.eq_def]
  rfl

theorem Spec.SameNames.visitLoop {c d : NcCache} (h : Spec.SameNames c d) (T : TravEnv) {visit visit' : Packet → PyS TState Unit}
    (hv : ∀ p, visit p = visit' p) (fuel : Nat) (it : NodeIterator) :
    T.visitLoop visit c fuel it = T.visitLoop visit' d fuel it := by
  have : visit = visit' := funext hv
  subst this
  induction fuel generalizing it with
  | zero =>
    rw [visitLoop_step, visitLoop_step]
  | succ fuel ih =>
    rw [visitLoop_step, visitLoop_step T visit d]
    simp only [h.fetch T, ih]

/-- C107: a traversal depends on the dictionary of name constructors through the names only. -/
theorem C107_names_only {c d : NcCache} (h : Spec.SameNames c d) (T : TravEnv) (depth : Nat) (p : Packet) :
    T.preorder depth c p = T.preorder depth d p := by
  induction depth generalizing c d p with
  | zero => rfl
  | succ depth ih =>
    have hn : ∀ (m : Manifest) (node : Node),
        (do let nc ← PyS.lift (Ccnpy.updateNcCache c node)
            reportError m (T.visitLoop (fun q => T.preorder depth nc q) nc node.pointerCount node.iter)) =
        (do let nc ← PyS.lift (Ccnpy.updateNcCache d node)
            reportError m (T.visitLoop (fun q => T.preorder depth nc q) nc node.pointerCount node.iter)) := by
      intro m node
      rcases h.updateNcCache node with ⟨c', d', h1, h2, h3⟩ | ⟨e, h1, h2⟩
      · rw [h1, h2]
        funext s
        rw [PyS.liftBind_run rfl, PyS.liftBind_run rfl]
        rw [h3.visitLoop T (fun q => ih h3 q)]
      · rw [h1, h2]
    unfold TravEnv.preorder
    simp only [hn]

/-- A new cache is ready for a manifest without the wrapped key, if it need not be unwrapped. -/
theorem ready_top {P : Prims} (hO : P.OaepLaw) {ks : Option Keystore} {enc : Option Encryptor} (h : Spec.CanDecrypt P ks enc)
    (hk : Spec.HoldsContentKey ks enc) : (TState.new ks).cache.Ready P enc false := by
  have h1 := ready_new hO h
  unfold DecryptorCache.Ready at h1 ⊢
  cases enc with
  | none => trivial
  | some enc =>
    cases enc with
    | aead p => exact h1
    | oaep p w =>
      obtain ⟨a, b, c, _⟩ := h1
      obtain ⟨s, q, rfl, hq⟩ := hk
      exact ⟨a, b, c, .inl ⟨q, hq⟩⟩

variable {E : Env} {L : FloatLog} {o : TreeOptions} {nc : Nat} {input : Stream} {root : Packet} {out : List Packet}
  {ks : Option Keystore} {store : MemoryStore}

/-- The ids of all manifests have at most 64 bits. -/
theorem FileRun.ids_fit (R : FileRun E L o nc input root out) (hL : L.NotHigh) {ids : List Int} {i : Info} {kids : Forest}
    (hids : initialIds R.r.indirect R.r.height = .ok ids) (hf : R.env.IdsFrom ids (kids.written ++ [i])) :
    ∀ k ∈ kids.written ++ [i], k.id < 2 ^ 64 := by
  obtain ⟨p, hp, hmin⟩ := R.pointersFor
  have hlen : (Spec.dataOf out).length = R.file.chunks.length := by rw [R.data, (chunked_get R.chunked).2.1]
  have hcount := R.count
  have hne := R.nonempty
  have hpt := R.pointers
  have hin := R.indirect
  have hd := R.direct
  rw [← hlen] at hcount hne
  unfold MAX_CHUNK_ID at hcount
  have hple : p < 2 ^ 52 := by
    obtain ⟨ctx, p0, s, _, h0, rfl⟩ := hp
    obtain ⟨_, hle, _⟩ := calculateMaxPointers_inv h0
    cases o.maxTreeDegree with
    | none => simp only; omega
    | some k => simp only; omega
  obtain ⟨_, hp2, _, _, _⟩ := minimizeKMinWaste_pos hmin (by omega) hple
  obtain ⟨s1, s2, s3, s4⟩ := selected_shape hmin hne hp2 (by omega) hple
  have hcapk : ∀ h, Spec.treeCapacity R.r.direct 1 h ≥ h := by
    intro h
    induction h with
    | zero => omega
    | succ h ih => rw [Spec.treeCapacity]; omega
  have hone : ∀ k, Spec.treeNodes 1 k = k + 1 := by
    intro k
    induction k with
    | zero => rfl
    | succ k ih => rw [Spec.treeNodes, ih]; omega
  have key : (R.r.indirect = 1 ∨ R.r.indirect ^ (R.r.height.toNat + 1) ≤ 2 ^ 53) ∧
      Spec.treeNodes R.r.indirect R.r.height.toNat ≤ 2 ^ 53 := by
    rcases Nat.lt_or_ge 1 R.r.indirect with hgt | hle
    · have hex := s4 hL hgt
      have hb : R.r.indirect ^ R.r.height.toNat ≤ 2 ^ 24 := by
        cases hk : R.r.height.toNat with
        | zero => simp
        | succ k =>
          have := treeCapacity_pow R.r.direct R.r.indirect k
          have := hex k (by omega)
          omega
      have hpow : R.r.indirect ^ (R.r.height.toNat + 1) ≤ 2 ^ 53 := by
        rw [Nat.pow_succ]
        calc R.r.indirect ^ R.r.height.toNat * R.r.indirect ≤ 2 ^ 24 * 2 ^ 16 := Nat.mul_le_mul hb (by omega)
          _ ≤ 2 ^ 53 := by decide
      have := treeNodes_le R.r.indirect R.r.height.toNat hgt
      exact ⟨.inr hpow, by omega⟩
    · have he : R.r.indirect = 1 := by omega
      refine ⟨.inl he, ?_⟩
      rw [he, hone]
      by_cases hn1 : (Spec.dataOf out).length = 1
      · rw [s2 hn1]; decide
      · obtain ⟨k, hk, _, hleast⟩ := s3 (by omega) he
        rw [hk]
        have : k ≤ 2 ^ 30 := by
          rcases Nat.eq_zero_or_pos k with rfl | hk0
          · omega
          · have h1 := hleast (k - 1) (by omega)
            have h2 := hcapk (k - 1)
            omega
        omega
  have hall := idsFrom_le (initialIds_le (T := R.env) R.indirect key.1 hids) hf
  intro k hk
  have := hall k hk
  have e : Spec.treeNodes R.env.indirect R.env.height.toNat = Spec.treeNodes R.r.indirect R.r.height.toNat := rfl
  rw [e] at this
  omega

/-- The dictionary gives the names that the definitions in scope give. -/
def NamesOf (nc : NcCache) (scope : List NcDef) : Prop :=
  ∀ id d i k n, Spec.lookup scope id = some d → SchemaImpl.ofNcDef d = .ok i → i.getName k = .ok n → Spec.nameFor nc id k = .ok n

theorem lookup_snoc (scope : List NcDef) (d : NcDef) (id : Nat) :
    Spec.lookup (scope ++ [d]) id = if d.ncId = some id then some d else Spec.lookup scope id := by
  unfold Spec.lookup
  rw [List.filter_append]
  by_cases h : d.ncId = some id
  · simp [h]
  · simp [h]

theorem NamesOf.update {nc nc' : NcCache} {scope ds : List NcDef} (h : NamesOf nc scope) (hu : NcCache.update nc ds = .ok nc') :
    NamesOf nc' (scope ++ ds) := by
  induction ds generalizing nc scope with
  | nil => cases hu; rw [List.append_nil]; exact h
  | cons d ds ih =>
    rw [NcCache.update] at hu
    obtain ⟨_, _, hu⟩ := bind_eq_ok.mp hu
    obtain ⟨i, hi, hu⟩ := bind_eq_ok.mp hu
    rw [show scope ++ d :: ds = (scope ++ [d]) ++ ds by simp]
    refine ih ?_ hu
    intro id e j k n hl hj hn
    rw [lookup_snoc, SchemaImpl.ofNcDef_id hi] at hl
    unfold Spec.nameFor NcCache.find
    rw [List.find?_cons]
    by_cases he : i.ncId = id
    · simp only [he, if_true, Option.some.injEq] at hl
      subst hl
      cases Except.ok.inj (hi.symm.trans hj)
      simp only [he, beq_self_eq_true, ok_bind]
      exact hn
    · have hne : (i.ncId == id) = false := by simpa using he
      simp only [Option.some.injEq, he, if_false] at hl
      simp only [hne]
      exact h id e j k n hl hj hn

theorem NamesOf.fetch {T : TravEnv} {nc : NcCache} {scope : List NcDef} (h : NamesOf nc scope) {v : HashIteratorValue}
    {r : Spec.Request} (ha : Spec.Asks scope v r) : T.fetch nc v = T.reader r.1 r.2 := by
  obtain ⟨h1, d, i, h2, h3, h4⟩ := ha
  have := h _ _ _ _ _ h2 h3 h4
  unfold Spec.nameFor at this
  unfold TravEnv.fetch
  obtain ⟨j, hj, hn⟩ := bind_eq_ok.mp this
  simp only [hj, ok_bind, hn, h1]

theorem NamesOf.visitAll {T : TravEnv} {visit : Packet → PyS TState Unit} {nc : NcCache} {scope : List NcDef} (hc : NamesOf nc scope)
    {vs : List HashIteratorValue} {rs : List Spec.Request} (h : List.Forall₂ (Spec.Asks scope) vs rs) :
    Ccnpy.visitAll T visit nc vs = visitRequests T visit rs := by
  induction h with
  | nil => rfl
  | cons h _ ih => unfold Ccnpy.visitAll visitRequests; rw [hc.fetch h, ih]

/-- Visiting a manifest. -/
theorem preorder_manifest_names {T : TravEnv} {depth : Nat} {nc : NcCache} {scope : List NcDef} {p : Packet} {node : Node}
    {s s1 : TState} {m m' : Manifest} {hv : HashValue} (hh : p.hash T.prims.sha256 = .ok hv) (hc : NamesOf nc scope)
    (ht : p.body.payloadType = some PT_MANIFEST) (hm : Manifest.fromContentObject p.body = .ok m)
    (hd : T.decrypt m { s with count := s.count + 1 } = (.ok m', s1)) (hn : m'.node = .plain node)
    (hw : Spec.Walkable node) {krs : List Spec.Request}
    (ha : List.Forall₂ (Spec.Asks (scope ++ node.defs)) (node.hashGroups.flatMap HashGroup.values) krs) :
    ∃ nc', NamesOf nc' (scope ++ node.defs) ∧
      T.preorder (depth + 1) nc p s = reportError m' (visitRequests T (fun q => T.preorder depth nc' q) krs) s1 := by
  obtain ⟨nc', hu⟩ := NcCache.update_defs hw.2 nc
  have hc' := hc.update hu
  rw [← updateNcCache_eq] at hu
  refine ⟨nc', hc', ?_⟩
  rw [TravEnv.preorder, PyS.liftBind_run hh, PyS.bind_run]
  simp only [PyS.modify_run, ht]
  rw [if_pos trivial, PyS.liftBind_run hm, PyS.bind_of_ok hd]
  simp only [hn]
  rw [PyS.liftBind_run hu, visitLoop_run (C28_iteration node hw.1) rfl _ (by
    rw [groupValues_sum _ hw.1]; exact Nat.le_refl _), hc'.visitAll ha]

/-- `Spec.Leads.run` for any dictionary that gives the right names. -/
theorem leads_run_names {T : TravEnv} {op : Packet → Node → Prop} (Inv : DecryptorCache → Prop)
    (hop : ∀ p node s, op p node → Inv s.cache → ∃ m m' c, Manifest.fromContentObject p.body = .ok m ∧
      T.decrypt m s = (.ok m', { s with cache := c }) ∧ m'.node = .plain node ∧ Inv c)
    (hhash : ∀ name h p, T.reader name h = .ok p → ∃ hv, p.hash T.prims.sha256 = .ok hv)
    (hwalk : ∀ p node, op p node → Spec.Walkable node)
    {scope : List NcDef} {rs : List Spec.Request} {v : Spec.Visited} (h : Spec.Leads T op scope rs v) :
    ∀ {nc : NcCache} (_ : NamesOf nc scope) {depth : Nat} (_ : v.depth ≤ depth) {s : TState} (_ : Inv s.cache),
    ∃ c, visitRequests T (fun q => T.preorder depth nc q) rs s =
      (.ok (), { count := s.count + v.count, writes := s.writes ++ v.payloads, cache := c }) ∧ Inv c := by
  induction h with
  | nil =>
    intro nc hc depth hd s hs
    refine ⟨s.cache, ?_, hs⟩
    simp [visitRequests, Spec.Visited.count, Spec.Visited.payloads]
  | data h1 h2 h3 h4 _ ih =>
    intro nc hc depth hd s hs
    simp only [Spec.Visited.depth] at hd
    obtain ⟨hv, hh⟩ := hhash _ _ _ h1
    obtain ⟨depth, rfl⟩ : ∃ d, depth = d + 1 := ⟨depth - 1, by omega⟩
    rename_i p b rest _
    have hp : T.preorder (depth + 1) nc p s = (.ok (), { s with count := s.count + 1, writes := s.writes ++ [b] }) := by
      rw [TravEnv.preorder, PyS.liftBind_run hh, PyS.bind_run]
      simp only [PyS.modify_run, h3]
      rw [if_neg (by decide), if_pos trivial, h4]
      rfl
    obtain ⟨c, hrun, hc'⟩ := ih hc (depth := depth + 1) (by omega)
      (s := { s with count := s.count + 1, writes := s.writes ++ [b] }) hs
    refine ⟨c, ?_, hc'⟩
    unfold visitRequests
    rw [PyS.liftBind_run h1, PyS.liftBind_run h2, PyS.bind_of_ok hp, hrun]
    simp only [Spec.Visited.count, Spec.Visited.payloads, List.append_assoc, List.singleton_append, Nat.add_assoc]
  | manifest h1 h2 h3 h4 h5 _ _ ih1 ih2 =>
    intro nc hc depth hd s hs
    rename_i kids rest _ _
    simp only [Spec.Visited.depth] at hd
    obtain ⟨hv, hh⟩ := hhash _ _ _ h1
    obtain ⟨depth, rfl⟩ : ∃ d, depth = d + 1 := ⟨depth - 1, by omega⟩
    obtain ⟨m, m', c1, hm, hdec, hn, hc1⟩ := hop _ _ { s with count := s.count + 1 } h4 hs
    obtain ⟨nc', hnc', hpre⟩ := preorder_manifest_names (depth := depth) hh hc h3 hm hdec hn (hwalk _ _ h4) h5
    obtain ⟨c2, hrun, hc2⟩ := ih1 hnc' (depth := depth) (by omega) (s := { s with count := s.count + 1, cache := c1 }) hc1
    obtain ⟨c3, hrun', hc3⟩ := ih2 hc (depth := depth + 1) (by omega)
      (s := ⟨s.count + 1 + kids.count, s.writes ++ kids.payloads, c2⟩) hc2
    refine ⟨c3, ?_, hc3⟩
    unfold visitRequests
    rw [PyS.liftBind_run h1, PyS.liftBind_run h2, PyS.bind_of_ok (hpre.trans (reportError_of_ok hrun)), hrun']
    simp only [Spec.Visited.count, Spec.Visited.payloads, List.append_assoc, Nat.add_assoc]

theorem visitRequests_one (T : TravEnv) (visit : Packet → PyS TState Unit) {r : Spec.Request} {p : Packet}
    (h1 : T.reader r.1 r.2 = .ok p) (h2 : validatePacket T.prims T.keystore p = .ok ()) (s : TState) :
    visitRequests T visit [r] s = visit p s := by
  unfold visitRequests
  rw [PyS.liftBind_run h1, PyS.liftBind_run h2, PyS.bind_run]
  rcases visit p s with ⟨_ | _, _⟩ <;> rfl

/-- The schemas of the writer give the names that the definitions in the root define. -/
theorem exportSchemas_namesOf {c : NameCtx} (hg : c.Good) (hp : c.Plain) : NamesOf c.exportSchemas c.readDefs := by
  intro id d i k n hl hi hn
  have hm := hg.lookup_manifest
  have hd := hg.lookup_data
  unfold Spec.nameFor NameCtx.exportSchemas NameCtx.hashGroupCount NcCache.find
  by_cases h1 : c.manifest.ncId = id
  · subst h1
    cases Option.some.inj (hl.symm.trans hm)
    rw [ofNcDef_toBytes hg.manifest] at hi
    cases hi
    rw [getName_toBytes hp.1] at hn
    cases hs : c.shared with
    | true => simpa using hn
    | false =>
      have hne : (c.data.ncId == c.manifest.ncId) = false := by simpa using hg.apart hs
      simpa [hne] using hn
  · by_cases h2 : c.data.ncId = id
    · subst h2
      cases Option.some.inj (hl.symm.trans hd)
      rw [ofNcDef_toBytes hg.data] at hi
      cases hi
      rw [getName_toBytes hp.2] at hn
      cases hs : c.shared with
      | true => exact absurd (by rw [(hg.shared hs).1]) h1
      | false => simpa using hn
    · have : Spec.lookup c.readDefs id = none := by
        unfold Spec.lookup NameCtx.readDefs NameCtx.ncDefs
        cases hs : c.shared with
        | true => simp [SchemaImpl.ncDef, NcDef.toBytes, h1]
        | false => simp [SchemaImpl.ncDef, NcDef.toBytes, h1, h2]
      rw [this] at hl
      cases hl

/-! ## C107 -/

/-- C107: the schemas exported by a writer are the dictionary that results from its own definitions (those it puts in the root). -/
theorem C107_exported {ty : SchemaType} {name mp dp : Option Name} {ml dl : Option (List Link)} {ctx : NameCtx}
    (h : NameCtx.create ty nc name mp dp ml dl = .ok ctx) {cache : NcCache} (hc : NcCache.update [] ctx.ncDefs = .ok cache) :
    cache = ctx.exportSchemas := by
  obtain ⟨hg, _, _⟩ := nameCtx_good h
  have hm : SchemaImpl.ofNcDef ctx.manifest.ncDef = .ok ctx.manifest := hg.manifest
  have hd : SchemaImpl.ofNcDef ctx.data.ncDef = .ok ctx.data := hg.data
  unfold NameCtx.ncDefs at hc
  unfold NameCtx.exportSchemas NameCtx.hashGroupCount
  cases hs : ctx.shared with
  | true =>
    simp only [hs, if_true, NcCache.update, hm, ok_bind] at hc
    obtain ⟨_, _, hc⟩ := bind_eq_ok.mp hc
    cases hc
    rfl
  | false =>
    simp only [hs, NcCache.update, hm, hd, ok_bind, Bool.false_eq_true, if_false] at hc
    obtain ⟨_, _, hc⟩ := bind_eq_ok.mp hc
    obtain ⟨_, _, hc⟩ := bind_eq_ok.mp hc
    cases hc
    rfl

/-- What a reader of the packets of a build needs when it does not print the locators: the keys, the packets in a memory store and
no hash collision among them. -/
structure Spec.CanReadTop (E : Env) (o : TreeOptions) (nc : Nat) (out : List Packet) (store : MemoryStore) (ks : Option Keystore) :
    Prop extends Spec.HasKeys E o nc ks where
  store : Spec.Holds E.prims out store
  distinct : Spec.NoCollision E.prims out

/-- C107: whatever the schema, `preorder` from the top manifest (the packet written before the root) with the schemas of the writer
writes the file and visits every packet except the root, in the order the data objects were put out.  With segmented names this
holds also where reading from the root is refused (C50). -/
theorem C107_from_the_top (hL : o.schemaType = .segmented → L.NotHigh) (h : manifestTree E L o nc input = (.ok root, out))
    (hr : Spec.CanReadTop E o nc out store ks) (hk : Spec.HoldsContentKey ks o.encryptor) :
    ∃ pre top ctx, out = pre ++ [top, root] ∧
      NameCtx.create o.schemaType nc o.name o.manifestPrefix o.dataPrefix o.manifestLocators o.dataLocators = .ok ctx ∧
      ∀ depth, out.length ≤ depth + 1 →
        ∃ s, TravEnv.preorder ⟨E.prims, store.reader E.prims, ks⟩ depth ctx.exportSchemas top (TState.new ks) = (.ok (), s) ∧
          s.writes.flatten = input.rest ∧ s.writes.map some = (Spec.dataOf out).map (·.body.payload) ∧
          s.count + 1 = out.length := by
  obtain ⟨R⟩ := manifestTree_ok h
  obtain ⟨ids, level, i, kids, h1, h2, h3, h4, h5, h6, h7, h8⟩ := R.forest
  have hfit : R.ctx.manifest.usesNameId = true → ∀ k ∈ kids.written ++ [i], k.id < 2 ^ 64 :=
    fun hu => R.ids_fit (hL ((nameCtx_inv R.ctx_ok).2.2.mp hu)) h1 h3
  have hrd := R.servedBy (hr.store.serves hr.distinct) ks
  obtain ⟨v, v1, v2, v3, v4, _⟩ := R.leads (ks := ks) hr.names hr.counter hrd h2 h3 h6 h8 hfit
  obtain ⟨hgood, _, _⟩ := nameCtx_good R.ctx_ok
  have hplain := nameCtx_plain hr.names R.ctx_ok
  refine ⟨R.ps ++ kids.written.map (·.packet), i.packet, R.ctx, h8.trans (by simp), R.ctx_ok, ?_⟩
  intro depth hd
  obtain ⟨hih, name, _, _, hname, hb⟩ := h2.made i (by simp [Forest.written])
  have hname : R.ctx.manifest.getName (some (i.id : Int)) = .ok name := hname
  obtain ⟨_, _, w, _, _, _, hbody, hcr, _⟩ := buildFromNode_inv hb
  have hbn : i.packet.body.name = name := by rw [hbody]; rfl
  have halg : i.packet.alg = none := by
    obtain ⟨_, _, he⟩ := createContentObject_inv hcr
    rw [he]
  have hget : store.reader E.prims name (some i.hash) = .ok i.packet := by
    rw [← hbn]
    exact hrd.manifests _ (by rw [h8]; simp) (by rw [hbody]; rfl) _ hih
  obtain ⟨c', r1, _⟩ := leads_run_names (fun c => c.Ready E.prims o.encryptor false)
    (by
      intro p node s ⟨n, name, x, s0, s1, hb, hn, he, _⟩ hrd
      subst he
      obtain ⟨m, m', c, r1, r2, r3, r4⟩ := read_manifest hr.aead hr.decrypt hn hb
        (T := ⟨E.prims, store.reader E.prims, ks⟩) rfl rfl hrd
      exact ⟨m, m', c, r1, r2, by rw [r3], r4⟩)
    (fun name h p hp => hrd.hashes name h p hp)
    (fun p node ⟨_, _, _, _, _, _, _, _, hw, _⟩ => hw) v1 (exportSchemas_namesOf hgood hplain) (depth := depth) (by
      have hle := v.depth_le_count
      omega) (s := TState.new ks) (ready_top hr.oaep hr.decrypt hk)
  rw [request_name (x := i.pair) hname, visitRequests_one _ _ hget (C24_unsigned _ _ _ halg)] at r1
  refine ⟨_, r1, ?_, ?_, ?_⟩
  · show ((TState.new ks).writes ++ v.payloads).flatten = _
    rw [v2, ← R.bytes]; simp [TState.new]
  · rw [R.data, R.chunked.sum.2.2.1, v2]; simp [TState.new]
  · show (TState.new ks).count + v.count + 1 = _
    rw [← v3]; simp [TState.new]

/-- What starting at the top manifest comes to: it is parsed, decrypted, and its pointers are followed. -/
theorem FileRun.top_read (R : FileRun E L o nc input root out)
    (hnc : nc + 1 < 2 ^ 64) {level : Nat} {i : Info} {kids : Forest}
    (hv : (Forest.cons i kids .nil).Valid R.env 0 R.file.chunks.length level)
    (hfit : R.ctx.manifest.usesNameId = true → ∀ k ∈ kids.written ++ [i], k.id < 2 ^ 64) :
    i.node.Fits64 ∧ Spec.Walkable i.node.toBytes ∧ i.node.toBytes.defs = [] ∧
      i.node.toBytes.hashGroups.flatMap HashGroup.values ≠ [] ∧
      Manifest.display { node := .plain i.node.toBytes } = .ok () := by
  obtain ⟨hgood, hn1, hn2⟩ := nameCtx_good R.ctx_ok
  obtain ⟨hb, hnum, _⟩ := R.fits
  have hwr : (Forest.cons i kids .nil).written = kids.written ++ [i] := rfl
  have hfits := forest_fits hnum hb (by show R.ctx.manifest.ncId < _; omega) (by show R.ctx.data.ncId < _; omega) hv
    (by rw [hwr]; exact hfit)
  have hi := hfits i (by rw [hwr]; simp)
  have hle := hv.le
  obtain ⟨_, h2, _, h4, h5, h6⟩ := hv
  have hle1 := h5.le
  have hhi : i.hi = R.file.chunks.length := h6
  refine ⟨hi.1, hi.2, h4.defs, ?_, manifest_shown h4.locators hi.2 (numbers_short hi.1)⟩
  have hne : R.env.sliceHashes i.lo (i.lo + i.count) ≠ [] := by
    intro he
    have := congrArg List.length he
    have hc := h4.1
    have hl : R.env.chunks.length = R.file.chunks.length := rfl
    simp [TreeEnv.sliceHashes, TreeEnv.slice] at this
    omega
  obtain ⟨x, xs, hx⟩ := List.exists_cons_of_ne_nil hne
  rcases h4.2 with ⟨_, _, hn⟩ | ⟨_, _, _, _, hn⟩
  · rw [hn]
    simp [Node.toBytes, TreeEnv.leafNode, TreeEnv.group, HashGroup.values, hx, groupValues]
  · rw [hn]
    simp only [Node.toBytes, TreeEnv.interiorNode, TreeEnv.interiorGroups]
    split <;> simp [TreeEnv.group, HashGroup.values, hx, groupValues]

/-- C107: without the schemas nothing can be read from the top manifest: KeyError at its first pointer. -/
theorem C107_without_schemas (hL : o.schemaType = .segmented → L.NotHigh) (h : manifestTree E L o nc input = (.ok root, out))
    (hr : Spec.HasKeys E o nc ks) (hk : Spec.HoldsContentKey ks o.encryptor) :
    ∃ pre top, out = pre ++ [top, root] ∧ ∀ rd depth, 1 ≤ depth →
      ∃ s, TravEnv.preorder ⟨E.prims, rd, ks⟩ depth [] top (TState.new ks) = (.error .keyError, s) ∧ s.writes = [] := by
  obtain ⟨R⟩ := manifestTree_ok h
  obtain ⟨ids, level, i, kids, h1, h2, h3, h4, h5, h6, h7, h8⟩ := R.forest
  have hfit : R.ctx.manifest.usesNameId = true → ∀ k ∈ kids.written ++ [i], k.id < 2 ^ 64 :=
    fun hu => R.ids_fit (hL ((nameCtx_inv R.ctx_ok).2.2.mp hu)) h1 h3
  refine ⟨R.ps ++ kids.written.map (·.packet), i.packet, h8.trans (by simp), ?_⟩
  intro rd depth hd
  obtain ⟨depth, rfl⟩ : ∃ d, depth = d + 1 := ⟨depth - 1, by omega⟩
  obtain ⟨t1, t2, t3, t4, t5⟩ := R.top_read hr.counter h2 hfit
  obtain ⟨hih, name, _, _, hname, hb⟩ := h2.made i (by simp [Forest.written])
  obtain ⟨_, _, w, _, _, _, hbody, _, _⟩ := buildFromNode_inv hb
  obtain ⟨m, m', c, r1, r2, rfl, r4⟩ := read_manifest hr.aead hr.decrypt t1 hb (T := ⟨E.prims, rd, ks⟩) rfl rfl
    (t := { TState.new ks with count := (TState.new ks).count + 1 }) (ready_top hr.oaep hr.decrypt hk)
  obtain ⟨v, vs, hvs⟩ := List.exists_cons_of_ne_nil t4
  refine ⟨{ TState.new ks with count := (TState.new ks).count + 1, cache := c }, ?_, rfl⟩
  have hih : i.packet.hash (TravEnv.prims ⟨E.prims, rd, ks⟩).sha256 = .ok i.hash := hih
  rw [TravEnv.preorder, PyS.liftBind_run hih, PyS.bind_run]
  have hty : i.packet.body.payloadType = some PT_MANIFEST := by rw [hbody]; rfl
  simp only [PyS.modify_run, hty]
  rw [if_pos trivial, PyS.liftBind_run r1, PyS.bind_of_ok r2]
  simp only
  rw [PyS.liftBind_run (show updateNcCache [] i.node.toBytes = .ok [] by rw [updateNcCache_eq, t3]; rfl), reportError_shown t5,
    visitLoop_run (C28_iteration i.node.toBytes t2.1) rfl _ (by rw [groupValues_sum _ t2.1]; exact Nat.le_refl _), hvs]
  rfl

/-- C107: where the content key is wrapped, only the root carries it.  A reader that does not have the key under its number cannot
start at the top manifest, whatever its private keys and its schemas: ValueError. -/
theorem C107_needs_the_root (hL : o.schemaType = .segmented → L.NotHigh) (h : manifestTree E L o nc input = (.ok root, out))
    {p : AeadParams} {w : RsaOaepWrapper} (ho : o.encryptor = some (.oaep p w)) {s : Keystore} {e : PyErr} (hr : Spec.HasKeys E o nc (some s))
    (hno : s.getAesKey p.keyNumber = .error e) :
    ∃ pre top, out = pre ++ [top, root] ∧ ∀ rd cache depth, 1 ≤ depth →
      ∃ t, TravEnv.preorder ⟨E.prims, rd, some s⟩ depth cache top (TState.new (some s)) = (.error .valueError, t) ∧ t.writes = [] := by
  obtain ⟨R⟩ := manifestTree_ok h
  obtain ⟨ids, level, i, kids, h1, h2, h3, h4, h5, h6, h7, h8⟩ := R.forest
  have hfit : R.ctx.manifest.usesNameId = true → ∀ k ∈ kids.written ++ [i], k.id < 2 ^ 64 :=
    fun hu => R.ids_fit (hL ((nameCtx_inv R.ctx_ok).2.2.mp hu)) h1 h3
  refine ⟨R.ps ++ kids.written.map (·.packet), i.packet, h8.trans (by simp), ?_⟩
  intro rd cache depth hd
  obtain ⟨depth, rfl⟩ : ∃ d, depth = d + 1 := ⟨depth - 1, by omega⟩
  obtain ⟨t1, _⟩ := R.top_read hr.counter h2 hfit
  obtain ⟨hih, name, _, _, hname, hb⟩ := h2.made i (by simp [Forest.written])
  obtain ⟨m, s1, wire, hm, hw, _, hbody, _, _⟩ := buildFromNode_inv hb
  have ho' : R.env.opts.encryptor = some (.oaep p w) := ho
  have hdec := hr.decrypt
  rw [ho] at hdec
  obtain ⟨hfitp, _, _⟩ := hdec
  have hread : ∃ d c t, Manifest.fromContentObject i.packet.body = .ok ⟨some (.rsaOaep d none), .encrypted c, some t⟩ ∧
      d.keyNumber = p.keyNumber := by
    unfold buildManifest at hm
    simp only [ho'] at hm
    rw [PyS.bind_run] at hm
    simp only [PyS.get_run] at hm
    rw [PyS.bind_run] at hm
    simp only [PyS.modify_run] at hm
    obtain ⟨hm, _⟩ := PyS.lift_ok hm
    obtain ⟨sl, hsl, hm⟩ := bind_eq_ok.mp hm
    obtain ⟨d, hd, henc⟩ := oaepEncrypt_ok hsl
    obtain ⟨_, _, _, _, _, _, hctx, _⟩ := encryptWithCtx_ok henc
    obtain ⟨rfl, _⟩ := Sealed.manifest_ok hm
    rw [hctx] at hw
    have hnum : d.keyNumber = p.keyNumber := by
      obtain ⟨k, md, _, _, rfl⟩ := AeadParams.aeadData_ok hd
      rfl
    have hRT := manifest_RT (m := ⟨some (.rsaOaep d none), .encrypted sl.ciphertext, some sl.authTag⟩)
      ⟨by rintro c ⟨⟩; exact ⟨AeadParams.aeadData_fits hfitp hd, by rintro y ⟨⟩⟩, trivial⟩ hw
    refine ⟨d, sl.ciphertext, sl.authTag, ?_, hnum⟩
    rw [hbody]
    exact hRT
  obtain ⟨d, c, t, hread, hnum⟩ := hread
  have hty : i.packet.body.payloadType = some PT_MANIFEST := by rw [hbody]; rfl
  have hih : i.packet.hash (TravEnv.prims ⟨E.prims, rd, some s⟩).sha256 = .ok i.hash := hih
  rw [TravEnv.preorder, PyS.liftBind_run hih, PyS.bind_run]
  simp only [PyS.modify_run, hty]
  rw [if_pos trivial, PyS.liftBind_run hread, PyS.bind_run]
  simp [TravEnv.decrypt, DecryptorCache.open, Manifest.isEncrypted, DecryptorCache.getOrCreate, TState.new, DecryptorCache.create,
    DecryptorCache.decrypt, OaepDecryptor.decryptManifest, OaepDecryptor.getImpl, oaepCreate, hnum, hno, oaepCreateByWrappedKey]

/-! ## The hypotheses can be met -/

set_option maxRecDepth 100000 in
/-- Five chunks with segmented names and four pointers per manifest: reading from the root raises (C50), reading from the top with
the writer's schemas returns the file. -/
example : ∃ root out store pre top ctx hv, manifestTree Toy.env Spec.exactLog (Toy.options .segmented false) 1 (Toy.shortReads 20) = (.ok root, out) ∧
    out = pre ++ [top, root] ∧ root.hash Toy.prims.sha256 = .ok hv ∧
    Spec.Refused Toy.env (Toy.options .segmented false) store none out.length hv ∧
    ∃ s, TravEnv.preorder ⟨Toy.prims, store.reader Toy.prims, none⟩ out.length (NameCtx.exportSchemas ctx) top (TState.new none) = (.ok (), s) ∧
      s.writes.flatten = (Toy.shortReads 20).rest := by
  obtain ⟨root, out, store, h, hn, hr⟩ := Toy.canRead (o := Toy.options .segmented false) (input := Toy.shortReads 20) (n := 5)
    (ks := none) trivial trivial (Toy.plain ⟨rfl, rfl, rfl⟩) (Toy.text rfl rfl rfl) (by decide +kernel)
  have hp := Toy.pointersFor (p := 4) rfl (by decide +kernel) h
  obtain ⟨pre, top, ctx, h1, _, h3⟩ := C107_from_the_top (fun _ => exactLog_notHigh) h
    ⟨hr.toHasKeys, hr.store, hr.distinct⟩ trivial
  obtain ⟨p, hv, hp', hh, _, hno⟩ := C50_segmented_readable exactLog_notHigh rfl h hr
  have : p = 4 := by
    obtain ⟨c, q, s, e1, e2, e3⟩ := hp
    obtain ⟨c', q', s', e1', e2', e3'⟩ := hp'
    cases Except.ok.inj (e1.symm.trans e1')
    rw [e2] at e2'
    cases e2'
    rw [e3, e3']
  subst this
  obtain ⟨s, hs1, hs2, _⟩ := h3 out.length (by omega)
  exact ⟨root, out, store, pre, top, ctx, hv, h, h1, hh, hno (by omega) _ (by rw [h1]; simp), s, hs1, hs2⟩

set_option maxRecDepth 100000 in
/-- The Hashed schema with a locator that cannot be printed: reading from the root raises (C85), yet the hypotheses of
`C107_from_the_top` hold. -/
example : ∃ root out store, manifestTree Toy.env Spec.exactLog Toy.unreadable 1 (Toy.shortReads 32) = (.ok root, out) ∧
    (Spec.dataOf out).length = 8 ∧ Spec.CanReadTop Toy.env Toy.unreadable 1 out store (some Toy.aesKeys) ∧
    Spec.HoldsContentKey (some Toy.aesKeys) Toy.unreadable.encryptor ∧ Toy.unreadable.schemaType ≠ .segmented := by
  have hm : Toy.published Toy.unreadable (Toy.shortReads 32) 8 = true := by decide +kernel
  unfold Toy.published at hm
  rcases h : manifestTree Toy.env Spec.exactLog Toy.unreadable 1 (Toy.shortReads 32) with ⟨e | root, out⟩
  · rw [h] at hm
    cases hm
  · rw [h] at hm
    simp only [Bool.and_eq_true, beq_iff_eq, decide_eq_true_eq] at hm
    obtain ⟨⟨h1, h2⟩, h3⟩ := hm
    cases hs : MemoryStore.putAll Toy.prims {} out with
    | error e => rw [hs] at h1; cases h1
    | ok store =>
      refine ⟨root, out, store, rfl, h2, ⟨⟨Toy.aeadLaw, fun _ _ _ _ => rfl, ?_, trivial, Toy.canDecrypt, ?_, by decide⟩, .inl hs, ?_⟩, trivial, nofun⟩
      · intro der d
        show (d == d) = true
        exact beq_self_eq_true d
      · rintro n (hn | hn | hn) <;>
        · cases hn
          intro c hc
          cases List.mem_singleton.mp hc
          rfl
      · intro p hp q hq hv h1 h2
        exact List.inj_on_of_nodup_map h3 hp hq (congrArg Except.toOption (h1.trans h2.symm))

set_option maxRecDepth 100000 in
/-- RSA-OAEP, the reader has only the RSA key. -/
example : ∃ root out pre top, manifestTree Toy.env Spec.exactLog Toy.rsaOptions 1 (Toy.shortReads 36) = (.ok root, out) ∧
    out = pre ++ [top, root] ∧ ∀ rd cache depth, 1 ≤ depth →
      ∃ t, TravEnv.preorder ⟨Toy.prims, rd, some Toy.rsaKeys⟩ depth cache top (TState.new (some Toy.rsaKeys)) = (.error .valueError, t) ∧
        t.writes = [] := by
  have hget : Toy.rsaKeys.getRsa Toy.prims (.hash (Toy.rsa.keyid Toy.prims)) = .ok Toy.rsa := by decide +kernel
  have hw : oaepWrapper Toy.prims Toy.rsa [] Toy.saltedKey = .ok Toy.wrapper := by decide +kernel
  have hk : Toy.rsaKeys.getAesKey 5 = .error .keyNumberNotFound := by decide +kernel
  have hv : Spec.CanVerify Toy.prims (some Toy.rsaKeys) Toy.rsaOptions.signer := by
    intro s hs
    cases Option.some.inj hs
    exact ⟨Toy.rsa, hget, rfl⟩
  have hfit : Toy.saltedKey.Fits64 := ⟨by decide, fun _ h => by cases h⟩
  have halg : ∀ a, Toy.wrapper.hashAlg = some a → a < 2 ^ 64 := by
    intro a h
    cases Option.some.inj h
    decide
  obtain ⟨root, out, store, h, _, hr⟩ := Toy.canRead (o := Toy.rsaOptions) (input := Toy.shortReads 36) (n := 9) hv
    ⟨hfit, halg, Toy.rsaKeys, rfl, .inr ⟨⟨_, hk⟩, Toy.rsa, [], Toy.rsa, hw, hget, rfl, rfl⟩⟩
    (Toy.plain ⟨rfl, rfl, rfl⟩) (Toy.text rfl rfl rfl) (by decide +kernel)
  obtain ⟨pre, top, h1, h2⟩ := C107_needs_the_root (fun h => by cases h) h (p := Toy.saltedKey) (w := Toy.wrapper) rfl (s := Toy.rsaKeys)
    (e := .keyNumberNotFound) hr.toHasKeys hk
  exact ⟨root, out, pre, top, h, h1, h2⟩

end Ccnpy
