import Verif.Props.DisplayProps
import Verif.Lemmas.Factory
import Verif.Lemmas.Toy
import Verif.Props.FlicProps
import Verif.Props.GraphProps

/-!
# C75: the manifest factory

`ManifestFactory.build_packet` takes pointers, a hash group, a list of hash groups or a node, and optional arguments.  What is in the
packet is said by `Spec.Describes`.
-/

namespace Ccnpy

/-- A size is shown if the option is on. -/
def Spec.shown (option : Bool) (size : Option Nat) : Option Nat := if option = true then size else none

/-- The node has these hash groups, a NodeData exactly if there is something to put there, and no padding. -/
structure Spec.MadeNode (o : TreeOptions) (a : BuildArgs) (groups : List HashGroup) (n : Node) : Prop where
  groups : n.hashGroups = groups
  noPad : n.padLength = none
  noData : n.nodeData = none ↔ a.ncDefs = none ∧ Spec.shown o.addNodeSubtreeSize a.nodeSubtreeSize = none
  data : ∀ d, n.nodeData = some d → d.subtreeSize = Spec.shown o.addNodeSubtreeSize a.nodeSubtreeSize ∧
    d.ncDefs = a.ncDefs.getD [] ∧ d.subtreeDigest = none ∧ d.locators = none ∧ d.vendors = []

/-- The hash group has these pointers, and a GroupData exactly if there is something to put there. -/
structure Spec.MadeGroup (o : TreeOptions) (a : BuildArgs) (hs : List HashValue) (g : HashGroup) : Prop where
  pointers : g.pointers = some hs
  noData : g.groupData = none ↔ a.ncId = none ∧ a.startSegmentId = none ∧
    Spec.shown o.addGroupSubtreeSize a.groupSubtreeSize = none ∧ Spec.shown o.addGroupLeafSize a.groupLeafSize = none
  data : ∀ d, g.groupData = some d → d.ncId = a.ncId ∧ d.startSegmentId = a.startSegmentId ∧
    d.subtreeSize = Spec.shown o.addGroupSubtreeSize a.groupSubtreeSize ∧
    d.leafSize = Spec.shown o.addGroupLeafSize a.groupLeafSize ∧ d.subtreeDigest = none ∧ d.leafDigest = none

/-- The node that the arguments describe. -/
def Spec.Describes (o : TreeOptions) (a : BuildArgs) (n : Node) : Source → Prop
  | .pointers hs => ∃ g, Spec.MadeGroup o a hs g ∧ Spec.MadeNode o a [g] n
  | .group g => Spec.MadeNode o a [g] n
  | .groups gs => Spec.MadeNode o a gs n
  | .node m => n = m
  | .other => False

theorem sizeArg_eq (option : Bool) {type : Nat} (ht : type ≤ 0xFFFF) (x : Option Nat) :
    sizeArg option type x = .ok (Spec.shown option x) := by
  unfold sizeArg Spec.shown
  cases option with
  | false => rfl
  | true =>
    cases x with
    | none => rfl
    | some n => simp [optM, construct, intTlv_eq ht, bind, Except.bind, pure, Except.pure]

theorem groupsNode_ok {o : TreeOptions} {a : BuildArgs} {gs : List HashGroup} {n : Node}
    (h : groupsNode gs a.ncDefs (Spec.shown o.addNodeSubtreeSize a.nodeSubtreeSize) = .ok n) : Spec.MadeNode o a gs n := by
  obtain ⟨nd, hnd, h⟩ := bind_eq_ok.mp h
  obtain ⟨rfl, _⟩ := construct_inv h
  rw [optM_construct hnd]
  refine ⟨rfl, rfl, ?_, ?_⟩
  · generalize Spec.shown o.addNodeSubtreeSize a.nodeSubtreeSize = x
    cases x <;> cases a.ncDefs <;> simp
  · intro d hd
    simp only at hd
    split at hd
    · cases hd
      exact ⟨rfl, rfl, rfl, rfl, rfl⟩
    · cases hd

theorem pointersGroup_ok {o : TreeOptions} {a : BuildArgs} {hs : List HashValue} {g : HashGroup}
    (h : pointersGroup hs (Spec.shown o.addGroupSubtreeSize a.groupSubtreeSize) (Spec.shown o.addGroupLeafSize a.groupLeafSize)
      a.ncId a.startSegmentId = .ok g) : Spec.MadeGroup o a hs g := by
  obtain ⟨gd, hgd, h⟩ := bind_eq_ok.mp h
  obtain ⟨rfl, _⟩ := construct_inv h
  rw [optM_construct hgd]
  refine ⟨rfl, ?_, ?_⟩
  · generalize Spec.shown o.addGroupSubtreeSize a.groupSubtreeSize = x
    generalize Spec.shown o.addGroupLeafSize a.groupLeafSize = y
    cases x <;> cases y <;> cases a.ncId <;> cases a.startSegmentId <;> simp
  · intro d hd
    simp only at hd
    split at hd
    · cases hd
      exact ⟨rfl, rfl, rfl, rfl, rfl, rfl⟩
    · cases hd

theorem sourceNode_ok {o : TreeOptions} {a : BuildArgs} {src : Source} {n : Node} (h : sourceNode o src a = .ok n) :
    Spec.Describes o a n src := by
  unfold sourceNode at h
  simp only [sizeArg_eq _ (show T_SUBTREE_SIZE ≤ 0xFFFF by decide), sizeArg_eq _ (show T_LEAF_SIZE ≤ 0xFFFF by decide), ok_bind] at h
  cases src with
  | pointers hs =>
    obtain ⟨g, hg, h⟩ := bind_eq_ok.mp h
    exact ⟨g, pointersGroup_ok hg, groupsNode_ok h⟩
  | group g => exact groupsNode_ok h
  | groups gs => exact groupsNode_ok h
  | node m => cases h; rfl
  | other => cases h

/-- C75 (contents): a packet of the factory is a manifest with the given name and expiry time.  Its payload is at most
`max_packet_size` long: without an encryptor a manifest with the node that the arguments describe, else the encryption of that node
under the next nonce. -/
theorem C75_contents (E : Env) (R : NameComponent → Text) (o : TreeOptions) (src : Source) (a : BuildArgs) (s s' : FState) (p : Packet)
    (h : buildPacket E R o src a s = (.ok p, s')) :
    ∃ (n : Node) (m : Manifest) (w : Bytes), Spec.Describes o a n src ∧ p.body.name = a.name ∧ p.body.expiryTime = a.expiryTime ∧ p.body.finalChunkId = none ∧
      p.body.payloadType = some PT_MANIFEST ∧ p.body.payload = some w ∧ m.serialize = .ok w ∧ w.length ≤ o.maxPacketSize ∧
      (o.encryptor = none → m = { node := .plain n } ∧
        (n.Fits64 → Manifest.fromContentObject p.body = .ok (Manifest.toBytes { node := .plain n }))) ∧
      (∀ params, o.encryptor = some (.aead params) →
        ∃ x, aeadEncrypt E.prims params (E.nonce s.base.nonces) n = .ok x ∧ m = ⟨some x.ctx, .encrypted x.ciphertext, some x.authTag⟩) ∧
      (∀ params wr, o.encryptor = some (.oaep params wr) →
        ∃ x, oaepEncrypt E.prims params (some wr) a.full (E.nonce s.base.nonces) n = .ok x ∧
          m = ⟨some x.ctx, .encrypted x.ciphertext, some x.authTag⟩) := by
  obtain ⟨n, b, k, g, hn, hb, hk, hr, rfl⟩ := buildPacket_ok h
  obtain ⟨m, s1, w, hm, hw, hlen, hbody, hsig, hx⟩ := buildFromNode_inv hb
  refine ⟨n, m, w, sourceNode_ok hn, by rw [hbody]; rfl, by rw [hbody]; rfl, by rw [hbody]; rfl, by rw [hbody]; rfl,
    by rw [hbody]; rfl, hw, hlen, ?_, ?_, ?_⟩
  · intro ho
    unfold buildManifest at hm
    simp only [ho] at hm
    obtain ⟨_, _, hm⟩ := PyS.liftBind_ok hm
    cases hm
    refine ⟨rfl, fun hf => ?_⟩
    rw [hbody]
    have hf' : Manifest.Fits64 { node := .plain n } := ⟨by simp, by intro x hx; cases hx; exact hf⟩
    exact manifest_RT (Manifest.fits_of_fits64 hf') hw
  · intro params ho
    unfold buildManifest at hm
    simp only [ho] at hm
    simp only [PyS.bind_run, PyS.get_run, PyS.modify_run, PyS.lift_run] at hm
    have hm := congrArg Prod.fst hm
    obtain ⟨x, hx, hm⟩ := bind_eq_ok.mp hm
    obtain ⟨_, _, hm⟩ := bind_eq_ok.mp hm
    cases hm
    exact ⟨x, hx, rfl⟩
  · intro params wr ho
    unfold buildManifest at hm
    simp only [ho] at hm
    simp only [PyS.bind_run, PyS.get_run, PyS.modify_run, PyS.lift_run] at hm
    have hm := congrArg Prod.fst hm
    obtain ⟨x, hx, hm⟩ := bind_eq_ok.mp hm
    obtain ⟨_, _, hm⟩ := bind_eq_ok.mp hm
    cases hm
    exact ⟨x, hx, rfl⟩

/-- C75 (errors): a source of another type raises TypeError. -/
theorem C75_other (E : Env) (R : NameComponent → Text) (o : TreeOptions) (a : BuildArgs) (s : FState) :
    buildPacket E R o .other a s = (.error .typeError, s) := by
  have : sourceNode o .other a = .error .typeError := by
    unfold sourceNode
    simp only [sizeArg_eq _ (show T_SUBTREE_SIZE ≤ 0xFFFF by decide), sizeArg_eq _ (show T_LEAF_SIZE ≤ 0xFFFF by decide), ok_bind]
  unfold buildPacket factoryBuild
  simp [PyS.bind_run, this]

/-- C75 (size limit): without an encryptor, a node whose manifest is encoded in more than `max_packet_size` bytes raises ValueError (or
whatever making the text of the message raises, if the manifest cannot be shown);
otherwise, if the object with the given name and expiry time can be encoded, an unsigned packet is made.  The limit is on the manifest,
not on the packet. -/
theorem C75_limit (E : Env) (R : NameComponent → Text) (o : TreeOptions) (ho : o.encryptor = none) (n : Node) (w : Bytes)
    (hw : Manifest.serialize { node := .plain n } = .ok w) (a : BuildArgs) (ha : a.signer = none) (s : FState) (hg : s.graph = none) :
    (w.length > o.maxPacketSize → ∃ e, buildPacket E R o (.node n) a s = (.error e, s) ∧
      (Spec.ManifestShowable { node := .plain n } → e = .valueError) ∧
      (¬ Spec.ManifestShowable { node := .plain n } → e = .attributeError ∨ e = .valueError ∨ e = .typeError)) ∧
    (w.length ≤ o.maxPacketSize → ∀ p,
      Packet.createContentObject { name := a.name, payloadType := some PT_MANIFEST, payload := some w, expiryTime := a.expiryTime } =
        .ok p → ∃ k, p.len = .ok k ∧
      buildPacket E R o (.node n) a s =
        (.ok p, { s with cntManifests := s.cntManifests + 1, cntManifestBytes := s.cntManifestBytes + k })) := by
  have hn : sourceNode o (.node n) a = .ok n := by
    unfold sourceNode
    simp only [sizeArg_eq _ (show T_SUBTREE_SIZE ≤ 0xFFFF by decide), sizeArg_eq _ (show T_LEAF_SIZE ≤ 0xFFFF by decide), ok_bind]
  have hm : buildManifest E o n a.full s.base = (.ok { node := .plain n }, s.base) := by
    unfold buildManifest
    simp only [ho, PyS.bind_run, PyS.lift_run, hw]
    rfl
  rw [buildPacket_run E R o _ a s (by simp [ha]), hn]
  simp only [buildFromNode, PyS.bind_run, hm, PyS.lift_run, hw, BuildArgs.effectiveSigner, ha]
  constructor
  · intro hl
    simp only [if_pos hl, PyS.lift_run]
    have hshow := C77_manifest { node := .plain n }
    unfold Manifest.tooLarge
    cases hd : Manifest.display { node := .plain n } with
    | ok _ => exact ⟨_, rfl, fun _ => rfl, fun h => absurd (hshow.1 hd) h⟩
    | error e =>
      refine ⟨e, rfl, fun h => ?_, fun _ => Manifest.display_error hd⟩
      rw [hshow.2 h] at hd
      cases hd
  · intro hl p hp
    obtain ⟨k, hk⟩ := (signPacket_len (P := E.prims) (sg := none) hp).1
    refine ⟨k, hk, ?_⟩
    have hb : Manifest.contentObject { node := .plain n } a.name a.expiryTime =
        .ok { name := a.name, payloadType := some PT_MANIFEST, payload := some w, expiryTime := a.expiryTime } := by
      obtain ⟨t, ht, _⟩ := createContentObject_inv hp
      unfold Manifest.contentObject
      rw [hw, ok_bind]
      exact construct_ok ht
    simp only [if_neg (Nat.not_lt.2 hl), PyS.bind_run, PyS.lift_run, hb]
    simp only [signPacket, Option.isSome_none, Bool.false_eq_true, if_false, hp]
    have hr : recordManifest E.prims R p n s = (.ok (), s) := by
      unfold recordManifest
      rw [if_pos (by rw [hg]; rfl)]
    simp only [factoryFinish, PyS.bind_run, hr, PyS.lift_run, hk, PyS.modify_run, PyS.pure_run]

/-- C75 (signer): without the argument `signer` the packet is not signed, even if the options have a signer; with it the packet is what
the signer of the options makes of the body, whatever signer was passed; if the options have none, no packet is made. -/
theorem C75_signer (E : Env) (R : NameComponent → Text) (o : TreeOptions) (src : Source) (a : BuildArgs) (s : FState) :
    (∀ p s', a.signer = none → buildPacket E R o src a s = (.ok p, s') → p.alg = none ∧ p.payload = none) ∧
    (∀ p s' x, a.signer = some x → buildPacket E R o src a s = (.ok p, s') →
      (o.signer = some .crc32c ∧ crcSignedPacket p.body = .ok p) ∨
      ∃ key link time, o.signer = some (.rsa key link time) ∧ rsaSignedPacket E.prims key link time p.body = .ok p) ∧
    (∀ x, a.signer.isSome → buildPacket E R o src { a with signer := some x } s = buildPacket E R o src a s) ∧
    (∀ p s', a.signer.isSome → o.signer = none → buildPacket E R o src a s ≠ (.ok p, s')) := by
  refine ⟨?_, ?_, ?_, ?_⟩
  · intro p s' ha h
    obtain ⟨n, b, k, g, hn, hb, hk, hr, rfl⟩ := buildPacket_ok h
    obtain ⟨m, s1, w, hm, hw, hlen, hbody, hsig, hx⟩ := buildFromNode_inv hb
    simp only [BuildArgs.effectiveSigner, ha] at hsig
    obtain ⟨_, _, rfl⟩ := createContentObject_inv hsig
    exact ⟨rfl, rfl⟩
  · intro p s' x ha h
    have hs := buildPacket_no_signer h (by rw [ha]; rfl)
    obtain ⟨n, b, k, g, hn, hb, hk, hr, rfl⟩ := buildPacket_ok h
    obtain ⟨m, s1, w, hm, hw, hlen, hbody, hsig, hx⟩ := buildFromNode_inv hb
    rw [← hbody] at hsig
    simp only [BuildArgs.effectiveSigner, ha, Option.isSome_some, if_true] at hsig
    cases ho : o.signer with
    | none => rw [ho] at hs; cases hs
    | some sg =>
      rw [ho] at hsig
      cases sg with
      | crc32c => exact .inl ⟨rfl, hsig⟩
      | rsa k l t => exact .inr ⟨k, l, t, rfl, hsig⟩
  · intro x ha
    cases hs : a.signer with
    | none => rw [hs] at ha; cases ha
    | some y =>
      have : ∀ body, factorySign E.prims o (some x) body = factorySign E.prims o (some y) body := fun _ => rfl
      unfold buildPacket
      simp only [hs, this]
      rfl
  · intro p s' ha ho h
    have := buildPacket_no_signer h ha
    rw [ho] at this
    cases this

/-- C75 (counters): after any calls, some of which may have raised, the counters have grown by the number and the lengths of the packets
that were returned. -/
theorem C75_counters (E : Env) (R : NameComponent → Text) (o : TreeOptions) (calls : List (Source × BuildArgs)) (s : FState) :
    ∃ ns, List.Forall₂ (fun p n => Packet.len p = .ok n) (buildPackets E R o calls s).1 ns ∧
      (buildPackets E R o calls s).2.cntManifests = s.cntManifests + (buildPackets E R o calls s).1.length ∧
      (buildPackets E R o calls s).2.cntManifestBytes = s.cntManifestBytes + ns.sum := by
  induction calls generalizing s with
  | nil => exact ⟨[], .nil, rfl, rfl⟩
  | cons c cs ih =>
    unfold buildPackets
    cases hr : buildPacket E R o c.1 c.2 s with
    | mk r s1 =>
      obtain ⟨ns, h1, h2, h3⟩ := ih s1
      cases r with
      | ok p =>
        obtain ⟨_, b, n, g, _, _, hn, _, rfl⟩ := buildPacket_ok hr
        refine ⟨n :: ns, .cons hn h1, ?_, ?_⟩
        · simp only [h2, List.length_cons]; omega
        · simp only [h3, List.sum_cons]; omega
      | error e =>
        obtain ⟨e1, e2⟩ := buildPacket_error hr
        exact ⟨ns, h1, by rw [h2, e1], by rw [h3, e2]⟩

/-- C75 (ignored arguments): with a node the sizes, the constructor definitions and the group arguments do not matter; with hash groups
the group arguments do not matter. -/
theorem C75_ignored (E : Env) (R : NameComponent → Text) (o : TreeOptions) (a b : BuildArgs) (s : FState)
    (h : a.name = b.name ∧ a.expiryTime = b.expiryTime ∧ a.signer = b.signer ∧ a.full = b.full) :
    (∀ n, buildPacket E R o (.node n) a s = buildPacket E R o (.node n) b s) ∧
    (a.ncDefs = b.ncDefs → a.nodeSubtreeSize = b.nodeSubtreeSize →
      (∀ g, buildPacket E R o (.group g) a s = buildPacket E R o (.group g) b s) ∧
      ∀ gs, buildPacket E R o (.groups gs) a s = buildPacket E R o (.groups gs) b s) := by
  obtain ⟨h1, h2, h3, h4⟩ := h
  have key : ∀ src, sourceNode o src a = sourceNode o src b → buildPacket E R o src a s = buildPacket E R o src b s := by
    intro src he
    unfold buildPacket factoryBuild
    rw [he, h1, h2, h3, h4]
  refine ⟨fun n => key _ ?_, fun h5 h6 => ⟨fun g => key _ ?_, fun gs => key _ ?_⟩⟩ <;> unfold sourceNode <;>
    simp only [sizeArg_eq _ (show T_SUBTREE_SIZE ≤ 0xFFFF by decide), sizeArg_eq _ (show T_LEAF_SIZE ≤ 0xFFFF by decide), ok_bind, *]

/-- C75 (graph): with a graph that is not paused, a packet is returned only together with its record in the graph: under the packet's
hash, with the label of its name and the pointers of the described node. -/
theorem C75_graph (E : Env) (R : NameComponent → Text) (o : TreeOptions) (src : Source) (a : BuildArgs) (s s' : FState) (p : Packet)
    (g : ManifestGraph) (hg : s.graph = some g) (h : buildPacket E R o src a s = (.ok p, s')) :
    ∃ n hash, Spec.Describes o a n src ∧ p.hash E.prims.sha256 = .ok hash ∧
      s'.graph = some (ManifestGraph.step E.prims R g (.manifest hash n a.name)) ∧
      (g.paused = false → (Spec.graphRecord R (.manifest hash n a.name)).isSome) := by
  obtain ⟨n, b, k, g', hn, hb, hk, hr, rfl⟩ := buildPacket_ok h
  obtain ⟨m, s1, w, hm, hw, hlen, hbody, hsig, hx⟩ := buildFromNode_inv hb
  have hname : p.body.name = a.name := by rw [hbody]; rfl
  unfold recordManifest at hr
  simp only [hg, Option.isNone_some, Bool.false_eq_true, if_false, hname] at hr
  cases hh : p.hash E.prims.sha256 with
  | error e => rw [hh] at hr; cases hr
  | ok hash =>
    rw [hh] at hr
    refine ⟨n, hash, sourceNode_ok hn, rfl, ?_, ?_⟩
    · simp only [PyS.onGraph] at hr
      have := congrArg (fun x => x.2.graph) hr
      simp only at this
      rw [← this]
      rfl
    · intro hp
      simp only [PyS.onGraph] at hr
      have hr := congrArg Prod.fst hr
      simp only at hr
      unfold ManifestGraph.addManifest at hr
      simp only [hp, Bool.false_eq_true, if_false] at hr
      unfold Spec.graphRecord
      cases h1 : n.hashValues with
      | error e => simp [h1, bind, Except.bind] at hr
      | ok cs =>
        cases h2 : graphLabel R hash a.name with
        | error e => simp [h1, h2, bind, Except.bind] at hr
        | ok l => simp only [h1, h2]; rfl

/-- C75 (graph): with a graph that is not paused the empty name raises, since the graph cannot make a label of it. -/
theorem C75_graph_empty_name (E : Env) (R : NameComponent → Text) (o : TreeOptions) (src : Source) (a : BuildArgs) (s s' : FState)
    (p : Packet) (g : ManifestGraph) (hg : s.graph = some g) (hp : g.paused = false) (ha : a.name = some ⟨[]⟩) :
    buildPacket E R o src a s ≠ (.ok p, s') := by
  intro h
  obtain ⟨n, hash, _, _, _, hr⟩ := C75_graph E R o src a s s' p g hg h
  have hr := hr hp
  rw [ha] at hr
  unfold Spec.graphRecord at hr
  simp only [(C74_label R hash).2.1] at hr
  cases hn : n.hashValues <;> simp [hn] at hr

/-! ## The uses of the factory by the tree builder -/

theorem buildPacket_nograph (E : Env) (R : NameComponent → Text) (o : TreeOptions) (src : Source) (a : BuildArgs) (b : BState) (n : Node)
    (hn : sourceNode o src a = .ok n) (hs : a.signer.isSome → o.signer.isSome) :
    (buildPacket E R o src a { base := b }).1 = (buildFromNode E o n a.name a.expiryTime (a.effectiveSigner o) a.full b).1 ∧
    (buildPacket E R o src a { base := b }).2.base = (buildFromNode E o n a.name a.expiryTime (a.effectiveSigner o) a.full b).2 := by
  rw [buildPacket_run E R o src a _ hs, hn]
  simp only
  cases hb : buildFromNode E o n a.name a.expiryTime (a.effectiveSigner o) a.full b with
  | mk r b1 =>
    cases r with
    | error e => exact ⟨rfl, rfl⟩
    | ok p =>
      obtain ⟨m, s1, w, hm, hw, hlen, hbody, hsig, hx⟩ := buildFromNode_inv hb
      obtain ⟨k, hk⟩ := (signPacket_len hsig).1
      have hr : recordManifest E.prims R p n { base := b1 } = (.ok (), { base := b1 }) := rfl
      simp only [factoryFinish, PyS.bind_run, hr, PyS.lift_run, hk, PyS.modify_run, PyS.pure_run]
      exact ⟨trivial, trivial⟩

/-- The calls of the tree builder (TreeBuilder.py:327, a node): `build_packet` gives what `Model/Tree.lean` has, `buildFromNode`. -/
theorem C75_tree_node (E : Env) (R : NameComponent → Text) (o : TreeOptions) (n : Node) (name : Option Name) (expiry : Option F64)
    (b : BState) :
    let r := buildPacket E R o (.node n) { name := name, expiryTime := expiry } { base := b }
    (r.1, r.2.base) = buildFromNode E o n name expiry none false b := by
  have hn : sourceNode o (.node n) { name := name, expiryTime := expiry } = .ok n := by
    unfold sourceNode
    simp only [sizeArg_eq _ (show T_SUBTREE_SIZE ≤ 0xFFFF by decide), sizeArg_eq _ (show T_LEAF_SIZE ≤ 0xFFFF by decide), ok_bind]
  obtain ⟨h1, h2⟩ := buildPacket_nograph E R o (.node n) { name := name, expiryTime := expiry } b n hn (by simp)
  exact Prod.ext h1 h2

theorem nodeFromGroups_eq (o : TreeOptions) (gs : List HashGroup) (nc : Option (List NcDef)) (size : Option Nat) :
    nodeFromGroups o gs nc size = groupsNode gs nc (Spec.shown o.addNodeSubtreeSize size) := rfl

/-- The call of the size calculator (ManifestSizeCalculator.py:106, a list of hash groups). -/
theorem C75_tree_sizing (E : Env) (R : NameComponent → Text) (o : TreeOptions) (gs : List HashGroup) (total : Nat) (b : BState) :
    let r := buildPacket E R o (.groups gs) { nodeSubtreeSize := some total } { base := b }
    (r.1, r.2.base) = (do buildFromNode E o (← PyS.lift (nodeFromGroups o gs none (some total))) none none none false) b := by
  have hn : sourceNode o (.groups gs) { nodeSubtreeSize := some total } = nodeFromGroups o gs none (some total) := by
    unfold sourceNode
    simp only [sizeArg_eq _ (show T_SUBTREE_SIZE ≤ 0xFFFF by decide), sizeArg_eq _ (show T_LEAF_SIZE ≤ 0xFFFF by decide), ok_bind,
      nodeFromGroups_eq]
  simp only [PyS.bind_run, PyS.lift_run]
  cases h : nodeFromGroups o gs none (some total) with
  | error e =>
    rw [buildPacket_run E R o _ _ _ (by simp), hn, h]
  | ok n =>
    obtain ⟨h1, h2⟩ := buildPacket_nograph E R o (.groups gs) { nodeSubtreeSize := some total } b n (hn.trans h) (by simp)
    exact Prod.ext h1 h2

/-- The hash group of the root manifest. -/
private def rootGroup (o : TreeOptions) (ctx : NameCtx) (total : Nat) (top : HashValue) : HashGroup :=
  ⟨some ⟨if o.addGroupSubtreeSize then some total else none, none, none, none, some ctx.manifest.ncId,
    if ctx.manifest.usesNameId then some 0 else none⟩, some [top]⟩

/-- The call for the root (ManifestTree.py:111, one pointer). -/
theorem C75_tree_root (E : Env) (R : NameComponent → Text) (o : TreeOptions) (ctx : NameCtx) (total : Nat) (top : HashValue) (b : BState) :
    let r := buildPacket E R o (.pointers [top])
      { ncDefs := some ctx.ncDefs, nodeSubtreeSize := some total, groupSubtreeSize := some total, ncId := some ctx.manifest.ncId,
        startSegmentId := if ctx.manifest.usesNameId then some 0 else none, name := o.name, expiryTime := o.rootExpiry,
        signer := o.signer, full := true } { base := b }
    (r.1, r.2.base) = (do return (← rootPacket E o ctx total top).packet) b := by
  intro r
  have hg : ∀ gd : GroupData, (do let g ← construct GroupData.tlv gd; construct HashGroup.tlv { groupData := some g, pointers := some [top] }) =
      construct HashGroup.tlv { groupData := some gd, pointers := some [top] } := by
    intro gd
    unfold construct HashGroup.tlv HashGroup.members optTlv
    cases h : gd.tlv with
    | error e => simp [h, bind, Except.bind]
    | ok t => simp [h, bind, Except.bind, pure, Except.pure]
  have hn : sourceNode o (.pointers [top])
      { ncDefs := some ctx.ncDefs, nodeSubtreeSize := some total, groupSubtreeSize := some total, ncId := some ctx.manifest.ncId,
        startSegmentId := if ctx.manifest.usesNameId then some 0 else none, name := o.name, expiryTime := o.rootExpiry,
        signer := o.signer, full := true } =
      (construct HashGroup.tlv (rootGroup o ctx total top) >>=
        fun g => nodeFromGroups o [g] (some ctx.ncDefs) (some total)) := by
    unfold sourceNode
    simp only [sizeArg_eq _ (show T_SUBTREE_SIZE ≤ 0xFFFF by decide), sizeArg_eq _ (show T_LEAF_SIZE ≤ 0xFFFF by decide), ok_bind,
      nodeFromGroups_eq]
    rw [rootGroup, ← hg]
    unfold pointersGroup
    have : Spec.shown o.addGroupLeafSize none = none := by unfold Spec.shown; simp
    simp only [this, Option.isSome_some, Bool.or_true, Bool.true_or, if_true, optM]
    unfold Spec.shown
    cases construct GroupData.tlv
      { subtreeSize := if o.addGroupSubtreeSize = true then some total else none, ncId := some ctx.manifest.ncId,
        startSegmentId := if ctx.manifest.usesNameId = true then some 0 else none } <;> rfl
  have hs : o.signer.isSome → o.signer.isSome := id
  have he : ∀ a : BuildArgs, a.signer = o.signer → a.effectiveSigner o = o.signer := by
    intro a ha
    unfold BuildArgs.effectiveSigner
    rw [ha]
    cases o.signer <;> rfl
  unfold rootPacket
  simp only [PyS.bind_run, PyS.lift_run]
  rw [rootGroup] at hn
  generalize construct HashGroup.tlv _ = rg at hn ⊢
  cases rg with
  | error e =>
    simp only [r]
    rw [buildPacket_run E R o _ _ _ hs, hn]
    rfl
  | ok g =>
    rw [ok_bind] at hn
    simp only
    cases hm : nodeFromGroups o [g] (some ctx.ncDefs) (some total) with
    | error e =>
      simp only [r]
      rw [buildPacket_run E R o _ _ _ hs, hn, hm]
    | ok n =>
      rw [hm] at hn
      obtain ⟨h1, h2⟩ := buildPacket_nograph E R o _ _ b n hn hs
      rw [he _ rfl] at h1 h2
      simp only at h1 h2 ⊢
      simp only [r]
      rw [h1, h2]
      cases buildFromNode E o n o.name o.rootExpiry o.signer true b with
      | mk x y => cases x <;> rfl

/-! ## Cases -/

private def toyEnv : Env := ⟨Toy.prims, fun i => List.replicate 12 (UInt8.ofNat i)⟩
private def optionsNone : TreeOptions := { maxPacketSize := 1500, schemaType := .hashed, name := none }
private def toyHash : HashValue := .sha256 (List.replicate 32 5)
private def args : BuildArgs := { nodeSubtreeSize := some 77, ncId := some 3, groupLeafSize := some 9, name := some ⟨[]⟩ }
private def noText : NameComponent → Text := fun _ => []

/-- Pointers give a packet; with a graph the same call raises AssertionError, because the name is empty. -/
example :
    ((buildPacket toyEnv noText optionsNone (.pointers [toyHash]) args {}).1.map (fun p => p.body.name) = .ok (some ⟨[]⟩)) ∧
    (buildPacket toyEnv noText optionsNone (.pointers [toyHash]) args { graph := some {} }).1 = .error .assertionError := by
  decide +kernel

/-- With a CRC signer in the options: the packet is signed only if an argument says so. -/
example :
    ((buildPacket toyEnv noText { optionsNone with signer := some .crc32c } (.group {}) {} {}).1.map (fun p => p.alg.isSome) = .ok false) ∧
    ((buildPacket toyEnv noText { optionsNone with signer := some .crc32c } (.group {}) { signer := some (.crc32c) } {}).1.map
      (fun p => p.alg.isSome) = .ok true) ∧
    (buildPacket toyEnv noText optionsNone (.group {}) { signer := some .crc32c } {}).1 = .error .attributeError := by
  decide +kernel

/-- Three calls, of which one raises: two packets are counted. -/
example :
    ((buildPackets toyEnv noText optionsNone [(.pointers [toyHash], args), (.other, {}), (.groups [{}], {})] {}).2.cntManifests,
     (buildPackets toyEnv noText optionsNone [(.pointers [toyHash], args), (.other, {}), (.groups [{}], {})] {}).2.cntManifestBytes) =
      (2, 111) := by
  decide +kernel

end Ccnpy
