import Verif.Props.LargerProps

/-!
# C125: which encrypted files are published, by arithmetic

C123 for encrypted trees.  Encryption adds a fixed number of bytes to a manifest; with RSA-OAEP it adds more to the root, which carries the
wrapped key.
-/

namespace Ccnpy

/-! ## Specification -/

/-- Some node can be encrypted, and its manifest is `c` bytes longer than the node.  `full` is true for root manifests. -/
def Spec.SealCost (E : Env) (o : TreeOptions) (full : Bool) (c : Nat) : Prop :=
  ∃ node t s m s' w, node.tlv = .ok t ∧ buildManifest E o node full s = (.ok m, s') ∧ m.serialize = .ok w ∧ w.length = t.len + c

/-! ## Lemmas -/

variable {E : Env} {L : FloatLog} {o : TreeOptions} {nc : Nat} {input : Stream}

theorem SealCost.len (henc : Spec.Encrypts E) {full : Bool} {c : Nat} (h : Spec.SealCost E o full c) {node : Node} {t : Tlv} {s s' : BState}
    {m : Manifest} {w : Bytes} (ht : node.tlv = .ok t) (hm : buildManifest E o node full s = (.ok m, s')) (hw : m.serialize = .ok w) :
    w.length = t.len + c := by
  obtain ⟨_, _, _, _, _, _, g1, g2, g3, g4⟩ := h
  have := buildManifest_len ⟨henc.tag, henc.nonce⟩ g2 hm g3 hw g1 ht
  omega

/-- If one manifest can be made, one can be made of every node. -/
theorem SealCost.all (henc : Spec.Encrypts E) {full : Bool} {c : Nat} (h : Spec.SealCost E o full c) {node : Node} {t : Tlv}
    (ht : node.tlv = .ok t) (hv : t.Valid) (s : BState) :
    ∃ m s' w, buildManifest E o node full s = (.ok m, s') ∧ m.serialize = .ok w ∧ w.length = t.len + c := by
  have hc := h
  obtain ⟨node₀, _, s₀, m₀, s₁, _, _, h₀, _⟩ := h
  suffices hh : ∃ m s' w, buildManifest E o node full s = (.ok m, s') ∧ m.serialize = .ok w by
    obtain ⟨m, s', w, h1, h2⟩ := hh
    exact ⟨m, s', w, h1, h2, SealCost.len henc hc ht h1 h2⟩
  cases ho : o.encryptor with
  | none =>
    have e : buildManifest E o node full = buildManifest E o node false := by unfold buildManifest; rw [ho]
    have e₀ : buildManifest E o node₀ full = buildManifest E o node₀ false := by unfold buildManifest; rw [ho]
    rw [e₀] at h₀
    rw [e]
    exact buildManifest_all (fun _ => henc) h₀ ht hv s
  | some enc =>
    unfold buildManifest at h₀ ⊢
    cases enc with
    | aead params =>
      simp only [ho] at h₀ ⊢
      obtain ⟨i, u, hi, h₀⟩ := PyS.bind_ok h₀
      obtain ⟨_, _, _, h₀⟩ := PyS.bind_ok h₀
      obtain ⟨h₀, _⟩ := PyS.lift_ok h₀
      obtain ⟨x₀, hx₀, _⟩ := bind_eq_ok.mp h₀
      obtain ⟨x, m, w, h1, h2, h3⟩ := aeadEncrypt_all henc.alike henc.tag hx₀ (henc.nonce i.nonces s.nonces) ht hv
      have e : (aeadEncrypt E.prims params (E.nonce s.nonces) node >>= Sealed.manifest) = .ok m := by rw [h1, ok_bind, h2]
      exact ⟨m, _, w, congrArg (fun r => (r, { s with nonces := s.nonces + 1 })) e, h3⟩
    | oaep params wrapper =>
      simp only [ho] at h₀ ⊢
      obtain ⟨i, u, hi, h₀⟩ := PyS.bind_ok h₀
      obtain ⟨_, _, _, h₀⟩ := PyS.bind_ok h₀
      obtain ⟨h₀, _⟩ := PyS.lift_ok h₀
      obtain ⟨x₀, hx₀, _⟩ := bind_eq_ok.mp h₀
      obtain ⟨x, m, w, h1, h2, h3⟩ := oaepEncrypt_all henc.alike henc.tag hx₀ (henc.nonce i.nonces s.nonces) ht hv
      have e : (oaepEncrypt E.prims params (some wrapper) full (E.nonce s.nonces) node >>= Sealed.manifest) = .ok m := by
        rw [h1, ok_bind, h2]
      exact ⟨m, _, w, congrArg (fun r => (r, { s with nonces := s.nonces + 1 })) e, h3⟩

/-- The packets of the size calculation. -/
theorem sizing_sealed (henc : Spec.Encrypts E) {ctx : NameCtx}
    (hctx : NameCtx.create o.schemaType nc o.name o.manifestPrefix o.dataPrefix o.manifestLocators o.dataLocators = .ok ctx) {c : Nat}
    (hc : Spec.SealCost E o false c) {total n : Nat} (hn : 1 ≤ n) :
    (∀ l, Spec.SizingBytes E o ctx total n l → l = Spec.bareBytes o ctx total + c + 36 * n) ∧
    (o.maxPacketSize + 33 ≤ 0xFFFF → Spec.bareBytes o ctx total + c + 36 * n ≤ o.maxPacketSize →
      Spec.SizingBytes E o ctx total n (Spec.bareBytes o ctx total + c + 36 * n)) := by
  obtain ⟨g1, _⟩ := nameCtx_inv hctx
  have hbare := bareBytes_eq hctx total hn
  have hlen : ∀ l, Spec.SizingBytes E o ctx total n l → l = Spec.bareBytes o ctx total + c + 36 * n := by
    rintro l ⟨s, p, s', h, hl⟩
    obtain ⟨node, t, ht, hb, htl⟩ := sizingPacket_node hn h
    obtain ⟨m, _, w, x, hm, hw, hx, _, hpl⟩ := buildFromNode_len hb
    cases hx
    rw [hl] at hpl
    have hpl := Except.ok.inj hpl
    have := SealCost.len henc hc ht hm hw
    simp only [List.length_nil, Option.isSome_none, Bool.false_eq_true, if_false] at hpl
    omega
  refine ⟨hlen, ?_⟩
  intro hmax hle
  obtain ⟨node, t, ht, hv, htl, hsz⟩ := sizingNode_ok E o (total := total) hn g1 (by omega)
  obtain ⟨m, s', w, hm, hw, hwl⟩ := SealCost.all henc hc ht hv {}
  obtain ⟨p, hp⟩ := buildFromNode_ok (name := none) (x := none) (n := []) (v := []) hm hw (by omega) rfl rfl
    (by simp only [List.length_nil]; omega)
  rw [← hsz] at hp
  obtain ⟨l', hl'⟩ : ∃ l', p.len = .ok l' := by
    obtain ⟨node', t', _, hb, _⟩ := sizingPacket_node hn hp
    obtain ⟨_, _, _, _, _, _, _, _, hpl⟩ := buildFromNode_len hb
    exact ⟨_, hpl⟩
  have hs : Spec.SizingBytes E o ctx total n l' := ⟨_, _, _, hp, hl'⟩
  rw [← hlen _ hs]
  exact hs

/-! ## Theorems -/

/-- C125 (a): the cost of encryption is the security context and a tag with its header; the root of an RSA-OAEP tree carries the wrapped
key in its security context. -/
theorem C125_cost (henc : Spec.Encrypts E) {full : Bool} {c : Nat} (h : Spec.SealCost E o full c) :
    (∀ p, o.encryptor = some (.aead p) → ∃ i d b, p.aeadData (E.nonce i) = .ok d ∧ wireOf SecurityCtx.tlv (.aead d) = .ok b ∧
      c = b.length + 20) ∧
    (∀ p w, o.encryptor = some (.oaep p w) → ∃ i d b, p.aeadData (E.nonce i) = .ok d ∧
      wireOf SecurityCtx.tlv (.rsaOaep d (if full then some w else none)) = .ok b ∧ c = b.length + 20) := by
  obtain ⟨node, t, s, m, s', w, h1, h2, h3, h4⟩ := h
  have wire : ∀ {x : SecurityCtx} {tc : Tlv}, x.tlv = .ok tc → ∃ b, wireOf SecurityCtx.tlv x = .ok b ∧ b.length = tc.len := by
    intro x tc hx
    refine ⟨tc.bytes, ?_, Tlv.bytes_length _⟩
    unfold wireOf
    rw [hx, ok_bind, Tlv.serialize_of_valid (laid_securityCtx _ _ hx).1]
  constructor
  · intro p ho
    unfold buildManifest at h2
    simp only [ho] at h2
    obtain ⟨i, _, _, h2⟩ := PyS.bind_ok h2
    obtain ⟨_, _, _, h2⟩ := PyS.bind_ok h2
    obtain ⟨h2, _⟩ := PyS.lift_ok h2
    obtain ⟨x, hx, h2⟩ := bind_eq_ok.mp h2
    obtain ⟨d, hd, hx⟩ := aeadEncrypt_ok hx
    obtain ⟨_, tc, htc, e⟩ := encryptWithCtx_len henc.tag hx h2 h3 h1
    obtain ⟨b, hb, hbl⟩ := wire htc
    exact ⟨_, d, b, hd, hb, by omega⟩
  · intro p wr ho
    unfold buildManifest at h2
    simp only [ho] at h2
    obtain ⟨i, _, _, h2⟩ := PyS.bind_ok h2
    obtain ⟨_, _, _, h2⟩ := PyS.bind_ok h2
    obtain ⟨h2, _⟩ := PyS.lift_ok h2
    obtain ⟨x, hx, h2⟩ := bind_eq_ok.mp h2
    obtain ⟨d, hd, hx⟩ := oaepEncrypt_ok hx
    obtain ⟨_, tc, htc, e⟩ := encryptWithCtx_len henc.tag hx h2 h3 h1
    obtain ⟨b, hb, hbl⟩ := wire htc
    exact ⟨_, d, b, hd, hb, by omega⟩

/-- C125 (b): an encrypted root manifest can be made exactly if the bytes of its node and of the encryption are at most `max_packet_size`. -/
theorem C125_root (henc : Spec.Encrypts E) {r c : Nat} (hsig : Spec.Signs E.prims o.signer r) (hc : Spec.SealCost E o true c) {ctx : NameCtx}
    (hctx : NameCtx.create o.schemaType nc o.name o.manifestPrefix o.dataPrefix o.manifestLocators o.dataLocators = .ok ctx)
    {n v : Bytes} (hn : optWire Name.tlv o.name = .ok n) (hx : optWire (timestampTlv T_EXPIRY) o.rootExpiry = .ok v)
    (hfit : 33 + r + n.length + o.maxPacketSize ≤ 0xFFFF) (total : Nat) {b : Bytes} (hb : b.length = 32) (s : BState) :
    (∃ sample s', rootPacket E o ctx total (.sha256 b) s = (.ok sample, s')) ↔ Spec.rootBytes o ctx total + c ≤ o.maxPacketSize := by
  have hlaid : ∀ {t}, (rootNode o ctx total b).tlv = .ok t → t.len = Spec.rootBytes o ctx total := by
    intro t ht
    rw [← rootNode_length hctx total hb, ← (laid_node _ _ ht).2, Tlv.bytes_length]
  constructor
  · rintro ⟨sample, s', h⟩
    unfold rootPacket at h
    obtain ⟨g, hg, h⟩ := PyS.liftBind_ok h
    obtain ⟨node, hnode, h⟩ := PyS.liftBind_ok h
    obtain ⟨p, s1, hp, h⟩ := PyS.bind_ok h
    obtain ⟨rfl, _⟩ := construct_inv hg
    obtain ⟨hnode, t, ht⟩ := nodeFromGroups_inv hnode
    have hnode : node = rootNode o ctx total b := by
      rw [hnode]
      simp only [Option.isSome_some, Bool.or_true, if_true, Option.getD_some]
      rfl
    subst hnode
    obtain ⟨m, s2, w, hm, hw, hle, _⟩ := buildFromNode_inv hp
    have := SealCost.len henc hc ht hm hw
    have := hlaid ht
    omega
  · intro hle
    obtain ⟨⟨t, ht, hv⟩, g, hg, hnode⟩ := rootNode_ok hctx (total := total) hb (by omega)
    have htl := hlaid ht
    obtain ⟨m, s', w, hbm, hser, hwl⟩ := SealCost.all henc hc ht hv s
    have hvl : v.length ≤ 12 := by
      obtain ⟨l, hl, _, rfl⟩ := optWire_tlvs hx
      rw [expiry_len hl]
      split <;> omega
    obtain ⟨u, hu⟩ := manifestBody_ok (w := w) hn hx (by omega)
    obtain ⟨n', hn', hul⟩ := manifestBody_len hu
    rw [hn] at hn'
    cases hn'
    have hul' : u.len ≤ 25 + n.length + w.length := by
      split at hul <;> omega
    have hco : m.contentObject o.name o.rootExpiry = .ok (manifestBody o.name w o.rootExpiry) := by
      simp only [Manifest.contentObject, hser, ok_bind]
      exact construct_ok hu
    obtain ⟨p, hp⟩ := signPacket_ok hsig hu (by omega)
    refine ⟨⟨p, rootNode o ctx total b⟩, s', ?_⟩
    unfold rootPacket
    unfold rootGroup at hg
    rw [PyS.liftBind_run hg, PyS.liftBind_run hnode]
    have hbf : buildFromNode E o (rootNode o ctx total b) o.name o.rootExpiry o.signer true s = (.ok p, s') := by
      unfold buildFromNode
      rw [PyS.bind_of_ok hbm, PyS.liftBind_run hser, if_neg (by omega), PyS.liftBind_run hco, hp]
      rfl
    rw [PyS.bind_of_ok hbf]
    rfl

/-- C125 (c): exactly which files are published, encrypted or not: C123 with the cost `c` of encrypting a manifest and `c'` of encrypting
the root. -/
theorem C125_published (hP : Spec.LengthOnly E.prims) (hlow : L.NotLow) (hhigh : L.NotHigh)
    (henc : Spec.Encrypts E) {r c c' : Nat} (hsig : Spec.Signs E.prims o.signer r)
    (hc : Spec.SealCost E o false c) (hc' : Spec.SealCost E o true c')
    (hann : (o.addGroupLeafSize = false ∧ o.addGroupSubtreeSize = false) ∨ input.rest.length < 2 ^ 32)
    {ctx : NameCtx} {size : Nat}
    (hctx : NameCtx.create o.schemaType nc o.name o.manifestPrefix o.dataPrefix o.manifestLocators o.dataLocators = .ok ctx)
    (hnames : Spec.NamesFit ctx.manifest o) {n v : Bytes} (hn : optWire Name.tlv o.name = .ok n)
    (hx : optWire (timestampTlv T_EXPIRY) o.rootExpiry = .ok v) (hfit : 33 + r + n.length + o.maxPacketSize ≤ 0xFFFF)
    (hsize : ctx.data.payloadSize o.chunk = .ok size) :
    (∃ root out, manifestTree E L o nc input = (.ok root, out)) ↔
      input.rest ≠ [] ∧ Spec.chunkCount size input.schedule input.rest.length ≤ 2 ^ 24 ∧
      (∀ k, o.maxTreeDegree = some k → 2 ≤ k) ∧
      Spec.bareBytes o ctx input.rest.length + c + 72 ≤ o.maxPacketSize ∧
      Spec.rootBytes o ctx input.rest.length + c' ≤ o.maxPacketSize := by
  have hpl := sizing_sealed henc hctx hc (total := input.rest.length) (n := 2) (by omega)
  rw [C122_published hP hlow hhigh (fun _ => henc) hann hctx hnames hsize]
  constructor
  · rintro ⟨h1, h2, h3, ⟨l, hl, hle⟩, b, sample, s, s', hb, hr⟩
    have := hpl.1 l hl
    exact ⟨h1, h2, h3, by omega, (C125_root henc hsig hc' hctx hn hx hfit _ hb s).mp ⟨_, _, hr⟩⟩
  · rintro ⟨h1, h2, h3, h4, h5⟩
    obtain ⟨sample, s', hr⟩ := (C125_root henc hsig hc' hctx hn hx hfit input.rest.length
      (b := List.replicate 32 0) (by simp) {}).mpr h5
    exact ⟨h1, h2, h3, ⟨_, hpl.2 (by omega) (by omega), by omega⟩, _, _, _, _, by simp, hr⟩

/-- C125 (d): if a file is published in packets of `o.maxPacketSize` bytes with encryption or without, then so is every file that is not empty and not
longer, whatever its bytes, in packets of any greater or equal size `m'` for which the names leave room. -/
theorem C125_larger (hP : Spec.LengthOnly E.prims) (hlow : L.NotLow) (hhigh : L.NotHigh)
    (henc : Spec.Encrypts E) {r c₀ c₁ : Nat} (hsig : Spec.Signs E.prims o.signer r)
    (hc₀ : Spec.SealCost E o false c₀) (hc₁ : Spec.SealCost E o true c₁)
    (hann : (o.addGroupLeafSize = false ∧ o.addGroupSubtreeSize = false) ∨ input.rest.length < 2 ^ 32)
    {ctx : NameCtx} {size m' : Nat}
    (hctx : NameCtx.create o.schemaType nc o.name o.manifestPrefix o.dataPrefix o.manifestLocators o.dataLocators = .ok ctx)
    (hm : o.maxPacketSize ≤ m') (hnames : Spec.NamesFit ctx.manifest { o with maxPacketSize := m' })
    {n v : Bytes} (hn : optWire Name.tlv o.name = .ok n) (hx : optWire (timestampTlv T_EXPIRY) o.rootExpiry = .ok v)
    (hfit : 33 + r + n.length + m' ≤ 0xFFFF) (hsize : ctx.data.payloadSize o.chunk = .ok size)
    {b : Bytes} (hb : b ≠ []) (hlen : b.length ≤ input.rest.length)
    (h : ∃ root out, manifestTree E L o nc input = (.ok root, out)) :
    ∃ root out, manifestTree E L { o with maxPacketSize := m' } nc ⟨b, input.schedule⟩ = (.ok root, out) := by
  obtain ⟨hpos, hsize'⟩ := payloadSize_larger hm hsize
  have hnames0 : Spec.NamesFit ctx.manifest o := by
    obtain ⟨h1, name, w, h2, h3, h4⟩ := hnames
    have h4 : 33 + w.length + m' ≤ 0xFFFF := h4
    exact ⟨h1, name, w, h2, h3, by omega⟩
  obtain ⟨_, h2, h3, h4, h5⟩ := (C125_published hP hlow hhigh henc hsig hc₀ hc₁ hann hctx hnames0 hn hx (by omega) hsize).mp h
  have hi := integer_mono hlen
  refine (C125_published (o := { o with maxPacketSize := m' }) (input := ⟨b, input.schedule⟩) hP hlow hhigh henc hsig hc₀ hc₁
    (hann.imp id (fun h => Nat.lt_of_le_of_lt hlen h)) hctx hnames hn hx hfit hsize').mpr ⟨hb, ?_, h3, ?_, ?_⟩
  · exact Nat.le_trans (chunkCount_mono hpos (Nat.le_add_right _ _) _ hlen) h2
  · show Spec.bareBytes o ctx b.length + c₀ + 72 ≤ m'
    have : Spec.bareBytes o ctx b.length ≤ Spec.bareBytes o ctx input.rest.length := by
      unfold Spec.bareBytes
      cases o.addNodeSubtreeSize <;> simp only [if_true, Bool.false_eq_true, if_false] <;> omega
    omega
  · show Spec.rootBytes o ctx b.length + c₁ ≤ m'
    have : Spec.rootBytes o ctx b.length ≤ Spec.rootBytes o ctx input.rest.length := by
      unfold Spec.rootBytes
      cases o.addNodeSubtreeSize <;> cases o.addGroupSubtreeSize <;> simp only [if_true, Bool.false_eq_true, if_false] <;> omega
    omega

/-- C125 (e): a file that is published with encryption or without is published as well if fewer of the sizes are asked for (of the file in nodes, of
the subtree and of the leaves in groups), without a tree degree or with any other from two on. -/
theorem C125_fewer (hP : Spec.LengthOnly E.prims) (hlow : L.NotLow) (hhigh : L.NotHigh)
    (henc : Spec.Encrypts E) {r c₀ c₁ : Nat} (hsig : Spec.Signs E.prims o.signer r)
    (hc₀ : Spec.SealCost E o false c₀) (hc₁ : Spec.SealCost E o true c₁)
    (hann : (o.addGroupLeafSize = false ∧ o.addGroupSubtreeSize = false) ∨ input.rest.length < 2 ^ 32)
    {ctx : NameCtx} {size : Nat}
    (hctx : NameCtx.create o.schemaType nc o.name o.manifestPrefix o.dataPrefix o.manifestLocators o.dataLocators = .ok ctx)
    (hnames : Spec.NamesFit ctx.manifest o)
    {n v : Bytes} (hn : optWire Name.tlv o.name = .ok n) (hx : optWire (timestampTlv T_EXPIRY) o.rootExpiry = .ok v)
    (hfit : 33 + r + n.length + o.maxPacketSize ≤ 0xFFFF) (hsize : ctx.data.payloadSize o.chunk = .ok size)
    {a b c : Bool} (ha : a = true → o.addNodeSubtreeSize = true) (hb : b = true → o.addGroupSubtreeSize = true)
    (hc : c = true → o.addGroupLeafSize = true) {d : Option Nat} (hd : ∀ k, d = some k → 2 ≤ k)
    (h : ∃ root out, manifestTree E L o nc input = (.ok root, out)) :
    ∃ root out, manifestTree E L { o with addNodeSubtreeSize := a, addGroupSubtreeSize := b, addGroupLeafSize := c, maxTreeDegree := d }
      nc input = (.ok root, out) := by
  obtain ⟨h1, h2, _, h4, h5⟩ := (C125_published hP hlow hhigh henc hsig hc₀ hc₁ hann hctx hnames hn hx hfit hsize).mp h
  refine (C125_published (o := { o with addNodeSubtreeSize := a, addGroupSubtreeSize := b, addGroupLeafSize := c, maxTreeDegree := d })
    hP hlow hhigh henc hsig hc₀ hc₁ ?_ hctx hnames hn hx hfit hsize).mpr ⟨h1, h2, hd, ?_, ?_⟩
  · rcases hann with ⟨g1, g2⟩ | h
    · exact .inl ⟨Bool.eq_false_iff.mpr (fun h => by rw [hc h] at g1; cases g1), Bool.eq_false_iff.mpr (fun h => by rw [hb h] at g2; cases g2)⟩
    · exact .inr h
  · refine Nat.le_trans (Nat.add_le_add_right (Nat.add_le_add_right ?_ _) _) h4
    unfold Spec.bareBytes
    simp only
    cases a
    · simp only [Bool.false_eq_true, if_false]
      omega
    · simp only [ha rfl, if_true, Nat.le_refl]
  · refine Nat.le_trans (Nat.add_le_add_right ?_ _) h5
    unfold Spec.rootBytes
    simp only
    cases a <;> cases b <;> (try rw [ha rfl]) <;> (try rw [hb rfl]) <;> simp only [Bool.false_eq_true, if_false, if_true] <;> omega

/-! ## Instances -/

/-- By how many bytes the manifest of a small node is longer than the node. -/
def Toy.sealCost (o : TreeOptions) (full : Bool) : Option Nat :=
  let node : Node := { hashGroups := [{ pointers := some [.sha256 (List.replicate 32 0)] }] }
  match node.tlv, (buildManifest Toy.env o node full {}).1 with
  | .ok t, .ok m =>
    match m.serialize with
    | .ok w => if t.len ≤ w.length then some (w.length - t.len) else none
    | .error _ => none
  | _, _ => none

theorem Toy.sealCost_ok {o : TreeOptions} {full : Bool} {c : Nat} (h : Toy.sealCost o full = some c) : Spec.SealCost Toy.env o full c := by
  unfold Toy.sealCost at h
  simp only at h
  split at h
  · rename_i t m ht hm
    split at h
    · rename_i w hw
      split at h
      · rename_i hle
        have h := Option.some.inj h
        exact ⟨_, t, {}, m, _, w, ht, Prod.ext hm rfl, hw, by omega⟩
      · cases h
    · cases h
  · cases h

/-- Manifests encrypted under a key that the root carries wrapped, packets of `m` bytes. -/
def Toy.wrappedKeyOptions (m : Nat) : TreeOptions :=
  { Toy.options .prefixed false with maxPacketSize := m, encryptor := some (.oaep Toy.saltedKey Toy.wrapper) }

set_option maxRecDepth 100000 in
/-- C125 (c): 300 bytes, prefix names, manifests encrypted under a key that the root carries wrapped (54 bytes more per manifest, 123 for
the root): published in packets of 300 bytes. -/
example : ∃ root out, manifestTree Toy.env Spec.exactLog (Toy.wrappedKeyOptions 300) 1 (Toy.shortReads 300) = (.ok root, out) := by
  obtain ⟨ctx, n, v, g1, g2, g3, g4, g5, g6, g7⟩ := Toy.rootRoom_ok (o := Toy.wrappedKeyOptions 300) (total := 300)
    (a := 270) (b := 89) (c := 111) (by decide +kernel)
  obtain ⟨ctx', _, _, _, _, h1, h2, _⟩ := Toy.stages_ok (n := 300) (b := true) (o := Toy.wrappedKeyOptions 300) (by decide +kernel)
  rw [g1] at h1
  cases h1
  have hs : Spec.Signs Toy.env.prims (Toy.wrappedKeyOptions 300).signer 16 := Nat.le_refl 16
  refine (C125_published (o := Toy.wrappedKeyOptions 300) (L := Spec.exactLog) Toy.lengthOnly exactLog_notLow exactLog_notHigh Toy.encrypts hs
    (Toy.sealCost_ok (c := 54) (by decide +kernel)) (Toy.sealCost_ok (c := 123) (by decide +kernel)) (.inr (by decide +kernel))
    g1 h2 g2 g3 (by omega) g5).mpr ⟨by decide, by decide +kernel, fun k hk => (by cases hk), ?_, ?_⟩
  · show Spec.bareBytes _ ctx 300 + 54 + 72 ≤ 300
    rw [g6]; decide
  · show Spec.rootBytes _ ctx 300 + 123 ≤ 300
    rw [g7]; decide

set_option maxRecDepth 100000 in
/-- C125 (c): in packets of 230 bytes all manifests fit but not the root with the wrapped key, so the file is not published. -/
example : ¬ ∃ root out, manifestTree Toy.env Spec.exactLog (Toy.wrappedKeyOptions 230) 1 (Toy.shortReads 300) =
    (.ok root, out) := by
  obtain ⟨ctx, n, v, g1, g2, g3, g4, g5, g6, g7⟩ := Toy.rootRoom_ok (o := Toy.wrappedKeyOptions 230) (total := 300)
    (a := 200) (b := 89) (c := 111) (by decide +kernel)
  obtain ⟨ctx', _, _, _, _, h1, h2, _⟩ := Toy.stages_ok (n := 300) (b := false) (o := Toy.wrappedKeyOptions 230)
    (by decide +kernel)
  rw [g1] at h1
  cases h1
  have hs : Spec.Signs Toy.env.prims (Toy.wrappedKeyOptions 230).signer 16 := Nat.le_refl 16
  intro h
  have := ((C125_published (o := Toy.wrappedKeyOptions 230) (L := Spec.exactLog) Toy.lengthOnly exactLog_notLow exactLog_notHigh Toy.encrypts hs
    (Toy.sealCost_ok (c := 54) (by decide +kernel)) (Toy.sealCost_ok (c := 123) (by decide +kernel)) (.inr (by decide +kernel))
    g1 h2 g2 g3 (by omega) g5).mp h).2.2.2.2
  have h300 : (Toy.shortReads 300).rest.length = 300 := by decide +kernel
  rw [h300, g7] at this
  exact absurd this (by decide)

end Ccnpy
