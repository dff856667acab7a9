import Verif.Props.PublishProps
import Verif.Props.LayoutProps

/-!
# C121: how many pointers a manifest gets

`ManifestSizeCalculator.calculate_max_pointers` builds a manifest packet with one pointer, divides the room that is left by the length of a
pointer (in floating point), and builds a second packet to see whether that many fit.  Here: when it returns, and with which number; and
with C120, a condition for publishing that does not run the size calculation.
-/

namespace Ccnpy

/-! ## Specification -/

/-- The packet that the size calculation builds with `n` pointers takes `l` bytes. -/
def Spec.SizingBytes (E : Env) (o : TreeOptions) (ctx : NameCtx) (total n l : Nat) : Prop :=
  ∃ s p s', sizingPacket E o ctx total n s = (.ok p, s') ∧ p.len = .ok l

/-- Manifests that go through the size calculation and are not encrypted: the bytes besides the pointers.  A header, the content object with
payload type and payload, the node: 25; the file size if nodes carry it; for each group 26 (the group, its data with two sizes of one byte,
its list of pointers) and the number of its name constructor, and 7 for a start id if names are segmented. -/
def Spec.bareBytes (o : TreeOptions) (ctx : NameCtx) (total : Nat) : Nat :=
  25 + (if o.addNodeSubtreeSize then 8 + (Spec.integer total).length else 0) +
    if ctx.shared then 26 + (Spec.integer ctx.manifest.ncId).length
    else 52 + (Spec.integer ctx.data.ncId).length + (Spec.integer ctx.manifest.ncId).length + (if o.schemaType = .segmented then 14 else 0)

/-! ## Sizing packets of other sizes -/

theorem prependMany_ok {hv : HashValue} {k : Nat} : ∀ (n : Nat) (b : BuilderPair), b.direct.maxDirect = some k → b.direct.directCount + n ≤ k →
    ∃ b', prependMany b hv n = .ok b'
  | 0, b, _, _ => ⟨b, rfl⟩
  | n + 1, b, hm, hk => by
    have hf : b.direct.prependDirect hv none =
        .ok { b.direct with pointers := hv :: b.direct.pointers, directCount := b.direct.directCount + 1, directSize := b.direct.directSize + 0 } := by
      have : b.direct.isDirectFull = false := by
        simp only [HashGroupBuilder.isDirectFull, hm, limitReached, decide_eq_false_iff_not]
        omega
      simp only [HashGroupBuilder.prependDirect, this, Bool.not_false, pyAssert, if_true, ok_bind, Option.getD_none, pure_eq_ok]
    obtain ⟨b', hb'⟩ := prependMany_ok n { b with direct := { b.direct with pointers := hv :: b.direct.pointers, directCount := b.direct.directCount + 1, directSize := b.direct.directSize + 0 } } hm (by simp only; omega)
    refine ⟨b', ?_⟩
    simp only [prependMany, BuilderPair.prependDirect, hf, ok_bind, pure_eq_ok]
    exact hb'

theorem listTlv_one {α} {f : α → Py Tlv} {a : α} {t : Tlv} (h : f a = .ok t) : listTlv f [a] = .ok [t] := by
  simp only [listTlv, h, ok_bind, pure_eq_ok]

theorem listTlv_two {α} {f : α → Py Tlv} {a b : α} {t u : Tlv} (h : f a = .ok t) (h' : f b = .ok u) : listTlv f [a, b] = .ok [t, u] := by
  simp only [listTlv, h, h', ok_bind, pure_eq_ok]

theorem sizingLen_linear (ctx : NameCtx) {n : Nat} (hn : 1 ≤ n) : sizingLen ctx n + 36 = sizingLen ctx 1 + 36 * n := by
  unfold sizingLen groupLen
  split <;> omega

variable {E : Env} {L : FloatLog} {o : TreeOptions} {nc : Nat} {input : Stream}

/-- The node of the size calculation can be made for every number of pointers that fits. -/
theorem sizingNode_ok (E : Env) (o : TreeOptions) {ctx : NameCtx} {total n : Nat} (hn : 1 ≤ n)
    (hctx : ctx.shared = true → ctx.data = ctx.manifest ∧ ctx.manifest.usesNameId = false)
    (hfit : 4 + dataLenOf (if o.addNodeSubtreeSize then some total else none) + sizingLen ctx n ≤ 0xFFFF) :
    ∃ node t, node.tlv = .ok t ∧ t.Valid ∧ t.len = 4 + dataLenOf (if o.addNodeSubtreeSize then some total else none) + sizingLen ctx n ∧
      ∀ s, sizingPacket E o ctx total n s = buildFromNode E o node none none none false s := by
  have hz : ∀ k, ∀ h ∈ List.replicate k (HashValue.sha256 (List.replicate 32 0)), h.alg ≤ 0xFFFF ∧ h.value.length = 32 := by
    intro k h hh
    rw [(List.mem_replicate.mp hh).2]
    decide
  have finish : ∀ gs l, listTlv HashGroup.tlv gs = .ok l → (∀ t ∈ l, t.Valid) → gs.length ≠ 0 → (bytesAll l).length = sizingLen ctx n →
      (do
        let b ← prependMany (BuilderPair.new ctx (n - 1) 1) (HashValue.sha256 (List.replicate 32 0)) (n - 1)
        let b ← b.prependIndirect (HashValue.sha256 (List.replicate 32 0)) none
        b.hashGroups ctx true true (if ctx.data.usesNameId then some MAX_CHUNK_ID else none)
          (if ctx.manifest.usesNameId then some MAX_CHUNK_ID else none)) = .ok gs →
      ∃ node t, node.tlv = .ok t ∧ t.Valid ∧ t.len = 4 + dataLenOf (if o.addNodeSubtreeSize then some total else none) + sizingLen ctx n ∧
        ∀ s, sizingPacket E o ctx total n s = buildFromNode E o node none none none false s := by
    intro gs l hl hv hne hlen hgs
    obtain ⟨t, ht, htv⟩ := node_ok (size := if o.addNodeSubtreeSize then some total else none) hl hv hne (by omega)
    obtain ⟨l', hl', htl⟩ := node_len ht
    rw [hl] at hl'
    cases hl'
    refine ⟨_, t, ht, htv, by omega, ?_⟩
    intro s
    unfold sizingPacket
    rw [PyS.liftBind_run hgs]
    refine PyS.liftBind_run ?_
    unfold nodeFromGroups
    cases hb : o.addNodeSubtreeSize with
    | false =>
      rw [hb] at ht
      exact construct_ok ht
    | true =>
      rw [hb] at ht
      obtain ⟨td, htd, _⟩ := sizeData_ok total
      have : construct NodeData.tlv { subtreeSize := some total } = .ok { subtreeSize := some total } := construct_ok htd
      simp only [if_true, Option.isSome_some, Option.isSome_none, Bool.or_false, Option.getD_none, optM, this, ok_bind]
      exact construct_ok ht
  have hcnt : ∀ b : BuilderPair, BuilderPair.new ctx (n - 1) 1 = b → b.direct.maxDirect = some (n - 1) ∧ b.direct.directCount = 0 ∧
      b.direct.pointers = [] ∧ b.direct.directSize = 0 ∧ b.direct.indirectSize = 0 ∧ b.shared = ctx.shared := by
    intro b hb
    subst hb
    unfold BuilderPair.new
    split <;> rename_i h <;> simp [h]
  obtain ⟨q1, q2, _⟩ := hcnt _ rfl
  obtain ⟨b', hb'⟩ := prependMany_ok (hv := HashValue.sha256 (List.replicate 32 0)) (n - 1) _ q1 (by omega)
  have hinv := prependMany_inv hb'
  cases hsh : ctx.shared with
  | true =>
    obtain ⟨d1, d2⟩ := hctx hsh
    have hl1 : sizingLen ctx n = groupLen (some 0) (some 0) (some ctx.manifest.ncId) none n := by unfold sizingLen; rw [if_pos hsh]
    have hlen : (HashValue.sha256 (List.replicate 32 0) :: List.replicate (n - 1) (HashValue.sha256 (List.replicate 32 0))).length = n := by
      simp only [List.length_cons, List.length_replicate]; omega
    obtain ⟨t, ht, hv, hle⟩ := hashGroup_ok (sub := some 0) (leaf := some 0) (nc := some ctx.manifest.ncId) (st := none)
      (ps := HashValue.sha256 (List.replicate 32 0) :: List.replicate (n - 1) (HashValue.sha256 (List.replicate 32 0)))
      (by rw [← List.replicate_succ]; exact hz _) (by rw [hlen]; omega)
    rw [hlen] at hle
    refine finish [_] [t] (listTlv_one ht) (by simpa using hv) (by simp) (by simp [Tlv.bytes_length, hle, hl1]) ?_
    rw [hb', ok_bind, hinv]
    simp only [BuilderPair.new, hsh, if_true, BuilderPair.prependIndirect, BuilderPair.indirectBuilder, HashGroupBuilder.prependIndirect,
      HashGroupBuilder.isIndirectFull, limitReached, pyAssert, BuilderPair.setIndirect, ok_bind, pure_eq_ok, BuilderPair.hashGroups, d1, d2,
      Bool.false_eq_true, if_false, Option.isNone_none, hashGroup_eq, List.append_nil, Option.getD_none, Nat.add_zero]
    simp only [show decide (1 ≤ 0) = false from rfl, Bool.not_false, if_true, ok_bind, construct_ok ht]
  | false =>
    have hl1 : sizingLen ctx n = groupLen (some 0) (some 0) (some ctx.data.ncId) (if ctx.data.usesNameId then some MAX_CHUNK_ID else none) (n - 1) +
        groupLen (some 0) (some 0) (some ctx.manifest.ncId) (if ctx.manifest.usesNameId then some MAX_CHUNK_ID else none) 1 := by
      unfold sizingLen
      rw [hsh]
      rfl
    obtain ⟨t, ht, hv, hle⟩ := hashGroup_ok (sub := some 0) (leaf := some 0) (nc := some ctx.data.ncId)
      (st := if ctx.data.usesNameId then some MAX_CHUNK_ID else none)
      (ps := List.replicate (n - 1) (HashValue.sha256 (List.replicate 32 0))) (hz _) (by rw [List.length_replicate]; omega)
    obtain ⟨t', ht', hv', hle'⟩ := hashGroup_ok (sub := some 0) (leaf := some 0) (nc := some ctx.manifest.ncId)
      (st := if ctx.manifest.usesNameId then some MAX_CHUNK_ID else none) (ps := [HashValue.sha256 (List.replicate 32 0)]) (hz 1)
      (by rw [List.length_singleton]; omega)
    rw [List.length_replicate] at hle
    rw [List.length_singleton] at hle'
    refine finish [_, _] [t, t'] (listTlv_two ht ht') (by simpa using ⟨hv, hv'⟩) (by simp)
      (by simp [Tlv.bytes_length, hle, hle', hl1]) ?_
    rw [hb', ok_bind, hinv]
    simp only [BuilderPair.new, hsh, Bool.false_eq_true, if_false, BuilderPair.prependIndirect, BuilderPair.indirectBuilder,
      HashGroupBuilder.prependIndirect, HashGroupBuilder.isIndirectFull, limitReached, pyAssert, BuilderPair.setIndirect, pure_eq_ok,
      BuilderPair.hashGroups, hashGroup_eq, List.append_nil, Option.getD_none, Nat.add_zero]
    simp only [show decide (1 ≤ 0) = false from rfl, Bool.not_false, if_true, ok_bind, Bool.false_eq_true, if_false, Nat.add_zero, construct_ok ht,
      construct_ok ht']

/-- From one packet of the size calculation to all others that fit. -/
theorem sizing_all (henc : o.encryptor ≠ none → Spec.Encrypts E) {ctx : NameCtx}
    (hctx : ctx.shared = true → ctx.data = ctx.manifest ∧ ctx.manifest.usesNameId = false) {total n₀ l₀ : Nat} (hn₀ : 1 ≤ n₀)
    (h₀ : Spec.SizingBytes E o ctx total n₀ l₀) :
    (∀ n l, 1 ≤ n → Spec.SizingBytes E o ctx total n l → l + 36 * n₀ = l₀ + 36 * n) ∧
    (o.maxPacketSize + 33 ≤ 0xFFFF → ∀ n l, 1 ≤ n → l + 36 * n₀ = l₀ + 36 * n → l ≤ o.maxPacketSize →
      ∀ s, ∃ p s', sizingPacket E o ctx total n s = (.ok p, s') ∧ p.len = .ok l) := by
  obtain ⟨c, _, hc⟩ := buildManifest_extra (E := E) o (fun h => ⟨(henc h).tag, (henc h).nonce⟩)
  have hlen : ∀ n s p s' l, 1 ≤ n → sizingPacket E o ctx total n s = (.ok p, s') → p.len = .ok l →
      l + 36 = 25 + c + dataLenOf (if o.addNodeSubtreeSize then some total else none) + sizingLen ctx 1 + 36 * n := by
    intro n s p s' l hn h hl
    obtain ⟨node, t, ht, hb, htl⟩ := sizingPacket_node hn h
    obtain ⟨m, _, w, x, hm, hw, hx, _, hpl⟩ := buildFromNode_len hb
    cases hx
    rw [hl] at hpl
    have hpl := Except.ok.inj hpl
    have := hc _ _ _ _ _ _ hm hw ht
    have := sizingLen_linear ctx hn
    simp only [List.length_nil, Option.isSome_none, Bool.false_eq_true, if_false] at hpl
    omega
  obtain ⟨s0, p0, s0', h0, hl0⟩ := h₀
  have e0 := hlen _ _ _ _ _ hn₀ h0 hl0
  constructor
  · rintro n l hn ⟨s, p, s', h, hl⟩
    have := hlen _ _ _ _ _ hn h hl
    omega
  · intro hmax n l hn hnl hle s
    have hs := sizingLen_linear ctx hn
    obtain ⟨node, t, ht, hv, htl, hsz⟩ := sizingNode_ok E o (total := total) hn hctx (by omega)
    obtain ⟨node0, _, _, hb0, _⟩ := sizingPacket_node hn₀ h0
    obtain ⟨m0, _, _, _, hm0, _⟩ := buildFromNode_len hb0
    obtain ⟨m, s', w, hm, hw⟩ := buildManifest_all henc hm0 ht hv s
    have hwl := hc _ _ _ _ _ _ hm hw ht
    obtain ⟨p, hp⟩ := buildFromNode_ok (name := none) (x := none) (n := []) (v := []) hm hw (by omega) rfl rfl (by simp only [List.length_nil]; omega)
    rw [← hsz] at hp
    refine ⟨p, s', hp, ?_⟩
    obtain ⟨l', hl'⟩ : ∃ l', p.len = .ok l' := by
      obtain ⟨node', t', _, hb, _⟩ := sizingPacket_node hn hp
      obtain ⟨_, _, _, _, _, _, _, _, hpl⟩ := buildFromNode_len hb
      exact ⟨_, hpl⟩
    have := hlen _ _ _ _ _ hn hp hl'
    rw [hl']
    congr 1
    omega

/-! ## Theorems -/

/-- C121 (a): the size calculation returns exactly if a manifest with two pointers fits into a packet. -/
theorem C121_returns (henc : o.encryptor ≠ none → Spec.Encrypts E) (hmax : o.maxPacketSize + 33 ≤ 0xFFFF) {ctx : NameCtx}
    (hctx : NameCtx.create o.schemaType nc o.name o.manifestPrefix o.dataPrefix o.manifestLocators o.dataLocators = .ok ctx)
    (total : Nat) (s : BState) :
    (∃ n s', calculateMaxPointers E o ctx total s = (.ok n, s')) ↔
      ∃ l, Spec.SizingBytes E o ctx total 2 l ∧ l ≤ o.maxPacketSize := by
  obtain ⟨g1, _⟩ := nameCtx_inv hctx
  constructor
  · rintro ⟨n, s', h⟩
    obtain ⟨hn, _, p, s1, s2, len, hsz, hl, hle⟩ := calculateMaxPointers_inv h
    have hs : Spec.SizingBytes E o ctx total n len := ⟨_, _, _, hsz, hl⟩
    have hlin := sizing_all henc g1 (by omega) hs
    have h36 : 36 * n ≤ len := by
      have hl1 := (sizingPacket_node (by omega) hsz)
      obtain ⟨node, t, ht, hb, htl⟩ := hl1
      obtain ⟨m, _, w, x, hm, hw, hx, _, hpl⟩ := buildFromNode_len hb
      cases hx
      rw [hl] at hpl
      have hpl := Except.ok.inj hpl
      obtain ⟨c, _, hc⟩ := buildManifest_extra (E := E) o (fun h => ⟨(henc h).tag, (henc h).nonce⟩)
      have := hc _ _ _ _ _ _ hm hw ht
      have := sizingLen_linear ctx (show 1 ≤ n by omega)
      have : 36 ≤ sizingLen ctx 1 := by
        unfold sizingLen groupLen
        split <;> omega
      omega
    obtain ⟨p2, s2', h2, hl2⟩ := hlin.2 hmax 2 (len + 36 * 2 - 36 * n) (by omega) (by omega) (by omega) s
    exact ⟨_, ⟨_, _, _, h2, hl2⟩, by omega⟩
  · rintro ⟨l, hs, hle⟩
    have hlin := sizing_all henc g1 (by omega) hs
    have h36 : 36 ≤ l := by
      obtain ⟨s0, p, s1, hsz, hl⟩ := hs
      obtain ⟨node, t, ht, hb, htl⟩ := sizingPacket_node (by omega) hsz
      obtain ⟨m, _, w, x, hm, hw, hx, _, hpl⟩ := buildFromNode_len hb
      cases hx
      rw [hl] at hpl
      have hpl := Except.ok.inj hpl
      obtain ⟨c, _, hc⟩ := buildManifest_extra (E := E) o (fun h => ⟨(henc h).tag, (henc h).nonce⟩)
      have := hc _ _ _ _ _ _ hm hw ht
      have : 36 ≤ sizingLen ctx 2 := by
        unfold sizingLen groupLen
        split <;> omega
      omega
    obtain ⟨p1, s1, h1, hl1⟩ := hlin.2 hmax 1 (l - 36) (by omega) (by omega) (by omega) s
    have hfl : (fl (o.maxPacketSize - (l - 36)) 36).toInt = (o.maxPacketSize - (l - 36)) / 36 := fl_floor _ _ (by decide) (by omega)
    obtain ⟨p2, s2, h2, hl2⟩ := hlin.2 hmax ((o.maxPacketSize - (l - 36)) / 36 + 1) (l + 36 * ((o.maxPacketSize - (l - 36)) / 36 + 1) - 72)
      (by omega) (by omega) (by omega) s1
    refine ⟨(o.maxPacketSize - (l - 36)) / 36 + 1, s2, ?_⟩
    unfold calculateMaxPointers
    rw [PyS.bind_of_ok h1, PyS.liftBind_run hl1, if_neg (by omega)]
    simp only [hfl]
    rw [PyS.bind_of_ok h2, PyS.liftBind_run hl2, if_neg (by omega), if_neg (by omega)]
    rfl

/-- C121 (b): the number it returns is the greatest number of pointers of a manifest that fits into a packet. -/
theorem C121_greatest (henc : o.encryptor ≠ none → Spec.Encrypts E) (hmax : o.maxPacketSize + 33 ≤ 0xFFFF) {ctx : NameCtx}
    (hctx : NameCtx.create o.schemaType nc o.name o.manifestPrefix o.dataPrefix o.manifestLocators o.dataLocators = .ok ctx)
    {total n : Nat} {s s' : BState} (h : calculateMaxPointers E o ctx total s = (.ok n, s')) :
    2 ≤ n ∧ (∃ l, Spec.SizingBytes E o ctx total n l ∧ l ≤ o.maxPacketSize) ∧
      ∀ m l, n < m → Spec.SizingBytes E o ctx total m l → o.maxPacketSize < l := by
  obtain ⟨g1, _⟩ := nameCtx_inv hctx
  obtain ⟨hn, _, p, s1, s2, len, hsz, hl, hle⟩ := calculateMaxPointers_inv h
  refine ⟨hn, ⟨len, ⟨_, _, _, hsz, hl⟩, hle⟩, ?_⟩
  intro m l hm hs
  have hlin := sizing_all henc g1 (by omega) ⟨_, _, _, hsz, hl⟩
  have e := hlin.1 m l (by omega) hs
  unfold calculateMaxPointers at h
  obtain ⟨p1, t1, h1, h⟩ := PyS.bind_ok h
  obtain ⟨l1, hl1, h⟩ := PyS.liftBind_ok h
  have e1 := hlin.1 1 l1 (by omega) ⟨_, _, _, h1, hl1⟩
  split at h
  · cases h
  · rename_i hlt
    rw [fl_floor _ _ (by decide) (by omega)] at h
    simp only at h
    obtain ⟨q, t2, hq, h⟩ := PyS.bind_ok h
    obtain ⟨l2, hl2, h⟩ := PyS.liftBind_ok h
    split at h
    · cases h
    · split at h
      · cases h
      · cases h
        omega

/-- The bytes of the size calculation besides the manifest's encryption. -/
theorem bareBytes_eq {ctx : NameCtx}
    (hctx : NameCtx.create o.schemaType nc o.name o.manifestPrefix o.dataPrefix o.manifestLocators o.dataLocators = .ok ctx) (total : Nat) {n : Nat}
    (hn : 1 ≤ n) :
    Spec.bareBytes o ctx total + 36 * n = 25 + dataLenOf (if o.addNodeSubtreeSize then some total else none) + sizingLen ctx n := by
  obtain ⟨_, g2, g3⟩ := nameCtx_inv hctx
  have hw : ∀ k, (Spec.integer k).length = numWidth k := fun k => by rw [specInteger_eq, beBytes_length]
  have hd : dataLenOf (if o.addNodeSubtreeSize then some total else none) = if o.addNodeSubtreeSize then 8 + numWidth total else 0 := by
    cases o.addNodeSubtreeSize <;> rfl
  have hs : sizingLen ctx n = (if ctx.shared then 26 + numWidth ctx.manifest.ncId
      else 52 + numWidth ctx.data.ncId + numWidth ctx.manifest.ncId + (if o.schemaType = .segmented then 14 else 0)) + 36 * n := by
    have z0 : numWidth 0 = 1 := by decide
    have zm : numWidth MAX_CHUNK_ID = 3 := by decide
    unfold sizingLen groupLen
    cases hsh : ctx.shared with
    | true => simp only [if_true, intLen, z0]; omega
    | false =>
      rw [g2]
      cases hu : ctx.manifest.usesNameId with
      | true =>
        rw [if_pos (g3.mp hu)]
        simp only [if_true, Bool.false_eq_true, if_false, intLen, z0, zm]
        omega
      | false =>
        have hns : ¬ o.schemaType = .segmented := fun h => by rw [g3.mpr h] at hu; cases hu
        rw [if_neg hns]
        simp only [Bool.false_eq_true, if_false, intLen, z0]
        omega
  simp only [Spec.bareBytes, hw]
  omega

/-- Without encryption the lengths are explicit. -/
theorem sizing_plain (ho : o.encryptor = none) {ctx : NameCtx}
    (hctx : NameCtx.create o.schemaType nc o.name o.manifestPrefix o.dataPrefix o.manifestLocators o.dataLocators = .ok ctx) {total n : Nat}
    (hn : 1 ≤ n) :
    (∀ l, Spec.SizingBytes E o ctx total n l → l = Spec.bareBytes o ctx total + 36 * n) ∧
    (o.maxPacketSize + 33 ≤ 0xFFFF → Spec.bareBytes o ctx total + 36 * n ≤ o.maxPacketSize →
      Spec.SizingBytes E o ctx total n (Spec.bareBytes o ctx total + 36 * n)) := by
  obtain ⟨g1, _⟩ := nameCtx_inv hctx
  have hbare := bareBytes_eq hctx total hn
  have henc : o.encryptor ≠ none → Spec.Encrypts E := fun h => absurd ho h
  obtain ⟨c, hc0, hc⟩ := buildManifest_extra (E := E) o (fun h => ⟨(henc h).tag, (henc h).nonce⟩)
  have hc0 := hc0 ho
  have hlen : ∀ l, Spec.SizingBytes E o ctx total n l → l = Spec.bareBytes o ctx total + 36 * n := by
    rintro l ⟨s, p, s', h, hl⟩
    obtain ⟨node, t, ht, hb, htl⟩ := sizingPacket_node hn h
    obtain ⟨m, _, w, x, hm, hw, hx, _, hpl⟩ := buildFromNode_len hb
    cases hx
    rw [hl] at hpl
    have hpl := Except.ok.inj hpl
    have := hc _ _ _ _ _ _ hm hw ht
    simp only [List.length_nil, Option.isSome_none, Bool.false_eq_true, if_false] at hpl
    omega
  refine ⟨hlen, ?_⟩
  intro hmax hle
  obtain ⟨node, t, ht, hv, htl, hsz⟩ := sizingNode_ok E o (total := total) hn g1 (by omega)
  have hser : Manifest.serialize { node := .plain node } = .ok t.bytes := by
    simp only [Manifest.serialize, Manifest.members, optTlv_absent, ManifestNode.tlv, ht, ok_bind, pure_eq_ok]
    rw [concatTlvs_of_valid (by simpa using hv)]
    simp
  have hbm : buildManifest E o node false {} = (.ok { node := .plain node }, {}) := by
    unfold buildManifest
    rw [ho]
    simp only
    rw [PyS.liftBind_run hser]
    rfl
  obtain ⟨p, hp⟩ := buildFromNode_ok (name := none) (x := none) (n := []) (v := []) hbm hser (by rw [Tlv.bytes_length]; omega) rfl rfl
    (by simp only [List.length_nil]; omega)
  rw [← hsz] at hp
  obtain ⟨l', hl'⟩ : ∃ l', p.len = .ok l' := by
    obtain ⟨node', t', _, hb, _⟩ := sizingPacket_node hn hp
    obtain ⟨_, _, _, _, _, _, _, _, hpl⟩ := buildFromNode_len hb
    exact ⟨_, hpl⟩
  have hs : Spec.SizingBytes E o ctx total n l' := ⟨_, _, _, hp, hl'⟩
  rw [← hlen _ hs]
  exact hs

/-- C121 (c): without encryption the number is the room in a packet besides `Spec.bareBytes`, divided by 36; if that is less than two, the
calculation raises. -/
theorem C121_plain (henc : o.encryptor = none) (hmax : o.maxPacketSize + 33 ≤ 0xFFFF) {ctx : NameCtx}
    (hctx : NameCtx.create o.schemaType nc o.name o.manifestPrefix o.dataPrefix o.manifestLocators o.dataLocators = .ok ctx)
    (total n : Nat) (s : BState) :
    (∃ s', calculateMaxPointers E o ctx total s = (.ok n, s')) ↔
      2 ≤ n ∧ Spec.bareBytes o ctx total + 36 * n ≤ o.maxPacketSize ∧ o.maxPacketSize < Spec.bareBytes o ctx total + 36 * (n + 1) := by
  have henc' : o.encryptor ≠ none → Spec.Encrypts E := fun h => absurd henc h
  have fwd : ∀ n s', calculateMaxPointers E o ctx total s = (.ok n, s') →
      2 ≤ n ∧ Spec.bareBytes o ctx total + 36 * n ≤ o.maxPacketSize ∧ o.maxPacketSize < Spec.bareBytes o ctx total + 36 * (n + 1) := by
    intro n s' h
    obtain ⟨h2, ⟨l, hl, hle⟩, hgt⟩ := C121_greatest henc' hmax hctx h
    have e := (sizing_plain henc hctx (by omega)).1 _ hl
    refine ⟨h2, by omega, ?_⟩
    by_cases hm : Spec.bareBytes o ctx total + 36 * (n + 1) ≤ o.maxPacketSize
    · exact hgt (n + 1) _ (by omega) ((sizing_plain henc hctx (by omega)).2 hmax hm)
    · omega
  constructor
  · rintro ⟨s', h⟩
    exact fwd n s' h
  · rintro ⟨h2, hle, hlt⟩
    obtain ⟨m, s', hm⟩ := (C121_returns henc' hmax hctx total s).mpr
      ⟨_, (sizing_plain henc hctx (by omega)).2 hmax (show _ + 36 * 2 ≤ _ by omega), by omega⟩
    have := fwd m s' hm
    have : m = n := by omega
    subst this
    exact ⟨s', hm⟩

/-- C121 (d): the optimizer returns exactly if the file has a chunk, a manifest with two pointers fits into a packet and the tree degree
that the user set, if any, is not less than two. -/
theorem C121_optimized (henc : o.encryptor ≠ none → Spec.Encrypts E) (hlow : L.NotLow) (hmax : o.maxPacketSize + 33 ≤ 0xFFFF) {ctx : NameCtx}
    (hctx : NameCtx.create o.schemaType nc o.name o.manifestPrefix o.dataPrefix o.manifestLocators o.dataLocators = .ok ctx)
    {file : FileMetadata} (hch : file.chunks.length < 2 ^ 52) (s : BState) :
    (∃ r s', createOptimizedTree E L o ctx file s = (.ok r, s')) ↔
      file.chunks ≠ [] ∧ (∀ k, o.maxTreeDegree = some k → 2 ≤ k) ∧
        ∃ l, Spec.SizingBytes E o ctx file.totalBytes 2 l ∧ l ≤ o.maxPacketSize := by
  have hp52 : ∀ {p s'}, calculateMaxPointers E o ctx file.totalBytes s = (.ok p, s') → p < 2 ^ 52 := by
    intro p s' h
    obtain ⟨_, hp, _⟩ := calculateMaxPointers_inv h
    omega
  constructor
  · rintro ⟨r, s', h⟩
    obtain ⟨p, q, s1, hp, hqp, hq, hr⟩ := createOptimizedTree_inv h
    have := hp52 hp
    obtain ⟨c1, c2, _⟩ := minimizeKMinWaste_pos hr hch (by omega)
    refine ⟨fun h => by rw [h] at c1; exact absurd c1 (by decide), ?_, (C121_returns henc hmax hctx _ s).mp ⟨_, _, hp⟩⟩
    intro k hk
    rw [hk] at hq
    simp only at hq
    omega
  · rintro ⟨hne, hdeg, hfit⟩
    obtain ⟨p, s1, hp⟩ := (C121_returns henc hmax hctx _ s).mpr hfit
    have h52 := hp52 hp
    obtain ⟨h2, _⟩ := C121_greatest henc hmax hctx hp
    have h1 : 1 ≤ file.chunks.length := by
      cases hc : file.chunks with
      | nil => exact absurd hc hne
      | cons => simp
    have hq : 2 ≤ (match o.maxTreeDegree with | none => p | some k => min p k) ∧
        (match o.maxTreeDegree with | none => p | some k => min p k) < 2 ^ 52 := by
      cases hd : o.maxTreeDegree with
      | none => exact ⟨h2, h52⟩
      | some k =>
        have := hdeg k hd
        simp only
        omega
    obtain ⟨r, hr, _⟩ := C41_selected_tree_has_room L hlow file.chunks.length _ hq.1 h1 hch hq.2
    refine ⟨r, s1, ?_⟩
    unfold createOptimizedTree
    rw [PyS.bind_of_ok hp, if_neg (by omega)]
    exact congrArg (fun r => (r, s1)) hr

/-- C121 (e): with C120: a file that is not empty and can be chunked is published if the names are accepted, a manifest with two pointers
fits into a packet, the tree degree is not less than two and a root manifest can be made over any one hash of 32 bytes. -/
theorem C121_published (hP : Spec.LengthOnly E.prims) (hlow : L.NotLow) (hhigh : L.NotHigh)
    (henc : o.encryptor ≠ none → Spec.Encrypts E)
    (hann : (o.addGroupLeafSize = false ∧ o.addGroupSubtreeSize = false) ∨ input.rest.length < 2 ^ 32)
    {ctx : NameCtx} {file : FileMetadata} {st : ChunkState}
    (hctx : NameCtx.create o.schemaType nc o.name o.manifestPrefix o.dataPrefix o.manifestLocators o.dataLocators = .ok ctx)
    (hnames : Spec.NamesFit ctx.manifest o) (hne : input.rest ≠ [])
    (hch : ctx.data.chunkData E.prims.sha256 o.chunk input {} = (.ok file, st))
    (hdeg : ∀ k, o.maxTreeDegree = some k → 2 ≤ k)
    {l : Nat} (htwo : Spec.SizingBytes E o ctx input.rest.length 2 l) (hfit : l ≤ o.maxPacketSize)
    {b : Bytes} (hb : b.length = 32) {sample : Built} {s s' : BState}
    (hroot : rootPacket E o ctx input.rest.length (.sha256 b) s = (.ok sample, s')) :
    ∃ root out, manifestTree E L o nc input = (.ok root, out) := by
  have hmax : o.maxPacketSize + 33 ≤ 0xFFFF := by
    obtain ⟨_, _, _, _, _, h⟩ := hnames
    omega
  obtain ⟨bs, ps, c1, c2, c3, _⟩ := C38_chunks hch
  have hcnt := chunkData_count hch
  have hchunks : file.chunks ≠ [] := by
    intro h
    have e := congrArg List.length c2.sum.2.1
    rw [h] at e
    simp only [List.map_nil, List.length_nil, List.length_range'] at e
    rw [List.length_eq_zero_iff.mp e.symm] at c1
    exact hne c1.symm
  obtain ⟨r, s0, hr⟩ := (C121_optimized (L := L) henc hlow hmax hctx (file := file) (Nat.lt_of_le_of_lt hcnt (by decide)) { output := st.output }).mpr
    ⟨hchunks, hdeg, l, by rw [c3]; exact htwo, hfit⟩
  exact C120_published hP hlow hhigh henc hann hctx hnames hch hr hb hroot

/-! ## Instances -/

/-- The bare bytes of the manifests for a file of `total` bytes, and the length of the manifest with two pointers. -/
def Toy.room (o : TreeOptions) (total : Nat) : Option (Nat × Nat) :=
  match NameCtx.create o.schemaType 1 o.name o.manifestPrefix o.dataPrefix o.manifestLocators o.dataLocators with
  | .error _ => none
  | .ok ctx =>
    match (sizingPacket Toy.env o ctx total 2 {}).1 with
    | .error _ => none
    | .ok p =>
      match p.len with
      | .error _ => none
      | .ok l => some (Spec.bareBytes o ctx total, l)

theorem Toy.room_ok {o : TreeOptions} {total b l : Nat} (h : Toy.room o total = some (b, l)) : ∃ ctx,
    NameCtx.create o.schemaType 1 o.name o.manifestPrefix o.dataPrefix o.manifestLocators o.dataLocators = .ok ctx ∧
    Spec.bareBytes o ctx total = b ∧ Spec.SizingBytes Toy.env o ctx total 2 l := by
  unfold Toy.room at h
  split at h
  · cases h
  · rename_i ctx hctx
    rcases hs : sizingPacket Toy.env o ctx total 2 {} with ⟨_ | p, s'⟩
    · rw [hs] at h
      cases h
    · rw [hs] at h
      simp only at h
      split at h
      · cases h
      · rename_i l' hl
        cases h
        exact ⟨ctx, hctx, rfl, _, _, _, hs, hl⟩

set_option maxRecDepth 100000 in
/-- C121 (b), (c): 103 bytes besides the pointers, so a packet of 250 bytes has room for four. -/
example : ∃ ctx s', NameCtx.create .segmented 1 (Toy.options .segmented false).name (Toy.options .segmented false).manifestPrefix
    (Toy.options .segmented false).dataPrefix none none = .ok ctx ∧ Spec.bareBytes (Toy.options .segmented false) ctx 800 = 103 ∧
    calculateMaxPointers Toy.env (Toy.options .segmented false) ctx 800 {} = (.ok 4, s') := by
  obtain ⟨ctx, h1, h2, _⟩ := Toy.room_ok (o := Toy.options .segmented false) (total := 800) (b := 103) (l := 175) (by decide +kernel)
  obtain ⟨s', h⟩ := (C121_plain (E := Toy.env) (o := Toy.options .segmented false) rfl (by decide) h1 800 4 {}).mpr
    (by rw [h2]; decide)
  exact ⟨ctx, s', h1, h2, h⟩

set_option maxRecDepth 100000 in
/-- C121 (a), (c): two pointers need 175 bytes, so with packets of 174 bytes the calculation raises. -/
example : ∃ ctx, NameCtx.create .segmented 1 (Toy.options .segmented false).name (Toy.options .segmented false).manifestPrefix
    (Toy.options .segmented false).dataPrefix none none = .ok ctx ∧
    ¬ ∃ n s', calculateMaxPointers Toy.env { Toy.options .segmented false with maxPacketSize := 174 } ctx 800 {} = (.ok n, s') := by
  obtain ⟨ctx, h1, h2, _⟩ := Toy.room_ok (o := { Toy.options .segmented false with maxPacketSize := 174 }) (total := 800) (b := 103)
    (l := 175) (by decide +kernel)
  refine ⟨ctx, h1, ?_⟩
  rintro ⟨n, s', h⟩
  have := (C121_plain (E := Toy.env) (o := { Toy.options .segmented false with maxPacketSize := 174 }) rfl (by decide) h1 800 n {}).mp ⟨s', h⟩
  rw [h2] at this
  have h := this.2.1
  simp only at h
  omega

set_option maxRecDepth 100000 in
/-- C121 (a), (b), encrypted manifests: two pointers need 229 bytes, a packet has 250, so two is the number. -/
example : ∃ ctx n s', NameCtx.create .segmented 1 (Toy.options .segmented true).name (Toy.options .segmented true).manifestPrefix
    (Toy.options .segmented true).dataPrefix none none = .ok ctx ∧
    calculateMaxPointers Toy.env (Toy.options .segmented true) ctx 800 {} = (.ok n, s') ∧ 2 ≤ n := by
  obtain ⟨ctx, h1, _, h2⟩ := Toy.room_ok (o := Toy.options .segmented true) (total := 800) (b := 103) (l := 229) (by decide +kernel)
  obtain ⟨n, s', h⟩ := (C121_returns (E := Toy.env) (o := Toy.options .segmented true) (fun _ => Toy.encrypts) (by decide) h1 800 {}).mpr
    ⟨229, h2, by decide⟩
  exact ⟨ctx, n, s', h1, h, (C121_greatest (fun _ => Toy.encrypts) (by decide) h1 h).1⟩

set_option maxRecDepth 100000 in
/-- C121 (d), (e): an encrypted file of 300 bytes with a tree degree of two. -/
example : ∃ root out, manifestTree Toy.env Spec.exactLog { Toy.options .prefixed true with maxTreeDegree := some 2 } 1 (Toy.shortReads 300) =
    (.ok root, out) := by
  obtain ⟨ctx, file, st, _, _, h1, h2, h3, _, h5⟩ := Toy.stages_ok (n := 300) (b := true)
    (o := { Toy.options .prefixed true with maxTreeDegree := some 2 }) (by decide +kernel)
  obtain ⟨ctx', g1, _, g2⟩ := Toy.room_ok (o := { Toy.options .prefixed true with maxTreeDegree := some 2 }) (total := 300) (b := 89)
    (l := 215) (by decide +kernel)
  rw [h1] at g1
  cases g1
  rcases hr : rootPacket Toy.env { Toy.options .prefixed true with maxTreeDegree := some 2 } ctx 300 (.sha256 (List.replicate 32 0)) {} with
    ⟨_ | sample, s'⟩
  · rw [hr] at h5
    cases h5
  · exact C121_published Toy.lengthOnly exactLog_notLow exactLog_notHigh (fun _ => Toy.encrypts) (.inr (by decide +kernel)) h1 h2
      (by decide) h3 (fun k hk => by cases hk; decide) g2 (by decide) rfl hr

end Ccnpy
