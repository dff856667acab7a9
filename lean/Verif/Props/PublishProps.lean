import Verif.Props.TopProps
import Verif.Props.ShapeProps
import Verif.Props.VolumeProps

/-!
# C120: which files can be published

The other theorems about whole builds say what a build that returned has written.  Here: when a build returns.  Once the file has been
chunked and the size calculation has returned, no manifest below the root can fail, so that one look at a root manifest over an arbitrary
hash tells whether the file can be published.
-/

namespace Ccnpy

/-! ## Encoders that do not raise -/

theorem optTlv_absent {α : Type} (f : α → Py Tlv) : optTlv f none = .ok [] := rfl

theorem listTlv_empty {α : Type} (f : α → Py Tlv) : listTlv f [] = .ok [] := rfl

theorem optInt_ok {ty : Nat} (hty : ty ≤ 0xFFFF) (o : Option Nat) :
    ∃ l, optTlv (intTlv ty) o = .ok l ∧ (∀ t ∈ l, t.Valid) ∧ (bytesAll l).length = intLen o := by
  cases o with
  | none => exact ⟨[], rfl, by simp, rfl⟩
  | some n =>
    have h : optTlv (intTlv ty) (some n) = .ok [⟨ty, beBytes (numWidth n) n⟩] := by
      simp only [optTlv, intTlv_eq hty, ok_bind, pure_eq_ok]
    refine ⟨_, h, ?_, optInt_len hty h⟩
    intro t ht
    simp only [List.mem_singleton] at ht
    subst ht
    have := numWidth_le n
    exact ⟨hty, by simp only [beBytes_length]; omega⟩

theorem hashes_ok {ps : List HashValue} (hp : ∀ h ∈ ps, h.alg ≤ 0xFFFF ∧ h.value.length = 32) :
    ∃ l, listTlv HashValue.tlv ps = .ok l ∧ ∀ t ∈ l, t.Valid := by
  induction ps with
  | nil => exact ⟨[], rfl, by simp⟩
  | cons x ps ih =>
    obtain ⟨l, hl, hv⟩ := ih fun h hh => hp h (List.mem_cons_of_mem _ hh)
    obtain ⟨h1, h2⟩ := hp x (List.mem_cons_self ..)
    have hx : x.tlv = .ok ⟨x.alg, x.value⟩ := by
      unfold HashValue.tlv
      rw [mkTlv_eq, if_pos ⟨h1, by omega⟩]
    refine ⟨⟨x.alg, x.value⟩ :: l, by simp only [listTlv, hx, hl, ok_bind, pure_eq_ok], ?_⟩
    intro t ht
    rcases List.mem_cons.mp ht with rfl | ht
    · exact ⟨h1, by simp only; omega⟩
    · exact hv t ht

theorem hashGroup_ok {sub leaf nc st : Option Nat} {ps : List HashValue} (hp : ∀ h ∈ ps, h.alg ≤ 0xFFFF ∧ h.value.length = 32)
    (hfit : groupLen sub leaf nc st ps.length ≤ 0xFFFF) :
    ∃ t, HashGroup.tlv { groupData := some { subtreeSize := sub, leafSize := leaf, ncId := nc, startSegmentId := st }, pointers := some ps } = .ok t ∧
      t.Valid ∧ t.len = groupLen sub leaf nc st ps.length := by
  obtain ⟨a, ha, va, la⟩ := optInt_ok (ty := T_SUBTREE_SIZE) (by decide) sub
  obtain ⟨b, hb, vb, lb⟩ := optInt_ok (ty := T_LEAF_SIZE) (by decide) leaf
  obtain ⟨c, hc, vc, lc⟩ := optInt_ok (ty := T_NCID) (by decide) nc
  obtain ⟨d, hd, vd, ld⟩ := optInt_ok (ty := T_START_SEGMENT_ID) (by decide) st
  obtain ⟨l, hl, vl⟩ := hashes_ok hp
  have ll := hashes_len (fun h hh => (hp h hh).2) hl
  unfold groupLen at hfit
  have hgv : ∀ x ∈ a ++ [] ++ b ++ [] ++ c ++ d, x.Valid := by
    intro x hx
    simp only [List.append_nil, List.mem_append] at hx
    rcases hx with ((hx | hx) | hx) | hx
    · exact va x hx
    · exact vb x hx
    · exact vc x hx
    · exact vd x hx
  have hgl : (bytesAll (a ++ [] ++ b ++ [] ++ c ++ d)).length = intLen sub + intLen leaf + intLen nc + intLen st := by
    simp only [List.append_nil, bytesAll_append, List.length_append]
    omega
  have hg : GroupData.tlv { subtreeSize := sub, leafSize := leaf, ncId := nc, startSegmentId := st } =
      .ok ⟨T_GROUP_DATA, bytesAll (a ++ [] ++ b ++ [] ++ c ++ d)⟩ := by
    simp only [GroupData.tlv, GroupData.members, ha, hb, hc, hd, optTlv_absent, ok_bind, pure_eq_ok]
    exact container_of_valid hgv ⟨by show T_GROUP_DATA ≤ _; decide, by simp only [hgl]; omega⟩
  have hq : pointersTlv ps = .ok ⟨T_PTRS, bytesAll l⟩ := by
    simp only [pointersTlv, hl, ok_bind]
    exact container_of_valid vl ⟨by show T_PTRS ≤ _; decide, by simp only [ll]; omega⟩
  have hlen : (bytesAll [(⟨T_GROUP_DATA, bytesAll (a ++ [] ++ b ++ [] ++ c ++ d)⟩ : Tlv), ⟨T_PTRS, bytesAll l⟩]).length =
      8 + (intLen sub + intLen leaf + intLen nc + intLen st) + 36 * ps.length := by
    simp only [bytesAll_cons, bytesAll_nil, bytesAll_append, List.append_nil, List.length_append, Tlv.bytes_length, Tlv.len, Tlv.length]
    omega
  have hv : (⟨T_HASH_GROUP, bytesAll [(⟨T_GROUP_DATA, bytesAll (a ++ [] ++ b ++ [] ++ c ++ d)⟩ : Tlv), ⟨T_PTRS, bytesAll l⟩]⟩ : Tlv).Valid :=
    ⟨by show T_HASH_GROUP ≤ _; decide, by simp only [hlen]; omega⟩
  have ht : HashGroup.tlv { groupData := some { subtreeSize := sub, leafSize := leaf, ncId := nc, startSegmentId := st }, pointers := some ps } =
      .ok ⟨T_HASH_GROUP, bytesAll [(⟨T_GROUP_DATA, bytesAll (a ++ [] ++ b ++ [] ++ c ++ d)⟩ : Tlv), ⟨T_PTRS, bytesAll l⟩]⟩ := by
    simp only [HashGroup.tlv, HashGroup.members, optTlv, hg, hq, ok_bind, pure_eq_ok]
    refine container_of_valid ?_ hv
    intro x hx
    simp only [List.cons_append, List.nil_append, List.mem_cons, List.not_mem_nil, or_false] at hx
    rcases hx with rfl | rfl
    · exact ⟨by show T_GROUP_DATA ≤ _; decide, by simp only [hgl]; omega⟩
    · exact ⟨by show T_PTRS ≤ _; decide, by simp only [ll]; omega⟩
  exact ⟨_, ht, hv, hashGroup_len (fun h hh => (hp h hh).2) ht⟩

theorem sizeData_ok (n : Nat) : ∃ t, NodeData.tlv { subtreeSize := some n } = .ok t ∧ t.Valid ∧ t.len = 8 + numWidth n := by
  obtain ⟨a, ha, va, la⟩ := optInt_ok (ty := T_SUBTREE_SIZE) (by decide) (some n)
  have := numWidth_le n
  simp only [intLen] at la
  have hv : (⟨T_NODE_DATA, bytesAll (a ++ [] ++ [] ++ [] ++ [])⟩ : Tlv).Valid :=
    ⟨by show T_NODE_DATA ≤ _; decide, by simp only [List.append_nil, la]; omega⟩
  refine ⟨_, ?_, hv, by simp only [Tlv.len, Tlv.length, List.append_nil, la]; omega⟩
  simp only [NodeData.tlv, NodeData.members, ha, optTlv_absent, listTlv_empty, ok_bind, pure_eq_ok]
  exact container_of_valid (by simpa using va) hv

theorem node_ok {size : Option Nat} {gs : List HashGroup} {l : List Tlv} (hl : listTlv HashGroup.tlv gs = .ok l) (hv : ∀ t ∈ l, t.Valid)
    (hne : gs.length ≠ 0) (hfit : 4 + dataLenOf size + (bytesAll l).length ≤ 0xFFFF) :
    ∃ t, Node.tlv { nodeData := size.map (fun n => { subtreeSize := some n }), hashGroups := gs } = .ok t ∧ t.Valid := by
  have hd : ∃ a, optTlv NodeData.tlv (size.map (fun n => { subtreeSize := some n })) = .ok a ∧ (∀ t ∈ a, t.Valid) ∧
      (bytesAll a).length = dataLenOf size := by
    cases size with
    | none => exact ⟨[], rfl, by simp, rfl⟩
    | some n =>
      obtain ⟨t, ht, htv, htl⟩ := sizeData_ok n
      refine ⟨[t], by simp only [Option.map_some, optTlv, ht, ok_bind, pure_eq_ok], by simpa using htv, ?_⟩
      simp only [bytesAll_cons, bytesAll_nil, List.append_nil, Tlv.bytes_length, htl, dataLenOf]
  obtain ⟨a, ha, va, la⟩ := hd
  have hval : ∀ x ∈ a ++ l, x.Valid := by
    intro x hx
    rcases List.mem_append.mp hx with hx | hx
    · exact va x hx
    · exact hv x hx
  have hlen : (bytesAll (a ++ l)).length ≤ 0xFFFF := by
    rw [bytesAll_append, List.length_append]
    omega
  refine ⟨⟨T_NODE, bytesAll (a ++ l)⟩, ?_, by show T_NODE ≤ _; decide, hlen⟩
  simp only [Node.tlv, Node.members, ha, hl, ok_bind, pure_eq_ok, if_neg hne, concatTlvs_of_valid hval]
  rw [mkTlv_eq, if_pos ⟨by decide, hlen⟩]

/-! ## The nodes of the builder -/

theorem group_ok {T : TreeEnv} {nc : Nat} {st : Option Nat} {direct indirect total : Nat} {ps : List HashValue}
    (hp : ∀ h ∈ ps, h.alg ≤ 0xFFFF ∧ h.value.length = 32) (hb : indirect + direct ≤ total)
    (hfit : 12 + annotLen T.opts total + (4 + numWidth nc) + intLen st + 36 * ps.length ≤ 0xFFFF) :
    ∃ t, (T.group nc st direct indirect ps).tlv = .ok t ∧ t.Valid ∧
      t.len ≤ 12 + annotLen T.opts total + (4 + numWidth nc) + intLen st + 36 * ps.length := by
  have a := intLen_if (b := T.opts.addGroupSubtreeSize) hb
  have b := intLen_if (b := T.opts.addGroupLeafSize) (show direct ≤ total by omega)
  have hle : groupLen (if T.opts.addGroupSubtreeSize then some (indirect + direct) else none)
      (if T.opts.addGroupLeafSize then some direct else none) (some nc) st ps.length ≤
      12 + annotLen T.opts total + (4 + numWidth nc) + intLen st + 36 * ps.length := by
    unfold groupLen annotLen
    simp only [intLen] at a b ⊢
    omega
  obtain ⟨t, ht, hv, hl⟩ := hashGroup_ok (sub := if T.opts.addGroupSubtreeSize then some (indirect + direct) else none)
    (leaf := if T.opts.addGroupLeafSize then some direct else none) (nc := some nc) (st := st) hp (by omega)
  exact ⟨t, ht, hv, by omega⟩

/-- Every node that the builder may make can be encoded and is short enough, if the sizing packet is. -/
theorem permitted_ok {T : TreeEnv} {B : Int} {total n K : Nat} {node : Node}
    (hctx : (T.ctx.shared = true → T.ctx.data = T.ctx.manifest ∧ T.ctx.manifest.usesNameId = false) ∧
      T.ctx.data.usesNameId = T.ctx.manifest.usesNameId)
    (hsha : ∀ b, (T.env.prims.sha256 b).length = 32)
    (hch : ∀ c ∈ T.chunks, (c.hash.alg ≤ 0xFFFF ∧ c.hash.value.length = 32) ∧ c.chunkNumber ≤ MAX_CHUNK_ID)
    (htot : (T.chunks.map (·.payloadBytes)).sum ≤ total) (hn : T.direct + T.indirect ≤ n) (hann : annotLen T.opts total ≤ 16)
    (hroom : 25 + dataLenOf (if T.opts.addNodeSubtreeSize then some total else none) + sizingLen T.ctx n ≤ K)
    (hmax : K ≤ 0xFFFF) (h : Permitted T B node) :
    (∀ g ∈ node.hashGroups, ∃ t, g.tlv = .ok t) ∧ (∀ d, node.nodeData = some d → ∃ t, d.tlv = .ok t) ∧
      ∃ t, node.tlv = .ok t ∧ t.Valid ∧ t.len ≤ K := by
  have hnum : ∀ lo, intLen (T.numberAt lo) ≤ intLen (some MAX_CHUNK_ID) := by
    intro lo
    unfold TreeEnv.numberAt
    cases hc : T.chunks[lo]? with
    | none => simp [intLen]
    | some c =>
      have := numWidth_mono (hch c (List.mem_of_getElem? hc)).2
      simp only [Option.map_some, intLen]
      omega
  have hw0 : numWidth 0 = 1 := rfl
  have hwm : numWidth MAX_CHUNK_ID = 3 := rfl
  have hslice : ∀ a b, ∀ h ∈ T.sliceHashes a b, h.alg ≤ 0xFFFF ∧ h.value.length = 32 := by
    intro a b h hh
    obtain ⟨c, hc, rfl⟩ := List.mem_map.mp hh
    exact (hch c (List.mem_of_mem_drop (List.mem_of_mem_take hc))).1
  have hlen : ∀ lo count, lo + count ≤ T.chunks.length → (T.sliceHashes lo (lo + count)).length = count := by
    intro lo count hle
    unfold TreeEnv.sliceHashes
    rw [List.length_map, slice_length T hle]
    omega
  have hsd : ∀ x, (T.sizeData x) = (if T.opts.addNodeSubtreeSize then some x else none).map (fun n => { subtreeSize := some n }) := by
    intro x
    unfold TreeEnv.sizeData
    cases T.opts.addNodeSubtreeSize <;> rfl
  have hdata : ∀ x d, T.sizeData x = some d → ∃ t, d.tlv = .ok t := by
    intro x d hd
    unfold TreeEnv.sizeData at hd
    split at hd
    · cases hd
      obtain ⟨t, ht, _⟩ := sizeData_ok x
      exact ⟨t, ht⟩
    · cases hd
  have one : ∀ {x : Nat} {g : HashGroup} {t : Tlv}, x ≤ total → g.tlv = .ok t → t.Valid →
      4 + dataLenOf (if T.opts.addNodeSubtreeSize then some total else none) + t.len ≤ K →
      (∀ g' ∈ [g], ∃ t, g'.tlv = .ok t) ∧ (∀ d, T.sizeData x = some d → ∃ t, d.tlv = .ok t) ∧
      ∃ t, Node.tlv { nodeData := T.sizeData x, hashGroups := [g] } = .ok t ∧ t.Valid ∧ t.len ≤ K := by
    intro x g t hx ht hv hfit
    have d1 := dataLenOf_if (b := T.opts.addNodeSubtreeSize) hx
    have hl : listTlv HashGroup.tlv [g] = .ok [t] := by simp only [listTlv, ht, ok_bind, pure_eq_ok]
    have hb : (bytesAll [t]).length = t.len := by simp [Tlv.bytes_length]
    obtain ⟨tn, h1, h2⟩ := node_ok (size := if T.opts.addNodeSubtreeSize then some x else none) hl (by simpa using hv) (by simp)
      (by omega)
    refine ⟨by simpa using ⟨t, ht⟩, hdata x, tn, by rw [hsd]; exact h1, h2, ?_⟩
    obtain ⟨l, hl', e⟩ := node_len h1
    rw [hl] at hl'
    cases hl'
    omega
  have two : ∀ {x : Nat} {g g' : HashGroup} {t t' : Tlv}, x ≤ total → g.tlv = .ok t → t.Valid → g'.tlv = .ok t' → t'.Valid →
      4 + dataLenOf (if T.opts.addNodeSubtreeSize then some total else none) + t.len + t'.len ≤ K →
      (∀ g'' ∈ [g, g'], ∃ t, g''.tlv = .ok t) ∧ (∀ d, T.sizeData x = some d → ∃ t, d.tlv = .ok t) ∧
      ∃ t, Node.tlv { nodeData := T.sizeData x, hashGroups := [g, g'] } = .ok t ∧ t.Valid ∧ t.len ≤ K := by
    intro x g g' t t' hx ht hv ht' hv' hfit
    have d1 := dataLenOf_if (b := T.opts.addNodeSubtreeSize) hx
    have hl : listTlv HashGroup.tlv [g, g'] = .ok [t, t'] := by simp only [listTlv, ht, ht', ok_bind, pure_eq_ok]
    have hb : (bytesAll [t, t']).length = t.len + t'.len := by simp [Tlv.bytes_length]
    obtain ⟨tn, h1, h2⟩ := node_ok (size := if T.opts.addNodeSubtreeSize then some x else none) hl (by simpa using ⟨hv, hv'⟩) (by simp)
      (by omega)
    refine ⟨by simpa using ⟨⟨t, ht⟩, ⟨t', ht'⟩⟩, hdata x, tn, by rw [hsd]; exact h1, h2, ?_⟩
    obtain ⟨l, hl', e⟩ := node_len h1
    rw [hl] at hl'
    cases hl'
    omega
  unfold sizingLen groupLen at hroom
  rcases h with ⟨lo, count, _, hc, hle, rfl⟩ | ⟨lo, count, hi, kids, _, hc, hlo, hhi, _, hk, hmade, rfl⟩
  · have hlen := hlen lo count hle
    have hds := sliceBytes_le T lo (lo + count)
    unfold TreeEnv.pointers at hc
    have hnl := hnum lo
    have hst : intLen (if T.ctx.manifest.usesNameId then T.numberAt lo else none) ≤
        intLen (if T.ctx.manifest.usesNameId then some MAX_CHUNK_ID else none) := by
      cases T.ctx.manifest.usesNameId
      · simp [intLen]
      · simpa using hnl
    have hfin : 4 + dataLenOf (if T.opts.addNodeSubtreeSize then some total else none) + (12 + annotLen T.opts total +
        (4 + numWidth T.ctx.data.ncId) + intLen (if T.ctx.manifest.usesNameId then T.numberAt lo else none) + 36 * count) ≤ K := by
      cases hsh : T.ctx.shared with
      | true =>
        obtain ⟨q1, q2⟩ := hctx.1 hsh
        rw [hsh] at hroom
        rw [q1]
        simp only [q2, Bool.false_eq_true, if_false, if_true, intLen] at hst hroom ⊢
        omega
      | false =>
        rw [hsh, hctx.2] at hroom
        simp only [Bool.false_eq_true, if_false, intLen] at hst hroom ⊢
        omega
    obtain ⟨t, ht, hv, hl⟩ := group_ok (T := T) (nc := T.ctx.data.ncId) (st := if T.ctx.manifest.usesNameId then T.numberAt lo else none)
      (direct := T.sliceBytes lo (lo + count)) (indirect := 0) (total := total) (hslice lo (lo + count)) (by omega)
      (by rw [hlen]; omega)
    rw [hlen] at hl
    exact one (by omega) ht hv (by omega)
  · have hlen := hlen lo count (by omega)
    have hkh : ∀ h ∈ kids.map (·.hash), h.alg ≤ 0xFFFF ∧ h.value.length = 32 := by
      intro h hh
      obtain ⟨k, hk', rfl⟩ := List.mem_map.mp hh
      have hm := (hmade k hk').1.1
      exact ⟨by rw [Packet.hash_sha hm]; decide, packetHash_len hsha hm⟩
    have hds := sliceBytes_le T lo (lo + count)
    have hks : T.known (T.sliceBytes (lo + count) hi) + T.sliceBytes lo (lo + count) ≤ total := by
      have h1 := sliceBytes_add T (show lo ≤ lo + count by omega) hlo
      have h2 := sliceBytes_le T lo hi
      unfold TreeEnv.known
      split <;> omega
    unfold TreeEnv.interiorNode TreeEnv.interiorGroups
    simp only
    have hnl := hnum lo
    cases hsh : T.ctx.shared with
    | true =>
      obtain ⟨q1, q2⟩ := hctx.1 hsh
      simp only [hsh, if_true, intLen] at hroom ⊢
      have hlen2 : (T.sliceHashes lo (lo + count) ++ kids.map (·.hash)).length = count + kids.length := by
        rw [List.length_append, hlen, List.length_map]
      obtain ⟨t, ht, hv, hl⟩ := group_ok (T := T) (nc := T.ctx.manifest.ncId) (st := none)
        (direct := T.sliceBytes lo (lo + count)) (indirect := T.known (T.sliceBytes (lo + count) hi)) (total := total)
        (ps := T.sliceHashes lo (lo + count) ++ kids.map (·.hash)) (by
          intro h hh
          rcases List.mem_append.mp hh with hh | hh
          · exact hslice _ _ h hh
          · exact hkh h hh) hks (by rw [hlen2]; simp only [intLen]; omega)
      rw [hlen2] at hl
      simp only [intLen] at hl
      exact one (by omega) ht hv (by omega)
    | false =>
      have hkst : intLen (kids.head?.map (·.id)) ≤ 12 := by
        cases kids.head? with
        | none => simp [intLen]
        | some k =>
          have := numWidth_le k.id
          simp only [Option.map_some, intLen]
          omega
      rw [hsh, hctx.2] at hroom
      rw [hctx.2]
      simp only [Bool.false_eq_true, if_false] at hroom ⊢
      have hs1 : intLen (if T.ctx.manifest.usesNameId then T.numberAt lo else none) ≤
          intLen (if T.ctx.manifest.usesNameId then some MAX_CHUNK_ID else none) := by
        cases T.ctx.manifest.usesNameId
        · simp [intLen]
        · simpa using hnl
      have hs2 : intLen (if T.ctx.manifest.usesNameId then kids.head?.map (·.id) else none) ≤
          intLen (if T.ctx.manifest.usesNameId then some MAX_CHUNK_ID else none) + 5 := by
        cases T.ctx.manifest.usesNameId
        · simp [intLen]
        · simpa [intLen, hwm] using hkst
      have hc2 : (kids.map (·.hash)).length = kids.length := List.length_map ..
      simp only [show ∀ x, intLen (some x) = 4 + numWidth x from fun _ => rfl, hw0] at hroom
      obtain ⟨t, ht, hv, hl⟩ := group_ok (T := T) (nc := T.ctx.data.ncId) (st := if T.ctx.manifest.usesNameId then T.numberAt lo else none)
        (direct := T.sliceBytes lo (lo + count)) (indirect := 0) (total := total) (hslice lo (lo + count)) (by omega)
        (by rw [hlen]; omega)
      obtain ⟨t', ht', hv', hl'⟩ := group_ok (T := T) (nc := T.ctx.manifest.ncId)
        (st := if T.ctx.manifest.usesNameId then kids.head?.map (·.id) else none)
        (direct := 0) (indirect := T.known (T.sliceBytes (lo + count) hi)) (total := total) hkh (by omega)
        (by rw [hc2]; omega)
      rw [hlen] at hl
      rw [hc2] at hl'
      exact two (by omega) ht hv ht' hv' (by omega)

/-! ## The packets of the builder -/

theorem optWire_tlvs {α : Type} {tlv : α → Py Tlv} {o : Option α} {w : Bytes} (h : optWire tlv o = .ok w) :
    ∃ l, optTlv tlv o = .ok l ∧ (∀ t ∈ l, t.Valid) ∧ bytesAll l = w := by
  cases o with
  | none => cases h; exact ⟨[], rfl, by simp, rfl⟩
  | some x =>
    obtain ⟨t, ht, h⟩ := bind_eq_ok.mp h
    rw [Tlv.serialize_eq] at h
    split at h
    · rename_i hv
      cases h
      exact ⟨[t], by simp only [optTlv, ht, ok_bind, pure_eq_ok], by simpa using hv, by simp⟩
    · cases h

theorem manifestBody_ok {name : Option Name} {w : Bytes} {x : Option F64} {n v : Bytes} (hn : optWire Name.tlv name = .ok n)
    (hx : optWire (timestampTlv T_EXPIRY) x = .ok v) (hfit : 9 + n.length + v.length + w.length ≤ 0xFFFF) :
    ∃ t, (manifestBody name w x).tlv = .ok t := by
  obtain ⟨a, ha, va, rfl⟩ := optWire_tlvs hn
  obtain ⟨b, hb, vb, rfl⟩ := optWire_tlvs hx
  have hp : octetTlv T_PAYLOAD w = .ok ⟨T_PAYLOAD, w⟩ := by
    unfold octetTlv
    rw [mkTlv_eq, if_pos ⟨by decide, by omega⟩]
  have ht : payloadTypeTlv PT_MANIFEST = .ok ⟨T_PAYLDTYPE, [3]⟩ := by decide
  refine ⟨⟨T_OBJECT, bytesAll (a ++ b ++ [⟨T_PAYLDTYPE, [3]⟩] ++ [⟨T_PAYLOAD, w⟩] ++ [])⟩, ?_⟩
  simp only [ContentObject.tlv, ContentObject.members, manifestBody, ha, hb, ok_bind, optTlv_absent, pure_eq_ok]
  simp only [optTlv, hp, ht, ok_bind, pure_eq_ok]
  refine container_of_valid ?_ ⟨by show T_OBJECT ≤ _; decide, ?_⟩
  · intro y hy
    simp only [List.append_nil, List.mem_append, List.mem_singleton] at hy
    rcases hy with ((hy | hy) | rfl) | rfl
    · exact va y hy
    · exact vb y hy
    · exact ⟨by show T_PAYLDTYPE ≤ _; decide, by simp⟩
    · exact ⟨by show T_PAYLOAD ≤ _; decide, by simp only; omega⟩
  · simp only [List.append_nil, bytesAll_append, bytesAll_cons, bytesAll_nil, List.length_append, Tlv.bytes_length, Tlv.len, Tlv.length,
      List.length_cons, List.length_nil]
    omega

theorem buildFromNode_ok {E : Env} {o : TreeOptions} {node : Node} {name : Option Name} {x : Option F64} {full : Bool} {m : Manifest}
    {s s1 : BState} {w n v : Bytes} (hbm : buildManifest E o node full s = (.ok m, s1)) (hser : m.serialize = .ok w)
    (hle : w.length ≤ o.maxPacketSize) (hn : optWire Name.tlv name = .ok n) (hx : optWire (timestampTlv T_EXPIRY) x = .ok v)
    (hfit : 33 + n.length + o.maxPacketSize ≤ 0xFFFF) : ∃ p, buildFromNode E o node name x none full s = (.ok p, s1) := by
  have hvl : v.length ≤ 12 := by
    obtain ⟨l, hl, _, rfl⟩ := optWire_tlvs hx
    rw [expiry_len hl]
    split <;> omega
  obtain ⟨u, hu⟩ := manifestBody_ok (w := w) hn hx (by omega)
  obtain ⟨n', hn', hul⟩ := manifestBody_len hu
  rw [hn] at hn'
  cases hn'
  have hp : Packet.createContentObject (manifestBody name w x) = .ok ⟨.contentObject (8 + u.len), manifestBody name w x, none, none⟩ := by
    rw [createContentObject_eq hu, if_pos]
    split at hul <;> omega
  have hc : m.contentObject name x = .ok (manifestBody name w x) := by
    simp only [Manifest.contentObject, hser, ok_bind]
    exact construct_ok hu
  refine ⟨⟨.contentObject (8 + u.len), manifestBody name w x, none, none⟩, ?_⟩
  unfold buildFromNode
  rw [PyS.bind_of_ok hbm, PyS.liftBind_run hser, if_neg (by omega), PyS.liftBind_run hc]
  simp only [signPacket, hp]
  rfl

/-! ## Encryption -/

/-- Specification: with a key, and lengths of nonce and associated data, with which encryption works for one plaintext, it works for
all plaintexts of up to 65535 bytes. -/
def Spec.SealsAlike (P : Prims) : Prop :=
  ∀ alg key iv iv' pt pt' aad aad' c, P.aeadSeal alg key iv pt aad = .ok c → iv.length = iv'.length → aad.length = aad'.length →
    pt'.length ≤ 0xFFFF → ∃ c', P.aeadSeal alg key iv' pt' aad' = .ok c'

theorem Py.Rel.of_ok {α β : Type} {R : α → β → Prop} {a : α} {y : Py β} (h : Py.Rel R (.ok a) y) : ∃ b, y = .ok b ∧ R a b := by
  cases h with
  | ok h => exact ⟨_, rfl, h⟩

/-- Specification: what encrypting manifests rests on: tags of 16 bytes, nonces of one length, and `SealsAlike`. -/
structure Spec.Encrypts (E : Env) : Prop where
  tag : ∀ alg key iv pt aad c, E.prims.aeadSeal alg key iv pt aad = .ok c → c.length = pt.length + 16
  nonce : ∀ i j, (E.nonce i).length = (E.nonce j).length
  alike : Spec.SealsAlike E.prims

/-- If one node can be encrypted, every node can. -/
theorem encryptWithCtx_all {P : Prims} (hs : Spec.SealsAlike P)
    (htag : ∀ alg key iv pt aad c, P.aeadSeal alg key iv pt aad = .ok c → c.length = pt.length + 16) {p : AeadParams} {node₀ : Node}
    {c₀ : SecurityCtx} {x₀ : Sealed} (h₀ : p.encryptWithCtx P node₀ c₀ = .ok x₀) {c : SecurityCtx} (hc : CtxR c₀ c) {node : Node} {t : Tlv}
    (ht : node.tlv = .ok t) (hv : t.Valid) : ∃ x m w, p.encryptWithCtx P node c = .ok x ∧ x.manifest = .ok m ∧ m.serialize = .ok w := by
  unfold AeadParams.encryptWithCtx at h₀ ⊢
  cases hk : p.key with
  | none => rw [hk] at h₀; cases h₀
  | some k =>
    rw [hk] at h₀
    simp only at h₀ ⊢
    obtain ⟨pt₀, _, h₀⟩ := bind_eq_ok.mp h₀
    obtain ⟨aad₀, ha₀, h₀⟩ := bind_eq_ok.mp h₀
    obtain ⟨ca, hca, _⟩ := bind_eq_ok.mp h₀
    obtain ⟨out₀, ho₀, _⟩ := bind_eq_ok.mp hca
    have hrel := wireOf_rel (ctx_tlv_rel hc)
    rw [ha₀] at hrel
    obtain ⟨aad, ha, hae⟩ := hrel.of_ok
    have hn : c₀.aeadData.nonce.length = c.aeadData.nonce.length := by
      cases hc with
      | aead h => exact h.nonce
      | oaep w h => exact h.nonce
    have hiv : (p.iv c₀.aeadData.nonce).length = (p.iv c.aeadData.nonce).length := by
      unfold AeadParams.iv
      split <;> simp [hn]
    obtain ⟨out, ho⟩ := hs _ _ _ (p.iv c.aeadData.nonce) _ t.value _ aad _ ho₀ hiv hae hv.2
    have hol := htag _ _ _ _ _ _ ho
    have hvl : t.value.length ≤ 0xFFFF := hv.2
    have hpt : node.serializedValue = .ok t.value := by simp only [Node.serializedValue, ht, ok_bind, pure_eq_ok]
    have hl1 : (out.take (out.length - 16)).length = t.value.length := by rw [List.length_take]; omega
    have hl2 : (out.drop (out.take (out.length - 16)).length).length = 16 := by rw [List.length_drop, hl1]; omega
    have he : k.encrypt P (p.iv c.aeadData.nonce) t.value aad =
        .ok (out.take (out.length - 16), out.drop (out.take (out.length - 16)).length) := by
      simp only [AeadKey.encrypt, ho, ok_bind, pure_eq_ok]
    have h1 : octetTlv T_ENCRYPTED_NODE (out.take (out.length - 16)) = .ok ⟨T_ENCRYPTED_NODE, out.take (out.length - 16)⟩ := by
      unfold octetTlv
      rw [mkTlv_eq, if_pos ⟨by decide, by omega⟩]
    have h2 : octetTlv T_AUTH_TAG (out.drop (out.take (out.length - 16)).length) =
        .ok ⟨T_AUTH_TAG, out.drop (out.take (out.length - 16)).length⟩ := by
      unfold octetTlv
      rw [mkTlv_eq, if_pos ⟨by decide, by omega⟩]
    obtain ⟨tc, htc, hws⟩ := bind_eq_ok.mp ha
    have hcv : tc.Valid := by
      rw [Tlv.serialize_eq] at hws
      split at hws
      · assumption
      · cases hws
    have hser : Manifest.serialize ⟨some c, .encrypted (out.take (out.length - 16)),
        some (out.drop (out.take (out.length - 16)).length)⟩ = .ok (bytesAll [tc, ⟨T_ENCRYPTED_NODE, out.take (out.length - 16)⟩,
        ⟨T_AUTH_TAG, out.drop (out.take (out.length - 16)).length⟩]) := by
      have hm : ManifestNode.tlv (.encrypted (out.take (out.length - 16))) = .ok ⟨T_ENCRYPTED_NODE, out.take (out.length - 16)⟩ := h1
      simp only [Manifest.serialize, Manifest.members, optTlv, htc, hm, h2, ok_bind, pure_eq_ok]
      refine concatTlvs_of_valid ?_
      intro y hy
      simp only [List.cons_append, List.nil_append, List.mem_cons, List.not_mem_nil, or_false] at hy
      rcases hy with rfl | rfl | rfl
      · exact hcv
      · exact ⟨by show T_ENCRYPTED_NODE ≤ _; decide, by show (out.take (out.length - 16)).length ≤ _; omega⟩
      · exact ⟨by show T_AUTH_TAG ≤ _; decide, by show (out.drop (out.take (out.length - 16)).length).length ≤ _; omega⟩
    refine ⟨⟨c, out.take (out.length - 16), out.drop (out.take (out.length - 16)).length⟩, _, _, ?_, ?_, hser⟩
    · rw [hpt, ok_bind, ha, ok_bind, he, ok_bind]
      simp only [construct_ok h1, construct_ok h2, ok_bind, pure_eq_ok]
    · simp only [Sealed.manifest, hser, ok_bind, pure_eq_ok]

theorem aeadEncrypt_all {P : Prims} (hs : Spec.SealsAlike P)
    (htag : ∀ alg key iv pt aad c, P.aeadSeal alg key iv pt aad = .ok c → c.length = pt.length + 16) {p : AeadParams} {n₀ n : Bytes}
    {node₀ : Node} {x₀ : Sealed} (h₀ : aeadEncrypt P p n₀ node₀ = .ok x₀) (hn : n₀.length = n.length) {node : Node} {t : Tlv}
    (ht : node.tlv = .ok t) (hv : t.Valid) : ∃ x m w, aeadEncrypt P p n node = .ok x ∧ x.manifest = .ok m ∧ m.serialize = .ok w := by
  obtain ⟨d₀, hd₀, h₀⟩ := bind_eq_ok.mp h₀
  obtain ⟨c₀, hc₀, h₀⟩ := bind_eq_ok.mp h₀
  obtain ⟨rfl, u, hu⟩ := construct_inv hc₀
  have hrel := aeadData_rel p (a := n₀) (b := n) hn
  rw [hd₀] at hrel
  obtain ⟨d, hd, hdr⟩ := hrel.of_ok
  have hrel := ctx_tlv_rel (.aead hdr)
  rw [hu] at hrel
  obtain ⟨u', hu', _⟩ := hrel.of_ok
  obtain ⟨x, m, w, h1, h2, h3⟩ := encryptWithCtx_all hs htag h₀ (.aead hdr) ht hv
  exact ⟨x, m, w, by simp only [aeadEncrypt, hd, ok_bind, construct_ok hu', h1], h2, h3⟩

theorem oaepEncrypt_all {P : Prims} (hs : Spec.SealsAlike P)
    (htag : ∀ alg key iv pt aad c, P.aeadSeal alg key iv pt aad = .ok c → c.length = pt.length + 16) {p : AeadParams} {n₀ n : Bytes}
    {wr : Option RsaOaepWrapper} {full : Bool} {node₀ : Node} {x₀ : Sealed} (h₀ : oaepEncrypt P p wr full n₀ node₀ = .ok x₀)
    (hn : n₀.length = n.length) {node : Node} {t : Tlv} (ht : node.tlv = .ok t) (hv : t.Valid) :
    ∃ x m w, oaepEncrypt P p wr full n node = .ok x ∧ x.manifest = .ok m ∧ m.serialize = .ok w := by
  obtain ⟨d₀, hd₀, h₀⟩ := bind_eq_ok.mp h₀
  obtain ⟨c₀, hc₀, h₀⟩ := bind_eq_ok.mp h₀
  obtain ⟨rfl, u, hu⟩ := construct_inv hc₀
  have hrel := aeadData_rel p (a := n₀) (b := n) hn
  rw [hd₀] at hrel
  obtain ⟨d, hd, hdr⟩ := hrel.of_ok
  have hrel := ctx_tlv_rel (.oaep (if full then wr else none) hdr)
  rw [hu] at hrel
  obtain ⟨u', hu', _⟩ := hrel.of_ok
  obtain ⟨x, m, w, h1, h2, h3⟩ := encryptWithCtx_all hs htag h₀ (.oaep _ hdr) ht hv
  exact ⟨x, m, w, by simp only [oaepEncrypt, hd, ok_bind, construct_ok hu', h1], h2, h3⟩

/-- If one manifest can be made, one can be made of every node. -/
theorem buildManifest_all {E : Env} {o : TreeOptions} (hreg : o.encryptor ≠ none → Spec.Encrypts E) {node₀ : Node}
    {s₀ s₁ : BState} {m₀ : Manifest} (h₀ : buildManifest E o node₀ false s₀ = (.ok m₀, s₁)) {node : Node} {t : Tlv} (ht : node.tlv = .ok t)
    (hv : t.Valid) (s : BState) : ∃ m s' w, buildManifest E o node false s = (.ok m, s') ∧ m.serialize = .ok w := by
  unfold buildManifest at h₀ ⊢
  cases ho : o.encryptor with
  | none =>
    have hser : Manifest.serialize { node := .plain node } = .ok t.bytes := by
      simp only [Manifest.serialize, Manifest.members, optTlv_absent, ManifestNode.tlv, ht, ok_bind, pure_eq_ok]
      rw [concatTlvs_of_valid (by simpa using hv)]
      simp
    refine ⟨{ node := .plain node }, s, _, ?_, hser⟩
    simp only
    rw [PyS.liftBind_run hser]
    rfl
  | some enc =>
    have hR := hreg (by rw [ho]; exact nofun)
    cases enc with
    | aead params =>
      simp only [ho] at h₀ ⊢
      obtain ⟨i, u, hi, h₀⟩ := PyS.bind_ok h₀
      obtain ⟨_, _, _, h₀⟩ := PyS.bind_ok h₀
      obtain ⟨h₀, _⟩ := PyS.lift_ok h₀
      obtain ⟨x₀, hx₀, _⟩ := bind_eq_ok.mp h₀
      obtain ⟨x, m, w, h1, h2, h3⟩ := aeadEncrypt_all hR.alike hR.tag hx₀ (hR.nonce i.nonces s.nonces) ht hv
      have e : (aeadEncrypt E.prims params (E.nonce s.nonces) node >>= Sealed.manifest) = .ok m := by rw [h1, ok_bind, h2]
      exact ⟨m, _, w, congrArg (fun r => (r, { s with nonces := s.nonces + 1 })) e, h3⟩
    | oaep params wrapper =>
      simp only [ho] at h₀ ⊢
      obtain ⟨i, u, hi, h₀⟩ := PyS.bind_ok h₀
      obtain ⟨_, _, _, h₀⟩ := PyS.bind_ok h₀
      obtain ⟨h₀, _⟩ := PyS.lift_ok h₀
      obtain ⟨x₀, hx₀, _⟩ := bind_eq_ok.mp h₀
      obtain ⟨x, m, w, h1, h2, h3⟩ := oaepEncrypt_all hR.alike hR.tag hx₀ (hR.nonce i.nonces s.nonces) ht hv
      have e : (oaepEncrypt E.prims params (some wrapper) false (E.nonce s.nonces) node >>= Sealed.manifest) = .ok m := by rw [h1, ok_bind, h2]
      exact ⟨m, _, w, congrArg (fun r => (r, { s with nonces := s.nonces + 1 })) e, h3⟩

/-! ## The tree -/

/-- Specification: the manifests can have their names and the expiry time: the name of the id 2^53 - 1 can be made, and with it, the
expiry time and a manifest of the greatest length a packet has at most 65535 bytes. -/
def Spec.NamesFit (i : SchemaImpl) (o : TreeOptions) : Prop :=
  (∃ v, optWire (timestampTlv T_EXPIRY) o.manifestExpiry = .ok v) ∧
  ∃ name w, i.getName (some ((2 ^ 53 - 1 : Nat) : Int)) = .ok name ∧ optWire Name.tlv name = .ok w ∧ 33 + w.length + o.maxPacketSize ≤ 0xFFFF

theorem Spec.NamesFit.all {i : SchemaImpl} {o : TreeOptions} (h : Spec.NamesFit i o) (id : Nat) (hid : id < 2 ^ 53) :
    ∃ name w, i.getName (some (id : Int)) = .ok name ∧ optWire Name.tlv name = .ok w ∧ 33 + w.length + o.maxPacketSize ≤ 0xFFFF := by
  obtain ⟨_, name, w, h1, h2, h3⟩ := h
  obtain ⟨l, hl, _, rfl⟩ := optWire_tlvs h2
  obtain ⟨nm, l', h4, h5, h6⟩ := getName_le h1 hl id (by omega)
  refine ⟨nm, bytesAll l', h4, ?_, by omega⟩
  cases nm with
  | none => cases h5; rfl
  | some x =>
    obtain ⟨t, ht, rfl⟩ := optTlv_some h5
    obtain ⟨_, _, _, _, hv⟩ := Name.tlv_ok ht
    simp only [optWire, wireOf, ht, ok_bind, Tlv.serialize_eq, if_pos hv, bytesAll_cons, bytesAll_nil, List.append_nil]

theorem rules_all {T : TreeEnv} {B : Int} {total n K : Nat} (hB : B < 2 ^ 53) (hK : K ≤ T.opts.maxPacketSize)
    (hman : ∀ (node : Node) (t : Tlv) (s : BState), node.tlv = .ok t → t.Valid → t.len ≤ K → ∃ m s1 w,
      buildManifest T.env T.opts node false s = (.ok m, s1) ∧ m.serialize = .ok w ∧ w.length ≤ T.opts.maxPacketSize)
    (hnames : Spec.NamesFit T.ctx.manifest T.opts)
    (hctx : (T.ctx.shared = true → T.ctx.data = T.ctx.manifest ∧ T.ctx.manifest.usesNameId = false) ∧
      T.ctx.data.usesNameId = T.ctx.manifest.usesNameId)
    (hsha : ∀ b, (T.env.prims.sha256 b).length = 32)
    (hch : ∀ c ∈ T.chunks, (c.hash.alg ≤ 0xFFFF ∧ c.hash.value.length = 32) ∧ c.chunkNumber ≤ MAX_CHUNK_ID)
    (htot : (T.chunks.map (·.payloadBytes)).sum ≤ total) (hn : T.direct + T.indirect ≤ n) (hann : annotLen T.opts total ≤ 16)
    (hroom : 25 + dataLenOf (if T.opts.addNodeSubtreeSize then some total else none) + sizingLen T.ctx n ≤ K) :
    Rules T (fun _ => True) B := by
  obtain ⟨v, hv⟩ := hnames.1
  have hnames := hnames.all
  have hmax : K ≤ 0xFFFF := by
    obtain ⟨_, _, _, _, h⟩ := hnames 0 (by decide)
    omega
  have hper := fun node => permitted_ok (B := B) (node := node) hctx hsha hch htot hn hann hroom hmax
  refine ⟨?_, ?_, ?_, ?_, ?_, ?_⟩
  · intro node hp g hg e he
    obtain ⟨t, ht⟩ := (hper node hp).1 g hg
    rw [ht] at he
    cases he
  · intro node hp d hd e he
    obtain ⟨t, ht⟩ := (hper node hp).2.1 d hd
    rw [ht] at he
    cases he
  · intro node hp e he
    obtain ⟨t, ht, _⟩ := (hper node hp).2.2
    rw [ht] at he
    cases he
  · intro id hid e he
    obtain ⟨_, _, h, _⟩ := hnames id (by omega)
    rw [h] at he
    cases he
  · intro node hp name id hid hname s e s' he
    obtain ⟨t, ht, htv, htl⟩ := (hper node hp).2.2
    obtain ⟨name', w, h1, h2, h3⟩ := hnames id (by omega)
    rw [hname] at h1
    cases h1
    obtain ⟨m, s1, wm, hm, hser, hle⟩ := hman node t s ht htv htl
    obtain ⟨p, hp⟩ := buildFromNode_ok hm hser hle h2 hv h3
    rw [hp] at he
    cases he
  · intro h1 h2
    obtain ⟨h3, h4⟩ := hctx.1 h1
    rcases h2 with h2 | h2
    · rw [h4] at h2; cases h2
    · rw [hctx.2, h4] at h2; cases h2

variable {E : Env} {L : FloatLog} {o : TreeOptions} {nc : Nat} {input : Stream}

/-- The tree that the optimizer selects has few enough manifests for exact ids. -/
theorem selected_ids {n p : Nat} {r : OptimizerResult} (hL : L.NotHigh) (hmin : minimizeKMinWaste L n p = .ok r) (hne : 1 ≤ n)
    (hcount : n ≤ MAX_CHUNK_ID + 1) (hp2 : 2 ≤ p) (hple : p < 2 ^ 52) (hd : 1 ≤ r.direct) (hin : 1 ≤ r.indirect)
    (hpt : r.direct + r.indirect ≤ 0x10000) :
    (r.indirect = 1 ∨ r.indirect ^ (r.height.toNat + 1) ≤ 2 ^ 53) ∧ Spec.treeNodes r.indirect r.height.toNat ≤ 2 ^ 53 := by
  unfold MAX_CHUNK_ID at hcount
  obtain ⟨s1, s2, s3, s4⟩ := selected_shape hmin hne hp2 (by omega) hple
  have hcapk : ∀ h, Spec.treeCapacity r.direct 1 h ≥ h := by
    intro h
    induction h with
    | zero => omega
    | succ h ih => rw [Spec.treeCapacity]; omega
  have hone : ∀ k, Spec.treeNodes 1 k = k + 1 := by
    intro k
    induction k with
    | zero => rfl
    | succ k ih => rw [Spec.treeNodes, ih]; omega
  rcases Nat.lt_or_ge 1 r.indirect with hgt | hle
  · have hex := s4 hL hgt
    have hb : r.indirect ^ r.height.toNat ≤ 2 ^ 24 := by
      cases hk : r.height.toNat with
      | zero => simp
      | succ k =>
        have := treeCapacity_pow r.direct r.indirect k
        have := hex k (by omega)
        omega
    have hpow : r.indirect ^ (r.height.toNat + 1) ≤ 2 ^ 53 := by
      rw [Nat.pow_succ]
      calc r.indirect ^ r.height.toNat * r.indirect ≤ 2 ^ 24 * 2 ^ 16 := Nat.mul_le_mul hb (by omega)
        _ ≤ 2 ^ 53 := by decide
    have := treeNodes_le r.indirect r.height.toNat hgt
    exact ⟨.inr hpow, by omega⟩
  · have he : r.indirect = 1 := by omega
    refine ⟨.inl he, ?_⟩
    rw [he, hone]
    by_cases hn1 : n = 1
    · rw [s2 hn1]; decide
    · obtain ⟨k, hk, _, hleast⟩ := s3 (by omega) he
      rw [hk]
      have : k ≤ 2 ^ 30 := by
        rcases Nat.eq_zero_or_pos k with rfl | hk0
        · omega
        · have h1 := hleast (k - 1) (by omega)
          have h2 := hcapk (k - 1)
          omega
      omega

/-- C120 (a): once the file is chunked and the size calculation has returned, the tree is built: no manifest below the root is too long,
no id is missing, no assertion fails. -/
theorem C120_tree (hsha : ∀ b, (E.prims.sha256 b).length = 32) (hlow : L.NotLow) (hhigh : L.NotHigh) (henc : o.encryptor ≠ none → Spec.Encrypts E)
    (hann : (o.addGroupLeafSize = false ∧ o.addGroupSubtreeSize = false) ∨ input.rest.length < 2 ^ 32)
    {ctx : NameCtx} {file : FileMetadata} {st : ChunkState} {r : OptimizerResult} {s0 : BState}
    (hctx : NameCtx.create o.schemaType nc o.name o.manifestPrefix o.dataPrefix o.manifestLocators o.dataLocators = .ok ctx)
    (hnames : Spec.NamesFit ctx.manifest o)
    (hch : ctx.data.chunkData E.prims.sha256 o.chunk input {} = (.ok file, st))
    (hopt : createOptimizedTree E L o ctx file { output := st.output } = (.ok r, s0)) :
    ∃ top s1 hv, buildTree ⟨E, o, ctx, file.chunks, r.direct, r.indirect, r.height⟩ s0 = (.ok top, s1) ∧
      top.packet ∈ s1.output ∧ top.packet.hash E.prims.sha256 = .ok hv ∧ hv.alg = 1 ∧ hv.value.length = 32 := by
  obtain ⟨bs, ps, c1, c2, c3, c4⟩ := C38_chunks hch
  have hcount := chunkData_count hch
  obtain ⟨p1, p2, p3, p4⟩ := tree_pos hopt hcount
  obtain ⟨P, q, s1, hP, hqP, _, hmin⟩ := createOptimizedTree_inv hopt
  obtain ⟨hP2, hPle, pk, s2, s3, plen, hsz, hpl, hfit⟩ := calculateMaxPointers_inv hP
  have hcount' := hcount
  unfold MAX_CHUNK_ID at hcount'
  obtain ⟨_, hq2, _, _, hdm⟩ := minimizeKMinWaste_pos hmin (by omega) (by omega)
  obtain ⟨snode, tz, htz, hsb, hslen⟩ := sizingPacket_node (by omega) hsz
  obtain ⟨sm, _, sw, sn, hsm, hsw, hsn, _, hspl⟩ := buildFromNode_len hsb
  cases hsn
  rw [hpl] at hspl
  have hspl := Except.ok.inj hspl
  obtain ⟨c, _, hc⟩ := buildManifest_extra (E := E) o (fun h => ⟨(henc h).tag, (henc h).nonce⟩)
  have hswl := hc _ _ _ _ _ _ hsm hsw htz
  obtain ⟨g1, g2, _⟩ := nameCtx_inv hctx
  obtain ⟨t1, t2, _, t4⟩ := c2.sum
  rw [c1] at t1
  obtain ⟨hex, hnodes⟩ := selected_ids hhigh hmin p1 hcount hq2 (by omega) p2 p3 p4
  obtain ⟨r', hr', _, _, _, hh, hcap⟩ := C41_selected_tree_has_room L hlow file.chunks.length q hq2 p1 (by omega) (by omega)
  rw [hmin] at hr'
  cases hr'
  have hannot : annotLen o file.totalBytes ≤ 16 := by
    unfold annotLen
    rcases hann with ⟨ha, hb⟩ | hb
    · simp [ha, hb]
    · have : numWidth file.totalBytes ≤ 4 := by
        rw [c3]
        unfold numWidth
        (repeat' split) <;> omega
      split <;> split <;> omega
  simp only [List.length_nil, Option.isSome_none, Bool.false_eq_true, if_false] at hspl
  have R : Rules ⟨E, o, ctx, file.chunks, r.direct, r.indirect, r.height⟩ (fun _ => True)
      ((Spec.treeNodes r.indirect r.height.toNat : Int) - 1) :=
    rules_all (total := file.totalBytes) (n := P) (K := o.maxPacketSize - c) (by omega) (Nat.sub_le ..) (by
      intro node t s ht hv hle
      obtain ⟨m, s', w, hm, hw⟩ := buildManifest_all henc hsm ht hv s
      refine ⟨m, s', w, hm, hw, ?_⟩
      have := hc _ _ _ _ _ _ hm hw ht
      simp only at hle ⊢
      omega) hnames ⟨g1, g2⟩ hsha (by
      intro c hc
      refine ⟨?_, ?_⟩
      · obtain ⟨p, _, hp⟩ := chunked_hashes c2 c hc
        exact ⟨by rw [Packet.hash_sha hp]; decide, packetHash_len hsha hp⟩
      · have : c.chunkNumber ∈ file.chunks.map (·.chunkNumber) := List.mem_map_of_mem hc
        have hl := congrArg List.length t2
        rw [t2, List.mem_range'_1] at this
        rw [List.length_map, List.length_range'] at hl
        simp only at this
        unfold MAX_CHUNK_ID
        omega) (by rw [c3]; exact Nat.le_of_eq t1) (by simp only; omega) hannot (by simp only; omega)
  have hrun := buildTree_run R p2 p3 p1 (known := file.chunks.map (·.hash)) (fun c hc => List.mem_map_of_mem hc) (s := s0)
    (fun e he => by
      rw [initialIds_exact (T := ⟨E, o, ctx, file.chunks, r.direct, r.indirect, r.height⟩) p3 hex] at he
      cases he)
    (fun ids hids => initialIds_le (T := ⟨E, o, ctx, file.chunks, r.direct, r.indirect, r.height⟩) p3 hex hids)
    (fun _ ids hids => ⟨goodIds_of_exact (T := ⟨E, o, ctx, file.chunks, r.direct, r.indirect, r.height⟩) p3 hex hids, hh, hcap⟩)
  rcases hb : buildTree ⟨E, o, ctx, file.chunks, r.direct, r.indirect, r.height⟩ s0 with ⟨e | top, s1⟩
  · exact absurd trivial (hrun.2 e s1 hb).1
  · obtain ⟨ids, level, i, kids, _, hv, htr, _, _, _, rfl, _⟩ := hrun.1 top s1 hb
    have hh : i.packet.hash E.prims.sha256 = .ok i.hash := hv.2.2.1.1
    exact ⟨_, s1, i.hash, rfl, by rw [htr.wrote.1]; simp, hh, by rw [Packet.hash_sha hh]; rfl, packetHash_len hsha hh⟩

/-- C120 (b): if publishing the file fails, then the names were refused, the file could not be chunked, the size calculation failed, or
the tree was written and the root manifest with the hash of its top manifest cannot be made. -/
theorem C120_only_root (hsha : ∀ b, (E.prims.sha256 b).length = 32) (hlow : L.NotLow) (hhigh : L.NotHigh) (henc : o.encryptor ≠ none → Spec.Encrypts E)
    (hann : (o.addGroupLeafSize = false ∧ o.addGroupSubtreeSize = false) ∨ input.rest.length < 2 ^ 32)
    (hnames : ∀ ctx, NameCtx.create o.schemaType nc o.name o.manifestPrefix o.dataPrefix o.manifestLocators o.dataLocators = .ok ctx →
      Spec.NamesFit ctx.manifest o)
    {e : PyErr} {out : List Packet} (h : manifestTree E L o nc input = (.error e, out)) :
    NameCtx.create o.schemaType nc o.name o.manifestPrefix o.dataPrefix o.manifestLocators o.dataLocators = .error e ∨
    ∃ ctx, NameCtx.create o.schemaType nc o.name o.manifestPrefix o.dataPrefix o.manifestLocators o.dataLocators = .ok ctx ∧
      ((ctx.data.chunkData E.prims.sha256 o.chunk input {}).1 = .error e ∨
      ∃ file st, ctx.data.chunkData E.prims.sha256 o.chunk input {} = (.ok file, st) ∧
        ((createOptimizedTree E L o ctx file { output := st.output }).1 = .error e ∨
        ∃ top hv s, top ∈ out ∧ top.hash E.prims.sha256 = .ok hv ∧ hv.alg = 1 ∧ hv.value.length = 32 ∧
          (rootPacket E o ctx file.totalBytes hv s).1 = .error e)) := by
  unfold manifestTree at h
  cases hctx : NameCtx.create o.schemaType nc o.name o.manifestPrefix o.dataPrefix o.manifestLocators o.dataLocators with
  | error e' => rw [hctx] at h; cases h; exact .inl rfl
  | ok ctx =>
    simp only [hctx] at h
    refine .inr ⟨ctx, rfl, ?_⟩
    rcases hch : ctx.data.chunkData E.prims.sha256 o.chunk input {} with ⟨e' | file, st⟩
    · rw [hch] at h; cases h; exact .inl rfl
    · simp only [hch] at h
      refine .inr ⟨file, st, rfl, ?_⟩
      rcases hopt : createOptimizedTree E L o ctx file { output := st.output } with ⟨e' | r, s0⟩
      · rw [hopt] at h; cases h; exact .inl rfl
      · simp only [hopt] at h
        obtain ⟨top, s1, hv, hb, hmem, hh, ha, hl⟩ := C120_tree hsha hlow hhigh henc hann hctx (hnames ctx hctx) hch hopt
        refine .inr ⟨top.packet, hv, s1, ?_, hh, ha, hl, ?_⟩
        all_goals
          unfold buildRooted at h
          rw [PyS.bind_of_ok hb, PyS.liftBind_run hh] at h
          obtain ⟨k, hk⟩ := rootPacket_frame E o ctx file.totalBytes hv s1
          rcases hr : rootPacket E o ctx file.totalBytes hv s1 with ⟨e' | q, s2⟩
          · rw [PyS.bind_of_error hr] at h
            rw [hr] at hk
            cases h
            first | rfl | (simp only at hk; rw [hk]; exact hmem)
          · rw [PyS.bind_of_ok hr] at h
            cases h

theorem PyS.bind_fst {σ τ α β : Type} {x : PyS σ α} {y : PyS τ α} {f : α → PyS σ β} {g : α → PyS τ β} {s : σ} {t : τ}
    (h : (x s).1 = (y t).1) (hf : ∀ a s t, (f a s).1 = (g a t).1) : ((x >>= f) s).1 = ((y >>= g) t).1 := by
  rcases hx : x s with ⟨e | a, s'⟩ <;> rcases hy : y t with ⟨e' | a', t'⟩ <;> rw [hx, hy] at h <;> cases h
  · rw [PyS.bind_of_error hx, PyS.bind_of_error hy]
  · rw [PyS.bind_of_ok hx, PyS.bind_of_ok hy]
    exact hf ..

theorem PyS.liftBind_fst {σ τ α β : Type} (x : Py α) {f : α → PyS σ β} {g : α → PyS τ β} {s : σ} {t : τ}
    (hf : ∀ a, (f a s).1 = (g a t).1) : ((PyS.lift x >>= f) s).1 = ((PyS.lift x >>= g) t).1 := by
  cases x with
  | error e => rfl
  | ok a => exact hf a

/-- Of the builder's state the root manifest takes the next nonce, if it is encrypted, and nothing else. -/
theorem rootPacket_fst {F : Env} (hp : E.prims = F.prims) {s t : BState} (hn : o.encryptor ≠ none → E.nonce s.nonces = F.nonce t.nonces)
    (ctx : NameCtx) (total : Nat) (hv : HashValue) : (rootPacket E o ctx total hv s).1 = (rootPacket F o ctx total hv t).1 := by
  have hm : ∀ node, (buildManifest E o node true s).1 = (buildManifest F o node true t).1 := by
    intro node
    cases ho : o.encryptor with
    | none =>
      unfold buildManifest
      rw [ho]
      exact PyS.bind_fst rfl fun _ _ _ => rfl
    | some c =>
      have hn := hn (by rw [ho]; exact nofun)
      cases c with
      | aead params =>
        have e : (aeadEncrypt E.prims params (E.nonce s.nonces) node >>= Sealed.manifest) =
            (aeadEncrypt F.prims params (F.nonce t.nonces) node >>= Sealed.manifest) := by rw [hp, hn]
        unfold buildManifest
        rw [ho]
        exact e
      | oaep params wrapper =>
        have e : (oaepEncrypt E.prims params (some wrapper) true (E.nonce s.nonces) node >>= Sealed.manifest) =
            (oaepEncrypt F.prims params (some wrapper) true (F.nonce t.nonces) node >>= Sealed.manifest) := by rw [hp, hn]
        unfold buildManifest
        rw [ho]
        exact e
  unfold rootPacket
  refine PyS.liftBind_fst _ fun g => PyS.liftBind_fst _ fun node => PyS.bind_fst ?_ fun _ _ _ => rfl
  unfold buildFromNode
  refine PyS.bind_fst (hm node) fun m s t => PyS.bind_fst rfl fun w s t => ?_
  by_cases hw : w.length > o.maxPacketSize
  · rw [if_pos hw, if_pos hw]
    rfl
  · rw [if_neg hw, if_neg hw]
    exact PyS.bind_fst rfl fun _ _ _ => by rw [hp]; rfl

/-- C120 (c): a file is published if the names are accepted, the file can be chunked, the size calculation returns and a root manifest of
its size can be made over any one hash of 32 bytes. -/
theorem C120_published (hP : Spec.LengthOnly E.prims) (hlow : L.NotLow) (hhigh : L.NotHigh)
    (henc : o.encryptor ≠ none → Spec.Encrypts E)
    (hann : (o.addGroupLeafSize = false ∧ o.addGroupSubtreeSize = false) ∨ input.rest.length < 2 ^ 32)
    {ctx : NameCtx} {file : FileMetadata} {st : ChunkState} {r : OptimizerResult} {s0 : BState}
    (hctx : NameCtx.create o.schemaType nc o.name o.manifestPrefix o.dataPrefix o.manifestLocators o.dataLocators = .ok ctx)
    (hnames : Spec.NamesFit ctx.manifest o)
    (hch : ctx.data.chunkData E.prims.sha256 o.chunk input {} = (.ok file, st))
    (hopt : createOptimizedTree E L o ctx file { output := st.output } = (.ok r, s0))
    {b : Bytes} (hb : b.length = 32) {sample : Built} {s s' : BState}
    (hroot : rootPacket E o ctx input.rest.length (.sha256 b) s = (.ok sample, s')) :
    ∃ root out, manifestTree E L o nc input = (.ok root, out) := by
  rcases hm : manifestTree E L o nc input with ⟨e | root, out⟩
  · exfalso
    rcases C120_only_root hP.rel.sha hlow hhigh henc hann (fun c hc => by rw [hctx] at hc; cases hc; exact hnames) hm with h | ⟨c, hc, h⟩
    · rw [hctx] at h; cases h
    · rw [hctx] at hc
      cases hc
      rcases h with h | ⟨f, u, hf, h⟩
      · rw [hch] at h; cases h
      · rw [hch] at hf
        cases hf
        rcases h with h | ⟨top, hv, s1, _, _, ha, hl, h⟩
        · rw [hopt] at h; cases h
        · obtain ⟨bs, ps, _, _, c3, _⟩ := C38_chunks hch
          rw [c3] at h
          obtain ⟨n, hn, hne⟩ : ∃ n : Bytes, (E.nonce s.nonces).length = n.length ∧ (o.encryptor ≠ none → E.nonce s1.nonces = n) := by
            by_cases ho : o.encryptor = none
            · exact ⟨_, rfl, fun h => absurd ho h⟩
            · exact ⟨_, (henc ho).nonce .., fun _ => rfl⟩
          let T : TreeEnv := ⟨{ E with nonce := fun _ => E.nonce s.nonces }, o, ctx, [], 0, 0, 0⟩
          let U : TreeEnv := ⟨{ E with nonce := fun _ => n }, o, ctx, [], 0, 0, 0⟩
          have hT : TreeR T U := ⟨⟨rfl, fun _ => hn⟩, hP.rel, rfl, rfl, .nil, rfl, rfl, rfl⟩
          have hrel := (rootPacket_rel hT input.rest.length (x := .sha256 b) (y := hv) ⟨ha.symm, by rw [hl]; exact hb⟩ {} {}
            ⟨.nil, rfl, rfl, rfl⟩).1
          rw [rootPacket_fst (E := E) (F := U.env) (t := {}) rfl hne] at h
          have h' := congrArg Prod.fst hroot
          rw [rootPacket_fst (E := E) (F := T.env) (t := {}) rfl (fun _ => rfl)] at h'
          change Py.Rel BuiltR (rootPacket T.env o ctx input.rest.length (.sha256 b) {}).1 (rootPacket U.env o ctx input.rest.length hv {}).1 at hrel
          rw [h, h'] at hrel
          cases hrel
  · exact ⟨root, out, rfl⟩

/-! ## The hypotheses can be met -/

/-- The names are accepted, the file is chunked, the size calculation returns, and a root over zeros can be made or not. -/
def Toy.stages (o : TreeOptions) (n : Nat) : Option Bool :=
  match NameCtx.create o.schemaType 1 o.name o.manifestPrefix o.dataPrefix o.manifestLocators o.dataLocators with
  | .error _ => none
  | .ok ctx =>
    match ctx.data.chunkData Toy.env.prims.sha256 o.chunk (Toy.shortReads n) {} with
    | (.error _, _) => none
    | (.ok file, st) =>
      match createOptimizedTree Toy.env Spec.exactLog o ctx file { output := st.output } with
      | (.error _, _) => none
      | (.ok _, _) =>
        match ctx.manifest.getName (some ((2 ^ 53 - 1 : Nat) : Int)) with
        | .error _ => none
        | .ok name =>
          match optWire Name.tlv name, optWire (timestampTlv T_EXPIRY) o.manifestExpiry with
          | .ok w, .ok _ =>
            if 33 + w.length + o.maxPacketSize ≤ 0xFFFF then
              some (rootPacket Toy.env o ctx n (.sha256 (List.replicate 32 0)) {}).1.toBool
            else none
          | _, _ => none

theorem Toy.stages_ok {o : TreeOptions} {n : Nat} {b : Bool} (h : Toy.stages o n = some b) : ∃ ctx file st r s0,
    NameCtx.create o.schemaType 1 o.name o.manifestPrefix o.dataPrefix o.manifestLocators o.dataLocators = .ok ctx ∧
    Spec.NamesFit ctx.manifest o ∧
    ctx.data.chunkData Toy.env.prims.sha256 o.chunk (Toy.shortReads n) {} = (.ok file, st) ∧
    createOptimizedTree Toy.env Spec.exactLog o ctx file { output := st.output } = (.ok r, s0) ∧
    (rootPacket Toy.env o ctx n (.sha256 (List.replicate 32 0)) {}).1.toBool = b := by
  unfold Toy.stages at h
  split at h
  · cases h
  rename_i ctx hctx
  split at h
  · cases h
  rename_i file st hch
  split at h
  · cases h
  rename_i r s0 hopt
  split at h
  · cases h
  rename_i name hname
  split at h
  · rename_i w v hw hv
    split at h
    · rename_i hfit
      exact ⟨ctx, file, st, r, s0, hctx, ⟨⟨v, hv⟩, name, w, hname, hw, hfit⟩, hch, hopt, Option.some.inj h⟩
    · cases h
  · cases h

set_option maxRecDepth 100000 in
/-- C120 (a) and (c): 800 bytes, segmented names, an expiry time of the manifests and a CRC32C in the root; by C120 (c) the file is
published. -/
example : ∃ root out, manifestTree Toy.env Spec.exactLog { Toy.options .segmented false with manifestExpiry := some (F64.ofNat 5) } 1
    (Toy.shortReads 800) = (.ok root, out) := by
  obtain ⟨ctx, file, st, r, s0, h1, h2, h3, h4, h5⟩ := Toy.stages_ok (n := 800) (b := true)
    (o := { Toy.options .segmented false with manifestExpiry := some (F64.ofNat 5) }) (by decide +kernel)
  rcases hr : rootPacket Toy.env { Toy.options .segmented false with manifestExpiry := some (F64.ofNat 5) } ctx 800
    (.sha256 (List.replicate 32 0)) {} with ⟨_ | sample, s'⟩
  · rw [hr] at h5
    cases h5
  · exact C120_published Toy.lengthOnly exactLog_notLow exactLog_notHigh (fun h => absurd rfl h) (.inr (by decide +kernel)) h1 h2 h3 h4 rfl hr

theorem Toy.encrypts : Spec.Encrypts Toy.env where
  tag := Toy.regular.tag
  nonce := Toy.regular.nonce
  alike := by
    intro alg key iv iv' pt pt' aad aad' c h _ _ _
    exact ⟨_, rfl⟩

set_option maxRecDepth 100000 in
/-- C120 (a) and (c): 300 bytes, prefixed names, encrypted manifests. -/
example : ∃ root out, manifestTree Toy.env Spec.exactLog (Toy.options .prefixed true) 1 (Toy.shortReads 300) = (.ok root, out) := by
  obtain ⟨ctx, file, st, r, s0, h1, h2, h3, h4, h5⟩ := Toy.stages_ok (n := 300) (b := true) (o := Toy.options .prefixed true) (by decide +kernel)
  rcases hr : rootPacket Toy.env (Toy.options .prefixed true) ctx 300 (.sha256 (List.replicate 32 0)) {} with ⟨_ | sample, s'⟩
  · rw [hr] at h5
    cases h5
  · exact C120_published Toy.lengthOnly exactLog_notLow exactLog_notHigh (fun _ => Toy.encrypts) (.inr (by decide +kernel)) h1 h2 h3 h4 rfl hr

/-- Prefixes of 120 bytes for the manifests and for the data. -/
def Toy.longPrefixes : TreeOptions :=
  { Toy.options .prefixed false with manifestPrefix := Toy.seg (List.replicate 120 1), dataPrefix := Toy.seg (List.replicate 120 2) }

set_option maxRecDepth 100000 in
/-- C120 (b): the root manifest can fail alone.  It defines the names of the manifests and of the data, which the size calculation does
not count: with two prefixes of 120 bytes each the data objects and the manifests of a file of 300 bytes are written, and then the root
does not fit into a packet of 250 bytes. -/
example : Toy.stages Toy.longPrefixes 300 = some false ∧
    ∃ e out, manifestTree Toy.env Spec.exactLog Toy.longPrefixes 1 (Toy.shortReads 300) = (.error e, out) ∧ out.length = 16 :=
  ⟨by decide +kernel, Toy.error_of_eval (f := List.length) (by decide +kernel)⟩

end Ccnpy
