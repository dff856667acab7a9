import Verif.Lemmas.TreeFile
import Verif.Lemmas.Crypto

/-!
# Sizes of manifests
-/

namespace Ccnpy

/-! ## Groups and nodes -/

/-- Bytes of an optional integer field. -/
def intLen : Option Nat → Nat
  | none => 0
  | some n => 4 + numWidth n

theorem optInt_len {ty : Nat} (hty : ty ≤ 0xFFFF) {o : Option Nat} {l : List Tlv} (h : optTlv (intTlv ty) o = .ok l) :
    (bytesAll l).length = intLen o := by
  cases o with
  | none => cases h; rfl
  | some n =>
    obtain ⟨t, ht, rfl⟩ := optTlv_some h
    rw [intTlv_eq hty] at ht
    cases ht
    simp [intLen, Tlv.bytes_length, Tlv.len, Tlv.length, beBytes_length]

theorem hashes_len {ps : List HashValue} {l : List Tlv} (hp : ∀ h ∈ ps, h.value.length = 32) (h : listTlv HashValue.tlv ps = .ok l) :
    (bytesAll l).length = 36 * ps.length := by
  induction ps generalizing l with
  | nil => cases h; rfl
  | cons x ps ih =>
    obtain ⟨t, r, ht, hr, rfl⟩ := listTlv_cons_ok h
    have := ih (fun y hy => hp y (List.mem_cons_of_mem _ hy)) hr
    obtain ⟨rfl, _⟩ := mkTlv_ok ht
    have hx := hp x (List.mem_cons_self ..)
    simp only [bytesAll_cons, List.length_append, Tlv.bytes_length, Tlv.len, Tlv.length, List.length_cons]
    omega

/-- Bytes of a hash group made by a builder. -/
def groupLen (sub leaf nc st : Option Nat) (k : Nat) : Nat := 12 + intLen sub + intLen leaf + intLen nc + intLen st + 36 * k

theorem hashGroup_len {sub leaf nc st : Option Nat} {ps : List HashValue} {t : Tlv} (hp : ∀ h ∈ ps, h.value.length = 32)
    (h : HashGroup.tlv { groupData := some { subtreeSize := sub, leafSize := leaf, ncId := nc, startSegmentId := st }, pointers := some ps } = .ok t) :
    t.len = groupLen sub leaf nc st ps.length := by
  obtain ⟨ms, hm, h⟩ := bind_eq_ok.mp h
  obtain ⟨a, ha, hm⟩ := bind_eq_ok.mp hm
  obtain ⟨b, hb, hm⟩ := bind_eq_ok.mp hm
  cases hm
  obtain ⟨_, rfl, _⟩ := container_ok h
  obtain ⟨ta, hta, rfl⟩ := optTlv_some ha
  obtain ⟨tb, htb, rfl⟩ := optTlv_some hb
  obtain ⟨l, hl, htb⟩ := bind_eq_ok.mp htb
  obtain ⟨_, rfl, _⟩ := container_ok htb
  obtain ⟨ms, hq, hta⟩ := bind_eq_ok.mp hta
  obtain ⟨_, rfl, _⟩ := container_ok hta
  obtain ⟨x1, h1, hq⟩ := bind_eq_ok.mp hq
  obtain ⟨x2, h2, hq⟩ := bind_eq_ok.mp hq
  obtain ⟨x3, h3, hq⟩ := bind_eq_ok.mp hq
  obtain ⟨x4, h4, hq⟩ := bind_eq_ok.mp hq
  obtain ⟨x5, h5, hq⟩ := bind_eq_ok.mp hq
  obtain ⟨x6, h6, hq⟩ := bind_eq_ok.mp hq
  cases hq
  cases h2
  cases h4
  have e1 := optInt_len (by decide) h1
  have e3 := optInt_len (by decide) h3
  have e5 := optInt_len (by decide) h5
  have e6 := optInt_len (by decide) h6
  have el := hashes_len hp hl
  simp only at e1 e3 e5 e6
  unfold groupLen
  simp only [Tlv.len, Tlv.length, bytesAll_append, bytesAll_cons, bytesAll_nil, List.length_append, Tlv.bytes_length, List.append_nil]
  omega

/-- Bytes of node data that has at most a subtree size. -/
def dataLenOf (o : Option Nat) : Nat :=
  match o with
  | none => 0
  | some n => 8 + numWidth n

theorem node_len {size : Option Nat} {gs : List HashGroup} {t : Tlv}
    (h : Node.tlv { nodeData := size.map (fun n => { subtreeSize := some n }), hashGroups := gs } = .ok t) :
    ∃ l, listTlv HashGroup.tlv gs = .ok l ∧ t.len = 4 + dataLenOf size + (bytesAll l).length := by
  obtain ⟨ms, hm, h⟩ := bind_eq_ok.mp h
  obtain ⟨a, ha, hm⟩ := bind_eq_ok.mp hm
  obtain ⟨b, hb, hm⟩ := bind_eq_ok.mp hm
  cases hm
  split at h
  · cases h
  · obtain ⟨v, hv, h⟩ := bind_eq_ok.mp h
    obtain ⟨_, rfl⟩ := concatTlvs_ok hv
    obtain ⟨rfl, _⟩ := mkTlv_ok h
    refine ⟨b, hb, ?_⟩
    simp only [Tlv.len, Tlv.length, bytesAll_append, List.length_append]
    cases size with
    | none => cases ha; simp [dataLenOf]
    | some n =>
      obtain ⟨td, htd, rfl⟩ := optTlv_some ha
      obtain ⟨ms, hq, htd⟩ := bind_eq_ok.mp htd
      obtain ⟨_, rfl, _⟩ := container_ok htd
      obtain ⟨x1, h1, hq⟩ := bind_eq_ok.mp hq
      obtain ⟨x2, h2, hq⟩ := bind_eq_ok.mp hq
      obtain ⟨x3, h3, hq⟩ := bind_eq_ok.mp hq
      obtain ⟨x4, h4, hq⟩ := bind_eq_ok.mp hq
      obtain ⟨x5, h5, hq⟩ := bind_eq_ok.mp hq
      cases hq
      cases h2
      cases h3
      cases h4
      cases h5
      have e1 := optInt_len (by decide) h1
      simp only [intLen] at e1
      simp only [dataLenOf, bytesAll_cons, bytesAll_nil, List.append_nil, Tlv.bytes_length, Tlv.len, Tlv.length, e1]
      omega

/-! ## Manifests and packets -/

/-- What the size of an encrypted manifest rests on: the tag has 16 bytes, all nonces have the same length. -/
structure Regular (E : Env) : Prop where
  tag : ∀ alg key iv pt aad c, E.prims.aeadSeal alg key iv pt aad = .ok c → c.length = pt.length + 16
  nonce : ∀ i j, (E.nonce i).length = (E.nonce j).length

theorem aeadMembers_len {k : Nat} {n n' : Bytes} {m : Option Nat} {kd : Option KdfData} {l l' : List Tlv} (hn : n.length = n'.length)
    (h : AeadData.members ⟨k, n, m, kd⟩ = .ok l) (h' : AeadData.members ⟨k, n', m, kd⟩ = .ok l') :
    (bytesAll l).length = (bytesAll l').length := by
  obtain ⟨a, ha, h⟩ := bind_eq_ok.mp h
  obtain ⟨b, hb, h⟩ := bind_eq_ok.mp h
  obtain ⟨c, hc, h⟩ := bind_eq_ok.mp h
  obtain ⟨d, hd, h⟩ := bind_eq_ok.mp h
  cases h
  obtain ⟨a', ha', h'⟩ := bind_eq_ok.mp h'
  obtain ⟨b', hb', h'⟩ := bind_eq_ok.mp h'
  obtain ⟨c', hc', h'⟩ := bind_eq_ok.mp h'
  obtain ⟨d', hd', h'⟩ := bind_eq_ok.mp h'
  cases h'
  simp only at ha ha' hb hb' hc hc' hd hd'
  rw [ha] at ha'; cases ha'
  rw [hc] at hc'; cases hc'
  rw [hd] at hd'; cases hd'
  obtain ⟨rfl, _⟩ := mkTlv_ok hb
  obtain ⟨rfl, _⟩ := mkTlv_ok hb'
  simp only [bytesAll_append, bytesAll_cons, bytesAll_nil, List.length_append, Tlv.bytes_length, Tlv.len, Tlv.length]
  omega

theorem securityCtx_len {c c' : SecurityCtx} {t t' : Tlv} (h : c.tlv = .ok t) (h' : c'.tlv = .ok t')
    (heq : (∃ k n n' m kd, c = .aead ⟨k, n, m, kd⟩ ∧ c' = .aead ⟨k, n', m, kd⟩ ∧ n.length = n'.length) ∨
      (∃ k n n' m kd w, c = .rsaOaep ⟨k, n, m, kd⟩ w ∧ c' = .rsaOaep ⟨k, n', m, kd⟩ w ∧ n.length = n'.length)) :
    t.len = t'.len := by
  rcases heq with ⟨k, n, n', m, kd, rfl, rfl, hn⟩ | ⟨k, n, n', m, kd, w, rfl, rfl, hn⟩
  · obtain ⟨l, hl, h⟩ := bind_eq_ok.mp h
    obtain ⟨i, hi, h⟩ := bind_eq_ok.mp h
    obtain ⟨_, rfl, _⟩ := container_ok hi
    obtain ⟨_, rfl, _⟩ := container_ok h
    obtain ⟨l', hl', h'⟩ := bind_eq_ok.mp h'
    obtain ⟨i', hi', h'⟩ := bind_eq_ok.mp h'
    obtain ⟨_, rfl, _⟩ := container_ok hi'
    obtain ⟨_, rfl, _⟩ := container_ok h'
    have := aeadMembers_len hn hl hl'
    simp only [bytesAll_cons, bytesAll_nil, List.append_nil, Tlv.bytes_length, Tlv.len, Tlv.length]
    omega
  · obtain ⟨l, hl, h⟩ := bind_eq_ok.mp h
    obtain ⟨x, hx, h⟩ := bind_eq_ok.mp h
    obtain ⟨i, hi, h⟩ := bind_eq_ok.mp h
    obtain ⟨_, rfl, _⟩ := container_ok hi
    obtain ⟨_, rfl, _⟩ := container_ok h
    obtain ⟨l', hl', h'⟩ := bind_eq_ok.mp h'
    obtain ⟨x', hx', h'⟩ := bind_eq_ok.mp h'
    obtain ⟨i', hi', h'⟩ := bind_eq_ok.mp h'
    obtain ⟨_, rfl, _⟩ := container_ok hi'
    obtain ⟨_, rfl, _⟩ := container_ok h'
    rw [hx] at hx'
    cases hx'
    have := aeadMembers_len hn hl hl'
    simp only [bytesAll_cons, bytesAll_nil, bytesAll_append, List.length_append, List.append_nil, Tlv.bytes_length, Tlv.len, Tlv.length]
    omega

theorem encryptWithCtx_len {P : Prims} {p : AeadParams} {node : Node} {ctx : SecurityCtx} {x : Sealed} {m : Manifest} {w : Bytes} {t : Tlv}
    (hr : ∀ alg key iv pt aad c, P.aeadSeal alg key iv pt aad = .ok c → c.length = pt.length + 16)
    (h : p.encryptWithCtx P node ctx = .ok x) (hm : x.manifest = .ok m) (hw : m.serialize = .ok w) (ht : node.tlv = .ok t) :
    x.ctx = ctx ∧ ∃ tc, ctx.tlv = .ok tc ∧ w.length = tc.len + t.len + 20 := by
  obtain ⟨rfl, _⟩ := Sealed.manifest_ok hm
  unfold AeadParams.encryptWithCtx at h
  split at h
  · cases h
  · obtain ⟨pt, hpt, h⟩ := bind_eq_ok.mp h
    obtain ⟨aad, haad, h⟩ := bind_eq_ok.mp h
    obtain ⟨⟨c, a⟩, hca, h⟩ := bind_eq_ok.mp h
    obtain ⟨c2, hc2, h⟩ := bind_eq_ok.mp h
    obtain ⟨a2, ha2, h⟩ := bind_eq_ok.mp h
    cases h
    obtain ⟨rfl, _⟩ := construct_inv hc2
    obtain ⟨rfl, _⟩ := construct_inv ha2
    obtain ⟨out, hout, hca⟩ := bind_eq_ok.mp hca
    cases hca
    have hlen := hr _ _ _ _ _ _ hout
    obtain ⟨t', ht', hpt⟩ := bind_eq_ok.mp hpt
    cases hpt
    rw [ht] at ht'
    cases ht'
    refine ⟨rfl, ?_⟩
    obtain ⟨ms, hms, hw⟩ := bind_eq_ok.mp hw
    obtain ⟨_, rfl⟩ := concatTlvs_ok hw
    obtain ⟨l1, h1, hms⟩ := bind_eq_ok.mp hms
    obtain ⟨t2, h2, hms⟩ := bind_eq_ok.mp hms
    obtain ⟨l3, h3, hms⟩ := bind_eq_ok.mp hms
    cases hms
    obtain ⟨tc, htc, rfl⟩ := optTlv_some h1
    obtain ⟨t3, ht3, rfl⟩ := optTlv_some h3
    obtain ⟨rfl, _⟩ := mkTlv_ok h2
    obtain ⟨rfl, _⟩ := mkTlv_ok ht3
    refine ⟨tc, htc, ?_⟩
    simp only [bytesAll_cons, bytesAll_nil, bytesAll_append, List.length_append, List.append_nil, Tlv.bytes_length, Tlv.len, Tlv.length,
      List.length_take, List.length_drop]
    omega

theorem aeadData_inv {p : AeadParams} {nonce : Bytes} {d : AeadData} (h : p.aeadData nonce = .ok d) :
    ∃ k mode, p.key = some k ∧ k.mode = .ok mode ∧ d = ⟨p.keyNumber, nonce, some mode, p.kdfData⟩ := by
  unfold AeadParams.aeadData at h
  cases hk : p.key with
  | none => rw [hk] at h; cases h
  | some k =>
    rw [hk] at h
    obtain ⟨mode, hm, h⟩ := bind_eq_ok.mp h
    obtain ⟨_, _, h⟩ := bind_eq_ok.mp h
    obtain ⟨_, _, h⟩ := bind_eq_ok.mp h
    cases h
    exact ⟨k, mode, rfl, hm, rfl⟩

/-- The manifests of two nodes differ in length as the nodes do. -/
theorem buildManifest_len {E : Env} (hR : Regular E) {o : TreeOptions} {node node' : Node} {full : Bool} {s s1 s' s1' : BState}
    {m m' : Manifest} {w w' : Bytes} {t t' : Tlv} (h : buildManifest E o node full s = (.ok m, s1))
    (h' : buildManifest E o node' full s' = (.ok m', s1')) (hw : m.serialize = .ok w) (hw' : m'.serialize = .ok w')
    (ht : node.tlv = .ok t) (ht' : node'.tlv = .ok t') : w.length + t'.len = w'.length + t.len := by
  unfold buildManifest at h h'
  cases ho : o.encryptor with
  | none =>
    simp only [ho] at h h'
    obtain ⟨_, _, h⟩ := PyS.liftBind_ok h
    obtain ⟨_, _, h'⟩ := PyS.liftBind_ok h'
    cases h
    cases h'
    have key : ∀ (nd : Node) (v : Bytes) (u : Tlv), Manifest.serialize { node := .plain nd } = .ok v → nd.tlv = .ok u → v.length = u.len := by
      intro nd v u hv hu
      obtain ⟨ms, hms, hv⟩ := bind_eq_ok.mp hv
      obtain ⟨_, rfl⟩ := concatTlvs_ok hv
      obtain ⟨l1, h1, hms⟩ := bind_eq_ok.mp hms
      obtain ⟨t2, h2, hms⟩ := bind_eq_ok.mp hms
      obtain ⟨l3, h3, hms⟩ := bind_eq_ok.mp hms
      cases hms
      cases h1
      cases h3
      have h2 : nd.tlv = .ok t2 := h2
      rw [hu] at h2
      cases h2
      simp [Tlv.bytes_length]
    rw [key _ _ _ hw ht, key _ _ _ hw' ht']
    omega
  | some enc =>
    cases enc with
    | aead params =>
      simp only [ho] at h h'
      obtain ⟨_, _, _, h⟩ := PyS.bind_ok h
      obtain ⟨_, _, _, h⟩ := PyS.bind_ok h
      obtain ⟨h, _⟩ := PyS.lift_ok h
      obtain ⟨x, hx, h⟩ := bind_eq_ok.mp h
      obtain ⟨d, hd, hx⟩ := aeadEncrypt_ok hx
      obtain ⟨_, _, _, h'⟩ := PyS.bind_ok h'
      obtain ⟨_, _, _, h'⟩ := PyS.bind_ok h'
      obtain ⟨h', _⟩ := PyS.lift_ok h'
      obtain ⟨x', hx', h'⟩ := bind_eq_ok.mp h'
      obtain ⟨d', hd', hx'⟩ := aeadEncrypt_ok hx'
      obtain ⟨_, tc, htc, e1⟩ := encryptWithCtx_len hR.tag hx h hw ht
      obtain ⟨_, tc', htc', e2⟩ := encryptWithCtx_len hR.tag hx' h' hw' ht'
      obtain ⟨k, mode, hk, hmode, rfl⟩ := aeadData_inv hd
      obtain ⟨k', mode', hk', hmode', rfl⟩ := aeadData_inv hd'
      rw [hk] at hk'
      cases hk'
      rw [hmode] at hmode'
      cases hmode'
      have := securityCtx_len htc htc' (.inl ⟨_, _, _, _, _, rfl, rfl, hR.nonce _ _⟩)
      omega
    | oaep params wrapper =>
      simp only [ho] at h h'
      obtain ⟨_, _, _, h⟩ := PyS.bind_ok h
      obtain ⟨_, _, _, h⟩ := PyS.bind_ok h
      obtain ⟨h, _⟩ := PyS.lift_ok h
      obtain ⟨x, hx, h⟩ := bind_eq_ok.mp h
      obtain ⟨d, hd, hx⟩ := oaepEncrypt_ok hx
      obtain ⟨_, _, _, h'⟩ := PyS.bind_ok h'
      obtain ⟨_, _, _, h'⟩ := PyS.bind_ok h'
      obtain ⟨h', _⟩ := PyS.lift_ok h'
      obtain ⟨x', hx', h'⟩ := bind_eq_ok.mp h'
      obtain ⟨d', hd', hx'⟩ := oaepEncrypt_ok hx'
      obtain ⟨_, tc, htc, e1⟩ := encryptWithCtx_len hR.tag hx h hw ht
      obtain ⟨_, tc', htc', e2⟩ := encryptWithCtx_len hR.tag hx' h' hw' ht'
      obtain ⟨k, mode, hk, hmode, rfl⟩ := aeadData_inv hd
      obtain ⟨k', mode', hk', hmode', rfl⟩ := aeadData_inv hd'
      rw [hk] at hk'
      cases hk'
      rw [hmode] at hmode'
      cases hmode'
      have := securityCtx_len htc htc' (.inr ⟨_, _, _, _, _, _, rfl, rfl, hR.nonce _ _⟩)
      omega

theorem expiry_len {x : Option F64} {l : List Tlv} (h : optTlv (timestampTlv T_EXPIRY) x = .ok l) :
    (bytesAll l).length = if x.isSome then 12 else 0 := by
  cases x with
  | none => cases h; rfl
  | some x =>
    obtain ⟨t, ht, rfl⟩ := optTlv_some h
    unfold timestampTlv at ht
    split at ht
    · cases ht
    · obtain ⟨v, hv, ht⟩ := bind_eq_ok.mp ht
      obtain ⟨rfl, _⟩ := mkTlv_ok ht
      have : v.length = 8 := by
        rw [uint64ToArray_nat] at hv
        cases hv
        exact beBytes_length ..
      simp [Tlv.bytes_length, Tlv.len, Tlv.length, this]

theorem manifestBody_len {name : Option Name} {w : Bytes} {x : Option F64} {t : Tlv} (h : (manifestBody name w x).tlv = .ok t) :
    ∃ n, optWire Name.tlv name = .ok n ∧ t.len = 13 + n.length + (if x.isSome then 12 else 0) + w.length := by
  unfold ContentObject.tlv at h
  obtain ⟨ms, hms, h⟩ := bind_eq_ok.mp h
  obtain ⟨a, ha, hms⟩ := bind_eq_ok.mp hms
  obtain ⟨b, hb, hms⟩ := bind_eq_ok.mp hms
  obtain ⟨d, hd, hms⟩ := bind_eq_ok.mp hms
  obtain ⟨e, he, hms⟩ := bind_eq_ok.mp hms
  obtain ⟨f, hf, hms⟩ := bind_eq_ok.mp hms
  cases hms
  obtain ⟨hv, rfl, _⟩ := container_ok h
  simp only [manifestBody] at ha hb hd he hf
  obtain ⟨td, htd, rfl⟩ := optTlv_some hd
  obtain ⟨te, hte, rfl⟩ := optTlv_some he
  rw [show payloadTypeTlv PT_MANIFEST = .ok ⟨T_PAYLDTYPE, [3]⟩ by decide] at htd
  cases htd
  cases hf
  obtain ⟨rfl, _⟩ := mkTlv_ok hte
  have hx := expiry_len hb
  have hn : ∃ n, optWire Name.tlv name = .ok n ∧ n.length = (bytesAll a).length := by
    cases name with
    | none => cases ha; exact ⟨[], rfl, rfl⟩
    | some nm =>
      obtain ⟨tn, htn, rfl⟩ := optTlv_some ha
      exact ⟨_, wireOf_of_tlv htn (hv tn (by simp)), by simp⟩
  obtain ⟨n, hn, hnl⟩ := hn
  refine ⟨n, hn, ?_⟩
  simp only [Tlv.len, Tlv.length, bytesAll_append, bytesAll_cons, bytesAll_nil, List.length_append, Tlv.bytes_length,
    List.length_cons, List.length_nil, hx, hnl]
  omega

/-- The length of an unsigned packet of the factory. -/
theorem buildFromNode_len {E : Env} {o : TreeOptions} {node : Node} {name : Option Name} {x : Option F64}
    {full : Bool} {s s' : BState} {p : Packet} (h : buildFromNode E o node name x none full s = (.ok p, s')) :
    ∃ m s1 w n, buildManifest E o node full s = (.ok m, s1) ∧ m.serialize = .ok w ∧ optWire Name.tlv name = .ok n ∧ p.body.name = name ∧
      p.len = .ok (21 + n.length + (if x.isSome then 12 else 0) + w.length) := by
  obtain ⟨m, s1, w, h1, h2, _, h4, h5, t, ht⟩ := buildFromNode_inv h
  obtain ⟨n, hn, hl⟩ := manifestBody_len ht
  refine ⟨m, s1, w, n, h1, h2, hn, by rw [h4]; rfl, ?_⟩
  have h5 : Packet.createContentObject (manifestBody name w x) = .ok p := h5
  rw [createContentObject_eq ht] at h5
  split at h5
  · rename_i hle
    cases h5
    rw [unsigned_len ht hle, hl]
    congr 1
    omega
  · cases h5

/-- The node behind a packet of the factory has a wire format. -/
theorem buildManifest_node {E : Env} {o : TreeOptions} {node : Node} {full : Bool} {s s1 : BState} {m : Manifest}
    (h : buildManifest E o node full s = (.ok m, s1)) : ∃ t, node.tlv = .ok t := by
  unfold buildManifest at h
  cases ho : o.encryptor with
  | none =>
    simp only [ho] at h
    obtain ⟨v, hv, h⟩ := PyS.liftBind_ok h
    obtain ⟨ms, hms, hv⟩ := bind_eq_ok.mp hv
    obtain ⟨l1, h1, hms⟩ := bind_eq_ok.mp hms
    obtain ⟨t2, h2, hms⟩ := bind_eq_ok.mp hms
    exact ⟨t2, h2⟩
  | some enc =>
    have key : ∀ {p : AeadParams} {ctx : SecurityCtx} {x : Sealed}, p.encryptWithCtx E.prims node ctx = .ok x → ∃ t, node.tlv = .ok t := by
      intro p ctx x h
      unfold AeadParams.encryptWithCtx at h
      split at h
      · cases h
      · obtain ⟨pt, hpt, h⟩ := bind_eq_ok.mp h
        obtain ⟨t, ht, _⟩ := bind_eq_ok.mp hpt
        exact ⟨t, ht⟩
    cases enc with
    | aead params =>
      simp only [ho] at h
      obtain ⟨_, _, _, h⟩ := PyS.bind_ok h
      obtain ⟨_, _, _, h⟩ := PyS.bind_ok h
      obtain ⟨h, _⟩ := PyS.lift_ok h
      obtain ⟨x, hx, h⟩ := bind_eq_ok.mp h
      obtain ⟨d, hd, hx⟩ := aeadEncrypt_ok hx
      exact key hx
    | oaep params wrapper =>
      simp only [ho] at h
      obtain ⟨_, _, _, h⟩ := PyS.bind_ok h
      obtain ⟨_, _, _, h⟩ := PyS.bind_ok h
      obtain ⟨h, _⟩ := PyS.lift_ok h
      obtain ⟨x, hx, h⟩ := bind_eq_ok.mp h
      obtain ⟨d, hd, hx⟩ := oaepEncrypt_ok hx
      exact key hx

/-! ## The sizing packet -/

theorem prependMany_inv {hv : HashValue} {n : Nat} {b b' : BuilderPair} (h : prependMany b hv n = .ok b') :
    b' = { b with direct := { b.direct with
      pointers := List.replicate n hv ++ b.direct.pointers
      directCount := b.direct.directCount + n } } := by
  induction n generalizing b with
  | zero => cases h; simp
  | succ n ih =>
    obtain ⟨c, hc, h⟩ := bind_eq_ok.mp h
    obtain ⟨d, hd, hc⟩ := bind_eq_ok.mp hc
    cases hc
    obtain ⟨_, _, hd⟩ := bind_eq_ok.mp hd
    cases hd
    rw [ih h]
    simp only [Option.getD_none, Nat.add_zero, BuilderPair.mk.injEq, HashGroupBuilder.mk.injEq, true_and, and_true]
    refine ⟨?_, by omega⟩
    rw [List.replicate_succ', List.append_assoc]
    rfl

/-- Bytes of the sizing packet's groups. -/
def sizingLen (ctx : NameCtx) (n : Nat) : Nat :=
  if ctx.shared then groupLen (some 0) (some 0) (some ctx.manifest.ncId) none n
  else groupLen (some 0) (some 0) (some ctx.data.ncId) (if ctx.data.usesNameId then some MAX_CHUNK_ID else none) (n - 1) +
    groupLen (some 0) (some 0) (some ctx.manifest.ncId) (if ctx.manifest.usesNameId then some MAX_CHUNK_ID else none) 1

theorem sizingPacket_node {E : Env} {o : TreeOptions} {ctx : NameCtx} {total n : Nat} {s s' : BState} {p : Packet} (hn : 1 ≤ n)
    (h : sizingPacket E o ctx total n s = (.ok p, s')) :
    ∃ node t, node.tlv = .ok t ∧ buildFromNode E o node none none none false s = (.ok p, s') ∧
      t.len = 4 + dataLenOf (if o.addNodeSubtreeSize then some total else none) + sizingLen ctx n := by
  unfold sizingPacket at h
  obtain ⟨gs, hgs, h⟩ := PyS.liftBind_ok h
  obtain ⟨node, hnode, h⟩ := PyS.liftBind_ok h
  obtain ⟨hne, t, ht⟩ := nodeFromGroups_inv hnode
  refine ⟨node, t, ht, h, ?_⟩
  have hnd : node = { nodeData := (if o.addNodeSubtreeSize then some total else none).map (fun n => { subtreeSize := some n }), hashGroups := gs } := by
    rw [hne]
    cases o.addNodeSubtreeSize <;> rfl
  rw [hnd] at ht
  obtain ⟨l, hl, hlen⟩ := node_len ht
  rw [hlen]
  congr 1
  obtain ⟨b, hb, hgs⟩ := bind_eq_ok.mp hgs
  have hb := prependMany_inv hb
  obtain ⟨b2, hb2, hgs⟩ := bind_eq_ok.mp hgs
  obtain ⟨x, hx, hb2⟩ := bind_eq_ok.mp hb2
  cases hb2
  obtain ⟨_, _, hx⟩ := bind_eq_ok.mp hx
  cases hx
  unfold BuilderPair.hashGroups at hgs
  unfold sizingLen
  have h32 : ∀ k, ∀ q ∈ List.replicate k (HashValue.sha256 (List.replicate 32 0)), q.value.length = 32 := by
    intro k q hq
    rw [(List.mem_replicate.mp hq).2]
    rfl
  cases hsh : ctx.shared with
  | true =>
    simp only [hsh, if_true] at hgs ⊢
    obtain ⟨_, _, hgs⟩ := bind_eq_ok.mp hgs
    obtain ⟨_, _, hgs⟩ := bind_eq_ok.mp hgs
    obtain ⟨g, hg, hgs⟩ := bind_eq_ok.mp hgs
    cases hgs
    obtain ⟨t1, r, ht1, hr, rfl⟩ := listTlv_cons_ok hl
    cases hr
    rw [hashGroup_eq] at hg
    obtain ⟨rfl, _⟩ := construct_inv hg
    have := hashGroup_len ?_ ht1
    · rw [bytesAll_cons, bytesAll_nil, List.append_nil, Tlv.bytes_length, this, hb]
      simp only [BuilderPair.new, hsh, BuilderPair.setIndirect, BuilderPair.indirectBuilder, if_true, List.length_cons, List.length_append,
        List.length_replicate, List.length_nil, Option.getD_none]
      rw [show n - 1 + 0 + 1 = n by omega]
    · rw [hb]
      simp only [BuilderPair.new, hsh, BuilderPair.setIndirect, BuilderPair.indirectBuilder, if_true, List.append_nil]
      intro q hq
      rcases List.mem_cons.mp hq with rfl | hq
      · rfl
      · exact h32 _ q hq
  | false =>
    simp only [hsh, Bool.false_eq_true, if_false] at hgs ⊢
    obtain ⟨g, hg, hgs⟩ := bind_eq_ok.mp hgs
    obtain ⟨g2, hg2, hgs⟩ := bind_eq_ok.mp hgs
    cases hgs
    obtain ⟨t1, r, ht1, hr, rfl⟩ := listTlv_cons_ok hl
    obtain ⟨t2, r2, ht2, hr2, rfl⟩ := listTlv_cons_ok hr
    cases hr2
    rw [hashGroup_eq] at hg hg2
    obtain ⟨rfl, _⟩ := construct_inv hg
    obtain ⟨rfl, _⟩ := construct_inv hg2
    have e1 := hashGroup_len ?_ ht1
    have e2 := hashGroup_len ?_ ht2
    · rw [bytesAll_cons, bytesAll_cons, bytesAll_nil, List.append_nil, List.length_append, Tlv.bytes_length, Tlv.bytes_length, e1, e2, hb]
      simp only [BuilderPair.new, hsh, BuilderPair.setIndirect, BuilderPair.indirectBuilder, Bool.false_eq_true, if_false, List.length_cons,
        List.length_append, List.length_replicate, List.length_nil, Option.getD_none]
      rfl
    · rw [hb]
      simp only [BuilderPair.new, hsh, BuilderPair.setIndirect, BuilderPair.indirectBuilder, Bool.false_eq_true, if_false, List.append_nil]
      intro q hq
      cases List.mem_singleton.mp hq
      rfl
    · rw [hb]
      simp only [BuilderPair.new, hsh, BuilderPair.setIndirect, BuilderPair.indirectBuilder, Bool.false_eq_true, if_false, List.append_nil]
      exact h32 _

/-! ## Contexts -/

theorem schemaCreate_inv {n : Nat} {sc : NcSchema} {i : SchemaImpl} (h : SchemaImpl.create n sc = .ok i) : i = ⟨n, sc⟩ := by
  unfold SchemaImpl.create at h
  obtain ⟨_, _, h⟩ := bind_eq_ok.mp h
  obtain ⟨_, _, h⟩ := bind_eq_ok.mp h
  obtain ⟨_, _, h⟩ := bind_eq_ok.mp h
  obtain ⟨_, _, h⟩ := bind_eq_ok.mp h
  cases h
  rfl

theorem createNamed_inv {ty : SchemaType} {nc : Nat} {m d : Option Name} {shared : Bool} {ctx : NameCtx}
    (h : NameCtx.createNamed ty nc m d shared = .ok ctx) :
    ctx.shared = shared ∧ (shared = true → ctx.data = ctx.manifest) ∧ ctx.data.usesNameId = decide (ty = .segmented) ∧
      ctx.manifest.usesNameId = decide (ty = .segmented) := by
  unfold NameCtx.createNamed at h
  split at h
  · obtain ⟨i, hi, h⟩ := bind_eq_ok.mp h
    cases h
    rw [schemaCreate_inv hi]
    cases ty <;> simp_all [SchemaImpl.usesNameId, schemaFor]
  · obtain ⟨i, hi, h⟩ := bind_eq_ok.mp h
    obtain ⟨j, hj, h⟩ := bind_eq_ok.mp h
    cases h
    rw [schemaCreate_inv hi, schemaCreate_inv hj]
    cases ty <;> simp_all [SchemaImpl.usesNameId, schemaFor]

/-- The kinds of name contexts. -/
theorem nameCtx_inv {ty : SchemaType} {nc : Nat} {name mp dp : Option Name} {ml dl : Option (List Link)} {ctx : NameCtx}
    (h : NameCtx.create ty nc name mp dp ml dl = .ok ctx) :
    (ctx.shared = true → ctx.data = ctx.manifest ∧ ctx.manifest.usesNameId = false) ∧
    ctx.data.usesNameId = ctx.manifest.usesNameId ∧ (ctx.manifest.usesNameId = true ↔ ty = .segmented) := by
  unfold NameCtx.create at h
  cases ty with
  | hashed =>
    simp only at h
    unfold NameCtx.createHashed at h
    obtain ⟨root, _, h⟩ := bind_eq_ok.mp h
    simp only at h
    split at h
    · obtain ⟨i, hi, h⟩ := bind_eq_ok.mp h
      cases h
      rw [schemaCreate_inv hi]
      simp [SchemaImpl.usesNameId]
    · obtain ⟨i, hi, h⟩ := bind_eq_ok.mp h
      obtain ⟨j, hj, h⟩ := bind_eq_ok.mp h
      cases h
      rw [schemaCreate_inv hi, schemaCreate_inv hj]
      simp [SchemaImpl.usesNameId]
  | prefixed =>
    simp only at h
    generalize (if mp.isNone = true then name else mp) = m at h
    generalize (if dp.isNone = true then name else dp) = d at h
    split at h
    · cases h
    obtain ⟨h1, h2, h3, h4⟩ := createNamed_inv h
    refine ⟨fun hs => ⟨h2 (h1 ▸ hs), ?_⟩, ?_, ?_⟩
    · rw [h4]; simp
    · rw [h3, h4]
    · rw [h4]; simp
  | segmented =>
    simp only at h
    split at h
    · cases h
    · generalize (if mp.isNone = true then name else mp) = m at h
      generalize (if dp.isNone = true then name else dp) = d at h
      split at h
      · cases h
      · obtain ⟨h1, h2, h3, h4⟩ := createNamed_inv h
        refine ⟨fun hs => ?_, ?_, ?_⟩
        · rw [h1] at hs; cases hs
        · rw [h3, h4]
        · rw [h4]; simp

theorem nameCtx_hashed {nc : Nat} {name mp dp : Option Name} {ml dl : Option (List Link)} {ctx : NameCtx}
    (h : NameCtx.create .hashed nc name mp dp ml dl = .ok ctx) :
    (∃ l, ctx.manifest.schema = .hash l none) ∧ ∃ l, ctx.data.schema = .hash l none := by
  unfold NameCtx.create at h
  simp only at h
  unfold NameCtx.createHashed at h
  obtain ⟨root, _, h⟩ := bind_eq_ok.mp h
  simp only at h
  split at h
  · obtain ⟨i, hi, h⟩ := bind_eq_ok.mp h
    cases h
    rw [schemaCreate_inv hi]
    exact ⟨⟨_, rfl⟩, _, rfl⟩
  · obtain ⟨i, hi, h⟩ := bind_eq_ok.mp h
    obtain ⟨j, hj, h⟩ := bind_eq_ok.mp h
    cases h
    rw [schemaCreate_inv hi, schemaCreate_inv hj]
    exact ⟨⟨_, rfl⟩, _, rfl⟩

/-! ## The nodes of a tree -/

theorem packetHash_len {sha : Bytes → Bytes} (hs : ∀ b, (sha b).length = 32) {p : Packet} {h : HashValue} (hp : p.hash sha = .ok h) :
    h.value.length = 32 := by
  obtain ⟨b, _, hp⟩ := bind_eq_ok.mp hp
  cases hp
  exact hs b

/-- Bytes of the annotations of one group. -/
def annotLen (o : TreeOptions) (total : Nat) : Nat :=
  (if o.addGroupLeafSize then 4 + numWidth total else 0) + (if o.addGroupSubtreeSize then 4 + numWidth total else 0)

theorem intLen_if {b : Bool} {x total : Nat} (h : x ≤ total) :
    intLen (if b then some x else none) ≤ if b then 4 + numWidth total else 0 := by
  have := numWidth_mono h
  cases b
  · simp [intLen]
  · simp only [if_true, intLen]
    omega

theorem dataLenOf_if {b : Bool} {x total : Nat} (h : x ≤ total) :
    dataLenOf (if b then some x else none) ≤ dataLenOf (if b then some total else none) := by
  have := numWidth_mono h
  cases b
  · simp [dataLenOf]
  · simp only [if_true, dataLenOf]
    omega

theorem group_len {T : TreeEnv} {nc : Nat} {st : Option Nat} {direct indirect total : Nat} {ps : List HashValue} {t : Tlv}
    (hp : ∀ h ∈ ps, h.value.length = 32) (hb : indirect + direct ≤ total) (h : (T.group nc st direct indirect ps).tlv = .ok t) :
    t.len ≤ 12 + annotLen T.opts total + (4 + numWidth nc) + intLen st + 36 * ps.length := by
  have := hashGroup_len hp h
  have a := intLen_if (b := T.opts.addGroupSubtreeSize) hb
  have b := intLen_if (b := T.opts.addGroupLeafSize) (show direct ≤ total by omega)
  rw [this]
  unfold groupLen annotLen
  simp only [intLen] at a b ⊢
  omega

theorem sliceBytes_add (T : TreeEnv) {a b c : Nat} (h1 : a ≤ b) (h2 : b ≤ c) : T.sliceBytes a b + T.sliceBytes b c = T.sliceBytes a c := by
  have := slice_append T h1 h2
  unfold TreeEnv.sliceBytes
  rw [← this]
  simp

theorem sliceBytes_le (T : TreeEnv) (a b : Nat) : T.sliceBytes a b ≤ (T.chunks.map (·.payloadBytes)).sum := by
  unfold TreeEnv.sliceBytes TreeEnv.slice
  have h1 := congrArg (fun l => (l.map (·.payloadBytes)).sum) (List.take_append_drop a T.chunks)
  have h2 := congrArg (fun l => (l.map (·.payloadBytes)).sum) (List.take_append_drop (b - a) (T.chunks.drop a))
  simp only [List.map_append, List.sum_append] at h1 h2
  omega

/-- How much longer than the sizing node a node of the tree can be. -/
theorem node_excess {T : TreeEnv} {i : Info} {kids : Forest} {level total n : Nat} {t : Tlv}
    (hctx : (T.ctx.shared = true → T.ctx.data = T.ctx.manifest ∧ T.ctx.manifest.usesNameId = false) ∧
      T.ctx.data.usesNameId = T.ctx.manifest.usesNameId)
    (hsha : ∀ b, (T.env.prims.sha256 b).length = 32) (hch : ∀ c ∈ T.chunks, c.hash.value.length = 32 ∧ c.chunkNumber ≤ MAX_CHUNK_ID)
    (htot : (T.chunks.map (·.payloadBytes)).sum ≤ total) (hn : T.direct + T.indirect ≤ n) (hn1 : 1 ≤ n)
    (hs : i.Shape T kids) (hv : kids.Valid T (i.lo + i.count) i.hi level) (hhi : i.hi ≤ T.chunks.length) (ht : i.node.tlv = .ok t) :
    t.len + 10 * i.node.hashGroups.length ≤ 4 + dataLenOf (if T.opts.addNodeSubtreeSize then some total else none) + sizingLen T.ctx n +
      i.node.hashGroups.length * annotLen T.opts total + (if T.ctx.manifest.usesNameId then 5 else 0) := by
  have hle := hv.le
  have hnum : ∀ lo, intLen (T.numberAt lo) ≤ intLen (some MAX_CHUNK_ID) := by
    intro lo
    unfold TreeEnv.numberAt
    cases hc : T.chunks[lo]? with
    | none => simp [intLen]
    | some c =>
      have := numWidth_mono (hch c (List.mem_of_getElem? hc)).2
      simp only [Option.map_some, intLen]
      omega
  have hw0 : numWidth 0 = 1 := rfl
  have hwm : numWidth MAX_CHUNK_ID = 3 := rfl
  have hslice : ∀ a b, ∀ h ∈ T.sliceHashes a b, h.value.length = 32 := by
    intro a b h hh
    obtain ⟨c, hc, rfl⟩ := List.mem_map.mp hh
    exact (hch c (List.mem_of_mem_drop (List.mem_of_mem_take hc))).1
  have hlen : (T.sliceHashes i.lo (i.lo + i.count)).length = i.count := by
    unfold TreeEnv.sliceHashes
    rw [List.length_map, slice_length T (by omega)]
    omega
  have hds := sliceBytes_le T i.lo (i.lo + i.count)
  have hsd : ∀ x, (T.sizeData x) = (if T.opts.addNodeSubtreeSize then some x else none).map (fun n => { subtreeSize := some n }) := by
    intro x
    unfold TreeEnv.sizeData
    cases T.opts.addNodeSubtreeSize <;> rfl
  obtain ⟨_, ⟨rfl, hc, hnode⟩ | ⟨hne, _, hc, hk, hnode⟩⟩ := hs
  · have hgl : i.node.hashGroups.length = 1 := by rw [hnode]; rfl
    rw [hgl]
    rw [hnode] at ht
    unfold TreeEnv.leafNode at ht
    rw [hsd] at ht
    obtain ⟨l, hl, e⟩ := node_len ht
    obtain ⟨t1, r, ht1, hr, rfl⟩ := listTlv_cons_ok hl
    cases hr
    have g1 := group_len (hslice _ _) (show 0 + T.sliceBytes i.lo (i.lo + i.count) ≤ total by omega) ht1
    have d1 := dataLenOf_if (b := T.opts.addNodeSubtreeSize) (show T.sliceBytes i.lo (i.lo + i.count) ≤ total by omega)
    simp only [bytesAll_cons, bytesAll_nil, List.append_nil, Tlv.bytes_length] at e
    rw [hlen] at g1
    unfold TreeEnv.pointers at hc
    unfold sizingLen groupLen
    cases hsh : T.ctx.shared with
    | true =>
      obtain ⟨q1, q2⟩ := hctx.1 hsh
      rw [q2] at g1 ⊢
      rw [q1] at g1
      simp only [Bool.false_eq_true, if_false, if_true, intLen] at g1 ⊢
      omega
    | false =>
      have := hnum i.lo
      rw [hctx.2]
      cases hu : T.ctx.manifest.usesNameId <;> simp only [hu, Bool.false_eq_true, if_false, if_true, intLen] at g1 this ⊢ <;> omega
  · have hkh : ∀ h ∈ kids.roots.map (·.hash), h.value.length = 32 := by
      intro h hh
      obtain ⟨k, hk', rfl⟩ := List.mem_map.mp hh
      exact packetHash_len hsha (hv.made k (Forest.roots_mem hk')).1
    have hks : T.known (T.sliceBytes (i.lo + i.count) i.hi) + T.sliceBytes i.lo (i.lo + i.count) ≤ total := by
      have h1 := sliceBytes_add T (show i.lo ≤ i.lo + i.count by omega) hle
      have h2 := sliceBytes_le T i.lo i.hi
      unfold TreeEnv.known
      split <;> omega
    rw [hnode] at ht ⊢
    unfold TreeEnv.interiorNode at ht ⊢
    simp only at ht ⊢
    rw [hsd] at ht
    obtain ⟨l, hl, e⟩ := node_len ht
    have d1 := dataLenOf_if (b := T.opts.addNodeSubtreeSize)
      (show T.sliceBytes i.lo (i.lo + i.count) + T.known (T.sliceBytes (i.lo + i.count) i.hi) ≤ total by omega)
    unfold sizingLen groupLen
    unfold TreeEnv.interiorGroups at hl ⊢
    cases hsh : T.ctx.shared with
    | true =>
      obtain ⟨q1, q2⟩ := hctx.1 hsh
      simp only [hsh, if_true] at hl ⊢
      obtain ⟨t1, r, ht1, hr, rfl⟩ := listTlv_cons_ok hl
      cases hr
      have g1 := group_len (by
        intro h hh
        rcases List.mem_append.mp hh with hh | hh
        · exact hslice _ _ h hh
        · exact hkh h hh) hks ht1
      simp only [bytesAll_cons, bytesAll_nil, List.append_nil, Tlv.bytes_length] at e
      rw [List.length_append, hlen, List.length_map] at g1
      rw [q2]
      simp only [Bool.false_eq_true, if_false, intLen, List.length_cons, List.length_nil] at g1 ⊢
      omega
    | false =>
      simp only [hsh, Bool.false_eq_true, if_false] at hl ⊢
      obtain ⟨t1, r, ht1, hr, rfl⟩ := listTlv_cons_ok hl
      obtain ⟨t2, r2, ht2, hr2, rfl⟩ := listTlv_cons_ok hr
      cases hr2
      have g1 := group_len (hslice _ _) (show 0 + T.sliceBytes i.lo (i.lo + i.count) ≤ total by omega) ht1
      have g2 := group_len hkh (show T.known (T.sliceBytes (i.lo + i.count) i.hi) + 0 ≤ total by omega) ht2
      simp only [bytesAll_cons, bytesAll_nil, List.append_nil, List.length_append, Tlv.bytes_length] at e
      rw [hlen] at g1
      rw [List.length_map] at g2
      have hkst : intLen (kids.roots.head?.map (·.id)) ≤ 12 := by
        cases kids.roots.head? with
        | none => simp [intLen]
        | some k =>
          have := numWidth_le k.id
          simp only [Option.map_some, intLen]
          omega
      have := hnum i.lo
      rw [hctx.2] at g1 ⊢
      cases hu : T.ctx.manifest.usesNameId <;>
        simp only [hu, Bool.false_eq_true, if_false, if_true, intLen, List.length_cons, List.length_nil] at g1 g2 this hkst ⊢ <;> omega

end Ccnpy
