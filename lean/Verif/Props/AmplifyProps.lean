import Verif.Lemmas.Nameless
import Verif.Props.EndToEndProps

/-!
# C91: a few small packets make a traversal write as much as one likes
-/

namespace Ccnpy

/-- The locator `/a`. -/
def Spec.somewhere : List Link := [{ name := some ⟨[.nameSegment [97]]⟩ }]

/-- A node that points `m` times to the same nameless object. -/
def Spec.funnelNode (h : HashValue) (m : Nat) : Node where
  nodeData := some { ncDefs := [⟨some 1, some (.hash (some Spec.somewhere) none)⟩] }
  hashGroups := [⟨some { ncId := some 1 }, some (List.replicate m h)⟩]

/-- Its manifest. -/
def Spec.funnel (h : HashValue) (m : Nat) : Manifest := { node := .plain (Spec.funnelNode h m) }

/-- `1 + m + m² + … + mᵏ` -/
def Spec.powers (m : Nat) : Nat → Nat
  | 0 => 1
  | k + 1 => 1 + m * Spec.powers m k

/-! ## The packets -/

theorem pointers_replicate {h : HashValue} (ha : h.alg ≤ 0xFFFF) (hl : h.value.length ≤ 0xFFFF) (m : Nat) :
    listTlv HashValue.tlv (List.replicate m h) = .ok (List.replicate m ⟨h.alg, h.value⟩) := by
  induction m with
  | zero => rfl
  | succ m ih =>
    rw [List.replicate_succ, listTlv, ih, show HashValue.tlv h = .ok ⟨h.alg, h.value⟩ from mkTlv_of_valid (t := ⟨h.alg, h.value⟩) ⟨ha, hl⟩]
    rfl

theorem bytesAll_replicate (t : Tlv) (m : Nat) : (bytesAll (List.replicate m t)).length = m * (4 + t.value.length) := by
  induction m with
  | zero => simp
  | succ m ih =>
    rw [List.replicate_succ, bytesAll_cons, List.length_append, ih, Tlv.bytes_length, Nat.succ_mul]
    simp only [Tlv.len, Tlv.length]
    omega

theorem container_length {ty : Nat} {l : List Tlv} (hty : ty ≤ 0xFFFF) (hl : ∀ x ∈ l, x.Valid) (hn : (bytesAll l).length ≤ 0xFFFF) :
    ∃ t, container ty l = .ok t ∧ t.Valid ∧ t.bytes.length = (bytesAll l).length + 4 := by
  refine ⟨⟨ty, bytesAll l⟩, container_of_valid hl ⟨hty, hn⟩, ⟨hty, hn⟩, ?_⟩
  rw [Tlv.bytes_length]
  simp only [Tlv.len, Tlv.length]
  omega

theorem funnel_wire {h : HashValue} {m : Nat} (ha : h.alg ≤ 0xFFFF) (hl : h.value.length = 32) (hm : 36 * m + 51 ≤ 0xFFFF) :
    ∃ w, (Spec.funnel h m).serialize = .ok w ∧ w.length = 36 * m + 55 := by
  obtain ⟨td, hd, vd, ld⟩ : ∃ td, NodeData.tlv { ncDefs := [⟨some 1, some (.hash (some Spec.somewhere) none)⟩] } = .ok td ∧ td.Valid ∧
      td.bytes.length = 34 := by
    have h1 : (match NodeData.tlv { ncDefs := [⟨some 1, some (.hash (some Spec.somewhere) none)⟩] } with
        | .ok t => decide (t.Valid ∧ t.bytes.length = 34)
        | .error _ => false) = true := by decide +kernel
    split at h1
    · next t ht => exact ⟨t, ht, of_decide_eq_true h1⟩
    · cases h1
  have hg : GroupData.tlv { ncId := some 1 } = .ok ⟨T_GROUP_DATA, (⟨T_NCID, [1]⟩ : Tlv).bytes⟩ := by decide +kernel
  have hv : ∀ t ∈ List.replicate m (⟨h.alg, h.value⟩ : Tlv), t.Valid := by
    intro t ht
    rw [(List.mem_replicate.mp ht).2]
    exact ⟨ha, by show h.value.length ≤ _; omega⟩
  obtain ⟨tp, hp, vp, lp⟩ := container_length (ty := T_PTRS) (by decide) hv (by rw [bytesAll_replicate, hl]; omega)
  have hgt : ∃ tg, HashGroup.tlv ⟨some { ncId := some 1 }, some (List.replicate m h)⟩ = .ok tg ∧ tg.Valid ∧
      tg.bytes.length = 36 * m + 17 := by
    have hb : (bytesAll [⟨T_GROUP_DATA, (⟨T_NCID, [1]⟩ : Tlv).bytes⟩, tp]).length = 36 * m + 13 := by
      rw [bytesAll_cons, bytesAll_cons, bytesAll_nil, List.append_nil, List.length_append, lp, bytesAll_replicate, hl,
        show (⟨T_GROUP_DATA, (⟨T_NCID, [1]⟩ : Tlv).bytes⟩ : Tlv).bytes.length = 9 by decide +kernel]
      omega
    obtain ⟨tg, e1, e2, e3⟩ := container_length (ty := T_HASH_GROUP) (l := [⟨T_GROUP_DATA, (⟨T_NCID, [1]⟩ : Tlv).bytes⟩, tp]) (by decide)
      (by
        intro t ht
        rcases List.mem_cons.mp ht with rfl | ht
        · decide +kernel
        · rw [List.mem_singleton.mp ht]; exact vp) (by omega)
    refine ⟨tg, ?_, e2, by omega⟩
    unfold HashGroup.tlv HashGroup.members
    simp only [optTlv, hg, pointersTlv, pointers_replicate ha (by omega : h.value.length ≤ 0xFFFF), hp, ok_bind, pure_eq_ok]
    exact e1
  obtain ⟨tg, hgt, vg, lg⟩ := hgt
  have hvn : ∀ t ∈ [td, tg],
      t.Valid := by
    intro t ht
    rcases List.mem_cons.mp ht with rfl | ht
    · exact vd
    · rw [List.mem_singleton.mp ht]; exact vg
  have hbn : (bytesAll [td, tg]).length =
      36 * m + 51 := by
    rw [bytesAll_cons, bytesAll_cons, bytesAll_nil, List.append_nil, List.length_append, lg, ld]
    omega
  obtain ⟨tn, hn, vn, ln⟩ := container_length (ty := T_NODE) (by decide) hvn (by omega)
  have hnode : (Spec.funnelNode h m).tlv = .ok tn := by
    unfold Node.tlv Node.members Spec.funnelNode
    simp only [optTlv, hd, listTlv, hgt, ok_bind, pure_eq_ok, List.length_cons, List.length_nil]
    exact hn
  refine ⟨bytesAll [tn], ?_, ?_⟩
  · unfold Manifest.serialize Manifest.members Spec.funnel
    simp only [optTlv, ManifestNode.tlv, hnode, ok_bind, pure_eq_ok, List.nil_append, List.append_nil]
    exact concatTlvs_of_valid (by simpa using vn)
  · rw [bytesAll_cons, bytesAll_nil, List.append_nil, ln]
    omega

theorem funnel_fits (h : HashValue) (m : Nat) : (Spec.funnel h m).Fits := by
  refine ⟨fun _ h => (by cases h), ?_, fun g hg => ?_⟩
  · intro d hd
    cases hd
    refine ⟨(by intro n hn; cases hn), fun n hn => ?_⟩
    rw [List.mem_singleton.mp hn]
    rintro n ⟨⟩
    decide
  · rw [List.mem_singleton.mp hg]
    rintro d ⟨⟩
    refine ⟨?_, ?_, ?_, ?_⟩ <;> (intro n hn; cases hn <;> decide)

theorem funnel_walkable (h : HashValue) (m : Nat) : Spec.Walkable (Spec.funnelNode h m) := by
  refine ⟨fun g hg => ?_, fun d hd => ?_⟩
  · rw [List.mem_singleton.mp hg]
    exact ⟨_, rfl, fun _ => ⟨_, _, rfl, rfl⟩⟩
  · rw [List.mem_singleton.mp (show d ∈ [(⟨some 1, some (.hash (some Spec.somewhere) none)⟩ : NcDef)] from hd)]
    refine ⟨⟨_, rfl⟩, fun k hk => by rw [List.mem_singleton.1 hk]; exact short_of_lt (by decide), ?_⟩
    rintro s ⟨⟩ n hn
    obtain ⟨l, hl, hn⟩ : ∃ l ∈ Spec.somewhere, l.name = some n := by simpa [Spec.schemaLocators, Spec.linkNames] using hn
    rw [List.mem_singleton.mp hl] at hn
    cases hn
    intro c hc
    rw [List.mem_singleton.mp hc]
    exact ⟨fun _ => ⟨rfl, ['a'], by decide +kernel⟩, fun h => absurd h (by decide)⟩

theorem funnel_asks (scope : List NcDef) (h : HashValue) (m : Nat) :
    List.Forall₂ (Spec.Asks (scope ++ (Spec.funnelNode h m).defs))
      ((Spec.funnelNode h m).hashGroups.flatMap HashGroup.values) (List.replicate m (none, some h)) := by
  have hv : (Spec.funnelNode h m).hashGroups.flatMap HashGroup.values = List.replicate m ⟨1, h, none⟩ := by
    show groupValues 1 none 0 (List.replicate m h) ++ [] = _
    rw [List.append_nil]
    generalize 0 = i
    induction m generalizing i with
    | zero => rfl
    | succ m ih => rw [List.replicate_succ, groupValues, ih, List.replicate_succ]; rfl
  have ha : Spec.Asks (scope ++ (Spec.funnelNode h m).defs) ⟨1, h, none⟩ (none, some h) := by
    refine ⟨rfl, ⟨some 1, some (.hash (some Spec.somewhere) none)⟩, ⟨1, .hash (some Spec.somewhere) none⟩, ?_, rfl, rfl⟩
    show Spec.lookup (scope ++ [⟨some 1, some (.hash (some Spec.somewhere) none)⟩]) 1 = _
    simp [Spec.lookup]
  rw [hv]
  clear hv
  generalize scope ++ (Spec.funnelNode h m).defs = sc at ha ⊢
  induction m with
  | zero => exact .nil
  | succ m ih => exact .cons ha ih

/-! ## The traversal -/

/-- The same objects `m` times over. -/
def Spec.Visited.times (v : Spec.Visited) : Nat → Spec.Visited
  | 0 => .nil
  | m + 1 => v.append (v.times m)

theorem leads_times {T : TravEnv} {op : Packet → Node → Prop} {scope : List NcDef} {r : Spec.Request} {v : Spec.Visited}
    (h : Spec.Leads T op scope [r] v) (m : Nat) : Spec.Leads T op scope (List.replicate m r) (v.times m) := by
  induction m with
  | zero => exact .nil
  | succ m ih => exact h.append ih

theorem depth_append (v w : Spec.Visited) : (v.append w).depth = max v.depth w.depth := by
  induction v with
  | nil => simp [Spec.Visited.append, Spec.Visited.depth]
  | data p b rest ih => simp only [Spec.Visited.append, Spec.Visited.depth, ih]; omega
  | manifest p n kids rest _ ih => simp only [Spec.Visited.append, Spec.Visited.depth, ih]; omega

theorem times_sums (v : Spec.Visited) (m : Nat) : (v.times m).count = m * v.count ∧ (v.times m).depth ≤ v.depth ∧
    ∀ n b, v.payloads = List.replicate n b → (v.times m).payloads = List.replicate (m * n) b := by
  induction m with
  | zero => simp [Spec.Visited.times, Spec.Visited.count, Spec.Visited.depth, Spec.Visited.payloads]
  | succ m ih =>
    obtain ⟨h1, h2, h3⟩ := ih
    refine ⟨?_, ?_, fun n b h => ?_⟩
    · rw [Spec.Visited.times, Spec.Visited.count_append, h1, Nat.succ_mul, Nat.add_comm]
    · rw [Spec.Visited.times, depth_append]
      omega
    · rw [Spec.Visited.times, Spec.Visited.payloads_append, h3 n b h, h, List.replicate_append_replicate, Nat.succ_mul, Nat.add_comm]

/-- The tower: a data object with the payload `b`, and above it manifests that have `m` pointers each, all to the one below. -/
def Spec.tower (sha : Bytes → Bytes) (b : Bytes) (m : Nat) : Nat → Py Packet
  | 0 => Packet.createContentObject { payloadType := some PT_DATA, payload := some b }
  | k + 1 => do
    let below ← Spec.tower sha b m k
    let h ← below.hash sha
    let w ← (Spec.funnel h m).serialize
    Packet.createContentObject { payloadType := some PT_MANIFEST, payload := some w }

/-- The packets of the tower, with what every traversal finds in them. -/
theorem tower_leads (sha : Bytes → Bytes) (hsha : ∀ x, (sha x).length = 32) (b : Bytes) (hb : b.length + 21 ≤ 0xFFFF) (m : Nat)
    (hm : 36 * m + 76 ≤ 0xFFFF) (k : Nat) :
    ∃ p hv w, Spec.tower sha b m k = .ok p ∧ p.hash sha = .ok hv ∧ p.serialize = .ok w ∧
      w.length = (if k = 0 then b.length + 21 else 36 * m + 76) ∧
      ∀ T : TravEnv, (∀ j ≤ k, ∀ p hv, Spec.tower sha b m j = .ok p → p.hash sha = .ok hv → T.reader none (some hv) = .ok p) →
        ∃ v, ∀ scope, Spec.Leads T Spec.Clear scope [(none, some hv)] v ∧ v.depth ≤ k + 1 ∧ v.count = Spec.powers m k ∧
          v.payloads = List.replicate (m ^ k) b := by
  induction k with
  | zero =>
    obtain ⟨p, hv, w, hp, hbody, halg, hh, hw, hwl⟩ := nameless_packet (ty := PT_DATA) (by decide) (w := b) hb sha
    refine ⟨p, hv, w, hp, hh, hw, hwl, fun T hT => ⟨.data p b .nil, fun scope => ⟨?_, ?_, ?_, ?_⟩⟩⟩
    · exact .data (hT 0 (Nat.le_refl _) p hv hp hh) (C24_unsigned _ _ _ halg) (by rw [hbody]; rfl) (by rw [hbody]; rfl) .nil
    · simp [Spec.Visited.depth]
    · simp [Spec.Visited.count, Spec.powers]
    · simp [Spec.Visited.payloads]
  | succ k ih =>
    obtain ⟨q, hv, _, hq, hqh, _, _, h4⟩ := ih
    obtain ⟨x, hx, rfl⟩ : ∃ x, q.hashInput = .ok x ∧ hv = HashValue.sha256 (sha x) := by
      obtain ⟨x, hx, h⟩ := bind_eq_ok.mp hqh
      cases h
      exact ⟨x, hx, rfl⟩
    obtain ⟨w, hw, hwl⟩ := funnel_wire (h := HashValue.sha256 (sha x)) (m := m) (show (1 : Nat) ≤ 65535 by decide) (hsha x) (by omega)
    obtain ⟨p, hv', wp, hp, hbody, halg, hh, hwp, hwpl⟩ := nameless_packet (ty := PT_MANIFEST) (by decide) (w := w) (by omega) sha
    have hp' : Spec.tower sha b m (k + 1) = .ok p := by
      unfold Spec.tower
      rw [hq, ok_bind, hqh, ok_bind, hw, ok_bind]
      exact hp
    refine ⟨p, hv', wp, hp', hh, hwp, by rw [if_neg (by omega)]; omega, fun T hT => ?_⟩
    obtain ⟨v, hL⟩ := h4 T (fun j hj => hT j (by omega))
    obtain ⟨t1, t2, t3⟩ := times_sums v m
    refine ⟨.manifest p (Spec.funnelNode (HashValue.sha256 (sha x)) m) (v.times m) .nil, fun scope => ?_⟩
    obtain ⟨_, l2, l3, l4⟩ := hL scope
    refine ⟨.manifest (hT _ (Nat.le_refl _) p hv' hp' hh) (C24_unsigned _ _ _ halg) (by rw [hbody]; rfl)
      ⟨⟨Spec.funnel (HashValue.sha256 (sha x)) m, ?_, rfl⟩, funnel_walkable _ _⟩
      (funnel_asks _ _ _) (leads_times (hL _).1 m) .nil, ?_, ?_, ?_⟩
    · rw [hbody]
      exact (manifest_RT (funnel_fits _ _) hw).trans rfl
    · simp only [Spec.Visited.depth]
      omega
    · simp only [Spec.Visited.count, Spec.powers, t1, l3]
      omega
    · simp only [Spec.Visited.payloads, List.append_nil]
      rw [t3 _ _ l4, Nat.pow_succ, Nat.mul_comm]

/-- C91: for every payload that fits one packet, every `m` up to 1818 and every `k`, the tower is made of `k + 1` packets of
`36 m + 76` bytes (the lowest one has 21 bytes more than the payload).  A traversal from its top, wherever the packets are found by
their hashes, visits `1 + m + … + mᵏ` objects and writes the payload `mᵏ` times, going no deeper than `k + 1` packets: what was
visited before is visited again. -/
theorem C91_amplification (sha : Bytes → Bytes) (hsha : ∀ x, (sha x).length = 32) (b : Bytes) (hb : b.length + 21 ≤ 0xFFFF)
    (m : Nat) (hm : m ≤ 1818) (k : Nat) :
    (∀ j ≤ k, ∃ p w, Spec.tower sha b m j = .ok p ∧ p.serialize = .ok w ∧
      w.length = (if j = 0 then b.length + 21 else 36 * m + 76)) ∧
    ∃ top hv, Spec.tower sha b m k = .ok top ∧ top.hash sha = .ok hv ∧ ∀ T : TravEnv, T.prims.sha256 = sha →
      (∀ j ≤ k, ∀ p hv, Spec.tower sha b m j = .ok p → p.hash sha = .ok hv → T.reader none (some hv) = .ok p) →
      (∀ n h p, T.reader n h = .ok p → ∃ hv, p.hash sha = .ok hv) → ∀ depth, k + 1 ≤ depth → ∀ s,
        T.traverse depth none (some hv) s =
          (.ok (), { s with count := s.count + Spec.powers m k, writes := s.writes ++ List.replicate (m ^ k) b }) := by
  refine ⟨fun j _ => ?_, ?_⟩
  · obtain ⟨p, _, w, h1, _, h2, h3, _⟩ := tower_leads sha hsha b hb m (by omega) j
    exact ⟨p, w, h1, h2, h3⟩
  · obtain ⟨p, hv, _, h1, h2, _, _, h4⟩ := tower_leads sha hsha b hb m (by omega) k
    refine ⟨p, hv, h1, h2, fun T hs hT hh depth hd s => ?_⟩
    subst hs
    obtain ⟨v, hL⟩ := h4 T hT
    obtain ⟨l1, l2, l3, l4⟩ := hL []
    rw [C51_walks_what_can_be_walked T none (some hv) v l1 hh depth (by omega) s, l3, l4]

/-- C91: with two pointers per manifest the objects visited double with every packet of 148 bytes. -/
theorem C91_doubling (sha : Bytes → Bytes) (hsha : ∀ x, (sha x).length = 32) (b : Bytes) (hb : b.length + 21 ≤ 0xFFFF) (k : Nat) :
    ∃ top hv, Spec.tower sha b 2 k = .ok top ∧ top.hash sha = .ok hv ∧ ∀ T : TravEnv, T.prims.sha256 = sha →
      (∀ j ≤ k, ∀ p hv, Spec.tower sha b 2 j = .ok p → p.hash sha = .ok hv → T.reader none (some hv) = .ok p) →
      (∀ n h p, T.reader n h = .ok p → ∃ hv, p.hash sha = .ok hv) → ∀ s, ∃ s',
        T.traverse (k + 1) none (some hv) s = (.ok (), s') ∧ s'.count + 1 = s.count + 2 ^ (k + 1) := by
  obtain ⟨_, top, hv, h1, h2, h3⟩ := C91_amplification sha hsha b hb 2 (by omega) k
  refine ⟨top, hv, h1, h2, fun T hs hT hh s => ⟨_, h3 T hs hT hh _ (Nat.le_refl _) s, ?_⟩⟩
  have : ∀ k, Spec.powers 2 k + 1 = 2 ^ (k + 1) := by
    intro k
    induction k with
    | zero => rfl
    | succ k ih => rw [Spec.powers, Nat.pow_succ, ← ih]; omega
  show s.count + _ + 1 = _
  rw [Nat.add_assoc, this]

/-- A hash that tells the objects of the example apart. -/
def Spec.toySha (x : Bytes) : Bytes := List.replicate 31 0 ++ [x.foldl (fun a c => 31 * a + c) 7]

/-- A reader that has the packets of a tower of height three. -/
def Spec.towerReader : Reader := fun n h =>
  match n, (List.range 4).filterMap (fun j => (Spec.tower Spec.toySha [1, 2] 3 j).toOption) |>.find?
    (fun p => (p.hash Spec.toySha).toOption == h && h.isSome) with
  | none, some p => .ok p
  | _, _ => .error .fileNotFoundError

set_option maxRecDepth 100000 in
/-- C91: three pointers per manifest, three manifests, 27 times two bytes. -/
example : ∃ T : TravEnv, T.prims.sha256 = Spec.toySha ∧ (∀ x, (Spec.toySha x).length = 32) ∧
    (∀ j ≤ 3, ∀ p hv, Spec.tower Spec.toySha [1, 2] 3 j = .ok p → p.hash Spec.toySha = .ok hv → T.reader none (some hv) = .ok p) ∧
    (∀ n h p, T.reader n h = .ok p → ∃ hv, p.hash Spec.toySha = .ok hv) := by
  refine ⟨⟨{ Toy.prims with sha256 := Spec.toySha }, Spec.towerReader, none⟩, rfl, fun x => by simp [Spec.toySha], ?_, ?_⟩
  · have h : ∀ j ∈ List.range 4, (match Spec.tower Spec.toySha [1, 2] 3 j with
        | .ok p => match p.hash Spec.toySha with
          | .ok hv => decide (Spec.towerReader none (some hv) = .ok p)
          | .error _ => true
        | .error _ => true) = true := by decide +kernel
    intro j hj p hv hp hh
    have := h j (List.mem_range.mpr (by omega))
    simp only [hp, hh] at this
    exact of_decide_eq_true this
  · intro n h p hp
    show ∃ hv, _
    change Spec.towerReader n h = .ok p at hp
    unfold Spec.towerReader at hp
    split at hp
    · next q hf =>
      cases hp
      have := List.find?_some hf
      cases hq : p.hash Spec.toySha with
      | ok hv => exact ⟨hv, rfl⟩
      | error e =>
        rw [hq] at this
        cases h <;> simp [Except.toOption] at this
    · cases hp

end Ccnpy
