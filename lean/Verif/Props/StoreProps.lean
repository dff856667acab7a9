import Verif.Lemmas.Keys
import Verif.Lemmas.Core
import Verif.Model.Traversal
import Verif.Lemmas.Toy

/-!
# C53: the in-memory packet store
-/

namespace Ccnpy

/-- Specification: the packets with a given content object hash. -/
def Spec.hasHash (P : Prims) (h : HashValue) (p : Packet) : Bool := decide (p.hash P.sha256 = .ok h)

/-- Specification: what a query must return when `found` is the packet stored under the hash: a nameless packet is returned
for every requested name, a named one only for an equal name; comparing with no name raises AttributeError. -/
def Spec.answer (found : Option Packet) (name : Option Name) : Py Packet :=
  match found with
  | none => .error .keyError
  | some p =>
    if p.body.name.isNone || (match name, p.body.name with
      | some m, some n => m.pyEq n
      | _, _ => false) then .ok p
    else if name.isNone then .error .attributeError
    else .error .valueError

theorem Packet.hash_alg {sha : Bytes → Bytes} {p : Packet} {h : HashValue} (hp : p.hash sha = .ok h) : h.alg = T_SHA_256 := by
  unfold Packet.hash at hp
  obtain ⟨x, _, hx⟩ := bind_eq_ok.mp hp
  cases Except.ok.inj hx
  rfl

theorem MemoryStore.put_ok {P : Prims} {s s' : MemoryStore} {p : Packet} (h : s.put P p = .ok s') :
    ∃ n hv, p.len = .ok n ∧ p.hash P.sha256 = .ok hv ∧
      s'.packets = s.packets ++ [p] ∧ s'.totalBytesByPacket = s.totalBytesByPacket + n ∧
      (if (s.find P hv).isSome then s'.byHash = s.byHash ∧ s'.totalBytesByHash = s.totalBytesByHash
        else s'.byHash = s.byHash ++ [(hv, p)] ∧ s'.totalBytesByHash = s.totalBytesByHash + n) := by
  unfold MemoryStore.put at h
  obtain ⟨n, hn, h⟩ := bind_eq_ok.mp h
  obtain ⟨hv, hh, h⟩ := bind_eq_ok.mp h
  refine ⟨n, hv, hn, hh, ?_⟩
  by_cases hc : (s.find P hv).isSome
  · rw [if_pos hc]
    rw [if_pos (by exact hc)] at h
    cases Except.ok.inj h
    exact ⟨rfl, rfl, rfl, rfl⟩
  · rw [if_neg hc]
    rw [if_neg (by exact hc)] at h
    cases Except.ok.inj h
    exact ⟨rfl, rfl, rfl, rfl⟩

theorem putAll_snoc {P : Prims} {s s' : MemoryStore} {ps : List Packet} {p : Packet}
    (h : s.putAll P (ps ++ [p]) = .ok s') : ∃ m, s.putAll P ps = .ok m ∧ m.put P p = .ok s' := by
  unfold MemoryStore.putAll at *
  rw [List.foldlM_append] at h
  obtain ⟨m, hm, h⟩ := bind_eq_ok.mp h
  refine ⟨m, hm, ?_⟩
  obtain ⟨x, hx, h⟩ := bind_eq_ok.mp (by simpa [List.foldlM_cons] using h)
  cases h
  exact hx

/-- Every key of the store comes from a packet put, is a SHA-256 hash, keys are distinct, and look-up finds the first packet
with the hash. -/
theorem store_inv (P : Prims) (ps : List Packet) (s : MemoryStore) (h : MemoryStore.putAll P {} ps = .ok s) :
    s.packets = ps ∧
    (∀ hv : HashValue, hv.alg = T_SHA_256 → s.find P hv = ps.find? (Spec.hasHash P hv)) ∧
    (s.byHash.map (·.1)).Nodup ∧
    (∀ hv, hv ∈ s.byHash.map (·.1) ↔ ∃ p ∈ ps, p.hash P.sha256 = .ok hv) ∧
    (∀ e ∈ s.byHash, e.1.alg = T_SHA_256) := by
  induction ps using reverse_induction generalizing s with
  | nil =>
    cases Except.ok.inj h
    exact ⟨rfl, by simp [MemoryStore.find], by simp, by simp, by simp⟩
  | snoc ps p ih =>
    obtain ⟨m, hm, hp⟩ := putAll_snoc h
    obtain ⟨h1, h2, h3, h4, h5⟩ := ih m hm
    obtain ⟨n, hv, hn, hh, e1, e2, e3⟩ := MemoryStore.put_ok hp
    have halg := Packet.hash_alg hh
    refine ⟨by rw [e1, h1], ?_⟩
    have hfind : ∀ q : HashValue, q.alg = T_SHA_256 →
        (ps ++ [p]).find? (Spec.hasHash P q) = (ps.find? (Spec.hasHash P q)).or (if hv = q then some p else none) := by
      intro q _
      rw [List.find?_append]
      congr 1
      simp only [List.find?_cons, List.find?_nil, Spec.hasHash, hh, Except.ok.injEq]
      by_cases hq : hv = q <;> simp [hq]
    by_cases hc : (m.find P hv).isSome
    · rw [if_pos hc] at e3
      have hmem : ∃ q ∈ ps, q.hash P.sha256 = .ok hv := by
        rw [h2 hv halg] at hc
        obtain ⟨q, hq⟩ := Option.isSome_iff_exists.mp hc
        exact ⟨q, List.mem_of_find?_eq_some hq, by simpa [Spec.hasHash] using List.find?_some hq⟩
      refine ⟨?_, by rw [e3.1]; exact h3, ?_, by rw [e3.1]; exact h5⟩
      · intro q hq
        rw [hfind q hq, ← h2 q hq]
        have : s.find P q = m.find P q := by unfold MemoryStore.find; rw [e3.1]
        rw [this]
        by_cases he : hv = q
        · subst he
          obtain ⟨x, hx⟩ := Option.isSome_iff_exists.mp hc
          rw [hx]; rfl
        · simp [he]
      · intro q
        rw [e3.1, h4 q]
        constructor
        · rintro ⟨x, hx, hx'⟩; exact ⟨x, by simp [hx], hx'⟩
        · rintro ⟨x, hx, hx'⟩
          rcases List.mem_append.mp hx with hx | hx
          · exact ⟨x, hx, hx'⟩
          · simp only [List.mem_singleton] at hx
            subst hx
            rw [hh] at hx'
            cases hx'
            exact hmem
    · rw [if_neg hc] at e3
      have hnone : m.find P hv = none := by simpa using hc
      refine ⟨?_, ?_, ?_, ?_⟩
      · intro q hq
        rw [hfind q hq, ← h2 q hq]
        have : s.find P q = (m.find P q).or (if hv = q then some p else none) := by
          unfold MemoryStore.find
          rw [e3.1, List.find?_append]
          simp only [List.find?_cons, List.find?_nil]
          cases hm' : List.find? (fun e => q.dictEq P e.1) m.byHash with
          | some e => simp
          | none =>
            by_cases he : hv = q
            · subst he
              have : hv.dictEq P hv = true := (HashValue.dictEq_same_alg P hv hv rfl).mpr rfl
              simp [this]
            · have : q.dictEq P hv = false := by
                cases hd : q.dictEq P hv with
                | false => rfl
                | true => exact absurd ((HashValue.dictEq_same_alg P q hv (by rw [hq, halg])).mp hd).symm he
              simp [this, he]
        rw [this]
      · rw [e3.1, List.map_append, List.nodup_append]
        refine ⟨h3, by simp, ?_⟩
        intro a ha b hb
        simp only [List.map_cons, List.map_nil, List.mem_singleton] at hb
        subst hb
        rintro rfl
        obtain ⟨x, hx, hx'⟩ := (h4 a).mp ha
        rw [h2 a halg] at hnone
        have := List.find?_eq_none.mp hnone x hx
        exact this (by simp [Spec.hasHash, hx'])
      · intro q
        rw [e3.1, List.map_append, List.mem_append, h4 q]
        constructor
        · rintro (⟨x, hx, hx'⟩ | hx)
          · exact ⟨x, by simp [hx], hx'⟩
          · simp only [List.map_cons, List.map_nil, List.mem_singleton] at hx
            subst hx
            exact ⟨p, by simp, hh⟩
        · rintro ⟨x, hx, hx'⟩
          rcases List.mem_append.mp hx with hx | hx
          · exact .inl ⟨x, hx, hx'⟩
          · simp only [List.mem_singleton] at hx
            subst hx
            rw [hh] at hx'
            cases hx'
            exact .inr (by simp)
      · intro e he
        rw [e3.1] at he
        rcases List.mem_append.mp he with he | he
        · exact h5 e he
        · simp only [List.mem_singleton] at he
          subst he
          exact halg

theorem get_eq_answer (P : Prims) (s : MemoryStore) (name : Option Name) (h : HashValue) :
    s.get P name h = Spec.answer (s.find P h) name := by
  unfold MemoryStore.get Spec.answer
  cases s.find P h with
  | none => rfl
  | some p =>
    dsimp only
    cases hn : p.body.name with
    | none => simp
    | some n =>
      cases name with
      | none => simp
      | some m => simp

/-- C53 (a): `get` answers from the first packet put with the requested SHA-256 hash. -/
theorem C53_get_first (P : Prims) (ps : List Packet) (s : MemoryStore) (h : MemoryStore.putAll P {} ps = .ok s)
    (name : Option Name) (digest : Bytes) :
    s.get P name (.sha256 digest) = Spec.answer (ps.find? (Spec.hasHash P (.sha256 digest))) name := by
  rw [get_eq_answer, (store_inv P ps s h).2.1 _ rfl]

/-- C53 (a'): a hash of another algorithm is never found, unless Python's string hash of the two encodings collides and the
digest is the same (`HashValue.__eq__` ignores the algorithm). -/
theorem C53_get_other_algorithm (P : Prims) (hinj : ∀ a b, P.strHash a = P.strHash b → a = b) (ps : List Packet)
    (s : MemoryStore) (h : MemoryStore.putAll P {} ps = .ok s) (name : Option Name) (hv : HashValue) (w : Bytes)
    (hw : wireOf HashValue.tlv hv = .ok w) (ha : hv.alg ≠ T_SHA_256) : s.get P name hv = .error .keyError := by
  rw [get_eq_answer]
  have : s.find P hv = none := by
    unfold MemoryStore.find
    rw [Option.map_eq_none_iff, List.find?_eq_none]
    intro e he hd
    have halg := (store_inv P ps s h).2.2.2.2 e he
    simp only [HashValue.dictEq, Bool.and_eq_true, beq_iff_eq] at hd
    have h1 := hinj _ _ hd.1
    rw [hw] at h1
    simp only [Except.toOption, Option.getD_some] at h1
    unfold wireOf at hw h1
    obtain ⟨t, ht, hs⟩ := bind_eq_ok.mp hw
    obtain ⟨htv, htb⟩ := Tlv.serialize_ok hs
    obtain ⟨rfl, _⟩ := mkTlv_ok ht
    cases he' : e.1.tlv with
    | error x =>
      rw [he'] at h1
      simp only [bind, Except.bind, Option.getD_none] at h1
      rw [h1] at htb
      simp [Tlv.bytes, be16] at htb
    | ok t' =>
      obtain ⟨rfl, hv'⟩ := mkTlv_ok he'
      rw [he'] at h1
      simp only [bind, Except.bind] at h1
      rw [Tlv.serialize_eq, if_pos hv'] at h1
      simp only [Option.getD_some] at h1
      rw [h1] at htb
      have h2 := Tlv.deserialize_bytes ⟨e.1.alg, e.1.value⟩ hv' []
      have h3 := Tlv.deserialize_bytes ⟨hv.alg, hv.value⟩ htv []
      rw [List.append_nil] at h2 h3
      rw [htb, h3] at h2
      injection (Except.ok.inj h2) with h4 _
      exact ha (h4.trans halg)
  rw [this]
  rfl

/-- C53 (b): the packet list keeps every put in order, and the length is the number of distinct hashes put. -/
theorem C53_packets_and_length (P : Prims) (ps : List Packet) (s : MemoryStore) (h : MemoryStore.putAll P {} ps = .ok s) :
    s.packets = ps ∧
    ∃ hs : List HashValue, hs.Nodup ∧ (∀ hv, hv ∈ hs ↔ ∃ p ∈ ps, p.hash P.sha256 = .ok hv) ∧ s.len = hs.length := by
  obtain ⟨h1, _, h3, h4, _⟩ := store_inv P ps s h
  exact ⟨h1, s.byHash.map (·.1), h3, h4, by simp [MemoryStore.len]⟩

/-- C53 (c): the byte counters are the sizes of all packets put, and of the packets kept under a hash. -/
theorem C53_byte_counters (P : Prims) (ps : List Packet) (s : MemoryStore) (h : MemoryStore.putAll P {} ps = .ok s) :
    ∃ lens : List Nat, ps.mapM Packet.len = .ok lens ∧ s.totalBytesByPacket = lens.sum ∧
    ∃ kept : List Nat, (s.byHash.map (·.2)).mapM Packet.len = .ok kept ∧ s.totalBytesByHash = kept.sum := by
  induction ps using reverse_induction generalizing s with
  | nil =>
    cases Except.ok.inj h
    exact ⟨[], rfl, rfl, [], rfl, rfl⟩
  | snoc ps p ih =>
    obtain ⟨m, hm, hp⟩ := putAll_snoc h
    obtain ⟨lens, hl, hs, kept, hk, hks⟩ := ih m hm
    obtain ⟨n, hv, hn, hh, e1, e2, e3⟩ := MemoryStore.put_ok hp
    refine ⟨lens ++ [n], ?_, ?_, ?_⟩
    · rw [List.mapM_append, hl]
      simp [hn]
    · rw [e2, hs]; simp
    · by_cases hc : (m.find P hv).isSome
      · rw [if_pos hc] at e3
        exact ⟨kept, by rw [e3.1]; exact hk, by rw [e3.2]; exact hks⟩
      · rw [if_neg hc] at e3
        refine ⟨kept ++ [n], ?_, ?_⟩
        · rw [e3.1, List.map_append, List.mapM_append, hk]
          simp [hn]
        · rw [e3.2, hks]; simp

/-- C53 (d): every packet that has a wire format can be put. -/
theorem C53_put_succeeds (P : Prims) (ps : List Packet)
    (h : ∀ p ∈ ps, (∃ n, p.len = .ok n) ∧ ∃ hv, p.hash P.sha256 = .ok hv) : ∃ s, MemoryStore.putAll P {} ps = .ok s := by
  suffices ∀ s0 : MemoryStore, ∃ s, MemoryStore.putAll P s0 ps = .ok s from this {}
  induction ps with
  | nil => intro s0; exact ⟨s0, rfl⟩
  | cons p ps ih =>
    intro s0
    obtain ⟨⟨n, hn⟩, hv, hh⟩ := h p (by simp)
    have : ∃ s1, s0.put P p = .ok s1 := by
      unfold MemoryStore.put
      rw [hn, hh]
      simp only [bind, Except.bind]
      split
      · exact ⟨_, rfl⟩
      · exact ⟨_, rfl⟩
    obtain ⟨s1, hs1⟩ := this
    obtain ⟨s, hs⟩ := ih (fun q hq => h q (by simp [hq])) s1
    refine ⟨s, ?_⟩
    unfold MemoryStore.putAll at *
    rw [List.foldlM_cons, hs1]
    exact hs

/-- C53 (e): a reader made from a list of packets answers from the last packet with the hash. -/
theorem C53_reader_of_list_last (P : Prims) (ps : List Packet) (s : MemoryStore) (h : MemoryStore.ofPackets P ps = .ok s)
    (name : Option Name) (digest : Bytes) :
    s.packets = ps ∧
    s.get P name (.sha256 digest) = Spec.answer (ps.reverse.find? (Spec.hasHash P (.sha256 digest))) name := by
  rw [get_eq_answer]
  unfold MemoryStore.ofPackets at h
  have key : ∀ (qs : List Packet) (s0 s1 : MemoryStore),
      qs.foldlM (fun s p => do
        let h ← p.hash P.sha256
        return { s with byHash := (h, p) :: s.byHash }) s0 = .ok s1 →
      s1.packets = s0.packets ∧
      s1.find P (.sha256 digest) = (qs.reverse.find? (Spec.hasHash P (.sha256 digest))).or (s0.find P (.sha256 digest)) := by
    intro qs
    induction qs with
    | nil => intro s0 s1 h; cases Except.ok.inj h; simp
    | cons p qs ih =>
      intro s0 s1 h
      rw [List.foldlM_cons] at h
      obtain ⟨m, hm, h⟩ := bind_eq_ok.mp h
      obtain ⟨hv, hh, hm⟩ := bind_eq_ok.mp hm
      cases Except.ok.inj hm
      obtain ⟨h1, h2⟩ := ih _ _ h
      refine ⟨h1, ?_⟩
      rw [h2, List.reverse_cons, List.find?_append]
      have : MemoryStore.find P { s0 with byHash := (hv, p) :: s0.byHash } (.sha256 digest)
          = ([p].find? (Spec.hasHash P (.sha256 digest))).or (s0.find P (.sha256 digest)) := by
        unfold MemoryStore.find
        simp only [List.find?_cons, List.find?_nil, Spec.hasHash, hh, Except.ok.injEq]
        by_cases he : hv = .sha256 digest
        · have hd : (HashValue.sha256 digest).dictEq P hv = true :=
            (HashValue.dictEq_same_alg P _ _ (Packet.hash_alg hh).symm).mpr he.symm
          simp [he ▸ hd, he]
        · have hd : (HashValue.sha256 digest).dictEq P hv = false := by
            cases hd : (HashValue.sha256 digest).dictEq P hv with
            | false => rfl
            | true => exact absurd ((HashValue.dictEq_same_alg P _ _ (Packet.hash_alg hh).symm).mp hd).symm he
          simp [hd, he]
      rw [this, Option.or_assoc]
  obtain ⟨h1, h2⟩ := key ps _ s h
  refine ⟨h1, ?_⟩
  rw [h2]
  simp [MemoryStore.find]

/-- Non-vacuity: three puts with two distinct hashes; queries by hash with the right name, without name, with another name, and
for a hash never put. -/
example : (MemoryStore.putAll Toy.prims {} [Toy.packet [1], Toy.named [97] [2], Toy.packet [1]]).toOption.map (fun s =>
      let h := HashValue.sha256 (Toy.sha ((Toy.named [97] [2]).hashInput.toOption.getD []))
      ([s.len, s.packets.length, s.totalBytesByPacket, s.totalBytesByHash],
        [s.get Toy.prims (some ⟨[.nameSegment [97]]⟩) h, s.get Toy.prims none h,
          s.get Toy.prims (some ⟨[.nameSegment [98]]⟩) h, s.get Toy.prims none (.sha256 [])]))
    = some ([2, 3, 75, 53], [.ok (Toy.named [97] [2]), .error .attributeError, .error .valueError, .error .keyError]) := by
  decide +kernel

/-- Non-vacuity: two packets with the same hash (the header is not hashed); the store keeps the first, the reader the last. -/
example :
    let p := Toy.packet [1]
    let q : Packet := { p with header := { p.header with f2 := 1 } }
    let h := HashValue.sha256 (Toy.sha (p.hashInput.toOption.getD []))
    ((MemoryStore.putAll Toy.prims {} [p, q]).toOption.map fun s => s.get Toy.prims none h) = some (.ok p) ∧
    ((MemoryStore.ofPackets Toy.prims [p, q]).toOption.map fun s => s.get Toy.prims none h) = some (.ok q) := by
  decide +kernel

end Ccnpy
