import Verif.Props.RootProps

/-!
# C124: larger packets and shorter files

What C123 counts only grows with the file and only shrinks with the packet size, so a file that is published stays published when packets
are allowed to be larger, and so does every shorter file.
-/

namespace Ccnpy

/-! ## Lemmas -/

theorem ceil_le {l l' s s' : Nat} (hs : 0 < s) (hss : s ≤ s') (hl : l' ≤ l) : (l' + s' - 1) / s' ≤ (l + s - 1) / s := by
  have h1 : l + s - 1 < ((l + s - 1) / s + 1) * s := by
    have := Nat.lt_div_mul_add (a := l + s - 1) hs
    rw [Nat.add_mul, Nat.one_mul]
    exact this
  have h2 : l ≤ (l + s - 1) / s * s := by
    rw [Nat.add_mul, Nat.one_mul] at h1
    omega
  have h3 : (l + s - 1) / s * s ≤ (l + s - 1) / s * s' := Nat.mul_le_mul_left _ hss
  refine Nat.le_of_lt_succ ((Nat.div_lt_iff_lt_mul (by omega)).mpr ?_)
  rw [Nat.succ_mul]
  omega

theorem chunkCount_mono {s s' : Nat} (hs : 0 < s) (hss : s ≤ s') : ∀ (ws : List Nat) {l l' : Nat}, l' ≤ l →
    Spec.chunkCount s' ws l' ≤ Spec.chunkCount s ws l
  | [], _, _, hl => ceil_le hs hss hl
  | w :: ws, l, l', hl => by
    unfold Spec.chunkCount
    by_cases h' : l' = 0
    · rw [if_pos h']
      exact Nat.zero_le _
    · rw [if_neg h', if_neg (by omega)]
      have := chunkCount_mono hs hss ws (l := l - min s (max 1 w)) (l' := l' - min s' (max 1 w)) (by omega)
      omega

theorem integer_mono {a b : Nat} (h : a ≤ b) : (Spec.integer a).length ≤ (Spec.integer b).length := by
  simp only [specInteger_eq, beBytes_length]
  exact numWidth_mono h

/-- Larger packets have as much more room for data as they are larger. -/
theorem payloadSize_larger {i : SchemaImpl} {x : Option F64} {m m' size : Nat} (hm : m ≤ m') (h : i.payloadSize ⟨x, m⟩ = .ok size) :
    0 < size ∧ i.payloadSize ⟨x, m'⟩ = .ok (size + (m' - m)) := by
  unfold SchemaImpl.payloadSize at h ⊢
  obtain ⟨name, h1, h⟩ := bind_eq_ok.mp h
  obtain ⟨body, h2, h⟩ := bind_eq_ok.mp h
  obtain ⟨p, h3, h⟩ := bind_eq_ok.mp h
  obtain ⟨n, h4, h⟩ := bind_eq_ok.mp h
  simp only at h h2
  simp only [h1, h2, h3, h4, ok_bind]
  split at h
  · cases h
  · rename_i hn
    have h : m - n = size := by cases h; rfl
    have hn : n < m := by omega
    rw [if_neg (by omega)]
    refine ⟨by omega, ?_⟩
    have : m' - n = size + (m' - m) := by omega
    rw [this]
    rfl

variable {E : Env} {L : FloatLog} {o : TreeOptions} {nc : Nat} {input : Stream}

/-! ## Theorems -/

/-- C124 (a): if a file is published in packets of `o.maxPacketSize` bytes without encryption, then so is every file that is not empty and not
longer, whatever its bytes, in packets of any greater or equal size `m'` for which the names leave room. -/
theorem C124_larger (hP : Spec.LengthOnly E.prims) (hlow : L.NotLow) (hhigh : L.NotHigh)
    (henc : o.encryptor = none) {r : Nat} (hsig : Spec.Signs E.prims o.signer r)
    (hann : (o.addGroupLeafSize = false ∧ o.addGroupSubtreeSize = false) ∨ input.rest.length < 2 ^ 32)
    {ctx : NameCtx} {size m' : Nat}
    (hctx : NameCtx.create o.schemaType nc o.name o.manifestPrefix o.dataPrefix o.manifestLocators o.dataLocators = .ok ctx)
    (hm : o.maxPacketSize ≤ m') (hnames : Spec.NamesFit ctx.manifest { o with maxPacketSize := m' })
    {n v : Bytes} (hn : optWire Name.tlv o.name = .ok n) (hx : optWire (timestampTlv T_EXPIRY) o.rootExpiry = .ok v)
    (hfit : 33 + r + n.length + m' ≤ 0xFFFF) (hsize : ctx.data.payloadSize o.chunk = .ok size)
    {b : Bytes} (hb : b ≠ []) (hlen : b.length ≤ input.rest.length)
    (h : ∃ root out, manifestTree E L o nc input = (.ok root, out)) :
    ∃ root out, manifestTree E L { o with maxPacketSize := m' } nc ⟨b, input.schedule⟩ = (.ok root, out) := by
  obtain ⟨hpos, hsize'⟩ := payloadSize_larger hm hsize
  have hnames0 : Spec.NamesFit ctx.manifest o := by
    obtain ⟨h1, name, w, h2, h3, h4⟩ := hnames
    have h4 : 33 + w.length + m' ≤ 0xFFFF := h4
    exact ⟨h1, name, w, h2, h3, by omega⟩
  obtain ⟨_, h2, h3, h4, h5⟩ := (C123_published hP hlow hhigh henc hsig hann hctx hnames0 hn hx (by omega) hsize).mp h
  have hi := integer_mono hlen
  refine (C123_published (o := { o with maxPacketSize := m' }) (input := ⟨b, input.schedule⟩) hP hlow hhigh henc hsig
    (hann.imp id (fun h => Nat.lt_of_le_of_lt hlen h)) hctx hnames hn hx hfit hsize').mpr ⟨hb, ?_, h3, ?_, ?_⟩
  · exact Nat.le_trans (chunkCount_mono hpos (Nat.le_add_right _ _) _ hlen) h2
  · show Spec.bareBytes o ctx b.length + 72 ≤ m'
    have : Spec.bareBytes o ctx b.length ≤ Spec.bareBytes o ctx input.rest.length := by
      unfold Spec.bareBytes
      cases o.addNodeSubtreeSize <;> simp only [if_true, Bool.false_eq_true, if_false] <;> omega
    omega
  · show Spec.rootBytes o ctx b.length ≤ m'
    have : Spec.rootBytes o ctx b.length ≤ Spec.rootBytes o ctx input.rest.length := by
      unfold Spec.rootBytes
      cases o.addNodeSubtreeSize <;> cases o.addGroupSubtreeSize <;> simp only [if_true, Bool.false_eq_true, if_false] <;> omega
    omega

/-- C124 (b): a file that is published without encryption is published as well if fewer of the sizes are asked for (of the file in nodes, of
the subtree and of the leaves in groups), without a tree degree or with any other from two on. -/
theorem C124_fewer (hP : Spec.LengthOnly E.prims) (hlow : L.NotLow) (hhigh : L.NotHigh)
    (henc : o.encryptor = none) {r : Nat} (hsig : Spec.Signs E.prims o.signer r)
    (hann : (o.addGroupLeafSize = false ∧ o.addGroupSubtreeSize = false) ∨ input.rest.length < 2 ^ 32)
    {ctx : NameCtx} {size : Nat}
    (hctx : NameCtx.create o.schemaType nc o.name o.manifestPrefix o.dataPrefix o.manifestLocators o.dataLocators = .ok ctx)
    (hnames : Spec.NamesFit ctx.manifest o)
    {n v : Bytes} (hn : optWire Name.tlv o.name = .ok n) (hx : optWire (timestampTlv T_EXPIRY) o.rootExpiry = .ok v)
    (hfit : 33 + r + n.length + o.maxPacketSize ≤ 0xFFFF) (hsize : ctx.data.payloadSize o.chunk = .ok size)
    {a b c : Bool} (ha : a = true → o.addNodeSubtreeSize = true) (hb : b = true → o.addGroupSubtreeSize = true)
    (hc : c = true → o.addGroupLeafSize = true) {d : Option Nat} (hd : ∀ k, d = some k → 2 ≤ k)
    (h : ∃ root out, manifestTree E L o nc input = (.ok root, out)) :
    ∃ root out, manifestTree E L { o with addNodeSubtreeSize := a, addGroupSubtreeSize := b, addGroupLeafSize := c, maxTreeDegree := d }
      nc input = (.ok root, out) := by
  obtain ⟨h1, h2, _, h4, h5⟩ := (C123_published hP hlow hhigh henc hsig hann hctx hnames hn hx hfit hsize).mp h
  refine (C123_published (o := { o with addNodeSubtreeSize := a, addGroupSubtreeSize := b, addGroupLeafSize := c, maxTreeDegree := d })
    hP hlow hhigh henc hsig ?_ hctx hnames hn hx hfit hsize).mpr ⟨h1, h2, hd, ?_, ?_⟩
  · rcases hann with ⟨g1, g2⟩ | h
    · exact .inl ⟨Bool.eq_false_iff.mpr (fun h => by rw [hc h] at g1; cases g1), Bool.eq_false_iff.mpr (fun h => by rw [hb h] at g2; cases g2)⟩
    · exact .inr h
  · refine Nat.le_trans ?_ h4
    unfold Spec.bareBytes
    simp only
    cases a
    · simp only [Bool.false_eq_true, if_false]
      omega
    · simp only [ha rfl, if_true, Nat.le_refl]
  · refine Nat.le_trans ?_ h5
    unfold Spec.rootBytes
    simp only
    cases a <;> cases b <;> (try rw [ha rfl]) <;> (try rw [hb rfl]) <;> simp only [Bool.false_eq_true, if_false, if_true] <;> omega

/-! ## Instances -/

set_option maxRecDepth 100000 in
/-- 800 bytes with segmented names are published in packets of 250 bytes, so 1 to 800 bytes are in packets of any size from 250 to 1000. -/
example (m' : Nat) (h1 : 250 ≤ m') (h2 : m' ≤ 1000) (b : Bytes) (hb : b ≠ []) (hlen : b.length ≤ 800) : ∃ root out,
    manifestTree Toy.env Spec.exactLog { Toy.options .segmented false with maxPacketSize := m' } 1 ⟨b, (Toy.shortReads 800).schedule⟩ =
      (.ok root, out) := by
  obtain ⟨ctx, n, v, g1, g2, g3, _, g5, _⟩ := Toy.rootRoom_ok (o := Toy.options .segmented false) (total := 800)
    (a := 206) (b := 103) (c := 128) (by decide +kernel)
  obtain ⟨ctx', n', _, k1, k2, _, k4, _⟩ := Toy.rootRoom_ok (o := { Toy.options .segmented false with maxPacketSize := 1000 }) (total := 800)
    (a := 956) (b := 103) (c := 128) (by decide +kernel)
  obtain ⟨ctx'', _, _, _, _, l1, ⟨l2, name, w, l3, l4, l5⟩, _⟩ := Toy.stages_ok (n := 800) (b := true)
    (o := { Toy.options .segmented false with maxPacketSize := 1000 }) (by decide +kernel)
  obtain ⟨root, out, h, _⟩ := Toy.ok_of_eval (f := fun _ => 0) (n := 0)
    (x := manifestTree Toy.env Spec.exactLog (Toy.options .segmented false) 1 (Toy.shortReads 800)) (by decide +kernel)
  have e := Except.ok.inj (l1.symm.trans g1)
  subst e
  have e := Except.ok.inj (k2.symm.trans g2)
  subst e
  have hs : Spec.Signs Toy.env.prims (Toy.options .segmented false).signer 16 := Nat.le_refl 16
  have k4 : 33 + 96 + n'.length + 1000 ≤ 0xFFFF := k4
  have l5 : 33 + w.length + 1000 ≤ 0xFFFF := l5
  have l5' : 33 + w.length + m' ≤ 0xFFFF := by omega
  have h800 : (Toy.shortReads 800).rest.length = 800 := by decide +kernel
  exact C124_larger Toy.lengthOnly exactLog_notLow exactLog_notHigh rfl hs (.inr (by decide +kernel)) g1 h1 ⟨l2, name, w, l3, l4, l5'⟩ g2 g3
    (by omega) g5 hb (by omega) ⟨root, out, h⟩

set_option maxRecDepth 100000 in
/-- The same file without any of the sizes, with every tree degree from two on. -/
example (d : Nat) (hd : 2 ≤ d) : (Toy.options .segmented false).addNodeSubtreeSize = true ∧ ∃ root out,
    manifestTree Toy.env Spec.exactLog { Toy.options .segmented false with
        addNodeSubtreeSize := false, addGroupSubtreeSize := false, addGroupLeafSize := false, maxTreeDegree := some d } 1
      (Toy.shortReads 800) = (.ok root, out) := by
  obtain ⟨ctx, n, v, g1, g2, g3, g4, g5, _⟩ := Toy.rootRoom_ok (o := Toy.options .segmented false) (total := 800)
    (a := 206) (b := 103) (c := 128) (by decide +kernel)
  obtain ⟨ctx', _, _, _, _, l1, l2, _⟩ := Toy.stages_ok (n := 800) (b := true) (o := Toy.options .segmented false) (by decide +kernel)
  obtain ⟨root, out, h, _⟩ := Toy.ok_of_eval (f := fun _ => 0) (n := 0)
    (x := manifestTree Toy.env Spec.exactLog (Toy.options .segmented false) 1 (Toy.shortReads 800)) (by decide +kernel)
  have e := Except.ok.inj (l1.symm.trans g1)
  subst e
  have hs : Spec.Signs Toy.env.prims (Toy.options .segmented false).signer 16 := Nat.le_refl 16
  exact ⟨rfl, C124_fewer Toy.lengthOnly exactLog_notLow exactLog_notHigh rfl hs (.inr (by decide +kernel)) g1 l2 g2 g3 (by omega) g5
    (fun h => (by cases h)) (fun h => (by cases h)) (fun h => (by cases h)) (fun k hk => (by cases hk; exact hd)) ⟨root, out, h⟩⟩

end Ccnpy
