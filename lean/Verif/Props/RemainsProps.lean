import Verif.Props.SealedProps

/-!
# C126: what is left behind when a file is not published

C125 says which files are published.  The packets are put to the output while the tree is made, so a file that is not published leaves
packets behind; C122 says which if there are too many chunks.  Here are the other cases.
-/

namespace Ccnpy

variable {E : Env} {L : FloatLog} {o : TreeOptions} {nc : Nat} {input : Stream}

/-- C126 (a): if the file is chunked but empty, or the tree degree is below two, or the manifests have no room for two pointers, then
exactly the data objects are left behind, with the whole file, and no manifest. -/
theorem C126_no_tree (hlow : L.NotLow) (henc : Spec.Encrypts E) {c : Nat} (hc : Spec.SealCost E o false c)
    {ctx : NameCtx} {size : Nat}
    (hctx : NameCtx.create o.schemaType nc o.name o.manifestPrefix o.dataPrefix o.manifestLocators o.dataLocators = .ok ctx)
    (hmax : o.maxPacketSize + 33 ≤ 0xFFFF) (hsize : ctx.data.payloadSize o.chunk = .ok size)
    (hcnt : Spec.chunkCount size input.schedule input.rest.length ≤ 2 ^ 24)
    (hbad : input.rest = [] ∨ (∃ k, o.maxTreeDegree = some k ∧ k < 2) ∨
      o.maxPacketSize < Spec.bareBytes o ctx input.rest.length + c + 72) :
    ∃ e out, manifestTree E L o nc input = (.error e, out) ∧
      (∀ p ∈ out, p.body.payloadType = some PT_DATA) ∧ (out.map (fun p => p.body.payload.getD [])).flatten = input.rest := by
  obtain ⟨file, st, hch⟩ := (C122_chunks E.prims.sha256 hsize (by show o.maxPacketSize ≤ _; omega) input (st := {}) (by simp)).mpr
    (by simpa using hcnt)
  have hdata := chunkData_data E.prims.sha256 ctx.data o.chunk input
  rw [hch] at hdata
  obtain ⟨ps, s1, s2, s3, s4, s5, _⟩ := C38_summary hch
  have hcount := chunkData_count hch
  have hs1 : st.output = ps := by rw [s1]; rfl
  obtain ⟨k, hk⟩ := createOptimizedTree_frame E L o ctx file { output := st.output }
  rcases hopt : createOptimizedTree E L o ctx file { output := st.output } with ⟨e | r, s0⟩
  · rw [hopt] at hk
    simp only at hk
    refine ⟨e, st.output, ?_, hdata, by rw [hs1]; exact s2⟩
    unfold manifestTree
    simp only [hctx, hch, hopt, hk]
  · exfalso
    obtain ⟨h1, h2, l, hl, hle⟩ := (C121_optimized (fun _ => henc) hlow hmax hctx (file := file)
      (Nat.lt_of_le_of_lt hcount (by decide)) _).mp ⟨_, _, hopt⟩
    rcases hbad with h | ⟨k, hk, hlt⟩ | h
    · obtain ⟨bs, ps', c1, c2, c3, c4⟩ := C38_chunks hch
      have hp := c2.pos
      rw [h] at c1
      have e := congrArg List.length c2.sum.2.1
      simp only [List.length_map, List.length_range'] at e
      cases bs with
      | nil => exact h1 (List.length_eq_zero_iff.mp e)
      | cons b bs =>
        have := hp b (by simp)
        have := congrArg List.length c1
        simp only [List.flatten_cons, List.length_append, List.length_nil] at this
        omega
    · have := h2 k hk
      omega
    · have := (sizing_sealed henc hctx hc (total := file.totalBytes) (n := 2) (by omega)).1 l hl
      rw [s4] at this
      omega

/-- C126 (b): if all manifests have room and only the root has not, then the output is data objects with the whole file, then manifests, and the
exception is the one raised by making the root manifest over the hash of the last of them. -/
theorem C126_no_root (hP : Spec.LengthOnly E.prims) (hlow : L.NotLow) (hhigh : L.NotHigh)
    (henc : Spec.Encrypts E) {r c c' : Nat} (hsig : Spec.Signs E.prims o.signer r)
    (hc : Spec.SealCost E o false c) (hc' : Spec.SealCost E o true c')
    (hann : (o.addGroupLeafSize = false ∧ o.addGroupSubtreeSize = false) ∨ input.rest.length < 2 ^ 32)
    {ctx : NameCtx} {size : Nat}
    (hctx : NameCtx.create o.schemaType nc o.name o.manifestPrefix o.dataPrefix o.manifestLocators o.dataLocators = .ok ctx)
    (hnames : Spec.NamesFit ctx.manifest o) {n v : Bytes} (hn : optWire Name.tlv o.name = .ok n)
    (hx : optWire (timestampTlv T_EXPIRY) o.rootExpiry = .ok v) (hfit : 33 + r + n.length + o.maxPacketSize ≤ 0xFFFF)
    (hsize : ctx.data.payloadSize o.chunk = .ok size)
    (hne : input.rest ≠ []) (hcnt : Spec.chunkCount size input.schedule input.rest.length ≤ 2 ^ 24)
    (hdeg : ∀ k, o.maxTreeDegree = some k → 2 ≤ k)
    (hroom : Spec.bareBytes o ctx input.rest.length + c + 72 ≤ o.maxPacketSize)
    (hroot : o.maxPacketSize < Spec.rootBytes o ctx input.rest.length + c') :
    ∃ e ps ms top hv s, manifestTree E L o nc input = (.error e, ps ++ ms ++ [top]) ∧
      top.hash E.prims.sha256 = .ok hv ∧ (rootPacket E o ctx input.rest.length hv s).1 = .error e ∧
      (∀ p ∈ ps, p.body.payloadType = some PT_DATA) ∧ (ps.map (fun p => p.body.payload.getD [])).flatten = input.rest ∧
      (∀ p ∈ ms ++ [top], p.body.payloadType = some PT_MANIFEST) := by
  have hmax : o.maxPacketSize + 33 ≤ 0xFFFF := by omega
  obtain ⟨file, st, hch⟩ := (C122_chunks E.prims.sha256 hsize (by show o.maxPacketSize ≤ _; omega) input (st := {}) (by simp)).mpr
    (by simpa using hcnt)
  have hdata := chunkData_data E.prims.sha256 ctx.data o.chunk input
  rw [hch] at hdata
  obtain ⟨ps, s1, s2, s3, s4, s5, _⟩ := C38_summary hch
  have hcount := chunkData_count hch
  have hs1 : st.output = ps := by rw [s1]; rfl
  have hnon : file.chunks ≠ [] := by
    intro h0
    rw [h0] at s3
    rw [s4] at s3
    exact hne (List.length_eq_zero_iff.mp s3.symm)
  have hsz := (sizing_sealed henc hctx hc (total := file.totalBytes) (n := 2) (by omega)).2 hmax (by rw [s4]; omega)
  obtain ⟨r', s0, hopt⟩ := (C121_optimized (L := L) (fun _ => henc) hlow hmax hctx (file := file)
      (Nat.lt_of_le_of_lt hcount (by decide)) { output := st.output }).mpr ⟨hnon, hdeg, _, hsz, by rw [s4]; omega⟩
  obtain ⟨k, hk⟩ := createOptimizedTree_frame E L o ctx file { output := st.output }
  rw [hopt] at hk
  obtain ⟨top, t1, hv, hb, hmem, hh, ha, hl⟩ := C120_tree hP.rel.sha hlow hhigh (fun _ => henc) hann hctx hnames hch hopt
  obtain ⟨p1, p2, p3, _⟩ := tree_pos hopt hcount
  obtain ⟨ids, level, i, kids, _, h2, h3, _, _, _, rfl, _⟩ :=
    (buildTree_any (T := ⟨E, o, ctx, file.chunks, r'.direct, r'.indirect, r'.height⟩) p2 p3 p1 s0).1 top t1 hb
  have hmade := h2.made
  simp only [Forest.written, List.nil_append] at hmade
  have hout : t1.output = ps ++ kids.written.map (·.packet) ++ [i.packet] := by
    have hk : s0.output = st.output := by rw [show s0 = _ from hk]
    rw [h3.wrote.1]
    simp only [startState, hk, hs1, List.map_append, List.map_cons, List.map_nil, List.append_assoc]
  have hval : hv = .sha256 hv.value := by
    have := Packet.hash_sha hh
    generalize hv = v at this
    cases v
    cases this
    rfl
  obtain ⟨k2, hk2⟩ := rootPacket_frame E o ctx file.totalBytes hv t1
  rcases hrt : rootPacket E o ctx file.totalBytes hv t1 with ⟨e | q, t2⟩
  · rw [hrt] at hk2
    simp only at hk2
    refine ⟨e, ps, kids.written.map (·.packet), i.packet, hv, t1, ?_, hh, by rw [← s4, hrt], by rw [← hs1]; exact hdata, s2, ?_⟩
    · have hbr : buildRooted ⟨E, o, ctx, file.chunks, r'.direct, r'.indirect, r'.height⟩ file.totalBytes s0 = (.error e, t2) := by
        unfold buildRooted
        rw [PyS.bind_of_ok hb, PyS.liftBind_run hh, PyS.bind_of_error hrt]
      unfold manifestTree
      simp only [hctx, hch, hopt, hbr]
      rw [hk2, ← hout]
    · intro p hp
      have : ∃ j ∈ kids.written ++ [i], j.packet = p := by
        simp only [List.mem_append, List.mem_map, List.mem_singleton] at hp ⊢
        rcases hp with ⟨j, hj, rfl⟩ | rfl
        · exact ⟨j, .inl hj, rfl⟩
        · exact ⟨i, .inr rfl, rfl⟩
      obtain ⟨j, hj, rfl⟩ := this
      obtain ⟨_, name, a, b, _, hbf⟩ := hmade j hj
      obtain ⟨_, _, _, _, _, _, hbody, _⟩ := buildFromNode_inv hbf
      rw [hbody]
      rfl
  · exfalso
    rw [hval] at hrt
    have := (C125_root henc hsig hc' hctx hn hx hfit file.totalBytes hl t1).mp ⟨_, _, hrt⟩
    rw [s4] at this
    omega

/-- C126 (c): these are all outcomes: the file is published, or the data objects are left behind whose numbers were left, or all data objects, or all data
objects and manifests. -/
theorem C126_outcomes (hP : Spec.LengthOnly E.prims) (hlow : L.NotLow) (hhigh : L.NotHigh)
    (henc : Spec.Encrypts E) {r c c' : Nat} (hsig : Spec.Signs E.prims o.signer r)
    (hc : Spec.SealCost E o false c) (hc' : Spec.SealCost E o true c')
    (hann : (o.addGroupLeafSize = false ∧ o.addGroupSubtreeSize = false) ∨ input.rest.length < 2 ^ 32)
    {ctx : NameCtx} {size : Nat}
    (hctx : NameCtx.create o.schemaType nc o.name o.manifestPrefix o.dataPrefix o.manifestLocators o.dataLocators = .ok ctx)
    (hnames : Spec.NamesFit ctx.manifest o) {n v : Bytes} (hn : optWire Name.tlv o.name = .ok n)
    (hx : optWire (timestampTlv T_EXPIRY) o.rootExpiry = .ok v) (hfit : 33 + r + n.length + o.maxPacketSize ≤ 0xFFFF)
    (hsize : ctx.data.payloadSize o.chunk = .ok size) :
    (∃ root out, manifestTree E L o nc input = (.ok root, out)) ∨
    (∃ out, manifestTree E L o nc input = (.error .valueError, out) ∧ out.length = 2 ^ 24 ∧
      (out.map (fun p => p.body.payload.getD [])).flatten <+: input.rest) ∨
    (∃ e out, manifestTree E L o nc input = (.error e, out) ∧
      (∀ p ∈ out, p.body.payloadType = some PT_DATA) ∧ (out.map (fun p => p.body.payload.getD [])).flatten = input.rest) ∨
    ∃ e ps ms top hv s, manifestTree E L o nc input = (.error e, ps ++ ms ++ [top]) ∧
      top.hash E.prims.sha256 = .ok hv ∧ (rootPacket E o ctx input.rest.length hv s).1 = .error e ∧
      (∀ p ∈ ps, p.body.payloadType = some PT_DATA) ∧ (ps.map (fun p => p.body.payload.getD [])).flatten = input.rest ∧
      (∀ p ∈ ms ++ [top], p.body.payloadType = some PT_MANIFEST) := by
  by_cases h2 : Spec.chunkCount size input.schedule input.rest.length ≤ 2 ^ 24
  · by_cases hbad : input.rest = [] ∨ (∃ k, o.maxTreeDegree = some k ∧ k < 2) ∨
        o.maxPacketSize < Spec.bareBytes o ctx input.rest.length + c + 72
    · exact .inr (.inr (.inl (C126_no_tree hlow henc hc hctx (by omega) hsize h2 hbad)))
    · simp only [not_or, not_exists, not_and, Nat.not_lt] at hbad
      obtain ⟨h1, h3, h4⟩ := hbad
      by_cases h5 : Spec.rootBytes o ctx input.rest.length + c' ≤ o.maxPacketSize
      · exact .inl ((C125_published hP hlow hhigh henc hsig hc hc' hann hctx hnames hn hx hfit hsize).mpr ⟨h1, h2, h3, h4, h5⟩)
      · exact .inr (.inr (.inr (C126_no_root hP hlow hhigh henc hsig hc hc' hann hctx hnames hn hx hfit hsize h1 h2 h3 h4 (by omega))))
  · exact .inr (.inl (C122_left_behind hctx hsize (by omega) (by omega)))

/-! ## Instances -/

set_option maxRecDepth 100000 in
/-- C126 (b), and with the same hypotheses (c): 300 bytes under a key that the root carries wrapped, packets of 230 bytes: everything but the root is left behind. -/
example : ∃ e ps ms top, manifestTree Toy.env Spec.exactLog (Toy.wrappedKeyOptions 230) 1 (Toy.shortReads 300) =
      (.error e, ps ++ ms ++ [top]) ∧ (ps.map (fun p => p.body.payload.getD [])).flatten = (Toy.shortReads 300).rest := by
  obtain ⟨ctx, n, v, g1, g2, g3, g4, g5, g6, g7⟩ := Toy.rootRoom_ok (o := Toy.wrappedKeyOptions 230) (total := 300)
    (a := 200) (b := 89) (c := 111) (by decide +kernel)
  obtain ⟨ctx', _, _, _, _, h1, h2, _⟩ := Toy.stages_ok (n := 300) (b := false) (o := Toy.wrappedKeyOptions 230)
    (by decide +kernel)
  rw [g1] at h1
  cases h1
  have hs : Spec.Signs Toy.env.prims (Toy.wrappedKeyOptions 230).signer 16 := Nat.le_refl 16
  have h300 : (Toy.shortReads 300).rest.length = 300 := by decide +kernel
  obtain ⟨e, ps, ms, top, _, _, r1, _, _, _, r2, _⟩ := C126_no_root (o := Toy.wrappedKeyOptions 230) (L := Spec.exactLog) Toy.lengthOnly exactLog_notLow
    exactLog_notHigh Toy.encrypts hs (Toy.sealCost_ok (c := 54) (by decide +kernel)) (Toy.sealCost_ok (c := 123) (by decide +kernel))
    (.inr (by decide +kernel)) g1 h2 g2 g3 (by omega) g5 (input := Toy.shortReads 300) (by decide) (by decide +kernel)
    (fun k hk => by cases hk) (by rw [h300, g6]; decide) (by rw [h300, g7]; decide)
  exact ⟨e, ps, ms, top, r1, r2⟩

set_option maxRecDepth 100000 in
/-- C126 (a): in packets of 200 bytes not even the other manifests fit, and the data objects are left behind. -/
example : ∃ e out, manifestTree Toy.env Spec.exactLog (Toy.wrappedKeyOptions 200) 1 (Toy.shortReads 300) = (.error e, out) ∧
    (∀ p ∈ out, p.body.payloadType = some PT_DATA) ∧
    (out.map (fun p => p.body.payload.getD [])).flatten = (Toy.shortReads 300).rest := by
  obtain ⟨ctx, n, v, g1, g2, g3, g4, g5, g6, g7⟩ := Toy.rootRoom_ok (o := Toy.wrappedKeyOptions 200) (total := 300)
    (a := 170) (b := 89) (c := 111) (by decide +kernel)
  have h300 : (Toy.shortReads 300).rest.length = 300 := by decide +kernel
  exact C126_no_tree (o := Toy.wrappedKeyOptions 200) (L := Spec.exactLog) exactLog_notLow Toy.encrypts
    (Toy.sealCost_ok (c := 54) (by decide +kernel)) g1 (by decide) g5 (by decide +kernel)
    (.inr (.inr (by rw [h300, g6]; decide)))

end Ccnpy
