import Verif.Lemmas.Graph
import Verif.Lemmas.Nonces

/-!
# Lemmas about the manifest factory
-/

namespace Ccnpy

theorem mkPacket_len {hd : FixedHeader} {b : ContentObject} {a : Option ValidationAlg} {pl : Option Bytes} {p : Packet}
    (h : mkPacket hd b a pl = .ok p) : (∃ n, p.len = .ok n) ∧ ∃ w, p.hashInput = .ok w := by
  have hp := mkPacket_inv h
  unfold mkPacket at h
  split at h
  · cases h
  · obtain ⟨w, hw, h⟩ := bind_eq_ok.mp h
    rw [← hp] at hw
    refine ⟨⟨w.length, by rw [Packet.len, hw]; rfl⟩, ?_⟩
    obtain ⟨x1, h1, hw⟩ := bind_eq_ok.mp hw
    obtain ⟨x2, h2, hw⟩ := bind_eq_ok.mp hw
    obtain ⟨x3, h3, hw⟩ := bind_eq_ok.mp hw
    obtain ⟨x4, h4, hw⟩ := bind_eq_ok.mp hw
    exact ⟨x2 ++ x3 ++ x4, by rw [Packet.hashInput, h2, ok_bind, h3, ok_bind, h4, ok_bind]; rfl⟩

/-- A packet of the factory has been serialized. -/
theorem signPacket_len {P : Prims} {sg : Option Signer} {b : ContentObject} {p : Packet} (h : signPacket P sg b = .ok p) :
    (∃ n, p.len = .ok n) ∧ ∃ w, p.hashInput = .ok w := by
  have hs : ∀ {a pl}, Packet.createSigned b a pl = .ok p → (∃ n, p.len = .ok n) ∧ ∃ w, p.hashInput = .ok w := by
    intro a pl h
    obtain ⟨_, _, h⟩ := bind_eq_ok.mp h
    obtain ⟨_, _, h⟩ := bind_eq_ok.mp h
    obtain ⟨_, _, h⟩ := bind_eq_ok.mp h
    exact mkPacket_len h
  cases sg with
  | none =>
    obtain ⟨_, _, h⟩ := bind_eq_ok.mp h
    exact mkPacket_len h
  | some sg =>
    cases sg with
    | crc32c =>
      obtain ⟨_, _, h⟩ := bind_eq_ok.mp h
      obtain ⟨_, _, h⟩ := bind_eq_ok.mp h
      obtain ⟨_, _, h⟩ := bind_eq_ok.mp h
      obtain ⟨_, _, h⟩ := bind_eq_ok.mp h
      exact hs h
    | rsa k l t =>
      obtain ⟨_, _, h⟩ := bind_eq_ok.mp h
      obtain ⟨_, _, h⟩ := bind_eq_ok.mp h
      obtain ⟨_, _, h⟩ := bind_eq_ok.mp h
      obtain ⟨_, _, h⟩ := bind_eq_ok.mp h
      exact hs h

/-- The signer that is used. -/
def BuildArgs.effectiveSigner (o : TreeOptions) (a : BuildArgs) : Option Signer := if a.signer.isSome then o.signer else none

/-- The end of `build_packet` once the packet is there. -/
def factoryFinish (E : Env) (R : NameComponent → Text) (node : Node) (p : Packet) : PyS FState Packet := do
  recordManifest E.prims R p node
  let n ← PyS.lift p.len
  PyS.modify (fun s => { s with cntManifests := s.cntManifests + 1, cntManifestBytes := s.cntManifestBytes + n })
  return p

/-- `build_packet`, in terms of the case of a node. -/
theorem buildPacket_run (E : Env) (R : NameComponent → Text) (o : TreeOptions) (src : Source) (a : BuildArgs) (s : FState)
    (hs : a.signer.isSome → o.signer.isSome) :
    buildPacket E R o src a s =
      match sourceNode o src a with
      | .error e => (.error e, s)
      | .ok node =>
        match buildFromNode E o node a.name a.expiryTime (a.effectiveSigner o) a.full s.base with
        | (.error e, b) => (.error e, { s with base := b })
        | (.ok p, b) => factoryFinish E R node p { s with base := b } := by
  have hsign : ∀ body, factorySign E.prims o a.signer body = signPacket E.prims (a.effectiveSigner o) body := by
    intro body
    unfold factorySign BuildArgs.effectiveSigner
    cases h1 : a.signer with
    | none => rfl
    | some x =>
      have := hs (by rw [h1]; rfl)
      cases h2 : o.signer with
      | none => rw [h2] at this; cases this
      | some y => rfl
  unfold buildPacket factoryBuild
  cases hn : sourceNode o src a with
  | error e => simp [PyS.bind_run]
  | ok node =>
    simp only [buildFromNode, PyS.bind_run, PyS.lift_run, PyS.onBase]
    cases hm : buildManifest E o node a.full s.base with
    | mk r b =>
      cases r with
      | error e => rfl
      | ok m =>
        simp only []
        cases hw : m.serialize with
        | error e => rfl
        | ok w =>
          simp only []
          by_cases hc : w.length > o.maxPacketSize
          · obtain ⟨e, h1, h2⟩ := m.tooLarge_both (α := Manifest × Node) (β := Packet)
            simp only [if_pos hc, PyS.lift_run, h1, h2]
          · simp only [if_neg hc, PyS.pure_run, PyS.bind_run, PyS.lift_run]
            cases hb : m.contentObject a.name a.expiryTime with
            | error e => rfl
            | ok body =>
              simp only [hsign]
              cases hp : signPacket E.prims (a.effectiveSigner o) body with
              | error e => rfl
              | ok p => rfl

/-- A missing signer: nothing is made. -/
theorem buildPacket_no_signer {E : Env} {R : NameComponent → Text} {o : TreeOptions} {src : Source} {a : BuildArgs} {s s' : FState}
    {p : Packet} (h : buildPacket E R o src a s = (.ok p, s')) : a.signer.isSome → o.signer.isSome := by
  intro h1
  unfold buildPacket at h
  obtain ⟨⟨m, node⟩, s1, _, h⟩ := PyS.bind_ok h
  obtain ⟨body, _, h⟩ := PyS.liftBind_ok h
  obtain ⟨q, hq, h⟩ := PyS.liftBind_ok h
  unfold factorySign at hq
  cases h2 : a.signer with
  | none => rw [h2] at h1; cases h1
  | some x =>
    rw [h2] at hq
    cases h3 : o.signer with
    | none => simp only [h3] at hq; cases hq
    | some y => rfl

/-- Recording changes the graph only. -/
theorem recordManifest_frame (P : Prims) (R : NameComponent → Text) (p : Packet) (node : Node) (s : FState) :
    ∃ g, (recordManifest P R p node s).2 = { s with graph := g } := by
  unfold recordManifest
  split
  · exact ⟨s.graph, rfl⟩
  · split
    · exact ⟨s.graph, rfl⟩
    · unfold PyS.onGraph
      cases hg : s.graph with
      | none => rename_i h _ _ _; rw [hg] at h; exact absurd rfl h
      | some g => exact ⟨_, rfl⟩

/-- The end of `build_packet`: the packet is returned, the counters go up. -/
theorem factoryFinish_ok {E : Env} {R : NameComponent → Text} {node : Node} {p q : Packet} {s s' : FState}
    (h : factoryFinish E R node p s = (.ok q, s')) :
    q = p ∧ ∃ n g, p.len = .ok n ∧ recordManifest E.prims R p node s = (.ok (), { s with graph := g }) ∧
      s' = { s with graph := g, cntManifests := s.cntManifests + 1, cntManifestBytes := s.cntManifestBytes + n } := by
  unfold factoryFinish at h
  obtain ⟨_, s1, h1, h⟩ := PyS.bind_ok h
  obtain ⟨g, hg⟩ := recordManifest_frame E.prims R p node s
  rw [h1] at hg
  simp only at hg
  subst hg
  obtain ⟨n, hn, h⟩ := PyS.liftBind_ok h
  cases h
  exact ⟨rfl, n, g, hn, h1, rfl⟩

theorem factoryFinish_error {E : Env} {R : NameComponent → Text} {node : Node} {p : Packet} {e : PyErr} {s s' : FState}
    (hp : ∃ n, p.len = .ok n) (h : factoryFinish E R node p s = (.error e, s')) :
    ∃ g, recordManifest E.prims R p node s = (.error e, { s with graph := g }) ∧ s' = { s with graph := g } := by
  unfold factoryFinish at h
  obtain ⟨g, hg⟩ := recordManifest_frame E.prims R p node s
  rcases PyS.bind_error h with h1 | ⟨_, s1, h1, h⟩
  · rw [h1] at hg
    simp only at hg
    subst hg
    exact ⟨g, h1, rfl⟩
  · obtain ⟨n, hn⟩ := hp
    rw [PyS.bind_run, PyS.lift_run, hn] at h
    cases h

/-- A successful `build_packet`. -/
theorem buildPacket_ok {E : Env} {R : NameComponent → Text} {o : TreeOptions} {src : Source} {a : BuildArgs} {s s' : FState}
    {p : Packet} (h : buildPacket E R o src a s = (.ok p, s')) :
    ∃ node b n g, sourceNode o src a = .ok node ∧
      buildFromNode E o node a.name a.expiryTime (a.effectiveSigner o) a.full s.base = (.ok p, b) ∧ p.len = .ok n ∧
      recordManifest E.prims R p node { s with base := b } = (.ok (), { s with base := b, graph := g }) ∧
      s' = ⟨b, g, s.cntManifests + 1, s.cntManifestBytes + n⟩ := by
  rw [buildPacket_run E R o src a s (buildPacket_no_signer h)] at h
  cases hn : sourceNode o src a with
  | error e => rw [hn] at h; cases h
  | ok node =>
    rw [hn] at h
    simp only at h
    cases hb : buildFromNode E o node a.name a.expiryTime (a.effectiveSigner o) a.full s.base with
    | mk r b =>
      rw [hb] at h
      cases r with
      | error e => cases h
      | ok q =>
        simp only at h
        obtain ⟨rfl, n, g, h1, h2, h3⟩ := factoryFinish_ok h
        exact ⟨node, b, n, g, rfl, hb, h1, h2, h3⟩

/-- A computation that leaves the counters alone. -/
structure PyS.Uncounted {α : Type} (x : PyS FState α) : Prop where
  keeps : ∀ s, (x s).2.cntManifests = s.cntManifests ∧ (x s).2.cntManifestBytes = s.cntManifestBytes

theorem PyS.Uncounted.bind {α β : Type} {x : PyS FState α} {f : α → PyS FState β} (hx : x.Uncounted) (hf : ∀ a, (f a).Uncounted) :
    PyS.Uncounted (x >>= f) := by
  refine ⟨fun s => ?_⟩
  have h1 := hx.keeps s
  rw [PyS.bind_run]
  cases hr : x s with
  | mk r s1 =>
    rw [hr] at h1
    cases r with
    | error e => exact h1
    | ok a => exact ⟨((hf a).keeps s1).1.trans h1.1, ((hf a).keeps s1).2.trans h1.2⟩

theorem PyS.Uncounted.lift {α : Type} (x : Py α) : PyS.Uncounted (PyS.lift x : PyS FState α) := ⟨fun _ => ⟨rfl, rfl⟩⟩
theorem PyS.Uncounted.pure {α : Type} (x : α) : PyS.Uncounted (Pure.pure x : PyS FState α) := ⟨fun _ => ⟨rfl, rfl⟩⟩
theorem PyS.Uncounted.onBase {α : Type} (x : PyS BState α) : PyS.Uncounted x.onBase := ⟨fun _ => ⟨rfl, rfl⟩⟩

theorem factoryBuild_keeps (E : Env) (o : TreeOptions) (src : Source) (a : BuildArgs) : (factoryBuild E o src a).Uncounted := by
  refine (PyS.Uncounted.lift _).bind fun node => (PyS.Uncounted.onBase _).bind fun m => (PyS.Uncounted.lift _).bind fun w => ?_
  simp only
  split
  · exact PyS.Uncounted.lift _
  · exact PyS.Uncounted.pure _

theorem recordManifest_keeps (P : Prims) (R : NameComponent → Text) (p : Packet) (node : Node) : (recordManifest P R p node).Uncounted := by
  refine ⟨fun s => ?_⟩
  obtain ⟨g, hg⟩ := recordManifest_frame P R p node s
  rw [hg]
  exact ⟨rfl, rfl⟩

/-- A failed `build_packet` leaves the counters alone. -/
theorem buildPacket_error {E : Env} {R : NameComponent → Text} {o : TreeOptions} {src : Source} {a : BuildArgs} {s s' : FState}
    {e : PyErr} (h : buildPacket E R o src a s = (.error e, s')) :
    s'.cntManifests = s.cntManifests ∧ s'.cntManifestBytes = s.cntManifestBytes := by
  have use : ∀ {α : Type} {x : PyS FState α} {s s' : FState} {r : Py α}, x.Uncounted → x s = (r, s') →
      s'.cntManifests = s.cntManifests ∧ s'.cntManifestBytes = s.cntManifestBytes := by
    intro α x s s' r k h
    have := k.keeps s
    rw [h] at this
    exact this
  unfold buildPacket at h
  rcases PyS.bind_error h with h | ⟨⟨m, node⟩, s1, h1, h⟩
  · exact use (factoryBuild_keeps _ _ _ _) h
  have k1 := use (factoryBuild_keeps _ _ _ _) h1
  rcases PyS.bind_error h with h | ⟨b, s2, h1, h⟩
  · have k2 := use (PyS.Uncounted.lift _) h; exact ⟨k2.1.trans k1.1, k2.2.trans k1.2⟩
  have k2 := use (PyS.Uncounted.lift _) h1
  rcases PyS.bind_error h with h | ⟨p, s3, h1, h⟩
  · have k3 := use (PyS.Uncounted.lift _) h; exact ⟨k3.1.trans (k2.1.trans k1.1), k3.2.trans (k2.2.trans k1.2)⟩
  have k3 := use (PyS.Uncounted.lift _) h1
  rcases PyS.bind_error h with h | ⟨_, s4, h1, h⟩
  · have k4 := use (recordManifest_keeps _ _ _ _) h
    exact ⟨k4.1.trans (k3.1.trans (k2.1.trans k1.1)), k4.2.trans (k3.2.trans (k2.2.trans k1.2))⟩
  have k4 := use (recordManifest_keeps _ _ _ _) h1
  rcases PyS.bind_error h with h | ⟨_, s5, h1, h⟩
  · have k5 := use (PyS.Uncounted.lift _) h
    exact ⟨k5.1.trans (k4.1.trans (k3.1.trans (k2.1.trans k1.1))), k5.2.trans (k4.2.trans (k3.2.trans (k2.2.trans k1.2)))⟩
  cases h

end Ccnpy
