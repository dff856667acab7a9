import Verif.Props.EqualityProps
import Verif.Props.MissingProps

/-!
# C88: the hash of the root binds the content
-/

namespace Ccnpy

/-- A reader that is asked for a hash answers only with packets of that digest. -/
def Spec.Honest (P : Prims) (rd : Reader) : Prop := ∀ name h p, rd name (some h) = .ok p → Spec.HasDigest P h p

/-- No packet of the first kind and packet of the second kind have the same digest of different bytes. -/
def Spec.NoClash (P : Prims) (A B : Packet → Prop) : Prop :=
  ∀ p q, A p → B q → ∀ x y, p.hashInput = .ok x → q.hashInput = .ok y → P.sha256 x = P.sha256 y → x = y

/-- The packets a reader has. -/
def Spec.Has (rd : Reader) (p : Packet) : Prop := ∃ name h, rd name h = .ok p

/-! ## Packets with the same hash input -/

/-- What a traversal sees of a packet. -/
def Alike (p q : Packet) : Prop := p.body.payloadType = q.body.payloadType ∧ p.body.payload = q.body.payload

theorem hashInput_body {p : Packet} {x : Bytes} (h : p.hashInput = .ok x) :
    ∃ t r, p.body.tlv = .ok t ∧ t.Valid ∧ x = t.bytes ++ r := by
  obtain ⟨b, hb, h⟩ := bind_eq_ok.mp h
  obtain ⟨a, _, h⟩ := bind_eq_ok.mp h
  obtain ⟨v, _, h⟩ := bind_eq_ok.mp h
  cases h
  obtain ⟨t, ht, hs⟩ := bind_eq_ok.mp hb
  obtain ⟨hv, rfl⟩ := Tlv.serialize_ok hs
  exact ⟨t, a ++ v, ht, hv, by simp⟩

theorem alike_of_hashInput {p q : Packet} {x : Bytes} (hp : p.hashInput = .ok x) (hq : q.hashInput = .ok x) : Alike p q := by
  obtain ⟨t, r, ht, vt, rfl⟩ := hashInput_body hp
  obtain ⟨u, r', hu, vu, e⟩ := hashInput_body hq
  have h1 := Tlv.deserialize_bytes t vt r
  rw [e, Tlv.deserialize_bytes u vu r'] at h1
  cases Except.ok.inj h1
  exact ContentObject.same_payload ht hu

theorem hash_input {P : Prims} {p : Packet} {g : HashValue} (h : p.hash P.sha256 = .ok g) :
    ∃ x, p.hashInput = .ok x ∧ g.value = P.sha256 x := by
  obtain ⟨x, hx, h⟩ := bind_eq_ok.mp h
  cases h
  exact ⟨x, hx, rfl⟩

theorem alike_of_digest {P : Prims} {A B : Packet → Prop} (hc : Spec.NoClash P A B) {p q : Packet} (hA : A p) (hB : B q)
    {h : HashValue} (hp : Spec.HasDigest P h p) (hq : Spec.HasDigest P h q) : Alike p q := by
  obtain ⟨g, hg, eg⟩ := hp
  obtain ⟨k, hk, ek⟩ := hq
  obtain ⟨x, hx, ex⟩ := hash_input hg
  obtain ⟨y, hy, ey⟩ := hash_input hk
  have := hc p q hA hB x y hx hy (by rw [← ex, ← ey, eg, ek])
  subst this
  exact alike_of_hashInput hx hy

/-! ## Two traversals side by side -/

/-- The second run does what the first did, or stops on the way. -/
def Follows (s s1 : TState) (y : Py Unit × TState) : Prop :=
  s.writes <+: s1.writes ∧ y.2.writes <+: s1.writes ∧ (y.1 = .ok () → y.2 = s1)

theorem Follows.failed {s s1 : TState} (h : s.writes <+: s1.writes) (e : PyErr) : Follows s s1 (.error e, s) :=
  ⟨h, h, fun h => by cases h⟩

theorem Follows.lift {α : Type} {x : Py α} {k : α → PyS TState Unit} {s s1 : TState} (h : s.writes <+: s1.writes)
    (hk : ∀ a, x = .ok a → Follows s s1 (k a s)) : Follows s s1 ((PyS.lift x >>= k) s) := by
  cases x with
  | error e => exact Follows.failed h e
  | ok a => rw [PyS.liftBind_run rfl]; exact hk a rfl

theorem Follows.report {x : PyS TState Unit} {s s1 : TState} (m : Manifest) (h : Follows s s1 (x s)) :
    Follows s s1 (reportError m x s) := by
  obtain ⟨h1, h2, h3⟩ := h
  unfold reportError
  rcases hx : x s with ⟨r, t⟩
  rw [hx] at h2 h3
  cases r with
  | ok _ => exact ⟨h1, h2, h3⟩
  | error e =>
    refine ⟨h1, h2, fun h => ?_⟩
    obtain ⟨_, _, h⟩ := bind_eq_ok.mp h
    cases h

theorem Follows.cast {s s' s1 : TState} {y : Py Unit × TState} (h : Follows s s1 y) (e : s.writes = s'.writes) : Follows s' s1 y :=
  ⟨e ▸ h.1, h.2⟩

theorem visitLoop_follows {P : Prims} {A B : Reader} {ks : Option Keystore} (hA : Spec.Honest P A) (hB : Spec.Honest P B)
    (hc : Spec.NoClash P (Spec.Has A) (Spec.Has B)) {f g : Packet → PyS TState Unit}
    (hfg : ∀ p q s s1, Alike p q → f p s = (.ok (), s1) → Follows s s1 (g q s)) (nc : NcCache) (fuel : Nat) (it : NodeIterator)
    (s s1 : TState) (h : TravEnv.visitLoop ⟨P, A, ks⟩ f nc fuel it s = (.ok (), s1)) :
    Follows s s1 (TravEnv.visitLoop ⟨P, B, ks⟩ g nc fuel it s) := by
  induction fuel generalizing it s with
  | zero =>
    unfold TravEnv.visitLoop at h ⊢
    obtain ⟨r, hr, h⟩ := PyS.liftBind_ok h
    rw [PyS.liftBind_run hr]
    cases r with
    | none => cases h; exact ⟨List.prefix_rfl, List.prefix_rfl, fun _ => rfl⟩
    | some v => cases h
  | succ fuel ih =>
    unfold TravEnv.visitLoop at h ⊢
    obtain ⟨r, hr, h⟩ := PyS.liftBind_ok h
    rw [PyS.liftBind_run hr]
    cases r with
    | none => cases h; exact ⟨List.prefix_rfl, List.prefix_rfl, fun _ => rfl⟩
    | some v =>
      obtain ⟨v, it⟩ := v
      obtain ⟨p, hp, h⟩ := PyS.liftBind_ok h
      obtain ⟨_, hv, h⟩ := PyS.liftBind_ok h
      obtain ⟨_, s2, hf, h⟩ := PyS.bind_ok h
      have hrest := ih it s2 h
      have hg : ∀ q, Alike p q → Follows s s2 (g q s) := fun q hq => hfg p q s s2 hq hf
      have hpre : s.writes <+: s1.writes := (hg p ⟨rfl, rfl⟩).1.trans hrest.1
      dsimp only
      refine Follows.lift hpre fun q hq => ?_
      have halike : Alike p q := by
        obtain ⟨i, hi, hp⟩ := bind_eq_ok.mp hp
        obtain ⟨n, hn, hp⟩ := bind_eq_ok.mp hp
        obtain ⟨i', hi', hq⟩ := bind_eq_ok.mp hq
        obtain ⟨n', hn', hq⟩ := bind_eq_ok.mp hq
        exact alike_of_digest hc ⟨_, _, hp⟩ ⟨_, _, hq⟩ (hA _ _ _ hp) (hB _ _ _ hq)
      refine Follows.lift hpre fun _ _ => ?_
      obtain ⟨g1, g2, g3⟩ := hg q halike
      rcases hgq : g q s with ⟨r, s3⟩
      rw [hgq] at g2 g3
      cases r with
      | error e => rw [PyS.bind_of_error hgq]; exact ⟨hpre, g2.trans hrest.1, fun h => by cases h⟩
      | ok u =>
        rw [PyS.bind_of_ok hgq]
        cases g3 rfl
        exact ⟨hpre, hrest.2⟩

/-! ### Nothing written is taken back -/

theorem decrypt_keeps (T : TravEnv) (w : List Bytes) (m : Manifest) : PyS.Keeps (fun s => w <+: s.writes) (T.decrypt m) := by
  intro s hs
  unfold TravEnv.decrypt
  split <;> exact hs

theorem visitLoop_keeps (T : TravEnv) (w : List Bytes) {f : Packet → PyS TState Unit}
    (hf : ∀ p, PyS.Keeps (fun s => w <+: s.writes) (f p)) (nc : NcCache) (fuel : Nat) (it : NodeIterator) :
    PyS.Keeps (fun s => w <+: s.writes) (T.visitLoop f nc fuel it) := by
  induction fuel generalizing it with
  | zero =>
    unfold TravEnv.visitLoop
    refine .bind (.lift _) fun r => ?_
    cases r with
    | none => exact .pure _
    | some v => exact .lift _
  | succ fuel ih =>
    unfold TravEnv.visitLoop
    refine .bind (.lift _) fun r => ?_
    cases r with
    | none => exact .pure _
    | some v => exact .bind (.lift _) fun p => .bind (.lift _) fun _ => .bind (hf p) fun _ => ih _

theorem reportError_keeps {w : List Bytes} {m : Manifest} {x : PyS TState Unit} (hx : PyS.Keeps (fun s => w <+: s.writes) x) :
    PyS.Keeps (fun s => w <+: s.writes) (reportError m x) := by
  intro s hs
  have := hx s hs
  unfold reportError
  split <;> rename_i h <;> rw [h] at this <;> exact this

theorem preorder_keeps (T : TravEnv) (w : List Bytes) (d : Nat) (nc : NcCache) (p : Packet) :
    PyS.Keeps (fun s => w <+: s.writes) (T.preorder d nc p) := by
  induction d generalizing nc p with
  | zero => exact .lift _
  | succ d ih =>
    rw [TravEnv.preorder]
    refine .bind (.lift _) fun _ => .bind (.modify fun s h => h) fun _ => ?_
    split
    · exact .lift _
    · split
      · refine .bind (.lift _) fun m => .bind (decrypt_keeps T w m) fun m => ?_
        split
        · exact .lift _
        · exact .bind (.lift _) fun nc => reportError_keeps (visitLoop_keeps T w (fun q => ih nc q) nc _ _)
      · split
        · unfold writeData
          split
          · exact .lift _
          · exact .modify fun s h => h.trans (List.prefix_append _ _)
        · exact .lift _

theorem preorder_follows {P : Prims} {A B : Reader} {ks : Option Keystore} (hA : Spec.Honest P A) (hB : Spec.Honest P B)
    (hc : Spec.NoClash P (Spec.Has A) (Spec.Has B)) (d d' : Nat) (nc : NcCache) (p q : Packet) (s s1 : TState) (hpq : Alike p q)
    (h : TravEnv.preorder ⟨P, A, ks⟩ d nc p s = (.ok (), s1)) : Follows s s1 (TravEnv.preorder ⟨P, B, ks⟩ d' nc q s) := by
  induction d generalizing d' nc p q s s1 with
  | zero => cases h
  | succ d ih =>
    have hpre : s.writes <+: s1.writes := by
      have := preorder_keeps ⟨P, A, ks⟩ s.writes (d + 1) nc p s List.prefix_rfl
      rw [h] at this
      exact this
    cases d' with
    | zero => exact Follows.failed hpre _
    | succ d' =>
      rw [TravEnv.preorder] at h ⊢
      obtain ⟨_, _, h⟩ := PyS.liftBind_ok h
      obtain ⟨_, s0, hs0, h⟩ := PyS.bind_ok h
      cases hs0
      refine Follows.lift hpre fun _ _ => ?_
      rw [PyS.bind_of_ok (PyS.modify_run _ _)]
      rw [hpq.1] at h
      cases hty : q.body.payloadType with
      | none => rw [hty] at h; cases h
      | some ty =>
        rw [hty] at h
        dsimp only at h ⊢
        by_cases hm : ty = PT_MANIFEST
        · rw [if_pos hm] at h ⊢
          have hco : Manifest.fromContentObject p.body = Manifest.fromContentObject q.body := by
            unfold Manifest.fromContentObject
            rw [hpq.1, hpq.2]
          obtain ⟨m, hm, h⟩ := PyS.liftBind_ok h
          rw [hco] at hm
          rw [PyS.liftBind_run hm]
          obtain ⟨m', s2, hd, h⟩ := PyS.bind_ok h
          rw [PyS.bind_of_ok (show TravEnv.decrypt ⟨P, B, ks⟩ m _ = (.ok m', s2) from hd)]
          have hw : s2.writes = s.writes := by
            have hd : TravEnv.decrypt ⟨P, B, ks⟩ m { s with count := s.count + 1 } = (.ok m', s2) := hd
            unfold TravEnv.decrypt at hd
            split at hd
            · cases hd
            · exact (congrArg (fun x => x.2.writes) hd).symm
          cases hn : m'.node with
          | encrypted e => rw [hn] at h; cases h
          | plain node =>
            rw [hn] at h
            dsimp only at h ⊢
            obtain ⟨nc', hnc, h⟩ := PyS.liftBind_ok h
            rw [PyS.liftBind_run hnc]
            have := visitLoop_follows (ks := ks) hA hB hc (fun p q s s1 hpq h => ih d' nc' p q s s1 hpq h) nc' _ _ s2 s1
              (reportError_ok h)
            exact (this.report m').cast hw
        · rw [if_neg hm] at h ⊢
          by_cases hd : ty = PT_DATA
          · rw [if_pos hd] at h ⊢
            rw [hpq.2] at h
            rw [h]
            exact ⟨hpre, List.prefix_rfl, fun _ => rfl⟩
          · rw [if_neg hd] at h
            obtain ⟨h, _⟩ := PyS.lift_ok h
            obtain ⟨_, _, h⟩ := bind_eq_ok.mp h
            cases h

/-! ## C88 -/

/-- C88: if a traversal from a hash returns, then every other traversal from this hash, with whatever reader that answers by hash
only with packets of that hash, with whatever recursion limit, and whatever name the root is asked for by, writes the same or a
beginning of it, unless SHA-256 collides between the packets of the two readers; and if it returns it has written the same, visited
as many packets and stands in the same state. -/
theorem C88_hash_binds (P : Prims) (A B : Reader) (ks : Option Keystore) (hA : Spec.Honest P A) (hB : Spec.Honest P B)
    (hc : Spec.NoClash P (Spec.Has A) (Spec.Has B)) (h : HashValue) (d d' : Nat) (name name' : Option Name) (s s1 s2 : TState)
    (r : Py Unit) (h1 : TravEnv.traverse ⟨P, A, ks⟩ d name (some h) s = (.ok (), s1))
    (h2 : TravEnv.traverse ⟨P, B, ks⟩ d' name' (some h) s = (r, s2)) :
    s2.writes <+: s1.writes ∧ (r = .ok () → s2 = s1) := by
  obtain ⟨p, hp, h1⟩ := PyS.liftBind_ok h1
  obtain ⟨_, _, h1⟩ := PyS.liftBind_ok h1
  have hpre : s.writes <+: s1.writes := by
    have := preorder_keeps ⟨P, A, ks⟩ s.writes d [] p s List.prefix_rfl
    rw [h1] at this
    exact this
  have : Follows s s1 (TravEnv.traverse ⟨P, B, ks⟩ d' name' (some h) s) := by
    refine Follows.lift hpre fun q hq => Follows.lift hpre fun _ _ => ?_
    exact preorder_follows hA hB hc d d' [] p q s s1
      (alike_of_digest hc ⟨_, _, hp⟩ ⟨_, _, hq⟩ (hA _ _ _ hp) (hB _ _ _ hq)) h1
  rw [h2] at this
  exact this.2

theorem putAll_entries {P : Prims} {ps : List Packet} {a b : MemoryStore} (h : a.putAll P ps = .ok b) :
    ∀ e ∈ b.byHash, e ∈ a.byHash ∨ e.2 ∈ ps := by
  induction ps generalizing a with
  | nil => cases Except.ok.inj h; exact fun e he => .inl he
  | cons p ps ih =>
    obtain ⟨m, hm, h⟩ := bind_eq_ok.mp h
    intro e he
    rcases ih h e he with he | he
    · obtain ⟨n, _, hm⟩ := bind_eq_ok.mp hm
      obtain ⟨hv, _, hm⟩ := bind_eq_ok.mp hm
      dsimp only at hm
      split at hm
      · cases hm; exact .inl he
      · cases hm
        simp only [List.mem_append, List.mem_singleton] at he
        rcases he with he | rfl
        · exact .inl he
        · exact .inr (by simp)
    · exact .inr (by simp [he])

theorem Spec.Holds.honest {P : Prims} {qs : List Packet} {store : MemoryStore} (h : Spec.Holds P qs store) :
    Spec.Honest P (store.reader P) := fun _ _ _ hr => h.filed.reader hr

theorem Spec.Holds.has {P : Prims} {qs : List Packet} {store : MemoryStore} (h : Spec.Holds P qs store) {q : Packet}
    (hq : Spec.Has (store.reader P) q) : q ∈ qs := by
  obtain ⟨name, hash, hq⟩ := hq
  cases hash with
  | none => cases hq
  | some hv =>
    have hq : store.get P name hv = .ok q := hq
    have hf : store.find P hv = some q := by
      unfold MemoryStore.get at hq
      split at hq
      · cases hq
      · next p hp =>
        split at hq
        · cases hq; exact hp
        · split at hq
          · cases hq
          · split at hq
            · cases hq; exact hp
            · cases hq
    obtain ⟨e, he, rfl⟩ := Option.map_eq_some_iff.mp hf
    have he := List.mem_of_find?_eq_some he
    rcases h with h | h
    · rcases putAll_entries h e he with h | h
      · cases h
      · exact h
    · exact (ofPackets_entries h).1 e he

variable {E : Env} {L : FloatLog} {o : TreeOptions} {nc : Nat} {input : Stream} {root : Packet} {out : List Packet}
  {store : MemoryStore} {ks : Option Keystore}

/-- What comes of a traversal of a publication from somebody else's packets: nothing else than the chunks of the file, from the first
on and in their order; and if it returns, all of them. -/
def Spec.OnlyTheFile (out : List Packet) (file : Bytes) (r : Py Unit) (s : TState) : Prop :=
  s.writes.flatten <+: file ∧ s.writes.map some <+: (Spec.dataOf out).map (·.body.payload) ∧
    (r = .ok () → s.writes.flatten = file ∧ s.writes.map some = (Spec.dataOf out).map (·.body.payload) ∧ s.count = out.length)

theorem onlyTheFile {A : Reader} {hv : HashValue} {depth : Nat} (hA : Spec.Honest E.prims A) (hm : ∀ p, Spec.Has A p → p ∈ out)
    {file : Bytes} (h : Spec.ReturnedBy E o out A ks depth hv file) {B : Reader} (hB : Spec.Honest E.prims B)
    (hc : Spec.NoClash E.prims (· ∈ out) (Spec.Has B)) {d : Nat} {name : Option Name} {r : Py Unit} {s : TState}
    (hr : TravEnv.traverse ⟨E.prims, B, ks⟩ d name (some hv) (TState.new ks) = (r, s)) : Spec.OnlyTheFile out file r s := by
  obtain ⟨s1, h1, rfl, h3, h4⟩ := h
  obtain ⟨a, b⟩ := C88_hash_binds E.prims A B ks hA hB (fun p q hp => hc p q (hm p hp)) hv depth d _ _ _ _ _ r h1 hr
  refine ⟨?_, h3 ▸ a.map some, fun hr => by cases b hr; exact ⟨rfl, h3, h4⟩⟩
  obtain ⟨t, ht⟩ := a
  rw [← ht, List.flatten_append]
  exact List.prefix_append _ _

/-- C88: a file published with hashed or prefix names is read from the hash of its root, with any memory store or reader of any
packets, in any order, and by any name.  Nothing but the file is ever written, in order and from its start; if the traversal returns,
the whole file was written.  The only condition on these packets is that SHA-256 does not collide between them and those published. -/
theorem C88_tampered_store (hty : o.schemaType ≠ .segmented) (h : manifestTree E L o nc input = (.ok root, out))
    (hr : Spec.Equipped E o nc ks) (hc : Spec.NoCollision E.prims out) :
    ∃ hv, root.hash E.prims.sha256 = .ok hv ∧ ∀ qs store, Spec.Holds E.prims qs store →
      Spec.NoClash E.prims (· ∈ out) (· ∈ qs) → ∀ depth name r s,
        TravEnv.traverse ⟨E.prims, store.reader E.prims, ks⟩ depth name (some hv) (TState.new ks) = (r, s) →
        Spec.OnlyTheFile out input.rest r s := by
  obtain ⟨R⟩ := manifestTree_ok h
  obtain ⟨ids, level, i, kids, h1, h2, h3, h4, h5, h6, h7, h8⟩ := R.forest
  have hu : R.ctx.manifest.usesNameId ≠ true := fun hu => hty ((nameCtx_inv R.ctx_ok).2.2.mp hu)
  obtain ⟨hv, a, b⟩ := R.returnedBy hr (idealReader_serves hc) h2 h3 h6 h7 h8 (fun h => absurd h hu) (fun h => absurd h hu)
  refine ⟨hv, a, fun qs store hs hcl depth name r s ht => ?_⟩
  refine onlyTheFile (fun name h p hp => ?_) (fun p ⟨name, h, hp⟩ => (idealReader_ok hp).1) (b out.length (.inl (Nat.le_refl _)))
    hs.honest (fun p q hp hq => hcl p q hp (hs.has hq)) ht
  obtain ⟨_, _, g, e, hg⟩ := idealReader_ok hp
  cases e
  exact ⟨_, hg, rfl⟩

/-- C88: the same for every publication that can be read from a memory store at all, so also for the segmented ones of C50. -/
theorem C88_tampered_readable (hs : Spec.Holds E.prims out store) {depth : Nat} {hv : HashValue}
    (h : Spec.Returned E o out store ks depth hv input.rest) (qs : List Packet) (store' : MemoryStore)
    (hs' : Spec.Holds E.prims qs store') (hc : Spec.NoClash E.prims (· ∈ out) (· ∈ qs)) (depth' : Nat) (name : Option Name)
    (r : Py Unit) (s : TState)
    (ht : TravEnv.traverse ⟨E.prims, store'.reader E.prims, ks⟩ depth' name (some hv) (TState.new ks) = (r, s)) :
    Spec.OnlyTheFile out input.rest r s :=
  onlyTheFile hs.honest (fun _ hp => hs.has hp) h hs'.honest (fun p q hp hq => hc p q hp (hs'.has hq)) ht

/-- C88: two publications whose roots have the same hash are of the same file, cut into the same chunks, whatever the options, the times
and the nonces of the two were, unless SHA-256 collides between their packets. -/
theorem C88_root_determines_file {E' : Env} {L' : FloatLog} {o' : TreeOptions} {nc' : Nat} {input' : Stream} {root' : Packet}
    {out' : List Packet} (hP : E'.prims = E.prims)
    (hty : o.schemaType ≠ .segmented) (h : manifestTree E L o nc input = (.ok root, out))
    (hr : Spec.Equipped E o nc ks) (hc : Spec.NoCollision E.prims out)
    (hty' : o'.schemaType ≠ .segmented) (h' : manifestTree E' L' o' nc' input' = (.ok root', out'))
    (hr' : Spec.Equipped E' o' nc' ks) (hc' : Spec.NoCollision E'.prims out')
    (hcl : Spec.NoClash E.prims (· ∈ out) (· ∈ out')) (hroot : root'.hash E.prims.sha256 = root.hash E.prims.sha256) :
    input'.rest = input.rest ∧ (Spec.dataOf out').map (·.body.payload) = (Spec.dataOf out).map (·.body.payload) ∧
      out'.length = out.length := by
  obtain ⟨R⟩ := manifestTree_ok h
  obtain ⟨ids, level, i, kids, h1, h2, h3, h4, h5, h6, h7, h8⟩ := R.forest
  have hu : R.ctx.manifest.usesNameId ≠ true := fun hu => hty ((nameCtx_inv R.ctx_ok).2.2.mp hu)
  obtain ⟨hv, a, b⟩ := R.returnedBy hr (idealReader_serves hc) h2 h3 h6 h7 h8 (fun h => absurd h hu) (fun h => absurd h hu)
  obtain ⟨R'⟩ := manifestTree_ok h'
  obtain ⟨ids', level', i', kids', k1, k2, k3, k4, k5, k6, k7, k8⟩ := R'.forest
  have hu' : R'.ctx.manifest.usesNameId ≠ true := fun hu => hty' ((nameCtx_inv R'.ctx_ok).2.2.mp hu)
  obtain ⟨hv', a', b'⟩ := R'.returnedBy hr' (idealReader_serves hc') k2 k3 k6 k7 k8 (fun h => absurd h hu') (fun h => absurd h hu')
  have honest : ∀ (P : Prims) (ps : List Packet), Spec.Honest P (idealReader P ps) := by
    intro P ps name h p hp
    obtain ⟨_, _, g, e, hg⟩ := idealReader_ok hp
    cases e
    exact ⟨_, hg, rfl⟩
  rw [hP, hroot, a] at a'
  cases a'
  obtain ⟨s', t1, t2, t3, t4⟩ := b' out'.length (.inl (Nat.le_refl _))
  rw [hP] at t1
  obtain ⟨_, _, hall⟩ := onlyTheFile (honest E.prims out) (fun p ⟨name, h, hp⟩ => (idealReader_ok hp).1)
    (b out.length (.inl (Nat.le_refl _))) (honest E.prims out') (fun p q hp ⟨_, _, hq⟩ => hcl p q hp (idealReader_ok hq).1) t1
  obtain ⟨u1, u2, u3⟩ := hall rfl
  exact ⟨t2.symm.trans u1, t3.symm.trans u2, t4.symm.trans u3⟩

/-! ## Cases -/

/-- All pairs of packets with the same digest have the same bytes under it. -/
def Toy.clashFree (ps qs : List Packet) : Bool :=
  ps.all fun p => qs.all fun q =>
    match p.hashInput, q.hashInput with
    | .ok x, .ok y => Toy.prims.sha256 x != Toy.prims.sha256 y || x == y
    | _, _ => true

theorem Toy.noClash {ps qs : List Packet} (h : Toy.clashFree ps qs = true) : Spec.NoClash Toy.prims (· ∈ ps) (· ∈ qs) := by
  intro p q hp hq x y hx hy he
  have := List.all_eq_true.mp (List.all_eq_true.mp h p hp) q hq
  rw [hx, hy] at this
  simpa [he] using this

/-- The packets with the data object of the given payload replaced by one with the same name and another payload. -/
def Toy.tampered (b : Bytes) (out : List Packet) : List Packet :=
  out.map fun p => if p.body.payload = some b then (Toy.forgery p).toOption.getD p else p

set_option maxRecDepth 100000 in
/-- C88: eight data objects, prefix names, encrypted; the third data object is replaced. -/
example : ∃ root out store, manifestTree Toy.env Spec.exactLog (Toy.options .prefixed true) 1 (Toy.shortReads 32) = (.ok root, out) ∧
    Spec.Equipped Toy.env (Toy.options .prefixed true) 1 (some Toy.aesKeys) ∧ Spec.NoCollision Toy.prims out ∧
    Spec.Holds Toy.prims (Toy.tampered [8, 9, 10, 11] out) store ∧ Toy.tampered [8, 9, 10, 11] out ≠ out ∧
    Spec.NoClash Toy.prims (· ∈ out) (· ∈ Toy.tampered [8, 9, 10, 11] out) := by
  obtain ⟨root, out, h, hn, he, hc⟩ := Toy.equipped (o := Toy.options .prefixed true) (input := Toy.shortReads 32) (n := 8)
    trivial Toy.canDecrypt (Toy.plain ⟨rfl, rfl, rfl⟩) (Toy.text rfl rfl rfl) (by decide +kernel)
  obtain ⟨store, hs⟩ := Toy.ok_of_isOk (x := MemoryStore.ofPackets Toy.prims
    (Toy.tampered [8, 9, 10, 11] (manifestTree Toy.env Spec.exactLog (Toy.options .prefixed true) 1 (Toy.shortReads 32)).2))
    (by decide +kernel)
  have hl : Toy.tampered [8, 9, 10, 11] (manifestTree Toy.env Spec.exactLog (Toy.options .prefixed true) 1 (Toy.shortReads 32)).2 ≠
      (manifestTree Toy.env Spec.exactLog (Toy.options .prefixed true) 1 (Toy.shortReads 32)).2 := by decide +kernel
  have hf : Toy.clashFree (manifestTree Toy.env Spec.exactLog (Toy.options .prefixed true) 1 (Toy.shortReads 32)).2
      (Toy.tampered [8, 9, 10, 11] (manifestTree Toy.env Spec.exactLog (Toy.options .prefixed true) 1 (Toy.shortReads 32)).2) = true := by
    decide +kernel
  rw [h] at hs hl hf
  exact ⟨root, out, store, h, he, hc, .inr hs, hl, Toy.noClash hf⟩

set_option maxRecDepth 100000 in
/-- C88: the same file read from two streams that give it in pieces of four bytes for different lengths of time. -/
example : ∃ (root : Packet) (out : List Packet) (input' : Stream),
    manifestTree Toy.env Spec.exactLog (Toy.options .prefixed true) 1 (Toy.shortReads 32) = (.ok root, out) ∧
    manifestTree Toy.env Spec.exactLog (Toy.options .prefixed true) 1 input' = (.ok root, out) ∧ input' ≠ Toy.shortReads 32 ∧
    Spec.Equipped Toy.env (Toy.options .prefixed true) 1 (some Toy.aesKeys) ∧ Spec.NoCollision Toy.prims out ∧
    Spec.NoClash Toy.prims (· ∈ out) (· ∈ out) := by
  obtain ⟨root, out, h, hn, he, hc⟩ := Toy.equipped (o := Toy.options .prefixed true) (input := Toy.shortReads 32) (n := 8)
    trivial Toy.canDecrypt (Toy.plain ⟨rfl, rfl, rfl⟩) (Toy.text rfl rfl rfl) (by decide +kernel)
  have hf : Toy.clashFree (manifestTree Toy.env Spec.exactLog (Toy.options .prefixed true) 1 (Toy.shortReads 32)).2
      (manifestTree Toy.env Spec.exactLog (Toy.options .prefixed true) 1 (Toy.shortReads 32)).2 = true := by decide +kernel
  have h1 : (manifestTree Toy.env Spec.exactLog (Toy.options .prefixed true) 1 ⟨Toy.bytes 32, List.replicate 20 4⟩).1.toOption =
      (manifestTree Toy.env Spec.exactLog (Toy.options .prefixed true) 1 (Toy.shortReads 32)).1.toOption := by decide +kernel
  have h2 : (manifestTree Toy.env Spec.exactLog (Toy.options .prefixed true) 1 ⟨Toy.bytes 32, List.replicate 20 4⟩).2 =
      (manifestTree Toy.env Spec.exactLog (Toy.options .prefixed true) 1 (Toy.shortReads 32)).2 := by decide +kernel
  rw [h] at h1 h2 hf
  refine ⟨root, out, ⟨Toy.bytes 32, List.replicate 20 4⟩, h, ?_, fun e => absurd (congrArg Stream.schedule e) (by decide), he, hc, Toy.noClash hf⟩
  rcases hm : manifestTree Toy.env Spec.exactLog (Toy.options .prefixed true) 1 ⟨Toy.bytes 32, List.replicate 20 4⟩ with ⟨r, out'⟩
  rw [hm] at h1 h2
  cases r with
  | error e => cases h1
  | ok r =>
    cases h1
    cases h2
    rfl

end Ccnpy
