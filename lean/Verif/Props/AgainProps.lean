import Verif.Props.SharedProps

/-!
# C99: one `Traversal` object for several files
-/

namespace Ccnpy

/-! ## Specification -/

/-- A file and what it was published with and as. -/
structure Spec.Publication where
  log : FloatLog
  options : TreeOptions
  counter : Nat
  input : Stream
  root : Packet
  out : List Packet

/-- The file was published so, with hashed or prefix names; the reader returns its packets; the keys are there. -/
structure Spec.Publication.Readable (E : Env) (ks : Option Keystore) (rd : Reader) (b : Spec.Publication) : Prop where
  published : manifestTree E b.log b.options b.counter b.input = (.ok b.root, b.out)
  names : b.options.schemaType ≠ .segmented
  equipped : Spec.Equipped E b.options b.counter ks
  served : Serves E.prims b.out rd

/-- `traverse` called for one root after the other on one `Traversal` object. -/
def TravEnv.traverseAll (T : TravEnv) (depth : Nat) : List (Option Name × HashValue) → PyS TState Unit
  | [] => pure ()
  | (name, h) :: rest => do
    T.traverse depth name (some h)
    T.traverseAll depth rest

/-- The roots, by name and hash. -/
def Spec.Roots (P : Prims) (bs : List Spec.Publication) (rs : List (Option Name × HashValue)) : Prop :=
  List.Forall₂ (fun b r => r.1 = b.options.name ∧ b.root.hash P.sha256 = .ok r.2) bs rs

/-- The traversal has written the files, one after the other, and counted their packets. -/
def Spec.AllReturned (bs : List Spec.Publication) (t s : TState) : Prop :=
  s.writes.flatten = t.writes.flatten ++ (bs.map (·.input.rest)).flatten ∧ s.count = t.count + (bs.map (·.out.length)).sum

/-! ## Helpers -/

variable {E : Env} {ks : Option Keystore} {rd : Reader}

/-- One file, read by a traversal that was used before. -/
theorem Spec.Publication.Readable.read {b : Spec.Publication} (hb : b.Readable E ks rd) {t : TState}
    (ht : t.cache.Ready E.prims b.options.encryptor true) {J : DecryptorCache → Prop} (hJ : Undisturbed E.prims b.options.encryptor J)
    (hj : ∀ m r c', SealedFor b.options.encryptor m → t.cache.open E.prims m = (.ok r, c') → J c') :
    ∃ hv, b.root.hash E.prims.sha256 = .ok hv ∧ ∀ depth, b.out.length ≤ depth →
      ∃ s, TravEnv.traverse ⟨E.prims, rd, ks⟩ depth b.options.name (some hv) t = (.ok (), s) ∧
        s.writes.flatten = t.writes.flatten ++ b.input.rest ∧ s.count = t.count + b.out.length ∧
        s.cache.Ready E.prims b.options.encryptor false ∧ J s.cache := by
  obtain ⟨R⟩ := manifestTree_ok hb.published
  obtain ⟨ids, level, i, kids, h1, h2, h3, h4, h5, h6, h7, h8⟩ := R.forest
  have hu : R.ctx.manifest.usesNameId ≠ true := fun hu => hb.names ((nameCtx_inv R.ctx_ok).2.2.mp hu)
  obtain ⟨hv, a, c⟩ := R.writes_from hb.equipped ht hJ hj (R.servedBy hb.served ks) h2 h3 h6 h7 h8 (fun h => absurd h hu)
    (fun h => absurd h hu)
  refine ⟨hv, a, fun depth hd => ?_⟩
  obtain ⟨s, s1, s2, s3, s4, s5⟩ := c depth (.inl hd)
  exact ⟨s, s1, by rw [s2, List.flatten_append, R.bytes], s3, s4, s5⟩

theorem Spec.Publication.Readable.roots {bs : List Spec.Publication} (hb : ∀ b ∈ bs, b.Readable E ks rd) :
    ∃ rs, Spec.Roots E.prims bs rs := by
  induction bs with
  | nil => exact ⟨[], .nil⟩
  | cons b bs ih =>
    obtain ⟨rs, hr⟩ := ih (fun b h => hb b (by simp [h]))
    obtain ⟨R⟩ := manifestTree_ok (hb b (by simp)).published
    obtain ⟨hv, hh⟩ := R.root_hash
    exact ⟨(b.options.name, hv) :: rs, .cons ⟨rfl, hh⟩ hr⟩

/-- Files read one after the other, with what is needed of the cache between them. -/
theorem traverseAll_ok {J : DecryptorCache → Prop} {bs : List Spec.Publication} (hb : ∀ b ∈ bs, b.Readable E ks rd)
    (hready : ∀ b ∈ bs, ∀ c, J c → c.Ready E.prims b.options.encryptor true)
    (hJ : ∀ b ∈ bs, Undisturbed E.prims b.options.encryptor J ∨ ∀ c : DecryptorCache, c.Ready E.prims b.options.encryptor false → J c)
    {rs : List (Option Name × HashValue)} (hr : Spec.Roots E.prims bs rs) {depth : Nat} (hd : ∀ b ∈ bs, b.out.length ≤ depth)
    {t : TState} (ht : J t.cache) :
    ∃ s, TravEnv.traverseAll ⟨E.prims, rd, ks⟩ depth rs t = (.ok (), s) ∧ Spec.AllReturned bs t s ∧ J s.cache := by
  induction hr generalizing t with
  | nil => exact ⟨t, rfl, ⟨by simp, by simp⟩, ht⟩
  | @cons b r bs rs h1 _ ih =>
    obtain ⟨name, h⟩ := r
    obtain ⟨rfl, hh⟩ := h1
    have step : ∃ s, TravEnv.traverse ⟨E.prims, rd, ks⟩ depth b.options.name (some h) t = (.ok (), s) ∧
        s.writes.flatten = t.writes.flatten ++ b.input.rest ∧ s.count = t.count + b.out.length ∧ J s.cache := by
      rcases hJ b (by simp) with hJ | hJ
      · obtain ⟨hv, a, c⟩ := (hb b (by simp)).read (hready b (by simp) _ ht) hJ (fun m r c' h1 h2 => hJ m _ _ _ h1 ht h2)
        cases Except.ok.inj (hh.symm.trans a)
        obtain ⟨s, s1, s2, s3, _, s5⟩ := c depth (hd b (by simp))
        exact ⟨s, s1, s2, s3, s5⟩
      · obtain ⟨hv, a, c⟩ := (hb b (by simp)).read (hready b (by simp) _ ht) (J := fun _ => True) (fun _ _ _ _ _ _ _ => trivial)
          (fun _ _ _ _ _ => trivial)
        cases Except.ok.inj (hh.symm.trans a)
        obtain ⟨s, s1, s2, s3, s4, _⟩ := c depth (hd b (by simp))
        exact ⟨s, s1, s2, s3, hJ _ s4⟩
    obtain ⟨s, s1, s2, s3, s4⟩ := step
    obtain ⟨u, u1, u2, u3⟩ := ih (fun b h => hb b (by simp [h])) (fun b h => hready b (by simp [h])) (fun b h => hJ b (by simp [h]))
      (fun b h => hd b (by simp [h])) s4
    refine ⟨u, ?_, ?_, u3⟩
    · unfold TravEnv.traverseAll
      rw [PyS.bind_of_ok s1]
      exact u1
    · obtain ⟨v1, v2⟩ := u2
      refine ⟨?_, ?_⟩
      · rw [v1, s2]
        simp
      · rw [v2, s3]
        simp only [List.map_cons, List.sum_cons]
        omega

theorem open_plain (P : Prims) {m : Manifest} (h : m.isEncrypted = false) (c : DecryptorCache) : c.open P m = (.ok m, c) := by
  unfold DecryptorCache.open
  rw [h]
  rfl

/-- The decryptor at hand is that of the key filed under the number remembered. -/
def FromKeystore (K : Keystore) (c : DecryptorCache) : Prop :=
  c.oaep.keystore = K ∧ ∀ n, c.lastKeyNum = some n → ∃ q, K.getAesKey n = .ok q ∧ c.lastDecryptor = some (.aead q)

theorem FromKeystore.undisturbed (P : Prims) (K : Keystore) (p : AeadParams) : Undisturbed P (some (.aead p)) (FromKeystore K) := by
  rintro m c r c' ⟨he, d, hd, hn⟩ ⟨h1, h2⟩ ho
  unfold DecryptorCache.open DecryptorCache.getOrCreate at ho
  rw [he, hd] at ho
  simp only [if_true] at ho
  by_cases hl : c.lastKeyNum = some (SecurityCtx.aead d).aeadData.keyNumber
  · rw [if_pos hl] at ho
    obtain ⟨q, h3, h4⟩ := h2 _ hl
    simp only [h4, DecryptorCache.decrypt] at ho
    cases (Prod.mk.inj ho).2
    exact ⟨h1, h2⟩
  · rw [if_neg hl] at ho
    cases hg : c.oaep.keystore.getAesKey d.keyNumber with
    | error e =>
      simp only [DecryptorCache.create, hg] at ho
      cases ho
    | ok q =>
      simp only [DecryptorCache.create, hg, ok_bind, pure_eq_ok, DecryptorCache.decrypt] at ho
      cases (Prod.mk.inj ho).2
      refine ⟨h1, ?_⟩
      rintro n ⟨⟩
      exact ⟨q, h1 ▸ hg, rfl⟩

/-! ## C99 -/

/-- C99 (files): one `Traversal` object reads any number of files one after the other, each with whatever options, if those that are
encrypted are encrypted with keys of the keystore: it writes all of them, in the order asked, and counts their packets. -/
theorem C99_files {bs : List Spec.Publication} (hb : ∀ b ∈ bs, b.Readable E ks rd)
    (henc : ∀ b ∈ bs, b.options.encryptor = none ∨ ∃ p, b.options.encryptor = some (.aead p)) :
    ∃ rs, Spec.Roots E.prims bs rs ∧ ∀ depth, (∀ b ∈ bs, b.out.length ≤ depth) →
      ∃ s, TravEnv.traverseAll ⟨E.prims, rd, ks⟩ depth rs (TState.new ks) = (.ok (), s) ∧ Spec.AllReturned bs (TState.new ks) s := by
  obtain ⟨rs, hr⟩ := Spec.Publication.Readable.roots hb
  refine ⟨rs, hr, fun depth hd => ?_⟩
  have hready : ∀ b ∈ bs, ∀ c, FromKeystore (ks.getD {}) c → c.Ready E.prims b.options.encryptor true := by
    intro b hm c hc
    rcases henc b hm with h | ⟨p, h⟩
    · rw [h]; trivial
    · have hk := (hb b hm).equipped.decrypt
      rw [h] at hk ⊢
      obtain ⟨_, s, q, rfl, h1, h2⟩ := hk
      obtain ⟨c1, c2⟩ := hc
      refine ⟨q, by rw [c1]; exact h1, h2, fun hl => ?_⟩
      obtain ⟨q', h3, h4⟩ := c2 _ hl
      cases Except.ok.inj (h1.symm.trans h3)
      exact h4
  have hJ : ∀ b ∈ bs, Undisturbed E.prims b.options.encryptor (FromKeystore (ks.getD {})) := by
    intro b hm
    rcases henc b hm with h | ⟨p, h⟩
    · rw [h]
      intro m c r c' hs hc ho
      rw [open_plain _ hs] at ho
      cases ho
      exact hc
    · rw [h]
      exact FromKeystore.undisturbed _ _ p
  obtain ⟨s, s1, s2, _⟩ := traverseAll_ok hb hready (fun b hm => .inl (hJ b hm)) hr hd (t := TState.new ks) ⟨rfl, by simp [TState.new]⟩
  exact ⟨s, s1, s2⟩

/-- C99 (one encryptor): the same if the files that are encrypted are encrypted in the same way, be it with a wrapped key. -/
theorem C99_one_encryptor {bs : List Spec.Publication} (hb : ∀ b ∈ bs, b.Readable E ks rd) {enc : Encryptor}
    (henc : ∀ b ∈ bs, b.options.encryptor = none ∨ b.options.encryptor = some enc) :
    ∃ rs, Spec.Roots E.prims bs rs ∧ ∀ depth, (∀ b ∈ bs, b.out.length ≤ depth) →
      ∃ s, TravEnv.traverseAll ⟨E.prims, rd, ks⟩ depth rs (TState.new ks) = (.ok (), s) ∧ Spec.AllReturned bs (TState.new ks) s := by
  obtain ⟨rs, hr⟩ := Spec.Publication.Readable.roots hb
  refine ⟨rs, hr, fun depth hd => ?_⟩
  have hle : ∀ c : DecryptorCache, c.Ready E.prims (some enc) false → c.Ready E.prims (some enc) true := by
    intro c hc
    cases enc with
    | aead p => exact hc
    | oaep p w =>
      obtain ⟨h1, h2, h3, h4⟩ := hc
      refine ⟨h1, h2, h3, ?_⟩
      rcases h4 with h4 | ⟨h4, _⟩
      · exact .inl h4
      · cases h4
  by_cases hany : ∃ b ∈ bs, b.options.encryptor = some enc
  · obtain ⟨b0, hm0, h0⟩ := hany
    have hd0 := (hb b0 hm0).equipped.decrypt
    rw [h0] at hd0
    have hready : ∀ b ∈ bs, ∀ c : DecryptorCache, c.Ready E.prims (some enc) true → c.Ready E.prims b.options.encryptor true := by
      intro b hm c hc
      rcases henc b hm with h | h
      · rw [h]; trivial
      · rw [h]; exact hc
    obtain ⟨s, s1, s2, _⟩ := traverseAll_ok hb hready (fun b hm => by
      rcases henc b hm with h | h
      · rw [h]
        left
        intro m c r c' hs hc ho
        rw [open_plain _ hs] at ho
        cases ho
        exact hc
      · rw [h]
        exact .inr hle) hr hd (t := TState.new ks) (ready_new (hb b0 hm0).equipped.oaep hd0)
    exact ⟨s, s1, s2⟩
  · have hready : ∀ b ∈ bs, ∀ c : DecryptorCache, True → c.Ready E.prims b.options.encryptor true := by
      intro b hm c _
      rcases henc b hm with h | h
      · rw [h]; trivial
      · exact absurd ⟨b, hm, h⟩ hany
    obtain ⟨s, s1, s2, _⟩ := traverseAll_ok hb hready (fun b hm => .inl (fun _ _ _ _ _ _ _ => trivial)) hr hd
      (t := TState.new ks) trivial
    exact ⟨s, s1, s2⟩

/-- C99 (any history): a file that is not encrypted is read by a `Traversal` object in whatever state, say after other traversals that
failed: it is added to what was written. -/
theorem C99_not_encrypted {b : Spec.Publication} (hb : b.Readable E ks rd) (henc : b.options.encryptor = none) (t : TState) :
    ∃ hv, b.root.hash E.prims.sha256 = .ok hv ∧ ∀ depth, b.out.length ≤ depth →
      ∃ s, TravEnv.traverse ⟨E.prims, rd, ks⟩ depth b.options.name (some hv) t = (.ok (), s) ∧
        s.writes.flatten = t.writes.flatten ++ b.input.rest ∧ s.count = t.count + b.out.length := by
  obtain ⟨hv, a, c⟩ := hb.read (t := t) (by rw [henc]; trivial) (J := fun _ => True) (fun _ _ _ _ _ _ _ => trivial)
    (fun _ _ _ _ _ => trivial)
  refine ⟨hv, a, fun depth hd => ?_⟩
  obtain ⟨s, s1, s2, s3, _⟩ := c depth hd
  exact ⟨s, s1, s2, s3⟩

/-- The root manifest cannot be opened: nothing is written. -/
theorem Spec.Publication.Readable.stuck {b : Spec.Publication} (hb : b.Readable E ks rd) {t : TState} {e : PyErr}
    (hopen : ∀ m, SealedFor b.options.encryptor m → (t.cache.open E.prims m).1 = .error e) (hsome : b.options.encryptor ≠ none)
    {hv : HashValue} (hh : b.root.hash E.prims.sha256 = .ok hv) {depth : Nat} (hd : 1 ≤ depth) :
    ∃ s, TravEnv.traverse ⟨E.prims, rd, ks⟩ depth b.options.name (some hv) t = (.error e, s) ∧ s.writes = t.writes := by
  obtain ⟨R⟩ := manifestTree_ok hb.published
  have hr := hb.equipped
  obtain ⟨hv', c, node, m, H⟩ := R.root_read hr.aead hr.oaep hr.rsa hr.verify hr.decrypt hr.counter
  cases Except.ok.inj (hh.symm.trans H.hash)
  have hget := R.root_served (R.servedBy hb.served ks) hv H.hash
  have hks : ∃ k, ks = some k := by
    have := hr.decrypt
    revert this hsome
    cases b.options.encryptor with
    | none => simp
    | some enc =>
      intro _ h
      cases enc with
      | aead p => obtain ⟨_, k, _, h, _⟩ := h; exact ⟨k, h⟩
      | oaep p w => obtain ⟨_, _, k, h, _⟩ := h; exact ⟨k, h⟩
  obtain ⟨k, rfl⟩ := hks
  obtain ⟨d, rfl⟩ : ∃ d, depth = d + 1 := ⟨depth - 1, by omega⟩
  rcases hop : t.cache.open E.prims m with ⟨r, c'⟩
  have hr := hopen m H.sealed
  rw [hop] at hr
  simp only at hr
  subst hr
  have hdec : TravEnv.decrypt ⟨E.prims, rd, some k⟩ m { t with count := t.count + 1 } =
      (.error e, { t with count := t.count + 1, cache := c' }) := by
    simp [TravEnv.decrypt, hop]
  refine ⟨{ t with count := t.count + 1, cache := c' }, ?_, rfl⟩
  unfold TravEnv.traverse
  rw [PyS.liftBind_run hget, PyS.liftBind_run H.valid, TravEnv.preorder, PyS.liftBind_run H.hash, PyS.bind_run]
  simp only [PyS.modify_run, H.type]
  rw [if_pos trivial, PyS.liftBind_run H.parse]
  exact PyS.bind_of_error hdec

theorem open_aead {P : Prims} {p : AeadParams} {m r : Manifest} {c c' : DecryptorCache} (hs : SealedFor (some (.aead p)) m)
    (hc : c.lastKeyNum = some p.keyNumber → ∃ q, c.lastDecryptor = some (.aead q)) (ho : c.open P m = (.ok r, c')) :
    c'.lastKeyNum = some p.keyNumber ∧ ∃ q, c'.lastDecryptor = some (.aead q) := by
  obtain ⟨he, d, hd, hn⟩ := hs
  unfold DecryptorCache.open DecryptorCache.getOrCreate at ho
  rw [he, hd] at ho
  simp only [if_true, SecurityCtx.aeadData, hn] at ho
  by_cases hl : c.lastKeyNum = some p.keyNumber
  · rw [if_pos hl] at ho
    obtain ⟨q, h4⟩ := hc hl
    simp only [h4, DecryptorCache.decrypt] at ho
    cases (Prod.mk.inj ho).2
    exact ⟨hl, q, h4⟩
  · rw [if_neg hl] at ho
    cases hg : c.oaep.keystore.getAesKey d.keyNumber with
    | error e =>
      simp only [DecryptorCache.create, hg] at ho
      cases ho
    | ok q =>
      simp only [DecryptorCache.create, hg, ok_bind, pure_eq_ok, DecryptorCache.decrypt] at ho
      cases (Prod.mk.inj ho).2
      exact ⟨rfl, q, rfl⟩

theorem open_oaep {P : Prims} {p : AeadParams} {w : RsaOaepWrapper} {m r : Manifest} {c c' : DecryptorCache}
    (hs : SealedFor (some (.oaep p w)) m) (hc : c.lastKeyNum = some p.keyNumber → c.lastDecryptor = some .oaep)
    (ho : c.open P m = (.ok r, c')) : c'.lastKeyNum = some p.keyNumber ∧ c'.lastDecryptor = some .oaep := by
  obtain ⟨he, d, x, hd, hn⟩ := hs
  unfold DecryptorCache.open DecryptorCache.getOrCreate at ho
  rw [he, hd] at ho
  simp only [if_true, SecurityCtx.aeadData, hn] at ho
  by_cases hl : c.lastKeyNum = some p.keyNumber
  · rw [if_pos hl] at ho
    simp only [hc hl, DecryptorCache.decrypt] at ho
    cases (Prod.mk.inj ho).2
    exact ⟨hl, rfl⟩
  · rw [if_neg hl] at ho
    simp only [DecryptorCache.create, DecryptorCache.decrypt] at ho
    cases (Prod.mk.inj ho).2
    exact ⟨rfl, rfl⟩

/-- C99 (false in general): of two files, one encrypted with a key of the keystore and one with a wrapped key of the same number, each
can be read; but a `Traversal` object that has read the first raises TypeError on the second, and one that has read the second raises
AttributeError on the first.  (DecryptorCache.py:38-45 remembers one decryptor, by the key number only.) -/
theorem C99_two_kinds {a b : Spec.Publication} (ha : a.Readable E ks rd) (hb : b.Readable E ks rd) {p q : AeadParams}
    {w : RsaOaepWrapper} (hae : a.options.encryptor = some (.aead p)) (hbe : b.options.encryptor = some (.oaep q w))
    (hn : p.keyNumber = q.keyNumber) :
    ∃ ra rb, Spec.Roots E.prims [a, b] [ra, rb] ∧ ∀ depth, a.out.length ≤ depth → b.out.length ≤ depth →
      (∃ s, TravEnv.traverseAll ⟨E.prims, rd, ks⟩ depth [ra] (TState.new ks) = (.ok (), s) ∧ s.writes.flatten = a.input.rest) ∧
      (∃ s, TravEnv.traverseAll ⟨E.prims, rd, ks⟩ depth [rb] (TState.new ks) = (.ok (), s) ∧ s.writes.flatten = b.input.rest) ∧
      (∃ s, TravEnv.traverseAll ⟨E.prims, rd, ks⟩ depth [ra, rb] (TState.new ks) = (.error .typeError, s) ∧
        s.writes.flatten = a.input.rest) ∧
      (∃ s, TravEnv.traverseAll ⟨E.prims, rd, ks⟩ depth [rb, ra] (TState.new ks) = (.error .attributeError, s) ∧
        s.writes.flatten = b.input.rest) := by
  obtain ⟨va, hva, ga⟩ := ha.read (t := TState.new ks) (ready_new ha.equipped.oaep ha.equipped.decrypt)
    (J := fun c => c.lastKeyNum = some p.keyNumber ∧ ∃ q, c.lastDecryptor = some (.aead q))
    (by rw [hae]; exact fun m c r c' h1 h2 h3 => open_aead h1 (fun _ => h2.2) h3)
    (by rw [hae]; exact fun m r c' h1 h3 => open_aead h1 (by simp [TState.new]) h3)
  obtain ⟨vb, hvb, gb⟩ := hb.read (t := TState.new ks) (ready_new hb.equipped.oaep hb.equipped.decrypt)
    (J := fun c => c.lastKeyNum = some q.keyNumber ∧ c.lastDecryptor = some .oaep)
    (by rw [hbe]; exact fun m c r c' h1 h2 h3 => open_oaep h1 (fun _ => h2.2) h3)
    (by rw [hbe]; exact fun m r c' h1 h3 => open_oaep h1 (by simp [TState.new]) h3)
  refine ⟨(a.options.name, va), (b.options.name, vb), .cons ⟨rfl, hva⟩ (.cons ⟨rfl, hvb⟩ .nil), fun depth hda hdb => ?_⟩
  obtain ⟨s, s1, s2, s3, s4, s5, s6⟩ := ga depth hda
  obtain ⟨u, u1, u2, u3, u4, u5, u6⟩ := gb depth hdb
  have hb1 : 1 ≤ depth := by
    have : 1 ≤ a.out.length := by
      obtain ⟨R⟩ := manifestTree_ok ha.published
      have := congrArg List.length R.out_eq
      simp at this
      omega
    omega
  have hclash : ∃ s', TravEnv.traverse ⟨E.prims, rd, ks⟩ depth b.options.name (some vb) s = (.error .typeError, s') ∧
      s'.writes = s.writes := by
    refine hb.stuck ?_ (by rw [hbe]; simp) hvb hb1
    rw [hbe]
    rintro m ⟨he, d, x, hd, hk⟩
    obtain ⟨k, hk'⟩ := s6
    unfold DecryptorCache.open DecryptorCache.getOrCreate
    rw [he, hd]
    simp only [if_true, SecurityCtx.aeadData, hk, ← hn, s5, hk', DecryptorCache.decrypt, aeadDecryptManifest]
    cases hm : m.node with
    | plain n => rfl
    | encrypted c => rw [hd]
  have hclash' : ∃ s', TravEnv.traverse ⟨E.prims, rd, ks⟩ depth a.options.name (some va) u = (.error .attributeError, s') ∧
      s'.writes = u.writes := by
    refine ha.stuck ?_ (by rw [hae]; simp) hva hb1
    rw [hae]
    rintro m ⟨he, d, hd, hk⟩
    unfold DecryptorCache.open DecryptorCache.getOrCreate
    rw [he, hd]
    simp only [if_true, SecurityCtx.aeadData, hk, hn, u5, u6, DecryptorCache.decrypt, OaepDecryptor.decryptManifest, hd]
  obtain ⟨s', x1, x2⟩ := hclash
  obtain ⟨u', y1, y2⟩ := hclash'
  have hnew : (TState.new ks).writes.flatten = [] := rfl
  rw [hnew, List.nil_append] at s2 u2
  refine ⟨⟨s, ?_, s2⟩, ⟨u, ?_, u2⟩, ⟨s', ?_, by rw [x2, s2]⟩, ⟨u', ?_, by rw [y2, u2]⟩⟩
  · unfold TravEnv.traverseAll
    rw [PyS.bind_of_ok s1]
    rfl
  · unfold TravEnv.traverseAll
    rw [PyS.bind_of_ok u1]
    rfl
  · unfold TravEnv.traverseAll
    rw [PyS.bind_of_ok s1]
    unfold TravEnv.traverseAll
    exact PyS.bind_of_error x1
  · unfold TravEnv.traverseAll
    rw [PyS.bind_of_ok u1]
    unfold TravEnv.traverseAll
    exact PyS.bind_of_error y1

/-! ## Cases -/

namespace Toy

theorem serves_left {a b : List Packet} (hc : Spec.NoCollision prims (a ++ b)) : Serves prims a (idealReader prims (a ++ b)) := by
  have := idealReader_serves hc
  exact ⟨fun p hp => this.get p (List.mem_append_left _ hp), this.hashes⟩

theorem serves_right {a b : List Packet} (hc : Spec.NoCollision prims (a ++ b)) : Serves prims b (idealReader prims (a ++ b)) := by
  have := idealReader_serves hc
  exact ⟨fun p hp => this.get p (List.mem_append_right _ hp), this.hashes⟩

set_option maxRecDepth 100000 in
/-- C99 (files): a file that is not encrypted, then one that is, then the first again. -/
example : ∃ rd a b, Spec.Publication.Readable env (some aesKeys) rd a ∧ Spec.Publication.Readable env (some aesKeys) rd b ∧
    a.options.encryptor = none ∧ b.options.encryptor = some (.aead key) ∧ (Spec.dataOf a.out).length = 5 ∧
    (Spec.dataOf b.out).length = 8 ∧ ∃ rs, Spec.Roots prims [a, b, a] rs ∧
      ∃ s, TravEnv.traverseAll ⟨prims, rd, some aesKeys⟩ 13 rs (TState.new (some aesKeys)) = (.ok (), s) ∧
        s.writes.flatten = a.input.rest ++ (b.input.rest ++ a.input.rest) := by
  obtain ⟨ra, oa, h1, h2, h3, _⟩ := equipped (o := options .hashed false) (input := shortReads 20) (n := 5) (ks := some aesKeys)
    trivial trivial (plain ⟨rfl, rfl, rfl⟩) (text rfl rfl rfl) (by decide +kernel)
  obtain ⟨rb, ob, g1, g2, g3, _⟩ := equipped (o := options .prefixed true) (input := shortReads 32) (n := 8)
    trivial canDecrypt (plain ⟨rfl, rfl, rfl⟩) (text rfl rfl rfl) (by decide +kernel)
  have hc := filesApart
  have hla : fileB.2.length ≤ 13 := by decide +kernel
  have hlb : fileA.2.length ≤ 13 := by decide +kernel
  unfold fileA fileB at hc
  unfold fileB at hla
  unfold fileA at hlb
  rw [h1] at hla
  rw [g1] at hlb
  rw [h1, g1] at hc
  have ha : Spec.Publication.Readable env (some aesKeys) (idealReader prims (oa ++ ob))
    ⟨Spec.exactLog, options .hashed false, 1, shortReads 20, ra, oa⟩ := ⟨h1, nofun, h3, serves_left hc⟩
  have hb : Spec.Publication.Readable env (some aesKeys) (idealReader prims (oa ++ ob))
    ⟨Spec.exactLog, options .prefixed true, 1, shortReads 32, rb, ob⟩ := ⟨g1, nofun, g3, serves_right hc⟩
  refine ⟨_, _, _, ha, hb, rfl, rfl, h2, g2, ?_⟩
  obtain ⟨rs, hr, hs⟩ := C99_files (bs := [⟨Spec.exactLog, options .hashed false, 1, shortReads 20, ra, oa⟩,
      ⟨Spec.exactLog, options .prefixed true, 1, shortReads 32, rb, ob⟩,
      ⟨Spec.exactLog, options .hashed false, 1, shortReads 20, ra, oa⟩])
    (by intro b hm; simp only [List.mem_cons, List.not_mem_nil, or_false] at hm; rcases hm with rfl | rfl | rfl <;> assumption)
    (by intro b hm; simp only [List.mem_cons, List.not_mem_nil, or_false] at hm
        rcases hm with rfl | rfl | rfl
        · exact .inl rfl
        · exact .inr ⟨_, rfl⟩
        · exact .inl rfl)
  obtain ⟨s, s1, s2, _⟩ := hs 13 (by
    intro b hm; simp only [List.mem_cons, List.not_mem_nil, or_false] at hm; rcases hm with rfl | rfl | rfl <;> assumption)
  exact ⟨rs, hr, s, s1, by simpa [TState.new] using s2⟩

/-- The salted key, in the keystore. -/
def saltedKeys : Keystore := { byKeynum := [(5, saltedKey)] }

/-- Encrypted with the salted key. -/
def saltedOptions : TreeOptions := { options .prefixed true with maxPacketSize := 300, encryptor := some (.aead saltedKey) }

/-- Encrypted with the salted key, wrapped. -/
def wrappedOptions : TreeOptions := { options .hashed true with maxPacketSize := 300, encryptor := some (.oaep saltedKey wrapper) }

set_option maxRecDepth 100000 in
theorem saltedDistinct : (((manifestTree env Spec.exactLog saltedOptions 1 (shortReads 20)).2 ++
    (manifestTree env Spec.exactLog wrappedOptions 1 (shortReads 24)).2).map (fun p => (p.hash prims.sha256).toOption)).Nodup := by
  decide +kernel

set_option maxRecDepth 100000 in
/-- C99 (false in general): one key, once from the keystore and once wrapped. -/
example : ∃ rd a b, Spec.Publication.Readable env (some saltedKeys) rd a ∧ Spec.Publication.Readable env (some saltedKeys) rd b ∧
    a.options.encryptor = some (.aead saltedKey) ∧ b.options.encryptor = some (.oaep saltedKey wrapper) ∧
    (Spec.dataOf a.out).length = 5 ∧ (Spec.dataOf b.out).length = 6 := by
  have hfit : saltedKey.Fits64 := ⟨by decide, fun _ h => by cases h⟩
  have halg : ∀ a, wrapper.hashAlg = some a → a < 2 ^ 64 := by
    intro a h
    cases Option.some.inj h
    decide
  obtain ⟨ra, oa, h1, h2, h3, _⟩ := equipped (o := saltedOptions) (input := shortReads 20) (n := 5) (ks := some saltedKeys)
    trivial ⟨hfit, saltedKeys, saltedKey, rfl, rfl, rfl, rfl, rfl⟩ (plain ⟨rfl, rfl, rfl⟩) (text rfl rfl rfl) (by decide +kernel)
  obtain ⟨rb, ob, g1, g2, g3, _⟩ := equipped (o := wrappedOptions) (input := shortReads 24) (n := 6) (ks := some saltedKeys)
    trivial ⟨hfit, halg, saltedKeys, rfl, .inl ⟨saltedKey, rfl, rfl, rfl, rfl⟩⟩ (plain ⟨rfl, rfl, rfl⟩) (text rfl rfl rfl)
    (by decide +kernel)
  have hd := saltedDistinct
  rw [h1, g1] at hd
  have hc : Spec.NoCollision prims (oa ++ ob) := fun _ hp _ hq _ h1 h2 =>
    List.inj_on_of_nodup_map hd hp hq (congrArg Except.toOption (h1.trans h2.symm))
  exact ⟨idealReader prims (oa ++ ob), ⟨Spec.exactLog, saltedOptions, 1, shortReads 20, ra, oa⟩,
    ⟨Spec.exactLog, wrappedOptions, 1, shortReads 24, rb, ob⟩, ⟨h1, nofun, h3, serves_left hc⟩,
    ⟨g1, nofun, g3, serves_right hc⟩, rfl, rfl, h2, g2⟩

end Toy

end Ccnpy
