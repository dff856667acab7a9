import Verif.Props.SharedProps
import Verif.Props.IntegrityProps

/-!
# C113: changed files in a directory are not noticed
-/

namespace Ccnpy

/-! ## Specifications -/

/-- The object `body` with payload `b`, as an unsigned packet. -/
def Spec.IsForged (body : ContentObject) (b : Bytes) (q : Packet) : Prop := Packet.createContentObject { body with payload := some b } = .ok q

/-- The files of a directory in which somebody has put, in place of every data object of `out`, an unsigned one with the payload changed by
`f`, under the old file name, and has left the manifests alone. -/
def Spec.Doctored (P : Prims) (f : Bytes → Bytes) (d : Directory) (out : List Packet) : Prop :=
  ∀ p ∈ out, ∃ hv w q, p.hash P.sha256 = .ok hv ∧ d.read [hexText hv.value] = some w ∧ q.serialize = .ok w ∧
    (p.body.payloadType = some PT_DATA → ∃ b, p.body.payload = some b ∧ Spec.IsForged p.body (f b) q) ∧
    (p.body.payloadType ≠ some PT_DATA → q = p)

/-! ## Two traversals side by side -/

/-- `q` takes the place of `p`. -/
inductive StandsFor (P : Prims) (ks : Option Keystore) (f : Bytes → Bytes) (p q : Packet) : Prop
  | same (h : p.body.payloadType ≠ some PT_DATA) (e : q = p)
  | forged (h : p.body.payloadType = some PT_DATA) (h' : q.body.payloadType = some PT_DATA) (hq : q.body.payload = p.body.payload.map f)
      (hv : validatePacket P ks q = .ok ()) (hh : ∃ hv, q.hash P.sha256 = .ok hv)

/-- The state with the other writes. -/
def TState.mapWrites (f : Bytes → Bytes) (s : TState) : TState := { s with writes := s.writes.map f }

theorem visitLoop_forged {P : Prims} {A B : Reader} {ks : Option Keystore} {w : Bytes → Bytes}
    (hAB : ∀ name h p, A name h = .ok p → ∃ q, B name h = .ok q ∧ StandsFor P ks w p q) {f g : Packet → PyS TState Unit}
    (hfg : ∀ p q s s1, StandsFor P ks w p q → f p s = (.ok (), s1) → g q (s.mapWrites w) = (.ok (), s1.mapWrites w))
    (nc : NcCache) (fuel : Nat) (it : NodeIterator) (s s1 : TState) (h : TravEnv.visitLoop ⟨P, A, ks⟩ f nc fuel it s = (.ok (), s1)) :
    TravEnv.visitLoop ⟨P, B, ks⟩ g nc fuel it (s.mapWrites w) = (.ok (), s1.mapWrites w) := by
  induction fuel generalizing it s with
  | zero =>
    unfold TravEnv.visitLoop at h ⊢
    obtain ⟨r, hr, h⟩ := PyS.liftBind_ok h
    rw [PyS.liftBind_run hr]
    cases r with
    | none =>
      cases h
      rfl
    | some v => cases h
  | succ fuel ih =>
    unfold TravEnv.visitLoop at h ⊢
    obtain ⟨r, hr, h⟩ := PyS.liftBind_ok h
    rw [PyS.liftBind_run hr]
    cases r with
    | none =>
      cases h
      rfl
    | some v =>
      obtain ⟨v, it⟩ := v
      obtain ⟨p, hp, h⟩ := PyS.liftBind_ok h
      obtain ⟨_, hv, h⟩ := PyS.liftBind_ok h
      obtain ⟨_, s2, hf, h⟩ := PyS.bind_ok h
      obtain ⟨i, hi, hp⟩ := bind_eq_ok.mp hp
      obtain ⟨n, hn, hp⟩ := bind_eq_ok.mp hp
      obtain ⟨q, hq, hst⟩ := hAB _ _ _ hp
      have hp' : TravEnv.fetch ⟨P, B, ks⟩ nc v = .ok q := by
        unfold TravEnv.fetch
        rw [hi, ok_bind, hn, ok_bind]
        exact hq
      have hv' : validatePacket P ks q = .ok () := by
        cases hst with
        | same _ e => rw [e]; exact hv
        | forged _ _ _ hv _ => exact hv
      dsimp only
      rw [PyS.liftBind_run hp', PyS.liftBind_run hv', PyS.bind_of_ok (hfg _ _ _ _ hst hf)]
      exact ih it s2 h

theorem decrypt_forged {P : Prims} {A B : Reader} {ks : Option Keystore} {w : Bytes → Bytes} {m m' : Manifest} {s s1 : TState}
    (h : TravEnv.decrypt ⟨P, A, ks⟩ m s = (.ok m', s1)) : TravEnv.decrypt ⟨P, B, ks⟩ m (s.mapWrites w) = (.ok m', s1.mapWrites w) := by
  unfold TravEnv.decrypt at h ⊢
  dsimp only at h ⊢
  split at h
  · cases h
  · rename_i hc
    rw [if_neg hc]
    rw [show (s.mapWrites w).cache = s.cache from rfl]
    rcases hx : s.cache.open P m with ⟨r, c⟩
    rw [hx] at h
    obtain ⟨rfl, rfl⟩ := Prod.mk.inj h
    rfl

theorem preorder_forged {P : Prims} {A B : Reader} {ks : Option Keystore} {w : Bytes → Bytes}
    (hAB : ∀ name h p, A name h = .ok p → ∃ q, B name h = .ok q ∧ StandsFor P ks w p q) (d : Nat)
    (nc : NcCache) (p q : Packet) (s s1 : TState) (hst : StandsFor P ks w p q)
    (h : TravEnv.preorder ⟨P, A, ks⟩ d nc p s = (.ok (), s1)) :
    TravEnv.preorder ⟨P, B, ks⟩ d nc q (s.mapWrites w) = (.ok (), s1.mapWrites w) := by
  induction d generalizing nc p q s s1 with
  | zero => cases h
  | succ d ih =>
    rw [TravEnv.preorder] at h ⊢
    obtain ⟨hv, hh, h⟩ := PyS.liftBind_ok h
    obtain ⟨_, s0, hs0, h⟩ := PyS.bind_ok h
    cases hs0
    obtain ⟨hv', hh'⟩ : ∃ hv, q.hash P.sha256 = .ok hv := by
      cases hst with
      | same _ e => rw [e]; exact ⟨hv, hh⟩
      | forged _ _ _ _ hh => exact hh
    rw [PyS.liftBind_run hh', PyS.bind_of_ok (PyS.modify_run _ _)]
    cases hst with
    | same hne e =>
      subst e
      cases hty : q.body.payloadType with
      | none => rw [hty] at h; cases h
      | some ty =>
        rw [hty] at h
        dsimp only at h ⊢
        by_cases hm : ty = PT_MANIFEST
        · rw [if_pos hm] at h ⊢
          obtain ⟨m, hm, h⟩ := PyS.liftBind_ok h
          rw [PyS.liftBind_run hm]
          obtain ⟨m', s2, hd, h⟩ := PyS.bind_ok h
          have hd' := decrypt_forged (B := B) (w := w) hd
          rw [PyS.bind_of_ok (show TravEnv.decrypt ⟨P, B, ks⟩ m { s.mapWrites w with count := (s.mapWrites w).count + 1 } =
            (.ok m', s2.mapWrites w) from hd')]
          cases hn : m'.node with
          | encrypted e => rw [hn] at h; cases h
          | plain node =>
            rw [hn] at h
            dsimp only at h ⊢
            obtain ⟨nc', hnc, h⟩ := PyS.liftBind_ok h
            rw [PyS.liftBind_run hnc]
            have := visitLoop_forged (P := P) (ks := ks) hAB (fun p q s s1 hst h => ih nc' p q s s1 hst h) nc' _ _ s2 s1 (reportError_ok h)
            unfold reportError
            rw [this]
        · rw [if_neg hm] at h ⊢
          by_cases hd : ty = PT_DATA
          · rw [hd] at hty
            exact absurd hty hne
          · rw [if_neg hd] at h
            obtain ⟨h, _⟩ := PyS.lift_ok h
            obtain ⟨_, _, h⟩ := bind_eq_ok.mp h
            cases h
    | forged hp hq hpay hval hh =>
      rw [hp] at h
      rw [hq]
      dsimp only at h ⊢
      rw [if_neg (by decide), if_pos rfl] at h ⊢
      rw [hpay]
      cases hb : p.body.payload with
      | none =>
        rw [hb] at h
        cases h
      | some b =>
        rw [hb] at h
        cases h
        show (Except.ok (), _) = (Except.ok (), _)
        congr 1
        simp [TState.mapWrites]

theorem traverse_forged {P : Prims} {A B : Reader} {ks : Option Keystore} {w : Bytes → Bytes}
    (hAB : ∀ name h p, A name h = .ok p → ∃ q, B name h = .ok q ∧ StandsFor P ks w p q) (d : Nat) (name : Option Name)
    (hash : Option HashValue) (s s1 : TState) (h : TravEnv.traverse ⟨P, A, ks⟩ d name hash s = (.ok (), s1)) :
    TravEnv.traverse ⟨P, B, ks⟩ d name hash (s.mapWrites w) = (.ok (), s1.mapWrites w) := by
  unfold TravEnv.traverse at h ⊢
  obtain ⟨p, hp, h⟩ := PyS.liftBind_ok h
  obtain ⟨_, hv, h⟩ := PyS.liftBind_ok h
  obtain ⟨q, hq, hst⟩ := hAB _ _ _ hp
  have hv' : validatePacket P ks q = .ok () := by
    cases hst with
    | same _ e => rw [e]; exact hv
    | forged _ _ _ hv _ => exact hv
  rw [PyS.liftBind_run hq, PyS.liftBind_run hv']
  exact preorder_forged hAB d [] p q s s1 hst h

/-! ## C113 -/

variable {E : Env} {L : FloatLog} {o : TreeOptions} {nc : Nat} {input : Stream} {root : Packet} {out : List Packet}
  {ks : Option Keystore}

theorem forged_readsBack {p q : Packet} {b : Bytes} (hp : Spec.ReadsBack p) (hn : Spec.asRead p = p) (h : Spec.IsForged p.body b q) :
    Spec.ReadsBack q ∧ Spec.asRead q = q ∧ q.body = { p.body with payload := some b } ∧ q.alg = none := by
  have h0 := h
  obtain ⟨t, _, rfl⟩ := createContentObject_inv h
  have hname : p.body.name.map (fun n => (⟨n.components.map (fun c => { c with isArray := false })⟩ : Name)) = p.body.name :=
    congrArg (fun x : Packet => x.body.name) hn
  refine ⟨⟨.inl ⟨_, h0⟩, ⟨hp.whole.1, hp.whole.2.1, fun k l s h => by cases h⟩, fun k l s h => by cases h⟩, ?_, rfl, rfl⟩
  unfold Spec.asRead
  dsimp only
  rw [hname]

/-- C113: only the root of a published file carries a signature or checksum, if at all. -/
theorem C113_only_the_root (h : manifestTree E L o nc input = (.ok root, out)) :
    ∀ p ∈ out.dropLast, p.alg = none ∧ validatePacket E.prims ks p = .ok () := by
  obtain ⟨R⟩ := manifestTree_ok h
  obtain ⟨ids, level, i, kids, h1, h2, h3, h4, h5, h6, h7, h8⟩ := R.forest
  intro p hp
  rw [h8, List.dropLast_concat] at hp
  suffices h : p.alg = none from ⟨h, by rw [validatePacket, h]⟩
  rcases List.mem_append.mp hp with hp | hp
  · obtain ⟨b, hb⟩ := chunked_created R.chunked p hp
    obtain ⟨_, _, rfl⟩ := createContentObject_inv hb
    rfl
  · obtain ⟨j, hj, rfl⟩ := List.mem_map.mp hp
    obtain ⟨_, name, s, s', hname, hb⟩ := h2.made j hj
    obtain ⟨_, _, w, _, _, _, _, hs, _⟩ := buildFromNode_inv hb
    obtain ⟨_, _, hs⟩ := createContentObject_inv hs
    rw [hs]

/-- C113: whoever can write to the directory of a file published with hashed or prefix names (encrypted or not, with a signed root or
not) can change the chunks at will: a reader that has all keys and validates returns without complaint and writes the changed chunks. -/
theorem C113_chunks (now : F64) (F : NameComponent → Text) (hty : o.schemaType ≠ .segmented)
    (h : manifestTree E L o nc input = (.ok root, out)) (hr : Spec.Equipped E o nc ks) (hw : Spec.WholeOptions o)
    (hc : Spec.NoCollision E.prims out) (f : Bytes → Bytes) {d : Directory} (hd : Spec.Doctored E.prims f d out) :
    ∃ hv, root.hash E.prims.sha256 = .ok hv ∧ ∀ depth, out.length ≤ depth →
      ∃ s, TravEnv.traverse ⟨E.prims, d.reader now F, ks⟩ depth o.name (some hv) (TState.new ks) = (.ok (), s) ∧
        s.writes.map some = (Spec.dataOf out).map (fun p => p.body.payload.map f) ∧ s.count = out.length := by
  obtain ⟨R⟩ := manifestTree_ok h
  obtain ⟨ids, level, i, kids, h1, h2, h3, h4, h5, h6, h7, h8⟩ := R.forest
  have hu : R.ctx.manifest.usesNameId ≠ true := fun hu => hty ((nameCtx_inv R.ctx_ok).2.2.mp hu)
  have hall := all_readBack R hr.names hw
  obtain ⟨hv, a, b⟩ := R.returnedBy hr (idealReader_serves hc) h2 h3 h6 h7 h8 (fun h => absurd h hu) (fun h => absurd h hu)
  refine ⟨hv, a, fun depth hdep => ?_⟩
  obtain ⟨s, s1, s2, s3, s4⟩ := b depth (.inl hdep)
  refine ⟨s.mapWrites f, traverse_forged (B := d.reader now F) (w := f) ?_ depth o.name (some hv) (TState.new ks) s s1, ?_, s4⟩
  · intro name h p hp
    obtain ⟨hm, rfl, g, rfl, hg⟩ := idealReader_ok hp
    obtain ⟨g', w, q, hg', hrd, hser, hdata, hrest⟩ := hd p hm
    cases Except.ok.inj (hg.symm.trans hg')
    by_cases hpt : p.body.payloadType = some PT_DATA
    · obtain ⟨b, hb, hforge⟩ := hdata hpt
      obtain ⟨q1, q2, q3, q4⟩ := forged_readsBack (hall p hm).1 ((hall p hm).2 hty) hforge
      obtain ⟨gq, hgq⟩ := Packet.hash_of_serialize (sha := E.prims.sha256) hser
      refine ⟨q, ?_, .forged hpt (by rw [q3]; exact hpt) (by rw [q3, hb]; rfl) (by rw [validatePacket, q4]) ⟨gq, hgq⟩⟩
      rw [reader_found q1 hser hrd, show p.body.name = q.body.name by rw [q3]]
      exact returned_own hgq q2
    · obtain rfl := hrest hpt
      exact ⟨q, by rw [reader_found (hall q hm).1 hser hrd, returned_own hg ((hall q hm).2 hty)], .same hpt rfl⟩
  · show (s.writes.map f).map some = _
    rw [List.map_map, show some ∘ f = Option.map f ∘ some from rfl, ← List.map_map, s3, List.map_map]
    rfl

theorem getName_of_not_id {i : SchemaImpl} (h : i.usesNameId = false) (a b : Option Int) : i.getName a = i.getName b := by
  unfold SchemaImpl.usesNameId at h
  unfold SchemaImpl.getName
  cases hs : i.schema <;> simp_all

/-- With hashed or prefix names, a data object is determined by its payload. -/
theorem chunked_payload {sha : Bytes → Bytes} {i : SchemaImpl} (hi : i.usesNameId = false) {x : Option F64} {k : Nat} {bs : List Bytes}
    {ps : List Packet} {ms : List ChunkMetadata} (h : Spec.Chunked sha i x k bs ps ms) :
    ∀ p ∈ ps, ∃ b, p.body = { name := (i.getName none).toOption.getD none, payloadType := some PT_DATA, payload := some b, expiryTime := x } ∧
      Packet.createContentObject p.body = .ok p := by
  induction bs generalizing k ps ms with
  | nil => cases ps <;> cases ms <;> simp_all [Spec.Chunked]
  | cons b bs ih =>
    cases ps <;> cases ms <;> simp only [Spec.Chunked] at h
    rename_i p ps m ms
    obtain ⟨_, h2, h3, h4, h5, h6, h7, h8, h9, h10, h11, h12⟩ := h
    intro q hq
    rcases List.mem_cons.mp hq with rfl | hq
    · refine ⟨b, ?_, h9.2⟩
      rw [getName_of_not_id hi none (some (k : Int)), h10]
      have hno : Spec.chunkIdSchema i.schema = false := by
        unfold Spec.chunkIdSchema
        unfold SchemaImpl.usesNameId at hi
        cases hs : i.schema <;> simp_all
      rw [if_neg (by simp [hno])] at h11
      show q.body = { name := q.body.name, payloadType := some PT_DATA, payload := some b, expiryTime := x }
      rw [← h5, ← h6, ← h7]
      cases hq : q.body
      rw [hq] at h11
      simp only at h11
      rw [h11]
    · exact ih h12 q hq

/-- C113: for one chunk one file is enough: in any directory that has the packets, the file of a data object is overwritten with an
unsigned object that has another payload of any length that fits. The reader gets that payload wherever the chunk occurs in the file,
and the rest of the file as it was. -/
theorem C113_one_file (now : F64) (F : NameComponent → Text) (hty : o.schemaType ≠ .segmented)
    (h : manifestTree E L o nc input = (.ok root, out)) (hr : Spec.Equipped E o nc ks) (hw : Spec.WholeOptions o)
    (hc : Spec.NoCollision E.prims out) {d : Directory} (hd : Spec.Contains E.prims d out) {p : Packet} (hp : p ∈ Spec.dataOf out)
    {hp' : HashValue} (hh : p.hash E.prims.sha256 = .ok hp') (b : Bytes) {q : Packet} (hq : Spec.IsForged p.body b q) :
    ∃ hv w, root.hash E.prims.sha256 = .ok hv ∧ q.serialize = .ok w ∧ ∀ depth, out.length ≤ depth →
      ∃ s, TravEnv.traverse ⟨E.prims, (d.write [hexText hp'.value] w).reader now F, ks⟩ depth o.name (some hv) (TState.new ks) =
          (.ok (), s) ∧
        s.writes.map some = (Spec.dataOf out).map (fun x => if x = p then some b else x.body.payload) ∧ s.count = out.length := by
  obtain ⟨R⟩ := manifestTree_ok h
  have hu : R.ctx.data.usesNameId = false := by
    have hi := nameCtx_inv R.ctx_ok
    have : R.ctx.manifest.usesNameId = false := by simpa using fun hu => hty (hi.2.2.mp hu)
    exact hi.2.1.trans this
  have hdata := chunked_payload hu R.chunked
  rw [← R.data] at hdata
  obtain ⟨b0, hb0, hcr⟩ := hdata p hp
  obtain ⟨_, _, _, _, w, hqs, _⟩ := Packet.created (.inl ⟨_, hq⟩)
  have hpo : p ∈ out := (List.mem_filter.mp hp).1
  let f : Bytes → Bytes := fun x => if x = b0 then b else x
  have hother : ∀ x ∈ Spec.dataOf out, x.body.payload.map f = if x = p then some b else x.body.payload := by
    intro x hx
    obtain ⟨bx, hbx, hxc⟩ := hdata x hx
    rw [show x.body.payload = some bx by rw [hbx]]
    show some (if bx = b0 then b else bx) = _
    by_cases e : bx = b0
    · have : x = p := by
        rw [hbx, e, ← hb0, hcr] at hxc
        exact (Except.ok.inj hxc).symm
      rw [if_pos e, if_pos this]
    · have : x ≠ p := by
        rintro rfl
        rw [hb0] at hbx
        injection hbx with _ _ hbx
        exact e (Option.some.inj hbx).symm
      rw [if_neg e, if_neg this]
  have hdoc : Spec.Doctored E.prims f (d.write [hexText hp'.value] w) out := by
    intro x hx
    obtain ⟨g, v, hg, hv, hrd⟩ := hd x hx
    by_cases e : x = p
    · subst e
      cases Except.ok.inj (hg.symm.trans hh)
      refine ⟨_, w, q, hg, by rw [Directory.read_write, if_pos rfl], hqs, fun _ => ⟨b0, by rw [hb0], ?_⟩, fun hne => ?_⟩
      · show Spec.IsForged x.body (if b0 = b0 then b else b0) q
        rw [if_pos rfl]
        exact hq
      · exact absurd (by simpa using (List.mem_filter.mp hp).2) hne
    · have hne : [hexText hp'.value] ≠ [hexText g.value] := by
        intro he
        have e1 : hp'.value = g.value := hexText_inj (List.cons.inj he).1
        have e2 : hp'.alg = g.alg := (Packet.hash_sha hh).trans (Packet.hash_sha hg).symm
        have : hp' = g := by
          cases hp'
          cases g
          simp only at e1 e2
          rw [e1, e2]
        exact e (hc x hx p hpo g hg (this ▸ hh))
      refine ⟨g, v, x, hg, by rw [Directory.read_write, if_neg hne]; exact hrd, hv, fun hxd => ?_, fun _ => rfl⟩
      have hxm : x ∈ Spec.dataOf out := List.mem_filter.mpr ⟨hx, by rw [hxd]; decide⟩
      obtain ⟨bx, hbx, hxc⟩ := hdata x hxm
      refine ⟨bx, by rw [hbx], ?_⟩
      have := hother x hxm
      rw [if_neg e, show x.body.payload = some bx by rw [hbx]] at this
      have this : f bx = bx := Option.some.inj this
      unfold Spec.IsForged
      rw [this, hbx] 
      rw [hbx] at hxc
      exact hxc
  obtain ⟨hv, a, k⟩ := C113_chunks now F hty h hr hw hc f hdoc
  refine ⟨hv, w, a, hqs, fun depth hdep => ?_⟩
  obtain ⟨s, s1, s2, s3⟩ := k depth hdep
  exact ⟨s, s1, s2.trans (List.map_congr_left hother), s3⟩

theorem not_rsa {P : Prims} {ks : Option Keystore} {sg : Option Signer} (h : ∀ key loc t, sg ≠ some (.rsa key loc t)) :
    Spec.CanVerify P ks sg := by
  unfold Spec.CanVerify
  split
  · exact (h _ _ _ rfl).elim
  · trivial

/-- C113: nor does the signature of the root protect a file in a directory. Somebody publishes another file under the same name, without
RSA signature or encryption, into the directory, and puts a copy of its root into the file of the hash by which the first file is asked for.
A reader with any keys that asks for the name and that hash returns without complaint and writes the other file. -/
theorem C113_root (now : F64) (F : NameComponent → Text) (hty : o.schemaType ≠ .segmented)
    (h : manifestTree E L o nc input = (.ok root, out)) (hsig : ∀ key loc t, o.signer ≠ some (.rsa key loc t)) (henc : o.encryptor = none)
    (aead : E.prims.AeadLaw) (oaep : E.prims.OaepLaw) (rsa : E.prims.RsaLaw) (names : Spec.PlainNames o) (text : Spec.TextLocators o)
    (hnc : nc + 1 < 2 ^ 64) (hw : Spec.WholeOptions o) {d : Directory} (hd : Spec.Contains E.prims d out) {w : Bytes}
    (hs : root.serialize = .ok w) {hv : HashValue} (hf : d.read [hexText hv.value] = some w) (ks : Option Keystore) (depth : Nat)
    (hdep : out.length ≤ depth) : Spec.ReturnedBy E o out (d.reader now F) ks depth hv input.rest := by
  have hr : Spec.Equipped E o nc ks :=
    { aead := aead, oaep := oaep, rsa := rsa, verify := not_rsa hsig, decrypt := by rw [henc]; trivial, names := names,
      counter := hnc, text := text }
  obtain ⟨g, hg, k⟩ := C98_contained now F hty h hr hw hd
  obtain ⟨s, s1, s2⟩ := k depth hdep
  refine ⟨s, ?_, s2⟩
  obtain ⟨R⟩ := manifestTree_ok h
  have hall := all_readBack R hr.names hw
  obtain ⟨ids, level, i, kids, h1, h2, h3, h4, h5, h6, h7, h8⟩ := R.forest
  have hroot : root ∈ out := by rw [h8]; simp
  obtain ⟨g', v, hg', hv', hrd⟩ := hd root hroot
  cases Except.ok.inj (hg.symm.trans hg')
  cases Except.ok.inj (hs.symm.trans hv')
  have e : d.reader now F o.name (some hv) = d.reader now F o.name (some g) := by
    rw [reader_found (hall root hroot).1 hs hf, reader_found (hall root hroot).1 hs hrd]
  unfold TravEnv.traverse at s1 ⊢
  dsimp only at s1 ⊢
  rw [e]
  exact s1

/-! ## Cases -/

namespace Toy

/-- A directory with these packets. -/
def filed (ps : List Packet) : Directory :=
  ps.foldl (fun d p => match p.hash prims.sha256, p.serialize with
    | .ok hv, .ok w => d.write [hexText hv.value] w
    | _, _ => d) ⟨[]⟩

/-- Decides `Spec.Contains`. -/
def contains (d : Directory) (ps : List Packet) : Bool :=
  ps.all (fun p => match p.hash prims.sha256, p.serialize with
    | .ok hv, .ok w => d.read [hexText hv.value] == some w
    | _, _ => false)

theorem contains_spec {d : Directory} {ps : List Packet} (h : contains d ps = true) : Spec.Contains prims d ps := by
  intro p hp
  have := List.all_eq_true.mp h p hp
  revert this
  cases h1 : p.hash prims.sha256 with
  | error e => exact fun h => by cases h
  | ok hv =>
    cases h2 : p.serialize with
    | error e => exact fun h => by cases h
    | ok w => exact fun h => ⟨hv, w, rfl, rfl, by simpa using h⟩

/-- A data object with its payload backwards; anything else as it is. -/
def backwards (p : Packet) : Py Packet :=
  if p.body.payloadType = some PT_DATA then Packet.createContentObject { p.body with payload := p.body.payload.map List.reverse } else .ok p

/-- A directory with those in place of these packets. -/
def filedBackwards (ps : List Packet) : Directory :=
  ps.foldl (fun d p => match p.hash prims.sha256, (backwards p).bind (·.serialize) with
    | .ok hv, .ok w => d.write [hexText hv.value] w
    | _, _ => d) ⟨[]⟩

/-- Decides `Spec.Doctored` with `List.reverse`. -/
def doctored (d : Directory) (ps : List Packet) : Bool :=
  ps.all (fun p => match p.hash prims.sha256, backwards p with
    | .ok hv, .ok q => match q.serialize with
      | .ok w => d.read [hexText hv.value] == some w && (p.body.payload.isSome)
      | _ => false
    | _, _ => false)

theorem doctored_spec {d : Directory} {ps : List Packet} (h : doctored d ps = true) : Spec.Doctored prims List.reverse d ps := by
  intro p hp
  have := List.all_eq_true.mp h p hp
  revert this
  cases h1 : p.hash prims.sha256 with
  | error e => exact fun h => by cases h
  | ok hv =>
    cases h2 : backwards p with
    | error e => exact fun h => by cases h
    | ok q =>
      dsimp only
      cases h3 : q.serialize with
      | error e => exact fun h => by cases h
      | ok w =>
        intro h
        obtain ⟨h4, h5⟩ := Bool.and_eq_true_iff.mp h
        obtain ⟨b, hb⟩ := Option.isSome_iff_exists.mp h5
        refine ⟨hv, w, q, rfl, by simpa using h4, h3, fun hd => ⟨b, hb, ?_⟩, fun hd => ?_⟩
        · unfold backwards at h2
          rw [if_pos hd, hb] at h2
          exact h2
        · unfold backwards at h2
          rw [if_neg hd] at h2
          exact (Except.ok.inj h2).symm

set_option maxRecDepth 100000 in
/-- C113 (chunks): every chunk of an encrypted file backwards; the reader writes something else than the file. -/
example : ∃ rootA outA, fileA = (.ok rootA, outA) ∧ Spec.Equipped env (options .prefixed true) 1 (some aesKeys) ∧
    Spec.WholeOptions (options .prefixed true) ∧ Spec.NoCollision prims outA ∧
    Spec.Doctored prims List.reverse (filedBackwards outA) outA ∧
    (Spec.dataOf outA).map (fun p => p.body.payload.map List.reverse) ≠ (Spec.dataOf outA).map (·.body.payload) := by
  obtain ⟨root, out, h, hn, he, hc⟩ := equipped (o := options .prefixed true) (input := shortReads 32) (n := 8)
    trivial canDecrypt (plain ⟨rfl, rfl, rfl⟩) (text rfl rfl rfl) (by decide +kernel)
  have h : fileA = (.ok root, out) := h
  have hcon : doctored (filedBackwards fileA.2) fileA.2 = true := by decide +kernel
  have hne : (Spec.dataOf fileA.2).map (fun p => p.body.payload.map List.reverse) ≠ (Spec.dataOf fileA.2).map (·.body.payload) := by
    decide +kernel
  rw [h] at hcon hne
  exact ⟨root, out, h, he, whole _ _, hc, doctored_spec hcon, hne⟩

set_option maxRecDepth 100000 in
/-- C113 (one file): the third of eight chunks of an encrypted file. -/
example : ∃ rootA outA p hp q, fileA = (.ok rootA, outA) ∧ Spec.Equipped env (options .prefixed true) 1 (some aesKeys) ∧
    Spec.WholeOptions (options .prefixed true) ∧ Spec.NoCollision prims outA ∧ Spec.Contains prims (filed outA) outA ∧
    p ∈ Spec.dataOf outA ∧ p.hash prims.sha256 = .ok hp ∧ Spec.IsForged p.body [1, 2, 3] q := by
  obtain ⟨root, out, h, hn, he, hc⟩ := equipped (o := options .prefixed true) (input := shortReads 32) (n := 8)
    trivial canDecrypt (plain ⟨rfl, rfl, rfl⟩) (text rfl rfl rfl) (by decide +kernel)
  have h : fileA = (.ok root, out) := h
  have hcon : contains (filed fileA.2) fileA.2 = true := by decide +kernel
  have hp : (match (Spec.dataOf fileA.2)[2]? with
    | some p => (p.hash prims.sha256).isOk && (Packet.createContentObject { p.body with payload := some [1, 2, 3] }).isOk
    | none => false) = true := by decide +kernel
  rw [h] at hcon hp
  revert hp
  cases hp1 : (Spec.dataOf out)[2]? with
  | none => exact fun h => by cases h
  | some p =>
    intro hp2
    obtain ⟨hp2, hp3⟩ := Bool.and_eq_true_iff.mp hp2
    obtain ⟨hp, hh⟩ := ok_of_isOk hp2
    obtain ⟨q, hq⟩ := ok_of_isOk hp3
    exact ⟨root, out, p, hp, q, h, he, whole _ _, hc, contains_spec hcon, List.mem_of_getElem? hp1, hh, hq⟩

set_option maxRecDepth 100000 in
/-- C113 (root): the second file takes the place of the first. -/
example : ∃ rootB outB w d hv, fileB = (.ok rootB, outB) ∧ (options .hashed false).signer = some .crc32c ∧
    (options .hashed false).encryptor = none ∧ Spec.Contains prims d outB ∧ rootB.serialize = .ok w ∧
    d.read [hexText hv.value] = some w ∧ (∃ rootA outA, fileA = (.ok rootA, outA) ∧ rootA.hash prims.sha256 = .ok hv) := by
  obtain ⟨root, out, h, hn, he, hc⟩ := equipped (o := options .hashed false) (input := shortReads 20) (n := 5) (ks := none)
    trivial trivial (plain ⟨rfl, rfl, rfl⟩) (text rfl rfl rfl) (by decide +kernel)
  have h : fileB = (.ok root, out) := h
  have hA : (match fileA, fileB.1 with
    | (.ok rootA, outA), .ok rootB => match rootA.hash prims.sha256, rootB.serialize with
      | .ok hv, .ok w => contains ((filed (outA ++ fileB.2)).write [hexText hv.value] w) fileB.2
      | _, _ => false
    | _, _ => false) = true := by decide +kernel
  rw [h] at hA
  revert hA
  rcases fileA with ⟨_ | rootA, outA⟩
  · exact fun h => by cases h
  · dsimp only
    cases h1 : rootA.hash prims.sha256 with
    | error e => exact fun h => by cases h
    | ok hv =>
      cases h2 : root.serialize with
      | error e => exact fun h => by cases h
      | ok w =>
        exact fun hd => ⟨root, out, w, _, hv, h, rfl, rfl, contains_spec hd, h2, by rw [Directory.read_write, if_pos rfl],
          rootA, outA, rfl, h1⟩

end Toy

end Ccnpy
