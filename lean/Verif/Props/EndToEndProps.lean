import Verif.Lemmas.EndToEndFile
import Verif.Props.SizeProps
import Verif.Lemmas.ToyFile
import Mathlib.Data.List.Nodup

/-!
# C49, C50: a file that was published is read back
-/

namespace Ccnpy

open Spec

/-! ## Specification -/

/-- The data objects among the packets. -/
def Spec.dataOf (out : List Packet) : List Packet := out.filter (fun p => p.body.payloadType == some PT_DATA)

/-- The keys of the publisher; cryptography that works; names given as `bytes` and a counter of name constructor ids that did not run
off. -/
structure Spec.HasKeys (E : Env) (o : TreeOptions) (nc : Nat) (ks : Option Keystore) : Prop where
  aead : E.prims.AeadLaw
  oaep : E.prims.OaepLaw
  rsa : E.prims.RsaLaw
  verify : Spec.CanVerify E.prims ks o.signer
  decrypt : Spec.CanDecrypt E.prims ks o.encryptor
  names : Spec.PlainNames o
  counter : nc + 1 < 2 ^ 64

/-- What a reader needs apart from the packets: those, and locators that can be printed (see C85). -/
structure Spec.Equipped (E : Env) (o : TreeOptions) (nc : Nat) (ks : Option Keystore) : Prop extends Spec.HasKeys E o nc ks where
  text : Spec.TextLocators o

/-- All that, the packets in a memory store and no hash collision among them. -/
structure Spec.CanRead (E : Env) (o : TreeOptions) (nc : Nat) (out : List Packet) (store : MemoryStore) (ks : Option Keystore) :
    Prop extends Spec.Equipped E o nc ks where
  store : Spec.Holds E.prims out store
  distinct : Spec.NoCollision E.prims out

/-- Traversing from the root by its name and hash returns; the writes are the payloads of the data objects in the order they
were put out, together the file; every packet was visited once. -/
def Spec.ReturnedBy (E : Env) (o : TreeOptions) (out : List Packet) (rd : Reader) (ks : Option Keystore) (depth : Nat)
    (hv : HashValue) (file : Bytes) : Prop :=
  ∃ s, TravEnv.traverse ⟨E.prims, rd, ks⟩ depth o.name (some hv) (TState.new ks) = (.ok (), s) ∧
    s.writes.flatten = file ∧ s.writes.map some = (Spec.dataOf out).map (·.body.payload) ∧ s.count = out.length

/-- The same with a memory store. -/
def Spec.Returned (E : Env) (o : TreeOptions) (out : List Packet) (store : MemoryStore) (ks : Option Keystore) (depth : Nat)
    (hv : HashValue) (file : Bytes) : Prop := Spec.ReturnedBy E o out (store.reader E.prims) ks depth hv file

/-- Traversing raises ValueError and writes nothing. -/
def Spec.RefusedBy (E : Env) (o : TreeOptions) (rd : Reader) (ks : Option Keystore) (depth : Nat) (hv : HashValue) : Prop :=
  ∃ s, TravEnv.traverse ⟨E.prims, rd, ks⟩ depth o.name (some hv) (TState.new ks) = (.error .valueError, s) ∧
    s.writes = []

/-- The same with a memory store. -/
def Spec.Refused (E : Env) (o : TreeOptions) (store : MemoryStore) (ks : Option Keystore) (depth : Nat) (hv : HashValue) : Prop :=
  Spec.RefusedBy E o (store.reader E.prims) ks depth hv

/-- The number of pointers of a manifest, as found before the tree is built. -/
def Spec.PointersFor (E : Env) (o : TreeOptions) (nc total : Nat) (data : List Packet) (p : Nat) : Prop :=
  ∃ ctx p0 s, NameCtx.create o.schemaType nc o.name o.manifestPrefix o.dataPrefix o.manifestLocators o.dataLocators = .ok ctx ∧
    calculateMaxPointers E o ctx total { output := data } = (.ok p0, s) ∧
    p = match o.maxTreeDegree with
      | none => p0
      | some k => min p0 k

/-! ## Helpers -/

variable {E : Env} {L : FloatLog} {o : TreeOptions} {nc : Nat} {input : Stream} {root : Packet} {out : List Packet}
  {store : MemoryStore} {ks : Option Keystore}

theorem FileRun.data (R : FileRun E L o nc input root out) : Spec.dataOf out = R.ps := by
  obtain ⟨ids, level, i, kids, _, h2, _, _, _, _, _, hout⟩ := R.forest
  have hp := chunked_type R.chunked
  have hm : ∀ j ∈ kids.written ++ [i], j.packet.body.payloadType = some PT_MANIFEST := by
    intro j hj
    obtain ⟨_, name, s, s', _, hb⟩ := h2.made j (by simpa [Forest.written] using hj)
    obtain ⟨_, _, w, _, _, _, hbody, _⟩ := buildFromNode_inv hb
    rw [hbody]
    rfl
  have hr : root.body.payloadType = some PT_MANIFEST := by
    obtain ⟨_, _, hb⟩ := rootPacket_inv R.root_ok
    obtain ⟨_, _, w, _, _, _, hbody, _⟩ := buildFromNode_inv hb
    rw [show root.body = _ from hbody]
    rfl
  have hne : (some PT_MANIFEST == some PT_DATA) = false := by decide
  unfold Spec.dataOf
  refine (congrArg (List.filter _) hout).trans ?_
  rw [List.filter_append, List.filter_append, List.filter_eq_self.mpr (fun p h => by simp [hp p h]),
    List.filter_eq_nil_iff.mpr, List.filter_eq_nil_iff.mpr, List.append_nil, List.append_nil]
  · intro p hp'
    rw [List.mem_singleton.mp hp', hr]
    simp [hne]
  · intro p hp'
    obtain ⟨j, hj, rfl⟩ := List.mem_map.mp hp'
    rw [hm j hj]
    simp [hne]

theorem FileRun.pointersFor (R : FileRun E L o nc input root out) :
    ∃ p, Spec.PointersFor E o nc input.rest.length (Spec.dataOf out) p ∧ minimizeKMinWaste L (Spec.dataOf out).length p = .ok R.r := by
  obtain ⟨s, hs⟩ := R.tree
  unfold createOptimizedTree at hs
  obtain ⟨p0, s1, h0, hs⟩ := PyS.bind_ok hs
  split at hs
  · obtain ⟨hs, _⟩ := PyS.lift_ok hs
    cases hs
  · obtain ⟨hs, _⟩ := PyS.lift_ok hs
    rw [R.data, (chunked_get R.chunked).2.1]
    refine ⟨_, ⟨R.ctx, p0, s1, R.ctx_ok, ?_, rfl⟩, hs⟩
    rw [← R.total]
    exact h0

theorem FileRun.root_served (R : FileRun E L o nc input root out) {rd : Reader} {bs : List Bytes} (hrd : R.ServedBy rd ks bs) :
    ∀ hv, root.hash E.prims.sha256 = .ok hv → rd o.name (some hv) = .ok root := by
  intro hv hh
  obtain ⟨_, _, hb⟩ := R.root_signed
  have := hrd.manifests root (by rw [R.out_eq]; simp) (by rw [hb]) hv hh
  rw [hb] at this
  exact this

/-- If the root's pointer asks for the top of the tree, the payloads served for the chunks are written. -/
theorem FileRun.writes_from (R : FileRun E L o nc input root out) (hr : Spec.Equipped E o nc ks) {t : TState} (ht : t.cache.Ready E.prims o.encryptor true)
    {J : DecryptorCache → Prop} (hJ : Undisturbed E.prims o.encryptor J)
    (hj : ∀ m r c', SealedFor o.encryptor m → t.cache.open E.prims m = (.ok r, c') → J c') {rd : Reader} {bs : List Bytes}
    (hrd : R.ServedBy rd ks bs) {ids : List Int}
    {level : Nat} {i : Info} {kids : Forest} (hv : (Forest.cons i kids .nil).Valid R.env 0 R.file.chunks.length level)
    (hf : R.env.IdsFrom ids (kids.written ++ [i])) (hlev : (level : Int) ≤ R.r.height) (hi : i.hash = R.topHash)
    (hout : out = R.ps ++ (kids.written ++ [i]).map (·.packet) ++ [root])
    (hfit : R.ctx.manifest.usesNameId = true → ∀ k ∈ kids.written ++ [i], k.id < 2 ^ 64)
    (hid : R.ctx.manifest.usesNameId = true → i.id = 0) :
    ∃ hv, root.hash E.prims.sha256 = .ok hv ∧ ∀ depth, out.length ≤ depth ∨ level + 3 ≤ depth →
      ∃ s, TravEnv.traverse ⟨E.prims, rd, ks⟩ depth o.name (some hv) t = (.ok (), s) ∧ s.writes = t.writes ++ bs ∧
        s.count = t.count + out.length ∧ s.cache.Ready E.prims o.encryptor false ∧ J s.cache := by
  obtain ⟨v, v1, v2, v3, v4, _⟩ := R.leads (ks := ks) hr.names hr.counter hrd hv hf hlev hout hfit
  obtain ⟨hv', c, hh, hc, hjc, hroot⟩ := R.root_from hr.aead hr.rsa hr.verify hr.decrypt hr.counter hr.text ht hj (R.root_served hrd)
  obtain ⟨hgood, _, _⟩ := nameCtx_good R.ctx_ok
  refine ⟨hv', hh, ?_⟩
  intro depth hd
  have hvd : v.depth + 1 ≤ depth := by
    have hle := v.depth_le_count
    rcases hd with hd | hd <;> omega
  obtain ⟨d, rfl⟩ : ∃ d, depth = d + 1 := ⟨depth - 1, by omega⟩
  obtain ⟨_, name, _, _, hname, _⟩ := hv.made i (by simp [Forest.written])
  have hname : R.ctx.manifest.getName (some (i.id : Int)) = .ok name := hname
  obtain ⟨cache, k1, k2⟩ := hroot [R.ctx.manifest.request i.pair] d (by
    rw [request_name (x := i.pair) hname, ← hi]
    refine .cons (asks_of hgood.manifest hgood.lookup_manifest (nameCtx_plain hr.names R.ctx_ok).1 ?_) .nil
    cases hu : R.ctx.manifest.usesNameId with
    | false => rw [getName_any hu _ (some (i.id : Int))]; exact hname
    | true => rw [hid hu] at hname; exact hname)
  obtain ⟨c', h1, h2⟩ := v1.run (fun c => c.Ready E.prims o.encryptor false ∧ J c)
    (by
      intro p node s ⟨n, name, x, s0, s1, hb, hn, he, _⟩ ⟨hrd, hjs⟩
      subst he
      obtain ⟨m, m', c, r1, r2, r3, r4⟩ := read_manifest hr.aead hr.decrypt hn hb
        (T := ⟨E.prims, rd, ks⟩) rfl rfl hrd
      exact ⟨m, m', c, r1, r2, by rw [r3], r4, hJ _ _ _ _ (read_sealed hr.decrypt hn hb r1) hjs (opened (T := ⟨E.prims, rd, ks⟩) rfl r2 rfl)⟩)
    (fun name h p hp => hrd.hashes name h p hp)
    (fun p node ⟨_, _, _, _, _, _, _, _, hw, _⟩ => hw) k1 (depth := d) (by omega) (s := { t with count := t.count + 1, cache := c }) ⟨hc, hjc⟩
  refine ⟨_, k2.trans h1, ?_, ?_, h2⟩
  · simp only [v2]
  · simp only
    omega

/-- If the root's pointer asks for the top of the tree, the payloads served for the chunks are written. -/
theorem FileRun.writes (R : FileRun E L o nc input root out) (hr : Spec.Equipped E o nc ks) {rd : Reader} {bs : List Bytes}
    (hrd : R.ServedBy rd ks bs) {ids : List Int}
    {level : Nat} {i : Info} {kids : Forest} (hv : (Forest.cons i kids .nil).Valid R.env 0 R.file.chunks.length level)
    (hf : R.env.IdsFrom ids (kids.written ++ [i])) (hlev : (level : Int) ≤ R.r.height) (hi : i.hash = R.topHash)
    (hout : out = R.ps ++ (kids.written ++ [i]).map (·.packet) ++ [root])
    (hfit : R.ctx.manifest.usesNameId = true → ∀ k ∈ kids.written ++ [i], k.id < 2 ^ 64)
    (hid : R.ctx.manifest.usesNameId = true → i.id = 0) :
    ∃ hv, root.hash E.prims.sha256 = .ok hv ∧ ∀ depth, out.length ≤ depth ∨ level + 3 ≤ depth →
      ∃ s, TravEnv.traverse ⟨E.prims, rd, ks⟩ depth o.name (some hv) (TState.new ks) = (.ok (), s) ∧ s.writes = bs ∧
        s.count = out.length := by
  obtain ⟨hv', a, b⟩ := R.writes_from hr (ready_new hr.oaep hr.decrypt) (J := fun _ => True)
    (fun _ _ _ _ _ _ _ => trivial) (fun _ _ _ _ _ => trivial) hrd hv hf hlev hi hout hfit hid
  refine ⟨hv', a, fun depth hd => ?_⟩
  obtain ⟨s, h1, h2, h3, _⟩ := b depth hd
  exact ⟨s, h1, h2, by rw [h3]; simp [TState.new]⟩

/-- If the root's pointer asks for the top of the tree, the file is returned. -/
theorem FileRun.returnedBy (R : FileRun E L o nc input root out) (hr : Spec.Equipped E o nc ks) {rd : Reader}
    (hrd : Serves E.prims out rd) {ids : List Int}
    {level : Nat} {i : Info} {kids : Forest} (hv : (Forest.cons i kids .nil).Valid R.env 0 R.file.chunks.length level)
    (hf : R.env.IdsFrom ids (kids.written ++ [i])) (hlev : (level : Int) ≤ R.r.height) (hi : i.hash = R.topHash)
    (hout : out = R.ps ++ (kids.written ++ [i]).map (·.packet) ++ [root])
    (hfit : R.ctx.manifest.usesNameId = true → ∀ k ∈ kids.written ++ [i], k.id < 2 ^ 64)
    (hid : R.ctx.manifest.usesNameId = true → i.id = 0) :
    ∃ hv, root.hash E.prims.sha256 = .ok hv ∧ ∀ depth, out.length ≤ depth ∨ level + 3 ≤ depth →
      Spec.ReturnedBy E o out rd ks depth hv input.rest := by
  obtain ⟨hv', hh, hw⟩ := R.writes hr (R.servedBy hrd ks) hv hf hlev hi hout hfit hid
  refine ⟨hv', hh, fun depth hd => ?_⟩
  obtain ⟨s, h1, h2, h3⟩ := hw depth hd
  refine ⟨s, h1, ?_, ?_, h3⟩
  · rw [h2, R.bytes]
  · rw [R.data, R.chunked.sum.2.2.1, h2]

theorem FileRun.returned (R : FileRun E L o nc input root out) (hr : Spec.CanRead E o nc out store ks) {ids : List Int}
    {level : Nat} {i : Info} {kids : Forest} (hv : (Forest.cons i kids .nil).Valid R.env 0 R.file.chunks.length level)
    (hf : R.env.IdsFrom ids (kids.written ++ [i])) (hlev : (level : Int) ≤ R.r.height) (hi : i.hash = R.topHash)
    (hout : out = R.ps ++ (kids.written ++ [i]).map (·.packet) ++ [root])
    (hfit : R.ctx.manifest.usesNameId = true → ∀ k ∈ kids.written ++ [i], k.id < 2 ^ 64)
    (hid : R.ctx.manifest.usesNameId = true → i.id = 0) :
    ∃ hv, root.hash E.prims.sha256 = .ok hv ∧ ∀ depth, out.length ≤ depth ∨ level + 3 ≤ depth →
      Spec.Returned E o out store ks depth hv input.rest :=
  R.returnedBy hr.toEquipped (hr.store.serves hr.distinct) hv hf hlev hi hout hfit hid

/-! ## C49 -/

/-- C49: with hashed or prefix names, whatever the file, the read schedule and the options, if the build returns then
traversing from the root returns the file. -/
theorem C49_file_returned (hty : o.schemaType ≠ .segmented) (h : manifestTree E L o nc input = (.ok root, out))
    (hr : Spec.CanRead E o nc out store ks) :
    ∃ hv, root.hash E.prims.sha256 = .ok hv ∧ ∀ depth, out.length ≤ depth →
      Spec.Returned E o out store ks depth hv input.rest := by
  obtain ⟨R⟩ := manifestTree_ok h
  obtain ⟨ids, level, i, kids, h1, h2, h3, h4, h5, h6, h7, h8⟩ := R.forest
  have hu : R.ctx.manifest.usesNameId ≠ true := fun hu => hty ((nameCtx_inv R.ctx_ok).2.2.mp hu)
  obtain ⟨hv, a, b⟩ := R.returned hr h2 h3 h6 h7 h8 (fun h => absurd h hu) (fun h => absurd h hu)
  exact ⟨hv, a, fun depth hd => b depth (.inl hd)⟩

/-- C49 (recursion): the recursion goes no deeper than the levels needed for the chunks, plus three (root, leaf, data object). -/
theorem C49_recursion_depth (hty : o.schemaType ≠ .segmented) (h : manifestTree E L o nc input = (.ok root, out))
    (hr : Spec.CanRead E o nc out store ks) :
    ∃ p r hv, Spec.PointersFor E o nc input.rest.length (Spec.dataOf out) p ∧
      minimizeKMinWaste L (Spec.dataOf out).length p = .ok r ∧ root.hash E.prims.sha256 = .ok hv ∧
      ∀ level depth, (Spec.dataOf out).length ≤ Spec.treeCapacity r.direct r.indirect level → level + 3 ≤ depth →
        Spec.Returned E o out store ks depth hv input.rest := by
  obtain ⟨R⟩ := manifestTree_ok h
  obtain ⟨p, hp, hmin⟩ := R.pointersFor
  obtain ⟨ids, level, i, kids, h1, h2, h3, h4, h5, h6, h7, h8⟩ := R.forest
  have hu : R.ctx.manifest.usesNameId ≠ true := fun hu => hty ((nameCtx_inv R.ctx_ok).2.2.mp hu)
  obtain ⟨hv, a, b⟩ := R.returned hr h2 h3 h6 h7 h8 (fun h => absurd h hu) (fun h => absurd h hu)
  refine ⟨p, R.r, hv, hp, hmin, a, fun l depth hl hd => b depth (.inr ?_)⟩
  rw [R.data, (chunked_get R.chunked).2.1] at hl
  have : level ≤ l := by
    by_contra hlt
    have := h5 l (by omega)
    omega
  omega

/-! ## C85 -/

/-- C85: if, with the Hashed schema, a locator (or the root name in its place) has a name segment that is not UTF-8, the tree is
written all the same, but a traversal never gets past its root: Traversal.py:53 prints the locators, and raises. -/
theorem C85_unreadable_locators (h : manifestTree E L o nc input = (.ok root, out)) (hr : Spec.HasKeys E o nc ks)
    (ht : ¬ Spec.TextLocators o) {rd : Reader} (hrd : ∀ hv, root.hash E.prims.sha256 = .ok hv → rd o.name (some hv) = .ok root) :
    ∃ hv, root.hash E.prims.sha256 = .ok hv ∧ ∀ depth, 1 ≤ depth → ∃ s,
      TravEnv.traverse ⟨E.prims, rd, ks⟩ depth o.name (some hv) (TState.new ks) = (.error .valueError, s) ∧ s.writes = [] ∧
        s.count = 1 := by
  obtain ⟨R⟩ := manifestTree_ok h
  obtain ⟨hv, c, hh, hw⟩ := R.root_unprintable hr.aead hr.oaep hr.rsa hr.verify hr.decrypt hr.counter ht hrd
  refine ⟨hv, hh, fun depth hd => ?_⟩
  obtain ⟨d, rfl⟩ : ∃ d, depth = d + 1 := ⟨depth - 1, by omega⟩
  exact ⟨_, hw d, rfl, rfl⟩

/-- C85: with hashed or prefix names, of the trees that are written exactly those with readable locators can be read back from a
memory store. -/
theorem C85_exactly (hty : o.schemaType ≠ .segmented) (h : manifestTree E L o nc input = (.ok root, out))
    (hr : Spec.HasKeys E o nc ks) (hs : Spec.Holds E.prims out store) (hc : Spec.NoCollision E.prims out) :
    ∃ hv, root.hash E.prims.sha256 = .ok hv ∧ ∀ depth, out.length ≤ depth → 1 ≤ depth →
      (Spec.Returned E o out store ks depth hv input.rest ↔ Spec.TextLocators o) := by
  by_cases ht : Spec.TextLocators o
  · obtain ⟨hv, hh, hw⟩ := C49_file_returned hty h ⟨⟨hr, ht⟩, hs, hc⟩
    exact ⟨hv, hh, fun depth hd _ => ⟨fun _ => ht, fun _ => hw depth hd⟩⟩
  · obtain ⟨R⟩ := manifestTree_ok h
    obtain ⟨hv, hh, hw⟩ := C85_unreadable_locators h hr ht (R.root_served (R.servedBy (hs.serves hc) ks))
    refine ⟨hv, hh, fun depth _ hd => ⟨?_, fun h => absurd h ht⟩⟩
    rintro ⟨s, hs, _⟩
    obtain ⟨s', hs', _⟩ := hw depth hd
    rw [hs'] at hs
    cases hs

/-! ## C50 -/

/-- With segmented names the root's pointer asks for the id 0; if the reader refuses, so does the traversal. -/
theorem FileRun.stops (R : FileRun E L o nc input root out) (hr : Spec.Equipped E o nc ks) {rd : Reader}
    (hserved : ∀ hv, root.hash E.prims.sha256 = .ok hv → rd o.name (some hv) = .ok root)
    (hu : o.schemaType = .segmented) {level : Nat} {i : Info} {kids : Forest}
    (hv : (Forest.cons i kids .nil).Valid R.env 0 R.file.chunks.length level) (hi : i.hash = R.topHash)
    (hno : ∀ p st t t0 l f, R.ctx.manifest.schema = .segmented (some p) (some st) l f → i.packet.body.name = some (segName p st i.id) →
      (segName p st i.id).tlv = .ok t → (segName p st 0).tlv = .ok t0 →
      rd (some (segName p st 0)) (some i.hash) = .error .valueError) :
    ∃ hv, root.hash E.prims.sha256 = .ok hv ∧ ∀ depth, 1 ≤ depth → Spec.RefusedBy E o rd ks depth hv := by
  obtain ⟨hv', c, hh, hc, hroot⟩ := R.root hr.aead hr.oaep hr.rsa hr.verify hr.decrypt hr.counter hr.text hserved
  obtain ⟨hgood, _, _⟩ := nameCtx_good R.ctx_ok
  have hun : R.ctx.manifest.usesNameId = true := (nameCtx_inv R.ctx_ok).2.2.mpr hu
  refine ⟨hv', hh, ?_⟩
  intro depth hd
  obtain ⟨d, rfl⟩ : ∃ d, depth = d + 1 := ⟨depth - 1, by omega⟩
  obtain ⟨hihash, name, _, _, hname, hb⟩ := hv.made i (by simp [Forest.written])
  have hname : R.ctx.manifest.getName (some (i.id : Int)) = .ok name := hname
  obtain ⟨_, _, w, _, _, _, hbody, _, _⟩ := buildFromNode_inv hb
  have hbn : i.packet.body.name = name := by rw [hbody]; rfl
  have hseg : ∃ p st l f, R.ctx.manifest.schema = .segmented p st l f := by
    unfold SchemaImpl.usesNameId at hun
    cases hs : R.ctx.manifest.schema with
    | hash l f => rw [hs] at hun; cases hun
    | prefixed n l f => rw [hs] at hun; cases hun
    | segmented n st l f => exact ⟨_, _, _, _, rfl⟩
  rcases getName_inv hname with ⟨_, _, hs, _⟩ | ⟨_, _, hs⟩ | ⟨p, st, l, f, hs, hst, rfl, t, ht⟩
  · obtain ⟨_, _, _, _, hs'⟩ := hseg; rw [hs] at hs'; cases hs'
  · obtain ⟨_, _, _, _, hs'⟩ := hseg; rw [hs] at hs'; cases hs'
  obtain ⟨t0, ht0, _⟩ := segName_le ht (Nat.zero_le i.id)
  have hname0 : R.ctx.manifest.getName (some ((0 : Nat) : Int)) = .ok (some (segName p st 0)) := getName_segmented hs hst 0 ht0
  obtain ⟨cache, k1, k2⟩ := hroot [(some (segName p st 0), some i.hash)] d (by
    rw [← hi, if_pos hun]
    exact .cons (asks_of hgood.manifest hgood.lookup_manifest (nameCtx_plain hr.names R.ctx_ok).1 hname0) .nil)
  refine ⟨{ count := 1, writes := [], cache := c }, k2.trans ?_, ?_⟩
  · rw [visitRequests, PyS.bind_run]
    simp only [PyS.lift, hno p st t t0 l f hs hbn ht ht0]
  · rfl

/-- If the root's pointer asks for another id than the top of the tree has, traversal raises. -/
theorem FileRun.refused (R : FileRun E L o nc input root out) (hr : Spec.CanRead E o nc out store ks)
    (hu : o.schemaType = .segmented) {level : Nat} {i : Info} {kids : Forest}
    (hv : (Forest.cons i kids .nil).Valid R.env 0 R.file.chunks.length level) (hi : i.hash = R.topHash)
    (hout : out = R.ps ++ (kids.written ++ [i]).map (·.packet) ++ [root]) (hid : i.id ≠ 0) (hlt : i.id < 2 ^ 64) :
    ∃ hv, root.hash E.prims.sha256 = .ok hv ∧ ∀ depth, 1 ≤ depth → Spec.Refused E o store ks depth hv := by
  refine R.stops hr.toEquipped (R.root_served (R.servedBy (hr.store.serves hr.distinct) ks)) hu hv hi ?_
  intro p st t t0 l f hs hbn ht ht0
  have hun : R.ctx.manifest.usesNameId = true := (nameCtx_inv R.ctx_ok).2.2.mpr hu
  obtain ⟨hihash, _⟩ := hv.made i (by simp [Forest.written])
  have hst : st ≤ 0xFFFF := ((Name.tlv_iff.mp ht).1 (segComponent st i.id) (by simp [segName])).1
  have hname : R.ctx.manifest.getName (some (i.id : Int)) = .ok (some (segName p st i.id)) := getName_segmented hs hst _ ht
  have hname0 : R.ctx.manifest.getName (some ((0 : Nat) : Int)) = .ok (some (segName p st 0)) := getName_segmented hs hst 0 ht0
  have hne : (segName p st 0).pyEq (segName p st i.id) = false := by
    cases he : (segName p st 0).pyEq (segName p st i.id) with
    | false => rfl
    | true =>
      exfalso
      simp only [Name.pyEq, ht0, ht, Bool.and_eq_true] at he
      have he : t0 = t := by
        have := he.2
        simp only [Tlv.pyEq, Bool.and_eq_true, beq_iff_eq] at this
        obtain ⟨_, _, e0⟩ := Name.tlv_iff.mp ht0
        obtain ⟨_, _, e1⟩ := Name.tlv_iff.mp ht
        rw [e0, e1] at this ⊢
        exact congrArg (Tlv.mk T_NAME) this.2
      subst he
      obtain ⟨_, _, _, _, hval⟩ := Name.tlv_ok ht
      exact hid (C55_segmented_distinct (by omega) hlt ⟨_, _, _, _, hs⟩ hname0 hname (wireOf_of_tlv ht0 hval) (wireOf_of_tlv ht hval)).symm
  have hmem : i.packet ∈ out := by
    rw [hout]
    simp
  obtain ⟨hv2, hh2, hfind⟩ := hr.store.find hr.distinct hmem
  cases Except.ok.inj (hh2.symm.trans hihash)
  show store.get E.prims (some (segName p st 0)) i.hash = _
  rw [get_eq_answer, hfind]
  simp [Spec.answer, hbn, hne]

theorem treeCapacity_pow (d m h : Nat) : m ^ (h + 1) ≤ Spec.treeCapacity d m h := by
  induction h with
  | zero => simp [Spec.treeCapacity]
  | succ h ih =>
    rw [Spec.treeCapacity, Nat.pow_succ, Nat.mul_comm]
    have := Nat.mul_le_mul_left m ih
    omega

theorem treeNodes_le (m h : Nat) (hm : 2 ≤ m) : Spec.treeNodes m h < m ^ (h + 1) := by
  induction h with
  | zero => simp [Spec.treeNodes]; omega
  | succ h ih =>
    rw [Spec.treeNodes, Nat.pow_succ, Nat.mul_comm (m ^ (h + 1))]
    have h1 : m * (Spec.treeNodes m h + 1) ≤ m * m ^ (h + 1) := Nat.mul_le_mul_left m ih
    rw [Nat.mul_add, Nat.mul_one] at h1
    omega

/-- The id of the top manifest. -/
theorem FileRun.top_id (R : FileRun E L o nc input root out) {ids : List Int} {level : Nat} {i : Info} {kids : Forest}
    (hids : initialIds R.r.indirect R.r.height = .ok ids)
    (hv : (Forest.cons i kids .nil).Valid R.env 0 R.file.chunks.length level)
    (hf : R.env.IdsFrom ids (kids.written ++ [i])) (hex : R.r.indirect = 1 ∨ R.r.indirect ^ (R.r.height.toNat + 1) ≤ 2 ^ 53) :
    (i.id : Int) = Spec.treeNodes R.r.indirect (R.r.height - level).toNat - 1 := by
  obtain ⟨hk, hi⟩ := (idsFrom_append ..).mp hf
  obtain ⟨h1, _, h3, h4, h5, _⟩ := hv
  subst h1
  have hi2 := hi.2.1
  rw [idsAfter_get (idsFrom_level hk) hi.1, kids_level h4 h5, initialIds_get (T := R.env) R.indirect hex hids _ hi.1] at hi2
  simp only [Option.map_some, Option.some.injEq] at hi2
  have : R.env.heightOf i.level = (R.r.height - i.level).toNat := rfl
  rw [this] at hi2
  have : R.env.indirect = R.r.indirect := rfl
  rw [this] at hi2
  omega

/-- What the optimizer selects. -/
theorem selected_shape {n p : Nat} {r : OptimizerResult} (hr : minimizeKMinWaste L n p = .ok r) (h1 : 1 ≤ n) (hp : 2 ≤ p)
    (hn : n < 2 ^ 52) (hp2 : p < 2 ^ 52) :
    (r.indirect = 1 ↔ p = 2 ∨ n ≤ 2 * p - 1) ∧ (n = 1 → r.height = 0) ∧
    (2 ≤ n → r.indirect = 1 → ∃ h : Nat, r.height = h + 1 ∧ n ≤ Spec.treeCapacity r.direct 1 h ∧
      ∀ h' < h, Spec.treeCapacity r.direct 1 h' < n) ∧
    (L.NotHigh → 2 ≤ r.indirect → ∀ h : Nat, (h : Int) < r.height → Spec.treeCapacity r.direct r.indirect h < n) := by
  obtain ⟨r0, hr0, hchain⟩ := C40_chain_iff L n p hp h1 hn hp2
  rw [hr] at hr0
  cases hr0
  refine ⟨hchain, ?_⟩
  by_cases hnp : p < n
  · obtain ⟨r1, m0, hr1, hm0, hsol, _⟩ := minimizeKMinWaste_selects L n p h1 hp hn hp2
    rw [hr] at hr1
    cases hr1
    obtain ⟨r', hr', _, hdm, hd1, hm1, _⟩ := C40_optimizer_minimises_internal_nodes L n p hp hnp hn
    rw [hr] at hr'
    cases hr'
    have hres : Spec.ResultFor L n r.direct r.indirect r := by
      unfold solutionFor at hsol
      obtain ⟨v, hv, hsol⟩ := bind_eq_ok.mp hsol
      cases v with
      | none => cases hsol
      | some k =>
        obtain ⟨r', hr', hsol⟩ := bind_eq_ok.mp hsol
        cases hsol
        obtain ⟨t, _, _, _, hf⟩ := create_fields hr'
        have e1 : r.direct = p - m0 := by rw [hf]
        have e2 : r.indirect = m0 := by rw [hf]
        refine ⟨k, by rw [e1, e2]; exact hv, ?_⟩
        rw [hdm, e1, e2]; exact hr'
    refine ⟨fun h => by omega, ?_, ?_⟩
    · intro hn2 hi
      rw [hi] at hres
      exact C41_chain_height L n r.direct r hres hn2 hd1 hn (by omega)
    · intro hL hi h hh
      exact C41_height_least L hL n r.direct r.indirect r hres h1 hd1 hi hn (by omega) h hh
  · obtain ⟨r1, hr1, hd, hi, _, _, hh⟩ := C40_small_files L n p hp hp2 h1 (by omega)
    rw [hr] at hr1
    cases hr1
    refine ⟨fun h => by rw [hh, if_pos h], ?_, fun _ h => by omega⟩
    intro hn2 _
    refine ⟨0, by rw [hh, if_neg (by omega)]; rfl, ?_, by simp⟩
    rw [Spec.treeCapacity]
    omega

/-- C50 (both ways, by the height): with segmented names the file is returned if no smaller height than the one computed has
room for it, and otherwise traversal raises ValueError and writes nothing. -/
theorem C50_segmented_by_height (hty : o.schemaType = .segmented) (h : manifestTree E L o nc input = (.ok root, out))
    (hr : Spec.CanRead E o nc out store ks) :
    ∃ p r hv, Spec.PointersFor E o nc input.rest.length (Spec.dataOf out) p ∧
      minimizeKMinWaste L (Spec.dataOf out).length p = .ok r ∧ root.hash E.prims.sha256 = .ok hv ∧
      ((∀ h : Nat, (h : Int) < r.height → Spec.treeCapacity r.direct r.indirect h < (Spec.dataOf out).length) →
        ∀ depth, out.length ≤ depth → Spec.Returned E o out store ks depth hv input.rest) ∧
      (∀ h : Nat, (h : Int) < r.height → (Spec.dataOf out).length ≤ Spec.treeCapacity r.direct r.indirect h →
        r.indirect = 1 ∨ r.indirect ^ (r.height.toNat + 1) ≤ 2 ^ 53 → r.height < 2 ^ 63 →
        ∀ depth, 1 ≤ depth → Spec.Refused E o store ks depth hv) := by
  obtain ⟨R⟩ := manifestTree_ok h
  obtain ⟨p, hp, hmin⟩ := R.pointersFor
  obtain ⟨ids, level, i, kids, h1, h2, h3, h4, h5, h6, h7, h8⟩ := R.forest
  obtain ⟨hv, c, hh, _⟩ := R.root hr.aead hr.oaep hr.rsa hr.verify hr.decrypt hr.counter hr.text
    (R.root_served (R.servedBy (hr.store.serves hr.distinct) ks))
  have hlen : (Spec.dataOf out).length = R.file.chunks.length := by rw [R.data, (chunked_get R.chunked).2.1]
  have hone : ∀ k, Spec.treeNodes 1 k = k + 1 := by
    intro k
    induction k with
    | zero => rfl
    | succ k ih => rw [Spec.treeNodes, ih]; omega
  refine ⟨p, R.r, hv, hp, hmin, hh, ?_, ?_⟩
  · intro hex
    rw [hlen] at hex
    have hcount := R.count
    have hpt := R.pointers
    have hin := R.indirect
    have hd := R.direct
    unfold MAX_CHUNK_ID at hcount
    have hht : R.r.indirect = 1 ∨ R.r.indirect ^ (R.r.height.toNat + 1) ≤ 2 ^ 53 := by
      by_cases h1 : R.r.indirect = 1
      · exact .inl h1
      · refine .inr ?_
        rw [Nat.pow_succ]
        have hb : R.r.indirect ^ R.r.height.toNat ≤ 2 ^ 24 := by
          cases hk : R.r.height.toNat with
          | zero => simp
          | succ k =>
            have := treeCapacity_pow R.r.direct R.r.indirect k
            have := hex k (by omega)
            omega
        calc R.r.indirect ^ R.r.height.toNat * R.r.indirect ≤ 2 ^ 24 * 2 ^ 16 := Nat.mul_le_mul hb (by omega)
          _ ≤ 2 ^ 53 := by decide
    have hsz : Spec.treeNodes R.r.indirect R.r.height.toNat ≤ 2 ^ 53 := by
      rcases Nat.lt_or_ge 1 R.r.indirect with hgt | hle
      · have := treeNodes_le R.r.indirect R.r.height.toNat hgt
        have := hht.resolve_left (by omega)
        omega
      · have he : R.r.indirect = 1 := by omega
        rw [he, hone]
        cases hk : R.r.height.toNat with
        | zero => decide
        | succ k =>
          have hc := hex k (by omega)
          have hcap : ∀ h, Spec.treeCapacity R.r.direct 1 h ≥ h := by
            intro h
            induction h with
            | zero => omega
            | succ h ih => rw [Spec.treeCapacity]; omega
          have := hcap k
          rw [he] at hc
          omega
    have hall := idsFrom_le (initialIds_le (T := R.env) R.indirect hht h1) h3
    have hlevel : (R.r.height - level).toNat = 0 := by
      by_contra hne
      have := hex level (by omega)
      omega
    have hid : i.id = 0 := by
      have := R.top_id h1 h2 h3 hht
      rw [hlevel] at this
      simp only [Spec.treeNodes] at this
      omega
    obtain ⟨hv', a, b⟩ := R.returned hr h2 h3 h6 h7 h8 (fun _ k hk => by
      have := hall k hk
      have e : Spec.treeNodes R.env.indirect R.env.height.toNat = Spec.treeNodes R.r.indirect R.r.height.toNat := rfl
      rw [e] at this
      omega) (fun _ => hid)
    rw [hh] at a
    cases a
    exact fun depth hd => b depth (.inl hd)
  · intro k hk hcap hht hsmall
    rw [hlen] at hcap
    have hlevel : level ≤ k := by
      by_contra hlt
      have := h5 k (by omega)
      omega
    have hid := R.top_id h1 h2 h3 hht
    obtain ⟨j, hj⟩ : ∃ j, (R.r.height - level).toNat = j + 1 := ⟨(R.r.height - level).toNat - 1, by omega⟩
    have hpos : 1 ≤ R.r.indirect := R.indirect
    have hlow : 2 ≤ Spec.treeNodes R.r.indirect (j + 1) := by
      rw [Spec.treeNodes]
      have := Nat.mul_le_mul hpos (treeNodes_pos R.r.indirect j)
      omega
    have hhigh : Spec.treeNodes R.r.indirect (j + 1) ≤ 2 ^ 63 := by
      have hmono := treeNodes_mono R.r.indirect (show j + 1 ≤ R.r.height.toNat by omega)
      rcases Nat.lt_or_ge 1 R.r.indirect with hgt | hle
      · have := treeNodes_le R.r.indirect R.r.height.toNat hgt
        have := hht.resolve_left (by omega)
        omega
      · have he : R.r.indirect = 1 := by omega
        rw [he, hone] at hmono ⊢
        omega
    rw [hj] at hid
    obtain ⟨hv', a, b⟩ := R.refused hr hty h2 h7 h8 (by omega) (by omega)
    rw [hh] at a
    cases a
    exact b

/-- C50: with `p` pointers per manifest, a file of `n` chunks published with segmented names is returned by traversal just when
`n = 1` or `2 p ≤ n` and `p > 2`.  Otherwise traversal raises ValueError and writes nothing. -/
theorem C50_segmented_readable (hL : L.NotHigh) (hty : o.schemaType = .segmented)
    (h : manifestTree E L o nc input = (.ok root, out)) (hr : Spec.CanRead E o nc out store ks) :
    ∃ p hv, Spec.PointersFor E o nc input.rest.length (Spec.dataOf out) p ∧ root.hash E.prims.sha256 = .ok hv ∧
      ((Spec.dataOf out).length = 1 ∨ 2 < p ∧ 2 * p ≤ (Spec.dataOf out).length →
        ∀ depth, out.length ≤ depth → Spec.Returned E o out store ks depth hv input.rest) ∧
      (¬ ((Spec.dataOf out).length = 1 ∨ 2 < p ∧ 2 * p ≤ (Spec.dataOf out).length) →
        ∀ depth, 1 ≤ depth → Spec.Refused E o store ks depth hv) := by
  obtain ⟨p, r, hv, hp, hmin, hh, hret, href⟩ := C50_segmented_by_height hty h hr
  obtain ⟨R⟩ := manifestTree_ok h
  have hlen : (Spec.dataOf out).length = R.file.chunks.length := by rw [R.data, (chunked_get R.chunked).2.1]
  have hcount := R.count
  have hne := R.nonempty
  rw [← hlen] at hcount hne
  unfold MAX_CHUNK_ID at hcount
  have hple : p < 2 ^ 52 := by
    obtain ⟨ctx, p0, s, _, h0, rfl⟩ := hp
    obtain ⟨_, hle, _⟩ := calculateMaxPointers_inv h0
    cases o.maxTreeDegree with
    | none => simp only; omega
    | some k => simp only; omega
  obtain ⟨_, hp2, hd, hm, hdm⟩ := minimizeKMinWaste_pos hmin (by omega) hple
  obtain ⟨s1, s2, s3, s4⟩ := selected_shape hmin hne hp2 (by omega) hple
  refine ⟨p, hv, hp, hh, ?_, ?_⟩
  · intro hc
    refine hret ?_
    rcases hc with hc | hc
    · intro k hk
      rw [s2 hc] at hk
      omega
    · exact s4 hL (by
        have : ¬ r.indirect = 1 := fun h1 => by have := s1.mp h1; omega
        omega)
  · intro hc
    have hi : r.indirect = 1 := s1.mpr (by omega)
    obtain ⟨k, hk, hcap, hleast⟩ := s3 (by omega) hi
    refine href k (by omega) (by rw [hi]; exact hcap) (.inl hi) ?_
    rcases Nat.eq_zero_or_pos k with rfl | hk0
    · omega
    · have hcapk : ∀ h, Spec.treeCapacity r.direct 1 h ≥ h := by
        intro h
        induction h with
        | zero => omega
        | succ h ih => rw [Spec.treeCapacity]; omega
      have h1 := hleast (k - 1) (by omega)
      have h2 := hcapk (k - 1)
      omega

/-! ## The hypotheses can be met -/

/-- The build returns, the packets go into a store, their hashes differ, and `n` of them are data objects. -/
def Toy.published (o : TreeOptions) (input : Stream) (n : Nat) : Bool :=
  match manifestTree Toy.env Spec.exactLog o 1 input with
  | (.ok _, out) => (MemoryStore.putAll Toy.prims {} out).isOk && (Spec.dataOf out).length == n &&
      decide ((out.map (fun p => (p.hash Toy.prims.sha256).toOption)).Nodup)
  | _ => false

theorem Toy.aeadLaw : Toy.prims.AeadLaw := by
  intro alg key iv pt aad c h
  cases Except.ok.inj h
  show Except.ok _ = _
  simp

theorem Toy.canRead {o : TreeOptions} {input : Stream} {n : Nat} {ks : Option Keystore} (hk : Spec.CanVerify Toy.prims ks o.signer)
    (hd : Spec.CanDecrypt Toy.prims ks o.encryptor) (hp : Spec.PlainNames o) (ht : Spec.TextLocators o)
    (h : Toy.published o input n = true) :
    ∃ root out store, manifestTree Toy.env Spec.exactLog o 1 input = (.ok root, out) ∧ (Spec.dataOf out).length = n ∧
      Spec.CanRead Toy.env o 1 out store ks := by
  unfold Toy.published at h
  rcases hm : manifestTree Toy.env Spec.exactLog o 1 input with ⟨e | root, out⟩
  · rw [hm] at h
    cases h
  · rw [hm] at h
    simp only [Bool.and_eq_true, beq_iff_eq, decide_eq_true_eq] at h
    obtain ⟨⟨h1, h2⟩, h3⟩ := h
    cases hs : MemoryStore.putAll Toy.prims {} out with
    | error e => rw [hs] at h1; cases h1
    | ok store =>
      refine ⟨root, out, store, rfl, h2, ⟨⟨Toy.aeadLaw, fun _ _ _ _ => rfl, ?_, hk, hd, hp, by decide⟩, ht⟩, .inl hs, ?_⟩
      · intro der d
        show (d == d) = true
        exact beq_self_eq_true d
      · intro p hp q hq hv h1 h2
        exact List.inj_on_of_nodup_map h3 hp hq (congrArg Except.toOption (h1.trans h2.symm))

theorem Toy.plain {o : TreeOptions} (h : o.name = Toy.seg [114] ∧ o.manifestPrefix = Toy.seg [109] ∧ o.dataPrefix = Toy.seg [100]) :
    Spec.PlainNames o := by
  intro n hn
  rw [h.1, h.2.1, h.2.2] at hn
  intro c hc
  rcases hn with hn | hn | hn <;>
  · cases Option.some.inj hn
    cases List.mem_singleton.mp hc
    rfl

theorem Toy.text {o : TreeOptions} (hn : o.name = Toy.seg [114]) (hm : o.manifestLocators = none) (hd : o.dataLocators = none) :
    Spec.TextLocators o := by
  rintro _ ls hl l hml n hln
  have : ls = [{ name := Toy.seg [114] }] := by
    rw [hn, hm, hd] at hl
    simpa using hl
  subst this
  cases List.mem_singleton.1 hml
  cases hln
  intro c hc
  cases List.mem_singleton.1 hc
  exact ⟨fun _ => ⟨['r'], by decide +kernel⟩, fun h => absurd h (by decide)⟩

/-- A keystore with the AES key of the toy options. -/
def Toy.aesKeys : Keystore := { byKeynum := [(5, Toy.key)] }

theorem Toy.canDecrypt : Spec.CanDecrypt Toy.prims (some Toy.aesKeys) (some (.aead Toy.key)) :=
  ⟨⟨by decide, fun _ h => by cases h⟩, Toy.aesKeys, Toy.key, rfl, rfl, rfl, rfl, rfl⟩

set_option maxRecDepth 100000 in
/-- C49: prefix names, encrypted, several manifests. -/
example : ∃ root out store, manifestTree Toy.env Spec.exactLog (Toy.options .prefixed true) 1 (Toy.shortReads 32) = (.ok root, out) ∧
    (Spec.dataOf out).length = 8 ∧ Spec.CanRead Toy.env (Toy.options .prefixed true) 1 out store (some Toy.aesKeys) :=
  Toy.canRead trivial Toy.canDecrypt (Toy.plain ⟨rfl, rfl, rfl⟩) (Toy.text rfl rfl rfl) (by decide +kernel)

/-- The toy options with the Hashed schema and a root name that is the byte 255. -/
def Toy.unreadable : TreeOptions := { Toy.options .hashed true with name := Toy.seg [255] }

set_option maxRecDepth 100000 in
/-- C85: such a tree is written. -/
example : ∃ root out, manifestTree Toy.env Spec.exactLog Toy.unreadable 1 (Toy.shortReads 32) = (.ok root, out) ∧
    (Spec.dataOf out).length = 8 ∧ Spec.HasKeys Toy.env Toy.unreadable 1 (some Toy.aesKeys) ∧ ¬ Spec.TextLocators Toy.unreadable := by
  have hm : (match manifestTree Toy.env Spec.exactLog Toy.unreadable 1 (Toy.shortReads 32) with
      | (.ok _, out) => (Spec.dataOf out).length == 8
      | _ => false) = true := by decide +kernel
  rcases h : manifestTree Toy.env Spec.exactLog Toy.unreadable 1 (Toy.shortReads 32) with ⟨e | root, out⟩
  · rw [h] at hm
    cases hm
  · rw [h] at hm
    refine ⟨root, out, rfl, by simpa using hm, ⟨Toy.aeadLaw, fun _ _ _ _ => rfl, ?_, trivial, Toy.canDecrypt, ?_, by decide⟩, ?_⟩
    · intro der d
      show (d == d) = true
      exact beq_self_eq_true d
    · rintro n (hn | hn | hn) <;>
      · cases hn
        intro c hc
        cases List.mem_singleton.mp hc
        rfl
    · intro ht
      obtain ⟨t, ht⟩ := (ht rfl _ (.inl rfl) _ (List.mem_singleton.2 rfl) _ rfl _ (List.mem_singleton.2 rfl)).1 rfl
      have := utf8Decode_encode t
      rw [ht, show utf8Decode (NameComponent.nameSegment [255]).value = none by decide +kernel] at this
      cases this

/-- The number of pointers found for the input. -/
def Toy.pointers (o : TreeOptions) (input : Stream) : Option Nat :=
  match NameCtx.create o.schemaType 1 o.name o.manifestPrefix o.dataPrefix o.manifestLocators o.dataLocators with
  | .error _ => none
  | .ok ctx =>
    match calculateMaxPointers Toy.env o ctx input.rest.length
      { output := Spec.dataOf (manifestTree Toy.env Spec.exactLog o 1 input).2 } with
    | (.ok p, _) => some p
    | _ => none

theorem Toy.pointersFor {o : TreeOptions} {input : Stream} {p : Nat} {root : Packet} {out : List Packet} (ho : o.maxTreeDegree = none)
    (hp : Toy.pointers o input = some p) (h : manifestTree Toy.env Spec.exactLog o 1 input = (.ok root, out)) :
    Spec.PointersFor Toy.env o 1 input.rest.length (Spec.dataOf out) p := by
  unfold Toy.pointers at hp
  rw [h] at hp
  split at hp
  · cases hp
  · next ctx hctx =>
    split at hp
    · next q s hq =>
      cases Option.some.inj hp
      exact ⟨ctx, _, s, hctx, hq, by rw [ho]⟩
    · cases hp

/-- Segmented names, encrypted, with space for four pointers. -/
def Toy.wideOptions : TreeOptions := { Toy.options .segmented true with maxPacketSize := 300 }

set_option maxRecDepth 100000 in
/-- C50: four pointers, nine chunks; the file is returned. -/
example : ∃ root out store, manifestTree Toy.env Spec.exactLog Toy.wideOptions 1 (Toy.shortReads 36) = (.ok root, out) ∧
    (Spec.dataOf out).length = 9 ∧ Spec.CanRead Toy.env Toy.wideOptions 1 out store (some Toy.aesKeys) ∧
    Spec.PointersFor Toy.env Toy.wideOptions 1 (Toy.shortReads 36).rest.length (Spec.dataOf out) 4 := by
  obtain ⟨root, out, store, h, hn, hr⟩ := Toy.canRead (o := Toy.wideOptions) (input := Toy.shortReads 36) (n := 9)
    trivial Toy.canDecrypt (Toy.plain ⟨rfl, rfl, rfl⟩) (Toy.text rfl rfl rfl) (by decide +kernel)
  exact ⟨root, out, store, h, hn, hr, Toy.pointersFor rfl (by decide +kernel) h⟩

set_option maxRecDepth 100000 in
/-- C50: four pointers, five chunks; traversal raises. -/
example : ∃ root out store, manifestTree Toy.env Spec.exactLog (Toy.options .segmented false) 1 (Toy.shortReads 20) = (.ok root, out) ∧
    (Spec.dataOf out).length = 5 ∧ Spec.CanRead Toy.env (Toy.options .segmented false) 1 out store none ∧
    Spec.PointersFor Toy.env (Toy.options .segmented false) 1 (Toy.shortReads 20).rest.length (Spec.dataOf out) 4 := by
  obtain ⟨root, out, store, h, hn, hr⟩ := Toy.canRead (o := Toy.options .segmented false) (input := Toy.shortReads 20) (n := 5)
    (ks := none) trivial trivial (Toy.plain ⟨rfl, rfl, rfl⟩) (Toy.text rfl rfl rfl) (by decide +kernel)
  exact ⟨root, out, store, h, hn, hr, Toy.pointersFor rfl (by decide +kernel) h⟩

/-- An RSA key; signs and wraps the content key. -/
def Toy.rsa : RsaKey := ⟨[1, 2, 3], true, 2048⟩

/-- A key with salt; without salt the wrapper is not made. -/
def Toy.saltedKey : AeadParams := { Toy.key with aeadSalt := some 9 }

def Toy.wrapper : RsaOaepWrapper := ⟨Toy.rsa.keyid Toy.prims, none, some T_SHA_256, some ([0, 0, 0, 9] ++ List.replicate 16 1)⟩

/-- Signed with RSA and encrypted with RSA-OAEP. -/
def Toy.rsaOptions : TreeOptions :=
  { Toy.options .prefixed false with
    maxPacketSize := 300, signer := some (.rsa Toy.rsa none (F64.ofNat 3)), encryptor := some (.oaep Toy.saltedKey Toy.wrapper) }

/-- A keystore with the RSA key only. -/
def Toy.rsaKeys : Keystore := Keystore.addRsaKey Toy.prims {} (.text "k") Toy.rsa

set_option maxRecDepth 100000 in
/-- C49: prefix names, RSA signatures, RSA-OAEP encryption; the reader has only the RSA key. -/
example : ∃ root out store, manifestTree Toy.env Spec.exactLog Toy.rsaOptions 1 (Toy.shortReads 36) = (.ok root, out) ∧
    (Spec.dataOf out).length = 9 ∧ Spec.CanRead Toy.env Toy.rsaOptions 1 out store (some Toy.rsaKeys) := by
  have hget : Toy.rsaKeys.getRsa Toy.prims (.hash (Toy.rsa.keyid Toy.prims)) = .ok Toy.rsa := by decide +kernel
  have hw : oaepWrapper Toy.prims Toy.rsa [] Toy.saltedKey = .ok Toy.wrapper := by decide +kernel
  have hk : Toy.rsaKeys.getAesKey 5 = .error .keyNumberNotFound := by decide +kernel
  have hv : Spec.CanVerify Toy.prims (some Toy.rsaKeys) Toy.rsaOptions.signer := by
    intro s hs
    cases Option.some.inj hs
    exact ⟨Toy.rsa, hget, rfl⟩
  have hfit : Toy.saltedKey.Fits64 := ⟨by decide, fun _ h => by cases h⟩
  have halg : ∀ a, Toy.wrapper.hashAlg = some a → a < 2 ^ 64 := by
    intro a h
    cases Option.some.inj h
    decide
  exact Toy.canRead hv ⟨hfit, halg, Toy.rsaKeys, rfl, .inr ⟨⟨_, hk⟩, Toy.rsa, [], Toy.rsa, hw, hget, rfl, rfl⟩⟩
    (Toy.plain ⟨rfl, rfl, rfl⟩) (Toy.text rfl rfl rfl) (by decide +kernel)

end Ccnpy
