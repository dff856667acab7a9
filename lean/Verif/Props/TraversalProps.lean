import Verif.Props.DisplayProps
import Verif.Lemmas.Traversal
import Verif.Props.StoreProps
import Mathlib.Data.List.Forall2

/-!
# C51, C52: what a traversal visits and writes, and which name constructor a pointer uses
-/

namespace Ccnpy

/-- What is asked of a packet reader: a name and a hash. -/
abbrev Spec.Request := Option Name × Option HashValue

/-- The objects obtained for a list of requests, in order; a manifest comes with its node and with the objects obtained for
its pointers. -/
inductive Spec.Visited where
  | nil
  | data (p : Packet) (payload : Bytes) (rest : Spec.Visited)
  | manifest (p : Packet) (node : Node) (kids rest : Spec.Visited)

/-- The number of objects. -/
def Spec.Visited.count : Spec.Visited → Nat
  | .nil => 0
  | .data _ _ rest => 1 + rest.count
  | .manifest _ _ kids rest => 1 + kids.count + rest.count

/-- The payloads of the data objects in pre-order. -/
def Spec.Visited.payloads : Spec.Visited → List Bytes
  | .nil => []
  | .data _ b rest => b :: rest.payloads
  | .manifest _ _ kids rest => kids.payloads ++ rest.payloads

/-- The number of data objects. -/
def Spec.Visited.dataCount : Spec.Visited → Nat
  | .nil => 0
  | .data _ _ rest => 1 + rest.dataCount
  | .manifest _ _ kids rest => kids.dataCount + rest.dataCount

/-- The largest number of objects on a path. -/
def Spec.Visited.depth : Spec.Visited → Nat
  | .nil => 0
  | .data _ _ rest => max 1 rest.depth
  | .manifest _ _ kids rest => max (1 + kids.depth) rest.depth

/-- The objects in pre-order. -/
def Spec.Visited.packets : Spec.Visited → List Packet
  | .nil => []
  | .data p _ rest => p :: rest.packets
  | .manifest p _ kids rest => p :: (kids.packets ++ rest.packets)

def Spec.Visited.append : Spec.Visited → Spec.Visited → Spec.Visited
  | .nil, w => w
  | .data p b rest, w => .data p b (rest.append w)
  | .manifest p n kids rest, w => .manifest p n kids (rest.append w)

/-- Specification of scoping: `scope` lists the definitions met on the way from the root to a manifest, the manifest's own
ones last; an id means its latest definition. -/
def Spec.lookup (scope : List NcDef) (id : Nat) : Option NcDef := (scope.filter (fun d => d.ncId == some id)).getLast?

/-- The request made for a pointer: its hash, and the name that the name constructor in scope gives for its segment id. -/
def Spec.Asks (scope : List NcDef) (v : HashIteratorValue) (r : Spec.Request) : Prop :=
  r.2 = some v.hashValue ∧
  ∃ d i, Spec.lookup scope v.ncId = some d ∧ SchemaImpl.ofNcDef d = .ok i ∧
    i.getName (v.segmentId.map Int.ofNat) = .ok r.1

/-- The node of a manifest object: in the clear, or decrypted with some key. -/
def Spec.NodeOf (P : Prims) (p : Packet) (node : Node) : Prop :=
  ∃ m, Manifest.fromContentObject p.body = .ok m ∧
    (m.node = .plain node ∨
      ∃ ctx c t q, m = ⟨some ctx, .encrypted c, some t⟩ ∧ AeadParams.decryptNode P q ctx c t = .ok node)

/-- The id of a definition has at most 4300 digits and the names of its locators are readable (Traversal.py:53 prints them). -/
def Spec.Printable (d : NcDef) : Prop :=
  (∀ n ∈ d.ncId.toList, Spec.ShortNumber n) ∧
  ∀ s, d.schema = some s → ∀ n ∈ Spec.linkNames (Spec.schemaLocators s), Spec.ReadableName n

/-- A node that can be walked: its groups have pointers and name constructor ids, its definitions make schemas and can be printed. -/
def Spec.Walkable (node : Node) : Prop :=
  (∀ g ∈ node.hashGroups, g.Iterable) ∧ ∀ d ∈ node.defs, (∃ i, SchemaImpl.ofNcDef d = .ok i) ∧ Spec.Printable d

/-- A manifest object that was read: its node, which can be walked. -/
def Spec.Read (P : Prims) (p : Packet) (node : Node) : Prop := Spec.NodeOf P p node ∧ Spec.Walkable node

/-- `Spec.Leads T op scope requests visited`: with the definitions `scope`, the requests are answered by the objects
`visited`; the pointers of a manifest are followed in order, with the definitions in scope plus those of the manifest itself,
and the definitions of a manifest are not seen by the requests after it. -/
inductive Spec.Leads (T : TravEnv) (op : Packet → Node → Prop) :
    (scope : List NcDef) → List Spec.Request → Spec.Visited → Prop
  | nil {scope : List NcDef} : Spec.Leads T op scope [] .nil
  | data {scope : List NcDef} {r : Spec.Request} {rs : List Spec.Request} {p : Packet} {b : Bytes} {rest : Spec.Visited}
      (got : T.reader r.1 r.2 = .ok p) (valid : validatePacket T.prims T.keystore p = .ok ())
      (type : p.body.payloadType = some PT_DATA) (payload : p.body.payload = some b)
      (after : Spec.Leads T op scope rs rest) : Spec.Leads T op scope (r :: rs) (.data p b rest)
  | manifest {scope : List NcDef} {r : Spec.Request} {rs krs : List Spec.Request} {p : Packet} {node : Node}
      {kids rest : Spec.Visited}
      (got : T.reader r.1 r.2 = .ok p) (valid : validatePacket T.prims T.keystore p = .ok ())
      (type : p.body.payloadType = some PT_MANIFEST) (read : op p node)
      (asks : List.Forall₂ (Spec.Asks (scope ++ node.defs)) (node.hashGroups.flatMap HashGroup.values) krs)
      (below : Spec.Leads T op (scope ++ node.defs) krs kids)
      (after : Spec.Leads T op scope rs rest) : Spec.Leads T op scope (r :: rs) (.manifest p node kids rest)

/-! ## Helpers -/

theorem Spec.Leads.append {T : TravEnv} {op : Packet → Node → Prop} {scope : List NcDef} {rs rs' : List Spec.Request}
    {v w : Spec.Visited} (h : Spec.Leads T op scope rs v) (h' : Spec.Leads T op scope rs' w) :
    Spec.Leads T op scope (rs ++ rs') (v.append w) := by
  induction h with
  | nil => exact h'
  | data h1 h2 h3 h4 _ ih => exact .data h1 h2 h3 h4 (ih h')
  | manifest h1 h2 h3 h4 h5 h6 _ _ ih => exact .manifest h1 h2 h3 h4 h5 h6 (ih h')

theorem Spec.Visited.count_append (v w : Spec.Visited) : (v.append w).count = v.count + w.count := by
  induction v with
  | nil => simp [Spec.Visited.append, Spec.Visited.count]
  | data p b rest ih => simp only [Spec.Visited.append, Spec.Visited.count, ih]; omega
  | manifest p n kids rest _ ih => simp only [Spec.Visited.append, Spec.Visited.count, ih]; omega

theorem Spec.Visited.payloads_append (v w : Spec.Visited) : (v.append w).payloads = v.payloads ++ w.payloads := by
  induction v with
  | nil => rfl
  | data p b rest ih => simp only [Spec.Visited.append, Spec.Visited.payloads, ih, List.cons_append]
  | manifest p n kids rest _ ih => simp only [Spec.Visited.append, Spec.Visited.payloads, ih, List.append_assoc]

theorem Spec.Visited.payloads_length (v : Spec.Visited) : v.payloads.length = v.dataCount := by
  induction v with
  | nil => rfl
  | data p b rest ih => simp only [Spec.Visited.payloads, Spec.Visited.dataCount, List.length_cons, ih]; omega
  | manifest p n kids rest ih1 ih2 => simp only [Spec.Visited.payloads, Spec.Visited.dataCount, List.length_append, ih1, ih2]

/-- The dictionary of the traversal holds the definitions in scope. -/
def CacheOf (nc : NcCache) (scope : List NcDef) : Prop := NcCache.update [] scope = .ok nc

theorem CacheOf.find {nc : NcCache} {scope : List NcDef} (h : CacheOf nc scope) (id : Nat) :
    nc.find id = match Spec.lookup scope id with
      | some d => SchemaImpl.ofNcDef d
      | none => .error .keyError := by
  obtain ⟨h1, h2⟩ := NcCache.update_find _ _ _ h id
  unfold Spec.lookup
  cases hl : (scope.filter (fun d => d.ncId == some id)).getLast? with
  | some d => exact h1 d hl
  | none =>
    rw [h2 (List.getLast?_eq_none_iff.mp hl)]
    rfl

theorem CacheOf.update {nc nc' : NcCache} {scope : List NcDef} (h : CacheOf nc scope) {n : Node}
    (hu : updateNcCache nc n = .ok nc') : CacheOf nc' (scope ++ n.defs) := by
  unfold CacheOf at *
  rw [updateNcCache_eq] at hu
  rw [NcCache.update_append, h]
  exact hu

theorem fetch_ok {T : TravEnv} {nc : NcCache} {scope : List NcDef} (h : CacheOf nc scope) {v : HashIteratorValue} {p : Packet}
    (hf : T.fetch nc v = .ok p) : ∃ r, Spec.Asks scope v r ∧ T.reader r.1 r.2 = .ok p := by
  unfold TravEnv.fetch at hf
  obtain ⟨i, hi, hf⟩ := bind_eq_ok.mp hf
  obtain ⟨name, hn, hf⟩ := bind_eq_ok.mp hf
  rw [h.find] at hi
  cases hl : Spec.lookup scope v.ncId with
  | none => rw [hl] at hi; cases hi
  | some d =>
    rw [hl] at hi
    exact ⟨(name, some v.hashValue), ⟨rfl, d, i, hl, hi, hn⟩, hf⟩

theorem fetch_run {T : TravEnv} {nc : NcCache} {scope : List NcDef} (h : CacheOf nc scope) {v : HashIteratorValue}
    {r : Spec.Request} (ha : Spec.Asks scope v r) : T.fetch nc v = T.reader r.1 r.2 := by
  obtain ⟨h1, d, i, h2, h3, h4⟩ := ha
  unfold TravEnv.fetch
  rw [h.find, h2]
  simp only [h3, ok_bind, h4, h1]

theorem aeadDecrypt_node {P : Prims} {p : AeadParams} {m m' : Manifest} {node : Node}
    (h : aeadDecryptManifest P p m = .ok m') (hn : m'.node = .plain node) :
    ∃ ctx c t, m = ⟨some ctx, .encrypted c, some t⟩ ∧ p.decryptNode P ctx c t = .ok node := by
  obtain ⟨sc, nd, tag⟩ := m
  cases nd with
  | plain n => cases h
  | encrypted c =>
    cases sc with
    | none => cases h
    | some x =>
      cases x with
      | rsaOaep d w => cases h
      | aead d =>
        cases tag with
        | none => cases h
        | some t =>
          obtain ⟨n, hd, h⟩ := bind_eq_ok.mp h
          cases Except.ok.inj h
          cases hn
          exact ⟨_, c, t, rfl, hd⟩

theorem oaepDecrypt_node {P : Prims} {p : AeadParams} {m m' : Manifest} {node : Node}
    (h : oaepDecryptManifest P p m = .ok m') (hn : m'.node = .plain node) :
    ∃ ctx c t, m = ⟨some ctx, .encrypted c, some t⟩ ∧ p.decryptNode P ctx c t = .ok node := by
  obtain ⟨sc, nd, tag⟩ := m
  cases nd with
  | plain n => cases h
  | encrypted c =>
    cases sc with
    | none => cases h
    | some x =>
      cases x with
      | aead d => cases h
      | rsaOaep d w =>
        cases tag with
        | none => cases h
        | some t =>
          obtain ⟨n, hd, h⟩ := bind_eq_ok.mp h
          cases Except.ok.inj h
          cases hn
          exact ⟨_, c, t, rfl, hd⟩

theorem decrypt_reads {T : TravEnv} {m m' : Manifest} {s s' : TState} {node : Node}
    (h : T.decrypt m s = (.ok m', s')) (hn : m'.node = .plain node) :
    s'.count = s.count ∧ s'.writes = s.writes ∧
    (m.node = .plain node ∨
      ∃ ctx c t q, m = ⟨some ctx, .encrypted c, some t⟩ ∧ AeadParams.decryptNode T.prims q ctx c t = .ok node) := by
  unfold TravEnv.decrypt at h
  split at h
  · cases h
  · cases ho : s.cache.open T.prims m with
    | mk r c =>
      rw [ho] at h
      cases h
      refine ⟨rfl, rfl, ?_⟩
      unfold DecryptorCache.open at ho
      split at ho
      · cases hx : m.securityCtx with
        | none => rw [hx] at ho; cases ho
        | some ctx =>
          simp only [hx] at ho
          cases hg : s.cache.getOrCreate ctx with
          | mk d c' =>
            rw [hg] at ho
            cases d with
            | error e => cases ho
            | ok d =>
              simp only at ho
              unfold DecryptorCache.decrypt at ho
              cases d with
              | none => cases ho
              | some d =>
                cases d with
                | aead q =>
                  injection ho with ho _
                  obtain ⟨ctx, c, t, h1, h2⟩ := aeadDecrypt_node ho hn
                  exact .inr ⟨ctx, c, t, q, h1, h2⟩
                | oaep =>
                  simp only at ho
                  unfold OaepDecryptor.decryptManifest at ho
                  rw [hx] at ho
                  cases ctx with
                  | aead d => cases ho
                  | rsaOaep d w =>
                    simp only at ho
                    cases hi : c'.oaep.getImpl T.prims d w with
                    | error e => rw [hi] at ho; cases ho
                    | ok q =>
                      rw [hi] at ho
                      injection ho with ho _
                      obtain ⟨ctx, c, t, h1, h2⟩ := oaepDecrypt_node ho hn
                      exact .inr ⟨ctx, c, t, q.1, h1, h2⟩
      · cases ho
        exact .inl hn

theorem iterable_or_not (gs : List HashGroup) :
    (∀ g ∈ gs, g.Iterable) ∨ ∃ pre bad post, gs = pre ++ bad :: post ∧ (∀ g ∈ pre, g.Iterable) ∧ ¬ bad.Iterable := by
  induction gs with
  | nil => exact .inl (by simp)
  | cons g gs ih =>
    by_cases hg : g.Iterable
    · rcases ih with ih | ⟨pre, bad, post, rfl, h1, h2⟩
      · exact .inl (by simpa using ⟨hg, ih⟩)
      · exact .inr ⟨g :: pre, bad, post, rfl, by simpa using ⟨hg, h1⟩, h2⟩
    · exact .inr ⟨[], g, gs, rfl, by simp, hg⟩

theorem iterable_of_ok {T : TravEnv} {visit : Packet → PyS TState Unit} {nc : NcCache} {fuel : Nat} {node : Node}
    {s s' : TState} (h : T.visitLoop visit nc fuel node.iter s = (.ok (), s')) : ∀ g ∈ node.hashGroups, g.Iterable := by
  rcases iterable_or_not node.hashGroups with hi | ⟨pre, bad, post, hgs, h1, h2⟩
  · exact hi
  · exact absurd h (visitLoop_raises (C28_iteration_raises node pre post bad hgs h1 h2) _ _ _)

theorem update_printable {ds : List NcDef} {c c' : NcCache} (h : NcCache.update c ds = .ok c') :
    ∀ d ∈ ds, (∃ i, SchemaImpl.ofNcDef d = .ok i) ∧ Spec.Printable d := by
  induction ds generalizing c with
  | nil => simp
  | cons d ds ih =>
    rw [NcCache.update] at h
    obtain ⟨u, ha, h⟩ := bind_eq_ok.mp h
    obtain ⟨i, hi, h⟩ := bind_eq_ok.mp h
    have hp : Spec.Printable d := by
      unfold NcDef.announce at ha
      rw [SchemaImpl.ofNcDef_id hi] at ha
      exact ncDef_show.1 ha
    intro x hx
    rcases List.mem_cons.mp hx with rfl | hx
    · exact ⟨⟨i, hi⟩, hp⟩
    · exact ih h x hx

theorem preorder_sound (T : TravEnv) (depth : Nat) : ∀ {nc : NcCache} {scope : List NcDef} {p : Packet} {s s' : TState}
    (_ : CacheOf nc scope) (_ : T.preorder depth nc p s = (.ok (), s')) {r : Spec.Request}
    (_ : T.reader r.1 r.2 = .ok p) (_ : validatePacket T.prims T.keystore p = .ok ()),
    ∃ v, Spec.Leads T (Spec.Read T.prims) scope [r] v ∧ s'.count = s.count + v.count ∧
      s'.writes = s.writes ++ v.payloads := by
  induction depth with
  | zero => intro nc scope p s s' _ h; cases h
  | succ depth ih =>
    intro nc scope p s s' hc h r hr hv
    unfold TravEnv.preorder at h
    obtain ⟨hv', hh, h⟩ := PyS.liftBind_ok h
    rw [PyS.bind_run] at h
    simp only [PyS.modify_run] at h
    cases ht : p.body.payloadType with
    | none => rw [ht] at h; cases h
    | some ty =>
      simp only [ht] at h
      by_cases h1 : ty = PT_MANIFEST
      · rw [if_pos h1] at h
        obtain ⟨m, hm, h⟩ := PyS.liftBind_ok h
        obtain ⟨m', s1, hd, h⟩ := PyS.bind_ok h
        cases hn : m'.node with
        | encrypted x => simp only [hn] at h; cases h
        | plain node =>
          simp only [hn] at h
          obtain ⟨nc', hu, h⟩ := PyS.liftBind_ok h
          obtain ⟨hcount, hwrites, hread⟩ := decrypt_reads hd hn
          have hc' := hc.update hu
          have hl := visitLoop_ok _ (reportError_ok h)
          have hwalk : Spec.Walkable node := ⟨iterable_of_ok (reportError_ok h), update_printable (by rw [← updateNcCache_eq]; exact hu)⟩
          rw [Node.iter_left] at hl
          have loop : ∀ (vs : List HashIteratorValue) (s s' : TState),
              visitAll T (fun q => T.preorder depth nc' q) nc' vs s = (.ok (), s') →
              ∃ krs kids, List.Forall₂ (Spec.Asks (scope ++ node.defs)) vs krs ∧
                Spec.Leads T (Spec.Read T.prims) (scope ++ node.defs) krs kids ∧
                s'.count = s.count + kids.count ∧ s'.writes = s.writes ++ kids.payloads := by
            intro vs
            induction vs with
            | nil =>
              intro s s' h
              cases h
              exact ⟨[], .nil, .nil, .nil, rfl, by simp [Spec.Visited.payloads]⟩
            | cons v vs ihv =>
              intro s s' h
              unfold visitAll at h
              obtain ⟨q, hq, h⟩ := PyS.liftBind_ok h
              obtain ⟨u, hqv, h⟩ := PyS.liftBind_ok h
              obtain ⟨u', s2, hvis, h⟩ := PyS.bind_ok h
              obtain ⟨r', ha, hr'⟩ := fetch_ok hc' hq
              obtain ⟨w, hw, hw1, hw2⟩ := ih hc' hvis hr' hqv
              obtain ⟨krs, kids, hk, hk1, hk2, hk3⟩ := ihv s2 s' h
              refine ⟨r' :: krs, w.append kids, .cons ha hk, hw.append hk1, ?_, ?_⟩
              · rw [hk2, hw1, Spec.Visited.count_append]; omega
              · rw [hk3, hw2, Spec.Visited.payloads_append, List.append_assoc]
          obtain ⟨krs, kids, hk, hk1, hk2, hk3⟩ := loop _ _ _ hl
          refine ⟨.manifest p node kids .nil, .manifest hr hv (by rw [ht, h1]) ⟨⟨m, hm, hread⟩, hwalk⟩ hk hk1 .nil, ?_, ?_⟩
          · rw [hk2, hcount]; simp only [Spec.Visited.count]; omega
          · rw [hk3, hwrites]; simp [Spec.Visited.payloads]
      · rw [if_neg h1] at h
        by_cases h2 : ty = PT_DATA
        · rw [if_pos h2] at h
          unfold writeData at h
          cases hb : p.body.payload with
          | none => rw [hb] at h; cases h
          | some b =>
            simp only [hb] at h
            cases h
            exact ⟨.data p b .nil, .data hr hv (by rw [ht, h2]) hb .nil, rfl, rfl⟩
        · rw [if_neg h2] at h
          obtain ⟨h, _⟩ := PyS.lift_ok h
          obtain ⟨_, _, h⟩ := bind_eq_ok.mp h
          cases h

/-! ## C51 -/

/-- C51: whatever the reader supplies, a traversal that returns has followed the pointers from the root; the counter has grown by
the number of objects visited, and the payloads of the data objects were written in pre-order, one write each. -/
theorem C51_traversal (T : TravEnv) (depth : Nat) (name : Option Name) (hash : Option HashValue) (s s' : TState)
    (h : T.traverse depth name hash s = (.ok (), s')) :
    ∃ v, Spec.Leads T (Spec.Read T.prims) [] [(name, hash)] v ∧ s'.count = s.count + v.count ∧
      ∃ w : List Bytes, s'.writes = s.writes ++ w ∧ w = v.payloads ∧ w.length = v.dataCount := by
  unfold TravEnv.traverse at h
  obtain ⟨p, hp, h⟩ := PyS.liftBind_ok h
  obtain ⟨u, hv, h⟩ := PyS.liftBind_ok h
  obtain ⟨v, h1, h2, h3⟩ := preorder_sound T depth (scope := []) rfl h (r := (name, hash)) hp hv
  exact ⟨v, h1, h2, v.payloads, h3, rfl, v.payloads_length⟩

/-- The packet has the digest of a hash value (`==` on hash values compares the digests). -/
def Spec.HasDigest (P : Prims) (h : HashValue) (p : Packet) : Prop :=
  ∃ g, p.hash P.sha256 = .ok g ∧ g.value = h.value

/-- Every object visited has the hash of the pointer that led to it. -/
def Spec.Visited.Hashed (P : Prims) : List (Option HashValue) → Spec.Visited → Prop
  | hs, .nil => hs = []
  | hs, .data p _ rest => ∃ h hs', hs = h :: hs' ∧ (∀ x, h = some x → Spec.HasDigest P x p) ∧ rest.Hashed P hs'
  | hs, .manifest p node kids rest =>
    ∃ h hs', hs = h :: hs' ∧ (∀ x, h = some x → Spec.HasDigest P x p) ∧
      kids.Hashed P ((node.hashGroups.flatMap (fun g => g.values.map (·.hashValue))).map some) ∧ rest.Hashed P hs'

theorem Spec.Leads.hashed {T : TravEnv} {op : Packet → Node → Prop}
    (hr : ∀ name h p, T.reader name (some h) = .ok p → Spec.HasDigest T.prims h p)
    {scope : List NcDef} {rs : List Spec.Request} {v : Spec.Visited} (h : Spec.Leads T op scope rs v) :
    v.Hashed T.prims (rs.map (·.2)) := by
  induction h with
  | nil => rfl
  | data h1 _ _ _ _ ih => exact ⟨_, _, rfl, fun x hx => hr _ x _ (by rw [← hx]; exact h1), ih⟩
  | manifest h1 _ _ _ h5 _ _ ih1 ih2 =>
    refine ⟨_, _, rfl, fun x hx => hr _ x _ (by rw [← hx]; exact h1), ?_, ih2⟩
    have : ∀ (sc : List NcDef) (vs : List HashIteratorValue) (qs : List Spec.Request), List.Forall₂ (Spec.Asks sc) vs qs →
        qs.map (·.2) = (vs.map (·.hashValue)).map some := by
      intro sc vs qs h
      induction h with
      | nil => rfl
      | cons h _ ih => simp only [List.map_cons, ih, h.1]
    rw [this _ _ _ h5, List.map_flatMap] at ih1
    exact ih1

theorem dictEq_value {P : Prims} {a b : HashValue} (h : a.dictEq P b = true) : b.value = a.value := by
  simp only [HashValue.dictEq, HashValue.pyEq, Tlv.pyEq, Bool.and_eq_true, beq_iff_eq] at h
  exact h.2.2.symm

/-- Every packet of a store is filed under its hash. -/
def MemoryStore.Filed (P : Prims) (s : MemoryStore) : Prop := ∀ e ∈ s.byHash, e.2.hash P.sha256 = .ok e.1

theorem putAll_filed {P : Prims} {ps : List Packet} {s s' : MemoryStore} (hs : s.Filed P) (h : s.putAll P ps = .ok s') :
    s'.Filed P := by
  induction ps generalizing s with
  | nil => cases Except.ok.inj h; exact hs
  | cons p ps ih =>
    unfold MemoryStore.putAll at h ih
    rw [List.foldlM_cons] at h
    obtain ⟨m, hm, h⟩ := bind_eq_ok.mp h
    refine ih ?_ h
    obtain ⟨n, hv, _, hh, _, _, hif⟩ := MemoryStore.put_ok hm
    split at hif
    · unfold MemoryStore.Filed; rw [hif.1]; exact hs
    · intro e he
      rw [hif.1, List.mem_append] at he
      rcases he with he | he
      · exact hs e he
      · simp only [List.mem_singleton] at he
        subst he
        exact hh

theorem ofPackets_filed {P : Prims} {ps : List Packet} {s : MemoryStore} (h : MemoryStore.ofPackets P ps = .ok s) :
    s.Filed P := by
  unfold MemoryStore.ofPackets at h
  have key : ∀ (qs : List Packet) (s0 s1 : MemoryStore),
      qs.foldlM (fun s p => do
        let h ← p.hash P.sha256
        return { s with byHash := (h, p) :: s.byHash }) s0 = .ok s1 → s0.Filed P → s1.Filed P := by
    intro qs
    induction qs with
    | nil => intro s0 s1 h h0; cases Except.ok.inj h; exact h0
    | cons q qs ih =>
      intro s0 s1 h h0
      rw [List.foldlM_cons] at h
      obtain ⟨m, hm, h⟩ := bind_eq_ok.mp h
      obtain ⟨hv, hh, hm⟩ := bind_eq_ok.mp hm
      cases Except.ok.inj hm
      refine ih _ _ h ?_
      intro e he
      rcases List.mem_cons.mp he with rfl | he
      · exact hh
      · exact h0 e he
  exact key ps _ s h (by intro e he; simp at he)

theorem MemoryStore.Filed.reader {P : Prims} {s : MemoryStore} (hs : s.Filed P) {name : Option Name} {h : HashValue}
    {p : Packet} (hr : s.reader P name (some h) = .ok p) : Spec.HasDigest P h p := by
  have hg : s.get P name h = .ok p := hr
  rw [get_eq_answer] at hg
  unfold Spec.answer at hg
  unfold MemoryStore.find at hg
  cases hf : s.byHash.find? (fun e => h.dictEq P e.1) with
  | none => rw [hf] at hg; cases hg
  | some e =>
    rw [hf] at hg
    have hp : e.2 = p := by
      simp only [Option.map_some] at hg
      generalize (e.2.body.name.isNone || _) = b at hg
      cases b with
      | true => exact Except.ok.inj hg
      | false => simp only [Bool.false_eq_true, if_false] at hg; split at hg <;> cases hg
    subst hp
    have hd : h.dictEq P e.1 = true := by simpa using List.find?_some hf
    exact ⟨e.1, hs e (List.mem_of_find?_eq_some hf), dictEq_value hd⟩

/-- C51: with the memory store, or the memory reader made from a list, every object visited has the hash named by its pointer
(and the root the hash given). -/
theorem C51_memory_hashes (P : Prims) (ks : Option Keystore) (ps : List Packet) (store : MemoryStore)
    (hstore : MemoryStore.putAll P {} ps = .ok store ∨ MemoryStore.ofPackets P ps = .ok store)
    (depth : Nat) (name : Option Name) (hash : Option HashValue) (s s' : TState)
    (h : TravEnv.traverse ⟨P, store.reader P, ks⟩ depth name hash s = (.ok (), s')) :
    ∃ v, Spec.Leads ⟨P, store.reader P, ks⟩ (Spec.Read P) [] [(name, hash)] v ∧ v.Hashed P [hash] ∧
      s'.count = s.count + v.count ∧ s'.writes = s.writes ++ v.payloads := by
  obtain ⟨v, h1, h2, w, h3, rfl, _⟩ := C51_traversal _ _ _ _ _ _ h
  have hf : store.Filed P := by
    rcases hstore with h | h
    · exact putAll_filed (by intro e he; simp at he) h
    · exact ofPackets_filed h
  exact ⟨v, h1, h1.hashed (fun _ _ _ hr => hf.reader hr), h2, h3⟩

/-! ### The converse: what can be walked is walked -/

/-- The loop over requests. -/
def visitRequests (T : TravEnv) (visit : Packet → PyS TState Unit) : List Spec.Request → PyS TState Unit
  | [] => pure ()
  | r :: rs => do
    let p ← PyS.lift (T.reader r.1 r.2)
    PyS.lift (validatePacket T.prims T.keystore p)
    visit p
    visitRequests T visit rs

theorem visitAll_requests {T : TravEnv} {visit : Packet → PyS TState Unit} {nc : NcCache} {scope : List NcDef}
    (hc : CacheOf nc scope) {vs : List HashIteratorValue} {rs : List Spec.Request}
    (h : List.Forall₂ (Spec.Asks scope) vs rs) : visitAll T visit nc vs = visitRequests T visit rs := by
  induction h with
  | nil => rfl
  | cons h _ ih => unfold visitAll visitRequests; rw [fetch_run hc h, ih]

theorem groupValues_sum (gs : List HashGroup) (h : ∀ g ∈ gs, g.Iterable) :
    (gs.flatMap HashGroup.values).length = (gs.map (fun g => (g.pointers.getD []).length)).sum := by
  induction gs with
  | nil => rfl
  | cons g gs ih =>
    obtain ⟨ps, hps, hd⟩ := h g (by simp)
    rw [List.flatMap_cons, List.length_append, ih (fun g hg => h g (by simp [hg]))]
    cases ps with
    | nil =>
      unfold HashGroup.values
      rw [hps]
      cases g.groupData <;> simp [groupValues, hps]
    | cons p ps =>
      obtain ⟨d, nc, hd, hnc⟩ := hd (by simp)
      simp [HashGroup.values, hd, hps, groupValues_length]

theorem announce_ok {d : NcDef} (hp : Spec.Printable d) {i : SchemaImpl} (hi : SchemaImpl.ofNcDef d = .ok i) : d.announce = .ok () := by
  unfold NcDef.announce
  rw [SchemaImpl.ofNcDef_id hi]
  exact ncDef_show.2 hp

theorem NcCache.update_defs {ds : List NcDef} (h : ∀ d ∈ ds, (∃ i, SchemaImpl.ofNcDef d = .ok i) ∧ Spec.Printable d) (c : NcCache) :
    ∃ c', NcCache.update c ds = .ok c' := by
  induction ds generalizing c with
  | nil => exact ⟨c, rfl⟩
  | cons d ds ih =>
    obtain ⟨⟨i, hi⟩, hp⟩ := h d (by simp)
    obtain ⟨c', hc'⟩ := ih (fun d hd => h d (by simp [hd])) ((i.ncId, i) :: c)
    exact ⟨c', by rw [NcCache.update, announce_ok hp hi, ok_bind, hi, ok_bind, hc']⟩

/-- Visiting a manifest. -/
theorem preorder_manifest {T : TravEnv} {depth : Nat} {nc : NcCache} {scope : List NcDef} {p : Packet} {node : Node}
    {s s1 : TState} {m m' : Manifest} {hv : HashValue} (hh : p.hash T.prims.sha256 = .ok hv) (hc : CacheOf nc scope)
    (ht : p.body.payloadType = some PT_MANIFEST) (hm : Manifest.fromContentObject p.body = .ok m)
    (hd : T.decrypt m { s with count := s.count + 1 } = (.ok m', s1)) (hn : m'.node = .plain node)
    (hw : Spec.Walkable node) {krs : List Spec.Request}
    (ha : List.Forall₂ (Spec.Asks (scope ++ node.defs)) (node.hashGroups.flatMap HashGroup.values) krs) :
    ∃ nc', CacheOf nc' (scope ++ node.defs) ∧
      T.preorder (depth + 1) nc p s = reportError m' (visitRequests T (fun q => T.preorder depth nc' q) krs) s1 := by
  obtain ⟨nc', hu⟩ := NcCache.update_defs hw.2 nc
  rw [← updateNcCache_eq] at hu
  have hc' := hc.update hu
  refine ⟨nc', hc', ?_⟩
  rw [TravEnv.preorder, PyS.liftBind_run hh, PyS.bind_run]
  simp only [PyS.modify_run, ht]
  rw [if_pos trivial, PyS.liftBind_run hm, PyS.bind_of_ok hd]
  simp only [hn]
  rw [PyS.liftBind_run hu, visitLoop_run (C28_iteration node hw.1) rfl _ (by
    rw [groupValues_sum _ hw.1]; exact Nat.le_refl _), visitAll_requests hc' ha]

theorem Spec.Leads.run {T : TravEnv} {op : Packet → Node → Prop} (Inv : DecryptorCache → Prop)
    (hop : ∀ p node s, op p node → Inv s.cache → ∃ m m' c, Manifest.fromContentObject p.body = .ok m ∧
      T.decrypt m s = (.ok m', { s with cache := c }) ∧ m'.node = .plain node ∧ Inv c)
    (hhash : ∀ name h p, T.reader name h = .ok p → ∃ hv, p.hash T.prims.sha256 = .ok hv)
    (hwalk : ∀ p node, op p node → Spec.Walkable node)
    {scope : List NcDef} {rs : List Spec.Request} {v : Spec.Visited} (h : Spec.Leads T op scope rs v) :
    ∀ {nc : NcCache} (_ : CacheOf nc scope) {depth : Nat} (_ : v.depth ≤ depth) {s : TState} (_ : Inv s.cache),
    ∃ c, visitRequests T (fun q => T.preorder depth nc q) rs s =
      (.ok (), { count := s.count + v.count, writes := s.writes ++ v.payloads, cache := c }) ∧ Inv c := by
  induction h with
  | nil =>
    intro nc hc depth hd s hs
    refine ⟨s.cache, ?_, hs⟩
    simp [visitRequests, Spec.Visited.count, Spec.Visited.payloads]
  | data h1 h2 h3 h4 _ ih =>
    intro nc hc depth hd s hs
    simp only [Spec.Visited.depth] at hd
    obtain ⟨hv, hh⟩ := hhash _ _ _ h1
    obtain ⟨depth, rfl⟩ : ∃ d, depth = d + 1 := ⟨depth - 1, by omega⟩
    rename_i p b rest _
    have hp : T.preorder (depth + 1) nc p s = (.ok (), { s with count := s.count + 1, writes := s.writes ++ [b] }) := by
      rw [TravEnv.preorder, PyS.liftBind_run hh, PyS.bind_run]
      simp only [PyS.modify_run, h3]
      rw [if_neg (by decide), if_pos trivial, h4]
      rfl
    obtain ⟨c, hrun, hc'⟩ := ih hc (depth := depth + 1) (by omega)
      (s := { s with count := s.count + 1, writes := s.writes ++ [b] }) hs
    refine ⟨c, ?_, hc'⟩
    unfold visitRequests
    rw [PyS.liftBind_run h1, PyS.liftBind_run h2, PyS.bind_of_ok hp, hrun]
    simp only [Spec.Visited.count, Spec.Visited.payloads, List.append_assoc, List.singleton_append, Nat.add_assoc]
  | manifest h1 h2 h3 h4 h5 _ _ ih1 ih2 =>
    intro nc hc depth hd s hs
    rename_i kids rest _ _
    simp only [Spec.Visited.depth] at hd
    obtain ⟨hv, hh⟩ := hhash _ _ _ h1
    obtain ⟨depth, rfl⟩ : ∃ d, depth = d + 1 := ⟨depth - 1, by omega⟩
    obtain ⟨m, m', c1, hm, hdec, hn, hc1⟩ := hop _ _ { s with count := s.count + 1 } h4 hs
    obtain ⟨nc', hnc', hpre⟩ := preorder_manifest (depth := depth) hh hc h3 hm hdec hn (hwalk _ _ h4) h5
    obtain ⟨c2, hrun, hc2⟩ := ih1 hnc' (depth := depth) (by omega) (s := { s with count := s.count + 1, cache := c1 }) hc1
    obtain ⟨c3, hrun', hc3⟩ := ih2 hc (depth := depth + 1) (by omega)
      (s := ⟨s.count + 1 + kids.count, s.writes ++ kids.payloads, c2⟩) hc2
    refine ⟨c3, ?_, hc3⟩
    unfold visitRequests
    rw [PyS.liftBind_run h1, PyS.liftBind_run h2, PyS.bind_of_ok (hpre.trans (reportError_of_ok hrun)), hrun']
    simp only [Spec.Visited.count, Spec.Visited.payloads, List.append_assoc, Nat.add_assoc]

theorem traverse_eq (T : TravEnv) (depth : Nat) (name : Option Name) (hash : Option HashValue) (s : TState) :
    T.traverse depth name hash s = visitRequests T (fun q => T.preorder depth [] q) [(name, hash)] s := by
  have : ∀ (x : PyS TState Unit), (x >>= fun _ => (pure () : PyS TState Unit)) = x := by
    intro x
    funext s
    rw [PyS.bind_run]
    cases x s with
    | mk r s' => cases r <;> rfl
  show _ = (PyS.lift (T.reader name hash) >>= fun p => PyS.lift (validatePacket T.prims T.keystore p) >>= fun _ =>
    T.preorder depth [] p >>= fun _ => (pure () : PyS TState Unit)) s
  simp only [this]
  rfl

/-- The node of a manifest object that is not encrypted and can be walked. -/
def Spec.Clear (p : Packet) (node : Node) : Prop :=
  (∃ m, Manifest.fromContentObject p.body = .ok m ∧ m.node = .plain node) ∧ Spec.Walkable node

/-- C51 (converse): if the pointers from the root lead through manifests that are not encrypted to data objects, the traversal
returns, given room for the recursion; it writes the payloads in pre-order. -/
theorem C51_walks_what_can_be_walked (T : TravEnv) (name : Option Name) (hash : Option HashValue) (v : Spec.Visited)
    (h : Spec.Leads T Spec.Clear [] [(name, hash)] v)
    (hhash : ∀ n h p, T.reader n h = .ok p → ∃ hv, p.hash T.prims.sha256 = .ok hv) (depth : Nat) (hd : v.depth ≤ depth)
    (s : TState) :
    T.traverse depth name hash s =
      (.ok (), { s with count := s.count + v.count, writes := s.writes ++ v.payloads }) := by
  have := Spec.Leads.run (fun c => c = s.cache) (T := T) (op := Spec.Clear) (by
      rintro p node s1 ⟨⟨m, hm, hn⟩, _⟩ hc
      refine ⟨m, m, s1.cache, hm, ?_, hn, hc⟩
      have he : m.isEncrypted = false := by simp [Manifest.isEncrypted, hn]
      simp [TravEnv.decrypt, DecryptorCache.open, he])
    hhash (fun p node hc => hc.2) h (nc := []) rfl hd (s := s) rfl
  obtain ⟨c, hrun, rfl⟩ := this
  rw [traverse_eq, hrun]

/-- C51 (both directions): where the reader supplies no encrypted manifests, the traversal returns for some depth of the recursion
exactly if the pointers from the root lead to data objects through manifests that can be walked. -/
theorem C51_exactly (T : TravEnv) (name : Option Name) (hash : Option HashValue) (s : TState)
    (hclear : ∀ n h p m, T.reader n h = .ok p → Manifest.fromContentObject p.body = .ok m → m.isEncrypted = false)
    (hhash : ∀ n h p, T.reader n h = .ok p → ∃ hv, p.hash T.prims.sha256 = .ok hv) :
    (∃ depth s', T.traverse depth name hash s = (.ok (), s')) ↔ ∃ v, Spec.Leads T Spec.Clear [] [(name, hash)] v := by
  constructor
  · rintro ⟨depth, s', h⟩
    obtain ⟨v, hv⟩ : ∃ v, Spec.Leads T (Spec.Read T.prims) [] [(name, hash)] v := (C51_traversal _ _ _ _ _ _ h).imp fun _ h => h.1
    refine ⟨v, ?_⟩
    clear h
    generalize ([] : List NcDef) = scope at hv
    generalize [(name, hash)] = rs at hv
    induction hv with
    | nil => exact .nil
    | data h1 h2 h3 h4 _ ih => exact .data h1 h2 h3 h4 ih
    | manifest h1 h2 h3 h4 h5 _ _ ih1 ih2 =>
      obtain ⟨⟨m, hm, hn⟩, hw⟩ := h4
      refine .manifest h1 h2 h3 ⟨⟨m, hm, ?_⟩, hw⟩ h5 ih1 ih2
      rcases hn with hn | ⟨ctx, c, t, q, rfl, _⟩
      · exact hn
      · cases hclear _ _ _ _ h1 hm
  · rintro ⟨v, hv⟩
    exact ⟨v.depth, _, C51_walks_what_can_be_walked T name hash v hv hhash v.depth (Nat.le_refl _) s⟩

/-! ## C52 -/

/-- The top level objects. -/
def Spec.Visited.tops : Spec.Visited → List Packet
  | .nil => []
  | .data p _ rest => p :: rest.tops
  | .manifest p _ _ rest => p :: rest.tops

/-- `Spec.Fetched v path pointer p`: among the objects `v`, the manifests `path` (outermost first) lead to one another, and `p`
was obtained for that pointer of the innermost. -/
inductive Spec.Fetched : Spec.Visited → List Node → HashIteratorValue → Packet → Prop
  | here {p q : Packet} {node : Node} {kids rest : Spec.Visited} {v : HashIteratorValue}
      (h : (v, q) ∈ (node.hashGroups.flatMap HashGroup.values).zip kids.tops) :
      Spec.Fetched (.manifest p node kids rest) [node] v q
  | inside {p q : Packet} {node : Node} {kids rest : Spec.Visited} {v : HashIteratorValue} {path : List Node}
      (h : Spec.Fetched kids path v q) : Spec.Fetched (.manifest p node kids rest) (node :: path) v q
  | afterManifest {p q : Packet} {node : Node} {kids rest : Spec.Visited} {v : HashIteratorValue} {path : List Node}
      (h : Spec.Fetched rest path v q) : Spec.Fetched (.manifest p node kids rest) path v q
  | afterData {p q : Packet} {b : Bytes} {rest : Spec.Visited} {v : HashIteratorValue} {path : List Node}
      (h : Spec.Fetched rest path v q) : Spec.Fetched (.data p b rest) path v q

theorem Spec.Leads.tops {T : TravEnv} {op : Packet → Node → Prop} {scope : List NcDef} {rs : List Spec.Request}
    {v : Spec.Visited} (h : Spec.Leads T op scope rs v) :
    List.Forall₂ (fun (r : Spec.Request) p => T.reader r.1 r.2 = .ok p) rs v.tops := by
  induction h with
  | nil => exact .nil
  | data h1 _ _ _ _ ih => exact .cons h1 ih
  | manifest h1 _ _ _ _ _ _ _ ih => exact .cons h1 ih

theorem forall₂_zip {α β γ : Type} {R : α → β → Prop} {S : β → γ → Prop} {as : List α} {bs : List β} {cs : List γ}
    (h : List.Forall₂ R as bs) (h' : List.Forall₂ S bs cs) {a : α} {c : γ} (hm : (a, c) ∈ as.zip cs) :
    ∃ b, R a b ∧ S b c := by
  induction h generalizing cs with
  | nil => simp at hm
  | cons hr _ ih =>
    cases h' with
    | cons hs h' =>
      rw [List.zip_cons_cons, List.mem_cons] at hm
      rcases hm with hm | hm
      · cases hm; exact ⟨_, hr, hs⟩
      · exact ih h' hm

theorem Spec.Leads.fetched {T : TravEnv} {op : Packet → Node → Prop} {scope : List NcDef} {rs : List Spec.Request}
    {w : Spec.Visited} (h : Spec.Leads T op scope rs w) {path : List Node} {v : HashIteratorValue} {q : Packet}
    (hf : Spec.Fetched w path v q) :
    ∃ d i name, Spec.lookup (scope ++ path.flatMap Node.defs) v.ncId = some d ∧ SchemaImpl.ofNcDef d = .ok i ∧
      i.getName (v.segmentId.map Int.ofNat) = .ok name ∧ T.reader name (some v.hashValue) = .ok q := by
  induction h generalizing path with
  | nil => cases hf
  | data _ _ _ _ _ ih => cases hf with | afterData hf => exact ih hf
  | manifest _ _ _ _ h5 h6 _ ih1 ih2 =>
    cases hf with
    | here hm =>
      obtain ⟨r, ⟨hr2, d, i, hl, hi, hn⟩, hr⟩ := forall₂_zip h5 h6.tops hm
      rw [hr2] at hr
      exact ⟨d, i, r.1, by simpa using hl, hi, hn, hr⟩
    | inside hf =>
      obtain ⟨d, i, name, h1, h2⟩ := ih1 hf
      exact ⟨d, i, name, by rw [List.flatMap_cons, ← List.append_assoc]; exact h1, h2⟩
    | afterManifest hf => exact ih2 hf

/-- C52: every pointer followed by a traversal was resolved with the latest definition of its id among the manifests on the path
from the root to the manifest holding the pointer; definitions elsewhere (in manifests visited before, in siblings, further
down) play no part. -/
theorem C52_resolution (T : TravEnv) (depth : Nat) (name : Option Name) (hash : Option HashValue) (s s' : TState)
    (h : T.traverse depth name hash s = (.ok (), s')) :
    ∃ w, Spec.Leads T (Spec.Read T.prims) [] [(name, hash)] w ∧ s'.count = s.count + w.count ∧
      s'.writes = s.writes ++ w.payloads ∧
      ∀ path v q, Spec.Fetched w path v q →
        ∃ d i n, Spec.lookup (path.flatMap Node.defs) v.ncId = some d ∧ SchemaImpl.ofNcDef d = .ok i ∧
          i.getName (v.segmentId.map Int.ofNat) = .ok n ∧ T.reader n (some v.hashValue) = .ok q := by
  obtain ⟨w, h1, h2, x, h3, rfl, _⟩ := C51_traversal _ _ _ _ _ _ h
  exact ⟨w, h1, h2, h3, fun path v q hf => by simpa using h1.fetched hf⟩

/-- C52: the definitions of a manifest hide those above it with the same id and leave the others in place. -/
theorem C52_hiding (above own : List NcDef) (id : Nat) :
    Spec.lookup (above ++ own) id = (Spec.lookup own id).or (Spec.lookup above id) := by
  simp only [Spec.lookup, List.filter_append, List.getLast?_append]

/-- C52: an id without definition on the path raises KeyError. -/
theorem C52_undefined (T : TravEnv) (nc : NcCache) (scope : List NcDef) (hc : NcCache.update [] scope = .ok nc)
    (v : HashIteratorValue) (h : Spec.lookup scope v.ncId = none) : T.fetch nc v = .error .keyError := by
  have := CacheOf.find (nc := nc) hc v.ncId
  rw [h] at this
  simp only [TravEnv.fetch, this, error_bind]

/-! ## Examples -/

/-- The node of a manifest with definitions and one group of pointers. -/
def Toy.node (defs : List NcDef) (ncId : Nat) (kids : List Packet) : Node :=
  let pointers := kids.map fun p => HashValue.sha256 (Toy.sha (p.hashInput.toOption.getD []))
  { nodeData := some { ncDefs := defs }
    hashGroups := [{ groupData := some { ncId := some ncId }, pointers := some pointers }] }

/-- A manifest packet without a name. -/
def Toy.manifest (defs : List NcDef) (ncId : Nat) (kids : List Packet) : Packet :=
  (Manifest.packet { node := .plain (Toy.node defs ncId kids) } none none).toOption.getD (Toy.packet [])

/-- A definition of an id as a prefix schema. -/
def Toy.define (id : Nat) (seg : Bytes) : NcDef := ⟨some id, some (.prefixed (some ⟨[.nameSegment seg]⟩) none none)⟩

def Toy.left : Packet := Toy.manifest [Toy.define 1 [97]] 1 [Toy.named [97] [5, 6]]
def Toy.right : Packet := Toy.manifest [] 1 [Toy.named [114] [7]]
def Toy.root : Packet := Toy.manifest [Toy.define 1 [114]] 1 [Toy.left, Toy.right]
def Toy.wrongRight : Packet := Toy.manifest [] 1 [Toy.named [97] [7]]
def Toy.wrongRoot : Packet := Toy.manifest [Toy.define 1 [114]] 1 [Toy.left, Toy.wrongRight]

def Toy.travEnv (ps : List Packet) : TravEnv :=
  ⟨Toy.prims, ((MemoryStore.putAll Toy.prims {} ps).toOption.getD {}).reader Toy.prims, none⟩

/-- Traverse from the first packet: the result, the counter and the writes. -/
def Toy.walk (root : Packet) (ps : List Packet) : Py Unit × Nat × List Bytes :=
  match (Toy.travEnv (root :: ps)).traverse 5 none (root.hash Toy.sha).toOption (TState.new none) with
  | (r, s) => (r, s.count, s.writes)

/-- The left manifest redefines id 1; below it the name `a` is used, in the right manifest still the name `r` of the root. -/
example : Toy.walk Toy.root [Toy.left, Toy.right, Toy.named [97] [5, 6], Toy.named [114] [7]] =
    (.ok (), 5, [[5, 6], [7]]) := by decide +kernel

/-- With the definition of the left manifest leaking to the right this would succeed. -/
example : Toy.walk Toy.wrongRoot [Toy.left, Toy.wrongRight, Toy.named [97] [5, 6], Toy.named [97] [7]] =
    (.error .valueError, 4, [[5, 6]]) := by decide +kernel

/-- The hypotheses of `C51_walks_what_can_be_walked`. -/
example : Spec.Leads (Toy.travEnv [Toy.left, Toy.named [97] [5, 6]]) Spec.Clear [] [(none, (Toy.left.hash Toy.sha).toOption)]
    (.manifest Toy.left (Toy.node [Toy.define 1 [97]] 1 [Toy.named [97] [5, 6]]) (.data (Toy.named [97] [5, 6]) [5, 6] .nil)
      .nil) := by
  refine .manifest (krs := [(some ⟨[.nameSegment [97]]⟩, ((Toy.named [97] [5, 6]).hash Toy.sha).toOption)])
    (by decide +kernel) (by decide +kernel) (by decide +kernel)
    ⟨⟨{ node := .plain (Toy.node [Toy.define 1 [97]] 1 [Toy.named [97] [5, 6]]) }, by decide +kernel, rfl⟩, ?_, ?_⟩
    (.cons ⟨by decide +kernel, Toy.define 1 [97], ⟨1, .prefixed (some ⟨[.nameSegment [97]]⟩) none none⟩, by decide +kernel,
      by decide +kernel, by decide +kernel⟩ .nil)
    (.data (by decide +kernel) (by decide +kernel) (by decide +kernel) (by decide +kernel) .nil) .nil
  · intro g hg
    simp only [Toy.node, List.mem_singleton] at hg
    subst hg
    exact ⟨_, rfl, fun _ => ⟨_, _, rfl, rfl⟩⟩
  · intro d hd
    simp only [Node.defs, Toy.node, List.mem_singleton] at hd
    subst hd
    refine ⟨⟨_, rfl⟩, fun n hn => short_of_lt ?_, ?_⟩
    · revert n
      decide +kernel
    rintro s ⟨⟩ n hn
    simp [Spec.schemaLocators, Spec.linkNames] at hn

end Ccnpy
