import Verif.Props.IntegrityProps
import Verif.Lemmas.Graph

/-!
# C98: many files in one store or one directory
-/

namespace Ccnpy

/-! ## Specification -/

/-- The second reader returns whatever the first returns. -/
def Spec.Extends (A B : Reader) : Prop := ∀ name h p, A name h = .ok p → B name h = .ok p

/-- One directory after another, made by writers (each with its options: nested or not, with links or without) that were given the
packets `qs`, part by part; a writer may have failed on the way. -/
inductive Spec.Sessions (P : Prims) : List Packet → Directory → Directory → Prop
  | nil (d : Directory) : Spec.Sessions P [] d d
  | cons {R : NameComponent → Text} {w : DirWriter} {ps qs : List Packet} {d d' : Directory} {r : Py Unit} {s : DirState} :
      w.putAll P R ps { dir := d } = (r, s) → Spec.Sessions P qs s.dir d' → Spec.Sessions P (ps ++ qs) d d'

/-- No other packet of `all` has the hash of one of `ps`. -/
def Spec.Apart (P : Prims) (ps all : List Packet) : Prop :=
  ∀ p ∈ ps, ∀ q ∈ all, ∀ h, p.hash P.sha256 = .ok h → q.hash P.sha256 = .ok h → q = p

/-- The directory has the packets of `ps` in the files named by their hashes.  Nothing is said of other files. -/
def Spec.Contains (P : Prims) (d : Directory) (ps : List Packet) : Prop :=
  ∀ p ∈ ps, ∃ hv w, p.hash P.sha256 = .ok hv ∧ p.serialize = .ok w ∧ d.read [hexText hv.value] = some w

/-! ## Helpers -/

theorem visitLoop_extends {P : Prims} {A B : Reader} {ks : Option Keystore} (hAB : Spec.Extends A B) {f g : Packet → PyS TState Unit}
    (hfg : ∀ p s s1, f p s = (.ok (), s1) → g p s = (.ok (), s1)) (nc : NcCache) (fuel : Nat) (it : NodeIterator)
    (s s1 : TState) (h : TravEnv.visitLoop ⟨P, A, ks⟩ f nc fuel it s = (.ok (), s1)) :
    TravEnv.visitLoop ⟨P, B, ks⟩ g nc fuel it s = (.ok (), s1) := by
  induction fuel generalizing it s with
  | zero =>
    unfold TravEnv.visitLoop at h ⊢
    obtain ⟨r, hr, h⟩ := PyS.liftBind_ok h
    rw [PyS.liftBind_run hr]
    cases r with
    | none => exact h
    | some v => cases h
  | succ fuel ih =>
    unfold TravEnv.visitLoop at h ⊢
    obtain ⟨r, hr, h⟩ := PyS.liftBind_ok h
    rw [PyS.liftBind_run hr]
    cases r with
    | none => exact h
    | some v =>
      obtain ⟨v, it⟩ := v
      obtain ⟨p, hp, h⟩ := PyS.liftBind_ok h
      obtain ⟨_, hv, h⟩ := PyS.liftBind_ok h
      obtain ⟨_, s2, hf, h⟩ := PyS.bind_ok h
      have hp' : TravEnv.fetch ⟨P, B, ks⟩ nc v = .ok p := by
        obtain ⟨i, hi, hp⟩ := bind_eq_ok.mp hp
        obtain ⟨n, hn, hp⟩ := bind_eq_ok.mp hp
        unfold TravEnv.fetch
        rw [hi, ok_bind, hn, ok_bind]
        exact hAB _ _ _ hp
      dsimp only
      rw [PyS.liftBind_run hp', PyS.liftBind_run hv, PyS.bind_of_ok (hfg _ _ _ hf)]
      exact ih it s2 h

theorem preorder_extends {P : Prims} {A B : Reader} {ks : Option Keystore} (hAB : Spec.Extends A B) (d d' : Nat) (hd : d ≤ d')
    (nc : NcCache) (p : Packet) (s s1 : TState) (h : TravEnv.preorder ⟨P, A, ks⟩ d nc p s = (.ok (), s1)) :
    TravEnv.preorder ⟨P, B, ks⟩ d' nc p s = (.ok (), s1) := by
  induction d generalizing d' nc p s s1 with
  | zero => cases h
  | succ d ih =>
    obtain ⟨d', rfl⟩ : ∃ k, d' = k + 1 := ⟨d' - 1, by omega⟩
    rw [TravEnv.preorder] at h ⊢
    obtain ⟨hv, hh, h⟩ := PyS.liftBind_ok h
    obtain ⟨_, s0, hs0, h⟩ := PyS.bind_ok h
    cases hs0
    rw [PyS.liftBind_run hh, PyS.bind_of_ok (PyS.modify_run _ _)]
    cases hty : p.body.payloadType with
    | none => rw [hty] at h; cases h
    | some ty =>
      rw [hty] at h
      dsimp only at h ⊢
      by_cases hm : ty = PT_MANIFEST
      · rw [if_pos hm] at h ⊢
        obtain ⟨m, hm, h⟩ := PyS.liftBind_ok h
        rw [PyS.liftBind_run hm]
        obtain ⟨m', s2, hd, h⟩ := PyS.bind_ok h
        rw [PyS.bind_of_ok (show TravEnv.decrypt ⟨P, B, ks⟩ m _ = (.ok m', s2) from hd)]
        cases hn : m'.node with
        | encrypted e => rw [hn] at h; cases h
        | plain node =>
          rw [hn] at h
          dsimp only at h ⊢
          obtain ⟨nc', hnc, h⟩ := PyS.liftBind_ok h
          rw [PyS.liftBind_run hnc]
          have := visitLoop_extends (P := P) (ks := ks) hAB (fun p s s1 h => ih d' (by omega) nc' p s s1 h) nc' _ _ s2 s1 (reportError_ok h)
          unfold reportError
          rw [this]
      · rw [if_neg hm] at h ⊢
        exact h

theorem Spec.Sessions.one (P : Prims) (R : NameComponent → Text) (w : DirWriter) (ps : List Packet) (d : Directory) :
    Spec.Sessions P ps d (w.putAll P R ps { dir := d }).2.dir := by
  rcases h : w.putAll P R ps { dir := d } with ⟨r, s⟩
  have := Spec.Sessions.cons h (.nil _)
  rwa [List.append_nil] at this

/-! ## C98 -/

/-- C98 (more packets): a traversal that returns with one reader does exactly the same with every reader that returns the same packets
where the first returned one, whatever else this reader has, and with every larger recursion limit. -/
theorem C98_more_packets (P : Prims) (A B : Reader) (ks : Option Keystore) (hAB : Spec.Extends A B) (d d' : Nat) (hd : d ≤ d')
    (name : Option Name) (hash : Option HashValue) (s s1 : TState)
    (h : TravEnv.traverse ⟨P, A, ks⟩ d name hash s = (.ok (), s1)) :
    TravEnv.traverse ⟨P, B, ks⟩ d' name hash s = (.ok (), s1) := by
  unfold TravEnv.traverse at h ⊢
  obtain ⟨p, hp, h⟩ := PyS.liftBind_ok h
  obtain ⟨_, hv, h⟩ := PyS.liftBind_ok h
  rw [PyS.liftBind_run (hAB _ _ _ hp), PyS.liftBind_run hv]
  exact preorder_extends hAB d d' hd _ _ _ _ h

theorem HashValue.dictEq_left {P : Prims} {a b : HashValue} (h : a.dictEq P b = true) (c : HashValue) :
    a.dictEq P c = b.dictEq P c := by
  rw [Bool.eq_iff_iff]
  exact ⟨fun h' => HashValue.dictEq_trans (HashValue.dictEq_symm h) h', fun h' => HashValue.dictEq_trans h h'⟩

theorem Spec.Holds.extends {P : Prims} {ps all : List Packet} {store store' : MemoryStore} (h : Spec.Holds P ps store)
    (h' : Spec.Holds P all store') (hsub : ps ⊆ all) (hc : Spec.NoCollision P all) :
    Spec.Extends (store.reader P) (store'.reader P) := by
  intro name hash p hr
  have hm := h.has ⟨name, hash, hr⟩
  cases hash with
  | none => cases hr
  | some x =>
    have hr : store.get P name x = .ok p := hr
    show store'.get P name x = .ok p
    obtain ⟨e, he, hp⟩ : ∃ e, store.byHash.find? (fun e => x.dictEq P e.1) = some e ∧ e.2 = p := by
      unfold MemoryStore.get MemoryStore.find at hr
      cases hf : store.byHash.find? (fun e => x.dictEq P e.1) with
      | none => rw [hf] at hr; cases hr
      | some e =>
        rw [hf] at hr
        refine ⟨e, rfl, ?_⟩
        simp only [Option.map_some] at hr
        split at hr
        · exact Except.ok.inj hr
        · split at hr
          · cases hr
          · split at hr
            · exact Except.ok.inj hr
            · cases hr
    have hx : x.dictEq P e.1 = true := by simpa using List.find?_some he
    have hh := h.filed e (List.mem_of_find?_eq_some he)
    rw [hp] at hh
    have f1 : store.find P x = some p := by unfold MemoryStore.find; rw [he]; simp [hp]
    obtain ⟨hv, hh', hf'⟩ := h'.find hc (hsub hm)
    cases Except.ok.inj (hh.symm.trans hh')
    have f2 : store'.find P x = some p := by
      rw [← hf']
      unfold MemoryStore.find
      simp only [HashValue.dictEq_left hx]
    unfold MemoryStore.get at hr ⊢
    rw [f1] at hr
    rw [f2]
    exact hr

variable {E : Env} {L : FloatLog} {o : TreeOptions} {nc : Nat} {input : Stream} {root : Packet} {out : List Packet}
  {ks : Option Keystore}

theorem writeLink_keeps {P : Prims} {F : NameComponent → Text} {w : DirWriter} {q : Packet} {h : HashValue} {b x : Bytes} {s : DirState}
    (hs : s.dir.read [hexText x] = some b) : (w.writeLink P F q h s).2.dir.read [hexText x] = some b := by
  unfold DirWriter.writeLink
  split
  · cases hn : q.body.name with
    | none => exact hs
    | some n =>
      dsimp only
      cases hl : w.createLink P n h with
      | error e => exact hs
      | ok l =>
        rw [PyS.liftBind_run rfl]
        cases hf : linkName F n with
        | error e => exact hs
        | ok f =>
          rw [PyS.liftBind_run rfl]
          cases hb : l.serialize with
          | error e => exact hs
          | ok c =>
            rw [PyS.liftBind_run rfl]
            show Directory.read (s.dir.write (toPath f false) c) _ = _
            rw [Directory.read_write, if_neg, hs]
            intro he
            have hd := linkName_dot hf
            simp only [toPath, Bool.false_eq_true, if_false, List.cons.injEq, and_true] at he
            exact hexText_no_dot x (he ▸ hd)
  · exact hs

theorem put_keeps {P : Prims} {F : NameComponent → Text} {w : DirWriter} {p q : Packet} {hv : HashValue} {b : Bytes} {s : DirState}
    (hh : p.hash P.sha256 = .ok hv) (hb : p.serialize = .ok b) (hq : q.hash P.sha256 = .ok hv → q = p)
    (hs : s.dir.read [hexText hv.value] = some b) : (w.put P F q s).2.dir.read [hexText hv.value] = some b := by
  unfold DirWriter.put
  cases hl : q.len with
  | error e => exact hs
  | ok n =>
    rw [PyS.liftBind_run rfl, PyS.bind_of_ok (PyS.modify_run _ _)]
    cases hg : q.hash P.sha256 with
    | error e => exact hs
    | ok g =>
      rw [PyS.liftBind_run rfl]
      cases hc : q.serialize with
      | error e => exact hs
      | ok c =>
        rw [PyS.liftBind_run rfl, PyS.bind_of_ok (PyS.modify_run _ _)]
        have h1 : (s.dir.write (toPath (hashFileName g) w.nested) c).read [hexText hv.value] = some b := by
          rw [Directory.read_write]
          split
          · next he =>
            unfold toPath hashFileName at he
            split at he
            · exact absurd (congrArg List.length he) (by simp)
            · have he : g.value = hv.value := hexText_inj (List.cons.inj he).1
              have : g = hv := by
                have h1 := Packet.hash_alg hg
                have h2 := Packet.hash_alg hh
                cases g
                cases hv
                simp only at h1 h2 he
                rw [h1, h2, he]
              rw [hq (this ▸ hg), hb] at hc
              cases hc
              rfl
          · exact hs
        generalize hs2 : ({ { s with totalBytesByPacket := s.totalBytesByPacket + n } with
          dir := s.dir.write (toPath (hashFileName g) w.nested) c } : DirState) = s2
        have h2 : s2.dir.read [hexText hv.value] = some b := by rw [← hs2]; exact h1
        have h3 := writeLink_keeps (P := P) (F := F) (w := w) (q := q) (h := g) h2
        rcases hw : w.writeLink P F q g s2 with ⟨r, s3⟩
        rw [hw] at h3
        cases r with
        | error e => erw [PyS.bind_of_error hw]; exact h3
        | ok u =>
          erw [PyS.bind_of_ok hw]
          show (PyS.modify _ s3).2.dir.read _ = _
          rw [PyS.modify_run]
          dsimp only
          split
          · exact h3
          · split <;> exact h3

theorem putAll_keeps {P : Prims} {F : NameComponent → Text} {w : DirWriter} {p : Packet} {qs : List Packet} {hv : HashValue} {b : Bytes}
    (hh : p.hash P.sha256 = .ok hv) (hb : p.serialize = .ok b) (hq : ∀ q ∈ qs, q.hash P.sha256 = .ok hv → q = p) {s : DirState}
    (hs : s.dir.read [hexText hv.value] = some b) : (w.putAll P F qs s).2.dir.read [hexText hv.value] = some b := by
  induction qs generalizing s with
  | nil => exact hs
  | cons q qs ih =>
    have h1 := put_keeps (w := w) (F := F) hh hb (hq q (by simp)) hs
    unfold DirWriter.putAll
    rcases hw : w.put P F q s with ⟨r, s'⟩
    rw [hw] at h1
    cases r with
    | error e => rw [PyS.bind_of_error hw]; exact h1
    | ok u => rw [PyS.bind_of_ok hw]; exact ih (fun q hm => hq q (by simp [hm])) h1

theorem sessions_keep {P : Prims} {p : Packet} {qs : List Packet} {hv : HashValue} {b : Bytes} {d d' : Directory}
    (h : Spec.Sessions P qs d d')
    (hh : p.hash P.sha256 = .ok hv) (hb : p.serialize = .ok b) (hq : ∀ q ∈ qs, q.hash P.sha256 = .ok hv → q = p)
    (hs : d.read [hexText hv.value] = some b) : d'.read [hexText hv.value] = some b := by
  induction h with
  | nil d => exact hs
  | @cons R w ps qs d d' r s hp _ ih =>
    refine ih (fun q hm => hq q (by simp [hm])) ?_
    have := putAll_keeps (F := R) (w := w) (qs := ps) hh hb (fun q hm => hq q (by simp [hm])) (s := { dir := d }) hs
    rw [hp] at this
    exact this

/-- C98 (nothing is lost): a packet that a writer which is not nested has put stays in the directory, under its hash and with its
bytes, through whatever that writer put before and after and whatever other writers put later, unless another packet has its hash. -/
theorem C98_kept {P : Prims} {F : NameComponent → Text} {w : DirWriter} (hn : w.nested = false) {ps qs : List Packet}
    {d0 d : Directory} {s : DirState} (hs : w.putAll P F ps { dir := d0 } = (.ok (), s)) (hl : Spec.Sessions P qs s.dir d)
    {out : List Packet} (hout : out ⊆ ps) (ha : Spec.Apart P out (ps ++ qs)) : Spec.Contains P d out := by
  intro p hp
  obtain ⟨as, bs, rfl⟩ := List.append_of_mem (hout hp)
  obtain ⟨m, _, h2⟩ := DirWriter.putAll_append hs
  obtain ⟨_, m', h3, h4⟩ := PyS.bind_ok h2
  obtain ⟨b, hv, ls, hb, hh, hls, rfl⟩ := DirWriter.put_ok h3
  refine ⟨hv, b, hh, hb, ?_⟩
  have hq : ∀ q ∈ (as ++ p :: bs) ++ qs, q.hash P.sha256 = .ok hv → q = p := fun q hq h => ha p hp q hq hv hh h
  refine sessions_keep hl hh hb (fun q h => hq q (by simp [h])) ?_
  have := putAll_keeps (F := F) (w := w) (qs := bs) hh hb (fun q h => hq q (by simp [h]))
    (s := m.counted P p hv b.length ⟨ls ++ (toPath (hashFileName hv) w.nested, b) :: m.dir.files⟩) (by
      rw [DirState.counted_dir]
      rw [hls.read hv.value ⟨(toPath (hashFileName hv) w.nested, b) :: m.dir.files⟩]
      show (m.dir.write (toPath (hashFileName hv) w.nested) b).read _ = _
      rw [Directory.read_write, if_pos]
      simp [toPath, hn, hashFileName])
  rw [h4] at this
  exact this

/-- C98 (memory): a file that a traversal of its own packets returns is returned just so from every store that holds these packets among
others, whatever the others, in whatever order they were put, unless two different packets have one hash. -/
theorem C98_memory {store store' : MemoryStore} {all : List Packet} (hs : Spec.Holds E.prims out store)
    (hall : Spec.Holds E.prims all store') (hsub : out ⊆ all) (hc : Spec.NoCollision E.prims all) {depth depth' : Nat}
    (hd : depth ≤ depth') {hv : HashValue} {file : Bytes} (h : Spec.Returned E o out store ks depth hv file) :
    Spec.Returned E o out store' ks depth' hv file := by
  obtain ⟨s, h1, h2, h3, h4⟩ := h
  exact ⟨s, C98_more_packets _ _ _ _ (hs.extends hall hsub hc) _ _ hd _ _ _ _ h1, h2, h3, h4⟩

/-- C98 (directory): with hashed or prefix names, a file is read back from every directory that has its packets in the files named by
their hashes, whatever else the directory has. -/
theorem C98_contained (now : F64) (F : NameComponent → Text) (hty : o.schemaType ≠ .segmented)
    (h : manifestTree E L o nc input = (.ok root, out)) (hr : Spec.Equipped E o nc ks) (hw : Spec.WholeOptions o)
    {d : Directory} (hd : Spec.Contains E.prims d out) :
    ∃ hv, root.hash E.prims.sha256 = .ok hv ∧ ∀ depth, out.length ≤ depth →
      Spec.ReturnedBy E o out (d.reader now F) ks depth hv input.rest := by
  obtain ⟨R⟩ := manifestTree_ok h
  obtain ⟨ids, level, i, kids, h1, h2, h3, h4, h5, h6, h7, h8⟩ := R.forest
  have hu : R.ctx.manifest.usesNameId ≠ true := fun hu => hty ((nameCtx_inv R.ctx_ok).2.2.mp hu)
  have hall := all_readBack R hr.names hw
  have hserves : Serves E.prims out (d.reader now F) := by
    refine ⟨?_, fun name h p hp => reader_hashes hp⟩
    intro p hp hv hh
    obtain ⟨hv', w, hh', hb, hrd⟩ := hd p hp
    cases Except.ok.inj (hh.symm.trans hh')
    rw [reader_found (hall p hp).1 hb hrd, returned_own hh ((hall p hp).2 hty)]
  obtain ⟨hv, a, b⟩ := R.returnedBy hr hserves h2 h3 h6 h7 h8 (fun h => absurd h hu) (fun h => absurd h hu)
  exact ⟨hv, a, fun depth hd => b depth (.inl hd)⟩

/-- C98 (one directory for all): a file published to a directory, into which other things were published before, with it and after it,
by writers with links or without, that succeeded or failed later, is read back from it, unless a packet put with it or later has the
hash of one of its packets. -/
theorem C98_directory (now : F64) (F F' : NameComponent → Text) (hty : o.schemaType ≠ .segmented)
    (h : manifestTree E L o nc input = (.ok root, out)) (hr : Spec.Equipped E o nc ks) (hw : Spec.WholeOptions o)
    {w : DirWriter} (hn : w.nested = false) {ps qs : List Packet} {d0 d : Directory} {s : DirState}
    (hs : w.putAll E.prims F ps { dir := d0 } = (.ok (), s)) (hout : out ⊆ ps) (hl : Spec.Sessions E.prims qs s.dir d)
    (ha : Spec.Apart E.prims out (ps ++ qs)) :
    ∃ hv, root.hash E.prims.sha256 = .ok hv ∧ ∀ depth, out.length ≤ depth →
      Spec.ReturnedBy E o out (d.reader now F') ks depth hv input.rest :=
  C98_contained now F' hty h hr hw (C98_kept hn hs hl hout ha)

/-! ## Cases -/

namespace Toy

/-- Eight data objects, prefix names, encrypted. -/
def fileA : Py Packet × List Packet := manifestTree env Spec.exactLog (options .prefixed true) 1 (shortReads 32)

/-- Five data objects, hashed names, not encrypted. -/
def fileB : Py Packet × List Packet := manifestTree env Spec.exactLog (options .hashed false) 1 (shortReads 20)

set_option maxRecDepth 100000 in
theorem filesDistinct : ((fileB.2 ++ fileA.2).map (fun p => (p.hash prims.sha256).toOption)).Nodup := by decide +kernel

theorem filesApart : Spec.NoCollision prims (fileB.2 ++ fileA.2) := fun _ hp _ hq _ h1 h2 =>
  List.inj_on_of_nodup_map filesDistinct hp hq (congrArg Except.toOption (h1.trans h2.symm))

set_option maxRecDepth 100000 in
/-- C98 (memory): both files put into one store, and each in its own. -/
example : ∃ rootA outA storeA store, fileA = (.ok rootA, outA) ∧ outA.length = 13 ∧
    Spec.CanRead env (options .prefixed true) 1 outA storeA (some aesKeys) ∧ Spec.Holds prims (fileB.2 ++ outA) store ∧
    Spec.NoCollision prims (fileB.2 ++ outA) ∧ fileB.2.length = 7 := by
  obtain ⟨root, out, st, h, hn, hr⟩ := canRead (o := options .prefixed true) (input := shortReads 32) (n := 8)
    trivial canDecrypt (plain ⟨rfl, rfl, rfl⟩) (text rfl rfl rfl) (by decide +kernel)
  have h : fileA = (.ok root, out) := h
  obtain ⟨store, hs⟩ := ok_of_isOk (x := MemoryStore.putAll prims {} (fileB.2 ++ fileA.2)) (by decide +kernel)
  have hc := filesApart
  have hl : fileA.2.length = 13 := by decide +kernel
  rw [h] at hs hc hl
  exact ⟨root, out, st, store, h, hl, hr, .inl hs, hc, by decide +kernel⟩

set_option maxRecDepth 100000 in
/-- C98 (directory): the first file is put into a directory that has a file already; then a writer with links puts the second. -/
example : ∃ rootA outA s d, fileA = (.ok rootA, outA) ∧ Spec.Equipped env (options .prefixed true) 1 (some aesKeys) ∧
    Spec.WholeOptions (options .prefixed true) ∧
    DirWriter.putAll prims (fun _ => []) {} outA { dir := ⟨[(["x".toList], [1])]⟩ } = (.ok (), s) ∧
    Spec.Sessions prims fileB.2 s.dir d ∧ Spec.Apart prims outA (outA ++ fileB.2) := by
  obtain ⟨root, out, h, hn, he, hc⟩ := equipped (o := options .prefixed true) (input := shortReads 32) (n := 8)
    trivial canDecrypt (plain ⟨rfl, rfl, rfl⟩) (text rfl rfl rfl) (by decide +kernel)
  have h : fileA = (.ok root, out) := h
  obtain ⟨_, s, hs, _⟩ := ok_of_eval (f := fun s : DirState => s.dir.files.length) (n := 14)
    (x := DirWriter.putAll prims (fun _ => []) {} fileA.2 { dir := ⟨[(["x".toList], [1])]⟩ }) (by decide +kernel)
  have hap := filesApart
  rw [h] at hs hap
  have hses := Spec.Sessions.one prims (fun _ => []) { linkNamedObjects := true } fileB.2 s.dir
  refine ⟨root, out, s, _, h, he, whole _ _, hs, hses, ?_⟩
  · intro p hp q hq hv h1 h2
    exact hap q (by simp only [List.mem_append] at hq ⊢; exact hq.symm) p (by simp [hp]) hv h2 h1

end Toy

end Ccnpy
