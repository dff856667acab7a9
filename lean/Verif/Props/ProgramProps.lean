import Verif.Props.SharedProps
import Verif.Props.CliProps
import Verif.Props.NetworkProps
import Verif.Model.Programs

/-!
# C100: the writer program, from its arguments to the directory or the socket
-/

namespace Ccnpy

/-! ## Specification -/

/-- The file holds a link to a packet with that name and hash: a packet made by `ContentObject.create_link`, signed by the given signer or
with a checksum. -/
def Spec.IsLink (P : Prims) (signer : Option Signer) (n : Name) (h : HashValue) (c : Bytes) : Prop :=
  ∃ l, DirWriter.createLink P { signer := signer } n h = .ok l ∧ l.serialize = .ok c

/-- What a run has left in a directory that was `d` before: the packets `ps` and, if asked for, links for those with a name. -/
structure Spec.Left (W : WriterWorld) (links : Bool) (d d' : Directory) (ps : List Packet) : Prop where
  /-- Every packet is in the file named by its hash (or another with the same hash is). -/
  stored : ∀ p ∈ ps, ∃ hv b, p.hash W.tree.prims.sha256 = .ok hv ∧ d'.read [hexText hv.value] = some b ∧
    ∃ q ∈ ps, q.hash W.tree.prims.sha256 = .ok hv ∧ q.serialize = .ok b
  /-- Manifests point only to packets that are there. -/
  complete : ∀ p ∈ ps, p.body.payloadType = some PT_DATA ∨
    ∃ o node name expiry signer full s s', buildFromNode W.tree o node name expiry signer full s = (.ok p, s') ∧
      ∀ h ∈ Spec.pointers node, ∃ b, d'.read [hexText h.value] = some b
  /-- No other file is changed. -/
  only : ∀ path, d'.read path = d.read path ∨ (∃ p ∈ ps, ∃ hv, p.hash W.tree.prims.sha256 = .ok hv ∧ path = [hexText hv.value]) ∨
    links = true ∧ ∃ p ∈ ps, ∃ n f hv c signer, p.body.name = some n ∧ linkName W.names n = .ok f ∧ path = [f] ∧
      p.hash W.tree.prims.sha256 = .ok hv ∧ d'.read path = some c ∧ Spec.IsLink W.tree.prims signer n hv c

/-! ## Helpers -/

/-- The files written for the packets, latest first. -/
inductive Written (P : Prims) (F : NameComponent → Text) (w : DirWriter) : List Packet → List (List Text × Bytes) → Prop
  | nil : Written P F w [] []
  | packet {ps : List Packet} {fs : List (List Text × Bytes)} {p : Packet} {b : Bytes} {hv : HashValue} :
      Written P F w ps fs → p.serialize = .ok b → p.hash P.sha256 = .ok hv →
      Written P F w (ps ++ [p]) (([hexText hv.value], b) :: fs)
  | link {ps : List Packet} {fs : List (List Text × Bytes)} {p : Packet} {hv : HashValue} {n : Name} {l : Packet} {f : Text} {c : Bytes} :
      Written P F w ps fs → p ∈ ps → p.hash P.sha256 = .ok hv → w.linkNamedObjects = true → p.body.name = some n →
      w.createLink P n hv = .ok l → linkName F n = .ok f → l.serialize = .ok c → Written P F w ps (([f], c) :: fs)

theorem put_any {P : Prims} {F : NameComponent → Text} {w : DirWriter} (hn : w.nested = false) {p : Packet} {s s' : DirState} {r : Py Unit}
    {ps : List Packet} {fs base : List (List Text × Bytes)} (hs : s.dir.files = fs ++ base) (hw : Written P F w ps fs)
    (h : w.put P F p s = (r, s')) :
    ∃ fs', s'.dir.files = fs' ++ base ∧ (Written P F w (ps ++ [p]) fs' ∨ r ≠ .ok () ∧ Written P F w ps fs') := by
  unfold DirWriter.put at h
  cases hl : p.len with
  | error e => rw [hl] at h; cases h; exact ⟨fs, hs, .inr ⟨nofun, hw⟩⟩
  | ok k =>
    rw [hl, PyS.liftBind_run rfl, PyS.bind_of_ok (PyS.modify_run _ _)] at h
    cases hh : p.hash P.sha256 with
    | error e => rw [hh] at h; cases h; exact ⟨fs, hs, .inr ⟨nofun, hw⟩⟩
    | ok hv =>
      rw [hh, PyS.liftBind_run rfl] at h
      cases hb : p.serialize with
      | error e => rw [hb] at h; cases h; exact ⟨fs, hs, .inr ⟨nofun, hw⟩⟩
      | ok b =>
        rw [hb, PyS.liftBind_run rfl, PyS.bind_of_ok (PyS.modify_run _ _)] at h
        have hpath : toPath (hashFileName hv) w.nested = [hexText hv.value] := by simp [toPath, hn, hashFileName]
        have hw1 := hw.packet hb hh
        generalize hs1 : ({ s with totalBytesByPacket := s.totalBytesByPacket + k, dir := s.dir.write (toPath (hashFileName hv) w.nested) b } : DirState) = s1 at h
        have hf1 : s1.dir.files = ([hexText hv.value], b) :: fs ++ base := by
          rw [← hs1]
          show (toPath (hashFileName hv) w.nested, b) :: s.dir.files = _
          rw [hpath, hs]
          rfl
        rcases hwl : w.writeLink P F p hv s1 with ⟨e | u, s2⟩
        · rw [PyS.bind_of_error hwl] at h
          cases h
          have : s' = s1 := by
            unfold DirWriter.writeLink at hwl
            split at hwl
            · cases hnm : p.body.name with
              | none => rw [hnm] at hwl; cases hwl
              | some n =>
                rw [hnm] at hwl
                dsimp only at hwl
                cases h1 : w.createLink P n hv with
                | error e => rw [h1] at hwl; cases hwl; rfl
                | ok l =>
                  rw [h1, PyS.liftBind_run rfl] at hwl
                  cases h2 : linkName F n with
                  | error e => rw [h2] at hwl; cases hwl; rfl
                  | ok f =>
                    rw [h2, PyS.liftBind_run rfl] at hwl
                    cases h3 : l.serialize with
                    | error e => rw [h3] at hwl; cases hwl; rfl
                    | ok c => rw [h3, PyS.liftBind_run rfl] at hwl; cases hwl
            · cases hwl
          rw [this]
          exact ⟨_, hf1, .inl hw1⟩
        · rw [PyS.bind_of_ok hwl] at h
          obtain ⟨ls, hls, rfl⟩ := DirWriter.writeLink_ok hwl
          have hd : s'.dir.files = ls ++ s1.dir.files := by
            have h := congrArg Prod.snd h
            simp only [PyS.modify_run] at h
            rw [← h]
            split
            · rfl
            · split <;> rfl
          match ls, hls with
          | [], _ => exact ⟨_, by rw [hd, List.nil_append, hf1], .inl hw1⟩
          | [(path, c)], ⟨n, l, f, h1, h2, h3, h4, h5, h6⟩ =>
            subst h6
            refine ⟨([f], c) :: (([hexText hv.value], b) :: fs), by rw [hd, hf1]; rfl, .inl (hw1.link (p := p) (by simp) hh h1 h2 h3 h4 h5)⟩

theorem putAll_any {P : Prims} {F : NameComponent → Text} {w : DirWriter} (hn : w.nested = false) {qs : List Packet} {s s' : DirState}
    {r : Py Unit} {ps : List Packet} {fs base : List (List Text × Bytes)} (hs : s.dir.files = fs ++ base) (hw : Written P F w ps fs)
    (h : w.putAll P F qs s = (r, s')) :
    ∃ ps' fs', ps' <+: qs ∧ (r = .ok () → ps' = qs) ∧ s'.dir.files = fs' ++ base ∧ Written P F w (ps ++ ps') fs' := by
  induction qs generalizing s ps fs with
  | nil => cases h; exact ⟨[], fs, List.prefix_rfl, fun _ => rfl, hs, by simpa using hw⟩
  | cons p qs ih =>
    rcases hp : w.put P F p s with ⟨e | u, m⟩
    · obtain ⟨fs', h1, h2⟩ := put_any hn hs hw hp
      have h : (_, _) = _ := (PyS.bind_of_error hp).symm.trans h
      cases h
      rcases h2 with h2 | ⟨_, h2⟩
      · exact ⟨[p], fs', by simp, nofun, h1, h2⟩
      · exact ⟨[], fs', by simp, nofun, h1, by simpa using h2⟩
    · obtain ⟨fs', h1, h2⟩ := put_any hn hs hw hp
      have h : w.putAll P F qs m = (r, s') := (PyS.bind_of_ok hp).symm.trans h
      rcases h2 with h2 | ⟨h2, _⟩
      · obtain ⟨ps', fs'', g1, g2, g3, g4⟩ := ih h1 h2 h
        exact ⟨p :: ps', fs'', by simpa using g1, fun h => by rw [g2 h], g3, by simpa using g4⟩
      · exact absurd rfl h2

theorem read_cons (path q : List Text) (b : Bytes) (fs : List (List Text × Bytes)) :
    Directory.read ⟨(q, b) :: fs⟩ path = if q = path then some b else Directory.read ⟨fs⟩ path :=
  Directory.read_write ⟨fs⟩ q path b

theorem hash_eq {P : Prims} {p q : Packet} {x y : HashValue} (hx : p.hash P.sha256 = .ok x) (hy : q.hash P.sha256 = .ok y)
    (h : hexText x.value = hexText y.value) : x = y := by
  have h := hexText_inj h
  have h1 := Packet.hash_alg hx
  have h2 := Packet.hash_alg hy
  cases x
  cases y
  simp only at h1 h2 h
  rw [h1, h2, h]

theorem link_ne {F : NameComponent → Text} {n : Name} {f : Text} (h : linkName F n = .ok f) (x : Bytes) : [f] ≠ [hexText x] := by
  intro he
  have hd := linkName_dot h
  rw [(List.cons.inj he).1] at hd
  exact hexText_no_dot x hd

theorem Written.stored {P : Prims} {F : NameComponent → Text} {w : DirWriter} {ps : List Packet} {fs base : List (List Text × Bytes)}
    (h : Written P F w ps fs) : ∀ p ∈ ps, ∃ hv b, p.hash P.sha256 = .ok hv ∧ Directory.read ⟨fs ++ base⟩ [hexText hv.value] = some b ∧
      ∃ q ∈ ps, q.hash P.sha256 = .ok hv ∧ q.serialize = .ok b := by
  induction h with
  | nil => simp
  | @packet ps fs p b hv _ hb hh ih =>
    intro x hx
    rcases List.mem_append.mp hx with hx | hx
    · obtain ⟨g, c, h1, h2, q, hq, h3, h4⟩ := ih x hx
      by_cases he : hexText hv.value = hexText g.value
      · cases hash_eq hh h1 he
        exact ⟨hv, b, h1, by rw [List.cons_append, read_cons, if_pos rfl], p, by simp, hh, hb⟩
      · exact ⟨g, c, h1, by rw [List.cons_append, read_cons, if_neg (by simpa using he), h2], q, by simp [hq], h3, h4⟩
    · cases List.mem_singleton.mp hx
      exact ⟨hv, b, hh, by rw [List.cons_append, read_cons, if_pos rfl], p, by simp, hh, hb⟩
  | @link ps fs p hv n l f c _ _ _ _ _ _ hf _ ih =>
    intro x hx
    obtain ⟨g, c, h1, h2, h3⟩ := ih x hx
    exact ⟨g, c, h1, by rw [List.cons_append, read_cons, if_neg (link_ne hf _), h2], h3⟩

theorem createLink_signer {P : Prims} (w : DirWriter) (n : Name) (h : HashValue) :
    w.createLink P n h = DirWriter.createLink P { signer := w.signer } n h := rfl

theorem Written.only {P : Prims} {F : NameComponent → Text} {w : DirWriter} {ps : List Packet} {fs base : List (List Text × Bytes)}
    (h : Written P F w ps fs) (path : List Text) : Directory.read ⟨fs ++ base⟩ path = Directory.read ⟨base⟩ path ∨
      (∃ p ∈ ps, ∃ hv, p.hash P.sha256 = .ok hv ∧ path = [hexText hv.value]) ∨
      w.linkNamedObjects = true ∧ ∃ p ∈ ps, ∃ n f hv c signer, p.body.name = some n ∧ linkName F n = .ok f ∧ path = [f] ∧
        p.hash P.sha256 = .ok hv ∧ Directory.read ⟨fs ++ base⟩ path = some c ∧ Spec.IsLink P signer n hv c := by
  induction h with
  | nil => exact .inl rfl
  | @packet ps fs p b hv _ hb hh ih =>
    by_cases he : [hexText hv.value] = path
    · exact .inr (.inl ⟨p, by simp, hv, hh, he.symm⟩)
    · rw [List.cons_append, read_cons, if_neg he]
      rcases ih with h | ⟨q, hq, h⟩ | ⟨hl, q, hq, h⟩
      · exact .inl h
      · exact .inr (.inl ⟨q, by simp [hq], h⟩)
      · exact .inr (.inr ⟨hl, q, by simp [hq], h⟩)
  | @link ps fs p hv n l f c _ hp hh hl hn hc hf hs ih =>
    by_cases he : [f] = path
    · rw [List.cons_append, read_cons, if_pos he]
      exact .inr (.inr ⟨hl, p, hp, n, f, hv, c, w.signer, hn, hf, he.symm, hh, rfl, l, hc, hs⟩)
    · rw [List.cons_append, read_cons, if_neg he]
      exact ih

/-- A run is a failure before anything is put, or the packets of the build are put. -/
theorem runDirectory_cases {W : WriterWorld} {a : WriterArgs} {links isdir : Bool} {file : Option Stream} {d d' : Directory}
    {r : Py Packet} (h : W.runDirectory a links isdir file d = (r, d')) :
    (d' = d ∧ ∃ e, r = .error e) ∨
    ∃ signer u s, signerFromCli W.cli (W.args a).toCliArgs = .ok signer ∧ isdir = true ∧ prefixCheck (W.args a) = .ok () ∧
      DirWriter.putAll W.tree.prims W.names { linkNamedObjects := links, signer := signer } (W.build (W.args a) file).2 { dir := d } = (u, s) ∧
      d' = s.dir ∧ (u = .ok () ∧ r = (W.build (W.args a) file).1 ∨ ∃ e, u = .error e ∧ r = .error e) := by
  unfold WriterWorld.runDirectory at h
  dsimp only at h
  split at h
  · cases h; exact .inl ⟨rfl, _, rfl⟩
  · rename_i signer hsg
    split at h
    · rename_i hd
      split at h
      · cases h; exact .inl ⟨rfl, _, rfl⟩
      · rename_i hp
        split at h
        · rename_i e s hs
          cases h
          exact .inr ⟨signer, _, s, hsg, hd, hp, hs, rfl, .inr ⟨e, rfl, rfl⟩⟩
        · rename_i s hs
          cases h
          exact .inr ⟨signer, _, s, hsg, hd, hp, hs, rfl, .inl ⟨rfl, rfl⟩⟩
    · cases h; exact .inl ⟨rfl, _, rfl⟩

theorem build_supported (W : WriterWorld) (a : WriterArgs) (file : Option Stream) {x y : List Packet} {p : Packet}
    (h : (W.build a file).2 = x ++ p :: y) : ∃ o, Spec.Supported W.tree o x p := by
  unfold WriterWorld.build at h
  split at h
  · simp at h
  · rename_i o _
    split at h
    · simp at h
    · rename_i input
      exact ⟨o, C47_no_dangling_pointers W.tree W.log o W.counter input _ _ rfl x y p h⟩

/-- A run that returned has made options, opened the file, built the tree and put all packets. -/
theorem run_ok {W : WriterWorld} {a : WriterArgs} {links isdir : Bool} {file : Option Stream} {d d' : Directory} {root : Packet} :
    W.runDirectory a links isdir file d = (.ok root, d') ↔
    isdir = true ∧ ∃ o input out s, writerOptions W.cli W.iso W.hashOf a = .ok o ∧ file = some input ∧
      manifestTree W.tree W.log o W.counter input = (.ok root, out) ∧
      DirWriter.putAll W.tree.prims W.names { linkNamedObjects := links, signer := o.signer } out { dir := d } = (.ok (), s) ∧ d' = s.dir := by
  constructor
  · intro h
    rcases runDirectory_cases h with ⟨_, e, he⟩ | ⟨signer, u, s, h1, h2, h3, h4, h5, h6⟩
    · cases he
    · rcases h6 with ⟨rfl, h6⟩ | ⟨e, _, he⟩
      · refine ⟨h2, ?_⟩
        unfold WriterWorld.build at h4 h6
        cases ho : treeOptionsFromCli W.cli W.iso (W.args a) with
        | error e => rw [ho] at h6; cases h6
        | ok o =>
          rw [ho] at h4 h6
          cases file with
          | none => cases h6
          | some input =>
            have hw : writerOptions W.cli W.iso W.hashOf a = .ok o := by
              unfold writerOptions
              show (signerFromCli W.cli (W.args a).toCliArgs >>= fun _ => prefixCheck (W.args a) >>= fun _ =>
                treeOptionsFromCli W.cli W.iso (W.args a)) = _
              rw [h1, ok_bind, h3, ok_bind, ho]
            have hsg : signer = o.signer := Except.ok.inj (h1.symm.trans (writerOptions_ok hw).2.2.2.1)
            subst hsg
            exact ⟨o, input, _, s, hw, rfl, Prod.ext h6.symm rfl, h4, h5⟩
      · cases he
  · rintro ⟨rfl, o, input, out, s, ho, rfl, hm, hs, rfl⟩
    have hsg := (writerOptions_ok ho).2.2.2.1
    unfold writerOptions at ho
    have ho : (signerFromCli W.cli (W.args a).toCliArgs >>= fun _ => prefixCheck (W.args a) >>= fun _ =>
                treeOptionsFromCli W.cli W.iso (W.args a)) = .ok o := ho
    obtain ⟨sg, _, ho⟩ := bind_eq_ok.mp ho
    obtain ⟨_, hp, ho⟩ := bind_eq_ok.mp ho
    have hsg : signerFromCli W.cli (W.args a).toCliArgs = .ok o.signer := hsg
    unfold WriterWorld.runDirectory
    dsimp only
    rw [hsg]
    dsimp only
    rw [if_pos rfl, hp]
    dsimp only
    unfold WriterWorld.build
    rw [ho]
    dsimp only
    rw [hm]
    dsimp only
    rw [hs]

theorem out_created {E : Env} {L : FloatLog} {o : TreeOptions} {nc : Nat} {input : Stream} {root : Packet} {out : List Packet}
    (h : manifestTree E L o nc input = (.ok root, out)) : ∀ p ∈ out, Spec.Created p := by
  obtain ⟨R⟩ := manifestTree_ok h
  obtain ⟨ids, level, i, kids, h1, h2, h3, h4, h5, h6, h7, h8⟩ := R.forest
  intro p hp
  rw [h8] at hp
  rcases List.mem_append.mp hp with hp | hp
  · rcases List.mem_append.mp hp with hp | hp
    · exact .inl (chunked_created R.chunked p hp)
    · obtain ⟨j, hj, rfl⟩ := List.mem_map.mp hp
      obtain ⟨_, name, s, s', hname, hb⟩ := h2.made j hj
      obtain ⟨_, _, w, _, _, _, _, hs, _⟩ := buildFromNode_inv hb
      exact .inl ⟨_, hs⟩
  · rw [List.mem_singleton.mp hp]
    obtain ⟨_, hs, _⟩ := R.root_signed
    exact signPacket_created hs

theorem putAll_nolinks {P : Prims} {F : NameComponent → Text} {w : DirWriter} (hl : w.linkNamedObjects = false) {out : List Packet}
    (h : ∀ p ∈ out, Spec.Created p) (m : DirState) : ∃ s, w.putAll P F out m = (.ok (), s) := by
  induction out generalizing m with
  | nil => exact ⟨m, rfl⟩
  | cons p ps ih =>
    obtain ⟨_, _, _, _, b, hb, _⟩ := Packet.created (h p (by simp))
    obtain ⟨hv, hh⟩ := Packet.hash_of_serialize (sha := P.sha256) hb
    have hlen : p.len = .ok b.length := by unfold Packet.len; rw [hb]; rfl
    have : ∃ m', w.put P F p m = (.ok (), m') := by
      unfold DirWriter.put
      rw [PyS.liftBind_run hlen, PyS.bind_of_ok (PyS.modify_run _ _), PyS.liftBind_run hh, PyS.liftBind_run hb,
        PyS.bind_of_ok (PyS.modify_run _ _)]
      unfold DirWriter.writeLink
      simp only [hl, Bool.false_eq_true, if_false]
      exact ⟨_, rfl⟩
    obtain ⟨m', hm⟩ := this
    obtain ⟨s, hs⟩ := ih (fun p hp => h p (List.mem_cons_of_mem _ hp)) m'
    refine ⟨s, ?_⟩
    rw [DirWriter.putAll, PyS.bind_of_ok hm]
    exact hs

/-! ## C100 -/

/-- C100 (whatever happens): however a run into a directory ends, it has written an initial part of the packets of the build (all, if it
returned), each whole, into the file named by its hash; with `--link` links for those that have a name; no manifest points to a packet
that is not there; and all other files are as they were. -/
theorem C100_files {W : WriterWorld} {a : WriterArgs} {links isdir : Bool} {file : Option Stream} {d d' : Directory}
    {r : Py Packet} (h : W.runDirectory a links isdir file d = (r, d')) :
    ∃ ps, ps <+: (W.build (W.args a) file).2 ∧ (∀ root, r = .ok root → ps = (W.build (W.args a) file).2) ∧ Spec.Left W links d d' ps := by
  rcases runDirectory_cases h with ⟨rfl, e, rfl⟩ | ⟨signer, u, s, h1, h2, h3, h4, rfl, h5⟩
  · exact ⟨[], List.nil_prefix, nofun, ⟨by simp, by simp, fun _ => .inl rfl⟩⟩
  · obtain ⟨ps, fs, g1, g2, g3, g4⟩ := putAll_any (w := { linkNamedObjects := links, signer := signer }) rfl (base := d.files) (fs := [])
      rfl .nil h4
    rw [List.nil_append] at g4
    have hdir : s.dir = ⟨fs ++ d.files⟩ := by rw [← g3]
    have hst := g4.stored (base := d.files)
    refine ⟨ps, g1, ?_, ⟨?_, ?_, ?_⟩⟩
    · rintro root rfl
      rcases h5 with ⟨h5, _⟩ | ⟨e, _, h5⟩
      · exact g2 h5
      · cases h5
    · rw [hdir]
      exact hst
    · intro p hp
      obtain ⟨x, y, rfl⟩ := List.append_of_mem hp
      obtain ⟨z, hz⟩ := g1
      obtain ⟨o, hsup⟩ := build_supported W (W.args a) file (x := x) (p := p) (y := y ++ z) (by rw [← hz]; simp)
      rcases hsup with hsup | ⟨node, name, expiry, sg, full, t, t', hb, hall⟩
      · exact .inl hsup
      · refine .inr ⟨o, node, name, expiry, sg, full, t, t', hb, fun g hg => ?_⟩
        obtain ⟨q, hq, hqh⟩ := hall g hg
        obtain ⟨hv, b, k1, k2, _⟩ := hst q (by simp [hq])
        cases Except.ok.inj (hqh.symm.trans k1)
        exact ⟨b, by rw [hdir]; exact k2⟩
    · intro path
      rw [hdir]
      exact g4.only (base := d.files) path

/-- C100 (when it returns): without `--link` a run into a directory returns a packet exactly if the directory and the file exist, options
are made of the arguments, and the build returns that packet; nothing that is in the directory matters. -/
theorem C100_returns_iff {W : WriterWorld} {a : WriterArgs} {isdir : Bool} {file : Option Stream} {d : Directory} {root : Packet} :
    (∃ d', W.runDirectory a false isdir file d = (.ok root, d')) ↔
    isdir = true ∧ ∃ o input out, writerOptions W.cli W.iso W.hashOf a = .ok o ∧ file = some input ∧
      manifestTree W.tree W.log o W.counter input = (.ok root, out) := by
  constructor
  · rintro ⟨d', h⟩
    obtain ⟨h1, o, input, out, s, h2, h3, h4, _⟩ := run_ok.mp h
    exact ⟨h1, o, input, out, h2, h3, h4⟩
  · rintro ⟨h1, o, input, out, h2, h3, h4⟩
    obtain ⟨s, hs⟩ := putAll_nolinks (P := W.tree.prims) (F := W.names) (w := { signer := o.signer }) rfl (out_created h4) { dir := d }
    exact ⟨s.dir, run_ok.mpr ⟨h1, o, input, out, s, h2, h3, h4, hs, rfl⟩⟩

/-- C100 (links): after a run with `--link` that returned, the file with the name of the root's name is a link to the root: it parses as
a packet with that name, whose payload is a link with the same name and the hash of the root. -/
theorem C100_link {W : WriterWorld} {a : WriterArgs} {isdir : Bool} {file : Option Stream} {d d' : Directory} {root : Packet}
    (now : F64) (hnow : ∃ n, n < 2 ^ 40 ∧ W.cli.now = F64.ofNat n) {n : Name} (hn : root.body.name = some n)
    (h : W.runDirectory a true isdir file d = (.ok root, d')) :
    ∃ f hv l lw, linkName W.names n = .ok f ∧ root.hash W.tree.prims.sha256 = .ok hv ∧ d'.load now [f] = .ok l ∧
      l.body = { name := some n.toBytes, payloadType := some 2, payload := some lw } ∧
      Link.deserialize lw = .ok { name := some n.toBytes, digest := some hv } := by
  obtain ⟨_, o, input, out, s, ho, _, hm, hs, rfl⟩ := run_ok.mp h
  obtain ⟨before, top, _, _, _, _, rfl, _⟩ := C47_root_last _ _ _ _ _ _ _ hm
  rw [show before ++ [top, root] = (before ++ [top]) ++ [root] by simp] at hs
  obtain ⟨m, _, hput⟩ := DirWriter.putAll_snoc hs
  obtain ⟨b, hv, ls, hb, hh, hls, rfl⟩ := DirWriter.put_ok hput
  rw [DirState.counted_dir]
  match ls, hls with
  | [], hls => rcases hls with h | h <;> simp [hn] at h
  | [(path, c)], ⟨n', l, f, _, hn', hcl, hf, hc, hpath⟩ =>
    rw [hn] at hn'
    cases Option.some.inj hn'
    subst hpath
    unfold DirWriter.createLink at hcl
    obtain ⟨body, hbody, hsig⟩ := bind_eq_ok.mp hcl
    unfold ContentObject.createLink at hbody
    obtain ⟨lw, hlw, hbody⟩ := bind_eq_ok.mp hbody
    obtain ⟨_, _, hbody⟩ := bind_eq_ok.mp hbody
    cases Except.ok.inj hbody
    have hlb := signPacket_body hsig
    have hlr : Spec.ReadsBack l := by
      have halg : ∀ k l' s, l.alg = some (.rsaSha256 k l' s) → l' = none ∧ s = W.cli.now := by
        intro k l' s ha
        obtain ⟨key, hsg⟩ := signPacket_alg hsig ha
        rcases signerFromCli_ok (writerOptions_ok ho).2.2.2.1 with ⟨_, hs⟩ | ⟨_, k, _, _, hs⟩
        · rw [hs] at hsg; cases hsg
        · rw [hs] at hsg; cases hsg; exact ⟨rfl, rfl⟩
      refine ⟨signPacket_created hsig, ⟨?_, ?_, ?_⟩, ?_⟩
      · intro e he; rw [hlb] at he; cases he
      · intro e he; rw [hlb] at he; cases he
      · intro k l' s he
        rw [(halg k l' s he).2]
        exact hnow
      · intro k l' s he
        exact (halg k l' s he).1
    refine ⟨f, hv, Spec.asRead l, lw, hf, hh, ?_, ?_, link_RT hlw⟩
    · unfold Directory.load
      simp only [Directory.read, List.cons_append, List.nil_append, List.find?_cons, beq_self_eq_true, Option.map_some]
      exact hlr.load now hc
    · unfold Spec.asRead; rw [hlb]; rfl

/-- C100 (published): a file that the program has written with the Hashed or Prefix schema into a directory, whatever was in it, is returned
by a traversal of the directory with a keystore made of arguments that go with the writer's, also after later sessions of other
writers, as long as no packet of this run or of a later one has the hash of another. -/
theorem C100_published {W : WriterWorld} {a : WriterArgs} {links isdir : Bool} {file : Option Stream} {d d' d'' : Directory}
    {root : Packet} {E' : CliEnv} {b : CliArgs} {ks : Keystore} {qs : List Packet}
    (hks : createKeystore E' b = .ok ks) (hb : Spec.ReaderFor W.cli (W.args a).toCliArgs E' b) (hr : Spec.Ranges W.cli (W.args a).toCliArgs)
    (hT : W.tree.prims = W.cli.prims) (ha : W.cli.prims.AeadLaw) (hO : W.cli.prims.OaepLaw) (hR : W.cli.prims.RsaLaw)
    (hnc : W.counter + 1 < 2 ^ 64) (hiso : ∀ t x, W.iso t = .ok x → ∃ n, n < 2 ^ 40 ∧ x = F64.ofNat n)
    (hnow : ∃ n, n < 2 ^ 40 ∧ W.cli.now = F64.ofNat n) (hty : a.schema = Spec.choice .hashed ∨ a.schema = Spec.choice .prefixed)
    (h : W.runDirectory a links isdir file d = (.ok root, d')) (hl : Spec.Sessions W.tree.prims qs d' d'')
    (hc : Spec.Apart W.tree.prims (W.build (W.args a) file).2 ((W.build (W.args a) file).2 ++ qs)) (now : F64) (F : NameComponent → Text) :
    ∃ o input hv, writerOptions W.cli W.iso W.hashOf a = .ok o ∧ file = some input ∧ root.hash W.tree.prims.sha256 = .ok hv ∧
      ∀ depth, (W.build (W.args a) file).2.length ≤ depth →
        Spec.ReturnedBy W.tree o (W.build (W.args a) file).2 (d''.reader now F) (some ks) depth hv input.rest := by
  obtain ⟨_, o, input, out, s, ho, rfl, hm, hs, rfl⟩ := run_ok.mp h
  have hout : (W.build (W.args a) (some input)).2 = out := by
    unfold writerOptions at ho
    have ho : (signerFromCli W.cli (W.args a).toCliArgs >>= fun _ => prefixCheck (W.args a) >>= fun _ =>
                treeOptionsFromCli W.cli W.iso (W.args a)) = .ok o := ho
    obtain ⟨sg, _, ho⟩ := bind_eq_ok.mp ho
    obtain ⟨_, hp, ho⟩ := bind_eq_ok.mp ho
    unfold WriterWorld.build
    rw [ho]
    dsimp only
    rw [hm]
  rw [hout] at hc ⊢
  obtain ⟨he, hw⟩ := writer_equipped ho hks hb hr hT ha hO hR hnc hiso hnow
  obtain ⟨hv, h1, h2⟩ := C98_directory now W.names F (writer_schema ho hty) hm he hw (w := { linkNamedObjects := links, signer := o.signer }) rfl hs
    (fun _ h => h) hl hc
  exact ⟨o, input, hv, ho, rfl, h1, h2⟩

/-- C100 (network): a run with `-T` has sent, however it ends, the whole encodings of an initial part of the packets of the build, and
nothing else; all, if it returned.  The socket is closed, unless the prefixes do not go with the schema. -/
theorem C100_network {W : WriterWorld} {a : WriterArgs} {file : Option Stream} {r : Py Packet} {s : NetworkWriter}
    (h : W.runNetwork a file = (r, s)) :
    ∃ ps ws, ps <+: (W.build (W.args a) file).2 ∧ (∀ root, r = .ok root → ps = (W.build (W.args a) file).2) ∧
      ps.mapM Packet.serialize = .ok ws ∧ s.sent = ws.flatten ∧
      (s.isOpen = true ↔ prefixCheck (W.args a) ≠ .ok ()) := by
  have key : ∀ (ps : List Packet) (m : NetworkWriter) u s, m.isOpen = true → NetworkWriter.putAll ps m = (u, s) →
      ∃ qs ws, qs <+: ps ∧ (u = .ok () → qs = ps) ∧ qs.mapM Packet.serialize = .ok ws ∧ s.sent = m.sent ++ ws.flatten := by
    intro ps
    induction ps with
    | nil => rintro m u s _ h; cases h; exact ⟨[], [], by simp, fun _ => rfl, rfl, by simp⟩
    | cons p ps ih =>
      intro m u s ho h
      cases hb : p.serialize with
      | error e =>
        have hp : NetworkWriter.put p m = (.error e, m) := by unfold NetworkWriter.put; rw [if_pos ho, hb]
        rw [NetworkWriter.putAll, PyS.bind_of_error hp] at h
        cases h
        exact ⟨[], [], by simp, nofun, rfl, by simp⟩
      | ok b =>
        have hp : NetworkWriter.put p m = (.ok (), { m with sent := m.sent ++ b }) := by unfold NetworkWriter.put; rw [if_pos ho, hb]
        rw [NetworkWriter.putAll, PyS.bind_of_ok hp] at h
        obtain ⟨qs, ws, g1, g2, g3, g4⟩ := ih { m with sent := m.sent ++ b } u s ho h
        refine ⟨p :: qs, b :: ws, by simpa using g1, fun hu => by rw [g2 hu], ?_, by rw [g4]; simp⟩
        rw [List.mapM_cons, hb, ok_bind, g3]
        rfl
  unfold WriterWorld.runNetwork at h
  dsimp only at h
  split at h
  · rename_i e hp
    cases h
    exact ⟨[], [], by simp, nofun, rfl, rfl, by simp [hp]⟩
  · rename_i hp
    split at h
    · rename_i e m hm
      cases h
      obtain ⟨qs, ws, g1, _, g3, g4⟩ := key _ _ _ _ rfl hm
      exact ⟨qs, ws, g1, nofun, g3, by simpa [NetworkWriter.close] using g4, by simp [hp, NetworkWriter.close]⟩
    · rename_i m hm
      cases h
      obtain ⟨qs, ws, g1, g2, g3, g4⟩ := key _ _ _ _ rfl hm
      exact ⟨qs, ws, g1, fun _ _ => g2 rfl, g3, by simpa [NetworkWriter.close] using g4, by simp [hp, NetworkWriter.close]⟩

/-! ## Cases -/

/-- A process that has made no name constructor contexts yet. -/
def Toy.world : WriterWorld where
  cli := Toy.cli
  tree := Toy.env
  log := Spec.exactLog
  iso := fun _ => .error .valueError
  hashOf := fun _ => 0
  names := fun _ => []

/-- A directory with a file. -/
def Toy.used : Directory := ⟨[(["x".toList], [1])]⟩

set_option maxRecDepth 100000 in
/-- C100: a signed and encrypted file of nine data packets is written with links into a directory that has a file already: twelve packets and
twelve links.  All the hypotheses of `C100_published` hold, with no later sessions, and those of `C100_link`. -/
example : ∃ root d ks, Toy.world.runDirectory Toy.writerArgs true true (some (Toy.shortReads 36)) Toy.used = (.ok root, d) ∧
    d.files.length = 25 ∧ root.body.name.isSome ∧ createKeystore Toy.cli Toy.writerArgs.toCliArgs = .ok ks ∧
    Spec.ReaderFor Toy.cli (Toy.world.args Toy.writerArgs).toCliArgs Toy.cli Toy.writerArgs.toCliArgs ∧
    Spec.Ranges Toy.cli (Toy.world.args Toy.writerArgs).toCliArgs ∧ Spec.Sessions Toy.prims [] d d ∧
    Spec.Apart Toy.prims (Toy.world.build (Toy.world.args Toy.writerArgs) (some (Toy.shortReads 36))).2
      ((Toy.world.build (Toy.world.args Toy.writerArgs) (some (Toy.shortReads 36))).2 ++ []) := by
  obtain ⟨root, d, h, hl⟩ := Toy.ok_of_eval (f := fun d : Directory => d.files.length) (n := 25)
    (x := Toy.world.runDirectory Toy.writerArgs true true (some (Toy.shortReads 36)) Toy.used) (by decide +kernel)
  obtain ⟨ks, hks⟩ := Toy.ok_of_isOk (x := createKeystore Toy.cli Toy.writerArgs.toCliArgs) (by decide +kernel)
  have hb : Spec.ReaderFor Toy.cli (Toy.world.args Toy.writerArgs).toCliArgs Toy.cli Toy.writerArgs.toCliArgs := by
    refine ⟨rfl, rfl, rfl, rfl, rfl, fun f k h1 h2 => ⟨f, k, h1, h2, rfl⟩, ?_, ?_⟩
    · intro f k h1 h2
      cases h1
      cases h2
      exact ⟨_, _, rfl, rfl, rfl, fun _ => rfl⟩
    · intro f g k l h1 h2 h3 h4 h5
      cases h1; cases h2; cases h3; cases h4
      exact absurd h5 (by decide +kernel)
  have hn : root.body.name.isSome := by
    obtain ⟨_, o, input, out, s, ho, _, hm, _⟩ := run_ok.mp h
    obtain ⟨R⟩ := manifestTree_ok hm
    have h1 := (C84_passed_on ho).2.2.2.1
    obtain ⟨_, _, _, _, _, _, _, _, _, hb⟩ := C47_root_last _ _ _ _ _ _ _ hm
    obtain ⟨_, _, _, _, _, _, hbody, _⟩ := buildFromNode_inv hb
    rw [hbody]
    show o.name.isSome
    cases hn : o.name with
    | some n => rfl
    | none => rw [hn] at h1; exact absurd (congrArg (fun x : Py (Option Name) => x.toOption.map Option.isSome) h1) (by decide +kernel)
  have hd : ((Toy.world.build (Toy.world.args Toy.writerArgs) (some (Toy.shortReads 36))).2.map
      (fun p => (p.hash Toy.prims.sha256).toOption)).Nodup := by decide +kernel
  refine ⟨root, d, ks, h, hl, hn, hks, hb, ⟨fun _ h => (by cases h), fun _ h => (by cases h), by decide⟩, .nil _, ?_⟩
  intro p hp q hq hv h1 h2
  rw [List.append_nil] at hq
  exact List.inj_on_of_nodup_map hd hq hp (congrArg Except.toOption (h2.trans h1.symm))

set_option maxRecDepth 100000 in
/-- C100: the packets are to be so small that no manifest fits; the data packets and their links are written before the run fails. -/
example : ∃ e d, Toy.world.runDirectory { Toy.writerArgs with maxSize := 100 } true true (some (Toy.shortReads 36)) Toy.used = (.error e, d) ∧
    d.files.length = 19 :=
  Toy.error_of_eval (f := fun d : Directory => d.files.length) (n := 19) (by decide +kernel)

set_option maxRecDepth 100000 in
/-- C100: the same file over a socket, and with a prefix that does not go with the schema. -/
example : (∃ root s, Toy.world.runNetwork Toy.writerArgs (some (Toy.shortReads 36)) = (.ok root, s) ∧ s.sent.length = 1256) ∧
    ∃ e s, Toy.world.runNetwork { Toy.writerArgs with manifestPrefix := some [] } (some (Toy.shortReads 36)) = (.error e, s) ∧
      s.isOpen.toNat = 1 :=
  ⟨Toy.ok_of_eval (f := fun s : NetworkWriter => s.sent.length) (n := 1256) (by decide +kernel),
    Toy.error_of_eval (f := fun s : NetworkWriter => s.isOpen.toNat) (n := 1) (by decide +kernel)⟩

end Ccnpy
