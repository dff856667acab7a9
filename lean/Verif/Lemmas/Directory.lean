import Verif.Model.Directory
import Verif.Lemmas.PyS
import Verif.Lemmas.Keys
import Verif.Props.StoreProps
import Verif.Props.PacketProps

/-!
# Lemmas about packets in a directory
-/

namespace Ccnpy

/-! ## File names -/

theorem hexDigit_inj : ∀ m < 16, ∀ n < 16, hexDigit m = hexDigit n → m = n := by decide

theorem hexDigit_ne_dot : ∀ m < 16, hexDigit m ≠ '.' := by decide

theorem hexText_cons (x : UInt8) (b : Bytes) : hexText (x :: b) = hexDigit (x.toNat / 16) :: hexDigit (x.toNat % 16) :: hexText b := rfl

theorem hexText_inj {a b : Bytes} (h : hexText a = hexText b) : a = b := by
  induction a generalizing b with
  | nil =>
    cases b with
    | nil => rfl
    | cons y b => rw [hexText_cons] at h; cases h
  | cons x a ih =>
    cases b with
    | nil => rw [hexText_cons] at h; cases h
    | cons y b =>
      rw [hexText_cons, hexText_cons] at h
      simp only [List.cons.injEq] at h
      obtain ⟨h1, h2, h3⟩ := h
      have hx := x.toNat_lt
      have hy := y.toNat_lt
      have e1 := hexDigit_inj _ (by omega) _ (by omega) h1
      have e2 := hexDigit_inj _ (Nat.mod_lt _ (by omega)) _ (Nat.mod_lt _ (by omega)) h2
      rw [ih h3, show x = y from UInt8.toNat_inj.mp (by omega)]

theorem hexText_no_dot (b : Bytes) : '.' ∉ hexText b := by
  induction b with
  | nil => simp [hexText]
  | cons x b ih =>
    rw [hexText_cons]
    have hx := x.toNat_lt
    have h1 := hexDigit_ne_dot (x.toNat / 16) (by omega)
    have h2 := hexDigit_ne_dot (x.toNat % 16) (Nat.mod_lt _ (by omega))
    simp only [List.mem_cons, not_or]
    exact ⟨fun h => h1 h.symm, fun h => h2 h.symm, ih⟩

theorem linkName_dot {R : NameComponent → Text} {n : Name} {f : Text} (h : linkName R n = .ok f) : '.' ∈ f := by
  unfold linkName at h
  obtain ⟨u, _, h⟩ := bind_eq_ok.mp h
  cases Except.ok.inj h
  simp [tagLink]

theorem Directory.read_write (d : Directory) (p q : List Text) (b : Bytes) :
    (d.write p b).read q = if p = q then some b else d.read q := by
  unfold Directory.write Directory.read
  simp only [List.find?_cons]
  by_cases h : p = q
  · simp [h]
  · have : (p == q) = false := by simpa using h
    simp [this, h]

/-! ## Writing -/

/-- The link written for a packet with the hash `h`. -/
def LinkFiles (P : Prims) (R : NameComponent → Text) (w : DirWriter) (p : Packet) (h : HashValue) : List (List Text × Bytes) → Prop
  | [] => w.linkNamedObjects = false ∨ p.body.name = none
  | [(path, b)] => ∃ n l f, w.linkNamedObjects = true ∧ p.body.name = some n ∧ w.createLink P n h = .ok l ∧ linkName R n = .ok f ∧
      l.serialize = .ok b ∧ path = [f]
  | _ => False

/-- The counters after a packet of `n` bytes with the hash `h`. -/
def DirState.counted (P : Prims) (s : DirState) (p : Packet) (h : HashValue) (n : Nat) (d : Directory) : DirState :=
  let s1 : DirState := { s with totalBytesByPacket := s.totalBytesByPacket + n, dir := d }
  if s.has P h then s1
  else
    let s2 : DirState := { s1 with totalBytesByHash := s.totalBytesByHash + n, byHash := s.byHash ++ [(h, p)] }
    if p.body.payloadType = some PT_MANIFEST then
      { s2 with cntManifest := s.cntManifest + 1, bytesManifest := s.bytesManifest + n }
    else { s2 with cntData := s.cntData + 1, bytesData := s.bytesData + n }

theorem DirWriter.writeLink_ok {P : Prims} {R : NameComponent → Text} {w : DirWriter} {p : Packet} {h : HashValue} {s s' : DirState}
    (hw : w.writeLink P R p h s = (.ok (), s')) :
    ∃ ls, LinkFiles P R w p h ls ∧ s' = { s with dir := ⟨ls ++ s.dir.files⟩ } := by
  unfold DirWriter.writeLink at hw
  split at hw
  · rename_i hl
    cases hn : p.body.name with
    | none =>
      rw [hn] at hw
      cases hw
      exact ⟨[], .inr hn, rfl⟩
    | some n =>
      rw [hn] at hw
      obtain ⟨l, hl', hw⟩ := PyS.liftBind_ok hw
      obtain ⟨f, hf, hw⟩ := PyS.liftBind_ok hw
      obtain ⟨b, hb, hw⟩ := PyS.liftBind_ok hw
      cases hw
      exact ⟨[([f], b)], ⟨n, l, f, hl, hn, hl', hf, hb, rfl⟩, rfl⟩
  · rename_i hl
    cases hw
    exact ⟨[], .inl (by simpa using hl), rfl⟩

theorem DirWriter.put_ok {P : Prims} {R : NameComponent → Text} {w : DirWriter} {p : Packet} {s s' : DirState}
    (h : w.put P R p s = (.ok (), s')) :
    ∃ b hv ls, p.serialize = .ok b ∧ p.hash P.sha256 = .ok hv ∧ LinkFiles P R w p hv ls ∧
      s' = s.counted P p hv b.length ⟨ls ++ (toPath (hashFileName hv) w.nested, b) :: s.dir.files⟩ := by
  unfold DirWriter.put at h
  obtain ⟨n, hn, h⟩ := PyS.liftBind_ok h
  obtain ⟨b', hb', hn⟩ := bind_eq_ok.mp hn
  cases Except.ok.inj hn
  rw [PyS.bind_of_ok (PyS.modify_run _ _)] at h
  obtain ⟨hv, hh, h⟩ := PyS.liftBind_ok h
  obtain ⟨b, hb, h⟩ := PyS.liftBind_ok h
  rw [hb'] at hb
  cases Except.ok.inj hb
  rw [PyS.bind_of_ok (PyS.modify_run _ _)] at h
  obtain ⟨_, m, h1, h⟩ := PyS.bind_ok h
  obtain ⟨ls, hls, rfl⟩ := DirWriter.writeLink_ok h1
  refine ⟨b', hv, ls, hb', hh, hls, ?_⟩
  have h := (congrArg Prod.snd h).symm
  simp only [PyS.modify_run] at h
  rw [h]
  rfl

theorem DirWriter.putAll_append {P : Prims} {R : NameComponent → Text} {w : DirWriter} {ps qs : List Packet} {s s' : DirState}
    (h : w.putAll P R (ps ++ qs) s = (.ok (), s')) :
    ∃ m, w.putAll P R ps s = (.ok (), m) ∧ w.putAll P R qs m = (.ok (), s') := by
  induction ps generalizing s with
  | nil => exact ⟨s, rfl, h⟩
  | cons p ps ih =>
    rw [List.cons_append] at h
    obtain ⟨_, m, h1, h2⟩ := PyS.bind_ok h
    obtain ⟨k, h3, h4⟩ := ih h2
    exact ⟨k, by rw [DirWriter.putAll, PyS.bind_of_ok h1]; exact h3, h4⟩

theorem DirWriter.putAll_snoc {P : Prims} {R : NameComponent → Text} {w : DirWriter} {ps : List Packet} {p : Packet} {s s' : DirState}
    (h : w.putAll P R (ps ++ [p]) s = (.ok (), s')) :
    ∃ m, w.putAll P R ps s = (.ok (), m) ∧ w.put P R p m = (.ok (), s') := by
  obtain ⟨m, h1, h2⟩ := DirWriter.putAll_append h
  obtain ⟨_, k, h3, h4⟩ := PyS.bind_ok h2
  cases h4
  exact ⟨m, h1, h3⟩

theorem DirState.counted_dir (P : Prims) (s : DirState) (p : Packet) (h : HashValue) (n : Nat) (d : Directory) :
    (s.counted P p h n d).dir = d := by
  unfold DirState.counted
  split
  · rfl
  · split <;> rfl

/-- A file with a hexadecimal name is not a link. -/
theorem LinkFiles.read {P : Prims} {R : NameComponent → Text} {w : DirWriter} {p : Packet} {h : HashValue} {ls : List (List Text × Bytes)}
    (hl : LinkFiles P R w p h ls) (b : Bytes) (d : Directory) :
    Directory.read ⟨ls ++ d.files⟩ [hexText b] = d.read [hexText b] := by
  match ls, hl with
  | [], _ => rfl
  | [(path, c)], ⟨n, l, f, _, _, _, hf, _, hp⟩ =>
    have hne : (path == [hexText b]) = false := by
      have : path ≠ [hexText b] := by
        rw [hp]
        intro he
        have := linkName_dot hf
        rw [List.cons.inj he |>.1] at this
        exact hexText_no_dot b this
      simpa using this
    unfold Directory.read
    simp only [List.cons_append, List.nil_append, List.find?_cons, hne]

/-- The files of the packets: the last packet with the hash. -/
theorem dir_files {P : Prims} {R : NameComponent → Text} {w : DirWriter} (hn : w.nested = false) {ps : List Packet} {s : DirState}
    (h : w.putAll P R ps {} = (.ok (), s)) (digest : Bytes) :
    s.dir.read [hexText digest] = (ps.reverse.find? (Spec.hasHash P (.sha256 digest))).bind (·.serialize.toOption) := by
  induction ps using reverse_induction generalizing s with
  | nil => cases h; rfl
  | snoc ps p ih =>
    obtain ⟨m, h1, h2⟩ := DirWriter.putAll_snoc h
    obtain ⟨b, hv, ls, hb, hh, hl, rfl⟩ := DirWriter.put_ok h2
    rw [DirState.counted_dir]
    have := hl.read digest ⟨(toPath (hashFileName hv) w.nested, b) :: m.dir.files⟩
    rw [this]
    have := m.dir.read_write (toPath (hashFileName hv) w.nested) [hexText digest] b
    unfold Directory.write at this
    rw [this, ih h1, List.reverse_append, List.reverse_singleton, List.singleton_append, List.find?_cons]
    simp only [toPath, hn, Bool.false_eq_true, if_false, hashFileName]
    have hhv : hv = .sha256 hv.value := by
      have := Packet.hash_alg hh
      cases hv
      simp only at this
      rw [this]
      rfl
    by_cases he : hv.value = digest
    · subst he
      have : Spec.hasHash P (.sha256 hv.value) p = true := by simp [Spec.hasHash, hh, ← hhv]
      simp [this, hb, Except.toOption]
    · have h3 : Spec.hasHash P (.sha256 digest) p = false := by
        simp only [Spec.hasHash, hh, Except.ok.injEq, decide_eq_false_iff_not]
        intro h3
        rw [h3] at he
        exact he rfl
      have h4 : ¬ [hexText hv.value] = [hexText digest] := fun h => he (hexText_inj (List.cons.inj h).1)
      simp [h3, h4]

/-- Nested, the files of the packets are two directories further down. -/
theorem dir_nested_files {P : Prims} {R : NameComponent → Text} {w : DirWriter} (hn : w.nested = true) {ps : List Packet} {s : DirState}
    (h : w.putAll P R ps {} = (.ok (), s)) (digest : Bytes) :
    s.dir.read [(hexText digest).take 2, ((hexText digest).drop 2).take 2, hexText digest] =
      (ps.reverse.find? (Spec.hasHash P (.sha256 digest))).bind (·.serialize.toOption) := by
  induction ps using reverse_induction generalizing s with
  | nil => cases h; rfl
  | snoc ps p ih =>
    obtain ⟨m, h1, h2⟩ := DirWriter.putAll_snoc h
    obtain ⟨b, hv, ls, hb, hh, hl, rfl⟩ := DirWriter.put_ok h2
    rw [DirState.counted_dir]
    have hlink : Directory.read ⟨ls ++ (toPath (hashFileName hv) w.nested, b) :: m.dir.files⟩
        [(hexText digest).take 2, ((hexText digest).drop 2).take 2, hexText digest] =
        Directory.read ⟨(toPath (hashFileName hv) w.nested, b) :: m.dir.files⟩
        [(hexText digest).take 2, ((hexText digest).drop 2).take 2, hexText digest] := by
      match ls, hl with
      | [], _ => rfl
      | [(path, c)], ⟨n, l, f, _, _, _, hf, _, hp⟩ =>
        have hne : (path == [(hexText digest).take 2, ((hexText digest).drop 2).take 2, hexText digest]) = false := by
          rw [hp]
          simp
        unfold Directory.read
        simp only [List.cons_append, List.nil_append, List.find?_cons, hne]
    rw [hlink]
    have := m.dir.read_write (toPath (hashFileName hv) w.nested)
      [(hexText digest).take 2, ((hexText digest).drop 2).take 2, hexText digest] b
    unfold Directory.write at this
    rw [this, ih h1, List.reverse_append, List.reverse_singleton, List.singleton_append, List.find?_cons]
    simp only [toPath, hn, if_true, hashFileName]
    have hhv : hv = .sha256 hv.value := by
      have := Packet.hash_alg hh
      cases hv
      simp only at this
      rw [this]
      rfl
    by_cases he : hv.value = digest
    · subst he
      have : Spec.hasHash P (.sha256 hv.value) p = true := by simp [Spec.hasHash, hh, ← hhv]
      simp [this, hb, Except.toOption]
    · have h3 : Spec.hasHash P (.sha256 digest) p = false := by
        simp only [Spec.hasHash, hh, Except.ok.injEq, decide_eq_false_iff_not]
        intro h3
        rw [h3] at he
        exact he rfl
      have h4 : ¬ hexText hv.value = hexText digest := fun h => he (hexText_inj h)
      simp [h3, h4]

/-- Nested, no file is where the reader looks for it. -/
theorem dir_nested {P : Prims} {R : NameComponent → Text} {w : DirWriter} (hn : w.nested = true) {ps : List Packet} {s : DirState}
    (h : w.putAll P R ps {} = (.ok (), s)) (digest : Bytes) : s.dir.read [hexText digest] = none := by
  induction ps using reverse_induction generalizing s with
  | nil => cases h; rfl
  | snoc ps p ih =>
    obtain ⟨m, h1, h2⟩ := DirWriter.putAll_snoc h
    obtain ⟨b, hv, ls, hb, hh, hl, rfl⟩ := DirWriter.put_ok h2
    rw [DirState.counted_dir]
    have := hl.read digest ⟨(toPath (hashFileName hv) w.nested, b) :: m.dir.files⟩
    rw [this]
    have := m.dir.read_write (toPath (hashFileName hv) w.nested) [hexText digest] b
    unfold Directory.write at this
    rw [this, ih h1, if_neg]
    simp [toPath, hn]

end Ccnpy
