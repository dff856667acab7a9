import Verif.Lemmas.Directory
import Verif.Props.EndToEndProps
import Verif.Props.UriProps

/-!
# C60-C65: packets in a directory
-/

namespace Ccnpy

/-! ## Specification -/

/-- A packet as it comes back from its bytes: the components of its name are held as `bytes`. -/
def Spec.asRead (p : Packet) : Packet :=
  { p with body := { p.body with name := p.body.name.map (fun n => ⟨n.components.map (fun c => { c with isArray := false })⟩) } }

/-- A packet that comes back from its bytes (C17): made by one of the two constructors, times in whole seconds, an RSA signature
only without a key link. -/
structure Spec.ReadsBack (p : Packet) : Prop where
  created : (∃ b, Packet.createContentObject b = .ok p) ∨ (∃ b a v, Packet.createSigned b a v = .ok p)
  whole : p.WholeSeconds
  nolink : ∀ k l s, p.alg = some (.rsaSha256 k l s) → l = none

/-- What the reader makes of a stored packet: it is returned if it has no name, or if the requested name is equal to the name as it
was read back. -/
def Spec.returned (p : Packet) (name : Option Name) : Py Packet :=
  match (Spec.asRead p).body.name, name with
  | none, _ => .ok (Spec.asRead p)
  | some _, none => .error .attributeError
  | some n, some m => if m.pyEq n then .ok (Spec.asRead p) else .error .valueError

/-- The packets of `ps` whose hash no earlier one has. -/
def Spec.firsts (P : Prims) : List Packet → List Packet
  | [] => []
  | p :: ps => p :: (Spec.firsts P ps).filter (fun q => decide (q.hash P.sha256 ≠ p.hash P.sha256))

/-- The number of bytes of a packet. -/
def Spec.size (p : Packet) : Nat := (p.serialize.toOption.getD []).length

def Spec.isManifest (p : Packet) : Bool := p.body.payloadType == some PT_MANIFEST

/-! ## Helpers -/

theorem Spec.ReadsBack.load {p : Packet} (h : Spec.ReadsBack p) (now : F64) {w : Bytes} (hw : p.serialize = .ok w) :
    Packet.deserialize now w = .ok (Spec.asRead p) := by
  obtain ⟨h1, h2, _, h3, w', hw', h4⟩ := Packet.created h.created
  rw [hw] at hw'
  cases hw'
  have hlen : 8 ≤ w.length := by
    obtain ⟨hb, tb', la, lp, h1, _, _, _, _, _, _, rfl, _⟩ := Packet.serialize_ok hw
    obtain ⟨_, _, _, _, rfl⟩ := FixedHeader.serialize_ok h1
    simp
  exact packet_RT now hw h1 h2 (by omega) h3 (Packet.stable_of_whole h.whole) (Packet.readable_of_whole h.whole h.nolink)

theorem asRead_plain {p : Packet} (h : ∀ n, p.body.name = some n → ∀ c ∈ n.components, c.isArray = false) : Spec.asRead p = p := by
  cases p with
  | mk header body alg payload =>
    cases body with
    | mk name pt pl ex fc =>
      cases name with
      | none => rfl
      | some n =>
        have := Name.toBytes_plain (h n rfl)
        unfold Spec.asRead
        simp only [Option.map_some]
        rw [show (⟨n.components.map (fun c => { c with isArray := false })⟩ : Name) = n from this]

theorem reader_hash (now : F64) (R : NameComponent → Text) (d : Directory) (name : Option Name) (hv : HashValue) :
    d.reader now R name (some hv) =
      match d.read [hexText hv.value] with
      | none => .error .fileNotFoundError
      | some b => Packet.deserialize now b >>= fun p =>
        match p.body.name with
        | none => .ok p
        | some n =>
          match name with
          | none => .error .attributeError
          | some m => if m.pyEq n then .ok p else .error .valueError := by
  unfold Directory.reader Directory.load toPath hashFileName
  simp only [Bool.false_eq_true, if_false]
  cases d.read [hexText hv.value] with
  | none => rfl
  | some b => rfl

theorem reader_found {now : F64} {R : NameComponent → Text} {d : Directory} {p : Packet} {w : Bytes} {hv : HashValue}
    (hp : Spec.ReadsBack p) (hw : p.serialize = .ok w) (hr : d.read [hexText hv.value] = some w) (name : Option Name) :
    d.reader now R name (some hv) = Spec.returned p name := by
  rw [reader_hash, hr]
  simp only [hp.load now hw, ok_bind]
  unfold Spec.returned
  cases (Spec.asRead p).body.name with
  | none => rfl
  | some n => cases name <;> rfl

/-- A name with a component held in an `array` differs from every name held as `bytes`. -/
theorem pyEq_array {n m : Name} {c : NameComponent} (hc : c ∈ n.components) (ha : c.isArray = true)
    (hm : ∀ d ∈ m.components, d.isArray = false) : n.pyEq m = false := by
  cases he : n.pyEq m with
  | false => rfl
  | true =>
    exfalso
    simp only [Name.pyEq, Bool.and_eq_true, beq_iff_eq] at he
    obtain ⟨⟨hl, he⟩, _⟩ := he
    rw [List.all_eq_true] at he
    obtain ⟨j, hj, rfl⟩ := List.getElem_of_mem hc
    have hz := he (n.components[j], m.components[j]'(by omega)) (List.mem_of_getElem? (i := j) (by simp [List.getElem?_zip_eq_some, hj]))
    simp [NameComponent.pyEq, ha, hm _ (List.getElem_mem (by omega : j < m.components.length))] at hz

/-! ## C60 -/

section

variable {P : Prims} {R : NameComponent → Text} {w : DirWriter} {ps : List Packet} {s : DirState} (now : F64)

/-- C60: of several packets put with one hash the directory returns the last, read back from its bytes, if its name agrees with the
requested one. -/
theorem C60_last_read_back (hn : w.nested = false) (h : w.putAll P R ps {} = (.ok (), s)) {a : Nat} {digest : Bytes} {p : Packet}
    (hl : ps.reverse.find? (Spec.hasHash P (.sha256 digest)) = some p) (hp : Spec.ReadsBack p) (name : Option Name) :
    s.dir.reader now R name (some ⟨a, digest⟩) = Spec.returned p name := by
  have hf := dir_files hn h digest
  obtain ⟨_, _, _, _, b, hb, _⟩ := Packet.created hp.created
  rw [hl] at hf
  simp only [Option.bind_some, hb, Except.toOption] at hf
  exact reader_found hp hb hf name

/-- C60: a packet put is returned by its hash, if no other packet has its hash. -/
theorem C60_read_back (hn : w.nested = false) (h : w.putAll P R ps {} = (.ok (), s)) (hc : Spec.NoCollision P ps) {p : Packet}
    (hm : p ∈ ps) (hp : Spec.ReadsBack p) {hv : HashValue} (hh : p.hash P.sha256 = .ok hv) (name : Option Name) :
    s.dir.reader now R name (some hv) = Spec.returned p name := by
  have e : hv = .sha256 hv.value := by
    have := Packet.hash_alg hh
    cases hv
    simp only at this
    rw [this]
    rfl
  have hl : ps.reverse.find? (Spec.hasHash P (.sha256 hv.value)) = some p := by
    rw [← e]
    cases hf : ps.reverse.find? (Spec.hasHash P hv) with
    | none => exact absurd (List.find?_eq_none.mp hf p (List.mem_reverse.mpr hm)) (by simp [Spec.hasHash, hh])
    | some q =>
      have hq : q.hash P.sha256 = .ok hv := by simpa [Spec.hasHash] using List.find?_some hf
      rw [hc p hm q (List.mem_reverse.mp (List.mem_of_find?_eq_some hf)) hv hh hq]
  exact C60_last_read_back now hn h (a := hv.alg) (digest := hv.value) hl hp name

/-- C60: for a hash that no packet put has, FileNotFoundError. -/
theorem C60_missing (hn : w.nested = false) (h : w.putAll P R ps {} = (.ok (), s)) {a : Nat} {digest : Bytes}
    (hno : ∀ p ∈ ps, p.hash P.sha256 ≠ .ok (.sha256 digest)) (name : Option Name) :
    s.dir.reader now R name (some ⟨a, digest⟩) = .error .fileNotFoundError := by
  have hf := dir_files hn h digest
  rw [List.find?_eq_none.mpr (fun p hp => by simpa [Spec.hasHash] using hno p (List.mem_reverse.mp hp))] at hf
  rw [reader_hash]
  simp only
  rw [hf]
  rfl

/-- C60: by its own name and hash a packet is returned unchanged, if it has no name or one held as `bytes`; if a component of its
name is held in an `array`, it is refused. -/
theorem C60_own_name (hn : w.nested = false) (h : w.putAll P R ps {} = (.ok (), s)) (hc : Spec.NoCollision P ps) {p : Packet}
    (hm : p ∈ ps) (hp : Spec.ReadsBack p) {hv : HashValue} (hh : p.hash P.sha256 = .ok hv) :
    ((∀ n, p.body.name = some n → ∀ c ∈ n.components, c.isArray = false) →
      s.dir.reader now R p.body.name (some hv) = .ok p) ∧
    ((∃ n, p.body.name = some n ∧ ∃ c ∈ n.components, c.isArray = true) →
      s.dir.reader now R p.body.name (some hv) = .error .valueError) := by
  have hr := C60_read_back now (R := R) hn h hc hm hp hh p.body.name
  refine ⟨fun hpl => ?_, ?_⟩
  · rw [hr]
    unfold Spec.returned
    rw [asRead_plain hpl]
    cases hn : p.body.name with
    | none => rfl
    | some n =>
      obtain ⟨t, ht⟩ := Packet.hash_name hh hn
      simp [Name.pyEq_refl ht]
  · rintro ⟨n, hn, c, hc, ha⟩
    rw [hr]
    have hne := pyEq_array (m := ⟨n.components.map (fun c => { c with isArray := false })⟩) hc ha (by simp)
    unfold Spec.returned Spec.asRead
    simp only [hn, Option.map_some, hne]
    rfl

/-! ## C61 -/

/-- C61: asked by name only, the directory never returns a packet. -/
theorem C61_by_name_never_returns (R : NameComponent → Text) (d : Directory) (n : Name) :
    ∃ e, d.reader now R (some n) none = .error e := by
  have hl : ∃ e, d.getByLink now R n = .error e := by
    unfold Directory.getByLink
    cases linkName R n with
    | error e => exact ⟨e, rfl⟩
    | ok f =>
      simp only [ok_bind]
      cases d.load now (toPath f false) with
      | error e => exact ⟨e, rfl⟩
      | ok p =>
        simp only [ok_bind]
        split
        · cases p.body.payload with
          | none => exact ⟨_, rfl⟩
          | some b =>
            simp only
            cases Link.deserialize b with
            | error e => exact ⟨e, rfl⟩
            | ok l =>
              simp only [ok_bind]
              cases l.digest with
              | none => exact ⟨_, rfl⟩
              | some h =>
                simp only
                cases d.load now (toPath (hashFileName h) false) with
                | error e => exact ⟨e, rfl⟩
                | ok q => exact ⟨_, rfl⟩
        · exact ⟨_, rfl⟩
  obtain ⟨e, he⟩ := hl
  show ∃ e, d.getByName now R n = .error e
  unfold Directory.getByName
  rw [he]
  cases e <;> exact ⟨_, rfl⟩

/-- C61: without a link file for the name, NotImplementedError. -/
theorem C61_no_link (d : Directory) (n : Name) {f : Text} (hf : linkName R n = .ok f) (hno : d.read [f] = none) :
    d.reader now R (some n) none = .error .notImplementedError := by
  show d.getByName now R n = _
  unfold Directory.getByName Directory.getByLink
  have : d.load now (toPath f false) = .error .fileNotFoundError := by
    unfold Directory.load toPath
    simp only [Bool.false_eq_true, if_false, hno]
  simp only [hf, ok_bind, this]
  rfl

theorem crcSigned_inv {b : ContentObject} {p : Packet} (h : crcSignedPacket b = .ok p) : p.body = b ∧ p.alg = some .crc32c := by
  unfold crcSignedPacket at h
  obtain ⟨alg, ha, h⟩ := bind_eq_ok.mp h
  obtain ⟨_, _, h⟩ := bind_eq_ok.mp h
  obtain ⟨_, _, h⟩ := bind_eq_ok.mp h
  obtain ⟨_, _, h⟩ := bind_eq_ok.mp h
  obtain ⟨_, _, ha⟩ := bind_eq_ok.mp ha
  cases Except.ok.inj ha
  obtain ⟨_, rfl⟩ := createSigned_inv h
  exact ⟨rfl, rfl⟩

/-- C61: directly after a named packet was put with links switched on, asking for its name raises NameError: the link is found and
followed, then the message uses a variable that does not exist. -/
theorem C61_after_put {m : DirState} (hn : w.nested = false) (hl : w.linkNamedObjects = true) (hs : w.signer = none) {p : Packet}
    (hp : Spec.ReadsBack p) {n : Name} (hname : p.body.name = some n) (h : w.put P R p m = (.ok (), s)) :
    s.dir.reader now R (some n) none = .error .nameError := by
  obtain ⟨b, hv, ls, hb, hh, hls, rfl⟩ := DirWriter.put_ok h
  rw [DirState.counted_dir]
  match ls, hls with
  | [], hls => rcases hls with h | h <;> simp [hl, hname] at h
  | [(path, c)], ⟨n', l, f, _, hn', hcl, hf, hc, hpath⟩ =>
    rw [hname] at hn'
    cases Option.some.inj hn'
    subst hpath
    unfold DirWriter.createLink at hcl
    obtain ⟨body, hbody, hsig⟩ := bind_eq_ok.mp hcl
    unfold ContentObject.createLink at hbody
    obtain ⟨lw, hlw, hbody⟩ := bind_eq_ok.mp hbody
    obtain ⟨_, _, hbody⟩ := bind_eq_ok.mp hbody
    cases Except.ok.inj hbody
    rw [hs] at hsig
    have hsig' : crcSignedPacket _ = .ok l := hsig
    obtain ⟨hlb, hla⟩ := crcSigned_inv hsig'
    have hlr : Spec.ReadsBack l := by
      refine ⟨signPacket_created hsig, ⟨?_, ?_, ?_⟩, ?_⟩
      · intro e he; rw [hlb] at he; cases he
      · intro e he; rw [hlb] at he; cases he
      · intro k l' s he; rw [hla] at he; cases he
      · intro k l' s he; rw [hla] at he; cases he
    have hload1 : Directory.load now ⟨[([f], c)] ++ (toPath (hashFileName hv) w.nested, b) :: m.dir.files⟩ (toPath f false) =
        .ok (Spec.asRead l) := by
      unfold Directory.load toPath
      simp only [Bool.false_eq_true, if_false, Directory.read, List.cons_append, List.nil_append, List.find?_cons,
        beq_self_eq_true, Option.map_some]
      exact hlr.load now hc
    have hne : ([f] == [hexText hv.value]) = false := by
      have : [f] ≠ [hexText hv.value] := by
        intro he
        have hd := linkName_dot hf
        rw [(List.cons.inj he).1] at hd
        exact hexText_no_dot _ hd
      simpa using this
    have hload2 : Directory.load now ⟨[([f], c)] ++ (toPath (hashFileName hv) w.nested, b) :: m.dir.files⟩
        (toPath (hashFileName hv) false) = .ok (Spec.asRead p) := by
      unfold Directory.load toPath hashFileName
      simp only [hn, Bool.false_eq_true, if_false, Directory.read, List.cons_append, List.nil_append, List.find?_cons, hne,
        beq_self_eq_true, Option.map_some]
      exact hp.load now hb
    show Directory.getByName now R _ n = _
    unfold Directory.getByName Directory.getByLink
    have hlink := link_RT hlw
    have hpt : (Spec.asRead l).body.payloadType = some PT_LINK := by unfold Spec.asRead; rw [hlb]
    have hpl : (Spec.asRead l).body.payload = some lw := by unfold Spec.asRead; rw [hlb]
    simp only [hf, ok_bind, hload1, hpt, if_true, hpl, hlink]
    simp only [Link.toBytes, hload2, ok_bind]

/-- C61: the link file that `put` leaves under the name reads as a packet with the name, whose payload is a link of the same name with
the hash of the packet. -/
theorem C61_link_file {m : DirState} (hl : w.linkNamedObjects = true) (hs : w.signer = none) {p : Packet} {n : Name}
    (hname : p.body.name = some n) (h : w.put P R p m = (.ok (), s)) :
    ∃ f hv l lw, linkName R n = .ok f ∧ p.hash P.sha256 = .ok hv ∧ s.dir.load now [f] = .ok l ∧
      l.body = { name := some n.toBytes, payloadType := some 2, payload := some lw } ∧ l.alg = some .crc32c ∧
      Link.deserialize lw = .ok { name := some n.toBytes, digest := some hv } := by
  obtain ⟨b, hv, ls, hb, hh, hls, rfl⟩ := DirWriter.put_ok h
  rw [DirState.counted_dir]
  match ls, hls with
  | [], hls => rcases hls with h | h <;> simp [hl, hname] at h
  | [(path, c)], ⟨n', l, f, _, hn', hcl, hf, hc, hpath⟩ =>
    rw [hname] at hn'
    cases Option.some.inj hn'
    subst hpath
    unfold DirWriter.createLink at hcl
    obtain ⟨body, hbody, hsig⟩ := bind_eq_ok.mp hcl
    unfold ContentObject.createLink at hbody
    obtain ⟨lw, hlw, hbody⟩ := bind_eq_ok.mp hbody
    obtain ⟨_, _, hbody⟩ := bind_eq_ok.mp hbody
    cases Except.ok.inj hbody
    rw [hs] at hsig
    have hsig' : crcSignedPacket _ = .ok l := hsig
    obtain ⟨hlb, hla⟩ := crcSigned_inv hsig'
    have hlr : Spec.ReadsBack l := by
      refine ⟨signPacket_created hsig, ⟨?_, ?_, ?_⟩, ?_⟩
      · intro e he; rw [hlb] at he; cases he
      · intro e he; rw [hlb] at he; cases he
      · intro k l' s he; rw [hla] at he; cases he
      · intro k l' s he; rw [hla] at he; cases he
    refine ⟨f, hv, Spec.asRead l, lw, hf, hh, ?_, ?_, ?_, link_RT hlw⟩
    · unfold Directory.load toPath
      simp only [Directory.read, List.cons_append, List.nil_append, List.find?_cons,
        beq_self_eq_true, Option.map_some]
      exact hlr.load now hc
    · unfold Spec.asRead; rw [hlb]; rfl
    · unfold Spec.asRead; exact hla

/-! ## C62 -/

theorem firsts_mem {P : Prims} {ps : List Packet} {q : Packet} (h : q ∈ Spec.firsts P ps) : q ∈ ps := by
  induction ps with
  | nil => exact h
  | cons p ps ih =>
    rcases List.mem_cons.mp h with rfl | h
    · simp
    · exact List.mem_cons_of_mem _ (ih (List.mem_filter.mp h).1)

theorem firsts_covers {P : Prims} {ps : List Packet} {q : Packet} (h : q ∈ ps) :
    ∃ x ∈ Spec.firsts P ps, x.hash P.sha256 = q.hash P.sha256 := by
  induction ps with
  | nil => cases h
  | cons p ps ih =>
    by_cases he : p.hash P.sha256 = q.hash P.sha256
    · exact ⟨p, by simp [Spec.firsts], he⟩
    · rcases List.mem_cons.mp h with rfl | h
      · exact absurd rfl he
      · obtain ⟨x, hx, hxq⟩ := ih h
        exact ⟨x, List.mem_cons_of_mem _ (List.mem_filter.mpr ⟨hx, by simp [hxq, Ne.symm he]⟩), hxq⟩

theorem firsts_snoc (P : Prims) (ps : List Packet) (p : Packet) :
    Spec.firsts P (ps ++ [p]) =
      if ps.any (fun q => decide (q.hash P.sha256 = p.hash P.sha256)) then Spec.firsts P ps else Spec.firsts P ps ++ [p] := by
  induction ps with
  | nil => rfl
  | cons q ps ih =>
    rw [List.cons_append, Spec.firsts, ih, List.any_cons, Spec.firsts]
    by_cases h1 : ps.any (fun q => decide (q.hash P.sha256 = p.hash P.sha256)) = true
    · simp [h1]
    · have h1 : ps.any (fun q => decide (q.hash P.sha256 = p.hash P.sha256)) = false := by simpa using h1
      by_cases h2 : q.hash P.sha256 = p.hash P.sha256
      · simp [h1, h2]
      · simp [h1, h2, Ne.symm h2]

/-- C62: the counters of the directory writer: all bytes; and for the packets that were the first with their hash, their number and
bytes, manifests and others apart. -/
theorem C62_counters (h : w.putAll P R ps {} = (.ok (), s)) :
    s.byHash.map (·.2) = Spec.firsts P ps ∧
    s.totalBytesByPacket = (ps.map Spec.size).sum ∧
    s.totalBytesByHash = ((Spec.firsts P ps).map Spec.size).sum ∧
    s.cntManifest = ((Spec.firsts P ps).filter Spec.isManifest).length ∧
    s.bytesManifest = (((Spec.firsts P ps).filter Spec.isManifest).map Spec.size).sum ∧
    s.cntData = ((Spec.firsts P ps).filter (fun p => !Spec.isManifest p)).length ∧
    s.bytesData = (((Spec.firsts P ps).filter (fun p => !Spec.isManifest p)).map Spec.size).sum := by
  suffices hs : (∀ e ∈ s.byHash, e.2.hash P.sha256 = .ok e.1) ∧ _ from hs.2
  induction ps using reverse_induction generalizing s with
  | nil => cases h; exact ⟨by simp, rfl, rfl, rfl, rfl, rfl, rfl, rfl⟩
  | snoc ps p ih =>
    obtain ⟨m, h1, h2⟩ := DirWriter.putAll_snoc h
    obtain ⟨h0, i1, i2, i3, i4, i5, i6, i7⟩ := ih h1
    obtain ⟨b, hv, ls, hb, hh, hl, rfl⟩ := DirWriter.put_ok h2
    have hsize : Spec.size p = b.length := by simp [Spec.size, hb, Except.toOption]
    have hhas : m.has P hv = ps.any (fun q => decide (q.hash P.sha256 = p.hash P.sha256)) := by
      rw [Bool.eq_iff_iff, DirState.has, List.any_eq_true, List.any_eq_true]
      constructor
      · rintro ⟨e, he, hd⟩
        have he' := h0 e he
        have : hv = e.1 := (HashValue.dictEq_same_alg P hv e.1 (by rw [Packet.hash_alg hh, Packet.hash_alg he'])).mp hd
        refine ⟨e.2, firsts_mem (P := P) (by rw [← i1]; exact List.mem_map.mpr ⟨e, he, rfl⟩), ?_⟩
        simp [he', hh, this]
      · rintro ⟨q, hq, he⟩
        obtain ⟨x, hx, hxq⟩ := firsts_covers (P := P) hq
        rw [← i1] at hx
        obtain ⟨e, he', rfl⟩ := List.mem_map.mp hx
        refine ⟨e, he', (HashValue.dictEq_same_alg P hv e.1 (by rw [Packet.hash_alg hh, Packet.hash_alg (h0 e he')])).mpr ?_⟩
        have he : q.hash P.sha256 = p.hash P.sha256 := by simpa using he
        exact Except.ok.inj (hh.symm.trans (he.symm.trans (hxq.symm.trans (h0 e he'))))
    rw [firsts_snoc, ← hhas]
    unfold DirState.counted
    simp only
    by_cases hc : m.has P hv = true
    · simp only [hc, if_true]
      refine ⟨h0, i1, ?_, i3, i4, i5, i6, i7⟩
      simp [i2, hsize]
    · have hc : m.has P hv = false := by simpa using hc
      simp only [hc, Bool.false_eq_true, if_false]
      by_cases hm : p.body.payloadType = some PT_MANIFEST
      · have hm' : Spec.isManifest p = true := by simp [Spec.isManifest, hm]
        rw [if_pos hm]
        refine ⟨?_, ?_, ?_, ?_, ?_, ?_, ?_, ?_⟩
        · intro e he
          rcases List.mem_append.mp he with he | he
          · exact h0 e he
          · cases List.mem_singleton.mp he
            exact hh
        all_goals simp [i1, i2, i3, i4, i5, i6, i7, hsize, hm']
      · have hm' : Spec.isManifest p = false := by simp [Spec.isManifest, hm]
        rw [if_neg hm]
        refine ⟨?_, ?_, ?_, ?_, ?_, ?_, ?_, ?_⟩
        · intro e he
          rcases List.mem_append.mp he with he | he
          · exact h0 e he
          · cases List.mem_singleton.mp he
            exact hh
        all_goals simp [i1, i2, i3, i4, i5, i6, i7, hsize, hm']

/-- C62: what a nested writer wrote is never found by the reader. -/
theorem C62_nested_unreadable (hn : w.nested = true) (h : w.putAll P R ps {} = (.ok (), s)) (name : Option Name) (hv : HashValue) :
    s.dir.reader now R name (some hv) = .error .fileNotFoundError := by
  rw [reader_hash, dir_nested hn h]

/-- C62: a nested writer leaves the last packet with a hash two directories down, named by the first and the second two of the digits. -/
theorem C62_nested_path (hn : w.nested = true) (h : w.putAll P R ps {} = (.ok (), s)) (digest : Bytes) :
    s.dir.read [(hexText digest).take 2, ((hexText digest).drop 2).take 2, hexText digest] =
      (ps.reverse.find? (Spec.hasHash P (.sha256 digest))).bind (·.serialize.toOption) := dir_nested_files hn h digest

/-- C62: if the file name of the link cannot be made, `put` raises; the packet is in the directory and counted among all bytes, but
not under its hash. -/
theorem C62_failed_link {m : DirState} (hl : w.linkNamedObjects = true) {p : Packet} {b : Bytes} (hb : p.serialize = .ok b)
    {hv : HashValue} (hh : p.hash P.sha256 = .ok hv) {n : Name} (hname : p.body.name = some n) {l : Packet}
    (hc : w.createLink P n hv = .ok l) {e : PyErr} (he : linkName R n = .error e) :
    w.put P R p m = (.error e, { m with
      totalBytesByPacket := m.totalBytesByPacket + b.length
      dir := m.dir.write (toPath (hexText hv.value) w.nested) b }) := by
  unfold DirWriter.put
  have hlen : p.len = .ok b.length := by unfold Packet.len; rw [hb]; rfl
  rw [PyS.liftBind_run hlen, PyS.bind_of_ok (PyS.modify_run _ _), PyS.liftBind_run hh, PyS.liftBind_run hb,
    PyS.bind_of_ok (PyS.modify_run _ _)]
  refine PyS.bind_of_error ?_
  unfold DirWriter.writeLink
  rw [if_pos hl, hname]
  simp only
  rw [PyS.liftBind_run hc]
  refine PyS.bind_of_error ?_
  rw [he]
  rfl

/-! ## C63 -/

/-- C63: the reader does not compare hashes: whatever packet without a name is in the file named by a hash is returned for that
hash, and for every other hash value with the same digest. -/
theorem C63_no_hash_check (R : NameComponent → Text) (d : Directory) (b : Bytes) (q : Packet) (hq : Packet.deserialize now b = .ok q)
    (hn : q.body.name = none) (hv : HashValue) (name : Option Name) :
    (d.write [hexText hv.value] b).reader now R name (some hv) = .ok q := by
  rw [reader_hash, Directory.read_write, if_pos rfl]
  simp only [hq, ok_bind, hn]

end

/-! ## C64, C65 -/

/-- The times in the options are whole seconds, and an RSA signer does not send its key link. -/
structure Spec.WholeOptions (o : TreeOptions) : Prop where
  times : ∀ e, (o.rootExpiry = some e ∨ o.manifestExpiry = some e ∨ o.dataExpiry = some e) → ∃ n, n < 2 ^ 40 ∧ e = F64.ofNat n
  signer : ∀ key link t, o.signer = some (.rsa key link t) → link = none ∧ ∃ n, n < 2 ^ 40 ∧ t = F64.ofNat n

theorem asRead_plain' {p : Packet} (h : p.body.name.map Name.toBytes = p.body.name) : Spec.asRead p = p := by
  cases p with
  | mk header body alg payload =>
    cases body with
    | mk name pt pl ex fc =>
      unfold Spec.asRead
      simp only at h ⊢
      rw [show name.map (fun n => (⟨n.components.map (fun c => { c with isArray := false })⟩ : Name)) = name from h]

section

variable {E : Env} {L : FloatLog} {o : TreeOptions} {nc : Nat} {input : Stream} {root : Packet} {out : List Packet}
  {ks : Option Keystore}

theorem signPacket_alg {P : Prims} {sg : Option Signer} {body : ContentObject} {p : Packet} (h : signPacket P sg body = .ok p)
    {k : HashValue} {l : Option Link} {s : F64} (ha : p.alg = some (.rsaSha256 k l s)) : ∃ key, sg = some (.rsa key l s) := by
  unfold signPacket at h
  split at h
  · obtain ⟨_, _, rfl⟩ := createContentObject_inv h
    cases ha
  · rw [(crcSigned_inv h).2] at ha
    cases ha
  · rename_i key link time
    unfold rsaSignedPacket at h
    obtain ⟨a, h1, h⟩ := bind_eq_ok.mp h
    obtain ⟨_, _, h⟩ := bind_eq_ok.mp h
    obtain ⟨_, _, h⟩ := bind_eq_ok.mp h
    obtain ⟨_, _, h⟩ := bind_eq_ok.mp h
    obtain ⟨_, rfl⟩ := createSigned_inv h
    obtain ⟨rfl, _⟩ := construct_inv h1
    cases ha
    exact ⟨key, rfl⟩

theorem chunked_readsBack {sha : Bytes → Bytes} {i : SchemaImpl} {x : Option F64} {k : Nat} {bs : List Bytes} {ps : List Packet}
    {ms : List ChunkMetadata} (h : Spec.Chunked sha i x k bs ps ms) (hk : k + ms.length ≤ 2 ^ 64)
    (hx : ∀ e, x = some e → ∃ n, n < 2 ^ 40 ∧ e = F64.ofNat n) :
    ∀ p ∈ ps, Spec.ReadsBack p ∧ ∃ j : Nat, i.getName (some (j : Int)) = .ok p.body.name := by
  induction bs generalizing k ps ms with
  | nil => cases ps <;> cases ms <;> simp_all [Spec.Chunked]
  | cons b bs ih =>
    cases ps <;> cases ms <;> simp only [Spec.Chunked] at h
    rename_i p ps m ms
    obtain ⟨_, h2, h3, h4, h5, h6, h7, h8, h9, h10, h11, h12⟩ := h
    simp only [List.length_cons] at hk
    intro q hq
    rcases List.mem_cons.mp hq with rfl | hq
    · refine ⟨⟨.inl ⟨_, h9.2⟩, ⟨?_, ?_, ?_⟩, ?_⟩, k, h10⟩
      · intro e he
        exact hx e (h7.symm.trans he)
      · intro n hn
        rw [h11] at hn
        split at hn
        · cases hn
          omega
        · cases hn
      · intro k l s he; rw [h8] at he; cases he
      · intro k l s he; rw [h8] at he; cases he
    · exact ih h12 (by omega) q hq

theorem chunked_created {sha : Bytes → Bytes} {i : SchemaImpl} {x : Option F64} {k : Nat} {bs : List Bytes} {ps : List Packet}
    {ms : List ChunkMetadata} (h : Spec.Chunked sha i x k bs ps ms) : ∀ p ∈ ps, ∃ b, Packet.createContentObject b = .ok p := by
  induction bs generalizing k ps ms with
  | nil => cases ps <;> cases ms <;> simp_all [Spec.Chunked]
  | cons b bs ih =>
    cases ps <;> cases ms <;> simp only [Spec.Chunked] at h
    rename_i p ps m ms
    obtain ⟨_, h2, h3, h4, h5, h6, h7, h8, h9, h10, h11, h12⟩ := h
    intro q hq
    rcases List.mem_cons.mp hq with rfl | hq
    · exact ⟨_, h9.2⟩
    · exact ih h12 q hq

theorem chunked_at {sha : Bytes → Bytes} {i : SchemaImpl} {x : Option F64} {k : Nat} {bs : List Bytes} {ps : List Packet}
    {ms : List ChunkMetadata} (h : Spec.Chunked sha i x k bs ps ms) (j : Nat) (c : ChunkMetadata) (hc : ms[j]? = some c) :
    ∃ p, ps[j]? = some p ∧ p.hash sha = .ok c.hash ∧ i.getName (some ((k + j : Nat) : Int)) = .ok p.body.name ∧
      c.chunkNumber = k + j := by
  induction bs generalizing k ps ms j with
  | nil => cases ps <;> cases ms <;> simp_all [Spec.Chunked]
  | cons b bs ih =>
    cases ps <;> cases ms <;> simp only [Spec.Chunked] at h
    rename_i p ps m ms
    obtain ⟨_, h2, h3, h4, h5, h6, h7, h8, h9, h10, h11, h12⟩ := h
    cases j with
    | zero =>
      cases hc
      exact ⟨p, rfl, h4, h10, h2⟩
    | succ j =>
      obtain ⟨q, q1, q2, q3, q4⟩ := ih h12 j hc
      refine ⟨q, q1, q2, ?_, by omega⟩
      rw [show k + (j + 1) = k + 1 + j by omega]
      exact q3

theorem plainName_getName {i : SchemaImpl} (hp : i.schema.PlainName) (hu : i.usesNameId = false) {j : Nat} {nm : Option Name}
    (h : i.getName (some (j : Int)) = .ok nm) : nm.map Name.toBytes = nm := by
  rcases getName_inv h with ⟨_, _, _, rfl⟩ | ⟨_, _, hs⟩ | ⟨p, st, l, f, hs, _⟩
  · rfl
  · rw [hs] at hp
    exact hp
  · simp [SchemaImpl.usesNameId, hs] at hu

theorem root_readsBack (R : FileRun E L o nc input root out) (hn : Spec.PlainNames o) (hw : Spec.WholeOptions o) :
    Spec.ReadsBack root ∧ Spec.asRead root = root := by
  obtain ⟨m, hs, hb⟩ := R.root_signed
  refine ⟨⟨signPacket_created hs, ⟨?_, ?_, ?_⟩, ?_⟩, ?_⟩
  · intro e he
    rw [hb] at he
    exact hw.times e (.inl he)
  · intro n he; rw [hb] at he; cases he
  · intro k l s he
    obtain ⟨key, hk⟩ := signPacket_alg hs he
    exact (hw.signer _ _ _ hk).2
  · intro k l s he
    obtain ⟨key, hk⟩ := signPacket_alg hs he
    exact (hw.signer _ _ _ hk).1
  · refine asRead_plain ?_
    intro n he
    rw [hb] at he
    exact hn n (.inl he)

theorem manifest_readsBack (R : FileRun E L o nc input root out) (hw : Spec.WholeOptions o) {i : Info} (hi : i.Made R.env) :
    Spec.ReadsBack i.packet ∧ R.ctx.manifest.getName (some (i.id : Int)) = .ok i.packet.body.name := by
  obtain ⟨_, name, s, s', hname, hb⟩ := hi
  obtain ⟨_, _, w, _, _, _, hbody, hs, _⟩ := buildFromNode_inv hb
  have halg : i.packet.alg = none := by
    obtain ⟨_, _, he⟩ := createContentObject_inv hs
    rw [he]
  refine ⟨⟨.inl ⟨_, hs⟩, ⟨?_, ?_, ?_⟩, ?_⟩, ?_⟩
  · intro e he
    rw [hbody] at he
    exact hw.times e (.inr (.inl he))
  · intro n he; rw [hbody] at he; cases he
  · intro k l s he; rw [halg] at he; cases he
  · intro k l s he; rw [halg] at he; cases he
  · rw [hbody]
    exact hname

theorem all_readBack (R : FileRun E L o nc input root out) (hn : Spec.PlainNames o) (hw : Spec.WholeOptions o) :
    ∀ p ∈ out, Spec.ReadsBack p ∧ (o.schemaType ≠ .segmented → Spec.asRead p = p) := by
  obtain ⟨ids, level, i, kids, _, h2, _, _, _, _, _, hout⟩ := R.forest
  have hpl := nameCtx_plain hn R.ctx_ok
  have hu : o.schemaType ≠ .segmented → R.ctx.manifest.usesNameId = false ∧ R.ctx.data.usesNameId = false := by
    intro h
    have hi := nameCtx_inv R.ctx_ok
    have : R.ctx.manifest.usesNameId = false := by simpa using fun hu => h (hi.2.2.mp hu)
    exact ⟨this, hi.2.1.trans this⟩
  intro p hp
  rw [hout] at hp
  rcases List.mem_append.mp hp with hp | hp
  · rcases List.mem_append.mp hp with hp | hp
    · have hc := R.count
      simp only [MAX_CHUNK_ID] at hc
      obtain ⟨a, j, b⟩ := chunked_readsBack R.chunked (by omega) (fun e he => hw.times e (.inr (.inr he))) p hp
      exact ⟨a, fun h => asRead_plain' (plainName_getName hpl.2 (hu h).2 b)⟩
    · obtain ⟨j, hj, rfl⟩ := List.mem_map.mp hp
      obtain ⟨a, b⟩ := manifest_readsBack R hw (h2.made j hj)
      exact ⟨a, fun h => asRead_plain' (plainName_getName hpl.1 (hu h).1 b)⟩
  · rw [List.mem_singleton.mp hp]
    exact ⟨(root_readsBack R hn hw).1, fun _ => (root_readsBack R hn hw).2⟩

theorem reader_hashes {P : Prims} {now : F64} {R : NameComponent → Text} {d : Directory} {name : Option Name} {h : Option HashValue}
    {p : Packet} (hr : d.reader now R name h = .ok p) : ∃ hv, p.hash P.sha256 = .ok hv := by
  cases h with
  | none =>
    cases name with
    | none => cases hr
    | some n =>
      obtain ⟨e, he⟩ := C61_by_name_never_returns now R d n
      rw [he] at hr
      cases hr
  | some hv =>
    rw [reader_hash] at hr
    split at hr
    · cases hr
    · rename_i b _
      obtain ⟨q, hq, hr⟩ := bind_eq_ok.mp hr
      have : q = p := by
        split at hr
        · exact Except.ok.inj hr
        · split at hr
          · cases hr
          · split at hr
            · exact Except.ok.inj hr
            · cases hr
      subst this
      unfold Packet.deserialize at hq
      obtain ⟨_, _, hq⟩ := bind_eq_ok.mp hq
      obtain ⟨_, _, hq⟩ := bind_eq_ok.mp hq
      split at hq
      · cases hq
      · unfold mkPacket at hq
        split at hq
        · cases hq
        · obtain ⟨w, hw, hq⟩ := bind_eq_ok.mp hq
          cases Except.ok.inj hq
          exact Packet.hash_of_serialize hw

theorem returned_own {P : Prims} {p : Packet} {hv : HashValue} (hh : p.hash P.sha256 = .ok hv) (h : Spec.asRead p = p) :
    Spec.returned p p.body.name = .ok p := by
  unfold Spec.returned
  rw [h]
  cases hn : p.body.name with
  | none => rfl
  | some n =>
    obtain ⟨t, ht⟩ := Packet.hash_name hh hn
    simp [Name.pyEq_refl ht]

/-- C64: with hashed or prefix names, a file that was published to a directory is read back from it. -/
theorem C64_file_in_directory (now : F64) (F : NameComponent → Text) (hty : o.schemaType ≠ .segmented)
    (h : manifestTree E L o nc input = (.ok root, out)) (hr : Spec.Equipped E o nc ks) (hw : Spec.WholeOptions o)
    (hc : Spec.NoCollision E.prims out) {w : DirWriter} (hn : w.nested = false) {s : DirState}
    (hs : w.putAll E.prims F out {} = (.ok (), s)) :
    ∃ hv, root.hash E.prims.sha256 = .ok hv ∧ ∀ depth, out.length ≤ depth →
      Spec.ReturnedBy E o out (s.dir.reader now F) ks depth hv input.rest := by
  obtain ⟨R⟩ := manifestTree_ok h
  obtain ⟨ids, level, i, kids, h1, h2, h3, h4, h5, h6, h7, h8⟩ := R.forest
  have hu : R.ctx.manifest.usesNameId ≠ true := fun hu => hty ((nameCtx_inv R.ctx_ok).2.2.mp hu)
  have hall := all_readBack R hr.names hw
  have hserves : Serves E.prims out (s.dir.reader now F) := by
    refine ⟨?_, fun name h p hp => reader_hashes hp⟩
    intro p hp hv hh
    rw [C60_read_back now hn hs hc hp (hall p hp).1 hh, returned_own hh ((hall p hp).2 hty)]
  obtain ⟨hv, a, b⟩ := R.returnedBy hr hserves h2 h3 h6 h7 h8 (fun h => absurd h hu) (fun h => absurd h hu)
  exact ⟨hv, a, fun depth hd => b depth (.inl hd)⟩

/-- C64: without links, every packet of a build can be put. -/
theorem C64_written (F : NameComponent → Text) (h : manifestTree E L o nc input = (.ok root, out)) {w : DirWriter}
    (hl : w.linkNamedObjects = false) : ∃ s, w.putAll E.prims F out {} = (.ok (), s) := by
  obtain ⟨R⟩ := manifestTree_ok h
  obtain ⟨ids, level, i, kids, h1, h2, h3, h4, h5, h6, h7, h8⟩ := R.forest
  have hser : ∀ p ∈ out, ∃ b, p.serialize = .ok b := by
    have hcr : ∀ p ∈ out, (∃ b, Packet.createContentObject b = .ok p) ∨ (∃ b a v, Packet.createSigned b a v = .ok p) := by
      intro p hp
      rw [h8] at hp
      rcases List.mem_append.mp hp with hp | hp
      · rcases List.mem_append.mp hp with hp | hp
        · exact .inl (chunked_created R.chunked p hp)
        · obtain ⟨j, hj, rfl⟩ := List.mem_map.mp hp
          obtain ⟨_, name, s, s', hname, hb⟩ := h2.made j hj
          obtain ⟨_, _, w, _, _, _, _, hs, _⟩ := buildFromNode_inv hb
          exact .inl ⟨_, hs⟩
      · rw [List.mem_singleton.mp hp]
        obtain ⟨_, hs, _⟩ := R.root_signed
        exact signPacket_created hs
    intro p hp
    obtain ⟨_, _, _, _, b, hb, _⟩ := Packet.created (hcr p hp)
    exact ⟨b, hb⟩
  clear h h1 h2 h3 h4 h5 h6 h7 h8 R
  generalize ({} : DirState) = m
  induction out generalizing m with
  | nil => exact ⟨m, rfl⟩
  | cons p ps ih =>
    obtain ⟨b, hb⟩ := hser p (by simp)
    obtain ⟨hv, hh⟩ := Packet.hash_of_serialize (sha := E.prims.sha256) hb
    have hlen : p.len = .ok b.length := by unfold Packet.len; rw [hb]; rfl
    have : ∃ m', w.put E.prims F p m = (.ok (), m') := by
      unfold DirWriter.put
      rw [PyS.liftBind_run hlen, PyS.bind_of_ok (PyS.modify_run _ _), PyS.liftBind_run hh, PyS.liftBind_run hb,
        PyS.bind_of_ok (PyS.modify_run _ _)]
      unfold DirWriter.writeLink
      simp only [hl, Bool.false_eq_true, if_false]
      exact ⟨_, rfl⟩
    obtain ⟨m', hm⟩ := this
    obtain ⟨s, hs⟩ := ih (fun p hp => hser p (List.mem_cons_of_mem _ hp)) m'
    refine ⟨s, ?_⟩
    rw [DirWriter.putAll, PyS.bind_of_ok hm]
    exact hs

/-- Instead of the data objects of a publication the directory holds, in the files named by their hashes, other unsigned data objects
with the same names; `bs` are the payloads of these. -/
structure Spec.Forged (P : Prims) (out : List Packet) (d : Directory) (bs : List Bytes) : Prop where
  manifests : ∀ p ∈ out, p.body.payloadType = some PT_MANIFEST → ∃ hv w, p.hash P.sha256 = .ok hv ∧ p.serialize = .ok w ∧
    d.read [hexText hv.value] = some w
  data : List.Forall₂ (fun p b => ∃ q hv w, p.hash P.sha256 = .ok hv ∧ Spec.ReadsBack q ∧ q.serialize = .ok w ∧
    d.read [hexText hv.value] = some w ∧ q.alg = none ∧ q.body.name = p.body.name ∧ q.body.payloadType = some PT_DATA ∧
    q.body.payload = some b) (Spec.dataOf out) bs

/-- C63: with hashed or prefix names, a traversal of a directory whose data objects were replaced returns and writes the
replacements, though the manifests carry the hashes of the original objects. -/
theorem C63_forged_data (now : F64) (F : NameComponent → Text) (hty : o.schemaType ≠ .segmented)
    (h : manifestTree E L o nc input = (.ok root, out)) (hr : Spec.Equipped E o nc ks) (hw : Spec.WholeOptions o)
    {d : Directory} {bs : List Bytes} (hd : Spec.Forged E.prims out d bs) :
    ∃ hv, root.hash E.prims.sha256 = .ok hv ∧ ∀ depth, out.length ≤ depth →
      ∃ s, TravEnv.traverse ⟨E.prims, d.reader now F, ks⟩ depth o.name (some hv) (TState.new ks) = (.ok (), s) ∧ s.writes = bs := by
  obtain ⟨R⟩ := manifestTree_ok h
  obtain ⟨ids, level, i, kids, h1, h2, h3, h4, h5, h6, h7, h8⟩ := R.forest
  have hi := nameCtx_inv R.ctx_ok
  have hu : R.ctx.manifest.usesNameId ≠ true := fun hu => hty (hi.2.2.mp hu)
  have hu' : R.ctx.data.usesNameId = false := by rw [hi.2.1]; simpa using hu
  have hall := all_readBack R hr.names hw
  have hserved : R.ServedBy (d.reader now F) ks bs := by
    refine ⟨?_, ?_, fun name h p hp => reader_hashes hp⟩
    · intro p hp hm hv hh
      obtain ⟨hv', w, hh', hw', hread⟩ := hd.manifests p hp hm
      rw [hh] at hh'
      cases hh'
      rw [reader_found (hall p hp).1 hw' hread, returned_own hh ((hall p hp).2 hty)]
    · have hdata := hd.data
      rw [R.data] at hdata
      have hl := hdata.length_eq
      refine ⟨by rw [← hl]; exact (chunked_get R.chunked).2.1, ?_⟩
      intro j c hc
      obtain ⟨p, hp, hh, hn, hnum⟩ := chunked_at R.chunked j c hc
      rw [Nat.zero_add] at hn hnum
      have hj := (List.getElem?_eq_some_iff.mp hp).1
      obtain ⟨q, hv, w, q1, q2, q3, q4, q5, q6, q7, q8⟩ := List.Forall₂.get hdata hj (by omega)
      rw [List.get_eq_getElem] at q1 q6 q8
      rw [(List.getElem?_eq_some_iff.mp hp).2] at q1 q6
      rw [hh] at q1
      cases q1
      have hq : Spec.asRead q = q := by
        refine asRead_plain' ?_
        rw [q6]
        exact plainName_getName (nameCtx_plain hr.names R.ctx_ok).2 hu' hn
      have hown : Spec.returned q p.body.name = .ok q := by
        obtain ⟨hv', hh'⟩ := Packet.hash_of_serialize (sha := E.prims.sha256) q3
        rw [← q6]
        exact returned_own hh' hq
      exact ⟨hnum, q, _, _, hn, (reader_found (R := F) q2 q3 q4 _).trans hown, C24_unsigned _ _ _ q5, q7, q8, List.getElem?_eq_getElem _⟩
  obtain ⟨hv, a, b⟩ := R.writes hr hserved h2 h3 h6 h7 h8 (fun h => absurd h hu) (fun h => absurd h hu)
  refine ⟨hv, a, fun depth hdepth => ?_⟩
  obtain ⟨s, s1, s2, _⟩ := b depth (.inl hdepth)
  exact ⟨s, s1, s2⟩

/-- C65: with segmented names, nothing that was published to a directory is read back from it, whatever the number of chunks. -/
theorem C65_segmented_refused (now : F64) (F : NameComponent → Text) (hty : o.schemaType = .segmented)
    (h : manifestTree E L o nc input = (.ok root, out)) (hr : Spec.Equipped E o nc ks) (hw : Spec.WholeOptions o)
    (hc : Spec.NoCollision E.prims out) {w : DirWriter} (hn : w.nested = false) {s : DirState}
    (hs : w.putAll E.prims F out {} = (.ok (), s)) :
    ∃ hv, root.hash E.prims.sha256 = .ok hv ∧ ∀ depth, 1 ≤ depth → Spec.RefusedBy E o (s.dir.reader now F) ks depth hv := by
  obtain ⟨R⟩ := manifestTree_ok h
  obtain ⟨ids, level, i, kids, h1, h2, h3, h4, h5, h6, h7, h8⟩ := R.forest
  have hall := all_readBack R hr.names hw
  have hserved : ∀ hv, root.hash E.prims.sha256 = .ok hv → s.dir.reader now F o.name (some hv) = .ok root := by
    intro hv hh
    have hm : root ∈ out := by rw [h8]; simp
    obtain ⟨_, _, hb⟩ := R.root_signed
    have hb : root.body.name = o.name := by rw [hb]
    rw [C60_read_back now hn hs hc hm (hall _ hm).1 hh, ← hb, returned_own hh (root_readsBack R hr.names hw).2]
  refine R.stops hr hserved hty h2 h7 ?_
  intro p st t t0 l f _ hname _ _
  have hm : i.packet ∈ out := by rw [h8]; simp
  have hh := (h2.made i (by simp [Forest.written])).1
  rw [C60_read_back now hn hs hc hm (hall _ hm).1 hh]
  unfold Spec.returned Spec.asRead
  simp only [hname, Option.map_some]
  rw [pyEq_array (c := segComponent st 0) (by simp [segName]) rfl (by simp)]
  rfl

/-! ## The hypotheses can be met -/

/-- The published packets with hashes that differ. -/
def Toy.distinct (o : TreeOptions) (input : Stream) (n : Nat) : Bool :=
  match manifestTree Toy.env Spec.exactLog o 1 input with
  | (.ok _, out) => (Spec.dataOf out).length == n && decide ((out.map (fun p => (p.hash Toy.prims.sha256).toOption)).Nodup)
  | _ => false

theorem Toy.equipped {o : TreeOptions} {input : Stream} {n : Nat} {ks : Option Keystore} (hk : Spec.CanVerify Toy.prims ks o.signer)
    (hd : Spec.CanDecrypt Toy.prims ks o.encryptor) (hp : Spec.PlainNames o) (ht : Spec.TextLocators o)
    (h : Toy.distinct o input n = true) :
    ∃ root out, manifestTree Toy.env Spec.exactLog o 1 input = (.ok root, out) ∧ (Spec.dataOf out).length = n ∧
      Spec.Equipped Toy.env o 1 ks ∧ Spec.NoCollision Toy.prims out := by
  unfold Toy.distinct at h
  rcases hm : manifestTree Toy.env Spec.exactLog o 1 input with ⟨e | root, out⟩
  · rw [hm] at h
    cases h
  · rw [hm] at h
    simp only [Bool.and_eq_true, beq_iff_eq, decide_eq_true_eq] at h
    refine ⟨root, out, rfl, h.1, ⟨⟨Toy.aeadLaw, fun _ _ _ _ => rfl, ?_, hk, hd, hp, by decide⟩, ht⟩, ?_⟩
    · intro der d
      show (d == d) = true
      exact beq_self_eq_true d
    · intro p hp q hq hv h1 h2
      exact List.inj_on_of_nodup_map h.2 hp hq (congrArg Except.toOption (h1.trans h2.symm))

theorem Toy.whole (ty : SchemaType) (b : Bool) : Spec.WholeOptions (Toy.options ty b) := by
  refine ⟨?_, ?_⟩
  · intro e he
    rcases he with he | he | he <;> cases he
  · intro k l t h
    cases h

set_option maxRecDepth 100000 in
/-- C64: prefix names, encrypted. -/
example : ∃ root out s, manifestTree Toy.env Spec.exactLog (Toy.options .prefixed true) 1 (Toy.shortReads 32) = (.ok root, out) ∧
    (Spec.dataOf out).length = 8 ∧ Spec.Equipped Toy.env (Toy.options .prefixed true) 1 (some Toy.aesKeys) ∧
    Spec.WholeOptions (Toy.options .prefixed true) ∧ Spec.NoCollision Toy.prims out ∧
    DirWriter.putAll Toy.prims (fun _ => []) {} out {} = (.ok (), s) := by
  obtain ⟨root, out, h, hn, he, hc⟩ := Toy.equipped (o := Toy.options .prefixed true) (input := Toy.shortReads 32) (n := 8)
    trivial Toy.canDecrypt (Toy.plain ⟨rfl, rfl, rfl⟩) (Toy.text rfl rfl rfl) (by decide +kernel)
  obtain ⟨s, hs⟩ := C64_written (w := {}) (fun _ => []) h rfl
  exact ⟨root, out, s, h, hn, he, Toy.whole _ _, hc, hs⟩

set_option maxRecDepth 100000 in
/-- C65: segmented names, nine chunks: a file that a memory store would return (C50). -/
example : ∃ root out s, manifestTree Toy.env Spec.exactLog Toy.wideOptions 1 (Toy.shortReads 36) = (.ok root, out) ∧
    (Spec.dataOf out).length = 9 ∧ Spec.Equipped Toy.env Toy.wideOptions 1 (some Toy.aesKeys) ∧
    Spec.WholeOptions Toy.wideOptions ∧ Spec.NoCollision Toy.prims out ∧
    DirWriter.putAll Toy.prims (fun _ => []) {} out {} = (.ok (), s) := by
  obtain ⟨root, out, h, hn, he, hc⟩ := Toy.equipped (o := Toy.wideOptions) (input := Toy.shortReads 36) (n := 9)
    trivial Toy.canDecrypt (Toy.plain ⟨rfl, rfl, rfl⟩) (Toy.text rfl rfl rfl) (by decide +kernel)
  obtain ⟨s, hs⟩ := C64_written (w := {}) (fun _ => []) h rfl
  exact ⟨root, out, s, h, hn, he, ⟨(Toy.whole .segmented true).times, (Toy.whole .segmented true).signer⟩, hc, hs⟩

theorem Toy.readsBack {p : Packet} (h : Packet.createContentObject p.body = .ok p) (h1 : p.body.expiryTime = none)
    (h2 : p.body.finalChunkId = none) (h3 : p.alg = none) : Spec.ReadsBack p :=
  ⟨.inl ⟨_, h⟩, ⟨by simp [h1], by simp [h2], by simp [h3]⟩, by simp [h3]⟩

/-- A packet with a component held in an `array`. -/
def Toy.arrayNamed : Packet :=
  { Toy.named [97] [1, 2] with body := { (Toy.named [97] [1, 2]).body with name := some ⟨[⟨T_NAMESEGMENT, [97], true⟩]⟩ } }

set_option maxRecDepth 100000 in
/-- C60, C62: three packets with different hashes put to a directory, one named, one with a name in an `array`. -/
example : ∃ s, DirWriter.putAll Toy.prims (fun _ => []) {} [Toy.packet [1], Toy.named [98] [2], Toy.arrayNamed] {} = (.ok (), s) ∧
    Spec.NoCollision Toy.prims [Toy.packet [1], Toy.named [98] [2], Toy.arrayNamed] ∧
    ∀ p ∈ [Toy.packet [1], Toy.named [98] [2], Toy.arrayNamed], Spec.ReadsBack p := by
  obtain ⟨_, s, hs, _⟩ := Toy.ok_of_eval (f := fun s : DirState => s.dir.files.length) (n := 3)
    (x := DirWriter.putAll Toy.prims (fun _ => []) {} [Toy.packet [1], Toy.named [98] [2], Toy.arrayNamed] {}) (by decide +kernel)
  refine ⟨s, hs, ?_, ?_⟩
  · intro p hp q hq hv h1 h2
    have : ([Toy.packet [1], Toy.named [98] [2], Toy.arrayNamed].map (fun p => (p.hash Toy.prims.sha256).toOption)).Nodup := by
      decide +kernel
    exact List.inj_on_of_nodup_map this hp hq (congrArg Except.toOption (h1.trans h2.symm))
  · intro p hp
    simp only [List.mem_cons, List.not_mem_nil, or_false] at hp
    rcases hp with rfl | rfl | rfl
    · exact Toy.readsBack (by decide +kernel) rfl rfl rfl
    · exact Toy.readsBack (by decide +kernel) rfl rfl rfl
    · exact Toy.readsBack (by decide +kernel) rfl rfl rfl

set_option maxRecDepth 100000 in
/-- C61: a named packet put with links switched on. -/
example : ∃ s, DirWriter.put Toy.prims (fun _ => []) { linkNamedObjects := true } (Toy.named [98] [2]) {} = (.ok (), s) ∧
    Spec.ReadsBack (Toy.named [98] [2]) := by
  obtain ⟨_, s, hs, _⟩ := Toy.ok_of_eval (f := fun s : DirState => s.dir.files.length) (n := 2)
    (x := DirWriter.put Toy.prims (fun _ => []) { linkNamedObjects := true } (Toy.named [98] [2]) {}) (by decide +kernel)
  exact ⟨s, hs, Toy.readsBack (by decide +kernel) rfl rfl rfl⟩

set_option maxRecDepth 100000 in
/-- C62: the same packet put twice and a manifest, nested; the second time is counted only in the total. -/
example : ∃ s, DirWriter.putAll Toy.prims (fun _ => []) { nested := true } [Toy.packet [1], Toy.packet [1, 2], Toy.packet [1]] {} =
    (.ok (), s) ∧ s.cntData = 2 :=
  let ⟨_, s, hs, h⟩ := Toy.ok_of_eval (f := fun s : DirState => s.cntData) (n := 2)
    (x := DirWriter.putAll Toy.prims (fun _ => []) { nested := true } [Toy.packet [1], Toy.packet [1, 2], Toy.packet [1]] {})
    (by decide +kernel)
  ⟨s, hs, h⟩

theorem Toy.ok_of_isOk {α : Type} {x : Py α} (h : x.isOk = true) : ∃ a, x = .ok a := by
  cases x with
  | error e => cases h
  | ok a => exact ⟨a, rfl⟩

set_option maxRecDepth 100000 in
/-- C62: a name that is not UTF-8; the link packet can be made, its file name cannot. -/
example : ∃ b hv l e, (Toy.named [255] [2]).serialize = .ok b ∧ (Toy.named [255] [2]).hash Toy.prims.sha256 = .ok hv ∧
    (Toy.named [255] [2]).body.name = some ⟨[.nameSegment [255]]⟩ ∧
    DirWriter.createLink Toy.prims { linkNamedObjects := true } ⟨[.nameSegment [255]]⟩ hv = .ok l ∧
    linkName (fun _ => []) ⟨[.nameSegment [255]]⟩ = .error e := by
  obtain ⟨b, hb⟩ := Toy.ok_of_isOk (x := (Toy.named [255] [2]).serialize) (by decide +kernel)
  obtain ⟨hv, hh⟩ := Toy.ok_of_isOk (x := (Toy.named [255] [2]).hash Toy.prims.sha256) (by decide +kernel)
  obtain ⟨l, hl⟩ := Toy.ok_of_isOk (x := (Toy.named [255] [2]).hash Toy.prims.sha256 >>=
    DirWriter.createLink Toy.prims { linkNamedObjects := true } ⟨[.nameSegment [255]]⟩) (by decide +kernel)
  rw [hh, ok_bind] at hl
  exact ⟨b, hv, l, .valueError, hb, hh, rfl, hl, by decide +kernel⟩

/-- What replaces a data object: the same name, another payload. -/
def Toy.forgery (p : Packet) : Py Packet :=
  Packet.createContentObject { name := p.body.name, payloadType := some PT_DATA, payload := some [66, 65, 68] }

/-- The files: the manifests, and in the files of the data objects the replacements. -/
def Toy.forgedDir (out : List Packet) : Directory :=
  ⟨out.filterMap (fun p =>
    match p.hash Toy.prims.sha256, (if p.body.payloadType = some PT_DATA then Toy.forgery p >>= Packet.serialize else p.serialize) with
    | .ok hv, .ok w => some ([hexText hv.value], w)
    | _, _ => none)⟩

/-- All files are there. -/
def Toy.forges (out : List Packet) : Bool :=
  out.all (fun p =>
    match p.hash Toy.prims.sha256, (if p.body.payloadType = some PT_DATA then Toy.forgery p >>= Packet.serialize else p.serialize) with
    | .ok hv, .ok w => (Toy.forgedDir out).read [hexText hv.value] == some w
    | _, _ => false)

theorem Toy.forged {out : List Packet} (h : Toy.forges out = true) :
    Spec.Forged Toy.prims out (Toy.forgedDir out) ((Spec.dataOf out).map (fun _ => [66, 65, 68])) := by
  unfold Toy.forges at h
  rw [List.all_eq_true] at h
  refine ⟨?_, ?_⟩
  · intro p hp hm
    have hp := h p hp
    have hne : ¬ (some PT_MANIFEST = some PT_DATA) := by decide
    rw [hm, if_neg hne] at hp
    split at hp
    · next hv w h1 h2 => exact ⟨hv, w, h1, h2, by simpa using hp⟩
    · cases hp
  · rw [List.forall₂_map_right_iff, List.forall₂_same]
    intro p hp
    obtain ⟨hp, ht⟩ := List.mem_filter.mp hp
    have ht : p.body.payloadType = some PT_DATA := by simpa using ht
    have hp := h p hp
    rw [if_pos ht] at hp
    split at hp
    · next hv w h1 h2 =>
      obtain ⟨q, hq, hw⟩ := bind_eq_ok.mp h2
      obtain ⟨t, _, rfl⟩ := createContentObject_inv hq
      exact ⟨_, hv, w, h1, Toy.readsBack (p := ⟨_, _, none, none⟩) hq rfl rfl rfl, hw, by simpa using hp, rfl, rfl, rfl, rfl⟩
    · cases hp

set_option maxRecDepth 100000 in
/-- C63: eight chunks replaced. -/
example : ∃ root out, manifestTree Toy.env Spec.exactLog (Toy.options .prefixed true) 1 (Toy.shortReads 32) = (.ok root, out) ∧
    Spec.Equipped Toy.env (Toy.options .prefixed true) 1 (some Toy.aesKeys) ∧ Spec.WholeOptions (Toy.options .prefixed true) ∧
    Spec.Forged Toy.prims out (Toy.forgedDir out) (List.replicate 8 [66, 65, 68]) := by
  obtain ⟨root, out, h, hn, he, hc⟩ := Toy.equipped (o := Toy.options .prefixed true) (input := Toy.shortReads 32) (n := 8)
    trivial Toy.canDecrypt (Toy.plain ⟨rfl, rfl, rfl⟩) (Toy.text rfl rfl rfl) (by decide +kernel)
  have hf : Toy.forges (manifestTree Toy.env Spec.exactLog (Toy.options .prefixed true) 1 (Toy.shortReads 32)).2 = true := by
    decide +kernel
  rw [h] at hf
  have := Toy.forged hf
  rw [List.map_const', hn] at this
  exact ⟨root, out, h, he, Toy.whole _ _, this⟩

end

end Ccnpy
