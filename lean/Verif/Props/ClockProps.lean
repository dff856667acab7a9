import Verif.Props.MalleableProps
import Verif.Model.Apps
import Verif.Props.ValidateProps
import Verif.Props.DirectoryProps

/-!
# C117: what a reader looks at: not the clock, and no time of expiry
-/

namespace Ccnpy

/-! ## Specification -/

/-- Specification: a validation section with an RSA section in which there is no signature time (type 15). -/
def Spec.Untimed (t : Tlv) : Prop :=
  t.type = 3 ∧ ∃ m tail, t.value = Spec.enc ⟨4, Spec.encs m⟩ ++ tail ∧ (Spec.encs m).length ≤ 0xFFFF ∧
    ∀ x ∈ m, Spec.Short x ∧ x.type ≠ 15

/-- Specification: behind a header of `n` bytes and some TLVs comes such a section. -/
def Spec.HasUntimed (buf : Bytes) : Prop :=
  ∃ f l t rest, FixedHeader.deserialize buf = .ok f ∧ buf.drop f.headerLength = Spec.encs l ++ Spec.enc t ++ rest ∧
    (∀ x ∈ l, Spec.Short x) ∧ Spec.Short t ∧ Spec.Untimed t

/-- Specification: the two packets have the same content for a reader with these keys: their payloads are data or manifests, and the
same, and the signatures are both good or both bad in the same way. -/
structure Spec.SameContent (P : Prims) (ks : Option Keystore) (p q : Packet) : Prop where
  payloadType : p.body.payloadType = q.body.payloadType
  payload : p.body.payload = q.body.payload
  verdict : validatePacket P ks p = validatePacket P ks q
  encoded : (∃ b, p.hashInput = .ok b) ∧ ∃ b, q.hashInput = .ok b
  known : ∀ ty, p.body.payloadType = some ty → ty = 0 ∨ ty = 3

/-- Specification: two packets with the same payload of data or of a manifest that are not signed, or signed with a checksum; name, time
of expiry and everything else may be different. -/
inductive Spec.Restamped : Packet → Packet → Prop
  | unsigned (p q : Packet) : p.alg = none → q.alg = none → p.payload = none → q.payload = none → Restamped p q
  | checked (c c' : ContentObject) (p q : Packet) : crcSignedPacket c = .ok p → crcSignedPacket c' = .ok q → Restamped p q
  | same (p : Packet) : Restamped p p

/-- Specification: the readers answer every question alike. -/
def Spec.SameAnswers (P : Prims) (ks : Option Keystore) (r s : Reader) : Prop :=
  ∀ name h, (∃ e, r name h = .error e ∧ s name h = .error e) ∨
    ∃ p q, r name h = .ok p ∧ s name h = .ok q ∧ Spec.SameContent P ks p q

/-! ## The clock -/

theorem rsaLoop_time {v : Bytes} {s : Option HashValue × Option F64}
    (h : tlvLoop ValidationAlg.rsaStep v (none, none) = .ok s) (hs : s.2 = none) :
    ∃ m, v = Spec.encs m ∧ ∀ x ∈ m, Spec.Short x ∧ x.type ≠ 15 := by
  obtain ⟨l, hl, hb, hf⟩ := tlvLoop_inv _ _ _ _ h
  refine ⟨l, hb.trans (bytesAll_tiles l), ?_⟩
  have keep : ∀ (l : List Tlv) (a b : Option HashValue × Option F64), l.foldlM ValidationAlg.rsaStep a = .ok b → b.2 = none →
      a.2 = none ∧ ∀ x ∈ l, x.type ≠ 15 := by
    intro l
    induction l with
    | nil => intro a b h hb; cases h; exact ⟨hb, by simp⟩
    | cons x l ih =>
      intro a b h hb
      rw [List.foldlM_cons] at h
      obtain ⟨c, hc, h⟩ := bind_eq_ok.mp h
      obtain ⟨h1, h2⟩ := ih c b h hb
      unfold ValidationAlg.rsaStep at hc
      split at hc
      · rename_i hx
        obtain ⟨k, _, hc⟩ := bind_eq_ok.mp hc
        cases hc
        exact ⟨h1, by
          rintro y (_ | ⟨_, hy⟩)
          · rw [hx]; decide
          · exact h2 y hy⟩
      split at hc
      · obtain ⟨k, _, hc⟩ := bind_eq_ok.mp hc
        cases hc
        cases h1
      split at hc
      · cases hc
      split at hc
      · cases hc
      · rename_i hx _ _
        cases hc
        exact ⟨h1, by
          rintro y (_ | ⟨_, hy⟩)
          · exact hx
          · exact h2 y hy⟩
  exact fun x hx => ⟨hl x hx, (keep l _ _ hf hs).2 x hx⟩

theorem valAlg_clock (now now' : F64) (t : Tlv) (h : ¬ Spec.Untimed t) : ValidationAlg.parse now t = ValidationAlg.parse now' t := by
  unfold ValidationAlg.parse
  split
  · rfl
  rename_i ht
  cases hi : Tlv.deserialize t.value with
  | error e => simp only [error_bind]
  | ok inner =>
    simp only [ok_bind]
    split
    · rename_i hty
      unfold ValidationAlg.rsaParse
      rw [if_neg (by simpa using hty), if_neg (by simpa using hty)]
      cases hs : tlvLoop ValidationAlg.rsaStep inner.value (none, none) with
      | error e => simp only [error_bind]
      | ok s =>
        simp only [ok_bind]
        obtain ⟨k, o⟩ := s
        cases o with
        | some x => rfl
        | none =>
          exfalso
          obtain ⟨m, hm, hx⟩ := rsaLoop_time hs rfl
          obtain ⟨hv, hb⟩ := Tlv.deserialize_inv hi
          have hty' : inner.type = 4 := hty
          refine h ⟨Decidable.not_not.mp ht, m, t.value.drop inner.len, ?_, ?_, hx⟩
          · unfold Spec.enc
            rw [← hm, ← hty']
            exact hb
          · rw [← hm]; exact hv.2
    · rfl

theorem packetStep_clock (now now' : F64) (s : PacketState) (t : Tlv) (h : ¬ Spec.Untimed t) :
    Packet.parseStep now s t = Packet.parseStep now' s t := by
  unfold Packet.parseStep
  rw [valAlg_clock now now' t h]

theorem tlvLoop_clock (now now' : F64) (buf : Bytes) (s : PacketState)
    (h : ¬ ∃ l t rest, buf = Spec.encs l ++ Spec.enc t ++ rest ∧ (∀ x ∈ l, Spec.Short x) ∧ Spec.Short t ∧ Spec.Untimed t) :
    tlvLoop (Packet.parseStep now) buf s = tlvLoop (Packet.parseStep now') buf s := by
  induction hn : buf.length using Nat.strongRecOn generalizing buf s with
  | _ n ih =>
    by_cases hb : buf = []
    · subst hb; simp
    rw [tlvLoop_unfold _ _ _ hb, tlvLoop_unfold _ _ _ hb]
    cases ht : Tlv.deserialize buf with
    | error e => simp only [error_bind]
    | ok t =>
      simp only [ok_bind]
      obtain ⟨hv, hbuf⟩ := Tlv.deserialize_inv ht
      have hbuf' : buf = Spec.enc t ++ buf.drop t.len := hbuf
      rw [packetStep_clock now now' s t (fun hu => h ⟨[], t, buf.drop t.len, by simpa [Spec.encs] using hbuf', by simp, hv, hu⟩)]
      cases Packet.parseStep now' s t with
      | error e => simp only [error_bind]
      | ok s' =>
        simp only [ok_bind]
        have hlen : (buf.drop t.len).length < n := by
          have : 0 < buf.length := List.length_pos_iff.mpr hb
          rw [List.length_drop]
          simp only [Tlv.len]
          omega
        refine ih _ hlen (buf.drop t.len) s' ?_ rfl
        rintro ⟨l, t', rest, e, hl, hs, hu⟩
        refine h ⟨t :: l, t', rest, ?_, ?_, hs, hu⟩
        · rw [hbuf', e]
          simp [Spec.encs]
        · rintro x (_ | ⟨_, hx⟩)
          · exact hv
          · exact hl x hx

/-- **C117.**  Reading a packet depends on the time of reading only if it has an RSA section without signature time. -/
theorem C117_clock (now now' : F64) (buf : Bytes) (h : ¬ Spec.HasUntimed buf) :
    Packet.deserialize now buf = Packet.deserialize now' buf := by
  unfold Packet.deserialize
  cases hf : FixedHeader.deserialize buf with
  | error e => simp only [error_bind]
  | ok f =>
    simp only [ok_bind]
    rw [tlvLoop_clock now now' _ _ (by
      rintro ⟨l, t, rest, e, hl, hs, hu⟩
      exact h ⟨f, l, t, rest, hf, e, hl, hs, hu⟩)]

/-- C117: so for directories in which there is no such packet, a traversal, `manifest_reader` and `packet_reader` do the same at any
time. -/
theorem C117_directory (P : Prims) (now now' : F64) (R : NameComponent → Text) (d : Directory)
    (h : ∀ f ∈ d.files, ¬ Spec.HasUntimed f.2) :
    d.reader now R = d.reader now' R ∧
    (∀ ks depth uri hash, manifestReaderRead P now R d ks depth uri hash = manifestReaderRead P now' R d ks depth uri hash) ∧
    ∀ prettify path, packetReaderRead P now prettify d path = packetReaderRead P now' prettify d path := by
  have load : ∀ path, d.load now path = d.load now' path := by
    intro path
    unfold Directory.load
    cases hr : d.read path with
    | none => rfl
    | some b =>
      simp only
      refine C117_clock now now' b ?_
      unfold Directory.read at hr
      obtain ⟨f, hf, rfl⟩ := Option.map_eq_some_iff.mp hr
      exact h f (List.mem_of_find?_eq_some hf)
  have rd : d.reader now R = d.reader now' R := by
    funext name hash
    unfold Directory.reader Directory.getByName Directory.getByLink
    simp only [load]
  refine ⟨rd, ?_, ?_⟩
  · intro ks depth uri hash
    unfold manifestReaderRead
    rw [rd]
  · intro prettify path
    unfold packetReaderRead
    rw [load]

theorem encs_prefix {l m : List Tlv} {rest : Bytes} (hl : ∀ x ∈ l, Spec.Short x) (hm : ∀ x ∈ m, Spec.Short x)
    (e : Spec.encs m = Spec.encs l ++ rest) : ∃ k, m = l ++ k := by
  induction l generalizing m with
  | nil => exact ⟨m, rfl⟩
  | cons x l ih =>
    have hx := deserialize_enc (hl x (by simp)) (Spec.encs l ++ rest)
    have e1 : Spec.encs (x :: l) ++ rest = Spec.enc x ++ (Spec.encs l ++ rest) := by simp [Spec.encs]
    rw [e1] at e
    rw [← e] at hx
    cases m with
    | nil =>
      have := congrArg List.length e
      simp [Spec.encs, Spec.enc, be16] at this
    | cons y m =>
      have hy := deserialize_enc (hm y (by simp)) (Spec.encs m)
      have e2 : Spec.encs (y :: m) = Spec.enc y ++ Spec.encs m := by simp [Spec.encs]
      rw [e2] at hx e
      rw [hx] at hy
      cases Except.ok.inj hy
      obtain ⟨k, rfl⟩ := ih (fun z hz => hl z (by simp [hz])) (fun z hz => hm z (by simp [hz])) (List.append_cancel_left e)
      exact ⟨k, rfl⟩

theorem timestampTlv_type {ty : Nat} {x : F64} {t : Tlv} (h : timestampTlv ty x = .ok t) : t.type = ty ∧ t.Valid := by
  unfold timestampTlv at h
  split at h
  · cases h
  · unfold createUint64 at h
    obtain ⟨w, _, h⟩ := bind_eq_ok.mp h
    obtain ⟨rfl, hv⟩ := mkTlv_ok h
    exact ⟨rfl, hv⟩

theorem valAlg_timed {a : ValidationAlg} {t : Tlv} (h : a.tlv = .ok t) : ¬ Spec.Untimed t := by
  rintro ⟨_, m, tail, hv, hlen, hm⟩
  have sh : Spec.Short ⟨4, Spec.encs m⟩ := ⟨by show (4 : Nat) ≤ _; decide, hlen⟩
  have hd := deserialize_enc sh tail
  rw [← hv] at hd
  cases a with
  | crc32c =>
    obtain ⟨u, hu, h⟩ := bind_eq_ok.mp h
    obtain ⟨rfl, hu⟩ := mkTlv_ok hu
    obtain ⟨_, rfl, _⟩ := container_ok h
    have e : bytesAll [(⟨T_CRC32C, []⟩ : Tlv)] = (⟨T_CRC32C, []⟩ : Tlv).bytes ++ [] := by simp
    simp only at hd
    rw [e, Tlv.deserialize_bytes _ hu] at hd
    have := congrArg Tlv.type (Except.ok.inj hd)
    exact absurd (show (2 : Nat) = 4 from this) (by decide)
  | rsaSha256 k l s =>
    obtain ⟨x, hx, h⟩ := bind_eq_ok.mp h
    obtain ⟨y, hy, h⟩ := bind_eq_ok.mp h
    obtain ⟨z, hz, h⟩ := bind_eq_ok.mp h
    obtain ⟨u, hu, h⟩ := bind_eq_ok.mp h
    obtain ⟨hall, rfl, hu⟩ := container_ok hu
    obtain ⟨_, rfl, _⟩ := container_ok h
    have e : ∀ u : Tlv, bytesAll [u] = u.bytes ++ [] := fun u => by simp
    simp only at hd
    rw [e, Tlv.deserialize_bytes _ hu] at hd
    have hv2 := congrArg Tlv.value (Except.ok.inj hd)
    simp only at hv2
    have := tiles_unique (v := Spec.encs m) (l := [x] ++ y ++ [z]) (m := m) ⟨hall, hv2.symm.trans (bytesAll_tiles _)⟩
      ⟨fun x hx => (hm x hx).1, rfl⟩
    exact (hm z (by rw [← this]; simp)).2 (timestampTlv_type hz).1

/-- C117: what the package writes never has such a section: its own packets are read alike at any time. -/
theorem C117_own_packets (p : Packet) (w : Bytes) (hp : p.header.headerLength = 8) (h : p.serialize = .ok w) : ¬ Spec.HasUntimed w := by
  rintro ⟨f, l, t, rest, hf, e, hl, hs, hu⟩
  obtain ⟨hd, hhd, h⟩ := bind_eq_ok.mp h
  obtain ⟨b, hb, h⟩ := bind_eq_ok.mp h
  obtain ⟨a, ha, h⟩ := bind_eq_ok.mp h
  obtain ⟨v, hv, h⟩ := bind_eq_ok.mp h
  cases h
  obtain ⟨_, _, _, _, rfl⟩ := FixedHeader.serialize_ok hhd
  have hf8 : f.headerLength = 8 := by
    simp only [FixedHeader.deserialize, List.cons_append, hp] at hf
    split at hf
    · cases hf
    split at hf
    · cases hf
    split at hf
    · cases hf
    · cases hf
      rfl
  rw [hf8] at e
  obtain ⟨tb, htb, vb, rfl⟩ := wireOf_ok hb
  obtain ⟨la, hla, va, rfl⟩ := optWire_ok ha
  obtain ⟨lv, hlv, vv, rfl⟩ := optWire_ok hv
  have e' : Spec.encs ([tb] ++ la ++ lv) = Spec.encs (l ++ [t]) ++ rest := by
    have e1 : Spec.encs ([tb] ++ la ++ lv) = tb.bytes ++ bytesAll la ++ bytesAll lv := by
      rw [bytesAll_tiles, bytesAll_tiles]
      simp only [Spec.encs, List.flatMap_append, List.flatMap_cons, List.flatMap_nil, List.append_nil]
      rfl
    rw [e1]
    have e2 : Spec.encs (l ++ [t]) = Spec.encs l ++ Spec.enc t := by simp [Spec.encs]
    rw [e2, ← e]
    rfl
  obtain ⟨k, hk⟩ := encs_prefix (by
    intro x hx
    rcases List.mem_append.mp hx with hx | hx
    · exact hl x hx
    · rw [List.mem_singleton.mp hx]; exact hs) (by
    intro x hx
    rcases List.mem_append.mp hx with hx | hx
    · rcases List.mem_append.mp hx with hx | hx
      · rw [List.mem_singleton.mp hx]; exact vb
      · exact va x hx
    · exact vv x hx) e'
  have ht : t ∈ [tb] ++ la ++ lv := by rw [hk]; simp
  rcases List.mem_append.mp ht with hx | hx
  · rcases List.mem_append.mp hx with hx | hx
    · have := (ContentObject.tlv_ok htb).1
      rw [← List.mem_singleton.mp hx, hu.1] at this
      cases this
    · cases ha : p.alg with
      | none => rw [ha] at hla; cases hla; cases hx
      | some x =>
        rw [ha] at hla
        obtain ⟨u, hu', hla⟩ := bind_eq_ok.mp hla
        cases hla
        rw [List.mem_singleton.mp hx] at hu
        exact valAlg_timed hu' hu
  · cases ha : p.payload with
    | none => rw [ha] at hlv; cases hlv; cases hx
    | some x =>
      rw [ha] at hlv
      obtain ⟨u, hu', hlv⟩ := bind_eq_ok.mp hlv
      cases hlv
      obtain ⟨rfl, _⟩ := mkTlv_ok hu'
      have := hu.1
      rw [List.mem_singleton.mp hx] at this
      cases this

/-! ## What else does not matter -/

theorem then_congr {σ α β : Type} (x : PyS σ α) {f g : α → PyS σ β} (h : ∀ a, f a = g a) : (x >>= f) = (x >>= g) := by
  rw [funext h]

theorem liftOk_then {σ α β : Type} (a : α) (f : α → PyS σ β) : (PyS.lift (.ok a) >>= f) = f a := rfl

theorem fetch_same {P : Prims} {ks : Option Keystore} {r s : Reader} (h : Spec.SameAnswers P ks r s) (nc : NcCache)
    (v : HashIteratorValue) : (∃ e, TravEnv.fetch ⟨P, r, ks⟩ nc v = .error e ∧ TravEnv.fetch ⟨P, s, ks⟩ nc v = .error e) ∨
      ∃ p q, TravEnv.fetch ⟨P, r, ks⟩ nc v = .ok p ∧ TravEnv.fetch ⟨P, s, ks⟩ nc v = .ok q ∧ Spec.SameContent P ks p q := by
  unfold TravEnv.fetch
  cases nc.find v.ncId with
  | error e => exact .inl ⟨e, rfl, rfl⟩
  | ok i =>
    simp only [ok_bind]
    cases i.getName (v.segmentId.map Int.ofNat) with
    | error e => exact .inl ⟨e, rfl, rfl⟩
    | ok name => exact h name (some v.hashValue)

theorem visitLoop_same {P : Prims} {ks : Option Keystore} {r s : Reader} (h : Spec.SameAnswers P ks r s)
    {visit visit' : Packet → PyS TState Unit} (hv : ∀ p q, Spec.SameContent P ks p q → visit p = visit' q) (nc : NcCache)
    (fuel : Nat) (it : NodeIterator) :
    TravEnv.visitLoop ⟨P, r, ks⟩ visit nc fuel it = TravEnv.visitLoop ⟨P, s, ks⟩ visit' nc fuel it := by
  induction fuel generalizing it with
  | zero =>
    rw [TravEnv.visitLoop.eq_def, TravEnv.visitLoop.eq_def]
  | succ fuel ihf =>
    rw [TravEnv.visitLoop.eq_def, TravEnv.visitLoop.eq_def]
    refine then_congr _ (fun o => ?_)
    cases o with
    | none => rfl
    | some vi =>
      obtain ⟨v, it⟩ := vi
      simp only
      rcases fetch_same h nc v with ⟨e, h1, h2⟩ | ⟨p, q, h1, h2, h3⟩
      · rw [h1, h2]; rfl
      · rw [h1, h2, liftOk_then, liftOk_then, h3.verdict]
        refine then_congr _ (fun _ => ?_)
        rw [hv p q h3]
        exact then_congr _ (fun _ => ihf it)

theorem preorder_same {P : Prims} {ks : Option Keystore} {r s : Reader} (h : Spec.SameAnswers P ks r s) :
    ∀ depth nc p q, Spec.SameContent P ks p q →
      TravEnv.preorder ⟨P, r, ks⟩ depth nc p = TravEnv.preorder ⟨P, s, ks⟩ depth nc q := by
  intro depth
  induction depth with
  | zero => intros; rfl
  | succ depth ih =>
    intro nc p q hpq
    obtain ⟨⟨b, hb⟩, ⟨b', hb'⟩⟩ := hpq.encoded
    unfold TravEnv.preorder
    simp only [Packet.hash, hb, hb', ok_bind, pure_eq_ok]
    rw [liftOk_then, liftOk_then]
    refine then_congr (PyS.modify _) (fun _ => ?_)
    rw [← hpq.payloadType, ← hpq.payload]
    cases hty : p.body.payloadType with
    | none => rfl
    | some ty =>
      simp only
      rcases hpq.known ty hty with rfl | rfl
      · rw [if_neg (show ¬ (0 : Nat) = PT_MANIFEST by decide), if_neg (show ¬ (0 : Nat) = PT_MANIFEST by decide),
          if_pos (show (0 : Nat) = PT_DATA by decide), if_pos (show (0 : Nat) = PT_DATA by decide)]
      · rw [if_pos (show (3 : Nat) = PT_MANIFEST by decide), if_pos (show (3 : Nat) = PT_MANIFEST by decide)]
        have hm : Manifest.fromContentObject p.body = Manifest.fromContentObject q.body := by
          unfold Manifest.fromContentObject
          rw [hpq.payloadType, hpq.payload]
        rw [hm]
        refine then_congr _ (fun m => then_congr (TravEnv.decrypt ⟨P, r, ks⟩ m) (fun m' => ?_))
        cases m'.node with
        | encrypted _ => rfl
        | plain node =>
          refine then_congr _ (fun nc' => ?_)
          rw [visitLoop_same h (ih nc')]

/-- C117: of the packets a traversal looks only at payload type, payload and the verdict on the signature: not at the name, the time of
expiry, the final chunk id, the time of the signature, the header, or the hash. -/
theorem C117_looks (P : Prims) (ks : Option Keystore) (r s : Reader) (h : Spec.SameAnswers P ks r s) (depth : Nat)
    (name : Option Name) (hash : Option HashValue) :
    TravEnv.traverse ⟨P, r, ks⟩ depth name hash = TravEnv.traverse ⟨P, s, ks⟩ depth name hash := by
  unfold TravEnv.traverse
  rcases h name hash with ⟨e, h1, h2⟩ | ⟨p, q, h1, h2, h3⟩
  · simp only [h1, h2]; rfl
  · simp only [h1, h2]
    rw [liftOk_then, liftOk_then, h3.verdict, preorder_same h depth [] p q h3]

/-- C117: nothing expires: whatever times of expiry the packets carry (and names, chunk ids, headers), the traversal is the same. -/
theorem C117_expiry (P : Prims) (ks : Option Keystore) (r s : Reader)
    (h : ∀ name h, (∃ e, r name h = .error e ∧ s name h = .error e) ∨
      ∃ p q, r name h = .ok p ∧ s name h = .ok q ∧ Spec.Restamped p q ∧ p.body.payloadType = q.body.payloadType ∧
        p.body.payload = q.body.payload ∧ (p.body.payloadType = some 0 ∨ p.body.payloadType = some 3) ∧
        (∃ w, p.serialize = .ok w) ∧ ∃ w, q.serialize = .ok w)
    (depth : Nat) (name : Option Name) (hash : Option HashValue) :
    TravEnv.traverse ⟨P, r, ks⟩ depth name hash = TravEnv.traverse ⟨P, s, ks⟩ depth name hash := by
  refine C117_looks P ks r s (fun name hash => ?_) depth name hash
  rcases h name hash with h | ⟨p, q, h1, h2, h3, h4, h5, h6, ⟨w, hw⟩, w', hw'⟩
  · exact .inl h
  have enc : ∀ {p : Packet} {w : Bytes}, p.serialize = .ok w → ∃ b, p.hashInput = .ok b := by
    intro p w h
    obtain ⟨_, _, h⟩ := bind_eq_ok.mp h
    obtain ⟨b, hb, h⟩ := bind_eq_ok.mp h
    obtain ⟨a, ha, h⟩ := bind_eq_ok.mp h
    obtain ⟨v, hv, h⟩ := bind_eq_ok.mp h
    exact ⟨b ++ a ++ v, by simp [Packet.hashInput, hb, ha, hv]⟩
  refine .inr ⟨p, q, h1, h2, h4, h5, ?_, ⟨enc hw, enc hw'⟩, ?_⟩
  · cases h3 with
    | unsigned _ _ a b => rw [C24_unsigned P ks p a, C24_unsigned P ks q b]
    | checked c c' _ _ a b => rw [(C24_crc_signed_accepted P ks c p a).1, (C24_crc_signed_accepted P ks c' q b).1]
    | same => rfl
  · intro ty hty
    rcases h6 with h6 | h6 <;> rw [h6] at hty <;> cases hty <;> decide

/-! ## The hypotheses can be met -/

/-- A data packet that expired in 1970. -/
def Toy.expired : Packet :=
  ⟨FixedHeader.contentObject 0, { payloadType := some 0, payload := some [1, 2, 3], expiryTime := some ⟨1, 1⟩ }, none, none⟩

/-- The same data without time of expiry. -/
def Toy.unexpired : Packet :=
  ⟨FixedHeader.contentObject 0, { payloadType := some 0, payload := some [1, 2, 3] }, none, none⟩

example (P : Prims) (depth : Nat) (name : Option Name) (hash : Option HashValue) :
    TravEnv.traverse ⟨P, fun _ _ => .ok Toy.expired, none⟩ depth name hash =
    TravEnv.traverse ⟨P, fun _ _ => .ok Toy.unexpired, none⟩ depth name hash :=
  C117_expiry P none _ _ (fun _ _ => .inr ⟨Toy.expired, Toy.unexpired, rfl, rfl, .unsigned _ _ rfl rfl rfl rfl, rfl, rfl, .inl rfl,
    Toy.ok_of_isOk (by decide +kernel), Toy.ok_of_isOk (by decide +kernel)⟩) depth name hash

/-- The two are read in full. -/
example (P : Prims) (name : Option Name) (hash : Option HashValue) :
    (TravEnv.traverse ⟨P, fun _ _ => .ok Toy.unexpired, none⟩ 1 name hash (TState.new none)).2.writes = [[1, 2, 3]] := rfl

/-- An RSA section without time of signature. -/
example : Spec.Untimed ⟨3, Spec.enc ⟨4, Spec.encs [⟨9, [0, 1, 0, 1, 7]⟩]⟩⟩ :=
  ⟨rfl, [⟨9, [0, 1, 0, 1, 7]⟩], [], by simp, by decide, by simp [Spec.Short]⟩

end Ccnpy
