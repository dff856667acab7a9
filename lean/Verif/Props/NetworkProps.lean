import Verif.Model.Network
import Verif.Props.DirectoryProps

/-!
# C96: packets on a socket
-/

namespace Ccnpy

/-! ## Specification -/

/-- A byte string that says its own length: the third and fourth byte are its number of bytes (CCNx fixed header). -/
def Spec.SaysLength (w : Bytes) : Prop := ∃ b0 b1 b2 b3 tl, w = b0 :: b1 :: b2 :: b3 :: tl ∧ w.length = b2.toNat * 256 + b3.toNat

/-- A receiver that cuts the stream by the length fields gets these pieces. -/
inductive Spec.Cut : Bytes → List Bytes → Prop
  | nil : Spec.Cut [] []
  | cons {w rest : Bytes} {ws : List Bytes} (h : Spec.SaysLength w) (t : Spec.Cut rest ws) : Spec.Cut (w ++ rest) (w :: ws)

/-- The packets put before the socket was closed. -/
def Spec.beforeClose : List NetworkOp → List Packet
  | [] => []
  | .close :: _ => []
  | .put p :: ops => p :: Spec.beforeClose ops

/-- A packet whose header tells its length. -/
def Spec.Truthful (p : Packet) : Prop := ∃ w, p.serialize = .ok w ∧ p.header.packetLength = w.length

/-- Made by one of the two constructors. -/
def Spec.Created (p : Packet) : Prop := (∃ b, Packet.createContentObject b = .ok p) ∨ (∃ b a v, Packet.createSigned b a v = .ok p)

/-! ## Helpers -/

theorem Spec.Created.truthful {p : Packet} (h : Spec.Created p) : Spec.Truthful p := by
  obtain ⟨_, _, _, _, w, hw, h4⟩ := Packet.created h
  exact ⟨w, hw, h4⟩

theorem saysLength_iff {p : Packet} {w : Bytes} (hw : p.serialize = .ok w) :
    Spec.SaysLength w ↔ p.header.packetLength = w.length := by
  obtain ⟨hb, tb, la, lp, h1, _, _, _, _, _, _, he, _⟩ := Packet.serialize_ok hw
  obtain ⟨_, _, hl, _, rfl⟩ := FixedHeader.serialize_ok h1
  have e : (UInt8.ofNat (p.header.packetLength / 256)).toNat * 256 + (UInt8.ofNat (p.header.packetLength % 256)).toNat =
      p.header.packetLength := by
    simp only [UInt8.toNat_ofNat']
    omega
  constructor
  · rintro ⟨b0, b1, b2, b3, tl, h, hlen⟩
    rw [he] at h
    simp only [List.cons_append, List.cons.injEq] at h
    obtain ⟨_, _, rfl, rfl, _⟩ := h
    omega
  · intro h
    exact ⟨_, _, _, _, _, he, by omega⟩

/-- The length field is found in every extension. -/
theorem saysLength_prefix {v w x y : Bytes} (hv : Spec.SaysLength v) (hw : Spec.SaysLength w) (h : v ++ x = w ++ y) : v = w := by
  obtain ⟨a0, a1, a2, a3, tl, rfl, hl⟩ := hv
  obtain ⟨b0, b1, b2, b3, tl', rfl, hl'⟩ := hw
  have h' := h
  simp only [List.cons_append, List.cons.injEq] at h'
  obtain ⟨rfl, rfl, rfl, rfl, _⟩ := h'
  exact (List.append_inj h (by omega)).1

theorem saysLength_ne {w : Bytes} (h : Spec.SaysLength w) : w ≠ [] := by
  rintro rfl
  obtain ⟨_, _, _, _, _, h, _⟩ := h
  cases h

theorem cut_flatten {ws : List Bytes} : Spec.Cut ws.flatten ws ↔ ∀ w ∈ ws, Spec.SaysLength w := by
  induction ws with
  | nil => simp; exact .nil
  | cons w ws ih =>
    constructor
    · intro h
      generalize hs : (w :: ws).flatten = s at h
      cases h with
      | cons hw t =>
        rw [List.flatten_cons, List.append_cancel_left_eq] at hs
        subst hs
        intro v hv
        rcases List.mem_cons.mp hv with rfl | hv
        · exact hw
        · exact ih.mp t v hv
    · intro h
      rw [List.flatten_cons]
      exact .cons (h w (by simp)) (ih.mpr fun v hv => h v (by simp [hv]))

theorem cut_eq {s : Bytes} {ws : List Bytes} (h : Spec.Cut s ws) : s = ws.flatten := by
  induction h with
  | nil => rfl
  | cons _ _ ih => rw [List.flatten_cons, ← ih]

theorem cut_says {s : Bytes} {ws : List Bytes} (h : Spec.Cut s ws) : ∀ w ∈ ws, Spec.SaysLength w := by
  induction h with
  | nil => simp
  | cons hw _ ih => intro v hv; rcases List.mem_cons.mp hv with rfl | hv; exacts [hw, ih v hv]

/-- What is cut from a part of the stream are the first pieces of the stream. -/
theorem cut_prefix {s r : Bytes} {vs ws : List Bytes} (hv : Spec.Cut s vs) (hw : Spec.Cut (s ++ r) ws) : vs <+: ws := by
  generalize ht : s ++ r = t at hw
  induction hv generalizing ws t with
  | nil => exact List.nil_prefix
  | @cons v rest vs h1 _ ih =>
    cases hw with
    | nil =>
      simp only [List.append_eq_nil_iff] at ht
      exact absurd ht.1.1 (saysLength_ne h1)
    | @cons w rest' ws h2 t2 =>
      rw [List.append_assoc] at ht
      obtain rfl := saysLength_prefix h1 h2 ht
      rw [List.append_cancel_left_eq] at ht
      exact List.cons_prefix_cons.mpr ⟨rfl, ih _ ht t2⟩

/-- The first cut is forced. -/
theorem cut_step {s : Bytes} {ws : List Bytes} (h : Spec.Cut s ws) : s = [] ∨ ∃ b0 b1 b2 b3 tl vs, s = b0 :: b1 :: b2 :: b3 :: tl ∧
    b2.toNat * 256 + b3.toNat ≤ s.length ∧ Spec.Cut (s.drop (b2.toNat * 256 + b3.toNat)) vs := by
  cases h with
  | nil => exact .inl rfl
  | @cons w rest ws hw t =>
    obtain ⟨b0, b1, b2, b3, tl, rfl, hl⟩ := hw
    refine .inr ⟨b0, b1, b2, b3, tl ++ rest, ws, rfl, ?_, ?_⟩
    · rw [← hl, List.length_append]; omega
    · rw [← hl, List.drop_left]; exact t

theorem network_closed (ops : List NetworkOp) (s : NetworkWriter) (h : s.isOpen = false) :
    ops.foldl NetworkWriter.step s = s := by
  induction ops with
  | nil => rfl
  | cons op ops ih =>
    rw [List.foldl_cons]
    have : NetworkWriter.step s op = s := by
      cases op with
      | put p => simp [NetworkWriter.step, NetworkWriter.put, h]
      | close => cases s; simp at h; subst h; rfl
    rw [this, ih]

theorem network_run (ops : List NetworkOp) (s : NetworkWriter) (h : s.isOpen = true) :
    (ops.foldl NetworkWriter.step s).sent =
      s.sent ++ ((Spec.beforeClose ops).filterMap (fun p => p.serialize.toOption)).flatten := by
  induction ops generalizing s with
  | nil => simp [Spec.beforeClose]
  | cons op ops ih =>
    rw [List.foldl_cons]
    cases op with
    | close =>
      rw [network_closed _ _ (by rfl)]
      simp [NetworkWriter.step, NetworkWriter.close, Spec.beforeClose]
    | put p =>
      have hs : NetworkWriter.step s (.put p) = { s with sent := s.sent ++ (p.serialize.toOption).getD [] } := by
        cases s
        simp only at h
        cases hp : p.serialize <;> simp [NetworkWriter.step, NetworkWriter.put, h, hp, Except.toOption]
      rw [ih _ (by rw [hs]; exact h), hs, Spec.beforeClose]
      cases hp : p.serialize <;> simp [Except.toOption, hp]

/-! ## Theorems -/

/-- C96 (what is sent): after any calls, the stream is the encodings of the packets put before the first `close`, in order, leaving out
packets that cannot be encoded (their `put` raises); after `close` nothing is sent. -/
theorem C96_stream (ops : List NetworkOp) :
    (ops.foldl NetworkWriter.step {}).sent = ((Spec.beforeClose ops).filterMap (fun p => p.serialize.toOption)).flatten := by
  have := network_run ops {} rfl
  simpa using this

/-- C96 (what `put` answers): after any calls, `put` raises AttributeError if one of them was `close`; otherwise it raises just what encoding
the packet raises. -/
theorem C96_put (ops : List NetworkOp) (p : Packet) :
    (NetworkOp.close ∈ ops → (NetworkWriter.put p (ops.foldl NetworkWriter.step {})).1 = .error .attributeError) ∧
    (NetworkOp.close ∉ ops → (NetworkWriter.put p (ops.foldl NetworkWriter.step {})).1 = p.serialize.map (fun _ => ())) := by
  have hopen : ∀ (ops : List NetworkOp) (s : NetworkWriter),
      (ops.foldl NetworkWriter.step s).isOpen = true ↔ s.isOpen = true ∧ NetworkOp.close ∉ ops := by
    intro ops
    induction ops with
    | nil => simp
    | cons op ops ih =>
      intro s
      rw [List.foldl_cons, ih]
      cases op with
      | close => simp [NetworkWriter.step, NetworkWriter.close]
      | put q =>
        have : (NetworkWriter.step s (.put q)).isOpen = s.isOpen := by
          simp only [NetworkWriter.step, NetworkWriter.put]
          split
          · split <;> rfl
          · rfl
        simp [this]
  constructor
  · intro h
    have := (hopen ops {}).not.mpr (fun hn => hn.2 h)
    simp [NetworkWriter.put, this]
  · intro h
    have := (hopen ops {}).mpr ⟨rfl, h⟩
    simp only [NetworkWriter.put, this, if_true]
    cases p.serialize <;> rfl

/-- C96 (when it can be cut): cutting the stream by the length fields gives back the encodings of the packets exactly if every header
tells the length of its packet. -/
theorem C96_cut_iff (ps : List Packet) (ws : List Bytes) (h : ps.mapM Packet.serialize = .ok ws) :
    Spec.Cut ws.flatten ws ↔ ∀ p ∈ ps, Spec.Truthful p := by
  rw [cut_flatten]
  induction ps generalizing ws with
  | nil => rw [List.mapM_nil] at h; cases h; simp
  | cons p ps ih =>
    rw [List.mapM_cons] at h
    obtain ⟨w, hw, h⟩ := bind_eq_ok.mp h
    obtain ⟨vs, hvs, h⟩ := bind_eq_ok.mp h
    cases h
    have := ih vs hvs
    simp only [List.mem_cons, forall_eq_or_imp, this]
    refine and_congr_left fun _ => (saysLength_iff hw).trans ⟨fun e => ⟨w, hw, e⟩, ?_⟩
    rintro ⟨w', hw', e⟩
    rw [hw] at hw'
    cases hw'
    exact e

/-- C96 (no ambiguity): a stream can be cut in at most one way, and what has been cut from the part that has arrived so far are the
first pieces of the whole: a packet that has arrived in part is never taken for a whole one. -/
theorem C96_unambiguous {s r : Bytes} {vs ws : List Bytes} (hv : Spec.Cut s vs) (hw : Spec.Cut (s ++ r) ws) :
    vs <+: ws ∧ (r = [] → vs = ws) := by
  refine ⟨cut_prefix hv hw, ?_⟩
  rintro rfl
  rw [List.append_nil] at hw
  obtain ⟨us, rfl⟩ := cut_prefix hv (by rw [List.append_nil]; exact hw)
  have h1 := cut_eq hv
  have h2 := cut_eq hw
  rw [List.flatten_append, ← h1] at h2
  have : us.flatten = [] := by
    have := congrArg List.length h2
    simp only [List.length_append] at this
    exact List.length_eq_zero_iff.mp (by omega)
  cases us with
  | nil => simp
  | cons u us =>
    rw [List.flatten_cons, List.append_eq_nil_iff] at this
    exact absurd this.1 (saysLength_ne (cut_says hw u (by simp)))

/-- C96: packets made by the constructors are separated by their length fields; if two sequences of them give the same stream, they have
the same encodings. -/
theorem C96_created {ps qs : List Packet} (hp : ∀ p ∈ ps, Spec.Created p) (hq : ∀ q ∈ qs, Spec.Created q) :
    ∃ ws vs, ps.mapM Packet.serialize = .ok ws ∧ qs.mapM Packet.serialize = .ok vs ∧
      (NetworkWriter.putAll ps {} = (.ok (), ⟨true, ws.flatten⟩)) ∧ Spec.Cut ws.flatten ws ∧
      (ws.flatten = vs.flatten ↔ ws = vs) := by
  have key : ∀ ps : List Packet, (∀ p ∈ ps, Spec.Created p) → ∃ ws, ps.mapM Packet.serialize = .ok ws ∧ Spec.Cut ws.flatten ws ∧
      ∀ b, NetworkWriter.putAll ps ⟨true, b⟩ = (.ok (), ⟨true, b ++ ws.flatten⟩) := by
    intro ps
    induction ps with
    | nil => intro _; exact ⟨[], rfl, .nil, fun b => by simp; rfl⟩
    | cons p ps ih =>
      intro h
      obtain ⟨ws, h1, h2, h3⟩ := ih fun q hq => h q (by simp [hq])
      obtain ⟨w, hw, hl⟩ := (h p (by simp)).truthful
      refine ⟨w :: ws, by rw [List.mapM_cons, hw, ok_bind, h1]; rfl, .cons ((saysLength_iff hw).mpr hl) h2, fun b => ?_⟩
      unfold NetworkWriter.putAll
      have hput : NetworkWriter.put p ⟨true, b⟩ = (.ok (), ⟨true, b ++ w⟩) := by
        simp [NetworkWriter.put, hw]
      rw [PyS.bind_of_ok hput, h3]
      simp
  obtain ⟨ws, h1, h2, h3⟩ := key ps hp
  obtain ⟨vs, h4, h5, h6⟩ := key qs hq
  refine ⟨ws, vs, h1, h4, by simpa using h3 [], h2, fun e => ?_, fun e => by rw [e]⟩
  rw [← e] at h5
  exact (C96_unambiguous h2 (r := []) (by rw [List.append_nil]; exact h5)).2 rfl

/-- C96 (the package's own parser does not stop at the end of a packet): given a packet followed by another packet, or by anything
beginning like one, `Packet.deserialize` raises. -/
theorem C96_parser_needs_cut (now : F64) {p q : Packet} {wp wq : Bytes} (hp : Spec.Created p) (hv : q.header.ver = 1)
    (hwp : p.serialize = .ok wp) (hwq : q.serialize = .ok wq) (rest : Bytes) :
    ∃ e, Packet.deserialize now (wp ++ wq ++ rest) = .error e := by
  cases hd : Packet.deserialize now (wp ++ wq ++ rest) with
  | error e => exact ⟨e, rfl⟩
  | ok r =>
    exfalso
    obtain ⟨_, _, _, hh, w', hw', hlen⟩ := Packet.created hp
    rw [hwp] at hw'
    cases hw'
    obtain ⟨-, -, -, -, l, hl, hb, hty, -⟩ := C20_packet_structure now _ r hd
    obtain ⟨hb1, tb, la, lp, h1, h2, h3, h4, h5, h6, h7, he, _⟩ := Packet.serialize_ok hwp
    have hrh : r.header.headerLength = 8 := by
      obtain ⟨hdr, hhd, hd⟩ := bind_eq_ok.mp hd
      obtain ⟨s, hs, hd⟩ := bind_eq_ok.mp hd
      cases hbody : s.body with
      | none => rw [hbody] at hd; cases hd
      | some body =>
        rw [hbody] at hd
        simp only [mkPacket] at hd
        split at hd
        · cases hd
        obtain ⟨w, hw, hd⟩ := bind_eq_ok.mp hd
        cases hd
        have hser := (C12_header_accepts_only _ _ hhd).2.2.2.2.2
        obtain ⟨_, _, _, hhl, hbytes⟩ := FixedHeader.serialize_ok hser
        obtain ⟨_, _, _, hpl, rfl⟩ := FixedHeader.serialize_ok h1
        rw [he] at hbytes
        simp only [List.cons_append, List.take_succ_cons, List.cons.injEq] at hbytes
        obtain ⟨_, _, _, _, _, _, _, e, _⟩ := hbytes
        have e' := congrArg UInt8.toNat e
        simp only [UInt8.toNat_ofNat'] at e'
        show hdr.headerLength = 8
        omega
    obtain ⟨_, _, _, _, rfl⟩ := FixedHeader.serialize_ok h1
    obtain ⟨hb2, tb2, la2, lp2, g1, _, _, _, _, _, _, ge, _⟩ := Packet.serialize_ok hwq
    obtain ⟨_, gt, _, _, rfl⟩ := FixedHeader.serialize_ok g1
    rw [hrh, he] at hb
    have hsplit : bytesAll ([tb] ++ la ++ lp) ++ (wq ++ rest) = bytesAll l := by
      rw [← hb]
      simp
    have hval : ∀ t ∈ [tb] ++ la ++ lp, t.Valid := by
      intro t ht
      rcases List.mem_append.mp ht with ht | ht
      · rcases List.mem_append.mp ht with ht | ht
        · rw [List.mem_singleton.mp ht]; exact h3
        · exact h5 t ht
      · exact h7 t ht
    generalize [tb] ++ la ++ lp = m at hsplit hval
    clear hb h2 h4 h6 h5 h7 he
    have hq : ∃ b1 tl, wq ++ rest = 1 :: b1 :: tl := by
      rw [ge, hv]
      exact ⟨_, _, rfl⟩
    obtain ⟨b1, tl, hq⟩ := hq
    rw [hq] at hsplit
    induction m generalizing l with
    | nil =>
      cases l with
      | nil => simp at hsplit
      | cons t l =>
        have ht := hty t (by simp)
        rw [bytesAll_cons, bytesAll_nil, List.nil_append] at hsplit
        unfold Tlv.bytes be16 at hsplit
        simp only [List.cons_append, List.nil_append, List.cons.injEq] at hsplit
        have e' := congrArg UInt8.toNat hsplit.1
        simp only [UInt8.toNat_ofNat'] at e'
        have hb : (1 : UInt8).toNat = 1 := rfl
        simp only [List.mem_cons, List.not_mem_nil, or_false] at ht
        omega
    | cons t m ih =>
      cases l with
      | nil =>
        have := congrArg List.length hsplit
        simp at this
      | cons u l =>
        have hu := hl u (by simp)
        have htv := hval t (by simp)
        rw [bytesAll_cons, bytesAll_cons, List.append_assoc] at hsplit
        have : t = u := by
          have a := Tlv.deserialize_bytes t htv (bytesAll m ++ 1 :: b1 :: tl)
          have b := Tlv.deserialize_bytes u hu (bytesAll l)
          rw [hsplit, b] at a
          exact (Except.ok.inj a).symm
        subst this
        rw [List.append_cancel_left_eq] at hsplit
        exact ih l (fun x hx => hl x (by simp [hx])) (fun x hx => hty x (by simp [hx])) (fun x hx => hval x (by simp [hx])) hsplit

variable {E : Env} {L : FloatLog} {o : TreeOptions} {nc : Nat} {input : Stream} {root : Packet} {out : List Packet}

/-- C96 (publishing by TCP): the packets of a tree with hashed or prefix names are all sent, a receiver that cuts the stream by the length
fields and parses the pieces gets exactly the packets of the tree, and a memory reader made of them returns the file. -/
theorem C96_file {ks : Option Keystore} (now : F64) (hty : o.schemaType ≠ .segmented)
    (h : manifestTree E L o nc input = (.ok root, out)) (hr : Spec.Equipped E o nc ks) (hw : Spec.WholeOptions o)
    (hd : Spec.NoCollision E.prims out) :
    ∃ ws, NetworkWriter.putAll out {} = (.ok (), ⟨true, ws.flatten⟩) ∧ Spec.Cut ws.flatten ws ∧
      ∀ vs, Spec.Cut ws.flatten vs → ∃ got store hv, vs.mapM (Packet.deserialize now) = .ok got ∧ got = out ∧
        MemoryStore.ofPackets E.prims got = .ok store ∧ root.hash E.prims.sha256 = .ok hv ∧
        ∀ depth, out.length ≤ depth → Spec.Returned E o out store ks depth hv input.rest := by
  obtain ⟨R⟩ := manifestTree_ok h
  have hall := all_readBack R hr.names hw
  obtain ⟨ws, _, h1, _, h2, h3, _⟩ := C96_created (fun p hp => (hall p hp).1.created) (qs := []) (by simp)
  refine ⟨ws, h2, h3, fun vs hvs => ?_⟩
  obtain rfl := (C96_unambiguous h3 (r := []) (by rw [List.append_nil]; exact hvs)).2 rfl
  have hparse : ∀ (out : List Packet) (ws : List Bytes), out.mapM Packet.serialize = .ok ws →
      (∀ p ∈ out, Spec.ReadsBack p ∧ Spec.asRead p = p) → ws.mapM (Packet.deserialize now) = .ok out := by
    intro out
    induction out with
    | nil => intro ws h _; rw [List.mapM_nil] at h; cases h; rfl
    | cons p ps ih =>
      intro ws h hall
      rw [List.mapM_cons] at h
      obtain ⟨w, hw, h⟩ := bind_eq_ok.mp h
      obtain ⟨vs, hvs, h⟩ := bind_eq_ok.mp h
      cases h
      obtain ⟨a, b⟩ := hall p (by simp)
      rw [List.mapM_cons, a.load now hw, b, ok_bind, ih vs hvs fun q hq => hall q (by simp [hq])]
      rfl
  have hstore : ∀ (ps : List Packet) (s : MemoryStore), (∀ p ∈ ps, Spec.Created p) →
      ∃ store, ps.foldlM (fun s p => do
        let h ← p.hash E.prims.sha256
        return { s with byHash := (h, p) :: s.byHash }) s = .ok store := by
    intro ps
    induction ps with
    | nil => exact fun s _ => ⟨s, rfl⟩
    | cons p ps ih =>
      intro s hc
      obtain ⟨w, hw, _⟩ := (hc p (by simp)).truthful
      obtain ⟨hv, hh⟩ := Packet.hash_of_serialize (sha := E.prims.sha256) hw
      rw [List.foldlM_cons, hh]
      exact ih _ fun q hq => hc q (by simp [hq])
  obtain ⟨store, hs⟩ := hstore out { packets := out } fun p hp => (hall p hp).1.created
  obtain ⟨hv, hh, hret⟩ := C49_file_returned hty h ⟨hr, .inr hs, hd⟩
  exact ⟨out, store, hv, hparse out ws h1 fun p hp => ⟨(hall p hp).1, (hall p hp).2 hty⟩, rfl, hs, hh, hret⟩

/-- What comes back from its bytes has the same hash. -/
theorem asRead_hash {p : Packet} (h : Spec.ReadsBack p) (sha : Bytes → Bytes) : (Spec.asRead p).hash sha = p.hash sha := by
  obtain ⟨w, hw, _⟩ := C18_packet_length p h.created
  obtain ⟨p', h1, _, _, _, _, _, _, _, _, _, h2⟩ := C17_packet_roundtrip (F64.ofNat 0) p h.created h.whole h.nolink w hw
  cases Except.ok.inj (h1.symm.trans (h.load (F64.ofNat 0) hw))
  exact h2 sha

theorem parse_all (now : F64) : ∀ (out : List Packet) (ws : List Bytes), out.mapM Packet.serialize = .ok ws →
    (∀ p ∈ out, Spec.ReadsBack p) → ws.mapM (Packet.deserialize now) = .ok (out.map Spec.asRead) := by
  intro out
  induction out with
  | nil => intro ws h _; rw [List.mapM_nil] at h; cases h; rfl
  | cons p ps ih =>
    intro ws h hall
    rw [List.mapM_cons] at h
    obtain ⟨w, hw, h⟩ := bind_eq_ok.mp h
    obtain ⟨vs, hvs, h⟩ := bind_eq_ok.mp h
    cases h
    rw [List.mapM_cons, (hall p (by simp)).load now hw, ok_bind, ih vs hvs fun q hq => hall q (by simp [hq])]
    rfl

/-- A memory reader made of packets that came back from their bytes finds them by hash. -/
theorem read_store {P : Prims} {out : List Packet} (hall : ∀ p ∈ out, Spec.ReadsBack p) (hc : Spec.NoCollision P out) :
    ∃ store, MemoryStore.ofPackets P (out.map Spec.asRead) = .ok store ∧
      ∀ p ∈ out, ∀ hv, p.hash P.sha256 = .ok hv → store.find P hv = some (Spec.asRead p) ∧
        store.reader P (Spec.asRead p).body.name (some hv) = .ok (Spec.asRead p) := by
  have hstore : ∀ (ps : List Packet) (s : MemoryStore), (∀ p ∈ ps, Spec.ReadsBack p) →
      ∃ store, (ps.map Spec.asRead).foldlM (fun s p => do
        let h ← p.hash P.sha256
        return { s with byHash := (h, p) :: s.byHash }) s = .ok store := by
    intro ps
    induction ps with
    | nil => exact fun s _ => ⟨s, rfl⟩
    | cons p ps ih =>
      intro s hr
      obtain ⟨w, hw, _⟩ := C18_packet_length p (hr p (by simp)).created
      obtain ⟨hv, hh⟩ := Packet.hash_of_serialize (sha := P.sha256) hw
      rw [List.map_cons, List.foldlM_cons, asRead_hash (hr p (by simp)), hh]
      exact ih _ fun q hq => hr q (by simp [hq])
  obtain ⟨store, hs⟩ := hstore out { packets := out.map Spec.asRead } hall
  refine ⟨store, hs, fun p hp hv hh => ?_⟩
  have hc' : Spec.NoCollision P (out.map Spec.asRead) := by
    intro a ha b hb h h1 h2
    obtain ⟨a', ha', rfl⟩ := List.mem_map.mp ha
    obtain ⟨b', hb', rfl⟩ := List.mem_map.mp hb
    rw [asRead_hash (hall a' ha')] at h1
    rw [asRead_hash (hall b' hb')] at h2
    rw [hc a' ha' b' hb' h h1 h2]
  have hget := Spec.Holds.reader (.inr hs) hc' (List.mem_map_of_mem hp) ((asRead_hash (hall p hp) _).trans hh)
  refine ⟨?_, hget⟩
  unfold MemoryStore.reader MemoryStore.get at hget
  simp only at hget
  split at hget
  · cases hget
  · rename_i q hq
    rw [hq]
    split at hget
    · exact congrArg some (Except.ok.inj hget)
    · split at hget
      · cases hget
      · split at hget
        · exact congrArg some (Except.ok.inj hget)
        · cases hget

/-- C96 (segmented names): of a tree with segmented names the packets sent, cut and parsed are those of the tree, except that the
names are held as bytes.  So a memory reader made of them refuses the first manifest below the root: the traversal raises ValueError and
writes nothing, also if a memory store of the publisher's own packets returns the file (C50). -/
theorem C96_segmented {ks : Option Keystore} (now : F64) (hty : o.schemaType = .segmented)
    (h : manifestTree E L o nc input = (.ok root, out)) (hr : Spec.Equipped E o nc ks) (hw : Spec.WholeOptions o)
    (hd : Spec.NoCollision E.prims out) :
    ∃ ws, NetworkWriter.putAll out {} = (.ok (), ⟨true, ws.flatten⟩) ∧ Spec.Cut ws.flatten ws ∧
      ∀ vs, Spec.Cut ws.flatten vs → ∃ got store hv, vs.mapM (Packet.deserialize now) = .ok got ∧ got = out.map Spec.asRead ∧
        MemoryStore.ofPackets E.prims got = .ok store ∧ root.hash E.prims.sha256 = .ok hv ∧
        ∀ depth, 1 ≤ depth → Spec.RefusedBy E o (store.reader E.prims) ks depth hv := by
  obtain ⟨R⟩ := manifestTree_ok h
  have hall := all_readBack R hr.names hw
  have hall' := fun p hp => (hall p hp).1
  obtain ⟨ws, _, h1, _, h2, h3, _⟩ := C96_created (fun p hp => (hall p hp).1.created) (qs := []) (by simp)
  refine ⟨ws, h2, h3, fun vs hvs => ?_⟩
  obtain rfl := (C96_unambiguous h3 (r := []) (by rw [List.append_nil]; exact hvs)).2 rfl
  obtain ⟨store, hs, hfind⟩ := read_store hall' hd
  obtain ⟨ids, level, i, kids, g1, g2, g3, g4, g5, g6, g7, g8⟩ := R.forest
  have hserved : ∀ hv, root.hash E.prims.sha256 = .ok hv → store.reader E.prims o.name (some hv) = .ok root := by
    intro hv hh
    have hm : root ∈ out := by rw [g8]; simp
    obtain ⟨_, _, hb⟩ := R.root_signed
    have hb : root.body.name = o.name := by rw [hb]
    have := (hfind root hm hv hh).2
    rwa [(root_readsBack R hr.names hw).2, hb] at this
  obtain ⟨hv, hh, href⟩ := R.stops hr hserved hty g2 g7 (by
    intro p st t t0 l f _ hname _ _
    have hm : i.packet ∈ out := by rw [g8]; simp
    have hh := (g2.made i (by simp [Forest.written])).1
    unfold MemoryStore.reader MemoryStore.get
    simp only
    rw [(hfind i.packet hm i.hash hh).1]
    unfold Spec.asRead
    simp only [hname, Option.map_some]
    rw [pyEq_array (c := segComponent st 0) (by simp [segName]) rfl (by simp)]
    rfl)
  exact ⟨_, store, hv, parse_all now out ws h1 hall', rfl, hs, hh, href⟩

/-! ## Concrete cases -/

section

/-- A nameless data object. -/
def Toy.small (n : UInt8) : Packet :=
  match Packet.createContentObject { payloadType := some PT_DATA, payload := some [n, 7] } with
  | .ok p => p
  | .error _ => Toy.named [97] [1, 2]

theorem Toy.small_created (n : UInt8) (h : Packet.createContentObject (Toy.small n).body = .ok (Toy.small n)) :
    Spec.Created (Toy.small n) := .inl ⟨_, h⟩

theorem Toy.small_one : Spec.Created (Toy.small 1) := Toy.small_created 1 (by decide +kernel)
theorem Toy.small_two : Spec.Created (Toy.small 2) := Toy.small_created 2 (by decide +kernel)
theorem Toy.small_three : Spec.Created (Toy.small 3) := Toy.small_created 3 (by decide +kernel)

/-- C96: two packets, and the third put after the socket is closed. -/
example : ([NetworkOp.put (Toy.small 1), .put (Toy.small 2), .close, .put (Toy.small 3)].foldl NetworkWriter.step {}).sent =
    [1, 1, 0, 23, 0, 0, 0, 8, 0, 2, 0, 11, 0, 5, 0, 1, 0, 0, 1, 0, 2, 1, 7,
     1, 1, 0, 23, 0, 0, 0, 8, 0, 2, 0, 11, 0, 5, 0, 1, 0, 0, 1, 0, 2, 2, 7] ∧
    NetworkWriter.put (Toy.small 3) ⟨false, []⟩ = (.error .attributeError, ⟨false, []⟩) := by
  decide +kernel

/-- C96: they are told apart. -/
example : ∃ ws vs, [Toy.small 1, Toy.small 2].mapM Packet.serialize = .ok ws ∧ [Toy.small 3].mapM Packet.serialize = .ok vs ∧
    (NetworkWriter.putAll [Toy.small 1, Toy.small 2] {} = (.ok (), ⟨true, ws.flatten⟩)) ∧ Spec.Cut ws.flatten ws ∧
    (ws.flatten = vs.flatten ↔ ws = vs) :=
  C96_created (by simp [Toy.small_one, Toy.small_two]) (by simp [Toy.small_three])

/-- C96: and the parser does not take both at once. -/
example : ∃ wp wq, (Toy.small 1).serialize = .ok wp ∧ (Toy.small 2).serialize = .ok wq ∧
    ∃ e, Packet.deserialize (F64.ofNat 0) (wp ++ wq) = .error e := by
  obtain ⟨wp, hp, _⟩ := Toy.small_one.truthful
  obtain ⟨wq, hq, _⟩ := Toy.small_two.truthful
  obtain ⟨e, he⟩ := C96_parser_needs_cut (F64.ofNat 0) Toy.small_one (by decide +kernel) hp hq []
  exact ⟨wp, wq, hp, hq, e, by rw [List.append_nil] at he; exact he⟩

/-- C96: a packet that was parsed from bytes with another length in the header is sent with that length, and the stream falls apart. -/
theorem C96_untruthful_received : ∃ (w : Bytes) (p : Packet), Packet.deserialize (F64.ofNat 0) w = .ok p ∧ p.serialize = .ok w ∧
    ¬ Spec.Truthful p ∧ ∀ ws, ¬ Spec.Cut (NetworkWriter.putAll [p, Toy.small 2] {}).2.sent ws := by
  refine ⟨[1, 1, 0, 24, 0, 0, 0, 8, 0, 2, 0, 11, 0, 5, 0, 1, 0, 0, 1, 0, 2, 1, 7],
    { Toy.small 1 with header := { (Toy.small 1).header with packetLength := 24 } }, by decide +kernel, by decide +kernel, ?_, ?_⟩
  · rintro ⟨w, hw, hl⟩
    have e : ({ Toy.small 1 with header := { (Toy.small 1).header with packetLength := 24 } } : Packet).serialize =
      .ok [1, 1, 0, 24, 0, 0, 0, 8, 0, 2, 0, 11, 0, 5, 0, 1, 0, 0, 1, 0, 2, 1, 7] := by decide +kernel
    rw [e] at hw
    cases hw
    revert hl
    decide +kernel
  · intro ws h
    have e : (NetworkWriter.putAll [{ Toy.small 1 with header := { (Toy.small 1).header with packetLength := 24 } }, Toy.small 2] {}).2.sent =
      [1, 1, 0, 24, 0, 0, 0, 8, 0, 2, 0, 11, 0, 5, 0, 1, 0, 0, 1, 0, 2, 1, 7,
       1, 1, 0, 23, 0, 0, 0, 8, 0, 2, 0, 11, 0, 5, 0, 1, 0, 0, 1, 0, 2, 2, 7] := by decide +kernel
    rw [e] at h
    rcases cut_step h with h | ⟨_, _, _, _, _, vs, h, _, t⟩
    · cases h
    cases h
    rcases cut_step t with h | ⟨_, _, _, _, _, _, h, hl, _⟩
    · cases h
    cases h
    exact absurd hl (by decide)

set_option maxRecDepth 100000 in
/-- C96: eight chunks with prefix names, encrypted. -/
example : ∃ root out ws, manifestTree Toy.env Spec.exactLog (Toy.options .prefixed true) 1 (Toy.shortReads 32) = (.ok root, out) ∧
    (Spec.dataOf out).length = 8 ∧ NetworkWriter.putAll out {} = (.ok (), ⟨true, ws.flatten⟩) ∧ Spec.Cut ws.flatten ws := by
  obtain ⟨root, out, h, hn, he, hc⟩ := Toy.equipped (o := Toy.options .prefixed true) (input := Toy.shortReads 32) (n := 8)
    trivial Toy.canDecrypt (Toy.plain ⟨rfl, rfl, rfl⟩) (Toy.text rfl rfl rfl) (by decide +kernel)
  obtain ⟨ws, h1, h2, _⟩ := C96_file (F64.ofNat 0) (by decide) h he (Toy.whole _ _) hc
  exact ⟨root, out, ws, h, hn, h1, h2⟩

set_option maxRecDepth 100000 in
/-- C96: nine chunks with segmented names, encrypted: a file that a memory store of the publisher's packets returns (C50). -/
example : ∃ root out ws, manifestTree Toy.env Spec.exactLog Toy.wideOptions 1 (Toy.shortReads 36) = (.ok root, out) ∧
    (Spec.dataOf out).length = 9 ∧ NetworkWriter.putAll out {} = (.ok (), ⟨true, ws.flatten⟩) ∧ Spec.Cut ws.flatten ws := by
  obtain ⟨root, out, h, hn, he, hc⟩ := Toy.equipped (o := Toy.wideOptions) (input := Toy.shortReads 36) (n := 9)
    trivial Toy.canDecrypt (Toy.plain ⟨rfl, rfl, rfl⟩) (Toy.text rfl rfl rfl) (by decide +kernel)
  obtain ⟨ws, h1, h2, _⟩ := C96_segmented (F64.ofNat 0) (by decide) h he
    ⟨(Toy.whole .segmented true).times, (Toy.whole .segmented true).signer⟩ hc
  exact ⟨root, out, ws, h, hn, h1, h2⟩

end

/-- C96: a packet put before `close` is sent, one put afterwards raises. -/
example : (NetworkWriter.put (Toy.small 2) {}).1 = .ok () ∧
    (NetworkWriter.put (Toy.small 2) ([.put (Toy.small 1), .close].foldl NetworkWriter.step {})).1 = .error .attributeError :=
  ⟨((C96_put [] (Toy.small 2)).2 (by simp)).trans (by decide +kernel), (C96_put _ _).1 (by simp)⟩

end Ccnpy
