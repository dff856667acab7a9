import Verif.Lemmas.Shape
import Verif.Props.SecrecyProps

/-!
# C106: what can be seen without the bytes
-/

namespace Ccnpy

/-! ## Specification -/

/-- What can be seen of a packet by somebody who does not look at the bytes of its payload and of its validation payload. -/
structure Spec.Outline where
  header : FixedHeader
  name : Option Name
  payloadType : Option Nat
  payloadLength : Option Nat
  expiryTime : Option F64
  finalChunkId : Option Nat
  validationAlg : Option ValidationAlg
  validationLength : Option Nat
  /-- the number of bytes on the wire -/
  wireLength : Option Nat

/-- The outline of a packet. -/
def Spec.outline (p : Packet) : Spec.Outline where
  header := p.header
  name := p.body.name
  payloadType := p.body.payloadType
  payloadLength := p.body.payload.map List.length
  expiryTime := p.body.expiryTime
  finalChunkId := p.body.finalChunkId
  validationAlg := p.alg
  validationLength := p.payload.map List.length
  wireLength := p.serialize.toOption.map List.length

/-- What an observer sees of a run: the exception or the outline of the root, and the outlines of the packets put out, in order. -/
def Spec.traffic (r : Py Packet × List Packet) : Py Spec.Outline × List Spec.Outline :=
  (r.1.map Spec.outline, r.2.map Spec.outline)

/-- SHA-256 has 32 bytes; how long a ciphertext and an RSA signature are, and whether encryption raises, follows from the key and from how
long the arguments are. -/
structure Spec.LengthOnly (P : Prims) : Prop where
  sha : ∀ b, (P.sha256 b).length = 32
  sealing : ∀ alg key iv iv' pt pt' aad aad', iv.length = iv'.length → pt.length = pt'.length → aad.length = aad'.length →
    (P.aeadSeal alg key iv pt aad).map List.length = (P.aeadSeal alg key iv' pt' aad').map List.length
  signing : ∀ der d d', d.length = d'.length → (P.rsaSign der d).length = (P.rsaSign der d').length

/-! ## Proof -/

theorem Spec.LengthOnly.rel {P : Prims} (h : Spec.LengthOnly P) : Ccnpy.LengthOnly P where
  sha := h.sha
  sealing := by
    intro alg key iv iv' pt pt' aad aad' h1 h2 h3
    have := h.sealing alg key iv iv' pt pt' aad aad' h1 h2 h3
    revert this
    cases P.aeadSeal alg key iv pt aad <;> cases P.aeadSeal alg key iv' pt' aad' <;> intro he
    · cases he
      exact .error _
    · cases he
    · cases he
    · exact .ok (Except.ok.inj he)
  sign := h.signing

theorem even_lengths {a b : Option Bytes} (h : Option.Rel Even a b) : a.map List.length = b.map List.length := by
  cases h with
  | none => rfl
  | some h => exact congrArg some h

theorem outline_of_rel {p q : Packet} (h : PacketR p q) : Spec.outline p = Spec.outline q := by
  have hw : p.serialize.toOption.map List.length = q.serialize.toOption.map List.length := by
    have hr := packet_serialize_rel h
    generalize p.serialize = x at hr ⊢
    generalize q.serialize = y at hr ⊢
    cases hr with
    | ok he => exact congrArg some he
    | error e => rfl
  unfold Spec.outline
  rw [h.header, h.body.name, h.body.payloadType, h.body.expiryTime, h.body.finalChunkId, h.alg, even_lengths h.payload,
    even_lengths h.body.payload, hw]

theorem outlines_of_rel {l m : List Packet} (h : List.Forall₂ PacketR l m) : l.map Spec.outline = m.map Spec.outline := by
  induction h with
  | nil => rfl
  | cons h1 _ ih => rw [List.map_cons, List.map_cons, outline_of_rel h1, ih]

/-- **C106.**  The traffic of a build says how long the file is and nothing more about it: two files of the same length that are delivered
in the same portions, written with the same options (and with whatever nonces), give the same number of packets with the same names,
times, algorithms and lengths, in the same order, or the same exception after the same packets. -/
theorem C106_same_length {E F : Env} {L : FloatLog} {o : TreeOptions} {nc : Nat} {a b : Stream} (hP : Spec.LengthOnly E.prims)
    (hp : E.prims = F.prims) (hn : ∀ i, (E.nonce i).length = (F.nonce i).length) (hl : a.rest.length = b.rest.length)
    (hs : a.schedule = b.schedule) :
    Spec.traffic (manifestTree E L o nc a) = Spec.traffic (manifestTree F L o nc b) := by
  obtain ⟨h1, h2⟩ := manifestTree_rel hP.rel ⟨hp, hn⟩ L o nc (s := a) (t := b) ⟨hl, hs⟩
  unfold Spec.traffic
  rw [outlines_of_rel h2]
  revert h1
  cases (manifestTree E L o nc a).1 <;> cases (manifestTree F L o nc b).1 <;> intro h1 <;> cases h1
  · rfl
  · rename_i h1
    simp only [Except.map, outline_of_rel h1]

/-- The number of bytes in the data objects, from the outlines. -/
def Spec.dataBytes (os : List Spec.Outline) : Nat :=
  ((os.filter (fun o => o.payloadType == some 0)).map (fun o => o.payloadLength.getD 0)).sum

theorem dataBytes_eq (out : List Packet) :
    Spec.dataBytes (out.map Spec.outline) = ((Spec.dataOf out).map (fun p => (p.body.payload.getD []).length)).sum := by
  unfold Spec.dataBytes Spec.dataOf
  rw [List.filter_map, List.map_map]
  congr 1
  refine List.map_congr_left ?_
  intro p _
  simp only [Function.comp, Spec.outline]
  cases p.body.payload <;> rfl

/-- C106 (the other direction): the length of the file can be read off the traffic of a successful build, whatever is encrypted. -/
theorem C106_length {E : Env} {L : FloatLog} {o : TreeOptions} {nc : Nat} {a : Stream} {root : Packet} {out : List Packet}
    (h : manifestTree E L o nc a = (.ok root, out)) : Spec.dataBytes (out.map Spec.outline) = a.rest.length := by
  obtain ⟨R⟩ := manifestTree_ok h
  rw [dataBytes_eq, ← R.joined]
  unfold Spec.joined
  rw [List.length_flatten, List.map_map, List.map_map]
  rfl

/-- C106 (exactly): of two successful builds with the same options and portions, the traffic is the same if and only if the files have the
same length. -/
theorem C106_exactly {E F : Env} {L : FloatLog} {o : TreeOptions} {nc : Nat} {a b : Stream} (hP : Spec.LengthOnly E.prims)
    (hp : E.prims = F.prims) (hn : ∀ i, (E.nonce i).length = (F.nonce i).length) (hs : a.schedule = b.schedule)
    {root root' : Packet} {out out' : List Packet} (ha : manifestTree E L o nc a = (.ok root, out))
    (hb : manifestTree F L o nc b = (.ok root', out')) :
    out.map Spec.outline = out'.map Spec.outline ↔ a.rest.length = b.rest.length := by
  constructor
  · intro he
    rw [← C106_length ha, ← C106_length hb, he]
  · intro hl
    have := congrArg Prod.snd (C106_same_length (L := L) (o := o) (nc := nc) hP hp hn hl hs)
    rw [ha, hb] at this
    exact this

/-! ## The hypotheses can be met -/

theorem Toy.lengthOnly : Spec.LengthOnly Toy.prims where
  sha := Toy.sha_length
  sealing := by
    intro alg key iv iv' pt pt' aad aad' h1 h2 h3
    simp [Toy.prims, Except.map, h2]
  signing := by
    intro der d d' h
    simp [Toy.prims, h]

/-- Other nonces. -/
def Toy.otherEnv : Env := { Toy.env with nonce := fun i => (Toy.env.nonce i).map (· + 1) }

/-- Another file of the same length, in the same portions. -/
def Toy.otherFile (n : Nat) : Stream := ⟨(Toy.bytes n).map (· + 1), List.replicate 9 4⟩

/-- Both builds return, eight data objects, no packet in common. -/
def Toy.differ : Bool :=
  match manifestTree Toy.env Spec.exactLog (Toy.options .segmented true) 1 (Toy.shortReads 32),
    manifestTree Toy.otherEnv Spec.exactLog (Toy.options .segmented true) 1 (Toy.otherFile 32) with
  | (.ok _, out), (.ok _, out') => (Spec.dataOf out).length == 8 && out.all (fun p => !out'.contains p)
  | _, _ => false

set_option maxRecDepth 100000 in
theorem Toy.differ_true : Toy.differ = true := by decide +kernel

/-- C106: eight chunks with segmented names and encrypted manifests, other nonces, another file: no packet is the same, the traffic is. -/
example : ∃ root out root' out', manifestTree Toy.env Spec.exactLog (Toy.options .segmented true) 1 (Toy.shortReads 32) = (.ok root, out) ∧
    manifestTree Toy.otherEnv Spec.exactLog (Toy.options .segmented true) 1 (Toy.otherFile 32) = (.ok root', out') ∧
    (Spec.dataOf out).length = 8 ∧ (∀ p ∈ out, p ∉ out') ∧ out.map Spec.outline = out'.map Spec.outline := by
  have h := Toy.differ_true
  unfold Toy.differ at h
  rcases ha : manifestTree Toy.env Spec.exactLog (Toy.options .segmented true) 1 (Toy.shortReads 32) with ⟨e | root, out⟩
  · rw [ha] at h; cases h
  · rcases hb : manifestTree Toy.otherEnv Spec.exactLog (Toy.options .segmented true) 1 (Toy.otherFile 32) with ⟨e | root', out'⟩
    · rw [ha, hb] at h; cases h
    · rw [ha, hb] at h
      simp only [Bool.and_eq_true, beq_iff_eq, List.all_eq_true, Bool.not_eq_true', List.contains_eq_mem, decide_eq_false_iff_not] at h
      refine ⟨root, out, root', out', rfl, rfl, h.1, h.2, ?_⟩
      have hp : Toy.env.prims = Toy.otherEnv.prims := rfl
      have hn : ∀ i, (Toy.env.nonce i).length = (Toy.otherEnv.nonce i).length := fun i => (List.length_map _).symm
      have hs : (Toy.shortReads 32).schedule = (Toy.otherFile 32).schedule := rfl
      have hl : (Toy.shortReads 32).rest.length = (Toy.otherFile 32).rest.length := (List.length_map _).symm
      exact (C106_exactly (E := Toy.env) (F := Toy.otherEnv) Toy.lengthOnly hp hn hs ha hb).mpr hl

end Ccnpy
