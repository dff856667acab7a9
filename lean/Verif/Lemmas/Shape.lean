import Verif.Model.Tree
import Verif.Lemmas.Crc32c
import Mathlib.Data.List.Forall2

/-!
# Two runs side by side

Tools to compare two runs of the same program on different data: both raise the same exception, or both return results that are related.
-/

namespace Ccnpy

/-- Both raise the same exception, or both return and the results are related. -/
inductive Py.Rel {α β : Type} (R : α → β → Prop) : Py α → Py β → Prop
  | ok {a b} : R a b → Py.Rel R (.ok a) (.ok b)
  | error (e : PyErr) : Py.Rel R (.error e) (.error e)

namespace Py.Rel

variable {α β γ δ : Type} {R : α → β → Prop} {Q : γ → δ → Prop}

theorem bind {x : Py α} {y : Py β} {f : α → Py γ} {g : β → Py δ} (h : Py.Rel R x y)
    (hf : ∀ a b, R a b → Py.Rel Q (f a) (g b)) : Py.Rel Q (x >>= f) (y >>= g) := by
  cases h with
  | ok h => exact hf _ _ h
  | error e => exact .error e

theorem pure {a : α} {b : β} (h : R a b) : Py.Rel R (Pure.pure a : Py α) (Pure.pure b : Py β) := .ok h

theorem refl {R : α → α → Prop} (h : ∀ a, R a a) (x : Py α) : Py.Rel R x x := by
  cases x with
  | ok a => exact .ok (h a)
  | error e => exact .error e

theorem eq (x : Py α) : Py.Rel (fun a b : α => a = b) x x := refl (fun _ => rfl) x

theorem mono {R' : α → β → Prop} {x : Py α} {y : Py β} (h : Py.Rel R x y) (hi : ∀ a b, R a b → R' a b) : Py.Rel R' x y := by
  cases h with
  | ok h => exact .ok (hi _ _ h)
  | error e => exact .error e

end Py.Rel

/-- The same for programs with state: related states stay related, also when an exception is raised. -/
def PyS.Rel {σ τ α β : Type} (S : σ → τ → Prop) (R : α → β → Prop) (x : PyS σ α) (y : PyS τ β) : Prop :=
  ∀ s t, S s t → Py.Rel R (x s).1 (y t).1 ∧ S (x s).2 (y t).2

namespace PyS.Rel

variable {σ τ α β γ δ : Type} {S : σ → τ → Prop} {R : α → β → Prop} {Q : γ → δ → Prop}

theorem bind {x : PyS σ α} {y : PyS τ β} {f : α → PyS σ γ} {g : β → PyS τ δ} (h : PyS.Rel S R x y)
    (hf : ∀ a b, R a b → PyS.Rel S Q (f a) (g b)) : PyS.Rel S Q (x >>= f) (y >>= g) := by
  intro s t hst
  obtain ⟨h1, h2⟩ := h s t hst
  show Py.Rel Q (PyS.bind x f s).1 (PyS.bind y g t).1 ∧ S (PyS.bind x f s).2 (PyS.bind y g t).2
  unfold PyS.bind
  revert h1 h2
  cases x s with | mk r s' => cases y t with | mk r' t' =>
  intro h1 h2
  cases h1 with
  | ok h => exact hf _ _ h s' t' h2
  | error e => exact ⟨.error e, h2⟩

theorem pure {a : α} {b : β} (h : R a b) : PyS.Rel S R (Pure.pure a : PyS σ α) (Pure.pure b : PyS τ β) :=
  fun _ _ hst => ⟨.ok h, hst⟩

theorem lift {x : Py α} {y : Py β} (h : Py.Rel R x y) : PyS.Rel S R (PyS.lift x) (PyS.lift y) :=
  fun _ _ hst => ⟨h, hst⟩

theorem get : PyS.Rel S S (PyS.get : PyS σ σ) PyS.get := fun _ _ hst => ⟨.ok hst, hst⟩

theorem modify {f : σ → σ} {g : τ → τ} (h : ∀ s t, S s t → S (f s) (g t)) :
    PyS.Rel S (fun _ _ => True) (PyS.modify f) (PyS.modify g) :=
  fun s t hst => ⟨.ok trivial, h s t hst⟩

end PyS.Rel

/-! ## Encodings -/

/-- Byte strings of one length. -/
def Even (a b : Bytes) : Prop := a.length = b.length

/-- TLVs of one type and one length. -/
def TlvR (t u : Tlv) : Prop := t.type = u.type ∧ t.value.length = u.value.length

/-- Hash values of one algorithm and one length. -/
def HvR (h k : HashValue) : Prop := h.alg = k.alg ∧ h.value.length = k.value.length

theorem TlvR.refl (t : Tlv) : TlvR t t := ⟨rfl, rfl⟩
theorem HvR.refl (t : HashValue) : HvR t t := ⟨rfl, rfl⟩

theorem forall2_refl {α : Type} {R : α → α → Prop} (h : ∀ a, R a a) : ∀ l : List α, List.Forall₂ R l l
  | [] => .nil
  | a :: l => .cons (h a) (forall2_refl h l)

theorem forall2_append {α β : Type} {R : α → β → Prop} {a : List α} {b : List β} {c : List α} {d : List β}
    (h : List.Forall₂ R a b) (h' : List.Forall₂ R c d) : List.Forall₂ R (a ++ c) (b ++ d) := by
  induction h with
  | nil => exact h'
  | cons h1 _ ih => exact .cons h1 ih

theorem forall2_length {α β : Type} {R : α → β → Prop} {a : List α} {b : List β} (h : List.Forall₂ R a b) : a.length = b.length := by
  induction h with
  | nil => rfl
  | cons _ _ ih => simp [ih]

theorem forall2_getElem? {α β : Type} {R : α → β → Prop} {a : List α} {b : List β} (h : List.Forall₂ R a b) (i : Nat) :
    Option.Rel R a[i]? b[i]? := by
  induction h generalizing i with
  | nil => simp
  | cons h1 _ ih =>
    cases i with
    | zero => exact .some h1
    | succ i => simpa using ih i

theorem serialize_rel {t u : Tlv} (h : TlvR t u) : Py.Rel Even t.serialize u.serialize := by
  unfold Tlv.serialize
  have hl : t.length = u.length := h.2
  rw [h.1, hl]
  refine .bind (.eq _) fun a b hab => .bind (.eq _) fun c d hcd => .pure ?_
  subst hab hcd
  simp [Even, h.2]

theorem mkTlv_rel (ty : Nat) {v w : Bytes} (h : Even v w) : Py.Rel TlvR (mkTlv ty v) (mkTlv ty w) :=
  .bind (serialize_rel (t := ⟨ty, v⟩) (u := ⟨ty, w⟩) ⟨rfl, h⟩) fun _ _ _ => .pure ⟨rfl, h⟩

theorem concatTlvs_rel {l m : List Tlv} (h : List.Forall₂ TlvR l m) : Py.Rel Even (concatTlvs l) (concatTlvs m) := by
  induction h with
  | nil => exact .ok rfl
  | cons h1 _ ih =>
    refine .bind (serialize_rel h1) fun a b hab => .bind ih fun c d hcd => .pure ?_
    simp only [Even, List.length_append] at *
    omega

theorem container_rel (ty : Nat) {l m : List Tlv} (h : List.Forall₂ TlvR l m) : Py.Rel TlvR (container ty l) (container ty m) :=
  .bind (concatTlvs_rel h) fun _ _ hab => mkTlv_rel ty hab

theorem listTlv_rel {α β : Type} {R : α → β → Prop} {f : α → Py Tlv} {g : β → Py Tlv}
    (hf : ∀ a b, R a b → Py.Rel TlvR (f a) (g b)) {l : List α} {m : List β} (h : List.Forall₂ R l m) :
    Py.Rel (List.Forall₂ TlvR) (listTlv f l) (listTlv g m) := by
  induction h with
  | nil => exact .ok .nil
  | cons h1 _ ih => exact .bind (hf _ _ h1) fun a b hab => .bind ih fun c d hcd => .pure (.cons hab hcd)

theorem optTlv_rel {α β : Type} {R : α → β → Prop} {f : α → Py Tlv} {g : β → Py Tlv}
    (hf : ∀ a b, R a b → Py.Rel TlvR (f a) (g b)) {l : Option α} {m : Option β} (h : Option.Rel R l m) :
    Py.Rel (List.Forall₂ TlvR) (optTlv f l) (optTlv g m) := by
  cases h with
  | none => exact .ok .nil
  | some h1 => exact .bind (hf _ _ h1) fun a b hab => .pure (.cons hab .nil)

theorem construct_rel {α : Type} {R : α → α → Prop} {f : α → Py Tlv} {x y : α} (h : Py.Rel TlvR (f x) (f y)) (hr : R x y) :
    Py.Rel R (construct f x) (construct f y) :=
  .bind h fun _ _ _ => .pure hr

/-! ## Content objects and packets -/

/-- Content objects that differ at most in the bytes of the payload. -/
structure BodyR (c d : ContentObject) : Prop where
  name : c.name = d.name
  payloadType : c.payloadType = d.payloadType
  payload : Option.Rel Even c.payload d.payload
  expiryTime : c.expiryTime = d.expiryTime
  finalChunkId : c.finalChunkId = d.finalChunkId

theorem body_tlv_rel {c d : ContentObject} (h : BodyR c d) : Py.Rel TlvR c.tlv d.tlv := by
  unfold ContentObject.tlv ContentObject.members
  rw [h.name, h.expiryTime, h.payloadType, h.finalChunkId]
  refine .bind (R := List.Forall₂ TlvR) ?_ fun _ _ hm => container_rel _ hm
  refine .bind (.refl (forall2_refl TlvR.refl) _) fun _ _ h1 => .bind (.refl (forall2_refl TlvR.refl) _) fun _ _ h2 =>
    .bind (.refl (forall2_refl TlvR.refl) _) fun _ _ h3 =>
    .bind (optTlv_rel (R := Even) (fun _ _ hab => mkTlv_rel _ hab) h.payload) fun _ _ h4 =>
    .bind (.refl (forall2_refl TlvR.refl) _) fun _ _ h5 => .pure ?_
  exact forall2_append (forall2_append (forall2_append (forall2_append h1 h2) h3) h4) h5

/-- Packets that differ at most in the bytes of the payload and of the validation payload. -/
structure PacketR (p q : Packet) : Prop where
  header : p.header = q.header
  body : BodyR p.body q.body
  alg : p.alg = q.alg
  payload : Option.Rel Even p.payload q.payload

theorem wireOf_rel {α β : Type} {f : α → Py Tlv} {g : β → Py Tlv} {x : α} {y : β} (h : Py.Rel TlvR (f x) (g y)) :
    Py.Rel Even (wireOf f x) (wireOf g y) :=
  .bind h fun _ _ hab => serialize_rel hab

theorem optWire_rel {α β : Type} {R : α → β → Prop} {f : α → Py Tlv} {g : β → Py Tlv}
    (hf : ∀ a b, R a b → Py.Rel TlvR (f a) (g b)) {l : Option α} {m : Option β} (h : Option.Rel R l m) :
    Py.Rel Even (optWire f l) (optWire g m) := by
  cases h with
  | none => exact .ok rfl
  | some h1 => exact wireOf_rel (hf _ _ h1)

theorem packet_serialize_rel {p q : Packet} (h : PacketR p q) : Py.Rel Even p.serialize q.serialize := by
  unfold Packet.serialize
  rw [h.header, h.alg]
  refine .bind (.eq _) fun a a' h1 => .bind (wireOf_rel (body_tlv_rel h.body)) fun b b' h2 =>
    .bind (.eq _) fun c c' h3 => .bind (optWire_rel (R := Even) (fun _ _ hab => mkTlv_rel _ hab) h.payload) fun d d' h4 => .pure ?_
  subst h1 h3
  simp only [Even, List.length_append] at *
  omega

theorem packet_len_rel {p q : Packet} (h : PacketR p q) : Py.Rel (fun a b : Nat => a = b) p.len q.len :=
  .bind (packet_serialize_rel h) fun _ _ hab => .pure hab

theorem packet_hash_rel {sha : Bytes → Bytes} (hs : ∀ a, (sha a).length = 32) {p q : Packet} (h : PacketR p q) :
    Py.Rel HvR (p.hash sha) (q.hash sha) := by
  unfold Packet.hash Packet.hashInput
  rw [h.alg]
  refine .bind (R := fun _ _ => True) ?_ fun a b _ => .pure ⟨rfl, by simp [HashValue.sha256, hs]⟩
  exact .bind (wireOf_rel (body_tlv_rel h.body)) fun b b' h2 =>
    .bind (.eq _) fun c c' h3 => .bind (optWire_rel (R := Even) (fun _ _ hab => mkTlv_rel _ hab) h.payload) fun d d' h4 => .pure trivial

theorem mkPacket_rel (hd : FixedHeader) {c d : ContentObject} (h : BodyR c d) (alg : Option ValidationAlg) {v w : Option Bytes}
    (hv : Option.Rel Even v w) : Py.Rel PacketR (mkPacket hd c alg v) (mkPacket hd d alg w) := by
  have hp : PacketR ⟨hd, c, alg, v⟩ ⟨hd, d, alg, w⟩ := ⟨rfl, h, rfl, hv⟩
  unfold mkPacket
  have hi : v.isSome = w.isSome := by cases hv <;> rfl
  rw [hi]
  split
  · exact .error _
  · exact .bind (packet_serialize_rel hp) fun _ _ _ => .pure hp

theorem tlvR_len {t u : Tlv} (h : TlvR t u) : t.len = u.len := by simp [Tlv.len, Tlv.length, h.2]

theorem createContentObject_rel {c d : ContentObject} (h : BodyR c d) :
    Py.Rel PacketR (Packet.createContentObject c) (Packet.createContentObject d) := by
  unfold Packet.createContentObject
  refine .bind (body_tlv_rel h) fun t u htu => ?_
  dsimp only
  rw [tlvR_len htu]
  exact mkPacket_rel _ h none .none

theorem createSigned_rel {c d : ContentObject} (h : BodyR c d) (alg : ValidationAlg) {v w : Bytes} (hv : Even v w) :
    Py.Rel PacketR (Packet.createSigned c alg v) (Packet.createSigned d alg w) := by
  unfold Packet.createSigned
  refine .bind (body_tlv_rel h) fun t u htu => .bind (.eq _) fun a b hab => .bind (mkTlv_rel _ hv) fun e f hef => ?_
  subst hab
  dsimp only
  rw [tlvR_len htu, tlvR_len hef]
  exact mkPacket_rel _ h _ (.some hv)

theorem crcSign_rel (a b : List Bytes) : Py.Rel Even (crcSign a) (crcSign b) := by
  rw [crcSign_eq, crcSign_eq]
  exact .ok (by simp [Even])

/-! ## What is assumed of the primitives -/

/-- The lengths of what the primitives return, and whether they raise, depend on the lengths of what they are given only. -/
structure LengthOnly (P : Prims) : Prop where
  sha : ∀ b, (P.sha256 b).length = 32
  sealing : ∀ alg key iv iv' pt pt' aad aad', Even iv iv' → Even pt pt' → Even aad aad' →
    Py.Rel Even (P.aeadSeal alg key iv pt aad) (P.aeadSeal alg key iv' pt' aad')
  sign : ∀ der d d', Even d d' → Even (P.rsaSign der d) (P.rsaSign der d')

theorem signPacket_rel {P : Prims} (hP : LengthOnly P) (signer : Option Signer) {c d : ContentObject} (h : BodyR c d) :
    Py.Rel PacketR (signPacket P signer c) (signPacket P signer d) := by
  unfold signPacket
  split
  · exact createContentObject_rel h
  · unfold crcSignedPacket
    refine .bind (.eq _) fun a b hab => ?_
    subst hab
    exact .bind (wireOf_rel (body_tlv_rel h)) fun x y _ => .bind (.eq _) fun v w hvw => .bind (crcSign_rel _ _) fun e f hef =>
      createSigned_rel h _ hef
  · rename_i key link time
    unfold rsaSignedPacket
    refine .bind (.eq _) fun a b hab => ?_
    subst hab
    refine .bind (wireOf_rel (body_tlv_rel h)) fun x y _ => .bind (.eq _) fun v w hvw =>
      .bind (R := Even) ?_ fun e f hef => createSigned_rel h _ hef
    · unfold rsaSign RsaKey.sign
      split
      · refine .bind (R := Even) (.ok ?_) fun m n hmn => construct_rel (mkTlv_rel _ hmn) hmn
        exact hP.sign _ _ _ (by simp [Even, hP.sha])
      · exact .error _

/-! ## Hash groups, nodes, manifests -/

/-- Hash groups that differ at most in the bytes of the hash values they point to. -/
structure GroupR (g k : HashGroup) : Prop where
  data : g.groupData = k.groupData
  pointers : Option.Rel (List.Forall₂ HvR) g.pointers k.pointers

/-- Nodes whose groups do. -/
structure NodeR (m n : Node) : Prop where
  data : m.nodeData = n.nodeData
  groups : List.Forall₂ GroupR m.hashGroups n.hashGroups
  pad : m.padLength = n.padLength

/-- The same encryption, up to the bytes of the nonce. -/
structure DataR (d e : AeadData) : Prop where
  keyNumber : d.keyNumber = e.keyNumber
  nonce : Even d.nonce e.nonce
  mode : d.mode = e.mode
  kdf : d.kdfData = e.kdfData

inductive CtxR : SecurityCtx → SecurityCtx → Prop
  | aead {d e} : DataR d e → CtxR (.aead d) (.aead e)
  | oaep {d e} (w) : DataR d e → CtxR (.rsaOaep d w) (.rsaOaep e w)

inductive MNodeR : ManifestNode → ManifestNode → Prop
  | plain {m n} : NodeR m n → MNodeR (.plain m) (.plain n)
  | encrypted {a b} : Even a b → MNodeR (.encrypted a) (.encrypted b)

structure ManifestR (m n : Manifest) : Prop where
  ctx : Option.Rel CtxR m.securityCtx n.securityCtx
  node : MNodeR m.node n.node
  tag : Option.Rel Even m.authTag n.authTag

theorem hashValue_tlv_rel {h k : HashValue} (hr : HvR h k) : Py.Rel TlvR h.tlv k.tlv := by
  unfold HashValue.tlv
  rw [hr.1]
  exact mkTlv_rel _ hr.2

theorem pointersTlv_rel {l m : List HashValue} (h : List.Forall₂ HvR l m) : Py.Rel TlvR (pointersTlv l) (pointersTlv m) :=
  .bind (listTlv_rel (fun _ _ hab => hashValue_tlv_rel hab) h) fun _ _ hm => container_rel _ hm

theorem group_tlv_rel {g k : HashGroup} (h : GroupR g k) : Py.Rel TlvR g.tlv k.tlv := by
  unfold HashGroup.tlv HashGroup.members
  rw [h.data]
  refine .bind (R := List.Forall₂ TlvR) ?_ fun _ _ hm => container_rel _ hm
  exact .bind (.refl (forall2_refl TlvR.refl) _) fun _ _ h1 =>
    .bind (optTlv_rel (fun _ _ hab => pointersTlv_rel hab) h.pointers) fun _ _ h2 => .pure (forall2_append h1 h2)

theorem node_tlv_rel {m n : Node} (h : NodeR m n) : Py.Rel TlvR m.tlv n.tlv := by
  unfold Node.tlv Node.members
  rw [h.data, h.pad, forall2_length h.groups]
  refine .bind (R := List.Forall₂ TlvR) ?_ fun l k hm => ?_
  · exact .bind (.refl (forall2_refl TlvR.refl) _) fun _ _ h1 =>
      .bind (listTlv_rel (fun _ _ hab => group_tlv_rel hab) h.groups) fun _ _ h2 => .pure (forall2_append h1 h2)
  · split
    · exact .error _
    · refine .bind (concatTlvs_rel hm) fun a b hab => ?_
      split
      · exact mkTlv_rel _ hab
      · have hl : a.length = b.length := hab
        dsimp only
        rw [hl]
        split
        · exact .bind (.eq _) fun x y hxy => by
            subst hxy
            exact .bind (concatTlvs_rel (forall2_append hm (.cons (TlvR.refl _) .nil))) fun _ _ he => mkTlv_rel _ he
        · exact mkTlv_rel _ hab

theorem aeadMembers_rel {d e : AeadData} (h : DataR d e) : Py.Rel (List.Forall₂ TlvR) d.members e.members := by
  unfold AeadData.members
  rw [h.keyNumber, h.mode, h.kdf]
  exact .bind (.refl TlvR.refl _) fun _ _ h1 => .bind (mkTlv_rel _ h.nonce) fun _ _ h2 => .bind (.refl (forall2_refl TlvR.refl) _) fun _ _ h3 =>
    .bind (.refl (forall2_refl TlvR.refl) _) fun _ _ h4 => .pure (forall2_append (forall2_append (.cons h1 (.cons h2 .nil)) h3) h4)

theorem ctx_tlv_rel {c d : SecurityCtx} (h : CtxR c d) : Py.Rel TlvR c.tlv d.tlv := by
  cases h with
  | aead h =>
    exact .bind (aeadMembers_rel h) fun _ _ h1 => .bind (container_rel _ h1) fun _ _ h2 => container_rel _ (.cons h2 .nil)
  | oaep w h =>
    exact .bind (aeadMembers_rel h) fun _ _ h1 => .bind (.refl (forall2_refl TlvR.refl) _) fun _ _ h3 =>
      .bind (container_rel _ (forall2_append h1 h3)) fun _ _ h2 => container_rel _ (.cons h2 .nil)

theorem mnode_tlv_rel {m n : ManifestNode} (h : MNodeR m n) : Py.Rel TlvR m.tlv n.tlv := by
  cases h with
  | plain h => exact node_tlv_rel h
  | encrypted h => exact mkTlv_rel _ h

theorem manifest_serialize_rel {m n : Manifest} (h : ManifestR m n) : Py.Rel Even m.serialize n.serialize := by
  refine .bind (R := List.Forall₂ TlvR) ?_ fun _ _ hm => concatTlvs_rel hm
  refine .bind (optTlv_rel (fun _ _ hab => ctx_tlv_rel hab) h.ctx) fun _ _ h1 => .bind (mnode_tlv_rel h.node) fun _ _ h2 =>
    .bind (optTlv_rel (R := Even) (fun _ _ hab => mkTlv_rel _ hab) h.tag) fun _ _ h3 => .pure (forall2_append (forall2_append h1 (.cons h2 .nil)) h3)

theorem showAll_rel {α β : Type} {R : α → β → Prop} {f : α → Py Unit} {g : β → Py Unit}
    (hf : ∀ a b, R a b → Py.Rel (fun _ _ => True) (f a) (g b)) {l : List α} {m : List β} (h : List.Forall₂ R l m) :
    Py.Rel (fun _ _ => True) (showAll f l) (showAll g m) := by
  induction h with
  | nil => exact .ok trivial
  | cons h1 _ ih => exact .bind (hf _ _ h1) fun _ _ _ => ih

theorem manifest_display_rel {m n : Manifest} (h : ManifestR m n) : Py.Rel (fun _ _ => True) m.display n.display := by
  obtain ⟨c1, n1, t1⟩ := m
  obtain ⟨c2, n2, t2⟩ := n
  obtain ⟨hc, hn, -⟩ := h
  unfold Manifest.display
  dsimp only at hc hn ⊢
  refine .bind (R := fun _ _ => True) ?_ fun _ _ _ => ?_
  · cases hc with
    | none => exact .ok trivial
    | some hc =>
      cases hc with
      | aead h =>
        show Py.Rel _ (AeadData.display _) (AeadData.display _)
        unfold AeadData.display
        rw [h.keyNumber, h.mode, h.kdf]
        exact .refl (fun _ => trivial) _
      | oaep w h =>
        refine .bind (R := fun _ _ => True) ?_ fun _ _ _ => .refl (fun _ => trivial) _
        unfold AeadData.display
        rw [h.keyNumber, h.mode, h.kdf]
        exact .refl (fun _ => trivial) _
  · cases hn with
    | encrypted h => exact .ok trivial
    | plain h =>
      dsimp only
      unfold Node.display
      rw [h.data]
      refine .bind (showAll_rel (R := GroupR) ?_ h.groups) fun _ _ _ => .bind (R := fun _ _ => True) (.refl (fun _ => trivial) _)
        fun _ _ _ => showAll_rel (R := GroupR) (fun a b hab => ?_) h.groups
      rotate_left
      · unfold HashGroup.display
        rw [hab.data]
        exact .refl (fun _ => trivial) _
      intro a b hab
      obtain ⟨d1, p1⟩ := a
      obtain ⟨d2, p2⟩ := b
      obtain ⟨-, hp⟩ := hab
      unfold HashGroup.listPointers
      dsimp only at hp ⊢
      cases hp with
      | none => exact .error _
      | some _ => exact .ok trivial

theorem tooLarge_rel {m n : Manifest} (h : ManifestR m n) : Py.Rel PacketR (m.tooLarge : Py Packet) n.tooLarge :=
  .bind (manifest_display_rel h) fun _ _ _ => .error _

theorem aeadData_rel (p : AeadParams) {a b : Bytes} (h : Even a b) : Py.Rel DataR (p.aeadData a) (p.aeadData b) := by
  unfold AeadParams.aeadData
  split
  · exact .error _
  · refine .bind (.eq _) fun m m' hm => ?_
    subst hm
    have hd : DataR ⟨p.keyNumber, a, some m, p.kdfData⟩ ⟨p.keyNumber, b, some m, p.kdfData⟩ := ⟨rfl, h, rfl, rfl⟩
    exact .bind (aeadMembers_rel hd) fun _ _ hl => .bind (concatTlvs_rel hl) fun _ _ _ => .pure hd

structure SealedR (s t : Sealed) : Prop where
  ctx : CtxR s.ctx t.ctx
  ciphertext : Even s.ciphertext t.ciphertext
  tag : Even s.authTag t.authTag

theorem encryptWithCtx_rel {P : Prims} (hP : LengthOnly P) (p : AeadParams) {m n : Node} (h : NodeR m n) {c d : SecurityCtx} (hc : CtxR c d) :
    Py.Rel SealedR (p.encryptWithCtx P m c) (p.encryptWithCtx P n d) := by
  unfold AeadParams.encryptWithCtx
  split
  · exact .error _
  · refine .bind (R := Even) (.bind (node_tlv_rel h) fun _ _ ht => .pure ht.2) fun pt pt' hp =>
      .bind (wireOf_rel (ctx_tlv_rel hc)) fun aad aad' ha =>
      .bind (R := fun x y : Bytes × Bytes => Even x.1 y.1 ∧ Even x.2 y.2) ?_ fun x y hxy => ?_
    · unfold AeadKey.encrypt
      refine .bind (hP.sealing _ _ _ _ _ _ _ _ ?_ hp ha) fun o o' ho => .pure ?_
      · have hn : Even c.aeadData.nonce d.aeadData.nonce := by cases hc <;> (rename_i h; exact h.nonce)
        unfold AeadParams.iv
        split
        · exact hn
        · simp only [Even, List.length_append] at *; omega
      · simp only [Even] at ho
        simp [Even, ho]
    · obtain ⟨x1, x2⟩ := x
      obtain ⟨y1, y2⟩ := y
      exact .bind (construct_rel (R := Even) (mkTlv_rel _ hxy.1) hxy.1) fun _ _ h1 => .bind (construct_rel (R := Even) (mkTlv_rel _ hxy.2) hxy.2)
        fun _ _ h2 => .pure ⟨hc, h1, h2⟩

theorem sealed_manifest_rel {s t : Sealed} (h : SealedR s t) : Py.Rel ManifestR s.manifest t.manifest := by
  have hm : ManifestR ⟨some s.ctx, .encrypted s.ciphertext, some s.authTag⟩ ⟨some t.ctx, .encrypted t.ciphertext, some t.authTag⟩ :=
    ⟨.some h.ctx, .encrypted h.ciphertext, .some h.tag⟩
  exact .bind (manifest_serialize_rel hm) fun _ _ _ => .pure hm

/-! ## The state of a build -/

/-- States that differ at most in the bytes of the packets put out (and in the graph, which nothing reads). -/
structure StateR (s t : BState) : Prop where
  output : List.Forall₂ PacketR s.output t.output
  nonces : s.nonces = t.nonces
  nextIds : s.nextIds = t.nextIds
  lastId : s.lastId = t.lastId

/-- Environments that differ at most in the bytes of the nonces. -/
structure EnvR (E F : Env) : Prop where
  prims : E.prims = F.prims
  nonce : ∀ i, Even (E.nonce i) (F.nonce i)

theorem buildManifest_rel {E F : Env} (hP : LengthOnly E.prims) (hE : EnvR E F) (o : TreeOptions) {m n : Node} (h : NodeR m n) (full : Bool) :
    PyS.Rel StateR ManifestR (buildManifest E o m full) (buildManifest F o n full) := by
  unfold buildManifest
  rw [← hE.prims]
  split
  · have hm : ManifestR { node := .plain m } { node := .plain n } := ⟨.none, .plain h, .none⟩
    exact .bind (.lift (manifest_serialize_rel hm)) fun _ _ _ => .pure hm
  · refine .bind .get fun s t hst => ?_
    dsimp only
    rw [hst.nonces]
    refine .bind (.modify fun s' t' h' => ⟨h'.output, rfl, h'.nextIds, h'.lastId⟩) fun _ _ _ => .lift ?_
    refine .bind (R := SealedR) ?_ fun _ _ hs => sealed_manifest_rel hs
    unfold aeadEncrypt
    rw [← bind_assoc, ← bind_assoc]
    exact .bind (R := CtxR) (.bind (aeadData_rel _ (hE.nonce _)) fun _ _ hd => construct_rel (ctx_tlv_rel (.aead hd)) (.aead hd))
      fun _ _ hc => encryptWithCtx_rel hP _ h hc
  · refine .bind .get fun s t hst => ?_
    dsimp only
    rw [hst.nonces]
    refine .bind (.modify fun s' t' h' => ⟨h'.output, rfl, h'.nextIds, h'.lastId⟩) fun _ _ _ => .lift ?_
    refine .bind (R := SealedR) ?_ fun _ _ hs => sealed_manifest_rel hs
    exact .bind (aeadData_rel _ (hE.nonce _)) fun _ _ hd => .bind (construct_rel (R := CtxR) (ctx_tlv_rel (.oaep _ hd)) (.oaep _ hd))
      fun _ _ hc => encryptWithCtx_rel hP _ h hc

theorem buildFromNode_rel {E F : Env} (hP : LengthOnly E.prims) (hE : EnvR E F) (o : TreeOptions) {m n : Node} (h : NodeR m n)
    (name : Option Name) (expiry : Option F64) (signer : Option Signer) (full : Bool) :
    PyS.Rel StateR PacketR (buildFromNode E o m name expiry signer full) (buildFromNode F o n name expiry signer full) := by
  unfold buildFromNode
  rw [← hE.prims]
  refine .bind (buildManifest_rel hP hE o h full) fun a b hab => .bind (.lift (manifest_serialize_rel hab)) fun x y hxy => ?_
  have hl : x.length = y.length := hxy
  dsimp only
  rw [hl]
  split
  · exact .lift (tooLarge_rel hab)
  · refine .bind (R := BodyR) (.lift ?_) fun c d hcd => .lift (signPacket_rel hP _ hcd)
    refine .bind (manifest_serialize_rel hab) fun x y hxy => ?_
    have hb : BodyR { name := name, payloadType := some PT_MANIFEST, payload := some x, expiryTime := expiry }
      { name := name, payloadType := some PT_MANIFEST, payload := some y, expiryTime := expiry } := ⟨rfl, rfl, .some hxy, rfl, rfl⟩
    exact construct_rel (body_tlv_rel hb) hb

/-! ## Builders -/

structure BuilderR (b c : HashGroupBuilder) : Prop where
  pointers : List.Forall₂ HvR b.pointers c.pointers
  rest : { b with pointers := [] } = { c with pointers := [] }

theorem BuilderR.fields {b c : HashGroupBuilder} (h : BuilderR b c) :
    b.directSize = c.directSize ∧ b.indirectSize = c.indirectSize ∧ b.directCount = c.directCount ∧ b.indirectCount = c.indirectCount ∧
      b.maxDirect = c.maxDirect ∧ b.maxIndirect = c.maxIndirect := by
  have := h.rest
  simp only [HashGroupBuilder.mk.injEq, true_and] at this
  exact this

theorem BuilderR.refl (b : HashGroupBuilder) : BuilderR b b := ⟨forall2_refl HvR.refl _, rfl⟩

structure PairR (b c : BuilderPair) : Prop where
  shared : b.shared = c.shared
  direct : BuilderR b.direct c.direct
  indirect : BuilderR b.indirect c.indirect

theorem PairR.refl (b : BuilderPair) : PairR b b := ⟨rfl, .refl _, .refl _⟩

theorem prependDirect_rel {b c : HashGroupBuilder} (h : BuilderR b c) {x y : HashValue} (hx : HvR x y) (size : Option Nat) :
    Py.Rel BuilderR (b.prependDirect x size) (c.prependDirect y size) := by
  obtain ⟨h1, h2, h3, h4, h5, h6⟩ := h.fields
  unfold HashGroupBuilder.prependDirect HashGroupBuilder.isDirectFull
  rw [h3, h5]
  exact .bind (.eq _) fun _ _ _ => .pure ⟨.cons hx h.pointers, by simp [h1, h2, h4, h6]⟩

theorem appendDirect_rel {b c : HashGroupBuilder} (h : BuilderR b c) {x y : HashValue} (hx : HvR x y) (size : Option Nat) :
    Py.Rel BuilderR (b.appendDirect x size) (c.appendDirect y size) := by
  obtain ⟨h1, h2, h3, h4, h5, h6⟩ := h.fields
  unfold HashGroupBuilder.appendDirect HashGroupBuilder.isDirectFull
  rw [h3, h5]
  exact .bind (.eq _) fun _ _ _ => .pure ⟨forall2_append h.pointers (.cons hx .nil), by simp [h1, h2, h4, h6]⟩

theorem prependIndirect_rel {b c : HashGroupBuilder} (h : BuilderR b c) {x y : HashValue} (hx : HvR x y) (size : Option Nat) :
    Py.Rel BuilderR (b.prependIndirect x size) (c.prependIndirect y size) := by
  obtain ⟨h1, h2, h3, h4, h5, h6⟩ := h.fields
  unfold HashGroupBuilder.prependIndirect HashGroupBuilder.isIndirectFull
  rw [h4, h6]
  exact .bind (.eq _) fun _ _ _ => .pure ⟨.cons hx h.pointers, by simp [h1, h2, h3, h5]⟩

theorem appendIndirect_rel {b c : HashGroupBuilder} (h : BuilderR b c) {x y : HashValue} (hx : HvR x y) (size : Option Nat) :
    Py.Rel BuilderR (b.appendIndirect x size) (c.appendIndirect y size) := by
  obtain ⟨h1, h2, h3, h4, h5, h6⟩ := h.fields
  unfold HashGroupBuilder.appendIndirect HashGroupBuilder.isIndirectFull
  rw [h4, h6]
  exact .bind (.eq _) fun _ _ _ => .pure ⟨forall2_append h.pointers (.cons hx .nil), by simp [h1, h2, h3, h5]⟩

theorem hashGroup_rel {b c : HashGroupBuilder} (h : BuilderR b c) (nc start : Option Nat) (l s : Bool) :
    Py.Rel GroupR (b.hashGroup nc start l s) (c.hashGroup nc start l s) := by
  obtain ⟨h1, h2, h3, h4, h5, h6⟩ := h.fields
  unfold HashGroupBuilder.hashGroup
  rw [h1, h2]
  dsimp only
  generalize hg : (if (l || s || nc.isSome || start.isSome) = true then _ else none : Option GroupData) = gd
  have hr : GroupR { groupData := gd, pointers := some b.pointers } { groupData := gd, pointers := some c.pointers } := ⟨rfl, .some h.pointers⟩
  exact construct_rel (group_tlv_rel hr) hr

theorem pair_indirect_rel {b c : BuilderPair} (h : PairR b c) : BuilderR b.indirectBuilder c.indirectBuilder := by
  unfold BuilderPair.indirectBuilder
  rw [h.shared]
  split
  · exact h.direct
  · exact h.indirect

theorem pair_setIndirect_rel {b c : BuilderPair} (h : PairR b c) {x y : HashGroupBuilder} (hx : BuilderR x y) :
    PairR (b.setIndirect x) (c.setIndirect y) := by
  unfold BuilderPair.setIndirect
  rw [h.shared]
  split
  · exact ⟨rfl, hx, h.indirect⟩
  · exact ⟨rfl, h.direct, hx⟩

theorem pair_prependDirect_rel {b c : BuilderPair} (h : PairR b c) {x y : HashValue} (hx : HvR x y) (size : Option Nat) :
    Py.Rel PairR (b.prependDirect x size) (c.prependDirect y size) :=
  .bind (prependDirect_rel h.direct hx size) fun _ _ hd => .pure ⟨h.shared, hd, h.indirect⟩

theorem pair_appendIndirect_rel {b c : BuilderPair} (h : PairR b c) {x y : HashValue} (hx : HvR x y) (size : Option Nat) :
    Py.Rel PairR (b.appendIndirect x size) (c.appendIndirect y size) :=
  .bind (appendIndirect_rel (pair_indirect_rel h) hx size) fun _ _ hd => .pure (pair_setIndirect_rel h hd)

theorem pair_prependIndirect_rel {b c : BuilderPair} (h : PairR b c) {x y : HashValue} (hx : HvR x y) (size : Option Nat) :
    Py.Rel PairR (b.prependIndirect x size) (c.prependIndirect y size) :=
  .bind (prependIndirect_rel (pair_indirect_rel h) hx size) fun _ _ hd => .pure (pair_setIndirect_rel h hd)

theorem pair_hashGroups_rel {b c : BuilderPair} (h : PairR b c) (ctx : NameCtx) (l s : Bool) (ds is : Option Nat) :
    Py.Rel (List.Forall₂ GroupR) (b.hashGroups ctx l s ds is) (c.hashGroups ctx l s ds is) := by
  unfold BuilderPair.hashGroups
  split
  · exact .bind (.eq _) fun _ _ _ => .bind (.eq _) fun _ _ _ => .bind (hashGroup_rel h.direct _ _ _ _) fun _ _ hg => .pure (.cons hg .nil)
  · exact .bind (hashGroup_rel h.direct _ _ _ _) fun _ _ hd => .bind (hashGroup_rel (pair_indirect_rel h) _ _ _ _) fun _ _ hi =>
      .pure (.cons hd (.cons hi .nil))

theorem nodeFromGroups_rel (o : TreeOptions) {g k : List HashGroup} (h : List.Forall₂ GroupR g k) (nc : Option (List NcDef)) (size : Option Nat) :
    Py.Rel NodeR (nodeFromGroups o g nc size) (nodeFromGroups o k nc size) := by
  unfold nodeFromGroups
  refine .bind (.eq _) fun a b hab => ?_
  subst hab
  have hn : NodeR { nodeData := a, hashGroups := g } { nodeData := a, hashGroups := k } := ⟨rfl, h, rfl⟩
  exact construct_rel (node_tlv_rel hn) hn

/-! ## The size calculation -/

theorem GroupR.refl (g : HashGroup) : GroupR g g := by
  refine ⟨rfl, ?_⟩
  cases g.pointers with
  | none => exact .none
  | some l => exact .some (forall2_refl HvR.refl _)

theorem sizingPacket_rel {E F : Env} (hP : LengthOnly E.prims) (hE : EnvR E F) (o : TreeOptions) (ctx : NameCtx) (total n : Nat) :
    PyS.Rel StateR PacketR (sizingPacket E o ctx total n) (sizingPacket F o ctx total n) :=
  .bind (.lift (.refl (forall2_refl GroupR.refl) _)) fun _ _ hg => .bind (.lift (nodeFromGroups_rel o hg _ _)) fun _ _ hn =>
    buildFromNode_rel hP hE o hn _ _ _ _

theorem calculateMaxPointers_rel {E F : Env} (hP : LengthOnly E.prims) (hE : EnvR E F) (o : TreeOptions) (ctx : NameCtx) (total : Nat) :
    PyS.Rel StateR (fun a b : Nat => a = b) (calculateMaxPointers E o ctx total) (calculateMaxPointers F o ctx total) := by
  unfold calculateMaxPointers
  refine .bind (sizingPacket_rel hP hE o ctx total 1) fun p q hpq => .bind (.lift (packet_len_rel hpq)) fun a b hab => ?_
  subst hab
  split
  · exact .lift (.error _)
  · refine .bind (sizingPacket_rel hP hE o ctx total _) fun p q hpq => .bind (.lift (packet_len_rel hpq)) fun a b hab => ?_
    subst hab
    split
    · exact .lift (.error _)
    · split
      · exact .lift (.error _)
      · exact .pure rfl

/-- Chunks that differ at most in the bytes of their hash values. -/
structure ChunkR (c d : ChunkMetadata) : Prop where
  number : c.chunkNumber = d.chunkNumber
  bytes : c.payloadBytes = d.payloadBytes
  hash : HvR c.hash d.hash

structure FileR (f g : FileMetadata) : Prop where
  chunks : List.Forall₂ ChunkR f.chunks g.chunks
  total : f.totalBytes = g.totalBytes

theorem createOptimizedTree_rel {E F : Env} (hP : LengthOnly E.prims) (hE : EnvR E F) (L : FloatLog) (o : TreeOptions) (ctx : NameCtx)
    {f g : FileMetadata} (h : FileR f g) :
    PyS.Rel StateR (fun a b : OptimizerResult => a = b) (createOptimizedTree E L o ctx f) (createOptimizedTree F L o ctx g) := by
  unfold createOptimizedTree
  rw [h.total, forall2_length h.chunks]
  refine .bind (calculateMaxPointers_rel hP hE o ctx _) fun a b hab => ?_
  subst hab
  split
  · exact .lift (.error _)
  · exact .lift (.eq _)

/-! ## The tree builder -/

structure TreeR (T U : TreeEnv) : Prop where
  env : EnvR T.env U.env
  law : LengthOnly T.env.prims
  opts : T.opts = U.opts
  ctx : T.ctx = U.ctx
  chunks : List.Forall₂ ChunkR T.chunks U.chunks
  direct : T.direct = U.direct
  indirect : T.indirect = U.indirect
  height : T.height = U.height

structure BuiltR (b c : Built) : Prop where
  packet : PacketR b.packet c.packet
  node : NodeR b.node c.node

theorem getNextId_rel (h : Nat) : PyS.Rel StateR (fun a b : Nat => a = b) (getNextId h) (getNextId h) := by
  intro s t hst
  unfold getNextId
  rw [hst.nextIds]
  split
  · exact ⟨.error _, hst⟩
  · split
    · exact ⟨.error _, hst⟩
    · exact ⟨.ok rfl, hst.output, hst.nonces, rfl, hst.lastId⟩

section
variable {T U : TreeEnv} (h : TreeR T U)
include h

theorem nextManifestName_rel (level : Nat) : PyS.Rel StateR (fun a b : Option Name => a = b) (nextManifestName T level) (nextManifestName U level) := by
  unfold nextManifestName
  rw [h.height, h.ctx]
  refine .bind (.lift (.eq _)) fun _ _ _ => .bind (getNextId_rel _) fun a b hab => ?_
  subst hab
  exact .bind (.modify fun _ _ hs => ⟨hs.output, hs.nonces, hs.nextIds, rfl⟩) fun _ _ _ => .lift (.eq _)

theorem builderPacket_rel {g k : List HashGroup} (hg : List.Forall₂ GroupR g k) (d i level : Nat) :
    PyS.Rel StateR BuiltR (builderPacket T g d i level) (builderPacket U k d i level) := by
  unfold builderPacket
  rw [h.opts]
  refine .bind (.lift (.eq _)) fun a b hab => ?_
  subst hab
  have hn : NodeR { nodeData := a, hashGroups := g } { nodeData := a, hashGroups := k } := ⟨rfl, hg, rfl⟩
  refine .bind (.lift (construct_rel (node_tlv_rel hn) hn)) fun m n hmn => .bind (nextManifestName_rel h level) fun x y hxy => ?_
  subst hxy
  exact .bind (buildFromNode_rel h.law h.env _ hmn _ _ _ _) fun _ _ hp => .pure ⟨hp, hmn⟩

theorem hash_rel {p q : Packet} (hp : PacketR p q) : Py.Rel HvR (p.hash T.env.prims.sha256) (q.hash U.env.prims.sha256) := by
  rw [← h.env.prims]
  exact packet_hash_rel h.law.sha hp

theorem putBuilt_rel {b c : Built} (hb : BuiltR b c) : PyS.Rel StateR (fun _ _ => True) (putBuilt T b) (putBuilt U c) :=
  .bind (.lift (hash_rel h hb.packet)) fun _ _ _ =>
    .modify fun _ _ hs => ⟨forall2_append hs.output (.cons hb.packet .nil), hs.nonces, hs.nextIds, hs.lastId⟩

theorem chunk_rel (i : Nat) : Py.Rel ChunkR (T.chunk i) (U.chunk i) := by
  unfold TreeEnv.chunk
  have := forall2_getElem? h.chunks i
  revert this
  cases T.chunks[i]? <;> cases U.chunks[i]? <;> intro hr <;> cases hr
  · exact .error _
  · exact .ok ‹_›

theorem appendChunks_rel {b c : HashGroupBuilder} (hb : BuilderR b c) (i n : Nat) :
    Py.Rel BuilderR (appendChunks T b i n) (appendChunks U c i n) := by
  induction n generalizing b c i with
  | zero => exact .ok hb
  | succ n ih =>
    refine .bind (chunk_rel h i) fun x y hxy => ?_
    rw [hxy.bytes]
    exact .bind (appendDirect_rel hb hxy.hash _) fun _ _ hd => ih hd _

theorem startSegmentId_rel (head : Nat) : Py.Rel (fun a b : Option Nat => a = b) (startSegmentId T head) (startSegmentId U head) := by
  unfold startSegmentId
  rw [h.ctx]
  split
  · exact .bind (chunk_rel h head) fun _ _ hc => .pure (congrArg some hc.number)
  · exact .ok rfl

theorem leafPacket_rel (head tail level : Nat) : PyS.Rel StateR BuiltR (leafPacket T head tail level) (leafPacket U head tail level) := by
  unfold leafPacket
  rw [h.ctx, h.opts]
  refine .bind (.lift (.eq _)) fun _ _ _ => .bind (.lift (appendChunks_rel h (.refl _) _ _)) fun b c hbc =>
    .bind (.lift (startSegmentId_rel h head)) fun x y hxy => ?_
  subst hxy
  obtain ⟨h1, h2, -⟩ := hbc.fields
  refine .bind (.lift (hashGroup_rel hbc _ _ _ _)) fun g k hg => ?_
  rw [h1, h2]
  exact builderPacket_rel h (.cons hg .nil) _ _ _

theorem leafManifest_rel (seg : Segment) (level : Nat) :
    PyS.Rel StateR (fun a b : Built × Segment => BuiltR a.1 b.1 ∧ a.2 = b.2) (leafManifest T seg level) (leafManifest U seg level) := by
  unfold leafManifest TreeEnv.pointers
  rw [h.direct, h.indirect]
  refine .bind (leafPacket_rel h _ _ _) fun b c hbc => .bind (.lift (.eq _)) fun x y hxy => ?_
  subst hxy
  exact .bind (putBuilt_rel h hbc) fun _ _ _ => .pure ⟨hbc, rfl⟩

theorem optionalSubtreeSize_rel {m n : Node} (hn : NodeR m n) :
    Py.Rel (fun a b : Option Nat => a = b) (optionalSubtreeSize T m) (optionalSubtreeSize U n) := by
  unfold optionalSubtreeSize
  rw [h.opts, hn.data]
  exact .eq _

theorem addRightMostChild_rel {b c : BuilderPair} (hb : PairR b c) {x y : Option Built} (hx : Option.Rel BuiltR x y) :
    Py.Rel PairR (addRightMostChild T b x) (addRightMostChild U c y) := by
  cases hx with
  | none => exact .ok hb
  | some hx =>
    exact .bind (hash_rel h hx.packet) fun _ _ hh => .bind (optionalSubtreeSize_rel h hx.node) fun s t hst => by
      subst hst
      exact pair_appendIndirect_rel hb hh _

theorem addIndirectLoop_rel {f g : Segment → PyS BState (Built × Segment)}
    (hf : ∀ seg, PyS.Rel StateR (fun a b : Built × Segment => BuiltR a.1 b.1 ∧ a.2 = b.2) (f seg) (g seg)) (fuel : Nat) {b c : BuilderPair}
    (hb : PairR b c) (seg : Segment) :
    PyS.Rel StateR (fun a b : BuilderPair × Segment => PairR a.1 b.1 ∧ a.2 = b.2) (addIndirectLoop T f fuel b seg) (addIndirectLoop U g fuel c seg) := by
  induction fuel generalizing b c seg with
  | zero =>
    unfold addIndirectLoop HashGroupBuilder.isIndirectFull
    obtain ⟨h1, h2, h3, h4, h5, h6⟩ := (pair_indirect_rel hb).fields
    rw [h4, h6]
    split
    · exact .pure ⟨hb, rfl⟩
    · exact .lift (.error _)
  | succ fuel ih =>
    unfold addIndirectLoop HashGroupBuilder.isIndirectFull
    obtain ⟨h1, h2, h3, h4, h5, h6⟩ := (pair_indirect_rel hb).fields
    rw [h4, h6]
    split
    · exact .pure ⟨hb, rfl⟩
    · refine .bind (hf seg) fun x y hxy => ?_
      obtain ⟨x, sx⟩ := x
      obtain ⟨y, sy⟩ := y
      obtain ⟨hx, hs⟩ := hxy
      dsimp only at hx hs
      subst hs
      refine .bind (.lift (R := PairR) ?_) fun _ _ hp => ih hp _
      exact .bind (hash_rel h hx.packet) fun _ _ hh => .bind (optionalSubtreeSize_rel h hx.node) fun s t hst => by
        subst hst
        exact pair_prependIndirect_rel hb hh _

theorem addIndirect_rel {f g : Segment → PyS BState (Built × Segment)}
    (hf : ∀ seg, PyS.Rel StateR (fun a b : Built × Segment => BuiltR a.1 b.1 ∧ a.2 = b.2) (f seg) (g seg)) {b c : BuilderPair}
    (hb : PairR b c) (seg : Segment) :
    PyS.Rel StateR (fun a b : BuilderPair × Segment => PairR a.1 b.1 ∧ a.2 = b.2) (addIndirect T f b seg) (addIndirect U g c seg) := by
  unfold addIndirect
  rw [h.direct, h.indirect]
  refine .bind (.lift (.eq _)) fun s t hst => ?_
  subst hst
  refine .bind (addIndirectLoop_rel h hf _ hb _) fun x y hxy => ?_
  obtain ⟨x, sx⟩ := x
  obtain ⟨y, sy⟩ := y
  obtain ⟨hx, hs⟩ := hxy
  dsimp only at hx hs
  subst hs
  refine .bind (.lift (.eq _)) fun s t hst => ?_
  subst hst
  exact .pure ⟨hx, rfl⟩

theorem addDirectLoop_rel (fuel : Nat) {b c : BuilderPair} (hb : PairR b c) (seg : Segment) (least : Option Nat) :
    Py.Rel (fun a b : BuilderPair × Segment × Option Nat => PairR a.1 b.1 ∧ a.2 = b.2) (addDirectLoop T fuel b seg least)
      (addDirectLoop U fuel c seg least) := by
  induction fuel generalizing b c seg least with
  | zero =>
    unfold addDirectLoop HashGroupBuilder.isDirectFull
    obtain ⟨h1, h2, h3, h4, h5, h6⟩ := hb.direct.fields
    rw [h3, h5]
    split
    · exact .ok ⟨hb, rfl⟩
    · exact .error _
  | succ fuel ih =>
    unfold addDirectLoop HashGroupBuilder.isDirectFull
    obtain ⟨h1, h2, h3, h4, h5, h6⟩ := hb.direct.fields
    rw [h3, h5]
    split
    · exact .ok ⟨hb, rfl⟩
    · refine .bind (chunk_rel h _) fun x y hxy => ?_
      rw [hxy.bytes, hxy.number]
      refine .bind (pair_prependDirect_rel hb hxy.hash _) fun _ _ hp => .bind (.eq _) fun s t hst => ?_
      subst hst
      exact ih hp _ _

theorem interiorPacket_rel {b c : BuilderPair} (hb : PairR b c) (start : Option Nat) (level : Nat) :
    PyS.Rel StateR BuiltR (interiorPacket T b start level) (interiorPacket U c start level) := by
  unfold interiorPacket
  rw [h.ctx, h.opts]
  refine .bind (R := fun a b : Option Nat => a = b) ?_ fun x y hxy => ?_
  · split
    · refine .bind .get fun s t hst => ?_
      rw [hst.lastId]
      cases t.lastId with
      | none => exact .lift (.error _)
      | some i => exact .pure rfl
    · exact .pure rfl
  · subst hxy
    obtain ⟨h1, -⟩ := hb.direct.fields
    obtain ⟨-, h2, -⟩ := (pair_indirect_rel hb).fields
    dsimp only
    rw [h1, h2]
    exact .bind (.lift (pair_hashGroups_rel hb _ _ _ _ _)) fun _ _ hg => builderPacket_rel h hg _ _ _

theorem interiorManifest_rel {f g : Segment → PyS BState (Built × Segment)}
    (hf : ∀ seg, PyS.Rel StateR (fun a b : Built × Segment => BuiltR a.1 b.1 ∧ a.2 = b.2) (f seg) (g seg)) (seg : Segment) (level : Nat)
    {x y : Option Built} (hx : Option.Rel BuiltR x y) :
    PyS.Rel StateR (fun a b : Built × Segment => BuiltR a.1 b.1 ∧ a.2 = b.2) (interiorManifest T f seg level x) (interiorManifest U g seg level y) := by
  unfold interiorManifest
  rw [h.ctx, h.direct, h.indirect]
  refine .bind (.lift (addRightMostChild_rel h (.refl _) hx)) fun b c hbc => .bind (addIndirect_rel h hf hbc seg) fun x y hxy => ?_
  obtain ⟨x, sx⟩ := x
  obtain ⟨y, sy⟩ := y
  obtain ⟨hx, hs⟩ := hxy
  dsimp only at hx hs
  subst hs
  refine .bind (.lift (addDirectLoop_rel h _ hx _ _)) fun x y hxy => ?_
  obtain ⟨x, sx, lx⟩ := x
  obtain ⟨y, sy, ly⟩ := y
  obtain ⟨hx, hs⟩ := hxy
  cases hs
  refine .bind (interiorPacket_rel h hx _ _) fun r r' hr => .bind (putBuilt_rel h hr) fun _ _ _ => .pure ⟨hr, rfl⟩

theorem bottomUp_rel (level : Nat) (seg : Segment) {x y : Option Built} (hx : Option.Rel BuiltR x y) :
    PyS.Rel StateR (fun a b : Built × Segment => BuiltR a.1 b.1 ∧ a.2 = b.2) (bottomUp T level seg x) (bottomUp U level seg y) := by
  have hi : x.isNone = y.isNone := by cases hx <;> rfl
  induction level generalizing seg x y with
  | zero =>
    unfold bottomUp
    rw [hi]
    exact .bind (.lift (.eq _)) fun _ _ _ => leafManifest_rel h _ _
  | succ level ih =>
    unfold bottomUp TreeEnv.pointers
    rw [hi, h.direct, h.indirect]
    split
    · exact leafManifest_rel h _ _
    · exact interiorManifest_rel h (fun seg => ih seg .none rfl) _ _ hx

theorem buildLoop_rel (fuel level : Nat) (seg : Segment) {x y : Built} (hx : BuiltR x y) :
    PyS.Rel StateR BuiltR (buildLoop T fuel level seg x) (buildLoop U fuel level seg y) := by
  induction fuel generalizing level seg x y with
  | zero =>
    unfold buildLoop
    split
    · exact .pure hx
    · exact .lift (.error _)
  | succ fuel ih =>
    unfold buildLoop
    split
    · exact .pure hx
    · refine .bind (bottomUp_rel h _ _ (.some hx)) fun x y hxy => ?_
      obtain ⟨x, sx⟩ := x
      obtain ⟨y, sy⟩ := y
      obtain ⟨hx, hs⟩ := hxy
      dsimp only at hx hs
      subst hs
      exact ih _ _ hx

theorem buildTree_rel : PyS.Rel StateR BuiltR (buildTree T) (buildTree U) := by
  unfold buildTree
  rw [h.indirect, h.height, forall2_length h.chunks]
  refine .bind (.lift (.eq _)) fun a b hab => ?_
  subst hab
  refine .bind (.modify fun _ _ hs => ⟨hs.output, hs.nonces, rfl, rfl⟩) fun _ _ _ => .bind (leafManifest_rel h _ _) fun x y hxy => ?_
  obtain ⟨x, sx⟩ := x
  obtain ⟨y, sy⟩ := y
  obtain ⟨hx, hs⟩ := hxy
  dsimp only at hx hs
  subst hs
  exact buildLoop_rel h _ _ _ hx

theorem rootPacket_rel (total : Nat) {x y : HashValue} (hx : HvR x y) :
    PyS.Rel StateR BuiltR (rootPacket T.env T.opts T.ctx total x) (rootPacket U.env U.opts U.ctx total y) := by
  unfold rootPacket
  rw [h.ctx, h.opts]
  dsimp only
  generalize hg : (GroupData.mk _ _ _ _ _ _) = gd
  have hr : GroupR { groupData := some gd, pointers := some [x] } { groupData := some gd, pointers := some [y] } := ⟨rfl, .some (.cons hx .nil)⟩
  exact .bind (.lift (construct_rel (group_tlv_rel hr) hr)) fun _ _ hg => .bind (.lift (nodeFromGroups_rel _ (.cons hg .nil) _ _)) fun _ _ hn =>
    .bind (buildFromNode_rel h.law h.env _ hn _ _ _ _) fun _ _ hp => .pure ⟨hp, hn⟩

theorem buildRooted_rel (total : Nat) : PyS.Rel StateR PacketR (buildRooted T total) (buildRooted U total) :=
  .bind (buildTree_rel h) fun _ _ ht => .bind (.lift (hash_rel h ht.packet)) fun _ _ hh => .bind (rootPacket_rel h total hh) fun _ _ hr =>
    .bind (.modify fun _ _ hs => ⟨forall2_append hs.output (.cons hr.packet .nil), hs.nonces, hs.nextIds, hs.lastId⟩) fun _ _ _ => .pure hr.packet

end

/-! ## Chunking -/

structure ChunkStateR (s t : ChunkState) : Prop where
  output : List.Forall₂ PacketR s.output t.output
  next : s.nextChunkId = t.nextChunkId

/-- Streams of one length that are read in the same portions. -/
structure StreamR (s t : Stream) : Prop where
  rest : Even s.rest t.rest
  schedule : s.schedule = t.schedule

theorem read_rel {s t : Stream} (h : StreamR s t) (n : Nat) : Even (s.read n).1 (t.read n).1 ∧ StreamR (s.read n).2 (t.read n).2 := by
  have hr : s.rest.length = t.rest.length := h.rest
  unfold Stream.read
  rw [h.schedule]
  dsimp only
  refine ⟨?_, ?_, rfl⟩ <;> simp [Even, hr]

theorem dataPacket_rel (o : ChunkOptions) (name : Option Name) {a b : Bytes} (h : Even a b) (fcid : Option Nat) :
    Py.Rel PacketR (SchemaImpl.dataPacket o name a fcid) (SchemaImpl.dataPacket o name b fcid) := by
  unfold SchemaImpl.dataPacket
  refine .bind (R := BodyR) ?_ fun c d hcd => .bind (createContentObject_rel hcd) fun p q hpq => .bind (packet_len_rel hpq) fun m n hmn => ?_
  · unfold ContentObject.createData
    have hb : BodyR { name := name, payloadType := (some a).map (fun _ => PT_DATA), payload := some a, expiryTime := o.dataExpiry, finalChunkId := fcid }
      { name := name, payloadType := (some b).map (fun _ => PT_DATA), payload := some b, expiryTime := o.dataExpiry, finalChunkId := fcid } :=
      ⟨rfl, rfl, .some h, rfl, rfl⟩
    exact construct_rel (body_tlv_rel hb) hb
  · subst hmn
    split
    · exact .error _
    · exact .pure hpq

theorem chunkLoop_rel {sha : Bytes → Bytes} (hs : ∀ b, (sha b).length = 32) (i : SchemaImpl) (o : ChunkOptions) (size fuel : Nat) {a b : Bytes}
    (hab : Even a b) {s t : Stream} (hst : StreamR s t) {acc acc' : List ChunkMetadata} (hacc : List.Forall₂ ChunkR acc acc') (total : Nat) :
    PyS.Rel ChunkStateR FileR (i.chunkLoop sha o size fuel a s acc total) (i.chunkLoop sha o size fuel b t acc' total) := by
  induction fuel generalizing a b s t acc acc' total with
  | zero =>
    have hl : a.length = b.length := hab
    unfold SchemaImpl.chunkLoop
    rw [hl]
    split
    · exact .pure ⟨hacc, rfl⟩
    · exact .lift (.error _)
  | succ fuel ih =>
    have hl : a.length = b.length := hab
    unfold SchemaImpl.chunkLoop
    rw [hl]
    split
    · exact .pure ⟨hacc, rfl⟩
    · refine .bind .get fun x y hxy => ?_
      dsimp only
      rw [hxy.next]
      refine .bind (.modify fun u v huv => ⟨huv.output, rfl⟩) fun _ _ _ => ?_
      split
      · exact .lift (.error _)
      · refine .bind (.lift (.eq _)) fun m n hmn => ?_
        subst hmn
        obtain ⟨h1, h2⟩ := read_rel hst size
        have h1' : (s.read size).1.length = (t.read size).1.length := h1
        have hf : i.finalId y.nextChunkId (s.read size).1 = i.finalId y.nextChunkId (t.read size).1 := by
          unfold SchemaImpl.finalId; rw [h1']
        rw [hf]
        refine .bind (.lift (dataPacket_rel o _ hab _)) fun p q hpq => .bind (.lift (packet_hash_rel hs hpq)) fun h k hhk =>
          .bind (.modify fun u v huv => ⟨forall2_append huv.output (.cons hpq .nil), huv.next⟩) fun _ _ _ => ?_
        exact ih h1 h2 (forall2_append hacc (.cons (ChunkR.mk (c := ⟨_, _, h⟩) (d := ⟨_, _, k⟩) rfl rfl hhk) .nil)) _

theorem chunkData_rel {sha : Bytes → Bytes} (hs : ∀ b, (sha b).length = 32) (i : SchemaImpl) (o : ChunkOptions) {s t : Stream} (hst : StreamR s t) :
    PyS.Rel ChunkStateR FileR (i.chunkData sha o s) (i.chunkData sha o t) := by
  unfold SchemaImpl.chunkData
  refine .bind (.lift (.eq _)) fun m n hmn => ?_
  subst hmn
  have hr : s.rest.length = t.rest.length := hst.rest
  rw [hr]
  exact chunkLoop_rel hs i o _ _ (read_rel hst _).1 (read_rel hst _).2 .nil 0

/-! ## A whole build -/

theorem manifestTree_rel {E F : Env} (hP : LengthOnly E.prims) (hE : EnvR E F) (L : FloatLog) (o : TreeOptions) (nc : Nat) {s t : Stream}
    (hst : StreamR s t) :
    Py.Rel PacketR (manifestTree E L o nc s).1 (manifestTree F L o nc t).1 ∧
      List.Forall₂ PacketR (manifestTree E L o nc s).2 (manifestTree F L o nc t).2 := by
  unfold manifestTree
  rw [← hE.prims]
  cases NameCtx.create o.schemaType nc o.name o.manifestPrefix o.dataPrefix o.manifestLocators o.dataLocators with
  | error e => exact ⟨.error e, .nil⟩
  | ok ctx =>
    dsimp only
    obtain ⟨h1, h2⟩ := chunkData_rel hP.sha ctx.data o.chunk hst {} {} ⟨.nil, rfl⟩
    revert h1 h2
    cases ctx.data.chunkData E.prims.sha256 o.chunk s {} with | mk r s1 =>
    cases ctx.data.chunkData E.prims.sha256 o.chunk t {} with | mk r' t1 =>
    intro h1 h2
    dsimp only at h1 h2
    cases h1 with
    | error e => exact ⟨.error e, h2.output⟩
    | ok hf =>
      rename_i f g
      dsimp only
      obtain ⟨h3, h4⟩ := createOptimizedTree_rel hP hE L o ctx hf { output := s1.output } { output := t1.output } ⟨h2.output, rfl, rfl, rfl⟩
      revert h3 h4
      cases createOptimizedTree E L o ctx f { output := s1.output } with | mk r2 s2 =>
      cases createOptimizedTree F L o ctx g { output := t1.output } with | mk r2' t2 =>
      intro h3 h4
      dsimp only at h3 h4
      cases h3 with
      | error e => exact ⟨.error e, h4.output⟩
      | ok hr =>
        subst hr
        rename_i opt
        dsimp only
        rw [hf.total]
        have hT : TreeR ⟨E, o, ctx, f.chunks, opt.direct, opt.indirect, opt.height⟩ ⟨F, o, ctx, g.chunks, opt.direct, opt.indirect, opt.height⟩ :=
          ⟨hE, hP, rfl, rfl, hf.chunks, rfl, rfl, rfl⟩
        obtain ⟨h5, h6⟩ := buildRooted_rel hT g.totalBytes s2 t2 h4
        revert h5 h6
        cases buildRooted ⟨E, o, ctx, f.chunks, opt.direct, opt.indirect, opt.height⟩ g.totalBytes s2 with | mk r3 s3 =>
        cases buildRooted ⟨F, o, ctx, g.chunks, opt.direct, opt.indirect, opt.height⟩ g.totalBytes t2 with | mk r3' t3 =>
        intro h5 h6
        dsimp only at h5 h6
        cases h5 with
        | error e => exact ⟨.error e, h6.output⟩
        | ok hp => exact ⟨.ok hp, h6.output⟩

end Ccnpy
