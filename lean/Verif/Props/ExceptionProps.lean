import Verif.Lemmas.Usual
import Verif.Lemmas.PacketErrors
import Verif.Lemmas.Toy

/-!
# C80: the exceptions of decoders and encoders
-/

namespace Ccnpy

/-- The exceptions that decoders and encoders may raise: ParseError, CannotParseError, RuntimeError, ValueError, TypeError, AssertionError,
OverflowError and `struct.error`. -/
def Spec.codecErrors : List PyErr :=
  [.parseError, .cannotParseError, .runtimeError, .valueError, .typeError, .assertionError, .overflowError, .structError]

/-- C80 (decoders): no decoder of bytes raises any other exception, whatever the bytes. -/
theorem C80_decoders (now : F64) (buf : Bytes) (e : PyErr) :
    (Packet.deserialize now buf = .error e → e ∈ Spec.codecErrors) ∧
    (Manifest.deserialize buf = .error e → e ∈ Spec.codecErrors) ∧
    (FixedHeader.deserialize buf = .error e → e ∈ Spec.codecErrors) ∧
    (Link.deserialize buf = .error e → e ∈ Spec.codecErrors) ∧
    (HashValue.deserialize buf = .error e → e ∈ Spec.codecErrors) ∧
    (AeadData.parse buf = .error e → e ∈ Spec.codecErrors) ∧
    (RsaOaepWrapper.parse buf = .error e → e ∈ Spec.codecErrors) ∧
    (Tlv.deserialize buf = .error e → e = .parseError) :=
  ⟨Usual.real e, Usual.real e, Usual.real e, Usual.real e, Usual.real e, Usual.real e, Usual.real e, Tlv.deserialize_error⟩

/-- C80 (encoders): nor does an encoder. -/
theorem C80_encoders (p : Packet) (m : Manifest) (n : Node) (c : ContentObject) (a : ValidationAlg) (x : Name) (l : Link) (s : SecurityCtx) (e : PyErr) :
    (p.serialize = .error e → e ∈ Spec.codecErrors) ∧
    (m.serialize = .error e → e ∈ Spec.codecErrors) ∧
    (n.tlv = .error e → e ∈ Spec.codecErrors) ∧
    (c.tlv = .error e → e ∈ Spec.codecErrors) ∧
    (a.tlv = .error e → e ∈ Spec.codecErrors) ∧
    (x.tlv = .error e → e ∈ Spec.codecErrors) ∧
    (l.wire = .error e → e ∈ Spec.codecErrors) ∧
    (s.tlv = .error e → e ∈ Spec.codecErrors) :=
  ⟨Usual.real e, Usual.real e, Usual.real e, Usual.real e, Usual.real e, Usual.real e, Usual.real e, Usual.real e⟩

/-- A content object that expires 2^1040 milliseconds after 1970. -/
private def farExpiry : Tlv := ⟨2, [0, 6, 0, 130] ++ List.replicate 130 255⟩

/-- C80 (packets, exactly): the exceptions that some bytes make `Packet.deserialize` raise are these six, and no others. -/
theorem C80_packet_exact (now : F64) (e : PyErr) :
    (∃ buf, Packet.deserialize now buf = .error e) ↔
      e ∈ [PyErr.parseError, .runtimeError, .valueError, .typeError, .assertionError, .overflowError] := by
  constructor
  · rintro ⟨buf, h⟩
    exact PkOnly.real e h
  · intro h
    simp only [List.mem_cons, List.not_mem_nil, or_false] at h
    rcases h with rfl | rfl | rfl | rfl | rfl | rfl
    · exact ⟨[1, 1, 0, 9, 0, 0, 0, 8, 0], rfl⟩
    · exact ⟨[], rfl⟩
    · exact ⟨[2, 1, 0, 8, 0, 0, 0, 8], rfl⟩
    · exact ⟨[1, 1, 0, 8, 0, 0, 0, 8], rfl⟩
    · refine ⟨[1, 1, 0, 16, 0, 0, 0, 8, 0, 4, 0, 0], ?_⟩
      rfl
    · refine ⟨[1, 1, 0, 16, 0, 0, 0, 8] ++ (farExpiry.bytes ++ []), ?_⟩
      have h1 : ContentObject.parse farExpiry = .error .overflowError := by decide +kernel
      have h2 : farExpiry.Valid := by decide +kernel
      have h3 : Packet.parseStep now {} farExpiry = .error .overflowError := by
        unfold Packet.parseStep
        rw [if_pos (by decide), h1]
        rfl
      have h4 : FixedHeader.deserialize ([1, 1, 0, 16, 0, 0, 0, 8] ++ (farExpiry.bytes ++ [])) =
          .ok { ver := 1, packetType := 1, packetLength := 16, headerLength := 8 } := by decide +kernel
      unfold Packet.deserialize
      rw [h4, ok_bind]
      have h5 : ([1, 1, 0, 16, 0, 0, 0, 8] ++ (farExpiry.bytes ++ []) : Bytes).drop 8 = farExpiry.bytes ++ [] := by decide +kernel
      simp only [h5, tlvLoop_append _ _ h2, h3]
      rfl

theorem find?_reverse_of_nodup {σ : Type} (fs : List (AutoField σ)) (k : Nat) (h : (fs.map (·.type)).Nodup) :
    fs.reverse.find? (fun f => f.type == k) = fs.find? (fun f => f.type == k) := by
  induction fs with
  | nil => rfl
  | cons f fs ih =>
    simp only [List.map_cons, List.nodup_cons] at h
    rw [List.reverse_cons, List.find?_append, ih h.2, List.find?_cons]
    by_cases hk : f.type == k
    · have hn : fs.find? (fun f => f.type == k) = none := by
        rw [List.find?_eq_none]
        intro g hg hgk
        have e1 : f.type = k := by simpa using hk
        have e2 : g.type = k := by simpa using hgk
        exact h.1 (List.mem_map.mpr ⟨g, hg, by rw [e2, e1]⟩)
      simp [hn, hk]
    · simp only [hk]
      cases hc : fs.find? (fun f => f.type == k) <;> simp [hk, hc]

theorem autoStepCatch_eq {σ : Type} (fs : List (AutoField σ)) [h : UsualFields fs] (hn : (fs.map (·.type)).Nodup) :
    autoStepCatch true fs = autoStep fs := by
  funext s t
  unfold autoStepCatch autoStep
  rw [find?_reverse_of_nodup fs _ hn]
  cases hf : fs.find? (fun f => f.type == t.type) with
  | none => rfl
  | some f =>
    dsimp only
    by_cases hs : f.isSet s = true
    · rw [if_pos hs]
    · rw [if_neg hs]
      have hu := h.out f (List.mem_of_find?_eq_some hf) s t
      cases hp : f.parse s t with
      | ok v => rfl
      | error e =>
        have := hu.real e hp
        cases e <;> first | rfl | simp [PyErr.Usual] at this

/-- C80 (`auto_value_parse`): the `except KeyError` around the whole body of its loop never hides an error of an inner parser, and no two
classes of a list share a TLV type: for every list of classes in the code the loop body is the plain one, which skips unknown types only. -/
theorem C80_auto_parse :
    autoStepCatch true GroupData.fields = autoStep GroupData.fields ∧
    autoStepCatch true HashGroup.fields = autoStep HashGroup.fields ∧
    autoStepCatch true [ncNameField, ncLocatorsField, ncFlagsField] = autoStep [ncNameField, ncLocatorsField, ncFlagsField] ∧
    autoStepCatch true [ncNameField, ncSuffixField, ncLocatorsField, ncFlagsField] =
      autoStep [ncNameField, ncSuffixField, ncLocatorsField, ncFlagsField] ∧
    autoStepCatch true [ncLocatorsField, ncFlagsField] = autoStep [ncLocatorsField, ncFlagsField] ∧
    autoStepCatch true KdfData.fields = autoStep KdfData.fields ∧
    autoStepCatch true AeadData.fields = autoStep AeadData.fields ∧
    autoStepCatch true RsaOaepWrapper.fields = autoStep RsaOaepWrapper.fields :=
  ⟨autoStepCatch_eq _ (by decide), autoStepCatch_eq _ (by decide), autoStepCatch_eq _ (by decide), autoStepCatch_eq _ (by decide),
    autoStepCatch_eq _ (by decide), autoStepCatch_eq _ (by decide), autoStepCatch_eq _ (by decide), autoStepCatch_eq _ (by decide)⟩

/-- It matters: with an inner parser that raises KeyError the two differ, and so they do with a type that occurs twice. -/
example : autoStepCatch true [(⟨1, fun _ => false, fun _ _ => .error .keyError⟩ : AutoField Unit)] () ⟨1, []⟩ = .ok () ∧
    autoStep [(⟨1, fun _ => false, fun _ _ => .error .keyError⟩ : AutoField Unit)] () ⟨1, []⟩ = .error .keyError ∧
    autoStepCatch true [(⟨1, fun _ => false, fun _ _ => .ok 1⟩ : AutoField Nat), ⟨1, fun _ => false, fun _ _ => .ok 2⟩] 0 ⟨1, []⟩ = .ok 2 := by
  decide

/-- Manifests: these exceptions are reached, among others an unknown name constructor schema (CannotParseError), a locator that is not a
link (CannotParseError), no locators (RuntimeError) and no hash groups (TypeError). -/
example : Manifest.deserialize [0] = .error .parseError ∧
    Manifest.deserialize [0, 1, 0, 12, 0, 0, 0, 8, 0, 4, 0, 4, 0, 99, 0, 0] = .error .cannotParseError ∧
    Manifest.deserialize [0, 1, 0, 8, 0, 0, 0, 4, 0, 6, 0, 0] = .error .runtimeError ∧
    Manifest.deserialize [] = .error .valueError ∧
    Manifest.deserialize [0, 1, 0, 0] = .error .typeError ∧
    Manifest.deserialize [0, 2, 0, 0, 0, 2, 0, 0] = .error .assertionError := by decide +kernel

end Ccnpy
