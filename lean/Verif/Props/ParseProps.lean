import Verif.Lemmas.Halts
import Verif.Lemmas.Packet

/-!
# C56: parsers terminate and never read past the buffer

The model runs every `while offset < len(value)` loop with a fuel counter.  Here it is shown that the counter never matters:
the loop behaves exactly like the unbounded loop, described below by the relation `Spec.Reads`, and that loop reads at most
one element per four bytes of input.
-/

namespace Ccnpy

/-- The unbounded Python loop over a buffer, as a relation: `Spec.Reads step buf s k r` holds when the loop started on `buf`
in state `s` reads `k` elements and ends with result `r`.  Each element is read from the front of the buffer, and the loop
goes on with what follows it. -/
inductive Spec.Reads {σ : Type} (step : σ → Tlv → Py σ) : Bytes → σ → Nat → Py σ → Prop
  | done (s : σ) : Spec.Reads step [] s 0 (.ok s)
  | bad (buf : Bytes) (s : σ) (e : PyErr) : buf ≠ [] → Tlv.deserialize buf = .error e → Spec.Reads step buf s 0 (.error e)
  | stop (pre rest : Bytes) (s : σ) (t : Tlv) (e : PyErr) : Tlv.deserialize (pre ++ rest) = .ok t → pre.length = t.len →
      step s t = .error e → Spec.Reads step (pre ++ rest) s 1 (.error e)
  | more (pre rest : Bytes) (s s' : σ) (t : Tlv) (k : Nat) (r : Py σ) : Tlv.deserialize (pre ++ rest) = .ok t →
      pre.length = t.len → step s t = .ok s' → Spec.Reads step rest s' k r → Spec.Reads step (pre ++ rest) s (k + 1) r

/-- C56 (a): a TLV that is read lies inside the buffer, takes at least the four bytes of its header, and the bytes after it
play no role. -/
theorem C56_element_inside_buffer (buf : Bytes) (t : Tlv) (h : Tlv.deserialize buf = .ok t) :
    4 ≤ t.len ∧ t.len ≤ buf.length ∧ (∀ rest, Tlv.deserialize (buf.take t.len ++ rest) = .ok t) := by
  obtain ⟨hv, hb⟩ := Tlv.deserialize_inv h
  have hl : t.bytes.length = t.len := by simp [Tlv.bytes, be16, Tlv.len, Tlv.length]; omega
  refine ⟨by simp [Tlv.len], ?_, fun rest => ?_⟩
  · rw [hb, List.length_append]; omega
  · have : buf.take t.len = t.bytes := by
      rw [hb, ← hl, List.take_left']
      simp
    rw [this]
    exact Tlv.deserialize_bytes t hv rest

example : Tlv.deserialize [0, 1, 0, 2, 7, 8, 9] = .ok ⟨1, [7, 8]⟩ := by decide

/-- C56 (b): for every loop body, every buffer and every start state, the loop ends; its result is that of the unbounded loop. -/
theorem C56_loop_is_the_unbounded_loop {σ : Type} (step : σ → Tlv → Py σ) (buf : Bytes) (s : σ) :
    ∃ k, Spec.Reads step buf s k (tlvLoop step buf s) := by
  induction hn : buf.length using Nat.strongRecOn generalizing buf s with
  | _ n ih =>
    by_cases hb : buf = []
    · subst hb
      exact ⟨0, by rw [tlvLoop_nil]; exact .done s⟩
    · rw [tlvLoop_unfold _ _ _ hb]
      cases hd : Tlv.deserialize buf with
      | error e => exact ⟨0, .bad buf s e hb hd⟩
      | ok t =>
        obtain ⟨h4, hlen, _⟩ := C56_element_inside_buffer buf t hd
        have hsplit : buf = buf.take t.len ++ buf.drop t.len := (List.take_append_drop _ _).symm
        have hpre : (buf.take t.len).length = t.len := by rw [List.length_take]; omega
        cases hs : step s t with
        | error e =>
          refine ⟨1, ?_⟩
          have := Spec.Reads.stop (step := step) (buf.take t.len) (buf.drop t.len) s t e (by rw [← hsplit]; exact hd) hpre hs
          rw [← hsplit] at this
          simpa [bind, Except.bind, hs] using this
        | ok s' =>
          obtain ⟨k, hk⟩ := ih (buf.drop t.len).length (by rw [List.length_drop]; omega) (buf.drop t.len) s' rfl
          refine ⟨k + 1, ?_⟩
          have := Spec.Reads.more (step := step) (buf.take t.len) (buf.drop t.len) s s' t k _ (by rw [← hsplit]; exact hd) hpre
            hs hk
          rw [← hsplit] at this
          simpa [bind, Except.bind, hs] using this

/-- C56 (c): whatever it ends with, the unbounded loop has read at most `length / 4` elements. -/
theorem C56_at_most_a_quarter {σ : Type} (step : σ → Tlv → Py σ) (buf : Bytes) (s : σ) (k : Nat) (r : Py σ)
    (h : Spec.Reads step buf s k r) : k ≤ buf.length / 4 := by
  have : 4 * k ≤ buf.length := by
    induction h with
    | done s => simp
    | bad => simp
    | stop pre rest s t e hd hp hs =>
      have := (C56_element_inside_buffer _ t hd).1
      rw [List.length_append]; omega
    | more pre rest s s' t k r hd hp hs _ ih =>
      have := (C56_element_inside_buffer _ t hd).1
      rw [List.length_append]; omega
  omega

/-- C56 (c'): the unbounded loop has only one outcome on a given input. -/
theorem C56_loop_deterministic {σ : Type} (step : σ → Tlv → Py σ) (buf : Bytes) (s : σ) (k k' : Nat) (r r' : Py σ)
    (h : Spec.Reads step buf s k r) (h' : Spec.Reads step buf s k' r') : k = k' ∧ r = r' := by
  have notnil : ∀ (pre rest : Bytes) (t : Tlv), Tlv.deserialize (pre ++ rest) = .ok t → pre.length = t.len →
      pre ++ rest ≠ [] := by
    intro pre rest t hd hp hnil
    have := (C56_element_inside_buffer _ t hd).1
    have := congrArg List.length hnil
    simp only [List.length_append, List.length_nil] at this
    omega
  have same : ∀ (pre rest pre' rest' : Bytes) (t t' : Tlv), Tlv.deserialize (pre ++ rest) = .ok t → pre.length = t.len →
      Tlv.deserialize (pre' ++ rest') = .ok t' → pre'.length = t'.len → pre ++ rest = pre' ++ rest' →
      t = t' ∧ rest = rest' := by
    intro pre rest pre' rest' t t' hd hp hd' hp' he
    have ht : t = t' := by
      rw [he, hd'] at hd
      exact (Except.ok.inj hd).symm
    subst ht
    exact ⟨rfl, (List.append_inj he (by omega)).2⟩
  induction h generalizing k' r' with
  | done s =>
    generalize hbuf : ([] : Bytes) = buf at h'
    cases h' with
    | done => exact ⟨rfl, rfl⟩
    | bad _ _ e hne => exact absurd hbuf.symm hne
    | stop pre rest s t e hd hp => exact absurd hbuf.symm (notnil pre rest t hd hp)
    | more pre rest s s' t k r hd hp => exact absurd hbuf.symm (notnil pre rest t hd hp)
  | bad buf s e hne hd =>
    cases h' with
    | done => exact absurd rfl hne
    | bad _ _ e' _ hd' =>
      rw [hd] at hd'
      cases hd'
      exact ⟨rfl, rfl⟩
    | stop pre rest s t e hd' hp => rw [hd] at hd'; cases hd'
    | more pre rest s s' t k r hd' hp => rw [hd] at hd'; cases hd'
  | stop pre rest s t e hd hp hs =>
    generalize hbuf : pre ++ rest = buf at h'
    cases h' with
    | done => exact absurd hbuf (notnil pre rest t hd hp)
    | bad _ _ e' _ hd' => rw [← hbuf, hd] at hd'; cases hd'
    | stop pre' rest' _ t' e' hd' hp' hs' =>
      obtain ⟨ht, _⟩ := same pre rest pre' rest' t t' hd hp hd' hp' hbuf
      subst ht
      rw [hs] at hs'
      cases hs'
      exact ⟨rfl, rfl⟩
    | more pre' rest' _ s' t' k r hd' hp' hs' =>
      obtain ⟨ht, _⟩ := same pre rest pre' rest' t t' hd hp hd' hp' hbuf
      subst ht
      rw [hs] at hs'
      cases hs'
  | more pre rest s s₁ t k r hd hp hs _ ih =>
    generalize hbuf : pre ++ rest = buf at h'
    cases h' with
    | done => exact absurd hbuf (notnil pre rest t hd hp)
    | bad _ _ e' _ hd' => rw [← hbuf, hd] at hd'; cases hd'
    | stop pre' rest' _ t' e' hd' hp' hs' =>
      obtain ⟨ht, _⟩ := same pre rest pre' rest' t t' hd hp hd' hp' hbuf
      subst ht
      rw [hs] at hs'
      cases hs'
    | more pre' rest' _ s₂ t' k₂ r₂ hd' hp' hs' hr' =>
      obtain ⟨ht, hrest⟩ := same pre rest pre' rest' t t' hd hp hd' hp' hbuf
      subst ht
      subst hrest
      rw [hs] at hs'
      cases hs'
      obtain ⟨h1, h2⟩ := ih _ _ hr'
      exact ⟨by omega, h2⟩

/-- Non-vacuity: a name of two components is read in two steps; a truncated one stops with an exception after one. -/
example : Spec.Reads Name.parseStep [0, 1, 0, 1, 97, 0, 1, 0, 1, 98] [] 2
    (.ok [⟨1, [97], false⟩, ⟨1, [98], false⟩]) := by
  refine .more [0, 1, 0, 1, 97] [0, 1, 0, 1, 98] [] [⟨1, [97], false⟩] ⟨1, [97]⟩ 1 _ (by decide) (by decide) (by decide) ?_
  exact .more [0, 1, 0, 1, 98] [] _ [⟨1, [97], false⟩, ⟨1, [98], false⟩] ⟨1, [98]⟩ 0 _ (by decide) (by decide) (by decide) (.done _)
example : Spec.Reads Name.parseStep [0, 1, 0, 1, 97, 0, 1, 0] [] 1 (.error .parseError) := by
  refine .more [0, 1, 0, 1, 97] [0, 1, 0] [] [⟨1, [97], false⟩] ⟨1, [97]⟩ 0 _ (by decide) (by decide) (by decide) ?_
  exact .bad _ _ _ (by decide) (by decide)

/-- C56 (d): no parser of the model, on any input, reports running out of fuel: every result is a value or an exception that
the Python code raises. -/
theorem C56_parsers_terminate (now : F64) (buf : Bytes) :
    Packet.deserialize now buf ≠ .error .nonTermination ∧
    Manifest.deserialize buf ≠ .error .nonTermination ∧
    FixedHeader.deserialize buf ≠ .error .nonTermination ∧
    Tlv.deserialize buf ≠ .error .nonTermination ∧
    Link.deserialize buf ≠ .error .nonTermination ∧
    HashValue.deserialize buf ≠ .error .nonTermination ∧
    AeadData.parse buf ≠ .error .nonTermination ∧
    RsaOaepWrapper.parse buf ≠ .error .nonTermination :=
  ⟨Halts.out, Halts.out, Halts.out, Halts.out, Halts.out, Halts.out, Halts.out, Halts.out⟩

/-- C56 (d'): the same for every parser that starts from an outer TLV. -/
theorem C56_tlv_parsers_terminate (now : F64) (t : Tlv) :
    Name.parse t ≠ .error .nonTermination ∧
    ContentObject.parse t ≠ .error .nonTermination ∧
    ValidationAlg.parse now t ≠ .error .nonTermination ∧
    KeyLink.parse t ≠ .error .nonTermination ∧
    GroupData.parse t ≠ .error .nonTermination ∧
    pointersParse t ≠ .error .nonTermination ∧
    HashGroup.parse t ≠ .error .nonTermination ∧
    locatorsParse t ≠ .error .nonTermination ∧
    NcSchema.parse t ≠ .error .nonTermination ∧
    NcDef.parse t ≠ .error .nonTermination ∧
    Vendor.parse t ≠ .error .nonTermination ∧
    NodeData.parse t ≠ .error .nonTermination ∧
    Node.parse t ≠ .error .nonTermination ∧
    KdfData.parse t ≠ .error .nonTermination ∧
    SecurityCtx.parse t ≠ .error .nonTermination :=
  ⟨Halts.out, Halts.out, Halts.out, Halts.out, Halts.out, Halts.out, Halts.out, Halts.out, Halts.out, Halts.out, Halts.out,
    Halts.out, Halts.out, Halts.out, Halts.out⟩

/-- C56 (e): bytes that follow a complete outer TLV never change what a parser makes of it. -/
theorem C56_trailing_bytes_ignored {α : Type} (parse : Tlv → Py α) (buf extra : Bytes) (t : Tlv)
    (h : Tlv.deserialize buf = .ok t) : ofWire parse (buf ++ extra) = ofWire parse buf := by
  obtain ⟨hv, hb⟩ := Tlv.deserialize_inv h
  have : Tlv.deserialize (buf ++ extra) = .ok t := by
    rw [hb, List.append_assoc]
    exact Tlv.deserialize_bytes t hv _
  unfold ofWire
  rw [h, this]

/-- C56 (e'): the loops stop exactly at the end of the outer value: bytes inside a container are read as part of a TLV that
lies in it entirely, or not at all. -/
theorem C56_elements_tile_the_value {σ : Type} (step : σ → Tlv → Py σ) (buf : Bytes) (s s' : σ)
    (h : tlvLoop step buf s = .ok s') :
    ∃ parts : List (Bytes × Tlv), buf = (parts.map (·.1)).flatten ∧
      (∀ p ∈ parts, Tlv.deserialize p.1 = .ok p.2 ∧ p.1.length = p.2.len) ∧
      (parts.map (·.2)).foldlM step s = .ok s' := by
  obtain ⟨l, hl, hb, hf⟩ := tlvLoop_inv step buf s s' h
  refine ⟨l.map fun t => (t.bytes, t), ?_, ?_, ?_⟩
  · rw [hb, List.map_map]; rfl
  · intro p hp
    obtain ⟨t, ht, rfl⟩ := List.mem_map.mp hp
    refine ⟨?_, ?_⟩
    · have := Tlv.deserialize_bytes t (hl t ht) []
      simpa using this
    · simp [Tlv.bytes, be16, Tlv.len, Tlv.length]; omega
  · rw [List.map_map]
    have : (fun x : Bytes × Tlv => x.2) ∘ (fun t : Tlv => (t.bytes, t)) = id := rfl
    rw [this, List.map_id]
    exact hf

example : tlvLoop Name.parseStep [0, 1, 0, 1, 97] [] = .ok [⟨1, [97], false⟩] := by decide

end Ccnpy
