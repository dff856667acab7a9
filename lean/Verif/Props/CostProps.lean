import Mathlib.Tactic.Ring
import Mathlib.Tactic.Linarith
import Verif.Model.Cost
import Verif.Props.ParseProps
import Verif.Lemmas.Schema
import Verif.Props.PacketProps

/-!
C104: how much the parsing loops copy.
-/

namespace Ccnpy

theorem copies_nil {σ : Type} {step : σ → Tlv → Py σ} {fuel : Nat} {buf : Bytes} {s : σ} (h : buf.length = 0) :
    tlvLoopCopies step fuel buf s = (.ok s, 0) := by
  rw [tlvLoopCopies.eq_def]
  simp only [h, if_true]

theorem copies_zero {σ : Type} {step : σ → Tlv → Py σ} {buf : Bytes} {s : σ} (h : buf.length ≠ 0) :
    tlvLoopCopies step 0 buf s = (.error .nonTermination, 0) := by
  rw [tlvLoopCopies.eq_def]
  simp only [h, if_false]

theorem copies_bad {σ : Type} {step : σ → Tlv → Py σ} {fuel : Nat} {buf : Bytes} {s : σ} {e : PyErr} (h : buf.length ≠ 0)
    (hd : Tlv.deserialize buf = .error e) : tlvLoopCopies step (fuel + 1) buf s = (.error e, buf.length) := by
  rw [tlvLoopCopies.eq_def]
  simp only [h, if_false, hd]

theorem copies_stop {σ : Type} {step : σ → Tlv → Py σ} {fuel : Nat} {buf : Bytes} {s : σ} {e : PyErr} {t : Tlv}
    (h : buf.length ≠ 0) (hd : Tlv.deserialize buf = .ok t) (hs : step s t = .error e) :
    tlvLoopCopies step (fuel + 1) buf s = (.error e, buf.length) := by
  rw [tlvLoopCopies.eq_def]
  simp only [h, if_false, hd, hs]

theorem copies_more {σ : Type} {step : σ → Tlv → Py σ} {fuel : Nat} {buf : Bytes} {s s' : σ} {t : Tlv}
    (h : buf.length ≠ 0) (hd : Tlv.deserialize buf = .ok t) (hs : step s t = .ok s') :
    tlvLoopCopies step (fuel + 1) buf s =
      ((tlvLoopCopies step fuel (buf.drop t.len) s').1, buf.length + (tlvLoopCopies step fuel (buf.drop t.len) s').2) := by
  conv => lhs; rw [tlvLoopCopies.eq_def]
  simp only [h, if_false, hd, hs]

theorem tlvLoopCopies_result {σ : Type} (step : σ → Tlv → Py σ) (fuel : Nat) (buf : Bytes) (s : σ) :
    (tlvLoopCopies step fuel buf s).1 = tlvLoopAux step fuel buf s := by
  induction fuel generalizing buf s with
  | zero =>
    rw [tlvLoopAux.eq_def]
    by_cases hz : buf.length = 0
    · simp only [hz, if_true, copies_nil hz]
    · simp only [hz, if_false, copies_zero hz]
  | succ fuel ih =>
    rw [tlvLoopAux.eq_def]
    by_cases hz : buf.length = 0
    · simp only [hz, if_true, copies_nil hz]
    · simp only [hz, if_false]
      cases hd : Tlv.deserialize buf with
      | error e => rw [copies_bad hz hd]
      | ok t =>
        dsimp only
        cases hs : step s t with
        | error e => rw [copies_stop hz hd hs]
        | ok s' => rw [copies_more hz hd hs]; exact ih _ _

/-- **C104.**  Counting changes nothing: the counted loop is the loop of the parsers. -/
theorem C104_same_loop {σ : Type} (step : σ → Tlv → Py σ) (buf : Bytes) (s : σ) :
    (tlvLoopCopies step buf.length buf s).1 = tlvLoop step buf s := tlvLoopCopies_result step _ buf s

theorem copies_bound {σ : Type} (step : σ → Tlv → Py σ) (fuel : Nat) (buf : Bytes) (s : σ) :
    8 * (tlvLoopCopies step fuel buf s).2 ≤ buf.length * (buf.length + 8) ∧
    ∀ s', (tlvLoopCopies step fuel buf s).1 = .ok s' →
      8 * (tlvLoopCopies step fuel buf s).2 ≤ buf.length * (buf.length + 4) := by
  induction fuel generalizing buf s with
  | zero =>
    by_cases hz : buf.length = 0
    · rw [copies_nil hz]; simp
    · rw [copies_zero hz]; simp
  | succ fuel ih =>
    by_cases hz : buf.length = 0
    · rw [copies_nil hz]; simp
    · cases hd : Tlv.deserialize buf with
      | error e => rw [copies_bad hz hd]; exact ⟨by dsimp only; nlinarith, nofun⟩
      | ok t =>
        cases hs : step s t with
        | error e => rw [copies_stop hz hd hs]; exact ⟨by dsimp only; nlinarith, nofun⟩
        | ok s' =>
          rw [copies_more hz hd hs]
          obtain ⟨h4, hl, _⟩ := C56_element_inside_buffer buf t hd
          obtain ⟨i1, i2⟩ := ih (buf.drop t.len) s'
          obtain ⟨d, hd'⟩ := Nat.exists_eq_add_of_le hl
          have e : (buf.drop t.len).length = d := by rw [List.length_drop]; omega
          rw [e] at i1 i2
          dsimp only
          rw [hd']
          exact ⟨by nlinarith, fun s2 h => by have := i2 s2 h; nlinarith⟩

/-- **C104.**  Whatever is parsed, with whatever outcome, the loop copies at most about an eighth of the square of the length. -/
theorem C104_bound {σ : Type} (step : σ → Tlv → Py σ) (buf : Bytes) (s : σ) :
    8 * copied step buf s ≤ buf.length * (buf.length + 8) := (copies_bound step _ buf s).1

/-- **C104.**  A value that is accepted costs at most `n (n + 4) / 8` bytes. -/
theorem C104_bound_accepted {σ : Type} (step : σ → Tlv → Py σ) (buf : Bytes) (s s' : σ) (h : tlvLoop step buf s = .ok s') :
    8 * copied step buf s ≤ buf.length * (buf.length + 4) :=
  (copies_bound step _ buf s).2 s' ((C104_same_loop step buf s).trans h)

/-- `k` elements of type `ty` without a value. -/
def Spec.empties (ty k : Nat) : Bytes := (List.replicate k (be16 ty ++ [0, 0])).flatten

theorem empties_length (ty k : Nat) : (Spec.empties ty k).length = 4 * k := by
  simp [Spec.empties, be16]; omega

theorem empties_succ (ty k : Nat) : Spec.empties ty (k + 1) = be16 ty ++ [0, 0] ++ Spec.empties ty k := by
  simp [Spec.empties, List.replicate_succ]

theorem copies_empties {σ : Type} (step : σ → Tlv → Py σ) (ty : Nat) (hty : ty ≤ 0xFFFF)
    (hstep : ∀ s, ∃ s', step s ⟨ty, []⟩ = .ok s') (k fuel : Nat) (hf : k ≤ fuel) (s : σ) :
    (tlvLoopCopies step fuel (Spec.empties ty k) s).2 = 2 * k * (k + 1) := by
  induction k generalizing fuel s with
  | zero => rw [copies_nil (by simp [Spec.empties])]
  | succ k ih =>
    obtain ⟨g, rfl⟩ : ∃ g, fuel = g + 1 := ⟨fuel - 1, by omega⟩
    have hlen : (Spec.empties ty (k + 1)).length = 4 * (k + 1) := empties_length ty (k + 1)
    have hd : Tlv.deserialize (Spec.empties ty (k + 1)) = .ok ⟨ty, []⟩ := by
      have := Tlv.deserialize_bytes ⟨ty, []⟩ ⟨hty, by simp⟩ (Spec.empties ty k)
      rw [empties_succ]
      simpa [Tlv.bytes, be16, Tlv.length] using this
    obtain ⟨s', hs'⟩ := hstep s
    rw [copies_more (by omega) hd hs']
    have hdrop : (Spec.empties ty (k + 1)).drop (Tlv.len ⟨ty, []⟩) = Spec.empties ty k := by
      rw [empties_succ]; rfl
    simp only [hdrop, ih g (by omega) s', hlen]
    ring

/-- **C104.**  The bound is reached: a value of `k` empty elements that the parser accepts costs exactly `2 k (k + 1)` bytes, that is
`n (n + 4) / 8` for its length `n = 4 k`. -/
theorem C104_worst {σ : Type} (step : σ → Tlv → Py σ) (ty k : Nat) (hty : ty ≤ 0xFFFF)
    (hstep : ∀ s, ∃ s', step s ⟨ty, []⟩ = .ok s') (s : σ) :
    copied step (Spec.empties ty k) s = 2 * k * (k + 1) ∧
    8 * copied step (Spec.empties ty k) s = (Spec.empties ty k).length * ((Spec.empties ty k).length + 4) := by
  have h := copies_empties step ty hty hstep k (Spec.empties ty k).length (by rw [empties_length]; omega) s
  refine ⟨h, ?_⟩
  rw [empties_length]
  have h : copied step (Spec.empties ty k) s = 2 * k * (k + 1) := h
  rw [h]
  ring

/-- The name of `k` empty name segments. -/
def Spec.emptyName (k : Nat) : Name := ⟨List.replicate k ⟨1, [], false⟩⟩

theorem emptyName_tlv (k : Nat) (hk : k ≤ 16383) : (Spec.emptyName k).tlv = .ok ⟨T_NAME, Spec.empties 1 k⟩ := by
  have he : bytesAll ((Spec.emptyName k).components.map NameComponent.asTlv) = Spec.empties 1 k := by
    simp only [Spec.emptyName, List.map_replicate, bytesAll, Spec.empties]
    rfl
  rw [Name.tlv_iff]
  refine ⟨fun c hc => ?_, by rw [he, empties_length]; omega, by rw [he]⟩
  rw [(List.mem_replicate.mp hc).2]
  exact ⟨by decide, by decide⟩

theorem nameStep_accepts (s : List NameComponent) : ∃ s', Name.parseStep s ⟨1, []⟩ = .ok s' := ⟨s ++ [⟨1, [], false⟩], rfl⟩

/-- **C104.**  Such packets are accepted: for every `k` up to 16379 there is a packet of `4 k + 16` bytes (a content object that has
nothing but a name of `k` empty segments), which the package makes, writes and reads back as it was, and reading its name copies
`2 k (k + 1)` bytes: more than half a gigabyte for the largest. -/
theorem C104_packet (now : F64) (k : Nat) (hk : k ≤ 16379) :
    ∃ p w, Packet.createContentObject { name := some (Spec.emptyName k) } = .ok p ∧ p.serialize = .ok w ∧
      w.length = 4 * k + 16 ∧ Packet.deserialize now w = .ok p ∧ Spec.empties 1 k <:+: w ∧
      copied Name.parseStep (Spec.empties 1 k) [] = 2 * k * (k + 1) := by
  have hn := emptyName_tlv k (by omega)
  have hlen := empties_length 1 k
  have hv : (⟨T_NAME, Spec.empties 1 k⟩ : Tlv).Valid := ⟨by simp [T_NAME], by dsimp only; rw [hlen]; omega⟩
  have hv2 : (⟨T_OBJECT, bytesAll [⟨T_NAME, Spec.empties 1 k⟩]⟩ : Tlv).Valid :=
    ⟨by simp [T_OBJECT], by simp [Tlv.len, Tlv.length, hlen]; omega⟩
  have hb : ({ name := some (Spec.emptyName k) } : ContentObject).tlv
      = .ok ⟨T_OBJECT, bytesAll [⟨T_NAME, Spec.empties 1 k⟩]⟩ := by
    simp only [ContentObject.tlv, ContentObject.members, optTlv, hn, ok_bind, pure_eq_ok, List.append_nil]
    exact container_of_valid (by simpa using hv) hv2
  have htl : 8 + (⟨T_OBJECT, bytesAll [⟨T_NAME, Spec.empties 1 k⟩]⟩ : Tlv).len = 4 * k + 16 := by
    simp [Tlv.len, Tlv.length, hlen]; omega
  have hc := createContentObject_eq hb
  rw [htl, if_pos (by omega)] at hc
  have hcr := Packet.created (.inl ⟨_, hc⟩)
  obtain ⟨c1, c2, _, c4, w, hw, c5⟩ := hcr
  have hd := packet_RT now hw c1 c2 (by rw [c5]; rw [← c5]; show 8 ≤ 4 * k + 16; omega) c4
    ⟨by nofun, by nofun⟩ (by nofun)
  refine ⟨_, w, hc, hw, c5.symm, ?_, ?_, (C104_worst _ 1 k (by omega) nameStep_accepts []).1⟩
  · rw [hd]
    simp [Packet.toBytes, ContentObject.toBytes, Name.toBytes, Spec.emptyName, NameComponent.toBytes]
  · obtain ⟨hb', tb, la, lp, _, htb, _, _, _, _, _, rfl, _⟩ := Packet.serialize_ok hw
    rw [hb] at htb
    cases htb
    refine ⟨hb' ++ (be16 T_OBJECT ++ be16 (bytesAll [(⟨T_NAME, Spec.empties 1 k⟩ : Tlv)]).length ++ be16 T_NAME ++ be16 (4 * k)),
      bytesAll (la ++ lp), ?_⟩
    simp [Tlv.bytes, Tlv.length, hlen]

/-! ### A concrete case -/

/-- Three empty elements: 12 + 8 + 4 bytes. -/
example : copied Name.parseStep (Spec.empties 1 3) [] = 24 := by decide +kernel

/-- The largest of these packets. -/
example : 2 * 16379 * (16379 + 1) = 536576040 := by decide

end Ccnpy
