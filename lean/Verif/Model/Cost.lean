import Verif.Model.Tlv

/-!
What the parsing loops copy.
-/

namespace Ccnpy

/-- The loop of `tlvLoopAux` (core/TlvType.py:92-116, core/Name.py:165-188, flic/tlvs/Node.py:173-202 and the others listed there),
with a count of the bytes that the slice `value[offset:]` copies in each round (`array.array` slices are copies).  The copies made by
`Tlv.deserialize` itself are not counted: they are at most the length of the element twice, so at most twice the buffer for a
whole loop. -/
def tlvLoopCopies {σ : Type} (step : σ → Tlv → Py σ) : Nat → Bytes → σ → Py σ × Nat
  | fuel, buf, s =>
    if buf.length = 0 then (.ok s, 0)
    else match fuel with
      | 0 => (.error .nonTermination, 0)
      | fuel + 1 =>
        match Tlv.deserialize buf with
        | .error e => (.error e, buf.length)
        | .ok inner =>
          match step s inner with
          | .error e => (.error e, buf.length)
          | .ok s' =>
            let r := tlvLoopCopies step fuel (buf.drop inner.len) s'
            (r.1, buf.length + r.2)

/-- The bytes copied by the loop over a value. -/
def copied {σ : Type} (step : σ → Tlv → Py σ) (buf : Bytes) (s : σ) : Nat := (tlvLoopCopies step buf.length buf s).2

end Ccnpy
