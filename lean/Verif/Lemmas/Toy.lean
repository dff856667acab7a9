import Verif.Model.Traversal

/-!
# Toy primitives for the concrete examples

Only used in `example`s, to show that hypotheses can be met: a checksum instead of SHA-256, encryption that appends a constant
tag, and so on.  No theorem depends on them.
-/

namespace Ccnpy.Toy

/-- A 32 byte checksum. -/
def sha (b : Bytes) : Bytes :=
  let h := b.foldl (fun (h : Nat) x => (h * 1099511628211 + x.toNat + 17) % 2 ^ 256) 14695981039346656037
  (List.range 32).map (fun i => UInt8.ofNat (h / 256 ^ i % 256))

def prims : Prims where
  sha256 := sha
  strHash := fun b => b.foldl (fun h x => 256 * h + x.toNat + 1) 0
  aeadSeal := fun _ _ _ p _ => .ok (p ++ List.replicate 16 7)
  aeadOpen := fun _ _ _ d _ => .ok (d.take (d.length - 16))
  rsaSign := fun _ d => d
  rsaVerify := fun _ d s => d == s
  oaepEncrypt := fun _ _ p _ => p
  oaepDecrypt := fun _ c _ => .ok c
  hkdf := fun _ k _ _ _ => .ok k

/-- A data object without name. -/
def data (payload : Bytes) : ContentObject := { payloadType := some PT_DATA, payload := some payload }

/-- A data packet; the header has the right length for short payloads. -/
def packet (payload : Bytes) : Packet := ⟨.contentObject (21 + payload.length), data payload, none, none⟩

/-- A named data packet. -/
def named (name payload : Bytes) : Packet :=
  ⟨.contentObject (29 + name.length + payload.length), { data payload with name := some ⟨[.nameSegment name]⟩ }, none, none⟩

end Ccnpy.Toy
