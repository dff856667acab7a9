import Verif.Model.Packet

/-!
# CRC-32C signer and verifier (`ccnpy/crypto/Crc32c.py`)

The checksum itself comes from the `crc32c` package (crypto/Crc32c.py:16), which is not part of /repo.  It is modelled
by the published definition of CRC-32C (RFC 3720 appendix B.4: reflected polynomial 0x82F63B78, initial value and
final xor 0xFFFFFFFF), with the package's documented second argument (the checksum of the preceding data).
-/

namespace Ccnpy

/-- The reflected Castagnoli polynomial. -/
def crcPoly : Nat := 0x82F63B78

/-- One shift of the CRC register. -/
def crcShift (c : Nat) : Nat := if c % 2 = 1 then (c / 2) ^^^ crcPoly else c / 2

/-- One byte: xor it into the register and shift eight times. -/
def crcByte (c : Nat) (b : UInt8) : Nat :=
  crcShift (crcShift (crcShift (crcShift (crcShift (crcShift (crcShift (crcShift (c ^^^ b.toNat))))))))

/-- `crc32c(data, value)` of the `crc32c` package. -/
def crc32c (data : Bytes) (value : Nat) : Nat :=
  (data.foldl crcByte (value ^^^ 0xFFFFFFFF)) ^^^ 0xFFFFFFFF

/-- crypto/Crc32c.py:38-40 and 86-88: the running checksum over the buffers. -/
def crcBuffers (buffers : List Bytes) : Nat := buffers.foldl (fun checksum buffer => crc32c buffer checksum) 0

/-- crypto/Crc32c.py:37-43 `Crc32cSigner.sign`: the bytes of the validation payload.  `ValidationPayload(...)` builds
its TLV, which can raise. -/
def crcSign (buffers : List Bytes) : Py Bytes := do
  construct valPayloadTlv (← uint32ToArray (crcBuffers buffers))

/-- crypto/Crc32c.py:76-91 `Crc32cVerifier.verify`; `ValidationPayload.__eq__` (core/ValidationPayload.py:33-34)
compares the payload bytes. -/
def crcVerify (buffers : List Bytes) (validationPayload : Option Bytes) : Py Bool :=
  match validationPayload with
  | none => .error .valueError
  | some payload => do
    let check ← construct valPayloadTlv (← uint32ToArray (crcBuffers buffers))
    return check == payload

end Ccnpy
