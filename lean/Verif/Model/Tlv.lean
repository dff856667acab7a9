import Verif.Model.Base

/-!
# `ccnpy/core/Tlv.py`
-/

namespace Ccnpy

/-- One element given to `array.array("B", [...])`: Python raises `OverflowError` unless `0 ≤ x ≤ 255`. -/
def byte (x : Int) : Py UInt8 :=
  if 0 ≤ x ∧ x ≤ 255 then .ok (UInt8.ofNat x.toNat) else .error .overflowError

/-- `array.array("B", byte_list)` for a list of Python ints. -/
def byteArray (l : List Int) : Py Bytes := l.mapM byte

/-- `x & 0xFF` on a Python int (two's complement semantics for negatives, i.e. the residue mod 256). -/
def maskFF (x : Int) : Int := x % 256

/-- core/Tlv.py:181-183 `_tlv_encode`: `[uint16 >> 8, uint16 & 0xFF]`, then turned into an array at line 146. -/
def tlvEncode (n : Nat) : Py Bytes := byteArray [(n : Int) >>> 8, maskFF n]

/-- core/Tlv.py:21, 65-69.  A TLV object: its type and its (flattened) value. -/
structure Tlv where
  type : Nat
  value : Bytes
  deriving DecidableEq, Repr

/-- core/Tlv.py:178-179 `length` -/
def Tlv.length (t : Tlv) : Nat := t.value.length

/-- core/Tlv.py:77-82 `__len__` -/
def Tlv.len (t : Tlv) : Nat := 4 + t.length

/-- core/Tlv.py:141-147 `_serialize`.  Fails when the type or length does not fit 16 bits because the list is
converted with `array.array("B", …)`. -/
def Tlv.serialize (t : Tlv) : Py Bytes := do
  let a ← tlvEncode t.type
  let b ← tlvEncode t.length
  return a ++ b ++ t.value

/-- core/Tlv.py:65-69 `__init__`: the constructor serializes eagerly, so it raises when serialization does. -/
def mkTlv (type : Nat) (value : Bytes) : Py Tlv := do
  let _ ← Tlv.serialize ⟨type, value⟩
  return ⟨type, value⟩

/-- core/Tlv.py:263-268 `array_to_number` -/
def arrayToNumber (a : Bytes) : Nat := a.foldl (fun n b => (n <<< 8) ||| b.toNat) 0

/-- core/Tlv.py:175-176 `value_as_number` -/
def Tlv.valueAsNumber (t : Tlv) : Nat := arrayToNumber t.value

/-- core/Tlv.py:107-119 `deserialize`.  Slicing past the end is harmless in Python, like `take`/`drop`. -/
def Tlv.deserialize (buffer : Bytes) : Py Tlv :=
  if buffer.length < 4 then .error .parseError
  else
    let type := arrayToNumber (buffer.take 2)
    let length := arrayToNumber ((buffer.drop 2).take 2)
    let value := (buffer.drop 4).take length
    if length ≠ value.length then .error .parseError
    else mkTlv type value

/-- core/Tlv.py:96-102 `__eq__`: compares length and value, not the type.  (Both values are taken to be arrays.) -/
def Tlv.pyEq (a b : Tlv) : Bool := a.len == b.len && a.value == b.value

/-- core/Tlv.py:104-105 `__hash__`: the bytes that are hashed.  The model returns the hashed bytes themselves. -/
def Tlv.hashInput (t : Tlv) : Py Bytes := t.serialize

/-- core/Tlv.py:191-215 `number_to_array` -/
def numberToArray (n : Int) : Py Bytes :=
  if n < 0x100 then byteArray [n]
  else if n < 0x10000 then byteArray [n >>> 8, maskFF n]
  else if n < 0x1000000 then byteArray [n >>> 16, maskFF (n >>> 8), maskFF n]
  else if n < 0x100000000 then byteArray [n >>> 24, maskFF (n >>> 16), maskFF (n >>> 8), maskFF n]
  else byteArray [maskFF (n >>> 56), maskFF (n >>> 48), maskFF (n >>> 40), maskFF (n >>> 32),
                  maskFF (n >>> 24), maskFF (n >>> 16), maskFF (n >>> 8), maskFF n]

/-- core/Tlv.py:217-227 `uint64_to_array` -/
def uint64ToArray (n : Int) : Py Bytes :=
  byteArray [maskFF (n >>> 56), maskFF (n >>> 48), maskFF (n >>> 40), maskFF (n >>> 32),
             maskFF (n >>> 24), maskFF (n >>> 16), maskFF (n >>> 8), maskFF n]

/-- core/Tlv.py:229-238 `uint32_to_array` -/
def uint32ToArray (n : Int) : Py Bytes :=
  byteArray [n >>> 24, maskFF (n >>> 16), maskFF (n >>> 8), maskFF n]

/-- core/Tlv.py:240-249 `uint24_to_array` -/
def uint24ToArray (n : Int) : Py Bytes :=
  byteArray [n >>> 16, maskFF (n >>> 8), maskFF n]

/-- core/Tlv.py:251-261 `uint16_to_array` -/
def uint16ToArray (n : Int) : Py Bytes := do
  pyAssert (decide (0 ≤ n ∧ n ≤ 0xFFFF))
  byteArray [n >>> 8, maskFF n]

/-- core/Tlv.py:22-30 `create_uint64` -/
def createUint64 (type : Nat) (n : Int) : Py Tlv := do mkTlv type (← uint64ToArray n)

/-- core/Tlv.py:32-41 `create_uint8` -/
def createUint8 (type : Nat) (n : Int) : Py Tlv := do
  pyAssert (decide (0 ≤ n ∧ n ≤ 255))
  mkTlv type (← numberToArray n)

/-- core/Tlv.py:43-52 `create_uint16` -/
def createUint16 (type : Nat) (n : Int) : Py Tlv := do
  pyAssert (decide (0 ≤ n ∧ n ≤ 0xFFFF))
  mkTlv type (← uint16ToArray n)

/-- core/Tlv.py:54-63 `create_varint` -/
def createVarint (type : Nat) (n : Int) : Py Tlv := do mkTlv type (← numberToArray n)

/-- core/Tlv.py:149-167 `extend` -/
def Tlv.extend (t other : Tlv) : Py Tlv := do
  let ext ← other.serialize
  mkTlv t.type (t.value ++ ext)

/-- core/Tlv.py:121-136 `flatten` on a list of already serialized members; absent (`None`) members are skipped. -/
def flatten (l : List (Option Bytes)) : Bytes := (l.filterMap id).flatten

/-- The loop that every container parser runs over the value of its TLV, e.g. core/Name.py:172-188,
core/ContentObject.py:199-220, core/TlvType.py:92-112, flic/tlvs/Node.py:180-200:

    offset = 0
    while offset < len(value):
        inner_tlv = Tlv.deserialize(value[offset:])
        offset += len(inner_tlv)
        <body using inner_tlv>

`s` is the state kept in local variables and `step` the loop body.  `fuel` bounds the number of iterations; the loop is
always started with `fuel = buf.length` (see `tlvLoop`), and C56 proves that it never runs out. -/
def tlvLoopAux {σ : Type} (step : σ → Tlv → Py σ) : Nat → Bytes → σ → Py σ
  | fuel, buf, s =>
    if buf.length = 0 then .ok s
    else match fuel with
      | 0 => .error .nonTermination
      | fuel + 1 =>
        match Tlv.deserialize buf with
        | .error e => .error e
        | .ok inner =>
          match step s inner with
          | .error e => .error e
          | .ok s' => tlvLoopAux step fuel (buf.drop inner.len) s'

/-- See `tlvLoopAux`. -/
def tlvLoop {σ : Type} (step : σ → Tlv → Py σ) (buf : Bytes) (s : σ) : Py σ :=
  tlvLoopAux step buf.length buf s

end Ccnpy
