import Verif.Model.Flic

/-!
# Objects that iterate over themselves

`Tlv`, `HashValue`, `Timestamp`, `Link` and `Pointers` are their own iterators: `__iter__` sets `_offset` on the object and returns the
object.  `FileMetadata` and `FileChunks` make a new iterator, which runs backwards.
-/

namespace Ccnpy

/-- core/Tlv.py:84-94, core/HashValue.py:56-66, core/Timestamp.py:51-61, core/Link.py:80-90, flic/tlvs/Pointers.py:62-72: what is
iterated over and the attribute `_offset`, which does not exist before the first `iter()`. -/
structure SelfIter (α : Type) where
  items : List α
  offset : Option Nat := none

/-- `__iter__` (see `SelfIter`) -/
def SelfIter.iter {α : Type} (s : SelfIter α) : SelfIter α := { s with offset := some 0 }

/-- `__next__` (see `SelfIter`); `none` is StopIteration. -/
def SelfIter.next {α : Type} : PyS (SelfIter α) (Option α) := fun s =>
  match s.offset with
  | none => (.error .attributeError, s)
  | some k =>
    if k == s.items.length then (.ok none, s)
    else
      match s.items[k]? with
      | none => (.error .indexError, s)
      | some x => (.ok (some x), { s with offset := some (k + 1) })

/-- core/Tlv.py:84-94: the bytes of the wire format -/
def Tlv.selfIter (t : Tlv) : Py (SelfIter UInt8) := do return { items := ← t.serialize }

/-- core/HashValue.py:56-66 -/
def HashValue.selfIter (h : HashValue) : Py (SelfIter UInt8) := do return { items := ← (← h.tlv).serialize }

/-- core/Timestamp.py:51-61 -/
def timestampSelfIter (ty : Nat) (x : F64) : Py (SelfIter UInt8) := do return { items := ← (← timestampTlv ty x).serialize }

/-- flic/tlvs/Pointers.py:62-72 -/
def pointersSelfIter (l : List HashValue) : SelfIter HashValue := { items := l }

/-- A statement that works on `σ`; a transparent `PyS`. -/
abbrev Stmt (σ α : Type) := σ → Py α × σ

/-- The loop of `for x in obj`, after `iter(obj)`.  The body can use the object itself; it says whether to go on (`False`: `break`).
The fuel bounds the number of rounds. -/
def forRounds {α σ : Type} (body : α → Stmt (SelfIter α × σ) Bool) : Nat → Stmt (SelfIter α × σ) Unit
  | 0, s => (.error .nonTermination, s)
  | fuel + 1, (it, st) =>
    match it.next with
    | (.error e, it) => (.error e, (it, st))
    | (.ok none, it) => (.ok (), (it, st))
    | (.ok (some x), it) =>
      match body x (it, st) with
      | (.error e, s) => (.error e, s)
      | (.ok false, s) => (.ok (), s)
      | (.ok true, s) => forRounds body fuel s

/-- `for x in obj: body` -/
def forSelf {α σ : Type} (body : α → Stmt (SelfIter α × σ) Bool) (fuel : Nat) : Stmt (SelfIter α × σ) Unit := fun s =>
  forRounds body fuel (s.1.iter, s.2)

/-- flic/tlvs/Node.py:169-170: `for hv in hg.pointers(): hash_values.append(hv)` -/
def collect {α : Type} (fuel : Nat) : Stmt (SelfIter α × List α) Unit :=
  forSelf (fun x s => (.ok true, (s.1, s.2 ++ [x]))) fuel

/-- `for x in a: for y in a: out.append((x, y))` -/
def collectPairs {α : Type} (fuel : Nat) : Stmt (SelfIter α × List (α × α)) Unit :=
  forSelf (fun x s =>
    match forSelf (fun y s => (.ok true, (s.1, s.2 ++ [(x, y)]))) fuel s with
    | (.error e, s) => (.error e, s)
    | (.ok (), s) => (.ok true, s)) fuel

/-- `for x in a: for y in a: break` -/
def firstOfEach {α : Type} (fuel : Nat) : Stmt (SelfIter α × Unit) Unit :=
  forSelf (fun _ s =>
    match forSelf (fun _ s => (.ok false, s)) fuel s with
    | (.error e, s) => (.error e, s)
    | (.ok (), s) => (.ok true, s)) fuel

/-! ## flic/name_constructor/FileMetadata.py and flic/tree/FileChunks.py -/

/-- flic/name_constructor/FileMetadata.py:71-85, flic/tree/FileChunks.py:46-63 -/
structure RevIter (α : Type) where
  items : List α
  offset : Int

/-- flic/name_constructor/FileMetadata.py:48-49, 68-74, flic/tree/FileChunks.py:23-24, 43-52 -/
def RevIter.new {α : Type} (l : List α) : RevIter α := ⟨l, l.length - 1⟩

/-- flic/name_constructor/FileMetadata.py:76-85, flic/tree/FileChunks.py:54-63; `none` is StopIteration.  An offset beyond the end
raises IndexError. -/
def RevIter.next {α : Type} : PyS (RevIter α) (Option α) := fun s =>
  if s.offset < 0 then (.ok none, s)
  else
    match s.items[s.offset.toNat]? with
    | none => (.error .indexError, s)
    | some x => (.ok (some x), { s with offset := s.offset - 1 })

/-- The loop of `for x in file`, after `iter(file)`, as in `forRounds`: the iterator is an object of its own. -/
def forRevRounds {α σ : Type} (body : α → Stmt σ Bool) : Nat → RevIter α → Stmt σ Unit
  | 0, _, s => (.error .nonTermination, s)
  | fuel + 1, it, s =>
    match it.next with
    | (.error e, _) => (.error e, s)
    | (.ok none, _) => (.ok (), s)
    | (.ok (some x), it) =>
      match body x s with
      | (.error e, s) => (.error e, s)
      | (.ok false, s) => (.ok (), s)
      | (.ok true, s) => forRevRounds body fuel it s

/-- `for x in file: body` -/
def forRev {α σ : Type} (l : List α) (body : α → Stmt σ Bool) (fuel : Nat) : Stmt σ Unit := forRevRounds body fuel (RevIter.new l)

/-- `for x in file: for y in file: out.append((x, y))` -/
def collectRevPairs {α : Type} (l : List α) (fuel : Nat) : Stmt (List (α × α)) Unit :=
  forRev l (fun x s =>
    match forRev l (fun y s => (.ok true, s ++ [(x, y)])) fuel s with
    | (.error e, s) => (.error e, s)
    | (.ok (), s) => (.ok true, s)) fuel

end Ccnpy
