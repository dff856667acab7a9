/-!
# Base definitions: bytes and Python exceptions
-/

namespace Ccnpy

/-- Python `array('B')` / `bytes` / lists of small ints used as byte buffers. -/
abbrev Bytes := List UInt8

/-- The exception classes that the modelled code raises or lets through (messages dropped).
`nonTermination` is not a Python exception: it marks fuel exhaustion in a modelled loop; property C56 proves that
no parser ever returns it.  `idsExhausted` is the OverflowError raised by `ManifestIdFactory.get_next_id`, kept apart from the
other sources of OverflowError so that C42 can say that it is never raised. -/
inductive PyErr where
  | parseError            -- ccnpy/exceptions/ParseError.py
  | cannotParseError      -- ccnpy/exceptions/CannotParseError.py
  | runtimeError
  | valueError
  | typeError
  | assertionError
  | overflowError
  | structError           -- struct.error
  | keyError
  | attributeError
  | indexError
  | decryptionError       -- ccnpy/crypto/DecryptionError.py
  | keyNumberNotFound     -- ccnpy/crypto/InsecureKeystore.py
  | keyIdNotFound         -- ccnpy/crypto/InsecureKeystore.py
  | zeroDivisionError
  | invalidTag            -- cryptography.exceptions.InvalidTag
  | notImplementedError
  | fileNotFoundError
  | osError               -- the C library refuses a time
  | nameError             -- an undefined variable is used
  | idsExhausted          -- OverflowError, flic/tree/ManifestIdFactory.py:43-44
  | nonTermination
  deriving DecidableEq, Repr

abbrev Py (α : Type) := Except PyErr α

/-- Results can be compared (used by concrete `example`s only). -/
instance {ε α : Type} [DecidableEq ε] [DecidableEq α] : DecidableEq (Except ε α)
  | .ok a, .ok b => if h : a = b then isTrue (by rw [h]) else isFalse (by intro h'; cases h'; exact h rfl)
  | .error a, .error b => if h : a = b then isTrue (by rw [h]) else isFalse (by intro h'; cases h'; exact h rfl)
  | .ok _, .error _ => isFalse (by intro h; cases h)
  | .error _, .ok _ => isFalse (by intro h; cases h)

/-- `assert cond` -/
def pyAssert (b : Bool) : Py Unit := if b then .ok () else .error .assertionError

/-- Apply a fallible function under `Option` (absent stays absent): the `x if x is None else f(x)` idiom. -/
def optM {α β : Type} (f : α → Py β) : Option α → Py (Option β)
  | none => .ok none
  | some a => match f a with
    | .ok b => .ok (some b)
    | .error e => .error e

/-! ## Python code with state

Methods that change objects and may raise are functions from the state to a result and a new state; the new state is kept
when an exception is raised. -/

/-- A Python computation over mutable state `σ`. -/
def PyS (σ α : Type) : Type := σ → Py α × σ

/-- Sequential composition: after an exception nothing more runs, but earlier changes of the state stay. -/
def PyS.bind {σ α β : Type} (x : PyS σ α) (f : α → PyS σ β) : PyS σ β := fun s =>
  match x s with
  | (.ok a, s') => f a s'
  | (.error e, s') => (.error e, s')

instance {σ : Type} : Monad (PyS σ) where
  pure a := fun s => (.ok a, s)
  bind := PyS.bind

/-- A computation that does not touch the state. -/
def PyS.lift {σ α : Type} (x : Py α) : PyS σ α := fun s => (x, s)

/-- Read the state. -/
def PyS.get {σ : Type} : PyS σ σ := fun s => (.ok s, s)

/-- Change the state. -/
def PyS.modify {σ : Type} (f : σ → σ) : PyS σ Unit := fun s => (.ok (), f s)

end Ccnpy
