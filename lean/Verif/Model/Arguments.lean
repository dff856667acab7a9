import Verif.Model.Programs

/-!
# From the words of the command line to the arguments: `apps/cli_utils.py:50-82` and `157-168`

Library code is a parameter: how `int(x, 0)` reads a number and `str.upper`.  Of `argparse` the model has what the calls of
`add_argument` ask for: the conversion by `type`, the test of `choices`, the default, and that a later word replaces an earlier one of the same
option.  The splitting of the command line into options and words is not modelled.
-/

namespace Ccnpy

/-- Why the program stops while its words are read: with a usage message (SystemExit), or with an exception. -/
inductive Stop where
  | usage
  | raised (e : PyErr)
  deriving DecidableEq, Repr

abbrev Parsed (α : Type) := Except Stop α

/-- `int(x, 0)`, where `none` is ValueError, and `x.upper()` -/
structure WordEnv where
  int0 : Text → Option Int
  upper : Text → Text

/-- `argparse` calls `type`: TypeError and ValueError make a usage message, other exceptions pass. -/
def converted {α : Type} (x : Py α) : Parsed α :=
  match x with
  | .ok a => .ok a
  | .error .typeError => .error .usage
  | .error .valueError => .error .usage
  | .error e => .error (.raised e)

/-- One option with its word, in the order of apps/cli_utils.py:52-82. -/
inductive Word where
  | keyFile (t : Text)
  | keyPass (t : Text)
  | wrapKey (t : Text)
  | wrapPass (t : Text)
  | encKey (t : Text)
  | aesMode (t : Text)
  | keyNum (t : Text)
  | salt (t : Text)
  | kdf (t : Text)
  | kdfInfo (t : Text)
  | kdfUuid (on : Bool)
  | kdfSalt (t : Text)
  deriving DecidableEq, Repr

/-- `int(x, 0)` -/
def WordEnv.number (W : WordEnv) (t : Text) : Py Int :=
  match W.int0 t with
  | some n => .ok n
  | none => .error .valueError

/-- flic/tlvs/KeyNumber.py:31-36 for a `str` -/
def WordEnv.keyNumber (W : WordEnv) (t : Text) : Py Int := do
  let n ← W.number t
  let _ ← keyNumberOf n
  return n

/-- apps/cli_utils.py:63-65: `x.upper()`, then `choices=['GCM', 'CCM']` -/
def WordEnv.aesMode (W : WordEnv) (t : Text) : Parsed AeadAlg :=
  let v := W.upper t
  if v = ['G', 'C', 'M'] then .ok .gcm else if v = ['C', 'C', 'M'] then .ok .ccm else .error .usage

/-- crypto/HpkeKdfIdentifiers.py:17-20: number and name of the members. -/
def kdfTable : List (Nat × Text) :=
  [(1, "HKDF-SHA256".toList), (2, "HKDF-SHA384".toList), (3, "HKDF-SHA512".toList)]

/-- What `HpkeKdfIdentifiers.parse` returns: a member, or an exception object (it is returned, not raised). -/
inductive KdfParsed where
  | member (number : Nat)
  | keyErrorObject
  deriving DecidableEq, Repr

/-- crypto/HpkeKdfIdentifiers.py:33-38 `parse` -/
def WordEnv.kdfParse (W : WordEnv) (t : Text) : KdfParsed :=
  match kdfTable.find? (fun x => x.2 == W.upper t) with
  | some x => .member x.1
  | none => .keyErrorObject

/-- apps/cli_utils.py:71-74: `choices` are the three members; an exception object is none of them.  The number is taken by
flic/tlvs/KdfAlg.py:37-40. -/
def WordEnv.kdf (W : WordEnv) (t : Text) : Parsed Nat :=
  match W.kdfParse t with
  | .member n => if n ∈ [1, 2, 3] then .ok n else .error .usage
  | .keyErrorObject => .error .usage

/-- apps/cli_utils.py:52-82: one word. -/
def WordEnv.word (W : WordEnv) (a : CliArgs) : Word → Parsed CliArgs
  | .keyFile t => .ok { a with keyFile := some t }
  | .keyPass t => .ok { a with keyPass := some t }
  | .wrapKey t => .ok { a with wrapKey := some t }
  | .wrapPass t => .ok { a with wrapPass := some t }
  | .encKey t => do return { a with encKey := some (← converted (strToArray t)) }
  | .aesMode t => do return { a with aesMode := ← W.aesMode t }
  | .keyNum t => do return { a with keyNum := some (← converted (W.keyNumber t)) }
  | .salt t => do return { a with salt := some (← converted (W.number t)) }
  | .kdf t => do return { a with kdfAlg := some (← W.kdf t) }
  | .kdfInfo t => do return { a with kdfInfo := some (← converted (kdfInfoOfText t)) }
  | .kdfUuid b => .ok { a with kdfUuid := b }
  | .kdfSalt t => do return { a with kdfSalt := some (← converted (W.number t)) }

/-- `parser.parse_args()`, as far as the options of `add_encryption_cli_args` are concerned. -/
def WordEnv.words (W : WordEnv) (ws : List Word) : Parsed CliArgs := ws.foldlM W.word {}

/-- apps/cli_utils.py:160, 166: the two questions. -/
inductive Prompt where
  | signing
  | wrapping
  deriving DecidableEq, Repr

/-- apps/cli_utils.py:160-162, 166-168: an empty answer is no password. -/
def answered (answer : Text) : Option Text := if answer.length = 0 then none else some answer

/-- apps/cli_utils.py:157-168 `fixup_key_password`, with the questions asked.  `getpass` is the parameter `answer`. -/
def fixupKeyPassword (answer : Prompt → Text) (ask : Bool) (a : CliArgs) : CliArgs × List Prompt :=
  let r : CliArgs × List Prompt :=
    if a.keyPass.isNone then
      if ask then ({ a with keyPass := answered (answer .signing) }, [.signing]) else (a, [])
    else (a, [])
  if r.1.wrapKey.isSome && r.1.wrapPass.isNone then
    if ask then ({ r.1 with wrapPass := answered (answer .wrapping) }, r.2 ++ [.wrapping]) else r
  else r

end Ccnpy
