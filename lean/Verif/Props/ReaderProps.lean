import Verif.Lemmas.Usual
import Verif.Lemmas.PyS
import Verif.Props.CryptoProps
import Verif.Props.DisplayProps
import Verif.Model.Apps

/-!
# The packet reader program (C78, C79)

`validate_packet` and `decrypt_manifest` of apps/packet_utils.py against the validator and the decryptor that the library uses, and what
the program therefore prints.
-/

namespace Ccnpy

/-- Specification: the packet names an RSA key that the keystore does not hold. -/
def Spec.UnknownSigner (P : Prims) (ks : Keystore) (p : Packet) : Prop :=
  ∃ keyid link time, p.alg = some (.rsaSha256 keyid link time) ∧ ks.getRsa P (.hash keyid) = .error .keyIdNotFound

/-- The state after one more line of output. -/
def AppState.with (s : AppState) (x : Shown) : AppState := { s with shown := s.shown ++ [x] }

theorem tell_run (x : Shown) (s : AppState) : tell x s = (.ok (), s.with x) := rfl

theorem appVerdict_run (r : Py Bool) (s : AppState) : appVerdict r s =
    match r with
    | .ok true => (.ok (), s.with .verified)
    | .ok false => (.error .valueError, s)
    | .error e => (.error e, s) := by
  rcases r with e | (_ | _) <;> rfl

theorem getRsa_errors {P : Prims} {ks : Keystore} {n : RsaName} {e : PyErr} (h : ks.getRsa P n = .error e) : e = .keyIdNotFound := by
  unfold Keystore.getRsa at h
  revert h
  repeat' split
  all_goals intro h
  all_goals first | (cases h; rfl) | cases h

theorem getAesKey_errors {ks : Keystore} {n : Nat} {e : PyErr} (h : ks.getAesKey n = .error e) : e = .keyNumberNotFound := by
  unfold Keystore.getAesKey at h
  revert h
  repeat' split
  all_goals intro h
  all_goals first | (cases h; rfl) | cases h

/-- C78 (no signature): nothing is checked and nothing is said. -/
theorem C78_unsigned (P : Prims) (p : Packet) (s : AppState) (h : p.alg = none) : appValidate P p s = (.ok (), s) := by
  unfold appValidate
  rw [h]
  rfl

/-- C78 (unknown signer): the program says that it has no key and carries on, while the validator of the library raises
KeyIdNotFoundError. -/
theorem C78_unknown_signer (P : Prims) (p : Packet) (s : AppState) (h : Spec.UnknownSigner P s.keystore p) :
    appValidate P p s = (.ok (), { s with shown := s.shown ++ [.noRsaKey] }) ∧
    validatePacket P (some s.keystore) p = .error .keyIdNotFound := by
  obtain ⟨k, l, t, ha, hk⟩ := h
  constructor
  · unfold appValidate
    rw [ha]
    simp only [PyS.bind_run, PyS.get_run, hk]
    rfl
  · unfold validatePacket
    rw [ha]
    simp only [hk]
    rfl

/-- C78 (otherwise): the program and the validator of the library agree; a line is printed exactly if the packet is valid. -/
theorem C78_checked (P : Prims) (p : Packet) (s : AppState) (hs : p.alg ≠ none) (h : ¬ Spec.UnknownSigner P s.keystore p) :
    appValidate P p s =
      match validatePacket P (some s.keystore) p with
      | .ok _ => (.ok (), { s with shown := s.shown ++ [.verified] })
      | .error e => (.error e, s) := by
  unfold appValidate validatePacket
  rcases ha : p.alg with _ | a
  · exact absurd ha hs
  rcases a with _ | ⟨k, l, t⟩
  · dsimp only
    cases hb : wireOf ContentObject.tlv p.body with
    | error e => rfl
    | ok b =>
    cases hw : wireOf ValidationAlg.tlv .crc32c with
    | error e => rfl
    | ok a =>
    show appVerdict _ s = _
    rw [appVerdict_run]
    simp only [ok_bind]
    rcases crcVerify [b, a] p.payload with e | (_ | _) <;> rfl
  · dsimp only
    simp only [PyS.bind_run, PyS.get_run]
    cases hk : s.keystore.getRsa P (.hash k) with
    | error e => exact absurd ⟨k, l, t, ha, getRsa_errors hk ▸ hk⟩ h
    | ok key =>
    cases hb : wireOf ContentObject.tlv p.body with
    | error e => rfl
    | ok b =>
    cases hw : wireOf ValidationAlg.tlv (.rsaSha256 k l t) with
    | error e => rfl
    | ok a =>
    show appVerdict _ s = _
    rw [appVerdict_run]
    simp only [ok_bind]
    rcases rsaVerify P key [b, a] p.payload with e | (_ | _) <;> rfl

/-- C78 (in sum): validation returns exactly for packets that are unsigned, valid, or of an unknown signer. -/
theorem C78_returns (P : Prims) (p : Packet) (s : AppState) :
    (appValidate P p s).1 = .ok () ↔
      p.alg = none ∨ Spec.UnknownSigner P s.keystore p ∨ validatePacket P (some s.keystore) p = .ok () := by
  by_cases h1 : p.alg = none
  · simp [C78_unsigned P p s h1, h1]
  by_cases h2 : Spec.UnknownSigner P s.keystore p
  · simp [(C78_unknown_signer P p s h2).1, h2]
  rw [C78_checked P p s h1 h2]
  rcases validatePacket P (some s.keystore) p with e | u <;> simp [h1, h2]

instance (b : List Bytes) (p : Option Bytes) : Usual (crcVerify b p) := by
  cases p <;> (unfold crcVerify; infer_instance)

instance (P : Prims) (k : RsaKey) (b : List Bytes) (p : Option Bytes) : Usual (rsaVerify P k b p) := by
  cases p <;> (unfold rsaVerify; infer_instance)

theorem validatePacket_errors {P : Prims} {ks : Option Keystore} {p : Packet} {e : PyErr} (h : validatePacket P ks p = .error e) :
    e = .keyIdNotFound ∨ e.Usual := by
  unfold validatePacket at h
  rcases ha : p.alg with _ | a
  · rw [ha] at h; cases h
  rw [ha] at h
  rcases a with _ | ⟨k, l, t⟩
  · exact .inr (Usual.real e h)
  · rcases ks with _ | ks
    · cases h
    · dsimp only at h
      cases hk : ks.getRsa P (.hash k) with
      | error e' =>
        rw [hk] at h
        cases h
        exact .inl (getRsa_errors hk)
      | ok key =>
        rw [hk, ok_bind] at h
        exact .inr (Usual.real e h)

/-- C78 (a dead handler): the KeyError for which the packet reader is prepared is never raised; an unknown key is no KeyError anywhere in
the validation. -/
theorem C78_no_keyError (P : Prims) (p : Packet) (s : AppState) (ks : Option Keystore) :
    (appValidate P p s).1 ≠ .error .keyError ∧ validatePacket P ks p ≠ .error .keyError := by
  have hv : ∀ ks, validatePacket P ks p ≠ .error .keyError := fun ks h => by
    rcases validatePacket_errors h with h | h
    · cases h
    · simp [PyErr.Usual] at h
  refine ⟨?_, hv ks⟩
  by_cases h1 : p.alg = none
  · simp [C78_unsigned P p s h1]
  by_cases h2 : Spec.UnknownSigner P s.keystore p
  · simp [(C78_unknown_signer P p s h2).1]
  rw [C78_checked P p s h1 h2]
  have := hv (some s.keystore)
  rcases hr : validatePacket P (some s.keystore) p with e | u
  · rw [hr] at this
    simpa using this
  · simp

/-! ## C79 -/

/-- The decryption that the library's traversal performs on the first manifest it meets. -/
def Spec.libraryOpen (P : Prims) (ks : Keystore) (m : Manifest) : Py Manifest × Keystore :=
  let r := DecryptorCache.open P { oaep := { keystore := ks } } m
  (r.1, r.2.oaep.keystore)

theorem appDecrypted_run (r : Py Manifest) (s : AppState) : appDecrypted r s =
    match r with
    | .ok m => (.ok (some m), s)
    | .error .decryptionError => (.ok none, s.with .notDecrypted)
    | .error e => (.error e, s) := by
  rcases r with e | m
  · cases e <;> rfl
  · rfl

/-- Specification: an encrypted manifest whose context names an AES key that the keystore does not hold. -/
def Spec.UnknownAes (ks : Keystore) (m : Manifest) : Prop :=
  ∃ d, m.securityCtx = some (.aead d) ∧ ks.getAesKey d.keyNumber = .error .keyNumberNotFound

/-- Specification: the number of the AES key that a manifest names. -/
def Spec.keyNumber (m : Manifest) : List Nat :=
  match m.securityCtx with
  | some (.aead d) => [d.keyNumber]
  | _ => []

/-- C79 (plain manifests) are returned as they are. -/
theorem C79_plain (P : Prims) (m : Manifest) (s : AppState) (h : m.isEncrypted = false) : appDecrypt P m s = (.ok (some m), s) := by
  unfold appDecrypt
  rw [h]
  rfl

/-- C79 (no context): `None` and a notice, where the library raises ValueError. -/
theorem C79_no_context (P : Prims) (m : Manifest) (s : AppState) (h : m.isEncrypted = true) (hc : m.securityCtx = none) :
    appDecrypt P m s = (.ok none, { s with shown := s.shown ++ [.noContext] }) ∧
    Spec.libraryOpen P s.keystore m = (.error .valueError, s.keystore) := by
  constructor
  · unfold appDecrypt
    rw [h, hc]
    rfl
  · unfold Spec.libraryOpen DecryptorCache.open
    rw [h, hc]
    rfl

/-- C79 (unknown AES key): a notice and then AttributeError, where the library raises KeyNumberNotFoundError; if the number of the key
has more than 4300 digits, the notice itself raises ValueError. -/
theorem C79_unknown_key (P : Prims) (m : Manifest) (s : AppState) (h : m.isEncrypted = true) (hk : Spec.UnknownAes s.keystore m) :
    ((∀ n ∈ Spec.keyNumber m, Spec.ShortNumber n) →
      appDecrypt P m s = (.error .attributeError, { s with shown := s.shown ++ [.noAesKey] })) ∧
    ((∃ n ∈ Spec.keyNumber m, ¬ Spec.ShortNumber n) → appDecrypt P m s = (.error .valueError, s)) ∧
    Spec.libraryOpen P s.keystore m = (.error .keyNumberNotFound, s.keystore) := by
  obtain ⟨d, hc, hk⟩ := hk
  have hn : Spec.keyNumber m = [d.keyNumber] := by unfold Spec.keyNumber; rw [hc]
  have hrun : appDecrypt P m s = match showInt d.keyNumber with
      | .ok _ => (.error .attributeError, { s with shown := s.shown ++ [.noAesKey] })
      | .error e => (.error e, s) := by
    unfold appDecrypt
    rw [h, hc]
    simp only [if_true, PyS.bind_run, PyS.get_run, hk]
    cases showInt d.keyNumber <;> rfl
  rw [hn, hrun]
  refine ⟨fun hs => ?_, fun ⟨n, hm, hs⟩ => ?_, ?_⟩
  · rw [showInt_ok.2 (hs _ (by simp))]
  · have : n = d.keyNumber := by simpa using hm
    subst this
    cases hd : showInt d.keyNumber with
    | ok _ => exact absurd (showInt_ok.1 hd) hs
    | error e => rw [showInt_error hd]
  · unfold Spec.libraryOpen DecryptorCache.open
    rw [h, hc]
    simp only [if_true, DecryptorCache.getOrCreate, DecryptorCache.create, hk]
    rfl

/-- In both cases: an exception and at most that notice. -/
theorem unknownKey_raises (P : Prims) (m : Manifest) (s : AppState) (h : m.isEncrypted = true) (hk : Spec.UnknownAes s.keystore m) :
    ∃ e l, appDecrypt P m s = (.error e, { s with shown := s.shown ++ l }) ∧ ∀ x ∈ l, x = .noAesKey := by
  obtain ⟨h1, h2, -⟩ := C79_unknown_key P m s h hk
  by_cases hs : ∀ n ∈ Spec.keyNumber m, Spec.ShortNumber n
  · exact ⟨_, _, h1 hs, by simp⟩
  · exact ⟨.valueError, [], by rw [h2 (by simpa using hs)]; simp, by simp⟩

/-- Specification: what the program makes of a decryption. -/
def Spec.reported (s : AppState) : Py Manifest × Keystore → Py (Option Manifest) × AppState
  | (.ok m, ks) => (.ok (some m), { s with keystore := ks })
  | (.error .decryptionError, ks) => (.ok none, { shown := s.shown ++ [.notDecrypted], keystore := ks })
  | (.error e, ks) => (.error e, { s with keystore := ks })

/-- C79 (otherwise): the program decrypts as the library does and files the same keys; a DecryptionError becomes `None` with a notice,
other exceptions pass. -/
theorem C79_decrypts (P : Prims) (m : Manifest) (s : AppState) (h : m.isEncrypted = true) (hc : m.securityCtx ≠ none)
    (hk : ¬ Spec.UnknownAes s.keystore m) :
    appDecrypt P m s =
      Spec.reported s (Spec.libraryOpen P s.keystore m) := by
  unfold appDecrypt Spec.libraryOpen DecryptorCache.open
  rcases hx : m.securityCtx with _ | x
  · exact absurd hx hc
  rw [h]
  simp only [if_true]
  rcases x with d | ⟨d, w⟩
  · simp only [PyS.bind_run, PyS.get_run, DecryptorCache.getOrCreate, DecryptorCache.create]
    cases ha : s.keystore.getAesKey d.keyNumber with
    | error e => exact absurd ⟨d, hx, getAesKey_errors ha ▸ ha⟩ hk
    | ok q =>
      show appDecrypted (aeadDecryptManifest P q m) s = _
      rw [appDecrypted_run]
      simp only [ok_bind, reduceCtorEq, if_false]
      show _ = Spec.reported s (aeadDecryptManifest P q m, s.keystore)
      rcases aeadDecryptManifest P q m with e | m'
      · cases e <;> rfl
      · rfl
  · show appDecrypted _ _ = Spec.reported s ((OaepDecryptor.decryptManifest P { keystore := s.keystore } m).1,
      (OaepDecryptor.decryptManifest P { keystore := s.keystore } m).2.keystore)
    rw [appDecrypted_run]
    rcases (OaepDecryptor.decryptManifest P { keystore := s.keystore } m).1 with e | m'
    · cases e <;> rfl
    · rfl

/-- C79 (in sum): the program returns a manifest exactly if the library's traversal obtains that manifest. -/
theorem C79_agrees (P : Prims) (m m' : Manifest) (s : AppState) :
    (appDecrypt P m s).1 = .ok (some m') ↔ (Spec.libraryOpen P s.keystore m).1 = .ok m' := by
  cases h : m.isEncrypted with
  | false =>
    rw [C79_plain P m s h]
    simp [Spec.libraryOpen, DecryptorCache.open, h]
  | true =>
    by_cases hc : m.securityCtx = none
    · have := C79_no_context P m s h hc
      rw [this.1, this.2]
      simp
    by_cases hk : Spec.UnknownAes s.keystore m
    · obtain ⟨e, l, this, _⟩ := unknownKey_raises P m s h hk
      rw [this, (C79_unknown_key P m s h hk).2.2]
      simp
    rw [C79_decrypts P m s h hc hk]
    rcases Spec.libraryOpen P s.keystore m with ⟨e | x, ks⟩
    · cases e <;> simp [Spec.reported]
    · simp [Spec.reported]

theorem appOutput_run (f : Py Unit) (x : Shown) (s : AppState) : appOutput f x s =
    match f with
    | .ok _ => (.ok (), s.with x)
    | .error e => (.error e, s) := by
  rcases f with e | u <;> rfl

/-- What validation prints is no packet and no manifest. -/
theorem appValidate_shown (P : Prims) (p : Packet) (s : AppState) :
    (appValidate P p s).2.keystore = s.keystore ∧
    ∃ l, (appValidate P p s).2.shown = s.shown ++ l ∧ (l = [] ∨ l = [.noRsaKey] ∨ l = [.verified]) := by
  by_cases h1 : p.alg = none
  · rw [C78_unsigned P p s h1]
    exact ⟨rfl, [], by simp, .inl rfl⟩
  by_cases h2 : Spec.UnknownSigner P s.keystore p
  · rw [(C78_unknown_signer P p s h2).1]
    exact ⟨rfl, [.noRsaKey], rfl, .inr (.inl rfl)⟩
  rw [C78_checked P p s h1 h2]
  rcases validatePacket P (some s.keystore) p with e | u
  · exact ⟨rfl, [], by simp, .inl rfl⟩
  · exact ⟨rfl, [.verified], rfl, .inr (.inr rfl)⟩

/-- Decryption prints only notices. -/
theorem appDecrypt_shown (P : Prims) (m : Manifest) (s : AppState) :
    ∃ l, (appDecrypt P m s).2.shown = s.shown ++ l ∧ ∀ x ∈ l, x = .noContext ∨ x = .noAesKey ∨ x = .notDecrypted := by
  cases h : m.isEncrypted with
  | false =>
    rw [C79_plain P m s h]
    exact ⟨[], by simp, by simp⟩
  | true =>
    by_cases hc : m.securityCtx = none
    · rw [(C79_no_context P m s h hc).1]
      exact ⟨_, rfl, by simp⟩
    by_cases hk : Spec.UnknownAes s.keystore m
    · obtain ⟨e, l, this, hl⟩ := unknownKey_raises P m s h hk
      rw [this]
      exact ⟨l, rfl, fun x hx => .inr (.inl (hl x hx))⟩
    rw [C79_decrypts P m s h hc hk]
    rcases Spec.libraryOpen P s.keystore m with ⟨e | x, ks⟩
    · cases e
      case decryptionError => exact ⟨_, rfl, by simp⟩
      all_goals exact ⟨[], by simp [Spec.reported], by simp⟩
    · exact ⟨[], by simp [Spec.reported], by simp⟩

/-- What the end of the program prints. -/
theorem readManifest_shown (P : Prims) (p : Packet) (s : AppState) :
    ∃ l, (readManifest P p s).2.shown = s.shown ++ l ∧
      (∀ x ∈ l, x = .noContext ∨ x = .noAesKey ∨ x = .notDecrypted ∨ ∃ m, x = .manifest m) ∧
      ∀ m', .manifest (some m') ∈ l ↔
        ∃ m, Manifest.fromContentObject p.body = .ok m ∧ m.isEncrypted = true ∧ (Spec.libraryOpen P s.keystore m).1 = .ok m' ∧
          m'.display = .ok () := by
  unfold readManifest
  by_cases hp : p.body.payloadType = some PT_MANIFEST
  · rw [if_pos hp]
    cases hm : Manifest.fromContentObject p.body with
    | error e => exact ⟨[], by simp [PyS.bind_run], by simp, by simp⟩
    | ok m =>
      simp only [PyS.bind_run, PyS.lift_run]
      cases he : m.isEncrypted with
      | false =>
        refine ⟨[], by simp, by simp, fun m' => ?_⟩
        simp only [List.not_mem_nil, false_iff]
        rintro ⟨x, h1, h2, _⟩
        cases h1
        rw [he] at h2
        cases h2
      | true =>
        have hex : ∀ m', (∃ x, (Except.ok m : Py Manifest) = .ok x ∧ x.isEncrypted = true ∧ (Spec.libraryOpen P s.keystore x).1 = .ok m' ∧
            m'.display = .ok ()) ↔ (Spec.libraryOpen P s.keystore m).1 = .ok m' ∧ m'.display = .ok () := fun m' =>
          ⟨fun ⟨x, h1, _, h3⟩ => by cases h1; exact h3, fun h => ⟨m, rfl, he, h⟩⟩
        simp only [hex, ← C79_agrees P m _ s]
        simp only [if_true, PyS.bind_run]
        obtain ⟨l, hl, hx⟩ := appDecrypt_shown P m s
        rcases hd : appDecrypt P m s with ⟨e | r, s'⟩
        · rw [hd] at hl
          refine ⟨l, hl, fun x h => ?_, fun m' => ?_⟩
          · rcases hx x h with h | h | h <;> simp [h]
          · simp only [reduceCtorEq, false_and, iff_false]
            intro h
            rcases hx _ h with h | h | h <;> cases h
        · rw [hd] at hl
          simp only [appOutput_run]
          have hno : ∀ m', Shown.manifest (some m') ∉ l := fun m' h => by
            rcases hx _ h with h | h | h <;> cases h
          cases hs : showOpt Manifest.display r with
          | error e =>
            refine ⟨l, hl, fun x h => ?_, fun m' => ?_⟩
            · rcases hx x h with h | h | h <;> simp [h]
            · simp only [hno, Except.ok.injEq, false_iff]
              rintro ⟨rfl, h⟩
              rw [showOpt, h] at hs
              cases hs
          | ok u =>
            refine ⟨l ++ [.manifest r], by simp [AppState.with, show s'.shown = s.shown ++ l from hl], fun x h => ?_, fun m' => ?_⟩
            · rcases List.mem_append.mp h with h | h
              · rcases hx x h with h | h | h <;> simp [h]
              · exact .inr (.inr (.inr ⟨r, by simpa using h⟩))
            · simp only [List.mem_append, hno, false_or, List.mem_singleton, Shown.manifest.injEq, Except.ok.injEq]
              constructor
              · rintro rfl
                exact ⟨rfl, hs⟩
              · exact fun h => h.1.symm
  · rw [if_neg hp]
    refine ⟨[], by simp, by simp, fun m' => ?_⟩
    simp only [List.not_mem_nil, false_iff]
    rintro ⟨m, h1, _⟩
    unfold Manifest.fromContentObject at h1
    revert h1
    split
    · simp
    · split
      · simp
      · rename_i ty ht hne
        exact absurd (by rw [ht]; simpa using hne) hp

theorem readPacket_run (P : Prims) (pr : Bool) (p : Packet) (s : AppState) (h : p.display (!pr) = .ok ()) :
    readPacket P pr p s =
      match appValidate P p (s.with (.packet p)) with
      | (.error e, s) => (.error e, s)
      | (.ok _, s) => readManifest P p s := by
  have hk := (C78_no_keyError P p (s.with (.packet p)) none).1
  unfold readPacket
  rw [PyS.bind_run, appOutput_run, h]
  dsimp only
  unfold readValidated
  rcases hv : appValidate P p (s.with (.packet p)) with ⟨e | u, s'⟩
  · rw [hv] at hk
    cases e <;> first | rfl | exact absurd rfl hk
  · rfl

/-- C79 (what is printed): the packet comes first, and nothing is printed if it cannot be shown.  The message for a failed validation is
never printed. -/
theorem C79_packet_first (P : Prims) (pr : Bool) (p : Packet) (ks : Keystore) :
    (p.display (!pr) = .ok () → ∃ l, (readPacket P pr p ⟨[], ks⟩).2.shown = .packet p :: l ∧
      .notValidated ∉ l ∧ ∀ q, .packet q ∉ l) ∧
    (∀ e, p.display (!pr) = .error e → readPacket P pr p ⟨[], ks⟩ = (.error e, ⟨[], ks⟩)) := by
  constructor
  · intro h
    rw [readPacket_run P pr p _ h]
    obtain ⟨hk, l, hl, hx⟩ := appValidate_shown P p (AppState.with ⟨[], ks⟩ (.packet p))
    rcases hv : appValidate P p (AppState.with ⟨[], ks⟩ (.packet p)) with ⟨e | u, s'⟩
    · rw [hv] at hl
      refine ⟨l, hl, ?_⟩
      rcases hx with rfl | rfl | rfl <;> simp
    · rw [hv] at hl
      obtain ⟨l', hl', hx', _⟩ := readManifest_shown P p s'
      refine ⟨l ++ l', ?_, ?_⟩
      · dsimp only
        rw [hl', show s'.shown = [.packet p] ++ l from hl]
        simp
      · constructor
        · intro h
          rcases List.mem_append.mp h with h | h
          · rcases hx with rfl | rfl | rfl <;> simp at h
          · rcases hx' _ h with h | h | h | ⟨_, h⟩ <;> cases h
        · intro q h
          rcases List.mem_append.mp h with h | h
          · rcases hx with rfl | rfl | rfl <;> simp at h
          · rcases hx' _ h with h | h | h | ⟨_, h⟩ <;> cases h
  · intro e h
    unfold readPacket
    rw [PyS.bind_run, appOutput_run, h]

/-- C79 (which manifests are shown): the program shows a decrypted manifest exactly if the packet could be shown, is unsigned, valid or of
an unknown signer, and holds an encrypted manifest that the library's traversal would decrypt to it and that can be shown. -/
theorem C79_shown (P : Prims) (pr : Bool) (p : Packet) (ks : Keystore) (m' : Manifest) :
    .manifest (some m') ∈ (readPacket P pr p ⟨[], ks⟩).2.shown ↔
      p.display (!pr) = .ok () ∧
      (p.alg = none ∨ Spec.UnknownSigner P ks p ∨ validatePacket P (some ks) p = .ok ()) ∧
      ∃ m, Manifest.fromContentObject p.body = .ok m ∧ m.isEncrypted = true ∧ (Spec.libraryOpen P ks m).1 = .ok m' ∧
        m'.display = .ok () := by
  cases h : p.display (!pr) with
  | error e =>
    rw [(C79_packet_first P pr p ks).2 e h]
    simp
  | ok u =>
    rw [readPacket_run P pr p _ h]
    have hr := C78_returns P p (AppState.with ⟨[], ks⟩ (.packet p))
    have hr : _ ↔ p.alg = none ∨ Spec.UnknownSigner P ks p ∨ validatePacket P (some ks) p = .ok () := hr
    rw [← hr]
    obtain ⟨hk, l, hl, hx⟩ := appValidate_shown P p (AppState.with ⟨[], ks⟩ (.packet p))
    have hno : Shown.manifest (some m') ∉ l := by rcases hx with rfl | rfl | rfl <;> simp
    rcases hv : appValidate P p (AppState.with ⟨[], ks⟩ (.packet p)) with ⟨e | u, s'⟩
    · rw [hv] at hl
      dsimp only at hl ⊢
      rw [hl]
      simp [AppState.with, hno]
    · rw [hv] at hl hk
      dsimp only at hl hk ⊢
      obtain ⟨l', hl', _, hm⟩ := readManifest_shown P p s'
      have hm := hm m'
      rw [hk] at hm
      rw [hl', hl]
      have hks : (AppState.with ⟨[], ks⟩ (.packet p)).keystore = ks := rfl
      rw [hks] at hm
      simp [AppState.with, hno, hm]

/-- C79 (unknown signers): a manifest that verifies under no key the reader has is decrypted and shown all the same, and the program ends
normally, where the library's validator raises. -/
theorem C79_unverified (P : Prims) (pr : Bool) (p : Packet) (ks : Keystore) (m m' : Manifest) (hu : Spec.UnknownSigner P ks p)
    (hp : p.display (!pr) = .ok ()) (hm : Manifest.fromContentObject p.body = .ok m) (he : m.isEncrypted = true)
    (ho : (Spec.libraryOpen P ks m).1 = .ok m') (hd : m'.display = .ok ()) :
    (readPacket P pr p ⟨[], ks⟩).1 = .ok () ∧ (readPacket P pr p ⟨[], ks⟩).2.shown = [.packet p, .noRsaKey, .manifest (some m')] ∧
    validatePacket P (some ks) p = .error .keyIdNotFound := by
  have hv := C78_unknown_signer P p (AppState.with ⟨[], ks⟩ (.packet p)) hu
  refine ⟨?_, ?_, hv.2⟩
  all_goals
    rw [readPacket_run P pr p _ hp, hv.1]
    dsimp only
    unfold readManifest
    have hpt : p.body.payloadType = some PT_MANIFEST := by
      unfold Manifest.fromContentObject at hm
      revert hm
      split
      · simp
      · split
        · simp
        · rename_i ty ht hne
          intro _
          rw [ht]
          simpa using hne
    rw [if_pos hpt]
    simp only [hm, PyS.bind_run, PyS.lift_run, he, if_true]
    have hc : m.securityCtx ≠ none := fun hc => by
      have := (C79_no_context P m ⟨[], ks⟩ he hc).2
      rw [show (⟨[], ks⟩ : AppState).keystore = ks from rfl] at this
      rw [this] at ho
      cases ho
    have hk : ¬ Spec.UnknownAes ks m := fun hk => by
      have := (C79_unknown_key P m ⟨[], ks⟩ he hk).2.2
      rw [show (⟨[], ks⟩ : AppState).keystore = ks from rfl] at this
      rw [this] at ho
      cases ho
    rw [C79_decrypts P m _ he hc hk]
    rcases hl : Spec.libraryOpen P ks m with ⟨r, ks'⟩
    rw [hl] at ho
    cases ho
    simp [AppState.with, hl, Spec.reported, appOutput_run, showOpt, hd]

/-- An encrypted manifest in a packet that is signed by a key the reader does not have. -/
def readerExample : Py (Packet × Manifest) := do
  let m ← (← aeadEncrypt toyPrims exampleParams (List.replicate 8 3) exampleNode).manifest
  let co ← m.contentObject (some ⟨[.nameSegment [97]]⟩) none
  let p ← rsaSignedPacket toyPrims ⟨[1], true, 2048⟩ none (F64.ofNat 1700000000) co
  return (p, m)

set_option maxRecDepth 100000 in
/-- The hypotheses of `C79_unverified` are met: one line says that nothing was verified, the next is the decrypted manifest. -/
example : (readerExample.map fun (p, m) =>
    let ks := Keystore.after toyPrims [.addAes exampleParams]
    [((ks.getRsa toyPrims (.hash (RsaKey.keyid toyPrims ⟨[1], true, 2048⟩))) == .error .keyIdNotFound) && p.alg.isSome,
      p.display true == .ok (), m.isEncrypted, Manifest.fromContentObject p.body == .ok m,
      (Spec.libraryOpen toyPrims ks m).1 == .ok { node := .plain exampleNode },
      ((Spec.libraryOpen toyPrims ks m).1.bind Manifest.display) == .ok (),
      (readPacket toyPrims false p ⟨[], ks⟩).2.shown == [.packet p, .noRsaKey, .manifest (some { node := .plain exampleNode })]].all id) =
    .ok true := by decide +kernel

set_option maxRecDepth 100000 in
/-- With the key in the keystore the signature is checked, and an altered packet is not decrypted. -/
example : (readerExample.map fun (p, m) =>
    let ks := Keystore.after toyPrims [.addAes exampleParams, .addRsa (.text "k") ⟨[1], true, 2048⟩]
    let bad := { p with payload := some [1, 2, 3] }
    ((readPacket toyPrims false p ⟨[], ks⟩).2.shown == [.packet p, .verified, .manifest (some { node := .plain exampleNode })],
      (readPacket toyPrims false bad ⟨[], ks⟩).1, (readPacket toyPrims false bad ⟨[], ks⟩).2.shown == [.packet bad],
      (appDecrypt toyPrims m {}).1.isOk, (appDecrypt toyPrims m {}).2.shown == [.noAesKey])) =
    .ok (true, .error .valueError, true, false, true) := by decide +kernel

end Ccnpy
