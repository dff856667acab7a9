import Verif.Model.Arguments
import Verif.Props.CliProps
import Verif.Props.HexProps

/-!
# C116: from the words of the command line to the arguments
-/

namespace Ccnpy

variable {W : WordEnv}

/-! ## Specification -/

/-- Specification: the text writes these bytes in hexadecimal, with or without `0x`. -/
def Spec.KeyText (t : Text) (b : Bytes) : Prop := (∃ r, t = '0' :: 'x' :: r ∧ Spec.HexOf r b) ∨ Spec.HexOf t b

/-- Specification: the text stands for these bytes as KDF info. -/
def Spec.InfoText (t : Text) (b : Bytes) : Prop :=
  (∃ r, t = '0' :: 'x' :: r ∧ Spec.HexOf r b) ∨ (¬ ∃ r, t = '0' :: 'x' :: r) ∧ b = utf8Encode t

/-- Specification: the names of the algorithms. -/
inductive Spec.Algorithm : Text → Nat → Prop
  | sha256 : Algorithm "HKDF-SHA256".toList 1
  | sha384 : Algorithm "HKDF-SHA384".toList 2
  | sha512 : Algorithm "HKDF-SHA512".toList 3

inductive Spec.Mode : Text → AeadAlg → Prop
  | gcm : Mode "GCM".toList .gcm
  | ccm : Mode "CCM".toList .ccm

/-- Specification: the words that are good. -/
def Spec.Accepted (W : WordEnv) : Word → Prop
  | .encKey t => ∃ b, Spec.KeyText t b
  | .aesMode t => ∃ m, Spec.Mode (W.upper t) m
  | .keyNum t => ∃ n, W.int0 t = some n ∧ 0 ≤ n
  | .salt t => ∃ n, W.int0 t = some n
  | .kdfSalt t => ∃ n, W.int0 t = some n
  | .kdf t => ∃ n, Spec.Algorithm (W.upper t) n
  | .kdfInfo t => ∃ b, Spec.InfoText t b ∧ b.length ≤ 0xFFFF
  | _ => True

/-- Specification: the words that raise an exception instead of a usage message: a negative key number and KDF info that is too long. -/
def Spec.Crashing (W : WordEnv) : Word → Prop
  | .keyNum t => ∃ n, W.int0 t = some n ∧ n < 0
  | .kdfInfo t => ∃ b, Spec.InfoText t b ∧ 0xFFFF < b.length
  | _ => False

/-- Specification: the last word of an option. -/
def Spec.last {α : Type} (ws : List Word) (f : Word → Option α) : Option α := (ws.filterMap f).getLast?

/-- Specification: an argument that is absent, or is what the text means. -/
def Spec.Reading {α : Type} (R : Text → α → Prop) (t : Option Text) (x : Option α) : Prop :=
  (t = none ∧ x = none) ∨ ∃ s v, t = some s ∧ x = some v ∧ R s v

/-- Specification: each argument is what the last word of its option means. -/
structure Spec.Means (W : WordEnv) (ws : List Word) (a : CliArgs) : Prop where
  keyFile : a.keyFile = Spec.last ws (fun | .keyFile t => some t | _ => none)
  keyPass : a.keyPass = Spec.last ws (fun | .keyPass t => some t | _ => none)
  wrapKey : a.wrapKey = Spec.last ws (fun | .wrapKey t => some t | _ => none)
  wrapPass : a.wrapPass = Spec.last ws (fun | .wrapPass t => some t | _ => none)
  encKey : Spec.Reading Spec.KeyText (Spec.last ws (fun | .encKey t => some t | _ => none)) a.encKey
  aesMode : Spec.last ws (fun | .aesMode t => some t | _ => none) = none ∧ a.aesMode = .gcm ∨
    ∃ t, Spec.last ws (fun | .aesMode t => some t | _ => none) = some t ∧ Spec.Mode (W.upper t) a.aesMode
  keyNum : Spec.Reading (fun t n => W.int0 t = some n ∧ 0 ≤ n) (Spec.last ws (fun | .keyNum t => some t | _ => none)) a.keyNum
  salt : Spec.Reading (fun t n => W.int0 t = some n) (Spec.last ws (fun | .salt t => some t | _ => none)) a.salt
  kdfAlg : Spec.Reading (fun t n => Spec.Algorithm (W.upper t) n) (Spec.last ws (fun | .kdf t => some t | _ => none)) a.kdfAlg
  kdfInfo : Spec.Reading (fun t b => Spec.InfoText t b ∧ b.length ≤ 0xFFFF)
    (Spec.last ws (fun | .kdfInfo t => some t | _ => none)) a.kdfInfo
  kdfUuid : a.kdfUuid = (Spec.last ws (fun | .kdfUuid b => some b | _ => none)).getD false
  kdfSalt : Spec.Reading (fun t n => W.int0 t = some n) (Spec.last ws (fun | .kdfSalt t => some t | _ => none)) a.kdfSalt

/-! ## One word -/

theorem last_snoc {α : Type} (ws : List Word) (w : Word) (f : Word → Option α) :
    Spec.last (ws ++ [w]) f = (f w).or (Spec.last ws f) := by
  unfold Spec.last
  rw [List.filterMap_append]
  rcases h : f w with _ | x
  · simp [h]
  · simp [h]

theorem key_iff (t : Text) (b : Bytes) : strToArray t = .ok b ↔ Spec.KeyText t b := C81_hex t b

theorem converted_key (t : Text) :
    (∃ b, converted (strToArray t) = .ok b ∧ Spec.KeyText t b) ∨ (converted (strToArray t) = .error .usage ∧ ¬ ∃ b, Spec.KeyText t b) := by
  rcases C81_hex_errors t with ⟨b, h⟩ | h
  · exact .inl ⟨b, by rw [h]; rfl, (key_iff t b).mp h⟩
  · refine .inr ⟨by rw [h]; rfl, fun ⟨b, hb⟩ => ?_⟩
    rw [(key_iff t b).mpr hb] at h
    cases h

theorem keyNumberOf_eq (n : Int) : keyNumberOf n = if 0 ≤ n then .ok n.toNat else .error .overflowError := by
  by_cases h : 0 ≤ n
  · rw [if_pos h]
    obtain ⟨m, rfl⟩ := Int.eq_ofNat_of_zero_le h
    unfold keyNumberOf
    rw [createVarint_nat _ _ (by decide : T_KEYNUM ≤ 0xFFFF)]
    rfl
  · rw [if_neg h]
    unfold keyNumberOf createVarint
    rw [C06_varint_negative n (by omega)]
    rfl

theorem converted_keyNum (t : Text) :
    (∃ n, converted (W.keyNumber t) = .ok n ∧ W.int0 t = some n ∧ 0 ≤ n) ∨
    (converted (W.keyNumber t) = .error (.raised .overflowError) ∧ ∃ n, W.int0 t = some n ∧ n < 0) ∨
    (converted (W.keyNumber t) = .error .usage ∧ W.int0 t = none) := by
  unfold WordEnv.keyNumber WordEnv.number
  rcases h : W.int0 t with _ | n
  · exact .inr (.inr ⟨rfl, rfl⟩)
  · simp only [ok_bind, keyNumberOf_eq]
    by_cases hn : 0 ≤ n
    · rw [if_pos hn]
      exact .inl ⟨n, rfl, rfl, hn⟩
    · rw [if_neg hn]
      exact .inr (.inl ⟨rfl, n, rfl, by omega⟩)

theorem converted_number (t : Text) :
    (∃ n, converted (W.number t) = .ok n ∧ W.int0 t = some n) ∨ (converted (W.number t) = .error .usage ∧ W.int0 t = none) := by
  unfold WordEnv.number
  rcases W.int0 t with _ | n
  · exact .inr ⟨rfl, rfl⟩
  · exact .inl ⟨n, rfl, rfl⟩

theorem mode_cases (t : Text) :
    (∃ m, W.aesMode t = .ok m ∧ Spec.Mode (W.upper t) m) ∨ (W.aesMode t = .error .usage ∧ ¬ ∃ m, Spec.Mode (W.upper t) m) := by
  unfold WordEnv.aesMode
  by_cases h1 : W.upper t = ['G', 'C', 'M']
  · exact .inl ⟨.gcm, by simp only [h1, if_true], by rw [h1]; exact .gcm⟩
  by_cases h2 : W.upper t = ['C', 'C', 'M']
  · exact .inl ⟨.ccm, by simp only [h2]; decide, by rw [h2]; exact .ccm⟩
  · refine .inr ⟨by simp only [h1, h2, if_false], fun ⟨m, hm⟩ => ?_⟩
    generalize W.upper t = u at *
    cases hm
    · exact h1 rfl
    · exact h2 rfl

theorem kdf_cases (t : Text) :
    (∃ n, W.kdf t = .ok n ∧ Spec.Algorithm (W.upper t) n) ∨ (W.kdf t = .error .usage ∧ ¬ ∃ n, Spec.Algorithm (W.upper t) n) := by
  unfold WordEnv.kdf WordEnv.kdfParse
  generalize W.upper t = u
  by_cases h1 : u = "HKDF-SHA256".toList
  · subst h1; exact .inl ⟨1, by decide, .sha256⟩
  by_cases h2 : u = "HKDF-SHA384".toList
  · subst h2; exact .inl ⟨2, by decide, .sha384⟩
  by_cases h3 : u = "HKDF-SHA512".toList
  · subst h3; exact .inl ⟨3, by decide, .sha512⟩
  · refine .inr ⟨?_, fun ⟨m, hm⟩ => ?_⟩
    · have : kdfTable.find? (fun x => x.2 == u) = none := by
        rw [List.find?_eq_none]
        intro x hx
        simp only [kdfTable, List.mem_cons, List.not_mem_nil, or_false] at hx
        rcases hx with rfl | rfl | rfl <;> simp only [beq_iff_eq]
        · exact fun h => h1 h.symm
        · exact fun h => h2 h.symm
        · exact fun h => h3 h.symm
      rw [this]
    · cases hm
      · exact h1 rfl
      · exact h2 rfl
      · exact h3 rfl

theorem infoText_unique {t : Text} {b c : Bytes} (hb : Spec.InfoText t b) (hc : Spec.InfoText t c) : b = c := by
  rcases hb with ⟨r, rfl, hb⟩ | ⟨hb, rfl⟩
  · rcases hc with ⟨r', h, hc⟩ | ⟨hc, _⟩
    · cases h
      have h1 := (bytesFromHex_iff _ _).mpr hb
      rw [(bytesFromHex_iff _ _).mpr hc] at h1
      exact (Except.ok.inj h1).symm
    · exact absurd ⟨r, rfl⟩ hc
  · rcases hc with ⟨r', h, _⟩ | ⟨_, rfl⟩
    · exact absurd ⟨r', h⟩ hb
    · rfl

theorem converted_info (t : Text) :
    (∃ b, converted (kdfInfoOfText t) = .ok b ∧ Spec.InfoText t b ∧ b.length ≤ 0xFFFF) ∨
    (converted (kdfInfoOfText t) = .error (.raised .overflowError) ∧ ∃ b, Spec.InfoText t b ∧ 0xFFFF < b.length) ∨
    (converted (kdfInfoOfText t) = .error .usage ∧ ¬ ∃ b, Spec.InfoText t b) := by
  have key : ∀ b, Spec.InfoText t b → (kdfInfoOfText t = if b.length ≤ 0xFFFF then .ok b else .error .overflowError) := by
    intro b hb
    have hc : ∀ v : Bytes, construct (octetTlv T_KDF_INFO) v = if v.length ≤ 0xFFFF then .ok v else .error .overflowError := by
      intro v
      unfold construct octetTlv
      rw [mkTlv_eq]
      by_cases hv : v.length ≤ 0xFFFF
      · rw [if_pos ⟨by decide, hv⟩, if_pos hv]; rfl
      · rw [if_neg (fun h => hv h.2), if_neg hv]; rfl
    unfold kdfInfoOfText
    split
    · rename_i r
      rcases hb with ⟨r', h, hb⟩ | ⟨h, _⟩
      · cases h
        rw [(bytesFromHex_iff _ _).mpr hb, ok_bind, hc]
      · exact absurd ⟨r, rfl⟩ h
    · rename_i hne
      rcases hb with ⟨r', h, _⟩ | ⟨_, rfl⟩
      · exact absurd h (hne r')
      · exact hc _
  by_cases h : ∃ b, Spec.InfoText t b
  · obtain ⟨b, hb⟩ := h
    rw [key b hb]
    by_cases hl : b.length ≤ 0xFFFF
    · rw [if_pos hl]; exact .inl ⟨b, rfl, hb, hl⟩
    · rw [if_neg hl]; exact .inr (.inl ⟨rfl, b, hb, by omega⟩)
  · refine .inr (.inr ⟨?_, h⟩)
    have : kdfInfoOfText t = .error .valueError := by
      unfold kdfInfoOfText
      split
      · rename_i r
        rcases C81_hex_errors ('0' :: 'x' :: r) with ⟨b, hb⟩ | hb
        · exact absurd ⟨b, .inl ⟨r, rfl, (bytesFromHex_iff _ _).mp hb⟩⟩ h
        · have : bytesFromHex r = .error .valueError := hb
          rw [this]; rfl
      · rename_i hne
        exact absurd ⟨_, .inr ⟨fun ⟨r, hr⟩ => hne r hr, rfl⟩⟩ h
    rw [this]; rfl

/-- The three ways in which a word can be taken, and what it changes. -/
theorem word_cases (a : CliArgs) (w : Word) :
    (∃ a', W.word a w = .ok a' ∧ Spec.Accepted W w ∧ ∀ ws, Spec.Means W ws a → Spec.Means W (ws ++ [w]) a') ∨
    (W.word a w = .error (.raised .overflowError) ∧ Spec.Crashing W w ∧ ¬ Spec.Accepted W w) ∨
    (W.word a w = .error .usage ∧ ¬ Spec.Crashing W w ∧ ¬ Spec.Accepted W w) := by
  have plain : ∀ (a' : CliArgs), W.word a w = .ok a' → Spec.Accepted W w → (∀ ws, Spec.Means W ws a → Spec.Means W (ws ++ [w]) a') →
      (∃ a', W.word a w = .ok a' ∧ Spec.Accepted W w ∧ ∀ ws, Spec.Means W ws a → Spec.Means W (ws ++ [w]) a') ∨
      (W.word a w = .error (.raised .overflowError) ∧ Spec.Crashing W w ∧ ¬ Spec.Accepted W w) ∨
      (W.word a w = .error .usage ∧ ¬ Spec.Crashing W w ∧ ¬ Spec.Accepted W w) := fun a' h1 h2 h3 => .inl ⟨a', h1, h2, h3⟩
  rcases w with t | t | t | t | t | t | t | t | t | t | b | t
  · refine plain _ rfl trivial fun ws m => ?_
    constructor <;> simp only [last_snoc, Option.none_or, Option.some_or]
    exacts [m.keyPass, m.wrapKey, m.wrapPass, m.encKey, m.aesMode, m.keyNum, m.salt, m.kdfAlg, m.kdfInfo, m.kdfUuid, m.kdfSalt]
  · refine plain _ rfl trivial fun ws m => ?_
    constructor <;> simp only [last_snoc, Option.none_or, Option.some_or]
    exacts [m.keyFile, m.wrapKey, m.wrapPass, m.encKey, m.aesMode, m.keyNum, m.salt, m.kdfAlg, m.kdfInfo, m.kdfUuid, m.kdfSalt]
  · refine plain _ rfl trivial fun ws m => ?_
    constructor <;> simp only [last_snoc, Option.none_or, Option.some_or]
    exacts [m.keyFile, m.keyPass, m.wrapPass, m.encKey, m.aesMode, m.keyNum, m.salt, m.kdfAlg, m.kdfInfo, m.kdfUuid, m.kdfSalt]
  · refine plain _ rfl trivial fun ws m => ?_
    constructor <;> simp only [last_snoc, Option.none_or, Option.some_or]
    exacts [m.keyFile, m.keyPass, m.wrapKey, m.encKey, m.aesMode, m.keyNum, m.salt, m.kdfAlg, m.kdfInfo, m.kdfUuid, m.kdfSalt]
  · rcases converted_key t with ⟨b, h, hb⟩ | ⟨h, hb⟩
    · refine plain { a with encKey := some b } (by simp only [WordEnv.word, h, ok_bind, pure_eq_ok]) ⟨b, hb⟩ fun ws m => ?_
      constructor <;> simp only [last_snoc, Option.none_or, Option.some_or]
      exacts [m.keyFile, m.keyPass, m.wrapKey, m.wrapPass, .inr ⟨t, b, rfl, rfl, hb⟩, m.aesMode, m.keyNum, m.salt, m.kdfAlg, m.kdfInfo,
        m.kdfUuid, m.kdfSalt]
    · exact .inr (.inr ⟨by simp only [WordEnv.word, h, error_bind], id, hb⟩)
  · rcases mode_cases (W := W) t with ⟨b, h, hb⟩ | ⟨h, hb⟩
    · refine plain { a with aesMode := b } (by simp only [WordEnv.word, h, ok_bind, pure_eq_ok]) ⟨b, hb⟩ fun ws m => ?_
      constructor <;> simp only [last_snoc, Option.none_or, Option.some_or]
      exacts [m.keyFile, m.keyPass, m.wrapKey, m.wrapPass, m.encKey, .inr ⟨t, rfl, hb⟩, m.keyNum, m.salt, m.kdfAlg, m.kdfInfo,
        m.kdfUuid, m.kdfSalt]
    · exact .inr (.inr ⟨by simp only [WordEnv.word, h, error_bind], id, hb⟩)
  · rcases converted_keyNum (W := W) t with ⟨b, h, hb⟩ | ⟨h, n, hn, hb⟩ | ⟨h, hb⟩
    · refine plain { a with keyNum := some b } (by simp only [WordEnv.word, h, ok_bind, pure_eq_ok]) ⟨b, hb⟩ fun ws m => ?_
      constructor <;> simp only [last_snoc, Option.none_or, Option.some_or]
      exacts [m.keyFile, m.keyPass, m.wrapKey, m.wrapPass, m.encKey, m.aesMode, .inr ⟨t, b, rfl, rfl, hb⟩, m.salt, m.kdfAlg, m.kdfInfo,
        m.kdfUuid, m.kdfSalt]
    · refine .inr (.inl ⟨by simp only [WordEnv.word, h, error_bind], ⟨n, hn, hb⟩, fun ⟨k, hk, h0⟩ => ?_⟩)
      rw [hn] at hk
      cases hk
      omega
    · refine .inr (.inr ⟨by simp only [WordEnv.word, h, error_bind], fun ⟨k, hk, _⟩ => ?_, fun ⟨k, hk, _⟩ => ?_⟩)
      · rw [hb] at hk; cases hk
      · rw [hb] at hk; cases hk
  · rcases converted_number (W := W) t with ⟨b, h, hb⟩ | ⟨h, hb⟩
    · refine plain { a with salt := some b } (by simp only [WordEnv.word, h, ok_bind, pure_eq_ok]) ⟨b, hb⟩ fun ws m => ?_
      constructor <;> simp only [last_snoc, Option.none_or, Option.some_or]
      exacts [m.keyFile, m.keyPass, m.wrapKey, m.wrapPass, m.encKey, m.aesMode, m.keyNum, .inr ⟨t, b, rfl, rfl, hb⟩, m.kdfAlg, m.kdfInfo,
        m.kdfUuid, m.kdfSalt]
    · refine .inr (.inr ⟨by simp only [WordEnv.word, h, error_bind], id, fun ⟨k, hk⟩ => ?_⟩)
      rw [hb] at hk; cases hk
  · rcases kdf_cases (W := W) t with ⟨b, h, hb⟩ | ⟨h, hb⟩
    · refine plain { a with kdfAlg := some b } (by simp only [WordEnv.word, h, ok_bind, pure_eq_ok]) ⟨b, hb⟩ fun ws m => ?_
      constructor <;> simp only [last_snoc, Option.none_or, Option.some_or]
      exacts [m.keyFile, m.keyPass, m.wrapKey, m.wrapPass, m.encKey, m.aesMode, m.keyNum, m.salt, .inr ⟨t, b, rfl, rfl, hb⟩, m.kdfInfo,
        m.kdfUuid, m.kdfSalt]
    · exact .inr (.inr ⟨by simp only [WordEnv.word, h, error_bind], id, hb⟩)
  · rcases converted_info t with ⟨b, h, hb⟩ | ⟨h, b, hb, hl⟩ | ⟨h, hb⟩
    · refine plain { a with kdfInfo := some b } (by simp only [WordEnv.word, h, ok_bind, pure_eq_ok]) ⟨b, hb⟩ fun ws m => ?_
      constructor <;> simp only [last_snoc, Option.none_or, Option.some_or]
      exacts [m.keyFile, m.keyPass, m.wrapKey, m.wrapPass, m.encKey, m.aesMode, m.keyNum, m.salt, m.kdfAlg, .inr ⟨t, b, rfl, rfl, hb⟩,
        m.kdfUuid, m.kdfSalt]
    · refine .inr (.inl ⟨by simp only [WordEnv.word, h, error_bind], ⟨b, hb, hl⟩, fun ⟨c, hc, h0⟩ => ?_⟩)
      rw [infoText_unique hc hb] at h0
      omega
    · exact .inr (.inr ⟨by simp only [WordEnv.word, h, error_bind], fun ⟨k, hk, _⟩ => hb ⟨k, hk⟩, fun ⟨k, hk, _⟩ => hb ⟨k, hk⟩⟩)
  · refine plain _ rfl trivial fun ws m => ?_
    constructor <;> simp only [last_snoc, Option.none_or, Option.some_or, Option.getD_some]
    exacts [m.keyFile, m.keyPass, m.wrapKey, m.wrapPass, m.encKey, m.aesMode, m.keyNum, m.salt, m.kdfAlg, m.kdfInfo, m.kdfSalt]
  · rcases converted_number (W := W) t with ⟨b, h, hb⟩ | ⟨h, hb⟩
    · refine plain { a with kdfSalt := some b } (by simp only [WordEnv.word, h, ok_bind, pure_eq_ok]) ⟨b, hb⟩ fun ws m => ?_
      constructor <;> simp only [last_snoc, Option.none_or, Option.some_or]
      exacts [m.keyFile, m.keyPass, m.wrapKey, m.wrapPass, m.encKey, m.aesMode, m.keyNum, m.salt, m.kdfAlg, m.kdfInfo, m.kdfUuid,
        .inr ⟨t, b, rfl, rfl, hb⟩]
    · refine .inr (.inr ⟨by simp only [WordEnv.word, h, error_bind], id, fun ⟨k, hk⟩ => ?_⟩)
      rw [hb] at hk; cases hk

theorem means_nil : Spec.Means W [] {} := by
  constructor <;> first | rfl | exact .inl ⟨rfl, rfl⟩

theorem words_from (a : CliArgs) (pre : List Word) (hm : Spec.Means W pre a) (ws : List Word) :
    (∃ a', ws.foldlM W.word a = .ok a' ∧ (∀ w ∈ ws, Spec.Accepted W w) ∧ Spec.Means W (pre ++ ws) a') ∨
    (∃ l w r, ws = l ++ w :: r ∧ (∀ x ∈ l, Spec.Accepted W x) ∧ ¬ Spec.Accepted W w ∧
      ((ws.foldlM W.word a = .error (.raised .overflowError) ∧ Spec.Crashing W w) ∨
       (ws.foldlM W.word a = .error .usage ∧ ¬ Spec.Crashing W w))) := by
  induction ws generalizing a pre with
  | nil => exact .inl ⟨a, rfl, by simp, by rwa [List.append_nil]⟩
  | cons w ws ih =>
    rw [List.foldlM_cons]
    rcases word_cases (W := W) a w with ⟨a', h, hw, hm'⟩ | ⟨h, hc, hn⟩ | ⟨h, hc, hn⟩
    · rw [h, ok_bind]
      rcases ih a' (pre ++ [w]) (hm' pre hm) with ⟨b, hb, hall, hmb⟩ | ⟨l, x, r, rfl, hl, hx, hr⟩
      · refine .inl ⟨b, hb, ?_, by simpa using hmb⟩
        intro y hy
        rcases List.mem_cons.mp hy with rfl | hy
        exacts [hw, hall y hy]
      · refine .inr ⟨w :: l, x, r, rfl, ?_, hx, hr⟩
        intro y hy
        rcases List.mem_cons.mp hy with rfl | hy
        exacts [hw, hl y hy]
    · rw [h]
      exact .inr ⟨[], w, ws, rfl, by simp, hn, .inl ⟨rfl, hc⟩⟩
    · rw [h]
      exact .inr ⟨[], w, ws, rfl, by simp, hn, .inr ⟨rfl, hc⟩⟩

/-! ## C116 -/

/-- C116: the words are accepted if each of them is good, and then each argument is what the last word of its option means. -/
theorem C116_words (W : WordEnv) (ws : List Word) :
    ((∃ a, W.words ws = .ok a) ↔ ∀ w ∈ ws, Spec.Accepted W w) ∧ ∀ a, W.words ws = .ok a → Spec.Means W ws a := by
  rcases words_from {} [] means_nil ws with ⟨a, h, hall, hm⟩ | ⟨l, w, r, rfl, hl, hw, h⟩
  · have h' : W.words ws = .ok a := h
    refine ⟨⟨fun _ => hall, fun _ => ⟨a, h⟩⟩, fun b hb => ?_⟩
    rw [h'] at hb
    cases hb
    exact hm
  · have hno : ∀ a, W.words (l ++ w :: r) ≠ .ok a := by
      intro a ha
      rcases h with ⟨h, _⟩ | ⟨h, _⟩
      · rw [WordEnv.words, h] at ha; cases ha
      · rw [WordEnv.words, h] at ha; cases ha
    exact ⟨⟨fun ⟨a, ha⟩ => absurd ha (hno a), fun h => absurd (h w (by simp)) hw⟩, fun a ha => absurd ha (hno a)⟩

/-- C116: otherwise the first bad word decides how the program stops: with OverflowError for a negative key number and for KDF info of more
than 65535 bytes, with a usage message for all others. -/
theorem C116_refused (W : WordEnv) (l : List Word) (w : Word) (r : List Word) (hl : ∀ x ∈ l, Spec.Accepted W x) (hw : ¬ Spec.Accepted W w) :
    (Spec.Crashing W w → W.words (l ++ w :: r) = .error (.raised .overflowError)) ∧
    (¬ Spec.Crashing W w → W.words (l ++ w :: r) = .error .usage) := by
  rcases words_from {} [] means_nil l with ⟨a, h, _, _⟩ | ⟨l', w', r', rfl, hl', hw', h⟩
  · have e : W.words (l ++ w :: r) = (w :: r).foldlM W.word a := by
      rw [WordEnv.words, List.foldlM_append, h, ok_bind]
    rw [e, List.foldlM_cons]
    rcases word_cases (W := W) a w with ⟨a', _, hx, _⟩ | ⟨h, hc, _⟩ | ⟨h, hc, _⟩
    · exact absurd hx hw
    · rw [h]
      exact ⟨fun _ => rfl, fun h => absurd hc h⟩
    · rw [h]
      exact ⟨fun h => absurd h hc, fun _ => rfl⟩
  · exact absurd (hl w' (by simp)) hw'

/-- C116: the password questions.  The readers never ask.  The writer asks for the password of the signing key whenever none is given, even if
there is no signing key, then for that of the wrapping key if there is such a key and no password; an empty answer counts as no password; and
nothing else changes. -/
theorem C116_passwords (answer : Prompt → Text) (a : CliArgs) :
    fixupKeyPassword answer false a = (a, []) ∧
    (fixupKeyPassword answer true a).2 =
      (if a.keyPass = none then [Prompt.signing] else []) ++ (if a.wrapKey ≠ none ∧ a.wrapPass = none then [Prompt.wrapping] else []) ∧
    (fixupKeyPassword answer true a).1 = { a with
      keyPass := if a.keyPass = none then (if answer .signing = [] then none else some (answer .signing)) else a.keyPass
      wrapPass := if a.wrapKey ≠ none ∧ a.wrapPass = none then (if answer .wrapping = [] then none else some (answer .wrapping)) else a.wrapPass } := by
  obtain ⟨kf, kp, wk, wp, a5, a6, a7, a8, a9, a10, a11, a12⟩ := a
  rcases kp with _ | kp <;> rcases wk with _ | wk <;> rcases wp with _ | wp <;>
    simp [fixupKeyPassword, answered, List.length_eq_zero_iff]

/-- Upper case for ASCII, and decimal digits. -/
def Toy.words : WordEnv where
  int0 t := match t with
    | ['-', '1'] => some (-1)
    | ['7'] => some 7
    | _ => none
  upper t := t.map Char.toUpper

deriving instance DecidableEq for CliArgs

/-- A good line with a repeated option; a negative key number; an unknown algorithm. -/
example :
    Toy.words.words [.encKey "0x0a".toList, .kdf "hkdf-sha384".toList, .aesMode "ccm".toList, .keyNum "7".toList, .encKey "ff 01".toList] =
      .ok { encKey := some [255, 1], kdfAlg := some 2, aesMode := .ccm, keyNum := some 7 } ∧
    Toy.words.words [.keyNum "-1".toList, .kdf "md5".toList] = .error (.raised .overflowError) ∧
    Toy.words.words [.kdf "md5".toList, .keyNum "-1".toList] = .error .usage := by
  decide +kernel

end Ccnpy
