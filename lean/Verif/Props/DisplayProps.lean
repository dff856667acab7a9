import Verif.Lemmas.Flic
import Verif.Lemmas.Uri
import Verif.Lemmas.Toy
import Verif.Lemmas.Display

/-!
# C77: which packets can be shown
-/

namespace Ccnpy

/-! ## Specification -/

/-- At most 4300 decimal digits. -/
def Spec.ShortNumber (n : Nat) : Prop := (Nat.toDigits 10 n).length ≤ 4300

/-- Every name segment (type 1) is `bytes`, and valid UTF-8; every chunk id (type 5) and manifest id (type 16) is short. -/
def Spec.ReadableName (n : Name) : Prop := ∀ c ∈ n.components,
  (c.type = 1 → c.isArray = false ∧ ∃ t : Text, utf8Encode t = c.value) ∧
  (c.type = 5 ∨ c.type = 16 → Spec.ShortNumber (arrayToNumber c.value))

/-- A time that the C library takes: the year fits 32 bits. -/
def Spec.ShowableTime (t : F64) : Prop := t.toInt < 67768036191676800

/-- The names in links, where there are links and they have names. -/
def Spec.linkNames (ls : List Link) : List Name := ls.filterMap (·.name)

/-- The locators of a name constructor definition. -/
def Spec.schemaLocators : NcSchema → List Link
  | .hash l _ => l.getD []
  | .prefixed _ l _ => l.getD []
  | .segmented _ _ l _ => l.getD []

/-- All links that a security context holds. -/
def Spec.ctxLinks : SecurityCtx → List Link
  | .aead _ => []
  | .rsaOaep _ w => (w.bind (·.keyLink)).toList

/-- The AEAD mode that a security context holds. -/
def Spec.ctxMode : SecurityCtx → Option Nat
  | .aead d => d.mode
  | .rsaOaep d _ => d.mode

/-- The numbers in the description of an encryption. -/
def Spec.aeadNumbers (d : AeadData) : List Nat := d.keyNumber :: (d.kdfData.map (·.kdfAlg)).toList

/-- The numbers that a security context holds, apart from the mode. -/
def Spec.ctxNumbers : SecurityCtx → List Nat
  | .aead d => Spec.aeadNumbers d
  | .rsaOaep d w => Spec.aeadNumbers d ++ (w.bind (·.hashAlg)).toList

/-- The numbers in the description of a hash group. -/
def Spec.groupNumbers (g : GroupData) : List Nat := g.subtreeSize.toList ++ g.leafSize.toList ++ g.ncId.toList ++ g.startSegmentId.toList

/-- The numbers that a node holds. -/
def Spec.nodeNumbers (n : Node) : List Nat :=
  (match n.nodeData with
    | none => []
    | some d => d.subtreeSize.toList ++ d.ncDefs.flatMap (·.ncId.toList)) ++
  n.hashGroups.flatMap (fun g => (g.groupData.map Spec.groupNumbers).getD [])

/-- All locators in a node. -/
def Spec.nodeLinks (n : Node) : List Link :=
  match n.nodeData with
  | none => []
  | some d => d.locators.getD [] ++ d.ncDefs.flatMap (fun x => (x.schema.map Spec.schemaLocators).getD [])

/-- A manifest can be shown: the names of all its links are readable, its AEAD mode is one of the four known ones, its numbers are short,
and no hash group lacks its pointers. -/
structure Spec.ManifestShowable (m : Manifest) : Prop where
  ctxNames : ∀ c, m.securityCtx = some c → ∀ n ∈ Spec.linkNames (Spec.ctxLinks c), Spec.ReadableName n
  mode : ∀ c k, m.securityCtx = some c → Spec.ctxMode c = some k → 1 ≤ k ∧ k ≤ 4
  nodeNames : ∀ d, m.node = .plain d → ∀ n ∈ Spec.linkNames (Spec.nodeLinks d), Spec.ReadableName n
  pointers : ∀ d, m.node = .plain d → ∀ g ∈ d.hashGroups, g.pointers ≠ none
  ctxNumbers : ∀ c, m.securityCtx = some c → ∀ n ∈ Spec.ctxNumbers c, Spec.ShortNumber n
  nodeNumbers : ∀ d, m.node = .plain d → ∀ n ∈ Spec.nodeNumbers d, Spec.ShortNumber n

/-- A content object can be shown: its name is readable, its expiry time can be shown, its final chunk id is short and
* it is a manifest with a payload, which is a manifest that can be shown or does not parse with ParseError, or
* it is a link with a payload, which is a link with a readable name, or
* it is neither, and the output is not brief or there is a payload. -/
def Spec.ContentShowable (brief : Bool) (c : ContentObject) : Prop :=
  (∀ n, c.name = some n → Spec.ReadableName n) ∧ (∀ t, c.expiryTime = some t → Spec.ShowableTime t) ∧
  (∀ k, c.finalChunkId = some k → Spec.ShortNumber k) ∧
  ((c.payloadType = some PT_MANIFEST ∧
      ∃ b, c.payload = some b ∧ (Manifest.deserialize b = .error .parseError ∨ ∃ m, Manifest.deserialize b = .ok m ∧ Spec.ManifestShowable m)) ∨
   (c.payloadType = some PT_LINK ∧
      ∃ b l, c.payload = some b ∧ Link.deserialize b = .ok l ∧ ∀ n, l.name = some n → Spec.ReadableName n) ∨
   (c.payloadType ≠ some PT_MANIFEST ∧ c.payloadType ≠ some PT_LINK ∧ (brief = true → c.payload ≠ none)))

/-! ## Proofs -/

private theorem showAll_ok {α : Type} {f : α → Py Unit} {l : List α} : showAll f l = .ok () ↔ ∀ a ∈ l, f a = .ok () := by
  induction l with
  | nil => simp [showAll]
  | cons a l ih =>
    unfold showAll
    rw [bind_eq_ok]
    constructor
    · rintro ⟨_, h1, h2⟩ b hb
      rcases List.mem_cons.1 hb with rfl | hb
      · exact h1
      · exact ih.1 h2 b hb
    · intro h
      exact ⟨(), h a (by simp), ih.2 fun b hb => h b (by simp [hb])⟩

private theorem showOpt_ok {α : Type} {f : α → Py Unit} {o : Option α} : showOpt f o = .ok () ↔ ∀ a, o = some a → f a = .ok () := by
  cases o <;> simp [showOpt]

private theorem seq_ok {x y : Py Unit} : (x >>= fun _ => y) = .ok () ↔ x = .ok () ∧ y = .ok () := by
  rw [bind_eq_ok]
  exact ⟨fun ⟨_, h⟩ => h, fun h => ⟨(), h⟩⟩

theorem short_iff {n : Nat} : Spec.ShortNumber n ↔ n < strLimit := digits_iff

theorem short_of_le {n m : Nat} (hm : Spec.ShortNumber m) (h : n ≤ m) : Spec.ShortNumber n :=
  short_iff.2 (Nat.lt_of_le_of_lt h (short_iff.1 hm))

theorem short_of_lt {n : Nat} (h : n < 2 ^ 64) : Spec.ShortNumber n := digits_small h

theorem decimal_short {n : Nat} (h : Spec.ShortNumber n) : decimal n = .ok (Nat.toDigits 10 n) := if_pos (short_iff.1 h)

theorem decimal_ok {n : Nat} : (∃ t, decimal n = .ok t) ↔ Spec.ShortNumber n := by
  rw [short_iff]
  unfold decimal
  by_cases h : n < strLimit
  · rw [if_pos h]
    exact ⟨fun _ => h, fun _ => ⟨_, rfl⟩⟩
  · rw [if_neg h]
    exact ⟨fun ⟨_, h⟩ => (by cases h), fun h' => absurd h' h⟩

theorem showInt_ok {n : Nat} : showInt n = .ok () ↔ Spec.ShortNumber n := by
  rw [← decimal_ok]
  unfold showInt
  rw [bind_eq_ok]
  exact ⟨fun ⟨t, h, _⟩ => ⟨t, h⟩, fun ⟨t, h⟩ => ⟨t, h, rfl⟩⟩

private theorem optInt_ok {o : Option Nat} : showOpt showInt o = .ok () ↔ ∀ n ∈ o.toList, Spec.ShortNumber n := by
  rw [showOpt_ok]
  simp [showInt_ok]

theorem showTime_ok {t : F64} : showTime t = .ok () ↔ Spec.ShowableTime t := by
  unfold showTime Spec.ShowableTime
  split
  · simp [*]
  · split <;> simp [*]

private theorem shown_decimal {n : Nat} {f : Text → Text} :
    ((do return f (← decimal n) : Py Text) >>= fun _ => (.ok () : Py Unit)) = .ok () ↔ Spec.ShortNumber n := by
  rw [← decimal_ok]
  cases decimal n with
  | ok t => exact ⟨fun _ => ⟨t, rfl⟩, fun _ => rfl⟩
  | error e => exact ⟨fun h => (by cases h), fun ⟨_, h⟩ => (by cases h)⟩

theorem name_ok {n : Name} : n.display = .ok () ↔ Spec.ReadableName n := by
  unfold Name.display
  rw [showAll_ok]
  refine forall_congr' fun c => forall_congr' fun _ => ?_
  unfold NameComponent.repr
  by_cases h1 : c.type = T_CHUNKID
  · have h5 : c.type = 5 := h1
    have : c.type ≠ 1 := by rw [h1]; decide
    rw [if_pos h1]
    refine shown_decimal.trans ?_
    exact ⟨fun h => ⟨fun h' => absurd h' this, fun _ => h⟩, fun h => h.2 (.inl h5)⟩
  · rw [if_neg h1]
    have h5 : c.type ≠ 5 := h1
    by_cases h2 : c.type = T_NAMESEGMENT
    · have h3 : c.type = 1 := h2
      rw [if_pos h2]
      simp only [h3, true_implies, show ¬ ((1 : Nat) = 5 ∨ (1 : Nat) = 16) by decide, false_implies, and_true]
      cases ha : c.isArray with
      | true => simp [bind, Except.bind]
      | false =>
        simp only [true_and, if_false, Bool.false_eq_true]
        unfold utf8DecodePy
        cases hd : utf8Decode c.value with
        | none =>
          refine ⟨fun h => (by cases h), ?_⟩
          rintro ⟨t, ht⟩
          rw [← ht, utf8Decode_encode] at hd
          cases hd
        | some t => exact ⟨fun _ => ⟨t, utf8Encode_of_decode hd⟩, fun _ => rfl⟩
    · have h3 : c.type ≠ 1 := h2
      rw [if_neg h2]
      by_cases h4 : c.type = T_MANIFESTID
      · rw [if_pos h4]
        refine shown_decimal.trans ?_
        exact ⟨fun h => ⟨fun h' => absurd h' h3, fun _ => h⟩, fun h => h.2 (.inr h4)⟩
      · have h16 : c.type ≠ 16 := h4
        rw [if_neg h4]; simp [h3, h5, h16, ok_bind, pure, Except.pure]

private theorem link_ok {l : Link} : l.display = .ok () ↔ ∀ n, l.name = some n → Spec.ReadableName n := by
  unfold Link.display
  rw [showOpt_ok]
  exact forall_congr' fun n => forall_congr' fun _ => name_ok

private theorem links_ok {ls : List Link} : showAll Link.display ls = .ok () ↔ ∀ n ∈ Spec.linkNames ls, Spec.ReadableName n := by
  rw [showAll_ok]
  constructor
  · intro h n hn
    obtain ⟨l, hl, e⟩ := List.mem_filterMap.1 hn
    exact link_ok.1 (h l hl) n e
  · intro h l hl
    exact link_ok.2 fun n e => h n (List.mem_filterMap.2 ⟨l, hl, e⟩)

private theorem linkNames_append (a b : List Link) : Spec.linkNames (a ++ b) = Spec.linkNames a ++ Spec.linkNames b := by
  simp [Spec.linkNames]

private theorem optLinks_ok {o : Option (List Link)} :
    showOpt locatorsDisplay o = .ok () ↔ ∀ n ∈ Spec.linkNames (o.getD []), Spec.ReadableName n := by
  cases o with
  | none => simp [showOpt, Spec.linkNames]
  | some ls => exact links_ok

private theorem schema_ok {s : NcSchema} : s.display = .ok () ↔ ∀ n ∈ Spec.linkNames (Spec.schemaLocators s), Spec.ReadableName n := by
  cases s <;> exact optLinks_ok

theorem ncDef_show {d : NcDef} : d.display = .ok () ↔
    (∀ n ∈ d.ncId.toList, Spec.ShortNumber n) ∧
    ∀ s, d.schema = some s → ∀ n ∈ Spec.linkNames (Spec.schemaLocators s), Spec.ReadableName n := by
  unfold NcDef.display
  rw [seq_ok, optInt_ok, showOpt_ok]
  exact and_congr_right fun _ => forall_congr' fun s => forall_congr' fun _ => schema_ok

private theorem mode_ok {o : Option Nat} : showOpt aeadModeDisplay o = .ok () ↔ ∀ k, o = some k → 1 ≤ k ∧ k ≤ 4 := by
  rw [showOpt_ok]
  refine forall_congr' fun k => forall_congr' fun _ => ?_
  unfold aeadModeDisplay
  by_cases h1 : k = 1
  · simp [h1]
  · rw [if_neg h1]
    by_cases h2 : k = 2
    · simp [h2]
    · rw [if_neg h2]
      by_cases h3 : k = 3
      · simp [h3]
      · rw [if_neg h3]
        by_cases h4 : k = 4
        · simp [h4]
        · rw [if_neg h4]
          constructor
          · intro h; cases h
          · intro h; omega

private theorem aead_ok {d : AeadData} : d.display = .ok () ↔
    (∀ k, d.mode = some k → 1 ≤ k ∧ k ≤ 4) ∧ ∀ n ∈ Spec.aeadNumbers d, Spec.ShortNumber n := by
  unfold AeadData.display Spec.aeadNumbers
  rw [seq_ok, seq_ok, mode_ok, showInt_ok, showOpt_ok]
  simp only [showInt_ok, List.mem_cons, forall_eq_or_imp, Option.mem_toList, Option.map_eq_some_iff]
  constructor
  · rintro ⟨h1, h2, h3⟩
    exact ⟨h2, h1, fun n ⟨a, ha, e⟩ => e ▸ h3 a ha⟩
  · rintro ⟨h1, h2, h3⟩
    exact ⟨h2, h1, fun a ha => h3 _ ⟨a, ha, rfl⟩⟩

private theorem ctx_ok {c : SecurityCtx} : c.display = .ok () ↔
    (∀ n ∈ Spec.linkNames (Spec.ctxLinks c), Spec.ReadableName n) ∧ (∀ k, Spec.ctxMode c = some k → 1 ≤ k ∧ k ≤ 4) ∧
    ∀ n ∈ Spec.ctxNumbers c, Spec.ShortNumber n := by
  cases c with
  | aead d =>
    show d.display = _ ↔ _
    rw [aead_ok]
    simp [Spec.ctxLinks, Spec.linkNames, Spec.ctxMode, Spec.ctxNumbers]
  | rsaOaep d w =>
    unfold SecurityCtx.display
    simp only []
    rw [seq_ok, aead_ok]
    simp only [Spec.ctxMode, Spec.ctxNumbers, List.mem_append]
    have key : showOpt RsaOaepWrapper.display w = .ok () ↔
        (∀ n ∈ Spec.linkNames (Spec.ctxLinks (.rsaOaep d w)), Spec.ReadableName n) ∧
        ∀ n ∈ (w.bind (·.hashAlg)).toList, Spec.ShortNumber n := by
      cases w with
      | none => simp [showOpt, Spec.ctxLinks, Spec.linkNames]
      | some w =>
        unfold showOpt RsaOaepWrapper.display
        simp only [Spec.ctxLinks, Option.bind_some]
        rw [seq_ok, optInt_ok]
        refine and_congr_left fun _ => ?_
        cases w.keyLink with
        | none => simp [showOpt, Spec.linkNames]
        | some l =>
          rw [← links_ok]
          simp [showOpt, showAll, seq_ok]
    rw [key]
    constructor
    · rintro ⟨⟨h1, h2⟩, h3, h4⟩
      exact ⟨h3, h1, fun n hn => hn.elim (h2 n) (h4 n)⟩
    · rintro ⟨h1, h2, h3⟩
      exact ⟨⟨h2, fun n hn => h3 n (.inl hn)⟩, h1, fun n hn => h3 n (.inr hn)⟩

private theorem nodeData_ok {d : NodeData} : d.display = .ok () ↔
    (∀ n ∈ Spec.linkNames (d.locators.getD [] ++ d.ncDefs.flatMap (fun x => (x.schema.map Spec.schemaLocators).getD [])),
      Spec.ReadableName n) ∧
    ∀ n ∈ d.subtreeSize.toList ++ d.ncDefs.flatMap (·.ncId.toList), Spec.ShortNumber n := by
  unfold NodeData.display
  rw [seq_ok, seq_ok, optInt_ok, optLinks_ok, showAll_ok, linkNames_append]
  simp only [List.mem_append]
  constructor
  · rintro ⟨h0, h1, h2⟩
    constructor
    · rintro n (hn | hn)
      · exact h1 n hn
      · obtain ⟨l, hl, e⟩ := List.mem_filterMap.1 hn
        obtain ⟨x, hx, hl⟩ := List.mem_flatMap.1 hl
        have := (ncDef_show.1 (h2 x hx)).2
        cases hs : x.schema with
        | none => rw [hs] at hl; simp at hl
        | some s =>
          rw [hs] at hl
          exact this s hs n (List.mem_filterMap.2 ⟨l, hl, e⟩)
    · rintro n (hn | hn)
      · exact h0 n hn
      · obtain ⟨x, hx, hl⟩ := List.mem_flatMap.1 hn
        exact (ncDef_show.1 (h2 x hx)).1 n hl
  · rintro ⟨h, h'⟩
    refine ⟨fun n hn => h' n (.inl hn), fun n hn => h n (.inl hn), fun x hx => ncDef_show.2 ⟨fun n hn => h' n (.inr ?_), ?_⟩⟩
    · exact List.mem_flatMap.2 ⟨x, hx, hn⟩
    · intro s hs n hn
      refine h n (.inr ?_)
      obtain ⟨l, hl, e⟩ := List.mem_filterMap.1 hn
      exact List.mem_filterMap.2 ⟨l, List.mem_flatMap.2 ⟨x, hx, by rw [hs]; exact hl⟩, e⟩

private theorem group_ok {g : HashGroup} : g.display = .ok () ↔
    ∀ n ∈ (g.groupData.map Spec.groupNumbers).getD [], Spec.ShortNumber n := by
  unfold HashGroup.display
  cases g.groupData with
  | none => simp [showOpt]
  | some d =>
    show d.display = .ok () ↔ ∀ n ∈ Spec.groupNumbers d, Spec.ShortNumber n
    unfold GroupData.display Spec.groupNumbers
    rw [seq_ok, seq_ok, seq_ok, optInt_ok, optInt_ok, optInt_ok, optInt_ok]
    simp only [List.mem_append]
    constructor
    · rintro ⟨h1, h2, h3, h4⟩ n (((hn | hn) | hn) | hn)
      · exact h1 n hn
      · exact h2 n hn
      · exact h3 n hn
      · exact h4 n hn
    · intro h
      exact ⟨fun n hn => h n (.inl (.inl (.inl hn))), fun n hn => h n (.inl (.inl (.inr hn))), fun n hn => h n (.inl (.inr hn)),
        fun n hn => h n (.inr hn)⟩

private theorem node_ok {d : Node} : d.display = .ok () ↔
    (∀ n ∈ Spec.linkNames (Spec.nodeLinks d), Spec.ReadableName n) ∧ (∀ g ∈ d.hashGroups, g.pointers ≠ none) ∧
    ∀ n ∈ Spec.nodeNumbers d, Spec.ShortNumber n := by
  unfold Node.display
  rw [seq_ok, seq_ok, showAll_ok, showAll_ok]
  have h1 : (∀ g ∈ d.hashGroups, g.listPointers = .ok ()) ↔ ∀ g ∈ d.hashGroups, g.pointers ≠ none := by
    refine forall_congr' fun g => forall_congr' fun _ => ?_
    unfold HashGroup.listPointers
    cases g.pointers <;> simp
  have h2 : showOpt NodeData.display d.nodeData = .ok () ↔ (∀ n ∈ Spec.linkNames (Spec.nodeLinks d), Spec.ReadableName n) ∧
      ∀ n ∈ (match d.nodeData with
        | none => []
        | some d => d.subtreeSize.toList ++ d.ncDefs.flatMap (·.ncId.toList) : List Nat), Spec.ShortNumber n := by
    unfold Spec.nodeLinks
    cases d.nodeData with
    | none => simp [showOpt, Spec.linkNames]
    | some d => exact nodeData_ok
  have h3 : (∀ g ∈ d.hashGroups, g.display = .ok ()) ↔
      ∀ n ∈ d.hashGroups.flatMap (fun g => (g.groupData.map Spec.groupNumbers).getD []), Spec.ShortNumber n := by
    simp only [group_ok, List.mem_flatMap]
    exact ⟨fun h n ⟨g, hg, hn⟩ => h g hg n hn, fun h g hg n hn => h n ⟨g, hg, hn⟩⟩
  rw [h1, h2, h3]
  unfold Spec.nodeNumbers
  simp only [List.mem_append]
  constructor
  · rintro ⟨a, ⟨b, c⟩, e⟩
    exact ⟨b, a, fun n hn => hn.elim (c n) (e n)⟩
  · rintro ⟨b, a, c⟩
    exact ⟨a, ⟨b, fun n hn => c n (.inl hn)⟩, fun n hn => c n (.inr hn)⟩

/-- C77 (manifests): showing a manifest succeeds exactly if the names of its links are readable, its mode is known, its numbers are
short and all its hash groups have pointers. -/
theorem C77_manifest (m : Manifest) : m.display = .ok () ↔ Spec.ManifestShowable m := by
  unfold Manifest.display
  rw [seq_ok, showOpt_ok]
  constructor
  · rintro ⟨h1, h2⟩
    exact ⟨fun c e => (ctx_ok.1 (h1 c e)).1, fun c k e => (ctx_ok.1 (h1 c e)).2.1 k,
      fun d e => by rw [e] at h2; exact (node_ok.1 h2).1, fun d e => by rw [e] at h2; exact (node_ok.1 h2).2.1,
      fun c e => (ctx_ok.1 (h1 c e)).2.2, fun d e => by rw [e] at h2; exact (node_ok.1 h2).2.2⟩
  · rintro ⟨h1, h2, h3, h4, h5, h6⟩
    refine ⟨fun c e => ctx_ok.2 ⟨h1 c e, fun k => h2 c k e, h5 c e⟩, ?_⟩
    cases hn : m.node with
    | encrypted _ => rfl
    | plain d => exact node_ok.2 ⟨h3 d hn, h4 d hn, h6 d hn⟩

private theorem optName_ok {o : Option Name} : showOpt Name.display o = .ok () ↔ ∀ n, o = some n → Spec.ReadableName n := by
  rw [showOpt_ok]
  exact forall_congr' fun n => forall_congr' fun _ => name_ok

private theorem fields_ok {c : ContentObject} {x : Py Unit} : c.displayFields x = .ok () ↔
    (∀ n, c.name = some n → Spec.ReadableName n) ∧ (∀ t, c.expiryTime = some t → Spec.ShowableTime t) ∧
    (∀ k, c.finalChunkId = some k → Spec.ShortNumber k) ∧ x = .ok () := by
  unfold ContentObject.displayFields
  rw [seq_ok, seq_ok, seq_ok, optName_ok, showOpt_ok, showOpt_ok]
  simp only [showTime_ok, showInt_ok]
  exact ⟨fun ⟨a, b, d, e⟩ => ⟨a, b, e, d⟩, fun ⟨a, b, e, d⟩ => ⟨a, b, d, e⟩⟩

/-- C77 (content objects) -/
theorem C77_content (brief : Bool) (c : ContentObject) : c.display brief = .ok () ↔ Spec.ContentShowable brief c := by
  unfold ContentObject.display Spec.ContentShowable
  have hne : PT_MANIFEST ≠ PT_LINK := by decide
  by_cases h1 : c.payloadType = some PT_MANIFEST
  · rw [if_pos h1]
    simp only [h1, Option.some.injEq, hne, ne_eq, not_true, false_and, or_false, true_and]
    cases hp : c.payload with
    | none => simp
    | some b =>
      simp only [Option.some.injEq, exists_eq_left']
      cases hm : Manifest.deserialize b with
      | ok m =>
        simp only []
        rw [fields_ok, C77_manifest]
        simp
      | error e =>
        by_cases he : e = .parseError
        · subst he
          simp only []
          rw [fields_ok]
          simp
        · cases e <;> first | exact absurd rfl he | simp
  · rw [if_neg h1]
    by_cases h2 : c.payloadType = some PT_LINK
    · rw [if_pos h2]
      simp only [h2, Option.some.injEq, Ne.symm hne, ne_eq, not_true, false_and, and_false, or_false, false_or, true_and]
      cases hp : c.payload with
      | none => simp
      | some b =>
        simp only []
        rw [bind_eq_ok]
        constructor
        · rintro ⟨l, hl, h⟩
          rw [fields_ok, link_ok] at h
          exact ⟨h.1, h.2.1, h.2.2.1, b, l, rfl, hl, h.2.2.2⟩
        · rintro ⟨hn, ht, hf, b', l, e, hl, hk⟩
          cases e
          exact ⟨l, hl, fields_ok.2 ⟨hn, ht, hf, link_ok.2 hk⟩⟩
    · rw [if_neg h2]
      simp only [h1, h2, ne_eq, false_and, not_false_eq_true, true_and, false_or]
      cases brief <;> cases hp : c.payload <;> simp [fields_ok]

/-- C77 (packets): showing a packet succeeds exactly if its content object can be shown and its signature, if it has one with RSA, has a
time that can be shown and no key link with an unreadable name. -/
theorem C77_packet (brief : Bool) (p : Packet) : p.display brief = .ok () ↔
    Spec.ContentShowable brief p.body ∧
    ∀ k l t, p.alg = some (.rsaSha256 k l t) →
      (∀ l' n, l = some l' → l'.name = some n → Spec.ReadableName n) ∧ Spec.ShowableTime t := by
  unfold Packet.display
  rw [seq_ok, C77_content, showOpt_ok]
  refine and_congr_right fun _ => ?_
  have hrsa : ∀ k l t, ValidationAlg.display (.rsaSha256 k l t) = .ok () ↔
      (∀ l' n, l = some l' → l'.name = some n → Spec.ReadableName n) ∧ Spec.ShowableTime t := by
    intro k l t
    unfold ValidationAlg.display
    simp only []
    rw [seq_ok, showOpt_ok, showTime_ok]
    refine and_congr_left fun _ => ?_
    exact ⟨fun h l' n e => link_ok.1 (h l' e) n, fun h l' e => link_ok.2 fun n => h l' n e⟩
  constructor
  · intro h k l t e
    exact (hrsa k l t).1 (h _ e)
  · intro h a e
    cases a with
    | crc32c => rfl
    | rsaSha256 k l t => exact (hrsa k l t).2 (h k l t e)

/-- C77 (a corollary): a packet of plain data whose name has only ASCII segments, without times and final chunk, is shown,
briefly too. -/
theorem C77_ascii_data (brief : Bool) (p : Packet) (b : Bytes) (hb : p.body.payload = some b) (hp : p.body.payloadType = some PT_DATA)
    (ha : p.alg = none ∨ p.alg = some .crc32c)
    (ht : p.body.expiryTime = none) (hf : p.body.finalChunkId = none)
    (hn : ∀ n, p.body.name = some n → ∀ c ∈ n.components, c.type = 1 ∧ c.isArray = false ∧ ∀ x ∈ c.value, x.toNat < 128) :
    p.display brief = .ok () := by
  rw [C77_packet]
  refine ⟨⟨fun n e c hc => ⟨fun _ => ⟨(hn n e c hc).2.1, ?_⟩, fun h => absurd ((hn n e c hc).1 ▸ h) (by decide)⟩, by simp [ht], by simp [hf], .inr (.inr ⟨by rw [hp]; decide, by rw [hp]; decide, by rw [hb]; simp⟩)⟩, ?_⟩
  · have := (hn n e c hc).2.2
    generalize c.value = v at this
    induction v with
    | nil => exact ⟨[], rfl⟩
    | cons x v ih =>
      obtain ⟨t, ht⟩ := ih (fun y hy => this y (by simp [hy]))
      have hx : x.toNat < 128 := this x (by simp)
      refine ⟨Char.ofNat x.toNat :: t, ?_⟩
      have : String.utf8EncodeChar (Char.ofNat x.toNat) = [x] := by
        have hall : ∀ k : Fin 128, String.utf8EncodeChar (Char.ofNat k.val) = [UInt8.ofNat k.val] := by decide +kernel
        have := hall ⟨x.toNat, hx⟩
        simpa using this
      unfold utf8Encode at ht ⊢
      simp only [List.flatMap_cons]
      rw [this, ht]
      rfl
  · rintro k l t e
    rcases ha with h | h <;> rw [h] at e <;> cases e

/-- A name segment that is not UTF-8 makes a packet that is read but cannot be shown; a manifest of garbage is shown. -/
example : ContentObject.display true { name := some ⟨[⟨1, [0xff], false⟩]⟩, payloadType := some PT_DATA, payload := some [1] } =
    .error .valueError := by decide +kernel
example : ContentObject.display true { payloadType := some PT_MANIFEST, payload := some [0, 1, 0] } = .ok () := by decide +kernel
example : ContentObject.display true { payloadType := some PT_DATA } = .error .typeError := by decide +kernel
example : ContentObject.display false { payloadType := some PT_DATA } = .ok () := by decide +kernel

set_option maxRecDepth 100000 in
/-- A chunk id of 1785 bytes can be shown, one of 1786 bytes cannot. -/
example : Name.display ⟨[⟨5, List.replicate 1785 255, true⟩]⟩ = .ok () ∧
    Name.display ⟨[⟨5, List.replicate 1786 255, true⟩]⟩ = .error .valueError := by decide +kernel

/-- Expiry times at the limits. -/
example : ContentObject.display false { payloadType := some PT_DATA, expiryTime := some (F64.ofNat (2 ^ 55)) } = .ok () ∧
    ContentObject.display false { payloadType := some PT_DATA, expiryTime := some (F64.ofNat (2 ^ 56)) } = .error .osError ∧
    ContentObject.display false { payloadType := some PT_DATA, expiryTime := some (F64.ofNat (2 ^ 63)) } = .error .overflowError := by
  decide +kernel

end Ccnpy
