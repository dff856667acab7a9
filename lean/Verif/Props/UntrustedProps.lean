import Verif.Lemmas.TravErrors
import Verif.Lemmas.PacketErrors
import Verif.Lemmas.Toy
import Verif.Lemmas.Nameless
import Verif.Props.PacketProps
import Verif.Props.FullTraversalProps

/-!
# C112: the exceptions that hostile packets make a traversal raise
-/

namespace Ccnpy

/-- ParseError, CannotParseError, RuntimeError, ValueError, TypeError, AssertionError, OverflowError, KeyError, AttributeError,
DecryptionError, KeyNumberNotFound, KeyIdNotFound and OSError. -/
def Spec.readErrors : List PyErr :=
  [.parseError, .cannotParseError, .runtimeError, .valueError, .typeError, .assertionError, .overflowError, .keyError, .attributeError,
    .decryptionError, .keyNumberNotFound, .keyIdNotFound, .osError]

/-- An exception that is raised outside the code: by the packet reader that is asked for a hash value, or by the library that decrypts (InvalidTag is caught). -/
inductive Spec.Outside (T : TravEnv) (e : PyErr) : Prop
  | reader (name : Option Name) (hash : HashValue) (h : T.reader name (some hash) = .error e)
  | aead (alg : AeadAlg) (key iv data aad : Bytes) (h : T.prims.aeadOpen alg key iv data aad = .error e) (hn : e ≠ .invalidTag)
  | oaep (der c label : Bytes) (h : T.prims.oaepDecrypt der c label = .error e)

instance primsIn_outside (T : TravEnv) : PrimsIn (fun e => Spec.Outside T e ∨ e = .nonTermination) T.prims where
  aead := fun alg key iv data aad e h => by
    by_cases hn : e = .invalidTag
    · exact .inl hn
    · exact .inr (.inl (.aead alg key iv data aad h hn))
  oaep := fun der c label e h => .inl (.oaep der c label h)

theorem among_onWalk {X : PyErr → Prop} {α : Type} {x : PyS TState α} (h : AmongS X x) : AmongS X x.onWalk := by
  intro s
  refine .of fun e he => (h s.base).real e ?_
  rw [← he]
  unfold PyS.onWalk
  cases x s.base
  rfl

theorem among_onPicture {X : PyErr → Prop} {α : Type} {x : PyS ManifestGraph α} (h : AmongS X x) : AmongS X x.onPicture := by
  intro s
  refine .of fun e he => (h s.graph).real e ?_
  rw [← he]
  unfold PyS.onPicture
  cases x s.graph
  rfl

theorem among_addManifest {X : PyErr → Prop} (P : Prims) (R : NameComponent → Text) (h : HashValue) (n : Node) (name : Option Name) :
    AmongS X (ManifestGraph.addManifest P R h n name) := by
  intro g
  unfold ManifestGraph.addManifest
  split
  · infer_instance
  · dsimp only
    split
    · rename_i e he
      refine .of fun e' h' => ?_
      cases h'
      exact Among.real (X := X) _ he
    · infer_instance

theorem among_addData {X : PyErr → Prop} (P : Prims) (R : NameComponent → Text) (h : HashValue) (name : Option Name) :
    AmongS X (ManifestGraph.addData P R h name) := by
  intro g
  unfold ManifestGraph.addData
  split
  · infer_instance
  · dsimp only
    split
    · rename_i e he
      refine .of fun e' h' => ?_
      cases h'
      exact Among.real (X := X) _ he
    · infer_instance

theorem among_writeData {X : PyErr → Prop} (b : Option Bytes) : AmongS X (writeData b) := by
  unfold writeData
  split
  · exact AmongS.lift _
  · exact AmongS.modify _

theorem among_decrypt (T : TravEnv) (m : Manifest) : AmongS (fun e => Spec.Outside T e ∨ e = .nonTermination) (T.decrypt m) := by
  intro s
  unfold TravEnv.decrypt
  split
  · infer_instance
  · show Among _ (s.cache.open T.prims m).1
    infer_instance

theorem among_fetch (T : TravEnv) (nc : NcCache) (v : HashIteratorValue) :
    Among (fun e => Spec.Outside T e ∨ e = .nonTermination) (T.fetch nc v) := by
  unfold TravEnv.fetch
  have : ∀ n, Among (fun e => Spec.Outside T e ∨ e = .nonTermination) (T.reader n (some v.hashValue)) :=
    fun n => .of fun e h => .inr (.inl (.reader n _ h))
  infer_instance

theorem among_report {X : PyErr → Prop} (m : Manifest) {x : PyS FullState Unit} (h : AmongS X x) : AmongS X (reportFull m x) := by
  intro s
  refine .of fun e he => ?_
  unfold reportFull at he
  have hs := (h s).real
  cases hx : x s with
  | mk r s' =>
    rw [hx] at he hs
    cases r with
    | ok u => cases he
    | error e1 =>
      rcases bind_eq_error.mp he with he | ⟨_, _, he⟩
      · exact Among.real e he
      · cases he
        exact hs _ rfl

theorem among_visit (F : FullEnv) (visit : Packet → PyS FullState Unit)
    (hv : ∀ p, AmongS (fun e => Spec.Outside F.toTravEnv e ∨ e = .nonTermination) (visit p)) (nc : NcCache) (fuel : Nat) (it : NodeIterator) :
    AmongS (fun e => Spec.Outside F.toTravEnv e ∨ e = .nonTermination) (F.visitLoop visit nc fuel it) := by
  induction fuel generalizing it with
  | zero =>
    unfold FullEnv.visitLoop
    refine (AmongS.lift _).bind fun r => ?_
    cases r with
    | none => exact AmongS.pure _
    | some r =>
      exact fun s => .of fun e he => by
        cases he
        exact .inr (.inr rfl)
  | succ fuel ih =>
    unfold FullEnv.visitLoop
    refine (AmongS.lift _).bind fun r => ?_
    cases r with
    | none => exact AmongS.pure _
    | some r =>
      have := among_fetch F.toTravEnv nc r.1
      exact (AmongS.lift _).bind fun p => (AmongS.lift _).bind fun _ => (hv p).bind fun _ => ih _

theorem among_preorder (F : FullEnv) (depth : Nat) (nc : NcCache) (p : Packet) :
    AmongS (fun e => Spec.Outside F.toTravEnv e ∨ e = .nonTermination) (F.preorder depth nc p) := by
  induction depth generalizing nc p with
  | zero =>
    exact fun s => .of fun e he => by
      cases he
      exact .inr (.inr rfl)
  | succ depth ih =>
    unfold FullEnv.preorder
    refine (AmongS.lift _).bind fun h => (among_onWalk (AmongS.modify _)).bind fun _ => ?_
    cases hty : p.body.payloadType with
    | none => exact AmongS.lift _
    | some ty =>
      dsimp only
      split
      · refine (AmongS.lift _).bind fun m => (among_onWalk (among_decrypt _ m)).bind fun m => ?_
        cases hm : m.node with
        | encrypted b => exact AmongS.lift _
        | plain node =>
          refine AmongS.bind ?_ fun _ => (AmongS.lift _).bind fun nc => among_report m (among_visit F _ (fun q => ih nc q) nc _ _)
          unfold FullEnv.noteManifest
          split
          · exact among_onPicture (among_addManifest _ _ _ _ _)
          · exact AmongS.pure _
      · split
        · refine AmongS.bind ?_ fun _ => ?_
          · unfold FullEnv.noteData
            split
            · exact among_onPicture (among_addData _ _ _ _)
            · exact AmongS.pure _
          · unfold FullEnv.writeData
            split
            · exact among_onWalk (among_writeData _)
            · exact AmongS.pure _
        · exact AmongS.lift _

/-- C112: whatever packets a traversal is given, with or without keys, data writer and graph, from whatever state: what it raises is one
of the thirteen exceptions, or RecursionError, or was raised by the packet reader or by the decryption of the cryptographic library. -/
theorem C112_only (F : FullEnv) (depth : Nat) (name : Option Name) (hash : Option HashValue) (s s' : FullState) (e : PyErr)
    (h : F.traverse depth name hash s = (.error e, s')) :
    e ∈ Spec.readErrors ∨ e = .nonTermination ∨ F.reader name hash = .error e ∨ Spec.Outside F.toTravEnv e := by
  unfold FullEnv.traverse at h
  rcases PyS.bind_error h with h | ⟨p, s1, _, h⟩
  · exact .inr (.inr (.inl (congrArg Prod.fst h)))
  · have : AmongS (fun e => Spec.Outside F.toTravEnv e ∨ e = .nonTermination)
        (do PyS.lift (validatePacket F.prims F.keystore p); F.preorder depth [] p) :=
      (AmongS.lift _).bind fun _ => among_preorder F _ _ _
    rcases (this s1).real e (by rw [h]) with h1 | h1 | h1
    · exact .inl h1
    · exact .inr (.inr (.inr h1))
    · exact .inr (.inl h1)

/-! ## With the readers of the repository -/

/-- The library of the primitives keeps to what the code expects: decryption raises InvalidTag or ValueError (wrong lengths), and
decryption with the private key raises ValueError. -/
structure Spec.Library (P : Prims) : Prop where
  aead : ∀ alg key iv data aad e, P.aeadOpen alg key iv data aad = .error e → e = .invalidTag ∨ e = .valueError
  oaep : ∀ der c label e, P.oaepDecrypt der c label = .error e → e = .valueError

theorem Spec.Outside.library {T : TravEnv} {e : PyErr} (h : Spec.Outside T e) (hl : Spec.Library T.prims) :
    e ∈ Spec.readErrors ∨ ∃ name hash, T.reader name (some hash) = .error e := by
  cases h with
  | reader n hs h1 => exact .inr ⟨n, hs, h1⟩
  | aead alg key iv data aad h1 hn =>
    left
    rcases hl.aead alg key iv data aad e h1 with rfl | rfl
    · exact absurd rfl hn
    · simp [Spec.readErrors]
  | oaep der c label h1 =>
    left
    rw [hl.oaep der c label e h1]
    simp [Spec.readErrors]

theorem memory_errors {P : Prims} {store : MemoryStore} {name : Option Name} {hash : Option HashValue} {e : PyErr}
    (h : store.reader P name hash = .error e) : e ∈ Spec.readErrors := by
  unfold MemoryStore.reader MemoryStore.get at h
  repeat' split at h
  all_goals first
    | cases h
      simp [Spec.readErrors]
    | cases h

/-- C112: packets in memory: only the thirteen, and RecursionError. -/
theorem C112_memory (F : FullEnv) (P : Prims) (store : MemoryStore) (hr : F.reader = store.reader P) (hl : Spec.Library F.prims)
    (depth : Nat) (name : Option Name) (hash : Option HashValue) (s s' : FullState) (e : PyErr)
    (h : F.traverse depth name hash s = (.error e, s')) : e ∈ Spec.readErrors ∨ e = .nonTermination := by
  rcases C112_only F depth name hash s s' e h with h1 | h1 | h1 | h1
  · exact .inl h1
  · exact .inr h1
  · rw [hr] at h1
    exact .inl (memory_errors h1)
  · rcases h1.library hl with h1 | ⟨n, hv, h1⟩
    · exact .inl h1
    · rw [hr] at h1
      exact .inl (memory_errors h1)

theorem load_errors {now : F64} {d : Directory} {path : List Text} {e : PyErr} (h : d.load now path = .error e) :
    e ∈ Spec.readErrors ∨ e = .fileNotFoundError := by
  unfold Directory.load at h
  split at h
  · cases h
    exact .inr rfl
  · have := PkOnly.real e h
    left
    revert this
    simp only [PyErr.PkErr, Spec.readErrors, List.mem_cons, List.not_mem_nil, or_false]
    rintro (rfl | rfl | rfl | rfl | rfl | rfl) <;> simp

theorem getByHash_errors {now : F64} {R : NameComponent → Text} {d : Directory} {name : Option Name} {hv : HashValue} {e : PyErr}
    (h : d.reader now R name (some hv) = .error e) : e ∈ Spec.readErrors ∨ e = .fileNotFoundError := by
  unfold Directory.reader at h
  rcases bind_eq_error.mp h with h | ⟨p, _, h⟩
  · exact load_errors h
  · repeat' split at h
    all_goals first
      | cases h
        simp [Spec.readErrors]
      | cases h

instance {X : PyErr → Prop} (R : NameComponent → Text) (n : Name) : Among X (linkName R n) := by unfold linkName; infer_instance

theorem getByName_errors {now : F64} {R : NameComponent → Text} {d : Directory} {n : Name} {e : PyErr}
    (h : d.getByName now R n = .error e) : e ∈ Spec.readErrors ∨ e = .nameError ∨ e = .notImplementedError := by
  have hl : ∀ e, d.getByLink now R n = .error e → e ∈ Spec.readErrors ∨ e = .fileNotFoundError ∨ e = .nameError := by
    intro e h
    have hload : ∀ {p} {e : PyErr}, d.load now p = .error e → e ∈ Spec.readErrors ∨ e = .fileNotFoundError ∨ e = .nameError := by
      intro p e h
      rcases load_errors h with h | h
      · exact .inl h
      · exact .inr (.inl h)
    have hX : ∀ {α : Type} {x : Py α} [Among (fun _ => False) x] {e : PyErr}, x = .error e → e ∈ Spec.readErrors := by
      intro α x hx e h
      rcases hx.real e h with h | h
      · exact h
      · exact h.elim
    unfold Directory.getByLink at h
    rcases bind_eq_error.mp h with h | ⟨f, _, h⟩
    · exact .inl (hX h)
    rcases bind_eq_error.mp h with h | ⟨p, _, h⟩
    · exact hload h
    split at h
    · split at h
      · cases h
        simp [Spec.readErrors]
      · rcases bind_eq_error.mp h with h | ⟨l, _, h⟩
        · exact .inl (hX h)
        split at h
        · cases h
          simp [Spec.readErrors]
        · rcases bind_eq_error.mp h with h | ⟨_, _, h⟩
          · exact hload h
          · cases h
            exact .inr (.inr rfl)
    · cases h
      exact .inr (.inr rfl)
  unfold Directory.getByName at h
  split at h
  · cases h
    exact .inr (.inr rfl)
  · rename_i hne
    rcases hl e h with h1 | h1 | h1
    · exact .inl h1
    · subst h1
      exact absurd h hne
    · exact .inr (.inl h1)

/-- C112: packets in the files of a directory: also FileNotFoundError, and if the root is asked for by name alone, NameError (a bug) and
NotImplementedError. -/
theorem C112_directory (F : FullEnv) (now : F64) (R : NameComponent → Text) (d : Directory) (hr : F.reader = d.reader now R)
    (hl : Spec.Library F.prims) (depth : Nat) (name : Option Name) (hash : Option HashValue) (s s' : FullState) (e : PyErr)
    (h : F.traverse depth name hash s = (.error e, s')) :
    e ∈ Spec.readErrors ∨ e = .nonTermination ∨ e = .fileNotFoundError ∨ hash = none ∧ (e = .nameError ∨ e = .notImplementedError) := by
  have hf : ∀ {e : PyErr}, e ∈ Spec.readErrors ∨ e = .fileNotFoundError → e ∈ Spec.readErrors ∨ e = .nonTermination ∨
      e = .fileNotFoundError ∨ hash = none ∧ (e = .nameError ∨ e = .notImplementedError) := by
    rintro e (h | h)
    · exact .inl h
    · exact .inr (.inr (.inl h))
  rcases C112_only F depth name hash s s' e h with h1 | h1 | h1 | h1
  · exact .inl h1
  · exact .inr (.inl h1)
  · rw [hr] at h1
    cases hash with
    | some hv => exact hf (getByHash_errors h1)
    | none =>
      cases name with
      | none =>
        cases h1
        simp [Spec.readErrors]
      | some n =>
        rcases getByName_errors h1 with h2 | h2
        · exact .inl h2
        · exact .inr (.inr (.inr ⟨rfl, h2⟩))
  · rcases h1.library hl with h1 | ⟨n, hv, h1⟩
    · exact .inl h1
    · rw [hr] at h1
      exact hf (getByHash_errors h1)






/-! ## A manifest that grows when it is encoded again

Five byte numbers are encoded again as eight bytes, so a manifest that fits its packet need not fit a TLV any more once it has been read. -/

/-- 2^32 in five bytes. -/
private def wideData : Tlv := ⟨T_NODE_DATA, [0, 2, 0, 5, 1, 0, 0, 0, 0]⟩
private def wideGroupData : Tlv :=
  ⟨T_GROUP_DATA, [0, 2, 0, 5, 1, 0, 0, 0, 0, 0, 0, 0, 5, 1, 0, 0, 0, 0, 0, 5, 0, 5, 1, 0, 0, 0, 0, 0, 4, 0, 5, 1, 0, 0, 0, 0]⟩
/-- The same in eight bytes. -/
private def fullGroupData : Tlv :=
  ⟨T_GROUP_DATA, [0, 2, 0, 8, 0, 0, 0, 1, 0, 0, 0, 0, 0, 0, 0, 8, 0, 0, 0, 1, 0, 0, 0, 0, 0, 5, 0, 8, 0, 0, 0, 1, 0, 0, 0, 0, 0, 4, 0, 8,
    0, 0, 0, 1, 0, 0, 0, 0]⟩
private def wideInts : GroupData :=
  { subtreeSize := some (2 ^ 32), leafSize := some (2 ^ 32), ncId := some (2 ^ 32), startSegmentId := some (2 ^ 32) }
private def smallGroup : Tlv := ⟨T_HASH_GROUP, wideGroupData.bytes ++ [0, 7, 0, 0]⟩

/-- A pointer whose digest is `b`. -/
private def bulkPointers (b : Bytes) : Tlv := ⟨T_PTRS, (⟨1, b⟩ : Tlv).bytes ++ []⟩
private def bigGroup (b : Bytes) : Tlv := ⟨T_HASH_GROUP, wideGroupData.bytes ++ ((bulkPointers b).bytes ++ [])⟩
private def fullGroup (b : Bytes) : Tlv := ⟨T_HASH_GROUP, bytesAll [fullGroupData, bulkPointers b]⟩
private def wideNode (b : Bytes) : Tlv := ⟨T_NODE, wideData.bytes ++ (smallGroup.bytes ++ ((bigGroup b).bytes ++ []))⟩

private theorem wideData_parse : NodeData.parse wideData = .ok { subtreeSize := some (2 ^ 32) } := by decide +kernel
private theorem smallGroup_parse : HashGroup.parse smallGroup = .ok ⟨some wideInts, some []⟩ := by decide +kernel
private theorem fullGroupData_len : List.length fullGroupData.value = 48 := by decide +kernel

section

variable {b : Bytes} (hb : b.length = 65397)
include hb

private theorem bulkHash_tlv : HashValue.tlv ⟨1, b⟩ = .ok ⟨1, b⟩ :=
  mkTlv_of_valid (t := ⟨1, b⟩) ⟨by show (1 : Nat) ≤ _; omega, by show b.length ≤ _; omega⟩

private theorem bulkPointers_length : List.length (bulkPointers b).value = 65401 := by
  simp only [bulkPointers, List.append_nil, Tlv.bytes_length, Tlv.len, Tlv.length, hb]

private theorem bulkPointers_valid : (bulkPointers b).Valid := ⟨by show (7 : Nat) ≤ _; omega, by rw [bulkPointers_length hb]; omega⟩

private theorem bulkPointers_tlv : pointersTlv [⟨1, b⟩] = .ok (bulkPointers b) := by
  have h2 : listTlv HashValue.tlv [⟨1, b⟩] = .ok [⟨1, b⟩] := by
    unfold listTlv listTlv
    rw [bulkHash_tlv hb]
    rfl
  unfold pointersTlv
  rw [h2, ok_bind, container, concatTlvs_of_valid, ok_bind]
  · exact mkTlv_of_valid (t := bulkPointers b) (bulkPointers_valid hb)
  · intro t ht
    rw [List.mem_singleton.mp ht]
    exact ⟨by show (1 : Nat) ≤ _; omega, by show b.length ≤ _; omega⟩

private theorem bulkPointers_parse : pointersParse (bulkPointers b) = .ok [⟨1, b⟩] := by
  have h2 : HashValue.parse ⟨1, b⟩ = .ok ⟨1, b⟩ := by
    unfold HashValue.parse construct
    show (do let _ ← HashValue.tlv ⟨1, b⟩; return (⟨1, b⟩ : HashValue)) = _
    rw [bulkHash_tlv hb]
    rfl
  unfold pointersParse
  rw [if_neg (by show ¬ (T_PTRS ≠ T_PTRS); simp), show (bulkPointers b).value = (⟨1, b⟩ : Tlv).bytes ++ [] from rfl,
    tlvLoop_append _ _ ⟨by show (1 : Nat) ≤ _; omega, by show b.length ≤ _; omega⟩]
  unfold pointersStep
  rw [h2]
  simp only [ok_bind, tlvLoop_nil, pure_bind, List.nil_append]
  unfold construct
  rw [bulkPointers_tlv hb]
  rfl

private theorem fullGroup_length : List.length (fullGroup b).value = 65457 := by
  simp only [fullGroup, bytesAll_cons, bytesAll_nil, List.append_nil, List.length_append, fullGroupData_len, Tlv.bytes_length, Tlv.len,
    Tlv.length, bulkPointers_length hb]

private theorem fullGroup_valid : (fullGroup b).Valid := ⟨by show (1 : Nat) ≤ _; omega, by rw [fullGroup_length hb]; omega⟩

private theorem fullGroup_tlv : HashGroup.tlv ⟨some wideInts, some [⟨1, b⟩]⟩ = .ok (fullGroup b) := by
  have h1 : GroupData.tlv wideInts = .ok fullGroupData := by decide +kernel
  unfold HashGroup.tlv HashGroup.members optTlv
  simp only [h1, bulkPointers_tlv hb, ok_bind, pure_bind, List.cons_append, List.nil_append]
  rw [container, concatTlvs_of_valid, ok_bind]
  · exact mkTlv_of_valid (t := fullGroup b) (fullGroup_valid hb)
  · intro t ht
    simp only [List.mem_cons, List.not_mem_nil, or_false] at ht
    rcases ht with rfl | rfl
    · decide +kernel
    · exact bulkPointers_valid hb

private theorem bigGroup_parse : HashGroup.parse (bigGroup b) = .ok ⟨some wideInts, some [⟨1, b⟩]⟩ := by
  unfold HashGroup.parse autoParse autoValueParse
  rw [if_neg (by show ¬ (T_HASH_GROUP ≠ T_HASH_GROUP); simp),
    show (bigGroup b).value = wideGroupData.bytes ++ ((bulkPointers b).bytes ++ []) from rfl, tlvLoop_append _ _ (by decide +kernel)]
  have h1 : autoStep HashGroup.fields {} wideGroupData = .ok { groupData := some wideInts } := by decide +kernel
  rw [h1, ok_bind, tlvLoop_append _ _ (bulkPointers_valid hb)]
  have h2 : autoStep HashGroup.fields { groupData := some wideInts } (bulkPointers b) =
      .ok { groupData := some wideInts, pointers := some [⟨1, b⟩] } := by
    show (do return ({ groupData := some wideInts, pointers := some (← pointersParse (bulkPointers b)) } : HashGroup)) = _
    rw [bulkPointers_parse hb]
    rfl
  rw [h2, ok_bind, tlvLoop_nil, ok_bind]
  unfold construct
  rw [fullGroup_tlv hb]
  rfl

private theorem bigGroup_length : List.length (bigGroup b).value = 65445 := by
  have : List.length wideGroupData.value = 36 := by decide +kernel
  simp only [bigGroup, List.append_nil, List.length_append, this, Tlv.bytes_length, Tlv.len, Tlv.length, bulkPointers_length hb]

private theorem bigGroup_valid : (bigGroup b).Valid := ⟨by show (1 : Nat) ≤ _; omega, by rw [bigGroup_length hb]; omega⟩

private theorem wideNode_length : List.length (wideNode b).value = 65510 := by
  have h1 : List.length wideData.value = 9 := by decide +kernel
  have h2 : List.length smallGroup.value = 44 := by decide +kernel
  simp only [wideNode, List.append_nil, List.length_append, h1, h2, Tlv.bytes_length, Tlv.len, Tlv.length, bigGroup_length hb]

private theorem wideNode_parse : Node.parse (wideNode b) = .error .overflowError := by
  unfold Node.parse
  rw [if_neg (by show ¬ (T_NODE ≠ T_NODE); simp),
    show (wideNode b).value = wideData.bytes ++ (smallGroup.bytes ++ ((bigGroup b).bytes ++ [])) from rfl,
    tlvLoop_append _ _ (by decide +kernel)]
  have h1 : Node.parseStep {} wideData = .ok { nodeData := some { subtreeSize := some (2 ^ 32) } } := by
    unfold Node.parseStep
    rw [if_pos (by decide), wideData_parse]
    rfl
  rw [h1, ok_bind, tlvLoop_append _ _ (by decide +kernel)]
  have h2 : Node.parseStep { nodeData := some { subtreeSize := some (2 ^ 32) } } smallGroup =
      .ok { nodeData := some { subtreeSize := some (2 ^ 32) }, hashGroups := [⟨some wideInts, some []⟩] } := by
    unfold Node.parseStep
    rw [if_neg (by decide), if_pos (by decide), smallGroup_parse]
    rfl
  rw [h2, ok_bind, tlvLoop_append _ _ (bigGroup_valid hb)]
  have h3 : Node.parseStep { nodeData := some { subtreeSize := some (2 ^ 32) }, hashGroups := [⟨some wideInts, some []⟩] } (bigGroup b) =
      .ok { nodeData := some { subtreeSize := some (2 ^ 32) },
            hashGroups := [⟨some wideInts, some []⟩, ⟨some wideInts, some [⟨1, b⟩]⟩] } := by
    unfold Node.parseStep
    rw [if_neg (by show ¬ ((1 : Nat) = 0); omega), if_pos (by show (1 : Nat) = 1; rfl), bigGroup_parse hb]
    rfl
  rw [h3, ok_bind, tlvLoop_nil, ok_bind]
  have h4 : NodeData.tlv { subtreeSize := some (2 ^ 32) } = .ok ⟨T_NODE_DATA, [0, 2, 0, 8, 0, 0, 0, 1, 0, 0, 0, 0]⟩ := by decide +kernel
  have h5 : HashGroup.tlv ⟨some wideInts, some []⟩ = .ok ⟨T_HASH_GROUP, fullGroupData.bytes ++ [0, 7, 0, 0]⟩ := by decide +kernel
  unfold construct Node.tlv Node.members optTlv listTlv listTlv listTlv
  simp only [h4, h5, fullGroup_tlv hb, ok_bind, pure_bind, List.cons_append, List.nil_append]
  rw [if_neg (by show ¬ ((2 : Nat) = 0); omega), concatTlvs_of_valid, ok_bind, mkTlv_eq, if_neg]
  · rfl
  · rintro ⟨_, h⟩
    simp only [bytesAll_cons, bytesAll_nil, List.append_nil, List.length_append, fullGroupData_len, Tlv.bytes_length, Tlv.len,
      Tlv.length, fullGroup_length hb, List.length_cons, List.length_nil] at h
    omega
  · intro t ht
    simp only [List.mem_cons, List.not_mem_nil, or_false] at ht
    rcases ht with rfl | rfl | rfl
    · decide +kernel
    · decide +kernel
    · exact fullGroup_valid hb

private theorem wideManifest_parse : Manifest.deserialize (wideNode b).bytes = .error .overflowError := by
  unfold Manifest.deserialize
  rw [show (wideNode b).bytes = (wideNode b).bytes ++ [] by simp,
    tlvLoop_append _ _ ⟨by show (1 : Nat) ≤ _; omega, by rw [wideNode_length hb]; omega⟩]
  have h1 : Manifest.parseStep {} (wideNode b) = .error .overflowError := by
    unfold Manifest.parseStep
    rw [if_neg (by show ¬ ((1 : Nat) = 0); omega), if_pos (by show (1 : Nat) = 1; rfl), wideNode_parse hb]
    rfl
  rw [h1]
  rfl

end

/-! ## Each of the twelve -/

/-- Packets that arrive as byte strings of at most 65535 bytes, are parsed, put in a memory store and read with the keys `ks` from the
packet with hash value `hash`: `e` is raised. -/
def Spec.Raises (e : PyErr) : Prop :=
  ∃ (F : FullEnv) (now : F64) (wires : List Bytes) (packets : List Packet) (store : MemoryStore) (depth : Nat) (hash : HashValue)
    (s' : FullState), Spec.Library F.prims ∧ (∀ w ∈ wires, w.length ≤ 0xFFFF) ∧ wires.mapM (Packet.deserialize now) = .ok packets ∧
    MemoryStore.putAll F.prims {} packets = .ok store ∧ F.reader = store.reader F.prims ∧
    F.traverse depth none (some hash) (FullState.new F.keystore) = (.error e, s')

/-- A library that authenticates nothing. -/
private def strict : Prims := { Toy.prims with aeadOpen := fun _ _ _ _ _ => .error .invalidTag }

private theorem strict_library : Spec.Library strict where
  aead := by
    intro alg key iv data aad e h
    cases h
    exact .inl rfl
  oaep := by
    intro der c label e h
    cases h

private def hostileEnv (store : MemoryStore) (ks : Option Keystore) : FullEnv :=
  { prims := strict, reader := store.reader strict, keystore := ks, hasWriter := true, buildGraph := false, R := fun _ => [] }

/-- What reading the packet `w` raises. -/
private def hostile (w : Bytes) (ks : Option Keystore) : Option PyErr :=
  match Packet.deserialize ⟨0, 1⟩ w with
  | .error _ => none
  | .ok p =>
    match p.hash strict.sha256, MemoryStore.putAll strict {} [p] with
    | .ok h, .ok store =>
      match ((hostileEnv store ks).traverse 1 none (some h) (FullState.new ks)).1 with
      | .error e => some e
      | .ok _ => none
    | _, _ => none

private theorem raises_of_hostile {w : Bytes} {ks : Option Keystore} {e : PyErr} (hl : w.length ≤ 0xFFFF) (h : hostile w ks = some e) :
    Spec.Raises e := by
  unfold hostile at h
  split at h
  · cases h
  · rename_i p hp
    split at h
    · rename_i hv store hh hs
      split at h
      · rename_i e' he
        cases h
        refine ⟨hostileEnv store ks, ⟨0, 1⟩, [w], [p], store, 1, hv, _, strict_library, fun v hv => ?_, ?_, hs, rfl, Prod.ext he rfl⟩
        · rw [List.mem_singleton.mp hv]
          exact hl
        · rw [List.mapM_cons, hp]
          rfl
      · cases h
    · cases h

/-- A packet without name whose payload is the manifest `m`. -/
private def manifestWire (m : Bytes) : Bytes :=
  [1, 1, 0, UInt8.ofNat (m.length + 21), 0, 0, 0, 8, 0, 2, 0, UInt8.ofNat (m.length + 9), 0, 5, 0, 1, 3, 0, 1, 0, UInt8.ofNat m.length] ++ m

/-- An encrypted manifest. -/
private def sealedManifest : Bytes :=
  [0, 0, 0, 19, 0, 0, 0, 15, 0, 0, 0, 1, 1, 0, 1, 0, 1, 9, 0, 2, 0, 1, 1, 0, 2, 0, 2, 1, 2, 0, 3, 0, 1, 3]

/-- A packet with an RSA signature. -/
private def signedWire : Bytes :=
  [1, 1, 0, 100, 0, 0, 0, 8, 0, 2, 0, 0, 0, 3, 0, 25, 0, 4, 0, 21, 0, 9, 0, 5, 0, 1, 0, 1, 0, 0, 15, 0, 8, 0, 0, 0, 0, 0, 0, 0, 0, 0, 4, 0, 1, 0]

/-- A packet with a payload of type 1 (key), which expires in the year three billion: 10^20 milliseconds. -/
private def lateWire : Bytes :=
  [1, 1, 0, 34, 0, 0, 0, 8, 0, 2, 0, 22, 0, 6, 0, 9, 5, 107, 199, 94, 45, 99, 16, 0, 0, 0, 5, 0, 1, 1, 0, 1, 0, 0]

private theorem raises_overflow : Spec.Raises .overflowError := by
  obtain ⟨b, hb⟩ : ∃ b : Bytes, b.length = 65397 := ⟨List.replicate 65397 0, List.length_replicate⟩
  have hlen : (wideNode b).bytes.length = 65514 := by
    simp only [Tlv.bytes_length, Tlv.len, Tlv.length, wideNode_length hb]
  have hbad := wideManifest_parse hb
  generalize (wideNode b).bytes = m at hlen hbad
  obtain ⟨p, hv, w, h1, h2, h3, h4, h5, h6⟩ := nameless_packet (ty := PT_MANIFEST) (by decide) (w := m) (by omega) strict.sha256
  obtain ⟨q, hq, _, qalg, _, qname, qty, qpay, _, _, qser, qhash⟩ :=
    C17_packet_roundtrip ⟨0, 1⟩ p (.inl ⟨_, h1⟩) ⟨(by rw [h2]; rintro e h; cases h), (by rw [h2]; rintro e h; cases h), (by rw [h3]; rintro k l s h; cases h)⟩ (by rw [h3]; rintro k l s h; cases h) w h5
  have hh : q.hash strict.sha256 = .ok hv := (qhash _).trans h4
  have hn : q.body.name = none := by
    rw [h2] at qname
    cases hq : q.body.name with
    | none => rfl
    | some n =>
      rw [hq] at qname
      cases qname
  rw [h2] at qty qpay
  let store : MemoryStore := ⟨[q], [(hv, q)], w.length, w.length⟩
  have hput : MemoryStore.putAll strict {} [q] = .ok store := by
    show (do let s ← MemoryStore.put strict {} q; Except.ok s) = _
    unfold MemoryStore.put Packet.len
    rw [qser, hh]
    simp only [ok_bind]
    show Except.ok ({ packets := [q], byHash := [(hv, q)], totalBytesByPacket := 0 + w.length, totalBytesByHash := 0 + w.length } : MemoryStore) = _
    rw [Nat.zero_add]
  have hget : store.reader strict none (some hv) = .ok q := by
    show store.get strict none hv = _
    have hf : store.find strict hv = some q := by
      show (([(hv, q)] : List (HashValue × Packet)).find? _).map _ = _
      rw [List.find?_cons_of_pos (by exact HashValue.dictEq_refl _ _)]
      rfl
    unfold MemoryStore.get
    rw [hf]
    dsimp only
    rw [hn]
  have hrun : ((hostileEnv store none).traverse 1 none (some hv) (FullState.new none)).1 = .error .overflowError := by
    have hm : Manifest.fromContentObject q.body = .error .overflowError := by
      unfold Manifest.fromContentObject
      rw [qty, qpay]
      exact hbad
    have hval : validatePacket (hostileEnv store none).prims (hostileEnv store none).keystore q = .ok () := by
      unfold validatePacket
      rw [qalg, h3]
    unfold FullEnv.traverse
    have e1 : (PyS.lift ((hostileEnv store none).reader none (some hv)) : PyS FullState Packet) (FullState.new none) =
      (.ok q, FullState.new none) := congrArg (·, FullState.new none) hget
    have e2 : (PyS.lift (validatePacket (hostileEnv store none).prims (hostileEnv store none).keystore q) : PyS FullState Unit)
      (FullState.new none) = (.ok (), FullState.new none) := congrArg (·, FullState.new none) hval
    have e3 : (PyS.lift (q.hash (hostileEnv store none).prims.sha256) : PyS FullState HashValue) (FullState.new none) =
      (.ok hv, FullState.new none) := congrArg (·, FullState.new none) hh
    rw [PyS.bind_of_ok e1, PyS.bind_of_ok e2]
    unfold FullEnv.preorder
    rw [PyS.bind_of_ok e3, qty]
    show (((do
      let m ← PyS.lift (Manifest.fromContentObject q.body)
      _) : PyS FullState Unit) _).1 = _
    rw [hm]
    rfl
  refine ⟨hostileEnv store none, ⟨0, 1⟩, [w], [q], store, 1, hv, _, strict_library, fun v hv => ?_, ?_, hput, rfl, Prod.ext hrun rfl⟩
  · rw [List.mem_singleton.mp hv, h6, hlen]
  · rw [List.mapM_cons, hq]
    rfl

/-- C112: every one of the thirteen is reached: for each there is a packet of legal size that the code parses and stores, and whose
traversal raises it; and nothing else but RecursionError is reached from a memory store. -/
theorem C112_exact (e : PyErr) (he : e ≠ .nonTermination) : Spec.Raises e ↔ e ∈ Spec.readErrors := by
  constructor
  · rintro ⟨F, now, wires, packets, store, depth, hash, s', hl, _, _, _, hr, h⟩
    exact (C112_memory F F.prims store hr hl depth none (some hash) _ s' e h).resolve_right he
  · intro h
    simp only [Spec.readErrors, List.mem_cons, List.not_mem_nil, or_false] at h
    rcases h with rfl | rfl | rfl | rfl | rfl | rfl | rfl | rfl | rfl | rfl | rfl | rfl | rfl
    · exact raises_of_hostile (w := manifestWire [0]) (ks := none) (by decide) (by decide +kernel)
    · exact raises_of_hostile (w := manifestWire [0, 1, 0, 12, 0, 0, 0, 8, 0, 4, 0, 4, 0, 99, 0, 0]) (ks := none) (by decide) (by decide +kernel)
    · exact raises_of_hostile (w := manifestWire [0, 1, 0, 8, 0, 0, 0, 4, 0, 6, 0, 0]) (ks := none) (by decide) (by decide +kernel)
    · exact raises_of_hostile (w := manifestWire []) (ks := none) (by decide) (by decide +kernel)
    · exact raises_of_hostile (w := manifestWire [0, 1, 0, 0]) (ks := none) (by decide) (by decide +kernel)
    · exact raises_of_hostile (w := manifestWire [0, 2, 0, 0, 0, 2, 0, 0]) (ks := none) (by decide) (by decide +kernel)
    · exact raises_overflow
    · exact raises_of_hostile (w := manifestWire [0, 1, 0, 22, 0, 1, 0, 18, 0, 11, 0, 5, 0, 5, 0, 1, 1, 0, 7, 0, 5, 0, 1, 0, 1, 0])
        (ks := none) (by decide) (by decide +kernel)
    · exact raises_of_hostile (w := [1, 1, 0, 12, 0, 0, 0, 8, 0, 2, 0, 0]) (ks := none) (by decide) (by decide +kernel)
    · exact raises_of_hostile (w := manifestWire sealedManifest)
        (ks := some (Keystore.addAesKey {} ⟨some ⟨.gcm, List.replicate 16 0⟩, 1, none, none, none⟩)) (by decide) (by decide +kernel)
    · exact raises_of_hostile (w := manifestWire sealedManifest) (ks := some {}) (by decide) (by decide +kernel)
    · exact raises_of_hostile (w := signedWire) (ks := some {}) (by decide) (by decide +kernel)
    · exact raises_of_hostile (w := lateWire) (ks := none) (by decide) (by decide +kernel)

/-- Neither IndexError nor NameError comes out of a traversal in memory. -/
example : ¬ Spec.Raises .indexError ∧ ¬ Spec.Raises .nameError ∧ Spec.Raises .keyError :=
  ⟨fun h => by simpa [Spec.readErrors] using (C112_exact _ (by decide)).mp h, fun h => by simpa [Spec.readErrors] using (C112_exact _ (by decide)).mp h,
    (C112_exact _ (by decide)).mpr (by simp [Spec.readErrors])⟩

/-- The hypotheses of `C112_only` and `C112_memory`: an unknown packet. -/
example : Spec.Library Toy.prims ∧
    ((hostileEnv {} none).traverse 1 none (some ⟨1, [7]⟩) (FullState.new none)).1 = .error .keyError := by
  refine ⟨⟨?_, ?_⟩, by decide +kernel⟩
  · intro alg key iv data aad e h
    cases h
  · intro der c label e h
    cases h

/-- The hypotheses of `C112_directory`: an empty directory, asked by name alone and by hash value. -/
example :
    let F : FullEnv := { prims := strict, reader := Directory.reader ⟨0, 1⟩ (fun _ => []) {}, keystore := none, hasWriter := true,
                         buildGraph := true, R := fun _ => [] }
    (F.traverse 1 (some ⟨[.nameSegment [97]]⟩) none (FullState.new none)).1 = .error .notImplementedError ∧
    (F.traverse 1 none (some ⟨1, [7]⟩) (FullState.new none)).1 = .error .fileNotFoundError := by
  decide +kernel

end Ccnpy
