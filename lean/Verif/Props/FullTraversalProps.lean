import Verif.Lemmas.FullTraversal
import Verif.Props.GraphProps
import Verif.Props.UriProps
import Verif.Props.EndToEndProps

/-!
# C94: traversing with a graph, and without a data writer
-/

namespace Ccnpy

/-! ## Specification -/

/-- A packet name that can be shown as the label of a node: no name; or a name that is not empty and ends in a number of at most
4300 digits, or whose segments are text and whose numbers have at most 4300 digits. -/
def Spec.Labelled (n : Option Name) : Prop :=
  ∀ m, n = some m → ∃ cs c, m.components = cs ++ [c] ∧
    ((c.type = 0x0005 ∨ c.type = 0x0010) ∧ (Nat.toDigits 10 (arrayToNumber c.value)).length ≤ 4300 ∨
      ∀ x ∈ m.components, (x.type = 1 → x.isArray = false ∧ ∃ t : Text, x.value = utf8Encode t) ∧
        (x.type = 0x0005 ∨ x.type = 0x0010 → (Nat.toDigits 10 (arrayToNumber x.value)).length ≤ 4300))

/-- The records about the objects visited, in the order of the visit. -/
def Spec.Drawn (sha : Bytes → Bytes) (R : NameComponent → Text) : Spec.Visited → List EntryRecord → Prop
  | .nil, log => log = []
  | .data p _ rest, log => ∃ h l rs, p.hash sha = .ok h ∧ graphLabel R h p.body.name = .ok l ∧ Spec.Drawn sha R rest rs ∧
      log = ⟨true, h, l, []⟩ :: rs
  | .manifest p node kids rest, log => ∃ h l ks rs, p.hash sha = .ok h ∧ graphLabel R h p.body.name = .ok l ∧
      Spec.Drawn sha R kids ks ∧ Spec.Drawn sha R rest rs ∧
      log = ⟨false, h, l, node.hashGroups.flatMap (fun g => g.pointers.getD [])⟩ :: (ks ++ rs)

/-! ## Helpers -/

theorem onWalk_bind {α β : Type} (x : PyS TState α) (f : α → PyS TState β) :
    (x >>= f).onWalk = x.onWalk >>= fun a => (f a).onWalk := by
  funext s
  rw [PyS.bind_run]
  unfold PyS.onWalk
  rw [PyS.bind_run]
  cases x s.base with
  | mk r b => cases r <;> rfl

theorem onWalk_lift {α : Type} (x : Py α) : (PyS.lift x : PyS TState α).onWalk = PyS.lift x := rfl

theorem onWalk_report (m : Manifest) (x : PyS TState Unit) : (reportError m x).onWalk = reportFull m x.onWalk := by
  funext s
  unfold PyS.onWalk reportError reportFull
  dsimp only
  cases x s.base with
  | mk r b => cases r <;> rfl

theorem onWalk_loop {F : FullEnv} {visit : Packet → PyS TState Unit} {visit' : Packet → PyS FullState Unit} {nc : NcCache}
    (h : ∀ p, visit' p = (visit p).onWalk) (fuel : Nat) (it : NodeIterator) :
    F.visitLoop visit' nc fuel it = (F.toTravEnv.visitLoop visit nc fuel it).onWalk := by
  induction fuel generalizing it with
  | zero =>
    unfold FullEnv.visitLoop TravEnv.visitLoop
    rw [onWalk_bind, onWalk_lift]
    congr 1
    funext r
    cases r <;> rfl
  | succ fuel ih =>
    unfold FullEnv.visitLoop TravEnv.visitLoop
    rw [onWalk_bind, onWalk_lift]
    congr 1
    funext r
    cases r with
    | none => rfl
    | some r =>
      dsimp only
      rw [onWalk_bind, onWalk_lift]
      congr 1
      funext p
      rw [onWalk_bind, onWalk_lift]
      congr 1
      funext _
      rw [onWalk_bind, h]
      congr 1
      funext _
      exact ih _

theorem onWalk_preorder {F : FullEnv} (hw : F.hasWriter = true) (hg : F.buildGraph = false) (depth : Nat) :
    ∀ (nc : NcCache) (p : Packet), F.preorder depth nc p = (F.toTravEnv.preorder depth nc p).onWalk := by
  induction depth with
  | zero => exact fun _ _ => rfl
  | succ depth ih =>
    intro nc p
    unfold FullEnv.preorder TravEnv.preorder
    rw [onWalk_bind, onWalk_lift]
    congr 1
    funext hv
    rw [onWalk_bind]
    congr 1
    funext _
    cases p.body.payloadType with
    | none => rfl
    | some ty =>
      dsimp only
      by_cases h1 : ty = PT_MANIFEST
      · rw [if_pos h1, if_pos h1, onWalk_bind, onWalk_lift]
        congr 1
        funext m
        rw [onWalk_bind]
        congr 1
        funext m
        cases m.node with
        | encrypted _ => rfl
        | plain node =>
          dsimp only
          have hn : F.noteManifest hv node p.body.name = pure () := by
            unfold FullEnv.noteManifest
            rw [hg]
            rfl
          rw [hn]
          show (PyS.lift (updateNcCache nc node) >>= _) = _
          rw [onWalk_bind, onWalk_lift]
          congr 1
          funext nc
          rw [onWalk_report, onWalk_loop (fun q => ih nc q)]
      · rw [if_neg h1, if_neg h1]
        by_cases h2 : ty = PT_DATA
        · rw [if_pos h2, if_pos h2]
          have hn : F.noteData hv p.body.name = pure () := by
            unfold FullEnv.noteData
            rw [hg]
            rfl
          rw [hn]
          show F.writeData p.body.payload = _
          unfold FullEnv.writeData
          rw [hw]
          rfl
        · rw [if_neg h2, if_neg h2]
          rfl

/-- C94: with a data writer and no graph the traversal is the one of the properties before (C49-C51, C54, C90 and others); the
graph is left alone. -/
theorem C94_plain (F : FullEnv) (hw : F.hasWriter = true) (hg : F.buildGraph = false) (depth : Nat) (name : Option Name)
    (hash : Option HashValue) (s : FullState) :
    (F.traverse depth name hash s).1 = (F.toTravEnv.traverse depth name hash s.base).1 ∧
    (F.traverse depth name hash s).2.base = (F.toTravEnv.traverse depth name hash s.base).2 ∧
    (F.traverse depth name hash s).2.graph = s.graph := by
  have : F.traverse depth name hash = (F.toTravEnv.traverse depth name hash).onWalk := by
    unfold FullEnv.traverse TravEnv.traverse
    rw [onWalk_bind, onWalk_lift]
    congr 1
    funext p
    rw [onWalk_bind, onWalk_lift]
    congr 1
    funext _
    exact onWalk_preorder hw hg _ _ _
  rw [this]
  exact ⟨rfl, rfl, rfl⟩

/-! ## No data writer -/

/-- The same but for what was written. -/
def Spec.SameButWrites (w : List Bytes) (s t : FullState) : Prop :=
  t.base.count = s.base.count ∧ t.base.cache = s.base.cache ∧ t.graph = s.graph ∧ t.base.writes = w

theorem decrypt_onWalk_sim {exact : Prop} (T : TravEnv) (w : List Bytes) (m : Manifest) :
    PyS.Sim exact (Spec.SameButWrites w) (T.decrypt m).onWalk (T.decrypt m).onWalk := by
  rintro ⟨⟨c, ws, k⟩, g⟩ ⟨⟨c', ws', k'⟩, g'⟩ ⟨h1, h2, h3, h4⟩ _
  dsimp only at h1 h2 h3 h4
  subst h1 h2 h3 h4
  unfold PyS.onWalk TravEnv.decrypt
  dsimp only
  split
  · exact ⟨rfl, rfl, rfl, rfl, rfl⟩
  · cases DecryptorCache.open T.prims k' m with
    | mk r c => exact ⟨rfl, rfl, rfl, rfl, rfl⟩

theorem onPicture_sim {exact : Prop} {w : List Bytes} (x : PyS ManifestGraph Unit) :
    PyS.Sim exact (Spec.SameButWrites w) x.onPicture x.onPicture := by
  rintro ⟨⟨c, ws, k⟩, g⟩ ⟨⟨c', ws', k'⟩, g'⟩ ⟨h1, h2, h3, h4⟩ _
  dsimp only at h1 h2 h3 h4
  subst h1 h2 h3 h4
  exact ⟨rfl, rfl, rfl, rfl, rfl⟩

/-- C94: without a data writer nothing is written, and everything else is as with one - the outcome, the count, the graph, the
decryptor cache - if every data object has a payload, and in any case if the traversal with the writer returns. -/
theorem C94_no_writer (F : FullEnv) (depth : Nat) (name : Option Name) (hash : Option HashValue) (s : FullState)
    (h : (∀ n hv p, F.reader n hv = .ok p → p.body.payloadType = some PT_DATA → p.body.payload ≠ none) ∨
      (({ F with hasWriter := true } : FullEnv).traverse depth name hash s).1 = .ok ()) :
    (({ F with hasWriter := false } : FullEnv).traverse depth name hash s).1 =
      (({ F with hasWriter := true } : FullEnv).traverse depth name hash s).1 ∧
    Spec.SameButWrites s.base.writes (({ F with hasWriter := true } : FullEnv).traverse depth name hash s).2
      (({ F with hasWriter := false } : FullEnv).traverse depth name hash s).2 := by
  have hsim : PyS.Sim (∀ n hv p, F.reader n hv = .ok p → p.body.payloadType = some PT_DATA → p.body.payload ≠ none)
      (Spec.SameButWrites s.base.writes) (({ F with hasWriter := true } : FullEnv).traverse depth name hash)
      (({ F with hasWriter := false } : FullEnv).traverse depth name hash) := by
    refine traverse_sim (F := { F with hasWriter := true }) (G := { F with hasWriter := false }) rfl
      (preorder_sim (F := { F with hasWriter := true }) (G := { F with hasWriter := false }) rfl ?_ (decrypt_onWalk_sim _ _) ?_ ?_ _) _ _
    · rintro ⟨⟨c, ws, k⟩, g⟩ ⟨⟨c', ws', k'⟩, g'⟩ ⟨h1, h2, h3, h4⟩ _
      dsimp only at h1 h2 h3 h4
      subst h1 h2 h3 h4
      exact ⟨rfl, rfl, rfl, rfl, rfl⟩
    · intro _ _ _ h node _ _ x y hx _
      refine .bind ?_ fun _ => hx
      unfold FullEnv.noteManifest
      dsimp only
      split
      · exact onPicture_sim _
      · exact .pure ()
    · intro n hv p h hp _ ht
      refine .bind ?_ fun _ => ?_
      · unfold FullEnv.noteData
        dsimp only
        split
        · exact onPicture_sim _
        · exact .pure ()
      · rintro ⟨⟨c, ws, k⟩, g⟩ ⟨⟨c', ws', k'⟩, g'⟩ ⟨h1, h2, h3, h4⟩ he
        dsimp only at h1 h2 h3 h4
        subst h1 h2 h3 h4
        cases hb : p.body.payload with
        | none =>
          rcases he with he | ⟨a, he⟩
          · exact absurd hb (he _ _ _ hp ht)
          · rw [hb] at he
            cases he
        | some b => exact ⟨rfl, rfl, rfl, rfl, rfl⟩
  refine hsim s s ⟨rfl, rfl, rfl, rfl⟩ ?_
  rcases h with h | h
  · exact .inl h
  · exact .inr ⟨_, h⟩

/-! ## Building a graph -/

/-- The same traversal, whatever the graph. -/
def Spec.SameWalk (s t : FullState) : Prop := t.base = s.base

theorem onWalk_sim {exact : Prop} {α : Type} (x : PyS TState α) : PyS.Sim exact Spec.SameWalk x.onWalk x.onWalk := by
  rintro ⟨b, g⟩ ⟨b', g'⟩ h _
  cases (show b' = b from h)
  exact ⟨rfl, rfl⟩

theorem onPicture_walk {x : PyS ManifestGraph Unit} {s : FullState} : (x.onPicture s).2.base = s.base := by
  unfold PyS.onPicture
  rfl

/-- Leaving out a step on the graph. -/
theorem sim_drop {note : PyS FullState Unit} (hn : ∀ s, (note s).2.base = s.base) {x y : PyS FullState Unit}
    (h : PyS.Sim False Spec.SameWalk x y) : PyS.Sim False Spec.SameWalk (note >>= fun _ => x) y := by
  rintro s t hs (he | ⟨a, he⟩)
  · cases he
  rw [PyS.bind_run] at he ⊢
  have hb := hn s
  cases hr : note s with
  | mk r s' =>
    rw [hr] at he hb
    cases r with
    | error e => cases he
    | ok _ => exact h s' t (show t.base = s'.base from (hs : t.base = s.base).trans hb.symm) (.inr ⟨a, he⟩)

/-- Adding a step on the graph that returns. -/
theorem sim_add {note : PyS FullState Unit} (hn : ∀ s, (note s).1 = .ok () ∧ (note s).2.base = s.base) {x y : PyS FullState Unit}
    (h : PyS.Sim False Spec.SameWalk x y) : PyS.Sim False Spec.SameWalk x (note >>= fun _ => y) := by
  intro s t hs he
  rw [PyS.bind_run]
  obtain ⟨h1, h2⟩ := hn t
  cases hr : note t with
  | mk r t' =>
    rw [hr] at h1 h2
    dsimp only at h1 h2
    subst h1
    exact h s t' (show t'.base = s.base from h2.trans hs) he

theorem noteManifest_base (F : FullEnv) (h : HashValue) (node : Node) (name : Option Name) (s : FullState) :
    (F.noteManifest h node name s).2.base = s.base := by
  unfold FullEnv.noteManifest
  split <;> first | exact onPicture_walk | rfl

theorem noteData_base (F : FullEnv) (h : HashValue) (name : Option Name) (s : FullState) :
    (F.noteData h name s).2.base = s.base := by
  unfold FullEnv.noteData
  split <;> first | exact onPicture_walk | rfl

theorem noteManifest_plain {F : FullEnv} (hg : F.buildGraph = false) (h : HashValue) (node : Node) (name : Option Name) :
    F.noteManifest h node name = pure () := by
  unfold FullEnv.noteManifest
  rw [hg]
  rfl

theorem noteData_plain {F : FullEnv} (hg : F.buildGraph = false) (h : HashValue) (name : Option Name) :
    F.noteData h name = pure () := by
  unfold FullEnv.noteData
  rw [hg]
  rfl

theorem noteManifest_runs {F : FullEnv} {h : HashValue} {node : Node} {name : Option Name} {cs : List HashValue} {l : Text}
    (hv : node.hashValues = .ok cs) (hl : graphLabel F.R h name = .ok l) (s : FullState) :
    (F.noteManifest h node name s).1 = .ok () := by
  unfold FullEnv.noteManifest
  split
  · show (ManifestGraph.addManifest F.prims F.R h node name s.graph).1 = _
    unfold ManifestGraph.addManifest
    rw [hv, hl]
    split <;> rfl
  · rfl

theorem noteData_runs {F : FullEnv} {h : HashValue} {name : Option Name} {l : Text}
    (hl : graphLabel F.R h name = .ok l) (s : FullState) : (F.noteData h name s).1 = .ok () := by
  unfold FullEnv.noteData
  split
  · show (ManifestGraph.addData F.prims F.R h name s.graph).1 = _
    unfold ManifestGraph.addData
    rw [hl]
    split <;> rfl
  · rfl

/-- C94: building a graph does not change a traversal that returns: the count, what is written and the decryptor cache are those of
the traversal without it. -/
theorem C94_graph_transparent (F : FullEnv) (hw : F.hasWriter = true) (depth : Nat) (name : Option Name)
    (hash : Option HashValue) (s s' : FullState) (h : F.traverse depth name hash s = (.ok (), s')) :
    F.toTravEnv.traverse depth name hash s.base = (.ok (), s'.base) := by
  have hsim : PyS.Sim False Spec.SameWalk (F.traverse depth name hash)
      (({ F with buildGraph := false } : FullEnv).traverse depth name hash) := by
    refine traverse_sim (F := F) (G := { F with buildGraph := false }) rfl
      (preorder_sim (F := F) (G := { F with buildGraph := false }) rfl (onWalk_sim _) (fun _ => onWalk_sim _) ?_ ?_ _) _ _
    · intro _ _ p h node _ _ x y hx _
      rw [noteManifest_plain (F := ({ F with buildGraph := false } : FullEnv)) rfl h node p.body.name]
      exact sim_drop (fun s => noteManifest_base F h node p.body.name s) hx
    · intro _ _ p h _ _ _
      rw [noteData_plain (F := ({ F with buildGraph := false } : FullEnv)) rfl h p.body.name]
      refine sim_drop (fun s => noteData_base F h p.body.name s) ?_
      unfold FullEnv.writeData
      dsimp only
      rw [hw]
      exact onWalk_sim _
  obtain ⟨h1, h2⟩ := hsim s s rfl (.inr ⟨(), by rw [h]⟩)
  rw [h] at h1 h2
  obtain ⟨h3, h4, _⟩ := C94_plain ({ F with buildGraph := false } : FullEnv) hw rfl depth name hash s
  rw [h1] at h3
  rw [(h2 : _ = s'.base)] at h4
  exact Prod.ext h3.symm h4.symm

theorem hashValues_of_some {n : Node} (h : ∀ g ∈ n.hashGroups, g.pointers.isSome) :
    n.hashValues = .ok (n.hashGroups.flatMap (fun g => g.pointers.getD [])) := by
  rw [C74_hash_values, if_neg, List.flatMap_def]
  rintro ⟨g, hg, hn⟩
  have := h g hg
  rw [hn] at this
  cases this

/-- C94: a label can be made just for the names described. -/
theorem C94_labels (R : NameComponent → Text) (h : HashValue) (n : Option Name) :
    (∃ l, graphLabel R h n = .ok l) ↔ Spec.Labelled n := by
  obtain ⟨h1, h2, h3⟩ := C74_label R h
  unfold Spec.Labelled
  cases n with
  | none => simp [h1]
  | some m =>
    obtain ⟨cs⟩ := m
    rcases List.eq_nil_or_concat cs with rfl | ⟨cs, c, rfl⟩
    · rw [h2]
      constructor
      · rintro ⟨l, h⟩; cases h
      · intro h
        obtain ⟨cs, c, h, _⟩ := h _ rfl
        simp at h
    · rw [List.concat_eq_append, h3]
      constructor
      · rintro hl m hm
        cases hm
        refine ⟨cs, c, rfl, ?_⟩
        split at hl
        · rename_i ht
          refine .inl ⟨ht, Decidable.byContradiction fun hlong => ?_⟩
          rw [if_neg hlong] at hl
          obtain ⟨_, hl⟩ := hl
          cases hl
        · exact .inr ((C58_has_uri R _).1 hl)
      · intro h
        obtain ⟨cs', c', he, h⟩ := h _ rfl
        obtain ⟨rfl, hcc⟩ := List.append_inj' (show cs ++ [c] = cs' ++ [c'] from he) rfl
        obtain rfl : c = c' := List.cons.inj hcc |>.1
        split
        · rename_i ht
          have : (Nat.toDigits 10 (arrayToNumber c.value)).length ≤ 4300 := by
            rcases h with h | h
            · exact h.2
            · exact (h c (by simp)).2 ht
          exact ⟨_, if_pos this⟩
        · rename_i hn
          rcases h with h | h
          · exact absurd h.1 hn
          · exact (C58_has_uri R _).2 h

/-- C94 (converse): if the names of the packets can be shown, a traversal that returns also returns when a graph is built. -/
theorem C94_graph_returns (F : FullEnv) (hw : F.hasWriter = true) (depth : Nat) (name : Option Name) (hash : Option HashValue)
    (hl : ∀ n hv p, F.reader n hv = .ok p → Spec.Labelled p.body.name) (s : FullState) (t : TState)
    (h : F.toTravEnv.traverse depth name hash s.base = (.ok (), t)) :
    ∃ g, F.traverse depth name hash s = (.ok (), ⟨t, g⟩) := by
  have hsim : PyS.Sim False Spec.SameWalk (({ F with buildGraph := false } : FullEnv).traverse depth name hash)
      (F.traverse depth name hash) := by
    refine traverse_sim (F := { F with buildGraph := false }) (G := F) rfl
      (preorder_sim (F := { F with buildGraph := false }) (G := F) rfl (onWalk_sim _) (fun _ => onWalk_sim _) ?_ ?_ _) _ _
    · intro _ _ p h node hp _ x y hx hps
      rw [noteManifest_plain (F := ({ F with buildGraph := false } : FullEnv)) rfl h node p.body.name]
      rintro s t hs (he | he)
      · cases he
      obtain ⟨l, hlab⟩ := (C94_labels F.R h _).2 (hl _ _ _ hp)
      have hv := hashValues_of_some (hps s he)
      exact sim_add (fun s => ⟨noteManifest_runs hv hlab s, noteManifest_base F h node p.body.name s⟩) (x := x) hx s t hs (.inr he)
    · intro _ _ p h hp _ _
      rw [noteData_plain (F := ({ F with buildGraph := false } : FullEnv)) rfl h p.body.name]
      obtain ⟨l, hlab⟩ := (C94_labels F.R h _).2 (hl _ _ _ hp)
      refine sim_add (fun s => ⟨noteData_runs hlab s, noteData_base F h p.body.name s⟩) ?_
      unfold FullEnv.writeData
      dsimp only
      rw [hw]
      exact onWalk_sim _
  obtain ⟨h3, h4, _⟩ := C94_plain ({ F with buildGraph := false } : FullEnv) hw rfl depth name hash s
  rw [show (({ F with buildGraph := false } : FullEnv)).toTravEnv = F.toTravEnv from rfl, h] at h3 h4
  obtain ⟨h1, h2⟩ := hsim s s rfl (.inr ⟨(), h3⟩)
  rw [h3] at h1
  refine ⟨(F.traverse depth name hash s).2.graph, Prod.ext h1 ?_⟩
  show (F.traverse depth name hash s).2 = _
  have h2 : (F.traverse depth name hash s).2.base = t := (h2 : _ = _).trans h4
  rw [← h2]

/-! ## What the graph holds -/

/-- One record put in. -/
def recordEntry (P : Prims) (g : ManifestGraph) (r : EntryRecord) : ManifestGraph :=
  { g with graph := none, entries := dictSet P g.entries r.parent r }

theorem recordEntry_paused (P : Prims) (log : List EntryRecord) (g : ManifestGraph) :
    (log.foldl (recordEntry P) g).paused = g.paused := by
  induction log generalizing g with
  | nil => rfl
  | cons r log ih => rw [List.foldl_cons, ih]; rfl

theorem addManifest_ok {P : Prims} {R : NameComponent → Text} {h : HashValue} {node : Node} {name : Option Name}
    {g g' : ManifestGraph} (hp : g.paused = false) (hr : ManifestGraph.addManifest P R h node name g = (.ok (), g')) :
    ∃ cs l, node.hashValues = .ok cs ∧ graphLabel R h name = .ok l ∧ g' = recordEntry P g ⟨false, h, l, cs⟩ := by
  unfold ManifestGraph.addManifest at hr
  rw [hp] at hr
  simp only [Bool.false_eq_true, if_false] at hr
  split at hr
  · cases hr
  · rename_i cs l he
    obtain ⟨cs', h1, he⟩ := bind_eq_ok.mp he
    obtain ⟨l', h2, he⟩ := bind_eq_ok.mp he
    cases he
    cases hr
    exact ⟨cs, l, h1, h2, by simp [recordEntry, hp]⟩

theorem addData_ok {P : Prims} {R : NameComponent → Text} {h : HashValue} {name : Option Name}
    {g g' : ManifestGraph} (hp : g.paused = false) (hr : ManifestGraph.addData P R h name g = (.ok (), g')) :
    ∃ l, graphLabel R h name = .ok l ∧ g' = recordEntry P g ⟨true, h, l, []⟩ := by
  unfold ManifestGraph.addData at hr
  rw [hp] at hr
  simp only [Bool.false_eq_true, if_false] at hr
  split at hr
  · cases hr
  · rename_i l he
    cases hr
    exact ⟨l, he, by simp [recordEntry, hp]⟩

theorem onPicture_ok {x : PyS ManifestGraph Unit} {s s' : FullState} (h : x.onPicture s = (.ok (), s')) :
    x s.graph = (.ok (), s'.graph) ∧ s'.base = s.base := by
  unfold PyS.onPicture at h
  cases hx : x s.graph with
  | mk r g =>
    rw [hx] at h
    cases h
    exact ⟨rfl, rfl⟩

theorem Spec.Drawn.append {sha : Bytes → Bytes} {R : NameComponent → Text} {v w : Spec.Visited} {a b : List EntryRecord}
    (h1 : Spec.Drawn sha R v a) (h2 : Spec.Drawn sha R w b) : Spec.Drawn sha R (v.append w) (a ++ b) := by
  induction v generalizing a with
  | nil => cases h1; exact h2
  | data p x rest ih =>
    obtain ⟨h, l, rs, e1, e2, e3, rfl⟩ := h1
    exact ⟨h, l, rs ++ b, e1, e2, ih e3, rfl⟩
  | manifest p node kids rest _ ih =>
    obtain ⟨h, l, ks, rs, e1, e2, e3, e4, rfl⟩ := h1
    refine ⟨h, l, ks, rs ++ b, e1, e2, e3, ih e4, ?_⟩
    simp

theorem full_sound (F : FullEnv) (hw : F.hasWriter = true) (hg : F.buildGraph = true) (depth : Nat) :
    ∀ {nc : NcCache} {scope : List NcDef} {p : Packet} {s s' : FullState}
    (_ : CacheOf nc scope) (_ : s.graph.paused = false) (_ : F.preorder depth nc p s = (.ok (), s')) {r : Spec.Request}
    (_ : F.reader r.1 r.2 = .ok p) (_ : validatePacket F.prims F.keystore p = .ok ()),
    ∃ v log, Spec.Leads F.toTravEnv (Spec.Read F.prims) scope [r] v ∧ Spec.Drawn F.prims.sha256 F.R v log ∧
      s'.base.count = s.base.count + v.count ∧ s'.base.writes = s.base.writes ++ v.payloads ∧
      s'.graph = log.foldl (recordEntry F.prims) s.graph := by
  induction depth with
  | zero => intro nc scope p s s' _ _ h; cases h
  | succ depth ih =>
    intro nc scope p s s' hc hpa h r hr hv
    unfold FullEnv.preorder at h
    obtain ⟨hv', hh, h⟩ := PyS.liftBind_ok h
    have hone : (PyS.modify (fun s : TState => { s with count := s.count + 1 })).onWalk s =
      (.ok (), { s with base := { s.base with count := s.base.count + 1 } }) := rfl
    rw [PyS.bind_of_ok hone] at h
    cases ht : p.body.payloadType with
    | none => rw [ht] at h; cases h
    | some ty =>
      simp only [ht] at h
      by_cases h1 : ty = PT_MANIFEST
      · rw [if_pos h1] at h
        obtain ⟨m, hm, h⟩ := PyS.liftBind_ok h
        obtain ⟨m', s1, hd, h⟩ := PyS.bind_ok h
        have hd' : F.toTravEnv.decrypt m { s.base with count := s.base.count + 1 } = (.ok m', s1.base) ∧ s1.graph = s.graph := by
          unfold PyS.onWalk at hd
          cases hx : F.toTravEnv.decrypt m { s.base with count := s.base.count + 1 } with
          | mk r b =>
            rw [hx] at hd
            cases hd
            exact ⟨rfl, rfl⟩
        cases hn : m'.node with
        | encrypted x => simp only [hn] at h; cases h
        | plain node =>
          simp only [hn] at h
          obtain ⟨_, s2, hnote, h⟩ := PyS.bind_ok h
          unfold FullEnv.noteManifest at hnote
          rw [hg, if_pos rfl] at hnote
          obtain ⟨hadd, hb2⟩ := onPicture_ok hnote
          obtain ⟨cs, l, hcs, hl, hg2⟩ := addManifest_ok (by rw [hd'.2]; exact hpa) hadd
          obtain ⟨nc', hu, h⟩ := PyS.liftBind_ok h
          obtain ⟨hcount, hwrites, hread⟩ := decrypt_reads hd'.1 hn
          have hc' := hc.update hu
          have hloop := fullLoop_ok _ (reportFull_ok h)
          have hiter := fullIterable_of_ok (reportFull_ok h)
          have hwalk : Spec.Walkable node := ⟨hiter, update_printable (by rw [← updateNcCache_eq]; exact hu)⟩
          rw [Node.iter_left] at hloop
          have loop : ∀ (vs : List HashIteratorValue) (s s' : FullState), s.graph.paused = false →
              fullAll F (fun q => F.preorder depth nc' q) nc' vs s = (.ok (), s') →
              ∃ krs kids log, List.Forall₂ (Spec.Asks (scope ++ node.defs)) vs krs ∧
                Spec.Leads F.toTravEnv (Spec.Read F.prims) (scope ++ node.defs) krs kids ∧
                Spec.Drawn F.prims.sha256 F.R kids log ∧
                s'.base.count = s.base.count + kids.count ∧ s'.base.writes = s.base.writes ++ kids.payloads ∧
                s'.graph = log.foldl (recordEntry F.prims) s.graph := by
            intro vs
            induction vs with
            | nil =>
              intro s s' _ h
              cases h
              exact ⟨[], .nil, [], .nil, .nil, rfl, rfl, by simp [Spec.Visited.payloads], rfl⟩
            | cons v vs ihv =>
              intro s s' hpa h
              unfold fullAll at h
              obtain ⟨q, hq, h⟩ := PyS.liftBind_ok h
              obtain ⟨u, hqv, h⟩ := PyS.liftBind_ok h
              obtain ⟨u', s2, hvis, h⟩ := PyS.bind_ok h
              obtain ⟨r', ha, hr'⟩ := fetch_ok hc' hq
              obtain ⟨w, lg, hw, hw0, hw1, hw2, hw3⟩ := ih hc' hpa hvis hr' hqv
              obtain ⟨krs, kids, lg', hk, hk1, hk0, hk2, hk3, hk4⟩ := ihv s2 s' (by rw [hw3, recordEntry_paused]; exact hpa) h
              refine ⟨r' :: krs, w.append kids, lg ++ lg', .cons ha hk, hw.append hk1, hw0.append hk0, ?_, ?_, ?_⟩
              · rw [hk2, hw1, Spec.Visited.count_append]; omega
              · rw [hk3, hw2, Spec.Visited.payloads_append, List.append_assoc]
              · rw [hk4, hw3, List.foldl_append]
          obtain ⟨krs, kids, log, hk, hk1, hk0, hk2, hk3, hk4⟩ := loop _ _ _ (by rw [hg2]; exact hd'.2 ▸ hpa) hloop
          refine ⟨.manifest p node kids .nil, ⟨false, hv', l, cs⟩ :: log,
            .manifest hr hv (by rw [ht, h1]) ⟨⟨m, hm, hread⟩, hwalk⟩ hk hk1 .nil, ⟨hv', l, log, [], hh, hl, hk0, rfl, ?_⟩, ?_, ?_, ?_⟩
          · have := hashValues_of_some (n := node) (fun g hg => by obtain ⟨ps, hps, _⟩ := hiter g hg; rw [hps]; rfl)
            rw [hcs] at this
            rw [Except.ok.inj this, List.append_nil]
          · rw [hk2, hb2, hcount]; simp only [Spec.Visited.count]; omega
          · rw [hk3, hb2, hwrites]; simp [Spec.Visited.payloads]
          · rw [hk4, hg2, hd'.2]; rfl
      · rw [if_neg h1] at h
        by_cases h2 : ty = PT_DATA
        · rw [if_pos h2] at h
          obtain ⟨_, s2, hnote, h⟩ := PyS.bind_ok h
          unfold FullEnv.noteData at hnote
          rw [hg, if_pos rfl] at hnote
          obtain ⟨hadd, hb2⟩ := onPicture_ok hnote
          obtain ⟨l, hl, hg2⟩ := addData_ok hpa hadd
          unfold FullEnv.writeData at h
          rw [hw, if_pos rfl] at h
          unfold writeData at h
          cases hb : p.body.payload with
          | none => rw [hb] at h; cases h
          | some b =>
            simp only [hb] at h
            cases h
            refine ⟨.data p b .nil, [⟨true, hv', l, []⟩], .data hr hv (by rw [ht, h2]) hb .nil, ⟨hv', l, [], hh, hl, rfl, rfl⟩, ?_, ?_, ?_⟩
            · show s2.base.count = _; rw [hb2]; rfl
            · show s2.base.writes ++ [b] = _; rw [hb2]; rfl
            · exact hg2
        · rw [if_neg h2] at h
          obtain ⟨h, _⟩ := PyS.lift_ok h
          unfold unsupportedPayload at h
          obtain ⟨_, _, h⟩ := bind_eq_ok.mp h
          cases h

/-- The calls that tell the graph of an object. -/
def GraphOp.Told : GraphOp → Prop
  | .manifest .. => True
  | .data .. => True
  | _ => False

theorem graphLog_told {R : NameComponent → Text} {ops : List GraphOp} (h : ∀ o ∈ ops, o.Told) :
    Spec.graphLog R false ops = ops.flatMap (fun o => (Spec.graphRecord R o).toList) := by
  induction ops with
  | nil => rfl
  | cons o ops ih =>
    have := h o (by simp)
    cases o with
    | pause => cases this
    | resume => cases this
    | draw => cases this
    | manifest hv n name =>
      show (Spec.graphRecord R _).toList ++ _ = _
      rw [ih (fun o ho => h o (by simp [ho])), List.flatMap_cons]
    | data hv name =>
      show (Spec.graphRecord R _).toList ++ _ = _
      rw [ih (fun o ho => h o (by simp [ho])), List.flatMap_cons]

/-- The calls behind the records. -/
theorem Spec.Drawn.calls {P : Prims} {R : NameComponent → Text} {op : Packet → Node → Prop}
    (hop : ∀ p node, op p node → ∀ g ∈ node.hashGroups, g.pointers.isSome) {T : TravEnv} {scope : List NcDef}
    {rs : List Spec.Request} {v : Spec.Visited} (hL : Spec.Leads T op scope rs v) :
    ∀ {log : List EntryRecord}, Spec.Drawn P.sha256 R v log → ∃ ops : List GraphOp, (∀ o ∈ ops, o.Told) ∧
      ops.flatMap (fun o => (Spec.graphRecord R o).toList) = log ∧
      ∀ g : ManifestGraph, g.paused = false → ops.foldl (ManifestGraph.step P R) g = log.foldl (recordEntry P) g := by
  induction hL with
  | nil => intro log h; cases h; exact ⟨[], by simp, rfl, fun _ _ => rfl⟩
  | @data scope r rs p b rest got valid type payload after ih =>
    rintro log ⟨h, l, lg, e1, e2, e3, rfl⟩
    obtain ⟨ops, h1, h2, h3⟩ := ih e3
    refine ⟨.data h p.body.name :: ops, ?_, ?_, ?_⟩
    · intro o ho
      rcases List.mem_cons.mp ho with rfl | ho
      · exact trivial
      · exact h1 o ho
    · rw [List.flatMap_cons, h2]
      simp only [Spec.graphRecord, e2]
      rfl
    · intro g hg
      rw [List.foldl_cons, List.foldl_cons]
      have : ManifestGraph.step P R g (.data h p.body.name) = recordEntry P g ⟨true, h, l, []⟩ := by
        show (ManifestGraph.addData P R h p.body.name g).2 = _
        unfold ManifestGraph.addData recordEntry
        rw [e2, hg]
        rfl
      rw [this]
      exact h3 _ (by exact hg)
  | @manifest scope r rs krs p node kids rest got valid type read asks below after ih1 ih2 =>
    rintro log ⟨h, l, ks, lg, e1, e2, e3, e4, rfl⟩
    obtain ⟨ops, h1, h2, h3⟩ := ih1 e3
    obtain ⟨ops', h1', h2', h3'⟩ := ih2 e4
    have hv := hashValues_of_some (hop p node read)
    refine ⟨.manifest h node p.body.name :: (ops ++ ops'), ?_, ?_, ?_⟩
    · intro o ho
      rcases List.mem_cons.mp ho with rfl | ho
      · exact trivial
      · rcases List.mem_append.mp ho with ho | ho
        · exact h1 o ho
        · exact h1' o ho
    · rw [List.flatMap_cons, List.flatMap_append, h2, h2']
      simp only [Spec.graphRecord, e2, hv]
      rfl
    · intro g hg
      rw [List.foldl_cons, List.foldl_cons]
      have : ManifestGraph.step P R g (.manifest h node p.body.name) =
          recordEntry P g ⟨false, h, l, node.hashGroups.flatMap (fun g => g.pointers.getD [])⟩ := by
        show (ManifestGraph.addManifest P R h node p.body.name g).2 = _
        unfold ManifestGraph.addManifest recordEntry
        rw [e2, hv, hg]
        rfl
      rw [this, List.foldl_append, List.foldl_append, h3 _ (by exact hg)]
      exact h3' _ (by rw [recordEntry_paused]; exact hg)

/-- Every object visited has a record, and every pointer of a record leads to a record of the same digest. -/
theorem Spec.Drawn.closed {P : Prims} {R : NameComponent → Text} {op : Packet → Node → Prop}
    (hop : ∀ p node, op p node → ∀ g ∈ node.hashGroups, g.Iterable) {T : TravEnv} {scope : List NcDef}
    {rs : List Spec.Request} {v : Spec.Visited} (hL : Spec.Leads T op scope rs v) :
    ∀ {log : List EntryRecord}, Spec.Drawn P.sha256 R v log → ∀ {hs : List (Option HashValue)}, v.Hashed P hs →
      (∀ h, some h ∈ hs → ∃ r ∈ log, r.parent.value = h.value) ∧
      ∀ e ∈ log, ∀ c ∈ e.children, ∃ r ∈ log, r.parent.value = c.value := by
  induction hL with
  | nil => intro log h hs hh; cases h; cases hh; simp
  | @data scope r rs p b rest got valid type payload after ih =>
    rintro log ⟨h, l, lg, e1, e2, e3, rfl⟩ hs ⟨x, hs', rfl, hx, hrest⟩
    obtain ⟨h1, h2⟩ := ih e3 hrest
    constructor
    · intro y hy
      rcases List.mem_cons.mp hy with hy | hy
      · obtain ⟨g, hg, hgv⟩ := hx y hy.symm
        rw [e1] at hg
        cases hg
        exact ⟨_, List.mem_cons_self, hgv⟩
      · obtain ⟨r, hr, hrv⟩ := h1 y hy
        exact ⟨r, by simp [hr], hrv⟩
    · intro e he c hc
      rcases List.mem_cons.mp he with rfl | he
      · cases hc
      · obtain ⟨r, hr, hrv⟩ := h2 e he c hc
        exact ⟨r, by simp [hr], hrv⟩
  | @manifest scope r rs krs p node kids rest got valid type read asks below after ih1 ih2 =>
    rintro log ⟨h, l, ks, lg, e1, e2, e3, e4, rfl⟩ hs ⟨x, hs', rfl, hx, hkids, hrest⟩
    obtain ⟨h1, h2⟩ := ih1 e3 hkids
    obtain ⟨h1', h2'⟩ := ih2 e4 hrest
    constructor
    · intro y hy
      rcases List.mem_cons.mp hy with hy | hy
      · obtain ⟨g, hg, hgv⟩ := hx y hy.symm
        rw [e1] at hg
        cases hg
        exact ⟨_, List.mem_cons_self, hgv⟩
      · obtain ⟨r, hr, hrv⟩ := h1' y hy
        exact ⟨r, by simp [hr], hrv⟩
    · intro e he c hc
      rcases List.mem_cons.mp he with rfl | he
      · have hc' : some c ∈ (node.hashGroups.flatMap (fun g => g.values.map (·.hashValue))).map some := by
          rw [← C28_iteration_hashes node.hashGroups (hop p node read), List.map_flatMap] at hc
          exact List.mem_map.mpr ⟨c, hc, rfl⟩
        obtain ⟨r, hr, hrv⟩ := h1 c hc'
        exact ⟨r, by simp [hr], hrv⟩
      · rcases List.mem_append.mp he with he | he
        · obtain ⟨r, hr, hrv⟩ := h2 e he c hc
          exact ⟨r, by simp [hr], hrv⟩
        · obtain ⟨r, hr, hrv⟩ := h2' e he c hc
          exact ⟨r, by simp [hr], hrv⟩

theorem Spec.Latest.mem {P : Prims} {log : List EntryRecord} {e : EntryRecord} (h : Spec.Latest P log e) : e ∈ log := by
  obtain ⟨l1, l2, rfl, _⟩ := h
  simp

/-- About every hash that has a record there is a latest record. -/
theorem exists_latest {P : Prims} (log : List EntryRecord) (e : EntryRecord) (he : e ∈ log) :
    ∃ r, Spec.Latest P log r ∧ r.parent.value = e.parent.value := by
  induction log using List.reverseRecOn with
  | nil => cases he
  | append_singleton log x ih =>
    rcases List.mem_append.mp he with he | he
    · obtain ⟨r, ⟨l1, l2, hl, hno⟩, hv⟩ := ih he
      cases hd : r.parent.dictEq P x.parent with
      | true => exact ⟨x, ⟨log, [], rfl, by simp⟩, (dictEq_value hd).trans hv⟩
      | false =>
        refine ⟨r, ⟨l1, l2 ++ [x], by rw [hl]; simp, ?_⟩, hv⟩
        intro y hy
        rcases List.mem_append.mp hy with hy | hy
        · exact hno y hy
        · simp only [List.mem_singleton] at hy
          rw [hy]
          exact hd
    · simp only [List.mem_singleton] at he
      exact ⟨x, ⟨log, [], rfl, by simp⟩, by rw [he]⟩

/-- If a hash determines the record, every record is the latest. -/
theorem latest_of_mem {P : Prims} {log : List EntryRecord}
    (hc : ∀ x ∈ log, ∀ y ∈ log, x.parent.value = y.parent.value → x = y) (e : EntryRecord) :
    Spec.Latest P log e ↔ e ∈ log := by
  refine ⟨Spec.Latest.mem, fun he => ?_⟩
  obtain ⟨r, hr, hv⟩ := exists_latest (P := P) log e he
  rw [← hc r hr.mem e he hv]
  exact hr

/-- C94: after a traversal that returns, the graph holds a record about every object visited, in the order of the visit (a later record
about the same hash takes the place of the earlier one); what is counted and written is that of the objects visited. -/
theorem C94_graph (F : FullEnv) (hw : F.hasWriter = true) (hg : F.buildGraph = true) (depth : Nat) (name : Option Name)
    (hash : Option HashValue) (s s' : FullState) (hp : s.graph.paused = false)
    (h : F.traverse depth name hash s = (.ok (), s')) :
    ∃ v log, Spec.Leads F.toTravEnv (Spec.Read F.prims) [] [(name, hash)] v ∧ Spec.Drawn F.prims.sha256 F.R v log ∧
      s'.base.count = s.base.count + v.count ∧ s'.base.writes = s.base.writes ++ v.payloads ∧
      s'.graph.entries = log.foldl (fun d r => dictSet F.prims d r.parent r) s.graph.entries ∧ s'.graph.paused = false := by
  unfold FullEnv.traverse at h
  obtain ⟨p, hr, h⟩ := PyS.liftBind_ok h
  obtain ⟨_, hv, h⟩ := PyS.liftBind_ok h
  obtain ⟨v, log, h1, h2, h3, h4, h5⟩ := full_sound F hw hg depth (scope := []) rfl hp h (r := (name, hash)) hr hv
  refine ⟨v, log, h1, h2, h3, h4, ?_, by rw [h5, recordEntry_paused]; exact hp⟩
  rw [h5]
  clear h1 h2 h3 h4 h5 h
  generalize s.graph = g
  induction log generalizing g with
  | nil => rfl
  | cons r log ih => rw [List.foldl_cons, ih]; rfl

/-- C94: the picture drawn after the first traversal of a `Traversal` object: an edge from `a` to `b` exactly when the latest record
about a visited manifest named `a` lists a pointer named `b`; the latest records are all the records, if a hash determines the
record. -/
theorem C94_picture (F : FullEnv) (hw : F.hasWriter = true) (hg : F.buildGraph = true) (depth : Nat) (name : Option Name)
    (hash : Option HashValue) (s s' : FullState) (hn : s.graph = {}) (h : F.traverse depth name hash s = (.ok (), s')) :
    ∃ v log d, Spec.Leads F.toTravEnv (Spec.Read F.prims) [] [(name, hash)] v ∧ Spec.Drawn F.prims.sha256 F.R v log ∧
      (ManifestGraph.draw s'.graph).1 = .ok d ∧
      (∀ a b, (a, b) ∈ d.edges ↔
        ∃ e, Spec.Latest F.prims log e ∧ a = hashToName e.parent ∧ ∃ c ∈ e.children, b = hashToName c) ∧
      ((∀ x ∈ log, ∀ y ∈ log, x.parent.value = y.parent.value → x = y) → ∀ e, Spec.Latest F.prims log e ↔ e ∈ log) := by
  unfold FullEnv.traverse at h
  obtain ⟨p, hr, h⟩ := PyS.liftBind_ok h
  obtain ⟨_, hv, h⟩ := PyS.liftBind_ok h
  obtain ⟨v, log, h1, h2, h3, h4, h5⟩ := full_sound F hw hg depth (scope := []) rfl (by rw [hn]) h (r := (name, hash)) hr hv
  obtain ⟨ops, a1, a2, a3⟩ := h2.calls (P := F.prims) (fun p node ho g hg => by
    obtain ⟨ps, hps, _⟩ := ho.2.1 g hg; rw [hps]; rfl) h1
  obtain ⟨d, hd, he⟩ := C74_edges F.prims F.R ops
  rw [graphLog_told a1, a2] at he
  rw [a3 _ rfl, ← hn, ← h5] at hd
  exact ⟨v, log, d, h1, h2, hd, he, fun hc e => latest_of_mem hc e⟩

/-- C94: if the reader only gives packets that have the hash asked for, the picture can be plotted: every node has its colour
(compare C74_plot: a pointer to an object that was not recorded makes `plot` raise KeyError). -/
theorem C94_plot (F : FullEnv) (hw : F.hasWriter = true) (hg : F.buildGraph = true) (depth : Nat) (name : Option Name)
    (hash : Option HashValue) (hr : ∀ n x p, F.reader n (some x) = .ok p → Spec.HasDigest F.prims x p) (s s' : FullState)
    (hn : s.graph = {}) (h : F.traverse depth name hash s = (.ok (), s')) :
    ∃ d cs, (ManifestGraph.draw s'.graph).1 = .ok d ∧ d.colors = .ok cs := by
  unfold FullEnv.traverse at h
  obtain ⟨p, hp, h⟩ := PyS.liftBind_ok h
  obtain ⟨_, hv, h⟩ := PyS.liftBind_ok h
  obtain ⟨v, log, h1, h2, h3, h4, h5⟩ := full_sound F hw hg depth (scope := []) rfl (by rw [hn]) h (r := (name, hash)) hp hv
  obtain ⟨ops, a1, a2, a3⟩ := h2.calls (P := F.prims) (fun p node ho g hg => by
    obtain ⟨ps, hps, _⟩ := ho.2.1 g hg; rw [hps]; rfl) h1
  obtain ⟨d, hd, _⟩ := C74_edges F.prims F.R ops
  have hplot := C74_plot F.prims F.R ops d hd
  rw [graphLog_told a1, a2] at hplot
  obtain ⟨_, hcl⟩ := h2.closed (fun p node ho => ho.2.1) h1 (h1.hashed hr)
  obtain ⟨cs, hcs⟩ := hplot.2 fun e he c hc => by
    obtain ⟨r, hr, hrv⟩ := hcl e he.mem c hc
    obtain ⟨r', hr', hrv'⟩ := exists_latest (P := F.prims) log r hr
    refine ⟨r', hr', (C74_three_bytes _ _).2 ?_⟩
    rw [hrv', hrv]
  rw [a3 _ rfl, ← hn, ← h5] at hd
  exact ⟨d, cs, hd, hcs⟩

/-- C94: a data object whose name cannot be shown - for instance a name segment that is not UTF-8, or the empty name - is read by the
traversal without a graph; with one the traversal raises, before the payload is written. -/
theorem C94_label_fails (F : FullEnv) (hg : F.buildGraph = true) (name : Option Name) (hash : Option HashValue) (p : Packet)
    (b : Bytes) (hr : F.reader name hash = .ok p) (hv : validatePacket F.prims F.keystore p = .ok ())
    (hh : ∃ h, p.hash F.prims.sha256 = .ok h) (ht : p.body.payloadType = some PT_DATA) (hb : p.body.payload = some b)
    (hl : ¬ Spec.Labelled p.body.name) (depth : Nat) (s : FullState) (hp : s.graph.paused = false) :
    F.toTravEnv.traverse (depth + 1) name hash s.base =
      (.ok (), { s.base with count := s.base.count + 1, writes := s.base.writes ++ [b] }) ∧
    ∃ e s', F.traverse (depth + 1) name hash s = (.error e, s') ∧ s'.base.writes = s.base.writes ∧
      s'.graph.entries = s.graph.entries := by
  obtain ⟨h, hh⟩ := hh
  constructor
  · unfold TravEnv.traverse
    rw [PyS.liftBind_run hr, PyS.liftBind_run hv, TravEnv.preorder, PyS.liftBind_run hh, PyS.bind_run]
    simp only [PyS.modify_run, ht]
    rw [if_neg (by decide), if_pos trivial, hb]
    rfl
  · cases hlab : graphLabel F.R h p.body.name with
    | ok l => exact absurd ((C94_labels F.R h _).1 ⟨l, hlab⟩) hl
    | error e =>
      refine ⟨e, ⟨{ s.base with count := s.base.count + 1 }, { s.graph with graph := none }⟩, ?_, rfl, rfl⟩
      unfold FullEnv.traverse
      rw [PyS.liftBind_run hr, PyS.liftBind_run hv, FullEnv.preorder, PyS.liftBind_run hh]
      have hone : (PyS.modify (fun s : TState => { s with count := s.count + 1 })).onWalk s =
        (.ok (), { s with base := { s.base with count := s.base.count + 1 } }) := rfl
      rw [PyS.bind_of_ok hone]
      simp only [ht]
      rw [if_neg (by decide), if_pos trivial, PyS.bind_of_error]
      have hadd : ManifestGraph.addData F.prims F.R h p.body.name s.graph = (.error e, { s.graph with graph := none }) := by
        unfold ManifestGraph.addData
        rw [hlab, if_neg (by rw [hp]; decide)]
      unfold FullEnv.noteData
      rw [if_pos hg]
      unfold PyS.onPicture
      dsimp only
      rw [hadd]

/-- C94: a data object without a payload makes a traversal with a data writer raise AttributeError; without one it is counted and passed
over. -/
theorem C94_no_payload (F : FullEnv) (hg : F.buildGraph = false) (name : Option Name) (hash : Option HashValue) (p : Packet)
    (hr : F.reader name hash = .ok p) (hv : validatePacket F.prims F.keystore p = .ok ())
    (hh : ∃ h, p.hash F.prims.sha256 = .ok h) (ht : p.body.payloadType = some PT_DATA) (hb : p.body.payload = none)
    (depth : Nat) (s : FullState) :
    F.traverse (depth + 1) name hash s =
      (if F.hasWriter then .error .attributeError else .ok (), { s with base := { s.base with count := s.base.count + 1 } }) := by
  obtain ⟨h, hh⟩ := hh
  unfold FullEnv.traverse
  rw [PyS.liftBind_run hr, PyS.liftBind_run hv, FullEnv.preorder, PyS.liftBind_run hh]
  have hone : (PyS.modify (fun s : TState => { s with count := s.count + 1 })).onWalk s =
    (.ok (), { s with base := { s.base with count := s.base.count + 1 } }) := rfl
  rw [PyS.bind_of_ok hone]
  simp only [ht]
  rw [if_neg (by decide), if_pos trivial, noteData_plain hg]
  show F.writeData p.body.payload _ = _
  rw [hb]
  unfold FullEnv.writeData
  cases F.hasWriter <;> rfl

/-! ## Published files -/

theorem putAll_only {P : Prims} {ps : List Packet} {a b : MemoryStore} (h : a.putAll P ps = .ok b) :
    ∀ e ∈ b.byHash, e ∈ a.byHash ∨ e.2 ∈ ps := by
  unfold MemoryStore.putAll at h
  induction ps generalizing a with
  | nil => cases Except.ok.inj h; exact fun e he => .inl he
  | cons x qs ih =>
    rw [List.foldlM_cons] at h
    obtain ⟨m, hm, h⟩ := bind_eq_ok.mp h
    intro e he
    rcases ih h e he with he | he
    · obtain ⟨_, hv, _, hh, _, _, hif⟩ := MemoryStore.put_ok hm
      split at hif
      · exact .inl (hif.1 ▸ he)
      · rw [hif.1] at he
        rcases List.mem_append.mp he with he | he
        · exact .inl he
        · simp only [List.mem_singleton] at he
          exact .inr (by rw [he]; simp)
    · exact .inr (List.mem_cons_of_mem _ he)

theorem Spec.Holds.only {P : Prims} {ps : List Packet} {store : MemoryStore} (h : Spec.Holds P ps store)
    {name : Option Name} {hash : Option HashValue} {p : Packet} (hr : store.reader P name hash = .ok p) : p ∈ ps := by
  have hall : ∀ e ∈ store.byHash, e.2 ∈ ps := by
    rcases h with h | h
    · intro e he
      rcases putAll_only h e he with h | h
      · simp at h
      · exact h
    · exact (ofPackets_entries h).1
  cases hash with
  | none => cases hr
  | some x =>
    have hg : store.get P name x = .ok p := hr
    unfold MemoryStore.get MemoryStore.find at hg
    cases hf : store.byHash.find? (fun e => x.dictEq P e.1) with
    | none => rw [hf] at hg; cases hg
    | some e =>
      rw [hf] at hg
      have hm := hall e (List.mem_of_find?_eq_some hf)
      simp only [Option.map_some] at hg
      have : e.2 = p := by
        split at hg
        · exact Except.ok.inj hg
        · split at hg
          · cases hg
          · split at hg
            · exact Except.ok.inj hg
            · cases hg
      rw [← this]
      exact hm

/-- C94: a published file is returned also when a graph is built, if the names of its packets can be shown; the picture can then be
plotted.  Without a data writer every packet is visited and nothing is written. -/
theorem C94_published {E : Env} {L : FloatLog} {o : TreeOptions} {nc : Nat} {input : Stream} {root : Packet} {out : List Packet}
    {store : MemoryStore} {ks : Option Keystore} (hty : o.schemaType ≠ .segmented)
    (h : manifestTree E L o nc input = (.ok root, out)) (hr : Spec.CanRead E o nc out store ks) (R : NameComponent → Text)
    (hl : ∀ p ∈ out, Spec.Labelled p.body.name) :
    ∃ hv, root.hash E.prims.sha256 = .ok hv ∧ ∀ depth, out.length ≤ depth →
      (∃ s d cs, FullEnv.traverse ⟨⟨E.prims, store.reader E.prims, ks⟩, true, true, R⟩ depth o.name (some hv) (FullState.new ks) =
          (.ok (), s) ∧ s.base.writes.flatten = input.rest ∧ s.base.count = out.length ∧
        (ManifestGraph.draw s.graph).1 = .ok d ∧ d.colors = .ok cs) ∧
      ∃ s, FullEnv.traverse ⟨⟨E.prims, store.reader E.prims, ks⟩, false, true, R⟩ depth o.name (some hv) (FullState.new ks) =
        (.ok (), s) ∧ s.base.writes = [] ∧ s.base.count = out.length := by
  obtain ⟨hv, h1, h2⟩ := C49_file_returned hty h hr
  refine ⟨hv, h1, fun depth hd => ?_⟩
  obtain ⟨t, ht, hw, _, hc⟩ := h2 depth hd
  obtain ⟨g, hrun⟩ := C94_graph_returns ⟨⟨E.prims, store.reader E.prims, ks⟩, true, true, R⟩ rfl depth o.name (some hv)
    (fun n x p hp => hl p (hr.store.only hp)) (FullState.new ks) t ht
  obtain ⟨d, cs, hd1, hd2⟩ := C94_plot _ rfl rfl depth o.name (some hv) (fun n x p hp => hr.store.filed.reader hp) _ _ rfl hrun
  refine ⟨⟨_, d, cs, hrun, hw, hc, hd1, hd2⟩, ?_⟩
  obtain ⟨n1, n2, _, _, n3⟩ := C94_no_writer ⟨⟨E.prims, store.reader E.prims, ks⟩, true, true, R⟩ depth o.name (some hv)
    (FullState.new ks) (.inr (by rw [hrun]))
  rw [hrun] at n1 n2
  exact ⟨(FullEnv.traverse ⟨⟨E.prims, store.reader E.prims, ks⟩, false, true, R⟩ depth o.name (some hv) (FullState.new ks)).2,
    Prod.ext n1 rfl, n3, n2.trans hc⟩

/-! ## The hypotheses can be met -/

set_option maxRecDepth 100000 in
/-- C94: prefix names, encrypted, several manifests; all names can be shown. -/
example : ∃ root out store, manifestTree Toy.env Spec.exactLog (Toy.options .prefixed true) 1 (Toy.shortReads 32) = (.ok root, out) ∧
    Spec.CanRead Toy.env (Toy.options .prefixed true) 1 out store (some Toy.aesKeys) ∧ ∀ p ∈ out, Spec.Labelled p.body.name := by
  obtain ⟨root, out, store, h, _, hr⟩ := Toy.canRead (o := Toy.options .prefixed true) (input := Toy.shortReads 32) (n := 8)
    (ks := some Toy.aesKeys) trivial Toy.canDecrypt (Toy.plain ⟨rfl, rfl, rfl⟩) (Toy.text rfl rfl rfl) (by decide +kernel)
  refine ⟨root, out, store, h, hr, ?_⟩
  have hm : (manifestTree Toy.env Spec.exactLog (Toy.options .prefixed true) 1 (Toy.shortReads 32)).2.all (fun p =>
      match graphLabel (fun _ => []) ⟨T_SHA_256, []⟩ p.body.name with
      | .ok _ => true
      | .error _ => false) = true := by decide +kernel
  rw [h] at hm
  intro p hp
  have := List.all_eq_true.mp hm p hp
  refine (C94_labels (fun _ => []) ⟨T_SHA_256, []⟩ _).1 ?_
  cases hg : graphLabel (fun _ => []) ⟨T_SHA_256, []⟩ p.body.name with
  | ok l => exact ⟨l, rfl⟩
  | error e => rw [hg] at this; cases this

/-- A data object named by the byte 255. -/
def Toy.oddName : Packet := ⟨FixedHeader.contentObject 0, { name := Toy.seg [255], payloadType := some PT_DATA, payload := some [7] }, none, none⟩

/-- A data object without a payload. -/
def Toy.noPayload : Packet := ⟨FixedHeader.contentObject 0, { payloadType := some PT_DATA }, none, none⟩

/-- C94_label_fails: 255 is not the start of any UTF-8 text. -/
example : validatePacket Toy.prims none Toy.oddName = .ok () ∧ (∃ h, Toy.oddName.hash Toy.prims.sha256 = .ok h) ∧
    ¬ Spec.Labelled Toy.oddName.body.name := by
  refine ⟨by decide +kernel, ?_, ?_⟩
  · have : (match Toy.oddName.hash Toy.prims.sha256 with
      | .ok _ => true
      | .error _ => false) = true := by decide +kernel
    cases hh : Toy.oddName.hash Toy.prims.sha256 with
    | ok h => exact ⟨h, rfl⟩
    | error e => rw [hh] at this; cases this
  · rw [← C94_labels (fun _ => []) ⟨T_SHA_256, []⟩]
    rintro ⟨l, hl⟩
    have : (match graphLabel (fun _ => []) ⟨T_SHA_256, []⟩ Toy.oddName.body.name with
      | .ok _ => false
      | .error _ => true) = true := by decide +kernel
    rw [hl] at this
    cases this

/-- C94_no_payload. -/
example : validatePacket Toy.prims none Toy.noPayload = .ok () ∧ (∃ h, Toy.noPayload.hash Toy.prims.sha256 = .ok h) := by
  refine ⟨by decide +kernel, ?_⟩
  have : (match Toy.noPayload.hash Toy.prims.sha256 with
    | .ok _ => true
    | .error _ => false) = true := by decide +kernel
  cases hh : Toy.noPayload.hash Toy.prims.sha256 with
  | ok h => exact ⟨h, rfl⟩
  | error e => rw [hh] at this; cases this

end Ccnpy
