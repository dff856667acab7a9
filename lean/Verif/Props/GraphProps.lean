import Verif.Lemmas.Graph
import Verif.Lemmas.Display
import Mathlib.Data.List.Induction

/-!
# C74: the picture of a manifest tree

A `ManifestGraph` is used by any sequence of calls.  What is drawn at the end is determined by the records that were added while the
graph was not paused: for each hash the latest one.
-/

namespace Ccnpy

/-- The record that a call adds when the graph is not paused; no record if the call raises. -/
def Spec.graphRecord (R : NameComponent → Text) : GraphOp → Option EntryRecord
  | .manifest h node name =>
    match node.hashValues, graphLabel R h name with
    | .ok cs, .ok l => some ⟨false, h, l, cs⟩
    | _, _ => none
  | .data h name =>
    match graphLabel R h name with
    | .ok l => some ⟨true, h, l, []⟩
    | .error _ => none
  | _ => none

/-- The records added by a sequence of calls, in order; the flag says whether the graph is paused. -/
def Spec.graphLog (R : NameComponent → Text) : Bool → List GraphOp → List EntryRecord
  | _, [] => []
  | _, .pause :: l => Spec.graphLog R true l
  | _, .resume :: l => Spec.graphLog R false l
  | true, _ :: l => Spec.graphLog R true l
  | false, op :: l => (Spec.graphRecord R op).toList ++ Spec.graphLog R false l

/-- `e` is in the log, and no later record is about the same hash. -/
def Spec.Latest (P : Prims) (log : List EntryRecord) (e : EntryRecord) : Prop :=
  ∃ l1 l2, log = l1 ++ e :: l2 ∧ ∀ x ∈ l2, e.parent.dictEq P x.parent = false

private theorem latest_snoc {P : Prims} {log : List EntryRecord} {r e : EntryRecord} :
    Spec.Latest P (log ++ [r]) e ↔ e = r ∨ (Spec.Latest P log e ∧ e.parent.dictEq P r.parent = false) := by
  constructor
  · rintro ⟨l1, l2, h, hl⟩
    rcases List.eq_nil_or_concat l2 with rfl | ⟨l3, x, rfl⟩
    · have := List.append_inj' h (by simp)
      exact .inl (by simpa using this.2.symm)
    · rw [List.concat_eq_append, ← List.cons_append, ← List.append_assoc] at h
      have := List.append_inj' h (by simp)
      have hx : r = x := by simpa using this.2
      subst hx
      refine .inr ⟨⟨l1, l3, this.1, fun y hy => hl y (by simp [hy])⟩, hl r (by simp)⟩
  · rintro (rfl | ⟨⟨l1, l2, rfl, hl⟩, hr⟩)
    · exact ⟨log, [], rfl, by simp⟩
    · refine ⟨l1, l2 ++ [r], by simp, ?_⟩
      intro x hx
      rcases List.mem_append.1 hx with hx | hx
      · exact hl x hx
      · rw [List.mem_singleton] at hx
        rw [hx]; exact hr

/-- The log grows at the end. -/
private theorem graphLog_snoc (R : NameComponent → Text) (ops : List GraphOp) (p : Bool) (op : GraphOp) :
    ∃ q, Spec.graphLog R p (ops ++ [op]) = Spec.graphLog R p ops ++ Spec.graphLog R q [op] ∧
      ∀ P g, g.paused = p → (ops.foldl (ManifestGraph.step P R) g).paused = q := by
  induction ops generalizing p with
  | nil => exact ⟨p, by simp [Spec.graphLog], fun P g h => h⟩
  | cons o ops ih =>
    have hkeep : ∀ P g, (∀ x, o ≠ x ∨ x ≠ .pause) → (∀ x, o ≠ x ∨ x ≠ .resume) →
        (ManifestGraph.step P R g o).paused = g.paused := by
      intro P g h1 h2
      cases o with
      | manifest h n name =>
        simp only [ManifestGraph.step, ManifestGraph.addManifest]
        split
        · rfl
        · split <;> rfl
      | data h name =>
        simp only [ManifestGraph.step, ManifestGraph.addData]
        split
        · rfl
        · split <;> rfl
      | pause => exact absurd rfl ((h1 .pause).resolve_right (by simp))
      | resume => exact absurd rfl ((h2 .resume).resolve_right (by simp))
      | draw =>
        simp only [ManifestGraph.step, ManifestGraph.draw]
        split <;> rfl
    cases o with
    | pause =>
      obtain ⟨q, h1, h2⟩ := ih true
      exact ⟨q, by simpa [Spec.graphLog] using h1, fun P g _ => h2 P _ rfl⟩
    | resume =>
      obtain ⟨q, h1, h2⟩ := ih false
      exact ⟨q, by simpa [Spec.graphLog] using h1, fun P g _ => h2 P _ rfl⟩
    | _ =>
      obtain ⟨q, h1, h2⟩ := ih p
      refine ⟨q, ?_, fun P g h => h2 P _ ((hkeep P g (by intro x; cases x <;> simp) (by intro x; cases x <;> simp)).trans h)⟩
      cases p <;> simp [Spec.graphLog, h1]

private structure GraphInv (P : Prims) (R : NameComponent → Text) (ops : List GraphOp) (g : ManifestGraph) : Prop where
  keys : ∀ x ∈ g.entries, x.1.dictEq P x.2.parent = true
  values : ∀ e, e ∈ g.entries.map (·.2) ↔ Spec.Latest P (Spec.graphLog R false ops) e
  cache : g.graph = none ∨ g.graph = some g.createGraph

private theorem inv_add {P : Prims} {R : NameComponent → Text} {ops : List GraphOp} {g : ManifestGraph} {op : GraphOp}
    {log : List EntryRecord} {r : EntryRecord} (hlog : Spec.graphLog R false (ops ++ [op]) = log ++ [r])
    (h0 : Spec.graphLog R false ops = log) (hi : GraphInv P R ops g) {h : HashValue} (hr : r.parent = h) :
    GraphInv P R (ops ++ [op]) { g with graph := none, entries := dictSet P g.entries h r } := by
  refine ⟨dictSet_keys hi.keys hr, ?_, .inl rfl⟩
  intro e
  rw [hlog, latest_snoc, mem_dictSet hi.keys, hi.values, h0, hr]

private theorem inv_keep {P : Prims} {R : NameComponent → Text} {ops : List GraphOp} {g g' : ManifestGraph} {op : GraphOp}
    (hlog : Spec.graphLog R false (ops ++ [op]) = Spec.graphLog R false ops) (hi : GraphInv P R ops g)
    (he : g'.entries = g.entries) (hc : g'.graph = none ∨ g'.graph = some g'.createGraph) : GraphInv P R (ops ++ [op]) g' := by
  refine ⟨he ▸ hi.keys, ?_, hc⟩
  intro e
  rw [hlog, he, hi.values]

private theorem graph_inv (P : Prims) (R : NameComponent → Text) (ops : List GraphOp) :
    GraphInv P R ops (ops.foldl (ManifestGraph.step P R) {}) := by
  induction ops using List.reverseRecOn with
  | nil =>
    refine ⟨by simp, ?_, .inl rfl⟩
    intro e
    simp only [List.foldl_nil, List.map_nil, List.not_mem_nil, false_iff]
    rintro ⟨l1, l2, h, _⟩
    simp [Spec.graphLog] at h
  | append_singleton ops op ih =>
    rw [List.foldl_append, List.foldl_cons, List.foldl_nil]
    obtain ⟨q, hlog, hq⟩ := graphLog_snoc R ops false op
    have hp := hq P {} rfl
    generalize ops.foldl (ManifestGraph.step P R) {} = g at *
    subst hp
    have hcache : ∀ g' : ManifestGraph, g'.entries = g.entries → g'.graph = g.graph →
        g'.graph = none ∨ g'.graph = some g'.createGraph := by
      intro g' h1 h2
      rw [h2]
      unfold ManifestGraph.createGraph
      rw [h1]
      exact ih.cache
    cases op with
    | pause => exact inv_keep (by simpa [Spec.graphLog] using hlog) ih rfl (hcache _ rfl rfl)
    | resume => exact inv_keep (by simpa [Spec.graphLog] using hlog) ih rfl (hcache _ rfl rfl)
    | draw =>
      have hl : Spec.graphLog R false (ops ++ [.draw]) = Spec.graphLog R false ops := by
        rw [hlog]; cases g.paused <;> simp [Spec.graphLog, Spec.graphRecord]
      simp only [ManifestGraph.step, ManifestGraph.draw]
      split
      · exact inv_keep hl ih rfl (hcache _ rfl rfl)
      · exact inv_keep hl ih rfl (.inr rfl)
    | manifest h n name =>
      simp only [ManifestGraph.step, ManifestGraph.addManifest]
      split
      · rename_i hpz
        refine inv_keep ?_ ih rfl (hcache _ rfl rfl)
        rw [hlog, hpz]; simp [Spec.graphLog]
      · rename_i hpz
        simp only [Bool.not_eq_true] at hpz
        rw [hpz] at hlog
        cases hv : n.hashValues with
        | error e =>
          refine inv_keep ?_ ih rfl (.inl rfl)
          rw [hlog]; simp [Spec.graphLog, Spec.graphRecord, hv]
        | ok cs =>
          cases hl : graphLabel R h name with
          | error e =>
            refine inv_keep ?_ ih rfl (.inl rfl)
            rw [hlog]; simp [Spec.graphLog, Spec.graphRecord, hv, hl]
          | ok l =>
            refine inv_add (r := ⟨false, h, l, cs⟩) ?_ rfl ih rfl
            rw [hlog]; simp [Spec.graphLog, Spec.graphRecord, hv, hl]
    | data h name =>
      simp only [ManifestGraph.step, ManifestGraph.addData]
      split
      · rename_i hpz
        refine inv_keep ?_ ih rfl (hcache _ rfl rfl)
        rw [hlog, hpz]; simp [Spec.graphLog]
      · rename_i hpz
        simp only [Bool.not_eq_true] at hpz
        rw [hpz] at hlog
        cases hl : graphLabel R h name with
        | error e =>
          refine inv_keep ?_ ih rfl (.inl rfl)
          rw [hlog]; simp [Spec.graphLog, Spec.graphRecord, hl]
        | ok l =>
          refine inv_add (r := ⟨true, h, l, []⟩) ?_ rfl ih rfl
          rw [hlog]; simp [Spec.graphLog, Spec.graphRecord, hl]

private theorem draw_eq {P : Prims} {R : NameComponent → Text} {ops : List GraphOp} {d : DiGraph}
    (h : (ManifestGraph.draw (ops.foldl (ManifestGraph.step P R) {})).1 = .ok d) :
    ∃ l : List EntryRecord, (∀ e, e ∈ l ↔ Spec.Latest P (Spec.graphLog R false ops) e) ∧ d = l.foldl DiGraph.addEntry {} := by
  have hi := graph_inv P R ops
  generalize ops.foldl (ManifestGraph.step P R) {} = g at *
  refine ⟨g.entries.map (·.2), hi.values, ?_⟩
  unfold ManifestGraph.draw at h
  rcases hi.cache with hc | hc
  · rw [hc] at h
    cases h; rfl
  · rw [hc] at h
    cases h; rfl

/-- After any sequence of calls, drawing works, and there is an edge from `a` to `b` exactly when the latest record about some hash
named `a` lists a pointer named `b`. -/
theorem C74_edges (P : Prims) (R : NameComponent → Text) (ops : List GraphOp) :
    ∃ d, (ManifestGraph.draw (ops.foldl (ManifestGraph.step P R) {})).1 = .ok d ∧
      ∀ a b, (a, b) ∈ d.edges ↔
        ∃ e, Spec.Latest P (Spec.graphLog R false ops) e ∧ a = hashToName e.parent ∧ ∃ c ∈ e.children, b = hashToName c := by
  have hd : ∃ d, (ManifestGraph.draw (ops.foldl (ManifestGraph.step P R) {})).1 = .ok d := by
    unfold ManifestGraph.draw
    split
    · exact ⟨_, rfl⟩
    · exact ⟨_, rfl⟩
  obtain ⟨d, hd⟩ := hd
  refine ⟨d, hd, ?_⟩
  obtain ⟨l, hl, rfl⟩ := draw_eq hd
  intro a b
  rw [foldl_addEntry_edges]
  simp only [List.not_mem_nil, false_or]
  constructor
  · rintro ⟨e, he, c, hc, h⟩
    injection h with h1 h2
    exact ⟨e, (hl e).1 he, h1, c, hc, h2⟩
  · rintro ⟨e, he, rfl, c, hc, rfl⟩
    exact ⟨e, (hl e).2 he, c, hc, rfl⟩

/-- The nodes: each name once; it is the name of a record or of a pointer in a record.  A node has attributes exactly when it is the
name of a record, and then they are those of such a record. -/
theorem C74_nodes (P : Prims) (R : NameComponent → Text) (ops : List GraphOp) (d : DiGraph)
    (h : (ManifestGraph.draw (ops.foldl (ManifestGraph.step P R) {})).1 = .ok d) :
    (d.nodes.map (·.1)).Nodup ∧
    (∀ a, a ∈ d.nodes.map (·.1) ↔
      ∃ e, Spec.Latest P (Spec.graphLog R false ops) e ∧ (a = hashToName e.parent ∨ ∃ c ∈ e.children, a = hashToName c)) ∧
    (∀ a at', (a, some at') ∈ d.nodes →
      ∃ e, Spec.Latest P (Spec.graphLog R false ops) e ∧ a = hashToName e.parent ∧ at' = ⟨e.isData, e.parentName⟩) ∧
    (∀ a, (a, none) ∈ d.nodes ↔
      (∃ e, Spec.Latest P (Spec.graphLog R false ops) e ∧ ∃ c ∈ e.children, a = hashToName c) ∧
      ∀ e, Spec.Latest P (Spec.graphLog R false ops) e → a ≠ hashToName e.parent) := by
  obtain ⟨l, hl, rfl⟩ := draw_eq h
  have hnd : (l.foldl DiGraph.addEntry {}).names.Nodup := foldl_addEntry_nodup l (by simp [DiGraph.names])
  have hempty : ∀ a, ({} : DiGraph).attr a = none := fun a => rfl
  have hmem : ∀ a, a ∈ (l.foldl DiGraph.addEntry {}).names ↔
      ∃ e ∈ l, hashToName e.parent = a ∨ ∃ c ∈ e.children, hashToName c = a := by
    intro a
    rw [← DiGraph.any_names, ← DiGraph.attr_isSome, foldl_addEntry_isSome, hempty]
    simp
  refine ⟨hnd, ?_, ?_, ?_⟩
  · intro a
    refine (hmem a).trans ?_
    constructor
    · rintro ⟨e, he, h | ⟨c, hc, h⟩⟩
      · exact ⟨e, (hl e).1 he, .inl h.symm⟩
      · exact ⟨e, (hl e).1 he, .inr ⟨c, hc, h.symm⟩⟩
    · rintro ⟨e, he, h | ⟨c, hc, h⟩⟩
      · exact ⟨e, (hl e).2 he, .inl h.symm⟩
      · exact ⟨e, (hl e).2 he, .inr ⟨c, hc, h.symm⟩⟩
  · intro a at' ha
    rw [DiGraph.attr_mem hnd] at ha
    rcases (foldl_addEntry_attr l {} a).1 at' ha with h1 | ⟨e, he, h1, h2⟩
    · rw [hempty] at h1; cases h1
    · exact ⟨e, (hl e).1 he, h1.symm, h2⟩
  · intro a
    rw [DiGraph.attr_mem hnd]
    constructor
    · intro ha
      have h1 := ((foldl_addEntry_attr l {} a).2 ha).1
      have h2 : a ∈ (l.foldl DiGraph.addEntry {}).names := List.mem_map.2 ⟨_, (DiGraph.attr_mem hnd a none).2 ha, rfl⟩
      obtain ⟨e, he, h3⟩ := (hmem a).1 h2
      rcases h3 with h3 | ⟨c, hc, h3⟩
      · exact absurd h3 (h1 e he)
      · exact ⟨⟨e, (hl e).1 he, c, hc, h3.symm⟩, fun e' he' h4 => h1 e' ((hl e').2 he') h4.symm⟩
    · rintro ⟨⟨e, he, c, hc, rfl⟩, hno⟩
      have h2 : ((l.foldl DiGraph.addEntry {}).attr (hashToName c)).isSome = true :=
        (foldl_addEntry_isSome l {} _).2 (.inr ⟨e, (hl e).2 he, .inr ⟨c, hc, rfl⟩⟩)
      cases hx : (l.foldl DiGraph.addEntry {}).attr (hashToName c) with
      | none => rw [hx] at h2; cases h2
      | some x =>
        cases x with
        | none => rfl
        | some y =>
          rcases (foldl_addEntry_attr l {} _).1 y hx with h3 | ⟨e', he', h3, _⟩
          · rw [hempty] at h3; cases h3
          · exact absurd h3.symm (hno e' ((hl e').1 he'))

theorem colors_ok (l : List (Text × Option NodeAttrs)) :
    (∃ cs, l.mapM nodeColor = .ok cs) ↔ ∀ a, (a, none) ∉ l := by
  induction l with
  | nil => simp [List.mapM_nil, pure, Except.pure]
  | cons x l ih =>
    obtain ⟨n, a⟩ := x
    rw [List.mapM_cons]
    cases a with
    | none =>
      simp only [List.mem_cons, not_or, nodeColor]
      constructor
      · rintro ⟨cs, h⟩; cases h
      · intro h; exact absurd rfl (h n).1
    | some a =>
      simp only [ok_bind, nodeColor]
      constructor
      · rintro ⟨cs, h⟩
        obtain ⟨ds, hd, _⟩ := bind_eq_ok.1 h
        intro b hb
        rcases List.mem_cons.1 hb with hb | hb
        · cases hb
        · exact ih.1 ⟨ds, hd⟩ b hb
      · intro h
        obtain ⟨ds, hd⟩ := ih.2 (fun b hb => h b (List.mem_cons_of_mem _ hb))
        exact ⟨a.isData :: ds, by rw [hd]; rfl⟩

/-- Plotting gets as far as the layout exactly when every pointer of a record has the name of a record. -/
theorem C74_plot (P : Prims) (R : NameComponent → Text) (ops : List GraphOp) (d : DiGraph)
    (h : (ManifestGraph.draw (ops.foldl (ManifestGraph.step P R) {})).1 = .ok d) :
    (∃ cs, d.colors = .ok cs) ↔
      ∀ e, Spec.Latest P (Spec.graphLog R false ops) e → ∀ c ∈ e.children,
        ∃ e', Spec.Latest P (Spec.graphLog R false ops) e' ∧ hashToName c = hashToName e'.parent := by
  obtain ⟨_, _, _, hn⟩ := C74_nodes P R ops d h
  unfold DiGraph.colors
  rw [colors_ok]
  constructor
  · intro h1 e he c hc
    have h2 := h1 (hashToName c)
    rw [hn] at h2
    by_cases h3 : ∃ e', Spec.Latest P (Spec.graphLog R false ops) e' ∧ hashToName c = hashToName e'.parent
    · exact h3
    · exact absurd ⟨⟨e, he, c, hc, rfl⟩, fun e' he' h4 => h3 ⟨e', he', h4⟩⟩ h2
  · intro h1 a ha
    rw [hn] at ha
    obtain ⟨⟨e, he, c, hc, rfl⟩, hno⟩ := ha
    obtain ⟨e', he', h2⟩ := h1 e he c hc
    exact hno e' he' h2

/-- Names of nodes: the comment in the code speaks of four bytes of the hash, but the text `0x` counts as well, so only three bytes
are told apart. -/
theorem C74_three_bytes (a b : HashValue) : hashToName a = hashToName b ↔ a.value.take 3 = b.value.take 3 :=
  hashToName_inj

/-- What a label is: for a nameless packet the name of its node; for a numbered packet the number, if it has at most 4300 digits (else
ValueError is raised); otherwise the URI of the name.  The empty name raises AssertionError. -/
theorem C74_label (R : NameComponent → Text) (h : HashValue) :
    graphLabel R h none = .ok (hashToName h) ∧
    graphLabel R h (some ⟨[]⟩) = .error .assertionError ∧
    ∀ (cs : List NameComponent) (c : NameComponent), graphLabel R h (some ⟨cs ++ [c]⟩) =
      if c.type = T_CHUNKID ∨ c.type = T_MANIFESTID then
        if (Nat.toDigits 10 (arrayToNumber c.value)).length ≤ 4300 then .ok (Nat.toDigits 10 (arrayToNumber c.value))
        else .error .valueError
      else Name.asUri R ⟨cs ++ [c]⟩ := by
  refine ⟨rfl, rfl, ?_⟩
  intro cs c
  have h1 : Name.component ⟨cs ++ [c]⟩ (((cs ++ [c]).length : Int) - 1) = .ok c := by
    unfold Name.component pyIndex
    have e1 : (((cs ++ [c]).length : Int) - 1) = (cs.length : Int) := by simp
    simp only [e1]
    have e2 : decide ((0 : Int) ≤ (cs.length : Int)) = true := by simp
    rw [e2]
    have e3 : ¬ ((cs.length : Int) < 0) := by omega
    simp only [pyAssert, if_true, ok_bind, if_neg e3]
    simp
  unfold graphLabel
  simp only [h1, ok_bind]
  by_cases hc : c.type = T_CHUNKID ∨ c.type = T_MANIFESTID
  · rw [if_pos hc, if_pos hc.symm, decimal_eq]
  · rw [if_neg hc, if_neg (fun h => hc h.symm)]

/-- C74: the pointers of a manifest are those of its hash groups, in order; a group without pointers raises TypeError. -/
theorem C74_hash_values (n : Node) :
    n.hashValues = if ∃ g ∈ n.hashGroups, g.pointers = none then .error .typeError
      else .ok ((n.hashGroups.map (fun g => g.pointers.getD [])).flatten) := by
  rw [Node.hashValues_eq]
  by_cases h : ∃ g ∈ n.hashGroups, g.pointers = none
  · rw [if_pos h, if_pos]
    obtain ⟨g, hg, hp⟩ := h
    exact List.any_eq_true.mpr ⟨g, hg, by rw [hp]; rfl⟩
  · rw [if_neg h, if_neg, List.flatMap_def]
    intro ha
    obtain ⟨g, hg, hp⟩ := List.any_eq_true.mp ha
    exact h ⟨g, hg, by simpa using hp⟩

/-! ## Cases -/

private def h1 : HashValue := .sha256 [1, 2, 3, 4]
private def h2 : HashValue := .sha256 [1, 2, 3, 5]
private def h3 : HashValue := .sha256 [9, 9, 9, 9]
private def nodeOf (l : List HashValue) : Node := { hashGroups := [{ pointers := some l }] }
private def noText : NameComponent → Text := fun _ => []

/-- A manifest with two pointers whose hashes differ in the fourth byte only: the picture has one node and one edge for both. -/
example (P : Prims) (hP : P.strHash = fun _ => 0) :
    (ManifestGraph.draw ([.manifest h3 (nodeOf [h1, h2]) none, .data h1 none, .data h2 none].foldl (ManifestGraph.step P noText) {})).1 =
      .ok { nodes := [(hashToName h3, some ⟨false, hashToName h3⟩), (hashToName h1, some ⟨true, hashToName h2⟩)],
            edges := [(hashToName h3, hashToName h1)] } := by
  have e : ([.manifest h3 (nodeOf [h1, h2]) none, .data h1 none, .data h2 none].foldl (ManifestGraph.step P noText) {}).entries =
      [(h3, ⟨false, h3, hashToName h3, [h1, h2]⟩), (h1, ⟨true, h1, hashToName h1, []⟩), (h2, ⟨true, h2, hashToName h2, []⟩)] := by
    simp [ManifestGraph.step, ManifestGraph.addManifest, ManifestGraph.addData, dictSet, HashValue.dictEq, hP, HashValue.pyEq, Tlv.pyEq,
      h1, h2, h3, Node.hashValues, nodeOf, appendPointers, graphLabel, HashValue.sha256, pure, Except.pure, bind, Except.bind,
      List.foldlM]
  unfold ManifestGraph.draw
  have g : ([.manifest h3 (nodeOf [h1, h2]) none, .data h1 none, .data h2 none].foldl (ManifestGraph.step P noText) {}).graph = none := by
    simp [ManifestGraph.step, ManifestGraph.addManifest, ManifestGraph.addData, dictSet, HashValue.dictEq, hP, HashValue.pyEq, Tlv.pyEq,
      h1, h2, h3, Node.hashValues, nodeOf, appendPointers, graphLabel, HashValue.sha256, pure, Except.pure, bind, Except.bind,
      List.foldlM]
  rw [g]
  simp only [ManifestGraph.createGraph, e]
  decide +kernel

/-- A manifest recorded while its only pointer is not: the plot raises KeyError. -/
example : DiGraph.colors (DiGraph.addEntry {} ⟨false, h3, hashToName h3, [h1]⟩) = .error .keyError := by decide +kernel

end Ccnpy
