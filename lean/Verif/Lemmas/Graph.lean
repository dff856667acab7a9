import Verif.Model.Factory
import Verif.Lemmas.Directory
import Verif.Lemmas.Keys

/-!
# Lemmas about the manifest graph
-/

namespace Ccnpy

theorem hexText_length (b : Bytes) : (hexText b).length = 2 * b.length := by
  induction b with
  | nil => rfl
  | cons x b ih => rw [hexText_cons]; simp [ih]; omega

theorem hexText_take (n : Nat) (b : Bytes) : (hexText b).take (2 * n) = hexText (b.take n) := by
  induction b generalizing n with
  | nil => cases n <;> simp [hexText]
  | cons x b ih =>
    cases n with
    | zero => simp [hexText]
    | succ n =>
      rw [List.take_succ_cons, hexText_cons, hexText_cons, Nat.mul_add, Nat.mul_one, List.take_succ_cons, List.take_succ_cons, ih]

theorem hashToName_eq (h : HashValue) : hashToName h = '0' :: 'x' :: hexText (h.value.take 3) := by
  unfold hashToName hexlify
  rw [show (8 : Nat) = 6 + 1 + 1 from rfl, List.take_succ_cons, List.take_succ_cons, show (6 : Nat) = 2 * 3 from rfl, hexText_take]

theorem hashToName_inj {a b : HashValue} : hashToName a = hashToName b ↔ a.value.take 3 = b.value.take 3 := by
  rw [hashToName_eq, hashToName_eq]
  constructor
  · intro h
    injection h with _ h
    injection h with _ h
    exact hexText_inj h
  · intro h
    rw [h]

/-! ## Dictionary keys -/

theorem HashValue.dictEq_refl (P : Prims) (a : HashValue) : a.dictEq P a = true := by
  simp [HashValue.dictEq, HashValue.pyEq, Tlv.pyEq]

theorem HashValue.dictEq_symm {P : Prims} {a b : HashValue} (h : a.dictEq P b = true) : b.dictEq P a = true := by
  simp only [HashValue.dictEq, HashValue.pyEq, Tlv.pyEq, Bool.and_eq_true, beq_iff_eq] at h ⊢
  grind

theorem HashValue.dictEq_trans {P : Prims} {a b c : HashValue} (h : a.dictEq P b = true) (h' : b.dictEq P c = true) :
    a.dictEq P c = true := by
  simp only [HashValue.dictEq, HashValue.pyEq, Tlv.pyEq, Bool.and_eq_true, beq_iff_eq] at h h' ⊢
  grind

theorem HashValue.dictEq_congr {P : Prims} {a b : HashValue} (h : a.dictEq P b = true) (c : HashValue) :
    c.dictEq P a = c.dictEq P b := by
  by_cases h1 : c.dictEq P a = true
  · rw [h1, HashValue.dictEq_trans h1 h]
  · by_cases h2 : c.dictEq P b = true
    · exact absurd (HashValue.dictEq_trans h2 (HashValue.dictEq_symm h)) h1
    · simp only [Bool.not_eq_true] at h1 h2
      rw [h1, h2]

/-! ## networkx -/

/-- The names of the nodes. -/
def DiGraph.names (g : DiGraph) : List Text := g.nodes.map (·.1)

theorem DiGraph.any_names (g : DiGraph) (n : Text) : g.nodes.any (fun e => e.1 == n) = true ↔ n ∈ g.names := by
  simp [DiGraph.names]

theorem DiGraph.addNode_edges (g : DiGraph) (n : Text) (a : NodeAttrs) : (g.addNode n a).edges = g.edges := by
  unfold DiGraph.addNode; split <;> rfl

theorem DiGraph.touch_edges (g : DiGraph) (n : Text) : (g.touch n).edges = g.edges := by
  unfold DiGraph.touch; split <;> rfl

theorem DiGraph.mem_addEdge_edges (g : DiGraph) (u v : Text) (e : Text × Text) :
    e ∈ (g.addEdge u v).edges ↔ e ∈ g.edges ∨ e = (u, v) := by
  unfold DiGraph.addEdge
  simp only []
  split
  · rename_i h
    rw [List.any_eq_true] at h
    obtain ⟨x, hx, hxe⟩ := h
    rw [beq_iff_eq] at hxe
    rw [DiGraph.touch_edges, DiGraph.touch_edges] at hx ⊢
    constructor
    · exact .inl
    · rintro (h | h)
      · exact h
      · rw [h, ← hxe]; exact hx
  · simp only [List.mem_append, List.mem_singleton]
    rw [DiGraph.touch_edges, DiGraph.touch_edges]

/-- The attributes of a node: absent node, node without attributes, node with attributes. -/
def DiGraph.attr (g : DiGraph) (n : Text) : Option (Option NodeAttrs) := (g.nodes.find? (fun e => e.1 == n)).map (·.2)

theorem DiGraph.attr_isSome (g : DiGraph) (n : Text) : (g.attr n).isSome = g.nodes.any (fun e => e.1 == n) := by
  unfold DiGraph.attr
  rw [Option.isSome_map, List.isSome_find?]

theorem DiGraph.attr_touch (g : DiGraph) (n m : Text) :
    (g.touch n).attr m = if n = m then some ((g.attr m).getD none) else g.attr m := by
  unfold DiGraph.touch
  split
  · rename_i h
    rw [← DiGraph.attr_isSome] at h
    split
    · rename_i e
      rw [← e]
      cases hx : g.attr n with
      | none => rw [hx] at h; cases h
      | some a => rfl
    · rfl
  · rename_i h
    unfold DiGraph.attr
    simp only [List.find?_append, List.find?_cons, List.find?_nil]
    split
    · rename_i e
      rw [beq_iff_eq] at e
      rw [← e]
      have hn : g.nodes.find? (fun e => e.1 == n) = none := by
        rw [List.find?_eq_none]
        intro x hx hxe
        exact h (List.any_eq_true.2 ⟨x, hx, hxe⟩)
      rw [hn]; simp
    · rename_i e
      have : n ≠ m := by simpa using e
      rw [if_neg this]
      cases g.nodes.find? (fun e => e.1 == m) <;> rfl

private theorem find_map_replace (l : List (Text × Option NodeAttrs)) (n m : Text) (a : NodeAttrs) :
    ((l.map (fun e => if e.1 == n then (n, some a) else e)).find? (fun e => e.1 == m)).map (·.2) =
      if n = m then ((l.find? (fun e => e.1 == m)).map (fun _ => some a)) else (l.find? (fun e => e.1 == m)).map (·.2) := by
  induction l with
  | nil => simp
  | cons x l ih =>
    rw [List.map_cons]
    by_cases hx : x.1 == n
    · simp only [hx, if_true]
      rw [List.find?_cons, List.find?_cons]
      rw [beq_iff_eq] at hx
      by_cases e : n = m
      · subst e; simp [hx]
      · have h1 : (n == m) = false := by simp [e]
        have h2 : (x.1 == m) = false := by simp [hx, e]
        simp only [h1, h2]
        exact ih
    · simp only [hx]
      rw [List.find?_cons, List.find?_cons]
      by_cases hm : x.1 == m
      · simp only [hm, Bool.false_eq_true, if_false]
        by_cases e : n = m
        · subst e; exact absurd hm hx
        · simp [e]
      · simp only [hm, Bool.false_eq_true, if_false]
        exact ih

theorem DiGraph.attr_addNode (g : DiGraph) (n m : Text) (a : NodeAttrs) :
    (g.addNode n a).attr m = if n = m then some (some a) else g.attr m := by
  unfold DiGraph.addNode
  split
  · rename_i h
    unfold DiGraph.attr
    simp only []
    rw [find_map_replace]
    split
    · rename_i e
      subst e
      rw [← DiGraph.attr_isSome] at h
      unfold DiGraph.attr at h
      cases hx : g.nodes.find? (fun e => e.1 == n) with
      | none => rw [hx] at h; cases h
      | some x => rfl
    · rfl
  · rename_i h
    unfold DiGraph.attr
    simp only [List.find?_append, List.find?_cons, List.find?_nil]
    split
    · rename_i e
      rw [beq_iff_eq] at e
      subst e
      have hn : g.nodes.find? (fun e => e.1 == n) = none := by
        rw [List.find?_eq_none]
        intro x hx hxe
        exact h (List.any_eq_true.2 ⟨x, hx, hxe⟩)
      rw [hn]; simp
    · rename_i e
      have : n ≠ m := by simpa using e
      rw [if_neg this]
      cases g.nodes.find? (fun e => e.1 == m) <;> rfl

theorem DiGraph.addEdge_attr (g : DiGraph) (u v m : Text) :
    (g.addEdge u v).attr m = if u = m ∨ v = m then some ((g.attr m).getD none) else g.attr m := by
  have h0 : (g.addEdge u v).attr m = ((g.touch u).touch v).attr m := by
    unfold DiGraph.addEdge DiGraph.attr
    simp only []
    split <;> rfl
  rw [h0, DiGraph.attr_touch, DiGraph.attr_touch]
  by_cases hu : u = m <;> by_cases hv : v = m <;> simp [hu, hv]

theorem foldl_addEdge_edges (u : Text) (cs : List HashValue) (g : DiGraph) (x : Text × Text) :
    x ∈ (cs.foldl (fun g c => g.addEdge u (hashToName c)) g).edges ↔
      x ∈ g.edges ∨ ∃ c ∈ cs, x = (u, hashToName c) := by
  induction cs generalizing g with
  | nil => simp
  | cons c cs ih =>
    rw [List.foldl_cons, ih, DiGraph.mem_addEdge_edges]
    constructor
    · rintro ((h | h) | ⟨d, hd, h⟩)
      · exact .inl h
      · exact .inr ⟨c, List.mem_cons_self, h⟩
      · exact .inr ⟨d, List.mem_cons_of_mem _ hd, h⟩
    · rintro (h | ⟨d, hd, h⟩)
      · exact .inl (.inl h)
      · rcases List.mem_cons.1 hd with rfl | hd
        · exact .inl (.inr h)
        · exact .inr ⟨d, hd, h⟩

theorem foldl_addEdge_attr (u : Text) (cs : List HashValue) (g : DiGraph) (m : Text) (hu : (g.attr u).isSome) :
    (cs.foldl (fun g c => g.addEdge u (hashToName c)) g).attr m =
      if ∃ c ∈ cs, hashToName c = m then some ((g.attr m).getD none) else g.attr m := by
  induction cs generalizing g with
  | nil => simp
  | cons c cs ih =>
    have hu' : ((g.addEdge u (hashToName c)).attr u).isSome := by rw [DiGraph.addEdge_attr]; simp
    rw [List.foldl_cons, ih _ hu', DiGraph.addEdge_attr]
    have hself : u = m → some ((g.attr m).getD none) = g.attr m := by
      intro e
      subst e
      obtain ⟨a, ha⟩ := Option.isSome_iff_exists.1 hu
      rw [ha]; rfl
    by_cases h1 : ∃ d ∈ cs, hashToName d = m
    · have h2 : ∃ d ∈ c :: cs, hashToName d = m := by
        obtain ⟨d, hd, h⟩ := h1
        exact ⟨d, List.mem_cons_of_mem _ hd, h⟩
      rw [if_pos h1, if_pos h2]
      split <;> simp
    · rw [if_neg h1]
      by_cases h3 : hashToName c = m
      · rw [if_pos (.inr h3), if_pos ⟨c, List.mem_cons_self, h3⟩]
      · have h2 : ¬ ∃ d ∈ c :: cs, hashToName d = m := by
          rintro ⟨d, hd, h⟩
          rcases List.mem_cons.1 hd with rfl | hd
          · exact h3 h
          · exact h1 ⟨d, hd, h⟩
        rw [if_neg h2]
        split
        · rename_i h
          exact hself (h.resolve_right h3)
        · rfl

theorem DiGraph.addEntry_edges (g : DiGraph) (e : EntryRecord) (x : Text × Text) :
    x ∈ (g.addEntry e).edges ↔ x ∈ g.edges ∨ ∃ c ∈ e.children, x = (hashToName e.parent, hashToName c) := by
  unfold DiGraph.addEntry
  rw [foldl_addEdge_edges, DiGraph.addNode_edges]

theorem DiGraph.addEntry_attr (g : DiGraph) (e : EntryRecord) (m : Text) :
    (g.addEntry e).attr m =
      if hashToName e.parent = m then some (some ⟨e.isData, e.parentName⟩)
      else if ∃ c ∈ e.children, hashToName c = m then some ((g.attr m).getD none) else g.attr m := by
  unfold DiGraph.addEntry
  rw [foldl_addEdge_attr]
  · rw [DiGraph.attr_addNode]
    by_cases h : hashToName e.parent = m
    · simp [h]
    · rw [if_neg h, if_neg h]
  · rw [DiGraph.attr_addNode]; simp

theorem foldl_addEntry_edges (l : List EntryRecord) (g : DiGraph) (x : Text × Text) :
    x ∈ (l.foldl DiGraph.addEntry g).edges ↔
      x ∈ g.edges ∨ ∃ e ∈ l, ∃ c ∈ e.children, x = (hashToName e.parent, hashToName c) := by
  induction l generalizing g with
  | nil => simp
  | cons e l ih =>
    rw [List.foldl_cons, ih, DiGraph.addEntry_edges]
    constructor
    · rintro ((h | h) | ⟨d, hd, h⟩)
      · exact .inl h
      · exact .inr ⟨e, List.mem_cons_self, h⟩
      · exact .inr ⟨d, List.mem_cons_of_mem _ hd, h⟩
    · rintro (h | ⟨d, hd, h⟩)
      · exact .inl (.inl h)
      · rcases List.mem_cons.1 hd with rfl | hd
        · exact .inl (.inr h)
        · exact .inr ⟨d, hd, h⟩

/-- A node is there iff it is the name of an entry or of a child. -/
theorem foldl_addEntry_isSome (l : List EntryRecord) (g : DiGraph) (m : Text) :
    ((l.foldl DiGraph.addEntry g).attr m).isSome = true ↔
      (g.attr m).isSome = true ∨ ∃ e ∈ l, hashToName e.parent = m ∨ ∃ c ∈ e.children, hashToName c = m := by
  induction l generalizing g with
  | nil => simp
  | cons e l ih =>
    rw [List.foldl_cons, ih, DiGraph.addEntry_attr]
    constructor
    · rintro (h | ⟨d, hd, h⟩)
      · split at h
        · rename_i h1
          exact .inr ⟨e, List.mem_cons_self, .inl h1⟩
        · split at h
          · rename_i h2
            exact .inr ⟨e, List.mem_cons_self, .inr h2⟩
          · exact .inl h
      · exact .inr ⟨d, List.mem_cons_of_mem _ hd, h⟩
    · rintro (h | ⟨d, hd, h⟩)
      · left
        split
        · rfl
        · split
          · rfl
          · exact h
      · rcases List.mem_cons.1 hd with rfl | hd
        · left
          rcases h with h | h
          · rw [if_pos h]; rfl
          · split
            · rfl
            · first | rfl | (rw [if_pos h]; rfl)
        · exact .inr ⟨d, hd, h⟩

/-- The attributes of a node are those of some entry of that name; a node has none iff no entry has its name. -/
theorem foldl_addEntry_attr (l : List EntryRecord) (g : DiGraph) (m : Text) :
    (∀ a, (l.foldl DiGraph.addEntry g).attr m = some (some a) →
      g.attr m = some (some a) ∨ ∃ e ∈ l, hashToName e.parent = m ∧ a = ⟨e.isData, e.parentName⟩) ∧
    ((l.foldl DiGraph.addEntry g).attr m = some none →
      (∀ e ∈ l, hashToName e.parent ≠ m) ∧ (∀ a, g.attr m ≠ some (some a))) := by
  induction l generalizing g with
  | nil =>
    refine ⟨fun a h => .inl h, fun h => ⟨fun e he => absurd he (by simp), fun a ha => ?_⟩⟩
    rw [List.foldl_nil] at h
    rw [h] at ha; cases ha
  | cons e l ih =>
    rw [List.foldl_cons]
    obtain ⟨i1, i2⟩ := ih (g.addEntry e)
    constructor
    · intro a h
      rcases i1 a h with h1 | ⟨d, hd, h1⟩
      · rw [DiGraph.addEntry_attr] at h1
        split at h1
        · rename_i hp
          cases h1
          exact .inr ⟨e, List.mem_cons_self, hp, rfl⟩
        · split at h1
          · left
            cases hg : g.attr m with
            | none => rw [hg] at h1; cases h1
            | some x =>
              rw [hg] at h1
              injection h1 with h1
              rw [← h1]; rfl
          · exact .inl h1
      · exact .inr ⟨d, List.mem_cons_of_mem _ hd, h1⟩
    · intro h
      obtain ⟨j1, j2⟩ := i2 h
      have hp : hashToName e.parent ≠ m := by
        intro hp
        refine j2 ⟨e.isData, e.parentName⟩ ?_
        rw [DiGraph.addEntry_attr, if_pos hp]
      refine ⟨?_, ?_⟩
      · intro d hd
        rcases List.mem_cons.1 hd with rfl | hd
        · exact hp
        · exact j1 d hd
      · intro a ha
        refine j2 a ?_
        rw [DiGraph.addEntry_attr, if_neg hp, ha]
        split <;> rfl

/-! ## Distinct node names -/

theorem DiGraph.touch_nodup {g : DiGraph} (h : g.names.Nodup) (n : Text) : (g.touch n).names.Nodup := by
  unfold DiGraph.touch
  split
  · exact h
  · rename_i hn
    rw [DiGraph.any_names] at hn
    unfold DiGraph.names at *
    simp only [List.map_append, List.map_cons, List.map_nil]
    rw [List.nodup_append]
    refine ⟨h, by simp, ?_⟩
    intro a ha b hb
    rw [List.mem_singleton] at hb
    subst hb
    rintro rfl
    exact hn ha

theorem DiGraph.addNode_nodup {g : DiGraph} (h : g.names.Nodup) (n : Text) (a : NodeAttrs) : (g.addNode n a).names.Nodup := by
  unfold DiGraph.addNode
  split
  · have : (g.nodes.map (fun e => if e.1 == n then (n, some a) else e)).map (·.1) = g.nodes.map (·.1) := by
      rw [List.map_map]
      refine List.map_congr_left ?_
      intro e _
      simp only [Function.comp]
      split
      · rename_i he
        exact (beq_iff_eq.1 he).symm
      · rfl
    unfold DiGraph.names at *
    simp only []
    rw [this]
    exact h
  · rename_i hn
    rw [DiGraph.any_names] at hn
    unfold DiGraph.names at *
    simp only [List.map_append, List.map_cons, List.map_nil]
    rw [List.nodup_append]
    refine ⟨h, by simp, ?_⟩
    intro a ha b hb
    rw [List.mem_singleton] at hb
    subst hb
    rintro rfl
    exact hn ha

theorem DiGraph.addEdge_nodup {g : DiGraph} (h : g.names.Nodup) (u v : Text) : (g.addEdge u v).names.Nodup := by
  have h2 := DiGraph.touch_nodup (DiGraph.touch_nodup h u) v
  unfold DiGraph.addEdge
  simp only []
  split <;> exact h2

theorem DiGraph.addEntry_nodup {g : DiGraph} (h : g.names.Nodup) (e : EntryRecord) : (g.addEntry e).names.Nodup := by
  unfold DiGraph.addEntry
  generalize hg : g.addNode (hashToName e.parent) ⟨e.isData, e.parentName⟩ = g'
  have h' : g'.names.Nodup := hg ▸ DiGraph.addNode_nodup h _ _
  clear hg
  generalize e.children = cs
  induction cs generalizing g' with
  | nil => exact h'
  | cons c cs ih => rw [List.foldl_cons]; exact ih _ (DiGraph.addEdge_nodup h' _ _)

theorem foldl_addEntry_nodup (l : List EntryRecord) {g : DiGraph} (h : g.names.Nodup) :
    (l.foldl DiGraph.addEntry g).names.Nodup := by
  induction l generalizing g with
  | nil => exact h
  | cons e l ih => rw [List.foldl_cons]; exact ih (DiGraph.addEntry_nodup h e)

theorem DiGraph.attr_mem {g : DiGraph} (h : g.names.Nodup) (m : Text) (a : Option NodeAttrs) :
    (m, a) ∈ g.nodes ↔ g.attr m = some a := by
  unfold DiGraph.attr DiGraph.names at *
  generalize g.nodes = l at *
  induction l with
  | nil => simp
  | cons x l ih =>
    rw [List.map_cons, List.nodup_cons] at h
    rw [List.find?_cons, List.mem_cons]
    by_cases hx : x.1 == m
    · simp only [hx]
      rw [beq_iff_eq] at hx
      simp only [Option.map_some, Option.some.injEq]
      constructor
      · rintro (h1 | h1)
        · rw [← h1]
        · exact absurd (List.mem_map.2 ⟨_, h1, hx.symm ▸ rfl⟩) h.1
      · intro h1
        left
        rw [← h1, ← hx]
    · simp only [hx]
      rw [← ih h.2]
      constructor
      · rintro (h1 | h1)
        · rw [← h1] at hx
          simp at hx
        · exact h1
      · exact .inr

/-! ## Dictionaries -/

theorem mem_dictSet {P : Prims} {d : List (HashValue × EntryRecord)} {k : HashValue} {v : EntryRecord}
    (hd : ∀ x ∈ d, x.1.dictEq P x.2.parent = true) (e : EntryRecord) :
    e ∈ (dictSet P d k v).map (·.2) ↔ e = v ∨ (e ∈ d.map (·.2) ∧ e.parent.dictEq P k = false) := by
  have hk : ∀ x ∈ d, k.dictEq P x.1 = x.2.parent.dictEq P k := by
    intro x hx
    rw [HashValue.dictEq_congr (hd x hx)]
    by_cases h : k.dictEq P x.2.parent = true
    · rw [h, HashValue.dictEq_symm h]
    · by_cases h2 : x.2.parent.dictEq P k = true
      · exact absurd (HashValue.dictEq_symm h2) h
      · simp only [Bool.not_eq_true] at h h2
        rw [h, h2]
  unfold dictSet
  split
  · rename_i h
    rw [List.any_eq_true] at h
    obtain ⟨x0, hx0, hkx0⟩ := h
    simp only [List.mem_map]
    constructor
    · rintro ⟨y, ⟨x, hx, rfl⟩, rfl⟩
      by_cases hkx : k.dictEq P x.1 = true
      · rw [if_pos hkx]; exact .inl rfl
      · rw [if_neg hkx]
        refine .inr ⟨⟨x, hx, rfl⟩, ?_⟩
        rw [← hk x hx]
        simpa using hkx
    · rintro (rfl | ⟨⟨x, hx, rfl⟩, hne⟩)
      · exact ⟨(x0.1, e), ⟨x0, hx0, by rw [if_pos hkx0]⟩, rfl⟩
      · refine ⟨x, ⟨x, hx, ?_⟩, rfl⟩
        rw [if_neg]
        rw [hk x hx, hne]
        simp
  · rename_i h
    simp only [List.map_append, List.map_cons, List.map_nil, List.mem_append, List.mem_singleton]
    constructor
    · rintro (h1 | h1)
      · refine .inr ⟨h1, ?_⟩
        obtain ⟨x, hx, rfl⟩ := List.mem_map.1 h1
        rw [← hk x hx]
        rw [Bool.eq_false_iff]
        intro hc
        exact h (List.any_eq_true.2 ⟨x, hx, hc⟩)
      · exact .inl h1
    · rintro (h1 | h1)
      · exact .inr h1
      · exact .inl h1.1

theorem dictSet_keys {P : Prims} {d : List (HashValue × EntryRecord)} {k : HashValue} {v : EntryRecord}
    (hd : ∀ x ∈ d, x.1.dictEq P x.2.parent = true) (hv : v.parent = k) :
    ∀ x ∈ dictSet P d k v, x.1.dictEq P x.2.parent = true := by
  unfold dictSet
  intro x hx
  split at hx
  · obtain ⟨y, hy, rfl⟩ := List.mem_map.1 hx
    by_cases hky : k.dictEq P y.1 = true
    · rw [if_pos hky]
      simp only []
      rw [hv]
      exact HashValue.dictEq_symm hky
    · rw [if_neg hky]
      exact hd y hy
  · rcases List.mem_append.1 hx with hx | hx
    · exact hd x hx
    · rw [List.mem_singleton] at hx
      rw [hx]
      simp only []
      rw [hv]
      exact HashValue.dictEq_refl P k

/-! ## Pointers of a node -/

private theorem hashValues_fold (gs : List HashGroup) (acc : List HashValue) :
    gs.foldlM appendPointers acc =
    if gs.any (fun g => g.pointers.isNone) then .error .typeError
    else .ok (acc ++ gs.flatMap (fun g => g.pointers.getD [])) := by
  induction gs generalizing acc with
  | nil => simp [pure, Except.pure]
  | cons g gs ih =>
    rw [List.foldlM_cons]
    cases hg : g.pointers with
    | none => simp only [List.any_cons, appendPointers, hg]; rfl
    | some l =>
      simp only [appendPointers, hg]
      rw [ok_bind, ih]
      simp only [List.any_cons, hg, Option.isNone_some, Bool.false_or, List.flatMap_cons, Option.getD_some, List.append_assoc]

theorem Node.hashValues_eq (n : Node) :
    n.hashValues = if n.hashGroups.any (fun g => g.pointers.isNone) then .error .typeError
      else .ok (n.hashGroups.flatMap (fun g => g.pointers.getD [])) := by
  unfold Node.hashValues
  rw [hashValues_fold]
  rfl

end Ccnpy
