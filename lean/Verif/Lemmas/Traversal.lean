import Verif.Model.Traversal
import Verif.Lemmas.PyS
import Verif.Props.FlicProps
import Verif.Props.SchemaProps

/-!
# The traversal, step by step
-/

namespace Ccnpy

/-! ## The iterator -/

/-- What an iterator has still to yield. -/
def NodeIterator.left (it : NodeIterator) : List HashIteratorValue :=
  match it.groups[it.groupIndex]? with
  | none => []
  | some g => g.values.drop it.ptrIndex ++ (it.groups.drop (it.groupIndex + 1)).flatMap HashGroup.values

theorem groupValues_length (nc : Nat) (st : Option Nat) : ∀ (l : List HashValue) (i : Nat),
    (groupValues nc st i l).length = l.length
  | [], _ => rfl
  | _ :: l, i => by simp [groupValues, groupValues_length nc st l (i + 1)]

theorem groupValues_get (nc : Nat) (st : Option Nat) : ∀ (l : List HashValue) (i j : Nat) (h : j < l.length),
    (groupValues nc st i l)[j]? = some ⟨nc, l[j], st.map (· + (i + j))⟩
  | h :: l, i, 0, _ => by simp [groupValues]
  | h :: l, i, j + 1, hj => by
    simp only [groupValues, List.getElem?_cons_succ, List.getElem_cons_succ]
    rw [groupValues_get nc st l (i + 1) j (by simpa using hj)]
    simp only [Nat.add_assoc, Nat.add_comm 1 j]

theorem flatMap_drop_left (gs : List HashGroup) (i : Nat) :
    NodeIterator.left ⟨gs, i, 0⟩ = (gs.drop i).flatMap HashGroup.values := by
  unfold NodeIterator.left
  dsimp only
  by_cases hi : i < gs.length
  · rw [List.getElem?_eq_getElem hi]
    have := List.drop_eq_getElem_cons hi
    rw [this]
    simp only [List.drop_zero, List.flatMap_cons]
  · have : gs.drop i = [] := List.drop_eq_nil_of_le (by omega)
    rw [List.getElem?_eq_none (by omega), this]
    rfl

theorem HashGroup.values_length {g : HashGroup} {ps : List HashValue} (h : g.pointers = some ps) :
    g.values.length ≤ ps.length := by
  unfold HashGroup.values
  rw [h]
  cases g.groupData with
  | none => simp
  | some d => simp [groupValues_length]

theorem NodeIterator.next_left (it : NodeIterator) :
    (it.next = .ok none → it.left = []) ∧
    ∀ v it', it.next = .ok (some (v, it')) → it.left = v :: it'.left := by
  rw [NodeIterator.next]
  split
  · rename_i h
    refine ⟨fun _ => ?_, fun _ _ h => by cases h⟩
    unfold NodeIterator.left
    rw [List.getElem?_eq_none (by omega)]
  · rename_i h
    have hg : it.groups[it.groupIndex]? = some it.groups[it.groupIndex] := List.getElem?_eq_getElem (by omega)
    dsimp only
    split
    · exact ⟨by simp, by simp⟩
    · rename_i ps hps
      have hlen := HashGroup.values_length hps
      split
      · rename_i hge
        have ih := NodeIterator.next_left { it with ptrIndex := 0, groupIndex := it.groupIndex + 1 }
        rw [flatMap_drop_left] at ih
        have : it.left = (it.groups.drop (it.groupIndex + 1)).flatMap HashGroup.values := by
          unfold NodeIterator.left
          rw [hg]
          dsimp only
          rw [List.drop_eq_nil_of_le (by omega), List.nil_append]
        rw [this]
        exact ih
      · rename_i hlt
        split
        · exact ⟨by simp, by simp⟩
        · rename_i gd hgd
          split
          · exact ⟨by simp, by simp⟩
          · rename_i nc hnc
            refine ⟨by simp, fun v it' h => ?_⟩
            cases Except.ok.inj h
            have hv : it.groups[it.groupIndex].values = groupValues nc gd.startSegmentId 0 ps := by
              simp [HashGroup.values, hgd, hps, hnc]
            unfold NodeIterator.left NodeIterator.segmentId
            dsimp only
            rw [hg]
            dsimp only
            rw [hv, hgd]
            have hl : it.ptrIndex < (groupValues nc gd.startSegmentId 0 ps).length := by
              rw [groupValues_length]; omega
            rw [List.drop_eq_getElem_cons hl]
            have := groupValues_get nc gd.startSegmentId ps 0 it.ptrIndex (by omega)
            rw [List.getElem?_eq_getElem hl, Option.some.injEq] at this
            rw [this, Nat.zero_add]
            dsimp only
            cases gd.startSegmentId <;> rfl
termination_by it.groups.length - it.groupIndex
decreasing_by simp_wf; omega

/-- An iterator that stops without an exception has yielded the pointers of the groups. -/
theorem NodeIterator.Run.left {it : NodeIterator} {xs : List HashIteratorValue} (h : it.Run xs none) : it.left = xs := by
  generalize hr : (none : Option PyErr) = r at h
  induction h with
  | stop h => exact (NodeIterator.next_left _).1 h
  | raise => cases hr
  | yield h _ ih => rw [(NodeIterator.next_left _).2 _ _ h, ih hr]

theorem Node.iter_left (n : Node) : n.iter.left = n.hashGroups.flatMap HashGroup.values := by
  unfold Node.iter
  rw [flatMap_drop_left, List.drop_zero]

/-! ## The loop over the children -/

/-- The loop of `_visit_children` over a list of pointers. -/
def visitAll (T : TravEnv) (visit : Packet → PyS TState Unit) (nc : NcCache) : List HashIteratorValue → PyS TState Unit
  | [] => pure ()
  | v :: vs => do
    let p ← PyS.lift (T.fetch nc v)
    PyS.lift (validatePacket T.prims T.keystore p)
    visit p
    visitAll T visit nc vs

theorem visitLoop_run {T : TravEnv} {visit : Packet → PyS TState Unit} {nc : NcCache} {it : NodeIterator}
    {xs : List HashIteratorValue} {r : Option PyErr} (h : it.Run xs r) (hr : r = none) (fuel : Nat) (hf : xs.length ≤ fuel) :
    T.visitLoop visit nc fuel it = visitAll T visit nc xs := by
  induction h generalizing fuel with
  | stop h =>
    funext s
    unfold TravEnv.visitLoop visitAll
    rw [PyS.liftBind_run h]
  | raise => cases hr
  | yield h _ ih =>
    cases fuel with
    | zero => simp at hf
    | succ fuel =>
      funext s
      unfold TravEnv.visitLoop visitAll
      rw [PyS.liftBind_run h]
      dsimp only
      rw [ih hr fuel (by simpa using hf)]

theorem visitLoop_raises {T : TravEnv} {visit : Packet → PyS TState Unit} {nc : NcCache} {it : NodeIterator}
    {xs : List HashIteratorValue} {e : PyErr} (h : it.Run xs (some e)) (fuel : Nat) (s s' : TState) :
    T.visitLoop visit nc fuel it s ≠ (.ok (), s') := by
  generalize hr : some e = r at h
  induction h generalizing fuel s with
  | stop => cases hr
  | raise h =>
    unfold TravEnv.visitLoop
    intro hok
    obtain ⟨x, hx, _⟩ := PyS.liftBind_ok hok
    rw [h] at hx
    cases hx
  | yield h _ ih =>
    unfold TravEnv.visitLoop
    rw [PyS.liftBind_run h]
    cases fuel with
    | zero => simp [PyS.lift]
    | succ fuel =>
      intro hok
      obtain ⟨q, hq, hok⟩ := PyS.liftBind_ok hok
      obtain ⟨u, hqv, hok⟩ := PyS.liftBind_ok hok
      obtain ⟨u', s2, hvis, hok⟩ := PyS.bind_ok hok
      exact ih fuel s2 hr hok

theorem visitLoop_ok {T : TravEnv} {visit : Packet → PyS TState Unit} {nc : NcCache} (fuel : Nat) {it : NodeIterator}
    {s s' : TState} (h : T.visitLoop visit nc fuel it s = (.ok (), s')) :
    visitAll T visit nc it.left s = (.ok (), s') := by
  induction fuel generalizing it s with
  | zero =>
    unfold TravEnv.visitLoop at h
    obtain ⟨x, hx, h⟩ := PyS.liftBind_ok h
    cases x with
    | none => rw [it.next_left.1 hx]; exact h
    | some x => cases h
  | succ fuel ih =>
    unfold TravEnv.visitLoop at h
    obtain ⟨x, hx, h⟩ := PyS.liftBind_ok h
    cases x with
    | none => rw [it.next_left.1 hx]; exact h
    | some x =>
      obtain ⟨v, it'⟩ := x
      rw [it.next_left.2 _ _ hx]
      obtain ⟨p, hp, h⟩ := PyS.liftBind_ok h
      obtain ⟨u, hv, h⟩ := PyS.liftBind_ok h
      obtain ⟨u', m, hvis, h⟩ := PyS.bind_ok h
      unfold visitAll
      rw [PyS.liftBind_run hp, PyS.liftBind_run hv, PyS.bind_of_ok hvis]
      exact ih h

theorem reportError_ok {m : Manifest} {x : PyS TState Unit} {s s' : TState} (h : reportError m x s = (.ok (), s')) :
    x s = (.ok (), s') := by
  unfold reportError at h
  split at h
  · rename_i hx
    rw [hx]
    exact h
  · injection h with h _
    obtain ⟨_, _, h⟩ := bind_eq_ok.mp h
    cases h

theorem reportError_of_ok {m : Manifest} {x : PyS TState Unit} {s s' : TState} (h : x s = (.ok (), s')) :
    reportError m x s = (.ok (), s') := by
  unfold reportError
  rw [h]

theorem reportError_shown {m : Manifest} (h : m.display = .ok ()) (x : PyS TState Unit) : reportError m x = x := by
  funext s
  unfold reportError
  rw [h]
  split <;> rename_i hx <;> rw [hx] <;> rfl

/-! ## The dictionary of name constructors -/

theorem NcCache.update_append (c : NcCache) : ∀ a b : List NcDef,
    NcCache.update c (a ++ b) = (do NcCache.update (← NcCache.update c a) b) := by
  intro a b
  induction a generalizing c with
  | nil => rfl
  | cons d a ih =>
    simp only [List.cons_append, NcCache.update]
    cases d.announce with
    | error e => rfl
    | ok _ =>
      cases SchemaImpl.ofNcDef d with
      | error e => rfl
      | ok i => simp only [ok_bind, ih]

theorem SchemaImpl.ofNcDef_id {d : NcDef} {i : SchemaImpl} (h : SchemaImpl.ofNcDef d = .ok i) : d.ncId = some i.ncId := by
  unfold SchemaImpl.ofNcDef at h
  split at h
  · cases h
  · rename_i id hid
    split at h
    · cases h
    · rename_i sch _
      rw [hid, SchemaImpl.create_ok h]

theorem NcCache.update_find (c c' : NcCache) (ds : List NcDef) (h : NcCache.update c ds = .ok c') (id : Nat) :
    (∀ d, (ds.filter (fun d => d.ncId == some id)).getLast? = some d → NcCache.find c' id = SchemaImpl.ofNcDef d) ∧
    ((ds.filter (fun d => d.ncId == some id)) = [] → NcCache.find c' id = NcCache.find c id) := by
  induction ds generalizing c with
  | nil =>
    cases h
    exact ⟨by simp, fun _ => rfl⟩
  | cons d ds ih =>
    unfold NcCache.update at h
    obtain ⟨_, _, h⟩ := bind_eq_ok.mp h
    obtain ⟨i, hi, h⟩ := bind_eq_ok.mp h
    have ih := ih _ h
    have hid := SchemaImpl.ofNcDef_id hi
    by_cases hc : d.ncId == some id
    · rw [List.filter_cons_of_pos (by simpa using hc)]
      refine ⟨fun x hx => ?_, by simp⟩
      cases hl : ds.filter (fun d => d.ncId == some id) with
      | nil =>
        rw [hl] at hx
        simp only [List.getLast?_singleton, Option.some.injEq] at hx
        subst hx
        rw [ih.2 hl, hi]
        have : i.ncId = id := by simpa [hid] using hc
        simp [NcCache.find, this]
      | cons y ys =>
        rw [hl, List.getLast?_cons_cons] at hx
        exact ih.1 x (by rw [hl]; exact hx)
    · rw [List.filter_cons_of_neg (by simpa using hc)]
      refine ⟨ih.1, fun hl => ?_⟩
      rw [ih.2 hl]
      have : i.ncId ≠ id := by rintro rfl; exact hc (by simp [hid])
      simp [NcCache.find, this]

/-- The definitions in a node. -/
def Node.defs (n : Node) : List NcDef :=
  match n.nodeData with
  | none => []
  | some d => d.ncDefs

theorem updateNcCache_eq (c : NcCache) (n : Node) : updateNcCache c n = NcCache.update c n.defs := by
  unfold updateNcCache Node.defs
  cases n.nodeData with
  | none => rfl
  | some d =>
    dsimp only
    cases d.ncDefs with
    | nil => rfl
    | cons x xs => rfl

end Ccnpy
