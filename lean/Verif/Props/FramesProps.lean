import Verif.Model.Frames
import Verif.Props.EndToEndProps
import Verif.Lemmas.Nameless

/-!
# C90: how deep the calls of a traversal nest
-/

namespace Ccnpy

open Spec

/-! ## Specification -/

/-- The number of groups at the head of the list whose lists of pointers are empty. -/
def Spec.emptyRun (gs : List HashGroup) : Nat := (gs.takeWhile (fun g => g.pointers == some [])).length

/-- The longest series made of a group and the empty groups after it. -/
def Spec.gap : List HashGroup → Nat
  | [] => 0
  | _ :: gs => max (1 + Spec.emptyRun gs) (Spec.gap gs)

/-- The number of groups that an iterator passes before it yields or stops. -/
def Spec.skipped (it : NodeIterator) : Nat :=
  match it.groups.drop it.groupIndex with
  | [] => 0
  | g :: gs =>
    match g.pointers with
    | none => 0
    | some ps => if ps.length ≤ it.ptrIndex then 1 + Spec.emptyRun gs else 0

/-- The nesting of calls needed for the objects: one for a data object; for a manifest two, and then enough for its pointers and for
the objects they lead to. -/
def Spec.Visited.frames : Spec.Visited → Nat
  | .nil => 0
  | .data _ _ rest => max 1 rest.frames
  | .manifest _ node kids rest => max (2 + max (1 + Spec.gap node.hashGroups) kids.frames) rest.frames

/-- The traversal returns what `Spec.ReturnedBy` says, with room for so many nested calls. -/
def Spec.ReturnedIn (E : Env) (o : TreeOptions) (out : List Packet) (rd : Reader) (ks : Option Keystore) (room : Nat)
    (hv : HashValue) (file : Bytes) : Prop :=
  ∃ s, TravEnv.traverseIn ⟨E.prims, rd, ks⟩ room o.name (some hv) (TState.new ks) = (.ok (), s) ∧
    s.writes.flatten = file ∧ s.writes.map some = (Spec.dataOf out).map (·.body.payload) ∧ s.count = out.length

/-! ## The iterator -/

theorem emptyRun_cons (g : HashGroup) (gs : List HashGroup) :
    Spec.emptyRun (g :: gs) = if g.pointers = some [] then 1 + Spec.emptyRun gs else 0 := by
  unfold Spec.emptyRun
  rw [List.takeWhile_cons]
  by_cases h : g.pointers = some []
  · simp [h, Nat.add_comm]
  · simp [h]

theorem emptyRun_le_gap (gs : List HashGroup) : Spec.emptyRun gs ≤ Spec.gap gs := by
  cases gs with
  | nil => simp [Spec.emptyRun, Spec.gap]
  | cons g gs =>
    rw [emptyRun_cons, Spec.gap]
    split <;> omega

theorem emptyRun_le (gs : List HashGroup) : Spec.emptyRun gs ≤ gs.length := by
  unfold Spec.emptyRun
  exact (List.takeWhile_sublist _).length_le

theorem gap_le (gs : List HashGroup) : Spec.gap gs ≤ gs.length := by
  induction gs with
  | nil => simp [Spec.gap]
  | cons g gs ih =>
    have := emptyRun_le gs
    simp only [Spec.gap, List.length_cons]
    omega

theorem gap_pos {gs : List HashGroup} (h : gs ≠ []) : 1 ≤ Spec.gap gs := by
  cases gs with
  | nil => exact absurd rfl h
  | cons g gs => simp only [Spec.gap]; omega

theorem gap_drop (gs : List HashGroup) (n : Nat) : Spec.gap (gs.drop n) ≤ Spec.gap gs := by
  induction gs generalizing n with
  | nil => simp
  | cons g gs ih =>
    cases n with
    | zero => exact Nat.le_refl _
    | succ n =>
      have := ih n
      simp only [List.drop_succ_cons, Spec.gap]
      omega

theorem skipped_le_gap (it : NodeIterator) : Spec.skipped it ≤ Spec.gap (it.groups.drop it.groupIndex) := by
  unfold Spec.skipped
  split
  · omega
  · rename_i h
    rw [h]
    simp only [Spec.gap]
    split
    · omega
    · split <;> omega

theorem skipped_start (gs : List HashGroup) (i : Nat) : Spec.skipped ⟨gs, i, 0⟩ = Spec.emptyRun (gs.drop i) := by
  unfold Spec.skipped
  split
  · rename_i h; simp only at h; rw [h]; rfl
  · rename_i g gs' h
    simp only at h
    rw [h, emptyRun_cons]
    cases hp : g.pointers with
    | none => simp
    | some ps => cases ps <;> simp

/-- C90: one step of the iterator calls itself once for every group it passes: with room for more calls than that it does what it
always does, with room for fewer it raises RecursionError. -/
theorem C90_next (it : NodeIterator) (room : Nat) :
    it.nextIn room = if room ≤ Spec.skipped it then .error .nonTermination else it.next := by
  induction room generalizing it with
  | zero => simp [NodeIterator.nextIn]
  | succ room ih =>
    obtain ⟨gs, i, j⟩ := it
    rw [NodeIterator.nextIn, NodeIterator.next]
    generalize hsk : Spec.skipped ⟨gs, i, j⟩ = k
    simp only [Spec.skipped] at hsk
    by_cases hi : i ≥ gs.length
    · rw [List.drop_eq_nil_of_le hi] at hsk
      dsimp only at hsk
      rw [dif_pos hi, dif_pos hi, if_neg (by omega)]
    · rw [List.drop_eq_getElem_cons (by omega)] at hsk
      rw [dif_neg hi, dif_neg hi]
      dsimp only at hsk ⊢
      cases hp : gs[i].pointers with
      | none =>
        rw [hp] at hsk
        subst hsk
        simp
      | some ps =>
        rw [hp] at hsk
        dsimp only at hsk ⊢
        by_cases hj : j ≥ ps.length
        · rw [if_pos (show ps.length ≤ j from hj)] at hsk
          rw [dif_pos hj, dif_pos hj, ih, skipped_start]
          by_cases hr : room ≤ Spec.emptyRun (gs.drop (i + 1))
          · rw [if_pos hr, if_pos (by omega)]
          · rw [if_neg hr, if_neg (by omega)]
        · rw [if_neg (show ¬ ps.length ≤ j from hj)] at hsk
          rw [dif_neg hj, dif_neg hj, if_neg (by omega)]
          cases gs[i].groupData with
          | none => rfl
          | some gd => dsimp only; cases gd.ncId <;> rfl

/-- A step leads to a later position of the same groups. -/
theorem next_later {it it' : NodeIterator} {v : HashIteratorValue} (h : it.next = .ok (some (v, it'))) :
    it'.groups = it.groups ∧ it.groupIndex ≤ it'.groupIndex := by
  unfold NodeIterator.next at h
  split at h
  · cases h
  · dsimp only at h
    split at h
    · cases h
    · split at h
      · obtain ⟨h1, h2⟩ := next_later h
        exact ⟨h1, by simp only at h2; omega⟩
      · split at h
        · cases h
        · split at h
          · cases h
          · cases h
            exact ⟨rfl, Nat.le_refl _⟩
termination_by it.groups.length - it.groupIndex
decreasing_by omega

/-- What one step passes and what comes later make up the gap. -/
theorem gap_step {it : NodeIterator} :
    (it.next = .ok none → Spec.gap (it.groups.drop it.groupIndex) ≤ Spec.skipped it) ∧
    ∀ v it', it.next = .ok (some (v, it')) → Spec.gap (it.groups.drop it.groupIndex) ≤
      max (Spec.skipped it) (Spec.gap (it'.groups.drop it'.groupIndex)) := by
  obtain ⟨gs, i, j⟩ := it
  rw [NodeIterator.next]
  generalize hsk : Spec.skipped ⟨gs, i, j⟩ = k
  simp only [Spec.skipped] at hsk
  by_cases hi : i ≥ gs.length
  · dsimp only
    rw [dif_pos hi, List.drop_eq_nil_of_le hi]
    exact ⟨fun _ => Nat.zero_le _, fun v it' h => by cases h⟩
  · rw [List.drop_eq_getElem_cons (by omega)] at hsk
    dsimp only at hsk ⊢
    rw [dif_neg hi, List.drop_eq_getElem_cons (by omega)]
    cases hp : gs[i].pointers with
    | none => exact ⟨fun h => (by cases h), fun v it' h => (by cases h)⟩
    | some ps =>
      rw [hp] at hsk
      dsimp only at hsk ⊢
      by_cases hj : j ≥ ps.length
      · rw [if_pos (show ps.length ≤ j from hj)] at hsk
        rw [dif_pos hj]
        have ih := gap_step (it := ⟨gs, i + 1, 0⟩)
        rw [skipped_start] at ih
        simp only [Spec.gap]
        refine ⟨fun h => ?_, fun v it' h => ?_⟩
        · have := ih.1 h
          simp only at this
          omega
        · have := ih.2 v it' h
          simp only at this
          omega
      · rw [dif_neg hj]
        refine ⟨fun h => ?_, fun v it' h => ?_⟩
        · split at h
          · cases h
          · split at h <;> cases h
        · split at h
          · cases h
          · split at h
            · cases h
            · cases h
              simp only
              rw [List.drop_eq_getElem_cons (l := gs) (i := i) (by omega)]
              omega
termination_by it.groups.length - it.groupIndex
decreasing_by omega

/-! ## The loop -/

theorem visitLoopIn_enough {T : TravEnv} {visit : Packet → PyS TState Unit} {nc : NcCache} {room : Nat} (fuel : Nat)
    {it : NodeIterator} (h : Spec.gap (it.groups.drop it.groupIndex) < room) :
    T.visitLoopIn visit nc room fuel it = T.visitLoop visit nc fuel it := by
  have hn : it.nextIn room = it.next := by
    rw [C90_next, if_neg]
    have := skipped_le_gap it
    omega
  induction fuel generalizing it with
  | zero =>
    unfold TravEnv.visitLoopIn TravEnv.visitLoop
    rw [hn]
    cases it.next with
    | error e => rfl
    | ok x =>
      cases x with
      | none => rfl
      | some x => rfl
  | succ fuel ih =>
    unfold TravEnv.visitLoopIn TravEnv.visitLoop
    rw [hn]
    cases hx : it.next with
    | error e => rfl
    | ok x =>
      cases x with
      | none => rfl
      | some x =>
        obtain ⟨v, it'⟩ := x
        obtain ⟨h1, h2⟩ := next_later hx
        have hd : Spec.gap (it'.groups.drop it'.groupIndex) < room := by
          have := gap_drop (it.groups.drop it.groupIndex) (it'.groupIndex - it.groupIndex)
          rw [List.drop_drop, show it.groupIndex + (it'.groupIndex - it.groupIndex) = it'.groupIndex by omega] at this
          rw [h1]
          omega
        have := ih hd (by
          rw [C90_next, if_neg]
          have := skipped_le_gap it'
          omega)
        funext s
        rw [PyS.liftBind_run rfl, PyS.liftBind_run rfl]
        dsimp only
        rw [this]

theorem visitLoopIn_ok {T : TravEnv} {visit : Packet → PyS TState Unit} {nc : NcCache} {room : Nat} {fuel : Nat}
    {it : NodeIterator} {s s' : TState} (h : T.visitLoopIn visit nc room fuel it s = (.ok (), s')) :
    Spec.gap (it.groups.drop it.groupIndex) < room := by
  induction fuel generalizing it s with
  | zero =>
    unfold TravEnv.visitLoopIn at h
    obtain ⟨x, hx, h⟩ := PyS.liftBind_ok h
    rw [C90_next] at hx
    split at hx
    · cases hx
    · cases x with
      | none =>
        have := gap_step.1 hx
        omega
      | some x =>
        obtain ⟨v, it'⟩ := x
        cases h
  | succ fuel ih =>
    unfold TravEnv.visitLoopIn at h
    obtain ⟨x, hx, h⟩ := PyS.liftBind_ok h
    rw [C90_next] at hx
    split at hx
    · cases hx
    · cases x with
      | none =>
        have := gap_step.1 hx
        omega
      | some x =>
        obtain ⟨v, it'⟩ := x
        dsimp only at h
        obtain ⟨p, _, h⟩ := PyS.liftBind_ok h
        obtain ⟨_, _, h⟩ := PyS.liftBind_ok h
        obtain ⟨_, s1, _, h⟩ := PyS.bind_ok h
        have h1 := ih h
        have h2 := gap_step.2 v it' hx
        omega

/-- A loop without enough room stops with RecursionError, unless a visit before raises. -/
theorem visitLoopIn_short {T : TravEnv} {visit : Packet → PyS TState Unit} {nc : NcCache} {room : Nat}
    {it : NodeIterator} {xs : List HashIteratorValue} {r : Option PyErr} (h : it.Run xs r) (hr : r = none) (fuel : Nat)
    (hf : xs.length ≤ fuel) (hg : room ≤ Spec.gap (it.groups.drop it.groupIndex)) :
    ∃ pre post, xs = pre ++ post ∧ T.visitLoopIn visit nc room fuel it =
      (visitAll T visit nc pre >>= fun _ => PyS.lift (.error .nonTermination)) := by
  induction h generalizing fuel with
  | raise => cases hr
  | @stop it h =>
    refine ⟨[], [], rfl, ?_⟩
    have := gap_step.1 h
    unfold TravEnv.visitLoopIn
    rw [C90_next, if_pos (by omega)]
    rfl
  | @yield it v it' xs r h _ ih =>
    by_cases hs : room ≤ Spec.skipped it
    · refine ⟨[], v :: xs, rfl, ?_⟩
      unfold TravEnv.visitLoopIn
      rw [C90_next, if_pos hs]
      rfl
    · have := gap_step.2 v it' h
      cases fuel with
      | zero => simp at hf
      | succ fuel =>
        obtain ⟨pre, post, e, hrun⟩ := ih hr fuel (by simpa using hf) (by omega)
        refine ⟨v :: pre, post, by rw [e]; rfl, ?_⟩
        funext s
        unfold TravEnv.visitLoopIn visitAll
        rw [C90_next, if_neg hs, PyS.liftBind_run h]
        dsimp only
        rw [hrun]
        simp only [PyS.bind_run]
        cases T.fetch nc v with
        | error e => rfl
        | ok p =>
          simp only [PyS.lift_run]
          cases validatePacket T.prims T.keystore p with
          | error e => rfl
          | ok _ =>
            simp only
            cases visit p s with
            | mk r s1 => cases r <;> rfl

/-! ## The traversal -/

theorem preorder_with (T : TravEnv) (depth : Nat) (nc : NcCache) (p : Packet) :
    T.preorder (depth + 1) nc p = T.preorderWith (fun nc node =>
      T.visitLoop (fun q => T.preorder depth nc q) nc node.pointerCount node.iter) nc p := rfl

theorem preorderWith_ok {T : TravEnv} {c c' : NcCache → Node → PyS TState Unit}
    (hc : ∀ nc node s s', c nc node s = (.ok (), s') → c' nc node s = (.ok (), s')) {nc : NcCache} {p : Packet} {s s' : TState}
    (h : T.preorderWith c nc p s = (.ok (), s')) : T.preorderWith c' nc p s = (.ok (), s') := by
  unfold TravEnv.preorderWith at h ⊢
  obtain ⟨hv, hh, h⟩ := PyS.liftBind_ok h
  rw [PyS.liftBind_run hh]
  obtain ⟨_, s1, h1, h⟩ := PyS.bind_ok h
  refine (PyS.bind_of_ok h1).trans ?_
  cases ht : p.body.payloadType with
  | none => rw [ht] at h; exact h
  | some ty =>
    rw [ht] at h
    dsimp only at h ⊢
    by_cases hm : ty = PT_MANIFEST
    · rw [if_pos hm] at h ⊢
      obtain ⟨m, hm1, h⟩ := PyS.liftBind_ok h
      rw [PyS.liftBind_run hm1]
      obtain ⟨m', s2, h2, h⟩ := PyS.bind_ok h
      refine (PyS.bind_of_ok h2).trans ?_
      cases hn : m'.node with
      | encrypted t => rw [hn] at h; exact h
      | plain node =>
        rw [hn] at h
        dsimp only at h ⊢
        obtain ⟨nc', hu, h⟩ := PyS.liftBind_ok h
        rw [PyS.liftBind_run hu]
        exact reportError_of_ok (hc _ _ _ _ (reportError_ok h))
    · rw [if_neg hm] at h ⊢
      exact h

theorem visitLoop_mono {T : TravEnv} {visit visit' : Packet → PyS TState Unit} {nc : NcCache}
    (hv : ∀ p s s', visit p s = (.ok (), s') → visit' p s = (.ok (), s')) {fuel : Nat} {it : NodeIterator} {s s' : TState}
    (h : T.visitLoop visit nc fuel it s = (.ok (), s')) : T.visitLoop visit' nc fuel it s = (.ok (), s') := by
  induction fuel generalizing it s with
  | zero =>
    unfold TravEnv.visitLoop at h ⊢
    obtain ⟨x, hx, h⟩ := PyS.liftBind_ok h
    rw [PyS.liftBind_run hx]
    cases x with
    | none => exact h
    | some x => cases h
  | succ fuel ih =>
    unfold TravEnv.visitLoop at h ⊢
    obtain ⟨x, hx, h⟩ := PyS.liftBind_ok h
    rw [PyS.liftBind_run hx]
    cases x with
    | none => exact h
    | some x =>
      dsimp only at h ⊢
      obtain ⟨p, hp, h⟩ := PyS.liftBind_ok h
      rw [PyS.liftBind_run hp]
      obtain ⟨_, hq, h⟩ := PyS.liftBind_ok h
      rw [PyS.liftBind_run hq]
      obtain ⟨_, s1, h1, h⟩ := PyS.bind_ok h
      refine (PyS.bind_of_ok (hv _ _ _ h1)).trans (ih h)

theorem preorderIn_sound {T : TravEnv} (room : Nat) : ∀ {nc : NcCache} {p : Packet} {s s' : TState},
    T.preorderIn room nc p s = (.ok (), s') → ∀ depth, room ≤ depth → T.preorder depth nc p s = (.ok (), s') := by
  induction room using Nat.strongRecOn with
  | _ room ih =>
    intro nc p s s' h depth hd
    match room, ih, h, hd with
    | 0, _, h, _ => cases h
    | 1, _, h, hd =>
      obtain ⟨d, rfl⟩ : ∃ d, depth = d + 1 := ⟨depth - 1, by omega⟩
      rw [preorder_with]
      exact preorderWith_ok (fun _ _ _ _ h => by cases h) h
    | room + 2, ih, h, hd =>
      obtain ⟨d, rfl⟩ : ∃ d, depth = d + 1 := ⟨depth - 1, by omega⟩
      rw [preorder_with]
      rw [TravEnv.preorderIn] at h
      refine preorderWith_ok (fun nc node s s' h => ?_) h
      rw [visitLoopIn_enough _ (visitLoopIn_ok h)] at h
      exact visitLoop_mono (fun q s s' hq => ih room (by omega) hq d (by omega)) h

/-- C90: a traversal that returns with so much room returns the same without a limit. -/
theorem C90_sound (T : TravEnv) (room : Nat) (name : Option Name) (hash : Option HashValue) (s s' : TState)
    (h : T.traverseIn room name hash s = (.ok (), s')) (depth : Nat) (hd : room ≤ depth) :
    T.traverse depth name hash s = (.ok (), s') := by
  unfold TravEnv.traverseIn at h
  unfold TravEnv.traverse
  obtain ⟨p, hp, h⟩ := PyS.liftBind_ok h
  rw [PyS.liftBind_run hp]
  obtain ⟨_, hv, h⟩ := PyS.liftBind_ok h
  rw [PyS.liftBind_run hv]
  exact preorderIn_sound room h depth hd

theorem preorderIn_manifest {T : TravEnv} {nc : NcCache} {scope : List NcDef} {p : Packet} {node : Node}
    {s s1 : TState} {m m' : Manifest} {hv : HashValue} (hh : p.hash T.prims.sha256 = .ok hv) (hc : CacheOf nc scope)
    (ht : p.body.payloadType = some PT_MANIFEST) (hm : Manifest.fromContentObject p.body = .ok m)
    (hd : T.decrypt m { s with count := s.count + 1 } = (.ok m', s1)) (hn : m'.node = .plain node)
    (hw : Spec.Walkable node) :
    ∃ nc', CacheOf nc' (scope ++ node.defs) ∧
      (T.preorderIn 1 nc p s = reportError m' (PyS.lift (.error .nonTermination)) s1) ∧
      (∀ room, T.preorderIn (room + 2) nc p s =
        reportError m' (T.visitLoopIn (fun q => T.preorderIn room nc' q) nc' room node.pointerCount node.iter) s1) := by
  obtain ⟨nc', hu⟩ := NcCache.update_defs hw.2 nc
  rw [← updateNcCache_eq] at hu
  have hc' := hc.update hu
  have : ∀ c : NcCache → Node → PyS TState Unit, T.preorderWith c nc p s = reportError m' (c nc' node) s1 := by
    intro c
    unfold TravEnv.preorderWith
    rw [PyS.liftBind_run hh, PyS.bind_run]
    simp only [PyS.modify_run, ht]
    rw [if_pos trivial, PyS.liftBind_run hm, PyS.bind_of_ok hd]
    simp only [hn]
    rw [PyS.liftBind_run hu]
  refine ⟨nc', hc', ?_, fun room => ?_⟩
  · rw [TravEnv.preorderIn, this]
  · rw [TravEnv.preorderIn, this]

theorem visitRequests_cons {T : TravEnv} (visit : Packet → PyS TState Unit) {r : Spec.Request} {p : Packet}
    (h1 : T.reader r.1 r.2 = .ok p) (h2 : validatePacket T.prims T.keystore p = .ok ()) (rs : List Spec.Request) (s : TState) :
    visitRequests T visit (r :: rs) s = (visit p >>= fun _ => visitRequests T visit rs) s := by
  rw [visitRequests, PyS.liftBind_run h1, PyS.liftBind_run h2]

theorem visitRequests_prefix {T : TravEnv} {visit : Packet → PyS TState Unit} {a b : List Spec.Request} {s s' : TState} {e : PyErr}
    (h : visitRequests T visit a s = (.error e, s')) : visitRequests T visit (a ++ b) s = (.error e, s') := by
  induction a generalizing s with
  | nil => cases h
  | cons r a ih =>
    rw [List.cons_append]
    unfold visitRequests at h ⊢
    simp only [PyS.bind_run] at h ⊢
    cases hr : T.reader r.1 r.2 with
    | error e => rw [hr] at h; exact h
    | ok p =>
      rw [hr] at h
      simp only [PyS.lift_run] at h ⊢
      cases hv : validatePacket T.prims T.keystore p with
      | error e => rw [hv] at h; exact h
      | ok _ =>
        rw [hv] at h
        simp only at h ⊢
        cases hx : visit p s with
        | mk r s1 =>
          rw [hx] at h
          cases r with
          | error e => exact h
          | ok _ => exact ih h

theorem forall₂_prefix {α β : Type} {R : α → β → Prop} {a b : List α} {l : List β} (h : List.Forall₂ R (a ++ b) l) :
    ∃ c d, l = c ++ d ∧ List.Forall₂ R a c := by
  induction a generalizing l with
  | nil => exact ⟨[], l, rfl, .nil⟩
  | cons x a ih =>
    cases h with
    | cons h1 h2 =>
      obtain ⟨c, d, rfl, hc⟩ := ih h2
      exact ⟨_ :: c, d, rfl, .cons h1 hc⟩

theorem reportError_error {m : Manifest} {x : PyS TState Unit} {s s' : TState} {e : PyErr} {shown : Prop}
    (h : x s = (.error e, s')) (he : shown → e = .nonTermination) (hs : shown → m.display = .ok ()) :
    ∃ e' s', reportError m x s = (.error e', s') ∧ (shown → e' = .nonTermination) := by
  unfold reportError
  rw [h]
  dsimp only
  cases hd : m.display with
  | ok _ => exact ⟨e, s', rfl, he⟩
  | error e' => exact ⟨e', s', rfl, fun h => by rw [hs h] at hd; cases hd⟩

/-- What comes of a traversal with a given room: all is done, or RecursionError (unless showing a manifest raises). -/
def inRoom (need room : Nat) (shown : Prop) (x : Py Unit × TState) (done : TState → Prop) : Prop :=
  (need ≤ room → ∃ s, x = (.ok (), s) ∧ done s) ∧
  (room < need → ∃ e s, x = (.error e, s) ∧ (shown → e = .nonTermination))

/-- One manifest. -/
theorem preorderIn_step {T : TravEnv} {nc : NcCache} {scope : List NcDef} {p : Packet} {node : Node}
    {s s1 : TState} {m m' : Manifest} {hv : HashValue} (hh : p.hash T.prims.sha256 = .ok hv) (hc : CacheOf nc scope)
    (ht : p.body.payloadType = some PT_MANIFEST) (hm : Manifest.fromContentObject p.body = .ok m)
    (hd : T.decrypt m { s with count := s.count + 1 } = (.ok m', s1)) (hn : m'.node = .plain node)
    (hw : Spec.Walkable node) {krs : List Spec.Request}
    (ha : List.Forall₂ (Spec.Asks (scope ++ node.defs)) (node.hashGroups.flatMap HashGroup.values) krs)
    {shown : Prop} (hsh : shown → m'.display = .ok ()) {need : Nat} {done : TState → Prop}
    (ih : ∀ nc', CacheOf nc' (scope ++ node.defs) → ∀ room,
      inRoom need room shown (visitRequests T (fun q => T.preorderIn room nc' q) krs s1) done) (room : Nat) :
    inRoom (2 + max (1 + Spec.gap node.hashGroups) need) room shown (T.preorderIn room nc p s) done := by
  obtain ⟨nc', hnc', hp1, hp2⟩ := preorderIn_manifest hh hc ht hm hd hn hw
  match room with
  | 0 => exact ⟨fun h => by omega, fun _ => ⟨_, s, rfl, fun _ => rfl⟩⟩
  | 1 =>
    refine ⟨fun h => by omega, fun _ => ?_⟩
    rw [hp1]
    exact reportError_error (e := .nonTermination) rfl (fun _ => rfl) hsh
  | room + 2 =>
    have hrunk := C28_iteration node hw.1
    have hfuel : (node.hashGroups.flatMap HashGroup.values).length ≤ node.pointerCount := by
      rw [groupValues_sum _ hw.1]
      exact Nat.le_refl _
    obtain ⟨i1, i2⟩ := ih nc' hnc' room
    by_cases hg : Spec.gap node.hashGroups < room
    · have hloop : T.visitLoopIn (fun q => T.preorderIn room nc' q) nc' room node.pointerCount node.iter =
          visitRequests T (fun q => T.preorderIn room nc' q) krs := by
        rw [visitLoopIn_enough _ (by exact hg), visitLoop_run hrunk rfl _ hfuel, visitAll_requests hnc' ha]
      rw [← hloop] at i1 i2
      refine ⟨fun h => ?_, fun h => ?_⟩
      · obtain ⟨s2, e2, hdone⟩ := i1 (by omega)
        exact ⟨s2, (hp2 room).trans (reportError_of_ok e2), hdone⟩
      · obtain ⟨e, s2, e2, he⟩ := i2 (by omega)
        rw [hp2]
        exact reportError_error e2 he hsh
    · refine ⟨fun h => by omega, fun _ => ?_⟩
      obtain ⟨pre, post, hx, hloop⟩ := visitLoopIn_short (T := T) (visit := fun q => T.preorderIn room nc' q) (nc := nc')
        (room := room) hrunk rfl _ hfuel (by show room ≤ Spec.gap (node.hashGroups.drop 0); rw [List.drop_zero]; omega)
      rw [hx] at ha
      obtain ⟨a, b, hkr, ha⟩ := forall₂_prefix ha
      rw [visitAll_requests hnc' ha] at hloop
      rw [hp2]
      cases hres : visitRequests T (fun q => T.preorderIn room nc' q) a s1 with
      | mk res s2 =>
        cases res with
        | ok _ =>
          refine reportError_error (e := .nonTermination) (s' := s2) ?_ (fun _ => rfl) hsh
          rw [hloop, PyS.bind_of_ok hres]
          rfl
        | error e =>
          have hall := visitRequests_prefix (b := b) hres
          rw [← hkr] at hall
          refine reportError_error (e := e) (s' := s2) ?_ ?_ hsh
          · rw [hloop, PyS.bind_of_error hres]
          · intro hs'
            rcases Nat.lt_or_ge room need with hk | hk
            · obtain ⟨e', _, e2, he⟩ := i2 hk
              rw [hall] at e2
              cases e2
              exact he hs'
            · obtain ⟨_, e2, _⟩ := i1 hk
              rw [hall] at e2
              cases e2

theorem Spec.Leads.runIn {T : TravEnv} {op : Packet → Node → Prop} (Inv : DecryptorCache → Prop)
    (hop : ∀ p node s, op p node → Inv s.cache → ∃ m m' c, Manifest.fromContentObject p.body = .ok m ∧
      T.decrypt m s = (.ok m', { s with cache := c }) ∧ m'.node = .plain node ∧ Inv c)
    (hhash : ∀ name h p, T.reader name h = .ok p → ∃ hv, p.hash T.prims.sha256 = .ok hv)
    (hwalk : ∀ p node, op p node → Spec.Walkable node) {shown : Prop}
    (hshow : shown → ∀ p node m s m' s', op p node → Inv s.cache → Manifest.fromContentObject p.body = .ok m →
      T.decrypt m s = (.ok m', s') → m'.display = .ok ())
    {scope : List NcDef} {rs : List Spec.Request} {v : Spec.Visited} (h : Spec.Leads T op scope rs v) :
    ∀ {nc : NcCache} (_ : CacheOf nc scope) {room : Nat} {s : TState} (_ : Inv s.cache),
    inRoom v.frames room shown (visitRequests T (fun q => T.preorderIn room nc q) rs s) (fun s' =>
      s'.count = s.count + v.count ∧ s'.writes = s.writes ++ v.payloads ∧ Inv s'.cache) := by
  induction h with
  | nil =>
    intro nc hc room s hs
    refine ⟨fun _ => ⟨s, rfl, ?_⟩, fun h => ?_⟩
    · simp [Spec.Visited.count, Spec.Visited.payloads, hs]
    · simp [Spec.Visited.frames] at h
  | @data scope r rs p b rest h1 h2 h3 h4 _ ih =>
    intro nc hc room s hs
    obtain ⟨hv, hh⟩ := hhash _ _ _ h1
    cases room with
    | zero =>
      refine ⟨fun h => ?_, fun _ => ⟨.nonTermination, s, ?_, fun _ => rfl⟩⟩
      · simp only [Spec.Visited.frames] at h
        omega
      · unfold visitRequests
        rw [PyS.liftBind_run h1, PyS.liftBind_run h2]
        rfl
    | succ room =>
      have hp : T.preorderIn (room + 1) nc p s = (.ok (), { s with count := s.count + 1, writes := s.writes ++ [b] }) := by
        have hw : ∀ c, T.preorderWith c nc p s = (.ok (), { s with count := s.count + 1, writes := s.writes ++ [b] }) := by
          intro c
          unfold TravEnv.preorderWith
          rw [PyS.liftBind_run hh, PyS.bind_run]
          simp only [PyS.modify_run, h3]
          rw [if_neg (by decide), if_pos trivial, h4]
          rfl
        cases room with
        | zero => exact hw _
        | succ room => exact hw _
      have hrun := (visitRequests_cons (fun q => T.preorderIn (room + 1) nc q) h1 h2 rs s).trans (PyS.bind_of_ok hp)
      obtain ⟨i1, i2⟩ := ih hc (room := room + 1) (s := { s with count := s.count + 1, writes := s.writes ++ [b] }) hs
      simp only [Spec.Visited.frames]
      refine ⟨fun h => ?_, fun h => ?_⟩
      · obtain ⟨s', e, h1, h2, h3⟩ := i1 (by omega)
        refine ⟨s', hrun.trans e, ?_, ?_, h3⟩
        · rw [h1]
          simp only [Spec.Visited.count]
          omega
        · rw [h2]
          simp [Spec.Visited.payloads]
      · obtain ⟨e, s', h1, h2⟩ := i2 (by omega)
        exact ⟨e, s', hrun.trans h1, h2⟩
  | @manifest scope r rs krs p node kids rest h1 h2 h3 h4 h5 _ _ ih1 ih2 =>
    intro nc hc room s hs
    obtain ⟨hv, hh⟩ := hhash _ _ _ h1
    obtain ⟨m, m', c1, hm, hdec, hn, hc1⟩ := hop _ _ { s with count := s.count + 1 } h4 hs
    have hstep := preorderIn_step hh hc h3 hm hdec hn (hwalk _ _ h4) h5 (fun h => hshow h p node m { s with count := s.count + 1 } m' _ h4 hs hm hdec)
      (fun nc' hnc' room => ih1 hnc' (room := room) hc1) room
    have hrun := visitRequests_cons (fun q => T.preorderIn room nc q) h1 h2 rs s
    simp only [Spec.Visited.frames]
    rw [hrun]
    by_cases hk : 2 + max (1 + Spec.gap node.hashGroups) kids.frames ≤ room
    · obtain ⟨s2, hpre, a1, a2, a3⟩ := hstep.1 hk
      obtain ⟨j1, j2⟩ := ih2 hc (room := room) (s := s2) a3
      rw [PyS.bind_of_ok hpre]
      refine ⟨fun h => ?_, fun h => j2 (by omega)⟩
      obtain ⟨s3, e3, b1, b2, b3⟩ := j1 (by omega)
      refine ⟨s3, e3, ?_, ?_, b3⟩
      · rw [b1, a1]
        simp only [Spec.Visited.count]
        omega
      · rw [b2, a2]
        simp [Spec.Visited.payloads]
    · refine ⟨fun h => by omega, fun _ => ?_⟩
      obtain ⟨e, s2, e2, he⟩ := hstep.2 (by omega)
      exact ⟨e, s2, PyS.bind_of_error e2, he⟩

theorem traverseIn_eq (T : TravEnv) (room : Nat) (name : Option Name) (hash : Option HashValue) (s : TState) :
    T.traverseIn room name hash s = visitRequests T (fun q => T.preorderIn room [] q) [(name, hash)] s := by
  show _ = (PyS.lift (T.reader name hash) >>= fun p => PyS.lift (validatePacket T.prims T.keystore p) >>= fun _ =>
    T.preorderIn room [] p >>= fun _ => (pure () : PyS TState Unit)) s
  simp only [PyS.bind_unit]
  rfl

/-- C90: where the pointers from the root lead through manifests that are not encrypted to data objects, exactly so much room is
needed as `Spec.Visited.frames` says: with it the traversal writes the payloads in order; with less it raises, and what it raises is
RecursionError if the manifests can be shown. -/
theorem C90_exact (T : TravEnv) (name : Option Name) (hash : Option HashValue) (v : Spec.Visited)
    (h : Spec.Leads T Spec.Clear [] [(name, hash)] v)
    (hhash : ∀ n h p, T.reader n h = .ok p → ∃ hv, p.hash T.prims.sha256 = .ok hv) (room : Nat) (s : TState) :
    (v.frames ≤ room → T.traverseIn room name hash s =
      (.ok (), { s with count := s.count + v.count, writes := s.writes ++ v.payloads })) ∧
    (room < v.frames → ∃ e s', T.traverseIn room name hash s = (.error e, s') ∧
      ((∀ n h p m, T.reader n h = .ok p → Manifest.fromContentObject p.body = .ok m → m.display = .ok ()) →
        e = .nonTermination)) := by
  have hcl : ∀ (m : Manifest) (node : Node) (s : TState), m.node = .plain node → T.decrypt m s = (.ok m, s) := by
    intro m node s hn
    have he : m.isEncrypted = false := by simp [Manifest.isEncrypted, hn]
    simp [TravEnv.decrypt, DecryptorCache.open, he]
  have h' : Spec.Leads T (fun p node => Spec.Clear p node ∧ ∃ n h, T.reader n h = .ok p) [] [(name, hash)] v := by
    clear hhash
    generalize ([] : List NcDef) = scope at h
    generalize [(name, hash)] = rs at h
    induction h with
    | nil => exact .nil
    | data h1 h2 h3 h4 _ ih => exact .data h1 h2 h3 h4 ih
    | manifest h1 h2 h3 h4 h5 _ _ ih1 ih2 => exact .manifest h1 h2 h3 ⟨h4, _, _, h1⟩ h5 ih1 ih2
  have := h'.runIn (fun c => c = s.cache) (by
      rintro p node s1 ⟨⟨⟨m, hm, hn⟩, _⟩, _⟩ hc
      exact ⟨m, m, s1.cache, hm, hcl m node s1 hn, hn, hc⟩)
    hhash (fun p node hc => hc.1.2)
    (shown := ∀ n h p m, T.reader n h = .ok p → Manifest.fromContentObject p.body = .ok m → m.display = .ok ())
    (by
      rintro hs p node m s1 m' s2 ⟨⟨⟨m0, hm0, hn0⟩, _⟩, n, h, hr⟩ _ hm hd
      rw [hm0] at hm
      cases hm
      rw [hcl _ node s1 hn0] at hd
      cases hd
      exact hs n h p _ hr hm0)
    (nc := []) rfl (room := room) (s := s) rfl
  rw [traverseIn_eq]
  refine ⟨fun hr => ?_, this.2⟩
  obtain ⟨s', e, a1, a2, a3⟩ := this.1 hr
  rw [e]
  obtain ⟨c, w, ca⟩ := s'
  simp only at a1 a2 a3
  subst a1 a2 a3
  rfl

/-! ## Bounds -/

theorem frames_le {T : TravEnv} {op : Packet → Node → Prop} {w : Nat} (hw : ∀ p node, op p node → Spec.gap node.hashGroups ≤ w)
    {scope : List NcDef} {rs : List Spec.Request} {v : Spec.Visited} (h : Spec.Leads T op scope rs v) :
    v.frames ≤ 2 * v.depth + (w + 1) := by
  induction h with
  | nil => simp [Spec.Visited.frames]
  | data _ _ _ _ _ ih =>
    simp only [Spec.Visited.frames, Spec.Visited.depth]
    omega
  | manifest _ _ _ h4 _ _ _ ih1 ih2 =>
    have := hw _ _ h4
    simp only [Spec.Visited.frames, Spec.Visited.depth]
    omega

theorem frames_ge {T : TravEnv} {op : Packet → Node → Prop} {scope : List NcDef} {rs : List Spec.Request} {v : Spec.Visited}
    (h : Spec.Leads T op scope rs v) : v.depth ≤ v.frames ∧ (2 ≤ v.depth → 2 * v.depth ≤ v.frames) := by
  induction h with
  | nil => simp [Spec.Visited.frames, Spec.Visited.depth]
  | data _ _ _ _ _ ih =>
    simp only [Spec.Visited.frames, Spec.Visited.depth]
    omega
  | @manifest scope r rs krs p node kids rest _ _ _ h4 h5 h6 _ ih1 ih2 =>
    simp only [Spec.Visited.frames, Spec.Visited.depth]
    have hg : 1 ≤ kids.depth → 1 ≤ Spec.gap node.hashGroups := by
      intro hk
      refine gap_pos fun hn => ?_
      rw [hn] at h5
      cases h5
      cases h6
      simp [Spec.Visited.depth] at hk
    omega

/-! ## Published files -/

variable {E : Env} {L : FloatLog} {o : TreeOptions} {nc : Nat} {input : Stream} {root : Packet} {out : List Packet}
  {store : MemoryStore} {ks : Option Keystore}

theorem FileRun.writesIn (R : FileRun E L o nc input root out) (hr : Spec.Equipped E o nc ks) {rd : Reader} {bs : List Bytes}
    (hrd : R.ServedBy rd ks bs) {ids : List Int}
    {level : Nat} {i : Info} {kids : Forest} (hv : (Forest.cons i kids .nil).Valid R.env 0 R.file.chunks.length level)
    (hf : R.env.IdsFrom ids (kids.written ++ [i])) (hlev : (level : Int) ≤ R.r.height) (hi : i.hash = R.topHash)
    (hleast : ∀ l < level, Spec.treeCapacity R.r.direct R.r.indirect l < R.file.chunks.length)
    (hout : out = R.ps ++ (kids.written ++ [i]).map (·.packet) ++ [root])
    (hfit : R.ctx.manifest.usesNameId = true → ∀ k ∈ kids.written ++ [i], k.id < 2 ^ 64)
    (hid : R.ctx.manifest.usesNameId = true → i.id = 0) :
    ∃ hv, root.hash E.prims.sha256 = .ok hv ∧ ∀ room,
      (2 * level + 9 ≤ room → ∃ s, TravEnv.traverseIn ⟨E.prims, rd, ks⟩ room o.name (some hv) (TState.new ks) = (.ok (), s) ∧
        s.writes = bs ∧ s.count = out.length) ∧
      (room < 2 * level + 6 → ∃ s, TravEnv.traverseIn ⟨E.prims, rd, ks⟩ room o.name (some hv) (TState.new ks) =
        (.error .nonTermination, s)) := by
  obtain ⟨v, v1, v2, v3, v4, _, _, v7, v8⟩ := R.leads (ks := ks) hr.names hr.counter hrd hv hf hlev hout hfit
  obtain ⟨hv', c, node, m, H⟩ := R.root_read hr.aead hr.oaep hr.rsa hr.verify hr.decrypt hr.counter
  have hget := R.root_served hrd hv' H.hash
  have hprint := (nameCtx_printable hr.counter R.ctx_ok).2 hr.text
  obtain ⟨hgood, _, _⟩ := nameCtx_good R.ctx_ok
  have hwalk : Spec.Walkable node := ⟨H.groups, by rw [H.defs]; exact fun d hd => ⟨H.schemas d hd, hprint d hd⟩⟩
  obtain ⟨_, name, _, _, hname, _⟩ := hv.made i (by simp [Forest.written])
  have hname : R.ctx.manifest.getName (some (i.id : Int)) = .ok name := hname
  have hdepth : level + 2 ≤ v.depth := by
    rcases Nat.lt_or_ge (v.depth - 2) level with h | h
    · have := hleast _ h
      omega
    · omega
  refine ⟨hv', H.hash, fun room => ?_⟩
  have hstep := preorderIn_step (T := ⟨E.prims, rd, ks⟩) (nc := []) (scope := []) (p := root) (node := node)
    (s := TState.new ks) H.hash rfl H.type H.parse (H.decrypt rd) rfl hwalk (krs := [R.ctx.manifest.request i.pair]) (by
      rw [H.defs, H.values, List.nil_append, request_name (x := i.pair) hname, ← hi]
      refine .cons (asks_of hgood.manifest hgood.lookup_manifest (nameCtx_plain hr.names R.ctx_ok).1 ?_) .nil
      cases hu : R.ctx.manifest.usesNameId with
      | false => rw [getName_any hu _ (some (i.id : Int))]; exact hname
      | true => rw [hid hu] at hname; exact hname)
    (shown := True) (fun _ => manifest_shown H.locators hwalk H.short)
    (fun nc' hnc' room => v1.runIn (fun c => c.Ready E.prims o.encryptor false)
      (by
        intro p node s ⟨n, name, x, s0, s1, hb, hn, he, _⟩ hrd
        subst he
        obtain ⟨m, m', c, r1, r2, r3, r4⟩ := read_manifest hr.aead hr.decrypt hn hb
          (T := ⟨E.prims, rd, ks⟩) rfl rfl hrd
        exact ⟨m, m', c, r1, r2, by rw [r3], r4⟩)
      (fun name h p hp => hrd.hashes name h p hp)
      (fun p node ⟨_, _, _, _, _, _, _, _, hw, _⟩ => hw) (shown := True)
      (by
        intro _ p node m s m' s' ⟨n, name, x, s0, s1, hb, hn, he, hw, hl, _⟩ hrd hm hd
        subst he
        obtain ⟨m1, m2, c, r1, r2, r3, r4⟩ := read_manifest hr.aead hr.decrypt hn hb
          (T := ⟨E.prims, rd, ks⟩) rfl rfl hrd
        rw [hm] at r1
        cases r1
        rw [hd] at r2
        cases r2
        rw [r3]
        exact manifest_shown hl hw (numbers_short hn)) (by rw [← H.defs]; exact hnc') (room := room)
      (s := { count := 1, writes := [], cache := c }) H.ready) room
  have hgr : 1 ≤ Spec.gap node.hashGroups := gap_pos fun hn => by
    have := H.values
    rw [hn] at this
    cases this
  have hfew := Nat.le_trans (gap_le node.hashGroups) H.few
  have hup := frames_le (w := 2) (fun p node ⟨_, _, _, _, _, _, _, _, _, _, hf⟩ => Nat.le_trans (gap_le node.hashGroups) hf) v1
  have hlo := (frames_ge v1).2 (by omega)
  rw [traverseIn_eq, visitRequests_cons _ hget H.valid]
  show (_ → ∃ s, (_ >>= fun _ => (pure () : PyS TState Unit)) _ = _ ∧ _) ∧ (_ → ∃ s, (_ >>= fun _ => (pure () : PyS TState Unit)) _ = _)
  simp only [PyS.bind_unit]
  refine ⟨fun h => ?_, fun h => ?_⟩
  · obtain ⟨s, e, a1, a2, _⟩ := hstep.1 (by omega)
    refine ⟨s, e, ?_, ?_⟩
    · rw [a2, v2]; rfl
    · rw [a1]; simp only; omega
  · obtain ⟨e, s, e1, he⟩ := hstep.2 (by omega)
    rw [e1, he trivial]
    exact ⟨s, rfl⟩

theorem FileRun.returnedIn (R : FileRun E L o nc input root out) (hty : o.schemaType ≠ .segmented)
    (hr : Spec.CanRead E o nc out store ks) :
    ∃ hv level, root.hash E.prims.sha256 = .ok hv ∧
      R.file.chunks.length ≤ Spec.treeCapacity R.r.direct R.r.indirect level ∧
      (∀ l < level, Spec.treeCapacity R.r.direct R.r.indirect l < R.file.chunks.length) ∧ ∀ room,
      (2 * level + 9 ≤ room → Spec.ReturnedIn E o out (store.reader E.prims) ks room hv input.rest) ∧
      (room < 2 * level + 6 → ∃ s, TravEnv.traverseIn ⟨E.prims, store.reader E.prims, ks⟩ room o.name (some hv) (TState.new ks) =
        (.error .nonTermination, s)) := by
  obtain ⟨ids, level, i, kids, h1, h2, h3, h4, h5, h6, h7, h8⟩ := R.forest
  have hu : R.ctx.manifest.usesNameId ≠ true := fun hu => hty ((nameCtx_inv R.ctx_ok).2.2.mp hu)
  have hserves := hr.store.serves hr.distinct
  obtain ⟨hv, a, b⟩ := R.writesIn hr.toEquipped (R.servedBy hserves ks) h2 h3 h6 h7 h5 h8 (fun h => absurd h hu) (fun h => absurd h hu)
  refine ⟨hv, level, a, h4, h5, fun room => ⟨fun h => ?_, (b room).2⟩⟩
  obtain ⟨s, e1, e2, e3⟩ := (b room).1 h
  refine ⟨s, e1, ?_, ?_, e3⟩
  · rw [e2, R.bytes]
  · rw [R.data, R.chunked.sum.2.2.1, e2]

/-- What is known of the tree of a file. -/
theorem FileRun.chosen (R : FileRun E L o nc input root out) :
    ∃ p, Spec.PointersFor E o nc input.rest.length (Spec.dataOf out) p ∧
      (Spec.dataOf out).length = R.file.chunks.length ∧ R.file.chunks.length ≤ 2 ^ 24 ∧
      (R.r.indirect = 1 ↔ p = 2 ∨ R.file.chunks.length ≤ 2 * p - 1) ∧ 1 ≤ R.r.direct ∧ 1 ≤ R.r.indirect ∧
      R.r.direct + R.r.indirect = p := by
  obtain ⟨p, hp, hmin⟩ := R.pointersFor
  have hlen : (Spec.dataOf out).length = R.file.chunks.length := by rw [R.data, (chunked_get R.chunked).2.1]
  have hcount := R.count
  have hne := R.nonempty
  unfold MAX_CHUNK_ID at hcount
  have hple : p < 2 ^ 52 := by
    obtain ⟨ctx, p0, s, _, h0, rfl⟩ := hp
    obtain ⟨_, hle, _⟩ := calculateMaxPointers_inv h0
    cases o.maxTreeDegree with
    | none => simp only; omega
    | some k => simp only; omega
  rw [hlen] at hmin
  obtain ⟨_, hp2, hd, hm, hdm⟩ := minimizeKMinWaste_pos hmin (by omega) hple
  obtain ⟨s1, _⟩ := selected_shape hmin hne hp2 (by omega) hple
  exact ⟨p, hp, hlen, by omega, s1, hd, hm, hdm⟩

theorem treeCapacity_chain (h : Nat) : Spec.treeCapacity 1 1 h = h + 2 := by
  induction h with
  | zero => rfl
  | succ h ih => rw [Spec.treeCapacity, ih]; omega

/-- C90: with hashed or prefix names, a file of `n` chunks whose tree is `level` levels high below its root manifest is returned if
there is room for `2 level + 9` nested calls, and RecursionError is raised if there is not room for `2 level + 6`. -/
theorem C90_published (hty : o.schemaType ≠ .segmented) (h : manifestTree E L o nc input = (.ok root, out))
    (hr : Spec.CanRead E o nc out store ks) :
    ∃ p r hv level, Spec.PointersFor E o nc input.rest.length (Spec.dataOf out) p ∧
      minimizeKMinWaste L (Spec.dataOf out).length p = .ok r ∧ root.hash E.prims.sha256 = .ok hv ∧
      (Spec.dataOf out).length ≤ Spec.treeCapacity r.direct r.indirect level ∧
      (∀ l < level, Spec.treeCapacity r.direct r.indirect l < (Spec.dataOf out).length) ∧ ∀ room,
      (2 * level + 9 ≤ room → Spec.ReturnedIn E o out (store.reader E.prims) ks room hv input.rest) ∧
      (room < 2 * level + 6 → ∃ s, TravEnv.traverseIn ⟨E.prims, store.reader E.prims, ks⟩ room o.name (some hv) (TState.new ks) =
        (.error .nonTermination, s)) := by
  obtain ⟨R⟩ := manifestTree_ok h
  obtain ⟨p, hp, hmin⟩ := R.pointersFor
  obtain ⟨hv, level, a, b, c, d⟩ := R.returnedIn hty hr
  have hlen : (Spec.dataOf out).length = R.file.chunks.length := by rw [R.data, (chunked_get R.chunked).2.1]
  exact ⟨p, R.r, hv, level, hp, hmin, a, by rw [hlen]; exact b, by rw [hlen]; exact c, d⟩

/-- C90: with three or more pointers per manifest, room for 55 nested calls is enough for every file that can be published with
hashed or prefix names. -/
theorem C90_recursion_limit (hty : o.schemaType ≠ .segmented) (h : manifestTree E L o nc input = (.ok root, out))
    (hr : Spec.CanRead E o nc out store ks) :
    ∃ p hv, Spec.PointersFor E o nc input.rest.length (Spec.dataOf out) p ∧ root.hash E.prims.sha256 = .ok hv ∧
      (3 ≤ p → ∀ room, 55 ≤ room → Spec.ReturnedIn E o out (store.reader E.prims) ks room hv input.rest) := by
  obtain ⟨R⟩ := manifestTree_ok h
  obtain ⟨p, hp, hlen, hn, hone, hd, hm, hdm⟩ := R.chosen
  obtain ⟨hv, level, a, b, c, d⟩ := R.returnedIn hty hr
  refine ⟨p, hv, hp, a, fun h3 room hroom => (d room).1 ?_⟩
  suffices level ≤ 23 by omega
  rcases Nat.lt_or_ge 23 level with hl | hl
  · exfalso
    rcases Nat.lt_or_ge 1 R.r.indirect with hi | hi
    · have h1 := c 23 hl
      have h2 := treeCapacity_pow R.r.direct R.r.indirect 23
      have h3 : 2 ^ (23 + 1) ≤ R.r.indirect ^ (23 + 1) := Nat.pow_le_pow_left hi _
      omega
    · have h1 : R.r.indirect = 1 := by omega
      have h2 := hone.mp h1
      have h4 := c 1 (by omega)
      rw [h1] at h4
      simp only [Spec.treeCapacity] at h4
      omega
  · exact hl

/-- C90: with two pointers per manifest the tree is a chain.  Of a file of `n` chunks, two or more, published with hashed or prefix
names, the traversal raises RecursionError unless there is room for `2 n + 2` nested calls; with room for `2 n + 5` it returns the
file. -/
theorem C90_chain (hty : o.schemaType ≠ .segmented) (h : manifestTree E L o nc input = (.ok root, out))
    (hr : Spec.CanRead E o nc out store ks) (hn : 2 ≤ (Spec.dataOf out).length) :
    ∃ p hv, Spec.PointersFor E o nc input.rest.length (Spec.dataOf out) p ∧ root.hash E.prims.sha256 = .ok hv ∧
      (p = 2 → ∀ room,
        (2 * (Spec.dataOf out).length + 5 ≤ room → Spec.ReturnedIn E o out (store.reader E.prims) ks room hv input.rest) ∧
        (room < 2 * (Spec.dataOf out).length + 2 → ∃ s,
          TravEnv.traverseIn ⟨E.prims, store.reader E.prims, ks⟩ room o.name (some hv) (TState.new ks) =
            (.error .nonTermination, s))) := by
  obtain ⟨R⟩ := manifestTree_ok h
  obtain ⟨p, hp, hlen, _, hone, hd, hm, hdm⟩ := R.chosen
  obtain ⟨hv, level, a, b, c, d⟩ := R.returnedIn hty hr
  refine ⟨p, hv, hp, a, fun h2 room => ?_⟩
  subst h2
  have hi := hone.mpr (.inl rfl)
  have hd1 : R.r.direct = 1 := by omega
  rw [hi, hd1, treeCapacity_chain] at b
  have hl : level + 2 = R.file.chunks.length := by
    rcases Nat.eq_zero_or_pos level with h0 | h0
    · omega
    · have := c (level - 1) (by omega)
      rw [hi, hd1, treeCapacity_chain] at this
      omega
  rw [hlen]
  exact ⟨fun h => (d room).1 (by omega), fun h => (d room).2 (by omega)⟩

/-! ## Empty groups -/

/-- A manifest of so many groups, each with an empty list of pointers. -/
def Spec.hollow (k : Nat) : Manifest := { node := .plain { hashGroups := List.replicate k { pointers := some [] } } }

theorem hollow_numbers (k : Nat) : ∀ n ∈ Spec.nodeNumbers { hashGroups := List.replicate k { pointers := some [] } }, Spec.ShortNumber n := by
  intro n hn
  simp [Spec.nodeNumbers, List.mem_flatMap] at hn

theorem hollow_group : HashGroup.tlv { pointers := some [] } = .ok ⟨T_HASH_GROUP, (⟨T_PTRS, []⟩ : Tlv).bytes⟩ := by decide +kernel

theorem hollow_groups (k : Nat) : listTlv HashGroup.tlv (List.replicate k { pointers := some [] }) =
    .ok (List.replicate k ⟨T_HASH_GROUP, (⟨T_PTRS, []⟩ : Tlv).bytes⟩) := by
  induction k with
  | zero => rfl
  | succ k ih =>
    rw [List.replicate_succ, listTlv, hollow_group, ih]
    rfl

theorem hollow_bytes (k : Nat) : (bytesAll (List.replicate k ⟨T_HASH_GROUP, (⟨T_PTRS, []⟩ : Tlv).bytes⟩)).length = 8 * k := by
  induction k with
  | zero => rfl
  | succ k ih =>
    rw [List.replicate_succ, bytesAll_cons, List.length_append, ih, Tlv.bytes_length]
    simp only [Tlv.len, Tlv.length, Tlv.bytes_length, List.length_nil]
    omega

theorem hollow_wire {k : Nat} (h1 : 1 ≤ k) (h2 : 8 * k ≤ 0xFFFF) :
    ∃ w, (Spec.hollow k).serialize = .ok w ∧ w.length = 8 * k + 4 := by
  have hv : ∀ t ∈ List.replicate k (⟨T_HASH_GROUP, (⟨T_PTRS, []⟩ : Tlv).bytes⟩ : Tlv), t.Valid := by
    intro t ht
    rw [(List.mem_replicate.mp ht).2]
    decide +kernel
  have hN : (⟨T_NODE, bytesAll (List.replicate k ⟨T_HASH_GROUP, (⟨T_PTRS, []⟩ : Tlv).bytes⟩)⟩ : Tlv).Valid := by
    refine ⟨by show (1 : Nat) ≤ _; omega, ?_⟩
    show List.length (bytesAll _) ≤ _
    rw [hollow_bytes]
    exact h2
  have hn : Node.tlv { hashGroups := List.replicate k { pointers := some [] } } =
      .ok ⟨T_NODE, bytesAll (List.replicate k ⟨T_HASH_GROUP, (⟨T_PTRS, []⟩ : Tlv).bytes⟩)⟩ := by
    unfold Node.tlv Node.members
    simp only [optTlv, hollow_groups, ok_bind, pure_eq_ok, List.nil_append, List.length_replicate, concatTlvs_of_valid hv]
    rw [if_neg (by omega)]
    exact mkTlv_of_valid (t := ⟨T_NODE, bytesAll (List.replicate k ⟨T_HASH_GROUP, (⟨T_PTRS, []⟩ : Tlv).bytes⟩)⟩) hN
  refine ⟨bytesAll [⟨T_NODE, bytesAll (List.replicate k ⟨T_HASH_GROUP, (⟨T_PTRS, []⟩ : Tlv).bytes⟩)⟩], ?_, ?_⟩
  · unfold Manifest.serialize Manifest.members Spec.hollow
    simp only [optTlv, ManifestNode.tlv, hn, ok_bind, pure_eq_ok, List.nil_append, List.append_nil]
    exact concatTlvs_of_valid (by simpa using hN)
  · simp only [bytesAll_cons, bytesAll_nil, List.append_nil, Tlv.bytes_length, Tlv.len, Tlv.length, hollow_bytes]
    omega

theorem hollow_gap (k : Nat) : Spec.gap (List.replicate k { pointers := some [] }) = k ∧
    Spec.emptyRun (List.replicate k { pointers := some [] }) = k := by
  induction k with
  | zero => exact ⟨rfl, rfl⟩
  | succ k ih =>
    rw [List.replicate_succ, emptyRun_cons, Spec.gap, ih.1, ih.2]
    simp only [if_true]
    omega

theorem hollow_values (k : Nat) :
    (List.replicate k ({ pointers := some [] } : HashGroup)).flatMap HashGroup.values = [] := by
  rw [List.flatMap_eq_nil_iff]
  intro g hg
  rw [(List.mem_replicate.mp hg).2]
  rfl

/-- C90: there are packets of `8 k + 25` bytes, `k` up to 8188, that hold a manifest without pointers, but whose traversal (which
writes nothing) needs room for `k + 3` nested calls: with less it raises RecursionError. -/
theorem C90_empty_groups (k : Nat) (h1 : 1 ≤ k) (h2 : k ≤ 8188) :
    ∃ p b, (Spec.hollow k).packet none none = .ok p ∧ p.serialize = .ok b ∧ b.length = 8 * k + 25 ∧
      ∀ (T : TravEnv) (name : Option Name) (hash : Option HashValue) (s : TState) (room : Nat), T.reader name hash = .ok p →
        (k + 3 ≤ room → T.traverseIn room name hash s = (.ok (), { s with count := s.count + 1 })) ∧
        (room < k + 3 → ∃ s', T.traverseIn room name hash s = (.error .nonTermination, s')) := by
  obtain ⟨w, hw, hwl⟩ := hollow_wire h1 (by omega)
  obtain ⟨p, _, b, hp, hbody, halg, _, hb, hbl⟩ := nameless_packet (ty := PT_MANIFEST) (by decide) (w := w) (by omega) id
  have hread : Manifest.fromContentObject p.body = .ok (Spec.hollow k) := by
    rw [hbody]
    have hf : (Spec.hollow k).Fits := by
      refine ⟨fun _ h => (by cases h), fun _ h => (by cases h), fun g hg => ?_⟩
      rw [(List.mem_replicate.mp hg).2]
      intro d hd
      cases hd
    exact (manifest_RT hf hw).trans rfl
  refine ⟨p, b, ?_, hb, by omega, fun T name hash s room hget => ?_⟩
  · unfold Manifest.packet Manifest.contentObject
    rw [hw, ok_bind]
    obtain ⟨t, ht, _⟩ := nameless_tlv (ty := PT_MANIFEST) (by decide) (w := w) (by omega)
    unfold construct
    unfold namelessObject at ht hp
    simp only [ht, ok_bind, pure_eq_ok]
    exact hp
  · obtain ⟨hv, hhash⟩ := Packet.hash_of_serialize (sha := T.prims.sha256) hb
    have hwalk : Spec.Walkable { hashGroups := List.replicate k { pointers := some [] } } := by
      refine ⟨fun g hg => ?_, fun d hd => by cases hd⟩
      rw [(List.mem_replicate.mp hg).2]
      exact ⟨[], rfl, fun h => absurd rfl h⟩
    have hstep := preorderIn_step (T := T) (nc := []) (scope := []) (s := s) (s1 := { s with count := s.count + 1 })
      (m' := Spec.hollow k) hhash rfl (by rw [hbody]; rfl) hread (by
        simp [TravEnv.decrypt, DecryptorCache.open, Manifest.isEncrypted, Spec.hollow]) rfl hwalk (krs := []) (by rw [hollow_values]; exact .nil)
      (shown := True) (fun _ => manifest_shown (fun d hd => by cases hd) hwalk (hollow_numbers k)) (need := 0)
      (done := fun s' => s' = { s with count := s.count + 1 })
      (fun _ _ _ => ⟨fun _ => ⟨_, rfl, rfl⟩, fun h => by omega⟩) room
    rw [(hollow_gap k).1] at hstep
    rw [traverseIn_eq, visitRequests_cons _ hget (C24_unsigned _ _ _ halg)]
    show (_ → (_ >>= fun _ => (pure () : PyS TState Unit)) _ = _) ∧ (_ → ∃ s, (_ >>= fun _ => (pure () : PyS TState Unit)) _ = _)
    simp only [PyS.bind_unit]
    refine ⟨fun h => ?_, fun h => ?_⟩
    · obtain ⟨s', e, he⟩ := hstep.1 (by omega)
      rw [e, he]
    · obtain ⟨e, s', e1, he⟩ := hstep.2 (by omega)
      rw [e1, he trivial]
      exact ⟨s', rfl⟩

/-! ## The hypotheses can be met -/

/-- C90: the objects that the pointers of a manifest lead to need room for two calls for the manifest and one more for either the
data object or an iteration past the last group. -/
example : Spec.Leads (Toy.travEnv [Toy.left, Toy.named [97] [5, 6]]) Spec.Clear [] [(none, (Toy.left.hash Toy.sha).toOption)]
    (.manifest Toy.left (Toy.node [Toy.define 1 [97]] 1 [Toy.named [97] [5, 6]]) (.data (Toy.named [97] [5, 6]) [5, 6] .nil) .nil) ∧
    Spec.Visited.frames (.manifest Toy.left (Toy.node [Toy.define 1 [97]] 1 [Toy.named [97] [5, 6]])
      (.data (Toy.named [97] [5, 6]) [5, 6] .nil) .nil) = 4 ∧
    ((Toy.travEnv [Toy.left, Toy.named [97] [5, 6]]).traverseIn 4 none (Toy.left.hash Toy.sha).toOption (TState.new none)).1 = .ok () ∧
    ((Toy.travEnv [Toy.left, Toy.named [97] [5, 6]]).traverseIn 3 none (Toy.left.hash Toy.sha).toOption (TState.new none)).1 =
      .error .nonTermination := by
  refine ⟨?_, by decide +kernel, by decide +kernel, by decide +kernel⟩
  refine .manifest (krs := [(some ⟨[.nameSegment [97]]⟩, ((Toy.named [97] [5, 6]).hash Toy.sha).toOption)])
    (by decide +kernel) (by decide +kernel) (by decide +kernel)
    ⟨⟨{ node := .plain (Toy.node [Toy.define 1 [97]] 1 [Toy.named [97] [5, 6]]) }, by decide +kernel, rfl⟩, ?_, ?_⟩
    (.cons ⟨by decide +kernel, Toy.define 1 [97], ⟨1, .prefixed (some ⟨[.nameSegment [97]]⟩) none none⟩, by decide +kernel,
      by decide +kernel, by decide +kernel⟩ .nil)
    (.data (by decide +kernel) (by decide +kernel) (by decide +kernel) (by decide +kernel) .nil) .nil
  · intro g hg
    simp only [Toy.node, List.mem_singleton] at hg
    subst hg
    exact ⟨_, rfl, fun _ => ⟨_, _, rfl, rfl⟩⟩
  · intro d hd
    simp only [Node.defs, Toy.node, List.mem_singleton] at hd
    subst hd
    refine ⟨⟨_, rfl⟩, fun k hk => by rw [List.mem_singleton.1 hk]; exact short_of_lt (by decide), ?_⟩
    rintro s ⟨⟩ n hn
    simp [Spec.schemaLocators, Spec.linkNames] at hn

set_option maxRecDepth 100000 in
/-- C90: prefix names, encrypted, eight chunks, three pointers. -/
example : ∃ root out store, manifestTree Toy.env Spec.exactLog (Toy.options .prefixed true) 1 (Toy.shortReads 32) = (.ok root, out) ∧
    (Spec.dataOf out).length = 8 ∧ Spec.CanRead Toy.env (Toy.options .prefixed true) 1 out store (some Toy.aesKeys) ∧
    ∃ p, Spec.PointersFor Toy.env (Toy.options .prefixed true) 1 (Toy.shortReads 32).rest.length (Spec.dataOf out) p ∧ 3 ≤ p := by
  obtain ⟨root, out, store, h, hn, hr⟩ := Toy.canRead (o := Toy.options .prefixed true) (input := Toy.shortReads 32) (n := 8)
    trivial Toy.canDecrypt (Toy.plain ⟨rfl, rfl, rfl⟩) (Toy.text rfl rfl rfl) (by decide +kernel)
  exact ⟨root, out, store, h, hn, hr, 3, Toy.pointersFor rfl (by decide +kernel) h, by decide⟩

theorem Toy.pointersFor' {o : TreeOptions} {input : Stream} {p : Nat} {root : Packet} {out : List Packet}
    (hp : Toy.pointers o input = some p) (h : manifestTree Toy.env Spec.exactLog o 1 input = (.ok root, out)) :
    ∃ ctx q s, NameCtx.create o.schemaType 1 o.name o.manifestPrefix o.dataPrefix o.manifestLocators o.dataLocators = .ok ctx ∧
      calculateMaxPointers Toy.env o ctx input.rest.length { output := Spec.dataOf out } = (.ok q, s) ∧ q = p := by
  unfold Toy.pointers at hp
  rw [h] at hp
  split at hp
  · cases hp
  · next ctx hctx =>
    split at hp
    · next q s hq =>
      cases Option.some.inj hp
      exact ⟨ctx, _, s, hctx, hq, rfl⟩
    · cases hp

/-- Prefix names, at most two pointers. -/
def Toy.chainOptions : TreeOptions := { Toy.options .prefixed true with maxTreeDegree := some 2 }

set_option maxRecDepth 100000 in
/-- C90: prefix names, encrypted, eight chunks, two pointers. -/
example : ∃ root out store, manifestTree Toy.env Spec.exactLog Toy.chainOptions 1 (Toy.shortReads 32) = (.ok root, out) ∧
    (Spec.dataOf out).length = 8 ∧ Spec.CanRead Toy.env Toy.chainOptions 1 out store (some Toy.aesKeys) ∧
    Spec.PointersFor Toy.env Toy.chainOptions 1 (Toy.shortReads 32).rest.length (Spec.dataOf out) 2 := by
  obtain ⟨root, out, store, h, hn, hr⟩ := Toy.canRead (o := Toy.chainOptions) (input := Toy.shortReads 32) (n := 8)
    trivial Toy.canDecrypt (Toy.plain ⟨rfl, rfl, rfl⟩) (Toy.text rfl rfl rfl) (by decide +kernel)
  refine ⟨root, out, store, h, hn, hr, ?_⟩
  obtain ⟨ctx, p, s, h1, h2, h3⟩ := Toy.pointersFor' (p := 3) (by decide +kernel) h
  exact ⟨ctx, p, s, h1, h2, by rw [h3]; rfl⟩

end Ccnpy
