import Verif.Model.FullTraversal
import Verif.Lemmas.PyS
import Verif.Props.TraversalProps

/-!
# Comparing two computations with state; the traversal with options
-/

namespace Ccnpy

variable {σ τ α β : Type}

/-- `y` does what `x` does: always (if `exact`), or whenever `x` returns. -/
def PyS.Sim (exact : Prop) (S : σ → τ → Prop) (x : PyS σ α) (y : PyS τ α) : Prop :=
  ∀ s t, S s t → (exact ∨ ∃ a, (x s).1 = .ok a) → (y t).1 = (x s).1 ∧ S (x s).2 (y t).2

theorem PyS.Sim.bind {exact : Prop} {S : σ → τ → Prop} {x : PyS σ α} {y : PyS τ α} {f : α → PyS σ β} {g : α → PyS τ β}
    (hx : PyS.Sim exact S x y) (hf : ∀ a, PyS.Sim exact S (f a) (g a)) : PyS.Sim exact S (x >>= f) (y >>= g) := by
  intro s t hs he
  rw [PyS.bind_run, PyS.bind_run]
  rw [PyS.bind_run] at he
  have h := hx s t hs
  cases hxs : x s with
  | mk r s' =>
    cases hyt : y t with
    | mk r' t' =>
      rw [hxs] at he h
      rw [hyt] at h
      cases r with
      | ok a =>
        obtain ⟨h1, h2⟩ := h (.inr ⟨a, rfl⟩)
        dsimp only at h1 h2
        subst h1
        exact hf a s' t' h2 he
      | error e =>
        obtain ⟨h1, h2⟩ := h (by
          rcases he with he | ⟨a, he⟩
          · exact .inl he
          · cases he)
        dsimp only at h1 h2
        subst h1
        exact ⟨rfl, h2⟩

theorem PyS.Sim.lift {exact : Prop} {S : σ → τ → Prop} (x : Py α) : PyS.Sim exact S (PyS.lift x) (PyS.lift x) :=
  fun _ _ hs _ => ⟨rfl, hs⟩

theorem PyS.Sim.pure {exact : Prop} {S : σ → τ → Prop} (a : α) : PyS.Sim exact S (pure a : PyS σ α) (pure a : PyS τ α) :=
  fun _ _ hs _ => ⟨rfl, hs⟩

/-- A lifted step that must have returned a value. -/
theorem PyS.Sim.liftBind {exact : Prop} {S : σ → τ → Prop} {x : Py α} {f : α → PyS σ β} {g : α → PyS τ β}
    (hf : ∀ a, x = .ok a → PyS.Sim exact S (f a) (g a)) : PyS.Sim exact S (PyS.lift x >>= f) (PyS.lift x >>= g) := by
  cases x with
  | ok a => exact hf a rfl
  | error e => exact fun _ _ hs _ => ⟨rfl, hs⟩

theorem reportFull_sim {exact : Prop} {S : FullState → FullState → Prop} {x y : PyS FullState Unit} (m : Manifest)
    (h : PyS.Sim exact S x y) : PyS.Sim exact S (reportFull m x) (reportFull m y) := by
  intro s t hs he
  unfold reportFull at he ⊢
  have h' := h s t hs
  cases hxs : x s with
  | mk r s' =>
    cases hyt : y t with
    | mk r' t' =>
      rw [hxs] at he h'
      rw [hyt] at h'
      cases r with
      | ok a =>
        obtain ⟨h1, h2⟩ := h' (.inr ⟨a, rfl⟩)
        dsimp only at h1 h2
        subst h1
        exact ⟨rfl, h2⟩
      | error e =>
        obtain ⟨h1, h2⟩ := h' (by
          rcases he with he | ⟨a, he⟩
          · exact .inl he
          · exfalso
            dsimp only at he
            cases hd : m.display <;> rw [hd] at he <;> cases he)
        dsimp only at h1 h2
        subst h1
        exact ⟨rfl, h2⟩

/-! ## The loop over the children -/

/-- The loop of `_visit_children` over a list of pointers. -/
def fullAll (F : FullEnv) (visit : Packet → PyS FullState Unit) (nc : NcCache) : List HashIteratorValue → PyS FullState Unit
  | [] => pure ()
  | v :: vs => do
    let p ← PyS.lift (F.fetch nc v)
    PyS.lift (validatePacket F.prims F.keystore p)
    visit p
    fullAll F visit nc vs

theorem fullLoop_raises {F : FullEnv} {visit : Packet → PyS FullState Unit} {nc : NcCache} {it : NodeIterator}
    {xs : List HashIteratorValue} {e : PyErr} (h : it.Run xs (some e)) (fuel : Nat) (s s' : FullState) :
    F.visitLoop visit nc fuel it s ≠ (.ok (), s') := by
  generalize hr : some e = r at h
  induction h generalizing fuel s with
  | stop => cases hr
  | raise h =>
    unfold FullEnv.visitLoop
    intro hok
    obtain ⟨x, hx, _⟩ := PyS.liftBind_ok hok
    rw [h] at hx
    cases hx
  | yield h _ ih =>
    unfold FullEnv.visitLoop
    rw [PyS.liftBind_run h]
    cases fuel with
    | zero => simp [PyS.lift]
    | succ fuel =>
      intro hok
      obtain ⟨q, hq, hok⟩ := PyS.liftBind_ok hok
      obtain ⟨u, hqv, hok⟩ := PyS.liftBind_ok hok
      obtain ⟨u', s2, hvis, hok⟩ := PyS.bind_ok hok
      exact ih fuel s2 hr hok

theorem fullLoop_ok {F : FullEnv} {visit : Packet → PyS FullState Unit} {nc : NcCache} (fuel : Nat) {it : NodeIterator}
    {s s' : FullState} (h : F.visitLoop visit nc fuel it s = (.ok (), s')) :
    fullAll F visit nc it.left s = (.ok (), s') := by
  induction fuel generalizing it s with
  | zero =>
    unfold FullEnv.visitLoop at h
    obtain ⟨x, hx, h⟩ := PyS.liftBind_ok h
    cases x with
    | none => rw [it.next_left.1 hx]; exact h
    | some x => cases h
  | succ fuel ih =>
    unfold FullEnv.visitLoop at h
    obtain ⟨x, hx, h⟩ := PyS.liftBind_ok h
    cases x with
    | none => rw [it.next_left.1 hx]; exact h
    | some x =>
      obtain ⟨v, it'⟩ := x
      rw [it.next_left.2 _ _ hx]
      obtain ⟨p, hp, h⟩ := PyS.liftBind_ok h
      obtain ⟨u, hv, h⟩ := PyS.liftBind_ok h
      obtain ⟨u', m, hvis, h⟩ := PyS.bind_ok h
      unfold fullAll
      rw [PyS.liftBind_run hp, PyS.liftBind_run hv, PyS.bind_of_ok hvis]
      exact ih h

theorem fullIterable_of_ok {F : FullEnv} {visit : Packet → PyS FullState Unit} {nc : NcCache} {fuel : Nat} {node : Node}
    {s s' : FullState} (h : F.visitLoop visit nc fuel node.iter s = (.ok (), s')) : ∀ g ∈ node.hashGroups, g.Iterable := by
  rcases iterable_or_not node.hashGroups with hi | ⟨pre, bad, post, hgs, h1, h2⟩
  · exact hi
  · exact absurd h (fullLoop_raises (C28_iteration_raises node pre post bad hgs h1 h2) _ _ _)

theorem reportFull_ok {m : Manifest} {x : PyS FullState Unit} {s s' : FullState} (h : reportFull m x s = (.ok (), s')) :
    x s = (.ok (), s') := by
  unfold reportFull at h
  split at h
  · rename_i hx
    rw [hx]
    exact h
  · injection h with h _
    obtain ⟨_, _, h⟩ := bind_eq_ok.mp h
    cases h

/-- The same reader, keystore and library functions. -/
theorem visitLoop_sim {exact : Prop} {S : FullState → FullState → Prop} {F G : FullEnv} (hFG : G.toTravEnv = F.toTravEnv)
    {visit visit' : Packet → PyS FullState Unit} {nc : NcCache}
    (h : ∀ n hv p, F.reader n hv = .ok p → PyS.Sim exact S (visit p) (visit' p)) (fuel : Nat) (it : NodeIterator) :
    PyS.Sim exact S (F.visitLoop visit nc fuel it) (G.visitLoop visit' nc fuel it) := by
  induction fuel generalizing it with
  | zero =>
    unfold FullEnv.visitLoop
    refine .liftBind fun r _ => ?_
    cases r with
    | none => exact .pure ()
    | some r => exact .lift _
  | succ fuel ih =>
    unfold FullEnv.visitLoop
    refine .liftBind fun r _ => ?_
    cases r with
    | none => exact .pure ()
    | some r =>
      rw [hFG]
      refine .liftBind fun p hp => .bind (.lift _) fun _ => .bind ?_ fun _ => ih _
      unfold TravEnv.fetch at hp
      obtain ⟨i, _, hp⟩ := bind_eq_ok.mp hp
      obtain ⟨n, _, hp⟩ := bind_eq_ok.mp hp
      exact h _ _ _ hp

/-- Two traversals of the same packets that differ in their options. -/
theorem preorder_sim {exact : Prop} {S : FullState → FullState → Prop} {F G : FullEnv} (hFG : G.toTravEnv = F.toTravEnv)
    (hcount : PyS.Sim exact S (PyS.modify (fun s => { s with count := s.count + 1 })).onWalk
      (PyS.modify (fun s => { s with count := s.count + 1 })).onWalk)
    (hdec : ∀ m, PyS.Sim exact S (F.decrypt m).onWalk (F.decrypt m).onWalk)
    (hman : ∀ n hv p h node, F.reader n hv = .ok p → p.hash F.prims.sha256 = .ok h → ∀ {x y : PyS FullState Unit},
      PyS.Sim exact S x y → (∀ s, (∃ a, (x s).1 = .ok a) → ∀ g ∈ node.hashGroups, g.pointers.isSome) →
      PyS.Sim exact S (F.noteManifest h node p.body.name >>= fun _ => x) (G.noteManifest h node p.body.name >>= fun _ => y))
    (hdata : ∀ n hv p h, F.reader n hv = .ok p → p.hash F.prims.sha256 = .ok h → p.body.payloadType = some PT_DATA →
      PyS.Sim exact S (F.noteData h p.body.name >>= fun _ => F.writeData p.body.payload)
        (G.noteData h p.body.name >>= fun _ => G.writeData p.body.payload))
    (depth : Nat) : ∀ (nc : NcCache) (n : Option Name) (hv : Option HashValue) (p : Packet), F.reader n hv = .ok p →
      PyS.Sim exact S (F.preorder depth nc p) (G.preorder depth nc p) := by
  induction depth with
  | zero => exact fun _ _ _ _ _ => .lift _
  | succ depth ih =>
    intro nc n hv p hp
    unfold FullEnv.preorder
    rw [hFG]
    refine .liftBind fun h hh => .bind hcount fun _ => ?_
    cases ht : p.body.payloadType with
    | none => exact .lift _
    | some ty =>
      dsimp only
      by_cases h1 : ty = PT_MANIFEST
      · rw [if_pos h1, if_pos h1]
        refine .bind (.lift _) fun m => .bind (hdec m) fun m => ?_
        cases m.node with
        | encrypted _ => exact .lift _
        | plain node =>
          refine hman _ _ _ h node hp hh (.bind (.lift _) fun nc => reportFull_sim m
            (visitLoop_sim hFG (fun n hv p hp => ih nc n hv p hp) _ _)) fun s ⟨a, ha⟩ => ?_
          have ha : (PyS.lift (updateNcCache nc node) >>= fun nc => reportFull m (F.visitLoop (fun q => F.preorder depth nc q) nc
            node.pointerCount node.iter)) s = (.ok (), ((PyS.lift (updateNcCache nc node) >>= fun nc => reportFull m
              (F.visitLoop (fun q => F.preorder depth nc q) nc node.pointerCount node.iter)) s).2) := Prod.ext ha rfl
          obtain ⟨nc', _, ha⟩ := PyS.liftBind_ok ha
          intro g hg
          obtain ⟨ps, hps, _⟩ := fullIterable_of_ok (reportFull_ok ha) g hg
          rw [hps]
          rfl
      · rw [if_neg h1, if_neg h1]
        by_cases h2 : ty = PT_DATA
        · rw [if_pos h2, if_pos h2]
          exact hdata _ _ _ h hp hh (by rw [ht, h2])
        · rw [if_neg h2, if_neg h2]
          exact .lift _

theorem traverse_sim {exact : Prop} {S : FullState → FullState → Prop} {F G : FullEnv} (hFG : G.toTravEnv = F.toTravEnv)
    {depth : Nat} (h : ∀ (nc : NcCache) (n : Option Name) (hv : Option HashValue) (p : Packet), F.reader n hv = .ok p →
      PyS.Sim exact S (F.preorder depth nc p) (G.preorder depth nc p)) (name : Option Name) (hash : Option HashValue) :
    PyS.Sim exact S (F.traverse depth name hash) (G.traverse depth name hash) := by
  unfold FullEnv.traverse
  rw [hFG]
  exact .liftBind fun p hp => .bind (.lift _) fun _ => h _ _ _ _ hp

end Ccnpy
