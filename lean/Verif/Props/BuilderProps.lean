import Verif.Lemmas.Keys
import Verif.Lemmas.Core
import Verif.Lemmas.Fold
import Verif.Model.Tree

/-!
# C54: the hash group builder
-/

namespace Ccnpy

/-- A call on a `HashGroupBuilder`; the size is the optional last argument. -/
inductive Spec.GroupOp where
  | appendDirect (h : HashValue) (size : Option Nat)
  | prependDirect (h : HashValue) (size : Option Nat)
  | appendIndirect (h : HashValue) (size : Option Nat)
  | prependIndirect (h : HashValue) (size : Option Nat)

namespace Spec.GroupOp

/-- The call, on the model. -/
def run (b : HashGroupBuilder) : Spec.GroupOp → Py HashGroupBuilder
  | .appendDirect h s => b.appendDirect h s
  | .prependDirect h s => b.prependDirect h s
  | .appendIndirect h s => b.appendIndirect h s
  | .prependIndirect h s => b.prependIndirect h s

/-- Is it a call for a data object (as opposed to a manifest)? -/
def isDirect : Spec.GroupOp → Bool
  | .appendDirect _ _ => true
  | .prependDirect _ _ => true
  | _ => false

/-- Does it insert at the front? -/
def isFront : Spec.GroupOp → Bool
  | .prependDirect _ _ => true
  | .prependIndirect _ _ => true
  | _ => false

/-- The pointer inserted. -/
def hash : Spec.GroupOp → HashValue
  | .appendDirect h _ => h
  | .prependDirect h _ => h
  | .appendIndirect h _ => h
  | .prependIndirect h _ => h

/-- The size given, 0 if none is. -/
def size : Spec.GroupOp → Nat
  | .appendDirect _ s => s.getD 0
  | .prependDirect _ s => s.getD 0
  | .appendIndirect _ s => s.getD 0
  | .prependIndirect _ s => s.getD 0

end Spec.GroupOp

/-- Specification: `count` insertions respect the limit (`none`: no limit). -/
def Spec.within (count : Nat) (limit : Option Nat) : Prop := ∀ m, limit = some m → count ≤ m

instance (count : Nat) (limit : Option Nat) : Decidable (Spec.within count limit) :=
  match limit with
  | none => isTrue (by simp [Spec.within])
  | some m => if h : count ≤ m then isTrue (by simpa [Spec.within] using h) else isFalse (by simpa [Spec.within] using h)

open Spec

/-- A builder just made, with limits. -/
def freshBuilder (maxDirect maxIndirect : Option Nat) : HashGroupBuilder := { maxDirect := maxDirect, maxIndirect := maxIndirect }

/-- The calls in order. -/
def runOps (maxDirect maxIndirect : Option Nat) (ops : List GroupOp) : Py HashGroupBuilder :=
  ops.foldlM GroupOp.run (freshBuilder maxDirect maxIndirect)

theorem limitReached_eq (c : Nat) (l : Option Nat) : limitReached c l = !decide (within (c + 1) l) := by
  cases l with
  | none => simp [limitReached, within]
  | some m =>
    simp only [limitReached, within, Option.some.injEq, forall_eq']
    by_cases h : m ≤ c
    · simp [h]; omega
    · simp [h]; omega

/-- One call: what it does, and when it raises. -/
theorem GroupOp_run (b : HashGroupBuilder) (op : GroupOp) :
    op.run b =
      if (if op.isDirect then within (b.directCount + 1) b.maxDirect else within (b.indirectCount + 1) b.maxIndirect) then
        .ok { b with
          pointers := if op.isFront then op.hash :: b.pointers else b.pointers ++ [op.hash]
          directCount := if op.isDirect then b.directCount + 1 else b.directCount
          indirectCount := if op.isDirect then b.indirectCount else b.indirectCount + 1
          directSize := if op.isDirect then b.directSize + op.size else b.directSize
          indirectSize := if op.isDirect then b.indirectSize else b.indirectSize + op.size }
      else .error .assertionError := by
  cases op <;>
    simp only [GroupOp.run, HashGroupBuilder.appendDirect, HashGroupBuilder.prependDirect, HashGroupBuilder.appendIndirect,
      HashGroupBuilder.prependIndirect, HashGroupBuilder.isDirectFull, HashGroupBuilder.isIndirectFull, limitReached_eq,
      GroupOp.isDirect, GroupOp.isFront, GroupOp.hash, GroupOp.size, pyAssert, Bool.not_not, decide_eq_true_eq, if_true,
      Bool.false_eq_true, if_false]
  all_goals (split <;> simp [bind, Except.bind])

/-- C54 (a): after any sequence of insertions that did not raise, the builder holds exactly the inserted pointers: those
inserted at the front in reverse order, then those inserted at the end; counts and sizes are those of the insertions of each
kind, and the limits are respected. -/
theorem C54_contents (maxD maxI : Option Nat) (ops : List GroupOp) (b : HashGroupBuilder)
    (h : runOps maxD maxI ops = .ok b) :
    b.pointers = ((ops.filter GroupOp.isFront).map GroupOp.hash).reverse
        ++ (ops.filter (fun o => !o.isFront)).map GroupOp.hash ∧
    b.directCount = (ops.filter GroupOp.isDirect).length ∧
    b.indirectCount = (ops.filter (fun o => !o.isDirect)).length ∧
    b.directSize = ((ops.filter GroupOp.isDirect).map GroupOp.size).sum ∧
    b.indirectSize = ((ops.filter (fun o => !o.isDirect)).map GroupOp.size).sum ∧
    within b.directCount maxD ∧ within b.indirectCount maxI ∧
    b.maxDirect = maxD ∧ b.maxIndirect = maxI := by
  unfold runOps at h
  induction ops using reverse_induction generalizing b with
  | nil =>
    cases Except.ok.inj h
    simp [freshBuilder, within]
  | snoc ops op ih =>
    rw [List.foldlM_append] at h
    obtain ⟨m, hm, h⟩ := bind_eq_ok.mp h
    obtain ⟨x, hx, h⟩ := bind_eq_ok.mp (by simpa [List.foldlM_cons] using h)
    cases h
    obtain ⟨h1, h2, h3, h4, h5, h6, h7, h8, h9⟩ := ih m hm
    rw [GroupOp_run] at hx
    rw [h8, h9] at hx
    rw [h2] at h6
    rw [h3] at h7
    cases hd : op.isDirect <;> cases hf : op.isFront <;>
      simp only [hd, hf, Bool.false_eq_true, if_true, if_false] at hx
    all_goals
      split at hx
      · rename_i hw
        simp only [h2, h3] at hw
        cases Except.ok.inj hx
        simp [List.filter_append, hd, hf, h1, h2, h3, h4, h5, h6, h7, hw]
      · cases hx

/-- C54 (b): a sequence of insertions raises exactly when there are more insertions of a kind than its limit, and then it
raises AssertionError. -/
theorem C54_raises_iff_full (maxD maxI : Option Nat) (ops : List GroupOp) :
    ((∃ b, runOps maxD maxI ops = .ok b) ↔
      within (ops.filter GroupOp.isDirect).length maxD ∧ within (ops.filter (fun o => !o.isDirect)).length maxI) ∧
    (∀ e, runOps maxD maxI ops = .error e → e = .assertionError) := by
  have mono : ∀ (a b : Nat) (l : Option Nat), a ≤ b → within b l → within a l := fun a b l hab hb m hm => by
    have := hb m hm; omega
  induction ops using reverse_induction with
  | nil =>
    refine ⟨⟨fun _ => by simp [within], fun _ => ⟨_, rfl⟩⟩, ?_⟩
    intro e h
    cases h
  | snoc ops op ih =>
    have hrun : runOps maxD maxI (ops ++ [op]) = (runOps maxD maxI ops >>= fun b => op.run b) := by
      unfold runOps
      rw [List.foldlM_append]
      cases List.foldlM GroupOp.run (freshBuilder maxD maxI) ops with
      | error e => rfl
      | ok b =>
        change ([op].foldlM GroupOp.run b : Py _) = op.run b
        rw [List.foldlM_cons]
        cases op.run b <;> rfl
    rw [hrun]
    cases hr : runOps maxD maxI ops with
    | error e =>
      refine ⟨⟨?_, fun hw => ?_⟩, ?_⟩
      · rintro ⟨b, hb⟩; cases hb
      rotate_left
      · intro e' he'; cases he'; exact ih.2 e hr
      exfalso
      have hw' : within (ops.filter GroupOp.isDirect).length maxD ∧ within (ops.filter (fun o => !o.isDirect)).length maxI := by
        refine ⟨mono _ _ _ ?_ hw.1, mono _ _ _ ?_ hw.2⟩
        · rw [List.filter_append, List.length_append]; omega
        · rw [List.filter_append, List.length_append]; omega
      obtain ⟨b, hb⟩ := ih.1.mpr hw'
      rw [hr] at hb
      cases hb
    | ok b =>
      obtain ⟨h1, h2, h3, _, _, h6, h7, h8, h9⟩ := C54_contents maxD maxI ops b hr
      change (((∃ b', op.run b = .ok b') ↔ _) ∧ ∀ e, op.run b = .error e → _)
      rw [GroupOp_run, h8, h9, h2, h3]
      rw [h2] at h6
      rw [h3] at h7
      cases hd : op.isDirect
      · simp only [Bool.false_eq_true, if_false, List.filter_append, List.filter_cons, List.filter_nil, hd, Bool.not_false,
          if_true, List.append_nil, List.length_append, List.length_cons, List.length_nil, Nat.zero_add]
        by_cases hw : within ((ops.filter (fun o => !o.isDirect)).length + 1) maxI
        · simp [hw, h6]
        · simp [hw]
      · simp only [if_true, List.filter_append, List.filter_cons, List.filter_nil, hd, Bool.not_true, Bool.false_eq_true,
          if_false, List.append_nil, List.length_append, List.length_cons, List.length_nil, Nat.zero_add]
        by_cases hw : within ((ops.filter GroupOp.isDirect).length + 1) maxD
        · simp [hw, h7]
        · simp [hw]

theorem length_filter_split {α : Type} (p : α → Bool) (l : List α) :
    l.length = (l.filter p).length + (l.filter (fun x => !p x)).length := by
  induction l with
  | nil => rfl
  | cons a l ih => cases h : p a <;> simp [h, ih] <;> omega

/-- C54 (c): with limits, a builder never holds more than `max_direct + max_indirect` pointers. -/
theorem C54_at_most_max (maxD maxI : Nat) (ops : List GroupOp) (b : HashGroupBuilder)
    (h : runOps (some maxD) (some maxI) ops = .ok b) :
    b.pointers.length = b.directCount + b.indirectCount ∧ b.pointers.length ≤ maxD + maxI := by
  obtain ⟨h1, h2, h3, _, _, h6, h7, _, _⟩ := C54_contents _ _ ops b h
  have hd := h6 maxD rfl
  have hi := h7 maxI rfl
  have hlen : b.pointers.length = ops.length := by
    rw [h1, List.length_append, List.length_reverse, List.length_map, List.length_map]
    have := length_filter_split GroupOp.isFront ops
    omega
  have := length_filter_split GroupOp.isDirect ops
  omega

theorem sum_filter_split {α : Type} (p : α → Bool) (f : α → Nat) (l : List α) :
    (l.map f).sum = ((l.filter p).map f).sum + ((l.filter (fun x => !p x)).map f).sum := by
  induction l with
  | nil => rfl
  | cons a l ih => cases h : p a <;> simp [h, ih] <;> omega

/-- C54 (d): the hash group made from the builder lists the pointers in that order and records the accumulated sizes exactly
when asked to. -/
theorem C54_hash_group (maxD maxI : Option Nat) (ops : List GroupOp) (b : HashGroupBuilder)
    (h : runOps maxD maxI ops = .ok b) (ncId start : Option Nat) (leaf subtree : Bool) (g : HashGroup)
    (hg : b.hashGroup ncId start leaf subtree = .ok g) :
    g.pointers = some (((ops.filter GroupOp.isFront).map GroupOp.hash).reverse
        ++ (ops.filter (fun o => !o.isFront)).map GroupOp.hash) ∧
    (g.groupData = none ↔ leaf = false ∧ subtree = false ∧ ncId = none ∧ start = none) ∧
    (∀ d, g.groupData = some d → d.ncId = ncId ∧ d.startSegmentId = start ∧ d.leafDigest = none ∧ d.subtreeDigest = none ∧
      d.leafSize = (if leaf then some ((ops.filter GroupOp.isDirect).map GroupOp.size).sum else none) ∧
      d.subtreeSize = (if subtree then some (ops.map GroupOp.size).sum else none)) := by
  obtain ⟨h1, _, _, h4, h5, _⟩ := C54_contents _ _ ops b h
  unfold HashGroupBuilder.hashGroup at hg
  obtain ⟨hg, _⟩ := construct_inv hg
  have hsum : (ops.map GroupOp.size).sum = b.indirectSize + b.directSize := by
    rw [h4, h5, Nat.add_comm]
    exact sum_filter_split GroupOp.isDirect GroupOp.size ops
  rw [hsum, ← h1, ← h4]
  subst hg
  refine ⟨rfl, ?_, ?_⟩
  · dsimp only
    split
    · rename_i hc
      simp only [reduceCtorEq, false_iff]
      rintro ⟨rfl, rfl, rfl, rfl⟩
      simp at hc
    · rename_i hc
      simp only [true_iff]
      cases leaf <;> cases subtree <;> cases ncId <;> cases start <;> simp_all
  · intro d hd
    dsimp only at hd
    split at hd
    · cases hd
      exact ⟨rfl, rfl, rfl, rfl, rfl, rfl⟩
    · cases hd

/-- Non-vacuity: limits 2 and 1; three insertions succeed in the stated order, a fourth raises. -/
example : (runOps (some 2) (some 1) [.appendDirect ⟨1, [1]⟩ (some 10), .prependDirect ⟨1, [2]⟩ none,
      .prependIndirect ⟨1, [3]⟩ (some 5)]).toOption.map (fun b => (b.pointers, b.directSize, b.indirectSize))
    = some ([⟨1, [3]⟩, ⟨1, [2]⟩, ⟨1, [1]⟩], 10, 5) ∧
  runOps (some 2) (some 1) [.appendDirect ⟨1, [1]⟩ none, .prependDirect ⟨1, [2]⟩ none, .appendDirect ⟨1, [3]⟩ none]
    = .error .assertionError := by decide

end Ccnpy
