import Verif.Model.Iterators
import Verif.Props.EqualityProps

/-!
# Loops over objects that are their own iterators (C93)
-/

namespace Ccnpy

variable {α σ : Type}

theorem next_at {s : SelfIter α} {k : Nat} (hk : s.offset = some k) (h : k ≤ s.items.length) :
    s.next = match s.items[k]? with
      | none => (.ok none, s)
      | some x => (.ok (some x), { s with offset := some (k + 1) }) := by
  unfold SelfIter.next
  simp only [hk]
  by_cases he : k = s.items.length
  · simp [he]
  · rw [if_neg (by simpa using he)]
    cases hx : s.items[k]? with
    | none => exact absurd (List.getElem?_eq_none_iff.mp hx) (by omega)
    | some x => rfl

theorem forRounds_succ (body : α → Stmt (SelfIter α × σ) Bool) (fuel : Nat) (it : SelfIter α) (st : σ) :
    forRounds body (fuel + 1) (it, st) = match it.next with
      | (.error e, it) => (.error e, (it, st))
      | (.ok none, it) => (.ok (), (it, st))
      | (.ok (some x), it) =>
        match body x (it, st) with
        | (.error e, s) => (.error e, s)
        | (.ok false, s) => (.ok (), s)
        | (.ok true, s) => forRounds body fuel s := rfl

theorem forRevRounds_succ (body : α → Stmt σ Bool) (fuel : Nat) (it : RevIter α) (s : σ) :
    forRevRounds body (fuel + 1) it s = match it.next with
      | (.error e, _) => (.error e, s)
      | (.ok none, _) => (.ok (), s)
      | (.ok (some x), it) =>
        match body x s with
        | (.error e, s) => (.error e, s)
        | (.ok false, s) => (.ok (), s)
        | (.ok true, s) => forRevRounds body fuel it s := rfl

/-- From offset `k` on, a body that leaves the object alone and does not raise or break is run for the remaining items. -/
theorem rounds_from (f : σ → α → σ) (items : List α) {k fuel : Nat} (hk : k ≤ items.length) (hf : items.length - k < fuel) (st : σ) :
    forRounds (fun x s => (.ok true, (s.1, f s.2 x))) fuel (⟨items, some k⟩, st) =
      (.ok (), (⟨items, some items.length⟩, (items.drop k).foldl f st)) := by
  induction fuel generalizing k st with
  | zero => omega
  | succ fuel ih =>
    rw [forRounds_succ]
    rw [next_at rfl hk]
    by_cases he : k = items.length
    · subst he
      simp
    · have hx : items[k]? = some items[k] := List.getElem?_eq_getElem (by omega)
      simp only [hx]
      rw [ih (by omega) (by omega)]
      rw [List.drop_eq_getElem_cons (show k < items.length by omega)]
      rfl

/-- C93: a loop over such an object runs through all its items in order, whatever was done with it before, and leaves it at its end. -/
theorem C93_loop (f : σ → α → σ) (s : SelfIter α) (st : σ) (fuel : Nat) (hf : s.items.length < fuel) :
    forSelf (fun x s => (.ok true, (s.1, f s.2 x))) fuel (s, st) =
      (.ok (), (⟨s.items, some s.items.length⟩, s.items.foldl f st)) :=
  rounds_from f s.items (Nat.zero_le _) (by omega) st

theorem foldl_snoc {β : Type} (g : α → β) (l : List α) (acc : List β) : l.foldl (fun a x => a ++ [g x]) acc = acc ++ l.map g := by
  induction l generalizing acc with
  | nil => simp
  | cons x l ih => rw [List.foldl_cons, ih]; simp

/-- C93: so the hash values of the groups, and the bytes of a TLV, are collected completely, each time. -/
theorem C93_collect (s : SelfIter α) (acc : List α) (fuel : Nat) (hf : s.items.length < fuel) :
    collect fuel (s, acc) = (.ok (), (⟨s.items, some s.items.length⟩, acc ++ s.items)) := by
  unfold collect
  rw [C93_loop (fun (a : List α) x => a ++ [x]) s acc fuel hf, foldl_snoc (fun x => x), List.map_id']

/-- C93: what a hash value hands out is its TLV, type and length included. -/
theorem C93_bytes (h : HashValue) (s : SelfIter UInt8) (hs : h.selfIter = .ok s) (fuel : Nat) (hf : s.items.length < fuel) :
    ∃ t, h.tlv = .ok t ∧ t.serialize = .ok s.items ∧ collect fuel (s, []) = (.ok (), (⟨s.items, some s.items.length⟩, s.items)) := by
  obtain ⟨t, ht, h⟩ := bind_eq_ok.mp hs
  obtain ⟨b, hb, h⟩ := bind_eq_ok.mp h
  cases h
  exact ⟨t, ht, hb, C93_collect _ [] fuel hf⟩

/-- C93: a loop over an object inside a loop over the same object ends the outer one: the pairs are those of the first item. -/
theorem C93_nested (s : SelfIter α) (fuel : Nat) (hf : s.items.length < fuel) (h2 : 2 ≤ fuel) :
    collectPairs fuel (s, []) = (.ok (), (⟨s.items, some (if s.items = [] then 0 else s.items.length)⟩,
      s.items.flatMap (fun y => (s.items.head?.toList.map (fun x => (x, y)))))) := by
  unfold collectPairs
  obtain ⟨items, off⟩ := s
  simp only at hf ⊢
  obtain ⟨fuel, rfl⟩ : ∃ n, fuel = n + 2 := ⟨fuel - 2, by omega⟩
  show forRounds _ (fuel + 1 + 1) (SelfIter.iter ⟨items, off⟩, []) = _
  rw [forRounds_succ]
  cases items with
  | nil => rfl
  | cons a l =>
    have hn : (SelfIter.iter ⟨a :: l, off⟩).next = (.ok (some a), ⟨a :: l, some 1⟩) := rfl
    simp only [hn]
    rw [C93_loop (fun (out : List (α × α)) y => out ++ [(a, y)]) ⟨a :: l, some 1⟩ [] (fuel + 1 + 1) (by simpa using hf)]
    rw [foldl_snoc (fun y => (a, y))]
    simp only
    rw [forRounds_succ]
    rw [next_at rfl (Nat.le_refl _)]
    simp only [List.getElem?_length, List.head?_cons, Option.toList_some, List.map_cons, List.map_nil, List.nil_append]
    rw [List.map_eq_flatMap]
    simp

/-- One round of the outer loop leaves the object at offset one. -/
theorem first_round (items : List α) (k : Nat) (fuel : Nat) (h : items ≠ []) :
    forSelf (fun _ s => (.ok false, s)) (fuel + 1) ((⟨items, some k⟩ : SelfIter α), ()) = (.ok (), (⟨items, some 1⟩, ())) := by
  cases items with
  | nil => exact absurd rfl h
  | cons a l => rfl

/-- C93: with `break` in the inner loop the outer one does not end, if there are two items or more, however many rounds it is given;
with one item it ends. -/
theorem C93_nested_break (s : SelfIter α) :
    (2 ≤ s.items.length → ∀ fuel, ∃ s', firstOfEach fuel (s, ()) = (.error .nonTermination, s')) ∧
    (s.items.length ≤ 1 → ∀ fuel, 2 ≤ fuel → ∃ s', firstOfEach fuel (s, ()) = (.ok (), s')) := by
  obtain ⟨items, off⟩ := s
  constructor
  · intro h fuel
    cases fuel with
    | zero => exact ⟨_, rfl⟩
    | succ n =>
      have step : ∀ rounds k, k < 2 → ∃ s', forRounds (fun _ s =>
          match forSelf (fun _ s => (.ok false, s)) (n + 1) s with
          | (.error e, s) => (.error e, s)
          | (.ok (), s) => (.ok true, s)) rounds ((⟨items, some k⟩ : SelfIter α), ()) = (.error .nonTermination, s') := by
        intro rounds
        induction rounds with
        | zero => intro k _; exact ⟨_, rfl⟩
        | succ r ih =>
          intro k hk
          simp only at h
          rw [forRounds_succ]
          rw [next_at rfl (show k ≤ items.length by omega)]
          rw [show items[k]? = some items[k] from List.getElem?_eq_getElem (by omega)]
          simp only
          rw [first_round items (k + 1) n (by intro he; rw [he] at h; simp at h)]
          exact ih 1 (by omega)
      exact step (n + 1) 0 (by omega)
  · intro h fuel h2
    obtain ⟨n, rfl⟩ : ∃ n, fuel = n + 2 := ⟨fuel - 2, by omega⟩
    match items, h with
    | [], _ => exact ⟨_, rfl⟩
    | [a], _ => exact ⟨_, rfl⟩

/-- C93: `next` before any `iter` raises AttributeError. -/
theorem C93_next_first (s : SelfIter α) : s.offset = none ↔ (s.next).1 = .error .attributeError := by
  constructor
  · intro h
    unfold SelfIter.next
    rw [h]
  · intro h
    unfold SelfIter.next at h
    split at h
    · assumption
    · split at h
      · cases h
      · split at h <;> cases h

/-- C93: collecting the hash values of one of two equal lists of pointers makes them differ; collecting those of the other too makes
them equal again. -/
theorem C93_reading_changes_equality (l : List HashValue) (t : Tlv) (ht : pointersTlv l = .ok t) (fuel : Nat) (hf : l.length < fuel) :
    ∃ s, collect fuel (pointersSelfIter l, []) = (.ok (), (s, l)) ∧
      pointersEqual l (pointersSelfIter l).offset l (pointersSelfIter l).offset = .ok true ∧
      pointersEqual l s.offset l (pointersSelfIter l).offset = .ok false ∧
      pointersEqual l s.offset l s.offset = .ok true := by
  refine ⟨⟨l, some l.length⟩, ?_, ?_, rfl, ?_⟩
  · exact C93_collect (pointersSelfIter l) [] fuel hf
  · exact (C87_pointers l l _ _ t t ht ht).mpr ⟨rfl, rfl⟩
  · exact (C87_pointers l l _ _ t t ht ht).mpr ⟨rfl, rfl⟩

/-! ## Iterators that run backwards -/

theorem rev_rounds (f : σ → α → σ) (l : List α) {k fuel : Nat} (hk : k ≤ l.length) (hf : k < fuel) (st : σ) :
    forRevRounds (fun x s => (.ok true, f s x)) fuel ⟨l, (k : Int) - 1⟩ st = (.ok (), (l.take k).reverse.foldl f st) := by
  induction k generalizing fuel st with
  | zero =>
    obtain ⟨n, rfl⟩ : ∃ n, fuel = n + 1 := ⟨fuel - 1, by omega⟩
    rfl
  | succ k ih =>
    obtain ⟨n, rfl⟩ : ∃ n, fuel = n + 1 := ⟨fuel - 1, by omega⟩
    rw [forRevRounds_succ]
    have hx : l[k]? = some l[k] := List.getElem?_eq_getElem (by omega)
    have hn : RevIter.next ⟨l, ((k + 1 : Nat) : Int) - 1⟩ = (.ok (some l[k]), ⟨l, (k : Int) - 1⟩) := by
      unfold RevIter.next
      rw [if_neg (show ¬ (((k + 1 : Nat) : Int) - 1 < 0) by omega)]
      simp only [show (((k + 1 : Nat) : Int) - 1).toNat = k by omega, hx]
      rw [show (((k + 1 : Nat) : Int) - 1) = k by omega]
    simp only [hn]
    rw [ih (by omega) (by omega), List.take_succ_eq_append_getElem (by omega), List.reverse_append]
    rfl

/-- C93: a loop over the chunks of a file runs through them from the last to the first. -/
theorem C93_backwards (f : σ → α → σ) (l : List α) (st : σ) (fuel : Nat) (hf : l.length < fuel) :
    forRev l (fun x s => (.ok true, f s x)) fuel st = (.ok (), l.reverse.foldl f st) := by
  have h := rev_rounds f l (Nat.le_refl _) hf st
  rw [List.take_length] at h
  exact h

/-- C93: these iterators are objects of their own, so nested loops see all pairs. -/
theorem C93_backwards_nested (l : List α) (fuel : Nat) (hf : l.length < fuel) :
    collectRevPairs l fuel [] = (.ok (), l.reverse.flatMap (fun x => l.reverse.map (fun y => (x, y)))) := by
  unfold collectRevPairs
  have hb : (fun x s => match forRev l (fun y (s : List (α × α)) => (.ok true, s ++ [(x, y)])) fuel s with
      | (.error e, s) => (.error e, s)
      | (.ok (), s) => (.ok true, s)) = fun x (s : List (α × α)) => ((.ok true : Py Bool), s ++ l.reverse.map (fun y => (x, y))) := by
    funext x s
    rw [C93_backwards (fun (s : List (α × α)) y => s ++ [(x, y)]) l s fuel hf, foldl_snoc (fun y => (x, y))]
  refine (congrArg (fun b => forRev l b fuel []) hb).trans ?_
  show forRev l _ fuel [] = _
  rw [C93_backwards (fun (s : List (α × α)) x => s ++ l.reverse.map (fun y => (x, y))) l [] fuel hf]
  congr 1
  suffices ∀ (m : List α) acc, m.foldl (fun s x => s ++ l.reverse.map (fun y => (x, y))) acc =
      acc ++ m.flatMap (fun x => l.reverse.map (fun y => (x, y))) by simpa using this l.reverse []
  intro m
  induction m with
  | nil => simp
  | cons x m ih => intro acc; rw [List.foldl_cons, ih]; simp

/-- C93: three items. -/
example : collectPairs 9 (⟨[1, 2, 3], none⟩, []) = (.ok (), (⟨[1, 2, 3], some 3⟩, [(1, 1), (1, 2), (1, 3)])) := rfl

example : (collectRevPairs [1, 2] 9 []).2 = [(2, 2), (2, 1), (1, 2), (1, 1)] := rfl

/-- C93: a list of two pointers. -/
example : ∃ t, pointersTlv [HashValue.sha256 [1, 2], HashValue.sha256 [3]] = .ok t := ⟨_, rfl⟩

end Ccnpy
