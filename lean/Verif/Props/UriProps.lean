import Verif.Lemmas.Uri
import Verif.Lemmas.Display
import Verif.Props.TlvProps
import Verif.Props.CoreProps

/-!
# C57-C59: names as URIs, and the file names of links
-/

namespace Ccnpy

/-! ## Specification -/

/-- A text that can stand between two slashes: no slash, no `?` or `#`, no tab or line end. -/
def Spec.PathText (s : Text) : Prop :=
  ∀ c ∈ s, c ≠ '/' ∧ c ≠ '?' ∧ c ≠ '#' ∧ c ≠ '\t' ∧ c ≠ '\r' ∧ c ≠ '\n'

/-- The name whose components are name segments holding the texts in UTF-8. -/
def Spec.nameOf (ss : List Text) : Name := ⟨ss.map (fun s => .nameSegment (utf8Encode s))⟩

/-- The length of that name on the wire, without its outer type and length. -/
def Spec.nameOfLen (ss : List Text) : Nat := (ss.map (fun s => 4 + (utf8Encode s).length)).sum

/-- The segments that are kept: `PurePath` drops empty ones and `.`. -/
def Spec.kept (ss : List Text) : List Text := ss.filter (fun s => s ≠ [] ∧ s ≠ ['.'])

/-- `ccnx:/` followed by the segments. -/
def Spec.uri (ss : List Text) : Text := ['c', 'c', 'n', 'x', ':', '/'] ++ joinWith '/' ss

/-! ## Helpers -/

theorem nameOf_tlv {ss : List Text} (h : Spec.nameOfLen ss ≤ 0xFFFF) : ∃ t, (Spec.nameOf ss).tlv = .ok t := by
  have hlen : (bytesAll ((Spec.nameOf ss).components.map NameComponent.asTlv)).length = Spec.nameOfLen ss := by
    clear h
    unfold Spec.nameOf Spec.nameOfLen
    simp only
    induction ss with
    | nil => rfl
    | cons s ss ih => simp [NameComponent.nameSegment, NameComponent.asTlv, bytesAll, Tlv.bytes] at ih ⊢; omega
  refine ⟨_, Name.tlv_iff.mpr ⟨?_, by omega, rfl⟩⟩
  intro c hc
  obtain ⟨s, hs, rfl⟩ := List.mem_map.mp hc
  have : 4 + (utf8Encode s).length ≤ Spec.nameOfLen ss := by
    clear hlen h
    unfold Spec.nameOfLen
    induction ss with
    | nil => simp at hs
    | cons x ss ih =>
      simp only [List.map_cons, List.sum_cons]
      rcases List.mem_cons.mp hs with rfl | hs
      · omega
      · have := ih hs (List.mem_map.mpr ⟨s, hs, rfl⟩)
        omega
  simp only [NameComponent.nameSegment, NameComponent.asTlv, Tlv.Valid, T_NAMESEGMENT]
  omega

theorem fromUri_of {u : Text} {q : Text} {ss : List Text} (hp : urlParse u = (['c', 'c', 'n', 'x'], q))
    (hs : (purePathParts q).drop 1 = ss) (h : Spec.nameOfLen ss ≤ 0xFFFF) : Name.fromUri (some u) = .ok (some (Spec.nameOf ss)) := by
  obtain ⟨t, ht⟩ := nameOf_tlv h
  have hc : ∀ s ∈ ss, construct NameComponent.tlv (.nameSegment (utf8Encode s)) = .ok (.nameSegment (utf8Encode s)) := by
    intro s hs
    have hm : NameComponent.nameSegment (utf8Encode s) ∈ (Spec.nameOf ss).components := List.mem_map.mpr ⟨s, hs, rfl⟩
    have hv := mkTlv_of_valid ((Name.tlv_iff.mp ht).1 _ hm)
    generalize NameComponent.nameSegment (utf8Encode s) = c at hv ⊢
    exact construct_ok (t := c.asTlv) hv
  unfold Name.fromUri
  simp only [hp, hs]
  rw [mapM_ok_of (g := fun s => .nameSegment (utf8Encode s)) hc]
  simp only [pyAssert, beq_self_eq_true, if_true, ok_bind]
  have : construct Name.tlv (Spec.nameOf ss) = .ok (Spec.nameOf ss) := construct_ok ht
  unfold Spec.nameOf at this
  rw [this]
  rfl

theorem pathText_join {ss : List Text} (h : ∀ s ∈ ss, Spec.PathText s) :
    ∀ c ∈ joinWith '/' ss, c ≠ '?' ∧ c ≠ '#' ∧ c ≠ '\t' ∧ c ≠ '\r' ∧ c ≠ '\n' := by
  intro c hc
  rcases mem_joinWith hc with rfl | ⟨x, hx, hc⟩
  · decide
  · exact (h x hx c hc).2

theorem parts_absolute {ss : List Text} (hne : ss ≠ []) (h : ∀ s ∈ ss, Spec.PathText s) :
    (purePathParts ('/' :: joinWith '/' ss)).drop 1 = Spec.kept ss := by
  have hsplit : splitOn '/' ('/' :: joinWith '/' ss) = [] :: ss := by
    have := splitOn_append (sep := '/') (x := []) (y := joinWith '/' ss) (by simp)
    rw [List.nil_append] at this
    rw [this, splitOn_join hne (fun x hx hm => (h x hx _ hm).1 rfl)]
  have hf : (splitOn '/' ('/' :: joinWith '/' ss)).filter (fun x => x != [] && x != ['.']) = Spec.kept ss := by
    rw [hsplit]
    simp only [Spec.kept, List.filter_cons]
    simp
    refine List.filter_congr fun x _ => ?_
    by_cases h1 : x = [] <;> by_cases h2 : x = ['.'] <;> simp [h1, h2]
  unfold purePathParts
  simp only [hf]
  split <;> first | rfl | (rename_i h1 h2 h3; exact absurd rfl (h3 _))

/-! ## C57 -/

/-- C57: a URI `ccnx:/s1/s2/…` becomes the name of those segments in UTF-8, in order; empty segments (after the first) and `.`
are left out. -/
theorem C57_from_uri (ss : List Text) (h : ∀ s ∈ ss, Spec.PathText s) (hfirst : ss.head? ≠ some [])
    (hlen : Spec.nameOfLen (Spec.kept ss) ≤ 0xFFFF) :
    Name.fromUri (some (Spec.uri ss)) = .ok (some (Spec.nameOf (Spec.kept ss))) := by
  have hj := pathText_join h
  have hurl : urlParse (Spec.uri ss) = (['c', 'c', 'n', 'x'], '/' :: joinWith '/' ss) := by
    have e : Spec.uri ss = 'c' :: 'c' :: 'n' :: 'x' :: ':' :: ('/' :: joinWith '/' ss) := rfl
    rw [e, urlParse_ccnx]
    have h1 : noBreaks ('/' :: joinWith '/' ss) = '/' :: joinWith '/' ss := by
      refine noBreaks_id fun c hc => ?_
      rcases List.mem_cons.mp hc with rfl | hc
      · decide
      · exact (hj c hc).2.2
    have h2 : afterAuthority ('/' :: joinWith '/' ss) = '/' :: joinWith '/' ss := by
      unfold afterAuthority
      split
      · next r hr =>
        exfalso
        simp only [List.cons.injEq, true_and] at hr
        cases ss with
        | nil => simp [joinWith] at hr
        | cons x ss =>
          cases x with
          | nil => exact hfirst rfl
          | cons c x =>
            have hc : c = '/' := by
              cases ss with
              | nil => simp only [joinWith, List.cons.injEq] at hr; exact hr.1
              | cons y ss => simp only [joinWith, List.cons_append, List.cons.injEq] at hr; exact hr.1
            exact (h (c :: x) (by simp) c (by simp)).1 hc
      · rfl
    have h3 : beforeQuery ('/' :: joinWith '/' ss) = '/' :: joinWith '/' ss := by
      refine beforeQuery_id fun c hc => ?_
      rcases List.mem_cons.mp hc with rfl | hc
      · decide
      · exact ⟨(hj c hc).1, (hj c hc).2.1⟩
    rw [h1, h2, h3]
  by_cases hne : ss = []
  · subst hne
    exact fromUri_of hurl rfl hlen
  · exact fromUri_of hurl (parts_absolute hne h) hlen

/-- C57 (authority): in `ccnx://host/s1/…` the host is left out. -/
theorem C57_authority_dropped (host : Text) (hh : Spec.PathText host) (ss : List Text) (h : ∀ s ∈ ss, Spec.PathText s)
    (hne : ss ≠ []) (hlen : Spec.nameOfLen (Spec.kept ss) ≤ 0xFFFF) :
    Name.fromUri (some (['c', 'c', 'n', 'x', ':', '/', '/'] ++ host ++ '/' :: joinWith '/' ss)) = .ok (some (Spec.nameOf (Spec.kept ss))) := by
  have hj := pathText_join h
  refine fromUri_of (q := '/' :: joinWith '/' ss) ?_ (parts_absolute hne h) hlen
  have e : ['c', 'c', 'n', 'x', ':', '/', '/'] ++ host ++ '/' :: joinWith '/' ss =
      'c' :: 'c' :: 'n' :: 'x' :: ':' :: ('/' :: '/' :: (host ++ '/' :: joinWith '/' ss)) := by
    rw [List.append_assoc]; rfl
  rw [e, urlParse_ccnx, noBreaks_id, show afterAuthority ('/' :: '/' :: (host ++ '/' :: joinWith '/' ss)) =
      '/' :: joinWith '/' ss from ?_, beforeQuery_id]
  · intro c hc
    rcases List.mem_cons.mp hc with rfl | hc
    · decide
    · exact ⟨(hj c hc).1, (hj c hc).2.1⟩
  · unfold afterAuthority
    simp only
    rw [List.dropWhile_append_of_pos]
    · simp
    · intro c hc
      have := hh c hc
      simp [this.1, this.2.1, this.2.2.1]
  · intro c hc
    simp only [List.mem_cons, List.mem_append] at hc
    rcases hc with rfl | rfl | hc | rfl | hc
    · decide
    · decide
    · exact (hh c hc).2.2.2
    · decide
    · exact (hj c hc).2.2

/-- C57 (no slash after the colon): in `ccnx:s1/s2/…` the first segment is left out. -/
theorem C57_relative_drops_first (s : Text) (hs : Spec.PathText s) (hs1 : s ≠ []) (hs2 : s ≠ ['.']) (ss : List Text)
    (h : ∀ s ∈ ss, Spec.PathText s) (hlen : Spec.nameOfLen (Spec.kept ss) ≤ 0xFFFF) :
    Name.fromUri (some (['c', 'c', 'n', 'x', ':'] ++ joinWith '/' (s :: ss))) = .ok (some (Spec.nameOf (Spec.kept ss))) := by
  have hall : ∀ x ∈ s :: ss, Spec.PathText x := by
    intro x hx
    rcases List.mem_cons.mp hx with rfl | hx
    · exact hs
    · exact h x hx
  have hj := pathText_join hall
  obtain ⟨c, r, hcr, hc⟩ : ∃ c r, joinWith '/' (s :: ss) = c :: r ∧ c ≠ '/' := by
    cases s with
    | nil => exact absurd rfl hs1
    | cons c s =>
      refine ⟨c, ?_⟩
      cases ss with
      | nil => exact ⟨s, rfl, (hs c (by simp)).1⟩
      | cons y ss => exact ⟨s ++ '/' :: joinWith '/' (y :: ss), rfl, (hs c (by simp)).1⟩
  refine fromUri_of (q := joinWith '/' (s :: ss)) ?_ ?_ hlen
  · have e : ['c', 'c', 'n', 'x', ':'] ++ joinWith '/' (s :: ss) = 'c' :: 'c' :: 'n' :: 'x' :: ':' :: joinWith '/' (s :: ss) := rfl
    rw [e, urlParse_ccnx, noBreaks_id (fun c hc => (hj c hc).2.2), show afterAuthority (joinWith '/' (s :: ss)) =
      joinWith '/' (s :: ss) from ?_, beforeQuery_id (fun c hc => ⟨(hj c hc).1, (hj c hc).2.1⟩)]
    unfold afterAuthority
    rw [hcr]
    split
    · next r' hr => simp only [List.cons.injEq] at hr; exact absurd hr.1 hc
    · rfl
  · have hsplit := splitOn_join (sep := '/') (l := s :: ss) (by simp) (fun x hx hm => (hall x hx _ hm).1 rfl)
    have hf : (splitOn '/' (joinWith '/' (s :: ss))).filter (fun x => x != [] && x != ['.']) = s :: Spec.kept ss := by
      rw [hsplit, List.filter_cons, if_pos (by simp [hs1, hs2])]
      congr 1
      refine List.filter_congr fun x _ => ?_
      by_cases h1 : x = [] <;> by_cases h2 : x = ['.'] <;> simp [h1, h2]
    unfold purePathParts
    simp only [hf]
    rw [hcr]
    split
    · next hr => simp only [List.cons.injEq] at hr; exact absurd hr.1 hc
    · next hr => simp only [List.cons.injEq] at hr; exact absurd hr.1 hc
    · next hr => simp only [List.cons.injEq] at hr; exact absurd hr.1 hc
    · rfl

/-- C57 (query and fragment): whatever follows a `?` or `#` makes no difference. -/
theorem C57_query_ignored (r q : Text) (c : Char) (hc : c = '?' ∨ c = '#') :
    Name.fromUri (some (['c', 'c', 'n', 'x', ':'] ++ r ++ c :: q)) = Name.fromUri (some (['c', 'c', 'n', 'x', ':'] ++ r)) := by
  have hurl : urlParse (['c', 'c', 'n', 'x', ':'] ++ r ++ c :: q) = urlParse (['c', 'c', 'n', 'x', ':'] ++ r) := by
    have e1 : ['c', 'c', 'n', 'x', ':'] ++ r ++ c :: q = 'c' :: 'c' :: 'n' :: 'x' :: ':' :: (r ++ c :: q) := by rw [List.append_assoc]; rfl
    have e2 : ['c', 'c', 'n', 'x', ':'] ++ r = 'c' :: 'c' :: 'n' :: 'x' :: ':' :: r := rfl
    rw [e1, e2, urlParse_ccnx, urlParse_ccnx, noBreaks_append]
    have e3 : noBreaks (c :: q) = c :: noBreaks q := by rcases hc with rfl | rfl <;> simp [noBreaks]
    rw [e3]
    generalize noBreaks r = r
    generalize noBreaks q = q
    have hcut : ∀ v : Text, beforeQuery (v ++ c :: q) = beforeQuery v := by
      intro v
      unfold beforeQuery
      induction v with
      | nil => rcases hc with rfl | rfl <;> simp
      | cons a v ih => simp only [List.cons_append, List.takeWhile_cons, ih]
    have hne : c ≠ '/' := by rcases hc with rfl | rfl <;> decide
    congr 1
    match r with
    | [] =>
      rw [List.nil_append]
      have : afterAuthority (c :: q) = c :: q := by
        unfold afterAuthority
        split
        · next hr => simp only [List.cons.injEq] at hr; exact absurd hr.1 hne
        · rfl
      rw [this]
      exact hcut []
    | [a] =>
      have : afterAuthority ([a] ++ c :: q) = [a] ++ c :: q := by
        unfold afterAuthority
        split
        · next hr => simp only [List.cons_append, List.nil_append, List.cons.injEq] at hr; exact absurd hr.2.1 hne
        · rfl
      rw [this, hcut]
      congr 1
      unfold afterAuthority
      split
      · next hr => simp at hr
      · rfl
    | a :: b :: v =>
      by_cases hab : a = '/' ∧ b = '/'
      · obtain ⟨rfl, rfl⟩ := hab
        show beforeQuery ((v ++ c :: q).dropWhile _) = beforeQuery (v.dropWhile _)
        induction v with
        | nil =>
          rcases hc with rfl | rfl <;> simp [beforeQuery]
        | cons x v ih =>
          rw [List.cons_append, List.dropWhile_cons, List.dropWhile_cons]
          split
          · exact ih
          · rw [← List.cons_append, hcut]
      · have : ∀ w, afterAuthority (a :: b :: w) = a :: b :: w := by
          intro w
          unfold afterAuthority
          split
          · next hr => simp only [List.cons.injEq] at hr; exact absurd ⟨hr.1, hr.2.1⟩ hab
          · rfl
        rw [List.cons_append, List.cons_append, this, this, ← List.cons_append, ← List.cons_append, hcut]
  unfold Name.fromUri
  simp only [hurl]

/-- C57 (scheme): a URI is only accepted if, after leading blanks and line breaks within are removed, it begins with `ccnx:` in
upper or lower case; otherwise AssertionError is raised. -/
theorem C57_scheme (u : Text)
    (h : ¬ ∃ a r, (u.dropWhile (fun c => c.toNat ≤ 32)).filter (fun c => !(c == '\t' || c == '\r' || c == '\n')) = a ++ ':' :: r ∧
      a.map Char.toLower = ['c', 'c', 'n', 'x']) : Name.fromUri (some u) = .error .assertionError := by
  have hs : (urlParse u).1 ≠ ['c', 'c', 'n', 'x'] := by
    intro hs
    apply h
    unfold urlParse at hs
    simp only at hs
    generalize (u.dropWhile (fun c => decide (c.toNat ≤ 32))).filter (fun c => !(c == '\t' || c == '\r' || c == '\n')) = v at hs ⊢
    unfold splitScheme at hs
    split at hs
    · cases hs
    · simp only at hs
      split at hs
      · next c r hcond =>
        simp only [Bool.and_eq_true, decide_eq_true_eq] at hcond
        refine ⟨_, ((c :: r).dropWhile (· != ':')).tail, ?_, hs⟩
        have hsplit := List.takeWhile_append_dropWhile (p := (· != ':')) (l := c :: r)
        cases hd : (c :: r).dropWhile (· != ':') with
        | nil =>
          rw [hd, List.append_nil] at hsplit
          rw [hsplit] at hcond
          omega
        | cons x xs =>
          have hx : x = ':' := by
            have := List.head_dropWhile_not (fun y => (y != ':')) (l := c :: r) (by rw [hd]; simp)
            simp only [hd, List.head_cons] at this
            simpa using this
          rw [List.tail_cons]
          rw [hd, hx] at hsplit
          exact hsplit.symm
      · cases hs
  unfold Name.fromUri
  simp only
  have : ((urlParse u).1 == ['c', 'c', 'n', 'x']) = false := by simpa using hs
  rw [this]
  rfl

/-- C57 (reading the segments): `name[i]` is the i-th text again, counting from the end if `i` is negative. -/
theorem C57_getitem (ss : List Text) (i : Nat) (s : Text) (h : ss[i]? = some s) :
    (Spec.nameOf ss).getItem i = .ok (.inr s) ∧ (Spec.nameOf ss).getItem ((i : Int) - ss.length) = .ok (.inr s) := by
  have hlt : i < ss.length := (List.getElem?_eq_some_iff.mp h).1
  have hget : (Spec.nameOf ss).components[i]? = some (.nameSegment (utf8Encode s)) := by simp [Spec.nameOf, h]
  have hl : (Spec.nameOf ss).components.length = ss.length := by simp [Spec.nameOf]
  have fin : ∀ j : Int, pyIndex (Spec.nameOf ss).components j = .ok (.nameSegment (utf8Encode s)) →
      (Spec.nameOf ss).getItem j = .ok (.inr s) := by
    intro j hj
    unfold Name.getItem
    rw [hj]
    simp [NameComponent.nameSegment, utf8DecodePy, utf8Decode_encode, ok_bind]
  refine ⟨fin _ ?_, fin _ ?_⟩
  · unfold pyIndex
    rw [if_neg (show ¬ ((i : Int) < 0) by omega)]
    simp only
    rw [if_neg (show ¬ ((i : Int) < 0) by omega), Int.toNat_natCast, hget]
  · unfold pyIndex
    rw [hl, if_pos (show (i : Int) - ss.length < 0 by omega)]
    simp only
    rw [show (i : Int) - ss.length + ss.length = i by omega, if_neg (show ¬ ((i : Int) < 0) by omega), Int.toNat_natCast, hget]

/-- The component `name[i]` is about: the i-th, or if `i` is negative the one `-i` places before the end. -/
def Spec.componentAt (n : Name) (i : Int) : Option NameComponent :=
  if 0 ≤ i then n.components[i.toNat]?
  else if -i ≤ n.components.length then n.components[n.components.length - (-i).toNat]? else none

/-- C57 (reading any component): `name[i]` raises IndexError just when there is no such component; a component held in an array is
returned as its bytes, any other as the text its bytes are the UTF-8 of, whatever its type; ValueError (UnicodeDecodeError) if they are
not UTF-8. -/
theorem C57_getitem_exact (n : Name) (i : Int) :
    n.getItem i =
      match Spec.componentAt n i with
      | none => .error .indexError
      | some c => if c.isArray then .ok (.inl c.value) else
          match utf8Decode c.value with
          | some t => .ok (.inr t)
          | none => .error .valueError := by
  have key : pyIndex n.components i = (Spec.componentAt n i).elim (.error .indexError) .ok := by
    unfold pyIndex Spec.componentAt
    dsimp only
    by_cases h0 : 0 ≤ i
    · rw [if_pos h0, if_neg (show ¬ i < 0 by omega), if_neg (show ¬ i < 0 by omega)]
      cases n.components[i.toNat]? <;> rfl
    · rw [if_neg h0, if_pos (show i < 0 by omega)]
      by_cases h1 : -i ≤ n.components.length
      · rw [if_pos h1, if_neg (by omega),
          show (i + (n.components.length : Int)).toNat = n.components.length - (-i).toNat by omega]
        cases n.components[n.components.length - (-i).toNat]? <;> rfl
      · rw [if_neg h1, if_pos (by omega)]
        rfl
  unfold Name.getItem
  rw [key]
  cases Spec.componentAt n i with
  | none => rfl
  | some c =>
    simp only [Option.elim_some, ok_bind]
    cases hc : c.isArray with
    | true => simp [pure, Except.pure]
    | false =>
      simp only [Bool.false_eq_true, if_false]
      unfold utf8DecodePy
      cases utf8Decode c.value <;> rfl

/-- C57: a chunk id held in an array, counted from the end. -/
example : (⟨[.nameSegment [97], ⟨T_CHUNKID, [255], true⟩, .nameSegment [255]]⟩ : Name).getItem (-2) = .ok (.inl [255]) ∧
    (⟨[.nameSegment [97], ⟨T_CHUNKID, [255], true⟩, .nameSegment [255]]⟩ : Name).getItem 2 = .error .valueError ∧
    (⟨[.nameSegment [97]]⟩ : Name).getItem (-2) = .error .indexError := by decide

/-! ## C58 -/

theorem nameSegment_repr (R : NameComponent → Text) (s : Text) :
    (NameComponent.nameSegment (utf8Encode s)).repr R = .ok (tagName ++ s) := by
  unfold NameComponent.repr NameComponent.nameSegment
  simp [T_CHUNKID, T_NAMESEGMENT, utf8DecodePy, utf8Decode_encode]

/-- C58: `as_uri` of a name of texts writes every segment with the prefix `Name=`. -/
theorem C58_as_uri (R : NameComponent → Text) (ss : List Text) :
    (Spec.nameOf ss).asUri R = .ok (Spec.uri (ss.map (tagName ++ ·))) := by
  unfold Name.asUri Spec.nameOf
  rw [List.mapM_map]
  have := mapM_ok_of (f := NameComponent.repr R ∘ fun s => NameComponent.nameSegment (utf8Encode s)) (g := fun s => tagName ++ s)
    (l := ss) (fun s _ => nameSegment_repr R s)
  rw [this]
  rfl

theorem prefixed_path {s : Text} (h : Spec.PathText s) : Spec.PathText (tagName ++ s) := by
  intro c hc
  rcases List.mem_append.mp hc with hc | hc
  · clear h
    revert hc
    have : ∀ c ∈ tagName, c ≠ '/' ∧ c ≠ '?' ∧ c ≠ '#' ∧ c ≠ '\t' ∧ c ≠ '\r' ∧ c ≠ '\n' := by decide
    exact this c
  · exact h c hc

theorem kept_prefixed (ss : List Text) : Spec.kept (ss.map (tagName ++ ·)) = ss.map (tagName ++ ·) := by
  refine List.filter_eq_self.mpr ?_
  intro x hx
  obtain ⟨s, _, rfl⟩ := List.mem_map.mp hx
  simp [tagName]

/-- C58: reading back what `as_uri` wrote gives another name, unless the name is empty: every segment has become `Name=…`. -/
theorem C58_not_inverse (R : NameComponent → Text) (ss : List Text) (h : ∀ s ∈ ss, Spec.PathText s) (hne : ss ≠ [])
    (hlen : Spec.nameOfLen (ss.map (tagName ++ ·)) ≤ 0xFFFF) :
    ∃ u n, (Spec.nameOf ss).asUri R = .ok u ∧ Name.fromUri (some u) = .ok (some n) ∧
      n = Spec.nameOf (ss.map (tagName ++ ·)) ∧ n.pyEq (Spec.nameOf ss) = false := by
  have hall : ∀ x ∈ ss.map (tagName ++ ·), Spec.PathText x := by
    intro x hx
    obtain ⟨s, hs, rfl⟩ := List.mem_map.mp hx
    exact prefixed_path (h s hs)
  have hfirst : (ss.map (tagName ++ ·)).head? ≠ some [] := by cases ss <;> simp [tagName]
  have hk := kept_prefixed ss
  have hread := C57_from_uri (ss.map (tagName ++ ·)) hall hfirst (by rw [hk]; exact hlen)
  rw [hk] at hread
  refine ⟨_, _, C58_as_uri R ss, hread, rfl, ?_⟩
  cases ss with
  | nil => exact absurd rfl hne
  | cons s ss =>
    have hl : (utf8Encode (tagName ++ s)).length = 5 + (utf8Encode s).length := by
      have : utf8Encode (tagName ++ s) = utf8Encode tagName ++ utf8Encode s := by simp [utf8Encode]
      rw [this, List.length_append]
      rfl
    have : (NameComponent.nameSegment (utf8Encode (tagName ++ s))).pyEq (.nameSegment (utf8Encode s)) = false := by
      simp only [NameComponent.pyEq, NameComponent.nameSegment, hl]
      simp
    simp only [Name.pyEq, Spec.nameOf, List.map_cons, List.zip_cons_cons, List.all_cons, this, Bool.false_and, Bool.and_false]

/-- C58 (when a name has a URI): just when every name segment is held as `bytes` and is UTF-8, and every chunk id and manifest id
has at most 4300 decimal digits; otherwise an exception is raised. -/
theorem C58_has_uri (R : NameComponent → Text) (n : Name) :
    (∃ u, n.asUri R = .ok u) ↔ ∀ c ∈ n.components,
      (c.type = T_NAMESEGMENT → c.isArray = false ∧ ∃ t, c.value = utf8Encode t) ∧
      (c.type = T_CHUNKID ∨ c.type = T_MANIFESTID → (Nat.toDigits 10 (arrayToNumber c.value)).length ≤ 4300) := by
  have hnum : ∀ (n : Nat) (f : Text → Text), (∃ u, (do return f (← decimal n) : Py Text) = .ok u) ↔ (Nat.toDigits 10 n).length ≤ 4300 := by
    intro n f
    rw [decimal_eq]
    split
    · exact ⟨fun _ => by assumption, fun _ => ⟨_, rfl⟩⟩
    · exact ⟨fun ⟨_, h⟩ => (by cases h), fun h => absurd h (by assumption)⟩
  have hone : ∀ c : NameComponent, (∃ u, c.repr R = .ok u) ↔
      (c.type = T_NAMESEGMENT → c.isArray = false ∧ ∃ t, c.value = utf8Encode t) ∧
      (c.type = T_CHUNKID ∨ c.type = T_MANIFESTID → (Nat.toDigits 10 (arrayToNumber c.value)).length ≤ 4300) := by
    intro c
    unfold NameComponent.repr
    by_cases h1 : c.type = T_CHUNKID
    · have : c.type ≠ T_NAMESEGMENT := by rw [h1]; decide
      rw [if_pos h1]
      refine (hnum _ (tagChunk ++ ·)).trans ?_
      exact ⟨fun h => ⟨fun h' => absurd h' this, fun _ => h⟩, fun h => h.2 (.inl h1)⟩
    rw [if_neg h1]
    by_cases h2 : c.type = T_NAMESEGMENT
    · rw [if_pos h2]
      simp only [h1, show c.type ≠ T_MANIFESTID by rw [h2]; decide, or_self, false_implies, and_true]
      cases ha : c.isArray with
      | true => simp [h2]
      | false =>
        simp only [h2, Bool.false_eq_true, if_false, forall_const, true_and]
        constructor
        · rintro ⟨u, hu⟩
          obtain ⟨t, ht, _⟩ := bind_eq_ok.mp hu
          unfold utf8DecodePy at ht
          split at ht
          · cases ht
          · next t' ht' => exact ⟨t', (utf8Encode_of_decode ht').symm⟩
        · rintro ⟨t, ht⟩
          exact ⟨tagName ++ t, by simp [ht, utf8DecodePy, utf8Decode_encode]⟩
    · rw [if_neg h2]
      by_cases h3 : c.type = T_MANIFESTID
      · rw [if_pos h3]
        refine (hnum _ (tagManifest ++ ·)).trans ?_
        exact ⟨fun h => ⟨fun h' => absurd h' h2, fun _ => h⟩, fun h => h.2 (.inr h3)⟩
      · rw [if_neg h3]
        exact ⟨fun _ => ⟨fun h => absurd h h2, fun h => h.elim (absurd · h1) (absurd · h3)⟩, fun _ => ⟨_, rfl⟩⟩
  have hlist : ∀ l : List NameComponent, (∃ us, l.mapM (NameComponent.repr R) = .ok us) ↔ ∀ c ∈ l, ∃ u, c.repr R = .ok u := by
    intro l
    induction l with
    | nil => exact ⟨fun _ => by simp, fun _ => ⟨[], rfl⟩⟩
    | cons c l ih =>
      rw [List.mapM_cons]
      constructor
      · rintro ⟨us, hus⟩
        obtain ⟨u, hu, hus⟩ := bind_eq_ok.mp hus
        obtain ⟨us', hus', _⟩ := bind_eq_ok.mp hus
        intro x hx
        rcases List.mem_cons.mp hx with rfl | hx
        · exact ⟨u, hu⟩
        · exact ih.mp ⟨us', hus'⟩ x hx
      · intro h
        obtain ⟨u, hu⟩ := h c (by simp)
        obtain ⟨us, hus⟩ := ih.mpr (fun x hx => h x (by simp [hx]))
        exact ⟨u :: us, by rw [hu, ok_bind, hus]; rfl⟩
  constructor
  · rintro ⟨u, hu⟩
    obtain ⟨us, hus, _⟩ := bind_eq_ok.mp hu
    exact fun c hc => (hone c).mp ((hlist _).mp ⟨us, hus⟩ c hc)
  · intro h
    obtain ⟨us, hus⟩ := (hlist n.components).mpr (fun c hc => (hone c).mpr (h c hc))
    exact ⟨_, by unfold Name.asUri; rw [hus]; rfl⟩

/-! ## C59 -/

/-- What a link file name shows of a component. -/
inductive Spec.Part where
  | text (s : Text)
  | chunk (n : Nat)
  | manifest (n : Nat)

/-- The component is of that kind; numbers are in the shortest encoding, as `create_chunk_segment` makes them. -/
def Spec.Shows (c : NameComponent) : Spec.Part → Prop
  | .text s => c.type = T_NAMESEGMENT ∧ c.isArray = false ∧ c.value = utf8Encode s ∧ Spec.PathText s
  | .chunk n => c.type = T_CHUNKID ∧ n < 2 ^ 64 ∧ numberToArray n = .ok c.value
  | .manifest n => c.type = T_MANIFESTID ∧ n < 2 ^ 64 ∧ numberToArray n = .ok c.value

/-- How it is written. -/
def Spec.Part.shown : Spec.Part → Text
  | .text s => tagName ++ s
  | .chunk n => tagChunk ++ Nat.toDigits 10 n
  | .manifest n => tagManifest ++ Nat.toDigits 10 n

theorem shows_repr {R : NameComponent → Text} {c : NameComponent} {x : Spec.Part} (h : Spec.Shows c x) : c.repr R = .ok x.shown := by
  cases x with
  | text s =>
    obtain ⟨h1, h2, h3, _⟩ := h
    unfold NameComponent.repr
    simp [h1, h2, h3, T_CHUNKID, T_NAMESEGMENT, utf8DecodePy, utf8Decode_encode, Spec.Part.shown]
  | chunk n =>
    obtain ⟨h1, h2, h3⟩ := h
    obtain ⟨b, hb, hn⟩ := C06_varint_roundtrip n h2
    rw [h3] at hb
    cases hb
    unfold NameComponent.repr
    rw [if_pos h1, hn, decimal_small h2]
    rfl
  | manifest n =>
    obtain ⟨h1, h2, h3⟩ := h
    obtain ⟨b, hb, hn⟩ := C06_varint_roundtrip n h2
    rw [h3] at hb
    cases hb
    unfold NameComponent.repr
    rw [if_neg (by rw [h1]; decide), if_neg (by rw [h1]; decide), if_pos h1, hn, decimal_small h2]
    rfl

theorem digit_char {n : Nat} {c : Char} (h : c ∈ Nat.toDigits 10 n) : c.isDigit = true :=
  Nat.isDigit_of_mem_toDigits (by decide) (by decide) h

theorem shown_path {c : NameComponent} {x : Spec.Part} (h : Spec.Shows c x) : Spec.PathText x.shown := by
  have dig : ∀ n, Spec.PathText (Nat.toDigits 10 n) := by
    intro n c hc
    have := digit_char hc
    refine ⟨?_, ?_, ?_, ?_, ?_, ?_⟩ <;> (rintro rfl; revert this; decide)
  have app : ∀ a b : Text, Spec.PathText a → Spec.PathText b → Spec.PathText (a ++ b) := by
    intro a b ha hb c hc
    rcases List.mem_append.mp hc with hc | hc
    · exact ha c hc
    · exact hb c hc
  cases x with
  | text s => exact prefixed_path h.2.2.2
  | chunk n => exact app _ _ (by unfold Spec.PathText; decide) (dig n)
  | manifest n => exact app _ _ (by unfold Spec.PathText; decide) (dig n)

theorem shown_ne_nil (x : Spec.Part) : x.shown ≠ [] := by cases x <;> simp [Spec.Part.shown, tagName, tagChunk, tagManifest]

theorem map_join (a b : Char) (l : List Text) (h : ∀ x ∈ l, a ∉ x) :
    (joinWith a l).map (fun c => if c == a then b else c) = joinWith b l := by
  have hid : ∀ x : Text, a ∉ x → x.map (fun c => if c == a then b else c) = x := by
    intro x hx
    conv => rhs; rw [← List.map_id x]
    refine List.map_congr_left fun c hc => ?_
    have : c ≠ a := fun e => hx (e ▸ hc)
    simp [this]
  induction l with
  | nil => rfl
  | cons x l ih =>
    cases l with
    | nil => exact hid x (h x (by simp))
    | cons y l =>
      simp only [joinWith, List.map_append, List.map_cons, beq_self_eq_true, if_true]
      rw [hid x (h x (by simp)), ih (fun z hz => h z (by simp [hz]))]

/-- C59: the link file of a name is called after its components, joined by `~`. -/
theorem C59_link_name (R : NameComponent → Text) (n : Name) (ps : List Spec.Part) (h : List.Forall₂ Spec.Shows n.components ps) :
    linkName R n = .ok ('~' :: joinWith '~' (ps.map Spec.Part.shown) ++ tagLink) := by
  have hrep : n.components.mapM (NameComponent.repr R) = .ok (ps.map Spec.Part.shown) := by
    revert h
    generalize n.components = cs
    intro h
    induction h with
    | nil => rfl
    | cons h1 _ ih => rw [List.mapM_cons, shows_repr h1, ok_bind, ih]; rfl
  have hpath : ∀ x ∈ ps.map Spec.Part.shown, Spec.PathText x := by
    clear hrep
    revert h
    generalize n.components = cs
    intro h
    induction h with
    | nil => simp
    | cons h1 _ ih =>
      simp only [List.map_cons, List.mem_cons, forall_eq_or_imp]
      exact ⟨shown_path h1, ih⟩
  have hj := pathText_join hpath
  have hurl : urlParse (['c', 'c', 'n', 'x', ':', '/'] ++ joinWith '/' (ps.map Spec.Part.shown)) =
      (['c', 'c', 'n', 'x'], '/' :: joinWith '/' (ps.map Spec.Part.shown)) := by
    have e : ['c', 'c', 'n', 'x', ':', '/'] ++ joinWith '/' (ps.map Spec.Part.shown) =
        'c' :: 'c' :: 'n' :: 'x' :: ':' :: ('/' :: joinWith '/' (ps.map Spec.Part.shown)) := rfl
    rw [e, urlParse_ccnx, noBreaks_id, show afterAuthority ('/' :: joinWith '/' (ps.map Spec.Part.shown)) =
      '/' :: joinWith '/' (ps.map Spec.Part.shown) from ?_, beforeQuery_id]
    · intro c hc
      rcases List.mem_cons.mp hc with rfl | hc
      · decide
      · exact ⟨(hj c hc).1, (hj c hc).2.1⟩
    · unfold afterAuthority
      split
      · next r hr =>
        exfalso
        simp only [List.cons.injEq, true_and] at hr
        cases ps with
        | nil => simp [joinWith] at hr
        | cons x ps => cases x <;> cases ps <;> simp [joinWith, Spec.Part.shown, tagName, tagChunk, tagManifest] at hr
      · rfl
    · intro c hc
      rcases List.mem_cons.mp hc with rfl | hc
      · decide
      · exact (hj c hc).2.2
  unfold linkName Name.asUri
  rw [hrep]
  simp only [ok_bind, pure_bind, hurl]
  rw [List.map_cons, map_join '/' '~' _ (fun x hx hm => (hpath x hx _ hm).1 rfl)]
  rfl

theorem digits_inj {m n : Nat} (h : Nat.toDigits 10 m = Nat.toDigits 10 n) : m = n := by
  rw [← Nat.ofDigitChars_ten_toDigits (n := m), h, Nat.ofDigitChars_ten_toDigits]

/-- C59 (distinct names): if no text contains a `~`, names with equal link files have equal components. -/
theorem C59_link_names_differ (R : NameComponent → Text) (a b : Name) (ps qs : List Spec.Part)
    (ha : List.Forall₂ Spec.Shows a.components ps) (hb : List.Forall₂ Spec.Shows b.components qs)
    (hp : ∀ s, .text s ∈ ps → '~' ∉ s) (hq : ∀ s, .text s ∈ qs → '~' ∉ s) (h : linkName R a = linkName R b) : a.view = b.view := by
  rw [C59_link_name R a ps ha, C59_link_name R b qs hb] at h
  have h := List.append_cancel_right (Except.ok.inj h)
  simp only [List.cons.injEq, true_and] at h
  have notilde : ∀ l : List Spec.Part, (∀ s, .text s ∈ l → '~' ∉ s) → ∀ x ∈ l.map Spec.Part.shown, '~' ∉ x := by
    intro l hl x hx
    obtain ⟨y, hy, rfl⟩ := List.mem_map.mp hx
    have dig : ∀ n, '~' ∉ Nat.toDigits 10 n := by
      intro n hc
      have := digit_char hc
      revert this
      decide
    cases y with
    | text s =>
      simp only [Spec.Part.shown, List.mem_append, not_or]
      exact ⟨by decide, hl s hy⟩
    | chunk n =>
      simp only [Spec.Part.shown, List.mem_append, not_or]
      exact ⟨by decide, dig n⟩
    | manifest n =>
      simp only [Spec.Part.shown, List.mem_append, not_or]
      exact ⟨by decide, dig n⟩
  have hshown : ps.map Spec.Part.shown = qs.map Spec.Part.shown := by
    have hnil : ∀ l : List Spec.Part, joinWith '~' (l.map Spec.Part.shown) = [] → l = [] := by
      intro l hl
      cases l with
      | nil => rfl
      | cons x l =>
        exfalso
        cases l with
        | nil => exact shown_ne_nil x hl
        | cons y l => simp [joinWith] at hl
    by_cases hp0 : ps = []
    · subst hp0
      rw [hnil qs h.symm]
    by_cases hq0 : qs = []
    · subst hq0
      exact absurd (hnil ps h) hp0
    have := congrArg (splitOn '~') h
    rwa [splitOn_join (by simpa using hp0) (notilde ps hp), splitOn_join (by simpa using hq0) (notilde qs hq)] at this
  have hinj : ∀ x y : Spec.Part, x.shown = y.shown → x = y := by
    intro x y hxy
    cases x <;> cases y <;> simp [Spec.Part.shown, tagName, tagChunk, tagManifest] at hxy
    · rw [hxy]
    · rw [digits_inj hxy]
    · rw [digits_inj hxy]
  have hps : ps = qs := by
    clear * - hshown hinj
    induction ps generalizing qs with
    | nil => cases qs with
      | nil => rfl
      | cons y qs => simp at hshown
    | cons x ps ih =>
      cases qs with
      | nil => simp at hshown
      | cons y qs =>
        simp only [List.map_cons, List.cons.injEq] at hshown
        rw [hinj x y hshown.1, ih qs hshown.2]
  subst hps
  have hview : ∀ (c d : NameComponent) (x : Spec.Part), Spec.Shows c x → Spec.Shows d x → (c.type, c.value) = (d.type, d.value) := by
    intro c d x hc hd
    cases x with
    | text s => rw [hc.1, hd.1, hc.2.2.1, hd.2.2.1]
    | chunk n => rw [hc.1, hd.1, Except.ok.inj (hc.2.2.symm.trans hd.2.2)]
    | manifest n => rw [hc.1, hd.1, Except.ok.inj (hc.2.2.symm.trans hd.2.2)]
  unfold Name.view
  revert ha hb
  generalize b.components = bs
  generalize a.components = as
  intro ha
  clear * - ha hview
  induction ha generalizing bs with
  | nil => intro hb; cases hb; rfl
  | cons h1 _ ih =>
    intro hb
    cases hb with
    | cons h2 h3 => rw [List.map_cons, List.map_cons, hview _ _ _ h1 h2, ih _ h3]

theorem shows_nameOf {ss : List Text} (h : ∀ s ∈ ss, Spec.PathText s) :
    List.Forall₂ Spec.Shows (Spec.nameOf ss).components (ss.map .text) := by
  unfold Spec.nameOf
  simp only
  induction ss with
  | nil => exact .nil
  | cons s ss ih => exact .cons ⟨rfl, rfl, rfl, h s (by simp)⟩ (ih (fun x hx => h x (by simp [hx])))

/-- C59 (same file, `~`): the names `/a/b` and `/a~Name=b` have the same link file. -/
theorem C59_tilde_collision (R : NameComponent → Text) (a b : Text) (ha : Spec.PathText a) (hb : Spec.PathText b) :
    linkName R (Spec.nameOf [a, b]) = linkName R (Spec.nameOf [a ++ ['~', 'N', 'a', 'm', 'e', '='] ++ b]) ∧
    (Spec.nameOf [a, b]).view ≠ (Spec.nameOf [a ++ ['~', 'N', 'a', 'm', 'e', '='] ++ b]).view := by
  refine ⟨?_, by simp [Name.view, Spec.nameOf]⟩
  have hab : Spec.PathText (a ++ ['~', 'N', 'a', 'm', 'e', '='] ++ b) := by
    intro c hc
    simp only [List.mem_append] at hc
    rcases hc with (hc | hc) | hc
    · exact ha c hc
    · have : ∀ c ∈ ['~', 'N', 'a', 'm', 'e', '='], c ≠ '/' ∧ c ≠ '?' ∧ c ≠ '#' ∧ c ≠ '\t' ∧ c ≠ '\r' ∧ c ≠ '\n' := by decide
      exact this c hc
    · exact hb c hc
  rw [C59_link_name R _ _ (shows_nameOf (ss := [a, b]) (by simp; exact ⟨ha, hb⟩)),
    C59_link_name R _ _ (shows_nameOf (ss := [a ++ ['~', 'N', 'a', 'm', 'e', '='] ++ b]) (by simpa using hab))]
  simp [Spec.Part.shown, joinWith, tagName]

/-- C59 (same file, `?` and `#`): whatever follows a `?` or `#` in the last text makes no difference. -/
theorem C59_query_collision (R : NameComponent → Text) (ss : List Text) (s q : Text) (c : Char) (hc : c = '?' ∨ c = '#') :
    linkName R (Spec.nameOf (ss ++ [s ++ c :: q])) = linkName R (Spec.nameOf (ss ++ [s])) := by
  have hjoin : ∀ (l : List Text) (x y : Text), joinWith '/' (l ++ [x ++ y]) = joinWith '/' (l ++ [x]) ++ y := by
    intro l x y
    induction l with
    | nil => rfl
    | cons z l ih =>
      cases l with
      | nil => simp [joinWith]
      | cons w l =>
        simp only [List.cons_append, joinWith]
        simp only [List.cons_append] at ih
        rw [ih]
        simp
  have hurl : ∀ r : Text, urlParse ('c' :: 'c' :: 'n' :: 'x' :: ':' :: '/' :: 'N' :: (r ++ c :: q)) =
      urlParse ('c' :: 'c' :: 'n' :: 'x' :: ':' :: '/' :: 'N' :: r) := by
    intro r
    rw [urlParse_ccnx, urlParse_ccnx]
    have e1 : noBreaks ('/' :: 'N' :: (r ++ c :: q)) = '/' :: 'N' :: (noBreaks r ++ c :: noBreaks q) := by
      have e3 : noBreaks (c :: q) = c :: noBreaks q := by rcases hc with rfl | rfl <;> simp [noBreaks]
      have : noBreaks ('/' :: 'N' :: (r ++ c :: q)) = '/' :: 'N' :: noBreaks (r ++ c :: q) := by simp [noBreaks]
      rw [this, noBreaks_append, e3]
    have e2 : noBreaks ('/' :: 'N' :: r) = '/' :: 'N' :: noBreaks r := by simp [noBreaks]
    rw [e1, e2]
    have e4 : ∀ v, afterAuthority ('/' :: 'N' :: v) = '/' :: 'N' :: v := by
      intro v
      unfold afterAuthority
      split
      · next hr => simp at hr
      · rfl
    rw [e4, e4]
    congr 1
    have hcut : ∀ v : Text, beforeQuery (v ++ c :: noBreaks q) = beforeQuery v := by
      intro v
      unfold beforeQuery
      induction v with
      | nil => rcases hc with rfl | rfl <;> simp
      | cons a v ih => simp only [List.cons_append, List.takeWhile_cons, ih]
    exact hcut ('/' :: 'N' :: noBreaks r)
  unfold linkName
  rw [C58_as_uri, C58_as_uri]
  simp only [ok_bind]
  have key : urlParse (Spec.uri ((ss ++ [s ++ c :: q]).map (tagName ++ ·))) =
      urlParse (Spec.uri ((ss ++ [s]).map (tagName ++ ·))) := by
    have e : Spec.uri ((ss ++ [s ++ c :: q]).map (tagName ++ ·)) =
        Spec.uri ((ss ++ [s]).map (tagName ++ ·)) ++ c :: q := by
      unfold Spec.uri
      rw [List.map_append, List.map_append, List.map_singleton, List.map_singleton, ← List.append_assoc, hjoin, List.append_assoc]
    obtain ⟨r, hr⟩ : ∃ r, Spec.uri ((ss ++ [s]).map (tagName ++ ·)) = 'c' :: 'c' :: 'n' :: 'x' :: ':' :: '/' :: 'N' :: r := by
      unfold Spec.uri
      cases ss with
      | nil => exact ⟨_, rfl⟩
      | cons x ss => cases ss <;> exact ⟨_, rfl⟩
    rw [e, hr]
    exact hurl r
  rw [key]

/-! ## The hypotheses can be met -/

/-- C57, C58: two segments, one not ASCII. -/
example : (∀ s ∈ [['a'], ['b', 'ä']], Spec.PathText s) ∧ [['a'], ['b', 'ä']].head? ≠ some [] ∧
    Spec.nameOfLen (Spec.kept [['a'], ['b', 'ä']]) = 12 := by
  refine ⟨?_, by simp, by decide +kernel⟩
  unfold Spec.PathText
  decide

/-- C57: the scheme is compared in lower case; a blank before it is dropped. -/
example : (Name.fromUri (some " CCNX:/a//./b?x#y".toList)) = .ok (some (Spec.nameOf [['a'], ['b']])) := by decide +kernel

/-- C57 (scheme): `http:/a`. -/
example : ¬ ∃ a r, ("http:/a".toList.dropWhile (fun c => c.toNat ≤ 32)).filter (fun c => !(c == '\t' || c == '\r' || c == '\n')) =
    a ++ ':' :: r ∧ a.map Char.toLower = ['c', 'c', 'n', 'x'] := by
  rintro ⟨a, r, h1, h2⟩
  have h1 : ['h', 't', 't', 'p', ':', '/', 'a'] = a ++ ':' :: r := by rw [← h1]; decide
  match a with
  | [] => simp at h2
  | x :: a =>
    simp only [List.cons_append, List.cons.injEq] at h1
    obtain ⟨rfl, _⟩ := h1
    simp only [List.map_cons, List.cons.injEq] at h2
    exact absurd h2.1 (by decide)

/-- C59: a segment and a chunk number. -/
example : List.Forall₂ Spec.Shows [.nameSegment [97], ⟨T_CHUNKID, [1, 0], true⟩] [.text ['a'], .chunk 256] :=
  .cons ⟨rfl, rfl, by decide, by unfold Spec.PathText; decide⟩ (.cons ⟨rfl, by decide, by decide⟩ .nil)

end Ccnpy
