import Verif.Props.DirectoryProps

/-!
# C86: what a traversal writes when packets are missing
-/

namespace Ccnpy

open Spec

/-! ## Specification -/

/-- A reader that answers the requests for the packets `out` (by their names and hashes) only for those that are kept; for the
others it raises `e`. -/
structure Spec.Partly (P : Prims) (out : List Packet) (keep : Packet → Bool) (e : PyErr) (rd : Reader) : Prop where
  get : ∀ p ∈ out, ∀ hv, p.hash P.sha256 = .ok hv → rd p.body.name (some hv) = if keep p then .ok p else .error e
  hashes : ∀ name h p, rd name h = .ok p → ∃ hv, p.hash P.sha256 = .ok hv

/-- Traversing from the root when the packets are asked for in the given order: if all are there it returns, otherwise it raises `e`;
written are the payloads of the data objects before the first that is missing. -/
def Spec.ReadUntil (E : Env) (o : TreeOptions) (order : List Packet) (keep : Packet → Bool) (e : PyErr) (rd : Reader)
    (ks : Option Keystore) (depth : Nat) (hv : HashValue) : Prop :=
  ∃ s, TravEnv.traverse ⟨E.prims, rd, ks⟩ depth o.name (some hv) (TState.new ks) =
      (if order.all keep then .ok () else .error e, s) ∧
    s.writes.map some = (Spec.dataOf (order.takeWhile keep)).map (·.body.payload) ∧
    s.count = (order.takeWhile keep).length

/-! ## Helpers -/

/-- The payloads of the data objects in a list. -/
def payloadsOf (ps : List Packet) : List Bytes := (Spec.dataOf ps).filterMap (·.body.payload)

theorem payloadsOf_append (a b : List Packet) : payloadsOf (a ++ b) = payloadsOf a ++ payloadsOf b := by
  simp [payloadsOf, Spec.dataOf]

theorem takeWhile_append_if {α : Type} (f : α → Bool) (a b : List α) :
    (a ++ b).takeWhile f = if a.all f then a ++ b.takeWhile f else a.takeWhile f := by
  induction a with
  | nil => simp
  | cons x a ih =>
    rw [List.cons_append, List.takeWhile_cons, List.takeWhile_cons, List.all_cons, ih]
    cases f x
    · simp
    · simp only [Bool.true_and, if_true]
      split <;> rfl

theorem pair_eq {α β : Type} {x : α × β} {a : α} (h : x.1 = a) : x = (a, x.2) := by rw [← h]

/-- The outcome of asking for the packets in order. -/
def untilMissing (keep : Packet → Bool) (e : PyErr) (s : TState) (ps : List Packet) (c : DecryptorCache) : Py Unit × TState :=
  (if ps.all keep then .ok () else .error e,
    { count := s.count + (ps.takeWhile keep).length, writes := s.writes ++ payloadsOf (ps.takeWhile keep), cache := c })

theorem untilMissing_nil (keep : Packet → Bool) (e : PyErr) (s : TState) : untilMissing keep e s [] s.cache = (.ok (), s) := by
  simp [untilMissing, payloadsOf, Spec.dataOf]

theorem untilMissing_missing {keep : Packet → Bool} {p : Packet} (hk : keep p = false) (e : PyErr) (s : TState) (ps : List Packet) :
    untilMissing keep e s (p :: ps) s.cache = (.error e, s) := by
  simp [untilMissing, payloadsOf, Spec.dataOf, hk]

theorem untilMissing_data {keep : Packet → Bool} {p : Packet} (hk : keep p = true) {b : Bytes}
    (ht : p.body.payloadType = some PT_DATA) (hb : p.body.payload = some b) (e : PyErr) (s : TState) (ps : List Packet)
    (c : DecryptorCache) : untilMissing keep e s (p :: ps) c =
      untilMissing keep e { s with count := s.count + 1, writes := s.writes ++ [b] } ps c := by
  simp [untilMissing, payloadsOf, Spec.dataOf, hk, ht, hb, Nat.add_assoc, Nat.add_comm 1]

theorem untilMissing_manifest {keep : Packet → Bool} {p : Packet} (hk : keep p = true)
    (ht : p.body.payloadType = some PT_MANIFEST) (e : PyErr) (s : TState) (ps : List Packet) (c c' : DecryptorCache) :
    untilMissing keep e s (p :: ps) c = untilMissing keep e { s with count := s.count + 1, cache := c' } ps c := by
  have : (some PT_MANIFEST == some PT_DATA) = false := by decide
  simp [untilMissing, payloadsOf, Spec.dataOf, hk, ht, this, Nat.add_assoc, Nat.add_comm 1]

theorem untilMissing_append_missing {keep : Packet → Bool} {ps : List Packet} (h : ps.all keep = false) (e : PyErr) (s : TState)
    (qs : List Packet) (c : DecryptorCache) : untilMissing keep e s (ps ++ qs) c = untilMissing keep e s ps c ∧
      (untilMissing keep e s ps c).1 = .error e := by
  simp only [untilMissing, takeWhile_append_if, List.all_append, h, Bool.false_and, Bool.false_eq_true, if_false, and_self]

theorem untilMissing_append {keep : Packet → Bool} {ps : List Packet} (h : ps.all keep = true) (e : PyErr) (s : TState)
    (qs : List Packet) (c c' : DecryptorCache) : untilMissing keep e s (ps ++ qs) c =
      untilMissing keep e (untilMissing keep e s ps c').2 qs c ∧ (untilMissing keep e s ps c').1 = .ok () := by
  have htake := takeWhile_all (List.all_eq_true.mp h)
  simp only [untilMissing, takeWhile_append_if, List.all_append, h, Bool.true_and, if_true, htake, payloadsOf_append,
    List.length_append, List.append_assoc, Nat.add_assoc, and_self]

theorem Spec.Leads.run_until {T : TravEnv} {op : Packet → Node → Prop} (Inv : DecryptorCache → Prop) {keep : Packet → Bool}
    {e : PyErr} {rd : Reader}
    (hserve : ∀ n h p, T.reader n h = .ok p → rd n h = if keep p then .ok p else .error e)
    (hop : ∀ p node s, op p node → Inv s.cache → ∃ m m' c, Manifest.fromContentObject p.body = .ok m ∧
      TravEnv.decrypt ⟨T.prims, rd, T.keystore⟩ m s = (.ok m', { s with cache := c }) ∧ m'.node = .plain node ∧
      m'.display = .ok () ∧ Inv c)
    (hhash : ∀ name h p, rd name h = .ok p → ∃ hv, p.hash T.prims.sha256 = .ok hv)
    (hwalk : ∀ p node, op p node → Spec.Walkable node)
    {scope : List NcDef} {rs : List Spec.Request} {v : Spec.Visited} (h : Spec.Leads T op scope rs v) :
    ∀ {nc : NcCache} (_ : CacheOf nc scope) {depth : Nat} (_ : v.depth ≤ depth) {s : TState} (_ : Inv s.cache),
    ∃ c, visitRequests ⟨T.prims, rd, T.keystore⟩ (fun q => TravEnv.preorder ⟨T.prims, rd, T.keystore⟩ depth nc q) rs s =
      untilMissing keep e s v.packets c ∧ Inv c := by
  induction h with
  | nil =>
    intro nc hc depth hd s hs
    exact ⟨s.cache, (untilMissing_nil keep e s).symm, hs⟩
  | data h1 h2 h3 h4 _ ih =>
    intro nc hc depth hd s hs
    simp only [Spec.Visited.depth] at hd
    rename_i p b rest _
    have hr := hserve _ _ _ h1
    cases hk : keep p with
    | false =>
      rw [hk, if_neg (by simp)] at hr
      refine ⟨s.cache, ?_, hs⟩
      rw [Spec.Visited.packets, untilMissing_missing hk]
      unfold visitRequests
      exact PyS.bind_of_error (congrArg (·, s) hr)
    | true =>
      rw [hk, if_pos rfl] at hr
      obtain ⟨hv, hh⟩ := hhash _ _ _ hr
      obtain ⟨depth, rfl⟩ : ∃ d, depth = d + 1 := ⟨depth - 1, by omega⟩
      have hp : TravEnv.preorder ⟨T.prims, rd, T.keystore⟩ (depth + 1) nc p s =
          (.ok (), { s with count := s.count + 1, writes := s.writes ++ [b] }) := by
        rw [TravEnv.preorder, PyS.liftBind_run hh, PyS.bind_run]
        simp only [PyS.modify_run, h3]
        rw [if_neg (by decide), if_pos trivial, h4]
        rfl
      obtain ⟨c, hrun, hc'⟩ := ih hc (depth := depth + 1) (by omega)
        (s := { s with count := s.count + 1, writes := s.writes ++ [b] }) hs
      refine ⟨c, ?_, hc'⟩
      rw [Spec.Visited.packets, untilMissing_data hk h3 h4]
      unfold visitRequests
      rw [PyS.liftBind_run hr, PyS.liftBind_run h2, PyS.bind_of_ok hp, hrun]
  | manifest h1 h2 h3 h4 h5 _ _ ih1 ih2 =>
    intro nc hc depth hd s hs
    rename_i p node kids rest _ _
    simp only [Spec.Visited.depth] at hd
    have hr := hserve _ _ _ h1
    cases hk : keep p with
    | false =>
      rw [hk, if_neg (by simp)] at hr
      refine ⟨s.cache, ?_, hs⟩
      rw [Spec.Visited.packets, untilMissing_missing hk]
      unfold visitRequests
      exact PyS.bind_of_error (congrArg (·, s) hr)
    | true =>
      rw [hk, if_pos rfl] at hr
      obtain ⟨hv, hh⟩ := hhash _ _ _ hr
      obtain ⟨depth, rfl⟩ : ∃ d, depth = d + 1 := ⟨depth - 1, by omega⟩
      obtain ⟨m, m', c1, hm, hdec, hn, hshow, hc1⟩ := hop _ _ { s with count := s.count + 1 } h4 hs
      obtain ⟨nc', hnc', hpre⟩ := preorder_manifest (T := ⟨T.prims, rd, T.keystore⟩) (depth := depth) hh hc h3 hm hdec hn
        (hwalk _ _ h4) h5
      rw [reportError_shown hshow] at hpre
      obtain ⟨c2, hrun, hc2⟩ := ih1 hnc' (depth := depth) (by omega) (s := { s with count := s.count + 1, cache := c1 }) hc1
      have hpre := hpre.trans hrun
      rw [Spec.Visited.packets]
      cases hall : kids.packets.all keep with
      | false =>
        refine ⟨c2, ?_, hc2⟩
        obtain ⟨u1, u2⟩ := untilMissing_append_missing hall e { s with count := s.count + 1, cache := c1 } rest.packets c2
        rw [untilMissing_manifest hk h3 e s _ c2 c1, u1]
        have hpre := hpre.trans (pair_eq u2)
        unfold visitRequests
        rw [PyS.liftBind_run hr, PyS.liftBind_run h2, PyS.bind_of_error hpre]
        exact (pair_eq u2).symm
      | true =>
        obtain ⟨_, u2⟩ := untilMissing_append hall e { s with count := s.count + 1, cache := c1 } rest.packets c2 c2
        have hpre := hpre.trans (pair_eq u2)
        obtain ⟨c3, hrun', hc3⟩ := ih2 hc (depth := depth + 1) (by omega)
          (s := (untilMissing keep e { s with count := s.count + 1, cache := c1 } kids.packets c2).2) hc2
        refine ⟨c3, ?_, hc3⟩
        obtain ⟨u1, _⟩ := untilMissing_append hall e { s with count := s.count + 1, cache := c1 } rest.packets c3 c2
        rw [untilMissing_manifest hk h3 e s _ c3 c1, u1]
        unfold visitRequests
        rw [PyS.liftBind_run hr, PyS.liftBind_run h2, PyS.bind_of_ok hpre, hrun']

/-- The reader that has all the packets. -/
def idealReader (P : Prims) (out : List Packet) : Reader := fun name h =>
  match h with
  | none => .error .keyError
  | some h =>
    match out.find? (fun p => Spec.hasHash P h p && decide (p.body.name = name)) with
    | none => .error .keyError
    | some p => .ok p

theorem idealReader_ok {P : Prims} {out : List Packet} {name : Option Name} {h : Option HashValue} {p : Packet}
    (hp : idealReader P out name h = .ok p) : p ∈ out ∧ p.body.name = name ∧ ∃ hv, h = some hv ∧ p.hash P.sha256 = .ok hv := by
  unfold idealReader at hp
  cases h with
  | none => cases hp
  | some hv =>
    simp only at hp
    split at hp
    · cases hp
    · rename_i q hq
      cases hp
      have := List.find?_some hq
      simp only [Spec.hasHash, Bool.and_eq_true, decide_eq_true_eq] at this
      exact ⟨List.mem_of_find?_eq_some hq, this.2, hv, rfl, this.1⟩

theorem idealReader_serves {P : Prims} {out : List Packet} (hc : Spec.NoCollision P out) : Serves P out (idealReader P out) := by
  refine ⟨fun p hp hv hh => ?_, fun name h p hp => ?_⟩
  · unfold idealReader
    simp only
    cases hf : out.find? (fun q => Spec.hasHash P hv q && decide (q.body.name = p.body.name)) with
    | none => exact absurd (List.find?_eq_none.mp hf p hp) (by simp [Spec.hasHash, hh])
    | some q =>
      have := List.find?_some hf
      simp only [Spec.hasHash, Bool.and_eq_true, decide_eq_true_eq] at this
      rw [hc p hp q (List.mem_of_find?_eq_some hf) hv hh this.1]
  · obtain ⟨_, _, hv, _, hh⟩ := idealReader_ok hp
    exact ⟨hv, hh⟩

variable {E : Env} {L : FloatLog} {o : TreeOptions} {nc : Nat} {input : Stream} {root : Packet} {out : List Packet}
  {store : MemoryStore} {ks : Option Keystore}

theorem Spec.Leads.dataOf {T : TravEnv} {op : Packet → Node → Prop} {scope : List NcDef} {rs : List Spec.Request}
    {v : Spec.Visited} (h : Spec.Leads T op scope rs v) : Spec.dataOf v.packets = v.datas := by
  induction h with
  | nil => rfl
  | data h1 h2 h3 h4 _ ih =>
    unfold Spec.dataOf at *
    rw [Spec.Visited.packets, List.filter_cons, if_pos (by rw [h3]; decide), ih]
    rfl
  | manifest h1 h2 h3 h4 h5 _ _ ih1 ih2 =>
    unfold Spec.dataOf at *
    rw [Spec.Visited.packets, List.filter_cons, if_neg (by rw [h3]; decide), List.filter_append, ih1, ih2]
    rfl

theorem payloadsOf_some {ps : List Packet} (h : ∀ p ∈ Spec.dataOf ps, ∃ b, p.body.payload = some b) :
    (payloadsOf ps).map some = (Spec.dataOf ps).map (·.body.payload) := by
  unfold payloadsOf
  generalize Spec.dataOf ps = qs at *
  induction qs with
  | nil => rfl
  | cons q qs ih =>
    obtain ⟨b, hb⟩ := h q (by simp)
    simp only [List.filterMap_cons, hb, List.map_cons, ih (fun p hp => h p (by simp [hp]))]

/-- The data objects a reader finds for the chunks are those of the run. -/
theorem FileRun.datas (R : FileRun E L o nc input root out) (hc : Spec.NoCollision E.prims out) {qs : List Packet}
    (h : List.Forall₂ (ServedFor R.env ⟨E.prims, idealReader E.prims out, ks⟩) R.file.chunks qs) : qs = R.ps := by
  obtain ⟨c1, c2, c3⟩ := chunked_get R.chunked
  have hl := h.length_eq
  refine List.ext_getElem (by omega) ?_
  intro j h1 h2
  obtain ⟨name, hn, hq⟩ := h.get (i := j) (by omega) h1
  have hq : idealReader E.prims out name (some R.file.chunks[j].hash) = .ok qs[j] := hq
  obtain ⟨hm, _, hv, e, hh⟩ := idealReader_ok hq
  cases e
  obtain ⟨p, b, p1, p2, p3, p4, p5, _⟩ := c3 j _ (List.getElem?_eq_getElem (by omega))
  obtain ⟨_, p1⟩ := List.getElem?_eq_some_iff.mp p1
  rw [p1]
  refine hc _ hm p ?_ _ hh p5
  have : p ∈ Spec.dataOf out := by rw [R.data, ← p1]; exact List.getElem_mem _
  exact (List.mem_filter.mp this).1

/-- The order in which the packets are asked for, and the outcome for every choice of packets kept. -/
theorem FileRun.readUntil (R : FileRun E L o nc input root out) (hr : Spec.Equipped E o nc ks) (hc : Spec.NoCollision E.prims out)
    {ids : List Int} {level : Nat} {i : Info} {kids : Forest} (hv : (Forest.cons i kids .nil).Valid R.env 0 R.file.chunks.length level)
    (hf : R.env.IdsFrom ids (kids.written ++ [i])) (hlev : (level : Int) ≤ R.r.height) (hi : i.hash = R.topHash)
    (hout : out = R.ps ++ (kids.written ++ [i]).map (·.packet) ++ [root])
    (hfit : R.ctx.manifest.usesNameId = true → ∀ k ∈ kids.written ++ [i], k.id < 2 ^ 64)
    (hid : R.ctx.manifest.usesNameId = true → i.id = 0) :
    ∃ hv order, root.hash E.prims.sha256 = .ok hv ∧ (root :: order).Perm out ∧ Spec.dataOf (root :: order) = Spec.dataOf out ∧
      ∀ keep e rd, Spec.Partly E.prims out keep e rd → ∀ depth, out.length ≤ depth ∨ level + 3 ≤ depth →
        Spec.ReadUntil E o (root :: order) keep e rd ks depth hv := by
  have hserves := idealReader_serves hc
  obtain ⟨v, v1, v2, v3, v4, v5, v6, _⟩ := R.leads (ks := ks) hr.names hr.counter (R.servedBy hserves ks) hv hf hlev hout hfit
  have hdatas := R.datas hc v6
  obtain ⟨w, _, hbody⟩ := R.root_signed
  obtain ⟨rv, hrv⟩ := R.root_hash
  have hrootdata : ∀ l, Spec.dataOf (root :: l) = Spec.dataOf l := by
    intro l
    unfold Spec.dataOf
    rw [List.filter_cons, hbody]
    rfl
  have hdata : Spec.dataOf (root :: v.packets) = Spec.dataOf out := by
    rw [hrootdata, v1.dataOf, hdatas, R.data]
  have hpay : ∀ keep, ∀ p ∈ Spec.dataOf ((root :: v.packets).takeWhile keep), ∃ b, p.body.payload = some b := by
    intro keep p hp
    have hp : p ∈ R.ps := by
      rw [← R.data, ← hdata]
      obtain ⟨h1, h2⟩ := List.mem_filter.mp hp
      exact List.mem_filter.mpr ⟨(List.takeWhile_sublist _).subset h1, h2⟩
    obtain ⟨c1, c2, c3⟩ := chunked_get R.chunked
    obtain ⟨j, hj, rfl⟩ := List.getElem_of_mem hp
    obtain ⟨p, b, p1, _, _, _, _, p6, _⟩ := c3 j _ (List.getElem?_eq_getElem (by omega))
    obtain ⟨_, p1⟩ := List.getElem?_eq_some_iff.mp p1
    exact ⟨b, by rw [p1]; exact p6⟩
  refine ⟨rv, v.packets, hrv, ?_, hdata, ?_⟩
  · rw [hout]
    refine .trans (.cons root v.packets_perm) ?_
    rw [hdatas]
    refine .trans (.cons root (.append_left _ v5)) ?_
    exact (List.perm_append_singleton root _).symm
  intro keep e rd hrd depth hd
  have hget := hrd.get root (by rw [hout]; simp) rv hrv
  have hname : root.body.name = o.name := by rw [hbody]
  rw [hname] at hget
  suffices h : ∃ c, TravEnv.traverse ⟨E.prims, rd, ks⟩ depth o.name (some rv) (TState.new ks) =
      untilMissing keep e (TState.new ks) (root :: v.packets) c by
    obtain ⟨c, h⟩ := h
    refine ⟨_, h, ?_, ?_⟩
    · rw [← payloadsOf_some (hpay keep)]
      exact congrArg (List.map some) (List.nil_append _)
    · exact Nat.zero_add _
  have hvd : v.depth + 1 ≤ depth := by
    have hle := v.depth_le_count
    rcases hd with hd | hd <;> omega
  obtain ⟨d, rfl⟩ : ∃ d, depth = d + 1 := ⟨depth - 1, by omega⟩
  cases hk : keep root with
  | false =>
    rw [hk, if_neg (by simp)] at hget
    refine ⟨(TState.new ks).cache, ?_⟩
    rw [untilMissing_missing hk]
    unfold TravEnv.traverse
    exact PyS.bind_of_error (congrArg (·, TState.new ks) hget)
  | true =>
    rw [hk, if_pos rfl] at hget
    obtain ⟨hv', c, hh, hc, hroot⟩ := R.root hr.aead hr.oaep hr.rsa hr.verify hr.decrypt hr.counter hr.text (rd := rd) (by
      intro x hx
      cases Except.ok.inj (hrv.symm.trans hx)
      exact hget)
    cases Except.ok.inj (hrv.symm.trans hh)
    obtain ⟨hgood, _, _⟩ := nameCtx_good R.ctx_ok
    obtain ⟨_, name, _, _, hname, _⟩ := hv.made i (by simp [Forest.written])
    have hname : R.ctx.manifest.getName (some (i.id : Int)) = .ok name := hname
    obtain ⟨cache, k1, k2⟩ := hroot [R.ctx.manifest.request i.pair] d (by
      rw [request_name (x := i.pair) hname, ← hi]
      refine .cons (asks_of hgood.manifest hgood.lookup_manifest (nameCtx_plain hr.names R.ctx_ok).1 ?_) .nil
      cases hu : R.ctx.manifest.usesNameId with
      | false => rw [getName_any hu _ (some (i.id : Int))]; exact hname
      | true => rw [hid hu] at hname; exact hname)
    obtain ⟨c', h1, _⟩ := v1.run_until (fun c => c.Ready E.prims o.encryptor false) (keep := keep) (e := e) (rd := rd)
      (by
        intro n h p hp
        obtain ⟨p1, p2, hv, rfl, p3⟩ := idealReader_ok hp
        rw [← p2]
        exact hrd.get p p1 hv p3)
      (by
        intro p node s ⟨n, name, x, s0, s1, hb, hn, he, hw, hl, _⟩ hready
        subst he
        obtain ⟨m, m', c, r1, r2, r3, r4⟩ := read_manifest hr.aead hr.decrypt hn hb
          (T := ⟨E.prims, rd, ks⟩) rfl rfl hready
        exact ⟨m, m', c, r1, r2, by rw [r3], by rw [r3]; exact manifest_shown hl hw (numbers_short hn), r4⟩)
      (fun name h p hp => hrd.hashes name h p hp)
      (fun p node ⟨_, _, _, _, _, _, _, _, hw, _⟩ => hw) k1 (depth := d) (by omega) (s := { count := 1, writes := [], cache := c }) hc
    refine ⟨c', (k2.trans h1).trans ?_⟩
    rw [untilMissing_manifest hk (by rw [hbody]) e _ _ c' c]
    rfl

/-! ## C86 -/

/-- C86: with hashed or prefix names the packets of a publication are asked for in a fixed order, root first and the data objects as
they were put out; whatever packets the reader lacks, the traversal reads up to the first of them, has then written the payloads of
the data objects before it, and raises the exception of the reader; it returns only if none is missing. -/
theorem C86_missing_packets (hty : o.schemaType ≠ .segmented) (h : manifestTree E L o nc input = (.ok root, out))
    (hr : Spec.Equipped E o nc ks) (hc : Spec.NoCollision E.prims out) :
    ∃ hv order, root.hash E.prims.sha256 = .ok hv ∧ (root :: order).Perm out ∧ Spec.dataOf (root :: order) = Spec.dataOf out ∧
      ∀ keep e rd, Spec.Partly E.prims out keep e rd → ∀ depth, out.length ≤ depth →
        Spec.ReadUntil E o (root :: order) keep e rd ks depth hv := by
  obtain ⟨R⟩ := manifestTree_ok h
  obtain ⟨ids, level, i, kids, h1, h2, h3, h4, h5, h6, h7, h8⟩ := R.forest
  have hu : R.ctx.manifest.usesNameId ≠ true := fun hu => hty ((nameCtx_inv R.ctx_ok).2.2.mp hu)
  obtain ⟨hv, order, a, b, c, d⟩ := R.readUntil hr hc h2 h3 h6 h7 h8 (fun h => absurd h hu) (fun h => absurd h hu)
  exact ⟨hv, order, a, b, c, fun keep e rd hrd depth hd => d keep e rd hrd depth (.inl hd)⟩

theorem takeWhile_filter_prefix {α : Type} (f d : α → Bool) (l : List α) : (l.takeWhile f).filter d <+: l.filter d :=
  (List.takeWhile_prefix f).filter d

theorem takeWhile_filter {α : Type} {f d : α → Bool} {l : List α} (h : ∀ a ∈ l, d a = false → f a = true) :
    (l.takeWhile f).filter d = (l.filter d).takeWhile f := by
  induction l with
  | nil => rfl
  | cons a l ih =>
    have ih := ih (fun b hb => h b (List.mem_cons_of_mem _ hb))
    have ha := h a (List.mem_cons_self ..)
    cases hd : d a with
    | false => simp [hd, ha hd, ih]
    | true => cases hf : f a <;> simp [hd, hf, ih]

/-- C86: so what is written is a beginning of the file, also when the traversal fails; it succeeds just if no packet is missing; and
if only data objects are missing, everything before the first of them is written. -/
theorem C86_prefix_written (hty : o.schemaType ≠ .segmented) (h : manifestTree E L o nc input = (.ok root, out))
    (hr : Spec.Equipped E o nc ks) (hc : Spec.NoCollision E.prims out) :
    ∃ hv, root.hash E.prims.sha256 = .ok hv ∧ ∀ keep e rd, Spec.Partly E.prims out keep e rd → ∀ depth, out.length ≤ depth →
      ∃ r s, TravEnv.traverse ⟨E.prims, rd, ks⟩ depth o.name (some hv) (TState.new ks) = (r, s) ∧
        (r = .ok () ↔ ∀ p ∈ out, keep p = true) ∧ (r = .ok () ∨ r = .error e) ∧
        s.writes.flatten <+: input.rest ∧ s.writes.map some <+: (Spec.dataOf out).map (·.body.payload) ∧
        ((∀ p ∈ out, p.body.payloadType ≠ some PT_DATA → keep p = true) →
          s.writes.map some = ((Spec.dataOf out).takeWhile keep).map (·.body.payload)) := by
  obtain ⟨hv, order, h1, h2, h3, h4⟩ := C86_missing_packets hty h hr hc
  refine ⟨hv, h1, fun keep e rd hrd depth hd => ?_⟩
  obtain ⟨s, s1, s2, s3⟩ := h4 keep e rd hrd depth hd
  have hpre : s.writes.map some <+: (Spec.dataOf out).map (·.body.payload) := by
    rw [s2, ← h3]
    exact (takeWhile_filter_prefix ..).map _
  refine ⟨_, s, s1, ?_, ?_, ?_, hpre, ?_⟩
  · have hall : (root :: order).all keep = true ↔ ∀ p ∈ out, keep p = true := by
      rw [List.all_eq_true]
      exact ⟨fun h p hp => h p (h2.mem_iff.mpr hp), fun h p hp => h p (h2.mem_iff.mp hp)⟩
    rw [← hall]
    split
    · rename_i h
      exact ⟨fun _ => h, fun _ => rfl⟩
    · rename_i h
      exact ⟨fun e => (by cases e), fun e => absurd e h⟩
  · split
    · exact .inl rfl
    · exact .inr rfl
  · obtain ⟨R⟩ := manifestTree_ok h
    obtain ⟨ids, level, i, kids, _, g2, g3, _, _, g6, g7, g8⟩ := R.forest
    have hu : R.ctx.manifest.usesNameId ≠ true := fun hu => hty ((nameCtx_inv R.ctx_ok).2.2.mp hu)
    obtain ⟨_, _, w⟩ := R.returnedBy hr (idealReader_serves hc) g2 g3 g6 g7 g8 (fun h => absurd h hu) (fun h => absurd h hu)
    obtain ⟨t, _, t1, t2, _⟩ := w depth (.inl hd)
    rw [← t2] at hpre
    obtain ⟨u, hu⟩ := hpre
    obtain ⟨a, b, hab, ha, _⟩ := List.map_eq_append_iff.mp hu.symm
    rw [List.map_inj_right (fun _ _ => Option.some.inj)] at ha
    rw [← t1, hab, ha, List.flatten_append]
    exact List.prefix_append _ _
  · intro hk
    rw [s2, ← h3]
    congr 1
    refine takeWhile_filter fun p hp hpt => hk p (h2.mem_iff.mp hp) ?_
    intro hcon
    rw [hcon] at hpt
    cases hpt

/-! ## The stores -/

/-- A hash that no packet put has is not found. -/
theorem Spec.Holds.find_none {P : Prims} {ps : List Packet} {store : MemoryStore} (h : Spec.Holds P ps store) {hv : HashValue}
    (ha : hv.alg = T_SHA_256) (hno : ∀ p ∈ ps, p.hash P.sha256 ≠ .ok hv) : store.find P hv = none := by
  rcases h with h | h
  · rw [(store_inv P ps store h).2.1 hv ha]
    exact List.find?_eq_none.mpr fun p hp => by simpa [Spec.hasHash] using hno p hp
  · unfold MemoryStore.find
    rw [List.find?_eq_none.mpr]
    · rfl
    · intro y hy hd
      have hfy := ofPackets_filed h y hy
      have : hv = y.1 := (HashValue.dictEq_same_alg P hv y.1 (by rw [ha, Packet.hash_sha hfy])).mp hd
      exact hno y.2 ((ofPackets_entries h).1 y hy) (by rw [this]; exact hfy)

theorem NoCollision.filter {P : Prims} {ps : List Packet} (h : Spec.NoCollision P ps) (keep : Packet → Bool) :
    Spec.NoCollision P (ps.filter keep) :=
  fun p hp q hq => h p (List.mem_filter.mp hp).1 q (List.mem_filter.mp hq).1

/-- C86: a memory store into which only the kept packets were put raises KeyError for the others. -/
theorem C86_memory (hty : o.schemaType ≠ .segmented) (h : manifestTree E L o nc input = (.ok root, out))
    (hr : Spec.Equipped E o nc ks) (hc : Spec.NoCollision E.prims out) :
    ∃ hv order, root.hash E.prims.sha256 = .ok hv ∧ (root :: order).Perm out ∧ Spec.dataOf (root :: order) = Spec.dataOf out ∧
      ∀ keep store, Spec.Holds E.prims (out.filter keep) store → ∀ depth, out.length ≤ depth →
        Spec.ReadUntil E o (root :: order) keep .keyError (store.reader E.prims) ks depth hv := by
  obtain ⟨hv, order, h1, h2, h3, h4⟩ := C86_missing_packets hty h hr hc
  refine ⟨hv, order, h1, h2, h3, fun keep store hs => h4 keep _ _ ⟨?_, hs.hashes⟩⟩
  intro p hp hv hh
  cases hk : keep p with
  | true => exact hs.reader (NoCollision.filter hc keep) (List.mem_filter.mpr ⟨hp, hk⟩) hh
  | false =>
    have := hs.find_none (Packet.hash_sha hh) (fun q hq hqh => by
      obtain ⟨hq, hqk⟩ := List.mem_filter.mp hq
      rw [hc q hq p hp hv hqh hh, hk] at hqk
      cases hqk)
    show store.get E.prims p.body.name hv = _
    unfold MemoryStore.get
    rw [this]
    rfl

/-- C86: a directory into which only the kept packets were put raises FileNotFoundError for the others. -/
theorem C86_directory (now : F64) (F : NameComponent → Text) (hty : o.schemaType ≠ .segmented)
    (h : manifestTree E L o nc input = (.ok root, out)) (hr : Spec.Equipped E o nc ks) (hw : Spec.WholeOptions o)
    (hc : Spec.NoCollision E.prims out) {w : DirWriter} (hn : w.nested = false) :
    ∃ hv order, root.hash E.prims.sha256 = .ok hv ∧ (root :: order).Perm out ∧ Spec.dataOf (root :: order) = Spec.dataOf out ∧
      ∀ keep s, w.putAll E.prims F (out.filter keep) {} = (.ok (), s) → ∀ depth, out.length ≤ depth →
        Spec.ReadUntil E o (root :: order) keep .fileNotFoundError (s.dir.reader now F) ks depth hv := by
  obtain ⟨R⟩ := manifestTree_ok h
  have hall := all_readBack R hr.names hw
  obtain ⟨hv, order, h1, h2, h3, h4⟩ := C86_missing_packets hty h hr hc
  refine ⟨hv, order, h1, h2, h3, fun keep s hs => h4 keep _ _ ⟨?_, fun name h p hp => reader_hashes hp⟩⟩
  intro p hp hv hh
  cases hk : keep p with
  | true =>
    rw [C60_read_back now hn hs (NoCollision.filter hc keep) (List.mem_filter.mpr ⟨hp, hk⟩) (hall p hp).1 hh,
      returned_own hh ((hall p hp).2 hty)]
    rfl
  | false =>
    have e : hv = .sha256 hv.value := by
      have := Packet.hash_alg hh
      cases hv
      simp only at this
      rw [this]
      rfl
    exact C60_missing now hn hs (a := hv.alg) (digest := hv.value) (fun q hq hqh => by
      obtain ⟨hq, hqk⟩ := List.mem_filter.mp hq
      rw [hc q hq p hp hv (by rw [hqh, ← e]) hh, hk] at hqk
      cases hqk) _

/-! ## Cases -/

/-- Everything but the packet with the given payload. -/
def Toy.without (b : Bytes) (p : Packet) : Bool := p.body.payload != some b

set_option maxRecDepth 100000 in
/-- C86: eight data objects, prefix names, encrypted; the third data object is missing from a memory reader. -/
example : ∃ root out store, manifestTree Toy.env Spec.exactLog (Toy.options .prefixed true) 1 (Toy.shortReads 32) = (.ok root, out) ∧
    (Spec.dataOf out).length = 8 ∧ Spec.Equipped Toy.env (Toy.options .prefixed true) 1 (some Toy.aesKeys) ∧
    Spec.NoCollision Toy.prims out ∧ Spec.Holds Toy.prims (out.filter (Toy.without [8, 9, 10, 11])) store ∧
    ((Spec.dataOf out).takeWhile (Toy.without [8, 9, 10, 11])).length = 2 := by
  obtain ⟨root, out, h, hn, he, hc⟩ := Toy.equipped (o := Toy.options .prefixed true) (input := Toy.shortReads 32) (n := 8)
    trivial Toy.canDecrypt (Toy.plain ⟨rfl, rfl, rfl⟩) (Toy.text rfl rfl rfl) (by decide +kernel)
  obtain ⟨store, hs⟩ := Toy.ok_of_isOk (x := MemoryStore.ofPackets Toy.prims
    ((manifestTree Toy.env Spec.exactLog (Toy.options .prefixed true) 1 (Toy.shortReads 32)).2.filter (Toy.without [8, 9, 10, 11])))
    (by decide +kernel)
  have hl : ((Spec.dataOf (manifestTree Toy.env Spec.exactLog (Toy.options .prefixed true) 1 (Toy.shortReads 32)).2).takeWhile
      (Toy.without [8, 9, 10, 11])).length = 2 := by decide +kernel
  rw [h] at hs hl
  exact ⟨root, out, store, h, hn, he, hc, .inr hs, hl⟩

end Ccnpy
