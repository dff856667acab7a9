import Verif.Props.NetworkProps
import Verif.Props.CounterProps

/-!
# C105: what encryption does not cover
-/

namespace Ccnpy

/-! ## Specification: somebody who has no keys -/

/-- The data objects (payload type 0) among packets that were overheard; everything that cannot be decoded is passed over. -/
def Spec.overheard (now : F64) (ws : List Bytes) : List ContentObject :=
  ((ws.filterMap (fun w => (Packet.deserialize now w).toOption)).map (·.body)).filter (fun c => c.payloadType == some 0)

/-- The payloads one after another. -/
def Spec.joined (cs : List ContentObject) : Bytes := (cs.map (fun c => c.payload.getD [])).flatten

/-- The chunk number (component type 5) at the end of the name. -/
def Spec.numberOf (c : ContentObject) : Option Nat :=
  match c.name with
  | none => none
  | some n =>
    match n.components.getLast? with
    | none => none
    | some k => if k.type = 5 then some (arrayToNumber k.value) else none

/-- Arranged by their numbers, from 0 on. -/
def Spec.arranged (cs : List ContentObject) : List ContentObject :=
  (List.range cs.length).filterMap (fun k => cs.find? (fun c => Spec.numberOf c == some k))

/-! ## Proof -/

theorem overheard_of_readBack (now : F64) (out : List Packet) (ws : List Bytes) (h : out.mapM Packet.serialize = .ok ws)
    (hall : ∀ p ∈ out, Spec.ReadsBack p) :
    Spec.overheard now ws = (Spec.dataOf out).map (fun p => (Spec.asRead p).body) := by
  unfold Spec.overheard Spec.dataOf
  induction out generalizing ws with
  | nil => rw [List.mapM_nil] at h; cases h; rfl
  | cons p ps ih =>
    rw [List.mapM_cons] at h
    obtain ⟨w, hw, h⟩ := bind_eq_ok.mp h
    obtain ⟨vs, hvs, h⟩ := bind_eq_ok.mp h
    cases h
    have := ih vs hvs fun q hq => hall q (by simp [hq])
    rw [List.filterMap_cons, (hall p (by simp)).load now hw]
    have ht : (Except.ok (Spec.asRead p) : Py Packet).toOption = some (Spec.asRead p) := rfl
    simp only [ht, List.map_cons, List.filter_cons, this]
    have he : (Spec.asRead p).body.payloadType = p.body.payloadType := rfl
    rw [he]
    by_cases hd : (p.body.payloadType == some 0) = true
    · have hd' : (p.body.payloadType == some PT_DATA) = true := hd
      simp [hd, hd']
    · have hd' : ¬ (p.body.payloadType == some PT_DATA) = true := hd
      simp [hd, hd']

theorem find?_unique {α : Type} {l : List α} {q : α → Bool} {x : α} (hx : x ∈ l) (hq : q x = true)
    (hu : ∀ y ∈ l, q y = true → y = x) : l.find? q = some x := by
  cases h : l.find? q with
  | none => exact absurd hq (List.find?_eq_none.mp h x hx)
  | some y => rw [hu y (List.mem_of_find?_eq_some h) (List.find?_some h)]

theorem filterMap_range {α : Type} (ds : List α) (f : Nat → Option α) (h : ∀ k, k < ds.length → f k = ds[k]?) :
    (List.range ds.length).filterMap f = ds := by
  have h1 : (List.range ds.length).filterMap f = (List.range ds.length).filterMap (fun k => ds[k]?) :=
    List.filterMap_congr fun k hk => h k (List.mem_range.mp hk)
  rw [h1]
  clear h h1 f
  induction ds with
  | nil => rfl
  | cons d ds ih =>
    rw [List.length_cons, List.range_succ_eq_map, List.filterMap_cons]
    simp only [List.getElem?_cons_zero, List.filterMap_map]
    congr 1

theorem arranged_of_perm {ds cs : List ContentObject} (hp : cs.Perm ds)
    (hn : ∀ k c, ds[k]? = some c → Spec.numberOf c = some k) : Spec.arranged cs = ds := by
  unfold Spec.arranged
  rw [hp.length_eq]
  apply filterMap_range
  intro k hk
  rw [List.getElem?_eq_getElem hk]
  apply find?_unique
  · exact hp.mem_iff.mpr (List.getElem_mem hk)
  · simp [hn k _ (List.getElem?_eq_getElem hk)]
  · intro y hy hy'
    obtain ⟨j, hj, rfl⟩ := List.getElem_of_mem (hp.mem_iff.mp hy)
    have := hn j _ (List.getElem?_eq_getElem hj)
    simp only [this, beq_iff_eq, Option.some.injEq] at hy'
    subst hy'
    rfl

theorem nameCtx_segmented {nc : Nat} {name mp dp : Option Name} {ml dl : Option (List Link)} {ctx : NameCtx}
    (h : NameCtx.create .segmented nc name mp dp ml dl = .ok ctx) :
    ∃ p, ctx.data.schema = .segmented p (some 5) none none := by
  unfold NameCtx.create at h
  dsimp only at h
  generalize (if mp.isNone = true then name else mp) = m at h
  generalize (if dp.isNone = true then name else dp) = d at h
  split at h
  · cases h
  · split at h
    · cases h
    · unfold NameCtx.createNamed at h
      rw [if_neg Bool.false_ne_true] at h
      obtain ⟨m, _, h⟩ := bind_eq_ok.mp h
      obtain ⟨d, hd, h⟩ := bind_eq_ok.mp h
      cases h
      rw [schemaCreate_inv hd]
      exact ⟨_, rfl⟩

section

variable {E : Env} {L : FloatLog} {o : TreeOptions} {nc : Nat} {input : Stream} {root : Packet} {out : List Packet}

theorem FileRun.joined (R : FileRun E L o nc input root out) :
    Spec.joined ((Spec.dataOf out).map (fun p => (Spec.asRead p).body)) = input.rest := by
  rw [R.data, ← R.bytes]
  have h := R.chunked.sum.2.2.1
  unfold Spec.joined
  rw [List.map_map]
  have : (R.ps.map ((fun c : ContentObject => c.payload.getD []) ∘ fun p => (Spec.asRead p).body)) =
      (R.ps.map (fun p => p.body.payload)).map (fun b => b.getD []) := by
    rw [List.map_map]
    rfl
  rw [this, h, List.map_map]
  simp [Function.comp_def]

/-- **C105.**  Whatever the encryption of the manifests: somebody without a key who listens to the connection, cuts the stream by the
length fields and puts the payloads of the data objects one after another has the file. -/
theorem C105_listener (now : F64) (h : manifestTree E L o nc input = (.ok root, out)) (hn : Spec.PlainNames o) (hw : Spec.WholeOptions o) :
    ∃ ws, out.mapM Packet.serialize = .ok ws ∧ NetworkWriter.putAll out {} = (.ok (), ⟨true, ws.flatten⟩) ∧ Spec.Cut ws.flatten ws ∧
      ∀ vs, Spec.Cut ws.flatten vs → Spec.joined (Spec.overheard now vs) = input.rest := by
  obtain ⟨R⟩ := manifestTree_ok h
  have hall := all_readBack R hn hw
  obtain ⟨ws, _, h1, _, h2, h3, _⟩ := C96_created (fun p hp => (hall p hp).1.created) (qs := []) (by simp)
  refine ⟨ws, h1, h2, h3, fun vs hvs => ?_⟩
  obtain rfl := (C96_unambiguous h3 (r := []) (by rw [List.append_nil]; exact hvs)).2 rfl
  rw [overheard_of_readBack now out ws h1 fun p hp => (hall p hp).1]
  exact R.joined

/-- C105 (segmented names): with segmented names it is enough to have the packets, in whatever order: the names say where each payload
belongs. -/
theorem C105_collector (now : F64) (hty : o.schemaType = .segmented) (h : manifestTree E L o nc input = (.ok root, out))
    (hn : Spec.PlainNames o) (hw : Spec.WholeOptions o) {ws vs : List Bytes} (hs : out.mapM Packet.serialize = .ok ws) (hp : vs.Perm ws) :
    Spec.joined (Spec.arranged (Spec.overheard now vs)) = input.rest := by
  obtain ⟨R⟩ := manifestTree_ok h
  have hall := all_readBack R hn hw
  have h1 := overheard_of_readBack now out ws hs fun p hp => (hall p hp).1
  have hperm : (Spec.overheard now vs).Perm (Spec.overheard now ws) := by
    unfold Spec.overheard
    exact ((hp.filterMap _).map _).filter _
  rw [h1] at hperm
  rw [arranged_of_perm hperm, R.joined]
  intro k c hc
  rw [R.data, List.getElem?_map] at hc
  obtain ⟨p, hpk, rfl⟩ := Option.map_eq_some_iff.mp hc
  obtain ⟨c1, c2, c3⟩ := chunked_get R.chunked
  have hk : k < R.file.chunks.length := by
    rw [← c2]
    exact (List.getElem?_eq_some_iff.mp hpk).1
  obtain ⟨p', b, e1, _, _, _, _, _, _, _, e2⟩ := c3 k _ (List.getElem?_eq_getElem hk)
  rw [hpk] at e1
  cases e1
  have hctx := R.ctx_ok
  rw [hty] at hctx
  obtain ⟨pre, hsch⟩ := nameCtx_segmented hctx
  rw [Nat.zero_add] at e2
  have hlt : k < 256 ^ numWidth k := lt_pow_numWidth k (by
    have := R.count
    simp only [MAX_CHUNK_ID] at this
    omega)
  rcases getName_inv e2 with ⟨l, f, e, _⟩ | ⟨l, f, e⟩ | ⟨q, st, l, f, e, _, e3, _⟩
  · rw [hsch] at e; cases e
  · rw [hsch] at e; cases e
  · rw [hsch] at e
    cases e
    unfold Spec.numberOf Spec.asRead
    simp only [e3, Option.map_some, segName, List.map_append, List.map_cons, List.map_nil, List.getLast?_append, List.getLast?_singleton,
      Option.some_or, segComponent]
    rw [if_pos trivial, arrayToNumber_beBytes, Nat.mod_eq_of_lt hlt]

set_option maxRecDepth 100000 in
/-- C105: eight chunks with segmented names and encrypted manifests, in the order of writing and backwards. -/
example : ∃ root out ws, manifestTree Toy.env Spec.exactLog (Toy.options .segmented true) 1 (Toy.shortReads 32) = (.ok root, out) ∧
    (Spec.dataOf out).length = 8 ∧ out.mapM Packet.serialize = .ok ws ∧ Spec.joined (Spec.overheard (F64.ofNat 0) ws) = Toy.bytes 32 ∧
    Spec.joined (Spec.arranged (Spec.overheard (F64.ofNat 0) ws.reverse)) = Toy.bytes 32 := by
  obtain ⟨root, out, h, hn, he, hc⟩ := Toy.equipped (o := Toy.options .segmented true) (input := Toy.shortReads 32) (n := 8)
    trivial Toy.canDecrypt (Toy.plain ⟨rfl, rfl, rfl⟩) (Toy.text rfl rfl rfl) (by decide +kernel)
  obtain ⟨ws, h1, _, h2, h3⟩ := C105_listener (F64.ofNat 0) h (Toy.plain ⟨rfl, rfl, rfl⟩) (Toy.whole _ _)
  exact ⟨root, out, ws, h, hn, h1, h3 ws h2,
    C105_collector (F64.ofNat 0) rfl h (Toy.plain ⟨rfl, rfl, rfl⟩) (Toy.whole _ _) h1 (List.reverse_perm ws)⟩

end

end Ccnpy
