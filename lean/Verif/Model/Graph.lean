import Verif.Model.Directory

/-!
# The picture of a manifest tree: `ccnpy/flic/tree/ManifestGraph.py`

`networkx.DiGraph` is library code; the two methods that are used are written out.  Not modelled: the layout and drawing by
graphviz and matplotlib, the DOT file format.
-/

namespace Ccnpy

/-- core/DisplayFormatter.py:23-26 `hexlify` of a byte string. -/
def hexlify (b : Bytes) : Text := '0' :: 'x' :: hexText b

/-- flic/tree/ManifestGraph.py:184-188 `_hash_to_name` -/
def hashToName (h : HashValue) : Text := (hexlify h.value).take 8

/-- flic/tree/ManifestGraph.py:65-73 `_label_from_name`.  `R` renders components of other types (see `NameComponent.repr`). -/
def graphLabel (R : NameComponent → Text) (h : HashValue) : Option Name → Py Text
  | none => .ok (hashToName h)
  | some n => do
    let c ← n.component ((n.components.length : Int) - 1)
    if c.type = T_MANIFESTID ∨ c.type = T_CHUNKID then decimal (arrayToNumber c.value)
    else n.asUri R

/-- flic/tlvs/Node.py:168-170: the inner loop of `hash_values`; iterating over a missing `Pointers` raises TypeError. -/
def appendPointers (acc : List HashValue) (g : HashGroup) : Py (List HashValue) :=
  match g.pointers with
  | none => .error .typeError
  | some l => .ok (acc ++ l)

/-- flic/tlvs/Node.py:162-171 `hash_values` -/
def Node.hashValues (n : Node) : Py (List HashValue) := n.hashGroups.foldlM appendPointers []

/-- flic/tree/ManifestGraph.py:40-45 `EntryRecord` -/
structure EntryRecord where
  isData : Bool
  parent : HashValue
  parentName : Text
  children : List HashValue
  deriving DecidableEq, Repr

/-- The attributes given to a node (117-130): colour, size and shape are determined by `is_data`. -/
structure NodeAttrs where
  isData : Bool
  label : Text
  deriving DecidableEq, Repr

/-- networkx.DiGraph: the nodes with their attributes, in order of insertion, and the edges (the weight is always 0.2). -/
structure DiGraph where
  nodes : List (Text × Option NodeAttrs) := []
  edges : List (Text × Text) := []
  deriving DecidableEq, Repr

/-- networkx.DiGraph.add_node with attributes: a node that exists has its attributes replaced (the same keys are always given). -/
def DiGraph.addNode (g : DiGraph) (n : Text) (a : NodeAttrs) : DiGraph :=
  if g.nodes.any (fun e => e.1 == n) then
    { g with nodes := g.nodes.map (fun e => if e.1 == n then (n, some a) else e) }
  else { g with nodes := g.nodes ++ [(n, some a)] }

/-- A node without attributes, if it does not exist. -/
def DiGraph.touch (g : DiGraph) (n : Text) : DiGraph :=
  if g.nodes.any (fun e => e.1 == n) then g else { g with nodes := g.nodes ++ [(n, none)] }

/-- networkx.DiGraph.add_edge: missing end points are added without attributes, an edge is there at most once. -/
def DiGraph.addEdge (g : DiGraph) (u v : Text) : DiGraph :=
  let g := (g.touch u).touch v
  if g.edges.any (fun e => e == (u, v)) then g else { g with edges := g.edges ++ [(u, v)] }

/-- flic/tree/ManifestGraph.py:116-134: the body of the loop of `_create_graph`. -/
def DiGraph.addEntry (g : DiGraph) (e : EntryRecord) : DiGraph :=
  e.children.foldl (fun g c => g.addEdge (hashToName e.parent) (hashToName c))
    (g.addNode (hashToName e.parent) ⟨e.isData, e.parentName⟩)

/-- flic/tree/ManifestGraph.py:47-53; the three sets are never used. -/
structure ManifestGraph where
  entries : List (HashValue × EntryRecord) := []
  graph : Option DiGraph := none
  paused : Bool := false

/-- `d[k] = v` on a dictionary keyed by hash values: an equal key keeps its place. -/
def dictSet {α : Type} (P : Prims) (d : List (HashValue × α)) (k : HashValue) (v : α) : List (HashValue × α) :=
  if d.any (fun e => k.dictEq P e.1) then d.map (fun e => if k.dictEq P e.1 then (e.1, v) else e) else d ++ [(k, v)]

/-- `d[k]`, if present. -/
def dictGet {α : Type} (P : Prims) (d : List (HashValue × α)) (k : HashValue) : Option α :=
  (d.find? (fun e => k.dictEq P e.1)).map (·.2)

/-- flic/tree/ManifestGraph.py:75-86 `add_manifest`: the graph is invalidated before anything may raise. -/
def ManifestGraph.addManifest (P : Prims) (R : NameComponent → Text) (h : HashValue) (node : Node) (name : Option Name) :
    PyS ManifestGraph Unit := fun g =>
  if g.paused then (.ok (), g)
  else
    let g := { g with graph := none }
    match (do return (← node.hashValues, ← graphLabel R h name) : Py (List HashValue × Text)) with
    | .error e => (.error e, g)
    | .ok (cs, l) => (.ok (), { g with entries := dictSet P g.entries h ⟨false, h, l, cs⟩ })

/-- flic/tree/ManifestGraph.py:88-97 `add_data` -/
def ManifestGraph.addData (P : Prims) (R : NameComponent → Text) (h : HashValue) (name : Option Name) :
    PyS ManifestGraph Unit := fun g =>
  if g.paused then (.ok (), g)
  else
    let g := { g with graph := none }
    match graphLabel R h name with
    | .error e => (.error e, g)
    | .ok l => (.ok (), { g with entries := dictSet P g.entries h ⟨true, h, l, []⟩ })

/-- flic/tree/ManifestGraph.py:113-134 `_create_graph` -/
def ManifestGraph.createGraph (g : ManifestGraph) : DiGraph := (g.entries.map (·.2)).foldl DiGraph.addEntry {}

/-- flic/tree/ManifestGraph.py:99-106 `save`, and 137-138 in `plot`: the graph that is written or drawn. -/
def ManifestGraph.draw : PyS ManifestGraph DiGraph := fun g =>
  match g.graph with
  | some d => (.ok d, g)
  | none => (.ok g.createGraph, { g with graph := some g.createGraph })

/-- flic/tree/ManifestGraph.py:166 `n[1]['color']`; a node without attributes raises KeyError. -/
def nodeColor (n : Text × Option NodeAttrs) : Py Bool :=
  match n.2 with
  | none => .error .keyError
  | some a => .ok a.isData

/-- flic/tree/ManifestGraph.py:162-166 (in `plot`): the colours of all nodes. -/
def DiGraph.colors (d : DiGraph) : Py (List Bool) := d.nodes.mapM nodeColor

/-- The calls that change a `ManifestGraph`. -/
inductive GraphOp where
  | manifest (h : HashValue) (node : Node) (name : Option Name)
  | data (h : HashValue) (name : Option Name)
  | pause
  | resume
  | draw

/-- One call; an exception goes to the caller, who may go on. -/
def ManifestGraph.step (P : Prims) (R : NameComponent → Text) (g : ManifestGraph) : GraphOp → ManifestGraph
  | .manifest h n name => (ManifestGraph.addManifest P R h n name g).2
  | .data h name => (ManifestGraph.addData P R h name g).2
  | .pause => { g with paused := true }
  | .resume => { g with paused := false }
  | .draw => (ManifestGraph.draw g).2

end Ccnpy
