import Verif.Lemmas.Toy

/-!
# Concrete builds for the examples

Only used in `example`s, to show that hypotheses can be met.
-/

namespace Ccnpy.Toy

def env : Env := ⟨prims, fun i => List.replicate 12 (UInt8.ofNat i)⟩

/-- A name of one segment, or no name. -/
def seg (b : Bytes) : Option Name := some ⟨[.nameSegment b]⟩

/-- Nine chunks of three bytes, segmented names, one direct and two indirect pointers, height 2, all size annotations. -/
def tree : TreeEnv where
  env := env
  opts := { name := seg [114], schemaType := .segmented, addNodeSubtreeSize := true, addGroupSubtreeSize := true, addGroupLeafSize := true }
  ctx := ⟨⟨1, schemaFor .segmented none (seg [109]) true⟩, ⟨2, schemaFor .segmented none (seg [100]) false⟩, false⟩
  chunks := (List.range 9).map (fun i => ⟨i, 3, .sha256 (sha [UInt8.ofNat i])⟩)
  direct := 1
  indirect := 2
  height := 2

def key : AeadParams := ⟨some ⟨.gcm, List.replicate 16 1⟩, 5, none, none, none⟩

/-- Options for a file: root name `r`, manifest prefix `m`, data prefix `d`. -/
def options (ty : SchemaType) (encrypted : Bool) : TreeOptions where
  name := seg [114]
  schemaType := ty
  manifestPrefix := seg [109]
  dataPrefix := seg [100]
  maxPacketSize := 250
  addNodeSubtreeSize := true
  signer := some .crc32c
  encryptor := if encrypted then some (.aead key) else none

def bytes (n : Nat) : Bytes := (List.range n).map UInt8.ofNat

/-- Reads of three bytes, then full reads. -/
def input (n : Nat) : Stream := ⟨bytes n, [3]⟩

theorem ok_of_eval {α β : Type} {x : Py α × β} {f : β → Nat} {n : Nat} (h : (x.1.toBool, f x.2) = (true, n)) :
    ∃ a b, x = (.ok a, b) ∧ f b = n := by
  rcases x with ⟨e | a, b⟩
  · cases h
  · exact ⟨a, b, rfl, by cases h; rfl⟩

theorem error_of_eval {α β : Type} {x : Py α × β} {f : β → Nat} {n : Nat} (h : (x.1.toBool, f x.2) = (false, n)) :
    ∃ e b, x = (.error e, b) ∧ f b = n := by
  rcases x with ⟨e | a, b⟩
  · exact ⟨e, b, rfl, by cases h; rfl⟩
  · cases h

set_option maxRecDepth 100000 in
/-- A build of five manifests. -/
theorem tree_builds : ∃ r s', buildTree tree {} = (.ok r, s') ∧ s'.output.length = 5 :=
  ok_of_eval (f := fun s : BState => s.output.length) (by decide +kernel)

end Ccnpy.Toy
