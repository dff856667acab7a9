import Verif.Model.Schema

/-!
The counter of a schema object over its whole life: `chunk_data` for one file after another, and `get_next_name`.
-/

namespace Ccnpy

/-- flic/name_constructor/SchemaImpl.py:46-57 `get_next_name`: takes the next number, then calls `get_name(chunk_id=...)` by
keyword.  `HashSchemaImpl` and `PrefixSchemaImpl` have a parameter of that name (HashSchemaImpl.py:35, PrefixSchemaImpl.py:40);
in `SegmentedSchemaImpl` it is called `suffix_id` (SegmentedSchemaImpl.py:49), so the call raises TypeError. -/
def SchemaImpl.getNextName (i : SchemaImpl) : PyS ChunkState (Option Name) := fun s =>
  (match i.schema with
    | .segmented _ _ _ _ => .error .typeError
    | _ => i.getName (some (s.nextChunkId : Int)), { s with nextChunkId := s.nextChunkId + 1 })

/-- What a program may ask of a schema object. -/
inductive SchemaCall where
  | chunk (stream : Stream)
  | nextName

/-- A program that uses one schema object and one output (SchemaImpl.py:51-57, 88-124), and carries on after exceptions: the
metadata of the files that were chunked, and the state at the end. -/
def SchemaImpl.session (P : Bytes → Bytes) (i : SchemaImpl) (o : ChunkOptions) :
    List SchemaCall → ChunkState → List FileMetadata × ChunkState
  | [], s => ([], s)
  | .nextName :: cs, s => i.session P o cs (i.getNextName s).2
  | .chunk b :: cs, s =>
    let r := i.chunkData P o b s
    let q := i.session P o cs r.2
    (match r.1 with
      | .ok f => f :: q.1
      | .error _ => q.1, q.2)

end Ccnpy
