# Formal model of ccnpy in Lean 4

Source: `/repo` (mmosko/ccnpy, Python). The code is read as text; nothing is executed.
Properties: `properties.jsonl`. Theorem index: `MANIFEST.json`. Mutation log: `seeded/LOG.jsonl`.

## Modelling conventions

* `abbrev Bytes := List UInt8`. Python `array('B')`, `bytes` and lists of ints used as byte buffers are all
  `Bytes`. The only place where the container matters is `==` on `NameComponent` values (an `array` never equals a
  `bytes`), so name components carry a container flag.
* A Python function that may raise is a Lean function into `Except PyErr α`; `PyErr` has one constructor per
  exception class that the code raises or lets through. Messages are dropped. Logging and `print` are dropped.
* Constructing an object in ccnpy eagerly serializes it, so "the constructor succeeds" and "the wire format exists"
  are the same event. Objects are plain structures and `X.tlv : X → Except PyErr Tlv` models construct + serialize.
* `X.parse : Tlv → Except PyErr X` models the class' `parse`.
* Every `while offset < len: Tlv.deserialize(value[offset:]) …` loop is an instance of one generic function
  `tlvLoop step buf s`, structurally recursive on fuel = buffer length; running out of fuel returns the distinguished
  error `.nonTermination`, and C56 proves that this never happens.
* Integers are unbounded. Bit operations on unsigned numbers are written with the same shifts and masks as the code.
* Hash functions, AES-GCM/CCM, RSA, the KDF, random numbers, files, clocks and the floating point logarithm are
  parameters. Whatever is assumed about them is a hypothesis of the theorem and is listed under "Trusted base".

## Trusted base

* The Lean 4.33.0 kernel. Axioms: at most `propext`, `Classical.choice`, `Quot.sound` (see "Axioms" below).
* The reading of the Python code: each definition cites file and lines.
* Assumptions on external functions, always explicit hypotheses or parameters:
  * SHA-256 is a function `H : Bytes → Bytes`. Where needed (C49-C53) it is assumed injective on the finite set of
    packets at hand (no collision), never globally.
  * AEAD primitive: a pair `enc`/`dec` with `dec (enc …) = plaintext` (C33) and, for C34, "dec accepts only what enc
    produced for this key/iv/aad".
  * RSA-OAEP and RSA signatures: correctness with the matching key (C24, C35) and label binding (C35).
  * Ideal cryptography (`Spec.Binding`, C108 and `C109_taken`): a ciphertext opens only under the cipher, key and nonce it was
    made with, a wrapped key only with the RSA key it was made for, a signature only verifies with its key. No real primitive
    has this for all inputs; the toy primitives of the examples have it, so the hypothesis is consistent.
  * `math.log` and the division in `calculate_k` are a parameter `FloatLog`; what is assumed of the returned float is a
    hypothesis (`Verif/Model/Optimizer.lean`).
  * Other floating point operations are computed: `F64` holds exact rationals and `fl` rounds the quotient of two integers to the
    nearest double, ties to even (C16, C43, C69); overflow to infinity and subnormal numbers do not occur in the code modelled.

* Axioms: `#print axioms` of every theorem listed in `MANIFEST.json` gives a subset of `propext`, `Classical.choice`,
  `Quot.sound`. There are no other axioms, no `sorry`, no `native_decide` and no `bv_decide`.

## Plan per property

| Id | Modelled | How proved |
|----|----------|-----------|
| C01 | `Tlv` constructor, `serialize`, `deserialize`, `__len__` | direct computation on `be16`; trailing bytes universally quantified |
| C02 | same | case split on how many bytes are missing |
| C03 | `Tlv.__init__`/`_tlv_encode` byte range checks | iff characterisation of `mkTlv` |
| C04 | `deserialize` | inversion lemma |
| C05 | generic loop over concatenated TLVs | induction over the list |
| C06, C07 | `number_to_array`, `uintNN_to_array`, `array_to_number` over `Int` | big-endian arithmetic lemmas |
| C08 | `Tlv.__eq__`, `__hash__` | direct, witness for the negative part |
| C09-C11 | `Name`, `NameComponent`, Python `==` with container flag | round trip through the generic loop |
| C12 | `FixedHeader` struct pack/unpack | byte arithmetic |
| C13 | `HashValue`, `HashTlvType`, `KeyId`, `Link` | round trip |
| C14, C15, C21 | `ContentObject` | round trip; invariant over the parse loop for duplicates |
| C16 | `Timestamp`, `ExpiryTime`: binary64 rounding modelled over naturals | round-to-even lemmas; witnesses by evaluation |
| C17-C20 | `Packet` | round trip; loop invariant |
| C22, C23 | CRC32C bitwise | chaining lemma; burst lemma on the difference register |
| C24 | `PacketValidator`, `Crc32c` verifier, RSA verifier as parameter | decision table; no way past the check without a payload (`C24_needs_payload`) |
| C25 | `InsecureKeystore` | induction over the history against a "last matching addition" spec |
| C26-C31 | FLIC TLVs | round trips via generic loop |
| C32-C37 | security contexts, `AeadImpl`, `WrappedKey`, `DecryptorCache` | round trips with primitives as parameters |
| C38, C39 | `SchemaImpl.chunk_data` with a read-schedule oracle | induction over the stream |
| C40, C41 | `TreeOptimizer`, `OptimizerResult` in exact integer arithmetic | arithmetic |
| C42 | `ManifestIdFactory` inside a whole build (`Lemmas/TreeIds.lean`) | float power exact below 2^53; per-level counters never cross, counted by level |
| C43, C44, C45, C46 | `TreeBuilder`, `HashGroupBuilder(Pair)`, `ManifestFactory` | one theorem (`buildTree_run`, `Lemmas/TreeRun.lean`) says what every run leaves behind: a forest of manifests, written children first; the four properties are read off it in `Props/TreeProps.lean` against a separate `Walk` spec |
| C47 | `ManifestTree.build` with every exception | same theorem for runs that raise, then the chunk and root stages |
| C48 | `ManifestSizeCalculator`, `ManifestFactory` | exact length of the sizing packet and of every node of a tree (`Lemmas/TreeSize`); the two differ by a computed excess, under a 16 byte AEAD tag, nonces of one length and 32 byte hashes; kernel-evaluated builds that exceed the bound in the other cases |
| C49, C50 | the whole pipeline: `ManifestTree.build`, memory store, `Traversal` | the forest of manifests that every run leaves behind (`Lemmas/TreeRun`) is turned into a derivation of `Spec.Leads` (`Lemmas/EndToEndTree`, `EndToEndFile`), then the converse part of C51 runs the traversal; for segmented names the ids of the manifests (`Lemmas/TreeIds`) decide whether the root's pointer finds the top manifest |
| C51 | `TravEnv.traverse`, `preorder`, `visitLoop`; any reader, keystore and state | soundness: induction over the recursion depth and the pointers, against the relation `Spec.Leads`; converse: induction over `Spec.Leads`; hashes: invariant of the memory store |
| C52 | the same, with the dictionary `NcCache` | the dictionary holds the latest definitions of the path (`CacheOf`); `Spec.Fetched` names the path of every pointer |
| C53 | `MemoryStore` | induction over the puts |
| C54 | `HashGroupBuilder` | invariant over op sequences |
| C55 | schema implementations | injectivity of names |
| C56 | all loop parsers | fuel sufficiency |
| C57 | `Name.from_uri`, `__getitem__` with the parts of `urllib.parse.urlparse` and `PurePath` they use, UTF-8 (`Model/Uri.lean`) | splitting and joining lemmas; decode after encode |
| C58 | `Name.as_uri`, `NameComponent.__repr__` | on top of C57; iff for success |
| C59 | `TreeIO.get_link_name` | injectivity of joining with a separator that does not occur; two collisions |
| C60 | `PacketDirectoryWriter.put`, `PacketDirectoryReader.get` (a directory is a finite map from paths to bytes) | the files after a sequence of puts, by induction from the end; file names of hashes are injective and differ from link names; round trip C17 |
| C61 | `_get_by_name`, `_get_by_link`, `_write_link` | case analysis; link round trip |
| C62 | the counters of `put`; nested paths | induction from the end of the sequence |
| C63 | as C60 and the traversal | the traversal lemma of C49 is stated for any reader that serves the manifests and some data object for each chunk |
| C64 | as C63 | every packet of a build reads back (names in `bytes`), so the directory serves all packets |
| C65 | as C63 | the requested name ends in an `array`, the parsed one in `bytes` |
| C66 | every container parser in Model/Core.lean and Model/Flic.lean | each loop body is shown `Lawful` for a list of slots (Lemmas/Slots.lean: once, many, last); `Lawful.loop` turns that into an iff between acceptance and a description by `Spec.Tiles`, `Spec.Only`, `Spec.Parsed`; `auto_parse` through `AutoLaw` |
| C67 | `ValidationAlg.parse`, `rsaParse` | as C66, with slots of kind `last` |
| C68 | `Tlv.extend` | `Tlv.serialize_eq`, `mkTlv_eq` |
| C69 | `minimizeWaste`, `minimizeWasteMinHeight` | Lemmas/OptimizerWaste.lean: the loops select from the list of solutions per fan-out; a solution's waste is least for its fan-out because its `k` is the least that holds `n`; `Spec.Wastes` is independent of the code's formulas |
| C70 | `fl`, `roundHalfEven`, `secondsOfMsec`, `F64.milliseconds` | over the rationals: the rounded significand is the nearest integer (ties even), integers times a power of two include all numbers of larger exponent, and those of smaller exponent are farther away than 2^52; `C70_unique` shows that the specification determines the result |
| C71 | `NameCtx.create`, `SchemaImpl.create`, `SchemaImpl.ofNcDef` | case analysis; Python equality of names and links is shown to be equality for names and links that can be encoded |
| C72 | `AeadParams.create`, `AeadParams.iv`, `AeadParams.nonceLength`, `encryptWithCtx`, `decryptNode` | inversion of the two functions; the vector against a relation on the salt's value |
| C73 | `manifestTree` with its count of nonce draws | Hoare triples over the state monad for every function of the builder, with an invariant linking written packets and draws; the wire round trip of C31 for what a reader sees |
| C74 | `ManifestGraph.step`, `createGraph`, `draw`, `hashToName`, `graphLabel` (`Model/Graph.lean`; networkx's `DiGraph` is an insertion-ordered set of nodes and edges, the layout and drawing are not modelled) | invariant: the dictionary holds the latest record of each hash of the log; then edges and nodes of the fold |
| C75 | `buildPacket`, `sourceNode`, `recordManifest`, `buildPackets` (`Model/Factory.lean`) | inversion against the relation `Spec.Describes`; counters by induction over the calls; equality with `buildFromNode`, `sizingPacket` and `rootPacket` of `Model/Tree.lean` |
| C76 | `unwrapKey`, `oaepAeadKey`, `oaepCreateByWrappedKey`, `oaepCreate`, `OaepDecryptor` (`Model/Crypto.lean`) | inversion in both directions for the unwrapping; the invariant “what is cached is filed” by induction over the manifests, against a decryptor without cache (`Spec.openAll`) |
| C77 | whether each `__repr__` raises (`Model/Display.lean`; the text is dropped): texts that are not UTF-8, numbers over Python's 4300 digits (`decimal`), times that the C library cannot convert (`showTime`) | iff lemma per class; UTF-8 of ASCII by evaluation of the 128 characters |
| C78 | `validate_packet` of packet_utils, `PacketValidator` (`Model/Apps.lean`; printing appends to a list) | case analysis of both functions side by side |
| C79 | `decrypt_manifest`, `PacketReader.read` | case analysis against `DecryptorCache.open` from an empty cache; the printed list by inversion |
| C80 | all decoders and encoders | the predicate `Usual` (errors in the list) with one instance per function, found by type class search through binds, conditionals, loops and `auto_parse` (Lemmas/Usual.lean); C80_packet_exact by Lemmas/PacketErrors.lean |
| C81 | `_str_to_array` with `bytes.fromhex`, `KdfInfo` from text | functional induction over the digits against the relation `Spec.HexOf` |
| C82 | `encryptor_from_cli_args`, `rsa_signer_from_cli_args`, `create_keystore`, `_create_tree_options` | inversion of each function into relations `FromArgs`, `LoadedFrom`; keystore lookups through C25; then C64 |
| C83 | `ManifestReader.read` | C61 for names; case analysis |
| C84 | as C82 | inversion of `writerOptions` |
| C85 | as C49, with `NcDef.announce` (Traversal.py:53), `reportError` (123-127), `Manifest.tooLarge` (ManifestFactory.py:184-185) | the root is read as in C49, then its definition cannot be printed (C77); the converse is C49 |
| C86 | as C49 and C64, with any reader that answers for part of the packets only | the pre-order of `Spec.Leads` for an ideal reader; induction over it for the reader with gaps (`Spec.Leads.run_until`); the data objects in it are those of the file by their hashes; memory and directory stores are such readers (C46, C60) |
| C87 | `Model/Equality.lean`: every `__eq__` of core and flic/tlvs as a comparison of attributes in constructor order that stops at the first difference; attributes that are None on one side answer False or raise as their class does. Iteration state of links and pointers is an argument | `EqualityProps.lean`: field by field, with the injectivity of the encodings (`bytesAll_inj`, the round trips `*_RT`) to turn equal bytes into equal fields; exact conditions for true and for AttributeError; witnesses for each surprise |
| C88 | `Model/Traversal.lean`, `MemoryStore`; SHA-256 is a parameter, absence of collisions (between the bytes hashed of the packets concerned) is a hypothesis | `IntegrityProps.lean`: two traversals side by side. Packets with the same hashed bytes have the same payload type and payload (the body TLV is the first in these bytes, `ContentObject.same_payload`), so both runs ask for the same names and hashes and write the same until the second raises. Directory readers do not check hashes, so this fails for them (C63) |
| C89 | the serializers in `Model/{Tlv,Core,Packet,Flic,Crypto}.lean` | `LayoutProps.lean`: `Spec.Wire` describes the format by concatenation with literal numbers and uses none of the encoders or constants of the model; `Laid` (what is written is the described bytes) composes over optional parts, lists and containers; `C89_wrapped`/`C89_unwrapped` give the bytes inside a wrapped key and its label |
| C90 | `Model/Frames.lean` (the traversal with room for so many nested calls of `preorder`, `_visit_children` and `__next__`; other calls, whose nesting is bounded by the program text, take no room), on top of `Model/Traversal.lean` | `FramesProps.lean`: `C90_next` (exact for the iterator), `C90_sound` (same result as without the limit), `C90_exact` by induction over `Spec.Leads`; for published files the depth of `FileRun.leads` is bounded from both sides by the capacity of the tree, `frames_le` and `frames_ge` turn it into calls; `C90_chain` with `treeCapacity 1 1 h = h + 2`; `C90_empty_groups` builds the packet |
| C91 | nothing new: `Model/Traversal.lean`, `Model/Flic.lean`, `Model/Packet.lean` | `AmplifyProps.lean`: `Spec.tower` builds the packets; `funnel_wire` gives the exact length of a manifest with m pointers to one hash, `manifest_RT` that it is read back; `Spec.Leads` for m requests is `Leads.append` m times; then `C51_walks_what_can_be_walked` |
| C92 | `Model/Apps.lean`: `utf8IgnoreLoop` (`decode(errors="ignore")`), `stdOutWrite`, `stdOut` | `PrintProps.lean`: `stdOutWrite_text` (whole characters), `stdOutWrite_rest` (continuation bytes are dropped), `stdOutWrite_start` (the start of a cut character is dropped: the encoding is prefix-free); `printed` by induction over the pieces, with the rest of a cut character carried along; `C92_published` with `C38_full_reads` and `C49_file_returned` |
| C93 | `Model/Iterators.lean`: `SelfIter` (`_offset`, `__iter__`, `__next__`), Python's `for` with a bound on the rounds, `RevIter` | `IteratorProps.lean`: induction over the rounds from a given offset; the loop that does not end by induction over the bound; equality from C87 |
| C94 | `Model/FullTraversal.lean`: `FullEnv` (with `hasWriter`, `buildGraph`), `FullEnv.preorder`, `FullEnv.traverse` | `FullTraversalProps.lean`: a simulation relation between two runs with different options (`PyS.Sim`, `Lemmas/FullTraversal.lean`), by induction over depth and loop; the records by the induction of C51; edges and colours from C74; published files from C49 |
| C95 | `Packet.deserialize`, `Packet.hash`, `validatePacket`, and the parsers below them (nothing new in the model) | `MalleableProps.lean`: `Spec.Recoded` is a relation on byte strings; `C66_packet` (what is accepted as a packet, exactly) and the other `C66`, `C67` equivalences reduce each change to one on lists of TLVs; the converse by `C19` and the round trips; the clock by comparing the eight bytes of the time |
| C96 | `NetworkWriter.put`, `close` (`Model/Network.lean`; the connection never fails and takes all bytes) | `NetworkProps.lean`: `Spec.Cut` is an inductive relation between a stream and its pieces; its determinism by comparing the length fields; truthfulness of created packets by `Packet.created`; what `put` answers after any calls: `C96_put`; the parser by comparing the TLVs of the first packet with those of the whole and the type of the next one (at least 256); the file by `C49_file_returned`; with segmented names (`C96_segmented`) the packets parsed are `out.map Spec.asRead`, whose hashes are the same, so the reader holds them and C98's refusal applies |
| C97 | the tree builder and the optimizer as for C40, C41, C43 (`Model/Tree.lean`, `Model/Optimizer.lean`) | `CountProps.lean`: `Spec.Grove` is an inductive relation between numbers of trees, manifests and chunks for a fan-out, not mentioning the builder; counting pointers gives the lower bound; the attaining tree is a spine with leaves; the upper bound from `Forest.Packed` (all children but the leftmost are full), an invariant of the run of the builder in `Lemmas/TreeRun.lean` |
| C98 | directory writers and readers, memory store and traversal as for C49, C53, C57 (`Model/Directory.lean`, `Model/Tree.lean`, `Model/Traversal.lean`) | `SharedProps.lean`: induction on the traversal for `Spec.Extends`; `Spec.Sessions` is an inductive relation for writers one after another; a file named by 64 hex digits is overwritten only by a packet with that hash, since link files and nested files have other paths |
| C99 | `traverse` called again on the same state (`TState`: written, counted, decryptor cache) | `AgainProps.lean`: the end-to-end proof of C49 is generalized to any start state of the cache from which the root can be opened (`FileRun.writes_from`), with an invariant of the cache between files; `C99_two_kinds` is the disagreement |
| C100 | `Model/Programs.lean`: `run` of manifest_writer with both packet writers, over the models of the arguments (C82-C84), of the build (C43-C49), of the directory (C57-C64) and of the socket (C96) | `ProgramProps.lean`: an inductive relation `Written` says which files a sequence of `put`s leaves, also when one fails; C47 gives that manifests point to what is there; C98 and C82 give that the file is read back; `C100_links_iff` and `C100_links_room` are in `RunProps.lean`: the names of a build have URIs (C58), and the size of a link is counted |
| C101 | `Model/Programs.lean`: `run` of packet_reader and of manifest_reader, over the models of their reading functions (C79, C83) and of the arguments (C82) | `RunProps.lean`: C98 gives that the packet is in the directory, the round trip of packets that it is loaded as it was built, `read_built` follows `readPacket` through validation and decryption with the keystore of the arguments; with segmented names the packet shown is `Spec.asRead p`, whose numbers can be shown (`readable_segment`), and the rounding of `math.log` must not be high, as in C107; the manifest reader by C83 |
| C102 | `manifestTree` (`Model/Tree.lean`), `chunkData` (`Model/Schema.lean`), with the counter as a parameter | `RepublishProps.lean`: chunking uses the schema only through the names it gives; two manifests of the same payload are opened to the same node, whose first hash group has a number of the range of the build |
| C103 | `SchemaImpl.getNextName`, `SchemaImpl.session` (`Model/Counter.lean`) over `chunkData` (`Model/Schema.lean`) | `CounterProps.lean`: an invariant of the state (increasing numbers below the counter name the packets in the output), kept by every call whether it returns or raises |
| C104 | `tlvLoopCopies` (`Model/Cost.lean`): `tlvLoop` with a count of the bytes of `value[offset:]` | `CostProps.lean`: the counted loop returns what the loop returns; induction over the rounds; the family of empty elements |
| C105 | nothing new: `manifestTree`, `NetworkWriter`, `Packet.deserialize` | `SecrecyProps.lean`: `Spec.overheard`, `Spec.joined` and `Spec.arranged` are functions of bytes without keys; the packets read back (C17), the stream is cut in one way (C96), the data objects are the chunks (C38) |
| C106 | nothing new: `manifestTree` run twice. Assumed of the primitives: SHA-256 gives 32 bytes; the length of a ciphertext or signature (or the exception) is a function of the key and of the lengths of the arguments | `Lemmas/Shape.lean` relates two runs function by function (`Py.Rel`, `PyS.Rel`: same exception or related results, related states); `ShapeProps.lean` states it with `Spec.outline`, which keeps everything of a packet except the bytes of payload and validation payload |
| C107 | `NameCtx.exportSchemas`, `NameCtx.hashGroupCount` (Model/Traversal.lean); `TravEnv.preorder` with any dictionary | `TopProps.lean`: the walk of C49 with any dictionary that gives the right names (`NamesOf`), started below the root; the ids of the manifests fit 64 bits by the shape that the optimizer selects |
| C108 | `TravEnv.traverse`, `TravEnv.decrypt`, `DecryptorCache.open`, `oaepCreate`, `validatePacket` on the root of `manifestTree`; ideal cryptography is the hypothesis `Spec.Binding` | `AccessProps.lean`: what validating and opening the root needs (`verify_needs`, `decrypt_needs`), C49 for the other direction; examples with toy primitives that bind |
| C109 | `TravEnv.traverseAll` (several `traverse` calls on one state), `DecryptorCache.open`, `OaepDecryptor.getImpl`, `oaepCreate`, `Keystore.addAesKey` | `KeyNumberProps.lean`: `C109_one_meaning` by an invariant of the decryptor cache between files (`DecryptorCache.Consistent`), `C109_taken` from what the cache holds after the first file (`DecryptorCache.Holds`) and `Spec.Binding`; examples with two and with four files |
| C110 | `Watch.manifestTree` and all functions of `TreeBuilder`, `ManifestTree`, `ManifestSizeCalculator` again on a state with graph and counters (`Model/Watched.lean`), with what they print | `WatchedProps.lean`: a simulation (`Tracks`) of each watched function by the one of `Model/Tree.lean`; `C110_plain`, `C110_same`, `C110_exact`, `C110_drawn`, `C110_shown`, `C110_no_output`, `C110_paused`; examples where a name that is not UTF-8 or an empty name stops the publication |
| C111 | `Watch.manifestTree` with a graph (`Model/Watched.lean`), `ManifestGraph` (`Model/Graph.lean`), the traversal with a graph (`Model/FullTraversal.lean`) | `PictureProps.lean`: an invariant (`Truthful`) of the graph through every function of the builder, joined with the tree of `buildTree_ok`; what the bytes say by `read_manifest`; `C111_records`, `C111_plot`, `C111_edges`, `C111_same_picture` (the visit of a reader is determined: `leads_same`) |
| C112 | `FullEnv.traverse` with any reader, `MemoryStore.reader`, `Directory.reader`, every parser below them | `UntrustedProps.lean`: a type class `Among` follows the exceptions through every function that a traversal calls (`Lemmas/TravErrors.lean`): `C112_only`, `C112_memory`, `C112_directory`; `C112_exact` gives a packet for each of the thirteen, twelve computed, OverflowError by a symbolic proof about a manifest of 65514 bytes |
| C113 | `Directory.reader`, `TravEnv.traverse`, `manifestTree` | `TamperProps.lean`: two traversals side by side, of which the second gets a stand-in for every data object (`traverse_forged`); `C113_only_the_root`, `C113_chunks`, `C113_one_file`, `C113_root` |
| C114 | `manifestTree`, `DirWriter.putAll`, `MemoryStore.putAll` | `StorageProps.lean`: with hashed or prefix names the payload determines the packet (`chunked_payload`, names by C102); the first packets of each hash (C62) are then the distinct packets; segmented names are distinct (C55); manifests by their nonces (C73). `C114_blocks`, `C114_same_packet`, `C114_directory`, `C114_memory`, `C114_segmented`, `C114_encrypted` |
| C115 | `Interest`, `Packet.createInterest`, `Manifest.interestList`, `Node.nodeLocator`, `padParse`, `aeadKeyBits`, `OaepDecryptor.decryptNode`, `KdfData.copyWithName`, `verifierFromCli` (`Model/Unused.lean`) | `UnusedProps.lean`: `C115_no_interest`, `C115_interest_list`, `C115_node_locator`, `C115_pad`, `C115_decrypt_node` follow the calls to the statement that raises; `C115_key_bits`, `C115_copy_with_name` (by C09 and C32), `C115_verifier` (by C24) |
| C116 | `WordEnv.word`, `WordEnv.words`, `WordEnv.kdfParse`, `fixupKeyPassword` (`Model/Arguments.lean`); `int(x, 0)` and `str.upper` are parameters | `WordProps.lean`: each word is accepted, crashes or makes a usage message (`word_cases`), then induction over the list: `C116_words`, `C116_refused`, `C116_passwords` |
| C117 | `Packet.deserialize`, `Directory.reader`, `manifestReaderRead`, `packetReaderRead`, `TravEnv.traverse` (existing models) | `ClockProps.lean`: the packet loop at two times step by step (`tlvLoop_clock`), the TLVs of an encoding are unique (`encs_prefix`), two traversals side by side (`preorder_same`): `C117_clock`, `C117_directory`, `C117_own_packets`, `C117_looks`, `C117_expiry` |
| C118 | `bottomUpIn`, `buildTreeIn`, `manifestTreeIn` (`Model/Frames.lean`): the recursive functions of `TreeBuilder` with room for so many nested calls | `DepthProps.lean`: room enough or too little for each call of `_bottom_up_preorder` (`bottomUpIn_enough`, `bottomUpIn_short`), then level by level along the invariant of C43 (`topTree_step`): `C118_same`, `C118_exceeded`, `C118_or_raises`, `C118_chain`, `C118_levels`, `C118_file`, `C118_unreadable` |
| C119 | `manifestTree` and the serializers it uses (`Model/Tree.lean`, `Model/Flic.lean`, `Model/Packet.lean`) | `VolumeProps.lean`: the length of one data object (`dataObject_size`), of one node (`plainNode_len`), of a manifest beyond its node (`buildManifest_extra`); summed along the tree of C43 by counting every manifest once in its parent (`Forest.Valid.volume`): `C119_volume`, `C119_plain`. Root manifests (signature, name constructors, locators) are left out of the formula; size annotations and segmented names are excluded by hypothesis, as their fields have varying widths |
| C120 | `manifestTree`: `NameCtx.create`, `chunkData`, `createOptimizedTree`, `buildTree`, `rootPacket` (`Model/Schema.lean`, `Model/Tree.lean`) | `PublishProps.lean`: every encoder below a manifest node returns on the nodes the builder makes (`node_ok`, `permitted_ok`), with a length that the sizing manifest bounds; `buildFromNode_ok`; the induction of C42 over the builder with every exception forbidden (`rules_all`, `buildTree_run`): `C120_tree`; the stages of `manifestTree`: `C120_only_root`; of the state the root takes only the next nonce (`rootPacket_fst`), and by C106 whether it can be made does not depend on the bytes of the hash and of the nonce: `C120_published`. Encrypted manifests: the sizing manifest was encrypted, so by hypothesis `Spec.Encrypts` every node can be (`buildManifest_all`), and its ciphertext is longer than the node by the same constant (`buildManifest_extra`) |
| C121 | `sizingPacket`, `calculateMaxPointers`, `createOptimizedTree` (`Model/Tree.lean`), `manifestTree` | `RoomProps.lean`: the node with n pointers can be made for every n that fits (`sizingNode_ok`), and from one sizing packet all others follow, 36 bytes per pointer (`sizing_all`); `fl_floor` for the division: `C121_returns` (iff), `C121_greatest`, `C121_plain` (iff, against `Spec.bareBytes`); with C40 and C41 `C121_optimized` (iff); with C120 `C121_published` |
| C122 | `SchemaImpl.chunkLoop`, `SchemaImpl.chunkData`, `Stream.read` (`Model/Schema.lean`), `manifestTree` | `LengthProps.lean`: `Spec.chunkCount` counts chunks from the schedule and the length alone; induction over the loop with the chunks still to be made (`chunkLoop_counts`): `C122_chunks` (iff), `C122_too_many`; arithmetic: `C122_full_reads`, `C122_byte_reads`; `C122_left_behind`; with C121 in one direction and the inversion of a whole build (`manifestTree_ok`) in the other `C122_published` (iff) |
| C123 | `rootPacket`, `buildFromNode`, `nodeFromGroups` (`Model/Tree.lean`), `NameCtx.create` (`Model/Schema.lean`), `manifestTree` | `RootProps.lean`: `Spec.rootBytes` in the terms of the documented format; accepted names have encodable definitions (`ncDefs_ok`), the node encodes if it is short enough (`rootNode_ok`), its length is the sum (`rootNode_length`, through `Spec.Wire.node` and C89); `C123_root` (iff); `Spec.Signs` bounds what the signer adds (`signPacket_ok`: nothing, CRC32C, RSA); with C122 and `sizing_plain` `C123_published` (iff). Encrypted trees: C125 |
| C124 | `manifestTree`, `SchemaImpl.payloadSize` (`Model/Schema.lean`) | `LargerProps.lean`: the criterion of C123 is monotone: chunk counts by induction over the schedule (`chunkCount_mono`), the payload size grows with the packet (`payloadSize_larger`), lengths of integers (`integer_mono`); `C124_larger`, `C124_fewer` |
| C125 | `buildManifest`, `rootPacket`, `sizingPacket` (`Model/Tree.lean`), `aeadEncrypt`, `oaepEncrypt` (`Model/Crypto.lean`), `manifestTree` | `SealedProps.lean`: `Spec.SealCost` says that some node can be encrypted and by how much its manifest is longer; the number is the same for all nodes (`SealCost.len`) and all nodes can be encrypted (`SealCost.all`); `C125_cost`, `C125_root` (iff), `C125_published` (iff, `sizing_sealed` with C122), `C125_larger`, `C125_fewer` |
| C126 | `manifestTree`, `createOptimizedTree`, `buildRooted`, `rootPacket` (`Model/Tree.lean`), `chunkData` (`Model/Schema.lean`) | `RemainsProps.lean`: `C126_no_tree` (the size calculation fails by C121 and `sizing_sealed` and puts nothing to the output), `C126_no_root` (C120 builds the tree, C125 refuses the root; the output from `buildTree_any`), `C126_outcomes` (there is no other outcome) |

## Which code is modelled, file by file

Everything not listed in the third column is modelled, apart from accessors that return an attribute, `class_type`, `__len__` (the number
of bytes of the encoding), the text of `__repr__` and `__str__`, and log output. `Unused` holds functions that no code in `ccnpy/` calls.

| File under `ccnpy/` | Modelled in `Verif/Model/` | Not modelled |
|---|---|---|
| apps/cli_utils.py | Apps, Arguments, Programs, Unused | argparse itself, `int(x, 0)`, `str.upper`, `getpass` |
| apps/manifest_reader.py | Apps, Programs | opening and closing of the output file |
| apps/manifest_writer.py | Apps, Programs | the argparse description; `build` is `writerRun` |
| apps/packet_reader.py | Apps, Programs |  |
| apps/packet_utils.py | Apps |  |
| core/ContentObject.py | Core, Directory, Display, Equality, Tlv |  |
| core/DisplayFormatter.py | Graph | the text of `prettify` |
| core/ExpiryTime.py | Core, F64 |  |
| core/FinalChunkId.py | Core, Equality |  |
| core/FixedHeader.py | Equality, Packet |  |
| core/HashTlvType.py | Core, Crypto, Equality, Flic |  |
| core/HashValue.py | Core, Crypto, Iterators |  |
| core/Interest.py | Packet, Unused |  |
| core/KeyId.py | Core |  |
| core/KeyLink.py | Core, Display, Equality |  |
| core/Link.py | Core, Display, Equality, Iterators, Schema |  |
| core/Name.py | Core, Cost, Directory, Display, Schema, Tlv, Traversal, Uri |  |
| core/Packet.py | Directory, Display, Equality, Packet, Unused |  |
| core/PacketValidator.py | Crypto |  |
| core/Pad.py | Flic, Unused |  |
| core/Payload.py | - | a `TlvType` with an opaque value; folded into `ContentObject` |
| core/PayloadType.py | Core, Equality | the text of the type |
| core/Serializable.py | - | abstract class |
| core/SignatureTime.py | Core, F64 |  |
| core/Timestamp.py | Apps, Core, Equality, F64, Iterators | the text of `datetime` |
| core/Tlv.py | Core, Equality, Iterators, Tlv |  |
| core/TlvType.py | Apps, Core, Cost, Equality, Flic, Tlv |  |
| core/ValidationAlg.py | Core, Display, Equality |  |
| core/ValidationPayload.py | Core, Crc32c, Equality |  |
| crypto/AeadKey.py | Crypto | `generate`, `nonce` (random numbers are a parameter) |
| crypto/Crc32c.py | Crc32c, Tree | `validation_alg` is the constant in `signPacket` |
| crypto/DecryptionError.py | - | one exception class (`PyErr`) |
| crypto/HpkeKdfIdentifiers.py | Arguments, Crypto |  |
| crypto/InsecureKeystore.py | Crypto |  |
| crypto/KDF.py | Crypto | HKDF itself (`Prims.kdf`) |
| crypto/RsaKey.py | Crypto | PEM files and passwords, padding, key generation (a key is its public DER form, whether it is private, its size) |
| crypto/RsaSha256.py | Apps, Crypto, Tree |  |
| crypto/Signer.py | - | abstract class |
| crypto/Verifier.py | - | abstract class |
| exceptions/CannotParseError.py | - | one exception class (`PyErr`) |
| exceptions/ParseError.py | - | one exception class (`PyErr`) |
| flic/HashGroupBuilder.py | Tree |  |
| flic/ManifestDecryptor.py | - | abstract class |
| flic/ManifestEncryptor.py | - | abstract class |
| flic/ManifestFactory.py | Crypto, Factory, Tree, Watched | the constructor (its fields are arguments) |
| flic/ManifestTree.py | Tree, Watched, Frames |  |
| flic/ManifestTreeOptions.py | Tree |  |
| flic/RsaOaepCtx/HashAlg.py | Flic |  |
| flic/RsaOaepCtx/RsaOaepDecryptor.py | Crypto, Unused |  |
| flic/RsaOaepCtx/RsaOaepEncryptor.py | Apps, Crypto, Tree |  |
| flic/RsaOaepCtx/RsaOaepImpl.py | Crypto |  |
| flic/RsaOaepCtx/RsaOaepWrapper.py | Display, Flic |  |
| flic/RsaOaepCtx/WrappedKey.py | Apps, Crypto, Flic |  |
| flic/aeadctx/AeadData.py | Display, Equality, Flic |  |
| flic/aeadctx/AeadDecryptor.py | Crypto |  |
| flic/aeadctx/AeadEncryptor.py | Tree |  |
| flic/aeadctx/AeadImpl.py | Crypto |  |
| flic/aeadctx/AeadParameters.py | Apps, Crypto |  |
| flic/name_constructor/FileMetadata.py | Iterators, Schema |  |
| flic/name_constructor/HashSchemaImpl.py | Counter, Schema | `locators` accessor |
| flic/name_constructor/NameConstructorContext.py | Schema, Traversal |  |
| flic/name_constructor/PrefixSchemaImpl.py | Counter, Schema |  |
| flic/name_constructor/SchemaImpl.py | Counter, Schema, Watched |  |
| flic/name_constructor/SchemaImplFactory.py | Schema |  |
| flic/name_constructor/SchemaType.py | Apps, Schema |  |
| flic/name_constructor/SegmentedSchemaImpl.py | Counter, Schema |  |
| flic/tlvs/AeadCtx.py | Display, Equality, Flic |  |
| flic/tlvs/AeadMode.py | Crypto, Display, Unused | the text |
| flic/tlvs/AuthTag.py | Flic |  |
| flic/tlvs/EncryptedNode.py | Flic |  |
| flic/tlvs/GroupData.py | Equality, Flic |  |
| flic/tlvs/HashGroup.py | Display, Equality, Flic |  |
| flic/tlvs/KdfAlg.py | Crypto |  |
| flic/tlvs/KdfData.py | Flic, Unused |  |
| flic/tlvs/KdfInfo.py | Apps |  |
| flic/tlvs/KeyNumber.py | Apps |  |
| flic/tlvs/LeafDigest.py | Flic | class body only names a type number and a base class (`IntegerTlvType`, `HashTlvType`, `TlvType`); folded into its container |
| flic/tlvs/LeafSize.py | Flic | class body only names a type number and a base class (`IntegerTlvType`, `HashTlvType`, `TlvType`); folded into its container |
| flic/tlvs/Locator.py | Apps, Core, Display, Equality, Flic, Schema |  |
| flic/tlvs/Locators.py | Apps, Display, Equality, Flic, Schema |  |
| flic/tlvs/Manifest.py | Display, Equality, Flic, Unused |  |
| flic/tlvs/NcDef.py | Display, Equality, Flic |  |
| flic/tlvs/NcId.py | Flic | class body only names a type number and a base class (`IntegerTlvType`, `HashTlvType`, `TlvType`); folded into its container |
| flic/tlvs/NcSchema.py | Display, Equality, Flic, Schema |  |
| flic/tlvs/Node.py | Cost, Display, Equality, Flic, Frames, Graph, Iterators, Tlv, Unused |  |
| flic/tlvs/NodeData.py | Display, Equality, Flic |  |
| flic/tlvs/Nonce.py | Flic | class body only names a type number and a base class (`IntegerTlvType`, `HashTlvType`, `TlvType`); folded into its container |
| flic/tlvs/Pointers.py | Equality, Flic, Iterators |  |
| flic/tlvs/ProtocolFlags.py | Flic | class body only names a type number and a base class (`IntegerTlvType`, `HashTlvType`, `TlvType`); folded into its container |
| flic/tlvs/RsaOaepCtx.py | Display, Equality, Flic |  |
| flic/tlvs/SecurityCtx.py | Flic |  |
| flic/tlvs/StartSegmentId.py | Flic | class body only names a type number and a base class (`IntegerTlvType`, `HashTlvType`, `TlvType`); folded into its container |
| flic/tlvs/SubtreeDigest.py | Flic | class body only names a type number and a base class (`IntegerTlvType`, `HashTlvType`, `TlvType`); folded into its container |
| flic/tlvs/SubtreeSize.py | Flic | class body only names a type number and a base class (`IntegerTlvType`, `HashTlvType`, `TlvType`); folded into its container |
| flic/tlvs/SuffixComponentType.py | Equality, Flic, Schema |  |
| flic/tlvs/TlvNumbers.py | Flic |  |
| flic/tlvs/Vendor.py | Equality, Flic |  |
| flic/tree/DecryptorCache.py | Crypto |  |
| flic/tree/FileChunks.py | Iterators |  |
| flic/tree/HashGroupBuilderPair.py | Tree |  |
| flic/tree/ManifestGraph.py | Graph, Watched | drawing |
| flic/tree/ManifestIdFactory.py | Base, Tree |  |
| flic/tree/ManifestSizeCalculator.py | Tree, Watched |  |
| flic/tree/OptimizerResult.py | Optimizer |  |
| flic/tree/SizedPointer.py | Directory |  |
| flic/tree/Traversal.py | Crypto, Frames, FullTraversal, Schema, Traversal |  |
| flic/tree/TreeBuildReturnValue.py | Watched | a record; folded into the builder |
| flic/tree/TreeBuilder.py | Tree, Watched, Frames | the text printed with `debug` set |
| flic/tree/TreeIO.py | Apps, Crypto, Directory, Equality, Network, Programs, Traversal, Uri | `__iter__` of the directory reader (not implemented in the code); the socket (`Model/Network.lean` keeps the bytes sent); `DataBuffer` is a byte list |
| flic/tree/TreeOptimizer.py | Optimizer |  |
| flic/tree/TreeParameters.py | Tree, Watched |  |

## Not modelled
* `Interest` bodies (`Interest.serialize`/`parse` are stubs returning None in the code), so no Interest packet can be built or parsed (C115).
* In `ccnpy/apps`: argparse itself (what its calls ask for is in `Model/Arguments.lean`) and `getpass`. The parsed arguments, the options and keystores made of them, the reading
  and writing, `StdOutWrapper` (`Model/Apps.lean`) and the `run()` functions (`Model/Programs.lean`) are modelled. Of `__repr__` only whether it raises is modelled
  (`Model/Display.lean`), not the text. There Python is taken to be CPython 3.11 or later with its default limit of 4300 digits for the text of a number,
  on a 64-bit Linux with glibc (`datetime.fromtimestamp` raises OSError from 67768036191676800 seconds on, and OverflowError from 2^63 seconds on). Numbers that the programs have measured themselves
  (file sizes, counts, ids given out) are taken to be shorter. The drawing of a graph with networkx and matplotlib.
* RSA key generation/PEM files, real cryptography.
* The file system itself: a directory is modelled as a map from relative paths to contents; permissions, partial writes, case-insensitive
  file systems and file names that are too long or contain `NUL` are left out.

## Disagreements between the code and the intuitive property

Collected while modelling; the affected theorems state what the code does.

Core:

* `Tlv.__eq__` ignores the type (C08). `HashValue.__eq__` ignores the algorithm while its `__hash__` does not.
* Integers of 2^64 and more are silently truncated by `number_to_array` (C06, C07, C55).
* Parsing keeps only the meaning: a parsed packet is re-encoded canonically, so its hash and its signature check are computed
  over the re-encoding, not over the received bytes; every packet has infinitely many accepted encodings (C95). A manifest whose
  re-encoding is longer than 65535 bytes cannot be parsed (OverflowError), although it fits its packet (C112).
* A reader of hostile packets must be ready for thirteen kinds of exception, among them AssertionError, AttributeError, TypeError and
  OverflowError (C112).
* `Timestamp` goes through a float: some millisecond values change in a round trip (1001 becomes 1000; C16). A packet with such
  an expiry time fails its own signature check after a round trip.
* A missing SignatureTime is replaced by the current time; `Packet.deserialize` ignores `packet_length`; header bytes beyond
  the eighth are dropped; unknown TLVs before the body are skipped.
* `Pad.parse` always fails; `Node.parse` skips pads; the length check of `Vendor` never fires.
* No Interest packet can be built (stubs). An RSA packet with a key link can be made but never parsed.
* A name whose component holds an `array` is unequal to its own parse (C10, C11).
* `Name == None` raises AttributeError, so asking a store without a name for a named packet raises AttributeError (C53), and a
  prefix schema with only one of root name and prefixes given raises it too.
* `from_uri` drops the authority, the first segment of a URI without a leading slash, the query and the fragment (C57); `as_uri`
  is not its inverse and fails on segments held in an `array` (C58). File names of links can collide (C59).
* A directory never answers a request by name only: the code uses an undefined variable (C61). Nested output is not found by the reader
  (C62). The reader does not compare the hash of what it read (C63), so
  whoever can write to the directory can change chunks or the whole file unnoticed, signed or not (C113). Segmented names are never read back from a directory (C65).
* `PacketValidator` accepts unsigned packets, and RSA packets when it has no keystore (C24).

FLIC TLVs and encryption:

* `Manifest.interest_list` always raises; `node_locator` calls a method that does not exist; a repeated authentication tag
  overwrites the earlier one in `Manifest.deserialize`; `ProtocolFlagsSchema` with flags raises TypeError.
* `HpkeKdfIdentifiers.parse` returns a `KeyError` object for an unknown value instead of raising it.
* AES-192 keys can be configured but not used. Bytes moved between ciphertext and tag are not noticed, because both are
  concatenated before decryption (C34). The additional data is the re-encoding of the parsed context, so non-canonical
  encodings of it are accepted.
* The OAEP label covers the KDF info but not the KDF algorithm. Wrapping without salt raises TypeError.
* `DecryptorCache` can hold a stale or wrong decryptor after a failed lookup or for mixed contexts (C36).
* Content keys are filed by number only, and a filed key is used without unwrapping the key in the manifest: of two files whose publishers
  chose the same number the second cannot be read with the same keystore, although the reader has the private key (C109).

Tree building:

* `TreeOptimizer` chooses m = 1 (a chain) exactly when p = 2 or n <= 2p - 1 (C40). The id factory then starts the top manifest
  at 1 while the root group announces id 0, so traversing a segmented tree of that kind fails.
* `ManifestSizeCalculator` ignores name, expiry time and the real group sizes, so manifests can exceed `max_packet_size`.
* `ManifestSizeCalculator` does not count the root manifest, which defines the names of manifests and data: with long prefixes or locators
  publishing raises ValueError at the root, after all other packets were written (C120).
* With `max_packet_size` above 65535 chunking raises instead of producing packets (C38 assumes at most 65535).

Comparison (C87):

* `HashValue.__eq__` compares digests and not algorithms, `Tlv.__eq__` compares length and value and not the type.
* Comparing a packet with a name and one without raises AttributeError instead of answering False; so do CRC32C against no validation,
  node data against none, locators against none. `PacketMemoryWriter.__eq__` inherits this.
* `Link.__eq__` and `Pointers.__eq__` compare the iteration position, which `Tlv(...)` and `for` loops change.
* Expiry times are compared as floats, so packets with the same bytes can be different.

Traversal and stores:

* The memory writer keeps the first packet per hash, the reader built from a list keeps the last (C53).
* `PacketDirectoryReader` does not check the hash; `_get_by_link` raises NameError.
* Unsigned packets are accepted in a traversal.
* Traversal prints each name constructor definition it adopts (Traversal.py:53), so a tree whose locators are not valid UTF-8 is written
  without complaint and never read (C85). Likewise the reports at Traversal.py:126 and 138 and ManifestFactory.py:185 show an object
  while reporting an exception, and when that fails its exception takes the place of the reported one (C75).
* `ManifestGraph` names nodes by three bytes of the hash where the comment says four, so packets may be merged in the picture; with an
  unpaused graph a manifest with the empty name cannot be built (C74, C75).
* `build_packet` ignores which signer it is passed: any signer makes it use the signer of the tree options (C75).

Programs (`ccnpy/apps`):

* `validate_packet` of packet_utils returns without validating when the RSA key is unknown, and the packet reader then still decrypts
  and shows the manifest (C78, C79). Its `except KeyError` is dead code.
* `decrypt_manifest` returns None after a DecryptionError and for a missing context, and raises AttributeError for an unknown AES key (C79).
* The manifest reader never succeeds: by name the directory reader raises, and `--hash` is passed on as text (C83). `StdOutWrapper`
  drops bytes that are not UTF-8.
* The default key number of the manifest writer is Python's `hash` of the key: different in each process and often negative, which
  `KeyNumber` refuses (C84). Numbers of 2^64 and more are truncated on the wire while the keystore keeps the full number (hence the
  ranges in C82).
* `--enc-key` without `--key-num` cannot be read: the keystore is not made. `--wrap-key` with `--enc-key` but no `--salt` raises TypeError
  (C84). `kdf_uuid` makes a new UUID at every use.
* `Name.__repr__` raises for segments that are not UTF-8 or held in an `array`, so a packet that parses may not be printable (C77).
* Integers of any length are parsed, but Python writes only 4300 digits: a chunk id, key number or size of 1786 bytes or more makes a packet
  that parses but cannot be shown (ValueError). An expiry time of nine bytes or more parses, and may be too late for the C library
  (OSError, OverflowError) (C77, C112).

Other observations made while reading (not all of them affect a theorem):

* `KDF` derivation (`_derive_key`) is never called and would raise; KDF data without KDF info makes the OAEP label raise AttributeError.
* `RsaSha256` uses a method `der()` that does not exist when asked for its public key.
* `max_tree_degree = 1` and a packet size that leaves no capacity raise; `_build` checks only the manifest's length against
  `max_packet_size`. An empty file raises ValueError. The float logarithm may overestimate a height.
* `RsaOaepDecryptor.decrypt_node` calls `security_ctx()` on a property (TypeError).
* `FileMetadata.ReverseIterator` has no `__iter__`; `Pointers.__iter__` and `HashValue.__iter__` return `self` with a shared position.
* `minimize_waste_min_height` fails its assertion for heights from 0xFFFFFFFF (C69). A hashed schema needs a name even with both locators
  (C71).
* Watching can stop a publication in the middle (C110): with `debug`, or with a `manifest_graph`, a name that is not UTF-8 raises after the
  data packets are put; an empty root name cannot be drawn. Publishing itself minds neither. `ManifestTree` with `packet_output=None` never
  returns, although `TreeBuilder._write_packet` allows for None. An exception in the optimisation leaves the graph paused. The factory
  counts the manifests that are only built for their size.
