{"id": "C01", "title": "TLV wire round trip with trailing bytes", "statement": "If a TLV with type t and byte value v can be constructed, then deserializing its serialization followed by any further bytes gives back exactly type t and value v, and the reported total length is the number of bytes of the serialization, so the bytes after it are not consumed.", "quantifier": "every type t in 0..0xFFFF, every byte string v of length 0..0xFFFF, every trailing byte string", "why_tests_cant": "infinitely many (type, value, trailing) triples; a test fixes a few values and almost never non-empty trailing bytes", "anchors": ["ccnpy/core/Tlv.py: Tlv.__init__, Tlv._serialize, Tlv.deserialize, Tlv.__len__"]}
{"id": "C02", "title": "Truncated TLVs are always rejected", "statement": "Deserializing any strict prefix of the serialization of a TLV raises ParseError; it never yields a shorter or different TLV.", "quantifier": "every constructible TLV and every cut point strictly before the end of its wire bytes", "why_tests_cant": "the cut point and the value range over all values; a test covers a few cut points", "anchors": ["ccnpy/core/Tlv.py: Tlv.deserialize"]}
{"id": "C03", "title": "Oversized TLVs are never silently truncated", "statement": "Constructing a TLV succeeds exactly when the type is at most 0xFFFF and the value has at most 0xFFFF bytes; otherwise construction raises an exception and no bytes are produced.", "quantifier": "every natural-number type and every byte string of any length", "why_tests_cant": "sizes are unbounded", "anchors": ["ccnpy/core/Tlv.py: Tlv._serialize, Tlv._tlv_encode"]}
{"id": "C04", "title": "TLV parsing is lossless (what is accepted re-encodes to the accepted bytes)", "statement": "Whenever deserialize accepts a buffer, the serialization of the result is exactly the initial segment of the buffer that was consumed; hence two buffers that decode to the same TLV start with the same bytes.", "quantifier": "every byte string", "why_tests_cant": "quantifies over all inputs including malformed ones", "anchors": ["ccnpy/core/Tlv.py: Tlv.deserialize, Tlv.serialize"]}
{"id": "C05", "title": "Concatenated TLVs decode uniquely", "statement": "Reading TLVs one after another from the concatenation of the serializations of a list of TLVs returns exactly that list; in particular two different lists of TLVs never have the same concatenated bytes.", "quantifier": "every finite list of constructible TLVs (any length)", "why_tests_cant": "needs induction over lists of unbounded length", "anchors": ["ccnpy/core/Tlv.py: Tlv.flatten, Tlv.deserialize", "ccnpy/core/TlvType.py: TlvType.auto_value_parse"]}
{"id": "C06", "title": "Variable-length integers survive encoding exactly below 2^64 and wrap above it", "statement": "For 0 <= n < 2^64 number_to_array followed by array_to_number returns n, distinct numbers have distinct encodings, and the encoding has the shortest length among 1, 2, 3, 4 and 8 bytes. For n >= 2^64 no error is raised and the decoded value is n mod 2^64. A negative n raises OverflowError.", "quantifier": "every integer n", "why_tests_cant": "the integers are unbounded; the wrap-around at 2^64 is not reachable by sampling small values", "anchors": ["ccnpy/core/Tlv.py: Tlv.number_to_array, Tlv.array_to_number"]}
{"id": "C07", "title": "Fixed-width integer encoders are exact on their range and fail or wrap outside it", "statement": "uint16/uint24/uint32/uint64 encoders produce exactly 2/3/4/8 bytes whose big-endian value is n when n fits. Outside the range the 16, 24 and 32 bit encoders raise while the 64 bit encoder silently reduces modulo 2^64.", "quantifier": "every integer n", "why_tests_cant": "unbounded integer range", "anchors": ["ccnpy/core/Tlv.py: uint16_to_array, uint24_to_array, uint32_to_array, uint64_to_array, array_to_number"]}
{"id": "C08", "title": "TLV equality and hash contract", "statement": "Two TLVs that hash-key equal (same wire bytes) compare equal; but comparing equal does not imply the same hash key, because equality ignores the type while the hash uses it: for every value there are two TLVs that compare equal with different hash input. When the types agree, equality is exactly equality of wire bytes.", "quantifier": "every pair of TLVs", "why_tests_cant": "needs all pairs; tests only compare a few TLVs of the same type", "anchors": ["ccnpy/core/Tlv.py: Tlv.__eq__, Tlv.__hash__", "ccnpy/core/HashValue.py: HashValue.__eq__, HashValue.__hash__"]}
{"id": "C09", "title": "Name wire round trip and injectivity", "statement": "Parsing the serialization of a Name gives a Name with the same number of components and the same type and bytes for every component, in order; two names with different component lists have different wire bytes.", "quantifier": "every list of components with 16-bit types whose encoding fits in a TLV", "why_tests_cant": "unbounded number and size of components", "anchors": ["ccnpy/core/Name.py: Name.__init__, Name.serialize, Name.parse, NameComponent"]}
{"id": "C10", "title": "Appending a component to a Name", "statement": "append, append_chunk_id and append_manifest_id return a name with exactly one more component, whose earlier components are those of the original in order, and leave the original's serialization unchanged; appending different ids below 2^64, or ids of different kinds, to the same name yields different names. append succeeds exactly if every component's type fits in 16 bits and the encoded components take at most 65535 bytes.", "quantifier": "every name, every component, every pair of ids below 2^64", "why_tests_cant": "unbounded names and ids", "anchors": ["ccnpy/core/Name.py: Name.append, append_chunk_id, append_manifest_id"]}
{"id": "C11", "title": "Python equality of a Name after a wire round trip", "statement": "A name whose components all hold bytes objects compares equal (==) to the result of parsing its own serialization; a name with at least one component held as an array (as chunk-id and manifest-id components are when created locally) never compares equal to its parsed copy, although the wire bytes agree.", "quantifier": "every name and every mixture of component representations", "why_tests_cant": "requires all component lists; unit tests only round trip bytes components", "anchors": ["ccnpy/core/Name.py: Name.__eq__, Name.parse, NameComponent.create_chunk_segment, create_manifest_id", "ccnpy/core/Tlv.py: Tlv.__eq__"]}
{"id": "C12", "title": "Fixed header round trip and rejection", "statement": "Deserializing a serialized fixed header followed by any bytes returns the same version, packet type, packet length, fields and header length whenever version is 1 and both lengths are at least 8; a buffer shorter than 8 bytes, or with version other than 1, or packet length or header length below 8, is always rejected. A header can be serialized exactly if version, packet type and header length are at most 255 and the packet length is at most 65535.", "quantifier": "every header with fields in range, every trailing byte string, every byte string for the rejection part", "why_tests_cant": "2^64 headers and unbounded trailing bytes", "anchors": ["ccnpy/core/FixedHeader.py: serialize, deserialize"]}
{"id": "C13", "title": "Hash values, key ids and links survive the wire", "statement": "Parsing the serialization of a HashValue, of a KeyId (or other hash-carrying TLV), or of a Link with any combination of name, key-id restriction and hash restriction returns the same fields.", "quantifier": "every algorithm number, digest bytes, and every combination of optional link fields", "why_tests_cant": "unbounded digests and names; all combinations of optional fields", "anchors": ["ccnpy/core/HashValue.py: parse, deserialize", "ccnpy/core/HashTlvType.py: parse", "ccnpy/core/Link.py: deserialize, serialize"]}
{"id": "C14", "title": "ContentObject wire round trip", "statement": "Parsing the serialization of a ContentObject returns the same name, payload type, payload, expiry time (when the expiry is a whole number of seconds below 2^40) and final chunk id (below 2^64), for every combination of present and absent fields.", "quantifier": "every content object", "why_tests_cant": "unbounded payloads and names; 32 combinations of optional fields", "anchors": ["ccnpy/core/ContentObject.py: __init__, parse, serialize"]}
{"id": "C15", "title": "ContentObject parsing rejects duplicates and unknown fields", "statement": "A content object whose value contains a field TLV of unknown type, or two TLVs of the same field, anywhere in any order, is never accepted.", "quantifier": "every sequence of inner TLVs", "why_tests_cant": "quantifies over all orders and positions of the offending TLV", "anchors": ["ccnpy/core/ContentObject.py: ContentObject.parse"]}
{"id": "C16", "title": "Timestamps on the wire: whole seconds are exact, milliseconds may lose one unit per hop", "statement": "Parsing a timestamp TLV carrying ms milliseconds and serializing it again yields ms exactly when ms is a multiple of 1000 (below 2^53), and for every ms below 2^50 yields ms or ms-1; it is not always ms (1001 becomes 1000) and repeated hops can lose more (128004 becomes 128003 and then 128002).", "quantifier": "every millisecond count below the stated bounds", "why_tests_cant": "2^50 values of double rounding; the failing values are sparse", "anchors": ["ccnpy/core/Timestamp.py: __init__, milliseconds", "ccnpy/core/ExpiryTime.py: parse", "ccnpy/core/SignatureTime.py: parse"]}
{"id": "C17", "title": "Packet wire round trip", "statement": "Deserializing the serialization of a packet made by create_content_object or create_signed_content_object (unsigned, CRC32C-signed, or RSA-signed without a key link; times in whole seconds) returns the same header, body fields, validation algorithm and validation payload, re-serializes to the same bytes, and has the same content object hash. An RSA-signed packet that carries a key link can be created and serialized but is never accepted by deserialize.", "quantifier": "every content object packet", "why_tests_cant": "unbounded bodies and signatures", "anchors": ["ccnpy/core/Packet.py: __init__, serialize, deserialize", "ccnpy/core/ValidationAlg.py: parse", "ccnpy/core/ValidationPayload.py: parse"]}
{"id": "C18", "title": "Header packet length is the true length", "statement": "For every packet made by create_content_object or create_signed_content_object the packet_length in the fixed header equals the number of bytes of the serialized packet; if the length does not fit 16 bits creation raises.", "quantifier": "every content object body, validation algorithm and payload", "why_tests_cant": "unbounded sizes", "anchors": ["ccnpy/core/Packet.py: create_content_object, create_signed_content_object", "ccnpy/core/FixedHeader.py: serialize"]}
{"id": "C19", "title": "The content object hash covers exactly body and validation sections", "statement": "Two packets have the same bytes fed to the hash function iff they have the same body, validation algorithm and validation payload bytes; changing only the fixed header never changes the hash, changing the body or validation sections changes the hash input.", "quantifier": "every pair of packets", "why_tests_cant": "all pairs; injectivity cannot be sampled", "anchors": ["ccnpy/core/Packet.py: _compute_hash, content_object_hash"]}
{"id": "C20", "title": "Packet parsing is structurally safe", "statement": "If Packet.deserialize accepts a buffer, then the buffer is an 8-byte-or-longer header with version 1 followed by a sequence of complete TLVs of types 1 to 4 containing exactly one content object body, at most one validation algorithm and at most one validation payload, the payload after the algorithm and both or neither present; Interest TLVs can only stand before the body and are silently ignored; the packet_length field is not checked against the buffer.", "quantifier": "every byte string", "why_tests_cant": "all inputs including adversarial ones", "anchors": ["ccnpy/core/Packet.py: deserialize, __init__"]}
{"id": "C21", "title": "Parsing normalises: parse, serialize, parse is stable", "statement": "If a buffer is accepted as a ContentObject (or as a packet with an 8-byte header) and all integers in it fit 64 bits and its times survive re-encoding, then serializing the parsed object and parsing again gives the same object (and the same bytes from then on). A packet accepted with a longer header is re-serialized without the extra header bytes and may then no longer parse.", "quantifier": "every accepted byte string", "why_tests_cant": "all inputs, including non-minimal integer encodings and reordered fields", "anchors": ["ccnpy/core/ContentObject.py: parse, serialize", "ccnpy/core/Packet.py: deserialize, serialize"]}
{"id": "C22", "title": "CRC32C signing and verification", "statement": "A payload produced by the CRC32C signer over any list of buffers verifies over the same buffers; the checksum depends only on the concatenation of the buffers; the verifier accepts exactly the 4-byte big-endian checksum and nothing else.", "quantifier": "every list of byte buffers and every candidate validation payload", "why_tests_cant": "unbounded buffers and all split points", "anchors": ["ccnpy/crypto/Crc32c.py: Crc32cSigner.sign, Crc32cVerifier.verify"]}
{"id": "C23", "title": "CRC32C detects every burst error up to 32 bits", "statement": "If two byte strings of equal length differ, and all differing bits lie within 32 consecutive bit positions (in transmission order), then their CRC32C checksums differ; so a signed packet with such corruption never verifies.", "quantifier": "every message length, every position, every non-zero burst pattern of at most 32 bits", "why_tests_cant": "2^32 patterns at every position of every message", "anchors": ["ccnpy/crypto/Crc32c.py: Crc32cSigner.sign, Crc32cVerifier.verify"]}
{"id": "C24", "title": "PacketValidator decision logic", "statement": "validate_packet raises for a CRC32C packet iff the checksum of body and algorithm does not match the payload; for an RSA packet it returns without checking when there is no keystore, raises KeyIdNotFoundError when the keystore has no matching key, and otherwise raises iff the signature does not verify; unsigned packets are always accepted. A packet signed with CRC32C or RSA and validated by a receiver that parsed it is accepted when its times are whole seconds; with a fractional expiry time the timestamp conversion can change the expiry, and a correctly signed packet is then rejected. A packet with a CRC32C algorithm, or with an RSA algorithm and a keystore at hand, is never accepted without a validation payload.", "quantifier": "every packet and every keystore content", "why_tests_cant": "all combinations of packets, signatures and keystores", "anchors": ["ccnpy/core/PacketValidator.py: validate_packet", "ccnpy/crypto/InsecureKeystore.py: get_rsa"]}
{"id": "C25", "title": "Keystore lookups reflect the history of additions", "statement": "After any sequence of add_aes_key and add_rsa_key calls, get_aes_key(k) returns the parameters most recently added under key number k and raises if none; get_rsa(id) returns the key most recently added with that key id, falling back to the key most recently added with that name, and raises if neither exists.", "quantifier": "every finite history of additions and every query", "why_tests_cant": "histories are unbounded", "anchors": ["ccnpy/crypto/InsecureKeystore.py: add_aes_key, add_rsa_key, get_aes_key, get_rsa, get_rsa_pub_key"]}
{"id": "C26", "title": "Hash group wire round trip", "statement": "Parsing the serialization of a GroupData, Pointers or HashGroup returns the same fields (integers below 2^64) and the same pointer list in the same order.", "quantifier": "every combination of optional fields and every pointer list", "why_tests_cant": "unbounded pointer lists", "anchors": ["ccnpy/flic/tlvs/GroupData.py: parse", "ccnpy/flic/tlvs/Pointers.py: parse", "ccnpy/flic/tlvs/HashGroup.py: parse"]}
{"id": "C27", "title": "Auto-parsed TLVs ignore unknown fields and reject duplicated fields", "statement": "For GroupData and HashGroup, inserting a TLV of an unrecognised type anywhere between the fields does not change the outcome of parsing (result or exception), and repeating a recognised field is always rejected (also for the fields of an AEAD context).", "quantifier": "every field list, every insertion position, every unknown TLV", "why_tests_cant": "all positions and all unknown types and values", "anchors": ["ccnpy/core/TlvType.py: auto_parse, auto_value_parse"]}
{"id": "C28", "title": "Node wire round trip and iteration order", "statement": "Parsing a serialized Node returns the same node data and hash groups; iterating a node yields every pointer of every group in order exactly once, with the group's name-constructor id and the segment id equal to the group's start segment id plus the position within the group (none if the group has no start segment id). A group without pointers in it needs no group data. Iteration raises at the first group that cannot be iterated, TypeError if the group has no pointer list and ValueError if it names no constructor, after yielding the pointers of the groups before it. hash_values of a manifest iterates its node in this way, and raises TypeError if the node is encrypted.", "quantifier": "every node with any number of groups and pointers, including empty groups", "why_tests_cant": "unbounded groups and pointers", "anchors": ["ccnpy/flic/tlvs/Node.py: parse, NodeIterator"]}
{"id": "C29", "title": "Node padding", "statement": "A node built with pad_length L (at most 65539) serializes to exactly L bytes when the unpadded size is at most L-4 and to the unpadded bytes otherwise; parsing the padded bytes returns the same node as parsing the unpadded bytes.", "quantifier": "every node and every pad length up to 65539", "why_tests_cant": "unbounded nodes and pad lengths", "anchors": ["ccnpy/flic/tlvs/Node.py: _create_padded_tlv, parse", "ccnpy/core/Pad.py"]}
{"id": "C30", "title": "Name constructor definitions and node data survive the wire", "statement": "Parsing the serialization of Locators, NcDef with a hash, prefix or segmented schema (without protocol flags), Vendor and NodeData returns the same fields, lists in order.", "quantifier": "every such object", "why_tests_cant": "unbounded lists and names", "anchors": ["ccnpy/flic/tlvs/NcSchema.py: parse", "ccnpy/flic/tlvs/NcDef.py: parse", "ccnpy/flic/tlvs/NodeData.py: parse", "ccnpy/flic/tlvs/Locators.py", "ccnpy/flic/tlvs/Vendor.py"]}
{"id": "C31", "title": "Manifest wire round trip", "statement": "A manifest (plain node, or security context with encrypted node and auth tag) put in a content object, in a packet, serialized, deserialized and extracted again has the same security context, auth tag and node contents; it equals (==) the original manifest when the node was built without padding, and never equals it when padding was actually added, because parsing drops the pad.", "quantifier": "every manifest, optional name and whole-second expiry time", "why_tests_cant": "unbounded manifests", "anchors": ["ccnpy/flic/tlvs/Manifest.py: from_content_object, deserialize, serialize, content_object, packet"]}
{"id": "C32", "title": "Security contexts survive the wire", "statement": "Parsing the serialization of an AEAD context or RSA-OAEP context (with or without the key wrapper, with or without KDF data) returns the same key number, nonce, mode, KDF data, key id, hash algorithm and wrapped key.", "quantifier": "every context", "why_tests_cant": "unbounded fields and combinations", "anchors": ["ccnpy/flic/tlvs/SecurityCtx.py: parse", "ccnpy/flic/tlvs/AeadCtx.py", "ccnpy/flic/tlvs/RsaOaepCtx.py", "ccnpy/flic/aeadctx/AeadData.py", "ccnpy/flic/RsaOaepCtx/RsaOaepWrapper.py"]}
{"id": "C33", "title": "AEAD manifest encryption round trip", "statement": "Decrypting, with the same key parameters, the manifest made from the encryption of a node returns that node, for AES-GCM and AES-CCM with 128 and 256 bit keys, with and without salt, in AeadCtx and RsaOaepCtx manifests, and also after the encrypted manifest has been serialized and parsed. Encryption with a 192 bit key always raises, in both forms.", "quantifier": "every node, key, salt, nonce and key number (the AEAD primitive is assumed correct)", "why_tests_cant": "unbounded nodes and all nonces", "anchors": ["ccnpy/flic/aeadctx/AeadImpl.py: encrypt, decrypt_node, decrypt_manifest", "ccnpy/crypto/AeadKey.py: encrypt, decrypt"]}
{"id": "C34", "title": "AEAD binding: altered or misaddressed manifests never decrypt to something else", "statement": "Assuming the AEAD primitive opens only what was sealed under the key, a manifest that decrypts under a key has the security context bytes, nonce and ciphertext-plus-tag of a manifest that was sealed under it and gives the node that was sealed; so changing the key number, nonce, mode, KDF data or the ciphertext-plus-tag, or in the RSA-OAEP form adding, dropping or changing the key wrapper, makes decrypt_manifest raise, as does presenting one form of context as the other; a decryptor whose key number or mode family differs raises before using the key. Where the ciphertext ends and the tag begins is not protected: bytes moved across that border go unnoticed.", "quantifier": "every encrypted manifest and every alteration", "why_tests_cant": "all alterations of all manifests", "anchors": ["ccnpy/flic/aeadctx/AeadImpl.py: decrypt_node"]}
{"id": "C35", "title": "RSA-OAEP content key wrapping", "statement": "Unwrapping a wrapped key with the matching private key and the same key number, mode, KDF info, key id and hash algorithm returns the same salt and key; a change in any of those labelled fields makes unwrapping fail; salts must be present for wrapping to succeed. A consumer holding only the RSA private key decrypts a sequence of manifests of which only the first need carry the wrapped key. With a salt of 32 bits and a supported key, wrapping succeeds exactly if the four octets of the salt and the key fit in the RSA modulus less 66 octets, and raises ValueError otherwise.", "quantifier": "every key, salt and label (OAEP primitive assumed correct and label binding)", "why_tests_cant": "all labels and keys", "anchors": ["ccnpy/flic/RsaOaepCtx/WrappedKey.py: create, decrypt", "ccnpy/flic/RsaOaepCtx/RsaOaepImpl.py"]}
{"id": "C36", "title": "Decryptor cache versus keystore under histories", "statement": "For a sequence of get_or_create calls whose AEAD contexts all have keys in the keystore and use one kind of context per key number, every call returns the decryptor for that context. This fails in general: after a failed lookup, a second call with the same key number returns the previously cached decryptor for a different key number (and decrypting with it raises), and a key number used with both kinds of context gets the decryptor of the wrong kind.", "quantifier": "every finite sequence of lookups", "why_tests_cant": "order-dependent state; needs all histories", "anchors": ["ccnpy/flic/tree/DecryptorCache.py: get_or_create"]}
{"id": "C37", "title": "Advertised key derivation is not applied", "statement": "The AES key used to encrypt a node is the configured key itself and never a derived key; KDF data enters only through the authenticated context bytes, and a reader that follows the advertised KDF cannot decrypt unless derivation gives the configured key. The unused derivation function always raises when a KDF is configured, and returns the key it is given when none is.", "quantifier": "every key, KDF data and node", "why_tests_cant": "universally quantified negative claim", "anchors": ["ccnpy/flic/aeadctx/AeadImpl.py: encrypt, _derive_key"]}
{"id": "C38", "title": "Chunking loses nothing for any read schedule", "statement": "For every input stream whose read(n) returns between 1 and n bytes until the end (short reads allowed), the payloads of the data packets written by chunk_data, in order, concatenate to the stream contents; chunk numbers are consecutive from the schema's counter, recorded sizes equal payload sizes and sum to total_bytes, and only the last packet carries a final chunk id (its own number) and only for a chunk-id schema.", "quantifier": "every file content, every schedule of short reads, every schema and starting counter", "why_tests_cant": "schedules of short reads and file sizes are unbounded", "anchors": ["ccnpy/flic/name_constructor/SchemaImpl.py: chunk_data, _create_data_packet"]}
{"id": "C39", "title": "Data packets never exceed the maximum packet size", "statement": "Every data packet written by chunk_data has serialized length at most max_packet_size, so the size check in packet creation never fires; if not even one byte fits, chunk_data raises before writing anything.", "quantifier": "every file, schema name, expiry time and max_packet_size", "why_tests_cant": "the size depends on variable-length chunk ids over all 2^24 chunk numbers", "anchors": ["ccnpy/flic/name_constructor/SchemaImpl.py: _calculate_data_payload_size, _create_data_packet"]}
{"id": "C40", "title": "Tree optimizer minimises the number of internal nodes", "statement": "For every p >= 2 and n > p (both below 2^52, the floating point division and ceil included) the split (d, m) chosen by minimize_k_min_waste satisfies d + m = p, d >= 1, m >= 1; the internal-node count k it reports is exactly ceil((n - p)/(p - 1)^2), is the least k for which any split of p has formula capacity k*m*(d+m-1)+d+m >= n, the formula capacity of the chosen split is at least n, the reported waste is that capacity minus n, no other split with the same k has smaller waste, and the chosen m is the smallest that works. For 1 <= n <= p the optimizer always picks m = 1 (with k = -1 and height 0 for n = 1, k = 0 and height 1 otherwise); overall m = 1 exactly when p = 2 or n <= 2p-1. For n = 0 it raises ValueError, and for p = 1 it always raises.", "quantifier": "all n and p", "why_tests_cant": "two unbounded integer parameters", "anchors": ["ccnpy/flic/tree/TreeOptimizer.py: calculate_k, minimize_k, minimize_k_min_waste, calculate_waste"]}
{"id": "C41", "title": "Tree of computed height has room for all chunks", "statement": "A tree of height h built by the tree builder (leaf holding up to p = d+m pointers, interior d direct plus m children) has capacity C(0)=p, C(h)=d+m*C(h-1). For every result with m >= 2 and d >= 1 the height the optimizer computes satisfies C(height) >= n provided the library logarithm is not too small, and no smaller height does provided the logarithm is not too large (so in exact arithmetic it is the least sufficient height); with m = 1 it is exactly one more than the least sufficient height (n >= 2). So the tree selected for any n >= 1 has room for all chunks.", "quantifier": "all n, p and splits", "why_tests_cant": "unbounded integers and exponential capacities", "anchors": ["ccnpy/flic/tree/OptimizerResult.py: tree_height", "ccnpy/flic/tree/TreeBuilder.py: build, _get_height"]}
{"id": "C42", "title": "Manifest ids are unique and never run out", "statement": "For every tree built with branching m and height h where m = 1 or m^(h+1) <= 2^53 (so that the float power of the id factory is exact), the ids handed out by the manifest id factory are pairwise distinct and lie in 0..last_id; if the tree has room for the chunks the factory never raises OverflowError during the build; with the segmented schema (and fewer than 2^64 ids) the names of the manifests written are pairwise distinct.", "quantifier": "every number of chunks, d, m and height large enough", "why_tests_cant": "inductive over the whole recursive build", "anchors": ["ccnpy/flic/tree/ManifestIdFactory.py", "ccnpy/flic/tree/TreeBuilder.py"]}
{"id": "C43", "title": "Tree builder preserves chunk order", "statement": "Walking the built manifest tree in pre-order (direct pointers first, then children left to right) visits every data chunk exactly once in file order, for any fan-out and height that can hold the file.", "quantifier": "every list of chunks, every d >= 1, m >= 1, every sufficient height", "why_tests_cant": "recursive structure; all sizes", "anchors": ["ccnpy/flic/tree/TreeBuilder.py: build, _bottom_up_preorder, _interior_manifest, _leaf_manifest"]}
{"id": "C44", "title": "Manifest fan-out limits", "statement": "Every non-root manifest made by the tree builder has at least one and at most d+m pointers; a leaf manifest has only data pointers; an interior manifest has at least one and at most d direct pointers and at most m manifest pointers.", "quantifier": "every chunk list and parameters", "why_tests_cant": "all sizes and positions in the tree", "anchors": ["ccnpy/flic/tree/TreeBuilder.py: _leaf_manifest, _interior_manifest", "ccnpy/flic/tree/HashGroupBuilderPair.py"]}
{"id": "C45", "title": "Manifest tree depth", "statement": "Every root-to-data path in the built tree has at most height+1 manifests below the root manifest.", "quantifier": "every chunk list and parameters", "why_tests_cant": "all trees", "anchors": ["ccnpy/flic/tree/TreeBuilder.py: _bottom_up_preorder"]}
{"id": "C46", "title": "Subtree and leaf sizes are the true byte counts", "statement": "When size annotation options are enabled, the node subtree size in each manifest equals the total payload bytes of all data chunks reachable from it, each data group's leaf size equals the bytes of its direct pointers, and a group's subtree size equals the bytes reachable through the group (the last only if node subtree sizes are enabled too: otherwise indirect bytes are omitted). In the output of a completed build the chunks counted are the data packets written, with the lengths of their payloads, and the root manifest has the length of the file.", "quantifier": "every file, parameters and option combination", "why_tests_cant": "inductive over the tree; all options", "anchors": ["ccnpy/flic/tree/TreeBuilder.py: _interior_manifest, _get_optional_subtree_size", "ccnpy/flic/HashGroupBuilder.py", "ccnpy/flic/ManifestFactory.py: _build"]}
{"id": "C47", "title": "Write order: children before parents at every crash point", "statement": "At every point during the build, every manifest already written points only to packets already written; so a build interrupted at any moment leaves no dangling pointers, and the root is written last.", "quantifier": "every prefix of the sequence of packets written, for every file and parameters", "why_tests_cant": "quantifies over all crash points", "anchors": ["ccnpy/flic/tree/TreeBuilder.py: _build_packet, _build_leaf_packet, _interior_packet", "ccnpy/flic/ManifestTree.py: build"]}
{"id": "C48", "title": "Manifest packet size bound", "statement": "A manifest below the root exceeds max_packet_size by at most: the length of its encoded name, 12 bytes if manifests have an expiry time, 5 bytes for long start ids with the segmented schema, and per hash group what the enabled size annotations take (4 + the shortest width of the file length, each) beyond the 10 bytes that the size calculation always plans for. Hence for hashed (nameless) manifests without expiry time and without group annotations (or with one of them and a file below 4 GiB) every manifest packet below the root is at most max_packet_size bytes. With a long manifest prefix (prefix or segmented schema), with an expiry time, or with both group annotations, the bound can be exceeded, because the size calculation ignores names, expiry times and the real widths.", "quantifier": "every file, options and max_packet_size", "why_tests_cant": "sizes depend on all options and variable-length integers", "anchors": ["ccnpy/flic/tree/ManifestSizeCalculator.py", "ccnpy/flic/ManifestFactory.py: _build"]}
{"id": "C49", "title": "End to end: traversing a built tree returns the file", "statement": "For hashed and prefix schemas, for every file, read schedule and options (including signing and AEAD or RSA-OAEP encryption) for which the build returns: if the packets written are put in a memory store, the reader has the publisher's keys, no two of the packets have the same hash, the names in the options hold bytes, and the name segments of the locators that go into the root are valid UTF-8 (traversal prints them), then traversing from the root manifest by its name and hash returns without error, the bytes written are exactly the file, the writes are the payloads of the data objects one by one in the order they were put out, and every packet is visited exactly once. The recursion goes no deeper than the tree levels needed for the number of chunks plus three.", "quantifier": "every file, schedule, parameters", "why_tests_cant": "composition of chunking, encoding, tree building, hashing, parsing and traversal over unbounded inputs", "anchors": ["ccnpy/flic/ManifestTree.py: build", "ccnpy/flic/tree/Traversal.py: preorder, _visit_children"]}
{"id": "C50", "title": "End to end with segmented names fails just for small trees", "statement": "Under the same conditions with the segmented schema (and a floating point logarithm that is not too high), with p pointers per manifest and n chunks: traversing from the root returns the file, in order and visiting every packet once, if n = 1 or if p > 2 and n >= 2p. In every other case (2 <= n <= 2p-1, or p = 2 and n >= 2) traversal raises ValueError and writes nothing, because the root's group declares start segment id 0 while the top manifest was named with id 1.", "quantifier": "every n and p", "why_tests_cant": "all sizes; tests only use sizes in the good region", "anchors": ["ccnpy/flic/ManifestTree.py: _create_root_manifest", "ccnpy/flic/tree/ManifestIdFactory.py", "ccnpy/flic/tree/TreeBuilder.py: _get_next_manifest_name", "ccnpy/flic/tree/TreeIO.py: PacketMemoryReader.get"]}
{"id": "C51", "title": "Traversal output is determined by the pointer structure", "statement": "Whatever packets the reader supplies, if traversal finishes then the bytes written are the payloads of the data objects reached, in pre-order of pointers, the counter equals the number of all objects visited (manifests included, root included), the number of writes equals the number of data objects, and every object obtained has the hash named by its pointer when the memory reader is used. Conversely, if the pointers lead through unencrypted manifests whose groups can be iterated and whose definitions can be printed, to data objects, then it finishes, given room for the recursion. So for unencrypted manifests traversal finishes for some recursion depth exactly if the pointers lead so.", "quantifier": "every packet store and every root", "why_tests_cant": "arbitrary, possibly adversarial, stores", "anchors": ["ccnpy/flic/tree/Traversal.py: preorder, _visit_children, _fetch_packet", "ccnpy/flic/tree/TreeIO.py"]}
{"id": "C52", "title": "Name constructor definitions are scoped to their branch", "statement": "A name constructor defined in a manifest is visible when resolving pointers in that manifest and below it, and never changes the resolution of pointers in siblings or parents.", "quantifier": "every manifest tree and every placement of definitions", "why_tests_cant": "all trees and orders", "anchors": ["ccnpy/flic/tree/Traversal.py: _update_nc_cache, NameConstructorCache"]}
{"id": "C53", "title": "In-memory packet store", "statement": "After any sequence of put calls on an empty in-memory store, get(name, hash) raises KeyError if no packet with that hash was put; otherwise it returns the first packet put with that hash when that packet has no name or its name equals the requested name, raises ValueError when the packet has a name different from the requested one, and raises AttributeError when the packet has a name and none is requested. The store's length is the number of distinct hashes put, and the packet list keeps every put in order.", "quantifier": "every sequence of puts and every query", "why_tests_cant": "unbounded histories", "anchors": ["ccnpy/flic/tree/TreeIO.py: PacketMemoryReader.get, PacketMemoryWriter.put"]}
{"id": "C54", "title": "Hash group builder limits", "statement": "After any sequence of insertions a HashGroupBuilder holds at most max_direct + max_indirect pointers, raises on insertion into a full group, reports the sums of inserted sizes, and emits pointers in order (prepend at the front, append at the end).", "quantifier": "every sequence of operations", "why_tests_cant": "unbounded operation sequences", "anchors": ["ccnpy/flic/HashGroupBuilder.py: prepend_direct, prepend_indirect, append_indirect, hash_group"]}
{"id": "C55", "title": "Schema names are a function of schema and id, and distinct ids give distinct names", "statement": "Under the segmented schema distinct ids below 2^64 name distinct objects and the manifest and data name spaces are disjoint when the prefixes differ or the suffix types differ; under the prefix schema all objects share one name; under the hashed schema objects have no name.", "quantifier": "every prefix and id", "why_tests_cant": "unbounded ids and prefixes", "anchors": ["ccnpy/flic/name_constructor/SegmentedSchemaImpl.py: get_name", "ccnpy/flic/name_constructor/PrefixSchemaImpl.py: get_name", "ccnpy/flic/name_constructor/HashSchemaImpl.py: get_name"]}
{"id": "C56", "title": "Parsers always terminate and never read past the buffer", "statement": "Every TLV-sequence parser consumes at least 4 bytes per element, so on every input it stops after at most length/4 elements with a result or an exception, and appending bytes after a complete outer TLV never changes the parse result of that TLV.", "quantifier": "every byte string", "why_tests_cant": "all inputs", "anchors": ["ccnpy/core/TlvType.py: auto_value_parse", "ccnpy/core/Name.py: parse", "ccnpy/core/ContentObject.py: parse"]}
{"id": "C57", "title": "Names from URIs", "statement": "Name.from_uri(\"ccnx:/s1/s2/...\") gives the name whose components are name segments holding s1, s2, ... in UTF-8, in order, without empty segments and \".\"; name[i] gives the i-th text back, also counting from the end. An authority after \"//\" is dropped, without a slash after the colon the first segment is dropped, everything after \"?\" or \"#\" is ignored, and a URI that does not begin with ccnx: (in any case) raises AssertionError. For any name, name[i] is the bytes of a component held in an array and the UTF-8 text of any other, ValueError if it is not UTF-8, IndexError if there is no such component.", "quantifier": "every list of segment texts without / ? # and line breaks whose name fits in 65535 bytes", "why_tests_cant": "unbounded segment lists and all Unicode texts", "anchors": ["ccnpy/core/Name.py: from_uri, __getitem__"]}
{"id": "C58", "title": "as_uri is not the inverse of from_uri", "statement": "as_uri writes every name segment with the prefix \"Name=\", so reading the URI back gives another name, unless the name is empty. as_uri succeeds exactly when every name segment holds bytes that are UTF-8 and every chunk and manifest id has at most 4300 decimal digits (Python's limit); a segment held in an array, or not UTF-8, or a longer number, raises.", "quantifier": "every name; for the first part every nonempty list of segment texts", "why_tests_cant": "unbounded names", "anchors": ["ccnpy/core/Name.py: as_uri, NameComponent.__repr__, from_uri"]}
{"id": "C59", "title": "File names of links", "statement": "The file name of a link to a name is \"~\" joined parts of the name followed by \".link\"; names made of texts without \"~\", chunk ids and manifest ids have different file names if they differ; but texts containing \"~\" collide, and so do names that differ only after a \"?\" or \"#\".", "quantifier": "every pair of names of these parts", "why_tests_cant": "quantifies over all pairs of names", "anchors": ["ccnpy/flic/tree/TreeIO.py: get_link_name", "ccnpy/core/Name.py: as_uri"]}
{"id": "C60", "title": "A directory returns what was put into it, by hash", "statement": "After packets were put by a directory writer without nesting into an empty directory, the reader returns for a hash the last packet put with that hash, read back from its bytes, if it has no name or if the requested name is equal to its name as read back; another name raises ValueError, no name for a named packet AttributeError, and a hash of no packet FileNotFoundError. By its own name and hash a packet comes back unchanged if its name is held as bytes; if a component of the name is held in an array, it is refused with ValueError.", "quantifier": "every sequence of packets put, every request; for packets made by the constructors with whole-second times and without key links", "why_tests_cant": "quantifies over all sequences of packets and requests; the array case needs names made by the name schemas", "anchors": ["ccnpy/flic/tree/TreeIO.py: PacketDirectoryWriter.put, PacketDirectoryReader.get, DirectoryBase.to_path", "ccnpy/core/Packet.py: load, save"]}
{"id": "C61", "title": "A directory never answers a request by name only", "statement": "Asked for a name without a hash, the directory reader never returns a packet: without a link file it raises NotImplementedError, and directly after the named packet was put together with its link it raises NameError, although the link file then reads as a packet of that name with a link to the packet's name and hash.", "quantifier": "every directory content and every name", "why_tests_cant": "a test shows one directory; the claim is that no content helps", "anchors": ["ccnpy/flic/tree/TreeIO.py: PacketDirectoryReader._get_by_name, _get_by_link, PacketDirectoryWriter._write_link"]}
{"id": "C62", "title": "Counters and failures of the directory writer", "statement": "After any sequence of puts the writer's counters are: all bytes of all packets; and, for the packets that were the first with their hash, their number and bytes, manifests apart from others. Packets written with nesting are in files two directories down, named by the first and the second two digits of the hash, and are never found by the reader. A put that fails because the link's file name cannot be made leaves the packet's file and its bytes in the total, but does not count it by hash.", "quantifier": "every sequence of packets", "why_tests_cant": "unbounded sequences with repetitions", "anchors": ["ccnpy/flic/tree/TreeIO.py: PacketDirectoryWriter.put, PacketDirectoryReader.get, DirectoryBase.to_path"]}
{"id": "C63", "title": "The directory reader does not check hashes", "statement": "Whatever packet without a name is in the file named by a hash is returned for that hash. So if the data objects of a published file (hashed or prefix names, readable locators) are replaced in the directory by others with the same names, the traversal from the untouched signed root still succeeds and writes the replacements.", "quantifier": "every published file, every replacement", "why_tests_cant": "a security gap over all files and replacements; tests replace nothing", "anchors": ["ccnpy/flic/tree/TreeIO.py: PacketDirectoryReader.get", "ccnpy/flic/tree/Traversal.py: traverse, preorder"]}
{"id": "C64", "title": "A file published to a directory is read back from it", "statement": "With hashed or prefix names, readable locators, whole-second times and no key link, if the build returns, its packets are put to a directory without nesting and their hashes differ, then traversing from the root's name and hash through the directory reader returns exactly the file, visiting every packet once. Without links every put succeeds.", "quantifier": "every file, read schedule and options", "why_tests_cant": "unbounded files and trees", "anchors": ["ccnpy/flic/tree/TreeIO.py: PacketDirectoryWriter.put, PacketDirectoryReader.get", "ccnpy/flic/ManifestTree.py: build", "ccnpy/flic/tree/Traversal.py: traverse"]}
{"id": "C65", "title": "Segmented names are never read back from a directory", "statement": "With segmented names nothing published to a directory can be read back: the traversal raises ValueError at the first manifest below the root and writes nothing, because the name asked for ends in an array and the name read from the file in bytes.", "quantifier": "every file of any number of chunks, every option", "why_tests_cant": "the failure is for all files, also those that a memory store returns (C50)", "anchors": ["ccnpy/flic/tree/TreeIO.py: PacketDirectoryReader.get", "ccnpy/core/Name.py: NameComponent.__eq__", "ccnpy/flic/name_constructor/SegmentedSchemaImpl.py: get_name"]}
{"id": "C66", "title": "Container parsers accept exactly the documented sequences", "statement": "Each parser of a container (name, link, pointers, locators, content object, name constructor definition and its three schemas, node data, group data, hash group, node, key derivation data, AEAD data, wrapped key, security context, manifest) succeeds exactly when the value is a gap-free sequence of TLVs each of which parses, every singular member occurs at most once (the mandatory ones exactly once), no TLV has a type outside the known ones (where the parser does not skip unknown ones), and the object built is not too long; the result holds exactly the parsed members, lists in wire order. A manifest holds exactly one node; of several authentication tags the last one counts; no schema with protocol flags is ever accepted. A content object gives a manifest exactly when its payload type is Manifest and its payload parses as one. A packet is accepted exactly when its header is and a sequence of TLVs follows with exactly one content object, at most one validation algorithm and as many validation payloads, Interests only before the content object and the validation payload only after the algorithm.", "quantifier": "every byte string / TLV and every candidate result; both directions", "why_tests_cant": "the set of accepted inputs is infinite; tests only feed well-formed ones", "anchors": ["ccnpy/core/Link.py: Link.deserialize", "ccnpy/core/Name.py: Name.parse", "ccnpy/core/ContentObject.py: ContentObject.parse", "ccnpy/core/TlvType.py: auto_value_parse", "ccnpy/flic/tlvs/NcDef.py: parse", "ccnpy/flic/tlvs/NcSchema.py: parse", "ccnpy/flic/tlvs/NodeData.py: parse", "ccnpy/flic/tlvs/Node.py: parse", "ccnpy/flic/tlvs/Manifest.py: deserialize", "ccnpy/flic/tlvs/SecurityCtx.py: parse", "ccnpy/flic/tlvs/GroupData.py: parse", "ccnpy/flic/tlvs/HashGroup.py: parse"]}
{"id": "C67", "title": "What a validation section may contain", "statement": "A ValidationAlg TLV is accepted exactly when its value begins with a CRC32C TLV with an empty value or with an RSA-SHA256 TLV; whatever follows that TLV is ignored. The RSA section is accepted exactly when it holds at least one key id and no public key or key link; of several key ids or signature times the last one counts, other TLVs are skipped, and a missing signature time is replaced by the time of parsing.", "quantifier": "every TLV, every clock value; both directions", "why_tests_cant": "needs all inputs; the tests only parse sections the library wrote", "anchors": ["ccnpy/core/ValidationAlg.py: ValidationAlg.parse, ValidationAlg_Crc32c.parse, ValidationAlg_RsaSha256.parse"]}
{"id": "C68", "title": "Extending a TLV appends one member", "statement": "Tlv.extend keeps the type and appends the other TLV, complete with its header, to the members of the first one; it fails, with an OverflowError, exactly when the other type exceeds 16 bits or the new value is longer than 65535 bytes.", "quantifier": "every TLV with a 16-bit type whose value is a sequence of TLVs, every other TLV", "why_tests_cant": "lengths around the 65535 limit and all contents", "anchors": ["ccnpy/core/Tlv.py: Tlv.extend"]}
{"id": "C69", "title": "Least-waste trees", "statement": "For n data objects and p pointers per manifest, minimize_waste returns one result for every split of the p pointers into direct and indirect ones that leaves as few pointers unused as any split and any number of internal manifests can, and no other result, in order of fan-out. minimize_waste_min_height returns, of these, one of least height, and of those the one of smallest fan-out; it raises AssertionError exactly when all of them are 0xFFFFFFFF high or more. The latter happens for every file of 2^32 or more data objects with two pointers per manifest.", "quantifier": "every n from 1 and every p from 2, both below 2^52; every implementation of the floating-point logarithm", "why_tests_cant": "the optimum is over all splits and all numbers of manifests; the heights at which the function gives up cannot be reached in a test of reasonable size", "anchors": ["ccnpy/flic/tree/TreeOptimizer.py: minimize_waste, minimize_waste_min_height, calculate_waste", "ccnpy/flic/tree/OptimizerResult.py"]}
{"id": "C70", "title": "Seconds and milliseconds are correctly rounded", "statement": "The number of seconds that ExpiryTime and SignatureTime hold after parsing is the binary floating-point number with a 53-bit significand that is nearest to milliseconds/1000, and the one with the even significand of two nearest; from 2^53 milliseconds on it is rounded twice. milliseconds() is the correctly rounded product with 1000 without its fraction. There is only one correctly rounded number.", "quantifier": "every positive number of milliseconds below 2^53 (and, with the double rounding, above); every float", "why_tests_cant": "ties and rounding boundaries are rare among sampled values; the statement compares with all floating-point numbers", "anchors": ["ccnpy/core/ExpiryTime.py: parse", "ccnpy/core/SignatureTime.py: parse", "ccnpy/core/Timestamp.py: milliseconds"]}
{"id": "C71", "title": "Which name constructor contexts exist", "statement": "NameConstructorContext.create for the segmented schema succeeds exactly when a name is given and manifests and data get different prefixes (each defaulting to the name), and then gives the manifests the next id with ManifestId suffixes and the data the id after that with ChunkId suffixes; the two refusals are ValueErrors. For the prefix schema it gives one shared schema when the prefixes are the same and two otherwise, and refuses when only one side has a prefix. For the hashed schema it needs a name even if both locators are given, exactly one locator per side, and gives one shared schema when the locators are the same and two otherwise. A parsed name constructor definition can be used exactly when it has an id and a schema, with exactly one locator for the hashed schema and none for the others. In each case the definitions must fit their encoding. A definition without an id raises AttributeError, without a schema ValueError; locators where none are allowed ValueError, another number than one of them in a hash schema AssertionError.", "quantifier": "every combination of schema type, name, prefixes and locators, every next id; both directions", "why_tests_cant": "the combinations of missing and equal names, and names at the length limits", "anchors": ["ccnpy/flic/name_constructor/NameConstructorContext.py: create, _create_hashed, _create_named, _create_prefix, _create_segmented", "ccnpy/flic/name_constructor/SchemaImplFactory.py", "ccnpy/flic/name_constructor/HashSchemaImpl.py", "ccnpy/flic/name_constructor/PrefixSchemaImpl.py", "ccnpy/flic/name_constructor/SegmentedSchemaImpl.py"]}
{"id": "C72", "title": "What the AEAD cipher is given", "statement": "Encrypting a node calls the cipher with the configured key, an initialization vector that is the nonce shown in the security context, preceded by the four big-endian bytes of the configured salt if there is one, the node's value as plaintext and the serialized security context as associated data; the manifest gets the returned bytes split before the last 16. A node is decrypted only if the cipher opens ciphertext and tag under the same inputs formed from the receiver's salt, and the result is what the plaintext parses to. With a nonce of the length that the code draws the initialization vector has 96 bits; different nonces under one salt, and any nonces under different salts, give different initialization vectors. The constructor of the parameters accepts only salts in [0, 2^32).", "quantifier": "every key, salt, nonce, node and context; both encryption schemes", "why_tests_cant": "the salt byte order and its place in the vector cancel out in a round trip, so only a comparison with another implementation would show them", "anchors": ["ccnpy/flic/aeadctx/AeadImpl.py: _generate_nonce, _iv_from_nonce, encrypt, encrypt_with_security_ctx, decrypt_node", "ccnpy/flic/aeadctx/AeadParameters.py: __post_init__", "ccnpy/flic/RsaOaepCtx/RsaOaepImpl.py: encrypt, decrypt_node"]}
{"id": "C73", "title": "No nonce is used for two manifests of a tree", "statement": "In a build with encrypted manifests, whether it finishes or raises, the packets written are data objects followed by manifests, and the security context of the k-th manifest (counting from 0) holds the nonce of random draw k + 2; draws 0 and 1 go to the two sizing packets, which are not written. So if the draws differ, no two manifests of a tree share a nonce.", "quantifier": "every file, options, encryptor and outcome of the build", "why_tests_cant": "a reuse would need one particular control flow (a manifest built twice, a cached nonce) and a test would have to compare all manifests of a large tree", "anchors": ["ccnpy/flic/aeadctx/AeadImpl.py: encrypt", "ccnpy/flic/ManifestFactory.py: _encrypt", "ccnpy/flic/tree/TreeBuilder.py", "ccnpy/flic/tree/ManifestSizeCalculator.py: calculate_max_pointers", "ccnpy/flic/ManifestTree.py: build"]}
{"id": "C74", "title": "What the picture of a manifest tree shows", "statement": "After any sequence of add_manifest, add_data, pause, resume and draw calls on a ManifestGraph, an edge is drawn between two node names exactly if some manifest recorded while not paused, being the latest record of its hash, has the first name and points to a hash with the second; a node exists exactly for the names of such records and of their pointers; the plot reaches the layout exactly if every pointer's name is the name of a record, and raises KeyError otherwise. Node names tell hashes apart only by their first three bytes (the comment in the code says four), so different packets may be merged; the empty name has no label and raises AssertionError, and neither has a name ending in a number of more than 4300 digits (ValueError). The pointers of a manifest are those of its hash groups in order; a group without pointers raises TypeError.", "quantifier": "every sequence of calls, every hash, node and name", "why_tests_cant": "the outcome depends on the order of calls and on collisions of truncated hashes; the only caller draws to the screen", "anchors": ["ccnpy/flic/tree/ManifestGraph.py: add_manifest, add_data, _create_graph, plot, _hash_to_name, _label_from_name"]}
{"id": "C75", "title": "What the manifest factory makes of its arguments", "statement": "A packet returned by build_packet carries the given name and expiry time and a manifest of at most max_packet_size bytes, whose node is the one the arguments describe: for a Node that node; for hash groups those groups with a NodeData exactly if a shown size or constructor definitions are given; for pointers one group with a GroupData exactly if an id or a shown size is given (a size is shown only if the option says so). With an encryptor it is the encryption of that node under the next nonce. The packet is signed exactly if a signer is passed, but by the signer of the options, whichever is passed; without one there no packet is made. Other sources raise TypeError, and larger manifests ValueError if they can be displayed (the message displays them) and otherwise what displaying them raises; for a node the size and group arguments, for hash groups the group arguments are ignored. The counters count exactly the packets returned. With an unpaused graph the packet is returned only together with its record there, so that an empty name raises. The three calls in the tree builder are instances.", "quantifier": "every source, arguments, options and state; every sequence of calls for the counters", "why_tests_cant": "there are five kinds of sources and ten optional arguments, each of which may be absent, and the interplay with the options is not visible in the trees that the builder makes", "anchors": ["ccnpy/flic/ManifestFactory.py: build_packet, _build, _build_from_pointers, _build_node_from_hashgroups, _build_from_node, _encrypt", "ccnpy/flic/ManifestTree.py: _create_root_manifest", "ccnpy/flic/tree/TreeBuilder.py: _build_packet"]}
{"id": "C76", "title": "The RSA-OAEP decryptor: what unwraps, what is filed, and the cache", "statement": "A wrapped key is accepted exactly if the RSA key has its private part and the ciphertext opens, under the label of the context, to a four-byte big-endian salt followed by at least 16 bytes; these bytes are the content key. A context whose key number is not in the keystore is served exactly if its wrapper has a wrapped key for a private RSA key of the keystore that opens so, with a content key of 16, 24 or 32 bytes and a GCM or CCM mode; then the key, its salt, its family, number and KDF data are filed in the keystore, and nothing else changes there. The cache of the decryptor cannot be observed: any sequence of manifests is decrypted as by a decryptor that looks in the keystore each time. A key once filed under a number is never replaced by a later manifest.", "quantifier": "every RSA key, ciphertext, context, keystore and every sequence of manifests, for any cryptographic primitives", "why_tests_cant": "whether a stale or wrongly keyed cache entry can be seen depends on the order of all manifests seen before; the unwrapping tests use one 128-bit key and one salt", "anchors": ["ccnpy/flic/RsaOaepCtx/RsaOaepImpl.py", "ccnpy/flic/RsaOaepCtx/RsaOaepDecryptor.py", "ccnpy/crypto/RsaKey.py: decrypt_oaep_sha256", "ccnpy/crypto/InsecureKeystore.py:50-60"]}
{"id": "C77", "title": "Which packets can be displayed", "statement": "Formatting a manifest succeeds exactly if every name in its links is readable (each name segment is held in bytes and is valid UTF-8, each chunk or manifest id has at most 4300 decimal digits), its AEAD mode is one of the four known ones, every hash group has pointers, and its numbers (key number, algorithms, sizes, ids) have at most 4300 digits: Python refuses to write longer ones. Formatting a content object succeeds exactly if its name is readable, its expiry time is before the year 2147485548 (later times raise OSError or OverflowError), its final chunk id has at most 4300 digits, and it is a manifest whose payload can be formatted or fails to parse with ParseError, or a link whose payload parses and has a readable name, or any other payload (present, in the brief form). A packet can be formatted exactly if its body can, and the key link of its RSA signature has a readable name and the time of the signature is before that year. In particular every packet of plain data with an ASCII name, without expiry time and final chunk id, can.", "quantifier": "every manifest, content object and packet, both display forms", "why_tests_cant": "a __repr__ that raises is only met for names with unusual bytes or objects with optional fields missing; tests print a handful of well-formed objects", "anchors": ["ccnpy/core/Name.py: __repr__", "ccnpy/core/ContentObject.py: __repr__", "ccnpy/core/Packet.py: __repr__", "ccnpy/flic/tlvs/Manifest.py: __repr__", "ccnpy/flic/tlvs/AeadMode.py"]}
{"id": "C78", "title": "Validation in the packet reader program", "statement": "The program reports nothing for a packet without validation algorithm; for an RSA signature by a key that the keystore does not hold it prints a notice and carries on, where the validator of the library raises; in all other cases it agrees with the validator of the library and prints a line exactly if the packet is valid. So it returns exactly for packets that are unsigned, valid or of an unknown signer. The KeyError it is prepared for is never raised.", "quantifier": "every packet, keystore and state of the program, for any cryptographic primitives", "why_tests_cant": "the tests exercise one signed packet with the key at hand; that an exception handler is dead cannot be tested", "anchors": ["ccnpy/apps/packet_utils.py: validate_packet", "ccnpy/apps/packet_reader.py: read", "ccnpy/core/PacketValidator.py"]}
{"id": "C79", "title": "Decryption and output of the packet reader program", "statement": "The program returns a decrypted manifest exactly if the library's traversal would obtain that manifest, files the same keys, and otherwise reports: None with a notice for a manifest without context and for a failed authentication, AttributeError for an AES key number that is not in the keystore, after a notice (ValueError without one if the number has more than 4300 digits). The packet is printed first. A decrypted manifest is printed exactly if the packet could be displayed, is unsigned, valid or of an unknown signer, and holds an encrypted manifest that decrypts to it and can be displayed; in particular manifests of unknown signers are decrypted and shown.", "quantifier": "every packet, keystore and display mode, for any cryptographic primitives", "why_tests_cant": "the difference between the program and the library shows only for missing keys and foreign signers in combination with encryption", "anchors": ["ccnpy/apps/packet_utils.py: decrypt_manifest", "ccnpy/apps/packet_reader.py: read", "ccnpy/flic/tree/DecryptorCache.py"]}
{"id": "C80", "title": "Which exceptions the codec raises", "statement": "Whatever bytes they are given, the decoders of packets, manifests, headers, links, hash values, AEAD data and RSA-OAEP wrappers return or raise one of ParseError, CannotParseError, RuntimeError, ValueError, TypeError, AssertionError, OverflowError, struct.error; decoding a TLV raises only ParseError. The encoders raise only these too. The exceptions that some byte string makes the packet decoder raise are exactly ParseError, RuntimeError, ValueError, TypeError, AssertionError and OverflowError. The `except KeyError` around the loop body of `auto_value_parse` never catches an error of an inner parser, and no list of classes has two of the same TLV type, so the loop skips exactly the elements of unknown type.", "quantifier": "every byte string and every object", "why_tests_cant": "fuzzing samples the inputs; absence of AttributeError, KeyError or IndexError for all byte strings cannot be tested", "anchors": ["ccnpy/core/Packet.py: deserialize", "ccnpy/core/Tlv.py: deserialize", "ccnpy/core/TlvType.py: auto_parse", "ccnpy/flic/tlvs/Manifest.py: deserialize"]}
{"id": "C81", "title": "Hexadecimal arguments", "statement": "The texts accepted as keys on the command line are exactly the hexadecimal ones (pairs of digits of either case, white space between pairs), with or without a leading 0x, and mean those bytes; every other text raises ValueError; what bytes.hex() prints is read back. A KDF info text with leading 0x is read as hexadecimal, any other stands for its UTF-8 encoding, and at most 65535 bytes are accepted.", "quantifier": "every text", "why_tests_cant": "the number of texts is infinite and the interesting ones mix prefixes, case, white space and odd lengths", "anchors": ["ccnpy/apps/cli_utils.py: _str_to_array", "ccnpy/flic/tlvs/KdfInfo.py"]}
{"id": "C82", "title": "Arguments that go together: what the writer program writes can be read", "statement": "If the reader's arguments repeat the writer's content key, mode, key number and salt, and name key files with the same RSA keys (private for unwrapping a new content key), then the keystore the reader's program makes can verify and decrypt everything signed and encrypted with the options the writer's program makes; and a file the writer writes with a Hashed or Prefix schema into a flat directory is returned whole by a traversal with that keystore.", "quantifier": "all arguments of both programs within the fields' ranges, every input file, any cryptographic primitives that satisfy their round trip laws", "why_tests_cant": "the options combine three schemas, two modes, four key arrangements, optional salts, numbers and KDF data; tests run the programs on one combination", "anchors": ["ccnpy/apps/cli_utils.py", "ccnpy/apps/manifest_writer.py", "ccnpy/flic/ManifestTree.py", "ccnpy/flic/tree/Traversal.py"]}
{"id": "C83", "title": "The manifest reader program never reads anything", "statement": "For every directory, keystore, name and hash argument the manifest reader program raises before any output: without a hash the directory reader never answers, and with one the text of the argument is used where a hash value is needed.", "quantifier": "every directory, keystore, URI and hash text", "why_tests_cant": "a test shows one failing call; that no arguments exist for which it works is a statement about all of them", "anchors": ["ccnpy/apps/manifest_reader.py: read", "ccnpy/flic/tree/TreeIO.py: PacketDirectoryReader"]}
{"id": "C84", "title": "What the writer program makes of its arguments", "statement": "With a schema among the choices, the options have that schema, both prefixes if it is Segmented and none otherwise. Packet size, degree, name, prefixes, locators (one per URI), expiry times, signer and encryptor are exactly those of the arguments; with a KDF the UUID replaces the info; subtree sizes are always on. Without a key number the writer uses the hash of the key: if negative no options are made, otherwise it is the key number, and a reader that is given the key but no number makes no keystore. Wrapping a given content key without salt never succeeds.", "quantifier": "all arguments", "why_tests_cant": "the default key number changes from process to process; invalid combinations are too many to enumerate", "anchors": ["ccnpy/apps/manifest_writer.py", "ccnpy/apps/cli_utils.py: aead_parameters_from_cli, create_keystore"]}
{"id": "C85", "title": "Trees with unreadable locators can be written but not read", "statement": "Traversal prints every name constructor definition it adopts. So with hashed names, for every file for which the build returns, if a name segment of a locator (or of the root's name, which becomes a locator when none is given) is not valid UTF-8 then traversing from the root raises ValueError after visiting one packet and writes nothing, although the tree was written without error. With hashed or prefix names and a memory store, the file is returned exactly if the locators are readable.", "quantifier": "every file, schedule, options with such names", "why_tests_cant": "needs names with bytes that are not UTF-8, which the tests do not use, and an argument that nothing but the printing can fail", "anchors": ["ccnpy/flic/tree/Traversal.py: NameConstructorCache.update, preorder", "ccnpy/core/Name.py: __repr__", "ccnpy/flic/ManifestTree.py: _create_root_manifest"]}
{"id": "C86", "title": "What a traversal writes when packets are missing", "statement": "With hashed or prefix names, for every file for which the build returns there is a fixed order of its packets, the root first and the data objects in the order of the file, such that for every choice of packets that a store lacks the traversal visits the packets of this order up to the first that is missing, has then written the payloads of the data objects among them, and raises what the store raises (KeyError from memory, FileNotFoundError from a directory); it returns exactly if no packet is missing. So what was written is always a beginning of the file, and if only data objects are missing it is everything before the first missing one.", "quantifier": "every file, schedule of reads, options with hashed or prefix names, and every subset of the packets", "why_tests_cant": "the number of subsets is exponential in the number of packets, and the shape of the tree depends on the file", "anchors": ["ccnpy/flic/tree/Traversal.py: preorder, _visit_children, _fetch_packet", "ccnpy/flic/tree/TreeIO.py: PacketMemoryReader.get, PacketDirectoryReader.get", "ccnpy/flic/ManifestTree.py: build"]}
{"id": "C87", "title": "What Python == between protocol objects decides", "statement": "Two packets (and two content objects) that were built are equal exactly when headers, body fields, bytes of the validation algorithm and validation payload agree; equal packets have the same bytes and hash, == is reflexive and symmetric, exceptions included. The converse fails in exactly two ways: packets with the same bytes may hold different floats as expiry time, or name components in different kinds of buffers; so a packet read back from its bytes equals the original exactly if no name component is an array. The comparison raises AttributeError exactly when the first difference is a name, payload type or expiry time that only one has, or a CRC32C where the other has no validation. Links and pointers also compare how far they were iterated over, so a link used in a key link differs from a fresh one with the same fields. Nodes and node data are equal exactly when their TLVs are the same and their locators are held alike, and raise exactly when node data or, after equal sizes and digests, locators are on one side only. A padded node never equals what is read from it.", "quantifier": "every pair of objects that can be built (integers below 2^64 where the statement compares fields through the wire)", "why_tests_cant": "a pair of objects per combination of present and absent fields; the differences that do not show in the bytes are invisible to round trip tests on bytes", "anchors": ["ccnpy/core/Packet.py: __eq__", "ccnpy/core/ContentObject.py: __eq__", "ccnpy/core/Name.py: __eq__", "ccnpy/core/Link.py: __eq__, __iter__", "ccnpy/core/Timestamp.py: __eq__", "ccnpy/core/ValidationAlg.py: __eq__", "ccnpy/flic/tlvs/Node.py: __eq__", "ccnpy/flic/tlvs/NodeData.py: __eq__", "ccnpy/flic/tlvs/Pointers.py: __eq__", "ccnpy/flic/tlvs/NcSchema.py: __eq__", "ccnpy/flic/tree/TreeIO.py: PacketMemoryWriter.__eq__"]}
{"id": "C88", "title": "The hash of the root binds the content (integrity of memory readers)", "statement": "If one traversal from a hash returns, every other traversal from that hash, with whatever reader that answers by hash only with packets of that hash, writes the same or a beginning of it, and if it returns it has written the same, unless SHA-256 collides between packets of the two readers. So from a memory store or reader of arbitrary packets nothing but the published file is ever written, in order and from its start, and if the traversal returns it was written whole; and two publications whose roots have the same hash are of the same file, cut into the same chunks, whatever options, times and nonces they had.", "quantifier": "every tree, every pair of readers, every set of packets in a memory store, every recursion limit, every name the root is asked for by; every two publications with hashed or prefix names", "why_tests_cant": "an attacker may fill the store with any packets; tests try none", "anchors": ["ccnpy/flic/tree/Traversal.py: traverse, preorder, _visit_children, _fetch_packet", "ccnpy/flic/tree/TreeIO.py: PacketMemoryReader.get", "ccnpy/core/Packet.py: content_object_hash"]}
{"id": "C89", "title": "The wire format, byte for byte", "statement": "Whatever a serializer of the package returns is the byte string of the documented format: two bytes of type, two bytes of length, the value, big endian, with the type numbers of TlvNumbers.py and of the core classes written as literals, the optional parts left out when absent, and the parts always in the same order. This covers names, hashes, links, content objects, validation sections, the fixed header with the true packet length, packets made by the constructors (signed or not), and the whole of FLIC: security contexts, key derivation data, wrapped keys, nodes with padding, node data, locators, name constructors, vendor fields, hash groups, group data, pointers, encrypted nodes and tags. Data, link and manifest objects carry payload types 0, 2 and 3, hashes are marked as SHA-256 with 1, and the four AEAD modes have numbers 1 to 4. What is encrypted when a content key is wrapped is the salt as four big-endian bytes followed by the key, and the label of the encryption is the serialized fields of the security context in the documented order.", "quantifier": "every object of every kind that can be serialized", "why_tests_cant": "tests compare some encodings with literals, and round trips cannot see a number that is wrong on both sides", "anchors": ["ccnpy/flic/tlvs/TlvNumbers.py", "ccnpy/core/Tlv.py: serialize, number_to_array", "ccnpy/core/FixedHeader.py", "ccnpy/core/Packet.py", "ccnpy/core/ContentObject.py", "ccnpy/core/Link.py", "ccnpy/flic/tlvs/Node.py", "ccnpy/flic/tlvs/Manifest.py", "ccnpy/flic/tlvs/AeadMode.py"]}
{"id": "C90", "title": "How deep the calls of a traversal nest", "statement": "The traversal recurses: preorder calls _visit_children, which calls preorder, and NodeIterator.__next__ calls itself once for every exhausted or empty group. With room for so many nested calls of these three and no more, the traversal does what it does without a limit, or raises. Exactly so much room is needed: one call for a data object, and for a manifest two plus the larger of what its objects need and one more than the longest series made of a group and the empty groups after it; with less the error is RecursionError (if the manifests can be printed). So every file that can be published with hashed or prefix names and three or more pointers per manifest is returned in 55 nested calls. With two pointers per manifest (max_tree_degree 2, or small packets) the tree is a chain: a file of n chunks is written but cannot be traversed in less than 2n+2 nested calls, so with Python's limit of 1000 no such file of 500 or more chunks is returned. And a manifest of k empty groups, k up to 8188, fits one packet of 8k+25 bytes and holds no pointer, but its traversal needs k+3 nested calls.", "quantifier": "every reader, store, key store, root, set of published objects and limit; for the published files every input, read schedule and set of options with hashed or prefix names", "why_tests_cant": "tests traverse shallow trees; the limit shows only with hundreds of chunks in a chain or with hand-made manifests", "anchors": ["ccnpy/flic/tree/Traversal.py: preorder, _visit_children", "ccnpy/flic/tlvs/Node.py: NodeIterator.__next__", "ccnpy/flic/tree/TreeOptimizer.py", "ccnpy/flic/tree/TreeBuilder.py"]}
{"id": "C91", "title": "What was visited is visited again", "statement": "A traversal remembers nothing of what it visited except decryption keys. For every payload that fits one packet, every m up to 1818 and every k there are k+1 packets of 36m+76 bytes each (the lowest has 21 bytes more than the payload) such that a traversal from the top one, with any reader that finds the packets by their hashes, visits 1+m+...+m^k objects, writes the payload m^k times and returns, nesting no deeper than k+1 packets. With two pointers per manifest the number of visited objects doubles with every packet of 148 bytes; so no bound on the depth, and none on the packets read, bounds the output.", "quantifier": "every hash function with 32-byte results, every payload, every m up to 1818 and every k, every key store and every reader that has the packets", "why_tests_cant": "the growth is exponential: no test can run the traversals the statement speaks about, and tests use trees in which each object has one parent", "anchors": ["ccnpy/flic/tree/Traversal.py: traverse, preorder, _visit_children", "ccnpy/flic/tlvs/Node.py: NodeIterator", "ccnpy/flic/tlvs/Pointers.py"]}
{"id": "C92", "title": "What the manifest reader prints", "statement": "Without --output the payload of every data object is decoded from UTF-8 on its own and what cannot be decoded is dropped. So whatever the pieces in which a text arrives, the characters printed are exactly those that lie in one piece, in order; the text is printed completely exactly if no piece ends inside a character, so always if it is ASCII. For every text file published with hashed or prefix names, what is printed are the characters that do not lie across a multiple of the payload size.", "quantifier": "every text, every division of its encoding into pieces; for published files every set of options with hashed or prefix names", "why_tests_cant": "the tests print ASCII; whether a character is lost depends on where the multiples of the payload size fall in the encoding", "anchors": ["ccnpy/apps/manifest_reader.py: StdOutWrapper, _create_writer", "ccnpy/flic/tree/Traversal.py: preorder"]}
{"id": "C93", "title": "Objects that are their own iterators", "statement": "TLVs, hash values, timestamps, links and pointers are their own iterators. A loop over one sees all its items in order, every time. A loop nested in a loop over the same object ends the outer one: only pairs with the first item are seen. If the inner loop breaks, the outer one never ends with two items or more. Asking for the next item before any loop raises AttributeError. Collecting the hash values of pointers makes them unequal to the same pointers not yet read. File metadata and file chunks are gone through backwards, with an iterator of their own each time, so nested loops see all pairs.", "quantifier": "every object, every number of items, every loop body that keeps a state, every number of rounds for the loop that does not end", "why_tests_cant": "the tests loop over each object once; the state left behind shows only in nested loops and in comparisons", "anchors": ["ccnpy/core/Tlv.py: __iter__, __next__", "ccnpy/core/HashValue.py", "ccnpy/core/Timestamp.py", "ccnpy/core/Link.py", "ccnpy/flic/tlvs/Pointers.py", "ccnpy/flic/name_constructor/FileMetadata.py", "ccnpy/flic/tree/FileChunks.py"]}
{"id": "C94", "title": "Traversing with a graph and without a data writer", "statement": "Building a graph does not change a traversal that returns: it counts, writes and decrypts as without. Conversely it returns, if every packet is nameless or has a name, not empty, that ends in a chunk or manifest number or whose segments are UTF-8 (numbers of at most 4300 digits); a data object with another name makes it raise before its payload is written. Afterwards the graph holds a record about each object visited, and its edges are the pointers of the manifests visited; if the reader gives only packets that have the hash asked for, the picture can be plotted. Without a data writer nothing is written and all else is the same, except that a data object without payload is passed over instead of raising AttributeError. Every published file (not Segmented) with such names is so returned and drawn.", "quantifier": "every reader, keystore, library function, rendering of name components, recursion limit and starting state; every tree of packets", "why_tests_cant": "a few tests traverse small trees with a graph and compare the data, none looks at the graph or leaves out the writer; the claim is about all trees and names", "anchors": ["ccnpy/flic/tree/Traversal.py: preorder, _write_data, get_graph", "ccnpy/flic/tree/ManifestGraph.py: add_manifest, add_data, _label_from_name, plot"]}
{"id": "C95", "title": "One packet, many encodings: hash and signature are those of the re-encoding", "statement": "The hash of a received packet and the bytes its signature or checksum is verified against are computed from the parsed packet, not from the received bytes. A received packet may be changed in any of these ways, any number of times: another header (any packet type, any packet length of at least 8, other flag bytes, hop-by-hop headers), Interest TLVs in front, the sections in another order (payload of the validation after its algorithm, Interests before the content object), the members of the content object in any order, zeros in front of payload type, expiry time, final chunk id or signature time, any bytes after the first TLV of the validation algorithm, unknown TLVs anywhere in the RSA section, bytes behind the hash of the key id, and further key ids before the last one. It is then accepted with the same fields, the same hash under every hash function, and the same validation verdict under every keystore; so each packet has infinitely many accepted encodings. Conversely two received packets with the same hash input agree in all fields (times and final chunk ids exact). An RSA section without signature time gets the time of reading: the same bytes read at different milliseconds have different hash inputs.", "quantifier": "all byte strings, all lists of TLVs, all clocks, hash functions, keystores and cryptographic primitives", "why_tests_cant": "tests parse what the library itself has written, which is always the one normal encoding", "anchors": ["ccnpy/core/Packet.py: deserialize, content_object_hash", "ccnpy/core/PacketValidator.py", "ccnpy/core/ValidationAlg.py: parse", "ccnpy/core/ContentObject.py: parse"]}
{"id": "C96", "title": "Packets sent over a socket can be told apart again", "statement": "After any sequence of put and close calls a PacketNetworkWriter has sent exactly the encodings of the packets put before the first close, in order (a put after close raises AttributeError; otherwise put raises just what encoding the packet raises, and then sends nothing). The stream carries no framing of its own: cutting it by the length fields of the fixed headers gives back the encodings exactly if every header tells the true length, which holds for every packet made by the package, not for every packet it has parsed. A stream can be cut in at most one way, and what is cut from the part received so far are the first packets of the whole. The package's own parser does not stop at the end of a packet: given a packet followed by another one it always raises. The packets of a published tree (hashed or prefix names), sent this way, cut and parsed, are the packets of the tree, and a memory reader made of them returns the file. With segmented names the packets parsed differ from those sent in that names are held as bytes, so the traversal from a memory reader made of them always raises ValueError and writes nothing.", "quantifier": "all sequences of calls, all packets, all byte streams and prefixes of them, all files, options and read schedules", "why_tests_cant": "no test opens a socket; the writer is only used by hand against a forwarder on port 9896", "anchors": ["ccnpy/flic/tree/TreeIO.py: PacketNetworkWriter.put, close", "ccnpy/core/Packet.py: serialize, deserialize", "ccnpy/core/FixedHeader.py"]}
{"id": "C97", "title": "Number of manifests promised and written", "statement": "For at least two chunks the total number of manifests the optimizer computes for a split into direct and indirect pointers is the least possible: some tree with that fan-out holds the chunks in exactly that many manifests, and none in fewer. The tree builder writes at least that many and at most one more for every level above the lowest (twenty chunks with four pointers per manifest: seven promised, eight written). All subtrees it makes are full except those on one path, so of the pointers of the manifests written at most indirect-1 per level above the lowest and direct+indirect-1 in one leaf are unused. A published file is the data objects, those manifests and the root manifest, nothing else; with p pointers per manifest and n chunks the number M of manifests satisfies n-1 <= M(p-1) <= n-1+(levels)(p-1).", "quantifier": "all chunk counts, splits, tree options, files and read schedules", "why_tests_cant": "the tests build a few trees of up to some tens of chunks and compare none with total_nodes", "anchors": ["ccnpy/flic/tree/OptimizerResult.py: total_nodes", "ccnpy/flic/tree/TreeBuilder.py: build, _bottom_up_preorder, _interior_manifest", "ccnpy/flic/ManifestTree.py: build"]}
{"id": "C98", "title": "Many files in one store or one directory", "statement": "Whatever a traversal writes with one reader, it writes with every reader that returns at least the same packets. So a file that can be read from a memory store with its own packets is read in the same way from every store that holds these among any other packets, put in any order. A packet that a (not nested) directory writer has put stays in the directory under its hash, with its bytes, through whatever that writer puts before and after it and whatever later writers (nested or not, with links or without, successful or not) put. So a file with hashed or prefix names that was published into a directory in which other things were before, to which other things came with it and later, is read back from it. Only a packet put with it or later which has the hash of one of its packets could prevent this.", "quantifier": "all files, tree options, read schedules, stores and sequences of writers", "why_tests_cant": "the tests use one fresh buffer or temporary directory per file", "anchors": ["ccnpy/flic/tree/TreeIO.py: PacketDirectoryWriter.put, PacketMemoryWriter.put", "ccnpy/flic/tree/Traversal.py: traverse, preorder", "ccnpy/apps/manifest_writer.py: run"]}
{"id": "C99", "title": "One Traversal object for several files", "statement": "One Traversal object reads any number of files one after the other, with whatever names, sizes and signers, if those that are encrypted use keys of its keystore or if all that are encrypted are encrypted in one same way: it writes all of them in the order asked and counts the packets of all. A file that is not encrypted is read by a Traversal in whatever state it was left, say after a failed traversal. In general it is false: DecryptorCache remembers one decryptor by the key number alone, so of two files, one encrypted with a key of the keystore and one with a wrapped key of the same number, each can be read by a fresh Traversal, but one that has read the first raises TypeError on the second and one that has read the second raises AttributeError on the first, having written the file before in full and nothing more.", "quantifier": "all lists of files, options, keystores and readers", "why_tests_cant": "the tests make one Traversal per file", "anchors": ["ccnpy/flic/tree/Traversal.py: traverse, preorder", "ccnpy/flic/tree/DecryptorCache.py:38-54", "ccnpy/flic/aeadctx/AeadDecryptor.py: decrypt_manifest", "ccnpy/flic/RsaOaepCtx/RsaOaepDecryptor.py: decrypt_manifest"]}
{"id": "C100", "title": "The writer program, from its arguments to the directory or the socket", "statement": "However a run of manifest_writer into a directory ends, it has put an initial part of the packets of the build (all of them, if it returned), each in the file named by its hash, with links for those with a name if --link was given; every manifest it has put points only to packets that are in the directory; every other file is as it was. Without --link it returns a packet exactly if the directory and the file exist, options are made of the arguments, and the build returns that packet; what is in the directory does not matter. With --link it returns exactly if it would without and, for every named packet of the build, a link can be made and encoded; without a key file that is so exactly if the components of every name take at most 32725 bytes. After a run with --link that returned, the link file of the root's name leads to the root. A file written with the Hashed or Prefix schema is read back by a traversal with the keystore that the reader's arguments give, also after later writers, unless hashes collide. With -T the bytes sent are, however the run ends, the whole encodings of an initial part of the packets of the build, all if it returned; the socket is closed exactly if the prefixes go with the schema.", "quantifier": "all arguments, key files, files, read schedules, directories and later sessions of writers", "why_tests_cant": "the tests of the program run it once, in a fresh directory, on one file; the ways in which it can fail and what is left behind are unboundedly many", "anchors": ["ccnpy/apps/manifest_writer.py:38-46,94-106,152-176", "ccnpy/flic/tree/TreeIO.py:179-217,282-294", "ccnpy/flic/ManifestTree.py:48-76"]}
{"id": "C101", "title": "What the packet reader and the manifest reader do with what the writer program has written", "statement": "After a run of manifest_writer (any schema) into a directory, and any later writers, packet_reader, run with arguments that go with the writer's on the file named by the hash of any packet of the build, shows the packet as it was built (with the Segmented schema: its name held as bytes), says that it is verified if it is signed, and shows an encrypted manifest decrypted; only a manifest that is not the root, of a file whose content key was wrapped with RSA-OAEP and is not given to the reader, cannot be opened, and the program ends with ValueError. manifest_reader raises whatever its arguments and the directory are; the file of its --output is empty afterwards if the keys, the name and the directory are all right, whatever was in it, and otherwise as it was.", "quantifier": "all arguments, key files, files, read schedules, directories, later sessions of writers, and previous contents of the output file", "why_tests_cant": "the tests never run the two reading programs on what the writing program has written, and there are unboundedly many trees, keys and directories", "anchors": ["ccnpy/apps/packet_reader.py:30-41,50-87", "ccnpy/apps/manifest_reader.py:66-78,91-110,114-148", "ccnpy/apps/cli_utils.py:122-125"]}
{"id": "C102", "title": "Publishing a file again", "statement": "The data packets of a build depend only on the file, on how it was read, on the names, the schema, the expiry time of data and the packet size; not on keys, signer, tree shape, the time or what was published before. The manifests do depend on what was published before: the root carries the number of a name constructor, which is a counter of the process, so two builds with different counters never have the same root (the hashed bytes differ), encrypted with the same parameters or not; and if the second build comes after the name constructors of the first were numbered, with the Hashed or Prefix schemas, no manifest of one is a manifest of the other. So publishing the same file again in the same process gives the same data packets under new manifests.", "quantifier": "all files, read schedules, options, keys and counters", "why_tests_cant": "tests that compare packets start each time from a fresh counter or look at one build only", "anchors": ["ccnpy/flic/name_constructor/SchemaImplFactory.py:38-49", "ccnpy/flic/name_constructor/SchemaImpl.py:88-161", "ccnpy/flic/ManifestTree.py:48-90", "ccnpy/flic/name_constructor/NameConstructorContext.py:41-121"]}
{"id": "C103", "title": "One counter for the life of a schema object", "statement": "Whatever a program asks of one schema object (chunk_data for any files, get_next_name, in any order, carrying on after exceptions), the chunk numbers in the metadata of all files increase strictly and stay at most 0xFFFFFF, so the object chunks at most 2^24 pieces in its life, whatever the schema; with a segmented schema no two data packets ever written have the same name, not even when calls raise on the way. get_next_name takes a number each time, gives no name with a hash schema and always the same with a prefix schema, and always raises TypeError with a segmented schema. When the numbers are used up no call writes anything more. The final chunk id is final only within one call: after a second file, the same prefix has packets with later numbers.", "quantifier": "all sequences of calls, all file contents and read schedules, all schemas and options", "why_tests_cant": "the property is about every history of calls, of any length, with failures anywhere in it", "anchors": ["ccnpy/flic/name_constructor/SchemaImpl.py:46-57", "ccnpy/flic/name_constructor/SchemaImpl.py:88-124", "ccnpy/flic/name_constructor/SegmentedSchemaImpl.py:49-53"]}
{"id": "C104", "title": "What the parsing loops copy", "statement": "Every loop that reads the elements of a value copies the rest of the value once per element. Whatever is parsed, with whatever outcome, it copies at most n(n+8)/8 bytes for a value of n bytes, and at most n(n+4)/8 when the value is accepted; this is reached exactly by values of empty elements. Such values are accepted: for every k up to 16379 there is a packet of 4k+16 bytes that the package makes, writes and reads back unchanged, and reading its name copies 2k(k+1) bytes, more than half a gigabyte for the largest.", "quantifier": "all buffers, all loop bodies, all k", "why_tests_cant": "a test measures some inputs; the bound is about all of them, and the worst ones are unusual", "anchors": ["ccnpy/core/TlvType.py:92-116", "ccnpy/core/Name.py:165-188", "ccnpy/flic/tlvs/Node.py:173-202"]}
{"id": "C105", "title": "Encryption covers the manifests, not the file", "statement": "However the manifests of a file are encrypted, its data objects are not: somebody without any key who listens to the connection of the network writer, cuts the stream by the length fields, decodes the packets and puts the payloads of the data objects one after another has the file. With segmented names it is enough to collect the packets, in any order: the chunk numbers in the names put the payloads in their places.", "quantifier": "all files, read schedules, options with names held in bytes and times in whole seconds, all encryption parameters, all orders of the packets", "why_tests_cant": "a statement about all ways to publish; tests of encryption check that a reader with the key succeeds", "anchors": ["ccnpy/flic/name_constructor/SchemaImpl.py:152-161", "ccnpy/flic/ManifestFactory.py:232-242", "ccnpy/flic/tree/TreeIO.py: PacketNetworkWriter"]}
{"id": "C106", "title": "The shape of the traffic depends on the length of the file only", "statement": "Two files of the same length, delivered in the same portions and written with the same options, give the same traffic up to the bytes of payloads and signatures: the same number of packets in the same order, with the same fixed headers, names, payload types, expiry times, final chunk ids, validation algorithms and lengths, or the same exception after the same packets, also when the nonces differ. In the other direction the length of the file can be read off the traffic of a successful build; so of two successful builds the traffic is the same exactly when the files have the same length.", "quantifier": "all pairs of files, all read schedules, options, nonces and primitives whose result lengths depend on argument lengths only", "why_tests_cant": "a relation between two runs (non-interference) for all pairs of inputs; a test compares finitely many pairs", "anchors": ["ccnpy/flic/ManifestTree.py:48-130", "ccnpy/flic/name_constructor/SchemaImpl.py:88-161", "ccnpy/flic/tree/TreeBuilder.py:233-454", "ccnpy/flic/ManifestFactory.py:65-242", "ccnpy/flic/aeadctx/AeadImpl.py:118-162"]}
{"id": "C107", "title": "Reading from the top manifest with the exported schemas", "statement": "NameConstructorContext.export_schemas gives exactly the dictionary that results from the writer's own name constructor definitions, and a traversal depends on that dictionary through the names it gives only. For every successful build, with any schema, Traversal.preorder started at the packet before the root with the exported schemas writes the file, in order, visiting every packet but the root once; this also holds for segmented names where reading from the root is refused (C50) and for locators that cannot be printed (C85). Without schemas it raises KeyError at the first pointer and writes nothing. If the content key is wrapped and the reader does not have it under its number, starting at the top raises ValueError, because only the root carries the wrapped key.", "quantifier": "all files, read schedules, options, keys, depths (with room for the packets), readers and dictionaries", "why_tests_cant": "the tests start at the top manifest for a few trees with fixed names; the claim is about every tree, schema and encryption", "anchors": ["ccnpy/flic/name_constructor/NameConstructorContext.py:35-39", "ccnpy/flic/name_constructor/NameConstructorContext.py:123-128", "ccnpy/flic/tree/Traversal.py:40-54", "ccnpy/flic/tree/Traversal.py:93-174", "ccnpy/flic/tree/Traversal.py:195-215"]}
{"id": "C108", "title": "Who can read a published file: all or nothing", "statement": "For every successful build whose encryptor is one that the constructors make, and cryptography in which nothing made with one key is accepted with another: with hashed or prefix names a reader that has all packets reads the whole file just when its keystore can verify the root's signature (no keystore, or the signer's public key for an RSA signature) and has what decrypts the root (the AES key and salt under that number, or, for a wrapped content key and no AES key of that number, the RSA private key). With any names, every other reader gets an exception at the root at the latest and not one byte of the file, whatever packets it is given; so with hashed or prefix names a reader that has all packets ends with the whole file or with nothing. Without a keystore an encrypted tree raises AttributeError at the root, although an RSA signature is then not looked at.", "quantifier": "all files, options, signers, encryptors, keystores, readers that serve the root, and recursion depths", "why_tests_cant": "a test tries one wrong key against one file; the claim is about every keystore that lacks the key, and says no partial output is ever written", "anchors": ["ccnpy/flic/tree/Traversal.py:82-143", "ccnpy/flic/tree/Traversal.py:180-192", "ccnpy/core/PacketValidator.py:26-57", "ccnpy/flic/tree/DecryptorCache.py:38-54", "ccnpy/flic/RsaOaepCtx/RsaOaepImpl.py:41-106", "ccnpy/flic/aeadctx/AeadImpl.py:164-240"]}
{"id": "C109", "title": "Content keys are filed by their number only", "statement": "A Traversal object reads any list of readable files one after the other, of any kinds (not encrypted, encrypted with AES keys of the keystore, encrypted with content keys wrapped for an RSA key of the keystore), if among them one key number means one thing: files with the same number either all take the key from the keystore or all wrap the same key and salt. Otherwise not: for every two builds whose different content keys carry the same number, each readable by this reader on its own, the Traversal that has read one raises on the other and writes nothing of it. The same holds for every later Traversal with the same keystore object, at any depth bound, because the first content key was filed in it under the number and a filed key is used in place of the wrapped one. (The number is chosen by the publisher and is shown in clear, so who can wrap a key for a reader can make files of others unreadable to it.)", "quantifier": "all lists of builds, options, keys, key numbers, wrappers, keystores, readers and depths; ideal cryptography (Spec.Binding) for the negative part", "why_tests_cant": "a test reads one encrypted file with a fresh keystore; the claim is about every sequence of files and what stays in the caller's keystore between them", "anchors": ["ccnpy/flic/RsaOaepCtx/RsaOaepImpl.py:41-106", "ccnpy/flic/RsaOaepCtx/RsaOaepDecryptor.py:28-55", "ccnpy/flic/tree/DecryptorCache.py:32-54", "ccnpy/crypto/InsecureKeystore.py:50-60", "ccnpy/flic/tree/Traversal.py:180-192"]}
{"id": "C110", "title": "Watching a build changes nothing, or stops it", "statement": "ManifestTree.build with the debug option (packets are printed), with a manifest_graph (packets are drawn), or both, for a stream or a file that is cut already and any name context: the packets it puts are the first ones that the same build puts when it is not watched, the same bytes in the same order, and if it returns, it returns the same root and has put the same packets. Given that the unwatched build returns, the watched one returns exactly when every manifest put can be shown (with debug) and has a name that makes a label (with a graph); otherwise it stops with an exception in the middle of the publication. With names that are non-empty text a graph never stops a build; with debug as well if no key link is sent and the names do not need segment numbers. Without debug and graph it is the build of the other properties. With packet_output None it never returns. If the optimisation raises, the graph stays paused: it records nothing that is told to it later.", "quantifier": "all options, inputs, read schedules, name contexts, cut files, graphs, environments and float logarithms, brief or full output", "why_tests_cant": "tests build with debug off or with readable names only; that printing and drawing leave the published packets alone, and the exact condition under which they raise, is about every tree and every name", "anchors": ["ccnpy/flic/ManifestTree.py:33-150", "ccnpy/flic/tree/TreeBuilder.py:193-460", "ccnpy/flic/ManifestFactory.py:70-140", "ccnpy/flic/tree/ManifestGraph.py", "ccnpy/flic/tree/TreeBuildReturnValue.py:22-31", "ccnpy/flic/tree/ManifestSizeCalculator.py:43-109"]}
{"id": "C111", "title": "The picture of a build is the picture of what was published, and the one its readers draw", "statement": "If ManifestTree.build with a ManifestGraph returns, then the graph holds a record about every packet that was put out, and no other records: a data object has no pointers, a manifest has exactly the pointers that are in its node on the wire, in their order, under the label made of its name; the two packets that are built only to measure their size are not in it. Drawing and plotting it works: every node has a colour (no pointer leads to an object that was not recorded). If the packets have different hashes and, for an encrypted file, only the right key opens a manifest, then there is an edge from a to b exactly if a published manifest named a has a pointer named b, and the nodes are exactly the published packets, each by the first three bytes of its hash. With hashed or prefix names, a reader that retrieves the file while building a graph draws the same nodes and the same edges.", "quantifier": "all options, inputs, read schedules, environments, encrypted or not, signed or not; for the segmented schema with a float logarithm that is not too high (records and edges)", "why_tests_cant": "tests look at no graph of a build; that the recorded pointers are those of the encrypted bytes, for all trees, that none of the sizing packets shows up, and that publisher and reader draw one picture cannot be sampled", "anchors": ["ccnpy/flic/tree/ManifestGraph.py:25-170", "ccnpy/flic/tree/TreeBuilder.py:193-460", "ccnpy/flic/ManifestFactory.py:70-140", "ccnpy/flic/ManifestTree.py:90-150", "ccnpy/flic/tree/Traversal.py:60-180"]}
{"id": "C112", "title": "Which exceptions hostile packets make a reader raise", "statement": "Whatever packets a Traversal is given, with or without keys, data writer and graph: an exception that leaves traverse is ParseError, CannotParseError, RuntimeError, ValueError, TypeError, AssertionError, OverflowError, KeyError, AttributeError, DecryptionError, KeyNumberNotFound, KeyIdNotFound, OSError or RecursionError, or it was raised by the packet reader or by the decryption of the cryptographic library other than InvalidTag, which is always caught. With packets in memory and a library that raises InvalidTag or ValueError only, just these remain; with a directory, FileNotFoundError too, and if the root is asked for by its name alone NameError and NotImplementedError. Each of the thirteen is reached by a packet of legal size that is parsed and stored without complaint; among them is a manifest that fits its packet and is rejected with OverflowError, because the code encodes it again with wider integers while parsing, and an object of an unknown payload type that expires after the year 2147485547, whose error message cannot be formatted (OSError).", "quantifier": "all readers, packets, keys, states, depths; all primitives (for the closed list: those that raise InvalidTag or ValueError)", "why_tests_cant": "hostile packets are unbounded in shape, depth and number; a fuzzer finds exceptions that occur, never that no other occurs", "anchors": ["ccnpy/flic/tree/Traversal.py:56-215", "ccnpy/flic/tree/TreeIO.py:65-97", "ccnpy/flic/tree/TreeIO.py:216-273", "ccnpy/core/Packet.py:60-170", "ccnpy/flic/tlvs/Manifest.py:60-130", "ccnpy/crypto/AeadKey.py:60-180", "ccnpy/core/PacketValidator.py:26-57"]}
{"id": "C113", "title": "Changed files in a directory are not noticed, neither by hash nor by signature", "statement": "Only the root of a published file is ever signed. A file with hashed or prefix names lies in a directory, encrypted or not, the root signed or not. Whoever can write to the directory can overwrite the packet file of a chunk with an unsigned object that has another payload, of another length if they like: a reader that has all keys and validates every packet returns without complaint and writes the new bytes wherever the chunk occurs, and the rest as it was; or all chunks may be changed at once by any function of the payload. And a file that somebody else published under the same name into the directory, without RSA signature or encryption, takes the place of the first once its root is copied into the packet file of the hash that the reader asks for, whatever keys the reader has. (C63 says so for packets replaced by others of the same names; here they are made. From packets in memory neither is possible: C88.)", "quantifier": "all files, chunkings, options with hashed or prefix names, keys, replacement payloads and functions; all directories that have the packets; all primitives, without hash collision among the packets", "why_tests_cant": "tampering is any change of any chunk of any tree; the code has no test that tampers, and a test shows one change, not that every change passes", "anchors": ["ccnpy/flic/tree/TreeIO.py:237-273", "ccnpy/flic/tree/Traversal.py:82-118", "ccnpy/core/PacketValidator.py:26-57", "ccnpy/flic/name_constructor/SchemaImpl.py:126-161", "ccnpy/flic/ManifestFactory.py:60-150"]}
{"id": "C114", "title": "Equal chunks are stored once, or never", "statement": "A file that is read in full reads is cut at the multiples of a number that depends on the names, the expiry time and the packet size, not on the file. With hashed or prefix names two chunks with the same bytes are one and the same packet, within a file and between files that were published with the same names, expiry time and packet size, at whatever time and under whatever keys; so the directory writer counts, and the store in memory keeps, over any number of such files every distinct chunk once, and the bytes counted are those of the distinct chunks plus the same number for each. With segmented names no two data objects of a file are equal, whatever their bytes, and all are stored. Encrypted manifests are never shared either: as long as the random draws differ, all manifests of a build differ. (Without encryption equal subtrees are one manifest.)", "quantifier": "all files, read schedules, options, keys, numbers of files; without hash collision among the packets concerned", "why_tests_cant": "how much is stored depends on which chunks of which files are equal; tests store one file of random bytes", "anchors": ["ccnpy/flic/name_constructor/SchemaImpl.py:88-161", "ccnpy/flic/tree/TreeIO.py:99-127", "ccnpy/flic/tree/TreeIO.py:150-192"]}
{"id": "C115", "title": "Functions of the interface that nothing calls: Interests, padding, keys", "statement": "No packet with an Interest can be made, signed or not, from any Interest and hop limit; a well-formed one of admissible size is refused with TypeError. No manifest gives its list of Interests, and no node its first locator: both calls raise for every manifest, and for every node that has locators. Pad.parse accepts nothing, not even the padding that Pad writes. RsaOaepDecryptor.decrypt_node refuses every node and changes nothing. On the other hand key_bits of a mode is the length of the keys for which that mode is written, and of no other mode; copy_with_name keeps the algorithm and stores the name so that it can be read back and differs for different names; the verifier made from the command line arguments of a signer accepts all that this signer signs, and can be made from a public key.", "quantifier": "all Interests, hop limits, signatures, manifests, nodes, padding lengths, modes, keys, names, arguments", "why_tests_cant": "the functions have no tests and no callers, and a call on one input shows one exception only", "anchors": ["ccnpy/core/Interest.py:25-51", "ccnpy/core/Packet.py:33-50", "ccnpy/flic/tlvs/Manifest.py:151-166", "ccnpy/flic/tlvs/Node.py:148-160", "ccnpy/core/Pad.py:41-47", "ccnpy/flic/tlvs/AeadMode.py:93-98", "ccnpy/flic/RsaOaepCtx/RsaOaepDecryptor.py:57-59", "ccnpy/flic/tlvs/KdfData.py:37-41", "ccnpy/apps/cli_utils.py:151-155"]}
{"id": "C116", "title": "From the words of the command line to the arguments", "statement": "The encryption options of the three programs accept a list of words if each word is good for its option: a hexadecimal key, a mode whose upper case form is GCM or CCM, a key number that is not negative, salts that are integers, an algorithm whose upper case form is one of the three names, KDF info of at most 65535 bytes; then each argument is what the last word of its option means, and absent options have their defaults. Otherwise the first bad word decides: a negative key number and KDF info that is too long stop the program with OverflowError, all others with a usage message, also unknown algorithms, for which HpkeKdfIdentifiers.parse returns a KeyError instead of raising it. The readers never ask for a password; the writer asks for that of the signing key whenever none is given, even if there is no signing key, and for that of the wrapping key if there is such a key without password; an empty answer is no password; nothing else changes.", "quantifier": "all lists of words in any order with any repetitions, all readings of integers and upper case forms, all answers", "why_tests_cant": "the outcome depends on the order and the repetition of words; tests make the argument object by hand", "anchors": ["ccnpy/apps/cli_utils.py:50-82", "ccnpy/apps/cli_utils.py:157-168", "ccnpy/crypto/HpkeKdfIdentifiers.py:33-38", "ccnpy/flic/tlvs/KeyNumber.py:31-36", "ccnpy/flic/tlvs/KdfInfo.py:29-32"]}
{"id": "C117", "title": "Nothing expires, and reading does not depend on the clock", "statement": "The result of reading a packet is the same at any time, also if it is an exception, unless the packet has an RSA section without signature time (C95 says what happens then); no packet that the package encodes has such a section. So from a directory without such packets a traversal, manifest_reader and packet_reader do the same at any time. Of the packets that a reader returns a traversal looks only at payload type, payload and the verdict on the signature: if two readers answer every question with packets that agree in these (and can be encoded), or with the same exception, the two traversals end alike, having written the same. So of packets that are unsigned or carry a checksum the time of expiry, the name, the final chunk id and the header are never looked at: data that expired long ago is read like data that never expires.", "quantifier": "all byte strings and times of reading, all directories, all readers, names, hashes, keystores, depths and states of the traversal", "why_tests_cant": "tests read a packet once, right after writing it, and never one that has expired", "anchors": ["ccnpy/core/ValidationAlg.py:136-137", "ccnpy/core/ContentObject.py:185-186", "ccnpy/core/Packet.py:101-134", "ccnpy/flic/tree/Traversal.py:82-174", "ccnpy/flic/tree/TreeIO.py:237-273"]}
{"id": "C118", "title": "How deep the calls of a build nest", "statement": "TreeBuilder builds a tree by calls of _bottom_up_preorder, _interior_manifest and _interior_add_indirect that call each other. How many of them nest is determined by the numbers of direct and indirect pointers and of chunks alone: at each height of the tree, three calls for the manifest at the top and three for every height below it that has more chunks than fit in one manifest, plus one. With room for the largest of these numbers a build does exactly what it does without a limit (same packets, same exception); with less, a build that would succeed raises RecursionError, having written a beginning of what the successful build writes; with any room a build does one of the two. At most 3 h + 1 calls nest if the chunks fit in a tree of height h; never more than 3 if there is one indirect pointer per manifest; never more than 70 for any file that can be published (67 are needed for 2^24 chunks with one direct and two indirect pointers). So publishing never meets Python's limit, but a file published as a chain within 3 calls takes 2 n + 2 calls to retrieve.", "quantifier": "all numbers of pointers and chunks, all rooms, all initial states of the builder, all options and files", "why_tests_cant": "tests build small trees; which trees would exceed the limit, and that none does, is a statement about all sizes", "anchors": ["ccnpy/flic/tree/TreeBuilder.py:193-257", "ccnpy/flic/tree/TreeBuilder.py:294-312", "ccnpy/flic/tree/TreeBuilder.py:389-428", "ccnpy/flic/ManifestTree.py:63-90"]}
{"id": "C119", "title": "What publishing a file costs in bytes", "statement": "With hashed or prefix names, no size annotations in the manifests and name constructor ids of one byte, the bytes of everything a build writes follow from a few numbers. Besides the root manifest they are: the bytes of the file; for each chunk 21 bytes, the name field and the expiry time (12 bytes if there is one); for each manifest 25 bytes, the name field, the expiry time and a number that depends on the keys only and is zero without encryption; 17 bytes for each hash group, of which every manifest has one or two (one, under the hashed schema with the same locators for manifests and data); and 36 bytes for each chunk and each manifest but the top one. With hashed names, one set of locators, no expiry times and no encryption that is 57 bytes a chunk and 78 a manifest, less 36: two builds of a file with as many chunks and manifests write as many bytes below the root, however the tree is shaped.", "quantifier": "all files, read schedules, options of the kind described, keys with tags of 16 bytes and nonces of one length, hash functions with 32 bytes", "why_tests_cant": "tests check packet sizes of particular trees; that the total depends only on the counts is a statement about all trees", "anchors": ["ccnpy/flic/ManifestTree.py:63-90", "ccnpy/flic/tree/TreeBuilder.py:259-420", "ccnpy/flic/ManifestFactory.py:65-120", "ccnpy/flic/tlvs/HashGroup.py:23-65", "ccnpy/core/Packet.py:40-100"]}
{"id": "C120", "title": "Which files can be published", "statement": "Once the names are accepted, the file is chunked and the size calculation has returned, no manifest below the root can fail: none is too long for its packet, no field overflows, no id is missing, no assertion fails, and the tree is written. So if publishing a file raises an exception, it comes from the names, the chunking, the size calculation or the root manifest; and the file is published as soon as a root manifest of its size can be made over any single hash of 32 bytes, whatever the top manifest will be. It is assumed that the name of a manifest with id 2^53 - 1, the expiry time and a manifest of the greatest length fit into 65535 bytes, and that the file has less than 2^32 bytes or the hash groups carry no sizes; if manifests are encrypted, that tags have 16 bytes, all nonces one length, and that a key which encrypts one plaintext encrypts every plaintext of up to 65535 bytes. The root manifest is not counted in the size calculation: with long prefixes it fails after everything else was written.", "quantifier": "all files, read schedules, name schemas, options (manifests plain or encrypted with AES-GCM, with a group key or the key wrapped with RSA-OAEP), signers, logarithms within the stated bounds, hash functions with 32 bytes, and ciphertexts and signatures whose length depends on the key and the lengths of the arguments", "why_tests_cant": "tests build particular files; that the size calculation leaves enough room for every manifest of every tree is a statement about all files and options", "anchors": ["ccnpy/flic/ManifestTree.py:63-130", "ccnpy/flic/tree/TreeBuilder.py:259-420", "ccnpy/flic/ManifestFactory.py:144-214", "ccnpy/flic/tree/ManifestSizeCalculator.py:43-100", "ccnpy/flic/ManifestTree.py:92-130"]}
{"id": "C121", "title": "How many pointers a manifest gets", "statement": "The size calculation returns exactly if the manifest packet it builds with two pointers can be built and has at most max_packet_size bytes; otherwise it raises. The number it returns is at least two and the greatest number of pointers with which this packet fits: its floating-point division never gives one too few or one too many. Without encryption the number is explicit: the room besides a fixed number of bytes (25, 9 to 16 more for the size of the file if nodes carry it, and 26, the number of the name constructor and 7 for a start id for each group), divided by 36. The optimizer then returns exactly if the file has a chunk and the tree degree that the user set, if any, is at least two. With C120: a file that is not empty and can be chunked is published if the names are accepted, two pointers fit, the tree degree is at least two and a root manifest of its size can be made over any single hash. It is assumed that max_packet_size + 33 is at most 65535; encryption returns and lengthens by a constant, as in C120.", "quantifier": "all options, name schemas, encryptors (with the lengths stated), file sizes, packet sizes and builder states", "why_tests_cant": "tests use the default packet size and one or two others; that no packet size makes the division and the second packet disagree is a statement about all of them", "anchors": ["ccnpy/flic/tree/ManifestSizeCalculator.py:43-109", "ccnpy/flic/tree/TreeParameters.py:32-60", "ccnpy/flic/tree/TreeOptimizer.py:105-140", "ccnpy/flic/ManifestTree.py:63-130"]}
{"id": "C122", "title": "Which files are published, exactly, and how long they can be", "statement": "chunk_data returns exactly if the reads of the input give at most 2^24 chunks (one more than its message says: the limit is a number, counted from 0). Otherwise it raises ValueError, after it has written a data object for every number that was left. With full reads the limit is a length: the payload size times 2^24 bytes; an input that returns single bytes is limited to 2^24 bytes, whatever the packet size. A file above the limit is never published and leaves 2^24 data objects with the beginning of the file and no manifest behind. Altogether, once the names are accepted and a data object has room for one byte, a file is published exactly if it is not empty, has at most 2^24 chunks, the tree degree is not set below two, the manifest of the size calculation with two pointers fits into a packet, and a root manifest of its size can be made over some hash of 32 bytes. Assumptions as in C120 and C121.", "quantifier": "all files, read schedules, schemas, start values of the counter, packet sizes up to 65535 (for the last part up to 65502), options, encryptors and signers", "why_tests_cant": "a test would have to publish a file of 2^24 chunks, and that nothing else can fail is a statement about all files and options", "anchors": ["ccnpy/flic/name_constructor/SchemaImpl.py:88-161", "ccnpy/flic/ManifestTree.py:48-130", "ccnpy/flic/tree/ManifestSizeCalculator.py:43-109", "ccnpy/flic/tree/TreeParameters.py:32-60"]}
{"id": "C123", "title": "When a root manifest can be made, and which unencrypted files are published, by arithmetic", "statement": "Without encryption a root manifest for a file over a hash of 32 bytes can be made exactly if its bytes are at most max_packet_size: 60 bytes of headers and hash, the encoded definitions of the name constructors, the number of the manifest name constructor, 4 bytes plus the encoded size of the file for each of the two subtree sizes asked for, and 5 bytes with segmented names. Neither the hash nor the state of the run matters. So an unencrypted file is published exactly if it is not empty, has at most 2^24 chunks, the tree degree is not set below two, the bare bytes of the manifests plus 72 are at most max_packet_size, and the bytes of the root are at most max_packet_size. Assumed: the names are accepted and fit, name and root expiry time can be encoded and leave room together with what the signer adds (33 bytes, the encoded name, the packet size, and 16 bytes for a CRC32C or the validation algorithm and the signature of an RSA key, at most 65535), an RSA signer has a private key, a data object has room for one byte; otherwise as in C120 to C122.", "quantifier": "all files, read schedules, schemas, names, prefixes, locators, packet sizes, subtree size options, signers, hashes of 32 bytes and builder states, for unencrypted trees", "why_tests_cant": "the limit depends on the sum of lengths of user-chosen names and locators and of the file size, and the root is built only after all other packets have been written", "anchors": ["ccnpy/flic/ManifestTree.py:48-130", "ccnpy/flic/ManifestFactory.py:144-157", "ccnpy/flic/ManifestFactory.py:188-214", "ccnpy/flic/tlvs/NodeData.py:76-90"]}
{"id": "C124", "title": "Larger packets, shorter files, fewer annotations", "statement": "If a file is published without encryption, then every file that is not empty and not longer, whatever its bytes, is published too under the same read schedule, with the same or any greater packet size for which the names leave room. A published file is also published if fewer of the sizes are asked for (of the file in nodes, of the subtree and of the leaves in hash groups), and without a tree degree or with any degree from two on. So neither raising max_packet_size nor cutting a file nor leaving out sizes nor the choice of the degree from two on can turn a successful build into a failure. Assumptions as in C123, for the greater packet size.", "quantifier": "all files, bytes of the shorter file, read schedules, schemas, names, signers, options and pairs of packet sizes, for unencrypted trees", "why_tests_cant": "the packet size changes chunking, the number of pointers, the optimizer's choice and so the shape of the tree; a test compares a few sizes", "anchors": ["ccnpy/flic/ManifestTree.py:48-130", "ccnpy/flic/name_constructor/SchemaImpl.py:88-161", "ccnpy/flic/tree/ManifestSizeCalculator.py:43-109", "ccnpy/flic/tree/TreeOptimizer.py: calculate_k, minimize_k"]}
{"id": "C125", "title": "Which encrypted files are published, by arithmetic", "statement": "Encryption makes every manifest longer than its node by a fixed number of bytes, the same for all nodes and nonces: the encoded security context plus 20 bytes for the tag; with RSA-OAEP the security context of the root carries the wrapped key, that of the others does not. If some node can be encrypted, an encrypted root manifest can be made exactly if the bytes of C123 plus this number are at most max_packet_size. A file is published, encrypted or not, exactly if it is not empty, has at most 2^24 chunks, the tree degree is not set below two, the bare bytes of the manifests plus the number for them plus 72 are at most max_packet_size, and the bytes of the root plus the number for the root are at most max_packet_size. So C124 holds for encrypted files as well. With RSA-OAEP the root can be the only packet that does not fit. Assumptions as in C123, and of the ciphers: tags of 16 bytes, nonces of one length, and that a key which seals one plaintext seals every plaintext of up to 65535 bytes with nonce and associated data of the same lengths.", "quantifier": "all files, read schedules, schemas, names, packet sizes, options, signers, encryptors, nodes and nonces", "why_tests_cant": "the limits of manifests and root differ by the wrapped key, and the root is built last; a test would need a packet size between the two", "anchors": ["ccnpy/flic/ManifestFactory.py:232-242", "ccnpy/flic/aeadctx/AeadImpl.py:118-162", "ccnpy/flic/RsaOaepCtx/RsaOaepImpl.py:117-143", "ccnpy/flic/ManifestTree.py:48-130"]}
{"id": "C126", "title": "What is left behind when a file is not published", "statement": "The packets are put to the output while the tree is made, so a file that is not published leaves packets behind. If the file has at most 2^24 chunks but is empty, or the tree degree is set below two, or the manifests have no room for two pointers, then manifest_tree raises and the output is data objects only: their payloads give the whole file, and there is no manifest. If the manifests have room and only the root has not (the bytes of C123 plus the cost of encryption of C125 are more than max_packet_size), then it raises and the output is data objects whose payloads give the whole file, followed by one or more manifests, and the exception is the one raised by making the root manifest over the hash of the last of them. Together with C122 (too many chunks) and C125 these are all outcomes once the names are accepted and a data object has room for one byte. Assumptions as in C125.", "quantifier": "all files, read schedules, schemas, names, packet sizes, options, signers and encryptors", "why_tests_cant": "every case of failure has its own partial output, and which case occurs depends on sizes that differ by a few bytes", "anchors": ["ccnpy/flic/ManifestTree.py:48-130", "ccnpy/flic/name_constructor/SchemaImpl.py:88-161", "ccnpy/flic/tree/ManifestSizeCalculator.py:43-109", "ccnpy/flic/ManifestFactory.py:116-186"]}
