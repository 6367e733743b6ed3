{"id": "C01", "title": "Memory round trip restores the object", "statement": "For every object x of a serializable type, checkpoint::deserialize<T>(checkpoint::serialize(x)->getBuffer()) returns an object that is observably equal to x (same bytes of every byte-copied leaf, same container contents in the same order, same alternatives, same nullness, same dynamic types), in builds with and without SERIALIZATION_ERROR_CHECKING.", "quantifier": "every type built from arithmetic/byte-copyable leaves, enums, strings, vectors, vector<bool>, lists/deques, arrays, (multi)sets/maps, unordered containers, queues, pairs, tuples, optionals, variants, unique_ptrs and user classes (including recursive and polymorphic ones), every value of it of any size and depth, both build modes, every assignment of type indices and sizeofs", "why_tests_cant": "the set of types is open (templates compose without bound) and values have unbounded size and depth; tests sample a few monomorphic instances", "anchors": ["src/checkpoint/checkpoint_api.impl.h: serialize, deserialize", "src/checkpoint/dispatch/dispatch.impl.h: Traverse::with, serializeType, deserializeType", "src/checkpoint/container/*"]}
{"id": "C02", "title": "Reported size equals bytes written", "statement": "checkpoint::getSize(x) equals exactly the number of bytes checkpoint::serialize(x) writes, and equals getSize() of the returned buffer; hence serialize never raises its Sizer/Packer mismatch error for library-supported types.", "quantifier": "every serializable type and value, both build modes", "why_tests_cant": "size and pack are two separate traversals that must agree on every branch of every container for every value", "anchors": ["src/checkpoint/serializers/sizer.cc: Sizer::contiguousBytes", "src/checkpoint/serializers/packer.impl.h: PackerBuffer::contiguousBytes", "src/checkpoint/dispatch/dispatch.impl.h: validatePackerBufferSize, packBuffer"]}
{"id": "C03", "title": "Serialization never writes outside its buffer", "statement": "During checkpoint::serialize(x) (managed or user-obtained buffer of the requested size) no byte outside the buffer [0, getSize(x)) is written.", "quantifier": "every serializable type and value, every user buffer of at least the requested size, both build modes", "why_tests_cant": "the packer has no bounds check at all; absence of overflow is a for-all statement about two traversals", "anchors": ["src/checkpoint/serializers/packer.impl.h: contiguousBytes", "src/checkpoint/serializers/memory_serializer.h: getSpotIncrement", "src/checkpoint/buffer/managed_buffer.h", "src/checkpoint/buffer/user_buffer.h"]}
{"id": "C04", "title": "Reading back never reads outside the written bytes", "statement": "Deserializing a T from the bytes produced by serializing a T reads exactly those bytes: it never reads past the end even when other data follows in memory, and it consumes all of them.", "quantifier": "every serializable type and value, every suffix of unrelated bytes after the buffer, both build modes", "why_tests_cant": "the unpacker is given no length and does no bounds checks; over-read by one byte is invisible to tests unless it faults", "anchors": ["src/checkpoint/serializers/unpacker.impl.h: contiguousBytes", "src/checkpoint/dispatch/dispatch.impl.h: deserializeType"]}
{"id": "C05", "title": "Sizing, packing, streaming and footprinting leave the object unchanged", "statement": "getSize, getMemoryFootprint, serialize, serializeToStream and serializeToFile never change the object they are given, although serialize functions receive a mutable reference.", "quantifier": "every serializable type and value, every non-unpacking serializer", "why_tests_cant": "containers call resize/reserve and copy elements during packing through one shared code path; only a proof covers every type", "anchors": ["src/checkpoint/container/string_serialize.h: serializeStringMeta", "src/checkpoint/container/vector_serialize.h: serializeVectorMeta", "src/checkpoint/container/queue_serialize.h: serializeQueueElems", "src/checkpoint/container/enum_serialize.h"]}
{"id": "C06", "title": "User buffer receives the same bytes", "statement": "When serialize is given a buffer-obtaining function, that function is called exactly once with exactly getSize(x); if it returns memory the bytes placed there equal the bytes of the managed buffer that would otherwise be returned, and if it returns null a managed buffer is used.", "quantifier": "every serializable type and value and every buffer function", "why_tests_cant": "must hold for every object and buffer supplied", "anchors": ["src/checkpoint/checkpoint_api.impl.h: serialize", "src/checkpoint/dispatch/dispatch.impl.h: packBuffer, serializeType"]}
{"id": "C07", "title": "Stream round trip with exact consumption", "statement": "Objects x1..xn of arbitrary serializable types written one after another with serializeToStream to a stream are read back, in order, by n calls of deserializeFromStream with those types; each call consumes exactly the bytes its object produced, so data following the last object is left unread in the stream.", "quantifier": "every finite sequence of (type, value) pairs, every trailing data, both build modes", "why_tests_cant": "unbounded sequences of heterogeneous objects", "anchors": ["src/checkpoint/checkpoint_api.impl.h: serializeToStream, deserializeFromStream", "src/checkpoint/serializers/stream_serializer.h"]}
{"id": "C08", "title": "Truncated stream always throws", "statement": "If a stream holds only a proper prefix of the bytes of a serialized T (any cut point), deserializeFromStream<T> and deserializeInPlaceFromStream<T> throw; they never return an object.", "quantifier": "every serializable type, every value, every cut point, both build modes", "why_tests_cant": "a cut can fall inside any header, length, element or trailer of any type; the number of cut points is unbounded", "anchors": ["src/checkpoint/serializers/stream_serializer.h: StreamUnpacker::contiguousBytes"]}
{"id": "C09", "title": "Truncated memory buffer is an out-of-bounds read", "statement": "deserialize from memory receives no length; on every proper prefix of a valid buffer it reads past the end (undefined behaviour), it never detects the truncation. (Precondition every caller must meet: the complete buffer.)", "quantifier": "every serializable type, value and cut point", "why_tests_cant": "undefined behaviour cannot be asserted by a unit test; the claim is about all cut points", "anchors": ["src/checkpoint/serializers/unpacker.impl.h", "src/checkpoint/checkpoint_api.h: deserialize"]}
{"id": "C10", "title": "File round trip", "statement": "After serializeToFile(x, f) returns on a working file system, f contains exactly the serialized bytes of x (no more, no less, regardless of previous contents) and deserializeFromFile<T>(f) and deserializeInPlaceFromFile<T>(f, &fresh) yield an object observably equal to x; no descriptor stays open and no mapping stays mapped.", "quantifier": "every serializable type and value, every prior file content, both build modes", "why_tests_cant": "quantifies over all objects and all previous file contents", "anchors": ["src/checkpoint/checkpoint_api.impl.h: serializeToFile, deserializeFromFile", "src/checkpoint/buffer/io_buffer.cc"]}
{"id": "C11", "title": "Memory, stream and file use one format", "statement": "serialize, serializeToStream and serializeToFile produce byte-for-byte identical output for the same object, so data written through one interface can be read through any other.", "quantifier": "every serializable type and value, both build modes", "why_tests_cant": "three separate back ends, all types", "anchors": ["src/checkpoint/serializers/packer.impl.h", "src/checkpoint/serializers/stream_serializer.h", "src/checkpoint/buffer/io_buffer.cc", "src/checkpoint/checkpoint_api.impl.h"]}
{"id": "C12", "title": "Wrong top-level type is rejected in every build", "statement": "Deserializing as U bytes that were serialized from an object of a different registered type T throws before any member of the target object is modified, in builds with and without SERIALIZATION_ERROR_CHECKING (as long as at most 65536 types are registered).", "quantifier": "every pair of distinct types, every value, every target object", "why_tests_cant": "all pairs of types and all contents", "anchors": ["src/checkpoint/dispatch/dispatch.impl.h: withTypeIdx, Traverse::with", "src/checkpoint/dispatch/type_registry.h"]}
{"id": "C13", "title": "Type indices are distinct up to 65536 types and always valid", "statement": "The first 65536 types registered in a process get pairwise different type indices and every issued index passes validateIndex; the 65537th registered type receives the same index as the first (so the guarantee cannot be stronger).", "quantifier": "every registration sequence of any length", "why_tests_cant": "requires 65536 instantiated types", "anchors": ["src/checkpoint/dispatch/type_registry.h: getIndex, Registrar, validateIndex"]}
{"id": "C14", "title": "Zero-filled or byte-swapped headers are rejected", "statement": "If the first bytes of the input are all zero (e.g. a file whose first page was never written back) or come from a machine of opposite endianness, every deserialization call throws.", "quantifier": "every type, every registered index, every continuation of the input", "why_tests_cant": "tests run on one host and cannot produce every header", "anchors": ["src/checkpoint/dispatch/type_registry.h: dead_mask, dead_mark, validateIndex", "src/checkpoint/dispatch/dispatch.impl.h: withTypeIdx"]}
{"id": "C15", "title": "Asymmetric user serialize functions are detected when error checking is on", "statement": "With SERIALIZATION_ERROR_CHECKING, if a class's serialize function traverses one list of member types when packing and a different list when unpacking (missing, extra, reordered or differently typed members), deserialization throws a serialization_error rather than returning an object.", "quantifier": "every pair of member type lists that differ, every value, every nesting position", "why_tests_cant": "all pairs of member lists and values", "anchors": ["src/checkpoint/dispatch/dispatch.impl.h: Traverse::with, withTypeIdx, withMemUsed"]}
{"id": "C16", "title": "Error trace lists the enclosing types innermost first", "statement": "With SERIALIZATION_ERROR_CHECKING, a serialization_error raised while unpacking a member at nesting depth d leaves the outermost traversal with depth d and a trace with exactly one entry per enclosing traversal, ordered innermost to outermost, without losing the original message. Conversely, whatever the type, the input data and the way of reading (memory, stream, file; new object or in place), every serialization_error that reaches the caller describes a real chain of traversals: it starts at an object, count or flag whose stored type index or size differs, each following entry is a type whose serialization code traverses the previous one, the last is the type being read, and the depth is the number of enclosing traversals. Without error checking the error always has depth 0 and is about the type being read.", "quantifier": "every nesting depth and chain of enclosing types; every type, input and reading function", "why_tests_cant": "unbounded nesting depth", "anchors": ["src/checkpoint/dispatch/dispatch.impl.h: serialization_error, Traverse::with"]}
{"id": "C17", "title": "Vectors keep order, size and at least the capacity", "statement": "A restored std::vector has the same elements in the same order, and its capacity is at least the capacity the source had, for default-constructible, copyable and move-only element types alike.", "quantifier": "every element type and construction category, every vector, every allocation growth policy", "why_tests_cant": "all sizes/capacities and all three construction paths", "anchors": ["src/checkpoint/container/vector_serialize.h: serializeVectorMeta, constructVectorData, serialize"]}
{"id": "C18", "title": "Sequential containers keep order", "statement": "A restored std::list, std::deque or std::queue has the same elements in the same order, for copyable and non-copyable, default-constructible or not, element types; packing a queue does not consume it.", "quantifier": "every element type, every length", "why_tests_cant": "unbounded lengths and element types", "anchors": ["src/checkpoint/container/list_serialize.h", "src/checkpoint/container/queue_serialize.h"]}
{"id": "C19", "title": "Ordered associative containers restore under any comparator", "statement": "A restored std::map/std::set contains exactly the source entries in the same order for every comparator that is a strict weak ordering depending only on the observable value of the key; multimap/multiset additionally keep the relative order of equivalent elements.", "quantifier": "every strict weak ordering, every set of entries", "why_tests_cant": "all comparators and contents, and the emplace position rules", "anchors": ["src/checkpoint/container/map_serialize.h: deserializeEmplaceElems, serializeMapLikeContainer"]}
{"id": "C20", "title": "Unordered containers restore the same multiset of entries", "statement": "A restored unordered_(multi)map/set has exactly the same entries with the same multiplicities, whatever hash function, bucket layout or iteration order either side uses.", "quantifier": "every hash/equality, every iteration order, every contents", "why_tests_cant": "iteration order is unspecified; tests see one implementation", "anchors": ["src/checkpoint/container/map_serialize.h"]}
{"id": "C21", "title": "Optionals, variants and unique_ptrs restore their alternative", "statement": "A restored optional is engaged iff the source was, a restored variant holds the same alternative index, a restored unique_ptr is null iff the source was; the contained value is restored.", "quantifier": "every payload type and value, every number of alternatives, every previous state of the target; variants of byte-copyable alternatives only: every representation (with C22)", "why_tests_cant": "all alternatives, all previous target states", "anchors": ["src/checkpoint/container/optional_serialize.h", "src/checkpoint/container/variant_serialize.h", "src/checkpoint/container/unique_ptr_serialize.h"]}
{"id": "C22", "title": "A valueless variant is not representable", "statement": "A variant that is not byte-copyable (some alternative is not) and is valueless_by_exception is serialized without error, but after deserialization the target variant keeps whatever alternative it had before: the valueless state is silently lost. A variant whose alternatives are all byte-copyable is serialized as its bytes, without a separate index, and every state of it, valueless included, is restored.", "quantifier": "every variant type (nested variants included), every source and target state", "why_tests_cant": "requires throwing moves at the right moment; claim is about every target state", "anchors": ["src/checkpoint/container/variant_serialize.h: SerializeEntry, serialize"]}
{"id": "C23", "title": "Tuple round trip under any evaluation order", "statement": "The order in which tuple members are visited is the compiler's choice of argument evaluation order; the round trip restores every member for every such order as long as writer and reader use the same one, and data written under one order is not in general readable under another.", "quantifier": "every tuple type, every permutation of the member indices", "why_tests_cant": "a test binary exhibits one evaluation order", "anchors": ["src/checkpoint/container/tuple_serialize.h: tuple_helper"]}
{"id": "C24", "title": "In-place deserialization forgets the previous contents", "statement": "For types without set/map/unordered/queue members, without list or vector members whose elements cannot be created anew (not copyable; for vectors also not default constructible), and without pointers to polymorphic objects, deserializeInPlace(buf, &y) gives an object observably equal to the serialized one whatever y held before. What is inside optionals and variants is not restricted.", "quantifier": "every such type, every source value, every previous target value", "why_tests_cant": "all pairs of source and previous value", "anchors": ["src/checkpoint/checkpoint_api.impl.h: deserializeInPlace", "src/checkpoint/container/*"]}
{"id": "C25", "title": "In-place deserialization merges into non-empty associative containers and queues", "statement": "deserializeInPlace over a non-empty set/map does not replace its contents: the result is the union, existing keys keep their old mapped values; over a non-empty queue (or list of move-only elements) the restored elements are appended after the old ones.", "quantifier": "every comparator, every previous and serialized contents", "why_tests_cant": "all pairs of contents", "anchors": ["src/checkpoint/container/map_serialize.h: deserializeEmplaceElems", "src/checkpoint/container/queue_serialize.h: deserializeQueueElems", "src/checkpoint/container/list_serialize.h"]}
{"id": "C26", "title": "In-place deserialization over a non-empty vector of move-only, non-default-constructible elements corrupts", "statement": "For a vector whose elements are neither default- nor copy-constructible, deserializeInPlace over a vector with k>0 elements appends the n restored slots and then reads k+n elements from data holding n. If the call returns, the vector has k+n elements, so it never equals the source. For elements with one arithmetic member and no per-member headers the call always reads past the encoded data: undefined behaviour from memory, an exception from a stream.", "quantifier": "every n and k>0, every element value", "why_tests_cant": "undefined behaviour for all lengths", "anchors": ["src/checkpoint/container/vector_serialize.h: constructVectorData (not default, not copy), serialize"]}
{"id": "C27", "title": "Polymorphic pointers restore the dynamic type", "statement": "For a unique_ptr<Base> pointing at an object of any registered class of the hierarchy, the restored pointer points at an object of the same class, and the data of every class on the path from the root to it is restored; each class level is serialized exactly once, root first.", "quantifier": "every class hierarchy (any depth and branching), every dynamic class, every registration order, every value", "why_tests_cant": "unbounded hierarchies and all registration orders", "anchors": ["src/checkpoint/dispatch/vrt/base.h", "src/checkpoint/dispatch/vrt/derived.h", "src/checkpoint/dispatch/vrt/virtual_serialize.h", "src/checkpoint/dispatch/vrt/object_registry.h"]}
{"id": "C28", "title": "Virtual dispatch finds the right serializer in any registration order", "statement": "Whatever order static initialisation registers the (class, serializer) pairs in, dispatching an object of class D through a serializer of type S runs the entry of class D for serializer S, never the entry of another serializer, for every class of the hierarchy.", "quantifier": "every registration order of every set of classes and serializers", "why_tests_cant": "static initialisation order is chosen by the linker; a test binary exhibits one", "anchors": ["src/checkpoint/dispatch/vrt/serializer_registry.h: Registrar, getObjIdx, getBaseIdx", "src/checkpoint/dispatch/vrt/link_derived_to_base_idx.h", "src/checkpoint/dispatch/vrt/serialize_instantiator.h"]}
{"id": "C29", "title": "Virtual dispatch is re-enabled after every object", "statement": "After any object has been serialized or deserialized, the serializer dispatches the next polymorphic object virtually (no object silently sliced because of an earlier one), provided no polymorphic object has a byte-copyable dynamic class; after an object whose own (most derived) class is byte-copyable, virtual dispatch stays disabled and the next polymorphic object is serialized as its declared class only.", "quantifier": "every type, value and sequence of objects on one serializer", "why_tests_cant": "a state-leak across arbitrary object sequences", "anchors": ["src/checkpoint/dispatch/dispatch_serializer_nonbyte.h: apply", "src/checkpoint/dispatch/vrt/serializer_registry.h: Registrar", "src/checkpoint/serializers/base_serializer.h: setVirtualDisabled"]}
{"id": "C30", "title": "Arrays of polymorphic values lose all but the first element", "statement": "Serializing n>1 contiguous objects of a virtually serializable class (std::vector<Base>, std::array<Base,n>, C arrays) writes only the first object; after the round trip elements 1..n-1 have their freshly constructed value. With n<=1 the round trip is exact.", "quantifier": "every virtually serializable class, every n and contents", "why_tests_cant": "the code path ignores the count for every n", "anchors": ["src/checkpoint/dispatch/dispatch_serializer_nonbyte.h: apply (virtual overload)", "src/checkpoint/dispatch/vrt/virtual_serialize.h: virtualSerialize"]}
{"id": "C31", "title": "Unknown dynamic type index never causes an out-of-range access", "statement": "If the input names a dynamic class index that is not registered for the hierarchy (including negative ones), deserialization throws; an index of an abstract class triggers the library assertion.", "quantifier": "every index value, every registry content", "why_tests_cant": "all 2^32 index values", "anchors": ["src/checkpoint/dispatch/vrt/object_registry.h: allocateConcreteType, constructConcreteType", "src/checkpoint/dispatch/vrt/virtual_serialize.h", "src/checkpoint/dispatch/reconstructor.h: constructAllowFail"]}
{"id": "C32", "title": "In-place over a different dynamic type is caught by assertion", "statement": "deserializeInPlace through a unique_ptr<Base> whose current object has another dynamic class than the serialized one triggers checkpointAssert; when the classes agree the existing object is reused and updated in place.", "quantifier": "every pair of classes in a hierarchy and every value", "why_tests_cant": "all class pairs", "anchors": ["src/checkpoint/dispatch/vrt/virtual_serialize.h: SerializeVirtualTypeIfNeeded, reconstructPointedToObjectIfNeeded", "src/checkpoint/common.h: checkpointAssert"]}
{"id": "C33", "title": "Reconstruction strategy precedence", "statement": "For every class the object is created with the tagged constructor if there is one, else with the reconstruct function if there is exactly one, else the default constructor; if nothing is available, or (without tagged constructor) more than one kind of reconstruct function, the code does not compile. Where the class is found through the registry a class without any way of construction is an assertion failure instead. Elements of lists use the same rule, once, and are copied if possible; std::vector uses the default constructor whenever one exists.", "quantifier": "every combination of constructibility traits", "why_tests_cant": "overload-resolution over all trait combinations", "anchors": ["src/checkpoint/dispatch/reconstructor.h", "src/checkpoint/traits/reconstructor_traits.h", "src/checkpoint/traits/serializable_traits.h", "src/checkpoint/container/vector_serialize.h: constructVectorData"]}
{"id": "C34", "title": "Heap deserialization is exception safe", "statement": "deserialize<T>(buf), when the constructor of T does not throw: whether it returns or throws, the object it creates for the result is owned exactly once: on success by the returned pointer, on exception it has been destroyed and freed; nothing is freed or destroyed twice. When the constructor itself throws, the memory allocated for the object is leaked.", "quantifier": "every input, every throw point", "why_tests_cant": "all throw points inside arbitrary user code", "anchors": ["src/checkpoint/dispatch/dispatch.impl.h: deserializeType", "src/checkpoint/checkpoint_api.impl.h: deserialize"]}
{"id": "C35", "title": "User-memory deserialization frees memory it does not own when it throws", "statement": "deserialize<T>(buf, object_buf) with a caller-provided object_buf: when unpacking throws, operator delete is applied to the caller's memory, which deserialize did not allocate. When nothing throws the caller's memory is only constructed into.", "quantifier": "every input on which unpacking throws", "why_tests_cant": "the failing behaviour is undefined behaviour", "anchors": ["src/checkpoint/dispatch/dispatch.impl.h: deserializeType"]}
{"id": "C36", "title": "File and stream deserialization leak the target on exception", "statement": "deserializeFromFile/deserializeFromStream: when unpacking throws, the object constructed for the result is neither destroyed nor freed.", "quantifier": "every input on which unpacking throws", "why_tests_cant": "all throw points; leaks invisible to assertions", "anchors": ["src/checkpoint/checkpoint_api.impl.h: deserializeFromFile, deserializeFromStream"]}
{"id": "C37", "title": "Inconsistent user serialize functions are reported by serialize", "statement": "If a user serialize function writes fewer bytes while packing than it reported while sizing, checkpoint::serialize throws; if it writes more, the packer writes out of bounds before the check runs; serializeToFile and serializeToStream never report a discrepancy.", "quantifier": "every user serialize function, every pair (sized, packed) of byte counts", "why_tests_cant": "arbitrary user code", "anchors": ["src/checkpoint/dispatch/dispatch.impl.h: validatePackerBufferSize, packBuffer", "src/checkpoint/checkpoint_api.impl.h: serializeToFile, serializeToStream"]}
{"id": "C38", "title": "Deserialization of arbitrary bytes is memory safe up to listed hazards", "statement": "deserializeFromStream<T> on an arbitrary byte sequence ends, and either returns a well-formed T (container invariants hold: sorted or unique keys, size within capacity, complete arrays, objects with all their base parts; byte-copied objects, which include variants of byte-copied alternatives, hold whatever bytes were read), or throws, or hits the library assertion. The only undefined behaviour it can run into is: a byte other than 0 and 1 read as a bool; with NDEBUG, a dynamic type index of a class that cannot be constructed; a dynamic type index of a class of the hierarchy that does not derive from the pointer's static type. In particular it performs no out-of-range read or write in library code (allocation failures aside). Deserializing from memory has in addition only reads past the end of the buffer; so has deserializing from a file, which may also throw because the file cannot be opened, inspected or mapped, and terminate the program only if closing the file fails.", "quantifier": "every type of the supported universe and every finite byte sequence", "why_tests_cant": "all byte strings", "anchors": ["src/checkpoint/serializers/stream_serializer.h", "src/checkpoint/container/*", "src/checkpoint/dispatch/vrt/object_registry.h"]}
{"id": "C39", "title": "Crash while writing a file: an unwritten first page is detected", "statement": "If the process or machine crashes during serializeToFile and the first bytes of the data never reached the file, a later deserializeFromFile throws instead of returning an object; but the previous contents of the file are already gone once the call has opened it, and lost later pages are not in general detected.", "quantifier": "every crash point, every subset of persisted blocks, every object, every previous content", "why_tests_cant": "crash points and write-back subsets are not controllable in a unit test", "anchors": ["src/checkpoint/buffer/io_buffer.cc: setupForWrite, closeFile", "src/checkpoint/checkpoint_api.impl.h: serializeToFile"]}
{"id": "C40", "title": "File descriptors and mappings are balanced", "statement": "On every path of serializeToFile/deserializeFromFile on which the file could be mapped, the descriptor is closed and the mapping removed exactly once; when a step after open fails the descriptor is leaked, and when closing fails the exception leaves a destructor and terminates the program.", "quantifier": "every sequence of success/failure results of the system calls", "why_tests_cant": "system-call failures cannot be provoked exhaustively", "anchors": ["src/checkpoint/buffer/io_buffer.cc: setupForRead, setupForWrite, closeFile", "src/checkpoint/buffer/io_buffer.h: IOBuffer::~IOBuffer"]}
{"id": "C41", "title": "Footprint is at least sizeof and additive in the offset", "statement": "getMemoryFootprint(x, off) = getMemoryFootprint(x, 0) + off in size_t arithmetic, and getMemoryFootprint(x) >= sizeof(x), for every object.", "quantifier": "every type, value and offset", "why_tests_cant": "all objects", "anchors": ["src/checkpoint/checkpoint_api.impl.h: getMemoryFootprint", "src/checkpoint/serializers/footprinter.h"]}
{"id": "C42", "title": "Footprint accounts for owned dynamic memory", "statement": "The footprint of a vector is sizeof(vector) plus the footprints counted for its elements plus sizeof(T) for each unused capacity slot; of a string sizeof(string)+capacity; of a non-null unique_ptr sizeof(ptr)+what is counted for the pointee, of a null one sizeof(ptr); of a list, deque, set or map sizeof(container) plus what is counted for the elements; of a pair sizeof(pair) plus both members; of an array or a class exactly what is counted for the visited elements or members. Not counted at all are what the elements of queues and the value of an optional own (only sizeof per element) and the bits of a vector<bool>.", "quantifier": "every such container and contents", "why_tests_cant": "all contents", "anchors": ["src/checkpoint/serializers/footprinter.h", "src/checkpoint/container/vector_serialize.h", "src/checkpoint/container/string_serialize.h", "src/checkpoint/container/container_serialize.h", "src/checkpoint/container/unique_ptr_serialize.h"]}
{"id": "C43", "title": "Serialization is deterministic and injective", "statement": "Serializing the same object twice gives the same bytes; two objects of the same type with observably different values give different bytes; and no serialized form of a type is a proper prefix of another serialized form of that type.", "quantifier": "every type, every pair of values", "why_tests_cant": "all pairs of values", "anchors": ["src/checkpoint/dispatch/dispatch.impl.h", "src/checkpoint/container/*"]}
{"id": "C44", "title": "Checkpoint, restore, checkpoint is stable", "statement": "Serializing a restored object gives byte-for-byte the original checkpoint, for types without unordered containers and with an allocator that gives exactly the requested capacity.", "quantifier": "every such type and value", "why_tests_cant": "all values; needs capacity and order to be preserved exactly", "anchors": ["src/checkpoint/container/vector_serialize.h", "src/checkpoint/container/*"]}
{"id": "C45", "title": "A buffer can be deserialized any number of times", "statement": "Deserialization does not modify the source buffer: any number of deserialize calls on the same buffer give observably equal objects.", "quantifier": "every type, value and number of repetitions", "why_tests_cant": "all values and repetition counts", "anchors": ["src/checkpoint/serializers/unpacker.impl.h", "src/checkpoint/buffer/user_buffer.h"]}
{"id": "C46", "title": "User-defined traversers see exactly the payload", "statement": "A custom traverser (mode None) applied to an object that neither is nor owns an object of a virtually serializable class sees, in order, exactly the payload bytes that serialize writes without error checking, without the type header and trailer, and never causes the object to change. (For virtually serializable classes see C28.)", "quantifier": "every type without virtually serializable classes, every value, builds with and without error checking", "why_tests_cant": "all types; custom traversers share the code paths through mode tests", "anchors": ["src/checkpoint/serializers/base_serializer.h", "src/checkpoint/dispatch/dispatch.impl.h: withTypeIdx, withMemUsed"]}
{"id": "C47", "title": "Kokkos View round trip", "statement": "A restored Kokkos::View of rank 0..8 in host-accessible memory with LayoutLeft, LayoutRight or LayoutStride has the same label, extents and element at every index, whether the view is contiguous or not; a LayoutStride view also has the same strides, a padded LayoutLeft/LayoutRight view comes back without padding. An unallocated view comes back allocated, with value-initialised elements.", "quantifier": "every rank, extents, strides and element values", "why_tests_cant": "all extents/strides; the contiguous and the element-by-element paths must both be correct", "anchors": ["src/checkpoint/container/view_serialize.h", "src/checkpoint/container/view_traverse_manual.h"]}
{"id": "C48", "title": "View traversal visits each element exactly once, in row-major index order", "statement": "The element-by-element traversal of a rank-n view visits every index tuple within the extents exactly once, last index fastest.", "quantifier": "every rank and extents", "why_tests_cant": "all extents", "anchors": ["src/checkpoint/container/view_traverse_manual.h", "src/checkpoint/container/view_traverse_ndim.h"]}
{"id": "C49", "title": "View comparison decides equality only for rank 1", "statement": "ViewEquality::compare(v1, v2) of allocated views of rank 1 returns true iff labels, extents, spans and all elements are equal. At every other rank it does not: for each rank 2..8 there are views that differ in an element and are reported equal; a view of rank 0 is reported equal iff the elements differ; a view with elements and without static extents is reported equal to itself iff its rank is odd; views with two dynamic and two static (or three dynamic and one static) extents are compared against the wrong dimensions and reported different from themselves.", "quantifier": "every rank, extents, label, elements and equality functor", "why_tests_cant": "all extents and contents; existing tests ignore the returned value", "anchors": ["src/checkpoint/container/view_equality.h: ViewEquality::compareData, TraverseData"]}
{"id": "C50", "title": "Kokkos UnorderedMap round trip", "statement": "Provided no unused slot of the hash table holds the key of an entry, equal keys have interchangeable copies and insertions succeed, a Kokkos::UnorderedMap is written and read back whatever slots the keys occupied: over an empty map exactly the same key/value pairs are restored, over another map its entries stay and pairs with other keys are added. If an unused slot does hold the key of an entry (as every unused slot of a new map does for the value-initialised key), every reading call of a build with error checking ends with a serialization_error, and without error checking entries can be lost silently. A failed insertion is not noticed.", "quantifier": "every capacity, slot assignment and contents", "why_tests_cant": "slot placement depends on hashing and history", "anchors": ["src/checkpoint/container/kokkos_unordered_map_serialize.h"]}
{"id": "C51", "title": "Checkpoints read by another program", "statement": "Data written by one program are restored by another one to an equal value, and the second program writes the same bytes for that value, if both agree on build mode of error checking, byte order and evaluation order, on the index and size of the saved type (with error checking: of all types), on the members and bases of classes, and if the classes registered by the first have the same position in the second's registry (in particular if further classes are registered after them). Allocation policies, comparators, hash functions, constructors, type names and assertions may differ. If the saved type has another index, every reading call throws. If polymorphic classes are registered in another order, a pointer read by the second program never points to an object of the saved class but to one of the class registered at the same position, and without error checking this can happen with no error at all.", "quantifier": "every pair of programs and builds that agree on the format, every type and value; every registration order", "why_tests_cant": "tests read checkpoints with the program that wrote them", "anchors": ["src/checkpoint/dispatch/type_registry.h", "src/checkpoint/dispatch/vrt/object_registry.h: Registrar, makeObjIdx", "src/checkpoint/dispatch/dispatch.impl.h: withTypeIdx, withMemUsed", "src/checkpoint/dispatch/vrt/virtual_serialize.h"]}
{"id": "C52", "title": "Temporaries used while unpacking containers are freed but never destroyed", "statement": "When sets, maps, queues and lists of move-only elements are unpacked, every element read is first unpacked into a temporary whose memory is freed but whose destructor never runs: n elements leave n objects undestroyed, also when unpacking throws. Lists of copyable elements leave one, optional leaves the value read, variant the alternative read, vectors of elements without default constructor one (copyable) or n (move-only), other vectors none.", "quantifier": "every element type, every number of elements, every input", "why_tests_cant": "the effect is a leak of whatever the temporaries own, invisible to assertions", "anchors": ["src/checkpoint/dispatch/allocator.h", "src/checkpoint/container/map_serialize.h: deserializeEmplaceElems", "src/checkpoint/container/list_serialize.h: deserializeOrderedElems", "src/checkpoint/container/queue_serialize.h", "src/checkpoint/container/optional_serialize.h", "src/checkpoint/container/variant_serialize.h", "src/checkpoint/container/vector_serialize.h: constructVectorData"]}
{"id": "C53", "title": "Views of const elements or in device memory", "statement": "A Kokkos::View of const elements, or in memory the host cannot access, round-trips (label, extents, elements, size equal to bytes written) if all values of the element type are written with the same number of bytes. The size computed for a view of const elements does not depend on its elements; so if no element is written with fewer bytes than a value-initialised one and at least one with more, serialize writes past the end of its buffer.", "quantifier": "every rank, layout, extents, strides and element values; every element type of fixed resp. variable size", "why_tests_cant": "tests use arithmetic elements only; the overflow depends on contents", "anchors": ["src/checkpoint/container/view_serialize.h: serialize_const, serialize_impl"]}
{"id": "C54", "title": "Footprint of objects linked by raw and shared pointers", "statement": "getMemoryFootprint of an object that holds raw or shared pointers counts what every path of pointers from it leads to, once per path; pointers to void, functions, atomics and threads count as themselves. The call ends if and only if no infinite path of pointers starts at the object: it never ends on a cycle. An object reached by two paths is counted twice. If no infinite path starts at the object and one of the pointers leads to no object (any more), memory that holds none is read: undefined behaviour.", "quantifier": "every finite or infinite object graph", "why_tests_cant": "tests measure trees only; cycles do not terminate", "anchors": ["src/checkpoint/container/raw_ptr_serialize.h", "src/checkpoint/container/shared_ptr_serialize.h", "src/checkpoint/container/atomic_serialize.h", "src/checkpoint/container/function_serialize.h", "src/checkpoint/container/thread_serialize.h"]}
{"id": "C55", "title": "DynRankView round trip", "statement": "Writing a Kokkos::DynRankView (in host-accessible memory, of elements that are not const) and reading it back over any other one restores the number of dimensions, the label, the extents, the strides of a strided layout, and at every index an equivalent element; a default-constructed view becomes a default-constructed view. The computed size equals the number of bytes written and all of them are read.", "quantifier": "every rank up to 7, layout, extents, strides and element values; every previous state of the target", "why_tests_cant": "ranks, extents and layouts are an unbounded family; tests fix a few", "anchors": ["src/checkpoint/container/view_serialize.h: serialize of DynRankView"]}
{"id": "C56", "title": "DynamicView round trip and its lost maximum", "statement": "Writing a Kokkos::DynamicView and reading it back over any other one restores label, chunk size and all elements, for every view that construction and resizing can make (chunks of at least 2 elements). The restored view can hold no more than the chunks in use: resizing it by another chunk ends the program although the original could be resized up to its maximum.", "quantifier": "every chunk size, maximum extent, number and value of elements; every previous state of the target; every new size", "why_tests_cant": "tests never resize a restored view; sizes are unbounded", "anchors": ["src/checkpoint/container/view_serialize.h: serialize of DynamicView"]}
{"id": "C57", "title": "Partial view serializers", "statement": "serializeContentsOnly, reading over a view of the same extents, puts equivalent elements at every index into the target's memory and keeps its label, strides and the memory between its elements; over a view of other extents it throws. serializeExtentOnly makes a new view with the written extents, the label given by the reader and value-initialised elements.", "quantifier": "every rank, layout, extents, strides and element values; every target, also with other strides and padding", "why_tests_cant": "tests use one or two shapes with equal strides", "anchors": ["src/checkpoint/container/view_serialize.h: serializeViewExtentOnly, serializeContentsOnly"]}
{"id": "C58", "title": "Sparse graphs and matrices", "statement": "Writing a Kokkos::StaticCrsGraph or a KokkosSparse::CrsMatrix and reading it back over any other one restores entries, row map, block offsets (each as a view: label, extents, elements), and for a matrix the values and the number of columns.", "quantifier": "every number of rows, columns and entries, all element values; row map of a type of fixed size", "why_tests_cant": "shapes and values unbounded; only compiled when Kokkos Kernels is enabled", "anchors": ["src/checkpoint/container/view_serialize.h: serialize of StaticCrsGraph and CrsMatrix"]}
{"id": "C59", "title": "Which functions serialize a type", "statement": "A type marked byte-copyable (arithmetic, isByteCopyable member type, ByteCopyNonIntrusive) is copied as bytes whatever else is declared. Otherwise each object is visited by its member function serialize followed by serializeParent and serializeThis if it has both, or by the free function serialize, or (enumerations) as its underlying integer. The program does not compile exactly if none or two of these are declared, except that the footprint of a type for which nothing is declared is its sizeof. Serializers for which the same functions are declared use the same. Having only one of serializeParent and serializeThis has no effect. A derived class without its own serialize is visited by that of its base class only (member or free function), one with its own by its own only; one with its own member function whose base class has a free function does not compile, and one derived from a byte-copyable class is copied as bytes even if it declares serialize.", "quantifier": "every combination of declarations per serializer class, all function bodies, all arrays of objects", "why_tests_cant": "2^9 combinations per serializer class, most not exercised; failures to compile cannot be unit tests", "anchors": ["src/checkpoint/dispatch/dispatch_serializer_byte.h", "src/checkpoint/dispatch/dispatch_serializer_nonbyte.h", "src/checkpoint/traits/serializable_traits.h"]}
{"id": "C60", "title": "Missing declarations in class hierarchies", "statement": "If every class of a polymorphic hierarchy declares its direct base, an object is serialized class by class from the root to its dynamic class, and its type index is that class's. If a class between the root and the most derived declared class lacks its declaration, serializing any object through it fails the library's assertion before anything is written; without assertions the part of that class is left out, neither written nor read, and everything else is as usual. A class without a declaration below a fully declared one is not noticed in any build: its part is not in the checkpoint and the object is recorded as one of its base class. Naming an indirect base is not noticed either; the classes in between are left out.", "quantifier": "all hierarchies of any depth with any pattern of missing declarations, all objects, serializers, registries and builds", "why_tests_cant": "each pattern of missing declarations is a different program; the silent cases produce valid checkpoints", "anchors": ["src/checkpoint/dispatch/vrt/inheritance_assert_helpers.h", "src/checkpoint/dispatch/vrt/derived.h", "src/checkpoint/dispatch/vrt/base.h"]}
{"id": "C61", "title": "User-written serialize functions with control flow", "statement": "A class whose serialize function records counts and flags, decides by them or by members already visited, allocates arrays when reading, and visits a variable number of objects (one by one or with serializeArray) is written and read back over any target that has the members it reads into: everything visited is restored, everything else in the target is kept, and the bytes do not depend on the target. In particular an owned dynamic array with a recorded size is restored over any target, and a member chosen by a tag that is visited before is restored while the other is untouched. Without error checking, a decision not derived from what was visited may read nothing and leave the bytes unread.", "quantifier": "every such function (any sequence and nesting of these calls, unbounded sizes), all objects, targets, bytes following, both builds and endiannesses; each member visited at most once", "why_tests_cant": "user code is unbounded; the condition under which reading takes the same path as writing is about all targets", "anchors": ["src/checkpoint/dispatch/dispatch.impl.h: operator|, serializeArray", "src/checkpoint/serializers/base_serializer.h: isUnpacking", "src/checkpoint/dispatch/dispatch_serializer_nonbyte.h"]}
{"id": "C62", "title": "Shared pointers serialized as documented", "statement": "A class that serializes its std::shared_ptr members the way the documentation of reconstructPointedToObjectIfNeeded shows (a vector of them: size, resize, then each) is written and read back over any target whose own pointers are null: every pointer gets a newly made object, of the original's dynamic class and equal to it, with this pointer as its only owner, and nothing else in memory changes. Which pointers shared an object is lost: afterwards any two have different objects. A null pointer is dereferenced when the object is sized or written. Reading over a pointer that is the only owner of an object destroys the object and uses it afterwards; reading over one of several owners sets the object but creates a second group of owners, so that it is destroyed twice.", "quantifier": "all pointee types of the modelled universe including polymorphic ones, all heaps, ownership counts, numbers of pointers, sharing patterns and positions of the null pointer, bytes following, both builds and endiannesses", "why_tests_cant": "sharing patterns and heaps are unbounded; the failures are undefined behaviour and may go unnoticed in a run", "anchors": ["src/checkpoint/dispatch/vrt/virtual_serialize.h: reconstructPointedToObjectIfNeeded", "tests/unit/test_virtual_serialize.cc: TestWrapper::serialize"]}
{"id": "C63", "title": "Full output media go unnoticed", "statement": "serializeToStream never examines the state of the stream after writing: if the medium behind the stream can hold only part of the bytes, the call returns normally, the object is unchanged and the medium holds as much of the serialized form as fits. Reading that object back throws. Objects written to the stream afterwards are lost, again without notice.", "quantifier": "every serializable type and value, every capacity of the medium, every earlier contents, both build modes", "why_tests_cant": "the medium can become full at any byte of any object", "anchors": ["src/checkpoint/serializers/stream_serializer.h: StreamPacker::contiguousBytes", "src/checkpoint/checkpoint_api.impl.h: serializeToStream"]}
{"id": "C64", "title": "Traversers with their own dispatcher", "statement": "A user-defined traverser may supply its own dispatcher (DispatcherType). The dispatcher is called exactly once for every object reached whose type has a serialize function (standard containers and classes alike, each element of an array separately, in order), and never for types copied bytewise and for enumerations, whose bytes go to the traverser directly. What the dispatcher does before and after calling the object's own serialize function comes before and after everything that function shows; if it does not call it, nothing inside the object is visited. A dispatcher that only calls the object's own function makes no difference. The object does not change.", "quantifier": "all types and values of the modelled universe without virtually serializable classes, all dispatchers that act before and after or instead of the object's function, separately for each type, both builds and endiannesses", "why_tests_cant": "the set of dispatchers and the nesting of objects are unbounded; the tests use one class in one container", "anchors": ["src/checkpoint/dispatch/dispatch_serializer_nonbyte.h: BasicDispatcher, applyStatic", "src/checkpoint/dispatch/dispatch_serializer_byte.h: SerializerDispatchByte", "src/checkpoint/dispatch/dispatch.impl.h: Traverse::with", "src/checkpoint/serializers/base_serializer.h: DispatcherType"]}
{"id": "C65", "title": "Containers, classes and Kokkos classes nested in any way", "statement": "Types built from the types of the model by vector, list/deque, queue, ordered and unordered associative containers, pair, tuple, optional, variant, unique_ptr, array, Kokkos::View (of const elements too), DynRankView, DynamicView, Kokkos::UnorderedMap, classes with any members (and with any serialize function as in C68) and pointers to (or objects of) classes with virtual serialization that have such members, nested in any way to any depth (a map from int to views, a view of vectors of views, a variant of a number and a view, a class with such members), round trip: stream and memory get the same bytes, of the size computed before; writing does not change the object; reading these bytes, whatever follows, into a new object or over an existing one consumes exactly these bytes and gives an object whose parts are equal to the original's, in the sense of each part (elements in order, unordered ones in any order, views by extents and elements, variants by alternative and value, Kokkos maps by lookup of every key, objects behind pointers to a base class by their class and the members of all their classes). A stream ending anywhere inside the object makes reading throw; memory ending there is read past its end. A container of types of the first part of the model does what the same container does there.", "quantifier": "all types built so, all objects of them (views of const elements and those in memory the host can not access: elements that are all written with the same number of bytes; Kokkos maps: no unused slot holds the key of an entry; variants: some value, not all alternatives byte-copyable; pointers to base classes: null or to an object of a registered class that can be constructed; existing objects: queues, associative containers and Kokkos maps empty, pointers to base classes null), all bytes that follow, all cut points, all orders of evaluation of function arguments, both builds, endiannesses, all programs", "why_tests_cant": "the nesting of types is unbounded and each combination is its own template instantiation; tests contain a handful of combinations", "anchors": ["src/checkpoint/container/view_serialize.h: serialize", "src/checkpoint/container/vector_serialize.h: serialize", "src/checkpoint/container/map_serialize.h: serialize", "src/checkpoint/container/tuple_serialize.h: serialize", "src/checkpoint/container/variant_serialize.h: serialize", "src/checkpoint/container/optional_serialize.h: serialize", "src/checkpoint/container/kokkos_unordered_map_serialize.h: serialize", "src/checkpoint/dispatch/dispatch.impl.h: operator|", "src/checkpoint/container/unique_ptr_serialize.h: serialize", "src/checkpoint/dispatch/vrt/virtual_serialize.h: reconstructPointedToObjectIfNeeded"]}
{"id": "C66", "title": "Arbitrary input for nested types and Kokkos classes", "statement": "Whatever bytes a stream delivers, reading them over a well-formed object of any type nested from containers, classes (also with serialize functions as in C68), pointers to classes with virtual serialization and Kokkos classes ends with a well-formed object (each view has extents and strides of its rank and, unless its layout is LayoutStride, memory for all its elements; each Kokkos map has no two entries with equal keys), an exception, a failed assertion or one of the three hazards known for types without views; the same holds for memory and files, where reading past the end is possible in addition (files also: an exception if the file cannot be read, termination if closing it fails). Access outside of a view's memory is possible only where a View or DynRankView is read: for LayoutLeft and LayoutRight exactly when the data claims contiguous elements and names more of them than the extents it gives, because the element count in the data is trusted; for LayoutStride also through the strides in the data.", "quantifier": "all types nested so, all byte sequences, all well-formed objects read over, all view headers with their extents, counts and labels, everything that follows; both builds", "why_tests_cant": "inputs are arbitrary byte sequences and types are nested arbitrarily; tests read only what the library wrote", "anchors": ["src/checkpoint/container/view_serialize.h: serialize, serializeViewContents", "src/checkpoint/container/vector_serialize.h: serialize", "src/checkpoint/container/map_serialize.h: serialize", "src/checkpoint/container/tuple_serialize.h: serialize", "src/checkpoint/container/variant_serialize.h: serialize", "src/checkpoint/container/kokkos_unordered_map_serialize.h: serialize", "src/checkpoint/dispatch/dispatch.h: deserializeObjectFromStream"]}
{"id": "C67", "title": "All calls of the library for types nested in any way", "statement": "For objects of any type nested from containers, tuples, variants, classes, pointers to classes with virtual serialization and Kokkos classes, everything the library promises for single containers holds: there is exactly one serialized form; streams get it behind what they hold (as much of it as fits, if the medium is full, without notice, and then reading it back throws); user-provided memory gets it at its start and is otherwise unchanged, the function that provides it being called once with the size; a file holds exactly it, on disk, and can be read back over an object or as a new one, leaving no descriptor or mapping; reading it as any type with another index throws in every build from memory, streams and files; equal serialized forms restore the same object and none is a proper prefix of another; the footprint is at least the object's size and adds the offset; a crash while writing the file leaves the old contents, nothing, or a mixture of the object's bytes and zeros, and is detected when reading if the first four bytes are not those of the object.", "quantifier": "all types nested so, all objects of them, all previous contents of streams, memory and files, all limits of media, all failures of system calls and all moments of a crash, both builds, all programs", "why_tests_cant": "each nesting is its own template instantiation, and contents, limits, failing calls and moments of a crash are unbounded; tests fix a few types and no failures", "anchors": ["src/checkpoint/checkpoint_api.impl.h: serialize, serializeToFile, deserializeFromFile, serializeToStream, getMemoryFootprint", "src/checkpoint/dispatch/dispatch.impl.h: standardTraverse", "src/checkpoint/buffer/io_buffer.cc", "src/checkpoint/container/view_serialize.h: serialize", "src/checkpoint/container/variant_serialize.h: serialize", "src/checkpoint/container/tuple_serialize.h: serialize"]}
{"id": "C68", "title": "User-written serialize functions with control flow over members of any types", "statement": "A class whose serialize function visits members and local variables of any of the types of C65 (Kokkos views, maps of views, other such classes, pointers to polymorphic classes) one by one or as arrays, records counts and flags, decides by what it visited or by the object, changes the object (resize, new) and does other things when reading than when writing, round trips whenever the reading function takes each item with the type it was written with, over an object that can be read over, and ends with an equal object whatever equal parts it got; it can be used as a part of any other type. In particular: a vector with a recorded size that is resized and visited element by element is restored over a vector of any other size; a raw pointer with a recorded null flag is restored over any other pointer, null or not. Whatever bytes are read, a function that only accesses what there is, whatever it gets, ends with a well-formed object, an exception, a failed assertion or a hazard of its parts; so do these two.", "quantifier": "every such function (any sequence and nesting of these calls, unbounded sizes, data-dependent control flow), all types of its parts, all objects, targets, bytes following; arbitrary input bytes for the last sentence; both builds and endiannesses", "why_tests_cant": "user code is unbounded, and so are the types of the members; the condition under which reading takes the same path as writing is about all targets and all equal parts", "anchors": ["src/checkpoint/dispatch/dispatch.impl.h: operator|, serializeArray", "src/checkpoint/serializers/base_serializer.h: isUnpacking, addBytes", "src/checkpoint/dispatch/dispatch_serializer_nonbyte.h", "tests/unit/test_virtual_serialize.cc: TestWrapper::serialize"]}
{"id": "C69", "title": "With error checking, mistakes of serialize functions anywhere within a value are detected", "statement": "With serialization error checking on: in a type of C65 or C68, some classes may visit other things when reading than when writing, by any control flow. Writing an object with such classes anywhere inside works (all calls give the same bytes, of the computed size, and leave the object as it is). Reading these bytes over any object that can be read over either restores an equal object, having consumed exactly these bytes, or throws serialization_error; it never returns anything else. If the object contains one of a class whose function visits, when reading, things of other types, or more or fewer of them, than when writing, then every call that reads it back (in place, to a new object, from memory, stream or file) throws serialization_error, whatever containers, arrays, Kokkos views or classes are around it and however many objects of the class are in an array.", "quantifier": "every serialize function of Model/Program (unbounded), all types of members and surroundings, all objects and targets, any bytes following; classes up to 2^31 bytes, arrays of them up to 2^31 bytes; both endiannesses", "why_tests_cant": "the tests try five classes of two members; whether a mistake is noticed depends on what bytes follow (indices, sizes, other objects of an array) in any nesting", "anchors": ["src/checkpoint/dispatch/dispatch.impl.h: withTypeIdx, withMemUsed, Traverse::with, serializeArray", "src/checkpoint/dispatch/type_registry.h: validateIndex", "tests/unit/test_serialization_error_checking.cc: WrongMemUsage*, A, B"]}
{"id": "C70", "title": "The memory footprint of values nested in any way", "statement": "For every value of a type of C65 or C68 a definite number of bytes is counted; getMemoryFootprint returns this number or the sizeof of its type, whichever is more, plus the offset, and leaves the value as it is. The number is found part by part. A vector counts its sizeof, its elements and sizeof(T) for each element there is still room for; lists, deques, sets and maps their sizeof and their elements; arrays their elements; pairs their sizeof and both parts; unique_ptr its sizeof and the object it points to, a polymorphic object the parts of all its classes; tuples and classes the members visited; variants 8 bytes and the alternative held; a class with control flow in its serialize function whatever the function visits plus what it reports by addBytes. Queues, stacks, priority queues and optionals count sizeof(T) for each element, not what these own. Kokkos views count label, rank, layout, size and flags and each element (once, without gaps), DynRankView and DynamicView likewise; views of const elements and of memory the host cannot access count value-initialised elements; a Kokkos::UnorderedMap counts its sizeof, capacity keys and size values.", "quantifier": "all types nested in any way, all values, all offsets; modulo 2^64", "why_tests_cant": "tests compute the footprint of single containers of int; the rules must hold with any element type and compose at any depth, and sums wrap around", "anchors": ["src/checkpoint/serializers/footprinter.h", "src/checkpoint/checkpoint.impl.h: getMemoryFootprint", "src/checkpoint/container/vector_serialize.h", "src/checkpoint/container/container_serialize.h", "src/checkpoint/container/queue_serialize.h", "src/checkpoint/container/view_serialize.h", "src/checkpoint/container/kokkos_unordered_map_serialize.h", "src/checkpoint/container/unique_ptr_serialize.h", "src/checkpoint/container/tuple_serialize.h", "src/checkpoint/container/variant_serialize.h"]}
{"id": "C71", "title": "Recursive classes with members of any types", "statement": "A class whose serialize function visits objects of the class itself (through a vector, a unique_ptr, an optional, a map, an array, other classes or its own control flow as in C68) and members of any of the types of C65, Kokkos classes included, round trips at any depth of nesting, provided that, at each depth, reading takes the items with the types they were written with and ends with an equal object; it behaves like the class whose function visits the recursive class. In particular trees with any number of children and linked lists of any length, with values of any type, are restored over trees and linked lists of any other shape, as parts of any other types. So is a pointer to the root of a class hierarchy with a class that owns, in a vector, pointers to objects of the hierarchy, itself included, over a null pointer: the objects restored are of the same classes with equal members. The memory footprint of an object of a recursive class is what is counted for all that its function visits: for a tree, in each node the value, the size of the vector and of the room for children not there; for a linked list, the values and the pointers; for such a hierarchy, the pointers, the members of each class of the objects, and the vectors with the room in them. Whatever bytes are read, a recursive class whose function only accesses what there is, whatever it gets, and visits objects of its own class only after something was read, ends with a well-formed object, an exception, a failed assertion or a hazard of its parts; so do trees, linked lists and such pointers (a class index can name a class that can not be constructed or is not one of the hierarchy's, as in C66).", "quantifier": "every such function, all types of the other members, all objects nested to any depth, all targets, bytes following; arbitrary input bytes for the last sentence; both builds and endiannesses", "why_tests_cant": "depth, branching and member types are unbounded, and termination on arbitrary input rests on every level consuming at least a byte; tests build a few small trees", "anchors": ["src/checkpoint/dispatch/dispatch.impl.h: operator|, serializeArray", "src/checkpoint/dispatch/dispatch_serializer_nonbyte.h", "src/checkpoint/container/vector_serialize.h: serialize", "src/checkpoint/container/unique_ptr_serialize.h: serialize", "src/checkpoint/dispatch/dispatch.h: deserializeObjectFromStream", "src/checkpoint/dispatch/vrt/virtual_serialize.h: virtualSerialize", "src/checkpoint/dispatch/vrt/object_registry.h"]}
{"id": "C72", "title": "Checkpoints of restored objects", "statement": "An object that was written and restored, what was restored written and restored again, and so on any number of times, each time to and from memory, a stream or a file, over an object that can be read over or as a new one, each time by any of several builds of the program that handle the type (with and without checks of the format, with and without assertions, other class indices, other implementations of unordered containers), is equal to the first object and can be written again: each further checkpoint succeeds with every build. This holds if what is equal to an object that can be written can be written and is equal to what is equal to it; which is so for all types of the program, if the equality of keys of unordered containers is symmetric, and for containers, tuples, variants, classes, recursive trees and linked lists, pointers to classes with virtual serialization, and Kokkos views with memory, of parts for which it is so. Capacities of vectors never shrink. A Kokkos map keeps its entries, but is each time allocated anew for the capacity it had, so that its capacity is what repeated allocation of capacities makes of the first one.", "quantifier": "all types nested so, all objects of them, any number of checkpoints, all sequences of builds, calls, targets and bytes following", "why_tests_cant": "the number of checkpoints and the sequences of builds and calls are unbounded, and each restored object is one more input; tests make one checkpoint, with one build", "anchors": ["src/checkpoint/checkpoint_api.impl.h: serialize, deserialize, deserializeInPlace, serializeToFile, deserializeFromFile, deserializeInPlaceFromFile, serializeToStream, deserializeFromStream, deserializeInPlaceFromStream", "src/checkpoint/container/vector_serialize.h: serialize", "src/checkpoint/container/map_serialize.h: serialize", "src/checkpoint/container/view_serialize.h: serialize", "src/checkpoint/container/kokkos_unordered_map_serialize.h: serialize"]}
{"id": "C73", "title": "Views that share memory", "statement": "Kokkos views that are members of a class and refer to the same memory, as copies or subviews of each other or in any other way, are written without a change to that memory, and are restored as equal views; each restored view has an allocation of its own, so that what is written through one of them is not seen through the others, nor through any view that was there before, although what is written through one of the originals is seen through the others. The memory to which the views referred that were read over keeps its contents. Only serializeContentsOnly reads into the memory to which the view it is given refers: the elements of that view become those that were written, which is seen through all views of the same memory; all other positions of that memory, and all other memory, are unchanged.", "quantifier": "all numbers of views, all types, extents, strides and places of them in any allocations, all contents, all views read over, all calls", "why_tests_cant": "which views share which positions of memory, with padding and strides, is unbounded; tests compare one restored view with one original", "anchors": ["src/checkpoint/container/view_serialize.h: serialize", "src/checkpoint/container/view_serialize.h: serialize_const", "src/checkpoint/container/view_serialize.h: serializeContentsOnly"]}
{"id": "C74", "title": "Hierarchies several classes of which own objects of the hierarchy", "statement": "A unique_ptr to the root of a class hierarchy, any of whose classes have members that own, directly or in other members' types, objects of the hierarchy, and members of any of the types of C65, Kokkos classes included, round trips over a null pointer at any depth of nesting, provided the classes of all objects are registered and can be constructed: the objects restored are of the same classes and have equal members. Such a pointer behaves as a unique_ptr to the classes whose members contain such pointers, for every serializer, and its memory footprint is counted as that is. In particular hierarchies with a class that owns a vector of pointers to objects of the hierarchy, and another that has a value and a single such pointer, each possibly in the other, and any other classes: the footprint is, for each pointer, its size and, unless it is null, what is counted for the parts of the object of the class it has; the part with a vector counts its pointers, its own size and the room for pointers not there, the other part its value and pointer. Whatever bytes are read, such a pointer ends as a well-formed one, with an exception, a failed assertion or with a hazard of the members, the last only if the class index read names a class that can not be constructed or is not one of those considered, or a member has it.", "quantifier": "every hierarchy with such classes, all types of the other members, all objects nested to any depth, bytes following; arbitrary input bytes for the last sentence; both builds and endiannesses", "why_tests_cant": "the nesting of objects of different classes in each other is unbounded, and which class is constructed at each level is decided by the bytes read; tests have a hierarchy of leaves or one owning class", "anchors": ["src/checkpoint/container/unique_ptr_serialize.h: serialize", "src/checkpoint/dispatch/vrt/virtual_serialize.h: virtualSerialize", "src/checkpoint/dispatch/vrt/object_registry.h", "src/checkpoint/dispatch/vrt/serializer_registry.h", "src/checkpoint/container/vector_serialize.h: serialize"]}
{"id": "C75", "title": "Failures of a user's function come out of every call unchanged", "statement": "If the serialize function of a class somewhere within a type throws an exception other than serialization_error, fails an assertion or has undefined behaviour in some situations, then sizing, footprint, packing, unpacking and traversing of the whole, to and from memory, streams and files, ends with exactly that exception, failed assertion or undefined behaviour, or does exactly what it would do whatever the function did in these situations: no container, class, pointer or Kokkos serializer swallows it, replaces it or goes on after it. If it makes a difference for the whole what the function does in these situations, the failure is what comes out; another exception thrown instead comes out instead. This holds for types within sequential and associative containers, arrays, pairs, tuples, optional values, variants, unique and shared pointers, classes with any serialize function, classes with virtual serialization behind pointers or not, recursive classes, views, dynamic views, maps and sparse matrices of Kokkos, within each other in any way. For files the program is ended instead if the file can not be closed. A function that fails when the object is sized leaves the previous file untouched, no memory is asked for, and the stream receives nothing.", "quantifier": "all types with such a part within, all situations in which the function fails, all failures, all objects and inputs, all serializers, all patterns of failing system calls; both builds", "why_tests_cant": "an exception can come from any function at any depth in any call; the tests of the library throw at a few fixed places and have no way to observe that all other combinations pass it on", "anchors": ["src/checkpoint/dispatch/dispatch.impl.h: Traverse::with, withTypeIdx", "src/checkpoint/checkpoint_api.impl.h", "src/checkpoint/container", "src/checkpoint/dispatch/vrt", "src/checkpoint/buffer/io_buffer.cc: ~IOBuffer, closeFile"]}
{"id": "C76", "title": "After an exception the object being read into is still a valid object", "statement": "If reading into an existing object from memory, a stream or a file throws, whatever the data, then the object is still a valid object of its type: vectors and strings do not exceed their capacity, ordered containers are sorted and without equivalent keys unless they allow them, unordered ones likewise, arrays and tuples are complete, variants hold one of their alternatives or are valueless, pointers are null or own a valid object of a class derived from theirs. If the data does not begin with the index of the type, the stream ends before, or the file can not be opened, inspected or mapped, the object is unchanged. An optional, a variant that is not copied as bytes, an enumeration or a duration has its old value or one that was read completely. Everything that was in a queue, set, map or one of their multi or unordered variants is still there. A second attempt to read a good checkpoint into the object that was left restores the saved value, for the types for which reading in place replaces what was there (C24). There is no more than that: a vector can be left with neither its old nor the saved contents.", "quantifier": "all types made of primitives, strings, standard containers, pointers and classes (also polymorphic), all valid objects, all contents of memory, streams and files, all patterns of failing system calls; both builds", "why_tests_cant": "the exception can come at any byte of any data into any object; tests look at the exception and discard the object", "anchors": ["src/checkpoint/checkpoint_api.impl.h: deserializeInPlace, deserializeInPlaceFromStream, deserializeInPlaceFromFile", "src/checkpoint/dispatch/dispatch.impl.h: Traverse::with", "src/checkpoint/serializers/stream_serializer.h: contiguousBytes", "src/checkpoint/container/vector_serialize.h", "src/checkpoint/container/optional_serialize.h", "src/checkpoint/container/variant_serialize.h", "src/checkpoint/container/unique_ptr_serialize.h", "src/checkpoint/container/map_serialize.h", "src/checkpoint/container/list_serialize.h"]}
{"id": "C77", "title": "A stream that ends too early leaves the object partly read, in a known way", "statement": "If reading into an existing object from a stream throws, and with more data the same call would have returned with the object having the value w, then the object is left between its old value and w: the members of an object, the elements of a vector, an array or a list that come before the place where reading stopped are as in w, those after it are as before (a vector, a string, a list or deque of copyable elements already has its new size; what was added to it is newly constructed), and at that place the same holds again; of a number or another value copied as bytes the first bytes are as in w and the others as before; queues, sets, maps and lists of elements that can not be copied got some of the elements, the first ones in the order of the checkpoint; an optional, a variant that is not copied as bytes, an enumeration, a duration has its old value or that of w; a pointer that was not null owns the object it owned, partly read. In particular this is so for a checkpoint that was cut off at any place, with w equal to the saved value. Members of an object of a class without bases, the parts that the classes of an object of a polymorphic class contribute (base class first), elements of a list, deque, queue, set or map (ordered or not), elements of a vector or an array of numbers (without error checking also of strings or containers), members of a tuple and the first member of a pair, whose bytes the stream delivered completely together with all that comes before them are as saved. If only the trailer of the checkpoint or a part of it is missing, in a build without error checking, the object is as saved although the call throws. If the call returns, neither the object nor what is left in the stream depends on what follows in the stream.", "quantifier": "all types made of primitives, strings, standard containers, pointers and classes (also polymorphic), all valid objects read into, all contents of the stream and all continuations, for checkpoints every saved value and every place where they can be cut off; both builds", "why_tests_cant": "there are as many places where a stream can end as bytes in the checkpoint, for every combination of types, old and saved values; a test sees a few of them and does not look at an object after an exception", "anchors": ["src/checkpoint/serializers/stream_serializer.h:76-95", "src/checkpoint/checkpoint_api.impl.h:144-149", "src/checkpoint/dispatch/dispatch.impl.h:136-188", "src/checkpoint/container/vector_serialize.h:57-145", "src/checkpoint/container/list_serialize.h:57-118", "src/checkpoint/container/map_serialize.h:72-97", "src/checkpoint/container/string_serialize.h:53-79", "src/checkpoint/container/unique_ptr_serialize.h:53-80", "src/checkpoint/dispatch/dispatch_serializer_nonbyte.h:174-234"]}
{"id": "C78", "title": "Restoring in place over a structure that is already there keeps nothing of it, provided the owned objects have the saved classes", "statement": "Let x be an object composed of values, containers, classes, user-written serialize functions, std::unique_ptr, and pointers to virtually serializable classes, nested and recursive to any depth, and let bytes be a checkpoint of x. deserializeInPlace, deserializeInPlaceFromStream and deserializeInPlaceFromFile restore x over any object y of the type that fits x part by part: vectors and lists may have any other length, elements are read over the element in their place (a list of elements that can not be copied, and a vector of elements that can neither be copied nor default-constructed, are empty in y); a pointer may be null on either side; where both x and y own an object through a pointer to a virtually serializable class, these two are of the same dynamic class and again fit each other. The restored object is equal to x: where x has a null pointer the object of y is gone, where y had none an object of the saved class was made, and objects present in both now have the members saved. In particular a tree of objects of a hierarchy that was changed after it was saved is rolled back by reading the checkpoint over it. A stream that ends before the end of the checkpoint makes the call throw. If instead the pointer of y owns an object of another registered class than the saved one, a build with assertions enabled aborts.", "quantifier": "all types so composed, all programs with valid registries, all objects x and y that fit, all data that follow the checkpoint, all dynamic classes", "why_tests_cant": "The tests of the project deserialize pointers into fresh or null targets; which pairs of existing and saved structures are compatible is a relation over pairs of trees of unbounded depth, and whether anything of the old tree survives depends on every combination of null, same class and other class at every place.", "anchors": ["src/checkpoint/container/unique_ptr_serialize.h: serialize", "src/checkpoint/dispatch/vrt/virtual_serialize.h: reconstructPointedToObjectIfNeeded", "src/checkpoint/container/vector_serialize.h: serialize", "src/checkpoint/container/list_serialize.h: serialize", "src/checkpoint/checkpoint_api.impl.h: deserializeInPlace, deserializeInPlaceFromStream, deserializeInPlaceFromFile"]}
{"id": "C79", "title": "Checkpoints exchanged between builds with and without serialization error checking", "statement": "Let one build of a program define SERIALIZATION_ERROR_CHECKING and another one not. (1) The checkpoint of an object that is copied as bytes (arithmetic type, byte-copyable class) is the same in both builds. (2) A checkpoint saved by the build without checking, of an object in which something is serialized separately (container, string, optional, unique_ptr, class with members, ...) and whose data begin with an element count, capacity or alternative number below 0xDE000000 or with a flag, is not accepted by the build with checking: every call that reads it from memory, from a stream or (if no system call fails) from a file, in place or not, throws a serialization_error which says that the header of that inner part was not the index of any type, and whose trace names the inner part and the type asked for. The same holds for any data in which the first inner header is not marked as a type index. (3) Nothing protects the build without checking: the checkpoint of an optional or unique_ptr saved with checking makes it store a value other than 0 and 1 in a bool (undefined behaviour), in every call; the checkpoint of a string (shorter than 2 GiB) makes it run past the end of the data, which is an exception with a stream and an out-of-bounds read with a buffer or a mapped file. (4) In general acceptance is possible: there are types with two objects of different contents of which one has with checking the same checkpoint as the other without, so that each build silently restores the wrong one from the data of the other.", "quantifier": "all types of the object universe, all objects, all programs (type names, byte orders, registries) that agree on the type index of the object, all data that follow; (4) is existential", "why_tests_cant": "The flag is a compile-time definition, so one test executable is one of the two builds and never sees data of the other; the claim relates two programs for all types and objects, and whether foreign data pass depends on every value an element count can have.", "anchors": ["src/checkpoint/dispatch/dispatch.impl.h: Traverse::with, withTypeIdx, withMemUsed", "src/checkpoint/dispatch/type_registry.h: getTypeIdx, validateIndex", "src/checkpoint/checkpoint_api.impl.h: deserialize, deserializeInPlace, deserializeFromStream, deserializeInPlaceFromStream", "CMakeLists.txt: magistrate_serialization_error_checking_enabled"]}
{"id": "C80", "title": "How much the bytes that are read can make an object hold", "statement": "Count for an object the elements of containers, characters of strings and objects behind pointers it holds at any depth (unused capacity, members, array elements and values of optionals are not counted). (1) Whatever the bytes are: when a call that reads an object returns, the new object holds at most as much as the object had held before (nothing, if the call created it), plus the number of bytes the call consumed, minus the 12 bytes of the outermost header and trailer; this is so for memory, streams and files, provided the elements of every container in the type take at least one byte each (one more than the flag for pointers). So an accepted checkpoint cannot inflate. (2) Nothing of the sort holds where the proviso fails, for capacity, or for calls that do not return: a stream of at most 64 bytes makes a vector of objects without members hold any number n < 2^64 of them; a stream of at most 52 bytes gives an empty vector a capacity of at least any number below 2^64; a stream of at most 44 bytes (24 bytes) that ends after the element count makes the call throw only after the vector (string) was resized to at least any count below 2^64.", "quantifier": "all types of the object universe whose container elements take bytes, all byte sequences, all objects read into, all calls; (2): all counts and capacities below 2^64", "why_tests_cant": "The bound is over every byte sequence, not only checkpoints the library wrote; a test with a large count in the data would exhaust memory instead of reporting anything.", "anchors": ["src/checkpoint/container/vector_serialize.h: serializeVectorMeta, constructVectorData, serialize", "src/checkpoint/container/string_serialize.h: serialize", "src/checkpoint/container/list_serialize.h: serializeOrderedContainer", "src/checkpoint/container/map_serialize.h: serializeMapLikeContainer", "src/checkpoint/container/queue_serialize.h: serialize", "src/checkpoint/serializers/stream_serializer.h: StreamUnpacker::contiguousBytes", "src/checkpoint/checkpoint_api.impl.h: deserialize, deserializeInPlace, deserializeFromStream, deserializeInPlaceFromStream, deserializeFromFile, deserializeInPlaceFromFile"]}
{"id": "C81", "title": "How deeply the bytes that are read can make the calls nest", "statement": "Suppose that between two containers, optionals, variants or pointers the objects of a type contain each other by value (as members, elements of arrays, pairs, tuples) at most D deep. (1) Whatever the bytes are: while an object of the type is read from memory, from a stream or from a file, at no time are more than D * (number of bytes + 1) objects being read within each other; with room for that many, the call ends, always in the same way, with a well-formed object, an exception, a failed assertion or one of the hazards of C38, never in endless recursion. This holds for recursive types, too. (2) The bound is reached: in a build without error checking, for a class whose only member is a std::unique_ptr to the class (D = 2), k bytes of data can make 2 * k objects be read within each other; the depth of the call stack is chosen by whoever writes the data.", "quantifier": "all types of the object universe with bounded nesting by value, all byte sequences, all objects read into, all system call faults for files; (2): all k", "why_tests_cant": "A test can only try some inputs, and one that nests too deeply ends the test program; that no input nests deeper than a linear function of its length is a statement about all of them.", "anchors": ["src/checkpoint/dispatch/dispatch.impl.h: Traverse::with, SerializerDispatch", "src/checkpoint/container/unique_ptr_serialize.h: serialize", "src/checkpoint/container/vector_serialize.h: serialize", "src/checkpoint/container/optional_serialize.h: serialize", "src/checkpoint/container/variant_serialize.h: serialize", "src/checkpoint/dispatch/vrt/virtual_serialize.h", "src/checkpoint/checkpoint_api.impl.h: deserializeInPlace, deserializeFromStream, deserializeInPlaceFromStream, deserializeInPlaceFromFile"]}
{"id": "C82", "title": "The same bytes are read alike from memory, streams and files", "statement": "Whatever the bytes are (a checkpoint or not) and whatever object they are read into: deserializeInPlace on memory with these bytes and deserializeInPlaceFromStream on a stream with these bytes end alike, and so do deserialize and deserializeFromStream. If one returns so does the other, with the same object, and the bytes that are left in the stream are those behind the ones that were read from memory. If one throws a serialization_error, std::out_of_range or another exception about the contents, fails an assertion, or runs into undefined behaviour about the contents, so does the other, with the same exception. The only difference is at the end of the bytes: the stream throws std::runtime_error exactly when the call on memory reads past its end. Reading a file ends as reading its contents from memory does, if no system call fails and it is not empty; if some fail, the call throws the exception for that, ends the program, or still ends as reading the contents from memory.", "quantifier": "all types of the object universe, all byte sequences, all objects read into, builds with and without error checking and assertions, all system call faults for files", "why_tests_cant": "Tests exchange a few valid checkpoints between the media; that no sequence of bytes tells the media apart is a statement about all of them, and reading past the end of memory is not observable in a test.", "anchors": ["src/checkpoint/serializers/unpacker.impl.h: contiguousBytes", "src/checkpoint/serializers/stream_serializer.h: StreamUnpacker::contiguousBytes", "src/checkpoint/dispatch/dispatch.impl.h: Standard::unpack", "src/checkpoint/checkpoint_api.impl.h: deserialize, deserializeInPlace, deserializeFromStream, deserializeInPlaceFromStream, deserializeInPlaceFromFile", "src/checkpoint/buffer/io_buffer.cc: setupForRead"]}
{"id": "C83", "title": "Input that is accepted is the checkpoint of the object it is read as", "statement": "Whatever the bytes are and whatever object they are read into: if deserializeInPlace, deserializeInPlaceFromStream, deserializeFromStream or deserializeInPlaceFromFile returns an object, then the bytes that were read are exactly those that serializeToStream writes for that object (for an object that differs from it only in the capacities of vectors, if it contains vectors). So no byte of a checkpoint without vectors is ignored: inputs that are read as the same object agree on all the bytes that are read, whatever the objects read into contained before. This holds for arithmetic types, enumerations, durations, strings, vectors, lists and deques, pairs, tuples, arrays, optionals, byte-copied variants, unique_ptr, classes, and, with assertions enabled, pointers to polymorphic classes. It does not hold for sets and maps (their elements are accepted in any order), for queues that are not empty when read into (what is read is added), for other variants (an index that no alternative has is ignored), for pointers to polymorphic classes without assertions (the number of the class is ignored where an object is there), and the capacity of a vector is ignored when the vector read into has a larger one.", "quantifier": "all types of the object universe with the exceptions that are named, all byte sequences, all objects read into, builds with and without error checking", "why_tests_cant": "Tests read what was written; that nothing else is read as an object concerns all other byte sequences.", "anchors": ["src/checkpoint/dispatch/dispatch.impl.h: Traverse::with, withTypeIdx, withMemUsed", "src/checkpoint/container/string_serialize.h: serializeStringMeta", "src/checkpoint/container/vector_serialize.h: serializeVectorMeta, constructVectorData", "src/checkpoint/container/list_serialize.h: serializeOrderedContainer", "src/checkpoint/container/variant_serialize.h: serialize", "src/checkpoint/container/unique_ptr_serialize.h: serialize", "src/checkpoint/dispatch/vrt/virtual_serialize.h"]}
