# Formal model of magistrate (checkpoint) in Lean 4

Source: `/repo` (read as text only; never built or changed).  Properties: `properties.jsonl`.
Status per property: `MANIFEST.json`.  Lean project: `lean/` (`lake build`).

## 1. Approach

The library runs *one* generic `serialize` function per type under several
*serializers* (Sizer, Packer, Unpacker, stream variants, Footprinter, user
traversers).  The model keeps that shape:

* `Verif/Model/Bytes` – bytes, fixed-width integer representations (both endiannesses).
* `Verif/Model/Serializer` – the serializer objects as one state type `Ser`; `contiguousBytes`
  of each class; undefined behaviour (out-of-bounds access) is the explicit outcome `ub`, C++
  exceptions are `throw`, failed `checkpointAssert`s are `abort`.
* `Verif/Model/Registry` – type index registry (uint16 counter, dead marks).
* `Verif/Model/Dispatch` – `Traverse::with`, `withTypeIdx`, `withMemUsed`, byte / non-byte
  dispatch, `serializeArray`, in both build modes (`SERIALIZATION_ERROR_CHECKING` on/off).
* `Verif/Model/Containers` – one Lean function per `serialize` overload in `container/`,
  polymorphic in the element type and parametrised by the element's dispatch function.
* `Verif/Model/Virtual` – object and serializer registries, virtual dispatch.  `Verif/Model/Hierarchy` – the same
  for hierarchies whose declarations are incomplete.
* `Verif/Model/Universe` – closed universe of type descriptors `Ty` and values `Val` with a user
  class table (recursive and polymorphic classes allowed); `dispatch` interprets a
  descriptor by the container functions above.  Recursion uses fuel; running out of fuel is an
  explicit outcome and theorems show it does not happen.
* `Verif/Model/Api` – `serialize`, `deserialize`, stream/file entry points, object ownership.
* `Verif/Model/File` – POSIX file model, `IOBuffer`, crash states.
* `Verif/Model/Reconstruct`, `Verif/Model/Lifetime` – choice of the way to construct an object; ledger of
  objects constructed and destroyed, memory allocated and freed.
* `Verif/Model/Select` – which functions serialize a type.  `Verif/Model/UserBody` – user-written functions with
  control flow.  `Verif/Model/Shared` – shared pointers serialized by hand as documented.
  `Verif/Model/Custom` – dispatchers of user-defined traversers;
  `Verif/Model/Compose` – containers, classes, pointers to classes with virtual serialization and Kokkos classes
  within each other; `Verif/Model/Program` – classes with any `serialize` function over such types;
  `Verif/Model/Recursive` – such functions that visit objects of their own class.
* `Verif/Model/View`, `Verif/Model/KMap` – Kokkos views, layouts, traversal, comparison, UnorderedMap.
* `Verif/Model/ViewMore` – DynRankView, DynamicView, the partial view serializers, sparse graphs and matrices.
* `Verif/Model/ViewShared` – views as references to numbered allocations.
* `Verif/Model/Unwound` – what an object holds after reading into it has thrown.
* `Verif/Model/Pointers` – object graphs with raw and shared pointers, and the handles counted as themselves.
* `Verif/Spec/*` – independent specifications (wire format, observable equality, merge, footprint).
* `Verif/Proofs/*` – helper lemmas.  `Verif/Props/*` – the property theorems with non-vacuity
  examples.

Properties are stated over the model's API-level functions and over the specifications in `Spec`.

## 2. Plan per property

| id | model | proof |
|----|-------|-------|
| C01 | Universe + Api, both build modes | induction on nesting depth of the value; reader law per container |
| C02 | Sizer vs Packer | writer law: any writer applied to x emits exactly `wire x`; size mod 2^64 |
| C03 | Packer with explicit bounds, `ub` on overflow | corollary of writer law |
| C04 | Unpacker with explicit bounds | reader law with arbitrary suffix |
| C05 | all non-unpacking serializers | writer law returns the same object |
| C06 | packBuffer with user function | corollary of writer law on a larger buffer |
| C07 | stream serializers, sequence of objects | induction on the list of objects |
| C08 | StreamUnpacker on prefixes | truncation law per container |
| C09 | Unpacker on prefixes | truncation law, outcome `ub` |
| C10 | File + Api | writer/reader law plus file model |
| C11 | three back ends | writer law |
| C12 | withTypeIdx | decision logic |
| C13 | registry | invariant over registrations, injectivity of index encoding, wrap witness |
| C14 | withTypeIdx, both endiannesses | byte arithmetic |
| C15 | class with different pack/unpack member lists | first difference argument |
| C16 | Traverse::with exception path | induction on depth; for whole reads, induction over the types with a relation saying what is traversed inside what |
| C17 | vector functions | reader law, growth policy as parameter |
| C18 | list/deque/queue functions | reader law |
| C19 | ordered associative insertion | sorted insertion lemmas |
| C20 | unordered insertion with arbitrary placement policy | permutation argument |
| C21 | optional/variant/unique_ptr | reader law for any previous value |
| C22 | variant | computation, negative result |
| C23 | tuple with evaluation order as parameter | reader law per permutation |
| C24 | Universe with arbitrary previous value | reader law with `Clean` prior |
| C25 | set/queue functions | merge specification |
| C26 | vector, non-default non-copy path | computation, outcome `ub` / exception |
| C27 | Virtual + Universe | reader law for class hierarchies |
| C28 | registries | invariant over registration orders |
| C29 | flag in `Ser` | reader/writer laws return flag false; negative witness for byte-copyable classes |
| C30 | virtual dispatch ignoring `num` | computation, negative result |
| C31 | object registry | decision logic over all indices |
| C32 | unique_ptr in place | decision logic |
| C33 | reconstructor | decision table over traits |
| C34–C36 | ownership ledger in Api | case analysis over outcomes |
| C37 | packBuffer with arbitrary user handler | case analysis |
| C38 | stream unpacking of arbitrary bytes | safety induction on fuel |
| C39 | file crash model | header rejection + witnesses |
| C40 | IOBuffer system-call model | case analysis over all result sequences |
| C41, C42 | Footprinter | footprint specification |
| C43 | wire format | corollaries of C01/C08 |
| C44 | exact growth policy | reader law with exact equality |
| C45 | Unpacker state | reader law keeps buffer |
| C46 | tracer serializer | writer law |
| C47–C50, C53, C55–C58 | Kokkos models | induction over rank/extents |
| C51 | two environments and builds | equality of wire forms; class read from a given prefix |
| C52 | ledger of Lifetime | case analysis |
| C59 | Select: overload sets with enabling conditions | case analysis over declarations, arbitrary functions |
| C60 | Hierarchy: missing declarations | induction on the chain of classes |
| C61 | UserBody: programs of serializer calls | writer and reader laws by induction on the program; invariant: what was read so far agrees with the object |
| C62 | Shared: objects and control blocks | laws of the documented code; induction over the pointers |
| C63 | StreamPacker on a medium of limited size | write law with a limit, C08 |
| C64 | Custom: dispatch with the user's dispatcher | induction over `Shown` (what is shown, given by the value) |
| C65 | Compose: the container functions with any element type | induction over how the type is composed (`Composed`); each constructor keeps the law of the codec; over types of Universe the composed types run the functions of Universe (`RunsAs`) |
| C66 | Compose on arbitrary input | induction over how the type is composed (`Guarded`, Spec/ComposeFormed): each container function keeps `Safe`, the invariant of C38 for any element type; views: exact condition for access outside of the memory |
| C67 | Compose, Api, File | the laws of C65's codecs, put into the calls of the API as for C02, C06, C10, C12, C39, C41, C43, C63 |
| C68 | Program: serialize functions with control flow over types of Compose | writer law by induction on what is written (`Writes`), reader law by induction on how it is taken (`Takes`), a rule of `Composed`; arbitrary input by recursion on the function (`Careful`), a rule of `Guarded` |
| C69 | Program: functions that visit other things when reading, with error checking | all proofs of C65 in a scope that admits `serialization_error`; reader law by induction on the steps of the reading function against the items written (`Checked`): same type, other type, items left, no items left; then two rules more of `ComposedOf` |
| C70 | Compose, Program, Adaptors with the footprinter | what is counted for the parts (`Counts`, Spec/Counts) gives what is counted for the whole, one theorem per way of composing; no law of the parts needed except for arrays and views |
| C71 | Recursive: the class with `n` levels of itself (`CppType.unfold`), at nesting parameter `n` | round trip: the laws of all levels, put together by the union of the codecs (`limit_composes`), a rule of `Composed`; it equals its function with itself (`Prog.Grows`: more levels change nothing but running out of them); arbitrary input: strong induction on the bytes left (`GuardedIn D L`: types usable at once, and after a byte was read); hierarchies: the part of the owning class is the recursive type, the other classes are any |
| C72 | Compose, Api, File: sequences of checkpoints (`Generations`) by several builds | induction on their number, with C65 and C67 for each; what is equal to an object that can be written can be written (`Usage.Lasting`), by induction over how the type is composed; for types of Universe `WT.of_rel` and transitivity of `Rel` |
| C73 | ViewShared: view objects as references to memory | writer and reader law with the memory as part of the object, by induction over the members; each restored view gets the next allocation; positions in memory (`VMem.cell`) for what is seen through other views |
| C74 | Recursive: pointers to the root with `n` levels of objects (`CppType.hierarchyTo`) | as C71, with the classes' members as a function of the pointer type: a rule of `Composed` and of `GuardedIn`; the pattern with two owning classes by induction over the objects (two mutually nested types) |
| C75 | Compose, Program, Recursive, Shared, ViewShared, ViewMore, Api, File | each way of composing passes on a failure of a part (`CppType.PassesOn`): sequencing stops at it and `catchDepth` looks at `serialization_error` only; the same lemmas with `fuel` as the failure say that the nesting bound does not matter (Proofs/Mono, Proofs/Grows) |
| C76 | Unwound (beside Dispatch, Containers, Virtual, Universe, Api, File) | for each reading function a second one says what the object is when the call has ended; the two are related by induction on the nesting (`Settles`, `Keeps`): same value when the call returns, a well-formed value when it throws; monotone in the nesting bound |
| C77 | Unwound (the same functions) | the call on a stream, the same call on the stream with more data, and the object after the first are related by induction on the nesting (`Cut`, `Tears`); what is left is described by an inductive relation of its own (`Between`, Spec/Between); what was delivered by the round-trip law of the members (`members_delivered`) and of the elements of a list, queue or pair (`list_delivered`, `queue_delivered`, `pair_delivered`, `grow_delivered` for sets and maps, `visit_delivered` for tuples, `chain_delivered` for the parts of objects of polymorphic classes; `vector_delivered` and `array_delivered` for arrays without headers between the elements), also of the whole object (`C77_trailer`) |
| C78 | Compose, Program, Recursive (no new functions) | which objects are read over which is a relation of its own, part by part (`OverOf`, Spec/Over); what a `serialize` function visits is read over what the object holds there (`Prog.TakesOver`, of which `Prog.Takes` is the case of clean objects); the codec laws already say what is read over any `prior` object, so each rule adds that the relation implies `prior`; the two hierarchy patterns by induction on the depth |
| C79 | Dispatch, Containers, Universe, Api (no new functions) | the first inner header of the reading build lies on the first four bytes of the payload of the other build, or the other way round; every type index has `0xDE` as its highest byte and `0xAD` as its lowest (C13), which no count below `0xDE000000` and no flag has, in either byte order; data read without an exception by both builds are given as an example (`C79_ambiguous`) |
| C80 | Dispatch, Containers, Universe, Api (no new functions) | what an object holds is a function of its own (`Env.weight`, Spec/Weight); by induction on the nesting the weight gained by an element is paid for by the bytes it consumed (`Pays`, `TyPays`), where a loop that appends pays one for each element; for streams that end early the `…End` functions of C76 give the object that is left |
| C81 | Dispatch, Containers, Universe, Api, File (no new functions) | nesting by value is a numbering of the types (`Ranked`, Spec/Depth); the induction of C38 with the number of nested calls as a third measure: what a container, optional, variant or pointer holds is read after at least one byte, what is contained by value has a smaller number |
| C82 | Dispatch, Containers, Universe, Api, File (no new functions) | a relation between two runs (`Twin`, Proofs/Media): both serializers are at the same place in the same bytes; every function keeps it and ends alike (`Alike`), but for what the media do at their end |
| C83 | Dispatch, Containers, Universe, Api (no new functions) | for each function: if reading with it returns a value, then writing that value emits the bytes that were read (`Copies`, Proofs/Mirror*); generic in the relation between read and written values, used with equality and with `SameButCaps` |
| C54 | Pointers, Footprinter | well-founded induction on paths; unbounded recursion otherwise |

No property is planned as "not applicable".  For C40, C39 the operating system is an explicit
model; what the real kernel does is trusted.

## 3. Trusted base

**Checker.** Lean 4.33.0's kernel.  No axiom is declared; no `sorry`, `native_decide`, `bv_decide`.
`#print axioms` of every theorem named in `MANIFEST.json` shows a subset of `propext`,
`Classical.choice`, `Quot.sound`: most theorems use all three, about thirty only `propext` and perhaps
`Quot.sound`.  Mathlib is imported by single modules for lemmas
about lists only.

**Reading of the code.**  The theorems are about the model.  Nothing was compiled or run; the tie to the
code is that each definition cites the lines it models.  A wrong reading of C++ or of the standard library is not
detected by Lean.

**What is modelled.**

| source (src/checkpoint) | model |
|---|---|
| `checkpoint_api.impl.h` (all entry points), `buffer/managed_buffer.h`, `user_buffer.h` | `Model/Api` |
| `dispatch/dispatch.impl.h`, `dispatch_serializer*.h`, `clean_type.h`, `allocator.h` | `Model/Dispatch`, `Model/Api`, `Model/Lifetime` |
| `dispatch/type_registry.h` | `Model/Registry` |
| `dispatch/reconstructor.h`, `traits/reconstructor_traits.h` | `Model/Reconstruct` |
| `dispatch/vrt/*` | `Model/Virtual`, `Model/Hierarchy` |
| `traits/serializable_traits.h`, overloads in `dispatch_serializer_{byte,nonbyte}.h` | `Model/Select` |
| `serializers/*` | `Model/Serializer` |
| `buffer/io_buffer.cc` | `Model/File` |
| `container/{array,chrono,container,enum,list,map,optional,queue,string,tuple,unique_ptr,variant,vector}_serialize.h` | `Model/Containers`, `Model/Universe` |
| `container/view_{serialize,equality,traverse_manual,traverse_ndim,traits_extract}.h` | `Model/View`, `Model/ViewMore` |
| `container/kokkos_unordered_map_serialize.h` | `Model/KMap` |
| the code documented in `dispatch/vrt/virtual_serialize.h` for `shared_ptr` | `Model/Shared` |
| `DispatcherType` of a user-defined traverser (dispatchers that do not change objects) | `Model/Custom` |
| `container/view_serialize.h:325-417, 583-589` for views that share memory | `Model/ViewShared` |
| the functions under `deserializeInPlace*` again, for objects after an exception | `Model/Unwound` |
| `container/{raw_ptr,shared_ptr,atomic,function,thread}_serialize.h` | `Model/Pointers` |

Byte-copyable types (type `prim`, and `variant` of such types) have their representation as value; what it means is not
modelled.  Types a variant has as alternatives are different from each other (the library does not compile otherwise).

`Kokkos::Array` is serialized like `std::array` (type `arr`); `Kokkos::pair` and `Kokkos::complex` like a class
with these members (type `cls`); their headers contain nothing else.

**What is not modelled.**  Template overload resolution beyond sets of overloads with enabling conditions (C33,
C59): which of the `serialize` functions in `container/` a type selects is taken from reading, by hand; compilation
failures, except for C33 and C59; threads; allocation failure (`std::bad_alloc`,
`length_error`), so sizes are bounded only by `size_t`; signals; floating point (floats are opaque bytes);
locale and formatting of `iostream`s;
`Kokkos` itself beyond what is said below (views that share memory: only members of one class, C73, all of one element
type; elsewhere views are values); exhaustion of the call stack (objects
are nested to any depth); examples, tests and benchmarks of the repository.

**Assumptions, made explicit as parameters or hypotheses.**

* `Cfg`: whether error checking and assertions are compiled in, endianness, the capacity `vector::reserve` gives,
  the order in which function arguments are evaluated.  Theorems hold for all of them.
* `Env`: the program: its classes (members read and written, bases, whether virtual), type sizes and indices,
  constructors, comparators, equality functions, iteration order of unordered containers, registries.
  `Env.Usable`/`Env.Valid` (Spec/Universe) collect what is assumed of a program; `Spec/Demo` is a program
  that meets it, with a class hierarchy, used in the non-vacuity examples.
* A `bool` in memory is 0 or 1; integers have the stated widths; `size_t` is 64 bits.
* Standard containers behave as the standard says (sorted insertion, `reserve`, `resize`, `emplace`).
* Streams: `istream::read` either delivers the bytes or sets fail and the code throws (`streamUnpacker`).
* Files (C10, C39, C40): POSIX as described in `Model/File`; what a crash leaves is `Spec/Crash`.  A change of a
  file's size takes effect as a whole.
* Kokkos: the address of an element is the offset of the index under the strides; `View` constructors
  allocate and value-initialise; `deep_copy` copies all elements.  `UnorderedMap`: slots with keys and values,
  `insert` does not overwrite and takes a free slot chosen by an arbitrary function, which may fail.  `DynamicView`: chunks of a power of two elements,
  `resize_serial` beyond the maximum aborts.  Products of extents and strides do not wrap around, and allocations of
  any size succeed (C66: data whose extents have a product of 2^64 or more is outside of the model).

**Undefined behaviour** is the separate outcome `ub`; theorems stating a result therefore also say that there
is none.  Recursion is bounded by a nesting parameter `n`; `Yields f r` says that from some `n` on the outcome is
`r`, so that running out of the bound (`fuel`) is never mistaken for an outcome.

## 4. How the proofs are organised

* `Wr`, `Rd`, `Fp` (Proofs/Laws): a computation, run with any writing serializer, emits these bytes; with any
  reading one, consumes them (with any continuation), or is short on a proper prefix; with a footprinter adds this
  number.  `Law` says this of all arrays of objects of a type; there is one per container function, and
  `codec_law` ties them together by induction on the nesting bound.  C01–C09, C17–C25, C41–C46 are corollaries.
* C12, C13, C14, C39: byte arithmetic of headers (`Reject`, `Headers`).
* C16, C29: `Frame` – the set of exceptions may depend on what is being traversed; `Trace` instantiates it.
* C15: same laws with a scope of allowed errors; the first difference of the member lists is found by induction.
* C27–C32: invariants of the registries over arbitrary sequences of registrations.
* C34–C36, C40, C52: ledgers; the code under the entry point is an arbitrary function.
* C38: a second induction (`Safe`) over arbitrary input bytes, giving termination (measure: remaining bytes),
  well-formedness of the results and the exact list of undefined outcomes.
* C51: wire forms depend only on what `SameFormat` lists; `Post` says what a reader returns, if anything, after a
  given prefix.
* C59: overload sets are lists of enabled alternatives; the alternatives are arbitrary functions.
* C61: a program of serializer calls is run along with the list of its steps on the written object (`Steps`); reading
  takes the same steps because decisions depend only on what was read.
* C62: laws for one pointer, then for lists of them, the heap being part of the object.
* C54: accessibility of the pointer relation, with the converse that the recursion exhausts every bound.
* C76: a third induction, on the nesting bound, with the value after an exception beside the outcome (`Settles`).
* C77: a fourth, with the outcome for a longer stream beside them (`Cut`).
* C79: the codec of one build gives the first bytes of the payload, the dispatch of the other build is run on them. Files by C82.
* C80: an inequality between what is consumed and what the object gains, for every function of the dispatch.
* C81: the termination argument of C38 made quantitative, and a family of inputs that reaches the bound.
* C82: two runs side by side, by induction over the calls; the specification `SameReading` lists the pairs of outcomes.
* C83: the converse of the round trip, by induction over the calls, for all types with one form only (`Env.OneForm`); witnesses for the others.
* C78: the laws of C65 with targets that depend on what is read.
* C47–C50, C53, C55–C58: strides and index tuples; the map by the list of its slots.  `Stops` says that a reader
  ends with an exception or failed assertion after a given prefix.

## 5. Disagreements between the properties as first written and the code

The properties were written from the documentation and the code before the proofs; the following turned out
false of the code as it is.  The statements in `properties.jsonl` say what is true, and the theorems include the
negative part with a witness.

| id | what was expected | what the code does |
|----|----|----|
| C22 | any variant survives | the valueless state is lost, unless all alternatives are byte-copyable: then the variant is (`Ty.byteCopied`) |
| C24 | in-place reading forgets | not for sets, maps, queues (C25), vectors/lists of elements that cannot be created anew (C26), polymorphic pointees (C32) |
| C26 | in-place reading of a vector replaces it | with elements neither default nor copy constructible, `k+n` elements are read from data for `n` |
| C28 | any serializer | user-defined traversers are never linked for derived classes: assertion |
| C29 | virtual dispatch is always re-enabled | not after an object whose most derived class is byte-copyable |
| C30 | arrays of polymorphic values | only the first element is written |
| C33 | one strategy everywhere | `vector` prefers the default constructor; two kinds of reconstruct functions do not compile |
| C34, C35, C36 | no leaks on exceptions | memory of the caller is deleted (C35); result object leaked (C36); raw memory leaked if the constructor throws |
| C37 | a wrong user function is reported | a too large write happens before the check; files and streams never check |
| C38 | arbitrary stream input is safe | three kinds of undefined behaviour remain (bools, abstract classes under NDEBUG, sibling classes) |
| C39 | a crash is detected | lost later pages need not be; the old contents are lost at once |
| C40 | descriptors balanced | leaked when a step after `open` fails; failing `close` terminates the program |
| C42 | footprint counts what is owned | elements' memory in queues and optionals and the bits of `vector<bool>` are not counted |
| C47 | views come back as they were | padding is removed; an unallocated view comes back allocated |
| C49 | comparison decides equality | only at rank 1; inverted at rank 0, wrong dimensions with mixed static extents |
| C50 | maps come back | not if an unused slot holds the key of an entry, in particular for the value-initialised key |
| C51 | checkpoints can be read by another program | not if classes are registered in another order: objects of another class |
| C52 | temporaries are destroyed | their memory is freed, their destructors never run |
| C53 | const and device views | sized with value-initialised elements: buffer overflow with elements of varying size |
| C70 | footprint counts what is owned | for Kokkos views the temporaries that describe the view (label, rank, layout, size, flags) are counted instead of the view object; memory between elements is not; elements of device and `const` views are counted as value-initialised ones; elements of stacks and priority queues and the entries of Kokkos maps are counted by `sizeof` only; classes, tuples and variants do not count their own size (padding) unless at the top |
| C76 | a failed read leaves the object as it was | only for data of another type, optionals, variants, enumerations and durations; vectors, strings and classes are left partly read |
| C83 | every byte of the input matters | not for elements of sets and maps (any order), for queues read into non-empty queues (added), for the number of a class without assertions (ignored where an object is there), for an index outside a variant (ignored), for a vector capacity below that of the target |
| C79 | data of a build with other check settings are rejected | by the build with checking, unless the bytes of a first member happen to be a type index; the build without checking reads anything: undefined behaviour (flags), wrong objects |
| C80 | a small input makes small objects | when reading succeeds and elements take bytes; counts and capacities in the data are acted on before the data they announce are looked at: a stream of 44 bytes resizes a vector to any size before the exception, and vectors of objects without members and capacities are not bounded at all |
| C81 | reading uses a bounded amount of stack | the depth of the recursion is at most proportional to the number of bytes, and for a linked list through `unique_ptr` in a build without error checking it is proportional to it: one byte for each node (`C81_reached`), so that a file of some megabytes overflows the stack; the model has no stack limit |
| C72 | a checkpoint of a restored object is one of the same object | the capacity of a Kokkos map is computed anew each time from the previous one (Kokkos adds a sixth): it grows with every checkpoint |
| C54 | footprint of linked objects | shared objects counted once per path; no end on cycles |
| C73 | views that share memory share it after they were restored | each restored view has an allocation of its own, as large as its span; what is written through one is not seen through the others |
| C62 | documented code for shared pointers works in place and for null | undefined behaviour in both cases; sharing is lost |
| C63 | a failed write to a stream is reported | it is not: the call returns normally |
| C66 | arbitrary input is as safe for views as for other containers | the element count (and the strides) in the data are trusted: access outside of the view's memory |
| C60 | missing declarations are reported | not in the most derived class, not if an indirect base is named |
| C56 | dynamic views come back as they were | their maximum is lowered to the chunks in use; growing them ends the program |

## 6. Tests of the theorems

`seeded/LOG.jsonl` lists edits of the model made in a scratch copy, the claims they break and the theorems that
then fail to check.

`lean/Verif/Tests` runs the project's own unit tests (tests/unit: test_sizer, test_footprinter,
test_serialization_error_checking, test_container, test_tuple, test_optional, test_variant_serializer, test_unique_ptr,
test_vector_serializer, test_vector_bool_serialize, test_traversal, test_virtual_serialize) on the model, most of them in
both builds: objects and expected results are those of the tests, evaluated by the kernel.  This checks that the model
gives the results the authors of the library expect, in particular where the tests expect numbers (sizes and footprints)
or exceptions.  No property rests on these modules and they are not listed in MANIFEST.json.
