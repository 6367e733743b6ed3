{
 "claims": [
  {
   "property": "C01",
   "status": "proved",
   "theorems": [
    "Ckpt.C01_memory_roundtrip",
    "Ckpt.C01_memory_roundtrip'"
   ],
   "note": ""
  },
  {
   "property": "C02",
   "status": "proved",
   "theorems": [
    "Ckpt.C02_size_exact",
    "Ckpt.C02_no_mismatch"
   ],
   "note": ""
  },
  {
   "property": "C03",
   "status": "proved",
   "theorems": [
    "Ckpt.C03_no_overflow"
   ],
   "note": ""
  },
  {
   "property": "C04",
   "status": "proved",
   "theorems": [
    "Ckpt.C04_reads_exactly"
   ],
   "note": ""
  },
  {
   "property": "C05",
   "status": "proved",
   "theorems": [
    "Ckpt.C05_object_unchanged",
    "Ckpt.C05_file"
   ],
   "note": ""
  },
  {
   "property": "C06",
   "status": "proved",
   "theorems": [
    "Ckpt.C06_user_buffer"
   ],
   "note": ""
  },
  {
   "property": "C07",
   "status": "proved",
   "theorems": [
    "Ckpt.C07_stream_sequence"
   ],
   "note": ""
  },
  {
   "property": "C08",
   "status": "proved",
   "theorems": [
    "Ckpt.C08_truncated_stream_throws"
   ],
   "note": ""
  },
  {
   "property": "C09",
   "status": "proved",
   "theorems": [
    "Ckpt.C09_truncated_memory_overread"
   ],
   "note": ""
  },
  {
   "property": "C10",
   "status": "proved",
   "theorems": [
    "Ckpt.C10_file_roundtrip",
    "Ckpt.C10_write",
    "Ckpt.C10_read"
   ],
   "note": ""
  },
  {
   "property": "C11",
   "status": "proved",
   "theorems": [
    "Ckpt.C11_one_format",
    "Ckpt.C11_read_anywhere"
   ],
   "note": ""
  },
  {
   "property": "C12",
   "status": "proved",
   "theorems": [
    "Ckpt.C12_wrong_type_rejected",
    "Ckpt.C12_registered_types",
    "Ckpt.C12_file"
   ],
   "note": "The exception precedes any call of the target type's serialization code: the theorem holds for arbitrary such code."
  },
  {
   "property": "C13",
   "status": "proved",
   "theorems": [
    "Ckpt.C13_type_indices",
    "Ckpt.C13_names"
   ],
   "note": ""
  },
  {
   "property": "C14",
   "status": "proved",
   "theorems": [
    "Ckpt.C14_zero_header_rejected",
    "Ckpt.C14_swapped_header_rejected",
    "Ckpt.C14_swapped_object_rejected",
    "Ckpt.C14_file_zero",
    "Ckpt.C14_file_swapped"
   ],
   "note": ""
  },
  {
   "property": "C15",
   "status": "proved",
   "theorems": [
    "Ckpt.C15_asymmetric_rejected",
    "Ckpt.C15_file"
   ],
   "note": "At every nesting position, for classes below 2 GiB whose member types have different indices (C13)."
  },
  {
   "property": "C16",
   "status": "proved",
   "theorems": [
    "Ckpt.C16_error_trace",
    "Ckpt.C16_wrong_type_trace",
    "Ckpt.C16_located",
    "Ckpt.C16_outermost",
    "Ckpt.C16_unchecked"
   ],
   "note": ""
  },
  {
   "property": "C17",
   "status": "proved",
   "theorems": [
    "Ckpt.C17_vector",
    "Ckpt.C17_vector_bool"
   ],
   "note": ""
  },
  {
   "property": "C18",
   "status": "proved",
   "theorems": [
    "Ckpt.C18_list_deque",
    "Ckpt.C18_queue",
    "Ckpt.C18_queue_kept"
   ],
   "note": ""
  },
  {
   "property": "C19",
   "status": "proved",
   "theorems": [
    "Ckpt.C19_ordered"
   ],
   "note": ""
  },
  {
   "property": "C20",
   "status": "proved",
   "theorems": [
    "Ckpt.C20_unordered"
   ],
   "note": ""
  },
  {
   "property": "C21",
   "status": "proved",
   "theorems": [
    "Ckpt.C21_optional",
    "Ckpt.C21_variant",
    "Ckpt.C21_unique_ptr",
    "Ckpt.C21_unique_ptr_null"
   ],
   "note": ""
  },
  {
   "property": "C22",
   "status": "proved",
   "theorems": [
    "Ckpt.C22_valueless_lost",
    "Ckpt.C22_bytes_kept"
   ],
   "note": ""
  },
  {
   "property": "C23",
   "status": "proved",
   "theorems": [
    "Ckpt.C23_any_order",
    "Ckpt.C23_other_order"
   ],
   "note": "The second theorem is the witness that data written under one order is not readable under another."
  },
  {
   "property": "C24",
   "status": "proved",
   "theorems": [
    "Ckpt.C24_forgets"
   ],
   "note": ""
  },
  {
   "property": "C25",
   "status": "proved",
   "theorems": [
    "Ckpt.C25_set_map",
    "Ckpt.C25_multi",
    "Ckpt.C25_unordered",
    "Ckpt.C25_queue",
    "Ckpt.C25_move_only_list"
   ],
   "note": ""
  },
  {
   "property": "C26",
   "status": "proved",
   "theorems": [
    "Ckpt.C26_never_restored",
    "Ckpt.C26_reads_past_end"
   ],
   "note": ""
  },
  {
   "property": "C27",
   "status": "proved",
   "theorems": [
    "Ckpt.C27_dynamic_type",
    "Ckpt.C27_each_class_once",
    "Ckpt.C27_numbered_by_root"
   ],
   "note": ""
  },
  {
   "property": "C28",
   "status": "proved",
   "theorems": [
    "Ckpt.C28_finds_own_serializer",
    "Ckpt.C28_object_index",
    "Ckpt.C28_user_defined_not_found"
   ],
   "note": "The last theorem is the limit of the claim: serializers that are not among the library's own are never linked."
  },
  {
   "property": "C29",
   "status": "proved",
   "theorems": [
    "Ckpt.C29_reenabled",
    "Ckpt.C29_byte_copyable_disables",
    "Ckpt.dispatchByte_keeps",
    "Ckpt.C29_sliced"
   ],
   "note": ""
  },
  {
   "property": "C30",
   "status": "proved",
   "theorems": [
    "Ckpt.C30_array_first_only",
    "Ckpt.C30_vector_first_only",
    "Ckpt.C30_at_most_one"
   ],
   "note": ""
  },
  {
   "property": "C31",
   "status": "proved",
   "theorems": [
    "Ckpt.C31_unknown_class_throws",
    "Ckpt.C31_negative_index",
    "Ckpt.C31_abstract_class"
   ],
   "note": ""
  },
  {
   "property": "C32",
   "status": "proved",
   "theorems": [
    "Ckpt.C32_other_class_asserts",
    "Ckpt.C32_same_class_updated",
    "Ckpt.C32_object_reused"
   ],
   "note": ""
  },
  {
   "property": "C33",
   "status": "proved",
   "theorems": [
    "Ckpt.C33_precedence",
    "Ckpt.C33_not_constructible",
    "Ckpt.C33_two_reconstruct_functions",
    "Ckpt.C33_vector"
   ],
   "note": "Case analysis over all combinations of the six traits and all places of construction."
  },
  {
   "property": "C34",
   "status": "proved",
   "theorems": [
    "Ckpt.C34_owned_once",
    "Ckpt.C34_constructor_throws"
   ],
   "note": "For arbitrary element code. The second theorem is the limit of the claim."
  },
  {
   "property": "C35",
   "status": "proved",
   "theorems": [
    "Ckpt.C35_deletes_callers_memory"
   ],
   "note": ""
  },
  {
   "property": "C36",
   "status": "proved",
   "theorems": [
    "Ckpt.C36_leak",
    "Ckpt.C36_truncated_stream_leaks"
   ],
   "note": ""
  },
  {
   "property": "C37",
   "status": "proved",
   "theorems": [
    "Ckpt.C37_serialize",
    "Ckpt.C37_serialize_user_buffer",
    "Ckpt.C37_stream_unchecked",
    "Ckpt.C37_file_unchecked"
   ],
   "note": ""
  },
  {
   "property": "C38",
   "status": "proved",
   "theorems": [
    "Ckpt.C38_stream",
    "Ckpt.C38_stream_in_place",
    "Ckpt.C38_only_bool",
    "Ckpt.C38_memory",
    "Ckpt.C38_file",
    "Ckpt.C38_bool_hazard",
    "Ckpt.C38_abstract_hazard",
    "Ckpt.C38_abstract_asserted",
    "Ckpt.C38_sibling_hazard"
   ],
   "note": "Includes termination. The hazard theorems show that each exception in the statement is real."
  },
  {
   "property": "C39",
   "status": "proved",
   "theorems": [
    "Ckpt.C39_states",
    "Ckpt.C39_old_contents_lost",
    "Ckpt.C39_detected",
    "Ckpt.C39_first_block_lost",
    "Ckpt.C39_not_always_detected"
   ],
   "note": "Crash model: Spec/Crash.lean. The last theorem is the limit of the claim."
  },
  {
   "property": "C40",
   "status": "proved",
   "theorems": [
    "Ckpt.C40_write",
    "Ckpt.C40_read",
    "Ckpt.C40_again"
   ],
   "note": "For arbitrary element code and every function from calls to failures."
  },
  {
   "property": "C41",
   "status": "proved",
   "theorems": [
    "Ckpt.C41_offset",
    "Ckpt.C41_at_least_sizeof"
   ],
   "note": ""
  },
  {
   "property": "C42",
   "status": "proved",
   "theorems": [
    "Ckpt.C42_footprint",
    "Ckpt.C42_counted",
    "Ckpt.C42_vector",
    "Ckpt.C42_string",
    "Ckpt.C42_unique_ptr",
    "Ckpt.C42_null_ptr",
    "Ckpt.C42_collections",
    "Ckpt.C42_array",
    "Ckpt.C42_pair",
    "Ckpt.C42_object",
    "Ckpt.C42_not_counted",
    "Ckpt.C42_fundamental"
   ],
   "note": "What is counted is taken modulo 2^64. The statement was amended: queues, optionals and vector<bool> count less than what they own, pairs count themselves on top of their members."
  },
  {
   "property": "C43",
   "status": "proved",
   "theorems": [
    "Ckpt.C43_deterministic",
    "Ckpt.C43_injective",
    "Ckpt.C43_prefix_free"
   ],
   "note": ""
  },
  {
   "property": "C44",
   "status": "proved",
   "theorems": [
    "Ckpt.C44_stable",
    "Ckpt.C44_restarts"
   ],
   "note": ""
  },
  {
   "property": "C45",
   "status": "proved",
   "theorems": [
    "Ckpt.C45_buffer_unchanged",
    "Ckpt.C45_deserialize_repeatedly"
   ],
   "note": ""
  },
  {
   "property": "C46",
   "status": "proved",
   "theorems": [
    "Ckpt.C46_traverser"
   ],
   "note": "Without polymorphic classes; C28_user_defined_not_found shows that user-defined traversers fail on these."
  },
  {
   "property": "C47",
   "status": "proved",
   "theorems": [
    "Ckpt.C47_view_roundtrip"
   ],
   "note": "Managed views in host-accessible memory; the statement was amended (padding, unallocated views)."
  },
  {
   "property": "C48",
   "status": "proved",
   "theorems": [
    "Ckpt.C48_traversal_order",
    "Ckpt.C48_comparison_order"
   ],
   "note": ""
  },
  {
   "property": "C49",
   "status": "proved",
   "theorems": [
    "Ckpt.C49_rank1",
    "Ckpt.C49_accepts",
    "Ckpt.C49_self_iff_odd",
    "Ckpt.C49_accepts_different",
    "Ckpt.C49_rank0_inverted",
    "Ckpt.C49_static_extents",
    "Ckpt.C49_static_extents'"
   ],
   "note": "The statement was amended: the comparison is wrong at every rank other than 1."
  },
  {
   "property": "C50",
   "status": "proved",
   "theorems": [
    "Ckpt.C50_roundtrip",
    "Ckpt.C50_same_entries",
    "Ckpt.C50_stale_key_rejected",
    "Ckpt.C50_stale_key_loses_entry",
    "Ckpt.C50_failed_insertion_loses_entry"
   ],
   "note": "UnorderedMap as a list of slots with an abstract placement function; the unconditional round trip is false of the code (stale or value-initialised keys), proved negatively."
  },
  {
   "property": "C51",
   "status": "proved",
   "theorems": [
    "Ckpt.C51_same_bytes",
    "Ckpt.C51_read_elsewhere",
    "Ckpt.C51_other_index_rejected",
    "Ckpt.C51_classes_appended",
    "Ckpt.C51_reordered_other_class",
    "Ckpt.C51_reordered_not_equal",
    "Ckpt.Demo.C51_reordered_slices"
   ],
   "note": "The last three are the negative part of the statement."
  },
  {
   "property": "C52",
   "status": "proved",
   "theorems": [
    "Ckpt.C52_emplaced_temporaries",
    "Ckpt.C52_list_prototype",
    "Ckpt.C52_optional_value",
    "Ckpt.C52_variant_alternative",
    "Ckpt.C52_vector"
   ],
   "note": ""
  },
  {
   "property": "C53",
   "status": "proved",
   "theorems": [
    "Ckpt.C53_fixed_size_roundtrip",
    "Ckpt.C53_size_ignores_elements",
    "Ckpt.C53_variable_size_overflows"
   ],
   "note": ""
  },
  {
   "property": "C54",
   "status": "proved",
   "theorems": [
    "Ckpt.C54_counts",
    "Ckpt.C54_terminates_iff",
    "Ckpt.C54_cycle",
    "Ckpt.C54_dangling",
    "Ckpt.C54_shared_counted_again"
   ],
   "note": ""
  },
  {
   "property": "C55",
   "status": "proved",
   "theorems": [
    "Ckpt.C55_dynrank_roundtrip"
   ],
   "note": ""
  },
  {
   "property": "C56",
   "status": "proved",
   "theorems": [
    "Ckpt.C56_dynamic_roundtrip",
    "Ckpt.C56_constructed",
    "Ckpt.C56_resized",
    "Ckpt.C56_maximum_lost"
   ],
   "note": "The last theorem is the negative part of the statement."
  },
  {
   "property": "C57",
   "status": "proved",
   "theorems": [
    "Ckpt.C57_contents_only",
    "Ckpt.C57_other_extents",
    "Ckpt.C57_extents_only"
   ],
   "note": "Host-accessible memory."
  },
  {
   "property": "C58",
   "status": "proved",
   "theorems": [
    "Ckpt.C58_graph_roundtrip",
    "Ckpt.C58_matrix_roundtrip"
   ],
   "note": "Host-accessible memory."
  },
  {
   "property": "C59",
   "status": "proved",
   "theorems": [
    "Ckpt.C59_bytes",
    "Ckpt.C59_calls",
    "Ckpt.C59_virtual",
    "Ckpt.C59_footprint_only",
    "Ckpt.C59_compiles_iff",
    "Ckpt.C59_alike",
    "Ckpt.C59_split_members",
    "Ckpt.C59_inherited",
    "Ckpt.C59_inherited_free",
    "Ckpt.C59_hides",
    "Ckpt.C59_both_inherited",
    "Ckpt.C59_inherited_bytes"
   ],
   "note": ""
  },
  {
   "property": "C60",
   "status": "proved",
   "theorems": [
    "Ckpt.C60_declared",
    "Ckpt.C60_missing_between",
    "Ckpt.C60_left_out",
    "Ckpt.C60_sliced",
    "Ckpt.C60_indirect",
    "Ckpt.C60_lost"
   ],
   "note": "Hierarchies with one root, linear inheritance."
  },
  {
   "property": "C61",
   "status": "proved",
   "theorems": [
    "Ckpt.C61_body_roundtrip",
    "Ckpt.C61_owned_array",
    "Ckpt.C61_tagged",
    "Ckpt.C61_unrecorded"
   ],
   "note": "Functions built from the calls the library offers, see Model/UserBody.lean; effects other than on the object are not modelled."
  },
  {
   "property": "C62",
   "status": "proved",
   "theorems": [
    "Ckpt.C62_shared_roundtrip",
    "Ckpt.C62_sharing_lost",
    "Ckpt.C62_null",
    "Ckpt.C62_in_place_destroys",
    "Ckpt.C62_in_place_owned_twice"
   ],
   "note": "Threads and weak pointers are not modelled; the last four are the negative part of the statement."
  },
  {
   "property": "C63",
   "status": "proved",
   "theorems": [
    "Ckpt.C63_unnoticed",
    "Ckpt.C63_read_back_throws",
    "Ckpt.C63_later_objects_lost"
   ],
   "note": "The medium behind a stream is modelled by what it received and how much it can hold."
  },
  {
   "property": "C64",
   "status": "proved",
   "theorems": [
    "Ckpt.C64_traversal",
    "Ckpt.C64_complete",
    "Ckpt.C64_determined",
    "Ckpt.C64_not_entered",
    "Ckpt.C64_bytes_not_asked",
    "Ckpt.C64_library_dispatcher"
   ],
   "note": "Dispatchers that do not change the objects; what they tell the traverser is appended to what it has been shown."
  },
  {
   "property": "C65",
   "status": "proved",
   "theorems": [
    "Ckpt.C65_composed_roundtrip",
    "Ckpt.C65_composed_deserialize",
    "Ckpt.C65_composed_truncated",
    "Ckpt.C65_containers_agree",
    "Ckpt.C65_pointers_agree",
    "Ckpt.C65_variants_agree",
    "Ckpt.C65_tuples_agree"
   ],
   "note": "Variants all of whose alternatives are byte-copyable occur only as parts that are types of Model/Universe; pointers to virtually serializable classes are read over null pointers (over others: C78); views are values, sharing of memory between views is C73. The last four theorems: containers over types of Model/Universe run the functions of Model/Universe."
  },
  {
   "property": "C66",
   "status": "proved",
   "theorems": [
    "Ckpt.C66_stream_in_place",
    "Ckpt.C66_stream",
    "Ckpt.C66_memory",
    "Ckpt.C66_file",
    "Ckpt.C66_view_count_trusted",
    "Ckpt.C66_strides_trusted",
    "Ckpt.C66_view_within"
   ],
   "note": "Sizes of views do not wrap around and allocation succeeds, see DESIGN.md section 3. The two theorems on trusted data are the negative part of the statement."
  },
  {
   "property": "C67",
   "status": "proved",
   "theorems": [
    "Ckpt.C67_bytes",
    "Ckpt.C67_writing",
    "Ckpt.C67_file_write",
    "Ckpt.C67_file_read",
    "Ckpt.C67_wrong_type",
    "Ckpt.C67_full_medium",
    "Ckpt.C67_footprint",
    "Ckpt.C67_injective",
    "Ckpt.C67_crash",
    "Ckpt.C67_crash_detected"
   ],
   "note": "Types as in C65; which nested objects count towards the footprint is C70."
  },
  {
   "property": "C68",
   "status": "proved",
   "theorems": [
    "Ckpt.C68_program_roundtrip",
    "Ckpt.C68_resized_roundtrip",
    "Ckpt.C68_owned_roundtrip",
    "Ckpt.C68_arbitrary_input",
    "Ckpt.C68_patterns_arbitrary_input"
   ],
   "note": "Functions as in Model/Program.lean; effects other than on the object, exceptions of the user's code and allocation failure are not modelled."
  },
  {
   "property": "C69",
   "status": "proved",
   "theorems": [
    "Ckpt.C69_restores_or_rejects",
    "Ckpt.C69_rejected",
    "Ckpt.C69_file_rejected",
    "Ckpt.C69_different_members_rejected"
   ],
   "note": "Functions that distinguish packing from sizing are not modelled. Types that occur in a class with a mistake have different type indices; objects and arrays of such a class have less than 2^31 bytes."
  },
  {
   "property": "C70",
   "status": "proved",
   "theorems": [
    "Ckpt.C70_footprint",
    "Ckpt.C70_counted",
    "Ckpt.C70_base",
    "Ckpt.C70_arrays",
    "Ckpt.C70_containers",
    "Ckpt.C70_parts",
    "Ckpt.C70_classes",
    "Ckpt.C70_program",
    "Ckpt.C70_views",
    "Ckpt.C70_copied_views",
    "Ckpt.C70_kokkos_map"
   ],
   "note": "Types as in C65 and C68, and std::stack, std::priority_queue. The capacity of the copy of a label is a parameter (cfg.grow)."
  },
  {
   "property": "C71",
   "status": "proved",
   "theorems": [
    "Ckpt.C71_recursive_roundtrip",
    "Ckpt.C71_recursive_is_its_function",
    "Ckpt.C71_tree_roundtrip",
    "Ckpt.C71_chain_roundtrip",
    "Ckpt.C71_footprint",
    "Ckpt.C71_tree_footprint",
    "Ckpt.C71_chain_footprint",
    "Ckpt.C71_arbitrary_input",
    "Ckpt.C71_patterns_arbitrary_input",
    "Ckpt.C71_hierarchy_roundtrip",
    "Ckpt.C71_hierarchy_footprint",
    "Ckpt.C71_hierarchy_arbitrary_input"
   ],
   "note": "Functions as in C68. The call stack is unbounded in the model. In the hierarchy one class owns others; several that do are C74."
  },
  {
   "property": "C72",
   "status": "proved",
   "theorems": [
    "Ckpt.C72_generations",
    "Ckpt.C72_next",
    "Ckpt.C72_any_number",
    "Ckpt.C72_base",
    "Ckpt.C72_containers",
    "Ckpt.C72_pair",
    "Ckpt.C72_kokkos",
    "Ckpt.C72_classes",
    "Ckpt.C72_recursive",
    "Ckpt.C72_kokkos_map"
   ],
   "note": "Objects written to memory or files have less than 2^64 bytes; no system call fails. For an unordered map each step is the round trip of C50, which asks for room and unused keys."
  },
  {
   "property": "C73",
   "status": "proved",
   "theorems": [
    "Ckpt.C73_shared_views",
    "Ckpt.C73_separate",
    "Ckpt.C73_originals_share",
    "Ckpt.C73_contents_only",
    "Ckpt.C73_contents_seen"
   ],
   "note": "All views refer to memory of one element type; allocations no view refers to any more stay. Views of Kokkos in host memory, in other memory, or of const elements."
  },
  {
   "property": "C74",
   "status": "proved",
   "theorems": [
    "Ckpt.C74_hierarchy_roundtrip",
    "Ckpt.C74_hierarchy_is_pointer",
    "Ckpt.C74_footprint",
    "Ckpt.C74_arbitrary_input",
    "Ckpt.C74_owners_roundtrip",
    "Ckpt.C74_owners_footprint",
    "Ckpt.C74_owners_arbitrary_input"
   ],
   "note": "The members of the classes are given as a function of the type of pointers to the root, monotone in what it ends with (CppType.Grows). The call stack is unbounded in the model. Reading over a non-null pointer is C78."
  },
  {
   "property": "C75",
   "status": "proved",
   "theorems": [
    "Ckpt.C75_unchanged",
    "Ckpt.C75_noticed",
    "Ckpt.C75_which",
    "Ckpt.C75_nested",
    "Ckpt.C75_sequences",
    "Ckpt.C75_associative",
    "Ckpt.C75_values",
    "Ckpt.C75_kokkos",
    "Ckpt.C75_lists",
    "Ckpt.C75_classes",
    "Ckpt.C75_functions",
    "Ckpt.C75_recursive",
    "Ckpt.C75_shared",
    "Ckpt.C75_sparse",
    "Ckpt.C75_calls_elem",
    "Ckpt.C75_calls",
    "Ckpt.C75_files",
    "Ckpt.C75_file_kept",
    "Ckpt.C75_sized_first"
   ],
   "note": "The situations are any decidable condition on the serializer and the objects handled. What the objects hold after an exception is not said; heap memory, descriptors and mappings are the subject of C34, C36 and C40. Exceptions of constructors are C34 and C36."
  },
  {
   "property": "C76",
   "status": "proved",
   "theorems": [
    "Ckpt.C76_stream",
    "Ckpt.C76_memory",
    "Ckpt.C76_file",
    "Ckpt.C76_file_unreadable",
    "Ckpt.C76_returns",
    "Ckpt.C76_wrong_type",
    "Ckpt.C76_short_header",
    "Ckpt.C76_retry",
    "Ckpt.C76_all_or_nothing",
    "Ckpt.C76_elements",
    "Ckpt.C76_no_rollback"
   ],
   "note": "Types of Model/Universe. Moves, copies, comparisons and emplacements of user types do not throw and allocation succeeds. C76_no_rollback is the negative part of the statement: a vector is left with neither its old nor the saved contents."
  },
  {
   "property": "C77",
   "status": "proved",
   "theorems": [
    "Ckpt.C77_stream",
    "Ckpt.C77_checkpoint",
    "Ckpt.C77_no_lookahead",
    "Ckpt.C77_delivered",
    "Ckpt.C77_delivered_list",
    "Ckpt.C77_delivered_queue",
    "Ckpt.C77_delivered_pair",
    "Ckpt.C77_delivered_vector",
    "Ckpt.C77_delivered_array",
    "Ckpt.C77_delivered_set",
    "Ckpt.C77_delivered_unordered",
    "Ckpt.C77_delivered_tuple",
    "Ckpt.C77_delivered_hierarchy",
    "Ckpt.C77_trailer",
    "Ckpt.C77_whole",
    "Ckpt.C77_members",
    "Ckpt.C77_vector"
   ],
   "note": "Types of Model/Universe; Between (Spec/Between.lean) says type by type what is left. How far reading came is said by C77_delivered for the members of a class without bases and by C77_delivered_list, C77_delivered_queue and C77_delivered_pair for lists, deques, queues and pairs, by C77_delivered_vector and C77_delivered_array for vectors and arrays of a fixed length of numbers and, without error checking, of strings and containers, by C77_delivered_set and C77_delivered_unordered for sets and maps, by C77_delivered_tuple for tuples, by C77_delivered_hierarchy for the parts of objects of polymorphic classes."
  },
  {
   "property": "C78",
   "status": "proved",
   "theorems": [
    "Ckpt.C78_in_place",
    "Ckpt.C78_truncated",
    "Ckpt.C78_file",
    "Ckpt.C78_other_class",
    "Ckpt.C78_hierarchy_in_place",
    "Ckpt.C78_owners_in_place"
   ],
   "note": "OverOf (Spec/Over.lean) says part by part when an object is read over another; for types without a rule of their own there (optional, variant, ordered and unordered containers, Kokkos classes) it is what C65 allows. C78_other_class is the negative part of the statement, for builds with assertions."
  },
  {
   "property": "C79",
   "status": "proved",
   "theorems": [
    "Ckpt.C79_bytes",
    "Ckpt.C79_inner_header",
    "Ckpt.C79_unchecked_rejected",
    "Ckpt.C79_checked_flags",
    "Ckpt.C79_checked_strings",
    "Ckpt.C79_ambiguous",
    "Ckpt.C79_file_rejected",
    "Ckpt.C79_file_flags",
    "Ckpt.C79_file_strings"
   ],
   "note": "Types of Model/Universe; memory, streams and (C79_file_*) files, with the faults of system calls that can come first. BeginsCounted (Spec/Builds.lean) says which data begin with a count or a flag. C79_ambiguous is the negative part of the statement, with one type and two objects of which the data coincide."
  },
  {
   "property": "C80",
   "status": "proved",
   "theorems": [
    "Ckpt.C80_stream",
    "Ckpt.C80_new_from_stream",
    "Ckpt.C80_memory",
    "Ckpt.C80_new_from_memory",
    "Ckpt.C80_file",
    "Ckpt.C80_new_from_file",
    "Ckpt.C80_short_vector",
    "Ckpt.C80_short_string",
    "Ckpt.C80_capacity",
    "Ckpt.C80_empty_elements"
   ],
   "note": "Types of Model/Universe; Env.weight and Accounted (Spec/Weight.lean) say what is counted and which types are meant. Objects start empty (Env.StartsEmpty). The last four theorems are the negative part. Allocation succeeds in the model: that a program runs out of memory is not said, only how large the container is made."
  },
  {
   "property": "C81",
   "status": "proved",
   "theorems": [
    "Ckpt.C81_stream_in_place",
    "Ckpt.C81_stream",
    "Ckpt.C81_memory",
    "Ckpt.C81_file",
    "Ckpt.C81_reached"
   ],
   "note": "Types of Model/Universe; Ranked and NestsUpTo (Spec/Depth.lean) say what is meant by nesting. The number of nested calls is the first argument of elem: with n of them the model answers Out.fuel exactly when an object would have to be read within n others. The size of a stack frame and of the stack are not modelled."
  },
  {
   "property": "C82",
   "status": "proved",
   "theorems": [
    "Ckpt.C82_in_place",
    "Ckpt.C82_new",
    "Ckpt.C82_file",
    "Ckpt.C82_file_faults",
    "Ckpt.C82_overrun"
   ],
   "note": "Types of Model/Universe; SameReading (Spec/SameReading.lean) lists the pairs of outcomes that count as alike. Holds for every number of nested calls, without any condition on the object read into. User-written serialize functions that ask which serializer they are called with are not in the universe."
  },
  {
   "property": "C83",
   "status": "proved",
   "theorems": [
    "Ckpt.C83_stream",
    "Ckpt.C83_exact",
    "Ckpt.C83_memory",
    "Ckpt.C83_memory_exact",
    "Ckpt.C83_every_byte",
    "Ckpt.C83_new",
    "Ckpt.C83_file",
    "Ckpt.Demo.C83_set_order",
    "Ckpt.Demo.C83_variant_index",
    "Ckpt.Demo.C83_capacity",
    "Ckpt.Demo.C83_queue",
    "Ckpt.Demo.C83_class_ignored"
   ],
   "note": "Env.OneForm (Spec/SameButCaps.lean) lists the types; the last five theorems (Demo.*) are witnesses that the claim fails for the others. Every read that returns is covered, for every number of nested calls. Reading a bool that is neither 0 nor 1 is undefined behaviour in the model, not a read that returns."
  }
 ]
}