{
 "claims": [
  {
   "property": "C01",
   "status": "proved",
   "theorems": [
    "Verif.C01_int_roundtrip"
   ],
   "note": ""
  },
  {
   "property": "C02",
   "status": "proved",
   "theorems": [
    "Verif.C02_uint_roundtrip",
    "Verif.C02_uintptr_rejected"
   ],
   "note": "For every kind Marshal supports; uintptr is rejected by Marshal, see C02_uintptr_rejected."
  },
  {
   "property": "C03",
   "status": "proved",
   "theorems": [
    "Verif.C03_string_roundtrip",
    "Verif.C03_bytes_roundtrip"
   ],
   "note": "Lengths below 2^62."
  },
  {
   "property": "C04",
   "status": "proved",
   "theorems": [
    "Verif.C04_bool_roundtrip",
    "Verif.C04_bool_inputs"
   ],
   "note": ""
  },
  {
   "property": "C05",
   "status": "partial",
   "theorems": [
    "Verif.C05_float64_roundtrip",
    "Verif.C05_float64_all",
    "Verif.C05_float32_roundtrip_partial",
    "Verif.C05_float32_even_partial",
    "Verif.C05_float32_odd_partial",
    "Verif.C05_float32_counterexample",
    "Verif.C05_float32_odd_counterexample",
    "Verif.C05_float32_max_counterexample"
   ],
   "note": "Proved for every float64, given what strconv documents (Strconv: texts and conversions are rounded to the nearest). False of the code for float32: the decoder parses with 64 bits and rounds twice, which changes 0x15AE43FD, and refuses MaxFloat32. Proved for float32 in exact arithmetic: values with even bits come back the same, odd ones the same or as a neighbour."
  },
  {
   "property": "C06",
   "status": "partial",
   "theorems": [
    "Verif.C06_roundtrip_partial",
    "Verif.C06_floats",
    "Verif.C06_nil_pointee_counterexample",
    "Verif.C06_negative_zero_counterexample",
    "Verif.C06_dash_counterexample",
    "Verif.C06_rejected_counterexample",
    "Verif.C06_depth_counterexample"
   ],
   "note": "Proved for all types of the grammar, declared and recursive ones included, and all values of them. False of the code for pointers to nil slices or maps, negative zeros with omitempty, fields tagged -,\u2026, types that only Marshal accepts, a null inside 10000 containers, and float32 values that are rounded twice; a witness is proved for each."
  },
  {
   "property": "C07",
   "status": "proved",
   "theorems": [
    "Verif.C07_wellformed",
    "Verif.C07_nil"
   ],
   "note": "Also with Marshalers that return well-formed values."
  },
  {
   "property": "C08",
   "status": "proved",
   "theorems": [
    "Verif.C08_int_decode_exact",
    "Verif.C08_semicolon_witness"
   ],
   "note": "Exact for every text and width. The clause that the variable keeps its old value is for texts without a semicolon; C08_semicolon_witness shows why (trailing bytes after a complete integer are reported after the store)."
  },
  {
   "property": "C09",
   "status": "proved",
   "theorems": [
    "Verif.C09_uint_decode_exact",
    "Verif.C09_negative_rejected"
   ],
   "note": "As C08."
  },
  {
   "property": "C10",
   "status": "partial",
   "theorems": [
    "Verif.C10_panics_listed",
    "Verif.C10_no_panic_partial",
    "Verif.C10_length_counterexample",
    "Verif.C10_index_counterexample",
    "Verif.C10_anyKey_counterexample",
    "Verif.C10_ptrKey_counterexample",
    "Verif.C10_nil_destination_witness"
   ],
   "note": "False of the code: five kinds of input/destination make Unmarshal panic. Proved: every panic has one of the listed causes; no panic without them."
  },
  {
   "property": "C11",
   "status": "partial",
   "theorems": [
    "Verif.C11_terminates_partial",
    "Verif.C11_nesting"
   ],
   "note": "Ends for every input and every type whose recursion passes through structs; false for other recursive types (C34_decoder_counterexample). Nested calls are bounded by the input length and by the nesting limit, for every type."
  },
  {
   "property": "C12",
   "status": "proved",
   "theorems": [
    "Verif.C12_trailing_bytes"
   ],
   "note": ""
  },
  {
   "property": "C13",
   "status": "proved",
   "theorems": [
    "Verif.C13_truncation"
   ],
   "note": ""
  },
  {
   "property": "C14",
   "status": "proved",
   "theorems": [
    "Verif.C14_depth_limit",
    "Verif.C14_any_exact"
   ],
   "note": ""
  },
  {
   "property": "C15",
   "status": "proved",
   "theorems": [
    "Verif.C15_unknown_keys"
   ],
   "note": ""
  },
  {
   "property": "C16",
   "status": "proved",
   "theorems": [
    "Verif.C16_field_order"
   ],
   "note": ""
  },
  {
   "property": "C17",
   "status": "proved",
   "theorems": [
    "Verif.C17_map_last_wins",
    "Verif.C17_map_accepts"
   ],
   "note": ""
  },
  {
   "property": "C18",
   "status": "proved",
   "theorems": [
    "Verif.C18_array_by_index",
    "Verif.C18_array_last_value"
   ],
   "note": ""
  },
  {
   "property": "C19",
   "status": "proved",
   "theorems": [
    "Verif.C19_slice_by_index"
   ],
   "note": ""
  },
  {
   "property": "C20",
   "status": "partial",
   "theorems": [
    "Verif.C20_null_partial",
    "Verif.C20_other_counterexample",
    "Verif.C20_depth_counterexample"
   ],
   "note": "Holds for all types that compile except channels, functions etc., below the nesting limit; both exceptions are real."
  },
  {
   "property": "C21",
   "status": "proved",
   "theorems": [
    "Verif.C21_object_as_array",
    "Verif.C21_object_as_array_embedded"
   ],
   "note": ""
  },
  {
   "property": "C22",
   "status": "proved",
   "theorems": [
    "Verif.C22_any_meaning"
   ],
   "note": ""
  },
  {
   "property": "C23",
   "status": "proved",
   "theorems": [
    "Verif.C23_unmarshaler_bytes",
    "Verif.C23_not_called",
    "Verif.C23_held_unmarshaler_bytes"
   ],
   "note": ""
  },
  {
   "property": "C24",
   "status": "partial",
   "theorems": [
    "Verif.C24_marshaler_partial",
    "Verif.C24_error_partial",
    "Verif.C24_any_counterexample",
    "Verif.C24_pointer_counterexample"
   ],
   "note": "False of the code: the method is ignored for scalars, maps and slices of interfaces held in interfaces, and for pointer-receiver methods of pointer fields and of pointers held in interfaces. Proved for every other place, any number of levels deep, with errors passed on."
  },
  {
   "property": "C25",
   "status": "proved",
   "theorems": [
    "Verif.C25_output",
    "Verif.C25_roundtrip",
    "Verif.C25_roundtrip_any_struct"
   ],
   "note": "Output for every struct; round trip without further hypotheses for structs with one field, and for any struct under the hypotheses of C06."
  },
  {
   "property": "C26",
   "status": "proved",
   "theorems": [
    "Verif.C26_struct_fields"
   ],
   "note": ""
  },
  {
   "property": "C27",
   "status": "proved",
   "theorems": [
    "Verif.C27_unmarshal_frame",
    "Verif.C27_unmarshal_keeps_ignored",
    "Verif.C27_marshal_ignores",
    "Verif.C26_struct_fields",
    "Verif.C27_omitempty_witness"
   ],
   "note": "Decoder: never modified. Encoder: not among the written fields and without influence on the output. C27_omitempty_witness notes that they do count when omitempty asks whether an enclosing struct value is zero."
  },
  {
   "property": "C28",
   "status": "partial",
   "theorems": [
    "Verif.C28_guarded_partial",
    "Verif.C28_no_methods_partial",
    "Verif.C28_no_text_partial",
    "Verif.C28_held_counterexample",
    "Verif.C28_pointer_counterexample"
   ],
   "note": "False of the code: Marshal does not return for a struct that holds a pointer to itself in an interface, and for an interface variable that holds its own address; both proved. Proved, methods included: no value with a cycle that no MarshalPHP method interrupts gives a text, and if every cycle passes a place guarded by a recursion check, Marshal ends with an error or the panic of a method."
  },
  {
   "property": "C29",
   "status": "partial",
   "theorems": [
    "Verif.C29_acyclic_partial",
    "Verif.C29_shallow_partial",
    "Verif.C29_slice_counterexample",
    "Verif.C29_pointer_counterexample",
    "Verif.C29_held_counterexample"
   ],
   "note": "False of the code: the recursion error is returned for some finite values (a slice that holds a shorter slice of its own array inside interfaces; a pointer to the first field of a struct around it, deeper than 1000 levels; a concrete slice in an interface at 1000 levels or deeper); a witness is proved for each. Proved, for any depth and any sharing, when addresses tell values apart and such slices are less than 1000 levels deep, and for all values of less than 1000 levels without slices and maps in interfaces."
  },
  {
   "property": "C30",
   "status": "proved",
   "theorems": [
    "Verif.C30_history",
    "Verif.C30_same",
    "Verif.C30_next"
   ],
   "note": "Model/Pool.lean: contexts and struct buffers are objects in shared memory, taken from and returned to pools; calls write to memory and results are read from memory. C30_history: every call that returned, in any interleaving of any number of goroutines after any history (failed and panicked calls included), returned what Marshal returns with a new context and new buffers. C30_same compares two histories. C30_next is the sequential statement about the context alone. The steps of a call are any list of appends, buffer allocations and context changes that has the outcome of the encoder model."
  },
  {
   "property": "C31",
   "status": "proved",
   "theorems": [
    "Verif.C31_encoder",
    "Verif.C31_decoder",
    "Verif.C31_no_race",
    "Verif.C31_immutable",
    "Verif.C31_stored",
    "Verif.C31_not_blocked",
    "Verif.C31_lost_witness"
   ],
   "note": "Any number of goroutines using the two caches of prepared types, in any interleaving of the single loads, compilations, map allocations, map writes and atomic stores: every request that is answered gets the answer preparing the type alone gives (encoder and decoder), no map that is shared is ever written (so no data race), maps that were published never change, what is stored is right, and no goroutine waits for another. C31_lost_witness shows that a store can be lost (two goroutines racing), which only costs time."
  },
  {
   "property": "C32",
   "status": "proved",
   "theorems": [
    "Verif.C32_map_order",
    "Verif.C32_entry_order"
   ],
   "note": "C32_entry_order: any map type, any reordering of the entries of a text. C32_map_order: maps at any place of a value of the types of C06."
  },
  {
   "property": "C33",
   "status": "partial",
   "theorems": [
    "Verif.C33_input",
    "Verif.C33_same",
    "Verif.C33_places",
    "Verif.C33_separate",
    "Verif.C33_later",
    "Verif.C33_write",
    "Verif.C33_append_partial",
    "Verif.C33_append_counterexample"
   ],
   "note": "Decoding with byte slices as (array, position, length): proved that the input and all other arrays are unchanged, that the result refers only to a new array, that later writes to the input do not show, that the decoded byte slices do not overlap, and that writing to one changes only that one. Appending is proved harmless only if the bytes fit before the next slice or a new array is made; in general it is false (capacity is not limited), witness proved. UnmarshalPHP methods may keep parts of their argument that do not touch (those of map keys and of values in interfaces keep nothing); pointers shared inside the destination are not modelled."
  },
  {
   "property": "C34",
   "status": "partial",
   "theorems": [
    "Verif.C34_decoder_ends_partial",
    "Verif.C34_decoder_diverges",
    "Verif.C34_decoder_counterexample",
    "Verif.C34_encoder_ends_partial",
    "Verif.C34_encoder_diverges",
    "Verif.C34_encoder_counterexample"
   ],
   "note": "False of the code: preparing a type for decoding never returns if it recurses without a struct, for encoding if an array contains itself. Proved to end (with a decoder/encoder or an error) for all other types."
  },
  {
   "property": "C35",
   "status": "partial",
   "theorems": [
    "Verif.C35_scalar_unchanged_partial",
    "Verif.C35_bytes_counterexample"
   ],
   "note": "Proved for scalars and strings; false for []byte, which an a: input that fails half-way overwrites."
  },
  {
   "property": "C36",
   "status": "partial",
   "theorems": [
    "Verif.C36_counterexamples",
    "Verif.C36_counts_enforced_partial"
   ],
   "note": "False of the code: counts of stored containers are ignored. Enforced where values are skipped or handed to Unmarshalers."
  },
  {
   "property": "C37",
   "status": "partial",
   "theorems": [
    "Verif.C37_held_partial",
    "Verif.C37_acyclic_partial",
    "Verif.C37_value_partial",
    "Verif.C37_array_counterexample",
    "Verif.C37_method_counterexample",
    "Verif.C37_recursion_counterexample"
   ],
   "note": "Proved, for types without arrays and without MarshalPHP methods that interfaces ignore, that a value in an interface is written as in a variable: equal bytes unless recursion is reported (C37_held_partial, C37_value_partial), equal bytes where addresses tell the parts apart (C37_acyclic_partial). False in general: arrays in interfaces are unsupported, MarshalPHP of scalars is not called in interfaces, and a finite value can be reported as recursive only when in an interface; witnesses proved."
  },
  {
   "property": "C38",
   "status": "partial",
   "theorems": [
    "Verif.C38_value_partial",
    "Verif.C38_pointer_partial",
    "Verif.C38_struct_partial",
    "Verif.C38_nested_counterexample",
    "Verif.C38_struct_counterexample"
   ],
   "note": "Same bytes for pointers to everything but structs and pointers (C38_pointer_partial); for structs the only other result is the recursion error, which does occur for finite values deeper than 1000 levels. Pointers to pointers are rejected."
  },
  {
   "property": "C39",
   "status": "proved",
   "theorems": [
    "Verif.C39_nil_is_null",
    "Verif.C39_top"
   ],
   "note": "For nil values whose type has no MarshalPHP method, in every place that is written."
  },
  {
   "property": "C40",
   "status": "partial",
   "theorems": [
    "Verif.C40_objects_partial",
    "Verif.C40_array_partial",
    "Verif.C40_array_counterexample",
    "Verif.C40_object_counterexample"
   ],
   "note": "False as stated: arrays decode into map[any]any, which Marshal rejects, and objects come back as arrays. Proved for values without map[any]any: Marshal succeeds and decoding its text succeeds with the same entries, every map[string]any having become a map[any]any. Proved for values with a map[any]any anywhere: Marshal returns no text. strconv is trusted for the floats in the value."
  },
  {
   "property": "C41",
   "status": "proved",
   "theorems": [
    "Verif.C41_string_exact_length",
    "Verif.C41_string_never_panics"
   ],
   "note": ""
  },
  {
   "property": "C42",
   "status": "partial",
   "theorems": [
    "Verif.C42_tag_meaning",
    "Verif.C42_decode_key",
    "Verif.C42_same_key_partial",
    "Verif.C42_dash_counterexample"
   ],
   "note": "Meaning of tags for every tag string; Marshal writes each field under the key by which Unmarshal finds that field. False for the tag -,omitempty: Unmarshal uses the key -, Marshal skips the field."
  },
  {
   "property": "C43",
   "status": "proved",
   "theorems": [
    "Verif.C43_contexts",
    "Verif.C43_buffers",
    "Verif.C43_pooled",
    "Verif.C43_clean",
    "Verif.C43_untouched",
    "Verif.C43_not_blocked"
   ],
   "note": "Same model as C30: no two calls (or structs within a call) use the same context or buffer, pooled objects are in no use and pooled once, pooled contexts are clean, steps do not change objects of other goroutines, and no call waits for another."
  },
  {
   "property": "C44",
   "status": "proved",
   "theorems": [
    "Verif.C44_position_independent",
    "Verif.C44_alone_or_embedded"
   ],
   "note": ""
  },
  {
   "property": "C45",
   "status": "partial",
   "theorems": [
    "Verif.C45_accepts_partial",
    "Verif.C45_counterexample",
    "Verif.C45_duplicate_counterexample",
    "Verif.C45_method_counterexample",
    "Verif.C45_recursive_counterexample"
   ],
   "note": "False of the code: string fields with the string option, embedded pointers to structs, key - with further options, duplicate keys, recursive slices and structs with MarshalPHP only are accepted by Marshal only. Proved when the structs keep these rules of Unmarshal and Unmarshal looks no further into types with MarshalPHP than Marshal does."
  },
  {
   "property": "C46",
   "status": "proved",
   "theorems": [
    "Verif.C46_valid_destination"
   ],
   "note": ""
  },
  {
   "property": "C47",
   "status": "proved",
   "theorems": [
    "Verif.C47_accepted_is_wellformed"
   ],
   "note": ""
  },
  {
   "property": "C48",
   "status": "proved",
   "theorems": [
    "Verif.C48_fixed_shape_safe"
   ],
   "note": "No panic and no endless run, whatever lengths, counts and indices the input declares. Allocation sizes are not part of the model."
  },
  {
   "property": "C49",
   "status": "proved",
   "theorems": [
    "Verif.C49_panics",
    "Verif.C49_no_methods",
    "Verif.C49_nil_call"
   ],
   "note": "For all values that have the form of their types. C49_nil_call shows that the exception for nil receivers is real."
  },
  {
   "property": "C50",
   "status": "proved",
   "theorems": [
    "Verif.C50_ends"
   ],
   "note": ""
  },
  {
   "property": "C51",
   "status": "partial",
   "theorems": [
    "Verif.C51_destination_partial",
    "Verif.C51_nil_counterexample"
   ],
   "note": "False for a nil interface, where the call panics in reflect (rv.Type() of the zero Value); proved for nil pointers, non-pointers and empty input."
  },
  {
   "property": "C52",
   "status": "proved",
   "theorems": [
    "Verif.C52_linear",
    "Verif.C52_numbers",
    "Verif.C52_map_reserves",
    "Verif.C52_any_reserves",
    "Verif.C52_slice_reserves",
    "Verif.C52_slice_quadratic"
   ],
   "note": "A second pass over the decoder model adds up the sizes of all allocations of a call. Proved: linear in the input for types without slices, maps and any; linear in length times largest declared number for all types; the declared number of entries is reserved unseen for maps, any and slices, and a list of n elements takes n slices (quadratic). Not counted: errors, preparing types, spare room of maps, allocations of user methods."
  },
  {
   "property": "C53",
   "status": "proved",
   "theorems": [
    "Verif.C53_history",
    "Verif.C53_same",
    "Verif.C53_contexts",
    "Verif.C53_pooled",
    "Verif.C53_reads",
    "Verif.C53_untouched",
    "Verif.C53_private",
    "Verif.C53_not_blocked"
   ],
   "note": "Transition system of goroutines, the context pool, contexts and copies of inputs; a call is any sequence of reads of ctx.Buf that leads to the outcome of the sequential model when every read gives the input. Assumes sync.Pool hands an object to one caller at a time and that UnmarshalPHP methods do not write to their argument during the call."
  },
  {
   "property": "C54",
   "status": "partial",
   "theorems": [
    "Verif.C54_located_partial",
    "Verif.C54_class_name_beyond",
    "Verif.C54_shown_near",
    "Verif.C54_shown_partial",
    "Verif.C54_shown_elsewhere",
    "Verif.C54_shown_nowhere",
    "Verif.C54_methods"
   ],
   "note": "Proved for all inputs and destinations: the Offset is within the input except for the end of input inside a class name; a byte shown stands within two bytes of the Offset, exactly at it except in the messages for null, bool and trailing bytes; the message about nesting depth may show an 'a' that is not in the input. The exceptions are real, witnesses proved. Methods of the program are assumed not to show bytes and to report positions within their argument."
  },
  {
   "property": "C55",
   "status": "proved",
   "theorems": [
    "Verif.C55_final",
    "Verif.C55_panic_final",
    "Verif.C55_truncated",
    "Verif.C55_end_misreported"
   ],
   "note": "Two runs of every decoder function are compared, on an input and on a longer one. For the second half the destination holds a value of its type and methods return, as in C10. Beyond the property: the converse fails, bools and slices report a wrong first byte as an unexpected end (witness)."
  },
  {
   "property": "C56",
   "status": "proved",
   "theorems": [
    "Verif.C56_idempotent",
    "Verif.C56_old_irrelevant",
    "Verif.C56_nan_key_grows"
   ],
   "note": "What a document does to a destination is shown to be an overlay (keep, replace, through a pointer, per field, insert entries) that does not depend on the destination; overlays are idempotent. That the outcome (including which error or panic) does not depend on the old contents is a comparison of two runs of every decoder. UnmarshalPHP of a declared type is a function of its argument, as everywhere in the model. The excepted NaN case is proved as a witness."
  },
  {
   "property": "C57",
   "status": "proved",
   "theorems": [
    "Verif.C57_concat"
   ],
   "note": "For structs the destination holds a struct value. Counts are numerals without overflow; their values do not matter."
  },
  {
   "property": "C58",
   "status": "proved",
   "theorems": [
    "Verif.C58_any_typed",
    "Verif.C58_scalar_any",
    "Verif.C58_object_any",
    "Verif.C58_array_one_way"
   ],
   "note": "Beyond the property: for arrays and map[any]any the converse fails (boolean keys are accepted only by the typed map), by witness."
  },
  {
   "property": "C59",
   "status": "proved",
   "theorems": [
    "Verif.C59_work_bound",
    "Verif.C59_work_quadratic",
    "Verif.C59_list_witness"
   ],
   "note": "a count of appended bytes beside every encoder, bounded by the text it leaves; the bound is reached up to a constant factor by linked lists of any length"
  },
  {
   "property": "C60",
   "status": "proved",
   "theorems": [
    "Verif.C60_memory",
    "Verif.C60_separate",
    "Verif.C60_new_variable",
    "Verif.C60_shared_witness"
   ],
   "note": "The destination holds a tree without sharing (its objects are listed without duplicates); zero values have no references; methods change only what they are called on. The last part is a witness: a node that points to itself."
  },
  {
   "property": "C61",
   "status": "proved",
   "theorems": [
    "Verif.C61_frame"
   ],
   "note": "No condition on the memory. Methods reach only what they are called on (Confined). Per object, and per place in the object with the destination."
  },
  {
   "property": "C62",
   "status": "proved",
   "theorems": [
    "Verif.C62_typed",
    "Verif.C62_outcome",
    "Verif.C62_panics",
    "Verif.C62_terminates"
   ],
   "note": "Types with the same underlying type count as equal. Methods keep memory well-typed (C62_typed) and have the same outcomes on new variables as on trees (the others). Interfaces with methods are excluded from the outcome part, as in C56: what they hold decides what decoding does."
  },
  {
   "property": "C63",
   "status": "proved",
   "theorems": [
    "Verif.C63_widen",
    "Verif.C63_widen_new",
    "Verif.C63_upgrade",
    "Verif.C63_drop_counterexample",
    "Verif.C63_add_counterexample"
   ],
   "note": "The conditions on the text are needed: two witnesses. The wider type must be one that can be prepared; toF32 0 = 0 and zero values are as reflect makes them."
  },
  {
   "property": "C64",
   "status": "partial",
   "theorems": [
    "Verif.C64_float64",
    "Verif.C64_any",
    "Verif.C64_nearest",
    "Verif.C64_float32_partial",
    "Verif.C64_float32_counterexample"
   ],
   "note": "Proved for float64 and interfaces, given what strconv documents. False of the code for float32, two witnesses: the text is rounded to float64 first, which can give a neighbour of the nearest float32, and a text slightly above MaxFloat32 is refused although it rounds to it. Proved that nothing worse happens."
  },
  {
   "property": "C65",
   "status": "proved",
   "theorems": [
    "Verif.C65_exact",
    "Verif.C65_utf8",
    "Verif.C65_plain"
   ],
   "note": "By C23 the decoders never reach the quoted case, because no value in serialized form begins with a quote."
  },
  {
   "property": "C66",
   "status": "proved",
   "theorems": [
    "Verif.C66_float64",
    "Verif.C66_float32"
   ],
   "note": "The shortest text itself is strconv's."
  },
  {
   "property": "C67",
   "status": "partial",
   "theorems": [
    "Verif.C67_anywhere",
    "Verif.C67_refused",
    "Verif.C67_partial",
    "Verif.C67_not_type_errors"
   ],
   "note": "Always refused with the variable unchanged, and with which error is proved for every type. That the error is a type error naming the kind is false of the code except for booleans, numbers and floats read into strings and byte slices; three witnesses."
  },
  {
   "property": "C68",
   "status": "proved",
   "theorems": [
    "Verif.C68_prepared",
    "Verif.C68_same"
   ],
   "note": "Declared types must not be declared in circles (NamedOk). What names the objects carry into type errors is C72."
  },
  {
   "property": "C69",
   "status": "partial",
   "theorems": [
    "Verif.C69_partial",
    "Verif.C69_exponential",
    "Verif.C69_few_types"
   ],
   "note": "Proved for struct types that contain no other struct type. False of the code otherwise: a witness for every depth n, with n+1 struct types and 2^(n+1)-1 decoders."
  },
  {
   "property": "C70",
   "status": "proved",
   "theorems": [
    "Verif.C70_prepared",
    "Verif.C70_same",
    "Verif.C70_set"
   ],
   "note": "Encoders are made anew where the code looks into its cache; C31 is about the cache."
  },
  {
   "property": "C71",
   "status": "partial",
   "theorems": [
    "Verif.C71_partial",
    "Verif.C71_arrays"
   ],
   "note": "Proved for types that contain no arrays. False of the code for arrays: a witness with two struct types and three encoders."
  },
  {
   "property": "C72",
   "status": "partial",
   "theorems": [
    "Verif.C72_partial",
    "Verif.C72_place_unique",
    "Verif.C72_unsigned",
    "Verif.C72_recursive",
    "Verif.C72_type"
   ],
   "note": "Proved with three exceptions: unsigned integers, keys of structs that contain themselves, and types of strings and declared slice types. False of the code there: witnesses."
  },
  {
   "property": "C73",
   "status": "partial",
   "theorems": [
    "Verif.C73_partial",
    "Verif.C73_input",
    "Verif.C73_refused",
    "Verif.C73_changed"
   ],
   "note": "Proved for methods that write to no byte behind their argument or that they keep. Methods of map keys and of values in interfaces keep nothing. False of the code for methods that append to it: witnesses."
  },
  {
   "property": "C74",
   "status": "proved",
   "theorems": [
    "Verif.C74",
    "Verif.C74_reads",
    "Verif.C74_total",
    "Verif.C74_only"
   ],
   "note": "Counts looks of the decoder at its buffer. Looks of the standard library (map hashing, strconv) count as one per byte; looks of methods, of error messages and the second look at leading zeros of an integer are not counted."
  },
  {
   "property": "C75",
   "status": "proved",
   "theorems": [
    "Verif.C75",
    "Verif.C75_counts",
    "Verif.C75_twice",
    "Verif.C75_nullKey",
    "Verif.C75_huge"
   ],
   "note": "For lists as PHP writes them (different indices, no leading zeros in the count, indices that a slice can have memory for) and variables that hold nothing which would stay. C75_counts, C75_twice and C75_huge show that these conditions are needed."
  },
  {
   "property": "C76",
   "status": "partial",
   "theorems": [
    "Verif.C76_clean_partial",
    "Verif.C76_short_partial",
    "Verif.C76_repeated",
    "Verif.C76_bounded",
    "Verif.C76_names_shown",
    "Verif.C76_control_counterexample",
    "Verif.C76_utf8_counterexample",
    "Verif.C76_long_counterexample"
   ],
   "note": "Proved for all inputs and destinations: the text is clean if the byte it shows and the number it repeats are; it has at most 320 bytes besides names and what it repeats, which is a part of the input. Without these conditions the property is false, witnesses proved. The texts of reflect and strconv are as documented; methods of the program return their own errors."
  },
  {
   "property": "C77",
   "status": "proved",
   "theorems": [
    "Verif.C77_usual_spelling",
    "Verif.C77_respelled",
    "Verif.C77_zeros_refused"
   ],
   "note": "UnmarshalPHP methods are asked not to tell the spellings apart. C77_zeros_refused: the other direction is false."
  },
  {
   "property": "C78",
   "status": "partial",
   "theorems": [
    "Verif.C78_php_reads",
    "Verif.C78_trip_partial",
    "Verif.C78_number_key_refused",
    "Verif.C78_number_key_counterexample",
    "Verif.C78_number_field_counterexample",
    "Verif.C78_uint_counterexample"
   ],
   "note": "Proved under the conditions of C06 for values none of whose string keys is a numeral that PHP makes an integer of; false otherwise, witnesses proved. PHP is modelled as a relation on documents (arrays and scalars)."
  },
  {
   "property": "C79",
   "status": "partial",
   "theorems": [
    "Verif.C79_used",
    "Verif.C79_marshal_partial",
    "Verif.C79_roundtrip_partial",
    "Verif.C79_map_counterexample",
    "Verif.C79_omitempty_counterexample",
    "Verif.C79_bytes_counterexample"
   ],
   "note": "Proved for all documents that replace all there is, and for texts of Marshal if the types written to in place are written wholly. False for maps, omitempty and declared byte slices, witnesses proved."
  },
  {
   "property": "C80",
   "status": "partial",
   "theorems": [
    "Verif.C80_roundtrip_partial",
    "Verif.C80_handover_partial",
    "Verif.C80_pointer_receiver_counterexample",
    "Verif.C80_map_key_counterexample",
    "Verif.C80_string_counterexample",
    "Verif.C80_declared_pointer_counterexample",
    "Verif.C80_null_counterexample"
   ],
   "note": "Proved for types built from ordinary types and types with both methods (value receiver) anywhere but as map keys, with the option string or behind declared pointer types. False there, and for methods that write null, witnesses proved."
  },
  {
   "property": "C81",
   "status": "proved",
   "theorems": [
    "Verif.C81_calls",
    "Verif.C81_determined",
    "Verif.C81_any_outcome",
    "Verif.C81_same"
   ],
   "note": "What a method does may depend on all calls made before it. The method is a function of that history; it does not see the variable it is called on, and what it writes elsewhere is not modelled (C60, C73 are about that)."
  },
  {
   "property": "C82",
   "status": "proved",
   "theorems": [
    "Verif.C82_calls",
    "Verif.C82_determined",
    "Verif.C82_any_outcome",
    "Verif.C82_first_failure",
    "Verif.C82_same"
   ],
   "note": "What a method returns may depend on all calls made before it. Methods do not call the library themselves and do not change the value that is being encoded. The list of calls does not contain attempts on nil values that panic before a method runs."
  },
  {
   "property": "C83",
   "status": "partial",
   "theorems": [
    "Verif.C83_same_text",
    "Verif.C83_equal_text",
    "Verif.C83_outcome",
    "Verif.C83_acyclic_outcome",
    "Verif.C83_addresses_counterexample",
    "Verif.C83_again_partial",
    "Verif.C83_empty_slice_counterexample",
    "Verif.C83_hidden_field_counterexample"
   ],
   "note": "The first part is proved as stated, for methods that return the same for the same value and a strconv that writes all NaNs alike. If one of the two memories gives a text, then so does the other or it reports a recursive structure; the report depends on the addresses (C29). The second part is false of the code for empty slices and for structs with omitempty that differ from zero in fields that are not written; proved for all other values for which C06 holds."
  },
  {
   "property": "C84",
   "status": "partial",
   "theorems": [
    "Verif.C84_tells_partial",
    "Verif.C84_iff_partial",
    "Verif.C84_interface_counterexample",
    "Verif.C84_pointer_counterexample",
    "Verif.C84_keys_counterexample"
   ],
   "note": "False of the code for interfaces (an int8 is written as an int), pointers to nil (written as a nil pointer is) and structs of which two fields have the same key; proved for all other values, for methods that return different well-formed texts for different values, with strconv as specified in Spec/Ieee. For values without maps also the converse: equal texts exactly for equal values."
  },
  {
   "property": "C85",
   "status": "partial",
   "theorems": [
    "Verif.C85_range",
    "Verif.C85_writes_partial",
    "Verif.C85_mixed_counterexample",
    "Verif.C85_object_counterexample"
   ],
   "note": "The exact set of texts is proved (C85_range). The first half of the property is false of the code for arrays with both integer and string keys, witness proved; proved for all other values of PHP without objects. Keys and integers may also be unsigned integers of 64 bits, which PHP does not have. Values are as Go has them (integers in range, map keys distinct); structs with two fields of one key are left out."
  },
  {
   "property": "C86",
   "status": "proved",
   "theorems": [
    "Verif.C86_tells",
    "Verif.C86_meaning"
   ],
   "note": "For texts of less than 2^63 bytes and values nested at most 10000 levels deep, beyond which nothing is read (C14)."
  },
  {
   "property": "C87",
   "status": "partial",
   "theorems": [
    "Verif.C87_marshal_faults",
    "Verif.C87_marshal_exact",
    "Verif.C87_marshal_names",
    "Verif.C87_unmarshal_faults",
    "Verif.C87_unmarshal_exact",
    "Verif.C87_unmarshal_names_partial",
    "Verif.C87_embedded_counterexample"
   ],
   "note": "Full for Marshal. Missing for Unmarshal: the error for embedded structs shows no type, counterexample proved. Exactness is for types whose preparation ends (C34)."
  },
  {
   "property": "C88",
   "status": "proved",
   "theorems": [
    "Verif.C88_errors",
    "Verif.C88_plain",
    "Verif.C88_cyclic",
    "Verif.C88_succeeds",
    "Verif.C88_held_witness"
   ],
   "note": "Success is for values that meet the hypotheses of C29 (addresses tell parts apart) and C50 (no array type that contains itself). Which text of Err.unsupported is returned is not claimed for faults of types, see C87."
  },
  {
   "property": "C89",
   "status": "proved",
   "theorems": [
    "Verif.C89_barred",
    "Verif.C89_failure",
    "Verif.C89_exact",
    "Verif.C89_hidden_witness"
   ],
   "note": "The equivalence is for values that meet the hypotheses of C29 and C50, as in C88; panics of methods and of nil pointers are covered. That barred values are not written needs no hypothesis."
  },
  {
   "property": "C90",
   "status": "proved",
   "theorems": [
    "Verif.C90_accepted",
    "Verif.C90_refused",
    "Verif.C90_entries"
   ],
   "note": "For types from which no interface with methods is reached (what these hold decides). C90_entries is for arrays at the top of the text, C90_accepted gives the same at every place."
  },
  {
   "property": "C91",
   "status": "proved",
   "theorems": [
    "Verif.C91_order",
    "Verif.C91_length"
   ],
   "note": "For types from which no interface with methods is reached. Methods of reached types are asked not to mind the order of entries; for types without methods this premise holds of itself."
  },
  {
   "property": "C92",
   "status": "proved",
   "theorems": [
    "Verif.C92_value",
    "Verif.C92_equal",
    "Verif.C92_twice_witness"
   ],
   "note": "For types from which no interface with methods is reached; methods of reached types are asked not to mind the order, and keys of maps to have none. C92_twice_witness shows that keys have to differ."
  },
  {
   "property": "C93",
   "status": "proved",
   "theorems": [
    "Verif.C93_rearranged",
    "Verif.C93_same"
   ],
   "note": "For types without methods and interfaces and values as in C06_roundtrip_partial; floats are written by strconv without semicolons."
  }
 ]
}