{"id": "C01", "title": "Signed integers survive a round trip", "statement": "For every signed integer kind (int8, int16, int32, int64, int) and every value of that kind, Marshal succeeds and Unmarshal of the produced bytes into a variable of the same kind succeeds and yields the same value.", "quantifier": "every integer kind and every value of its range, including the minimum", "why_tests_cant": "2^64 values; the sign, MinInt64 and 19-digit boundary are exactly where hand-picked tests miss", "anchors": ["/repo/internal/encoder/int.go:appendInt", "/repo/internal/decoder/int.go:parseInt64,intDecoder", "/repo/internal/decoder/context.go:readIntegerBytes"]}
{"id": "C02", "title": "Unsigned integers survive a round trip", "statement": "For every unsigned kind Marshal supports (all but uintptr) and every value, including uint64 values above MaxInt64, Marshal followed by Unmarshal into the same kind yields the same value.", "quantifier": "every unsigned kind and value", "why_tests_cant": "value space is 2^64 and upper half has different digit count and overflow behaviour", "anchors": ["/repo/internal/encoder/uint.go:appendUint", "/repo/internal/decoder/uint.go:uintDecoder,parseUint"]}
{"id": "C03", "title": "Strings and byte slices survive a round trip byte for byte", "statement": "For every byte sequence (quotes, semicolons, braces, NUL, invalid UTF-8, text that looks like serialized data) Marshal of a string or []byte followed by Unmarshal into the same type gives the same bytes; a nil []byte comes back as an empty one.", "quantifier": "every finite byte sequence", "why_tests_cant": "the space of contents is infinite and the format uses delimiters that may occur inside the data", "anchors": ["/repo/internal/encoder/string.go:appendString", "/repo/internal/encoder/bytes.go:appendBytes", "/repo/internal/decoder/context.go:readString", "/repo/internal/decoder/string.go", "/repo/internal/decoder/bytes.go"]}
{"id": "C04", "title": "Booleans survive a round trip and only b:0; and b:1; are booleans", "statement": "Marshal/Unmarshal of a bool is the identity, and Unmarshal into a bool variable accepts exactly the inputs b:0; , b:1; and N; (the last leaving the variable unchanged).", "quantifier": "every bool value; every input byte sequence", "why_tests_cant": "the accept set is a statement about all byte strings", "anchors": ["/repo/internal/encoder/bool.go", "/repo/internal/decoder/bool.go", "/repo/internal/decoder/context.go:readBool"]}
{"id": "C05", "title": "Floats survive a round trip, including INF, -INF and NAN", "statement": "For every float64/float32 value, Marshal followed by Unmarshal gives the same value (NaN gives NaN), given that strconv formats and parses finite floats faithfully.", "quantifier": "every float bit pattern", "why_tests_cant": "2^64 bit patterns and three special spellings that bypass strconv", "anchors": ["/repo/internal/encoder/float.go:appendFloat32,appendFloat64,appendSpecialFloat", "/repo/internal/decoder/float.go:floatDecoder.processBytes"]}
{"id": "C06", "title": "Composite values survive a round trip", "statement": "For every type built from bools, integers, floats, strings, []byte, pointers, slices, fixed arrays, maps with string or integer keys and structs, and every finite value of it, if Marshal succeeds (and nesting is at most 10000 levels) then Unmarshal of the output into a zero variable of the same type succeeds and yields the same value, where an empty non-nil slice comes back nil, a nil []byte comes back empty, and map order does not matter.", "quantifier": "every type of the grammar, every value, every map iteration order", "why_tests_cant": "types and values are unbounded trees; tests check a few shapes", "anchors": ["/repo/marshal.go:Marshal", "/repo/unmarshal.go:Unmarshal", "/repo/internal/encoder", "/repo/internal/decoder"]}
{"id": "C07", "title": "Marshal output is exactly one well-formed PHP value", "statement": "Whenever Marshal succeeds on a value with no custom Marshaler in it, the output is one complete PHP-serialized value: every string length prefix is the byte length, every array count is the number of key/value pairs that follow, and nothing is left over.", "quantifier": "every value, every iteration order, every pool state", "why_tests_cant": "counts and lengths are written before the payload; being right for every nesting and omitempty combination is not testable", "anchors": ["/repo/internal/encoder/struct.go:compileStructFields", "/repo/internal/encoder/slice.go", "/repo/internal/encoder/map.go", "/repo/internal/encoder/array.go", "/repo/internal/encoder/common.go"]}
{"id": "C08", "title": "Signed integer decoding is exact", "statement": "Unmarshal of i:<text>; into a signed integer of width w succeeds if and only if text is an optional minus sign followed by one or more digits whose decimal value lies in the range of w; the stored value is that decimal value; otherwise an error is returned and (if text contains no semicolon, which would end the value early) the variable keeps its old value. Nothing is ever truncated or wrapped.", "quantifier": "every byte text, every width", "why_tests_cant": "unbounded texts (leading zeros, 19/20 digits) against table-driven arithmetic in uint64", "anchors": ["/repo/internal/decoder/int.go:parseInt64,pow10i64,intDecoder.processBytes", "/repo/internal/decoder/context.go:readIntegerBytes"]}
{"id": "C09", "title": "Unsigned integer decoding is exact", "statement": "Unmarshal of i:<text>; into an unsigned integer succeeds if and only if text is a non-empty digit string whose value is in range; negative numbers (also -0) are rejected; otherwise (if text contains no semicolon) the variable keeps its old value.", "quantifier": "every byte text, every width", "why_tests_cant": "as C08", "anchors": ["/repo/internal/decoder/uint.go:uintDecoder"]}
{"id": "C10", "title": "Unmarshal never panics on any input", "statement": "For every input byte sequence and every non-nil pointer destination, Unmarshal returns (possibly an error) and never panics.", "quantifier": "every byte sequence, every destination type and initial value", "why_tests_cant": "one out-of-bounds index on one malformed input is enough to break it; fuzzing samples only", "anchors": ["/repo/unmarshal.go", "/repo/internal/decoder/context.go:hasByte,hasBytes", "/repo/internal/decoder"]}
{"id": "C11", "title": "Unmarshal always terminates, with recursion bounded by the input length", "statement": "For every input and destination type Unmarshal finishes; every loop iteration consumes input and the call depth is at most proportional to the input length (and to the nesting limit).", "quantifier": "every byte sequence, every destination type", "why_tests_cant": "non-termination cannot be observed by a test", "anchors": ["/repo/internal/decoder/context.go:skipArray,skipValue", "/repo/internal/decoder/map.go", "/repo/internal/decoder/slice.go", "/repo/internal/decoder/struct.go", "/repo/internal/decoder/array.go"]}
{"id": "C12", "title": "Trailing bytes are rejected", "statement": "If Unmarshal succeeds on an input then Unmarshal of that input followed by any non-empty byte sequence, into any destination of the same type, is an error.", "quantifier": "every accepted input, every non-empty suffix, every destination type", "why_tests_cant": "universally quantified over suffixes", "anchors": ["/repo/unmarshal.go:validateEndBuf"]}
{"id": "C13", "title": "Truncated input is rejected", "statement": "If Unmarshal succeeds on an input, then Unmarshal of any strict prefix of it fails; a cut at any point is never silently accepted as a shorter value.", "quantifier": "every accepted input and every cut position, every destination type", "why_tests_cant": "needs every cut point of every valid input", "anchors": ["/repo/internal/decoder/context.go", "/repo/unmarshal.go:validateEndBuf"]}
{"id": "C14", "title": "Nesting is limited to 10000 levels", "statement": "No destination type lets Unmarshal accept input whose arrays/objects are nested more than 10000 deep, whether the nested part is stored or skipped; and well-formed input nested at most 10000 deep is not rejected because of depth when decoded into any.", "quantifier": "every input, every destination type", "why_tests_cant": "the limit must be applied on every one of the recursive paths", "anchors": ["/repo/internal/decoder/type.go:maxDecodeNestingDepth", "/repo/internal/decoder/context.go:skipArray", "/repo/internal/decoder/map.go", "/repo/internal/decoder/slice.go", "/repo/internal/decoder/struct.go", "/repo/internal/decoder/array.go"]}
{"id": "C15", "title": "Unknown struct keys are skipped", "statement": "Adding a pair whose string key names no field and whose value is any well-formed value, at any position of the array or object, does not change the result of Unmarshal into a struct.", "quantifier": "every struct type, every position, every well-formed skipped value within the depth limit", "why_tests_cant": "the skipper must consume exactly the bytes of the value for every value", "anchors": ["/repo/internal/decoder/struct.go:structDecoder.Decode", "/repo/internal/decoder/context.go:skipValue"]}
{"id": "C16", "title": "Field order does not matter", "statement": "Unmarshal into a struct gives the same result for every order of the (distinct) keys in the input.", "quantifier": "every struct type, every permutation of the pairs", "why_tests_cant": "factorially many orders", "anchors": ["/repo/internal/decoder/struct.go"]}
{"id": "C17", "title": "Map decoding: last duplicate wins and other entries are kept", "statement": "Unmarshal of an array into a map stores for every key of the input the value of its last occurrence and leaves entries of the destination whose keys do not occur in the input untouched.", "quantifier": "every input array, every initial map", "why_tests_cant": "statement over all key multisets and all initial maps", "anchors": ["/repo/internal/decoder/map.go:mapDecoder.Decode"]}
{"id": "C18", "title": "Fixed-size arrays: extra indices ignored, missing ones zero", "statement": "Unmarshal of an array into [N]T gives at each index below N the last value given for it (for element types that do not merge) or the zero value, ignores any pair with index >= N, rejects negative indices, and never changes the length N.", "quantifier": "every N, every list of (index, value) pairs", "why_tests_cant": "index/length interplay for all index sequences", "anchors": ["/repo/internal/decoder/array.go:arrayDecoder.Decode"]}
{"id": "C19", "title": "Slices: elements are placed by index", "statement": "Unmarshal of a non-empty array into a slice gives a slice whose length is one more than the largest index, with each value stored at its index and zero values in gaps; previous contents of the destination do not leak in.", "quantifier": "every list of (index, value) pairs", "why_tests_cant": "growth, gaps and out-of-order indices", "anchors": ["/repo/internal/decoder/slice.go:sliceDecoder.Decode"]}
{"id": "C20", "title": "Null is accepted everywhere with a fixed effect", "statement": "Unmarshal of N; succeeds for every destination type that compiles; it sets pointers, maps, slices, interfaces and Unmarshaler types to their zero value and leaves bools, numbers, strings, []byte, arrays and structs unchanged.", "quantifier": "every destination type and initial value", "why_tests_cant": "one statement per type constructor, recursively", "anchors": ["/repo/internal/decoder/context.go:validateNull", "/repo/internal/decoder"]}
{"id": "C21", "title": "Objects and arrays are interchangeable for structs and maps", "statement": "For struct and map destinations O:<n>:\"<class>\":<count>:{...} decodes exactly like a:<count>:{...}, for every class name of n bytes.", "quantifier": "every class name, every body, every struct/map type", "why_tests_cant": "class names are arbitrary bytes of arbitrary length, including lengths near MaxInt64", "anchors": ["/repo/internal/decoder/context.go:skipClassName", "/repo/internal/decoder/struct.go", "/repo/internal/decoder/map.go"]}
{"id": "C22", "title": "Decoding into any has a simple functional meaning", "statement": "Unmarshal into a nil any of the serialization of a PHP value gives: null->nil, bool->bool, int->int64, float->float64, string->string, array->map[any]any with int64/string keys, object->map[string]any, recursively.", "quantifier": "every PHP value (with int/string keys; int in int64 range; depth <= 10000)", "why_tests_cant": "recursive over unbounded values", "anchors": ["/repo/internal/decoder/interface.go:decodeEmptyInterface,mapKeyDecoder"]}
{"id": "C23", "title": "Unmarshalers receive exactly the raw serialized bytes of their value", "statement": "A type with UnmarshalPHP is called with exactly the bytes of its own value in the input (never unquoted, never more, never less), except for N; which zeroes it without a call. The error it returns is the error of the decode; if it is a SyntaxError it keeps its message and its Offset becomes the position of the value.", "quantifier": "every input and position", "why_tests_cant": "the code contains an unquoting step whose reachability is a statement about all inputs", "anchors": ["/repo/internal/decoder/unmarshal_php.go:unmarshalPHPDecoder.Decode,annotateError,unquoteBytes"]}
{"id": "C24", "title": "Marshalers are honoured wherever they occur", "statement": "If a value's type implements MarshalPHP then the bytes it returns appear verbatim as that value's serialization wherever the value occurs (top level, field, element, map value, pointer, inside any), and an error it returns is returned by Marshal.", "quantifier": "every type, every position, every returned byte sequence", "why_tests_cant": "positions x receivers x kinds", "anchors": ["/repo/internal/encoder/marshal_php.go", "/repo/internal/encoder/compile.go", "/repo/internal/encoder/interface.go", "/repo/internal/encoder/struct.go"]}
{"id": "C25", "title": "The ,string option writes correct lengths and reads back", "statement": "For bool, int and uint fields tagged ,string the output is s:<n>:\"<text>\"; with n exactly the byte length of text for every value, and Unmarshal into the same struct gives the value back.", "quantifier": "every value of every width, including MinInt64 and MaxUint64", "why_tests_cant": "digit counting loops over the whole range", "anchors": ["/repo/internal/encoder/int_as_string.go:appendIntAsString,iterativeDigitsCount", "/repo/internal/encoder/uint_at_string.go:uintDigitsCount", "/repo/internal/encoder/bool_as_string.go", "/repo/internal/decoder/wrapped_string.go"]}
{"id": "C26", "title": "omitempty writes exactly the non-zero fields and the right count", "statement": "A struct is written as a:<n>:{...} with one pair per field that is exported, not ignored, and not (omitempty and zero), in declaration order, and n is the number of those pairs.", "quantifier": "every struct type and value", "why_tests_cant": "2^fields combinations; the count is patched in before the body", "anchors": ["/repo/internal/encoder/struct.go:compileStructFields"]}
{"id": "C27", "title": "Ignored and unexported fields are never written and never modified", "statement": "Unexported fields and fields tagged \"-\" never appear in Marshal output and are never changed by Unmarshal, whatever the input is.", "quantifier": "every struct type, value and input, success or error", "why_tests_cant": "needs every input", "anchors": ["/repo/internal/encoder/struct.go", "/repo/internal/decoder/compile.go:compileStruct", "/repo/internal/runtime/struct_field.go"]}
{"id": "C28", "title": "Cyclic values give an error instead of hanging or exhausting the stack", "statement": "For every cyclic Go value Marshal terminates and returns an error.", "quantifier": "every heap graph", "why_tests_cant": "infinite executions cannot be tested, cycles may pass through any mix of kinds", "anchors": ["/repo/internal/encoder/ptr.go:checkRecursiveEncoder,checkStructRecursiveEncoder", "/repo/internal/encoder/interface.go:reflectRecursiveValue,reflectInterfaceValue"]}
{"id": "C29", "title": "Acyclic values are never rejected as recursive", "statement": "Marshal of a finite acyclic value whose types are supported never fails with the recursion error, however deep it is and however much is shared.", "quantifier": "every acyclic heap graph, every depth", "why_tests_cant": "sharing and depth thresholds interact", "anchors": ["/repo/internal/encoder/ptr.go:checkRecursiveEncoder", "/repo/internal/encoder/interface.go:reflectRecursiveValue", "/repo/internal/encoder/slice_reflect.go"]}
{"id": "C30", "title": "Marshal does not depend on earlier calls", "statement": "The result of Marshal(v) is the same after any history of earlier Marshal calls, including ones that failed half-way, although contexts and buffers are reused.", "quantifier": "every history of calls", "why_tests_cant": "all histories, including error exits at every point", "anchors": ["/repo/internal/encoder/context.go", "/repo/internal/encoder/buffer.go", "/repo/internal/encoder/ptr.go:checkRecursiveEncoder", "/repo/internal/encoder/interface.go:reflectRecursiveValue"]}
{"id": "C31", "title": "Concurrent first uses of types are safe", "statement": "However many goroutines call Marshal/Unmarshal concurrently on new or known types, in any interleaving, each call uses the encoder/decoder of its own type; racing cache updates can lose cache entries but never give a wrong one.", "quantifier": "every number of threads, every schedule", "why_tests_cant": "schedules are unbounded", "anchors": ["/repo/internal/decoder/compile.go:CompileToGetDecoder,storeDecoder", "/repo/internal/encoder/compile_cache.go:compileWithCache,storeEncoder"]}
{"id": "C32", "title": "Map iteration order is irrelevant to the reader", "statement": "Whatever order Marshal emits map entries in, Unmarshal of the output gives the same map.", "quantifier": "every map, every permutation of its entries", "why_tests_cant": "n! orders chosen at random by the runtime", "anchors": ["/repo/internal/encoder/map.go", "/repo/internal/decoder/map.go"]}
{"id": "C33", "title": "Decoded data is independent of the input and of each other", "statement": "Unmarshal neither modifies nor keeps references to the caller's input, and after Unmarshal writing to or appending to one decoded []byte does not change any other decoded value.", "quantifier": "every input, every destination, every later write or append", "why_tests_cant": "aliasing shows only under particular later mutations", "anchors": ["/repo/unmarshal.go:unmarshal", "/repo/internal/decoder/bytes.go", "/repo/internal/decoder/context.go:readString"]}
{"id": "C34", "title": "Unsupported types are rejected with an error, for every type", "statement": "For every Go type, Marshal and Unmarshal either work on it or return an error: preparing a type always terminates, including for recursive types.", "quantifier": "every (possibly recursive) type", "why_tests_cant": "type graphs are unbounded; non-termination kills the process", "anchors": ["/repo/internal/encoder/compile.go", "/repo/internal/encoder/array.go:compileArray", "/repo/internal/decoder/compile.go:compile"]}
{"id": "C35", "title": "A failed Unmarshal leaves scalar destinations unchanged", "statement": "If Unmarshal of a value into a bool, integer, float, string or []byte destination fails while decoding the value, the destination keeps its old value.", "quantifier": "every input, every scalar type, every old value", "why_tests_cant": "every malformed input", "anchors": ["/repo/internal/decoder/int.go", "/repo/internal/decoder/uint.go", "/repo/internal/decoder/float.go", "/repo/internal/decoder/bool.go", "/repo/internal/decoder/string.go"]}
{"id": "C36", "title": "The declared element count is enforced", "statement": "Input whose declared array/object count differs from the number of pairs that follow is rejected.", "quantifier": "every input, every destination type", "why_tests_cant": "every count/body combination on each container path", "anchors": ["/repo/internal/decoder/context.go:skipArray", "/repo/internal/decoder/map.go", "/repo/internal/decoder/struct.go", "/repo/internal/decoder/slice.go", "/repo/internal/decoder/array.go"]}
{"id": "C37", "title": "A value encodes the same whether or not it is held in an interface", "statement": "For every value x of a type Marshal supports, encoding x as an element of type any gives the same bytes as encoding it directly.", "quantifier": "every type and value", "why_tests_cant": "two separate code paths (static and reflective) must agree on every type", "anchors": ["/repo/internal/encoder/interface.go:reflectInterfaceValue", "/repo/internal/encoder/slice_reflect.go", "/repo/internal/encoder/map_reflect.go", "/repo/internal/encoder/struct_reflect.go"]}
{"id": "C38", "title": "Pointers are transparent", "statement": "Marshal of a non-nil pointer gives the same bytes as Marshal of the value it points to.", "quantifier": "every type and value without custom marshalers", "why_tests_cant": "one path per element kind", "anchors": ["/repo/internal/encoder/ptr.go:compilePtr"]}
{"id": "C39", "title": "Nil pointers, maps, slices and interfaces are written as null", "statement": "A nil pointer, map, slice (other than []byte) or interface is written as N; in every position.", "quantifier": "every type, every position", "why_tests_cant": "positions x kinds", "anchors": ["/repo/internal/encoder/ptr.go", "/repo/internal/encoder/slice.go", "/repo/internal/encoder/map.go", "/repo/internal/encoder/interface.go"]}
{"id": "C40", "title": "What Unmarshal produces for any can be marshalled again", "statement": "If Unmarshal into any succeeds then Marshal of the result succeeds and decodes back to the same value.", "quantifier": "every accepted input", "why_tests_cant": "recursive over all accepted inputs", "anchors": ["/repo/internal/decoder/interface.go:decodeEmptyInterface", "/repo/internal/encoder/map_reflect.go:reflectMap"]}
{"id": "C41", "title": "String decoding needs the exact byte length", "statement": "Unmarshal into a string of s:<n>:\"...\"; succeeds if and only if n (leading zeros allowed, at most MaxInt64) is exactly the number of bytes between the opening quote and the closing quote-semicolon that ends the input; declared lengths up to MaxInt64 cause an error, never an out-of-range access.", "quantifier": "every input byte sequence", "why_tests_cant": "length arithmetic near MaxInt64 and embedded quotes", "anchors": ["/repo/internal/decoder/context.go:readString,readLengthInt,hasBytes"]}
{"id": "C42", "title": "Struct tags mean what the documentation says", "statement": "The key of a field is the first comma-separated part of its php tag if that is non-empty and made of allowed characters, otherwise the field name; omitempty and string are recognised in any later position; Marshal and Unmarshal use the same key.", "quantifier": "every tag string and field name", "why_tests_cant": "every tag string", "anchors": ["/repo/internal/runtime/struct_field.go:StructTagFromField,isValidTag,IsIgnoredStructField"]}
{"id": "C43", "title": "Pooled encoder state is never shared", "statement": "Under any interleaving of concurrent Marshal calls (which may fail or panic in user code) no two running calls hold the same context or struct buffer, and every pooled context is clean.", "quantifier": "every number of goroutines, every schedule, every failure point", "why_tests_cant": "schedules and failure points are unbounded", "anchors": ["/repo/internal/encoder/context.go:ctxPool", "/repo/internal/encoder/buffer.go:bufferPool", "/repo/internal/encoder/marshal.go:Marshal"]}
{"id": "C44", "title": "A value decodes the same wherever it is embedded", "statement": "What a value's bytes decode to depends only on those bytes, the destination type and its old value, not on what precedes or follows them in the input.", "quantifier": "every type, every context", "why_tests_cant": "every surrounding context", "anchors": ["/repo/internal/decoder"]}
{"id": "C45", "title": "Marshal and Unmarshal accept the same struct types", "statement": "If Marshal accepts a struct type (no unsupported-type error) then Unmarshal accepts it too.", "quantifier": "every struct type", "why_tests_cant": "every combination of tags and field kinds", "anchors": ["/repo/internal/encoder/struct.go:compileStructFieldsEncoders", "/repo/internal/decoder/compile.go:compileStruct", "/repo/internal/decoder/wrapped_string.go:newWrappedStringDecoder"]}
{"id": "C46", "title": "The destination stays a valid value of its type", "statement": "After Unmarshal, successful or not, integers are in the range of their kind, arrays have their fixed length, structs their fields, and interfaces hold only the documented dynamic types.", "quantifier": "every input, every destination, success or failure", "why_tests_cant": "reflection bypasses static typing", "anchors": ["/repo/internal/decoder"]}
{"id": "C47", "title": "Accepted input is well-formed", "statement": "If Unmarshal succeeds then the input is a PHP-serialized value (up to declared counts of stored containers and leading zeros), and it is the only such reading of the input.", "quantifier": "every accepted input, every destination type", "why_tests_cant": "soundness over all inputs", "anchors": ["/repo/internal/decoder"]}
{"id": "C48", "title": "Decoding into fixed-shape types is safe on hostile input", "statement": "If the destination type contains no slice, map, interface or Unmarshaler, no input makes Unmarshal panic or run forever, whatever lengths, counts and indices it declares (the README's security advice).", "quantifier": "every input, every such type", "why_tests_cant": "every hostile length", "anchors": ["/repo/readme.md", "/repo/internal/decoder/array.go", "/repo/internal/decoder/struct.go"]}
{"id": "C49", "title": "Marshal panics only in the program's own methods", "statement": "For every value, Marshal panics only if a MarshalPHP method panics, or is called on a nil interface or with a value receiver on a nil pointer.", "quantifier": "every type, every value", "why_tests_cant": "one wrong kind assumption on one combination of types is enough", "anchors": ["/repo/internal/encoder/interface.go", "/repo/internal/encoder/map_reflect.go", "/repo/internal/encoder/marshal_php.go"]}
{"id": "C50", "title": "Marshal ends on finite values", "statement": "For every finite acyclic value Marshal ends, with a text, an error or a panic, if its MarshalPHP methods end and no array type in it contains itself.", "quantifier": "every finite acyclic value of any depth", "why_tests_cant": "values of every depth and sharing", "anchors": ["/repo/internal/encoder/interface.go:reflectInterfaceValue", "/repo/internal/encoder/ptr.go", "/repo/internal/encoder/compile.go"]}
{"id": "C51", "title": "Only non-nil pointers are accepted as destinations", "statement": "Unmarshal with a destination that is not a non-nil pointer (nil, a nil pointer, a value of another kind) returns an InvalidUnmarshalError without panicking, for every non-empty input; empty input is an error that leaves any destination as it was.", "quantifier": "every input, every destination", "why_tests_cant": "all inputs", "anchors": ["/repo/unmarshal.go:Unmarshal,unmarshal,validateValue"]}
{"id": "C52", "title": "Memory asked for is bounded by the input length for fixed-length types", "statement": "As the Security section of the readme promises, decoding into types made of structs, fixed-length arrays, scalars, strings, pointers and Unmarshaler types asks for at most a constant (given by the sizes of pointed-to types) times the length of the input, whatever lengths the input declares, on success and on failure. For every type the memory is bounded by a constant times the length of the input times the largest declared length (and index, if the type has slices); this factor cannot be dropped for slices, maps and any.", "quantifier": "every input, every destination type and value", "why_tests_cant": "all inputs, including hostile ones, and all types; no test measures allocations", "anchors": ["/repo/readme.md:Security", "/repo/internal/decoder/slice.go:Decode", "/repo/internal/decoder/map.go:Decode", "/repo/internal/decoder/ptr.go:Decode", "/repo/internal/decoder/interface.go:decodeEmptyInterface", "/repo/internal/decoder/array.go:Decode", "/repo/internal/decoder/struct.go:Decode"]}
{"id": "C53", "title": "Calls of Unmarshal do not disturb each other", "statement": "Any number of goroutines may call Unmarshal at once, and calls may be made from UnmarshalPHP methods: no two calls in progress use the same pooled context, every read of ctx.Buf finds the call's own input, pooled contexts hold no input, each call has a copy of its input that no other call uses, and a call ends exactly as it does alone in a new program, whatever earlier or concurrent calls did (including calls that failed or panicked) and whatever the program writes to slices it got from calls that returned.", "quantifier": "every number of goroutines, every interleaving, every history of calls, every input and destination", "why_tests_cant": "all interleavings and histories; sync.Pool reuses contexts unpredictably", "anchors": ["/repo/internal/decoder/context.go:TakeRuntimeContext,ReleaseRuntimeContext", "/repo/unmarshal.go:unmarshal"]}
{"id": "C54", "title": "Errors point at the input", "statement": "The Offset of an error returned by Unmarshal is a position in the input or its end, and a byte shown in its message is the byte of the input at that position.", "quantifier": "every input, every destination type and value, every error", "why_tests_cant": "every way in which decoding can fail, at every place of every input; the tests look at error texts for a handful of inputs", "anchors": ["/repo/internal/errors/error.go:SyntaxError,UnmarshalTypeError", "/repo/internal/decoder/context.go:skipClassName,validateNull,readBool,readString,readLength", "/repo/internal/decoder/unmarshal_php.go:annotateError", "/repo/unmarshal.go:validateEndBuf"]}
{"id": "C55", "title": "Errors are final; truncation is reported as such", "statement": "An error of Unmarshal that does not say that the input ended (ErrUnexpectedEnd, missing digits at the very end, empty input) is final: whatever bytes are appended to the input, the same call gives the same error with the same Offset and leaves the destination the same. Hence every strict prefix of an input that is accepted is refused with an error that says that the input ended.", "quantifier": "every input, every continuation, every prefix, every destination type and value", "why_tests_cant": "all continuations of all inputs; a reader that waits for more bytes relies on it for each of them", "anchors": ["/repo/internal/decoder/context.go:skipLengthWithBothColon,readString,skipValue,skipClassName", "/repo/internal/decoder/context.go:readIntegerBytes", "/repo/internal/decoder/struct.go:structDecoder.Decode", "/repo/internal/decoder/map.go:mapDecoder.Decode", "/repo/internal/errors/error.go:ErrUnexpectedEnd"]}
{"id": "C56", "title": "Decoding the same document again changes nothing", "statement": "If Unmarshal of a document into a variable succeeded, calling it again with the same bytes succeeds and leaves the variable as it is; and what Unmarshal returns, success or which error, depends on the destination's type only, not on what it holds. Excepted are destinations that are written to in place inside an interface with methods (the held value's own UnmarshalPHP decides) and, for the first half, maps keyed by any or by a type with UnmarshalPHP, where a NaN key makes a new entry every time.", "quantifier": "every input, every destination type without the excepted parts, every well-typed previous content", "why_tests_cant": "all inputs against all previous contents: nil or set pointers, old map entries, fields the document leaves out, in any nesting", "anchors": ["/repo/internal/decoder/ptr.go:ptrDecoder.Decode", "/repo/internal/decoder/map.go:mapDecoder.Decode", "/repo/internal/decoder/struct.go:structDecoder.Decode", "/repo/internal/decoder/slice.go:sliceDecoder.Decode", "/repo/internal/decoder/wrapped_string.go:wrappedStringDecoder.Decode"]}
{"id": "C57", "title": "Two documents one after the other are one document with the entries of both", "statement": "For struct and map destinations, Unmarshal of one document and then of another into the same variable succeeds exactly if Unmarshal of the document with the entries of the first followed by those of the second does, with the same result.", "quantifier": "every two lists of well-formed entries, arrays or objects, every struct or map type, every previous content", "why_tests_cant": "all pairs of documents, including repeated keys that merge into nested structs and pointers", "anchors": ["/repo/internal/decoder/map.go:mapDecoder.Decode", "/repo/internal/decoder/struct.go:structDecoder.Decode"]}
{"id": "C58", "title": "An any gets what a variable of its dynamic type would get", "statement": "When Unmarshal leaves a value of dynamic type T in an any, decoding the same bytes into a new variable of type T gives that value. Conversely, what a bool, int64, float64 or string variable gets from any document but null, and what a nil map[string]any gets from an object, is what an any gets.", "quantifier": "every input, every previous content of the any", "why_tests_cant": "the any decoder and the typed decoders are different code (readString and readBool directly, its own map key decoder); the claim is about all inputs of both", "anchors": ["/repo/internal/decoder/interface.go:interfaceDecoder.decodeEmptyInterface", "/repo/internal/decoder/interface.go:mapKeyDecoder.Decode", "/repo/internal/decoder/map.go:mapDecoder.Decode"]}
{"id": "C59", "title": "The bytes Marshal moves are bounded by nesting times output", "statement": "Every struct is written to a buffer of its own that is then appended to the buffer of its parent. If Marshal succeeds with k bytes and at most n struct buffers were in use at the same time, then it appended at most (n+1)*k bytes and copied k bytes, and 6*n <= k, so the total is at most quadratic in k. The bound cannot be replaced by a linear one: a linked list of n+1 nodes has 29*n+31 bytes of output and moves more than 14*n*n bytes.", "quantifier": "all types, values, heaps, contexts and orders of map iteration for which Marshal succeeds; all lengths of the list", "why_tests_cant": "Tests check outputs, not the bytes moved between buffers; benchmarks use a few fixed shapes. The bound is over all values, and the quadratic growth shows only for deep nesting.", "anchors": ["/repo/internal/encoder/struct.go:compileStructFields", "/repo/internal/encoder/buffer.go:newBuffer", "/repo/internal/encoder/marshal.go:Marshal"]}
{"id": "C60", "title": "In memory, decoding does what it does to trees, and touches nothing else", "statement": "If the destination of Unmarshal holds a tree of values that shares no memory within itself, then decoding in memory has the same outcome as decoding into the tree as a value, leaves the resulting tree in the destination (again without sharing), changes no memory outside the old tree, and builds the new tree from objects of the old one, new objects and the copy of the input only; also when it fails. So values held elsewhere are unaffected, and two decoded values are independent. If the destination shares memory within itself this fails: a list node that points to itself has its own field changed by what the document says about the next node.", "quantifier": "all inputs, types, memories and unshared destinations; all methods that act on memory as they act on values", "why_tests_cant": "Tests look at the destination, not at the rest of the memory, and use fresh destinations; that nothing else is touched and nothing is shared is a statement about all of the memory and all destinations.", "anchors": ["/repo/unmarshal.go:unmarshal", "/repo/internal/decoder/ptr.go:Decode", "/repo/internal/decoder/map.go:Decode", "/repo/internal/decoder/slice.go:Decode", "/repo/internal/decoder/struct.go:Decode", "/repo/internal/decoder/bytes.go:Decode"]}
{"id": "C61", "title": "Decoding changes only what the destination leads to, whatever is shared", "statement": "In any memory, also with shared objects and cycles, Unmarshal changes no object other than the one with the destination and those that references (pointers, slices, maps, interfaces) lead to from it. If no reference leads back into the object that holds the destination, then of this object only the destination itself changes. Afterwards references lead from the destination only to objects they led to before and to objects created by the call. All this also when decoding fails.", "quantifier": "all inputs, types and memories, all destinations in them; all methods that reach only what they are called on", "why_tests_cant": "Tests use fresh, unshared destinations and look at nothing else; aliasing of arbitrary shape, cycles and failures in the middle are not enumerable.", "anchors": ["/repo/unmarshal.go:unmarshal", "/repo/internal/decoder/ptr.go:Decode", "/repo/internal/decoder/map.go:Decode", "/repo/internal/decoder/slice.go:Decode", "/repo/internal/decoder/array.go:Decode", "/repo/internal/decoder/struct.go:Decode", "/repo/internal/decoder/interface.go:Decode"]}
{"id": "C62", "title": "Sharing and cycles in the destination break no types and do not change the outcome", "statement": "In a memory where every object has a type and every reference leads to a place of the right type, with any sharing and any cycles, Unmarshal into a place of its type leaves every object with a value of its type, on success and on failure; the outcome (success, error, panic) is that of decoding into an unshared value of the type, such as its zero value, when no interfaces with methods are involved. So no panics beyond those of C10 occur, and cycles do not keep decoding from ending.", "quantifier": "all inputs, types, well-typed memories and destinations in them; all methods that keep memory well-typed and reach only what they are called on", "why_tests_cant": "Decoders write through unsafe pointers while memory they hold pointers to may be overwritten through another path; which paths overlap depends on the shape of the memory, and shapes are infinitely many.", "anchors": ["/repo/unmarshal.go:unmarshal", "/repo/internal/decoder/ptr.go:Decode", "/repo/internal/decoder/map.go:Decode", "/repo/internal/decoder/slice.go:Decode", "/repo/internal/decoder/array.go:Decode", "/repo/internal/decoder/struct.go:Decode", "/repo/internal/decoder/bytes.go:Decode", "/repo/internal/decoder/interface.go:Decode"]}
{"id": "C63", "title": "Wider destination types read the same texts", "statement": "Let a program change its types to wider ones: integers of a larger range or signed instead of unsigned, float64 instead of float32, structs with reordered, added or dropped fields, and pointers, slices, arrays, maps and structs of such types, recursive or not. Whatever Unmarshal read into a variable of the old type it also reads into one of the new type, with the same values up to the types, provided that no key in the text is that of an added field, that counts in the text are exact if fields were dropped, and that lengths are not too large for slices whose elements grew. So a program with wider types reads what the old one wrote with Marshal.", "quantifier": "all pairs of types related by a widening, all texts, all old contents that correspond", "why_tests_cant": "The pairs of types, texts and old contents are infinitely many; the conditions (exact counts for dropped fields) are easy to overlook with texts from well-behaved writers.", "anchors": ["/repo/unmarshal.go:unmarshal", "/repo/internal/decoder/struct.go:Decode", "/repo/internal/decoder/int.go:Decode", "/repo/internal/decoder/uint.go:Decode", "/repo/internal/decoder/float.go:Decode", "/repo/internal/decoder/slice.go:Decode", "/repo/internal/decoder/map.go:Decode", "/repo/internal/decoder/wrapped_string.go:Decode"]}
{"id": "C64", "title": "Decimal texts of floats are read as the nearest float", "statement": "Unmarshal of d:<decimal text>; stores the float64 (or float32) nearest to the number the text stands for, ties to even, whatever the variable held before, if that is finite; otherwise it returns an error and leaves the variable alone. In an interface the text becomes the nearest float64.", "quantifier": "all decimal texts as strconv and PHP write them, with exponents of up to four digits, all old contents", "why_tests_cant": "The texts are infinitely many, and the double rounding for float32 shows up for few numbers, all next to a mean of two float32 numbers.", "anchors": ["/repo/internal/decoder/float.go:processBytes", "/repo/internal/decoder/float.go:Decode", "/repo/internal/decoder/context.go:readFloatBytes", "/repo/internal/decoder/interface.go:Decode"]}
{"id": "C65", "title": "JSON unquoting is safe and exact", "statement": "unquoteBytes, the function from encoding/json that UnmarshalPHP decoders run over the text of a value, ends without a panic on every byte sequence. It returns a text exactly when the input is enclosed in double quotes and its inside stands for that text by the rules of JSON strings, with U+FFFD for lone surrogates and for bytes that are not UTF-8. What it returns is always valid UTF-8, and plain text comes back unchanged.", "quantifier": "all byte sequences", "why_tests_cant": "The buffer is enlarged while writing, and whether it always has room depends on how many bytes are replaced; the inputs are unbounded.", "anchors": ["/repo/internal/decoder/unmarshal_php.go:unquoteBytes", "/repo/internal/decoder/unmarshal_php.go:getu4"]}
{"id": "C66", "title": "Floats are written in plain form between 0.000001 and 10^21, else with an exponent", "statement": "Marshal writes a finite float64 (float32) x as d:<text>; where the text is strconv's shortest one in the form with an exponent if x is not zero and |x| is below the float64 (float32) nearest to 0.000001 or at least the one nearest to 10^21, and in the plain form otherwise.", "quantifier": "all finite floats of both sizes", "why_tests_cant": "The limits are constants that are rounded differently for the two sizes; only numbers next to them show a mistake.", "anchors": ["/repo/internal/encoder/float.go:appendFloat32", "/repo/internal/encoder/float.go:appendFloat64"]}
{"id": "C67", "title": "Values of the wrong kind are refused as type errors", "statement": "If a value begins with a letter (b, i, d, s, a, O) of a kind that the type of the destination does not take, Unmarshal refuses it, leaves the variable as it was, and returns an UnmarshalTypeError that names the kind found and its position.", "quantifier": "all types of every kind without their own UnmarshalPHP, all first bytes, everything that may follow, all positions below the nesting limit, all previous values", "why_tests_cant": "There are as many error paths as pairs of types and letters, in eleven decoders, and tests usually check only that some error comes back.", "anchors": ["/repo/internal/decoder/bool.go:Decode", "/repo/internal/decoder/context.go:readIntegerBytes", "/repo/internal/decoder/float.go:decodeByte", "/repo/internal/decoder/string.go:decodeByte", "/repo/internal/decoder/slice.go:Decode", "/repo/internal/decoder/array.go:Decode", "/repo/internal/decoder/map.go:Decode", "/repo/internal/decoder/struct.go:Decode", "/repo/internal/decoder/interface.go:decodeEmptyInterface"]}
{"id": "C68", "title": "Prepared decoders decode like their type", "statement": "The decoder objects that are made for a type once and used for every later call decode exactly the inputs that the type takes, into the values the specification gives. This includes struct types that contain themselves, whose decoder is handed out while its table of fields is still empty and is filled in later. On all other inputs the outcome is that of the type too.", "quantifier": "all types, all worlds of declared types and methods, all inputs, all previous values of the variable", "why_tests_cant": "Objects under construction are referred to from every place a recursive type contains itself, directly or through other types; tests cover one or two shapes of recursion, and a table left empty only shows at the level of the value where it is used.", "anchors": ["/repo/internal/decoder/compile.go:CompileToGetDecoder", "/repo/internal/decoder/compile.go:compile", "/repo/internal/decoder/compile.go:compileStruct", "/repo/internal/decoder/compile.go:compileMapKey", "/repo/internal/decoder/wrapped_string.go:newWrappedStringDecoder", "/repo/internal/decoder/struct.go:Decode", "/repo/internal/decoder/bytes.go:newBytesDecoder", "/repo/internal/decoder/ptr.go:newPtrDecoder"]}
{"id": "C69", "title": "One decoder is made for every struct type", "statement": "Preparing a type for decoding makes one struct decoder for every struct type it contains, so that the time and memory of preparing are proportional to the size of the declarations.", "quantifier": "all types and declarations", "why_tests_cant": "The number of decoders does not show in what is decoded; the growth only shows for declarations nested some tens deep.", "anchors": ["/repo/internal/decoder/compile.go:compileStruct"]}
{"id": "C70", "title": "Prepared encoders encode like their type", "statement": "The encoder that is made for a type once and used for every later call writes exactly the text that the specification gives for values of the type. This includes types that contain themselves, whose encoder is handed out as a variable that is still empty and is set later; when a type is prepared no variable is left empty, so that no nil function is ever called. In all other outcomes, errors included, the call behaves like the type too.", "quantifier": "all types, all worlds of declared types and methods, all memories and values, all states of the context", "why_tests_cant": "Variables under construction are captured by closures wherever a type contains itself, directly or through slices, maps and pointers; a variable left empty only shows when a value reaches the place that captured it.", "anchors": ["/repo/internal/encoder/compile.go:compileType", "/repo/internal/encoder/compile.go:compile", "/repo/internal/encoder/struct.go:compileStruct", "/repo/internal/encoder/struct.go:compileStructFieldsEncoders", "/repo/internal/encoder/struct.go:Encode", "/repo/internal/encoder/slice.go:compileSlice", "/repo/internal/encoder/map.go:compileMap", "/repo/internal/encoder/ptr.go:compilePtr", "/repo/internal/encoder/array.go:compileArray"]}
{"id": "C71", "title": "One encoder is made for every struct, slice and map type", "statement": "Preparing a type for encoding makes one encoder for every struct, slice and map type it contains, however often the type is used.", "quantifier": "all types and declarations", "why_tests_cant": "The number of encoders does not show in what is written.", "anchors": ["/repo/internal/encoder/struct.go:compileStruct", "/repo/internal/encoder/slice.go:compileSlice", "/repo/internal/encoder/map.go:compileMap", "/repo/internal/encoder/array.go:compileArray"]}
{"id": "C72", "title": "Type errors name the struct, field and type of the variable that did not fit", "statement": "When Unmarshal fails with an UnmarshalTypeError, its Struct and Field are the name of the innermost struct type, and of the field of it, in which the offending value lies in the input, or empty if it lies in no struct; its Type is the type of the variable the value was to be stored in; its Offset is that of the value, or of the end of it if it is an integer.", "quantifier": "all types, declarations and methods, all inputs shorter than 2^63 bytes, all destinations", "why_tests_cant": "The names are put into decoders when the type is prepared, long before any input is read; decoders are shared between the places of a recursive type, and every combination of containers passes names on in its own constructor.", "anchors": ["/repo/internal/decoder/compile.go:compile", "/repo/internal/decoder/compile.go:compileStruct", "/repo/internal/decoder/struct.go:decodeKey", "/repo/internal/decoder/int.go:typeError", "/repo/internal/decoder/uint.go:typeError", "/repo/internal/decoder/string.go:errUnmarshalType", "/repo/internal/decoder/slice.go:errNumber", "/repo/internal/decoder/interface.go:errUnmarshalType", "/repo/internal/decoder/unmarshal_php.go:annotateError", "/repo/internal/decoder/invalid.go:Decode", "/repo/internal/decoder/wrapped_string.go:Decode"]}
{"id": "C73", "title": "Methods that write to their argument do not disturb decoding", "statement": "Whatever UnmarshalPHP methods write to the bytes they are passed, Unmarshal gives the value and the error that it gives when they write nothing, and the caller's input and arrays stay as they are.", "quantifier": "all types and declarations, all methods that store copies or parts of their argument, all inputs shorter than 2^63 bytes, all destinations, whatever bytes methods write", "why_tests_cant": "The argument is a part of the buffer that is being decoded, with its capacity reaching to the end of the input: whether a write shows depends on what was decoded before (byte slices lie in the same buffer) and on what is read after it, on every path of every decoder.", "anchors": ["/repo/internal/decoder/unmarshal_php.go:Decode", "/repo/internal/decoder/interface.go:decodePHPUnmarshaler", "/repo/unmarshal.go:unmarshal", "/repo/internal/decoder/bytes.go:Decode", "/repo/internal/decoder/context.go:skipValue"]}
{"id": "C74", "title": "Unmarshal looks at every byte at most five times, and only those bytes matter", "statement": "Decoding looks at no byte of its input more than five times, whatever the input, the type and the outcome; altogether at most five times the length. The value and the error depend only on the length of the input and on the bytes looked at.", "quantifier": "all types and declarations, all inputs shorter than 2^63 bytes, all destinations, all outcomes", "why_tests_cant": "Decoders look ahead and pass the same byte to other decoders; whether looks add up with nesting (which would make decoding quadratic or worse in the depth) can be seen only over all nestings of types and inputs.", "anchors": ["/repo/unmarshal.go:unmarshal", "/repo/internal/decoder/context.go:skipValue", "/repo/internal/decoder/context.go:skipClassName", "/repo/internal/decoder/context.go:readString", "/repo/internal/decoder/slice.go:Decode", "/repo/internal/decoder/map.go:Decode", "/repo/internal/decoder/struct.go:Decode", "/repo/internal/decoder/interface.go:decodeEmptyInterface", "/repo/internal/decoder/compile.go:compileMapKey"]}
{"id": "C75", "title": "A list is read alike into slices, arrays, maps and interfaces", "statement": "If a list written by PHP decodes into a slice, an array that is long enough, a map with integer or interface keys, or an interface, then it decodes into each of these, with the same value at every index of the list and nothing but zero values elsewhere.", "quantifier": "all declarations and element types, all lists (indices in any order, with gaps) with different indices and a count without leading zeros, all pairs of destination types, all variables holding nothing that would stay", "why_tests_cant": "Five decoders (slice, array, map, interface, map with interface keys) parse the same syntax with separate code; that they agree on all inputs, element types and old contents of the variable is not visible from samples.", "anchors": ["/repo/internal/decoder/slice.go:Decode", "/repo/internal/decoder/array.go:Decode", "/repo/internal/decoder/map.go:Decode", "/repo/internal/decoder/interface.go:decodeEmptyInterface"]}
{"id": "C76", "title": "Texts of errors can be shown", "statement": "The text of every error returned by Unmarshal is valid UTF-8 without control characters, and its length is bounded by a constant and the names of types and fields in it.", "quantifier": "every input, every destination type and value, every error that is not the program's own", "why_tests_cant": "every way in which decoding can fail, with every byte and every number that may then be shown; tests compare a few texts", "anchors": ["/repo/internal/errors/error.go:SyntaxError,UnmarshalTypeError,ErrExceededMaxDepth,ErrUnexpectedStart,ErrUnexpectedEnd,ErrUnexpected,ErrInvalidCharacter,ErrInvalidBeginningOfValue,ErrInvalidBeginningOfArray,overflowError", "/repo/internal/decoder/int.go:typeError", "/repo/internal/decoder/uint.go:typeError", "/repo/internal/decoder/float.go:processBytes", "/repo/unmarshal.go:validateEndBuf"]}
{"id": "C77", "title": "Usual spelling of numbers is always accepted", "statement": "If Unmarshal accepts a text, it accepts the text with all integers, lengths and counts spelled the usual way (no leading zeros, no -0) and floats written in any other way that stands for the same number, with the same result.", "quantifier": "every input, every destination type and value; UnmarshalPHP methods that do not tell the spellings apart", "why_tests_cant": "all spellings of all numbers in all documents for all types", "anchors": ["/repo/internal/decoder/int.go:parseInt64,readInt", "/repo/internal/decoder/uint.go:parseUint,decodeBytes", "/repo/internal/decoder/context.go:skipLengthWithBothColon,skipInt,skipArray,readLength,readLengthInt,readString,readIntegerBytes,readFloatBytes", "/repo/internal/decoder/slice.go:Decode", "/repo/internal/decoder/array.go:Decode", "/repo/internal/decoder/map.go:Decode", "/repo/internal/decoder/struct.go:Decode"]}
{"id": "C78", "title": "Values survive a trip through PHP", "statement": "A value that is marshalled, read by PHP's unserialize, written by PHP's serialize and unmarshalled comes back as it was.", "quantifier": "every value of a type without methods that survives a round trip without PHP, every text PHP may write for its floats", "why_tests_cant": "all types, values and keys; tests do not run PHP, and PHP turns string keys that are numerals into integers, which needs a key like \"5\" to be seen", "anchors": ["/repo/marshal.go:Marshal", "/repo/unmarshal.go:Unmarshal", "/repo/internal/decoder/map.go:Decode", "/repo/internal/decoder/struct.go:decodeKey", "/repo/internal/decoder/string.go:decodeByte", "/repo/internal/encoder/map.go:compileMap", "/repo/internal/encoder/struct.go:compileStructFields", "/repo/internal/encoder/uint.go:encodeUint"]}
{"id": "C79", "title": "A used variable gets what a fresh one gets", "statement": "What Unmarshal stores from a text written by Marshal for a value of the same type does not depend on what the variable held before.", "quantifier": "every type and value, every pair of earlier contents, every document that has an entry for all there is to replace", "why_tests_cant": "tests decode into fresh variables; what is left behind depends on the type, the text and the earlier contents at every level", "anchors": ["/repo/unmarshal.go:Unmarshal", "/repo/internal/decoder/struct.go:Decode", "/repo/internal/decoder/ptr.go:Decode", "/repo/internal/decoder/slice.go:Decode", "/repo/internal/decoder/array.go:Decode", "/repo/internal/decoder/map.go:Decode", "/repo/internal/decoder/bytes.go:Decode", "/repo/internal/decoder/interface.go:Decode", "/repo/internal/encoder/compile.go:compile", "/repo/internal/encoder/struct.go:compileStructFields"]}
{"id": "C80", "title": "Types with methods of their own survive a round trip inside other values", "statement": "If a type has MarshalPHP and UnmarshalPHP that undo each other, then a value of any type built with it, written by Marshal, is read back by Unmarshal as the same value; UnmarshalPHP is handed exactly the bytes MarshalPHP returned.", "quantifier": "every type built from ordinary types and types with both methods, every value, every pair of methods, every notion of sameness the methods keep", "why_tests_cant": "whether the methods are called, and with which bytes, depends on where in a type they occur: fields, pointers, elements, keys, declared pointer types, receivers and options", "anchors": ["/repo/marshal.go:Marshal", "/repo/unmarshal.go:Unmarshal", "/repo/internal/encoder/compile.go:compile,compileMapKey,compileAsString", "/repo/internal/encoder/marshal_php.go:compileMarshaler", "/repo/internal/encoder/ptr.go:compilePtr", "/repo/internal/encoder/struct.go:compileStructFields", "/repo/internal/decoder/compile.go:compile,compileMapKey,isStringTagSupportedType", "/repo/internal/decoder/unmarshal_php.go:Decode"]}
{"id": "C81", "title": "UnmarshalPHP is called once for every value that has it, in the order of the text", "statement": "A successful Unmarshal has called the UnmarshalPHP methods exactly once for every non-null value of the input whose destination has the method, and for nothing else; in the order of the text (a key before its value), with exactly the text of the value. The type and the document determine these calls. In an Unmarshal that fails, the texts handed over are pieces of the input, one after the other, each one well-formed value, and no method is called after one that failed. This holds for methods that keep state.", "quantifier": "every type, every input shorter than 2^63 bytes, every variable, all methods whose outcome may depend on all calls made before", "why_tests_cant": "which values are handed over depends on the type at every place of the document: keys, fields without a destination, elements beyond an array, nulls, values inside values with the method; and methods may behave differently at every call", "anchors": ["/repo/unmarshal.go:Unmarshal", "/repo/internal/decoder/unmarshal_php.go:Decode", "/repo/internal/decoder/interface.go:decodePHPUnmarshaler,Decode", "/repo/internal/decoder/map.go:Decode", "/repo/internal/decoder/struct.go:Decode", "/repo/internal/decoder/slice.go:Decode", "/repo/internal/decoder/array.go:Decode"]}
{"id": "C82", "title": "MarshalPHP is called once for every value that has it, in the order of the output", "statement": "A successful Marshal has called the MarshalPHP methods exactly once for every value that has one and is encoded through its own type, and for nothing else; in the order of the output; and what they returned stands in the output unchanged, between texts that do not depend on the methods. The value determines these calls. With methods that fail the calls are the same up to the first that fails, and Marshal returns this failure. This holds for methods that keep state.", "quantifier": "every type, every value and memory including cyclic ones, every context, all methods whose outcome may depend on all calls made before", "why_tests_cant": "which values are handed over depends on the type at every place of the value: fields, pointers, elements, values held in interfaces, omitted fields, fields with the option string; and methods may behave differently at every call", "anchors": ["/repo/marshal.go:Marshal", "/repo/internal/encoder/marshal_php.go:compileMarshaler", "/repo/internal/encoder/compile.go:compile", "/repo/internal/encoder/struct.go:compileStructFields", "/repo/internal/encoder/slice.go:compileSlice", "/repo/internal/encoder/map.go:compileMap", "/repo/internal/encoder/ptr.go:compilePtr", "/repo/internal/encoder/interface.go:reflectInterfaceValue"]}
{"id": "C83", "title": "The text of a value does not depend on where it is stored, and writing again what was read gives the same text", "statement": "If the same value is stored at different places in memory, the texts that Marshal returns for it are equal, byte by byte, or differ only in the order of map entries if there is a map in it. In particular, reading a text of Marshal with Unmarshal and writing the result with Marshal gives the same text again, up to the order of map entries.", "quantifier": "first part: every type, every value with interfaces, pointers and methods in it, every two memories that hold it, every order of map iteration; second part: every type made of bools, integers, floats, strings, pointers, slices, arrays, maps and structs, every value", "why_tests_cant": "memory layouts, orders of map iteration and nestings of values cannot be enumerated; a test compares a few values, while the exceptions (empty slices, structs with omitempty and unexported fields) only show at particular combinations of type, tag and value", "anchors": ["/repo/marshal.go:Marshal", "/repo/unmarshal.go:Unmarshal", "/repo/internal/encoder/struct.go:compileStructFields", "/repo/internal/encoder/slice.go:compileSlice", "/repo/internal/encoder/map.go:compileMap", "/repo/internal/encoder/interface.go:reflectInterfaceValue", "/repo/internal/decoder/slice.go:Decode"]}
{"id": "C84", "title": "The text of a value tells what the value is", "statement": "Two values of the same type for which Marshal returns the same text are the same value: the same numbers (or both NaN), the same strings, the same elements, entries and written fields, and nil in the same places. In other words, different values have different texts.", "quantifier": "every type, every two values, in every two memories, with every order of map iteration", "why_tests_cant": "the statement is about all pairs of values; two values that collide cannot be found by trying pairs, since a collision needs a particular combination of type, tags, nil pointers and numbers (a float printed with one digit too few, a length that can be read in two ways)", "anchors": ["/repo/marshal.go:Marshal", "/repo/internal/encoder/struct.go:compileStructFields", "/repo/internal/encoder/ptr.go:compilePtr", "/repo/internal/encoder/slice.go:compileSlice", "/repo/internal/encoder/map.go:compileMap", "/repo/internal/encoder/float.go:encodeFloat64"]}
{"id": "C85", "title": "Marshal can write every PHP value without objects, and nothing else", "statement": "For every value PHP can have that contains no objects (null, booleans, integers, floats, strings, arrays with distinct integer and string keys, nested in any way) there is a Go value for which Marshal returns its serialized text. And what Marshal returns for values without MarshalPHP methods is always such a text, with the declared lengths and counts right, keys distinct, and integers that fit into 64 bits.", "quantifier": "every document, every type, every value, every memory", "why_tests_cant": "both directions range over infinitely many values, and the first over all texts: that no value of any type is written as a given text cannot be seen from samples", "anchors": ["/repo/marshal.go:Marshal", "/repo/internal/encoder/map.go:compileMap", "/repo/internal/encoder/map_reflect.go:reflectMap,reflectConcreteMap", "/repo/internal/encoder/slice.go:compileSlice", "/repo/internal/encoder/struct.go:compileStructFields"]}
{"id": "C86", "title": "An any tells all about the PHP value read into it but class names, order and the spelling of floats", "statement": "Two PHP values read into variables of type any give the same result (maps compared as sets of entries) exactly if they differ at most in the order of entries, the names of classes and the spelling of floats; in particular integers, numeric strings, floats, booleans and null, empty arrays and empty objects, and integer and string keys are never confused. And whatever text is accepted, what is stored is the value of a PHP value with distinct keys, integers of 64 bits and no deeper nesting.", "quantifier": "every two PHP values, every text, every previous content of the variable", "why_tests_cant": "that two values are never confused is a statement about all pairs of values, and that every accepted text means a PHP value is one about all texts, including those PHP never writes", "anchors": ["/repo/unmarshal.go:Unmarshal", "/repo/internal/decoder/interface.go:Decode,decodeEmptyInterface", "/repo/internal/decoder/map.go:Decode"]}
{"id": "C87", "title": "Exactly the types with listed faults are refused, and the error shows the type at fault", "statement": "Marshal refuses a type exactly if a type it looks into is of a kind without serialized form, is a map with keys that are neither strings nor integers, a pointer to a pointer, or a struct with an embedded struct or an option string on a field that cannot have it; Unmarshal exactly if a type it looks into is a pointer to a pointer, or a struct with an embedded struct, a misplaced option string or two fields with one key. The text of the error shows a type at fault, the same error is returned whatever the value or the input, and Unmarshal leaves the variable alone.", "quantifier": "every type, however deeply nested or recursive (exactness: among those whose preparation ends), every way reflect may print types, every value and input", "why_tests_cant": "that no other type is refused, and no faulty one accepted, is a statement about all type declarations; tests try a few", "anchors": ["/repo/internal/encoder/compile.go:compile", "/repo/internal/encoder/map.go:compileMap", "/repo/internal/encoder/ptr.go:compilePtr", "/repo/internal/encoder/struct.go:compileStruct,compileStructFieldsEncoders", "/repo/internal/decoder/compile.go:compile,compileStruct", "/repo/internal/decoder/ptr.go:newPtrDecoder", "/repo/internal/decoder/wrapped_string.go:newWrappedStringDecoder", "/repo/internal/errors/error.go:Error"]}
{"id": "C88", "title": "Marshal fails only for listed obstacles in the value", "statement": "Every error of Marshal is that about recursion, or is due to one of these: a fault of the type of the value, or of a struct, slice or map type held in an interface within it (C87); an interface that holds an array, a uintptr, a channel and the like, or a map with keys other than strings and integers; an interface in a field with the option string that holds anything but a bool or number of a predeclared type; a MarshalPHP method within the value that returned this very error. A finite acyclic value with none of these, whose methods return and whose addresses tell its parts apart, is written. A cyclic value of a supported type without interfaces and methods is reported as recursive, where Marshal looks for recursion at all.", "quantifier": "every type and every value of it that can lie in memory, whatever is held in interfaces, every behaviour of methods and order of map iteration", "why_tests_cant": "that there is no further reason for an error is a statement about all values; what an interface may hold is unbounded", "anchors": ["/repo/internal/encoder/marshal.go:Marshal,encode", "/repo/internal/encoder/interface.go:reflectInterfaceValue,reflectInterfaceValueAsString", "/repo/internal/encoder/map_reflect.go:reflectMap,reflectConcreteMap", "/repo/internal/encoder/slice_reflect.go:reflectSlice,reflectConcreteSlice", "/repo/internal/encoder/struct_reflect.go:reflectStruct", "/repo/internal/encoder/marshal_php.go:compileMarshaler"]}
{"id": "C89", "title": "Marshal returns a text exactly if nothing at a place it gets to bars the way", "statement": "No value is written if one of these holds: its type, or that of a struct, slice or map in an interface that Marshal gets to, has a fault (C87); Marshal gets to an interface that holds an array, a uintptr, a channel and the like, or a map with keys other than strings and integers; it gets to an interface in a field with the option string that holds anything but a bool or number of a predeclared type; it gets to a value whose MarshalPHP method is called and does not return a text. Every failure other than the error about recursion, panics included, is due to one of these. So finite acyclic values, whose methods end and whose addresses tell their parts apart, are written if and only if none holds. What lies in omitted fields, or behind a value written by its method, does not matter.", "quantifier": "every type and every value of it that can lie in memory, whatever is held in interfaces, every behaviour of methods and order of map iteration", "why_tests_cant": "both directions range over all values: that there is no further reason for a failure, and that no reason is ever passed over in silence", "anchors": ["/repo/internal/encoder/marshal.go:Marshal,encode", "/repo/internal/encoder/interface.go:reflectInterfaceValue,reflectInterfaceValueAsString", "/repo/internal/encoder/map_reflect.go:reflectMap,reflectConcreteMap", "/repo/internal/encoder/slice_reflect.go:reflectSlice,reflectConcreteSlice", "/repo/internal/encoder/struct_reflect.go:reflectStruct", "/repo/internal/encoder/marshal_php.go:compileMarshaler"]}
{"id": "C90", "title": "Unmarshal takes exactly the texts that suit the type at every place", "statement": "Whether Unmarshal returns nil is decided place by place: the type can be prepared, and the input is the text of a document in which every part that is read into a variable (the elements of slices, the entries of arrays that are not beyond the end, keys and values of maps, fields under their keys, what pointers lead to, what goes into an any) is what the type of that variable asks for: the right kind, in range, a count and indexes that memory can be asked for, keys that can be hashed, skipped values well-formed, a method that succeeds, no more than 10000 containers around it. So a well-formed text that is refused has a part that does not suit its place; what the variables held, what was read before, the order of entries and how often they stand there have no influence.", "quantifier": "every type without interfaces that have methods, every old value of the destination, every input below 2^63 bytes, every behaviour of UnmarshalPHP methods", "why_tests_cant": "both directions range over all texts and all types, recursive ones included; that nothing but the part and the type of its place matters is a statement about all contexts", "anchors": ["/repo/internal/decoder/struct.go:Decode", "/repo/internal/decoder/slice.go:Decode", "/repo/internal/decoder/array.go:Decode", "/repo/internal/decoder/map.go:Decode", "/repo/internal/decoder/ptr.go:Decode", "/repo/internal/decoder/interface.go:Decode", "/repo/internal/decoder/wrapped_string.go:Decode", "/repo/unmarshal.go:Unmarshal"]}
{"id": "C91", "title": "The order of entries, at any depth, has no influence on whether a text is accepted", "statement": "If the entries of arrays and objects anywhere inside a well-formed text are put into another order, Unmarshal accepts the new text for a type exactly if it accepts the old one, whatever the destination held; the new text has the same length. For types with UnmarshalPHP methods this is so if those methods do not mind the order of entries in the parts they are given.", "quantifier": "every type without interfaces that have methods, every old value of the destination, every well-formed document below 2^63 bytes, every rearrangement at all depths", "why_tests_cant": "all rearrangements of all documents for all types; code that grows slices while reading, reuses elements and skips unknown keys might depend on what came before in ways that only particular orders show", "anchors": ["/repo/internal/decoder/slice.go:Decode", "/repo/internal/decoder/array.go:Decode", "/repo/internal/decoder/map.go:Decode", "/repo/internal/decoder/struct.go:Decode", "/repo/internal/decoder/interface.go:Decode", "/repo/internal/decoder/context.go:skipValue", "/repo/unmarshal.go:Unmarshal"]}
{"id": "C92", "title": "What is stored does not depend on the order of entries, at any depth", "statement": "If no key occurs twice in an array or object of a text, and the entries of arrays and objects anywhere inside it are put into another order, Unmarshal stores the same value, for every type and every old value: the same up to the order of map entries, which maps of Go do not have, and the very same if there are no maps and no interfaces in the type. UnmarshalPHP methods are asked not to mind the order either, and keys of maps to be of types without methods. (With a key that occurs twice the last entry counts.)", "quantifier": "every type without interfaces that have methods, every old value of the destination, every well-formed document below 2^63 bytes in which keys differ, every rearrangement at all depths", "why_tests_cant": "all rearrangements of all documents, for all types and all old values; slices that grow while they are read and variables that already hold something are where an order could leave its mark", "anchors": ["/repo/internal/decoder/slice.go:Decode", "/repo/internal/decoder/array.go:Decode", "/repo/internal/decoder/map.go:Decode", "/repo/internal/decoder/struct.go:Decode", "/repo/internal/decoder/interface.go:Decode", "/repo/internal/decoder/ptr.go:Decode", "/repo/unmarshal.go:Unmarshal"]}
{"id": "C93", "title": "A value comes back even if the entries of its text are put into another order on the way", "statement": "In what Marshal writes for a value that can be read back, no key occurs twice in an array. If a program of another language puts the entries of that text, at any depth, into another order (as ksort or array_reverse in PHP with keys kept), Unmarshal into a zero value of the same type gives the value back: the same up to the order of map entries, and if the type has no maps, the very value that the text as it was written gives.", "quantifier": "every type without methods and interfaces that can be prepared, every value of it as asked for in C06 (integers in range, floats that strconv reads back, no pointers to nil slices or maps), every rearrangement of the entries at all depths, up to 10000 levels", "why_tests_cant": "all values of all types and all rearrangements of their texts; a list written as 0, 1, 2 … must come back if it is read as 2, 0, 1", "anchors": ["/repo/marshal.go:Marshal", "/repo/unmarshal.go:Unmarshal", "/repo/internal/encoder/slice.go:compileSlice", "/repo/internal/decoder/slice.go:Decode", "/repo/internal/decoder/map.go:Decode", "/repo/internal/decoder/struct.go:Decode"]}
