# Design

Subject: `trim21/go-phpserialize` (source in `/repo`, Go). The model is Lean 4 and lives in `lean/Verif`.
The properties are in `properties.jsonl`; `MANIFEST.json` says which theorems settle which property.
`seeded/LOG.jsonl` lists wrong programs the theorems were tried against.

Layout of `lean/Verif`: `Model/` follows the Go code function by function and cites it; `Spec/` holds the vocabulary in which properties are
stated (it does not use the functions of the model, except for the types of values and outcomes); `Proofs/` holds lemmas; `Props/` holds the
theorems named in the manifest, each with an example that meets its premises.

## 1. What is modelled

| Lean module | Go source | content |
|---|---|---|
| `Model/Base` | `errors/error.go`, Go runtime | bytes, outcomes (`ok`, `err`, `panic`, `diverge`), checked indexing and slicing, int64 wrap-around |
| `Model/Lex` | `decoder/context.go`, `decoder/int.go` | every scanner: lengths, strings, ints, floats, bools, null, class names, `skipValue` |
| `Model/Types` | `reflect` | Go types (incl. recursive named/struct types), Go values, zero values |
| `Model/Tags` | `runtime/struct_field.go` | struct tags |
| `Model/Decode` | `decoder/*.go` | every decoder, type-directed, with the destination value threaded through |
| `Model/Unquote` | `decoder/unmarshal_php.go:97-232` | `unquoteBytes` with its buffer, `getu4` |
| `Model/DecCompile` | `decoder/compile.go` | acceptance / rejection / divergence of type compilation |
| `Model/Unmarshal` | `unmarshal.go` | top level |
| `Model/DecObj` | `decoder/compile.go`, `wrapped_string.go`, `struct.go` | the decoder objects: making them, with `structTypeToDecoder` and objects that are filled in later, and decoding with them; the struct and field names they hold and the `UnmarshalTypeError`s they build |
| `Model/EncText` | `encoder/{common,int,uint,float,bool,string,*_as_string,uint_at_string}.go` | the text of scalars, digit counting |
| `Model/Encode` | `encoder/*.go`, `marshal.go` | type compilation (`compileT`), every encoder over a heap with addresses, with the `Seen`/`StackDepth` context |
| `Model/EncObj` | `encoder/{compile,struct,slice,map,ptr,array}.go` and the `*_reflect.go` | the encoders as closures: making them, with `compileSeenMap` and variables that are set later, and calling them |
| `Model/Cache` | `encoder/compile_cache.go`, `decoder/compile.go:21-53` | the caches of prepared types: goroutines as state machines whose steps are single loads, map writes and atomic stores |
| `Model/Pool` | `encoder/context.go`, `buffer.go`, `marshal.go` | the pools of contexts and struct buffers: goroutines whose steps are pool operations and single appends to shared memory |
| `Model/Alloc` | every `make`, `reflect.New`, `MakeSlice`, `MakeMapWithSize` in `decoder/*.go`, `unmarshal.go:37` | the bytes of memory a call of `Unmarshal` asks for |
| `Model/DecPool` | `decoder/context.go:10-33`, `unmarshal.go:21-52` | the pool of decoder contexts, any number of goroutines calling `Unmarshal` |
| `Model/Work` | `encoder/*.go`: every `append` to `ctx.Buf` and to struct buffers, `marshal.go:16-17` | the bytes a call of `Marshal` moves, the struct buffers it has in use |
| `Model/Mem` | `decoder/*.go`, `unmarshal.go` | the decoders once more, on a memory of variables, arrays and maps that refer to each other |
| `Model/Alias` | `unmarshal.go:37-46`, `decoder/bytes.go`, `context.go:readString` | decoding with decoded `[]byte`s, and what methods keep of their argument, as (array, position, length) |
| `Model/Scribble` | `decoder/*.go`, `unmarshal.go` | decoding when `UnmarshalPHP` methods write to their argument: the buffer is a variable |
| `Model/Calls` | `decoder/*.go`, `unmarshal.go` | decoding with the list of all calls of `UnmarshalPHP` made so far; what a method does may depend on it |
| `Model/EncCalls` | `encoder/*.go`, `marshal.go` | encoding with the list of all calls of `MarshalPHP` made so far; what a method returns may depend on it |
| `Model/ErrText` | `errors/error.go` | the texts that `Error` methods make of errors |
| `Model/TypeErr` | `encoder/compile.go`, `slice.go`, `map.go`, `struct.go`, `ptr.go`, `error.go`; `decoder/compile.go`, `ptr.go`, `wrapped_string.go` | preparing a type, in both packages, with what errors say of the type, and their texts |
| `Model/Reader` | `decoder/*.go`, `unmarshal.go` | the decoders once more, knowing only the length of the buffer and asking for its bytes one by one |

Conventions.

* A Go function returning `(x, error)` is a Lean function into `Res X = ok x | err e | panic p | diverge`.
  `panic` is produced by the model wherever Go would panic: index or slice out of range, a reflect call on the
  wrong kind, a negative or huge `MakeSlice`, an unhashable map key, a nil dereference.
* Loops and recursion get fuel; running out is the outcome `diverge`. Termination theorems say the fuel used by the
  entry points is always enough. Non-termination findings say that no fuel is enough.
* Decoder destinations are trees of values, except in `Model/Mem`; C60 relates the two. The value after the call is part of the result, also when the call fails.
* Encoder arguments are values in a heap with addresses; finiteness of a value is a predicate, not a restriction of the model.
* Except in `Model/DecObj` and `Model/EncObj`, compiled closures / decoder objects are not represented as objects: an encoder or decoder is determined by its type,
  so the model runs directly on the type, and compilation is a separate function that accepts, rejects or diverges. C68 and C70 relate the two.
* A `World` gives what a program declares: struct fields, declared types with or without `MarshalPHP`/`UnmarshalPHP`, the methods themselves,
  and the parts of strconv and unicode that are not modelled. Theorems hold for every world (with stated premises).

## 2. What is not modelled (trusted or assumed)

* `strconv.AppendFloat` / `ParseFloat` and float64->float32 conversion are parameters. Theorems about floats assume what their documentation
  says (`Strconv`, `Spec/Ieee`): texts and conversions are rounded to the nearest number, ties to even, in exact arithmetic on the bits of IEEE 754.
  An environment that keeps this is constructed in Lean (`Props/DemoFloat`). Older theorems assume only that a given value survives (`Spec/Float`).
* `strconv.AppendInt/AppendUint/ParseUint/ParseBool` are modelled by direct definitions of their documented behaviour.
* `unicode.IsLetter/IsDigit` is a parameter. User code (`MarshalPHP`, `UnmarshalPHP`) is a parameter: it may fail, panic or not return where
  the theorem does not exclude it. It is a function of its argument (no state of its own), except in `Model/Calls`; likewise `MarshalPHP`, except in `Model/EncCalls`.
* `utf8.DecodeRune`, `utf8.EncodeRune`, `utf16.DecodeRune` are modelled by direct definitions of their documented behaviour; C65 relates them to UTF-8 as in Lean's library.
* `reflect`, maps, slices: documented semantics. Memory exhaustion and Go stack exhaustion are not outcomes of the model,
  except that unbounded recursion is visible as `diverge`. The order of map iteration is the order of the list of entries, which is arbitrary.
* 64-bit platform (`int` is 64 bits). Inputs are shorter than 2^63 bytes.
* Destinations that share memory within themselves (two pointers to one variable, cycles) exist only in `Model/Mem`; all other decoder theorems are about trees.
  In `Model/Mem` strings are values, and slices have no room beyond their length.
* Method promotion through embedded fields is not modelled: a type has `MarshalPHP`/`UnmarshalPHP` if its declaration says so.
* The Go memory model: atomics are sequentially consistent steps; `sync.Pool` hands an object to at most one holder, and may drop objects.
* Errors have a kind and an offset, and type errors the struct, field and type they name; the latter only in `Model/DecObj` (elsewhere they are left out). Their
  texts are modelled in `Model/ErrText`, given what reflect and strconv print, and those of errors about types that cannot be prepared in `Model/TypeErr`; not those of other errors of `Marshal`.

Trusted base: the Lean 4.33 kernel; the axioms `propext`, `Quot.sound` and `Classical.choice`; no others. Mathlib is not used.
All theorems of the manifest depend on at most these three. Those that do without `Classical.choice`:
`C02_uintptr_rejected`, `C05_float32_counterexample`, `C06_dash_counterexample`, `C06_negative_zero_counterexample`, `C06_nil_pointee_counterexample`, `C06_rejected_counterexample`, `C07_nil`, `C08_semicolon_witness`, `C10_anyKey_counterexample`, `C10_index_counterexample`, `C10_length_counterexample`, `C10_nil_destination_witness`, `C10_ptrKey_counterexample`, `C20_depth_counterexample`, `C20_other_counterexample`, `C24_any_counterexample`, `C24_pointer_counterexample`, `C27_marshal_ignores`, `C27_omitempty_witness`, `C28_held_counterexample`, `C28_pointer_counterexample`, `C29_slice_counterexample`, `C31_decoder`, `C31_encoder`, `C31_immutable`, `C31_lost_witness`, `C31_no_race`, `C31_not_blocked`, `C31_stored`, `C33_append_counterexample`, `C33_input`, `C33_write`, `C34_decoder_counterexample`, `C34_decoder_diverges`, `C34_encoder_counterexample`, `C34_encoder_diverges`, `C35_bytes_counterexample`, `C36_counterexamples`, `C37_array_counterexample`, `C37_method_counterexample`, `C37_recursion_counterexample`, `C38_nested_counterexample`, `C40_array_counterexample`, `C40_object_counterexample`, `C42_dash_counterexample`, `C42_tag_meaning`, `C45_counterexample`, `C45_duplicate_counterexample`, `C45_method_counterexample`, `C45_recursive_counterexample`, `C49_nil_call`, `C51_destination_partial`, `C51_nil_counterexample`, `C54_class_name_beyond`, `C54_methods`, `C55_end_misreported`, `C58_array_one_way`, `C59_list_witness`, `C60_new_variable`, `C60_shared_witness`, `C63_add_counterexample`, `C63_drop_counterexample`, `C67_anywhere`, `C67_not_type_errors`, `C67_partial`, `C67_refused`, `C68_same`, `C69_exponential`, `C69_few_types`, `C69_partial`, `C70_same`, `C70_set`, `C71_arrays`, `C71_partial`, `C72_recursive`, `C72_type`, `C72_unsigned`, `C73_changed`, `C73_input`, `C73_refused`, `C74_only`, `C74_reads`, `C75_counts`, `C75_huge`, `C75_nullKey`, `C75_twice`, `C77_zeros_refused`, `C78_number_field_counterexample`, `C78_number_key_counterexample`, `C78_uint_counterexample`, `C79_bytes_counterexample`, `C79_map_counterexample`, `C79_omitempty_counterexample`, `C80_declared_pointer_counterexample`, `C80_map_key_counterexample`, `C80_null_counterexample`, `C80_pointer_receiver_counterexample`, `C80_string_counterexample`, `C81_same`, `C82_first_failure`, `C82_same`, `C83_addresses_counterexample`, `C87_marshal_faults`, `C87_unmarshal_faults`, `C88_held_witness`, `C89_hidden_witness`, `C91_length`, `C92_twice_witness`.

## 3. Per property

Decoder lemmas proved once for every type by induction on fuel, used by most properties (`Proofs/DecSafe`, `DecSound`, `DecComplete`, `Frame`, `Depth`):
progress (`c < c' <= len`), locality (a success depends only on the consumed bytes), no panic, no divergence,
type preservation, grammar soundness. Encoder lemmas (`Proofs/EncSound`, `EncComplete`, `EncMono`, `EncDet`): a success is the printing of a PHP tree given by
a relation between Go values and trees (`Spec/Shown`, `Spec/Php`), more fuel changes nothing, the result does not depend on the context where no recursion is reported.

| id | status | how |
|---|---|---|
| C01 C02 C03 C04 | proved | encoder output computed symbolically, decoder lemma on `prefix ++ text ++ suffix`; decimal numerals by induction |
| C05 | partial | float64 proved given strconv; float32 is false (rounded twice; MaxFloat32 refused), witnesses. Exact arithmetic on bits: rounding in increasing sequences (`Proofs/Near`), the mean of two float32 is a float64, so double rounding changes odd bits only and by one (`Proofs/Ieee`) |
| C06 | partial | one induction over a relation between heap values, PHP trees and decoded values (`Spec/Back`, `Proofs/RoundTree`); six kinds of exceptions, each with a witness |
| C07 | proved | every success equals the printing of a PHP tree |
| C08 C09 C41 | proved | `parseInt64`/`ParseUint` against the decimal value of a digit string; accepted texts as iff |
| C10 | partial | five causes of panics with witnesses; every panic has one of them |
| C11 | partial | fuel of the entry point is never exhausted, calls nest at most as deep as the nesting limit allows (`Proofs/Nesting`); the rest is C34 |
| C12 C13 C44 | proved | from locality |
| C14 | proved | grammar soundness with depth; completeness for any |
| C15 C16 C17 C18 C19 C21 | proved | step lemmas for container loops, list induction |
| C20 | partial | cases on types; channels etc. and the nesting limit are exceptions |
| C22 | proved | structural recursion over PHP trees |
| C23 | proved | grammar soundness of skip: first byte is never a quote |
| C24 | partial | positions in a value (`Spec/Position`): the method's text is at the place of the value. Ignored in four kinds of places, witnesses |
| C25 | proved | digit-count loops by induction; round trip |
| C26 C27 | proved | filter/count over the field list; fields that are not written have no influence |
| C28 | partial | visited addresses grow (`Proofs/EncVisit`, `EncEnds`): guarded cycles end with an error; what has a text has no endless way into it past the methods (`Proofs/EncOpen`); two kinds of endless runs proved endless |
| C29 | partial | along any path the addresses differ (`Proofs/Acyclic`); three witnesses of false recursion errors |
| C30 C43 | proved | invariant of the pool machine over all interleavings (`Proofs/Pool`): objects are owned by one holder, memory of an object holds what its owner wrote |
| C31 | proved | invariant of the cache machine over all interleavings (`Proofs/Cache`) |
| C32 | proved | permutation invariance of map decoding, and of C06's relation |
| C33 | partial | decoding in memory simulates decoding by value, windows are separate, those that methods keep of their argument included (`Proofs/Alias`); append is the exception, witness |
| C34 | partial | termination by measures; recursive slice/map types (decoder) and arrays (encoder) never return, witnesses |
| C35 | partial | scalars; `[]byte` is the exception |
| C36 | partial | strict for skipped values; stored containers are the exception |
| C37 | partial | simulation of the two encoders (`Proofs/Held`); arrays, methods and recursion are exceptions, witnesses |
| C38 C39 | partial, proved | comparison of the two encoders under a changed stack (`Proofs/Restack`, `Pointer`) |
| C40 | partial | false for map[any]any; proved otherwise (`Proofs/Again`) |
| C42 | partial | tags for every tag string; `-,omitempty` is the exception |
| C45 | partial | compile functions compared, types with methods included; six exceptions, witnesses |
| C46 | proved | typing invariant |
| C47 | proved | grammar soundness + unique readability |
| C48 | proved | no panic, no divergence, specialised |
| C49 C50 | proved | cases of the encoder; termination on finite values |
| C51 | partial | cases; the nil interface panics |
| C52 | proved | every allocation is charged to bytes read next (`Proofs/Alloc`); inputs that need the factor by computation (`Proofs/AllocMin`) |
| C53 | proved | invariant of the machine over all interleavings (`Proofs/DecPool`): contexts and copies of inputs have one owner, `ctx.Buf` is the owner's copy |
| C54 | partial | one predicate on errors carried through every decoder function (`Proofs/Errors`), with positions bounded by the progress lemmas; witnesses for the exceptions |
| C55 | proved | a relation between two runs, on `b` and on `b ++ p`, carried through every decoder function (`Proofs/Final`): same outcome unless the first ran out of input; with C13 for truncation |
| C56 | proved | every accepted document acts on destinations as an overlay: a tree that keeps, replaces, goes through pointers and fields, or inserts map entries (`Proofs/Overlay`); overlays compose and are idempotent if keys are equal to themselves; for the outcome, two runs of the decoder on two destinations are compared, error by error (`Proofs/Twin`) |
| C57 | proved | entries are decoded one after the other, from the exact characterization of accepted documents |
| C58 | proved | the `any` decoder and the typed decoders on the same document: both directions for scalars, maps and objects; one direction for slices, with a witness that the other fails (`Props/Typed`) |
| C59 | proved | a count beside every encoder, bounded by the text it leaves, by induction on fuel (`Proofs/Work`); linked lists of any length computed exactly (`Props/DemoChain`) |
| C60 | proved | every decoder on memory compared with the one on trees (`Proofs/Mem`, `MemSim`): a place holds a tree made of a list of objects without duplicates (`Spec/Mem`) |
| C61 | proved | every decoder on memory keeps the set of objects that references lead to from the destination, up to new objects, and changes nothing outside (`Proofs/Share`) |
| C62 | proved | typing of memories by a type for each object (`Spec/MemTy`), kept by every decoder (`Proofs/MemKeep`); then two runs, on memory and on trees, compared by kind of outcome only (`Proofs/MemSame`) |
| C63 | proved | relations between types and values (`Spec/Widen`); a document decoded at the narrow type is decoded at the wide one, by induction over `DecDoc` (`Proofs/Widen`) |
| C64 | partial | the decoder's text-to-number step with `Strconv`; float32 by the same double rounding lemma; false for float32, witnesses |
| C65 | proved | the loop as a sequence of turns, each of which finds 8 free bytes in the buffer; the turns against the rules of JSON strings |
| C66 | proved | the limits are the nearest floats, by comparison with their neighbours in exact arithmetic |
| C67 | partial | which error each type refuses which letters with: proved; a type error only for scalars read into strings, otherwise false of the code (finding 24) |
| C68 | proved | relation between objects and the types they were made for, kept while further objects are made (`Proofs/DecMake`); running an object is decoding its type but for the names in type errors (`Proofs/DecObj`) |
| C69 | partial | proved for types that contain no other struct type; otherwise false of the code (finding 26): 2^(n+1)-1 decoders for n+1 types |
| C70 | proved | as C68 (`Proofs/EncMake`, `Proofs/EncObj`); encoders of values in interfaces are made when they are met |
| C71 | partial | proved for types without arrays; otherwise false of the code (finding 26) |
| C72 | partial | the names in an object are those of the place it is used in, carried along with the place in the input (`Proofs/Names`); an offset has one place, by comparing positions in the input (`Proofs/Places`); exceptions are false of the code (finding 27) |
| C73 | partial | proved for methods that write to no byte behind their argument or that they keep: what lies ahead of the cursor is untouched (`Proofs/Ahead`) and so are the byte slices decoded so far (`Proofs/Scribble`); false for methods that append (finding 6), witnesses |
| C74 | proved | `Model/Reader` gives every decoder as a tree of looks at positions; `Proofs/Reader` shows that it comes to what `Model/Decode` comes to. A value is looked at at most 4 times at its first byte and 5 times elsewhere, ends behind its start and looks at nothing behind its end; this is kept by sequencing (`Proofs/Looks`, `Proofs/LooksDec`). Five is reached (map with pointer keys). Not counted: standard library, methods, error texts |
| C75 | proved | `Spec/Lists` says what a list is, which types hold it and what is at an index. Each decoder is shown to decode the same entries, every one from the zero value, and to store them at their indices (`Proofs/Lists`). Witnesses for what happens to other lists: counts with leading zeros, `a:1:{}`, an index twice, an index without memory |
| C76 | partial | every error of the decoders is shown to hold fixed words, numbers of 64 bits or parts of the input (`Worded` in `Proofs/Errors`); its text is then put together piece by piece (`Proofs/ErrText`). False for bytes shown with `%c` and for numbers repeated as they are, witnesses proved |
| C77 | proved | by induction on the meaning of documents (`DecDoc`): every rule that reads a numeral reads the usual one; the converse is false (`C77_zeros_refused`) |
| C78 | partial | PHP's `unserialize` and `serialize` as a relation on documents (`Trip`); values come back if no string key is a numeral; false otherwise (finding 29), and for unsigned integers above 2^63 - 1 |
| C79 | partial | documents that replace all a variable holds (`Replaces`) give the same whatever it held; what `Marshal` writes is such a document if no map, `omitempty`, unwritten field or declared byte slice is involved; false otherwise (finding 30) |
| C80 | partial | as C06 (`Proofs/RoundTree` serves both), with a relation `M` that says what is the same for values with methods; false for pointer receivers, map keys, the option `string`, declared pointer types and methods that write null (finding 31) |
| C81 | proved | `Model/Calls` makes the calls visible and lets them depend on each other. `Spec/Calls` reads the needed calls off the type and the document (`Handed`), the two agree (`Proofs/CallsSound`), also as far as a failing run gets (`Proofs/CallsOrder`); for methods without state the outcome is that of `Model/Unmarshal` (`Proofs/CallsSame`) |
| C82 | proved | `Model/EncCalls` makes the calls visible and lets them depend on each other. `Spec/EncCalls` gives every value a list of fixed texts and calls (`Shape`); the run fills it (`Proofs/EncCalls`); there is one at most (`Proofs/EncCallsDet`, which also shows that for methods without state the outcome is that of `Model/Encode`); two runs with different methods make the same calls until one fails (`Proofs/EncCallsPar`) |
| C83 | partial | `Spec/Rewrite` says when values in two memories are the same (`SameIn`) and when texts are the same up to reordering (`Shuffled`). `Proofs/Rewrite` compares two encodings rule by rule; `Proofs/RewriteMove` shows that a value that has a text in one memory has one in the other, so that `Marshal` returns it or reports recursion; `Proofs/RewriteBack` shows that what was read (C06) is the same as what was written. Missing: the second part is false for empty slices and for structs with omitempty whose written fields are all zero |
| C84 | partial | `Spec/Tell` says of which values this is asked (`Clear`: no interface, no pointer to nil, no two fields with one key) and how strconv writes infinities and NaN; what `the same value` means is `SameIn` of C83. `Proofs/Tell` does scalars (floats by nearest decimal, C05); `Proofs/TellEnc` compares two encodings with one text rule by rule: the texts of the parts are well-formed documents, and a text is the text of one document only. Missing: false for interfaces, pointers to nil and doubled keys |
| C85 | partial | `Spec/Range` lists the documents that can be written (`Writable`) and the values of PHP (`PhpValue`). That what is written is writable goes by induction over the encoding; for the other direction `Proofs/Range` builds, for a document, a memory in which the map at an address has the entries of the document with that number. Missing: false for arrays with integer and string keys |
| C86 | proved | `Spec/Lossless`: when two values of type any are the same and when two PHP values differ in order, class names and spelling of floats only. Follows from C14/C22; that every stored value is that of a PHP value by induction over `AnyVal`, with insertion into maps as insertion into lists of entries |
| C87 | partial | `Spec/Fault` lists the faults of a type and the types that `Marshal` looks into; the preparation of `Model/TypeErr` is shown to agree with that of the other models and, by induction over it, to blame a listed fault. That an accepted type has none: what is prepared is closed under the parts looked into (`OpenSet`). False for embedded structs in `Unmarshal`, whose error shows no type, witness proved |
| C88 | proved | `Spec/Obstacle` lists what in a value keeps it from being written. The places that the encoder visits are followed from the value (`Charted`), with the reason of each failure (`Cause`, `Bad`); each reason at a visited place is an obstacle in the value. With C50 (ends), C29 (not recursive) and C49 (no panic) that gives success; with C28 the report of cycles |
| C89 | proved | `Spec/Barred` lists what bars the way, at places that `Marshal` gets to (`Steps`, the places of C24). Each failure is traced to the place where it began (`Reached`), which `Steps` reaches too; conversely a text of the whole has in it the text of every place got to (C24), which none of the listed places can have. A witness shows that the list of C88 is not exact: a method hides an obstacle |
| C90 | proved | `Spec/Accept` says which parts of a document are read into which variables (`DocAt`) and what a type asks of one part (`HereOk`), without values and order. From the tree specification `DecDoc`: an accepted document is accepted at every place; conversely the values are built up, by induction on the size of the document, from any old value of the type (`Slot`) |
| C91 | proved | `Spec/Rearrange`: rearrangement of entries at any depth, untyped. The parts of the rearranged document that are read into variables are rearranged parts of the document, and what a type asks of a part (`HereOk`, C90) does not change; methods are asked to agree |
| C92 | proved | `Spec/Reorder`: documents in which keys differ, values up to the order of map entries. Each step of a rearrangement is followed on `DecDoc`: entries with different keys can be swapped (closed forms of slices and arrays, insertion into maps), and an entry whose value changes is moved to the end first |
| C93 | proved | Composition: what is written for a value that fits is a `Writable` document (C85), so its keys differ; C06 reads it back; C92 follows the rearrangement. That fields of a struct have different keys comes from the type having been prepared |

## 4. Findings: places where code and stated property disagree

Each has a witness proved in Lean.

Decoder.
1. `Unmarshal(data, nil)` panics (`rv.Type()` on the zero Value before `validateValue`). C51
2. `Unmarshal` into a slice panics for huge declared lengths and for index MaxInt64 (`currentIndex+1` wraps). C10
3. `Unmarshal` into `map[any]T` panics on an array/object key; into `map[*K]T` panics on any key. C10
4. `Unmarshal` into recursive types that do not pass a struct (`type T []T`) never finishes compiling. C34
5. Declared counts are ignored for stored containers, enforced for skipped ones. C36
6. Decoded `[]byte`s share one buffer with spare capacity: appending to one overwrites another. C33. `UnmarshalPHP` is passed a window of the same buffer, with spare capacity: a method that appends to its argument changes what is decoded next. C73
7. A failing `a:` input leaves a `[]byte` half overwritten. C35
8. float32 values are parsed as float64 and rounded twice, so that 0x15AE43FD comes back as its neighbour (float.go:63, 73). MaxFloat32 is written as `3.4028235e+38` and refused when read (`OverflowFloat` of the float64, float.go:69). C05 C64
9. `N;` at the nesting limit is rejected for containers. `N;` is accepted as a string key of structs and maps. Slices and arrays reject
   declared lengths with a leading zero and `a:1:{}`, which maps and interfaces accept. A null after another entry of the same index leaves it in slices and arrays and zeroes it in maps. C75
10. In unmarshal_php.go the tests for `[`, `{`, digits and the unquoting are dead code, as `skipValue` has succeeded before. C23
11. Decoding a list into a slice makes a new slice for every element (slice.go:121-125), so n elements cost about n²/2 element sizes. Declared counts are believed before an entry is seen (slice.go:105, map.go:78): the 14 bytes `a:1000000000:{` ask for 16 gigabytes. C52
23. The Offset of the error for a class name that is too long is the declared end, beyond the input or negative (context.go:103-105). Messages for null and bool show a byte after their Offset, the one for trailing bytes a byte before it. The error for values nested too deeply that are being skipped always shows an 'a', also for objects (context.go:134). A type error of a method keeps an Offset relative to the method's own value. C54
24. Bools, slices and arrays report a wrong first byte as an unexpected end of input (bool.go:40, slice.go:146, array.go:125). C55, C67

26. `compileStruct` forgets the decoder of a struct type when it is done (compile.go:321), so a struct type used in two fields is prepared twice, and nested declarations take time and memory exponential in their depth. C69. The encoder keeps its map and prepares each type once, except that array types start with a new map (array.go:14-25). C71
27. `UnmarshalTypeError`: the one for an unsigned integer has no Struct and Field (uint.go:27-33); the one for a key of a struct inside another of the same type has those of the outer one, as the decoder is shared (compile.go:261-265); Type is `string` for every string, byte slice and `,string` field (string.go:24) and loses the name of declared slice types (slice.go:41-49). Field is documented as the full path from the root (error.go) and is the last name only. C72
28. Texts of errors show bytes of the input as they are: one with `%c`, so that a control character gets into the text (error.go:75-120), and numbers that cannot be parsed with `%s`, of any length and, for `,string` fields, of any bytes (int.go:28, uint.go:29). C76
34. The error of `Unmarshal` for a type with an embedded struct, at any depth, is "anonymous struct field is not supported" and names neither the struct nor the field (compile.go:279); all other errors about types, of both packages, show the type. Of an unsupported pointer to a pointer in a slice, map or pointer `Marshal` shows `*` and the element, in a field the whole type (ptr.go:11, struct.go:127 of the encoder). C87

Encoder.
12. `Marshal` of types recursive through a fixed array never finishes compiling. C34
13. `Marshal` never finishes on cycles through an interface holding a struct pointer, or on an interface variable that holds its own address. C28
14. `Marshal` reports recursion on acyclic values: slices sharing a data pointer, concrete slices inside any below 1000 levels, a pointer to the first field of an enclosing struct. C29 C37 C38
15. `MarshalPHP` with a pointer receiver is ignored for pointer fields and pointers in interfaces; any `MarshalPHP` on scalar, map and interface-slice types is ignored inside any. C24
16. A nil interface of a Marshaler type, and a nil pointer whose method has a value receiver, make `Marshal` panic. C49
17. Arrays inside any, uintptr and pointers to pointers are not supported. C37 C38 C02
25. Every struct is written to a buffer of its own and copied to that of its parent (struct.go:67, 103), so a linked list of n nodes costs about n² bytes moved. C59
18. omitempty drops -0.0; hidden fields count when omitempty asks whether an enclosed struct is zero. C06 C27
35. The option `,string` is allowed on interface fields, but if the interface holds a string, or a value of a declared type such as `type Level int`, `Marshal` fails (interface.go:89-119 has cases for predeclared bools and numbers only), though fields of these types may have the option (compile.go:66-85). The type of the field does not show it. C88

Both.
19. `map[any]any` produced by decoding into any cannot be marshalled; objects come back as arrays. C40
20. `,string` on string fields, embedded struct pointers, duplicate keys, recursive slices and structs with MarshalPHP only are accepted by `Marshal` only; the tag `-,omitempty` means a key `-` to `Unmarshal` and no field to `Marshal`. C42 C45
21. Pointers to nil slices and maps come back as nil pointers. C06
22. Racing stores of the caches lose entries, which only costs time. C31. A `Marshal` that panics does not return its context to the pool, which is harmless. C43
29. PHP makes integers of string keys that are numerals: `map[string]int{"5": 1}`, read and written by PHP, is `a:1:{i:5;i:1;}`, which `map[string]int` refuses (string.go:61-62), as does a struct whose field has the key `5`. Unsigned integers above 2^63 - 1 are written as they are, which PHP does not read. C78
30. A nil value of a declared byte slice type (`type Raw []byte`, also `[]MyByte`) is written as `N;` (compile.go:19 of the encoder asks for `[]byte` itself), and `N;` leaves the old bytes of a byte slice in place (bytes.go:38-40), while it empties all other slices and a nil `[]byte` is written as the empty string. C79
31. Where a type has both methods, `Marshal` and `Unmarshal` do not agree on when to call them: `MarshalPHP` is not called for map keys (compile.go:53-64 of the encoder), for fields with the option `string` (compile.go:66-80), behind declared pointer types, nor, with a pointer receiver, for pointer fields; `UnmarshalPHP` is called in all these places (compile.go:57, 133 of the decoder), and is not called for null. C80
32. Writing what was read does not always give the same text: an empty slice is written as `a:0:{}`, read as nil (slice.go:82-89 of the decoder) and then written as `N;`; a struct field with omitempty whose value differs from zero in unexported fields only is written the first time and left out the second time (struct.go:77-80 of the encoder). C83
33. No argument without methods is written as an array with integer and string keys: map keys are of one kind (map.go:19-25, map_reflect.go:26-32 of the encoder, which refuse interface keys), list keys are integers, field keys strings. Such arrays are read into `map[any]any` only, which cannot be written (finding 19). C85
