{"id": "C01", "title": "Wtf8 validation accepts every well-formed WTF-8 string", "statement": "Wtf8Str::from_bytes / Wtf8String::from_bytes succeed on every byte string that is the generalized UTF-8 encoding of some sequence of code points (0..=0x10FFFF, surrogates allowed) in which no high surrogate is immediately followed by a low surrogate, and the resulting string holds exactly those bytes.", "quantifier": "every finite sequence of code points without an adjacent surrogate pair", "why_tests_cant": "The domain is infinite; an off-by-one in one lead-byte range or a state flag left set after an earlier character only shows on specific combinations of neighbouring characters.", "anchors": ["wtf8/src/lib.rs: validate_wtf8, Wtf8Str::from_bytes, Wtf8String::from_bytes"]}
{"id": "C02", "title": "Wtf8 validation rejects everything that is not well-formed WTF-8", "statement": "Wtf8Str::from_bytes / Wtf8String::from_bytes return Err on every byte string that is not well-formed WTF-8, so every Wtf8Str obtained from safe code is well-formed. (The pinned code violates this: the third byte of a high surrogate is not checked.)", "quantifier": "every finite byte string", "why_tests_cant": "Rejection is a statement about the complement of the language: an infinite set of malformed strings that no finite set of negative tests covers, as the unnoticed defect shows.", "anchors": ["wtf8/src/lib.rs: validate_wtf8"]}
{"id": "C03", "title": "Iterating code points returns exactly the encoded code points and never reads past the end", "statement": "For every well-formed WTF-8 string, codepoints() yields exactly the code points the string encodes, in order; and for every byte string accepted by from_bytes, the iterator never takes an element beyond the end of the string (the unwrap_unchecked calls are never reached on an exhausted iterator) and never produces a value above 0x10FFFF.", "quantifier": "every well-formed WTF-8 string, and every byte string accepted by validation", "why_tests_cant": "Undefined behaviour on an exhausted iterator is invisible to an ordinary test and depends on which truncated tails validation lets through.", "anchors": ["wtf8/src/std_internal.rs: next_code_point, encode_utf8_raw", "wtf8/src/lib.rs: Wtf8CodePoints, Wtf8Str::codepoints"]}
{"id": "C04", "title": "Conversion to and from potentially ill-formed UTF-16 is lossless", "statement": "Wtf8String::from_wide(v).encode_wide() yields v for every u16 sequence v (including unpaired surrogates), from_wide always produces well-formed WTF-8, and from_wide(s.encode_wide()) == s for every well-formed s.", "quantifier": "every finite u16 sequence; every well-formed WTF-8 string", "why_tests_cant": "Surrogate pairing depends on neighbouring units at every position of an unbounded sequence.", "anchors": ["wtf8/src/lib.rs: Wtf8String::from_wide, EncodeWide, push_code_point_unchecked", "wtf8/src/std_internal.rs: encode_utf16_raw"]}
{"id": "C05", "title": "Concatenation preserves well-formedness and equals UTF-16 concatenation", "statement": "push, push_char and push_wtf8 applied to well-formed strings always give a well-formed string whose UTF-16 form is the concatenation of the operands' UTF-16 forms; in particular a trailing high surrogate and a leading low surrogate are merged.", "quantifier": "every pair of well-formed WTF-8 strings / every string and code point, hence every sequence of push operations", "why_tests_cant": "Only an induction over all operation histories shows that no sequence of pushes leaves an un-merged pair.", "anchors": ["wtf8/src/lib.rs: push, push_char, push_wtf8, final_lead_surrogate, initial_trail_surrogate, decode_surrogate_pair"]}
{"id": "C06", "title": "Slicing and truncation never split a code point", "statement": "For every well-formed string and every indices begin <= end, the slice s[begin..end] (also s[begin..], s[..end], truncate) either panics or returns a well-formed string; it succeeds exactly when the indices fall between code points, and then encodes the corresponding sub-sequence of code points.", "quantifier": "every well-formed WTF-8 string and every pair of byte indices", "why_tests_cant": "Boundary classification must hold for each index of each string; unit tests fix a handful of strings.", "anchors": ["wtf8/src/lib.rs: is_code_point_boundary, Index impls, truncate"]}
{"id": "C07", "title": "UTF-8 views of a WTF-8 string are exact or lossy as documented", "statement": "as_str/into_string return the text iff the string holds no surrogate code point, and then it is the same code point sequence; to_string_lossy/into_string_lossy return the sequence with each surrogate replaced by U+FFFD and everything else unchanged, with the same byte length. The Debug output is the quoted sequence in which each surrogate is shown as \\u{...} with its number in hexadecimal and each other character as char::escape_debug shows it.", "quantifier": "every well-formed WTF-8 string", "why_tests_cant": "The search for the next surrogate skips by lead byte class at every position; correctness is a loop invariant over unbounded strings.", "anchors": ["wtf8/src/lib.rs: next_surrogate, as_str, into_string, into_string_lossy, to_string_lossy, Debug"]}
{"id": "C08", "title": "Modified UTF-8 encoding followed by decoding is the identity", "statement": "For every well-formed WTF-8 string s, modified_utf8_to_string(string_to_modified_utf8(s)) is Ok(s).", "quantifier": "every well-formed WTF-8 string", "why_tests_cant": "The decoder has a detection pass with carried state and a separate rewriting pass; agreement of both with the encoder must hold for every interleaving of NULs, surrogates, supplementary and other characters.", "anchors": ["src/mod_utf8.rs: modified_utf8_to_string, string_to_modified_utf8"]}
{"id": "C09", "title": "The modified UTF-8 encoder conforms to the JVM specification", "statement": "string_to_modified_utf8(s) is the JVM-specified encoding of the UTF-16 form of s: each UTF-16 unit is encoded on its own in one, two or three bytes (unit 0 in two), hence the output never contains a zero byte nor a byte in 0xF0..=0xFF.", "quantifier": "every well-formed WTF-8 string", "why_tests_cant": "Bit-twiddled byte formulas must be right for each of 1,114,112 code points and all sequences of them.", "anchors": ["src/mod_utf8.rs: string_to_modified_utf8"]}
{"id": "C10", "title": "The modified UTF-8 decoder is correct on every valid class-file string", "statement": "For every sequence of UTF-16 units, decoding its JVM-specified modified UTF-8 encoding succeeds and gives the string whose UTF-16 form is that sequence, including embedded NUL, unpaired surrogates and any mixture of pairs.", "quantifier": "every finite u16 sequence", "why_tests_cant": "The decoder's pair detection depends on carried state across unbounded input.", "anchors": ["src/mod_utf8.rs: modified_utf8_to_string"]}
{"id": "C11", "title": "The modified UTF-8 decoder is total and rejects malformed input", "statement": "modified_utf8_to_string never panics, on any byte string; whatever it accepts is a well-formed WTF-8 string; and it accepts only valid modified UTF-8. (The pinned code violates the last two parts.)", "quantifier": "every finite byte string", "why_tests_cant": "Quantifies over all malformed inputs, which tests cannot enumerate.", "anchors": ["src/mod_utf8.rs: modified_utf8_to_string", "wtf8/src/lib.rs: validate_wtf8"]}
{"id": "C12", "title": "A string constant is framed by its exact byte length", "statement": "Writing any string constant and reading it back from the produced bytes followed by any other bytes gives the same string and leaves exactly the other bytes. (The pinned code violates this for strings whose modified UTF-8 form exceeds 65535 bytes: the length prefix is silently truncated.)", "quantifier": "every well-formed string and every continuation of the byte stream", "why_tests_cant": "The failing inputs are longer than 65535 bytes, and the succeeding ones are unbounded in content.", "anchors": ["src/rw.rs: ReadWrite for Wtf8String / Cow<Wtf8Str>", "src/mod_utf8.rs"]}
{"id": "C13", "title": "Fixed-width numbers are big-endian and round trip", "statement": "For every value of every fixed-width numeric type (u8..u64, i8..i64, f32, f64) write_to emits exactly the type's size in bytes, most significant first, and read_from on those bytes followed by anything returns the same bit pattern and leaves the rest; read_from on fewer bytes is Err; and every byte sequence of that size is produced by exactly one value.", "quantifier": "every value of each width and every continuation of the stream", "why_tests_cant": "2^64 values times arbitrary continuations.", "anchors": ["src/rw.rs: impl_rw_numbers"]}
{"id": "C14", "title": "Length-prefixed lists round trip and overflow is an error", "statement": "A list written with a u8/u16/u32 count prefix is read back as the same list with the same continuation whenever each element round trips; a list longer than the prefix can express is refused with Err instead of being truncated; reading consumes exactly count elements.", "quantifier": "every list length and every element codec that round trips", "why_tests_cant": "Parametric in the element codec and in list length, including lengths beyond 65535.", "anchors": ["src/helper.rs: VecLen", "src/rw.rs: Vec helpers"]}
{"id": "C15", "title": "Type descriptors round trip", "statement": "Parsing the descriptor produced for any well-formed type (class names without ';', array dimension 1..=255 over a non-array, method types only at top level) gives back the same type, both for the lossless and, for names without surrogates, the textual form.", "quantifier": "every well-formed Type value, of any nesting depth and name", "why_tests_cant": "Recursive type with unbounded names and parameter lists.", "anchors": ["src/ty.rs: parse_type, write_type, Display for Type"]}
{"id": "C16", "title": "The descriptor parser is deterministic, consumes what it accepts and cannot be tricked", "statement": "Whenever parse_type returns Ok(t) the text of t is a prefix of the input up to the void-return marker; a descriptor starting with '[' never yields a non-array type, so the unreachable_unchecked in checkcast/instanceof reading is unreachable. Rejection of trailing text is not performed (violation of strict parsing), and 256 dimensions overflow the u8 counter.", "quantifier": "every input string", "why_tests_cant": "Soundness over all strings, and absence of undefined behaviour for attacker-controlled class names.", "anchors": ["src/ty.rs: parse_type", "src/code/convert.rs: CheckCast/InstanceOf arms"]}
{"id": "C17", "title": "Textual and binary descriptor forms agree", "statement": "For every type the Display form and the WTF-8 form written by the class-file writer denote the same text, so inserting a descriptor through any API gives the same constant. (The pinned code violates this for class names holding unpaired surrogates.)", "quantifier": "every Type value", "why_tests_cant": "Two independent recursive printers must agree on an infinite domain.", "anchors": ["src/ty.rs: write_type, Display for Type", "src/rw.rs: insert_member, insert_nameandtype, insert_dynamic"]}
{"id": "C18", "title": "Field (reference type) signatures round trip", "statement": "For every reference type signature whose identifiers contain none of . ; [ / < > : and are non-empty, parsing its printed form gives back the same signature, for any nesting of type arguments, wildcards, inner classes, packages and arrays.", "quantifier": "every well-formed RefTypeSignature", "why_tests_cant": "Mutually recursive grammar of unbounded depth.", "anchors": ["src/signature.rs: ref_type_sig, class_type_sig, type_args, type_arg, simple_type_sig, packages, Display impls"]}
{"id": "C19", "title": "Class and method signatures round trip", "statement": "For every well-formed class or method signature, parsing the printed form gives back the same signature. (The pinned code violates this for thrown type variables and for type parameters with a class bound plus interface bounds or with several interface bounds.)", "quantifier": "every well-formed ClassSignature / MethodSignature", "why_tests_cant": "Mutually recursive grammar; the failing shapes are combinations no existing test uses.", "anchors": ["src/signature.rs: class_sig, method_sig, type_parameter, throws, Display impls"]}
{"id": "C20", "title": "Constant pool indices are stable and resolve to what was inserted", "statement": "After any sequence of insertions into the writer's pool, every index returned so far still designates the entry it was returned for; no entry occupies the unusable slot after a long/double and no two entries overlap.", "quantifier": "every finite sequence of insertions", "why_tests_cant": "Invariant over all operation histories.", "anchors": ["src/cp.rs: VecCp::insert_raw, RawConstantEntry::size"]}
{"id": "C21", "title": "Constant pool insertion deduplicates exactly", "statement": "Inserting the same entry twice returns the same index and does not grow the pool; different entries never share an index; floats are distinguished by bit pattern.", "quantifier": "every finite sequence of insertions", "why_tests_cant": "Invariant relating the cache to the entry list over all histories.", "anchors": ["src/cp.rs: VecCp::insert_raw", "src/total_floats.rs"]}
{"id": "C22", "title": "A written constant pool reads back entry for entry", "statement": "Reading the bytes of any pool produced by insertions gives a pool in which every index has the same entry (and unusable indices have none), and leaves the following bytes untouched.", "quantifier": "every reachable pool and every continuation of the stream", "why_tests_cant": "Arbitrary pool contents and sizes up to 65534 slots with variable entry widths.", "anchors": ["src/cp.rs: VecCp::write_to, MapCp::read_from, RawConstantEntry ReadWrite derive"]}
{"id": "C23", "title": "Reading a constant pool accounts for every declared slot", "statement": "When MapCp::read_from succeeds, index i has an entry only if 1 <= i < count, entries never overlap, and every slot below count is an entry or the second half of a long/double; no input makes it panic. (The pinned code violates the last part: a long/double in the last of 65534 slots overflows the u16 counter.)", "quantifier": "every input byte string", "why_tests_cant": "All possible inputs, including adversarial pools of maximal size.", "anchors": ["src/cp.rs: MapCp::read_from"]}
{"id": "C24", "title": "Loadable constants inserted in the pool are read back unchanged", "statement": "For every loadable constant (int, float, long, double, string, class, method type, method handle, field/method reference), the index returned by insert_constant is resolved by read_constant on any later state of the pool to the same constant (with the interface flag of field references cleared).", "quantifier": "every constant and every later sequence of insertions", "why_tests_cant": "Composition of nested insertions with deduplication, on any pool state.", "anchors": ["src/rw.rs: insert_constant, read_constant", "src/loadable.rs"]}
{"id": "C25", "title": "Member references, names-and-types and method handles resolve to what was inserted", "statement": "insert_member/read_member, insert_nameandtype/read_nameandtype and insert_method_handle/read_method_handle are inverse on any later state of the pool for descriptors without surrogates; so are insertion and reading of the names of classes, strings, modules and packages.", "quantifier": "every member reference / handle and every later sequence of insertions", "why_tests_cant": "Three levels of indirection through an arbitrary pool state.", "anchors": ["src/rw.rs: insert_member, read_member, insert_nameandtype, read_nameandtype, insert_method_handle, read_method_handle"]}
{"id": "C26", "title": "Bootstrap method references are all resolved or reading fails", "statement": "When a class with a bootstrap-method table is read successfully every dynamic constant or call site encountered designates exactly the table entry at its index; an index outside the table makes reading fail. (The pinned code leaves references unresolved, without error, when the attribute is absent.)", "quantifier": "every table and every multiset of pending references", "why_tests_cant": "Depends on the set of references accumulated over the whole read.", "anchors": ["src/cp.rs: bootstrap_methods, resolve_later", "src/clazz.rs: Class::read_from", "src/dynamic.rs"]}
{"id": "C27", "title": "Float constants compare by bit pattern and are totally ordered", "statement": "TotalF32/TotalF64 equality holds iff the bit patterns are equal (so NaN equals itself and 0.0 differs from -0.0), equality agrees with the hash, and the order is total and consistent with equality.", "quantifier": "every pair (triple) of 32/64-bit patterns", "why_tests_cant": "2^128 pairs.", "anchors": ["src/total_floats.rs: TotalF32, TotalF64"]}
{"id": "C28", "title": "Access flags keep exactly the known bits", "statement": "Reading an access-flags word keeps exactly the bits named by the flag set and drops the others; writing a flag set and reading it back is the identity; reading then writing is idempotent.", "quantifier": "every u16 value, for every flag set", "why_tests_cant": "Holds per flag set over all 65536 words and relative to the JVM-specified masks.", "anchors": ["src/flags.rs"]}
{"id": "C29", "title": "Class-file versions are accepted exactly in the supported range", "statement": "Every supported version value is written as minor then major and read back; a version is accepted iff its major number is in the supported range, independent of minor.", "quantifier": "every pair of u16 values", "why_tests_cant": "2^32 inputs.", "anchors": ["src/version.rs: JavaVersion"]}
{"id": "C30", "title": "Method handle checking implements the documented rules", "statement": "MethodHandle::check returns Ok exactly when the documented rules hold: field kinds refer to a field type, method kinds to a method type, no handle refers to <clinit>, newInvokeSpecial handles and only those refer to <init>; and a handle it accepts also satisfies the JVM rules (interface flag, void constructors). (Violated: field handles named <clinit> or <init> are accepted, and the interface flag and the return type of constructors are not looked at.)", "quantifier": "every method handle value (every kind, name, descriptor, owner, flag)", "why_tests_cant": "Decision logic over strings and recursive descriptors; tests sample a few handles.", "anchors": ["src/loadable.rs: MethodHandle::check"]}
{"id": "C31", "title": "Negating a jump condition negates its meaning", "statement": "For every jump condition other than Always, the negated condition jumps on exactly the operand values on which the original does not; negation is an involution; Always has no negation; opcode encodings of conditions are injective.", "quantifier": "every condition and every operand values", "why_tests_cant": "All integer/reference operands.", "anchors": ["src/code/structure.rs: JumpCondition Neg, opcode conversion"]}
{"id": "C32", "title": "Stack map frames round trip", "statement": "Every stack-map frame accepted by the writer reads back as the same frame with the continuation untouched; frames whose form the format cannot express are refused. (Violated by an Append frame with no locals, which reads back as a Same frame.)", "quantifier": "every raw frame", "why_tests_cant": "Unbounded verification-type lists and 2^16 offsets, five overlapping tag ranges.", "anchors": ["src/code.rs: RawFrame read_from/write_to"]}
{"id": "C33", "title": "Verification type tags follow the JVM specification", "statement": "Each verification type is written with the tag the JVM specification assigns to it. (Violated: the tags of Long and Double are exchanged.)", "quantifier": "every verification type", "why_tests_cant": "Round-trip tests through the same library cannot see a consistent swap.", "anchors": ["src/code.rs: VerificationType"]}
{"id": "C34", "title": "Each instruction is encoded as the JVM instruction with its meaning and decodes to itself", "statement": "Writing any single non-branching instruction and reading it back gives the same instruction (up to documented normal forms), and the emitted opcode is the JVM-specified one. (Violated: NewArray emits nothing; static field stores are emitted as loads; an instruction pushing a dynamic constant cannot be read back; an array of a class whose name begins like a descriptor, such as Dog, is read as a primitive array.)", "quantifier": "every instruction with every operand, and every pool state", "why_tests_cant": "Operand-dependent encodings (short forms, wide forms, ldc variants) over all operand values.", "anchors": ["src/code/convert.rs: write_insn, convert_direct_instruction", "src/insn.rs"]}
{"id": "C35", "title": "Raw instructions round trip", "statement": "Every raw (symbolic-free) instruction value the format can express (a tableswitch has one offset for every key from low to high, a lookupswitch fewer than 2^32 entries) is written as the bytes the JVM specification gives it and read back identically from the front of any continuation, and unknown opcodes are rejected.", "quantifier": "every raw instruction, every operand value, every continuation", "why_tests_cant": "Over 200 opcodes times all operand values and continuations.", "anchors": ["src/insn.rs: Instruction, Wide", "coffer_macros/src/derive.rs"]}
{"id": "C36", "title": "Switch instructions are aligned and preserve their tables", "statement": "At every code offset the operands of a tableswitch/lookupswitch start at the next multiple of four; the reader and writer agree on the padding; lookup keys are written in ascending order; the table read back maps each key to the same target. (Violated for switches behind a branch whose size was misjudged, see C37.)", "quantifier": "every code offset, every table", "why_tests_cant": "All alignments times all tables.", "anchors": ["src/code.rs: switch handling in read_from and write_to", "src/insn.rs: TableSwitch, LookupSwitch"]}
{"id": "C37", "title": "Branches of written code hit their labels and code_length is exact", "statement": "In the bytes produced for any instruction list, the declared code length equals the number of code bytes and every branch offset added to the position of its instruction is the position of its label. A branch to a label that is not placed is refused. (Violated when a branch spans more than 32767 bytes, and in code with very many branches.)", "quantifier": "every instruction list with every placement of labels", "why_tests_cant": "Layout depends on the whole list; failing methods are tens of kilobytes long.", "anchors": ["src/code.rs: Code::write_to (index_hints, resolve_label, wide)"]}
{"id": "C38", "title": "Reading code gives each branch target exactly one label at its position", "statement": "When code is read successfully, every position referenced by a branch, handler or variable range has exactly one label, placed before the instruction at that position with nothing but line markers in between, and references to equal positions carry equal labels; a branch to a position inside an instruction or outside the code is refused. (For input below 2 GiB.)", "quantifier": "every code array, every set of references", "why_tests_cant": "Quantifies over all control-flow shapes.", "anchors": ["src/code.rs: Code::read_from, Labeler"]}
{"id": "C39", "title": "A method body written and read back is the same up to label names", "statement": "For every body below the size limits of C37 built of encodable instructions, reading the written bytes gives the same instruction list up to a consistent renaming of referenced labels and removal of line markers and unreferenced labels, and the same exception table, variables and annotations.", "quantifier": "every such method body", "why_tests_cant": "Composition of layout, encoding and label recovery on unbounded instruction lists.", "anchors": ["src/code.rs: Code::write_to, Code::read_from"]}
{"id": "C40", "title": "Line number markers survive writing", "statement": "Line-number markers in a method body appear in the written class file. (Violated: the bytes are those of the body without markers.)", "quantifier": "every method body with line markers", "why_tests_cant": "A loss affecting every input, hidden because no test compares markers after writing.", "anchors": ["src/code.rs: Code::write_to"]}
{"id": "C41", "title": "Exception table entries keep their ranges", "statement": "Each handler is written with the positions of its labels and the class index, in order; entries referring to a label that is absent do not silently point elsewhere. (Violated for 65536 handlers and more: their number is truncated.)", "quantifier": "every exception table and every label placement", "why_tests_cant": "Depends on the final layout of the whole method.", "anchors": ["src/code.rs: Code::write_to, Catch", "src/code/structure.rs"]}
{"id": "C42", "title": "Attributes are framed exactly", "statement": "Each attribute is written as its name, a length equal to its payload and the payload; an attribute with an unknown name is read as raw bytes and written back byte for byte; an attribute whose payload is longer or shorter than its content is refused; the error for a longer one carries the attribute's name, the length it claims and the length that would be right. (Violated for payloads of 4 GiB and more: their length is truncated.)", "quantifier": "every attribute list and every payload", "why_tests_cant": "All payloads and all following data.", "anchors": ["coffer_macros/src/derive.rs: attr_enum", "src/attr.rs", "src/rw.rs"]}
{"id": "C43", "title": "Annotations round trip", "statement": "Every annotation element value (constants, strings, enums, classes, nested annotations, arrays of any depth, at most 65535 entries per list) has the layout of the JVM specification and reads back unchanged on any later pool state; so do annotations and the type annotations of classes, methods and fields. (Violated for Class values whose name holds a lone surrogate.)", "quantifier": "every annotation value of any nesting, every annotation and type annotation, every pool history", "why_tests_cant": "Recursive data with pool indirection.", "anchors": ["src/annotation/mod.rs: AnnotationValue, Annotation", "src/annotation/type_annotation.rs"]}
{"id": "C44", "title": "Structured attributes round trip", "statement": "Inner-class records, method parameters, module directives, bootstrap method tables, constant values, signatures, annotations and the other attributes of classes and fields have the layout of the JVM specification and read back unchanged on any later pool state; so do whole fields. (Violated for signatures with several bounds, as in C19.)", "quantifier": "every value of these structures", "why_tests_cant": "Unbounded nested lists with pool indirection and optional (zero) indices.", "anchors": ["src/attr.rs", "src/module.rs", "src/member.rs"]}
{"id": "C45", "title": "The class attribute count equals the attributes present", "statement": "The attribute count of a written class equals the number of attributes that follow. (Violated when dynamic constants exist without a BootstrapMethods attribute, when that attribute is empty, or present more than once.)", "quantifier": "every class value", "why_tests_cant": "Depends on the interaction of all members' dynamic constants and the attribute list.", "anchors": ["src/clazz.rs: Class::write_to"]}
{"id": "C46", "title": "Bootstrap arguments refer to the right bootstrap method", "statement": "A dynamic constant used as a bootstrap argument designates its own bootstrap method in the written table. (Violated: indices restart from zero for nested arguments.)", "quantifier": "every dynamic constant nesting", "why_tests_cant": "Depends on arbitrary nesting of dynamic constants.", "anchors": ["src/clazz.rs: Class::write_to", "src/cp.rs: insert_bsm", "src/rw.rs: insert_dynamic"]}
{"id": "C47", "title": "A written class reads back as the same class", "statement": "Reading a class file, whoever wrote it, gives what the file says: header, interfaces, fields, methods with their bodies, attributes. A class that was written is read as itself, up to names of labels and with all its bootstrap methods collected in one table at the end. (The pinned code violates the second part, among others for the reasons of C34, C37, C40, C45 and C46.)", "quantifier": "every class file; every class value; every order in which local variables are enumerated", "why_tests_cant": "Composition of every codec through one shared constant pool.", "anchors": ["src/clazz.rs: Class::write_to, Class::read_from"]}
{"id": "C48", "title": "A validation error points at the end of an accepted prefix", "statement": "When from_bytes fails, valid_up_to() lies inside the input, the input up to that index is accepted, an error without length lies within the last three bytes, and (per the documentation) no longer prefix is accepted. (The pinned code violates the last part: for an encoded surrogate pair the index points before the high surrogate.)", "quantifier": "every finite byte string that is refused", "why_tests_cant": "The reported index depends on the scanner state at every position of an unbounded input.", "anchors": ["wtf8/src/lib.rs: validate_wtf8, Wtf8Error::valid_up_to, Wtf8Error::error_len"]}
{"id": "C49", "title": "A dynamic constant keeps its name, type and bootstrap method", "statement": "The index returned by insert_dynamic resolves, on any later state of the pool, to the same name and descriptor and to the position of its own bootstrap method in the table. (The pinned code violates this from the 65537th bootstrap method on: the position is cut to 16 bits.)", "quantifier": "every dynamic constant or call site and every later sequence of insertions", "why_tests_cant": "Depends on the pool and the bootstrap table at any point of an unbounded history.", "anchors": ["src/rw.rs: insert_dynamic, read_dynamic, read_invokedynamic", "src/cp.rs: insert_bsm"]}
{"id": "C50", "title": "Code type annotations keep their targets", "statement": "A type annotation inside a method body is written with the code positions of its labels, the lengths of its local variable ranges and the index of its exception handler, and reads back with labels of the same positions and the handler at the same index; what cannot be expressed is refused with an error. (Violated: the parameter of a handler that is not in the exception table is written without its index; a range that ends before it starts panics.)", "quantifier": "every code type annotation, every placement of labels, every exception table", "why_tests_cant": "Targets are resolved through label positions and the exception table, both unbounded.", "anchors": ["src/annotation/type_annotation.rs: CodeTypeAnnotationTarget", "src/rw.rs: ConstantPoolWriter::label, ConstantPoolWriter::catch"]}
{"id": "C51", "title": "A written method body is a Code attribute of the JVM specification", "statement": "Below the size limits of C37, the bytes written for a method body are max_stack, max_locals, the code array with its length, the exception table and the attributes: type annotations, raw attributes and, for local variables, a LocalVariableTable entry for each variable with a descriptor and a LocalVariableTypeTable entry for each one with a signature, with the start position and the length of its range.", "quantifier": "every method body below the limits, every pool history", "why_tests_cant": "Composition of layout, label positions and tables over unbounded lists.", "anchors": ["src/code.rs: Code::write_to", "src/code/structure.rs: LocalVariable, CodeAttribute"]}
{"id": "C52", "title": "Reading a method body keeps its lines, variables and handlers", "statement": "Reading a Code attribute, whoever wrote it, whose tables refer to beginnings of instructions (or the end), gives the instructions with labels and line numbers in their places (the last table entry for a position counts), the handlers in order, the annotations, and the variables: entries of both tables with the same name, index and range are merged, none is lost and none invented.", "quantifier": "every well-formed Code attribute, every order in which the variables are enumerated", "why_tests_cant": "Merging of unbounded tables through positions; the code iterates over a hash map.", "anchors": ["src/code.rs: Code::read_from"]}
{"id": "C53", "title": "A method keeps its flags, name, type and attributes", "statement": "Reading a method, whoever wrote it, gives its flags, name, descriptor and attributes in order, with its body as in C52. What is written for a method has the layout of the JVM specification with these contents, and is read as the same method up to names of labels (bodies below the limits of C37).", "quantifier": "every method layout; every method value below the limits, every pool history", "why_tests_cant": "Composition of all attribute codecs through one shared constant pool.", "anchors": ["src/member.rs: Method, MethodAttribute", "coffer_macros/src/derive.rs: attr_enum"]}
{"id": "C54", "title": "Reading arbitrary bytes ends in a class or an error", "statement": "Class::read_from, on any bytes, returns a class together with an unread suffix of the input, or an error; it never panics, never reaches undefined behaviour and never runs for ever. (The pinned code panics on impossible tableswitch bounds, on line numbers for positions that are no instruction, on local variable ranges beyond 65535, on 256 brackets in a descriptor and on a pool of 65535 slots that ends in a long.)", "quantifier": "every byte string, every order in which local variables are enumerated", "why_tests_cant": "The input space is unbounded; a panic can hide behind any combination of pool entries, attributes and code.", "anchors": ["src/clazz.rs: Class::read_from", "src/code.rs: Code::read_from", "src/cp.rs: MapCp::read_from", "src/ty.rs: parse_type"]}
{"id": "C55", "title": "Attributes that the library does not know survive reading and writing", "statement": "A class that is read and written again keeps the attributes that the library does not know (PermittedSubclasses, Record, vendor attributes) with their meaning: constants that such an attribute refers to are the same in the class file that is written. (Violated: the bytes are kept, but the constant pool is built anew, so that indices in them point to other constants or to none.)", "quantifier": "every class file that can be read, every unknown attribute", "why_tests_cant": "Depends on how the pool of the input and the pool that is written are numbered, over all classes.", "anchors": ["src/clazz.rs: Class::write_to", "src/attr.rs: RawAttribute", "src/cp.rs: VecCp"]}
{"id": "C56", "title": "Rewriting a class does not add bootstrap methods", "statement": "A class that is read and written again has as many bootstrap methods as before. (Violated: the table of the class is written and every dynamic constant and call site adds its own copy, so that the table grows with each rewriting.)", "quantifier": "every class file that can be read; every class value below the limits", "why_tests_cant": "The table is the result of all uses in the class and of the loop that writes it.", "anchors": ["src/clazz.rs: Class::write_to", "src/cp.rs: VecCp::insert_bsm", "src/rw.rs: insert_dynamic"]}
{"id": "C57", "title": "Writing a class ends, without undefined behaviour", "statement": "Class::write_to, on every class value, ends: with a class file, with an error for the caller or with a panic. The loop that writes bootstrap methods terminates however deeply their arguments are nested. There is no undefined behaviour if the strings of the class are strings that the constructors of the library accept.", "quantifier": "every class value", "why_tests_cant": "Values are unbounded trees; the loop over bootstrap methods has no bound in the code; strings are traversed with unchecked reads.", "anchors": ["src/clazz.rs: Class::write_to", "src/mod_utf8.rs: string_to_modified_utf8", "wtf8/src/lib.rs: Wtf8Str::codepoints"]}
{"id": "C58", "title": "Every class within the limits of the format can be written", "statement": "Class::write_to succeeds on every class value that fits in a class file: tables have fewer than 65536 entries (256 where the format has one byte), labels are placed once and every label that is used is placed, ranges do not end before they start, code is shorter than 65536 bytes when each jump is counted with the 10 bytes it needs at most, dynamic constants have their bootstrap method, and the different constants of the class, longs and doubles counted twice, take up at most 65534 slots together with one slot for each use of a dynamic constant. A class whose different constants take up more slots is never written, not even wrongly. For classes without dynamic constants the limit is exact.", "quantifier": "every class value", "why_tests_cant": "The limit depends on all constants of the class and on which of them are shared; the success of a writer depends on everything that has been written before.", "anchors": ["src/clazz.rs: Class::write_to", "src/cp.rs: VecCp::insert_raw", "src/rw.rs: ConstantPoolWriter", "src/code.rs: Code::write_to"]}
{"id": "C59", "title": "A written class has each of its constants once and no other", "statement": "The constant pool of a class file that is written contains every constant that the class needs under exactly one index, no two constants under one index, and no entry that the class does not need; so the size of the pool is that of the set of constants. (Violated for dynamic constants and call sites: each use has its own entry, even if they are the same.)", "quantifier": "every class value that can be written", "why_tests_cant": "The pool is the result of all insertions of all parts of a class; sharing depends on the order in which they are made.", "anchors": ["src/cp.rs: VecCp::insert_raw", "src/rw.rs: ConstantPoolWriter, insert_dynamic", "src/clazz.rs: Class::write_to"]}
{"id": "C60", "title": "Safe calls of the string API are safe", "statement": "A program that only makes safe calls of the wtf8 crate (constructing, slicing, iterating, pushing, truncating, changing case, converting) has no undefined behaviour, keeps its strings well-formed, and every &str or String that it gets is UTF-8. Each call has the effect on UTF-16 units that it has in Java, and panics exactly for positions outside the string or within a code point. (Violated: from_bytes accepts ED A0 41, whose slice ..2 is read past its end, and as_str of it is not UTF-8; the safe function decode_surrogate_pair has undefined behaviour for two low surrogates.)", "quantifier": "every finite sequence of calls with every argument", "why_tests_cant": "Soundness is a statement about all sequences of calls; a memory error need not show in a test.", "anchors": ["wtf8/src/lib.rs: Wtf8Str::from_bytes, Index, codepoints, as_str, truncate, push_wtf8"]}
{"id": "C61", "title": "Comparing and hashing strings agrees with their contents", "statement": "Strings compare like their sequences of code points, are equal exactly if their UTF-16 units are equal, the order is total, and the bytes fed to a hasher for a sequence of strings determine the sequence.", "quantifier": "all pairs of strings, all sequences of strings", "why_tests_cant": "Order and equality are relations between all pairs; that hashing is prefix-free needs that no string contains the terminator.", "anchors": ["wtf8/src/lib.rs: derive(PartialEq, Ord, Hash) of Wtf8Str and Wtf8String"]}
{"id": "C62", "title": "Iterators tell the number of items that follow", "statement": "At every point of an iteration over the code points or the UTF-16 units of a string, also between the halves of a surrogate pair, size_hint gives a lower and an upper bound of the number of items that follow, and as_str is the part of the string that has not been visited.", "quantifier": "every string, every point of the iteration", "why_tests_cant": "The bounds hold for each position of each string.", "anchors": ["wtf8/src/lib.rs: Wtf8CodePoints::size_hint, as_str; EncodeWide::size_hint"]}
{"id": "C63", "title": "ASCII operations touch ASCII only", "statement": "to_ascii_lowercase and to_ascii_uppercase change the 26 letters and nothing else, and keep strings well-formed. eq_ignore_ascii_case is equality up to these letters; is_ascii holds exactly if all code points are below 128; ascii_byte_at returns the code point that starts at a position if it is ASCII and 0xFF elsewhere. Codepoint::from_u32, to_char and to_char_lossy follow the definitions of Unicode.", "quantifier": "every string, every position", "why_tests_cant": "Operations on bytes must not touch bytes of longer code points, in any string.", "anchors": ["wtf8/src/lib.rs: to_ascii_lowercase, to_ascii_uppercase, eq_ignore_ascii_case, is_ascii, ascii_byte_at, Codepoint"]}
{"id": "C64", "title": "A validation error tells how decoding can go on", "statement": "error_len of a validation error is None exactly if the bytes could be continued to a valid string; otherwise it is the number of invalid bytes, after which decoding can be resumed: they lie within the input and contain no ASCII character. (Violated: E1 41 has error length 3 with 2 bytes of input, and C3 41 has error length 2, which includes the letter A.)", "quantifier": "every byte string and every continuation", "why_tests_cant": "Quantifies over all continuations of the input.", "anchors": ["wtf8/src/lib.rs: Wtf8Error::error_len, validate_wtf8"]}
{"id": "C65", "title": "What the derive macros generate is what the declaration says", "statement": "Whatever types and helpers a crate has: `derive(ReadWrite)`/`derive(ConstantPoolReadWrite)` on a structure compiles exactly when every field has an implementation of its own or the one its `#[coffer(as = …)]` names, and the generated code then writes and reads the fields in declaration order, each with that implementation, and nothing else. On an enum with `tag_type`, each variant is written as its documented tag (explicit tag, else discriminant, else one more than the variant before) in the size of the tag type followed by its fields; reading selects the first variant with the tag that is read and refuses other tags. Enums with `derive(AttributeEnum)` write the variant name as attribute name, a length and the fields, choose the variant by name on reading, require the fields to use up the content, and keep unknown names in the raw variant. Structures, variants and attributes can be read back whenever their fields can. Violated in two places: a discriminant that is not an integer literal is ignored when tags are counted; if the raw variant is not the last one, variants after it are read with the helpers of another variant. For 32 declarations of coffer the generated reader and writer are, up to the names of constructors, the ones in the model about which the other properties are proved.", "quantifier": "all crates (types, helpers and implementations), all declarations, all values, all constant pools, all inputs", "why_tests_cant": "The statement is about every declaration to which the macro can be applied; the declarations in the crate happen to avoid both faults.", "anchors": ["coffer_macros/src/lib.rs:7-66", "coffer_macros/src/derive.rs"]}
{"id": "C66", "title": "Bootstrap tables of classes that are read are not circular, and the classes can be written", "statement": "The documentation of `Dynamic` says a dynamic constant cannot refer to itself through its bootstrap arguments. (Violated: `Class::read_from` accepts a bootstrap table whose entries use each other in a circle.) For every class that is read, writing it back, with the bootstrap cells shared as the reader left them, ends after at most 65538 rounds with bytes, an error or a panic, never undefined behaviour: if the table has no circle, the outcome is exactly that of writing the class in which every cell holds its own copy; if it has one, the class is never written (with overflow checks the writer stops with a panic or error when the table is full, without them the loop does not end).", "quantifier": "all byte strings that are read as a class; all orders of the maps; all numbers of rounds", "why_tests_cant": "The writing loop runs until no bootstrap method is pending; whether it ends depends on the whole reference graph of the table, and no test can show that a loop does not end.", "anchors": ["src/dynamic.rs:51-53", "src/dynamic.rs:77-80", "src/cp.rs:184-200", "src/clazz.rs:71-133"]}
{"id": "C67", "title": "A class that is read, written and read again is the same class", "statement": "If a class file is read and the value that was read is written, then the new file is read as a class that says the same: version, flags, names, fields, methods, attributes and bootstrap methods agree, and bodies agree up to the names of labels. (Violated: after writing, a method that stored into a static field loads from it; what C34, C37, C40, C45 and C46 lose is lost here too.) For classes with none of the features named there, whatever is read is written in a form that reads back, whatever the file looked like: the reader returns no label without a place, no key twice, no unknown flag, no table too long, so nothing needs to be asked about these. The new file is a class file of the JVM specification with the same contents.", "quantifier": "all byte strings below 2 GiB that are read as a class; all orders of the maps", "why_tests_cant": "Needs that every value the reader can return is in the domain of the writer, which is a statement about all inputs of the reader.", "anchors": ["src/clazz.rs:44-133", "src/code.rs:33-620", "src/member.rs"]}
{"id": "C68", "title": "A class that was read can be written", "statement": "Whatever class file `Class::read_from` accepts, `Class::write_to` can write the value that was read. (Violated: a call site or dynamic constant in a class without BootstrapMethods, and a tableswitch whose table is empty, are read; writing the class then panics, the latter in a build with overflow checks.) It is written if it has neither, its bootstrap table has no circle, the code of each method is shorter than 65536 bytes when each jump is counted with the 10 bytes it needs at most, the tables of variables of a method together and the bootstrap table with its copies have fewer than 65536 entries, and the constants fit in one pool; strings, labels, jumps, ranges and all other tables need no condition. If the class also meets the conditions of C67, what was written reads as the same class.", "quantifier": "all byte strings below 2 GiB that are read as a class; all orders of the maps", "why_tests_cant": "A writer that fails for some value the reader returns shows only on the files that contain it; the claim is about all files.", "anchors": ["src/clazz.rs:44-133", "src/dynamic.rs:77-80", "src/code.rs:433-450", "src/insn.rs:38-57"]}
{"id": "C69", "title": "Written code does what its instructions say when it is run, and code that is read is what the bytes do", "statement": "Let a machine do anything it likes with the data: stack, variables, heap, calls and outcome of each instruction are arbitrary relations; only control is fixed as in the JVM specification (next instruction, jump, switch, subroutine, first matching handler). Then for every body that `Code::write_to` writes, running the written code array with its exception table goes, step by step, through the same states as the instruction list with its labels and handlers: it returns the same results after the same number of steps, throws the same exceptions and runs on in the same cases. (Violated: a store into a static field is run as a load, C34; and code of the sizes of C37.) The instruction list that `Code::read_from` returns for a body of any origin does what the bytes of the body do. The bytes have one meaning only: a code array can be taken apart in one way, and an attribute has one code array and one exception table.", "quantifier": "all bodies, all machines, all initial states and all numbers of steps", "why_tests_cant": "Tests run a method on some inputs on one virtual machine; the claim is about every execution of every method, including ones that do not end.", "anchors": ["src/code.rs:78-620", "src/insn.rs", "src/code/structure.rs:15-140"]}
{"id": "C70", "title": "Reading and writing a class does not change what its methods do", "statement": "If a class file of any origin is read and the class is written, the new file has the same version, flags, name, superclass, interfaces and fields, and the same methods in the same order, and each method does in the new file what it does in the old one, in the sense of C69, whatever the machine does with the data. (Violated: a method that stores into a static field loads from it instead.) Proved for the classes of C67 whose methods have no subroutines; with subroutines the return addresses change, which a machine can observe.", "quantifier": "all class files, all machines, all initial states and all numbers of steps", "why_tests_cant": "Composes reader and writer over all class files and all executions of their methods.", "anchors": ["src/clazz.rs:44-133", "src/code.rs:33-620", "src/insn.rs", "src/cp.rs:184-200"]}
{"id": "C71", "title": "A borrowed constant is written like the constant it stands for", "statement": "Writing a ConstEntryRef gives the bytes that the class file format prescribes for the constant, the same as for the RawConstantEntry with the same content, and they are read back. (Violated: a string is written with the tag 0 and without its length, and what is written cannot be read.) Proved for all other constants.", "quantifier": "all constants, all bytes that follow", "why_tests_cant": "The tags are computed by a macro from the position in the declaration; that all of them are those of the format, for all contents, is a statement about the whole type.", "anchors": ["src/cp.rs:16-53", "coffer_macros/src/derive.rs"]}
{"id": "C72", "title": "Numbers, members and method handles can be written by themselves", "statement": "A number, member reference or method handle that is written as a reference into the constant pool is read back from the bytes with every pool that has grown from that of the writer; floats keep every bit. Bytes are read as such a value exactly if they are the index of an entry with that value, preceded by the kind for a handle. A method handle that does not pass check is refused. (Violated: one that is written as a constant is not checked.)", "quantifier": "all values, all pools built by insertions, all later insertions, all bytes that follow", "why_tests_cant": "The pool is shared with everything that is written before and after; the statement ranges over all such histories.", "anchors": ["src/rw.rs:127-138", "src/rw.rs:216-239", "src/rw.rs:492-529", "src/loadable.rs:15-37", "src/loadable.rs:142-165", "src/member.rs:32-47"]}
{"id": "C73", "title": "The constructor functions make what their names say", "statement": "The functions that make instructions (getstatic, invokevirtual, invokestatic, load, store, iadd, isub, imul, irem, ineg, ifeq, if_icmpeq, if_icmpne, if_icmple, if_icmpgt) make values that are written exactly as the instruction of that name in the JVM specification, with the given member, local or target. The functions that make types make values that are written as the descriptor of the type they name; Type::array(d, t) is an array with d more dimensions than t. (Violated: with d = 0 the value is written like t and not read back as itself; past 255 dimensions the call panics.) Mapping a value that may be dynamic keeps dynamic ones.", "quantifier": "all members, locals, targets, types and numbers of dimensions, all pools and positions in the code", "why_tests_cant": "Operands, locals and dimensions form too many combinations, and what an instruction is written as depends on its position and on the pool.", "anchors": ["src/code/structure.rs:327-376", "src/ty.rs:50-88", "src/loadable.rs:199-201", "src/loadable.rs:217-221", "src/dynamic.rs:106-137"]}
{"id": "C74", "title": "Comparing and hashing dynamic constants", "statement": "Comparing two dynamic constants says whether they are the same: same name and descriptor, and bootstrap methods with the same handle and the same arguments, however deep one looks, also through cells that are shared or lead back to themselves. Comparing is an equivalence and constants that are equal are hashed alike. Comparing ends if one of the two does not lead through its bootstrap methods for ever; hashing ends exactly then. (Violated: for a class that was read, whose bootstrap methods have arguments made with each other, comparing does not end.)", "quantifier": "all contents of the cells, all dynamic constants, all classes that were read", "why_tests_cant": "The cells form a graph of any shape; termination and agreement of eq and hash range over all such graphs.", "anchors": ["src/dynamic.rs:9-13", "src/dynamic.rs:54-61", "src/dynamic.rs:82-104", "src/cp.rs:180-200", "src/rw.rs:276-305"]}
{"id": "C75", "title": "What a sink has got when writing fails", "statement": "Class::write_to hands the sink a prefix of the class file and nothing else, whatever the sink does. If it succeeds the sink has got the whole class file; if the sink takes everything and the class can be written, it succeeds; otherwise the error of the sink is returned. (Violated: a class that cannot be written leaves the sink as it was; it gets the magic number and the version.)", "quantifier": "all classes, all sinks that may fail at any request after any number of bytes, all earlier contents", "why_tests_cant": "A sink may fail at any byte of any file; tests try a few.", "anchors": ["src/clazz.rs:71-133", "src/cp.rs:57-81", "src/cp.rs:208-214", "src/rw.rs:474-479"]}
{"id": "C76", "title": "A class is read from exactly its bytes", "statement": "Class::read_from takes from its source the bytes of one class file and no more: what follows is not looked at and stays, so class files in one stream can be read one after the other. A file that ends too early is always refused, and because of its end; an input that is refused for another reason is refused for that reason whatever follows. Whether an input is accepted, the error and the number of bytes taken do not depend on the order in which a hash map lists local variables, and the class depends on it in nothing but that order.", "quantifier": "all inputs, all ways to cut them, all continuations, all orders of the hash map", "why_tests_cant": "A class file can be cut at every byte and go on with anything; tests try a few cuts of a few files.", "anchors": ["src/clazz.rs:43-69", "src/cp.rs:156-168", "src/rw.rs:429-446", "src/rw.rs:466-472", "coffer_macros/src/derive.rs:214-262", "src/code.rs:219-223"]}
{"id": "C77", "title": "Reading and writing a class is reproducible", "statement": "A program that reads a class and writes what it has read gets the same bytes in every run. (Violated: local variables are collected in a HashMap, which lists them in another order in every run, so that a class with a method with two variables is written differently.)", "quantifier": "all inputs, all orders of the hash map", "why_tests_cant": "A test sees one run, and a few bodies; the order of the map depends on a random seed and on all keys.", "anchors": ["src/code.rs:141-151", "src/code.rs:219-223", "src/code.rs:557-601"]}
{"id": "C78", "title": "The depth of recursion of reading annotations is bounded", "statement": "Reading annotations needs a bounded depth of calls, so that no input exhausts the stack. (Violated: the depth is that of the nesting of arrays and annotations in the input, which is limited only by the length of the attribute: up to a third of its bytes.)", "quantifier": "all annotation values, all depths", "why_tests_cant": "A test reads values of some depth; that every depth can be exceeded, and by how many bytes, is a statement about all depths.", "anchors": ["src/annotation/mod.rs:72-134"]}
{"id": "C79", "title": "A copy of a copy is the copy", "statement": "A program that reads a class, writes it, and reads and writes the result again gets the same bytes the second time: what writing normalises (constant pool, width of branches and constants, order of switch entries and attributes) is normal already in what was written. (Violated: for a class with a dynamic constant or call site every copy has another entry in the bootstrap table. Holds for classes without them and without methods with two variables.)", "quantifier": "all class files, all orders of the hash maps of both runs", "why_tests_cant": "Every part of the writer decides something about the output depending on the whole class: pool indices, widths of branches, label numbers. That the decisions for the class that is read again are the same is a statement about all classes.", "anchors": ["src/clazz.rs:44-133", "src/code.rs:136-601", "src/cp.rs: VecCp::insert_raw"]}
{"id": "C80", "title": "What is accepted as a signature is printed as it was", "statement": "If text is accepted as a type, class or method signature, then printing the result gives that text. In particular every signature of the class file format is accepted, and a tool that reads and writes it does not change it. (Violated: text after the signature is dropped, an empty list <> is accepted and not printed, a thrown type variable is printed as a class. Holds for text without <> and without thrown type variables, up to the text left over; every class signature of the format is printed as it was even if its bounds were misread.)", "quantifier": "all texts", "why_tests_cant": "The accepted language is infinite and larger than the grammar of the class file format; tests try texts of the grammar.", "anchors": ["src/signature.rs:152-484", "src/signature.rs:546-692"]}
{"id": "C81", "title": "The attributes given to the derive macros are honoured or refused", "statement": "If a declaration with derive(ReadWrite), derive(ConstantPoolReadWrite) or derive(AttributeEnum) compiles, then every attribute that says the tag of a variant is the tag in the generated code. (Violated: the attribute #[tag = n], which derive(ReadWrite) declares and documents, is ignored; of two tags the last counts; tag_type with a path that is not an identifier is ignored. Proved: exactly which items of #[coffer(...)] are accepted on declarations, variants and fields and what they configure; that at most one variant is raw; that no item is accepted on a structure; and that a tag in #[coffer(...)] is honoured unless another attribute says another tag.)", "quantifier": "all declarations, with any attributes", "why_tests_cant": "A test of a macro is one declaration; which attributes are silently ignored is a question about all of them.", "anchors": ["coffer_macros/src/derive.rs:25-154", "coffer_macros/src/lib.rs:7-66"]}
{"id": "C82", "title": "Copying a class keeps the stack map frames that its code needs", "statement": "If a class file has a stack map frame wherever the verifier asks for one (version 51 and above: at targets of branches, at handlers, and after instructions that end a path), then so does the file written for the class read from it. (Violated: frames are dropped when code is read and never written, so a loop is no longer verifiable. Proved: no body of a file that is written has a frame, however the bytes are taken apart; and the copy has all frames it needs exactly if no body of the original needed one or the version is below 51.)", "quantifier": "all class files of C67, and all classes of C47 for what is written; all interpretations of the bytes that are written", "why_tests_cant": "A test reads back with the same library, which ignores frames in both directions; only the verifier of a virtual machine would notice.", "anchors": ["src/code.rs:208-209", "src/code/structure.rs:268-271", "src/member.rs:105-115"]}
{"id": "C83", "title": "A copy has at most one more bootstrap method for every use of one", "statement": "If a class is read and written, then the number of bootstrap methods in the copy is at most the number the class has plus the number of places where one is used: by an instruction, or by an argument of a bootstrap method. (Violated: whatever an entry uses is written again for every use of the entry, so where each of m entries is used twice by the one before, 2^m copies of the last are written; a class file of less than 500 bytes is read but cannot be written. Proved: the exact number in the file for every class; for classes that were read it is the count with nothing shared; no entry may stand for more than 65536; and the claim holds with equality when the entries in use have no dynamic arguments.)", "quantifier": "all class files that can be read and written; all classes with strings that fit for the number in the file", "why_tests_cant": "The growth is exponential in the depth of nesting and a test of one or two levels sees a handful of extra entries that read back fine.", "anchors": ["src/clazz.rs:110-129", "src/rw.rs:83-93", "src/dynamic.rs:33-47"]}
{"id": "C84", "title": "The depth of recursion of the parsers of descriptors and signatures does not depend on the text", "statement": "There is a depth of calls that is enough for `parse_type` on every descriptor, and one that is enough for `FieldSignature::from_str` on every signature, so that no text of a class file makes the stack overflow. (Violated: a descriptor of n bytes can take n + 1 nested calls of get_type, so a constant of 65535 bytes takes 65536. Proved: n + 1 calls are always enough, (2 n + 2) / 3 for descriptors that are accepted; for signatures (2 n + 2) / 3 and (2 n + 4) / 5 calls of ref_type_sig; each of the four bounds is reached for infinitely many n; with less room the parser gives the same answer or the stack overflows, never another answer.)", "quantifier": "all byte strings for descriptors, all texts for signatures, all depths", "why_tests_cant": "Descriptors in tests nest two or three levels; whether a stack overflows depends on the platform and aborts the test process.", "anchors": ["src/ty.rs:91-151", "src/signature.rs:156-200", "src/signature.rs:234-365"]}
{"id": "C85", "title": "Reading a class never asks for a buffer larger than the file", "statement": "An allocator that grants every single request of at most the length of the file is enough for `Class::read_from`: a length that is merely claimed by the file does not make the reader ask for that much memory. (Violated: a file of 86 bytes with a tableswitch from 0 to 0x7FFFFFFE asks for 8 GiB less 4 bytes, one of 77 bytes with an attribute of claimed length 0xFFFFFFFF for 4 GiB less 1 byte; both would have been refused as too short. Proved: for a file that is accepted the claim holds; 8 GiB less 4 bytes are enough for every input, and this is reached; any six bytes of an attribute header can ask for any size below 4 GiB; an allocator that refuses makes the reader abort or give the same answer, never another one.)", "quantifier": "all inputs, all sets of requests an allocator may grant", "why_tests_cant": "Tests read well-formed files, or run where the allocator overcommits and the request is never noticed.", "anchors": ["coffer_macros/src/derive.rs:232-244", "coffer_macros/src/derive.rs:256-262", "src/code.rs:80-81", "src/insn.rs:39-49"]}
{"id": "C86", "title": "Only the places of labels matter, not their numbers", "statement": "Changing the numbers of the labels of a body in any way that keeps different labels different changes nothing in what `Code::write_to` and `Class::write_to` produce: the same bytes and the same constant pool, or an error of the same kind. The same holds for adding or removing a label that nothing refers to, or a line number, anywhere. If a label is placed more than once, its last place counts and the others do not.", "quantifier": "all bodies of all sizes, all renamings, all positions, all contents of the constant pool; all classes", "why_tests_cant": "A test writes a body with one choice of numbers; that no choice collides with offsets, indices or other labels inside the assembler is a statement about all of them.", "anchors": ["src/code.rs:250-607", "src/code/convert.rs:808-812"]}
{"id": "C87", "title": "The labels of a body that was read are 0, 1, 2, …", "statement": "In every body of a class that `Class::read_from` returns, the labels that are placed are exactly the numbers below their count, each is placed once, and every label that an instruction, handler, variable or annotation refers to is one of them. So the count of placed labels and every greater number is a new label: placing it anywhere leaves what is written as it is. (For input below 2 GiB.)", "quantifier": "all inputs", "why_tests_cant": "Labels are numbered while four different tables are read; a test sees one order of references.", "anchors": ["src/code.rs:36-76", "src/code.rs:224-240"]}
{"id": "C88", "title": "A table with more entries than its count can express is not written", "statement": "If `Class::write_to` succeeds, then no table of the class has more entries than the number in front of it can express: 65535, or 255 for parameter annotations, type paths and method parameters. Tables are interfaces, fields, methods, attributes of classes, fields, methods and bodies, handlers, exceptions, annotations and their elements, arrays, variables, inner classes, nest members, the lists of a module, bootstrap methods and their arguments.", "quantifier": "all classes, with tables of all sizes", "why_tests_cant": "The limit has to be reached with each of 32 kinds of tables in one of many combinations; where the check is missing the file is written with a wrong count and without an error.", "anchors": ["src/clazz.rs:71-133", "src/code.rs:521-604", "src/annotation/mod.rs:195-250", "src/dynamic.rs:33-47", "src/helper.rs:164-181"]}
{"id": "C89", "title": "The library does the same whether or not the build checks for overflow", "statement": "A build with overflow checks (the default when debugging) and one without (the default for releases) give the same results: `parse_type` gives the same type or error for every string, a constant pool is read with the same entries, constants that are inserted get the same indices, and `Class::write_to` on a class that was read writes the same bytes.", "quantifier": "all strings, all bytes, all sequences of insertions, all classes that were read", "why_tests_cant": "Tests are run in one of the two modes; the two differ only beyond limits such as 255 brackets or 65535 constants.", "anchors": ["src/ty.rs:92-151", "src/cp.rs:157-168", "src/cp.rs:218-229", "src/clazz.rs:110-129"]}
{"id": "C90", "title": "Equal classes are written as equal files", "statement": "Two classes whose parts are equal (`==` of the fields of `Class`) are written by `Class::write_to` as the same bytes, or both refused. (Violated: the elements of an annotation are a HashMap, and they are written in the order in which the map lists them, which differs between equal maps.) The entries of a `lookupswitch`, also a map, are sorted, so that their order does not matter.", "quantifier": "all pairs of classes with equal parts", "why_tests_cant": "A test compares two classes it has built, with few entries per map; whether two equal maps list their entries in the same order depends on chance.", "anchors": ["src/annotation/mod.rs:222-250", "src/code.rs:417-431", "src/code/structure.rs:319-322"]}
{"id": "C91", "title": "Formatting with a width and a precision lays out the text", "statement": "`format!` with a width, a fill, an alignment or a precision gives the text of a `Wtf8Str` (with U+FFFD for surrogates) in that layout; for a `Type` it gives the descriptor in that layout, or the descriptor itself. (Violated: a string with a surrogate ignores the options, and for an array type they apply to the brackets alone, so that `{:3}` of `[I` is `[  I` and `{:.1}` of `[[I` is `[I`.)", "quantifier": "all options, all strings, all types", "why_tests_cant": "There are unboundedly many widths, texts and types, and the options are mostly used in log messages.", "anchors": ["wtf8/src/lib.rs:167-191", "src/ty.rs:251-288"]}
{"id": "C92", "title": "The text of a version names the release and tells versions apart", "statement": "`Display` of a `JavaVersion` is the name of the release of the Java platform with that class file version, followed by the minor version in decimal; two different versions have different texts.", "quantifier": "all versions (15 major and 65536 minor versions), all pairs of them", "why_tests_cant": "There are 983040 versions and the square of that many pairs.", "anchors": ["src/version.rs:56-111"]}
{"id": "C93", "title": "A class that was read can be changed and written", "statement": "If fields, methods, interfaces and attributes of classes that were read are put together into a class -- added to another one, moved, replaced, removed -- and the class is written, then the file is read as the class that was put together: every part is where it was put and says what it said. (Violated: if a method with a call site is put into a class without an attribute `BootstrapMethods`, or if that attribute is removed, then the table is written behind the end of the class.)", "quantifier": "all class files the parts come from, all selections and orders of parts, all new parts meeting the conditions of C47", "why_tests_cant": "The ways to combine parts of unboundedly many files are unbounded; tests change one class in one way.", "anchors": ["src/clazz.rs:44-133", "src/member.rs", "src/code.rs:33-620"]}
{"id": "C94", "title": "Different classes are written as different files", "statement": "If two classes are written as the same file, then they agree in version, flags, names, fields, attributes, bootstrap table and methods, and the bodies of their methods have the same instructions, handlers, annotations and variables; only the numbers of labels, labels nothing refers to, line numbers and the order of variables can differ. So whoever compares files misses no change. (Violated: a class that stores into a static field and one that loads from it are written as the same file, C34.)", "quantifier": "all pairs of classes meeting the conditions of C47; all classes put together as in C93; all pairs of class files", "why_tests_cant": "A test compares a few classes; that no two of all classes collide is a statement about all pairs.", "anchors": ["src/clazz.rs:44-133", "src/member.rs", "src/code.rs:33-620"]}
{"id": "C95", "title": "The provided methods of the pool traits work with every implementation", "statement": "A type that implements `ConstantPoolWriter` by `insert_raw` and `insert_bsm` only, such that a returned index keeps pointing to the inserted entry, can be used for all insertions: what `insert_constant`, `insert_member`, `insert_nameandtype`, `insert_method_handle`, `insert_indirect_str`, `insert_class`, `insert_package`, `insert_dynamic` insert is read back from the returned index, after any further insertions, by the provided methods of any `ConstantPoolReader` whose `read_raw` answers with these entries, however it finds them (lazily, with a cache, through a wrapper). A wrapper that delegates the required methods behaves as the inner type. The provided methods panic only when a required one does, for a tag unknown to `insert_indirect_str`, or for a dynamic without bootstrap method.", "quantifier": "all implementations (states and required methods), all values, all sequences of further insertions, all indices", "why_tests_cant": "A test exercises the two implementations of the crate; the traits are public and the statement is about implementations not written yet.", "anchors": ["src/rw.rs:22-362", "src/cp.rs:175-236", "src/code.rs:50-76", "src/code.rs:493-519"]}
{"id": "C96", "title": "Which classes with dynamic bootstrap arguments survive copying", "statement": "Take a class file in which bootstrap methods have dynamic constants as arguments (condy in condy), not in a circle, and which is otherwise as C67 asks. Reading and writing it gives a file that is read again, and everything but these arguments is as it was. An argument refers to the entry whose number is the number of dynamic arguments before it in its round of writing, whatever it referred to. If no two entries of the original table are the same, then the copy says what the original says exactly if the dynamic arguments of the table referred to entries 0, 1, 2, ... in this order and no instruction uses an entry with a dynamic argument. In particular, a class in which such an entry is used is always changed, and if the first entry has a dynamic argument then the copy refers to itself in a circle and cannot be copied.", "quantifier": "all class files with bootstrap tables of any shape and depth, all orders of hash iteration", "why_tests_cant": "The conditions relate every reference in a table of any size and depth to the order in which several rounds of writing visit it; a test shows one table.", "anchors": ["src/clazz.rs:88-128", "src/dynamic.rs:48-137", "src/cp.rs:175-236", "src/rw.rs:22-362"]}
{"id": "C97", "title": "The length error points to an attribute of the file and says how long it should be", "statement": "When reading a class file ends with the error AttributeLength(claimed, used, name), then behind its constant pool the file holds an attribute of that name with that length, used is smaller than claimed, and of all lengths up to the claimed one, used is the only one with which the attribute (cut to that length) would be accepted where it was met.", "quantifier": "all byte strings given to Class::read_from, all orders of hash iteration", "why_tests_cant": "The claim is about every byte string that leads to the error, with attributes at any place and depth.", "anchors": ["src/error.rs:23-29", "coffer_macros/src/derive.rs:222-262", "src/clazz.rs:88-105", "src/code.rs"]}
{"id": "C98", "title": "A class file is read part by part, and the parts do not influence each other", "statement": "A byte string is accepted as a class file if and only if it is the magic number followed by a version, a constant pool, access flags, a class, a superclass, interfaces, fields, methods and attributes each of which is accepted alone, with nothing but the constant pool known of the rest, and every bootstrap method that is asked for is in the first table of bootstrap methods, if there is a table. There is one way to cut the input into such parts, and the class consists of what each part gives alone. So replacing the bytes of one method, field or attribute changes that part of the class and nothing else, and the methods may be put in any order.", "quantifier": "all byte strings given to Class::read_from, all orders of hash iteration", "why_tests_cant": "Readers share state: labels of method bodies, exception tables and references to bootstrap methods are kept in objects passed through all readers. That nothing leaks from one part into another is a claim about every class file and every pair of its parts.", "anchors": ["src/clazz.rs:25-69", "src/member.rs:40-108", "src/code.rs", "src/cp.rs:157-200", "coffer_macros/src/derive.rs:214-262"]}
{"id": "C99", "title": "Adding constants to the pool does not change the class", "statement": "If a class file is accepted, then it is accepted as the same class, with the same bytes left over, when its constant pool is replaced by one that has the same constants at the same indices and any others besides; in particular when constants are appended to the pool. So constants that nothing refers to may be left out at the end of the pool: where the file without them is accepted, the class is the same.", "quantifier": "all class files, all lists of constants appended, all orders of hash iteration", "why_tests_cant": "Every reader that looks something up in the pool could depend on what else is there, for example on the first string with some text or on the size of the pool. Tests have finitely many pools.", "anchors": ["src/clazz.rs:25-69", "src/cp.rs:157-200", "src/rw.rs:177-362"]}
{"id": "C100", "title": "Attributes the library does not know can be added and removed without changing anything else", "statement": "In an accepted class file, an attribute whose name is none of those the library knows in that place may be inserted anywhere among the attributes of the class, of a field, of a method, or of a method body. The file is still accepted, and the class that is read differs only in that one attribute with this name and these bytes stands at that place: the instructions, labels, line numbers and local variables of a body are the same. Conversely such an attribute can be taken out of the file, and the class loses this attribute and nothing else. For the class, its fields and its methods this holds for every attribute except the table of bootstrap methods.", "quantifier": "all accepted class files, all places, all unknown names and all contents of attributes", "why_tests_cant": "An attribute inserted in a body could shift labels, be taken for a line number or local variable table, or end the loop over the attributes. Tests insert a few attributes in a few files.", "anchors": ["src/clazz.rs:25-69", "src/member.rs:51-108", "src/code.rs:156-218", "coffer_macros/src/derive.rs:214-262"]}
{"id": "C101", "title": "A class can be read from any source, in pieces and with interruptions", "statement": "What Class::read_from returns depends only on the bytes that the source delivers, not on the pieces in which it delivers them nor on interruptions. If it succeeds, the bytes taken from the source are exactly one class file. If the source delivers a class file and then anything else, such as an error, the class is read and the rest is not touched. An error of the source, or its end, is reported only if the bytes delivered so far are not yet a class file nor already refused. Reading ends unless the source is interrupted for ever.", "quantifier": "all sources, all states of them and all ways in which they deliver their bytes", "why_tests_cant": "The ways to cut a file into pieces and to interrupt them are exponentially many, and a reader that looks one byte too far is only noticed on a source that blocks or fails there. Tests read from slices, which always deliver all they are asked for.", "anchors": ["src/clazz.rs:43-69", "src/rw.rs:429-446", "src/rw.rs:466-472", "src/cp.rs:156-168", "coffer_macros/src/derive.rs:214-262"]}
{"id": "C102", "title": "The debug information of a body does not change its code", "statement": "Two method bodies that differ only in their attributes (line numbers, variables, frames, annotations, unknown ones) are read as the same code: the same limits, the same handlers, and the same instructions with the labels they refer to in the same places. Only line numbers, and labels to which no instruction and no handler refers, can differ. A body that is accepted is accepted without its attributes. If its line number tables are removed, it is read as exactly the same body without the line numbers. Done to one body of a class file, nothing else in the class is different. When such bodies are written, the limits, the code array and the exception table are the same bytes, and leaving out the attributes of a body does not change them either.", "quantifier": "all bodies and class files, all lists of attributes", "why_tests_cant": "All attributes of a body put labels into the same table as the jumps and handlers, and the markers are inserted into the instructions afterwards. An attribute whose offsets coincide with a jump target, or that comes before or after another one, is a combination that a test has to hit.", "anchors": ["src/code.rs:36-248", "src/code.rs:250-607"]}
{"id": "C103", "title": "A class file is read in the same way with and without overflow checks", "statement": "Class::read_from gives the same result in a build with overflow checks and in one without: the same class, or the same error. In particular, whatever a program tested in a debug build accepts or refuses, the release build accepts or refuses too, and a file on which the debug build panics is not silently read as something else.", "quantifier": "all byte sequences", "why_tests_cant": "tests run in one build profile, and the files on which the profiles differ need arithmetic at the ends of the ranges, in places spread over the whole reader", "anchors": ["src/clazz.rs:44-69", "src/insn.rs:39-49", "src/code.rs:164-206", "src/signature.rs:173-200", "src/ty.rs:92-149", "src/cp.rs:157-168"]}
{"id": "C104", "title": "A class is written in the same way with and without overflow checks", "statement": "Class::write_to gives the same result in a build with overflow checks and in one without: the same bytes, or the same error. In particular, a class on which the debug build panics is not silently written as a file that says something else.", "quantifier": "all classes", "why_tests_cant": "tests run in one build profile, and the classes on which the profiles differ (more constants than a pool holds, ranges that end before they begin, switches without offsets) are not ones that tests are written for", "anchors": ["src/clazz.rs:71-133", "src/cp.rs:218-229", "src/code.rs:388-484", "src/code.rs:504-511", "src/code.rs:556-606", "src/annotation/type_annotation.rs:60-81"]}
{"id": "C105", "title": "Reading input of unknown origin is safe without overflow checks, too", "statement": "Class::read_from in a build without overflow checks: on no input does it panic, reach undefined behaviour or loop for ever; it reads a part of the input from the beginning, and the bootstrap methods of the class it returns are resolved.", "quantifier": "all inputs", "why_tests_cant": "tests are run in a build with checks, where the inputs that make a counter wrap end in a panic; what the release build does with the values that have wrapped (positions, lengths, dimensions, indices) is never seen", "anchors": ["src/clazz.rs:44-69", "src/cp.rs:157-168", "src/code.rs:98-218", "src/insn.rs:38-58", "src/ty.rs:91-151"]}
{"id": "C106", "title": "What a class holds is bounded by the size of its file", "statement": "For every input that Class::read_from accepts, the class it returns (all strings, types, signatures, constants, instructions, annotations, frames and attributes counted with their contents) holds at most 16 * (min(65535, n) + 1) units for each of the n bytes that were read, so at most 2^20 * n; a descriptor or signature becomes a tree of at most eight times its length; a string is never longer than in the file. A file can hold much more than its size, because every use of a pool string makes a copy. Without overflow checks the same bounds hold, also where wrapped arithmetic lets a file be read that a build with checks panics on.", "quantifier": "all inputs", "why_tests_cant": "a file that makes the reader allocate without bound (a count that is not paid for with input, tables that are combined, types that are expanded) is one among all inputs; tests read files of usual shape", "anchors": ["src/clazz.rs:44-69", "src/code.rs:98-218", "src/cp.rs:157-168", "src/ty.rs:91-151", "src/rw.rs:241-264"]}
{"id": "C107", "title": "Reading a class asks its source at most once per byte", "statement": "Class::read_from on any Read: read_exact is called at most once for every byte that the source delivers (once more if the source ends or fails in between), whether the class is accepted or refused; with the read_exact of the standard library, read is called at most once for every byte and every interruption (once more if the source ends or fails).", "quantifier": "all sources (any state, any pieces, interruptions and failures), all runs", "why_tests_cant": "a reader that keeps asking for nothing, or asks again for what it has, is seen only as slowness, on sources with a cost for every call; tests read from slices, where a request for no bytes is free", "anchors": ["src/clazz.rs:44-69", "src/cp.rs:157-168", "src/rw.rs:433-437", "src/rw.rs:467-472", "coffer_macros/src/derive.rs:214-262"]}
{"id": "C108", "title": "A class can be written to any sink, in pieces and with interruptions", "statement": "Class::write_to on any Write, with the write_all of the standard library: if it succeeds the sink has taken exactly the class file; in any case it has taken a beginning of it, behind what it had before; a sink that takes at least a byte whenever it is not interrupted gets the file; a class that cannot be written leaves at most the header; writing ends unless the sink is interrupted for ever; write_all and write are called at most once per byte (write once more per interruption, both once more on failure).", "quantifier": "all sinks (any state, any partial writes, interruptions and failures), all classes", "why_tests_cant": "tests write to vectors, which take everything at once; sockets and pipes take a part, are interrupted or fail at any byte, and the combinations with all classes cannot be enumerated", "anchors": ["src/clazz.rs:71-133", "src/cp.rs:208-214", "src/rw.rs:438-441", "src/rw.rs:474-479"]}
{"id": "C109", "title": "Classes written to one stream one after the other are read from it, up to the first that was not written", "statement": "A program writes classes with Class::write_to to one Write and stops at the first error; the bytes that the sink has taken are then read with Class::read_from, class by class, until it fails. The classes found are exactly those for which write_to returned Ok, each as it would be read from a file of its own (and the same class, under the conditions of C47), and the final error is that the input has ended; wherever the sink failed, in whatever pieces it took the bytes, and if the last class was refused by the library itself. A sink that does not fail gets all classes that can be written.", "quantifier": "all lists of classes whose files can be read, all sinks, all sources, all places of failure", "why_tests_cant": "the place where a sink fails, the pieces and the lists of classes are unbounded; a test cuts one stream at a few places", "anchors": ["src/clazz.rs:44-69", "src/clazz.rs:71-133", "src/rw.rs:438-441", "src/rw.rs:474-479"]}
{"id": "C110", "title": "A stream of classes is copied class by class, and nothing is lost when the source or the sink fails", "statement": "A program reads classes from a Read with Class::read_from, and writes each with Class::write_to to a Write as soon as it has it, until one of the two fails. The sink then has the copies of the first classes in their order, each the same as if the file had been copied by itself, followed by nothing if it was the source that stopped; reading what is in the sink finds exactly the classes for which write_to returned Ok, each restored (C67), or with the dynamic arguments of its bootstrap methods numbered as in C96, and then the end of the input. If the source delivers class files that can be written and the sink does not fail, all of them are copied.", "quantifier": "all sources, all sinks, all streams of classes, all places of failure (restored: classes as in C67 and C96)", "why_tests_cant": "sources and sinks that deliver, take and fail at any byte, together with streams of any length, cannot be enumerated", "anchors": ["src/clazz.rs:44-69", "src/clazz.rs:71-133"]}
{"id": "C111", "title": "The size of a class file is bounded by what the class holds", "statement": "For every class that Class::write_to accepts, the file has at most 8192 bytes for each unit that the class holds (nodes, strings with their bytes, lists, as counted in C106; a bootstrap method counts at each of its uses, where it is written again): no table, no padding of a switch, no lengthened branch, no bootstrap method of a bootstrap method and no constant makes the output grow out of proportion. The same holds for the copy of a file that was read, counted with its bootstrap methods filled in; a file without uses of bootstrap methods is copied to at most 8192 * 16 * (min(65535, n) + 1) * n bytes. A descriptor has at most 1024 bytes for each part of the type, a printed signature at most 256 chars for each part, an encoded string at most twice its bytes, which U+0000 needs. A type of two parts can need 256 bytes. Without overflow checks the file is bounded in the same way, also where wrapped arithmetic lets a class be written that a build with checks refuses by a panic. So is the copy that it makes of a file.", "quantifier": "all classes, all inputs, all types, signatures and strings", "why_tests_cant": "an output that grows faster than the class (rounds of bootstrap methods, entries of the pool that are not shared, padding that is counted again) is seen only on large or nested classes; tests write small ones", "anchors": ["src/clazz.rs:71-133", "src/cp.rs:208-235", "src/code.rs:250-607", "src/ty.rs:212-288", "src/signature.rs:540-692", "src/mod_utf8.rs:136-178"]}
