{
 "claims": [
  {
   "property": "C01",
   "status": "proved",
   "theorems": [
    "Verif.Props.C01_fromBytes_accepts"
   ],
   "note": ""
  },
  {
   "property": "C02",
   "status": "partial",
   "theorems": [
    "Verif.Props.C02_violated",
    "Verif.Props.C02_fromBytes_partial",
    "Verif.Props.C02_noHigh_partial"
   ],
   "note": "The code accepts a high surrogate with an arbitrary third byte (C02_violated). Proved: exact accepted language, and soundness on inputs without high surrogates."
  },
  {
   "property": "C03",
   "status": "proved",
   "theorems": [
    "Verif.Props.C03_codepoints_exact",
    "Verif.Props.C03_codepoints_safe"
   ],
   "note": ""
  },
  {
   "property": "C04",
   "status": "proved",
   "theorems": [
    "Verif.Props.C04_fromWide_wellFormed",
    "Verif.Props.C04_fromWide_encodeWide",
    "Verif.Props.C04_encodeWide_exact",
    "Verif.Props.C04_encodeWide_fromWide"
   ],
   "note": ""
  },
  {
   "property": "C05",
   "status": "proved",
   "theorems": [
    "Verif.Props.C05_pushWtf8",
    "Verif.Props.C05_push",
    "Verif.Props.C05_history"
   ],
   "note": ""
  },
  {
   "property": "C06",
   "status": "proved",
   "theorems": [
    "Verif.Props.C06_slice",
    "Verif.Props.C06_slice_wellFormed",
    "Verif.Props.C06_truncate",
    "Verif.Props.C06_sliceFrom"
   ],
   "note": ""
  },
  {
   "property": "C07",
   "status": "proved",
   "theorems": [
    "Verif.Props.C07_asStr",
    "Verif.Props.C07_asStr_utf8",
    "Verif.Props.C07_toStringLossy",
    "Verif.Props.C07_intoStringLossy",
    "Verif.Props.C07_lossy_utf8",
    "Verif.Props.C07_display",
    "Verif.Props.C07_codepoint_debug",
    "Verif.Props.C07_debug"
   ],
   "note": ""
  },
  {
   "property": "C08",
   "status": "proved",
   "theorems": [
    "Verif.Props.C08_roundtrip"
   ],
   "note": ""
  },
  {
   "property": "C09",
   "status": "proved",
   "theorems": [
    "Verif.Props.C09_encode_conforms",
    "Verif.Props.C09_no_zero"
   ],
   "note": ""
  },
  {
   "property": "C10",
   "status": "proved",
   "theorems": [
    "Verif.Props.C10_decode_correct"
   ],
   "note": ""
  },
  {
   "property": "C11",
   "status": "partial",
   "theorems": [
    "Verif.Props.C11_violated",
    "Verif.Props.C11_violated_illformed",
    "Verif.Props.C11_total_partial",
    "Verif.Props.C11_sound_partial"
   ],
   "note": "Totality proved; the decoder accepts zero bytes, 4-byte sequences and ill-formed surrogates (C11_violated, C11_violated_illformed). Soundness proved on inputs without these."
  },
  {
   "property": "C12",
   "status": "partial",
   "theorems": [
    "Verif.Props.C12_violated",
    "Verif.Props.C12_string_partial",
    "Verif.Props.C12_prefix_partial"
   ],
   "note": "Violated for modified UTF-8 longer than 65535 bytes (C12_violated: 65536 letters); proved for all shorter strings."
  },
  {
   "property": "C13",
   "status": "proved",
   "theorems": [
    "Verif.Props.C13_u8",
    "Verif.Props.C13_u16",
    "Verif.Props.C13_u32",
    "Verif.Props.C13_u64",
    "Verif.Props.C13_i8",
    "Verif.Props.C13_i16",
    "Verif.Props.C13_i32",
    "Verif.Props.C13_i64",
    "Verif.Props.C13_u128",
    "Verif.Props.C13_i128",
    "Verif.Props.C13_f32",
    "Verif.Props.C13_f64"
   ],
   "note": ""
  },
  {
   "property": "C14",
   "status": "proved",
   "theorems": [
    "Verif.Props.C14_roundtrip",
    "Verif.Props.C14_prefixes",
    "Verif.Props.C14_overflow",
    "Verif.Props.C14_read_exact"
   ],
   "note": ""
  },
  {
   "property": "C15",
   "status": "proved",
   "theorems": [
    "Verif.Props.C15_text_exists",
    "Verif.Props.C15_write_text",
    "Verif.Props.C15_write_parse",
    "Verif.Props.C15_display_parse",
    "Verif.Props.C15_injective"
   ],
   "note": ""
  },
  {
   "property": "C16",
   "status": "partial",
   "theorems": [
    "Verif.Props.C16_violated",
    "Verif.Props.C16_prefix_partial",
    "Verif.Props.C16_bracket_array",
    "Verif.Props.C16_total",
    "Verif.Props.C16_overflow"
   ],
   "note": "The parser ignores text after a complete descriptor (C16_violated: `BX` is `byte`); what is accepted starts with the descriptor of the result, an array text is exact, and a run of more than 255 `[` is a panic (C16_overflow)."
  },
  {
   "property": "C17",
   "status": "partial",
   "theorems": [
    "Verif.Props.C17_violated",
    "Verif.Props.C17_display",
    "Verif.Props.C17_agree_partial"
   ],
   "note": "Display replaces surrogates by U+FFFD (C17_violated); it agrees with the class-file form when there are none."
  },
  {
   "property": "C18",
   "status": "proved",
   "theorems": [
    "Verif.Props.C18_print",
    "Verif.Props.C18_parse",
    "Verif.Props.C18_round_trip_iff",
    "Verif.Props.C18_stable",
    "Verif.Props.C18_class_type",
    "Verif.Props.C18_type",
    "Verif.Props.C18_total",
    "Verif.Props.C18_simple",
    "Verif.Props.C18_simple_iff",
    "Verif.Props.C18_class_type_iff",
    "Verif.Props.C18_type_iff"
   ],
   "note": ""
  },
  {
   "property": "C19",
   "status": "partial",
   "theorems": [
    "Verif.Props.C19_violated",
    "Verif.Props.C19_violated_class_and_interface",
    "Verif.Props.C19_violated_two_interfaces",
    "Verif.Props.C19_print_class",
    "Verif.Props.C19_print_method_partial",
    "Verif.Props.C19_class_partial",
    "Verif.Props.C19_method_partial",
    "Verif.Props.C19_class_iff",
    "Verif.Props.C19_class_stable",
    "Verif.Props.C19_total",
    "Verif.Props.C19_class_exact",
    "Verif.Props.C19_method_exact",
    "Verif.Props.C19_class_right_iff",
    "Verif.Props.C19_method_right_iff",
    "Verif.Props.C19_throws",
    "Verif.Props.C19_throws_iff",
    "Verif.Props.C19_param_iff",
    "Verif.Props.C19_param_right_iff",
    "Verif.Props.C19_parts_total"
   ],
   "note": "Type-variable throws are printed as class types and interface bounds become nameless parameters (C19_violated*). C19_class_exact, C19_method_exact say what every signature of the format is parsed as; C19_*_right_iff: it is what the signature means exactly if each parameter has a single bound. Missing: the round trip for the others, which does not hold."
  },
  {
   "property": "C20",
   "status": "proved",
   "theorems": [
    "Verif.Props.C20_stable",
    "Verif.Props.C20_disjoint",
    "Verif.Props.C20_range",
    "Verif.Props.C20_full_pool"
   ],
   "note": ""
  },
  {
   "property": "C21",
   "status": "proved",
   "theorems": [
    "Verif.Props.C21_same",
    "Verif.Props.C21_different",
    "Verif.Props.C21_nodup",
    "Verif.Props.C21_floats",
    "Verif.Props.C21_doubles"
   ],
   "note": ""
  },
  {
   "property": "C22",
   "status": "proved",
   "theorems": [
    "Verif.Props.C22_roundtrip",
    "Verif.Props.C22_found"
   ],
   "note": ""
  },
  {
   "property": "C23",
   "status": "partial",
   "theorems": [
    "Verif.Props.C23_accounts",
    "Verif.Props.C23_violated",
    "Verif.Props.C23_no_panic_partial"
   ],
   "note": "A long/double in the last slot of a pool with count 65535 overflows the u16 counter (C23_violated). Accounting proved for all inputs; no panic for any other count."
  },
  {
   "property": "C24",
   "status": "proved",
   "theorems": [
    "Verif.Props.C24_constant",
    "Verif.Props.C24_layout",
    "Verif.Props.C24_steps"
   ],
   "note": ""
  },
  {
   "property": "C25",
   "status": "proved",
   "theorems": [
    "Verif.Props.C25_member",
    "Verif.Props.C25_nameAndType",
    "Verif.Props.C25_methodHandle",
    "Verif.Props.C25_names"
   ],
   "note": ""
  },
  {
   "property": "C26",
   "status": "partial",
   "theorems": [
    "Verif.Props.C26_resolved",
    "Verif.Props.C26_refused",
    "Verif.Props.C26_class_resolved",
    "Verif.Props.C26_violated_class",
    "Verif.Props.C26_violated"
   ],
   "note": "A table is applied completely or refused; in a class that was read every cell has an entry in the table. Without the attribute cells stay empty and no error is returned; writing such a class panics."
  },
  {
   "property": "C27",
   "status": "proved",
   "theorems": [
    "Verif.Props.C27_eq32",
    "Verif.Props.C27_eq64",
    "Verif.Props.C27_hash",
    "Verif.Props.C27_order32",
    "Verif.Props.C27_order64",
    "Verif.Props.C27_trans"
   ],
   "note": ""
  },
  {
   "property": "C28",
   "status": "proved",
   "theorems": [
    "Verif.Props.C28_read",
    "Verif.Props.C28_roundtrip",
    "Verif.Props.C28_idempotent",
    "Verif.Props.C28_short"
   ],
   "note": ""
  },
  {
   "property": "C29",
   "status": "proved",
   "theorems": [
    "Verif.Props.C29_read",
    "Verif.Props.C29_write"
   ],
   "note": ""
  },
  {
   "property": "C30",
   "status": "partial",
   "theorems": [
    "Verif.Props.C30_violated_documented",
    "Verif.Props.C30_violated",
    "Verif.Props.C30_check_partial",
    "Verif.Props.C30_total",
    "Verif.Props.C30_accepts_partial",
    "Verif.Props.C30_documented_partial"
   ],
   "note": "Field handles named <clinit>/<init> are accepted against the documentation (C30_violated_documented), and JVM rules on interface flag and void are not checked (C30_violated). C30_check_partial is the exact decision made; C30_accepts_partial/C30_documented_partial are the implications that do hold."
  },
  {
   "property": "C31",
   "status": "proved",
   "theorems": [
    "Verif.Props.C31_neg",
    "Verif.Props.C31_involution",
    "Verif.Props.C31_opcode",
    "Verif.Props.C31_injective"
   ],
   "note": ""
  },
  {
   "property": "C32",
   "status": "partial",
   "theorems": [
    "Verif.Props.C32_roundtrip_partial",
    "Verif.Props.C32_violated",
    "Verif.Props.C32_violated_count",
    "Verif.Props.C32_refused",
    "Verif.Props.C32_reserved",
    "Verif.Props.C32_read_partial"
   ],
   "note": "Violated by an append frame without locals (C32_violated) and by full frames with more than 65535 entries (C32_violated_count). All other frames round trip; illegal forms and reserved tags are refused."
  },
  {
   "property": "C33",
   "status": "partial",
   "theorems": [
    "Verif.Props.C33_violated",
    "Verif.Props.C33_layout_partial",
    "Verif.Props.C33_tags_partial",
    "Verif.Props.C33_violated_read"
   ],
   "note": "Long and double are exchanged on writing and reading (C33_violated, C33_violated_read); the exact layout written is that of the type with the two exchanged, so all other types are right."
  },
  {
   "property": "C34",
   "status": "partial",
   "theorems": [
    "Verif.Props.C34_violated",
    "Verif.Props.C34_violated_newArray",
    "Verif.Props.C34_violated_putStatic",
    "Verif.Props.C34_violated_dynamic",
    "Verif.Props.C34_violated_anewarray",
    "Verif.Props.C34_violated_multianewarray",
    "Verif.Props.C34_layout_partial",
    "Verif.Props.C34_read_partial",
    "Verif.Props.C34_nothing",
    "Verif.Props.C34_roundtrip_partial"
   ],
   "note": "Violated for array creation (nothing is written), static stores (written as loads), pushed dynamic constants (refused when read) and arrays of classes whose names begin like a descriptor. Proved for all other straight-line instructions, and reading for all encodings of all instructions including branches and switches. multianewarray is left out of the layout: the API does not say what its pair of type and dimension means."
  },
  {
   "property": "C35",
   "status": "proved",
   "theorems": [
    "Verif.Props.C35_layout",
    "Verif.Props.C35_roundtrip",
    "Verif.Props.C35_sound",
    "Verif.Props.C35_unknown",
    "Verif.Props.C35_known"
   ],
   "note": ""
  },
  {
   "property": "C36",
   "status": "partial",
   "theorems": [
    "Verif.Props.C36_write_partial",
    "Verif.Props.C36_meaning",
    "Verif.Props.C36_meaning_table",
    "Verif.Props.C36_violated_far",
    "Verif.Props.C36_violated",
    "Verif.Props.C36_read",
    "Verif.Props.C36_read_table"
   ],
   "note": "Violated in methods with a long branch: the bytes after it are shifted and a later switch is misaligned (C36_violated, C36_violated_far). Proved for all code of at most 24575 bytes; reading proved for every position and table."
  },
  {
   "property": "C37",
   "status": "partial",
   "theorems": [
    "Verif.Props.C37_layout_partial",
    "Verif.Props.C37_large_partial",
    "Verif.Props.C37_violated_goto",
    "Verif.Props.C37_violated_conditional",
    "Verif.Props.C37_violated",
    "Verif.Props.C37_violated_crowded",
    "Verif.Props.C37_violated_small",
    "Verif.Props.C37_missing"
   ],
   "note": "Violated: a goto over more than 32764 bytes has two bytes more than declared (C37_violated_goto), a long conditional branch has ten bytes (C37_violated_conditional), and code of 24579 bytes with 8192 branches has two bytes less than declared (C37_violated_crowded). Proved for all code of at most 24575 bytes, and beyond it when bytes + 5 * branches <= 65535 and the code has at most 32767 bytes or the declared length is right; references to absent labels are refused at every size (C37_missing)."
  },
  {
   "property": "C38",
   "status": "proved",
   "theorems": [
    "Verif.Props.C38_sound",
    "Verif.Props.C38_once",
    "Verif.Props.C38_refused",
    "Verif.Props.C38_progress"
   ],
   "note": "Proved for all input below 2 GiB (a target position is computed in 32 bits). C38_sound shows that whatever is read is a decoding of the code array with one label per referenced position; C38_refused that targets elsewhere are refused. The ranges of local variables and of annotations on them end at or after their start."
  },
  {
   "property": "C39",
   "status": "partial",
   "theorems": [
    "Verif.Props.C39_exact_partial",
    "Verif.Props.C39_violated",
    "Verif.Props.C39_roundtrip_partial"
   ],
   "note": "Violated where two variables have the same name, index and range: one is lost (C39_violated). Proved for bodies within the sizes of C37 whose instructions and attributes can be written and read: they are read as themselves exactly if no two variables are alike (C39_exact_partial). Missing: larger code, for which C37 is violated. Line numbers are lost (C40)."
  },
  {
   "property": "C40",
   "status": "partial",
   "theorems": [
    "Verif.Props.C40_violated_always",
    "Verif.Props.C40_violated"
   ],
   "note": "Violated by every body: the bytes are those of the body without line numbers (C40_violated_always)."
  },
  {
   "property": "C41",
   "status": "partial",
   "theorems": [
    "Verif.Props.C41_layout_partial",
    "Verif.Props.C41_missing",
    "Verif.Props.C41_violated"
   ],
   "note": "Violated for 65536 handlers and more: their number is cut to 16 bits (C41_violated). Proved for fewer handlers within the sizes of C37; handlers with absent labels are refused at every size (C41_missing)."
  },
  {
   "property": "C42",
   "status": "partial",
   "theorems": [
    "Verif.Props.C42_class_layout_partial",
    "Verif.Props.C42_field_layout_partial",
    "Verif.Props.C42_violated",
    "Verif.Props.C42_raw_class",
    "Verif.Props.C42_raw_field",
    "Verif.Props.C42_raw_write",
    "Verif.Props.C42_field_length",
    "Verif.Props.C42_class_length",
    "Verif.Props.C42_raw_method",
    "Verif.Props.C42_raw_code",
    "Verif.Props.C42_code_length",
    "Verif.Props.C42_method_length"
   ],
   "note": "Violated only for payloads of 2^32 bytes and more (C42_violated). Unknown names and refusal of wrong lengths are proved for the attributes of classes, fields, methods and code; the layout of what is written here for classes and fields (for methods and code: C53, C39). SourceDebugExtension has no content length of its own and is left out of C42_class_length. The error for a payload longer than its content carries the name of the attribute, the length it claims and the length that would be right."
  },
  {
   "property": "C43",
   "status": "partial",
   "theorems": [
    "Verif.Props.C43_layout_partial",
    "Verif.Props.C43_read",
    "Verif.Props.C43_roundtrip_partial",
    "Verif.Props.C43_repeated",
    "Verif.Props.C43_annotation_partial",
    "Verif.Props.C43_class_annotation_partial",
    "Verif.Props.C43_method_annotation_partial",
    "Verif.Props.C43_field_annotation_partial",
    "Verif.Props.C43_class_layout_partial",
    "Verif.Props.C43_method_layout_partial",
    "Verif.Props.C43_field_layout_partial",
    "Verif.Props.C43_fuel",
    "Verif.Props.C43_violated",
    "Verif.Props.C43_truncated"
   ],
   "note": "Violated only for Class values whose name holds a lone surrogate (C43_violated): the code goes through Display. Proved for all other values, for annotations and for class, method and field type annotations; the list bound is needed (C43_truncated). C43_fuel shows that the recursion bound of the model never matters. C43_repeated: where a file gives a name several values, the last is kept."
  },
  {
   "property": "C44",
   "status": "partial",
   "theorems": [
    "Verif.Props.C44_class_read",
    "Verif.Props.C44_field_read",
    "Verif.Props.C44_parameter_read",
    "Verif.Props.C44_class_partial",
    "Verif.Props.C44_field_partial",
    "Verif.Props.C44_parameter",
    "Verif.Props.C44_violated",
    "Verif.Props.C44_names"
   ],
   "note": "Violated only through signatures (C44_violated, the same defect as C19). Everything else is proved for class attributes, fields and method parameters; references to bootstrap methods come back as indices that resolve to the same methods. C44_names states each attribute name against the specification."
  },
  {
   "property": "C45",
   "status": "partial",
   "theorems": [
    "Verif.Props.C45_exact_partial",
    "Verif.Props.C45_violated",
    "Verif.Props.C45_violated_empty",
    "Verif.Props.C45_violated_two"
   ],
   "note": "Violated by classes that use dynamic constants without an attribute BootstrapMethods, and with an empty or a second such attribute. Proved: the exact condition on the attributes, for fewer than 65536 interfaces, fields and methods."
  },
  {
   "property": "C46",
   "status": "partial",
   "theorems": [
    "Verif.Props.C46_nested_partial",
    "Verif.Props.C46_violated"
   ],
   "note": "Violated: numbers restart at zero for the bootstrap methods of arguments. Proved for classes whose table begins with the bootstrap methods of arguments in order (in particular tables without dynamic arguments). Missing: other tables, where the claim is false."
  },
  {
   "property": "C47",
   "status": "partial",
   "theorems": [
    "Verif.Props.C47_read",
    "Verif.Props.C47_write_partial",
    "Verif.Props.C47_roundtrip_partial",
    "Verif.Props.C47_violated"
   ],
   "note": "Reading is proved for every class file whose parts can be read. Writing and round trip are proved for classes whose parts can be written (C34, C37, C43, C44) and whose attributes and bootstrap table are as in C45 and C46. Violated in general."
  },
  {
   "property": "C48",
   "status": "partial",
   "theorems": [
    "Verif.Props.C48_violated",
    "Verif.Props.C48_validUpTo_partial"
   ],
   "note": "Doc claim of maximality is false for encoded surrogate pairs (C48_violated); the rest is proved."
  },
  {
   "property": "C49",
   "status": "partial",
   "theorems": [
    "Verif.Props.C49_dynamic_partial",
    "Verif.Props.C49_violated"
   ],
   "note": "Violated from the 65537th bootstrap method on (C49_violated); proved below."
  },
  {
   "property": "C50",
   "status": "partial",
   "theorems": [
    "Verif.Props.C50_layout_partial",
    "Verif.Props.C50_read",
    "Verif.Props.C50_violated",
    "Verif.Props.C50_backwards"
   ],
   "note": "Violated: the parameter of a handler that is not in the exception table is written without its index (C50_violated), and a local variable range that ends before it starts panics (C50_backwards). Proved for all other targets; labels come back as the labels of the same positions."
  },
  {
   "property": "C51",
   "status": "partial",
   "theorems": [
    "Verif.Props.C51_violated",
    "Verif.Props.C51_layout_partial"
   ],
   "note": "Violated for 65536 handlers (C51_violated). Proved within the sizes of C37, for less than 65536 handlers and attributes, and at least one entry per list of variables. Missing: larger code, for which C37 is violated."
  },
  {
   "property": "C52",
   "status": "proved",
   "theorems": [
    "Verif.Props.C52_read"
   ],
   "note": "Proved for every layout of a Code attribute whose parts can be read (C34, C43), for every enumeration order of the hash map."
  },
  {
   "property": "C53",
   "status": "partial",
   "theorems": [
    "Verif.Props.C53_violated",
    "Verif.Props.C53_read",
    "Verif.Props.C53_write_partial",
    "Verif.Props.C53_roundtrip_partial"
   ],
   "note": "Violated for a method that stores into a static field (C53_violated, from C34). Reading is proved for all layouts whose parts can be read. Writing and round trip are proved for bodies within the sizes of C37. Missing: larger bodies, for which C37 is violated."
  },
  {
   "property": "C54",
   "status": "partial",
   "theorems": [
    "Verif.Props.C54_safe",
    "Verif.Props.C54_no_panic_partial",
    "Verif.Props.C54_consumes",
    "Verif.Props.C54_violated_switch",
    "Verif.Props.C54_violated_line",
    "Verif.Props.C54_violated_range",
    "Verif.Props.C54_violated_brackets",
    "Verif.Props.C54_violated"
   ],
   "note": "No undefined behaviour and no endless loop on any input; a panic only on inputs with one of the features of Hazard, each of which is shown to panic. Stack depth is not modelled."
  },
  {
   "property": "C55",
   "status": "partial",
   "theorems": [
    "Verif.Props.C55_violated",
    "Verif.Props.C55_bytes_partial"
   ],
   "note": "Violated: indices in unknown attributes are not translated (witness: PermittedSubclasses of a sealed class). Proved: their bytes are kept."
  },
  {
   "property": "C56",
   "status": "partial",
   "theorems": [
    "Verif.Props.C56_violated",
    "Verif.Props.C56_count_partial"
   ],
   "note": "Violated: a class with one call site and one bootstrap method gets a second one. Proved: the exact number, for classes of C47 without nested dynamic arguments."
  },
  {
   "property": "C57",
   "status": "proved",
   "theorems": [
    "Verif.Props.C57_ends",
    "Verif.Props.C57_no_ub",
    "Verif.Props.C57_accepted",
    "Verif.Props.C57_ub_witness"
   ],
   "note": "Also: an illegible name does lead to undefined behaviour (C57_ub_witness). Class values of the model are finite trees; cyclic values, which Class::read_from builds from circular tables, are not covered."
  },
  {
   "property": "C58",
   "status": "proved",
   "theorems": [
    "Verif.Props.C58_success",
    "Verif.Props.C58_limit",
    "Verif.Props.C58_exact",
    "Verif.Props.C58_roundtrip"
   ],
   "note": "Success is proved for every class within the stated limits (FitsClass in Spec/Consts.lean), the limit of the pool is shown to be necessary, and exact without dynamic constants. The limit for code counts the largest size of each instruction."
  },
  {
   "property": "C59",
   "status": "partial",
   "theorems": [
    "Verif.Props.C59_pool_partial",
    "Verif.Props.C59_violated"
   ],
   "note": "Violated: two equal call sites get two bootstrap methods and two entries (C59_violated). Proved for all constants that are not dynamic; dynamic ones have at most one entry per use."
  },
  {
   "property": "C60",
   "status": "partial",
   "theorems": [
    "Verif.Props.C60_violated",
    "Verif.Props.C60_text_violated",
    "Verif.Props.C60_pair_violated",
    "Verif.Props.C60_decodePair",
    "Verif.Props.C60_call_partial",
    "Verif.Props.C60_program_partial",
    "Verif.Props.C60_safe_partial"
   ],
   "note": "Violated for byte strings with a malformed high surrogate (C60_violated, C60_text_violated). Proved for all programs of all other calls: exact effect on UTF-16 units, panics, well-formedness. C60_pair_violated: decode_surrogate_pair is a safe function with undefined behaviour, exactly for two units from DC00 on (C60_decodePair)."
  },
  {
   "property": "C61",
   "status": "proved",
   "theorems": [
    "Verif.Props.C61_order",
    "Verif.Props.C61_eq",
    "Verif.Props.C61_laws",
    "Verif.Props.C61_hash"
   ],
   "note": "Order, equality, laws of Ord, prefix-free hash input."
  },
  {
   "property": "C62",
   "status": "proved",
   "theorems": [
    "Verif.Props.C62_codepoints",
    "Verif.Props.C62_encodeWide"
   ],
   "note": "At every point of the iteration; EncodeWide for strings shorter than 2^63 bytes (the limit of Rust allocations)."
  },
  {
   "property": "C63",
   "status": "proved",
   "theorems": [
    "Verif.Props.C63_case",
    "Verif.Props.C63_eqIgnoreCase",
    "Verif.Props.C63_isAscii",
    "Verif.Props.C63_asciiByteAt",
    "Verif.Props.C63_codepoint"
   ],
   "note": "Exact effect on code points."
  },
  {
   "property": "C64",
   "status": "partial",
   "theorems": [
    "Verif.Props.C64_violated",
    "Verif.Props.C64_swallow_violated",
    "Verif.Props.C64_final_partial"
   ],
   "note": "Violated: error_len may exceed the input and include ASCII bytes. Proved: an error with a length is final for every continuation; bytes that can be continued are reported with None."
  },
  {
   "property": "C65",
   "status": "partial",
   "theorems": [
    "Verif.Props.C65_annotation",
    "Verif.Props.C65_classTypeAnnotation",
    "Verif.Props.C65_methodTypeAnnotation",
    "Verif.Props.C65_fieldTypeAnnotation",
    "Verif.Props.C65_codeTypeAnnotation",
    "Verif.Props.C65_require",
    "Verif.Props.C65_provide",
    "Verif.Props.C65_export",
    "Verif.Props.C65_open",
    "Verif.Props.C65_module",
    "Verif.Props.C65_innerClass",
    "Verif.Props.C65_field",
    "Verif.Props.C65_methodParameter",
    "Verif.Props.C65_method",
    "Verif.Props.C65_lineNumber",
    "Verif.Props.C65_localVar",
    "Verif.Props.C65_localVarType",
    "Verif.Props.C65_parameterAnnotations",
    "Verif.Props.C65_classWrapper",
    "Verif.Props.C65_classTarget",
    "Verif.Props.C65_methodTarget",
    "Verif.Props.C65_fieldTarget",
    "Verif.Props.C65_typePath",
    "Verif.Props.C65_codeTarget",
    "Verif.Props.C65_verificationType",
    "Verif.Props.C65_majorVersion",
    "Verif.Props.C65_rawConstantEntry",
    "Verif.Props.C65_constEntryRef",
    "Verif.Props.C65_methodHandleKind",
    "Verif.Props.C65_javaVersion",
    "Verif.Props.C65_fieldAttribute",
    "Verif.Props.C65_classAttribute",
    "Verif.Props.C65_codeAttr",
    "Verif.Props.C65_methodAttribute",
    "Verif.Props.C65_struct_compiles",
    "Verif.Props.C65_struct",
    "Verif.Props.C65_struct_returns",
    "Verif.Props.C65_ctors",
    "Verif.Props.C65_enum_no_tag_type",
    "Verif.Props.C65_enum_compiles_partial",
    "Verif.Props.C65_enum_partial",
    "Verif.Props.C65_enum_unknown_partial",
    "Verif.Props.C65_enum_returns_partial",
    "Verif.Props.C65_attr_ctors",
    "Verif.Props.C65_attr_written",
    "Verif.Props.C65_attr_compiles_partial",
    "Verif.Props.C65_attr_read_partial",
    "Verif.Props.C65_attr_returns_partial",
    "Verif.Props.C65_raw_returns_partial",
    "Verif.Props.C65_enum_violated",
    "Verif.Props.C65_attr_violated"
   ],
   "note": "Structures and writing of attribute enums proved outright. Violated: C65_enum_violated (discriminants that are not literals are ignored), C65_attr_violated (raw variant not last). Proved for enums with literal discriminants and attribute enums with the raw variant last, which includes every declaration in the crate."
  },
  {
   "property": "C66",
   "status": "partial",
   "theorems": [
    "Verif.Props.C66_violated",
    "Verif.Props.C66_ends_partial",
    "Verif.Props.C66_written_partial",
    "Verif.Props.C66_circular_partial",
    "Verif.Props.C66_iff_partial"
   ],
   "note": "C66_violated: a concrete class file with a table of two entries that use each other is read (against the documentation of Dynamic). C66_ends_partial, C66_written_partial, C66_circular_partial and C66_iff_partial say for every class that is read what writing it does: it ends, equals writing the completed class if the table has no circle, and never succeeds otherwise."
  },
  {
   "property": "C67",
   "status": "partial",
   "theorems": [
    "Verif.Props.C67_roundtrip_partial",
    "Verif.Props.C67_written_partial",
    "Verif.Props.C67_parts_partial",
    "Verif.Props.C67_violated"
   ],
   "note": "C67_violated: a concrete file whose method stores into a static field; after writing and reading nothing is stored. C67_roundtrip_partial, C67_written_partial and C67_parts_partial hold for every input that is read as a class that is `Regular` (Spec/Reread): types and signatures are those of the JVM specification, instructions and bodies are those for which C34 and C37 hold, bootstrap arguments are static, there is one nonempty bootstrap table or none, strings fit. Everything else that C47 asks for is proved of what the reader returns."
  },
  {
   "property": "C68",
   "status": "partial",
   "theorems": [
    "Verif.Props.C68_violated_doubling",
    "Verif.Props.C68_success_partial",
    "Verif.Props.C68_roundtrip_partial",
    "Verif.Props.C68_violated_table",
    "Verif.Props.C68_violated_switch",
    "Verif.Props.C68_violated"
   ],
   "note": "Violated by a class with a call site and no BootstrapMethods attribute and by an empty tableswitch (C68_violated, C68_violated_table, C68_violated_switch). Proved for classes as Storable says whose constants fit in the pool."
  },
  {
   "property": "C69",
   "status": "partial",
   "theorems": [
    "Verif.Props.C69_unambiguous",
    "Verif.Props.C69_one_program",
    "Verif.Props.C69_write_partial",
    "Verif.Props.C69_results_partial",
    "Verif.Props.C69_class_partial",
    "Verif.Props.C69_read",
    "Verif.Props.C69_violated"
   ],
   "note": "C69_violated: a body that stores into a static field; on a machine that remembers stores the written bytes do not store. C69_write_partial, C69_results_partial and C69_class_partial hold for the instructions of C34 and the sizes of C37. C69_read holds for every body as in C52. Machines are arbitrary; jumps and switches cannot throw (asynchronous exceptions are not represented)."
  },
  {
   "property": "C70",
   "status": "partial",
   "theorems": [
    "Verif.Props.C70_body_partial",
    "Verif.Props.C70_class_partial",
    "Verif.Props.C70_violated"
   ],
   "note": "C70_violated: the same body, read and written. C70_body_partial: a body that can be written as in C51; C70_class_partial: class files as in C47_read, Regular as in C67, without jsr and ret. The programs of both files are given by `classFile program`, with unknown attributes not named like known ones."
  },
  {
   "property": "C71",
   "status": "partial",
   "theorems": [
    "Verif.Props.C71_others_partial",
    "Verif.Props.C71_string",
    "Verif.Props.C71_string_lost",
    "Verif.Props.C71_string_layout",
    "Verif.Props.C71_violated",
    "Verif.Props.C71_read"
   ],
   "note": "C71_violated by strings (C71_string, C71_string_lost). C71_others_partial: all other constants."
  },
  {
   "property": "C72",
   "status": "partial",
   "theorems": [
    "Verif.Props.C72_signature_simple",
    "Verif.Props.C72_signature_class_type",
    "Verif.Props.C72_signature_type",
    "Verif.Props.C72_signature_throws",
    "Verif.Props.C72_signature_param",
    "Verif.Props.C72_int",
    "Verif.Props.C72_long",
    "Verif.Props.C72_float",
    "Verif.Props.C72_double",
    "Verif.Props.C72_read_int",
    "Verif.Props.C72_read_long",
    "Verif.Props.C72_read_float",
    "Verif.Props.C72_read_double",
    "Verif.Props.C72_member",
    "Verif.Props.C72_kind",
    "Verif.Props.C72_kind_read",
    "Verif.Props.C72_handle",
    "Verif.Props.C72_handle_refused",
    "Verif.Props.C72_handle_read",
    "Verif.Props.C72_violated",
    "Verif.Props.C72_checked_partial"
   ],
   "note": "Round trips and exact reading proved outright. C72_violated: a handle written as a constant is not checked; C72_checked_partial: its own codec checks it. Descriptors must have a text (Printable), as in C25."
  },
  {
   "property": "C73",
   "status": "partial",
   "theorems": [
    "Verif.Props.C73_iop",
    "Verif.Props.C73_int",
    "Verif.Props.C73_branch",
    "Verif.Props.C73_member",
    "Verif.Props.C73_load",
    "Verif.Props.C73_store",
    "Verif.Props.C73_violated",
    "Verif.Props.C73_array_panics",
    "Verif.Props.C73_array_partial",
    "Verif.Props.C73_types",
    "Verif.Props.C73_map"
   ],
   "note": "Instructions, method and object types proved outright. C73_violated: Type::array(0, int) is written I and read back as int. C73_array_partial: one dimension or more and at most 255 together. C73_array_panics: the call panics exactly past 255."
  },
  {
   "property": "C74",
   "status": "partial",
   "theorems": [
    "Verif.Props.C74_violated",
    "Verif.Props.C74_decides_partial",
    "Verif.Props.C74_ends_partial",
    "Verif.Props.C74_equivalence",
    "Verif.Props.C74_hash",
    "Verif.Props.C74_hash_ends_partial",
    "Verif.Props.C74_read_partial",
    "Verif.Props.C74_circular_partial"
   ],
   "note": "C74_violated: two entries with arguments made with each other. Proved for every graph of cells: the answer is right whenever there is one (C74_decides_partial), equivalence, agreement with hash, and when comparing and hashing end. For classes that were read: all ends exactly if the table is not circular."
  },
  {
   "property": "C75",
   "status": "partial",
   "theorems": [
    "Verif.Props.C75_written",
    "Verif.Props.C75_success",
    "Verif.Props.C75_failed_partial",
    "Verif.Props.C75_rewritten",
    "Verif.Props.C75_refailed_partial",
    "Verif.Props.C75_violated"
   ],
   "note": "C75_violated: eight bytes have been written before a jump to a missing label is found. C75_written and C75_success are proved for all sinks; C75_failed_partial says what a failed write leaves. ub (strings that are not WTF-8) is excluded there."
  },
  {
   "property": "C76",
   "status": "proved",
   "theorems": [
    "Verif.Props.C76_more",
    "Verif.Props.C76_truncated",
    "Verif.Props.C76_refused",
    "Verif.Props.C76_in_turn",
    "Verif.Props.C76_order"
   ],
   "note": "Proved for the whole reader. For the class to be literally the same on a longer input the order of the local variables must be chosen alike (C76_more); otherwise it is the same up to that order (C76_order)."
  },
  {
   "property": "C77",
   "status": "partial",
   "theorems": [
    "Verif.Props.C77_violated",
    "Verif.Props.C77_copy_partial"
   ],
   "note": "C77_violated: one file, two orders, two outputs. C77_copy_partial: the same output for all orders if no body has two variables; errors of reading never depend on the order (C76_order)."
  },
  {
   "property": "C78",
   "status": "partial",
   "theorems": [
    "Verif.Props.C78_violated",
    "Verif.Props.C78_deep",
    "Verif.Props.C78_bound_partial"
   ],
   "note": "C78_violated: for every depth there is a value that needs more. C78_deep: an attribute of 3n+3 bytes needs n+1 calls; C78_bound_partial: never more than a third of the bytes, plus one. Signatures and descriptors (limited to 65535 bytes) are not treated."
  },
  {
   "property": "C79",
   "status": "partial",
   "theorems": [
    "Verif.Props.C79_violated",
    "Verif.Props.C79_copy_partial"
   ],
   "note": "C79_violated: each copy of a class with a call site is longer. C79_copy_partial: exact equality of bytes for the classes of C67 (Regular) without dynamic constants and with at most one variable per list, for all hash orders."
  },
  {
   "property": "C80",
   "status": "partial",
   "theorems": [
    "Verif.Props.C80_pool_class",
    "Verif.Props.C80_pool_method_partial",
    "Verif.Props.C80_violated",
    "Verif.Props.C80_violated_empty",
    "Verif.Props.C80_violated_no_params",
    "Verif.Props.C80_violated_throws",
    "Verif.Props.C80_ref_partial",
    "Verif.Props.C80_type_partial",
    "Verif.Props.C80_class_type_partial",
    "Verif.Props.C80_simple_partial",
    "Verif.Props.C80_class_partial",
    "Verif.Props.C80_method_partial",
    "Verif.Props.C80_param_partial",
    "Verif.Props.C80_class_text",
    "Verif.Props.C80_method_text_partial"
   ],
   "note": "C80_violated*: witnesses for the rest, for <> and for thrown type variables. C80_*_partial: the text is the printed form followed by what was left over, if it has no <> (and, for methods, no type variable is thrown). C80_class_text, C80_pool_class: outright for all class signatures of the format."
  },
  {
   "property": "C81",
   "status": "partial",
   "theorems": [
    "Verif.Props.C81_container",
    "Verif.Props.C81_variant",
    "Verif.Props.C81_field",
    "Verif.Props.C81_decl",
    "Verif.Props.C81_struct",
    "Verif.Props.C81_violated",
    "Verif.Props.C81_violated_path",
    "Verif.Props.C81_violated_twice",
    "Verif.Props.C81_tag_partial",
    "Verif.Props.C81_tag_generated_partial"
   ],
   "note": "C81_violated: #[tag = 5] is ignored; C81_violated_path, C81_violated_twice. C81_container, C81_variant, C81_field, C81_decl: exactly what is accepted and what it means. C81_tag_partial, C81_tag_generated_partial: honoured in #[coffer(...)] if no other attribute says another tag. Missing: other attributes, which are ignored."
  },
  {
   "property": "C82",
   "status": "partial",
   "theorems": [
    "Verif.Props.C82_written_partial",
    "Verif.Props.C82_exact_partial",
    "Verif.Props.C82_violated"
   ],
   "note": "C82_violated: a goto to itself with its frame is copied without the frame. C82_written_partial: nothing that is written has frames, so it is framed exactly if all bodies are unbranched. C82_exact_partial: a copy is framed exactly if the original needed no frames. Missing: bodies that need frames."
  },
  {
   "property": "C83",
   "status": "partial",
   "theorems": [
    "Verif.Props.C83_violated",
    "Verif.Props.C83_count_partial",
    "Verif.Props.C83_copy_partial",
    "Verif.Props.C83_limit_partial",
    "Verif.Props.C83_doubles_partial",
    "Verif.Props.C83_unwritable_partial",
    "Verif.Props.C83_flat_partial"
   ],
   "note": "C83_violated: three entries, five uses, eighteen written. C83_count_partial: the number in the file, for every class. C83_copy_partial: in terms of the table that was read. C83_limit_partial, C83_doubles_partial, C83_unwritable_partial (with C68_violated_doubling): the bound on what can be written. C83_flat_partial: when the claim holds. Missing: entries in use with dynamic arguments, for which the claim is false."
  },
  {
   "property": "C84",
   "status": "partial",
   "theorems": [
    "Verif.Props.C84_bound_partial",
    "Verif.Props.C84_same_partial",
    "Verif.Props.C84_reached",
    "Verif.Props.C84_accepted_partial",
    "Verif.Props.C84_accepted_reached",
    "Verif.Props.C84_signature_bound_partial",
    "Verif.Props.C84_signature_same_partial",
    "Verif.Props.C84_signature_reached",
    "Verif.Props.C84_signature_accepted_partial",
    "Verif.Props.C84_signature_accepted_reached",
    "Verif.Props.C84_violated",
    "Verif.Props.C84_signature_violated"
   ],
   "note": "C84_violated, C84_signature_violated: no depth is enough. C84_bound_partial, C84_accepted_partial, C84_signature_bound_partial, C84_signature_accepted_partial: the depths that are enough; C84_reached, C84_accepted_reached, C84_signature_reached, C84_signature_accepted_reached: they are needed. C84_same_partial, C84_signature_same_partial: less room never changes an answer. Missing: the claim for all texts, which is false. Signatures of methods and classes call the same function for their parts."
  },
  {
   "property": "C85",
   "status": "partial",
   "theorems": [
    "Verif.Props.C85_same_partial",
    "Verif.Props.C85_apart",
    "Verif.Props.C85_bound_partial",
    "Verif.Props.C85_accepted_partial",
    "Verif.Props.C85_mono",
    "Verif.Props.C85_reached",
    "Verif.Props.C85_attribute_reached",
    "Verif.Props.C85_violated",
    "Verif.Props.C85_header"
   ],
   "note": "C85_violated, C85_reached, C85_attribute_reached, C85_header: the requests of small files. C85_accepted_partial: the claim for accepted files. C85_bound_partial: what is enough for all. C85_same_partial, C85_apart, C85_mono: what a refusal does. Missing: the claim for files that are refused, which is false. Only buffers whose size is given by four bytes are modelled; those given by one or two bytes are smaller than a few MiB each."
  },
  {
   "property": "C86",
   "status": "proved",
   "theorems": [
    "Verif.Props.C86_places",
    "Verif.Props.C86_rename",
    "Verif.Props.C86_unused",
    "Verif.Props.C86_twice",
    "Verif.Props.C86_line",
    "Verif.Props.C86_class",
    "Verif.Props.C86_merged"
   ],
   "note": "C86_places is the general statement, C86_rename, C86_unused, C86_twice, C86_line its uses, C86_class the same for classes. C86_merged: labels that were different have to stay different."
  },
  {
   "property": "C87",
   "status": "proved",
   "theorems": [
    "Verif.Props.C87_body",
    "Verif.Props.C87_class",
    "Verif.Props.C87_fresh",
    "Verif.Props.C87_next"
   ],
   "note": "C87_body for bodies, C87_class for classes; C87_fresh, C87_next: new labels."
  },
  {
   "property": "C88",
   "status": "partial",
   "theorems": [
    "Verif.Props.C88_checked_partial",
    "Verif.Props.C88_unchecked",
    "Verif.Props.C88_violated",
    "Verif.Props.C88_exact"
   ],
   "note": "Violated for nine kinds of tables, whose length is cast to 16 bits (C88_unchecked has a class for each); C88_checked_partial proves it for the other 23, C88_exact says that it is exactly these. The number of elements of an annotation is cast too, but so many different names do not fit in a constant pool."
  },
  {
   "property": "C89",
   "status": "partial",
   "theorems": [
    "Verif.Props.C89_types_partial",
    "Verif.Props.C89_brackets_partial",
    "Verif.Props.C89_array_lost",
    "Verif.Props.C89_read_partial",
    "Verif.Props.C89_overwritten",
    "Verif.Props.C89_pool_partial",
    "Verif.Props.C89_indices_partial",
    "Verif.Props.C89_shared_index",
    "Verif.Props.C89_agree_partial",
    "Verif.Props.C89_ends_partial",
    "Verif.Props.C89_forever",
    "Verif.Props.C89_violated"
   ],
   "note": "Violated in each of the four parts: 256 brackets are parsed as an array without dimensions, a pool can be read whose later entries replace its first ones, more than 65536 constants share indices, and writing a class with a circular table of bootstrap methods never ends. The partial theorems say that the builds agree exactly where the one with checks does not panic (for write_to: where it succeeds), and that writing ends without checks if the table is not circular. C103 is about the whole of Class::read_from, C104 about the whole of Class::write_to."
  },
  {
   "property": "C90",
   "status": "partial",
   "theorems": [
    "Verif.Props.C90_equality",
    "Verif.Props.C90_elements",
    "Verif.Props.C90_violated",
    "Verif.Props.C90_bytes_partial",
    "Verif.Props.C90_body_partial"
   ],
   "note": "Violated by an annotation with two elements. C90_bytes_partial: no annotation has more than one element (no bound on anything else). C90_equality says that the relation used for equality of annotation values is reflexive, symmetric and transitive, C90_elements that it ignores the order."
  },
  {
   "property": "C91",
   "status": "partial",
   "theorems": [
    "Verif.Props.C91_string_partial",
    "Verif.Props.C91_surrogate",
    "Verif.Props.C91_plain_partial",
    "Verif.Props.C91_type_partial",
    "Verif.Props.C91_array",
    "Verif.Props.C91_other_type",
    "Verif.Props.C91_violated",
    "Verif.Props.C91_string_violated"
   ],
   "note": "Violated by types with arrays and by strings with surrogates. Partial: strings without surrogates; everything without options; types in which no array has fewer dimensions than the width or more than the precision. Formatter::pad is part of the standard library; laid_iff says that its model is what the documentation says. Signatures are modelled without options only."
  },
  {
   "property": "C92",
   "status": "proved",
   "theorems": [
    "Verif.Props.C92_release",
    "Verif.Props.C92_versions_differ",
    "Verif.Props.C92_minor"
   ],
   "note": "The number of the minor version is printed by the standard library; C92_minor says what its model gives."
  },
  {
   "property": "C93",
   "status": "partial",
   "theorems": [
    "Verif.Props.C93_parts_partial",
    "Verif.Props.C93_members_partial",
    "Verif.Props.C93_removed_partial",
    "Verif.Props.C93_violated",
    "Verif.Props.C93_without_table"
   ],
   "note": "Violated by putting a method with a call site into a class without BootstrapMethods. Partial: the class has that attribute just if it has bootstrap methods, and the classes the parts come from are those of C67. Removing parts needs no further condition (C93_removed_partial)."
  },
  {
   "property": "C94",
   "status": "partial",
   "theorems": [
    "Verif.Props.C94_alike_partial",
    "Verif.Props.C94_parts_partial",
    "Verif.Props.C94_copies_partial",
    "Verif.Props.C94_violated"
   ],
   "note": "Violated by putstatic, which is written as getstatic. Partial: both classes meet the conditions of C47 (those of C93 or C67 are enough)."
  },
  {
   "property": "C95",
   "status": "proved",
   "theorems": [
    "Verif.Props.C95_reads",
    "Verif.Props.C95_reads_or",
    "Verif.Props.C95_constant",
    "Verif.Props.C95_member",
    "Verif.Props.C95_nameAndType",
    "Verif.Props.C95_methodHandle",
    "Verif.Props.C95_names",
    "Verif.Props.C95_shorthands",
    "Verif.Props.C95_dynamic",
    "Verif.Props.C95_total",
    "Verif.Props.C95_vec_keeps",
    "Verif.Props.C95_vec",
    "Verif.Props.C95_vec_table",
    "Verif.Props.C95_wrap",
    "Verif.Props.C95_wrap_reads",
    "Verif.Props.C95_moving"
   ],
   "note": "That indices stay valid is needed (C95_moving). VecCp keeps entries, but not bootstrap methods beyond 65536 (C49)."
  },
  {
   "property": "C96",
   "status": "proved",
   "theorems": [
    "Verif.Props.C96_numbers",
    "Verif.Props.C96_iff",
    "Verif.Props.C96_copy",
    "Verif.Props.C96_copy_iff",
    "Verif.Props.C96_used_lost",
    "Verif.Props.C96_circular"
   ],
   "note": "The exact form of C46 and C67 for nested dynamic constants. C96_numbers and C96_iff are about classes made by a user, C96_copy, C96_copy_iff, C96_used_lost and C96_circular about class files that are read and written."
  },
  {
   "property": "C97",
   "status": "proved",
   "theorems": [
    "Verif.Props.C97_points"
   ],
   "note": "The attribute may be one of the class, of a field, of a method or of a method body. A method body whose own length is wrong is one of the cases; attributes with unknown names and SourceDebugExtension never lead to this error."
  },
  {
   "property": "C98",
   "status": "proved",
   "theorems": [
    "Verif.Props.C98_method_parts",
    "Verif.Props.C98_field_parts",
    "Verif.Props.C98_members_unique",
    "Verif.Props.C98_body_parts",
    "Verif.Props.C98_parts",
    "Verif.Props.C98_unique",
    "Verif.Props.C98_any_order",
    "Verif.Props.C98_method",
    "Verif.Props.C98_field",
    "Verif.Props.C98_attribute",
    "Verif.Props.C98_reordered"
   ],
   "note": "The exact statement is for hash maps that order local variables by a fixed function; for an arbitrary order the class differs in nothing but the order of local variables (C98_any_order)."
  },
  {
   "property": "C99",
   "status": "proved",
   "theorems": [
    "Verif.Props.C99_replaced",
    "Verif.Props.C99_appended",
    "Verif.Props.C99_dropped"
   ],
   "note": ""
  },
  {
   "property": "C100",
   "status": "proved",
   "theorems": [
    "Verif.Props.C100_class_added",
    "Verif.Props.C100_class_removed",
    "Verif.Props.C100_field_added",
    "Verif.Props.C100_field_removed",
    "Verif.Props.C100_method_added",
    "Verif.Props.C100_method_removed",
    "Verif.Props.C100_body_added",
    "Verif.Props.C100_body_removed"
   ],
   "note": ""
  },
  {
   "property": "C101",
   "status": "proved",
   "theorems": [
    "Verif.Props.C101_accepted",
    "Verif.Props.C101_refused",
    "Verif.Props.C101_stopped",
    "Verif.Props.C101_ends",
    "Verif.Props.C101_delivered",
    "Verif.Props.C101_served"
   ],
   "note": ""
  },
  {
   "property": "C102",
   "status": "proved",
   "theorems": [
    "Verif.Props.C102_same",
    "Verif.Props.C102_bare",
    "Verif.Props.C102_lines",
    "Verif.Props.C102_class_bare",
    "Verif.Props.C102_class_lines",
    "Verif.Props.C102_written",
    "Verif.Props.C102_stripped",
    "Verif.Props.C102_both_written"
   ],
   "note": ""
  },
  {
   "property": "C103",
   "status": "partial",
   "theorems": [
    "Verif.Props.C103_agree_partial",
    "Verif.Props.C103_accepted_partial",
    "Verif.Props.C103_refused_partial",
    "Verif.Props.C103_panics",
    "Verif.Props.C103_harmless_partial",
    "Verif.Props.C103_switch",
    "Verif.Props.C103_switch_checked",
    "Verif.Props.C103_range",
    "Verif.Props.C103_range_checked",
    "Verif.Props.C103_brackets",
    "Verif.Props.C103_brackets_checked",
    "Verif.Props.C103_violated_switch",
    "Verif.Props.C103_violated_range",
    "Verif.Props.C103_violated_brackets",
    "Verif.Props.C103_violated"
   ],
   "note": "Violated: a file whose table switch ranges over all keys, one whose local variable ends beyond 65535 and one with 256 brackets make the build with checks panic and are accepted by the other (C103_violated_*; C103_switch, C103_range, C103_brackets say what is read). C103_agree_partial: on every input on which the build with checks does not panic, the two give the same result; C103_harmless_partial: neither panics without one of the features in Hazard (C54)."
  },
  {
   "property": "C104",
   "status": "partial",
   "theorems": [
    "Verif.Props.C104_agree_partial",
    "Verif.Props.C104_written_partial",
    "Verif.Props.C104_refused_partial",
    "Verif.Props.C104_panics",
    "Verif.Props.C104_ends",
    "Verif.Props.C104_no_ub",
    "Verif.Props.C104_roundtrip_partial",
    "Verif.Props.C104_range",
    "Verif.Props.C104_range_checked",
    "Verif.Props.C104_switch",
    "Verif.Props.C104_target",
    "Verif.Props.C104_always",
    "Verif.Props.C104_violated_constants",
    "Verif.Props.C104_violated_range",
    "Verif.Props.C104_violated_switch",
    "Verif.Props.C104_violated_target",
    "Verif.Props.C104_violated"
   ],
   "note": "Violated: a variable that ends before it begins, a switch without offsets and more constants than a pool holds make the build with checks panic or refuse and are written by the other (C104_violated_*; C104_range, C104_switch, C104_target say what is written), in the case of C104_violated_target as a file that the same build refuses to read. C104_agree_partial: unless the build with checks panics, the two give the same result; C104_ends: without checks, too, writing ends; C104_roundtrip_partial: within the limits of the format a class is read back. As in C47 and C57 this is about classes whose bootstrap methods form a tree; for circular ones see C89_forever."
  },
  {
   "property": "C105",
   "status": "partial",
   "theorems": [
    "Verif.Props.C105_safe",
    "Verif.Props.C105_no_panic_partial",
    "Verif.Props.C105_consumes",
    "Verif.Props.C105_resolved",
    "Verif.Props.C105_violated_switch",
    "Verif.Props.C105_violated_wide",
    "Verif.Props.C105_violated_line",
    "Verif.Props.C105_violated",
    "Verif.Props.C105_plain",
    "Verif.Props.C105_plain_of",
    "Verif.Props.C105_length"
   ],
   "note": "Violated: a tableswitch whose number of targets is negative with 32 bits and a line number for a position that is not an instruction make the reader panic (C105_violated_switch, C105_violated_wide, C105_violated_line). C105_no_panic_partial: nothing else does (HazardW, which unlike Hazard of C54 does not list brackets, large pools and ranges); C105_safe: never undefined behaviour, never an endless loop; C105_consumes, C105_resolved, C105_length: what is read and what a complaint about a length says."
  },
  {
   "property": "C106",
   "status": "proved",
   "theorems": [
    "Verif.Props.C106_class",
    "Verif.Props.C106_linear",
    "Verif.Props.C106_code",
    "Verif.Props.C106_type",
    "Verif.Props.C106_signature",
    "Verif.Props.C106_string",
    "Verif.Props.C106_grows",
    "Verif.Props.C106_amplifies",
    "Verif.Props.C106_unchecked",
    "Verif.Props.C106_unchecked_text",
    "Verif.Props.C106_unchecked_amplifies"
   ],
   "note": "Counted with Spec/Bulk: every node one, every string one and its bytes, every list one and its elements. C106_class: at most 16*(min(65535,n)+1)*n for n bytes read; C106_linear: at most 2^20*n; C106_code: also the number of instructions of any body; C106_type, C106_signature, C106_string: text becomes at most eight times (plus one for a class signature) its length; C106_grows, C106_amplifies: for all n and l below 65536 a file of 30+l+2n bytes whose class holds more than n*l, at the largest 21000 times the file, so the price of a string is needed. A cell shared with the bootstrap table counts as one node; buffers that are dropped before the reader returns are not counted (C85 bounds those). C106_unchecked, C106_unchecked_text: the same bounds for the readers without overflow checks. C106_unchecked_amplifies: and the same amplification."
  },
  {
   "property": "C107",
   "status": "proved",
   "theorems": [
    "Verif.Props.C107_counted",
    "Verif.Props.C107_requests",
    "Verif.Props.C107_calls",
    "Verif.Props.C107_class"
   ],
   "note": "Spec/Calls counts the calls of read_exact, of read, and the interruptions along the runs of C101 (C107_counted: the same runs). C107_requests, C107_calls: the bounds for every run; C107_class: for a source that delivers the bytes of a class file. What is inside an attribute is read from a buffer in memory, not from the source."
  },
  {
   "property": "C108",
   "status": "proved",
   "theorems": [
    "Verif.Props.C108_written",
    "Verif.Props.C108_prefix",
    "Verif.Props.C108_refused",
    "Verif.Props.C108_ends",
    "Verif.Props.C108_taken",
    "Verif.Props.C108_kept",
    "Verif.Props.C108_calls",
    "Verif.Props.C108_rewritten"
   ],
   "note": "Model/Push: the requests of write_to (the same as in Model/Sink, Push.send_file), and sinks with a state that answer to write; write_all as the standard library provides it. C108_written, C108_prefix, C108_refused, C108_ends, C108_taken, C108_kept, C108_calls; C108_rewritten for classes that were read. write_to never calls flush, so a buffering sink has to be flushed by its owner; this is visible in the model, which has no such request."
  },
  {
   "property": "C109",
   "status": "proved",
   "theorems": [
    "Verif.Props.C109_found",
    "Verif.Props.C109_first",
    "Verif.Props.C109_all",
    "Verif.Props.C109_same"
   ],
   "note": "C109_found: the classes found are those for which write_to succeeded, each read as by itself; C109_first: they are the first ones, all exactly if the last result is a success; C109_all: a sink that does not fail; C109_same: each is the class that was written, under the conditions of C47 (Sturdy). The hypothesis ReadsBack excludes classes whose own file cannot be read (C45, C47_violated) or whose writing is undefined behaviour (a string that is not valid WTF-8)."
  },
  {
   "property": "C110",
   "status": "proved",
   "theorems": [
    "Verif.Props.C110_read",
    "Verif.Props.C110_content",
    "Verif.Props.C110_restored",
    "Verif.Props.C110_nested",
    "Verif.Props.C110_all"
   ],
   "note": "C110_read: what is delivered for a class is its file; C110_content: what the sink has; C110_restored: reading it, for classes as C67 asks (Copyable); C110_nested: the same for classes as C96 asks, whose bootstrap methods may have dynamic arguments; C110_all: existence of the copy of a whole stream. Spec/Transfer is the program; the restriction to Regular classes is that of C67, stated in the property."
  },
  {
   "property": "C111",
   "status": "proved",
   "theorems": [
    "Verif.Props.C111_class",
    "Verif.Props.C111_rewritten",
    "Verif.Props.C111_copy",
    "Verif.Props.C111_code",
    "Verif.Props.C111_type",
    "Verif.Props.C111_signature",
    "Verif.Props.C111_string",
    "Verif.Props.C111_string_tight",
    "Verif.Props.C111_unchecked",
    "Verif.Props.C111_unchecked_code",
    "Verif.Props.C111_unchecked_copy",
    "Verif.Props.C111_deep"
   ],
   "note": "C111_class: Class.write; C111_rewritten: a copy, with C66; C111_copy: against the input, with C106; C111_code: a method body with the pool; C111_type, C111_signature, C111_string: texts; C111_string_tight: a family that needs the factor two; C111_unchecked, C111_unchecked_code: the writers that wrap; C111_deep: a family that shows why the factor is large. The factor 8192 is not claimed to be the least. C111_unchecked_copy: reading and writing without overflow checks, against the size of the file."
  }
 ]
}