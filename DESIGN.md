# Formal model of coffer: design

Subject: `fee1-dead/coffer` as pinned in `/repo` (crates `coffer`, `wtf8`, `coffer_macros`).
Prover: Lean 4.33.0. Everything lives in `lean/Verif/`.

## Trusted base

* The Lean 4 kernel.
* Axioms: at most `propext`, `Classical.choice`, `Quot.sound` (the three standard ones). No
  own axioms, no `sorry`, no `native_decide`, no `bv_decide`.
* The faithfulness of the hand-written model: every model definition cites the file and lines
  it models and says where it simplifies. The code itself was never built or run.
* The meaning given to Rust constructs (below) and to the small specifications in
  `Verif/Spec/*` (JVM specification tables, WTF-8 and modified UTF-8 definitions).

## Modelling conventions

| Rust | Lean |
|---|---|
| `u8/u16/u32/u64` | `UInt8/UInt16/UInt32/UInt64` (or `Nat` with an explicit overflow test where the code adds) |
| `i8..i64` | `Int8..Int64` |
| `f32/f64` constants | their bit patterns (`UInt32/UInt64`) |
| `&[u8]`, `Vec<u8>`, stream | `List UInt8` |
| `impl Read` | `List UInt8 → Except Err (α × List UInt8)`; running out of bytes is `Err.io` (sources that deliver in pieces, are interrupted or fail are modelled for C101 only, which reduces them to this) |
| `impl Write` | the list of emitted bytes (failures of the sink, and output emitted before an `Err`, are modelled for C75 only) |
| `Result` | `Except Err` with coarse error classes; only `AttributeLength` carries its contents |
| panic (`unwrap`, index out of range, arithmetic overflow) | the error value `Err.panic` (overflow is modelled as in a build with overflow checks; `Model/Release` has five places, `Model/ReleaseRead` all of `Class::read_from` and `Model/ReleaseWrite` all of `Class::write_to`, as in a build without, in which it wraps) |
| `HashMap`/`IndexMap` | association lists / functions; iteration order is not assumed unless the type guarantees it |
| `Wtf8Str`, `Wtf8String` | their bytes; well-formedness is a predicate |
| `char`, `Codepoint` | `Nat` |

Stack depth (except for C78 and C84), memory exhaustion (except for C85 and C106) and running time are not modelled.

## Not modelled

`src/code/gen_stack_map.rs` (not part of the compiled crate), derived `Debug` formatting, `Hash` impls
except as stated for C27, C61 and C74, allocation APIs of `Wtf8String`
(`reserve`, `shrink_to`, …), `access.rs`-style plumbing. Of `coffer_macros` the choices are modelled (which fields in which order,
with which implementation, which tags and names, which declarations are refused, what the attributes
configure), not the parsing of tokens by syn, nor the printing of tokens.

## What is modelled

| Code | Model |
|---|---|
| `wtf8/src/lib.rs` (validation, code points, slicing, surrogates, UTF-16, lossy conversions) | `Model/Wtf8` |
| the rest of `wtf8/src/lib.rs`: `Codepoint`, ASCII helpers, `Ord`, `Hash`, `size_hint`, `Display`, `Debug` (for any `char::escape_debug`), `Extend`, `FromIterator`, `clone_into`, `decode_surrogate_pair`; programs of safe calls | `Model/Wtf8Api` |
| `src/mod_utf8.rs` | `Model/Mutf8` |
| `src/rw.rs` numbers, strings, default methods of `ConstantPoolReader`/`Writer`; `src/helper.rs` vectors | `Model/Rw`, `Model/Cp`, `Model/Io` |
| `src/ty.rs`, `src/signature.rs` | `Model/Ty`, `Model/Signature`, `Model/Depth` (for a limited depth of calls) |
| `src/cp.rs`, `src/dynamic.rs`, `src/loadable.rs` | `Model/Cp`, `Model/Misc` |
| `src/flags.rs`, `src/version.rs`, `src/total_floats.rs`, `JumpCondition` | `Model/Misc` |
| `src/code.rs:610-746` frames and verification types | `Model/Frame` |
| the instruction tables and `code.rs` instruction conversion | `Model/Opcodes`, `Model/Insn`, `Model/Instr` |
| `Code::write_to`, the assembly of the body | `Model/Asm` |
| `src/annotation/` | `Model/Annotation` |
| `Code::read_from`, the exception table and attributes of `Code::write_to`, `code/structure.rs` attributes | `Model/Code` |
| `src/attr.rs` (class attributes), `src/module.rs`, `src/member.rs` fields and parameters, `dynamic.rs` tables | `Model/Attr` |
| `src/member.rs` methods, `src/clazz.rs` | `Model/Class` |
| `clazz.rs:71-133` on a class whose cells share the table (`cp.rs:184-200`, `dynamic.rs:77-80`) | `Model/Shared` |
| `ty.rs:92-151`, `cp.rs:157-168`, `cp.rs:218-229`, `clazz.rs:110-129` in a build without overflow checks | `Model/Release` |
| `clazz.rs:44-69` and everything it calls in which something can overflow (`signature.rs:173-200`, `ty.rs:73-151`, `insn.rs:39-49`, `code.rs:164-206`, `cp.rs:157-168`) in a build without overflow checks | `Model/ReleaseRead` |
| `clazz.rs:71-133` and everything it calls in which something can overflow (`cp.rs:218-229`, `code.rs:388-511`, `code.rs:556-606`, `type_annotation.rs:60-81`) in a build without overflow checks | `Model/ReleaseWrite` |
| `rw.rs:22-362`: the provided methods of the pool traits over any implementation (not those of the `Code` wrappers: `label`, `catch`, `get_label`, `get_catch`); the wrappers `code.rs:50-57`, `code.rs:493-502` | `Model/Traits` |
| `Display` of strings (`wtf8/src/lib.rs:167-191`), types (`ty.rs:251-288`) and versions (`version.rs:56-111`) with options | `Model/Format` |
| `coffer_macros/src/derive.rs`: the code generated from a declaration, for any crate | `Model/Derive` |
| `coffer_macros/src/derive.rs:1-154`: what the attributes configure | `Model/DeriveConfig`; attributes are given as syn parses them (path, list, name and value); types in strings are parsed by a function given from outside |
| the declarations of coffer with `derive(ReadWrite)`, `derive(ConstantPoolReadWrite)`, `derive(AttributeEnum)` | `Model/Decls`; what the macros make of them is written out by hand in the other models with the combinators of `Model/Io`, and `Props/Decls` proves that it is what `Model/Derive` generates (not for `Instruction`, `Wide`, `SwitchEntry`) |
| codecs that no class uses: `ConstEntryRef` (`cp.rs:16-53`), numbers as constants (`rw.rs:492-529`), `MethodHandle` and `MethodHandleKind` (`loadable.rs:15-37, 142-165`), `MemberRef` by itself | `Model/Single` |
| the functions that make instructions, types and constants (`structure.rs:327-376`, `ty.rs:50-88`, `loadable.rs:199-221`, `dynamic.rs:106-137`) | `Model/Build` |
| `dynamic.rs:82-104` comparing and hashing, with shared cells | `Model/Heap` |
| `clazz.rs:71-133`, `cp.rs:208-214` as a sequence of requests to the sink | `Model/Sink` |
| `Class::read_from` with an allocator that may refuse | `Model/Memory` |
| `Class::read_from` as a sequence of requests to the source; `read_exact` as the standard library provides it (a source with its own `read_exact` is trusted to do the same) | `Model/Source` |
| `clazz.rs:71-133` as a sequence of requests to a `Write` with a state; `write_all` as the standard library provides it (a sink with its own `write_all` is trusted to do the same) | `Model/Push` |

Writers are functions from the constant pool under construction to bytes and a new pool. Readers get
the pool of the class and thread the pending dynamic references and the labels handed out. The
specification side (`Spec/Fmt`) is a set of relations "these bytes are the layout of this value in
this pool"; a writer theorem says that the bytes written satisfy the relation in every later state of
the pool, a reader theorem says that bytes satisfying the relation, whoever wrote them, are read as
that value.

Remarks on the model of classes:

* A class that has been read contains cells that share their content with the bootstrap table
  (`Arc`/`OnceCell` in the code). In the model such a cell is `Cell.pending k`, a reference to entry `k`;
  the specification resolves it with the table (`resolveD`, `resolveArg`). Tables whose entries refer to
  each other in a circle can be expressed in this form.
* The order in which `Code::read_from` enumerates its hash map of local variables is a parameter (`Order`)
  of the reader; the theorems hold for every choice, which may differ between methods.
* Bounds on strings (what a constant pool can hold, C12) are stated on the value that is written
  (`AllClass Fitting`), not on the pool.
* `writeBatches` tests a decreasing measure that the Rust loop does not have.

## Plan per property

How each property will be expressed and proved. "violated" means that the pinned code does not
have the property; then the negation is proved with a concrete witness and the strongest true
part is proved with the suffix `_partial`.

| Id | Model | Proof plan |
|---|---|---|
| C01 | `validate_wtf8` as a recursive function over the bytes with the carried flag and the error value | induction over the code point sequence; one lemma per encoded length |
| C02 | same; violated | exact characterisation of the accepted language by functional induction, witness `ED A0 41` |
| C03 | `next_code_point` with an explicit out-of-bounds outcome | decoding lemma per length; induction over accepted byte strings |
| C04 | `from_wide` over `decode_utf16`, `encode_wide` with the `extra` field | induction over the units |
| C05 | `push`, `push_char`, `push_wtf8` on bytes | last/first code point of an encoding; UTF-16 homomorphism; induction over operation lists |
| C06 | `is_code_point_boundary`, the `Index` impls, `truncate` | boundary iff prefix of code points, by induction |
| C07 | `next_surrogate` and the lossy loops | loop invariant over code points |
| C08 | both passes of the decoder, the encoder | consequence of C09 and C10 |
| C09 | encoder versus a per-UTF-16-unit specification | per code point case analysis |
| C10 | decoder versus the same specification | invariants for both passes, induction over units |
| C11 | decoder on arbitrary bytes; violated in part | totality of the two passes; witnesses |
| C12 | string `ReadWrite`; violated above 65535 bytes | round trip under the length bound, general witness family |
| C13 | `impl_rw_numbers` | positional arithmetic |
| C14 | `VecLen` with generic element codec | induction over the list |
| C15, C16, C17 | `parse_type`, `write_type`, `Display` | fuel-free recursion on the input; induction on types |
| C18, C19 | the signature parsers and printers | mutual induction on signatures; witnesses for C19 |
| C20, C21 | `VecCp` with explicit cache | invariant over insertion histories |
| C22, C23 | `VecCp::write_to`, `MapCp::read_from` | induction over entries |
| C24, C25 | default methods of `ConstantPoolWriter/Reader` | monotonicity of the pool plus lookups |
| C26 | `resolve_later`, `bootstrap_methods` with a cell store | induction over pending references |
| C27 | `total_cmp` on bit patterns | integer arithmetic |
| C28 | flag sets as masks | bitwise lemmas for all words |
| C29 | `JavaVersion` | case analysis |
| C30 | `MethodHandle::check` | case analysis against a rule set |
| C31 | `JumpCondition` | case analysis against an evaluation semantics |
| C32, C33 | `RawFrame`, `VerificationType` | case analysis, list induction, witnesses |
| C34, C35 | raw instructions, `write_insn`, `convert_direct_instruction` | case analysis against an opcode table of the JVM specification |
| C36 | switch reading and writing | arithmetic on positions |
| C37 | `Code::write_to` layout | invariants over buffers and jumps; witness family for large methods |
| C38 | `Code::read_from` label handling | induction over the reading loop |
| C39 | both | composition |
| C40 | `Code::write_to` | independence of the output from line markers |
| C41 | exception tables | layout theorem of C37 |
| C42 | derived attribute readers/writers | framing lemma |
| C43, C44 | annotations, structured attributes | codec composition over the shared pool |
| C45 | `Class::write_to` against a reader of counts and lengths only (`Spec/Skeleton`) | shape of everything that is written; exact condition, witnesses |
| C46 | the loop over bootstrap methods | table as rounds of bootstrap methods of arguments |
| C47 | `Class` | codec composition; a predicate on writers for what they do to pool and table (`Lemmas/Effect`) |
| C48 | `Wtf8Error`/`Utf8Error` positions | prefix characterisation; violated for encoded pairs |
| C49 | `insert_dynamic`/`bootstrap_methods` | pool invariant plus cell filling; violated past 65536 methods |
| C50 | `CodeTypeAnnotationTarget` with the environment of labels and handlers | layout per target, reading up to renaming of labels |
| C51 | `Code::write_to` | C37 composed with the layouts of tables and annotations |
| C52 | `Code::read_from`; the hash map is enumerated in an arbitrary order (parameter `ord`) | invariants of the label map and of the variable map over the tables |
| C53 | `Method` | codec composition |
| C54 | `Class::read_from` on any bytes | invariant of all readers (`Tame`): errors are calm, a panic needs a feature of the input named in `Hazard`; the depth of the call stack is not modelled, so deeply nested annotations (which overflow it in Rust) are read |
| C55 | both directions; the pool of a file is what `MapCp::read_from` reads | concrete file; codec composition |
| C56 | both directions, cells of a class that was read filled from its table (`Spec/Rewrite`) | concrete file; C47 |
| C57 | `Class::write_to` on any value | invariant of all writers (`Lemmas/Ends`): which errors they give; strings of the pool are strings of the class |
| C58 | `Class::write_to`; constants by content (`Spec/Consts`), not by index | invariant of all writers (`Lemmas/Wr…`): the pool has exactly the constants written so far, and there is room for the rest |
| C59 | the same | the same invariant; concrete class |
| C60 | a machine for sequences of 26 safe calls on a heap of strings (`Model/Wtf8Api`) | refinement of a machine on UTF-16 units (`Spec/Wtf8Api`), one lemma per call, induction over the program; witness `ED A0 41` |
| C61 | byte order, hash input | induction over code points; no byte `FF` in an encoding |
| C62 | iterator states | state after `k` steps by induction |
| C63 | byte maps | bytes below 128 are exactly the ASCII code points |
| C64 | `Wtf8Error` | functional induction over the validator with more input; witnesses |
| C65 | `coffer_macros/src/derive.rs` | induction over declarations as data; types and helpers of the crate are parameters; witnesses |
| C66 | writing a class with shared bootstrap cells (`Model/Shared`, reachability in `Spec/Circular`) | simulation of every writer under a map of pending bootstrap methods (`Lemmas/Sim`); pigeonhole on paths and on table entries; invariant of the loop; witness file |
| C67 | `Class::read_from`, `Class::write_to`, `Class::read_from` | a predicate on readers (`Gives`, `GivesUnder`) for what they return: distinct keys, known flags, bounded tables, placed labels (`Lemmas/Neat…`); then C66 and C47; witness file |
| C68 | `Class::read_from`, `Class::write_to` | as C67, for the conditions of C58 (`Lemmas/FitsCode`, `Lemmas/Storable`): lengths of tables, order of ranges, filled cells; then C66 and C58; witness files |
| C69 | `Code::write_to`, `Code::read_from` against executions (`Spec/Exec`: machines with arbitrary data, control as in the JVMS) | decoding is unambiguous (`Lemmas/Unambiguous`); the layout theorems C51 and C52 give a map of addresses and labels that preserves and reflects instructions, targets and handlers (`Hom`); simulation in both directions by induction over the number of steps |
| C70 | `Class::read_from`, `Class::write_to` | composition of the two directions of C69 through the instruction list; lifted to classes with `classFile program`, class files whose bodies are programs |
| C71 | `ConstEntryRef`, `StrRef` (`Model/Single`), and `ConstEntryRef` as a declaration (`C65_constEntryRef`) | case analysis against the layout of entries; witness: the string `A` |
| C72 | numbers, `MemberRef`, `MethodHandle` with `ConstantPoolReadWrite` | from C20, C25 and C30; exact characterisation of what is read; witness |
| C73 | `Instruction::getstatic` … `if_icmpgt`, `Type::array`, `Type::method`, `Type::reference`, `OrDynamic::map_static` | case analysis against the encodings of `Spec.Enc` and the descriptors of `Spec.Desc`; witness |
| C74 | `Dynamic::eq`, `Dynamic::hash` and the derived impls, on cells with addresses (`Model/Heap`) | the specification is a bisimulation (`Spec/Alike`); induction over the depth, accessibility for termination; witness: two entries that use each other |
| C75 | `Class::write_to` on a sink that may fail (`Model/Sink`) | each sender sends a fixed output: a prefix always, all of it on success; composition; witness |
| C76 | `Class::read_from` on inputs that are cut or continued (`Model/Class`) | two relations between readers, closed under the combinators: `Par` (same input) and `Flows` (longer input); a cut inside what was consumed is an `io` error |
| C77 | `Class::read_from` then `write_to`, with the order of `HashMap::into_iter` as a parameter | C76_order: what is read differs in the order of variables only; witness |
| C78 | `AnnotationValue::read_from` with a limited depth of calls (`AnnValue.readF`) | nested arrays need each depth; every level takes three bytes |
| C79 | `Class::read_from` and `write_to`, twice | C67 gives the second class up to names of labels; the assembler, the pool and the lowering of labels do not depend on these (`body_again`); what reading returns is in the order in which it is written (`read_orderly`) |
| C80 | the signature parsers and printers, also of parts by themselves (`parseSimple`, `parseThrows`, `parseParam`) | mutual induction along the parsers: what they take is what is printed, unless there is `<>` in it (`textT` and others); `cutParams` says what parameters with several bounds are read as |
| C81 | the parsers of attributes in `coffer_macros/src/derive.rs`, on attributes as syn gives them | fold over the items (`foldItems`), each item decided by a relation (`Spec/DeriveConfig`) |
| C82 | reading and writing of bodies; where frames are needed is stated in `Spec/Frames` on instructions at their positions | two descriptions of the same bytes agree (`class_unique`), and the one that is written has no attribute with frames |
| C83 | the loop of `Class::write_to` and `insert_dynamic`; the count with nothing shared is stated in `Spec/Growth` on the table that was read, the number in the file by walking over counts and lengths | each round writes what the arguments of the round before use, and a count of nodes goes down by the length of the round |
| C84 | `get_type` and `ref_type_sig` with a limited depth of calls (`Model/Depth`); the loops over parameters and arguments are not limited | induction over the depth; what one level consumes at least |
| C85 | `Class::read_from` with an allocator that may refuse (`Model/Memory`): the buffers of attributes, code arrays and `tableswitch` tables, whose sizes are given by four bytes; buffers with sizes given by one or two bytes are not modelled | a relation between readers with two allocators, closed under the combinators; witnesses |
| C86 | `Code::write_to`, `Class::write_to` as for C37 and C47 | the tables of labels of two assembly buffers answer alike; last places of labels by induction over the instructions |
| C87 | `Code::read_from` label handling, `Class::read_from` | the table of labels maps to the first numbers (invariant of `get_label`), every entry is placed |
| C88 | `Class::write_to` as for C47; what counts as a table is in `Spec/Tables` | every writer with a checked count succeeds only below the limit, closed under the combinators; elements of annotations by the limit of the constant pool (C58); witnesses |
| C89 | `parse_type`, `MapCp::read_from`, `insert_raw` and the loop of `Class::write_to` without overflow checks (`Model/Release`) | induction on the text, the input, the insertions; the two builds step by step; paths in the table of bootstrap methods; a state of the loop that repeats |
| C90 | `==` of the parts of a class (derived; `HashMap` and `IndexMap` compare as maps), `Class::write_to` | induction over annotation values; two sorted tables with the same entries are equal; C86 |
| C91 | `Display` of `Wtf8Str` and `Type` with options; `Formatter::pad` as documented | the layout is unique; induction on types |
| C92 | `Display` of `JavaVersion` | cases of releases; decimal digits by induction |
| C93 | `Class::read`, then any change of the parts, then `Class::write` and `Class::read` | parts of C67 classes meet the conditions of C47 one by one |
| C94 | `Class::write` on two classes | both are what is read from the file; a table completed from itself is unique, by induction on its size |
| C95 | the provided methods of `ConstantPoolWriter` and `ConstantPoolReader` over any implementation | triples for insertions; a reader in step with the pool it answers from |
| C96 | the loop in clazz.rs:113-121 over tables with dynamic arguments, between two readings | the rounds with numbers in place of references (`Spec/Nested`), written as they are and read back; filled entries are different if the entries are; counting of nested entries |
| C97 | `Class::read_from` on any bytes, the contents of the error | the invariant of all readers of C54 (`Tame`) says which length errors are given and where the attribute is; readers consume a prefix whatever follows (`Local`) |
| C98 | `Class::read_from` as a whole | every reader reads a prefix whatever follows (`Local`), does not look at the cells registered before (`Carries`) and leaves no labels behind (`Unlabelled`); from these, reading a list of parts is reading each alone |
| C99 | `Class::read_from` with two pools | every reader that accepts with a pool accepts the same with a pool that has more constants (`Widens`), by composition over all readers |
| C100 | `Class::read_from`, the attributes of classes, fields, methods and bodies | the cut of C98 is refined to members and bodies; in a body the loop over the attributes is split at the place, and the attribute changes nothing in its state but the list of attributes |
| C101 | `Class::read_from` as a sequence of requests to the source (`Model/Source`) | the requests, answered from a list of bytes, are the reader of the other theorems; induction on the requests and on the answers of the source |
| C102 | `Code::read_from` and its attributes (`Model/Code`, `Model/Io`) | the labels of the attributes come after those of the front; what is rebuilt, filtered by the labels in use, depends on the front only |
| C103 | `Class::read_from` without overflow checks (`Model/ReleaseRead`) | the two builds reader by reader (`Agrees`): equal unless the one with checks panics; files on which they differ |
| C104 | `Class::write_to` without overflow checks (`Model/ReleaseWrite`) | the two builds writer by writer (`IAgrees`): equal unless the one with checks panics; what can go wrong without checks (`Ends`, bootstrap methods counted by `EffW`); classes on which they differ |
| C105 | `Class::read_from` without overflow checks on any input | the proof of C54 (`Tame`) for the readers of `Model/ReleaseRead`; there a run of brackets, a range and the number of an entry cannot cause a panic, the other two features of `Hazard` still can |
| C106 | how much a class holds, against the bytes that were read | `Spec/Bulk` counts nodes and bytes of every value; `Costs` (Lemmas/Bulk) is an amortised bound for readers: what is produced, plus what waits in the reader's state, is paid for by the input that was taken at `16*B+16` per byte where `B` bounds the strings of the pool; the body of a method (labels, line numbers, variables and handlers that are put into the code afterwards) is paid for in `Lemmas/BulkCode`; `Lemmas/ReleaseBulk` repeats the argument for the readers without overflow checks. Not counted: buffers dropped before the reader returns, spare capacity of `Vec`, the copies that share a cell with the bootstrap table |
| C107 | the requests of `Model/Source`, counted (`Spec/Calls`) | credit: every request is paid for with a byte, and the only requests that may be for no bytes follow a number of at least two bytes (`Thrifty`, closed under the combinators); induction on runs |
| C108 | `Class::write_to` as a sequence of requests to a `Write` (`Model/Push`) | the requests are those of `Model/Sink` (C75); induction on the requests and on the answers of the sink; credit for the number of calls as for C107 |
| C109 | programs that write, or read, several classes in one stream (`Spec/Series`) | what a failed `write_to` leaves is a proper beginning of a file, or of a header, and ends too early for `read_from` (C76); induction on the classes with C101 and C108 |
| C110 | a program that copies a stream of classes (`Spec/Transfer`) | as C109, with C67 for each class; a class that was read never makes `write_to` undefined (C66), so that what a failure leaves is a beginning of a file |
| C111 | how long a file is, against what the class holds | `Weighs` (Lemmas/Heft) is an amortised bound for writers: the bytes appended, plus what the new entries of the pool and the bootstrap methods left for later will take (`heft`, Spec/Heft), are paid for by what is written, at 8192 per unit of Spec/Bulk; a round of `writeBatches` pays with what it takes from `bsm`; Lemmas/ReleaseHeft walks over the wrapping writers in the same way |

## Where the code disagrees with a property

| Id | Disagreement | Theorem |
|---|---|---|
| C02 | a high surrogate is accepted with any third byte | `C02_violated` |
| C11 | zero bytes, four-byte forms and ill-formed surrogates are accepted in modified UTF-8 | `C11_violated`, `C11_violated_illformed` |
| C12 | strings of more than 65535 encoded bytes are written with a truncated length | `C12_violated` |
| C16 | text after a complete descriptor is ignored; more than 255 `[` overflow | `C16_violated`, `C16_overflow` |
| C17 | `Display` of a type replaces lone surrogates | `C17_violated` |
| C19 | throws of type variables, interface bounds | `C19_violated*` |
| C23 | a two-slot constant in the last slot of a pool with count 65535 overflows | `C23_violated` |
| C26 | without a `BootstrapMethods` attribute cells stay empty and no error is returned | `C26_violated`, `C26_violated_class` |
| C30 | field handles named `<clinit>`/`<init>` pass, interface flag and void not looked at | `C30_violated*` |
| C32 | `Append` without locals; full frames with more than 65535 entries | `C32_violated*` |
| C33 | tags of long and double exchanged | `C33_violated*` |
| C34 | array creation writes nothing; a static store is written as a load; a pushed dynamic constant cannot be read; arrays of classes such as `Dog` are read as primitive arrays | `C34_violated*` |
| C36 | behind a branch whose size was misjudged, switches are not aligned | `C36_violated`, `C36_violated_far` |
| C37 | a `goto` over more than 32764 bytes is written two bytes longer than declared; a long conditional branch has ten bytes (its 16-bit offset is written with 32 bits) instead of three or eight; with 8192 branches in 24579 bytes a narrow `goto` is written where a wide one was declared | `C37_violated`, `C37_violated_goto`, `C37_violated_conditional`, `C37_violated_crowded`, `C37_violated_small` |
| C39 | of two variables with the same name, index and range one is read | `C39_violated` |
| C40 | line numbers are never written | `C40_violated`, `C40_violated_always` |
| C41 | 65536 handlers and more: their number is truncated | `C41_violated` |
| C42 | an attribute of 2^32 bytes or more is written with a truncated length | `C42_violated` |
| C44 | class signatures with several bounds (C19) | `C44_violated` |
| C43 | a `Class` element value whose name holds a lone surrogate reads back as another class; list counts above 65535 are truncated | `C43_violated`, `C43_truncated` |
| C45 | a table without an attribute `BootstrapMethods` is not counted, an empty or second attribute is counted but not written | `C45_violated*` |
| C46 | bootstrap methods of arguments are numbered from zero again | `C46_violated` |
| C47 | the table of C45 is not read back | `C47_violated` |
| C50 | the parameter of a handler that is not in the exception table is written without its index; a variable range that ends before it starts panics | `C50_violated`, `C50_backwards` |
| C48 | the documented maximality of `valid_up_to` | `C48_violated` |
| C49 | more than 65536 bootstrap methods | `C49_violated` |
| C51 | the number of handlers of C41 | `C51_violated` |
| C53 | the static store of C34 | `C53_violated` |
| C54 | impossible `tableswitch` bounds, a line number for a position that is no instruction, a variable range beyond 65535, 256 brackets and the pool of C23 panic | `C54_violated*` |
| C55 | the constant pool is built anew, attributes that are not known keep the old indices (`PermittedSubclasses`, `Record`) | `C55_violated` |
| C56 | every dynamic constant and call site adds a copy of its bootstrap method to the table | `C56_violated` |
| C59 | equal dynamic constants and call sites are not shared: each use has its own bootstrap method and entry | `C59_violated` |
| C60 | `from_bytes` accepts `ED A0 41` (C02); the slice `..2` of it is read past its end, and `as_str` gives a `&str` that is not UTF-8 | `C60_violated`, `C60_text_violated` |
| C60 | `decode_surrogate_pair` is public and safe, but two units from `DC00` on give a code point above 10FFFF, which is undefined behaviour | `C60_pair_violated`, `C60_decodePair` |
| C64 | `error_len` reaches beyond the input (`E1 41`) or includes ASCII (`C3 41`) | `C64_violated`, `C64_swallow_violated` |
| C65 | tags ignore discriminants that are not integer literals (derive.rs:335-352, against lib.rs:18-20) | `C65_enum_violated` |
| C65 | with the raw variant before others, those are read with the helpers of the variant before (derive.rs:210-247) | `C65_attr_violated` |
| C66 | bootstrap tables with circular references are read (against dynamic.rs:51-53); a class with such a table cannot be written: the loop in clazz.rs:113-121 runs until the table is full and, without overflow checks, for ever | `C66_violated`, `C66_circular_partial` |
| C67 | a method that stores into a static field loads from it after reading and writing (C34); further losses are those of C37, C40, C45, C46 and C55 | `C67_violated` |
| C68 | a call site or dynamic constant in a class without `BootstrapMethods`, or an empty `tableswitch`, is read but writing it panics | `C68_violated`, `C68_violated_table`, `C68_violated_switch` |
| C69 | a store into a static field is run as a load | `C69_violated` |
| C70 | a method that stores into a static field does not after reading and writing | `C70_violated` |
| C71 | a borrowed string is written with the tag 0 and without its length (cp.rs:27-36); no reader accepts it | `C71_violated`, `C71_string_lost` |
| C72 | a method handle in the constant pool is not checked, neither when it is written nor when it is read | `C72_violated` |
| C73 | `Type::array(0, t)` makes an array of no dimensions, which is written like `t`; `Type::array` panics past 255 dimensions | `C73_violated`, `C73_array_panics` |
| C74 | comparing (also hashing, printing) dynamic constants of a class whose bootstrap methods use each other does not end | `C74_violated`, `C74_circular_partial` |
| C75 | a class that cannot be written has already had its first eight bytes written | `C75_violated` |
| C77 | the output for a class with two local variables in a method depends on the random seed of a `HashMap` | `C77_violated` |
| C78 | nested annotation values make the reader recurse as deep as the input says | `C78_violated`, `C78_deep` |
| C79 | a class with a call site grows with each copy | `C79_violated` |
| C80 | text after a signature, `<>`, thrown type variables | `C80_violated*` |
| C81 | `#[tag = n]` (lib.rs:56, 63) is never looked at; of two tags the last counts; `tag_type(a::b)` is ignored (derive.rs:66-69, 109-115) | `C81_violated*` |
| C82 | frames are ignored when code is read (code.rs:208-209) and none are generated when it is written, although structure.rs:268-271 says so | `C82_violated` |
| C83 | entries used by an entry are written again for every use of it (clazz.rs:113-120, rw.rs `insert_dynamic`), so a chain in which each entry is used twice is written in exponential size, or not at all | `C83_violated`, `C68_violated_doubling` |
| C84 | nested descriptors and signatures make the parsers recurse as deep as the text says | `C84_violated`, `C84_reached`, `C84_signature_violated` |
| C85 | buffers are requested with the length the file claims, before the bytes are known to exist (derive.rs:234 and 258, code.rs:80, insn.rs:43) | `C85_violated`, `C85_reached`, `C85_attribute_reached`, `C85_header` |
| C88 | the numbers of interfaces, fields, methods, attributes of classes and bodies, handlers, values of arrays, bootstrap methods and their arguments are cut to 16 bits (clazz.rs:91, 95, 99, 103, 116; code.rs:521, 604; annotation/mod.rs:203; dynamic.rs:40) | `C88_violated`, `C88_unchecked`, `C88_exact` |
| C89 | without overflow checks the number of dimensions wraps (ty.rs:118), the number of the next entry of a pool wraps so that the loop goes on (cp.rs:164), indices of constants repeat (cp.rs:224), and the loop over bootstrap methods never ends for some classes that were read (clazz.rs:113-120) | `C89_violated`, `C89_array_lost`, `C89_overwritten`, `C89_shared_index`, `C89_forever` |
| C90 | the elements of an annotation are written in the order of a `HashMap` (annotation/mod.rs:244-247), so equal classes, and the same program in two runs, give different files | `C90_violated` |
| C91 | options of `format!` are ignored for strings with a surrogate (wtf8/src/lib.rs:173-178, 183-187) and are applied to the brackets of an array type alone (ty.rs:267) | `C91_violated`, `C91_string_violated`, `C91_other_type` |
| C93 | a method with a call site that is put into a class without `BootstrapMethods` is written with a table that is not counted (as C45) | `C93_violated`, `C93_without_table` |
| C94 | classes with a static store and with a static load are the same file (C34) | `C94_violated` |
| C103 | without overflow checks the number of entries of a table switch (insn.rs:42), the end of the range of a local variable (code.rs:166, 189) and the dimensions in descriptors and signatures wrap, so files on which a build with checks panics are read as something else | `C103_violated`, `C103_violated_switch`, `C103_violated_range`, `C103_violated_brackets` |
| C104 | without overflow checks the length of the range of a variable (code.rs:562 and 573, type_annotation.rs:69-80), the greatest key of a switch without offsets (code.rs:445), the index of a constant (cp.rs:224) and the numbers of attributes and bootstrap methods wrap, so that classes are written on which a build with checks panics; one with a type annotation on a variable that ends before it begins is written as a file that cannot be read |
| C105 | without overflow checks a `tableswitch` with a count that is negative with 32 bits (also one from 0 to 2^31-1, which has 2^31 targets) and a line number for a position that is not an instruction still make `Class::read_from` panic |
