# Formal model of nature-lang/nature in Lean 4

## Trusted base

* The Lean 4.33.0 kernel, and the three standard axioms `propext`, `Classical.choice`, `Quot.sound`.
  No other axiom is declared; there is no `sorry`, `admit`, `native_decide`, `bv_decide`, `implemented_by` or `unsafe`.
  Every property theorem's axioms can be printed with `#print axioms`.
* The reading of the source. Nothing in `/repo` is run. Every model definition cites the file and lines it models
  and states its simplifications in its doc comment.
* The specifications in the `Spec`/`Props` files: small definitions a reader checks against `properties.jsonl`.

## Conventions

* One directory per area under `lean/Verif/`: `Model.lean` (the code), `Lemmas.lean` (proof engineering) and
  `Props.lean` (the property theorems, with a satisfiability `example` beside each).
* Undefined behaviour, `assert` failures and thrown errors are distinct outcomes of the model, never silently totalised.
* Sizes are unbounded `Nat` unless the property is about wrap-around; machine words appear where the code depends on them
  (slot tags of the hash table, mutex state word, encoders).
* When the code violates a property, the negation is proved with a concrete witness (`…_counterexample`) and the
  strongest true fragment is proved as `…_partial`. The list of such disagreements is at the end of this file.

## What is modelled, and how each property is proved

| id | model | proof |
|----|-------|-------|
| C01 | `utils/bitmap.h` over lists of bytes, byte for byte, mask cases included | pointwise characterisation of the resulting bits, by case analysis on masks and induction on whole bytes |
| C02 | `calc_sizeclass` with its table | finite table checked completely by kernel computation, lifted to the `∀ size ≤ 32768` statement |
| C03 | `chunk_summarize` over a page bitmap split into 64-bit words | loop invariant on the run scanned so far; spec = longest/leading/trailing free run of a boolean list |
| C04 | `merge_summarize` over a list of child summaries | homomorphism: summary of a concatenation; induction over children and levels |
| C05 | in-chunk first-fit search | loop invariant |
| C06 | `page_alloc_find` on the level structure | soundness by descent induction; the level-0 bound is checked against the address width (disagreement recorded) |
| C07 | `fixalloc` as a state machine over addresses | invariant: free list, live set and bump region partition the acquired chunks |
| C08 | `gcbits` bump allocator, one atomic fetch-add per step, any number of threads | invariant on granted ranges; epoch invariant |
| C09 | `arena_bits_index` and range handler on `Nat` addresses | arithmetic (monotone injective index map) + C01 |
| C10 | span slot allocator + sweep as a state machine | invariant by induction over histories |
| C11 | `sweep_span` loop | fold invariant against `filter`/`count` |
| C12 | mark loop as a transition relation over a heap graph (any service order) | invariant (marked ⊆ reachable; frontier closed) + termination measure |
| C13 | interleaving semantics of mutator and collector with the code's barrier | counterexample trace for the full claim; invariant proof for the fragment that holds |
| C14, C15 | heap of element arrays + vec headers | refinement to `List`; frame lemmas for aliasing |
| C16, C17 | hash table slots (empty / live / tombstone), data arrays | refinement to a finite map through a probe-chain invariant; abort outcome explicit |
| C18 | key image functions (`itoa`, C-string truncation) | injectivity theorems + collision witness |
| C19 | set operations as coded | counterexamples; delete-free fragment refined |
| C20 | byte-wise comparison functions | equivalence with the lexicographic order on lists |
| C21–C23 | channel state machine, one lock-protected section per step | refinement to an abstract queue with wait lists; lock-trace analysis for select |
| C24 | mutex as an interleaving system of the code's atomic steps, arbitrarily many threads | inductive invariant |
| C25 | sentinel-terminated linked list over a node heap | refinement to `List` |
| C26, C27 | functional model of the array algorithms of `vec.n` | permutation + sortedness by loop invariants; binary-search invariant |
| C28–C31 | string library functions over byte lists | equivalence to list specifications |
| C32, C33 | encoders/decoders over bytes | round-trip theorems |
| C34 | io buffer over the vector memory model | refinement to a byte queue |
| C35 | path base, dir, join over the string model | exact characterisation; laws on components; counterexamples |
| C36 | move_one / parallel_moves / handle_parallel_moves over move lists and location → value machines (ParMove) | simulation: sequential execution = parallel assignment; three counterexamples |
| C37 | resolve_blocked / resolve_mappings / block_insert_mov with register counters (Resolve) | invariant over the work list; slot-swap counterexample |
| C38 | range lists, use lists, blocks: interval_covered / add_range / define / split_at / next_intersect / is_intersect / expired (Ranges) | membership semantics; two-pointer merge by strong induction; gap counterexample |
| C39 | ULEB128 field patching | arithmetic on base-128 digits |
| C40 | iteration cursor over the data arrays of a map | permutation of the abstract map after any history |
| C41 | pool of small strings keyed by C strings | pool invariant over histories; NUL counterexample |
| C42 | `successful` flag of the channel model | invariant over all histories (refutes the property) |
| C43 | receive case with null message pointer | concrete history (refutes the property) |
| C44 | pass 1 of `rt_chan_select` over the channel model | induction over the case list under the C21 invariant |
| C45 | same model as C24 | the C24 invariant plus: an unsatisfied permission always has an active coroutine; an unlocked word with waiters always has an unlocker that will still wake somebody |
| C46, C48 | state machine of `url.n` `parse` over the byte list (`Verif/Url`) | one lemma per parser state, from the last state backwards |
| C47 | `query`, over the string library model | splitting glued separator-free pieces gives the pieces back; fold over the pairs |
| C49 | std/io/buf.n reader completely, over an arbitrary underlying reader (a function of a state and a request length); buffer as a list of fixed length, slices of it as index pairs (Verif/BufIo/Model) | the source is wrapped to log its bytes; invariant log = given ++ unread carried through every operation; counterexamples for slice aliasing and the empty read |
| C50 | as C49; lines specified by cutting after each newline and removing the line end (Verif/BufIo/Spec) | inductive predicate for sources that feed a given text in any chunks; induction over read_line calls; counterexample for every buffer size when a line does not fit |
| C51 | std/io/buf.n writer completely, over an arbitrary underlying writer that may take fewer bytes or fail; loops with fuel, any fuel allowed | invariant log ++ pending = accepted, prefix property after an error; termination when each write makes progress; counterexample for a writer that takes nothing |
| C52 | `Fmt/Model.lean`: `itos_with`, `utos_with` and the two hexadecimal conversions; N-bit values are integers in range, negation wraps | signed loop = unsigned loop, value of the digit list by induction; `Fmt/Show.lean` |
| C53 | `Fmt/Model.lean`: `sprintf` on the bytes that remain of the format; the text of floats is a parameter | induction over the pieces of the format against the relation `Printed` |
| C54 | `Fmt/Scan.lean`: `sscanf` on the bytes that remain; `%f` is a parameter | each item is read whole (wrapping arithmetic is exact modulo 2^N), separators match themselves; induction over the layout |
| C55 | `Verif/Json/Model.lean` | grammar of RFC 8259 in `Spec.lean`; the parser accepts exactly it: soundness and completeness by induction on the depth, the fuel and the derivation (`Utf8`, `Strings`, `Numbers`, `Values`) |
| C56 | `Verif/Json/Model.lean` `serialize` | the text written is a derivation in the grammar (`RoundTrip.lean`), then C55 |
| C57 | `Verif/Json/Model.lean` `Reader` | a derivation of a nested value leaves the state of the scanner as it was; composition of quiet runs (`Reader.lean`) |
| C58 | `Json/Typed`: `des`/`ser` by recursion on the type, memory as cells (a vector knows whether its element size is set), `f64` as a structure of operations | `Json/TypedProofs`: mutual induction on types and fields, loop invariants for vectors, maps and structs; `f64` exact up to 2^53 is a hypothesis with an instance; negations for nested containers and large integers |
| C59 | types as a mutual inductive; sizes, alignments, the recursive gc-bits functions with their running offset, bitmaps as bytes, scan_global (TypeLayout) | `PtrAt` says where pointers are; mutual induction over types that the bits set are exactly those; composed with C09 for heap objects |
| C60 | align_up with its mask, type_sizeof/type_alignof/type_*_offset (TypeLayout) | CLayout relation; induction over the fields |
| C61 | ssa_domers with its rounds and counters, calc_imm_domer (Ssa) | paths as an inductive relation; the fixed point is the intersection over paths (induction over paths and over rounds); termination by the total size of the sets |
| C62 | ssa_use_def, ssa_live with its uint8_t counter (Ssa) | `LiveAt` inductive over paths; soundness as invariant, completeness by induction over `LiveAt` at the fixed point; termination by growing sets |
| C63 | ssa_df, ssa_add_phi, ssa_rename_block with number stacks (Ssa) | small-step semantics with arbitrary operations before and after; forward simulation over any number of steps; the dominance argument (a definition that reaches a join makes a phi function) by induction over the dominator tree |
| C64 | as C63, numbers and stacks with their widths | counting invariant of the renaming walk; success by showing every live variable has a number |
| C65 | cfg_build, cfg_pruning, cfg_merge_blocks, broken_critical_edges with their in-place updates (Cfg) | small-step semantics of labelled code and of graphs with arbitrary operations; each pass keeps an invariant (`Good`) and is a simulation in both directions |
| C66 | as C65 | `Consistent` stated from the blocks alone; closed forms of each in-place update; the critical edges left by the loop are characterised exactly |
| C67 | return_check, ret_check (Cfg) | depth first search with visited set against inductive paths: exact for returns, sound for match results |
| C68 | scanner_ident, scanner_rest (Scan) | the switch is an explicit function; exact characterisation by a table, both directions |
| C69 | scanner_string_advance (Scan) | elements with text and value; induction over the elements; every byte text has a literal |
| C70 | scanner, scanner_item, scanner_skip_space, numbers, symbols, statement ends (Scan) | `Source` describes a text by tokens and gaps; induction over it; suffix lemmas for termination and memory safety |
| C71 | parser_precedence_expr, its table and the functions in it (Parse); parser_type is a parameter | `Writes` is the grammar with binding levels, relative to the tokens that follow; induction over it with fuel bounds; unambiguity as a corollary |
| C72 | the same functions | outcomes error, crash, endless are explicit; induction on fuel: never crash, never endless, for sources without the two traps |
| C73 | strtoll/strtoull/atoll as used by infer_literal, integer_range_check and linear_literal (Literal) | the number of a decimal text is defined by its digits; case analysis over the types; linked to the scanner's tokens (C70) |
| C74 | analyzer_constant_folding over the expressions of Parse, with C's undefined and trapping operations as outcomes; floats are a parameter | `Means` gives mathematical values; induction over it; run-time semantics on 64-bit words, induction over the folded expression |
| C75 | all 281 rows of the instruction table, operand keys, selection, filling and byte order (Amd64) | an independent decoder written from the processor manual; a finite check by the kernel that every key path selects a row with the right opcode and operand forms, then lemmas for all register numbers, displacements and immediates (ModRM, SIB, REX, little endian) over the nine operand patterns |
| C76 | both passes over the instructions of a module: symbol table, short and long branches, relocation entries (Branch), on top of the encoder of C75 | invariants of the symbol table over the entries (a label behind is known with its address, a label ahead is not in the table), arithmetic of branch distances, and a lemma that an encoding depends on its displacement only in the four bytes at the relocation's place; reading back with C75's decoder |
| C77 | linear.c's lowering of expressions, statements, match, catch, try, loops and defer to LIR as a compiler function with its stacks of labels and scopes; a small-step machine for LIR with the coroutine's error flag (Linear.Model); source meaning as an interpreter written from the language (Linear.Spec) | forward simulation by induction on the compiler's recursion, with label uniqueness, frames of temporaries, and the pending deferred blocks of each exit as part of the invariant |
| C78 | same | corollary of C77 with a lemma about leaving a block |
| C79 | Abi.Mach: a machine with registers, variables and byte memory, and the moves, lea, push and stack allocation the lowering emits; Abi.Sysv, Abi.Win, Abi.Arm, Abi.Rv: classification, placement, the code before the call and at function entry. Abi.Spec: what caller and callee agree on | a transfer theorem for any list of items each read from its own cells (Abi.Transfer), then injectivity of the placement of arguments by induction over the parameter list |
| C80 | same; lower_return and the code after the call | by cases on the class |
| C81 | the classification of the System V psABI written separately over the list of scalars with their offsets (Abi.SysvConf: leaves, eightbyte, abiCls) | induction over nested fields; three counterexamples |
| C82 | Consts.Model: the names of constants, the tables that share them, symbols, the data section; fmov immediates. Consts.Spec: the bytes of a constant; VFPExpandImm | injectivity of the names on the admitted constants, invariant of the tables (C83), placement without overlap; arithmetic for fmov |
| C83 | Table.Model: utils/table.c with entries, deleted entries and growth; the hash function is a parameter | invariant: every key is reachable from its place without passing an empty entry, once; an empty entry always exists |
| C84 | `Verif/Sched/Model.lean`: the operands of instructions with the variables and registers they use and define, the dependency graph, latencies, scores and priorities, the ready queue, segments and blocks (schedule.c); `Verif/Sched/Spec.lean`: places, states and meanings of instructions | the loop's counters are the numbers of open dependencies (invariant), so it ends in a topological order; instructions that touch the same place are connected by dependencies (last-definition and last-use tables, invariant); permutations that keep the order of dependent instructions give the same state (`reorder`) |
| C85 | Verif/Arith: integer expressions, LIR of linear.c, lowering and instruction selection of amd64, arm64, riscv64, and the instructions as functions on 64-bit registers (bit vectors) | induction on the expression with an invariant on the upper bits of registers; each operation of each target against arithmetic on Int (Wide.lean, *Proof.lean); Props.lean. Partial: assumptions per target (`Ok`); ten expressions that come out wrong |
| C86 | `Verif/Riscv/Model`: the encoder of riscv64 with its compressed forms, function by function | `Verif/Riscv/Spec`: a decoder for RV64IMFDC written from the manual, a machine whose memory and floating point are parameters, and the meaning of each request. Fields of 32-bit words by arithmetic; 16-bit forms by the kernel over all registers and immediates; numbers by induction on their size |
| C87 | `Verif/Alloc`: the walk of the linear scan allocator with splitting, spilling, eviction, hints, stack slots and inserted moves; lookup of the place of an operand | invariant over all rounds of the walk (geometry of the parts of a variable, lists, registers, slots), then lookup; counterexample for loops without calls |
| C88 | `Verif/Alloc/Code.lean`: operations on variables and on registers and frame bytes, with the moves of a position behind its operation | simulation position by position from C87; counterexample for a save that follows the call which destroys its source |
| C89 | `Verif/Arm64/Model`: the macros of asm.h, the table that picks a handler by operand kinds, and every handler | `Verif/Arm64/Spec`: a decoder for A64 words and a machine written from the Arm manual, the assembly language with its meaning and its limits. `Fields`: an or of shifted fields is decoded into these fields, by arithmetic; one lemma per instruction, all registers and numbers at once |
| C90 | `Verif/Types/Model`: the comparison of two types with its set of names already met, and the decision on an expression where a type is expected | `Verif/Types/Spec`: `Same`, an inductive equivalence of types, and `Ok`, what may be put where. `Complete`: same types compare as equal, by mutual induction; `Accept`: everything `Ok` is accepted; `Sound`: what is accepted is `Ok` if only the outermost part of the target is a union, ptr or interface |
| C91 | `Verif/Types/TagModel`: the text of a type, its hash, the table of types, and the functions that put a value into a union, an any or an interface and get it out | `Verif/Types/TagSpec`: what names and types a program can have. `TagLemmas`: the texts can be read back, so equal hashes mean equal types, by induction on the type, if no two texts of the program clash; `TagTable`: a type finds its own entry; `TagProps`: recognition, round trip and room |
| C92 | `Verif/Arena/Model`: the arena with its linked blocks in memory, 64-bit arithmetic, and a heap that gives and takes back regions | `Verif/Arena/Spec`: regions, what malloc promises, what is sound. `Lemmas`: an invariant with the list of blocks and the bound of the last allocation, kept by each operation; `Props`: induction over histories |
| C93 | `Verif/Merge/Model`: all of ld_elf_merge.c (the hash table as a list) and the adjustment of addends | `Verif/Merge/Spec`: what a string or a constant of a section is. `Lemmas`: the split of a section is exactly its entities, each mapped to an equal fragment at least as aligned; `Layout`: the layout keeps fragments apart and aligned; `Props`: both together through the writes |
| C94 | `Verif/Relax/Model`: all of ld_elf_riscv_relax.c | `Verif/Relax/Spec`: directives, no-operations, what an alignment stands for. `Lemmas`: the laid-out regions form a chain; map and output by induction over it; `Props` |
| C95 | `Verif/Reloc/Int` (wide integers, byte access) and `RvModel` (riscv64 part of ld_elf_relocation_apply) | `Bytes`, `RvSpec`: table of the psABI. `IntLemmas`: the sign-magnitude integers compute in ℤ; `RvFields`: each field bit by bit; `RvMain`: exactly when a relocation is applied; `RvProps` |
| C96 | `Verif/Reloc/ArmModel` (arm64 part of ld_elf_relocation_apply) | `ArmSpec`: table of the ABI. `ArmFields`: each field bit by bit; `ArmMain`: for each relocation, exactly when it is applied and what it shows then; `ArmProps` |
| C97 | `Verif/Reloc/X86Model` (amd64 part of ld_elf_relocation_apply) | `X86Spec`: table of the ABI; `X86Main`: exactly when a relocation is applied and what it shows; `X86Props` |
| C98 | `Verif/Reloc/X86RelaxModel` (rewriting of amd64 sequences, pairing) | `X86RelaxSpec`: decoder and effect of the instructions concerned. `X86RelaxMain`: which bytes change and how they decode; `X86RelaxProps`: state after the rewritten bytes = state after the original ones |
| C99 | `Verif/Reloc/ThunkModel` (ld_elf_thunk.c and planning, layout, emission in ld_elf.c) | `ThunkSpec`: a processor with B, BL, ADRP, ADD, BR. `ThunkLay`: layout invariant; `ThunkPlan`: what a plan guarantees, and a potential (number of branches with an entry) for convergence; `ThunkCpu`: encoded thunks; `ThunkWrite`: bytes; `ThunkProps` |
| C100 | `Verif/Peephole/Model` (src/peephole, for one block) | `Lir`: meaning of instructions, with an arbitrary meaning of everything the pass does not look into. `Sim`: agreement outside of dead variables is kept by each instruction; `Arm`, `ArmPass`, `Amd`: each rewrite rule keeps it and only adds a dead variable without further uses; `Props`. Not modelled: fused operations of floating point numbers whose addend needs a fresh temporary |
| C101 | `Verif/Sha/Model` (src/ld/sha256.c) | `Spec`: FIPS 180-4 written as a relation; the constants are described by roots of the first primes, the schedule and rounds by recursion. Invariant: the context after the bytes `m` holds the hash of the full blocks and the rest; the specification is shown to leave one digest per message |
| C102 | `Verif/Global/Model` (src/semantic/global_eval.c on the layout of C60 and the numbers of C73; the part of runtime/memory.c that mends variables of a union type) | `Spec`: `Val`, `Denotes` (what an initializer means) and `Holds` (what bytes mean). Frames by mutual induction over types and initializers; loops write disjoint places, so each keeps what it has written; induction over `Denotes` |
| C103 | `Verif/Inflate/Model` (src/ld/ld_elf_zlib.c: bit reader, Huffman trees, dynamic headers, matches, blocks, Adler-32, header and trailer; every array access checked) | `Spec`: RFC 1950/1951 as relations between bits and data. `Exact`: a step of the decoder succeeds if and only if something is related, and gives just that; kept by binding. Canonical codes: sums of weights (Kraft), ranks of symbols. Fuel is bounded by the bits left |
| C104 | `Verif/Capture/Model` (src/semantic/analyzer.c: locals, scopes, redeclaration check, free variables, `capture_exprs`, `be_capture`; src/linear.c: what a place of an environment holds) | `Spec`: lexical scoping on a small language of uses, declarations, blocks and function literals. Invariant of the stack of functions being analysed: unique names, entries of `frees` lead to the variable they were made for, only growth of the entries while an inner function is analysed. Induction over programs; counterexamples by evaluation |
| C105 | `Verif/Blowfish/Model` (std/crypto/blowfish.n: the unrolled rounds in both directions, bytes and words, cyclic key words, the five replacement loops, the constructors; the tables of initial values are parameters) | `Spec`: Schneier's rounds and key schedule on one list of 1042 words. The unrolled rounds are the recursion; the Feistel inverse by induction on the rounds; two steps of a loop are one replacement, by induction over the loops |
| C106 | `Verif/Bcrypt/Model` (std/crypto/bcrypt.n, whole file; libc's `rand` is a parameter) on top of the model of C105 | `Spec`: EksBlowfish and the text of a hash. Coding and decoding are inverse, by induction over groups; the loops over blocks and rounds by induction; verification compares digests, since coding is injective; counterexamples are proved for all passwords |
| C107 | `Verif/Archive/Model` (src/ld/ld_elf_archive.c, whole file, and the walk of ld_elf_input.c:1604-1725; reads outside the file and endless walks are outcomes) | `Spec`: writers of the GNU, BSD and thin formats. Reading a written archive by induction over its members; safety for all bytes by induction over the steps of the walks |
| C108 | `Verif/Link/Model` (src/ld/ld_elf.c:803-1032 and 1170-1182: record_definition, record_undefined_references, record_entry_reference, rebuild_globals, extract_archives, check_undefined) | `Spec`: `Defines`, `Requests`, `Needs`, `Useful` and the sets of objects `Grown` by useful members. Invariant of a record by induction over the symbols read so far; extraction by induction with the number of members not taken as measure |
| C109 | `Verif/Symtab/Model` (src/ld/ld_elf_symtab.c, whole file; writes outside a buffer are an outcome) | `Spec`: reader of `Elf64_Sym`. Induction over the symbols: what is written is a prefix of zeroed buffers of the measured size; reading the record at each index back |
| C110 | `Verif/EhHdr/Model` (src/ld/ld_elf_eh_frame.c, whole file; `qsort` is a parameter with its contract of the C standard) | `Spec`: reader and search of libgcc. Bytes by induction over the rows; the order from the contract of `qsort`; the search by its invariant |
| C111 | `Verif/Layout/Model` (src/ld/ld_elf.c `ld_elf_layout_outputs` for loaded sections, `ld_elf_output_rank`, the two loaded segments; src/ld/ld_elf_relro.c). Not modelled: RISC-V relaxation, sections not loaded, thread pointer | `Spec`: what alignment, loading and the read-only region mean. Induction over the sections with the cursors as invariant; counterexamples by evaluation |
| C112 | `Verif/GnuProp/Model` (src/ld/ld_elf_property.c without the bytes of notes) | `Spec`: meaning of property types from the psABI. Invariant over the objects added, per type and bit |
| C113 | `Verif/Cie/Model` (src/ld/ld_elf_cie.c, whole file but null pointers) | the comparison is equality; induction over the entries with the least equal index as invariant |
| C114 | `Verif/Dynamic/Model` (src/ld/ld_elf_dynamic.c but the tables of a program without symbols; `qsort` by its contract) | `Spec`: reader of the ELF specification. Bytes by induction over entries, all combinations of flags by cases |
| C115 | `Verif/Ifunc/Model` (src/ld/ld_elf_ifunc.c but `ld_elf_ifunc_encode_irelative`, whose bytes are those of C114) | `Spec`: decoding by the manuals of the processors. Arithmetic of the fields |

Not modelled anywhere: actual C memory layout beyond what is cited, real time, the OS scheduler, signal delivery,
I/O, floating point rounding, code generation for each ISA except where listed above.

## Disagreements between code and property

Each line is backed by the named theorem.

* C01: growing an empty (zero byte) bitmap aborts instead of growing (`C01_grow_set_empty_aborts`).
* C02: a 2-byte request is served from the 16-byte class although the 8-byte class fits (`C02_minimal_counterexample`);
  a zero-byte request aborts (`C02_zero_aborts`).
* C06: once the first 16 GiB are full every further allocation aborts in `page_alloc_grow`'s assertion
  (`C06_growth_counterexample`): the assertion looks only at the first root summary, and the root search bound assumes
  32 GiB per root entry while an entry covers 16 GiB. If the OS refuses the first address hint, the first
  allocation of the process aborts (`C06_hint_fallback_counterexample`).

* C14: `vec_new` with a fill value of more than 8 bytes may skip the fill, depending on the stack bytes behind an 8-byte
  local (`C14_new_large_element_counterexample`).
- C17 `C17_tombstones_counterexample`: the growth test counts live keys only, so 16 insert/delete pairs of suitable integers fill a new map with tombstones; the next lookup or insertion of an absent key hits `assert(false && "hash table is full")`.
- C18 `C18_nul_string_counterexample`, `C18_struct_key_counterexample`: keys are compared as C strings, so strings that agree up to a NUL byte, and structs/arrays that agree up to their first zero byte, are the same key.
- C19 `C19_delete_counterexample`, `C19_delete_absent_counterexample`: `rt_set_delete` ANDs the slot with the deleted flag, which clears the used flag too, and decrements the length unconditionally; later additions then overwrite the key of a live member, and a deletion from an empty set makes the next addition read out of bounds.
- C41 `C41_nul_counterexample`, `C41_unterminated_counterexample`: the pool is keyed by the C string at the vector's data and only the length is compared, so two vectors that agree up to a NUL byte become the same string; the lookup reads past a vector that is not followed by a NUL byte.
- C28: `find`, `find_after`, `contains` answer -1/false for the empty pattern, stop at a NUL byte (they use C `strstr`), and `find_after` with a start past the end and a pattern of two or more bytes reads outside the string (`C28_*_counterexample`). `rfind`, `starts_with`, `ends_with` are exact.
- C29: `split` drops a final separator: "a," gives one piece, and join does not give the string back (`C29_trailing_counterexample`).
- C31: `to_int` compares with a 32-bit limit although `int` is 64-bit: "3000000000" throws, while 2147483648 and 2147483649 pass the check (`C31_limit_counterexample`).
- C23: a blocking `select` whose case list has one channel twice with another in between (A, B, A; sends come first, then receives) unlocks the first channel twice when it parks: `selpark_commit` walks the cases in case order and only skips a repeated channel when it is adjacent (`C23_double_unlock_counterexample`).
- C42: `is_successful` is documented as "the last operation was successful" but the flag is never set to true (channels are zeroed, and rt_chan.c:415, 722, 733 only store false), so it returns false after every history (`C42_never_successful_counterexample`).
- C43: a `select` receive case without a variable passes a null message pointer (linear.c:1895-1900), which `rt_recv` asserts to be non-null (rt_chan.c:305): the program aborts if a sender is blocked on the channel (`C43_unbound_receive_counterexample`).
- C24: `rt_mutex_waiter_release` evaluates `assert(m->waiters.count == 0)` (rt_mutex.c:270) without the waiter locker, after an earlier separate read of `waiter_count`. Another registered waiter can take the permission and a third can park in between, so the assertion fails in a correct program and `unlock` aborts (asserts are compiled into release builds: CMakeLists.txt sets only -O2). `C24_unlock_assertion_counterexample` is the execution, with three coroutines. Every other assertion of the file holds (`C24_assertions_partial`).
- C47: `a=b=c` has an empty value for `a` (url.n:154 only takes `kv[1]` when there are exactly two pieces).
- C48: `http://[::1]` has the hostname `[:` (url.n:121 takes the last colon, which is inside the brackets).
- C34: a write that takes a buffer to 2^31 - 1 bytes or more overflows the `int` capacity parameter of `rti_vec_grow` (vec.c:7, 338); consumed bytes count until the buffer is emptied.
- C35: `dir` drops only one trailing slash while `base` drops all of them, so `a/b/` has dir `a/b` and base `b`, which join to `a/b/b` (`C35_trailing_counterexample`). `join` removes at most one trailing slash of the first path and none after a leading `./` of the second, so `join("a//", "b")` is `a//b` (`C35_double_separator_counterexample`).
- C36: `move_one` saves a two-operand instruction's operands in one scratch register each time a cycle is found, so `f(b - c, a, a)` with a, b, c in the first three argument registers calls f(0, a, a) (`C36_two_operand_counterexample`; such instructions are marked by the arm64 peephole pass, peephole/arm64.c:122-124). Nested cycles through loads with two registers clobber the scratch register too (`C36_two_register_load_counterexample`). For a float stack slot the scratch register is the float register with the integer scratch register's index (xmm3 on amd64), which is not reserved (`C36_float_slot_counterexample`).
- C37: `resolve_blocked` never treats a stack slot as occupied, so a mapping that exchanges a register and a slot loses the slot's value (`C37_slot_swap_counterexample`). Slots belong to one variable each, so the allocator should not produce such a mapping; `Mapping` states what is assumed.
- C38: recording a range that starts after the end of the first recorded range also makes the gap live (`C38_gap_counterexample`). `build_intervals` walks the function backwards, so it never does this; `Backward` states the order.
- C07 (runtime/fixalloc.c:20,49-58): for block sizes 8193..16384 (all accepted by `fixalloc_init`) a chunk holds exactly one block, but its first 8 bytes are the chunk link, so `chunk_rem = chunk_size - 8 < size`: the first block reaches past the region obtained from the OS and `chunk_rem -= size` wraps to nearly 2^32, after which blocks are cut from unmapped or foreign memory (`C07_counterexample`, `C07_pages_counterexample`).  The block sizes used today are below 8192.
- C11 (runtime/allocator.c:1192, runtime/collector.c:187): `large_malloc` adds the requested size to `allocated_bytes`, `sweep_span` subtracts the page-rounded size, so collecting large objects drives the counter below its true value and, near zero, wraps it to almost 2^64 (`C11_large_counterexample`, `C11_large_wrap_counterexample`).  The counter decides when the next collection starts.
- C11: a mark on a slot that was never handed out (a stale or integer word scanned conservatively) makes the slot live, and its later reclamation subtracts bytes that were never added (`C11_stale_mark_counterexample`).
- C12 (runtime/collector.c:691): `handle_gc_ptr` looks every word of an object up in the pointer bitmap of the arena in which the object starts; for an object crossing a 64 MiB arena boundary it reads past that arena's bit array, so pointers recorded in the second arena are not seen (`C12_crossing_counterexample`, `C09_scan_crossing_counterexample`).  `heap_arena_bits_set`, which records the bits, does switch arenas.
- C12 (tail of a span): an address in the unused tail of a span (a stale word on a conservatively scanned stack can be one) belongs to no object, but the mark phase takes it for object number `obj_count`, marks that bit and scans `obj_size` bytes from there, past the end of the span (`Mark.C12_tail_counterexample`).
- C13 (deletion barrier): `rti_write_barrier_ptr` calls `shade_obj_grey(slot)`, which shades the object that contains the slot, not the pointer being overwritten. A coroutine whose stack has been scanned can load a pointer from an unmarked object and overwrite it there; the object it now holds on its stack is never marked and is swept (`ConcGc.C13_load_delete_counterexample`).
- C13 (channels): a send copies the message into the channel's buffer, or to the stack of a waiting receiver, with `memmove` and no barrier (rt_chan.c:172, 252, 710). A message held only by a coroutine that has not been scanned is lost when the buffer, or the receiver's stack, has been (`ConcGc.C13_channel_counterexample`, `ConcGc.C13_direct_send_counterexample`).
- C25: `linkco_list_remove` (runtime/linkco.h:140-161) gives the removed cell back without clearing its links, and `rti_release_linkco` asserts that they are NULL: with two or more waiters the process aborts. Nothing calls the function. `Nature.Linkco.C25_list_remove_counterexample`.
- C49: `reader.read_until` returns a slice of the reader's own buffer, so a later call changes bytes already returned (std/io/buf.n:119,126,133). Reading into an empty slice with nothing buffered sets `eof` and throws 'EOF'; every later read_line throws 'EOF' although data remains (buf.n:65-72).
- C50: a line that does not fit the buffer is returned in pieces with no sign of it (buf.n:131-136); any error of the underlying reader is turned into the end of input (buf.n:143-146).
- C51: an underlying writer that returns 0 without an error makes `flush` loop for ever (buf.n:245-256).
- C52: the smallest value of a signed type is printed with bytes that are not digits (the negation in `itos_with` wraps and the remainders are negative): `C52_min_counterexample`. Zero padded with blanks to a width prints only blanks: `C52_zero_counterexample`.
- C53: a format that ends inside a directive (`%5`, `%0`, `%5.`) indexes past its end; widths are kept in a u8 and wrap at 256: `C53_end_counterexample`, `C53_width_counterexample`.
- C54: a number too large for its type is cut off and counted as read; only the space, not tab or newline, ends a word: `C54_overflow_counterexample`, `C54_word_counterexample`.
- C58: integers are parsed through f64, so 2^53+1 comes back as 2^53 (`C58_large_counterexample`). A vector or map inside a vector, a map value or a nullable struct is parsed into zeroed memory: an inner vector has element size 0, so all indices alias element 0 and growing loses the elements (`C58_nested_counterexample`, `C58_grow_counterexample`), an inner map trips an assertion (`C58_map_counterexample`), a null element leaves the union without a type (`C58_null_counterexample`). A repeated member whose second value is null keeps the first (`C58_last_counterexample`). Not modelled: maps with other keys serialise to keys without quotes, struct field names are not escaped, f64 is written with six digits after the point.
- C59: `rtype_any` (src/rtype.h:473-490) sets only bit 0, the type word, of the bitmap of `any`: the value word is not marked, so the value of a global (or escaped) variable of type any is not followed. `rtype_struct` keeps the last pointer offset in a uint16_t (822): a struct of 64 KiB with its only pointer in the last word is described as free of pointers. Witnesses: C59_any_counterexample, C59_large_counterexample.
- C62: `ssa_live_changed` (src/ssa.c:355-386) counts equal elements in a uint8_t: with 256 or more variables live at the beginning of a block the counter never equals the number of variables, so the analysis never ends. Witness: C62_endless_counterexample (256 variables written in one block and read in the next).
- C63: `ssa_add_phi` replaces ssa_globals_table by the variables that have a phi function (src/ssa.c:290-291), and `ssa_rename_block` pops only variables in that table (648): definitions of other variables stay on the stack for the siblings in the dominator tree. `x = 1; if c { x = 2; use(x); return }; use(x)`: the last use is renamed to the assignment in the other branch. Witness: C63_counterexample.
- C64: numbers advance by two and are cut to 8 bits for operations (src/ssa.c:577), so that after 128 definitions of a variable names repeat; a phi function getting number 256 or more fails an assertion (683). Witnesses: C64_repeat_counterexample, C64_abort_counterexample.
- C66: `broken_critical_edges` (src/cfg.c:70-122) removes the current predecessor from the list it iterates over, so that the next one is skipped: of two critical edges from neighbouring predecessors the second is not split. `match x { 1 | 2 -> ..., _ -> ... }` (two conditions for one case, src/linear.c) is enough. Witness: C66_critical_counterexample; C66_critical_partial says exactly when edges are left.
- C67: `ret_check` (src/cfg.c:134-193) looks for a return in the block where the match ends before it tests whether the match has ended: `int a = match x { 1 -> {}, _ -> 2 }; return a` is not reported. Witness: C67_return_after_counterexample. A match with a result inside a case of another replaces the awaited end, so that the missing result of the outer one is not reported. Witness: C67_nested_counterexample.
- C68: the cases 'e', 'v' and 'm' of the switch in `scanner_ident` (src/syntax/scanner.c) fall through to the next case when nothing matched, and only the remainder of the word is compared there: the eleven names ealse, e32, e64, eor, vint, v8, v16, v32, v64, vnion and meturn are read as keywords (`v8` as the type u8). Witness: C68_counterexample; C68_keywords shows there are no others.
- C69, C70: `scanner_string_advance` (src/syntax/scanner.c) looks for the closing quote only; at the end of the text it steps over the terminating zero and goes on reading. `"abc` at the end of a file without a line break, or a raw string that is not closed, reads after the buffer. Witness: C69_counterexample.
- C71: `a < b >> 1` aborts the compiler: `parser_left_angle_is_type_args` (src/syntax/parser.c) takes `b >` after `name <` for type arguments, and `parser_type_args_expr` then asserts that `(`, `.` or `{` follows. Asserts are on in the release build. `(a) < b >> 1` aborts too, as parentheses leave no trace. Witness: C71_counterexample.
- C72: the rules for `!` and `~` (src/syntax/parser.c, table `rules`) have infix precedence UNARY but no infix function: `1 ! 2` and `a ~ b` call a null pointer, so the compiler crashes instead of reporting an error. Witness: C72_counterexample.
- C73: a literal too large for i64 or u64 is silently replaced by the largest number (strtoll/strtoull saturate and errno is not looked at), and a negative literal for u64 wraps around; integer_range_check (utils/type.h) cannot see either. `010` is range-checked as 10 (atoll) and compiled as 8 (strtoll base 0); as an enumerator it is 10; `08` is an error. Witnesses: C73_large_counterexample, C73_zero_counterexample.
- C74: analyzer_constant_folding computes in C `long long`: `(-9223372036854775807 - 1) / -1` kills the compiler with a signal, overflow and shifts by 64 or more are undefined behaviour of the compiler, unsigned 64-bit operands saturate at 2^63-1 first, `08 + 1` is 1, and strings are joined with strlen so that what follows a zero character is lost. Witnesses: C74_trap_counterexample, C74_value_counterexample, C74_strings_counterexample.
- C75: (1) an indexed address with base rbp or r13 and a displacement loses the displacement (opcode.c:1910-1914 overwrites it with a zero byte); the peephole pass asks for such an address when it fuses `x * 2 + 5` into lea and x is in r13. (2) rsp or r12 as base without an index is encoded without the SIB byte the processor expects. (3) `add` of a byte register to memory has opcode 0, which opcode_format_encoding takes for the end of the opcode. (4) sal/sar/shr accept any byte register as count but always shift by cl. (5) the 64-bit float `xor` has its 66 prefix written as an opcode byte, so REX lands in front of it and is ignored: clearing xmm8-xmm15 (int to f64 conversion, native/amd64.c:879 and 919) clears xmm0-xmm7. (6) float `xor` with memory reads sixteen bytes. (7) ah, ch, dh, bh together with a register that needs REX silently become spl, bpl, sil, dil. Witnesses: the C75_*_counterexample theorems.
- C76: (1) a branch to the address it is at itself has the distance 0, which amd64_rewrite_rel_symbol (amd64.h:111-156) takes for "not known": the branch falls through instead. No source construct that leads there was found. (2) an instruction that addresses a symbol enters it into the table with the value 0 (amd64.h:548-558); a later branch to the symbol, with the label still ahead or in another module, finds the entry and is bound to offset 0 of the text section, with no relocation (`var f = foo` followed by `foo()` in the same module before foo's code). (3) rip_offset counts 8 bytes for an immediate of kind AMD64_UINT, of which 4 are written; nobody combines that kind with a symbol. Witnesses: C76_self_jump_counterexample, C76_call_after_reference_counterexample.
- C77/C78, in src/linear.c: (1) a deferred block containing a call that can fail makes the compiler loop forever as soon as the block can be left early (return, break, another failing call): the error path of the call unwinds the scope whose deferred block is being emitted (110-147, 902-935) — C77_compiler_diverges_counterexample, for every recursion bound. (2) `defer { x = 2 }; return x` returns 2: the operand is the variable itself, read after the deferred blocks (1793-1802) — C77_return_variable_counterexample. (3) `x + match { _ -> { x = 10; ret 1 } }` adds to the new x — C77_operand_order_counterexample. (4) `if a < b` with a NaN runs the body: the jump uses the opposite comparison (43-50) — C77_if_nan_counterexample. (5) when a deferred block fails at the end of a block, deferred blocks registered earlier are skipped (92-98: the scope is popped before its blocks are emitted) — C78_failing_defer_skips_others_counterexample. (6) deferred blocks run with the error still pending: a try inside one takes the wrong error away and co_remove_error's assertion then ends the process — C77_error_pending_in_defer_counterexample. (7) a match with a subject inside a deferred block is rewritten in place each time the block is emitted (3640-3657), so the second copy takes wrong cases — C77_match_in_defer_counterexample. (8) the default value of a catch is overwritten by a ret inside a try that fails half way — C77_catch_default_counterexample.
- C81, in src/lower/amd64_abi.c: (1) a struct with an array in it is classified MEMORY (amd64_type_classify has no case for arrays), where C uses registers — C81_array_counterexample. (2) A result of mixed classes takes the register by position instead of by class: {double, long} is expected in xmm0 and rdx (C: xmm0, rax), {long, double} in rax and xmm1 (C: rax, xmm0) — C81_result_counterexample, C81_result2_counterexample. Both sides compiled by this compiler agree (C80), but calls of C functions with such results do not. Also: objects smaller than a word are moved with 8 byte loads (reads past the object; the model gives these bytes no meaning, so no theorem depends on them).
- C79, C80 on arm64, in src/lower/arm64_abi.c: (1) arm64_pcs_aux never counts a floating point scalar against the eight vector registers, so the ninth gets position 32, the tenth 34, …: they overlap on the stack, and no stack is reserved for them — C79_arm64_floats_counterexample. (2) A struct of up to eight bytes on the stack is not loaded; its address is stored, and the called function takes it for the object: caller and callee share it — C79_arm64_struct_counterexample. (3) Structs and arrays of one or two bytes, and structs of three or four doubles, on the stack stop the compiler at an assertion — C79_arm64_abort_counterexample. (4) An array of up to 16 bytes is returned in x0 as an address while the caller reads the storage it passed in x8 — C80_arm64_array_counterexample.
- C79, C80 on riscv64, in src/lower/riscv64_abi.c: (1) `attach_pos > 0` where 0 is a0: of a struct {f64, i64} the integer is not returned — C80_riscv64_mixed_counterexample. (2) lower_return keeps the size in a uint8_t: of a result of 320 bytes 64 are copied, one of 264 bytes is returned as an address in a register — C80_riscv64_size_counterexample. (3) An array of up to 16 bytes is returned as its address in a0, the caller reads its own storage — C80_riscv64_array_counterexample. (4) reg_pass_rec (line 49) indexes rc with rc[0] = -1 for structs like {f32, f32, [u8;2]} — C79_riscv64_bounds_counterexample. (5) An empty struct gets a0 without taking it — C79_riscv64_empty_counterexample. (6) Sizes are kept in uint16_t; structs of 65536 bytes or more are excluded by `fits`.
- arm64 and riscv64 frames (not modelled): callee saved registers would be saved at the stack pointer, where the outgoing stack arguments are; but the discovery of used callee saved registers (linearscan.c:46-66) hardly ever finds one, so they are not preserved at all.
- C82, in src/lower/lower.h: the name of a string constant is `"s:"` and its text up to the first zero byte, so "a\0b" and "a\0c" share one symbol — C82_string_counterexample — and a longer constant may read after the end of a shorter one — C82_string_end_counterexample. The name of a float has its bits but not its kind: 0.0 as f32 and 0.0 as f64 share the symbol of four bytes, and in one function the variable — C82_zero_counterexample, C82_zero_width_counterexample.
- utils/linked.c (not part of a property): linked_split leaves the first node of the new list with a prev pointer into the old list; linked_count is a uint16_t.
- C84: on amd64 global variables are operands of instructions, but the scheduler takes only addresses in variables and registers for memory (schedule.c:35-63), so a read of a global variable can be moved before a write of it: of `g = g + 1; g = g + 1` one increment is lost (`C84_global_counterexample`). arm64 and riscv64 turn global variables into addresses first and are not concerned.
- C84: on amd64 the register ah has the number 4, and the scheduler looks up the full register by this number and finds rsp (schedule.c:19-30, register/arch/amd64.c:239); so the instruction that reads the remainder of a division of bytes from ah is not kept before the next instruction that clears ax: `x = a % b; y = c % b` on u8 gives a wrong x (`C84_byte_rem_counterexample`).
- C84: of the readers of a register only the last one is remembered (schedule.c:403), so an earlier one can be moved behind the next instruction that gives the register a new value (`C84_register_counterexample`); the lowering of today does not seem to make such code.
- C85: on amd64 a signed division clears the upper half of the dividend instead of sign extending it: -7 / 2 is 9223372036854775804 (i64) and -7 / 1 traps (i32) (`C85_amd64_quotient_counterexample`, `C85_amd64_trap_counterexample`).
- C85: on arm64 8- and 16-bit sums keep their carry in the 32-bit register, so (200u8 + 100u8) < 100u8 is false; `255u8 as i8 as i64` is 255; adding a literal below -4095 is an undefined instruction; comparing with the least i32 literal is wrong (`C85_arm64_*_counterexample`).
- C85: on riscv64 i32 sums are 64-bit sums, so max + 1 > 0; `x <= 18446744073709551615` is false; subtracting the literal -2048 has no encoding (`C85_riscv64_*_counterexample`).
- C86: riscv64 `sw` of registers x8-x15 at an offset 4 mod 8 below 128 is encoded with the offset bits of `sd` (`C_SW` uses imm[7:6] where imm[2|6] belong) and stores 4 bytes too low (`C86_store_word_counterexample`). `add rd, rd, zero` becomes `c.jalr` (`C86_add_zero_counterexample`). A number beyond 12 bits loaded into `sp` becomes `c.addi16sp` (`C86_load_sp_counterexample`). `call` does not round its upper part, so offsets with bit 11 set go 4096 bytes too low (`C86_call_counterexample`). `sext.w zero, zero`, `ld zero, n(sp)` and word shifts by 32 to 63 give reserved encodings (`C86_reserved_counterexample`).
- C87: `interval_find_optimal_split_pos` moves a split out of a loop without calls, also when the part behind the split goes back into the queue while the walk is already inside the loop (`spill_interval` called by `allocate_block_reg`). The part then starts before the current position, intervals that were already dealt with are no longer compared with it, and two variables that are live at the same time share a register (`C87_loop_counterexample`, a loop with five variables and two registers).
- C88: `allocate_free_reg` splits at `free_pos` itself when the best position is the start of the interval, and `block_insert_mov` puts the move behind the operation with that id. If a call takes all registers at an operation that must have a variable in a register and the variable lives on, its value is saved only after the call (`C88_late_split_counterexample`). Compiled programs avoid this only because the calling convention code copies callee and arguments into variables that end at the call.
- C89: on arm64 `mov` with a number of 65536 or more keeps the low 16 bits (`C89_mov_immediate_counterexample`; the back end splits larger numbers itself before it asks). `cmp sp, x1` compares zero (`C89_compare_stack_pointer_counterexample`). `mvn w, w` works on 64 bits, as the constant in the macro has bit 31 set (`C89_mvn_counterexample`). Byte and signed half loads into 64-bit registers use the width as the low bit of the size: `ldrb x` and `ldrsb x` read two bytes, `ldrsh x` fills only 32 bits (`C89_load_byte_counterexample`, `C89_load_signed_byte_counterexample`, `C89_load_signed_half_counterexample`). An offset that is no multiple of the size is rounded down instead of using the unscaled form (`C89_unaligned_offset_counterexample`). A store with a symbol is a load (`C89_store_symbol_counterexample`). Pairs of 32-bit registers halve the offset (`C89_pair32_counterexample`, `C89_float_pair32_counterexample`). Floating point loads with an index register have a stray bit in the register number (`C89_float_index_counterexample`). Offsets from -4096 to -257, far conditional branches and shifts by the width are cut off, not refused (`C89_accepts_nonsense_counterexample`).
- C90: any interface is accepted where any other is expected (`C90_interface_counterexample`). The second time the comparison meets a declared union it says yes without looking: `(num,num)` accepts `(num,string)` (`C90_second_union_counterexample`), and a union that mentions itself accepts anything at that place (`C90_recursive_counterexample`). Unions and pointers are compared in one direction below vectors and function parameters too: `[int|bool|string]` accepts `[int|bool]`, a function of `int|bool` passes for a function of `int|bool|string`, and `[ptr<int>]` accepts `[ref<int>]` (`C90_vector_counterexample`, `C90_function_counterexample`, `C90_null_counterexample`). `int|ptr<dog>` accepts `ref<dog>`, which is then marked as an alternative the union does not have (`C90_alternative_counterexample`). A variable of type `reader?`, where `reader` is an interface, cannot be assigned to a variable of the same type (`C90_nullable_interface_counterexample`).
- C91: types and tags are told apart by 32 bits. Two declared types called main.patol and main.caseco have one hash: one is recognised as the other, and only one of their sizes is in the table, so that bytes are lost or read beyond the value (`C91_clash_counterexample`); the tags costarring and liquid of one tagged union are not told apart (`C91_tag_counterexample`). The hash of a function type ignores whether it can fail and whether it is variadic (`C91_errable_counterexample`, `C91_rest_counterexample`). The hash of a union depends on the order of its alternatives although the compiler takes `[bool|int]` for `[int|bool]`: such a value is none of the alternatives of its union (`C91_order_counterexample`). A union of empty structs has no payload but eight bytes are written (`C91_empty_counterexample`). In `fx` functions an any keeps the address of the variable instead of a copy (`C91_fx_counterexample`).
- C92: `block_alloc` adds the size to the offset before comparing with the capacity, so that an allocation of nearly 2^63 bytes wraps round and succeeds (`C92_overflow_counterexample`).
- **C95**: `ld_elf_reloc_apply_riscv64` accepts high parts and call sequences for values up to 2^31 − 1, but from 2^31 − 2048 on the rounded high part wraps and the pair is off by 2^32 (`C95_high_counterexample`); values from −2^31 − 2048 to −2^31 − 1, which a pair can show, are refused.
- **C96**: `TLSLE_ADD_TPREL_HI12` checks the high part as a signed 12-bit number although ADD takes an unsigned one: negative offsets are accepted and come out 2^24 too large (`C96_negative_counterexample`), offsets from 2^23 on are refused (`C96_high_counterexample`). A TLS descriptor call is replaced by MOVZ/MOVK also for negative offsets, which come out 2^32 too large (`C96_descriptor_counterexample`). ABS32/ABS16/PREL32/PREL16 are stricter than the table (`C96_absolute_counterexample`).
- **C97**: 8-bit data is checked as signed and 16-bit data as unsigned, so a byte between 128 and 255 and a negative 16-bit number are refused although they fit (`C97_small_counterexample`).
- **C98**: GOTPCRELX relaxation does not look at the addend. `mov rax, [rip + x@GOTPCREL + 8]` loads from behind the table entry, the rewritten `lea` computes the address of `x` plus 8 (`C98_addend_counterexample`); `C98_got_partial` is for the addend −4 that compilers emit.
- **C99** (not negated by a theorem): the layout with thunks places code sections in the order of the placements and ignores the order asked for by SHF_LINK_ORDER; a branch to an undefined weak symbol goes to address 0; whether a thunk is within reach of its branches is checked, not guaranteed, so a link can fail although another placement of thunks would do.
- **C100** (`C100_arm_counterexample`): the arm64 peephole pass counts uses once and then makes up to five passes. `(a * b) * 2` is turned into `x + x` in the first pass; the second pass still counts one use of `x`, fuses the multiplication with the addition and drops the definition of `x`: the result is `a * b` plus whatever was in that register. `C100_float_counterexample`: floating point `a * b + c` is contracted into a fused instruction, with another rounding than on the other targets. On amd64 a moved product that goes to a register and is then added to is rewritten as if the register were a variable (`C100_amd_block` assumes that the first operand of additions is a variable).
- C102: an element or a field of a nullable type in a global variable starts without a description (a null pointer), although it should be null: runtime/memory.c:121-133 mends only variables that are themselves of a union type (`C102_nested_counterexample`). A global variable of type any without a value has the same fault (`C102_any_counterexample`). A cast of a number of 2^63 and more to u64 saturates at 2^63-1, since the literal in the cast is read as an int (`C102_cast_counterexample`).
- C104: `analyzer_resolve_free` returns `int8_t`. The 129th variable captured by a function literal comes back with a negative index; its name has been replaced by the unique name by then, which is found in the symbol table, so the closure reads a variable of its own with that name that nobody has written. The 257th reads the first place of the environment (`C104_int8_counterexample`, `C104_wrap_counterexample`).
- C104: function literals are entered among the local names as `lambda`, which is an ordinary identifier. A variable `lambda` cannot be read after a function literal in the same block, and declaring one there is refused (`C104_lambda_counterexample`, `C104_lambda_refused_counterexample`).
- C104: a constant declared in a function and used in a function literal makes the compiler stop at `assert(s->type == SYMBOL_VAR)` in `analyzer_end_scope` (`C104_const_counterexample`). It also takes a place in `frees` but none in `capture_exprs`, so without the assertion later captured variables would be read from the wrong place.
- C104: two constants in one block, or two parameters of one function, may have the same name (`C104_const_twice_counterexample`, `C104_params_counterexample`).
- C104: the depth of blocks is a `uint8_t`; the declarations of a block nested 255 deep stay visible after its end (`C104_depth_counterexample`).
- C106: `verify` has no limit of 72 bytes; it accepts every continuation of a password of 72 bytes (`C106_long_counterexample`). It also accepts a password repeated after a zero byte (`C106_zero_counterexample`), which bcrypt itself has in common.
- C106: `generate_salt` seeds the generator of the C library with the current second on every call, so all hashes made within a second have the same salt (`C106_salt_counterexample`).
- C107: in an archive of GNU ar a member named `#1` makes the linker refuse the archive (`C107_hash_counterexample`), and a member with a short name that begins with `__.SYMDEF` is left out silently (`C107_symdef_counterexample`).
- C107: the index of an archive of the BSD format with the name `__.SYMDEF SORTED` after its header is taken as a member (`C107_index_counterexample`), so such a library cannot be linked unless the index happens to be a valid object.
- C108: a weak definition wins over a common symbol, whose storage is then not reserved (`C108_common_counterexample`); the ELF specification says the opposite.
- C108: a library member that asks for common storage for a name for which storage is already asked for, and that some object refers to, is linked although nothing needs it, which can make linking fail (`C108_needless_counterexample`).
- C111: five cases (`Verif/Layout/Props`): a zeroed section that is writable and executable comes before `.data` in the order of the linker, and the contents of `.data` are then loaded at a wrong address; writable code is in a segment without permission to execute; the region made read-only begins in the middle of a page if a writable section comes before it, and protection works on pages; a read-only zeroed section gets no memory and shares its address with the next; an alignment that does not divide the image address (8 MiB and 0x400000) is not kept.
- C112: `C112_used_counterexample`: properties of what a program uses (X86_FEATURE_2_USED, X86_ISA_1_USED) are merged like those of what it needs: the psABI drops them if an object has none, the linker keeps them.
