# Design: a machine-checked model of rust-zserio

Code under study: `/repo` (Danaozhong/rust-zserio at the pinned commit), read as text.
Prover: Lean 4.33.0 (Mathlib available, used sparingly).  Sources: `lean/Verif/*.lean`,
imported from `lean/Verif.lean`.

## 1. What is modelled

Layer 1, the run-time crate `crates/zserio`: every function of `ztype/*.rs` that reads, writes or
sizes a value, the delta contexts and array traits, the array class, `numbits.rs`, and the
top-level `to_bytes`/`from_bytes` of `lib.rs`.

Layer 2, the code emitted by `crates/zserio-rs-build/src/internal/generator`: instead of the text it
emits, the model gives the *meaning* of that text.  Each generator function (`encode_field`,
`decode_field`, `bitsize_field`, `generate_choice_match_construct`, ...) is a Lean combinator that
builds the `zserio_read/write/bitsize/..._packed` operations of a type from those of its fields,
statement by statement in the order the generator emits them.

Layer 3, the schema compiler: expression evaluation, enum and bitmask value assignment, integer
type mixing, subtype resolution, symbol lookup, template instantiation.

Layer 4, the text: emitted statements, expressions, literals, names and module files as syntax with a
meaning of its own (C45-C59).

Layer 5, the front end: the visitor that turns parse trees into the compiler's data structures, and the
symbol tables (C60, C61).

Not modelled: ANTLR's prediction of alternatives and recovery from errors (C83, C84), the rules for SQL, services and pubsub, formatting of generated Rust text, rustc.
Memory exhaustion and 64-bit overflow of *sizes* (bit counts above 2^64) are not modelled either.

## 2. Modelling decisions

* Outcome type `Res`: `ok v`, `err e` (the `ZserioError` kinds), `panic`.  `unwrap`, `expect`,
  `assert!`, out-of-bounds indexing, explicit `panic!` are `panic`.
* Arithmetic overflow that is reachable is modelled with a build mode (`debug`: panic, `release`:
  wrap-around).
* A bit stream is a `List Bool`, first bit first.  A writer is the list written so far, a reader is
  a position and the bits still to be read.  `&mut` arguments become extra results.
* Machine integers are `Nat`/`Int` with their range as hypothesis and explicit wrap-around at every
  `as` cast that can change the value; bytes are `UInt8`; strings are Lean `String` (valid UTF-8
  by construction, as in Rust).
* Schemas are finite trees (`Ty`): a type that contains itself is not a `Ty`.  Declarations that refer to
  each other (`Recursive.lean`, C67, C68) are related to trees by bounding the number of active calls
  (`unfoldDecl`); what deeper calls would do is arbitrary, and shown not to matter.
* The `default` case of a choice is dropped by the parser (`visitor.rs` line 551), so `Ty` has none.
* In choices and unions the conditions and lengths of a field see the parameters only.
* Conditions, array lengths and type arguments of a schema are arbitrary functions of the
  parameters and of the fields decoded so far (this covers every expression that only looks at
  earlier fields, which is what generated Rust code can evaluate while decoding).
* `Wire.lean` writes down the zserio encoding from general knowledge of the format (the repository
  contains no description of it).  Where that is open, it follows the generator: the padding of an
  aligned optional field stands before its presence bit, indexed offsets align every element to
  bytes, a packed array inside of a packed element has columns of its own.  The plan of a packed
  array (which columns are packed, in how many bits) is existentially quantified; that the widths
  suffice is C19 and part of the round trip C24.
- **Literals.** Texts are lists of characters.  `f64` parsing is split into the grammar (modelled) and rounding
  (a parameter, like `Display`).  The Rust side of C52 (`rustInt`, `rustStr`) follows the Rust reference and is
  part of the specification.
- **Files and modules.** The contents of generated files are either lines of module declarations or opaque code
  of one symbol.  The identifiers rejected by `syn` are listed (`rustKeywords`).
- **Emitted lines.** `Emit.lean` models the generator as a function to lists of lines, one constructor for every
  `format!` string; `Exec.lean` says what the lines do.  Names of variables are replaced by places (field number,
  `x`, `optional_value`, ...), expressions by functions that may panic.  C55 relates them to the total expressions
  of the schema on a set `E` of objects; where the emitted code evaluates an expression outside of `E`, C55 says
  nothing.  A call of a function of another type runs that type's function in the model of schemas (`Codec`); this
  is the emitted function again, by C55 for that type, for objects in the set of that type.
- **Sizes of packed `bit:n` fields.** `bitsize.rs` lines 53-54 add the width and do not touch the packing context,
  while writer and reader use it; `TypeOps.fixedBits` and `numberCodec.bitsizePacked` follow the code.
- **Types of expressions.** `native_type` values `bool` and `string` are dropped (no cast depends on them).  An
  expression without a type in Rust is represented by the absence of any `t` with `Typed`; a literal can have
  several.  `sort`/`Coherent` (`ExprTypeSpec.lean`) is a condition on schema expressions that needs no Rust
  expression; `C58_typed_iff` says that it is the right one.
- **Parse trees.** One constructor per alternative of the grammar (`Source.lean`); tokens that carry no
  information (`;`, braces, documentation comments) are left out.  Names of packages are lists of identifiers.
- **Reading back.** C60 compares what the parse tree says with what the representation says.  The first is defined on
  parse trees only, the second on the data structures of the compiler only (which operand is left, which member holds
  the condition), neither mentions the visitor.
* Names (`Names.lean`, C69): the source of the crate `stringcase` 0.3.0 is not in the repository.  Its
  functions `snake_case_with_nums_as_word` and `pascal_case` are written down from knowledge of the crate, and
  are part of the trusted base; the tests of `generator/types.rs` and `generator/array.rs` are examples.
  Letters and digits are those of ASCII, as in the grammar of zserio.
* Values of expressions (`ExprValueSpec.lean`, C70): objects are opaque, what their members are is given; the
  operations on floats may have any result; `usize` has 64 bits; an integer literal after `-` has to be in the range
  of its type by itself.
* Fields with expressions (`SourceSpec.lean`, C71): what an expression sees of an object is an arbitrary function of the
  parameters and the fields before it (`look`); nested types are used with their codecs of the model, so their own
  expressions are those of the schema.
* Signed numbers of no bits: the theorems on panic freedom (C12, C49) do not rely on what `bitreader` does with a signed
  read of zero bits; they ask for a width of at least one bit (`Scalar.Steady`).
* Functions that call each other (`LinkSpec.lean`, C73): a call of an emitted function is a step with the outcome of executing
  its body on the object it is called on; bodies that are no blocks have no outcome and count as a panic, but `C55` excludes
  these.  Recursive types are not covered (the schema is a finite tree); for these see C67 and C68.
* Rules for packing (`Wire.lean`): the encoding (`Ty.Wire`) takes a rule `packing stored counted plan` for the plan of each column.
  `anyPacking` allows all plans, `exactPacking` is what the code does, `bestPacking` and `valuePacking` are the claim C74.
- **C93, C94:** what methods return is a relation between objects and values (`Called`); a method that panics returns nothing, so the theorems on objects ask for the values that they need. `CallsEnd` asks that no type contains itself and that no function calls itself on the same object. Functions called `len`, `bits` or `clone` are left out when called through a path, because such calls collide with methods of Rust.

## 3. Trusted base

* Lean's kernel and the three standard axioms `propext`, `Classical.choice`, `Quot.sound`
  (see section 6 for the axioms of each theorem).  No axioms of our own, no `sorry`, no
  `native_decide`, no `bv_decide`.
* The external crates, whose sources are not available, are modelled by assumption:
  * `bitreader 0.3.8`: bits of the byte slice most significant bit first; `read_uN(n)` fails with
    `TooManyBitsForType` when `n > N`, with `NotEnoughData` when fewer than `n` bits remain, and is
    the big-endian value of the next `n` bits otherwise (0 for `n = 0`); `read_iN` additionally
    sign-extends (panic freedom does not rely on `read_iN(0)`, C12, C49); `read_bool`, `skip`, `read_u8_slice`, `remaining`, `position` accordingly.
  * `rust-bitwriter 0.0.1`: `write_uN(v, n)` appends the low `n` bits of `v`, most significant
    first (two's complement for `write_iN`), fails when `n` exceeds the width; `write_bool`,
    `skip(n)` (n zero bits), `bit_count`, `close` (zero padding to a byte), `data`.
  * `half`: only that `f16::from_f32` and `to_f32` are functions (float16 statements say which
    property of them is needed).
  * `std::vec::Vec`: content and capacity; `reserve` and `push` grow by doubling, at least to a
    smallest capacity that depends on the element size (a parameter of the model).
  * `bitmask-enum`: a bitmask value is its `bits` integer.
* Rust itself: precedence of operators, arithmetic of the integer types, order of evaluation (C35, C47).
* The interpreter of emitted lines (`Exec.lean`): what single statements of generated code do in Rust (C55-C57).
* The typing rules of Rust expressions (`ExprTypeSpec.lean`, C58, C59), including what the crate `bitmask-enum`
  provides: `& | ^ !` with the bitmask itself, `bits()`, `==` and `!=` with itself and its underlying integers.
* The values of Rust expressions (`ExprValueSpec.lean`, C70): `as`, overflow, shifts, short circuits, and that open
  integer types become `i32` unless the context or the target of a cast determines them.
* The crate `stringcase` 0.3.0 (`Names.lean`, C69): written down from knowledge of the crate.
* That the code which ANTLR generates reads by the rules of the grammar (C83: longest match, first rule, `*?` stops
  at the first end), and its recovery from errors: C60 and C61 start from parse trees.  ANTLR's
  prediction of alternatives is replaced by trying the first one and taking the second one if it fails; this matters at
  three places, which are named in `FileParser.lean` (C84).  Rules, SQL, services and pubsub are not read.  The
  order in which `WalkDir` yields files is left open (C61: any list).
* The hand translation from Rust to Lean.  Each definition cites the lines it models.

## 4. Plan per property

| id | plan |
|----|------|
| C01 | model writer and reader loops byte by byte; loop invariant on the shift; theorem for all values and all surrounding bits |
| C02 | same with sign; theorem for all in-range values except `i64::MIN`, negation for `i64::MIN` (`_partial`) |
| C03 | outcome of the writers outside the range is `err`/`panic` for all values |
| C04 | loop invariant of the size loops (capacity 2^(7n) resp. 2^(7n+1)); equality with bits written |
| C05 | independent specification of the wire format as a list of bytes by div/mod; equality for all values |
| C06 | list-of-bits lemmas for all widths |
| C07 | digit-count specification `2^(n-1) <= v < 2^n`; table lemma over the whole 256-entry table plus shift steps |
| C08 | arithmetic of `%`; for all alignments > 0 |
| C09-C11 | from C01/C06 by induction over bytes |
| C12 | no-panic theorems per reader; negations with concrete inputs for the readers that do panic |
| C13 | a general "local reader" predicate closed under sequencing; instances for all readers |
| C14 | padding lemma for `close`; independence from trailing bits |
| C15, C16 | induction over the element list, parametric in the element operations |
| C17-C20 | invariant linking writer context, remaining elements and reader context |
| C21 | negations with concrete arrays, positive statement for short arrays |
| C22 | model the reservation and the atomic setting as explicit state |
| C23 | composition theorem over lists of heterogeneous items |
| C24, C28-C30, C34 | combinators for generated code (`Schema.lean`), mutual induction over a deep embedding of schemas (`Ty`); valid values and supported schemas are specified separately (`SchemaSpec.lean`) |
| C25, C32 | second mutual induction over `Ty`: the size function follows the writer position by position, and in packed mode context by context (`SchemaSize.lean`); `Ty.Sized`/`Ty.PackSized` name the places where it holds, a theorem `_violated` proves that it fails in the others |
| C26, C27 | value-assignment loops, induction over item lists |
| C31, C33 | context trees; invariants per leaf; negations for unions and choices |
| C35 | big-step semantics `Expr.run` of the emitted Rust expression in the integer type that the context wants, versus `Expr.evaluate`; induction over the expression, for all environments |
| C36 | `mixInteger` on all pairs of names; the panicking names for all widths |
| C37, C44 | lookup as a search by layers with fuel (`none`: not ended); found in layer n; rank argument for acyclic imports; divergence for all fuels; C44 by comparing a model with one whose selections are erased |
| C38 | inductive relation `BaseOf` as specification; fuel as above |
| C39, C45 | template instantiation as a state transformer on the package (definitions by kind and name); a fresh name for which the fields are compared with a substitution |
| C46 | item relation (`EnumItems`, `BitmaskItems`) as specification, with values given by `Expr.run`; induction over the items, using C35 |
| C47 | the text as tokens (`Expr.text`), a precedence parser for Rust (`rExpr`) as specification; the invariant that a text of precedence L is read the same whatever follows with lower precedence; type check used to exclude bit operations on comparisons |
| C48 | the encoding as a relation between a value, the position, the bits and the columns of packed arrays (`Wire.lean`, no reference to writers); third mutual induction over `Ty`: whenever writing succeeds, the bits appended satisfy it, and the delta contexts agree with the columns (`SchemaWire.lean`, `SchemaWireTy.lean`); with C24 writing succeeds; the columns are packed by the rule `exactPacking` (the contexts record the numbers counted for each column: `WireTally.lean`, `SchemaTally.lean`); a fourth induction shows that the relation with this rule determines the bits (`WireDet.lean`) |
| C13, C49-C51 for schemas | one predicate `Reads` (local, panics not, postcondition on the bits used and the value) closed under sequencing; fifth mutual induction over `Ty` carries validity, a lower bound of the bits used and an upper bound of the size (`SchemaRead.lean`, `SchemaReadTy.lean`); classes of schemas in `ReadSpec.lean`, each exclusion justified by a `_violated` theorem |
| C52 | literals in `Literal.lean` (visitor and generator), their meaning in zserio and in Rust in `LiteralSpec.lean`; induction over the digits for both directions; strings element by element, a length argument shows that octal escapes always change the string |
| C53 | module tree as nested association lists in arbitrary order (`Modules.lean`); what rustc makes of the lines is `declared` (`ModulesSpec.lean`); the tree of a list of paths is decomposed by first component, then induction over paths; order by uniqueness of sorted lists |
| C54 | file system as a map that writes replace; `ModuleAt` follows module declarations as rustc does; classification of all reachable modules by induction |
| C55 | the generator emits abstract lines (`Emit.lean`, one constructor per `format!` string), an interpreter executes them (`Exec.lean`), simulation per field, then induction over fields; uniqueness of brace matching by induction over trees |
| C56 | predicate on single lines, membership in the emitted list characterised exactly |
| C57 | execution of the emitted field in a state where the condition is false; negation by computing a concrete structure |
| C58 | `native_type` and the casts as functions on expressions (`ExprType.lean`), Rust typing as a recursive predicate with open literal types (`ExprTypeSpec.lean`), equivalence with a condition on schema expressions by induction (`types_iff`) |
| C59 | the six places as functions from expression to Rust expression, each reduced to `types_iff`; negations for every type that is affected |
| C60 | parse trees (`Source.lean`), the visitor function by function (`Visitor.lean`), what declarations say (`VisitSpec.lean`) and how representations are read (`VisitRead.lean`); induction on expressions and types, then field by field |
| C61 | packages as maps and lists (`Visitor.lean`), tables (`Symbols.lean`), insertion lemmas by induction on the list of declarations |
| C62 | the list of everything in a file that has to be read (`AcceptSpec.lean`); each function of the visitor succeeds exactly if all of its list can be read (`Decided`, composed along `>>=`, lists and options) |
| C63 | completion, evaluation and text of labels (`Labels.lean`), their meaning in the schema and a reader of Rust patterns that yields the alternatives (`LabelSpec.lean`); induction over expressions: the text of each label either opens a pattern or blocks it, whatever follows |
| C64 | the loops over arguments and parameters (`Arguments.lean`), the meaning of a Rust literal with `..Default::default()` and of assignments (`ArgumentsSpec.lean`); induction over the arguments: each loop yields the pairs of parameter and argument that it selects |
| C65 | `instantiate_type` on the data structures of the visitor and for several packages, `resolve_types` (`Instantiate.lean`); what a name denotes, as layers of imports (`ResolveSpec.lean`); the search is proved sound and complete for it, then lifted to references, declarations and packages |
| C66 | an expression shared by the instances, with the instance in whose scope it has been evaluated (`Shared.lean`); by induction, everything the text of an expression depends on is determined by what the names in it stand for (`SharedLemmas.lean`) |
| C45 | also on the data structures of the visitor and for several packages (`Instantiate.lean`): what an instance is (`InstanceSpec.lean`), by an invariant of the state that goes through the recursion (`InstanceLemmas.lean`) |
| C67 | declarations with references (`Recursive.lean`); `unfoldDecl` is a declaration with a bounded number of active calls; sizes by well-founded chains of members, contexts by induction on the size, objects by agreement of two unfoldings on everything that fits (`RecursiveWrite.lean`), reducing to C24 |
| C68 | agreement of the readers of two unfoldings that differ below depth n, on inputs of fewer than n bytes, by induction on n and the type (`RecursiveRead.lean`); the bound is shown to be the best one with an input of n bytes |
| C69 | the state machines of `stringcase` and their callers (`Names.lean`); a specification of the words of a name that looks at neighbouring characters only (`NamesSpec.lean`); the machines compute the words by a simulation over all states, underscored words can be taken apart again, names in the usual style are recovered by a left inverse |
| C70 | the meaning of schema expressions over the integers, a relation for what Rust computes for an expression of a type, with inference of open types, casts and overflow in both build modes (`ExprValueSpec.lean`); all outcomes of the generated tree are the meaning, by induction on expressions (`value_main`) |
| C71 | fields as they are written, with expression trees (`SourceSpec.lean`); the type they mean has the values of `means` (C70) for clauses, lengths, widths and arguments; the emitted fields have any functions that agree with the outcomes of the generated Rust trees; `emitted_denotes` connects both with the pointwise relation `Denotes` of C55, the rest are corollaries |
| C72 | `ExternType.fromObject` (`Extern.lean`) takes the size function and the writer of the object; the specification is `RoundTrips` of the extern value (C11) together with `from_bytes` of its data; joins C14, C25, C24 and C11; what happens with a wrong size is characterised by `C72_accepted_iff` |
| C73 | schemas as nested trees with expressions at all levels (`LinkSpec.lean`); `linked` takes for the functions of a type the outcomes of executing its emitted bodies, which call the `linked` functions of the types they use; `LinkAgree`/`LinkCodec` prove that replacing the functions of fields by ones that agree on a set of values changes nothing for objects made of such values, and `ty_agrees` (mutual induction over the schema) that the linked functions agree with those of the schema model on the objects in range |
| C74 | the contexts after the first pass over the elements hold the first number, the last number, the bits of all numbers and the largest width of a difference for the numbers counted in the column (`Tally`, invariant over all codecs: `SchemaTally.lean`), so the decision is the best one for these (`exactPacking`); for numbers of one sign distances modulo 2^64 are distances |
| C75 | induction over the schema (`Ty.acceptGood`, `ReadWire*.lean`): the reader, given a context tree that holds for every column the last number and the width (`Node.Sees`), gets the value from all bits of the layout `Ty.Wire` and leaves a tree that holds for the columns as the layout leaves them; the numbers still to come fit the plan (`Storable`). The writer is not involved |
| C76 | `Compile.lean` models what the generator takes from the data structures of the visitor, `TextSpec.lean` says what the parse tree means. `expr_visit`: the visited expression is the expression of the text, by induction; `scope_visit`: the symbol table has the types of the text; `text_conforms`: the values in a valid object have the types that expressions see (so that C70 applies); then C71 |
| C77 | refuted. `ModifierSpec.lean` says what the four mean; `C77_same_code`: what the generator takes from a structure (`SeenAs`, C76) does not depend on constraints, initializers and `implicit`; for each of the four a structure, and an object for which the emitted functions do not do what the text says |
| C78 | `PackageSpec.lean` reads the parse tree of a package (`SourceTy.Declares`: names, parameters, arguments, labels, values of items, scopes); `PackageCode.lean` models what the generator looks up and emits (`CodeOf`, by recursion over references). `C78_types`: the emitted functions are those of the type that the text declares (`SourceTy.Linked`, C73), by induction on the type with the theorems about the visitor (C60, C76), labels (C63) and items (C46). That expressions see values of the declared types is derived from the validity of the object (`ty_ranges`); the rest is C73 |
| C79 | `Parser.lean`: `expression_rec` of the generated parser, with the numbers of `precpred` and of the recursive calls in the code; `ParserSpec.lean`: how expressions are written (`written`) and where parentheses are needed (`Bracketed`). `written_parses`: by induction on the expression, the loop of the left operand goes on with the operator and the loop of the right operand stops; `read_sound`: by induction on the number of calls, with the invariant that the next operator binds more loosely than what was read |
| C80 | Files: `Modules.lean` with lists for the hash maps; the theorem says that permuted lists give equal results. Templates: `InstOrder.lean`: which instances a list of types needs (`Needed`, a closure), and the invariant that the instances made so far are closed under need (an instance is stored after all that it needs), so that the final state is a function of the set of types; the other order ends because what was made in the first has a finite tree of needs (`Finite`). Expressions: `Shared.lean`, from `C66_first_iff` |
| C81 | `Tables.lean`: evaluation of expressions with the symbol tables, as `evaluate`, `symbol_to_expression_type`, `type_reference_to_expression_type` and `get_fundamental_type` do it. Specification: `MeansType` (what a type reference stands for in its own package), `SymbolIs`, `StandsFor`. Proof by induction over the chain of subtypes; fuel is existentially quantified and then arbitrary. `C81_scope` ties the model to `Expr.evaluate`, about which C35, C58, C70 and others speak |
| C82 | `Tables.lean` with the cells that are borrowed mutably as a parameter. `Looks` says, by structural recursion, which declarations an expression looks at; `C82_looks_iff` is proved with a small calculus of computations that agree unless they look at a borrowed cell (`Checked`, `TablesLemmas.lean`); `C82_partial` from an invariant of evaluated expressions (`Carries`): what they carry was found by a name in the expression or as a type |
| C83 | `Lexer.lean`: the rules of the grammar as regular expressions, and the longest match by derivatives. `LexerSpec.lean`: what an expression describes (`Matches`, inductive), longest match (`Longest`), how tokens are written (`Spells`, literals as in C52/C62), which characters run together with the token in front (`Glues`), comments. The derivative is proved to be right once (`step_iff`), the longest match follows (`munch_iff`); the rest is about the rules: decidable analyses of the characters an expression may begin with, end with, contain, must contain, each with its proof of soundness (`LexerRules.lean`), `untilEnd_iff` for comments, a scan for the end of strings, and the sign of exponents |
| C84 | `FileParser.lean`: the rules of the grammar, one function each, on tokens. `FileSpec.lean`: how a file is written (`FileText`), what the language allows (`FileOk`). Reading back: each reader undoes its text in front of whatever may follow (`FileFields.lean`, `FileDecls.lean`); the difficulty is that a field may begin with an offset, which is an expression (`FileOffset.lean`: no expression that ends in front of a colon can be read from the beginning of a field). Nothing else is read: `FileSound.lean` for the text, `FileShape.lean` for the language. `FileDemands.lean`: the literals of a file stand in its text, and decimal numbers are those of C52 |
| C85 | Composition: `C83_tokens_partial`, `C84_reads_partial`, `C84_lexed` for `C62_accepted_iff`, and C78. The example goes from 300 characters to bits |
| C86 | `Alias.lean`: `get_fundamental_type` on the symbol table of a package, and the table of which the generator sees the types behind subtypes. `AliasSpec.lean`: the package in which subtypes are written out. The visitor turns this package into exactly that table (`AliasLemmas.lean`), so C78 and C85 apply to it |
| C87 | `Constant.lean`: `generate_constant`, with Rust's constant evaluation as the semantics of Rust expressions of C70, in which the names are the other constants; dependencies are ordered by a rank, because Rust refuses cycles. `ConstantSpec.lean`: every constant has the value of its expression in the schema. `evals_agree`: the result of a Rust expression depends only on the names in it; `C87_constants` then follows by induction on the rank with C70. `K`, the constants, is a parameter of the scopes of C76-C86, so the theorems about types hold with constants in their expressions |
| C88 | `Compile.lean`, `Constant.lean` (`EnumSeen`): the type of a field that is an enumeration (`type_reference_to_expression_type`), the type name in front of a dot, and the numbers that are emitted for the items (C46). `TextSpec.lean` (`Enumeration`, `Constants.item`) and `ConstantSpec.lean` (`EnumStands`): what the text declares. `enums_seen`: both are the same for the symbols of the package without subtypes (C86). Enumerations are part of the parameter `K` of the scopes of C76-C87, so the theorems about types hold with them in expressions |
| C89 | `SourceSpec.lean` (`ParamTy`): the types of parameters and their values. `ExprType.lean` (`argumentCode`), `PackageCode.lean` (`ParamsSeen`, `ArgsSeen`, `SelectorSeen`, `LabelsSeen`): what the generator makes of them, for the symbols of the package. `PackageSpec.lean` (`ParamIs`, `ArgsStand`, `SelectorIs`, `LabelIs`): what the text says. The theorems about whole packages were restated with them; the example is a package with a choice on an enumeration and a structure with a boolean parameter |
| C90 | `PlaceText.lean`: the emitted texts around an expression. `PropsReading.lean`: each of them is read (`ReadsAs`, C47) as the tree that C71 executes. `Written.Accepts` demands what C47 needs (`separable`, `units`), so the theorems about types no longer are about trees only |
| C91 | `Constant.lean` (`ObjectsSeen`): the members of the structures in the symbol table. `ConstantSpec.lean` (`ObjectsStand`): those that the text declares. `TextSpec.lean` (`Constants.member`, `Stands.dot`): what a path means. `PropsObject.lean`: both are the same; a member of an object means what its name means in the expressions of the structure; an element of an array of structures is the object with that index. The world of values in C76-C90 now has objects; the example is a package with `header.len` as a length and `header.kind` in a condition |
| C92 | `Constant.lean` (`MasksSeen`): the values that are generated for the bitmasks in the symbol table, with the evaluation of `Items.lean` (C46). `ConstantSpec.lean` (`MasksStand`): the values that the text declares. `TextSpec.lean` (`Constants.masks`, `datumOf`, `Constants.item`): what they mean in expressions. `PropsBitmask.lean`: both are the same; a value means its number, a field the number that it holds. The example is a package with `isset(f, Flags.B)` as a condition and `valueof(f)` as a length |
| C93 | `Function.lean` (`CallsSeen`): what the emitted methods return, by running the emitted bodies (`functionCode`, C70) by the rules for Rust, where a call in a body returns what that method returns. `TextSpec.lean` (`Constants.calls`, `textLook`, `Stands.call`): what calls mean in expressions. `PackageSpec.lean` (`usable`): a function may be called where all that it needs is already written or read. `PropsFunction.lean`: a call is the value of the expression of the function (C70); the methods of a package are unique, by induction on the depth of calls; objects are restored. The example is `uint8 data[size()]` with `function uint8 size() { return n * 2; }` |
| C94 | `TextSpec.lean` (`methodsOf`, `Constants.method`, `Stands.method`): the functions of a structure are parts of its objects, and a call of one is what the method returns for the object. `PackageCode.lean` (`Ast.Struct.methods`): the same parts as the generator finds them. `MethodLemmas.lean`: the value of an expression needs the methods only of the objects inside. `PropsFunction.lean`: the methods of a package exist and are unique, by induction on the depth of the types and, for one type, on the depth of calls. `PropsMethod.lean`: a call through a path, such as a field or an element of an array, is the call in the expressions of that object, and so its value (C93). The example is `uint8 data[size()]` with `function uint8 size() { return part.size(); }`, where `part` has a function of the same name |
| C95 | `AcyclicSpec.lean` (`ConstUses`, `FuncUses`, `TypeUses`, `NoCycle`): which constants, functions and types use which, by the text, and that nothing is connected to itself by a chain of these relations. `AcyclicLemmas.lean`: where there are no cycles among finitely many things there are ranks (a chain longer than the list of things would repeat one of them); the names in an emitted expression are used in the text. `PropsAcyclic.lean`: so the emitted constants and methods have ranks (C87, C93); in the other direction, Rust refuses constants that use themselves, because no values go with them (`C95_refused`; `ConstMentions` leaves out names in front of a dot, which may be those of enumerations). What is generated for a function that calls itself goes with every value (`C95_self_call`). The examples are two constants that use each other, and the package of C94 from its characters to the bits of an object, with conditions on the text only |
| C96 | `PropsUndefined.lean`: from the values of the operands (`value_main`, the induction of C70), the definition of indexing and division in Rust (`Evals`), and that an index is not negative as a `usize`. `PropsUndefinedReader.lean`: a structure `uint8 a; uint8 b; uint8 c[a / b];` whose reader panics (C49) |
| C40 | bit patterns as `UInt32`/`UInt64` |
| C41 | counterexample (stale optional fields) and theorem for types without optional/conditional fields |
| C42 | truncation witness and theorem for encodings below 2^32 |
| C43 | the length header; witness for all lists of 2^32 and more booleans |

## 5. Disagreements between code and properties

Each is proved by the theorem named; the `_partial` theorem of the same property says what does hold.

| property | what the code does | theorem |
|---|---|---|
| C02 | `varint` of `i64::MIN`: debug build panics (negation overflow), release build writes `0x80`, which reads back as 0 | `C02_varint_min_violated` |
| C03 | `varint64` of `i64::MIN` is out of range but is accepted in release builds and stored as 0 | `C03_varint64_min_violated` |
| C12 | `read_string` unwraps the result of reading the length; `read_extern_type` unwraps the last partial byte | `C12_string_extern_panic_violated` |
| C12 | `DeltaContext::read_descriptor` unwraps: input that ends before the descriptor panics | `C12_packed_array_violated` |
| C16 | `StringArrayTrait::bitsize_of` adds bytes to bits: string array sizes are too small | `C16_string_array_violated` |
| C18 | with element alignment the one-bit descriptor costs up to a byte | `C18_aligned_violated` |
| C17, C20 | debug builds: `u64`/`i64` neighbours on different sides of 2^63 overflow in the delta subtraction | `C20_packed_overflow_violated` |
| C21 | `to_u64` of bool, float and string traits is 0: packed arrays lose everything but the first element; bytes and extern traits panic | `C21_packed_*_violated` |
| C42 | `read_varsize` truncates values of 2^32 and more | `C42_varsize_truncates_violated` |
| C43 | `array.rs` casts the length to `u32`: 2^32 + n elements are written behind the length n | `C43_long_array_violated` |
| C25 | fields of type `bytes` and `extern`: the length header is not counted; `bit<expr>`, `int<expr>`: counted as 0 bits | `C25_fields_violated` |
| C25 | arrays of strings (C16); strings of 2^32 bytes and more | `C25_string_arrays_violated`, `C25_huge_strings_violated` |
| C27 | bitmask values: an implicit value is the previous value shifted left, so behind an explicit value with several bits or 0 it is no new single bit, and item 65 gets 0 | `C27_values_violated` |
| C28 | an unknown union selector panics | `C28_unknown_selector_violated` |
| C31 | a structure in a packed array also packs its inner arrays, even those of types that cannot be packed (strings are lost) | `C31_inner_arrays_violated` |
| C32 | packed `bit:n`, `int:n` fields and enums over them are counted as if not packed; union selectors are not counted; inner string arrays | `C32_packed_bits_violated`, `C32_packed_union_violated`, `C32_inner_strings_violated` |
| C33 | packed unions: the selector is written but not read, integer members panic | `C33_packed_union_violated` |
| C33 | packed choices: unselected branches (with an enum default other than 0) spoil the delta width | `C33_packed_choice_violated` |
| C41 | absent optional fields, conditional fields, unselected branches and union members keep the old value of a reused object | `C41_used_object_violated` |
| C35 | `c ? a : b` with a condition not known to the compiler is evaluated with a dummy condition and reported as resolved | `C35_ternary_violated`, `C35_ternary_literals_violated` |
| C35 | `<<` and (in release builds of the compiler) all arithmetic is done in 32 bits | `C35_shift_violated`, `C35_release_violated` |
| C35 | float literals without fraction are emitted as integers, `5.0 / 2.0` becomes `5 / 2` | `C35_float_violated` |
| C36 | `uint64`, `bit:n`, `int:n` mixed with any other type panic | `C36_violated`, `C36_sum_violated` |
| C37 | with cyclic imports an undefined name is looked for forever | `C37_cyclic_imports_violated` |
| C38 | cyclic subtypes are followed forever | `C38_cyclic_subtypes_violated` |
| C39 | the name of an instantiation joins template and argument names without separator, without bit lengths, packages and inner arguments | `C39_*_violated` |
| C44 | the symbol of an import is ignored | `C44_selection_ignored_violated` |
| C45 | an instantiation whose name is taken silently reuses the other type; inner template arguments and parameters of choices are not substituted | `C45_*_violated` |
| C46 | items defined by a constant get 0; the item after 2147483647 overflows even if there is none; bitmask items after values of several bits or 0 | `C46_*_violated` |
| C47 | `isset(m, x)` is emitted as `m & (x) != 0` and `valueof(c)` as `c as T`, without parentheses: `!isset(..)` negates the mask, `-valueof(..)` negates before the cast, in comparisons they do not compile | `C47_not_isset_violated`, `C47_neg_valueof_violated`, `C47_rejected_violated` |
| C47 | `+x`, `~x`, `a == b == c` are emitted as they are, which is no Rust | `C47_rejected_violated` |
| C47 | arguments: `.clone() as T` is appended to the text of an operation and so applies to its last operand only | `C47_arguments_violated` |
| C49 | strings and packed arrays at the end of the data, extern values without their last bits, unknown union selectors panic | `C49_violated` |
| C50 | five bytes are read as `varsize` 2^32 - 1, writing that panics; deltas of packed `bit:n` arrays leave the range and are silently written as other values; arrays of 2^31 and more empty elements cannot be written | `C50_*_violated` |
| C51 | arrays of empty structures and packed arrays with delta width 0: at most seven bytes give any length below 2^31 | `C51_*_violated` |
| C52 | integer literals of 2^31 and more, capital `0X` and `B`, every binary literal and every literal with suffix `f` make the compiler panic; `"\012"` silently becomes three characters; `\f`, `\u....`, `\x80`-`\xff` give invalid Rust; `1.0` becomes the integer literal `1` | `C52_*_violated`, `C52_float_suffix` |
| C53 | packages `a` and `a.b`: the top-level file contains `pub mod a { pub mod b; }`, `a/mod.rs` is never read | `C53_prefix_violated`, `C54_prefix_violated` |
| C54 | only `type`, `struct` and `self` are treated as reserved: a symbol, package or module called `loop`, `match`, `fn`, … panics in `syn`; `Type` and `z_type` share one file, and the order of a hash map decides which survives; a package `lib` clashes with `lib.rs` | `C54_keyword_violated`, `C54_collision_violated`, `C54_root_violated` |
| C56 | `optional extern e;` and `optional bytes b;`: `requires_borrowing` (`encode.rs` lines 105-123) is false for them, so `if let Some(x) = self.e` moves out of a borrow, and the generated crate does not compile; `bit b;` and `bit:0 b;` call `ztype::write_bit`, which does not exist | `C56_moves_iff`, `C56_missing_write_iff` |
| C57 | `uint8 n; uint8 a[10 / n] if n != 0;`: the length of `a` is evaluated in front of the condition, so writing, measuring and reading an object with `n = 0` panics | `C57_array_length_violated` |
| C58 | only operands of `+ - * / %` are cast, and only if their type is known: `a < b`, `a & b`, `p ? a : b` with `uint8 a; uint16 b;`, `(a & 1) + b`, `f + 1` and `f + 2.0` with `float32 f;`, `a + -5` and `-a`, `o + 1` with `optional uint8 o;` are accepted and generate code that does not type-check | `C58_*_violated` |
| C58 | `valueof(x)` becomes `x.bits() as T` only if `x` is a bitmask field or parameter, otherwise `x as T` (generator/expression.rs 180-197): `valueof` of a bitmask constant, of a function that returns a bitmask and of an optional enum or bitmask field is accepted and does not type-check | `C58_valueof_violated` |
| C59 | `const float32 F = 2.0;` becomes `pub const F: f32 = 2;`; `const uint16 A = B;` with `const uint8 B` is not cast; `bit<b & 7>` with `uint16 b` passes a `u16` for a `u8`; a function that returns a string literal becomes `("abc") as String`, one that returns a string constant yields a `&str` | `C59_*_violated` |
| C60 | the default of a choice is never visited: `default: uint8 b;` disappears, values of the selector without a case are silently read and written as nothing; constraints of fields in choices and unions, `extend`, `deprecated` and `removed` disappear | `C60_*_violated` |
| C61 | of two structures (choices, unions) of one name only the last is kept, without an error; a subtype hides a structure of the same name; of two files that belong to one package only the last is kept; a file without `package` makes the compiler panic although the grammar makes it optional; SQL tables, services, pubsub and rules are ignored without an error | `C61_*_violated` |
| C62 | the compiler panics for correct files: integers above 2147483647, `0XFF`, `1.5f`, `align(0x8)`, `align((8))`, `align(N)`, a file without package name; there is no other kind of refusal | `C62_accepted_violated`, `C62_panics_violated` |
| C63 | `case 1 \| 2:` is written as the pattern `1 \| 2` and takes 1 and 2 instead of 3, likewise `M.R \| M.W` for bitmasks; `case K:` with a constant makes the compiler panic if the selector is a `uint8`; `on (a)`, `on a.b`, `on a + 1` are written as `match self.(`, `self..`, `self.+`; `case @index:` takes every value | `C63_or_violated`, `C63_constant_violated`, `C63_selector_violated`, `C63_index_violated` |
| C39 | instantiations of different templates can have the same name: `BoxA<B>` and `Box<AB>` | `C39_templates_violated` |
| C64 | too few arguments are accepted and the other parameters are 0 in the reader, while the writer does not check them; too many arguments panic with an index out of range; `S(3) s[]` for a type without fields is not Rust; parameters `type` and `z_type` become one member | `C64_few_violated`, `C64_unchecked_violated`, `C64_few_items_iff`, `C64_many_violated`, `C64_names_violated` |
| C65 | `lib.Inner` is accepted if any `Inner` is visible and panics later, `far.Far` is refused if `Far` is not imported; a subtype as the type of an enumeration or bitmask always panics; names in a template are bound in the package that uses it, to another type of the same name | `C65_qualified_violated`, `C65_base_type_violated`, `C65_template_violated` |
| C66 | `x + y` with `T x; uint32 y;` gets the casts of the instance that comes first in a hash map, so the code of the others may not compile; an expression that is wrong in one instance is accepted if another comes first; offset fields are marked in the first instance only, so that packed arrays of the other instances have another format, and builds of one program can differ in it | `C66_types_violated`, `C66_accepted_violated`, `C66_offset_violated` |
| C45 | template arguments in the types of parameters and functions are left as they are, with the template parameter | `C45_parameter_violated` |
| C67 | `struct Item { uint8 value; optional Item next; };` is valid zserio, but becomes a Rust structure with a member `Option<Item>`, which has infinite size (error E0072) | `C67_size_violated` |
| C68 | n bytes `01` make the readers of `struct Nest { Nest inner[]; };` call each other more than n times, so a hostile input overflows the stack | `C68_depth_violated` |
| C68 | the reader of `struct Loop { Loop inner[1]; };`, which Rust accepts, never ends | `C68_endless_violated` |
| C69 | fields, parameters and functions with the name of a Rust keyword other than `type`, `struct`, `self` (`match`, `fn`, `loop`, `use`, ...) keep it, and the generated file does not compile | `C69_keyword_violated` |
| C69 | `_type` becomes the keyword `type`, `_1` becomes `1`, `_` becomes nothing | `C69_underscore_violated` |
| C69 | `fooBar` and `foo_bar`, `a1` and `a_1`, `type` and `zType` as fields, or `A1` and `A_1`, `FOO` and `Foo` as items get the same name | `C69_same_violated` |
| C69 | a field `unionSelector` of a union becomes a second member `union_selector` | `C69_selector_violated` |
| C69 | a function `zserioRead` or `clone` of a type is called instead of the method of the trait | `C69_function_violated` |
| C69 | a type named `Result`, `BitReader`, `BitWriter`, `ZserioPackableObject`, `PackingContextNode` or `DeltaContext` clashes with an import of its file | `C69_type_violated` |
| C70 | sums, differences and products are computed in the wider of the types of the operands: `a + b` with `uint8 a; uint8 b;` and the values 200 and 200 panics in debug builds and is 144 in release builds; `a - b` of unsigned fields with `a < b` likewise | `C70_overflow_violated` |
| C70 | a signed operand next to an unsigned one that is not narrower is cast to the unsigned type: `c / d` with `int8 c; uint32 d;` and the values -4 and 2 is 2147483646, without any error | `C70_sign_violated` |
| C70 | the length of an array is cast to `usize`: a negative length is not an error but a length of almost `2^64` | `C70_length_violated` |
| C71 | with `uint8 a; uint8 b; uint8 c[a + b];` the object `a = b = 200` with 400 elements is valid, but the generated writer panics in debug builds | `C71_panic_violated` |
| C70 | the width of `bit<e>` is cast to `u8`: for a value of 300 the code writes 44 bits, without any error | `C70_width_violated` |
| C72 | `struct { string xs[]; }` with `["a"]` is wrapped in an extern value of 17 instead of 24 bits; after writing and reading it is `["\0"]`, without an error | `C72_silent_violated` |
| C72 | the same structure with `["abc"]`: `from_object` panics in debug builds; in release builds the value cannot be unwrapped | `C72_debug_violated` |
| C74 | a packed `int8` array with the numbers -1, 0, -1 is stored one by one though differences take fewer bits: distances are those of the numbers cast to `u64` (`delta_context.rs`) | `C74_sign_violated` |
| C74 | for a packed array with choices, the default values of fields that are not selected are counted, so columns are not packed or wider than needed (`zchoice.rs` 99-112) | `C74_choice_violated` |
| C75 | in debug builds the reader panics at packed arrays of 64-bit numbers on both sides of 2^63, though other writers emit these (`delta_context.rs`, addition of the difference in `i64`) | `C75_debug_violated` |
| C77 | constraints are not checked; the README says so (`ast/field.rs` line 52 is not used) | `C77_constraint_violated` |
| C77 | initializers are evaluated and then ignored: `Default` is derived (`generator/zstruct.rs` lines 50-53) | `C77_initializer_violated` |
| C77 | implicit arrays are written like `[]`, with their number of elements; other implementations cannot read them (`ast/field.rs` line 19 is not used) | `C77_implicit_violated` |
| C77 | offsets are neither set by the writer nor checked by the reader (`generator/encode.rs` lines 152-168) | `C77_offset_violated` |
| C80 | Two structures `Type` and `z_type` of one package are written to the same file; whose code it contains changes from run to run | `C80_clash_violated` |
| C80 | Instances of a template share their expressions, which are translated with the types of the instance that comes first in a hash map: the emitted text changes from run to run, and a schema may be accepted in one run and make the compiler panic in the next | `C80_expression_violated`, `C80_accepted_violated` |
| C80 | `Pair<A, BC>` and `Pair<AB, C>` are both called `PairABC`; which of them is generated changes from run to run | `C80_instance_violated` |
| C67 | A template with a field of its own type (`struct Tree<T> { T value; Tree<T> children[]; }`) is instantiated endlessly: the instance is stored only after its fields have been instantiated | `C67_template_violated` |
| C81 | The name of the type of a declaration is looked up from where the declaration is used: with `subtype uint8 T; const T X = 1;` in one package, and another type `T` in the package that uses `X`, `X` has that other type; the same for results of functions | `C81_shadow_violated`, `C81_result_violated` |
| C81 | `get_symbol_name` returns the empty name for unions, so that members of unions are never found behind a dot; the compiler panics | `C81_union_violated` |
| C81 | Behind a dot, declarations of the package are accepted as if they were members: `s.K` for a constant `K` | `C81_no_member_violated` |
| C82 | Declarations are evaluated while they are borrowed mutably: `enum uint8 E { A = 1, B = A + 1 };`, `bitmask uint8 M { A = 1, B = 2, AB = M.A \| M.B };`, a function that calls itself on another object, and a condition of a field on the same field of another object make the compiler panic (`already mutably borrowed`) | `C82_own_violated`, `C82_item_violated`, `C82_bitmask_violated`, `C82_function_violated`, `C82_field_violated` |
| C83 | `/**/` is no complete comment for `DOC_COMMENT`, which then matches up to the end of the next comment and is longer than `BLOCK_COMMENT`: in `/**/ a /* */ b` the `a` is lost without a message | `C83_comment_violated` |
| C84 | the grammar has two readings of `A<B> x : a < b > c;`: a field `x` with a constraint, and a field `c` of the type `a<b>` at the offset `A < B > x`. The second one is taken | `C84_offset_violated` |
| C84 | a length behind the name of a type, which the grammar allows (for a subtype of `bit`), is read as a template argument | `C84_length_violated` |
| C87 | The value of a constant is not checked against its declared type: `const bit:3 N = 9;` is accepted, and `N` is 9 (a `u64`) | `C87_range_violated` |
| C89 | An argument that is a string literal is emitted as it is: `s: "no"` for a field `s: String`. Rust rejects it; a field or constant as argument gets `.clone()`, but a constant is a `&str` too. | `C89_string_violated` |
| C90 | The assertion of the writer is `e.b == x && y` for the argument `x && y`, without parentheses: Rust reads `(e.b == x) && y`, and the writer panics for valid objects. | `C90_assertion_violated` |
| C90 | For the argument `x == y` the assertion is `e.b == x == y`, which is no Rust. | `C90_comparison_violated` |
| C93 | A function that returns the sum, difference or product of two integer fields of its return type: if the result is out of range, the emitted method panics in debug builds and returns another number in release builds. | `C93_overflow_violated` |
| C49 | A length such as `a / b`, or one with an element of an array, has no value for some data: the emitted reader panics, in debug and in release builds. | `C49_expressions_violated` |
| C70 | `a << b` is done in the type of `a`: bits that are shifted out are lost, in debug and in release builds, without an error (`a << 4` is 128 if the `uint8` field `a` is 200). | `C70_shift_violated` |
| C70 | A shift by as many bits as the type has, or more, panics in debug builds; release builds shift by the rest of the division by the number of bits. | `C70_amount_violated` |

## 6. Axioms per theorem

Output of `#print axioms` (all names in namespace `Zs`).

| theorem | axioms |
|---|---|
| `C01_varuint_round_trip` | propext, Classical.choice, Quot.sound |
| `C02_varint_round_trip_partial` | propext, Classical.choice, Quot.sound |
| `C02_varint_min_violated` | propext, Classical.choice, Quot.sound |
| `C03_out_of_range_refused_partial` | propext, Quot.sound |
| `C03_varint64_min_violated` | propext, Classical.choice, Quot.sound |
| `C04_varuint_sizes_exact_minimal` | propext, Classical.choice, Quot.sound |
| `C04_varint_sizes_exact_minimal` | propext, Classical.choice, Quot.sound |
| `C04_sizes_monotone` | propext, Classical.choice, Quot.sound |
| `C05_varuint_layout` | propext, Classical.choice, Quot.sound |
| `C05_varint_layout` | propext, Classical.choice, Quot.sound |
| `C06_fixed_width_round_trip` | propext, Classical.choice, Quot.sound |
| `C07_bit_length_numbits` | propext, Classical.choice, Quot.sound |
| `C08_alignment` | propext, Quot.sound |
| `C08_align_to` | propext, Quot.sound |
| `C09_string_round_trip` | propext, Classical.choice, Quot.sound |
| `C10_bytes_round_trip` | propext, Classical.choice, Quot.sound |
| `C11_extern_round_trip` | propext, Classical.choice, Quot.sound |
| `C11_unused_bits_are_dropped` | propext, Classical.choice, Quot.sound |
| `C12_scalar_readers_never_panic_partial` | propext, Quot.sound |
| `C12_string_extern_panic_violated` | propext, Classical.choice, Quot.sound |
| `C12_string_panics_iff` | propext, Classical.choice, Quot.sound |
| `C12_unpacked_arrays_never_panic_partial` | propext, Quot.sound |
| `C12_packed_array_violated` | propext |
| `C13_scalar_truncation` | propext, Classical.choice, Quot.sound |
| `C13_scalar_readers_local` | propext, Classical.choice, Quot.sound |
| `C13_array_readers_local` | propext, Classical.choice, Quot.sound |
| `C13_array_truncation` | propext, Classical.choice, Quot.sound |
| `C13_schema_readers_local` | propext, Classical.choice, Quot.sound |
| `C13_schema_truncation` | propext, Classical.choice, Quot.sound |
| `C14_to_bytes_from_bytes` | propext, Quot.sound |
| `C14_to_writer_from_reader` | propext, Quot.sound |
| `C23_sequences_round_trip` | propext |
| `C34_encodings_prefix_free` | propext |
| `C34_schema_encodings_prefix_free` | propext, Classical.choice, Quot.sound |
| `C40_floats_keep_bits` | propext, Classical.choice, Quot.sound |
| `C42_read_varsize_denotes_partial` | propext, Classical.choice, Quot.sound |
| `C42_varsize_truncates_violated` | propext |
| `C15_unpacked_arrays_round_trip` | propext, Classical.choice, Quot.sound |
| `C15_unpacked_arrays_all_types` | propext, Classical.choice, Quot.sound |
| `C16_unpacked_size_exact` | propext, Classical.choice, Quot.sound |
| `C16_packed_size_exact` | propext, Classical.choice, Quot.sound |
| `C16_array_sizes_all_types_partial` | propext, Classical.choice, Quot.sound |
| `C16_string_array_violated` | propext, Classical.choice, Quot.sound |
| `C17_packed_integers_round_trip_partial` | propext, Classical.choice, Quot.sound |
| `C18_packing_overhead_partial` | propext, Classical.choice, Quot.sound |
| `C18_aligned_violated` | propext, Quot.sound |
| `C19_delta_width_suffices` | propext, Classical.choice, Quot.sound |
| `C20_packed_write_succeeds_partial` | propext, Classical.choice, Quot.sound |
| `C20_packed_overflow_violated` | propext, Quot.sound |
| `C21_packed_singletons_partial` | propext, Classical.choice, Quot.sound |
| `C21_packed_bool_violated` | propext, Classical.choice, Quot.sound |
| `C21_packed_float_violated` | propext, Classical.choice, Quot.sound |
| `C21_packed_string_violated` | propext, Classical.choice, Quot.sound |
| `C21_packed_buffers_violated` | propext, Quot.sound |
| `C22_preallocation_bounded` | propext, Classical.choice, Quot.sound |
| `C22_growth_bounded` | propext, Classical.choice, Quot.sound |
| `C22_result_independent_of_chunk` | propext, Quot.sound |
| `C43_wrong_length_refused_partial` | propext, Quot.sound |
| `C43_long_array_violated` | propext, Classical.choice, Quot.sound |
| `C24_schema_round_trip` | propext, Classical.choice, Quot.sound |
| `C24_schema_bytes` | propext, Classical.choice, Quot.sound |
| `C26_enum_values` | propext, Quot.sound |
| `C26_enum_decodes` | propext, Classical.choice, Quot.sound |
| `C27_implicit_values_partial` | propext, Classical.choice, Quot.sound |
| `C27_mixed_values_partial` | propext, Classical.choice, Quot.sound |
| `C27_values_violated` | none |
| `C28_union_round_trip_partial` | propext, Classical.choice, Quot.sound |
| `C28_unknown_selector_violated` | propext, Classical.choice, Quot.sound |
| `C29_choice_selected_branch` | propext, Classical.choice, Quot.sound |
| `C29_choice_nothing_selected` | propext, Classical.choice, Quot.sound |
| `C29_choice_round_trip` | propext, Classical.choice, Quot.sound |
| `C30_condition_false` | propext, Classical.choice, Quot.sound |
| `C30_optional_field` | propext, Classical.choice, Quot.sound |
| `C31_packed_structures_round_trip_partial` | propext, Classical.choice, Quot.sound |
| `C31_inner_arrays_violated` | propext, Classical.choice, Quot.sound |
| `C33_packed_choices_round_trip_partial` | propext, Classical.choice, Quot.sound |
| `C33_packed_union_violated` | propext, Classical.choice, Quot.sound |
| `C33_packed_choice_violated` | propext, Classical.choice, Quot.sound |
| `C41_used_object_partial` | propext, Classical.choice, Quot.sound |
| `C41_used_object_violated` | propext, Classical.choice, Quot.sound |
| `C25_sizes_exact_partial` | propext, Classical.choice, Quot.sound |
| `C25_valid_objects_partial` | propext, Classical.choice, Quot.sound |
| `C25_fields_violated` | propext, Classical.choice, Quot.sound |
| `C25_string_arrays_violated` | propext, Classical.choice, Quot.sound |
| `C25_huge_strings_violated` | propext, Classical.choice, Quot.sound |
| `C32_packed_sizes_partial` | propext, Classical.choice, Quot.sound |
| `C32_valid_arrays_partial` | propext, Classical.choice, Quot.sound |
| `C32_packed_bits_violated` | propext, Classical.choice, Quot.sound |
| `C32_packed_union_violated` | propext, Classical.choice, Quot.sound |
| `C32_inner_strings_violated` | propext, Classical.choice, Quot.sound |
| `C35_operations` | propext, Classical.choice, Quot.sound |
| `C35_bits` | propext, Classical.choice, Quot.sound |
| `C35_comparisons` | propext, Quot.sound |
| `C35_signs` | propext, Quot.sound |
| `C35_resolved_expressions_partial` | propext, Classical.choice, Quot.sound |
| `C35_literal_expressions_partial` | propext, Classical.choice, Quot.sound |
| `C35_complement_partial` | propext, Classical.choice, Quot.sound |
| `C35_ternary_violated` | propext, Quot.sound |
| `C35_ternary_literals_violated` | propext, Quot.sound |
| `C35_shift_violated` | propext, Quot.sound |
| `C35_release_violated` | propext, Quot.sound |
| `C35_float_violated` | propext, Quot.sound |
| `C36_mixing_partial` | propext |
| `C36_literals` | propext |
| `C36_floats` | propext |
| `C36_violated` | propext, Quot.sound |
| `C36_sum_violated` | propext |
| `C37_local_first` | propext |
| `C37_package_next` | propext |
| `C37_imports_breadth_first` | propext, Quot.sound |
| `C37_terminates_partial` | propext, Classical.choice, Quot.sound |
| `C37_runs_forever_iff` | propext, Classical.choice, Quot.sound |
| `C37_cyclic_imports_violated` | propext, Quot.sound |
| `C38_subtypes_partial` | propext, Classical.choice, Quot.sound |
| `C38_resolves_iff` | propext, Quot.sound |
| `C38_runs_forever_iff` | propext, Classical.choice, Quot.sound |
| `C38_cyclic_subtypes_violated` | none |
| `C39_same_arguments` | propext, Classical.choice, Quot.sound |
| `C39_name` | propext, Classical.choice, Quot.sound |
| `C39_same_name_iff` | propext, Classical.choice, Quot.sound |
| `C39_one_parameter_partial` | propext, Classical.choice, Quot.sound |
| `C39_templates_violated` | propext |
| `C39_bit_length_violated` | propext |
| `C39_nested_violated` | propext |
| `C39_two_parameters_violated` | propext |
| `C39_packages_violated` | propext |
| `C44_selected_symbol_partial` | propext, Classical.choice, Quot.sound |
| `C44_selection_ignored_violated` | propext |
| `C45_substitution_partial` | propext, Quot.sound |
| `C45_arguments` | propext, Classical.choice, Quot.sound |
| `C45_struct_partial` | propext, Quot.sound |
| `C45_union_partial` | propext, Quot.sound |
| `C45_choice_partial` | propext, Quot.sound |
| `C45_others` | propext, Quot.sound |
| `C45_parameter_violated` | propext, Quot.sound |
| `C45_name_taken_violated` | propext |
| `C45_nested_violated` | propext |
| `C45_choice_parameter_violated` | propext |
| `C46_enum_items_partial` | propext, Classical.choice, Quot.sound |
| `C46_bitmask_items_partial` | propext, Classical.choice, Quot.sound |
| `C46_constants_violated` | propext, Classical.choice, Quot.sound |
| `C46_largest_violated` | propext, Quot.sound |
| `C46_several_bits_violated` | propext, Quot.sound |
| `C46_zero_violated` | propext, Quot.sound |
| `C47_grouping_partial` | propext, Classical.choice, Quot.sound |
| `C47_conditions_partial` | propext, Classical.choice, Quot.sound |
| `C47_arguments_partial` | propext, Classical.choice, Quot.sound |
| `C47_arguments_violated` | propext, Quot.sound |
| `C47_not_isset_violated` | propext, Quot.sound |
| `C47_neg_valueof_violated` | propext, Quot.sound |
| `C47_rejected_violated` | propext, Quot.sound |
| `C48_encoding` | propext, Classical.choice, Quot.sound |
| `C48_to_bytes` | propext, Classical.choice, Quot.sound |
| `C48_encoding_unique` | propext, Classical.choice, Quot.sound |
| `C48_unpacked_unique` | propext, Classical.choice, Quot.sound |
| `C49_readers_never_panic_partial` | propext, Classical.choice, Quot.sound |
| `C49_violated` | propext, Classical.choice, Quot.sound |
| `C49_expressions_violated` | propext, Classical.choice, Quot.sound |
| `C50_accepted_is_valid_partial` | propext, Classical.choice, Quot.sound |
| `C50_reencode_partial` | propext, Classical.choice, Quot.sound |
| `C50_varsize_violated` | propext, Classical.choice, Quot.sound |
| `C50_packed_bits_violated` | propext, Classical.choice, Quot.sound |
| `C50_long_array_violated` | propext, Classical.choice, Quot.sound |
| `C51_memory_linear_partial` | propext, Classical.choice, Quot.sound |
| `C51_empty_elements_violated` | propext, Classical.choice, Quot.sound |
| `C51_packed_violated` | propext, Classical.choice, Quot.sound |
| `C52_integer_literal_partial` | propext, Classical.choice, Quot.sound |
| `C52_integer_refused` | propext, Classical.choice, Quot.sound |
| `C52_integer_violated` | propext, Classical.choice, Quot.sound |
| `C52_bool_literal` | propext, Classical.choice, Quot.sound |
| `C52_string_literal_partial` | propext, Classical.choice, Quot.sound |
| `C52_string_violated` | propext, Classical.choice, Quot.sound |
| `C52_float_literal_partial` | propext, Classical.choice, Quot.sound |
| `C52_float_suffix` | propext, Classical.choice, Quot.sound |
| `C52_float_violated` | propext, Classical.choice, Quot.sound |
| `C53_package_modules_partial` | propext, Classical.choice, Quot.sound |
| `C53_every_package_partial` | propext, Classical.choice, Quot.sound |
| `C53_no_duplicates` | propext, Classical.choice, Quot.sound |
| `C53_order` | propext, Classical.choice, Quot.sound |
| `C53_prefix_violated` | propext, Classical.choice, Quot.sound |
| `C54_symbols_found_partial` | propext, Classical.choice, Quot.sound |
| `C54_keyword_violated` | propext, Classical.choice, Quot.sound |
| `C54_collision_violated` | propext, Classical.choice, Quot.sound |
| `C54_prefix_violated` | propext, Classical.choice, Quot.sound |
| `C54_root_violated` | propext, Classical.choice, Quot.sound |
| `C55_emitted_code` | propext, Classical.choice, Quot.sound |
| `C55_unique` | propext, Classical.choice, Quot.sound |
| `C55_every_schema` | propext, Classical.choice, Quot.sound |
| `C55_emitted_round_trip` | propext, Classical.choice, Quot.sound |
| `C55_emitted_encoding` | propext, Classical.choice, Quot.sound |
| `C55_emitted_bitsize_partial` | propext, Classical.choice, Quot.sound |
| `C56_moves_iff` | propext, Quot.sound |
| `C56_missing_write_iff` | propext, Quot.sound |
| `C57_condition_false_partial` | propext, Classical.choice, Quot.sound |
| `C57_array_partial` | propext, Classical.choice, Quot.sound |
| `C57_array_length_violated` | propext, Classical.choice, Quot.sound |
| `C58_typed_iff` | propext, Classical.choice, Quot.sound |
| `C58_text_iff` | propext, Classical.choice, Quot.sound |
| `C58_native_type` | propext, Classical.choice, Quot.sound |
| `C58_integers_partial` | propext, Classical.choice, Quot.sound |
| `C58_numbers_partial` | propext, Classical.choice, Quot.sound |
| `C58_comparison_violated` | propext, Classical.choice, Quot.sound |
| `C58_bit_operation_violated` | propext, Classical.choice, Quot.sound |
| `C58_bits_then_sum_violated` | propext, Classical.choice, Quot.sound |
| `C58_float_literal_violated` | propext, Classical.choice, Quot.sound |
| `C58_sign_violated` | propext, Classical.choice, Quot.sound |
| `C58_ternary_violated` | propext, Classical.choice, Quot.sound |
| `C58_optional_violated` | propext, Classical.choice, Quot.sound |
| `C58_valueof_partial` | propext, Classical.choice, Quot.sound |
| `C58_valueof_violated` | propext, Classical.choice, Quot.sound |
| `C59_constant_iff` | propext, Classical.choice, Quot.sound |
| `C59_length_iff` | propext, Classical.choice, Quot.sound |
| `C59_bits_iff` | propext, Classical.choice, Quot.sound |
| `C59_condition_iff` | propext, Classical.choice, Quot.sound |
| `C59_function_iff` | propext, Classical.choice, Quot.sound |
| `C59_argument_iff` | propext, Classical.choice, Quot.sound |
| `C59_float_constant_violated` | propext, Quot.sound |
| `C59_constant_alias_violated` | propext, Quot.sound |
| `C59_bits_violated` | propext, Classical.choice, Quot.sound |
| `C59_string_function_violated` | propext, Classical.choice, Quot.sound |
| `C60_kept` | propext, Classical.choice, Quot.sound |
| `C60_literal_value` | propext, Classical.choice, Quot.sound |
| `C60_types_iff` | propext, Classical.choice, Quot.sound |
| `C60_struct_iff` | propext, Classical.choice, Quot.sound |
| `C60_choice_iff` | propext, Classical.choice, Quot.sound |
| `C60_union_iff` | propext, Classical.choice, Quot.sound |
| `C60_enum_iff` | propext, Classical.choice, Quot.sound |
| `C60_bitmask_iff` | propext, Classical.choice, Quot.sound |
| `C60_const_iff` | propext, Classical.choice, Quot.sound |
| `C60_alias_iff` | propext, Classical.choice, Quot.sound |
| `C60_nothing_lost_partial` | propext, Classical.choice, Quot.sound |
| `C60_default_violated` | propext, Classical.choice, Quot.sound |
| `C60_constraint_violated` | propext, Classical.choice, Quot.sound |
| `C60_extend_violated` | propext, Classical.choice, Quot.sound |
| `C60_removed_violated` | propext, Classical.choice, Quot.sound |
| `C61_lists` | propext, Classical.choice, Quot.sound |
| `C61_imports` | propext, Classical.choice, Quot.sound |
| `C61_last` | propext, Classical.choice, Quot.sound |
| `C61_nothing_else` | propext, Classical.choice, Quot.sound |
| `C61_found_iff` | propext, Classical.choice, Quot.sound |
| `C61_found_partial` | propext, Classical.choice, Quot.sound |
| `C61_members_partial` | propext, Quot.sound |
| `C61_files` | propext, Classical.choice, Quot.sound |
| `C61_files_partial` | propext, Classical.choice, Quot.sound |
| `C61_duplicate_violated` | propext, Classical.choice, Quot.sound |
| `C61_hidden_violated` | propext, Classical.choice, Quot.sound |
| `C61_files_violated` | propext, Classical.choice, Quot.sound |
| `C61_unnamed_violated` | propext, Classical.choice, Quot.sound |
| `C61_unsupported_violated` | propext, Classical.choice, Quot.sound |
| `C61_default_violated` | propext, Classical.choice, Quot.sound |
| `C62_accepted_iff` | propext, Classical.choice, Quot.sound |
| `C62_order` | propext, Classical.choice, Quot.sound |
| `C62_directory_iff` | propext, Classical.choice, Quot.sound |
| `C62_plain_partial` | propext, Classical.choice, Quot.sound |
| `C62_panics_violated` | propext, Classical.choice, Quot.sound |
| `C62_accepted_violated` | propext, Classical.choice, Quot.sound |
| `C63_taken_partial` | propext, Classical.choice, Quot.sound |
| `C63_pattern_partial` | propext, Classical.choice, Quot.sound |
| `C63_or_violated` | propext, Quot.sound |
| `C63_constant_violated` | propext, Quot.sound |
| `C63_selector_violated` | propext, Quot.sound |
| `C63_index_violated` | propext, Quot.sound |
| `C64_value` | propext, Classical.choice, Quot.sound |
| `C64_item` | propext, Classical.choice, Quot.sound |
| `C64_agree` | propext, Classical.choice, Quot.sound |
| `C64_few_violated` | propext, Classical.choice, Quot.sound |
| `C64_unchecked_violated` | propext, Classical.choice, Quot.sound |
| `C64_few_items_iff` | propext, Classical.choice, Quot.sound |
| `C64_many_violated` | propext, Classical.choice, Quot.sound |
| `C64_names_violated` | propext, Classical.choice, Quot.sound |
| `C65_name_iff` | propext, Quot.sound |
| `C65_unique` | propext, Quot.sound |
| `C65_struct_partial` | propext, Quot.sound |
| `C65_choice_partial` | propext, Quot.sound |
| `C65_union_partial` | propext, Quot.sound |
| `C65_subtype_partial` | propext, Quot.sound |
| `C65_const_partial` | propext, Quot.sound |
| `C65_found` | propext |
| `C65_package_partial` | propext, Quot.sound |
| `C65_qualified_iff` | propext, Quot.sound |
| `C65_qualified_violated` | propext, Quot.sound |
| `C65_base_type_violated` | propext |
| `C65_template_partial` | propext, Quot.sound |
| `C65_template_violated` | propext |
| `C65_scope` | propext, Classical.choice, Quot.sound |
| `C66_first_iff` | propext, Quot.sound |
| `C66_agree_partial` | propext, Quot.sound |
| `C66_single` | propext, Quot.sound |
| `C66_types_violated` | propext, Classical.choice, Quot.sound |
| `C66_accepted_violated` | propext, Quot.sound |
| `C66_offset_iff` | propext, Quot.sound |
| `C66_offset_violated` | propext, Classical.choice, Quot.sound |
| `C67_size_iff` | propext, Classical.choice, Quot.sound |
| `C67_size_violated` | propext, Classical.choice, Quot.sound |
| `C67_size_partial` | propext, Classical.choice, Quot.sound |
| `C67_contexts` | propext, Classical.choice, Quot.sound |
| `C67_round_trip_partial` | propext, Classical.choice, Quot.sound |
| `C67_template_violated` | propext, Quot.sound |
| `C68_depth_partial` | propext, Classical.choice, Quot.sound |
| `C68_depth_violated` | propext, Classical.choice, Quot.sound |
| `C68_endless_violated` | propext, Classical.choice, Quot.sound |
| `C69_member` | propext, Classical.choice, Quot.sound |
| `C69_variant` | propext, Classical.choice, Quot.sound |
| `C69_same_iff` | propext, Classical.choice, Quot.sound |
| `C69_ident_iff` | propext, Classical.choice, Quot.sound |
| `C69_struct_iff` | propext, Classical.choice, Quot.sound |
| `C69_union_iff` | propext, Classical.choice, Quot.sound |
| `C69_functions_iff` | propext, Classical.choice, Quot.sound |
| `C69_struct_partial` | propext, Classical.choice, Quot.sound |
| `C69_items_partial` | propext, Classical.choice, Quot.sound |
| `C69_keyword_violated` | propext, Classical.choice, Quot.sound |
| `C69_underscore_violated` | propext, Classical.choice, Quot.sound |
| `C69_same_violated` | propext, Classical.choice, Quot.sound |
| `C69_selector_violated` | propext, Classical.choice, Quot.sound |
| `C69_function_violated` | propext, Classical.choice, Quot.sound |
| `C69_type_violated` | propext, Classical.choice, Quot.sound |
| `C70_value_partial` | propext, Classical.choice, Quot.sound |
| `C70_text_partial` | propext, Classical.choice, Quot.sound |
| `C70_length_partial` | propext, Classical.choice, Quot.sound |
| `C70_length_violated` | propext, Classical.choice, Quot.sound |
| `C70_width_partial` | propext, Classical.choice, Quot.sound |
| `C70_width_violated` | propext, Classical.choice, Quot.sound |
| `C70_argument_partial` | propext, Classical.choice, Quot.sound |
| `C70_argument` | propext, Classical.choice, Quot.sound |
| `C70_function_partial` | propext, Classical.choice, Quot.sound |
| `C70_function_other_partial` | propext, Classical.choice, Quot.sound |
| `C70_condition_partial` | propext, Classical.choice, Quot.sound |
| `C70_operation_iff` | propext, Quot.sound |
| `C70_operation_partial` | propext, Classical.choice, Quot.sound |
| `C70_overflow_violated` | propext, Classical.choice, Quot.sound |
| `C70_sign_violated` | propext, Classical.choice, Quot.sound |
| `C70_shift_violated` | propext, Classical.choice, Quot.sound |
| `C70_amount_violated` | propext, Classical.choice, Quot.sound |
| `C71_generated_partial` | propext, Classical.choice, Quot.sound |
| `C71_round_trip_partial` | propext, Classical.choice, Quot.sound |
| `C71_encoding_partial` | propext, Classical.choice, Quot.sound |
| `C71_every_type` | propext, Classical.choice, Quot.sound |
| `C71_panic_violated` | propext, Classical.choice, Quot.sound |
| `C72_from_object` | propext, Classical.choice, Quot.sound |
| `C72_too_large` | none |
| `C72_schema_partial` | propext, Classical.choice, Quot.sound |
| `C72_accepted_iff` | propext, Quot.sound |
| `C72_silent_violated` | propext, Classical.choice, Quot.sound |
| `C72_debug_violated` | propext, Classical.choice, Quot.sound |
| `C73_round_trip_partial` | propext, Classical.choice, Quot.sound |
| `C73_encoding_partial` | propext, Classical.choice, Quot.sound |
| `C73_bitsize_partial` | propext, Classical.choice, Quot.sound |
| `C73_executes` | propext, Classical.choice, Quot.sound |
| `C73_every_schema` | propext, Classical.choice, Quot.sound |
| `C74_best_partial` | propext, Classical.choice, Quot.sound |
| `C74_sign_violated` | propext, Classical.choice, Quot.sound |
| `C74_choice_violated` | propext, Classical.choice, Quot.sound |
| `C75_reads_every_encoding` | propext, Classical.choice, Quot.sound |
| `C75_reads_best_encoding` | propext, Classical.choice, Quot.sound |
| `C75_from_bytes` | propext, Classical.choice, Quot.sound |
| `C75_unambiguous` | propext, Classical.choice, Quot.sound |
| `C75_emitted` | propext, Classical.choice, Quot.sound |
| `C75_whole_schema_partial` | propext, Classical.choice, Quot.sound |
| `C75_debug_violated` | propext, Classical.choice, Quot.sound |
| `C76_names` | propext, Classical.choice, Quot.sound |
| `C76_fields` | propext, Classical.choice, Quot.sound |
| `C76_round_trip_partial` | propext, Classical.choice, Quot.sound |
| `C76_encoding_partial` | propext, Classical.choice, Quot.sound |
| `C76_every_structure` | propext, Classical.choice, Quot.sound |
| `C77_same_code` | propext, Classical.choice, Quot.sound |
| `C77_constraint_violated` | propext, Classical.choice, Quot.sound |
| `C77_initializer_violated` | propext, Classical.choice, Quot.sound |
| `C77_implicit_violated` | propext, Classical.choice, Quot.sound |
| `C77_offset_violated` | propext, Classical.choice, Quot.sound |
| `C78_types` | propext, Classical.choice, Quot.sound |
| `C78_every_type` | propext, Classical.choice, Quot.sound |
| `C78_round_trip_partial` | propext, Classical.choice, Quot.sound |
| `C78_encoding_partial` | propext, Classical.choice, Quot.sound |
| `C78_bitsize_partial` | propext, Classical.choice, Quot.sound |
| `C79_reads` | propext, Classical.choice, Quot.sound |
| `C79_only` | propext, Classical.choice, Quot.sound |
| `C79_unambiguous` | propext, Classical.choice, Quot.sound |
| `C79_calls` | propext, Classical.choice, Quot.sound |
| `C80_module_file` | propext, Classical.choice, Quot.sound |
| `C80_files_partial` | propext, Classical.choice, Quot.sound |
| `C80_symbols_iff` | propext, Classical.choice, Quot.sound |
| `C80_clash_violated` | propext, Classical.choice, Quot.sound |
| `C80_expression_iff` | propext, Classical.choice, Quot.sound |
| `C80_expression_violated` | propext, Quot.sound |
| `C80_accepted_violated` | propext, Quot.sound |
| `C80_instances_partial` | propext, Classical.choice, Quot.sound |
| `C80_instantiates_iff` | propext, Classical.choice, Quot.sound |
| `C80_instance_violated` | propext |
| `C81_types_partial` | propext, Classical.choice, Quot.sound |
| `C81_names_partial` | propext, Classical.choice, Quot.sound |
| `C81_members_partial` | propext, Classical.choice, Quot.sound |
| `C81_scope` | propext, Classical.choice, Quot.sound |
| `C81_shadow_violated` | propext, Classical.choice, Quot.sound |
| `C81_result_violated` | propext, Classical.choice, Quot.sound |
| `C81_no_member_violated` | propext, Classical.choice, Quot.sound |
| `C81_union_violated` | propext, Classical.choice, Quot.sound |
| `C82_looks_iff` | propext, Classical.choice, Quot.sound |
| `C82_partial` | propext, Classical.choice, Quot.sound |
| `C82_own_violated` | propext, Classical.choice, Quot.sound |
| `C82_item_violated` | propext, Classical.choice, Quot.sound |
| `C82_bitmask_violated` | propext, Classical.choice, Quot.sound |
| `C82_function_violated` | propext, Classical.choice, Quot.sound |
| `C82_field_violated` | propext, Classical.choice, Quot.sound |
| `C83_divided` | propext, Classical.choice, Quot.sound |
| `C83_tokens_partial` | propext, Classical.choice, Quot.sound |
| `C83_unambiguous` | propext, Classical.choice, Quot.sound |
| `C83_comment_violated` | propext, Classical.choice, Quot.sound |
| `C83_literals` | propext, Classical.choice, Quot.sound |
| `C83_names` | propext, Classical.choice, Quot.sound |
| `C83_expression_partial` | propext, Classical.choice, Quot.sound |
| `C83_demands` | propext, Classical.choice, Quot.sound |
| `C83_whole` | propext, Classical.choice, Quot.sound |
| `C84_reads_partial` | propext, Classical.choice, Quot.sound |
| `C84_only` | propext, Classical.choice, Quot.sound |
| `C84_unambiguous_partial` | propext, Classical.choice, Quot.sound |
| `C84_characters_partial` | propext, Classical.choice, Quot.sound |
| `C84_characters_only` | propext, Classical.choice, Quot.sound |
| `C84_lexed` | propext, Classical.choice, Quot.sound |
| `C84_accepted_iff` | propext, Classical.choice, Quot.sound |
| `C84_offset_violated` | propext, Classical.choice, Quot.sound |
| `C84_length_violated` | propext, Classical.choice, Quot.sound |
| `C85_package` | propext, Classical.choice, Quot.sound |
| `C85_round_trip_partial` | propext, Classical.choice, Quot.sound |
| `C85_encoding_partial` | propext, Classical.choice, Quot.sound |
| `C85_bitsize_partial` | propext, Classical.choice, Quot.sound |
| `C86_same_symbols` | propext, Classical.choice, Quot.sound |
| `C86_types` | propext, Classical.choice, Quot.sound |
| `C86_every_type` | propext, Classical.choice, Quot.sound |
| `C86_round_trip_partial` | propext, Classical.choice, Quot.sound |
| `C86_encoding_partial` | propext, Classical.choice, Quot.sound |
| `C86_bitsize_partial` | propext, Classical.choice, Quot.sound |
| `C86_characters_partial` | propext, Classical.choice, Quot.sound |
| `C87_constants` | propext, Classical.choice, Quot.sound |
| `C87_every_constant` | propext, Classical.choice, Quot.sound |
| `C87_literals` | propext, Classical.choice, Quot.sound |
| `C87_round_trip_partial` | propext, Classical.choice, Quot.sound |
| `C87_encoding_partial` | propext, Classical.choice, Quot.sound |
| `C87_bitsize_partial` | propext, Classical.choice, Quot.sound |
| `C87_characters_partial` | propext, Classical.choice, Quot.sound |
| `C87_range_violated` | propext, Classical.choice, Quot.sound |
| `C88_enumerations` | propext, Classical.choice, Quot.sound |
| `C88_item` | propext, Classical.choice, Quot.sound |
| `C88_round_trip_partial` | propext, Classical.choice, Quot.sound |
| `C88_encoding_partial` | propext, Classical.choice, Quot.sound |
| `C88_bitsize_partial` | propext, Classical.choice, Quot.sound |
| `C89_count` | propext, Classical.choice, Quot.sound |
| `C89_argument_partial` | propext, Classical.choice, Quot.sound |
| `C89_item` | propext, Quot.sound |
| `C89_labels` | propext, Classical.choice, Quot.sound |
| `C89_selector` | propext, Classical.choice, Quot.sound |
| `C89_string_violated` | propext, Quot.sound |
| `C90_parsed` | propext, Classical.choice, Quot.sound |
| `C90_condition` | propext, Classical.choice, Quot.sound |
| `C90_length` | propext, Classical.choice, Quot.sound |
| `C90_bits` | propext, Classical.choice, Quot.sound |
| `C90_argument` | propext, Classical.choice, Quot.sound |
| `C90_assertion` | propext, Classical.choice, Quot.sound |
| `C90_assertion_violated` | propext, Quot.sound |
| `C90_comparison_violated` | propext, Quot.sound |
| `C91_objects` | propext, Classical.choice, Quot.sound |
| `C91_every_package` | propext, Classical.choice, Quot.sound |
| `C91_object` | propext, Classical.choice, Quot.sound |
| `C91_element` | propext, Classical.choice, Quot.sound |
| `C91_member` | propext, Classical.choice, Quot.sound |
| `C91_path` | propext, Classical.choice, Quot.sound |
| `C92_bitmasks` | propext, Classical.choice, Quot.sound |
| `C92_value` | propext, Classical.choice, Quot.sound |
| `C92_field` | propext, Classical.choice, Quot.sound |
| `C93_call_partial` | propext, Classical.choice, Quot.sound |
| `C93_valid_partial` | propext, Classical.choice, Quot.sound |
| `C93_every_package` | propext, Classical.choice, Quot.sound |
| `C93_names` | propext, Classical.choice, Quot.sound |
| `C93_unique` | propext, Classical.choice, Quot.sound |
| `C93_round_trip_partial` | propext, Classical.choice, Quot.sound |
| `C93_encoding_partial` | propext, Classical.choice, Quot.sound |
| `C93_bitsize_partial` | propext, Classical.choice, Quot.sound |
| `C93_characters_partial` | propext, Classical.choice, Quot.sound |
| `C93_overflow_violated` | propext, Classical.choice, Quot.sound |
| `C94_path` | propext, Classical.choice, Quot.sound |
| `C94_field` | propext, Classical.choice, Quot.sound |
| `C94_element` | propext, Classical.choice, Quot.sound |
| `C94_call_partial` | propext, Classical.choice, Quot.sound |
| `C95_constants` | propext, Classical.choice, Quot.sound |
| `C95_functions` | propext, Classical.choice, Quot.sound |
| `C95_names` | propext, Classical.choice, Quot.sound |
| `C95_refused` | propext, Classical.choice, Quot.sound |
| `C95_self_call` | propext, Classical.choice, Quot.sound |
| `C95_characters_partial` | propext, Classical.choice, Quot.sound |
| `C96_element` | propext, Classical.choice, Quot.sound |
| `C96_division` | propext, Classical.choice, Quot.sound |
| `C96_length` | propext, Classical.choice, Quot.sound |
| `C96_width` | propext, Classical.choice, Quot.sound |
| `C96_condition` | propext, Classical.choice, Quot.sound |
