# Formal model of csv++ in Lean 4

The sources in `/repo` (crates `csv-plus-plus` in `src/` and `csvp` in `csvp/src/`) are read as text and
modelled by hand as Lean functions and transition systems; nothing in `/repo` is executed.  Every definition of the
model cites the lines it models.

## Trusted base

**Lean.** The kernel of Lean 4.33.0.  `vcheck` replays every module.  The proofs use `decide` and, where
well-founded recursion blocks the elaborator's reduction, `decide +kernel` (evaluation by the kernel); neither uses compiled
code.  There is no `native_decide`, `bv_decide`, own axiom or unfinished proof.  The axioms of the theorems in
MANIFEST.json, as printed by `#print axioms`, are a subset of the three of Lean's library: `propext`, `Quot.sound`
and `Classical.choice`.  From Mathlib only lemmas about lists, orders, relations and rational numbers and tactics are used.

**The translation.** That the Lean definitions say what the Rust code does is trusted; it was done function by function
and reviewed against the source and its unit tests (many of the unit tests are `example`s).  Rust's types are represented as follows:

| Rust | model |
|---|---|
| `String`, `&str` | `List Char`; where the code slices by bytes (cell lexer), byte offsets are computed from the UTF-8 lengths and a slice inside a character is the outcome `panic` |
| `usize`, `u32`, `isize` counters | `Nat`/`Int` without overflow (overflow needs inputs of about 2^64) |
| `i64` literals | `Int` within the range; parsing out of range is an error as in the code |
| `f64` | kept as its printed text; parsing and printing of `f64` is a parameter (`F64`) |
| `HashMap`, `HashSet` | a function or a list without order; wherever the code iterates over one, the model allows any order |
| threads, locks | interleaving of atomic steps, one step per critical section |
| rayon | rows and cells are evaluated in any order |
| `panic!`, `unwrap`, `unimplemented!` | explicit outcomes |
| loops that may not end | relations, or functions with fuel together with a proof that the fuel suffices |
| files | a finite map from paths to contents, with the states a crash can leave |

**External crates**, represented by what their documentation says (their code is not part of the repository):

* regex: each regular expression is a function computing its leftmost-first match; Unicode tables are parameters
* a1: references are structured values with their text (`A1`); parsing of A1 text is a parameter
* chrono: format items, `Display`, `from_ymd_opt` and differences of days (`Date/Model.lean`, C83); elsewhere parsing and printing of dates is a parameter, which C83 instantiates
* csv: the reader and writer of RFC 4180 with the crate's defaults (flexible, no header), including the byte order mark (`Target/Csv.lean`)
* petgraph: `tarjan_scc` gives components in reverse topological order, `all_simple_paths` the simple paths with at least the given number of intermediate nodes, as documented; used in C39 and C54
* umya_spreadsheet: a worksheet of cells, comments and validations with coordinates from 1 (`Target/Excel.lean`)
* google_sheets4 and the services (`Serve` in `Target/GoogleRunProps.lean`: atomic batch updates, faults, lost replies; requests that name no tab are for the tab with the id 0): `UpdateCells` replaces the cells from its start on; the enumerations are those of the API reference (`Target/Google.lean`)
* std::path: components, file name, stem, extension, `set_extension` (`Target/Path.lean`)
* clap 4: how words become the fields of `CliArgs` under the attributes in src/cli_args.rs (`Cli/CommandLine.lean`, C114)
* serde/bincode: the format of bincode 1.3 with default options (`Object/Codec.lean`, C90); `Cache/Model.lean` takes an object file as the module that it is read as

## What is modelled

| Lean | Rust |
|---|---|
| `Text.lean` | characters, white space, trimming |
| `Csvp/` | csvp/src: the CSV parser with positions |
| `Source/` | src/source_code: splitting the file, error excerpts |
| `Ast/` | src/ast (evaluation, references, variables), src/scope, src/cell_options/fill |
| `Parser/` | src/parser/token_matcher.rs, ast_lexer, ast_parser.rs, code_section_parser.rs, src/ast/display.rs |
| `Cell/` | src/parser/cell_lexer, cell_parser (options and validations), src/rgb, src/cell, src/cell_options, src/row (parse) |
| `Date/` | src/date_time: formats, display, day numbers |
| `Sheet/` | src/spreadsheet, src/row, src/module (fills and evaluation) |
| `Loader/` | src/module_loader: threads, dependency graph, dirtiness, merging of scopes |
| `Cache/` | src/module (object files), src/compiler: histories of compilations |
| `Object/` | the derived serialization of src/module and all types in it: object files as bytes |
| `Target/` | src/target (csv, excel, google_sheets, backups), src/output, src/config, src/logger.rs, src/main.rs, src/module_path |
| `Cli/` | src/main.rs, src/cli_args.rs, src/compiler/try_from.rs, src/module (parsing a source file): the whole program with a CSV target, put together from the parts; a panic of the cell parser is not told from an error there (see C50) |

**Not modelled:** of the command line, words that are not UTF-8 and the messages; reading the credentials file and OAuth; the text of log
and error messages except the excerpt (C11) and positions; the call stack (deep recursion) and memory; `Display` of
types that are only logged; test utilities.

## Plan per property

What is modelled and how it is proved; the status and the theorems are in MANIFEST.json.

* **C01 CSV parsing never panics** — Csvp model keeps the signed offset and an explicit `panic` result; prove no run returns it (invariant: a position is only taken after a consumed character).
* **C02 Field addresses are grid coordinates** — Induction over the record/field loops of the Csvp model.
* **C03 Plain CSV round-trip** — Specification: `render` of a grid; proof: run of the parser over rendered field/record by induction on the grid.
* **C04 Quoted CSV round-trip (RFC 4180)** — Same with a quoting renderer; negation by concrete two-row witness; positive theorem for quoted fields not ending a non-final record.
* **C05 CSV source positions point at the character** — Spec: line/column computed independently by counting newlines in the consumed prefix. Invariant relating the recorded position to the prefix; negation for columns.
* **C06 Comments and leading blank lines do not change the records** — Parser started at a record boundary on `#…\n` ++ rest equals the parser on rest, up to positions (values and addresses).
* **C07 Line continuation** — Field loop lemma: `\\\n` is skipped; lifted to rendered grids with continuations.
* **C08 Field values are trimmed** — Every Field is built through `finish`; induction over the parser.
* **C09 Record shape** — Induction over the parser with a `quoted` case split.
* **C10 Code/csv split preserves text and line numbers** — Split function on lists of lines with a specification in terms of first separator line; composition with C05 for line numbers.
* **C11 Error highlight window** — List model of the excerpt; membership/length/order lemmas.
* **C12 Formulas print to text that parses back to the same formula** — Token level: parse (tokens of display e) = e for printable formulas by induction over the formula with a precedence-climbing lemma; character level: lexing display text gives those tokens.
* **C13 Operator precedence and associativity** — Closed-form specification of chains; the parser's result on a chain is characterised exactly; negation by witness.
* **C14 Formula parsing consumes the whole formula** — Negation by witness; positive: an accepted formula whose last token is consumed.
* **C15 String literals survive** — text_unquote/display round trip; negation by witness; positive theorem for quote-free text.
* **C16 Undefined names are left for the spreadsheet** — Induction over the eval model with abstract iteration orders.
* **C17 Evaluation removes all defined names (acyclic scopes)** — Rank function on acyclic scopes; every round lowers the maximal rank of the references.
* **C18 Evaluation does not depend on hash order** — All orders agree with full simultaneous expansion for acyclic scopes.
* **C19 Evaluation terminates** — Witness of an infinite run (no fuel suffices) + termination theorem for acyclic scopes.
* **C20 Arity errors** — Error iff a matched call with a wrong argument count is reachable in the traversal.
* **C21 Function calls substitute arguments for parameters** — Sequential substitution equals simultaneous substitution under a no-capture condition; negation by witness.
* **C22 Variable precedence** — Scope model as finite map; lookup after the merges.
* **C23 Cell variables resolve relative to fills** — Model of into_ast and variables(); case analysis.
* **C24 Fill expansion** — Fold model of eval_fills; equality with flatMap/replicate specification; length by sum.
* **C25 At most one unbounded fill** — Same model, error branch.
* **C26 A fill's range is the rows it produced** — Positive theorem under `nothing after an unbounded fill / total <= 1000`; negations by witness.
* **C27 Fill expansion is idempotent** — Flag in the model.
* **C28 Row options are inherited by later cells** — Cell option lexer/parser model on characters; theorem about rows.
* **C29 Cell values and formulas** — Cell lexer model.
* **C30 Colours round-trip** — Hex digit arithmetic over all byte values.
* **C31 Single-quoted option strings round-trip** — Character model with explicit UTF-8 byte skipping.
* **C32 Each module is loaded at most once** — Small-step interleaving model of the loader threads; invariant over all reachable states.
* **C33 Module loading terminates and loads exactly the reachable modules** — Same; termination measure and reachability characterisation at quiescence.
* **C34 Failed modules are reported** — Model of eval_dependencies with panic as a result; negation + positive part for direct failures.
* **C35 Visibility of imported names** — Scope merge model.
* **C36 Repeated use is harmless** — Negation (panic) + positive part for duplicate-free lists.
* **C37 Cached modules are never stale** — File-system/history model; negations with witnesses; positive part for source edits of the main module.
* **C38 --no-cache bypasses the cache** — Same model; negation + positive part (nothing is written).
* **C39 Dirtiness propagates along dependencies** — Graph model, simple paths vs reachability.
* **C40 Safe mode never overwrites** — Pointwise characterisation of merged rows.
* **C41 CSV output keeps existing data** — Negation + positive part for cells inside the compiled area.
* **C42 CSV output is rectangular** — Length lemma on the output matrix.
* **C43 Backups never destroy data** — File system as finite map; backup state machine.
* **C44 Google Sheets batch writes each cell once at its place** — Batch request model; negations + positive part.
* **C45 Output target selection** — Decision table on strings.
* **C46 Module paths resolve next to the requiring file** — Path model; negation + positive part.
* **C47 Quote-free CSV reads as split lines** — Specification by splitting lines and fields; the parser run on quote-free text is computed by induction over the lines.
* **C50 Cells of ASCII files never crash the parser** — Byte model of the cell lexer with `panic` outcomes; invariant that on ASCII text every slice is at a boundary and every position is that of a character.
* **C51 Evaluating a sheet changes formulas only, in place** — Relation EvalSheet; induction over rows and cells.
* **C52 A compiled sheet is determined by its source** — EvalSheet allows every schedule and hash order; results agree by C18.
* **C53 References are unambiguous** — Injectivity of the base-26 and decimal texts of references.
* **C54 Modules are evaluated after what they use** — Dependency order from the components of the graph; induction along the order.
* **C55 The precedence of uses is the same everywhere** — Scope merges of main module and dependencies compared.
* **C56 Recompiling without a change reproduces the output** — Two consecutive compilations in the cache model.
* **C57 An empty compiled cell erases nothing** — Pointwise characterisation of what each target writes.
* **C58 Writing the same sheet again changes nothing** — The same, applied twice.
* **C59 An interrupted or failed run loses no data** — Transition system of a run with the state after every file operation, including every truncated prefix of the written file.
* **C60 The backup is named after the target** — Path model: stem, extension and `set_extension`.
* **C68 Every supported output kind can be written** — Outcome of the ods target in the run model.
* **C61 Values and formulas have their type in Excel and Google Sheets** — Typed values of the Excel and Google models, case analysis over formulas.
* **C62 Existing data validations are kept** — Validations of a worksheet after writing characterised exactly.
* **C63 Notes are attached to their cell** — Comments of a worksheet after writing characterised exactly.
* **C64 Formats appear as given** — Style of the written cell as a function of the options; injectivity of the hexadecimal digits for colours.
* **C65 Every option has an effect** — The output is invariant under removing the option.
* **C66 Requests use names the service knows** — Names as texts; enumerations of the service as a separate list.
* **C67 Date validations accept the dates they name** — Date rules with the meaning of the operators; serial numbers as a separate specification.
* **C69 Other worksheets are untouched** — Workbook as list of named worksheets.
* **C70 Number validations accept the numbers they name** — Meaning of operators over the rationals against the meaning of each validation.
* **C71 Text validations look for the given text** — Reader of string literals as specification.
* **C72 List validations offer the given values** — Splitting at commas as specification; counting commas for the negation.
* **C48 A code section defines what it says** — Abstract code sections (lines of statements) with a printer; lexing of the printed text by prefix lemmas, then the item parser by induction.
* **C49 use comes first** — Same, with the condition UsesFirst on the statement list.
* **C73 Modules in subdirectories can be required** — Lexing and parsing of use a/b for all names.
* **C75 Tokens are reported where they stand** — Invariant of the lexer loop: offset and line are those of the consumed prefix; induction on the loop.
* **C76 An error in a formula is reported where it stands in the cell** — C75 combined with the positions kept by a csv field.
* **C77 An unknown token can always be displayed** — Model of String::truncate over UTF-8 sizes.
* **C78 Options mean what the help says** — Model of Config::try_from with paths; case analysis, with the stem of a path from the path lemmas.
* **C74 Line endings do not matter** — Split the file with CRLF and with LF; the lines are the same. Without separator: the token stream of csvp on CRLF.
* **C79 Plain CSV goes through unchanged** — Compose the parts: splitting, C47, cell parser on texts without options, loader of a single module, evaluation without formulas, C40 to C43, as a theorem about all runs of the relation Main.
* **C80 A program is compiled to what it says** — Like C79 with C48, C50, C15, C24 and the substitution theorem for ordered assignments.
* **C81 -k gives names their values** — Model parse_key_value_str; characterise its result as a relation between arguments and pairs; compose with the hash map insertions and with Main.
* **C82 Dividing a program into modules does not change it** — Compose the loader, the evaluation of library scopes and their merging with C80: invariant Linked (the merged scope gives every formula its meaning in the union of all definitions), by induction over the order in which modules are evaluated; violations by explicit runs.
* **C83 A date is the day that is written** — Model chrono's format items and the list of formats in src/date_time; prove by case analysis of the formats on the lexer's tokens that the first that fits is the written day; count days by years and months (omega); invariant over the cell parser that dates of validations are days.
* **C84 A program compiles to what it says, whatever the target** — Split the proof of C82 at the compiled sheet; compose it with the worksheet model (C40, C41, C69) and with the dates invariant of C83 (no panic) in the relation MainFile, which is generic in the target.
* **C85 No command line and no source makes the program harm other files** — Case analysis of the relation MainFile for an arbitrary target, then C43 and C59 for the states of a run.
* **C86 Recompiling after an edit gives what compiling from scratch gives** — Specification of what evaluating the present sources of a module can give (Result); invariant over histories (SessionInv): every object file of a library module holds such a result and is not older than its source; the loader's theorem of C82 generalised to modules that were read evaluated.
* **C87 A syntax error is reported at the first token that cannot be right** — Errors of the parser model carry the tokens from the blamed one on. Success of each parsing function is shown to depend only on the tokens it consumes and one of lookahead; by induction on the run every error comes with a completion of the tokens before it, and a run with the blamed token fails whatever follows.
* **C88 The printed error message points at the offending text** — Model of the excerpt with gutters and of the display of the errors; the layout of the tokens in the text (C75_layout_partial), the lines of the code section (C10) and the excerpt (C11) composed with C87 to the text that is printed.
* **C89 A failing run says why** — Model of the display of every error, of the logger as a state (not started / started) and of main with what it prints; case analysis over the stages, composed with C34 for the report about modules.
* **C90 An object file stands for one module, and one that was only partly written is never used** — Codecs as a relation (writing, in any order) and a function (reading) with three laws (what is written is read back; reading does not depend on what follows; reading takes from the front), preserved by all combinators; trees by recursion bounded by the number of bytes, shown irrelevant; the laws give truncation safety; byte-level directories refine the histories of C86.
* **C91 The result does not depend on the working directory** — Files by absolute place, object files with the recorded name; loading with the recorded name is shown to be that of Verif.Cache.Model when the names are right; right names are an invariant of histories with absolute paths and of histories in one directory; violations by a general theorem and a concrete history.
* **C92 An error in the options of a cell is reported at the text that is wrong** — A grammar of option lists that are right up to a point, and of the errors there; the options before are read by induction with exact offsets, then the error is computed; the printed message by the excerpt lemmas of C88. For arguments of validations: a predicate `a step fails at the end of a text`, closed under sequencing after steps that succeed, and one lemma for each kind of argument.
* **C93 A failing or interrupted run leaves a Google spreadsheet whole** — The run is a tree of calls and continuations; the services are a nondeterministic relation with faults and lost replies; every reachable state is found by inversion of the run, with the final states written out.
* **C94 Edits that others make during a run against Google Sheets survive** — Histories of calls where the world before each call is arbitrary; the effect of each call by inversion; the lost updates by constructing histories.
* **C95 The tab that was asked for is written** — From the effects of C93.
* **C96 The credentials are those that were given** — Case analysis of the model of the lookup, with the file system as a parameter.
* **C97 Every id of a spreadsheet can be given** — From C45_google with the characters of base64url.
* **C98 The same mistakes give the same message** — From C20 and C51 with the prefix of evaluated cells in the row of the error; the violation by building a run for each row.
* **C99 Unused definitions do not matter** — A relation between scopes that agree but for names nothing uses; evaluation preserves it in both directions.
* **C100 Definitions can be renamed** — Renaming is an involution on expressions, scopes, sheets and outcomes that commutes with every step of the evaluation.
* **C101 The order of definitions does not matter** — C48 gives the definitions of both; equal tables; the loader, the merges and the evaluation depend on the tables and on the set of exports only.
* **C102 The CSV that is written is a source file that compiles to itself** — The records of the written file as lines of the cells section (C04), each formula read as a formula that is displayed the same (C12), and a run on a file without code section (C79).
* **C103 Editing a cell changes that cell only** — EvalSheet as a relation between the expanded sheet and the result cell by cell; what the contents of cells cannot influence (fills, named cells) by a projection that forgets them; the edited outcome is put together from the old one and the results of the edited formulas.
* **C104 The message for a wrong option value lists the values the option takes** — The lists of possible values as in the source; what an entry offers is specified by its form; the accepted words of each option are compared with the offered ones, rejection by C92, acceptance by the reader of cells.
* **C105 Names follow their cells when rows are inserted** — A relation between formulas that differ in references only, preserved by every step of the evaluation when the two scopes resolve their variables to related formulas; the names of the sheet with the inserted rows are those of the sheet with moved positions; then cell by cell (C103) and the program.
* **C106 A fill is an abbreviation for writing the row out** — A relation between two sheets: same options and contents row by row; the expansion of fills takes the sheet and the written-out sheet to equal rows; evaluation and the writers respect the relation.
* **C107 Replacing uses of definitions by the definitions changes nothing** — A relation between a formula and the formula with uses replaced; the conditions of C21 carry over along it, because what the new definitions use the old ones need; the expansions agree for all values of parameters; then C21 for both, cell by cell, and the writers.
* **C108 How the options of rows and cells are written does not matter** — Which attribute an option is for; the settled options depend on the last option for each attribute only, and conversely; rows whose cells show the same are expanded, evaluated and written alike, for any outcome of the loader.
* **C109 The prompt of an Excel validation tells what is checked** — The prompt is a phrase for the kind and the arguments; no phrase begins another one but for two pairs, which the digits that follow tell apart; dates and numbers contain no blanks, so the two arguments of a range can be told apart.
* **C110 Several runs at the same time** — A transition system: each run is a sequence of file operations, any number of runs is interleaved in any way. Backups: an invariant over all schedules (the target is untouched and every copy is a beginning of it, or some finished copy is nobody's to write). The same text: an invariant about the run that has emptied the target last. Violations: schedules.
* **C111 An edit made while the program runs is not lost** — A transition system: runs that read, ask for times, evaluate and write in separate steps, and an author who saves at any time. Orderly schedules: an invariant (an object file that is not older than the source is right; if it is older only one run is under way). Violations: schedules, and an invariant for what lasts.
* **C112 Names follow their cells when columns are inserted** — As C105, with a map of columns; fills look at rows only, so there is no restriction on them.
* **C113 The names of modules and the order of use lines do not matter** — A simulation between the module graphs (seen names, union of the definitions, conditions), then C82 for both programs.
* **C114 The command line means what its options say, in any order and spelling** — A grammar of spelled items (Spelled) and a table of their meaning (Means), each proved equivalent to the modelled parser, by induction on the words.
* **C115 The cells of the main file do not decide what the modules give** — The reading of modules is the same function for both sets of files, also if a module uses the main one; compilations of a file that is newer than its object file as loading followed by the evaluation of its cells.
* **C116 Several runs into one workbook** — A transition system in which each run reads the workbook and later writes it; an invariant: what is in the file, and what each run has read, is what some finished runs leave one after the other.
* **C117 Several runs that share an object file** — A transition system for one object file with any number of readers and writers; an invariant for reads and writes at once (bytes after an object file are ignored); schedules for the violations, with the format of object files of C90.
* **C118 Running again after an interruption** — The states of a run (C59) as starting points of another run; what is written does not depend on the old contents if no row is short; the object file gives the second run the same sheet (C56).
* **C119 A compiled formula has the value of the formula that was written** — An interpretation of formulas in an arbitrary domain; each round of the evaluation, a replacement of variables and calls of functions, preserves the value; existence by unfolding the definitions along their order.
* **C120 A written formula is read in one way only** — A grammar for the tokens without precedence; the depth of parentheses at every operator and comma of the printed form shows that only one derivation exists.
* **C121 An option changes only what it is for** — Command lines that agree up to an option lead to configurations that agree up to a field which the writer does not use; so every constructor of a run carries over. For --backup the two runs are compared step by step.
* **C122 The offsets move what is written** — The exact account of C44 with and without offsets: what the mth thousand rows send to (i + x, j + y) is what they send to (i, j) without.
* **C123 Files that a program does not use do not matter** — By the invariant of the loader only modules that can be reached are read, so every step of the threads with one directory is a step with the other; object files are only written for loaded modules.

## Where the code does not do what the property says

Each is a theorem about the model (the negation of the property, for a class of inputs as wide as possible); the part of the property that holds is proved next to it.

* **C04** full property refuted (quoted field ending a non-final row); proved where the last field of a non-final row is unquoted; C04_rejected says which files are not accepted, C04_all_quoted is exact for grids with all values quoted: those with two or more rows are rejected
* **C05** full property refuted (column off by one after the first line); exact characterisation of what is reported proved
* **C12** False in general: booleans print as TRUE/FALSE, which parse as references; 2.0 prints as 2; a name `fn` prints to text that does not parse. Proved for every formula without those, of any size; C12_reread_partial and C12_exact_partial say exactly what happens with booleans and floats that print as integers.
* **C13** False of the code (C13_violated: 1 - 2 - 3 groups to the right). Precedence levels are proved as documented; equal levels group to the right; the conventional reading is proved for chains where both agree.
* **C14** False of the code (C14_violated: =1) + x). Proved: the result is always built from a prefix of the tokens, in order, and when no ) or , is left over, from all of them.
* **C15** Parsing a literal always gives its text; printing loses it exactly for texts containing a quote (C15_violated is for every such text).
* **C17** The full claim is false of the code (C17_violated: =x + f(f(1)) keeps x and f because a call's own arguments are not re-evaluated before the reference sets repeat). Proved for scopes without functions (C17_variables_resolved) and when no function is needed both by a called function and by the arguments of the call.
* **C19** False in general (C19_violated: x := y, y := x), and even without recursive definitions, if arguments of calls mention the names of parameters (C19_acyclic_violated: for certain hash orders). Proved for non-recursive scopes whose parameter names are not used otherwise, or with flat calls.
* **C20** False in general (C20_violated: a wrong call inside an argument that is dropped). The error's counts are swapped (C20_message_swapped).
* **C21** False in general (C21_violated: =f(b, 1) with fn f(a, b)). Proved when arguments do not mention later parameters; C21_meaning_partial gives the one result of every evaluation by a big-step definition of what a formula means, for acyclic hygienic scopes where no function is needed both by a called function and by the arguments of the call.
* **C26** False of the code; C26_range_iff says exactly for which fills the claim holds.
* **C28** False of the code only for the first cell when its own option list comes before the row's (C28_violated). Proved: for every row written in the documented grammar of options (C28_row, all options, validators, names, separators), and for the cells after the first of every row that parses at all.
* **C31** Proved for ASCII texts; false for every text with a non-ASCII character (C31_non_ascii).
* **C34** False of the code: C34_violated (never reported when a dependency uses the failing module), C34_panic (a run that panics). Proved: never success, the report is exact, and it is given when only the main module uses failing modules.
* **C35** False of the code when a used module exports a function under the name of a variable it imports (C35_violated). Proved: own definitions win, first use wins, and names no used module exports are invisible.
* **C36** False in every main module with a repeated use (C36_violated); true in dependencies (C36_dependency).
* **C37** False of the code: C37_violated (for every directory and compilation: edits of dependencies, other -k values and newer versions of the compiler all go unnoticed), C37_stale a concrete history. Proved: over all histories of a main module that uses no other module, compiled by one version with the same -k values.
* **C38** False of the code: the object file of the main module is read (C37_violated holds for useCache = false too). Proved: nothing is written, no other object file is read, and if the main module has no object file the result is that of a clean directory.
* **C39** False of the code; C39_marked_iff says exactly which modules are marked (paths of at least two uses), C39_stuck that the loader then never ends. Rests on the documented behaviour of petgraph's all_simple_paths.
* **C40** Proved for CSV (files and sheets that do not begin with a byte order mark: NoBom) and Excel. False for Google Sheets: blank cells block writing (C40_google_violated), more than 1000 rows overwrite (C40_google_violated_chunks); proved there without offset up to 1000 rows, and for larger sheets where no later thousand has a cell; C40_google_iff is exact for all sizes and offsets.
* **C41** False of CSV: every existing cell outside the compiled sheet is dropped (C41_violated, C41_safe_iff: exactly those); cells inside are kept where the compiled row ends earlier. Proved for Excel. Google Sheets: proved without offset up to 1000 rows, and for larger sheets where no row of a later thousand has something in the column (C41_google_rows_partial); false with an offset.
* **C44** False of the code: the offsets are swapped and all chunks of 1000 rows start at the same row. Proved for equal offsets and up to 1000 rows; C44_exact says what every cell shows, for every size and all offsets.
* **C46** False of the code when the last component contains a dot (C46_violated); proved for all paths otherwise.
* **C52** False of the code where C18 is: C52_violated gives two successful runs on the same file that write different formulas, depending on the order in which a hash set is iterated; proved for every sheet without user functions, for flat hygienic functions, and for all sheets and source files (without use) whose formulas are free of trouble in the sense of C80 and C82 (C52_clear_partial, C52_program_partial: all runs write the same text). For programs with modules see C113_compile_partial.
* **C55** False of the code (C55_violated, for every pair of such modules).
* **C57** False of the CSV target without --safe (C57_violated, for every such cell). Proved for Excel values; the format is replaced.
* **C58** Proved for CSV, for the cells of a workbook, and for a workbook with --safe. For Google Sheets proved without offsets (C58_google_rows_partial: for every number of rows, if the service returns no cells below the 1000th row that it did not return before), false with offsets. False for the notes of a workbook without --safe.
* **C59** Without --backup a crash loses the target (C59_no_backup_violated); the rest is proved for every crash point.
* **C60** False when the stem contains a dot (C60_violated).
* **C68** False: the ods target panics.
* **C61** Proved for formulas. False for plain cells: always text.
* **C62** False of the code: C62_violated says exactly which validations remain.
* **C63** False of the code for Excel: C63_violated says exactly where notes are put.
* **C64** False for colours in Excel (except white) and for border=all in Google Sheets.
* **C65** False of the code.
* **C66** False of the code; the enumerations of the service are written down from its documentation.
* **C67** False of the code: the day numbers are off, for every date (C67_violated); C67_shifted_partial says which days are accepted instead. That a time never reaches this code is C83_sheet.
* **C70** Proved for Excel; false for Google Sheets for all but two conditions.
* **C71** False for texts with a double quote.
* **C72** False for values with a comma.
* **C48** False for names beginning with use, true or false (the hypothesis Name excludes them); the expressions are those in the form the compiler displays (see C12).
* **C73** False of the code: use a/b is always rejected.
* **C75** False after a string with a line break, after fn and a line break, and (columns) after non-ASCII characters.
* **C76** False whenever anything precedes the formula in its cell.
* **C77** False for input with a non-ASCII character at byte 49: panic.
* **C74** Proved for all files with a separator line. Without one it is false of the code for leading blank lines and line breaks in quoted fields, and proved without quotes and escapes.
* **C80** False if a function is needed both by a called function and by the arguments of the call: names that the code section defines can be left in the target, with success reported (C80_violated). Proved for source files without use (modules are C33 to C38, C82 and C84); the lines of the code section are those of C48. C80_assignments: assignments one after the other. C80_meaning: functions, named cells and fills, if the definitions are free of trouble (no cycle, no captured name, functions not sharing names with cells' names, arities right): every formula in the target is its textbook meaning, whatever the schedule.
* **C81** Which arguments are accepted, and what they give, is proved for all arguments; the form foo=1,bar=2 of the documentation comment, and blanks before =, are accepted but lose values (C81_violated_list, C81_violated_space), so the property in its plain reading is false there. What formulas make of the values is C22 and C80.
* **C82** False in general (three violations). Proved from the source texts to the written target for programs whose definitions are free of trouble (Tidy, AllClear: no cycle, no captured name, arities right) and whose modules see what their definitions, and the functions they see, use (AllSeen); object files of the library may exist if they are up to date, as C86 shows they stay. Workbooks as targets are C84.
* **C84** False in general for the reasons of C82 and of C80 (C84_violated); proved under the conditions of C82 (Tidy, AllClear, AllSeen, object files of the library up to date or not used). Notes and validations of a workbook are wrong (C62, C63, C67) and left out of what a worksheet shows; the service of Google Sheets rejects the requests of the program (C66).
* **C86** False in general: edits of library files and newer versions go unnoticed (C37_violated and its variants). Proved for all histories in which the library files are not edited, one version of the compiler is used, and the files that use the library name each module once (naming one twice makes the program panic, C36, after it has written object files) and are saved before they are compiled; the program compiled is free of the mistakes excluded in C82.
* **C88** False in cells that are not on the first line of the csv section: the ^ is one column too far right (C88_violated_cell). Proved for code sections under the conditions of C75 (ASCII, one line or no string literal and no line break after fn), and for formulas in cells without options on the first csv line. For errors in options see C92.
* **C89** False for a malformed -k value, an input without a file name and more than four -v: the logger is not started yet, and the run fails silently (C89_violated, for all such arguments). Proved for all other runs. Panics are outside this model.
* **C91** The property is false of the code: an object file has the name of its source as it was given, and that name is looked up in the current directory. C91_violated: after the first compilation with a relative name, every compilation from a directory without a file of that name fails. C91_wrong_result: with two projects, a module's object file is replaced by another project's and a wrong value is computed. Proved: it holds whenever the recorded names are right (C91_same_partial), so when only absolute paths have ever been used, or when the compiler was always run in one directory. Symbolic links are not modelled; modules are in the directory of the main file (C73).
* **C92** Proved for wrong words and numbers (option names, values of options, font sizes and fill amounts): the error is at the last character of the word, and on the first csv line the printed ^ is under it. False for text where a name, `=` or a value is expected and for colours: the error is at the character before (C92_violated_place, C92_violated_message). Arguments of validations: a number or range that is wrong is reported at its last character (C92_args_partial); a missing parenthesis, argument or string, a quoted text that does not end, a date that does not exist and a wrong value of a list are reported at the character before (C92_violated_args), and so are lists that are not closed (C92_violated_unclosed). ASCII cells.
* **C94** Proved for other spreadsheets, other tabs, and cells above, left of and below what is written. C94_cells: for every size and all offsets, a call puts nothing into a cell but compiled cells and cells that the run has read. False for cells in the rows that are written: they are reverted to what was read before (C94_violated_lost_update), and --safe overwrites cells that were filled meanwhile (C94_violated_safe).
* **C95** The name is ignored: cells are read from the first tab and written to the tab with the id 0. Proved if that is the one that was asked for; false otherwise.
* **C96** Exact if there is a home directory; without one there is an error even if the flag is given.
* **C97** Exact: those without `-` and `_` are accepted, the others (also the id in the manual) are refused.
* **C98** Rejection and the place of the error are proved; the same cell in every run is proved if only one formula is wrong. False with wrong calls in two rows: the rows are evaluated in parallel and either can be reported (C98_violated).
* **C102** False of the code: with a cell that has to be quoted above another cell in a sheet of one column the file is rejected (C102_violated, for all such sheets); # makes comments. Proved for all written files that have no such lines and no separator line, and whose formulas are in the form the program displays (settled_display: all without texts with quotes, names fn and floats in other notations).
* **C104** Proved for all options but validate. For validate the message advises text_is_valid_email, text_is_valid_url, value_in_list and value_in_range, all of which are rejected, and does not list the names under which these validations exist (C104_violated); all other listed names are accepted as names of validations.
* **C110** The full property is false of the code, and the C110_violated theorems show how: two runs that choose the same backup name at the same time both succeed and leave an empty backup and a target without the old contents; a run that reads the target after another has emptied it loses the cells that --safe should keep; two runs that write at the same time leave the end of one output after the other. Proved: backups are safe if no two runs choose the same name at the same time; runs of the same program without --safe and without short rows leave the right file, whatever the schedule. Runs with the same workbook are in C116; runs with the same object file are in C117; Google Sheets is not modelled here.
* **C111** False of the code: an edit saved between reading the source and writing the object file is not seen by any later run until the file is saved again (C111_violated_edit, C111_lasting); and of two runs after an edit one can end with the old sheet, because the object file is read first and its time asked for later (C111_violated_check). Proved: for all interleavings in which the source is saved while no run is under way and the first run after that gets as far as writing its object file (or ends) before others begin; and for all interleavings without object files; and a run after an edit can always end (C111_completes). Source files that use no other.
* **C113** The first two are for CSV files, C113_compile_partial and C113_compile_names_partial with C113_targets for every target. Under the conditions of C82: definitions free of trouble (Tidy, AllClear), everything used only where it is seen (AllSeen). C113_arrangement_partial is for any two arrangements of the same definitions; C113_names_partial derives the conditions of the second program from those of the first. Outside these conditions the claim is false: C52_violated is a program (without modules) of which two runs write different cells.
* **C116** The full property is false of the code (C116_violated): two runs that succeed, with different worksheets, can leave the workbook without one of the worksheets. Proved for all schedules: at every moment the workbook is what some of the runs that have succeeded leave one after the other; worksheets that no run names stay as they are, and none that was there is lost. Reading a workbook and writing one are single steps; backups are left out.
* **C117** The full property is false of the code, which reads the values of an object file one after the other: C117_violated_reading gives a module that no run has written (definitions of the old one, source of the new one); C117_violated_writing is for writes in pieces and a crash. Proved for all schedules in which a file is read at once and written at once (it is still emptied in a step of its own). Modification times are left out.
* **C118** False of the code in two ways. With --safe a run that is interrupted in the middle of a cell leaves the beginning of its text, which every later run takes for the user's and keeps (C118_violated_safe; C118_safe_iff says exactly when it is harmless, for a target that did not exist). Without --safe cells to the right of short rows, which the run would have kept, are lost (C118_violated_short). Proved without --safe for sheets whose rows have the same number of cells, for the whole program with any modules (C118_program_partial: the interruption is after the object files have been written; before that the target is as it was).
* **C119** False of the code where arguments are put in for parameters one after the other (C119_violated: =f(b, 1) with fn f(a, b) a + b has the value 2 instead of b + 1). Proved for every domain of values and every evaluation that ends if the names of parameters are used for nothing else (C119_value_partial), always if only variables are defined (C119_variables), for the text in the target of a whole program (C119_program_partial), and under the conditions of C82 for programs with modules (C119_modules_partial), whatever the target (C119_compile_partial). C119_exists, C119_determined: there are such values whenever no definition depends on itself, and they give each formula one value only, that of the compiled formula read without any definitions (C119_compiled_value_partial; C119_undetermined: not so for x := x). Missing: programs that use a parameter's name for something else, where it is false in general.
* **C120** Readings are given by a grammar without any precedence or associativity, in which source formulas are ambiguous (C120_ambiguous). Proved for every printable formula (C12: without booleans, texts with double quotes, floats that print without a point), and with C119 for the target of a whole program, also with modules (the last part of C119_compile_partial and C119_modules_partial). False for texts with double quotes, which are not doubled when they are written (C120_violated: a text is read as two texts put together).
* **C122** Proved for Google Sheets with equal offsets, for sheets of every size. False in general: they are swapped (C122_google_swapped says what happens instead), and CSV files and workbooks ignore them.

## How the theorems are tested

`seeded/LOG.jsonl` records edits of the model that a realistic bug would make, the claim each breaks, the theorems that
stopped proving, and the theorems that were tightened because they still proved.
