{"id": "C01", "title": "CSV parsing never panics", "statement": "csvp::parse returns records or a ParseError for every text, separator and lines_above; in particular the SourcePosition conversion, which panics when no character has been consumed, is never reached in that state.", "quantifier": "all input texts, all separators, all lines_above", "why_tests_cant": "The panic depends on the order in which characters are consumed; tests visit a handful of inputs.", "anchors": ["csvp/src/parser.rs: parse, From<&mut Parser> for SourcePosition"]}
{"id": "C02", "title": "Field addresses are grid coordinates", "statement": "In every successful CSV parse the field at record index r and field index c carries address (x=c, y=r), with no gap caused by comments, leading newlines or line continuations.", "quantifier": "all input texts and configurations that parse, all r and c", "why_tests_cant": "Comments and continuations may occur anywhere in any number; only induction over the record loop covers them.", "anchors": ["csvp/src/parser.rs: parse, parse_record", "csvp/src/field.rs"]}
{"id": "C03", "title": "Plain CSV round-trip", "statement": "Writing any grid of plain values (trimmed, no separator, quote-start, comment-start or newline) as separator/newline separated text and parsing it returns exactly that grid.", "quantifier": "all grids of any size with plain values", "why_tests_cant": "Unbounded number of rows, columns and characters.", "anchors": ["csvp/src/parser.rs"]}
{"id": "C04", "title": "Quoted CSV round-trip (RFC 4180)", "statement": "Writing any grid with every value quoted (quotes doubled) and parsing it returns the values, for values without surrounding whitespace. (The code violates this when a quoted field ends a record that is not the last; the negation is proved together with the part that does hold.)", "quantifier": "all grids, all quoted contents including newlines, separators and quotes", "why_tests_cant": "Arbitrary content inside quotes, arbitrary positions in the grid.", "anchors": ["csvp/src/parser.rs: parse_quoted_field, parse_rest_of_quoted_field"]}
{"id": "C05", "title": "CSV source positions point at the character", "statement": "Every character recorded for a field carries the line and column it has in the source file, so error messages point at the right place. (The code reports the column exactly on the first line of the csv section and one too many on every later line; a newline inside a quoted field is attributed to the start of the next line.)", "quantifier": "all inputs, all fields, all recorded characters", "why_tests_cant": "Requires relating the consumed prefix to the recorded position at every step.", "anchors": ["csvp/src/parser.rs: consume_char, From<&mut Parser> for SourcePosition", "csvp/src/field.rs"]}
{"id": "C06", "title": "Comments and leading blank lines do not change the records", "statement": "Deleting a comment line (a record starting with #) or leading newlines changes neither the values nor the addresses of the parsed fields.", "quantifier": "all inputs, all comment texts, all positions between records", "why_tests_cant": "Any number of comments at any record boundary.", "anchors": ["csvp/src/parser.rs: parse, consume_and_ignore_line"]}
{"id": "C07", "title": "Line continuation", "statement": "A backslash directly followed by a newline inside an unquoted field is ignored: the parsed values are those of the text without the pair.", "quantifier": "all inputs built from plain fields with continuations at any place", "why_tests_cant": "Continuations can be inserted at any point any number of times.", "anchors": ["csvp/src/parser.rs: parse_field, parse_unquoted_field"]}
{"id": "C08", "title": "Field values are trimmed", "statement": "No value in a successful parse begins or ends with whitespace, and every value is the recorded character sequence with only surrounding whitespace removed.", "quantifier": "all inputs", "why_tests_cant": "All inputs, including quoted and multi-line fields.", "anchors": ["csvp/src/field.rs: From<FieldBuilder> for Field"]}
{"id": "C09", "title": "Record shape", "statement": "Every record of a successful parse has at least one field, and no field contains the separator or a newline unless it was quoted.", "quantifier": "all inputs", "why_tests_cant": "All inputs.", "anchors": ["csvp/src/parser.rs"]}
{"id": "C10", "title": "Code/csv split preserves text and line numbers", "statement": "A source file is split at its first line that consists of --- and whitespace; nothing before it reaches the csv section, nothing after it the code section, both sections keep their lines, and line l of the csv section reported with lines_above is the line of the original file it came from.", "quantifier": "all source texts", "why_tests_cant": "All texts with any number of separators.", "anchors": ["src/source_code/mod.rs: SourceCode::new", "src/source_code/mod.rs: csv_lines/object_code_filename"]}
{"id": "C11", "title": "Error highlight window", "statement": "For an error on line n the excerpt contains line n, at most three lines before and three after, in order with their own line numbers, and a caret line directly after line n pointing at the column; it never panics.", "quantifier": "all source texts, line numbers and columns", "why_tests_cant": "All positions near both ends of the file.", "anchors": ["src/source_code/errors.rs"]}
{"id": "C12", "title": "Formulas print to text that parses back to the same formula", "statement": "Displaying any formula the parser can produce and parsing the output yields the same formula, so what csv++ writes to the spreadsheet means what it parsed.", "quantifier": "all formulas in the range of the parser, any depth", "why_tests_cant": "Nesting and operator combinations are unbounded.", "anchors": ["src/ast/display.rs", "src/parser/ast_parser.rs", "src/parser/ast_lexer/mod.rs"]}
{"id": "C13", "title": "Operator precedence and associativity", "statement": "A chain of operands and infix operators groups by the documented precedence and, for operators of equal precedence, to the left as spreadsheets do. (The code groups to the right: proved as the negation plus the exact grouping the code produces.)", "quantifier": "all operand/operator chains of any length", "why_tests_cant": "All chains.", "anchors": ["src/parser/ast_parser.rs: infix_binding_power, expr_bp"]}
{"id": "C14", "title": "Formula parsing consumes the whole formula", "statement": "A formula is accepted only if all of its tokens are part of the result. (Violated: trailing `)`/`,` tokens and everything after them are dropped.)", "quantifier": "all token sequences", "why_tests_cant": "All token sequences.", "anchors": ["src/parser/ast_parser.rs: AstParser::parse"]}
{"id": "C15", "title": "String literals survive", "statement": "A string literal written in a formula denotes the same text after being printed into the spreadsheet. (Violated for texts containing a double quote.)", "quantifier": "all strings", "why_tests_cant": "All strings.", "anchors": ["src/ast/node.rs: text_unquote", "src/ast/display.rs"]}
{"id": "C16", "title": "Undefined names are left for the spreadsheet", "statement": "Evaluation never alters calls to functions or references to names that are not defined in scope; a formula mentioning no defined name is returned unchanged.", "quantifier": "all formulas and scopes", "why_tests_cant": "All formulas and scopes.", "anchors": ["src/ast/eval.rs", "src/ast/references.rs"]}
{"id": "C17", "title": "Evaluation removes all defined names (acyclic scopes)", "statement": "When definitions are not recursive, evaluating a formula leaves no reference to a defined variable in the result.", "quantifier": "all acyclic scopes, all formulas, all iteration orders of the hash containers", "why_tests_cant": "Depth of definition chains is unbounded and hash order is random.", "anchors": ["src/ast/eval.rs"]}
{"id": "C18", "title": "Evaluation does not depend on hash order", "statement": "For acyclic variable scopes the evaluated formula is the same for every iteration order of the hash maps used.", "quantifier": "all acyclic scopes, formulas and all sequences of permutations", "why_tests_cant": "HashMap iteration order is randomised per process.", "anchors": ["src/ast/eval.rs: eval_variables, resolve_variables"]}
{"id": "C19", "title": "Evaluation terminates", "statement": "Evaluating a formula terminates for every scope. (Violated for mutually recursive variables: negation proved; termination proved for acyclic scopes.)", "quantifier": "all scopes and formulas", "why_tests_cant": "Non-termination cannot be observed by a finite test.", "anchors": ["src/ast/eval.rs: eval loop"]}
{"id": "C20", "title": "Arity errors", "statement": "Calling a user-defined function with the wrong number of arguments is always an evaluation error and with the right number never is.", "quantifier": "all functions, all argument lists, all nesting positions", "why_tests_cant": "All call sites at all depths.", "anchors": ["src/ast/eval.rs: call_function, eval_functions"]}
{"id": "C21", "title": "Function calls substitute arguments for parameters", "statement": "A call f(e1..en) evaluates to the body of f with every parameter replaced by its argument simultaneously, without capturing names in the arguments. (Violated when an argument mentions a later parameter's name; proved when it does not.)", "quantifier": "all bodies, parameters and arguments", "why_tests_cant": "All bodies and argument expressions.", "anchors": ["src/ast/eval.rs: call_function, replace_variable"]}
{"id": "C22", "title": "Variable precedence", "statement": "A variable defined in the code section wins over one defined by a cell/row `var` option, which wins over one given on the command line with -k.", "quantifier": "all sets of definitions", "why_tests_cant": "All combinations of definitions.", "anchors": ["src/module/mod.rs: eval_spreadsheet", "src/scope/mod.rs: merge_variables"]}
{"id": "C23", "title": "Cell variables resolve relative to fills", "statement": "A variable on a filled row refers to the cell in the same row when used from inside that fill and to the whole filled range from outside; a variable on an unfilled row always refers to that cell or row.", "quantifier": "all fills, all cells, all referring positions", "why_tests_cant": "All row positions relative to all fills.", "anchors": ["src/ast/variable_value.rs: into_ast", "src/spreadsheet/mod.rs: variables"]}
{"id": "C24", "title": "Fill expansion", "statement": "Expanding fills keeps rows in order, repeats a row with a fill of n exactly n times and any other row once, and with one unbounded fill yields exactly 1000 rows whenever the bounded rows number at most 1000.", "quantifier": "all spreadsheets", "why_tests_cant": "All row lists and amounts.", "anchors": ["src/spreadsheet/mod.rs: eval_fills, rows_left_over"]}
{"id": "C25", "title": "At most one unbounded fill", "statement": "A spreadsheet with two or more unbounded fills is rejected and one with at most one is accepted.", "quantifier": "all spreadsheets", "why_tests_cant": "All row lists.", "anchors": ["src/spreadsheet/mod.rs: eval_fills"]}
{"id": "C26", "title": "A fill's range is the rows it produced", "statement": "The range a filled variable denotes covers exactly the rows generated by its fill. (Violated for an unbounded fill followed by other rows and for bounded fills past row 1000.)", "quantifier": "all spreadsheets, all filled rows", "why_tests_cant": "All row lists and amounts.", "anchors": ["src/cell_options/fill/mod.rs", "src/spreadsheet/mod.rs: eval_fills"]}
{"id": "C27", "title": "Fill expansion is idempotent", "statement": "Expanding an already expanded spreadsheet changes nothing.", "quantifier": "all spreadsheets", "why_tests_cant": "All spreadsheets.", "anchors": ["src/spreadsheet/mod.rs: eval_fills"]}
{"id": "C28", "title": "Row options are inherited by later cells", "statement": "A row option list given in the first column applies to every cell of the row that does not override it; the row's variable name is not inherited; a row option list in any other column is an error.", "quantifier": "all rows, all option lists", "why_tests_cant": "All combinations of options and columns.", "anchors": ["src/parser/cell_parser/mod.rs", "src/cell/mod.rs: default_from", "src/row/mod.rs: parse"]}
{"id": "C29", "title": "Cell values and formulas", "statement": "A cell is a formula exactly when its text after the option lists starts with =; otherwise it is emitted literally (trimmed) and without options the cell text is unchanged.", "quantifier": "all cell texts", "why_tests_cant": "All texts.", "anchors": ["src/cell/mod.rs: parse", "src/parser/cell_parser/mod.rs"]}
{"id": "C30", "title": "Colours round-trip", "statement": "Every colour prints as #RRGGBB which parses to the same colour, and three-digit shorthand denotes each digit doubled.", "quantifier": "all 2^24 colours, all shorthands", "why_tests_cant": "Whole domain.", "anchors": ["src/rgb/mod.rs", "src/rgb/try_from.rs", "src/rgb/display.rs"]}
{"id": "C31", "title": "Single-quoted option strings round-trip", "statement": "Any text written in single quotes with quotes and backslashes escaped is read back as that text, leaving the rest of the cell untouched. (Violated for non-ASCII text, where characters are counted but bytes skipped.)", "quantifier": "all texts and all remainders", "why_tests_cant": "All texts.", "anchors": ["src/parser/cell_lexer/mod.rs: take_single_quoted_string"]}
{"id": "C32", "title": "Each module is loaded at most once", "statement": "Whatever the thread schedule, the loader reads every required module's source at most once and never two threads load the same module.", "quantifier": "all dependency graphs, all interleavings", "why_tests_cant": "Interleavings are unbounded and not reproducible in tests.", "anchors": ["src/module_loader/mod.rs: load"]}
{"id": "C33", "title": "Module loading terminates and loads exactly the reachable modules", "statement": "For every finite dependency graph, cyclic or not, under every schedule loading terminates and each module reachable from the main module through successfully loaded modules ends up loaded or failed, and no other.", "quantifier": "all finite dependency graphs, all interleavings", "why_tests_cant": "All graphs and schedules.", "anchors": ["src/module_loader/mod.rs: load, load_module"]}
{"id": "C34", "title": "Failed modules are reported", "statement": "If any reachable module fails to load, compilation ends with the ModuleLoadErrors report. (Violated: a failure of a module required by another module panics during dependency evaluation.)", "quantifier": "all dependency graphs and failure sets", "why_tests_cant": "All graphs.", "anchors": ["src/module_loader/mod.rs: eval_dependencies, merge_direct_dependencies"]}
{"id": "C35", "title": "Visibility of imported names", "statement": "The main module sees exactly the exported names of the modules it uses directly (no transitive names); its own definitions win over imported ones and an earlier use wins over a later one.", "quantifier": "all modules and scopes", "why_tests_cant": "All scopes and use lists.", "anchors": ["src/scope/mod.rs: merge", "src/module_loader/mod.rs: merge_direct_dependencies"]}
{"id": "C36", "title": "Repeated use is harmless", "statement": "Using the same module twice is equivalent to using it once. (Violated in the main module: the second use panics.)", "quantifier": "all use lists", "why_tests_cant": "All use lists.", "anchors": ["src/module_loader/mod.rs: merge_direct_dependencies"]}
{"id": "C37", "title": "Cached modules are never stale", "statement": "A compile uses a cached object only if neither the source nor any module it depends on changed after the object was written and the object was written by a compatible version. (Violated: version comparison reversed, dependencies' dirtiness ignored, -k values ignored.)", "quantifier": "all histories of edits, compiles and upgrades", "why_tests_cant": "All histories.", "anchors": ["src/module/mod.rs: check_if_is_dirty", "src/compiler/mod.rs: compile"]}
{"id": "C38", "title": "--no-cache bypasses the cache", "statement": "With --no-cache no object file is read or written. (Violated for reading the main module.)", "quantifier": "all histories and file system states", "why_tests_cant": "All states.", "anchors": ["src/compiler/mod.rs", "src/module/mod.rs"]}
{"id": "C39", "title": "Dirtiness propagates along dependencies", "statement": "After loading, a module is marked for reloading exactly if it lies on a dependency path from the main module to a module whose source changed, and loading then ends. (Violated: paths of one use are ignored, so a changed direct dependency is not reloaded; when something is marked the loader waits for its own lock.)", "quantifier": "all dependency graphs and dirty sets", "why_tests_cant": "All graphs.", "anchors": ["src/module_loader/mod.rs: propagate_dirty_flag"]}
{"id": "C40", "title": "Safe mode never overwrites", "statement": "With --safe an existing non-empty cell of the target keeps its value and an empty one receives the compiled value; without it a compiled cell replaces the existing one.", "quantifier": "all existing sheets and compiled sheets, all cells", "why_tests_cant": "All pairs of sheets and all cells.", "anchors": ["src/target/mod.rs: merge_cell, merge_rows", "src/target/csv/mod.rs", "src/target/excel/mod.rs: build_worksheet", "src/target/google_sheets/batch_update_builder.rs"]}
{"id": "C41", "title": "CSV output keeps existing data", "statement": "Writing to an existing CSV file keeps every existing cell that the compiled sheet does not set. (Violated: existing rows below and columns right of the compiled sheet are dropped.)", "quantifier": "all existing files and modules", "why_tests_cant": "All sheets.", "anchors": ["src/target/csv/mod.rs", "src/target/csv/compilation_target.rs"]}
{"id": "C42", "title": "CSV output is rectangular", "statement": "Every CSV row written has exactly the width of the widest compiled row.", "quantifier": "all modules and existing files", "why_tests_cant": "All sheets.", "anchors": ["src/target/csv/mod.rs", "src/spreadsheet/mod.rs: widest_row"]}
{"id": "C43", "title": "Backups never destroy data", "statement": "Making a backup copies the target to a name that did not exist, changes no other file and fails otherwise. (The name is derived wrongly when the stem contains a dot.)", "quantifier": "all file system states and target names", "why_tests_cant": "All directory states.", "anchors": ["src/target/file_backer_upper.rs"]}
{"id": "C44", "title": "Google Sheets batch writes each cell once at its place", "statement": "The batch update writes row i, column j of the sheet at offset + (i,j), each once. (Violated: offsets swapped and every chunk of 1000 rows starts at the same place.)", "quantifier": "all sheets and offsets", "why_tests_cant": "All sizes.", "anchors": ["src/target/google_sheets/batch_update_builder.rs"]}
{"id": "C45", "title": "Output target selection", "statement": "The target is Google Sheets if a sheet id is given, else it is determined by the file extension (csv, xlsx/xlsm/xltx/xltm, ods; case-insensitively), and anything else is an error.", "quantifier": "all command lines", "why_tests_cant": "All file names and ids.", "anchors": ["src/output/try_from.rs"]}
{"id": "C46", "title": "Module paths resolve next to the requiring file", "statement": "`use a/b` denotes the file a/b.csvpp relative to the directory of the main file. (Violated when the last component contains a dot.)", "quantifier": "all module paths and file names", "why_tests_cant": "All paths.", "anchors": ["src/module_path/mod.rs", "src/module_path/try_from.rs"]}
{"id": "C47", "title": "Quote-free CSV reads as split lines", "statement": "For every text without double quotes and backslashes the parsed values are what one gets by splitting into lines, dropping comment lines, splitting lines at the separator and trimming; a blank field at the very end of an unterminated last line is dropped.", "quantifier": "all quote-free and backslash-free texts", "why_tests_cant": "All texts.", "anchors": ["csvp/src/parser.rs"]}
{"id": "C50", "title": "Cells of ASCII files never crash the parser", "statement": "Parsing the option lists of any cell of any ASCII file either succeeds or reports an error whose position is that of a character of the cell; it never panics. (Violated for non-ASCII text: [[n='\u65e5']] panics.)", "quantifier": "all ASCII files, all cells, all options of the row", "why_tests_cant": "All texts.", "anchors": ["src/parser/cell_lexer/mod.rs", "src/parser/cell_parser/mod.rs", "src/parser/cell_parser/validate.rs", "csvp/src/field.rs: position_for_offset"]}
{"id": "C51", "title": "Evaluating a sheet changes formulas only, in place", "statement": "When a sheet is compiled, every row and cell keeps its position, options, fill and text; a cell without formula is unchanged and each formula is replaced by what it evaluates to at its own address. An evaluation error is reported at the address of a cell whose formula fails there, and evaluation never panics.", "quantifier": "all sheets, scopes, row schedules and hash orders", "why_tests_cant": "Rows are evaluated in parallel and definitions come from hash maps.", "anchors": ["src/module/mod.rs: eval_spreadsheet", "src/row/mod.rs: eval"]}
{"id": "C52", "title": "A compiled sheet is determined by its source", "statement": "Whatever the order in which rows are scheduled and hash maps iterated, compiling a sheet gives the same cells. (Depends on C18: proved where C18 is.)", "quantifier": "all sheets, scopes, schedules and hash orders", "why_tests_cant": "All schedules and iteration orders.", "anchors": ["src/module/mod.rs: eval_spreadsheet", "src/ast/eval.rs: eval"]}
{"id": "C53", "title": "References are unambiguous", "statement": "References inserted for different cells, row ranges or column ranges have different texts.", "quantifier": "all coordinates", "why_tests_cant": "All coordinates.", "anchors": ["src/ast/variable_value.rs: into_ast"]}
{"id": "C54", "title": "Modules are evaluated after what they use", "statement": "If the modules do not use each other in a circle, the definitions of every loaded module end up as the evaluation of its own definitions together with the final definitions of the modules it uses, whatever the order in which the loaded modules are visited.", "quantifier": "all acyclic dependency graphs, all hash orders", "why_tests_cant": "All graphs and orders.", "anchors": ["src/module_loader/mod.rs: eval_dependencies, load_dependency_graph"]}
{"id": "C55", "title": "The precedence of uses is the same everywhere", "statement": "If two used modules export the same name, which one wins does not depend on whether the using module is the main module or a dependency. (Violated: the first wins in the main module, the last in a dependency.)", "quantifier": "all modules and scopes", "why_tests_cant": "All scopes.", "anchors": ["src/module_loader/mod.rs: eval_dependencies, merge_direct_dependencies"]}
{"id": "C56", "title": "Recompiling without a change reproduces the output", "statement": "Compiling a main module again, with the object files that the previous compilation wrote and no file changed since, never outputs a different sheet.", "quantifier": "all directories, parsers, -k values and schedules", "why_tests_cant": "All file system states and histories.", "anchors": ["src/compiler/mod.rs: compile", "src/module/mod.rs: load_from_cache_from_filename, check_if_is_dirty"]}
{"id": "C57", "title": "An empty compiled cell erases nothing", "statement": "A cell of the compiled sheet that has neither a value nor a formula leaves the existing value of the target cell in place. (Violated by the CSV target without --safe; holds for Excel.)", "quantifier": "all existing and compiled sheets", "why_tests_cant": "All sheets.", "anchors": ["src/target/mod.rs: merge_cell", "src/target/csv/compilation_target.rs", "src/target/excel/mod.rs: set_value"]}
{"id": "C58", "title": "Writing the same sheet again changes nothing", "statement": "Writing a compiled sheet to a target to which it has just been written leaves the target as it is. (Violated by Excel: the comments are added again.)", "quantifier": "all targets and compiled sheets", "why_tests_cant": "All existing contents.", "anchors": ["src/target/csv/compilation_target.rs", "src/target/excel/mod.rs"]}
{"id": "C59", "title": "An interrupted or failed run loses no data", "statement": "Whatever the moment at which a run ends (compile error, failing write, crash), no file other than the target is changed and, with --backup, the previous content of the target is in the target or in the backup. Without --backup a crash can leave a truncated target.", "quantifier": "all file system states, all crash points", "why_tests_cant": "Crash points and directory states are unbounded.", "anchors": ["src/compiler/mod.rs", "src/main.rs", "src/target/file_backer_upper.rs", "src/target/csv/compilation_target.rs"]}
{"id": "C60", "title": "The backup is named after the target", "statement": "The backup of stem.ext is stem-TIMESTAMP.ext in the same directory. (Violated when the stem contains a dot.)", "quantifier": "all target names, all timestamps", "why_tests_cant": "All names.", "anchors": ["src/target/file_backer_upper.rs"]}
{"id": "C68", "title": "Every supported output kind can be written", "statement": "A target whose file name selects a supported output kind can be written. (Violated: .ods is accepted and then panics.)", "quantifier": "all sheets and file system states", "why_tests_cant": "All sheets.", "anchors": ["src/output/try_from.rs", "src/target/open_document/mod.rs"]}
{"id": "C61", "title": "Values and formulas have their type in Excel and Google Sheets", "statement": "A formula that is a literal is written as a value of its type, every other formula as a formula with the text of the CSV output, and a number written in a cell is a number. (Violated: the content of a cell without = is always written as text.)", "quantifier": "all cells and worksheets", "why_tests_cant": "All cells.", "anchors": ["src/target/excel/mod.rs: set_value", "src/target/google_sheets/batch_update_builder.rs: user_entered_value"]}
{"id": "C62", "title": "Existing data validations are kept", "statement": "Writing to an existing workbook keeps the data validations of cells that the compiled sheet does not validate. (Violated: all of them are replaced as soon as one compiled cell has a validation.)", "quantifier": "all worksheets and compiled sheets", "why_tests_cant": "All worksheets.", "anchors": ["src/target/excel/mod.rs: set_data_validations"]}
{"id": "C63", "title": "Notes are attached to their cell", "statement": "The note of a compiled cell is attached to that cell of the workbook. (Violated: it is attached one row above and one column to the left.)", "quantifier": "all worksheets, all cells with notes", "why_tests_cant": "All cells.", "anchors": ["src/target/excel/mod.rs: set_comment"]}
{"id": "C64", "title": "Formats appear as given", "statement": "Borders, alignment, fonts, number formats and colours of a compiled cell are those of the written cell; border=all draws every side. (Violated for colours in Excel, which are written as RGBA where ARGB is read, and for border=all in Google Sheets.)", "quantifier": "all cells and options", "why_tests_cant": "All option combinations.", "anchors": ["src/target/excel/excel_cell.rs", "src/target/google_sheets/google_sheets_cell.rs"]}
{"id": "C65", "title": "Every option has an effect", "statement": "An accepted cell option changes what is written to a target that can express it. (Violated: lock is ignored by all targets, border_color by Excel.)", "quantifier": "all sheets", "why_tests_cant": "All sheets.", "anchors": ["src/target/excel/excel_cell.rs", "src/target/google_sheets/google_sheets_cell.rs"]}
{"id": "C66", "title": "Requests use names the service knows", "statement": "Every alignment, wrap, number format, border style and condition name sent to Google Sheets is one of the documented enumeration. (Violated for centred cells, the default, for overflow and for most validations.)", "quantifier": "all options and validations", "why_tests_cant": "All options.", "anchors": ["src/target/google_sheets/google_sheets_cell.rs"]}
{"id": "C67", "title": "Date validations accept the dates they name", "statement": "A date validation of a workbook accepts exactly the dates its name says. (Violated: the day number is one or two too small, so the validation is about a day or two earlier.)", "quantifier": "all dates", "why_tests_cant": "All dates.", "anchors": ["src/date_time/mod.rs: distance_from_epoch", "src/target/excel/cell_validation.rs"]}
{"id": "C69", "title": "Other worksheets are untouched", "statement": "Writing to a workbook changes only the worksheet of the configured name, creating it if there is none.", "quantifier": "all workbooks and names", "why_tests_cant": "All workbooks.", "anchors": ["src/target/excel/mod.rs: create_worksheet, get_worksheet_mut", "src/target/excel/compilation_target.rs"]}
{"id": "C70", "title": "Number validations accept the numbers they name", "statement": "A number validation of a workbook is placed on its cell and accepts exactly the numbers its name says. (In Google Sheets violated for all but the conditions between and not between: their names are unknown to the service.)", "quantifier": "all validations, bounds and numbers", "why_tests_cant": "All numbers.", "anchors": ["src/target/excel/cell_validation.rs", "src/target/google_sheets/google_sheets_cell.rs"]}
{"id": "C71", "title": "Text validations look for the given text", "statement": "The formula of a text validation of a workbook looks for the text that was given. (Violated for texts with a double quote.)", "quantifier": "all texts", "why_tests_cant": "All texts.", "anchors": ["src/target/excel/cell_validation.rs"]}
{"id": "C72", "title": "List validations offer the given values", "statement": "The choices of a list validation of a workbook are the given values. (Violated for values with a comma.)", "quantifier": "all value lists", "why_tests_cant": "All lists.", "anchors": ["src/target/excel/cell_validation.rs"]}
{"id": "C48", "title": "A code section defines what it says", "statement": "A code section of statements, one to a line, requires exactly the named modules in order and defines exactly the written variables and functions, of several definitions of a name the last; comments, blank lines and indentation do not matter. (Violated: a definition of a name that begins with use is rejected.)", "quantifier": "all code sections, names, expressions, comments and indentations", "why_tests_cant": "Tests parse a handful of sections.", "anchors": ["src/parser/code_section_parser.rs", "src/parser/ast_lexer/mod.rs"]}
{"id": "C49", "title": "use comes first", "statement": "A code section of well-formed statements is accepted exactly when no use statement follows a definition, and otherwise the error is about the use.", "quantifier": "all code sections", "why_tests_cant": "All orders of statements.", "anchors": ["src/parser/code_section_parser.rs: parse"]}
{"id": "C73", "title": "Modules in subdirectories can be required", "statement": "use a/b requires the module b in directory a. (Violated: it is always rejected.)", "quantifier": "all module names", "why_tests_cant": "All names.", "anchors": ["src/parser/code_section_parser.rs: parse_use_module", "src/parser/ast_lexer/token_library.rs", "src/module_path/mod.rs"]}
{"id": "C75", "title": "Tokens are reported where they stand", "statement": "The line and column of every token, of the end of input and of input that is not a token are the line and column at which it stands in the text. (Violated after a string with a line break, after fn and a line break, and after non-ASCII characters.)", "quantifier": "all texts", "why_tests_cant": "All texts.", "anchors": ["src/parser/ast_lexer/mod.rs: lex", "src/parser/ast_lexer/token_library.rs"]}
{"id": "C76", "title": "An error in a formula is reported where it stands in the cell", "statement": "A syntax error in the formula of a cell is reported at the source position of the offending characters. (Violated whenever options precede the formula.)", "quantifier": "all cells, options and formulas", "why_tests_cant": "All cells.", "anchors": ["src/parser/ast_lexer/token_match.rs", "src/parser/ast_lexer/unknown_token.rs", "src/source_code/mod.rs"]}
{"id": "C77", "title": "An unknown token can always be displayed", "statement": "The error for input that is not a token shows its first characters and never panics. (Violated: panics when byte 50 is inside a character.)", "quantifier": "all inputs", "why_tests_cant": "All inputs.", "anchors": ["src/parser/ast_lexer/unknown_token.rs: Display"]}
{"id": "C78", "title": "Options mean what the help says", "statement": "The options of the command line are accepted exactly when -v is given at most four times; --backup, --safe, --no-cache, the offsets, the sheet name (by default that of the input file) and the verbosity take effect as documented.", "quantifier": "all command lines and input file names", "why_tests_cant": "All combinations of options.", "anchors": ["src/config/try_from.rs", "src/config/mod.rs: sheet_name", "src/logger.rs"]}
{"id": "C74", "title": "Line endings do not matter", "statement": "A source file with lines ended by carriage return and newline means the same as with lines ended by newline. (Violated in files without a separator line: a leading blank line becomes an empty row, and line breaks in quoted fields keep the carriage return.)", "quantifier": "all source files", "why_tests_cant": "All texts.", "anchors": ["src/source_code/mod.rs: new", "csvp/src/lib.rs"]}
{"id": "C79", "title": "Plain CSV goes through unchanged", "statement": "If the source file is CSV without quotes, escapes, formulas, options and separator line, every run with a CSV target ends successfully and writes every cell, without the white space around it, where it stands in the source file; with --safe the non-empty cells of the target are kept.  No other file changes, except for the backup and the object file of the source.", "quantifier": "all plain CSV files, options and previous targets", "why_tests_cant": "Every file and every schedule.", "anchors": ["src/main.rs", "src/module/mod.rs", "src/compiler/mod.rs", "src/target/csv/compilation_target.rs"]}
{"id": "C80", "title": "A program is compiled to what it says", "statement": "For a source file with a code section, a separator line and a cells section, a run with a CSV target either succeeds, and the target shows the rows as often as their fills say, texts as they are, and formulas with all names replaced by what the code section, the named cells and the command line define; or it ends unsuccessfully, because the fills cannot be expanded or a formula has an error, and no file but object files has changed.  If the code section consists of assignments, each using names assigned before it, it always succeeds and the values are those of assignments made one after the other.", "quantifier": "all source files, command lines, previous targets and schedules", "why_tests_cant": "Every program.", "anchors": ["src/main.rs", "src/module/mod.rs", "src/compiler/mod.rs", "src/target/csv/compilation_target.rs"]}
{"id": "C81", "title": "-k gives names their values", "statement": "Every argument of -k is a name, an equals sign and a formula; the last one for a name counts, and any printed formula can be given.  If an argument is not of this form, the program ends unsuccessfully and touches no file.  (Violated: several pairs in one argument, and white space before the equals sign, are accepted without effect.)", "quantifier": "all -k arguments", "why_tests_cant": "All texts and lists of arguments.", "anchors": ["src/parser/ast_parser.rs: parse_key_value_str", "src/compiler/try_from.rs", "src/cli_args.rs: key_values"]}
{"id": "C82", "title": "Dividing a program into modules does not change it", "statement": "A program whose definitions are spread over modules, in which every module uses the modules whose definitions it needs, writes the same target as the program with all definitions in one file: every formula is shown as what it means with all definitions together.  (Violated: a variable of a library is put in place of a parameter of the same name; a library function that calls a function of a module which only the library uses is left unresolved; a function of the main module takes the place of a library's own function of the same name.)", "quantifier": "all programs of modules, command lines, previous targets and schedules", "why_tests_cant": "Every program and every order in which modules are loaded and names are visited.", "anchors": ["src/module_loader/mod.rs", "src/module/mod.rs", "src/scope/mod.rs: merge", "src/main.rs"]}
{"id": "C83", "title": "A date is the day that is written", "statement": "A date in an option is the day of the Gregorian calendar that is written (yyyy-mm-dd, m/d/yyyy, or m/d/yy for 1970 to 2069), a text that writes no day is an error, the day is displayed so that it is read as the same day, days are counted one by one from 1900-01-01 in the order of the calendar, and a workbook with date validations is always written.", "quantifier": "all texts that are dates for the lexer, all days, all cells sections and existing workbooks", "why_tests_cant": "Infinitely many texts and days; leap years and centuries.", "anchors": ["src/date_time/mod.rs", "src/date_time/try_from.rs", "src/date_time/display.rs", "src/parser/cell_lexer/token_library.rs: date", "src/parser/cell_parser/validate.rs", "src/target/excel/cell_validation.rs"]}
{"id": "C84", "title": "A program compiles to what it says, whatever the target", "statement": "For a program of several modules without mistakes, compiling always succeeds, whatever the schedule of the evaluation threads: the compiled sheet has the rows (as often as their fills say), texts and options of the source, each formula being what it means with the definitions of all modules. With a workbook as the target, every run of the program from its arguments on succeeds without panic: the worksheet with the sheet name shows these values and formats, existing cells stay with --safe, all other cells, worksheets and files stay as they were, and object files are written for the program's modules only.", "quantifier": "all programs, command lines, existing workbooks, schedules and hash orders", "why_tests_cant": "Runs are products of arbitrary files and schedules; tests see one of each.", "anchors": ["src/main.rs", "src/compiler/mod.rs: compile", "src/module_loader/mod.rs", "src/target/excel/compilation_target.rs", "src/target/excel/mod.rs"]}
{"id": "C85", "title": "No command line and no source makes the program harm other files", "statement": "For every command line, source text, schedule and point at which the program stops (crash, panic, error or success, with a partly written target): every file but the named target is as it was; without --backup no other file is made; with --backup, what the target had is still in it or in a file that was not there before, and after success it is in such a file; a target that is not a readable workbook is left alone; and no file but object files is touched unless the whole program compiled.", "quantifier": "all command lines, files, sources, schedules and crash points", "why_tests_cant": "Crash points and the contents of half-written files cannot be enumerated.", "anchors": ["src/main.rs", "src/compiler/try_from.rs", "src/target/file_backer_upper.rs", "src/target/csv/compilation_target.rs", "src/target/excel/compilation_target.rs"]}
{"id": "C86", "title": "Recompiling after an edit gives what compiling from scratch gives", "statement": "For every history of a directory (files saved, compiled with or without --no-cache and with any -k values, compilations interrupted at any point, object files deleted), saving a file and compiling it gives the sheet that the same source files give in a directory without object files.", "quantifier": "all histories of edits, interrupted and completed compilations and deletions; all schedules; all sources", "why_tests_cant": "A stale or half-written cache shows only in particular histories; tests run a few.", "anchors": ["src/compiler/mod.rs: compile", "src/module_loader/mod.rs: load_main, load_module", "src/module/mod.rs: load_from_cache, write_object_file", "src/source_code/mod.rs: object_code_filename"]}
{"id": "C87", "title": "A syntax error is reported at the first token that cannot be right", "statement": "When a formula or code section is rejected, the error is reported at a token (or the end of the input) such that what stands before it can be continued to something valid, and no continuation that keeps the reported token is valid. The exception is a sign before something that is not a number, which is reported at the sign.", "quantifier": "all lists of tokens of formulas and of code sections; all continuations", "why_tests_cant": "Which token an error is blamed on depends on the whole nesting of the expression; tests check that some message appears.", "anchors": ["src/parser/ast_parser.rs: expr_bp", "src/parser/code_section_parser.rs: parse, parse_fn_definition, parse_variable_assign"]}
{"id": "C88", "title": "The printed error message points at the offending text", "statement": "When a code section or a formula is rejected, a message is printed that shows the line of the source file with its number and, on the next line, a ^ in the column of the first character of the offending token (or of the end of the input).", "quantifier": "all source files and errors in their code sections and cells", "why_tests_cant": "The column depends on everything before the token and on the width of the line numbers; tests check that the excerpt contains some text.", "anchors": ["src/source_code/errors.rs: highlight_line, parse_error", "src/error/parse_error.rs: Display", "src/error/display.rs: Display", "src/parser/ast_lexer/token_match.rs: position"]}
{"id": "C89", "title": "A failing run says why", "statement": "A run that exits unsuccessfully has printed the message of the error that ended it, whatever verbosity was asked for; the message is not empty, and when modules could not be loaded it has the error of each of them.", "quantifier": "all arguments, and all errors that compiling and writing can end with", "why_tests_cant": "The message is printed through a logger that is started in the middle of reading the arguments; which errors come before that is not visible in tests of single functions.", "anchors": ["src/main.rs: main", "src/compiler/try_from.rs: try_from", "src/logger.rs: init", "src/error/display.rs: Display", "src/output/try_from.rs: try_from", "src/config/try_from.rs: try_from"]}
{"id": "C90", "title": "An object file stands for one module, and one that was only partly written is never used", "statement": "Every module can be written to an object file; reading the file gives the module back, with every definition, cell and option (hash maps and sets whatever the order they are written in); no file can stand for two different modules; a file of which bytes at the end are missing is not read. So when the compiler is stopped after any byte that it writes, each object file is read as before, or as the module being written, or not at all.", "quantifier": "all modules, all orders in which maps and sets are written, all points at which writing can be stopped", "why_tests_cant": "Nearly every value can be cut off somewhere, and a truncated file could happen to be a valid one; tests only try a few.", "anchors": ["src/module/mod.rs: Module, write_object_file, load_from_object_code_from_filename", "src/ast/node.rs: Node", "src/ast/variable_value.rs: VariableValue", "src/scope/mod.rs: Scope", "src/cell/mod.rs: Cell", "src/row/mod.rs: Row", "src/cell_options/data_validation.rs: DataValidation", "src/source_code/mod.rs: SourceCode"]}
{"id": "C91", "title": "The result does not depend on the working directory", "statement": "Compiling the same source file gives the same sheet whatever directory the compiler is run in, however the file is named on the command line, and whichever directories it was run in before.", "quantifier": "all directories, source files, names of the file, and histories of runs", "why_tests_cant": "Object files remember the name of their source as it was given; the effect shows only over several runs in different directories.", "anchors": ["src/source_code/mod.rs: SourceCode, object_code_filename", "src/module/mod.rs: load_from_cache_from_filename, check_if_is_dirty, load_from_source_from_filename, write_object_file", "src/module_loader/mod.rs: load_main", "src/compiler/mod.rs: compile"]}
{"id": "C92", "title": "An error in the options of a cell is reported at the text that is wrong", "statement": "If an option of a cell or row has an unknown name, a value it does not have, a number that is too large, no `=`, a malformed colour, a malformed or missing argument of a validation, or a quoted text or an option list that does not end, the cell is rejected, and the position of the error is that of the offending text.", "quantifier": "all cells with any number of correct option lists and options before the error, and all wrong names and values", "why_tests_cant": "The position depends on everything that was read before: white space, option lists and options of every kind.", "anchors": ["src/parser/cell_lexer/mod.rs: take, take_while, take_color, match_token, unknown_string, current_cell_offset", "src/parser/cell_parser/mod.rs: parse_cell, parse_cell_options, option, fill_option", "src/parser/cell_parser/validate.rs: validate", "src/error/cell_parse_error.rs", "src/error/display.rs"]}
{"id": "C93", "title": "A failing or interrupted run leaves a Google spreadsheet whole", "statement": "Whatever calls fail, whatever replies are lost and whenever the run is stopped: no other spreadsheet is changed; the spreadsheet is as before or as after a run that succeeds; with --backup there is a new spreadsheet with the old contents before anything is changed; a run succeeds only if the compiled sheet was written; if the spreadsheet does not exist nothing is changed and the run does not succeed.", "quantifier": "all spreadsheets, sheets, options, faults of the services, lost replies and moments at which the run is stopped", "why_tests_cant": "Faults and lost replies of remote services are not in the tests, which do not call the services at all.", "anchors": ["src/main.rs: compile_from_cli", "src/target/google_sheets/mod.rs: read_existing_cells, write_sheet, backup_sheet", "src/target/google_sheets/compilation_target.rs: write_backup, write", "src/target/google_sheets/batch_update_builder.rs: build, update_cells_request"]}
{"id": "C94", "title": "Edits that others make during a run against Google Sheets survive", "statement": "What others do to a spreadsheet while it is being written is kept, except for the cells that the compiled sheet has; with --safe also for those that are no longer empty.", "quantifier": "all interleavings of the calls of a run with arbitrary changes by others", "why_tests_cant": "It depends on the schedule.", "anchors": ["src/main.rs: compile_from_cli", "src/target/google_sheets/mod.rs: read_existing_cells, write_sheet, backup_sheet", "src/target/google_sheets/compilation_target.rs: write_backup, write", "src/target/google_sheets/batch_update_builder.rs: build, update_cells_request"]}
{"id": "C95", "title": "The tab that was asked for is written", "statement": "With Google Sheets, the compiled sheet is written to the tab with the name that was given (or that of the source file), and the other tabs are unchanged.", "quantifier": "all spreadsheets with any number of tabs with any ids and titles", "why_tests_cant": "Tests do not call the service; the tab is not named in the request at all.", "anchors": ["src/main.rs: compile_from_cli", "src/target/google_sheets/mod.rs: read_existing_cells, write_sheet, backup_sheet", "src/target/google_sheets/compilation_target.rs: write_backup, write", "src/target/google_sheets/batch_update_builder.rs: build, update_cells_request", "src/cli_args.rs: sheet_name", "src/config/mod.rs: sheet_name"]}
{"id": "C96", "title": "The credentials are those that were given", "statement": "The credentials for Google Sheets are those of --google-account-credentials if given, else those of GOOGLE_APPLICATION_CREDENTIALS, else those made by gcloud; there is an error exactly if there is no such file.", "quantifier": "all environments, arguments and file systems", "why_tests_cant": "It ranges over environments; the existing test is ignored.", "anchors": ["src/target/google_sheets/credentials.rs: adc_path, try_from", "src/cli_args.rs: google_account_credentials"]}
{"id": "C97", "title": "Every id of a spreadsheet can be given", "statement": "Every id that Google gives to a spreadsheet is accepted after --google-sheet-id.", "quantifier": "all ids", "why_tests_cant": "All ids.", "anchors": ["src/output/mod.rs: from_google_sheet_id", "src/output/try_from.rs: try_from", "book/src/cli.md"]}
{"id": "C98", "title": "The same mistakes give the same message", "statement": "A sheet whose formulas have calls with a wrong number of arguments is never compiled; the error is reported at a cell whose formula has such a call, after everything to the left of it in its row was accepted; and it is reported at the same cell in every run.", "quantifier": "all sheets, definitions, orders of evaluation of the rows and orders of iteration of the hash maps", "why_tests_cant": "It depends on the schedule of the threads that evaluate the rows.", "anchors": ["src/module/mod.rs: eval_spreadsheet", "src/row/mod.rs: eval", "src/ast/eval.rs: eval"]}
{"id": "C99", "title": "Unused definitions do not matter", "statement": "Adding, removing or changing definitions in the code section or with -k that are used neither in a formula nor in another definition, and are not called like a cell, leaves all outcomes of the evaluation of the sheet as they are: the same cells, or the same error.", "quantifier": "all sheets, definitions, -k values, sets of unused names and orders of evaluation", "why_tests_cant": "It must hold for all programs, and unused definitions take part in the iteration over the scope.", "anchors": ["src/module/mod.rs: eval_spreadsheet", "src/scope/mod.rs: merge_variables", "src/ast/eval.rs: eval"]}
{"id": "C100", "title": "Definitions can be renamed", "statement": "Exchanging two names throughout a program (definitions, parameters, formulas, named cells and -k) that are not called like a cell exchanges them in the outcome and changes nothing else; cells whose results do not contain the names are the same.", "quantifier": "all sheets, definitions, -k values and pairs of names that are not cell addresses", "why_tests_cant": "It is a statement about all programs: the implementation substitutes texts and visits names in hash order.", "anchors": ["src/ast/eval.rs: eval", "src/ast/references.rs", "src/scope/mod.rs"]}
{"id": "C101", "title": "The order of definitions does not matter", "statement": "Two source files with the same definitions in a different order, the same use lines and the same cells section, in which no function and no variable is defined twice, have the same outcomes of compiling; and the order of -k arguments for different names does not matter.", "quantifier": "all code sections and permutations of them, cells sections, -k arguments, module graphs (in which the file is not used by its modules), schedules and states of the object files of the other modules", "why_tests_cant": "It must hold for all programs and permutations.", "anchors": ["src/parser/code_section_parser.rs", "src/scope/mod.rs: define_function, define_variable, merge", "src/compiler/mod.rs: compile", "src/parser/ast_parser.rs: parse_key_value_str"]}
{"id": "C102", "title": "The CSV that is written is a source file that compiles to itself", "statement": "csv++ is a superset of CSV: a CSV file written by the program, compiled again (without -k), gives a CSV file that shows the same cells. (Violated: a quoted cell at the end of a line makes the file unreadable, and a first cell that begins with # becomes a comment.)", "quantifier": "all compiled sheets, previous targets and CSV files written from them", "why_tests_cant": "All sheets; the writer and the reader are different implementations of CSV.", "anchors": ["src/target/csv/compilation_target.rs", "csvp/src/parser.rs", "src/main.rs", "README.md"]}
{"id": "C103", "title": "Editing a cell changes that cell only", "statement": "A sheet is evaluated cell by cell: its outcomes without an error are exactly the sheets in which each formula is replaced by a result of its own evaluation, whatever the others are replaced with. So if the contents of some cells are edited (not their options), then for every outcome there is an outcome of the edited sheet, and of the run on the edited source file, in which all other cells are the same, provided that the edited formulas have results.", "quantifier": "all sheets, definitions, -k values, sets of edited cells, their new contents, and outcomes of the evaluation", "why_tests_cant": "All sheets and edits; rows are evaluated in parallel and names in hash order.", "anchors": ["src/spreadsheet/mod.rs: eval", "src/row/mod.rs: eval", "src/cell/mod.rs: eval", "src/compiler/mod.rs: compile"]}
{"id": "C104", "title": "The message for a wrong option value lists the values the option takes", "statement": "When the value of an option with a fixed choice of values (border, borderstyle, halign, valign, numberformat, text, wrap, validate) is rejected, the printed message lists possible values: every value that is not listed is rejected, and every value that is listed is accepted, long and short forms meaning the same.", "quantifier": "all cells, options and values", "why_tests_cant": "The values that are accepted and the list in the message are written in different places; all texts as values.", "anchors": ["src/cell_options/border_side.rs", "src/cell_options/border_style.rs", "src/cell_options/horizontal_align.rs", "src/cell_options/vertical_align.rs", "src/cell_options/number_format.rs", "src/cell_options/text_format.rs", "src/cell_options/text_wrap.rs", "src/parser/cell_parser/validate.rs", "src/error/cell_parse_error.rs"]}
{"id": "C105", "title": "Names follow their cells when rows are inserted", "statement": "Insert rows without names and fills anywhere into a sheet in which every fill has an amount (and in which no variable, parameter or name is called like a cell, and the sheet still fits into 1000 rows). Every formula outside the inserted rows has the same outcomes as before except that a reference which stands for a named cell, row or filled column follows its cells to their new rows; references written in the source, such as A1, are left as they are. The target shows the same cells at their new rows, and conversely removing such rows undoes it. In a sheet without names nothing changes.", "quantifier": "all sheets, code sections, command lines, numbers and places of inserted rows, evaluation orders", "why_tests_cant": "Needs all formulas, fills and positions, and a comparison of two evaluations.", "anchors": ["src/spreadsheet/mod.rs: eval_fills, variables", "src/ast/variable_value.rs: into_ast", "src/ast/eval.rs: eval", "src/cell_options/fill/mod.rs", "src/row/mod.rs: eval"]}
{"id": "C106", "title": "A fill is an abbreviation for writing the row out", "statement": "In a sheet with at most one fill without an amount, write out some of the fills of rows that have no names: instead of a row with fill=n write the row n times, instead of a row with a fill without an amount write it as often as the other rows leave of 1000. The evaluation has the same outcomes: the same cells, or the same error at the same place; and CSV, Excel and Google targets get the same output. With two source files that differ in this way, exactly the same contents can be written to the target.", "quantifier": "all sheets, sets of fills written out, code sections, command lines, evaluation orders", "why_tests_cant": "Needs all sheets and fills, and a comparison of two whole runs.", "anchors": ["src/spreadsheet/mod.rs: eval_fills, variables", "src/cell_options/fill/mod.rs", "src/row/mod.rs: eval", "src/target/csv", "src/target/excel", "src/target/google_sheets"]}
{"id": "C107", "title": "Replacing uses of definitions by the definitions changes nothing", "statement": "Replace some uses of definitions of the code section by the definitions: a variable by its value, a call of a function by its body with the arguments put in for the parameters; in formulas and in the definitions themselves, and again within what was put in. If the definitions and formulas are free of trouble (not recursive, parameter names used for nothing else, nested calls that need no function in common, right numbers of arguments), so are the new ones, and every formula has the same outcome; definitions that are not used any more can be dropped; all targets get the same output and exactly the same contents can be written to the target. Conversely, an expression can be given a name.", "quantifier": "all definitions, formulas, sheets, choices of uses, nesting depths, command lines, evaluation orders", "why_tests_cant": "Needs all programs and all ways to replace, and a comparison of two whole runs.", "anchors": ["src/ast/eval.rs: eval, eval_functions, eval_variables", "src/ast/mod.rs", "src/scope/mod.rs", "src/spreadsheet/mod.rs: eval", "src/row/mod.rs: eval"]}
{"id": "C108", "title": "How the options of rows and cells are written does not matter", "statement": "Two lists of options always have the same effect exactly if they have the same borders and text formats (in any order and number) and for every other attribute the same last option; in particular options can be reordered if no attribute is given twice. If the main file of a program is changed such that the rows keep their last name and fill, and the cells their texts (or formulas) and what the options of the row and their own say together, then the program has the same outcomes, with the same states of the target files (CSV, Excel) and the same requests to Google Sheets. So an option of a row can be written in its cells, by another of its names, in another order, with other white space.", "quantifier": "all lists of options, all code sections and used modules, all cells sections, targets, command lines, crash points", "why_tests_cant": "Needs all programs and a comparison of two whole runs.", "anchors": ["src/parser/cell_parser/mod.rs", "src/cell_options/mod.rs", "src/row/mod.rs", "src/cell/mod.rs", "src/spreadsheet/mod.rs: eval", "src/target/mod.rs"]}
{"id": "C109", "title": "The prompt of an Excel validation tells what is checked", "statement": "Every validation that is written to a workbook shows its prompt when the cell is selected and an error message when the entry is wrong. Two cells of a compiled sheet whose prompts are the same have the same validation: of the same kind and with the same dates, numbers, texts or range; two lists of choices with the same prompt are written as the same list.", "quantifier": "all pairs of validations of all compiled sheets, all positions", "why_tests_cant": "Needs all pairs of validations with all their arguments.", "anchors": ["src/target/excel/cell_validation.rs: CellValidation", "src/date_time/display.rs", "src/cell_options/data_validation.rs: DataValidation"]}
{"id": "C110", "title": "Several runs at the same time", "statement": "Several runs of the program at the same time, with the same CSV file as their target, leave what some order of the runs would leave, and lose nothing that a run alone keeps: with backups, the contents the target had are in the target or in a backup at every moment; with --safe, non-empty cells of the target stay as they are; and the target is never a mixture of two outputs.", "quantifier": "all numbers of runs, all programs, all files, all interleavings of their file operations (with reads and writes of any number of characters), all crashes", "why_tests_cant": "Needs all interleavings of the runs.", "anchors": ["src/main.rs", "src/target/file_backer_upper.rs: backup_file", "src/target/csv/mod.rs", "src/target/csv/compilation_target.rs"]}
{"id": "C111", "title": "An edit made while the program runs is not lost", "statement": "A source file can be saved, and other runs can be made, while a run is under way: the sheet with which a run ends is that of contents the source file had during the run, and a run that begins after the last edit ends with the sheet of that edit.", "quantifier": "all interleavings of any number of runs (with and without --no-cache), all edits at all moments, all crashes, all contents", "why_tests_cant": "Needs all interleavings of the reads, time stamps and writes of the runs with the edits.", "anchors": ["src/module/mod.rs: load_from_cache_from_filename, check_if_is_dirty, write_object_file", "src/compiler/mod.rs: compile"]}
{"id": "C112", "title": "Names follow their cells when columns are inserted", "statement": "Insert columns without names anywhere into a sheet in which no variable, parameter or name is called like a cell (rows that end before the place are left as they are). Every formula outside the inserted cells has the same outcomes as before except that a reference which stands for a named cell or filled column follows its cells to their new columns; references written in the source, such as A1, and references to rows are left as they are. The target shows the same cells at their new columns, and conversely removing such columns undoes it. In a sheet without names nothing changes.", "quantifier": "all sheets (with all fills), code sections, command lines, numbers and places of inserted columns, evaluation orders", "why_tests_cant": "Needs all formulas, fills and positions, and a comparison of two evaluations.", "anchors": ["src/spreadsheet/mod.rs: eval_fills, variables", "src/ast/variable_value.rs: into_ast", "src/ast/eval.rs: eval", "src/cell_options/fill/mod.rs", "src/row/mod.rs: eval"]}
{"id": "C113", "title": "The names of modules and the order of use lines do not matter", "statement": "If no name has different definitions in two modules, then giving modules other names (of their files and in the use lines), writing the use lines in another order, or moving definitions between modules so that each is still seen where it is used, leaves every cell of the target as it is.", "quantifier": "all programs of any number of modules, all renamings, all orders of use lines, all schedules of the loader and all hash orders", "why_tests_cant": "Needs all programs, dependency graphs and loader schedules.", "anchors": ["src/module_loader/mod.rs", "src/compiler/mod.rs: compile", "src/module/mod.rs", "src/scope/mod.rs: merge", "src/parser/code_section_parser.rs"]}
{"id": "C114", "title": "The command line means what its options say, in any order and spelling", "statement": "A command line is accepted exactly if it consists of options in one of their spellings (--name value, --name=value, -x value, -xvalue, -x=value, letters of flags joined) and exactly one input file, no option but -v and -k twice, not both a Google sheet and a file, numbers in range; then every field is what was asked for, whatever the order, and every combination of values can be asked for. -k takes all words up to the next option, so an input file directly after it is taken as a variable and the command line refused.", "quantifier": "all lists of words on the command line, all orders and spellings, all values of the options", "why_tests_cant": "Needs all orders and spellings of all options with all values.", "anchors": ["src/cli_args.rs: CliArgs", "src/compiler/mod.rs: from_cli_args", "book/src/cli.md"]}
{"id": "C115", "title": "The cells of the main file do not decide what the modules give", "statement": "Save a main file that uses modules with another cells section and the same code section. Loading the modules can end in the same ways as before: with the same definitions in force in the main file, the same failures, and the same scopes written to object files of the modules. The contents that a run can write to the target are exactly the evaluations of the cells in definitions that are in force.", "quantifier": "all main files, cells sections, modules (also missing, circular or changed ones), object files, schedules of the loader, -k values", "why_tests_cant": "All programs, all edits, all schedules of the loader.", "anchors": ["src/compiler/mod.rs: compile", "src/module_loader/mod.rs: load_main", "src/module/mod.rs: load_from_source_from_filename"]}
{"id": "C116", "title": "Several runs into one workbook", "statement": "Several runs of the program at the same time, with worksheets of the same Excel workbook as their targets, leave what the runs would leave one after the other in some order: the worksheet of every run that succeeds is in the workbook, and worksheets that no run names are as they were.", "quantifier": "all numbers of runs, all sheets, worksheet names and workbooks, all interleavings of the runs, all crashes", "why_tests_cant": "Needs all interleavings of the runs.", "anchors": ["src/target/excel/compilation_target.rs: write", "src/target/excel/mod.rs: open_spreadsheet, create_worksheet, build_worksheet"]}
{"id": "C117", "title": "Several runs that share an object file", "statement": "When several runs of the compiler at the same time read and write the object file of the same module, what each of them reads is the module that was there before, or nothing (and then it compiles the source), or a module that one of the runs has written; and when all have written, the file is read as the module of one of them.", "quantifier": "all numbers of runs, all modules, all interleavings of their reads and writes, all crashes", "why_tests_cant": "Needs all interleavings of the runs.", "anchors": ["src/module/mod.rs: write_object_file, load_from_object_code_from_filename"]}
{"id": "C118", "title": "Running again after an interruption", "statement": "If a run with a CSV file as its target is interrupted at any point, and the same command is then run again and succeeds, the target is what the first run would have left.", "quantifier": "all programs, all files, all points of interruption (after any character), with and without --safe and --backup", "why_tests_cant": "Needs all crash points of all programs.", "anchors": ["src/main.rs", "src/target/csv/compilation_target.rs: write", "src/target/csv/mod.rs: read", "src/compiler/mod.rs: compile"]}
{"id": "C119", "title": "A compiled formula has the value of the formula that was written", "statement": "Whatever values a spreadsheet program gives to literals, cells, operators and its functions: if the value of a defined variable is that of its definition and a defined function gives the value of its body with the parameters standing for the values of the arguments, then the formula that is written to the target has the value of the formula in the source file.", "quantifier": "all interpretations of formulas in any domain of values, all scopes (also with definitions that depend on themselves), formulas, positions and hash orders", "why_tests_cant": "Ranges over all possible spreadsheet programs and all formulas.", "anchors": ["src/ast/eval.rs: eval, resolve_variables, eval_functions, call_function", "src/ast/variable_value.rs"]}
{"id": "C120", "title": "A written formula is read in one way only", "statement": "Spreadsheet programs differ in the precedence of operators and in how operators of the same precedence group. The text of a formula that is written to the target can, whatever these rules are, be read only as the formula that was compiled.", "quantifier": "all formulas, all rules for precedence and associativity", "why_tests_cant": "All formulas and all ways to read them.", "anchors": ["src/ast/display.rs", "src/cell/display.rs", "src/parser/ast_lexer/mod.rs"]}
{"id": "C121", "title": "An option changes only what it is for", "statement": "Options do not interfere with each other. The verbosity (up to four times -v) changes messages only: the run ends the same, with the same files, object files and calls to services. The name of the tab changes nothing when the target is a CSV file. --backup only adds the backup: the run ends as without it with the same target and files, unless the backup cannot be made.", "quantifier": "all command lines, sources, modules, object files and files; all three kinds of target", "why_tests_cant": "All combinations of options with all programs.", "anchors": ["src/config/try_from.rs", "src/main.rs: compile_from_cli", "src/target/csv/compilation_target.rs", "src/target/excel/compilation_target.rs"]}
{"id": "C122", "title": "The offsets move what is written", "statement": "With --x-offset x and --y-offset y every cell is written x columns further to the right and y rows further down than without them, whatever the target. (Violated: CSV files and workbooks ignore the offsets; for Google Sheets they are swapped.)", "quantifier": "all sheets, offsets, targets and contents of targets", "why_tests_cant": "All sizes, offsets and contents.", "anchors": ["src/cli_args.rs: x_offset, y_offset", "src/target/google_sheets/batch_update_builder.rs", "src/target/csv/compilation_target.rs", "src/target/excel/compilation_target.rs"]}
{"id": "C123", "title": "Files that a program does not use do not matter", "statement": "What a run does depends only on the main file, on the modules that are named in its use lines, on those named in theirs, and so on, and on the object files of these: other source and object files in the same directories, whatever is in them, change neither how a run ends nor what it writes.", "quantifier": "all sources, modules, object files, command lines and targets that are files; all orders in which modules are loaded", "why_tests_cant": "All contents of all other files.", "anchors": ["src/module_loader/mod.rs: load_main", "src/module/mod.rs: load_from_cache", "src/compiler/mod.rs: compile"]}
