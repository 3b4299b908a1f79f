{
 "claims": [
  {
   "property": "C01",
   "status": "proved",
   "theorems": [
    "Verif.Csvp.C01_no_panic",
    "Verif.Csvp.C01_error_position",
    "Verif.Csvp.C01_no_quote"
   ],
   "note": "for every text, separator and lines_above"
  },
  {
   "property": "C02",
   "status": "proved",
   "theorems": [
    "Verif.Csvp.C02_addresses"
   ],
   "note": ""
  },
  {
   "property": "C03",
   "status": "proved",
   "theorems": [
    "Verif.Csvp.C03_plain_round_trip",
    "Verif.Csvp.C03_plain_round_trip_grid"
   ],
   "note": ""
  },
  {
   "property": "C04",
   "status": "partial",
   "theorems": [
    "Verif.Csvp.C04_violated",
    "Verif.Csvp.C04_row_break_lost",
    "Verif.Csvp.C04_quoted_partial",
    "Verif.Csvp.C04_single_record_partial",
    "Verif.Csvp.C04_rejected",
    "Verif.Csvp.C04_all_quoted"
   ],
   "note": "full property refuted (quoted field ending a non-final row); proved where the last field of a non-final row is unquoted; C04_rejected says which files are not accepted, C04_all_quoted is exact for grids with all values quoted: those with two or more rows are rejected"
  },
  {
   "property": "C05",
   "status": "partial",
   "theorems": [
    "Verif.Csvp.C05_violated",
    "Verif.Csvp.C05_positions_partial",
    "Verif.Csvp.C05_single_line_partial",
    "Verif.Csvp.C05_aligned_partial",
    "Verif.Csvp.C05_aligned_violated_quoted",
    "Verif.Csvp.C05_end_partial"
   ],
   "note": "full property refuted (column off by one after the first line); exact characterisation of what is reported proved"
  },
  {
   "property": "C06",
   "status": "proved",
   "theorems": [
    "Verif.Csvp.C06_comment",
    "Verif.Csvp.C06_leading_newlines",
    "Verif.Csvp.C06_exclusion_needed"
   ],
   "note": ""
  },
  {
   "property": "C07",
   "status": "proved",
   "theorems": [
    "Verif.Csvp.C07_continuation"
   ],
   "note": ""
  },
  {
   "property": "C08",
   "status": "proved",
   "theorems": [
    "Verif.Csvp.C08_trimmed"
   ],
   "note": ""
  },
  {
   "property": "C09",
   "status": "proved",
   "theorems": [
    "Verif.Csvp.C09_shape",
    "Verif.Csvp.C09_quote_free_accepted"
   ],
   "note": ""
  },
  {
   "property": "C47",
   "status": "proved",
   "theorems": [
    "Verif.Csvp.C47_naive"
   ],
   "note": ""
  },
  {
   "property": "C10",
   "status": "proved",
   "theorems": [
    "Verif.Source.C10_split",
    "Verif.Source.C10_no_separator",
    "Verif.Source.C10_line_mapping",
    "Verif.Source.C10_reported_line"
   ],
   "note": ""
  },
  {
   "property": "C11",
   "status": "proved",
   "theorems": [
    "Verif.Source.C11_excerpt",
    "Verif.Source.C11_contains_line",
    "Verif.Source.C11_outside",
    "Verif.Source.C11_at_most_seven"
   ],
   "note": "gutter width and colours not modelled"
  },
  {
   "property": "C16",
   "status": "proved",
   "theorems": [
    "Verif.Ast.C16_unchanged",
    "Verif.Ast.C16_only_defined_altered",
    "Verif.Ast.C16_undefined_call"
   ],
   "note": ""
  },
  {
   "property": "C18",
   "status": "proved",
   "theorems": [
    "Verif.Ast.C18_order_independent",
    "Verif.Ast.C18_functions_order_independent",
    "Verif.Ast.C18_functions_violated"
   ],
   "note": "The claim ranges over acyclic variable scopes (C18_order_independent); extended to flat function calls; with nested calls the result does depend on the hash order (C18_functions_violated)."
  },
  {
   "property": "C19",
   "status": "partial",
   "theorems": [
    "Verif.Ast.C19_terminates_partial",
    "Verif.Ast.C19_flat_terminates_partial",
    "Verif.Ast.C19_violated",
    "Verif.Ast.C19_acyclic_violated"
   ],
   "note": "False in general (C19_violated: x := y, y := x), and even without recursive definitions, if arguments of calls mention the names of parameters (C19_acyclic_violated: for certain hash orders). Proved for non-recursive scopes whose parameter names are not used otherwise, or with flat calls."
  },
  {
   "property": "C20",
   "status": "partial",
   "theorems": [
    "Verif.Ast.C20_wrong_arity_partial",
    "Verif.Ast.C20_right_arity",
    "Verif.Ast.C20_violated",
    "Verif.Ast.C20_message_swapped"
   ],
   "note": "False in general (C20_violated: a wrong call inside an argument that is dropped). The error's counts are swapped (C20_message_swapped)."
  },
  {
   "property": "C22",
   "status": "proved",
   "theorems": [
    "Verif.Ast.C22_precedence",
    "Verif.Ast.C22_functions_unchanged"
   ],
   "note": ""
  },
  {
   "property": "C12",
   "status": "partial",
   "theorems": [
    "Verif.Parser.C12_display_parses",
    "Verif.Parser.C12_roundtrip_partial",
    "Verif.Parser.C12_stable_partial",
    "Verif.Parser.C12_reread_partial",
    "Verif.Parser.C12_exact_partial",
    "Verif.Parser.C12_violated_boolean",
    "Verif.Parser.C12_violated_float",
    "Verif.Parser.C12_violated_fn"
   ],
   "note": "False in general: booleans print as TRUE/FALSE, which parse as references; 2.0 prints as 2; a name `fn` prints to text that does not parse. Proved for every formula without those, of any size; C12_reread_partial and C12_exact_partial say exactly what happens with booleans and floats that print as integers."
  },
  {
   "property": "C13",
   "status": "partial",
   "theorems": [
    "Verif.Parser.C13_groups_right",
    "Verif.Parser.C13_grouping_unique",
    "Verif.Parser.C13_conventional_iff",
    "Verif.Parser.C13_conventional_partial",
    "Verif.Parser.C13_violated"
   ],
   "note": "False of the code (C13_violated: 1 - 2 - 3 groups to the right). Precedence levels are proved as documented; equal levels group to the right; the conventional reading is proved for chains where both agree."
  },
  {
   "property": "C14",
   "status": "partial",
   "theorems": [
    "Verif.Parser.C14_prefix",
    "Verif.Parser.C14_complete_partial",
    "Verif.Parser.C14_violated",
    "Verif.Parser.C14_sign_overwritten"
   ],
   "note": "False of the code (C14_violated: =1) + x). Proved: the result is always built from a prefix of the tokens, in order, and when no ) or , is left over, from all of them."
  },
  {
   "property": "C15",
   "status": "partial",
   "theorems": [
    "Verif.Parser.C15_literal",
    "Verif.Parser.C15_printed_partial",
    "Verif.Parser.C15_violated"
   ],
   "note": "Parsing a literal always gives its text; printing loses it exactly for texts containing a quote (C15_violated is for every such text)."
  },
  {
   "property": "C28",
   "status": "partial",
   "theorems": [
    "Verif.Cell.C28_row",
    "Verif.Cell.C28_later_cells",
    "Verif.Cell.C28_row_list_elsewhere",
    "Verif.Cell.C28_two_cell_lists",
    "Verif.Cell.C28_violated"
   ],
   "note": "False of the code only for the first cell when its own option list comes before the row's (C28_violated). Proved: for every row written in the documented grammar of options (C28_row, all options, validators, names, separators), and for the cells after the first of every row that parses at all."
  },
  {
   "property": "C29",
   "status": "proved",
   "theorems": [
    "Verif.Cell.C29_formula_iff",
    "Verif.Cell.C29_text_kept",
    "Verif.Cell.C29_no_options"
   ],
   "note": ""
  },
  {
   "property": "C30",
   "status": "proved",
   "theorems": [
    "Verif.Cell.C30_colours",
    "Verif.Cell.C30_round_trip",
    "Verif.Cell.C30_non_ascii_panics"
   ],
   "note": "C30_non_ascii_panics: reading three non-ASCII letters of six bytes panics."
  },
  {
   "property": "C31",
   "status": "partial",
   "theorems": [
    "Verif.Cell.C31_quoted_partial",
    "Verif.Cell.C31_non_ascii",
    "Verif.Cell.C31_violated"
   ],
   "note": "Proved for ASCII texts; false for every text with a non-ASCII character (C31_non_ascii)."
  },
  {
   "property": "C50",
   "status": "proved",
   "theorems": [
    "Verif.Cell.C50_ascii_no_panic",
    "Verif.Cell.C50_ascii_rows",
    "Verif.Cell.C50_violated"
   ],
   "note": "The statement ranges over ASCII files (proved); false beyond."
  },
  {
   "property": "C23",
   "status": "proved",
   "theorems": [
    "Verif.Sheet.C23_cell",
    "Verif.Sheet.C23_row",
    "Verif.Sheet.C23_filled_cell",
    "Verif.Sheet.C23_filled_row",
    "Verif.Sheet.C23_undefined",
    "Verif.Sheet.C23_means",
    "Verif.Sheet.C23_eval",
    "Verif.Sheet.C23_formula"
   ],
   "note": "For filled rows under the condition (InLimits) that the fill's rows are in its range; C26 says exactly when, and where it fails."
  },
  {
   "property": "C24",
   "status": "proved",
   "theorems": [
    "Verif.Sheet.C24_rows",
    "Verif.Sheet.C24_copies",
    "Verif.Sheet.C24_thousand",
    "Verif.Sheet.C24_bounded"
   ],
   "note": ""
  },
  {
   "property": "C25",
   "status": "proved",
   "theorems": [
    "Verif.Sheet.C25_rejected_iff"
   ],
   "note": ""
  },
  {
   "property": "C26",
   "status": "partial",
   "theorems": [
    "Verif.Sheet.C26_range_iff",
    "Verif.Sheet.C26_violated",
    "Verif.Sheet.C26_violated_bounded"
   ],
   "note": "False of the code; C26_range_iff says exactly for which fills the claim holds."
  },
  {
   "property": "C27",
   "status": "proved",
   "theorems": [
    "Verif.Sheet.C27_idempotent"
   ],
   "note": ""
  },
  {
   "property": "C51",
   "status": "proved",
   "theorems": [
    "Verif.Sheet.C51_shape",
    "Verif.Sheet.C51_error_address",
    "Verif.Sheet.C51_no_panic"
   ],
   "note": ""
  },
  {
   "property": "C52",
   "status": "partial",
   "theorems": [
    "Verif.Sheet.C52_one_result_partial",
    "Verif.Sheet.C52_functionless",
    "Verif.Sheet.C52_result_exists",
    "Verif.Cli.C52_clear_partial",
    "Verif.Cli.C52_program_partial",
    "Verif.Cli.C52_violated"
   ],
   "note": "False of the code where C18 is: C52_violated gives two successful runs on the same file that write different formulas, depending on the order in which a hash set is iterated; proved for every sheet without user functions, for flat hygienic functions, and for all sheets and source files (without use) whose formulas are free of trouble in the sense of C80 and C82 (C52_clear_partial, C52_program_partial: all runs write the same text). For programs with modules see C113_compile_partial."
  },
  {
   "property": "C53",
   "status": "proved",
   "theorems": [
    "Verif.Sheet.C53_cells",
    "Verif.Sheet.C53_rows",
    "Verif.Sheet.C53_columns",
    "Verif.Sheet.C53_kinds",
    "Verif.Sheet.C53_covers_cell",
    "Verif.Sheet.C53_covers_rows",
    "Verif.Sheet.C53_covers_column"
   ],
   "note": "C53_covers_*: what the references mean, in a specification of the A1 notation of its own. About the model of the text of references, which the external a1 crate produces."
  },
  {
   "property": "C32",
   "status": "proved",
   "theorems": [
    "Verif.Loader.C32_once",
    "Verif.Loader.C32_only_reachable"
   ],
   "note": "All interleavings of the lock-protected steps of all threads."
  },
  {
   "property": "C33",
   "status": "proved",
   "theorems": [
    "Verif.Loader.C33_result",
    "Verif.Loader.C33_no_deadlock",
    "Verif.Loader.C33_terminates",
    "Verif.Loader.C33_ends",
    "Verif.Loader.C33_schedule_independent"
   ],
   "note": ""
  },
  {
   "property": "C34",
   "status": "partial",
   "theorems": [
    "Verif.Loader.C34_never_ok",
    "Verif.Loader.C34_report_exact",
    "Verif.Loader.C34_reported_partial",
    "Verif.Loader.C34_violated",
    "Verif.Loader.Examples.C34_panic"
   ],
   "note": "False of the code: C34_violated (never reported when a dependency uses the failing module), C34_panic (a run that panics). Proved: never success, the report is exact, and it is given when only the main module uses failing modules."
  },
  {
   "property": "C35",
   "status": "partial",
   "theorems": [
    "Verif.Loader.C35_own",
    "Verif.Loader.C35_first_variable",
    "Verif.Loader.C35_first_function",
    "Verif.Loader.C35_nothing_else",
    "Verif.Loader.Examples.C35_violated"
   ],
   "note": "False of the code when a used module exports a function under the name of a variable it imports (C35_violated). Proved: own definitions win, first use wins, and names no used module exports are invisible."
  },
  {
   "property": "C36",
   "status": "partial",
   "theorems": [
    "Verif.Loader.C36_violated",
    "Verif.Loader.C36_panics",
    "Verif.Loader.C36_no_repeat",
    "Verif.Loader.C36_dependency"
   ],
   "note": "False in every main module with a repeated use (C36_violated); true in dependencies (C36_dependency)."
  },
  {
   "property": "C39",
   "status": "partial",
   "theorems": [
    "Verif.Loader.C39_marked_iff",
    "Verif.Loader.C39_violated",
    "Verif.Loader.C39_stuck"
   ],
   "note": "False of the code; C39_marked_iff says exactly which modules are marked (paths of at least two uses), C39_stuck that the loader then never ends. Rests on the documented behaviour of petgraph's all_simple_paths."
  },
  {
   "property": "C54",
   "status": "proved",
   "theorems": [
    "Verif.Loader.C54_dependencies_first"
   ],
   "note": "Rests on the documented order of petgraph's tarjan_scc."
  },
  {
   "property": "C55",
   "status": "partial",
   "theorems": [
    "Verif.Loader.C55_dependency_last",
    "Verif.Loader.C35_first_variable",
    "Verif.Loader.C55_violated"
   ],
   "note": "False of the code (C55_violated, for every pair of such modules)."
  },
  {
   "property": "C37",
   "status": "partial",
   "theorems": [
    "Verif.Cache.C37_alone_partial",
    "Verif.Cache.C37_violated",
    "Verif.Cache.C37_violated_dependency",
    "Verif.Cache.C37_violated_dependency_clean",
    "Verif.Cache.Examples.C37_stale"
   ],
   "note": "False of the code: C37_violated (for every directory and compilation: edits of dependencies, other -k values and newer versions of the compiler all go unnoticed), C37_stale a concrete history. Proved: over all histories of a main module that uses no other module, compiled by one version with the same -k values."
  },
  {
   "property": "C38",
   "status": "partial",
   "theorems": [
    "Verif.Cache.C38_writes_nothing",
    "Verif.Cache.C38_other_objects",
    "Verif.Cache.C38_partial",
    "Verif.Cache.C37_violated"
   ],
   "note": "False of the code: the object file of the main module is read (C37_violated holds for useCache = false too). Proved: nothing is written, no other object file is read, and if the main module has no object file the result is that of a clean directory."
  },
  {
   "property": "C56",
   "status": "proved",
   "theorems": [
    "Verif.Cache.C56_recompile"
   ],
   "note": ""
  },
  {
   "property": "C40",
   "status": "partial",
   "theorems": [
    "Verif.Target.C40_csv_safe",
    "Verif.Target.C40_csv_fills",
    "Verif.Target.C40_csv_overwrite",
    "Verif.Target.C40_excel_safe",
    "Verif.Target.C40_excel_written",
    "Verif.Target.C40_google_safe_partial",
    "Verif.Target.C40_google_violated",
    "Verif.Target.C40_google_violated_chunks",
    "Verif.Target.C40_google_iff",
    "Verif.Target.C40_google_rows_partial"
   ],
   "note": "Proved for CSV (files and sheets that do not begin with a byte order mark: NoBom) and Excel. False for Google Sheets: blank cells block writing (C40_google_violated), more than 1000 rows overwrite (C40_google_violated_chunks); proved there without offset up to 1000 rows, and for larger sheets where no later thousand has a cell; C40_google_iff is exact for all sizes and offsets."
  },
  {
   "property": "C41",
   "status": "partial",
   "theorems": [
    "Verif.Target.C41_kept_partial",
    "Verif.Target.C41_violated",
    "Verif.Target.C41_safe_iff",
    "Verif.Target.C41_excel",
    "Verif.Target.C41_google_partial",
    "Verif.Target.C41_google_violated",
    "Verif.Target.C41_google_rows_partial"
   ],
   "note": "False of CSV: every existing cell outside the compiled sheet is dropped (C41_violated, C41_safe_iff: exactly those); cells inside are kept where the compiled row ends earlier. Proved for Excel. Google Sheets: proved without offset up to 1000 rows, and for larger sheets where no row of a later thousand has something in the column (C41_google_rows_partial); false with an offset."
  },
  {
   "property": "C42",
   "status": "proved",
   "theorems": [
    "Verif.Target.C42_rectangular"
   ],
   "note": ""
  },
  {
   "property": "C43",
   "status": "proved",
   "theorems": [
    "Verif.Target.C43_backup",
    "Verif.Target.C43_nothing_lost",
    "Verif.Target.C43_no_target"
   ],
   "note": ""
  },
  {
   "property": "C45",
   "status": "proved",
   "theorems": [
    "Verif.Target.C45_documented",
    "Verif.Target.C45_other",
    "Verif.Target.C45_no_extension",
    "Verif.Target.C45_google",
    "Verif.Target.C45_neither"
   ],
   "note": "The characters a Google sheet id may contain (Unicode alphanumerics) are a parameter."
  },
  {
   "property": "C46",
   "status": "partial",
   "theorems": [
    "Verif.Target.C46_file",
    "Verif.Target.C46_next_to_main",
    "Verif.Target.C46_main_path",
    "Verif.Target.C46_violated"
   ],
   "note": "False of the code when the last component contains a dot (C46_violated); proved for all paths otherwise."
  },
  {
   "property": "C57",
   "status": "partial",
   "theorems": [
    "Verif.Target.C57_violated",
    "Verif.Target.C57_excel",
    "Verif.Target.C57_excel_format_violated"
   ],
   "note": "False of the CSV target without --safe (C57_violated, for every such cell). Proved for Excel values; the format is replaced."
  },
  {
   "property": "C58",
   "status": "partial",
   "theorems": [
    "Verif.Target.C58_idempotent",
    "Verif.Target.C58_excel_cells",
    "Verif.Target.C58_excel_safe",
    "Verif.Target.C58_excel_violated",
    "Verif.Target.C58_google_partial",
    "Verif.Target.C58_google_violated",
    "Verif.Target.C58_google_rows_partial"
   ],
   "note": "Proved for CSV, for the cells of a workbook, and for a workbook with --safe. For Google Sheets proved without offsets (C58_google_rows_partial: for every number of rows, if the service returns no cells below the 1000th row that it did not return before), false with offsets. False for the notes of a workbook without --safe."
  },
  {
   "property": "C59",
   "status": "partial",
   "theorems": [
    "Verif.Target.C59_compile_error",
    "Verif.Target.C59_other_files",
    "Verif.Target.C59_crash_safe",
    "Verif.Target.C59_backup_made",
    "Verif.Target.C59_no_backup_violated",
    "Verif.Target.C59_csv_prefix"
   ],
   "note": "Without --backup a crash loses the target (C59_no_backup_violated); the rest is proved for every crash point."
  },
  {
   "property": "C60",
   "status": "partial",
   "theorems": [
    "Verif.Target.C60_backup_name_partial",
    "Verif.Target.C60_violated"
   ],
   "note": "False when the stem contains a dot (C60_violated)."
  },
  {
   "property": "C44",
   "status": "partial",
   "theorems": [
    "Verif.Target.C44_partial",
    "Verif.Target.C44_violated_offsets",
    "Verif.Target.C44_violated_chunks",
    "Verif.Target.C44_violated_first",
    "Verif.Target.C44_panics",
    "Verif.Target.C44_exact"
   ],
   "note": "False of the code: the offsets are swapped and all chunks of 1000 rows start at the same row. Proved for equal offsets and up to 1000 rows; C44_exact says what every cell shows, for every size and all offsets."
  },
  {
   "property": "C61",
   "status": "partial",
   "theorems": [
    "Verif.Target.C61_excel_formula",
    "Verif.Target.C61_violated",
    "Verif.Target.C61_google_formula",
    "Verif.Target.C61_google_violated"
   ],
   "note": "Proved for formulas. False for plain cells: always text."
  },
  {
   "property": "C62",
   "status": "partial",
   "theorems": [
    "Verif.Target.C62_kept_partial",
    "Verif.Target.C62_violated"
   ],
   "note": "False of the code: C62_violated says exactly which validations remain."
  },
  {
   "property": "C63",
   "status": "partial",
   "theorems": [
    "Verif.Target.C63_violated",
    "Verif.Target.C63_violated_new",
    "Verif.Target.C63_google_partial"
   ],
   "note": "False of the code for Excel: C63_violated says exactly where notes are put."
  },
  {
   "property": "C64",
   "status": "partial",
   "theorems": [
    "Verif.Target.C64_borders",
    "Verif.Target.C64_format",
    "Verif.Target.C64_color_violated",
    "Verif.Target.C64_google_format",
    "Verif.Target.C64_google_partial",
    "Verif.Target.C64_google_violated"
   ],
   "note": "False for colours in Excel (except white) and for border=all in Google Sheets."
  },
  {
   "property": "C65",
   "status": "partial",
   "theorems": [
    "Verif.Target.C65_excel_violated",
    "Verif.Target.C65_google_violated"
   ],
   "note": "False of the code."
  },
  {
   "property": "C66",
   "status": "partial",
   "theorems": [
    "Verif.Target.C66_partial",
    "Verif.Target.C66_violated_run",
    "Verif.Target.C66_violated_alignment",
    "Verif.Target.C66_violated_wrap",
    "Verif.Target.C66_violated_conditions",
    "Verif.Target.C66_violated_dates"
   ],
   "note": "False of the code; the enumerations of the service are written down from its documentation."
  },
  {
   "property": "C69",
   "status": "proved",
   "theorems": [
    "Verif.Target.C69_worksheets"
   ],
   "note": ""
  },
  {
   "property": "C70",
   "status": "partial",
   "theorems": [
    "Verif.Target.C70_numbers",
    "Verif.Target.C70_google_partial",
    "Verif.Target.C70_google_violated"
   ],
   "note": "Proved for Excel; false for Google Sheets for all but two conditions."
  },
  {
   "property": "C71",
   "status": "partial",
   "theorems": [
    "Verif.Target.C71_partial",
    "Verif.Target.C71_violated",
    "Verif.Target.C71_google_partial"
   ],
   "note": "False for texts with a double quote."
  },
  {
   "property": "C72",
   "status": "partial",
   "theorems": [
    "Verif.Target.C72_partial",
    "Verif.Target.C72_violated"
   ],
   "note": "False for values with a comma."
  },
  {
   "property": "C48",
   "status": "partial",
   "theorems": [
    "Verif.Parser.C48_code_section_partial",
    "Verif.Parser.C48_violated_use_prefix"
   ],
   "note": "False for names beginning with use, true or false (the hypothesis Name excludes them); the expressions are those in the form the compiler displays (see C12)."
  },
  {
   "property": "C49",
   "status": "proved",
   "theorems": [
    "Verif.Parser.C49_accepted_iff"
   ],
   "note": ""
  },
  {
   "property": "C73",
   "status": "partial",
   "theorems": [
    "Verif.Parser.C73_use_partial",
    "Verif.Parser.C73_violated"
   ],
   "note": "False of the code: use a/b is always rejected."
  },
  {
   "property": "C76",
   "status": "partial",
   "theorems": [
    "Verif.Parser.C76_reported",
    "Verif.Parser.C76_position_partial",
    "Verif.Parser.C76_violated"
   ],
   "note": "False whenever anything precedes the formula in its cell."
  },
  {
   "property": "C77",
   "status": "partial",
   "theorems": [
    "Verif.Parser.C77_display_partial",
    "Verif.Parser.C77_violated"
   ],
   "note": "False for input with a non-ASCII character at byte 49: panic."
  },
  {
   "property": "C78",
   "status": "proved",
   "theorems": [
    "Verif.Target.C78_config"
   ],
   "note": "Of the tables of clap only the fields are modelled; for -k see C06 and C17."
  },
  {
   "property": "C74",
   "status": "partial",
   "theorems": [
    "Verif.Cli.C74_program",
    "Verif.Cli.C74_cells_partial",
    "Verif.Cli.C74_violated",
    "Verif.Cli.C74_violated_quoted"
   ],
   "note": "Proved for all files with a separator line. Without one it is false of the code for leading blank lines and line breaks in quoted fields, and proved without quotes and escapes."
  },
  {
   "property": "C79",
   "status": "proved",
   "theorems": [
    "Verif.Cli.C79_plain",
    "Verif.Cli.C79_formulas"
   ],
   "note": ""
  },
  {
   "property": "C17",
   "status": "partial",
   "theorems": [
    "Verif.Ast.C17_no_defined_names_partial",
    "Verif.Ast.C17_no_defined_names_apart_partial",
    "Verif.Ast.C17_variables_resolved",
    "Verif.Ast.C17_violated"
   ],
   "note": "The full claim is false of the code (C17_violated: =x + f(f(1)) keeps x and f because a call's own arguments are not re-evaluated before the reference sets repeat). Proved for scopes without functions (C17_variables_resolved) and when no function is needed both by a called function and by the arguments of the call."
  },
  {
   "property": "C21",
   "status": "partial",
   "theorems": [
    "Verif.Ast.C21_call_partial",
    "Verif.Ast.C21_full_expansion_partial",
    "Verif.Ast.C21_meaning_partial",
    "Verif.Ast.C21_violated"
   ],
   "note": "False in general (C21_violated: =f(b, 1) with fn f(a, b)). Proved when arguments do not mention later parameters; C21_meaning_partial gives the one result of every evaluation by a big-step definition of what a formula means, for acyclic hygienic scopes where no function is needed both by a called function and by the arguments of the call."
  },
  {
   "property": "C80",
   "status": "partial",
   "theorems": [
    "Verif.Cli.C80_program",
    "Verif.Cli.C80_assignments",
    "Verif.Cli.C80_meaning",
    "Verif.Cli.C80_violated"
   ],
   "note": "False if a function is needed both by a called function and by the arguments of the call: names that the code section defines can be left in the target, with success reported (C80_violated). Proved for source files without use (modules are C33 to C38, C82 and C84); the lines of the code section are those of C48. C80_assignments: assignments one after the other. C80_meaning: functions, named cells and fills, if the definitions are free of trouble (no cycle, no captured name, functions not sharing names with cells' names, arities right): every formula in the target is its textbook meaning, whatever the schedule."
  },
  {
   "property": "C81",
   "status": "partial",
   "theorems": [
    "Verif.Cli.C81_values",
    "Verif.Cli.C81_last",
    "Verif.Cli.C81_printed",
    "Verif.Cli.C81_rejected",
    "Verif.Cli.C81_violated_list",
    "Verif.Cli.C81_violated_space"
   ],
   "note": "Which arguments are accepted, and what they give, is proved for all arguments; the form foo=1,bar=2 of the documentation comment, and blanks before =, are accepted but lose values (C81_violated_list, C81_violated_space), so the property in its plain reading is false there. What formulas make of the values is C22 and C80."
  },
  {
   "property": "C67",
   "status": "partial",
   "theorems": [
    "Verif.Target.C67_partial",
    "Verif.Target.C67_violated",
    "Verif.Target.C67_shifted_partial"
   ],
   "note": "False of the code: the day numbers are off, for every date (C67_violated); C67_shifted_partial says which days are accepted instead. That a time never reaches this code is C83_sheet."
  },
  {
   "property": "C83",
   "status": "proved",
   "theorems": [
    "Verif.Date.C83_read",
    "Verif.Date.C83_written",
    "Verif.Date.C83_days",
    "Verif.Date.C83_order",
    "Verif.Date.C83_dateText",
    "Verif.Date.C83_sheet",
    "Verif.Date.C83_excel"
   ],
   "note": "chrono is modelled from its documentation (formats, Display, from_ymd_opt, signed_duration_since); years are those a text of the lexer can write, 0 to 9999, where the number of days is counted for all years."
  },
  {
   "property": "C85",
   "status": "proved",
   "theorems": [
    "Verif.Cli.C85_other_files",
    "Verif.Cli.C85_crash_safe",
    "Verif.Cli.C85_backup",
    "Verif.Cli.C85_only_target",
    "Verif.Cli.C85_unsuccessful",
    "Verif.Cli.C85_unreadable"
   ],
   "note": "The target is not one of the source or object files (which are kept apart in the model). What the file library does while a workbook is written is left open: any intermediate contents."
  },
  {
   "property": "C68",
   "status": "partial",
   "theorems": [
    "Verif.Target.C68_violated",
    "Verif.Cli.C68_program_violated"
   ],
   "note": "False: the ods target panics."
  },
  {
   "property": "C86",
   "status": "partial",
   "theorems": [
    "Verif.Cache.C86_up_to_date",
    "Verif.Cli.C86_incremental_partial",
    "Verif.Cache.C37_violated",
    "Verif.Cache.C37_violated_dependency",
    "Verif.Cache.C37_violated_dependency_clean"
   ],
   "note": "False in general: edits of library files and newer versions go unnoticed (C37_violated and its variants). Proved for all histories in which the library files are not edited, one version of the compiler is used, and the files that use the library name each module once (naming one twice makes the program panic, C36, after it has written object files) and are saved before they are compiled; the program compiled is free of the mistakes excluded in C82."
  },
  {
   "property": "C82",
   "status": "partial",
   "theorems": [
    "Verif.Cli.C82_modules_partial",
    "Verif.Cli.C82_one_file_partial",
    "Verif.Loader.Linking.C82_violated_param",
    "Verif.Loader.Linking.C82_violated_indirect",
    "Verif.Loader.Linking.C82_violated_capture"
   ],
   "note": "False in general (three violations). Proved from the source texts to the written target for programs whose definitions are free of trouble (Tidy, AllClear: no cycle, no captured name, arities right) and whose modules see what their definitions, and the functions they see, use (AllSeen); object files of the library may exist if they are up to date, as C86 shows they stay. Workbooks as targets are C84."
  },
  {
   "property": "C84",
   "status": "partial",
   "theorems": [
    "Verif.Cli.C84_compile_partial",
    "Verif.Cli.C84_workbook_partial",
    "Verif.Cli.C84_violated"
   ],
   "note": "False in general for the reasons of C82 and of C80 (C84_violated); proved under the conditions of C82 (Tidy, AllClear, AllSeen, object files of the library up to date or not used). Notes and validations of a workbook are wrong (C62, C63, C67) and left out of what a worksheet shows; the service of Google Sheets rejects the requests of the program (C66)."
  },
  {
   "property": "C87",
   "status": "proved",
   "theorems": [
    "Verif.Parser.C87_formula",
    "Verif.Parser.C87_sign",
    "Verif.Parser.C87_formula_place",
    "Verif.Parser.C87_code",
    "Verif.Parser.C87_code_place"
   ],
   "note": "For formulas and code sections after lexing. Tokens that follow a sign before something that is not a number cannot be completed (the exception in the property); the theorems say so explicitly."
  },
  {
   "property": "C88",
   "status": "partial",
   "theorems": [
    "Verif.Parser.C88_code_partial",
    "Verif.Parser.C88_cell_partial",
    "Verif.Parser.C88_cell_end_partial",
    "Verif.Parser.C88_violated_cell"
   ],
   "note": "False in cells that are not on the first line of the csv section: the ^ is one column too far right (C88_violated_cell). Proved for code sections under the conditions of C75 (ASCII, one line or no string literal and no line break after fn), and for formulas in cells without options on the first csv line. For errors in options see C92."
  },
  {
   "property": "C75",
   "status": "partial",
   "theorems": [
    "Verif.Parser.C75_token_partial",
    "Verif.Parser.C75_layout_partial",
    "Verif.Parser.C75_unknown_partial",
    "Verif.Parser.C75_violated_string",
    "Verif.Parser.C75_violated_fn",
    "Verif.Parser.C75_violated_nonascii"
   ],
   "note": "False after a string with a line break, after fn and a line break, and (columns) after non-ASCII characters."
  },
  {
   "property": "C89",
   "status": "partial",
   "theorems": [
    "Verif.Cli.C89_says_why_partial",
    "Verif.Cli.C89_violated",
    "Verif.Cli.C89_not_empty",
    "Verif.Cli.C89_modules",
    "Verif.Cli.C89_module_named",
    "Verif.Cli.C89_tells"
   ],
   "note": "False for a malformed -k value, an input without a file name and more than four -v: the logger is not started yet, and the run fails silently (C89_violated, for all such arguments). Proved for all other runs. Panics are outside this model."
  },
  {
   "property": "C90",
   "status": "proved",
   "theorems": [
    "Verif.Object.C90_writes",
    "Verif.Object.C90_roundtrip",
    "Verif.Object.C90_faithful",
    "Verif.Object.C90_cut_off",
    "Verif.Object.C90_stopped",
    "Verif.Object.C90_up_to_date"
   ],
   "note": "bincode and serde are not in the repository: their format is modelled from their documentation, and the formats of f64, chrono and a1 values are parameters that obey the same laws. C90_up_to_date carries C86's invariant over to stops after any byte. Running out of stack on deep trees, file names that are not UTF-8 and file systems that reorder writes are not modelled."
  },
  {
   "property": "C91",
   "status": "partial",
   "theorems": [
    "Verif.Cache.C91_same_partial",
    "Verif.Cache.C91_absolute_partial",
    "Verif.Cache.C91_one_directory_partial",
    "Verif.Cache.C91_violated",
    "Verif.Cache.Examples.C91_wrong_result"
   ],
   "note": "The property is false of the code: an object file has the name of its source as it was given, and that name is looked up in the current directory. C91_violated: after the first compilation with a relative name, every compilation from a directory without a file of that name fails. C91_wrong_result: with two projects, a module's object file is replaced by another project's and a wrong value is computed. Proved: it holds whenever the recorded names are right (C91_same_partial), so when only absolute paths have ever been used, or when the compiler was always run in one directory. Symbolic links are not modelled; modules are in the directory of the main file (C73)."
  },
  {
   "property": "C92",
   "status": "partial",
   "theorems": [
    "Verif.Cell.C92_word_partial",
    "Verif.Cell.C92_violated_place",
    "Verif.Cell.C92_message_partial",
    "Verif.Cell.C92_violated_message",
    "Verif.Cell.C92_args_partial",
    "Verif.Cell.C92_violated_args",
    "Verif.Cell.C92_violated_unclosed",
    "Verif.Cell.C92_points"
   ],
   "note": "Proved for wrong words and numbers (option names, values of options, font sizes and fill amounts): the error is at the last character of the word, and on the first csv line the printed ^ is under it. False for text where a name, `=` or a value is expected and for colours: the error is at the character before (C92_violated_place, C92_violated_message). Arguments of validations: a number or range that is wrong is reported at its last character (C92_args_partial); a missing parenthesis, argument or string, a quoted text that does not end, a date that does not exist and a wrong value of a list are reported at the character before (C92_violated_args), and so are lists that are not closed (C92_violated_unclosed). ASCII cells."
  },
  {
   "property": "C93",
   "status": "proved",
   "theorems": [
    "Verif.Target.C93_others",
    "Verif.Target.C93_atomic",
    "Verif.Target.C93_backup",
    "Verif.Target.C93_new",
    "Verif.Target.C93_success",
    "Verif.Target.C93_missing",
    "Verif.Target.C93_nothing",
    "Verif.Target.C93_lost_reply"
   ],
   "note": "The services are a specification (Serve): a batch update is atomic, any call can fail, any reply can be lost, and unknown names are rejected (C66). A run can fail although everything was written (C93_lost_reply)."
  },
  {
   "property": "C94",
   "status": "partial",
   "theorems": [
    "Verif.Target.C94_kept",
    "Verif.Target.C94_partial",
    "Verif.Target.C94_cells",
    "Verif.Target.C94_violated_lost_update",
    "Verif.Target.C94_violated_safe"
   ],
   "note": "Proved for other spreadsheets, other tabs, and cells above, left of and below what is written. C94_cells: for every size and all offsets, a call puts nothing into a cell but compiled cells and cells that the run has read. False for cells in the rows that are written: they are reverted to what was read before (C94_violated_lost_update), and --safe overwrites cells that were filled meanwhile (C94_violated_safe)."
  },
  {
   "property": "C95",
   "status": "partial",
   "theorems": [
    "Verif.Target.C95_partial",
    "Verif.Target.C93_success",
    "Verif.Target.C95_violated_name",
    "Verif.Target.C95_violated_tab",
    "Verif.Target.C95_violated_no_tab"
   ],
   "note": "The name is ignored: cells are read from the first tab and written to the tab with the id 0. Proved if that is the one that was asked for; false otherwise."
  },
  {
   "property": "C96",
   "status": "partial",
   "theorems": [
    "Verif.Target.C96_partial",
    "Verif.Target.C96_violated"
   ],
   "note": "Exact if there is a home directory; without one there is an error even if the flag is given."
  },
  {
   "property": "C97",
   "status": "partial",
   "theorems": [
    "Verif.Target.C97_partial",
    "Verif.Target.C97_violated"
   ],
   "note": "Exact: those without `-` and `_` are accepted, the others (also the id in the manual) are refused."
  },
  {
   "property": "C98",
   "status": "partial",
   "theorems": [
    "Verif.Sheet.C98_mistake",
    "Verif.Sheet.C98_rejected",
    "Verif.Sheet.C98_partial",
    "Verif.Sheet.C98_any_row",
    "Verif.Sheet.C98_violated"
   ],
   "note": "Rejection and the place of the error are proved; the same cell in every run is proved if only one formula is wrong. False with wrong calls in two rows: the rows are evaluated in parallel and either can be reported (C98_violated)."
  },
  {
   "property": "C99",
   "status": "proved",
   "theorems": [
    "Verif.Sheet.C99_unused",
    "Verif.Sheet.C99_variable"
   ],
   "note": "For all sets of unused names; parameters may have the names."
  },
  {
   "property": "C100",
   "status": "proved",
   "theorems": [
    "Verif.Sheet.C100_exchange",
    "Verif.Sheet.C100_cells",
    "Verif.Sheet.C100_violated_address"
   ],
   "note": "For names that are not cell addresses; C100_violated_address shows why those are excluded."
  },
  {
   "property": "C101",
   "status": "proved",
   "theorems": [
    "Verif.Cli.C101_code",
    "Verif.Cli.C101_parse",
    "Verif.Cli.C101_definitions",
    "Verif.Cli.C101_values",
    "Verif.Cli.C101_run"
   ],
   "note": "The file has no object file of a previous run (C37 and C86 say what those do).  The two code sections have the same number of lines."
  },
  {
   "property": "C102",
   "status": "partial",
   "theorems": [
    "Verif.Cli.C102_again_partial",
    "Verif.Cli.C102_violated",
    "Verif.Cli.C102_violated_comment"
   ],
   "note": "False of the code: with a cell that has to be quoted above another cell in a sheet of one column the file is rejected (C102_violated, for all such sheets); # makes comments. Proved for all written files that have no such lines and no separator line, and whose formulas are in the form the program displays (settled_display: all without texts with quotes, names fn and floats in other notations)."
  },
  {
   "property": "C103",
   "status": "proved",
   "theorems": [
    "Verif.Cli.C103_cell_by_cell",
    "Verif.Cli.C103_edit",
    "Verif.Cli.C103_program",
    "Verif.Cli.C103_modules",
    "Verif.Cli.C103_compile",
    "Verif.Cli.C103_excel",
    "Verif.Cli.C103_google_partial",
    "Verif.Target.C103_google_rows"
   ],
   "note": "C103_modules is for source files that may use modules; C103_compile also for runs with --safe, whatever the target; C103_excel and C103_google_partial (at most 1000 rows; C103_google_rows: any number) say what is written to such a cell."
  },
  {
   "property": "C104",
   "status": "partial",
   "theorems": [
    "Verif.Cell.C104_rejected",
    "Verif.Cell.C104_accepted",
    "Verif.Cell.C104_validations_partial",
    "Verif.Cell.C104_violated"
   ],
   "note": "Proved for all options but validate. For validate the message advises text_is_valid_email, text_is_valid_url, value_in_list and value_in_range, all of which are rejected, and does not list the names under which these validations exist (C104_violated); all other listed names are accepted as names of validations."
  },
  {
   "property": "C105",
   "status": "proved",
   "theorems": [
    "Verif.Cli.C105_formula",
    "Verif.Cli.C105_insert",
    "Verif.Cli.C105_remove",
    "Verif.Cli.C105_program",
    "Verif.Cli.C105_modules",
    "Verif.Cli.C105_reference",
    "Verif.Cli.C105_written",
    "Verif.Cli.C105_unnamed",
    "Verif.Cli.C105_means",
    "Verif.Cli.C105_compile"
   ],
   "note": "C105_compile: the compiled sheets, whatever the target and also with --safe. Sheets with a fill without an amount are outside the claim: inserting rows makes such a fill shorter. The program-level theorem is for runs without --safe (with it the old target decides)."
  },
  {
   "property": "C106",
   "status": "proved",
   "theorems": [
    "Verif.Cli.C106_sheet",
    "Verif.Cli.C106_written",
    "Verif.Cli.C106_program",
    "Verif.Cli.C106_modules",
    "Verif.Cli.C106_compile"
   ],
   "note": "C106_compile: whatever the target and also with --safe. Rows with names are excluded because a name in a fill stands for the range of its rows (C22). With two fills without an amount the evaluation stops. The program-level theorem is for runs without --safe."
  },
  {
   "property": "C107",
   "status": "proved",
   "theorems": [
    "Verif.Ast.C107_formula",
    "Verif.Cli.C107_sheet",
    "Verif.Cli.C107_written",
    "Verif.Cli.C107_program",
    "Verif.Cli.C107_modules"
   ],
   "note": "Without the conditions the property is false of the code (see C17, C18). C107_sheet, C107_written and C107_program keep the names of all definitions; dropping unused ones is in C107_formula, C107_modules and C99. C107_program is for files without use lines, C107_modules for programs of several modules in which everything is used only where it is seen (AllSeen, as in C82)."
  },
  {
   "property": "C108",
   "status": "proved",
   "theorems": [
    "Verif.Cell.C108_options",
    "Verif.Cell.C108_order",
    "Verif.Cli.C108_program"
   ],
   "note": "The ways to write an option are those of C26 (Spec.lean). The two files differ only in the text of the main file, which is newer than its object file."
  },
  {
   "property": "C109",
   "status": "proved",
   "theorems": [
    "Verif.Date.C109_prompt",
    "Verif.Date.C109_sheet"
   ],
   "note": "That the checks do what the prompt says is another matter: see C67 (dates are off by two days), C70 (numbers), C71 (texts with quotes) and C72 (lists)."
  },
  {
   "property": "C110",
   "status": "partial",
   "theorems": [
    "Verif.Target.C110_backup_partial",
    "Verif.Target.C110_alone",
    "Verif.Target.C110_alone_files",
    "Verif.Target.C110_same_partial",
    "Verif.Target.C110_same_program",
    "Verif.Target.C110_violated_backup",
    "Verif.Target.C110_violated_empty",
    "Verif.Target.C110_violated_safe",
    "Verif.Target.C110_violated_mixed"
   ],
   "note": "The full property is false of the code, and the C110_violated theorems show how: two runs that choose the same backup name at the same time both succeed and leave an empty backup and a target without the old contents; a run that reads the target after another has emptied it loses the cells that --safe should keep; two runs that write at the same time leave the end of one output after the other. Proved: backups are safe if no two runs choose the same name at the same time; runs of the same program without --safe and without short rows leave the right file, whatever the schedule. Runs with the same workbook are in C116; runs with the same object file are in C117; Google Sheets is not modelled here."
  },
  {
   "property": "C111",
   "status": "partial",
   "theorems": [
    "Verif.Cache.C111_orderly_partial",
    "Verif.Cache.C111_no_cache_partial",
    "Verif.Cache.C111_lasting",
    "Verif.Cache.C111_completes",
    "Verif.Cache.C111_violated_edit",
    "Verif.Cache.C111_violated_check"
   ],
   "note": "False of the code: an edit saved between reading the source and writing the object file is not seen by any later run until the file is saved again (C111_violated_edit, C111_lasting); and of two runs after an edit one can end with the old sheet, because the object file is read first and its time asked for later (C111_violated_check). Proved: for all interleavings in which the source is saved while no run is under way and the first run after that gets as far as writing its object file (or ends) before others begin; and for all interleavings without object files; and a run after an edit can always end (C111_completes). Source files that use no other."
  },
  {
   "property": "C112",
   "status": "proved",
   "theorems": [
    "Verif.Cli.C112_formula",
    "Verif.Cli.C112_insert",
    "Verif.Cli.C112_remove",
    "Verif.Cli.C112_program",
    "Verif.Cli.C112_modules",
    "Verif.Cli.C112_reference",
    "Verif.Cli.C112_written",
    "Verif.Cli.C112_unnamed",
    "Verif.Cli.C112_compile"
   ],
   "note": "C112_compile: the compiled sheets, whatever the target and also with --safe. The program-level theorem is for runs without --safe (with it the old target decides)."
  },
  {
   "property": "C113",
   "status": "partial",
   "theorems": [
    "Verif.Cli.C113_arrangement_partial",
    "Verif.Cli.C113_names_partial",
    "Verif.Cli.C113_compile_partial",
    "Verif.Cli.C113_compile_names_partial",
    "Verif.Cli.C113_targets",
    "Verif.Cli.C52_violated"
   ],
   "note": "The first two are for CSV files, C113_compile_partial and C113_compile_names_partial with C113_targets for every target. Under the conditions of C82: definitions free of trouble (Tidy, AllClear), everything used only where it is seen (AllSeen). C113_arrangement_partial is for any two arrangements of the same definitions; C113_names_partial derives the conditions of the second program from those of the first. Outside these conditions the claim is false: C52_violated is a program (without modules) of which two runs write different cells."
  },
  {
   "property": "C114",
   "status": "proved",
   "theorems": [
    "Verif.Cli.C114_means",
    "Verif.Cli.C114_unambiguous",
    "Verif.Cli.C114_order",
    "Verif.Cli.C114_program",
    "Verif.Cli.C114_expressible",
    "Verif.Cli.C114_keys_take_input"
   ],
   "note": "The parser is clap's (a dependency that is not in /repo): what its documentation says of the attributes in src/cli_args.rs is part of the trusted base. Words that are not UTF-8, the messages, and --help and --version (which end the program like an error) are not modelled further. C114_keys_take_input is the known trap: `csvpp -o out.csv -k a=1 main.csvpp` is refused."
  },
  {
   "property": "C115",
   "status": "proved",
   "theorems": [
    "Verif.Cli.C115_loads",
    "Verif.Cli.C115_runs"
   ],
   "note": "The two sets of files differ in the main file only, which is newer than its object file and well-formed before and after. What the definitions in force are is C82. C103, C105, C106 and C112 use it for programs with modules."
  },
  {
   "property": "C116",
   "status": "partial",
   "theorems": [
    "Verif.Target.C116_some_partial",
    "Verif.Target.C116_others",
    "Verif.Target.C116_kept",
    "Verif.Target.C116_last",
    "Verif.Target.C116_alone",
    "Verif.Target.C116_violated"
   ],
   "note": "The full property is false of the code (C116_violated): two runs that succeed, with different worksheets, can leave the workbook without one of the worksheets. Proved for all schedules: at every moment the workbook is what some of the runs that have succeeded leave one after the other; worksheets that no run names stay as they are, and none that was there is lost. Reading a workbook and writing one are single steps; backups are left out."
  },
  {
   "property": "C117",
   "status": "partial",
   "theorems": [
    "Verif.Object.C117_reads_partial",
    "Verif.Object.C117_final_partial",
    "Verif.Object.C117_violated_reading",
    "Verif.Object.C117_violated_writing"
   ],
   "note": "The full property is false of the code, which reads the values of an object file one after the other: C117_violated_reading gives a module that no run has written (definitions of the old one, source of the new one); C117_violated_writing is for writes in pieces and a crash. Proved for all schedules in which a file is read at once and written at once (it is still emptied in a step of its own). Modification times are left out."
  },
  {
   "property": "C118",
   "status": "partial",
   "theorems": [
    "Verif.Target.C118_again_partial",
    "Verif.Target.C118_safe_iff",
    "Verif.Target.C118_violated_safe",
    "Verif.Target.C118_violated_short",
    "Verif.Cli.C118_program_partial"
   ],
   "note": "False of the code in two ways. With --safe a run that is interrupted in the middle of a cell leaves the beginning of its text, which every later run takes for the user's and keeps (C118_violated_safe; C118_safe_iff says exactly when it is harmless, for a target that did not exist). Without --safe cells to the right of short rows, which the run would have kept, are lost (C118_violated_short). Proved without --safe for sheets whose rows have the same number of cells, for the whole program with any modules (C118_program_partial: the interruption is after the object files have been written; before that the target is as it was)."
  },
  {
   "property": "C119",
   "status": "partial",
   "theorems": [
    "Verif.Ast.C119_value_partial",
    "Verif.Ast.C119_variables",
    "Verif.Ast.C119_meaning",
    "Verif.Ast.C119_exists",
    "Verif.Ast.C119_without_partial",
    "Verif.Ast.C119_violated",
    "Verif.Cli.C119_program_partial",
    "Verif.Cli.C119_shows",
    "Verif.Cli.C119_compile_partial",
    "Verif.Cli.C119_modules_partial",
    "Verif.Ast.C119_determined",
    "Verif.Ast.C119_compiled_value_partial",
    "Verif.Ast.C119_undetermined"
   ],
   "note": "False of the code where arguments are put in for parameters one after the other (C119_violated: =f(b, 1) with fn f(a, b) a + b has the value 2 instead of b + 1). Proved for every domain of values and every evaluation that ends if the names of parameters are used for nothing else (C119_value_partial), always if only variables are defined (C119_variables), for the text in the target of a whole program (C119_program_partial), and under the conditions of C82 for programs with modules (C119_modules_partial), whatever the target (C119_compile_partial). C119_exists, C119_determined: there are such values whenever no definition depends on itself, and they give each formula one value only, that of the compiled formula read without any definitions (C119_compiled_value_partial; C119_undetermined: not so for x := x). Missing: programs that use a parameter's name for something else, where it is false in general."
  },
  {
   "property": "C120",
   "status": "partial",
   "theorems": [
    "Verif.Parser.C120_unambiguous_partial",
    "Verif.Parser.C120_ambiguous",
    "Verif.Parser.C120_violated",
    "Verif.Cli.C120_program_partial",
    "Verif.Cli.C119_compile_partial",
    "Verif.Cli.C119_modules_partial"
   ],
   "note": "Readings are given by a grammar without any precedence or associativity, in which source formulas are ambiguous (C120_ambiguous). Proved for every printable formula (C12: without booleans, texts with double quotes, floats that print without a point), and with C119 for the target of a whole program, also with modules (the last part of C119_compile_partial and C119_modules_partial). False for texts with double quotes, which are not doubled when they are written (C120_violated: a text is read as two texts put together)."
  },
  {
   "property": "C121",
   "status": "proved",
   "theorems": [
    "Verif.Cli.C121_verbose_csv",
    "Verif.Cli.C121_verbose_excel",
    "Verif.Cli.C121_google",
    "Verif.Cli.C121_sheet_name_csv",
    "Verif.Cli.C121_backup_csv",
    "Verif.Cli.C121_backup_excel"
   ],
   "note": "Over whole runs (all states of the files on the way for -v and -n; the final one for --backup). The messages themselves are not part of the statements. For Google Sheets stated for the run after the compilation, with its calls."
  },
  {
   "property": "C122",
   "status": "partial",
   "theorems": [
    "Verif.Target.C122_google_partial",
    "Verif.Target.C122_google_swapped",
    "Verif.Target.C122_google_violated",
    "Verif.Cli.C122_csv_violated",
    "Verif.Cli.C122_excel_violated"
   ],
   "note": "Proved for Google Sheets with equal offsets, for sheets of every size. False in general: they are swapped (C122_google_swapped says what happens instead), and CSV files and workbooks ignore them."
  },
  {
   "property": "C123",
   "status": "proved",
   "theorems": [
    "Verif.Cache.C123_compile",
    "Verif.Cli.C123_program",
    "Verif.Cli.C123_uses",
    "Verif.Cli.C123_sources"
   ],
   "note": "C123_program is for every target that is a file; C123_compile for the compilation, whatever the target. C123_sources states the condition in terms of use lines."
  }
 ]
}