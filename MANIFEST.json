{
 "claims": [
  {
   "property": "C01",
   "status": "proved",
   "theorems": [
    "Verif.Props.C01_read_terminates"
   ],
   "note": "Recursion bound never hit, outcome independent of the bound, unread bytes are a suffix of the input."
  },
  {
   "property": "C03",
   "status": "proved",
   "theorems": [
    "Verif.Props.C03_keys_unique"
   ],
   "note": "All settings, all inputs, all depths."
  },
  {
   "property": "C04",
   "status": "proved",
   "theorems": [
    "Verif.Props.C04_sorted"
   ],
   "note": "Strictly increasing keys; sorted tree = key-sort of the keep-order tree, success on the same inputs."
  },
  {
   "property": "C05",
   "status": "proved",
   "theorems": [
    "Verif.Props.C05_strict_conservative"
   ],
   "note": "All inputs."
  },
  {
   "property": "C08",
   "status": "proved",
   "theorems": [
    "Verif.Props.C08_suffix_ignored"
   ],
   "note": "Hypothesis: the stream is still good after the first read (as in the property)."
  },
  {
   "property": "C02",
   "status": "proved",
   "theorems": [
    "Verif.Props.C02_documents_are_read"
   ],
   "note": "Every grammar document, every placement of insignificant bytes, every setting; grammar and denotation are in Spec/Grammar."
  },
  {
   "property": "C06",
   "status": "proved",
   "theorems": [
    "Verif.Props.C06_duplicate_keys"
   ],
   "note": ""
  },
  {
   "property": "C07",
   "status": "proved",
   "theorems": [
    "Verif.Props.C07_integers_exact"
   ],
   "note": ""
  },
  {
   "property": "C09",
   "status": "proved",
   "theorems": [
    "Verif.Props.C09_truncation_rejected"
   ],
   "note": ""
  },
  {
   "property": "C10",
   "status": "partial",
   "theorems": [
    "Verif.Props.C10_no_crash_false",
    "Verif.Props.C10_no_crash_partial",
    "Verif.Props.C10_exactly_partial"
   ],
   "note": "False as stated: four refutations. Proved: every crash has its cause in the input (sign or dot, 19 digits in a row, surrogate escape, line feed, colon); C10_exactly_partial: exactly which inputs crash, and how."
  },
  {
   "property": "C11",
   "status": "proved",
   "theorems": [
    "Verif.Props.C11_string_value"
   ],
   "note": ""
  },
  {
   "property": "C12",
   "status": "proved",
   "theorems": [
    "Verif.Props.C12_unicode_escapes"
   ],
   "note": ""
  },
  {
   "property": "C13",
   "status": "proved",
   "theorems": [
    "Verif.Props.C13_ascii_keeps_unicode"
   ],
   "note": ""
  },
  {
   "property": "C14",
   "status": "partial",
   "theorems": [
    "Verif.Props.C14_strings_distinct_false",
    "Verif.Props.C14_strings_distinct_partial",
    "Verif.Props.C14_exactly_partial"
   ],
   "note": "False as stated (an escaped line feed and an escaped backslash followed by n give the same value); proved for strings without escaped backslashes; C14_exactly_partial says exactly which literals are read alike."
  },
  {
   "property": "C15",
   "status": "proved",
   "theorems": [
    "Verif.Props.C15_literals"
   ],
   "note": ""
  },
  {
   "property": "C58",
   "status": "proved",
   "theorems": [
    "Verif.Props.C58_unknown_escapes"
   ],
   "note": ""
  },
  {
   "property": "C16",
   "status": "partial",
   "theorems": [
    "Verif.Props.C16_bounded_list_false",
    "Verif.Props.C16_bounded_list_partial",
    "Verif.Props.C16_context_partial",
    "Verif.Props.C16_exactly_partial"
   ],
   "note": "False as stated: two consecutive pop_back, or a batch longer than the ring, break the bounded-list behaviour. Proved for every other operation sequence, and that on inputs without badly placed line breaks every error and message shows the tail of the line at a position of the input; C16_exactly_partial says exactly what is shown with line breaks after numbers and booleans too (only line breaks that interrupt a null or a \\uXXXX are left out)."
  },
  {
   "property": "C17",
   "status": "partial",
   "theorems": [
    "Verif.Props.C17_line_false",
    "Verif.Props.C17_line_partial",
    "Verif.Props.C17_exactly_partial"
   ],
   "note": "False as stated (a line break directly after a number, and CR LF, are counted twice); proved for inputs without these, and exactly by how much the line number is off: by the number of line breaks outside strings that directly follow a number or boolean."
  },
  {
   "property": "C18",
   "status": "partial",
   "theorems": [
    "Verif.Props.C18_column_false",
    "Verif.Props.C18_column_partial",
    "Verif.Props.C16_exactly_partial"
   ],
   "note": "False as stated (on the first line the column starts from uninitialised memory); proved from the second line on, for the inputs of C16_context_partial; C16_exactly_partial tells the column from the second line on for the other inputs too."
  },
  {
   "property": "C19",
   "status": "partial",
   "theorems": [
    "Verif.Props.C19_display_false",
    "Verif.Props.C19_display_partial",
    "Verif.Props.C19_exactly_partial"
   ],
   "note": "False as stated (two exception texts are undefined behaviour; an empty history raises length_error); proved for the other exceptions on the inputs of C16_context_partial, and exactly when the history is empty for the others: a one-byte number or boolean alone on its line."
  },
  {
   "property": "C20",
   "status": "partial",
   "theorems": [
    "Verif.Props.C20_history_bounds_false",
    "Verif.Props.C20_history_bounds_partial",
    "Verif.Props.C20_exactly_partial"
   ],
   "note": "False as stated (a line feed inside a batch makes it read past its end); proved for batches without one, and for every input without such line feeds; C20_exactly_partial: exactly for which inputs it happens."
  },
  {
   "property": "C21",
   "status": "partial",
   "theorems": [
    "Verif.Props.C21_round_trip_false",
    "Verif.Props.C21_round_trip_partial"
   ],
   "note": "False as stated (a string value of an object entry is printed without quotes; characters are not re-escaped); proved for every printable document, both layouts."
  },
  {
   "property": "C22",
   "status": "proved",
   "theorems": [
    "Verif.Props.C22_compress_removes_layout"
   ],
   "note": "The line-based part assumes that no key or text contains a line feed."
  },
  {
   "property": "C23",
   "status": "partial",
   "theorems": [
    "Verif.Props.C23_layout_false",
    "Verif.Props.C23_layout_partial",
    "Verif.Props.C23_exactly_partial"
   ],
   "note": "False from nesting depth 65536 on (unsigned short counter); proved for every document below that depth. C23_exactly: the output of every document, and that it is the promised one exactly if no line stands inside 65536 brackets."
  },
  {
   "property": "C24",
   "status": "proved",
   "theorems": [
    "Verif.Props.C24_edit_distance"
   ],
   "note": "Against edit scripts (insert, delete, substitute one character)."
  },
  {
   "property": "C25",
   "status": "proved",
   "theorems": [
    "Verif.Props.C25_metric"
   ],
   "note": ""
  },
  {
   "property": "C26",
   "status": "partial",
   "theorems": [
    "Verif.Props.C26_percent_false",
    "Verif.Props.C26_percent_partial"
   ],
   "note": "False for strings of 2^25 bytes (float rounding makes the similarity of different strings 1); proved for strings shorter than 2^24 bytes, in exact single-precision arithmetic."
  },
  {
   "property": "C27",
   "status": "partial",
   "theorems": [
    "Verif.Props.C27_self_false",
    "Verif.Props.C27_self_partial",
    "Verif.Props.C27_exactly_partial"
   ],
   "note": "False as stated: a document with an empty container crashes (division by zero) when compared with itself; proved for every document without empty containers, and that the comparison crashes exactly when there is one."
  },
  {
   "property": "C28",
   "status": "partial",
   "theorems": [
    "Verif.Props.C28_no_crash_false",
    "Verif.Props.C28_no_crash_partial",
    "Verif.Props.C28_exactly_partial"
   ],
   "note": "False as stated (two empty containers: division by zero); proved that it crashes exactly if two empty containers are compared with each other: no null pointer, for any sizes below 2^31."
  },
  {
   "property": "C29",
   "status": "proved",
   "theorems": [
    "Verif.Props.C29_optimal"
   ],
   "note": "Against all order-preserving alignments, with the costs of a small specification (Facing), for containers of any depth; the pairs of the table are those of a cheapest alignment."
  },
  {
   "property": "C30",
   "status": "proved",
   "theorems": [
    "Verif.Props.C30_tree_matching"
   ],
   "note": "For the whole tree: one-to-one, symmetric, pairs below pairs, in order; independent of the order of addresses."
  },
  {
   "property": "C31",
   "status": "partial",
   "theorems": [
    "Verif.Props.C31_equal_false",
    "Verif.Props.C31_equal_partial"
   ],
   "note": "False as stated (containers are marked equal whatever they hold; similar texts count as equal); proved: same kind, same key, same type and nearly identical text."
  },
  {
   "property": "C59",
   "status": "partial",
   "theorems": [
    "Verif.Props.C59_standard_output_false",
    "Verif.Props.C59_standard_output_partial"
   ],
   "note": "False as stated (strings are printed unescaped, entry values unquoted); proved for clean printable documents."
  },
  {
   "property": "C32",
   "status": "partial",
   "theorems": [
    "Verif.Props.C32_contains_false",
    "Verif.Props.C32_contains_partial"
   ],
   "note": "False as stated: tabs of the text are read as blanks (tabs of the pattern are not), the empty text is never found, the type asked for is uninitialised without a type flag; proved up to these."
  },
  {
   "property": "C33",
   "status": "partial",
   "theorems": [
    "Verif.Props.C33_words_false",
    "Verif.Props.C33_words_partial"
   ],
   "note": "False as stated: the first and last words of a longer text are not found; proved exactly what is found: the whole text, and words that are neither the first nor the last."
  },
  {
   "property": "C34",
   "status": "partial",
   "theorems": [
    "Verif.Props.C34_line_false",
    "Verif.Props.C34_line_partial",
    "Verif.Props.C34_line_complete"
   ],
   "note": "False as stated: without type flag the type asked for is uninitialised memory; everything else proved, for every line."
  },
  {
   "property": "C55",
   "status": "partial",
   "theorems": [
    "Verif.Props.C55_unicode_false",
    "Verif.Props.C55_unicode_partial",
    "Verif.Props.C55_exactly_partial"
   ],
   "note": "False as stated: the character after an escape is lost and an escape at the end overruns the buffer; the result is characterised exactly otherwise. C55_exactly_partial: what becomes of every text, the overruns and exceptions included."
  },
  {
   "property": "C60",
   "status": "partial",
   "theorems": [
    "Verif.Props.C60_prompt_false",
    "Verif.Props.C60_prompt_partial",
    "Verif.Props.C60_exactly_partial"
   ],
   "note": "False as stated: the empty line reads uninitialised memory, invalid regular expressions and invalid escapes end the program; proved for other lines of printable ASCII. C60_exactly_partial: what every sequence of keys ends in, in every locale."
  },
  {
   "property": "C35",
   "status": "partial",
   "theorems": [
    "Verif.Props.C35_results_false",
    "Verif.Props.C35_results_partial"
   ],
   "note": "False as stated: an entry whose key and value both match is listed and counted twice; proved exactly otherwise: which items, in which order, how often."
  },
  {
   "property": "C36",
   "status": "proved",
   "theorems": [
    "Verif.Props.C36_next_result",
    "Verif.Props.C36_cycle"
   ],
   "note": "For every document, pattern, selection and number of presses."
  },
  {
   "property": "C37",
   "status": "proved",
   "theorems": [
    "Verif.Props.C37_revealed"
   ],
   "note": "Also: nothing else is unfolded."
  },
  {
   "property": "C43",
   "status": "partial",
   "theorems": [
    "Verif.Props.C43_next_false",
    "Verif.Props.C43_next_partial",
    "Verif.Props.C43_exactly_partial"
   ],
   "note": "False as stated: from inside the value of an object entry the search for the next element stops at the entry; proved exactly when and what it finds (C43_exactly_partial)."
  },
  {
   "property": "C38",
   "status": "partial",
   "theorems": [
    "Verif.Props.C38_selection_false",
    "Verif.Props.C38_selection_partial",
    "Verif.Props.C38_exactly_partial"
   ],
   "note": "False as stated: a search that goes back to a result hidden in a collapsed container may leave a screen on which nothing is marked, and Down then ends in a null selection and a crash; also on a one-line screen. Proved for all histories without these searches, and exactly, for all histories: while the program waits the selection is a displayed item, and an input crashes if and only if no line on the screen is marked and it is Down, or Right on an open container."
  },
  {
   "property": "C39",
   "status": "proved",
   "theorems": [
    "Verif.Props.C39_drawing_ends",
    "Verif.Props.C39_every_input_ends"
   ],
   "note": "Every state with a selection of the document; every input in every history."
  },
  {
   "property": "C40",
   "status": "proved",
   "theorems": [
    "Verif.Props.C40_selected_line_on_screen"
   ],
   "note": ""
  },
  {
   "property": "C41",
   "status": "proved",
   "theorems": [
    "Verif.Props.C41_up_down"
   ],
   "note": "Lines wider than the screen included; the screen has 3 columns and 2 lines at least."
  },
  {
   "property": "C42",
   "status": "proved",
   "theorems": [
    "Verif.Props.C42_collapse_expand"
   ],
   "note": ""
  },
  {
   "property": "C62",
   "status": "proved",
   "theorems": [
    "Verif.Props.C62_screen_is_window",
    "Verif.Props.C62_no_overlap",
    "Verif.Props.C62_one_line_each"
   ],
   "note": "Screens of at least three columns with a line below the title; lines wider than the screen included: a key that stands alone may be given more lines than it needs (Row.lines), no line is written over another."
  },
  {
   "property": "C63",
   "status": "partial",
   "theorems": [
    "Verif.Props.C63_down_false",
    "Verif.Props.C63_down_partial",
    "Verif.Props.C63_exactly_partial"
   ],
   "note": "False as stated: when the next item is more lines away than the screen has, Down never reaches it; proved when it fits, and C63_exactly_partial: that it is reached exactly then."
  },
  {
   "property": "C64",
   "status": "partial",
   "theorems": [
    "Verif.Props.C64_right_false",
    "Verif.Props.C64_right_partial",
    "Verif.Props.C64_exactly_partial"
   ],
   "note": "False as stated: on an object entry at the bottom of the screen Right skips the value; proved otherwise, and C64_exactly_partial: exactly when, and where it goes instead."
  },
  {
   "property": "C56",
   "status": "proved",
   "theorems": [
    "Verif.Props.C56_flags"
   ],
   "note": "Every initial mode and every sequence of calls."
  },
  {
   "property": "C57",
   "status": "partial",
   "theorems": [
    "Verif.Props.C57_ceiling_false",
    "Verif.Props.C57_ceiling_partial",
    "Verif.Props.C57_model_partial"
   ],
   "note": "With the rounding of double. False as stated: undefined for width 0 and beyond 2^32 lines, inexact for texts beyond 2^53; proved below 2^51 columns."
  },
  {
   "property": "C61",
   "status": "partial",
   "theorems": [
    "Verif.Props.C61_measure_false",
    "Verif.Props.C61_measure_partial",
    "Verif.Props.C61_overflow_bound_partial"
   ],
   "note": "False as stated, for every non-empty ASCII text: the terminator is written one element after the buffer; proved for the other texts, and that it never is more than one."
  },
  {
   "property": "C46",
   "status": "partial",
   "theorems": [
    "Verif.Props.C46_options_false",
    "Verif.Props.C46_options_partial"
   ],
   "note": "False as stated: for the options about colours the last one counts, and after --help an unknown option is no error; proved otherwise, for every command line."
  },
  {
   "property": "C47",
   "status": "proved",
   "theorems": [
    "Verif.Props.C47_text"
   ],
   "note": "For every list of arguments after --, after any words that do not contain --."
  },
  {
   "property": "C48",
   "status": "proved",
   "theorems": [
    "Verif.Props.C48_command"
   ],
   "note": "For every command and all words before and after it."
  },
  {
   "property": "C49",
   "status": "partial",
   "theorems": [
    "Verif.Props.C49_inputs_false",
    "Verif.Props.C49_inputs_partial"
   ],
   "note": "False as stated: a file named ARGS is not read when there is a text after --; proved otherwise, for every command line."
  },
  {
   "property": "C50",
   "status": "proved",
   "theorems": [
    "Verif.Props.C50_fifo_map"
   ],
   "note": "Every sequence of reads and writes."
  },
  {
   "property": "C51",
   "status": "proved",
   "theorems": [
    "Verif.Props.C51_arguments"
   ],
   "note": "Every command and all files."
  },
  {
   "property": "C52",
   "status": "partial",
   "theorems": [
    "Verif.Props.C52_temporary_files_false",
    "Verif.Props.C52_temporary_files_partial",
    "Verif.Props.C52_exactly_partial"
   ],
   "note": "False as stated: all names with the same last 13 characters share a temporary file; proved for names that differ in one of the last 12 characters, and short names within 32 codes; C52_exactly_partial: exactly which names share a file."
  },
  {
   "property": "C53",
   "status": "partial",
   "theorems": [
    "Verif.Props.C53_concatenation_false",
    "Verif.Props.C53_concatenation_partial",
    "Verif.Props.C128_filter"
   ],
   "note": "False as stated: an input that crashes the reader or cannot be reported ends the program; proved for all runs that end regularly, and exactly when they do. C128_filter says exactly what is printed, in all cases."
  },
  {
   "property": "C54",
   "status": "partial",
   "theorems": [
    "Verif.Props.C54_status_false",
    "Verif.Props.C54_status_partial"
   ],
   "note": "False as stated: an input that cannot be read leaves the status at 0; proved for errors of the command line and files that cannot be opened."
  },
  {
   "property": "C65",
   "status": "partial",
   "theorems": [
    "Verif.Props.C65_waiting_false",
    "Verif.Props.C65_waiting_partial",
    "Verif.Props.C129_external"
   ],
   "note": "False as stated: a command ended by a signal, or a temporary file that cannot be created, leaves the program waiting for ever; proved for commands that exit. C129_external says exactly when it waits for ever."
  },
  {
   "property": "C66",
   "status": "partial",
   "theorems": [
    "Verif.Props.C66_files_false",
    "Verif.Props.C66_files_partial",
    "Verif.Props.C129_external"
   ],
   "note": "False as stated: inputs of the same name in two directories share one temporary file; proved when the names of the temporary files are distinct. C129_external says exactly what is written, run and removed, in all cases."
  },
  {
   "property": "C67",
   "status": "partial",
   "theorems": [
    "Verif.Props.C67_comparison_false",
    "Verif.Props.C67_comparison_partial",
    "Verif.Props.C131_comparing"
   ],
   "note": "False as stated: three inputs always end with an exception; proved for two comparable documents. C131_comparing says exactly what happens, in all cases."
  },
  {
   "property": "C68",
   "status": "partial",
   "theorems": [
    "Verif.Props.C68_browsing_false",
    "Verif.Props.C68_browsing_partial",
    "Verif.Props.C130_browsing"
   ],
   "note": "False as stated for the crashes of C53; proved for runs that end regularly. C130_browsing says exactly what happens, in all cases."
  },
  {
   "property": "C69",
   "status": "partial",
   "theorems": [
    "Verif.Props.C69_reports_false",
    "Verif.Props.C69_reports_partial",
    "Verif.Props.C125_standard_error"
   ],
   "note": "False as stated: in comparisons warnings are lost when a later input fails; proved for the other runs that end regularly. C125_standard_error says exactly what is reported, in every run."
  },
  {
   "property": "C44",
   "status": "proved",
   "theorems": [
    "Verif.Props.C44_active_window"
   ],
   "note": "For two inputs (three end in an exception, C67)."
  },
  {
   "property": "C45",
   "status": "proved",
   "theorems": [
    "Verif.Props.C45_selections"
   ],
   "note": "All sessions, searches and resizes included."
  },
  {
   "property": "C70",
   "status": "proved",
   "theorems": [
    "Verif.Props.C70_answers"
   ],
   "note": "With enough fuel the drawing has a result, the same for all larger fuels."
  },
  {
   "property": "C74",
   "status": "partial",
   "theorems": [
    "Verif.Props.C74_folded_false",
    "Verif.Props.C74_folded_partial",
    "Verif.Props.C74_exactly_partial"
   ],
   "note": "False as stated: a search opens one side only; proved for sessions without searches; C74_exactly_partial: what every input of every session does to two that correspond, and exactly which searches part them."
  },
  {
   "property": "C75",
   "status": "partial",
   "theorems": [
    "Verif.Props.C75_no_crash_false",
    "Verif.Props.C75_no_crash_partial",
    "Verif.Props.C75_exactly_partial"
   ],
   "note": "False as stated: a search that selects in the other document, then J, on a small terminal. Proved for sessions without searches; and C75_exactly_partial says exactly which keys crash: Up, Down, or Right on an open container, with a target not yet known to the screen, only while the message of a search stands over an incompletely drawn screen, never after a resize."
  },
  {
   "property": "C76",
   "status": "partial",
   "theorems": [
    "Verif.Props.C76_own_document_false",
    "Verif.Props.C76_own_document_partial",
    "Verif.Props.C76_exactly_partial"
   ],
   "note": "False as stated: the list of results starts with the first document whatever the active window; proved if the first hit is in the document of the active window; C76_exactly_partial: it holds exactly until the first search without a result after the selection whose first result is in the other document."
  },
  {
   "property": "C77",
   "status": "proved",
   "theorems": [
    "Verif.Props.C77_listing",
    "Verif.Props.C77_filled"
   ],
   "note": "For all sessions; the second theorem for every completed drawing (a message about a search may leave an unfinished one on the screen)."
  },
  {
   "property": "C78",
   "status": "proved",
   "theorems": [
    "Verif.Props.C78_highlight"
   ],
   "note": "For all sessions."
  },
  {
   "property": "C71",
   "status": "partial",
   "theorems": [
    "Verif.Props.C71_marks_false",
    "Verif.Props.C71_marks_partial",
    "Verif.Props.C71_exactly_partial"
   ],
   "note": "False as stated: in a window that is scrolled the marks stay where they were; proved for every completed drawing of a window that is not scrolled; C71_exactly_partial: where the marks are in every window, scrolled or not."
  },
  {
   "property": "C72",
   "status": "partial",
   "theorems": [
    "Verif.Props.C72_level_false",
    "Verif.Props.C72_row_false",
    "Verif.Props.C72_level_partial",
    "Verif.Props.C72_row_partial"
   ],
   "note": "False as stated: an empty array whose counterpart is a number moves what follows down, and one window may scroll alone. Proved for sessions without searches and documents whose counterparts are of one shape: same column, and same height counting the lines scrolled out; same row for all texts if moreover keys of counterparts are of the same length and both windows are scrolled by as much."
  },
  {
   "property": "C73",
   "status": "partial",
   "theorems": [
    "Verif.Props.C73_selection_false",
    "Verif.Props.C73_selection_partial"
   ],
   "note": "False as stated: the lines left free for the other window push the selected line out at the bottom; proved: in sessions without searches it is drawn, highlighted, at or below the top, if it has a line of its own."
  },
  {
   "property": "C79",
   "status": "partial",
   "theorems": [
    "Verif.Props.C79_next_false",
    "Verif.Props.C79_next_partial",
    "Verif.Props.C79_exactly_partial",
    "Verif.Props.C79_results"
   ],
   "note": "False as stated: after the last match of the second document N goes to the first one of the first document; proved for sessions whose searches have their first match in the document of the active window; the list of results is proved for all. Where a search goes in every session, the wrong cases included, is C79_exactly_partial."
  },
  {
   "property": "C80",
   "status": "partial",
   "theorems": [
    "Verif.Props.C80_stop_false",
    "Verif.Props.C80_stop_partial",
    "Verif.Props.C80_exactly_partial"
   ],
   "note": "False as stated: the view goes on waiting until a key completes a command; proved: after the signal no command but the one completed by that key is executed, and the view ends with it. C80_exactly_partial: exactly the events after which it goes on waiting, and how it ends otherwise."
  },
  {
   "property": "C81",
   "status": "proved",
   "theorems": [
    "Verif.Props.C81_commands"
   ],
   "note": "For both views, searches included."
  },
  {
   "property": "C82",
   "status": "proved",
   "theorems": [
    "Verif.Props.C82_case"
   ],
   "note": "For both views, at any point of any run."
  },
  {
   "property": "C83",
   "status": "partial",
   "theorems": [
    "Verif.Props.C83_unbound_false",
    "Verif.Props.C83_unbound_partial",
    "Verif.Props.C83_exactly_partial"
   ],
   "note": "False as stated: Escape or another key with Control takes away the key that follows; proved for complete sequences that are no command, in both views. C83_exactly_partial: exactly the keys without a name that begins with ^ have no effect, and the others take away the one key that follows."
  },
  {
   "property": "C84",
   "status": "proved",
   "theorems": [
    "Verif.Props.C84_prompt"
   ],
   "note": "For both views."
  },
  {
   "property": "C85",
   "status": "proved",
   "theorems": [
    "Verif.Props.C85_sessions"
   ],
   "note": "For both views."
  },
  {
   "property": "C86",
   "status": "proved",
   "theorems": [
    "Verif.Props.C86_size"
   ],
   "note": "For both views; in the diff view each window has half of the columns, and two rows less."
  },
  {
   "property": "C87",
   "status": "partial",
   "theorems": [
    "Verif.Props.C87_picture_false",
    "Verif.Props.C87_picture_partial",
    "Verif.Props.C87_exactly_partial"
   ],
   "note": "False as stated: lines that begin to the right of the terminal are written where the cursor was; proved for all sessions in which the lines on the screen begin in a column of the terminal, on terminals of at least three columns, for all places but the last one and (with a message) the last line. A name as long as the terminal is wide colours one place of the second line. C87_exactly: wherever the lines begin and whatever bytes they have, every place shows the last of the texts written there, and where each text is written."
  },
  {
   "property": "C88",
   "status": "partial",
   "theorems": [
    "Verif.Props.C88_marks_false",
    "Verif.Props.C88_marks_partial"
   ],
   "note": "False as stated: with --color=never results look like all other lines; proved in the situation of C87, for the results if there are colours."
  },
  {
   "property": "C89",
   "status": "proved",
   "theorems": [
    "Verif.Props.C89_message",
    "Verif.Props.C89_message_seen"
   ],
   "note": "For all sessions; a message longer than the line is cut."
  },
  {
   "property": "C90",
   "status": "partial",
   "theorems": [
    "Verif.Props.C90_value_false",
    "Verif.Props.C90_value_partial",
    "Verif.Props.C90_accuracy_partial",
    "Verif.Props.C90_infinite"
   ],
   "note": "False as stated: six decimals are printed; proved exactly for numbers with at most six decimals below 2^33, for all others in the range of doubles the error is at most half a millionth plus 2^-53 of the number; larger numbers are printed as inf."
  },
  {
   "property": "C91",
   "status": "partial",
   "theorems": [
    "Verif.Props.C91_stable_false",
    "Verif.Props.C91_stable_partial"
   ],
   "note": "False as stated: inf is printed for numbers that are too large (and see C21); proved for all printable documents."
  },
  {
   "property": "C92",
   "status": "partial",
   "theorems": [
    "Verif.Props.C92_language_false",
    "Verif.Props.C92_language_partial",
    "Verif.Props.C92_exactly_partial"
   ],
   "note": "False as stated: with a decimal comma 1.5 is printed as 1,000000; proved with --ascii, and for documents without fractions. C92_exactly_partial: exactly which documents are printed alike in two languages (those all of whose fractions are inf), and what is printed for the other fractions."
  },
  {
   "property": "C93",
   "status": "proved",
   "theorems": [
    "Verif.Props.C93_order"
   ],
   "note": "For all numbers, of any length."
  },
  {
   "property": "C94",
   "status": "partial",
   "theorems": [
    "Verif.Props.C94_picture_false",
    "Verif.Props.C94_picture_partial",
    "Verif.Props.C94_exactly_partial"
   ],
   "note": "False as stated: a text that is pushed below its window, to be level with its counterpart, is written where the cursor was. Proved for all sessions, for windows all texts of which begin inside of them, if they are not scrolled or no text goes on in the next line, on terminals of at least 10 columns and 3 lines, for all places of a window but the last one; C94_exactly_partial: what is seen in every window, scrolled or not, all texts of which begin inside of it."
  },
  {
   "property": "C95",
   "status": "partial",
   "theorems": [
    "Verif.Props.C95_signs_false",
    "Verif.Props.C95_signs_partial",
    "Verif.Props.C94_exactly_partial"
   ],
   "note": "False as stated: in a scrolled window the signs are next to other lines. Proved for windows that are not scrolled, all texts of which begin inside of them; C94_exactly_partial: which sign is seen where in the others too, also when signs cover one another."
  },
  {
   "property": "C96",
   "status": "partial",
   "theorems": [
    "Verif.Props.C96_titles_false",
    "Verif.Props.C96_titles_partial"
   ],
   "note": "False as stated: after a search message both windows may be empty. Proved whenever there is no message; and with a message, that the titles are right or both windows are entirely empty."
  },
  {
   "property": "C97",
   "status": "partial",
   "theorems": [
    "Verif.Props.C97_message_false",
    "Verif.Props.C97_message_partial",
    "Verif.Props.C97_exactly_partial",
    "Verif.Props.C97_message_seen"
   ],
   "note": "False as stated: a search for what only the other document has is said to have hit the bottom. That a message is seen on the last line, as it is, is proved for all sessions; which message it is, for sessions in which the first hit of each search is in the document of the active window. Which message it is in every session, the wrong cases included, is C97_exactly_partial."
  },
  {
   "property": "C98",
   "status": "proved",
   "theorems": [
    "Verif.Props.C98_pointers"
   ],
   "note": "About the reader with its objects in memory (`Model/Heap.lean`), which is proved to have the outcomes of the reader."
  },
  {
   "property": "C99",
   "status": "partial",
   "theorems": [
    "Verif.Props.C99_memory_false",
    "Verif.Props.C99_memory_partial",
    "Verif.Props.C99_exactly_partial",
    "Verif.Props.C99_errors_partial"
   ],
   "note": "False as stated: a value in the place of the brace that ends an object is never destroyed, nor is what was read before an error. For every input nothing is used or destroyed that is not there, and every element of the document is gone after the destructor; after the text of every JSON document nothing at all is left; and after any read that delivers a document, exactly the values that stand in the place of a closing brace are left, one object each (C99_exactly_partial, an equivalence); after an error or an uncaught exception, exactly the containers that were not closed with what they held, keys without values, values in wrong places, and what was lost before (C99_errors_partial). No memory is modelled after undefined behaviour."
  },
  {
   "property": "C100",
   "status": "partial",
   "theorems": [
    "Verif.Props.C100_equal_false",
    "Verif.Props.C100_equal_partial"
   ],
   "note": "False as stated: items and values are compared as pointers, primitives by their texts. What == is exactly is proved for all elements of all documents."
  },
  {
   "property": "C101",
   "status": "proved",
   "theorems": [
    "Verif.Props.C101_first_warning"
   ],
   "note": ""
  },
  {
   "property": "C102",
   "status": "partial",
   "theorems": [
    "Verif.Props.C102_no_settings_false",
    "Verif.Props.C102_no_settings_partial",
    "Verif.Props.C102_exactly_partial"
   ],
   "note": "False as stated: unknown escapes are accepted with a warning, and values not spelled in lower case make the program follow the null pointer. All other inputs are proved to be read as with the default settings. (A reader on which withConfig was never called reads a pointer that was not initialised: that is not modelled.) C102_exactly_partial: compared with -W, what becomes of every input: only escapes pass, the first repeated key is the error, at the first misspelled value the null pointer is followed."
  },
  {
   "property": "C103",
   "status": "partial",
   "theorems": [
    "Verif.Props.C103_prompt_false",
    "Verif.Props.C103_prompt_partial",
    "Verif.Props.C103_typed_partial",
    "Verif.Props.C103_resized_partial"
   ],
   "note": "False as stated: after a change of size the prompt is not seen until the next key, and a text longer than the line is cut. Proved for both views after every key, for printable ASCII texts (cut at the width of the terminal); the cursor in the view of one document. C103_resized_partial: after a change of size, until the next key, exactly what would be seen without a prompt."
  },
  {
   "property": "C104",
   "status": "proved",
   "theorems": [
    "Verif.Props.C104_no_trace"
   ],
   "note": "Whatever text is typed (also texts that are not printable ASCII: what the C library prints of them is a parameter)."
  },
  {
   "property": "C105",
   "status": "partial",
   "theorems": [
    "Verif.Props.C105_no_trace_diff_false",
    "Verif.Props.C105_no_trace_diff_partial"
   ],
   "note": "False as stated: the frames do not cover the last column (or two) of the last line, which stays blue. Proved for all other places."
  },
  {
   "property": "C106",
   "status": "partial",
   "theorems": [
    "Verif.Props.C106_hex_false",
    "Verif.Props.C106_no_separator_false",
    "Verif.Props.C106_report_partial",
    "Verif.Props.C106_exactly_partial"
   ],
   "note": "False as stated: the character named for a bad hexadecimal digit is the wrong one, and for every missing comma (in arrays) or colon there is no message at all (undefined behaviour). All the other mistakes are proved to be reported as stated, with the line, its text and the mark, for every place and whatever follows; C106_exactly_partial: with line breaks directly after numbers and booleans too, each of which adds one to the line number; only line breaks inside a \\uXXXX or the four bytes of a null are excepted."
  },
  {
   "property": "C107",
   "status": "proved",
   "theorems": [
    "Verif.Props.C107_folding"
   ],
   "note": "For every state of the view and every answer of it that is not a crash (see C75 for those)."
  },
  {
   "property": "C108",
   "status": "proved",
   "theorems": [
    "Verif.Props.C108_moves",
    "Verif.Props.C108_diff"
   ],
   "note": "For all reached states and every answer that is not a crash (see C38, C75). Left and Right in the diff view: C107."
  },
  {
   "property": "C109",
   "status": "proved",
   "theorems": [
    "Verif.Props.C109_keys"
   ],
   "note": "The command is given by its word; what each word does is the subject of C36-C46, C75-C90, C107 and C108."
  },
  {
   "property": "C110",
   "status": "proved",
   "theorems": [
    "Verif.Props.C110_up",
    "Verif.Props.C110_to_the_root"
   ],
   "note": "After every completed drawing (all states without searches, by settled_reached); answers that are no crash (see C75)."
  },
  {
   "property": "C111",
   "status": "partial",
   "theorems": [
    "Verif.Props.C111_down_false",
    "Verif.Props.C111_down_partial",
    "Verif.Props.C111_exactly_partial"
   ],
   "note": "False as stated: at the bottom of the window Down leaves out the open container of an entry, and it stays for ever on the last item in the value of an entry. Proved in all other cases, and that it never goes up; C111_exactly_partial: where it goes instead, everywhere."
  },
  {
   "property": "C112",
   "status": "partial",
   "theorems": [
    "Verif.Props.C112_terminal_false",
    "Verif.Props.C112_terminal_partial"
   ],
   "note": "False as stated: a crash in a view, or while the next input is read, leaves the terminal taken. Proved for all other endings, and the order of taking, showing and giving back in every case."
  },
  {
   "property": "C113",
   "status": "partial",
   "theorems": [
    "Verif.Props.C113_reports_false",
    "Verif.Props.C113_reports_partial"
   ],
   "note": "False as stated: while inputs are browsed one after the other, an input that cannot be read is reported on the taken terminal. Proved that this is the only case."
  },
  {
   "property": "C114",
   "status": "partial",
   "theorems": [
    "Verif.Props.C114_signals_false",
    "Verif.Props.C114_signals_partial"
   ],
   "note": "False as stated: while inputs are browsed, signals between two views change nothing at all (proved for all of them). Proved for all other ways to run the program."
  },
  {
   "property": "C115",
   "status": "partial",
   "theorems": [
    "Verif.Props.C115_redirected_false",
    "Verif.Props.C115_redirected_partial"
   ],
   "note": "False as stated: --diff takes the terminal in any case and crashes without one. Proved for everything else."
  },
  {
   "property": "C116",
   "status": "partial",
   "theorems": [
    "Verif.Props.C116_afresh_false",
    "Verif.Props.C116_afresh_partial",
    "Verif.Props.C116_unused_partial"
   ],
   "note": "False as stated: search results and folded elements of the inputs before survive as dangling addresses. Proved when nothing was folded or searched for before (whatever is done then), and, if no address is used again, whatever was done before, except that n may crash."
  },
  {
   "property": "C117",
   "status": "partial",
   "theorems": [
    "Verif.Props.C117_temporary_false",
    "Verif.Props.C117_temporary_partial"
   ],
   "note": "False as stated: signals and crashes leave the files. Proved that a program that ends regularly has removed exactly the files it has written."
  },
  {
   "property": "C118",
   "status": "proved",
   "theorems": [
    "Verif.Props.C118_formatting"
   ],
   "note": "End to end, from the words of the command line to the bytes on standard output, composed from C02, C05, C21, C59, C90/C91 and the model of the process. The conditions on the document are the ones of C21/C59; without them the claim is false (C21_round_trip_false)."
  },
  {
   "property": "C119",
   "status": "proved",
   "theorems": [
    "Verif.Props.C119_map"
   ],
   "note": "Induction on the history of calls against a specification by values kept per key (Spec/Multimap)."
  },
  {
   "property": "C120",
   "status": "proved",
   "theorems": [
    "Verif.Props.C120_signs"
   ],
   "note": "From the invariants of the comparison (Lemmas/DiffSigns) and the marks of a drawing (C71)."
  },
  {
   "property": "C121",
   "status": "partial",
   "theorems": [
    "Verif.Props.C121_pairs_false",
    "Verif.Props.C121_pairs_partial"
   ],
   "note": "False as stated, for every behaviour of the library: the halves are converted one by one and the third byte of the character needs both. Proved what strings with halves of pairs are read as, item by item, and that a half refused by the library ends the parser with an uncaught exception."
  },
  {
   "property": "C122",
   "status": "partial",
   "theorems": [
    "Verif.Props.C122_help_false",
    "Verif.Props.C122_help_partial"
   ],
   "note": "False as stated: the help names -version and --helph, which are errors, and does not name --version and --help. Proved that these four are the only differences, for every word that begins with a dash."
  },
  {
   "property": "C123",
   "status": "partial",
   "theorems": [
    "Verif.Props.C123_output_false",
    "Verif.Props.C123_output_partial"
   ],
   "note": "False as stated: a wrong command line prints the help on standard output, and so does --diff with a wrong number of files, with status 0. Proved exactly what standard output holds for every command line and however the program ends."
  },
  {
   "property": "C124",
   "status": "proved",
   "theorems": [
    "Verif.Props.C124_silence",
    "Verif.Props.C124_silence_converse"
   ],
   "note": "Induction on the inputs through every mode of the program; the converse too, for printing and browsing."
  },
  {
   "property": "C125",
   "status": "proved",
   "theorems": [
    "Verif.Props.C125_standard_error"
   ],
   "note": "For every command line, input and ending; the type names and the text of the end-of-file exception are parameters (Texts.Lib). Whether the line feed after a report without context is written depends on the order in which the compiler evaluates the operands of << (Texts.Lib.inOrder). The message is cut at a null byte, line and column are modulo 2^32, as operator<< prints them."
  },
  {
   "property": "C126",
   "status": "proved",
   "theorems": [
    "Verif.Props.C126_accepted_exactly"
   ],
   "note": "Soundness by induction on the recursion bound, completeness by induction on derivations in Spec/Accepted; C127 gives the other outcomes."
  },
  {
   "property": "C127",
   "status": "proved",
   "theorems": [
    "Verif.Props.C127_refused_exactly"
   ],
   "note": "Both directions for every reason; that the cases are complete and exclude each other; with C126 this determines the outcome of every input."
  },
  {
   "property": "C128",
   "status": "proved",
   "theorems": [
    "Verif.Props.C128_filter"
   ],
   "note": "Composes the exact grammar of accepted (C126) and refused (C127) texts with the layout (C23) and the program, for all signals that arrive while inputs are read."
  },
  {
   "property": "C129",
   "status": "proved",
   "theorems": [
    "Verif.Props.C129_external"
   ],
   "note": "Composes C126, C127, C23, C51 and the loop over the inputs. Arguments have no null characters, as those of a process."
  },
  {
   "property": "C130",
   "status": "proved",
   "theorems": [
    "Verif.Props.C130_browsing"
   ],
   "note": "The views are a parameter (any behaviour); Model/Browse runs the main loop for it (C116)."
  },
  {
   "property": "C131",
   "status": "proved",
   "theorems": [
    "Verif.Props.C131_comparing"
   ],
   "note": "As C130; C28_exactly_partial says when two documents clash."
  },
  {
   "property": "C132",
   "status": "partial",
   "theorems": [
    "Verif.Props.C132_no_signs_false",
    "Verif.Props.C132_no_signs_partial"
   ],
   "note": "False as stated: texts less than 30% apart count as equal. Proved: there are no signs exactly if the documents are built alike, with the same keys in the same order and primitives of the same type and nearly the same text; then each element faces the one at its own position. Texts below 16 MiB."
  },
  {
   "property": "C133",
   "status": "partial",
   "theorems": [
    "Verif.Props.C133_exchange_false",
    "Verif.Props.C133_exchange_partial",
    "Verif.Props.C133_exchange_unique_partial",
    "Verif.Props.C133_exchange_edit_partial"
   ],
   "note": "False as stated: of several cheapest alignments the walk takes one that depends on the order. Proved to be independent of the order: crashes, similarity, distance, the signs of the roots, whether there are signs at all. When every two opposite containers have only one cheapest alignment of their children, comparing the other way round shows exactly the same, exchanged: counterparts and signs (C133_exchange_unique_partial). Also for every edit of Spec/Edited.lean (C139), without that condition."
  },
  {
   "property": "C134",
   "status": "proved",
   "theorems": [
    "Verif.Props.C134_signs"
   ],
   "note": "Against a table of cases (signsFor) and the costs of Spec.Facing, for every element of both documents; together with C29 (which elements face each other) this leaves only ties open."
  },
  {
   "property": "C135",
   "status": "proved",
   "theorems": [
    "Verif.Props.C135_one_alignment",
    "Verif.Props.C135_comparison"
   ],
   "note": "Counterparts and signs of all elements as a specification of alignments says (Spec/Comparison.lean), including which of several cheapest alignments is taken. Conditions: texts below 16 MiB, sums within the cells (RoomFor), as in C29 and C134."
  },
  {
   "property": "C136",
   "status": "partial",
   "theorems": [
    "Verif.Props.C136_in_common_false",
    "Verif.Props.C136_exactly_partial"
   ],
   "note": "False as stated, twice: two containers with as many children, any two of which cost at least 2, are marked as equal (1 - 2 is not 0 for an unsigned number), for example [[1,2]] and [5]; and 128 arrays of two against 127 numbers, where a sum wraps in a byte. C136_exactly_partial: provided the sums fit, opposite containers are marked as equal exactly if they have something in common or in the first of these cases, and as added otherwise."
  },
  {
   "property": "C137",
   "status": "partial",
   "theorems": [
    "Verif.Props.C137_inserted_partial",
    "Verif.Props.C137_removed_partial",
    "Verif.Props.C137_members_partial",
    "Verif.Props.C137_appended_partial",
    "Verif.Props.C137_cut_partial",
    "Verif.Props.C137_inserted_false"
   ],
   "note": "False as stated: a number inserted before one that differs from it in the last digit is marked as equal and the old one as added. Proved for inserted or removed children none of which would cost nothing facing a remaining one; for members with new keys of objects with distinct keys; and for any items appended to or cut off the end of an array (in documents with short texts and sums within the limit, as in C134)."
  },
  {
   "property": "C138",
   "status": "partial",
   "theorems": [
    "Verif.Props.C138_in_place_partial",
    "Verif.Props.C138_in_place_false"
   ],
   "note": "False as stated: of [111,222,5] and [222,333,5] the comparison shows a removal and an insertion. Proved for changes (Spec/InPlace.lean) of at most one primitive item per array and of any members of objects, as long as every changed container keeps a child or has a container in it: signs and counterparts of all elements of both documents. In documents with short texts and sums within the limit, as in C134."
  },
  {
   "property": "C139",
   "status": "partial",
   "theorems": [
    "Verif.Props.C139_edit_partial",
    "Verif.Props.C137_inserted_false",
    "Verif.Props.C138_in_place_false"
   ],
   "note": "False as stated (C137_inserted_false, C138_in_place_false). Proved for all edits of Spec/Edited.lean: in each container either children are inserted that resemble no old one, or removed that resemble no remaining one, or any children are appended or cut off at the end, or one child is moved by two places or more (no two resembling each other), or children are changed in their places (one that is no container; or any, if no two in different places resemble each other, as members with different keys), and some child is kept; containers among the children are edited likewise, to any depth. In documents with short texts and sums within the limit, as in C134."
  },
  {
   "property": "C140",
   "status": "partial",
   "theorems": [
    "Verif.Props.C140_by_position_partial",
    "Verif.Props.C140_records_false"
   ],
   "note": "False as stated: records with a member in common cost nothing facing each other, so the alignment is by position. Proved for any two containers that are counterparts: if each child resembles the child with the same number, exactly these face each other and what is beyond the end of the shorter one is marked as added. In documents with short texts and sums within the limit, as in C134."
  },
  {
   "property": "C141",
   "status": "proved",
   "theorems": [
    "Verif.Props.C141_local"
   ],
   "note": "From the exact comparison (C135): what is opposite is a function and compatible with the tree; definedness from C28 (what meets in the parts meets in the whole). The values of members too."
  },
  {
   "property": "C142",
   "status": "partial",
   "theorems": [
    "Verif.Props.C142_moved_partial",
    "Verif.Props.C142_members_partial",
    "Verif.Props.C142_neighbours_partial",
    "Verif.Props.C142_two_partial",
    "Verif.Props.C142_moved_false"
   ],
   "note": "False as stated for neighbours: of two members that change places nothing is marked as equal, and of two neighbours of several it is always the second that is shown as moved. Proved for moves by at least two places, down or up, of members (with different keys) and of children no two of which resemble each other; for these also exactly what is shown for neighbours (C142_neighbours_partial, C142_two_partial); inside of larger edits it is part of C139 (moved in Spec/Edited.lean). In documents with short texts and sums within the limit, as in C134."
  },
  {
   "property": "C143",
   "status": "partial",
   "theorems": [
    "Verif.Props.C143_same",
    "Verif.Props.C143_indistinct_partial"
   ],
   "note": "A document compared with itself: in full (C143_same). Other documents that do not differ: texts below 16 MiB (C143_indistinct_partial)."
  }
 ]
}