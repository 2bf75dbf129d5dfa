c("C01","proved",[P+"C01_read_terminates"],"Recursion bound never hit, outcome independent of the bound, unread bytes are a suffix of the input.")
c("C03","proved",[P+"C03_keys_unique"],"All settings, all inputs, all depths.")
c("C04","proved",[P+"C04_sorted"],"Strictly increasing keys; sorted tree = key-sort of the keep-order tree, success on the same inputs.")
c("C05","proved",[P+"C05_strict_conservative"],"All inputs.")
c("C08","proved",[P+"C08_suffix_ignored"],"Hypothesis: the stream is still good after the first read (as in the property).")
c("C02","proved",[P+"C02_documents_are_read"],"Every grammar document, every placement of insignificant bytes, every setting; grammar and denotation are in Spec/Grammar.")
c("C06","proved",[P+"C06_duplicate_keys"],"")
c("C07","proved",[P+"C07_integers_exact"],"")
c("C09","proved",[P+"C09_truncation_rejected"],"")
c("C10","partial",[P+"C10_no_crash_false",P+"C10_no_crash_partial",P+"C10_exactly_partial"],"False as stated: four refutations. Proved: every crash has its cause in the input (sign or dot, 19 digits in a row, surrogate escape, line feed, colon); C10_exactly_partial: exactly which inputs crash, and how.")
c("C11","proved",[P+"C11_string_value"],"")
c("C12","proved",[P+"C12_unicode_escapes"],"")
c("C13","proved",[P+"C13_ascii_keeps_unicode"],"")
c("C14","partial",[P+"C14_strings_distinct_false",P+"C14_strings_distinct_partial",P+"C14_exactly_partial"],"False as stated (an escaped line feed and an escaped backslash followed by n give the same value); proved for strings without escaped backslashes; C14_exactly_partial says exactly which literals are read alike.")
c("C15","proved",[P+"C15_literals"],"")
c("C58","proved",[P+"C58_unknown_escapes"],"")
c("C16","partial",[P+"C16_bounded_list_false",P+"C16_bounded_list_partial",P+"C16_context_partial",P+"C16_exactly_partial"],"False as stated: two consecutive pop_back, or a batch longer than the ring, break the bounded-list behaviour. Proved for every other operation sequence, and that on inputs without badly placed line breaks every error and message shows the tail of the line at a position of the input; C16_exactly_partial says exactly what is shown with line breaks after numbers and booleans too (only line breaks that interrupt a null or a \\uXXXX are left out).")
c("C17","partial",[P+"C17_line_false",P+"C17_line_partial",P+"C17_exactly_partial"],"False as stated (a line break directly after a number, and CR LF, are counted twice); proved for inputs without these, and exactly by how much the line number is off: by the number of line breaks outside strings that directly follow a number or boolean.")
c("C18","partial",[P+"C18_column_false",P+"C18_column_partial",P+"C16_exactly_partial"],"False as stated (on the first line the column starts from uninitialised memory); proved from the second line on, for the inputs of C16_context_partial; C16_exactly_partial tells the column from the second line on for the other inputs too.")
c("C19","partial",[P+"C19_display_false",P+"C19_display_partial",P+"C19_exactly_partial"],"False as stated (two exception texts are undefined behaviour; an empty history raises length_error); proved for the other exceptions on the inputs of C16_context_partial, and exactly when the history is empty for the others: a one-byte number or boolean alone on its line.")
c("C20","partial",[P+"C20_history_bounds_false",P+"C20_history_bounds_partial",P+"C20_exactly_partial"],"False as stated (a line feed inside a batch makes it read past its end); proved for batches without one, and for every input without such line feeds; C20_exactly_partial: exactly for which inputs it happens.")
c("C21","partial",[P+"C21_round_trip_false",P+"C21_round_trip_partial"],"False as stated (a string value of an object entry is printed without quotes; characters are not re-escaped); proved for every printable document, both layouts.")
c("C22","proved",[P+"C22_compress_removes_layout"],"The line-based part assumes that no key or text contains a line feed.")
c("C23","partial",[P+"C23_layout_false",P+"C23_layout_partial",P+"C23_exactly_partial"],"False from nesting depth 65536 on (unsigned short counter); proved for every document below that depth. C23_exactly: the output of every document, and that it is the promised one exactly if no line stands inside 65536 brackets.")
c("C24","proved",[P+"C24_edit_distance"],"Against edit scripts (insert, delete, substitute one character).")
c("C25","proved",[P+"C25_metric"],"")
c("C26","partial",[P+"C26_percent_false",P+"C26_percent_partial"],"False for strings of 2^25 bytes (float rounding makes the similarity of different strings 1); proved for strings shorter than 2^24 bytes, in exact single-precision arithmetic.")
c("C27","partial",[P+"C27_self_false",P+"C27_self_partial",P+"C27_exactly_partial"],"False as stated: a document with an empty container crashes (division by zero) when compared with itself; proved for every document without empty containers, and that the comparison crashes exactly when there is one.")
c("C28","partial",[P+"C28_no_crash_false",P+"C28_no_crash_partial",P+"C28_exactly_partial"],"False as stated (two empty containers: division by zero); proved that it crashes exactly if two empty containers are compared with each other: no null pointer, for any sizes below 2^31.")
c("C29","proved",[P+"C29_optimal"],"Against all order-preserving alignments, with the costs of a small specification (Facing), for containers of any depth; the pairs of the table are those of a cheapest alignment.")
c("C30","proved",[P+"C30_tree_matching"],"For the whole tree: one-to-one, symmetric, pairs below pairs, in order; independent of the order of addresses.")
c("C31","partial",[P+"C31_equal_false",P+"C31_equal_partial"],"False as stated (containers are marked equal whatever they hold; similar texts count as equal); proved: same kind, same key, same type and nearly identical text.")
c("C59","partial",[P+"C59_standard_output_false",P+"C59_standard_output_partial"],"False as stated (strings are printed unescaped, entry values unquoted); proved for clean printable documents.")
c("C32","partial",[P+"C32_contains_false",P+"C32_contains_partial"],"False as stated: tabs of the text are read as blanks (tabs of the pattern are not), the empty text is never found, the type asked for is uninitialised without a type flag; proved up to these.")
c("C33","partial",[P+"C33_words_false",P+"C33_words_partial"],"False as stated: the first and last words of a longer text are not found; proved exactly what is found: the whole text, and words that are neither the first nor the last.")
c("C34","partial",[P+"C34_line_false",P+"C34_line_partial",P+"C34_line_complete"],"False as stated: without type flag the type asked for is uninitialised memory; everything else proved, for every line.")
c("C55","partial",[P+"C55_unicode_false",P+"C55_unicode_partial",P+"C55_exactly_partial"],"False as stated: the character after an escape is lost and an escape at the end overruns the buffer; the result is characterised exactly otherwise. C55_exactly_partial: what becomes of every text, the overruns and exceptions included.")
c("C60","partial",[P+"C60_prompt_false",P+"C60_prompt_partial",P+"C60_exactly_partial"],"False as stated: the empty line reads uninitialised memory, invalid regular expressions and invalid escapes end the program; proved for other lines of printable ASCII. C60_exactly_partial: what every sequence of keys ends in, in every locale.")
c("C35","partial",[P+"C35_results_false",P+"C35_results_partial"],"False as stated: an entry whose key and value both match is listed and counted twice; proved exactly otherwise: which items, in which order, how often.")
c("C36","proved",[P+"C36_next_result",P+"C36_cycle"],"For every document, pattern, selection and number of presses.")
c("C37","proved",[P+"C37_revealed"],"Also: nothing else is unfolded.")
c("C43","partial",[P+"C43_next_false",P+"C43_next_partial",P+"C43_exactly_partial"],"False as stated: from inside the value of an object entry the search for the next element stops at the entry; proved exactly when and what it finds (C43_exactly_partial).")
c("C38","partial",[P+"C38_selection_false",P+"C38_selection_partial",P+"C38_exactly_partial"],"False as stated: a search that goes back to a result hidden in a collapsed container may leave a screen on which nothing is marked, and Down then ends in a null selection and a crash; also on a one-line screen. Proved for all histories without these searches, and exactly, for all histories: while the program waits the selection is a displayed item, and an input crashes if and only if no line on the screen is marked and it is Down, or Right on an open container.")
c("C39","proved",[P+"C39_drawing_ends",P+"C39_every_input_ends"],"Every state with a selection of the document; every input in every history.")
c("C40","proved",[P+"C40_selected_line_on_screen"],"")
c("C41","proved",[P+"C41_up_down"],"Lines wider than the screen included; the screen has 3 columns and 2 lines at least.")
c("C42","proved",[P+"C42_collapse_expand"],"")
c("C62","proved",[P+"C62_screen_is_window",P+"C62_no_overlap",P+"C62_one_line_each"],"Screens of at least three columns with a line below the title; lines wider than the screen included: a key that stands alone may be given more lines than it needs (Row.lines), no line is written over another.")
c("C63","partial",[P+"C63_down_false",P+"C63_down_partial",P+"C63_exactly_partial"],"False as stated: when the next item is more lines away than the screen has, Down never reaches it; proved when it fits, and C63_exactly_partial: that it is reached exactly then.")
c("C64","partial",[P+"C64_right_false",P+"C64_right_partial",P+"C64_exactly_partial"],"False as stated: on an object entry at the bottom of the screen Right skips the value; proved otherwise, and C64_exactly_partial: exactly when, and where it goes instead.")
c("C56","proved",[P+"C56_flags"],"Every initial mode and every sequence of calls.")
c("C57","partial",[P+"C57_ceiling_false",P+"C57_ceiling_partial",P+"C57_model_partial"],"With the rounding of double. False as stated: undefined for width 0 and beyond 2^32 lines, inexact for texts beyond 2^53; proved below 2^51 columns.")
c("C61","partial",[P+"C61_measure_false",P+"C61_measure_partial",P+"C61_overflow_bound_partial"],"False as stated, for every non-empty ASCII text: the terminator is written one element after the buffer; proved for the other texts, and that it never is more than one.")
c("C46","partial",[P+"C46_options_false",P+"C46_options_partial"],"False as stated: for the options about colours the last one counts, and after --help an unknown option is no error; proved otherwise, for every command line.")
c("C47","proved",[P+"C47_text"],"For every list of arguments after --, after any words that do not contain --.")
c("C48","proved",[P+"C48_command"],"For every command and all words before and after it.")
c("C49","partial",[P+"C49_inputs_false",P+"C49_inputs_partial"],"False as stated: a file named ARGS is not read when there is a text after --; proved otherwise, for every command line.")
c("C50","proved",[P+"C50_fifo_map"],"Every sequence of reads and writes.")
c("C51","proved",[P+"C51_arguments"],"Every command and all files.")
c("C52","partial",[P+"C52_temporary_files_false",P+"C52_temporary_files_partial",P+"C52_exactly_partial"],"False as stated: all names with the same last 13 characters share a temporary file; proved for names that differ in one of the last 12 characters, and short names within 32 codes; C52_exactly_partial: exactly which names share a file.")
c("C53","partial",[P+"C53_concatenation_false",P+"C53_concatenation_partial",P+"C128_filter"],"False as stated: an input that crashes the reader or cannot be reported ends the program; proved for all runs that end regularly, and exactly when they do. C128_filter says exactly what is printed, in all cases.")
c("C54","partial",[P+"C54_status_false",P+"C54_status_partial"],"False as stated: an input that cannot be read leaves the status at 0; proved for errors of the command line and files that cannot be opened.")
c("C65","partial",[P+"C65_waiting_false",P+"C65_waiting_partial",P+"C129_external"],"False as stated: a command ended by a signal, or a temporary file that cannot be created, leaves the program waiting for ever; proved for commands that exit. C129_external says exactly when it waits for ever.")
c("C66","partial",[P+"C66_files_false",P+"C66_files_partial",P+"C129_external"],"False as stated: inputs of the same name in two directories share one temporary file; proved when the names of the temporary files are distinct. C129_external says exactly what is written, run and removed, in all cases.")
c("C67","partial",[P+"C67_comparison_false",P+"C67_comparison_partial",P+"C131_comparing"],"False as stated: three inputs always end with an exception; proved for two comparable documents. C131_comparing says exactly what happens, in all cases.")
c("C68","partial",[P+"C68_browsing_false",P+"C68_browsing_partial",P+"C130_browsing"],"False as stated for the crashes of C53; proved for runs that end regularly. C130_browsing says exactly what happens, in all cases.")
c("C69","partial",[P+"C69_reports_false",P+"C69_reports_partial",P+"C125_standard_error"],"False as stated: in comparisons warnings are lost when a later input fails; proved for the other runs that end regularly. C125_standard_error says exactly what is reported, in every run.")
c("C44","proved",[P+"C44_active_window"],"For two inputs (three end in an exception, C67).")
c("C45","proved",[P+"C45_selections"],"All sessions, searches and resizes included.")
c("C70","proved",[P+"C70_answers"],"With enough fuel the drawing has a result, the same for all larger fuels.")
c("C74","partial",[P+"C74_folded_false",P+"C74_folded_partial",P+"C74_exactly_partial"],"False as stated: a search opens one side only; proved for sessions without searches; C74_exactly_partial: what every input of every session does to two that correspond, and exactly which searches part them.")
c("C75","partial",[P+"C75_no_crash_false",P+"C75_no_crash_partial",P+"C75_exactly_partial"],"False as stated: a search that selects in the other document, then J, on a small terminal. Proved for sessions without searches; and C75_exactly_partial says exactly which keys crash: Up, Down, or Right on an open container, with a target not yet known to the screen, only while the message of a search stands over an incompletely drawn screen, never after a resize.")
c("C76","partial",[P+"C76_own_document_false",P+"C76_own_document_partial",P+"C76_exactly_partial"],"False as stated: the list of results starts with the first document whatever the active window; proved if the first hit is in the document of the active window; C76_exactly_partial: it holds exactly until the first search without a result after the selection whose first result is in the other document.")
c("C77","proved",[P+"C77_listing",P+"C77_filled"],"For all sessions; the second theorem for every completed drawing (a message about a search may leave an unfinished one on the screen).")
c("C78","proved",[P+"C78_highlight"],"For all sessions.")
c("C71","partial",[P+"C71_marks_false",P+"C71_marks_partial",P+"C71_exactly_partial"],"False as stated: in a window that is scrolled the marks stay where they were; proved for every completed drawing of a window that is not scrolled; C71_exactly_partial: where the marks are in every window, scrolled or not.")
c("C72","partial",[P+"C72_level_false",P+"C72_row_false",P+"C72_level_partial",P+"C72_row_partial"],"False as stated: an empty array whose counterpart is a number moves what follows down, and one window may scroll alone. Proved for sessions without searches and documents whose counterparts are of one shape: same column, and same height counting the lines scrolled out; same row for all texts if moreover keys of counterparts are of the same length and both windows are scrolled by as much.")
c("C73","partial",[P+"C73_selection_false",P+"C73_selection_partial"],"False as stated: the lines left free for the other window push the selected line out at the bottom; proved: in sessions without searches it is drawn, highlighted, at or below the top, if it has a line of its own.")
c("C79","partial",[P+"C79_next_false",P+"C79_next_partial",P+"C79_exactly_partial",P+"C79_results"],"False as stated: after the last match of the second document N goes to the first one of the first document; proved for sessions whose searches have their first match in the document of the active window; the list of results is proved for all. Where a search goes in every session, the wrong cases included, is C79_exactly_partial.")
c("C80","partial",[P+"C80_stop_false",P+"C80_stop_partial",P+"C80_exactly_partial"],"False as stated: the view goes on waiting until a key completes a command; proved: after the signal no command but the one completed by that key is executed, and the view ends with it. C80_exactly_partial: exactly the events after which it goes on waiting, and how it ends otherwise.")
c("C81","proved",[P+"C81_commands"],"For both views, searches included.")
c("C82","proved",[P+"C82_case"],"For both views, at any point of any run.")
c("C83","partial",[P+"C83_unbound_false",P+"C83_unbound_partial",P+"C83_exactly_partial"],"False as stated: Escape or another key with Control takes away the key that follows; proved for complete sequences that are no command, in both views. C83_exactly_partial: exactly the keys without a name that begins with ^ have no effect, and the others take away the one key that follows.")
c("C84","proved",[P+"C84_prompt"],"For both views.")
c("C85","proved",[P+"C85_sessions"],"For both views.")
c("C86","proved",[P+"C86_size"],"For both views; in the diff view each window has half of the columns, and two rows less.")
c("C87","partial",[P+"C87_picture_false",P+"C87_picture_partial",P+"C87_exactly_partial"],"False as stated: lines that begin to the right of the terminal are written where the cursor was; proved for all sessions in which the lines on the screen begin in a column of the terminal, on terminals of at least three columns, for all places but the last one and (with a message) the last line. A name as long as the terminal is wide colours one place of the second line. C87_exactly: wherever the lines begin and whatever bytes they have, every place shows the last of the texts written there, and where each text is written.")
c("C88","partial",[P+"C88_marks_false",P+"C88_marks_partial"],"False as stated: with --color=never results look like all other lines; proved in the situation of C87, for the results if there are colours.")
c("C89","proved",[P+"C89_message",P+"C89_message_seen"],"For all sessions; a message longer than the line is cut.")
c("C90","partial",[P+"C90_value_false",P+"C90_value_partial",P+"C90_accuracy_partial",P+"C90_infinite"],"False as stated: six decimals are printed; proved exactly for numbers with at most six decimals below 2^33, for all others in the range of doubles the error is at most half a millionth plus 2^-53 of the number; larger numbers are printed as inf.")
c("C91","partial",[P+"C91_stable_false",P+"C91_stable_partial"],"False as stated: inf is printed for numbers that are too large (and see C21); proved for all printable documents.")
c("C92","partial",[P+"C92_language_false",P+"C92_language_partial",P+"C92_exactly_partial"],"False as stated: with a decimal comma 1.5 is printed as 1,000000; proved with --ascii, and for documents without fractions. C92_exactly_partial: exactly which documents are printed alike in two languages (those all of whose fractions are inf), and what is printed for the other fractions.")
c("C93","proved",[P+"C93_order"],"For all numbers, of any length.")
c("C94","partial",[P+"C94_picture_false",P+"C94_picture_partial",P+"C94_exactly_partial"],"False as stated: a text that is pushed below its window, to be level with its counterpart, is written where the cursor was. Proved for all sessions, for windows all texts of which begin inside of them, if they are not scrolled or no text goes on in the next line, on terminals of at least 10 columns and 3 lines, for all places of a window but the last one; C94_exactly_partial: what is seen in every window, scrolled or not, all texts of which begin inside of it.")
c("C95","partial",[P+"C95_signs_false",P+"C95_signs_partial",P+"C94_exactly_partial"],"False as stated: in a scrolled window the signs are next to other lines. Proved for windows that are not scrolled, all texts of which begin inside of them; C94_exactly_partial: which sign is seen where in the others too, also when signs cover one another.")
c("C96","partial",[P+"C96_titles_false",P+"C96_titles_partial"],"False as stated: after a search message both windows may be empty. Proved whenever there is no message; and with a message, that the titles are right or both windows are entirely empty.")
c("C97","partial",[P+"C97_message_false",P+"C97_message_partial",P+"C97_exactly_partial",P+"C97_message_seen"],"False as stated: a search for what only the other document has is said to have hit the bottom. That a message is seen on the last line, as it is, is proved for all sessions; which message it is, for sessions in which the first hit of each search is in the document of the active window. Which message it is in every session, the wrong cases included, is C97_exactly_partial.")
c("C98","proved",[P+"C98_pointers"],"About the reader with its objects in memory (`Model/Heap.lean`), which is proved to have the outcomes of the reader.")
c("C99","partial",[P+"C99_memory_false",P+"C99_memory_partial",P+"C99_exactly_partial",P+"C99_errors_partial"],"False as stated: a value in the place of the brace that ends an object is never destroyed, nor is what was read before an error. For every input nothing is used or destroyed that is not there, and every element of the document is gone after the destructor; after the text of every JSON document nothing at all is left; and after any read that delivers a document, exactly the values that stand in the place of a closing brace are left, one object each (C99_exactly_partial, an equivalence); after an error or an uncaught exception, exactly the containers that were not closed with what they held, keys without values, values in wrong places, and what was lost before (C99_errors_partial). No memory is modelled after undefined behaviour.")
c("C100","partial",[P+"C100_equal_false",P+"C100_equal_partial"],"False as stated: items and values are compared as pointers, primitives by their texts. What == is exactly is proved for all elements of all documents.")
c("C101","proved",[P+"C101_first_warning"],"")
c("C102","partial",[P+"C102_no_settings_false",P+"C102_no_settings_partial",P+"C102_exactly_partial"],"False as stated: unknown escapes are accepted with a warning, and values not spelled in lower case make the program follow the null pointer. All other inputs are proved to be read as with the default settings. (A reader on which withConfig was never called reads a pointer that was not initialised: that is not modelled.) C102_exactly_partial: compared with -W, what becomes of every input: only escapes pass, the first repeated key is the error, at the first misspelled value the null pointer is followed.")
c("C103","partial",[P+"C103_prompt_false",P+"C103_prompt_partial",P+"C103_typed_partial",P+"C103_resized_partial"],"False as stated: after a change of size the prompt is not seen until the next key, and a text longer than the line is cut. Proved for both views after every key, for printable ASCII texts (cut at the width of the terminal); the cursor in the view of one document. C103_resized_partial: after a change of size, until the next key, exactly what would be seen without a prompt.")
c("C104","proved",[P+"C104_no_trace"],"Whatever text is typed (also texts that are not printable ASCII: what the C library prints of them is a parameter).")
c("C105","partial",[P+"C105_no_trace_diff_false",P+"C105_no_trace_diff_partial"],"False as stated: the frames do not cover the last column (or two) of the last line, which stays blue. Proved for all other places.")
c("C106","partial",[P+"C106_hex_false",P+"C106_no_separator_false",P+"C106_report_partial",P+"C106_exactly_partial"],"False as stated: the character named for a bad hexadecimal digit is the wrong one, and for every missing comma (in arrays) or colon there is no message at all (undefined behaviour). All the other mistakes are proved to be reported as stated, with the line, its text and the mark, for every place and whatever follows; C106_exactly_partial: with line breaks directly after numbers and booleans too, each of which adds one to the line number; only line breaks inside a \\uXXXX or the four bytes of a null are excepted.")
c("C107","proved",[P+"C107_folding"],"For every state of the view and every answer of it that is not a crash (see C75 for those).")
c("C108","proved",[P+"C108_moves",P+"C108_diff"],"For all reached states and every answer that is not a crash (see C38, C75). Left and Right in the diff view: C107.")
c("C109","proved",[P+"C109_keys"],"The command is given by its word; what each word does is the subject of C36-C46, C75-C90, C107 and C108.")
c("C110","proved",[P+"C110_up",P+"C110_to_the_root"],"After every completed drawing (all states without searches, by settled_reached); answers that are no crash (see C75).")
c("C111","partial",[P+"C111_down_false",P+"C111_down_partial",P+"C111_exactly_partial"],"False as stated: at the bottom of the window Down leaves out the open container of an entry, and it stays for ever on the last item in the value of an entry. Proved in all other cases, and that it never goes up; C111_exactly_partial: where it goes instead, everywhere.")
c("C112","partial",[P+"C112_terminal_false",P+"C112_terminal_partial"],"False as stated: a crash in a view, or while the next input is read, leaves the terminal taken. Proved for all other endings, and the order of taking, showing and giving back in every case.")
c("C113","partial",[P+"C113_reports_false",P+"C113_reports_partial"],"False as stated: while inputs are browsed one after the other, an input that cannot be read is reported on the taken terminal. Proved that this is the only case.")
c("C114","partial",[P+"C114_signals_false",P+"C114_signals_partial"],"False as stated: while inputs are browsed, signals between two views change nothing at all (proved for all of them). Proved for all other ways to run the program.")
c("C115","partial",[P+"C115_redirected_false",P+"C115_redirected_partial"],"False as stated: --diff takes the terminal in any case and crashes without one. Proved for everything else.")
c("C116","partial",[P+"C116_afresh_false",P+"C116_afresh_partial",P+"C116_unused_partial"],"False as stated: search results and folded elements of the inputs before survive as dangling addresses. Proved when nothing was folded or searched for before (whatever is done then), and, if no address is used again, whatever was done before, except that n may crash.")
c("C117","partial",[P+"C117_temporary_false",P+"C117_temporary_partial"],"False as stated: signals and crashes leave the files. Proved that a program that ends regularly has removed exactly the files it has written.")
c("C118","proved",[P+"C118_formatting"],"End to end, from the words of the command line to the bytes on standard output, composed from C02, C05, C21, C59, C90/C91 and the model of the process. The conditions on the document are the ones of C21/C59; without them the claim is false (C21_round_trip_false).")
c("C119","proved",[P+"C119_map"],"Induction on the history of calls against a specification by values kept per key (Spec/Multimap).")
c("C120","proved",[P+"C120_signs"],"From the invariants of the comparison (Lemmas/DiffSigns) and the marks of a drawing (C71).")
c("C121","partial",[P+"C121_pairs_false",P+"C121_pairs_partial"],"False as stated, for every behaviour of the library: the halves are converted one by one and the third byte of the character needs both. Proved what strings with halves of pairs are read as, item by item, and that a half refused by the library ends the parser with an uncaught exception.")
c("C122","partial",[P+"C122_help_false",P+"C122_help_partial"],"False as stated: the help names -version and --helph, which are errors, and does not name --version and --help. Proved that these four are the only differences, for every word that begins with a dash.")
c("C123","partial",[P+"C123_output_false",P+"C123_output_partial"],"False as stated: a wrong command line prints the help on standard output, and so does --diff with a wrong number of files, with status 0. Proved exactly what standard output holds for every command line and however the program ends.")
c("C124","proved",[P+"C124_silence",P+"C124_silence_converse"],"Induction on the inputs through every mode of the program; the converse too, for printing and browsing.")
c("C125","proved",[P+"C125_standard_error"],"For every command line, input and ending; the type names and the text of the end-of-file exception are parameters (Texts.Lib). Whether the line feed after a report without context is written depends on the order in which the compiler evaluates the operands of << (Texts.Lib.inOrder). The message is cut at a null byte, line and column are modulo 2^32, as operator<< prints them.")
c("C126","proved",[P+"C126_accepted_exactly"],"Soundness by induction on the recursion bound, completeness by induction on derivations in Spec/Accepted; C127 gives the other outcomes.")
c("C127","proved",[P+"C127_refused_exactly"],"Both directions for every reason; that the cases are complete and exclude each other; with C126 this determines the outcome of every input.")
c("C128","proved",[P+"C128_filter"],"Composes the exact grammar of accepted (C126) and refused (C127) texts with the layout (C23) and the program, for all signals that arrive while inputs are read.")
c("C129","proved",[P+"C129_external"],"Composes C126, C127, C23, C51 and the loop over the inputs. Arguments have no null characters, as those of a process.")
c("C130","proved",[P+"C130_browsing"],"The views are a parameter (any behaviour); Model/Browse runs the main loop for it (C116).")
c("C131","proved",[P+"C131_comparing"],"As C130; C28_exactly_partial says when two documents clash.")
c("C132","partial",[P+"C132_no_signs_false",P+"C132_no_signs_partial"],"False as stated: texts less than 30% apart count as equal. Proved: there are no signs exactly if the documents are built alike, with the same keys in the same order and primitives of the same type and nearly the same text; then each element faces the one at its own position. Texts below 16 MiB.")
c("C133","partial",[P+"C133_exchange_false",P+"C133_exchange_partial",P+"C133_exchange_unique_partial",P+"C133_exchange_edit_partial"],"False as stated: of several cheapest alignments the walk takes one that depends on the order. Proved to be independent of the order: crashes, similarity, distance, the signs of the roots, whether there are signs at all. When every two opposite containers have only one cheapest alignment of their children, comparing the other way round shows exactly the same, exchanged: counterparts and signs (C133_exchange_unique_partial). Also for every edit of Spec/Edited.lean (C139), without that condition.")
c("C134","proved",[P+"C134_signs"],"Against a table of cases (signsFor) and the costs of Spec.Facing, for every element of both documents; together with C29 (which elements face each other) this leaves only ties open.")
c("C135","proved",[P+"C135_one_alignment",P+"C135_comparison"],"Counterparts and signs of all elements as a specification of alignments says (Spec/Comparison.lean), including which of several cheapest alignments is taken. Conditions: texts below 16 MiB, sums within the cells (RoomFor), as in C29 and C134.")
c("C136","partial",[P+"C136_in_common_false",P+"C136_exactly_partial"],"False as stated, twice: two containers with as many children, any two of which cost at least 2, are marked as equal (1 - 2 is not 0 for an unsigned number), for example [[1,2]] and [5]; and 128 arrays of two against 127 numbers, where a sum wraps in a byte. C136_exactly_partial: provided the sums fit, opposite containers are marked as equal exactly if they have something in common or in the first of these cases, and as added otherwise.")
c("C137","partial",[P+"C137_inserted_partial",P+"C137_removed_partial",P+"C137_members_partial",P+"C137_appended_partial",P+"C137_cut_partial",P+"C137_inserted_false"],"False as stated: a number inserted before one that differs from it in the last digit is marked as equal and the old one as added. Proved for inserted or removed children none of which would cost nothing facing a remaining one; for members with new keys of objects with distinct keys; and for any items appended to or cut off the end of an array (in documents with short texts and sums within the limit, as in C134).")
c("C138","partial",[P+"C138_in_place_partial",P+"C138_in_place_false"],"False as stated: of [111,222,5] and [222,333,5] the comparison shows a removal and an insertion. Proved for changes (Spec/InPlace.lean) of at most one primitive item per array and of any members of objects, as long as every changed container keeps a child or has a container in it: signs and counterparts of all elements of both documents. In documents with short texts and sums within the limit, as in C134.")
c("C139","partial",[P+"C139_edit_partial",P+"C137_inserted_false",P+"C138_in_place_false"],"False as stated (C137_inserted_false, C138_in_place_false). Proved for all edits of Spec/Edited.lean: in each container either children are inserted that resemble no old one, or removed that resemble no remaining one, or any children are appended or cut off at the end, or one child is moved by two places or more (no two resembling each other), or children are changed in their places (one that is no container; or any, if no two in different places resemble each other, as members with different keys), and some child is kept; containers among the children are edited likewise, to any depth. In documents with short texts and sums within the limit, as in C134.")
c("C140","partial",[P+"C140_by_position_partial",P+"C140_records_false"],"False as stated: records with a member in common cost nothing facing each other, so the alignment is by position. Proved for any two containers that are counterparts: if each child resembles the child with the same number, exactly these face each other and what is beyond the end of the shorter one is marked as added. In documents with short texts and sums within the limit, as in C134.")
c("C141","proved",[P+"C141_local"],"From the exact comparison (C135): what is opposite is a function and compatible with the tree; definedness from C28 (what meets in the parts meets in the whole). The values of members too.")
c("C142","partial",[P+"C142_moved_partial",P+"C142_members_partial",P+"C142_neighbours_partial",P+"C142_two_partial",P+"C142_moved_false"],"False as stated for neighbours: of two members that change places nothing is marked as equal, and of two neighbours of several it is always the second that is shown as moved. Proved for moves by at least two places, down or up, of members (with different keys) and of children no two of which resemble each other; for these also exactly what is shown for neighbours (C142_neighbours_partial, C142_two_partial); inside of larger edits it is part of C139 (moved in Spec/Edited.lean). In documents with short texts and sums within the limit, as in C134.")
c("C143","partial",[P+"C143_same",P+"C143_indistinct_partial"],"A document compared with itself: in full (C143_same). Other documents that do not differ: texts below 16 MiB (C143_indistinct_partial).")
