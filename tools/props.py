#!/usr/bin/env python3
# Writes /verif/properties.jsonl. Kept in the repository so that the list can be regenerated and appended to.
import json
P=[]
def p(id,title,statement,quant,why,anchors):
    P.append(dict(id=id,title=title,statement=statement,quantifier=quant,why_tests_cant=why,anchors=anchors))
SC="src/streamConsumer.cpp"
p("C01","Reading always terminates","StreamConsumer::read() returns (a root, or no root) or fails (JsonException, other std exception, undefined behaviour) after finitely many steps on every byte stream; it never loops, and never consumes more than the stream holds.",
  "every byte string, every configuration (strict/lenient, --ascii, --keep-order, no configuration)","non-termination on one unseen input cannot be excluded by running finitely many inputs",
  [SC+":StreamConsumer::read",SC+":readNext",SC+":readObject",SC+":readArray",SC+":consumeToken"])
p("C02","Every standard JSON document is read as what it denotes","For every RFC 8259 document whose integers fit in 64 bits, that uses no exponent and no surrogate escape, and has no duplicate key in one object, strict reading succeeds without warning and getRoot() is the tree the document denotes (escapes decoded the documented way, object entries sorted or in source order as configured), wherever insignificant bytes are put between tokens.",
  "every document derivable from the grammar, unbounded nesting, unbounded lengths, every whitespace placement","infinitely many documents; tests sample a handful of shapes",
  [SC+":readObject",SC+":readArray",SC+":consumeToken",SC+":consumeString",SC+":consumeNumber"])
p("C03","Object keys are unique","In every tree that read() delivers, no object at any depth holds two entries with the same key.",
  "every input and configuration, every object in the resulting tree","quantifies over all inputs and all depths",[SC+":readObject","src/jsonObject.cpp:JSonObject::contains","src/jsonObject.cpp:JSonObject::erase"])
p("C04","Objects are sorted by key unless --keep-order","Without --keep-order the entries of every object are in strictly increasing byte order of keys; with --keep-order reading the same input gives the same tree except that entries keep their source order: the sorted tree is exactly the key-sort of the unsorted one.",
  "every input accepted","relates two runs on every input",["src/jsonObject.cpp:JSonSortedObject::push","src/jsonObjectEntry.cpp:operator<",SC+":readObject"])
p("C05","Strict mode emits no warning; -W is conservative","A strict read that succeeds leaves getMessages() empty; and any input strict mode accepts is accepted by -W with the same tree and no message.",
  "every input","two-run (hyper)property over all inputs",[SC+":consumeBool",SC+":consumeNull",SC+":consumeEscapedChar",SC+":readObject","src/params.cpp:-W"])
p("C06","Under -W the last duplicate wins and each duplicate is reported","When -W is on and an object repeats keys, the resulting object maps each key to its last value, and the number of duplicate-key warnings equals the number of repeated occurrences; in strict mode any repetition is an error.",
  "every sequence of key/value members","all member sequences of any length",[SC+":readObject","src/jsonObject.cpp:JSonObject::erase"])
p("C07","Integer tokens denote their exact value or are rejected","An integer literal is delivered as an int holding exactly its value when that fits 32 bits, as a long long holding exactly its value when it fits 64 bits, and otherwise no root is delivered: no integer is ever silently truncated or wrapped.",
  "every digit string","unbounded digit strings, boundaries at 2^31 and 2^63",[SC+":consumeNumber"])
p("C08","Text after the root container is never looked at","If reading s delivers a container and the stream is still good, reading s followed by any bytes delivers the same tree and the same warnings.",
  "every accepted container document, every continuation","all continuations",[SC+":read",SC+":readNext"])
p("C09","A truncated document is never accepted","No proper prefix of a well-formed container document is accepted (a root is never delivered for it).",
  "every document, every truncation point (crash point of the producer)","every cut position of every document",[SC+":readObject",SC+":readArray"])
p("C10","A truncated or malformed document is reported, not a crash","read() on any input ends with a root, no root, or a JsonException which the caller catches; it never runs into undefined behaviour and never lets another exception escape.",
  "every byte string","crash inputs are rare and structured",[SC+":readObject","src/jsonObjectEntry.cpp:JSonObjectEntry::JSonObjectEntry",SC+":consumeNumber","src/main.cpp:readOneFile"])
p("C11","String escapes are decoded as documented","The value of a string literal is its text with \\\\, \\\", \\/ replaced by the character, \\uXXXX replaced by UTF-8, and \\b \\f \\n \\r \\t kept as the two characters.",
  "every sequence of string items","all strings of any length",[SC+":consumeString",SC+":consumeEscapedChar"])
p("C12","\\uXXXX yields the UTF-8 of that code point","For four hex digits in either case denoting a non-surrogate scalar value the bytes appended decode, by a UTF-8 decoder, to exactly that code point; different code points give different bytes; a non-hex character among the four is rejected.",
  "all 65536 code units and all non-hex characters","exhaustive over the whole table and all continuations",["src/unicode.cpp:hexbyte","include/unicode.hpp:hexbyte",SC+":appendUnicode"])
p("C13","--ascii leaves \\u escapes as text","With --ascii a string literal with \\u escapes has as value the same text with the \\u kept verbatim, without validation.",
  "every string literal","all strings",[SC+":consumeEscapedChar","src/params.cpp:--ascii"])
p("C14","Different strings stay different","Two string literals that denote different JSON strings give different values.",
  "every pair of string literals","pairs of arbitrary strings",[SC+":consumeEscapedChar"])
p("C15","Literals true/false/null: exact in strict mode, any letter case plus a warning under -W","For every spelling of letter case of true, false and null: the exact lower-case one is read silently, any other one is an error in strict mode and is read with exactly one warning under -W.",
  "every case variant, every following byte","all spellings x all contexts",[SC+":consumeBool",SC+":consumeNull"])
p("C16","Error context is the tail of the current line","The history string shown with an error holds exactly the last (at most 45) characters appended since the last newline: the ring buffer behaves as a bounded list that keeps the last SIZE items under put, batch put, reset and pop_back.",
  "every buffer size, every sequence of operations","all operation sequences and sizes",["include/wrappedBuffer.hpp:WrappedBuffer","src/linearHistory.cpp:LinearHistory::put"])
p("C17","Reported line number is right","currentLine() of an error is one plus the number of line breaks read before the error.",
  "every input with an error","all positions of line breaks relative to tokens",["src/linearHistory.cpp:LinearHistory::put",SC+":consumeNumber",SC+":consumeBool"])
p("C18","Reported column is right","currentCol() of an error is the number of characters appended since the start of the current line.",
  "every input with an error, every initial memory content","depends on uninitialised memory",["include/wrappedBuffer.hpp:WrappedBuffer::WrappedBuffer","src/jsonException.cpp:currentCol"])
p("C19","The error reporter itself never fails","Whenever a JsonException is raised, displaying it works: the history shown is non-empty (so the underline string has a valid length) and the message is well defined.",
  "every failing input","all failing inputs",["src/main.cpp:displayException","src/jsonException.cpp"])
p("C20","History recording stays in bounds","Recording the bytes of a token in the history never reads outside the buffer holding them.",
  "every token","newlines at any place in the batch",["src/linearHistory.cpp:LinearHistory::put(char[],unsigned)",SC+":consumeEscapedChar",SC+":consumeNull"])
p("C21","Redirected output reads back as the same document","Reading the redirected output of a document (pretty or --compress) delivers the same document.",
  "every tree, both layouts","all trees",["src/simpleOutput.cpp:SimpleOutput::display",SC+":read"])
p("C22","--compress only removes layout","The --compress output is the pretty output with the indentation and line ends removed, nothing else.",
  "every tree","all trees",["src/simpleOutput.cpp:SimpleOutput::write","src/simpleOutput.cpp:getIndent"])
p("C23","Pretty output is one token group per line, indented by depth","Pretty output is a sequence of lines, each one the indentation of 4 spaces per depth followed by exactly one element or bracket; brackets are balanced.",
  "every tree","all trees and depths",["src/simpleOutput.cpp:writeContainer","src/simpleOutput.cpp:writeObjectEntry","src/simpleOutput.cpp:writePrimitive"])
p("C24","levenshtein() is the edit distance","levenshtein(a,b) is the length of a shortest sequence of single-character insertions, deletions and substitutions turning a into b.",
  "every pair of strings","optimality over all edit scripts",["src/levenshtein.cpp:levenshtein"])
p("C25","levenshtein() is a metric","levenshtein is zero exactly on equal strings, symmetric, satisfies the triangle inequality, is at least the length difference and at most the longer length.",
  "every pair / triple of strings","all triples",["src/levenshtein.cpp:levenshtein"])
p("C26","levenshteinPercent is a similarity in [0,1]","levenshteinPercent is between 0 and 1, is 1 exactly on equal strings, is symmetric, and passes the 0.7 threshold exactly when the distance is less than 30% of the longer length.",
  "every pair of strings","all pairs",["src/levenshtein.cpp:levenshteinPercent","include/levenshtein.hpp:LEVENSHTEIN_SENSIBILITY"])
p("C27","A document compared with itself shows no difference","--diff of two identical documents marks every element equal and pairs every element with its counterpart.",
  "every document","all documents",["include/levenshteinMatrice.hpp:LevenshteinMatrice::build","src/levenshtein.cpp:Builder::build"])
p("C28","--diff never crashes","Comparing any two documents ends with a difference table; no undefined behaviour.",
  "every pair of documents","all pairs",["include/levenshteinMatrice.hpp:LevenshteinMatrice::build","include/levenshteinMatrice.hpp:shortestPath"])
p("C29","The alignment of children is optimal","For two containers whose alignment costs fit the cell type, the reported distance is the least total cost over all order-preserving alignments of their children: a child left alone costs 1, two children facing each other 0 or 1 for primitives (by the similarity of their texts), what their values cost for entries with the same key, 1 for other entries, one more than the number of children for a container facing something else, and for two containers the distance of these, or 0 if they are similar.",
  "every pair of containers","optimality over all alignments",["include/levenshteinMatrice.hpp:LevenshteinMatrice::build"])
p("C30","Paired children never cross","The pairs among the children of two compared containers form an order-preserving one-to-one partial matching.",
  "every pair of containers","all pairs",["include/levenshteinMatrice.hpp:shortestPath","src/levenshtein.cpp:LevenshteinMatrice::getEquivalence"])
p("C31","Elements marked equal are equal","An element marked '=' in the difference table has the same content as its counterpart.",
  "every pair of documents","all pairs",["include/levenshteinMatrice.hpp:addRoot","src/levenshtein.cpp:LevenshteinMatriceWithScore"])
p("C32","Search finds exactly the elements whose text contains the pattern","For a pattern without flags or with i/f flags an element matches iff its text contains the pattern (i: up to ASCII case; f: is the pattern), and with a type flag iff additionally it has that type.",
  "every pattern, text, flag set","all texts and patterns",["src/searchPattern.cpp:SearchPattern::match","src/searchPattern.cpp:SearchPattern"])
p("C33","Whole-word search finds whole words","With the w flag an element matches iff the pattern occurs in it delimited by blanks or the ends of the text.",
  "every pattern and text","all texts",["src/searchPattern.cpp:SearchPattern::match"])
p("C34","The search line is parsed as PATTERN[/FLAGS]","The pattern is the text up to the first unescaped slash, leading blanks dropped, with \\/ standing for a slash; everything after is flags; without flags no flag is set.",
  "every input line","all lines",["src/searchPattern.cpp:SearchPattern::SearchPattern","src/searchPattern.cpp:evalFlags"])
p("C35","Search collects every match, once, in document order","The result list of a search is exactly the displayed items (array items and object entries) whose text, key or value matches, in document order, and the returned count is its length.",
  "every document and pattern","all documents",["src/curseSimpleOutput.cpp:search"])
p("C36","Pressing N visits the results cyclically","Each N moves to the next result after the selection in document order and wraps to the first; so from any result, repeating N visits all distinct results and returns.",
  "every document, result list, number of presses","all histories of presses",["src/curseSimpleOutput.cpp:jumpToNextSearch"])
p("C37","A search hit is always revealed","After jumping to a result none of its ancestors is collapsed.",
  "every document, every collapsed set","all states",["src/curseOutput.cpp:unfold","src/curseSimpleOutput.cpp:jumpToNextSearch"])
p("C38","The selection always is an element of the document","After any sequence of keys, resizes and redraws the selection is a displayable element of the document (never null or dangling).",
  "every document, screen size, key sequence","all histories",["src/curseSimpleOutput.cpp"])
p("C39","Drawing terminates","The redraw-until-done loop terminates for every document, collapsed set, scroll position and screen size.",
  "every state","all states",["src/curseOutput.cpp:loop","src/curseSimpleOutput.cpp:redraw"])
p("C40","The selected line is on screen after drawing","When drawing is done and the selection is not inside a collapsed element, the first line of the selection lies within the screen below the title line (on a screen with at least one line below the title).",
  "every state","all states",["src/curseSimpleOutput.cpp:redraw","src/curseSimpleOutput.cpp:checkSelection","src/curseOutput.cpp:hasReachedBottom"])
p("C41","Down/Up walk the visible items","Up selects the previous visible item. Down selects the next one when its first line is on the screen, and otherwise scrolls and keeps the selection. At the two ends they change nothing.",
  "every document, collapsed set, selection","all states",["src/curseSimpleOutput.cpp:selectDown","src/curseSimpleOutput.cpp:selectUp","src/curseSimpleOutput.cpp:checkSelection"])
p("C42","Collapse and expand are inverse","Collapsing a selected non-empty container hides exactly its descendants and expanding it restores the collapsed set.",
  "every state","all states",["src/curseSimpleOutput.cpp:collapseSelection","src/curseSimpleOutput.cpp:expandSelection"])
p("C43","Page-down goes to the next item that is not a descendant","findNext() is the first element after the whole subtree of the element in document order, none at the end; findPrev() is the previous sibling and inverts it between siblings.",
  "every document and element","all trees",["src/jsonElement.cpp:findNext","src/jsonElement.cpp:findPrev","src/curseSimpleOutput.cpp:selectPDown"])
p("C44","The active window index stays valid","In diff view, after any sequence of window changes the active window is one of the inputs; cycling nbInputs times returns to the start.",
  "every number of inputs and sequence of moves","all sequences",["src/curseSplitOutput.cpp:changeWindow"])
p("C45","Both selections correspond in diff view","After any key in diff view the active window has a selection, and the other window's selection is its counterpart, or none when it has none.",
  "every history of keys","all histories",["src/curseSplitOutput.cpp:setSelection","src/curseSplitOutput.cpp:changeWindow"])
p("C46","Options are recognised as documented and independent of order","Before '--' each option sets exactly its own setting, the result does not depend on the order of flag options, an unknown option is an error.",
  "every argument list","all argument lists",["src/params.cpp:Params::read"])
p("C47","'-- INPUT' is the remaining arguments joined by blanks","Everything after '--' becomes one input named ARGS whose text is the remaining arguments joined by single spaces; nothing after it is taken as an option.",
  "every argument list","all argument lists",["src/params.cpp:Params::read"])
p("C48","--diff-cmd takes the arguments up to ';'","The command is exactly the arguments between --diff-cmd and the next ';', later arguments are treated as usual, a second --diff-cmd is an error.",
  "every argument list","all argument lists",["src/params.cpp:Params::read","src/diffCmd.cpp:add"])
p("C49","Inputs keep command-line order and are distinct","getInputs() lists the named files in command-line order without repetition; a repeated file is an error; --diff demands two or three inputs; without input it is STDIN.",
  "every argument list","all argument lists",["src/params.cpp:Params::read","src/params.cpp:getInputs","include/fifoMap.hpp"])
p("C50","fifoMap is an insertion-ordered map","Under any sequence of writes the map returns for each key the last value written, lists keys in order of first insertion, and holds each key once.",
  "every sequence of operations","all sequences",["include/fifoMap.hpp"])
p("C51","'{}' expands to the input files","computeArgv is the command with each '{}' replaced by all the file names in order, null-terminated, written entirely inside its allocation; later calls return the same vector.",
  "every command and file list","all lists",["src/diffCmd.cpp:computeArgv"])
p("C52","Different inputs get different temporary files","In external diff, two inputs with different names are written to different temporary files.",
  "every pair of names","hash collisions",["src/main.cpp:getOutputFile","src/diffCmd.cpp:hashString"])
p("C53","Redirected output of several inputs is their concatenation up to the first failure","Standard output is the concatenation, in order, of the outputs of the inputs before the first one that fails, and nothing of the failing one or later ones.",
  "every list of inputs","all lists",["src/main.cpp:runStdout","src/main.cpp:readOneFile"])
p("C54","Failure is visible in the exit status","The program exits with non-zero status when an input could not be read.",
  "every run","all runs",["src/main.cpp:main"])
p("C55","Searching for \\uXXXX looks for the character","extractUnicode replaces each \\uXXXX of the search text by that character and keeps everything else, inside the buffer.",
  "every search text","all texts",[SC+":extractUnicode","src/curseOutput.cpp:inputSearch"])
p("C56","Display flags are independent","Setting one display flag (selected, searched, type, diff operation) and reading any of them gives the last value set for that flag.",
  "every sequence of settings","all sequences",["src/outputFlag.cpp"])
p("C57","Line counting is the ceiling","getNbLines(n,w) is the number of screen lines of width w needed for n columns.",
  "all n, w","all pairs",["src/curseOutput.cpp:getNbLines"])
p("C58","Unknown escapes are kept as text and reported under -W","A backslash followed by a byte that starts no known escape is an error in strict mode; under -W both bytes are kept in the value and exactly one warning is added, at any place in a string.",
  "every string literal and every byte","all strings",[SC+":consumeString"])
p("C59","The redirected output is standard JSON","Whatever is printed for a document (pretty or compact) is a JSON text in the sense of RFC 8259 (no leading zeros, no raw control characters, only the four blanks between tokens) that denotes the document.",
  "every document, both output modes","all documents",["src/simpleOutput.cpp:SimpleOutput::write","src/jsonPrimitive.cpp:stringify"])
p("C60","The search prompt looks for what was typed","After typing and deleting, Enter looks for exactly the line left, Escape cancels, and no line typed ends the program.",
  "every sequence of keys","all key sequences",["src/curseOutput.cpp:inputSearch","src/searchPattern.cpp:SearchPattern"])
p("C61","Measuring a text stays inside its buffer","lazystrlen() is the number of characters of the displayed text and writes only inside its buffer.",
  "every text","all texts, memory safety",["src/jsonElement.cpp:lazystrlen"])
p("C62","The screen is a window on the outline of the document","After drawing, the lines of the screen are consecutive lines of the outline of the document (indentation, key, value, brackets, collapsed summary), starting at the scroll position and filling the screen, with exactly the selected item highlighted and exactly the search results marked.",
  "every document, collapsed set, search, selection and screen","all states",["src/curseSimpleOutput.cpp:redraw","src/curseOutput.cpp:write"])
p("C63","Down gets everywhere","Pressing Down repeatedly reaches the next visible item, however far below the screen it is.",
  "every document, screen and selection","all histories",["src/curseSimpleOutput.cpp:selectDown"])
p("C64","Right goes into an open container","Right on a container that is neither empty nor collapsed selects its first item.",
  "every state","all states",["src/curseSimpleOutput.cpp:expandSelection"])
p("C65","The program ends when the external command ends","With --diff-cmd the program waits for the command, and ends when the command has ended, however it ends.",
  "every command, input and end of the command","all schedules and ends of the child process",["src/main.cpp:doRunExternalDiff","src/main.cpp:getOutputFile"])
p("C66","The external command compares the prettified inputs","The command gets one file per input, each holding what the program prints for that input; no command is run when an input cannot be read; the files are removed afterwards.",
  "every command and list of inputs","all lists, names and contents",["src/main.cpp:doRunExternalDiff","src/main.cpp:runExternalDiff","src/main.cpp:getOutputFile"])
p("C67","--diff shows two or three inputs side by side","With --diff and two or three inputs that can be read, the documents are shown side by side; when an input cannot be read nothing is shown.",
  "every list of inputs","all documents",["src/main.cpp:runDiff","src/curseSplitOutput.cpp:computeDiff"])
p("C68","Inputs are browsed one after the other","On a terminal each input is shown in turn, in order, up to the first one that cannot be read; nothing is written to standard output.",
  "every list of inputs","all lists",["src/main.cpp:run"])
p("C69","Errors and warnings are reported with the name of their input","Standard error has one report for each warning about an input that was read and one for the input that could not be read, each with the name of the input.",
  "every list of inputs","all lists",["src/main.cpp:readOneFile","src/main.cpp:displayException"])
p("C70","The diff view always answers","In the diff view the first drawing and the handling of every key or change of the terminal size terminate, for all documents, terminal sizes and states.",
  "every pair of documents, terminal size, state and input","nested loops over two documents whose drawing restarts with another scroll position",["src/curseSplitOutput.cpp:redraw","src/curseOutput.cpp:loop"])
p("C74","Counterparts are folded together","In the diff view two corresponding containers are, after any sequence of keys, both collapsed or both open.",
  "every pair of documents and history of keys","all histories",["src/curseSplitOutput.cpp:collapseSelection","src/curseSplitOutput.cpp:expandSelection","src/curseOutput.cpp:unfold"])
p("C75","No key crashes the diff view","In the diff view no sequence of keys and changes of the terminal size makes the program dereference a null pointer.",
  "every pair of documents, terminal size and history of inputs","all histories",["src/curseSplitOutput.cpp:redrawOneItemToWorkingWin","src/curseSplitOutput.cpp:selectDown"])
p("C76","A window selects in its own document","In the diff view the selection of a window is, after any sequence of keys, an element of the document that window shows.",
  "every pair of documents and history of keys","all histories",["src/curseSplitOutput.cpp:search","src/curseSplitOutput.cpp:setSelection"])
p("C77","Each window of the diff view shows a stretch of its document","After any sequence of keys and changes of the terminal size, each window of the diff view shows a contiguous stretch of the outline of its document: the right texts in the right columns, in order, nothing left out or repeated, no line over another; it is scrolled past no more lines than its scroll position says, and ends before the end of the document only where the window ends.",
  "every pair of documents, size of the terminal and history of inputs","all documents, histories and sizes",["src/curseSplitOutput.cpp:redraw","src/curseSplitOutput.cpp:writeKey","src/curseSplitOutput.cpp:write"])
p("C78","The diff view highlights the selection and the search results","After any sequence of keys, exactly the lines of the selected element (or of the value of the selected entry) are highlighted as the selection, and exactly those of the search results of the active window as results.",
  "every pair of documents, history of inputs and line on the screen","all histories",["src/curseSplitOutput.cpp:getFlag"])
p("C71","The marks of the diff view stand next to what they mark","After any sequence of keys, next to every line of an element that was added, removed or modified stands the mark saying so, and every other mark stands next to an empty line left for an element of the other document.",
  "every pair of documents, history of inputs and terminal size","all histories",["src/curseSplitOutput.cpp:displayDiffOp","src/curseSplitOutput.cpp:redrawCurrent"])
p("C72","Counterparts face each other in the diff view","In the diff view, after any sequence of keys, the lines of an element and of its counterpart in the other document, its opening and closing brackets included, are in the same row and in the same column of the two windows.",
  "every pair of documents, history of inputs and terminal size","all histories and documents",["src/curseSplitOutput.cpp:redraw","src/curseSplitOutput.cpp:redrawCurrent"])
p("C73","The selected line of the diff view is on the screen","After any sequence of keys the line of the selected element of the active window is visible in it.",
  "every pair of documents, history of inputs and terminal size","all histories",["src/curseSplitOutput.cpp:redraw","src/curseSplitOutput.cpp:checkSelection"])
p("C79","N goes to the next result in the diff view","In the diff view, / and a pattern, and N, select the next match after the selection in the document of the active window (the first one if there is none), and open the containers around it; the results are the matching items of the two documents in document order.",
  "every pair of documents, pattern and history of inputs","all histories and documents",["src/curseSplitOutput.cpp:jumpToNextSearch","src/curseSplitOutput.cpp:search","src/curseOutput.cpp:unfold"])
p("C80","A termination signal ends the interactive view","When SIGINT or SIGTERM arrives while the interactive view waits for a key, the view ends, without further input.",
  "every state of the view and everything that may happen after the signal","all histories of events after the signal",["src/curseOutput.cpp:onsig","src/curseOutput.cpp:readInput","src/inputSequence.cpp:read"])
p("C81","Commands are executed once each, in the order of the keys","Whatever keys are typed, and however slowly, each command (a key, or keys with Control followed by a key) is executed exactly once, in the order of the keys, until one ends the view.",
  "every sequence of keys, with timeouts anywhere in between","all sequences and timings",["src/inputSequence.cpp:read","src/curseOutput.cpp:readInput","src/curseOutput.cpp:loop"])
p("C82","Letters and capitals are the same command","Outside of the prompt, typing a letter instead of its capital makes no difference, at any point of any session.",
  "every session, every point of it and every letter","all sessions",["src/inputSequence.cpp:read"])
p("C83","Keys that are no commands do nothing","A key that is not bound to a command has no effect, neither on what is shown nor on the keys that follow.",
  "every key, state and continuation","all states and sequences of keys",["src/inputSequence.cpp:read","src/curseSimpleOutput.cpp:evalKey","src/curseSplitOutput.cpp:evalKey"])
p("C84","The prompt takes keys as text","After / every key but Enter, Escape and Backspace is a letter of the text searched for, Backspace takes away the last one, no key is a command; Enter searches for the text and Escape leaves without a search.",
  "every sequence of keys, with timeouts anywhere in between","all sequences and timings",["src/curseOutput.cpp:inputString","src/curseOutput.cpp:inputSearch"])
p("C85","Every run of raw events is a session","Whatever keys, timeouts, signals and changes of the terminal size happen, in any order, the view is in a state reached by a sequence of complete commands and changes of size: what holds after all such sequences holds at every moment the program waits.",
  "every sequence of raw events","all interleavings",["src/curseOutput.cpp:loop","src/curseOutput.cpp:onsig","src/inputSequence.cpp:read"])
p("C86","The screen is drawn for the current size of the terminal","Whenever the program waits, after any keys, signals and changes of the terminal size, the documents were last drawn for the size the terminal has now.",
  "every sequence of raw events","all interleavings",["src/curseOutput.cpp:onsig","src/curseSimpleOutput.cpp:getScreenSize","src/curseSplitOutput.cpp:getScreenSize"])
p("C87","What is seen on the terminal is the document","Browsing a document, whenever the program waits for a key: the first line of the terminal shows the name of the input; below it each line of the display that is on the screen is seen with all its characters, one after the other from its column on, keys and strings in cyan, numbers in green, true, false and null in red, results of the search in white on blue, the selection in reverse video; on all other places there is nothing.",
  "every document of printable ASCII characters, size of the terminal, history of inputs and place of the terminal","all documents, sizes and histories",["src/curseSimpleOutput.cpp:redraw","src/curseSimpleOutput.cpp:write","src/curseSimpleOutput.cpp:writeKey","src/curseSimpleOutput.cpp:getFlag","src/curseOutput.cpp:writeTopLine","src/curseOutput.cpp:init"])
p("C88","Selection and results can be told from what is seen","Browsing a document, whenever the program waits for a key, the places of the terminal in reverse video are exactly those of the lines of the selection, and the lines that are results of the search can be told from the others by their colours.",
  "every document of printable ASCII characters, size of the terminal, choice of --color, history of inputs and place of the terminal","all documents, sizes and histories",["src/curseSimpleOutput.cpp:getFlag","src/curseSimpleOutput.cpp:write","src/curseOutput.cpp:init"])
p("C89","The messages about a search are seen","Browsing a document: after / and a pattern, or N, the last line of the terminal shows the message that nothing was found if there is no match, that the search went on at the top if there is none after the selection, and no message otherwise; a message is white on red, and stays until the screen is drawn again.",
  "every document, pattern, size of the terminal and history of inputs","all documents, sizes and histories",["src/curseOutput.cpp:redraw","src/curseOutput.cpp:writeBottomLine","src/curseSimpleOutput.cpp:nextResult","src/curseSimpleOutput.cpp:jumpToNextSearch"])
p("C90","Numbers with a fraction keep their value","What is printed for a number with a decimal point is a number with the same value.",
  "every number with a decimal point, of any length","infinitely many numbers; rounding errors show for few of them",["src/streamConsumer.cpp:consumeNumber","src/jsonPrimitive.cpp:toString","src/simpleOutput.cpp:writePrimitive"])
p("C91","Formatting what was formatted changes nothing","The redirected output can be read again, and what is then printed is the same, byte for byte.",
  "every document","all documents; numbers of any length",["src/simpleOutput.cpp:display","src/streamConsumer.cpp:consumeNumber","src/jsonPrimitive.cpp:toString"])
p("C92","The output does not depend on the language settings","The same command line and inputs give the same output whatever the language settings of the user (LANG, LC_ALL, LC_NUMERIC) are.",
  "every command line, inputs and language settings","all inputs and languages",["src/main.cpp:main","src/streamConsumer.cpp:consumeNumber","src/jsonPrimitive.cpp:toString"])
p("C93","Numbers are printed in the order of their values","Of two numbers with a decimal point, both printed as numbers, the smaller one is never printed as a larger number than the other one.",
  "every two numbers with a decimal point","all pairs of numbers",["src/streamConsumer.cpp:consumeNumber","src/jsonPrimitive.cpp:toString"])
p("C94","What is seen of the diff view is the two documents","Comparing two files, whenever the program waits for a key and shows no message: in each window, below its title, each line of the outline of its document that is on the screen is seen with all its characters, one after the other from its place on, in the colours of its kind, results of the search in white on blue, the selection in reverse video; where there is neither a text nor the sign of a difference there is nothing.",
  "every two documents of printable ASCII characters, size of the terminal, history of inputs and place of the terminal","all documents, sizes and histories",["src/curseSplitOutput.cpp:redraw","src/curseSplitOutput.cpp:write","src/curseSplitOutput.cpp:writeKey","src/curseSplitOutput.cpp:writeTopLine","src/curseSplitOutput.cpp:displayDiffOp"])
p("C95","The signs of differences are seen next to what differs","Comparing two files, whenever the program waits for a key and shows no message: at the left of each line of something that was added, removed or changed the sign for that (++, --, !!) is seen, in its colour, and no sign is seen next to something that is the same in both documents.",
  "every two documents of printable ASCII characters, size of the terminal and history of inputs","all documents, sizes and histories",["src/curseSplitOutput.cpp:displayDiffOp","src/curseSplitOutput.cpp:redraw"])
p("C96","The names of the files and the active window are always seen","Comparing two files, whenever the program waits for a key, each window shows the name of its file in its first line, in other colours in the active window than in the other one.",
  "every two documents, size of the terminal and history of inputs","all documents, sizes and histories",["src/curseSplitOutput.cpp:writeTopLine","src/curseSplitOutput.cpp:redraw"])
p("C97","The messages about a search are seen in the diff view","Comparing two files: after / and a pattern, or N, the last line of the terminal shows, in white on red, that nothing was found if nothing in the document of the active window matches, that the search went on at the top if there is no match after the selection, and no message otherwise.",
  "every two documents, pattern, size of the terminal and history of inputs","all documents, sizes and histories",["src/curseSplitOutput.cpp:nextResult","src/curseSplitOutput.cpp:jumpToNextSearch","src/curseOutput.cpp:redraw","src/curseSplitOutput.cpp:writeBottomLine"])
p("C98","Elements know where they are","After a document was read, its root has no parent, every other element (entries of objects are elements) has as parent exactly the element it is directly in, no element is shared between two places, getLevel() is the depth, and findPrev()/findNext(), which only follow pointers, give the elements at the places next to it.",
  "every input that is read as a document, every configuration and every element of the document","all documents of any depth and width",["src/jsonElement.cpp:setParent","src/jsonElement.cpp:getLevel","src/jsonElement.cpp:findPrev","src/jsonElement.cpp:findNext","src/streamConsumer.cpp:readArray","src/streamConsumer.cpp:readObject","src/jsonObjectEntry.cpp:JSonObjectEntry"])
p("C99","Reading frees what it makes, once","Reading any input uses and destroys no object that was already destroyed; once the StreamConsumer is destroyed, every object made while reading was destroyed, whatever the input was.",
  "every input and configuration","all inputs; leaks and double frees show only on some",["src/streamConsumer.cpp:readObject","src/streamConsumer.cpp:readArray","src/streamConsumer.cpp:~StreamConsumer","src/jsonObject.cpp:erase","src/jsonObject.cpp:~JSonObject","src/jsonArray.cpp:~JSonArray","src/jsonObjectEntry.cpp:~JSonObjectEntry"])
p("C100","Equal elements are those with the same contents","== on two elements of a document is true exactly if they have the same contents: arrays with equal items in the same order, objects with equal entries, equal primitives of the same type.",
  "every document that is read and every two of its elements","all documents",["src/jsonContainer.cpp:operator==","src/jsonObjectEntry.cpp:operator==","src/jsonElement.cpp:operator=="])
p("C101","Strict mode stops at the first thing -W warns about","For every input: if -W reads it without a warning, strict mode gives the same result and stops at the same place; if -W reads it with warnings, strict mode refuses it and its error is exactly the first of these warnings (kind, line, column, context); if strict mode fails with an error of another kind, -W fails with the same one.",
  "every byte string, every combination of the other settings","the relation between two runs on each of infinitely many inputs",
  [SC+":readObject",SC+":consumeString",SC+":consumeBool",SC+":consumeNull","src/main.cpp:readOneFile"])
p("C102","A reader with null settings reads as with the default ones","StreamConsumer accepts a null pointer as settings (withConfig(nullptr)); then every input is read exactly as with the default settings: strict, objects sorted, escapes decoded.",
  "every byte string","the relation between two runs on each of infinitely many inputs",
  [SC+":withConfig",SC+":readObject",SC+":consumeString",SC+":consumeBool",SC+":consumeNull"])
p("C103","The prompt shows what is typed","While the search prompt is open, the last line of the terminal shows `/` and the text typed so far (letters taken away with Backspace are gone), in the search colours, with the cursor behind it; in the view of one document and in the diff view.",
  "every session, every sequence of keys, timeouts, signals and changes of size while the prompt is open","the prompt can be opened in infinitely many states and left open over any interleaving of events",
  ["src/curseOutput.cpp:inputSearch","src/curseOutput.cpp:writeBottomLine","src/curseSplitOutput.cpp:writeBottomLine"])
p("C104","The prompt leaves no trace on the document","In the view of one document, opening the search prompt, typing and leaving it (with Enter or Escape) changes nothing else than what the search itself changes: whenever no prompt is open the terminal shows exactly what it would show had the prompt never been written; while it is open all lines but the last one are those of the document.",
  "every sequence of events, every document, every size","compares two programs over every interleaving of keys, timeouts, signals and changes of size",
  ["src/curseOutput.cpp:inputSearch","src/curseOutput.cpp:onsig","src/curseSimpleOutput.cpp:initSearch","src/curseSimpleOutput.cpp:redraw"])
p("C105","The prompt leaves no trace on the diff view","The same for the diff view: whenever no prompt is open, every place of the terminal shows what it would show had the prompt never been written.",
  "every sequence of events, every pair of documents, every size","compares two programs over every interleaving of keys, timeouts, signals and changes of size",
  ["src/curseSplitOutput.cpp:writeBottomLine","src/curseSplitOutput.cpp:initSearch","src/curseSplitOutput.cpp:redraw","src/curseSplitOutput.cpp:onResizeHandler"])
p("C106","An error report names the mistake and points at it","Whenever a text is right up to some place, in any nesting of arrays and objects, and wrong there (a character no value begins with, a misspelt true, false or null, a \\u without four hexadecimal digits, a separator where a value or key belongs, a value that is no string for a key, a repeated key in strict mode, a missing comma or colon), the program reports an error that says what is wrong there, and shows the line with the mark under the last character of the mistake and the line number; what follows the mistake does not matter.",
  "every text that is right up to a place, every mistake of these kinds, whatever follows, all settings","infinitely many beginnings, nestings, mistakes and continuations",
  [SC+":readObject",SC+":readArray",SC+":consumeString",SC+":consumeBool",SC+":consumeNull","src/jsonException.cpp:JsonHexvalueException","src/jsonException.cpp:JsonUnexpectedException","src/main.cpp:displayException"])
p("C107","Left and Right fold and unfold in the diff view","In the diff view Left on an item that stands for an open container with something in it (itself, or the value of the entry), or on the root, collapses this container and its counterpart and nothing else: on both sides exactly what is inside them is no longer shown, the selection stays; on any other item it selects the item around. Right on a collapsed container opens it and its counterpart and nothing else, on an open one it does what Down does, on anything else nothing.",
  "all documents, comparisons, states, sets of collapsed containers, selections and screen sizes","infinitely many documents, nestings, counterparts and histories of folding",
  ["src/curseSplitOutput.cpp:expandSelection","src/curseSplitOutput.cpp:collapseSelection","src/curseSplitOutput.cpp:setSelection","src/levenshtein.cpp:getEquivalence"])
p("C108","Page Up, Page Down, Left and Right follow the structure of the document","Page Up selects the previous element of the same container, on the first one the item around (the entry, if the container is the value of one), and does nothing on the root. Page Down selects the first element after the selected one and all that is inside it, as far as the value of the entry around reaches; at the end of that it does nothing. Left on what cannot be folded selects the item around, Right on what cannot be unfolded does nothing. None of this folds or unfolds anything. In the diff view the other window follows.",
  "all documents, selections, sets of collapsed containers and histories, in both views","infinitely many documents and histories",
  ["src/curseSimpleOutput.cpp:selectPUp","src/curseSimpleOutput.cpp:selectPDown","src/curseSimpleOutput.cpp:collapseSelection","src/curseSimpleOutput.cpp:expandSelection","src/curseSplitOutput.cpp:selectPUp","src/curseSplitOutput.cpp:selectPDown","src/jsonElement.cpp:findNext","src/jsonElement.cpp:findPrev"])
p("C109","Each key is its command","Typed with any pauses while no other key is pending, each key of the table (q Q: end; k K Up; j J Down; Page Up; Page Down; l L Right; h H Left; n N: next result; Control-W then w W: the other window; Control-W then l L Right: the right window; Control-W then h H Left: the left window) is one command, the same whichever of its keys is typed, in the single view and in the diff view, from every state. q ends the view.","all keys of the table, all pauses between and around them, all states of both views, all terminals","the state and the pauses are unbounded",["src/inputSequence.cpp:read","src/curseOutput.cpp:readInput","src/curseOutput.cpp:evalKey"])
p("C110","Up walks the displayed items of the diff view","In the diff view, with a displayed item selected, Up selects the displayed item before it in the active window, whatever is folded, scrolled or wider than the window, and the first item stays; the other window follows, nothing is folded or unfolded. Pressed often enough it leads through all items before to the root.","all documents and comparisons, all states reached and completely drawn, all screen sizes, all displayed selections, any number of presses","infinitely many documents, foldings, scroll positions and histories",["src/curseSplitOutput.cpp:selectUp","src/curseSplitOutput.cpp:checkSelection","src/curseSplitOutput.cpp:redrawOneItemToWorkingWin","src/curseSplitOutput.cpp:setSelection"])
p("C111","Down walks the displayed items of the diff view","In the diff view, with a displayed item selected, Down selects the next displayed item of the active window, so that every item is reached; on the last one it does nothing. The other window follows, nothing is folded or unfolded.","all documents and comparisons, all states reached and completely drawn, all screen sizes, all displayed selections","infinitely many documents, foldings, scroll positions and histories",["src/curseSplitOutput.cpp:selectDown","src/curseSplitOutput.cpp:checkSelection","src/curseSplitOutput.cpp:redrawOneItemToWorkingWin","src/jsonElement.cpp:findNext"])
p("C112","The terminal is given back","Whatever the command line, the inputs, the signals and the keys: the terminal is taken only when it is free and given back only when it is taken, documents are shown only while it is taken, and when the program has ended, however it ended, it is free.","all command lines, file systems, signals and sessions","the ways through the program are unbounded",["src/curseOutput.cpp:init","src/curseOutput.cpp:shutdown","src/curseSimpleOutput.cpp:~CurseSimpleOutput","src/curseSplitOutput.cpp:~CurseSplitOutput","src/main.cpp:run","src/main.cpp:runDiff"])
p("C113","Reports are made where they can be read","Every error and every warning is reported while the terminal is free, so that it is not lost with the screen of a view.","all command lines, inputs, signals and sessions, all reports","the ways through the program are unbounded",["src/main.cpp:readOneFile","src/main.cpp:run","src/main.cpp:displayError","src/curseOutput.cpp:shutdown"])
p("C114","A signal ends the program","A termination signal that arrives while an input is read ends the program: nothing more is reported, shown, printed or run.","all command lines, all inputs, all moments at which an input is read","the number of inputs and the moments are unbounded",["src/curseOutput.cpp:onsig","src/curseOutput.cpp:init","src/curseOutput.cpp:loop","src/main.cpp:run","src/main.cpp:runStdout"])
p("C115","Redirected output is the documents","When standard output is not a terminal the documents of the inputs, up to the first that cannot be read, are printed, in order, and the terminal is not touched, whether there is one or not.","all command lines, all inputs","infinitely many inputs",["src/main.cpp:main","src/main.cpp:runStdout","src/main.cpp:runDiff","src/curseOutput.cpp:init"])
p("C116","Each input is browsed afresh","When inputs are browsed one after the other, each is shown and answers the keys exactly as if it were the only one, whatever was done in the views before.","all lists of documents, all events in all views","the histories before are unbounded",["src/curseSimpleOutput.cpp:run","src/main.cpp:run","src/curseSimpleOutput.cpp:jumpToNextSearch"])
p("C117","Temporary files do not outlive the program","Each temporary file written for an external comparison has been removed when the program has ended, however it ended, and no other file is removed.","all command lines, inputs, signals, results of the external command","the ways through the program are unbounded",["src/main.cpp:runExternalDiff","src/main.cpp:doRunExternalDiff"])
p("C118","The program is a formatter","A standard text, given as a file, on standard input or on the command line, with the output redirected, whose document can be printed (distinct keys, integers of 64 bits, fractional numbers in the range of doubles, no strings as values of entries, no characters in strings and keys that need an escape), is answered by one text on standard output, no report, and exit status 0; that text is standard JSON with the same value (fractional numbers with six decimals). Formatting it again, compressed or not, in any of the three ways, writes the same bytes as formatting the first text would.","all such documents and layouts, all lists of options but --diff and --diff-cmd, all surroundings","infinitely many documents, layouts and option lists",["src/main.cpp:main","src/main.cpp:runStdout","src/params.cpp:read","src/streamConsumer.cpp:read","src/simpleOutput.cpp:display"])
p("C119","An object is a map","After any history of push() and erase() on an object: get(key), contains(key) and the answer of erase(key) agree with the values pushed and not erased; the object that keeps the order answers with the value pushed first and holds its entries in the order of the pushes, the sorted one answers with the value pushed last and holds its keys in order; firstChild() is the value of the first entry, if any. If no key is pushed while it is there, no key has two entries and both kinds answer alike.","all histories of push and erase, both kinds of object, all keys and values","the histories are unbounded",["src/jsonObject.cpp:push","src/jsonObject.cpp:find","src/jsonObject.cpp:erase","src/jsonObject.cpp:contains","src/jsonObject.cpp:get","src/jsonObject.cpp:firstChild"])
p("C120","The signs of the diff view agree with the counterparts","In the comparison of any two documents, an element shown without sign, or with the sign of a modified element, has a counterpart in the other document, which has the same sign. An element without counterpart has the sign of an added one, or, only if it is a container, that of a removed one. A completed drawing of a window that is not scrolled has these signs beside the lines, and a line without sign belongs to an element with a counterpart that has no sign either.","all pairs of documents, all terminal sizes, folds and drawings","the comparison is recursive over unbounded documents and the drawing over unbounded screens",["src/diffMatrix.hh","src/jsonDiff.cpp","src/curseSplitOutput.cpp:redraw"])
p("C121","Pairs of escapes beyond U+FFFF","A character beyond U+FFFF, written in a string as a pair of escapes (a high and a low surrogate), is read as the UTF-8 of that character.","all strings with such pairs, all settings without --ascii, whatever the C++ library does with a single surrogate","there are a million such characters, in any context, and the behaviour of the library is not fixed by the standard",["src/streamConsumer.cpp:appendUnicode","src/unicode.cpp:hexbyte","include/unicode.hpp:hexbyte"])
p("C122","The help names the options","Every option that the text of the help names is accepted by the program, and every option that the program accepts is named in the help.","all words that begin with a dash, all names of the program","The set of words is infinite; tests try the options somebody thought of, and nobody compares them with the text of the help.",["src/params.cpp: Params::usage, Params::version, AParams::read"])
p("C123","Standard output holds documents only","Unless the help or the version is asked for, standard output holds nothing but the documents of the inputs, one after the other; when documents are browsed or compared it holds nothing at all.","all command lines, all contents of files and standard input, all signals, all ways in which a view or the program ends","Scripts parse standard output; tests look at it for a few command lines that end well.",["src/main.cpp: main, runStdout, runDiff, run, runExternalDiff","src/params.cpp: AParams::read, Params::usage"])
p("C124","Silence means success","If the program ends with status 0 and has written nothing on standard error, then the help or the version was asked for, or every input held a document without anything to warn about and all these documents were printed, shown, compared or handed to the external command.","all command lines, all contents of files and standard input, all signals, all ways in which views and the external command end","It is about every way of failing: a test can show one failure that is reported, not that there is none that is not.",["src/main.cpp: main, readOneFile, runStdout, runDiff, run, runExternalDiff, displayException"])
p("C125","What standard error holds","Standard error holds, for an accepted command line, at most one report about an input that could not be read - the first such input - and then the warnings about the inputs before it, each once and in order; if the program ends normally, all of them, or none if documents are compared and an input could not be read. A report has three lines: the first names the program, the input, line, column and the mistake; the second holds between 1 and 45 bytes of the line that was read; the third is exactly as long as the second and ends with the mark ^. If nothing of the line is there to be shown, only the first line of the report is written, nothing follows it, and the program dies with an uncaught exception. For a wrong command line it holds one line with the name of the program and the reason, for the help and the version nothing.","all command lines, all contents of files and standard input, all signals, all ways in which views and the external command end","It ranges over every input and every combination of readable, warned-about and unreadable inputs; the alignment of the mark depends on the state of the ring buffer after an arbitrary history.",["src/main.cpp: main, displayException, readOneFile, runStdout, runDiff, run, runExternalDiff","src/linearHistory.cpp: LinearHistory::put","include/wrappedBuffer.hpp: toString"])
p("C126","The accepted texts, exactly","The reader delivers a value from an input, with certain warnings and leaving a certain rest unread, if and only if the input consists of insignificant bytes, a text that a written grammar derives with this value and these warnings, and that rest. The grammar is: strings, with any escape if -W is given; true, false and null in small letters, or in any with -W, the first two not followed by one of their letters; integers of at most 64 bits, leading zeros allowed; numbers with a point where digits may be missing anywhere; arrays with commas; objects whose members are separated by any of , : [ ] { and which end with a brace or with any string, number or literal name, which is lost; a key that is repeated replaces the earlier one with -W and is refused otherwise.","all inputs, values, warnings and rests, all settings, whatever the memory held before","It is an equivalence over all texts: tests can neither enumerate the accepted texts nor show that nothing else is accepted.",["src/streamConsumer.cpp: read, readNext, readObject, readArray, consumeToken, consumeString, consumeEscapedChar, consumeBool, consumeNumber, consumeNull, ignoreChar"])
p("C127","The refused texts, exactly","For every input that is not accepted, a written list of cases says what happens: an error of which kind, an exception that nobody catches, undefined behaviour, or no document without a message. The reader ends that way if and only if the list says so; every input is either accepted (C126) or in the list, under one reason only. Errors: a token that cannot be read (a strange character, a misspelt name, a bad hexadecimal digit, strictly an unknown escape), a separator or the end where a value, key, comma, closing bracket or colon belongs, strictly a repeated key. Exceptions: a minus sign or point without digits, an integer of more than 64 bits, half a surrogate pair the library refuses. Undefined behaviour: a missing value after a colon, a line feed in the first three characters after \\u, two line feeds in the three after n. Nothing: no token at all, a string or null that is cut off, one of the characters ,:]}.",
 "all inputs, modes (-W, --ascii, --keep-order) and behaviours of the library on surrogates","Tests check a handful of malformed texts; that the list is complete and its cases exclude each other is a statement about all inputs.",
 ["src/streamConsumer.cpp: readNext, readObject, readArray, consumeToken, consumeString, consumeBool, consumeNumber, consumeNull","src/linearHistory.cpp: put"])
p("C128","The program as a filter, exactly","With the output redirected (or --compress), for every accepted command line and all inputs: there is exactly one run through the inputs according to the productions of the accepted and the refused texts; standard output holds the documents of the inputs up to the first one that is none, in the documented layout and nothing else; the program ends with status 0 even after a mistake, unless the mistake is one nobody catches, is undefined behaviour, or its message (or that of a warning) is; a signal while an input is read ends it; only where a line break stands directly after a number or boolean, in a \\u escape or after an n may a report have no line to show, which ends the program with an exception.","every command line, every contents of the inputs, every signal while an input is read, every language setting, every contents of uninitialised memory","A test runs a few files; the statement gives the output and the ending for all byte sequences as inputs, and says that nothing else can happen.",["src/main.cpp: runStdout, readOneFile, displayException","src/streamConsumer.cpp: StreamConsumer::read","src/simpleOutput.cpp: SimpleOutput::display","src/jsonException.cpp"])
p("C129","The external comparison, exactly","With --diff-cmd, for every accepted command line, all inputs and signals, and whatever becomes of the temporary files and the command: the documents of the inputs up to the first one that is none are written to temporary files, in order, until one cannot be created, in which case the program never ends; only if all inputs are documents and their warnings can be displayed the command is run, each {} replaced by all temporary files; a command that is killed, or cannot be started and whose copy leaves a bad status, is waited for for ever; the files are removed exactly at a regular end, which has status 0.","every command line, every contents of the inputs, every signal while an input is read, every behaviour of the command and the file system, every contents of uninitialised memory","A test runs one command on a few files; the statement covers all endings of the command and all failures on the way.",["src/main.cpp: doRunExternalDiff, runExternalDiff, getOutputFile, readOneFile","src/diffCmd.cpp: DiffCmd::computeArgv"])
p("C130","Browsing, exactly","On a terminal without --diff, for every accepted command line, all inputs, signals and sessions: the terminal is taken once, the documents of the inputs up to the first one that is none are shown one after the other, each until its view ends; signals while an input is read change nothing; the terminal is given back exactly if all views are left and reading does not end the program; then the warnings are displayed and the status is 0.","every command line, every contents of the inputs, every signal while an input is read, every behaviour of the views, every contents of uninitialised memory","A test drives one session; the statement covers all inputs, all ends of views and all failures.",["src/main.cpp: run, readOneFile","src/curseOutput.cpp: CurseOutput::init, ~CurseOutput, loop","src/curseSimpleOutput.cpp: run, shutdown"])
p("C131","The interactive comparison, exactly","With --diff, for every accepted command line, all inputs, signals and sessions: if an input is no document the terminal is not touched and warnings are not displayed; otherwise the terminal is taken; three documents end the program with an exception, two that clash (C28) with a division by zero, both with the terminal taken; two others are shown side by side, and when the user leaves the terminal is given back, the warnings are displayed and the status is 0.","every command line, every contents of the inputs, every signal while an input is read, every behaviour of the view, every contents of uninitialised memory","A test drives one session on two files; the statement covers all inputs, all ends of the view and all failures.",["src/main.cpp: runDiff, readOneFile","src/curseSplitOutput.cpp: run, computeDiff, shutdown"])
p("C132","A comparison without signs means the documents are the same","If in the comparison of two documents no element of either has a sign (added, removed, modified), the two documents are the same; and two documents that are the same have no signs.","all pairs of documents, all addresses of their elements","Two recursive computations on trees (costs, then the cheapest alignment) decide about each element; tests try some pairs of documents.",["src/levenshtein.cpp:Builder::build","include/levenshteinMatrice.hpp:shortestPath","include/levenshteinMatrice.hpp:addRoot"])
p("C133","Exchanging the two documents exchanges the two windows","Comparing B with A shows what comparing A with B shows, with left and right exchanged: the same elements face each other and have the same signs; it crashes for the same pairs of documents.","all pairs of documents","The alignment is chosen by a walk through a table of costs with ties; tests try some pairs of documents in one order.",["src/levenshtein.cpp:Builder::build","include/levenshteinMatrice.hpp:build","include/levenshteinMatrice.hpp:shortestPath"])
p("C134","Every sign of a comparison, exactly","For two documents whose alignment costs fit the cell types and whose texts are shorter than 16 MiB: two elements opposite each other (the documents, elements that face each other, the values of entries with the same key that face each other) are both marked equal if they are containers, entries or primitives of the same type that cost nothing, both modified if they are entries or such primitives and cost something, removed and added if one is a container and the other is not, both added otherwise; an element with nothing opposite is marked added. Below the documents the cost is 0 or 1, so only empty containers are ever marked removed, and containers with two or more children only face each other if they count as equal.","all pairs of documents, all addresses of their elements, every element of either document","The signs are collected from nested tables along a walk through costs, where inner tables overwrite outer marks; tests look at some elements of some pairs of documents.",["src/levenshtein.cpp:Builder::build","include/levenshteinMatrice.hpp:shortestPath","include/levenshteinMatrice.hpp:addRoot","src/curseSplitOutput.cpp:getFlag"])
p("C135","The comparison of two documents is determined, exactly","Comparing two documents (texts of primitives below 16 MiB, the sums of the comparison within its cells) has one result, whatever the addresses of the elements: two elements are counterparts in the view exactly if they are opposite each other (the documents; the values of entries with the same key that are opposite; in opposite containers with something in common, the children facing each other in the cheapest order-preserving alignment, which among equally cheap ones is the one that, from the last children backwards, leaves the left one alone if it can, then the right one) and are items or entries of containers, containers with something in common, or primitives of the same type; opposite elements carry the signs their kinds and cost say, all other elements are marked as added.","All pairs of documents, all positions in both, all orders of the table","The result is defined recursively over both trees with a minimum over exponentially many alignments; a test checks single pairs against a table computed by the same recurrence.",["src/levenshtein.cpp:Builder::build","include/levenshteinMatrice.hpp:shortestPath","include/levenshteinMatrice.hpp:addRoot","include/levenshteinMatrice.hpp:getEquivalence"])
p("C136","Containers marked as equal have something in common","If two arrays or objects that are opposite each other in a comparison are marked as equal, then a child of the one is the counterpart of a child of the other and the two are the same, or nearly so.","all pairs of documents, all opposite containers in them","Whether containers count as equal is an integer division of a sum that depends on all pairs of children and is kept in a byte; tests compare a few small containers.",["include/levenshteinMatrice.hpp:build","src/levenshtein.cpp:Builder::build","include/levenshteinMatrice.hpp:addRoot"])
p("C137","What was inserted is what is marked as added","If the second document is the first with items or members inserted into its outermost array or object (or the other way round), exactly these, with all that is in them, are marked as added and have no counterpart; every other element faces itself in the other document and both are marked as equal.","all pairs of documents of which one comes from the other by inserting children into the outermost container","An alignment is chosen over all children at once, by costs that depend on everything in them; which of several equally good ones is shown is decided by the order of comparisons in the table, for unboundedly many children of unbounded size.",["src/levenshtein.cpp:Builder::build","include/levenshteinMatrice.hpp:shortestPath","include/levenshteinMatrice.hpp:build","include/levenshteinMatrice.hpp:addRoot","include/levenshteinMatrice.hpp:getEquivalence"])
p("C138","Values changed in place are marked as modified","If the second document is the first with some values that are no containers replaced by others, every element faces the one in the same place: unchanged ones and containers are marked as equal on both sides, changed values and their members as modified (as added if the type changed, as equal if the texts are close).","all pairs of documents that differ only in primitive values, at any depth","A changed value changes the costs of all containers around it, at every level, and an alignment that shifts children may become cheaper; whether it does depends on all the other children.",["src/levenshtein.cpp:Builder::build","include/levenshteinMatrice.hpp:shortestPath","include/levenshteinMatrice.hpp:build","include/levenshteinMatrice.hpp:addRoot","include/levenshteinMatrice.hpp:getEquivalence"])
p("C139","The comparison shows the edit","If the second document comes from the first by inserting and removing items and members and replacing values, at any depth, the comparison shows just that: what was kept faces itself in its new place and is marked as equal, changed values as modified, what was inserted or removed as added; nothing else has a counterpart.","all documents and all edits of them, of any number of places at any depth","The alignment of each container depends on the costs of everything below it, and the edits of inner containers decide whether outer ones are compared at all.",["src/levenshtein.cpp:Builder::build","include/levenshteinMatrice.hpp:shortestPath","include/levenshteinMatrice.hpp:build","include/levenshteinMatrice.hpp:addRoot","include/levenshteinMatrice.hpp:getEquivalence"])
p("C140","A record inserted into an array of records is the one marked as added","If a record is inserted into, or removed from, an array of similar records, this record is marked as added and each other one faces itself.","all arrays of records of any size, anywhere in a document, and all positions","Which of many equally cheap alignments is shown depends on ties in a table over all pairs of records.",["src/levenshtein.cpp:Builder::build","include/levenshteinMatrice.hpp:shortestPath","include/levenshteinMatrice.hpp:build","include/levenshteinMatrice.hpp:addRoot","include/levenshteinMatrice.hpp:getEquivalence"])
p("C141","Counterparts are compared like documents","Two values that are each other's counterparts in a comparison are compared as if each were a document of its own: comparing them alone does not fail, and shows the same signs and counterparts for everything below them; what is below one has its counterpart below the other. (Texts shorter than 16 MiB, costs within the cells of the tables, as in C134.)","all pairs of documents and all pairs of counterparts in them, at any depth","The comparison of a document keeps one table for all levels, into which those of all pairs of children are merged; that the right ones are kept for every pair at every depth is a statement about all merges.",["src/levenshtein.cpp:Builder::build","include/levenshteinMatrice.hpp:shortestPath","include/levenshteinMatrice.hpp:build","include/levenshteinMatrice.hpp:addRoot","include/levenshteinMatrice.hpp:getEquivalence"])
p("C142","A moved member or item is shown as moved","If one member of an object or one item of an array is moved to another place, the comparison marks it, with all that is in it, as added in both documents (as removed from the old place and inserted in the new one); all the others are marked as equal and face themselves.","all containers of any size, all children and all old and new places","Whether the alignment keeps the many or the one depends on a table over all pairs of children and on ties in it.",["src/levenshtein.cpp:Builder::build","include/levenshteinMatrice.hpp:shortestPath","include/levenshteinMatrice.hpp:build","include/levenshteinMatrice.hpp:addRoot","include/levenshteinMatrice.hpp:getEquivalence"])
p("C143","No signs in the diff view of documents that do not differ","When a document is compared with itself, there is never a sign (`++`, `--`, `!!`) in a window of the diff view, nor is one written in it: not after the first drawing, nor after any moves, searches, foldings, changes of window, and changes of the size of the terminal. The same holds of two documents that are built alike, with the same keys in the same order, and whose primitives are one by one of the same type and nearly the same.","all documents, all sizes of the terminal, all sessions","signs appear per line and per session; a test sees some lines in some sessions only",["src/curseSplitOutput.cpp:redraw","src/curseSplitOutput.cpp:displayDiffOp","src/curseSplitOutput.cpp:isAdded","src/levenshtein.cpp:Builder::build"])
json_lines="".join(json.dumps(x)+"\n" for x in P)
open("/verif/properties.jsonl","w").write(json_lines)
print(len(P))
