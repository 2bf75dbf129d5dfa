# Design: a Lean 4 model of isundil/jsonStroller

The plan per property was written before the proofs and is kept current; `MANIFEST.json` has the status of each property, `AXIOMS.md` the
axioms of each theorem.

## Layout

* `lean/Verif/Model/*.lean`  – the model, one file per source unit; every definition cites the lines of `/repo` it models.
* `lean/Verif/Spec/*.lean`   – small specifications that do not use the model's helpers: JSON grammar and denotation, positions, layout,
  edit scripts, alignments and tree matchings, bounded list, outline of the display, command line, sessions of the diff view.
* `lean/Verif/Lemmas/*.lean` – helper lemmas.
* `lean/Verif/Props/*.lean`  – the property theorems, with non-vacuity examples beside them.
* `tools/` – generators of `properties.jsonl`, `MANIFEST.json`, `AXIOMS.md`, and the runner of the seeded bugs (`mutate.py`,
  results in `seeded/LOG.jsonl`).

A property that the code does not have as stated is kept as stated: a theorem with the suffix `_false` proves its negation with a concrete
witness (it is a defect of the program, checked by the kernel on the model), and a theorem with the suffix `_partial` proves it under the weakest
hypotheses found; the manifest then says `partial`.

## Modelling conventions

* A C++ `char`/byte is a `Nat` (`Byte`); values 0..255 are the unsigned reading of the byte, code that
  relies on signedness (x86 `char` is signed) is modelled through the unsigned value explicitly.
* An `std::istream` is the list of bytes not yet read and a `good` flag. `get()` at end of input yields
  `(char)EOF = 0xFF` and clears `good`; `unget()` on a failed stream does nothing.
* Undefined behaviour is an explicit outcome (`ub`, `none`, `crash`), an exception the caller does not catch is an
  explicit outcome (`uncaught`). The undefined behaviour in the constructors of two exceptions (`"expected " + c`, `"unexpected escaped char " + c`) is taken to
  happen when the exception is displayed. Uninitialised memory is an explicit parameter (`junk`).
* Element identity (C++ pointers) is the document and the path of the element from its root. Where the code iterates over a
  `std::map` ordered by addresses, the order is a parameter (any permutation).
* Recursion and loops of the code are fuelled functions where they are not structural; a theorem then says that enough fuel exists and that the result
  does not depend on it (C01, C39, C70), or the theorem is about every completed run.

## What is modelled, and what is not

| source | model | not modelled, or simplified |
|---|---|---|
| `wrappedBuffer.hpp`, `linearHistory.cpp` | `WrappedBuffer`, `LinearHistory` | – |
| `streamConsumer.cpp`, `json*.cpp`, `warning.cpp`, `jsonException.cpp` | `Reader`, `Json`, `Object`, `Element`, `Exceptions`, `Heap` (objects, parent pointers, `delete`, `==`; addresses are not used again) | stream errors other than end of input; `tellg()` (never shown); memory exhaustion, stack overflow; a number with a fraction is kept as its source text, its value is that of `atof` in `Double` (exponents are not read by the program) |
| `unicode.cpp`, `unicode.hpp` | `Unicode` | the library's treatment of surrogates is a parameter (three bytes, or an exception) |
| `simpleOutput.cpp` | `SimpleOutput` | numbers with a fraction are printed by a parameter `fmt`; `Double` models the one of the program, `std::to_string(atof(text))` with exact IEEE 754 rounding (proved to be nearest: `atof_correct`, `toText_correct`; compared with another implementation on 3000 random texts), and the decimal point of the language settings; the dangling `c_str()` in `writeContainer` is taken to hold its bytes; output errors |
| `levenshtein.cpp`, `levenshteinMatrice.hpp` | `Levenshtein`, `Float32`, `Diff` | `float` is IEEE binary32 round-to-nearest-even without overflow or subnormals; memory management |
| `searchPattern.cpp`, `CurseOutput::inputSearch` | `SearchPattern`, `SearchInput` | `std::regex` is an oracle `Rx`; `wcstombs` a parameter |
| `jsonElement.cpp` (`findNext`, `lazystrlen`, `getWParent`…) | `Navigate`, `StrLen` | the multibyte decoder is a parameter |
| `curseSimpleOutput.cpp`, `curseOutput.cpp` | `Draw`, `Tui`, `Paint`, `Loop`, `Prompt`, `NbLines`, `OutputFlag` | the calls to `ncurses` run on a model of the terminal (`Term`: a grid of places, one byte each); line counts are natural numbers; signals that arrive while the screen is drawn |
| `curseSplitOutput.cpp` | `Split` (which texts are drawn, and where to), `SplitPaint` (what is then seen on the terminal: windows, frames, titles, signs, colours, messages) | as above; the pair read after `pop()` is taken to be unchanged; three inputs (they end in an exception, C67); the cells have ghost fields `who`, `closing` that say what is drawn |
| `inputSequence.cpp` | `Loop` | `keyname` outside the ASCII range is a parameter |
| `diffCmd.cpp`, `fifoMap.hpp`, `main.cpp`, `params.cpp` | `DiffCmd`, `FifoMap`, `Main`, `Params`, `Program` (the process: terminal, signals, order of happenings), `Browse` (the views of successive inputs), `Texts` (the bytes of standard output and standard error: the help, the version, the reports) | `typeid().name()` and `what()` of the library are parameters; the file system, `fork`, `exec`, `wait` are oracles (`canOpen`, `World`); `EINTR`; the second process after a failing `exec`; `hashString` is modelled exactly |

`Program` adds `CurseOutput::init`/`shutdown`, the constructors and destructors of the views and the signal handlers to `Main` (`program_main`: without signals and
crashes it does what `Main` does). Signals are modelled at the moments at which an input is read (and, in `Loop`, while a key is waited for); `newterm` is taken to succeed
once there is a terminal; reads are restarted after a handled signal.

Not modelled at all: `except.cpp` (an empty exception class).

## Plan per property

| id | model | proof |
|---|---|---|
| C01 | fuelled parser, fuel = input length | induction: fuel never runs out, `rest` only shrinks |
| C02 | parser vs. inductive JSON grammar with denotation | induction on the grammar |
| C03,C04 | parser, object push/erase/contains | invariant by induction on fuel; sorted vs. keep-order simulation |
| C05 | parser under two configurations | simulation by induction on fuel |
| C06 | readObject loop | fold over member list |
| C07 | consumeNumber, stoi/stol | arithmetic on digit strings |
| C08 | parser | extension lemma by induction on fuel |
| C09 | parser vs grammar | induction on the grammar, for every prefix |
| C10 | parser outcomes | refuted by witnesses; partial: every crash has its cause in the input |
| C11–C14, C58 | consumeString/consumeEscapedChar/appendUnicode | induction on string items; C14 refuted by a witness, partial injectivity |
| C15 | consumeBool/consumeNull | case analysis on letter-case spellings |
| C16 | WrappedBuffer, LinearHistory | refinement to a bounded list; refuted for double pops, proved for the discipline the reader follows |
| C17,C18 | LinearHistory in the parser | refuted by witnesses; partial: invariant relating counters and bytes consumed; exact: the history records the text with the line breaks after numbers doubled (Spec/Breaks) |
| C19 | exceptions + displayException | refuted; partial |
| C20 | batch put with explicit memory extents | refuted; partial |
| C21, C59 | SimpleOutput + parser | refuted; partial through C02 on the printable class |
| C22,C23 | SimpleOutput | structural induction |
| C24–C26 | Wagner–Fischer table | equality with the recursive distance; minimality over edit scripts; `float` rounding lemmas |
| C27–C31 | Builder::build, matrices with wrap-around cells | DP invariants, optimality over all alignments, tree matching by induction; C27, C28, C31 refuted with partials |
| C32–C34, C55, C60 | SearchPattern, extractUnicode, inputSearch | list lemmas; refuted with partials |
| C35–C37 | search/jump/unfold on preorder | refinement to list search |
| C38–C42, C62–C64 | CurseSimpleOutput state machine with draw trace | drawing = list of events; invariants over all histories, termination measure; the screen is a window on the outline |
| C43 | findNext/findPrev on paths | refuted inside objects; partial |
| C44,C45, C70–C79 | CurseSplitOutput: selection, drawing loop of two windows | invariants over all histories; a log of what each step of the loop writes; alignment of the two logs through the tree matching of C30 |
| C46–C49 | Params::read | fold over arguments |
| C50,C51 | fifoMap, DiffCmd | refinement |
| C52 | hashString, getOutputFile | refuted for all names sharing a 13-byte suffix; partial |
| C53,C54, C65–C69 | main.cpp run functions | fold over inputs, oracles for the world; refuted with partials |
| C56,C57 | OutputFlag, getNbLines | bit arithmetic, division, binary64 rounding |
| C61 | lazystrlen | refuted for every non-empty text; bound on the overrun |
| C80–C86 | `InputSequence::read`, `readInput`, `loop`, signal handlers, prompt | event machine over any view; simulation with the sessions of the single and of the diff view |
| C87–C89 | the calls to `ncurses` (`Paint`), the terminal (`Term`) | the calls of a drawing are those of the rows of the window (C62); what the terminal shows after them by induction over the rows; all sessions by an invariant; exactly (`Spec.Overflow`): where each line is written when lines begin right of the terminal, and that a place shows the last text written there |
| C90–C93 | `atof`, `std::to_string(double)`, `setlocale` (`Double`) | error bounds of the two roundings over the rational numbers (Mathlib); exactness and stability from them; refuted by small and large numbers and by decimal commas |
| C94–C97 | drawing of the two windows, frames, titles, signs, messages (`SplitPaint`) | the log of drawing calls of a redraw (`SplitCalls`), run on the terminal of each window place by place; refuted by texts pushed below the window, scrolled signs, interrupted drawings and searches for what only the other document has |
| C98–C100 | the objects made while reading: addresses, parent pointers, destructors (`Heap`) | the reader with objects and the reader run in step (`HeapReader`, induction on the fuel of all four functions): what is stored, what is new, what is left; the mark `Quiet` tells the inputs where an object is ended by a stray value from the others; pointers and positions by induction on the position (`HeapNav`); C99 exactly: the productions of `Spec/Accepted` with the values they lose (`Spec/Lost`), by induction on derivations over the reader with objects (`Lemmas/HeapLost`); after errors: the productions of `Spec/Refused` with the documents that are left (`Spec/Stranded`, `Lemmas/HeapStranded`) |
| C101, C102 | the reader with two settings on the same input (`Reader`; a null settings pointer is `params = none`) | a relation between the two runs that is kept by sequencing (`ReaderFirst`, induction on the fuel of all four functions): same outcome and no new warning, or the strict run ends with the first warning of the other |
| C103–C105 | what the prompt writes, and when (`Prompt`: the main loop with the views on the terminal) | a simulation between the program that writes the prompt and the one that does not (`Lemmas/Prompt`: equal while no prompt is open, equal up to the last line while one is); every drawing begins with `clear()`, in the diff view it covers what the frames cover; refuted by a change of size in the prompt and by the columns right of the frames |
| C106 | a text that is right up to a place and wrong there (`Spec/Mistakes`), the reader, the exceptions and their report | the reader is followed through the right part, frame by frame (induction on the frames and on the items before), together with the recorded history (`Sync`, from the invariant of C17), up to the token that fails; refuted for bad hexadecimal digits, and for every missing comma and colon; with line breaks directly after numbers the same walk with the invariant of `C16_exactly_partial` (`C106_exactly_partial`) |
| C107 | the answers of Left and Right in the diff view, the items not inside collapsed containers (`Spec/SplitFold`) | case analysis of the two functions; the shown items by membership (`mem_visible`), the item around by the elements an element can be in |
| C108 | the answers of Page Up, Page Down, Left, Right in both views, `findPrev`, `findNext`; specification `Spec/Moves` | case analysis; `findNext` by the theorem of C43 and an induction that it does not leave the value of an entry |
| C109 | the loop of both views (`Loop.run`), key names, `evalKey`; table in `Spec/KeyTable` | each row of the table by evaluating the loop on the key, pauses by `run_timeouts` |
| C110 | `select_up` of `checkSelection` and of a complete window; specification `Spec/SplitMoves`, `shownIn` | invariant of the pointers along the history of a drawing (`Lemmas/SplitUpDown`: `Points`, `Aims`); the turns that are no closing brackets are the displayed items; induction on the number of presses |
| C111 | `select_down`, its defaults in `redrawOneItemToWorkingWin` (`firstChild`, `findNext`) | the same invariant; C43 for `findNext`, order of positions; counterexamples by evaluation and a fixed point |
| C112, C113 | `Program.program`: the tape of what the process does; vocabulary `Spec/Process` (`taken`, `At`, `Orderly`) | invariant of the tape through every function (`Lemmas/ProgramInv`); refuted by inputs that crash |
| C114 | `Program.reading`, `handled`, `breakLoop` | induction on the inputs; refuted by a simulation: with and without signals the same tape |
| C115 | `Program.choose`, `runStdout`, `compareView` | induction on the inputs, `program_main`, C53; refuted by `compareView` |
| C116 | `Browse.session`: the loop of the single view on a state with stale addresses | simulation of the loop with a forgetful map (`run_forget`); refuted by evaluation |
| C117 | `Program.prepare`, `runExternalDiff` | files written and removed as functions of the tape, induction on the inputs |
| C118 | `Program.program`, `Params.read`, `Model.read`, `Output.display`, `Double.fmt` | the words of a plain command line are good (Spec/CommandLine), composition of C02, C05, C21, C59, C91 |
| C119 | `Object.call`, `Object.after`, `Json.get`, `firstChild` | induction on the history against the values kept for each key (Spec/Multimap) |
| C120 | `Diff.build`, `Split.Env.op`, `settle` | what each step of the comparison writes into the two tables (Lemmas/DiffSigns), composed with C71 |
| C121 | `stringLoop`, `toBytes`, `isSurrogate` | induction on the items of the literal, the library being a parameter; refutation by the third byte of two pairs with a common half |
| C122 | `Texts.usage`, `Params.read` | the words of the help (Spec/Words) are computed for every name of the program; the accepted words are listed by cases and C46 |
| C123, C124 | `Texts.standardOutput`, `Texts.standardError`, `Program.program` | the bytes of both streams as functions of the tape; induction on the inputs through `runStdout`, `browse`, `runDiff`, `prepare` |
| C125 | `program`, `displayException`, the texts of the reports (`Texts`), the history | the tape of the program is followed through all modes (`Tells`); the shape of the context from an invariant of the ring buffer that holds on every input (`Neat`: no line feed, at most 45 bytes; the buffer is shortened only once before a write or reset) |
| C126 | the whole reader | a grammar as inductive relations (`Spec/Accepted`: text, following text, value, warnings); tokens in both directions (`Lemmas/AcceptedTok`), then soundness by induction on the recursion bound and completeness by induction on derivations |
| C127 | the whole reader, its failures | relations for the texts that end the reader (`Spec/Refused`), built on `Spec/Accepted` for what precedes the mistake; soundness by induction on the recursion bound (`Lemmas/Refused`), completeness by induction on derivations (`Lemmas/RefusedAll`) |
| C128 | `Program.runStdout` with the reader and the printer | composition of C126, C127, C23 exactly and the loop over the inputs, against `Spec.Batch`; induction over the inputs; uniqueness from C126 and C127 |
| C129–C131 | `Program.runExternalDiff`, `run`, `runDiff` with the reader | as C128, against `Spec.Batch.externally`, `browsing`, `comparing`: what is done (without reports), in order, and how it ends; induction over the inputs |
| C132 | `Diff.diff` | both directions: from no signs, by C30 and C31 every element has a counterpart, and a correspondence of two trees that leaves nothing alone is the identity on positions (induction on the depth, then on the child number); from documents built alike, by induction on the document (the diagonal of the table is 0) |
| C133 | `Diff.diff` | the table of costs of the exchanged documents is the transposed one, by induction on the documents and on the cells; C28_exactly and C132 for crashes and signs |
| C134 | `Diff.diff` | `Lemmas/DiffExact`: by induction on the documents, which turn of the walk marks which element and whether the inner table overwrites it; a pair on the walk costs at most 1, since dropping one child is preferred otherwise | 
| C135 | the comparison against `Spec/Comparison.lean`: which elements are opposite each other is defined by the cheapest alignments and a tie-break, without the table | `Lemmas/DiffChosen.lean` (the walk back through the cells yields the chosen alignment), `Lemmas/DiffWhole.lean` (induction on the documents) |
| C136 | `Diff.diff` against `Spec/Comparison.lean` | from C135: an alignment cheaper than the larger number of children has a free pair; leaving all alone is cheapest exactly if any two cost at least 2. Refutation by overflow: the cells up to 254 by induction |
| C137 | The chosen alignment of a container and the same one with children inserted (Spec/Comparison) | The least cost is the number of inserted children; every alignment with this cost pairs all old children at cost 0, hence with themselves if no inserted one is near; at the ends by induction over the appended items |
| C138 | Documents that differ in primitive values (Spec/InPlace.lean), with the exact comparison of C135 | The alignment child by child is the only cheapest one if at most one child costs 1, or if all others cost 1 (other keys); induction over the path |
| C139 | Edits of documents as an inductive relation with the places of what is kept (Spec/Edited.lean), with the exact comparison of C135 | Induction over edits: an edited container costs nothing, its children face each other as the edit says (C137, C138), so the opposite elements are those in the same place |
| C140 | Counterparts whose children resemble the ones with the same number, with the exact comparison of C135 | Of the alignments of cost equal to the difference in length the walk takes the one by position (ties); what is opposite is a function, so descendants of counterparts face descendants |
| C141 | Comparisons of documents and of values inside them, with the exact comparison of C135 | What is opposite below counterparts is what is opposite in their own comparison (one induction over paths, one over the pairs); costs are determined, so signs agree |
| C142 | Moves of a child over at least two others, with the exact comparison of C135 | An alignment of cost at most 2 leaves alone the moved child on both sides or nobody; by counting, the others then face themselves |
| C143 | The drawing of the two windows (`Model/Split.lean`) over a comparison in which every element has a counterpart and no sign; `Indistinct` as in C132 | Induction over the turns of a drawing, then over the session (`Lemmas/SplitQuiet.lean`, `Props/Quiet.lean`) |

## Trusted base

* Lean's kernel (4.33.0), which checks every proof, `decide +kernel` included (evaluation by the kernel of a decidable closed statement, used for witnesses and
  examples only). No `native_decide`, no `bv_decide`, no axioms of our own. The theorems depend at most on `propext`, `Classical.choice` and `Quot.sound`; the list per theorem
  is in `AXIOMS.md`.
* The reading of the C++ source written down in the comments of `Verif/Model`, with the simplifications of the table above: the model was written by hand and is not
  derived mechanically from the source.
* The specifications in `Verif/Spec` and the statements in `Verif/Props`.
