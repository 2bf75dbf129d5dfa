import Verif.Model.Program
/-!
# Model of the texts the program prints: `usage()`, `version()`, the reports on standard error

The happenings of `Model/Program.lean`, turned into the bytes that are written. Simplified: what the terminal library writes is left out, and what is
written of a report with undefined behaviour in it (`Error: ` or `Warning: `) before the program runs into it.
-/
namespace Verif.Model.Texts
open Verif.Model Verif.Model.Params Verif.Model.Main Verif.Model.Program

/-- What the C++ library decides: `typeid(e).name()` and `std::exception::what()`. The type of a `JsonException` is determined by its text. -/
structure Lib where
  /-- the name of the type of the exception with this text -/
  typeName : Bytes → Bytes
  eofType : Bytes
  eofWhat : Bytes
  /-- does the compiler evaluate the operands of `<<` from left to right (C++17 asks for it, earlier standards do not)? -/
  inOrder : Bool

/-- `operator<<(std::ostream &, const char *)`: a text up to the first null byte. -/
def cString (b : Bytes) : Bytes := b.takeWhile (· ≠ 0)

/-- `operator<<(std::ostream &, unsigned int)`; `src/jsonException.cpp:47-51` — `currentLine()`, `currentCol()` are `unsigned int`. -/
def number (n : Nat) : Bytes := natDigits (n % 4294967296)

/-- `include/config.h:31-33` — `STROLL_PROGNAME`. -/
def suite : Bytes := b!"jsonstroll"

/-- `src/params.cpp:153-157` — `usage()`: the first part, where the name of the program is filled in. -/
def usageHead (prog : Bytes) : Bytes :=
  b!"Usage: " ++ prog ++ b!" [OPTIONS]\nor: " ++ prog ++ b!" [OPTIONS] FILENAME\nor: " ++ prog ++ b!" [OPTIONS] -- INPUT\nor: " ++ prog ++
    b!" --diff [OPTIONS] FILENAME FILENAME [FILENAME]\n"

/-- `src/params.cpp:158-178` — `usage()`: the rest. -/
def usageBody : Bytes :=
  b!"Read json input and print it using ncurse\n\n" ++
  b!"if not INPUT nor FILENAME, use standard input\n\n" ++
  b!"When output is redirected to a file or another command, output will be prettyfied unless --compress\n\n" ++
  b!"  FILENAME\t\tread input from filename instead of stdin\n" ++
  b!"  INPUT\t\t\tuse this as input instead of stdin\n" ++
  b!"  -W \t\t\tconsider continuing on non-blocking errors\n" ++
  b!"  --ascii\t\tignore unicode values\n" ++
  b!"  --keep-order\t\tdo not sort objects by key\n" ++
  b!"  --color[=MODE]\tcolorize output, MODE can be never or always (default when ommited)\n" ++
  b!"  --compress\tif output is redirected, strip unnecessaries characters\n" ++
  b!"  --diff-cmd COMMAND ;\tExecute command as external diff. All following argument will be passed as parameter to COMMAND until ';' is encountered. The '{}' argument will be replaced by the file path of the prettified input\n" ++
  b!"  -v, -version\t\tdisplay version information\n" ++
  b!"  -h, --helph\t\tshow this message and exit\n\n" ++
  b!"Examples:\n" ++
  suite ++ b!" f.json\tOutput f.json's content\n\n" ++
  suite ++ b!" --diff fileA.json fileB.json\tcompare fileA.json and fileB.json\n\n" ++
  suite ++ b!" --diff-cmd vimdiff {} ';' fileA.json fileB.json\tcompare fileA.json and fileB.json\n\n" ++
  b!"Report bugs to <isundill@gmail.com>\n"

/-- `src/params.cpp:151-179` — `usage()`. -/
def usage (prog : Bytes) : Bytes := usageHead prog ++ usageBody

/-- `src/params.cpp:181-192` — `version()`; `include/config.h:21-29`. -/
def version : Bytes :=
  suite ++ b!" (jsonstroller suite) 1.0RC1 generated on Jul 31 2016\n\n" ++
  b!"Copyright (C) 2016 Free Software Foundation, Inc.\n" ++
  b!"License GPLv3+: GNU GPL version 3 or later <http://gnu.org/licenses/gpl.html>.\n" ++
  b!"This is free software: you are free to change and redistribute it.\n" ++
  b!"There is NO WARRANTY, to the extent permitted by law.\n\n" ++
  b!"Written by isundil <isundill@gmail.com>.\n"

/-- `src/params.cpp:75`, `:87`, `:90`, `:97`, `:102` — the texts of the errors about the command line. -/
def errorText : Params.Error → Bytes
  | .doubleDiffCmd => b!"Invalid double usage of --diff-cmd"
  | .color mode => b!"Invalid option for --color: " ++ mode
  | .argument arg => b!"Invalid argument: " ++ arg
  | .cannotOpen file => b!"Cannot open " ++ file ++ b!" for reading"
  | .identical file => b!"Cannot compare " ++ file ++ b!" and " ++ file ++ b!" files (path are identical)"

/-- `src/main.cpp:25` — `displayException`: the first line. -/
def heading (lib : Lib) (prog name : Bytes) (line col : Nat) (what : Bytes) : Bytes :=
  prog ++ b!": " ++ name ++ b!" [" ++ lib.typeName what ++ b!"] at line " ++ number line ++ b!", col " ++ number col ++ b!" (" ++ cString what ++
    b!") while reading\n"

/-- `src/main.cpp:21-27` — `displayException`. -/
def displayed (lib : Lib) (prog name : Bytes) (line col : Nat) (what context : Bytes) (tildes : Nat) : Bytes :=
  heading lib prog name line col what ++ context ++ b!"\n" ++ List.replicate tildes (c%'~') ++ b!"^\n"

/-- `src/main.cpp:25-26` — `displayException` without a text to show: the first line, and (depending on the compiler) the empty second one, before
`std::string(buffer.size() - 1, '~')` throws. -/
def cutOff (lib : Lib) (prog name : Bytes) (line col : Nat) (what : Bytes) : Bytes :=
  heading lib prog name line col what ++ if lib.inOrder then b!"\n" else []

/-- What is written on standard error for a report: `src/main.cpp:224`, `:50`, `:55-56`, `:106-107`. -/
def report (lib : Lib) (prog : Bytes) : Report → Bytes
  | .usage e => prog ++ b!": " ++ cString (errorText e) ++ b!"\n"
  | .eof name => prog ++ b!": " ++ name ++ b!" " ++ lib.eofType ++ b!" (" ++ lib.eofWhat ++ b!") error while reading\n"
  | .error name line col what context tildes => b!"Error: " ++ displayed lib prog name line col what context tildes
  | .warning name line col what context tildes => b!"Warning: " ++ displayed lib prog name line col what context tildes
  | .cutError name line col what => b!"Error: " ++ cutOff lib prog name line col what
  | .cutWarning name line col what => b!"Warning: " ++ cutOff lib prog name line col what

/-- What a happening writes on standard error. -/
def toErr (lib : Lib) (prog : Bytes) : Happening → Bytes
  | .report r => report lib prog r
  | _ => []

/-- What a happening writes on standard output. -/
def toOut (prog : Bytes) : Happening → Bytes
  | .output b => b
  | .usage => usage prog
  | .version => version
  | _ => []

/-- `src/params.cpp:124-138` — what `read()` says about the number of files, before the help. -/
def complaint (prog : Bytes) : Outcome Settings → Bytes
  | .stop .tooMany => prog ++ b!": more than 3 files to compare\n"
  | .stop .notEnough => prog ++ b!": not enough files to compare\n"
  | _ => []

/-- Standard error of the program. -/
def standardError (lib : Lib) (prog : Bytes) (e : Surround) (args : List Bytes) : Bytes :=
  complaint prog (Params.read (fun f => (e.world.files f).isSome) args) ++ (program e args).1.tape.flatMap (toErr lib prog)

/-- Standard output of the program. -/
def standardOutput (prog : Bytes) (e : Surround) (args : List Bytes) : Bytes := (program e args).1.tape.flatMap (toOut prog)

end Verif.Model.Texts
