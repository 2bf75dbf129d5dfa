import Verif.Spec.Grammar
import Verif.Spec.Standard
import Verif.Model.Params
/-!
# Specification: what a report on standard error looks like
-/
namespace Verif.Spec.Notices
open Verif.Model Verif.Spec

/-- A report about an error or a warning, in its parts. -/
structure Notice where
  /-- `Error` or `Warning` -/
  severity : Bytes
  /-- the name of the input -/
  name : Bytes
  /-- the type of the exception, as the compiler names it -/
  type : Bytes
  line : Bytes
  col : Bytes
  /-- the message -/
  what : Bytes
  /-- the end of the line that was being read -/
  context : Bytes
  /-- the marks under it -/
  marks : Bytes

/-- What is said about a wrong command line: it names the word, the colour mode or the file concerned. -/
def complaint : Params.Error → Bytes
  | .doubleDiffCmd => b!"Invalid double usage of --diff-cmd"
  | .color mode => b!"Invalid option for --color: " ++ mode
  | .argument word => b!"Invalid argument: " ++ word
  | .cannotOpen file => b!"Cannot open " ++ (file ++ b!" for reading")
  | .identical file => b!"Cannot compare " ++ (file ++ (b!" and " ++ (file ++ b!" files (path are identical)")))

/-- The first line of the report. -/
def Notice.opening (prog : Bytes) (n : Notice) : Bytes :=
  n.severity ++ b!": " ++ prog ++ b!": " ++ n.name ++ b!" [" ++ n.type ++ b!"] at line " ++ n.line ++ b!", col " ++ n.col ++ b!" (" ++ n.what ++ b!") while reading\n"

/-- The text of the report: three lines. -/
def Notice.text (prog : Bytes) (n : Notice) : Bytes :=
  n.opening prog ++
    n.context ++ b!"\n" ++
    n.marks ++ b!"\n"

/-- A number without superfluous zeros. -/
def Numeral (b : Bytes) : Prop := Digits b ∧ NoLeadingZero b

/-- The second line has between 1 and 45 bytes; the third line is exactly as long and ends with `^`, with `~` before; line and column are numbers. -/
structure Notice.WellShaped (n : Notice) : Prop where
  nonempty : n.context ≠ []
  short : n.context.length ≤ 45
  oneLine : c%'\n' ∉ n.context
  under : n.marks.length = n.context.length
  mark : n.marks.getLast? = some (c%'^')
  before : ∀ c ∈ n.marks.dropLast, c = c%'~'
  line : Numeral n.line
  col : Numeral n.col

end Verif.Spec.Notices
