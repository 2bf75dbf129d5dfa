import Verif.Model.Element
import Verif.Model.Unicode
/-!
# Model of `src/searchPattern.cpp` and of `StreamConsumer::extractUnicode`

Regular expressions (`std::regex`) are not modelled: `Rx` gives the answers of the library.
-/
namespace Verif.Model.Search
open Verif.Model

/-- The answers of `std::regex`: is the pattern accepted, does it match somewhere (by pattern, ignore-case option and text). -/
structure Rx where
  valid : Bytes → Bool → Bool
  search : Bytes → Bool → Bytes → Bool

/-- `include/searchPattern.hh:27-30` — the members of a `SearchPattern`. `flags` is split into its bits. -/
structure Pattern where
  pattern : Bytes
  icase : Bool
  word : Bool
  whole : Bool
  regex : Bool
  typeFlag : Int
deriving Repr, DecidableEq

/-- `src/searchPattern.cpp:14` — skips the leading blanks. -/
def trim : Bytes → Bytes
  | [] => []
  | c :: cs => if c = c%' ' ∨ c = c%'\t' then trim cs else c :: cs

/-- `src/searchPattern.cpp:15-36` — the main loop: the pattern, and the text after the first unescaped slash, if any. The input ends at
its first zero byte (`input[pos]`). -/
def split : (escaped : Bool) → Bytes → Bytes × Option Bytes
  | _, [] => ([], none)
  | escaped, c :: cs =>
    if c = 0 then ([], none)
    else if escaped then
      let r := split false cs
      (if c = c%'/' then (c :: r.1, r.2) else (c%'\\' :: c :: r.1, r.2))
    else if c = c%'\\' then split true cs
    else if c = c%'/' then ([], some cs)
    else let r := split false cs; (c :: r.1, r.2)

/-- `src/searchPattern.cpp:46-69` — the loop of `evalFlags`. -/
def evalFlags (p : Pattern) : Bytes → Pattern
  | [] => p
  | c :: cs =>
    if c = 0 then p
    else evalFlags
      (if c = c%'i' then { p with icase := true, pattern := p.pattern.map toLower }
       else if c = c%'w' then { p with word := true }
       else if c = c%'f' then { p with whole := true }
       else if c = c%'e' then { p with regex := true }
       else if c = c%'b' then { p with typeFlag := 1 }
       else if c = c%'n' then { p with typeFlag := 2 }
       else if c = c%'s' then { p with typeFlag := 3 }
       else if c = c%'o' then { p with typeFlag := 4 }
       else p) cs

/-- `src/searchPattern.cpp:8-37`, `:70-76` — the constructor. `typeFlag` is not initialised: `junk` is whatever the memory holds.
`none` is `std::regex_error`. -/
def parse (rx : Rx) (junk : Int) (input : Bytes) : Option Pattern :=
  let r := split false (trim input)
  let p : Pattern := ⟨r.1, false, false, false, false, junk⟩
  match r.2 with
  | none => some p
  | some flags =>
    let p := evalFlags p flags
    if p.regex && !rx.valid p.pattern p.icase then none else some p

/-- `src/searchPattern.cpp:82-89` — the comparison of a character `a` of the text with a character `b` of the pattern. -/
def same (icase : Bool) (a b : Byte) : Bool :=
  let a := if a = c%'\t' then c%' ' else a
  if icase then decide (toLower a = b) else decide (a = b)

/-- The pattern matches at the beginning of the text. -/
def atStart (icase : Bool) : (text pat : Bytes) → Bool
  | _, [] => true
  | [], _ :: _ => false
  | a :: text, b :: pat => same icase a b && atStart icase text pat

/-- `std::search(...) != str.end()`: a match begins before the end of the text. -/
def search (icase : Bool) : (text pat : Bytes) → Bool
  | [], _ => false
  | a :: text, pat => atStart icase (a :: text) pat || search icase text pat

/-- `src/searchPattern.cpp:93-106` — the element has the type asked for. -/
def typeOk (typeFlag : Int) : Elem → Bool
  | .value (.bool _) => decide (typeFlag ∉ [2, 3, 4])
  | .value (.int _) => decide (typeFlag ∉ [1, 3, 4])
  | .value (.long _) => decide (typeFlag ∉ [1, 3, 4])
  | .value (.dbl _) => decide (typeFlag ∉ [1, 3, 4])
  | .value (.str _) => decide (typeFlag ∉ [1, 2, 4])
  | .entry _ _ => decide (typeFlag ∉ [1, 2, 3])
  | .value _ => decide (typeFlag ∉ [1, 2, 3, 4])

/-- `src/searchPattern.cpp:91-118` — `match`. -/
def «match» (rx : Rx) (p : Pattern) (text : Bytes) (e : Elem) : Bool :=
  if !typeOk p.typeFlag e then false
  else if p.regex then rx.search p.pattern p.icase text
  else if (p.whole && decide (text.length ≠ p.pattern.length)) || decide (p.pattern.length > text.length) then false
  else if p.word && decide (text.length > p.pattern.length) then search p.icase text ([c%' '] ++ p.pattern ++ [c%' '])
  else search p.icase text p.pattern

/-- What `extractUnicode` ends with. -/
inductive Extract where
  /-- the text -/
  | ok (s : Bytes)
  /-- an exception: `std::invalid_argument` about this character (`src/unicode.cpp:13`), or `std::range_error` (surrogates) -/
  | throws (c : Option Byte)
  /-- reads behind the end of the buffer -/
  | overrun
deriving Repr, DecidableEq

/-- A text before the rest. -/
def Extract.prepend (s : Bytes) : Extract → Extract
  | .ok t => .ok (s ++ t)
  | r => r

/-- `src/streamConsumer.cpp:377-392` (`extractUnicode`), `:369-375` (`appendUnicode`). The text is zero-terminated (it contains no zero byte).
After an escape the loop goes on 7 characters later: `buf += 6` and `buf++`. -/
def extractUnicode (surr : Nat → Option Bytes) : Bytes → Extract
  | 92 :: 117 :: a :: b :: c :: d :: rest =>
    match hexWord 0 [a, b, c, d] with
    | .inl x => .throws (some x)
    | .inr n =>
      match toBytes surr n with
      | none => .throws none
      | some bs =>
        match rest with
        | [] => .overrun
        | _ :: rest => (extractUnicode surr rest).prepend bs
  | x :: rest => (extractUnicode surr rest).prepend [x]
  | [] => .ok []

end Verif.Model.Search
