import Verif.Model.Basic
import Verif.Model.LinearHistory
import Verif.Model.Unicode
import Verif.Model.Json
/-!
# Model of `src/streamConsumer.cpp` (the JSON reader)

* The `std::istream` is the list of bytes still to be read and its `good()` flag. `get()` at the end of the
  input returns `(char) EOF = 0xFF` and clears `good()`; `unget()` on a stream that is not good does nothing.
  A stream error other than end of input is not modelled, nor is `tellg()` (its value is never shown).
* Exceptions the program catches (`JsonException`) are `Out.throw`; exceptions nobody catches
  (`std::invalid_argument`, `std::out_of_range`, `std::range_error`) are `Out.uncaught`; undefined behaviour
  is `Out.ub`. Memory exhaustion and stack overflow are not modelled.
-/
namespace Verif.Model

/-- `include/params.hh:22-40` — the settings of `AParams` the reader looks at. -/
structure Cfg where
  /-- `isStrict()`: false with `-W` -/
  strict : Bool
  /-- `isIgnoringUnicode()`: true with `--ascii` -/
  ascii : Bool
  /-- `sortObjects()`: false with `--keep-order` -/
  sort : Bool
deriving Repr, DecidableEq

/-- What the reader depends on: the `params` pointer (`none` is the null pointer) and the behaviour of the C++
library on lone surrogates. -/
structure Env where
  params : Option Cfg
  surr : Nat → Option Bytes

/-- `params && params->isStrict()` (`src/streamConsumer.cpp:198`). -/
def Env.strictAnd (env : Env) : Bool := match env.params with | some p => p.strict | none => false
/-- `!params || params->isStrict()` (`src/streamConsumer.cpp:86`). -/
def Env.strictOr (env : Env) : Bool := match env.params with | some p => p.strict | none => true
/-- `params && params->isIgnoringUnicode()` (`src/streamConsumer.cpp:177`). -/
def Env.ascii (env : Env) : Bool := match env.params with | some p => p.ascii | none => false
/-- `!params || params->sortObjects()` (`src/streamConsumer.cpp:83`). -/
def Env.sort (env : Env) : Bool := match env.params with | some p => p.sort | none => true

/-- The `JsonException` subclasses: `include/jsonException.hh:42-89`, `include/jsonObject.hh:51-64`. -/
inductive ExnKind where
  | notJson
  | unexpected (expected : Byte)
  | format
  | hexValue (c : Byte)
  | escaped (c : Byte)
  | doubleKey (key : Bytes)
  | notAKey
deriving Repr, DecidableEq

/-- `include/jsonException.hh:23-38` — a `JsonException`: its kind and the copy of the history it holds. -/
structure Exn where
  kind : ExnKind
  hist : LHist
deriving Repr, DecidableEq

/-- Exceptions that are not caught anywhere in the program. -/
inductive Uncaught where
  /-- `std::stoi` on a text without digits -/
  | invalidArgument
  /-- `std::stol` on a number that does not fit `long` -/
  | outOfRange
  /-- `wstring_convert::to_bytes` on a surrogate -/
  | rangeError
deriving Repr, DecidableEq

/-- Kinds of undefined behaviour the reader runs into. -/
inductive UB where
  /-- `LinearHistory::put(char[], unsigned)` reads outside the array it was given -/
  | historyOutOfBounds
  /-- `params->isStrict()` with a null `params` -/
  | nullParams
  /-- `JSonObjectEntry` constructor: `v->setParent(this)` with a null `v` -/
  | nullChild
deriving Repr, DecidableEq

/-- `include/streamConsumer.hh:88-108` — the mutable state of a `StreamConsumer` (and its stream). -/
structure St where
  rest : Bytes
  good : Bool
  hist : LHist
  warns : List Exn
deriving Repr, DecidableEq

/-- Outcome of a reader function. `fuel` means that the model's recursion bound was hit; it is proved
unreachable. -/
inductive Out (α : Type) where
  | ret (a : α) (s : St)
  | throw (e : Exn)
  | uncaught (u : Uncaught)
  | ub (u : UB)
  | fuel
deriving Repr

/-- Sequencing of reader functions: exceptions and undefined behaviour end the run. -/
def Out.bind {α β : Type} (o : Out α) (f : α → St → Out β) : Out β :=
  match o with
  | .ret a s => f a s
  | .throw e => .throw e
  | .uncaught u => .uncaught u
  | .ub u => .ub u
  | .fuel => .fuel

/-- `include/streamConsumer.hh:59-62` — result of `consumeToken`: a primitive, or a null pointer together with the
contents of `buf` (a one-character token, or nothing). -/
inductive Tok where
  | val (v : Json)
  | punct (c : Byte)
  | nothing
deriving Repr

/-- `stream.unget()` after a successful `get()` of `c`; nothing happens when the stream is not good. -/
def St.unget (s : St) (c : Byte) : St := if s.good then { s with rest := c :: s.rest } else s

/-- `src/streamConsumer.cpp:399-402` — `ignoreChar`: with a signed `char`, `c <= 32 || c >= 127` holds for every byte
outside `33..126`. -/
def ignoreChar (c : Byte) : Bool := decide (c ≤ 32) || decide (127 ≤ c)

/-- `src/streamConsumer.cpp:137-206` — `consumeString` (after the opening quote) with `consumeEscapedChar` inlined.
The arguments are the unread bytes, the history, the warnings and the contents of `buf`. In the truncated
`\u` case (line 185) the bytes of `unicodeBuf` beyond `gcount` are indeterminate and count as unreadable. -/
def stringLoop (env : Env) : (rest : Bytes) → LHist → List Exn → (acc : Bytes) → Out Tok
  | [], hist, warns, _ => .ret .nothing ⟨[], false, hist.put 0xFF, warns⟩
  | c :: rest, hist, warns, acc =>
    let hist := hist.put c
    if c = c%'"' then .ret (.val (.str acc)) ⟨rest, true, hist, warns⟩
    else if c = c%'\\' then
      match rest with
      | [] =>
        let hist := hist.put 0xFF
        if env.strictAnd then .throw ⟨.escaped 0xFF, hist⟩
        else .ret .nothing ⟨[], false, hist, warns ++ [⟨.escaped 0xFF, hist⟩]⟩
      | e :: rest =>
        let hist := hist.put e
        if e = c%'\\' ∨ e = c%'"' ∨ e = c%'/' then stringLoop env rest hist warns (acc ++ [e])
        else if e = c%'u' then
          if env.ascii then stringLoop env rest hist warns (acc ++ [c%'\\', c%'u'])
          else match rest with
            | x1 :: x2 :: x3 :: x4 :: rest =>
              match hist.putN [x1, x2, x3, x4] 4 with
              | none => .ub .historyOutOfBounds
              | some hist =>
                match hexWord 0 [x1, x2, x3, x4] with
                | .inl bad => .throw ⟨.hexValue bad, hist⟩
                | .inr n =>
                  match toBytes env.surr n with
                  | none => .uncaught .rangeError
                  | some bs => stringLoop env rest hist warns (acc ++ bs)
            | rest =>
              match hist.putN rest rest.length with
              | none => .ub .historyOutOfBounds
              | some hist => .ret .nothing ⟨[], false, hist, warns⟩
        else if e = c%'b' ∨ e = c%'f' ∨ e = c%'r' ∨ e = c%'n' ∨ e = c%'t' then
          stringLoop env rest hist warns (acc ++ [c%'\\', e])
        else if env.strictAnd then .throw ⟨.escaped e, hist⟩
        else stringLoop env rest hist (warns ++ [⟨.escaped e, hist⟩]) (acc ++ [c%'\\', e])
    else stringLoop env rest hist warns (acc ++ [c])

/-- `src/streamConsumer.cpp:137-169` — `consumeString`. -/
def consumeString (env : Env) (s : St) : Out Tok := stringLoop env s.rest s.hist s.warns []

/-- `src/streamConsumer.cpp:226` — the letters of a boolean literal. -/
def isBoolLetter (c : Byte) : Bool :=
  decide (c = c%'a') || decide (c = c%'e') || decide (c = c%'l') || decide (c = c%'r') || decide (c = c%'s') || decide (c = c%'u')

/-- `src/streamConsumer.cpp:234-251` — a character that is no letter of a boolean literal was read (`s` is the state
after reading it): check the literal, put the character back. Lines 252-255 cannot be reached. -/
def boolEnd (env : Env) (s : St) (c : Byte) (lower raw : Bytes) : Out Tok :=
  if lower ≠ b!"true" ∧ lower ≠ b!"false" then .throw ⟨.format, s.hist⟩
  else if lower ≠ raw ∧ env.params = none then .ub .nullParams
  else if lower ≠ raw ∧ env.strictAnd then .throw ⟨.format, s.hist⟩
  else
    let s := if lower ≠ raw then { s with warns := s.warns ++ [⟨.format, s.hist⟩] } else s
    let s := { s with hist := s.hist.popBack }
    .ret (.val (.bool (decide (lower = b!"true")))) (s.unget c)

/-- `src/streamConsumer.cpp:220-256` — the loop of `consumeBool`; `lower` is the contents of `buf`, `raw` is `rawInput`,
`read` is `lower.length`. -/
def boolLoop (env : Env) (firstLower : Byte) : (rest : Bytes) → LHist → List Exn → (lower raw : Bytes) → Out Tok
  | [], hist, warns, lower, raw => boolEnd env ⟨[], false, hist.put 0xFF, warns⟩ 0xFF lower raw
  | c :: rest, hist, warns, lower, raw =>
    let hist := hist.put c
    if isBoolLetter (toLower c) then
      if (lower.length ≥ 5 ∧ firstLower = c%'f') ∨ (lower.length ≥ 4 ∧ firstLower = c%'t') then
        .throw ⟨.format, hist⟩
      else boolLoop env firstLower rest hist warns (lower ++ [toLower c]) (raw ++ [c])
    else boolEnd env ⟨rest, true, hist, warns⟩ c lower raw

/-- `src/streamConsumer.cpp:208-260` — `consumeBool`. -/
def consumeBool (env : Env) (s : St) (first : Byte) : Out Tok :=
  boolLoop env (toLower first) s.rest s.hist s.warns [toLower first] [first]

/-- Value of a digit string. -/
def decValue (ds : Bytes) : Nat := ds.foldl (fun n d => n * 10 + (d - c%'0')) 0

/-- `strtol` (base 10) on the texts `consumeNumber` collects: an optional `-`, then the longest digit prefix; `none`
when there is no digit. (Leading blanks and `+` do not occur.) -/
def strtol (t : Bytes) : Option Int :=
  match t with
  | [] => none
  | c :: cs =>
    if c = c%'-' then
      if (cs.takeWhile isDigit).isEmpty then none else some (- (decValue (cs.takeWhile isDigit) : Int))
    else if ((c :: cs).takeWhile isDigit).isEmpty then none
    else some (decValue ((c :: cs).takeWhile isDigit) : Int)

/-- `src/streamConsumer.cpp:295-302` — `std::stoi` (32-bit `int`), then `std::stol` (64-bit `long`). -/
def intResult (text : Bytes) : Uncaught ⊕ Json :=
  match strtol text with
  | none => .inl .invalidArgument
  | some v =>
    if -2147483648 ≤ v ∧ v ≤ 2147483647 then .inr (.int v)
    else if -9223372036854775808 ≤ v ∧ v ≤ 9223372036854775807 then .inr (.long v)
    else .inl .outOfRange

/-- `src/streamConsumer.cpp:282-303` — a character that does not belong to the number was read (`s` is the state after
reading it). `atof` never throws. -/
def numberEnd (s : St) (c : Byte) (isDouble : Bool) (text : Bytes) : Out Tok :=
  let s := { s with hist := s.hist.popBack }
  let s := s.unget c
  if isDouble then .ret (.val (.dbl text)) s
  else match intResult text with
    | .inl u => .uncaught u
    | .inr v => .ret (.val v) s

/-- `src/streamConsumer.cpp:270-304` — the loop of `consumeNumber`. -/
def numberLoop : (rest : Bytes) → LHist → List Exn → (isDouble : Bool) → (text : Bytes) → Out Tok
  | [], hist, warns, isDouble, text => numberEnd ⟨[], false, hist.put 0xFF, warns⟩ 0xFF isDouble text
  | c :: rest, hist, warns, isDouble, text =>
    let hist := hist.put c
    if isDigit c then numberLoop rest hist warns isDouble (text ++ [c])
    else if c = c%'.' ∧ isDouble = false then numberLoop rest hist warns true (text ++ [c])
    else numberEnd ⟨rest, true, hist, warns⟩ c isDouble text

/-- `src/streamConsumer.cpp:262-308` — `consumeNumber`. -/
def consumeNumber (s : St) (first : Byte) : Out Tok := numberLoop s.rest s.hist s.warns false [first]

/-- `src/streamConsumer.cpp:310-336` — `consumeNull`. `_buf[1..4]` is the memory given to the history: three bytes read
(or `'\0'`) and the final `'\0'`. -/
def consumeNull (env : Env) (s : St) (first : Byte) : Out Tok :=
  match s.rest with
  | x1 :: x2 :: x3 :: rest =>
    match s.hist.putN [x1, x2, x3, 0] 3 with
    | none => .ub .historyOutOfBounds
    | some hist =>
      let lower := [c%'n', toLower x1, toLower x2, toLower x3]
      let raw := [first, x1, x2, x3]
      if lower = b!"null" then
        if lower = raw then .ret (.val .null) ⟨rest, true, hist, s.warns⟩
        else match env.params with
          | none => .ub .nullParams
          | some p =>
            if p.strict then .throw ⟨.format, hist⟩
            else .ret (.val .null) ⟨rest, true, hist, s.warns ++ [⟨.format, hist⟩]⟩
      else .throw ⟨.format, hist⟩
  | short =>
    match s.hist.putN ((short ++ [0, 0, 0]).take 3 ++ [0]) 3 with
    | none => .ub .historyOutOfBounds
    | some hist => .ret .nothing ⟨[], false, hist, s.warns⟩

/-- `src/streamConsumer.cpp:354` — the one-character tokens. -/
def isPunct (c : Byte) : Bool :=
  decide (c = c%'{') || decide (c = c%'[') || decide (c = c%'}') || decide (c = c%']') || decide (c = c%':') || decide (c = c%',')

/-- `src/streamConsumer.cpp:338-367` — `consumeToken` on a good stream. -/
def tokenLoop (env : Env) : (rest : Bytes) → LHist → List Exn → Out Tok
  | [], hist, warns => .ret .nothing ⟨[], false, hist.put 0xFF, warns⟩
  | c :: rest, hist, warns =>
    let hist := hist.put c
    let s : St := ⟨rest, true, hist, warns⟩
    if c = c%'"' then consumeString env s
    else if c = c%'t' ∨ c = c%'f' ∨ c = c%'T' ∨ c = c%'F' then consumeBool env s c
    else if c = c%'n' ∨ c = c%'N' then consumeNull env s c
    else if isDigit c ∨ c = c%'.' ∨ c = c%'-' then consumeNumber s c
    else if isPunct c then .ret (.punct c) s
    else if ignoreChar c then tokenLoop env rest hist warns
    else .throw ⟨.format, hist⟩

/-- `src/streamConsumer.cpp:338-367` — `consumeToken`: a stream that is not good yields nothing. -/
def consumeToken (env : Env) (s : St) : Out Tok :=
  if s.good then tokenLoop env s.rest s.hist s.warns else .ret .nothing s

mutual

/-- `src/streamConsumer.cpp:38-58` — `readNext`; `none` is the null pointer. -/
def readNext (env : Env) : (fuel : Nat) → St → Out (Option Json)
  | 0, _ => .fuel
  | fuel + 1, s =>
    (consumeToken env s).bind fun tok s =>
      match tok with
      | .val v => .ret (some v) s
      | .punct c =>
        if c = c%'{' then (objectLoop env fuel none s).bind fun v s => .ret (some v) s
        else if c = c%'[' then (readArray env fuel s).bind fun v s => .ret (some v) s
        else .ret none s
      | .nothing => .ret none s

/-- `src/streamConsumer.cpp:72-99` — the loop of `readObject`; `result` is the object built so far (`none`: null
pointer). -/
def objectLoop (env : Env) : (fuel : Nat) → (result : Option (List (Bytes × Json))) → St → Out Json
  | 0, _, _ => .fuel
  | fuel + 1, result, s =>
    (consumeToken env s).bind fun tok s =>
      match tok, result with
      | .punct c, none => if c = c%'}' then .ret (.obj []) s else .throw ⟨.notAKey, s.hist⟩
      | .val (.str key), _ =>
        (consumeToken env s).bind fun tok s =>
          match tok with
          | .punct c =>
            if c ≠ c%':' then .throw ⟨.unexpected (c%':'), s.hist⟩
            else
              let es := result.getD []
              let dup := Json.contains es key
              if dup && env.strictOr then .throw ⟨.doubleKey key, s.hist⟩
              else
                let es := if dup then Json.erase es key else es
                let s := if dup then { s with warns := s.warns ++ [⟨.doubleKey key, s.hist⟩] } else s
                (readNext env fuel s).bind fun child s =>
                  match child with
                  | none => .ub .nullChild
                  | some v =>
                    let es := if env.sort then Json.sortedPush es key v else Json.push es key v
                    (consumeToken env s).bind fun tok s =>
                      match tok with
                      | .val _ => .ret (.obj es) s
                      | .punct c => if c = c%'}' then .ret (.obj es) s else objectLoop env fuel (some es) s
                      | .nothing => objectLoop env fuel (some es) s
          | _ => .throw ⟨.unexpected (c%':'), s.hist⟩
      | _, _ => .throw ⟨.notAKey, s.hist⟩

/-- `src/streamConsumer.cpp:102-110` — `readArray`: the first token. -/
def readArray (env : Env) : (fuel : Nat) → St → Out Json
  | 0, _ => .fuel
  | fuel + 1, s =>
    (consumeToken env s).bind fun tok s =>
      match tok with
      | .punct c => if c = c%']' then .ret (.arr []) s else arrayLoop env fuel [] (.punct c) s
      | tok => arrayLoop env fuel [] tok s

/-- `src/streamConsumer.cpp:111-134` — the loop of `readArray`; `tok` is the pending token (`child`, `buf`), `acc` the items
pushed so far. -/
def arrayLoop (env : Env) : (fuel : Nat) → (acc : List Json) → Tok → St → Out Json
  | 0, _, _, _ => .fuel
  | fuel + 1, acc, tok, s =>
    (match tok with
      | .val v => .ret v s
      | .punct c =>
        if c = c%'[' then readArray env fuel s
        else if c = c%'{' then objectLoop env fuel none s
        else .throw ⟨.notJson, s.hist⟩
      | .nothing => .throw ⟨.notJson, s.hist⟩ : Out Json).bind fun child s =>
        let acc := acc ++ [child]
        (consumeToken env s).bind fun tok s =>
          match tok with
          | .punct c =>
            if c = c%']' then .ret (.arr acc) s
            else if c = c%',' then (consumeToken env s).bind fun tok s => arrayLoop env fuel acc tok s
            else .throw ⟨.unexpected (c%']'), s.hist⟩
          | _ => .throw ⟨.unexpected (c%']'), s.hist⟩

end

/-- `src/streamConsumer.cpp:15-16` — a new `StreamConsumer` on the bytes `input`; the memory of the history is
uninitialised. -/
def St.init (junkBuf : List Byte) (junkWritten : Nat) (input : Bytes) : St :=
  ⟨input, true, LHist.init junkBuf junkWritten, []⟩

/-- `src/streamConsumer.cpp:30-36` — `read()` on a new `StreamConsumer`; the result is `getRoot()`. -/
def read (env : Env) (s : St) : Out (Option Json) := readNext env (2 * s.rest.length + 4) s

end Verif.Model
