import Verif.Model.Basic
/-!
# Model of the document tree (`JSonElement` and its subclasses)
-/
namespace Verif.Model

/-- The document tree: `include/jsonPrimitive.hh:23-66` (`JSonPrimitive<T>` for `std::string`, `bool`, `Null`, `int`,
`long long`, `double`), `include/jsonArray.hh:11-22` (`JSonArray`), `include/jsonObject.hh:14-75` (`JSonObject`,
`JSonSortedObject`: a list of `JSonObjectEntry`). Parent pointers are implicit. A `double` is represented
by the source text given to `atof` (`src/streamConsumer.cpp:289`): `atof` itself is not modelled. -/
inductive Json where
  | str (s : Bytes)
  | bool (b : Bool)
  | null
  | int (i : Int)
  | long (i : Int)
  | dbl (src : Bytes)
  | arr (items : List Json)
  | obj (entries : List (Bytes × Json))
deriving Repr

namespace Json

/-- `std::string operator<` used by `src/jsonObjectEntry.cpp:47-54`: `std::char_traits<char>::lt` compares unsigned
bytes. -/
def keyLt : Bytes → Bytes → Bool
  | _, [] => false
  | [], _ :: _ => true
  | a :: as, b :: bs => decide (a < b) || (decide (a = b) && keyLt as bs)

/-- `src/jsonObject.cpp:21-24` — `JSonObject::push`. -/
def push (es : List (Bytes × Json)) (k : Bytes) (v : Json) : List (Bytes × Json) := es ++ [(k, v)]

/-- `src/jsonObject.cpp:26-33` with `src/jsonObjectEntry.cpp:47-54` — `JSonSortedObject::push`: skip the entries whose
key is less than the new key, insert there. -/
def sortedPush : (es : List (Bytes × Json)) → (k : Bytes) → (v : Json) → List (Bytes × Json)
  | [], k, v => [(k, v)]
  | e :: es, k, v => if keyLt e.1 k then e :: sortedPush es k v else (k, v) :: e :: es

/-- `src/jsonObject.cpp:57-60` (`contains`) through `:35-45` (`find`). -/
def contains (es : List (Bytes × Json)) (k : Bytes) : Bool := es.any (fun e => decide (e.1 = k))

/-- `src/jsonObject.cpp:47-55` — `erase`: removes the first entry with this key. -/
def erase : (es : List (Bytes × Json)) → (k : Bytes) → List (Bytes × Json)
  | [], _ => []
  | e :: es, k => if e.1 = k then es else e :: erase es k

/-- `src/jsonObject.cpp:62-68` — `get`. -/
def get : (es : List (Bytes × Json)) → (k : Bytes) → Option Json
  | [], _ => none
  | e :: es, k => if e.1 = k then some e.2 else get es k

end Json
end Verif.Model
