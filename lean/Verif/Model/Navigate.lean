import Verif.Model.SearchPattern
import Verif.Model.SimpleOutput
/-!
# Model of the navigation in a document

`JSonElement::findNext` / `findPrev` (`src/jsonElement.cpp`), the search and the jump to the next result (`src/curseSimpleOutput.cpp`,
`src/curseOutput.cpp`). Elements are named by their positions (`Model/Element.lean`): comparing pointers is comparing positions.
-/
namespace Verif.Model.Nav
open Verif.Model Verif.Model.Search

/-- `src/jsonElement.cpp:66-83` — `findPrev`: the previous element of the container around; `none` is the null pointer. -/
def findPrev (root : Json) (p : Path) : Option Path :=
  match p.getLast? with
  | none => none
  | some i =>
    match (Elem.value root).at p.dropLast with
    | none => none
    | some parent => if !parent.isContainer then none else if i = 0 then none else some (p.dropLast ++ [i - 1])

/-- `src/jsonElement.cpp:85-104` — `findNext` of the element whose position, innermost number first, is given: the next element
of the container around, otherwise that of the container itself (`parent->findNext()`). -/
def findNextRev (root : Json) : List Nat → Option Path
  | [] => none
  | i :: rev =>
    match (Elem.value root).at rev.reverse with
    | none => none
    | some parent =>
      if !parent.isContainer then none
      else if i + 1 < parent.kids.length then some (rev.reverse ++ [i + 1])
      else findNextRev root rev

/-- `src/jsonElement.cpp:85-104` — `findNext`. -/
def findNext (root : Json) (p : Path) : Option Path := findNextRev root p.reverse

mutual
/-- `src/curseSimpleOutput.cpp:458-485` — `search(pattern, current)` for a value: the elements it appends to `search_result`.
`inEntry`: the parent is an object entry. -/
def searchValue (rx : Rx) (fmt : Bytes → Bytes) (pat : Pattern) (p : Path) (inEntry : Bool) : Json → List Path
  | .arr xs => searchItems rx fmt pat p 0 xs
  | .obj es => searchEntries rx fmt pat p 0 es
  | .str s => if «match» rx pat (Json.stringify fmt (.str s)) (.value (.str s)) then [if inEntry then p.dropLast else p] else []
  | .bool b => if «match» rx pat (Json.stringify fmt (.bool b)) (.value (.bool b)) then [if inEntry then p.dropLast else p] else []
  | .null => if «match» rx pat (Json.stringify fmt .null) (.value .null) then [if inEntry then p.dropLast else p] else []
  | .int i => if «match» rx pat (Json.stringify fmt (.int i)) (.value (.int i)) then [if inEntry then p.dropLast else p] else []
  | .long i => if «match» rx pat (Json.stringify fmt (.long i)) (.value (.long i)) then [if inEntry then p.dropLast else p] else []
  | .dbl s => if «match» rx pat (Json.stringify fmt (.dbl s)) (.value (.dbl s)) then [if inEntry then p.dropLast else p] else []
/-- `src/curseSimpleOutput.cpp:466-468` — the loop over the items of an array, from number `i` on. -/
def searchItems (rx : Rx) (fmt : Bytes → Bytes) (pat : Pattern) (p : Path) (i : Nat) : List Json → List Path
  | [] => []
  | x :: xs => searchValue rx fmt pat (p ++ [i]) false x ++ searchItems rx fmt pat p (i + 1) xs
/-- `src/curseSimpleOutput.cpp:466-468`, `:471-482` — the loop over the entries of an object, with the call for each entry inlined: its text is
the key (`src/jsonObjectEntry.cpp:42-45`). -/
def searchEntries (rx : Rx) (fmt : Bytes → Bytes) (pat : Pattern) (p : Path) (i : Nat) : List (Bytes × Json) → List Path
  | [] => []
  | (k, v) :: es =>
    (if «match» rx pat k (.entry k v) then [p ++ [i]] else []) ++ searchValue rx fmt pat (p ++ [i] ++ [0]) true v ++
      searchEntries rx fmt pat p (i + 1) es
end

/-- `src/curseSimpleOutput.cpp:165-176` — the search of a whole document: the result list and the count returned. -/
def search (rx : Rx) (fmt : Bytes → Bytes) (pat : Pattern) (root : Json) : List Path × Nat :=
  let r := searchValue rx fmt pat [] false root
  (r, r.length)

mutual
/-- `src/curseSimpleOutput.cpp:403-430` — `jumpToNextSearch(current, selectFound)` for a value: the new `selectFound` and the element
jumped to, if any. -/
def jumpValue (results : List Path) (sel : Path) (p : Path) (found : Bool) : Json → Bool × Option Path
  | .arr xs => jumpItems results sel p 0 (found || decide (sel = p)) xs
  | .obj es => jumpEntries results sel p 0 (found || decide (sel = p)) es
  | _ =>
    let found := found || decide (sel = p)
    (found, if results.contains p && decide (p ≠ sel) && found then some p else none)
/-- `src/curseSimpleOutput.cpp:411-414` — the loop over the items of an array. -/
def jumpItems (results : List Path) (sel : Path) (p : Path) (i : Nat) (found : Bool) : List Json → Bool × Option Path
  | [] => (found, none)
  | x :: xs =>
    match jumpValue results sel (p ++ [i]) found x with
    | (f, some q) => (f, some q)
    | (f, none) => jumpItems results sel p (i + 1) f xs
/-- `src/curseSimpleOutput.cpp:411-414`, `:418-427` — the loop over the entries of an object, with the call for each entry inlined. -/
def jumpEntries (results : List Path) (sel : Path) (p : Path) (i : Nat) (found : Bool) : List (Bytes × Json) → Bool × Option Path
  | [] => (found, none)
  | (_, v) :: es =>
    let found := found || decide (sel = p ++ [i])
    if results.contains (p ++ [i]) && decide (p ++ [i] ≠ sel) && found then (found, some (p ++ [i]))
    else
      match jumpValue results sel (p ++ [i] ++ [0]) found v with
      | (f, some q) => (f, some q)
      | (f, none) => jumpEntries results sel p (i + 1) f es
end

/-- `src/curseOutput.cpp:195-202` — `unfold`: the ancestors of an element are no longer collapsed. -/
def unfold (collapsed : List Path) (p : Path) : List Path :=
  collapsed.filter fun q => !(q.isPrefixOf p && decide (q ≠ p))

/-- `src/curseSimpleOutput.cpp:487-500` — `jumpToNextSearch()`: the new selection, the new collapsed elements, and whether a result was
found after the selection. `results` is not empty (`src/curseSimpleOutput.cpp:180`). -/
def jump (root : Json) (results : List Path) (sel : Path) (collapsed : List Path) : Option (Path × List Path × Bool) :=
  match (jumpValue results sel [] false root).2 with
  | some q => some (q, unfold collapsed q, true)
  | none =>
    match results with
    | [] => none
    | q :: _ => some (q, unfold collapsed q, false)

end Verif.Model.Nav
