import Verif.Model.Reader
import Verif.Model.SimpleOutput
/-!
# Model of the reader with its objects: `new`, `delete`, and the pointers between elements

`Model/Reader.lean` gives the document that is read as a value. Here the objects the program creates are explicit: each has an address, a pointer to its parent
(`include/jsonElement.hh:64`) and pointers to what it owns. To use or to free an object that is not there (any more) is the outcome `bad`.

Simplification: an address is not used again after its object was freed, and memory never runs out.
-/
namespace Verif.Model.Heap
open Verif.Model

/-- An address; the null pointer is `none` of `Option Addr`. -/
scoped macro "Addr" : term => `(Nat)

/-- What an object holds: a primitive (`include/jsonPrimitive.hh:40-66`), a `JSonArray`, a `JSonObject` or `JSonSortedObject` (a list of pointers,
`include/jsonContainer.hh:12`), or a `JSonObjectEntry` (`include/jsonObjectEntry.hh:13-34`). -/
inductive Body where
  | prim (v : Json)
  | arr (items : List Addr)
  | obj (sorted : Bool) (entries : List Addr)
  | entry (key : Bytes) (value : Addr)

/-- `include/jsonElement.hh:11-69` — an element: its parent and what it holds (the cached length `_strlen` is in `Model/StrLen.lean`). -/
structure Obj where
  parent : Option Addr
  body : Body

/-- The objects there are, and the next address. -/
structure Mem where
  next : Addr
  get : Addr → Option Obj

/-- No objects. -/
def Mem.empty : Mem := ⟨0, fun _ => none⟩

/-- The object at an address is changed. -/
def Mem.set (m : Mem) (a : Addr) (o : Obj) : Mem := { m with get := fun x => if x = a then some o else m.get x }

/-- `new`. -/
def Mem.new (m : Mem) (o : Obj) : Addr × Mem := (m.next, ⟨m.next + 1, fun x => if x = m.next then some o else m.get x⟩)

/-- `operator delete`: the memory of one object is given back. -/
def Mem.drop (m : Mem) (a : Addr) : Mem := { m with get := fun x => if x = a then none else m.get x }

/-- Outcome of a destructor. -/
inductive Del where
  | done (m : Mem)
  | bad
  | fuel

/-- `delete i` for each element of a list, in order. -/
def each (f : Addr → Mem → Del) : List Addr → Mem → Del
  | [], m => .done m
  | a :: l, m =>
    match f a m with
    | .done m => each f l m
    | r => r

/-- `delete`: the destructors `src/jsonArray.cpp:12-16`, `src/jsonObject.cpp:15-19`, `src/jsonObjectEntry.cpp:15-18`, `src/jsonPrimitive.cpp:18-23`, then the memory of the object. -/
def delete : (fuel : Nat) → Addr → Mem → Del
  | 0, _, _ => .fuel
  | n + 1, a, m =>
    let finish := fun (r : Del) => match r with
      | .done m => match m.get a with
        | some _ => .done (m.drop a)
        | none => .bad
      | r => r
    match m.get a with
    | none => .bad
    | some ⟨_, .prim _⟩ => finish (.done m)
    | some ⟨_, .entry _ v⟩ => finish (delete n v m)
    | some ⟨_, .arr l⟩ => finish (each (delete n) l m)
    | some ⟨_, .obj _ l⟩ => finish (each (delete n) l m)

/-- `src/jsonElement.cpp:19-22` — `setParent`. -/
def setParent (m : Mem) (a : Addr) (p : Option Addr) : Option Mem := (m.get a).map fun o => m.set a { o with parent := p }

/-- The key of an entry. -/
def keyOf (m : Mem) (e : Addr) : Option Bytes :=
  match m.get e with
  | some ⟨_, .entry k _⟩ => some k
  | _ => none

/-- `src/jsonObject.cpp:35-45` — `find`: the first entry with this key; the outer `none` is the use of an object that is not there. -/
def find (m : Mem) (key : Bytes) : List Addr → Option (Option Addr)
  | [] => some none
  | e :: l =>
    match keyOf m e with
    | none => none
    | some k => if k = key then some (some e) else find m key l

/-- `src/jsonObject.cpp:31` with `src/jsonObjectEntry.cpp:47-57` — the place in a `JSonSortedObject` is searched for from the front: `e` is put before the first entry whose key is not less. -/
def insert (m : Mem) (key : Bytes) (e : Addr) : List Addr → Option (List Addr)
  | [] => some [e]
  | x :: l =>
    match keyOf m x with
    | none => none
    | some k => if Json.keyLt k key then (insert m key e l).map (x :: ·) else some (e :: x :: l)

/-- `src/jsonObject.cpp:21-33` — `push`, with the constructor of the entry (`src/jsonObjectEntry.cpp:10-13`): it makes itself the parent of the value. -/
def push (m : Mem) (r : Addr) (key : Bytes) (v : Addr) : Option Mem :=
  match m.get r with
  | some ⟨p, .obj sorted l⟩ =>
    let (e, m) := m.new ⟨some r, .entry key v⟩
    match setParent m v (some e) with
    | none => none
    | some m => (if sorted then insert m key e l else some (l ++ [e])).map fun l => m.set r ⟨p, .obj sorted l⟩
  | _ => none

/-- `src/jsonObject.cpp:47-55` — `erase`: the entry with this key is destroyed, then taken out of the list. As fuel for the destructor there is one step for each object ever created. -/
def erase (m : Mem) (r : Addr) (key : Bytes) : Del :=
  match m.get r with
  | some ⟨p, .obj sorted l⟩ =>
    match find m key l with
    | none => .bad
    | some none => .done m
    | some (some e) =>
      match delete m.next e m with
      | .done m => .done (m.set r ⟨p, .obj sorted (l.erase e)⟩)
      | r => r
  | _ => .bad

/-- `src/jsonObject.cpp:57-60` — `contains`. -/
def contains (m : Mem) (r : Addr) (key : Bytes) : Option Bool :=
  match m.get r with
  | some ⟨_, .obj _ l⟩ => (find m key l).map Option.isSome
  | _ => none

/-- `result->push_back(child)` for an array, after `child->setParent(result)` (`src/streamConsumer.cpp:121-122`). -/
def pushBack (m : Mem) (r : Addr) (a : Addr) : Option Mem :=
  match setParent m a (some r) with
  | none => none
  | some m =>
    match m.get r with
    | some ⟨p, .arr l⟩ => some (m.set r ⟨p, .arr (l ++ [a])⟩)
    | _ => none

/-- Outcome of a reader function, with the objects there are afterwards. -/
inductive HOut (α : Type) where
  | ret (a : α) (s : St) (m : Mem)
  | throw (e : Exn) (m : Mem)
  | uncaught (u : Uncaught) (m : Mem)
  | ub (u : UB)
  | bad
  | fuel

/-- Sequencing: exceptions and undefined behaviour end the run; what was created stays. -/
def HOut.bind {α β : Type} (o : HOut α) (f : α → St → Mem → HOut β) : HOut β :=
  match o with
  | .ret a s m => f a s m
  | .throw e m => .throw e m
  | .uncaught u m => .uncaught u m
  | .ub u => .ub u
  | .bad => .bad
  | .fuel => .fuel

/-- `include/streamConsumer.hh:59-62` — result of `consumeToken`: a new primitive, or a null pointer together with the contents of `buf`. -/
inductive HTok where
  | val (a : Addr)
  | punct (c : Byte)
  | nothing

/-- `src/streamConsumer.cpp:338-367` — `consumeToken(parent, buf)`: a primitive is created with this parent (`:152`, `:242`, `:250`, `:289`, `:297`, `:301`, `:333`). -/
def token (env : Env) (parent : Option Addr) (s : St) (m : Mem) : HOut HTok :=
  match consumeToken env s with
  | .ret (.val v) s =>
    let (a, m) := m.new ⟨parent, .prim v⟩
    .ret (.val a) s m
  | .ret (.punct c) s => .ret (.punct c) s m
  | .ret .nothing s => .ret .nothing s m
  | .throw e => .throw e m
  | .uncaught u => .uncaught u m
  | .ub u => .ub u
  | .fuel => .fuel

/-- An object for the result, if there is none yet (`src/streamConsumer.cpp:82-83`), otherwise the treatment of a repeated key (`:84-93`). -/
def result (env : Env) (parent r : Option Addr) (key : Bytes) (s : St) (m : Mem) : HOut Addr :=
  match r with
  | none =>
    let (a, m) := m.new ⟨parent, .obj env.sort []⟩
    .ret a s m
  | some r =>
    match contains m r key with
    | none => .bad
    | some false => .ret r s m
    | some true =>
      if env.strictOr then .throw ⟨.doubleKey key, s.hist⟩ m
      else match erase m r key with
        | .bad => .bad
        | .fuel => .fuel
        | .done m => .ret r { s with warns := s.warns ++ [⟨.doubleKey key, s.hist⟩] } m

/-- An array for the result, if there is none yet (`src/streamConsumer.cpp:119-120`). -/
def arrResult (parent r : Option Addr) (m : Mem) : Addr × Mem :=
  match r with
  | none => m.new ⟨parent, .arr []⟩
  | some r => (r, m)

mutual

/-- `src/streamConsumer.cpp:38-58` — `readNext(parent)`; `none` is the null pointer. -/
def readNext (env : Env) : (fuel : Nat) → (parent : Option Addr) → St → Mem → HOut (Option Addr)
  | 0, _, _, _ => .fuel
  | fuel + 1, parent, s, m =>
    (token env parent s m).bind fun tok s m =>
      match tok with
      | .val a => .ret (some a) s m
      | .punct c =>
        if c = c%'{' then (objectLoop env fuel parent none s m).bind fun a s m => .ret (some a) s m
        else if c = c%'[' then (readArray env fuel parent s m).bind fun a s m => .ret (some a) s m
        else .ret none s m
      | .nothing => .ret none s m

/-- `src/streamConsumer.cpp:66-100` — `readObject(parent)`: its loop; `r` is `result`. The primitive of the key is destroyed after its entry was made (`:96`); a primitive in place of the
separator ends the loop, and nobody destroys it (`:97-98`). -/
def objectLoop (env : Env) : (fuel : Nat) → (parent r : Option Addr) → St → Mem → HOut Addr
  | 0, _, _, _, _ => .fuel
  | fuel + 1, parent, r, s, m =>
    (token env r s m).bind fun tok s m =>
      match tok with
      | .punct c =>
        if r.isNone ∧ c = c%'}' then
          let (a, m) := m.new ⟨parent, .obj false []⟩
          .ret a s m
        else .throw ⟨.notAKey, s.hist⟩ m
      | .nothing => .throw ⟨.notAKey, s.hist⟩ m
      | .val k =>
        match m.get k with
        | some ⟨_, .prim (.str key)⟩ =>
          (token env parent s m).bind fun tok s m =>
            match tok with
            | .punct c =>
              if c ≠ c%':' then .throw ⟨.unexpected (c%':'), s.hist⟩ m
              else
                (result env parent r key s m).bind fun r s m =>
                  (readNext env fuel (some r) s m).bind fun child s m =>
                    match child with
                    | none => .ub .nullChild
                    | some v =>
                      match push m r key v with
                      | none => .bad
                      | some m =>
                        match delete m.next k m with
                        | .bad => .bad
                        | .fuel => .fuel
                        | .done m =>
                          (token env (some r) s m).bind fun tok s m =>
                            match tok with
                            | .val _ => .ret r s m
                            | .punct c => if c = c%'}' then .ret r s m else objectLoop env fuel parent (some r) s m
                            | .nothing => objectLoop env fuel parent (some r) s m
            | _ => .throw ⟨.unexpected (c%':'), s.hist⟩ m
        | some _ => .throw ⟨.notAKey, s.hist⟩ m
        | none => .bad

/-- `src/streamConsumer.cpp:102-110` — `readArray(parent)`: the first token. -/
def readArray (env : Env) : (fuel : Nat) → (parent : Option Addr) → St → Mem → HOut Addr
  | 0, _, _, _ => .fuel
  | fuel + 1, parent, s, m =>
    (token env parent s m).bind fun tok s m =>
      match tok with
      | .punct c =>
        if c = c%']' then
          let (a, m) := m.new ⟨parent, .arr []⟩
          .ret a s m
        else arrayLoop env fuel parent none (.punct c) s m
      | tok => arrayLoop env fuel parent none tok s m

/-- `src/streamConsumer.cpp:111-134` — the loop of `readArray`; `tok` is the pending token, `r` is `result`. A container among the items is read with a null parent (`:114`, `:116`), `setParent`
follows (`:121`). -/
def arrayLoop (env : Env) : (fuel : Nat) → (parent r : Option Addr) → HTok → St → Mem → HOut Addr
  | 0, _, _, _, _, _ => .fuel
  | fuel + 1, parent, r, tok, s, m =>
    (match tok with
      | .val a => .ret a s m
      | .punct c =>
        if c = c%'[' then readArray env fuel none s m
        else if c = c%'{' then objectLoop env fuel none none s m
        else .throw ⟨.notJson, s.hist⟩ m
      | .nothing => .throw ⟨.notJson, s.hist⟩ m : HOut Addr).bind fun child s m =>
        let r := arrResult parent r m
        match pushBack r.2 r.1 child with
        | none => .bad
        | some m =>
          (token env (some r.1) s m).bind fun tok s m =>
            match tok with
            | .punct c =>
              if c = c%']' then .ret r.1 s m
              else if c = c%',' then (token env (some r.1) s m).bind fun tok s m => arrayLoop env fuel parent (some r.1) tok s m
              else .throw ⟨.unexpected (c%']'), s.hist⟩ m
            | _ => .throw ⟨.unexpected (c%']'), s.hist⟩ m

end

/-- `src/streamConsumer.cpp:30-36` — `read()` on a new `StreamConsumer`; the result is `getRoot()`. -/
def read (env : Env) (s : St) : HOut (Option Addr) := readNext env (2 * s.rest.length + 4) none s .empty

/-- `src/streamConsumer.cpp:18-22` — the destructor of the `StreamConsumer`. -/
def close (root : Option Addr) (m : Mem) : Del :=
  match root with
  | none => .done m
  | some a => delete m.next a m

/-- `src/jsonElement.cpp:47-53` — `getLevel`: the number of steps up to the null pointer. -/
def getLevel (m : Mem) : (fuel : Nat) → Option Addr → Option Nat
  | _, none => some 0
  | 0, some _ => none
  | n + 1, some a => (m.get a).bind fun o => (getLevel m n o.parent).map (· + 1)

/-- `dynamic_cast<const JSonContainer *>`: the pointers of a container. -/
def items (m : Mem) (a : Addr) : Option (List Addr) :=
  match m.get a with
  | some ⟨_, .arr l⟩ => some l
  | some ⟨_, .obj _ l⟩ => some l
  | _ => none

/-- The loop of `findPrev` (`src/jsonElement.cpp:76-81`): `prev` is the element before. -/
def before (item : Addr) : (prev : Addr) → List Addr → Option Addr
  | _, [] => none
  | prev, x :: l => if x = item then some prev else before item x l

/-- `src/jsonElement.cpp:65-83` — `findPrev`. An empty container around an element is `*cbegin()` of an empty list: it does not happen, and is the null pointer here. -/
def findPrev (m : Mem) (a : Addr) : Option Addr :=
  match (m.get a).bind (·.parent) with
  | none => none
  | some p =>
    match items m p with
    | none => none
    | some [] => none
    | some (x :: l) => if x = a then none else before a x l

/-- The loop of `findNext` (`src/jsonElement.cpp:92-102`): the element after, `none` if there is none in this container. -/
def after (item : Addr) : List Addr → Option Addr
  | [] => none
  | x :: l => if x = item then l.head? else after item l

/-- `src/jsonElement.cpp:85-104` — `findNext`. -/
def findNext (m : Mem) : (fuel : Nat) → Addr → Option Addr
  | 0, _ => none
  | n + 1, a =>
    match (m.get a).bind (·.parent) with
    | none => none
    | some p =>
      match items m p with
      | none => none
      | some l =>
        match after a l with
        | some x => some x
        | none => findNext m n p

/-- `stringify()` of an element (`src/jsonPrimitive.cpp:24-47`, `src/jsonArray.cpp:32-35`, `src/jsonObject.cpp:86-89`, `src/jsonObjectEntry.cpp:42-45`). -/
def text (fmt : Bytes → Bytes) : Body → Bytes
  | .prim v => v.stringify fmt
  | .arr _ => b!"[ ]"
  | .obj _ _ => b!"{ }"
  | .entry k _ => k

/-- `operator==(const JSonElement *)`: containers `src/jsonContainer.cpp:15-29`, entries `src/jsonObjectEntry.cpp:25-30`, primitives `src/jsonElement.cpp:111-114`. The items of containers
and the values of entries are compared as pointers. `none` is the use of an object that is not there. -/
def equals (fmt : Bytes → Bytes) (m : Mem) (a b : Addr) : Option Bool :=
  match m.get a, m.get b with
  | some o, some o' =>
    match o.body with
    | .prim v => some (decide (v.stringify fmt = text fmt o'.body))
    | .entry k v => match o'.body with
      | .entry k' v' => some (decide (k = k') && decide (v = v'))
      | _ => some false
    | .arr l | .obj _ l => match items m b with
      | none => some false
      | some l' => some (decide (l.length = l'.length) && (l.zip l').all fun x => decide (x.1 = x.2))
  | _, _ => none

end Verif.Model.Heap
