import Verif.Model.Reader
/-!
# Lemmas: the recursive reader functions cut into steps
-/
namespace Verif.Lemmas
open Verif.Model

/-- State after the warning about a repeated key. -/
def warnDup (s : St) (k : Bytes) : St := { s with warns := s.warns ++ [⟨.doubleKey k, s.hist⟩] }

/-- `result->push(key, child)`. -/
def addEntry (env : Env) (es : List (Bytes × Json)) (k : Bytes) (v : Json) : List (Bytes × Json) :=
  if env.sort then Json.sortedPush es k v else Json.push es k v

/-- Entries after a possible erase of a repeated key. -/
def dropKey (es : List (Bytes × Json)) (k : Bytes) : List (Bytes × Json) :=
  if Json.contains es k then Json.erase es k else es

/-- After the value of a member: the separator. -/
def objSep (env : Env) (fuel : Nat) (es : List (Bytes × Json)) (tok : Tok) (s : St) : Out Json :=
  match tok with
  | .val _ => .ret (.obj es) s
  | .punct c => if c = 125 then .ret (.obj es) s else objectLoop env fuel (some es) s
  | .nothing => objectLoop env fuel (some es) s

/-- The value of a member was read. -/
def objChild (env : Env) (fuel : Nat) (es : List (Bytes × Json)) (key : Bytes) (child : Option Json) (s : St) : Out Json :=
  match child with
  | none => .ub .nullChild
  | some v => (consumeToken env s).bind (objSep env fuel (addEntry env es key v))

/-- After the key of a member: the colon. -/
def objColon (env : Env) (fuel : Nat) (es : List (Bytes × Json)) (key : Bytes) (tok : Tok) (s : St) : Out Json :=
  match tok with
  | .punct c =>
    if c ≠ 58 then .throw ⟨.unexpected 58, s.hist⟩
    else if (Json.contains es key && env.strictOr) = true then .throw ⟨.doubleKey key, s.hist⟩
    else (readNext env fuel (if Json.contains es key then warnDup s key else s)).bind (objChild env fuel (dropKey es key) key)
  | _ => .throw ⟨.unexpected 58, s.hist⟩

/-- First token of a member. -/
def objKey (env : Env) (fuel : Nat) (r : Option (List (Bytes × Json))) (tok : Tok) (s : St) : Out Json :=
  match tok with
  | .val (.str key) => (consumeToken env s).bind (objColon env fuel (r.getD []) key)
  | .punct c => if r.isNone ∧ c = 125 then .ret (.obj []) s else .throw ⟨.notAKey, s.hist⟩
  | _ => .throw ⟨.notAKey, s.hist⟩

theorem objectLoop_succ (env : Env) (fuel : Nat) (r : Option (List (Bytes × Json))) (s : St) :
    objectLoop env (fuel + 1) r s = (consumeToken env s).bind (objKey env fuel r) := by
  rw [objectLoop]
  congr 1
  funext tok s
  cases tok with
  | nothing => cases r <;> rfl
  | punct c => cases r <;> simp [objKey]
  | val v =>
    cases v with
    | str key =>
      have e : ∀ (x : Bytes → Out Json), (match Tok.val (Json.str key), r with
        | .punct c, none => if c = 125 then .ret (.obj []) s else .throw ⟨.notAKey, s.hist⟩
        | .val (.str key), _ => x key
        | _, _ => .throw ⟨.notAKey, s.hist⟩ : Out Json) = x key := by intro x; cases r <;> rfl
      refine (e (fun key => _)).trans ?_
      simp only [objKey]
      rfl
    | _ => cases r <;> rfl

theorem readNext_succ (env : Env) (fuel : Nat) (s : St) :
    readNext env (fuel + 1) s = (consumeToken env s).bind fun tok s =>
      match tok with
      | .val v => .ret (some v) s
      | .punct c =>
        if c = 123 then (objectLoop env fuel none s).bind fun v s => .ret (some v) s
        else if c = 91 then (readArray env fuel s).bind fun v s => .ret (some v) s
        else .ret none s
      | .nothing => .ret none s := by
  rw [readNext]
  congr 1

theorem readArray_succ (env : Env) (fuel : Nat) (s : St) :
    readArray env (fuel + 1) s = (consumeToken env s).bind fun tok s =>
      match tok with
      | .punct c => if c = 93 then .ret (.arr []) s else arrayLoop env fuel [] (.punct c) s
      | tok => arrayLoop env fuel [] tok s := by
  rw [readArray]
  congr 1

/-- The pending token of an array becomes an item. -/
def arrItem (env : Env) (fuel : Nat) (tok : Tok) (s : St) : Out Json :=
  match tok with
  | .val v => .ret v s
  | .punct c =>
    if c = 91 then readArray env fuel s
    else if c = 123 then objectLoop env fuel none s
    else .throw ⟨.notJson, s.hist⟩
  | .nothing => .throw ⟨.notJson, s.hist⟩

/-- After an item: the separator. -/
def arrSep (env : Env) (fuel : Nat) (acc : List Json) (tok : Tok) (s : St) : Out Json :=
  match tok with
  | .punct c =>
    if c = 93 then .ret (.arr acc) s
    else if c = 44 then (consumeToken env s).bind fun tok s => arrayLoop env fuel acc tok s
    else .throw ⟨.unexpected 93, s.hist⟩
  | _ => .throw ⟨.unexpected 93, s.hist⟩

theorem arrayLoop_succ (env : Env) (fuel : Nat) (acc : List Json) (tok : Tok) (s : St) :
    arrayLoop env (fuel + 1) acc tok s =
      (arrItem env fuel tok s).bind fun child s => (consumeToken env s).bind (arrSep env fuel (acc ++ [child])) := by
  rw [arrayLoop.eq_def]
  dsimp only
  have e : (arrItem env fuel tok s) = (match tok with
      | .val v => .ret v s
      | .punct c =>
        if c = 91 then readArray env fuel s
        else if c = 123 then objectLoop env fuel none s
        else .throw ⟨.notJson, s.hist⟩
      | .nothing => .throw ⟨.notJson, s.hist⟩ : Out Json) := rfl
  rw [e]
  congr 1

end Verif.Lemmas
