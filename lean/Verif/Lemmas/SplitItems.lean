import Verif.Model.Split
/-!
# The drawing of one window of the diff view as a walk through a list of items
-/
namespace Verif.Lemmas.Split
open Verif.Model Verif.Model.Diff Verif.Model.Split
open Verif.Model.Tui (getNbLines hasReachedBottom cstr openBracket closeBracket collapsedText emptyText isObj isEmptyJ)

/-- One turn of the drawing: an element, or the closing bracket of a container, and its column. -/
structure Item where
  path : Path
  closing : Bool
  col : Nat
deriving DecidableEq, Repr

mutual
/-- What is drawn for a value in column `x` after its own line. -/
def itemsBelow (c : Path → Bool) (p : Path) (x : Nat) : Json → List Item
  | .arr xs => if c p then [] else itemsItems c p 0 (x + 4) xs ++ [⟨p, true, x⟩]
  | .obj es => if c p then [] else itemsEntries c p 0 (x + 4) es ++ [⟨p, true, x⟩]
  | _ => []
def itemsItems (c : Path → Bool) (p : Path) (i x : Nat) : List Json → List Item
  | [] => []
  | v :: vs => ⟨p ++ [i], false, x⟩ :: (itemsBelow c (p ++ [i]) x v ++ itemsItems c p (i + 1) x vs)
def itemsEntries (c : Path → Bool) (p : Path) (i x : Nat) : List (Bytes × Json) → List Item
  | [] => []
  | (_, v) :: es =>
    ⟨p ++ [i], false, x⟩ :: ((if isEmptyJ v then [] else itemsBelow c (p ++ [i] ++ [0]) x v) ++ itemsEntries c p (i + 1) x es)
end

/-- All that is drawn of a document. -/
def itemsAll (c : Path → Bool) (root : Json) : List Item := ⟨[], false, 2⟩ :: itemsBelow c [] 2 root

def kidsFrom (c : Path → Bool) (p : Path) (i x : Nat) : Elem → List Item
  | .value (.arr xs) => itemsItems c p i x (xs.drop i)
  | .value (.obj es) => itemsEntries c p i x (es.drop i)
  | _ => []

/-- What remains to be drawn, given the stack and the column. -/
def restOf (root : Json) (c : Path → Bool) : Nat → List (Nat × Path) → List Item
  | _, [] => []
  | x, (i, p) :: st =>
    (match (Elem.value root).at p with
      | some e => kidsFrom c p i x e
      | none => []) ++ ⟨p, true, x - 4⟩ :: restOf root c (x - 4) st

/-- What remains to be drawn in a window that is being drawn. -/
def remaining (root : Json) (c : Path → Bool) (x : Nat) (st : List (Nat × Path)) : List Item :=
  match st with
  | [] => ⟨[], false, x⟩ :: itemsBelow c [] x root
  | _ :: _ => restOf root c x st

/-- The stack is sound. -/
def Sound (root : Json) (st : List (Nat × Path)) : Prop :=
  ∀ ip ∈ st, ∃ e, (Elem.value root).at ip.2 = some e ∧ e.isContainer = true ∧ ip.1 ≤ e.kids.length

/-- The container that is entered after the line of an element. -/
def opens (root : Json) (c : Path → Bool) (q : Path) : Option Path :=
  match (Elem.value root).at q with
  | some (.value v) => if v.isContainer && !c q then some q else none
  | some (.entry _ v) => if v.isContainer && !c (q ++ [0]) && !isEmptyJ v then some (q ++ [0]) else none
  | none => none

def pushOpen (r : Option Path) (st : List (Nat × Path)) : List (Nat × Path) :=
  match r with
  | some r => (0, r) :: st
  | none => st

def pushCol (r : Option Path) (x : Nat) : Nat := if r.isSome then x + 4 else x

theorem at_append (e : Elem) (p q : Path) : e.at (p ++ q) = (e.at p).bind (·.at q) := by
  induction p generalizing e with
  | nil => rfl
  | cons i p ih =>
    show (e.kids[i]?).bind (fun x => x.at (p ++ q)) = ((e.kids[i]?).bind (fun x => x.at p)).bind _
    cases e.kids[i]? with
    | none => rfl
    | some x => exact ih x

theorem at_child {e x : Elem} {p : Path} {i : Nat} (h : e.at p = some x) : e.at (p ++ [i]) = x.kids[i]? := by
  rw [at_append, h]
  show (x.kids[i]?).bind (fun y => some y) = _
  cases x.kids[i]? <;> rfl

/-- What is below the line of an element is what is entered. -/
theorem below_eq {root : Json} {c : Path → Bool} {q : Path} (x : Nat) (st : List (Nat × Path)) :
    (∀ v, (Elem.value root).at q = some (.value v) →
      itemsBelow c q x v ++ restOf root c x st = restOf root c (pushCol (opens root c q) x) (pushOpen (opens root c q) st)) ∧
    (∀ k v, (Elem.value root).at q = some (.entry k v) →
      (if isEmptyJ v then [] else itemsBelow c (q ++ [0]) x v) ++ restOf root c x st =
        restOf root c (pushCol (opens root c q) x) (pushOpen (opens root c q) st)) := by
  constructor
  · intro v hv
    unfold opens
    rw [hv]
    cases v with
    | arr xs =>
      simp only [itemsBelow, Json.isContainer, Bool.true_and]
      cases hc : c q
      · simp [restOf, hv, kidsFrom, pushOpen, pushCol]
      · simp [pushOpen, pushCol]
    | obj es =>
      simp only [itemsBelow, Json.isContainer, Bool.true_and]
      cases hc : c q
      · simp [restOf, hv, kidsFrom, pushOpen, pushCol]
      · simp [pushOpen, pushCol]
    | _ => simp [itemsBelow, Json.isContainer, pushOpen, pushCol]
  · intro k v hv
    have hv' : (Elem.value root).at (q ++ [0]) = some (.value v) := by rw [at_child hv]; rfl
    unfold opens
    rw [hv]
    cases v with
    | arr xs =>
      simp only [itemsBelow, Json.isContainer, Bool.true_and]
      cases hc : c (q ++ [0]) <;> cases he : isEmptyJ (.arr xs) <;> simp [restOf, hv', kidsFrom, pushOpen, pushCol]
    | obj es =>
      simp only [itemsBelow, Json.isContainer, Bool.true_and]
      cases hc : c (q ++ [0]) <;> cases he : isEmptyJ (.obj es) <;> simp [restOf, hv', kidsFrom, pushOpen, pushCol]
    | _ => simp [itemsBelow, Json.isContainer, pushOpen, pushCol]

/-- One element further. -/
theorem rest_next {root : Json} {c : Path → Bool} {i x : Nat} {p : Path} {st : List (Nat × Path)} {e : Elem}
    (h : (Elem.value root).at p = some e) (hc : e.isContainer = true) (hi : i < e.kids.length) :
    restOf root c x ((i, p) :: st) = ⟨p ++ [i], false, x⟩ ::
      restOf root c (pushCol (opens root c (p ++ [i])) x) (pushOpen (opens root c (p ++ [i])) ((i + 1, p) :: st)) := by
  have hk := at_child (i := i) h
  cases e with
  | entry k v => simp [Elem.isContainer] at hc
  | value v =>
    cases v with
    | arr xs =>
      simp only [Elem.kids, List.length_map] at hi hk
      rw [List.getElem?_map, List.getElem?_eq_getElem hi] at hk
      rw [← (below_eq _ _).1 _ hk]
      simp only [restOf, h, kidsFrom, List.drop_eq_getElem_cons hi, itemsItems, List.cons_append, List.append_assoc]
    | obj es =>
      simp only [Elem.kids, List.length_map] at hi hk
      rw [List.getElem?_map, List.getElem?_eq_getElem hi] at hk
      rw [← (below_eq _ _).2 _ _ hk]
      simp only [restOf, h, kidsFrom, List.drop_eq_getElem_cons hi, itemsEntries, List.cons_append, List.append_assoc]
    | _ => simp [Elem.isContainer] at hc

/-- The end of a container. -/
theorem rest_close {root : Json} {c : Path → Bool} {x : Nat} {p : Path} {st : List (Nat × Path)} {e : Elem}
    (h : (Elem.value root).at p = some e) :
    restOf root c x ((e.kids.length, p) :: st) = ⟨p, true, x - 4⟩ :: restOf root c (x - 4) st := by
  cases e with
  | entry k v => simp [restOf, h, kidsFrom]
  | value v =>
    cases v <;> simp [restOf, h, kidsFrom, Elem.kids, itemsItems, itemsEntries]

theorem opens_spec {root : Json} {c : Path → Bool} {q r : Path} (ho : opens root c q = some r) :
    ∃ v, (Elem.value root).at r = some (.value v) ∧ v.isContainer = true ∧ c r = false ∧ (r = q ∨ r = q ++ [0]) := by
  unfold opens at ho
  split at ho
  · next v hv =>
    split at ho
    · next hc =>
      simp at hc
      cases ho
      exact ⟨v, hv, hc.1, hc.2, .inl rfl⟩
    · cases ho
  · next k v hv =>
    split at ho
    · next hc =>
      simp at hc
      cases ho
      exact ⟨v, by rw [at_child hv]; rfl, hc.1.1, hc.1.2, .inr rfl⟩
    · cases ho
  · cases ho

theorem sound_push {root : Json} {c : Path → Bool} {q : Path} {st : List (Nat × Path)} (h : Sound root st) :
    Sound root (pushOpen (opens root c q) st) := by
  cases ho : opens root c q with
  | none => exact h
  | some r =>
    obtain ⟨v, hv, hc, _, _⟩ := opens_spec ho
    intro ip hip
    rcases List.mem_cons.mp hip with rfl | hip
    · exact ⟨_, hv, by cases v <;> simp_all [Json.isContainer, Elem.isContainer], Nat.zero_le _⟩
    · exact h ip hip

/-- A text that is written: `char` tells `write` of a character from `write` of a string. -/
structure Print where
  who : Ptr
  closing : Bool
  parts : List (Bytes × Nat)
  lines : Nat
  char : Bool

def Print.text (a : Print) : Bytes := joined a.parts

def Print.put (env : Env) (view : View) (a : Print) (w : Win) : Win :=
  if w.y ≤ w.scroll then { w with y := w.y + 1 }
  else
    { w with
      y := w.y + a.lines
      screen := w.screen ++ [⟨w.y - w.scroll, w.x, a.text, isSelected env w a.who, view.results.contains a.who, a.who, a.closing⟩]
      marks := displayDiffOp (if a.char then w.y - w.scroll else w.y) (env.op a.who) w.marks
      calls := w.calls ++ (if a.char then [] else callMark w.y (env.op a.who)) ++
        .text a.char (w.y - w.scroll) w.x a.parts (isSelected env w a.who) (view.results.contains a.who) :: (if a.char then callMark (w.y - w.scroll) (env.op a.who) else []) }

/-- The texts of an item. -/
def prints (env : Env) (view : View) (side : Bool) (it : Item) : List Print :=
  let x := it.col
  if it.closing then [⟨ptr side it.path, true, [(closeBracket (env.isObject (ptr side it.path)), env.type (ptr side it.path))], getNbLines (x + 1) (less view.width 2), true⟩]
  else
    match (Elem.value (env.root side)).at it.path with
    | none => []
    | some (.entry k v) =>
      if v.isContainer && view.collapsed.contains (ptr side (it.path ++ [0])) then
        [⟨ptr side it.path, false, [(cstr k, Paint.typeObjKey), (b!": ", Paint.typeObj), (cstr (collapsedText (isObj v)), env.type (ptr side it.path))], getNbLines (x + env.len k + 2 + 7) (less view.width 2), false⟩]
      else if !v.isContainer then
        [⟨ptr side it.path, false, [(cstr k, Paint.typeObjKey), (b!": ", Paint.typeObj), (cstr (v.stringify env.fmt), env.type (ptr side it.path))], getNbLines (x + env.len k + 2 + env.len (v.stringify env.fmt)) (less view.width 2), false⟩]
      else if isEmptyJ v then
        [⟨ptr side it.path, false, [(cstr k, Paint.typeObjKey), (b!": ", Paint.typeObj), (cstr (emptyText (isObj v)), env.type (ptr side it.path))], getNbLines (x + env.len k + 2 + 3) (less view.width 2), false⟩]
      else
        [⟨ptr side it.path, false, [(cstr k, Paint.typeObjKey), (b!": ", Paint.typeObj)], getNbLines (env.len k + x) (less view.width 4), false⟩,
          ⟨ptr side (it.path ++ [0]), false, [(openBracket (isObj v), env.type (ptr side (it.path ++ [0])))], getNbLines (x + 1) (less view.width 2), true⟩]
    | some (.value v) =>
      if v.isContainer then
        if view.collapsed.contains (ptr side it.path) then
          [⟨ptr side it.path, false, [(collapsedText (isObj v), env.type (ptr side it.path))], getNbLines (7 + x) (less view.width 2), false⟩]
        else [⟨ptr side it.path, false, [(openBracket (isObj v), env.type (ptr side it.path))], getNbLines (x + 1) (less view.width 2), true⟩]
      else [⟨ptr side it.path, false, [(cstr (v.stringify env.fmt), env.type (ptr side it.path))], getNbLines (env.len (v.stringify env.fmt) + x) (less view.width 2), false⟩]

def putAll (env : Env) (view : View) : List Print → Win → Win × Bool
  | [], w => (w, false)
  | [a], w => (a.put env view w, !atBottom view (a.put env view w))
  | a :: b :: l, w =>
    if decide (w.scroll < w.y) && atBottom view (a.put env view w) then (a.put env view w, false) else putAll env view (b :: l) (a.put env view w)

/-- Entering a container. -/
def enter (r : Option Path) (w : Win) : Win :=
  match r with
  | some q => { w with stack := (0, q) :: w.stack, x := w.x + 4 }
  | none => w

/-- Which elements of a window are collapsed. -/
def cOf (view : View) (side : Bool) (p : Path) : Bool := view.collapsed.contains (ptr side p)

theorem writeChar_eq (env : Env) (view : View) (e : Ptr) (cl : Bool) (t : Bytes) (w : Win) :
    writeChar env view e cl t w = Print.put env view ⟨e, cl, [(t, env.type e)], getNbLines (w.x + 1) (less view.width 2), true⟩ w := by
  simp only [writeChar, Print.put, if_true, List.append_nil]; rfl

theorem writeString_eq (env : Env) (view : View) (e : Ptr) (t : List (Bytes × Nat)) (n : Nat) (w : Win) :
    writeString env view e t n w = Print.put env view ⟨e, false, t, n, false⟩ w := by
  simp only [writeString, Print.put, Bool.false_eq_true, if_false]; rfl

theorem put_x (env : Env) (view : View) (a : Print) (w : Win) : (a.put env view w).x = w.x := by
  unfold Print.put; split <;> rfl
theorem put_stack (env : Env) (view : View) (a : Print) (w : Win) : (a.put env view w).stack = w.stack := by
  unfold Print.put; split <;> rfl

/-- An entry with a text after the key. -/
theorem keyAfter_eq (env : Env) (view : View) (e : Ptr) (k t : Bytes) (n : Nat) (w : Win) :
    andBottom view (writeKeyAfter env view e k t n w) =
    putAll env view [⟨e, false, [(cstr k, Paint.typeObjKey), (b!": ", Paint.typeObj), (cstr t, env.type e)], getNbLines (w.x + env.len k + 2 + n) (less view.width 2), false⟩] w := by
  unfold writeKeyAfter
  by_cases h : w.y ≤ w.scroll
  · simp only [h, if_true, putAll, Print.put, andBottom]
  · simp only [h, if_false, writeString_eq, putAll]
    generalize Print.put env view _ w = w'
    cases hb : atBottom view w' <;> simp [andBottom, hb]

theorem openContainer_eq (env : Env) (view : View) (side : Bool) (p : Path) (o : Bool) (w : Win) (hc : view.collapsed.contains (ptr side p) = false) :
    openContainer env view side p o w =
      (match putAll env view [⟨ptr side p, false, [(openBracket o, env.type (ptr side p))], getNbLines (w.x + 1) (less view.width 2), true⟩] w with
        | (w, true) => (enter (some p) w, true)
        | (w, false) => (w, false)) := by
  unfold openContainer
  simp only [hc, writeChar_eq, putAll, Bool.false_eq_true, if_false]
  cases hb : atBottom view _ <;> simp [enter]

theorem check_x (e : Ptr) (w : Win) : (checkSelection e w).x = w.x := by
  unfold checkSelection
  split
  · split <;> rfl
  · split <;> rfl
theorem check_stack (e : Ptr) (w : Win) : (checkSelection e w).stack = w.stack := by
  unfold checkSelection
  split
  · split <;> rfl
  · split <;> rfl

theorem item_eq (env : Env) (view : View) (side : Bool) (p : Path) (w : Win) (e : Elem) (he : (Elem.value (env.root side)).at p = some e) :
    redrawItem env view side p w =
      (match putAll env view (prints env view side ⟨p, false, w.x⟩) (checkSelection (ptr side p) w) with
        | (w, true) => (enter (opens (env.root side) (cOf view side) p) w, true)
        | (w, false) => (w, false)) := by
  have hx := check_x (ptr side p) w
  unfold redrawItem
  generalize hw1 : checkSelection (ptr side p) w = w1 at hx
  simp only [he]
  cases e with
  | entry k v =>
    simp only
    unfold writeObjectEntry
    simp only [keyAfter_eq]
    by_cases h1 : (v.isContainer && view.collapsed.contains (ptr side (p ++ [0]))) = true
    · rw [if_pos h1]
      simp only [prints, Bool.false_eq_true, if_false, he, h1, if_true, ← hx]
      have ho : opens (env.root side) (cOf view side) p = none := by
        have h1 : v.isContainer = true ∧ cOf view side (p ++ [0]) = true := by rwa [Bool.and_eq_true] at h1
        simp only [opens, he, h1.1, h1.2, Bool.not_true, Bool.and_false, Bool.false_and, Bool.false_eq_true, if_false]
      simp only [ho, enter]
      cases hp : putAll env view _ w1 with
      | mk a b => cases b <;> rfl
    · rw [if_neg h1]
      by_cases h2 : v.isContainer = true
      · simp only [h2, Bool.true_and, Bool.not_true, Bool.false_eq_true, if_false] at h1 ⊢
        have h1' : view.collapsed.contains (ptr side (p ++ [0])) = false := by simpa using h1
        by_cases h3 : isEmptyJ v = true
        · simp only [h3, if_true, prints, Bool.false_eq_true, if_false, he, h2, Bool.true_and, Bool.not_true, h1', ← hx]
          have ho : opens (env.root side) (cOf view side) p = none := by
            simp [opens, he, cOf, h3]
          simp only [ho, enter]
          cases hp : putAll env view _ w1 with
          | mk a b => cases b <;> rfl
        · have h3' : isEmptyJ v = false := by simpa using h3
          simp only [h3', prints, Bool.false_eq_true, if_false, he, h2, Bool.true_and, Bool.not_true, h1', ← hx]
          have ho : opens (env.root side) (cOf view side) p = some (p ++ [0]) := by
            simp only [opens, he, cOf, h2, h1', h3']
            rfl
          simp only [ho, writeKey, writeString_eq]
          by_cases hy : w1.y ≤ w1.scroll
          · have hy' : ¬ w1.scroll < w1.y := by omega
            simp only [hy, if_true, putAll, hy', decide_false, Bool.false_and, Bool.false_eq_true, if_false, openContainer_eq env view side _ _ _ h1']
            have hp : Print.put env view ⟨ptr side p, false, [(cstr k, Paint.typeObjKey), (b!": ", Paint.typeObj)], getNbLines (env.len k + w1.x) (less view.width 4), false⟩ w1 =
              { w1 with y := w1.y + 1 } := by simp [Print.put, hy]
            rw [hp]
            generalize Print.put env view _ { w1 with y := w1.y + 1 } = w3
            have he3 : atBottom view (enter (some (p ++ [0])) w3) = atBottom view w3 := rfl
            cases hb : atBottom view w3 with
            | true => simp only [Bool.not_true, andBottom, hb]
            | false => simp only [Bool.not_false, andBottom, he3, hb]
          · have hy' : w1.scroll < w1.y := by omega
            simp only [hy, if_false, putAll, hy', decide_true, Bool.true_and]
            generalize hw2 : Print.put env view _ w1 = w2
            cases hb : atBottom view w2 with
            | true => simp
            | false =>
              simp only [openContainer_eq env view side _ _ _ h1', putAll, Bool.not_false, Bool.false_eq_true, if_false]
              have hx2 : w2.x = w1.x := by rw [← hw2, put_x]
              rw [hx2]
              generalize Print.put env view _ w2 = w3
              have he3 : atBottom view (enter (some (p ++ [0])) w3) = atBottom view w3 := rfl
              cases hb3 : atBottom view w3 with
              | true => simp only [Bool.not_true, andBottom, hb3]
              | false => simp only [Bool.not_false, andBottom, he3, hb3]
      · have h2' : v.isContainer = false := by simpa using h2
        simp only [h2', Bool.false_and, Bool.not_false, if_true, prints, Bool.false_eq_true, if_false, he, ← hx]
        have ho : opens (env.root side) (cOf view side) p = none := by simp [opens, he, h2']
        simp only [ho, enter]
        cases hp : putAll env view _ w1 with
        | mk a b => cases b <;> rfl
  | value v =>
    simp only
    by_cases h2 : v.isContainer = true
    · simp only [h2, if_true, prints, Bool.false_eq_true, if_false, he, ← hx]
      by_cases h1 : view.collapsed.contains (ptr side p) = true
      · have h1' : cOf view side p = true := h1
        have ho : opens (env.root side) (cOf view side) p = none := by simp [opens, he, h1']
        simp only [h1, if_true, ho, enter]
        unfold openContainer
        simp only [h1, if_true, writeString_eq, putAll]
        cases hb : atBottom view _ <;> rfl
      · have h1' : view.collapsed.contains (ptr side p) = false := by simpa using h1
        have ho : opens (env.root side) (cOf view side) p = some p := by
          simp only [opens, he, cOf, h2, h1']
          rfl
        simp only [h1', Bool.false_eq_true, if_false, ho, openContainer_eq env view side _ _ _ h1']
    · have h2' : v.isContainer = false := by simpa using h2
      have ho : opens (env.root side) (cOf view side) p = none := by simp [opens, he, h2']
      simp only [h2', Bool.false_eq_true, if_false, prints, he, ho, enter, writeString_eq, putAll, ← hx]
      cases hb : atBottom view _ <;> rfl

/-- The closing bracket of a container. -/
theorem close_eq (env : Env) (view : View) (side : Bool) (p : Path) (w : Win) :
    closeContainer env view side p (env.isObject (ptr side p)) w =
      putAll env view (prints env view side ⟨p, true, w.x - 4⟩) { w with x := w.x - 4 } := by
  simp only [closeContainer, writeChar_eq, prints, if_true, putAll]

/-- The window just before the texts of an item are written; `st`: the stack then. -/
def before (side : Bool) (it : Item) (st : List (Nat × Path)) (w : Win) : Win :=
  if it.closing then { w with x := w.x - 4, stack := st } else checkSelection (ptr side it.path) { w with stack := st }

/-- The turn of an item. -/
def drawIt (env : Env) (view : View) (side : Bool) (it : Item) (st : List (Nat × Path)) (w : Win) : Win × Bool :=
  match putAll env view (prints env view side it) (before side it st w) with
  | (w, true) => (enter (if it.closing then none else opens (env.root side) (cOf view side) it.path) w, true)
  | (w, false) => (w, false)

/-- The first lines of `redrawOne`. -/
def draw1 (env : Env) (view : View) (side : Bool) (w : Win) : Win × Bool :=
  match w.stack with
  | [] => redrawItem env view side [] w
  | (i, p) :: rest => redrawNext env view side i p rest w

theorem elem_ptr (env : Env) (side : Bool) (p : Path) : env.elem (ptr side p) = (Elem.value (env.root side)).at p := by
  cases side <;> rfl

/-- The turn of a window is that of the first remaining item. -/
theorem draw1_eq (env : Env) (view : View) (side : Bool) (w : Win) (hs : Sound (env.root side) w.stack) :
    ∃ it rest st, remaining (env.root side) (cOf view side) w.x w.stack = it :: rest ∧
      (it.closing = false → ∃ e, (Elem.value (env.root side)).at it.path = some e) ∧
      isAdded env side w = (env.equiv (ptr side it.path)).isNone ∧
      draw1 env view side w = drawIt env view side it st w ∧
      (let o := if it.closing then none else opens (env.root side) (cOf view side) it.path
       Sound (env.root side) (pushOpen o st) ∧
       it.col = (if it.closing then w.x - 4 else w.x) ∧
       restOf (env.root side) (cOf view side) (pushCol o it.col) (pushOpen o st) = rest ∧
       st.length + (if it.closing then 1 else 0) = w.stack.length) := by
  unfold draw1
  cases hst : w.stack with
  | nil =>
    have hw : ({ w with stack := [] } : Win) = w := by cases w; simp_all
    refine ⟨⟨[], false, w.x⟩, itemsBelow (cOf view side) [] w.x (env.root side), [], rfl, fun _ => ⟨_, rfl⟩, ?_, ?_, ?_⟩
    · simp [isAdded, hst]
    · simp only [drawIt, before, Bool.false_eq_true, if_false, hw]
      exact item_eq env view side [] w _ rfl
    · simp only [Bool.false_eq_true, if_false]
      refine ⟨sound_push (by rw [hst] at hs; exact hs), trivial, ?_⟩
      rw [← (below_eq w.x []).1 _ rfl]
      simp [restOf]
  | cons ip st =>
    obtain ⟨i, p⟩ := ip
    rw [hst] at hs
    obtain ⟨e, he, hc, hi⟩ := hs _ (List.mem_cons_self ..)
    have hsz : env.size (ptr side p) = e.kids.length := by simp [Env.size, elem_ptr, he]
    have hs' : Sound (env.root side) st := fun ip hip => hs ip (List.mem_cons_of_mem _ hip)
    by_cases hie : i = e.kids.length
    · subst hie
      refine ⟨⟨p, true, w.x - 4⟩, restOf (env.root side) (cOf view side) (w.x - 4) st, st, rest_close he, by simp, ?_, ?_, ?_⟩
      · simp [isAdded, hst, hsz]
      · simp only [redrawNext, hsz, if_true, drawIt, before, close_eq]
        cases putAll env view _ _ with
        | mk a b => cases b <;> rfl
      · simp only [if_true, pushOpen, pushCol]
        exact ⟨hs', trivial, rfl, rfl⟩
    · have hlt : i < e.kids.length := by omega
      have hk : (Elem.value (env.root side)).at (p ++ [i]) = some (e.kids[i]) := by
        rw [at_child he, List.getElem?_eq_getElem hlt]
      refine ⟨⟨p ++ [i], false, w.x⟩, _, (i + 1, p) :: st, rest_next he hc hlt, fun _ => ⟨_, hk⟩, ?_, ?_, ?_⟩
      · simp [isAdded, hst, hsz, Nat.not_le.mpr hlt]
      · simp only [redrawNext, hsz, hie, if_false, drawIt, before, Bool.false_eq_true]
        exact item_eq env view side (p ++ [i]) { w with stack := (i + 1, p) :: st } _ hk
      · simp only [Bool.false_eq_true, if_false]
        refine ⟨sound_push ?_, by trivial, by trivial, rfl⟩
        intro jp hjp
        rcases List.mem_cons.mp hjp with rfl | hjp
        · exact ⟨e, he, hc, hlt⟩
        · exact hs' jp hjp

end Verif.Lemmas.Split
