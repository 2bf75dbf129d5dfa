import Verif.Lemmas.SplitPic
/-!
# The texts of a window of the diff view are its outline
-/
namespace Verif.Lemmas.Split
open Verif.Model Verif.Model.Diff Verif.Model.Split Verif.Spec.SplitView
open Verif.Model.Tui (getNbLines hasReachedBottom cstr openBracket closeBracket collapsedText emptyText isObj isEmptyJ)

attribute [local simp] Print.text joined

/-- A text with its column, as a line. -/
def asLine (t : Nat × Print) : Ptr × Bool × Nat × Bytes × Nat := (t.2.who, t.2.closing, t.1, t.2.text, t.2.lines)

def ofLine (side : Bool) (l : Line) : Ptr × Bool × Nat × Bytes × Nat := (ptr side l.elem, l.closing, l.col, l.text, l.lines)

/-- The layout of a window. -/
def layOf (env : Env) (view : View) (side : Bool) : Layout :=
  ⟨cOf view side, env.fmt, env.len, less view.width 2, less view.width 4⟩

theorem taken_eq (n w : Nat) : taken n w = getNbLines n w := by
  unfold taken getNbLines
  split <;> rfl

/-- The lines of the texts of items. -/
def lined (env : Env) (view : View) (side : Bool) (l : List Item) : List (Ptr × Bool × Nat × Bytes × Nat) :=
  (l.flatMap (colPrints env view side)).map asLine

theorem lined_cons (env : Env) (view : View) (side : Bool) (it : Item) (l : List Item) :
    lined env view side (it :: l) = (colPrints env view side it).map asLine ++ lined env view side l := by
  simp [lined]

theorem lined_append (env : Env) (view : View) (side : Bool) (l m : List Item) :
    lined env view side (l ++ m) = lined env view side l ++ lined env view side m := by
  simp [lined]

theorem lined_close {env : Env} {view : View} {side : Bool} {p : Path} {x : Nat} {v : Json} (h : (Elem.value (env.root side)).at p = some (.value v)) :
    lined env view side [⟨p, true, x⟩] = [(ptr side p, true, x, closeBracket (isObj v), getNbLines (x + 1) (less view.width 2))] := by
  have : env.isObject (ptr side p) = isObj v := by
    cases v <;> simp [Env.isObject, elem_ptr, h, isObj]
  simp [lined, colPrints, prints, asLine, this]

theorem lined_plain {env : Env} {view : View} {side : Bool} {v : Json} {p : Path} {x : Nat} (hc : v.isContainer = false)
    (hi : itemsBelow (cOf view side) p x v = [])
    (hl : lines (layOf env view side) p x v = [⟨p, false, x, Verif.Spec.shown (v.stringify env.fmt), taken (x + env.len (v.stringify env.fmt)) (less view.width 2)⟩])
    (h : (Elem.value (env.root side)).at p = some (.value v)) :
    lined env view side (⟨p, false, x⟩ :: itemsBelow (cOf view side) p x v) = (lines (layOf env view side) p x v).map (ofLine side) := by
  rw [hi, hl]
  simp only [lined, List.flatMap_cons, List.flatMap_nil, colPrints, prints, Bool.false_eq_true, if_false, h, hc]
  simp [asLine, ofLine, taken_eq, cstr, Verif.Spec.shown, Nat.add_comm]

/-- The first line of an entry. -/
theorem lined_entry {env : Env} {view : View} {side : Bool} {k : Bytes} {v : Json} {q : Path} {x : Nat} (h : (Elem.value (env.root side)).at q = some (.entry k v)) :
    lined env view side [⟨q, false, x⟩] =
      if v.isContainer then
        if cOf view side (q ++ [0]) then [(ptr side q, false, x, Verif.Spec.shown k ++ b!": " ++ collapsedText (isObj v), taken (x + env.len k + 2 + 7) (less view.width 2))]
        else if isEmptyJ v then [(ptr side q, false, x, Verif.Spec.shown k ++ b!": " ++ emptyText (isObj v), taken (x + env.len k + 2 + 3) (less view.width 2))]
        else [(ptr side q, false, x, Verif.Spec.shown k ++ b!": ", taken (x + env.len k) (less view.width 4)),
          (ptr side (q ++ [0]), false, x, openBracket (isObj v), taken (x + 1) (less view.width 2))]
      else [(ptr side q, false, x, Verif.Spec.shown k ++ b!": " ++ Verif.Spec.shown (v.stringify env.fmt), taken (x + env.len k + 2 + env.len (v.stringify env.fmt)) (less view.width 2))] := by
  have hcc : cstr (collapsedText (isObj v)) = collapsedText (isObj v) := by cases isObj v <;> rfl
  have hce : cstr (emptyText (isObj v)) = emptyText (isObj v) := by cases isObj v <;> rfl
  simp only [lined, List.flatMap_cons, List.flatMap_nil, colPrints, prints, Bool.false_eq_true, if_false, h, hcc, hce]
  have hco : view.collapsed.contains (ptr side (q ++ [0])) = cOf view side (q ++ [0]) := rfl
  rw [hco]
  cases hv : v.isContainer <;> cases hc : cOf view side (q ++ [0]) <;> cases he : isEmptyJ v <;> simp [asLine, taken_eq, cstr, Verif.Spec.shown, Nat.add_comm]

mutual
theorem lined_value {env : Env} {view : View} {side : Bool} : ∀ (v : Json) (p : Path) (x : Nat), (Elem.value (env.root side)).at p = some (.value v) →
    lined env view side (⟨p, false, x⟩ :: itemsBelow (cOf view side) p x v) = (lines (layOf env view side) p x v).map (ofLine side)
  | .arr xs, p, x, h => by
    have ih := lined_items (view := view) xs p 0 (x + 4) (fun j y hy => by rw [at_child h]; simp [Elem.kids, hy])
    rw [lined_cons, itemsBelow, lines]
    cases hc : cOf view side p with
    | true =>
      have hc' : (layOf env view side).hidden p = true := hc
      have hc2 : view.collapsed.contains (ptr side p) = true := hc
      simp only [if_true, hc', List.map_cons, List.map_nil, colPrints, prints, Bool.false_eq_true, if_false, h, Json.isContainer, hc2]
      simp [lined, asLine, ofLine, layOf, taken_eq, collapsedText, isObj, Nat.add_comm]
    | false =>
      have hc' : (layOf env view side).hidden p = false := hc
      have hc2 : view.collapsed.contains (ptr side p) = false := hc
      simp only [hc', Bool.false_eq_true, if_false, lined_append, ih, lined_close h, List.map_append, List.map_cons, List.map_nil, colPrints, prints, h, Json.isContainer, hc2, if_true]
      simp [asLine, ofLine, layOf, taken_eq, openBracket, closeBracket, isObj]
  | .obj es, p, x, h => by
    have ih := lined_entries (view := view) es p 0 (x + 4) (fun j k y hy => by rw [at_child h]; simp [Elem.kids, hy])
    rw [lined_cons, itemsBelow, lines]
    cases hc : cOf view side p with
    | true =>
      have hc' : (layOf env view side).hidden p = true := hc
      have hc2 : view.collapsed.contains (ptr side p) = true := hc
      simp only [if_true, hc', List.map_cons, List.map_nil, colPrints, prints, Bool.false_eq_true, if_false, h, Json.isContainer, hc2]
      simp [lined, asLine, ofLine, layOf, taken_eq, collapsedText, isObj, Nat.add_comm]
    | false =>
      have hc' : (layOf env view side).hidden p = false := hc
      have hc2 : view.collapsed.contains (ptr side p) = false := hc
      simp only [hc', Bool.false_eq_true, if_false, lined_append, ih, lined_close h, List.map_append, List.map_cons, List.map_nil, colPrints, prints, h, Json.isContainer, hc2, if_true]
      simp [asLine, ofLine, layOf, taken_eq, openBracket, closeBracket, isObj]
  | .str s, p, x, h => lined_plain rfl rfl rfl h
  | .int s, p, x, h => lined_plain rfl rfl rfl h
  | .long s, p, x, h => lined_plain rfl rfl rfl h
  | .dbl s, p, x, h => lined_plain rfl rfl rfl h
  | .bool s, p, x, h => lined_plain rfl rfl rfl h
  | .null, p, x, h => lined_plain rfl rfl rfl h
theorem lined_items {env : Env} {view : View} {side : Bool} : ∀ (xs : List Json) (p : Path) (i x : Nat),
    (∀ j y, xs[j]? = some y → (Elem.value (env.root side)).at (p ++ [i + j]) = some (.value y)) →
    lined env view side (itemsItems (cOf view side) p i x xs) = (linesItems (layOf env view side) p i x xs).map (ofLine side)
  | [], p, i, x, h => by simp [itemsItems, linesItems, lined]
  | v :: vs, p, i, x, h => by
    have h1 := lined_value (view := view) v (p ++ [i]) x (h 0 v rfl)
    have h2 := lined_items (view := view) vs p (i + 1) x (fun j y hy => by
      have := h (j + 1) y hy
      rwa [show i + (j + 1) = i + 1 + j by omega] at this)
    rw [itemsItems, linesItems, List.map_append, ← h1, ← h2, ← lined_append]
    rfl
theorem lined_entries {env : Env} {view : View} {side : Bool} : ∀ (es : List (Bytes × Json)) (p : Path) (i x : Nat),
    (∀ j k y, es[j]? = some (k, y) → (Elem.value (env.root side)).at (p ++ [i + j]) = some (.entry k y)) →
    lined env view side (itemsEntries (cOf view side) p i x es) = (linesEntries (layOf env view side) p i x es).map (ofLine side)
  | [], p, i, x, h => by simp [itemsEntries, linesEntries, lined]
  | (k, v) :: es, p, i, x, h => by
    have h0 := h 0 k v rfl
    rw [Nat.add_zero] at h0
    have hv : (Elem.value (env.root side)).at (p ++ [i] ++ [0]) = some (.value v) := by rw [at_child h0]; rfl
    have h1 := lined_value (view := view) v (p ++ [i] ++ [0]) x hv
    have h2 := lined_entries (view := view) es p (i + 1) x (fun j k y hy => by
      have := h (j + 1) k y hy
      rwa [show i + (j + 1) = i + 1 + j by omega] at this)
    have hopen : ∀ (w : Json), v = w → w.isContainer = true → cOf view side (p ++ [i] ++ [0]) = false →
        lined env view side [⟨p ++ [i] ++ [0], false, x⟩] = [(ptr side (p ++ [i] ++ [0]), false, x, openBracket (isObj v), taken (x + 1) (less view.width 2))] := by
      intro w hw hwc hcc
      subst hw
      have hcc' : view.collapsed.contains (ptr side (p ++ [i] ++ [0])) = false := hcc
      simp only [lined, List.flatMap_cons, List.flatMap_nil, colPrints, prints, Bool.false_eq_true, if_false, hv, hwc, hcc', if_true]
      simp [asLine, taken_eq]
    have hsplit : ∀ l : List Item, lined env view side (⟨p ++ [i], false, x⟩ :: l) = lined env view side [⟨p ++ [i], false, x⟩] ++ lined env view side l := by
      intro l; rw [← lined_append]; rfl
    have hsplit' : ∀ l : List Item, lined env view side (⟨p ++ [i] ++ [0], false, x⟩ :: l) = lined env view side [⟨p ++ [i] ++ [0], false, x⟩] ++ lined env view side l := by
      intro l; rw [← lined_append]; rfl
    have hgo : ∀ L : List Line, (linesEntries (layOf env view side) p i x ((k, v) :: es) = L ++ linesEntries (layOf env view side) p (i + 1) x es) →
        lined env view side [⟨p ++ [i], false, x⟩] ++ lined env view side (if isEmptyJ v then [] else itemsBelow (cOf view side) (p ++ [i] ++ [0]) x v) = L.map (ofLine side) →
        lined env view side (itemsEntries (cOf view side) p i x ((k, v) :: es)) = (linesEntries (layOf env view side) p i x ((k, v) :: es)).map (ofLine side) := by
      intro L hL hE
      rw [itemsEntries, hL, List.map_append, ← h2, hsplit, lined_append, ← List.append_assoc, hE]
    rw [lined_entry h0] at hgo
    cases v with
    | arr xs =>
      cases hc : cOf view side (p ++ [i] ++ [0]) with
      | true =>
        have hc' : (layOf env view side).hidden (p ++ [i] ++ [0]) = true := hc
        refine hgo _ (by rw [linesEntries]) ?_
        simp only [Json.isContainer, if_true, hc', itemsBelow, hc, ite_self]
        simp [lined, ofLine, layOf, collapsedText, isObj]
      | false =>
        have hc' : (layOf env view side).hidden (p ++ [i] ++ [0]) = false := hc
        cases xs with
        | nil =>
          refine hgo _ (by rw [linesEntries]) ?_
          simp only [Json.isContainer, if_true, hc, hc', Bool.false_eq_true, if_false, isEmptyJ, List.isEmpty_nil]
          simp [lined, ofLine, layOf, emptyText, isObj]
        | cons y ys =>
          refine hgo _ (by rw [linesEntries]) ?_
          rw [hsplit', hopen _ rfl rfl hc] at h1
          simp only [Json.isContainer, if_true, hc, hc', Bool.false_eq_true, if_false, isEmptyJ, List.isEmpty_cons, reduceCtorEq, List.map_append, ← h1]
          simp [ofLine, layOf]
    | obj xs =>
      cases hc : cOf view side (p ++ [i] ++ [0]) with
      | true =>
        have hc' : (layOf env view side).hidden (p ++ [i] ++ [0]) = true := hc
        refine hgo _ (by rw [linesEntries]) ?_
        simp only [Json.isContainer, if_true, hc', itemsBelow, hc, ite_self]
        simp [lined, ofLine, layOf, collapsedText, isObj]
      | false =>
        have hc' : (layOf env view side).hidden (p ++ [i] ++ [0]) = false := hc
        cases xs with
        | nil =>
          refine hgo _ (by rw [linesEntries]) ?_
          simp only [Json.isContainer, if_true, hc, hc', Bool.false_eq_true, if_false, isEmptyJ, List.isEmpty_nil]
          simp [lined, ofLine, layOf, emptyText, isObj]
        | cons y ys =>
          refine hgo _ (by rw [linesEntries]) ?_
          rw [hsplit', hopen _ rfl rfl hc] at h1
          simp only [Json.isContainer, if_true, hc, hc', Bool.false_eq_true, if_false, isEmptyJ, List.isEmpty_cons, reduceCtorEq, List.map_append, ← h1]
          simp [ofLine, layOf]
    | _ =>
      refine hgo _ (by rw [linesEntries] <;> (intros; contradiction)) ?_
      simp [Json.isContainer, isEmptyJ, lined, ofLine, layOf]
end

theorem lined_all (env : Env) (view : View) (side : Bool) :
    lined env view side (itemsAll (cOf view side) (env.root side)) = (lines (layOf env view side) [] 2 (env.root side)).map (ofLine side) :=
  lined_value _ [] 2 rfl

theorem listing_of {env : Env} {view : View} {side : Bool} {sel : Option Ptr} {sc : Nat} : ∀ (ts : List (Nat × Print × Nat)) (mid : List Line),
    ts.map (fun t => asLine (t.1, t.2.1)) = mid.map (ofLine side) → (∀ t ∈ ts, sc < t.2.2) → ts.Pairwise (fun a b => a.2.2 + a.2.1.lines ≤ b.2.2) →
    Listing side (ts.map fun t => cellAt env view sel sc t.1 t.2) mid
  | [], [], _, _, _ => ⟨rfl, by simp, by simp, by simp⟩
  | [], _ :: _, h, _, _ => by cases h
  | _ :: _, [], h, _, _ => by cases h
  | t :: ts, l :: mid, h, hl, ho => by
    rw [List.map_cons, List.map_cons] at h
    injection h with h1 h2
    have ih := listing_of ts mid h2 (fun t ht => hl t (List.mem_cons_of_mem _ ht)) (List.pairwise_cons.mp ho).2 (env := env) (view := view) (sel := sel)
    have ht := hl t List.mem_cons_self
    simp only [asLine, ofLine, Prod.mk.injEq] at h1
    refine ⟨by simpa using ih.same, ?_, ?_, ?_⟩
    · intro p hp
      rw [List.map_cons, List.zip_cons_cons] at hp
      rcases List.mem_cons.mp hp with rfl | hp
      · exact ⟨h1.1, h1.2.1, h1.2.2.1, h1.2.2.2.1⟩
      · exact ih.shows p hp
    · intro p hp
      rw [List.map_cons, List.zip_cons_cons] at hp
      rcases List.mem_cons.mp hp with rfl | hp
      · show 1 ≤ t.2.2 - sc
        omega
      · exact ih.below p hp
    · rw [List.map_cons, List.zip_cons_cons, List.pairwise_cons]
      refine ⟨fun q hq => ?_, ih.apart⟩
      have hq1 := (List.of_mem_zip (show (q.1, q.2) ∈ _ from hq)).1
      obtain ⟨u, hu, hu'⟩ := List.mem_map.mp hq1
      have := (List.pairwise_cons.mp ho).1 u hu
      rw [← hu']
      show t.2.2 - sc + l.lines ≤ u.2.2 - sc
      rw [← h1.2.2.2.2]
      omega

/-- A picture is a listing of a stretch of the outline. -/
theorem pic_listing {env : Env} {s : St} {side : Bool} {w : Win} {sc : Nat} {sk lf : List (Nat × Print)} {ts : List (Nat × Print × Nat)}
    (h : Pic env s.view side w sc sk lf ts) :
    ∃ pre mid post, diffOutline env s side = pre ++ mid ++ post ∧ Listing side w.screen mid ∧ pre.length = sk.length ∧ post.length = lf.length ∧
      ts.map (fun t => asLine (t.1, t.2.1)) = mid.map (ofLine side) := by
  have hall := lined_all env s.view side
  unfold lined at hall
  rw [h.texts, List.map_append, List.map_append] at hall
  have hall := hall.symm
  obtain ⟨a, post, h1, h2, h3⟩ := List.map_eq_append_iff.mp hall
  obtain ⟨pre, mid, rfl, h4, h5⟩ := List.map_eq_append_iff.mp h2
  rw [List.map_map] at h5
  have h5' : ts.map (fun t => asLine (t.1, t.2.1)) = mid.map (ofLine side) := h5.symm
  refine ⟨pre, mid, post, h1, ?_, ?_, ?_, h5'⟩
  · rw [h.screen]
    exact listing_of ts mid h5' h.lines h.order
  · have := congrArg List.length h4; simpa using this
  · have := congrArg List.length h3; simpa using this

theorem zip_last {α β γ : Type} {ts : List α} {mid : List β} {f : α → γ} {t : α} (h : ts.length = mid.length) (ht : ts.getLast? = some t) :
    ∃ l, mid.getLast? = some l ∧ ((ts.map f).zip mid).getLast? = some (f t, l) := by
  have hne : ts ≠ [] := by intro h; subst h; cases ht
  have hne' : mid ≠ [] := by
    intro h'
    subst h'
    exact hne (List.length_eq_zero_iff.mp h)
  refine ⟨mid.getLast hne', List.getLast?_eq_some_getLast hne', ?_⟩
  rw [List.getLast?_eq_getElem?] at ht ⊢
  rw [List.length_zip, List.length_map, List.getElem?_zip_eq_some]
  dsimp only
  rw [← h, Nat.min_self, List.getElem?_map, ht]
  refine ⟨rfl, ?_⟩
  rw [h, ← List.getLast?_eq_getElem?]
  exact List.getLast?_eq_some_getLast hne'

end Verif.Lemmas.Split
