import Verif.Model.Tui
import Verif.Lemmas.FindNext
/-! # Drawing is running a list of events -/
namespace Verif.Lemmas
open Verif.Model Verif.Model.Search Verif.Model.Tui Verif.Spec

/-- What the drawing does one after the other: looking at an element, writing a line. `item` is the displayed item a line belongs to; after a
`lazy` line above the screen the bottom is not tested. -/
inductive Ev where
  | check (p : Path) (inEntry : Bool)
  | line (p item : Path) (x : Nat) (text : Bytes) (lines : Nat) (lazy : Bool)
deriving Repr, DecidableEq

def Ev.run (view : View) (sel : Option Path) : Ev → Draw → Draw × Bool
  | .check p ie, d => (checkSelection sel p ie d, true)
  | .line p item x text lines lazy, d =>
    if d.y ≤ d.scroll then ({ d with y := d.y + 1 }, lazy || !hasReachedBottom (d.y + 1) d.scroll view.height)
    else
      ({ d with
          y := d.y + lines
          screen := d.screen ++ [⟨d.y - d.scroll, x, text, decide (sel = some item), view.results.contains p⟩] },
        !hasReachedBottom (d.y + lines) d.scroll view.height)

def exec (view : View) (sel : Option Path) : List Ev → Draw → Draw × Bool
  | [], d => (d, true)
  | e :: es, d =>
    match e.run view sel d with
    | (d, true) => exec view sel es d
    | (d, false) => (d, false)

theorem exec_append (view : View) (sel : Option Path) (a b : List Ev) (d : Draw) :
    exec view sel (a ++ b) d = match exec view sel a d with
      | (d, true) => exec view sel b d
      | (d, false) => (d, false) := by
  induction a generalizing d with
  | nil => rfl
  | cons e a ih =>
    simp only [List.cons_append, exec]
    rcases h : e.run view sel d with ⟨d', b'⟩
    cases b' with
    | true => exact ih d'
    | false => rfl

mutual
def evValue (env : Env) (width : Nat) (collapsed : List Path) (p item : Path) (inEntry : Bool) (x : Nat) : Json → List Ev
  | .arr xs =>
    .check p inEntry :: (if collapsed.contains p then [.line p item x (collapsedText false) (getNbLines (7 + x) width) false]
      else .line p item x (openBracket false) (getNbLines (x + 1) width) false :: (evItems env width collapsed p 0 (x + 4) xs ++
        [.line p item x (closeBracket false) (getNbLines (x + 1) width) false]))
  | .obj es =>
    .check p inEntry :: (if collapsed.contains p then [.line p item x (collapsedText true) (getNbLines (7 + x) width) false]
      else .line p item x (openBracket true) (getNbLines (x + 1) width) false :: (evEntries env width collapsed p 0 (x + 4) es ++
        [.line p item x (closeBracket true) (getNbLines (x + 1) width) false]))
  | v => [.check p inEntry, .line p item x (cstr (v.stringify env.fmt)) (getNbLines (env.len (v.stringify env.fmt) + x) width) false]
def evItems (env : Env) (width : Nat) (collapsed : List Path) (p : Path) (i x : Nat) : List Json → List Ev
  | [] => []
  | v :: vs => evValue env width collapsed (p ++ [i]) (p ++ [i]) false x v ++ evItems env width collapsed p (i + 1) x vs
def evEntries (env : Env) (width : Nat) (collapsed : List Path) (p : Path) (i x : Nat) : List (Bytes × Json) → List Ev
  | [] => []
  | (key, v) :: es =>
    let ent := p ++ [i]
    let val := ent ++ [0]
    let after := fun text n => [Ev.line ent ent x (cstr key ++ b!": " ++ cstr text) (getNbLines (x + env.len key + 2 + n) width) false]
    .check ent false ::
      ((if v.isContainer && collapsed.contains val then after (collapsedText (isObj v)) 7
        else if !v.isContainer then after (v.stringify env.fmt) (env.len (v.stringify env.fmt))
        else if isEmptyJ v then after (emptyText (isObj v)) 3
        else .line ent ent x (cstr key ++ b!": ") (getNbLines (env.len key + x) ((width + 4294967294) % 4294967296)) true ::
          evValue env width collapsed val ent true (x + 2) v) ++ evEntries env width collapsed p (i + 1) x es)
end

theorem run_found (view : View) (sel : Option Path) (e : Ev) (d : Draw) (h : d.found = true) : (e.run view sel d).1.found = true := by
  cases e with
  | check p ie => simp only [Ev.run, checkSelection, h]; simp; split <;> (try split) <;> simp [h]
  | line p item x text lines lazy => simp only [Ev.run]; split <;> exact h

theorem exec_found (view : View) (sel : Option Path) (es : List Ev) (d : Draw) (h : d.found = true) : (exec view sel es d).1.found = true := by
  induction es generalizing d with
  | nil => exact h
  | cons e es ih =>
    simp only [exec]
    have := run_found view sel e d h
    rcases hr : e.run view sel d with ⟨d', b'⟩
    rw [hr] at this
    cases b' with
    | true => exact ih d' this
    | false => exact this

theorem checkSelection_found (s s' : Option Path) (p : Path) (ie : Bool) (d : Draw) (h : d.found = true) :
    checkSelection s p ie d = checkSelection s' p ie d := by
  simp [checkSelection, h]

/-- The selection is not the value of an entry. -/
def NoVal (env : Env) (sel : Option Path) : Prop :=
  ∀ a k v, elem env.root a = some (.entry k v) → sel ≠ some (a ++ [0])

/-- The selection `sel'` while `p` is drawn: the selection `sel`, which is not the item under another name, or - while the value of a selected
entry is drawn - the value, at the value itself or inside it. -/
def Rel (sel' sel : Option Path) (p item : Path) : Prop :=
  (sel' = sel ∧ (sel = some p ↔ sel = some item)) ∨
    ∃ a, sel = some a ∧ sel' = some (a ++ [0]) ∧ ((p = a ++ [0] ∧ item = a) ∨ (a.length + 1 < p.length ∧ a.length < item.length))

theorem Rel.flag {sel' sel : Option Path} {p item : Path} (h : Rel sel' sel p item) : decide (sel = some item) = decide (sel' = some p) := by
  rcases h with ⟨rfl, h⟩ | ⟨a, rfl, rfl, ⟨rfl, rfl⟩ | ⟨h1, h2⟩⟩
  · exact decide_eq_decide.mpr h.symm
  · simp
  · have : a ≠ item := fun h => by rw [h] at h2; omega
    have : a ++ [0] ≠ p := fun h => by rw [← h] at h1; simp at h1
    simp [*]

theorem Rel.kid {sel' sel : Option Path} {p item : Path} (h : Rel sel' sel p item) (i : Nat) : Rel sel' sel (p ++ [i]) (p ++ [i]) := by
  rcases h with ⟨rfl, h⟩ | ⟨a, rfl, rfl, ⟨rfl, rfl⟩ | ⟨h1, h2⟩⟩
  · exact .inl ⟨rfl, Iff.rfl⟩
  · exact .inr ⟨item, rfl, rfl, .inr (by simp)⟩
  · exact .inr ⟨a, rfl, rfl, .inr (by simp; omega)⟩

theorem Rel.val {env : Env} {sel' sel : Option Path} {ent : Path} {k : Bytes} {v : Json} (hn : NoVal env sel)
    (he : elem env.root ent = some (.entry k v)) (h : Rel sel' sel ent ent) :
    Rel (if sel' = some ent then some (ent ++ [0]) else sel') sel (ent ++ [0]) ent := by
  rcases h with ⟨rfl, -⟩ | ⟨a, rfl, rfl, ⟨rfl, h⟩ | ⟨h1, h2⟩⟩
  · by_cases hs : sel' = some ent
    · rw [if_pos hs]; exact .inr ⟨ent, hs, rfl, .inl ⟨rfl, rfl⟩⟩
    · rw [if_neg hs]
      exact .inl ⟨rfl, by simp [hs, hn _ _ _ he]⟩
  · simp at h
  · have : a ++ [0] ≠ ent := fun h => by rw [← h] at h1; simp at h1
    rw [if_neg (by simpa using this)]
    exact .inr ⟨a, rfl, rfl, .inr (by simp; omega)⟩

theorem write_found (view : View) (sel : Option Path) (p : Path) (x : Nat) (text : Bytes) (n : Nat) (d : Draw) :
    (write view sel p x text n d).found = d.found := by
  unfold write; split <;> rfl

theorem check_found (sel : Option Path) (p : Path) (ie : Bool) (d : Draw) (h : d.found = true) : (checkSelection sel p ie d).found = true :=
  run_found ⟨0, 0, [], []⟩ sel (.check p ie) d h

theorem exec_check (view : View) (sel' sel : Option Path) (p : Path) (ie : Bool) (d : Draw) (es : List Ev) (hf : sel' = sel ∨ d.found = true) :
    exec view sel (.check p ie :: es) d = exec view sel es (checkSelection sel' p ie d) := by
  simp only [exec, Ev.run]
  rcases hf with rfl | hf
  · rfl
  · rw [checkSelection_found sel' sel p ie d hf]

theorem exec_line (view : View) (sel' sel : Option Path) (p item : Path) (x : Nat) (text : Bytes) (n : Nat) (d : Draw) (es : List Ev)
    (h : Rel sel' sel p item) :
    exec view sel (.line p item x text n false :: es) d =
      if hasReachedBottom (write view sel' p x text n d).y (write view sel' p x text n d).scroll view.height then (write view sel' p x text n d, false)
      else exec view sel es (write view sel' p x text n d) := by
  have hr : (Ev.line p item x text n false).run view sel d =
      (write view sel' p x text n d, !hasReachedBottom (write view sel' p x text n d).y (write view sel' p x text n d).scroll view.height) := by
    simp only [Ev.run, write, h.flag]
    split <;> simp
  simp only [exec, hr]
  split
  · next hb => simp only [Prod.mk.injEq, Bool.not_eq_true'] at hb; obtain ⟨rfl, hb⟩ := hb; rw [hb]; rfl
  · next hb => simp only [Prod.mk.injEq, Bool.not_eq_false'] at hb; obtain ⟨rfl, hb⟩ := hb; rw [hb]; rfl

theorem pair_if (b : Bool) (d : Draw) : (if b = true then (d, false) else (d, true)) = (d, !b) := by cases b <;> rfl

theorem exec_last (view : View) (sel' sel : Option Path) (p item : Path) (x : Nat) (text : Bytes) (n : Nat) (d : Draw)
    (h : Rel sel' sel p item) :
    exec view sel [.line p item x text n false] d =
      (write view sel' p x text n d, !hasReachedBottom (write view sel' p x text n d).y (write view sel' p x text n d).scroll view.height) := by
  rw [exec_line view sel' sel p item x text n d [] h]
  exact pair_if _ _

/-- A key with a text after it, and the test of the bottom that follows. -/
theorem exec_keyAfter (env : Env) (view : View) (sel' sel : Option Path) (p : Path) (x : Nat) (key after : Bytes) (n : Nat) (d : Draw) (es : List Ev)
    (h : Rel sel' sel p p) :
    exec view sel (.line p p x (cstr key ++ b!": " ++ cstr after) (getNbLines (x + env.len key + 2 + n) view.width) false :: es) d =
      match writeKeyAfter env view sel' p x key after n d with
      | (d, false) => (d, false)
      | (d, true) => if hasReachedBottom d.y d.scroll view.height then (d, false) else exec view sel es d := by
  rw [exec_line view sel' sel p p _ _ _ d es h]
  unfold writeKeyAfter
  by_cases hy : d.y ≤ d.scroll
  · simp [write, hy]
  · simp only [hy, if_false]
    generalize write view sel' p x _ _ d = w
    by_cases hb : hasReachedBottom w.y w.scroll view.height = true
    · simp [hb]
    · simp only [Bool.not_eq_true] at hb
      simp [hb]

theorem exec_key (env : Env) (view : View) (sel' sel : Option Path) (p : Path) (x : Nat) (key : Bytes) (d : Draw) (es : List Ev)
    (h : Rel sel' sel p p) :
    exec view sel (.line p p x (cstr key ++ b!": ") (getNbLines (env.len key + x) ((view.width + 4294967294) % 4294967296)) true :: es) d =
      match writeKey env view sel' p x key d with
      | (d, false) => (d, false)
      | (d, true) => exec view sel es d := by
  unfold writeKey
  by_cases hy : d.y ≤ d.scroll
  · simp [exec, Ev.run, hy]
  · simp only [exec, Ev.run, hy, if_false, write, h.flag]
    by_cases hb : hasReachedBottom (d.y + getNbLines (env.len key + x) ((view.width + 4294967294) % 4294967296)) d.scroll view.height = true
    · simp [hb]
    · simp only [Bool.not_eq_true] at hb
      simp [hb]

theorem writeKey_found (env : Env) (view : View) (sel : Option Path) (p : Path) (x : Nat) (key : Bytes) (d : Draw) :
    (writeKey env view sel p x key d).1.found = d.found := by
  unfold writeKey; split <;> simp [write_found]

theorem writeKeyAfter_found (env : Env) (view : View) (sel : Option Path) (p : Path) (x : Nat) (key after : Bytes) (n : Nat) (d : Draw) :
    (writeKeyAfter env view sel p x key after n d).1.found = d.found := by
  unfold writeKeyAfter; split <;> simp [write_found]

theorem draw_primitive (env : Env) (view : View) (sel' sel : Option Path) (p item : Path) (ie : Bool) (x : Nat) (d : Draw) (v : Json)
    (h : Rel sel' sel p item) (hf : sel' = sel ∨ d.found = true) :
    drawPrimitive env view sel' p x v (checkSelection sel' p ie d) =
      exec view sel [.check p ie, .line p item x (cstr (v.stringify env.fmt)) (getNbLines (env.len (v.stringify env.fmt) + x) view.width) false] d := by
  rw [exec_check view sel' sel p ie d _ hf, exec_last view sel' sel p item _ _ _ _ h]
  rfl

theorem found_or {sel' sel : Option Path} {d d' : Draw} (h : sel' = sel ∨ d.found = true) (hd : d.found = true → d'.found = true) :
    sel' = sel ∨ d'.found = true := h.imp id hd

mutual
theorem draw_value (env : Env) (view : View) (sel : Option Path) (hn : NoVal env sel) : ∀ (v : Json) (sel' : Option Path) (p item : Path) (ie : Bool)
    (x : Nat) (d : Draw), elem env.root p = some (.value v) → Rel sel' sel p item → (sel' = sel ∨ d.found = true) →
    drawValue env view sel' p ie x d v = exec view sel (evValue env view.width view.collapsed p item ie x v) d
  | .arr xs, sel', p, item, ie, x, d, hv, h, hf => by
    simp only [drawValue, evValue]
    rw [exec_check view sel' sel p ie d _ hf]
    have hf1 := found_or hf (check_found sel' p ie d)
    generalize checkSelection sel' p ie d = d1 at hf1 ⊢
    split
    · rw [exec_last view sel' sel p item _ _ _ _ h]
    · rw [exec_line view sel' sel p item _ _ _ _ _ h]
      have hf2 := found_or hf1 (d' := write view sel' p x (openBracket false) (getNbLines (x + 1) view.width) d1) (fun h => by rw [write_found]; exact h)
      generalize write view sel' p x (openBracket false) (getNbLines (x + 1) view.width) d1 = d2 at hf2 ⊢
      split
      · rfl
      · have hi := draw_items env view sel hn xs [] sel' p item (x + 4) d2 hv h hf2
        simp only [List.length_nil] at hi
        rw [exec_append, ← hi]
        rcases hr : drawItems env view sel' p 0 (x + 4) d2 xs with ⟨d3, b⟩
        cases b with
        | false => rfl
        | true => simp only; rw [exec_last view sel' sel p item _ _ _ _ h]
  | .obj es, sel', p, item, ie, x, d, hv, h, hf => by
    simp only [drawValue, evValue]
    rw [exec_check view sel' sel p ie d _ hf]
    have hf1 := found_or hf (check_found sel' p ie d)
    generalize checkSelection sel' p ie d = d1 at hf1 ⊢
    split
    · rw [exec_last view sel' sel p item _ _ _ _ h]
    · rw [exec_line view sel' sel p item _ _ _ _ _ h]
      have hf2 := found_or hf1 (d' := write view sel' p x (openBracket true) (getNbLines (x + 1) view.width) d1) (fun h => by rw [write_found]; exact h)
      generalize write view sel' p x (openBracket true) (getNbLines (x + 1) view.width) d1 = d2 at hf2 ⊢
      split
      · rfl
      · have hi := draw_entries env view sel hn es [] sel' p item (x + 4) d2 hv h hf2
        simp only [List.length_nil] at hi
        rw [exec_append, ← hi]
        rcases hr : drawEntries env view sel' p 0 (x + 4) d2 es with ⟨d3, b⟩
        cases b with
        | false => rfl
        | true => simp only; rw [exec_last view sel' sel p item _ _ _ _ h]
  | .str s, sel', p, item, ie, x, d, _, h, hf => draw_primitive env view sel' sel p item ie x d (.str s) h hf
  | .bool s, sel', p, item, ie, x, d, _, h, hf => draw_primitive env view sel' sel p item ie x d (.bool s) h hf
  | .null, sel', p, item, ie, x, d, _, h, hf => draw_primitive env view sel' sel p item ie x d .null h hf
  | .int s, sel', p, item, ie, x, d, _, h, hf => draw_primitive env view sel' sel p item ie x d (.int s) h hf
  | .long s, sel', p, item, ie, x, d, _, h, hf => draw_primitive env view sel' sel p item ie x d (.long s) h hf
  | .dbl s, sel', p, item, ie, x, d, _, h, hf => draw_primitive env view sel' sel p item ie x d (.dbl s) h hf

theorem draw_items (env : Env) (view : View) (sel : Option Path) (hn : NoVal env sel) : ∀ (vs done : List Json) (sel' : Option Path) (p item : Path)
    (x : Nat) (d : Draw), elem env.root p = some (.value (.arr (done ++ vs))) → Rel sel' sel p item → (sel' = sel ∨ d.found = true) →
    drawItems env view sel' p done.length x d vs = exec view sel (evItems env view.width view.collapsed p done.length x vs) d
  | [], done, sel', p, item, x, d, hv, h, hf => by simp [drawItems, evItems, exec]
  | v :: vs, done, sel', p, item, x, d, hv, h, hf => by
    simp only [drawItems, evItems]
    have he := draw_value env view sel hn v sel' (p ++ [done.length]) (p ++ [done.length]) false x d (kid_item hv) (h.kid _) hf
    have hf1 := found_or hf (exec_found view sel (evValue env view.width view.collapsed (p ++ [done.length]) (p ++ [done.length]) false x v) d)
    rw [exec_append, he]
    rcases hr : exec view sel (evValue env view.width view.collapsed (p ++ [done.length]) (p ++ [done.length]) false x v) d with ⟨d1, b⟩
    rw [hr] at hf1
    cases b with
    | false => rfl
    | true =>
      have := draw_items env view sel hn vs (done ++ [v]) sel' p item x d1 (by simpa using hv) h hf1
      simpa using this

theorem draw_entries (env : Env) (view : View) (sel : Option Path) (hn : NoVal env sel) : ∀ (es done : List (Bytes × Json)) (sel' : Option Path) (p item : Path)
    (x : Nat) (d : Draw), elem env.root p = some (.value (.obj (done ++ es))) → Rel sel' sel p item → (sel' = sel ∨ d.found = true) →
    drawEntries env view sel' p done.length x d es = exec view sel (evEntries env view.width view.collapsed p done.length x es) d
  | [], done, sel', p, item, x, d, hv, h, hf => by simp [drawEntries, evEntries, exec]
  | (key, v) :: es, done, sel', p, item, x, d, hv, h, hf => by
    have hk := kid_entry hv
    have hrest := fun d1 (hf1 : sel' = sel ∨ d1.found = true) =>
      draw_entries env view sel hn es (done ++ [(key, v)]) sel' p item x d1 (by simpa using hv) h hf1
    simp only [List.length_append, List.length_singleton] at hrest
    have hval := fun sel' d1 => draw_value env view sel hn v sel' (p ++ [done.length] ++ [0]) (p ++ [done.length]) true (x + 2) d1 hk.2
    simp only [drawEntries, evEntries]
    rw [exec_check view sel' sel _ _ d _ hf]
    have hsel : sel' = sel ∨ (checkSelection sel' (p ++ [done.length]) false d).found = true := found_or hf (check_found sel' _ _ d)
    have hsel2 : sel' = some (p ++ [done.length]) → (checkSelection sel' (p ++ [done.length]) false d).found = true := by
      intro hs; unfold checkSelection; rw [if_pos hs]; split
      · rfl
      · next hh => simp at hh; split <;> (try split) <;> simp [hh]
    generalize checkSelection sel' (p ++ [done.length]) false d = d1 at hsel hsel2 ⊢
    have hkey := fun after n es => exec_keyAfter env view sel' sel (p ++ [done.length]) x key after n d1 es (h.kid _)
    have hafter : ∀ after n, (match writeKeyAfter env view sel' (p ++ [done.length]) x key after n d1 with
        | (d, false) => (d, false)
        | (d, true) => if hasReachedBottom d.y d.scroll view.height = true then (d, false) else drawEntries env view sel' p (done.length + 1) x d es) =
      (match writeKeyAfter env view sel' (p ++ [done.length]) x key after n d1 with
        | (d, false) => (d, false)
        | (d, true) => if hasReachedBottom d.y d.scroll view.height = true then (d, false) else exec view sel (evEntries env view.width view.collapsed p (done.length + 1) x es) d) := by
      intro after n
      have hw := writeKeyAfter_found env view sel' (p ++ [done.length]) x key after n d1
      rcases hr : writeKeyAfter env view sel' (p ++ [done.length]) x key after n d1 with ⟨d2, b⟩
      rw [hr] at hw
      cases b with
      | false => rfl
      | true => simp only; rw [hrest d2 (found_or hsel (fun hh => by rw [← hh]; exact hw))]
    by_cases hc : v.isContainer = true
    · by_cases hcol : view.collapsed.contains (p ++ [done.length] ++ [0]) = true
      · simp only [hc, hcol, Bool.and_self, if_true, List.singleton_append, Bool.not_true, Bool.and_false, Bool.false_and, Bool.false_eq_true, if_false]
        rw [hkey]; exact hafter _ _
      · simp only [Bool.not_eq_true] at hcol
        by_cases hem : isEmptyJ v = true
        · simp only [hc, hcol, hem, Bool.and_false, Bool.not_true, Bool.false_eq_true, if_false, if_true, List.singleton_append, Bool.true_and, Bool.not_false]
          rw [hkey]; exact hafter _ _
        · simp only [Bool.not_eq_true] at hem
          simp only [hc, hcol, hem, Bool.and_false, Bool.not_true, Bool.false_eq_true, if_false, if_true, Bool.true_and, Bool.not_false, List.cons_append]
          rw [exec_key env view sel' sel _ x key d1 _ (h.kid _)]
          have hw := writeKey_found env view sel' (p ++ [done.length]) x key d1
          rcases hr : writeKey env view sel' (p ++ [done.length]) x key d1 with ⟨d2, b⟩
          rw [hr] at hw
          cases b with
          | false => rfl
          | true =>
            simp only at hw ⊢
            rw [exec_append]
            have hf2 : (if sel' = some (p ++ [done.length]) then some (p ++ [done.length] ++ [0]) else sel') = sel ∨ d2.found = true := by
              by_cases hs : sel' = some (p ++ [done.length])
              · right; rw [hw]; exact hsel2 hs
              · rw [if_neg hs]; exact hsel.imp id (fun hh => by rw [hw]; exact hh)
            have hev := hval _ d2 (Rel.val hn hk.1 (h.kid _)) hf2
            rw [hev]
            have hf3 := found_or hsel (fun hh => exec_found view sel (evValue env view.width view.collapsed (p ++ [done.length] ++ [0]) (p ++ [done.length]) true (x + 2) v) d2 (by rw [hw]; exact hh))
            rcases hr2 : exec view sel (evValue env view.width view.collapsed (p ++ [done.length] ++ [0]) (p ++ [done.length]) true (x + 2) v) d2 with ⟨d3, b⟩
            rw [hr2] at hf3
            cases b with
            | false => rfl
            | true => exact hrest d3 hf3
    · simp only [Bool.not_eq_true] at hc
      simp only [hc, Bool.false_and, Bool.not_false, Bool.false_eq_true, if_false, if_true, List.singleton_append]
      rw [hkey]; exact hafter _ _
end

end Verif.Lemmas
