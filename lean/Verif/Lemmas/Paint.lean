import Verif.Lemmas.WindowAll
import Verif.Model.Paint
/-! # The calls to the terminal, one line after the other -/
namespace Verif.Lemmas
open Verif.Model Verif.Model.Search Verif.Model.Tui Verif.Model.Term Verif.Model.Paint Verif.Spec

/-- The calls that write a line of the element `p`. -/
def lineCmds (look : Look) (env : Env) (view : View) (sel : Option Path) (p item : Path) (x : Nat) (text : Bytes) (row : Nat) : List Cmd :=
  let attr := attrOf look (decide (sel = some item)) (view.results.contains p)
  match elem env.root p with
  | some (.entry k v) =>
    [.move row x, .put (cstr k) (attr typeObjKey), .put b!": " (attr typeObj)] ++
      (if v.isContainer && !view.collapsed.contains (p ++ [0]) && !isEmptyJ v then [] else [.put (text.drop ((cstr k).length + 2)) (attr (typeOf v))])
  | some (.value v) => if v.isContainer && !view.collapsed.contains p then [.mvput row x text (attr (typeOf v))] else [.move row x, .put text (attr (typeOf v))]
  | none => []

def Ev.cmds (look : Look) (env : Env) (view : View) (sel : Option Path) : Ev → Draw → List Cmd
  | .check _ _, _ => []
  | .line p item x text _ _, d => if d.y ≤ d.scroll then [] else lineCmds look env view sel p item x text (d.y - d.scroll)

def execP (look : Look) (env : Env) (view : View) (sel : Option Path) : List Ev → Pen → Pen × Bool
  | [], e => (e, true)
  | ev :: es, e =>
    match ev.run view sel e.d with
    | (d, true) => execP look env view sel es ⟨d, e.out ++ ev.cmds look env view sel e.d⟩
    | (d, false) => (⟨d, e.out ++ ev.cmds look env view sel e.d⟩, false)

theorem execP_d (look : Look) (env : Env) (view : View) (sel : Option Path) (es : List Ev) (e : Pen) :
    (execP look env view sel es e).1.d = (exec view sel es e.d).1 ∧ (execP look env view sel es e).2 = (exec view sel es e.d).2 := by
  induction es generalizing e with
  | nil => exact ⟨rfl, rfl⟩
  | cons ev es ih =>
    simp only [execP, exec]
    rcases h : ev.run view sel e.d with ⟨d', b'⟩
    cases b' with
    | true => exact ih _
    | false => exact ⟨rfl, rfl⟩

theorem execP_append (look : Look) (env : Env) (view : View) (sel : Option Path) (a b : List Ev) (e : Pen) :
    execP look env view sel (a ++ b) e = match execP look env view sel a e with
      | (e, true) => execP look env view sel b e
      | (e, false) => (e, false) := by
  induction a generalizing e with
  | nil => rfl
  | cons ev a ih =>
    simp only [List.cons_append, execP]
    rcases h : ev.run view sel e.d with ⟨d', b'⟩
    cases b' with
    | true => exact ih _
    | false => rfl

theorem execP_found (look : Look) (env : Env) (view : View) (sel : Option Path) (es : List Ev) (e : Pen) (h : e.d.found = true) :
    (execP look env view sel es e).1.d.found = true := by
  rw [(execP_d look env view sel es e).1]; exact exec_found view sel es e.d h

theorem execP_check (look : Look) (env : Env) (view : View) (sel' sel : Option Path) (p : Path) (ie : Bool) (e : Pen) (es : List Ev)
    (hf : sel' = sel ∨ e.d.found = true) :
    execP look env view sel (.check p ie :: es) e = execP look env view sel es (penCheck sel' p ie e) := by
  simp only [execP, Ev.run, Ev.cmds, List.append_nil, penCheck]
  rcases hf with rfl | hf
  · rfl
  · rw [checkSelection_found sel' sel p ie e.d hf]

/-- Writing a line of a value: as a character, or as a text. -/
def penLine (look : Look) (view : View) (sel : Option Path) (p : Path) (x : Nat) (text : Bytes) (n : Nat) (v : Json) (e : Pen) : Pen :=
  if v.isContainer && !view.collapsed.contains p then penChar look view sel p (typeOf v) x text n e else penText look view sel p (typeOf v) x text n e

theorem penLine_d (look : Look) (view : View) (sel : Option Path) (p : Path) (x : Nat) (text : Bytes) (n : Nat) (v : Json) (e : Pen) :
    (penLine look view sel p x text n v e).d = write view sel p x text n e.d := by
  unfold penLine penChar penText; split <;> rfl

theorem execP_line (look : Look) (env : Env) (view : View) (sel' sel : Option Path) (p item : Path) (x : Nat) (text : Bytes) (n : Nat) (e : Pen) (es : List Ev)
    (v : Json) (hv : elem env.root p = some (.value v)) (h : Rel sel' sel p item) :
    execP look env view sel (.line p item x text n false :: es) e =
      if hasReachedBottom (penLine look view sel' p x text n v e).d.y (penLine look view sel' p x text n v e).d.scroll view.height
      then (penLine look view sel' p x text n v e, false)
      else execP look env view sel es (penLine look view sel' p x text n v e) := by
  have hr : (Ev.line p item x text n false).run view sel e.d =
      (write view sel' p x text n e.d, !hasReachedBottom (write view sel' p x text n e.d).y (write view sel' p x text n e.d).scroll view.height) := by
    simp only [Ev.run, write, h.flag]
    split <;> simp
  have ho : penLine look view sel' p x text n v e = ⟨write view sel' p x text n e.d, e.out ++ (Ev.line p item x text n false).cmds look env view sel e.d⟩ := by
    simp only [Ev.cmds, lineCmds, hv, penLine, penChar, penText, flagOf, h.flag]
    by_cases h1 : e.d.y ≤ e.d.scroll
    · simp [h1]
    · by_cases h2 : (v.isContainer && !view.collapsed.contains p) = true
      · simp only [h1, if_false, h2, if_true]
      · simp only [h1, if_false, h2]; rfl
  rw [ho]
  simp only [execP, hr]
  split
  · next hb => simp only [Prod.mk.injEq, Bool.not_eq_true'] at hb; obtain ⟨rfl, hb⟩ := hb; rw [hb]; rfl
  · next hb => simp only [Prod.mk.injEq, Bool.not_eq_false'] at hb; obtain ⟨rfl, hb⟩ := hb; rw [hb]; rfl

theorem pairP_if (b : Bool) (e : Pen) : (if b = true then (e, false) else (e, true)) = (e, !b) := by cases b <;> rfl

theorem execP_last (look : Look) (env : Env) (view : View) (sel' sel : Option Path) (p item : Path) (x : Nat) (text : Bytes) (n : Nat) (e : Pen)
    (v : Json) (hv : elem env.root p = some (.value v)) (h : Rel sel' sel p item) :
    execP look env view sel [.line p item x text n false] e =
      (penLine look view sel' p x text n v e,
        !hasReachedBottom (penLine look view sel' p x text n v e).d.y (penLine look view sel' p x text n v e).d.scroll view.height) := by
  rw [execP_line look env view sel' sel p item x text n e [] v hv h]
  exact pairP_if _ _

theorem execP_keyAfter (look : Look) (env : Env) (view : View) (sel' sel : Option Path) (p : Path) (x : Nat) (key after : Bytes) (n : Nat) (e : Pen) (es : List Ev)
    (v : Json) (hv : elem env.root p = some (.entry key v)) (hc : (v.isContainer && !view.collapsed.contains (p ++ [0]) && !isEmptyJ v) = false) (h : Rel sel' sel p p) :
    execP look env view sel (.line p p x (cstr key ++ b!": " ++ cstr after) (getNbLines (x + env.len key + 2 + n) view.width) false :: es) e =
      match penKeyAfter look env view sel' p (typeOf v) x key after n e with
      | (e, false) => (e, false)
      | (e, true) => if hasReachedBottom e.d.y e.d.scroll view.height then (e, false) else execP look env view sel es e := by
  have hdrop : (cstr key ++ b!": " ++ cstr after).drop ((cstr key).length + 2) = cstr after := by
    rw [List.append_assoc, List.drop_append, List.drop_eq_nil_of_le (by omega)]
    simp
  have hcm : (Ev.line p p x (cstr key ++ b!": " ++ cstr after) (getNbLines (x + env.len key + 2 + n) view.width) false).cmds look env view sel e.d =
      if e.d.y ≤ e.d.scroll then [] else [.move (e.d.y - e.d.scroll) x, .put (cstr key) (flagOf look view sel' p typeObjKey), .put b!": " (flagOf look view sel' p typeObj),
         .put (cstr after) (flagOf look view sel' p (typeOf v))] := by
    simp only [Ev.cmds, lineCmds, hv, hc, hdrop, flagOf, h.flag]
    rfl
  simp only [execP, hcm]
  simp only [penKeyAfter, writeKeyAfter]
  by_cases hy : e.d.y ≤ e.d.scroll
  · simp only [Ev.run, hy, if_true, List.append_nil]
    by_cases hb : hasReachedBottom (e.d.y + 1) e.d.scroll view.height = true
    · simp [hb]
    · simp only [Bool.not_eq_true] at hb
      simp [hb]
  · simp only [Ev.run, hy, if_false, write, h.flag]
    by_cases hb : hasReachedBottom (e.d.y + getNbLines (x + env.len key + 2 + n) view.width) e.d.scroll view.height = true
    · simp [hb]
    · simp only [Bool.not_eq_true] at hb
      simp [hb]

theorem execP_key (look : Look) (env : Env) (view : View) (sel' sel : Option Path) (p : Path) (x : Nat) (key : Bytes) (e : Pen) (es : List Ev)
    (v : Json) (hv : elem env.root p = some (.entry key v)) (hc : (v.isContainer && !view.collapsed.contains (p ++ [0]) && !isEmptyJ v) = true) (h : Rel sel' sel p p) :
    execP look env view sel (.line p p x (cstr key ++ b!": ") (getNbLines (env.len key + x) ((view.width + 4294967294) % 4294967296)) true :: es) e =
      match penKey look env view sel' p x key e with
      | (e, false) => (e, false)
      | (e, true) => execP look env view sel es e := by
  have hcm : (Ev.line p p x (cstr key ++ b!": ") (getNbLines (env.len key + x) ((view.width + 4294967294) % 4294967296)) true).cmds look env view sel e.d =
      if e.d.y ≤ e.d.scroll then [] else [.move (e.d.y - e.d.scroll) x, .put (cstr key) (flagOf look view sel' p typeObjKey), .put b!": " (flagOf look view sel' p typeObj)] := by
    simp only [Ev.cmds, lineCmds, hv, hc, flagOf, h.flag]
    rfl
  simp only [execP, hcm]
  simp only [penKey, writeKey]
  by_cases hy : e.d.y ≤ e.d.scroll
  · simp [Ev.run, hy]
  · simp only [Ev.run, hy, if_false, write, h.flag]
    by_cases hb : hasReachedBottom (e.d.y + getNbLines (env.len key + x) ((view.width + 4294967294) % 4294967296)) e.d.scroll view.height = true
    · simp [hb]
    · simp only [Bool.not_eq_true] at hb
      simp [hb]

theorem penCheck_found (sel : Option Path) (p : Path) (ie : Bool) (e : Pen) (h : e.d.found = true) : (penCheck sel p ie e).d.found = true :=
  check_found sel p ie e.d h

theorem penLine_found (look : Look) (view : View) (sel : Option Path) (p : Path) (x : Nat) (text : Bytes) (n : Nat) (v : Json) (e : Pen) :
    (penLine look view sel p x text n v e).d.found = e.d.found := by
  rw [penLine_d, write_found]

theorem penKey_found (look : Look) (env : Env) (view : View) (sel : Option Path) (p : Path) (x : Nat) (key : Bytes) (e : Pen) :
    (penKey look env view sel p x key e).1.d.found = e.d.found := writeKey_found env view sel p x key e.d

theorem penKeyAfter_found (look : Look) (env : Env) (view : View) (sel : Option Path) (p : Path) (type x : Nat) (key after : Bytes) (n : Nat) (e : Pen) :
    (penKeyAfter look env view sel p type x key after n e).1.d.found = e.d.found := writeKeyAfter_found env view sel p x key after n e.d

theorem foundP_or {sel' sel : Option Path} {e e' : Pen} (h : sel' = sel ∨ e.d.found = true) (hd : e.d.found = true → e'.d.found = true) :
    sel' = sel ∨ e'.d.found = true := h.imp id hd

theorem paint_primitive (look : Look) (env : Env) (view : View) (sel' sel : Option Path) (p item : Path) (ie : Bool) (x : Nat) (e : Pen) (v : Json)
    (hv : elem env.root p = some (.value v)) (hc : v.isContainer = false) (h : Rel sel' sel p item) (hf : sel' = sel ∨ e.d.found = true) :
    penPrimitive look env view sel' p x v (penCheck sel' p ie e) =
      execP look env view sel [.check p ie, .line p item x (cstr (v.stringify env.fmt)) (getNbLines (env.len (v.stringify env.fmt) + x) view.width) false] e := by
  rw [execP_check look env view sel' sel p ie e _ hf, execP_last look env view sel' sel p item _ _ _ _ v hv h]
  simp only [penLine, hc, Bool.false_and, Bool.false_eq_true, if_false]
  rfl

mutual
theorem paint_value (look : Look) (env : Env) (view : View) (sel : Option Path) (hn : NoVal env sel) : ∀ (v : Json) (sel' : Option Path) (p item : Path) (ie : Bool)
    (x : Nat) (e : Pen), elem env.root p = some (.value v) → Rel sel' sel p item → (sel' = sel ∨ e.d.found = true) →
    paintValue look env view sel' p ie x e v = execP look env view sel (evValue env view.width view.collapsed p item ie x v) e
  | .arr xs, sel', p, item, ie, x, e, hv, h, hf => by
    simp only [paintValue, evValue]
    rw [execP_check look env view sel' sel p ie e _ hf]
    have hf1 := foundP_or hf (penCheck_found sel' p ie e)
    generalize penCheck sel' p ie e = e1 at hf1 ⊢
    split
    · next hcol =>
      rw [execP_last look env view sel' sel p item _ _ _ _ _ hv h]
      simp only [penLine, hcol, Bool.not_true, Bool.and_false, Bool.false_eq_true, if_false]
      rfl
    · next hcol =>
      simp only [Bool.not_eq_true] at hcol
      have hch : ∀ (t : Bytes) n (e : Pen), penLine look view sel' p x t n (.arr xs) e = penChar look view sel' p typeArr x t n e := by
        intro t n e
        simp only [penLine, hcol]
        rfl
      rw [execP_line look env view sel' sel p item _ _ _ _ _ _ hv h, hch]
      have hf2 := foundP_or hf1 (e' := penLine look view sel' p x (openBracket false) (getNbLines (x + 1) view.width) (.arr xs) e1) (fun h => by rw [penLine_found]; exact h)
      rw [hch] at hf2
      generalize penChar look view sel' p typeArr x (openBracket false) (getNbLines (x + 1) view.width) e1 = e2 at hf2 ⊢
      split
      · rfl
      · have hi := paint_items look env view sel hn xs [] sel' p item (x + 4) e2 hv h hf2
        simp only [List.length_nil] at hi
        rw [execP_append, ← hi]
        rcases hr : paintItems look env view sel' p 0 (x + 4) e2 xs with ⟨e3, b⟩
        cases b with
        | false => rfl
        | true => simp only; rw [execP_last look env view sel' sel p item _ _ _ _ _ hv h, hch]
  | .obj es, sel', p, item, ie, x, e, hv, h, hf => by
    simp only [paintValue, evValue]
    rw [execP_check look env view sel' sel p ie e _ hf]
    have hf1 := foundP_or hf (penCheck_found sel' p ie e)
    generalize penCheck sel' p ie e = e1 at hf1 ⊢
    split
    · next hcol =>
      rw [execP_last look env view sel' sel p item _ _ _ _ _ hv h]
      simp only [penLine, hcol, Bool.not_true, Bool.and_false, Bool.false_eq_true, if_false]
      rfl
    · next hcol =>
      simp only [Bool.not_eq_true] at hcol
      have hch : ∀ (t : Bytes) n (e : Pen), penLine look view sel' p x t n (.obj es) e = penChar look view sel' p typeObj x t n e := by
        intro t n e
        simp only [penLine, hcol]
        rfl
      rw [execP_line look env view sel' sel p item _ _ _ _ _ _ hv h, hch]
      have hf2 := foundP_or hf1 (e' := penLine look view sel' p x (openBracket true) (getNbLines (x + 1) view.width) (.obj es) e1) (fun h => by rw [penLine_found]; exact h)
      rw [hch] at hf2
      generalize penChar look view sel' p typeObj x (openBracket true) (getNbLines (x + 1) view.width) e1 = e2 at hf2 ⊢
      split
      · rfl
      · have hi := paint_entries look env view sel hn es [] sel' p item (x + 4) e2 hv h hf2
        simp only [List.length_nil] at hi
        rw [execP_append, ← hi]
        rcases hr : paintEntries look env view sel' p 0 (x + 4) e2 es with ⟨e3, b⟩
        cases b with
        | false => rfl
        | true => simp only; rw [execP_last look env view sel' sel p item _ _ _ _ _ hv h, hch]
  | .str s, sel', p, item, ie, x, e, hv, h, hf => paint_primitive look env view sel' sel p item ie x e (.str s) hv rfl h hf
  | .bool s, sel', p, item, ie, x, e, hv, h, hf => paint_primitive look env view sel' sel p item ie x e (.bool s) hv rfl h hf
  | .null, sel', p, item, ie, x, e, hv, h, hf => paint_primitive look env view sel' sel p item ie x e .null hv rfl h hf
  | .int s, sel', p, item, ie, x, e, hv, h, hf => paint_primitive look env view sel' sel p item ie x e (.int s) hv rfl h hf
  | .long s, sel', p, item, ie, x, e, hv, h, hf => paint_primitive look env view sel' sel p item ie x e (.long s) hv rfl h hf
  | .dbl s, sel', p, item, ie, x, e, hv, h, hf => paint_primitive look env view sel' sel p item ie x e (.dbl s) hv rfl h hf

theorem paint_items (look : Look) (env : Env) (view : View) (sel : Option Path) (hn : NoVal env sel) : ∀ (vs done : List Json) (sel' : Option Path) (p item : Path)
    (x : Nat) (e : Pen), elem env.root p = some (.value (.arr (done ++ vs))) → Rel sel' sel p item → (sel' = sel ∨ e.d.found = true) →
    paintItems look env view sel' p done.length x e vs = execP look env view sel (evItems env view.width view.collapsed p done.length x vs) e
  | [], done, sel', p, item, x, e, hv, h, hf => by simp [paintItems, evItems, execP]
  | v :: vs, done, sel', p, item, x, e, hv, h, hf => by
    simp only [paintItems, evItems]
    have he := paint_value look env view sel hn v sel' (p ++ [done.length]) (p ++ [done.length]) false x e (kid_item hv) (h.kid _) hf
    have hf1 := foundP_or hf (execP_found look env view sel (evValue env view.width view.collapsed (p ++ [done.length]) (p ++ [done.length]) false x v) e)
    rw [execP_append, he]
    rcases hr : execP look env view sel (evValue env view.width view.collapsed (p ++ [done.length]) (p ++ [done.length]) false x v) e with ⟨e1, b⟩
    rw [hr] at hf1
    cases b with
    | false => rfl
    | true =>
      have := paint_items look env view sel hn vs (done ++ [v]) sel' p item x e1 (by simpa using hv) h hf1
      simpa using this

theorem paint_entries (look : Look) (env : Env) (view : View) (sel : Option Path) (hn : NoVal env sel) : ∀ (es done : List (Bytes × Json)) (sel' : Option Path) (p item : Path)
    (x : Nat) (e : Pen), elem env.root p = some (.value (.obj (done ++ es))) → Rel sel' sel p item → (sel' = sel ∨ e.d.found = true) →
    paintEntries look env view sel' p done.length x e es = execP look env view sel (evEntries env view.width view.collapsed p done.length x es) e
  | [], done, sel', p, item, x, e, hv, h, hf => by simp [paintEntries, evEntries, execP]
  | (key, v) :: es, done, sel', p, item, x, e, hv, h, hf => by
    have hk := kid_entry hv
    have hrest := fun e1 (hf1 : sel' = sel ∨ e1.d.found = true) =>
      paint_entries look env view sel hn es (done ++ [(key, v)]) sel' p item x e1 (by simpa using hv) h hf1
    simp only [List.length_append, List.length_singleton] at hrest
    have hval := fun sel' e1 => paint_value look env view sel hn v sel' (p ++ [done.length] ++ [0]) (p ++ [done.length]) true (x + 2) e1 hk.2
    simp only [paintEntries, evEntries]
    rw [execP_check look env view sel' sel _ _ e _ hf]
    have hsel : sel' = sel ∨ (penCheck sel' (p ++ [done.length]) false e).d.found = true := foundP_or hf (penCheck_found sel' _ _ e)
    have hsel2 : sel' = some (p ++ [done.length]) → (penCheck sel' (p ++ [done.length]) false e).d.found = true := by
      intro hs; unfold penCheck checkSelection; rw [if_pos hs]; dsimp only; split
      · rfl
      · next hh => simp at hh; split <;> (try split) <;> simp [hh]
    generalize penCheck sel' (p ++ [done.length]) false e = e1 at hsel hsel2 ⊢
    have hkey := fun hc after n es => execP_keyAfter look env view sel' sel (p ++ [done.length]) x key after n e1 es v hk.1 hc (h.kid _)
    have hafter : ∀ after n, (match penKeyAfter look env view sel' (p ++ [done.length]) (typeOf v) x key after n e1 with
        | (e, false) => (e, false)
        | (e, true) => if hasReachedBottom e.d.y e.d.scroll view.height = true then (e, false) else paintEntries look env view sel' p (done.length + 1) x e es) =
      (match penKeyAfter look env view sel' (p ++ [done.length]) (typeOf v) x key after n e1 with
        | (e, false) => (e, false)
        | (e, true) => if hasReachedBottom e.d.y e.d.scroll view.height = true then (e, false) else execP look env view sel (evEntries env view.width view.collapsed p (done.length + 1) x es) e) := by
      intro after n
      have hw := penKeyAfter_found look env view sel' (p ++ [done.length]) (typeOf v) x key after n e1
      rcases hr : penKeyAfter look env view sel' (p ++ [done.length]) (typeOf v) x key after n e1 with ⟨e2, b⟩
      rw [hr] at hw
      cases b with
      | false => rfl
      | true => simp only; rw [hrest e2 (foundP_or hsel (fun hh => by rw [← hh]; exact hw))]
    by_cases hc : v.isContainer = true
    · by_cases hcol : view.collapsed.contains (p ++ [done.length] ++ [0]) = true
      · simp only [hc, hcol, Bool.and_self, if_true, List.singleton_append, Bool.not_true, Bool.and_false, Bool.false_and, Bool.false_eq_true, if_false]
        rw [hkey (by simp only [hcol, Bool.not_true, Bool.and_false, Bool.false_and])]; exact hafter _ _
      · simp only [Bool.not_eq_true] at hcol
        by_cases hem : isEmptyJ v = true
        · simp only [hc, hcol, hem, Bool.and_false, Bool.not_true, Bool.false_eq_true, if_false, if_true, List.singleton_append, Bool.true_and, Bool.not_false]
          rw [hkey (by simp only [hem, Bool.not_true, Bool.and_false])]; exact hafter _ _
        · simp only [Bool.not_eq_true] at hem
          simp only [hc, hcol, hem, Bool.and_false, Bool.not_true, Bool.false_eq_true, if_false, if_true, Bool.true_and, Bool.not_false, List.cons_append]
          rw [execP_key look env view sel' sel _ x key e1 _ v hk.1 (by simp only [hc, hcol, hem, Bool.not_false, Bool.and_self]) (h.kid _)]
          have hw := penKey_found look env view sel' (p ++ [done.length]) x key e1
          rcases hr : penKey look env view sel' (p ++ [done.length]) x key e1 with ⟨e2, b⟩
          rw [hr] at hw
          cases b with
          | false => rfl
          | true =>
            simp only at hw ⊢
            rw [execP_append]
            have hf2 : (if sel' = some (p ++ [done.length]) then some (p ++ [done.length] ++ [0]) else sel') = sel ∨ e2.d.found = true := by
              by_cases hs : sel' = some (p ++ [done.length])
              · right; rw [hw]; exact hsel2 hs
              · rw [if_neg hs]; exact hsel.imp id (fun hh => by rw [hw]; exact hh)
            have hev := hval _ e2 (Rel.val hn hk.1 (h.kid _)) hf2
            rw [hev]
            have hf3 := foundP_or hsel (fun hh => execP_found look env view sel (evValue env view.width view.collapsed (p ++ [done.length] ++ [0]) (p ++ [done.length]) true (x + 2) v) e2 (by rw [hw]; exact hh))
            rcases hr2 : execP look env view sel (evValue env view.width view.collapsed (p ++ [done.length] ++ [0]) (p ++ [done.length]) true (x + 2) v) e2 with ⟨e3, b⟩
            rw [hr2] at hf3
            cases b with
            | false => rfl
            | true => exact hrest e3 hf3
    · simp only [Bool.not_eq_true] at hc
      simp only [hc, Bool.false_and, Bool.not_false, Bool.false_eq_true, if_false, if_true, List.singleton_append]
      rw [hkey (by simp only [hc, Bool.false_and])]; exact hafter _ _
end

end Verif.Lemmas
