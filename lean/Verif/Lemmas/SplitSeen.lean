import Verif.Lemmas.SplitCalls
import Verif.Lemmas.SplitTerm
import Verif.Spec.SplitPicture
/-!
# What is seen in a window of the diff view
-/
namespace Verif.Lemmas.Split
open Verif.Model Verif.Model.Diff Verif.Model.Split Verif.Model.SplitPaint Verif.Model.Term Verif.Spec Verif.Spec.SplitView Verif.Lemmas.SplitTerm
open Verif.Model.Paint (Look attrOf)
open Verif.Model.Tui (getNbLines hasReachedBottom cstr openBracket closeBracket collapsedText emptyText isObj isEmptyJ)

theorem less_eq {w k : Nat} (h1 : k ≤ w) (h2 : w < 4294967296) (hk : 0 < k) : less w k = w - k := by
  unfold less
  omega

theorem nbLines_cover {n w : Nat} (hw : 0 < w) : n ≤ getNbLines n w * w := by
  unfold getNbLines
  split
  · next h => exact Nat.le_of_eq (Nat.div_mul_cancel (Nat.dvd_of_mod_eq_zero h)).symm
  · have := Nat.lt_mul_div_succ n hw
    rw [Nat.mul_comm w] at this
    exact Nat.le_of_lt this

/-- The texts of a document are ASCII. -/
def AsciiElem : Elem → Prop
  | .value v => AsciiDoc v
  | .entry k v => Ascii k ∧ AsciiDoc v

theorem ascii_items : ∀ (xs : List Json), AsciiItems xs → ∀ v ∈ xs, AsciiDoc v := by
  intro xs
  induction xs with
  | nil => intro _ v hv; cases hv
  | cons x xs ih =>
    intro h v hv
    rw [AsciiItems] at h
    rcases List.mem_cons.mp hv with rfl | hv
    · exact h.1
    · exact ih h.2 v hv

theorem ascii_entries : ∀ (es : List (Bytes × Json)), AsciiEntries es → ∀ e ∈ es, Ascii e.1 ∧ AsciiDoc e.2 := by
  intro es
  induction es with
  | nil => intro _ v hv; cases hv
  | cons x xs ih =>
    intro h v hv
    obtain ⟨k, u⟩ := x
    rw [AsciiEntries] at h
    rcases List.mem_cons.mp hv with rfl | hv
    · exact ⟨h.1, h.2.1⟩
    · exact ih h.2.2 v hv

theorem ascii_at : ∀ (p : Path) (e x : Elem), AsciiElem e → e.at p = some x → AsciiElem x := by
  intro p
  induction p with
  | nil => intro e x h he; cases he; exact h
  | cons i p ih =>
    intro e x h he
    have he : (e.kids[i]?).bind (fun y => y.at p) = some x := he
    cases hk : e.kids[i]? with
    | none => rw [hk] at he; cases he
    | some y =>
      rw [hk] at he
      refine ih y x ?_ he
      have hmem : y ∈ e.kids := List.mem_of_getElem? hk
      cases e with
      | entry k v =>
        simp only [Elem.kids, List.mem_singleton] at hmem
        subst hmem
        exact h.2
      | value v =>
        cases v with
        | arr xs =>
          simp only [Elem.kids, List.mem_map] at hmem
          obtain ⟨u, hu, rfl⟩ := hmem
          have h : AsciiDoc (.arr xs) := h
          rw [AsciiDoc] at h
          exact ascii_items xs h u hu
        | obj es =>
          simp only [Elem.kids, List.mem_map] at hmem
          obtain ⟨u, hu, rfl⟩ := hmem
          have h : AsciiDoc (.obj es) := h
          rw [AsciiDoc] at h
          exact ascii_entries es h u hu
        | _ => cases hmem

/-- What is known of a text. -/
structure PrintOk (env : Env) (look : Look) (W col : Nat) (a : Print) : Prop where
  picture : ∀ row sel srch cl, (textGlyphs look sel srch a.parts).map (seen look) = cellPicture look.colours env ⟨row, col, a.text, sel, srch, a.who, cl⟩
  length : ∀ sel srch, (textGlyphs look sel srch a.parts).length = a.text.length
  cover : col + a.text.length ≤ a.lines * W
  char : a.char = true → ∃ p, a.parts = [p]

theorem picture_value {env : Env} {look : Look} {e : Ptr} {v : Json} (h : env.elem e = some (.value v)) (text : Bytes) (row col : Nat) (sel srch cl : Bool) :
    (textGlyphs look sel srch [(text, env.type e)]).map (seen look) = cellPicture look.colours env ⟨row, col, joined [(text, env.type e)], sel, srch, e, cl⟩ := by
  simp only [textGlyphs, cellPicture, cellParts, h, List.flatMap_cons, List.flatMap_nil, List.append_nil, List.map_map, joined, List.foldl_cons, List.foldl_nil, List.nil_append]
  refine List.map_congr_left fun c _ => ?_
  have : env.type e = Paint.typeOf v := by unfold Env.type; rw [h]
  rw [this]
  exact seen_attr look c sel srch v

theorem picture_entry {env : Env} {look : Look} {e : Ptr} {k : Bytes} {v : Json} (h : env.elem e = some (.entry k v)) (text : Bytes) (row col : Nat) (sel srch cl : Bool) :
    (textGlyphs look sel srch [(cstr k, Paint.typeObjKey), (b!": ", Paint.typeObj), (text, env.type e)]).map (seen look) =
      cellPicture look.colours env ⟨row, col, joined [(cstr k, Paint.typeObjKey), (b!": ", Paint.typeObj), (text, env.type e)], sel, srch, e, cl⟩ := by
  have ht : env.type e = Paint.typeOf v := by unfold Env.type; rw [h]
  have hd : (joined [(cstr k, Paint.typeObjKey), ((b!": " : Bytes), Paint.typeObj), (text, env.type e)]).drop ((shown k).length + 2) = text := by
    simp only [joined, List.foldl_cons, List.foldl_nil, List.nil_append]
    have : (shown k).length + 2 = (cstr k ++ (b!": " : Bytes)).length := by rw [List.length_append]; rfl
    rw [this, List.drop_left]
  simp only [textGlyphs, cellPicture, cellParts, h, hd, List.flatMap_cons, List.flatMap_nil, List.append_nil, List.map_append, List.map_map]
  congr 1
  · exact List.map_congr_left fun c _ => seen_key look c _ _
  · congr 1
    · exact List.map_congr_left fun c _ => seen_sep look c _ _
    · refine List.map_congr_left fun c _ => ?_
      rw [ht]
      exact seen_attr look c _ _ v

theorem picture_key {env : Env} {look : Look} {e : Ptr} {k : Bytes} {v : Json} (h : env.elem e = some (.entry k v)) (row col : Nat) (sel srch cl : Bool) :
    (textGlyphs look sel srch [(cstr k, Paint.typeObjKey), (b!": ", Paint.typeObj)]).map (seen look) =
      cellPicture look.colours env ⟨row, col, joined [(cstr k, Paint.typeObjKey), (b!": ", Paint.typeObj)], sel, srch, e, cl⟩ := by
  have := picture_entry (look := look) h [] row col sel srch cl
  have h1 : joined [(cstr k, Paint.typeObjKey), ((b!": " : Bytes), Paint.typeObj), ([], env.type e)] = joined [(cstr k, Paint.typeObjKey), ((b!": " : Bytes), Paint.typeObj)] := by simp [joined]
  have h2 : textGlyphs look sel srch [(cstr k, Paint.typeObjKey), ((b!": " : Bytes), Paint.typeObj), ([], env.type e)] =
      textGlyphs look sel srch [(cstr k, Paint.typeObjKey), ((b!": " : Bytes), Paint.typeObj)] := by simp [textGlyphs]
  rw [h1, h2] at this
  exact this

theorem glyphs_length (look : Look) (sel srch : Bool) (parts : List (Bytes × Nat)) : (textGlyphs look sel srch parts).length = (joined parts).length := by
  have : ∀ (l : List (Bytes × Nat)) (b : Bytes), (l.foldl (fun t p => t ++ p.1) b).length = b.length + (textGlyphs look sel srch l).length := by
    intro l
    induction l with
    | nil => intro b; simp [textGlyphs]
    | cons p l ih =>
      intro b
      rw [List.foldl_cons, ih]
      simp [textGlyphs]
      omega
  have := this parts []
  simp only [List.length_nil, Nat.zero_add] at this
  exact this.symm

theorem cstr_shown (k : Bytes) : cstr k = shown k := rfl

/-- The texts of an item. -/
theorem prints_ok {env : Env} (look : Look) {view : View} {side : Bool} {it : Item} (hp : Plain env.fmt env.len) (hd : AsciiDoc (env.root side)) (h5 : 5 ≤ view.width)
    (hw : view.width < 4294967296) (hx : 2 ≤ it.col) (hcl : it.closing = true → ∃ v, (Elem.value (env.root side)).at it.path = some (.value v)) :
    ∀ a ∈ prints env view side it, PrintOk env look (view.width - 2) it.col a := by
  have h2 := less_eq (w := view.width) (k := 2) (by omega) hw (by omega)
  have h4 := less_eq (w := view.width) (k := 4) (by omega) hw (by omega)
  have hcov : ∀ n, n ≤ getNbLines n (view.width - 2) * (view.width - 2) := fun n => nbLines_cover (by omega)
  have hasc : ∀ e, (Elem.value (env.root side)).at it.path = some e → AsciiElem e := fun e he => ascii_at _ _ _ (show AsciiElem (.value (env.root side)) from hd) he
  intro a ha
  unfold prints at ha
  simp only [h2, h4] at ha
  have hlen1 : ∀ (t : Bytes) (n : Nat), (joined [(t, n)]).length = t.length := by intro t n; simp [joined]
  have hlen3 : ∀ (t u : Bytes) (n m l : Nat), (joined [(t, n), ((b!": " : Bytes), m), (u, l)]).length = t.length + 2 + u.length := by intro t u n m l; simp [joined]; omega
  split at ha
  · next hc =>
    simp only [List.mem_singleton] at ha
    subst ha
    obtain ⟨v, hv⟩ := hcl hc
    refine ⟨fun row sel srch cl => picture_value (by rw [elem_ptr]; exact hv) _ row _ sel srch cl, fun sel srch => glyphs_length .., ?_, fun _ => ⟨_, rfl⟩⟩
    show it.col + (joined _).length ≤ _
    rw [hlen1]
    have : (closeBracket (env.isObject (ptr side it.path))).length = 1 := by cases env.isObject (ptr side it.path) <;> rfl
    rw [this]
    exact hcov _
  · split at ha
    · cases ha
    · next k v hv =>
      have hk := (hasc _ hv).1
      have hv' := (hasc _ hv).2
      have hent : env.elem (ptr side it.path) = some (.entry k v) := by rw [elem_ptr]; exact hv
      have hafter : ∀ (t : Bytes) (n : Nat), (cstr t).length ≤ n → PrintOk env look (view.width - 2) it.col
          ⟨ptr side it.path, false, [(cstr k, Paint.typeObjKey), (b!": ", Paint.typeObj), (cstr t, env.type (ptr side it.path))], getNbLines (it.col + env.len k + 2 + n) (view.width - 2), false⟩ := by
        intro t n ht
        refine ⟨fun row sel srch cl => picture_entry hent _ row _ sel srch cl, fun sel srch => glyphs_length .., ?_, fun h => (by cases h)⟩
        show it.col + (joined _).length ≤ getNbLines (it.col + env.len k + 2 + n) (view.width - 2) * (view.width - 2)
        have hc := hcov (it.col + env.len k + 2 + n)
        rw [hlen3, cstr_shown k, shown_ascii hk]
        have := hp.len k hk
        omega
      split at ha
      · simp only [List.mem_singleton] at ha
        subst ha
        exact hafter _ _ (by cases isObj v <;> decide)
      split at ha
      · next hc =>
        simp only [List.mem_singleton] at ha
        subst ha
        have := prim_size hp hv' (by simpa using hc)
        exact hafter _ _ (Nat.le_of_eq this.symm)
      split at ha
      · simp only [List.mem_singleton] at ha
        subst ha
        exact hafter _ _ (by cases isObj v <;> decide)
      · simp only [List.mem_cons, List.not_mem_nil, or_false] at ha
        rcases ha with rfl | rfl
        · refine ⟨fun row sel srch cl => picture_key hent row _ sel srch cl, fun sel srch => glyphs_length .., ?_, fun h => (by cases h)⟩
          show it.col + (joined _).length ≤ getNbLines (env.len k + it.col) (view.width - 4) * (view.width - 2)
          have hl : (joined [(cstr k, Paint.typeObjKey), ((b!": " : Bytes), Paint.typeObj)]).length = k.length + 2 := by
            simp only [joined, List.foldl_cons, List.foldl_nil, List.nil_append, List.length_append, cstr_shown, shown_ascii hk]
            rfl
          have h1 := nbLines_cover (n := env.len k + it.col) (w := view.width - 4) (by omega)
          have h3 := hp.len k hk
          have h6 : getNbLines (env.len k + it.col) (view.width - 4) * (view.width - 2) =
              getNbLines (env.len k + it.col) (view.width - 4) * (view.width - 4) + getNbLines (env.len k + it.col) (view.width - 4) * 2 := by
            rw [← Nat.mul_add, show view.width - 4 + 2 = view.width - 2 from by omega]
          rw [h6, hl]
          have := nbLines_pos (n := env.len k + it.col) (w := view.width - 4) (by omega)
          omega
        · have hv2 : env.elem (ptr side (it.path ++ [0])) = some (.value v) := by rw [elem_ptr, at_child hv]; rfl
          refine ⟨fun row sel srch cl => picture_value hv2 _ row _ sel srch cl, fun sel srch => glyphs_length .., ?_, fun _ => ⟨_, rfl⟩⟩
          show it.col + (joined _).length ≤ getNbLines (it.col + 1) (view.width - 2) * (view.width - 2)
          rw [hlen1, show (openBracket (isObj v)).length = 1 by cases isObj v <;> rfl]
          exact hcov _
    · next v hv =>
      have hv' : AsciiDoc v := hasc _ hv
      have hval : env.elem (ptr side it.path) = some (.value v) := by rw [elem_ptr]; exact hv
      split at ha
      · split at ha
        · simp only [List.mem_singleton] at ha
          subst ha
          refine ⟨fun row sel srch cl => picture_value hval _ row _ sel srch cl, fun sel srch => glyphs_length .., ?_, fun h => (by cases h)⟩
          show it.col + (joined _).length ≤ getNbLines (7 + it.col) (view.width - 2) * (view.width - 2)
          rw [hlen1, show (collapsedText (isObj v)).length = 7 by cases isObj v <;> rfl, Nat.add_comm]
          exact hcov _
        · simp only [List.mem_singleton] at ha
          subst ha
          refine ⟨fun row sel srch cl => picture_value hval _ row _ sel srch cl, fun sel srch => glyphs_length .., ?_, fun _ => ⟨_, rfl⟩⟩
          show it.col + (joined _).length ≤ getNbLines (it.col + 1) (view.width - 2) * (view.width - 2)
          rw [hlen1, show (openBracket (isObj v)).length = 1 by cases isObj v <;> rfl]
          exact hcov _
      · next hc =>
        simp only [List.mem_singleton] at ha
        subst ha
        refine ⟨fun row sel srch cl => picture_value hval _ row _ sel srch cl, fun sel srch => glyphs_length .., ?_, fun h => (by cases h)⟩
        show it.col + (joined _).length ≤ getNbLines (env.len (v.stringify env.fmt) + it.col) (view.width - 2) * (view.width - 2)
        rw [hlen1, cstr_shown, ← prim_size hp hv' (by simpa using hc), Nat.add_comm]
        exact hcov _

theorem glyphIn_some {look : Look} {W H : Nat} {c : Call} {k : Nat} {g : Glyph} (h : glyphIn look W H c k = some g) :
    start W c ≤ k ∧ k < start W c + (glyphs look H c).length ∧ (glyphs look H c)[k - start W c]? = some g := by
  unfold glyphIn at h
  split at h
  · next hle =>
    obtain ⟨hlt, _⟩ := List.getElem?_eq_some_iff.mp h
    exact ⟨hle, by omega, h⟩
  · cases h

theorem glyphIn_of {look : Look} {W H : Nat} {c : Call} {k j : Nat} (hk : k = start W c + j) : glyphIn look W H c k = (glyphs look H c)[j]? := by
  unfold glyphIn
  rw [if_pos (by omega)]
  congr 1
  omega

/-- The calls of what is put in a window. -/
theorem ev_calls {env : Env} {view : View} {sel : Option Ptr} {sc : Nat} {e : Ev} {c : Call} (h : c ∈ e.calls env view sel sc) :
    (∃ m ∈ e.marks env sc, c = .mark m.row m.op) ∨
    ∃ col b, e = .text col b ∧ c = .text b.1.char (b.2 - sc) col b.1.parts (selOf env sel b.1.who) (view.results.contains b.1.who) := by
  have hm : ∀ row op, c ∈ callMark row op → c = .mark row op ∧ ⟨row, op⟩ ∈ displayDiffOp row op [] := by
    intro row op hc
    unfold callMark at hc
    unfold displayDiffOp
    split at hc
    · cases hc
    · next hne => simp only [List.mem_singleton] at hc; rw [if_neg hne]; exact ⟨hc, by simp⟩
  cases e with
  | gap y =>
    simp only [Ev.calls, List.mem_singleton] at h
    exact .inl ⟨⟨y, .rem⟩, by simp [Ev.marks], h⟩
  | text col b =>
    simp only [Ev.calls, callAt] at h
    cases hch : b.1.char with
    | true =>
      rw [hch] at h
      simp only [if_true, List.nil_append, List.mem_cons] at h
      rcases h with h | h
      · exact .inr ⟨col, b, rfl, by rw [hch]; exact h⟩
      · obtain ⟨h1, h2⟩ := hm _ _ h
        exact .inl ⟨_, by simp only [Ev.marks, markAt, hch, if_true]; exact h2, h1⟩
    | false =>
      rw [hch] at h
      simp only [Bool.false_eq_true, if_false, List.mem_append, List.mem_cons, List.not_mem_nil, or_false] at h
      rcases h with h | h
      · obtain ⟨h1, h2⟩ := hm _ _ h
        exact .inl ⟨_, by simp only [Ev.marks, markAt, hch, Bool.false_eq_true, if_false]; exact h2, h1⟩
      · exact .inr ⟨col, b, rfl, by rw [hch]; exact h⟩

theorem ev_text_call (env : Env) (view : View) (sel : Option Ptr) (sc : Nat) (col : Nat) (b : Print × Nat) :
    .text b.1.char (b.2 - sc) col b.1.parts (selOf env sel b.1.who) (view.results.contains b.1.who) ∈ (Ev.text col b).calls env view sel sc := by
  simp only [Ev.calls, callAt]
  exact List.mem_append_right _ List.mem_cons_self

/-- The marks of what is put in a window. -/
theorem ev_marks {env : Env} {view : View} {side : Bool} {sel : Option Ptr} {sc : Nat} {e : Ev} {m : Mark} (h : m ∈ e.marks env sc) (hr : e.Real env view side sc) (h1 : 1 ≤ e.first) :
    m.op ≠ .equ ∧ (sc = 0 → m.row = e.first) ∧ 1 ≤ m.row ∧ .mark m.row m.op ∈ e.calls env view sel sc ∧ ∀ m' ∈ e.marks env sc, m' = m := by
  cases e with
  | gap y =>
    simp only [Ev.marks, List.mem_singleton] at h
    subst h
    exact ⟨by simp, fun _ => rfl, h1, by simp [Ev.calls], fun m' h' => by simpa [Ev.marks] using h'⟩
  | text col b =>
    have hsc : sc < b.2 := hr.1
    simp only [Ev.marks, markAt, displayDiffOp, List.nil_append] at h
    split at h
    · cases h
    · next hne =>
      simp only [List.mem_singleton] at h
      subst h
      refine ⟨hne, fun h0 => ?_, ?_, ?_, ?_⟩
      · subst h0
        simp [Ev.first]
      · dsimp only
        split <;> omega
      · simp only [Ev.calls, callAt, callMark]
        cases hch : b.1.char <;> simp [hne]
      · intro m' h'
        simp only [Ev.marks, markAt, displayDiffOp, List.nil_append, if_neg hne, List.mem_singleton] at h'
        exact h'

theorem pair_cases {α : Type} {R : α → α → Prop} {l : List α} (h : l.Pairwise R) : ∀ a ∈ l, ∀ b ∈ l, a = b ∨ R a b ∨ R b a := by
  induction h with
  | nil => intro a ha; cases ha
  | cons h1 _ ih =>
    intro a ha b hb
    rcases List.mem_cons.mp ha with rfl | ha'
    · rcases List.mem_cons.mp hb with rfl | hb'
      · exact .inl rfl
      · exact .inr (.inl (h1 b hb'))
    · rcases List.mem_cons.mp hb with rfl | hb'
      · exact .inr (.inr (h1 a ha'))
      · exact ih a ha' b hb'

theorem same_place {W r r' i i' : Nat} (h : r * W + i = r' * W + i') (hi : i < W) (hi' : i' < W) : r = r' ∧ i = i' := by
  have h1 : (r * W + i) / W = r := by rw [Nat.mul_comm, Nat.mul_add_div (by omega), Nat.div_eq_of_lt hi]; omega
  have h2 : (r' * W + i') / W = r' := by rw [Nat.mul_comm, Nat.mul_add_div (by omega), Nat.div_eq_of_lt hi']; omega
  have : r = r' := by rw [← h1, ← h2, h]
  subst this
  exact ⟨rfl, by omega⟩

theorem mark_length (look : Look) (H : Nat) (row : Nat) (op : Op) : (glyphs look H (.mark row op)).length ≤ 2 := by
  simp only [glyphs]
  split
  · cases op <;> decide
  · decide

theorem mark_picture (look : Look) {H row : Nat} (op : Op) (h : row < H) : (glyphs look H (.mark row op)).map (seen look) = signPicture look.colours op := by
  simp only [glyphs, if_pos h]
  cases look with
  | mk colours name => cases colours <;> cases op <;> rfl

/-- What is seen in a window. -/
theorem window_at {env : Env} (look : Look) (active : Bool) {view : View} {side : Bool} {w : Win} {evs : List Ev} (h : Called env view side w evs) (hp : Plain env.fmt env.len)
    (hd : AsciiDoc (env.root side)) (h5 : 5 ≤ view.width) (hw : view.width < 4294967296) (hh : 0 < view.height) (hn : 0 ∉ look.name)
    (hin : ∀ c ∈ w.screen, c.row < view.height ∧ c.col < view.width - 2) (hfit : w.scroll = 0 ∨ ∀ c ∈ w.screen, c.col + c.text.length ≤ view.width - 2) :
    (painted look active view.width view.height w).width = view.width - 2 ∧ (painted look active view.width view.height w).height = view.height ∧
    ∀ k, k + 1 < (view.width - 2) * view.height →
      (k < view.width - 2 → (painted look active view.width view.height w).at_ k = ⟨((look.name.take (view.width - 2) ++ List.replicate (view.width - 2) 32)[k]?).getD 32,
        ⟨false, if look.colours then some (if active then Paint.specialActiveInputName else specialInputName) else none⟩⟩) ∧
      (∀ c ∈ w.screen, ∀ j, k = c.row * (view.width - 2) + c.col + j → j < c.text.length →
        (cellPicture look.colours env c)[j]? = some (seen look ((painted look active view.width view.height w).at_ k))) ∧
      (w.scroll = 0 → ∀ m ∈ w.marks, m.row < view.height → ∀ j, k = m.row * (view.width - 2) + j → j < 2 →
        (signPicture look.colours m.op)[j]? = some (seen look ((painted look active view.width view.height w).at_ k))) ∧
      (view.width - 2 ≤ k → (∀ c ∈ w.screen, ¬ (c.row * (view.width - 2) + c.col ≤ k ∧ k < c.row * (view.width - 2) + c.col + c.text.length)) →
        (∀ m ∈ w.marks, ¬ (m.row * (view.width - 2) ≤ k ∧ k < m.row * (view.width - 2) + 2)) → (painted look active view.width view.height w).at_ k = nothing) := by
  have h2 := less_eq (w := view.width) (k := 2) (by omega) hw (by omega)
  generalize hW : view.width - 2 = W at *
  have hW3 : 3 ≤ W := by omega
  -- the texts
  have hcell : ∀ col b, .text col b ∈ evs → cellAt env view w.sel w.scroll col b ∈ w.screen := by
    intro col b hb
    rw [h.screen]
    exact List.mem_flatMap.mpr ⟨_, hb, List.mem_singleton_self _⟩
  have hprint : ∀ col b, .text col b ∈ evs → PrintOk env look W col b.1 ∧ 2 ≤ col := by
    intro col b hb
    obtain ⟨_, it, h1, h2, h3, h4⟩ := h.real _ hb
    have := prints_ok look hp hd h5 hw (by omega) h4 _ h3
    rw [h1, hW] at this
    exact ⟨this, h2⟩
  have htext : ∀ (e : Ev), e ∈ evs → ∀ m ∈ e.marks env w.scroll, m ∈ w.marks := by
    intro e he m hm
    rw [h.marks]
    exact List.mem_flatMap.mpr ⟨e, he, hm⟩
  have hcall : ∀ c ∈ w.calls, ∃ e ∈ evs, c ∈ e.calls env view w.sel w.scroll := by
    intro c hc
    rw [h.calls] at hc
    exact List.mem_flatMap.mp hc
  have hcallOf : ∀ e ∈ evs, ∀ c ∈ e.calls env view w.sel w.scroll, c ∈ w.calls := by
    intro e he c hc
    rw [h.calls]
    exact List.mem_flatMap.mpr ⟨e, he, hc⟩
  have hfits : ∀ c ∈ w.calls, Fits W view.height c ∧ W ≤ start W c := by
    intro c hc
    obtain ⟨e, he, hc⟩ := hcall c hc
    rcases ev_calls hc with ⟨m, hm, rfl⟩ | ⟨col, b, rfl, rfl⟩
    · have := ev_marks (sel := w.sel) hm (h.real e he) (h.bounds e he).1
      exact ⟨trivial, Nat.le_mul_of_pos_left _ this.2.2.1⟩
    · have h1 := hin _ (hcell col b he)
      have h3 := (h.real _ he).1
      refine ⟨⟨h1.1, h1.2, (hprint col b he).1.char⟩, ?_⟩
      have : W ≤ (b.2 - w.scroll) * W := Nat.le_mul_of_pos_left _ (by omega)
      simp only [SplitTerm.start]
      omega
  obtain ⟨a1, a2, a3⟩ := painted_at look active (width := view.width) (H := view.height) (w := w) (by omega) hh hn (by rw [h2]; exact fun c hc => (hfits c hc).1)
    (by rw [h2]; exact fun c hc => (hfits c hc).2)
  rw [h2] at a1 a3
  -- where an event writes, if the window is not scrolled
  have hspan : w.scroll = 0 → ∀ e ∈ evs, ∀ c ∈ e.calls env view w.sel w.scroll, ∀ k g, glyphIn look W view.height c k = some g → e.first * W ≤ k ∧ k < e.next * W := by
    intro h0 e he c hc k g hg
    obtain ⟨g1, g2, _⟩ := glyphIn_some hg
    have hb := h.bounds e he
    have hnext : e.first * W + W ≤ e.next * W := by rw [← Nat.succ_mul]; exact Nat.mul_le_mul_right _ hb.2.1
    rcases ev_calls hc with ⟨m, hm, rfl⟩ | ⟨col, b, rfl, rfl⟩
    · have h3 := (ev_marks (sel := w.sel) hm (h.real e he) hb.1).2.1 h0
      have := mark_length look view.height m.row m.op
      simp only [SplitTerm.start] at g1 g2
      rw [h3] at g1 g2 this
      omega
    · have hpo := (hprint col b he).1
      have hl := hpo.length (selOf env w.sel b.1.who) (view.results.contains b.1.who)
      simp only [SplitTerm.start, glyphs, hl, h0, Nat.sub_zero] at g1 g2
      have hc := hpo.cover
      simp only [Ev.first, Ev.next, Nat.add_mul]
      omega
  have hdis : w.scroll = 0 → ∀ e ∈ evs, ∀ e' ∈ evs, ∀ c ∈ e.calls env view w.sel w.scroll, ∀ c' ∈ e'.calls env view w.sel w.scroll, ∀ k g g',
      glyphIn look W view.height c k = some g → glyphIn look W view.height c' k = some g' → e = e' := by
    intro h0 e he e' he' c hc c' hc' k g g' hg hg'
    have h1 := hspan h0 e he c hc k g hg
    have h2 := hspan h0 e' he' c' hc' k g' hg'
    rcases pair_cases h.order e he e' he' with h3 | h3 | h3
    · exact h3
    · have := Nat.mul_le_mul_right W h3
      omega
    · have := Nat.mul_le_mul_right W h3
      omega
  refine ⟨a1, a2, fun k hk => ⟨(a3 k hk).1, ?_, ?_, ?_⟩⟩
  · -- texts
    intro c hc j hj hlt
    rw [h.screen] at hc
    obtain ⟨e, he, hc⟩ := List.mem_flatMap.mp hc
    cases e with
    | gap y => cases hc
    | text col b =>
      simp only [Ev.cells, List.mem_singleton] at hc
      subst hc
      obtain ⟨hpo, hcol⟩ := hprint col b he
      have hcallb := ev_text_call env view w.sel w.scroll col b
      generalize hcb : Call.text b.1.char (b.2 - w.scroll) col b.1.parts (selOf env w.sel b.1.who) (view.results.contains b.1.who) = cb at hcallb
      have hg : glyphIn look W view.height cb k = (glyphs look view.height cb)[j]? := by
        refine glyphIn_of ?_
        rw [← hcb]
        exact hj
      have hgs : glyphs look view.height cb = textGlyphs look (selOf env w.sel b.1.who) (view.results.contains b.1.who) b.1.parts := by rw [← hcb]; rfl
      have hjl : j < (glyphs look view.height cb).length := by rw [hgs, hpo.length]; exact hlt
      rw [List.getElem?_eq_getElem hjl] at hg
      have hpic := hpo.picture (b.2 - w.scroll) (selOf env w.sel b.1.who) (view.results.contains b.1.who) b.1.closing
      have hother : ∀ c' ∈ w.calls, ∀ g', glyphIn look W view.height c' k = some g' → g' = (glyphs look view.height cb)[j] := by
        intro c' hc' g' hg'
        obtain ⟨e', he', hc'⟩ := hcall c' hc'
        have hsame : e' = .text col b → g' = (glyphs look view.height cb)[j] := by
          intro hee
          subst hee
          rcases ev_calls hc' with ⟨m, hm, rfl⟩ | ⟨col', b', heq, rfl⟩
          · exfalso
            obtain ⟨g1, g2, _⟩ := glyphIn_some hg'
            have hml := mark_length look view.height m.row m.op
            rcases hfit with h0 | hfit
            · have h3 := (ev_marks (sel := w.sel) hm (h.real _ he') (h.bounds _ he').1).2.1 h0
              simp only [SplitTerm.start] at g1 g2
              rw [h3] at g1 g2 hml
              simp only [Ev.first] at g1 g2 hml
              have : k = b.2 * W + col + j := by rw [hj]; simp only [cellAt, h0, Nat.sub_zero]
              omega
            · have hf := hfit _ (hcell col b he)
              simp only [cellAt] at hf hj hlt
              simp only [SplitTerm.start] at g1 g2
              have := same_place (W := W) (r := b.2 - w.scroll) (i := col + j) (r' := m.row) (i' := k - m.row * W) (by omega) (by omega) (by omega)
              omega
          · obtain ⟨e1, e2⟩ := Ev.text.inj heq
            subst e1 e2
            rw [hcb, hg] at hg'
            exact (Option.some.inj hg').symm
        rcases hfit with h0 | hfit
        · exact hsame (hdis h0 e' he' _ he c' hc' cb hcallb k _ _ hg' hg)
        · rcases ev_calls hc' with ⟨m, hm, rfl⟩ | ⟨col', b', heq, rfl⟩
          · exfalso
            obtain ⟨g1, g2, _⟩ := glyphIn_some hg'
            have hml := mark_length look view.height m.row m.op
            have hf := hfit _ (hcell col b he)
            simp only [cellAt] at hf hj hlt
            simp only [SplitTerm.start] at g1 g2
            have := same_place (W := W) (r := b.2 - w.scroll) (i := col + j) (r' := m.row) (i' := k - m.row * W) (by omega) (by omega) (by omega)
            omega
          · refine hsame ?_
            obtain ⟨g1, g2, _⟩ := glyphIn_some hg'
            subst heq
            have hl := (hprint col' b' he').1.length (selOf env w.sel b'.1.who) (view.results.contains b'.1.who)
            simp only [SplitTerm.start, glyphs, hl] at g1 g2
            have hf := hfit _ (hcell col b he)
            have hf' := hfit _ (hcell col' b' he')
            simp only [cellAt] at hf hf' hj hlt
            have hr := (same_place (W := W) (r := b.2 - w.scroll) (i := col + j) (r' := b'.2 - w.scroll) (i' := k - (b'.2 - w.scroll) * W) (by omega) (by omega) (by omega)).1
            have hs : w.scroll < b.2 := (h.real _ he).1
            have hs' : w.scroll < b'.2 := (h.real _ he').1
            have hb := h.bounds _ he
            have hb' := h.bounds _ he'
            simp only [Ev.first, Ev.next] at hb hb'
            rcases pair_cases h.order _ he' _ he with h3 | h3 | h3
            · exact h3
            · simp only [Ev.first, Ev.next] at h3; omega
            · simp only [Ev.first, Ev.next] at h3; omega
      have hfin := (a3 k hk).2.1 _ hother ⟨cb, hcallOf _ he _ hcallb, by rw [hg]; simp⟩
      rw [hfin]
      show (cellPicture look.colours env ⟨b.2 - w.scroll, col, b.1.text, selOf env w.sel b.1.who, view.results.contains b.1.who, b.1.who, b.1.closing⟩)[j]? = _
      rw [← hpic, List.getElem?_map, ← hgs, List.getElem?_eq_getElem hjl]
      rfl
  · -- marks
    intro h0 m hm hrow j hj hlt
    rw [h.marks] at hm
    obtain ⟨e, he, hm⟩ := List.mem_flatMap.mp hm
    obtain ⟨m1, m2, m3, m4, m5⟩ := ev_marks (sel := w.sel) hm (h.real e he) (h.bounds e he).1
    have m2 := m2 h0
    have hg : glyphIn look W view.height (.mark m.row m.op) k = (glyphs look view.height (.mark m.row m.op))[j]? := glyphIn_of hj
    have hjl : j < (glyphs look view.height (.mark m.row m.op)).length := by
      simp only [glyphs, if_pos hrow]
      have : (markGlyphs m.op).length = 2 := by
        cases hop : m.op with
        | equ => exact (m1 hop).elim
        | _ => rfl
      omega
    rw [List.getElem?_eq_getElem hjl] at hg
    have hother : ∀ c' ∈ w.calls, ∀ g', glyphIn look W view.height c' k = some g' → g' = (glyphs look view.height (.mark m.row m.op))[j] := by
      intro c' hc' g' hg'
      obtain ⟨e', he', hc'⟩ := hcall c' hc'
      have hee := hdis h0 e' he' e he c' hc' _ m4 k _ _ hg' hg
      subst hee
      rcases ev_calls hc' with ⟨m', hm', rfl⟩ | ⟨col', b', heq, rfl⟩
      · rw [m5 m' hm', hg] at hg'
        exact (Option.some.inj hg').symm
      · exfalso
        obtain ⟨g1, g2, _⟩ := glyphIn_some hg'
        subst heq
        have hcol := (hprint col' b' he').2
        simp only [SplitTerm.start, h0, Nat.sub_zero] at g1
        rw [hj, m2] at g1
        simp only [Ev.first] at g1
        omega
    have hfin := (a3 k hk).2.1 _ hother ⟨_, hcallOf _ he _ m4, by rw [hg]; simp⟩
    rw [hfin, ← mark_picture look m.op hrow, List.getElem?_map, List.getElem?_eq_getElem hjl]
    rfl
  · -- nothing
    intro hle hc hm
    refine (a3 k hk).2.2 hle fun c' hc' => ?_
    cases hg : glyphIn look W view.height c' k with
    | none => rfl
    | some g =>
      exfalso
      obtain ⟨g1, g2, _⟩ := glyphIn_some hg
      obtain ⟨e', he', hc'⟩ := hcall c' hc'
      rcases ev_calls hc' with ⟨m', hm', rfl⟩ | ⟨col', b', heq, rfl⟩
      · have := mark_length look view.height m'.row m'.op
        simp only [SplitTerm.start] at g1 g2
        exact hm m' (htext e' he' m' hm') ⟨g1, by omega⟩
      · subst heq
        have hl := (hprint col' b' he').1.length (selOf env w.sel b'.1.who) (view.results.contains b'.1.who)
        simp only [SplitTerm.start, glyphs, hl] at g1 g2
        exact hc _ (hcell col' b' he') ⟨g1, g2⟩

/-- The calls are about lines below the title. -/
theorem called_below {env : Env} {view : View} {side : Bool} {w : Win} {evs : List Ev} (h : Called env view side w evs) :
    ∀ c ∈ w.calls, 1 ≤ SplitTerm.callRow c := by
  intro c hc
  rw [h.calls] at hc
  obtain ⟨e, he, hc⟩ := List.mem_flatMap.mp hc
  have hb := h.bounds e he
  have hr := h.real e he
  cases e with
  | gap y => simp only [Ev.calls, List.mem_singleton] at hc; subst hc; exact hb.1
  | text col b =>
    have h1 : 1 ≤ b.2 := hb.1
    have h2 : w.scroll < b.2 := hr.1
    have hm : ∀ row op, 1 ≤ row → c ∈ callMark row op → 1 ≤ SplitTerm.callRow c := by
      intro row op hrow hc
      unfold callMark at hc
      split at hc
      · cases hc
      · rw [List.mem_singleton] at hc; subst hc; exact hrow
    simp only [Ev.calls, callAt] at hc
    rcases List.mem_append.mp hc with hc | hc
    · split at hc
      · cases hc
      · exact hm _ _ h1 hc
    · rcases List.mem_cons.mp hc with rfl | hc
      · show 1 ≤ b.2 - w.scroll; omega
      · split at hc
        · exact hm _ _ (by omega) hc
        · cases hc

end Verif.Lemmas.Split
