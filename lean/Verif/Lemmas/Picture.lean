import Verif.Lemmas.PaintWindow
import Verif.Spec.Picture
/-! # What the calls do to the terminal -/
namespace Verif.Lemmas
open Verif.Model Verif.Model.Search Verif.Model.Tui Verif.Model.Term Verif.Model.Paint Verif.Spec

/-- `gs` from place `c` on, over `f`. -/
def over (c : Nat) (gs : List Glyph) (f : Nat → Glyph) (k : Nat) : Glyph := if c ≤ k then (gs[k - c]?).getD (f k) else f k

/-- A terminal that shows `gs` from place `c` on, over `t`, up to the last place. -/
def Shows (t : Terminal) (c : Nat) (gs : List Glyph) (t' : Terminal) : Prop :=
  t'.width = t.width ∧ t'.height = t.height ∧ t'.cursor = min (c + gs.length) (t.width * t.height - 1) ∧
    ∀ k, k + 1 < t.width * t.height → t'.at_ k = over c gs t.at_ k

theorem puts_shows (a : Attr) : ∀ (text : Bytes) (t : Terminal), t.cursor < t.width * t.height → Shows t t.cursor (text.map fun c => ⟨c, a⟩) (puts a text t) := by
  intro text
  induction text with
  | nil => intro t ht; refine ⟨rfl, rfl, ?_, fun k _ => ?_⟩
           · simp only [puts, List.map_nil, List.length_nil]; omega
           · simp [puts, over]
  | cons c cs ih =>
    intro t ht
    simp only [puts]
    by_cases h : t.cursor + 1 < t.width * t.height
    · rw [if_pos h]
      obtain ⟨h1, h2, h3, h4⟩ := ih { t with at_ := fun k => if k = t.cursor then ⟨c, a⟩ else t.at_ k, cursor := t.cursor + 1 } h
      refine ⟨h1, h2, ?_, fun k hk => ?_⟩
      · rw [h3]; simp only [List.length_map, List.length_cons]; omega
      · rw [h4 k hk]
        simp only [over]
        by_cases hk1 : t.cursor + 1 ≤ k
        · rw [if_pos hk1, if_neg (show ¬ k = t.cursor by omega), if_pos (show t.cursor ≤ k by omega), List.map_cons, show k - t.cursor = (k - (t.cursor + 1)) + 1 from by omega, List.getElem?_cons_succ]
        · rw [if_neg hk1]
          by_cases hk2 : k = t.cursor
          · subst hk2; simp
          · rw [if_neg hk2, if_neg (by omega)]
    · rw [if_neg h]
      refine ⟨rfl, rfl, ?_, fun k hk => ?_⟩
      · simp only [List.length_map, List.length_cons]; omega
      · simp only [over]; rw [if_neg (by omega), if_neg (by omega)]

theorem Shows.trans {t t1 t2 : Terminal} {c : Nat} {g1 g2 : List Glyph} (h1 : Shows t c g1 t1) (h2 : Shows t1 t1.cursor g2 t2) (hc : c < t.width * t.height) :
    Shows t c (g1 ++ g2) t2 := by
  obtain ⟨a1, a2, a3, a4⟩ := h1
  obtain ⟨b1, b2, b3, b4⟩ := h2
  refine ⟨b1.trans a1, b2.trans a2, ?_, fun k hk => ?_⟩
  · rw [b3, a3, a1, a2, List.length_append]; omega
  · rw [b4 k (by rw [a1, a2]; exact hk), a3]
    simp only [over]
    by_cases h : min (c + g1.length) (t.width * t.height - 1) ≤ k
    · have h' : c + g1.length ≤ k := by omega
      rw [if_pos h, if_pos (by omega), show min (c + g1.length) (t.width * t.height - 1) = c + g1.length from by omega, a4 k hk,
        List.getElem?_append_right (by omega), show k - c - g1.length = k - (c + g1.length) from by omega]
      simp only [over]
      rw [if_pos (by omega), List.getElem?_eq_none (by omega : g1.length ≤ k - c)]
      rfl
    · rw [if_neg h, a4 k hk]
      simp only [over]
      by_cases h2 : c ≤ k
      · rw [if_pos h2, if_pos h2, List.getElem?_append_left (by omega)]
      · rw [if_neg h2, if_neg h2]

theorem Shows.cursor_lt {t t' : Terminal} {c : Nat} {gs : List Glyph} (h : Shows t c gs t') (hc : c < t.width * t.height) : t'.cursor < t'.width * t'.height := by
  obtain ⟨h1, h2, h3, -⟩ := h
  rw [h1, h2, h3]; omega

theorem runCmds_append (a b : List Cmd) (t : Terminal) : runCmds (a ++ b) t = runCmds b (runCmds a t) := by
  simp [runCmds, List.foldl_append]

theorem runCmds_cons (c : Cmd) (cs : List Cmd) (t : Terminal) : runCmds (c :: cs) t = runCmds cs (c.run t) := rfl

theorem place_lt {w h y x : Nat} (hy : y < h) (hx : x < w) : y * w + x < w * h := by
  have h1 : y * w + w ≤ h * w := by rw [← Nat.succ_mul]; exact Nat.mul_le_mul_right _ hy
  rw [Nat.mul_comm w h]; omega

theorem move_shows {t : Terminal} {y x : Nat} (hy : y < t.height) (hx : x < t.width) : Shows t (y * t.width + x) [] ((Cmd.move y x).run t) := by
  have hlt := place_lt hy hx
  simp only [Cmd.run, Term.inside, hy, hx, decide_true, Bool.and_self, if_true]
  refine ⟨rfl, rfl, ?_, fun k _ => by simp [over]⟩
  simp only [List.length_nil]; omega

theorem put_shows {t t0 : Terminal} {c : Nat} {gs : List Glyph} (h : Shows t c gs t0) (hc : c < t.width * t.height) (text : Bytes) (a : Attr) :
    Shows t c (gs ++ text.map fun ch => ⟨ch, a⟩) ((Cmd.put text a).run t0) :=
  h.trans (puts_shows a text t0 (h.cursor_lt hc)) hc

theorem mvput_shows {t : Terminal} {y x : Nat} (hy : y < t.height) (hx : x < t.width) (text : Bytes) (a : Attr) :
    Shows t (y * t.width + x) (text.map fun c => ⟨c, a⟩) ((Cmd.mvput y x text a).run t) := by
  have h := put_shows (move_shows hy hx) (place_lt hy hx) text a
  have hm : (Cmd.mvput y x text a).run t = (Cmd.put text a).run ((Cmd.move y x).run t) := by
    simp only [Cmd.run, Term.inside, hy, hx, decide_true, Bool.and_self, if_true]
  rw [hm]
  simpa using h

/-- The characters of a row, with their looks. -/
def rowGlyphs (look : Look) (env : Env) (results : List Path) (sel : Option Path) (r : Row) : List Glyph :=
  let attr := attrOf look (decide (sel = some r.item)) (results.contains r.elem)
  match elem env.root r.elem with
  | some (.entry k v) =>
    ((cstr k).map fun c => ⟨c, attr typeObjKey⟩) ++ ((b!": " : Bytes).map fun c => ⟨c, attr typeObj⟩) ++
      ((r.text.drop ((cstr k).length + 2)).map fun c => ⟨c, attr (typeOf v)⟩)
  | some (.value v) => r.text.map fun c => ⟨c, attr (typeOf v)⟩
  | none => []

/-- The element of a row is one of the document, and the text of an entry begins with its key. -/
def RowOk (env : Env) (collapsed : List Path) (r : Row) : Prop :=
  match elem env.root r.elem with
  | some (.entry k v) => (∃ rest, r.text = cstr k ++ b!": " ++ rest) ∧
    ((v.isContainer && !collapsed.contains (r.elem ++ [0]) && !isEmptyJ v) = true → r.text = cstr k ++ b!": ")
  | some (.value _) => True
  | none => False

theorem row_shows {look : Look} {env : Env} {view : View} {sel : Option Path} {y : Nat} {r : Row} {t : Terminal} (hr : RowOk env view.collapsed r)
    (hy : y < t.height) (hx : r.col < t.width) :
    Shows t (y * t.width + r.col) (rowGlyphs look env view.results sel r) (runCmds (rowCmds look env view sel (y, r)) t) := by
  have hlt := place_lt hy hx
  simp only [rowCmds, lineCmds, rowGlyphs]
  unfold RowOk at hr
  cases he : elem env.root r.elem with
  | none => rw [he] at hr; exact hr.elim
  | some e =>
    rw [he] at hr
    cases e with
    | value v =>
      simp only
      split
      · exact mvput_shows hy hx _ _
      · have := put_shows (move_shows hy hx) hlt r.text (attrOf look (decide (sel = some r.item)) (view.results.contains r.elem) (typeOf v))
        simpa [runCmds] using this
    | entry k v =>
      simp only at hr ⊢
      have h1 := put_shows (put_shows (move_shows hy hx) hlt (cstr k) (attrOf look (decide (sel = some r.item)) (view.results.contains r.elem) typeObjKey)) hlt b!": "
        (attrOf look (decide (sel = some r.item)) (view.results.contains r.elem) typeObj)
      split
      · next hc =>
        rw [hr.2 hc, List.drop_eq_nil_of_le (by simp), List.map_nil, List.append_nil, List.append_nil]
        simpa [runCmds] using h1
      · have h2 := put_shows h1 hlt (r.text.drop ((cstr k).length + 2)) (attrOf look (decide (sel = some r.item)) (view.results.contains r.elem) (typeOf v))
        simpa [runCmds] using h2

theorem rowGlyphs_length {look : Look} {env : Env} {collapsed results : List Path} {sel : Option Path} {r : Row} (hr : RowOk env collapsed r) :
    (rowGlyphs look env results sel r).length = r.text.length := by
  unfold RowOk at hr
  unfold rowGlyphs
  cases he : elem env.root r.elem with
  | none => rw [he] at hr; exact hr.elim
  | some e =>
    rw [he] at hr
    cases e with
    | value v => simp
    | entry k v =>
      obtain ⟨⟨rest, h1⟩, -⟩ := hr
      simp only [List.length_append, List.length_map, List.length_drop, h1]
      simp

/-- The places of a row. -/
def covers (w : Nat) (a : Nat × Row) (k : Nat) : Prop := a.1 * w + a.2.col ≤ k ∧ k < a.1 * w + a.2.col + a.2.text.length

theorem lines_cover {w y x n size lines : Nat} (hs : size = x + n) (hl : (size + (w - 1)) / w ≤ lines) (hw : 0 < w) : y * w + x + n ≤ (y + lines) * w := by
  have h1 := Nat.lt_mul_div_succ (size + (w - 1)) hw
  have h2 : w * ((size + (w - 1)) / w + 1) ≤ w * (lines + 1) := Nat.mul_le_mul_left _ (by omega)
  have h3 : w * (lines + 1) = w * lines + w := Nat.mul_succ ..
  rw [Nat.add_mul, Nat.mul_comm lines w]
  omega

theorem onScreen_lt {w h y : Nat} {rs : List Row} (hy : y < h) : ∀ a ∈ onScreen w h y rs, y ≤ a.1 ∧ a.1 < h := by
  induction rs generalizing y with
  | nil => intro a ha; simp [onScreen] at ha
  | cons r rs ih =>
    intro a ha
    simp only [onScreen, List.mem_cons] at ha
    rcases ha with rfl | ha
    · exact ⟨Nat.le_refl _, hy⟩
    · split at ha
      · next hlt => have := ih hlt a ha; omega
      · cases ha

/-- The rows of the window on the terminal. -/
theorem window_shows {look : Look} {env : Env} {view : View} {sel : Option Path} (h3 : 3 ≤ view.width) : ∀ (rs : List Row) (y : Nat) (t : Terminal),
    t.width = view.width → t.height = view.height → y < view.height →
    (∀ r ∈ rs, RowOk env view.collapsed r ∧ r.size = r.col + r.text.length ∧ r.needs view.width ≤ r.lines view.width) →
    (∀ a ∈ onScreen view.width view.height y rs, a.2.col < view.width) →
    let t' := runCmds ((onScreen view.width view.height y rs).flatMap (rowCmds look env view sel)) t
    t'.width = t.width ∧ t'.height = t.height ∧ ∀ k, k + 1 < view.width * view.height →
      (∀ a ∈ onScreen view.width view.height y rs, covers view.width a k →
        (rowGlyphs look env view.results sel a.2)[k - (a.1 * view.width + a.2.col)]? = some (t'.at_ k)) ∧
      ((∀ a ∈ onScreen view.width view.height y rs, ¬ covers view.width a k) → t'.at_ k = t.at_ k) := by
  intro rs
  induction rs with
  | nil => intro y t h1 h2 hy hr hx; simp [onScreen, runCmds]
  | cons r rs ih =>
    intro y t h1 h2 hy hr hx
    obtain ⟨hok, hsz, hn⟩ := hr r (by simp)
    have hcol : r.col < view.width := hx (y, r) (by simp [onScreen])
    have hrow := row_shows (look := look) (sel := sel) (t := t) hok (y := y) (by omega) (by rw [h1]; exact hcol)
    simp only [onScreen, List.flatMap_cons, runCmds_append]
    generalize ht1 : runCmds (rowCmds look env view sel (y, r)) t = t1 at hrow
    obtain ⟨g1, g2, -, g4⟩ := hrow
    rw [h1, h2] at g4
    have hlen := rowGlyphs_length (look := look) (results := view.results) (sel := sel) hok
    have hend : y * view.width + r.col + r.text.length ≤ (y + r.lines view.width) * view.width := lines_cover hsz hn (by omega)
    have hfirst : ∀ k, k + 1 < view.width * view.height → covers view.width (y, r) k →
        (rowGlyphs look env view.results sel r)[k - (y * view.width + r.col)]? = some (t1.at_ k) := by
      intro k hk hc
      obtain ⟨c1, c2⟩ := hc
      simp only at c1 c2
      rw [g4 k hk, over, if_pos c1]
      cases hg : (rowGlyphs look env view.results sel r)[k - (y * view.width + r.col)]? with
      | none => rw [List.getElem?_eq_none_iff] at hg; omega
      | some g => rfl
    have hrest : ∀ k, k + 1 < view.width * view.height → ¬ covers view.width (y, r) k → t1.at_ k = t.at_ k := by
      intro k hk hc
      rw [g4 k hk, over]
      split
      · next hle =>
        have : ¬ k < y * view.width + r.col + r.text.length := fun h => hc ⟨hle, h⟩
        rw [List.getElem?_eq_none (by omega)]
        rfl
      · rfl
    by_cases hlt : y + r.lines view.width < view.height
    · rw [if_pos hlt]
      have hi := ih (y + r.lines view.width) t1 (g1.trans h1) (g2.trans h2) hlt (fun r' hr' => hr r' (by simp [hr'])) (fun a ha => hx a (by
        simp only [onScreen, List.mem_cons]; rw [if_pos hlt]; exact .inr ha))
      obtain ⟨i1, i2, i3⟩ := hi
      refine ⟨i1.trans g1, i2.trans g2, fun k hk => ?_⟩
      obtain ⟨j1, j2⟩ := i3 k hk
      have hdis : ∀ a ∈ onScreen view.width view.height (y + r.lines view.width) rs, covers view.width a k → ¬ covers view.width (y, r) k := by
        rintro a ha ⟨c1, -⟩ ⟨-, c2⟩
        have := (onScreen_lt hlt a ha).1
        have h5 : (y + r.lines view.width) * view.width ≤ a.1 * view.width := Nat.mul_le_mul_right _ this
        simp only at c2
        omega
      refine ⟨?_, ?_⟩
      · intro a ha hc
        rcases List.mem_cons.mp ha with rfl | ha
        · rw [j2 (fun b hb hcb => hdis b hb hcb hc)]
          exact hfirst k hk hc
        · exact j1 a ha hc
      · intro hno
        rw [j2 (fun b hb => hno b (by simp [hb]))]
        exact hrest k hk (hno (y, r) (by simp))
    · rw [if_neg hlt]
      refine ⟨g1, g2, fun k hk => ⟨?_, ?_⟩⟩
      · intro a ha hc
        rcases List.mem_cons.mp ha with rfl | ha
        · exact hfirst k hk hc
        · cases ha
      · intro hno
        exact hrest k hk (hno (y, r) (by simp))

end Verif.Lemmas
