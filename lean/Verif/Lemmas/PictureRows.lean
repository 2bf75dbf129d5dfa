import Verif.Lemmas.Picture
/-! # The rows of the outline: what they are about, and how long they are -/
namespace Verif.Lemmas
open Verif.Model Verif.Model.Search Verif.Model.Tui Verif.Model.Term Verif.Model.Paint Verif.Spec

theorem rowOk_value {env : Env} {c : List Path} {r : Row} {v : Json} (h : elem env.root r.elem = some (.value v)) : RowOk env c r := by
  unfold RowOk; rw [h]; trivial

theorem rowOk_entry {env : Env} {c : List Path} {r : Row} {k : Bytes} {v : Json} (h : elem env.root r.elem = some (.entry k v)) {rest : Bytes}
    (ht : r.text = cstr k ++ b!": " ++ rest) (hc : (v.isContainer && !c.contains (r.elem ++ [0]) && !isEmptyJ v) = true → rest = []) : RowOk env c r := by
  unfold RowOk; rw [h]
  refine ⟨⟨rest, ht⟩, fun h' => ?_⟩
  rw [ht, hc h', List.append_nil]

mutual
theorem rows_ok (env : Env) (c : List Path) : ∀ (v : Json) (p item : Path) (x : Nat), elem env.root p = some (.value v) →
    ∀ r ∈ rows (fun p => c.contains p) env.fmt env.len p item x v, RowOk env c r
  | .arr xs, p, item, x, hv, r, hr => by
    rw [rows] at hr
    split at hr
    · rw [List.mem_singleton] at hr; subst hr; exact rowOk_value hv
    · rw [List.mem_append, List.mem_append, List.mem_singleton, List.mem_singleton] at hr
      rcases hr with (rfl | hr) | rfl
      · exact rowOk_value hv
      · exact rowsItems_ok env c xs [] p (x + 4) hv r hr
      · exact rowOk_value hv
  | .obj es, p, item, x, hv, r, hr => by
    rw [rows] at hr
    split at hr
    · rw [List.mem_singleton] at hr; subst hr; exact rowOk_value hv
    · rw [List.mem_append, List.mem_append, List.mem_singleton, List.mem_singleton] at hr
      rcases hr with (rfl | hr) | rfl
      · exact rowOk_value hv
      · exact rowsEntries_ok env c es [] p (x + 4) hv r hr
      · exact rowOk_value hv
  | .str s, p, item, x, hv, r, hr => by simp only [rows, List.mem_singleton] at hr; subst hr; exact rowOk_value hv
  | .bool s, p, item, x, hv, r, hr => by simp only [rows, List.mem_singleton] at hr; subst hr; exact rowOk_value hv
  | .null, p, item, x, hv, r, hr => by simp only [rows, List.mem_singleton] at hr; subst hr; exact rowOk_value hv
  | .int s, p, item, x, hv, r, hr => by simp only [rows, List.mem_singleton] at hr; subst hr; exact rowOk_value hv
  | .long s, p, item, x, hv, r, hr => by simp only [rows, List.mem_singleton] at hr; subst hr; exact rowOk_value hv
  | .dbl s, p, item, x, hv, r, hr => by simp only [rows, List.mem_singleton] at hr; subst hr; exact rowOk_value hv

theorem rowsItems_ok (env : Env) (c : List Path) : ∀ (vs done : List Json) (p : Path) (x : Nat), elem env.root p = some (.value (.arr (done ++ vs))) →
    ∀ r ∈ rowsItems (fun p => c.contains p) env.fmt env.len p done.length x vs, RowOk env c r
  | [], done, p, x, hv, r, hr => by simp [rowsItems] at hr
  | v :: vs, done, p, x, hv, r, hr => by
    rw [rowsItems, List.mem_append] at hr
    rcases hr with hr | hr
    · exact rows_ok env c v _ _ _ (kid_item hv) r hr
    · exact rowsItems_ok env c vs (done ++ [v]) p x (by simpa using hv) r (by simpa using hr)

theorem rowsEntries_ok (env : Env) (c : List Path) : ∀ (es done : List (Bytes × Json)) (p : Path) (x : Nat), elem env.root p = some (.value (.obj (done ++ es))) →
    ∀ r ∈ rowsEntries (fun p => c.contains p) env.fmt env.len p done.length x es, RowOk env c r
  | [], done, p, x, hv, r, hr => by simp [rowsEntries] at hr
  | (k, v) :: es, done, p, x, hv, r, hr => by
    have hk := kid_entry hv
    have hval := rows_ok env c v (p ++ [done.length] ++ [0]) (p ++ [done.length]) (x + 2) hk.2
    have hprim : ∀ (rest : Bytes) n, v.isContainer = false → RowOk env c ⟨p ++ [done.length], p ++ [done.length], x, shown k ++ b!": " ++ rest, n, false⟩ := by
      intro rest n h
      exact rowOk_entry (rest := rest) hk.1 rfl (by simp [h])
    have hrest := rowsEntries_ok env c es (done ++ [(k, v)]) p x (by simpa using hv)
    simp only [List.length_append, List.length_singleton] at hrest
    · cases v with
      | arr xs =>
        rw [rowsEntries, List.mem_append] at hr
        rcases hr with hr | hr
        rotate_left
        · exact hrest r hr
        simp only at hr
        split at hr
        · next hc => rw [List.mem_singleton] at hr; subst hr; exact rowOk_entry (rest := b!"[ ... ]") hk.1 rfl (by simp only [hc, Bool.not_true, Bool.and_false, Bool.false_and]; simp)
        · split at hr
          · next he => rw [List.mem_singleton] at hr; subst hr; exact rowOk_entry (rest := b!"[ ]") hk.1 rfl (by simp [he, isEmptyJ])
          · rw [List.mem_append, List.mem_singleton] at hr
            rcases hr with rfl | hr
            · exact rowOk_entry (rest := []) hk.1 (by simp; rfl) (fun _ => rfl)
            · exact hval r hr
      | obj xs =>
        rw [rowsEntries, List.mem_append] at hr
        rcases hr with hr | hr
        rotate_left
        · exact hrest r hr
        simp only at hr
        split at hr
        · next hc => rw [List.mem_singleton] at hr; subst hr; exact rowOk_entry (rest := b!"{ ... }") hk.1 rfl (by simp only [hc, Bool.not_true, Bool.and_false, Bool.false_and]; simp)
        · split at hr
          · next he => rw [List.mem_singleton] at hr; subst hr; exact rowOk_entry (rest := b!"{ }") hk.1 rfl (by simp [he, isEmptyJ])
          · rw [List.mem_append, List.mem_singleton] at hr
            rcases hr with rfl | hr
            · exact rowOk_entry (rest := []) hk.1 (by simp; rfl) (fun _ => rfl)
            · exact hval r hr
      | str s =>
        rw [rowsEntries, List.mem_append] at hr
        · rcases hr with hr | hr
          · rw [List.mem_singleton] at hr; subst hr; exact hprim _ _ rfl
          · exact hrest r hr
        all_goals (intro _ hh; cases hh)
      | bool s =>
        rw [rowsEntries, List.mem_append] at hr
        · rcases hr with hr | hr
          · rw [List.mem_singleton] at hr; subst hr; exact hprim _ _ rfl
          · exact hrest r hr
        all_goals (intro _ hh; cases hh)
      | null =>
        rw [rowsEntries, List.mem_append] at hr
        · rcases hr with hr | hr
          · rw [List.mem_singleton] at hr; subst hr; exact hprim _ _ rfl
          · exact hrest r hr
        all_goals (intro _ hh; cases hh)
      | int s =>
        rw [rowsEntries, List.mem_append] at hr
        · rcases hr with hr | hr
          · rw [List.mem_singleton] at hr; subst hr; exact hprim _ _ rfl
          · exact hrest r hr
        all_goals (intro _ hh; cases hh)
      | long s =>
        rw [rowsEntries, List.mem_append] at hr
        · rcases hr with hr | hr
          · rw [List.mem_singleton] at hr; subst hr; exact hprim _ _ rfl
          · exact hrest r hr
        all_goals (intro _ hh; cases hh)
      | dbl s =>
        rw [rowsEntries, List.mem_append] at hr
        · rcases hr with hr | hr
          · rw [List.mem_singleton] at hr; subst hr; exact hprim _ _ rfl
          · exact hrest r hr
        all_goals (intro _ hh; cases hh)
end

theorem shown_ascii {s : Bytes} (h : Ascii s) : shown s = s := by
  unfold shown
  induction s with
  | nil => rfl
  | cons c s ih =>
    have := h c (by simp)
    rw [List.takeWhile_cons_of_pos (by simp; omega), ih (fun c hc => h c (by simp [hc]))]

theorem natDigits_ascii (n : Nat) : Ascii (natDigits n) := by
  induction n using natDigits.induct with
  | case1 n h => rw [natDigits, if_pos h]; intro c hc; simp at hc; omega
  | case2 n h ih =>
    rw [natDigits, if_neg h]
    intro c hc
    rcases List.mem_append.mp hc with hc | hc
    · exact ih c hc
    · simp at hc; omega

theorem intToString_ascii (i : Int) : Ascii (intToString i) := by
  unfold intToString
  split
  · intro c hc
    rcases List.mem_cons.mp hc with rfl | hc
    · decide
    · exact natDigits_ascii _ c hc
  · exact natDigits_ascii _

theorem stringify_ascii {fmt : Bytes → Bytes} {len : Bytes → Nat} (h : Plain fmt len) {v : Json} (hv : AsciiDoc v) (hc : v.isContainer = false) : Ascii (v.stringify fmt) := by
  cases v with
  | arr => simp [Json.isContainer] at hc
  | obj => simp [Json.isContainer] at hc
  | str s => exact hv
  | bool b => cases b <;> (intro c hc; simp only [Json.stringify] at hc; revert c; decide)
  | null => intro c hc; simp only [Json.stringify] at hc; revert c; decide
  | int i => exact intToString_ascii i
  | long i => exact intToString_ascii i
  | dbl s => exact h.fmt s

theorem prim_size {fmt : Bytes → Bytes} {len : Bytes → Nat} (h : Plain fmt len) {v : Json} (hv : AsciiDoc v) (hc : v.isContainer = false) :
    len (v.stringify fmt) = (shown (v.stringify fmt)).length := by
  have := stringify_ascii h hv hc
  rw [h.len _ this, shown_ascii this]

mutual
theorem rows_size (hidden : Path → Bool) (fmt : Bytes → Bytes) (len : Bytes → Nat) (h : Plain fmt len) : ∀ (v : Json) (p item : Path) (x : Nat), AsciiDoc v →
    ∀ r ∈ rows hidden fmt len p item x v, r.size = r.col + r.text.length
  | .arr xs, p, item, x, hv, r, hr => by
    rw [rows] at hr
    split at hr
    · rw [List.mem_singleton] at hr; subst hr; rfl
    · rw [List.mem_append, List.mem_append, List.mem_singleton, List.mem_singleton] at hr
      rcases hr with (rfl | hr) | rfl
      · rfl
      · exact rowsItems_size hidden fmt len h xs p 0 (x + 4) hv r hr
      · rfl
  | .obj es, p, item, x, hv, r, hr => by
    rw [rows] at hr
    split at hr
    · rw [List.mem_singleton] at hr; subst hr; rfl
    · rw [List.mem_append, List.mem_append, List.mem_singleton, List.mem_singleton] at hr
      rcases hr with (rfl | hr) | rfl
      · rfl
      · exact rowsEntries_size hidden fmt len h es p 0 (x + 4) hv r hr
      · rfl
  | .str s, p, item, x, hv, r, hr => by
    simp only [rows, List.mem_singleton] at hr; subst hr; simp only; rw [prim_size h hv rfl]
  | .bool s, p, item, x, hv, r, hr => by
    simp only [rows, List.mem_singleton] at hr; subst hr; simp only; rw [prim_size h hv rfl]
  | .null, p, item, x, hv, r, hr => by
    simp only [rows, List.mem_singleton] at hr; subst hr; simp only; rw [prim_size h hv rfl]
  | .int s, p, item, x, hv, r, hr => by
    simp only [rows, List.mem_singleton] at hr; subst hr; simp only; rw [prim_size h hv rfl]
  | .long s, p, item, x, hv, r, hr => by
    simp only [rows, List.mem_singleton] at hr; subst hr; simp only; rw [prim_size h hv rfl]
  | .dbl s, p, item, x, hv, r, hr => by
    simp only [rows, List.mem_singleton] at hr; subst hr; simp only; rw [prim_size h hv rfl]

theorem rowsItems_size (hidden : Path → Bool) (fmt : Bytes → Bytes) (len : Bytes → Nat) (h : Plain fmt len) : ∀ (vs : List Json) (p : Path) (i x : Nat), AsciiItems vs →
    ∀ r ∈ rowsItems hidden fmt len p i x vs, r.size = r.col + r.text.length
  | [], p, i, x, hv, r, hr => by simp [rowsItems] at hr
  | v :: vs, p, i, x, hv, r, hr => by
    rw [rowsItems, List.mem_append] at hr
    rcases hr with hr | hr
    · exact rows_size hidden fmt len h v _ _ _ hv.1 r hr
    · exact rowsItems_size hidden fmt len h vs p (i + 1) x hv.2 r hr

theorem rowsEntries_size (hidden : Path → Bool) (fmt : Bytes → Bytes) (len : Bytes → Nat) (h : Plain fmt len) : ∀ (es : List (Bytes × Json)) (p : Path) (i x : Nat), AsciiEntries es →
    ∀ r ∈ rowsEntries hidden fmt len p i x es, r.size = r.col + r.text.length
  | [], p, i, x, hv, r, hr => by simp [rowsEntries] at hr
  | (k, v) :: es, p, i, x, hv, r, hr => by
    obtain ⟨hk, hv, he⟩ := hv
    have hval := rows_size hidden fmt len h v (p ++ [i] ++ [0]) (p ++ [i]) (x + 2) hv
    have hlk : len k = (shown k).length := by rw [h.len k hk, shown_ascii hk]
    have hline : ∀ (rest : Bytes) (n : Nat) (b : Bool), n = rest.length →
        (Row.mk (p ++ [i]) (p ++ [i]) x (shown k ++ b!": " ++ rest) (x + len k + 2 + n) b).size =
          (Row.mk (p ++ [i]) (p ++ [i]) x (shown k ++ b!": " ++ rest) (x + len k + 2 + n) b).col +
          (Row.mk (p ++ [i]) (p ++ [i]) x (shown k ++ b!": " ++ rest) (x + len k + 2 + n) b).text.length := by
      intro rest n b hn
      simp only [List.length_append, hlk, hn]
      simp
      omega
    have hhead : (Row.mk (p ++ [i]) (p ++ [i]) x (shown k ++ b!": ") (x + len k + 2) true).size =
        (Row.mk (p ++ [i]) (p ++ [i]) x (shown k ++ b!": ") (x + len k + 2) true).col + (Row.mk (p ++ [i]) (p ++ [i]) x (shown k ++ b!": ") (x + len k + 2) true).text.length := by
      simp only [List.length_append, hlk]
      simp
      omega
    have hrest := rowsEntries_size hidden fmt len h es p (i + 1) x he
    · cases v with
      | arr xs =>
        rw [rowsEntries, List.mem_append] at hr
        rcases hr with hr | hr
        rotate_left
        · exact hrest r hr
        simp only at hr
        split at hr
        · rw [List.mem_singleton] at hr; subst hr; exact hline b!"[ ... ]" 7 false rfl
        · split at hr
          · rw [List.mem_singleton] at hr; subst hr; exact hline b!"[ ]" 3 false rfl
          · rw [List.mem_append, List.mem_singleton] at hr
            rcases hr with rfl | hr
            · exact hhead
            · exact hval r hr
      | obj xs =>
        rw [rowsEntries, List.mem_append] at hr
        rcases hr with hr | hr
        rotate_left
        · exact hrest r hr
        simp only at hr
        split at hr
        · rw [List.mem_singleton] at hr; subst hr; exact hline b!"{ ... }" 7 false rfl
        · split at hr
          · rw [List.mem_singleton] at hr; subst hr; exact hline b!"{ }" 3 false rfl
          · rw [List.mem_append, List.mem_singleton] at hr
            rcases hr with rfl | hr
            · exact hhead
            · exact hval r hr
      | str s =>
        rw [rowsEntries, List.mem_append] at hr
        · rcases hr with hr | hr
          · rw [List.mem_singleton] at hr; subst hr; exact hline _ _ false (prim_size h hv rfl)
          · exact hrest r hr
        all_goals (intro _ hh; cases hh)
      | bool s =>
        rw [rowsEntries, List.mem_append] at hr
        · rcases hr with hr | hr
          · rw [List.mem_singleton] at hr; subst hr; exact hline _ _ false (prim_size h hv rfl)
          · exact hrest r hr
        all_goals (intro _ hh; cases hh)
      | null =>
        rw [rowsEntries, List.mem_append] at hr
        · rcases hr with hr | hr
          · rw [List.mem_singleton] at hr; subst hr; exact hline _ _ false (prim_size h hv rfl)
          · exact hrest r hr
        all_goals (intro _ hh; cases hh)
      | int s =>
        rw [rowsEntries, List.mem_append] at hr
        · rcases hr with hr | hr
          · rw [List.mem_singleton] at hr; subst hr; exact hline _ _ false (prim_size h hv rfl)
          · exact hrest r hr
        all_goals (intro _ hh; cases hh)
      | long s =>
        rw [rowsEntries, List.mem_append] at hr
        · rcases hr with hr | hr
          · rw [List.mem_singleton] at hr; subst hr; exact hline _ _ false (prim_size h hv rfl)
          · exact hrest r hr
        all_goals (intro _ hh; cases hh)
      | dbl s =>
        rw [rowsEntries, List.mem_append] at hr
        · rcases hr with hr | hr
          · rw [List.mem_singleton] at hr; subst hr; exact hline _ _ false (prim_size h hv rfl)
          · exact hrest r hr
        all_goals (intro _ hh; cases hh)
end

theorem seen_attr (look : Look) (c : Byte) (selected searched : Bool) (v : Json) :
    seen look ⟨c, attrOf look selected searched (typeOf v)⟩ =
      ⟨c, selected, if !look.colours then none else if searched then some (.white, .blue) else shade v⟩ := by
  cases look with
  | mk colours name => cases colours <;> cases searched <;> cases v <;> rfl

theorem seen_key (look : Look) (c : Byte) (selected searched : Bool) :
    seen look ⟨c, attrOf look selected searched typeObjKey⟩ =
      ⟨c, selected, if !look.colours then none else if searched then some (.white, .blue) else some (.cyan, .black)⟩ := by
  cases look with
  | mk colours name => cases colours <;> cases searched <;> rfl

theorem seen_sep (look : Look) (c : Byte) (selected searched : Bool) :
    seen look ⟨c, attrOf look selected searched typeObj⟩ =
      ⟨c, selected, if !look.colours then none else if searched then some (.white, .blue) else none⟩ := by
  cases look with
  | mk colours name => cases colours <;> cases searched <;> rfl

/-- The characters written for a row look as they should. -/
theorem seen_row (look : Look) (env : Env) (results : List Path) (sel : Option Path) (r : Row) :
    (rowGlyphs look env results sel r).map (seen look) = picture look.colours env.root sel results r := by
  unfold rowGlyphs picture parts
  cases he : elem env.root r.elem with
  | none => rfl
  | some e =>
    cases e with
    | value v =>
      simp only [List.flatMap_cons, List.flatMap_nil, List.append_nil, List.map_map]
      exact List.map_congr_left fun c _ => seen_attr look c _ _ v
    | entry k v =>
      simp only [List.flatMap_cons, List.flatMap_nil, List.append_nil, List.map_append, List.map_map, List.append_assoc]
      congr 1
      · exact List.map_congr_left fun c _ => seen_key look c _ _
      · congr 1
        · exact List.map_congr_left fun c _ => seen_sep look c _ _
        · exact List.map_congr_left fun c _ => seen_attr look c _ _ v

end Verif.Lemmas
