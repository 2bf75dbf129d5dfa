import Verif.Lemmas.Layout
/-! # C22, C23: the layout of the redirected output -/
namespace Verif.Props
open Verif.Model Verif.Spec Verif.Lemmas Verif.Model.Output

theorem strip_spaces (n : Nat) (x : Bytes) : stripLayout true (List.replicate n (c%' ') ++ x) = stripLayout true x := by
  induction n with
  | zero => simp
  | succ n ih => simp [List.replicate_succ, stripLayout, ih]

theorem strip_false (t x : Bytes) (ht : c%'\n' ∉ t) : stripLayout false (t ++ x) = t ++ stripLayout false x := by
  induction t with
  | nil => simp
  | cons a t ih =>
    simp only [List.mem_cons, not_or] at ht
    have h1 : ¬ a = 10 := fun h => ht.1 h.symm
    simp [stripLayout, h1, ih ht.2]

theorem strip_nl (b : Bool) (x : Bytes) : stripLayout b (b!"\n" ++ x) = stripLayout true x := by simp [stripLayout]

/-- A text that layout removal keeps. -/
def Solid (t : Bytes) : Prop := (∃ c r, t = c :: r ∧ c ≠ c%' ') ∧ c%'\n' ∉ t

theorem strip_line (n : Nat) (t x : Bytes) (ht : Solid t) :
    stripLayout true (List.replicate n (c%' ') ++ t ++ b!"\n" ++ x) = t ++ stripLayout true x := by
  obtain ⟨⟨c, r, rfl, hc⟩, hn⟩ := ht
  simp only [List.mem_cons, not_or] at hn
  rw [List.append_assoc, List.append_assoc, strip_spaces]
  have h1 : ¬ c = 10 := fun h => hn.1 h.symm
  have h2 := strip_false r (b!"\n" ++ x) hn.2
  rw [strip_nl] at h2
  simp only [List.cons_append, List.nil_append] at h2 ⊢
  simp only [stripLayout, if_neg h1, Bool.true_and, beq_iff_eq, if_neg hc, h2]

theorem strip_rend (ls : List (Nat × Bytes)) (h : ∀ l ∈ ls, Solid l.2) : stripLayout true (rend false ls) = rend true ls := by
  induction ls with
  | nil => simp [rend, stripLayout]
  | cons l ls ih =>
    have := strip_line (l.1 % 65536 * 4) l.2 (rend false ls) (h l (by simp))
    simp only [rend, List.flatMap_cons, getIndent, endl] at *
    simp only [Bool.false_eq_true, if_false, if_true, List.nil_append, List.append_nil] at *
    rw [this, ih (fun l hl => h l (by simp [hl]))]

theorem solid_arrange (ls : List Line) (h : ∀ l ∈ ls, Solid l.text) : ∀ d prev, ∀ l ∈ arrange d prev ls, Solid l.2 := by
  induction ls with
  | nil => intro d prev l hl; simp [arrange] at hl
  | cons x ls ih =>
    intro d prev l hl
    simp only [arrange, List.mem_cons] at hl
    rcases hl with rfl | hl
    · obtain ⟨h1, h2⟩ := h x (by simp)
      cases hasComma prev x
      · exact ⟨by simpa using h1, by simpa using h2⟩
      · exact ⟨⟨44, x.text, by simp, by decide⟩, by simpa using h2⟩
    · exact ih (fun l hl => h l (by simp [hl])) _ _ l hl

theorem natDigits_digit (n : Nat) : natDigits n ≠ [] ∧ ∀ c ∈ natDigits n, 48 ≤ c ∧ c ≤ 57 := by
  induction n using natDigits.induct with
  | case1 n h => rw [natDigits, if_pos h]; simp; omega
  | case2 n h ih =>
    rw [natDigits, if_neg h]
    refine ⟨by simp, ?_⟩
    intro c hc
    rcases List.mem_append.mp hc with hc | hc
    · exact ih.2 c hc
    · simp at hc; omega

theorem natDigits_solid (n : Nat) : Solid (natDigits n) := by
  obtain ⟨h1, h2⟩ := natDigits_digit n
  obtain ⟨c, r, e⟩ := List.exists_cons_of_ne_nil h1
  refine ⟨⟨c, r, e, ?_⟩, fun h => ?_⟩
  · have := h2 c (by simp [e]); omega
  · have := h2 _ h; omega

theorem intToString_solid (i : Int) : Solid (intToString i) := by
  unfold intToString
  split
  · obtain ⟨_, h2⟩ := natDigits_solid i.natAbs
    exact ⟨⟨_, _, rfl, by decide⟩, by simpa using h2⟩
  · exact natDigits_solid _

theorem solid_quoted {s : Bytes} (h : c%'\n' ∉ s) : Solid (b!"\"" ++ s ++ b!"\"") :=
  ⟨⟨34, s ++ b!"\"", by simp, by decide⟩, by simpa using h⟩

theorem solid_entry {k v : Bytes} (hk : c%'\n' ∉ k) (hv : c%'\n' ∉ v) : Solid (Line.entry k v).text :=
  ⟨⟨34, k ++ b!"\":" ++ v, by simp [Line.text], by decide⟩, by simp [Line.text, hk, hv]⟩

theorem solid_key {k : Bytes} (hk : c%'\n' ∉ k) : Solid (Line.key k).text :=
  ⟨⟨34, k ++ b!"\":", by simp [Line.text], by decide⟩, by simp [Line.text, hk]⟩

theorem solid_bracket (a b : Byte) (o : Bool) (ha : a ≠ 32 ∧ a ≠ 10) (hb : b ≠ 32 ∧ b ≠ 10) : Solid (if o then [a] else [b]) := by
  cases o
  · exact ⟨⟨b, [], rfl, hb.1⟩, by simpa using fun h => hb.2 h.symm⟩
  · exact ⟨⟨a, [], rfl, ha.1⟩, by simpa using fun h => ha.2 h.symm⟩

theorem stringify_texts (fmt : Bytes → Bytes) (v : Json) (hv : v.isContainer = false) : v.stringify fmt ∈ texts fmt v := by
  cases v <;> simp [Json.isContainer] at hv <;> simp [texts, Json.stringify]

mutual
theorem solid_outline (fmt : Bytes → Bytes) (hf : ∀ s, ∃ c r, fmt s = c :: r ∧ c ≠ c%' ') : ∀ v : Json, (∀ t ∈ texts fmt v, c%'\n' ∉ t) →
    ∀ l ∈ outline fmt v, Solid l.text
  | .arr xs, h, l, hl => by
    simp only [outline, List.mem_append, List.mem_singleton] at hl
    rcases hl with (rfl | hl) | rfl
    · exact solid_bracket 123 91 false (by decide) (by decide)
    · exact solid_items fmt hf xs (by simpa [texts] using h) l hl
    · exact solid_bracket 125 93 false (by decide) (by decide)
  | .obj es, h, l, hl => by
    simp only [outline, List.mem_append, List.mem_singleton] at hl
    rcases hl with (rfl | hl) | rfl
    · exact solid_bracket 123 91 true (by decide) (by decide)
    · exact solid_entries fmt hf es (by simpa [texts] using h) l hl
    · exact solid_bracket 125 93 true (by decide) (by decide)
  | .str s, h, l, hl => by
    simp only [outline, List.mem_singleton] at hl
    subst hl
    exact solid_quoted (h s (by simp [texts]))
  | .bool b, h, l, hl => by
    simp only [outline, List.mem_singleton] at hl
    subst hl
    cases b
    · exact ⟨⟨_, _, rfl, by decide⟩, by simp [Line.text, quoted, Json.stringify]⟩
    · exact ⟨⟨_, _, rfl, by decide⟩, by simp [Line.text, quoted, Json.stringify]⟩
  | .null, h, l, hl => by
    simp only [outline, List.mem_singleton] at hl
    subst hl
    exact ⟨⟨_, _, rfl, by decide⟩, by simp [Line.text, quoted, Json.stringify]⟩
  | .int i, h, l, hl => by
    simp only [outline, List.mem_singleton] at hl
    subst hl
    exact intToString_solid i
  | .long i, h, l, hl => by
    simp only [outline, List.mem_singleton] at hl
    subst hl
    exact intToString_solid i
  | .dbl s, h, l, hl => by
    simp only [outline, List.mem_singleton] at hl
    subst hl
    exact ⟨hf s, h _ (by simp [texts, Json.stringify, Line.text, quoted])⟩
theorem solid_items (fmt : Bytes → Bytes) (hf : ∀ s, ∃ c r, fmt s = c :: r ∧ c ≠ c%' ') : ∀ xs : List Json, (∀ t ∈ textsItems fmt xs, c%'\n' ∉ t) →
    ∀ l ∈ outlineItems fmt xs, Solid l.text
  | [], h, l, hl => by simp [outlineItems] at hl
  | x :: xs, h, l, hl => by
    simp only [outlineItems, List.mem_append] at hl
    rcases hl with hl | hl
    · exact solid_outline fmt hf x (fun t ht => h t (by simp [textsItems, ht])) l hl
    · exact solid_items fmt hf xs (fun t ht => h t (by simp [textsItems, ht])) l hl
theorem solid_entries (fmt : Bytes → Bytes) (hf : ∀ s, ∃ c r, fmt s = c :: r ∧ c ≠ c%' ') : ∀ es : List (Bytes × Json), (∀ t ∈ textsEntries fmt es, c%'\n' ∉ t) →
    ∀ l ∈ outlineEntries fmt es, Solid l.text
  | [], h, l, hl => by simp [outlineEntries] at hl
  | (k, v) :: es, h, l, hl => by
    have hk : 10 ∉ k := h k (by simp [textsEntries])
    have hv : ∀ t ∈ texts fmt v, 10 ∉ t := fun t ht => h t (by simp [textsEntries, ht])
    simp only [outlineEntries, List.mem_append] at hl
    rcases hl with hl | hl
    · by_cases hc : v.isContainer = true
      · rw [if_pos hc, List.mem_cons] at hl
        rcases hl with rfl | hl
        · exact solid_key hk
        · exact solid_outline fmt hf v hv l hl
      · rw [if_neg hc, List.mem_singleton] at hl
        subst hl
        exact solid_entry hk (hv _ (stringify_texts fmt v (by simpa using hc)))
    · exact solid_entries fmt hf es (fun t ht => h t (by simp [textsEntries, ht])) l hl
end

/-- **C22 `--compress` only removes layout.** For every document: both outputs are made of the same line texts, the pretty one
puts blanks before and a line end after each, the compact one puts them one after the other. And when no key or text of the
document contains a line feed, removing the line ends and the blanks at the beginning of the lines from the pretty output
gives the compact output. -/
theorem C22_compress_removes_layout (fmt : Bytes → Bytes) (v : Json) :
    (∃ ls : List (Nat × Bytes),
      display fmt false v = ls.flatMap (fun l => List.replicate l.1 (c%' ') ++ l.2 ++ b!"\n") ∧
      display fmt true v = ls.flatMap (fun l => l.2)) ∧
    ((∀ s, ∃ c r, fmt s = c :: r ∧ c ≠ c%' ') → (∀ t ∈ texts fmt v, c%'\n' ∉ t) →
      stripLayout true (display fmt false v) = display fmt true v) := by
  constructor
  · refine ⟨(arrange 0 none (outline fmt v)).map (fun l => (l.1 % 65536 * 4, l.2)), ?_, ?_⟩
    · rw [display_rend]; simp [rend, getIndent, endl, List.flatMap_map]
    · rw [display_rend]; simp [rend, getIndent, endl, List.flatMap_map]
  · intro hf ht
    rw [display_rend, display_rend]
    exact strip_rend _ (solid_arrange _ (solid_outline fmt hf v ht) _ _)

/-- `{"a":[1,true],"b":"x y"}` meets the hypotheses. -/
def layoutExample : Json := .obj [(b!"a", .arr [.int 1, .bool true, .arr []]), (b!"b", .str b!"x y")]
example : (∀ t ∈ texts id layoutExample, c%'\n' ∉ t) := by simp [layoutExample, texts, textsItems, textsEntries, Json.stringify, intToString, natDigits]
example : display id false layoutExample = b!"{\n    \"a\":\n    [\n        1\n        ,true\n        ,[\n        ]\n    ]\n    ,\"b\":x y\n}\n" := by
  simp [layoutExample, display, write, writeEntries, writeItems, writePrimitive, getIndent, endl, comma, Json.stringify, intToString, natDigits, Json.isContainer, List.replicate]
example : display id true layoutExample = b!"{\"a\":[1,true,[]],\"b\":x y}" := by
  simp [layoutExample, display, write, writeEntries, writeItems, writePrimitive, getIndent, endl, comma, Json.stringify, intToString, natDigits, Json.isContainer]

/-- **C23, the part that holds**: the pretty output of a document nested less than 65536 deep is its lines, each indented by four
blanks per open bracket, with a comma where an element follows another one; the brackets are balanced. Missing: deeper documents
(`C23_layout_false`). -/
theorem C23_layout_partial (fmt : Bytes → Bytes) (v : Json) (hd : depth v < 65536) :
    display fmt false v = pretty (arrange 0 none (outline fmt v)) ∧ balanced [] (outline fmt v) = true := by
  constructor
  · obtain ⟨L, last, e, _, _, g⟩ := write_layout fmt v 0 none []
    simp only [List.append_nil, arrange] at e
    rw [display_rend, e]
    have : ∀ l ∈ L, getIndent false l.1 ++ l.2 ++ endl false = List.replicate (4 * l.1) (c%' ') ++ l.2 ++ b!"\n" := by
      intro l hl
      have := g l hl
      rw [getIndent, endl, if_neg (by decide), if_neg (by decide), Nat.mod_eq_of_lt (by omega), Nat.mul_comm]
    unfold rend pretty
    rw [List.flatMap_def, List.flatMap_def, List.map_congr_left this]
  · have := balanced_outline fmt v [] []
    rw [List.append_nil] at this
    rw [this]
    rfl

example : depth layoutExample < 65536 := by decide

/-- `null` inside `n` arrays. -/
def nest : Nat → Json
  | 0 => .null
  | n + 1 => .arr [nest n]

theorem nest_write (fmt : Bytes → Bytes) : ∀ (k d : Nat), ∃ A B, write fmt false d false (nest k) = A ++ write fmt false (d + k) false .null ++ B ∧
    (d + k ≤ 65536 → ∀ prev rest, due prev = false → ∃ last, 
      pretty (arrange d prev (outline fmt (nest k) ++ rest)) =
        A ++ (List.replicate (4 * (d + k)) (c%' ') ++ b!"null\n") ++ B ++ pretty (arrange d (some last) rest)) := by
  intro k
  induction k with
  | zero =>
    intro d
    refine ⟨[], [], by simp [nest], ?_⟩
    intro _ prev rest hp
    exact ⟨.item b!"null", by
      simp [nest, outline, arrange, hc_item, hp, pretty, Line.depthOf, Line.depthAfter, Line.text, quoted, Json.stringify]⟩
  | succ k ih =>
    intro d
    obtain ⟨A, B, e, h⟩ := ih (d + 1)
    refine ⟨getIndent false d ++ b!"[\n" ++ A, B ++ getIndent false d ++ b!"]\n", ?_, ?_⟩
    · rw [show d + (k + 1) = d + 1 + k by omega]
      simp [nest, write, writeItems, e, comma, endl]
    · intro hd prev rest hp
      obtain ⟨last, e2⟩ := h (by omega) (some (.opening false)) ([.closing false] ++ rest) rfl
      refine ⟨.closing false, ?_⟩
      have hi : getIndent false d = List.replicate (4 * d) 32 := by
        rw [getIndent, if_neg (by decide), Nat.mod_eq_of_lt (by omega), Nat.mul_comm]
      rw [hi]
      simp only [pretty, nest, outline, outlineItems, List.append_nil, List.cons_append, List.nil_append, arrange, Line.depthAfter, List.flatMap_cons, List.append_assoc, hc_opening, hp] at *
      rw [e2]
      simp [arrange, hc_closing, Line.depthOf, Line.text, Line.depthAfter, show d + (k + 1) = d + 1 + k by omega]

/-- **C23 does not hold** for documents nested 65536 deep: the indentation counter is an `unsigned short`, and the innermost element
is not indented at all. -/
theorem C23_layout_false (fmt : Bytes → Bytes) : ∃ v, display fmt false v ≠ pretty (arrange 0 none (outline fmt v)) := by
  refine ⟨nest 65536, fun h => ?_⟩
  obtain ⟨A, B, e1, e2⟩ := nest_write fmt 65536 0
  obtain ⟨last, e2⟩ := e2 (by decide) none [] rfl
  rw [display, e1] at h
  rw [List.append_nil] at e2
  rw [e2] at h
  have h := congrArg List.length h
  simp only [List.length_append, arrange, pretty, List.flatMap_nil, List.length_nil, List.length_replicate, write, writePrimitive, getIndent, Nat.zero_add, Nat.mod_self, Nat.zero_mul] at h
  simp [comma, endl, Json.stringify] at h

theorem wrapped_or_not (ls : List (Nat × Bytes)) :
    (ls.flatMap (fun l => List.replicate (4 * (l.1 % 65536)) (c%' ') ++ l.2 ++ b!"\n")).length ≤ (pretty ls).length ∧
    ((∃ l ∈ ls, 65536 ≤ l.1) →
      (ls.flatMap (fun l => List.replicate (4 * (l.1 % 65536)) (c%' ') ++ l.2 ++ b!"\n")).length < (pretty ls).length) := by
  induction ls with
  | nil => simp [pretty]
  | cons l ls ih =>
    have hm := Nat.mod_le l.1 65536
    simp only [pretty, List.flatMap_cons, List.length_append, List.length_replicate] at ih ⊢
    refine ⟨by omega, ?_⟩
    rintro ⟨x, hx, hd⟩
    rcases List.mem_cons.mp hx with rfl | hx
    · have := Nat.mod_lt x.1 (show 0 < 65536 by decide)
      omega
    · have := ih.2 ⟨x, hx, hd⟩
      omega

/-- **C23, exactly**: for every document, however deep: the pretty output is its lines, in order, with their commas, each
indented by four blanks per open bracket, where the count of open brackets is taken modulo 65536. So it is the output C23 asks for
exactly if no line stands inside 65536 brackets or more. -/
theorem C23_exactly_partial (fmt : Bytes → Bytes) (v : Json) :
    display fmt false v =
      (arrange 0 none (outline fmt v)).flatMap (fun l => List.replicate (4 * (l.1 % 65536)) (c%' ') ++ l.2 ++ b!"\n") ∧
    (display fmt false v = pretty (arrange 0 none (outline fmt v)) ↔ ∀ l ∈ arrange 0 none (outline fmt v), l.1 < 65536) := by
  have h : display fmt false v =
      (arrange 0 none (outline fmt v)).flatMap (fun l => List.replicate (4 * (l.1 % 65536)) (c%' ') ++ l.2 ++ b!"\n") := by
    rw [display_rend]
    simp only [rend, getIndent, endl, Bool.false_eq_true, if_false, Nat.mul_comm]
  refine ⟨h, ?_, ?_⟩
  · intro e l hl
    rcases Nat.lt_or_ge l.1 65536 with g | g
    · exact g
    · have := (wrapped_or_not (arrange 0 none (outline fmt v))).2 ⟨l, hl, g⟩
      rw [← h, e] at this
      omega
  · intro g
    rw [h]
    unfold pretty
    rw [List.flatMap_def, List.flatMap_def, List.map_congr_left fun l hl => by rw [Nat.mod_eq_of_lt (g l hl)]]

/-- The lines of the example stand inside at most two brackets. -/
example : ∀ l ∈ arrange 0 none (outline id layoutExample), l.1 < 65536 := by
  simp [layoutExample, outline, outlineItems, outlineEntries, arrange, Line.depthOf, Line.depthAfter, Json.isContainer, Json.stringify]

end Verif.Props
