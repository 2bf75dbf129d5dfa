import Verif.Spec.Layout
/-! # The redirected output is the arrangement of the lines of the document -/
namespace Verif.Lemmas
open Verif.Model Verif.Spec Verif.Model.Output

/-- Lines printed the way the program does. -/
def rend (c : Bool) (ls : List (Nat × Bytes)) : Bytes := ls.flatMap fun l => getIndent c l.1 ++ l.2 ++ endl c

theorem rend_append (c : Bool) (a b : List (Nat × Bytes)) : rend c (a ++ b) = rend c a ++ rend c b := by simp [rend]

/-- A comma is due before the next element. -/
def due : Option Line → Bool
  | none => false
  | some (.opening _) => false
  | some (.key _) => false
  | _ => true

theorem hc_opening (p : Option Line) (o : Bool) : hasComma p (.opening o) = due p := by
  rcases p with _ | p
  · rfl
  · cases p <;> rfl
theorem hc_item (p : Option Line) (t : Bytes) : hasComma p (.item t) = due p := by
  rcases p with _ | p
  · rfl
  · cases p <;> rfl
theorem hc_entry (p : Option Line) (k v : Bytes) : hasComma p (.entry k v) = due p := by
  rcases p with _ | p
  · rfl
  · cases p <;> rfl
theorem hc_key (p : Option Line) (k : Bytes) : hasComma p (.key k) = due p := by
  rcases p with _ | p
  · rfl
  · cases p <;> rfl

theorem hc_closing (p : Option Line) (o : Bool) : hasComma p (.closing o) = false := by
  rcases p with _ | p
  · rfl
  · cases p <;> rfl

theorem comma_eq (b : Bool) : (if b then b!"," else []) = comma b := rfl

theorem prim_layout (fmt : Bytes → Bytes) (v : Json) (ho : outline fmt v = [.item (quoted fmt v)])
    (hw : ∀ c d p, write fmt c d p v = writePrimitive fmt c d p v) (d : Nat) (prev : Option Line) (rest : List Line) :
    ∃ L last, arrange d prev (outline fmt v ++ rest) = L ++ arrange d (some last) rest ∧ due (some last) = true ∧
      (∀ c, rend c L = write fmt c d (due prev) v) ∧ ∀ l ∈ L, l.1 ≤ d + depth v := by
  refine ⟨[(d, comma (due prev) ++ quoted fmt v)], .item (quoted fmt v), ?_, rfl, ?_, by simp⟩
  · rw [ho]; simp [arrange, Line.depthOf, Line.depthAfter, hc_opening, hc_item, hc_entry, hc_key, Line.text, comma_eq]
  · intro c
    rw [hw]
    cases v <;> simp [rend, writePrimitive, quoted, Json.stringify]

mutual
theorem write_layout (fmt : Bytes → Bytes) : ∀ (v : Json) (d : Nat) (prev : Option Line) (rest : List Line),
    ∃ L last, arrange d prev (outline fmt v ++ rest) = L ++ arrange d (some last) rest ∧ due (some last) = true ∧
      (∀ c, rend c L = write fmt c d (due prev) v) ∧ ∀ l ∈ L, l.1 ≤ d + depth v
  | .arr xs, d, prev, rest => by
    obtain ⟨L, last, e, h, hdep⟩ := items_layout fmt xs (d + 1) (some (.opening false)) ([.closing false] ++ rest)
    refine ⟨[(d, comma (due prev) ++ b!"[")] ++ L ++ [(d, b!"]")], .closing false, ?_, rfl, ?_, ?_⟩
    rotate_left 2
    · intro l hl
      simp only [List.cons_append, List.nil_append, List.mem_cons, List.mem_append, List.not_mem_nil, or_false] at hl
      rcases hl with rfl | hl | rfl
      · simp
      · have := hdep l hl
        simp only [depth]; omega
      · simp
    · simp only [outline, List.cons_append, List.nil_append, arrange, List.append_assoc, Line.depthAfter] at *
      rw [e]
      simp [arrange, Line.depthOf, Line.depthAfter, hc_opening, hc_item, hc_entry, hc_key, Line.text, comma_eq, hc_closing]
    · intro c
      rw [rend_append, rend_append, h c]
      simp [rend, write, due]
  | .obj es, d, prev, rest => by
    obtain ⟨L, last, e, h, hdep⟩ := entries_layout fmt es (d + 1) (some (.opening true)) ([.closing true] ++ rest)
    refine ⟨[(d, comma (due prev) ++ b!"{")] ++ L ++ [(d, b!"}")], .closing true, ?_, rfl, ?_, ?_⟩
    rotate_left 2
    · intro l hl
      simp only [List.cons_append, List.nil_append, List.mem_cons, List.mem_append, List.not_mem_nil, or_false] at hl
      rcases hl with rfl | hl | rfl
      · simp
      · have := hdep l hl
        simp only [depth]; omega
      · simp
    · simp only [outline, List.cons_append, List.nil_append, arrange, List.append_assoc, Line.depthAfter] at *
      rw [e]
      simp [arrange, Line.depthOf, Line.depthAfter, hc_opening, hc_item, hc_entry, hc_key, Line.text, comma_eq, hc_closing]
    · intro c
      rw [rend_append, rend_append, h c]
      simp [rend, write, due]
  | .str s, d, prev, rest => prim_layout fmt _ (by simp [outline]) (by simp [write]) d prev rest
  | .bool s, d, prev, rest => prim_layout fmt _ (by simp [outline]) (by simp [write]) d prev rest
  | .null, d, prev, rest => prim_layout fmt _ (by simp [outline]) (by simp [write]) d prev rest
  | .int s, d, prev, rest => prim_layout fmt _ (by simp [outline]) (by simp [write]) d prev rest
  | .long s, d, prev, rest => prim_layout fmt _ (by simp [outline]) (by simp [write]) d prev rest
  | .dbl s, d, prev, rest => prim_layout fmt _ (by simp [outline]) (by simp [write]) d prev rest

theorem items_layout (fmt : Bytes → Bytes) : ∀ (xs : List Json) (d : Nat) (prev : Option Line) (rest : List Line),
    ∃ L last, arrange d prev (outlineItems fmt xs ++ rest) = L ++ arrange d last rest ∧
      (∀ c, rend c L = writeItems fmt c d (!due prev) xs) ∧ ∀ l ∈ L, l.1 ≤ d + depthItems xs
  | [], d, prev, rest => ⟨[], prev, by simp [outlineItems], by simp [rend, writeItems], by simp⟩
  | x :: xs, d, prev, rest => by
    obtain ⟨L1, l1, e1, hl, h1, g1⟩ := write_layout fmt x d prev (outlineItems fmt xs ++ rest)
    obtain ⟨L2, l2, e2, h2, g2⟩ := items_layout fmt xs d (some l1) rest
    refine ⟨L1 ++ L2, l2, ?_, ?_, ?_⟩
    rotate_left 2
    · intro l hm
      simp only [depthItems]
      rcases List.mem_append.mp hm with hm | hm
      · have := g1 l hm; omega
      · have := g2 l hm; omega
    · simp only [outlineItems, List.append_assoc]
      rw [e1, e2]
    · intro c
      rw [rend_append, h1, h2, hl]
      simp [writeItems]

theorem entries_layout (fmt : Bytes → Bytes) : ∀ (es : List (Bytes × Json)) (d : Nat) (prev : Option Line) (rest : List Line),
    ∃ L last, arrange d prev (outlineEntries fmt es ++ rest) = L ++ arrange d last rest ∧
      (∀ c, rend c L = writeEntries fmt c d (!due prev) es) ∧ ∀ l ∈ L, l.1 ≤ d + depthEntries es
  | [], d, prev, rest => ⟨[], prev, by simp [outlineEntries], by simp [rend, writeEntries], by simp⟩
  | (k, v) :: es, d, prev, rest => by
    by_cases hv : v.isContainer = true
    · obtain ⟨L1, l1, e1, hl, h1, g1⟩ := write_layout fmt v d (some (.key k)) (outlineEntries fmt es ++ rest)
      obtain ⟨L2, l2, e2, h2, g2⟩ := entries_layout fmt es d (some l1) rest
      refine ⟨[(d, comma (due prev) ++ b!"\"" ++ k ++ b!"\":")] ++ L1 ++ L2, l2, ?_, ?_, ?_⟩
      rotate_left 2
      · intro l hm
        simp only [depthEntries]
        simp only [List.cons_append, List.nil_append, List.mem_cons, List.mem_append] at hm
        rcases hm with rfl | hm | hm
        · simp
        · have := g1 l hm; omega
        · have := g2 l hm; omega
      · simp only [outlineEntries, if_pos hv, List.append_assoc, List.cons_append, arrange, Line.depthAfter]
        rw [e1, e2]
        simp [Line.depthOf, hc_opening, hc_item, hc_entry, hc_key, Line.text, comma_eq]
      · intro c
        rw [rend_append, rend_append, h1, h2, hl]
        simp [writeEntries, hv, rend, due]
    · obtain ⟨L2, l2, e2, h2, g2⟩ := entries_layout fmt es d (some (.entry k (v.stringify fmt))) rest
      refine ⟨[(d, comma (due prev) ++ b!"\"" ++ k ++ b!"\":" ++ v.stringify fmt)] ++ L2, l2, ?_, ?_, ?_⟩
      rotate_left 2
      · intro l hm
        simp only [depthEntries]
        simp only [List.cons_append, List.nil_append, List.mem_cons] at hm
        rcases hm with rfl | hm
        · simp
        · have := g2 l hm; omega
      · simp only [outlineEntries, if_neg hv, List.append_assoc, List.cons_append, arrange, Line.depthAfter, List.nil_append]
        rw [e2]
        simp [Line.depthOf, hc_opening, hc_item, hc_entry, hc_key, Line.text, comma_eq]
      · intro c
        rw [rend_append, h2]
        simp [writeEntries, hv, rend, due]
end

/-- Both outputs of a document are the same lines, printed in two ways. -/
theorem display_rend (fmt : Bytes → Bytes) (c : Bool) (v : Json) : display fmt c v = rend c (arrange 0 none (outline fmt v)) := by
  obtain ⟨L, last, e, _, h, _⟩ := write_layout fmt v 0 none []
  simp only [List.append_nil, arrange] at e
  rw [display, e, h]
  rfl

mutual
theorem balanced_outline (fmt : Bytes → Bytes) : ∀ (v : Json) (st : List Bool) (rest : List Line),
    balanced st (outline fmt v ++ rest) = balanced st rest
  | .arr xs, st, rest => by
    simp only [outline, List.cons_append, List.nil_append, List.append_assoc, balanced, balanced_items fmt xs, beq_self_eq_true, Bool.true_and]
  | .obj es, st, rest => by
    simp only [outline, List.cons_append, List.nil_append, List.append_assoc, balanced, balanced_entries fmt es, beq_self_eq_true, Bool.true_and]
  | .str s, st, rest => by simp [outline, balanced]
  | .bool s, st, rest => by simp [outline, balanced]
  | .null, st, rest => by simp [outline, balanced]
  | .int s, st, rest => by simp [outline, balanced]
  | .long s, st, rest => by simp [outline, balanced]
  | .dbl s, st, rest => by simp [outline, balanced]
theorem balanced_items (fmt : Bytes → Bytes) : ∀ (xs : List Json) (st : List Bool) (rest : List Line),
    balanced st (outlineItems fmt xs ++ rest) = balanced st rest
  | [], st, rest => by simp [outlineItems]
  | x :: xs, st, rest => by
    simp only [outlineItems, List.append_assoc]
    rw [balanced_outline fmt x, balanced_items fmt xs]
theorem balanced_entries (fmt : Bytes → Bytes) : ∀ (es : List (Bytes × Json)) (st : List Bool) (rest : List Line),
    balanced st (outlineEntries fmt es ++ rest) = balanced st rest
  | [], st, rest => by simp [outlineEntries]
  | (k, v) :: es, st, rest => by
    simp only [outlineEntries, List.append_assoc]
    split
    · simp only [List.cons_append, balanced]
      rw [balanced_outline fmt v, balanced_entries fmt es]
    · simp only [List.cons_append, balanced, List.nil_append]
      rw [balanced_entries fmt es]
end

end Verif.Lemmas
