import Verif.Lemmas.ReaderHist
import Verif.Spec.Breaks
/-!
# Lemmas: the history with line breaks directly after numbers
-/
namespace Verif.Lemmas
open Verif.Model Verif.Spec

/-- What the history records of a text: the line breaks directly after numbers and booleans come twice. -/
def recFrom (m : Where) : Bytes → Bytes
  | [] => []
  | c :: t => (if m = .outside true ∧ isBreak c = true then [c, c] else [c]) ++ recFrom (m.next c) t

def recorded (t : Bytes) : Bytes := recFrom (.outside false) t

theorem whereAt_snoc (t : Bytes) (c : Byte) : whereAt (t ++ [c]) = (whereAt t).next c := by simp [whereAt]

theorem recFrom_snoc (t : Bytes) (c : Byte) : ∀ m, recFrom m (t ++ [c]) =
    recFrom m t ++ (if t.foldl Where.next m = .outside true ∧ isBreak c = true then [c, c] else [c]) := by
  induction t with
  | nil => intro m; simp [recFrom]; rfl
  | cons d t ih => intro m; simp only [List.cons_append, recFrom, ih, List.foldl_cons, List.append_assoc]; rfl

theorem recorded_snoc (t : Bytes) (c : Byte) :
    recorded (t ++ [c]) = recorded t ++ (if whereAt t = .outside true ∧ isBreak c = true then [c, c] else [c]) := recFrom_snoc t c _

theorem twiceFrom_snoc (t : Bytes) (c : Byte) : ∀ m, breaksAfterNumbers m (t ++ [c]) =
    breaksAfterNumbers m t + (if t.foldl Where.next m = .outside true ∧ isBreak c = true then 1 else 0) := by
  induction t with
  | nil => intro m; simp [breaksAfterNumbers]; rfl
  | cons d t ih => intro m; simp only [List.cons_append, breaksAfterNumbers, ih, List.foldl_cons, Nat.add_assoc]; rfl

theorem countedTwice_snoc (t : Bytes) (c : Byte) :
    countedTwice (t ++ [c]) = countedTwice t + (if whereAt t = .outside true ∧ isBreak c = true then 1 else 0) := twiceFrom_snoc t c _

theorem recorded_once {t : Bytes} {c : Byte} (h : ¬ (whereAt t = .outside true ∧ isBreak c = true)) : recorded (t ++ [c]) = recorded t ++ [c] := by
  rw [recorded_snoc, if_neg h]

theorem recorded_plain {t : Bytes} (xs : Bytes) (h : ∀ c ∈ xs, isBreak c = false) : recorded (t ++ xs) = recorded t ++ xs := by
  induction xs generalizing t with
  | nil => simp
  | cons x xs ih =>
    rw [show t ++ x :: xs = t ++ [x] ++ xs by simp, ih (fun c hc => h c (List.mem_cons_of_mem _ hc)), recorded_once (by rw [h x (by simp)]; simp)]
    simp

theorem snoc_ind {P : Bytes → Prop} (h0 : P []) (h1 : ∀ t c, P t → P (t ++ [c])) (t : Bytes) : P t := by
  rw [← List.reverse_reverse t]
  generalize t.reverse = r
  induction r with
  | nil => exact h0
  | cons c r ih => rw [List.reverse_cons]; exact h1 _ _ ih

theorem count_recorded (t : Bytes) : (recorded t).countP isBreak = t.countP isBreak + countedTwice t := by
  refine snoc_ind (P := fun t => (recorded t).countP isBreak = t.countP isBreak + countedTwice t) rfl ?_ t
  intro t c ih
  rw [recorded_snoc, countedTwice_snoc, List.countP_append, List.countP_append, ih]
  split
  · rename_i h
    simp [h.2]; omega
  · simp; omega

theorem endsLine_recorded (t : Bytes) : endsLine (recorded t) = endsLine t := by
  refine snoc_ind (P := fun t => endsLine (recorded t) = endsLine t) rfl ?_ t
  intro t c _
  rw [recorded_snoc, endsLine_snoc]
  split
  · rw [show recorded t ++ [c, c] = recorded t ++ [c] ++ [c] by simp, endsLine_snoc]
  · rw [endsLine_snoc]

theorem lineText_recorded (t : Bytes) (h : endsLine t = false) : lineText (recorded t) = lineText t := by
  revert h
  refine snoc_ind (P := fun t => endsLine t = false → lineText (recorded t) = lineText t) (fun _ => rfl) ?_ t
  intro t c ih h
  rw [endsLine_snoc] at h
  rw [recorded_once (by rw [h]; simp), lineText_snoc _ _ h, lineText_snoc _ _ h, endsLine_recorded]
  split
  · rfl
  · rename_i he
    rw [ih (by simpa using he)]

theorem lineNumber_of_not_ends {t : Bytes} (h : endsLine t = false) : lineNumber t = 1 + t.countP isBreak := by
  have h1 := lineNumber_snoc t 0
  rw [lineNumber_snoc', h] at h1
  simpa using h1

theorem lineNumber_recorded (t : Bytes) (h : endsLine t = false) : lineNumber (recorded t) = lineNumber t + countedTwice t := by
  rw [lineNumber_of_not_ends h, lineNumber_of_not_ends (by rw [endsLine_recorded]; exact h), count_recorded]
  omega

/-- The history inside a token. -/
def Rec (jp : Bool) (h : LHist) (t : Bytes) : Prop := Records jp h (recorded t)

theorem Rec.once {jp : Bool} {h : LHist} {t : Bytes} (hr : Rec jp h t) {c : Byte} (hc : ¬ (whereAt t = .outside true ∧ isBreak c = true)) :
    Rec (jp && isBreak c) (h.put c) (t ++ [c]) := by
  unfold Rec
  rw [recorded_once hc]
  exact Records.put hr c

theorem Rec.plain {jp : Bool} {h : LHist} {t : Bytes} (hr : Rec jp h t) {c : Byte} (hc : isBreak c = false) : Rec false (h.put c) (t ++ [c]) := by
  have := hr.once (c := c) (by rw [hc]; simp)
  rwa [hc, Bool.and_false] at this

theorem Rec.shows {jp : Bool} {h : LHist} {t : Bytes} (hr : Rec jp h t) (ht : endsLine t = false) : ShowsAt h t := by
  have hl := lineNumber_recorded t ht
  have ht' := lineText_recorded t ht
  refine ⟨by rw [← hl]; exact hr.line, ⟨keep jp, by cases jp <;> simp [keep], by rw [← ht']; exact hr.text⟩, ?_⟩
  intro h2
  rw [← ht']
  exact hr.col (by rw [hl]; omega)

theorem showsAt_congr {h h' : LHist} {t : Bytes} (hs : ShowsAt h t) (h1 : h'.buf = h.buf) (h2 : h'.line = h.line) : ShowsAt h' t := by
  unfold ShowsAt LHist.currentLine LHist.toString LHist.totalSize at *
  rw [h1, h2]
  exact hs

theorem put_break {h : LHist} {c : Byte} (hw : h.willReset = false) (hc : isBreak c = true) : h.put c = { h with willReset := true } := by
  unfold LHist.put LHist.flush
  rw [hw]
  dsimp only
  rw [if_pos ((isBreak_iff c).mp hc)]
  rfl

/-- A report directly after the byte `c`: of the position after it, or, if it is a line break, before it. -/
theorem Rec.showsPut {jp : Bool} {h : LHist} {t : Bytes} (hr : Rec jp h t) (ht : endsLine t = false) (hl : lineText t ≠ []) (c : Byte) :
    ∃ t', (t' = t ∨ t' = t ++ [c]) ∧ ShowsAt (h.put c) t' ∧ endsLine t' = false ∧ lineText t' ≠ [] := by
  by_cases hc : isBreak c = true
  · refine ⟨t, Or.inl rfl, ?_, ht, hl⟩
    rw [put_break (by rw [hr.ends, endsLine_recorded]; exact ht) hc]
    exact showsAt_congr (hr.shows ht) rfl rfl
  · have hc : isBreak c = false := by simpa using hc
    refine ⟨_, Or.inr rfl, (hr.plain hc).shows (by rw [endsLine_snoc]; exact hc), by rw [endsLine_snoc]; exact hc, ?_⟩
    rw [lineText_snoc t c hc]; simp

/-- Directly after a number or boolean, before the line break `c`, which was read and put back. -/
def Pend (h : LHist) (t : Bytes) (c : Byte) : Prop :=
  whereAt t = .outside true ∧ endsLine t = false ∧ isBreak c = true ∧ ∃ h0, Rec false h0 t ∧ h = (h0.put c).popBack

theorem Pend.eq {h : LHist} {t : Bytes} {c : Byte} (hp : Pend h t c) :
    ∃ h0, Rec false h0 t ∧ h = { h0 with willReset := true, buf := h0.buf.popBack } := by
  obtain ⟨_, ht, hc, h0, hr, rfl⟩ := hp
  refine ⟨h0, hr, ?_⟩
  rw [put_break (by rw [hr.ends, endsLine_recorded]; exact ht) hc]
  rfl

theorem Pend.put {h : LHist} {t : Bytes} {c : Byte} (hp : Pend h t c) : Rec false (h.put c) (t ++ [c]) := by
  obtain ⟨hm, ht, hc, _⟩ := id hp
  obtain ⟨h0, hr, rfl⟩ := hp.eq
  have hb := hr.inv
  have hpop := pop_inv _ hb
  unfold Rec
  rw [recorded_snoc, if_pos ⟨hm, hc⟩, show recorded t ++ [c, c] = recorded t ++ [c] ++ [c] by simp]
  have hput : LHist.put { h0 with willReset := true, buf := h0.buf.popBack } c = ⟨h0.buf.popBack.reset, true, h0.line + 1⟩ := by
    unfold LHist.put LHist.flush
    dsimp only [if_true]
    rw [if_pos ((isBreak_iff c).mp hc)]
    rfl
  rw [hput]
  have hlt : lineText (recorded t ++ [c] ++ [c]) = [] := by
    rw [lineText_snoc_break _ c hc, endsLine_snoc, hc]; rfl
  have hln : lineNumber (recorded t ++ [c] ++ [c]) = lineNumber (recorded t) + 1 := by
    rw [lineNumber_snoc', lineNumber_snoc', endsLine_snoc, hc, endsLine_recorded, ht]; rfl
  refine ⟨reset_inv _ hpop.len, Or.inl ⟨rfl, rfl⟩, by rw [endsLine_snoc, hc], ?_, ?_, ?_⟩
  · rw [hln, ← hr.line]
  · rw [hlt]; simp [LHist.toString, reset_toString, lastN]
  · intro _; rw [hlt]; simp [LHist.totalSize, WBuf.totalSize, WBuf.reset]

theorem Pend.lacks {input : Bytes} {h : LHist} {t : Bytes} {c : Byte} (hp : Pend h t c) (hl : lineText t ≠ []) (hi : t ++ [c] <+: input) : LacksOne input h t := by
  obtain ⟨hm, ht, hc, _⟩ := id hp
  obtain ⟨h0, hr, rfl⟩ := hp.eq
  have hln := lineNumber_recorded t ht
  have ht' := lineText_recorded t ht
  have h1 := hr.text
  have h2 := hr.col
  rw [ht'] at h1 h2
  refine ⟨hm, ⟨c, hc, hi⟩, by rw [← hln]; exact hr.line, ?_, ?_⟩
  · simp only [LHist.toString] at h1 ⊢
    rw [pop_toString _ hr.inv, h1]
    obtain ⟨l, x, hx⟩ : ∃ l x, lineText t = l ++ [x] := by
      rcases (lineText t).eq_nil_or_concat with h | ⟨l, x, h⟩
      · exact absurd h hl
      · exact ⟨l, x, by simpa using h⟩
    rw [hx]
    simp only [List.dropLast_concat]
    exact lastN_dropLast 44 _ _
  · intro h3
    have h4 := h2 (by rw [hln]; omega)
    simp only [LHist.totalSize, WBuf.totalSize] at h4 ⊢
    rw [pop_totalSize, h4]
    have : 0 < (lineText t).length := List.length_pos_iff.mpr hl
    omega

end Verif.Lemmas
