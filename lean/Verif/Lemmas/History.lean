import Verif.Lemmas.WrappedBufferOps
import Verif.Lemmas.Tokens
import Verif.Spec.Position
/-!
# Lemmas: the history describes a position in a text
-/
namespace Verif.Lemmas
open Verif.Model Verif.Spec

theorem lineNumber_snoc (t : Bytes) (c : Byte) : lineNumber (t ++ [c]) = 1 + t.countP isBreak := by
  simp [lineNumber]

theorem lineNumber_snoc' (t : Bytes) (c : Byte) : lineNumber (t ++ [c]) = lineNumber t + if endsLine t then 1 else 0 := by
  rw [lineNumber_snoc]
  rcases t.eq_nil_or_concat with rfl | ⟨t, d, rfl⟩
  · simp [lineNumber, endsLine]
  · simp only [List.concat_eq_append, lineNumber_snoc, endsLine, List.getLast?_append, List.getLast?_singleton, Option.some_or, List.countP_append,
      List.countP_singleton]
    omega

theorem endsLine_snoc (t : Bytes) (c : Byte) : endsLine (t ++ [c]) = isBreak c := by
  simp [endsLine]

theorem lineText_snoc_break (t : Bytes) (c : Byte) (h : isBreak c = true) :
    lineText (t ++ [c]) = if endsLine t then [] else lineText t := by
  unfold lineText
  rw [endsLine_snoc, h]
  simp only [if_true, List.dropLast_concat]
  split
  · rename_i he
    rcases t.eq_nil_or_concat with rfl | ⟨t, d, rfl⟩
    · rfl
    · rw [List.concat_eq_append, endsLine_snoc] at he
      simp [he]
  · rfl

theorem lineText_snoc (t : Bytes) (c : Byte) (h : isBreak c = false) :
    lineText (t ++ [c]) = (if endsLine t then [] else lineText t) ++ [c] := by
  unfold lineText
  rw [endsLine_snoc, h]
  simp only [Bool.false_eq_true, if_false, List.reverse_append, List.reverse_cons, List.reverse_nil, List.nil_append, List.singleton_append]
  rw [List.takeWhile_cons, h]
  simp only [Bool.not_false, if_true, List.reverse_cons]
  congr 1
  split
  · rename_i he
    rcases t.eq_nil_or_concat with rfl | ⟨t, d, rfl⟩
    · rfl
    · rw [List.concat_eq_append, endsLine_snoc] at he
      simp [he]
  · rfl

theorem lastN_snoc {T : Type} (n : Nat) (l : List T) (x : T) : lastN (n + 1) (lastN (n + 1) l ++ [x]) = lastN (n + 1) (l ++ [x]) := by
  unfold lastN
  apply List.ext_getElem?
  intro i
  simp only [List.getElem?_drop, List.getElem?_append, List.length_append, List.length_drop, List.length_singleton]
  grind

theorem lastN_append {T : Type} (n k : Nat) (l xs : List T) (h : n ≤ k + xs.length) (_h2 : k ≤ n) :
    lastN n (lastN k l ++ xs) = lastN n (l ++ xs) := by
  unfold lastN
  apply List.ext_getElem?
  intro i
  simp only [List.getElem?_drop, List.getElem?_append, List.length_append, List.length_drop]
  grind

theorem lastN_dropLast {T : Type} (n : Nat) (l : List T) (x : T) : (lastN (n + 1) (l ++ [x])).dropLast = lastN n l := by
  unfold lastN
  rw [List.dropLast_eq_take]
  apply List.ext_getElem?
  intro i
  simp only [List.getElem?_drop, List.getElem?_take, List.getElem?_append, List.length_append, List.length_drop, List.length_singleton]
  grind

/-- Number of characters the context can hold: one less directly after a `pop_back`. -/
def keep (jp : Bool) : Nat := if jp then 44 else 45

/-- The history records the text `t`. -/
structure Records (jp : Bool) (h : LHist) (t : Bytes) : Prop where
  inv : WInv h.buf
  shape : Shape jp h.buf
  ends : h.willReset = endsLine t
  line : h.line = lineNumber t
  text : h.toString = lastN (keep jp) (lineText t)
  col : 2 ≤ lineNumber t → h.totalSize = (lineText t).length % 4294967296

theorem Records.init (junk : List Byte) (n : Nat) (hj : junk.length = errorHistoryLen) : Records false (LHist.init junk n) [] := by
  refine ⟨⟨hj, Or.inl ⟨rfl, rfl⟩⟩, Or.inl ⟨rfl, rfl⟩, rfl, rfl, ?_, by simp [lineNumber]⟩
  simp [LHist.init, LHist.toString, WBuf.toString, WBuf.init, WBuf.size, lineText, endsLine, lastN]

/-- The state in which the next character is recorded. -/
theorem Records.flush {jp : Bool} {h : LHist} {t : Bytes} (hr : Records jp h t) (c : Byte) :
    WInv h.flush.buf ∧ Shape jp h.flush.buf ∧ h.flush.willReset = false ∧ h.flush.line = lineNumber (t ++ [c]) ∧
    h.flush.toString = lastN (keep jp) (if endsLine t then [] else lineText t) ∧
    (2 ≤ lineNumber (t ++ [c]) → h.flush.totalSize = (if endsLine t then [] else lineText t).length % 4294967296) := by
  unfold LHist.flush
  rw [hr.ends, lineNumber_snoc']
  split
  · refine ⟨reset_inv _ hr.inv.len, Or.inl ⟨rfl, rfl⟩, rfl, by rw [hr.line], ?_, ?_⟩
    · simp [LHist.toString, reset_toString, lastN]
    · intro _; simp [LHist.totalSize, WBuf.totalSize, WBuf.reset]
  · rename_i he
    refine ⟨hr.inv, hr.shape, by rw [hr.ends]; simpa using he, by rw [hr.line]; rfl, hr.text, ?_⟩
    intro h2
    exact hr.col h2

theorem isBreak_iff (c : Byte) : isBreak c = true ↔ c = 10 ∨ c = 13 := by simp [isBreak]

theorem put_totalSize (b : WBuf T S) (x : T) : (b.put x).written = (b.written + 1) % 4294967296 := by
  unfold WBuf.put
  dsimp only
  repeat' split
  all_goals rfl

theorem pop_totalSize (b : WBuf T S) : b.popBack.written = (b.written + 4294967295) % 4294967296 := by
  unfold WBuf.popBack
  dsimp only
  repeat' split
  all_goals rfl

theorem Records.put {jp : Bool} {h : LHist} {t : Bytes} (hr : Records jp h t) (c : Byte) :
    Records (jp && isBreak c) (h.put c) (t ++ [c]) := by
  obtain ⟨h1, h2, h3, h4, h5, h6⟩ := hr.flush c
  unfold LHist.put
  dsimp only
  by_cases hb : isBreak c = true
  · rw [if_pos ((isBreak_iff c).mp hb), hb, Bool.and_true]
    have e := lineText_snoc_break t c hb
    exact ⟨h1, h2, by rw [endsLine_snoc, hb], h4, by rw [e]; exact h5, by rw [e]; exact h6⟩
  · rw [if_neg (fun hc => hb ((isBreak_iff c).mpr hc))]
    simp only [Bool.not_eq_true] at hb
    rw [hb, Bool.and_false]
    have e := lineText_snoc t c hb
    refine ⟨put_inv _ c h1 (by decide), put_shape _ c (by decide) h1 h2, by rw [endsLine_snoc, hb]; exact h3, h4, ?_, ?_⟩
    · rw [e]
      simp only [LHist.toString] at h5 ⊢
      rw [put_toString _ c h1 (by decide) (h2.putSafe h1), h5]
      exact lastN_append 45 (keep jp) _ [c] (by cases jp <;> simp [keep]) (by cases jp <;> simp [keep])
    · intro hl
      rw [e]
      have := h6 hl
      simp only [LHist.totalSize, WBuf.totalSize] at this ⊢
      rw [put_totalSize, this, List.length_append]
      simp

/-- Put, then put back. -/
theorem Records.putPop {jp : Bool} {h : LHist} {t : Bytes} (hr : Records jp h t) (c : Byte) (hc : isBreak c = false) (ht : endsLine t = false) :
    Records true (h.put c).popBack t := by
  have hp := hr.put c
  rw [hc, Bool.and_false] at hp
  have e := lineText_snoc t c hc
  rw [ht] at e
  simp only [Bool.false_eq_true, if_false] at e
  have hl : lineNumber (t ++ [c]) = lineNumber t := by rw [lineNumber_snoc', ht]; rfl
  refine ⟨pop_inv _ hp.inv, pop_shape _ hp.inv hp.shape, ?_, ?_, ?_, ?_⟩
  · have := hp.ends; rw [endsLine_snoc, hc] at this; rw [ht]; exact this
  · rw [← hl]; exact hp.line
  · have := hp.text
    simp only [LHist.toString, LHist.popBack] at this ⊢
    rw [pop_toString _ hp.inv, this, e]
    exact lastN_dropLast 44 _ _
  · intro h2
    have := hp.col (by rw [hl]; exact h2)
    rw [e] at this
    simp only [LHist.totalSize, WBuf.totalSize, LHist.popBack] at this ⊢
    rw [pop_totalSize, this, List.length_append]
    simp only [List.length_singleton]
    omega

theorem putN_plain (h : LHist) (mem : List Byte) (count : Nat) (hc : count ≤ mem.length) (hn : ∀ c ∈ mem.take count, c ≠ 10) :
    h.putN mem count = some { h.flush with buf := h.flush.buf.putN (mem.take count) } := by
  unfold LHist.putN LHist.putNAux
  rw [findNl_none mem count hc hn]

theorem wputN_totalSize (b : WBuf T S) (xs : List T) (hx : 0 < xs.length) : (b.putN xs).written = (b.written + xs.length) % 4294967296 := by
  unfold WBuf.putN
  dsimp only
  rw [if_neg (by omega)]
  repeat' split
  all_goals rfl

theorem endsLine_append (t xs : Bytes) (hx : xs ≠ []) (hb : ∀ c ∈ xs, isBreak c = false) : endsLine (t ++ xs) = false := by
  rcases xs.eq_nil_or_concat with rfl | ⟨xs, c, rfl⟩
  · exact absurd rfl hx
  · rw [List.concat_eq_append, ← List.append_assoc, endsLine_snoc]; exact hb c (by simp)

theorem lineText_append (t xs : Bytes) (hx : xs ≠ []) (hb : ∀ c ∈ xs, isBreak c = false) :
    lineText (t ++ xs) = (if endsLine t then [] else lineText t) ++ xs ∧ ∀ c, lineNumber (t ++ xs) = lineNumber (t ++ [c]) := by
  induction xs generalizing t with
  | nil => exact absurd rfl hx
  | cons x xs ih =>
    have hbx := hb x (by simp)
    have hl : ∀ c, lineNumber (t ++ [x]) = lineNumber (t ++ [c]) := by intro c; rw [lineNumber_snoc, lineNumber_snoc]
    cases xs with
    | nil => exact ⟨lineText_snoc t x hbx, hl⟩
    | cons y ys =>
      obtain ⟨i1, i2⟩ := ih (t ++ [x]) (by simp) (fun c hc => hb c (List.mem_cons_of_mem _ hc))
      rw [show t ++ x :: y :: ys = t ++ [x] ++ (y :: ys) by simp]
      constructor
      · rw [i1, endsLine_snoc, hbx, lineText_snoc t x hbx]; simp
      · intro c
        rw [i2 0, lineNumber_snoc', endsLine_snoc, hbx, hl c]; rfl

theorem Records.putN {jp : Bool} {h h' : LHist} {t : Bytes} (hr : Records jp h t) (mem : List Byte) (count : Nat) (hc : count ≤ mem.length)
    (h45 : count ≤ 45) (hb : ∀ c ∈ mem.take count, isBreak c = false) (ht : endsLine t = false) (e : h.putN mem count = some h') :
    Records (jp && count == 0) h' (t ++ mem.take count) := by
  have hn : ∀ c ∈ mem.take count, c ≠ 10 := by
    intro c hcm h10; have := hb c hcm; rw [h10] at this; simp [isBreak] at this
  rw [putN_plain h mem count hc hn] at e
  simp only [Option.some.injEq] at e
  subst e
  have hlen : (mem.take count).length = count := by simp; omega
  generalize mem.take count = xs at *
  obtain ⟨h1, h2, h3, h4, h5, h6⟩ := hr.flush 0
  cases hx : xs with
  | nil =>
    subst hx
    simp at hlen
    subst hlen
    have hf : h.flush = h := by unfold LHist.flush; rw [hr.ends, ht]; rfl
    have : ({ h.flush with buf := h.flush.buf.putN [] } : LHist) = h := by
      rw [hf]; rw [show h.buf.putN [] = h.buf by simp [WBuf.putN]]
    rw [this]; simpa using hr
  | cons y ys =>
    rw [← hx]
    have hne : xs ≠ [] := by rw [hx]; simp
    obtain ⟨l1, l2⟩ := lineText_append t xs hne hb
    have hpos : 0 < xs.length := by rw [hx]; simp
    have hjp : (jp && count == 0) = false := by
      have : (count == 0) = false := by simp; omega
      rw [this, Bool.and_false]
    rw [hjp]
    have hs := putN_shape h.flush.buf xs (by decide) (by show xs.length ≤ 45; omega) hpos h1 h2
    refine ⟨putN_inv _ _ h1 (by decide) (by show xs.length ≤ 45; omega), hs, ?_, ?_, ?_, ?_⟩
    · rw [endsLine_append t xs hne hb]; exact h3
    · rw [l2 0]; exact h4
    · rw [l1]
      simp only [LHist.toString] at h5 ⊢
      rw [putN_toString _ xs h1 (by decide) (by show xs.length ≤ 45; omega), h5]
      exact lastN_append 45 (keep jp) _ xs (by cases jp <;> simp [keep] <;> omega) (by cases jp <;> simp [keep])
    · intro hl2
      rw [l2 0] at hl2
      have := h6 hl2
      rw [l1]
      simp only [LHist.totalSize, WBuf.totalSize] at this ⊢
      rw [wputN_totalSize _ _ hpos, this, List.length_append]
      simp

end Verif.Lemmas
