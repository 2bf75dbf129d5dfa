import Verif.Lemmas.ReaderHist
import Verif.Props.ReaderErrors
import Verif.Model.Exceptions
import Verif.Lemmas.Eval
/-!
# Properties C16–C20: what is reported with an error
-/
namespace Verif.Props
open Verif.Model Verif.Spec Verif.Lemmas

/-- One operation on the ring buffer. -/
def bufStep {T : Type} {SIZE : Nat} (b : WBuf T SIZE) : BufOp T → WBuf T SIZE
  | .put x => b.put x
  | .putN xs => b.putN xs
  | .pop => b.popBack
  | .reset => b.reset

/-- **C16 does not hold** for every sequence of operations: after two `pop_back`s in a row an old item comes back, and a batch
longer than the capacity leaves old items in place. -/
theorem C16_bounded_list_false :
    (∃ (junk : List Nat) (ops : List (BufOp Nat)), junk.length = 4 ∧
      (ops.foldl bufStep (WBuf.init junk 0 : WBuf Nat 4)).toString ≠ ops.foldl (boundedStep 4) []) ∧
    (∃ (junk : List Nat) (ops : List (BufOp Nat)), junk.length = 4 ∧ noDoublePop false ops = true ∧
      (ops.foldl bufStep (WBuf.init junk 0 : WBuf Nat 4)).toString ≠ ops.foldl (boundedStep 4) []) := by
  refine ⟨⟨[0, 0, 0, 0], [.put 1, .put 2, .put 3, .put 4, .put 5, .put 6, .pop, .pop, .put 7], rfl, by decide⟩,
    ⟨[0, 0, 0, 0], [.putN [1, 2, 3, 4, 5, 6]], rfl, by decide, by decide⟩⟩

/-- **C16 (ring buffer), the part that holds.** For every item type and capacity, every contents of the uninitialised memory and
every sequence of writes, batches, resets and `pop_back`s in which no `pop_back` directly follows another one and no batch is
longer than the capacity, the buffer holds what the bounded list holds. Missing: the sequences excluded here (for them the
property is false). -/
theorem C16_bounded_list_partial {T : Type} (SIZE : Nat) (hs : 0 < SIZE) (junk : List T) (n : Nat) (hj : junk.length = SIZE) (ops : List (BufOp T))
    (hpop : noDoublePop false ops = true) (hbatch : ∀ xs, BufOp.putN xs ∈ ops → xs.length ≤ SIZE) :
    (ops.foldl bufStep (WBuf.init junk n : WBuf T SIZE)).toString = ops.foldl (boundedStep SIZE) [] ∧
    (ops.foldl bufStep (WBuf.init junk n : WBuf T SIZE)).size = (ops.foldl (boundedStep SIZE) []).length := by
  have main : ∀ (ops : List (BufOp T)) (jp : Bool) (b : WBuf T SIZE) (l : List T), WInv b → Shape jp b → b.toString = l →
      noDoublePop jp ops = true → (∀ xs, BufOp.putN xs ∈ ops → xs.length ≤ SIZE) →
      (ops.foldl bufStep b).toString = ops.foldl (boundedStep SIZE) l ∧ WInv (ops.foldl bufStep b) := by
    intro ops
    induction ops with
    | nil => intro jp b l h1 h2 h3 _ _; exact ⟨h3, h1⟩
    | cons op ops ih =>
      intro jp b l h1 h2 h3 hp hb
      have hb' : ∀ xs, BufOp.putN xs ∈ ops → xs.length ≤ SIZE := fun xs hx => hb xs (List.mem_cons_of_mem _ hx)
      simp only [List.foldl_cons]
      cases op with
      | put x =>
        refine ih false _ _ (put_inv b x h1 hs) (put_shape b x hs h1 h2) ?_ hp hb'
        rw [← h3]; exact put_toString b x h1 hs (h2.putSafe h1)
      | putN xs =>
        have hx := hb xs (by simp)
        simp only [bufStep, boundedStep]
        cases xs with
        | nil =>
          simp only [noDoublePop, List.isEmpty_nil, Bool.and_true] at hp
          have e : b.putN [] = b := by simp [WBuf.putN]
          rw [e]
          have hl : lastN SIZE (l ++ []) = l := by
            have : l.length ≤ SIZE := by rw [← h3, length_toString b h1]; exact size_le b h1
            simp [lastN, Nat.sub_eq_zero_of_le this]
          rw [hl]
          exact ih jp b l h1 h2 h3 hp hb'
        | cons y ys =>
          simp only [noDoublePop, List.isEmpty_cons, Bool.and_false] at hp
          refine ih false _ _ (putN_inv b _ h1 hs hx) (putN_shape b _ hs hx (by simp) h1 h2) ?_ hp hb'
          rw [← h3]; exact putN_toString b _ h1 hs hx
      | pop =>
        simp only [noDoublePop, Bool.and_eq_true, Bool.not_eq_true'] at hp
        obtain ⟨hj, hp⟩ := hp
        subst hj
        refine ih true _ _ (pop_inv b h1) (pop_shape b h1 h2) ?_ hp hb'
        rw [← h3]; exact pop_toString b h1
      | reset =>
        exact ih false _ _ (reset_inv b h1.len) (Or.inl ⟨rfl, rfl⟩) (reset_toString b) hp hb'
  have h0 : WInv (WBuf.init junk n : WBuf T SIZE) := ⟨hj, Or.inl ⟨rfl, rfl⟩⟩
  obtain ⟨h1, h2⟩ := main ops false (WBuf.init junk n) [] h0 (Or.inl ⟨rfl, rfl⟩) (by simp [WBuf.toString, WBuf.init, WBuf.size]) hpop hbatch
  exact ⟨h1, by rw [← h1, length_toString _ h2]⟩

example : noDoublePop false [BufOp.put 1, .putN [2, 3, 4], .put 5, .pop, .put 6, .reset, .pop] = true ∧
    [BufOp.put 1, .putN [2, 3, 4], .put 5, .pop, .put 6].foldl (boundedStep 4) [] = [2, 3, 4, 6] := by decide

/-! ### The history in the reader -/

/-- No line break directly after a number or a boolean literal (a digit, `.`, `-`, `e` or `E`). -/
def QuietBreaks (input : Bytes) : Prop := ∀ a b, [a, b] <:+: input → isNumEnd a = true → isBreak b = false

/-- No line break among the four bytes after a `\u` or the three bytes after an `n` or `N`. -/
def WholeWindows (input : Bytes) : Prop :=
  (∀ w b, [92, 117] ++ w ++ [b] <:+: input → w.length ≤ 3 → isBreak b = false) ∧
  (∀ d w b, [d] ++ w ++ [b] <:+: input → (d = 110 ∨ d = 78) → w.length ≤ 2 → isBreak b = false)

/-- The history shows the position at the end of `t`: line number, the end of the line (up to 44 or 45 characters), and, from the
second line on, the column (modulo `2^32`). -/
def Shows (h : LHist) (t : Bytes) : Prop :=
  h.currentLine = lineNumber t ∧ (∃ k, (k = 44 ∨ k = 45) ∧ h.toString = lastN k (lineText t)) ∧
  (2 ≤ lineNumber t → h.totalSize = (lineText t).length % 4294967296)

theorem infix_of_prefix {a b : Bytes} {input : Bytes} (t : Bytes) (h : t ++ a ++ b <+: input) : a ++ b <:+: input := by
  obtain ⟨r, rfl⟩ := h
  exact ⟨t, r, by simp⟩

theorem notBreak_zero : isBreak 0 = false := by decide

/-- Text recorded, with a non-empty current line where it matters. -/
theorem recordsRel (input : Bytes) (hq : QuietBreaks input) (hw : WholeWindows input) :
    HistRel input (fun h t => ∃ jp, Records jp h t) (fun t => lineText t ≠ []) where
  at1 := by
    intro t c hc; rw [lineText_snoc t c hc]; simp
  at2 := by
    intro t d c hd
    by_cases hc : isBreak c = true
    · rw [lineText_snoc_break _ c hc, endsLine_snoc, hd, lineText_snoc t d hd]; simp
    · rw [lineText_snoc _ c (by simpa using hc)]; simp
  put := by
    rintro h t c ⟨jp, hr⟩ _; exact ⟨_, hr.put c⟩
  putPop := by
    rintro h t d c ⟨jp, hr⟩ hd hc
    refine ⟨true, hr.putPop c ?_ (by rw [endsLine_snoc]; exact numEnd_notBreak hd)⟩
    rcases hc with hc | ⟨_, rfl⟩
    · exact hq d c (infix_of_prefix (a := [d]) (b := [c]) t hc) hd
    · decide
  null := by
    rintro h h' t d x1 x2 x3 ⟨jp, hr⟩ hd hp e
    have hin : [d] ++ [x1, x2, x3] <:+: input := infix_of_prefix t hp
    have hb : ∀ c ∈ [x1, x2, x3], isBreak c = false := by
      intro c hc
      simp at hc
      rcases hc with rfl | rfl | rfl
      · exact hw.2 d [] c (List.IsInfix.trans ⟨[], [x2, x3], by simp⟩ hin) hd (by simp)
      · exact hw.2 d [x1] c (List.IsInfix.trans ⟨[], [x3], by simp⟩ hin) hd (by simp)
      · exact hw.2 d [x1, x2] c (List.IsInfix.trans ⟨[], [], by simp⟩ hin) hd (by simp)
    have hdb : isBreak d = false := by rcases hd with rfl | rfl <;> decide
    refine ⟨⟨_, hr.putN [x1, x2, x3, 0] 3 (by simp) (by decide) hb (by rw [endsLine_snoc]; exact hdb) e⟩, ?_⟩
    rw [(lineText_append _ [x1, x2, x3] (by simp) hb).1]; simp
  nullShort := by
    rintro h h' t d short ⟨jp, hr⟩ hd hp hl e
    have hdb : isBreak d = false := by rcases hd with rfl | rfl <;> decide
    have hlen : ((short ++ [0, 0, 0]).take 3).length = 3 := by simp
    have ht : ((short ++ [0, 0, 0]).take 3 ++ [0]).take 3 = short ++ List.replicate (3 - short.length) 0 := by
      rcases short with _ | ⟨_, _ | ⟨_, _ | ⟨_, _⟩⟩⟩ <;> simp at hl ⊢
      all_goals first | rfl | omega
    have hb : ∀ c ∈ short ++ List.replicate (3 - short.length) 0, isBreak c = false := by
      intro c hc
      simp at hc
      rcases hc with hc | ⟨_, rfl⟩
      · obtain ⟨u, v, rfl⟩ := List.append_of_mem hc
        exact hw.2 d u c (by rw [← hp]; exact ⟨t, v, by simp⟩) hd (by simp at hl; omega)
      · decide
    have := hr.putN _ 3 (by simp) (by decide) (by rw [ht]; exact hb) (by rw [endsLine_snoc]; exact hdb) e
    rw [ht, ← List.append_assoc, hp] at this
    exact ⟨_, this⟩
  uni := by
    rintro h h' t x1 x2 x3 x4 ⟨jp, hr⟩ hp e
    have hin : [92, 117] ++ [x1, x2, x3, x4] <:+: input := infix_of_prefix t hp
    have hb : ∀ c ∈ [x1, x2, x3, x4], isBreak c = false := by
      intro c hc
      simp at hc
      rcases hc with rfl | rfl | rfl | rfl
      · exact hw.1 [] c (List.IsInfix.trans ⟨[], [x2, x3, x4], by simp⟩ hin) (by simp)
      · exact hw.1 [x1] c (List.IsInfix.trans ⟨[], [x3, x4], by simp⟩ hin) (by simp)
      · exact hw.1 [x1, x2] c (List.IsInfix.trans ⟨[], [x4], by simp⟩ hin) (by simp)
      · exact hw.1 [x1, x2, x3] c (List.IsInfix.trans ⟨[], [], by simp⟩ hin) (by simp)
    refine ⟨⟨_, hr.putN [x1, x2, x3, x4] 4 (by simp) (by decide) hb ?_ e⟩, ?_⟩
    · rw [show t ++ [92, 117] = t ++ [92] ++ [117] by simp, endsLine_snoc]; decide
    · rw [(lineText_append _ [x1, x2, x3, x4] (by simp) hb).1]; simp
  uniShort := by
    rintro h h' t xs ⟨jp, hr⟩ hp hl e
    have hb : ∀ c ∈ xs, isBreak c = false := by
      intro c hc
      obtain ⟨u, v, rfl⟩ := List.append_of_mem hc
      exact hw.1 u c (by rw [← hp]; exact ⟨t, v, by simp⟩) (by simp at hl; omega)
    have he : endsLine (t ++ [92, 117]) = false := by
      rw [show t ++ [92, 117] = t ++ [92] ++ [117] by simp, endsLine_snoc]; decide
    have := hr.putN xs xs.length (Nat.le_refl _) (by omega) (by rw [List.take_length]; exact hb) he e
    rw [List.take_length, hp] at this
    refine ⟨⟨_, this⟩, ?_⟩
    cases xs with
    | nil =>
      simp at hp
      rw [← hp, show t ++ [92, 117] = t ++ [92] ++ [117] by simp, lineText_snoc _ _ (by decide)]; simp
    | cons x xs =>
      rw [← hp, (lineText_append _ (x :: xs) (by simp) hb).1]; simp

theorem Records.shows {jp : Bool} {h : LHist} {t : Bytes} (hr : Records jp h t) : Shows h t :=
  ⟨hr.line, ⟨keep jp, by cases jp <;> simp [keep], hr.text⟩, hr.col⟩

/-- **C16/C17/C18 in the reader, the part that holds.** On an input in which no line break directly follows a number or boolean
and none is inside a `\u` escape or near an `n`: every exception and every message shows one position of the input, with its
line number, its column (from line two on) and the end of its line; after a successful read the history shows exactly the
position after the bytes that were read. Missing: inputs with such line breaks, where line and context are wrong
(`C17_line_false`), and the column on the first line (`C18_column_false`). -/
theorem C16_context_partial (strict ascii sort : Bool) (surr : Nat → Option Bytes) (junk : List Byte) (n : Nat) (hj : junk.length = 45) (input : Bytes)
    (hq : QuietBreaks input) (hw : WholeWindows input) :
    (∀ e, Model.read (envOf strict ascii sort surr) (St.init junk n input) = .throw e → ∃ t, Shows e.hist t ∧ ReadUpTo input t) ∧
    (∀ r s', Model.read (envOf strict ascii sort surr) (St.init junk n input) = .ret r s' →
      (s'.good = true → ∃ t, Shows s'.hist t ∧ t ++ s'.rest = input) ∧
      ∀ m ∈ s'.warns, ∃ t, Shows m.hist t ∧ ReadUpTo input t) := by
  have h := read_hist (recordsRel input hq hw) (envOf strict ascii sort surr) junk n ⟨false, Records.init junk n hj⟩
  constructor
  · intro e he
    rw [he] at h
    obtain ⟨t, ⟨jp, h1⟩, h2, _⟩ := h
    exact ⟨t, Records.shows h1, h2⟩
  · intro r s' hr
    rw [hr] at h
    refine ⟨fun hg => ?_, fun m hm => ?_⟩
    · obtain ⟨t, ⟨jp, h1⟩, h2, _⟩ := h.good hg
      exact ⟨t, Records.shows h1, h2⟩
    · obtain ⟨t, ⟨jp, h1⟩, h2, _⟩ := h.warns m hm
      exact ⟨t, Records.shows h1, h2⟩

/-- The document `[`, line feed, `"a",`, line feed, `true,`, line feed, `null 5`: it has numbers, booleans, several lines, and an error. -/
def quietDoc : Bytes := b!"[\n\"a\",\ntrue,\nnull 5"

/-- Decides `QuietBreaks` for the adjacent pairs of a text. -/
def quietB : Bytes → Bool
  | a :: b :: r => (!isNumEnd a || !isBreak b) && quietB (b :: r)
  | _ => true

theorem quietB_sound : ∀ {l : Bytes}, quietB l = true → QuietBreaks l := by
  intro l
  induction l with
  | nil => intro _ a b h; have := h.length_le; simp at this
  | cons x l ih =>
    intro hq a b h ha
    cases l with
    | nil => have := h.length_le; simp at this
    | cons y r =>
      simp only [quietB, Bool.and_eq_true, Bool.or_eq_true, Bool.not_eq_true'] at hq
      rw [List.infix_cons_iff] at h
      rcases h with h | h
      · simp at h
        obtain ⟨rfl, rfl⟩ := h
        rcases hq.1 with h1 | h1
        · rw [ha] at h1; simp at h1
        · exact h1
      · exact ih hq.2 a b h ha

/-- Decides `WholeWindows`. -/
def windowsB : Bytes → Bool
  | [] => true
  | c :: r => (if c = 92 ∧ r.head? = some 117 then ((r.drop 1).take 4).all (fun x => !isBreak x) else true) &&
      (if c = 110 ∨ c = 78 then (r.take 3).all (fun x => !isBreak x) else true) && windowsB r

theorem windowsB_sound : ∀ {l : Bytes}, windowsB l = true → WholeWindows l := by
  intro l
  induction l with
  | nil =>
    intro _
    exact ⟨fun w b h => by have := h.length_le; simp at this, fun d w b h => by have := h.length_le; simp at this⟩
  | cons x l ih =>
    intro hq
    simp only [windowsB, Bool.and_eq_true] at hq
    obtain ⟨⟨h1, h2⟩, h3⟩ := hq
    obtain ⟨i1, i2⟩ := ih h3
    constructor
    · intro w b h hl
      rw [List.infix_cons_iff] at h
      rcases h with ⟨t, h⟩ | h
      · simp at h
        obtain ⟨rfl, rfl⟩ := h
        simp at h1
        have : isBreak b = false := h1 b (by
          rw [List.take_append, List.mem_append]
          right
          rw [show 4 - w.length = (3 - w.length) + 1 by omega]
          simp)
        exact this
      · exact i1 w b h hl
    · intro d w b h hd hl
      rw [List.infix_cons_iff] at h
      rcases h with ⟨t, h⟩ | h
      · simp at h
        obtain ⟨rfl, rfl⟩ := h
        rw [if_pos hd] at h2
        simp at h2
        exact h2 b (by
          rw [List.take_append, List.mem_append]
          right
          rw [show 3 - w.length = (2 - w.length) + 1 by omega]
          simp)
      · exact i2 d w b h hd hl

example : QuietBreaks quietDoc ∧ WholeWindows quietDoc ∧
    (∃ e, Model.read (envOf true false true) (St.init (List.replicate 45 0) 0 quietDoc) = .throw e ∧
      decide (e.hist.currentLine = 4 ∧ e.hist.toString = b!"null 5" ∧ e.hist.totalSize = 6) = true) :=
  ⟨quietB_sound (by decide), windowsB_sound (by decide), throws_sound (by decide +kernel)⟩

/-- **C17 does not hold**: a line break directly after a number is counted twice (so is `\r\n`, whatever is before it). Both
errors are on line 2; line 3 is reported. -/
theorem C17_line_false (strict ascii sort : Bool) (surr : Nat → Option Bytes) (junk : List Byte) (n : Nat) :
    (∃ e, Model.read (envOf strict ascii sort surr) (St.init junk n b!"[1\n}") = .throw e ∧ e.hist.currentLine = 3) ∧
    (∃ e, Model.read (envOf strict ascii sort surr) (St.init junk n b!"[\r\n}") = .throw e ∧ e.hist.currentLine = 3) :=
  ⟨⟨_, rfl, rfl⟩, ⟨_, rfl, rfl⟩⟩

/-- Line part of the history. -/
def LineRec (h : LHist) (t : Bytes) : Prop := h.willReset = endsLine t ∧ h.line = lineNumber t

theorem LineRec.put {h : LHist} {t : Bytes} (hr : LineRec h t) (c : Byte) : LineRec (h.put c) (t ++ [c]) := by
  unfold LineRec at *
  rw [endsLine_snoc, lineNumber_snoc']
  unfold LHist.put LHist.flush
  rw [hr.1]
  by_cases he : endsLine t = true <;> by_cases hc : isBreak c = true
  all_goals
    have hc' := hc
    rw [isBreak_iff] at hc'
    simp [he, hc, hc', hr.1, hr.2]

theorem lineRec_append {h : LHist} {t : Bytes} (ht : endsLine t = false) (xs : Bytes) (h13 : ∀ x ∈ xs, x ≠ 13) :
    (endsLine (t ++ xs) = if xs = [] then false else (xs.getLast? == some 10)) ∧ lineNumber (t ++ xs) = lineNumber t + xs.dropLast.count 10 := by
  have hcount : ∀ l : Bytes, (∀ x ∈ l, x ≠ 13) → l.countP isBreak = l.count 10 := by
    intro l hl
    rw [List.count, List.countP_congr]
    intro x hx
    have := hl x hx
    simp [isBreak, this]
  rcases xs.eq_nil_or_concat with rfl | ⟨l, x, rfl⟩
  · simp [ht]
  · rw [List.concat_eq_append] at *
    have hx : x ≠ 13 := h13 x (by simp)
    have hl : ∀ y ∈ l, y ≠ 13 := fun y hy => h13 y (by simp [hy])
    rw [← List.append_assoc, endsLine_snoc, lineNumber_snoc]
    refine ⟨by simp [isBreak, hx]; rfl, ?_⟩
    rw [List.countP_append, hcount l hl]
    have : lineNumber t = 1 + t.countP isBreak := by
      have h1 := lineNumber_snoc t 0
      rw [lineNumber_snoc', ht] at h1
      simpa using h1
    rw [this]
    simp
    omega

/-- The line number through batches, without carriage returns. -/
theorem lineRel (input : Bytes) (hq : QuietBreaks input) (h13 : 13 ∉ input) :
    HistRel input LineRec (fun _ => True) where
  at1 := fun _ _ _ => trivial
  at2 := fun _ _ _ _ => trivial
  put := fun h t c hr _ => hr.put c
  putPop := by
    rintro h t d c hr hd hc
    have hdb : endsLine (t ++ [d]) = false := by rw [endsLine_snoc]; exact numEnd_notBreak hd
    have hcb : isBreak c = false := by
      rcases hc with hc | ⟨_, rfl⟩
      · exact hq d c (infix_of_prefix (a := [d]) (b := [c]) t hc) hd
      · decide
    have hp := hr.put c
    refine ⟨?_, ?_⟩
    · have := hp.1; rw [endsLine_snoc, hcb] at this; rw [hdb]; exact this
    · have := hp.2; rw [lineNumber_snoc', hdb] at this; exact this
  null := by
    rintro h h' t d x1 x2 x3 hr hd hp e
    refine ⟨?_, trivial⟩
    have hdb : endsLine (t ++ [d]) = false := by rw [endsLine_snoc]; rcases hd with rfl | rfl <;> decide
    have hmem : ∀ x ∈ [x1, x2, x3], x ≠ 13 := fun x hx h => h13 (by
      have := hp.subset (List.mem_append_right _ hx); rwa [h] at this)
    obtain ⟨l1, l2⟩ := lineRec_append (h := h) hdb [x1, x2, x3] hmem
    obtain ⟨r1, r2⟩ := hr
    rw [hdb] at r1
    unfold LineRec
    rw [l1, l2, ← r2]
    by_cases h1 : x1 = 10 <;> by_cases h2 : x2 = 10 <;> by_cases h3 : x3 = 10 <;>
      simp [LHist.putN, LHist.putNAux, LHist.findNl, LHist.flush, r1, h1, h2, h3] at e <;> subst e <;> simp [h1, h2, h3, r1, List.count_cons]
  nullShort := by
    rintro h h' t d short hr hd hp hl e
    have hdb : endsLine (t ++ [d]) = false := by rw [endsLine_snoc]; rcases hd with rfl | rfl <;> decide
    have hmem : ∀ x ∈ short ++ List.replicate (3 - short.length) 0, x ≠ 13 := by
      intro x hx h
      subst h
      simp at hx
      exact h13 (by rw [← hp]; simp [hx])
    obtain ⟨l1, l2⟩ := lineRec_append (h := h) hdb _ hmem
    obtain ⟨r1, r2⟩ := hr
    rw [hdb] at r1
    unfold LineRec
    rw [← hp, List.append_assoc (t ++ [d]), l1, l2, ← r2]
    rcases short with _ | ⟨a, _ | ⟨b, _ | ⟨c, l⟩⟩⟩
    · simp [LHist.putN, LHist.putNAux, LHist.findNl, LHist.flush, r1] at e
      subst e
      simp [r1]
    · by_cases h1 : a = 10 <;> simp [LHist.putN, LHist.putNAux, LHist.findNl, LHist.flush, r1, h1] at e <;> subst e <;>
        simp [h1, r1, List.count_cons, List.replicate_succ]
    · by_cases h1 : a = 10 <;> by_cases h2 : b = 10 <;> simp [LHist.putN, LHist.putNAux, LHist.findNl, LHist.flush, r1, h1, h2] at e <;> subst e <;>
        simp [h1, h2, r1, List.count_cons]
    · simp at hl
      omega
  uni := by
    rintro h h' t x1 x2 x3 x4 hr hp e
    refine ⟨?_, trivial⟩
    have hdb : endsLine (t ++ [92, 117]) = false := by
      rw [show t ++ [92, 117] = t ++ [92] ++ [117] by simp, endsLine_snoc]; decide
    have hmem : ∀ x ∈ [x1, x2, x3, x4], x ≠ 13 := fun x hx h => h13 (by
      have := hp.subset (List.mem_append_right _ hx); rwa [h] at this)
    obtain ⟨l1, l2⟩ := lineRec_append (h := h) hdb [x1, x2, x3, x4] hmem
    obtain ⟨r1, r2⟩ := hr
    rw [hdb] at r1
    unfold LineRec
    rw [l1, l2, ← r2]
    by_cases h1 : x1 = 10 <;> by_cases h2 : x2 = 10 <;> by_cases h3 : x3 = 10 <;> by_cases h4 : x4 = 10 <;>
      simp [LHist.putN, LHist.putNAux, LHist.findNl, LHist.flush, r1, h1, h2, h3, h4] at e <;> subst e <;>
      simp [h1, h2, h3, h4, r1]
  uniShort := by
    rintro h h' t xs hr hp hl e
    refine ⟨?_, trivial⟩
    have hdb : endsLine (t ++ [92, 117]) = false := by
      rw [show t ++ [92, 117] = t ++ [92] ++ [117] by simp, endsLine_snoc]; decide
    have hmem : ∀ x ∈ xs, x ≠ 13 := fun x hx h => h13 (by rw [← hp, ← h]; simp [hx])
    obtain ⟨l1, l2⟩ := lineRec_append (h := h) hdb xs hmem
    obtain ⟨r1, r2⟩ := hr
    rw [hdb] at r1
    unfold LineRec
    rw [← hp, l1, l2, ← r2]
    rcases xs with _ | ⟨a, _ | ⟨b, _ | ⟨c, _ | ⟨d, l⟩⟩⟩⟩
    · simp [LHist.putN, LHist.putNAux, LHist.findNl, LHist.flush, r1] at e
      subst e
      simp [r1]
    · by_cases h1 : a = 10 <;> simp [LHist.putN, LHist.putNAux, LHist.findNl, LHist.flush, r1, h1] at e <;> subst e <;> simp [h1, r1]
    · by_cases h1 : a = 10 <;> by_cases h2 : b = 10 <;> simp [LHist.putN, LHist.putNAux, LHist.findNl, LHist.flush, r1, h1, h2] at e <;> subst e <;>
        simp [h1, h2, r1]
    · by_cases h1 : a = 10 <;> by_cases h2 : b = 10 <;> by_cases h3 : c = 10 <;>
        simp [LHist.putN, LHist.putNAux, LHist.findNl, LHist.flush, r1, h1, h2, h3] at e <;> subst e <;> simp [h1, h2, h3, r1]
    · simp at hl
      omega

/-- **C17, the part that holds.** On an input without carriage returns in which no line feed directly follows a number or
boolean, the line number of every exception and message is that of a position up to which the input was read (one plus the line
feeds before that byte), and after a successful read it is exactly that of the last byte read. -/
theorem C17_line_partial (strict ascii sort : Bool) (surr : Nat → Option Bytes) (junk : List Byte) (n : Nat) (input : Bytes)
    (hq : QuietBreaks input) (h13 : c%'\r' ∉ input) :
    (∀ e, Model.read (envOf strict ascii sort surr) (St.init junk n input) = .throw e →
      ∃ t, ReadUpTo input t ∧ e.hist.currentLine = lineNumber t) ∧
    (∀ r s', Model.read (envOf strict ascii sort surr) (St.init junk n input) = .ret r s' →
      (s'.good = true → ∃ t, t ++ s'.rest = input ∧ s'.hist.currentLine = lineNumber t) ∧
      ∀ m ∈ s'.warns, ∃ t, ReadUpTo input t ∧ m.hist.currentLine = lineNumber t) := by
  have h := read_hist (lineRel input hq h13) (envOf strict ascii sort surr) junk n ⟨rfl, rfl⟩
  constructor
  · intro e he
    rw [he] at h
    obtain ⟨t, h1, h2, _⟩ := h
    exact ⟨t, h2, h1.2⟩
  · intro r s' hr
    rw [hr] at h
    refine ⟨fun hg => ?_, fun m hm => ?_⟩
    · obtain ⟨t, h1, h2, _⟩ := h.good hg
      exact ⟨t, h2, h1.2⟩
    · obtain ⟨t, h1, h2, _⟩ := h.warns m hm
      exact ⟨t, h2, h1.2⟩

example : QuietBreaks b!"{\n\"on\" : tru,\n\"x\"" ∧ 13 ∉ b!"{\n\"on\" : tru,\n\"x\"" := ⟨quietB_sound (by decide), by decide⟩

/-- **C18 does not hold**: on the first line the reported column starts from an uninitialised number. -/
theorem C18_column_false (strict ascii sort : Bool) (surr : Nat → Option Bytes) (junk : List Byte) (col : Nat) (hc : col < 4294967296) :
    ∃ n, n < 4294967296 ∧ ∃ e, Model.read (envOf strict ascii sort surr) (St.init junk n b!"[}") = .throw e ∧ e.hist.totalSize = col := by
  have main : ∀ n, ∃ e, Model.read (envOf strict ascii sort surr) (St.init junk n b!"[}") = .throw e ∧
      e.hist.totalSize = ((n + 1) % 4294967296 + 1) % 4294967296 := fun n => ⟨_, rfl, rfl⟩
  obtain ⟨e, h1, h2⟩ := main ((col + 4294967294) % 4294967296)
  refine ⟨(col + 4294967294) % 4294967296, by omega, e, h1, ?_⟩
  rw [h2]
  omega

/-- **C18, the part that holds**: from the second line on the column of every exception is the number of bytes of that line up to
the error (modulo `2^32`), on the inputs of `C16_context_partial`. Missing: the first line, and the other inputs. -/
theorem C18_column_partial (strict ascii sort : Bool) (surr : Nat → Option Bytes) (junk : List Byte) (n : Nat) (hj : junk.length = 45) (input : Bytes)
    (hq : QuietBreaks input) (hw : WholeWindows input) (e : Exn)
    (he : Model.read (envOf strict ascii sort surr) (St.init junk n input) = .throw e) :
    ∃ t, ReadUpTo input t ∧ e.hist.currentLine = lineNumber t ∧
      (2 ≤ lineNumber t → e.hist.totalSize = (lineText t).length % 4294967296) := by
  obtain ⟨t, ⟨h1, _, h3⟩, h2⟩ := (C16_context_partial strict ascii sort surr junk n hj input hq hw).1 e he
  exact ⟨t, h2, h1, h3⟩

/-- **C19 does not hold.** Displaying an error runs into undefined behaviour for every missing `:` or `]` and for every unknown
escape, and dies with `std::length_error` when the history is empty, as it is for a number between two line breaks where a key
should be. -/
theorem C19_display_false (ascii sort : Bool) (surr : Nat → Option Bytes) (junk : List Byte) (n : Nat) :
    (∀ strict, ∃ e, Model.read (envOf strict ascii sort surr) (St.init junk n b!"[1 2]") = .throw e ∧ displayException e = .ub) ∧
    (∃ e, Model.read (envOf true ascii sort surr) (St.init junk n b!"[\"\\x\"]") = .throw e ∧ displayException e = .ub) ∧
    (∀ strict, ∃ e, Model.read (envOf strict ascii sort surr) (St.init junk n b!"{\n5\n}") = .throw e ∧ displayException e = .lengthError) :=
  ⟨fun _ => ⟨_, rfl, rfl⟩, ⟨_, rfl, rfl⟩, fun _ => ⟨_, rfl, rfl⟩⟩

/-- **C19, the part that holds.** On the inputs of `C16_context_partial` the history of every exception is not empty, so displaying it
works (for the exceptions whose text is well defined) and underlines up to the last character shown. Missing: the exceptions
"expected c" and "unexpected escaped char", and inputs with line breaks directly after numbers. -/
theorem C19_display_partial (strict ascii sort : Bool) (surr : Nat → Option Bytes) (junk : List Byte) (n : Nat) (hj : junk.length = 45) (input : Bytes)
    (hq : QuietBreaks input) (hw : WholeWindows input) (e : Exn)
    (he : Model.read (envOf strict ascii sort surr) (St.init junk n input) = .throw e) :
    e.hist.toString ≠ [] ∧
    ((∀ c, e.kind ≠ .unexpected c) → (∀ c, e.kind ≠ .escaped c) →
      ∃ what, displayException e = .shown e.hist.currentLine e.hist.totalSize what e.hist.toString (e.hist.toString.length - 1)) := by
  have h := read_hist (recordsRel input hq hw) (envOf strict ascii sort surr) junk n ⟨false, Records.init junk n hj⟩
  rw [he] at h
  obtain ⟨t, ⟨jp, h1⟩, _, h3⟩ := h
  have hne : e.hist.toString ≠ [] := by
    rw [h1.text]
    intro h0
    have h4 := congrArg List.length h0
    have h5 : 0 < (lineText t).length := List.length_pos_iff.mpr h3
    simp only [lastN, List.length_drop, List.length_nil, keep] at h4
    split at h4 <;> omega
  refine ⟨hne, fun hu hes => ?_⟩
  have hlen : e.hist.toString.length ≠ 0 := by simpa using hne
  unfold displayException
  cases hk : e.kind with
  | unexpected c => exact absurd hk (hu c)
  | escaped c => exact absurd hk (hes c)
  | _ => exact ⟨_, by simp only [message, if_neg hlen]; rfl⟩

/-- **C20 does not hold**: a line feed inside a `\u` escape makes the history read outside the four bytes it was given. -/
theorem C20_history_bounds_false (h : LHist) : h.putN [c%'1', c%'\n', c%'2', c%'3'] 4 = none := by
  simp [LHist.putN, LHist.putNAux, LHist.findNl]

/-- **C20, the part that holds.** Recording a batch without a line feed stays inside the memory given (and appends exactly the batch);
a reader run that reads outside has a line feed inside a `\u` escape, or two of them among the three bytes after an `n`. -/
theorem C20_history_bounds_partial :
    (∀ (h : LHist) (mem : Bytes) (count : Nat), count ≤ mem.length → c%'\n' ∉ mem.take count →
      h.putN mem count = some { h.flush with buf := h.flush.buf.putN (mem.take count) }) ∧
    (∀ (strict ascii sort : Bool) (surr : Nat → Option Bytes) (junk : List Byte) (n : Nat) (input : Bytes),
      (∀ w, w.length ≤ 2 → ¬ b!"\\u" ++ w ++ b!"\n" <:+: input) →
      (∀ d w1 w2, (d = c%'n' ∨ d = c%'N') → w1.length + w2.length ≤ 1 → ¬ [d] ++ w1 ++ b!"\n" ++ w2 ++ b!"\n" <:+: input) →
      Model.read (envOf strict ascii sort surr) (St.init junk n input) ≠ .ub .historyOutOfBounds) := by
  refine ⟨fun h mem count hc hn => putN_plain h mem count hc (fun c hcm h10 => hn (h10 ▸ hcm)), ?_⟩
  intro strict ascii sort surr junk n input h1 h2 hr
  rcases (C10_no_crash_partial strict ascii sort surr junk n input).2.2.2.1 hr with ⟨w, g, hl⟩ | ⟨d, w1, w2, hd, g, hl⟩
  · exact h1 w hl g
  · exact h2 d w1 w2 hd hl g

end Verif.Props
