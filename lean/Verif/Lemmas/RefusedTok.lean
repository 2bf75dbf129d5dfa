import Verif.Lemmas.AcceptedTok
import Verif.Spec.Refused
/-!
# Lemmas: the tokens that end the reader
-/
namespace Verif.Lemmas
open Verif.Model Verif.Spec Verif.Spec.Accepted Verif.Spec.Refused

/-- Why a run ended without a result. -/
def why {α : Type} : Out α → Option Reason
  | .throw e => some (.error e.kind)
  | .uncaught u => some (.uncaught u)
  | .ub u => some (.undefined u)
  | .ret _ _ => none
  | .fuel => none

theorem why_bind {α β : Type} {o : Out α} {f : α → St → Out β} {r : Reason} (h : why (o.bind f) = some r) :
    why o = some r ∨ ∃ a s, o = .ret a s ∧ why (f a s) = some r := by
  cases o with
  | ret a s => exact Or.inr ⟨a, s, rfl, h⟩
  | _ => exact Or.inl h

theorem bind_why {α β : Type} {o : Out α} {r : Reason} (f : α → St → Out β) (h : why o = some r) : why (o.bind f) = some r := by
  cases o with
  | ret a s => cases h
  | _ => exact h

/-! ### The history -/

theorem putN_four (hist : LHist) (x1 x2 x3 x4 : Byte) : hist.putN [x1, x2, x3, x4] 4 = none ↔ 10 ∈ [x1, x2, x3] := by
  unfold LHist.putN
  by_cases h1 : x1 = 10 <;> by_cases h2 : x2 = 10 <;> by_cases h3 : x3 = 10 <;> by_cases h4 : x4 = 10 <;>
    simp [LHist.putNAux, LHist.findNl, h1, h2, h3, h4] <;> omega

theorem putN_null (hist : LHist) (x1 x2 x3 : Byte) : hist.putN [x1, x2, x3, 0] 3 = none ↔ 2 ≤ [x1, x2, x3].count 10 := by
  unfold LHist.putN
  by_cases h1 : x1 = 10 <;> by_cases h2 : x2 = 10 <;> by_cases h3 : x3 = 10 <;>
    simp [LHist.putNAux, LHist.findNl, h1, h2, h3] <;> omega

theorem putN_cut (hist : LHist) (z : Bytes) (hz : z.length ≤ 3) : hist.putN z z.length = none ↔ 10 ∈ z.dropLast := by
  unfold LHist.putN
  rcases z with _ | ⟨x1, _ | ⟨x2, _ | ⟨x3, _ | ⟨x4, z⟩⟩⟩⟩
  · simp [LHist.putNAux, LHist.findNl]
  · by_cases h1 : x1 = 10 <;> simp [LHist.putNAux, LHist.findNl, h1]
  · by_cases h1 : x1 = 10 <;> by_cases h2 : x2 = 10 <;> simp [LHist.putNAux, LHist.findNl, h1, h2] <;> omega
  · by_cases h1 : x1 = 10 <;> by_cases h2 : x2 = 10 <;> by_cases h3 : x3 = 10 <;> simp [LHist.putNAux, LHist.findNl, h1, h2, h3] <;> omega
  · simp at hz

theorem putN_pad (hist : LHist) (z : Bytes) (hz : z.length ≤ 2) : hist.putN ((z ++ [0, 0, 0]).take 3 ++ [0]) 3 = none ↔ 2 ≤ z.count 10 := by
  rcases z with _ | ⟨x1, _ | ⟨x2, _ | ⟨x3, z⟩⟩⟩
  · simp [putN_null]
  · simp [putN_null, List.count_cons]
  · simp [putN_null, List.count_cons]
  · simp at hz

/-! ### Strings -/

/-- The place of the mistake in a string. -/
def InString (m : Mode) (rest : Bytes) (P : Bytes → Prop) : Prop := ∃ t v ws y, rest = t ++ y ∧ Chars m t v ws ∧ P y

theorem InString.step {m : Mode} {rest : Bytes} {P : Bytes → Prop} (x : Bytes) {a : Bytes} {e0 : List ExnKind} (h : InString m rest P)
    (hc : ∀ t v ws, Chars m t v ws → Chars m (x ++ t) (a ++ v) (e0 ++ ws)) : InString m (x ++ rest) P := by
  obtain ⟨t, v, ws, y, h1, h2, h3⟩ := h
  exact ⟨x ++ t, a ++ v, e0 ++ ws, y, by rw [h1, List.append_assoc], hc _ _ _ h2, h3⟩

theorem InString.step0 {m : Mode} {rest : Bytes} {P : Bytes → Prop} (x : Bytes) {a : Bytes} (h : InString m rest P)
    (hc : ∀ t v ws, Chars m t v ws → Chars m (x ++ t) (a ++ v) ws) : InString m (x ++ rest) P := h.step (e0 := []) x hc

theorem InString.here {m : Mode} {y : Bytes} {P : Bytes → Prop} (h : P y) : InString m y P := ⟨[], [], [], y, rfl, .nil, h⟩

theorem short_of {rest : Bytes} (h : ∀ (x1 x2 x3 x4 : Byte) (r : Bytes), rest = x1 :: x2 :: x3 :: x4 :: r → False) : rest.length ≤ 3 := by
  rcases rest with _ | ⟨x1, _ | ⟨x2, _ | ⟨x3, _ | ⟨x4, r⟩⟩⟩⟩ <;> simp
  exact h _ _ _ _ _ rfl

theorem hexWord_found {h1 h2 h3 h4 c : Byte} : hexWord 0 [h1, h2, h3, h4] = .inl c ↔ [h1, h2, h3, h4].find? (fun h => (hexDigit h).isNone) = some c := by
  simp only [hexWord, hexByte_eq, List.find?]
  cases e1 : hexDigit h1 <;> cases e2 : hexDigit h2 <;> cases e3 : hexDigit h3 <;> cases e4 : hexDigit h4 <;> simp

/-- What a string that was not read looks like. -/
def StrOut (m : Mode) (rest : Bytes) (o : Out Tok) : Prop :=
  (∀ r, why o = some r → InString m rest (BadItem m · r)) ∧ (∀ s, o = .ret .nothing s → s.rest = [] ∧ s.good = false ∧ InString m rest (EndItem m))

theorem StrOut.step {m : Mode} {rest : Bytes} {o : Out Tok} (x : Bytes) {a : Bytes} {e0 : List ExnKind} (h : StrOut m rest o)
    (hc : ∀ t v ws, Chars m t v ws → Chars m (x ++ t) (a ++ v) (e0 ++ ws)) : StrOut m (x ++ rest) o :=
  ⟨fun r hr => (h.1 r hr).step x hc, fun s hs => ⟨(h.2 s hs).1, (h.2 s hs).2.1, (h.2 s hs).2.2.step x hc⟩⟩

theorem StrOut.step0 {m : Mode} {rest : Bytes} {o : Out Tok} (x : Bytes) {a : Bytes} (h : StrOut m rest o)
    (hc : ∀ t v ws, Chars m t v ws → Chars m (x ++ t) (a ++ v) ws) : StrOut m (x ++ rest) o := h.step (e0 := []) x hc

theorem StrOut.bad {m : Mode} {rest : Bytes} {o : Out Tok} {r : Reason} (h : why o = some r) (hb : BadItem m rest r) : StrOut m rest o := by
  refine ⟨fun r' hr => ?_, fun s hs => by rw [hs] at h; cases h⟩
  rw [h] at hr; cases hr
  exact .here hb

theorem StrOut.fin {m : Mode} {rest : Bytes} {h : LHist} {ws : List Exn} (hb : EndItem m rest) : StrOut m rest (.ret .nothing ⟨[], false, h, ws⟩) :=
  ⟨fun r hr => (by cases hr), fun s hs => (by cases hs; exact ⟨rfl, rfl, .here hb⟩)⟩

theorem chars_out (m : Mode) (rest : Bytes) (hist : LHist) (warns : List Exn) (acc : Bytes) : StrOut m rest (stringLoop (envM m) rest hist warns acc) := by
  fun_induction stringLoop (envM m) rest hist warns acc with
  | case1 => exact .fin .here
  | case2 => exact ⟨fun r hr => (by cases hr), fun s hs => by cases hs⟩
  | case3 => exact .bad rfl (.escapeEnd ‹(envM m).strictAnd = true›)
  | case4 => exact .fin (.backslash (by have h := ‹¬ (envM m).strictAnd = true›; simpa [envM, Env.strictAnd] using h))
  | case5 hist warns acc e rest he h1 h2 h3 ih => exact ih.step0 [92, e] fun t v ws hc => .esc (by simp; omega) hc
  | case6 hist warns acc rest ha h1 h2 h3 h4 ih => exact ih.step0 [92, 117] fun t v ws hc => .uniAscii ha hc
  | case7 hist warns acc ha x1 x2 x3 x4 rest h1 h2 h3 h4 h5 =>
    exact .bad rfl (.hexBreak (y := rest) (by simpa [envM, Env.ascii] using ha) ((putN_four _ _ _ _ _).mp ‹_›))
  | case8 hist warns acc ha x1 x2 x3 x4 rest hist2 c hc =>
    refine .bad rfl (.hex (y := rest) (by simpa [envM, Env.ascii] using ha) (fun hm => ?_) (hexWord_found.mp hc))
    have h := ‹LHist.putN _ [x1, x2, x3, x4] 4 = some hist2›
    rw [(putN_four _ _ _ _ _).mpr hm] at h; cases h
  | case9 hist warns acc ha x1 x2 x3 x4 rest hist2 n hn hb =>
    obtain ⟨k1, k2⟩ := hexWord_good hn
    exact .bad rfl (.half (y := rest) (by simpa [envM, Env.ascii] using ha) k1 (by rw [← toBytes_encoded m k2]; exact hb))
  | case10 hist warns acc ha x1 x2 x3 x4 rest hist2 n hn bs hb h1 h2 h3 h4 h5 ih =>
    obtain ⟨k1, k2⟩ := hexWord_good hn
    refine ih.step0 (a := bs) [92, 117, x1, x2, x3, x4] fun t v ws hc => ?_
    exact .uni (by simpa [envM, Env.ascii] using ha) k1 (by rw [← toBytes_encoded m k2]; exact hb) hc
  | case11 hist warns acc ha rest hs =>
    have hz := short_of (rest := rest) fun x1 x2 x3 x4 r e => hs x1 x2 x3 x4 r e
    exact .bad rfl (.cutBreak (by simpa [envM, Env.ascii] using ha) hz ((putN_cut _ _ hz).mp ‹_›))
  | case12 hist warns acc ha rest hs hist2 =>
    have hz := short_of (rest := rest) fun x1 x2 x3 x4 r e => hs x1 x2 x3 x4 r e
    refine .fin (.uni (by simpa [envM, Env.ascii] using ha) hz fun hm => ?_)
    have h := ‹LHist.putN _ rest _ = some hist2›
    rw [(putN_cut _ _ hz).mpr hm] at h; cases h
  | case13 hist warns acc e rest h1 h2 h3 h4 h5 h6 ih => exact ih.step0 [92, e] fun t v ws hc => .ctl (by simp; omega) hc
  | case14 hist warns acc e rest h1 h2 h3 h4 h5 h6 h7 => exact .bad rfl (.escape (y := rest) (by simpa [envM, Env.strictAnd] using h4) (by simp; omega))
  | case15 hist warns acc e rest h1 h2 h3 h4 h5 h6 h7 ih =>
    exact ih.step [92, e] (e0 := [.escaped e]) fun t v ws hc => .other (by simpa [envM, Env.strictAnd] using h4) (by simp; omega) hc
  | case16 c rest hist warns acc h1 h2 h3 ih => exact ih.step0 [c] fun t v ws hc => .raw h2 h3 hc

/-- The items of a string before any place. -/
theorem chars_run {m : Mode} {t v : Bytes} {ws : List ExnKind} (h : Chars m t v ws) : ∀ (rest : Bytes) (hist : LHist) (warns : List Exn) (acc : Bytes),
    ∃ hist' es, es.map Exn.kind = ws ∧ stringLoop (envM m) (t ++ rest) hist warns acc = stringLoop (envM m) rest hist' (warns ++ es) (acc ++ v) := by
  induction h with
  | nil => intro rest hist warns acc; exact ⟨hist, [], rfl, by simp⟩
  | @raw c t v ws h1 h2 _ ih =>
    intro rest hist warns acc
    obtain ⟨h', es, k1, k2⟩ := ih rest (hist.put c) warns (acc ++ [c])
    exact ⟨h', es, k1, by rw [List.append_assoc, List.singleton_append, stringLoop.eq_def]; simp only [if_neg h1, if_neg h2]; rw [k2, List.append_assoc]⟩
  | @esc c t v ws h1 _ ih =>
    intro rest hist warns acc
    obtain ⟨h', es, k1, k2⟩ := ih rest ((hist.put 92).put c) warns (acc ++ [c])
    refine ⟨h', es, k1, ?_⟩
    rw [show [92, c] ++ t ++ rest = 92 :: c :: (t ++ rest) by simp, stringLoop.eq_def]
    simp at h1
    dsimp only
    rw [if_neg (by decide), if_pos rfl, if_pos (by omega), k2, List.append_assoc]
  | @ctl c t v ws h1 _ ih =>
    intro rest hist warns acc
    obtain ⟨h', es, k1, k2⟩ := ih rest ((hist.put 92).put c) warns (acc ++ [92, c])
    refine ⟨h', es, k1, ?_⟩
    rw [show [92, c] ++ t ++ rest = 92 :: c :: (t ++ rest) by simp, stringLoop.eq_def]
    simp at h1
    dsimp only
    rw [if_neg (by decide), if_pos rfl, if_neg (by omega), if_neg (by omega), if_pos (by omega), k2, List.append_assoc]
  | @uni x1 x2 x3 x4 n bs t v ws ha hv hb _ ih =>
    intro rest hist warns acc
    obtain ⟨k1, k2⟩ := hexWord_value hv
    obtain ⟨a, b, c, d, e1, e2, e3, e4, -⟩ := hexValue_some hv
    obtain ⟨hp, hpe⟩ := putN_some ((hist.put 92).put 117) [x1, x2, x3, x4] 4 (by simp) (by
      have := hexDigit_lt e1; have := hexDigit_lt e2; have := hexDigit_lt e3; have := hexDigit_lt e4
      simp; omega)
    obtain ⟨h', es, k3, k4⟩ := ih rest hp warns (acc ++ bs)
    refine ⟨h', es, k3, ?_⟩
    rw [show b!"\\u" ++ [x1, x2, x3, x4] ++ t ++ rest = 92 :: 117 :: x1 :: x2 :: x3 :: x4 :: (t ++ rest) by simp, stringLoop.eq_def]
    dsimp only
    rw [if_neg (by decide), if_pos rfl, if_neg (by decide), if_pos rfl, if_neg (by simp [envM, Env.ascii, ha]), hpe]
    dsimp only
    rw [k1]
    dsimp only
    rw [show (envM m).surr = m.half from rfl, toBytes_encoded m k2, hb]
    dsimp only
    rw [k4, List.append_assoc]
  | @uniAscii t v ws ha _ ih =>
    intro rest hist warns acc
    obtain ⟨h', es, k1, k2⟩ := ih rest ((hist.put 92).put 117) warns (acc ++ [92, 117])
    refine ⟨h', es, k1, ?_⟩
    rw [show b!"\\u" ++ t ++ rest = 92 :: 117 :: (t ++ rest) by simp, stringLoop.eq_def]
    dsimp only
    rw [if_neg (by decide), if_pos rfl, if_neg (by decide), if_pos rfl, if_pos (by simp [envM, Env.ascii, ha]), k2, List.append_assoc]
  | @other c t v ws hs h1 _ ih =>
    intro rest hist warns acc
    obtain ⟨h', es, k1, k2⟩ := ih rest ((hist.put 92).put c) (warns ++ [⟨.escaped c, (hist.put 92).put c⟩]) (acc ++ [92, c])
    refine ⟨h', ⟨.escaped c, (hist.put 92).put c⟩ :: es, by simp [k1], ?_⟩
    rw [show [92, c] ++ t ++ rest = 92 :: c :: (t ++ rest) by simp, stringLoop.eq_def]
    simp at h1
    dsimp only
    rw [if_neg (by decide), if_pos rfl, if_neg (by omega), if_neg (by omega), if_neg (by omega), if_neg (by simp [envM, Env.strictAnd, hs]), k2, List.append_assoc]
    simp

theorem bad_item {m : Mode} {y : Bytes} {r : Reason} (h : BadItem m y r) (hist : LHist) (warns : List Exn) (acc : Bytes) : why (stringLoop (envM m) y hist warns acc) = some r := by
  cases h with
  | @escape c y hs hc =>
    simp at hc
    rw [show [92, c] ++ y = 92 :: c :: y from rfl, stringLoop.eq_def]
    dsimp only
    rw [if_neg (by decide), if_pos rfl, if_neg (by omega), if_neg (by omega), if_neg (by omega), if_pos (by simp [envM, Env.strictAnd, hs])]
    rfl
  | escapeEnd hs =>
    rw [stringLoop.eq_def]
    dsimp only
    rw [if_neg (by decide), if_pos rfl, if_pos (by simp [envM, Env.strictAnd, hs])]
    rfl
  | @hex x1 x2 x3 x4 c y ha hn hf =>
    rw [show b!"\\u" ++ [x1, x2, x3, x4] ++ y = 92 :: 117 :: x1 :: x2 :: x3 :: x4 :: y by simp, stringLoop.eq_def]
    dsimp only
    rw [if_neg (by decide), if_pos rfl, if_neg (by decide), if_pos rfl, if_neg (by simp [envM, Env.ascii, ha])]
    cases hp : ((hist.put 92).put 117).putN [x1, x2, x3, x4] 4 with
    | none => exact absurd ((putN_four _ _ _ _ _).mp hp) hn
    | some h' =>
      dsimp only
      rw [hexWord_found.mpr hf]
      rfl
  | @hexBreak x1 x2 x3 x4 y ha hn =>
    rw [show b!"\\u" ++ [x1, x2, x3, x4] ++ y = 92 :: 117 :: x1 :: x2 :: x3 :: x4 :: y by simp, stringLoop.eq_def]
    dsimp only
    rw [if_neg (by decide), if_pos rfl, if_neg (by decide), if_pos rfl, if_neg (by simp [envM, Env.ascii, ha]), (putN_four _ _ _ _ _).mpr hn]
    rfl
  | @cutBreak z ha hz hn =>
    rw [show b!"\\u" ++ z = 92 :: 117 :: z by simp, stringLoop.eq_def]
    dsimp only
    rw [if_neg (by decide), if_pos rfl, if_neg (by decide), if_pos rfl, if_neg (by simp [envM, Env.ascii, ha])]
    split
    · simp at hz
    · rw [(putN_cut _ _ hz).mpr hn]; rfl
  | @half x1 x2 x3 x4 n y ha hv hb =>
    obtain ⟨k1, k2⟩ := hexWord_value hv
    obtain ⟨a, b, c, d, e1, e2, e3, e4, -⟩ := hexValue_some hv
    obtain ⟨hp, hpe⟩ := putN_some ((hist.put 92).put 117) [x1, x2, x3, x4] 4 (by simp) (by
      have := hexDigit_lt e1; have := hexDigit_lt e2; have := hexDigit_lt e3; have := hexDigit_lt e4
      simp; omega)
    rw [show b!"\\u" ++ [x1, x2, x3, x4] ++ y = 92 :: 117 :: x1 :: x2 :: x3 :: x4 :: y by simp, stringLoop.eq_def]
    dsimp only
    rw [if_neg (by decide), if_pos rfl, if_neg (by decide), if_pos rfl, if_neg (by simp [envM, Env.ascii, ha]), hpe]
    dsimp only
    rw [k1]
    dsimp only
    rw [show (envM m).surr = m.half from rfl, toBytes_encoded m k2, hb]
    rfl

theorem end_item {m : Mode} {y : Bytes} (h : EndItem m y) (hist : LHist) (warns : List Exn) (acc : Bytes) :
    ∃ h' ws, stringLoop (envM m) y hist warns acc = .ret .nothing ⟨[], false, h', ws⟩ := by
  cases h with
  | here => exact ⟨_, _, by rw [stringLoop.eq_def]⟩
  | backslash hs =>
    rw [stringLoop.eq_def]
    dsimp only
    rw [if_neg (by decide), if_pos rfl, if_neg (by simp [envM, Env.strictAnd, hs])]
    exact ⟨_, _, rfl⟩
  | @uni z ha hz hn =>
    rw [show b!"\\u" ++ z = 92 :: 117 :: z by simp, stringLoop.eq_def]
    dsimp only
    rw [if_neg (by decide), if_pos rfl, if_neg (by decide), if_pos rfl, if_neg (by simp [envM, Env.ascii, ha])]
    split
    · simp at hz
    · cases hp : ((hist.put 92).put 117).putN z z.length with
      | none => exact absurd ((putN_cut _ _ hz).mp hp) hn
      | some h' => exact ⟨h', _, rfl⟩

/-! ### Literal names -/

theorem boolEnd_kind (m : Mode) (s : St) (c : Byte) (lower raw : Bytes) :
    (∃ e, boolEnd (envM m) s c lower raw = .throw e ∧ e.kind = .format) ∨ ∃ b s', boolEnd (envM m) s c lower raw = .ret (.val (.bool b)) s' := by
  unfold boolEnd
  by_cases h1 : lower ≠ b!"true" ∧ lower ≠ b!"false"
  · rw [if_pos h1]; exact Or.inl ⟨_, rfl, rfl⟩
  rw [if_neg h1, if_neg (by simp [envM])]
  by_cases h2 : lower ≠ raw ∧ (envM m).strictAnd = true
  · rw [if_pos h2]; exact Or.inl ⟨_, rfl, rfl⟩
  rw [if_neg h2]
  exact Or.inr ⟨_, _, rfl⟩

theorem boolLoop_kind (m : Mode) (fl : Byte) : ∀ (rest : Bytes) (hist : LHist) (warns : List Exn) (lower raw : Bytes),
    (∃ e, boolLoop (envM m) fl rest hist warns lower raw = .throw e ∧ e.kind = .format) ∨ ∃ b s', boolLoop (envM m) fl rest hist warns lower raw = .ret (.val (.bool b)) s' := by
  intro rest
  induction rest with
  | nil => intro hist warns lower raw; rw [boolLoop]; exact boolEnd_kind _ _ _ _ _
  | cons c rest ih =>
    intro hist warns lower raw
    rw [boolLoop]
    by_cases hc : isBoolLetter (toLower c) = true
    · rw [if_pos hc]
      split
      · exact Or.inl ⟨_, rfl, rfl⟩
      · exact ih _ _ _ _
    · rw [if_neg hc]; exact boolEnd_kind _ _ _ _ _

/-- A text begins with a run of letters. -/
theorem run_split (cs : Bytes) (x : Bytes) : ∃ u rest, x = u ++ rest ∧ (∀ c ∈ u, c ∈ cs) ∧ NotNext cs rest := by
  induction x with
  | nil => exact ⟨[], [], rfl, by simp, fun c r e => by cases e⟩
  | cons c x ih =>
    by_cases hc : c ∈ cs
    · obtain ⟨u, rest, h1, h2, h3⟩ := ih
      exact ⟨c :: u, rest, by rw [h1]; rfl, by simpa using ⟨hc, h2⟩, h3⟩
    · exact ⟨[], c :: x, rfl, by simp, fun d r e => by cases e; exact hc⟩

theorem run_unique {cs : Bytes} : ∀ {u u' rest rest' : Bytes}, u ++ rest = u' ++ rest' → (∀ c ∈ u, c ∈ cs) → (∀ c ∈ u', c ∈ cs) → NotNext cs rest → NotNext cs rest' → u = u' := by
  intro u
  induction u with
  | nil =>
    intro u' rest rest' h _ h2 h3 _
    cases u' with
    | nil => rfl
    | cons c u' => exact absurd (h2 c (by simp)) (h3 c _ h)
  | cons c u ih =>
    intro u' rest rest' h h1 h2 h3 h4
    cases u' with
    | nil => exact absurd (h1 c (by simp)) (h4 c _ h.symm)
    | cons d u' =>
      simp only [List.cons_append, List.cons.injEq] at h
      rw [h.1, ih h.2 (fun x hx => h1 x (by simp [hx])) (fun x hx => h2 x (by simp [hx])) h3 h4]

theorem name_letters {m : Mode} {b : Bool} {c : Byte} {u : Bytes} {ws : List ExnKind} (h : Name m (boolName b) (c :: u) ws) : ∀ x ∈ u, x ∈ b!"aelrsuAELRSU" := by
  have hs := Name.small (by cases b <;> decide) h
  intro x hx
  have hm : toLower x ∈ (boolName b).tail := by
    rw [← hs, small_eq]
    simpa using ⟨x, hx, rfl⟩
  have : ∀ b : Bool, ∀ y ∈ (boolName b).tail, isBoolLetter y = true := by decide
  exact (letters_iff x).mp (this b _ hm)

theorem bool_start (m : Mode) {c : Byte} (hc : c ∈ b!"tfTF") (x : Bytes) (hist : LHist) (warns : List Exn) :
    tokenLoop (envM m) (c :: x) hist warns = boolLoop (envM m) (toLower c) x (hist.put c) warns [toLower c] [c] := by
  simp at hc
  simp only [tokenLoop]
  rw [if_neg (by omega), if_pos (by omega)]
  rfl

theorem bool_out {m : Mode} {c : Byte} (hc : c ∈ b!"tfTF") {x : Bytes} {hist : LHist} {warns : List Exn} :
    (∀ r, why (tokenLoop (envM m) (c :: x) hist warns) = some r → BadToken m (c :: x) r) ∧ (∀ s, tokenLoop (envM m) (c :: x) hist warns = .ret .nothing s → False) := by
  rw [bool_start m hc]
  rcases boolLoop_kind m (toLower c) x (hist.put c) warns [toLower c] [c] with ⟨e, he, hk⟩ | ⟨b, s', he⟩
  · rw [he]
    refine ⟨fun r hr => ?_, fun s h => by cases h⟩
    simp only [why, hk, Option.some.injEq] at hr
    subst hr
    obtain ⟨u, rest, h1, h2, h3⟩ := run_split b!"aelrsuAELRSU" x
    have no : ∀ b ws, ¬ Name m (boolName b) ([c] ++ u) ws := by
      intro b ws hn
      obtain ⟨g, h', es, -, -, k3⟩ := bool_complete hn h3 hist warns
      rw [show [c] ++ u ++ rest = c :: x by rw [h1]; simp, bool_start m hc, he] at k3
      cases k3
    have := BadToken.name (m := m) (rest := rest) hc h2 h3 (no true) (no false)
    rwa [show [c] ++ u ++ rest = c :: x by rw [h1]; simp] at this
  · rw [he]
    exact ⟨fun r hr => (by cases hr), fun s h => by cases h⟩

theorem name_bad {m : Mode} {c : Byte} {u rest : Bytes} (hc : c ∈ b!"tfTF") (hu : ∀ x ∈ u, x ∈ b!"aelrsuAELRSU") (hr : NotNext b!"aelrsuAELRSU" rest)
    (ht : ∀ ws, ¬ Name m b!"true" ([c] ++ u) ws) (hf : ∀ ws, ¬ Name m b!"false" ([c] ++ u) ws) (hist : LHist) (warns : List Exn) :
    why (tokenLoop (envM m) ([c] ++ u ++ rest) hist warns) = some (.error .format) := by
  rw [show [c] ++ u ++ rest = c :: (u ++ rest) by simp, bool_start m hc]
  rcases boolLoop_kind m (toLower c) (u ++ rest) (hist.put c) warns [toLower c] [c] with ⟨e, he, hk⟩ | ⟨b, s', he⟩
  · rw [he]; simp [why, hk]
  · exfalso
    obtain ⟨r, b', es, k1, k2, k3, k4, -⟩ := boolLoop_sound m _ _ _ _ _ _ _ _ (by simp [small_eq]) he
    have : u = r := run_unique k2 hu (name_letters k3) hr k4
    subst this
    cases b' with
    | true => exact ht _ k3
    | false => exact hf _ k3

theorem null_start (m : Mode) {c : Byte} (hc : c ∈ b!"nN") (x : Bytes) (hist : LHist) (warns : List Exn) :
    tokenLoop (envM m) (c :: x) hist warns = consumeNull (envM m) ⟨x, true, hist.put c, warns⟩ c := by
  simp at hc
  simp only [tokenLoop]
  rw [if_neg (by omega), if_neg (by omega), if_pos (by omega)]

/-- How reading `null` ends. -/
theorem null_kind (m : Mode) (s0 : St) (c : Byte) :
    (2 ≤ (s0.rest.take 3).count 10 → consumeNull (envM m) s0 c = .ub .historyOutOfBounds) ∧
    ((s0.rest.take 3).count 10 ≤ 1 →
      (s0.rest.length ≤ 2 → ∃ h, consumeNull (envM m) s0 c = .ret .nothing ⟨[], false, h, s0.warns⟩) ∧
      (3 ≤ s0.rest.length → (∃ e, consumeNull (envM m) s0 c = .throw e ∧ e.kind = .format) ∨ ∃ s', consumeNull (envM m) s0 c = .ret (.val .null) s')) := by
  unfold consumeNull
  split
  · rename_i x1 x2 x3 rest hr
    rw [hr]
    simp only [List.take_succ_cons, List.take_zero, List.length_cons]
    rw [← putN_null s0.hist]
    refine ⟨fun h => by rw [h], fun h => ⟨fun h' => by omega, fun _ => ?_⟩⟩
    cases hp : s0.hist.putN [x1, x2, x3, 0] 3 with
    | none => have := (putN_null s0.hist x1 x2 x3).mp hp; omega
    | some h' =>
      dsimp only
      split
      · split
        · exact Or.inr ⟨_, rfl⟩
        · simp only [envM]
          split
          · exact Or.inl ⟨_, rfl, rfl⟩
          · exact Or.inr ⟨_, rfl⟩
      · exact Or.inl ⟨_, rfl, rfl⟩
  · rename_i hs
    have hz : s0.rest.length ≤ 2 := by
      rcases hx : s0.rest with _ | ⟨x1, _ | ⟨x2, _ | ⟨x3, z⟩⟩⟩ <;> simp
      exact hs _ _ _ _ hx
    rw [List.take_of_length_le (by omega)]
    refine ⟨fun h => by rw [(putN_pad s0.hist _ hz).mpr h], fun h => ⟨fun _ => ?_, fun h' => by omega⟩⟩
    cases hp : s0.hist.putN ((s0.rest ++ [0, 0, 0]).take 3 ++ [0]) 3 with
    | none => have := (putN_pad s0.hist _ hz).mp hp; omega
    | some h' => exact ⟨h', rfl⟩

theorem null_out {m : Mode} {c : Byte} (hc : c ∈ b!"nN") {x : Bytes} {hist : LHist} {warns : List Exn} :
    (∀ r, why (tokenLoop (envM m) (c :: x) hist warns) = some r → BadToken m (c :: x) r) ∧
    (∀ s, tokenLoop (envM m) (c :: x) hist warns = .ret .nothing s → s.rest = [] ∧ s.good = false ∧ NoToken m (c :: x)) := by
  have hk := null_kind m ⟨x, true, hist.put c, warns⟩ c
  rw [null_start m hc]
  by_cases h2 : 2 ≤ (x.take 3).count 10
  · rw [hk.1 h2]
    refine ⟨fun r hr => ?_, fun s h => by cases h⟩
    simp only [why, Option.some.injEq] at hr
    subst hr
    exact .nullBreak hc h2
  · have hk := hk.2 (by simp only; omega)
    by_cases hl : x.length ≤ 2
    · obtain ⟨h, he⟩ := hk.1 hl
      rw [he]
      refine ⟨fun r hr => (by cases hr), fun s h => ?_⟩
      cases h
      have := NoToken.null (m := m) (w := []) (by simp [Blank]) hc hl (by rw [List.take_of_length_le (by omega)] at h2; omega)
      exact ⟨rfl, rfl, this⟩
    · rcases hk.2 (by simp only; omega) with ⟨e, he, hke⟩ | ⟨s', he⟩
      · rcases x with _ | ⟨x1, _ | ⟨x2, _ | ⟨x3, z⟩⟩⟩ <;> simp at hl
        rw [he]
        refine ⟨fun r hr => ?_, fun s h => by cases h⟩
        simp only [why, Option.some.injEq] at hr
        rw [hke] at hr
        subst hr
        have := BadToken.null (m := m) (rest := z) (x1 := x1) (x2 := x2) (x3 := x3) hc (Nat.le_of_lt_succ (Nat.not_le.mp (by simpa using h2))) (fun ws hn => by
          obtain ⟨h', es, -, k⟩ := null_complete hn z hist warns
          rw [show [c, x1, x2, x3] ++ z = c :: x1 :: x2 :: x3 :: z from rfl, null_start m hc, he] at k
          cases k)
        exact this
      · rw [he]
        exact ⟨fun r hr => (by cases hr), fun s h => by cases h⟩

theorem null_bad {m : Mode} {c x1 x2 x3 : Byte} {rest : Bytes} (hc : c ∈ b!"nN") (hn : [x1, x2, x3].count 10 ≤ 1) (h : ∀ ws, ¬ Name m b!"null" [c, x1, x2, x3] ws)
    (hist : LHist) (warns : List Exn) : why (tokenLoop (envM m) ([c] ++ [x1, x2, x3] ++ rest) hist warns) = some (.error .format) := by
  rw [show [c] ++ [x1, x2, x3] ++ rest = c :: x1 :: x2 :: x3 :: rest by simp, null_start m hc]
  rcases ((null_kind m ⟨x1 :: x2 :: x3 :: rest, true, hist.put c, warns⟩ c).2 (by simpa using hn)).2 (by simp) with ⟨e, he, hk⟩ | ⟨s', he⟩
  · rw [he]; simp [why, hk]
  · exfalso
    rcases null_sound (by simpa using hc) he with ⟨h, -⟩ | ⟨t, es, -, k2, k3, -⟩
    · cases h
    · have hl := small_length (c :: t)
      rw [Name.small (by decide) k3] at hl
      rcases t with _ | ⟨y1, _ | ⟨y2, _ | ⟨y3, _ | ⟨y4, t⟩⟩⟩⟩ <;> simp at hl
      simp only [List.cons_append, List.cons.injEq] at k2
      obtain ⟨rfl, rfl, rfl, -⟩ := k2
      exact h _ k3

/-! ### Numbers -/

theorem follow_num {rest : Bytes} (h : NotNext b!".0123456789" rest) : NumFollow rest := by
  intro c r e
  have := h c r e
  refine ⟨?_, ?_⟩
  · cases hd : isDigit c with
    | false => rfl
    | true => exact absurd (List.mem_cons_of_mem _ ((digit_mem c).mp hd)) this
  · rintro rfl; exact this (by simp)

theorem fraction_good : ∀ (rest : Bytes) (hist : LHist) (warns : List Exn) (text : Bytes), ∃ v s, numberLoop rest hist warns true text = .ret (.val v) s := by
  intro rest
  induction rest with
  | nil => intro hist warns text; rw [numberLoop]; simp [numberEnd]
  | cons c rest ih =>
    intro hist warns text
    rw [numberLoop]
    split
    · exact ih _ _ _
    · rw [if_neg (by simp)]; simp [numberEnd]

theorem number_stop : ∀ (rest : Bytes) (hist : LHist) (warns : List Exn) (text : Bytes),
    (∃ v s, numberLoop rest hist warns false text = .ret (.val v) s) ∨
    ∃ ds rest' u, rest = ds ++ rest' ∧ (∀ d ∈ ds, d ∈ b!"0123456789") ∧ NotNext b!".0123456789" rest' ∧ intResult (text ++ ds) = .inl u ∧
      numberLoop rest hist warns false text = .uncaught u := by
  intro rest
  induction rest with
  | nil =>
    intro hist warns text
    rw [numberLoop]
    simp only [numberEnd, Bool.false_eq_true, if_false]
    cases hi : intResult text with
    | inl u => exact Or.inr ⟨[], [], u, rfl, by simp, (fun c r e => by cases e), by simpa using hi, rfl⟩
    | inr v => exact Or.inl ⟨v, _, rfl⟩
  | cons c rest ih =>
    intro hist warns text
    rw [numberLoop]
    by_cases hc : isDigit c = true
    · rw [if_pos hc]
      rcases ih (hist.put c) warns (text ++ [c]) with h | ⟨ds, rest', u, h1, h2, h3, h4, h5⟩
      · exact Or.inl h
      · exact Or.inr ⟨c :: ds, rest', u, by rw [h1]; rfl, by simpa using ⟨by simpa using (digit_mem c).mp hc, by simpa using h2⟩, h3, by simpa using h4, h5⟩
    · rw [if_neg hc]
      by_cases hd : c = 46
      · rw [if_pos ⟨hd, rfl⟩]
        exact Or.inl (fraction_good _ _ _ _)
      · rw [if_neg (by simp [hd])]
        simp only [numberEnd, Bool.false_eq_true, if_false]
        cases hi : intResult text with
        | inl u =>
          refine Or.inr ⟨[], c :: rest, u, rfl, by simp, (fun x r e => ?_), by simpa using hi, rfl⟩
          cases e
          intro hx
          rcases List.mem_cons.mp hx with hx | hx
          · exact hd hx
          · exact hc ((digit_mem c).mpr hx)
        | inr v => exact Or.inl ⟨v, _, rfl⟩

theorem number_out {m : Mode} {c : Byte} (hc : isDigit c = true ∨ c = 46 ∨ c = 45) {x : Bytes} {hist : LHist} {warns : List Exn} :
    (∀ r, why (tokenLoop (envM m) (c :: x) hist warns) = some r → BadToken m (c :: x) r) ∧ (∀ s, tokenLoop (envM m) (c :: x) hist warns = .ret .nothing s → False) := by
  rw [number_start _ hc]
  rcases number_stop x (hist.put c) warns [c] with ⟨v, s, h⟩ | ⟨ds, rest, u, rfl, h2, h3, h4, h5⟩
  · rw [h]; exact ⟨fun r hr => (by cases hr), fun s h => by cases h⟩
  · rw [h5]
    refine ⟨fun r hr => ?_, fun s h => by cases h⟩
    simp only [why, Option.some.injEq] at hr
    subst hr
    have large : ∀ neg es, c :: ds = intText neg es → Digits es → BadToken m (c :: (ds ++ rest)) (.uncaught u) := by
      intro neg es e hes
      obtain ⟨i1, i2⟩ := intResult_int neg es hes
      rw [List.singleton_append, e] at h4
      by_cases hf : FitsLong (intValue neg es)
      · rw [i1 hf] at h4; cases h4
      · rw [i2 hf] at h4; cases h4
        have := BadToken.large (m := m) hes hf h3
        rwa [← e] at this
    rcases hc with hc | rfl | rfl
    · refine large false (c :: ds) rfl ⟨by simp, ?_⟩
      intro d hm
      rcases List.mem_cons.mp hm with rfl | hm
      · exact (isDigit_iff d).mp hc
      · exact digits_range h2 d hm
    · have : intResult ([46] ++ ds) = .inl .invalidArgument := by simp [intResult, strtol, isDigit]
      rw [this] at h4; cases h4
      have := BadToken.point (m := m) h2 h3
      exact this
    · cases ds with
      | nil =>
        have : intResult ([45] ++ []) = .inl .invalidArgument := by rfl
        rw [this] at h4; cases h4
        exact BadToken.minus (m := m) h3
      | cons d ds => exact large true (d :: ds) rfl ⟨by simp, digits_range h2⟩

/-! ### All tokens -/

/-- What a token that was not read looks like. -/
theorem tok_out (m : Mode) : ∀ (rest : Bytes) (hist : LHist) (warns : List Exn),
    (∀ r, why (tokenLoop (envM m) rest hist warns) = some r → ∃ w x, rest = w ++ x ∧ Blank w ∧ BadToken m x r) ∧
    (∀ s, tokenLoop (envM m) rest hist warns = .ret .nothing s → s.rest = [] ∧ s.good = false ∧ NoToken m rest) := by
  intro rest
  induction rest with
  | nil =>
    intro hist warns
    rw [tokenLoop]
    exact ⟨fun r hr => (by cases hr), fun s h => by cases h; exact ⟨rfl, rfl, .blank (by simp [Blank])⟩⟩
  | cons c rest ih =>
    intro hist warns
    have nb : Blank [] := by simp [Blank]
    by_cases c1 : c = 34
    · subst c1
      have e : tokenLoop (envM m) (34 :: rest) hist warns = stringLoop (envM m) rest (hist.put 34) warns [] := by simp only [tokenLoop, if_true]; rfl
      rw [e]
      obtain ⟨h1, h2⟩ := chars_out m rest (hist.put 34) warns []
      constructor
      · intro r hr
        obtain ⟨t, v, ws, y, k1, k2, k3⟩ := h1 r hr
        exact ⟨[], [34] ++ t ++ y, by rw [k1]; simp, nb, .str k2 k3⟩
      · intro s hs
        obtain ⟨l1, l2, t, v, ws, y, k1, k2, k3⟩ := h2 s hs
        have := NoToken.str (m := m) nb k2 k3
        exact ⟨l1, l2, by simpa [k1] using this⟩
    by_cases c2 : c ∈ b!"tfTF"
    · obtain ⟨h1, h2⟩ := bool_out (m := m) c2 (x := rest) (hist := hist) (warns := warns)
      exact ⟨fun r hr => ⟨[], _, rfl, nb, h1 r hr⟩, fun s hs => (h2 s hs).elim⟩
    by_cases c3 : c ∈ b!"nN"
    · obtain ⟨h1, h2⟩ := null_out (m := m) c3 (x := rest) (hist := hist) (warns := warns)
      exact ⟨fun r hr => ⟨[], _, rfl, nb, h1 r hr⟩, h2⟩
    by_cases c4 : isDigit c = true ∨ c = 46 ∨ c = 45
    · obtain ⟨h1, h2⟩ := number_out (m := m) c4 (x := rest) (hist := hist) (warns := warns)
      exact ⟨fun r hr => ⟨[], _, rfl, nb, h1 r hr⟩, fun s hs => (h2 s hs).elim⟩
    simp only [tokenLoop]
    simp at c2 c3
    rw [if_neg c1, if_neg (by omega), if_neg (by omega), if_neg c4]
    by_cases c5 : isPunct c = true
    · rw [if_pos c5]
      exact ⟨fun r hr => (by cases hr), fun s h => by cases h⟩
    rw [if_neg c5]
    by_cases c6 : ignoreChar c = true
    · rw [if_pos c6]
      have hb : ∀ w, Blank w → Blank (c :: w) := by
        intro w hw x hx
        rcases List.mem_cons.mp hx with rfl | hx
        · simpa [ignoreChar] using c6
        · exact hw x hx
      obtain ⟨h1, h2⟩ := ih (hist.put c) warns
      constructor
      · intro r hr
        obtain ⟨w, x, k1, k2, k3⟩ := h1 r hr
        exact ⟨c :: w, x, by rw [k1]; rfl, hb w k2, k3⟩
      · intro s hs
        obtain ⟨l1, l2, l3⟩ := h2 s hs
        refine ⟨l1, l2, ?_⟩
        cases l3 with
        | blank hw => exact .blank (hb _ hw)
        | str hw k1 k2 => exact .str (hb _ hw) k1 k2
        | null hw k1 k2 k3 => exact .null (hb _ hw) k1 k2 k3
    · rw [if_neg c6]
      refine ⟨fun r hr => ?_, fun s h => by cases h⟩
      simp only [why, Option.some.injEq] at hr
      subst hr
      refine ⟨[], c :: rest, rfl, nb, ?_⟩
      rw [isDigit_iff] at c4
      simp [isPunct] at c5
      simp [ignoreChar] at c6
      exact BadToken.strange (m := m) (rest := rest) (by omega) (by omega) (by simp; omega)

theorem bad_token {m : Mode} {x : Bytes} {r : Reason} (h : BadToken m x r) (hist : LHist) (warns : List Exn) : why (tokenLoop (envM m) x hist warns) = some r := by
  cases h with
  | @str t v ws y _ hc hb =>
    obtain ⟨h', es, -, k⟩ := chars_run hc y (hist.put 34) warns []
    have : tokenLoop (envM m) ([34] ++ t ++ y) hist warns = stringLoop (envM m) (t ++ y) (hist.put 34) warns [] := by
      rw [show [34] ++ t ++ y = 34 :: (t ++ y) by simp]
      simp only [tokenLoop, if_true]; rfl
    rw [this, k]
    exact bad_item hb _ _ _
  | name h1 h2 h3 h4 h5 => exact name_bad h1 h2 h3 h4 h5 hist warns
  | null h1 h2 h3 => exact null_bad h1 h2 h3 hist warns
  | @nullBreak c y h1 h2 =>
    rw [List.singleton_append, null_start m h1, (null_kind m ⟨y, true, hist.put c, warns⟩ c).1 h2]
    rfl
  | @minus rest h1 =>
    rw [List.singleton_append, number_start _ (by simp)]
    obtain ⟨g, h', -, -, e⟩ := numberLoop_end (follow_num h1) (hist.put 45) warns false [45]
    rw [e]
    rfl
  | @point ds rest h1 h2 =>
    rw [show b!"." ++ ds ++ rest = 46 :: (ds ++ rest) by simp, number_start _ (by simp), numberLoop_digits ds (digits_range h1)]
    obtain ⟨g, h', -, -, e⟩ := numberLoop_end (follow_num h2) (ds.foldl LHist.put (hist.put 46)) warns false ([46] ++ ds)
    have : intResult ([46] ++ ds) = .inl .invalidArgument := by simp [intResult, strtol, isDigit]
    rw [e, this]
    rfl
  | large h1 h2 h3 => rw [(int_tok (envM m) _ _ h1 _ (follow_num h3) hist warns).2 h2]; rfl
  | @strange c rest h1 h2 h3 =>
    simp at h3
    simp only [List.singleton_append, tokenLoop]
    rw [if_neg (by omega), if_neg (by omega), if_neg (by omega), if_neg (by rw [isDigit_iff]; omega), if_neg (by simp [isPunct]; omega), if_neg (by simp [ignoreChar]; omega)]
    rfl

theorem no_token {m : Mode} {x : Bytes} (h : NoToken m x) (hist : LHist) (warns : List Exn) : ∃ h' ws, tokenLoop (envM m) x hist warns = .ret .nothing ⟨[], false, h', ws⟩ := by
  cases h with
  | blank hw =>
    have := skip_blank hw (envM m) [] hist warns
    rw [List.append_nil] at this
    rw [this, tokenLoop]
    exact ⟨_, _, rfl⟩
  | @str w t v ws y hw hc he =>
    rw [List.append_assoc, List.append_assoc, skip_blank hw]
    obtain ⟨h', es, -, k⟩ := chars_run hc y ((w.foldl LHist.put hist).put 34) warns []
    have : tokenLoop (envM m) ([34] ++ (t ++ y)) (w.foldl LHist.put hist) warns = stringLoop (envM m) (t ++ y) ((w.foldl LHist.put hist).put 34) warns [] := by
      rw [List.singleton_append]
      simp only [tokenLoop, if_true]; rfl
    rw [this, k]
    exact end_item he _ _ _
  | @null w c z hw hc hz hn =>
    rw [List.append_assoc, skip_blank hw, List.singleton_append, null_start m hc]
    obtain ⟨h', e⟩ := ((null_kind m ⟨z, true, (w.foldl LHist.put hist).put c, warns⟩ c).2 (by simp only; rw [List.take_of_length_le (by omega)]; exact hn)).1 hz
    exact ⟨h', _, e⟩

end Verif.Lemmas
