import Verif.Lemmas.MistakesTok
import Verif.Lemmas.Grammar
import Verif.Spec.Accepted
/-!
# Lemmas: the tokens the reader accepts
-/
namespace Verif.Lemmas
open Verif.Model Verif.Spec Verif.Spec.Accepted

/-- The reader in a mode. -/
def envM (m : Mode) : Env := ⟨some ⟨m.strict, m.ascii, m.sort⟩, m.half⟩

theorem toBytes_encoded (m : Mode) {n : Nat} (hn : n < 65536) : toBytes m.half n = encoded m n := by
  unfold encoded
  by_cases h : 0xD800 ≤ n ∧ n ≤ 0xDFFF
  · rw [if_pos h]
    unfold toBytes
    rw [if_neg (by omega), if_neg (by omega), if_pos (by simp [isSurrogate]; omega)]
  · rw [if_neg h]; exact toBytes_utf8 _ n hn h

/-! ### Strings -/

/-- What a string that was read looks like. -/
def StrRes (m : Mode) (rest : Bytes) (warns : List Exn) (acc : Bytes) (tok : Tok) (s : St) : Prop :=
  (tok = .nothing ∧ s.good = false) ∨
    ∃ (t v : Bytes) (es : List Exn), tok = .val (.str (acc ++ v)) ∧ rest = t ++ [34] ++ s.rest ∧ Chars m t v (es.map Exn.kind) ∧ s.warns = warns ++ es ∧ s.good = true

theorem StrRes.step {m : Mode} {rest : Bytes} {warns e0 : List Exn} {acc a : Bytes} {tok : Tok} {s : St} (x : Bytes) (h : StrRes m rest (warns ++ e0) (acc ++ a) tok s)
    (hc : ∀ t v ws, Chars m t v ws → Chars m (x ++ t) (a ++ v) (e0.map Exn.kind ++ ws)) : StrRes m (x ++ rest) warns acc tok s := by
  rcases h with h | ⟨t, v, es, h1, h2, h3, h4, h5⟩
  · exact Or.inl h
  · exact Or.inr ⟨x ++ t, a ++ v, e0 ++ es, by rw [h1, List.append_assoc], by rw [h2]; simp, by rw [List.map_append]; exact hc _ _ _ h3, by rw [h4, List.append_assoc], h5⟩

theorem StrRes.step0 {m : Mode} {rest : Bytes} {warns : List Exn} {acc a : Bytes} {tok : Tok} {s : St} (x : Bytes) (h : StrRes m rest warns (acc ++ a) tok s)
    (hc : ∀ t v ws, Chars m t v ws → Chars m (x ++ t) (a ++ v) ws) : StrRes m (x ++ rest) warns acc tok s :=
  StrRes.step (e0 := []) x (by rw [List.append_nil]; exact h) hc

theorem hexWord_good {h1 h2 h3 h4 : Byte} {n : Nat} (h : hexWord 0 [h1, h2, h3, h4] = .inr n) : hexValue h1 h2 h3 h4 = some n ∧ n < 65536 := by
  cases e : hexValue h1 h2 h3 h4 with
  | none => obtain ⟨c, hc, -⟩ := hexWord_bad e; rw [hc] at h; simp at h
  | some k => have := hexWord_value e; rw [this.1] at h; cases h; exact ⟨rfl, this.2⟩

theorem chars_sound (m : Mode) (rest : Bytes) (hist : LHist) (warns : List Exn) (acc : Bytes) : ∀ (tok : Tok) (s : St),
    stringLoop (envM m) rest hist warns acc = .ret tok s → StrRes m rest warns acc tok s := by
  fun_induction stringLoop (envM m) rest hist warns acc with
  | case1 => intro tok s h; simp at h; obtain ⟨rfl, rfl⟩ := h; exact Or.inl ⟨rfl, rfl⟩
  | case2 rest hist warns acc =>
    intro tok s h; simp at h; obtain ⟨rfl, rfl⟩ := h
    exact Or.inr ⟨[], [], [], by simp, by simp, .nil, by simp, rfl⟩
  | case3 => intro tok s h; simp at h
  | case4 => intro tok s h; simp at h; obtain ⟨rfl, rfl⟩ := h; exact Or.inl ⟨rfl, rfl⟩
  | case5 hist warns acc e rest he h1 h2 h3 ih =>
    intro tok s h
    exact (ih tok s h).step0 [92, e] fun t v ws hc => .esc (by simp; omega) hc
  | case6 hist warns acc rest ha h1 h2 h3 h4 ih =>
    intro tok s h
    exact (ih tok s h).step0 [92, 117] fun t v ws hc => .uniAscii ha hc
  | case7 => intro tok s h; simp at h
  | case8 => intro tok s h; simp at h
  | case9 => intro tok s h; simp at h
  | case10 hist warns acc ha x1 x2 x3 x4 rest hist2 n hn bs hb h1 h2 h3 h4 h5 ih =>
    intro tok s h
    obtain ⟨k1, k2⟩ := hexWord_good hn
    refine (ih tok s h).step0 [92, 117, x1, x2, x3, x4] fun t v ws hc => ?_
    exact .uni (by simpa [envM, Env.ascii] using ha) k1 (by rw [← toBytes_encoded m k2]; exact hb) hc
  | case11 => intro tok s h; simp at h
  | case12 => intro tok s h; simp at h; obtain ⟨rfl, rfl⟩ := h; exact Or.inl ⟨rfl, rfl⟩
  | case13 hist warns acc e rest h1 h2 h3 h4 h5 h6 ih =>
    intro tok s h
    exact (ih tok s h).step0 [92, e] fun t v ws hc => .ctl (by simp; omega) hc
  | case14 => intro tok s h; simp at h
  | case15 hist warns acc e rest h1 h2 h3 h4 h5 h6 h7 ih =>
    intro tok s h
    exact (ih tok s h).step [92, e] fun t v ws hc => .other (by simpa [envM, Env.strictAnd] using h4) (by simp; omega) hc
  | case16 c rest hist warns acc h1 h2 h3 ih =>
    intro tok s h
    exact (ih tok s h).step0 [c] fun t v ws hc => .raw h2 h3 hc

theorem chars_complete {m : Mode} {t v : Bytes} {ws : List ExnKind} (h : Chars m t v ws) : ∀ (rest : Bytes) (hist : LHist) (warns : List Exn) (acc : Bytes),
    ∃ hist' es, es.map Exn.kind = ws ∧ stringLoop (envM m) (t ++ 34 :: rest) hist warns acc = .ret (.val (.str (acc ++ v))) ⟨rest, true, hist', warns ++ es⟩ := by
  induction h with
  | nil => intro rest hist warns acc; exact ⟨_, [], rfl, by rw [List.nil_append, stringLoop.eq_def]; dsimp only; rw [if_pos rfl, List.append_nil, List.append_nil]⟩
  | @raw c t v ws h1 h2 _ ih =>
    intro rest hist warns acc
    obtain ⟨h', es, k1, k2⟩ := ih rest (hist.put c) warns (acc ++ [c])
    exact ⟨h', es, k1, by rw [List.append_assoc, List.singleton_append, stringLoop.eq_def]; simp only [if_neg h1, if_neg h2]; rw [k2, List.append_assoc]⟩
  | @esc c t v ws h1 _ ih =>
    intro rest hist warns acc
    obtain ⟨h', es, k1, k2⟩ := ih rest ((hist.put 92).put c) warns (acc ++ [c])
    refine ⟨h', es, k1, ?_⟩
    rw [show [92, c] ++ t ++ 34 :: rest = 92 :: c :: (t ++ 34 :: rest) by simp, stringLoop.eq_def]
    simp at h1
    dsimp only
    rw [if_neg (by decide), if_pos rfl, if_pos (by omega), k2, List.append_assoc]
  | @ctl c t v ws h1 _ ih =>
    intro rest hist warns acc
    obtain ⟨h', es, k1, k2⟩ := ih rest ((hist.put 92).put c) warns (acc ++ [92, c])
    refine ⟨h', es, k1, ?_⟩
    rw [show [92, c] ++ t ++ 34 :: rest = 92 :: c :: (t ++ 34 :: rest) by simp, stringLoop.eq_def]
    simp at h1
    dsimp only
    rw [if_neg (by decide), if_pos rfl, if_neg (by omega), if_neg (by omega), if_pos (by omega), k2, List.append_assoc]
  | @uni x1 x2 x3 x4 n bs t v ws ha hv hb _ ih =>
    intro rest hist warns acc
    obtain ⟨k1, k2⟩ := hexWord_value hv
    obtain ⟨a, b, c, d, e1, e2, e3, e4, -⟩ := hexValue_some hv
    obtain ⟨hp, hpe⟩ := putN_some ((hist.put 92).put 117) [x1, x2, x3, x4] 4 (by simp) (by
      have := hexDigit_lt e1; have := hexDigit_lt e2; have := hexDigit_lt e3; have := hexDigit_lt e4
      simp; omega)
    obtain ⟨h', es, k3, k4⟩ := ih rest hp warns (acc ++ bs)
    refine ⟨h', es, k3, ?_⟩
    rw [show b!"\\u" ++ [x1, x2, x3, x4] ++ t ++ 34 :: rest = 92 :: 117 :: x1 :: x2 :: x3 :: x4 :: (t ++ 34 :: rest) by simp, stringLoop.eq_def]
    dsimp only
    rw [if_neg (by decide), if_pos rfl, if_neg (by decide), if_pos rfl, if_neg (by simp [envM, Env.ascii, ha]), hpe]
    dsimp only
    rw [k1]
    dsimp only
    rw [show (envM m).surr = m.half from rfl, toBytes_encoded m k2, hb]
    dsimp only
    rw [k4, List.append_assoc]
  | @uniAscii t v ws ha _ ih =>
    intro rest hist warns acc
    obtain ⟨h', es, k1, k2⟩ := ih rest ((hist.put 92).put 117) warns (acc ++ [92, 117])
    refine ⟨h', es, k1, ?_⟩
    rw [show b!"\\u" ++ t ++ 34 :: rest = 92 :: 117 :: (t ++ 34 :: rest) by simp, stringLoop.eq_def]
    dsimp only
    rw [if_neg (by decide), if_pos rfl, if_neg (by decide), if_pos rfl, if_pos (by simp [envM, Env.ascii, ha]), k2, List.append_assoc]
  | @other c t v ws hs h1 _ ih =>
    intro rest hist warns acc
    obtain ⟨h', es, k1, k2⟩ := ih rest ((hist.put 92).put c) (warns ++ [⟨.escaped c, (hist.put 92).put c⟩]) (acc ++ [92, c])
    refine ⟨h', ⟨.escaped c, (hist.put 92).put c⟩ :: es, by simp [k1], ?_⟩
    rw [show [92, c] ++ t ++ 34 :: rest = 92 :: c :: (t ++ 34 :: rest) by simp, stringLoop.eq_def]
    simp at h1
    dsimp only
    rw [if_neg (by decide), if_pos rfl, if_neg (by omega), if_neg (by omega), if_neg (by omega), if_neg (by simp [envM, Env.strictAnd, hs]), k2, List.append_assoc]
    simp

/-! ### Literal names -/

theorem small_eq (t : Bytes) : small t = t.map toLower := rfl

theorem small_length (t : Bytes) : (small t).length = t.length := by simp [small]

/-- The name of a boolean. -/
def boolName (b : Bool) : Bytes := if b then b!"true" else b!"false"

theorem Name.small {m : Mode} {name t : Bytes} {ws : List ExnKind} (hn : small name = name) (h : Name m name t ws) : small t = name := by
  cases h with
  | exact => exact hn
  | casual _ _ h => exact h

theorem boolEnd_sound {m : Mode} {s0 : St} {c : Byte} {lower raw : Bytes} {tok : Tok} {s : St} (h : boolEnd (envM m) s0 c lower raw = .ret tok s) (hl : lower = small raw) :
    ∃ b es h', tok = .val (.bool b) ∧ Name m (boolName b) raw (es.map Exn.kind) ∧ s = St.unget ⟨s0.rest, s0.good, h', s0.warns ++ es⟩ c := by
  unfold boolEnd at h
  by_cases h1 : lower ≠ b!"true" ∧ lower ≠ b!"false"
  · rw [if_pos h1] at h; cases h
  rw [if_neg h1, if_neg (by simp [envM])] at h
  obtain ⟨b, hb, hb'⟩ : ∃ b, lower = boolName b ∧ (decide (lower = b!"true")) = b := by
    by_cases ht : lower = b!"true"
    · exact ⟨true, ht, by simp [ht]⟩
    · have hf : lower = b!"false" := Classical.byContradiction fun hf => h1 ⟨ht, hf⟩
      exact ⟨false, hf, by simp [ht]⟩
  by_cases h2 : lower ≠ raw ∧ (envM m).strictAnd = true
  · rw [if_pos h2] at h; cases h
  rw [if_neg h2] at h
  rw [hb'] at h
  by_cases h3 : lower ≠ raw
  · rw [if_pos h3] at h
    simp only [Out.ret.injEq] at h
    have hs : m.strict = false := by
      cases hm : m.strict with
      | false => rfl
      | true => exact absurd ⟨h3, by simp [envM, Env.strictAnd, hm]⟩ h2
    exact ⟨b, [⟨.format, s0.hist⟩], s0.hist.popBack, h.1.symm, by rw [← hb]; exact .casual hs (fun e => h3 e.symm) hl.symm, h.2.symm⟩
  · rw [if_neg h3] at h
    simp only [Out.ret.injEq] at h
    have h3 : lower = raw := Classical.not_not.mp h3
    exact ⟨b, [], s0.hist.popBack, h.1.symm, by rw [← hb, h3]; exact .exact, by rw [← h.2]; simp⟩

theorem boolLoop_sound (m : Mode) (fl : Byte) : ∀ (rest : Bytes) (hist : LHist) (warns : List Exn) (lower raw : Bytes) (tok : Tok) (s : St), lower = small raw →
    boolLoop (envM m) fl rest hist warns lower raw = .ret tok s →
    ∃ r b es, tok = .val (.bool b) ∧ rest = r ++ s.rest ∧ Name m (boolName b) (raw ++ r) (es.map Exn.kind) ∧ NotNext b!"aelrsuAELRSU" s.rest ∧ s.warns = warns ++ es ∧
      (s.good = true ∨ s.rest = []) := by
  intro rest
  induction rest with
  | nil =>
    intro hist warns lower raw tok s hl h
    rw [boolLoop] at h
    obtain ⟨b, es, h', h1, h2, h3⟩ := boolEnd_sound h hl
    subst h3
    exact ⟨[], b, es, h1, rfl, by rw [List.append_nil]; exact h2, fun c r e => by simp [St.unget] at e, rfl, Or.inr rfl⟩
  | cons c rest ih =>
    intro hist warns lower raw tok s hl h
    rw [boolLoop] at h
    by_cases hc : isBoolLetter (toLower c) = true
    · rw [if_pos hc] at h
      split at h
      · cases h
      · obtain ⟨r, b, es, k1, k2, k3, k4⟩ := ih _ _ _ _ _ _ (by rw [hl]; simp [small, toLower]) h
        exact ⟨c :: r, b, es, k1, by rw [k2]; rfl, by simpa using k3, k4⟩
    · rw [if_neg hc] at h
      obtain ⟨b, es, h', h1, h2, h3⟩ := boolEnd_sound h hl
      subst h3
      refine ⟨[], b, es, h1, by simp [St.unget], by rw [List.append_nil]; exact h2, ?_, rfl, Or.inl rfl⟩
      intro x r e
      simp [St.unget] at e
      rw [← e.1]
      exact fun hx => hc ((letters_iff c).mpr hx)

theorem boolLoop_run (env : Env) (fl : Byte) (r : Bytes) : ∀ (rest : Bytes) (hist : LHist) (warns : List Exn) (lower raw : Bytes), (∀ x ∈ small r, x ∈ b!"aelrsu") →
    (lower.length + r.length ≤ 4 ∨ (fl = c%'f' ∧ lower.length + r.length ≤ 5)) →
    boolLoop env fl (r ++ rest) hist warns lower raw = boolLoop env fl rest (r.foldl LHist.put hist) warns (lower ++ small r) (raw ++ r) := by
  induction r with
  | nil => intro rest hist warns lower raw _ _; simp [small]
  | cons x r ih =>
    intro rest hist warns lower raw hr hl
    have hx : isBoolLetter (toLower x) = true := by
      have := hr (toLower x) (by rw [small_eq]; simp)
      simp at this
      simp [isBoolLetter]; omega
    simp only [List.length_cons] at hl
    rw [List.cons_append, boolLoop]
    simp only [hx, if_true]
    rw [if_neg (by rcases hl with hl | ⟨rfl, hl⟩ <;> omega), ih _ _ _ _ _ (fun y hy => hr y (by rw [small_eq] at hy ⊢; simp at hy ⊢; exact Or.inr hy)) (by
      simp only [List.length_append, List.length_cons, List.length_nil]
      rcases hl with hl | ⟨h, hl⟩
      · left; omega
      · right; exact ⟨h, by omega⟩)]
    simp [small_eq, List.append_assoc]

theorem boolEnd_complete {m : Mode} {b : Bool} {raw : Bytes} {ws : List ExnKind} (hn : Name m (boolName b) raw ws) (s0 : St) (c : Byte) :
    ∃ h' es, es.map Exn.kind = ws ∧ boolEnd (envM m) s0 c (boolName b) raw = .ret (.val (.bool b)) (St.unget ⟨s0.rest, s0.good, h', s0.warns ++ es⟩ c) := by
  have e1 : ¬ (boolName b ≠ b!"true" ∧ boolName b ≠ b!"false") := by cases b <;> decide
  have e2 : decide (boolName b = b!"true") = b := by cases b <;> decide
  cases hn with
  | exact =>
    refine ⟨s0.hist.popBack, [], rfl, ?_⟩
    unfold boolEnd
    rw [if_neg e1, if_neg (by simp), if_neg (by simp), e2]
    simp
  | casual hs hne _ =>
    refine ⟨s0.hist.popBack, [⟨.format, s0.hist⟩], rfl, ?_⟩
    unfold boolEnd
    rw [if_neg e1, if_neg (by simp [envM]), if_neg (by simp [envM, Env.strictAnd, hs]), e2, if_pos (fun e => hne e.symm)]

theorem boolLoop_stop {m : Mode} {b : Bool} {raw : Bytes} {ws : List ExnKind} (hn : Name m (boolName b) raw ws) {rest : Bytes} (hr : NotNext b!"aelrsuAELRSU" rest)
    (fl : Byte) (hist : LHist) (warns : List Exn) :
    ∃ g h' es, (g = true ∨ rest = []) ∧ es.map Exn.kind = ws ∧ boolLoop (envM m) fl rest hist warns (boolName b) raw = .ret (.val (.bool b)) ⟨rest, g, h', warns ++ es⟩ := by
  cases rest with
  | nil =>
    obtain ⟨h', es, k1, k2⟩ := boolEnd_complete hn ⟨[], false, hist.put 0xFF, warns⟩ 0xFF
    exact ⟨false, h', es, Or.inr rfl, k1, by rw [boolLoop]; exact k2⟩
  | cons c r =>
    obtain ⟨h', es, k1, k2⟩ := boolEnd_complete hn ⟨r, true, hist.put c, warns⟩ c
    refine ⟨true, h', es, Or.inl rfl, k1, ?_⟩
    rw [boolLoop]
    rw [if_neg (fun h => hr c r rfl ((letters_iff c).mp h))]
    exact k2

theorem small_cons {t : Bytes} {x : Byte} {r : Bytes} (h : small t = x :: r) : ∃ c u, t = c :: u ∧ toLower c = x ∧ small u = r := by
  cases t with
  | nil => simp [small] at h
  | cons c u => simp only [small_eq, List.map_cons, List.cons.injEq] at h; exact ⟨c, u, rfl, h.1, h.2⟩

theorem bool_complete {m : Mode} {b : Bool} {t : Bytes} {ws : List ExnKind} (hn : Name m (boolName b) t ws) {rest : Bytes} (hr : NotNext b!"aelrsuAELRSU" rest)
    (hist : LHist) (warns : List Exn) :
    ∃ g h' es, (g = true ∨ rest = []) ∧ es.map Exn.kind = ws ∧ tokenLoop (envM m) (t ++ rest) hist warns = .ret (.val (.bool b)) ⟨rest, g, h', warns ++ es⟩ := by
  have hs := Name.small (by cases b <;> decide) hn
  obtain ⟨x, y, hxy, hx, hy, hl⟩ : ∃ x y, boolName b = x :: y ∧ (x = c%'t' ∨ x = c%'f') ∧ (∀ z ∈ y, z ∈ b!"aelrsu") ∧ (1 + y.length ≤ 4 ∨ (x = c%'f' ∧ 1 + y.length ≤ 5)) := by
    cases b
    · exact ⟨102, [97, 108, 115, 101], rfl, by decide, by decide, by decide⟩
    · exact ⟨116, [114, 117, 101], rfl, by decide, by decide, by decide⟩
  obtain ⟨c, u, rfl, hc, hu⟩ := small_cons (hs.trans hxy)
  have hc' : c = c%'t' ∨ c = c%'f' ∨ c = c%'T' ∨ c = c%'F' := by
    unfold toLower at hc
    split at hc <;> omega
  have hul : u.length = y.length := by rw [← hu, small_length]
  obtain ⟨g, h', es, k1, k2, k3⟩ := boolLoop_stop hn hr x (u.foldl LHist.put (hist.put c)) warns
  refine ⟨g, h', es, k1, k2, ?_⟩
  simp only [List.cons_append, tokenLoop]
  rw [if_neg (by omega), if_pos hc']
  simp only [consumeBool]
  rw [boolLoop_run _ _ u _ _ _ _ _ (by rw [hu]; exact hy) (by rw [hc, hul]; simpa using hl), hc, hu]
  rw [List.singleton_append, List.singleton_append, ← hxy]
  exact k3

theorem null_sound {m : Mode} {s0 : St} {c : Byte} (hc : c = c%'n' ∨ c = c%'N') {tok : Tok} {s : St} (h : consumeNull (envM m) s0 c = .ret tok s) :
    (tok = .nothing ∧ s.good = false) ∨ ∃ t es, tok = .val .null ∧ s0.rest = t ++ s.rest ∧ Name m b!"null" (c :: t) (es.map Exn.kind) ∧ s.warns = s0.warns ++ es ∧ s.good = true := by
  have hlc : toLower c = 110 := by rcases hc with rfl | rfl <;> rfl
  unfold consumeNull at h
  split at h
  · rename_i x1 x2 x3 rest hr
    cases hp : s0.hist.putN [x1, x2, x3, 0] 3 with
    | none => rw [hp] at h; cases h
    | some h' =>
      rw [hp] at h
      dsimp only at h
      by_cases h1 : [110, toLower x1, toLower x2, toLower x3] = b!"null"
      · rw [if_pos h1] at h
        by_cases h2 : [110, toLower x1, toLower x2, toLower x3] = [c, x1, x2, x3]
        · rw [if_pos h2] at h
          cases h
          exact Or.inr ⟨[x1, x2, x3], [], rfl, by rw [hr]; rfl, by rw [← h2, h1]; exact .exact, by simp, rfl⟩
        · rw [if_neg h2] at h
          simp only [envM] at h
          split at h
          · cases h
          · rename_i hs
            cases h
            refine Or.inr ⟨[x1, x2, x3], [⟨.format, h'⟩], rfl, by rw [hr]; rfl, .casual (by simpa using hs) (fun e => h2 (h1.trans e.symm)) ?_, rfl, rfl⟩
            rw [← h1, small_eq]
            simp [hlc]
      · rw [if_neg h1] at h; cases h
  · cases hp : s0.hist.putN ((s0.rest ++ [0, 0, 0]).take 3 ++ [0]) 3 with
    | none => rw [hp] at h; cases h
    | some h' => rw [hp] at h; cases h; exact Or.inl ⟨rfl, rfl⟩

theorem null_complete {m : Mode} {t : Bytes} {ws : List ExnKind} (hn : Name m b!"null" t ws) (rest : Bytes) (hist : LHist) (warns : List Exn) :
    ∃ h' es, es.map Exn.kind = ws ∧ tokenLoop (envM m) (t ++ rest) hist warns = .ret (.val .null) ⟨rest, true, h', warns ++ es⟩ := by
  have hs := Name.small (by decide) hn
  obtain ⟨c, u, rfl, hc, hu⟩ := small_cons hs
  obtain ⟨x1, u, rfl, h1, hu⟩ := small_cons hu
  obtain ⟨x2, u, rfl, h2, hu⟩ := small_cons hu
  obtain ⟨x3, u, rfl, h3, hu⟩ := small_cons hu
  have : u = [] := by simpa [small] using hu
  subst this
  have low : ∀ x n : Byte, toLower x = n → 97 ≤ n → n ≠ 123 → x = n ∨ x + 32 = n := by
    intro x n h; unfold toLower at h; split at h <;> omega
  have hc' : c = c%'n' ∨ c = c%'N' := by have := low c 110 hc (by decide) (by decide); omega
  obtain ⟨hp, hpe⟩ := putN_some (hist.put c) [x1, x2, x3, 0] 3 (by simp) (by
    have := low x1 _ h1 (by decide) (by decide); have := low x2 _ h2 (by decide) (by decide); have := low x3 _ h3 (by decide) (by decide)
    simp; omega)
  have hlow : [110, toLower x1, toLower x2, toLower x3] = b!"null" := by rw [h1, h2, h3]
  have start : tokenLoop (envM m) ([c, x1, x2, x3] ++ rest) hist warns = consumeNull (envM m) ⟨x1 :: x2 :: x3 :: rest, true, hist.put c, warns⟩ c := by
    simp only [List.cons_append, List.nil_append, tokenLoop]
    rw [if_neg (by omega), if_neg (by omega), if_pos hc']
  rw [start]
  simp only [consumeNull]
  rw [hpe]
  dsimp only
  rw [if_pos hlow, hlow]
  generalize ht : [c, x1, x2, x3] = t at hn
  cases hn with
  | exact => exact ⟨hp, [], rfl, by simp⟩
  | casual hs hne _ => exact ⟨hp, [⟨.format, hp⟩], rfl, by rw [if_neg (fun e => hne e.symm)]; simp [envM, hs]⟩

/-! ### Numbers -/

theorem digit_mem (c : Byte) : isDigit c = true ↔ c ∈ b!"0123456789" := by
  rw [isDigit_iff]; simp; omega

theorem digits_range {ds : Bytes} (h : ∀ d ∈ ds, d ∈ b!"0123456789") : ∀ d ∈ ds, 48 ≤ d ∧ d ≤ 57 :=
  fun d hd => (isDigit_iff d).mp ((digit_mem d).mpr (h d hd))

theorem range_digits {ds : Bytes} (h : ∀ d ∈ ds, 48 ≤ d ∧ d ≤ 57) : ∀ d ∈ ds, d ∈ b!"0123456789" :=
  fun d hd => (digit_mem d).mp ((isDigit_iff d).mpr (h d hd))

theorem fraction_sound : ∀ (rest : Bytes) (hist : LHist) (warns : List Exn) (text : Bytes) (tok : Tok) (s : St), numberLoop rest hist warns true text = .ret tok s →
    ∃ fs, (∀ d ∈ fs, d ∈ b!"0123456789") ∧ rest = fs ++ s.rest ∧ tok = .val (.dbl (text ++ fs)) ∧ NotNext b!"0123456789" s.rest ∧ s.warns = warns ∧ (s.good = true ∨ s.rest = []) := by
  intro rest
  induction rest with
  | nil =>
    intro hist warns text tok s h
    simp only [numberLoop, numberEnd, St.unget, if_true, Out.ret.injEq, Bool.false_eq_true, if_false] at h
    obtain ⟨rfl, rfl⟩ := h
    exact ⟨[], by simp, rfl, by simp, (fun c r e => by simp at e), rfl, Or.inr rfl⟩
  | cons c rest ih =>
    intro hist warns text tok s h
    rw [numberLoop] at h
    by_cases hc : isDigit c = true
    · rw [if_pos hc] at h
      obtain ⟨fs, k1, k2, k3, k4⟩ := ih _ _ _ _ _ h
      refine ⟨c :: fs, ?_, by rw [k2]; rfl, by rw [k3]; simp, k4⟩
      intro d hd
      rcases List.mem_cons.mp hd with rfl | hd
      · exact (digit_mem d).mp hc
      · exact k1 d hd
    · rw [if_neg hc, if_neg (by simp)] at h
      simp only [numberEnd, St.unget, if_true, Out.ret.injEq] at h
      obtain ⟨rfl, rfl⟩ := h
      refine ⟨[], by simp, rfl, by simp, fun x r e => ?_, rfl, Or.inl rfl⟩
      simp at e
      rw [← e.1]
      exact fun hx => hc ((digit_mem c).mpr hx)

theorem number_sound : ∀ (rest : Bytes) (hist : LHist) (warns : List Exn) (text : Bytes) (tok : Tok) (s : St), numberLoop rest hist warns false text = .ret tok s →
    s.warns = warns ∧ (s.good = true ∨ s.rest = []) ∧ ∃ ds, (∀ d ∈ ds, d ∈ b!"0123456789") ∧
    ((rest = ds ++ s.rest ∧ NotNext b!".0123456789" s.rest ∧ ∃ v, tok = .val v ∧ intResult (text ++ ds) = .inr v) ∨
    ∃ fs, (∀ d ∈ fs, d ∈ b!"0123456789") ∧ rest = ds ++ b!"." ++ fs ++ s.rest ∧ tok = .val (.dbl (text ++ ds ++ b!"." ++ fs)) ∧ NotNext b!"0123456789" s.rest) := by
  intro rest
  induction rest with
  | nil =>
    intro hist warns text tok s h
    simp only [numberLoop, numberEnd, St.unget, if_false, Bool.false_eq_true] at h
    cases hi : intResult text with
    | inl u => rw [hi] at h; cases h
    | inr v =>
      rw [hi] at h
      simp only [Out.ret.injEq] at h
      obtain ⟨rfl, rfl⟩ := h
      exact ⟨rfl, Or.inr rfl, [], by simp, Or.inl ⟨rfl, fun c r e => by simp at e, v, rfl, by rw [List.append_nil]; exact hi⟩⟩
  | cons c rest ih =>
    intro hist warns text tok s h
    rw [numberLoop] at h
    by_cases hc : isDigit c = true
    · rw [if_pos hc] at h
      obtain ⟨k1, k2, ds, k3, k4⟩ := ih _ _ _ _ _ h
      refine ⟨k1, k2, c :: ds, ?_, ?_⟩
      · intro d hd
        rcases List.mem_cons.mp hd with rfl | hd
        · exact (digit_mem d).mp hc
        · exact k3 d hd
      · rcases k4 with ⟨a, b, v, d, e⟩ | ⟨fs, a, b, d, e⟩
        · exact Or.inl ⟨by rw [a]; rfl, b, v, d, by simpa using e⟩
        · exact Or.inr ⟨fs, a, by rw [b]; rfl, by simpa using d, e⟩
    · rw [if_neg hc] at h
      by_cases hd : c = 46
      · rw [if_pos ⟨hd, rfl⟩] at h
        obtain ⟨fs, a, b, d, e, f, g⟩ := fraction_sound _ _ _ _ _ _ h
        exact ⟨f, g, [], by simp, Or.inr ⟨fs, a, by rw [b, hd]; rfl, by rw [d, hd]; simp, e⟩⟩
      · rw [if_neg (by simp [hd])] at h
        simp only [numberEnd, St.unget, if_false, Bool.false_eq_true, if_true] at h
        cases hi : intResult text with
        | inl u => rw [hi] at h; cases h
        | inr v =>
          rw [hi] at h
          simp only [Out.ret.injEq] at h
          obtain ⟨rfl, rfl⟩ := h
          refine ⟨rfl, Or.inl rfl, [], by simp, Or.inl ⟨rfl, fun x r e => ?_, v, rfl, by rw [List.append_nil]; exact hi⟩⟩
          simp at e
          rw [← e.1]
          intro hx
          rcases List.mem_cons.mp hx with hx | hx
          · exact hd hx
          · exact hc ((digit_mem c).mpr hx)

theorem intResult_sound {c : Byte} {ds : Bytes} (hc : isDigit c = true ∨ c = 46 ∨ c = 45) (hd : ∀ d ∈ ds, 48 ≤ d ∧ d ≤ 57) {v : Json} (h : intResult (c :: ds) = .inr v) :
    ∃ neg es, c :: ds = intText neg es ∧ Digits es ∧ FitsLong (intValue neg es) ∧ v = intJson (intValue neg es) := by
  have key : ∀ neg es, c :: ds = intText neg es → Digits es → FitsLong (intValue neg es) ∧ v = intJson (intValue neg es) := by
    intro neg es e hes
    obtain ⟨i1, i2⟩ := intResult_int neg es hes
    rw [e] at h
    by_cases hf : FitsLong (intValue neg es)
    · rw [i1 hf] at h; cases h; exact ⟨hf, rfl⟩
    · rw [i2 hf] at h; cases h
  rcases hc with hc | rfl | rfl
  · have hes : Digits (c :: ds) := ⟨by simp, by
      intro d hm
      rcases List.mem_cons.mp hm with rfl | hm
      · exact (isDigit_iff d).mp hc
      · exact hd d hm⟩
    obtain ⟨a, b⟩ := key false (c :: ds) rfl hes
    exact ⟨false, c :: ds, rfl, hes, a, b⟩
  · have : intResult (46 :: ds) = .inl .invalidArgument := by simp [intResult, strtol, isDigit]
    rw [this] at h; cases h
  · cases ds with
    | nil => have : intResult [45] = .inl .invalidArgument := by rfl
             rw [this] at h; cases h
    | cons d ds =>
      have hes : Digits (d :: ds) := ⟨by simp, hd⟩
      obtain ⟨a, b⟩ := key true (d :: ds) rfl hes
      exact ⟨true, d :: ds, rfl, hes, a, b⟩

theorem fraction_end {rest : Bytes} (hf : NotNext b!"0123456789" rest) (hist : LHist) (warns : List Exn) (text : Bytes) :
    ∃ g h, (g = true ∨ rest = []) ∧ numberLoop rest hist warns true text = .ret (.val (.dbl text)) ⟨rest, g, h, warns⟩ := by
  cases rest with
  | nil => exact ⟨false, (hist.put 0xFF).popBack, Or.inr rfl, by simp only [numberLoop, numberEnd, St.unget]; rfl⟩
  | cons c r =>
    refine ⟨true, (hist.put c).popBack, Or.inl rfl, ?_⟩
    simp only [numberLoop]
    rw [if_neg (fun h => hf c r rfl ((digit_mem c).mp h)), if_neg (by simp)]
    simp only [numberEnd, St.unget, if_true]

theorem double_complete {c : Byte} {ds fs : Bytes} (hc : c ∈ b!"-.0123456789") (hd : ∀ d ∈ ds, d ∈ b!"0123456789") (hf : ∀ d ∈ fs, d ∈ b!"0123456789") {rest : Bytes}
    (hr : NotNext b!"0123456789" rest) (env : Env) (hist : LHist) (warns : List Exn) :
    ∃ g h, (g = true ∨ rest = []) ∧ tokenLoop env ([c] ++ ds ++ b!"." ++ fs ++ rest) hist warns = .ret (.val (.dbl ([c] ++ ds ++ b!"." ++ fs))) ⟨rest, g, h, warns⟩ := by
  have hc' : isDigit c = true ∨ c = 46 ∨ c = 45 := by
    rw [isDigit_iff]; simp at hc; omega
  rw [show [c] ++ ds ++ b!"." ++ fs ++ rest = c :: (ds ++ (46 :: (fs ++ rest))) by simp, number_start env hc', numberLoop_digits ds (digits_range hd), numberLoop]
  rw [if_neg (by simp [isDigit]), if_pos (by simp), numberLoop_digits fs (digits_range hf)]
  exact fraction_end hr _ _ _

/-! ### Tokens -/

/-- What a token that was read looks like. -/
def TokRes (m : Mode) (rest : Bytes) (warns : List Exn) (tok : Tok) (s : St) : Prop :=
  (tok = .nothing ∧ s.good = false) ∨ ∃ w t es, Blank w ∧ rest = w ++ t ++ s.rest ∧ s.warns = warns ++ es ∧ (s.good = true ∨ s.rest = []) ∧
    ((∃ v, tok = .val v ∧ Prim m t s.rest v (es.map Exn.kind)) ∨ (∃ c, tok = .punct c ∧ t = [c] ∧ c ∈ b!",:[]{}" ∧ es = [] ∧ s.good = true))

theorem TokRes.skip {m : Mode} {rest : Bytes} {warns : List Exn} {tok : Tok} {s : St} {c : Byte} (hc : c ≤ 32 ∨ 127 ≤ c) (h : TokRes m rest warns tok s) : TokRes m (c :: rest) warns tok s := by
  rcases h with h | ⟨w, t, es, h1, h2, h3⟩
  · exact Or.inl h
  · refine Or.inr ⟨c :: w, t, es, ?_, by rw [h2]; rfl, h3⟩
    intro x hx
    rcases List.mem_cons.mp hx with rfl | hx
    · exact hc
    · exact h1 x hx

theorem tok_sound (m : Mode) : ∀ (rest : Bytes) (hist : LHist) (warns : List Exn) (tok : Tok) (s : St), tokenLoop (envM m) rest hist warns = .ret tok s → TokRes m rest warns tok s := by
  intro rest
  induction rest with
  | nil => intro hist warns tok s h; rw [tokenLoop] at h; cases h; exact Or.inl ⟨rfl, rfl⟩
  | cons c rest ih =>
    intro hist warns tok s h
    simp only [tokenLoop] at h
    by_cases c1 : c = 34
    · rw [if_pos c1] at h
      rcases chars_sound m _ _ _ _ _ _ h with h | ⟨t, v, es, h1, h2, h3, h4, h5⟩
      · exact Or.inl h
      · exact Or.inr ⟨[], [34] ++ t ++ [34], es, by simp [Blank], by rw [c1]; simp at h2 ⊢; exact h2, h4, Or.inl h5, Or.inl ⟨.str v, by simpa using h1, .str h3⟩⟩
    rw [if_neg c1] at h
    by_cases c2 : c = 116 ∨ c = 102 ∨ c = 84 ∨ c = 70
    · rw [if_pos c2] at h
      obtain ⟨r, b, es, h1, h2, h3, h4, h5, h6⟩ := boolLoop_sound m _ _ _ _ _ _ _ _ (by simp [small_eq]) h
      refine Or.inr ⟨[], c :: r, es, by simp [Blank], by simp at h2 ⊢; exact h2, h5, h6, Or.inl ⟨.bool b, h1, ?_⟩⟩
      cases b
      · exact .no h3 h4
      · exact .yes h3 h4
    rw [if_neg c2] at h
    by_cases c3 : c = 110 ∨ c = 78
    · rw [if_pos c3] at h
      rcases null_sound c3 h with h | ⟨t, es, h1, h2, h3, h4, h5⟩
      · exact Or.inl h
      · exact Or.inr ⟨[], c :: t, es, by simp [Blank], by simp at h2 ⊢; exact h2, h4, Or.inl h5, Or.inl ⟨.null, h1, .null h3⟩⟩
    rw [if_neg c3] at h
    by_cases c4 : isDigit c = true ∨ c = 46 ∨ c = 45
    · rw [if_pos c4] at h
      obtain ⟨h1, h2, ds, h3, h4⟩ := number_sound _ _ _ _ _ _ h
      rcases h4 with ⟨a, b, v, d, e⟩ | ⟨fs, a, b, d, e⟩
      · obtain ⟨neg, es, k1, k2, k3, k4⟩ := intResult_sound c4 (digits_range h3) e
        refine Or.inr ⟨[], c :: ds, [], by simp [Blank], by simp at a ⊢; exact a, by simpa using h1, h2, Or.inl ⟨v, d, ?_⟩⟩
        rw [k1, k4]
        exact .int k2 k3 b
      · refine Or.inr ⟨[], [c] ++ ds ++ b!"." ++ fs, [], by simp [Blank], by simp at b ⊢; exact b, by simpa using h1, h2, Or.inl ⟨_, d, .dbl ?_ h3 a e⟩⟩
        rw [isDigit_iff] at c4; simp; omega
    rw [if_neg c4] at h
    by_cases c5 : isPunct c = true
    · rw [if_pos c5] at h
      cases h
      refine Or.inr ⟨[], [c], [], by simp [Blank], rfl, by simp, Or.inl rfl, Or.inr ⟨c, rfl, rfl, ?_, rfl, rfl⟩⟩
      simp [isPunct] at c5; simp; omega
    rw [if_neg c5] at h
    by_cases c6 : ignoreChar c = true
    · rw [if_pos c6] at h
      exact (ih _ _ _ _ h).skip (by simpa [ignoreChar] using c6)
    · rw [if_neg c6] at h; cases h

theorem prim_complete {m : Mode} {t rest : Bytes} {v : Json} {ws : List ExnKind} (h : Prim m t rest v ws) (hist : LHist) (warns : List Exn) :
    ∃ g h' es, (g = true ∨ rest = []) ∧ es.map Exn.kind = ws ∧ tokenLoop (envM m) (t ++ rest) hist warns = .ret (.val v) ⟨rest, g, h', warns ++ es⟩ := by
  cases h with
  | str h =>
    obtain ⟨h', es, k1, k2⟩ := chars_complete h rest (hist.put 34) warns []
    refine ⟨true, h', es, Or.inl rfl, k1, ?_⟩
    simp only [List.cons_append, List.nil_append, List.append_assoc, tokenLoop, if_true]
    exact k2
  | yes h h' => exact bool_complete (b := true) h h' hist warns
  | no h h' => exact bool_complete (b := false) h h' hist warns
  | null h =>
    obtain ⟨h', es, k1, k2⟩ := null_complete h rest hist warns
    exact ⟨true, h', es, Or.inl rfl, k1, k2⟩
  | @int neg ds _ h1 h2 h3 =>
    obtain ⟨g, h', k1, -, k2⟩ := (int_tok (envM m) neg ds h1 rest (by
      intro c r e
      have := h3 c r e
      refine ⟨?_, ?_⟩
      · cases hd : isDigit c with
        | false => rfl
        | true => exact absurd (List.mem_cons_of_mem _ ((digit_mem c).mp hd)) this
      · rintro rfl; exact this (by simp)) hist warns).1 h2
    exact ⟨g, h', [], k1, rfl, by rw [List.append_nil]; exact k2⟩
  | dbl h1 h2 h3 h4 =>
    obtain ⟨g, h', k1, k2⟩ := double_complete h1 h2 h3 h4 (envM m) hist warns
    exact ⟨g, h', [], k1, rfl, by rw [List.append_nil]; exact k2⟩

theorem punct_complete (m : Mode) {c : Byte} (hc : c ∈ b!",:[]{}") (rest : Bytes) (hist : LHist) (warns : List Exn) :
    tokenLoop (envM m) (c :: rest) hist warns = .ret (.punct c) ⟨rest, true, hist.put c, warns⟩ :=
  punct_tok (by simp at hc; simp [isPunct]; omega) _ _ _ _

end Verif.Lemmas
