import Verif.Lemmas.Mistakes
import Verif.Model.Exceptions
/-!
# Lemmas: what is wrong at a place is reported there
-/
namespace Verif.Lemmas
open Verif.Model Verif.Spec

variable {input : Bytes} {Hd : LHist → Bytes → Prop} {env : Env}

/-- The history describes the text before `rest`. -/
def Upto (input : Bytes) (Hd : LHist → Bytes → Prop) (h : LHist) (rest : Bytes) : Prop := ∃ t, Hd h t ∧ t ++ rest = input

theorem Sync.upto {rest : Bytes} {h : LHist} {ws : List Exn} (hs : Sync input Hd ⟨rest, true, h, ws⟩) : Upto input Hd h rest := by
  obtain ⟨t, h1, h2, _⟩ := hs.good rfl
  exact ⟨t, h1, h2⟩

theorem Upto.put (H : HistRel input Hd (fun _ => True)) {h : LHist} {c : Byte} {rest : Bytes} (hu : Upto input Hd h (c :: rest)) : Upto input Hd (h.put c) rest := by
  obtain ⟨t, h1, h2⟩ := hu
  exact ⟨_, H.put' h1 h2⟩

theorem Upto.puts (H : HistRel input Hd (fun _ => True)) (w : Bytes) {rest : Bytes} : ∀ {h : LHist}, Upto input Hd h (w ++ rest) → Upto input Hd (w.foldl LHist.put h) rest := by
  induction w with
  | nil => intro h hu; exact hu
  | cons c w ih => intro h hu; exact ih (hu.put H)

theorem Upto.uni (H : HistRel input Hd (fun _ => True)) {h h' : LHist} {x1 x2 x3 x4 : Byte} {rest : Bytes} (hu : Upto input Hd h (92 :: 117 :: x1 :: x2 :: x3 :: x4 :: rest))
    (hp : ((h.put 92).put 117).putN [x1, x2, x3, x4] 4 = some h') : Upto input Hd h' rest := by
  obtain ⟨t, h1, h2⟩ := hu
  obtain ⟨t', h3, h4, _⟩ := H.uni' h1 h2 hp
  exact ⟨t', h3, h4⟩

/-- A string, with the history. -/
theorem stringLoop_item_upto (H : HistRel input Hd (fun _ => True)) (ha : env.ascii = false) (i : StrItem) (hi : i.WF env.ascii) (rest : Bytes) (hist : LHist) (warns : List Exn) (acc : Bytes)
    (hu : Upto input Hd hist (i.text ++ rest)) :
    ∃ hist' acc', stringLoop env (i.text ++ rest) hist warns acc = stringLoop env rest hist' warns acc' ∧ Upto input Hd hist' rest := by
  cases i with
  | raw c =>
    obtain ⟨h1, h2⟩ := hi
    refine ⟨hist.put c, acc ++ [c], ?_, hu.put H⟩
    show stringLoop env (c :: rest) hist warns acc = _
    rw [stringLoop.eq_def]
    dsimp only
    rw [if_neg h1, if_neg h2]
  | esc c =>
    have h : c = 34 ∨ c = 92 ∨ c = 47 := by simpa [StrItem.WF] using hi
    refine ⟨(hist.put 92).put c, acc ++ [c], ?_, Upto.put H (Upto.put H (c := 92) hu)⟩
    show stringLoop env (92 :: c :: rest) hist warns acc = _
    rw [stringLoop.eq_def]
    dsimp only
    rw [if_neg (by decide), if_pos rfl, if_pos (by omega)]
  | ctl c =>
    have h : c = 98 ∨ c = 102 ∨ c = 110 ∨ c = 114 ∨ c = 116 := by simpa [StrItem.WF] using hi
    refine ⟨(hist.put 92).put c, acc ++ [92, c], ?_, Upto.put H (Upto.put H (c := 92) hu)⟩
    show stringLoop env (92 :: c :: rest) hist warns acc = _
    rw [stringLoop.eq_def]
    dsimp only
    rw [if_neg (by decide), if_pos rfl, if_neg (by omega), if_neg (by omega), if_pos (by omega)]
  | uni h1 h2 h3 h4 =>
    obtain ⟨n, hn, hs⟩ := hi
    obtain ⟨a, b, c, d, e1, e2, e3, e4, _⟩ := hexValue_some hn
    have f1 := hexDigit_lt e1; have f2 := hexDigit_lt e2; have f3 := hexDigit_lt e3; have f4 := hexDigit_lt e4
    have hs : ¬ (0xD800 ≤ n ∧ n ≤ 0xDFFF) := by
      rcases hs with hs | hs
      · rw [ha] at hs; cases hs
      · exact hs
    obtain ⟨w1, w2⟩ := hexWord_value hn
    obtain ⟨hist', hp⟩ := putN_some ((hist.put 92).put 117) [h1, h2, h3, h4] 4 (by simp)
      (by simp; exact ⟨f1.2.1, f2.2.1, f3.2.1, f4.2.1⟩)
    refine ⟨hist', acc ++ utf8 n, ?_, Upto.uni H hu hp⟩
    show stringLoop env (92 :: 117 :: h1 :: h2 :: h3 :: h4 :: rest) hist warns acc = _
    rw [stringLoop.eq_def]
    dsimp only
    rw [if_neg (by decide), if_pos rfl, if_neg (by decide), if_pos rfl, if_neg (by rw [ha]; simp), hp]
    dsimp only
    rw [w1]
    dsimp only
    rw [toBytes_utf8 _ n w2 hs]

theorem stringLoop_items_upto (H : HistRel input Hd (fun _ => True)) (ha : env.ascii = false) (items : List StrItem) (hi : strWF env.ascii items) (rest : Bytes) (warns : List Exn) : ∀ (hist : LHist) (acc : Bytes),
    Upto input Hd hist (items.flatMap StrItem.text ++ rest) →
    ∃ hist' acc', stringLoop env (items.flatMap StrItem.text ++ rest) hist warns acc = stringLoop env rest hist' warns acc' ∧ Upto input Hd hist' rest := by
  induction items with
  | nil => intro hist acc hu; exact ⟨hist, acc, rfl, hu⟩
  | cons i items ih =>
    intro hist acc hu
    rw [List.flatMap_cons, List.append_assoc] at hu ⊢
    obtain ⟨h1, a1, e1, u1⟩ := stringLoop_item_upto H ha i (hi i (by simp)) _ hist warns acc hu
    obtain ⟨h2, a2, e2, u2⟩ := ih (fun j hj => hi j (by simp [hj])) h1 a1 u1
    exact ⟨h2, a2, e1.trans e2, u2⟩

theorem letters_iff (x : Byte) : isBoolLetter (toLower x) = true ↔ x ∈ b!"aelrsuAELRSU" := by
  unfold isBoolLetter toLower
  by_cases h : 65 ≤ x ∧ x ≤ 90
  · rw [if_pos h]; simp; omega
  · rw [if_neg h]; simp; omega

/-- A run of letters in a boolean literal, and the character after it. -/
theorem boolLoop_letters (fl : Byte) (warns : List Exn) (next : Byte) (after : Bytes) (hn : next ∉ b!"aelrsuAELRSU") (r : Bytes) : ∀ (hist : LHist) (lower raw : Bytes),
    (∀ x ∈ r, x ∈ b!"aelrsuAELRSU") → (lower.length + r.length ≤ 4 ∨ (fl = c%'f' ∧ lower.length + r.length ≤ 5)) →
    boolLoop env fl (r ++ next :: after) hist warns lower raw =
      boolEnd env ⟨after, true, ((r ++ [next]).foldl LHist.put hist), warns⟩ next (lower ++ lowered r) (raw ++ r) := by
  induction r with
  | nil =>
    intro hist lower raw _ _
    have : isBoolLetter (toLower next) = false := by
      cases h : isBoolLetter (toLower next)
      · rfl
      · exact absurd ((letters_iff next).mp h) hn
    simp only [List.nil_append, boolLoop, this, Bool.false_eq_true, if_false, lowered, List.map_nil, List.append_nil, List.foldl_cons, List.foldl_nil]
  | cons x r ih =>
    intro hist lower raw hr hl
    have hx : isBoolLetter (toLower x) = true := (letters_iff x).mpr (hr x (by simp))
    simp only [List.length_cons] at hl
    rw [List.cons_append, boolLoop]
    simp only [hx, if_true]
    rw [if_neg (by rcases hl with hl | ⟨rfl, hl⟩ <;> omega), ih _ _ _ (fun y hy => hr y (by simp [hy])) (by simp only [List.length_append, List.length_cons, List.length_nil]; rcases hl with hl | ⟨h, hl⟩; · left; omega
                                                                                                            · right; exact ⟨h, by omega⟩)]
    simp [lowered, List.append_assoc]

theorem hexWord_badDigit {h1 h2 h3 h4 : Byte} (h : hexValue h1 h2 h3 h4 = none) : hexWord 0 [h1, h2, h3, h4] = .inl (Slip.badDigit h1 h2 h3 h4) := by
  unfold hexValue at h
  simp only [hexWord, hexByte_eq, Slip.badDigit, List.find?]
  cases e1 : hexDigit h1 with
  | none => simp
  | some a =>
    cases e2 : hexDigit h2 with
    | none => simp
    | some b =>
      cases e3 : hexDigit h3 with
      | none => simp
      | some c =>
        cases e4 : hexDigit h4 with
        | none => simp
        | some d => rw [e1, e2, e3, e4] at h; simp at h

/-- The slips that are no token at all. -/
def Slip.NoToken : Slip → Prop
  | .stray _ _ | .word _ _ _ | .nullWord _ _ _ _ _ | .hex _ _ _ _ _ _ => True
  | _ => False

/-- What kind of exception the reader throws. -/
def Slip.kind (ascii : Bool) (p : Place) : Slip → ExnKind
  | .stray _ _ | .word _ _ _ | .nullWord _ _ _ _ _ => .format
  | .hex _ _ h1 h2 h3 h4 => .hexValue (Slip.badDigit h1 h2 h3 h4)
  | .punct _ _ => match p with
    | .key _ _ _ => .notAKey
    | _ => .notJson
  | .notString _ _ => .notAKey
  | .again _ k _ => .doubleKey (strValue ascii k)

/-- A slip that is no token: the reader throws when it gets there. -/
theorem noToken_throws (H : HistRel input Hd (fun _ => True)) (p : Place) (x : Slip) (hx : x.Wrong env.ascii env.strictOr p) (hn : Slip.NoToken x) (after : Bytes) {hist : LHist} {warns : List Exn}
    (hw : ∀ w n x1 x2 x3, x = .nullWord w n x1 x2 x3 → 10 ∉ [x1, x2, x3]) (hh : ∀ w items h1 h2 h3 h4, x = .hex w items h1 h2 h3 h4 → 10 ∉ [h1, h2, h3, h4])
    (hu : Upto input Hd hist (x.text ++ after)) :
    ∃ h, tokenLoop env (x.text ++ after) hist warns = .throw ⟨Slip.kind env.ascii p x, h⟩ ∧ Upto input Hd h after := by
  cases x with
  | stray w c =>
    obtain ⟨hb, h1, h2, h3⟩ := hx
    have et : Slip.text (.stray w c) ++ after = w ++ (c :: after) := by simp [Slip.text]
    rw [et] at hu ⊢
    refine ⟨(w.foldl LHist.put hist).put c, ?_, (hu.puts H).put H⟩
    rw [skip_blank hb, tokenLoop]
    simp at h3
    have hd : isDigit c = false := by unfold isDigit; simp; omega
    rw [if_neg (by omega), if_neg (by omega), if_neg (by omega), if_neg (by rw [hd]; simp; omega), if_neg (by unfold isPunct; simp; omega), if_neg (by unfold ignoreChar; simp; omega)]
    rfl
  | word w l c =>
    obtain ⟨hb, c0, r, rfl, hc0, hr, hl, ht, hf, hnx⟩ := hx
    have et : Slip.text (.word w (c0 :: r) c) ++ after = w ++ (c0 :: (r ++ c :: after)) := by simp [Slip.text]
    rw [et] at hu ⊢
    refine ⟨(r ++ [c]).foldl LHist.put ((w.foldl LHist.put hist).put c0), ?_, ?_⟩
    · rw [skip_blank hb, tokenLoop]
      simp at hc0
      rw [if_neg (by omega), if_pos (by omega)]
      simp only [consumeBool]
      rw [boolLoop_letters _ _ _ _ hnx r _ _ _ hr (by
        simp only [List.length_cons, List.length_nil] at hl ⊢
        rcases hl with hl | ⟨h, hl⟩
        · left; omega
        · right
          refine ⟨?_, by omega⟩
          simp at h
          rcases h with rfl | rfl <;> decide)]
      have hlow : [toLower c0] ++ lowered r = lowered (c0 :: r) := rfl
      rw [hlow]
      unfold boolEnd
      rw [if_pos ⟨ht, hf⟩]
      rfl
    · exact Upto.puts H (r ++ [c]) (by simpa using (hu.puts H).put H)
  | nullWord w n x1 x2 x3 =>
    obtain ⟨hb, hn, hl⟩ := hx
    have et : Slip.text (.nullWord w n x1 x2 x3) ++ after = w ++ (n :: x1 :: x2 :: x3 :: after) := by simp [Slip.text]
    rw [et] at hu ⊢
    have h10 := hw w n x1 x2 x3 rfl
    obtain ⟨h', hp⟩ := putN_some ((w.foldl LHist.put hist).put n) [x1, x2, x3, 0] 3 (by simp) (by
      intro c hc hc10
      subst hc10
      exact h10 (by simpa using hc))
    refine ⟨h', ?_, ?_⟩
    · rw [skip_blank hb, tokenLoop]
      simp at hn
      rw [if_neg (by omega), if_neg (by omega), if_pos (by omega)]
      simp only [consumeNull]
      rw [hp]
      dsimp only
      rw [if_neg (by intro h; exact hl (by simpa [lowered] using h))]
      rfl
    · obtain ⟨t, g1, g2⟩ := (hu.puts H)
      obtain ⟨g3, g4⟩ := H.put' g1 g2
      have g5 : (t ++ [n] ++ [x1, x2, x3]) ++ after = input := by simpa using g4
      exact ⟨_, (H.null _ _ t n x1 x2 x3 g3 (by simpa using hn) ⟨after, g5⟩ hp).1, g5⟩
  | hex w items h1 h2 h3 h4 =>
    obtain ⟨ha, hb, hi, hv⟩ := hx
    have et : Slip.text (.hex w items h1 h2 h3 h4) ++ after = w ++ (34 :: (items.flatMap StrItem.text ++ (92 :: 117 :: h1 :: h2 :: h3 :: h4 :: after))) := by simp [Slip.text]
    rw [et] at hu ⊢
    have h10 := hh w items h1 h2 h3 h4 rfl
    obtain ⟨hA, acc, e1, u1⟩ := stringLoop_items_upto H ha items hi (92 :: 117 :: h1 :: h2 :: h3 :: h4 :: after) warns _ [] ((hu.puts H).put H)
    obtain ⟨h', hp⟩ := putN_some ((hA.put 92).put 117) [h1, h2, h3, h4] 4 (by simp) (by
      intro c hc hc10
      subst hc10
      exact h10 (by simpa using hc))
    refine ⟨h', ?_, u1.uni H hp⟩
    rw [skip_blank hb, tokenLoop]
    rw [if_pos rfl]
    simp only [consumeString]
    rw [e1, stringLoop.eq_def]
    dsimp only
    rw [if_neg (by decide), if_pos rfl, if_neg (by decide), if_pos rfl, if_neg (by rw [ha]; simp), hp]
    dsimp only
    rw [hexWord_badDigit hv]
    rfl
  | punct w c => exact hn.elim
  | notString w d => exact hn.elim
  | again w1 k w2 => exact hn.elim

end Verif.Lemmas
