import Verif.Lemmas.BreaksRead
import Verif.Lemmas.MistakesPlace
/-!
# Lemmas: what is wrong at a place, with line breaks directly after numbers
-/
namespace Verif.Lemmas
open Verif.Model Verif.Spec

variable {input : Bytes} {env : Env}

/-- At the beginning, or between two tokens. -/
def BrStart (input : Bytes) (s : St) : Prop := BrOK input s ∨ (s.good = true ∧ s.rest = input ∧ s.warns = [] ∧ Rec false s.hist [])

/-- The next byte is recorded, or is a line break that was put back. -/
def Poise (h : LHist) (t rest : Bytes) : Prop :=
  ((∃ jp, Rec jp h t) ∧ ∀ c r, rest = c :: r → ¬ (whereAt t = .outside true ∧ isBreak c = true)) ∨ (∃ c r, rest = c :: r ∧ Pend h t c)

theorem BrStart.poise {s : St} (h : BrStart input s) (hg : s.good = true) :
    ∃ t, t ++ s.rest = input ∧ (∃ k, whereAt t = .outside k) ∧ Poise s.hist t s.rest := by
  rcases h with h | ⟨_, h1, _, h2⟩
  · obtain ⟨t, h1, h2, _, _, h3⟩ := h.good hg
    exact ⟨t, h1, h2, h3⟩
  · exact ⟨[], by simpa using h1, ⟨_, rfl⟩, Or.inl ⟨⟨_, h2⟩, fun _ _ _ h => by cases h.1⟩⟩

theorem BrStart.warns {s : St} (h : BrStart input s) : SpotsOK input s.warns := by
  rcases h with h | ⟨_, _, h, _⟩
  · exact h.warns
  · rw [h]; intro w hw; cases hw

theorem BrStart.tok (W : UnbrokenWindows input) {s : St} (hs : BrStart input s) (hg : s.good = true) :
    (consumeToken env s).Post (fun _ s' => BrOK input s') (BrThrow input) := by
  unfold consumeToken
  rw [if_pos hg]
  obtain ⟨t, h1, h2, h3⟩ := hs.poise hg
  exact tokenLoop_br W _ _ _ t h1 h2 h3 hs.warns

theorem br_held (W : UnbrokenWindows input) (env : Env) : Held env (BrStart input) (BrOK input) where
  sub := fun _ h => Or.inl h
  tok := by
    intro s s' t hs h
    by_cases hg : s.good = true
    · exact Post.of_ret (R := fun _ s' => BrOK input s') (hs.tok W hg) h
    · rcases hs with hs | hs
      · exact (Post.of_ret ((br_inv W env).tok s hs) h).1
      · exact absurd hs.1 hg
  item := by
    intro s s' v f hs h
    have hp : (Lemmas.item env f s).Post (fun _ s' => BrOK input s') (BrThrow input) := by
      unfold Lemmas.item
      have ht : (consumeToken env s).Post (fun _ s' => BrOK input s') (BrThrow input) := by
        by_cases hg : s.good = true
        · exact hs.tok W hg
        · rcases hs with hs | hs
          · exact Post.mono ((br_inv W env).tok s hs) (fun _ _ h => h.1) (fun _ h => h)
          · exact absurd hs.1 hg
      refine Post.bind (R := fun _ s => BrOK input s) ht ?_
      intro t s1 h1
      cases t with
      | val v => exact h1
      | nothing => exact h1.spot
      | punct c =>
        simp only [arrItem]
        split
        · exact Post.mono ((reader_inv (br_inv W env) f).2.2.1 s1 h1) (fun _ _ h => h.1) (fun _ h => h)
        · split
          · exact Post.mono ((reader_inv (br_inv W env) f).2.1 none s1 h1 (by simp)) (fun _ _ h => h.1) (fun _ h => h)
          · exact h1.spot
    exact Post.of_ret (R := fun _ s' => BrOK input s') hp h
  warn := fun s k hs => ⟨hs.good, hs.bad, hs.warns.snoc hs.spot⟩

/-- Blanks are skipped, and the byte after them recorded. -/
theorem Poise.skip {w : Bytes} (hb : Blank w) : ∀ {h : LHist} {t r : Bytes} {c : Byte} {k : Bool}, Poise h t (w ++ c :: r) → whereAt t = .outside k → isBreak c = false →
    Rec false ((w.foldl LHist.put h).put c) (t ++ w ++ [c]) ∧ ∃ k', whereAt (t ++ w) = .outside k' := by
  have one : ∀ {h : LHist} {t r : Bytes} {c : Byte}, Poise h t (c :: r) → ∃ jp, Rec jp (h.put c) (t ++ [c]) ∧ (isBreak c = false → jp = false) := by
    intro h t r c hp
    rcases hp with ⟨⟨jp, h1⟩, h2⟩ | ⟨c', r', h1, h2⟩
    · exact ⟨_, h1.once (h2 c r rfl), fun h => by rw [h]; simp⟩
    · simp at h1
      obtain ⟨rfl, rfl⟩ := h1
      exact ⟨false, h2.put, fun _ => rfl⟩
  induction w with
  | nil =>
    intro h t r c k hp hm hc
    obtain ⟨jp, h1, h2⟩ := one hp
    rw [h2 hc] at h1
    exact ⟨by simpa using h1, k, by simpa using hm⟩
  | cons x w ih =>
    intro h t r c k hp hm hc
    obtain ⟨jp, h1, _⟩ := one hp
    have hx := hb x (by simp)
    have hi : ignoreChar x = true := by simp [ignoreChar]; omega
    have hm' := where_ignored hm (by omega) hi
    have := ih (fun c hc => hb c (by simp [hc])) (h := h.put x) (t := t ++ [x]) (r := r) (c := c) (k := false)
      (Or.inl ⟨⟨_, h1⟩, fun _ _ _ hx => by rw [hm'] at hx; simp at hx⟩) hm' hc
    simpa using this

/-- Several bytes without line breaks. -/
theorem Rec.puts {h : LHist} {t : Bytes} (hr : Rec false h t) (xs : Bytes) (hb : ∀ c ∈ xs, isBreak c = false) : Rec false (xs.foldl LHist.put h) (t ++ xs) := by
  induction xs generalizing h t with
  | nil => simpa using hr
  | cons x xs ih =>
    have := ih (hr.plain (hb x (by simp))) (fun c hc => hb c (by simp [hc]))
    simpa using this

/-- Items of a string. -/
theorem stringLoop_items_rec (ha : env.ascii = false) (items : List StrItem) (hi : strWF env.ascii items) (rest : Bytes) (warns : List Exn) : ∀ (hist : LHist) (acc : Bytes) (t : Bytes) (jp : Bool),
    Rec jp hist t → whereAt t = .inside →
    ∃ hist' acc' jp', stringLoop env (items.flatMap StrItem.text ++ rest) hist warns acc = stringLoop env rest hist' warns acc' ∧ Rec jp' hist' (t ++ items.flatMap StrItem.text) ∧
      whereAt (t ++ items.flatMap StrItem.text) = .inside := by
  induction items with
  | nil => intro hist acc t jp hr hm; exact ⟨hist, acc, jp, rfl, by simpa using hr, by simpa using hm⟩
  | cons i items ih =>
    intro hist acc t jp hr hm
    have step : ∃ hist' acc' jp', stringLoop env (i.text ++ (items.flatMap StrItem.text ++ rest)) hist warns acc = stringLoop env (items.flatMap StrItem.text ++ rest) hist' warns acc' ∧
        Rec jp' hist' (t ++ i.text) ∧ whereAt (t ++ i.text) = .inside := by
      generalize items.flatMap StrItem.text ++ rest = rest
      have hi := hi i (by simp)
      have two : ∀ c : Byte, Rec ((false : Bool) && isBreak c) ((hist.put 92).put c) (t ++ [92, c]) ∧ whereAt (t ++ [92, c]) = .inside := by
        intro c
        have hm' : whereAt (t ++ [92]) = .escaped := by rw [whereAt_snoc, hm]; rfl
        rw [show t ++ [92, c] = t ++ [92] ++ [c] by simp]
        exact ⟨(hr.plain (c := 92) rfl).inside c (Or.inr hm'), by rw [whereAt_snoc, hm']; rfl⟩
      cases i with
      | raw c =>
        obtain ⟨h1, h2⟩ := hi
        refine ⟨hist.put c, acc ++ [c], _, ?_, hr.inside c (Or.inl hm), ?_⟩
        · show stringLoop env (c :: rest) hist warns acc = _
          rw [stringLoop.eq_def]
          dsimp only
          rw [if_neg h1, if_neg h2]
        · show whereAt (t ++ [c]) = _
          rw [whereAt_snoc, hm]
          simp [Where.next]
          rw [if_neg h1, if_neg h2]
      | esc c =>
        have h : c = 34 ∨ c = 92 ∨ c = 47 := by simpa [StrItem.WF] using hi
        refine ⟨(hist.put 92).put c, acc ++ [c], _, ?_, (two c).1, (two c).2⟩
        show stringLoop env (92 :: c :: rest) hist warns acc = _
        rw [stringLoop.eq_def]
        dsimp only
        rw [if_neg (by decide), if_pos rfl, if_pos (by omega)]
      | ctl c =>
        have h : c = 98 ∨ c = 102 ∨ c = 110 ∨ c = 114 ∨ c = 116 := by simpa [StrItem.WF] using hi
        refine ⟨(hist.put 92).put c, acc ++ [92, c], _, ?_, (two c).1, (two c).2⟩
        show stringLoop env (92 :: c :: rest) hist warns acc = _
        rw [stringLoop.eq_def]
        dsimp only
        rw [if_neg (by decide), if_pos rfl, if_neg (by omega), if_neg (by omega), if_pos (by omega)]
      | uni h1 h2 h3 h4 =>
        obtain ⟨n, hn, hs⟩ := hi
        obtain ⟨a, b, c, d, e1, e2, e3, e4, _⟩ := hexValue_some hn
        have f1 := hexDigit_lt e1; have f2 := hexDigit_lt e2; have f3 := hexDigit_lt e3; have f4 := hexDigit_lt e4
        have hs : ¬ (0xD800 ≤ n ∧ n ≤ 0xDFFF) := by
          rcases hs with hs | hs
          · rw [ha] at hs; cases hs
          · exact hs
        obtain ⟨w1, w2⟩ := hexWord_value hn
        obtain ⟨hist', hp⟩ := putN_some ((hist.put 92).put 117) [h1, h2, h3, h4] 4 (by simp)
          (by simp; exact ⟨f1.2.1, f2.2.1, f3.2.1, f4.2.1⟩)
        have hdig := hexWord_digits _ _ _ w1
        have hb : ∀ c ∈ [h1, h2, h3, h4], isBreak c = false := by
          intro c hc
          obtain ⟨v, hv⟩ := hdig c hc
          exact notBreak_of (by rintro rfl; revert hv; decide +revert) (by rintro rfl; revert hv; decide +revert)
        obtain ⟨g1, _, g3, g4, _⟩ := hr.escape (input := t ++ 92 :: 117 :: []) (r := []) hm rfl
        obtain ⟨jp', g6⟩ := g1.batch g4 [h1, h2, h3, h4] 4 (by simp) (by decide) hb hp
        have et : t ++ StrItem.text (.uni h1 h2 h3 h4) = t ++ [92, 117] ++ [h1, h2, h3, h4] := by simp [StrItem.text]
        rw [et]
        refine ⟨hist', acc ++ utf8 n, jp', ?_, g6, where_hex _ g3 hdig⟩
        show stringLoop env (92 :: 117 :: h1 :: h2 :: h3 :: h4 :: rest) hist warns acc = _
        rw [stringLoop.eq_def]
        dsimp only
        rw [if_neg (by decide), if_pos rfl, if_neg (by decide), if_pos rfl, if_neg (by rw [ha]; simp), hp]
        dsimp only
        rw [w1]
        dsimp only
        rw [toBytes_utf8 _ n w2 hs]
    obtain ⟨h1, a1, j1, e1, r1, m1⟩ := step
    obtain ⟨h2, a2, j2, e2, r2, m2⟩ := ih (fun j hj => hi j (by simp [hj])) h1 a1 _ _ r1 m1
    rw [List.flatMap_cons]
    refine ⟨h2, a2, j2, ?_, by rw [← List.append_assoc]; exact r2, by rw [← List.append_assoc]; exact m2⟩
    rw [List.append_assoc]
    exact e1.trans e2

/-- A text without the line break at its end. -/
theorem upToBreak_snoc (t : Bytes) (c : Byte) : upToBreak (t ++ [c]) = if isBreak c = true then t else t ++ [c] := by
  unfold upToBreak
  rw [endsLine_snoc]
  split <;> simp_all

theorem outside_true_last {t : Bytes} {d : Byte} (hm : whereAt (t ++ [d]) = .outside true) : endsNumber d = true := by
  rw [whereAt_snoc] at hm
  cases hq : whereAt t with
  | outside k =>
    rw [hq] at hm
    by_cases hq : d = 34
    · simp [Where.next, hq] at hm
    · simpa [Where.next, hq] using hm
  | inside =>
    rw [hq] at hm
    by_cases hq : d = 34
    · simp [Where.next, hq] at hm
    · by_cases hq' : d = 92 <;> simp [Where.next, hq, hq'] at hm
  | escaped => rw [hq] at hm; cases hm

/-- What is shown at the end of a text that ends with something else than a line break. -/
theorem Rec.showsEnd {jp : Bool} {h : LHist} {t : Bytes} {c : Byte} (hr : Rec jp h (t ++ [c])) (hc : isBreak c = false) :
    ShowsAt h (upToBreak (t ++ [c])) ∧ lineText (upToBreak (t ++ [c])) ≠ [] := by
  rw [upToBreak_snoc, hc]
  exact ⟨hr.shows (snoc_ends hc).1, (snoc_ends hc).2⟩

/-- A slip that is no token: what the history shows. -/
theorem noToken_shows (W : UnbrokenWindows input) (p : Place) (x : Slip) (hx : x.Wrong env.ascii env.strictOr p) (hn : Slip.NoToken x) (after : Bytes)
    {t : Bytes} (ht : t ++ (x.text ++ after) = input) {k : Bool} (hm : whereAt t = .outside k) {hist : LHist} {warns : List Exn} (hp : Poise hist t (x.text ++ after)) :
    ∃ h, tokenLoop env (x.text ++ after) hist warns = .throw ⟨Slip.kind env.ascii p x, h⟩ ∧ (ShowsAt h (upToBreak (t ++ x.text)) ∧ lineText (upToBreak (t ++ x.text)) ≠ []) := by
  cases x with
  | stray w c =>
    obtain ⟨hb, h1, h2, h3⟩ := hx
    have et : Slip.text (.stray w c) ++ after = w ++ (c :: after) := by simp [Slip.text]
    rw [et] at hp ⊢
    have hc : isBreak c = false := by unfold isBreak; simp; omega
    obtain ⟨r1, _⟩ := hp.skip hb hm hc
    refine ⟨(w.foldl LHist.put hist).put c, ?_, by rw [show t ++ Slip.text (.stray w c) = t ++ w ++ [c] by simp [Slip.text]]; exact r1.showsEnd hc⟩
    rw [skip_blank hb, tokenLoop]
    simp at h3
    have hd : isDigit c = false := by unfold isDigit; simp; omega
    rw [if_neg (by omega), if_neg (by omega), if_neg (by omega), if_neg (by rw [hd]; simp; omega), if_neg (by unfold isPunct; simp; omega), if_neg (by unfold ignoreChar; simp; omega)]
    rfl
  | word w l c =>
    obtain ⟨hb, c0, r, rfl, hc0, hr, hl, htr, hf, hnx⟩ := hx
    have et : Slip.text (.word w (c0 :: r) c) ++ after = w ++ (c0 :: (r ++ c :: after)) := by simp [Slip.text]
    rw [et] at hp ⊢
    have hc0b : isBreak c0 = false := by simp at hc0; unfold isBreak; simp; omega
    have hrb : ∀ y ∈ r, isBreak y = false := by intro y hy; have := hr y hy; simp at this; unfold isBreak; simp; omega
    obtain ⟨r1, _⟩ := hp.skip hb hm hc0b
    have r2 := r1.puts r hrb
    obtain ⟨l1, l2⟩ := line_append hrb (snoc_ends (t := t ++ w) hc0b).1 (snoc_ends (t := t ++ w) hc0b).2
    refine ⟨(r ++ [c]).foldl LHist.put ((w.foldl LHist.put hist).put c0), ?_, ?_⟩
    · rw [skip_blank hb, tokenLoop]
      simp at hc0
      rw [if_neg (by omega), if_pos (by omega)]
      simp only [consumeBool]
      rw [boolLoop_letters _ _ _ _ hnx r _ _ _ hr (by
        simp only [List.length_cons, List.length_nil] at hl ⊢
        rcases hl with hl | ⟨h, hl⟩
        · left; omega
        · right
          refine ⟨?_, by omega⟩
          simp at h
          rcases h with rfl | rfl <;> decide)]
      have hlow : [toLower c0] ++ lowered r = lowered (c0 :: r) := rfl
      rw [hlow]
      unfold boolEnd
      rw [if_pos ⟨htr, hf⟩]
      rfl
    · rw [show t ++ Slip.text (.word w (c0 :: r) c) = (t ++ w ++ [c0] ++ r) ++ [c] by simp [Slip.text], List.foldl_append]
      simp only [List.foldl_cons, List.foldl_nil]
      rw [upToBreak_snoc]
      obtain ⟨t', h1, h2, h3, h4⟩ := r2.showsPut l1 l2 c
      split
      · rename_i hcb
        rcases h1 with rfl | rfl
        · exact ⟨h2, h4⟩
        · rw [endsLine_snoc, hcb] at h3; cases h3
      · rename_i hcb
        have hcb : isBreak c = false := by simpa using hcb
        exact ⟨(r2.plain hcb).shows (snoc_ends hcb).1, (snoc_ends hcb).2⟩
  | nullWord w n x1 x2 x3 =>
    obtain ⟨hb, hn, hl⟩ := hx
    have et : Slip.text (.nullWord w n x1 x2 x3) ++ after = w ++ (n :: x1 :: x2 :: x3 :: after) := by simp [Slip.text]
    rw [et] at hp ht ⊢
    have hn' : n = 110 ∨ n = 78 := by simpa using hn
    have hnb : isBreak n = false := nullStart_notBreak hn'
    obtain ⟨r1, k', hk⟩ := hp.skip hb hm hnb
    have hbr : ∀ c ∈ [x1, x2, x3], isBreak c = false := by
      intro c hc
      simp at hc
      rcases hc with rfl | rfl | rfl
      · exact W.1 (t ++ w) n [] c ⟨x2 :: x3 :: after, by rw [← ht]; simp⟩ ⟨k', hk⟩ hn' (by simp)
      · exact W.1 (t ++ w) n [x1] c ⟨x3 :: after, by rw [← ht]; simp⟩ ⟨k', hk⟩ hn' (by simp)
      · exact W.1 (t ++ w) n [x1, x2] c ⟨after, by rw [← ht]; simp⟩ ⟨k', hk⟩ hn' (by simp)
    obtain ⟨h', hpn⟩ := putN_some ((w.foldl LHist.put hist).put n) [x1, x2, x3, 0] 3 (by simp) (by
      intro c hc hc10
      subst hc10
      have := hbr 10 (by simpa using hc)
      cases this)
    obtain ⟨jp, r2⟩ := r1.batch (snoc_ends hnb).1 [x1, x2, x3, 0] 3 (by simp) (by decide) hbr hpn
    refine ⟨h', ?_, ?_⟩
    · rw [skip_blank hb, tokenLoop]
      rw [if_neg (by omega), if_neg (by omega), if_pos (by omega)]
      simp only [consumeNull]
      rw [hpn]
      dsimp only
      rw [if_neg (by intro h; exact hl (by simpa [lowered] using h))]
      rfl
    · rw [show t ++ Slip.text (.nullWord w n x1 x2 x3) = (t ++ w ++ [n, x1, x2]) ++ [x3] by simp [Slip.text]]
      refine Rec.showsEnd (jp := jp) ?_ (hbr x3 (by simp))
      simpa using r2
  | hex w items h1 h2 h3 h4 =>
    obtain ⟨ha, hb, hi, hv⟩ := hx
    have et : Slip.text (.hex w items h1 h2 h3 h4) ++ after = w ++ (34 :: (items.flatMap StrItem.text ++ (92 :: 117 :: h1 :: h2 :: h3 :: h4 :: after))) := by simp [Slip.text]
    rw [et] at hp ht ⊢
    obtain ⟨r1, k', hk⟩ := hp.skip hb hm (by decide)
    obtain ⟨hA, acc, jp, e1, r2, m2⟩ := stringLoop_items_rec ha items hi (92 :: 117 :: h1 :: h2 :: h3 :: h4 :: after) warns _ [] _ _ r1 (by rw [whereAt_snoc, hk]; rfl)
    have hbr : ∀ c ∈ [h1, h2, h3, h4], isBreak c = false := by
      intro c hc
      simp at hc
      rcases hc with rfl | rfl | rfl | rfl
      · exact W.2 _ [] c ⟨h2 :: h3 :: h4 :: after, by rw [← ht]; simp⟩ m2 (by simp)
      · exact W.2 _ [h1] c ⟨h3 :: h4 :: after, by rw [← ht]; simp⟩ m2 (by simp)
      · exact W.2 _ [h1, h2] c ⟨h4 :: after, by rw [← ht]; simp⟩ m2 (by simp)
      · exact W.2 _ [h1, h2, h3] c ⟨after, by rw [← ht]; simp⟩ m2 (by simp)
    obtain ⟨h', hpn⟩ := putN_some ((hA.put 92).put 117) [h1, h2, h3, h4] 4 (by simp) (by
      intro c hc hc10
      subst hc10
      have := hbr 10 (by simpa using hc)
      cases this)
    obtain ⟨g1, _, _, g4, _⟩ := r2.escape (input := _ ++ 92 :: 117 :: []) (r := []) m2 rfl
    obtain ⟨jp', r3⟩ := g1.batch g4 [h1, h2, h3, h4] 4 (by simp) (by decide) hbr hpn
    refine ⟨h', ?_, ?_⟩
    · rw [skip_blank hb, tokenLoop]
      rw [if_pos rfl]
      simp only [consumeString]
      rw [e1, stringLoop.eq_def]
      dsimp only
      rw [if_neg (by decide), if_pos rfl, if_neg (by decide), if_pos rfl, if_neg (by rw [ha]; simp), hpn]
      dsimp only
      rw [hexWord_badDigit hv]
      rfl
    · rw [show t ++ Slip.text (.hex w items h1 h2 h3 h4) = (t ++ w ++ [34] ++ items.flatMap StrItem.text ++ [92, 117, h1, h2, h3]) ++ [h4] by simp [Slip.text]]
      refine Rec.showsEnd (jp := jp') ?_ (hbr h4 (by simp))
      simpa using r3
  | punct w c => exact hn.elim
  | notString w d => exact hn.elim
  | again w1 k w2 => exact hn.elim

/-- What the history shows when the mistake is reported: the text up to it, without a line break at its end; or, if the mistake is a number or boolean for a key with a line break after it, this text without its last
byte. -/
def Shown (input : Bytes) (p : Place) (x : Slip) (after : Bytes) (h : LHist) : Prop :=
  (ShowsAt h (upToBreak (p.text ++ x.text)) ∧ lineText (upToBreak (p.text ++ x.text)) ≠ []) ∨
  ((∃ w d, x = .notString w d) ∧ (∃ c r, after = c :: r ∧ isBreak c = true) ∧ LacksOne input h (p.text ++ x.text))

/-- A mistake is reported, and this is what the history then shows. -/
theorem slip_throws_br (W : UnbrokenWindows input) (p : Place) (hg : p.Good env.ascii env.strictOr) (x : Slip) (hx : x.Wrong env.ascii env.strictOr p) (after : Bytes)
    (he : p.Ends (x.text ++ after)) (hx' : x.EndsWith after) (hi : p.text ++ (x.text ++ after) = input) {hist : LHist} (hr : Rec false hist []) :
    ∃ h, FailsV env ⟨p.text ++ (x.text ++ after), true, hist, []⟩ ⟨Slip.kind env.ascii p x, h⟩ ∧ Shown input p x after h := by
  refine slip_throws_held (br_held W env) (Shown input p x after) p hg x hx after he hx' ?_ ?_ ?_ (Or.inr ⟨rfl, hi, rfl, hr⟩)
  · intro hn h ws s1
    obtain ⟨t, h1, ⟨k, h2⟩, h3⟩ := s1.poise rfl
    have ht : t = p.text := List.append_cancel_right (h1.trans hi.symm)
    subst ht
    obtain ⟨h', e, hs⟩ := noToken_shows W p x hx hn after h1 h2 h3 (warns := ws)
    exact ⟨h', e, Or.inl hs⟩
  · intro w c ex hp h ws s1
    subst ex
    obtain ⟨t, h1, ⟨k, h2⟩, h3⟩ := BrStart.poise (Or.inl s1) rfl
    have ht : t = p.text := by
      refine List.append_cancel_right (h1.trans (hi.symm.trans ?_))
      simp [Slip.text]
    subst ht
    obtain ⟨r, _⟩ := h3.skip hx.1 h2 (punct_notBreak hp)
    left
    rw [show p.text ++ Slip.text (.punct w c) = (p.text ++ w) ++ [c] by simp [Slip.text]]
    exact r.showsEnd (punct_notBreak hp)
  · intro hn h ws s1
    obtain ⟨t, h1, ⟨k, h2⟩, hl, hne, h3⟩ := s1.good rfl
    have ht : t = p.text ++ x.text := by
      refine List.append_cancel_right (h1.trans (hi.symm.trans ?_))
      simp
    subst ht
    rcases h3 with ⟨⟨jp, h3⟩, _⟩ | ⟨c, r, hc, h3⟩
    · left
      have hu : upToBreak (p.text ++ x.text) = p.text ++ x.text := by unfold upToBreak; rw [hl]; rfl
      rw [hu]
      exact ⟨h3.shows hl, hne⟩
    · right
      have hL : LacksOne input h (p.text ++ x.text) := h3.lacks hne ⟨r, by rw [← h1, hc]; simp⟩
      refine ⟨?_, ⟨c, r, hc, h3.2.2.1⟩, hL⟩
      cases x with
      | stray w c => exact absurd trivial hn
      | word w l c => exact absurd trivial hn
      | nullWord w n x1 x2 x3 => exact absurd trivial hn
      | hex w items h1 h2 h3 h4 => exact absurd trivial hn
      | notString w d => exact ⟨w, d, rfl⟩
      | punct w c =>
        exfalso
        have := hL.1
        rw [show p.text ++ Slip.text (.punct w c) = (p.text ++ w) ++ [c] by simp [Slip.text]] at this
        have hend := outside_true_last this
        obtain ⟨_, hx⟩ := hx
        cases p with
        | value fs => obtain ⟨_, _, _, _, hc⟩ := hx; simp at hc; revert hend; rcases hc with (rfl | rfl | rfl) | ⟨rfl, _⟩ <;> decide
        | key fs w ms => simp at hx; revert hend; rcases hx with (rfl | rfl | rfl | rfl | rfl) | ⟨rfl, _⟩ <;> decide
        | _ => exact hx.elim
      | again w1 k w2 =>
        exfalso
        have := hL.1
        rw [show p.text ++ Slip.text (.again w1 k w2) = (p.text ++ w1 ++ strText k ++ w2) ++ [58] by simp [Slip.text]] at this
        exact absurd (outside_true_last this) (by decide)

end Verif.Lemmas
