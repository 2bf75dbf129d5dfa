import Verif.Lemmas.Breaks
/-!
# Lemmas: the history of the reader, with line breaks directly after numbers
-/
namespace Verif.Lemmas
open Verif.Model Verif.Spec

/-- Where a report is: a position up to which the input was read, shown as it is or without its last byte. -/
def Spot (input : Bytes) (h : LHist) : Prop :=
  ∃ t, ReadUpTo input t ∧ endsLine t = false ∧ lineText t ≠ [] ∧ (ShowsAt h t ∨ LacksOne input h t)

def SpotsOK (input : Bytes) (ws : List Exn) : Prop := ∀ w ∈ ws, ∃ t, ReadUpTo input t ∧ endsLine t = false ∧ lineText t ≠ [] ∧ (ShowsAt w.hist t ∨ LacksOne input w.hist t)

/-- The state between two tokens. -/
structure BrOK (input : Bytes) (s : St) : Prop where
  good : s.good = true → ∃ t, t ++ s.rest = input ∧ (∃ k, whereAt t = .outside k) ∧ endsLine t = false ∧ lineText t ≠ [] ∧
    (((∃ jp, Rec jp s.hist t) ∧ ∀ c r, s.rest = c :: r → ¬ (whereAt t = .outside true ∧ isBreak c = true)) ∨ (∃ c r, s.rest = c :: r ∧ Pend s.hist t c))
  bad : s.good = false → s.rest = [] ∧ ∃ t jp, ReadUpTo input t ∧ endsLine t = false ∧ lineText t ≠ [] ∧ Rec jp s.hist t
  warns : SpotsOK input s.warns

def BrThrow (input : Bytes) : Out Empty → Prop
  | .throw e => Spot input e.hist
  | _ => True

variable {input : Bytes} {env : Env}

theorem BrOK.spot {s : St} (h : BrOK input s) : Spot input s.hist := by
  cases hg : s.good
  · obtain ⟨_, t, jp, h1, h2, h3, h4⟩ := h.bad hg
    exact ⟨t, h1, h2, h3, Or.inl (h4.shows h2)⟩
  · obtain ⟨t, h1, _, h2, h3, ⟨⟨jp, h4⟩, _⟩ | ⟨c, r, hr, h4⟩⟩ := h.good hg
    · exact ⟨t, Or.inl ⟨_, h1⟩, h2, h3, Or.inl (h4.shows h2)⟩
    · refine ⟨t, Or.inl ⟨_, h1⟩, h2, h3, Or.inr (h4.lacks h3 ⟨r, ?_⟩)⟩
      rw [← h1, hr]; simp

theorem SpotsOK.snoc {ws : List Exn} (h : SpotsOK input ws) {e : Exn} (he : Spot input e.hist) : SpotsOK input (ws ++ [e]) := by
  intro w hw
  simp at hw
  rcases hw with hw | rfl
  · exact h w hw
  · exact he

/-- Between two tokens, after a byte that is not the end of a number. -/
theorem BrOK.ret {rest : Bytes} {hist : LHist} {warns : List Exn} {t : Bytes} {jp : Bool} (h : Rec jp hist t) (e : t ++ rest = input)
    (hm : whereAt t = .outside false) (h1 : endsLine t = false) (h2 : lineText t ≠ []) (hw : SpotsOK input warns) : BrOK input ⟨rest, true, hist, warns⟩ :=
  ⟨fun _ => ⟨t, e, ⟨_, hm⟩, h1, h2, Or.inl ⟨⟨_, h⟩, fun c r _ hc => by rw [hm] at hc; simp at hc⟩⟩, by simp, hw⟩

theorem BrOK.eof {hist : LHist} {warns : List Exn} {t : Bytes} {jp : Bool} (h : Rec jp hist t) (e : ReadUpTo input t)
    (h1 : endsLine t = false) (h2 : lineText t ≠ []) (hw : SpotsOK input warns) : BrOK input ⟨[], false, hist, warns⟩ :=
  ⟨by simp, fun _ => ⟨rfl, t, jp, e, h1, h2, h⟩, hw⟩

theorem snoc_ends {t : Bytes} {c : Byte} (h : isBreak c = false) : endsLine (t ++ [c]) = false ∧ lineText (t ++ [c]) ≠ [] :=
  ⟨by rw [endsLine_snoc]; exact h, by rw [lineText_snoc t c h]; simp⟩

theorem shift {t r : Bytes} {c : Byte} (e : t ++ c :: r = input) : (t ++ [c]) ++ r = input := by simpa using e

theorem Rec.eof {jp : Bool} {h : LHist} {t : Bytes} (hr : Rec jp h t) (e : t ++ [] = input) :
    Rec false (h.put 255) (t ++ [255]) ∧ ReadUpTo input (t ++ [255]) ∧ endsLine (t ++ [255]) = false ∧ lineText (t ++ [255]) ≠ [] := by
  simp at e
  exact ⟨hr.plain rfl, Or.inr (Or.inl (by rw [e])), snoc_ends rfl⟩

/-- A report directly after a byte. -/
theorem Rec.spotPut {jp : Bool} {h : LHist} {t r : Bytes} {c : Byte} (hr : Rec jp h t) (e : t ++ c :: r = input) (ht : endsLine t = false) (hl : lineText t ≠ []) : Spot input (h.put c) := by
  obtain ⟨t', h1, h2, h3, h4⟩ := hr.showsPut ht hl c
  refine ⟨t', Or.inl ?_, h3, h4, Or.inl h2⟩
  rcases h1 with rfl | rfl
  · exact ⟨_, e⟩
  · exact ⟨r, shift e⟩

/-- Inside a string every byte is recorded once. -/
theorem Rec.inside {jp : Bool} {h : LHist} {t : Bytes} (hr : Rec jp h t) (c : Byte) (hm : whereAt t = .inside ∨ whereAt t = .escaped) :
    Rec (jp && isBreak c) (h.put c) (t ++ [c]) :=
  hr.once (by rcases hm with hm | hm <;> rw [hm] <;> simp)

theorem hexWord_digits (xs : Bytes) : ∀ acc n, hexWord acc xs = .inr n → ∀ c ∈ xs, ∃ v, hexByte c = some v := by
  induction xs with
  | nil => intro _ _ _ c hc; cases hc
  | cons x xs ih =>
    intro acc n h c hc
    rw [hexWord] at h
    cases hx : hexByte x with
    | none => rw [hx] at h; cases h
    | some v =>
      rw [hx] at h
      rcases List.mem_cons.mp hc with rfl | hc
      · exact ⟨v, hx⟩
      · exact ih _ _ h c hc

theorem hexDigit_next {c : Byte} {v : Nat} (h : hexByte c = some v) : Where.inside.next c = .inside := by
  have : c ≠ 34 ∧ c ≠ 92 := ⟨by rintro rfl; revert h; decide +revert, by rintro rfl; revert h; decide +revert⟩
  simp [Where.next, this.1, this.2]

theorem where_hex {t : Bytes} (xs : Bytes) (ht : whereAt t = .inside) (h : ∀ c ∈ xs, ∃ v, hexByte c = some v) : whereAt (t ++ xs) = .inside := by
  induction xs generalizing t with
  | nil => simpa using ht
  | cons x xs ih =>
    rw [show t ++ x :: xs = t ++ [x] ++ xs by simp]
    obtain ⟨v, hv⟩ := h x (by simp)
    exact ih (by rw [whereAt_snoc, ht, hexDigit_next hv]) (fun c hc => h c (List.mem_cons_of_mem _ hc))

/-- A batch without line breaks. -/
theorem Rec.batch {jp : Bool} {h h' : LHist} {t : Bytes} (hr : Rec jp h t) (ht : endsLine t = false) (mem : Bytes) (count : Nat) (hc : count ≤ mem.length) (h45 : count ≤ 45)
    (hb : ∀ c ∈ mem.take count, isBreak c = false) (e : h.putN mem count = some h') : ∃ jp', Rec jp' h' (t ++ mem.take count) := by
  refine ⟨jp && count == 0, ?_⟩
  unfold Rec
  rw [recorded_plain _ hb]
  exact Records.putN hr mem count hc h45 hb (by rw [endsLine_recorded]; exact ht) e

theorem line_append {t xs : Bytes} (hb : ∀ c ∈ xs, isBreak c = false) (h1 : endsLine t = false) (h2 : lineText t ≠ []) :
    endsLine (t ++ xs) = false ∧ lineText (t ++ xs) ≠ [] := by
  rcases xs.eq_nil_or_concat with rfl | ⟨l, x, rfl⟩
  · simpa using ⟨h1, h2⟩
  · rw [List.concat_eq_append, ← List.append_assoc]
    exact snoc_ends (hb x (by simp))

/-- After the `\u` of an escape. -/
theorem Rec.escape {jp : Bool} {h : LHist} {t r : Bytes} (hr : Rec jp h t) (hm : whereAt t = .inside) (e : t ++ 92 :: 117 :: r = input) :
    Rec false ((h.put 92).put 117) (t ++ [92, 117]) ∧ t ++ [92, 117] ++ r = input ∧ whereAt (t ++ [92, 117]) = .inside ∧
    endsLine (t ++ [92, 117]) = false ∧ lineText (t ++ [92, 117]) ≠ [] := by
  have h1 := (hr.plain (c := 92) rfl).plain (c := 117) rfl
  rw [show t ++ [92, 117] = t ++ [92] ++ [117] by simp]
  refine ⟨h1, by simpa using e, ?_, snoc_ends rfl⟩
  rw [whereAt_snoc, whereAt_snoc, hm]
  rfl

theorem stringLoop_br (W : UnbrokenWindows input) (rest : Bytes) (hist : LHist) (warns : List Exn) (acc : Bytes) :
    ∀ t jp, Rec jp hist t → whereAt t = .inside → t ++ rest = input → SpotsOK input warns →
    (stringLoop env rest hist warns acc).Post (fun _ s => BrOK input s) (BrThrow input) := by
  fun_induction stringLoop env rest hist warns acc
  case case1 =>
    intro t jp hd hm e hw
    obtain ⟨h1, h2, h3, h4⟩ := hd.eof e
    exact BrOK.eof h1 h2 h3 h4 hw
  case case2 =>
    intro t jp hd hm e hw
    obtain ⟨h1, h2⟩ := snoc_ends (t := t) (c := 34) rfl
    exact BrOK.ret (hd.plain (c := 34) rfl) (shift e) (by rw [whereAt_snoc, hm]; rfl) h1 h2 hw
  case case3 =>
    intro t jp hd hm e hw
    obtain ⟨h1, h2, h3, h4⟩ := (hd.plain (c := 92) rfl).eof (shift e)
    exact ⟨_, h2, h3, h4, Or.inl (h1.shows h3)⟩
  case case4 =>
    intro t jp hd hm e hw
    obtain ⟨h1, h2, h3, h4⟩ := (hd.plain (c := 92) rfl).eof (shift e)
    exact BrOK.eof h1 h2 h3 h4 (hw.snoc ⟨_, h2, h3, h4, Or.inl (h1.shows h3)⟩)
  case case10 x1 x2 x3 x4 rest _ n hn bs _ _ _ _ _ hp ih =>
    intro t jp hd hm e hw
    obtain ⟨h1, h2, h3, h4, h5⟩ := hd.escape hm e
    have hdig := hexWord_digits _ _ _ hn
    have hb : ∀ c ∈ [x1, x2, x3, x4], isBreak c = false := by
      intro c hc
      obtain ⟨v, hv⟩ := hdig c hc
      exact notBreak_of (by rintro rfl; revert hv; decide +revert) (by rintro rfl; revert hv; decide +revert)
    obtain ⟨jp', h6⟩ := h1.batch h4 [x1, x2, x3, x4] 4 (by simp) (by decide) hb hp
    exact ih _ _ h6 (where_hex _ h3 hdig) (by simpa using h2) hw
  case case8 x1 x2 x3 x4 rest _ bad hn _ _ _ _ hp =>
    intro t jp hd hm e hw
    obtain ⟨h1, h2, h3, h4, h5⟩ := hd.escape hm e
    have hb : ∀ c ∈ [x1, x2, x3, x4], isBreak c = false := by
      intro c hc
      simp at hc
      rcases hc with rfl | rfl | rfl | rfl
      · exact W.2 t [] c ⟨x2 :: x3 :: x4 :: rest, by rw [← e]; simp⟩ hm (by simp)
      · exact W.2 t [x1] c ⟨x3 :: x4 :: rest, by rw [← e]; simp⟩ hm (by simp)
      · exact W.2 t [x1, x2] c ⟨x4 :: rest, by rw [← e]; simp⟩ hm (by simp)
      · exact W.2 t [x1, x2, x3] c ⟨rest, by rw [← e]; simp⟩ hm (by simp)
    obtain ⟨jp', h6⟩ := h1.batch h4 [x1, x2, x3, x4] 4 (by simp) (by decide) hb hp
    obtain ⟨h7, h8⟩ := line_append hb h4 h5
    exact ⟨_, Or.inl ⟨rest, by rw [← h2]; simp⟩, h7, h8, Or.inl (h6.shows h7)⟩
  case case12 rest hshort _ _ _ _ _ hp =>
    intro t jp hd hm e hw
    obtain ⟨h1, h2, h3, h4, h5⟩ := hd.escape hm e
    have hlen : rest.length < 4 := by
      rcases rest with _ | ⟨_, _ | ⟨_, _ | ⟨_, _ | ⟨_, _⟩⟩⟩⟩ <;> simp
      exact absurd rfl (hshort _ _ _ _ _)
    have hb : ∀ c ∈ rest, isBreak c = false := by
      intro c hc
      obtain ⟨u, v, rfl⟩ := List.append_of_mem hc
      exact W.2 t u c ⟨v, by rw [← e]; simp⟩ hm (by simp at hlen; omega)
    obtain ⟨jp', h6⟩ := h1.batch h4 rest rest.length (Nat.le_refl _) (by omega) (by simpa using hb) hp
    rw [List.take_length, h2] at h6
    obtain ⟨h7, h8⟩ := line_append hb h4 h5
    rw [h2] at h7 h8
    exact BrOK.eof h6 (Or.inl List.prefix_rfl) h7 h8 hw
  case case15 ih =>
    intro t jp hd hm e hw
    have h1 := hd.plain (c := 92) rfl
    obtain ⟨h2, h3⟩ := snoc_ends (t := t) (c := 92) rfl
    have hm' : whereAt (t ++ [92]) = .escaped := by rw [whereAt_snoc, hm]; rfl
    exact ih _ _ (h1.inside _ (Or.inr hm')) (by rw [whereAt_snoc, hm']; rfl) (shift (shift e)) (hw.snoc (h1.spotPut (shift e) h2 h3))
  case case14 =>
    intro t jp hd hm e hw
    have h1 := hd.plain (c := 92) rfl
    obtain ⟨h2, h3⟩ := snoc_ends (t := t) (c := 92) rfl
    exact h1.spotPut (shift e) h2 h3
  case case16 h34 h92 ih =>
    intro t jp hd hm e hw
    exact ih _ _ (hd.inside _ (Or.inl hm)) (by rw [whereAt_snoc, hm]; simp [Where.next, h34, h92]) (shift e) hw
  all_goals first
    | (intros; trivial)
    | (rename_i ih
       intro t jp hd hm e hw
       have h1 := hd.plain (c := 92) rfl
       have hm' : whereAt (t ++ [92]) = .escaped := by rw [whereAt_snoc, hm]; rfl
       exact ih _ _ (h1.inside _ (Or.inr hm')) (by rw [whereAt_snoc, hm']; rfl) (shift (shift e)) hw)

/-- The end of a number or boolean: the terminating byte is put back. -/
theorem end_br {s : St} {c : Byte} {hist : LHist} {t : Bytes} (hd : Rec false hist t) (hm : whereAt t = .outside true) (ht : endsLine t = false) (hl : lineText t ≠ [])
    (hs : s.hist = hist.put c) (he : (s.good = true ∧ t ++ c :: s.rest = input) ∨ (s.good = false ∧ s.rest = [] ∧ t = input ∧ c = 255))
    (ws : List Exn) (hw : SpotsOK input ws) : BrOK input (St.unget ⟨s.rest, s.good, s.hist.popBack, ws⟩ c) := by
  rw [hs]
  rcases he with ⟨hg, e⟩ | ⟨hg, hr, e, rfl⟩
  · rw [hg]
    refine ⟨fun _ => ⟨t, e, ⟨_, hm⟩, ht, hl, ?_⟩, by simp [St.unget], hw⟩
    by_cases hc : isBreak c = true
    · exact Or.inr ⟨c, s.rest, rfl, hm, ht, hc, hist, hd, rfl⟩
    · have hc : isBreak c = false := by simpa using hc
      refine Or.inl ⟨⟨true, ?_⟩, ?_⟩
      · exact Records.putPop hd c hc (by rw [endsLine_recorded]; exact ht)
      · intro c' r hr
        simp [St.unget] at hr
        rw [← hr.1, hc]; simp
  · rw [hg, hr]
    exact BrOK.eof (t := t) (jp := true) (Records.putPop hd 255 rfl (by rw [endsLine_recorded]; exact ht)) (Or.inl (by rw [e]; exact List.prefix_rfl)) ht hl hw

theorem boolEnd_br {s : St} {c : Byte} {lower raw : Bytes} {hist : LHist} {t : Bytes} (hd : Rec false hist t)
    (hs : s.hist = hist.put c) (he : (s.good = true ∧ t ++ c :: s.rest = input) ∨ (s.good = false ∧ s.rest = [] ∧ t = input ∧ c = 255))
    (hw : SpotsOK input s.warns) (hl : lower = raw.map toLower) (ht : endsLine t = false) (hlt : lineText t ≠ [])
    (hlast : ∃ t0 r0 d k, t = t0 ++ [d] ∧ raw = r0 ++ [d] ∧ whereAt t0 = .outside k ∧ d ≠ 34) :
    (boolEnd env s c lower raw).Post (fun _ s => BrOK input s) (BrThrow input) := by
  have hspot : Spot input s.hist := by
    rw [hs]
    rcases he with ⟨_, e⟩ | ⟨_, _, e, rfl⟩
    · exact hd.spotPut e ht hlt
    · obtain ⟨h1, h2, h3, h4⟩ := hd.eof (input := input) (by simpa using e)
      exact ⟨_, h2, h3, h4, Or.inl (h1.shows h3)⟩
  unfold boolEnd
  split
  · exact hspot
  · rename_i hlit
    split
    · trivial
    · split
      · exact hspot
      · have hm : whereAt t = .outside true := by
          obtain ⟨t0, r0, d, k, rfl, rfl, hk, hq⟩ := hlast
          have hdl : toLower d = 101 := by
            have h1 : lower.getLast? = some (toLower d) := by rw [hl]; simp
            by_cases hT : lower = b!"true"
            · rw [hT] at h1; simp at h1; omega
            · have hF : lower = b!"false" := Decidable.byContradiction fun hf => hlit ⟨hT, hf⟩
              rw [hF] at h1; simp at h1; omega
          have : endsNumber d = true := by
            unfold toLower at hdl
            have : d = 101 ∨ d = 69 := by split at hdl <;> omega
            rcases this with rfl | rfl <;> decide
          rw [whereAt_snoc, hk]
          simp [Where.next, hq, this]
        have hw' : SpotsOK input (if lower ≠ raw then s.warns ++ [⟨.format, s.hist⟩] else s.warns) := by
          split
          · exact hw.snoc hspot
          · exact hw
        by_cases hlr : lower ≠ raw
        · simp only [if_pos hlr] at hw' ⊢
          exact end_br hd hm ht hlt hs he _ hw'
        · simp only [if_neg hlr] at hw' ⊢
          exact end_br hd hm ht hlt hs he _ hw'

theorem boolLetter_outside {c : Byte} (h : isBoolLetter (toLower c) = true) : c ≠ 34 := by rintro rfl; revert h; decide

theorem boolLoop_br (fl : Byte) (rest : Bytes) (hist : LHist) (warns : List Exn) (lower raw : Bytes) :
    ∀ t, Rec false hist t → t ++ rest = input → SpotsOK input warns → lower = raw.map toLower → endsLine t = false → lineText t ≠ [] →
    (∃ t0 r0 d k, t = t0 ++ [d] ∧ raw = r0 ++ [d] ∧ whereAt t0 = .outside k ∧ d ≠ 34) →
    (boolLoop env fl rest hist warns lower raw).Post (fun _ s => BrOK input s) (BrThrow input) := by
  fun_induction boolLoop env fl rest hist warns lower raw
  · intro t hd e hw hl h1 h2 h3
    exact boolEnd_br hd rfl (Or.inr ⟨rfl, rfl, by simpa using e, rfl⟩) hw hl h1 h2 h3
  · intro t hd e hw hl h1 h2 h3
    exact hd.spotPut e h1 h2
  · rename_i hb _ ih
    intro t hd e hw hl h1 h2 h3
    have hn := boolLetter_notBreak hb
    obtain ⟨h4, h5⟩ := snoc_ends (t := t) hn
    obtain ⟨t0, r0, d, k, rfl, rfl, hk, hq⟩ := h3
    exact ih _ (hd.plain hn) (shift e) hw (by rw [hl]; simp) h4 h5
      ⟨_, _, _, endsNumber d, rfl, rfl, by rw [whereAt_snoc, hk]; simp [Where.next, hq], boolLetter_outside hb⟩
  · intro t hd e hw hl h1 h2 h3
    exact boolEnd_br hd rfl (Or.inl ⟨rfl, e⟩) hw hl h1 h2 h3

theorem numberEnd_br {s : St} {c : Byte} {d : Bool} {text : Bytes} {hist : LHist} {t : Bytes} (hd : Rec false hist t) (hm : whereAt t = .outside true) (ht : endsLine t = false) (hl : lineText t ≠ [])
    (hs : s.hist = hist.put c) (he : (s.good = true ∧ t ++ c :: s.rest = input) ∨ (s.good = false ∧ s.rest = [] ∧ t = input ∧ c = 255)) (hw : SpotsOK input s.warns) :
    (numberEnd s c d text).Post (fun _ s => BrOK input s) (BrThrow input) := by
  have hret := end_br hd hm ht hl hs he _ hw
  unfold numberEnd
  dsimp only
  split
  · exact hret
  · split
    · trivial
    · exact hret

theorem numEnd_outside {c : Byte} (h : endsNumber c = true) (k : Bool) : Where.next (.outside k) c = .outside true := by
  have : c ≠ 34 := by rintro rfl; revert h; decide
  simp [Where.next, this, h]

theorem endsNumber_notBreak {c : Byte} (h : endsNumber c = true) : isBreak c = false :=
  notBreak_of (by rintro rfl; revert h; decide) (by rintro rfl; revert h; decide)

theorem digit_endsNumber {c : Byte} (h : isDigit c = true) : endsNumber c = true := by simp [endsNumber, h]

theorem boolStart_notBreak {c : Byte} (h : c = 116 ∨ c = 102 ∨ c = 84 ∨ c = 70) : isBreak c = false := by rcases h with rfl | rfl | rfl | rfl <;> rfl

theorem nullStart_notBreak {c : Byte} (h : c = 110 ∨ c = 78) : isBreak c = false := by rcases h with rfl | rfl <;> rfl

theorem numberStart {c : Byte} (h : isDigit c = true ∨ c = 46 ∨ c = 45) : endsNumber c = true := by
  rcases h with h | rfl | rfl
  · exact digit_endsNumber h
  · rfl
  · rfl

theorem numberLoop_br (rest : Bytes) (hist : LHist) (warns : List Exn) (d : Bool) (text : Bytes) :
    ∀ t, Rec false hist t → whereAt t = .outside true → endsLine t = false → lineText t ≠ [] → t ++ rest = input → SpotsOK input warns →
    (numberLoop rest hist warns d text).Post (fun _ s => BrOK input s) (BrThrow input) := by
  fun_induction numberLoop rest hist warns d text
  · intro t hd hm h1 h2 e hw
    exact numberEnd_br hd hm h1 h2 rfl (Or.inr ⟨rfl, rfl, by simpa using e, rfl⟩) hw
  · rename_i hc ih
    intro t hd hm h1 h2 e hw
    have hn := digit_endsNumber hc
    obtain ⟨h4, h5⟩ := snoc_ends (t := t) (endsNumber_notBreak hn)
    exact ih _ (hd.plain (endsNumber_notBreak hn)) (by rw [whereAt_snoc, hm, numEnd_outside hn]) h4 h5 (shift e) hw
  · rename_i hc ih
    intro t hd hm h1 h2 e hw
    obtain ⟨rfl, _⟩ := hc
    have hn : endsNumber 46 = true := rfl
    obtain ⟨h4, h5⟩ := snoc_ends (t := t) (endsNumber_notBreak hn)
    exact ih _ (hd.plain (endsNumber_notBreak hn)) (by rw [whereAt_snoc, hm, numEnd_outside hn]) h4 h5 (shift e) hw
  · intro t hd hm h1 h2 e hw
    exact numberEnd_br hd hm h1 h2 rfl (Or.inl ⟨rfl, e⟩) hw

theorem consumeNull_br (W : UnbrokenWindows input) {s : St} {d : Byte} {t : Bytes} {k : Bool} (hdn : d = 110 ∨ d = 78) (hd : Rec false s.hist (t ++ [d])) (hm : whereAt t = .outside k)
    (e : t ++ [d] ++ s.rest = input) (hw : SpotsOK input s.warns) :
    (consumeNull env s d).Post (fun _ s => BrOK input s) (BrThrow input) := by
  have hdb : isBreak d = false := by rcases hdn with rfl | rfl <;> decide
  obtain ⟨he1, he2⟩ := snoc_ends (t := t) hdb
  unfold consumeNull
  split
  · rename_i x1 x2 x3 rest hr
    rw [hr] at e
    have e' : (t ++ [d] ++ [x1, x2, x3]) ++ rest = input := by simpa using e
    have hb : ∀ c ∈ [x1, x2, x3], isBreak c = false := by
      intro c hc
      simp at hc
      rcases hc with rfl | rfl | rfl
      · exact W.1 t d [] c ⟨x2 :: x3 :: rest, by rw [← e]; simp⟩ ⟨k, hm⟩ hdn (by simp)
      · exact W.1 t d [x1] c ⟨x3 :: rest, by rw [← e]; simp⟩ ⟨k, hm⟩ hdn (by simp)
      · exact W.1 t d [x1, x2] c ⟨rest, by rw [← e]; simp⟩ ⟨k, hm⟩ hdn (by simp)
    split
    · trivial
    · rename_i hist hp
      obtain ⟨jp, h1⟩ := hd.batch he1 [x1, x2, x3, 0] 3 (by simp) (by decide) hb hp
      obtain ⟨h2, h3⟩ := line_append hb he1 he2
      have hspot : Spot input hist := ⟨_, Or.inl ⟨rest, e'⟩, h2, h3, Or.inl (h1.shows h2)⟩
      dsimp only
      split
      · rename_i hnull
        have hmode : whereAt (t ++ [d] ++ [x1, x2, x3]) = .outside false := by
          simp at hnull
          have low : ∀ x y : Byte, toLower x = y → y < 128 → x = y ∨ x = y - 32 := by
            intro x y h _; unfold toLower at h; split at h <;> omega
          rw [show t ++ [d] ++ [x1, x2, x3] = t ++ [d] ++ [x1] ++ [x2] ++ [x3] by simp]
          simp only [whereAt_snoc, hm]
          rcases hdn with rfl | rfl <;> rcases low _ _ hnull.1 (by decide) with rfl | rfl <;> rcases low _ _ hnull.2.1 (by decide) with rfl | rfl <;>
            rcases low _ _ hnull.2.2 (by decide) with rfl | rfl <;> rfl
        split
        · exact BrOK.ret h1 e' hmode h2 h3 hw
        · split
          · trivial
          · split
            · exact hspot
            · exact BrOK.ret h1 e' hmode h2 h3 (hw.snoc hspot)
      · exact hspot
  · rename_i hshort
    split
    · trivial
    · rename_i hist hp
      generalize s.rest = short at *
      have hl : short.length < 3 := by
        rcases short with _ | ⟨_, _ | ⟨_, _ | ⟨_, _⟩⟩⟩ <;> simp
        exact absurd rfl (hshort _ _ _ _)
      have htk : ((short ++ [0, 0, 0]).take 3 ++ [0]).take 3 = short ++ List.replicate (3 - short.length) 0 := by
        rcases short with _ | ⟨_, _ | ⟨_, _ | ⟨_, _⟩⟩⟩ <;> simp at hl ⊢
        all_goals first | rfl | omega
      have hb : ∀ c ∈ short ++ List.replicate (3 - short.length) 0, isBreak c = false := by
        intro c hc
        simp at hc
        rcases hc with hc | ⟨_, rfl⟩
        · obtain ⟨u, v, rfl⟩ := List.append_of_mem hc
          exact W.1 t d u c ⟨v, by rw [← e]; simp⟩ ⟨k, hm⟩ hdn (by simp at hl; omega)
        · decide
      obtain ⟨jp, h1⟩ := hd.batch he1 _ 3 (by simp) (by decide) (by rw [htk]; exact hb) hp
      obtain ⟨h2, h3⟩ := line_append hb he1 he2
      rw [htk] at h1
      rw [← List.append_assoc, e] at h1 h2 h3
      exact BrOK.eof h1 (Or.inr (Or.inr ⟨3 - short.length, by omega, rfl⟩)) h2 h3 hw

theorem where_ignored {t : Bytes} {c : Byte} {k : Bool} (hm : whereAt t = .outside k) (hq : ¬ c = 34) (hi : ignoreChar c = true) : whereAt (t ++ [c]) = .outside false := by
  have : endsNumber c = false := by
    simp [ignoreChar] at hi
    simp [endsNumber, isDigit]
    omega
  rw [whereAt_snoc, hm]
  simp [Where.next, hq, this]

/-- A byte outside strings that does not directly follow a number as a line break: recorded, and still outside. -/
theorem tokenLoop_br (W : UnbrokenWindows input) (rest : Bytes) (hist : LHist) (warns : List Exn) :
    ∀ t, t ++ rest = input → (∃ k, whereAt t = .outside k) →
    (((∃ jp, Rec jp hist t) ∧ ∀ c r, rest = c :: r → ¬ (whereAt t = .outside true ∧ isBreak c = true)) ∨ (∃ c r, rest = c :: r ∧ Pend hist t c)) → SpotsOK input warns →
    (tokenLoop env rest hist warns).Post (fun _ s => BrOK input s) (BrThrow input) := by
  have step : ∀ (t : Bytes) (hist : LHist) (c : Byte) (r : Bytes),
      (((∃ jp, Rec jp hist t) ∧ ∀ c' r', c :: r = c' :: r' → ¬ (whereAt t = .outside true ∧ isBreak c' = true)) ∨ (∃ c' r', c :: r = c' :: r' ∧ Pend hist t c')) →
      ∃ jp, Rec jp (hist.put c) (t ++ [c]) ∧ (isBreak c = false → jp = false) := by
    intro t hist c r h
    rcases h with ⟨⟨jp, h1⟩, h2⟩ | ⟨c', r', h1, h2⟩
    · exact ⟨_, h1.once (h2 c r rfl), fun h => by rw [h]; simp⟩
    · simp at h1
      obtain ⟨rfl, rfl⟩ := h1
      exact ⟨false, h2.put, fun _ => rfl⟩
  fun_induction tokenLoop env rest hist warns
  · intro t e hm h hw
    rcases h with ⟨⟨jp, h1⟩, _⟩ | ⟨c', r', h1, h2⟩
    · obtain ⟨h1, h2, h3, h4⟩ := h1.eof e
      exact BrOK.eof h1 h2 h3 h4 hw
    · cases h1
  · rintro t e ⟨k, hm⟩ h hw
    obtain ⟨jp, h1, _⟩ := step _ _ _ _ h
    exact stringLoop_br W _ _ _ _ _ _ h1 (by rw [whereAt_snoc, hm]; rfl) (shift e) hw
  · rename_i hc
    rintro t e ⟨k, hm⟩ h hw
    obtain ⟨jp, h1, hj⟩ := step _ _ _ _ h
    have hn := boolStart_notBreak hc
    rw [hj hn] at h1
    obtain ⟨h4, h5⟩ := snoc_ends (t := t) hn
    exact boolLoop_br _ _ _ _ _ _ _ h1 (shift e) hw rfl h4 h5 ⟨t, [], _, k, rfl, rfl, hm, by omega⟩
  · rename_i hc
    rintro t e ⟨k, hm⟩ h hw
    obtain ⟨jp, h1, hj⟩ := step _ _ _ _ h
    have hn := nullStart_notBreak hc
    rw [hj hn] at h1
    exact consumeNull_br W hc h1 hm (shift e) hw
  · rename_i hc
    rintro t e ⟨k, hm⟩ h hw
    obtain ⟨jp, h1, hj⟩ := step _ _ _ _ h
    have hnum := numberStart hc
    have hn := endsNumber_notBreak hnum
    rw [hj hn] at h1
    obtain ⟨h4, h5⟩ := snoc_ends (t := t) hn
    exact numberLoop_br _ _ _ _ _ _ h1 (by rw [whereAt_snoc, hm, numEnd_outside hnum]) h4 h5 (shift e) hw
  · rename_i hq _ _ _ hp
    rintro t e ⟨k, hm⟩ h hw
    obtain ⟨jp, h1, hj⟩ := step _ _ _ _ h
    have hn := punct_notBreak hp
    obtain ⟨h4, h5⟩ := snoc_ends (t := t) hn
    refine BrOK.ret h1 (shift e) ?_ h4 h5 hw
    rw [whereAt_snoc, hm]
    have hp' := hp
    simp [isPunct] at hp'
    rcases hp' with ((((rfl | rfl) | rfl) | rfl) | rfl) | rfl <;> rfl
  · rename_i hq hb hnl hnum hp hi ih
    rintro t e ⟨k, hm⟩ h hw
    obtain ⟨jp, h1, hj⟩ := step _ _ _ _ h
    have hm' := where_ignored hm hq hi
    exact ih _ (shift e) ⟨_, hm'⟩ (Or.inl ⟨⟨_, h1⟩, fun _ _ _ hx => by rw [hm'] at hx; simp at hx⟩) hw
  · rename_i hi
    rintro t e ⟨k, hm⟩ h hw
    obtain ⟨jp, h1, hj⟩ := step _ _ _ _ h
    have hn := ignore_notBreak hi
    obtain ⟨h4, h5⟩ := snoc_ends (t := t) hn
    exact ⟨_, Or.inl ⟨_, shift e⟩, h4, h5, Or.inl (h1.shows h4)⟩

theorem br_inv (W : UnbrokenWindows input) (env : Env) :
    ReaderInv env (BrOK input) (fun _ => True) (fun es => (keys es).Nodup) (BrThrow input) := by
  refine readerInv_state env _ _ ?_ ?_ trivial trivial ?_
  · intro s hs
    unfold consumeToken
    split
    · rename_i hg
      obtain ⟨t, h1, h2, _, _, h5⟩ := hs.good hg
      exact tokenLoop_br W _ _ _ t h1 h2 h5 hs.warns
    · exact hs
  · intro s k hs _
    exact hs.spot
  · intro s k hs _
    exact ⟨hs.good, hs.bad, hs.warns.snoc hs.spot⟩

theorem read_br (W : UnbrokenWindows input) (env : Env) (junk : List Byte) (n : Nat) (hj : junk.length = 45) :
    (Model.read env (St.init junk n input)).Post (fun _ s => BrOK input s) (BrThrow input) := by
  have inv := br_inv W env
  unfold Model.read
  obtain ⟨k, hk⟩ : ∃ k, 2 * (St.init junk n input).rest.length + 4 = k + 1 := ⟨2 * (St.init junk n input).rest.length + 3, rfl⟩
  rw [hk, readNext]
  refine Post.bind (R := fun _ s => BrOK input s) (tokenLoop_br W _ _ _ [] rfl ⟨_, rfl⟩ (Or.inl ⟨⟨false, Records.init junk n hj⟩, fun _ _ _ h => by cases h.1⟩) (by intro w hw; cases hw)) ?_
  intro tok s hs
  cases tok with
  | val v => exact hs
  | nothing => exact hs
  | punct c =>
    dsimp only
    split
    · exact Post.bind ((reader_inv inv k).2.1 none s hs (by simp)) (fun v s h => h.1)
    · split
      · exact Post.bind ((reader_inv inv k).2.2.1 s hs) (fun v s h => h.1)
      · exact hs

end Verif.Lemmas
