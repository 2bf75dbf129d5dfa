import Verif.Lemmas.History
import Verif.Lemmas.ReaderCause
/-!
# Lemmas: the history of every error describes what was read
-/
namespace Verif.Lemmas
open Verif.Model Verif.Spec

/-- The last byte of a number or of a boolean literal. -/
def isNumEnd (c : Byte) : Bool := isDigit c || decide (c = 46) || decide (c = 45) || decide (c = 101) || decide (c = 69)

/-- `Hd h t`: the history `h` describes the text `t`, and stays so while the reader goes through `input`. -/
structure HistRel (input : Bytes) (Hd : LHist → Bytes → Prop) (At : Bytes → Prop) : Prop where
  at1 : ∀ t c, isBreak c = false → At (t ++ [c])
  at2 : ∀ t d c, isBreak d = false → At (t ++ [d] ++ [c])
  put : ∀ h t c, Hd h t → (t ++ [c] <+: input ∨ (t = input ∧ c = 255)) → Hd (h.put c) (t ++ [c])
  putPop : ∀ h t d c, Hd h (t ++ [d]) → isNumEnd d = true → (t ++ [d] ++ [c] <+: input ∨ (t ++ [d] = input ∧ c = 255)) →
    Hd (h.put c).popBack (t ++ [d])
  null : ∀ h h' t d x1 x2 x3, Hd h (t ++ [d]) → (d = 110 ∨ d = 78) → t ++ [d] ++ [x1, x2, x3] <+: input →
    h.putN [x1, x2, x3, 0] 3 = some h' → Hd h' (t ++ [d] ++ [x1, x2, x3]) ∧ At (t ++ [d] ++ [x1, x2, x3])
  nullShort : ∀ h h' t d short, Hd h (t ++ [d]) → (d = 110 ∨ d = 78) → t ++ [d] ++ short = input → short.length < 3 →
    h.putN ((short ++ [0, 0, 0]).take 3 ++ [0]) 3 = some h' → Hd h' (input ++ List.replicate (3 - short.length) 0)
  uni : ∀ h h' t x1 x2 x3 x4, Hd h (t ++ [92, 117]) → t ++ [92, 117] ++ [x1, x2, x3, x4] <+: input →
    h.putN [x1, x2, x3, x4] 4 = some h' → Hd h' (t ++ [92, 117] ++ [x1, x2, x3, x4]) ∧ At (t ++ [92, 117] ++ [x1, x2, x3, x4])
  uniShort : ∀ h h' t xs, Hd h (t ++ [92, 117]) → t ++ [92, 117] ++ xs = input → xs.length < 4 →
    h.putN xs xs.length = some h' → Hd h' input ∧ At input

/-- Every message describes a position. -/
def WarnsOK (input : Bytes) (Hd : LHist → Bytes → Prop) (At : Bytes → Prop) (ws : List Exn) : Prop := ∀ w ∈ ws, ∃ t, Hd w.hist t ∧ ReadUpTo input t ∧ At t

/-- Invariant: the history describes exactly the bytes consumed so far. -/
structure StOK (input : Bytes) (Hd : LHist → Bytes → Prop) (At : Bytes → Prop) (s : St) : Prop where
  good : s.good = true → ∃ t, Hd s.hist t ∧ t ++ s.rest = input ∧ At t
  bad : s.good = false → s.rest = [] ∧ ∃ t, Hd s.hist t ∧ ReadUpTo input t ∧ At t
  warns : WarnsOK input Hd At s.warns

/-- Every exception describes a position. -/
def ThrowOK (input : Bytes) (Hd : LHist → Bytes → Prop) (At : Bytes → Prop) : Out Empty → Prop
  | .throw e => ∃ t, Hd e.hist t ∧ ReadUpTo input t ∧ At t
  | _ => True

variable {input : Bytes} {Hd : LHist → Bytes → Prop} {At : Bytes → Prop} {env : Env}

theorem StOK.some {s : St} (h : StOK input Hd At s) : ∃ t, Hd s.hist t ∧ ReadUpTo input t ∧ At t := by
  cases hg : s.good
  · exact (h.bad hg).2
  · obtain ⟨t, h1, h2, h3⟩ := h.good hg
    exact ⟨t, h1, Or.inl ⟨_, h2⟩, h3⟩

theorem WarnsOK.snoc {ws : List Exn} (h : WarnsOK input Hd At ws) {e : Exn} (he : ∃ t, Hd e.hist t ∧ ReadUpTo input t ∧ At t) :
    WarnsOK input Hd At (ws ++ [e]) := by
  intro w hw
  simp at hw
  rcases hw with hw | rfl
  · exact h w hw
  · exact he

theorem StOK.ret {rest : Bytes} {hist : LHist} {warns : List Exn} {t : Bytes} (h : Hd hist t) (e : t ++ rest = input) (ha : At t)
    (hw : WarnsOK input Hd At warns) : StOK input Hd At ⟨rest, true, hist, warns⟩ :=
  ⟨fun _ => ⟨t, h, e, ha⟩, by simp, hw⟩

theorem StOK.eof {hist : LHist} {warns : List Exn} {t : Bytes} (h : Hd hist t) (e : ReadUpTo input t ∧ At t)
    (hw : WarnsOK input Hd At warns) : StOK input Hd At ⟨[], false, hist, warns⟩ :=
  ⟨by simp, fun _ => ⟨rfl, t, h, e⟩, hw⟩

theorem pre {t r : Bytes} (e : t ++ r = input) : t <+: input := ⟨r, e⟩

theorem notBreak_of {c : Byte} (h10 : c ≠ 10) (h13 : c ≠ 13) : isBreak c = false := by simp [isBreak, h10, h13]

theorem numEnd_notBreak {c : Byte} (h : isNumEnd c = true) : isBreak c = false :=
  notBreak_of (by rintro rfl; revert h; decide) (by rintro rfl; revert h; decide)

theorem boolLetter_notBreak {c : Byte} (h : isBoolLetter (toLower c) = true) : isBreak c = false :=
  notBreak_of (by rintro rfl; revert h; decide) (by rintro rfl; revert h; decide)

theorem punct_notBreak {c : Byte} (h : isPunct c = true) : isBreak c = false :=
  notBreak_of (by rintro rfl; revert h; decide) (by rintro rfl; revert h; decide)

theorem ignore_notBreak {c : Byte} (h : ¬ ignoreChar c = true) : isBreak c = false :=
  notBreak_of (by rintro rfl; exact h (by decide)) (by rintro rfl; exact h (by decide))

theorem HistRel.put' (H : HistRel input Hd At) {h : LHist} {t : Bytes} {c : Byte} {r : Bytes} (hd : Hd h t) (e : t ++ c :: r = input) :
    Hd (h.put c) (t ++ [c]) ∧ (t ++ [c]) ++ r = input :=
  ⟨H.put h t c hd (Or.inl ⟨r, by simpa using e⟩), by simpa using e⟩

theorem HistRel.putEof (H : HistRel input Hd At) {h : LHist} {t : Bytes} (hd : Hd h t) (e : t ++ [] = input) :
    Hd (h.put 255) (t ++ [255]) ∧ ReadUpTo input (t ++ [255]) ∧ At (t ++ [255]) := by
  simp at e
  exact ⟨H.put h t 255 hd (Or.inr ⟨e, rfl⟩), Or.inr (Or.inl (by rw [e])), H.at1 _ _ rfl⟩

theorem HistRel.uni' (H : HistRel input Hd At) {h h' : LHist} {t : Bytes} {x1 x2 x3 x4 : Byte} {r : Bytes} (hd : Hd h t)
    (e : t ++ 92 :: 117 :: x1 :: x2 :: x3 :: x4 :: r = input) (hp : ((h.put 92).put 117).putN [x1, x2, x3, x4] 4 = some h') :
    ∃ t', Hd h' t' ∧ t' ++ r = input ∧ At t' := by
  obtain ⟨h1, h2⟩ := H.put' hd e
  obtain ⟨h3, h4⟩ := H.put' h1 h2
  rw [List.append_assoc t] at h3 h4
  have : (t ++ [92, 117] ++ [x1, x2, x3, x4]) ++ r = input := by simpa using h4
  obtain ⟨h5, h6⟩ := H.uni _ _ t _ _ _ _ h3 ⟨r, this⟩ hp
  exact ⟨_, h5, this, h6⟩

theorem HistRel.uniShort' (H : HistRel input Hd At) {h h' : LHist} {t : Bytes} {r : Bytes} (hd : Hd h t)
    (e : t ++ 92 :: 117 :: r = input) (hr : ∀ (x1 x2 x3 x4 : Nat) (rest : List Nat), r = x1 :: x2 :: x3 :: x4 :: rest → False)
    (hp : ((h.put 92).put 117).putN r r.length = some h') : Hd h' input ∧ At input := by
  obtain ⟨h1, h2⟩ := H.put' hd e
  obtain ⟨h3, h4⟩ := H.put' h1 h2
  rw [List.append_assoc t] at h3 h4
  refine H.uniShort _ _ t _ h3 h4 ?_ hp
  rcases r with _ | ⟨_, _ | ⟨_, _ | ⟨_, _ | ⟨_, _⟩⟩⟩⟩ <;> simp
  exact absurd rfl (hr _ _ _ _ _)

theorem stringLoop_hist (H : HistRel input Hd At) (rest : Bytes) (hist : LHist) (warns : List Exn) (acc : Bytes) :
    ∀ t, Hd hist t → t ++ rest = input → WarnsOK input Hd At warns →
    (stringLoop env rest hist warns acc).Post (fun _ s => StOK input Hd At s) (ThrowOK input Hd At) := by
  fun_induction stringLoop env rest hist warns acc
  case case1 =>
    intro t hd e hw
    obtain ⟨h1, h2⟩ := H.putEof hd e
    exact StOK.eof h1 h2 hw
  case case2 =>
    intro t hd e hw
    obtain ⟨h1, h2⟩ := H.put' hd e
    exact StOK.ret h1 h2 (H.at1 _ _ rfl) hw
  case case3 =>
    intro t hd e hw
    obtain ⟨h1, h2⟩ := H.put' hd e
    obtain ⟨h3, h4⟩ := H.putEof h1 h2
    exact ⟨_, h3, h4⟩
  case case4 =>
    intro t hd e hw
    obtain ⟨h1, h2⟩ := H.put' hd e
    obtain ⟨h3, h4⟩ := H.putEof h1 h2
    exact StOK.eof h3 h4 (hw.snoc ⟨_, h3, h4⟩)
  case case10 ih =>
    intro t hd e hw
    obtain ⟨t', h1, h2, _⟩ := H.uni' hd e (by assumption)
    exact ih _ h1 h2 hw
  case case8 =>
    intro t hd e hw
    obtain ⟨t', h1, h2, h3⟩ := H.uni' hd e (by assumption)
    exact ⟨_, h1, Or.inl (pre h2), h3⟩
  case case12 =>
    intro t hd e hw
    obtain ⟨h1, h2⟩ := H.uniShort' hd e (by assumption) (by assumption)
    exact StOK.eof h1 ⟨Or.inl List.prefix_rfl, h2⟩ hw
  case case15 ih =>
    intro t hd e hw
    obtain ⟨h1, h2⟩ := H.put' hd e
    obtain ⟨h3, h4⟩ := H.put' h1 h2
    exact ih _ h3 h4 (hw.snoc ⟨_, h3, Or.inl (pre h4), H.at2 _ _ _ rfl⟩)
  case case14 =>
    intro t hd e hw
    obtain ⟨h1, h2⟩ := H.put' hd e
    obtain ⟨h3, h4⟩ := H.put' h1 h2
    exact ⟨_, h3, Or.inl (pre h4), H.at2 _ _ _ rfl⟩
  case case16 ih =>
    intro t hd e hw
    obtain ⟨h1, h2⟩ := H.put' hd e
    exact ih _ h1 h2 hw
  all_goals first
    | (intros; trivial)
    | (rename_i ih
       intro t hd e hw
       obtain ⟨h1, h2⟩ := H.put' hd e
       obtain ⟨h3, h4⟩ := H.put' h1 h2
       exact ih _ h3 h4 hw)

theorem boolEnd_hist (H : HistRel input Hd At) {s : St} {c : Byte} {lower raw : Bytes} {hist : LHist} {t : Bytes} (hd : Hd hist t)
    (hs : s.hist = hist.put c) (he : (s.good = true ∧ t ++ c :: s.rest = input) ∨ (s.good = false ∧ s.rest = [] ∧ t = input ∧ c = 255))
    (hw : WarnsOK input Hd At s.warns) (hraw : raw <:+ t) (hl : lower = raw.map toLower) (hb : ∃ t0 d, t = t0 ++ [d] ∧ isBreak d = false) :
    (boolEnd env s c lower raw).Post (fun _ s => StOK input Hd At s) (ThrowOK input Hd At) := by
  have hrec : ∃ t, Hd s.hist t ∧ ReadUpTo input t ∧ At t := by
    rcases he with ⟨_, e⟩ | ⟨_, _, e, rfl⟩
    · obtain ⟨t0, d, rfl, hb⟩ := hb
      exact ⟨_, hs ▸ (H.put' hd e).1, Or.inl (pre (H.put' hd e).2), H.at2 _ _ _ hb⟩
    · exact ⟨_, hs ▸ (H.putEof hd (by simpa using e)).1, (H.putEof hd (by simpa using e)).2⟩
  unfold boolEnd
  split
  · exact hrec
  · rename_i hlit
    split
    · trivial
    · split
      · exact hrec
      · have hlast : ∃ t0 d, t = t0 ++ [d] ∧ isNumEnd d = true := by
          have : ∃ r0 d, raw = r0 ++ [d] ∧ toLower d = 101 := by
            rcases raw.eq_nil_or_concat with rfl | ⟨r0, d, rfl⟩
            · simp at hl; subst hl; simp at hlit
            · refine ⟨r0, d, by simp, ?_⟩
              have h1 : lower.getLast? = some (toLower d) := by rw [hl]; simp
              by_cases hT : lower = b!"true"
              · rw [hT] at h1; simp at h1; omega
              · have hF : lower = b!"false" := Decidable.byContradiction fun hf => hlit ⟨hT, hf⟩
                rw [hF] at h1; simp at h1; omega
          obtain ⟨r0, d, rfl, hdl⟩ := this
          obtain ⟨t0, rfl⟩ := hraw
          refine ⟨t0 ++ r0, d, by simp, ?_⟩
          unfold toLower at hdl
          have : d = 101 ∨ d = 69 := by split at hdl <;> omega
          rcases this with rfl | rfl <;> decide
        obtain ⟨t0, d, rfl, hnum⟩ := hlast
        have hpop : Hd s.hist.popBack (t0 ++ [d]) := by
          rw [hs]
          refine H.putPop _ _ _ _ hd hnum ?_
          rcases he with ⟨_, e⟩ | ⟨_, _, e, rfl⟩
          · exact Or.inl ⟨s.rest, by simpa using e⟩
          · exact Or.inr ⟨e, rfl⟩
        have hat : At (t0 ++ [d]) := H.at1 _ _ (numEnd_notBreak hnum)
        have hw' : WarnsOK input Hd At (if lower ≠ raw then s.warns ++ [⟨.format, s.hist⟩] else s.warns) := by
          split
          · exact hw.snoc hrec
          · exact hw
        have hret : ∀ ws, WarnsOK input Hd At ws → StOK input Hd At (St.unget ⟨s.rest, s.good, s.hist.popBack, ws⟩ c) := by
          intro ws hws
          rcases he with ⟨hg, e⟩ | ⟨hg, hr, e, rfl⟩
          · rw [hg]
            exact StOK.ret hpop (by simpa using e) hat hws
          · rw [hg, hr]
            exact StOK.eof hpop ⟨by rw [e]; exact Or.inl List.prefix_rfl, hat⟩ hws
        by_cases hlr : lower ≠ raw
        · simp only [if_pos hlr] at hw' ⊢
          exact hret _ hw'
        · simp only [if_neg hlr] at hw' ⊢
          exact hret _ hw'

theorem boolLoop_hist (H : HistRel input Hd At) (fl : Byte) (rest : Bytes) (hist : LHist) (warns : List Exn) (lower raw : Bytes) :
    ∀ t, Hd hist t → t ++ rest = input → WarnsOK input Hd At warns → raw <:+ t → lower = raw.map toLower → (∃ t0 d, t = t0 ++ [d] ∧ isBreak d = false) →
    (boolLoop env fl rest hist warns lower raw).Post (fun _ s => StOK input Hd At s) (ThrowOK input Hd At) := by
  fun_induction boolLoop env fl rest hist warns lower raw
  · intro t hd e hw hr hl hb
    exact boolEnd_hist H hd rfl (Or.inr ⟨rfl, rfl, by simpa using e, rfl⟩) hw hr hl hb
  · intro t hd e hw hr hl hb
    exact ⟨_, (H.put' hd e).1, Or.inl (pre (H.put' hd e).2), H.at1 _ _ (boolLetter_notBreak (by assumption))⟩
  · rename_i ih
    intro t hd e hw hr hl hb
    obtain ⟨h1, h2⟩ := H.put' hd e
    refine ih _ h1 h2 hw ?_ (by rw [hl]; simp) ⟨_, _, rfl, boolLetter_notBreak (by assumption)⟩
    obtain ⟨u, rfl⟩ := hr
    exact ⟨u, by simp⟩
  · intro t hd e hw hr hl hb
    exact boolEnd_hist H hd rfl (Or.inl ⟨rfl, e⟩) hw hr hl hb

theorem numberEnd_hist (H : HistRel input Hd At) {s : St} {c : Byte} {d : Bool} {text : Bytes} {hist : LHist} {t0 : Bytes} {x : Byte} (hd : Hd hist (t0 ++ [x]))
    (hx : isNumEnd x = true) (hs : s.hist = hist.put c)
    (he : (s.good = true ∧ t0 ++ [x] ++ c :: s.rest = input) ∨ (s.good = false ∧ s.rest = [] ∧ t0 ++ [x] = input ∧ c = 255))
    (hw : WarnsOK input Hd At s.warns) :
    (numberEnd s c d text).Post (fun _ s => StOK input Hd At s) (ThrowOK input Hd At) := by
  have hpop : Hd s.hist.popBack (t0 ++ [x]) := by
    rw [hs]
    refine H.putPop _ _ _ _ hd hx ?_
    rcases he with ⟨_, e⟩ | ⟨_, _, e, rfl⟩
    · exact Or.inl ⟨s.rest, by simpa using e⟩
    · exact Or.inr ⟨e, rfl⟩
  have hat : At (t0 ++ [x]) := H.at1 _ _ (numEnd_notBreak hx)
  have hret : StOK input Hd At (St.unget ⟨s.rest, s.good, s.hist.popBack, s.warns⟩ c) := by
    rcases he with ⟨hg, e⟩ | ⟨hg, hr, e, rfl⟩
    · rw [hg]
      exact StOK.ret hpop (by simpa using e) hat hw
    · rw [hg, hr]
      exact StOK.eof hpop ⟨by rw [e]; exact Or.inl List.prefix_rfl, hat⟩ hw
  unfold numberEnd
  dsimp only
  split
  · exact hret
  · split
    · trivial
    · exact hret

theorem numberLoop_hist (H : HistRel input Hd At) (rest : Bytes) (hist : LHist) (warns : List Exn) (d : Bool) (text : Bytes) :
    ∀ t0 x, Hd hist (t0 ++ [x]) → isNumEnd x = true → t0 ++ [x] ++ rest = input → WarnsOK input Hd At warns →
    (numberLoop rest hist warns d text).Post (fun _ s => StOK input Hd At s) (ThrowOK input Hd At) := by
  fun_induction numberLoop rest hist warns d text
  · intro t0 x hd hx e hw
    exact numberEnd_hist H hd hx rfl (Or.inr ⟨rfl, rfl, by simpa using e, rfl⟩) hw
  · rename_i ih
    intro t0 x hd hx e hw
    obtain ⟨h1, h2⟩ := H.put' hd e
    exact ih _ _ h1 (by simp [isNumEnd, *]) h2 hw
  · rename_i hc ih
    intro t0 x hd hx e hw
    obtain ⟨h1, h2⟩ := H.put' hd e
    exact ih _ _ h1 (by simp [isNumEnd, hc.1]) h2 hw
  · intro t0 x hd hx e hw
    exact numberEnd_hist H hd hx rfl (Or.inl ⟨rfl, e⟩) hw

theorem consumeNull_hist (H : HistRel input Hd At) {s : St} {d : Byte} {t : Bytes} (hdn : d = 110 ∨ d = 78) (hd : Hd s.hist (t ++ [d]))
    (e : t ++ [d] ++ s.rest = input) (hw : WarnsOK input Hd At s.warns) :
    (consumeNull env s d).Post (fun _ s => StOK input Hd At s) (ThrowOK input Hd At) := by
  unfold consumeNull
  split
  · rename_i x1 x2 x3 rest hr
    rw [hr] at e
    have e' : (t ++ [d] ++ [x1, x2, x3]) ++ rest = input := by simpa using e
    split
    · trivial
    · rename_i hist hp
      obtain ⟨h1, ha⟩ := H.null _ _ _ _ _ _ _ hd hdn ⟨rest, e'⟩ hp
      dsimp only
      split
      · split
        · exact StOK.ret h1 e' ha hw
        · split
          · trivial
          · split
            · exact ⟨_, h1, Or.inl (pre e'), ha⟩
            · exact StOK.ret h1 e' ha (hw.snoc ⟨_, h1, Or.inl (pre e'), ha⟩)
      · exact ⟨_, h1, Or.inl (pre e'), ha⟩
  · rename_i hshort
    split
    · trivial
    · rename_i hist hp
      have hlen : s.rest.length < 3 := by
        rcases hr : s.rest with _ | ⟨_, _ | ⟨_, _ | ⟨_, _⟩⟩⟩ <;> simp
        exact absurd hr (hshort _ _ _ _)
      refine StOK.eof (H.nullShort _ _ _ _ _ hd hdn e hlen hp) ⟨Or.inr (Or.inr ⟨3 - s.rest.length, by omega, rfl⟩), ?_⟩ hw
      obtain ⟨k, hk⟩ : ∃ k, 3 - s.rest.length = k + 1 := ⟨2 - s.rest.length, by omega⟩
      rw [hk, List.replicate_succ', ← List.append_assoc]
      exact H.at1 _ _ rfl

theorem tokenLoop_hist (H : HistRel input Hd At) (rest : Bytes) (hist : LHist) (warns : List Exn) :
    ∀ t, Hd hist t → t ++ rest = input → WarnsOK input Hd At warns →
    (tokenLoop env rest hist warns).Post (fun _ s => StOK input Hd At s) (ThrowOK input Hd At) := by
  fun_induction tokenLoop env rest hist warns
  · intro t hd e hw
    obtain ⟨h1, h2⟩ := H.putEof hd e
    exact StOK.eof h1 h2 hw
  · intro t hd e hw
    obtain ⟨h1, h2⟩ := H.put' hd e
    exact stringLoop_hist H _ _ _ _ _ h1 h2 hw
  · intro t hd e hw
    obtain ⟨h1, h2⟩ := H.put' hd e
    exact boolLoop_hist H _ _ _ _ _ _ _ h1 h2 hw ⟨t, rfl⟩ rfl ⟨_, _, rfl, by rename_i hc; rcases hc with rfl | rfl | rfl | rfl <;> decide⟩
  · intro t hd e hw
    obtain ⟨h1, h2⟩ := H.put' hd e
    exact consumeNull_hist H (by assumption) h1 h2 hw
  · rename_i hc
    intro t hd e hw
    obtain ⟨h1, h2⟩ := H.put' hd e
    exact numberLoop_hist H _ _ _ _ _ _ _ h1 (by rcases hc with hc | hc | hc <;> simp [isNumEnd, hc]) h2 hw
  · rename_i hp
    intro t hd e hw
    obtain ⟨h1, h2⟩ := H.put' hd e
    exact StOK.ret h1 h2 (H.at1 _ _ (punct_notBreak hp)) hw
  · rename_i ih
    intro t hd e hw
    obtain ⟨h1, h2⟩ := H.put' hd e
    exact ih _ h1 h2 hw
  · rename_i hi
    intro t hd e hw
    obtain ⟨h1, h2⟩ := H.put' hd e
    exact ⟨_, h1, Or.inl (pre h2), H.at1 _ _ (ignore_notBreak hi)⟩

/-- The history describes what was read: an invariant of the reader. -/
theorem hist_inv (H : HistRel input Hd At) (env : Env) :
    ReaderInv env (StOK input Hd At) (fun _ => True) (fun es => (keys es).Nodup) (ThrowOK input Hd At) := by
  refine readerInv_state env _ _ ?_ ?_ trivial trivial ?_
  · intro s hs
    unfold consumeToken
    split
    · rename_i hg
      obtain ⟨t, h1, h2, _⟩ := hs.good hg
      exact tokenLoop_hist H _ _ _ t h1 h2 hs.warns
    · exact hs
  · intro s k hs _
    exact hs.some
  · intro s k hs _
    exact ⟨hs.good, hs.bad, hs.warns.snoc hs.some⟩

theorem read_hist (H : HistRel input Hd At) (env : Env) (junk : List Byte) (n : Nat) (h0 : Hd (LHist.init junk n) []) :
    (Model.read env (St.init junk n input)).Post (fun _ s => StOK input Hd At s) (ThrowOK input Hd At) := by
  have inv := hist_inv H env
  unfold Model.read
  obtain ⟨k, hk⟩ : ∃ k, 2 * (St.init junk n input).rest.length + 4 = k + 1 := ⟨2 * (St.init junk n input).rest.length + 3, rfl⟩
  rw [hk, readNext]
  refine Post.bind (R := fun _ s => StOK input Hd At s) (tokenLoop_hist H _ _ _ [] h0 rfl (by intro w hw; cases hw)) ?_
  intro tok s hs
  cases tok with
  | val v => exact hs
  | nothing => exact hs
  | punct c =>
    dsimp only
    split
    · exact Post.bind ((reader_inv inv k).2.1 none s hs (by simp)) (fun v s h => h.1)
    · split
      · exact Post.bind ((reader_inv inv k).2.2.1 s hs) (fun v s h => h.1)
      · exact hs

end Verif.Lemmas
