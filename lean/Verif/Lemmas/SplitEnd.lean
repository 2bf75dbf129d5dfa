import Verif.Lemmas.SplitPass
/-!
# The drawing of the diff view ends
-/
namespace Verif.Lemmas.Split
open Verif.Model Verif.Model.Diff Verif.Model.Split

theorem check_y (e : Ptr) (w : Win) : (checkSelection e w).y = w.y := by
  unfold checkSelection
  split
  · split <;> rfl
  · split <;> rfl

theorem item_y (env : Env) (view : View) (side : Bool) (p : Path) (w : Win) : w.y ≤ (redrawItem env view side p w).1.y := by
  cases he : (Elem.value (env.root side)).at p with
  | none =>
    simp only [redrawItem, he]
    rw [check_y]
    exact Nat.le_refl _
  | some e =>
    rw [item_eq env view side p w e he]
    have h := (putAll_y env view (prints env view side ⟨p, false, w.x⟩) (checkSelection (ptr side p) w)).1
    rw [check_y] at h
    cases hp : putAll env view (prints env view side ⟨p, false, w.x⟩) (checkSelection (ptr side p) w) with
    | mk a b =>
      rw [hp] at h
      cases b with
      | false => exact h
      | true =>
        dsimp only
        rw [(enter_frame _ a).2.2.2.1]
        exact h

theorem draw1_y (env : Env) (view : View) (side : Bool) (w : Win) : w.y ≤ (draw1 env view side w).1.y := by
  unfold draw1
  split
  · exact item_y ..
  · next i p rest hst =>
    unfold redrawNext
    split
    · rw [close_eq]
      exact (putAll_y env view _ { w with stack := rest, x := w.x - 4 }).1
    · exact item_y env view side (p ++ [i]) { w with stack := (i + 1, p) :: rest }

theorem one_y (env : Env) (view : View) (side : Bool) (w w' : Win) (c : Bool) (h : redrawOne env view side w = .ok w' c) : w.y ≤ w'.y := by
  have hy := draw1_y env view side w
  rw [redrawOne_eq] at h
  split at h
  · cases h
  split at h
  · rcases complete_spec env view (draw1 env view side w).2 (draw1 env view side w).1 with ⟨hc, _⟩ | ⟨u, d, l, hc, _⟩
    · rw [hc] at h; cases h
    · rw [hc] at h
      cases h
      exact hy
  · cases h
    exact hy

/-- What remains to be drawn in a window. -/
def remOf (env : Env) (view : View) (side : Bool) (b : Bool) (w : Win) : List Item :=
  if b then remaining (env.root side) (cOf view side) w.x w.stack else []

def isAdd (env : Env) (side : Bool) (it : Item) : Bool := (env.equiv (ptr side it.path)).isNone

/-- The window whose selection is drawn first. -/
def firstFound (env : Env) (l0 l1 : Option Ptr) : List Item → List Item → Option Bool
  | [], [] => none
  | [], b :: B => if isSel l1 true b then some true else firstFound env l0 l1 [] B
  | a :: A, [] => if isSel l0 false a then some false else firstFound env l0 l1 A []
  | a :: A, b :: B =>
    if isAdd env false a then (if isSel l0 false a then some false else firstFound env l0 l1 A (b :: B))
    else if isAdd env true b then (if isSel l1 true b then some true else firstFound env l0 l1 (a :: A) B)
    else if isSel l0 false a then some false else if isSel l1 true b then some true else firstFound env l0 l1 A B
termination_by A B => A.length + B.length

def tallAll (env : Env) (view : View) (side : Bool) (l : List Item) : Nat := (l.map (tall env view side)).sum

structure Inv (env : Env) (view : View) (s0 s1 : Nat) (v0 v1 : Win) (T : Nat) (g : Option Bool) (s : Pass) : Prop where
  y : s.w0.y = s.w1.y
  sound0 : s.b0 = true → Sound (env.root false) s.w0.stack
  sound1 : s.b1 = true → Sound (env.root true) s.w1.stack
  bound : s.w0.y + tallAll env view false (remOf env view false s.b0 s.w0) + tallAll env view true (remOf env view true s.b1 s.w1) ≤ T
  last0 : s.w0.last = v0.last
  last1 : s.w1.last = v1.last
  sel0 : s.w0.sel = v0.sel
  sel1 : s.w1.sel = v1.sel
  res0 : s.w0.results = v0.results
  res1 : s.w1.results = v1.results
  scroll0 : (s.w0.found = false → s.w0.scroll = s0) ∧ s.w0.scroll ≤ s0
  scroll1 : (s.w1.found = false → s.w1.scroll = s1) ∧ s.w1.scroll ≤ s1
  none : s.w0.found = false → s.w1.found = false →
    firstFound env v0.last v1.last (remOf env view false s.b0 s.w0) (remOf env view true s.b1 s.w1) = g
  first : s.w0.found = true → s.w1.found = false → g = some false
  second : s.w1.found = true → s.w0.found = false → g = some true

/-- What a turn leaves to be drawn. -/
theorem Turn.rem_eq {env : Env} {view : View} {side : Bool} {w w' : Win} {it : Item} {rest : List Item} {c : Bool}
    (t : Turn env view side w it rest) (h : redrawOne env view side w = .ok w' c) :
    (w'.found = false → remOf env view side (!c) w' = rest) ∧ tallAll env view side (remOf env view side (!c) w') ≤ tallAll env view side rest ∧
    ((!c) = true → Sound (env.root side) w'.stack) := by
  obtain ⟨_, _, _, _, _, _, _, hc0, hc1⟩ := t.ok w' c h
  cases c with
  | false =>
    have := hc0 rfl
    refine ⟨fun _ => this.2.2.2, ?_, fun _ => this.2.2.1⟩
    show tallAll env view side (remaining (env.root side) (cOf view side) w'.x w'.stack) ≤ _
    rw [this.2.2.2]
    exact Nat.le_refl _
  | true =>
    refine ⟨fun hf => ?_, ?_, fun h => by cases h⟩
    · rcases hc1 rfl with h | h
      · exact h.symm
      · rw [hf] at h; cases h
    · show tallAll env view side [] ≤ _
      exact Nat.zero_le _

theorem Turn.rem1 {env : Env} {view : View} {side : Bool} {w : Win} {it : Item} {rest : List Item} (t : Turn env view side w it rest) :
    remOf env view side true w = it :: rest := t.rem

theorem tallAll_cons (env : Env) (view : View) (side : Bool) (a : Item) (l : List Item) :
    tallAll env view side (a :: l) = tall env view side a + tallAll env view side l := rfl

theorem rem_y (env : Env) (view : View) (side b : Bool) (w w' : Win) (hx : w'.x = w.x) (hs : w'.stack = w.stack) :
    remOf env view side b w' = remOf env view side b w := by
  unfold remOf
  rw [hx, hs]

theorem ff_add0 (env : Env) (l0 l1 : Option Ptr) (a : Item) (A B : List Item) (h : isAdd env false a = true) :
    firstFound env l0 l1 (a :: A) B = if isSel l0 false a then some false else firstFound env l0 l1 A B := by
  cases B with
  | nil => rw [firstFound]
  | cons b B => rw [firstFound, if_pos h]

theorem ff_add1 (env : Env) (l0 l1 : Option Ptr) (b : Item) (A B : List Item) (h : isAdd env true b = true)
    (h0 : ∀ a ∈ A.head?, isAdd env false a = false) :
    firstFound env l0 l1 A (b :: B) = if isSel l1 true b then some true else firstFound env l0 l1 A B := by
  cases A with
  | nil => rw [firstFound]
  | cons a A =>
    rw [firstFound, if_neg (by rw [h0 a (by simp)]; simp), if_pos h]

theorem inv_step {env : Env} {view : View} {s0 s1 : Nat} {v0 v1 : Win} {T : Nat} {g : Option Bool} {s t : Pass}
    (h : Step1 env view s t) (i : Inv env view s0 s1 v0 v1 T g s) : Inv env view s0 s1 v0 v1 T g t := by
  cases h with
  | @add0 b1 w0 w1 w c ha ho =>
    obtain ⟨it, rest, t⟩ := turn env view false w0 (i.sound0 rfl)
    obtain ⟨hr1, hr2, hr3⟩ := t.rem_eq ho
    obtain ⟨hf, hsc, hy1, hy2, hsel, hlast, hres, _, _⟩ := t.ok w c ho
    have hb := i.bound
    have hrem := t.rem1
    dsimp only at hb
    rw [hrem, tallAll_cons] at hb
    have hg : Same w1 (gap (w.y - w0.y) w1) := same_gap _ _
    have hgr : remOf env view true b1 (gap (w.y - w0.y) w1) = remOf env view true b1 w1 := by
      rw [gap_eq]; exact rem_y _ _ _ _ _ _ rfl rfl
    have hi0 := i.scroll0
    have hadd : isAdd env false it = true := t.added.symm.trans ha
    have hgap := gap_eq (w.y - w0.y) w1
    have hl0 : w0.last = v0.last := i.last0
    refine ⟨?_, fun h => hr3 h, ?_, ?_, ?_, ?_, ?_, ?_, ?_, ?_, ?_, ?_, ?_, ?_, ?_⟩
    · dsimp only
      have := i.y
      dsimp only at this
      rw [hgap]
      dsimp only
      omega
    · intro hb1
      dsimp only
      rw [hgap]
      exact i.sound1 hb1
    · dsimp only
      rw [hgr]
      omega
    · exact hlast.trans i.last0
    · dsimp only; rw [hgap]; exact i.last1
    · exact hsel.trans i.sel0
    · dsimp only; rw [hgap]; exact i.sel1
    · exact hres.trans i.res0
    · dsimp only; rw [hgap]; exact i.res1
    · dsimp only at hi0 ⊢
      rw [hsc]
      constructor
      · intro hwf
        rw [hf, Bool.or_eq_false_iff] at hwf
        rw [if_neg (by simp [hwf.2])]
        exact hi0.1 hwf.1
      · split
        · next hc => simp only [Bool.and_eq_true, decide_eq_true_eq] at hc; omega
        · exact hi0.2
    · dsimp only; rw [hgap]; exact i.scroll1
    · dsimp only
      rw [hgr, hgap]
      dsimp only
      intro h0 h1
      rw [hr1 h0]
      have h0' := h0
      rw [hf, Bool.or_eq_false_iff] at h0'
      have := i.none h0'.1 h1
      dsimp only at this
      rw [hrem, ff_add0 _ _ _ _ _ _ hadd, ← hl0, h0'.2] at this
      rw [← hl0]
      exact this
    · dsimp only
      rw [hgap]
      dsimp only
      intro h0 h1
      rw [hf] at h0
      cases hwf : w0.found with
      | true => exact i.first hwf h1
      | false =>
        have := i.none hwf h1
        dsimp only at this
        rw [hwf, Bool.false_or] at h0
        rw [hrem, ff_add0 _ _ _ _ _ _ hadd, ← hl0, h0] at this
        exact this.symm
    · dsimp only
      rw [hgap]
      dsimp only
      intro h1 h0
      rw [hf, Bool.or_eq_false_iff] at h0
      exact i.second h1 h0.1
  | @add1 b0 w0 w1 w c hn ha ho =>
    obtain ⟨it, rest, t⟩ := turn env view true w1 (i.sound1 rfl)
    obtain ⟨hr1, hr2, hr3⟩ := t.rem_eq ho
    obtain ⟨hf, hsc, hy1, hy2, hsel, hlast, hres, _, _⟩ := t.ok w c ho
    have hb := i.bound
    have hrem := t.rem1
    dsimp only at hb
    rw [hrem, tallAll_cons] at hb
    have hgr : remOf env view false b0 (gap (w.y - w1.y) w0) = remOf env view false b0 w0 := by
      rw [gap_eq]; exact rem_y _ _ _ _ _ _ rfl rfl
    have hi1 := i.scroll1
    have hadd : isAdd env true it = true := t.added.symm.trans ha
    have hgap := gap_eq (w.y - w1.y) w0
    have hl1 : w1.last = v1.last := i.last1
    have h0a : ∀ a ∈ (remOf env view false b0 w0).head?, isAdd env false a = false := by
      cases b0 with
      | false => simp [remOf]
      | true =>
        obtain ⟨it0, rest0, t0⟩ := turn env view false w0 (i.sound0 rfl)
        rw [t0.rem1]
        intro a ha
        cases ha
        exact t0.added.symm.trans (by simpa using hn)
    refine ⟨?_, ?_, fun h => hr3 h, ?_, ?_, ?_, ?_, ?_, ?_, ?_, ?_, ?_, ?_, ?_, ?_⟩
    · dsimp only
      have := i.y
      dsimp only at this
      rw [hgap]
      dsimp only
      omega
    · intro hb0
      dsimp only
      rw [hgap]
      exact i.sound0 hb0
    · dsimp only
      have := i.y
      dsimp only at this
      rw [hgr]
      rw [hgap]
      dsimp only
      omega
    · dsimp only; rw [hgap]; exact i.last0
    · exact hlast.trans i.last1
    · dsimp only; rw [hgap]; exact i.sel0
    · exact hsel.trans i.sel1
    · dsimp only; rw [hgap]; exact i.res0
    · exact hres.trans i.res1
    · dsimp only; rw [hgap]; exact i.scroll0
    · dsimp only at hi1 ⊢
      rw [hsc]
      constructor
      · intro hwf
        rw [hf, Bool.or_eq_false_iff] at hwf
        rw [if_neg (by simp [hwf.2])]
        exact hi1.1 hwf.1
      · split
        · next hc => simp only [Bool.and_eq_true, decide_eq_true_eq] at hc; omega
        · exact hi1.2
    · dsimp only
      rw [hgr, hgap]
      dsimp only
      intro h0 h1
      rw [hr1 h1]
      have h1' := h1
      rw [hf, Bool.or_eq_false_iff] at h1'
      have := i.none h0 h1'.1
      dsimp only at this
      rw [hrem, ff_add1 _ _ _ _ _ _ hadd h0a, ← hl1, h1'.2] at this
      rw [← hl1]
      exact this
    · dsimp only
      rw [hgap]
      dsimp only
      intro h0 h1
      rw [hf, Bool.or_eq_false_iff] at h1
      exact i.first h0 h1.1
    · dsimp only
      rw [hgap]
      dsimp only
      intro h1 h0
      rw [hf] at h1
      cases hwf : w1.found with
      | true => exact i.second hwf h0
      | false =>
        have := i.none h0 hwf
        dsimp only at this
        rw [hwf, Bool.false_or] at h1
        rw [hrem, ff_add1 _ _ _ _ _ _ hadd h0a, ← hl1, h1] at this
        exact this.symm
  | @both w0 w1 w w' c c' ha ha' ho ho' =>
    obtain ⟨it, rest, t⟩ := turn env view false w0 (i.sound0 rfl)
    obtain ⟨it', rest', t'⟩ := turn env view true w1 (i.sound1 rfl)
    obtain ⟨hr1, hr2, hr3⟩ := t.rem_eq ho
    obtain ⟨hr1', hr2', hr3'⟩ := t'.rem_eq ho'
    obtain ⟨hf, hsc, hy1, hy2, hsel, hlast, hres, _, _⟩ := t.ok w c ho
    obtain ⟨hf', hsc', hy1', hy2', hsel', hlast', hres', _, _⟩ := t'.ok w' c' ho'
    have hb := i.bound
    have hrem := t.rem1
    have hrem' := t'.rem1
    dsimp only at hb
    rw [hrem, hrem', tallAll_cons, tallAll_cons] at hb
    have hadd : isAdd env false it = false := t.added.symm.trans ha
    have hadd' : isAdd env true it' = false := t'.added.symm.trans ha'
    have hi0 := i.scroll0
    have hi1 := i.scroll1
    have hl0 : w0.last = v0.last := i.last0
    have hl1 : w1.last = v1.last := i.last1
    have hy := i.y
    dsimp only at hy
    have hff : firstFound env v0.last v1.last (it :: rest) (it' :: rest') =
        if isSel w0.last false it then some false else if isSel w1.last true it' then some true else firstFound env v0.last v1.last rest rest' := by
      rw [firstFound, if_neg (by rw [hadd]; simp), if_neg (by rw [hadd']; simp), hl0, hl1]
    have hnone := i.none
    dsimp only at hnone
    rw [hrem, hrem', hff] at hnone
    refine ⟨?_, fun h => hr3 h, fun h => hr3' h, ?_, ?_, ?_, ?_, ?_, ?_, ?_, ?_, ?_, ?_, ?_, ?_⟩
    · dsimp only; omega
    · dsimp only
      rw [rem_y env view false (!c) w { w with y := w0.y + max (w.y - w0.y) (w'.y - w1.y) } rfl rfl,
        rem_y env view true (!c') w' { w' with y := w1.y + max (w.y - w0.y) (w'.y - w1.y) } rfl rfl]
      omega
    · exact hlast.trans i.last0
    · exact hlast'.trans i.last1
    · exact hsel.trans i.sel0
    · exact hsel'.trans i.sel1
    · exact hres.trans i.res0
    · exact hres'.trans i.res1
    · dsimp only at hi0 ⊢
      rw [hsc]
      constructor
      · intro hwf
        rw [hf, Bool.or_eq_false_iff] at hwf
        rw [if_neg (by simp [hwf.2])]
        exact hi0.1 hwf.1
      · split
        · next hc => simp only [Bool.and_eq_true, decide_eq_true_eq] at hc; omega
        · exact hi0.2
    · dsimp only at hi1 ⊢
      rw [hsc']
      constructor
      · intro hwf
        rw [hf', Bool.or_eq_false_iff] at hwf
        rw [if_neg (by simp [hwf.2])]
        exact hi1.1 hwf.1
      · split
        · next hc => simp only [Bool.and_eq_true, decide_eq_true_eq] at hc; omega
        · exact hi1.2
    · dsimp only
      intro h0 h1
      rw [rem_y env view false (!c) w { w with y := w0.y + max (w.y - w0.y) (w'.y - w1.y) } rfl rfl,
        rem_y env view true (!c') w' { w' with y := w1.y + max (w.y - w0.y) (w'.y - w1.y) } rfl rfl, hr1 h0, hr1' h1]
      rw [hf, Bool.or_eq_false_iff] at h0
      rw [hf', Bool.or_eq_false_iff] at h1
      have := hnone h0.1 h1.1
      rw [h0.2, h1.2] at this
      exact this
    · dsimp only
      intro h0 h1
      rw [hf', Bool.or_eq_false_iff] at h1
      rw [hf] at h0
      cases hwf : w0.found with
      | true => exact i.first hwf h1.1
      | false =>
        have := hnone hwf h1.1
        rw [hwf, Bool.false_or] at h0
        rw [h0] at this
        exact this.symm
    · dsimp only
      intro h1 h0
      rw [hf, Bool.or_eq_false_iff] at h0
      rw [hf'] at h1
      cases hwf : w1.found with
      | true => exact i.second hwf h0.1
      | false =>
        have := hnone h0.1 hwf
        rw [hwf, Bool.false_or] at h1
        rw [h0.2, h1] at this
        exact this.symm
  | @only0 w0 w1 w c ha ho =>
    obtain ⟨it, rest, t⟩ := turn env view false w0 (i.sound0 rfl)
    obtain ⟨hr1, hr2, hr3⟩ := t.rem_eq ho
    obtain ⟨hf, hsc, hy1, hy2, hsel, hlast, hres, _, _⟩ := t.ok w c ho
    have hb := i.bound
    have hrem := t.rem1
    dsimp only at hb
    rw [hrem, tallAll_cons] at hb
    have hi0 := i.scroll0
    have hl0 : w0.last = v0.last := i.last0
    have hy := i.y
    dsimp only at hy
    have hff : firstFound env v0.last v1.last (it :: rest) [] =
        if isSel w0.last false it then some false else firstFound env v0.last v1.last rest [] := by
      rw [firstFound, hl0]
    have hnone := i.none
    dsimp only at hnone
    rw [hrem, show remOf env view true false w1 = [] from rfl, hff] at hnone
    refine ⟨?_, fun h => hr3 h, fun h => (by cases h), ?_, ?_, i.last1, ?_, i.sel1, ?_, i.res1, ?_, i.scroll1, ?_, ?_, ?_⟩
    · dsimp only; omega
    · dsimp only
      rw [rem_y env view false (!c) w { w with y := w0.y + (w.y - w0.y) } rfl rfl]
      have : tallAll env view true (remOf env view true false { w1 with y := w1.y + (w.y - w0.y) }) = 0 := rfl
      omega
    · exact hlast.trans i.last0
    · exact hsel.trans i.sel0
    · exact hres.trans i.res0
    · dsimp only at hi0 ⊢
      rw [hsc]
      constructor
      · intro hwf
        rw [hf, Bool.or_eq_false_iff] at hwf
        rw [if_neg (by simp [hwf.2])]
        exact hi0.1 hwf.1
      · split
        · next hc => simp only [Bool.and_eq_true, decide_eq_true_eq] at hc; omega
        · exact hi0.2
    · dsimp only
      intro h0 h1
      rw [rem_y env view false (!c) w { w with y := w0.y + (w.y - w0.y) } rfl rfl, hr1 h0]
      rw [hf, Bool.or_eq_false_iff] at h0
      have := hnone h0.1 h1
      rw [h0.2] at this
      exact this
    · dsimp only
      intro h0 h1
      rw [hf] at h0
      cases hwf : w0.found with
      | true => exact i.first hwf h1
      | false =>
        have := hnone hwf h1
        rw [hwf, Bool.false_or] at h0
        rw [h0] at this
        exact this.symm
    · dsimp only
      intro h1 h0
      rw [hf, Bool.or_eq_false_iff] at h0
      exact i.second h1 h0.1
  | @only1 w0 w1 w c ha ho =>
    obtain ⟨it, rest, t⟩ := turn env view true w1 (i.sound1 rfl)
    obtain ⟨hr1, hr2, hr3⟩ := t.rem_eq ho
    obtain ⟨hf, hsc, hy1, hy2, hsel, hlast, hres, _, _⟩ := t.ok w c ho
    have hb := i.bound
    have hrem := t.rem1
    dsimp only at hb
    rw [hrem, tallAll_cons] at hb
    have hi1 := i.scroll1
    have hl1 : w1.last = v1.last := i.last1
    have hy := i.y
    dsimp only at hy
    have hff : firstFound env v0.last v1.last [] (it :: rest) =
        if isSel w1.last true it then some true else firstFound env v0.last v1.last [] rest := by
      rw [firstFound, hl1]
    have hnone := i.none
    dsimp only at hnone
    rw [hrem, show remOf env view false false w0 = [] from rfl, hff] at hnone
    refine ⟨?_, fun h => (by cases h), fun h => hr3 h, ?_, i.last0, ?_, i.sel0, ?_, i.res0, ?_, i.scroll0, ?_, ?_, ?_, ?_⟩
    · dsimp only; omega
    · dsimp only
      rw [rem_y env view true (!c) w { w with y := w1.y + (w.y - w1.y) } rfl rfl]
      have : tallAll env view false (remOf env view false false { w0 with y := w0.y + (w.y - w1.y) }) = 0 := rfl
      omega
    · exact hlast.trans i.last1
    · exact hsel.trans i.sel1
    · exact hres.trans i.res1
    · dsimp only at hi1 ⊢
      rw [hsc]
      constructor
      · intro hwf
        rw [hf, Bool.or_eq_false_iff] at hwf
        rw [if_neg (by simp [hwf.2])]
        exact hi1.1 hwf.1
      · split
        · next hc => simp only [Bool.and_eq_true, decide_eq_true_eq] at hc; omega
        · exact hi1.2
    · dsimp only
      intro h0 h1
      rw [rem_y env view true (!c) w { w with y := w1.y + (w.y - w1.y) } rfl rfl, hr1 h1]
      rw [hf, Bool.or_eq_false_iff] at h1
      have := hnone h0 h1.1
      rw [h1.2] at this
      exact this
    · dsimp only
      intro h0 h1
      rw [hf, Bool.or_eq_false_iff] at h1
      exact i.first h0 h1.1
    · dsimp only
      intro h1 h0
      rw [hf] at h1
      cases hwf : w1.found with
      | true => exact i.second hwf h0
      | false =>
        have := hnone h0 hwf
        rw [hwf, Bool.false_or] at h1
        rw [h1] at this
        exact this.symm

theorem inv_steps {env : Env} {view : View} {s0 s1 : Nat} {v0 v1 : Win} {T : Nat} {g : Option Bool} {s t : Pass}
    (h : Steps env view s t) (i : Inv env view s0 s1 v0 v1 T g s) : Inv env view s0 s1 v0 v1 T g t := by
  induction h with
  | refl => exact i
  | tail _ h ih => exact inv_step h ih

end Verif.Lemmas.Split
